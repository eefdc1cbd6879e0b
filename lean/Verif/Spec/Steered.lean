import Verif.Spec.Fixed

/-!
# Specification vocabulary: templates steered by elements of class 31
-/

namespace Gobufr
namespace EncodeSpec

variable {F : Type}

/-- Elements of class 31: replication factors and data present indicators, among others. -/
def steers (d : NodeDesc) : Bool := d.d.any fun d => d.id.X == 31

/-- The values of the elements of class 31 that a subset reports. -/
def steering (l : List (Option (NodeDesc × PackingInfo F × Val F))) : List (Val F) :=
  l.filterMap fun o => o.bind fun x => if steers x.1 then some x.2.2 else none

/-- The elements and packings that a subset reports. -/
def places (l : List (Option (NodeDesc × PackingInfo F × Val F))) : List (Option (NodeDesc × PackingInfo F)) :=
  l.map fun o => o.map fun x => (x.1, x.2.1)

/-- Nodes that may be in a bitmap: elements of class 31 and their repetition. -/
def indicates : Ast → Bool
  | .element d _ => d.id.X == 31
  | .sequence _ _ | .fixedRepl _ _ | .delayedRepl _ _ => true
  | _ => false

/-- The factor of a delayed replication, and all elements of a bitmap, are of class 31. -/
def steered : Ast → Bool
  | .delayedRepl _ (.element d _ :: _) => d.id.X == 31
  | .delayedRepl _ _ => false
  | .bitmap _ ms => (ParserSpec.nodesL ms).all indicates
  | _ => true

/-- A template of such nodes. -/
def Steered (ns : List Ast) : Prop := ∀ n ∈ ParserSpec.nodesL ns, steered n = true

instance (ns : List Ast) : Decidable (Steered ns) := inferInstanceAs (Decidable (∀ n ∈ ParserSpec.nodesL ns, steered n = true))

end EncodeSpec
end Gobufr
