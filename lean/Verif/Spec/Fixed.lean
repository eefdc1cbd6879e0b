import Verif.Spec.Decoded
import Verif.Spec.Parser

/-!
# Specification vocabulary: templates whose data have a fixed layout
-/

namespace Gobufr
namespace EncodeSpec

variable {F : Type}

/-- Replication by a factor in the data, or use of bitmaps. -/
def depends : Ast → Bool
  | .delayedRepl _ _ | .bitmap _ _ | .assessment _ _ _ _ => true
  | _ => false

/-- A template without. -/
def Unvarying (ns : List Ast) : Prop := ∀ n ∈ ParserSpec.nodesL ns, depends n = false

instance (ns : List Ast) : Decidable (Unvarying ns) := inferInstanceAs (Decidable (∀ n ∈ ParserSpec.nodesL ns, depends n = false))

/-- What stands at each place of a subset: the element and its packing. -/
abbrev Plan (F : Type) := List (NodeDesc × PackingInfo F)

/-- The bits of one subset. -/
def Plan.width (l : Plan F) : Nat := (l.map fun x => x.2.nbits.toNat).sum

/-- The bits before place `k`. -/
def Plan.offset (l : Plan F) (k : Nat) : Nat := Plan.width (l.take k)

/-- `n` bits from bit `i` on. -/
def bitsAt (b : List Bool) (i n : Nat) : List Bool := (b.drop i).take n

end EncodeSpec
end Gobufr
