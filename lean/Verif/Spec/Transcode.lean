import Verif.Spec.Encode

/-!
# Specification vocabulary: the same values, compressed or not

Which elements shape a data section (replication factors and the bits of bitmaps), which templates use no others for that,
and the values of one element in all subsets.
-/

namespace Gobufr
namespace EncodeSpec
open Flat

variable {F : Type}

/-- Replication factors and data present indicators: class 31 but for the significance of associated fields. -/
def shaping (d : Desc) : Bool := d.id.X == 31 && !(d.id == 31021)

mutual
/-- Nodes all of whose values are such. -/
def marks : Ast → Bool
  | .element d _ => shaping d
  | .sequence _ ms | .fixedRepl _ ms | .delayedRepl _ ms => marksL ms
  | _ => false
/-- All nodes of a list are. -/
def marksL : List Ast → Bool
  | [] => true
  | m :: ms => marks m && marksL ms
end

mutual
/-- Templates in which all replication factors and bits of bitmaps are such. -/
def regular : Ast → Bool
  | .delayedRepl _ ms => regularL ms && match ms with
    | .element d _ :: _ => shaping d
    | _ => false
  | .bitmap _ ms => marksL ms && regularL ms
  | .assessment _ bm as ms => regular bm && regularL as && regularL ms
  | .base _ ms | .sequence _ ms | .fixedRepl _ ms | .newRefval _ ms | .assocField _ ms | .dataNotPresent _ ms => regularL ms
  | _ => true
/-- All nodes of a list are. -/
def regularL : List Ast → Bool
  | [] => true
  | m :: ms => regular m && regularL ms
end

/-- Two values that shape the data in the same way. -/
def Agree [GoFloat F] (v w : Val F) : Prop := numberOf v = numberOf w ∧ Alike v w

/-- What a data section says: for each subset the elements, their packings and values. -/
abbrev Grid (F : Type) := List (List (Option (NodeDesc × PackingInfo F × Val F)))

/-- The values number `i` of all subsets. -/
def valuesAt (xs : Grid F) (i : Nat) : List (Val F) :=
  xs.map fun x => match x[i]? with
    | some (some (_, _, v)) => v
    | _ => .nil

/-- The subsets have the same elements, packed in the same way. -/
def SameShape (xs : Grid F) : Prop :=
  ∀ x ∈ xs, ∀ x' ∈ xs, x.map (Option.map fun a => (a.1, a.2.1)) = x'.map (Option.map fun a => (a.1, a.2.1))

/-- Replication factors and bits of bitmaps are the same in all subsets. -/
def SameFactors [GoFloat F] (xs : Grid F) : Prop :=
  ∀ x ∈ xs, ∀ (i : Nat) (d : Desc) (info : PackingInfo F) (v : Val F), x[i]? = some (some (⟨some d, false⟩, info, v)) →
    shaping d = true → ∀ w ∈ valuesAt xs i, Agree v w

end EncodeSpec
end Gobufr
