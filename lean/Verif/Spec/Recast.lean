import Verif.Spec.Decoded
import Verif.Spec.Transcode

/-!
# Specification vocabulary: the same message in the other form

What two messages have in common of which one is compressed and the other is not, and how many bits their data take.
-/

namespace Spec
open Gobufr Layout EncodeSpec

variable {F : Type}

/-- The fields that belong to the form of the data: the total length, the flag and the length of section 4. -/
def formal : List (Nat × String) := [(0, "totalLengthInBytes"), (3, "isCompressed"), (4, "lengthInBytes")]

/-- Two messages that have the same sections, the same numbers, flags and texts in all their fields of fixed width but those
of the form, and the same template. -/
def SameHead (m m' : Message F) : Prop :=
  (∃ e b, MessageHas m (Layout.sections e b) ∧ MessageHas m' (Layout.sections e b) ∧
    ∀ x ∈ Layout.sections e b, ∀ f ∈ x.fields, ∀ w, f.width = some w → kindOf (Gobufr.str f.name) ≠ .bits →
      (x.number, f.name) ∉ formal → ∃ v, fieldValue m x.number f.name = some v ∧ fieldValue m' x.number f.name = some v) ∧
  ∃ ids, templateOf m = some ids ∧ templateOf m' = some ids

/-- The sum of the widths of all values. -/
def widths (xs : Grid F) : Nat :=
  (xs.map fun x => (x.map fun a => match a with
    | some (_, info, _) => info.nbits.toNat
    | none => 0).sum).sum

/-- The sum of the sizes of the columns, if that of the values `vs` has the size `size info vs`. -/
def columns (size : PackingInfo F → List (Val F) → Nat) (xs : Grid F) : Nat :=
  ((xs.headD []).mapIdx fun i a => match a with
    | some (_, info, _) => size info (valuesAt xs i)
    | none => 0).sum

/-- Section 4 has room for that many bits. -/
def Room (n : Nat) : Prop := 4 + (n + 7) / 8 < 2 ^ 24

end Spec
