import Verif.Spec.Bits

/-!
# Specification: start signature, descriptors in section 3
-/

namespace Spec

/-- The bytes `BUFR`. -/
def signature : List UInt8 := [0x42, 0x55, 0x46, 0x52]

/-- A descriptor (F, X, Y) spelled with the given widths. -/
def descriptorBits (fb xb yb : Nat) (d : Nat × Nat × Nat) : List Bool :=
  natBits fb d.1 ++ natBits xb d.2.1 ++ natBits yb d.2.2

/-- The number of the descriptor (F, X, Y). -/
def descriptorNumber (d : Nat × Nat × Nat) : Int := (d.1 * 100000 + d.2.1 * 1000 + d.2.2 : Nat)

/-- The widths are those of machine words, the components fit in them, and the number of the
descriptor is a positive machine integer. -/
def Fits (fb xb yb : Nat) (d : Nat × Nat × Nat) : Prop :=
  fb ≤ 64 ∧ xb ≤ 64 ∧ yb ≤ 64 ∧ d.1 < 2 ^ fb ∧ d.2.1 < 2 ^ xb ∧ d.2.2 < 2 ^ yb ∧
    d.1 * 100000 + d.2.1 * 1000 + d.2.2 < 2 ^ 63

instance : Decidable (Fits fb xb yb d) := by unfold Fits; infer_instance

end Spec
