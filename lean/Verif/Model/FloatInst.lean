import Verif.Go
import Verif.Model.Float

/-!
# A simple instance of the float interface

Integers as "floats": exact addition and multiplication, truncating division.  Used for
concrete examples and to show that the laws of `LawfulGoFloat` are satisfiable.
-/

namespace Gobufr

/-- Integer stand-in for float64. -/
structure ToyFloat where
  val : Int
  deriving Repr, DecidableEq, Inhabited

instance : GoFloat ToyFloat where
  ofNat n := ⟨n⟩
  ofInt i := ⟨i⟩
  add a b := ⟨a.val + b.val⟩
  mul a b := ⟨a.val * b.val⟩
  div a b := ⟨a.val.tdiv b.val⟩
  pow10 n := ⟨if n < 0 then 0 else 10 ^ n.toNat⟩
  isZero a := a.val == 0
  eq a b := a.val == b.val
  roundUint a := toUint a.val
  roundInt a := toInt64 a.val
  truncUint a := toUint a.val
  truncInt a := toInt64 a.val
  ofFloat32Bits n := ⟨n⟩
  toFloat32Bits a := a.val.toNat % 2 ^ 32

theorem toInt64_of_small {i : Int} (h : i.natAbs ≤ 2 ^ 53) : toInt64 i = i := by
  unfold toInt64 two64
  rw [Int.bmod_eq_iff (by decide)]
  refine ⟨by omega, by omega, ?_⟩
  simp

instance : LawfulGoFloat ToyFloat where
  roundUint_ofNat n h := toUint_of_lt (by unfold two64; omega)
  roundInt_ofNat n h := by
    show toInt64 (n : Int) = n
    exact toInt64_of_small (by omega)
  truncUint_ofNat n h := toUint_of_lt (by unfold two64; omega)
  truncInt_ofNat n h := by
    show toInt64 (n : Int) = n
    exact toInt64_of_small (by omega)
  roundInt_ofInt i h := toInt64_of_small h
  truncInt_ofInt i h := toInt64_of_small h
  add_zero n z h := by
    have hz : z.val = 0 := by simpa [GoFloat.isZero] using h
    show (⟨(n : Int) + z.val⟩ : ToyFloat) = ⟨n⟩
    rw [hz, Int.add_zero]
  div_one a := by
    show (⟨a.val.tdiv (if (0 : Int) < 0 then 0 else 10 ^ (0 : Int).toNat)⟩ : ToyFloat) = a
    simp
  float32_roundtrip n h _ := by
    show (n : Int).toNat % 2 ^ 32 = n
    rw [Int.toNat_natCast, Nat.mod_eq_of_lt h]

end Gobufr
