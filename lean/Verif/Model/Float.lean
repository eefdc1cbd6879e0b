/-!
# Go float64

Floating point is not interpreted by the model: it is a type `F` with the operations the
code applies to `float64` values.  Theorems that do not depend on what the operations
compute hold for every instance; those that need arithmetic facts assume
`LawfulGoFloat`, which `Verif/Model/FloatInst.lean` shows to be satisfiable.
-/

namespace Gobufr

/-- The float64 operations used in /repo. -/
class GoFloat (F : Type) where
  /-- `float64(u)` for an unsigned `u` -/
  ofNat : Nat → F
  /-- `float64(i)` for a signed `i` -/
  ofInt : Int → F
  /-- `a + b` -/
  add : F → F → F
  /-- `a * b` -/
  mul : F → F → F
  /-- `a / b` -/
  div : F → F → F
  /-- `math.Pow10(n)` -/
  pow10 : Int → F
  /-- `a == 0` -/
  isZero : F → Bool
  /-- `a == b` -/
  eq : F → F → Bool
  /-- `uint(math.Round(a))` -/
  roundUint : F → Nat
  /-- `int(math.Round(a))` -/
  roundInt : F → Int
  /-- `uint(a)` -/
  truncUint : F → Nat
  /-- `int(a)` -/
  truncInt : F → Int
  /-- `float64(math.Float32frombits(n))` -/
  ofFloat32Bits : Nat → F
  /-- `math.Float32bits(float32(a))` -/
  toFloat32Bits : F → Nat

/-- Facts about IEEE 754 double precision that some theorems use. -/
class LawfulGoFloat (F : Type) [GoFloat F] : Prop where
  /-- integers up to 2^53 are represented exactly -/
  roundUint_ofNat : ∀ n : Nat, n ≤ 2 ^ 53 → GoFloat.roundUint (GoFloat.ofNat n : F) = n
  roundInt_ofNat : ∀ n : Nat, n ≤ 2 ^ 53 → GoFloat.roundInt (GoFloat.ofNat n : F) = n
  truncUint_ofNat : ∀ n : Nat, n ≤ 2 ^ 53 → GoFloat.truncUint (GoFloat.ofNat n : F) = n
  truncInt_ofNat : ∀ n : Nat, n ≤ 2 ^ 53 → GoFloat.truncInt (GoFloat.ofNat n : F) = n
  roundInt_ofInt : ∀ i : Int, i.natAbs ≤ 2 ^ 53 → GoFloat.roundInt (GoFloat.ofInt i : F) = i
  truncInt_ofInt : ∀ i : Int, i.natAbs ≤ 2 ^ 53 → GoFloat.truncInt (GoFloat.ofInt i : F) = i
  /-- adding a zero to a non-negative integer changes nothing -/
  add_zero : ∀ (n : Nat) (z : F), GoFloat.isZero z = true →
    GoFloat.add (GoFloat.ofNat n) z = GoFloat.ofNat n
  /-- dividing by `math.Pow10(0)`, that is 1, changes nothing -/
  div_one : ∀ a : F, GoFloat.div a (GoFloat.pow10 0) = a
  /-- a float32 bit pattern survives widening and narrowing unless it is a NaN -/
  float32_roundtrip : ∀ n : Nat, n < 2 ^ 32 → ¬ ((n / 2 ^ 23) % 2 ^ 8 = 255 ∧ n % 2 ^ 23 ≠ 0) →
    GoFloat.toFloat32Bits (GoFloat.ofFloat32Bits n : F) = n

end Gobufr
