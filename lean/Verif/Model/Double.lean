import Mathlib.Data.Rat.Floor
import Mathlib.Algebra.Order.Field.Power
import Verif.Go
import Verif.Model.Float

/-!
# Double precision

The numbers of IEEE 754, the Go type float64, with the operations that /repo uses (interface `GoFloat`): the exact result is
computed in the rationals and rounded to the nearest double, to the even one of two.  There is one NaN only; conversions to integers
of what is not in their range, which Go leaves open, wrap around, and give 0 for NaN and infinities.
-/

namespace Gobufr

/-- A format: numbers m * 2 ^ e with m of `p` bits and e from `emin` to `emax`. -/
structure Format where
  p : Nat
  emin : Int
  emax : Int

/-- float64 -/
def double : Format := ⟨53, -1074, 971⟩

/-- float32 -/
def single : Format := ⟨24, -149, 104⟩

/-- The way a number is written in the format: with all bits of m in use, unless e is the least. -/
def Format.Canon (f : Format) (m : Nat) (e : Int) : Prop :=
  m < 2 ^ f.p ∧ f.emin ≤ e ∧ e ≤ f.emax ∧ (2 ^ (f.p - 1) ≤ m ∨ e = f.emin)

instance (f : Format) (m : Nat) (e : Int) : Decidable (f.Canon m e) := inferInstanceAs (Decidable (_ ∧ _))

/-- 2 ^ e -/
def pow2 (e : Int) : ℚ := if 0 ≤ e then ((2 ^ e.toNat : Nat) : ℚ) else mkRat 1 (2 ^ (-e).toNat)

/-- The greatest k with 2 ^ k ≤ q, for a positive q. -/
def floorLog (q : ℚ) : Int :=
  let k := (Nat.log2 q.num.toNat : Int) - Nat.log2 q.den
  if pow2 k ≤ q then k else k - 1

/-- The natural number nearest q, the even one of two; q is not negative. -/
def roundEven (q : ℚ) : Nat :=
  let k := q.floor.toNat
  if q - k < 1 / 2 then k
  else if 1 / 2 < q - k then k + 1
  else if k % 2 = 0 then k else k + 1

/-- The exponent with which q, not negative, is written. -/
def Format.exponent (f : Format) (q : ℚ) : Int :=
  if q = 0 then f.emin else max (floorLog q - (f.p - 1 : Nat)) f.emin

/-- The number nearest q, not negative, as if there was no greatest exponent. -/
def Format.round (f : Format) (q : ℚ) : Nat × Int :=
  let e := f.exponent q
  let m := roundEven (q / pow2 e)
  if m = 2 ^ f.p then (2 ^ (f.p - 1), e + 1) else (m, e)

/-- float64: bufr/info.go (Refval), the values of deserialize/unpack/unpacker.go:37-55 -/
inductive Double where
  | nan
  | inf (neg : Bool)
  | fin (neg : Bool) (m : Nat) (e : Int) (h : double.Canon m e)
  deriving DecidableEq

namespace Double

/-- The magnitude of a finite number. -/
def mag : Double → ℚ
  | fin _ m e _ => m * pow2 e
  | _ => 0

def neg : Double → Bool
  | nan => false
  | inf n => n
  | fin n _ _ _ => n

/-- The number, if it is finite. -/
def val (a : Double) : ℚ := if a.neg then -a.mag else a.mag

/-- The double nearest to a number given by sign and magnitude. -/
def round (neg : Bool) (q : ℚ) : Double :=
  if h : double.Canon (double.round q).1 (double.round q).2 then fin neg _ _ h else inf neg

/-- The double nearest to q; 0 is positive. -/
def ofRat (q : ℚ) : Double := round (decide (q < 0)) |q|

/-- `a + b`: deserialize/unpack/unpacker.go:37-55 -/
def add : Double → Double → Double
  | nan, _ => nan
  | _, nan => nan
  | inf n, inf n' => if n = n' then inf n else nan
  | inf n, _ => inf n
  | _, inf n => inf n
  | a@(fin n _ _ _), b@(fin n' _ _ _) => if a.val + b.val = 0 then round (n && n') 0 else ofRat (a.val + b.val)

/-- `a * b`: deserialize/payload/helpers.go:38,40 -/
def mul : Double → Double → Double
  | nan, _ => nan
  | _, nan => nan
  | inf n, inf n' => inf (n ^^ n')
  | inf n, fin n' m _ _ => if m = 0 then nan else inf (n ^^ n')
  | fin n m _ _, inf n' => if m = 0 then nan else inf (n ^^ n')
  | a@(fin n _ _ _), b@(fin n' _ _ _) => round (n ^^ n') (a.mag * b.mag)

/-- `a / b`: deserialize/unpack/unpacker.go:37-55 -/
def div : Double → Double → Double
  | nan, _ => nan
  | _, nan => nan
  | inf _, inf _ => nan
  | inf n, fin n' _ _ _ => inf (n ^^ n')
  | fin n _ _ _, inf n' => round (n ^^ n') 0
  | a@(fin n m _ _), b@(fin n' m' _ _) =>
    if m' = 0 then (if m = 0 then nan else inf (n ^^ n')) else round (n ^^ n') (a.mag / b.mag)

/-- `math.Pow10(n)` (deserialize/unpack/unpacker.go:37-55, deserialize/payload/helpers.go:38,40): for 0 ≤ n ≤ 308
the product of two constants, 10 ^ (n rounded down to a multiple of 32) and 10 to the power of
the rest, for -323 ≤ n < 0 the quotient of two. -/
def pow10 (n : Int) : Double :=
  if 0 ≤ n ∧ n ≤ 308 then mul (round false (10 ^ (n.toNat / 32 * 32) : Nat)) (round false (10 ^ (n.toNat % 32) : Nat))
  else if -323 ≤ n ∧ n ≤ 0 then
    div (round false (mkRat 1 (10 ^ ((-n).toNat / 32 * 32)))) (round false (10 ^ ((-n).toNat % 32) : Nat))
  else if 0 < n then inf false
  else round false 0

/-- `math.Round(a)` (bufr/cell.go:61,74) as an integer: half away from zero. -/
def nearInt (a : Double) : Int := if a.neg then -(a.mag + 1 / 2).floor else (a.mag + 1 / 2).floor

/-- The integer part: `uint(v)`, `int(v)` (tdcfio/flatjsonreader.go:107-122). -/
def truncated (a : Double) : Int := if a.neg then -a.mag.floor else a.mag.floor

/-- `a == b`: comparisons of values as interfaces -/
def eq : Double → Double → Bool
  | nan, _ => false
  | _, nan => false
  | inf n, inf n' => n == n'
  | inf _, _ => false
  | _, inf _ => false
  | a, b => a.val == b.val

/-- `float64(math.Float32frombits(n))` (tdcfio/bitreader.go:106-114): sign, 8 bits for the exponent, 23 bits for the number. -/
def ofFloat32Bits (n : Nat) : Double :=
  let s := n / 2 ^ 31 % 2 == 1
  let x : Nat := n / 2 ^ 23 % 2 ^ 8
  let m : Nat := n % 2 ^ 23
  if x = 255 then (if m = 0 then inf s else nan)
  else if x = 0 then round s (m * pow2 (-149))
  else round s (((2 ^ 23 + m : Nat) : ℚ) * pow2 ((x : Int) - 150))

/-- `math.Float32bits(float32(a))`: tdcfio/bitwriter.go:77-79 -/
def toFloat32Bits : Double → Nat
  | nan => 0x7FC00000
  | inf n => (if n then 2 ^ 31 else 0) + 255 * 2 ^ 23
  | a@(fin n _ _ _) =>
    let x := single.round a.mag
    (if n then 2 ^ 31 else 0) +
      if single.emax < x.2 then 255 * 2 ^ 23
      else if x.1 < 2 ^ 23 then x.1
      else (x.2 + 150).toNat * 2 ^ 23 + (x.1 - 2 ^ 23)

instance : GoFloat Double where
  ofNat n := round false n
  ofInt i := ofRat i
  add := add
  mul := mul
  div := div
  pow10 := pow10
  isZero a := match a with
    | fin _ m _ _ => m == 0
    | _ => false
  eq := eq
  roundUint a := toUint a.nearInt
  roundInt a := toInt64 a.nearInt
  truncUint a := toUint a.truncated
  truncInt a := toInt64 a.truncated
  ofFloat32Bits := ofFloat32Bits
  toFloat32Bits := toFloat32Bits

end Double
end Gobufr
