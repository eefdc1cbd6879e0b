import Verif.Spec.Accuracy
import Verif.Model.Bufr

/-!
# Specification vocabulary: elements whose values say what was written
-/

namespace Gobufr
namespace AccuracySpec

/-- Nothing is lost: numbers have at most 47 bits, an integer of at most 47 bits as reference value and a scale from -200 to 200; codes with
a sign are excepted, because zero has two signs. -/
def Lossless (info : PackingInfo Double) : Prop :=
  match info.unit with
  | .numeric => info.nbits ≤ 47 ∧ -200 ≤ info.scale ∧ info.scale ≤ 200 ∧ ∃ ref : Int, ref.natAbs ≤ 2 ^ 47 ∧ Exactly info.refval ref
  | .code => False
  | _ => True

/-- The value is missing, or a number as exact as can be: there is an integer `raw` such that, with an integer as reference value, it is the
double nearest to the exact value for scales from 0 to 22, the exact value for scales from -4 to -1, and for scales from -200 to
200 as good as raw + reference and within a relative error of 2 ^ -50; as long as the integers are not too large. -/
def Accurate (info : PackingInfo Double) (v : Val Double) : Prop :=
  v = .nil ∨ ∃ (raw : Nat) (f : Double), v = .float f ∧ raw < 2 ^ 64 ∧ ∀ ref : Int, Exactly info.refval ref → raw ≤ 2 ^ 53 →
    (0 ≤ info.scale → info.scale ≤ 22 → (raw + ref).natAbs ≤ 2 ^ 53 → Nearest f (exact raw ref info.scale)) ∧
    (∀ k : Nat, info.scale = -k → k ≤ 4 → (raw + ref).natAbs * 10 ^ k < 2 ^ 53 → Exactly f (exact raw ref info.scale)) ∧
    (-200 ≤ info.scale → info.scale ≤ 200 → (raw + ref).natAbs ≤ 2 ^ 48 →
      Finite f ∧ |f.val * 10 ^ info.scale - (raw + ref : Int)| < 1 / 2) ∧
    (-200 ≤ info.scale → info.scale ≤ 200 → (raw + ref).natAbs ≤ 2 ^ 53 →
      Finite f ∧ |f.val - exact raw ref info.scale| ≤ |exact raw ref info.scale| / 2 ^ 50)

end AccuracySpec
end Gobufr
