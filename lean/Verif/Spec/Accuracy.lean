import Verif.Model.Double

/-!
# Specification vocabulary: doubles and exact numbers
-/

namespace Gobufr
namespace AccuracySpec

/-- Neither NaN nor infinite. -/
def Finite (d : Double) : Prop := ∃ n m e h, d = .fin n m e h

/-- The double is the number. -/
def Exactly (d : Double) (x : ℚ) : Prop := Finite d ∧ d.val = x

/-- A finite number m * 2 ^ e with an even m. -/
def Even (d : Double) : Prop := ∃ n m e h, d = .fin n m e h ∧ m % 2 = 0

/-- No finite double is nearer to x, and if there is another one as near, d is the even one (IEEE 754, round to nearest, ties to even). -/
def Nearest (d : Double) (x : ℚ) : Prop :=
  Finite d ∧ (∀ d', Finite d' → |d.val - x| ≤ |d'.val - x|) ∧
    ∀ d', Finite d' → d'.val ≠ d.val → |d'.val - x| = |d.val - x| → Even d

/-- What the manual says a number stands for: (raw + reference) / 10^scale. -/
def exact (raw : Nat) (ref scale : Int) : ℚ := (raw + ref) / 10 ^ scale

end AccuracySpec
end Gobufr
