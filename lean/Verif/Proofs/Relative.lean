import Verif.Proofs.Accuracy

/-!
# The relative error of quotients by powers of ten
-/

namespace Gobufr
namespace Double
open AccuracySpec

attribute [local irreducible] pow2

/-- The quotient by any power of ten has an error of 2 ^ -50 at most. -/
theorem div_relative {a : Double} {x : Int} {s : Int} (ha : Exactly a x) (hs : -200 ≤ s) (hs' : s ≤ 200) (hx : x.natAbs ≤ 2 ^ 53) :
    Finite (div a (pow10 s)) ∧ |(div a (pow10 s)).val * 10 ^ s - x| ≤ |(x : ℚ)| / 2 ^ 50 := by
  obtain ⟨f, hpos, herr⟩ := pow10_error hs hs'
  obtain ⟨n, h1, h2⟩ := div_eq ha ⟨f, rfl⟩ hpos
  rw [h2]
  by_cases hx0 : x = 0
  · subst hx0
    obtain ⟨h3, h4⟩ := round_zero n
    have : |((0 : Int) : ℚ)| / (pow10 s).val = 0 := by simp
    rw [this, h4]
    refine ⟨⟨_, _, _, h3, rfl⟩, ?_⟩
    unfold val; simp [mag]
  · have hxp : (1 : ℚ) ≤ |(x : ℚ)| := by
      rw [int_abs]; exact_mod_cast Int.natAbs_pos.2 hx0
    have hxb : |(x : ℚ)| ≤ 2 ^ 53 := by rw [int_abs]; exact_mod_cast hx
    have hT : (0 : ℚ) < 10 ^ s := by positivity
    have h800 : (10 : ℚ) ^ (200 : Int) ≤ pow2 800 := by
      rw [show (200 : Int) = (200 : Nat) from rfl, zpow_natCast, show (800 : Int) = (4 * 200 : Nat) from rfl, pow2_nat, Nat.pow_mul, Nat.cast_pow]
      exact pow_le_pow_left₀ (a := (10 : ℚ)) (b := ((2 ^ 4 : Nat) : ℚ)) (by norm_num) (by norm_num) 200
    have hT2 : (10 : ℚ) ^ s ≤ pow2 800 := le_trans (zpow_le_zpow_right₀ (by norm_num) hs') h800
    have hT1 : pow2 (-800) ≤ (10 : ℚ) ^ s := by
      refine le_trans ?_ (zpow_le_zpow_right₀ (by norm_num) hs)
      rw [zpow_neg, show pow2 (-800) = (pow2 800)⁻¹ by rw [pow2_eq, pow2_eq, zpow_neg]]
      exact inv_anti₀ (by positivity) h800
    generalize (pow10 s).val = P at *
    generalize hTe : (10 : ℚ) ^ s = T at *
    have hPT := abs_le.1 herr
    have p1 : P ≤ 2 * T := by
      have : P / T ≤ 2 := by norm_num at hPT ⊢; linarith [hPT.2]
      rwa [div_le_iff₀ hT] at this
    have p3 : 2 / 3 * T ≤ P := by
      have : 2 / 3 ≤ P / T := by norm_num at hPT ⊢; linarith [hPT.1]
      rwa [le_div_iff₀ hT] at this
    have p2 : T / 2 ≤ P := by linarith
    have hq : 0 < |(x : ℚ)| / P := div_pos (by linarith) hpos
    have hlt : |(x : ℚ)| / P < pow2 1023 := by
      rw [div_lt_iff₀ hpos]
      calc |(x : ℚ)| ≤ pow2 53 := by rw [show pow2 53 = 2 ^ 53 by rw [pow2_eq]; norm_num]; exact hxb
        _ < pow2 1023 * pow2 (-801) := by rw [← pow2_add]; exact pow2_lt (by decide)
        _ ≤ pow2 1023 * P := by
            refine mul_le_mul_of_nonneg_left ?_ (pow2_pos _).le
            rw [show (-801 : Int) = -800 + -1 from rfl, pow2_add, show pow2 (-1) = 1 / 2 by rw [pow2_eq]; norm_num]
            linarith
    have hge : pow2 (double.emin + (double.p - 1 : Nat)) ≤ |(x : ℚ)| / P := by
      rw [le_div_iff₀ hpos]
      refine le_trans ?_ hxp
      calc pow2 (double.emin + (double.p - 1 : Nat)) * P ≤ pow2 (-1022) * pow2 801 := by
            refine mul_le_mul (le_of_eq rfl) ?_ hpos.le (pow2_pos _).le
            rw [show (801 : Int) = 800 + 1 from rfl, pow2_add, show pow2 1 = 2 by rw [pow2_eq]; norm_num]
            linarith
        _ = pow2 (-221) := by rw [← pow2_add]; rfl
        _ ≤ pow2 0 := pow2_le (by decide)
        _ = 1 := by rw [pow2_eq]; norm_num
    have hE := Format.round_error double_p hge
    obtain ⟨m, e, hc, h5, h6⟩ := round_small hq.le hlt n
    rw [h5]
    refine ⟨⟨_, _, _, hc, rfl⟩, ?_⟩
    rw [h6] at hE
    have hE : |(m : ℚ) * pow2 e - |(x : ℚ)| / P| ≤ |(x : ℚ)| / P * pow2 (-53) := hE
    have hval : (fin n m e hc).val = if n then -((m : ℚ) * pow2 e) else (m : ℚ) * pow2 e := rfl
    generalize |(x : ℚ)| = A at *
    have hcore : |(m : ℚ) * pow2 e * T - A| ≤ A / 2 ^ 50 := by
      have h53 : pow2 (-53) = 1 / 2 ^ 53 := by rw [pow2_eq]; norm_num
      rw [h53] at hE
      have g1 : |(m : ℚ) * pow2 e * T - A / P * T| ≤ A / P * T * (1 / 2 ^ 53) := by
        rw [← sub_mul, abs_mul, abs_of_pos hT]
        calc _ ≤ A / P * (1 / 2 ^ 53) * T := mul_le_mul_of_nonneg_right hE hT.le
          _ = _ := by ring
      have g2 : A / P * T ≤ 3 / 2 * A := by
        rw [div_mul_eq_mul_div, div_le_iff₀ hpos]
        have : A * T ≤ A * (3 / 2 * P) := mul_le_mul_of_nonneg_left (by linarith) (by linarith)
        linarith
      have g3 : |A / P * T - A| ≤ 3 / 2 * A * (1 / 2 ^ 51) := by
        have e1 : A / P * T - A = -(A / P * T * (P / T - 1)) := by field_simp; ring
        rw [e1, abs_neg, abs_mul, abs_of_pos (mul_pos hq hT)]
        exact mul_le_mul g2 herr (abs_nonneg _) (by linarith)
      have g4 : A / P * T * (1 / 2 ^ 53) ≤ 3 / 2 * A * (1 / 2 ^ 53) := mul_le_mul_of_nonneg_right g2 (by norm_num)
      have g5 := abs_le.1 (le_trans g1 g4)
      have g6 := abs_le.1 g3
      rw [abs_le]
      norm_num at g5 g6 ⊢
      constructor <;> linarith [g5.1, g5.2, g6.1, g6.2]
    rw [hval]
    cases n
    · rw [if_neg (by decide)] at h1 ⊢; rw [← h1]; exact hcore
    · rw [if_pos rfl] at h1 ⊢
      rw [← abs_neg]
      convert hcore using 2
      rw [h1]
      ring

end Double
end Gobufr
