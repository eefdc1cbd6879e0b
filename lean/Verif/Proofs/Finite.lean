import Verif.Spec.Finite
import Verif.Proofs.Accuracy

/-!
# Bounds of doubles
-/

namespace Gobufr
namespace Double
open AccuracySpec

attribute [local irreducible] pow2

/-- Rounding to the nearest double at most doubles a number. -/
theorem round_twice {q : ℚ} (h0 : 0 ≤ q) (h : q < pow2 1023) (n : Bool) : Finite (round n q) ∧ |(round n q).val| ≤ 2 * q := by
  obtain ⟨h1, h2, -⟩ := round_nearest h0 h n
  refine ⟨h1, ?_⟩
  obtain ⟨hz, hr⟩ := round_zero false
  have h3 := h2 (round false 0) (by rw [hr]; exact ⟨_, _, _, hz, rfl⟩)
  have h4 : (round false 0).val = 0 := by rw [hr]; simp [val, mag, neg]
  rw [h4] at h3
  have e : |(if n then -q else q)| = q := by
    cases n
    · exact abs_of_nonneg h0
    · rw [if_pos rfl, abs_neg]; exact abs_of_nonneg h0
  rw [zero_sub, abs_neg, e] at h3
  have := abs_sub_abs_le_abs_sub (round n q).val (if n then -q else q)
  rw [e] at this
  linarith

theorem ofRat_twice {q : ℚ} (h : |q| < pow2 1023) : Finite (ofRat q) ∧ |(ofRat q).val| ≤ 2 * |q| := round_twice (abs_nonneg q) h _

theorem mul_twice {a b : Double} (ha : Finite a) (hb : Finite b) (h : |a.val| * |b.val| < pow2 1023) :
    Finite (mul a b) ∧ |(mul a b).val| ≤ 2 * (|a.val| * |b.val|) := by
  rw [abs_val a, abs_val b] at h ⊢
  obtain ⟨n, m, e, hc, rfl⟩ := ha
  obtain ⟨n', m', e', hc', rfl⟩ := hb
  exact round_twice (mul_nonneg (mag_nonneg _) (mag_nonneg _)) h _

theorem add_twice {a b : Double} (ha : Finite a) (hb : Finite b) (h : |a.val| + |b.val| < pow2 1023) :
    Finite (add a b) ∧ |(add a b).val| ≤ 2 * (|a.val| + |b.val|) := by
  have hs := abs_add_le a.val b.val
  obtain ⟨n, m, e, hc, rfl⟩ := ha
  obtain ⟨n', m', e', hc', rfl⟩ := hb
  show AccuracySpec.Finite (if _ = 0 then _ else _) ∧ |(if _ = 0 then _ else _ : Double).val| ≤ _
  split
  · obtain ⟨k1, k2⟩ := round_twice (le_refl 0) (pow2_pos _) (n && n')
    refine ⟨k1, le_trans k2 ?_⟩
    have := abs_nonneg (fin n m e hc).val
    have := abs_nonneg (fin n' m' e' hc').val
    linarith
  · obtain ⟨k1, k2⟩ := ofRat_twice (lt_of_le_of_lt hs h)
    exact ⟨k1, by linarith⟩

theorem div_finite {a b : Double} (ha : Finite a) (hb : Finite b) (hb0 : 0 < |b.val|) (h : |a.val| / |b.val| < pow2 1023) :
    Finite (div a b) := by
  rw [abs_val] at hb0
  rw [abs_val, abs_val] at h
  obtain ⟨n, m, e, hc, rfl⟩ := ha
  obtain ⟨n', m', e', hc', rfl⟩ := hb
  show AccuracySpec.Finite (if m' = 0 then _ else _)
  rw [if_neg (by
    rintro rfl
    simp [mag] at hb0)]
  exact (round_twice (div_nonneg (mag_nonneg _) (mag_nonneg _)) h _).1

theorem div_inf {a : Double} (ha : Finite a) (n : Bool) : Finite (div a (inf n)) := by
  obtain ⟨n, m, e, hc, rfl⟩ := ha
  exact (round_twice (le_refl 0) (pow2_pos _) _).1

/-- Powers of ten are right up to a factor of two. -/
theorem pow10_twice {s : Int} (hs : -308 ≤ s) (hs' : s ≤ 308) :
    Finite (pow10 s) ∧ 10 ^ s / 2 ≤ |(pow10 s).val| ∧ |(pow10 s).val| ≤ 2 * 10 ^ s := by
  have h : ∀ k < 309, (10 ^ k : Nat) ≤ 2 * (pow10 (k : Nat)).mag ∧ (pow10 (k : Nat)).mag ≤ 2 * (10 ^ k : Nat) ∧
      1 ≤ 2 * ((pow10 (-(k : Nat))).mag * (10 ^ k : Nat)) ∧ (pow10 (-(k : Nat))).mag * (10 ^ k : Nat) ≤ 2 := by decide +kernel
  have key : 10 ^ s / 2 ≤ (pow10 s).mag ∧ (pow10 s).mag ≤ 2 * 10 ^ s := by
    rcases Int.le_total 0 s with h0 | h0
    · obtain ⟨k, rfl⟩ := Int.eq_ofNat_of_zero_le h0
      obtain ⟨h1, h2, -⟩ := h k (by omega)
      push_cast at h1 h2
      rw [zpow_natCast]
      exact ⟨by linarith, h2⟩
    · obtain ⟨k, hk⟩ := Int.eq_ofNat_of_zero_le (show 0 ≤ -s by omega)
      have : s = -(k : Int) := by omega
      subst this
      obtain ⟨-, -, h1, h2⟩ := h k (by omega)
      push_cast at h1 h2
      have hT : (0 : ℚ) < 10 ^ k := by positivity
      rw [zpow_neg, zpow_natCast]
      refine ⟨?_, ?_⟩
      · rw [div_le_iff₀ (by norm_num), inv_le_iff_one_le_mul₀ hT]
        linarith
      · rw [← div_eq_mul_inv, le_div_iff₀ hT]
        exact h2
  have hp : (0 : ℚ) < 10 ^ s := by positivity
  rw [abs_val]
  refine ⟨?_, key⟩
  cases hd : pow10 s with
  | nan => rw [hd] at key; have := key.1; simp [mag] at this; linarith
  | inf n => rw [hd] at key; have := key.1; simp [mag] at this; linarith
  | fin n m e h => exact ⟨n, m, e, h, rfl⟩

theorem ten_le (k : Nat) : (10 : ℚ) ^ (3 * k) ≤ pow2 (10 * k : Nat) := by
  rw [pow2_nat, pow_mul, Nat.pow_mul, Nat.cast_pow]
  exact pow_le_pow_left₀ (by norm_num) (by norm_num) k

end Double

open AccuracySpec Double in
attribute [local irreducible] pow2 in
/-- A number with a modest packing is finite. -/
theorem scaled_finite {info : PackingInfo Double} (h : Modest info) {raw : Nat} (hr : raw < 2 ^ 64) :
    Finite (Double.div (GoFloat.add (GoFloat.ofNat raw) info.refval) (Double.pow10 info.scale)) := by
  obtain ⟨ref, y, h1, h2, h3, h4, h5⟩ := h
  have p64 : pow2 64 = 2 ^ 64 := by rw [pow2_eq]; norm_num
  have hraw : |(raw : ℚ)| < pow2 64 := by
    rw [p64, abs_of_nonneg (by positivity)]
    exact_mod_cast hr
  have hrefb : |(ref : ℚ)| < pow2 64 := by
    rw [p64, Double.int_abs]
    have : ref.natAbs < 2 ^ 64 := by omega
    exact_mod_cast this
  obtain ⟨a1, a2⟩ := Double.round_twice (q := raw) (by positivity) (by
    rw [← abs_of_nonneg (show (0 : ℚ) ≤ raw by positivity)]
    exact hraw.trans (pow2_lt (by decide))) false
  obtain ⟨b1, b2⟩ := Double.ofRat_twice (hrefb.trans (pow2_lt (by decide)))
  obtain ⟨c1, -, c2⟩ := Double.pow10_twice (s := y) (by omega) (by omega)
  have hY : (10 : ℚ) ^ y ≤ pow2 850 := by
    refine le_trans (zpow_le_zpow_right₀ (by norm_num) h3) ?_
    exact_mod_cast Double.ten_le 85
  have hY1 : (1 : ℚ) ≤ 10 ^ y := one_le_zpow₀ (by norm_num) h2
  have e1 : pow2 850 * 2 ^ 68 < pow2 1023 := by
    rw [show (2 : ℚ) ^ 68 = pow2 68 by rw [pow2_eq]; norm_num, ← pow2_add]
    exact pow2_lt (by decide)
  have a2' : |(Double.round false (raw : ℚ)).val| ≤ 2 ^ 65 := by
    rw [abs_of_nonneg (show (0 : ℚ) ≤ raw by positivity), p64] at hraw
    linarith
  have b2' : |(Double.ofRat (ref : ℚ)).val| ≤ 2 ^ 65 := by
    rw [p64] at hrefb
    linarith
  obtain ⟨d1, d2⟩ := Double.mul_twice b1 c1 (by
    calc |(Double.ofRat (ref : ℚ)).val| * |(Double.pow10 y).val| ≤ 2 ^ 65 * (2 * 10 ^ y) :=
          mul_le_mul b2' c2 (abs_nonneg _) (by norm_num)
      _ ≤ pow2 850 * 2 ^ 68 := by linarith
      _ < _ := e1)
  have d2' : |(Double.mul (Double.ofRat ref) (Double.pow10 y)).val| ≤ 2 ^ 67 * 10 ^ y := by
    refine le_trans d2 ?_
    calc 2 * (|(Double.ofRat (ref : ℚ)).val| * |(Double.pow10 y).val|) ≤ 2 * (2 ^ 65 * (2 * 10 ^ y)) :=
          mul_le_mul_of_nonneg_left (mul_le_mul b2' c2 (abs_nonneg _) (by norm_num)) (by norm_num)
      _ = _ := by ring
  obtain ⟨f1, f2⟩ := Double.add_twice a1 d1 (by
    have : (2 : ℚ) ^ 67 * 10 ^ y ≤ 2 ^ 67 * pow2 850 := mul_le_mul_of_nonneg_left hY (by norm_num)
    linarith)
  have f2' : |(Double.add (Double.round false (raw : ℚ)) (Double.mul (Double.ofRat ref) (Double.pow10 y))).val| ≤ 2 ^ 69 * 10 ^ y := by
    refine le_trans f2 ?_
    have : (2 : ℚ) ^ 65 ≤ 2 ^ 65 * 10 ^ y := by linarith
    linarith
  have hsum : GoFloat.add (GoFloat.ofNat raw) info.refval =
      Double.add (Double.round false (raw : ℚ)) (Double.mul (Double.ofRat ref) (Double.pow10 y)) := by
    rw [h4]
    rfl
  rw [hsum]
  by_cases hs : info.scale ≤ 308
  · obtain ⟨g1, g2, -⟩ := Double.pow10_twice (s := info.scale) (by omega) hs
    have hT : (0 : ℚ) < 10 ^ info.scale := by positivity
    have hP : 0 < |(Double.pow10 info.scale).val| := by linarith
    refine Double.div_finite f1 g1 hP ?_
    rw [div_lt_iff₀ hP]
    have hk : (10 : ℚ) ^ y ≤ pow2 760 * 10 ^ info.scale := by
      calc (10 : ℚ) ^ y ≤ 10 ^ (228 + info.scale) := zpow_le_zpow_right₀ (by norm_num) (by omega)
        _ = 10 ^ (228 : Int) * 10 ^ info.scale := zpow_add₀ (by norm_num) _ _
        _ ≤ pow2 760 * 10 ^ info.scale := mul_le_mul_of_nonneg_right (by exact_mod_cast Double.ten_le 76) hT.le
    calc _ ≤ 2 ^ 69 * 10 ^ y := f2'
      _ ≤ 2 ^ 69 * (pow2 760 * 10 ^ info.scale) := mul_le_mul_of_nonneg_left hk (by norm_num)
      _ = (pow2 70 * pow2 760) * (10 ^ info.scale / 2) := by
        rw [show pow2 70 = 2 ^ 70 by rw [pow2_eq]; norm_num]; ring
      _ < pow2 1023 * (10 ^ info.scale / 2) := by
        refine mul_lt_mul_of_pos_right ?_ (by positivity)
        rw [← pow2_add]
        exact pow2_lt (by decide)
      _ ≤ _ := mul_le_mul_of_nonneg_left g2 (pow2_pos _).le
  · have : Double.pow10 info.scale = .inf false := by
      unfold Double.pow10
      rw [if_neg (by omega), if_neg (by omega), if_pos (by omega)]
    rw [this]
    exact Double.div_inf f1 _

end Gobufr
