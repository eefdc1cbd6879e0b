import Verif.Spec.Accuracy
import Verif.Proofs.Double

/-!
# Lemmas: the accuracy of decoded numbers
-/

namespace Gobufr
open AccuracySpec

attribute [local irreducible] pow2

namespace Double

theorem number_of_finite {d : Double} (h : Finite d) : double.Number d.mag := by
  obtain ⟨n, m, e, h, rfl⟩ := h
  exact ⟨m, e, h.1, h.2.1, rfl⟩

theorem mag_nonneg (d : Double) : 0 ≤ d.mag := by
  cases d with
  | nan => exact le_refl _
  | inf _ => exact le_refl _
  | fin n m e h =>
    have := pow2_pos e
    show 0 ≤ (m : ℚ) * pow2 e
    positivity

theorem abs_val (d : Double) : |d.val| = d.mag := by
  unfold val
  split
  · rw [abs_neg, abs_of_nonneg d.mag_nonneg]
  · exact abs_of_nonneg d.mag_nonneg

theorem zero_number : double.Number 0 := ⟨0, -1074, by decide, by decide, by simp⟩

/-- Rounding gives a nearest double. -/
theorem round_nearest {q : ℚ} (h0 : 0 ≤ q) (h : q < pow2 1023) (n : Bool) : Nearest (round n q) (if n then -q else q) := by
  obtain ⟨m, e, hc, h1, h2⟩ := round_small h0 h n
  rw [h1]
  have e0 : (fin n m e hc).val = if n then -((m : ℚ) * pow2 e) else (m : ℚ) * pow2 e := rfl
  refine ⟨⟨n, m, e, hc, rfl⟩, fun d' hd' => ?_, fun d' hd' hne ht => ⟨n, m, e, hc, rfl, ?_⟩⟩
  rotate_left
  · have tie : ∀ x, double.Number x → x ≠ (m : ℚ) * pow2 e → |x - q| = |(m : ℚ) * pow2 e - q| → m % 2 = 0 := by
      intro x hx k1 k2
      have := Format.round_tie (by decide) h0 hx
      rw [h2] at this
      exact this k1 k2
    have hz := Format.round_nearest double_p h0 zero_number
    rw [h2, zero_sub, abs_neg, abs_of_nonneg h0] at hz
    dsimp only at hz
    have hd0 := mag_nonneg d'
    rw [e0] at hne ht
    unfold val at hne ht
    cases n with
    | false =>
      simp only [Bool.false_eq_true, if_false] at hne ht
      split at ht
      · rename_i hneg
        rw [if_pos hneg] at hne
        rw [abs_of_nonpos (show -d'.mag - q ≤ 0 by linarith)] at ht
        refine tie 0 zero_number (fun hh => hne ?_) ?_
        · rw [← hh] at ht ⊢
          rw [zero_sub, abs_neg, abs_of_nonneg h0] at ht
          linarith
        · rw [zero_sub, abs_neg, abs_of_nonneg h0]
          linarith
      · rename_i hneg
        rw [if_neg hneg] at hne
        exact tie _ (number_of_finite hd') hne ht
    | true =>
      simp only [if_true] at hne ht
      have e2 : |-((m : ℚ) * pow2 e) - -q| = |(m : ℚ) * pow2 e - q| := by rw [← abs_neg]; congr 1; ring
      rw [e2] at ht
      split at ht
      · rename_i hneg
        rw [if_pos hneg] at hne
        have e3 : |-d'.mag - -q| = |d'.mag - q| := by rw [← abs_neg]; congr 1; ring
        rw [e3] at ht
        exact tie _ (number_of_finite hd') (fun hh => hne (by rw [hh])) ht
      · rename_i hneg
        rw [if_neg hneg] at hne
        rw [abs_of_nonneg (show 0 ≤ d'.mag - -q by linarith)] at ht
        refine tie 0 zero_number (fun hh => hne ?_) ?_
        · rw [← hh] at ht ⊢
          rw [zero_sub, abs_neg, abs_of_nonneg h0] at ht
          linarith
        · rw [zero_sub, abs_neg, abs_of_nonneg h0]
          linarith
  have hm : ∀ x, double.Number x → |(m : ℚ) * pow2 e - q| ≤ |x - q| := by
    intro x hx
    have := Format.round_nearest double_p h0 hx
    rwa [h2] at this
  have e1 : |(fin n m e hc).val - (if n then -q else q)| = |(m : ℚ) * pow2 e - q| := by
    cases n
    · rfl
    · show |-((m : ℚ) * pow2 e) - -q| = _
      rw [← abs_neg]; congr 1; ring
  rw [e1]
  have hz := hm 0 zero_number
  rw [zero_sub, abs_neg, abs_of_nonneg h0] at hz
  have hd := hm _ (number_of_finite hd')
  have hd0 := mag_nonneg d'
  cases n with
  | false =>
    rw [if_neg (by decide)]
    unfold val
    split
    · refine le_trans hz ?_
      rw [abs_of_nonpos (by linarith)]; linarith
    · exact hd
  | true =>
    rw [if_pos rfl]
    unfold val
    split
    · have : -d'.mag - -q = -(d'.mag - q) := by ring
      rw [this, abs_neg]; exact hd
    · refine le_trans hz ?_
      rw [abs_of_nonneg (by linarith)]; linarith

/-- A double that is the number is nearest to it. -/
theorem Exactly.nearest {d : Double} {x : ℚ} (h : Exactly d x) : Nearest d x :=
  ⟨h.1, fun d' _ => by rw [h.2, sub_self, abs_zero]; exact abs_nonneg _, fun d' _ hne ht => by
    rw [h.2] at hne ht
    rw [sub_self, abs_zero, abs_eq_zero, sub_eq_zero] at ht
    exact absurd ht hne⟩

theorem ofRat_exact {q : ℚ} (hq : double.Number |q|) (h : |q| < pow2 1023) : Exactly (ofRat q) q := by
  obtain ⟨m, e, hc, h1, h2, -⟩ := round_number hq h (decide (q < 0))
  unfold ofRat
  rw [h1]
  refine ⟨⟨_, m, e, hc, rfl⟩, ?_⟩
  show (if decide (q < 0) = true then -((m : ℚ) * pow2 e) else (m : ℚ) * pow2 e) = q
  rw [h2]
  split
  · next h => rw [decide_eq_true_eq] at h; rw [abs_of_neg h]; ring
  · next h => rw [decide_eq_true_eq] at h; rw [abs_of_nonneg (not_lt.1 h)]

theorem int_abs (i : Int) : |(i : ℚ)| = (i.natAbs : ℚ) := by
  rw [← Int.cast_abs, Int.abs_eq_natAbs]; rfl

theorem ofRat_int_exact {i : Int} (h : i.natAbs ≤ 2 ^ 53) : Exactly (ofRat i) i :=
  ofRat_exact (by rw [int_abs]; exact number_nat h) (by rw [int_abs]; exact nat_small h)

theorem ofNat_exact {n : Nat} (h : n ≤ 2 ^ 53) : Exactly (GoFloat.ofNat n : Double) n := by
  obtain ⟨m, e, hc, h1, h2⟩ := round_nat h false
  show Exactly (round false n) n
  rw [h1]
  exact ⟨⟨_, m, e, hc, rfl⟩, h2⟩

/-- The sum of integers is right if it is not too great. -/
theorem add_exact {a b : Double} {x y : Int} (ha : Exactly a x) (hb : Exactly b y) (h : (x + y).natAbs ≤ 2 ^ 53) :
    Exactly (add a b) (x + y : Int) := by
  obtain ⟨⟨n, m, e, hc, rfl⟩, ha⟩ := ha
  obtain ⟨⟨n', m', e', hc', rfl⟩, hb⟩ := hb
  have hs : (fin n m e hc).val + (fin n' m' e' hc').val = ((x + y : Int) : ℚ) := by rw [ha, hb]; push_cast; rfl
  show Exactly (if (fin n m e hc).val + (fin n' m' e' hc').val = 0 then _ else _) _
  split
  · next h0 =>
    obtain ⟨h1, h2⟩ := round_zero (n && n')
    rw [h2]
    refine ⟨⟨_, _, _, h1, rfl⟩, ?_⟩
    rw [← hs, h0]
    unfold val
    simp [mag]
  · rw [hs]
    exact ofRat_int_exact h

/-- What a quotient is: the magnitudes are divided and rounded. -/
theorem div_eq {a b : Double} {x y : ℚ} (ha : Exactly a x) (hb : Exactly b y) (hy : 0 < y) :
    ∃ n, (|x| = if n then -x else x) ∧ div a b = round n (|x| / y) := by
  have hma := abs_val a
  have hmb := abs_val b
  rw [ha.2] at hma
  rw [hb.2, abs_of_pos hy] at hmb
  obtain ⟨⟨n, m, e, hc, rfl⟩, ha⟩ := ha
  obtain ⟨⟨n', m', e', hc', rfl⟩, hb⟩ := hb
  have hn' : n' = false := by
    cases n' with
    | false => rfl
    | true =>
      have : -(fin true m' e' hc').mag = y := hb
      have := mag_nonneg (fin true m' e' hc')
      linarith
  subst hn'
  have hm' : m' ≠ 0 := by
    rintro rfl
    have : y = ((0 : Nat) : ℚ) * pow2 e' := hmb
    simp at this
    linarith
  refine ⟨n, ?_, ?_⟩
  · rw [hma, ← ha]
    cases n
    · rfl
    · show _ = -(-(fin true m e hc).mag)
      rw [neg_neg]
  · show (if m' = 0 then _ else round (n ^^ false) ((fin n m e hc).mag / (fin false m' e' hc').mag)) = _
    rw [if_neg hm', Bool.xor_false, hma, hmb]

theorem signed {n : Bool} {x y : ℚ} (h : |x| = if n then -x else x) : (if n then -(|x| / y) else |x| / y) = x / y := by
  cases n
  · rw [if_neg (by decide)] at h ⊢; rw [h]
  · rw [if_pos rfl] at h ⊢; rw [h]; ring

theorem div_nearest {a b : Double} {x y : ℚ} (ha : Exactly a x) (hb : Exactly b y) (hy : 0 < y) (h : |x| / y < pow2 1023) :
    Nearest (div a b) (x / y) := by
  obtain ⟨n, h1, h2⟩ := div_eq ha hb hy
  rw [h2, ← signed h1]
  exact round_nearest (by positivity) h n

/-! ## Powers of ten -/

theorem pow10_exact {k : Nat} (hk : k < 23) : Exactly (pow10 k) (10 ^ k : Nat) := by
  have h : ∀ k < 23, (pow10 (k : Nat)).neg = false ∧ (pow10 (k : Nat)).mag = (10 ^ k : Nat) := by decide +kernel
  obtain ⟨h1, h2⟩ := h k hk
  have h3 : (pow10 (k : Nat)).val = (10 ^ k : Nat) := by unfold val; rw [h1, if_neg (by decide), h2]
  refine ⟨?_, h3⟩
  cases hd : pow10 (k : Nat) with
  | nan => rw [hd] at h3; exact absurd h3 (by have : (0 : ℚ) < (10 ^ k : Nat) := by positivity
                                              exact this.ne)
  | inf n =>
    rw [hd] at h2
    exact absurd h2 (by have : (0 : ℚ) < (10 ^ k : Nat) := by positivity
                        exact this.ne)
  | fin n m e h => exact ⟨n, m, e, h, rfl⟩

/-- Powers of ten have an error of 2 ^ -51 at most. -/
theorem pow10_error {s : Int} (hs : -200 ≤ s) (hs' : s ≤ 200) :
    Finite (pow10 s) ∧ 0 < (pow10 s).val ∧ |(pow10 s).val / 10 ^ s - 1| ≤ 1 / 2 ^ 51 := by
  have h : ∀ k < 201, (pow10 (k : Nat)).neg = false ∧ (pow10 (-(k : Nat))).neg = false ∧
      |(pow10 (k : Nat)).mag / (10 ^ k : Nat) - 1| ≤ 1 / 2 ^ 51 ∧
      |(pow10 (-(k : Nat))).mag * (10 ^ k : Nat) - 1| ≤ 1 / 2 ^ 51 := by decide +kernel
  have key : (pow10 s).neg = false ∧ |(pow10 s).mag / 10 ^ s - 1| ≤ 1 / 2 ^ 51 := by
    rcases Int.le_total 0 s with h0 | h0
    · obtain ⟨k, rfl⟩ := Int.eq_ofNat_of_zero_le h0
      obtain ⟨h1, -, h2, -⟩ := h k (by omega)
      refine ⟨h1, ?_⟩
      push_cast at h2
      rw [zpow_natCast]
      exact h2
    · obtain ⟨k, hk⟩ := Int.eq_ofNat_of_zero_le (show 0 ≤ -s by omega)
      have : s = -(k : Int) := by omega
      subst this
      obtain ⟨-, h1, -, h2⟩ := h k (by omega)
      refine ⟨h1, ?_⟩
      push_cast at h2
      rw [zpow_neg, zpow_natCast, div_inv_eq_mul]
      exact h2
  obtain ⟨h1, h2⟩ := key
  have h3 : (pow10 s).val = (pow10 s).mag := by unfold val; rw [h1, if_neg (by decide)]
  have hp : (0 : ℚ) < 10 ^ s := by positivity
  have hpos : 0 < (pow10 s).mag := by
    by_contra hc
    have := mag_nonneg (pow10 s)
    have : (pow10 s).mag = 0 := by linarith
    rw [this] at h2
    norm_num at h2
  refine ⟨?_, by rw [h3]; exact hpos, by rw [h3]; exact h2⟩
  cases hd : pow10 s with
  | nan => rw [hd] at hpos; exact absurd hpos (lt_irrefl _)
  | inf n => rw [hd] at hpos; exact absurd hpos (lt_irrefl _)
  | fin n m e h => exact ⟨n, m, e, h, rfl⟩

/-- 0.1, 0.01, 0.001 and 0.0001 are better than that. -/
theorem pow10_small {k : Nat} (hk : k < 5) : |(pow10 (-(k : Nat))).val * 10 ^ k - 1| ≤ pow2 (-54) := by
  have h : ∀ k < 5, |(pow10 (-(k : Nat))).val * (10 ^ k : Nat) - 1| ≤ 1 / 2 ^ 54 := by decide +kernel
  have := h k hk
  push_cast at this
  rw [pow2_eq]
  refine le_trans this (le_of_eq ?_)
  norm_num

/-- A quotient near an integer is rounded to it. -/
theorem round_integer {q : ℚ} {i : Nat} (hq : 0 < q) (hi : i < 2 ^ 53) (h0 : 0 < i) (h : |(i : ℚ) - q| ≤ q * pow2 (-54)) :
    (double.round q).1 * pow2 (double.round q).2 = (i : ℚ) := by
  rw [Format.round_value double_p]
  obtain ⟨l1, l2⟩ := floorLog_spec hq
  have hi1 : (1 : ℚ) ≤ i := by exact_mod_cast h0
  have hi2 : (i : ℚ) + 1 ≤ pow2 53 := by
    rw [show (53 : Int) = (53 : Nat) from rfl, pow2_nat]; exact_mod_cast hi
  have h54 : pow2 (-54) = 1 / 2 ^ 54 := by rw [pow2_eq]; norm_num
  have h53 : pow2 53 = 2 ^ 53 := by rw [pow2_eq]; norm_num
  rw [h53] at hi2
  obtain ⟨a1, a2⟩ := abs_le.1 h
  have q1 : (1 : ℚ) / 2 ≤ q := by
    rw [h54] at a2
    by_contra hc
    have : q < 1 / 2 := not_le.1 hc
    have : q * (1 / 2 ^ 54) ≤ q * 1 := mul_le_mul_of_nonneg_left (by norm_num) hq.le
    linarith
  have q2 : q < 2 ^ 53 := by
    rw [h54] at a1
    have : q * (1 - 1 / 2 ^ 54) ≤ 2 ^ 53 - 1 := by linarith
    by_contra hc
    have hc := not_lt.1 hc
    have : (2 : ℚ) ^ 53 * (1 - 1 / 2 ^ 54) ≤ q * (1 - 1 / 2 ^ 54) := mul_le_mul_of_nonneg_right hc (by norm_num)
    norm_num at this ⊢
    linarith
  have lo : -1 ≤ floorLog q := by
    have h1 : pow2 (-1) ≤ q := by rw [pow2_eq]; norm_num; linarith
    have := lt_of_pow2 (lt_of_le_of_lt h1 l2)
    omega
  have hi' : floorLog q ≤ 52 := by
    rw [← h53] at q2
    have := lt_of_pow2 (lt_of_le_of_lt l1 q2)
    omega
  have he : double.exponent q = floorLog q - 52 := by
    rw [Format.exponent_pos hq]
    show max (floorLog q - ((53 - 1 : Nat) : Int)) (-1074) = _
    omega
  rw [he]
  generalize hL : floorLog q = L at *
  obtain ⟨j, hj⟩ := Int.eq_ofNat_of_zero_le (show 0 ≤ 52 - L by omega)
  have hN : (i : ℚ) = ((i * 2 ^ j : Nat) : ℚ) * pow2 (L - 52) := by
    push_cast
    rw [show (2 : ℚ) ^ j = pow2 j by rw [pow2_nat]; push_cast; rfl, mul_assoc, ← pow2_add,
      show (j : Int) + (L - 52) = 0 by omega, pow2_eq]
    simp
  have hp := pow2_pos (L - 52)
  have hnear : |((i * 2 ^ j : Nat) : ℚ) - q / pow2 (L - 52)| < 1 / 2 := by
    have : |((i * 2 ^ j : Nat) : ℚ) - q / pow2 (L - 52)| * pow2 (L - 52) < 1 / 2 * pow2 (L - 52) := by
      rw [show |((i * 2 ^ j : Nat) : ℚ) - q / pow2 (L - 52)| * pow2 (L - 52) =
        |((i * 2 ^ j : Nat) : ℚ) - q / pow2 (L - 52)| * |pow2 (L - 52)| by rw [abs_of_pos hp], ← abs_mul, sub_mul,
        div_mul_cancel₀ _ hp.ne', ← hN]
      refine lt_of_le_of_lt h ?_
      rw [show (1 : ℚ) / 2 = pow2 (-1) by rw [pow2_eq]; norm_num, ← pow2_add]
      calc q * pow2 (-54) < pow2 (L + 1) * pow2 (-54) := mul_lt_mul_of_pos_right l2 (pow2_pos _)
        _ = pow2 (-1 + (L - 52)) := by rw [← pow2_add]; congr 1; omega
    exact lt_of_mul_lt_mul_right this hp.le
  have hr := roundEven_nearest (q := q / pow2 (L - 52)) (div_nonneg hq.le hp.le) (i * 2 ^ j : Nat)
  rw [Int.cast_natCast] at hr
  have hlt : |(roundEven (q / pow2 (L - 52)) : ℚ) - ((i * 2 ^ j : Nat) : ℚ)| < 1 := by
    have h1 := lt_of_le_of_lt hr hnear
    rw [abs_lt] at h1 hnear ⊢
    constructor <;> linarith [h1.1, h1.2, hnear.1, hnear.2]
  have heq : roundEven (q / pow2 (L - 52)) = i * 2 ^ j := by
    have h1 : |(((roundEven (q / pow2 (L - 52)) : Int) - ((i * 2 ^ j : Nat) : Int) : Int) : ℚ)| < 1 := by
      push_cast
      push_cast at hlt
      exact hlt
    rw [← Int.cast_abs] at h1
    have h2 : |(roundEven (q / pow2 (L - 52)) : Int) - ((i * 2 ^ j : Nat) : Int)| < 1 := by exact_mod_cast h1
    have h3 := Int.abs_lt_one_iff.1 h2
    omega
  rw [heq, ← hN]

/-- The quotient by a negative power of ten. -/
theorem div_integer {a : Double} {x : Int} {k : Nat} (ha : Exactly a x) (hk : k < 5) (h : x.natAbs * 10 ^ k < 2 ^ 53) :
    Exactly (div a (pow10 (-(k : Nat)))) (x * 10 ^ k) := by
  obtain ⟨f, hpos, -⟩ := pow10_error (s := -(k : Nat)) (by omega) (by omega)
  have hsm := pow10_small hk
  obtain ⟨n, h1, h2⟩ := div_eq ha ⟨f, rfl⟩ hpos
  rw [h2]
  by_cases hx : x = 0
  · subst hx
    obtain ⟨h3, h4⟩ := round_zero n
    have : |((0 : Int) : ℚ)| / (pow10 (-(k : Nat))).val = 0 := by simp
    rw [this, h4]
    refine ⟨⟨_, _, _, h3, rfl⟩, ?_⟩
    unfold val; simp [mag]
  · have hxp : (0 : ℚ) < |(x : ℚ)| := abs_pos.2 (by exact_mod_cast hx)
    generalize (pow10 (-(k : Nat))).val = P at *
    have hq : 0 < |(x : ℚ)| / P := div_pos hxp hpos
    have hY : ((x.natAbs * 10 ^ k : Nat) : ℚ) = |(x : ℚ)| * 10 ^ k := by rw [int_abs]; push_cast; rfl
    have hn := round_integer (q := |(x : ℚ)| / P) (i := x.natAbs * 10 ^ k) hq h
      (Nat.mul_pos (Int.natAbs_pos.2 hx) (by positivity)) (by
        rw [hY]
        have : |(x : ℚ)| * 10 ^ k - |(x : ℚ)| / P = |(x : ℚ)| / P * (P * 10 ^ k - 1) := by
          field_simp
        rw [this, abs_mul, abs_of_pos hq]
        exact mul_le_mul_of_nonneg_left hsm hq.le)
    have hlt : |(x : ℚ)| / P < pow2 1023 := by
      have hb : |(x : ℚ)| ≤ 2 ^ 53 := by
        rw [int_abs]
        have : x.natAbs ≤ 2 ^ 53 := le_trans (Nat.le_mul_of_pos_right _ (by positivity)) h.le
        exact_mod_cast this
      have hk10 : (1 : ℚ) ≤ 10 ^ k := one_le_pow₀ (by norm_num)
      have hk20 : (10 : ℚ) ^ k ≤ 10 ^ 5 := pow_le_pow_right₀ (by norm_num) hk.le
      have hPk : 1 / 2 ≤ P * 10 ^ k := by
        have := (abs_le.1 hsm).1
        have h54 : pow2 (-54) ≤ 1 / 2 := by
          rw [show (1 : ℚ) / 2 = pow2 (-1) by rw [pow2_eq]; norm_num]; exact pow2_le (by decide)
        linarith
      have hP : 1 / (2 * 10 ^ 5) ≤ P := by
        rw [div_le_iff₀ (by positivity)]
        have : P * 10 ^ k ≤ P * 10 ^ 5 := mul_le_mul_of_nonneg_left hk20 hpos.le
        linarith
      calc |(x : ℚ)| / P ≤ 2 ^ 53 / (1 / (2 * 10 ^ 5)) := div_le_div₀ (by norm_num) hb (by norm_num) hP
        _ < pow2 100 := by rw [pow2_eq]; norm_num
        _ < pow2 1023 := pow2_lt (by decide)
    obtain ⟨m, e, hc, h5, h6⟩ := round_small hq.le hlt n
    rw [h5]
    refine ⟨⟨_, _, _, hc, rfl⟩, ?_⟩
    rw [h6] at hn
    have hval : (fin n m e hc).val = if n then -((m : ℚ) * pow2 e) else (m : ℚ) * pow2 e := rfl
    have hn : (m : ℚ) * pow2 e = ((x.natAbs * 10 ^ k : Nat) : ℚ) := hn
    rw [hval, hn, hY]
    cases n
    · rw [if_neg (by decide)] at h1 ⊢; rw [h1]
    · rw [if_pos rfl] at h1 ⊢; rw [h1]; ring

/-- The quotient by any power of ten, times the power, is near the integer. -/
theorem div_back {a : Double} {x : Int} {s : Int} (ha : Exactly a x) (hs : -200 ≤ s) (hs' : s ≤ 200) (hx : x.natAbs ≤ 2 ^ 48) :
    Finite (div a (pow10 s)) ∧ |(div a (pow10 s)).val * 10 ^ s - x| < 1 / 2 := by
  obtain ⟨f, hpos, herr⟩ := pow10_error hs hs'
  obtain ⟨n, h1, h2⟩ := div_eq ha ⟨f, rfl⟩ hpos
  rw [h2]
  by_cases hx0 : x = 0
  · subst hx0
    obtain ⟨h3, h4⟩ := round_zero n
    have : |((0 : Int) : ℚ)| / (pow10 s).val = 0 := by simp
    rw [this, h4]
    refine ⟨⟨_, _, _, h3, rfl⟩, ?_⟩
    unfold val; simp [mag]
  · have hxp : (1 : ℚ) ≤ |(x : ℚ)| := by
      rw [int_abs]; exact_mod_cast Int.natAbs_pos.2 hx0
    have hxb : |(x : ℚ)| ≤ 2 ^ 48 := by rw [int_abs]; exact_mod_cast hx
    have hT : (0 : ℚ) < 10 ^ s := by positivity
    have h800 : (10 : ℚ) ^ (200 : Int) ≤ pow2 800 := by
      rw [show (200 : Int) = (200 : Nat) from rfl, zpow_natCast, show (800 : Int) = (4 * 200 : Nat) from rfl, pow2_nat, Nat.pow_mul, Nat.cast_pow]
      exact pow_le_pow_left₀ (a := (10 : ℚ)) (b := ((2 ^ 4 : Nat) : ℚ)) (by norm_num) (by norm_num) 200
    have hT2 : (10 : ℚ) ^ s ≤ pow2 800 := le_trans (zpow_le_zpow_right₀ (by norm_num) hs') h800
    have hT1 : pow2 (-800) ≤ (10 : ℚ) ^ s := by
      refine le_trans ?_ (zpow_le_zpow_right₀ (by norm_num) hs)
      rw [zpow_neg, show pow2 (-800) = (pow2 800)⁻¹ by rw [pow2_eq, pow2_eq, zpow_neg]]
      exact inv_anti₀ (by positivity) h800
    generalize (pow10 s).val = P at *
    generalize hTe : (10 : ℚ) ^ s = T at *
    have hPT := abs_le.1 herr
    have p1 : P ≤ 2 * T := by
      have : P / T ≤ 2 := by norm_num at hPT ⊢; linarith [hPT.2]
      rwa [div_le_iff₀ hT] at this
    have p2 : T / 2 ≤ P := by
      have : 1 / 2 ≤ P / T := by norm_num at hPT ⊢; linarith [hPT.1]
      rw [le_div_iff₀ hT] at this
      linarith
    have hq : 0 < |(x : ℚ)| / P := div_pos (by linarith) hpos
    have hlt : |(x : ℚ)| / P < pow2 1023 := by
      rw [div_lt_iff₀ hpos]
      calc |(x : ℚ)| ≤ pow2 48 := by rw [show pow2 48 = 2 ^ 48 by rw [pow2_eq]; norm_num]; exact hxb
        _ < pow2 1023 * pow2 (-801) := by rw [← pow2_add]; exact pow2_lt (by decide)
        _ ≤ pow2 1023 * P := by
            refine mul_le_mul_of_nonneg_left ?_ (pow2_pos _).le
            rw [show (-801 : Int) = -800 + -1 from rfl, pow2_add, show pow2 (-1) = 1 / 2 by rw [pow2_eq]; norm_num]
            linarith
    have hge : pow2 (double.emin + (double.p - 1 : Nat)) ≤ |(x : ℚ)| / P := by
      rw [le_div_iff₀ hpos]
      refine le_trans ?_ hxp
      calc pow2 (double.emin + (double.p - 1 : Nat)) * P ≤ pow2 (-1022) * pow2 801 := by
            refine mul_le_mul (le_of_eq rfl) ?_ hpos.le (pow2_pos _).le
            rw [show (801 : Int) = 800 + 1 from rfl, pow2_add, show pow2 1 = 2 by rw [pow2_eq]; norm_num]
            linarith
        _ = pow2 (-221) := by rw [← pow2_add]; rfl
        _ ≤ pow2 0 := pow2_le (by decide)
        _ = 1 := by rw [pow2_eq]; norm_num
    have hE := Format.round_error double_p hge
    obtain ⟨m, e, hc, h5, h6⟩ := round_small hq.le hlt n
    rw [h5]
    refine ⟨⟨_, _, _, hc, rfl⟩, ?_⟩
    rw [h6] at hE
    have hE : |(m : ℚ) * pow2 e - |(x : ℚ)| / P| ≤ |(x : ℚ)| / P * pow2 (-53) := hE
    have hval : (fin n m e hc).val = if n then -((m : ℚ) * pow2 e) else (m : ℚ) * pow2 e := rfl
    generalize |(x : ℚ)| = A at *
    have hcore : |(m : ℚ) * pow2 e * T - A| < 1 / 2 := by
      have h53 : pow2 (-53) = 1 / 2 ^ 53 := by rw [pow2_eq]; norm_num
      rw [h53] at hE
      have g1 : |(m : ℚ) * pow2 e * T - A / P * T| ≤ A / P * T * (1 / 2 ^ 53) := by
        rw [← sub_mul, abs_mul, abs_of_pos hT]
        calc _ ≤ A / P * (1 / 2 ^ 53) * T := mul_le_mul_of_nonneg_right hE hT.le
          _ = _ := by ring
      have g2 : A / P * T ≤ 2 * A := by
        rw [div_mul_eq_mul_div, div_le_iff₀ hpos]
        have : A * T ≤ A * (2 * P) := mul_le_mul_of_nonneg_left (by linarith) (by linarith)
        linarith
      have g3 : |A / P * T - A| ≤ 2 * A * (1 / 2 ^ 51) := by
        have e1 : A / P * T - A = -(A / P * T * (P / T - 1)) := by field_simp; ring
        rw [e1, abs_neg, abs_mul, abs_of_pos (mul_pos hq hT)]
        exact mul_le_mul g2 herr (abs_nonneg _) (by linarith)
      have g4 : A / P * T * (1 / 2 ^ 53) ≤ 2 * A * (1 / 2 ^ 53) := mul_le_mul_of_nonneg_right g2 (by norm_num)
      have g5 := abs_le.1 (le_trans g1 g4)
      have g6 := abs_le.1 g3
      rw [abs_lt]
      norm_num at g5 g6 ⊢
      constructor <;> linarith [g5.1, g5.2, g6.1, g6.2]
    rw [hval]
    cases n
    · rw [if_neg (by decide)] at h1 ⊢; rwa [h1] at hcore
    · rw [if_pos rfl] at h1 ⊢
      rw [h1] at hcore
      rw [← abs_neg]
      convert hcore using 2
      ring

end Double
end Gobufr
