import Verif.Proofs.Accuracy

/-!
# Rounding keeps the order of numbers
-/

namespace Gobufr
namespace Double
open AccuracySpec

attribute [local irreducible] pow2

theorem val_zero_sign {d : Double} (h : d.mag = 0) : d.val = 0 := by
  unfold val
  rw [h]
  split <;> simp

/-- The number that rounding gives depends on the signed number only. -/
theorem round_val (n : Bool) {q : ℚ} (hq : 0 ≤ q) : (round n q).val = (ofRat (if n then -q else q)).val := by
  unfold ofRat
  rcases hq.eq_or_lt with h | h
  · subst h
    have hz : ∀ n, (round n 0).val = 0 := by
      intro n
      obtain ⟨hz, hr⟩ := round_zero n
      rw [hr]
      exact val_zero_sign (by simp [mag])
    simp [hz]
  · cases n with
    | true =>
      simp only [if_true, abs_neg, abs_of_pos h]
      rw [decide_eq_true (by linarith)]
    | false =>
      simp only [Bool.false_eq_true, if_false, abs_of_pos h]
      rw [decide_eq_false (by linarith)]

/-- No finite double is nearer than the rounded number, if that is finite. -/
theorem ofRat_near {x : ℚ} (h : Finite (ofRat x)) {d : Double} (hd : Finite d) : |(ofRat x).val - x| ≤ |d.val - x| := by
  have h1 := Format.round_nearest double_p (abs_nonneg x) (number_of_finite hd)
  have h2 : ∃ hc, ofRat x = fin (decide (x < 0)) (double.round |x|).1 (double.round |x|).2 hc := by
    obtain ⟨n, m, e, hc, h⟩ := h
    unfold ofRat round at h ⊢
    split
    · rename_i hc'
      exact ⟨hc', rfl⟩
    · rename_i hc'
      rw [dif_neg hc'] at h
      cases h
  obtain ⟨hc, h2⟩ := h2
  have h3 : |(ofRat x).val - x| = |((double.round |x|).1 : ℚ) * pow2 (double.round |x|).2 - (|x|)| := by
    rw [h2]
    show |(if decide (x < 0) = true then -(_ * _) else _ * _) - x| = _
    by_cases hx : x < 0
    · rw [if_pos (decide_eq_true hx), abs_of_neg hx, ← abs_neg]
      congr 1
      ring
    · rw [if_neg (by simpa using hx), abs_of_nonneg (not_lt.1 hx)]
  rw [h3]
  refine le_trans h1 ?_
  rw [← abs_val]
  exact abs_abs_sub_abs_le _ _

theorem ofRat_mono {x y : ℚ} (h : x ≤ y) (hx : Finite (ofRat x)) (hy : Finite (ofRat y)) : (ofRat x).val ≤ (ofRat y).val := by
  rcases h.eq_or_lt with h | h
  · rw [h]
  · by_contra hc
    have hc := not_le.1 hc
    have h1 := ofRat_near hx hy
    have h2 := ofRat_near hy hx
    have s1 := sq_le_sq.2 h1
    have s2 := sq_le_sq.2 h2
    nlinarith

theorem add_val {a b : Double} (ha : Finite a) (hb : Finite b) : (add a b).val = (ofRat (a.val + b.val)).val := by
  obtain ⟨n, m, e, hc, rfl⟩ := ha
  obtain ⟨n', m', e', hc', rfl⟩ := hb
  show (if _ = 0 then _ else _ : Double).val = _
  split
  · rename_i h
    rw [h, round_val _ (le_refl 0)]
    simp
  · rfl

theorem add_finite_left {a b : Double} (h : Finite (add a b)) : Finite a ∧ Finite b := by
  obtain ⟨n, m, e, hc, h⟩ := h
  cases a with
  | nan => cases b <;> cases h
  | inf n =>
    cases b with
    | nan => cases h
    | inf n' =>
      simp only [add] at h
      split at h <;> cases h
    | fin => cases h
  | fin =>
    cases b with
    | nan => cases h
    | inf n' => cases h
    | fin => exact ⟨⟨_, _, _, _, rfl⟩, ⟨_, _, _, _, rfl⟩⟩

theorem add_rounded {a b : Double} (ha : Finite a) (hb : Finite b) (h : Finite (add a b)) : Finite (ofRat (a.val + b.val)) := by
  obtain ⟨n, m, e, hc, rfl⟩ := ha
  obtain ⟨n', m', e', hc', rfl⟩ := hb
  by_cases h0 : (fin n m e hc).val + (fin n' m' e' hc').val = 0
  · rw [h0]
    obtain ⟨hz, hr⟩ := round_zero false
    have : ofRat 0 = round false 0 := by simp [ofRat]
    rw [this, hr]
    exact ⟨_, _, _, _, rfl⟩
  · have : add (fin n m e hc) (fin n' m' e' hc') = ofRat ((fin n m e hc).val + (fin n' m' e' hc').val) := if_neg h0
    rwa [this] at h

theorem round_sign (n : Bool) (q : ℚ) : (round n q).neg = n := by
  unfold round
  split <;> rfl

theorem mul_sign {a b : Double} (ha : a.neg = false) (hb : b.neg = false) : (mul a b).neg = false := by
  have hx : ∀ n n' : Bool, n = false → n' = false → (n ^^ n') = false := by decide
  cases a with
  | nan => cases b <;> rfl
  | inf n =>
    cases b with
    | nan => rfl
    | inf n' => exact hx n n' ha hb
    | fin n' m e h =>
      simp only [mul]
      split
      · rfl
      · exact hx n n' ha hb
  | fin n m e h =>
    cases b with
    | nan => rfl
    | inf n' =>
      simp only [mul]
      split
      · rfl
      · exact hx n n' ha hb
    | fin n' m e h => exact (round_sign _ _).trans (hx n n' ha hb)

theorem div_sign {a b : Double} (ha : a.neg = false) (hb : b.neg = false) : (div a b).neg = false := by
  have hx : ∀ n n' : Bool, n = false → n' = false → (n ^^ n') = false := by decide
  cases a with
  | nan => cases b <;> rfl
  | inf n =>
    cases b with
    | nan => rfl
    | inf n' => rfl
    | fin n' m e h => exact hx n n' ha hb
  | fin n m e h =>
    cases b with
    | nan => rfl
    | inf n' => exact (round_sign _ _).trans (hx n n' ha hb)
    | fin n' m' e' h' =>
      simp only [div]
      split
      · split
        · rfl
        · exact hx n n' ha hb
      · exact (round_sign _ _).trans (hx n n' ha hb)

theorem pow10_sign (s : Int) : (pow10 s).neg = false := by
  unfold pow10
  split
  · exact mul_sign (round_sign _ _) (round_sign _ _)
  · split
    · exact div_sign (round_sign _ _) (round_sign _ _)
    · split
      · rfl
      · exact round_sign _ _

/-- A finite quotient by a number that is not negative: the rounded exact quotient, or zero. -/
theorem div_val {a b : Double} (hb : b.neg = false) (hd : Finite (div a b)) :
    Finite a ∧ ∃ c : ℚ, 0 ≤ c ∧ (c = b.mag⁻¹ ∧ Finite (ofRat (a.val * c)) ∧ b.mag ≠ 0 ∨ c = 0 ∧ b.mag = 0) ∧
      (div a b).val = (ofRat (a.val * c)).val := by
  cases a with
  | nan => obtain ⟨n, m, e, hc, h⟩ := hd; cases b <;> cases h
  | inf n => obtain ⟨n, m, e, hc, h⟩ := hd; cases b <;> cases h
  | fin n m e h =>
    refine ⟨⟨_, _, _, _, rfl⟩, ?_⟩
    cases b with
    | nan => obtain ⟨n, m, e, hc, h⟩ := hd; cases h
    | inf n' =>
      refine ⟨0, le_refl _, .inr ⟨rfl, rfl⟩, ?_⟩
      show (round (n ^^ n') 0).val = _
      rw [round_val _ (le_refl 0)]
      simp
    | fin n' m' e' h' =>
      have hb : n' = false := hb
      subst hb
      have h0 : m' ≠ 0 := by
        rintro rfl
        obtain ⟨n1, m1, e1, hc, hd⟩ := hd
        simp only [div, if_true] at hd
        split at hd <;> cases hd
      have hp := pow2_pos e'
      have hpos : 0 < (fin false m' e' h').mag := by
        show 0 < (m' : ℚ) * pow2 e'
        have : (0 : ℚ) < m' := by exact_mod_cast Nat.pos_of_ne_zero h0
        positivity
      have hdiv : div (fin n m e h) (fin false m' e' h') = round n ((fin n m e h).mag / (fin false m' e' h').mag) := by
        simp only [div]
        rw [if_neg h0, Bool.xor_false]
      have hq := div_nonneg (mag_nonneg (fin n m e h)) hpos.le
      have hs : (if n then -((fin n m e h).mag / (fin false m' e' h').mag) else (fin n m e h).mag / (fin false m' e' h').mag) =
          (fin n m e h).val * (fin false m' e' h').mag⁻¹ := by
        show _ = (if n then _ else _) * _
        cases n
        · rw [if_neg (by decide), if_neg (by decide), div_eq_mul_inv]
        · rw [if_pos rfl, if_pos rfl, div_eq_mul_inv, neg_mul]
      refine ⟨_, inv_nonneg.2 hpos.le, .inl ⟨rfl, ?_, hpos.ne'⟩, ?_⟩
      · rw [hdiv] at hd
        rw [← hs]
        unfold ofRat
        have : |(if n then -((fin n m e h).mag / (fin false m' e' h').mag) else (fin n m e h).mag / (fin false m' e' h').mag)| =
            (fin n m e h).mag / (fin false m' e' h').mag := by
          cases n
          · rw [if_neg (by decide), abs_of_nonneg hq]
          · rw [if_pos rfl, abs_neg, abs_of_nonneg hq]
        rw [this]
        obtain ⟨n1, m1, e1, hc, hd⟩ := hd
        unfold round at hd ⊢
        split
        · exact ⟨_, _, _, _, rfl⟩
        · rename_i hc'
          rw [dif_neg hc'] at hd
          cases hd
      · rw [hdiv, round_val _ hq, hs]

/-- Dividing by the same number keeps the order. -/
theorem div_mono {a a' b : Double} (hb : b.neg = false) (hd : Finite (div a b)) (hd' : Finite (div a' b))
    (h : Finite a → Finite a' → a.val ≤ a'.val) : (div a b).val ≤ (div a' b).val := by
  obtain ⟨ha, c, h0, h1, h2⟩ := div_val hb hd
  obtain ⟨ha', c', h0', h1', h2'⟩ := div_val hb hd'
  rw [h2, h2']
  rcases h1 with ⟨rfl, h1, hne⟩ | ⟨rfl, hz⟩
  · rcases h1' with ⟨rfl, h1', -⟩ | ⟨-, hz⟩
    · exact ofRat_mono (mul_le_mul_of_nonneg_right (h ha ha') h0) h1 h1'
    · exact absurd hz hne
  · rcases h1' with ⟨-, -, hne⟩ | ⟨rfl, -⟩
    · exact absurd hz hne
    · simp

end Double
end Gobufr
