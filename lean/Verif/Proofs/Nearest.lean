import Verif.Proofs.Accuracy

/-!
# Lemmas: there is only one nearest double
-/

namespace Gobufr
open AccuracySpec

attribute [local irreducible] pow2

namespace Double

/-- Between two numbers with even significands there is another one. -/
theorem mag_between {m m' : Nat} {e e' : Int} (h : double.Canon m e) (h' : double.Canon m' e') (hm : m % 2 = 0) (hm' : m' % 2 = 0)
    (hlt : (m : ℚ) * pow2 e < m' * pow2 e') :
    ∃ hc : double.Canon (m + 1) e, (m : ℚ) * pow2 e < (fin false (m + 1) e hc).mag ∧ (fin false (m + 1) e hc).mag < m' * pow2 e' := by
  obtain ⟨h1, h2, h3, h4⟩ := h
  obtain ⟨h1', h2', h3', h4'⟩ := h'
  change m < 2 ^ 53 at h1
  change m' < 2 ^ 53 at h1'
  change (-1074 : Int) ≤ e at h2
  change (-1074 : Int) ≤ e' at h2'
  change 2 ^ 52 ≤ m ∨ e = -1074 at h4
  have he := pow2_pos e
  have he' := pow2_pos e'
  have hle : e ≤ e' := by
    by_contra hc
    have hm52 : 2 ^ 52 ≤ m := by rcases h4 with h | h <;> omega
    obtain ⟨k, hk⟩ : ∃ k : Nat, e = e' + (k + 1 : Nat) := ⟨(e - e' - 1).toNat, by omega⟩
    rw [hk, pow2_add, pow2_nat] at hlt
    have : m' ≤ m * 2 ^ (k + 1) := by
      have : 2 ^ 52 * 2 ≤ m * 2 ^ (k + 1) := Nat.mul_le_mul hm52 (by rw [pow_succ]; have := Nat.one_le_two_pow (n := k); omega)
      omega
    have hq : (m' : ℚ) ≤ m * ((2 ^ (k + 1) : Nat) : ℚ) := by exact_mod_cast this
    have := mul_le_mul_of_nonneg_right hq he'.le
    linarith
  obtain ⟨k, hk⟩ : ∃ k : Nat, e' = e + k := ⟨(e' - e).toNat, by omega⟩
  rw [hk, pow2_add, pow2_nat] at hlt ⊢
  have hlt' : m < m' * 2 ^ k := by
    have : (m : ℚ) < m' * ((2 ^ k : Nat) : ℚ) := lt_of_mul_lt_mul_right (by linarith) he.le
    exact_mod_cast this
  have hev : m' * 2 ^ k % 2 = 0 := by rw [Nat.mul_mod, hm', Nat.zero_mul, Nat.zero_mod]
  have hlt2 : m + 2 ≤ m' * 2 ^ k := by omega
  have hq : (m : ℚ) + 2 ≤ m' * ((2 ^ k : Nat) : ℚ) := by exact_mod_cast hlt2
  have hq := mul_le_mul_of_nonneg_right hq he.le
  refine ⟨⟨by show m + 1 < 2 ^ 53; omega, h2, h3, ?_⟩, ?_, ?_⟩
  · rcases h4 with h | h
    · exact .inl (by show 2 ^ 52 ≤ m + 1; omega)
    · exact .inr h
  · show (m : ℚ) * pow2 e < ((m + 1 : Nat) : ℚ) * pow2 e
    push_cast
    linarith
  · show ((m + 1 : Nat) : ℚ) * pow2 e < _
    rw [Nat.cast_add, Nat.cast_one]
    linarith

theorem val_between {a b : Double} (ha : AccuracySpec.Even a) (hb : AccuracySpec.Even b) (h : a.val < b.val) :
    ∃ d, AccuracySpec.Finite d ∧ a.val < d.val ∧ d.val < b.val := by
  obtain ⟨n, m, e, hc, rfl, hm⟩ := ha
  obtain ⟨n', m', e', hc', rfl, hm'⟩ := hb
  have hp : 0 ≤ (m : ℚ) * pow2 e := mag_nonneg (fin n m e hc)
  have hp' : 0 ≤ (m' : ℚ) * pow2 e' := mag_nonneg (fin n' m' e' hc')
  have up : (m : ℚ) * pow2 e < m' * pow2 e' → ∃ d, AccuracySpec.Finite d ∧ (m : ℚ) * pow2 e < d.val ∧ d.val < m' * pow2 e' := by
    intro h
    obtain ⟨hd, h1, h2⟩ := mag_between hc hc' hm hm' h
    exact ⟨fin false _ _ hd, ⟨_, _, _, _, rfl⟩, h1, h2⟩
  have down : (m' : ℚ) * pow2 e' < m * pow2 e →
      ∃ d, AccuracySpec.Finite d ∧ -((m : ℚ) * pow2 e) < d.val ∧ d.val < -((m' : ℚ) * pow2 e') := by
    intro h
    obtain ⟨hd, h1, h2⟩ := mag_between hc' hc hm' hm h
    refine ⟨fin true _ _ hd, ⟨_, _, _, _, rfl⟩, ?_, ?_⟩
    · exact neg_lt_neg h2
    · exact neg_lt_neg h1
  have zero : ∃ d : Double, AccuracySpec.Finite d ∧ d.val = 0 :=
    ⟨fin false 0 (-1074) (by decide), ⟨_, _, _, _, rfl⟩, by show ((0 : Nat) : ℚ) * _ = 0; simp⟩
  cases n with
  | false =>
    cases n' with
    | false => exact up h
    | true =>
      exfalso
      have : (m : ℚ) * pow2 e < -((m' : ℚ) * pow2 e') := h
      linarith
  | true =>
    cases n' with
    | true => exact down (neg_lt_neg_iff.1 h)
    | false =>
      have hv : (fin true m e hc).val = -((m : ℚ) * pow2 e) := rfl
      have hv' : (fin false m' e' hc').val = (m' : ℚ) * pow2 e' := rfl
      rw [hv, hv'] at h ⊢
      rcases hp.lt_or_eq with k | k
      · rcases hp'.lt_or_eq with k' | k'
        · obtain ⟨d, hd, h0⟩ := zero
          exact ⟨d, hd, by rw [h0]; linarith, by rw [h0]; exact k'⟩
        · obtain ⟨d, hd, h1, h2⟩ := down (by rw [← k']; exact k)
          exact ⟨d, hd, h1, by rw [← k'] at h2 ⊢; linarith⟩
      · obtain ⟨d, hd, h1, h2⟩ := up (by rw [← k] at h ⊢; linarith)
        exact ⟨d, hd, by rw [← k] at h1 ⊢; linarith, h2⟩

/-- All nearest doubles are the same number. -/
theorem nearest_unique {a b : Double} {x : ℚ} (ha : Nearest a x) (hb : Nearest b x) : a.val = b.val := by
  have main : ∀ {a b : Double}, Nearest a x → Nearest b x → ¬ a.val < b.val := by
    intro a b ha hb hlt
    obtain ⟨fa, la, ta⟩ := ha
    obtain ⟨fb, lb, tb⟩ := hb
    have hab : |a.val - x| = |b.val - x| := le_antisymm (la b fb) (lb a fa)
    obtain ⟨d, fd, h1, h2⟩ := val_between (ta b fb (ne_of_gt hlt) hab.symm) (tb a fa (ne_of_lt hlt) hab) hlt
    have k := la d fd
    have hmid : a.val - x = -(b.val - x) := by
      rcases abs_eq_abs.1 hab with h | h
      · linarith
      · exact h
    have : |d.val - x| < |b.val - x| := by
      rw [abs_of_nonneg (show 0 ≤ b.val - x by linarith), abs_lt]
      constructor <;> linarith
    rw [hab] at k
    linarith
  rcases lt_trichotomy a.val b.val with h | h | h
  · exact (main ha hb h).elim
  · exact h
  · exact (main hb ha h).elim

end Double
end Gobufr
