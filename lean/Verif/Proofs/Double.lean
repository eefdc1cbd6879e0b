import Mathlib.Tactic.Linarith
import Mathlib.Tactic.FieldSimp
import Mathlib.Tactic.Positivity
import Mathlib.Tactic.NormNum
import Mathlib.Tactic.Ring
import Verif.Model.Double

/-!
# Lemmas: rounding to double precision
-/

namespace Gobufr

theorem pow2_eq (e : Int) : pow2 e = (2 : ℚ) ^ e := by
  unfold pow2
  split
  · next h =>
    obtain ⟨n, rfl⟩ := Int.eq_ofNat_of_zero_le h
    simp
  · next h =>
    obtain ⟨n, hn⟩ := Int.eq_ofNat_of_zero_le (show 0 ≤ -e by omega)
    have : e = -(n : Int) := by omega
    subst this
    rw [neg_neg, Int.toNat_natCast, Rat.mkRat_eq_div, zpow_neg, zpow_natCast]
    push_cast
    rw [one_div]

theorem pow2_pos (e : Int) : 0 < pow2 e := by rw [pow2_eq]; positivity

theorem pow2_add (a b : Int) : pow2 (a + b) = pow2 a * pow2 b := by
  simp only [pow2_eq]
  exact zpow_add₀ (by norm_num) a b

theorem pow2_nat (n : Nat) : pow2 n = ((2 ^ n : Nat) : ℚ) := by rw [pow2_eq]; simp

theorem pow2_le {a b : Int} (h : a ≤ b) : pow2 a ≤ pow2 b := by
  simp only [pow2_eq]
  exact zpow_le_zpow_right₀ (by norm_num) h

theorem pow2_lt {a b : Int} (h : a < b) : pow2 a < pow2 b := by
  simp only [pow2_eq]
  exact zpow_lt_zpow_right₀ (by norm_num) h

attribute [local irreducible] pow2

theorem le_of_pow2 {a b : Int} (h : pow2 a ≤ pow2 b) : a ≤ b := by
  by_contra hc
  exact absurd h (not_le.2 (pow2_lt (by omega)))

theorem lt_of_pow2 {a b : Int} (h : pow2 a < pow2 b) : a < b := by
  by_contra hc
  exact absurd h (not_lt.2 (pow2_le (by omega)))

/-! ## The exponent -/

theorem floorLog_spec {q : ℚ} (hq : 0 < q) : pow2 (floorLog q) ≤ q ∧ q < pow2 (floorLog q + 1) := by
  have hn : 0 < q.num := Rat.num_pos.2 hq
  obtain ⟨n, hn'⟩ := Int.eq_ofNat_of_zero_le hn.le
  have hn0 : n ≠ 0 := by rintro rfl; omega
  have hd : q.den ≠ 0 := q.den_nz
  have hqe : q = (n : ℚ) / q.den := by
    conv_lhs => rw [← Rat.num_div_den q, hn']
    simp
  have a1 : pow2 (Nat.log2 n : Int) ≤ n := by
    rw [pow2_nat]; exact_mod_cast Nat.log2_self_le hn0
  have a2 : (n : ℚ) < pow2 (Nat.log2 n + 1 : Int) := by
    have : ((Nat.log2 n : Int) + 1) = ((Nat.log2 n + 1 : Nat) : Int) := by push_cast; rfl
    rw [this, pow2_nat]; exact_mod_cast Nat.lt_log2_self
  have b1 : pow2 (Nat.log2 q.den : Int) ≤ q.den := by
    rw [pow2_nat]; exact_mod_cast Nat.log2_self_le hd
  have b2 : (q.den : ℚ) < pow2 (Nat.log2 q.den + 1 : Int) := by
    have : ((Nat.log2 q.den : Int) + 1) = ((Nat.log2 q.den + 1 : Nat) : Int) := by push_cast; rfl
    rw [this, pow2_nat]; exact_mod_cast Nat.lt_log2_self
  have hdp : (0 : ℚ) < q.den := by exact_mod_cast Nat.pos_of_ne_zero hd
  generalize hk : (Nat.log2 n : Int) - Nat.log2 q.den = k
  have up : q < pow2 (k + 1) := by
    rw [hqe, div_lt_iff₀ hdp]
    calc (n : ℚ) < pow2 (Nat.log2 n + 1 : Int) := a2
      _ = pow2 (k + 1) * pow2 (Nat.log2 q.den : Int) := by rw [← pow2_add]; congr 1; omega
      _ ≤ pow2 (k + 1) * q.den := mul_le_mul_of_nonneg_left b1 (pow2_pos _).le
  have lo : pow2 (k - 1) ≤ q := by
    rw [hqe, le_div_iff₀ hdp]
    calc pow2 (k - 1) * q.den ≤ pow2 (k - 1) * pow2 (Nat.log2 q.den + 1 : Int) :=
          mul_le_mul_of_nonneg_left b2.le (pow2_pos _).le
      _ = pow2 (Nat.log2 n : Int) := by rw [← pow2_add]; congr 1; omega
      _ ≤ n := a1
  have hf : floorLog q = if pow2 k ≤ q then k else k - 1 := by
    unfold floorLog
    have : q.num.toNat = n := by omega
    simp only [this, hk]
  rw [hf]
  split
  · next h => exact ⟨h, up⟩
  · next h => exact ⟨lo, by rw [sub_add_cancel]; exact not_le.1 h⟩

theorem floorLog_unique {q : ℚ} {k : Int} (h1 : pow2 k ≤ q) (h2 : q < pow2 (k + 1)) : floorLog q = k := by
  obtain ⟨g1, g2⟩ := floorLog_spec (lt_of_lt_of_le (pow2_pos k) h1)
  have := lt_of_pow2 (lt_of_le_of_lt g1 h2)
  have := lt_of_pow2 (lt_of_le_of_lt h1 g2)
  omega

/-! ## The nearest integer -/

theorem floor_spec {q : ℚ} (hq : 0 ≤ q) : ((q.floor.toNat : Nat) : ℚ) ≤ q ∧ q < (q.floor.toNat : Nat) + 1 := by
  have h0 : 0 ≤ q.floor := Rat.le_floor_iff.2 (by simpa using hq)
  have h1 : ((q.floor.toNat : Nat) : ℚ) = (q.floor : ℚ) := by
    have : ((q.floor.toNat : Nat) : Int) = q.floor := Int.toNat_of_nonneg h0
    exact_mod_cast congrArg (Int.cast : Int → ℚ) this
  rw [h1]
  refine ⟨Rat.le_floor_iff.1 (le_refl _), ?_⟩
  by_contra hc
  have : q.floor + 1 ≤ q.floor := Rat.le_floor_iff.2 (by push_cast; linarith)
  omega

theorem roundEven_near {q : ℚ} (hq : 0 ≤ q) : |(roundEven q : ℚ) - q| ≤ 1 / 2 := by
  obtain ⟨h1, h2⟩ := floor_spec hq
  unfold roundEven
  dsimp only
  rw [abs_le]
  split_ifs <;> push_cast <;> constructor <;> linarith

/-- No integer is nearer. -/
theorem roundEven_nearest {q : ℚ} (hq : 0 ≤ q) (k : Int) : |(roundEven q : ℚ) - q| ≤ |(k : ℚ) - q| := by
  obtain ⟨h1, h2⟩ := floor_spec hq
  generalize hn : q.floor.toNat = n at h1 h2
  have hk : (k : ℚ) ≤ n ∨ (n : ℚ) + 1 ≤ k := by
    rcases Int.lt_or_le (n : Int) k with h | h
    · right; exact_mod_cast h
    · left; exact_mod_cast h
  have hr : roundEven q = if q - n < 1 / 2 then n else if 1 / 2 < q - n then n + 1 else if n % 2 = 0 then n else n + 1 := by
    unfold roundEven; rw [hn]
  rw [hr]
  have a1 : |(n : ℚ) - q| = q - n := by rw [abs_of_nonpos (by linarith)]; ring
  have a2 : |((n + 1 : Nat) : ℚ) - q| = n + 1 - q := by rw [abs_of_nonneg (by push_cast; linarith)]; push_cast; ring
  rcases hk with hk | hk
  · rw [abs_of_nonpos (show (k : ℚ) - q ≤ 0 by linarith)]
    split_ifs <;> first | rw [a1] | rw [a2]
    all_goals linarith
  · rw [abs_of_nonneg (show 0 ≤ (k : ℚ) - q by linarith)]
    split_ifs <;> first | rw [a1] | rw [a2]
    all_goals linarith

/-- Of two integers as near the even one is taken. -/
theorem roundEven_tie {q : ℚ} (hq : 0 ≤ q) (k : Int) (hk : (k : ℚ) ≠ roundEven q) (h : |(k : ℚ) - q| = |(roundEven q : ℚ) - q|) :
    roundEven q % 2 = 0 := by
  obtain ⟨h1, h2⟩ := floor_spec hq
  generalize hn : q.floor.toNat = n at h1 h2
  have hr : roundEven q = if q - n < 1 / 2 then n else if 1 / 2 < q - n then n + 1 else if n % 2 = 0 then n else n + 1 := by
    unfold roundEven; rw [hn]
  have hk' : (k : ℚ) ≤ n - 1 ∨ (k : ℚ) = n ∨ (k : ℚ) = n + 1 ∨ (n : ℚ) + 2 ≤ k := by
    have : k ≤ n - 1 ∨ k = n ∨ k = n + 1 ∨ (n : Int) + 2 ≤ k := by omega
    rcases this with h | h | h | h
    · exact .inl (by exact_mod_cast h)
    · exact .inr (.inl (by exact_mod_cast h))
    · exact .inr (.inr (.inl (by exact_mod_cast h)))
    · exact .inr (.inr (.inr (by exact_mod_cast h)))
  have a1 : |(n : ℚ) - q| = q - n := by rw [abs_of_nonpos (by linarith)]; ring
  have a2 : |((n : ℚ) + 1) - q| = n + 1 - q := by rw [abs_of_nonneg (by linarith)]
  have a3 : (k : ℚ) ≤ n - 1 → 1 ≤ |(k : ℚ) - q| := fun h => by rw [abs_of_nonpos (by linarith)]; linarith
  have a4 : (n : ℚ) + 2 ≤ k → 1 < |(k : ℚ) - q| := fun h => by rw [abs_of_nonneg (by linarith)]; linarith
  have hnear := roundEven_near hq
  rw [← h] at hnear
  rcases hk' with hk' | hk' | hk' | hk'
  · have := a3 hk'; linarith
  · rw [hr] at hk h ⊢
    rw [hk', a1] at h
    split_ifs at hk h ⊢ with c1 c2 c3
    · exact absurd hk' hk
    · push_cast at h; rw [a2] at h; linarith
    · exact c3
    · omega
  · rw [hr] at hk h ⊢
    rw [hk', a2] at h
    split_ifs at hk h ⊢ with c1 c2 c3
    · rw [a1] at h; linarith
    · exact absurd (by rw [hk']; push_cast; rfl) hk
    · exact c3
    · exact absurd (by rw [hk']; push_cast; rfl) hk
  · have := a4 hk'; linarith

theorem roundEven_nat (n : Nat) : roundEven n = n := by
  have := roundEven_nearest (q := n) (by positivity) n
  simp only [Int.cast_natCast, sub_self, abs_zero] at this
  have := abs_nonpos_iff.1 this
  have : (roundEven n : ℚ) = n := by linarith
  exact_mod_cast this

theorem roundEven_le {q : ℚ} (hq : 0 ≤ q) {n : Nat} (h : q ≤ n) : roundEven q ≤ n := by
  by_contra hc
  have hc : (n : ℚ) + 1 ≤ roundEven q := by exact_mod_cast Nat.lt_of_not_le hc
  have := roundEven_nearest hq n
  rw [abs_of_nonneg (by linarith), Int.cast_natCast, abs_of_nonneg (by linarith)] at this
  linarith

theorem le_roundEven {q : ℚ} (hq : 0 ≤ q) {n : Nat} (h : n ≤ q) : n ≤ roundEven q := by
  by_contra hc
  have hc : (roundEven q : ℚ) + 1 ≤ n := by exact_mod_cast Nat.lt_of_not_le hc
  have := roundEven_nearest hq n
  rw [abs_of_nonpos (by linarith), Int.cast_natCast, abs_of_nonpos (by linarith)] at this
  linarith

/-! ## Rounding in a format -/

namespace Format
variable {f : Format}

theorem exponent_pos {q : ℚ} (hq : 0 < q) : f.exponent q = max (floorLog q - (f.p - 1 : Nat)) f.emin := by
  unfold exponent; rw [if_neg hq.ne']

theorem emin_le (f : Format) (q : ℚ) : f.emin ≤ f.exponent q := by
  unfold exponent
  split
  · exact le_refl _
  · exact le_max_right _ _

/-- The number is less than 2 ^ p units. -/
theorem lt_units (hf : 0 < f.p) {q : ℚ} (hq : 0 ≤ q) : q / pow2 (f.exponent q) < (2 ^ f.p : Nat) := by
  rw [div_lt_iff₀ (pow2_pos _)]
  rcases hq.eq_or_lt with rfl | hq
  · have := pow2_pos (f.exponent 0); positivity
  · refine lt_of_lt_of_le (floorLog_spec hq).2 ?_
    rw [← pow2_nat, ← pow2_add]
    apply pow2_le
    rw [exponent_pos hq]
    have := le_max_left (floorLog q - (f.p - 1 : Nat)) f.emin
    omega

/-- Unless the exponent is the least, it is at least 2 ^ (p - 1) units. -/
theorem units_le {q : ℚ} (hq : 0 ≤ q) (he : f.exponent q ≠ f.emin) : ((2 ^ (f.p - 1) : Nat) : ℚ) ≤ q / pow2 (f.exponent q) := by
  rw [le_div_iff₀ (pow2_pos _)]
  rcases hq.eq_or_lt with rfl | hq
  · exact absurd (by unfold exponent; rw [if_pos rfl]) he
  · refine le_trans ?_ (floorLog_spec hq).1
    rw [← pow2_nat, ← pow2_add]
    apply pow2_le
    rw [exponent_pos hq] at he ⊢
    rcases max_choice (floorLog q - (f.p - 1 : Nat)) f.emin with h | h
    · rw [h]; omega
    · exact absurd h he

/-- What is rounded is written properly, but for the greatest exponent. -/
theorem round_proper (hf : 0 < f.p) {q : ℚ} (hq : 0 ≤ q) :
    (f.round q).1 < 2 ^ f.p ∧ f.emin ≤ (f.round q).2 ∧ (2 ^ (f.p - 1) ≤ (f.round q).1 ∨ (f.round q).2 = f.emin) := by
  have h0 : 0 ≤ q / pow2 (f.exponent q) := div_nonneg hq (pow2_pos _).le
  have h1 := roundEven_le h0 (lt_units hf hq).le
  unfold round
  dsimp only
  split
  · refine ⟨Nat.pow_lt_pow_right (by decide) (by omega), by have := emin_le f q; omega, .inl (le_refl _)⟩
  · next h =>
    refine ⟨lt_of_le_of_ne h1 h, emin_le f q, ?_⟩
    by_cases he : f.exponent q = f.emin
    · exact .inr he
    · exact .inl (le_roundEven h0 (units_le hq he))

/-- The value of what is rounded. -/
theorem round_value (hf : 0 < f.p) (q : ℚ) :
    ((f.round q).1 : ℚ) * pow2 (f.round q).2 = roundEven (q / pow2 (f.exponent q)) * pow2 (f.exponent q) := by
  unfold round
  dsimp only
  split
  · next h =>
    rw [h, pow2_add, show pow2 1 = 2 from by rw [pow2_eq]; norm_num]
    obtain ⟨n, hn⟩ := Nat.exists_eq_add_of_lt hf
    have : f.p = n + 1 := by omega
    rw [this]
    push_cast
    ring
  · rfl

/-- A number of the format. -/
def Number (f : Format) (x : ℚ) : Prop := ∃ (m : Nat) (e : Int), m < 2 ^ f.p ∧ f.emin ≤ e ∧ x = m * pow2 e

theorem round_nearest (hf : 0 < f.p) {q : ℚ} (hq : 0 ≤ q) {x : ℚ} (hx : f.Number x) :
    |((f.round q).1 : ℚ) * pow2 (f.round q).2 - q| ≤ |x - q| := by
  rw [round_value hf]
  generalize he : f.exponent q = e0
  have hp := pow2_pos e0
  have h0 : 0 ≤ q / pow2 e0 := div_nonneg hq hp.le
  have key : ∀ k : Int, |(roundEven (q / pow2 e0) : ℚ) * pow2 e0 - q| ≤ |(k : ℚ) * pow2 e0 - q| := by
    intro k
    have := mul_le_mul_of_nonneg_right (roundEven_nearest h0 k) hp.le
    have e1 : ∀ y : ℚ, |y - q / pow2 e0| * pow2 e0 = |y * pow2 e0 - q| := by
      intro y
      conv_lhs => rw [← abs_of_pos hp, abs_of_pos hp]
      rw [show |y - q / pow2 e0| * pow2 e0 = |y - q / pow2 e0| * |pow2 e0| by rw [abs_of_pos hp], ← abs_mul, sub_mul,
        div_mul_cancel₀ _ hp.ne']
    rwa [e1, e1] at this
  obtain ⟨m, e, hm, hemin, rfl⟩ := hx
  by_cases hle : e0 ≤ e
  · have : (m : ℚ) * pow2 e = ((m * 2 ^ (e - e0).toNat : Nat) : Int) * pow2 e0 := by
      push_cast
      rw [mul_assoc]
      congr 1
      have h2 : ((2 : ℚ) ^ (e - e0).toNat) = pow2 ((e - e0).toNat : Nat) := by rw [pow2_nat]; push_cast; rfl
      rw [h2, ← pow2_add]
      congr 1
      omega
    rw [this]
    exact key _
  · have hne : f.exponent q ≠ f.emin := by omega
    have hu := units_le hq hne
    rw [he, le_div_iff₀ hp] at hu
    refine le_trans (key ((2 ^ (f.p - 1) : Nat) : Int)) ?_
    have hsm : (m : ℚ) * pow2 e ≤ (2 ^ (f.p - 1) : Nat) * pow2 e0 := by
      have h1 : (m : ℚ) ≤ (2 ^ f.p : Nat) := by exact_mod_cast hm.le
      calc (m : ℚ) * pow2 e ≤ (2 ^ f.p : Nat) * pow2 e := mul_le_mul_of_nonneg_right h1 (pow2_pos _).le
        _ = pow2 ((f.p : Int) + e) := by rw [pow2_add, pow2_nat]
        _ ≤ pow2 (((f.p - 1 : Nat) : Int) + e0) := pow2_le (by omega)
        _ = _ := by rw [pow2_add, pow2_nat]
    rw [Int.cast_natCast, abs_of_nonpos (by linarith), abs_of_nonpos (by linarith)]
    linarith

/-- Of two numbers as near the even one is taken. -/
theorem round_tie (hf : 1 < f.p) {q : ℚ} (hq : 0 ≤ q) {x : ℚ} (hx : f.Number x) (hne : x ≠ (f.round q).1 * pow2 (f.round q).2)
    (h : |x - q| = |((f.round q).1 : ℚ) * pow2 (f.round q).2 - q|) : (f.round q).1 % 2 = 0 := by
  rw [round_value (by omega)] at hne h
  have fin : roundEven (q / pow2 (f.exponent q)) % 2 = 0 → (f.round q).1 % 2 = 0 := by
    intro h
    unfold round
    dsimp only
    split
    · obtain ⟨n, hn⟩ := Nat.exists_eq_add_of_lt hf
      rw [show f.p - 1 = n + 1 by omega, Nat.pow_succ]
      omega
    · exact h
  apply fin
  generalize he : f.exponent q = e0 at hne h ⊢
  have hp := pow2_pos e0
  have h0 : 0 ≤ q / pow2 e0 := div_nonneg hq hp.le
  have e1 : ∀ y : ℚ, |y * pow2 e0 - q| = |y - q / pow2 e0| * pow2 e0 := by
    intro y
    rw [show |y - q / pow2 e0| * pow2 e0 = |y - q / pow2 e0| * |pow2 e0| by rw [abs_of_pos hp], ← abs_mul, sub_mul,
      div_mul_cancel₀ _ hp.ne']
  obtain ⟨m, e, hm, hemin, rfl⟩ := hx
  by_cases hle : e0 ≤ e
  · have hm' : (m : ℚ) * pow2 e = ((m * 2 ^ (e - e0).toNat : Nat) : Int) * pow2 e0 := by
      push_cast
      rw [mul_assoc]
      congr 1
      have h2 : ((2 : ℚ) ^ (e - e0).toNat) = pow2 ((e - e0).toNat : Nat) := by rw [pow2_nat]; push_cast; rfl
      rw [h2, ← pow2_add]
      congr 1
      omega
    rw [hm'] at hne h
    rw [e1, e1] at h
    exact roundEven_tie h0 _ (fun hk => hne (by rw [hk])) (mul_right_cancel₀ hp.ne' h)
  · have hne' : f.exponent q ≠ f.emin := by omega
    have hu := units_le hq hne'
    rw [he, le_div_iff₀ hp] at hu
    have hsm : (m : ℚ) * pow2 e < (2 ^ (f.p - 1) : Nat) * pow2 e0 := by
      have h1 : (m : ℚ) < (2 ^ f.p : Nat) := by exact_mod_cast hm
      calc (m : ℚ) * pow2 e < (2 ^ f.p : Nat) * pow2 e := mul_lt_mul_of_pos_right h1 (pow2_pos _)
        _ = pow2 ((f.p : Int) + e) := by rw [pow2_add, pow2_nat]
        _ ≤ pow2 (((f.p - 1 : Nat) : Int) + e0) := pow2_le (by omega)
        _ = _ := by rw [pow2_add, pow2_nat]
    have k := mul_le_mul_of_nonneg_right (roundEven_nearest h0 ((2 ^ (f.p - 1) : Nat) : Int)) hp.le
    rw [← e1, ← e1, ← h, Int.cast_natCast, abs_of_nonpos (by linarith), abs_of_nonpos (by linarith)] at k
    linarith

theorem round_number (hf : 0 < f.p) {x : ℚ} (hx : f.Number x) : ((f.round x).1 : ℚ) * pow2 (f.round x).2 = x := by
  have h0 : 0 ≤ x := by
    obtain ⟨m, e, -, -, rfl⟩ := hx
    have := pow2_pos e
    positivity
  have := round_nearest hf h0 hx
  rw [sub_self, abs_zero] at this
  have := abs_nonpos_iff.1 this
  linarith

/-- There is one way to write a number. -/
theorem canon_unique {m m' : Nat} {e e' : Int} (h : m < 2 ^ f.p) (h1 : f.emin ≤ e) (h2 : 2 ^ (f.p - 1) ≤ m ∨ e = f.emin)
    (g : m' < 2 ^ f.p) (g1 : f.emin ≤ e') (g2 : 2 ^ (f.p - 1) ≤ m' ∨ e' = f.emin) (hf : 0 < f.p)
    (hv : (m : ℚ) * pow2 e = m' * pow2 e') : m = m' ∧ e = e' := by
  have aux : ∀ {m m' : Nat} {e e' : Int}, m < 2 ^ f.p → f.emin ≤ e → m' < 2 ^ f.p → (2 ^ (f.p - 1) ≤ m' ∨ e' = f.emin) →
      (m : ℚ) * pow2 e = m' * pow2 e' → ¬ e < e' := by
    intro m m' e e' h h1 g g2 hv hlt
    have g2 : 2 ^ (f.p - 1) ≤ m' := by
      rcases g2 with g2 | g2
      · exact g2
      · omega
    have a : (m : ℚ) * pow2 e < pow2 ((f.p : Int) + e) := by
      rw [pow2_add, pow2_nat]
      exact mul_lt_mul_of_pos_right (by exact_mod_cast h) (pow2_pos _)
    have b : pow2 (((f.p - 1 : Nat) : Int) + e') ≤ (m' : ℚ) * pow2 e' := by
      rw [pow2_add, pow2_nat]
      exact mul_le_mul_of_nonneg_right (by exact_mod_cast g2) (pow2_pos _).le
    rw [hv] at a
    have := lt_of_pow2 (lt_of_le_of_lt b a)
    omega
  have n1 := aux h h1 g g2 hv
  have n2 := aux g g1 h h2 hv.symm
  have he : e = e' := by omega
  subst he
  have := mul_right_cancel₀ (pow2_pos e).ne' hv
  exact ⟨by exact_mod_cast this, rfl⟩

theorem round_canon (hf : 0 < f.p) {m : Nat} {e : Int} (h : m < 2 ^ f.p) (h1 : f.emin ≤ e)
    (h2 : 2 ^ (f.p - 1) ≤ m ∨ e = f.emin) : f.round (m * pow2 e) = (m, e) := by
  have hn : f.Number (m * pow2 e) := ⟨m, e, h, h1, rfl⟩
  have h0 : 0 ≤ (m : ℚ) * pow2 e := by have := pow2_pos e; positivity
  obtain ⟨a, b, c⟩ := round_proper hf h0 (f := f)
  obtain ⟨x, y⟩ := canon_unique a b c h h1 h2 hf (round_number hf hn)
  exact Prod.ext x y

/-- The error is at most half a unit of a number with `p` bits. -/
theorem round_error (hf : 0 < f.p) {q : ℚ} (hq : pow2 (f.emin + (f.p - 1 : Nat)) ≤ q) :
    |((f.round q).1 : ℚ) * pow2 (f.round q).2 - q| ≤ q * pow2 (-(f.p : Int)) := by
  have hq0 : 0 < q := lt_of_lt_of_le (pow2_pos _) hq
  rw [round_value hf]
  have hlog := floorLog_spec hq0
  have hle : f.emin + (f.p - 1 : Nat) ≤ floorLog q := by
    have := lt_of_pow2 (lt_of_le_of_lt hq hlog.2)
    omega
  have he : f.exponent q = floorLog q - (f.p - 1 : Nat) := by rw [exponent_pos hq0]; omega
  have hp := pow2_pos (f.exponent q)
  have h1 := mul_le_mul_of_nonneg_right (roundEven_near (div_nonneg hq0.le hp.le)) hp.le
  have e1 : |(roundEven (q / pow2 (f.exponent q)) : ℚ) - q / pow2 (f.exponent q)| * pow2 (f.exponent q) =
      |(roundEven (q / pow2 (f.exponent q)) : ℚ) * pow2 (f.exponent q) - q| := by
    rw [show ∀ z : ℚ, |z| * pow2 (f.exponent q) = |z| * |pow2 (f.exponent q)| by intro z; rw [abs_of_pos hp], ← abs_mul, sub_mul,
      div_mul_cancel₀ _ hp.ne']
  rw [e1] at h1
  refine le_trans h1 ?_
  have : (1 : ℚ) / 2 = pow2 (-1) := by rw [pow2_eq]; norm_num
  rw [this, ← pow2_add]
  calc pow2 (-1 + f.exponent q) = pow2 (floorLog q) * pow2 (-(f.p : Int)) := by rw [← pow2_add]; congr 1; omega
    _ ≤ q * pow2 (-(f.p : Int)) := mul_le_mul_of_nonneg_right hlog.1 (pow2_pos _).le

end Format

/-! ## Doubles -/

namespace Double

theorem double_p : 0 < double.p := by decide

theorem round_number {q : ℚ} (hq : double.Number q) (h : q < pow2 1023) (n : Bool) :
    ∃ m e hc, round n q = fin n m e hc ∧ (m : ℚ) * pow2 e = q ∧ double.round q = (m, e) := by
  have h0 : 0 ≤ q := by
    obtain ⟨m, e, -, -, rfl⟩ := hq
    have := pow2_pos e
    positivity
  have hv := Format.round_number double_p hq
  obtain ⟨a, b, c⟩ := Format.round_proper double_p h0 (f := double)
  have he : (double.round q).2 ≤ double.emax := by
    rcases c with c | c
    · have h1 : pow2 ((52 : Nat) + (double.round q).2) ≤ q := by
        rw [pow2_add, pow2_nat]
        conv_rhs => rw [← hv]
        exact mul_le_mul_of_nonneg_right (by exact_mod_cast c) (pow2_pos _).le
      have := lt_of_pow2 (lt_of_le_of_lt h1 h)
      show _ ≤ (971 : Int)
      omega
    · rw [c]; decide
  have hc : double.Canon (double.round q).1 (double.round q).2 := ⟨a, b, he, c⟩
  refine ⟨_, _, hc, ?_, hv, rfl⟩
  unfold round
  rw [dif_pos hc]

theorem round_small {q : ℚ} (h0 : 0 ≤ q) (h : q < pow2 1023) (n : Bool) :
    ∃ m e hc, round n q = fin n m e hc ∧ double.round q = (m, e) := by
  obtain ⟨a, b, c⟩ := Format.round_proper double_p h0 (f := double)
  have he : (double.round q).2 ≤ double.emax := by
    have h1 : double.exponent q ≤ 970 := by
      rcases h0.eq_or_lt with rfl | h0
      · decide
      · rw [Format.exponent_pos h0]
        have := lt_of_pow2 (lt_of_le_of_lt (floorLog_spec h0).1 h)
        show max (floorLog q - (52 : Nat)) (-1074) ≤ _
        omega
    unfold Format.round
    dsimp only
    split
    · show double.exponent q + 1 ≤ 971; omega
    · show double.exponent q ≤ 971; omega
  have hc : double.Canon (double.round q).1 (double.round q).2 := ⟨a, b, he, c⟩
  refine ⟨_, _, hc, ?_, rfl⟩
  unfold round
  rw [dif_pos hc]

theorem round_self {n : Bool} {m : Nat} {e : Int} (h : double.Canon m e) : round n (m * pow2 e) = fin n m e h := by
  have := Format.round_canon double_p h.1 h.2.1 h.2.2.2
  unfold round
  simp only [this]
  rw [dif_pos h]

theorem round_zero (n : Bool) : ∃ h, round n 0 = fin n 0 (-1074) h := by
  have h : double.Canon 0 (-1074) := by decide
  have := round_self (n := n) h
  rw [Nat.cast_zero, zero_mul] at this
  exact ⟨h, this⟩

theorem canon_zero {e : Int} (h : double.Canon 0 e) : e = -1074 := by
  rcases h.2.2.2 with h | h
  · exact absurd h (by decide)
  · exact h

theorem number_nat {n : Nat} (h : n ≤ 2 ^ 53) : double.Number n := by
  rcases Nat.lt_or_eq_of_le h with h | rfl
  · exact ⟨n, 0, h, by decide, by rw [pow2_eq]; simp⟩
  · exact ⟨1, 53, by decide, by decide, by rw [pow2_eq]; norm_num⟩

theorem nat_small {n : Nat} (h : n ≤ 2 ^ 53) : (n : ℚ) < pow2 1023 := by
  refine lt_of_le_of_lt (b := pow2 53) ?_ (pow2_lt (by decide))
  rw [show (53 : Int) = (53 : Nat) from rfl, pow2_nat]
  exact_mod_cast h

/-- Natural numbers up to 2 ^ 53. -/
theorem round_nat {n : Nat} (h : n ≤ 2 ^ 53) (s : Bool) : ∃ m e hc, round s n = fin s m e hc ∧ (m : ℚ) * pow2 e = n := by
  obtain ⟨m, e, hc, h1, h2, -⟩ := round_number (number_nat h) (nat_small h) s
  exact ⟨m, e, hc, h1, h2⟩

theorem ofRat_int {i : Int} (h : i.natAbs ≤ 2 ^ 53) : ∃ m e hc, ofRat i = fin (decide (i < 0)) m e hc ∧ (m : ℚ) * pow2 e = i.natAbs := by
  have e1 : |(i : ℚ)| = (i.natAbs : ℚ) := by
    rw [← Int.cast_abs, Int.abs_eq_natAbs]; rfl
  have e2 : decide ((i : ℚ) < 0) = decide (i < 0) := by congr 1; simp
  unfold ofRat
  rw [e1, e2]
  exact round_nat h _

theorem floor_half (n : Nat) : ((n : ℚ) + 1 / 2).floor = n := by
  have : (n : Int) ≤ ((n : ℚ) + 1 / 2).floor := Rat.le_floor_iff.2 (by push_cast; linarith)
  have h2 : ¬ (n : Int) + 1 ≤ ((n : ℚ) + 1 / 2).floor := by
    intro h
    have := Rat.le_floor_iff.1 h
    push_cast at this
    linarith
  omega

theorem floor_nat (n : Nat) : (n : ℚ).floor = n := by
  have : (n : Int) ≤ (n : ℚ).floor := Rat.le_floor_iff.2 (by push_cast; linarith)
  have h2 : ¬ (n : Int) + 1 ≤ (n : ℚ).floor := by
    intro h
    have := Rat.le_floor_iff.1 h
    push_cast at this
    linarith
  omega

theorem nearInt_of {a : Double} {n : Bool} {m k : Nat} {e : Int} {h} (ha : a = fin n m e h) (hv : (m : ℚ) * pow2 e = k) :
    a.nearInt = if n then -(k : Int) else k := by
  subst ha
  show (if n then -((m : ℚ) * pow2 e + 1 / 2).floor else ((m : ℚ) * pow2 e + 1 / 2).floor) = _
  rw [hv, floor_half]

theorem truncated_of {a : Double} {n : Bool} {m k : Nat} {e : Int} {h} (ha : a = fin n m e h) (hv : (m : ℚ) * pow2 e = k) :
    a.truncated = if n then -(k : Int) else k := by
  subst ha
  show (if n then -((m : ℚ) * pow2 e).floor else ((m : ℚ) * pow2 e).floor) = _
  rw [hv, floor_nat]

theorem small_int {i : Int} (h : i.natAbs ≤ 2 ^ 53) : toInt64 i = i := by
  unfold toInt64 two64
  rw [Int.bmod_eq_iff (by decide)]
  refine ⟨by omega, by omega, ?_⟩
  simp

theorem add_nothing (n : Nat) (z : Double) (h : GoFloat.isZero z = true) :
    GoFloat.add (GoFloat.ofNat n) z = (GoFloat.ofNat n : Double) := by
  show add (round false n) z = round false n
  match z, h with
  | fin n' m' e' h', hz =>
    have hz : (m' == 0) = true := hz
    rw [beq_iff_eq] at hz
    subst hz
    have hv : (fin n' 0 e' h').val = 0 := by
      unfold val; simp [mag]
    unfold round
    split
    · next hc =>
      generalize (double.round n).1 = m at hc
      generalize (double.round n).2 = e at hc
      show (if (fin false m e hc).val + (fin n' 0 e' h').val = 0 then round (false && n') 0
        else ofRat ((fin false m e hc).val + (fin n' 0 e' h').val)) = fin false m e hc
      have hm : (fin false m e hc).val = (m : ℚ) * pow2 e := rfl
      have hp := pow2_pos e
      rw [hv, add_zero, hm]
      split
      · next h0 =>
        have : m = 0 := by
          rcases mul_eq_zero.1 h0 with h | h
          · exact_mod_cast h
          · exact absurd h hp.ne'
        subst this
        obtain ⟨h1, h2⟩ := round_zero (false && n')
        rw [h2]
        have := canon_zero hc
        subst this
        rfl
      · have h0 : 0 ≤ (m : ℚ) * pow2 e := by positivity
        unfold ofRat
        rw [abs_of_nonneg h0, decide_eq_false (not_lt.2 h0)]
        exact round_self hc
    · rfl

theorem pow10_zero : ∃ m e h, pow10 0 = fin false m e h ∧ (m : ℚ) * pow2 e = 1 := by
  have h1 : pow10 0 = fin false (2 ^ 52) (-52) (by decide) := by decide +kernel
  exact ⟨_, _, _, h1, by rw [pow2_eq]; norm_num⟩

theorem div_nothing (a : Double) : div a (pow10 0) = a := by
  obtain ⟨m, e, h, h1, h2⟩ := pow10_zero
  rw [h1]
  have hm : m ≠ 0 := by
    rintro rfl
    simp at h2
  match a with
  | nan => rfl
  | inf n => show inf (n ^^ false) = _; simp
  | fin n m' e' h' =>
    show (if m = 0 then _ else round (n ^^ false) ((m' : ℚ) * pow2 e' / ((m : ℚ) * pow2 e))) = _
    rw [if_neg hm, h2, div_one, Bool.xor_false]
    exact round_self h'

theorem float32 (n : Nat) (h : n < 2 ^ 32) (hn : ¬ ((n / 2 ^ 23) % 2 ^ 8 = 255 ∧ n % 2 ^ 23 ≠ 0)) :
    toFloat32Bits (ofFloat32Bits n) = n := by
  unfold ofFloat32Bits
  dsimp only
  have hs : (if (n / 2 ^ 31 % 2 == 1) = true then 2 ^ 31 else 0) = n / 2 ^ 31 * 2 ^ 31 := by
    split
    · next h1 => rw [beq_iff_eq] at h1; omega
    · next h1 => rw [beq_iff_eq] at h1; omega
  generalize hb : (n / 2 ^ 31 % 2 == 1) = s at hs ⊢
  split
  · next hx =>
    rw [if_pos (by omega)]
    show (if s = true then 2 ^ 31 else 0) + 255 * 2 ^ 23 = n
    rw [hs]
    omega
  · have fits : ∀ (M : Nat) (e : Int), M < 2 ^ 24 → -149 ≤ e → e ≤ 104 → (2 ^ 23 ≤ M ∨ e = -149) →
        ∃ m e' hc, round s ((M : ℚ) * pow2 e) = fin s m e' hc ∧ single.round ((m : ℚ) * pow2 e') = (M, e) := by
      intro M e h1 h2 h3 h4
      have hnum : double.Number ((M : ℚ) * pow2 e) := ⟨M, e, by show M < 2 ^ 53; omega, by show (-1074 : Int) ≤ e; omega, rfl⟩
      have hlt : (M : ℚ) * pow2 e < pow2 1023 := by
        calc (M : ℚ) * pow2 e ≤ (2 ^ 24 : Nat) * pow2 e :=
              mul_le_mul_of_nonneg_right (by exact_mod_cast h1.le) (pow2_pos _).le
          _ = pow2 ((24 : Nat) + e) := by rw [pow2_add, pow2_nat]
          _ < pow2 1023 := pow2_lt (by omega)
      obtain ⟨m, e', hc, k1, k2, -⟩ := round_number hnum hlt s
      refine ⟨m, e', hc, k1, ?_⟩
      rw [k2]
      exact Format.round_canon (f := single) (by decide) h1 h2 h4
    split
    · next hx =>
      obtain ⟨m, e, hc, h1, h2⟩ := fits (n % 2 ^ 23) (-149) (by omega) (by omega) (by omega) (.inr rfl)
      rw [h1]
      show (if s = true then 2 ^ 31 else 0) + (if single.emax < (single.round ((m : ℚ) * pow2 e)).2 then 255 * 2 ^ 23
        else if (single.round ((m : ℚ) * pow2 e)).1 < 2 ^ 23 then (single.round ((m : ℚ) * pow2 e)).1
        else ((single.round ((m : ℚ) * pow2 e)).2 + 150).toNat * 2 ^ 23 + ((single.round ((m : ℚ) * pow2 e)).1 - 2 ^ 23)) = n
      rw [hs, h2, if_neg (by show ¬ ((104 : Int) < -149); decide), if_pos (by show n % 2 ^ 23 < _; omega)]
      show n / 2 ^ 31 * 2 ^ 31 + n % 2 ^ 23 = n
      omega
    · next hx0 hx =>
      obtain ⟨m, e, hc, h1, h2⟩ := fits (2 ^ 23 + n % 2 ^ 23) (((n / 2 ^ 23 % 2 ^ 8 : Nat) : Int) - 150) (by omega) (by omega) (by omega)
        (.inl (by omega))
      rw [h1]
      show (if s = true then 2 ^ 31 else 0) + (if single.emax < (single.round ((m : ℚ) * pow2 e)).2 then 255 * 2 ^ 23
        else if (single.round ((m : ℚ) * pow2 e)).1 < 2 ^ 23 then (single.round ((m : ℚ) * pow2 e)).1
        else ((single.round ((m : ℚ) * pow2 e)).2 + 150).toNat * 2 ^ 23 + ((single.round ((m : ℚ) * pow2 e)).1 - 2 ^ 23)) = n
      rw [hs, h2, if_neg (by show ¬ ((104 : Int) < _); omega), if_neg (by show ¬ (2 ^ 23 + n % 2 ^ 23 < _); omega)]
      show n / 2 ^ 31 * 2 ^ 31 + ((((n / 2 ^ 23 % 2 ^ 8 : Nat) : Int) - 150 + 150).toNat * 2 ^ 23 + (2 ^ 23 + n % 2 ^ 23 - 2 ^ 23)) = n
      omega

instance : LawfulGoFloat Double where
  roundUint_ofNat n h := by
    obtain ⟨m, e, hc, h1, h2⟩ := round_nat h false
    show toUint (round false n).nearInt = n
    rw [nearInt_of h1 h2]
    exact toUint_of_lt (by unfold two64; omega)
  roundInt_ofNat n h := by
    obtain ⟨m, e, hc, h1, h2⟩ := round_nat h false
    show toInt64 (round false n).nearInt = n
    rw [nearInt_of h1 h2]
    exact small_int (i := n) (by omega)
  truncUint_ofNat n h := by
    obtain ⟨m, e, hc, h1, h2⟩ := round_nat h false
    show toUint (round false n).truncated = n
    rw [truncated_of h1 h2]
    exact toUint_of_lt (by unfold two64; omega)
  truncInt_ofNat n h := by
    obtain ⟨m, e, hc, h1, h2⟩ := round_nat h false
    show toInt64 (round false n).truncated = n
    rw [truncated_of h1 h2]
    exact small_int (i := n) (by omega)
  roundInt_ofInt i h := by
    obtain ⟨m, e, hc, h1, h2⟩ := ofRat_int h
    show toInt64 (ofRat i).nearInt = i
    rw [nearInt_of h1 h2]
    have : (if decide (i < 0) = true then -(i.natAbs : Int) else i.natAbs) = i := by
      split
      · next h => rw [decide_eq_true_eq] at h; omega
      · next h => rw [decide_eq_true_eq] at h; omega
    rw [this]
    exact small_int h
  truncInt_ofInt i h := by
    obtain ⟨m, e, hc, h1, h2⟩ := ofRat_int h
    show toInt64 (ofRat i).truncated = i
    rw [truncated_of h1 h2]
    have : (if decide (i < 0) = true then -(i.natAbs : Int) else i.natAbs) = i := by
      split
      · next h => rw [decide_eq_true_eq] at h; omega
      · next h => rw [decide_eq_true_eq] at h; omega
    rw [this]
    exact small_int h
  add_zero := add_nothing
  div_one := div_nothing
  float32_roundtrip := float32

end Double
end Gobufr
