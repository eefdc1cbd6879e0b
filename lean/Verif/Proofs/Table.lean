import Verif.Model.Table

/-! Helper lemmas about decimal strings and Go maps. -/

namespace Gobufr

theorem atoiDigits_append (a b : GoString) (acc : Nat) :
    atoiDigits (a ++ b) acc = (atoiDigits a acc).bind (atoiDigits b) := by
  induction a generalizing acc with
  | nil => rfl
  | cons c cs ih =>
    simp only [List.cons_append, atoiDigits]
    split
    · exact ih _
    · rfl

theorem digit_toNat {d : Nat} (h : d < 10) : (UInt8.ofNat (48 + d)).toNat = 48 + d := by
  rw [UInt8.toNat_ofNat']; omega

theorem atoiDigits_digit {d : Nat} (h : d < 10) (acc : Nat) :
    atoiDigits [UInt8.ofNat (48 + d)] acc = some (acc * 10 + d) := by
  simp only [atoiDigits, digit_toNat h]
  rw [if_pos (by omega)]
  congr 1; omega

theorem atoiDigits_decAux (fuel n : Nat) (h : n < fuel) :
    atoiDigits (decAux fuel n) 0 = some n := by
  induction fuel generalizing n with
  | zero => omega
  | succ fuel ih =>
    simp only [decAux]
    split
    · rename_i h10
      rw [atoiDigits_digit h10]; simp
    · rename_i h10
      rw [atoiDigits_append, ih (n / 10) (by omega), Option.bind_some,
        atoiDigits_digit (Nat.mod_lt _ (by omega))]
      congr 1; omega

theorem atoiDigits_decNat (n : Nat) : atoiDigits (decNat n) 0 = some n :=
  atoiDigits_decAux _ _ (by omega)

theorem atoiDigits_zeros (k : Nat) (ds : GoString) :
    atoiDigits (List.replicate k (ch '0') ++ ds) 0 = atoiDigits ds 0 := by
  induction k with
  | zero => rfl
  | succ k ih =>
    rw [List.replicate_succ, List.cons_append, atoiDigits, if_pos (by decide)]
    exact ih

theorem decAux_digits (fuel n : Nat) : ∀ c ∈ decAux fuel n, 48 ≤ c.toNat ∧ c.toNat ≤ 57 := by
  induction fuel generalizing n with
  | zero => simp [decAux]
  | succ fuel ih =>
    intro c hc
    simp only [decAux] at hc
    split at hc
    · rename_i h10
      simp only [List.mem_singleton] at hc
      subst hc; rw [digit_toNat h10]; omega
    · simp only [List.mem_append, List.mem_singleton] at hc
      rcases hc with hc | rfl
      · exact ih _ c hc
      · rw [digit_toNat (Nat.mod_lt _ (by omega))]; omega

theorem decNat_digits (n : Nat) : ∀ c ∈ decNat n, 48 ≤ c.toNat ∧ c.toNat ≤ 57 := decAux_digits _ _

theorem decNat_ne_nil (n : Nat) : decNat n ≠ [] := by
  unfold decNat; simp only [decAux]; split <;> simp

theorem decNat_inj {m n : Nat} (h : decNat m = decNat n) : m = n := by
  have := atoiDigits_decNat m
  rw [h, atoiDigits_decNat] at this
  simpa using this.symm

theorem decNat_head_ne {n : Nat} {c : UInt8} (hc : c.toNat < 48) {r : GoString} :
    decNat n ≠ c :: r := by
  intro h
  have := decNat_digits n c (by rw [h]; simp)
  omega

theorem itoa_inj {i j : Int} (h : itoa i = itoa j) : i = j := by
  unfold itoa at h
  split at h <;> split at h
  · have := decNat_inj (List.cons_eq_cons.mp h).2; omega
  · exact absurd h.symm (decNat_head_ne (by decide))
  · exact absurd h (decNat_head_ne (by decide))
  · have := decNat_inj h; omega

theorem itoa_no_slash (i : Int) : ch '/' ∉ itoa i := by
  have hd : ∀ n, ch '/' ∉ decNat n := fun n hm => by
    have := decNat_digits n _ hm
    revert this; decide
  unfold itoa
  split
  · simp only [List.mem_cons, not_or]
    exact ⟨by decide, hd _⟩
  · exact hd _

/-- A string without separator followed by a separator can be cut in only one way. -/
theorem cut_unique {c : UInt8} {a b r s : GoString} (ha : c ∉ a) (hb : c ∉ b)
    (h : a ++ c :: r = b ++ c :: s) : a = b ∧ r = s := by
  induction a generalizing b with
  | nil =>
    cases b with
    | nil => simpa using h
    | cons x xs =>
      simp only [List.nil_append, List.cons_append, List.cons.injEq] at h
      exact absurd (h.1 ▸ List.mem_cons_self) hb
  | cons x xs ih =>
    cases b with
    | nil =>
      simp only [List.nil_append, List.cons_append, List.cons.injEq] at h
      exact absurd (h.1 ▸ List.mem_cons_self) ha
    | cons y ys =>
      simp only [List.cons_append, List.cons.injEq] at h
      simp only [List.mem_cons, not_or] at ha hb
      obtain ⟨h1, h2⟩ := ih ha.2 hb.2 h.2
      exact ⟨by rw [h.1, h1], h2⟩

theorem atoi_total (s : GoString) : (∃ i, atoi s = .ok i) ∨ ∃ e, atoi s = .err e := by
  have hc : ∀ i, (∃ j, checkInt64 i = .ok j) ∨ ∃ e, checkInt64 i = .err e := by
    intro i
    unfold checkInt64
    split
    · exact .inl ⟨_, rfl⟩
    · exact .inr ⟨_, rfl⟩
  unfold atoi
  split
  · exact .inr ⟨_, rfl⟩
  · split
    · exact .inr ⟨_, rfl⟩
    · exact hc _

theorem atoi_pad06 (n : Nat) (h : n < 2 ^ 63) : atoi (pad06 n) = .ok (n : Int) := by
  have hp : pad06 n = List.replicate (6 - (decNat n).length) (ch '0') ++ decNat n := by
    unfold pad06
    rw [if_neg (by omega)]
    rfl
  have hdig : ∀ c ∈ pad06 n, 48 ≤ c.toNat ∧ c.toNat ≤ 57 := by
    intro c hc
    rw [hp, List.mem_append] at hc
    rcases hc with hc | hc
    · rw [List.mem_replicate] at hc
      rw [hc.2]; decide
    · exact decNat_digits _ _ hc
  have hval : atoiDigits (pad06 n) 0 = some n := by
    rw [hp, atoiDigits_zeros, atoiDigits_decNat]
  cases hs : pad06 n with
  | nil =>
    rw [hp] at hs
    exact absurd (List.append_eq_nil_iff.mp hs).2 (decNat_ne_nil n)
  | cons c cs =>
    rw [hs] at hval hdig
    have hc := hdig c (by simp)
    have h1 : c ≠ ch '-' := by intro h; rw [h] at hc; revert hc; decide
    have h2 : c ≠ ch '+' := by intro h; rw [h] at hc; revert hc; decide
    have hsign : atoiSign (c :: cs) = (false, c :: cs) := by
      simp only [atoiSign, if_neg h1, if_neg h2]
    unfold atoi
    rw [hsign]
    simp only [hval, reduceCtorEq, if_false, Bool.false_eq_true]
    unfold checkInt64
    rw [if_pos (by omega)]

theorem nodup_of_map {f : α → β} {l : List α} (h : (l.map f).Nodup) : l.Nodup := by
  induction l with
  | nil => exact List.nodup_nil
  | cons a l ih =>
    simp only [List.map_cons, List.nodup_cons] at h ⊢
    exact ⟨fun hm => h.1 (List.mem_map.mpr ⟨a, hm, rfl⟩), ih h.2⟩

section Maps
variable {K V : Type} [DecidableEq K]

theorem mapGet_some_mem {m : List (K × V)} {k : K} {v : V} (h : mapGet m k = some v) :
    (k, v) ∈ m := by
  induction m with
  | nil => simp [mapGet] at h
  | cons p m ih =>
    obtain ⟨k', v'⟩ := p
    simp only [mapGet] at h
    split at h
    · rename_i hk
      cases h; subst hk; simp
    · exact List.mem_cons_of_mem _ (ih h)

theorem mapGet_none_iff {m : List (K × V)} {k : K} :
    mapGet m k = none ↔ ∀ v, (k, v) ∉ m := by
  induction m with
  | nil => simp [mapGet]
  | cons p m ih =>
    obtain ⟨k', v'⟩ := p
    simp only [mapGet]
    split
    · rename_i hk; subst hk
      simp only [reduceCtorEq, false_iff]
      exact fun h => h v' (by simp)
    · rename_i hk
      rw [ih]
      simp only [List.mem_cons, Prod.mk.injEq, not_or, not_and]
      exact ⟨fun h v => ⟨fun e => absurd e.symm hk, h v⟩, fun h v => (h v).2⟩

/-- With distinct keys, membership decides the lookup. -/
theorem mapGet_of_mem {m : List (K × V)} (hn : (m.map Prod.fst).Nodup) {k : K} {v : V}
    (h : (k, v) ∈ m) : mapGet m k = some v := by
  induction m with
  | nil => simp at h
  | cons p m ih =>
    obtain ⟨k', v'⟩ := p
    simp only [List.map_cons, List.nodup_cons] at hn
    simp only [mapGet]
    rcases List.mem_cons.mp h with h | h
    · cases h; simp
    · have : k' ≠ k := by
        intro e; subst e
        exact hn.1 (List.mem_map.mpr ⟨_, h, rfl⟩)
      rw [if_neg this]
      exact ih hn.2 h

end Maps

end Gobufr
