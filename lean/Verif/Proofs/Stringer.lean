import Verif.Spec.Stringer
import Verif.Proofs.Table

/-! Helper lemmas about texts. -/

namespace Gobufr
namespace Stringer
open Spec

theorem decAux_fuel : ∀ (a b n : Nat), n < a → n < b → decAux a n = decAux b n
  | 0, _, _, h, _ => absurd h (by omega)
  | _ + 1, 0, _, _, h => absurd h (by omega)
  | a + 1, b + 1, n, ha, hb => by
    simp only [decAux]
    split
    · rfl
    · rw [decAux_fuel a b (n / 10) (by omega) (by omega)]

theorem decNat_small {n : Nat} (h : n < 10) : decNat n = [digit n] := by
  unfold decNat
  simp only [decAux, if_pos h]
  rfl

theorem decNat_big {n : Nat} (h : ¬ n < 10) : decNat n = decNat (n / 10) ++ [digit (n % 10)] := by
  unfold decNat
  conv => lhs; simp only [decAux, if_neg h]
  rw [decAux_fuel n (n / 10 + 1) (n / 10) (by omega) (by omega)]
  rfl

theorem decimal_decNat (n : Nat) : Decimal n (decNat n) := by
  induction n using Nat.strongRecOn with
  | _ n ih =>
    by_cases h : n < 10
    · rw [decNat_small h]
      exact .one h
    · rw [decNat_big h]
      have := Decimal.more (n := n / 10) (d := n % 10) (by omega) (by omega) (ih (n / 10) (by omega))
      rwa [show 10 * (n / 10) + n % 10 = n by omega] at this

theorem decimalInt_itoa (i : Int) : DecimalInt i (itoa i) := by
  unfold itoa
  split
  · refine .inr ⟨by omega, _, rfl, ?_⟩
    rw [show (-i).toNat = i.natAbs by omega]
    exact decimal_decNat _
  · refine .inl ⟨by omega, ?_⟩
    rw [show i.toNat = i.natAbs by omega]
    exact decimal_decNat _

theorem itoa_chars {i : Int} {c : UInt8} (h : c ∈ itoa i) : c = ch '-' ∨ 48 ≤ c.toNat ∧ c.toNat ≤ 57 := by
  unfold itoa at h
  split at h
  · rcases List.mem_cons.1 h with h | h
    · exact .inl h
    · exact .inr (decNat_digits _ _ h)
  · exact .inr (decNat_digits _ _ h)

theorem itoa_no {i : Int} {c : UInt8} (h1 : c ≠ ch '-') (h2 : ¬ (48 ≤ c.toNat ∧ c.toNat ≤ 57)) : c ∉ itoa i := fun h =>
  (itoa_chars h).elim h1 h2

theorem mem_numberedFrom0 {names : List String} {i : Int} (h0 : 0 ≤ i) (h : i < names.length) :
    ∃ p ∈ numberedFrom0 names, p.1 = i := by
  have hi : i.toNat < names.length := by omega
  refine ⟨(i, str (names[i.toNat])), ?_, rfl⟩
  unfold numberedFrom0
  rw [List.mem_map]
  refine ⟨(i.toNat, names[i.toNat]), ?_, by simp; omega⟩
  rw [List.mem_iff_getElem]
  exact ⟨i.toNat, by simpa using hi, by simp⟩

theorem prints_stringer {typ name : GoString} {index : List Nat} {names : List String} (hl : index.length = names.length + 1)
    (hn : ∀ p ∈ numberedFrom0 names, stringer typ name index p.1 = p.2) :
    Prints typ (numberedFrom0 names) (stringer typ name index) := by
  refine ⟨hn, fun i hi => ⟨itoa i, decimalInt_itoa i, ?_⟩⟩
  unfold stringer
  rw [if_pos]
  · rfl
  · by_cases h0 : i < 0
    · exact .inl h0
    · by_cases h : i < names.length
      · obtain ⟨p, hp, e⟩ := mem_numberedFrom0 (by omega) h
        exact absurd e (hi p hp)
      · exact .inr (by omega)

theorem prints_operator : Prints (str "Operator") operatorConsts operator := by
  refine ⟨by decide +kernel, fun i hi => ⟨itoa i, decimalInt_itoa i, ?_⟩⟩
  simp only [operatorConsts, List.forall_mem_cons, List.not_mem_nil, false_imp_iff, implies_true, and_true] at hi
  unfold operator
  rw [if_neg (by omega), if_neg (by omega), if_neg (by omega), if_neg (by omega), if_neg (by omega)]
  rfl

/-- Texts of different constants differ. -/
theorem prints_inj {typ : GoString} {consts : List (Int × GoString)} {f : Int → GoString} (h : Prints typ consts f)
    (hd : ∀ p ∈ consts, ∀ q ∈ consts, p.2 = q.2 → p.1 = q.1) (hp : ∀ p ∈ consts, ch '(' ∉ p.2) (i j : Int) (e : f i = f j) : i = j := by
  have key : ∀ k, (∃ p ∈ consts, p.1 = k) ∨ ∃ s, DecimalInt k s ∧ f k = typ ++ [ch '('] ++ s ++ [ch ')'] := fun k => by
    by_cases hk : ∃ p ∈ consts, p.1 = k
    · exact .inl hk
    · exact .inr (h.2 k fun p hp e => hk ⟨p, hp, e⟩)
  have dec_inj : ∀ {i j : Int} {s : GoString}, DecimalInt i s → DecimalInt j s → i = j := by
    have val : ∀ {n s}, Decimal n s → atoiDigits s 0 = some n := by
      intro n s h
      induction h with
      | one hd => exact (atoiDigits_digit hd 0).trans (by rw [Nat.zero_mul, Nat.zero_add])
      | more h0 hd _ ih =>
        rw [atoiDigits_append, ih, Option.bind_some]
        exact (atoiDigits_digit hd _).trans (by rw [Nat.mul_comm])
    have ne : ∀ {n s}, Decimal n (ch '-' :: s) → False := by
      intro n s h
      have := val h
      simp only [atoiDigits] at this
      rw [if_neg (by decide)] at this
      cases this
    intro i j s h1 h2
    rcases h1 with ⟨h1, k1⟩ | ⟨h1, t, rfl, k1⟩ <;> rcases h2 with ⟨h2, k2⟩ | ⟨h2, t', e, k2⟩
    · have := (val k1).symm.trans (val k2)
      simp only [Option.some.injEq] at this
      omega
    · subst e; exact (ne k1).elim
    · exact (ne k2).elim
    · cases e
      have := (val k1).symm.trans (val k2)
      simp only [Option.some.injEq] at this
      omega
  have dec_no : ∀ {i : Int} {s : GoString}, ch '(' ∈ typ ++ [ch '('] ++ s ++ [ch ')'] := by simp
  rcases key i with ⟨p, hpi, rfl⟩ | ⟨s, hs, hi⟩ <;> rcases key j with ⟨q, hqj, rfl⟩ | ⟨t, ht, hj⟩
  · rw [h.1 p hpi, h.1 q hqj] at e
    exact hd p hpi q hqj e
  · rw [h.1 p hpi, hj] at e
    exact absurd (e ▸ dec_no (i := 0)) (hp p hpi)
  · rw [h.1 q hqj, hi] at e
    exact absurd (e.symm ▸ dec_no (i := 0)) (hp q hqj)
  · rw [hi, hj] at e
    simp only [List.append_assoc, List.append_cancel_left_eq] at e
    have e' := List.append_cancel_right e
    subst e'
    exact dec_inj hs ht

/-- `k` digits of a number, with leading zeros. -/
def digitsOf : Nat → Nat → GoString
  | 0, _ => []
  | k + 1, n => digitsOf k (n / 10) ++ [digit (n % 10)]

theorem digitsOf_zero : ∀ k, digitsOf k 0 = List.replicate k (ch '0')
  | 0 => rfl
  | k + 1 => by
    rw [digitsOf, Nat.zero_div, digitsOf_zero k, List.replicate_succ']
    rfl

theorem padded : ∀ (k n : Nat), n < 10 ^ (k + 1) → List.replicate (k + 1 - (decNat n).length) (ch '0') ++ decNat n = digitsOf (k + 1) n
  | k, n, h => by
    by_cases h10 : n < 10
    · rw [decNat_small h10, digitsOf, Nat.div_eq_of_lt h10, digitsOf_zero, Nat.mod_eq_of_lt h10]
      rfl
    · match k with
      | 0 => exact absurd h h10
      | k + 1 =>
        rw [decNat_big h10, digitsOf, ← padded k (n / 10) (by rw [Nat.pow_succ] at h; omega)]
        simp only [List.length_append, List.length_singleton, List.append_assoc]
        rw [show k + 1 + 1 - ((decNat (n / 10)).length + 1) = k + 1 - (decNat (n / 10)).length by omega]

theorem id_nat (n : Nat) : id (n : Int) = List.replicate (6 - (decNat n).length) (ch '0') ++ decNat n := by
  unfold id pad06
  rw [if_neg (by omega)]
  rfl

theorem id_chars {i : ID} {c : UInt8} (h : c ∈ id i) : c = ch '-' ∨ 48 ≤ c.toNat ∧ c.toNat ≤ 57 := by
  have hz : ∀ k, c ∈ List.replicate k (ch '0') → c = ch '-' ∨ 48 ≤ c.toNat ∧ c.toNat ≤ 57 := fun k hk => by
    rw [(List.mem_replicate.1 hk).2]
    exact .inr (by decide)
  unfold id pad06 at h
  split at h
  · simp only [List.mem_cons, List.mem_append] at h
    rcases h with h | h | h
    · exact .inl h
    · exact hz _ h
    · exact .inr (decNat_digits _ _ h)
  · simp only [List.mem_append] at h
    rcases h with h | h
    · exact hz _ h
    · exact .inr (decNat_digits _ _ h)

theorem id_no {i : ID} {c : UInt8} (h1 : c ≠ ch '-') (h2 : ¬ (48 ≤ c.toNat ∧ c.toNat ≤ 57)) : c ∉ id i := fun h => (id_chars h).elim h1 h2

theorem id_inj {i j : Int} (h : id i = id j) : i = j := by
  have hv : ∀ k n, atoiDigits (List.replicate k (ch '0') ++ decNat n) 0 = some n := fun k n => by
    rw [atoiDigits_zeros, atoiDigits_decNat]
  have hn : ∀ k n s, List.replicate k (ch '0') ++ decNat n ≠ ch '-' :: s := by
    intro k n s h
    have := hv k n
    rw [h, atoiDigits, if_neg (by decide)] at this
    cases this
  unfold id pad06 at h
  split at h <;> split at h
  · have := congrArg (atoiDigits · 0) (List.cons_eq_cons.mp h).2
    simp only [hv, Option.some.injEq] at this
    omega
  · exact absurd h.symm (hn _ _ _)
  · exact absurd h (hn _ _ _)
  · have := congrArg (atoiDigits · 0) h
    simp only [hv, Option.some.injEq] at this
    omega

theorem id_length (i : ID) : 6 ≤ (id i).length := by
  have : 0 < (decNat i.natAbs).length := List.length_pos_iff.2 (decNat_ne_nil _)
  unfold id pad06
  split <;> simp only [List.length_cons, List.length_append, List.length_replicate] <;> omega

theorem spaced_inj : ∀ {l l' : List GoString}, (∀ s ∈ l, s ≠ [] ∧ ch ' ' ∉ s) → (∀ s ∈ l', s ≠ [] ∧ ch ' ' ∉ s) → spaced l = spaced l' → l = l'
  | [], [], _, _, _ => rfl
  | [], [s], _, h, e => absurd e.symm (h s (by simp)).1
  | [], s :: t :: r, _, _, e => by simp [spaced] at e
  | [s], [], h, _, e => absurd e (h s (by simp)).1
  | s :: t :: r, [], _, _, e => by simp [spaced] at e
  | [s], [s'], _, _, e => by rw [show s = s' from e]
  | [s], s' :: t' :: r', h, _, e => by
    refine absurd ?_ (h s (by simp)).2
    rw [show s = s' ++ [ch ' '] ++ spaced (t' :: r') from e]
    simp
  | s :: t :: r, [s'], _, h, e => by
    refine absurd ?_ (h s' (by simp)).2
    rw [← show s ++ [ch ' '] ++ spaced (t :: r) = s' from e]
    simp
  | s :: t :: r, s' :: t' :: r', h, h', e => by
    have e : s ++ ch ' ' :: spaced (t :: r) = s' ++ ch ' ' :: spaced (t' :: r') := by simpa [spaced] using e
    obtain ⟨e1, e2⟩ := cut_unique (h s (by simp)).2 (h' s' (by simp)).2 e
    rw [e1, spaced_inj (fun x hx => h x (List.mem_cons_of_mem _ hx)) (fun x hx => h' x (List.mem_cons_of_mem _ hx)) e2]

theorem map_id_inj : ∀ {l l' : List ID}, l.map id = l'.map id → l = l'
  | [], [], _ => rfl
  | [], _ :: _, h => by cases h
  | _ :: _, [], h => by cases h
  | a :: l, b :: l', h => by
    simp only [List.map_cons, List.cons.injEq] at h
    rw [id_inj h.1, map_id_inj h.2]

theorem runes_ascii : ∀ (s : GoString), (∀ c ∈ s, c.toNat < 128) → runes s = s.length
  | [], _ => by unfold runes; rfl
  | a :: s, h => by
    have h1 : Marshal.runeLength (a :: s) = 1 := by
      unfold Marshal.runeLength
      simp only
      rw [if_pos (h a (by simp))]
    unfold runes
    rw [h1, List.length_cons, Nat.add_comm]
    congr 1
    exact runes_ascii s fun c hc => h c (List.mem_cons_of_mem _ hc)

end Stringer
end Gobufr
