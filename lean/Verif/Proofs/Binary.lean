import Verif.Proofs.BitReader

/-! # Helper lemmas about `Binary` -/

namespace Gobufr
open Spec

/-- '0'/'1' text of a bit string -/
def textOf (l : Bits) : GoString := l.map fun b => if b then ch '1' else ch '0'

theorem parseBin8_text (l : Bits) (u : Nat) :
    parseBin8 (textOf l) u = .ok (UInt8.ofNat (u * 2 ^ l.length + bitsVal l)) := by
  induction l generalizing u with
  | nil => simp [textOf, parseBin8, bitsVal]
  | cons b bs ih =>
    have h10 : ¬ ch '1' = ch '0' := by decide
    have e : ∀ c, 2 * u * 2 ^ bs.length + c = u * 2 ^ (bs.length + 1) + c := by
      intro c; rw [Nat.pow_succ, Nat.mul_comm 2 u, Nat.mul_assoc, Nat.mul_comm 2]
    cases b
    · have := ih (2 * u)
      simp only [textOf] at this
      simp [textOf, parseBin8, this, bitsVal, e]
    · have := ih (2 * u + 1)
      simp only [textOf] at this
      simp [textOf, parseBin8, this, bitsVal, h10, Nat.add_mul, Nat.add_assoc, e]

theorem parseBin8_ok {s : GoString} {u : Nat} {b : UInt8} (h : parseBin8 s u = .ok b) :
    ∃ l, s = textOf l := by
  induction s generalizing u with
  | nil => exact ⟨[], rfl⟩
  | cons c cs ih =>
    simp only [parseBin8] at h
    split at h
    · rename_i hc; obtain ⟨l, rfl⟩ := ih h; exact ⟨false :: l, by simp [textOf, hc]⟩
    · split at h
      · rename_i hc; obtain ⟨l, rfl⟩ := ih h; exact ⟨true :: l, by simp [textOf, hc]⟩
      · cases h

theorem textOf_length (l : Bits) : (textOf l).length = l.length := by simp [textOf]

theorem textOf_append (a b : Bits) : textOf (a ++ b) = textOf a ++ textOf b := by simp [textOf]

theorem loop_step {g : GoString} (h : g.length = 8) (rest : GoString) (b : List UInt8) :
    newBinaryFromStringLoop (g ++ rest) b
      = (do let u ← parseBin8 g 0; newBinaryFromStringLoop rest (b ++ [u])) := by
  obtain ⟨c1, c2, c3, c4, c5, c6, c7, c8, rfl⟩ := length8 h
  simp only [List.cons_append, List.nil_append]
  rw [newBinaryFromStringLoop]

theorem loop_last {g : GoString} (h0 : g ≠ []) (h : g.length < 8) (b : List UInt8) :
    newBinaryFromStringLoop g b = (do let u ← parseBin8 g 0; .ok (b ++ [u])) := by
  unfold newBinaryFromStringLoop
  split
  · simp at h; omega
  · exact absurd rfl h0
  · rfl

theorem newBinaryFromStringLoop_text (l : Bits) (acc : List UInt8) :
    newBinaryFromStringLoop (textOf l) acc = .ok (acc ++ packBits l) := by
  induction hn : l.length using Nat.strongRecOn generalizing l acc with
  | _ n ih =>
    by_cases h : l = []
    · subst h; simp [textOf, packBits_nil, newBinaryFromStringLoop]
    · have hp : 0 < l.length := List.length_pos_iff.mpr h
      rw [packBits_eq h]
      by_cases h8 : l.length < 8
      · have ht : l.take 8 = l := List.take_of_length_le (by omega)
        have hd : l.drop 8 = [] := List.drop_eq_nil_of_le (by omega)
        have hne : textOf l ≠ [] := by
          intro he; have := textOf_length l; rw [he] at this; simp at this; omega
        rw [loop_last hne (by rw [textOf_length]; omega), parseBin8_text]
        simp [ht, hd, packBits_nil]
      · have e : textOf l = textOf (l.take 8) ++ textOf (l.drop 8) := by
          rw [← textOf_append, List.take_append_drop]
        rw [e, loop_step (by rw [textOf_length]; simp; omega), parseBin8_text]
        simp only [Outcome.bind_ok, Nat.zero_mul, Nat.zero_add]
        rw [ih (l.drop 8).length (by simp; omega) (l.drop 8) _ rfl]
        simp

theorem newBinary_pack (l : Bits) : newBinary (packBits l) l.length = .ok ⟨packBits l, l.length⟩ := by
  unfold newBinary
  have h1 : (l.length : Int).tdiv 8 = (l.length / 8 : Nat) := by
    rw [Int.tdiv_eq_ediv_of_nonneg (by omega)]; omega
  have h2 : (l.length : Int).tmod 8 = (l.length % 8 : Nat) := by
    rw [Int.tmod_eq_emod_of_nonneg (by omega)]; omega
  simp only [h1, h2, packBits_length]
  rw [if_neg]
  split <;> omega

theorem newBinaryFromString_text (l : Bits) :
    newBinaryFromString (textOf l) = .ok ⟨packBits l, l.length⟩ := by
  unfold newBinaryFromString
  rw [newBinaryFromStringLoop_text]
  simp [textOf_length, newBinary_pack]

theorem newBinaryFromStringLoop_ok {s : GoString} {acc b : List UInt8}
    (h : newBinaryFromStringLoop s acc = .ok b) : ∃ l, s = textOf l := by
  induction hn : s.length using Nat.strongRecOn generalizing s acc with
  | _ n ih =>
    by_cases h0 : s = []
    · exact ⟨[], by simp [h0, textOf]⟩
    · by_cases h8 : s.length < 8
      · rw [loop_last h0 h8, Outcome.bind_eq_ok] at h
        obtain ⟨u, hu, _⟩ := h
        exact parseBin8_ok hu
      · have e : s = s.take 8 ++ s.drop 8 := (List.take_append_drop 8 s).symm
        rw [e, loop_step (by simp; omega), Outcome.bind_eq_ok] at h
        obtain ⟨u, hu, hr⟩ := h
        obtain ⟨l1, h1⟩ := parseBin8_ok hu
        obtain ⟨l2, h2⟩ := ih (s.drop 8).length (by simp; omega) hr rfl
        exact ⟨l1 ++ l2, by rw [textOf_append, ← h1, ← h2, ← e]⟩

theorem newBinaryFromString_ok {s : GoString} {b : Binary} (h : newBinaryFromString s = .ok b) :
    ∃ l, s = textOf l ∧ b = ⟨packBits l, l.length⟩ := by
  have h0 := h
  unfold newBinaryFromString at h
  rw [Outcome.bind_eq_ok] at h
  obtain ⟨x, hx, _⟩ := h
  obtain ⟨l, rfl⟩ := newBinaryFromStringLoop_ok hx
  rw [newBinaryFromString_text] at h0
  exact ⟨l, rfl, by cases h0; rfl⟩

/-! ## String -/

theorem digitsOf_natBits (v w : Nat) : digitsOf v w = textOf (natBits w v) := by
  induction w with
  | zero => rfl
  | succ w ih =>
    simp only [digitsOf, natBits, textOf, List.map_cons, Nat.testBit_eq_decide_div_mod_eq, ih]
    simp

theorem binDigits_le {v w : Nat} (hw : 1 ≤ w) (h : v < 2 ^ w) : binDigits v ≤ w := by
  unfold binDigits
  by_cases h0 : v = 0
  · subst h0; simp; exact hw
  · have := (Nat.log2_lt h0).mpr h
    omega

theorem fmtBin_pack {l : Bits} (h1 : 1 ≤ l.length) (h8 : l.length ≤ 8) :
    fmtBin l.length (UInt8.ofNat (bitsVal l)) = textOf l := by
  have hv : (UInt8.ofNat (bitsVal l)).toNat = bitsVal l := by
    have := ofNat_toNat_take8 l
    rwa [List.take_of_length_le h8] at this
  unfold fmtBin
  rw [hv, Nat.max_eq_left (binDigits_le h1 (bitsVal_lt l)), digitsOf_natBits, natBits_bitsVal]

theorem stringLoop_pack (l : Bits) (N : Int) (hN : l ≠ [] → N.tmod 8 = (l.length % 8 : Nat)) :
    Binary.stringLoop N (packBits l) = textOf l := by
  induction hn : l.length using Nat.strongRecOn generalizing l with
  | _ n ih =>
    by_cases h : l = []
    · subst h; simp [packBits_nil, Binary.stringLoop, textOf]
    · have hp : 0 < l.length := List.length_pos_iff.mpr h
      have hN' := hN h
      rw [packBits_eq h]
      by_cases hd : l.drop 8 = []
      · have hle : l.length ≤ 8 := by simpa using hd
        rw [hd, packBits_nil, List.take_of_length_le hle]
        simp only [Binary.stringLoop]
        have : (if N.tmod 8 ≠ 0 then (N.tmod 8).toNat else 8) = l.length := by
          rw [hN']; split <;> omega
        rw [this]
        exact fmtBin_pack hp hle
      · have hgt : 8 < l.length := by
          have := List.length_pos_iff.mpr hd; simp at this; omega
        have h8 : (l.take 8).length = 8 := by simp; omega
        obtain ⟨b, bs, hb⟩ : ∃ b bs, packBits (l.drop 8) = b :: bs := ⟨_, _, packBits_eq hd⟩
        have ih' := ih (l.drop 8).length (by simp; omega) (l.drop 8)
          (by intro _; rw [hN']; simp; omega) rfl
        rw [hb] at ih' ⊢
        simp only [Binary.stringLoop, ih']
        have := fmtBin_pack (l := l.take 8) (by omega) (by omega)
        rw [h8] at this
        rw [this, ← textOf_append, List.take_append_drop]

theorem string_pack (l : Bits) : (Binary.mk (packBits l) l.length).string = textOf l := by
  unfold Binary.string
  apply stringLoop_pack
  intro _
  simp only
  rw [Int.tmod_eq_emod_of_nonneg (by omega)]; omega

/-! ## Bit -/

theorem packBits_getElem? (l : Bits) (i : Nat) (h : 8 * i < l.length) :
    (packBits l)[i]? = some (UInt8.ofNat (bitsVal ((l.drop (8 * i)).take 8))) := by
  induction i generalizing l with
  | zero =>
    have hne : l ≠ [] := by intro he; subst he; simp at h
    rw [packBits_eq hne]; simp
  | succ i ih =>
    have hne : l ≠ [] := by intro he; subst he; simp at h
    rw [packBits_eq hne, List.getElem?_cons_succ, ih _ (by simp; omega), List.drop_drop]
    congr 5; omega

theorem bitsVal_getElem (l : Bits) (i : Nat) (h : i < l.length) :
    (bitsVal l / 2 ^ (l.length - 1 - i) % 2 == 1) = l[i] := by
  induction l generalizing i with
  | nil => simp at h
  | cons b bs ih =>
    have hlt := bitsVal_lt bs
    have hp : 0 < 2 ^ bs.length := Nat.two_pow_pos _
    cases i with
    | zero =>
      simp only [bitsVal, List.length_cons, Nat.add_sub_cancel, Nat.sub_zero]
      rw [Nat.add_comm, Nat.mul_comm, Nat.add_mul_div_left _ _ hp, Nat.div_eq_of_lt hlt]
      cases b <;> simp
    | succ i =>
      have hi : i < bs.length := by simpa using h
      simp only [bitsVal, List.length_cons, List.getElem_cons_succ]
      rw [show bs.length + 1 - 1 - (i + 1) = bs.length - 1 - i by omega, ← ih i hi]
      have e : 2 ^ bs.length = 2 ^ (bs.length - 1 - i) * (2 * 2 ^ i) := by
        rw [← Nat.mul_assoc, ← Nat.pow_succ, ← Nat.pow_add]; congr 1; omega
      rw [e, Nat.mul_left_comm, Nat.add_comm, Nat.add_mul_div_left _ _ (Nat.two_pow_pos _)]
      congr 1
      rw [Nat.mul_left_comm, Nat.add_mul_mod_self_left]

theorem bit_pack (l : Bits) (i : Nat) :
    (Binary.mk (packBits l) l.length).bit i = .ok (l.getD i false) := by
  unfold Binary.bit
  by_cases hi : i < l.length
  · rw [if_neg (by simp; omega)]
    have hdiv : (i : Int).tdiv 8 = (i / 8 : Nat) := by
      rw [Int.tdiv_eq_ediv_of_nonneg (by omega)]; omega
    have hmod : (i : Int).tmod 8 = (i % 8 : Nat) := by
      rw [Int.tmod_eq_emod_of_nonneg (by omega)]; omega
    have hmodl : (l.length : Int).tmod 8 = (l.length % 8 : Nat) := by
      rw [Int.tmod_eq_emod_of_nonneg (by omega)]; omega
    simp only [hdiv, hmod, hmodl]
    rw [if_neg (by omega), Int.toNat_natCast, packBits_getElem? l (i / 8) (by omega)]
    simp only
    have hlen : ((l.drop (8 * (i / 8))).take 8).length = min 8 (l.length - 8 * (i / 8)) := by simp
    have hget : l.getD i false = ((l.drop (8 * (i / 8))).take 8)[i % 8]'(by rw [hlen]; omega) := by
      rw [List.getD_eq_getElem?_getD, List.getElem?_eq_getElem hi]
      simp only [List.getElem_take, List.getElem_drop, Option.getD_some]
      congr 1; omega
    rw [ofNat_toNat_take8, hget, ← bitsVal_getElem, hlen, packBits_length]
    have hsh : ∀ (c : Prop) [Decidable c],
        (c ↔ (((i / 8 : Nat) : Int) = (((l.length + 7) / 8 : Nat) : Int) - 1 ∧
          ((l.length % 8 : Nat) : Int) ≠ 0)) →
        (8 : Int) - ((i % 8 : Nat) : Int) - 1
          - (if c then 8 - ((l.length % 8 : Nat) : Int) else 0)
          = ((min 8 (l.length - 8 * (i / 8)) - 1 - i % 8 : Nat) : Int) := by
      intro c _ hc
      by_cases h : c
      · rw [if_pos h]
        have := hc.mp h
        omega
      · rw [if_neg h]
        have : ¬ (((i / 8 : Nat) : Int) = (((l.length + 7) / 8 : Nat) : Int) - 1 ∧
          ((l.length % 8 : Nat) : Int) ≠ 0) := fun hh => h (hc.mpr hh)
        omega
    rw [hsh _ Iff.rfl, if_neg (by omega)]
    simp
  · rw [if_pos (by simp; omega)]
    simp [List.getElem?_eq_none (by omega : l.length ≤ i)]

end Gobufr
