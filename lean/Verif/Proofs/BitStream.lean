import Verif.Model.BitStream
import Verif.Spec.Bits

/-! # Helper lemmas: the bit stream contract in terms of `Spec.bitsVal` and `Spec.natBits` -/

namespace Gobufr
open Spec

theorem foldl_pushBit (l : List Bool) (u : Nat) :
    l.foldl pushBit u = u * 2 ^ l.length + bitsVal l :=
  foldl_eq_bitsVal l u

/-- A list of length 8 spelled out. -/
theorem length8 {l : List α} (h : l.length = 8) :
    ∃ a b c d e f g i, l = [a, b, c, d, e, f, g, i] := by
  match l, h with
  | [a, b, c, d, e, f, g, i], _ => exact ⟨a, b, c, d, e, f, g, i, rfl⟩

theorem readByte_append {l : Bits} (h : l.length = 8) (t : Bits) :
    readByte (l ++ t) = (.ok (UInt8.ofNat (bitsVal l)), t) := by
  obtain ⟨a, b, c, d, e, f, g, i, rfl⟩ := length8 h
  have := foldl_pushBit [a, b, c, d, e, f, g, i] 0
  simp only [Nat.zero_mul, Nat.zero_add] at this
  simp only [List.cons_append, List.nil_append, readByte, this]

theorem readByte_short {s : Bits} (h : s.length < 8) : readByte s = (.err .eof, s) := by
  unfold readByte
  split
  · simp at h; omega
  · rfl

theorem byte_toNat {l : Bits} (h : l.length = 8) : (UInt8.ofNat (bitsVal l)).toNat = bitsVal l := by
  have := bitsVal_lt l
  rw [h] at this
  simp [UInt8.toNat_ofNat']
  omega

theorem readBitsByteLoop_append (k u : Nat) (hu : u < two64) (l t : Bits) (h : l.length = 8 * k) :
    readBitsByteLoop k u (l ++ t) = (.ok ((u * 2 ^ (8 * k) + bitsVal l) % two64), t) := by
  induction k generalizing u l with
  | zero =>
    have : l = [] := List.eq_nil_of_length_eq_zero (by omega)
    subst this
    simp [readBitsByteLoop, bitsVal, Nat.mod_eq_of_lt hu]
  | succ k ih =>
    have h8 : (l.take 8).length = 8 := by simp; omega
    have hr : (l.drop 8).length = 8 * k := by simp; omega
    have hl : l ++ t = l.take 8 ++ (l.drop 8 ++ t) := by
      rw [← List.append_assoc, List.take_append_drop]
    have hv : bitsVal l = bitsVal (l.take 8) * 2 ^ (8 * k) + bitsVal (l.drop 8) := by
      conv => lhs; rw [← List.take_append_drop 8 l]
      rw [bitsVal_append, hr]
    rw [hl]
    unfold readBitsByteLoop
    rw [M.bind_ok (readByte_append h8 _), byte_toNat h8, ih _ (Nat.mod_lt _ (by decide)) _ hr, hv]
    congr 2
    have e : 2 ^ (8 * (k + 1)) = 256 * 2 ^ (8 * k) := by
      rw [show 8 * (k + 1) = 8 * k + 8 by omega, Nat.pow_add]; simp [Nat.mul_comm]
    rw [e, Nat.add_mod, Nat.mod_mul_mod, ← Nat.add_mod]
    congr 1
    rw [Nat.add_mul, Nat.mul_assoc]
    omega

theorem readBitsBitLoop_append (k u : Nat) (hu : u < two64) (l t : Bits) (h : l.length = k) :
    readBitsBitLoop k u (l ++ t) = (.ok ((u * 2 ^ k + bitsVal l) % two64), t) := by
  induction k generalizing u l with
  | zero =>
    have : l = [] := List.eq_nil_of_length_eq_zero (by omega)
    subst this
    simp [readBitsBitLoop, bitsVal, Nat.mod_eq_of_lt hu]
  | succ k ih =>
    match l, h with
    | b :: bs, h =>
      have hb : bs.length = k := by simpa using h
      unfold readBitsBitLoop
      rw [M.bind_ok (m := readBit) (s := b :: bs ++ t) (s' := bs ++ t) (a := b) rfl,
        ih _ (Nat.mod_lt _ (by decide)) _ hb]
      congr 2
      simp only [bitsVal, hb, pushBit]
      rw [Nat.add_mod, Nat.mod_mul_mod, ← Nat.add_mod]
      congr 1
      rw [Nat.pow_succ, Nat.add_mul, Nat.mul_comm 2 u, Nat.mul_assoc]
      rw [Nat.mul_comm 2]; omega

/-- `ReadBits(n)` returns the number spelled by the next `n` bits (on 64 bits). -/
theorem readBits_append (n : Int) (l t : Bits) (h : l.length = n.toNat) :
    readBits n (l ++ t) = (.ok (bitsVal l % two64), t) := by
  have hm : n.toNat = 8 * (n.toNat / 8) + n.toNat % 8 := by omega
  have h1 : (l.take (8 * (n.toNat / 8))).length = 8 * (n.toNat / 8) := by simp; omega
  have h2 : (l.drop (8 * (n.toNat / 8))).length = n.toNat % 8 := by simp; omega
  have hl : l ++ t = l.take (8 * (n.toNat / 8)) ++ (l.drop (8 * (n.toNat / 8)) ++ t) := by
    rw [← List.append_assoc, List.take_append_drop]
  have hv : bitsVal l = bitsVal (l.take (8 * (n.toNat / 8))) * 2 ^ (n.toNat % 8)
      + bitsVal (l.drop (8 * (n.toNat / 8))) := by
    conv => lhs; rw [← List.take_append_drop (8 * (n.toNat / 8)) l]
    rw [bitsVal_append, h2]
  rw [hl]
  unfold readBits
  rw [M.bind_ok (readBitsByteLoop_append _ 0 (by decide) _ _ h1),
    readBitsBitLoop_append _ _ (Nat.mod_lt _ (by decide)) _ _ h2, hv]
  congr 2
  rw [Nat.add_mod, Nat.mod_mul_mod, ← Nat.add_mod]
  simp

theorem readBitsByteLoop_short (k u : Nat) (s : Bits) (h : s.length < 8 * k) :
    ∃ s', readBitsByteLoop k u s = (.err .eof, s') := by
  induction k generalizing u s with
  | zero => omega
  | succ k ih =>
    unfold readBitsByteLoop
    by_cases h8 : s.length < 8
    · exact ⟨s, M.bind_err (readByte_short h8)⟩
    · have hs : s = s.take 8 ++ s.drop 8 := (List.take_append_drop 8 s).symm
      have ht : (s.take 8).length = 8 := by simp; omega
      rw [hs, M.bind_ok (readByte_append ht _)]
      exact ih _ _ (by simp; omega)

theorem readBitsBitLoop_short (k u : Nat) (s : Bits) (h : s.length < k) :
    ∃ s', readBitsBitLoop k u s = (.err .eof, s') := by
  induction k generalizing u s with
  | zero => omega
  | succ k ih =>
    unfold readBitsBitLoop
    match s, h with
    | [], _ => exact ⟨[], M.bind_err (m := readBit) (s' := []) rfl⟩
    | b :: bs, h =>
      rw [M.bind_ok (m := readBit) (s := b :: bs) (s' := bs) (a := b) rfl]
      exact ih _ _ (by simpa using h)

/-- `ReadBits(n)` fails with `io.EOF` when fewer than `n` bits are left. -/
theorem readBits_short (n : Int) (s : Bits) (h : s.length < n.toNat) :
    ∃ s', readBits n s = (.err .eof, s') := by
  unfold readBits
  by_cases h8 : s.length < 8 * (n.toNat / 8)
  · obtain ⟨s', h'⟩ := readBitsByteLoop_short (n.toNat / 8) 0 s h8
    exact ⟨s', M.bind_err h'⟩
  · have hs : s = s.take (8 * (n.toNat / 8)) ++ s.drop (8 * (n.toNat / 8)) :=
      (List.take_append_drop _ s).symm
    have ht : (s.take (8 * (n.toNat / 8))).length = 8 * (n.toNat / 8) := by simp; omega
    rw [hs, M.bind_ok (readBitsByteLoop_append _ 0 (by decide) _ _ ht)]
    exact readBitsBitLoop_short _ _ _ (by simp; omega)

/-- Complete description of `ReadBits`. -/
theorem readBits_enough (n : Int) (s : Bits) (h : n.toNat ≤ s.length) :
    readBits n s = (.ok (bitsVal (s.take n.toNat) % two64), s.drop n.toNat) := by
  have := readBits_append n (s.take n.toNat) (s.drop n.toNat) (by simp; omega)
  rwa [List.take_append_drop] at this

theorem readBit_cons (b : Bool) (t : Bits) : readBit (b :: t) = (.ok b, t) := rfl
theorem readBit_nil : readBit [] = (.err .eof, []) := rfl

/-! ## Writing -/

theorem byteBits_eq (b : UInt8) : byteBits b = natBits 8 b.toNat := by
  simp only [byteBits, natBits, Nat.testBit_eq_decide_div_mod_eq, BEq.beq]

theorem natBits_eq_byteBits (v : Nat) : byteBits (UInt8.ofNat v) = natBits 8 v := by
  rw [byteBits_eq]
  apply natBits_congr
  simp

theorem shl64_lt (u d : Nat) : shl64 u d < 2 ^ 64 := by
  unfold shl64; split
  · exact Nat.mod_lt _ (by decide)
  · decide

/-- The `m` leading bits of a 64-bit word. -/
theorem take_natBits64_shl (u d j : Nat) (hd : d < 64) (hj : j ≤ 64 - d) :
    (natBits 64 (shl64 u d)).take j = ((natBits 64 u).drop d).take j := by
  have h1 : natBits 64 (shl64 u d) = natBits 64 (u * 2 ^ d) := by
    unfold shl64; rw [if_pos hd]; exact natBits_mod 64 _
  have h2 : natBits 64 (u * 2 ^ d) = natBits (64 - d) u ++ natBits d (u * 2 ^ d) := by
    have h3 := natBits_add (64 - d) d (u * 2 ^ d)
    rw [show 64 - d + d = 64 by omega, Nat.mul_div_cancel _ (Nat.two_pow_pos d)] at h3
    exact h3
  have h4 : natBits 64 u = natBits d (u / 2 ^ (64 - d)) ++ natBits (64 - d) u := by
    have h3 := natBits_add d (64 - d) u
    rwa [show d + (64 - d) = 64 by omega] at h3
  rw [h1, h2, h4, List.take_append_of_le_length (by simpa using hj),
    List.drop_left' (natBits_length d _)]

theorem take_drop_congr {X Y : List α} {a j : Nat} (h : X.take (a + j) = Y.take (a + j)) :
    (X.drop a).take j = (Y.drop a).take j := by
  have e : ∀ Z : List α, (Z.drop a).take j = (Z.take (a + j)).drop a := by
    intro Z; rw [List.drop_take]; congr 1; omega
  rw [e, e, h]

theorem writeBitsByteLoop_eq (k u : Nat) (s : Bits) (hk : 8 * k ≤ 64) :
    ∃ u2, writeBitsByteLoop k u s = (.ok u2, s ++ (natBits 64 u).take (8 * k)) ∧
      (u < 2 ^ 64 → u2 < 2 ^ 64) ∧
      ∀ j, j ≤ 64 - 8 * k → (natBits 64 u2).take j = ((natBits 64 u).drop (8 * k)).take j := by
  induction k generalizing u s with
  | zero => exact ⟨u, by simp [writeBitsByteLoop], id, by simp⟩
  | succ k ih =>
    have hb : byteBits (UInt8.ofNat (u / 2 ^ 56)) = (natBits 64 u).take 8 := by
      rw [natBits_eq_byteBits, show (64 : Nat) = 8 + 56 from rfl, natBits_add 8 56 u,
        List.take_append_of_le_length (by simp)]
      simp [List.take_of_length_le]
    obtain ⟨u2, h1, h3, h2⟩ := ih (shl64 u 8) (s ++ byteBits (UInt8.ofNat (u / 2 ^ 56))) (by omega)
    refine ⟨u2, ?_, fun _ => h3 (shl64_lt u 8), ?_⟩
    · unfold writeBitsByteLoop
      rw [M.bind_ok (m := writeByte _) (s' := s ++ byteBits _) (a := ()) rfl, h1, hb,
        take_natBits64_shl u 8 (8 * k) (by omega) (by omega)]
      rw [List.append_assoc, ← List.take_add, show 8 + 8 * k = 8 * (k + 1) by omega]
    · intro j hj
      rw [h2 j (by omega), take_drop_congr (Y := (natBits 64 u).drop 8)
        (take_natBits64_shl u 8 (8 * k + j) (by omega) (by omega)), List.drop_drop]
      congr 2; omega

theorem writeBitsBitLoop_eq (k u : Nat) (s : Bits) (hu : u < 2 ^ 64) (hk : k ≤ 64) :
    writeBitsBitLoop k u s = (.ok (), s ++ (natBits 64 u).take k) := by
  induction k generalizing u s with
  | zero => simp [writeBitsBitLoop]
  | succ k ih =>
    unfold writeBitsBitLoop
    rw [M.bind_ok (m := writeBit _) (s' := s ++ [_]) (a := ()) rfl, ih _ _ (shl64_lt u 1) (by omega),
      take_natBits64_shl u 1 k (by omega) (by omega)]
    have h1 : u / 2 ^ 63 % 2 = u / 2 ^ 63 := by
      apply Nat.mod_eq_of_lt
      rw [Nat.div_lt_iff_lt_mul (by decide)]
      omega
    simp [natBits, h1]

/-- `WriteBits(u, n)` appends the `n` low bits of `u`. -/
theorem writeBits_eq (u : Nat) (n : Int) (s : Bits) (h0 : 0 ≤ n) (h : n ≤ 64) :
    writeBits u n s = (.ok (), s ++ natBits n.toNat u) := by
  obtain ⟨m, rfl⟩ := Int.eq_ofNat_of_zero_le h0
  have hm : m ≤ 64 := by omega
  simp only [Int.toNat_natCast]
  have hsh : toUint (64 - (m : Int)) = 64 - m := by unfold toUint two64; omega
  obtain ⟨u2, h1, h3, h2⟩ := writeBitsByteLoop_eq (m / 8) (shl64 u (64 - m)) s (by omega)
  have key : (natBits 64 (shl64 u (64 - m))).take m = natBits m u := by
    by_cases hz : m = 0
    · subst hz; simp [natBits]
    · rw [take_natBits64_shl u (64 - m) m (by omega) (by omega)]
      have h3 := natBits_add (64 - m) m u
      rw [show 64 - m + m = 64 by omega] at h3
      rw [h3, List.drop_left' (natBits_length _ _), List.take_of_length_le (by simp)]
  unfold writeBits
  simp only [Int.toNat_natCast]
  rw [hsh, M.bind_ok h1, writeBitsBitLoop_eq _ _ _ (h3 (shl64_lt _ _)) (by omega),
    h2 _ (by omega), List.append_assoc, ← List.take_add,
    show 8 * (m / 8) + m % 8 = m by omega, key]

end Gobufr
