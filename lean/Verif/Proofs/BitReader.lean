import Verif.Model.BitReader
import Verif.Model.BitWriter
import Verif.Proofs.BitStream

/-! # Helper lemmas: reads of a `BitReader` in terms of the bits consumed -/

namespace Gobufr
open Spec

namespace BitReader

theorem readUint_append (n : Int) (l t : Bits) (p : Int) (h : l.length = n.toNat) :
    readUint n ⟨l ++ t, p⟩ = (.ok (bitsVal l % two64), ⟨t, p + n⟩) := by
  simp [readUint, M.bind_apply, advance, onSrc, readBits_append n l t h]

theorem readUint_short (n : Int) (s : Bits) (p : Int) (h : s.length < n.toNat) :
    ∃ s', readUint n ⟨s, p⟩ = (.err .eof, ⟨s', p + n⟩) := by
  obtain ⟨s', h'⟩ := readBits_short n s h
  exact ⟨s', by simp [readUint, M.bind_apply, advance, onSrc, h']⟩

theorem readBool_cons (b : Bool) (t : Bits) (p : Int) :
    readBool ⟨b :: t, p⟩ = (.ok b, ⟨t, p + 1⟩) := rfl

theorem readBool_nil (p : Int) : readBool ⟨[], p⟩ = (.err .eof, ⟨[], p + 1⟩) := rfl

/-- sign and magnitude -/
theorem readInt_append (n : Int) (b : Bool) (l t : Bits) (p : Int)
    (h : l.length = (n - 1).toNat) :
    readInt n ⟨b :: l ++ t, p⟩ =
      (.ok (if b then toInt64 (-(toInt64 (bitsVal l % two64 : Nat)))
            else toInt64 (bitsVal l % two64 : Nat)), ⟨t, p + n⟩) := by
  unfold readInt
  rw [List.cons_append, M.bind_ok (readBool_cons b (l ++ t) p)]
  have e : p + 1 + (n - 1) = p + n := by omega
  cases b <;> simp [M.bind_apply, advance, onSrc, readBits_append (n - 1) l t h, e]

theorem readInt_short (n : Int) (s : Bits) (p : Int) (h : s.length < n.toNat) :
    ∃ s' q, readInt n ⟨s, p⟩ = (.err .eof, ⟨s', q⟩) := by
  unfold readInt
  match s, h with
  | [], _ => exact ⟨[], p + 1, M.bind_err (readBool_nil p)⟩
  | b :: bs, h =>
    rw [M.bind_ok (readBool_cons b bs p)]
    obtain ⟨s', h'⟩ := readBits_short (n - 1) bs (by simp at h; omega)
    exact ⟨s', p + 1 + (n - 1), by simp [M.bind_apply, advance, onSrc, h']⟩

/-- The bytes spelled by a bit string (whole groups of 8). -/
theorem readBytesLoop_append (bs : List UInt8) (t : Bits) (p : Int) :
    readBytesLoop bs.length ⟨bs.flatMap byteBits ++ t, p⟩ = (.ok bs, ⟨t, p⟩) := by
  induction bs with
  | nil => rfl
  | cons b bs ih =>
    have h8 : (byteBits b).length = 8 := rfl
    have hv : UInt8.ofNat (bitsVal (byteBits b)) = b := by
      rw [byteBits_eq, bitsVal_natBits]
      apply UInt8.toNat_inj.mp
      have := b.toNat_lt
      simp
    simp only [List.length_cons, readBytesLoop, List.flatMap_cons, List.append_assoc]
    have h1 : onSrc readByte ⟨byteBits b ++ (bs.flatMap byteBits ++ t), p⟩
        = (.ok b, ⟨bs.flatMap byteBits ++ t, p⟩) := by
      simp [onSrc, readByte_append h8, hv]
    rw [M.bind_ok h1, M.bind_ok ih]
    rfl

theorem readBytes_append (bs : List UInt8) (t : Bits) (p : Int) :
    readBytes bs.length ⟨bs.flatMap byteBits ++ t, p⟩ = (.ok bs, ⟨t, p + bs.length * 8⟩) := by
  unfold readBytes
  rw [M.bind_ok (m := advance _) (a := ()) (s' := ⟨bs.flatMap byteBits ++ t, p + bs.length * 8⟩) rfl]
  rw [if_neg (by omega)]
  simpa using readBytesLoop_append bs t (p + bs.length * 8)

theorem readBytesLoop_short (k : Nat) (s : Bits) (p : Int) (h : s.length < 8 * k) :
    ∃ s', readBytesLoop k ⟨s, p⟩ = (.err .eof, ⟨s', p⟩) := by
  induction k generalizing s with
  | zero => omega
  | succ k ih =>
    unfold readBytesLoop
    by_cases h8 : s.length < 8
    · exact ⟨s, M.bind_err (by simp [onSrc, readByte_short h8])⟩
    · have ht : (s.take 8).length = 8 := by simp; omega
      have hs : readByte s = (.ok (UInt8.ofNat (bitsVal (s.take 8))), s.drop 8) := by
        have := readByte_append ht (s.drop 8)
        rwa [List.take_append_drop] at this
      obtain ⟨s', h'⟩ := ih (s.drop 8) (by simp; omega)
      refine ⟨s', ?_⟩
      rw [M.bind_ok (m := onSrc readByte) (a := UInt8.ofNat (bitsVal (s.take 8)))
        (s' := ⟨s.drop 8, p⟩) (by simp [onSrc, hs]), M.bind_err h']

theorem readBytes_short (n : Int) (s : Bits) (p : Int) (h : (s.length : Int) < n * 8) :
    ∃ s', readBytes n ⟨s, p⟩ = (.err .eof, ⟨s', p + n * 8⟩) := by
  unfold readBytes
  rw [M.bind_ok (m := advance _) (a := ()) (s' := ⟨s, p + n * 8⟩) rfl, if_neg (by omega)]
  exact readBytesLoop_short _ _ _ (by omega)

end BitReader

/-! ## Packing of bit strings into bytes -/

/-- Groups of 8 bits, the last group possibly shorter; each group is a byte value. -/
def packBits (l : Bits) : List UInt8 :=
  if _h : l = [] then [] else UInt8.ofNat (bitsVal (l.take 8)) :: packBits (l.drop 8)
termination_by l.length
decreasing_by
  have : 0 < l.length := List.length_pos_iff.mpr _h
  simp; omega

theorem packBits_nil : packBits [] = [] := by rw [packBits]; simp

theorem packBits_eq {l : Bits} (h : l ≠ []) :
    packBits l = UInt8.ofNat (bitsVal (l.take 8)) :: packBits (l.drop 8) := by
  rw [packBits]; simp [h]

theorem packBits_length (l : Bits) : (packBits l).length = (l.length + 7) / 8 := by
  induction hn : l.length using Nat.strongRecOn generalizing l with
  | _ n ih =>
    by_cases h : l = []
    · subst h; simp at hn; subst hn; simp [packBits_nil]
    · have hp : 0 < l.length := List.length_pos_iff.mpr h
      rw [packBits_eq h, List.length_cons, ih (l.drop 8).length (by simp; omega) _ rfl]
      simp; omega

theorem ofNat_toNat_take8 (l : Bits) : (UInt8.ofNat (bitsVal (l.take 8))).toNat = bitsVal (l.take 8) := by
  have h1 := bitsVal_lt (l.take 8)
  have h2 : 2 ^ (l.take 8).length ≤ 2 ^ 8 := Nat.pow_le_pow_right (by decide) (by simp; omega)
  simp; omega

namespace BitReader

theorem readBinaryLoop_append (l t : Bits) (acc : List UInt8) (p : Int) :
    readBinaryLoop ((l.length + 7) / 8) l.length acc ⟨l ++ t, p⟩
      = (.ok (some (acc ++ packBits l)), ⟨t, p⟩) := by
  induction hn : l.length using Nat.strongRecOn generalizing l acc with
  | _ n ih =>
    by_cases h : l = []
    · subst h; simp at hn; subst hn; simp [packBits_nil, readBinaryLoop]
    · have hp : 0 < l.length := List.length_pos_iff.mpr h
      obtain ⟨k, hk⟩ : ∃ k, (n + 7) / 8 = k + 1 := ⟨(n + 7) / 8 - 1, by omega⟩
      have hlen : (l.take 8).length = (if n < 8 then (n : Int) else 8).toNat := by
        simp; split <;> omega
      have hsplit : l ++ t = l.take 8 ++ (l.drop 8 ++ t) := by
        rw [← List.append_assoc, List.take_append_drop]
      have hlt : bitsVal (l.take 8) % two64 = bitsVal (l.take 8) := by
        apply Nat.mod_eq_of_lt
        have h1 := bitsVal_lt (l.take 8)
        have h2 : 2 ^ (l.take 8).length ≤ 2 ^ 8 := Nat.pow_le_pow_right (by decide) (by simp; omega)
        have : (2 : Nat) ^ 8 < two64 := by decide
        omega
      have h1 : onSrc (readBits (if n < 8 then (n : Int) else 8)) ⟨l ++ t, p⟩
          = (.ok (bitsVal (l.take 8)), ⟨l.drop 8 ++ t, p⟩) := by
        rw [hsplit]
        simp only [onSrc]
        rw [readBits_append _ _ _ hlen, hlt]
      rw [hk]
      unfold readBinaryLoop
      rw [h1]
      have hd : (l.drop 8).length = n - 8 := by simp; omega
      have := ih (n - 8) (by omega) (l.drop 8) (acc ++ [UInt8.ofNat (bitsVal (l.take 8))]) hd
      rw [show (n - 8 + 7) / 8 = k by omega] at this
      rw [packBits_eq h]
      simpa using this

theorem readBinary_append (n : Int) (l t : Bits) (p : Int) (h : l.length = n.toNat) :
    readBinary n ⟨l ++ t, p⟩ = (.ok (some ⟨packBits l, n⟩), ⟨t, p + n⟩) := by
  unfold readBinary
  rw [M.bind_ok (m := advance _) (a := ()) (s' := ⟨l ++ t, p + n⟩) rfl, ← h,
    M.bind_ok (readBinaryLoop_append l t [] (p + n))]
  rfl

theorem readBinaryLoop_short (k : Nat) (s : Bits) (n : Nat) (acc : List UInt8) (p : Int)
    (hk : k = (n + 7) / 8) (h : s.length < n) :
    ∃ s', readBinaryLoop k n acc ⟨s, p⟩ = (.ok none, ⟨s', p⟩) := by
  induction k generalizing s n acc with
  | zero => omega
  | succ k ih =>
    unfold readBinaryLoop
    by_cases hs : s.length < (if n < 8 then (n : Int) else 8).toNat
    · obtain ⟨s', h'⟩ := readBits_short _ s hs
      exact ⟨s', by simp [onSrc, h']⟩
    · have h8 : ¬ n < 8 := by
        intro hlt; simp [hlt] at hs; omega
      simp only [h8, if_false] at hs ⊢
      have : onSrc (readBits 8) ⟨s, p⟩ = (.ok (bitsVal (s.take 8) % two64), ⟨s.drop 8, p⟩) := by
        simp [onSrc, readBits_enough 8 s (by simpa using hs)]
      rw [this]
      exact ih (s.drop 8) (n - 8) _ (by omega) (by simp; simp at hs; omega)

/-- `ReadBinary` past the end: a nil pointer and no error. -/
theorem readBinary_short (n : Int) (s : Bits) (p : Int) (h : s.length < n.toNat) :
    ∃ s', readBinary n ⟨s, p⟩ = (.ok none, ⟨s', p + n⟩) := by
  unfold readBinary
  obtain ⟨s', h'⟩ := readBinaryLoop_short _ s n.toNat [] (p + n) rfl h
  refine ⟨s', ?_⟩
  rw [M.bind_ok (m := advance _) (a := ()) (s' := ⟨s, p + n⟩) rfl, M.bind_ok h']
  rfl

end BitReader

/-! ## Writing -/

namespace BitWriter

theorem writeUint_eq (v : Nat) (n : Int) (s : Bits) (h0 : 0 ≤ n) (h : n ≤ 64) :
    writeUint v n s = (.ok (), s ++ natBits n.toNat v) := writeBits_eq v n s h0 h

theorem writeBytesLoop_eq (k : Nat) (v : List UInt8) (s : Bits) :
    writeBytesLoop k v s
      = (.ok (), s ++ ((v ++ List.replicate k 0).take k).flatMap byteBits) := by
  induction k generalizing v s with
  | zero => simp [writeBytesLoop]
  | succ k ih =>
    cases v with
    | nil =>
      simp only [writeBytesLoop]
      rw [M.bind_ok (m := writeByte 0) (a := ()) (s' := s ++ byteBits 0) rfl, ih]
      simp [List.replicate_succ]
    | cons b bs =>
      simp only [writeBytesLoop]
      rw [M.bind_ok (m := writeByte b) (a := ()) (s' := s ++ byteBits b) rfl, ih]
      have : (bs ++ List.replicate (k + 1) (0 : UInt8)).take k
          = (bs ++ List.replicate k 0).take k := by
        simp [List.take_append, List.take_replicate]
        omega
      simp [this]

theorem writeBinaryLoop_pack (l : Bits) (s : Bits) :
    writeBinaryLoop l.length (packBits l) s = (.ok (), s ++ l) := by
  suffices ∀ N : Int, (l ≠ [] → N.tmod 8 = (l.length : Int).tmod 8) →
      writeBinaryLoop N (packBits l) s = (.ok (), s ++ l) from this _ (fun _ => rfl)
  induction hn : l.length using Nat.strongRecOn generalizing l s with
  | _ n ih =>
    intro N hN
    by_cases h : l = []
    · subst h; simp [packBits_nil, writeBinaryLoop]
    · have hp : 0 < l.length := List.length_pos_iff.mpr h
      have hN := hN h
      rw [packBits_eq h]
      by_cases hd : l.drop 8 = []
      · -- last group
        rw [hd, packBits_nil]
        have hle : l.length ≤ 8 := by simpa using hd
        have htake : l.take 8 = l := List.take_of_length_le hle
        have hnat := ofNat_toNat_take8 l
        simp only [writeBinaryLoop]
        by_cases h8 : N.tmod 8 = 0
        · have : l.length = 8 := by
            rw [h8, Int.tmod_eq_emod_of_nonneg (by omega)] at hN; omega
          rw [if_neg (by simpa using h8)]
          simp only [writeByte, byteBits_eq, hnat]
          rw [htake]
          have e := natBits_bitsVal l
          rw [this] at e
          rw [e]
        · have hlt : l.length < 8 := by
            rw [hN, Int.tmod_eq_emod_of_nonneg (by omega)] at h8; omega
          have hNl : N.tmod 8 = (l.length : Int) := by
            rw [hN, Int.tmod_eq_emod_of_nonneg (by omega)]; omega
          rw [if_pos h8, hnat, htake, hNl, writeBits_eq _ _ _ (by omega) (by omega)]
          simp [natBits_bitsVal]
      · have hgt : 8 < l.length := by
          have := List.length_pos_iff.mpr hd; simp at this; omega
        have h8 : (l.take 8).length = 8 := by simp; omega
        have hcons : ∃ b bs, packBits (l.drop 8) = b :: bs := ⟨_, _, packBits_eq hd⟩
        obtain ⟨b, bs, hb⟩ := hcons
        have ih' := ih (l.drop 8).length (by simp; omega) (l.drop 8)
          (s ++ l.take 8) rfl N (by
            intro _
            rw [hN, Int.tmod_eq_emod_of_nonneg (by omega), Int.tmod_eq_emod_of_nonneg (by omega)]
            simp; omega)
        rw [hb] at ih' ⊢
        simp only [writeBinaryLoop]
        have hw : writeByte (UInt8.ofNat (bitsVal (l.take 8))) s = (.ok (), s ++ l.take 8) := by
          simp only [writeByte, byteBits_eq, ofNat_toNat_take8]
          have := natBits_bitsVal (l.take 8)
          rw [h8] at this
          rw [this]
        rw [M.bind_ok hw, ih']
        simp

end BitWriter

end Gobufr
