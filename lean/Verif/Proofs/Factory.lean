import Verif.Model.Script
import Verif.Proofs.Reader
import Verif.Props.BitIO

/-!
# Helper lemmas: the factory on a binary reader
-/

namespace Gobufr
open Spec

variable {F : Type}

theorem tmod8_add {p : Int} (hp : p.tmod 8 = 0) (k : Int) : (p + 8 * k).tmod 8 = 0 := by
  obtain ⟨c, rfl⟩ := Int.dvd_of_tmod_eq_zero hp
  rw [← Int.mul_add]
  exact Int.mul_tmod_right 8 _

namespace BitReader

theorem bitsOfBytes_append (as bs : List UInt8) :
    bitsOfBytes (as ++ bs) = bitsOfBytes as ++ bitsOfBytes bs := by
  simp [bitsOfBytes]

theorem bitsOfBytes_length (bs : List UInt8) : (bitsOfBytes bs).length = 8 * bs.length := by
  induction bs with
  | nil => rfl
  | cons b bs ih =>
    have h : bitsOfBytes (b :: bs) = byteBits b ++ bitsOfBytes bs := rfl
    have h8 : (byteBits b).length = 8 := rfl
    rw [h, List.length_append, h8, ih, List.length_cons]
    omega

theorem bitsVal_byteBits (b : UInt8) : bitsVal (byteBits b) = b.toNat := by
  rw [byteBits_eq, bitsVal_natBits]
  have := b.toNat_lt
  exact Nat.mod_eq_of_lt this

theorem bytesOfBits_bitsOfBytes (bs : List UInt8) : bytesOfBits (bitsOfBytes bs) = bs := by
  induction bs with
  | nil => rfl
  | cons b bs ih =>
    have h : bitsOfBytes (b :: bs) = byteBits b ++ bitsOfBytes bs := rfl
    rw [h, bytesOfBits_append8 rfl, ih, bitsVal_byteBits]
    simp

/-- Peeking at a byte boundary. -/
theorem peekBytes_bytes (n : Nat) (bs : List UInt8) (p : Int) (hp : p.tmod 8 = 0) (hn : n ≤ 4096) :
    peekBytes 0 n ⟨bitsOfBytes bs, p⟩ =
      (if n ≤ bs.length then .ok (bs.take n) else .err (.wrap "cannot peek bytes" .eof),
        ⟨bitsOfBytes bs, p⟩) := by
  have hpk := peek_aligned 0 n ⟨bitsOfBytes bs, p⟩ hp (by simp [bitsOfBytes_length]) (by omega)
  simp only [bitsOfBytes_length, Nat.zero_add, Nat.mul_zero, List.drop_zero, Int.natCast_zero] at hpk
  unfold peekBytes
  by_cases h : n ≤ bs.length
  · rw [if_pos (by omega)] at hpk
    have htake : (bitsOfBytes bs).take (8 * n) = bitsOfBytes (bs.take n) := by
      conv => lhs; rw [← List.take_append_drop n bs, bitsOfBytes_append]
      rw [List.take_append_of_le_length (by simp [bitsOfBytes_length]; omega)]
      apply List.take_of_length_le
      simp [bitsOfBytes_length]
      omega
    rw [htake, bytesOfBits_bitsOfBytes] at hpk
    rw [M.bind_ok (m := M.wrapErr _ _) (a := bs.take n) (s' := ⟨bitsOfBytes bs, p⟩)
      (by simp only [M.wrapErr, hpk]), if_pos h]
    have hl : (bs.take n).length = n := by simp; omega
    have hr := readBytes_append (bs.take n) [] 0
    rw [List.append_nil, hl] at hr
    unfold onFresh new
    have : readBytes (n : Int) ⟨bitsOfBytes (bs.take n), 0⟩ = (.ok (bs.take n), ⟨[], 0 + n * 8⟩) := hr
    rw [this]
    rfl
  · rw [if_neg (by omega)] at hpk
    rw [M.bind_err (m := M.wrapErr _ _) (e := .wrap "cannot peek bytes" .eof) (s' := ⟨bitsOfBytes bs, p⟩)
      (by simp only [M.wrapErr, hpk]), if_neg h]

theorem drop_bitsOfBytes (k : Nat) (bs : List UInt8) :
    (bitsOfBytes bs).drop (8 * k) = bitsOfBytes (bs.drop k) := by
  by_cases h : k ≤ bs.length
  · conv => lhs; rw [← List.take_append_drop k bs, bitsOfBytes_append]
    apply List.drop_left'
    rw [bitsOfBytes_length]; simp; omega
  · rw [List.drop_of_length_le (by rw [bitsOfBytes_length]; omega), List.drop_of_length_le (by omega)]
    rfl

/-- Peeking one byte at a byte boundary. -/
theorem peekUint_byte (skip : Nat) (bs : List UInt8) (p : Int) (hp : p.tmod 8 = 0) (hn : skip < 4096) :
    peekUint skip 8 ⟨bitsOfBytes bs, p⟩ =
      (match bs[skip]? with
        | some b => .ok b.toNat
        | none => .err (.wrap "cannot peek bytes" .eof),
        ⟨bitsOfBytes bs, p⟩) := by
  have hpk := peek_aligned skip 1 ⟨bitsOfBytes bs, p⟩ hp (by simp [bitsOfBytes_length]) (by omega)
  simp only [bitsOfBytes_length, drop_bitsOfBytes] at hpk
  have h8 : (if (8 : Int).tmod 8 > 0 then (8 : Int).tdiv 8 + 1 else (8 : Int).tdiv 8) = ((1 : Nat) : Int) := by decide
  unfold peekUint
  simp only [h8]
  cases hd : bs[skip]? with
  | some b =>
    obtain ⟨hl, hb⟩ := List.getElem?_eq_some_iff.1 hd
    have hdr : bs.drop skip = b :: bs.drop (skip + 1) := by rw [List.drop_eq_getElem_cons hl, hb]
    rw [if_pos (by omega), hdr] at hpk
    have ht : (bitsOfBytes (b :: bs.drop (skip + 1))).take (8 * 1) = bitsOfBytes [b] := rfl
    rw [ht, bytesOfBits_bitsOfBytes] at hpk
    rw [M.bind_ok (m := M.wrapErr _ _) (a := [b]) (s' := ⟨bitsOfBytes bs, p⟩)
      (by simp only [M.wrapErr, hpk])]
    have hr : readUint 8 ⟨byteBits b ++ [], 0⟩ = _ := readUint_append 8 (byteBits b) [] 0 rfl
    have hb64 : b.toNat % two64 = b.toNat := Nat.mod_eq_of_lt (Nat.lt_trans b.toNat_lt (by decide))
    rw [bitsVal_byteBits, hb64] at hr
    have : onFresh [b] (readUint 8) = .ok b.toNat := by
      unfold onFresh new
      have he : bitsOfBytes [b] = byteBits b ++ [] := rfl
      rw [he, hr]
    rw [this]
    rfl
  | none =>
    rw [if_neg (by have := List.getElem?_eq_none_iff.1 hd; omega)] at hpk
    rw [M.bind_err (m := M.wrapErr _ _) (e := .wrap "cannot peek bytes" .eof) (s' := ⟨bitsOfBytes bs, p⟩)
      (by simp only [M.wrapErr, hpk])]

end BitReader

theorem wrapErr_ok {w : String} {m : M σ α} {s s' : σ} {a : α} (h : m s = (.ok a, s')) :
    M.wrapErr w m s = (.ok a, s') := by simp only [M.wrapErr, h]

theorem wrapErr_err {w : String} {m : M σ α} {s s' : σ} {e : Err} (h : m s = (.err e, s')) :
    M.wrapErr w m s = (.err (.wrap w e), s') := by simp only [M.wrapErr, h]

theorem of_wrapErr_ok {w : String} {m : M σ α} {s s' : σ} {a : α} (h : M.wrapErr w m s = (.ok a, s')) :
    m s = (.ok a, s') := by
  unfold M.wrapErr at h
  split at h
  · cases h
  · exact h

theorem onReader_eq {m : M (Reader F) α} {s : Fac F} {o : Outcome α} {r : Reader F} (h : m s.r = (o, r)) :
    Fac.onReader m s = (o, { s with r := r }) := by
  simp [Fac.onReader, M.zoom, h]

theorem onReader_ok {m : M (Reader F) α} {s s' : Fac F} {a : α} (h : Fac.onReader m s = (.ok a, s')) :
    m s.r = (.ok a, s'.r) ∧ s' = { s with r := s'.r } := by
  simp only [Fac.onReader, M.zoom, Prod.mk.injEq] at h
  obtain ⟨h1, h2⟩ := h
  subst h2
  exact ⟨by rw [← h1], rfl⟩

namespace Fac

/-- One round of the search on a stream of bytes. -/
theorem seekLoop_bytes (fuel : Nat) (bs : List UInt8) (p : Int) (hp : p.tmod 8 = 0) :
    seekLoop (fuel + 1) (.bin ⟨BitReader.bitsOfBytes bs, p⟩ : Reader F) =
      if bs.length < 4 then (.err (.wrap "cannot peek bytes" .eof), .bin ⟨BitReader.bitsOfBytes bs, p⟩)
      else if bs.take 4 = str "BUFR" then (.ok (), .bin ⟨BitReader.bitsOfBytes bs, p⟩)
      else seekLoop fuel (.bin ⟨BitReader.bitsOfBytes (bs.drop 1), p + 8⟩) := by
  have hpk : (Reader.peekBytes 0 4 (.bin ⟨BitReader.bitsOfBytes bs, p⟩) : Outcome _ × Reader F) = _ :=
    Reader.call_bin (BitReader.peekBytes_bytes 4 bs p hp (by decide))
  conv => lhs; unfold seekLoop
  by_cases h : 4 ≤ bs.length
  · rw [if_pos h] at hpk
    have hl : (bs.take 4).length = 4 := by simp; omega
    rw [M.bind_ok hpk, if_neg (by omega), if_neg (by omega : ¬ bs.length < 4)]
    by_cases hb : bs.take 4 = str "BUFR"
    · rw [if_pos hb, if_pos hb]; rfl
    · rw [if_neg hb, if_neg hb]
      match bs, h with
      | b :: t, _ =>
        have hr := BitReader.readBytes_append [b] (BitReader.bitsOfBytes t) p
        have hr' : (Reader.readBytes 1 (.bin ⟨BitReader.bitsOfBytes (b :: t), p⟩) : Outcome _ × Reader F)
            = (.ok [b], .bin ⟨BitReader.bitsOfBytes t, p + 8⟩) := Reader.call_bin hr
        rw [M.handle_eq hr']
        rfl
  · rw [if_neg h] at hpk
    rw [M.bind_err hpk, if_pos (by omega)]

end Fac

end Gobufr
