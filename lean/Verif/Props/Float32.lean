import Verif.Proofs.Binary
import Verif.Model.FloatInst

/-!
# Numbers in the format of IEEE 754, 32 bits (C111)
-/

namespace Gobufr
open Spec

variable {F : Type} [GoFloat F]

/-- The bits of a NaN: all bits of the exponent set and a fraction that is not zero. -/
def IsNaN32 (exponent fraction : List Bool) : Prop :=
  exponent = List.replicate 8 true ∧ fraction ≠ List.replicate 23 false

/-- C111. ReadFloat32 takes 32 bits, the first one the most significant, and gives the number they stand for. -/
theorem C111_read (n : Nat) (hn : n < 2 ^ 32) (after : Bits) (p : Int) :
    BitReader.readFloat32 (F := F) ⟨natBits 32 n ++ after, p⟩ = (.ok (GoFloat.ofFloat32Bits n), ⟨after, p + 32⟩) := by
  unfold BitReader.readFloat32
  rw [M.bind_ok (BitReader.readUint_append 32 _ _ _ (by simp))]
  have : bitsVal (natBits 32 n) % two64 % 2 ^ 32 = n := by
    rw [bitsVal_natBits, Nat.mod_eq_of_lt (b := two64), Nat.mod_mod, Nat.mod_eq_of_lt hn]
    exact Nat.lt_of_lt_of_le (Nat.mod_lt _ (by decide)) (by decide)
  rw [this]
  rfl

/-- C111. With less than 32 bits left it is an error. -/
theorem C111_truncated (l : Bits) (p : Int) (h : l.length < 32) : (BitReader.readFloat32 (F := F) ⟨l, p⟩).1 = .err .eof := by
  obtain ⟨s', h'⟩ := BitReader.readUint_short 32 l p h
  unfold BitReader.readFloat32
  rw [M.bind_err h']

/-- C111. WriteFloat32 appends the 32 bits of the number, rounded to this format. -/
theorem C111_write (v : F) (before : Bits) :
    BitWriter.writeFloat32 v before = (.ok (), before ++ natBits 32 (GoFloat.toFloat32Bits v)) := by
  exact BitWriter.writeUint_eq (GoFloat.toFloat32Bits v) 32 before (by decide) (by decide)

/-- C111. A number that was written is read again as the number rounded to this format. -/
theorem C111_write_read (v : F) (before after : Bits) (p : Int) :
    ∃ w, BitWriter.writeFloat32 v before = (.ok (), before ++ w) ∧ w.length = 32 ∧
      BitReader.readFloat32 (F := F) ⟨w ++ after, p⟩
        = (.ok (GoFloat.ofFloat32Bits (GoFloat.toFloat32Bits v % 2 ^ 32)), ⟨after, p + 32⟩) := by
  refine ⟨_, C111_write v before, by simp, ?_⟩
  rw [← natBits_mod]
  exact C111_read _ (Nat.mod_lt _ (by decide)) after p

theorem bitsVal_inj {a b : List Bool} (hl : a.length = b.length) (h : bitsVal a = bitsVal b) : a = b := by
  have ha := natBits_bitsVal a
  have hb := natBits_bitsVal b
  rw [← ha, ← hb, h, hl]

/-- C111. Bits that were read as a number are written again as they were, unless they stand for no number (NaN). -/
theorem C111_read_write [LawfulGoFloat F] (s : Bool) (e f : List Bool) (he : e.length = 8) (hf : f.length = 23)
    (hnan : ¬ IsNaN32 e f) (before after : Bits) (p : Int) :
    ∃ v : F, BitReader.readFloat32 ⟨s :: (e ++ f) ++ after, p⟩ = (.ok v, ⟨after, p + 32⟩) ∧
      BitWriter.writeFloat32 v before = (.ok (), before ++ s :: (e ++ f)) := by
  have hl : (s :: (e ++ f)).length = 32 := by simp [he, hf]
  have hn : bitsVal (s :: (e ++ f)) < 2 ^ 32 := hl ▸ bitsVal_lt (s :: (e ++ f))
  have hb : natBits 32 (bitsVal (s :: (e ++ f))) = s :: (e ++ f) := hl ▸ natBits_bitsVal (s :: (e ++ f))
  refine ⟨GoFloat.ofFloat32Bits (bitsVal (s :: (e ++ f))), ?_, ?_⟩
  · have := C111_read (F := F) _ hn after p
    rwa [hb] at this
  · rw [C111_write, LawfulGoFloat.float32_roundtrip _ hn ?_, hb]
    rintro ⟨h1, h2⟩
    have hs : bitsVal (s :: (e ++ f)) = bitsVal ([s] ++ e) * 2 ^ 23 + bitsVal f := by
      rw [← hf, ← bitsVal_append]
      rfl
    have hfl : bitsVal f < 2 ^ 23 := hf ▸ bitsVal_lt f
    have hel : bitsVal e < 2 ^ 8 := he ▸ bitsVal_lt e
    have hse : bitsVal ([s] ++ e) = bitsVal [s] * 2 ^ 8 + bitsVal e := by rw [bitsVal_append, he]
    have e1 : bitsVal e = 255 := by
      rw [hs, Nat.add_comm, Nat.add_mul_div_right _ _ (by decide), Nat.div_eq_of_lt hfl, hse] at h1
      omega
    have e2 : bitsVal f ≠ 0 := by
      rw [hs] at h2
      omega
    refine hnan ⟨bitsVal_inj (by simp [he]) (e1.trans (by decide)), fun hz => e2 ?_⟩
    rw [hz]
    decide

/-- Non-vacuity: the bits of 1.0 and of an infinity are no NaN, and a concrete run. -/
example : ¬ IsNaN32 (natBits 8 127) (natBits 23 0) ∧ ¬ IsNaN32 (natBits 8 255) (natBits 23 0) ∧
    IsNaN32 (natBits 8 255) (natBits 23 1) := by
  unfold IsNaN32
  decide

example : BitReader.readFloat32 (F := ToyFloat) ⟨(BitWriter.writeFloat32 (F := ToyFloat) ⟨0x3f800000⟩ [true]).2.drop 1 ++ [true], 1⟩
    = (.ok ⟨0x3f800000⟩, ⟨[true], 33⟩) := by decide +kernel

end Gobufr
