import Verif.Spec.Unpack
import Verif.Proofs.Reader

/-!
# Helper lemmas: unpacking
-/

namespace Gobufr
open Spec UnpackSpec

variable {F : Type}

theorem bitsVal_ones (n : Nat) : bitsVal (List.replicate n true) = 2 ^ n - 1 := by
  induction n with
  | zero => rfl
  | succ n ih =>
    have : 1 ≤ 2 ^ n := Nat.one_le_two_pow
    simp only [List.replicate_succ, bitsVal, ih, List.length_replicate, Bool.toNat_true,
      Nat.pow_succ]
    omega

theorem natBits_ones (n raw : Nat) (h : raw < 2 ^ n) :
    natBits n raw = List.replicate n true ↔ raw = 2 ^ n - 1 := by
  constructor
  · intro e
    have := congrArg bitsVal e
    rwa [bitsVal_natBits, Nat.mod_eq_of_lt h, bitsVal_ones] at this
  · intro e
    have := natBits_bitsVal (List.replicate n true)
    rw [List.length_replicate, bitsVal_ones] at this
    rw [e, this]

theorem allOnes_iff (n raw : Nat) (h : raw < 2 ^ n) : AllOnes n raw ↔ 1 < n ∧ raw = 2 ^ n - 1 := by
  unfold AllOnes
  rw [natBits_ones n raw h]

theorem isMissing_raw (n raw : Nat) (h64 : n ≤ 64) (h : raw < 2 ^ n) :
    isMissing (.uint raw : Val F) n = decide (AllOnes n raw) := by
  by_cases h1 : 1 < n
  · rw [isMissing_uint raw n h1 h64]
    simp [allOnes_iff n raw h, h1]
  · rw [isMissing_le_one _ _ (by omega)]
    simp [AllOnes, h1]

theorem unpackMissing_eq (info : PackingInfo F) (n raw : Nat) (hn : info.nbits = n) (h64 : n ≤ 64)
    (h : raw < 2 ^ n) :
    unpackMissing info raw = .ok (if AllOnes n raw then .nil else .uint raw) := by
  unfold unpackMissing
  rw [hn, isMissing_raw n raw h64 h]
  by_cases h : AllOnes n raw <;> simp [h]

/-- A number that needs more than `n` bits is not missing. -/
theorem unpackMissing_wide (info : PackingInfo F) (n raw : Nat) (hn : info.nbits = n) (h64 : n ≤ 64)
    (h : 2 ^ n ≤ raw) : unpackMissing info raw = .ok (.uint raw) := by
  unfold unpackMissing
  rw [hn]
  by_cases h1 : 1 < n
  · rw [isMissing_uint raw n h1 h64, if_neg]
    have : 0 < 2 ^ n := Nat.two_pow_pos n
    simp only [decide_eq_true_eq]; omega
  · rw [isMissing_le_one _ _ (by omega)]; simp

theorem unpackNumeric_present [GoFloat F] [LawfulGoFloat F] (info : PackingInfo F) (raw : Nat)
    (h : unpackMissing info raw = .ok (.uint raw)) :
    unpackNumeric info raw = .ok (.float (scaled info raw)) := by
  unfold unpackNumeric
  rw [h]
  simp only [Outcome.bind_ok, Val.isNil, Bool.false_eq_true, if_false, Outcome.pure_eq]
  by_cases hr : GoFloat.isZero info.refval = true
  · by_cases hs : info.scale = 0
    · simp [hr, hs, scaled, LawfulGoFloat.add_zero _ _ hr, LawfulGoFloat.div_one]
    · simp [hr, hs, scaled, LawfulGoFloat.add_zero _ _ hr]
  · by_cases hs : info.scale = 0
    · simp [hr, hs, scaled, LawfulGoFloat.div_one]
    · simp [hr, hs, scaled]

theorem unpackNumeric_eq [GoFloat F] [LawfulGoFloat F] (info : PackingInfo F) (n raw : Nat)
    (hn : info.nbits = n) (h64 : n ≤ 64) (h : raw < 2 ^ n) :
    unpackNumeric info raw = .ok (if AllOnes n raw then .nil else .float (scaled info raw)) := by
  have hm := unpackMissing_eq info n raw hn h64 h
  by_cases ha : AllOnes n raw
  · rw [if_pos ha] at hm ⊢
    unfold unpackNumeric
    rw [hm]; rfl
  · rw [if_neg ha] at hm ⊢
    exact unpackNumeric_present info raw hm

/-- The function used for the unit. -/
def unpackFn [GoFloat F] (info : PackingInfo F) : PackingInfo F → Nat → Outcome (Val F) :=
  if info.unit = .numeric then unpackNumeric else unpackMissing

theorem unpackFn_eq [GoFloat F] [LawfulGoFloat F] (info : PackingInfo F) (n raw : Nat)
    (hu : Plain info.unit) (hn : info.nbits = n) (h64 : n ≤ 64) (h : raw < 2 ^ n) :
    unpackFn info info raw = .ok (value info n raw) := by
  unfold unpackFn value present
  rcases hu with hu | hu | hu <;> simp only [hu]
  · simpa using unpackNumeric_eq info n raw hn h64 h
  · simpa using unpackMissing_eq info n raw hn h64 h
  · simpa using unpackMissing_eq info n raw hn h64 h

theorem unpackFn_wide [GoFloat F] [LawfulGoFloat F] (info : PackingInfo F) (n raw : Nat)
    (hu : Plain info.unit) (hn : info.nbits = n) (h64 : n ≤ 64) (h : 2 ^ n ≤ raw) :
    unpackFn info info raw = .ok (present info raw) := by
  have hm := unpackMissing_wide info n raw hn h64 h
  unfold unpackFn present
  rcases hu with hu | hu | hu <;> simp only [hu]
  · simpa using unpackNumeric_present info raw hm
  · simpa using hm
  · simpa using hm

theorem readUint_natBits' [GoFloat F] (i : Int) (n v : Nat) (t : Bits) (p : Int) (hi : i = n)
    (hn : n ≤ 64) (hv : v < 2 ^ n) :
    (Reader.readUint i (.bin ⟨natBits n v ++ t, p⟩) : Outcome Nat × Reader F)
      = (.ok v, .bin ⟨t, p + n⟩) := by
  subst hi
  exact readUint_natBits n v t p hn hv

theorem readNbitsDiff_eq [GoFloat F] (w : Nat) (hw : w < 64) (t : Bits) (p : Int) :
    (readNbitsDiff (.bin ⟨natBits 6 w ++ t, p⟩) : Outcome Int × Reader F)
      = (.ok (w : Int), .bin ⟨t, p + 6⟩) := by
  unfold readNbitsDiff
  rw [M.bind_ok (readUint_natBits' 6 6 w t p rfl (by decide) (by simpa using hw))]
  have : toInt64 (w : Int) = w := by
    unfold toInt64
    rw [Int.bmod_eq_iff (by decide)]
    refine ⟨by unfold two64; omega, by unfold two64; omega, by simp⟩
  simp [this]

/-- Position of the reader when `xs` increments are still to come. -/
def incState (w : Nat) (t : Bits) (pend : Int) (xs : List Nat) : Reader F :=
  .bin ⟨xs.flatMap (natBits w) ++ t, pend - w * xs.length⟩

theorem unpackDiff_eq [GoFloat F] (f : PackingInfo F → Nat → Outcome (Val F)) (info : PackingInfo F)
    (base w : Nat) (hw : w < 64) (t : Bits) (pend : Int) (x : Nat) (ys : List Nat) (hx : x < 2 ^ w)
    (v : Val F) (hf : ¬ AllOnes w x → f info ((base + x) % two64) = .ok v) :
    unpackDiff f info base w (incState w t pend (x :: ys))
      = (.ok (if AllOnes w x then .nil else v), incState w t pend ys) := by
  unfold unpackDiff incState
  simp only [List.flatMap_cons, List.append_assoc]
  rw [M.bind_ok (readUint_natBits w x _ _ (by omega) hx), isMissing_raw w x (by omega) hx]
  have hp : pend - (w : Int) * ((x :: ys).length : Int) + w = pend - w * (ys.length : Int) := by
    simp only [List.length_cons, Int.natCast_add, Int.mul_add]; omega
  rw [hp]
  by_cases ha : AllOnes w x
  · simp [ha]
  · simp only [ha, decide_false, Bool.false_eq_true, if_false, hf ha]
    rfl

theorem unpackOthers_read [GoFloat F] (nsubsets : Int) (info : PackingInfo F)
    (f : PackingInfo F → Nat → Outcome (Val F)) (n base w : Nat) (t : Bits) (p : Int)
    (hn : info.nbits = n) (h64 : n ≤ 64) (hb : base < 2 ^ n) (hw : w < 64) (hs : 0 ≤ nsubsets) :
    (unpackOthers nsubsets info f (.bin ⟨natBits n base ++ natBits 6 w ++ t, p⟩) :
        Outcome _ × Reader F)
      = (if (w : Int) = 0 then do
            let v ← M.lift (f info base)
            pure ⟨.uint base, w, List.replicate nsubsets.toNat v⟩
          else if isMissing (.uint base : Val F) info.nbits then
            M.fail (.msg "missing value must have zero valued nbitsDiff")
          else do
            let values ← fillM (unpackDiff f info base w) nsubsets.toNat
            pure ⟨.uint base, w, values⟩ : M (Reader F) (CompressedVal F)) (.bin ⟨t, p + n + 6⟩) := by
  unfold unpackOthers
  rw [List.append_assoc, M.bind_ok (readUint_natBits' info.nbits n base _ p hn h64 hb),
    M.bind_ok (readNbitsDiff_eq w hw t _),
    M.bind_ok (m := makeCheck nsubsets) (a := ()) (by unfold makeCheck; rw [if_neg (by omega)]; rfl)]

theorem compressedUnpack_plain [GoFloat F] (ns : Int) (fuel : Nat) (info : PackingInfo F)
    (hu : Plain info.unit) (h0 : info.nbits ≠ 0) :
    compressedUnpack ns fuel info = unpackOthers ns info (unpackFn info) := by
  unfold compressedUnpack unpackFn
  rcases hu with hu | hu | hu <;> simp [hu, h0]

end Gobufr
