import Verif.Proofs.Nearest
import Verif.Props.Accuracy

/-!
# C119: there is only one number to decode to
-/

namespace Gobufr
open Spec UnpackSpec AccuracySpec

/-- **C119**, the number is determined: every double nearest to the exact value is the decoded one, up to the sign of zero. -/
theorem C119_only (info : PackingInfo Double) (n raw : Nat) (ref : Int) (t : Bits) (p : Int)
    (hu : info.unit = .numeric) (hn : info.nbits = n) (h64 : n ≤ 64) (hr : raw < 2 ^ n) (hm : ¬ AllOnes n raw) (h1 : raw ≤ 2 ^ 53)
    (h2 : Exactly info.refval ref) (h3 : (raw + ref).natAbs ≤ 2 ^ 53) (h4 : 0 ≤ info.scale) (h5 : info.scale ≤ 22)
    (d' : Double) (hd : Nearest d' (exact raw ref info.scale)) :
    ∃ d, uncompressUnpack info (.bin ⟨natBits n raw ++ t, p⟩) = (.ok (.float d), .bin ⟨t, p + n⟩) ∧
      AccuracySpec.Finite d ∧ d.val = d'.val := by
  obtain ⟨d, k1, k2⟩ := C119_partial info n raw ref t p hu hn h64 hr hm h1 h2 h3 h4 h5
  exact ⟨d, k1, k2.1, Double.nearest_unique k2 hd⟩

/-- 273.15 is the double that an exact division gives. -/
example : ∃ d, uncompressUnpack temperature (.bin ⟨natBits 16 27315 ++ [true], 0⟩) = (.ok (.float d), .bin ⟨[true], 16⟩) ∧
    AccuracySpec.Finite d ∧ d.val = (Double.round false (27315 / 100)).val := by
  refine C119_only temperature 16 27315 0 [true] 0 rfl rfl (by decide) (by decide) (by decide) (by decide)
    zero_exact (by decide) (by decide) (by decide) _ ?_
  have h := Double.round_nearest (q := 27315 / 100) (by norm_num) (lt_trans (by rw [pow2_eq]; norm_num) (pow2_lt (show (9 : Int) < 1023 by decide))) false
  convert h using 1
  unfold exact temperature
  norm_num

/-- **C119**, what holds for scales from -200 to 200: the number decoded differs from the exact value by a factor of 1 ± 2 ^ -50 at most. -/
theorem C119_close (info : PackingInfo Double) (n raw : Nat) (ref : Int) (t : Bits) (p : Int)
    (hu : info.unit = .numeric) (hn : info.nbits = n) (h64 : n ≤ 64) (hr : raw < 2 ^ n) (hm : ¬ AllOnes n raw) (h1 : raw ≤ 2 ^ 53)
    (h2 : Exactly info.refval ref) (h3 : (raw + ref).natAbs ≤ 2 ^ 53) (h4 : -200 ≤ info.scale) (h5 : info.scale ≤ 200) :
    ∃ d, uncompressUnpack info (.bin ⟨natBits n raw ++ t, p⟩) = (.ok (.float d), .bin ⟨t, p + n⟩) ∧
      AccuracySpec.Finite d ∧ |d.val - exact raw ref info.scale| ≤ |exact raw ref info.scale| / 2 ^ 50 := by
  obtain ⟨k1, k2⟩ := scaled_close h1 h2 h3 h4 h5
  exact ⟨scaled info raw, by rw [C42_numeric_partial info n raw t p (.inl hu) hn h64 hr, value_present hu hm], k1, k2⟩

/-- 002067 with the raw value 1, which is not decoded to the nearest double (`C119_violates`). -/
example : ∃ d, uncompressUnpack frequency (.bin ⟨natBits 15 1 ++ [], 0⟩) = (.ok (.float d), .bin ⟨[], 15⟩) ∧
    AccuracySpec.Finite d ∧ |d.val - 100000| ≤ 100000 / 2 ^ 50 := by
  obtain ⟨d, h1, h2, h3⟩ := C119_close frequency 15 1 0 [] 0 rfl rfl (by decide) (by decide) (by decide) (by decide)
    (by simpa using! Double.ofRat_int_exact (i := 0) (by decide)) (by decide) (by decide) (by decide)
  refine ⟨d, h1, h2, ?_⟩
  have e : exact 1 0 frequency.scale = 100000 := by
    unfold exact frequency
    norm_num
  rwa [e, abs_of_pos (show (0 : ℚ) < 100000 by norm_num)] at h3

end Gobufr
