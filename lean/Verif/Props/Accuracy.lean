import Verif.Proofs.Accuracy
import Verif.Proofs.Relative
import Verif.Props.Unpack
import Verif.Spec.Payload

/-!
# How exact decoded numbers are

C119: a decoded number is the double nearest to its exact value.  C120: the raw integer can be recovered from it.
-/

namespace Gobufr
open Spec UnpackSpec AccuracySpec

/-- C119, the property: a number whose integers are represented exactly is decoded to the double nearest to (raw + reference) / 10^scale. -/
def C119_statement : Prop := ∀ (info : PackingInfo Double) (n raw : Nat) (ref : Int) (t : Bits) (p : Int),
  info.unit = .numeric → info.nbits = n → n ≤ 64 → raw < 2 ^ n → ¬ AllOnes n raw → raw ≤ 2 ^ 53 → Exactly info.refval ref →
  (raw + ref).natAbs ≤ 2 ^ 53 → -22 ≤ info.scale → info.scale ≤ 22 →
  ∃ d, uncompressUnpack info (.bin ⟨natBits n raw ++ t, p⟩) = (.ok (.float d), .bin ⟨t, p + n⟩) ∧
    Nearest d (exact raw ref info.scale)

theorem sum_exact {info : PackingInfo Double} {raw : Nat} {ref : Int} (h1 : raw ≤ 2 ^ 53) (h2 : Exactly info.refval ref)
    (h3 : (raw + ref).natAbs ≤ 2 ^ 53) : Exactly (GoFloat.add (GoFloat.ofNat raw) info.refval) (raw + ref : Int) :=
  Double.add_exact (x := raw) (by simpa using Double.ofNat_exact h1) h2 h3

theorem scaled_nearest {info : PackingInfo Double} {raw : Nat} {ref : Int} (h1 : raw ≤ 2 ^ 53) (h2 : Exactly info.refval ref)
    (h3 : (raw + ref).natAbs ≤ 2 ^ 53) (h4 : 0 ≤ info.scale) (h5 : info.scale ≤ 22) :
    Nearest (scaled info raw) (exact raw ref info.scale) := by
  obtain ⟨k, hk⟩ := Int.eq_ofNat_of_zero_le h4
  have hp : (0 : ℚ) < (10 ^ k : Nat) := by positivity
  have hq : (1 : ℚ) ≤ (10 ^ k : Nat) := by exact_mod_cast Nat.one_le_pow k 10 (by decide)
  have := Double.div_nearest (sum_exact h1 h2 h3) (Double.pow10_exact (k := k) (by omega)) hp (by
    refine lt_of_le_of_lt (div_le_self (abs_nonneg _) hq) ?_
    rw [Double.int_abs]
    exact Double.nat_small h3)
  unfold exact scaled
  rw [hk, zpow_natCast]
  push_cast at this
  exact this

theorem scaled_exact {info : PackingInfo Double} {raw : Nat} {ref : Int} (h1 : raw ≤ 2 ^ 53) (h2 : Exactly info.refval ref)
    {k : Nat} (hk : info.scale = -k) (h4 : k ≤ 4) (h3 : (raw + ref).natAbs * 10 ^ k < 2 ^ 53) :
    Exactly (scaled info raw) (exact raw ref info.scale) := by
  have hs : (raw + ref).natAbs ≤ 2 ^ 53 := le_trans (Nat.le_mul_of_pos_right _ (by positivity)) h3.le
  have := Double.div_integer (sum_exact h1 h2 hs) (k := k) (by omega) h3
  unfold exact scaled
  rw [hk, zpow_neg, zpow_natCast, div_inv_eq_mul]
  push_cast at this
  exact this

theorem value_present {info : PackingInfo Double} {n raw : Nat} (hu : info.unit = .numeric) (h : ¬ AllOnes n raw) :
    value info n raw = .float (scaled info raw) := by
  unfold value present
  rw [if_neg h, hu]

/-- **C119**, what holds: for scales from 0 to 22 the number decoded is the nearest double. -/
theorem C119_partial (info : PackingInfo Double) (n raw : Nat) (ref : Int) (t : Bits) (p : Int)
    (hu : info.unit = .numeric) (hn : info.nbits = n) (h64 : n ≤ 64) (hr : raw < 2 ^ n) (hm : ¬ AllOnes n raw) (h1 : raw ≤ 2 ^ 53)
    (h2 : Exactly info.refval ref) (h3 : (raw + ref).natAbs ≤ 2 ^ 53) (h4 : 0 ≤ info.scale) (h5 : info.scale ≤ 22) :
    ∃ d, uncompressUnpack info (.bin ⟨natBits n raw ++ t, p⟩) = (.ok (.float d), .bin ⟨t, p + n⟩) ∧
      Nearest d (exact raw ref info.scale) :=
  ⟨_, by rw [C42_numeric_partial info n raw t p (.inl hu) hn h64 hr, value_present hu hm], scaled_nearest h1 h2 h3 h4 h5⟩

/-- **C119**, scales from -4 to -1: the number, an integer, is decoded exactly if it is less than 2 ^ 53. -/
theorem C119_tens (info : PackingInfo Double) (n raw k : Nat) (ref : Int) (t : Bits) (p : Int)
    (hu : info.unit = .numeric) (hn : info.nbits = n) (h64 : n ≤ 64) (hr : raw < 2 ^ n) (hm : ¬ AllOnes n raw) (h1 : raw ≤ 2 ^ 53)
    (h2 : Exactly info.refval ref) (hk : info.scale = -k) (h4 : k ≤ 4) (h3 : (raw + ref).natAbs * 10 ^ k < 2 ^ 53) :
    ∃ d, uncompressUnpack info (.bin ⟨natBits n raw ++ t, p⟩) = (.ok (.float d), .bin ⟨t, p + n⟩) ∧
      Exactly d (exact raw ref info.scale) :=
  ⟨_, by rw [C42_numeric_partial info n raw t p (.inl hu) hn h64 hr, value_present hu hm], scaled_exact h1 h2 hk h4 h3⟩

/-- The relative error for scales from -200 to 200. -/
theorem scaled_close {info : PackingInfo Double} {raw : Nat} {ref : Int} (h1 : raw ≤ 2 ^ 53) (h2 : Exactly info.refval ref)
    (h3 : (raw + ref).natAbs ≤ 2 ^ 53) (h4 : -200 ≤ info.scale) (h5 : info.scale ≤ 200) :
    AccuracySpec.Finite (scaled info raw) ∧ |(scaled info raw).val - exact raw ref info.scale| ≤ |exact raw ref info.scale| / 2 ^ 50 := by
  obtain ⟨k1, k2⟩ := Double.div_relative (sum_exact h1 h2 h3) h4 h5 h3
  refine ⟨k1, ?_⟩
  have hT : (0 : ℚ) < 10 ^ info.scale := by positivity
  have e1 : exact raw ref info.scale = ((raw + ref : Int) : ℚ) / 10 ^ info.scale := by
    unfold exact
    push_cast
    rfl
  rw [e1]
  have e2 : (scaled info raw).val - ((raw + ref : Int) : ℚ) / 10 ^ info.scale =
      ((scaled info raw).val * 10 ^ info.scale - (raw + ref : Int)) / 10 ^ info.scale := by
    field_simp
  rw [e2, abs_div, abs_div, abs_of_pos hT, div_right_comm]
  exact div_le_div_of_nonneg_right k2 hT.le

/-- **C119**, compressed data: the same for all values of a column (C43 says that these are `value info n (base + increment)`). -/
theorem C119_value (info : PackingInfo Double) (n raw : Nat) (ref : Int) (hu : info.unit = .numeric) (h1 : raw ≤ 2 ^ 53)
    (h2 : Exactly info.refval ref) :
    (AllOnes n raw ∧ value info n raw = .nil) ∨ ∃ d, value info n raw = .float d ∧
      (0 ≤ info.scale → info.scale ≤ 22 → (raw + ref).natAbs ≤ 2 ^ 53 → Nearest d (exact raw ref info.scale)) ∧
      (∀ k : Nat, info.scale = -k → k ≤ 4 → (raw + ref).natAbs * 10 ^ k < 2 ^ 53 → Exactly d (exact raw ref info.scale)) ∧
      (-200 ≤ info.scale → info.scale ≤ 200 → (raw + ref).natAbs ≤ 2 ^ 53 →
        AccuracySpec.Finite d ∧ |d.val - exact raw ref info.scale| ≤ |exact raw ref info.scale| / 2 ^ 50) := by
  by_cases hm : AllOnes n raw
  · exact .inl ⟨hm, if_pos hm⟩
  · exact .inr ⟨_, value_present hu hm, fun h4 h5 h3 => scaled_nearest h1 h2 h3 h4 h5,
      fun k hk h4 h3 => scaled_exact h1 h2 hk h4 h3, fun h4 h5 h3 => scaled_close h1 h2 h3 h4 h5⟩

theorem mul_exact {a b : Double} {x y : Int} (ha : Exactly a x) (hb : Exactly b y) (hy : 0 < y) (h : (x * y).natAbs ≤ 2 ^ 53) :
    Exactly (Double.mul a b) (x * y : Int) := by
  have hma := Double.abs_val a
  have hmb := Double.abs_val b
  rw [ha.2] at hma
  rw [hb.2] at hmb
  obtain ⟨⟨n, m, e, hc, rfl⟩, ha⟩ := ha
  obtain ⟨⟨n', m', e', hc', rfl⟩, hb⟩ := hb
  have hn' : n' = false := by
    cases n' with
    | false => rfl
    | true =>
      have h1 : -(Double.fin true m' e' hc').mag = (y : ℚ) := hb
      have h2 := Double.mag_nonneg (.fin true m' e' hc')
      have h3 : (0 : ℚ) < y := by exact_mod_cast hy
      linarith
  subst hn'
  show Exactly (Double.round (n ^^ false) ((Double.fin n m e hc).mag * (Double.fin false m' e' hc').mag)) _
  rw [Bool.xor_false, ← hma, ← hmb, ← abs_mul, ← Int.cast_mul, Double.int_abs]
  obtain ⟨m2, e2, hc2, h1, h2⟩ := Double.round_nat h n
  rw [h1]
  refine ⟨⟨_, _, _, hc2, rfl⟩, ?_⟩
  show (if n then -((m2 : ℚ) * pow2 e2) else (m2 : ℚ) * pow2 e2) = _
  rw [h2, ← Double.int_abs, Int.cast_mul, abs_mul, abs_of_pos (show (0 : ℚ) < y by exact_mod_cast hy), hma, ← ha]
  cases n
  · rfl
  · show -((Double.fin true m e hc).mag * (y : ℚ)) = -(Double.fin true m e hc).mag * y
    ring

/-- **C119**: the reference values are exact: those of the tables, and those multiplied by 10^Y on account of 207YYY, if they are at most
2 ^ 53. -/
theorem C119_refval (o : Flat.Operands) (e : Bentry) (k : Nat) (hu : e.unit = .numeric) (hk : o.y207 = k) (h22 : k ≤ 22)
    (h : (e.refval * 10 ^ k).natAbs ≤ 2 ^ 53) : Exactly (o.packing e : PackingInfo Double).refval (e.refval * 10 ^ k : Int) := by
  have h0 : e.refval.natAbs ≤ 2 ^ 53 := by
    rw [Int.natAbs_mul] at h
    exact le_trans (Nat.le_mul_of_pos_right _ (Int.natAbs_pos.2 (by positivity))) h
  have := mul_exact (Double.ofRat_int_exact h0) (y := 10 ^ k) (by simpa using Double.pow10_exact (k := k) (by omega)) (by positivity) h
  unfold Flat.Operands.packing
  rw [hu]
  show Exactly (Double.mul (Double.ofRat e.refval) (Double.pow10 o.y207)) _
  rw [hk]
  exact this

/-- The radiosonde operating frequency, 002067: Hz, scale -5, 15 bits. -/
def frequency : PackingInfo Double := ⟨.numeric, -5, GoFloat.ofInt 0, 15⟩

/-- C119 is violated: 002067 with the raw value 1 is decoded to 99999.99999999999 instead of 100000, because 0.00001 is not a double and
dividing by the double next to it is not multiplying by 100000. -/
theorem C119_violates : ¬ C119_statement := by
  intro h
  obtain ⟨d, h1, h2⟩ := h frequency 15 1 0 [] 0 rfl rfl (by decide) (by decide) (by decide) (by decide)
    (by simpa using! Double.ofRat_int_exact (i := 0) (by decide)) (by decide) (by decide) (by decide)
  rw [C42_numeric_partial frequency 15 1 [] 0 (.inl rfl) rfl (by decide) (by decide), value_present rfl (by decide)] at h1
  injection h1 with h1 _
  injection h1 with h1
  injection h1 with h1
  have h3 := h2.2.1 _ (Double.ofNat_exact (n := 100000) (by decide)).1
  rw [(Double.ofNat_exact (n := 100000) (by decide)).2] at h3
  have e : exact 1 0 frequency.scale = 100000 := by
    unfold exact frequency
    norm_num
  rw [e, ← h1] at h3
  have hv : (scaled frequency 1).val ≠ 100000 := by decide +kernel
  have h4 : |(scaled frequency 1).val - 100000| ≤ 0 := by
    refine le_trans h3 ?_
    norm_num
  exact hv (by linarith [abs_nonpos_iff.1 h4])

/-- **C120**.  The integer can be recovered: multiplied by 10^scale and rounded, a decoded number is raw + reference, for scales up to 200
and integers up to 2 ^ 48. -/
theorem C120_recover (info : PackingInfo Double) (n raw : Nat) (ref : Int) (t : Bits) (p : Int)
    (hu : info.unit = .numeric) (hn : info.nbits = n) (h64 : n ≤ 64) (hr : raw < 2 ^ n) (hm : ¬ AllOnes n raw) (h1 : raw ≤ 2 ^ 53)
    (h2 : Exactly info.refval ref) (h3 : (raw + ref).natAbs ≤ 2 ^ 48) (h4 : -200 ≤ info.scale) (h5 : info.scale ≤ 200) :
    ∃ d, uncompressUnpack info (.bin ⟨natBits n raw ++ t, p⟩) = (.ok (.float d), .bin ⟨t, p + n⟩) ∧
      Finite d ∧ |d.val * 10 ^ info.scale - (raw + ref : Int)| < 1 / 2 :=
  ⟨scaled info raw, by rw [C42_numeric_partial info n raw t p (.inl hu) hn h64 hr, value_present hu hm],
    Double.div_back (sum_exact h1 h2 (by omega)) h4 h5 h3⟩

theorem allOnes_eq {n raw raw' : Nat} (h : raw < 2 ^ n) (h' : raw' < 2 ^ n) (h1 : AllOnes n raw) (h2 : AllOnes n raw') : raw = raw' := by
  have e := congrArg bitsVal (h1.2.trans h2.2.symm)
  rwa [bitsVal_natBits, bitsVal_natBits, Nat.mod_eq_of_lt h, Nat.mod_eq_of_lt h'] at e

/-- **C120**.  Different raw values are decoded to different values, missing or not. -/
theorem C120_injective (info : PackingInfo Double) (n : Nat) (ref : Int) (hu : Plain info.unit)
    (h2 : info.unit = .numeric → Exactly info.refval ref ∧ -200 ≤ info.scale ∧ info.scale ≤ 200 ∧ n ≤ 47 ∧ ref.natAbs ≤ 2 ^ 47)
    (raw raw' : Nat) (hr : raw < 2 ^ n) (hr' : raw' < 2 ^ n) (h : value info n raw = value info n raw') : raw = raw' := by
  by_cases hm : AllOnes n raw
  · by_cases hm' : AllOnes n raw'
    · exact allOnes_eq hr hr' hm hm'
    · unfold value present at h
      rw [if_pos hm, if_neg hm'] at h
      split at h <;> cases h
  · by_cases hm' : AllOnes n raw'
    · unfold value present at h
      rw [if_neg hm, if_pos hm'] at h
      split at h <;> cases h
    · by_cases hnum : info.unit = .numeric
      · obtain ⟨hx, hs1, hs2, hn, href⟩ := h2 hnum
        have hp : (2 : Nat) ^ n ≤ 2 ^ 47 := Nat.pow_le_pow_right (by decide) hn
        rw [value_present hnum hm, value_present hnum hm'] at h
        injection h with h
        have a := (Double.div_back (sum_exact (info := info) (raw := raw) (ref := ref) (by omega) hx (by omega)) hs1 hs2 (by omega)).2
        have b := (Double.div_back (sum_exact (info := info) (raw := raw') (ref := ref) (by omega) hx (by omega)) hs1 hs2 (by omega)).2
        have h : Double.div (GoFloat.add (GoFloat.ofNat raw) info.refval) (Double.pow10 info.scale) =
          Double.div (GoFloat.add (GoFloat.ofNat raw') info.refval) (Double.pow10 info.scale) := h
        rw [h] at a
        rw [abs_lt] at a b
        have c : |(((raw : Int) - raw' : Int) : ℚ)| < 1 := by
          push_cast at a b ⊢
          rw [abs_lt]
          constructor <;> linarith [a.1, a.2, b.1, b.2]
        rw [← Int.cast_abs] at c
        have c : |(raw : Int) - raw'| < 1 := by exact_mod_cast c
        have := Int.abs_lt_one_iff.1 c
        omega
      · unfold value present at h
        rw [if_neg hm, if_neg hm'] at h
        rcases hu with hu | hu | hu
        · exact absurd hu hnum
        · simp only [hu] at h; injection h
        · simp only [hu] at h; injection h

/-! ## The hypotheses are met -/

theorem zero_exact : Exactly (GoFloat.ofInt 0 : Double) (0 : Int) := Double.ofRat_int_exact (i := 0) (by decide)

/-- 012101, temperature: scale 2, 16 bits. -/
def temperature : PackingInfo Double := ⟨.numeric, 2, GoFloat.ofInt 0, 16⟩

/-- 010004, pressure: scale -1, 14 bits. -/
def pressure : PackingInfo Double := ⟨.numeric, -1, GoFloat.ofInt 0, 14⟩

/-- 015012, total electron count per square metre: scale -16, 6 bits. -/
def electrons : PackingInfo Double := ⟨.numeric, -16, GoFloat.ofInt 0, 6⟩

/-- 27315 is decoded to the double nearest to 273.15. -/
example : ∃ d, uncompressUnpack temperature (.bin ⟨natBits 16 27315 ++ [true], 0⟩) = (.ok (.float d), .bin ⟨[true], 16⟩) ∧
    Nearest d (27315 / 100) := by
  obtain ⟨d, h1, h2⟩ := C119_partial temperature 16 27315 0 [true] 0 rfl rfl (by decide) (by decide) (by decide) (by decide)
    zero_exact (by decide) (by decide) (by decide)
  refine ⟨d, h1, ?_⟩
  convert h2 using 1
  unfold exact temperature
  norm_num

example : (scaled temperature 27315).val = 2402652809016115 / 8796093022208 := by decide +kernel

/-- 10132 is decoded to 101320. -/
example : ∃ d, uncompressUnpack pressure (.bin ⟨natBits 14 10132 ++ [], 3⟩) = (.ok (.float d), .bin ⟨[], 17⟩) ∧
    Exactly d 101320 := by
  obtain ⟨d, h1, h2⟩ := C119_tens pressure 14 10132 1 0 [] 3 rfl rfl (by decide) (by decide) (by decide) (by decide)
    zero_exact (by decide) (by decide) (by decide)
  refine ⟨d, h1, ?_⟩
  convert h2 using 1
  unfold exact pressure
  norm_num

example : ∃ d, value temperature 16 27315 = .float d ∧ Nearest d (exact 27315 0 2) := by
  rcases C119_value temperature 16 27315 0 rfl (by decide) zero_exact with h | ⟨d, h, h', _⟩
  · exact absurd h.1 (by decide)
  · exact ⟨d, h, h' (by decide) (by decide) (by decide)⟩

/-- 007002, height, with the reference value -40, under 207002. -/
example : Exactly ((({ y207 := 2 } : Flat.Operands).packing ⟨[], [], .numeric, -1, -40, 16, [], .numeric, 0, 0⟩ : PackingInfo Double)).refval (-4000 : Int) :=
  C119_refval { y207 := 2 } ⟨[], [], .numeric, -1, -40, 16, [], .numeric, 0, 0⟩ 2 rfl rfl (by decide) (by decide)

/-- What C119 misses, C120 does not. -/
example : ∃ d, uncompressUnpack frequency (.bin ⟨natBits 15 1 ++ [], 0⟩) = (.ok (.float d), .bin ⟨[], 15⟩) ∧
    Finite d ∧ |d.val * 10 ^ (-5 : Int) - (1 : Int)| < 1 / 2 :=
  C120_recover frequency 15 1 0 [] 0 rfl rfl (by decide) (by decide) (by decide) (by decide) zero_exact (by decide) (by decide) (by decide)

example (raw raw' : Nat) (h : raw < 2 ^ 6) (h' : raw' < 2 ^ 6) (he : value electrons 6 raw = value electrons 6 raw') : raw = raw' :=
  C120_injective electrons 6 0 (.inl rfl) (fun _ => ⟨zero_exact, by decide, by decide, by decide, by decide⟩) raw raw' h h' he

end Gobufr
