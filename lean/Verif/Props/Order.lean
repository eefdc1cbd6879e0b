import Verif.Proofs.Order
import Verif.Props.Fixed

/-!
# C126: decoding keeps the order of numbers
-/

namespace Gobufr
open Spec EncodeSpec UnpackSpec AccuracySpec

theorem scaled_mono {info : PackingInfo Double} {raw raw' : Nat} (h : raw ≤ raw') (hf : AccuracySpec.Finite (scaled info raw))
    (hf' : AccuracySpec.Finite (scaled info raw')) : (scaled info raw).val ≤ (scaled info raw').val := by
  refine Double.div_mono (Double.pow10_sign info.scale) hf hf' fun ha ha' => ?_
  obtain ⟨h1, h2⟩ := Double.add_finite_left ha
  obtain ⟨h1', -⟩ := Double.add_finite_left ha'
  have conv : ∀ n : Nat, (GoFloat.ofNat n : Double) = Double.ofRat n := by
    intro n
    show Double.round false n = Double.round (decide ((n : ℚ) < 0)) |(n : ℚ)|
    have hn : (0 : ℚ) ≤ n := by positivity
    rw [abs_of_nonneg hn, decide_eq_false (not_lt.2 hn)]
  have hs : (GoFloat.ofNat raw : Double).val ≤ (GoFloat.ofNat raw' : Double).val := by
    rw [conv] at h1 h1' ⊢
    rw [conv]
    exact Double.ofRat_mono (by exact_mod_cast h) h1 h1'
  have e1 := Double.add_val h1 h2
  have e2 := Double.add_val h1' h2
  have f1 := Double.add_rounded h1 h2 ha
  have f2 := Double.add_rounded h1' h2 ha'
  show (Double.add _ _).val ≤ (Double.add _ _).val
  rw [e1, e2]
  exact Double.ofRat_mono (by linarith) f1 f2

/-- **C126**: of two raw values of an element that are decoded to numbers, the greater one is decoded to the greater number, or to the same. -/
theorem C126_value (info : PackingInfo Double) (n raw raw' : Nat) (hu : info.unit = .numeric) (h : raw ≤ raw') (d d' : Double)
    (hd : value info n raw = .float d) (hd' : value info n raw' = .float d') (hf : AccuracySpec.Finite d) (hf' : AccuracySpec.Finite d') :
    d.val ≤ d'.val := by
  have key : ∀ {raw : Nat} {d : Double}, value info n raw = .float d → d = scaled info raw := by
    intro raw d h
    by_cases hm : AllOnes n raw
    · unfold value at h
      rw [if_pos hm] at h
      cases h
    · rw [value_present hu hm] at h
      cases h
      rfl
  rw [key hd] at hf ⊢
  rw [key hd'] at hf' ⊢
  exact scaled_mono h hf hf'

/-- **C126** for what is read from the input. -/
theorem C126_read (info : PackingInfo Double) (n raw raw' : Nat) (hu : info.unit = .numeric) (hn : info.nbits = n) (h64 : n ≤ 64)
    (h : raw ≤ raw') (hr : raw' < 2 ^ n) (t t' : Bits) (p p' : Int) (s s' : Reader Double) (d d' : Double)
    (hd : uncompressUnpack info (.bin ⟨natBits n raw ++ t, p⟩) = (.ok (.float d), s))
    (hd' : uncompressUnpack info (.bin ⟨natBits n raw' ++ t', p'⟩) = (.ok (.float d'), s'))
    (hf : AccuracySpec.Finite d) (hf' : AccuracySpec.Finite d') : d.val ≤ d'.val := by
  rw [C42_numeric_partial info n raw t p (.inl hu) hn h64 (by omega)] at hd
  rw [C42_numeric_partial info n raw' t' p' (.inl hu) hn h64 hr] at hd'
  exact C126_value info n raw raw' hu h d d' (Outcome.ok.inj (Prod.mk.inj hd).1) (Outcome.ok.inj (Prod.mk.inj hd').1) hf hf'

/-- **C126**, where the packing loses nothing (C120): the greater raw value is decoded to the greater number. -/
theorem C126_strict (info : PackingInfo Double) (n raw raw' : Nat) (ref : Int) (t t' : Bits) (p p' : Int)
    (hu : info.unit = .numeric) (hn : info.nbits = n) (h64 : n ≤ 64) (h : raw < raw') (hr : raw' < 2 ^ n) (hm : ¬ AllOnes n raw')
    (h1 : raw' ≤ 2 ^ 53) (h2 : Exactly info.refval ref) (h3 : (raw + ref).natAbs ≤ 2 ^ 48) (h3' : (raw' + ref).natAbs ≤ 2 ^ 48)
    (h4 : -200 ≤ info.scale) (h5 : info.scale ≤ 200) :
    ∃ d d', uncompressUnpack info (.bin ⟨natBits n raw ++ t, p⟩) = (.ok (.float d), .bin ⟨t, p + n⟩) ∧
      uncompressUnpack info (.bin ⟨natBits n raw' ++ t', p'⟩) = (.ok (.float d'), .bin ⟨t', p' + n⟩) ∧
      AccuracySpec.Finite d ∧ AccuracySpec.Finite d' ∧ d.val < d'.val := by
  have hm0 : ¬ AllOnes n raw := fun hm => by
    have := ((allOnes_iff n raw (by omega)).1 hm).2
    omega
  obtain ⟨d, a1, a2, a3⟩ := C120_recover info n raw ref t p hu hn h64 (by omega) hm0 (by omega) h2 h3 h4 h5
  obtain ⟨d', b1, b2, b3⟩ := C120_recover info n raw' ref t' p' hu hn h64 hr hm h1 h2 h3' h4 h5
  refine ⟨d, d', a1, b1, a2, b2, ?_⟩
  have hp : (0 : ℚ) < 10 ^ info.scale := by positivity
  have hq : ((raw + ref : Int) : ℚ) + 1 ≤ (raw' + ref : Int) := by
    have : (raw + ref : Int) + 1 ≤ raw' + ref := by omega
    exact_mod_cast this
  rw [abs_lt] at a3 b3
  have : d.val * 10 ^ info.scale < d'.val * 10 ^ info.scale := by linarith [a3.2, b3.1]
  exact lt_of_mul_lt_mul_right this hp.le

/-- **C126** for a column of compressed data: the numbers are in the order of the increments, and none is less than the one of the base. -/
theorem C126_column (info : PackingInfo Double) (fuel n base w : Nat) (incs : List Nat) (t : Bits) (p : Int) (hu : info.unit = .numeric)
    (hn : info.nbits = n) (h1 : 1 ≤ n) (h64 : n ≤ 64) (hb : base < 2 ^ n) (hw2 : 2 ≤ w)
    (hw : w < 64) (hd : ∀ d ∈ incs, d < 2 ^ w ∧ (d = 2 ^ w - 1 ∨ base + d < 2 ^ n)) (hm : ¬ AllOnes n base) :
    ∃ vs : List (Val Double), compressedUnpack incs.length fuel info (.bin ⟨column n base w incs ++ t, p⟩)
        = (.ok ⟨.uint base, w, vs⟩, .bin ⟨t, p + (n + 6 + w * incs.length)⟩) ∧
      (∀ (i j a b : Nat) (x y : Double), incs[i]? = some a → incs[j]? = some b → a ≤ b → vs[i]? = some (.float x) →
        vs[j]? = some (.float y) → AccuracySpec.Finite x → AccuracySpec.Finite y → x.val ≤ y.val) ∧
      ∀ (j : Nat) (x y : Double), value info n base = .float x → vs[j]? = some (.float y) → AccuracySpec.Finite x → AccuracySpec.Finite y →
        x.val ≤ y.val := by
  have get : ∀ (j : Nat) (y : Double), (incs.map fun d => if natBits w d = List.replicate w true then Val.nil else value info n (base + d))[j]? =
      some (.float y) → ∃ b, incs[j]? = some b ∧ value info n (base + b) = .float y := by
    intro j y h
    rw [List.getElem?_map] at h
    cases hj : incs[j]? with
    | none => rw [hj] at h; cases h
    | some b =>
      rw [hj] at h
      have h := Option.some.inj h
      dsimp only at h
      split at h
      · cases h
      · exact ⟨b, rfl, h⟩
  refine ⟨_, C43_column_partial info fuel n base w incs t p (.inl hu) hn h1 h64 hb hw2 hw hd hm, ?_, ?_⟩
  · intro i j a b x y ha hb hab hx hy fx fy
    obtain ⟨a', ha', ex⟩ := get i x hx
    obtain ⟨b', hb', ey⟩ := get j y hy
    rw [ha] at ha'
    rw [hb] at hb'
    cases ha'
    cases hb'
    exact C126_value info n (base + a) (base + b) hu (by omega) x y ex ey fx fy
  · intro j x y ex hy fx fy
    obtain ⟨b', -, ey⟩ := get j y hy
    exact C126_value info n base (base + b') hu (by omega) x y ex ey fx fy

/-- 273.15, 273.17 and a missing value. -/
example : ∃ (vs : List (Val Double)) (x y : Double), compressedUnpack 3 0 temperature (.bin ⟨column 16 27315 2 [2, 0, 3] ++ [], 0⟩) =
    (.ok ⟨.uint 27315, 2, vs⟩, .bin ⟨[], 28⟩) ∧ vs[1]? = some (.float x) ∧ vs[0]? = some (.float y) ∧ x.val ≤ y.val := by
  obtain ⟨vs, h1, h2, -⟩ := C126_column temperature 0 16 27315 2 [2, 0, 3] [] 0 rfl rfl (by decide) (by decide) (by decide) (by decide)
    (by decide) (by decide) (by decide)
  have e := C43_column_partial temperature 0 16 27315 2 [2, 0, 3] [] 0 (.inl rfl) rfl (by decide) (by decide) (by decide) (by decide)
    (by decide) (by decide) (by decide)
  rw [h1] at e
  injection e with e _
  injection e with e
  injection e with _ _ e
  obtain ⟨d, d', k1, k2, k3, k4, -⟩ := C126_strict temperature 16 27315 27317 0 [] [] 0 0 rfl rfl (by decide) (by decide) (by decide)
    (by decide) (by decide) zero_exact (by decide) (by decide) (by decide) (by decide)
  rw [C42_numeric_partial temperature 16 _ _ _ (.inl rfl) rfl (by decide) (by decide)] at k1 k2
  have k1 := Outcome.ok.inj (Prod.mk.inj k1).1
  have k2 := Outcome.ok.inj (Prod.mk.inj k2).1
  have e1 : vs[1]? = some (.float d) := by
    rw [e, ← k1]
    rfl
  have e0 : vs[0]? = some (.float d') := by
    rw [e, ← k2]
    rfl
  exact ⟨vs, d, d', h1, e1, e0, h2 1 0 0 2 d d' rfl rfl (by decide) e1 e0 k3 k4⟩

/-- **C126** for messages: with a template as in C123, of two numbers at the same place in two subsets, of one message or of two, the one
with the greater bits is the greater one, or the same. -/
theorem C126_message (compatible : Bool) (ns : List Ast) (hst : Unvarying ns) (hsim : simpleL true ns = true) :
    ∃ plan : Plan Double, ∀ (c c' : FacCfg), c.inputType = .binary → c'.inputType = .binary → c.compatible = compatible →
      c'.compatible = compatible → ∀ (s s1 s' s1' : Fac Double) (m m' : Message Double) (input input' : List UInt8) (q q' : Int),
      s.r = .bin ⟨BitReader.bitsOfBytes input, 8 * q⟩ → s'.r = .bin ⟨BitReader.bitsOfBytes input', 8 * q'⟩ →
      Runtime.run c s = (.ok m, s1) → Runtime.run c' s' = (.ok m', s1') →
      fieldValue m 3 "isCompressed" = some (.bool false) → fieldValue m' 3 "isCompressed" = some (.bool false) →
      LocalFits m → LocalFits m' → Means c m ns → Means c' m' ns → ∀ p p', payloadOf m = some p → payloadOf m' = some p' →
      (∀ sub ∈ p.subsets, ∀ d info v, some (d, info, v) ∈ reported sub → EncodeSpec.Proper info v) →
      (∀ sub ∈ p'.subsets, ∀ d info v, some (d, info, v) ∈ reported sub → EncodeSpec.Proper info v) →
      ∃ (d d' : Draft) (junk bs rest junk' bs' rest' : List UInt8), d.StandsIn input junk bs rest ∧ d'.StandsIn input' junk' bs' rest' ∧
        ∀ (j j' : Nat) (sub sub' : Subset Double), p.subsets[j]? = some sub → p'.subsets[j']? = some sub' →
          ∀ (k : Nat) (desc : NodeDesc) (info : PackingInfo Double), plan[k]? = some (desc, info) → info.unit = .numeric →
            bitsVal (bitsAt d.data (j * plan.width + plan.offset k) info.nbits.toNat) ≤
              bitsVal (bitsAt d'.data (j' * plan.width + plan.offset k) info.nbits.toNat) →
            ∀ x x', (reported sub)[k]? = some (some (desc, info, .float x)) → (reported sub')[k]? = some (some (desc, info, .float x')) →
              AccuracySpec.Finite x → AccuracySpec.Finite x' → x.val ≤ x'.val := by
  obtain ⟨plan, hp, -⟩ := C123_plan (F := Double) compatible ns hst hsim
  refine ⟨plan, fun c c' hc hc' hcc hcc' s s1 s' s1' m m' input input' q q' hs hs' h h' h1 h1' h2 h2' h3 h3' p p' h4 h4' h5 h5' => ?_⟩
  obtain ⟨d, junk, bs, rest, k1, -, -, -, k5⟩ := hp c hc hcc s s1 m input q hs h h1 h2 h3 p h4 h5
  obtain ⟨d', junk', bs', rest', k1', -, -, -, k5'⟩ := hp c' hc' hcc' s' s1' m' input' q' hs' h' h1' h2' h3' p' h4' h5'
  refine ⟨d, d', junk, bs, rest, junk', bs', rest', k1, k1', fun j j' sub sub' hj hj' k desc info hk hu e x x' hx hx' hf hf' => ?_⟩
  obtain ⟨v, g1, g2⟩ := (k5 j sub hj).2 k desc info hk
  obtain ⟨v', g1', g2'⟩ := (k5' j' sub' hj').2 k desc info hk
  have num : ∀ {b : List Bool} {v : Val Double}, Single info b [v] → v = value info info.nbits.toNat (bitsVal b) := by
    intro b v h
    generalize hvs : [v] = vs at h
    cases h with
    | @number n raw _ hn _ hr =>
      have : info.nbits.toNat = n := by omega
      rw [this, bitsVal_natBits_lt hr]
      exact (List.cons.inj hvs).1
    | text hs => rw [hu] at hs; cases hs
    | signed hs => rw [hu] at hs; cases hs
    | skipped hs => rw [hu] at hs; cases hs
  rw [hx] at g1
  rw [hx'] at g1'
  have e1 : v = .float x := by
    injection g1 with g1; injection g1 with g1; injection g1 with _ g1; injection g1 with _ g1; exact g1.symm
  have e1' : v' = .float x' := by
    injection g1' with g1; injection g1 with g1; injection g1 with _ g1; injection g1 with _ g1; exact g1.symm
  exact C126_value info _ _ _ hu e x x' ((num g2).symm.trans e1) ((num g2').symm.trans e1') hf hf'

/-- 273.15 and 273.16. -/
example : ∃ d d', uncompressUnpack temperature (.bin ⟨natBits 16 27315 ++ [true], 0⟩) = (.ok (.float d), .bin ⟨[true], 16⟩) ∧
    uncompressUnpack temperature (.bin ⟨natBits 16 27316 ++ [], 5⟩) = (.ok (.float d'), .bin ⟨[], 21⟩) ∧
    AccuracySpec.Finite d ∧ AccuracySpec.Finite d' ∧ d.val < d'.val ∧ d.val ≤ d'.val := by
  obtain ⟨d, d', h1, h2, h3, h4, h5⟩ := C126_strict temperature 16 27315 27316 0 [true] [] 0 5 rfl rfl (by decide) (by decide) (by decide)
    (by decide) (by decide) zero_exact (by decide) (by decide) (by decide) (by decide)
  exact ⟨d, d', h1, h2, h3, h4, h5, C126_read temperature 16 27315 27316 rfl rfl (by decide) (by decide) (by decide) _ _ _ _ _ _ d d' h1 h2
    h3 h4⟩

open MessageExample AcceptExample LosslessExample in
/-- Two messages of two temperatures each: the hypotheses of `C126_message`. -/
example : ∃ (d d' : Draft) (input input' : List UInt8) (junk bs rest junk' bs' rest' : List UInt8), input ≠ input' ∧
    d.StandsIn input junk bs rest ∧ d'.StandsIn input' junk' bs' rest' := by
  obtain ⟨plan, hp⟩ := C126_message false tree (by decide) (by decide)
  obtain ⟨m, s1, p, h, h1, h2, h3, h4, h5, h6⟩ := runs [0x42, 0x55] (by decide)
  obtain ⟨m', s1', p', h', h1', h2', h3', h4', h5', h6'⟩ := runs [] (by decide)
  obtain ⟨d, d', junk, bs, rest, junk', bs', rest', k, k', -⟩ := hp cfg cfg rfl rfl rfl rfl _ s1 _ s1' m m' _ _ 0 0 rfl rfl h h'
    h1 h1' h2 h2' h3 h3' p p' h4 h4' (fun sub hsub => h6 _ (h5 ▸ List.mem_map_of_mem hsub))
    (fun sub hsub => h6' _ (h5' ▸ List.mem_map_of_mem hsub))
  exact ⟨d, d', _, _, junk, bs, rest, junk', bs', rest', by decide, k, k'⟩

end Gobufr
