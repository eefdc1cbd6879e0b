import Verif.Proofs.Unpack
import Verif.Props.Bufr
import Verif.Model.FloatInst

/-!
# Properties of value unpacking (C42 - C48)
-/

namespace Gobufr
open Spec UnpackSpec

variable {F : Type}

/-! ## C42 -/

/-- C42 (full claim): a numeric, code or flag element of `n` bits decodes to the value of the
raw number, whatever follows, and exactly `n` bits are consumed. -/
def C42_statement (F : Type) [GoFloat F] : Prop :=
  ∀ (info : PackingInfo F) (n raw : Nat) (t : Bits) (p : Int), Plain info.unit → info.nbits = n →
    raw < 2 ^ n →
    uncompressUnpack info (.bin ⟨natBits n raw ++ t, p⟩)
      = (.ok (value info n raw), .bin ⟨t, p + n⟩)

/-- C42, for widths up to 64 bits.  Missing is what fails for wider elements, see
`C42_wide_violates`. -/
theorem C42_numeric_partial [GoFloat F] [LawfulGoFloat F] (info : PackingInfo F) (n raw : Nat)
    (t : Bits) (p : Int) (hu : Plain info.unit) (hn : info.nbits = n) (h64 : n ≤ 64)
    (hr : raw < 2 ^ n) :
    uncompressUnpack info (.bin ⟨natBits n raw ++ t, p⟩)
      = (.ok (value info n raw), .bin ⟨t, p + n⟩) := by
  have hread := readUint_natBits' (F := F) info.nbits n raw t p hn h64 hr
  have hf := unpackFn_eq info n raw hu hn h64 hr
  unfold uncompressUnpack
  rcases hu with hu | hu | hu <;> simp only [hu]
  · rw [M.bind_ok hread]
    simp only [unpackFn, hu, if_true] at hf
    simp [hf]
  all_goals
    by_cases h0 : info.nbits = 0
    · have hn0 : n = 0 := by omega
      subst hn0
      have : raw = 0 := by simpa using hr
      subst this
      simp [h0, natBits, value, AllOnes, present, hu]
    · simp only [h0, if_false]
      rw [M.bind_ok hread]
      simp only [unpackFn, hu, reduceCtorEq, if_false] at hf
      simp [hf]

/-- A 9 bit temperature with reference -10 and raw value 257; and the missing one. -/
example : (uncompressUnpack (⟨.numeric, 0, ⟨-10⟩, 9⟩ : PackingInfo ToyFloat)
    (.bin ⟨natBits 9 257 ++ [true], 0⟩)).1 = .ok (.float ⟨247⟩) := by decide
example : (uncompressUnpack (⟨.numeric, 0, ⟨-10⟩, 9⟩ : PackingInfo ToyFloat)
    (.bin ⟨natBits 9 511 ++ [true], 0⟩)).1 = .ok .nil := by decide

/-- The code violates C42 for elements wider than 64 bits, which 201YYY can make: 65 zero bits
decode to missing. -/
theorem C42_wide_violates : ¬ C42_statement ToyFloat := by
  intro h
  have := congrArg Prod.fst (h ⟨.numeric, 0, ⟨0⟩, 65⟩ 65 0 [] 0 (Or.inl rfl) rfl (by decide))
  exact absurd this (by decide)

/-- How C42 fails for wider elements: only the last 64 bits count, and the element is missing if these are all
zero.  All of its bits are consumed. -/
theorem C42_wide [GoFloat F] [LawfulGoFloat F] (info : PackingInfo F) (n raw : Nat) (t : Bits) (p : Int)
    (hu : Plain info.unit) (hn : info.nbits = n) (h64 : 64 < n) :
    uncompressUnpack info (.bin ⟨natBits n raw ++ t, p⟩)
      = (.ok (if raw % 2 ^ 64 = 0 then .nil else present info (raw % 2 ^ 64)), .bin ⟨t, p + n⟩) := by
  have hread : (Reader.readUint info.nbits (.bin ⟨natBits n raw ++ t, p⟩) : Outcome Nat × Reader F)
      = (.ok (raw % 2 ^ 64), .bin ⟨t, p + n⟩) := by
    rw [Reader.readUint_bin info.nbits _ t p (by simp [hn]), bitsVal_natBits, hn,
      show two64 = 2 ^ 64 from rfl, Nat.mod_mod_of_dvd _ (Nat.pow_dvd_pow 2 (by omega))]
  have hm : (unpackMissing info (raw % 2 ^ 64) : Outcome (Val F))
      = .ok (if raw % 2 ^ 64 = 0 then .nil else .uint (raw % 2 ^ 64)) := by
    unfold unpackMissing
    rw [C18_wide_zero info.nbits (by omega)]
    by_cases h0 : raw % 2 ^ 64 = 0 <;> simp [h0]
  have h0 : info.nbits ≠ 0 := by omega
  unfold uncompressUnpack present
  rcases hu with hu | hu | hu <;> simp only [hu, h0, if_false] <;> rw [M.bind_ok hread]
  · by_cases hz : raw % 2 ^ 64 = 0
    · rw [if_pos hz] at hm ⊢
      unfold unpackNumeric
      rw [hm]; rfl
    · rw [if_neg hz] at hm ⊢
      rw [unpackNumeric_present info _ hm]; rfl
  all_goals rw [hm]; rfl

/-- An element of 70 bits: the top 6 do not count. -/
example : (uncompressUnpack (⟨.numeric, 0, ⟨-10⟩, 70⟩ : PackingInfo ToyFloat)
    (.bin ⟨natBits 70 (2 ^ 66 + 257) ++ [true], 0⟩)).1 = .ok (.float ⟨247⟩) := by decide
example : (uncompressUnpack (⟨.numeric, 0, ⟨-10⟩, 70⟩ : PackingInfo ToyFloat)
    (.bin ⟨natBits 70 (2 ^ 66) ++ [true], 0⟩)).1 = .ok .nil := by decide

/-- A number whose width has become negative (201YYY) reads nothing and is zero, but the position moves back. -/
theorem C42_negative [GoFloat F] [LawfulGoFloat F] (info : PackingInfo F) (t : Bits) (p : Int)
    (hu : Plain info.unit) (hn : info.nbits < 0) :
    uncompressUnpack info (.bin ⟨t, p⟩) = (.ok (present info 0), .bin ⟨t, p + info.nbits⟩) := by
  have hread : (Reader.readUint info.nbits (.bin ⟨t, p⟩) : Outcome Nat × Reader F)
      = (.ok 0, .bin ⟨t, p + info.nbits⟩) := by
    have := Reader.readUint_bin (F := F) info.nbits [] t p (by simp; omega)
    simpa [bitsVal] using this
  have hm : (unpackMissing info 0 : Outcome (Val F)) = .ok (.uint 0) := by
    unfold unpackMissing
    rw [C18_one_bit _ _ (by omega)]; rfl
  have h0 : info.nbits ≠ 0 := by omega
  unfold uncompressUnpack present
  rcases hu with hu | hu | hu <;> simp only [hu, h0, if_false] <;> rw [M.bind_ok hread]
  · rw [unpackNumeric_present info _ hm]; rfl
  all_goals rw [hm]; rfl

example : uncompressUnpack (⟨.numeric, 0, ⟨-10⟩, -3⟩ : PackingInfo ToyFloat) (.bin ⟨[true], 9⟩)
    = (.ok (.float ⟨-10⟩), .bin ⟨[true], 6⟩) := by rw [C42_negative _ _ _ (Or.inl rfl) (by decide)]; rfl

/-- C42, signed codes (sign bit and magnitude). -/
theorem C42_signed [GoFloat F] (info : PackingInfo F) (n : Nat) (neg : Bool) (mag : Nat)
    (t : Bits) (p : Int) (hu : info.unit = .code) (hn : info.nbits = (n + 1 : Nat)) (h64 : n < 64)
    (hm : mag < 2 ^ n) :
    uncompressUnpack info (.bin ⟨neg :: natBits n mag ++ t, p⟩)
      = (.ok (.int (if neg then -(mag : Int) else mag)), .bin ⟨t, p + (n + 1)⟩) := by
  unfold uncompressUnpack
  simp only [hu]
  rw [M.bind_ok (Reader.readInt_bin info.nbits neg (natBits n mag) t p (by simp; omega)),
    bitsVal_natBits, Nat.mod_eq_of_lt hm]
  have h63 : mag < 2 ^ 63 := Nat.lt_of_lt_of_le hm (Nat.pow_le_pow_right (by decide) (by omega))
  have h1 : toInt64 ((mag % two64 : Nat) : Int) = mag := by
    unfold toInt64 two64
    rw [Int.bmod_eq_iff (by decide)]
    refine ⟨by omega, by omega, ?_⟩
    rw [Nat.mod_eq_of_lt (by omega)]; simp
  have h2 : toInt64 (-(mag : Int)) = -mag := by
    unfold toInt64 two64
    rw [Int.bmod_eq_iff (by decide)]
    exact ⟨by omega, by omega, by simp⟩
  rw [h1, h2, hn]
  cases neg <;> simp

example : (uncompressUnpack (⟨.code, 0, ⟨0⟩, 8⟩ : PackingInfo ToyFloat)
    (.bin ⟨true :: natBits 7 5 ++ [true], 0⟩)).1 = .ok (.int (-5)) := by decide

/-- C42, strings: `nbits / 8` bytes, handed out unchanged. -/
theorem C42_string [GoFloat F] (info : PackingInfo F) (s : List UInt8) (t : Bits) (p : Int)
    (hu : info.unit = .string) (hn : info.nbits.tdiv 8 = s.length) :
    uncompressUnpack info (.bin ⟨s.flatMap byteBits ++ t, p⟩)
      = (.ok (.bytes s), .bin ⟨t, p + s.length * 8⟩) := by
  unfold uncompressUnpack
  simp only [hu, hn]
  rw [M.bind_ok (Reader.readBytes_bin s t p)]
  rfl

/-- C42, opaque bits: a bit string of the given width. -/
theorem C42_binary [GoFloat F] (info : PackingInfo F) (l t : Bits) (p : Int)
    (hu : info.unit = .binary) (hn : info.nbits = l.length) :
    uncompressUnpack info (.bin ⟨l ++ t, p⟩)
      = (.ok (.binary (some ⟨packBits l, l.length⟩)), .bin ⟨t, p + l.length⟩) := by
  unfold uncompressUnpack
  simp only [hu, hn]
  rw [M.bind_ok (Reader.readBinary_bin _ l t p (by simp))]
  rfl

/-! ## C43 -/

/-- C43 (full claim): a compressed column gives subset `i` the value of base + increment, or
missing when the increment has all bits set; width 0 gives everyone the base value.  Exactly
the bits of the column are consumed. -/
def C43_statement (F : Type) [GoFloat F] : Prop :=
  ∀ (info : PackingInfo F) (fuel n base w : Nat) (incs : List Nat) (t : Bits) (p : Int),
    Plain info.unit → info.nbits = n → 1 ≤ n → n ≤ 64 → base < 2 ^ n → 1 ≤ w → w < 64 →
    (∀ d ∈ incs, d < 2 ^ w ∧ (d = 2 ^ w - 1 ∨ base + d < 2 ^ n)) → ¬ AllOnes n base →
    compressedUnpack incs.length fuel info (.bin ⟨column n base w incs ++ t, p⟩)
      = (.ok ⟨.uint base, w, incs.map fun d =>
            if natBits w d = List.replicate w true then .nil else value info n (base + d)⟩,
         .bin ⟨t, p + (n + 6 + w * incs.length)⟩)

/-- C43 for increments of 2 bits or more.  What is missing is width 1, see
`C43_width1_violates`. -/
theorem C43_column_partial [GoFloat F] [LawfulGoFloat F] (info : PackingInfo F)
    (fuel n base w : Nat) (incs : List Nat) (t : Bits) (p : Int) (hu : Plain info.unit)
    (hn : info.nbits = n) (h1 : 1 ≤ n) (h64 : n ≤ 64) (hb : base < 2 ^ n) (hw2 : 2 ≤ w)
    (hw : w < 64) (hd : ∀ d ∈ incs, d < 2 ^ w ∧ (d = 2 ^ w - 1 ∨ base + d < 2 ^ n))
    (hm : ¬ AllOnes n base) :
    compressedUnpack incs.length fuel info (.bin ⟨column n base w incs ++ t, p⟩)
      = (.ok ⟨.uint base, w, incs.map fun d =>
            if natBits w d = List.replicate w true then .nil else value info n (base + d)⟩,
         .bin ⟨t, p + (n + 6 + w * incs.length)⟩) := by
  have hn0 : info.nbits ≠ 0 := by omega
  rw [compressedUnpack_plain _ _ _ hu hn0]
  unfold column
  rw [List.append_assoc]
  rw [unpackOthers_read _ info _ n base w _ p hn h64 hb hw (by omega)]
  rw [if_neg (by omega), hn, isMissing_raw n base h64 hb]
  simp only [hm, decide_false, Bool.false_eq_true, if_false, Int.toNat_natCast]
  have hst : (.bin ⟨incs.flatMap (natBits w) ++ t, p + n + 6⟩ : Reader F)
      = incState w t (p + (n + 6 + w * incs.length)) incs := by
    unfold incState; congr 2; omega
  rw [hst]
  have hfill := fillM_read (unpackDiff (unpackFn info) info base w)
    (incState w t (p + (n + 6 + w * incs.length)))
    (fun d => if AllOnes w d then .nil else value info n (base + d)) incs (by
      intro x ys hx
      obtain ⟨hx1, hx2⟩ := hd x hx
      refine unpackDiff_eq _ info base w hw t _ x ys hx1 _ ?_
      intro ha
      rw [allOnes_iff w x hx1] at ha
      have hlt : base + x < 2 ^ n := hx2.resolve_left fun e => ha ⟨by omega, e⟩
      have hlt2 : base + x < two64 :=
        Nat.lt_of_lt_of_le hlt (Nat.pow_le_pow_right (by decide) h64)
      rw [Nat.mod_eq_of_lt hlt2]
      exact unpackFn_eq info n _ hu hn h64 hlt)
  rw [M.bind_ok hfill]
  have hv : (incs.map fun d => if AllOnes w d then (.nil : Val F) else value info n (base + d))
      = incs.map fun d => if natBits w d = List.replicate w true then .nil
          else value info n (base + d) := by
    apply List.map_congr_left
    intro d _
    unfold AllOnes
    simp only [show 1 < w by omega, true_and]
  rw [hv]
  simp [incState]

/-- Three subsets, 8 bit base 100, 2 bit increments 0, 2, missing. -/
example : (compressedUnpack 3 5 (⟨.numeric, 0, ⟨1⟩, 8⟩ : PackingInfo ToyFloat)
    (.bin ⟨column 8 100 2 [0, 2, 3] ++ [true], 0⟩))
      = (.ok ⟨.uint 100, 2, [.float ⟨101⟩, .float ⟨103⟩, .nil]⟩, .bin ⟨[true], 20⟩) := by decide

/-- The code violates C43 for one bit increments: an increment of all ones (a single 1) is
taken as a value, not as missing. -/
theorem C43_width1_violates : ¬ C43_statement ToyFloat := by
  intro h
  have := congrArg Prod.fst (h ⟨.numeric, 0, ⟨0⟩, 8⟩ 0 8 100 1 [1] [] 0 (Or.inl rfl) rfl (by decide)
    (by decide) (by decide) (by decide) (by decide) (by decide) (by decide))
  exact absurd this (by decide)

/-- What the code does with one bit increments: it adds them. -/
theorem C43_width1 [GoFloat F] [LawfulGoFloat F] (info : PackingInfo F)
    (fuel n base : Nat) (incs : List Nat) (t : Bits) (p : Int) (hu : Plain info.unit)
    (hn : info.nbits = n) (h1 : 1 ≤ n) (h64 : n ≤ 64) (hb : base < 2 ^ n)
    (hd : ∀ d ∈ incs, d < 2 ∧ base + d < 2 ^ n) (hm : ¬ AllOnes n base) :
    compressedUnpack incs.length fuel info (.bin ⟨column n base 1 incs ++ t, p⟩)
      = (.ok ⟨.uint base, 1, incs.map fun d => value info n (base + d)⟩,
         .bin ⟨t, p + (n + 6 + incs.length)⟩) := by
  have hn0 : info.nbits ≠ 0 := by omega
  rw [compressedUnpack_plain _ _ _ hu hn0]
  unfold column
  rw [List.append_assoc]
  rw [unpackOthers_read _ info _ n base 1 _ p hn h64 hb (by decide) (by omega)]
  rw [if_neg (by omega), hn, isMissing_raw n base h64 hb]
  simp only [hm, decide_false, Bool.false_eq_true, if_false, Int.toNat_natCast]
  have hst : (.bin ⟨incs.flatMap (natBits 1) ++ t, p + n + 6⟩ : Reader F)
      = incState 1 t (p + (n + 6 + incs.length)) incs := by
    unfold incState; congr 2; omega
  rw [hst]
  have hfill := fillM_read (unpackDiff (unpackFn info) info base (1 : Nat))
    (incState 1 t (p + (n + 6 + incs.length)))
    (fun d => if AllOnes 1 d then .nil else value info n (base + d)) incs (by
      intro x ys hx
      obtain ⟨hx1, hlt⟩ := hd x hx
      refine unpackDiff_eq _ info base 1 (by decide) t _ x ys (by simpa using hx1) _ ?_
      intro _
      have hlt2 : base + x < two64 :=
        Nat.lt_of_lt_of_le hlt (Nat.pow_le_pow_right (by decide) h64)
      rw [Nat.mod_eq_of_lt hlt2]
      exact unpackFn_eq info n _ hu hn h64 hlt)
  rw [M.bind_ok hfill]
  simp [incState, AllOnes]

/-- C43, width 0: every subset has the value of the base. -/
theorem C43_width0 [GoFloat F] [LawfulGoFloat F] (info : PackingInfo F)
    (fuel n base nsubsets : Nat) (t : Bits) (p : Int) (hu : Plain info.unit)
    (hn : info.nbits = n) (h1 : 1 ≤ n) (h64 : n ≤ 64) (hb : base < 2 ^ n) :
    compressedUnpack nsubsets fuel info (.bin ⟨column n base 0 [] ++ t, p⟩)
      = (.ok ⟨.uint base, 0, List.replicate nsubsets (value info n base)⟩,
         .bin ⟨t, p + (n + 6)⟩) := by
  have hn0 : info.nbits ≠ 0 := by omega
  rw [compressedUnpack_plain _ _ _ hu hn0]
  unfold column
  rw [List.append_assoc]
  rw [unpackOthers_read _ info _ n base 0 _ p hn h64 hb (by decide) (by omega)]
  have hf := unpackFn_eq info n base hu hn h64 hb
  simp [hf, M.bind_apply, Int.add_assoc]

example : (compressedUnpack 2 5 (⟨.flag, 0, ⟨1⟩, 8⟩ : PackingInfo ToyFloat)
    (.bin ⟨column 8 255 0 [] ++ [true], 0⟩))
      = (.ok ⟨.uint 255, 0, [.nil, .nil]⟩, .bin ⟨[true], 14⟩) := by decide

/-- C43: a missing base with a nonzero increment width is rejected. -/
theorem C43_missing_base [GoFloat F] (info : PackingInfo F) (fuel n base w nsubsets : Nat)
    (t : Bits) (p : Int) (hu : Plain info.unit) (hn : info.nbits = n) (h64 : n ≤ 64)
    (hb : base < 2 ^ n) (hw0 : w ≠ 0) (hw : w < 64) (hm : AllOnes n base) :
    (compressedUnpack nsubsets fuel info (.bin ⟨natBits n base ++ natBits 6 w ++ t, p⟩)).1.isErr
      = true := by
  have hn0 : info.nbits ≠ 0 := by have := hm.1; omega
  rw [compressedUnpack_plain _ _ _ hu hn0]
  rw [unpackOthers_read _ info _ n base w _ p hn h64 hb hw (by omega)]
  rw [if_neg (by omega), hn, isMissing_raw n base h64 hb]
  simp [hm, Outcome.isErr]

/-! ## C44 -/

/-- C44. The value subset `i` gets from a compressed column is the value the uncompressed
decoder gives for the raw number base + increment; a missing increment stands for a number whose bits
are all ones (which is missing, too, if the element has at least 2 bits). -/
theorem C44_agree [GoFloat F] [LawfulGoFloat F] (info : PackingInfo F)
    (fuel n base w : Nat) (incs : List Nat) (t t' : Bits) (p p' : Int) (hu : Plain info.unit)
    (hn : info.nbits = n) (h1 : 1 ≤ n) (h64 : n ≤ 64) (hb : base < 2 ^ n) (hw2 : 2 ≤ w)
    (hw : w < 64) (hd : ∀ d ∈ incs, d < 2 ^ w ∧ (d = 2 ^ w - 1 ∨ base + d < 2 ^ n))
    (hm : ¬ AllOnes n base) :
    ∃ c r, compressedUnpack incs.length fuel info (.bin ⟨column n base w incs ++ t, p⟩) = (.ok c, r) ∧
      c.values.length = incs.length ∧
      ∀ (i : Nat) (hi : i < incs.length) (hc : i < c.values.length),
        (incs[i] = 2 ^ w - 1 → c.values[i] = .nil) ∧
        (incs[i] ≠ 2 ^ w - 1 ∨ 2 ≤ n → (uncompressUnpack info (.bin ⟨natBits n
          (if incs[i] = 2 ^ w - 1 then 2 ^ n - 1 else base + incs[i]) ++ t', p'⟩)).1
          = .ok c.values[i]) := by
  refine ⟨_, _, C43_column_partial info fuel n base w incs t p hu hn (by omega) h64 hb hw2 hw hd hm,
    by simp, fun i hi hc => ?_⟩
  obtain ⟨hx1, hx2⟩ := hd incs[i] (List.getElem_mem hi)
  simp only [List.getElem_map]
  by_cases hone : incs[i] = 2 ^ w - 1
  · have hlt : 2 ^ n - 1 < 2 ^ n := by have := Nat.two_pow_pos n; omega
    rw [if_pos ((natBits_ones w _ hx1).2 hone)]
    refine ⟨fun _ => rfl, fun h => ?_⟩
    rw [if_pos hone, C42_numeric_partial info n _ t' p' hu hn h64 hlt]
    have : AllOnes n (2 ^ n - 1) := (allOnes_iff n _ hlt).2 ⟨by omega, rfl⟩
    simp [value, this]
  · refine ⟨fun h => absurd h hone, fun _ => ?_⟩
    rw [if_neg hone, if_neg (fun h => hone ((natBits_ones w _ hx1).1 h)),
      C42_numeric_partial info n _ t' p' hu hn h64 (hx2.resolve_left hone)]

/-- C44. The same for increments of one bit, none of which the decoder takes for missing. -/
theorem C44_agree_width1 [GoFloat F] [LawfulGoFloat F] (info : PackingInfo F)
    (fuel n base : Nat) (incs : List Nat) (t t' : Bits) (p p' : Int) (hu : Plain info.unit)
    (hn : info.nbits = n) (h1 : 1 ≤ n) (h64 : n ≤ 64) (hb : base < 2 ^ n)
    (hd : ∀ d ∈ incs, d < 2 ∧ base + d < 2 ^ n) (hm : ¬ AllOnes n base) :
    ∃ c r, compressedUnpack incs.length fuel info (.bin ⟨column n base 1 incs ++ t, p⟩) = (.ok c, r) ∧
      c.values.length = incs.length ∧
      ∀ (i : Nat) (hi : i < incs.length) (hc : i < c.values.length),
        (uncompressUnpack info (.bin ⟨natBits n (base + incs[i]) ++ t', p'⟩)).1 = .ok c.values[i] := by
  refine ⟨_, _, C43_width1 info fuel n base incs t p hu hn h1 h64 hb hd hm, by simp, fun i hi hc => ?_⟩
  obtain ⟨hx1, hx2⟩ := hd incs[i] (List.getElem_mem hi)
  simp only [List.getElem_map]
  rw [C42_numeric_partial info n _ t' p' hu hn h64 hx2]

/-- C44. The same without increments: all subsets have the base value, which may be missing. -/
theorem C44_agree_width0 [GoFloat F] [LawfulGoFloat F] (info : PackingInfo F)
    (fuel n base nsubsets : Nat) (t t' : Bits) (p p' : Int) (hu : Plain info.unit)
    (hn : info.nbits = n) (h1 : 1 ≤ n) (h64 : n ≤ 64) (hb : base < 2 ^ n) :
    ∃ c r, compressedUnpack nsubsets fuel info (.bin ⟨column n base 0 [] ++ t, p⟩) = (.ok c, r) ∧
      c.values.length = nsubsets ∧
      ∀ v ∈ c.values, (uncompressUnpack info (.bin ⟨natBits n base ++ t', p'⟩)).1 = .ok v := by
  refine ⟨_, _, C43_width0 info fuel n base nsubsets t p hu hn h1 h64 hb, by simp, fun v hv => ?_⟩
  rw [List.eq_of_mem_replicate hv, C42_numeric_partial info n _ t' p' hu hn h64 hb]

example : ∃ c r, compressedUnpack (F := ToyFloat) 2 0 ⟨.numeric, 0, ⟨0⟩, 8⟩
    (.bin ⟨column 8 7 3 [1, 7], 0⟩) = (.ok c, r) ∧ c.values = [.float ⟨8⟩, .nil] :=
  ⟨_, _, rfl, by decide⟩

/-! ## C45 -/

theorem unpackString_read [GoFloat F] (info : PackingInfo F) (s : List UInt8) (w : Nat)
    (nsubsets : Int) (hs : 0 ≤ nsubsets) (t : Bits) (p : Int) (hn : info.nbits.tdiv 8 = s.length)
    (hw : w < 64) :
    (unpackString nsubsets info (.bin ⟨s.flatMap byteBits ++ natBits 6 w ++ t, p⟩) :
        Outcome _ × Reader F)
      = (if (w : Int) = 0 then
            pure ⟨.bytes s, w, List.replicate nsubsets.toNat (.bytes s)⟩
          else if s ≠ List.replicate s.length 0 then
            M.fail (.msg "different string must be compressed with empty minimum value")
          else do
            let values ← fillM (Reader.readBytes w) nsubsets.toNat
            pure ⟨.bytes s, w, values.map .bytes⟩ : M (Reader F) (CompressedVal F))
          (.bin ⟨t, p + s.length * 8 + 6⟩) := by
  unfold unpackString
  simp only [hn]
  rw [List.append_assoc, M.bind_ok (Reader.readBytes_bin s _ p),
    M.bind_ok (readNbitsDiff_eq w hw t _),
    M.bind_ok (m := makeCheck nsubsets) (a := ()) (by unfold makeCheck; rw [if_neg (by omega)]; rfl)]
  simp

/-- C45. Width 0: every subset has the base string. -/
theorem C45_same [GoFloat F] (info : PackingInfo F) (fuel : Nat) (s : List UInt8) (nsubsets : Nat)
    (t : Bits) (p : Int) (hu : info.unit = .string) (hn : info.nbits.tdiv 8 = s.length) :
    compressedUnpack nsubsets fuel info (.bin ⟨s.flatMap byteBits ++ natBits 6 0 ++ t, p⟩)
      = (.ok ⟨.bytes s, 0, List.replicate nsubsets (.bytes s)⟩,
         .bin ⟨t, p + (s.length * 8 + 6)⟩) := by
  unfold compressedUnpack
  simp only [hu]
  rw [unpackString_read info s 0 nsubsets (by omega) t p hn (by decide)]
  simp [Int.add_assoc]

/-- C45. With an empty (all zero) base and width `w`, subset `i` has its own string of `w`
bytes. -/
theorem C45_own [GoFloat F] (info : PackingInfo F) (fuel k w : Nat) (strs : List (List UInt8))
    (t : Bits) (p : Int) (hu : info.unit = .string) (hn : info.nbits.tdiv 8 = k) (hw0 : w ≠ 0)
    (hw : w < 64) (hl : ∀ x ∈ strs, x.length = w) :
    compressedUnpack strs.length fuel info
      (.bin ⟨(List.replicate k (0 : UInt8)).flatMap byteBits ++ natBits 6 w
        ++ (strs.flatMap fun x => x.flatMap byteBits) ++ t, p⟩)
      = (.ok ⟨.bytes (List.replicate k 0), w, strs.map .bytes⟩,
         .bin ⟨t, p + (k * 8 + 6 + 8 * w * strs.length)⟩) := by
  unfold compressedUnpack
  simp only [hu]
  rw [List.append_assoc]
  rw [unpackString_read info (List.replicate k 0) w strs.length (by omega) _ p (by simpa using hn) hw]
  rw [if_neg (by omega), if_neg (by simp)]
  simp only [Int.toNat_natCast, List.length_replicate]
  let st (xs : List (List UInt8)) : Reader F :=
    .bin ⟨(xs.flatMap fun x => x.flatMap byteBits) ++ t,
      p + (k * 8 + 6 + 8 * w * strs.length) - 8 * w * xs.length⟩
  have hst : (.bin ⟨(strs.flatMap fun x => x.flatMap byteBits) ++ t, p + k * 8 + 6⟩ : Reader F)
      = st strs := by
    simp only [st]; congr 2; omega
  rw [hst]
  have hfill := fillM_read (Reader.readBytes (w : Int)) st id strs (by
    intro x ys hx
    have hlen := hl x hx
    simp only [st, List.flatMap_cons, List.append_assoc, id]
    rw [← hlen, Reader.readBytes_bin x _ _]
    congr 3
    simp only [List.length_cons, Int.natCast_add, Int.mul_add]; omega)
  rw [M.bind_ok hfill]
  simp [st]

/-- C45. A non-empty base with a nonzero width is rejected. -/
theorem C45_rejected [GoFloat F] (info : PackingInfo F) (fuel w : Nat) (s : List UInt8)
    (nsubsets : Nat) (t : Bits) (p : Int) (hu : info.unit = .string)
    (hn : info.nbits.tdiv 8 = s.length) (hw0 : w ≠ 0) (hw : w < 64) (hs : ∃ b ∈ s, b ≠ 0) :
    (compressedUnpack nsubsets fuel info
      (.bin ⟨s.flatMap byteBits ++ natBits 6 w ++ t, p⟩)).1.isErr = true := by
  unfold compressedUnpack
  simp only [hu]
  rw [unpackString_read info s w nsubsets (by omega) _ p hn hw]
  rw [if_neg (by omega), if_pos]
  · rfl
  · obtain ⟨b, hb, hb0⟩ := hs
    intro he
    rw [he, List.mem_replicate] at hb
    exact hb0 hb.2

/-- Two subsets with own one byte strings; one with a base string. -/
example : (compressedUnpack 2 0 (⟨.string, 0, ⟨0⟩, 16⟩ : PackingInfo ToyFloat)
    (.bin ⟨([0, 0] : List UInt8).flatMap byteBits ++ natBits 6 1 ++ ([65, 66] : List UInt8).flatMap byteBits, 0⟩)).1
      = .ok ⟨.bytes [0, 0], 1, [.bytes [65], .bytes [66]]⟩ := by decide
example : (compressedUnpack 2 0 (⟨.string, 0, ⟨0⟩, 16⟩ : PackingInfo ToyFloat)
    (.bin ⟨([65, 66] : List UInt8).flatMap byteBits ++ natBits 6 1, 0⟩)).1.isErr = true := by decide

/-! ## C46 -/

/-- C46 (full claim): a compressed column of signed values decodes subset `i` to
base + increment. -/
def C46_statement (F : Type) [GoFloat F] : Prop :=
  ∀ (info : PackingInfo F) (fuel n : Nat) (neg : Bool) (mag w : Nat) (incs : List Nat) (t : Bits)
    (p : Int), info.unit = .code → info.nbits = (n + 1 : Nat) → n < 62 → mag < 2 ^ n → 2 ≤ w → w < 62 →
    (∀ d ∈ incs, d < 2 ^ w - 1) →
    ∃ c r, compressedUnpack incs.length fuel info
        (.bin ⟨neg :: natBits n mag ++ natBits 6 w ++ incs.flatMap (natBits w) ++ t, p⟩) = (.ok c, r) ∧
      c.values = incs.map fun (d : Nat) => .int ((if neg then -(mag : Int) else mag) + d)

theorem unpackCode_read [GoFloat F] (info : PackingInfo F) (n : Nat) (neg : Bool) (mag w : Nat)
    (nsubsets : Int) (t : Bits) (p : Int) (hs : 0 ≤ nsubsets) (hn : info.nbits = (n + 1 : Nat))
    (h64 : n < 64) (hm : mag < 2 ^ n) (hw : w < 64) :
    (unpackCode nsubsets info (.bin ⟨neg :: natBits n mag ++ natBits 6 w ++ t, p⟩) :
        Outcome _ × Reader F)
      = (if (w : Int) = 0 then
            pure ⟨.int (if neg then -(mag : Int) else mag), w,
              List.replicate nsubsets.toNat (.int (if neg then -(mag : Int) else mag))⟩
          else do
            let values ← fillM (unpackCodeDiff w) nsubsets.toNat
            pure ⟨.int (if neg then -(mag : Int) else mag), w, values⟩ :
              M (Reader F) (CompressedVal F))
          (.bin ⟨t, p + (n + 1) + 6⟩) := by
  have h := C42_signed (⟨.code, 0, GoFloat.ofNat 0, (n + 1 : Nat)⟩ : PackingInfo F) n neg mag
    (natBits 6 w ++ t) p rfl rfl h64 hm
  unfold uncompressUnpack at h
  simp only at h
  rw [M.bind_eq_ok] at h
  obtain ⟨v, r', hv, hr⟩ := h
  have hr1 : v = (if neg then -(mag : Int) else mag) := by
    have := congrArg Prod.fst hr
    simpa using this
  have hr2 : r' = .bin ⟨natBits 6 w ++ t, p + (n + 1)⟩ := congrArg Prod.snd hr
  subst hr1 hr2
  unfold unpackCode
  rw [hn]
  have e : (neg :: natBits n mag ++ natBits 6 w ++ t) = neg :: natBits n mag ++ (natBits 6 w ++ t) := by
    simp
  rw [e, M.bind_ok hv, M.bind_ok (readNbitsDiff_eq w hw t _),
    M.bind_ok (m := makeCheck nsubsets) (a := ()) (by unfold makeCheck; rw [if_neg (by omega)]; rfl)]

theorem fillM_crash {σ α : Type} (f : M σ α) (k : Nat) (s : σ) (w : String)
    (h : (f s).1 = .panic w) : (fillM f (k + 1) s).1 = .panic w := by
  rcases hf : f s with ⟨o, s'⟩
  rw [hf] at h
  simp only at h
  subst h
  simp only [fillM]
  rw [M.bind_panic hf]

/-- The code violates C46: with increments of any width the first increment that is not all ones
crashes the decoder (type assertion on nil). -/
theorem C46_signed_panics [GoFloat F] (info : PackingInfo F) (fuel n : Nat) (neg : Bool)
    (mag w d : Nat) (incs : List Nat) (t : Bits) (p : Int) (hu : info.unit = .code)
    (hn : info.nbits = (n + 1 : Nat)) (h64 : n < 64) (hm : mag < 2 ^ n) (hw0 : w ≠ 0) (hw : w < 64)
    (hd : d < 2 ^ w) (hd1 : w = 1 ∨ d ≠ 2 ^ w - 1) :
    (compressedUnpack (incs.length + 1 : Nat) fuel info
        (.bin ⟨neg :: natBits n mag ++ natBits 6 w ++ (d :: incs).flatMap (natBits w) ++ t, p⟩)).1.isPanic
      = true := by
  unfold compressedUnpack
  simp only [hu]
  rw [List.append_assoc]
  rw [unpackCode_read info n neg mag w _ _ p (by omega) hn h64 hm hw, if_neg (by omega)]
  have hc : (unpackCodeDiff (F := F) w
      (.bin ⟨(d :: incs).flatMap (natBits w) ++ t, p + (n + 1) + 6⟩)).1
        = .panic "interface conversion: interface {} is nil, not int" := by
    unfold unpackCodeDiff
    simp only [List.flatMap_cons, List.append_assoc]
    rw [M.bind_ok (readUint_natBits w d _ _ (by omega) hd), isMissing_raw w d (by omega) hd,
      decide_eq_false (by rw [allOnes_iff w d hd]; omega)]
    simp
  have := fillM_crash (unpackCodeDiff (F := F) w) incs.length _ _ hc
  simp only [Int.toNat_natCast]
  rcases hf : fillM (unpackCodeDiff (F := F) w) (incs.length + 1)
    (.bin ⟨(d :: incs).flatMap (natBits w) ++ t, p + (n + 1) + 6⟩) with ⟨o, s'⟩
  rw [hf] at this
  simp only at this
  subst this
  rw [M.bind_panic hf]
  rfl

theorem C46_violates : ¬ C46_statement ToyFloat := by
  intro h
  obtain ⟨c, r, hc, _⟩ := h ⟨.code, 0, ⟨0⟩, 8⟩ 0 7 false 5 2 [1] [] 0 rfl rfl (by decide) (by decide)
    (by decide) (by decide) (by decide)
  have h1 := C46_signed_panics (F := ToyFloat) ⟨.code, 0, ⟨0⟩, 8⟩ 0 7 false 5 2 1 [] [] 0 rfl rfl
    (by decide) (by decide) (by decide) (by decide) (by decide) (by decide)
  have h2 := (congrArg (fun x => x.1.isPanic) hc).symm.trans h1
  exact absurd h2 (by simp [Outcome.isPanic])

/-- C46, the part that holds: without increments every subset has the signed base. -/
theorem C46_width0_partial [GoFloat F] (info : PackingInfo F) (fuel n : Nat) (neg : Bool) (mag : Nat)
    (nsubsets : Nat) (t : Bits) (p : Int) (hu : info.unit = .code) (hn : info.nbits = (n + 1 : Nat))
    (h64 : n < 64) (hm : mag < 2 ^ n) :
    compressedUnpack nsubsets fuel info (.bin ⟨neg :: natBits n mag ++ natBits 6 0 ++ t, p⟩)
      = (.ok ⟨.int (if neg then -(mag : Int) else mag), 0,
          List.replicate nsubsets (.int (if neg then -(mag : Int) else mag))⟩,
         .bin ⟨t, p + (n + 1) + 6⟩) := by
  unfold compressedUnpack
  simp only [hu]
  rw [unpackCode_read info n neg mag 0 _ _ p (by omega) hn h64 hm (by decide)]
  simp

example : (compressedUnpack 2 0 (⟨.code, 0, ⟨0⟩, 8⟩ : PackingInfo ToyFloat)
    (.bin ⟨true :: natBits 7 5 ++ natBits 6 0, 0⟩)).1 = .ok ⟨.int (-5), 0, [.int (-5), .int (-5)]⟩ := by
  decide

/-! ## C47 -/

/-- C47 (full claim): a compressed column of `n` opaque bits decodes to one bit string per
subset. -/
def C47_statement (F : Type) [GoFloat F] : Prop :=
  ∀ (info : PackingInfo F) (n base : Nat) (nsubsets : Nat) (t : Bits) (p : Int),
    info.unit = .binary → info.nbits = n → 1 ≤ n → n ≤ 64 → base < 2 ^ n →
    ∃ fuel c r, compressedUnpack nsubsets fuel info (.bin ⟨column n base 0 [] ++ t, p⟩) = (.ok c, r) ∧
      c.values = List.replicate nsubsets (.binary (some ⟨packBits (natBits n base), n⟩))

/-- `NewBinaryFromUint` never returns (C13). -/
theorem newBinaryFromUintLoop_diverges (v : Nat) : ∀ (fuel shift : Nat) (bs : List UInt8),
    newBinaryFromUintLoop v fuel shift bs = .diverge
  | 0, _, _ => rfl
  | fuel + 1, shift, bs => by
    unfold newBinaryFromUintLoop
    rw [if_pos (Nat.zero_le _)]
    exact newBinaryFromUintLoop_diverges v fuel _ _

theorem unpackBinary_diverges (fuel : Nat) (info : PackingInfo F) (x : Nat) :
    unpackBinary fuel info x = .diverge := by
  simp [unpackBinary, newBinaryFromUint, newBinaryFromUintLoop_diverges]

/-- The code violates C47: a compressed column of opaque bits without increments is never
decoded, however long one waits. -/
theorem C47_diverges [GoFloat F] (info : PackingInfo F) (fuel n base nsubsets : Nat) (t : Bits)
    (p : Int) (hu : info.unit = .binary) (hn : info.nbits = n) (h64 : n ≤ 64) (hb : base < 2 ^ n) :
    (compressedUnpack nsubsets fuel info (.bin ⟨column n base 0 [] ++ t, p⟩)).1 = .diverge := by
  unfold compressedUnpack column
  simp only [hu]
  rw [List.append_assoc]
  rw [unpackOthers_read _ info _ n base 0 _ p hn h64 hb (by decide) (by omega)]
  simp [unpackBinary_diverges, M.bind_apply]

/-- ... nor is one with increments, unless the first increment is "missing". -/
theorem C47_diverges_incs [GoFloat F] (info : PackingInfo F) (fuel n base w d : Nat)
    (incs : List Nat) (t : Bits) (p : Int) (hu : info.unit = .binary) (hn : info.nbits = n)
    (h64 : n ≤ 64) (hb : base < 2 ^ n) (hm : ¬ AllOnes n base) (hw0 : w ≠ 0) (hw : w < 64)
    (hd : d < 2 ^ w) (hd1 : ¬ AllOnes w d) :
    (compressedUnpack (incs.length + 1 : Nat) fuel info
      (.bin ⟨column n base w (d :: incs) ++ t, p⟩)).1 = .diverge := by
  unfold compressedUnpack column
  simp only [hu]
  rw [List.append_assoc]
  rw [unpackOthers_read _ info _ n base w _ p hn h64 hb hw (by omega)]
  rw [if_neg (by omega), hn, isMissing_raw n base h64 hb]
  simp only [hm, decide_false, Bool.false_eq_true, if_false, Int.toNat_natCast, List.flatMap_cons,
    List.append_assoc, fillM]
  rw [M.bind_diverge]
  exact M.bind_diverge (s' := .bin ⟨incs.flatMap (natBits w) ++ t, p + n + 6 + w⟩) (by
    unfold unpackDiff
    rw [M.bind_ok (readUint_natBits w d _ _ (by omega) hd), isMissing_raw w d (by omega) hd]
    simp [hd1, unpackBinary_diverges])

theorem C47_violates : ¬ C47_statement ToyFloat := by
  intro h
  obtain ⟨fuel, c, r, hc, _⟩ := h ⟨.binary, 0, ⟨0⟩, 8⟩ 8 5 1 [] 0 rfl rfl (by decide) (by decide) (by decide)
  have := C47_diverges (F := ToyFloat) ⟨.binary, 0, ⟨0⟩, 8⟩ fuel 8 5 1 [] 0 rfl rfl (by decide) (by decide)
  have h2 := (congrArg Prod.fst hc).symm.trans this
  exact absurd h2 (by simp)

/-! ## C48 -/

/-- C48. A code or flag element of width 0 decodes to 0 and leaves the input alone,
uncompressed and compressed. -/
theorem C48_zero_width [GoFloat F] (info : PackingInfo F) (hu : info.unit = .nonnegCode ∨ info.unit = .flag)
    (h0 : info.nbits = 0) (r : Reader F) :
    uncompressUnpack info r = (.ok (.uint 0), r) ∧
    ∀ (nsubsets fuel : Nat), compressedUnpack nsubsets fuel info r
      = (.ok ⟨.uint 0, 0, List.replicate nsubsets (.uint 0)⟩, r) := by
  constructor
  · unfold uncompressUnpack
    rcases hu with hu | hu <;> simp [hu, h0]
  · intro nsubsets fuel
    unfold compressedUnpack
    have hm : (makeCheck (nsubsets : Int) : M (Reader F) Unit) r = (.ok (), r) := by
      unfold makeCheck; rw [if_neg (by omega)]; rfl
    rcases hu with hu | hu <;> simp only [hu, h0, if_true] <;> rw [M.bind_ok hm] <;> simp

example : compressedUnpack 2 0 (⟨.flag, 0, ⟨0⟩, 0⟩ : PackingInfo ToyFloat) (.bin ⟨[true], 3⟩)
    = (.ok ⟨.uint 0, 0, [.uint 0, .uint 0]⟩, .bin ⟨[true], 3⟩) := by decide

end Gobufr
