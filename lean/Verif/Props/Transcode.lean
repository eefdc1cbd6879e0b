import Verif.Proofs.Transcode
import Verif.Props.Only

/-!
# Compressed and uncompressed data sections

C114: what can be said with compressed data can be said with uncompressed data, and conversely.
-/

namespace Gobufr
open Flat EncodeSpec UnpackSpec

variable {F : Type}

theorem exists_all {α β : Type} {P : β → α → Prop} : ∀ {l : List α}, (∀ a ∈ l, ∃ b, P b a) →
    ∃ l' : List (β × α), l'.map Prod.snd = l ∧ ∀ x ∈ l', P x.1 x.2
  | [], _ => ⟨[], rfl, by simp⟩
  | a :: l, h => by
    obtain ⟨b, hb⟩ := h a List.mem_cons_self
    obtain ⟨l', h1, h2⟩ := exists_all (l := l) fun a ha => h a (List.mem_cons_of_mem _ ha)
    refine ⟨(b, a) :: l', by simp [h1], ?_⟩
    intro x hx
    rcases List.mem_cons.1 hx with rfl | hx
    · exact hb
    · exact h2 x hx

theorem valuesAt_written (is : List (Datum F)) (js : List Nat) {m : Nat} {i : Datum F} (h : is[m]? = some i) :
    valuesAt (js.map (written is)) m = js.map fun j => i.vals.getD j .nil := by
  simp [valuesAt, written, h]

/-- The bits are read by `c` as `n` passes over the template and give the grid `xs`; what follows is left alone. -/
def ReadAs [GoFloat F] (c : VisCfg) (tree : Ast) (n : Nat) (bits : List Bool) (xs : Grid F) : Prop :=
  ∀ (b : Bool) (t : Bits) (p : Int) (s : Vis F), s.r = .bin ⟨bits ++ t, p⟩ →
    ∃ p' s', Vis.decodeSubsets c tree n { compressed := b } s = (.ok p', s') ∧
      s'.r = .bin ⟨t, p + bits.length⟩ ∧ p'.subsets.map reported = xs

/-- **C114**, from compressed to uncompressed: if compressed data are decoded to values each of which can be written in its
packing, and the subsets agree in their bitmaps, then there are uncompressed data that are decoded to the same. -/
theorem C114_expand [GoFloat F] [LawfulGoFloat F] {c c' : VisCfg} (hc : CfgOk c) (hb : c.inputType = .binary)
    (hu : c.compressed = true) {k : Nat} (hk : c.nsubsets = k) (h0 : 0 < k) (hc' : CfgOk c') (hb' : c'.inputType = .binary)
    (hu' : c'.compressed = false) (hcc : c'.compatible = c.compatible) {ns : List Ast} (hns : noBaseL ns = true)
    (hs : simpleL true ns = true) (hreg : regularL ns = true) (d : Desc) (b : Bool) (s s' : Vis F) (p' : Payload F) (l : Bits)
    (p : Int) (hr : s.r = .bin ⟨l, p⟩) (h : Vis.decodeSubsets c (.base d ns) 1 { compressed := b } s = (.ok p', s'))
    (hw : ∀ x ∈ p'.subsets.map reported, ∀ d info v, some (d, info, v) ∈ x → ∃ bits, Single info bits [v])
    (hf : SameFactors (p'.subsets.map reported)) :
    ∃ bits, ReadAs c' (.base d ns) k bits (p'.subsets.map reported) := by
  obtain ⟨fuel, hunp⟩ := unpacker_compressed hc hb hu hk
  have ho : Only (F := F) true c AtAny (TakenColumn k fuel) (some k) (visitL c ns) ns :=
    simpleL_only (takes_compressed hunp) (matches_compressed hunp) plainly_column (zeroes_compressed hunp) true true ns id hs
  obtain ⟨s1, root, e1, e2, e3⟩ := decodeSubsets_succ.1 h
  obtain ⟨bits, t, is, y, ρ, f, rfl, q1, q2, st, rep, q3, q4⟩ := root_only hc (k := some k)
    (by rw [if_pos ⟨hu, hb⟩, hk]; simp) (by simp; omega) hns ho d ⟨p, hr⟩ e1
  cases e3
  have hval : (Vis.addSubsets s'.heap root s'.cells { compressed := b }).subsets.map reported
      = (List.range k).map (written is) := by
    rw [addSubsets_subsets, rep.cells, q4]
    exact subsets_reported rep.nodes q3 k _
  rw [hval] at hw hf ⊢
  have hlen : ∀ i ∈ is, i.vals.length = k := q1.every (Q := fun _ vs => vs.length = k) (by
    rintro info b' vs ⟨cv, p, p', t, rfl, e⟩
    exact compressed_length e)
  let slice : Nat → List (Datum F) := fun j => is.map fun i => ⟨i.desc, i.info, [i.vals.getD j .nil]⟩
  have hcode : ∀ is' ∈ (List.range k).map slice, ∃ bs, Coded Single c'.compatible {} ns bs is' y := by
    intro is' hi
    obtain ⟨j, hj, rfl⟩ := List.mem_map.1 hi
    rw [hcc]
    refine q1.recode hreg (Paired.of_getElem (by simp [slice]) ?_)
    intro m i i' hm hm'
    have hm2 : i' = ⟨i.desc, i.info, [i.vals.getD j .nil]⟩ := by
      simp only [slice, List.getElem?_map, hm, Option.map_some, Option.some.injEq] at hm'
      exact hm'.symm
    subst hm2
    have hmem : i ∈ is := List.mem_of_getElem? hm
    refine ⟨rfl, rfl, hw (written is j) (List.mem_map.2 ⟨j, hj, rfl⟩) i.desc i.info _ (List.mem_map.2 ⟨i, hmem, rfl⟩), ?_⟩
    intro d' hd hsh
    have hl := hlen i hmem
    match hv : i.vals with
    | [] => rw [hv] at hl; simp at hl; omega
    | v :: vs =>
      refine ⟨v, vs, _, [], rfl, rfl, ?_, by simp⟩
      have := hf (written is 0) (List.mem_map.2 ⟨0, List.mem_range.2 h0, rfl⟩) m d' i.info v
        (by simp [written, hm, hd, hv]) hsh (i.vals.getD j .nil) (by
          rw [valuesAt_written is _ hm]
          exact List.mem_map.2 ⟨j, hj, rfl⟩)
      rw [← hv]
      exact this.1.symm
  obtain ⟨data, h1, h2⟩ := exists_all hcode
  refine ⟨data.flatMap Prod.fst, fun b t p s hr => ?_⟩
  obtain ⟨p2, s2, g1, g2, g3⟩ := C88_uncompressed hc' hb' hu' hns d b data (fun x hx => ⟨y, h2 x hx⟩) t p s hr
  have hl : data.length = k := by
    have := congrArg List.length h1
    simpa using this
  rw [hl] at g1
  refine ⟨p2, s2, g1, g2, g3.trans ?_⟩
  have := congrArg (List.map fun is => written is 0) h1
  simp only [List.map_map, Function.comp_def] at this
  rw [this]
  apply List.map_congr_left
  intro j _
  simp [slice, written, Function.comp_def]

theorem EncodeSpec.Shared.cast [GoFloat F] {k : Nat} {info : PackingInfo F} {b : List Bool} {vs vs' : List (Val F)} (h : Shared k info b vs)
    (e : vs = vs') : Shared k info b vs' := e ▸ h

theorem Shared.proper [GoFloat F] {k : Nat} {info : PackingInfo F} {b : List Bool} {vs : List (Val F)} (h : Shared k info b vs)
    (v : Val F) : EncodeSpec.Proper info v := by
  have hplain : ∀ {n : Nat}, Plain info.unit → info.nbits = n → n ≤ 64 → EncodeSpec.Proper info v := by
    intro n hu hn h64
    unfold EncodeSpec.Proper
    rcases hu with e | e | e <;> rw [e] <;> exact ⟨by omega, by omega⟩
  cases h with
  | none hu hn =>
    unfold EncodeSpec.Proper
    rcases hu with e | e <;> rw [e] <;> exact ⟨by omega, by omega⟩
  | same hu hn _ h64 _ => exact hplain hu hn h64
  | increments hu hn _ h64 => exact hplain hu hn h64
  | @sameText s hu hn => simp only [EncodeSpec.Proper, hu]; exact ⟨_, hn⟩
  | texts hu hn => simp only [EncodeSpec.Proper, hu]; exact ⟨_, hn⟩
  | sameSigned hu hn h64 => simp only [EncodeSpec.Proper, hu]; omega

/-- **C114**, from uncompressed to compressed: if uncompressed subsets are decoded, have the same elements and replication
factors, and there is a column for the values of every element, then there are compressed data that are decoded to the same. -/
theorem C114_compress [GoFloat F] [LawfulGoFloat F] {c c' : VisCfg} (hc : CfgOk c) (hb : c.inputType = .binary)
    (hu : c.compressed = false) {k : Nat} (h0 : 0 < k) (hc' : CfgOk c') (hb' : c'.inputType = .binary)
    (hu' : c'.compressed = true) (hk : c'.nsubsets = k) (hcc : c'.compatible = c.compatible) {ns : List Ast}
    (hns : noBaseL ns = true) (hs : simpleL true ns = true) (hreg : regularL ns = true) (d : Desc) (b : Bool) (s s' : Vis F)
    (p' : Payload F) (l : Bits) (p : Int) (hr : s.r = .bin ⟨l, p⟩)
    (h : Vis.decodeSubsets c (.base d ns) k { compressed := b } s = (.ok p', s'))
    (hsh : SameShape (p'.subsets.map reported)) (hf : SameFactors (p'.subsets.map reported))
    (hw : ∀ x ∈ p'.subsets.map reported, ∀ (m : Nat) (d : NodeDesc) (info : PackingInfo F) (v : Val F),
      x[m]? = some (some (d, info, v)) → ∃ bits, Shared k info bits (valuesAt (p'.subsets.map reported) m)) :
    ∃ bits, ReadAs c' (.base d ns) 1 bits (p'.subsets.map reported) := by
  obtain ⟨data, t, hl, hd, -, -, hval⟩ := C99_partial hc hb hu hns hs d k b s s' p' l p hr h (by
    intro sub hsub d info v hv
    obtain ⟨m, hm⟩ := List.mem_iff_getElem?.1 hv
    obtain ⟨bits, q⟩ := hw _ (List.mem_map.2 ⟨sub, hsub, rfl⟩) m d info v hm
    exact Shared.proper q v)
  generalize p'.subsets.map reported = xs at *
  match data, hl with
  | [], hl => simp at hl; omega
  | (b0, is) :: data, hl =>
    obtain ⟨y, h1⟩ := hd _ List.mem_cons_self
    have hone : ∀ i ∈ is, ∃ v, i.vals = [v] := h1.every (Q := fun _ vs => ∃ v, vs = [v]) (by
      intro info b vs q
      cases q <;> exact ⟨_, rfl⟩)
    have hx0 : written is 0 ∈ xs := by rw [hval]; exact List.mem_cons_self
    let is' : List (Datum F) := is.mapIdx fun m i => ⟨i.desc, i.info, valuesAt xs m⟩
    obtain ⟨bits, h2⟩ := h1.recode (W' := Shared k) hreg (is' := is') (Paired.of_getElem (by simp [is']) (by
      intro m i i' hm hm'
      have hm2 : i' = ⟨i.desc, i.info, valuesAt xs m⟩ := by
        simp only [is', List.getElem?_mapIdx, hm, Option.map_some, Option.some.injEq] at hm'
        exact hm'.symm
      subst hm2
      have hrow : (written is 0)[m]? = some (some (i.desc, i.info, i.vals.getD 0 .nil)) := by simp [written, hm]
      refine ⟨rfl, rfl, hw _ hx0 m _ _ _ hrow, ?_⟩
      intro d' hd' hsh'
      obtain ⟨v, hv⟩ := hone i (List.mem_of_getElem? hm)
      have hat : valuesAt xs m = v :: valuesAt (data.map fun x => written x.2 0) m := by
        rw [hval]
        simp [valuesAt, written, hm, hv]
      refine ⟨v, [], v, _, hv, hat, rfl, ?_⟩
      intro w hw'
      refine (hf _ hx0 m d' i.info v (by rw [hrow, hd', hv]; rfl) hsh' w ?_).2
      rw [hat]
      exact List.mem_cons_of_mem _ hw'))
    refine ⟨bits, fun b t p s hr => ?_⟩
    obtain ⟨p2, s2, g1, g2, g3⟩ := C88_compressed hc' hb' hu' hk h0 hns d b bits is' (by rw [hcc]; exact h2) t p s hr
    refine ⟨p2, s2, g1, g2, g3.trans ?_⟩
    have hxl : xs.length = k := by rw [hval]; simpa using hl
    apply List.ext_getElem?
    intro j
    rcases Nat.lt_or_ge j k with hj | hj
    · obtain ⟨x, hx⟩ : ∃ x, xs[j]? = some x := ⟨_, List.getElem?_eq_getElem (by omega)⟩
      rw [List.getElem?_map, List.getElem?_range hj, hx]
      simp only [Option.map_some, Option.some.injEq]
      have hxm : x ∈ xs := List.mem_of_getElem? hx
      have hsame := hsh _ hx0 _ hxm
      apply List.ext_getElem?
      intro m
      have hm := congrArg (fun l => l[m]?) hsame
      simp only [List.getElem?_map, written, Option.map_map, Function.comp_def] at hm
      simp only [written, List.getElem?_map, is', List.getElem?_mapIdx]
      cases hi : is[m]? with
      | none =>
        rw [hi] at hm
        cases hxv : x[m]? with
        | none => rfl
        | some a => rw [hxv] at hm; cases hm
      | some i =>
        rw [hi] at hm
        cases hxv : x[m]? with
        | none => rw [hxv] at hm; cases hm
        | some a =>
          rw [hxv] at hm
          match a with
          | none => simp at hm
          | some (d1, i1, v1) =>
            simp only [Option.map_some, Option.some.injEq, Prod.mk.injEq] at hm
            obtain ⟨rfl, rfl⟩ := hm
            simp [valuesAt, hx, hxv, List.getElem?_map]
    · rw [List.getElem?_eq_none (by simpa using hj), List.getElem?_eq_none (by omega)]

/-- C114. There are columns for all numbers of up to 62 bits, missing or not, and for all texts of up to 63 characters. -/
theorem C114_columns [GoFloat F] {info : PackingInfo F} {n k : Nat} :
    (∀ raws : List Nat, Plain info.unit → info.nbits = n → 1 ≤ n → n ≤ 62 → raws.length = k → (∀ r ∈ raws, r < 2 ^ n) →
      ∃ bits, Shared k info bits (raws.map (value info n))) ∧
    ∀ strs : List (List UInt8), info.unit = .string → info.nbits = 8 * n → n ≤ 63 → strs.length = k →
      (∀ x ∈ strs, x.length = n) → ∃ bits, Shared k info bits (strs.map .bytes) := by
  constructor
  · intro raws hu hn h1 h62 hl hr
    have hlt : ∀ r ∈ raws, r < 2 ^ (n + 1) ∧ r ≠ 2 ^ (n + 1) - 1 := by
      intro r h
      have := hr r h
      rw [Nat.pow_succ]
      omega
    have h0 : ¬ AllOnes n 0 := by
      intro h
      have := (natBits_ones n 0 (Nat.two_pow_pos n)).1 h.2
      have h2 : 2 ^ 1 ≤ 2 ^ n := Nat.pow_le_pow_right (by decide) h1
      omega
    refine ⟨_, (Shared.increments (n := n) (base := 0) (w := n + 1) (incs := raws) hu hn h1 (by omega) (Nat.two_pow_pos n)
      (by omega) (by omega) ?_ h0 hl).cast ?_⟩
    · intro r h
      exact ⟨(hlt r h).1, .inr (by simpa using hr r h)⟩
    · apply List.map_congr_left
      intro r h
      rw [if_neg fun e => (hlt r h).2 ((natBits_ones _ _ (hlt r h).1).1 e), Nat.zero_add]
  · intro strs hu hn h63 hl hs
    by_cases h0 : n = 0
    · subst h0
      refine ⟨_, (Shared.sameText (s := []) hu hn).cast ?_⟩
      subst hl
      symm
      apply List.eq_replicate_iff.2 ⟨by simp, ?_⟩
      intro v hv
      obtain ⟨x, hx, rfl⟩ := List.mem_map.1 hv
      rw [List.eq_nil_of_length_eq_zero (hs x hx)]
    · exact ⟨_, .texts hu hn h0 (by omega) hs hl⟩

/-! ## Something in both forms -/

namespace TranscodeExample
open PayloadExample OnlyExample

/-- A number, a delayed replication of a code, and quality information for the last two values. -/
def template : List Ast :=
  [.element e8 false, .delayedRepl (op 101000) [.element (elem 31001 .nonnegCode 8) false, .element e4 false],
   .assessment (op 222000) (.bitmap (some (op 236000)) [.fixedRepl (op 101002) [.element (elem 31031 .flag 1) false]])
     [] [.element (elem 33007 .nonnegCode 7) false]]

/-- Two uncompressed subsets: 5, two codes 1 and 15 (missing), quality 100 for the first; 6, 7, 9, quality 80. -/
def input : Vis ToyFloat := { start [] with r := .bin ⟨Spec.natBits 8 5 ++ Spec.natBits 8 2 ++ Spec.natBits 4 1 ++
  Spec.natBits 4 15 ++ [false, true] ++ Spec.natBits 7 100 ++ (Spec.natBits 8 6 ++ Spec.natBits 8 2 ++ Spec.natBits 4 7 ++
  Spec.natBits 4 9 ++ [false, true] ++ Spec.natBits 7 80), 0⟩ }

/-- The same compressed. -/
def inputC : Vis ToyFloat := { start [] with r := .bin ⟨UnpackSpec.column 8 5 2 [0, 1] ++ UnpackSpec.column 8 2 0 [] ++
  UnpackSpec.column 4 1 3 [0, 6] ++ UnpackSpec.column 4 9 2 [3, 0] ++ UnpackSpec.column 1 0 0 [] ++ UnpackSpec.column 1 1 0 [] ++
  UnpackSpec.column 7 80 5 [20, 0], 0⟩ }

def row (a : Nat) (b c : Val ToyFloat) (q : Nat) : List (Option (NodeDesc × PackingInfo ToyFloat × Val ToyFloat)) := [
  some (⟨some e8, false⟩, ⟨.numeric, 0, ⟨0⟩, 8⟩, .float ⟨a⟩),
  some (⟨some (elem 31001 .nonnegCode 8), false⟩, ⟨.nonnegCode, 0, ⟨0⟩, 8⟩, .uint 2),
  some (⟨some e4, false⟩, ⟨.nonnegCode, 0, ⟨0⟩, 4⟩, b),
  some (⟨some e4, false⟩, ⟨.nonnegCode, 0, ⟨0⟩, 4⟩, c),
  some (⟨some (elem 31031 .flag 1), false⟩, ⟨.flag, 0, ⟨0⟩, 1⟩, .uint 0),
  some (⟨some (elem 31031 .flag 1), false⟩, ⟨.flag, 0, ⟨0⟩, 1⟩, .uint 1),
  some (⟨some (elem 33007 .nonnegCode 7), false⟩, ⟨.nonnegCode, 0, ⟨0⟩, 7⟩, .uint q)]

def grid : Grid ToyFloat := [row 5 (.uint 1) .nil 100, row 6 (.uint 7) (.uint 9) 80]

theorem input_values : (match Vis.decodeSubsets cfg (.base (plain 0) template) 2 { compressed := false } input with
    | (.ok p, _) => decide (p.subsets.map reported = grid)
    | _ => false) = true := by decide +kernel

theorem inputC_values : (match Vis.decodeSubsets cfgC (.base (plain 0) template) 1 { compressed := true } inputC with
    | (.ok p, _) => decide (p.subsets.map reported = grid)
    | _ => false) = true := by decide +kernel

theorem shape : SameShape grid := by
  intro x hx x' hx'
  simp only [grid, List.mem_cons, List.not_mem_nil, or_false] at hx hx'
  rcases hx with rfl | rfl <;> rcases hx' with rfl | rfl <;> rfl

theorem factors : SameFactors grid := by
  intro x hx i d info v h hs w hw
  simp only [grid, List.mem_cons, List.not_mem_nil, or_false] at hx
  match i with
  | 0 | 2 | 3 | 6 => rcases hx with rfl | rfl <;> cases h <;> cases hs
  | 1 | 4 | 5 =>
    rcases hx with rfl | rfl <;> cases h <;>
      (simp only [valuesAt, grid, row, List.map_cons, List.map_nil, List.mem_cons, List.not_mem_nil, or_false] at hw
       rcases hw with rfl | rfl <;> exact ⟨rfl, rfl⟩)
  | i + 7 => rcases hx with rfl | rfl <;> simp [row] at h

theorem singles : ∀ x ∈ grid, ∀ d info v, some (d, info, v) ∈ x → ∃ bits, Single info bits [v] := by
  intro x hx d info v hv
  have hn : ∀ raw : Nat, Plain info.unit → ∀ n : Nat, info.nbits = n → n ≤ 64 → raw < 2 ^ n → value info n raw = v →
      ∃ bits, Single info bits [v] := fun raw h1 n h2 h3 h4 h5 => ⟨_, h5 ▸ Single.number (n := n) (raw := raw) h1 h2 h3 h4⟩
  simp only [grid, List.mem_cons, List.not_mem_nil, or_false] at hx
  rcases hx with rfl | rfl <;> simp only [row, List.mem_cons, List.not_mem_nil, or_false, Option.some.injEq, Prod.mk.injEq] at hv <;>
    rcases hv with ⟨rfl, rfl, rfl⟩ | ⟨rfl, rfl, rfl⟩ | ⟨rfl, rfl, rfl⟩ | ⟨rfl, rfl, rfl⟩ | ⟨rfl, rfl, rfl⟩ | ⟨rfl, rfl, rfl⟩ |
      ⟨rfl, rfl, rfl⟩
  · exact hn 5 (.inl rfl) 8 rfl (by decide) (by decide) (by decide)
  · exact hn 2 (.inr (.inl rfl)) 8 rfl (by decide) (by decide) (by decide)
  · exact hn 1 (.inr (.inl rfl)) 4 rfl (by decide) (by decide) (by decide)
  · exact hn 15 (.inr (.inl rfl)) 4 rfl (by decide) (by decide) (by decide)
  · exact hn 0 (.inr (.inr rfl)) 1 rfl (by decide) (by decide) (by decide)
  · exact hn 1 (.inr (.inr rfl)) 1 rfl (by decide) (by decide) (by decide)
  · exact hn 100 (.inr (.inl rfl)) 7 rfl (by decide) (by decide) (by decide)
  · exact hn 6 (.inl rfl) 8 rfl (by decide) (by decide) (by decide)
  · exact hn 2 (.inr (.inl rfl)) 8 rfl (by decide) (by decide) (by decide)
  · exact hn 7 (.inr (.inl rfl)) 4 rfl (by decide) (by decide) (by decide)
  · exact hn 9 (.inr (.inl rfl)) 4 rfl (by decide) (by decide) (by decide)
  · exact hn 0 (.inr (.inr rfl)) 1 rfl (by decide) (by decide) (by decide)
  · exact hn 1 (.inr (.inr rfl)) 1 rfl (by decide) (by decide) (by decide)
  · exact hn 80 (.inr (.inl rfl)) 7 rfl (by decide) (by decide) (by decide)

theorem columns : ∀ x ∈ grid, ∀ (m : Nat) (d : NodeDesc) (info : PackingInfo ToyFloat) (v : Val ToyFloat),
    x[m]? = some (some (d, info, v)) → ∃ bits, Shared 2 info bits (valuesAt grid m) := by
  intro x hx m d info v h
  have hn : ∀ raws : List Nat, Plain info.unit → ∀ n : Nat, info.nbits = n → 1 ≤ n → n ≤ 62 → raws.length = 2 →
      (∀ r ∈ raws, r < 2 ^ n) → raws.map (value info n) = valuesAt grid m → ∃ bits, Shared 2 info bits (valuesAt grid m) := by
    intro raws h1 n h2 h3 h4 h5 h6 h7
    obtain ⟨b, hb⟩ := C114_columns.1 raws h1 h2 h3 h4 h5 h6
    exact ⟨b, h7 ▸ hb⟩
  simp only [grid, List.mem_cons, List.not_mem_nil, or_false] at hx
  match m with
  | 0 => rcases hx with rfl | rfl <;> cases h <;> exact hn [5, 6] (.inl rfl) 8 rfl (by decide) (by decide) rfl (by decide) (by decide)
  | 1 => rcases hx with rfl | rfl <;> cases h <;> exact hn [2, 2] (.inr (.inl rfl)) 8 rfl (by decide) (by decide) rfl (by decide) (by decide)
  | 2 => rcases hx with rfl | rfl <;> cases h <;> exact hn [1, 7] (.inr (.inl rfl)) 4 rfl (by decide) (by decide) rfl (by decide) (by decide)
  | 3 => rcases hx with rfl | rfl <;> cases h <;> exact hn [15, 9] (.inr (.inl rfl)) 4 rfl (by decide) (by decide) rfl (by decide) (by decide)
  | 4 => rcases hx with rfl | rfl <;> cases h <;> exact hn [0, 0] (.inr (.inr rfl)) 1 rfl (by decide) (by decide) rfl (by decide) (by decide)
  | 5 => rcases hx with rfl | rfl <;> cases h <;> exact hn [1, 1] (.inr (.inr rfl)) 1 rfl (by decide) (by decide) rfl (by decide) (by decide)
  | 6 => rcases hx with rfl | rfl <;> cases h <;> exact hn [100, 80] (.inr (.inl rfl)) 7 rfl (by decide) (by decide) rfl (by decide) (by decide)
  | m + 7 => rcases hx with rfl | rfl <;> simp [row] at h

end TranscodeExample

open TranscodeExample PayloadExample in
/-- The hypotheses of `C114_expand` are met. -/
example : ∃ bits, ReadAs cfg (.base (plain 0) template) 2 bits grid := by
  have hv := inputC_values
  split at hv
  case h_2 => cases hv
  case h_1 p s' hs =>
    have hv := of_decide_eq_true hv
    obtain ⟨bits, h⟩ := C114_expand cfgC_ok rfl rfl (k := 2) rfl (by decide) cfg_ok rfl rfl rfl (ns := template) (by decide)
      (by decide) (by decide) (plain 0) true inputC s' p _ 0 rfl hs (by rw [hv]; exact singles) (by rw [hv]; exact factors)
    rw [hv] at h
    exact ⟨bits, h⟩

open TranscodeExample PayloadExample in
/-- Those of `C114_compress` too. -/
example : ∃ bits, ReadAs cfgC (.base (plain 0) template) 1 bits grid := by
  have hv := input_values
  split at hv
  case h_2 => cases hv
  case h_1 p s' hs =>
    have hv := of_decide_eq_true hv
    obtain ⟨bits, h⟩ := C114_compress cfg_ok rfl rfl (k := 2) (by decide) cfgC_ok rfl rfl rfl rfl (ns := template) (by decide)
      (by decide) (by decide) (plain 0) false input s' p _ 0 rfl hs (by rw [hv]; exact shape) (by rw [hv]; exact factors)
      (by rw [hv]; exact columns)
    rw [hv] at h
    exact ⟨bits, h⟩

end Gobufr
