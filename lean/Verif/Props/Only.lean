import Verif.Proofs.OnlyCompressed
import Verif.Props.Encode

/-!
# What the decoder accepts

C99: data that are decoded are data written by the rules of C88.
-/

namespace Gobufr
open Flat EncodeSpec

variable {F : Type} {c : VisCfg}

/-- **C99**, as it should be: if the data of uncompressed subsets are decoded, the bits used up are those of the
reported values, written subset by subset by the rules of C88. -/
def C99_statement (F : Type) [GoFloat F] : Prop :=
  ∀ (c : VisCfg) (ns : List Ast) (d : Desc) (n : Nat) (b : Bool) (s s' : Vis F) (p' : Payload F) (l : Bits) (p : Int),
    CfgOk c → c.inputType = .binary → c.compressed = false → noBaseL ns = true → s.r = .bin ⟨l, p⟩ →
    Vis.decodeSubsets c (.base d ns) n { compressed := b } s = (.ok p', s') →
    ∃ (data : List (List Bool × List (Datum F))) (t : Bits), data.length = n ∧
      (∀ x ∈ data, ∃ y, Coded Single c.compatible {} ns x.1 x.2 y) ∧ l = data.flatMap Prod.fst ++ t ∧
      s'.r = .bin ⟨t, p + (data.flatMap Prod.fst).length⟩ ∧ p'.subsets.map reported = data.map fun x => written x.2 0

/-- **C99**, the part that holds: values that are packed properly, and templates whose replication factors and bitmaps are
never without a value.  (Missing: bitmaps within which there are assessments, recalled or given up bitmaps; factors and
bitmaps that may be without a value.) -/
theorem C99_partial [GoFloat F] [LawfulGoFloat F] (hc : CfgOk c) (hb : c.inputType = .binary) (hu : c.compressed = false)
    {ns : List Ast} (hns : noBaseL ns = true) (hs : simpleL true ns = true) (d : Desc) (n : Nat) (b : Bool) (s s' : Vis F)
    (p' : Payload F) (l : Bits) (p : Int) (hr : s.r = .bin ⟨l, p⟩)
    (h : Vis.decodeSubsets c (.base d ns) n { compressed := b } s = (.ok p', s'))
    (hp : ∀ sub ∈ p'.subsets, ∀ d info v, some (d, info, v) ∈ reported sub → EncodeSpec.Proper info v) :
    ∃ (data : List (List Bool × List (Datum F))) (t : Bits), data.length = n ∧
      (∀ x ∈ data, ∃ y, Coded Single c.compatible {} ns x.1 x.2 y) ∧ l = data.flatMap Prod.fst ++ t ∧
      s'.r = .bin ⟨t, p + (data.flatMap Prod.fst).length⟩ ∧ p'.subsets.map reported = data.map fun x => written x.2 0 := by
  have hcomp : ¬ (c.compressed = true ∧ c.inputType = .binary) := by simp [hu]
  have hunp : c.unpacker = .uncompress := by
    obtain ⟨fuel, hf⟩ := hc
    rw [hu, hb] at hf
    simp only [newDeserializeVisitor, newUnpacker, Bool.false_eq_true, if_false, Outcome.bind_ok] at hf
    injection hf with hf
    rw [← hf]
  have ho : Only (F := F) true c AtAny Taken none (visitL c ns) ns :=
    simpleL_only (takes_uncompress hunp) (matches_uncompress hunp) plainly_taken (zeroes_uncompress hunp) true true ns id hs
  have key : ∀ (n : Nat) (p0 : Payload F) (s : Vis F) (l : Bits), AtAny l s.r →
      Vis.decodeSubsets c (.base d ns) n p0 s = (.ok p', s') →
      ∃ (data : List (List Bool × List (Datum F))) (t : Bits), data.length = n ∧
        (∀ x ∈ data, ∃ y, Coded Taken c.compatible {} ns x.1 x.2 y) ∧ l = data.flatMap Prod.fst ++ t ∧
        p'.subsets.map reported = p0.subsets.map reported ++ data.map fun x => written x.2 0 := by
    intro n
    induction n with
    | zero =>
      intro p0 s l _ h
      cases h
      exact ⟨[], l, rfl, by simp, by simp, by simp⟩
    | succ n ih =>
      intro p0 s l hr h
      obtain ⟨s1, root, e1, e2, e3⟩ := decodeSubsets_succ.1 h
      obtain ⟨b1, t1, is, y, ρ, f, rfl, q1, q2, st, rep, q3, q4⟩ := root_only hc (by rw [if_neg hcomp]) (by simp) hns ho d hr e1
      obtain ⟨data, t, k1, k2, rfl, k4⟩ := ih _ s1 t1 q2 e3
      refine ⟨(b1, is) :: data, t, by simp [k1], ?_, by simp, ?_⟩
      · intro x hx
        rcases List.mem_cons.1 hx with rfl | hx
        · exact ⟨y, q1⟩
        · exact k2 x hx
      · rw [k4, addSubsets_subsets, rep.cells, q4]
        simp only [subsetsOf, List.zipIdx_cons, List.zipIdx_nil, List.map_cons, List.map_nil, List.map_append,
          reported_cells rep.nodes, q3]
        simp
  obtain ⟨data, t, k1, k2, k3, k4⟩ := key n { compressed := b } s l ⟨p, hr⟩ h
  have k4 : p'.subsets.map reported = data.map fun x => written x.2 0 := by simpa using k4
  have k5 : ∀ x ∈ data, ∃ y, Coded Single c.compatible {} ns x.1 x.2 y := by
    intro x hx
    obtain ⟨y, hy⟩ := k2 x hx
    refine ⟨y, hy.mono fun i hi bs hw => taken_single hw fun v hv => ?_⟩
    obtain ⟨v', q, q', t', e, -⟩ := id hw
    have hm : written x.2 0 ∈ p'.subsets.map reported := by
      rw [k4]
      exact List.mem_map.2 ⟨x, hx, rfl⟩
    obtain ⟨sub, h1, h2⟩ := List.mem_map.1 hm
    refine hp sub h1 i.desc i.info v ?_
    rw [h2]
    refine List.mem_map.2 ⟨i, hi, ?_⟩
    rw [e] at hv ⊢
    rw [List.mem_singleton.1 hv]
    rfl
  subst k3
  refine ⟨data, t, k1, k5, rfl, ?_, k4⟩
  obtain ⟨p2, s2, h1, h2, -⟩ := C88_uncompressed hc hb hu hns d b data k5 t p s hr
  rw [k1, h] at h1
  cases h1
  exact h2

/-- What is written by the rules is packed properly. -/
theorem Single.proper [GoFloat F] {info : PackingInfo F} {b : List Bool} {vs : List (Val F)} (h : Single info b vs) :
    ∃ v, vs = [v] ∧ EncodeSpec.Proper info v := by
  cases h with
  | @number n raw hu hn h64 _ =>
    refine ⟨_, rfl, ?_⟩
    unfold EncodeSpec.Proper
    rcases hu with hu | hu | hu <;> rw [hu] <;> exact ⟨by omega, by omega⟩
  | @text s hu hn =>
    refine ⟨_, rfl, ?_⟩
    unfold EncodeSpec.Proper
    rw [hu]
    exact ⟨s.length, hn⟩
  | @signed n mag neg hu hn h64 _ =>
    refine ⟨_, rfl, ?_⟩
    unfold EncodeSpec.Proper
    rw [hu]
    exact ⟨by omega, by omega⟩
  | @skipped l' bs hu hn _ =>
    refine ⟨_, rfl, ?_⟩
    unfold EncodeSpec.Proper
    rw [hu]
    exact ⟨by omega, by simp⟩

/-- All data of what is written are. -/
theorem Coded.proper [GoFloat F] {compatible : Bool} {x y : Ctx} {ts : List Ast} {bits : List Bool}
    {is : List (Datum F)} (h : Coded Single compatible x ts bits is y) :
    ∀ i ∈ is, ∃ v, i.vals = [v] ∧ EncodeSpec.Proper i.info v :=
  h.every (Q := fun info vs => ∃ v, vs = [v] ∧ EncodeSpec.Proper info v) fun _ _ _ hw => Single.proper hw

/-- C99 and C88 together: which data are decoded to properly packed values, exactly. -/
theorem C99_exactly [GoFloat F] [LawfulGoFloat F] (hc : CfgOk c) (hb : c.inputType = .binary) (hu : c.compressed = false)
    {ns : List Ast} (hns : noBaseL ns = true) (hs : simpleL true ns = true) (d : Desc) (n : Nat) (b : Bool) (s : Vis F)
    (l : Bits) (p : Int) (hr : s.r = .bin ⟨l, p⟩) (xs : List (List (Option (NodeDesc × PackingInfo F × Val F)))) :
    (∃ p' s', Vis.decodeSubsets c (.base d ns) n { compressed := b } s = (.ok p', s') ∧ p'.subsets.map reported = xs ∧
      ∀ x ∈ xs, ∀ d info v, some (d, info, v) ∈ x → EncodeSpec.Proper info v) ↔
    ∃ (data : List (List Bool × List (Datum F))) (t : Bits), data.length = n ∧ l = data.flatMap Prod.fst ++ t ∧
      (∀ x ∈ data, ∃ y, Coded Single c.compatible {} ns x.1 x.2 y) ∧ xs = data.map fun x => written x.2 0 := by
  constructor
  · rintro ⟨p', s', h, rfl, hp⟩
    obtain ⟨data, t, h1, h2, h3, -, h4⟩ := C99_partial hc hb hu hns hs d n b s s' p' l p hr h
      fun sub hsub => hp _ (List.mem_map.2 ⟨sub, hsub, rfl⟩)
    exact ⟨data, t, h1, h3, h2, h4⟩
  · rintro ⟨data, t, rfl, rfl, h, rfl⟩
    obtain ⟨p', s', h1, -, h2⟩ := C88_uncompressed hc hb hu hns d b data h t p s hr
    refine ⟨p', s', h1, h2, fun x hx d info v hv => ?_⟩
    obtain ⟨z, hz, rfl⟩ := List.mem_map.1 hx
    obtain ⟨y, hy⟩ := h z hz
    obtain ⟨i, hi, e⟩ := List.mem_map.1 hv
    obtain ⟨w, hw, hq⟩ := Coded.proper hy i hi
    rw [hw] at e
    cases e
    exact hq

namespace OnlyExample
open PayloadExample UnpackSpec

/-- Eight bits that are skipped, and only three there. -/
def short : Outcome (Payload ToyFloat) × Vis ToyFloat :=
  Vis.decodeSubsets cfg (.base (plain 0) [.skipLocal (plain 206008) [.element e8 false]]) 1 { compressed := false }
    { start [] with r := .bin ⟨[true, false, true], 0⟩ }

theorem short_values : (match short with
    | (.ok p, _) => decide (p.subsets.map reported = [[some (⟨some e8, false⟩, ⟨.binary, 0, ⟨0⟩, 8⟩, .binary none)]])
    | _ => false) = true := by
  decide +kernel

/-- An operator. -/
def op (id : ID) : Desc := ⟨id, .c (str "operator")⟩

/-- A change of width, a number, a delayed replication of a code, two characters, and substituted values for the last
two of them. -/
def template : List Ast :=
  [.nbitsOffset (op 201130), .element e8 false,
   .delayedRepl (op 101000) [.element (elem 31001 .nonnegCode 8) false, .element e4 false], .insertString (op 205002),
   .assessment (op 223000) (.bitmap (some (op 236000)) [.fixedRepl (op 101003) [.element (elem 31031 .flag 1) false]])
     [.element (elem 1031 .nonnegCode 2) false] [.marker (op 223255)]]

/-- The number 5, the codes 1 and 15, `AB`, the bitmap 0, 0, 1, the code 2, and 7 in place of 1. -/
def bits : Bits := Spec.natBits 10 5 ++ Spec.natBits 8 2 ++ Spec.natBits 4 1 ++ Spec.natBits 4 15 ++ Spec.natBits 16 0x4142 ++
  [false, false, true] ++ Spec.natBits 2 2 ++ Spec.natBits 4 7

def input : Vis ToyFloat := { start [] with r := .bin ⟨bits ++ [true], 0⟩ }

/-- What is reported: the two codes are selected by the bitmap, but there is a value for the first only. -/
theorem input_values : (match Vis.decodeSubsets cfg (.base (plain 0) template) 1 { compressed := false } input with
    | (.ok p, _) => decide (p.subsets.map reported = [[
        some (⟨some e8, false⟩, ⟨.numeric, 0, ⟨0⟩, 10⟩, .float ⟨5⟩),
        some (⟨some (elem 31001 .nonnegCode 8), false⟩, ⟨.nonnegCode, 0, ⟨0⟩, 8⟩, .uint 2),
        some (⟨some e4, false⟩, ⟨.nonnegCode, 0, ⟨0⟩, 4⟩, .uint 1),
        some (⟨some e4, false⟩, ⟨.nonnegCode, 0, ⟨0⟩, 4⟩, .nil),
        some (⟨some (op 205002), false⟩, ⟨.string, 0, ⟨0⟩, 16⟩, .bytes (str "AB")),
        some (⟨some (elem 31031 .flag 1), false⟩, ⟨.flag, 0, ⟨0⟩, 1⟩, .uint 0),
        some (⟨some (elem 31031 .flag 1), false⟩, ⟨.flag, 0, ⟨0⟩, 1⟩, .uint 0),
        some (⟨some (elem 31031 .flag 1), false⟩, ⟨.flag, 0, ⟨0⟩, 1⟩, .uint 1),
        some (⟨some (elem 1031 .nonnegCode 2), false⟩, ⟨.nonnegCode, 0, ⟨0⟩, 2⟩, .uint 2),
        some (⟨some (op 223255), false⟩, ⟨.nonnegCode, 0, ⟨0⟩, 4⟩, .uint 7)]])
    | _ => false) = true := by
  decide +kernel

/-- A bitmap that is a delayed replication: two codes, and quality information for as many of them as the data say. -/
def templateD : List Ast :=
  [.element e4 false, .element e4 false, .element e4 false,
   .assessment (op 222000) (.bitmap (some (op 236000))
     [.delayedRepl (op 101000) [.element (elem 31001 .nonnegCode 8) false, .element (elem 31031 .flag 1) false]])
     [.element (elem 1031 .nonnegCode 2) false] [.element (elem 33007 .nonnegCode 7) false]]

/-- Three codes, the factor two, the bitmap 1, 0, and 100 for the last code. -/
def bitsD : Bits := Spec.natBits 4 1 ++ Spec.natBits 4 2 ++ Spec.natBits 4 3 ++ Spec.natBits 8 2 ++ [true, false] ++
  Spec.natBits 2 2 ++ Spec.natBits 7 100

def inputD : Vis ToyFloat := { start [] with r := .bin ⟨bitsD ++ [true], 0⟩ }

theorem inputD_values : (match Vis.decodeSubsets cfg (.base (plain 0) templateD) 1 { compressed := false } inputD with
    | (.ok p, _) => decide (p.subsets.map (fun sub => (reported sub).map (Option.map fun x => x.2.2)) =
        [[some (.uint 1), some (.uint 2), some (.uint 3), some (.uint 2), some (.uint 1), some (.uint 0), some (.uint 2),
          some (.uint 100)]] ∧
        ∀ sub ∈ p.subsets, ∀ x ∈ (reported sub).filterMap id, (x.2.1.unit = .nonnegCode ∨ x.2.1.unit = .flag) ∧ 0 ≤ x.2.1.nbits ∧ x.2.1.nbits ≤ 64)
    | _ => false) = true := by
  decide +kernel

end OnlyExample

open OnlyExample PayloadExample in
/-- The code violates C99: eight bits are reported to be skipped where there are only three. -/
theorem C99_violates : ¬ C99_statement ToyFloat := by
  intro h
  have hv := short_values
  split at hv
  case h_2 => cases hv
  case h_1 p s' hs =>
    have hv := of_decide_eq_true hv
    obtain ⟨data, t, h1, h2, -, -, h3⟩ := h cfg [.skipLocal (plain 206008) [.element e8 false]] (plain 0) 1 false _ s' p _ 0
      cfg_ok rfl rfl (by decide) rfl hs
    rw [hv] at h3
    match data, h1 with
    | [x], _ =>
      obtain ⟨y, hy⟩ := h2 x List.mem_cons_self
      obtain ⟨i, hi, e⟩ := List.mem_map.1 ((List.cons.inj h3).1 ▸ List.mem_cons_self)
      obtain ⟨v, hv, hp⟩ := Coded.proper hy i hi
      rw [hv] at e
      obtain ⟨e1, e2⟩ := Prod.mk.inj (Option.some.inj e)
      obtain ⟨e2, e3⟩ := Prod.mk.inj e2
      rw [e2] at hp
      exact hp.2 e3

open OnlyExample PayloadExample in
/-- The hypotheses of `C99_partial` are met. -/
example : ∃ p' s', noBaseL template = true ∧ simpleL true template = true ∧ (∃ l, input.r = .bin ⟨l, 0⟩) ∧
    Vis.decodeSubsets cfg (.base (plain 0) template) 1 { compressed := false } input = (.ok p', s') ∧
    (∀ sub ∈ p'.subsets, ∀ d info v, some (d, info, v) ∈ reported sub → EncodeSpec.Proper info v) ∧
    p'.subsets.map (fun sub => (reported sub).length) = [10] := by
  have hv := input_values
  split at hv
  case h_2 => cases hv
  case h_1 p s' hs =>
    have hv := of_decide_eq_true hv
    refine ⟨p, s', by decide, by decide, ⟨_, rfl⟩, hs, ?_, ?_⟩
    · intro sub hsub d info v hm
      have : reported sub ∈ p.subsets.map reported := List.mem_map.2 ⟨sub, hsub, rfl⟩
      rw [hv, List.mem_singleton] at this
      rw [this] at hm
      simp only [List.mem_cons, List.not_mem_nil, or_false, Option.some.injEq, Prod.mk.injEq] at hm
      rcases hm with ⟨-, rfl, rfl⟩ | ⟨-, rfl, rfl⟩ | ⟨-, rfl, rfl⟩ | ⟨-, rfl, rfl⟩ | ⟨-, rfl, rfl⟩ | ⟨-, rfl, rfl⟩ |
        ⟨-, rfl, rfl⟩ | ⟨-, rfl, rfl⟩ | ⟨-, rfl, rfl⟩ | ⟨-, rfl, rfl⟩
      case inr.inr.inr.inr.inl => exact ⟨2, rfl⟩
      all_goals exact ⟨by decide, by decide⟩
    · have := congrArg (List.map List.length) hv
      simpa [List.map_map, Function.comp_def] using this

open OnlyExample PayloadExample in
/-- They are met with a bitmap that is a delayed replication, too: so the data are written as C88 says. -/
example : ∃ (bits : Bits) (is : List (Datum ToyFloat)) (y : Ctx) (t : Bits), Coded Single false {} templateD bits is y ∧
    bitsD ++ [true] = bits ++ t ∧ is.map (fun i => i.vals.getD 0 .nil) =
      [.uint 1, .uint 2, .uint 3, .uint 2, .uint 1, .uint 0, .uint 2, .uint 100] := by
  have hv := inputD_values
  split at hv
  case h_2 => cases hv
  case h_1 p s' hs =>
    obtain ⟨hv1, hv2⟩ := of_decide_eq_true hv
    obtain ⟨data, t, h1, h2, h3, -, h4⟩ := C99_partial cfg_ok rfl rfl (ns := templateD) (by decide) (by decide) (plain 0) 1 false
      inputD s' p (bitsD ++ [true]) 0 rfl hs (by
        intro sub hsub d info v hm
        obtain ⟨hu, hn⟩ := hv2 sub hsub (d, info, v) (List.mem_filterMap.2 ⟨_, hm, rfl⟩)
        unfold EncodeSpec.Proper
        rcases hu with hu | hu <;> simp only at hu <;> rw [hu] <;> exact hn)
    match data, h1 with
    | [x], _ =>
      obtain ⟨y, hy⟩ := h2 x List.mem_cons_self
      refine ⟨x.1, x.2, y, t, hy, by simpa using h3, ?_⟩
      have h5 := congrArg (List.map (List.map (Option.map fun x => x.2.2))) h4
      rw [List.map_map] at h5
      have h6 := List.cons.inj (h5.symm.trans hv1)
      have h7 := congrArg (List.map fun o : Option (Val ToyFloat) => o.getD .nil) h6.1
      simpa [written, List.map_map, Function.comp_def] using h7

open OnlyExample PayloadExample in
/-- C99: one bit less and the data are refused, by `C99_exactly` because nothing is written so. -/
example : (match Vis.decodeSubsets cfg (.base (plain 0) template) 1 { compressed := false }
    { input with r := .bin ⟨bits.dropLast, 0⟩ } with
    | (.err _, _) => true | _ => false) = true := by
  decide +kernel

/-! ## Compressed data -/

/-- C99 of compressed data, as it should be: the bits used up are those of the reported values, written by the rules of
C88. -/
def C99_compressed_statement (F : Type) [GoFloat F] : Prop :=
  ∀ (c : VisCfg) (k : Nat) (ns : List Ast) (d : Desc) (b : Bool) (s s' : Vis F) (p' : Payload F) (l : Bits) (p : Int),
    CfgOk c → c.inputType = .binary → c.compressed = true → c.nsubsets = k → 0 < k → noBaseL ns = true →
    s.r = .bin ⟨l, p⟩ → Vis.decodeSubsets c (.base d ns) 1 { compressed := b } s = (.ok p', s') →
    ∃ (bits : List Bool) (is : List (Datum F)) (y : Ctx) (t : Bits), Coded (Shared k) c.compatible {} ns bits is y ∧
      l = bits ++ t ∧ s'.r = .bin ⟨t, p + bits.length⟩ ∧ p'.subsets.map reported = (List.range k).map (written is)

/-- What is accepted is decoded, as in `C88_compressed`. -/
theorem C88_lenient [GoFloat F] [LawfulGoFloat F] (hc : CfgOk c) (hb : c.inputType = .binary) (hu : c.compressed = true)
    {k : Nat} (hk : c.nsubsets = k) (h0 : 0 < k) {ns : List Ast} (hns : noBaseL ns = true) (d : Desc) (b : Bool)
    (bits : List Bool) (is : List (Datum F)) {y : Ctx} (h : Coded (Lenient k) c.compatible {} ns bits is y) (t : Bits) (p : Int)
    (s : Vis F) (hr : s.r = .bin ⟨bits ++ t, p⟩) :
    ∃ p' s', Vis.decodeSubsets c (.base d ns) 1 { compressed := b } s = (.ok p', s') ∧
      s'.r = .bin ⟨t, p + bits.length⟩ ∧ p'.subsets.map reported = (List.range k).map (written is) := by
  obtain ⟨fuel, hunp⟩ := unpacker_compressed hc hb hu hk
  obtain ⟨s1, ρ, f, e1, r1, st1, rep, hcols, hsub⟩ := root_coded hc (reads_lenient hunp)
    (by rw [if_pos ⟨hu, hb⟩, hk]; simp) (by simp; omega) hns h d (s := s) (by rw [hr]; exact atBits_start _ p)
  have r1 : s1.r = .bin ⟨t, p + bits.length⟩ := r1.trans (by simp only [List.length_append]; congr; omega)
  refine ⟨Vis.addSubsets s1.heap s1.node s1.cells { compressed := b }, s1, ?_, r1, ?_⟩
  · refine decodeSubsets_succ.2 ⟨s1, s1.node, e1, ?_, rfl⟩
    unfold Vis.treeRoot
    rw [st1]
    rfl
  · rw [addSubsets_subsets, rep.cells, hsub]
    exact subsets_reported rep.nodes hcols k _

/-- **C99**, compressed data: if they are decoded, the bits used up are those of the reported values, written by the
rules for columns that are accepted; these are more than those of C88, see `C99_compressed_violates`. -/
theorem C99_compressed_partial [GoFloat F] [LawfulGoFloat F] (hc : CfgOk c) (hb : c.inputType = .binary)
    (hu : c.compressed = true) {k : Nat} (hk : c.nsubsets = k) (h0 : 0 < k) {ns : List Ast} (hns : noBaseL ns = true)
    (hs : simpleL true ns = true) (d : Desc) (b : Bool) (s s' : Vis F) (p' : Payload F) (l : Bits) (p : Int)
    (hr : s.r = .bin ⟨l, p⟩) (h : Vis.decodeSubsets c (.base d ns) 1 { compressed := b } s = (.ok p', s'))
    (hp : ∀ sub ∈ p'.subsets, ∀ d info v, some (d, info, v) ∈ reported sub → ProperColumn info) :
    ∃ (bits : List Bool) (is : List (Datum F)) (y : Ctx) (t : Bits), Coded (Lenient k) c.compatible {} ns bits is y ∧
      l = bits ++ t ∧ s'.r = .bin ⟨t, p + bits.length⟩ ∧ p'.subsets.map reported = (List.range k).map (written is) := by
  obtain ⟨fuel, hunp⟩ := unpacker_compressed hc hb hu hk
  have ho : Only (F := F) true c AtAny (TakenColumn k fuel) (some k) (visitL c ns) ns :=
    simpleL_only (takes_compressed hunp) (matches_compressed hunp) plainly_column (zeroes_compressed hunp) true true ns id hs
  obtain ⟨s1, root, e1, e2, e3⟩ := decodeSubsets_succ.1 h
  obtain ⟨bits, t, is, y, ρ, f, rfl, q1, q2, st, rep, q3, q4⟩ := root_only hc (k := some k)
    (by rw [if_pos ⟨hu, hb⟩, hk]; simp) (by simp; omega) hns ho d ⟨p, hr⟩ e1
  cases e3
  have hval : (Vis.addSubsets s'.heap root s'.cells { compressed := b }).subsets.map reported
      = (List.range k).map (written is) := by
    rw [addSubsets_subsets, rep.cells, q4]
    exact subsets_reported rep.nodes q3 k _
  have q5 : Coded (Lenient k) c.compatible {} ns bits is y := by
    refine q1.mono fun i hi bs hw => taken_lenient h0 hw ?_
    have hm : written is 0 ∈ (Vis.addSubsets s'.heap root s'.cells { compressed := b }).subsets.map reported := by
      rw [hval]
      exact List.mem_map.2 ⟨0, List.mem_range.2 h0, rfl⟩
    obtain ⟨sub, g1, g2⟩ := List.mem_map.1 hm
    refine hp sub g1 i.desc i.info (i.vals.getD 0 .nil) ?_
    rw [g2]
    exact List.mem_map.2 ⟨i, hi, rfl⟩
  refine ⟨bits, is, y, t, q5, rfl, ?_, hval⟩
  obtain ⟨p2, s2, h1, h2, -⟩ := C88_lenient hc hb hu hk h0 hns d b bits is q5 t p s hr
  rw [h] at h1
  cases h1
  exact h2

/-- C99, compressed: which data are decoded to columns of proper width, exactly. -/
theorem C99_compressed_exactly [GoFloat F] [LawfulGoFloat F] (hc : CfgOk c) (hb : c.inputType = .binary)
    (hu : c.compressed = true) {k : Nat} (hk : c.nsubsets = k) (h0 : 0 < k) {ns : List Ast} (hns : noBaseL ns = true)
    (hs : simpleL true ns = true) (d : Desc) (b : Bool) (s : Vis F) (l : Bits) (p : Int) (hr : s.r = .bin ⟨l, p⟩)
    (xs : List (List (Option (NodeDesc × PackingInfo F × Val F)))) :
    (∃ p' s', Vis.decodeSubsets c (.base d ns) 1 { compressed := b } s = (.ok p', s') ∧ p'.subsets.map reported = xs ∧
      ∀ x ∈ xs, ∀ d info v, some (d, info, v) ∈ x → ProperColumn info) ↔
    ∃ (bits : List Bool) (is : List (Datum F)) (y : Ctx) (t : Bits), Coded (Lenient k) c.compatible {} ns bits is y ∧
      l = bits ++ t ∧ xs = (List.range k).map (written is) := by
  constructor
  · rintro ⟨p', s', h, rfl, hp⟩
    obtain ⟨bits, is, y, t, h1, h2, -, h3⟩ := C99_compressed_partial hc hb hu hk h0 hns hs d b s s' p' l p hr h
      fun sub hsub => hp _ (List.mem_map.2 ⟨sub, hsub, rfl⟩)
    exact ⟨bits, is, y, t, h1, h2, h3⟩
  · rintro ⟨bits, is, y, t, h, rfl, rfl⟩
    obtain ⟨p', s', h1, -, h2⟩ := C88_lenient hc hb hu hk h0 hns d b bits is h t p s hr
    refine ⟨p', s', h1, h2, fun x hx d info v hv => ?_⟩
    obtain ⟨j, -, rfl⟩ := List.mem_map.1 hx
    obtain ⟨i, hi, e⟩ := List.mem_map.1 hv
    cases e
    exact h.every (Q := fun info _ => ProperColumn info) (fun _ _ _ hw => Lenient.proper hw) i hi

namespace OnlyExample
open PayloadExample

/-- Five, with increments of one bit: six and five. -/
def oneBit : Bits := Spec.natBits 4 5 ++ Spec.natBits 6 1 ++ [true, false]

def inputC : Vis ToyFloat := { start [] with r := .bin ⟨oneBit ++ [true], 0⟩ }

theorem inputC_values : (match Vis.decodeSubsets cfgC (.base (plain 0) [.element e4 false]) 1 { compressed := true } inputC with
    | (.ok p, _) => decide (p.subsets.map reported = [[some (⟨some e4, false⟩, ⟨.nonnegCode, 0, ⟨0⟩, 4⟩, .uint 6)],
        [some (⟨some e4, false⟩, ⟨.nonnegCode, 0, ⟨0⟩, 4⟩, .uint 5)]])
    | _ => false) = true := by
  decide +kernel

end OnlyExample

open OnlyExample PayloadExample UnpackSpec in
/-- The code violates C99 for compressed data: increments of one bit are accepted. -/
theorem C99_compressed_violates : ¬ C99_compressed_statement ToyFloat := by
  intro h
  have hv := inputC_values
  split at hv
  case h_2 => cases hv
  case h_1 p s' hs =>
    obtain ⟨bits, is, y, t, h1, h2, -, -⟩ := h cfgC 2 [.element e4 false] (plain 0) true _ s' p _ 0 cfgC_ok rfl rfl rfl
      (by decide) (by decide) rfl hs
    cases h1 with
    | @element _ _ _ bs _ _ e ab vb as vs he ha hw hr =>
      cases hr
      cases he
      cases ha
      have hcol : ∀ (base w : Nat) (incs : List Nat), w < 64 →
          oneBit ++ [true] = [] ++ column 4 base w incs ++ [] ++ t → w = 1 := by
        intro base w incs hw e
        have e := congrArg (fun l => (l.drop 4).take 6) e
        have e0 : ((oneBit ++ [true]).drop 4).take 6 = Spec.natBits 6 1 := by decide
        simp only [e0, column, List.nil_append, List.append_nil, List.append_assoc] at e
        rw [List.drop_append_of_le_length (by simp [Spec.natBits_length])] at e
        simp only [List.drop_eq_nil_of_le (Nat.le_of_eq (Spec.natBits_length 4 base)), List.nil_append] at e
        rw [List.take_append_of_le_length (by simp [Spec.natBits_length]), List.take_of_length_le (by simp [Spec.natBits_length])] at e
        have e2 := congrArg Spec.bitsVal e
        rw [Spec.bitsVal_natBits 6 w, Nat.mod_eq_of_lt (by simpa using hw)] at e2
        rw [← e2]
        decide
      generalize hi : Operands.packing (F := ToyFloat) _ _ = info at hw
      have hi : info = ⟨.nonnegCode, 0, ⟨0⟩, 4⟩ := by rw [← hi]; decide
      subst hi
      cases hw with
      | none q1 q2 => exact absurd q2 (by decide)
      | @same n base q1 q2 q3 q4 q5 =>
        have : n = 4 := by simp only at q2; omega
        subst this
        exact absurd (hcol _ _ _ (by decide) h2) (by decide)
      | @increments n base w incs q1 q2 q3 q4 q5 q6 q7 q8 q9 q10 =>
        have : n = 4 := by simp only at q2; omega
        subst this
        have := hcol _ _ _ q7 h2
        omega
      | sameText q1 q2 => cases q1
      | texts q1 q2 => cases q1
      | sameSigned q1 q2 => cases q1

open OnlyExample PayloadExample in
/-- The hypotheses of `C99_compressed_partial` are met, by the same data. -/
example : ∃ p' s' bits, ∃ is : List (Datum ToyFloat), ∃ y t, Vis.decodeSubsets cfgC (.base (plain 0) [.element e4 false]) 1 { compressed := true } inputC
      = (.ok p', s') ∧ Coded (Lenient 2) false {} [.element e4 false] bits is y ∧ oneBit ++ [true] = bits ++ t ∧
      written is 0 = [some (⟨some e4, false⟩, ⟨.nonnegCode, 0, ⟨0⟩, 4⟩, .uint 6)] := by
  have hv := inputC_values
  split at hv
  case h_2 => cases hv
  case h_1 p s' hs =>
    have hv := of_decide_eq_true hv
    obtain ⟨bits, is, y, t, h1, h2, h3, h4⟩ := C99_compressed_partial cfgC_ok rfl rfl (k := 2) rfl (by decide)
      (ns := [.element e4 false]) (by decide) (by decide) (plain 0) true inputC s' p (oneBit ++ [true]) 0 rfl hs (by
        intro sub hsub d info v hm
        have : reported sub ∈ p.subsets.map reported := List.mem_map.2 ⟨sub, hsub, rfl⟩
        rw [hv] at this
        simp only [List.mem_cons, List.not_mem_nil, or_false] at this
        rcases this with e | e <;> rw [e] at hm <;>
          simp only [List.mem_cons, List.not_mem_nil, or_false, Option.some.injEq, Prod.mk.injEq] at hm <;>
          obtain ⟨-, rfl, rfl⟩ := hm <;> exact ⟨by decide, by decide⟩)
    refine ⟨p, s', bits, is, y, t, hs, h1, h2, ?_⟩
    rw [hv] at h4
    exact (List.cons.inj h4).1.symm

open OnlyExample PayloadExample in
/-- C99: a signed number that is missing in all subsets is accepted, whatever the base. -/
example : Lenient 2 (⟨.code, 0, ⟨0⟩, 4⟩ : PackingInfo ToyFloat) ([true, false, true, true] ++ Spec.natBits 6 2 ++ [true, true, true, true])
    [.nil, .nil] :=
  Lenient.noSigned (k := 2) (n := 3) (mag := 3) (w := 2) (neg := true) rfl rfl (by decide) (by decide) (by decide) (by decide)

end Gobufr
