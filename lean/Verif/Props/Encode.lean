import Verif.Proofs.Encode

/-!
# C88: what was written is read

Whoever writes a data section that follows the template gets back from the decoder exactly the
values written, in order, and the decoder stops at the end of the data.
-/

namespace Gobufr
open Flat EncodeSpec

variable {F : Type} {c : VisCfg}

/-- What a subset says of its values, in order: element, packing and value. -/
def reported (x : Subset F) : List (Option (NodeDesc × PackingInfo F × Val F)) :=
  x.cells.map fun y => match (x.heap[y.n]? : Option (Node F)) with
    | some ⟨.valued d _ info _ _, _⟩ => some (d, info, y.v)
    | _ => none

/-- The same of what was written, for subset number `j`. -/
def written (is : List (Datum F)) (j : Nat) : List (Option (NodeDesc × PackingInfo F × Val F)) :=
  is.map fun i => some (i.desc, i.info, i.vals.getD j .nil)

theorem reported_cells {ρ : List NodeId} {heap : Heap F} {cols : List (Column F)} (h : Nodes ρ heap cols) (j : Nat) (i : Int)
    (root : NodeId) : reported ⟨i, cellsOf ρ cols j, root, heap⟩ = written (cols.map itemOf) j := by
  unfold reported written
  apply List.ext_getElem?
  intro m
  simp only [List.getElem?_map, cellsOf, List.getElem?_zipWith]
  have hl := h.length
  rcases Nat.lt_or_ge m cols.length with hm | hm
  · rw [List.getElem?_eq_getElem hm, List.getElem?_eq_getElem (show m < ρ.length by omega)]
    obtain ⟨ms, h1, _⟩ := h.node m ρ[m] cols[m] (List.getElem?_eq_getElem (by omega)) (List.getElem?_eq_getElem hm)
    simp only [Option.map_some, h1, kindOf, itemOf]
  · rw [List.getElem?_eq_none hm, List.getElem?_eq_none (show ρ.length ≤ m by omega)]
    rfl

/-- **C88**, uncompressed: the bits of the subsets, one after the other, are decoded to the values
written.  What follows the data is left alone. -/
theorem C88_uncompressed [GoFloat F] [LawfulGoFloat F] (hc : CfgOk c) (hb : c.inputType = .binary) (hu : c.compressed = false)
    {ns : List Ast} (hns : noBaseL ns = true) (d : Desc) (b : Bool) (data : List (List Bool × List (Datum F)))
    (h : ∀ x ∈ data, ∃ y, Coded Single c.compatible {} ns x.1 x.2 y) (t : Bits) (p : Int) (s : Vis F)
    (hr : s.r = .bin ⟨data.flatMap Prod.fst ++ t, p⟩) :
    ∃ p' s', Vis.decodeSubsets c (.base d ns) data.length { compressed := b } s = (.ok p', s') ∧
      s'.r = .bin ⟨t, p + (data.flatMap Prod.fst).length⟩ ∧
      p'.subsets.map reported = data.map fun x => written x.2 0 := by
  have hcomp : ¬ (c.compressed = true ∧ c.inputType = .binary) := by simp [hu]
  have hunp : c.unpacker = .uncompress := by
    obtain ⟨fuel, hf⟩ := hc
    rw [hu, hb] at hf
    simp only [newDeserializeVisitor, newUnpacker, Bool.false_eq_true, if_false, Outcome.bind_ok] at hf
    injection hf with hf
    rw [← hf]
  have key : ∀ (data : List (List Bool × List (Datum F))) (p0 : Payload F) (s : Vis F) (p : Int),
      (∀ x ∈ data, ∃ y, Coded Single c.compatible {} ns x.1 x.2 y) →
      s.r = .bin ⟨data.flatMap Prod.fst ++ t, p⟩ →
      ∃ p' s', Vis.decodeSubsets c (.base d ns) data.length p0 s = (.ok p', s') ∧
        s'.r = .bin ⟨t, p + (data.flatMap Prod.fst).length⟩ ∧
        p'.subsets.map reported = p0.subsets.map reported ++ data.map fun x => written x.2 0 := by
    intro data
    induction data with
    | nil =>
      intro p0 s p _ hr
      exact ⟨p0, s, rfl, by simpa using hr, by simp⟩
    | cons x data ih =>
      intro p0 s p h hr
      obtain ⟨y, hx⟩ := h x List.mem_cons_self
      rw [List.flatMap_cons, List.append_assoc] at hr
      obtain ⟨s1, ρ, f, e1, r1, st1, rep, hcols, hsub⟩ := root_coded hc (reads_single hunp) (by rw [if_neg hcomp]) (by simp)
        hns hx d (s := s) (by rw [hr]; exact atBits_start _ p)
      have r1 : s1.r = .bin ⟨data.flatMap Prod.fst ++ t, p + x.1.length⟩ :=
        r1.trans (by simp only [List.length_append]; congr; omega)
      obtain ⟨p', s', e2, r2, q2⟩ := ih (Vis.addSubsets s1.heap s1.node s1.cells p0) s1 _
        (fun z hz => h z (List.mem_cons_of_mem _ hz)) r1
      refine ⟨p', s', ?_, ?_, ?_⟩
      · rw [List.length_cons]
        refine decodeSubsets_succ.2 ⟨s1, s1.node, e1, ?_, e2⟩
        unfold Vis.treeRoot
        rw [st1]
        rfl
      · rw [r2, List.flatMap_cons]
        simp [Int.add_assoc]
      · rw [q2, addSubsets_subsets, rep.cells, hsub]
        simp only [subsetsOf, List.zipIdx_cons, List.zipIdx_nil, List.map_cons, List.map_nil, List.map_append,
          reported_cells rep.nodes, hcols]
        simp
  obtain ⟨p', s', h1, h2, h3⟩ := key data { compressed := b } s p h hr
  exact ⟨p', s', h1, h2, by simpa using h3⟩

/-- The subsets of columns. -/
theorem subsets_reported {ρ : List NodeId} {heap : Heap F} {cols : List (Column F)} (h : Nodes ρ heap cols) {is : List (Datum F)}
    (hcols : cols.map itemOf = is) (k : Nat) (root : NodeId) :
    ((subsetsOf (.tissues ((List.range k).map (cellsOf ρ cols)))).zipIdx.map fun x =>
      (⟨(([] : List (Subset F)).length : Int) + x.2, x.1, root, heap⟩ : Subset F)).map reported = (List.range k).map (written is) := by
  simp only [subsetsOf, List.map_map]
  apply List.ext_getElem?
  intro j
  simp only [List.getElem?_map, List.getElem?_zipIdx]
  rcases Nat.lt_or_ge j k with hj | hj
  · rw [List.getElem?_range hj]
    simp only [Option.map_some, Function.comp, reported_cells h, hcols]
  · rw [List.getElem?_eq_none (by simpa using hj)]
    rfl

theorem unpacker_compressed (hc : CfgOk c) (hb : c.inputType = .binary) (hu : c.compressed = true)
    {k : Nat} (hk : c.nsubsets = k) : ∃ fuel, c.unpacker = .compressed k fuel := by
  obtain ⟨fuel, hf⟩ := hc
  rw [hu, hb, hk] at hf
  simp only [newDeserializeVisitor, newUnpacker, if_true, Outcome.bind_ok] at hf
  injection hf with hf
  exact ⟨fuel, by rw [← hf]⟩

/-- **C88**, compressed: one set of columns is decoded to the values written of every subset. -/
theorem C88_compressed [GoFloat F] [LawfulGoFloat F] (hc : CfgOk c) (hb : c.inputType = .binary) (hu : c.compressed = true)
    {k : Nat} (hk : c.nsubsets = k) (h0 : 0 < k) {ns : List Ast} (hns : noBaseL ns = true) (d : Desc) (b : Bool)
    (bits : List Bool) (is : List (Datum F)) {y : Ctx} (h : Coded (Shared k) c.compatible {} ns bits is y) (t : Bits) (p : Int)
    (s : Vis F) (hr : s.r = .bin ⟨bits ++ t, p⟩) :
    ∃ p' s', Vis.decodeSubsets c (.base d ns) 1 { compressed := b } s = (.ok p', s') ∧
      s'.r = .bin ⟨t, p + bits.length⟩ ∧ p'.subsets.map reported = (List.range k).map (written is) := by
  obtain ⟨fuel, hunp⟩ := unpacker_compressed hc hb hu hk
  obtain ⟨s1, ρ, f, e1, r1, st1, rep, hcols, hsub⟩ := root_coded hc (reads_shared hunp)
    (by rw [if_pos ⟨hu, hb⟩, hk]; simp) (by simp; omega) hns h d (s := s) (by rw [hr]; exact atBits_start _ p)
  have r1 : s1.r = .bin ⟨t, p + bits.length⟩ := r1.trans (by simp only [List.length_append]; congr; omega)
  refine ⟨Vis.addSubsets s1.heap s1.node s1.cells { compressed := b }, s1, ?_, r1, ?_⟩
  · refine decodeSubsets_succ.2 ⟨s1, s1.node, e1, ?_, rfl⟩
    unfold Vis.treeRoot
    rw [st1]
    rfl
  · rw [addSubsets_subsets, rep.cells, hsub]
    exact subsets_reported rep.nodes hcols k _

/-- C88. So the bits determine the values: no data section can be read in two ways. -/
theorem C88_unambiguous [GoFloat F] [LawfulGoFloat F] {ns : List Ast} (hns : noBaseL ns = true) {bits t t' : List Bool}
    {is is' : List (Datum F)} {y y' : Ctx} {bits' : List Bool} {compatible : Bool} (h : Coded Single compatible {} ns bits is y)
    (h' : Coded Single compatible {} ns bits' is' y') (e : bits ++ t = bits' ++ t') :
    bits = bits' ∧ written is 0 = written is' 0 := by
  have hc : CfgOk ⟨false, .binary, compatible, 1, .uncompress⟩ := ⟨0, rfl⟩
  let s : Vis F := { (default : Vis F) with r := .bin ⟨bits ++ t, 0⟩ }
  obtain ⟨p1, s1, h1, h2, h3⟩ := C88_uncompressed hc rfl rfl hns default false [(bits, is)] (by simpa using ⟨y, h⟩) t 0 s
    (by simp [s])
  obtain ⟨p2, s2, k1, k2, k3⟩ := C88_uncompressed hc rfl rfl hns default false [(bits', is')] (by simpa using ⟨y', h'⟩) t' 0 s
    (by simp [s, e])
  have hp := h1.symm.trans k1
  obtain ⟨hp1, hp2⟩ := Prod.mk.inj hp
  have hp1 := Outcome.ok.inj hp1
  subst hp1 hp2
  rw [h2] at k2
  injection k2 with k2
  injection k2 with k2 k4
  subst k2
  refine ⟨List.append_cancel_right e, ?_⟩
  rw [h3] at k3
  simpa using k3

/-! ## Something to write in the examples -/

namespace EncodeExample
open PayloadExample UnpackSpec

/-- Change the width by two, a number, a delayed replication of a code, and quality information for
the last two values. -/
def template : List Ast :=
  [.nbitsOffset (plain 201130), .element e8 false,
   .delayedRepl (plain 101000) [.element (elem 31001 .nonnegCode 8) false, .element e4 false],
   .assessment (plain 222000) (.bitmap (some (plain 236000)) [.fixedRepl (plain 101002) [.element (elem 31031 .flag 1) false]])
     [] [.element (elem 33007 .nonnegCode 7) false]]

/-- The number 5, two codes 1 and 15 (missing), and quality 100 for the first of them. -/
theorem coded : ∃ bits is y, Coded (F := ToyFloat) Single false {} template bits is y ∧
    bits = Spec.natBits 10 5 ++ Spec.natBits 8 2 ++ Spec.natBits 4 1 ++ Spec.natBits 4 15 ++ [false, true] ++ Spec.natBits 7 100 ∧
    written is 0 = [
      some (⟨some e8, false⟩, ⟨.numeric, 0, ⟨0⟩, 10⟩, .float ⟨5⟩),
      some (⟨some (elem 31001 .nonnegCode 8), false⟩, ⟨.nonnegCode, 0, ⟨0⟩, 8⟩, .uint 2),
      some (⟨some e4, false⟩, ⟨.nonnegCode, 0, ⟨0⟩, 4⟩, .uint 1),
      some (⟨some e4, false⟩, ⟨.nonnegCode, 0, ⟨0⟩, 4⟩, .nil),
      some (⟨some (elem 31031 .flag 1), false⟩, ⟨.flag, 0, ⟨0⟩, 1⟩, .uint 0),
      some (⟨some (elem 31031 .flag 1), false⟩, ⟨.flag, 0, ⟨0⟩, 1⟩, .uint 1),
      some (⟨some (elem 33007 .nonnegCode 7), false⟩, ⟨.nonnegCode, 0, ⟨0⟩, 7⟩, .uint 100)] := by
  refine ⟨_, _, _, .op201 (.element rfl .nil (.number (n := 10) (raw := 5) (.inl rfl) rfl (by decide) (by decide))
    (.delayed (k := 2) (it := ⟨⟨some (elem 31001 .nonnegCode 8), false⟩, ⟨.nonnegCode, 0, ⟨0⟩, 8⟩, [.uint 2]⟩)
      (.element rfl .nil (.number (n := 8) (raw := 2) (.inr (.inl rfl)) rfl (by decide) (by decide)) .nil) rfl rfl (by simp) rfl
      (.element rfl .nil (.number (n := 4) (raw := 1) (.inr (.inl rfl)) rfl (by decide) (by decide))
        (.element rfl .nil (.number (n := 4) (raw := 15) (.inr (.inl rfl)) rfl (by decide) (by decide))
          (.assessment (n := 4) (bits := [0, 1]) (by decide) (.off rfl)
            (.bitmap (bits := [0, 1]) (by decide) (by decide) (.off rfl)
              (.fixed (.element rfl .nil (.number (n := 1) (raw := 0) (.inr (.inr rfl)) rfl (by decide) (by decide))
                (.element rfl .nil (.number (n := 1) (raw := 1) (.inr (.inr rfl)) rfl (by decide) (by decide)) .nil))) rfl .nil)
            .nil rfl rfl (by decide) (by decide)
            (.element rfl .nil (.number (n := 7) (raw := 100) (.inr (.inl rfl)) rfl (by decide) (by decide)) .nil) (by decide) .nil))))), ?_, ?_⟩
  · decide
  · decide

/-- The same code in both subsets, and a number in each: 100 + 3, and missing. -/
theorem codedC : ∃ bits is y, Coded (F := ToyFloat) (Shared 2) false {} [.element e4 false, .element e8 false] bits is y ∧
    bits = Spec.natBits 4 9 ++ Spec.natBits 6 0 ++ (Spec.natBits 8 100 ++ Spec.natBits 6 3 ++ Spec.natBits 3 3 ++ Spec.natBits 3 7) ∧
    is.map Datum.vals = [[.uint 9, .uint 9], [.float ⟨103⟩, .nil]] := by
  refine ⟨_, _, _, .element rfl .nil (.same (n := 4) (base := 9) (.inr (.inl rfl)) rfl (by decide) (by decide) (by decide))
    (.element rfl .nil (.increments (n := 8) (base := 100) (w := 3) (incs := [3, 7]) (.inl rfl) rfl (by decide) (by decide)
      (by decide) (by decide) (by decide) (by decide) (by decide) rfl) .nil), ?_, ?_⟩
  · decide
  · decide

end EncodeExample

open EncodeExample PayloadExample in
/-- The hypotheses of `C88_uncompressed` are met by two copies of the example. -/
example : ∃ (bits : List Bool) (is : List (Datum ToyFloat)) (p' : Payload ToyFloat) (s' : Vis ToyFloat),
    Vis.decodeSubsets cfg (.base (plain 0) template) 2 { compressed := false }
      { start [] with r := .bin ⟨bits ++ bits ++ [true], 8⟩ } = (.ok p', s') ∧ s'.r = .bin ⟨[true], 78⟩ ∧
      p'.subsets.map reported = [written is 0, written is 0] ∧ is.length = 7 := by
  obtain ⟨bits, is, y, h, hb, hw⟩ := coded
  obtain ⟨p', s', h1, h2, h3⟩ := C88_uncompressed cfg_ok rfl rfl (ns := template) (by decide) (plain 0) false
    [(bits, is), (bits, is)] (by simpa using ⟨y, h⟩) [true] 8 { start [] with r := .bin ⟨bits ++ bits ++ [true], 8⟩ } (by simp)
  refine ⟨bits, is, p', s', h1, ?_, h3, ?_⟩
  · rw [h2, hb]; rfl
  · have := congrArg List.length hw
    simpa [written] using this

open EncodeExample PayloadExample in
/-- Those of `C88_compressed` too. -/
example : ∃ (bits : List Bool) (is : List (Datum ToyFloat)) (p' : Payload ToyFloat) (s' : Vis ToyFloat),
    Vis.decodeSubsets cfgC (.base (plain 0) [.element e4 false, .element e8 false]) 1 { compressed := true }
      { start [] with r := .bin ⟨bits ++ [true], 8⟩ } = (.ok p', s') ∧ s'.r = .bin ⟨[true], 38⟩ ∧
      p'.subsets.map reported = [written is 0, written is 1] ∧ is.length = 2 := by
  obtain ⟨bits, is, y, h, hb, hw⟩ := codedC
  obtain ⟨p', s', h1, h2, h3⟩ := C88_compressed cfgC_ok rfl rfl (k := 2) rfl (by decide)
    (ns := [.element e4 false, .element e8 false]) (by decide) (plain 0) true bits is h [true] 8
    { start [] with r := .bin ⟨bits ++ [true], 8⟩ } rfl
  refine ⟨bits, is, p', s', h1, ?_, h3, ?_⟩
  · rw [h2, hb]; rfl
  · have := congrArg List.length hw
    simpa using this

open EncodeExample in
/-- Those of `C88_unambiguous` too. -/
example : ∃ bits is y, Coded (F := ToyFloat) Single false {} template bits is y ∧ is.length = 7 := by
  obtain ⟨bits, is, y, h, hb, hw⟩ := coded
  exact ⟨bits, is, y, h, by simpa [written] using congrArg List.length hw⟩

end Gobufr
