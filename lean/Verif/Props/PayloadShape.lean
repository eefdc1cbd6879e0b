import Verif.Proofs.PayloadFacts
import Verif.Props.Parser

/-!
# Properties of payload decoding: shape of the result (C49 - C51, C54, C55, C79)

The decoder state is looked at through its table (`Flat.tableOf`, Spec/Payload.lean): reader,
values, what the nodes of the values record, attributes, and all operator state; only how the
nodes hang in the tree is left out.
-/

set_option linter.unusedSimpArgs false

namespace Gobufr
open TemplateSpec ParserSpec Flat

variable {F : Type} {c : VisCfg}

/-- The parser makes trees with a root only at the top. -/
theorem parse_noBase {lk : Lookup} (hg : GoodLookup lk) {ids : List ID} {ns : List Ast} (h : Parses lk ids ns) :
    noBaseL ns = true := by
  apply noBaseL_of
  intro d ms hm
  rcases derives_nodes ((parses_iff hg).1 h) _ hm with ⟨g, l, ns', g', hd⟩ | ⟨_, _, he⟩
  · generalize hx : Ast.base d ms :: ns' = xs at hd
    cases hd with
    | nil => cases hx
    | leaf hl _ => cases hx; cases hl
    | scope hs _ _ _ _ _ => cases hs <;> simp at hx
    | _ => cases hx
  · cases he

/-- The root: decoding starts with the empty table, whatever was decoded before. -/
theorem root_table [GoFloat F] (hc : CfgOk c) {ns : List Ast} (hns : noBaseL ns = true) (d : Desc) (s s' : Vis F)
    (o : Outcome Unit) (h : Vis.visit c (.base d ns) s = (o, s')) (hd : o ≠ .diverge) :
    (Flat.visitL c ns (fresh c s.r) = (o, tableOf s') ∧ WellFormed c s' ∧ s'.stack = [] ∧ s'.node = 0) ∨
    (o = .panic "makeslice: len out of range" ∧ s' = s ∧ c.nsubsets < 0) := by
  rcases root_visit hc hns d s s' o h hd with ⟨ρ, f', h1, h2, h3, h4⟩ | h
  · exact .inl ⟨by rw [tableOf_eq h2]; exact h1, h2.wellFormed, h3, h4⟩
  · exact .inr h

theorem root_table_ok [GoFloat F] (hc : CfgOk c) {ns : List Ast} (hns : noBaseL ns = true) (d : Desc) (s s' : Vis F)
    (h : Vis.visit c (.base d ns) s = (.ok (), s')) :
    Flat.visitL c ns (fresh c s.r) = (.ok (), tableOf s') ∧ WellFormed c s' ∧ s'.stack = [] ∧ s'.node = 0 := by
  rcases root_table hc hns d s s' _ h (by simp) with h | ⟨h, _⟩
  · exact h
  · cases h

/-! ## Something to decode in the examples -/

namespace PayloadExample

/-- An element descriptor. -/
def elem (id : ID) (unit : Unit') (nbits : Int) : Desc :=
  ⟨id, .b { (default : Bentry) with unit := unit, nbits := nbits }⟩

/-- A descriptor without table entry. -/
def plain (id : ID) : Desc := ⟨id, default⟩

/-- Four bits, a nonnegative code. -/
def e4 : Desc := elem 1001 .nonnegCode 4
/-- Eight bits, a number. -/
def e8 : Desc := elem 12001 .numeric 8

/-- Binary input, not compressed. -/
def cfg : VisCfg := ⟨false, .binary, false, 2, .uncompress⟩
/-- Binary input, two compressed subsets. -/
def cfgC : VisCfg := ⟨true, .binary, false, 2, .compressed 2 64⟩

theorem cfg_ok : CfgOk cfg := ⟨0, rfl⟩
theorem cfgC_ok : CfgOk cfgC := ⟨64, rfl⟩

/-- A visitor before the first subset. -/
def start (bytes : List UInt8) : Vis ToyFloat :=
  ⟨.bin (.new bytes), [], 0, [], .flat [], 0, 0, none, [], 0, 0, 0, 0, {}⟩

/-- The values of the subsets of a payload that was decoded. -/
def values : Outcome (Payload ToyFloat) × Vis ToyFloat → Option (List (List (Val ToyFloat)))
  | (.ok p, _) => some (p.subsets.map fun x => x.cells.map Cell.v)
  | _ => none

/-- The visitor at the start of a subset. -/
def ready (c : VisCfg) (bytes : List UInt8) : Vis ToyFloat := (Vis.reset c (start bytes)).2

theorem ready_wf (bytes : List UInt8) : WellFormed cfg (ready cfg bytes) :=
  (represents_fresh cfg (start bytes) _ rfl).1.wellFormed

theorem readyC_wf (bytes : List UInt8) : WellFormed cfgC (ready cfgC bytes) :=
  (represents_fresh cfgC (start bytes) _ rfl).1.wellFormed

end PayloadExample

/-! ## C49 -/

/-- The `Index` field of the node of a cell. -/
def cellIndex (heap : Heap F) (x : Cell F) : Option Int :=
  match heap[x.n]? with
  | some ⟨.valued _ i _ _ _, _⟩ => some i
  | _ => none

theorem index_of_represents {ρ : List NodeId} {s : Vis F} {f : State F} (h : Represents c ρ s f) :
    ∀ cs ∈ subsetsOf s.cells, ∀ (i : Nat) (x : Cell F), cs[i]? = some x → cellIndex s.heap x = some (i : Int) := by
  have key : ∀ k (i : Nat) (x : Cell F), (cellsOf ρ f.cols k)[i]? = some x → cellIndex s.heap x = some (i : Int) := by
    intro k i x hx
    unfold cellsOf at hx
    rw [List.getElem?_zipWith] at hx
    cases hn : ρ[i]? with
    | none => rw [hn] at hx; simp at hx
    | some n =>
      cases hcol : f.cols[i]? with
      | none => rw [hn, hcol] at hx; simp at hx
      | some col =>
        rw [hn, hcol] at hx
        simp only [Option.some.injEq] at hx
        subst hx
        exact indexOf_ref h.nodes hn
  intro cs hcs i x hx
  rw [h.cells] at hcs
  cases hs : f.subsets with
  | none =>
    rw [hs] at hcs
    simp only [subsetsOf, List.mem_singleton] at hcs
    subst hcs
    exact key 0 i x hx
  | some n =>
    rw [hs] at hcs
    simp only [subsetsOf, List.mem_map] at hcs
    obtain ⟨k, _, rfl⟩ := hcs
    exact key k i x hx

theorem addSubsets_subsets (heap : Heap F) (root : NodeId) (cells : Cells F) (p : Payload F) :
    (Vis.addSubsets heap root cells p).subsets = p.subsets ++
      (subsetsOf cells).zipIdx.map fun x => ⟨(p.subsets.length : Int) + x.2, x.1, root, heap⟩ := by
  cases cells with
  | flat cs => simp [Vis.addSubsets, Payload.add, subsetsOf]
  | tissues ts =>
    simp only [Vis.addSubsets, subsetsOf]
    induction ts generalizing p with
    | nil => simp
    | cons t ts ih =>
      rw [List.foldl_cons, ih]
      simp only [Payload.add, List.append_assoc, List.length_append, List.length_cons, List.length_nil,
        List.zipIdx_cons, List.map_cons, List.cons_append, List.nil_append]
      simp only [Int.natCast_zero, Int.add_zero, List.append_cancel_left_eq, List.cons.injEq, true_and]
      rw [List.zipIdx_succ, List.map_map]
      apply List.map_congr_left
      rintro ⟨a, n⟩ _
      simp
      omega

/-- How a successful decoding of subsets goes on. -/
theorem decodeSubsets_succ [GoFloat F] {t : Ast} {k : Nat} {p p' : Payload F} {s s' : Vis F} :
    Vis.decodeSubsets c t (k + 1) p s = (.ok p', s') ↔
      ∃ s1 root, Vis.visit c t s = (.ok (), s1) ∧ Vis.treeRoot s1 = (.ok root, s1) ∧
        Vis.decodeSubsets c t k (Vis.addSubsets s1.heap root s1.cells p) s1 = (.ok p', s') := by
  simp only [Vis.decodeSubsets, Vis.produce]
  rw [M.bind_eq_ok]
  constructor
  · rintro ⟨_, s1, h1, h2⟩
    obtain ⟨p1, s2, h2, h3⟩ := M.bind_eq_ok.1 h2
    obtain ⟨root, s3, h5, h4⟩ := M.bind_eq_ok.1 h2
    have hs3 : s3 = s1 := by
      unfold Vis.treeRoot at h5
      split at h5 <;> simp at h5
      exact h5.2.symm
    subst hs3
    simp only [Prod.mk.injEq, Outcome.ok.injEq] at h4
    obtain ⟨rfl, rfl⟩ := h4
    exact ⟨_, root, h1, h5, h3⟩
  · rintro ⟨s1, root, h1, h2, h3⟩
    refine ⟨_, s1, h1, ?_⟩
    exact M.bind_eq_ok.2 ⟨_, s1, M.bind_eq_ok.2 ⟨root, s1, h2, rfl⟩, h3⟩

/-- The subsets decoded from a fresh payload all come from one decoding. -/
theorem decodeSubsets_mem [GoFloat F] {t : Ast} {Q : Subset F → Prop}
    (hQ : ∀ s s1, Vis.visit c t s = (.ok (), s1) → ∀ root, Vis.treeRoot s1 = (.ok root, s1) →
      ∀ cs ∈ subsetsOf s1.cells, ∀ i, Q ⟨i, cs, root, s1.heap⟩) :
    ∀ k (p p' : Payload F) (s s' : Vis F), (∀ x ∈ p.subsets, Q x) →
      Vis.decodeSubsets c t k p s = (.ok p', s') → ∀ x ∈ p'.subsets, Q x
  | 0, p, p', s, s', hp, h => by
    simp only [Vis.decodeSubsets, M.pure_apply, Prod.mk.injEq, Outcome.ok.injEq] at h
    obtain ⟨rfl, rfl⟩ := h
    exact hp
  | k + 1, p, p', s, s', hp, h => by
    obtain ⟨s1, root, h1, h2, h3⟩ := decodeSubsets_succ.1 h
    refine decodeSubsets_mem hQ k _ _ _ _ ?_ h3
    intro x hx
    rw [addSubsets_subsets] at hx
    rcases List.mem_append.1 hx with hx | hx
    · exact hp x hx
    · obtain ⟨⟨cs, i⟩, hm, rfl⟩ := List.mem_map.1 hx
      have := List.mem_zipIdx hm
      exact hQ s s1 h1 root h2 cs (by rw [this.2.2]; exact List.getElem_mem _) _

/-- C49. In every decoded subset the node of cell `i` has the index `i`. -/
theorem C49_cell_index [GoFloat F] (hc : CfgOk c) {ns : List Ast} (hns : noBaseL ns = true) (d : Desc) (k : Nat)
    (b : Bool) (s s' : Vis F) (p : Payload F)
    (h : Vis.decodeSubsets c (.base d ns) k { compressed := b } s = (.ok p, s')) :
    ∀ x ∈ p.subsets, ∀ (i : Nat) (y : Cell F), x.cells[i]? = some y → cellIndex x.heap y = some (i : Int) := by
  refine decodeSubsets_mem (Q := fun x => ∀ (i : Nat) (y : Cell F), x.cells[i]? = some y →
    cellIndex x.heap y = some (i : Int)) ?_ k _ p s s' (by simp) h
  intro s s1 h1 root _ cs hcs i
  obtain ⟨_, ⟨ρ, hw⟩, _, _⟩ := root_table_ok hc hns d s s1 h1
  exact index_of_represents hw cs hcs

/-- C49. This covers all templates the parser accepts. -/
theorem C49_parsed [GoFloat F] (hc : CfgOk c) {lk : Lookup} (hg : GoodLookup lk) {ids : List ID} {fuel : Nat} {t : Ast}
    (ht : parse lk fuel ids = .ok t) (k : Nat) (b : Bool) (s s' : Vis F) (p : Payload F)
    (h : Vis.decodeSubsets c t k { compressed := b } s = (.ok p, s')) :
    ∀ x ∈ p.subsets, ∀ (i : Nat) (y : Cell F), x.cells[i]? = some y → cellIndex x.heap y = some (i : Int) := by
  obtain ⟨ns, f', rfl, _⟩ := parse_ok_iff.1 ht
  exact C49_cell_index hc (parse_noBase hg ⟨fuel, ht⟩) _ k b s s' p h

open PayloadExample in
example : values (Vis.decodeSubsets cfg (.base rootDescriptor [.element e4 false, .element e8 false]) 2
      (⟨[], false⟩ : Payload ToyFloat) (start [0x12, 0x34, 0x56])) = some [[.uint 1, .float ⟨0x23⟩], [.uint 4, .float ⟨0x56⟩]] := by
  decide +kernel

/-! ## C50 -/

/-- C50. Compressed binary data: one pass yields exactly as many subsets as announced, and all
have the same nodes (in the same order), the same root and the same tree. -/
theorem C50_shape [GoFloat F] (hc : CfgOk c) (hcomp : c.compressed = true ∧ c.inputType = .binary)
    {ns : List Ast} (hns : noBaseL ns = true) (d : Desc) (b : Bool) (s s' : Vis F) (p : Payload F)
    (h : Vis.decodeSubsets c (.base d ns) 1 { compressed := b } s = (.ok p, s')) :
    (p.subsets.length : Int) = c.nsubsets ∧
    p.subsets.map Subset.index = (List.range p.subsets.length).map (fun (i : Nat) => (i : Int)) ∧
    ∀ x ∈ p.subsets, ∀ y ∈ p.subsets,
      x.cells.map Cell.n = y.cells.map Cell.n ∧ x.root = y.root ∧ x.heap = y.heap := by
  obtain ⟨s1, root, h1, h2, h3⟩ := decodeSubsets_succ.1 h
  simp only [Vis.decodeSubsets, M.pure_apply, Prod.mk.injEq, Outcome.ok.injEq] at h3
  obtain ⟨rfl, rfl⟩ := h3
  have hn : ¬ c.nsubsets < 0 := by
    intro hn
    have : Vis.reset c s = (.panic "makeslice: len out of range", s) := if_pos ⟨hcomp.1, hcomp.2, hn⟩
    simp only [Vis.visit] at h1
    rw [M.bind_apply, this] at h1
    cases h1
  obtain ⟨_, ⟨ρ, hw⟩, _, _⟩ := root_table_ok hc hns d s s1 h1
  have hsub : (tableOf s1).subsets = some c.nsubsets.toNat := by rw [hw.subsets, if_pos hcomp]
  have hcells := hw.cells
  rw [hsub] at hcells
  simp only [] at hcells
  rw [addSubsets_subsets, hcells]
  simp only [subsetsOf, List.nil_append, List.length_nil]
  refine ⟨?_, ?_, ?_⟩
  · simp; omega
  · simp only [List.map_map, List.length_map, List.length_zipIdx, List.length_range]
    apply List.ext_getElem?
    intro i
    simp only [List.getElem?_map, List.getElem?_zipIdx]
    by_cases hi : i < c.nsubsets.toNat
    · simp [List.getElem?_range hi]
    · simp [List.getElem?_eq_none (show (List.range c.nsubsets.toNat).length ≤ i by simp; omega)]
  · intro x hx y hy
    obtain ⟨⟨xc, i⟩, hxm, rfl⟩ := List.mem_map.1 hx
    obtain ⟨⟨yc, j⟩, hym, rfl⟩ := List.mem_map.1 hy
    have hxc := (List.mem_zipIdx hxm).2.2
    have hyc := (List.mem_zipIdx hym).2.2
    refine ⟨?_, rfl, rfl⟩
    have nodes : ∀ k, (cellsOf ρ (tableOf s1).cols k).map Cell.n = ρ := by
      intro k
      unfold cellsOf
      rw [List.map_zipWith]
      apply List.ext_getElem?
      intro i
      rw [List.getElem?_zipWith]
      by_cases hi : i < ρ.length
      · have hi' : i < (tableOf s1).cols.length := by rw [← hw.nodes.length]; exact hi
        simp [List.getElem?_eq_getElem hi, List.getElem?_eq_getElem hi']
      · simp [List.getElem?_eq_none (show ρ.length ≤ i by omega)]
    simp only [] at hxc hyc ⊢
    rw [hxc, hyc]
    simp only [List.getElem_map, nodes]

open PayloadExample in
example : values (Vis.decodeSubsets cfgC (.base rootDescriptor [.element e4 false]) 1
      (⟨[], true⟩ : Payload ToyFloat) (start [0x10, 0x84])) = some [[.uint 1], [.uint 2]] := by
  decide +kernel

/-! ## C51 -/

/-- A visitor on which nothing has been decoded. -/
def freshVisitor (r : Reader F) : Vis F where
  r := r
  heap := []
  node := 0
  stack := []
  cells := .flat []
  nbitsOffset := 0
  scaleOffset := 0
  newRefval := none
  assoc := []
  nbitsIncrement := 0
  scaleIncrement := 0
  refvalFactor := 0
  nbitsString := 0
  bm := {}

/-- `xs` are the contents of subsets that were decoded one after the other, each with a fresh
visitor, from the input `r` on, leaving the input `r'`. -/
inductive OneByOne [GoFloat F] (c : VisCfg) (t : Ast) :
    Reader F → List (List (Cell F) × NodeId × Heap F) → Reader F → Prop where
  | nil (r) : OneByOne c t r [] r
  | cons (s : Vis F) (cells : List (Cell F)) : Vis.visit c t (freshVisitor r) = (.ok (), s) →
      s.cells = .flat cells → s.stack = [] → OneByOne c t s.r xs r' →
      OneByOne c t r ((cells, s.node, s.heap) :: xs) r'

/-- Decoding a subset only depends on the input. -/
theorem visit_base_fresh [GoFloat F] (d : Desc) (ns : List Ast) (s s' : Vis F) :
    Vis.visit c (.base d ns) s = (.ok (), s') ↔ Vis.visit c (.base d ns) (freshVisitor s.r) = (.ok (), s') := by
  simp only [Vis.visit]
  rw [M.bind_eq_ok, M.bind_eq_ok]
  have hr : ∀ (x : Vis F), Vis.reset c s = (.ok (), x) ↔ Vis.reset c (freshVisitor s.r) = (.ok (), x) := by
    intro x
    unfold Vis.reset
    by_cases h : c.compressed = true ∧ c.inputType = .binary ∧ c.nsubsets < 0
    · simp only [if_pos h]; simp
    · simp only [if_neg h]; rfl
  constructor
  · rintro ⟨⟨⟩, s1, h1, h2⟩
    exact ⟨(), s1, (hr s1).1 h1, h2⟩
  · rintro ⟨⟨⟩, s1, h1, h2⟩
    exact ⟨(), s1, (hr s1).2 h1, h2⟩

/-- C51. Decoding `k` uncompressed subsets is decoding them one by one with fresh visitors: what
an earlier subset left behind has no influence but for where the input goes on. -/
theorem C51_subsets [GoFloat F] (hc : CfgOk c) (hcomp : ¬ (c.compressed = true ∧ c.inputType = .binary))
    {ns : List Ast} (hns : noBaseL ns = true) (d : Desc) (k : Nat) (b : Bool) (s : Vis F) (p : Payload F)
    (r' : Reader F) :
    (∃ s', Vis.decodeSubsets c (.base d ns) k { compressed := b } s = (.ok p, s') ∧ s'.r = r') ↔
      p.compressed = b ∧ p.subsets.length = k ∧
      p.subsets.map Subset.index = (List.range k).map (fun (i : Nat) => (i : Int)) ∧
      OneByOne c (.base d ns) s.r (p.subsets.map fun x => (x.cells, x.root, x.heap)) r' := by
  have flat : ∀ s s1 : Vis F, Vis.visit c (.base d ns) s = (.ok (), s1) →
      (∃ cells, s1.cells = .flat cells) ∧ s1.stack = [] := by
    intro s s1 h
    obtain ⟨_, ⟨ρ, hw⟩, hst, _⟩ := root_table_ok hc hns d s s1 h
    have h1 := hw.cells
    rw [hw.subsets, if_neg hcomp] at h1
    exact ⟨⟨_, h1⟩, hst⟩
  have key : ∀ k (p0 p : Payload F) (s : Vis F) (r' : Reader F),
      (∃ s', Vis.decodeSubsets c (.base d ns) k p0 s = (.ok p, s') ∧ s'.r = r') ↔
      ∃ xs : List (List (Cell F) × NodeId × Heap F), xs.length = k ∧ OneByOne c (.base d ns) s.r xs r' ∧
        p = { p0 with subsets := p0.subsets ++
          xs.zipIdx.map fun x => ⟨(p0.subsets.length : Int) + x.2, x.1.1, x.1.2.1, x.1.2.2⟩ } := by
    intro k
    induction k with
    | zero =>
      intro p0 p s r'
      simp only [Vis.decodeSubsets, M.pure_apply, Prod.mk.injEq, Outcome.ok.injEq]
      constructor
      · rintro ⟨s', ⟨rfl, rfl⟩, rfl⟩
        exact ⟨[], rfl, .nil _, by simp⟩
      · rintro ⟨xs, hl, ho, rfl⟩
        obtain rfl := List.length_eq_zero_iff.1 hl
        cases ho
        exact ⟨s, ⟨by simp, rfl⟩, rfl⟩
    | succ k ih =>
      intro p0 p s r'
      have roots : ∀ s1 : Vis F, s1.stack = [] → ∀ root, Vis.treeRoot s1 = (.ok root, s1) → root = s1.node := by
        intro s1 hst root hr
        unfold Vis.treeRoot at hr
        rw [hst] at hr
        simp at hr
        exact hr.symm
      constructor
      · rintro ⟨s', h, rfl⟩
        obtain ⟨s1, root, h1, h2, h3⟩ := decodeSubsets_succ.1 h
        obtain ⟨⟨cells, hcl⟩, hst⟩ := flat s s1 h1
        obtain rfl := roots s1 hst root h2
        obtain ⟨xs, hl, ho, rfl⟩ := (ih _ p s1 s'.r).1 ⟨s', h3, rfl⟩
        refine ⟨(cells, s1.node, s1.heap) :: xs, by simp [hl],
          .cons s1 cells ((visit_base_fresh d ns s s1).1 h1) hcl hst ho, ?_⟩
        rw [hcl]
        simp only [Vis.addSubsets, Payload.add, List.append_assoc, List.zipIdx_cons, List.map_cons,
          List.cons_append, List.nil_append, List.length_append, List.length_cons, List.length_nil]
        simp only [Int.natCast_zero, Int.add_zero, Payload.mk.injEq, List.append_cancel_left_eq,
          List.cons.injEq, true_and, and_true]
        rw [List.zipIdx_succ, List.map_map]
        apply List.map_congr_left
        rintro ⟨a, n⟩ _
        simp
        omega
      · rintro ⟨xs, hl, ho, rfl⟩
        cases ho with
        | nil => simp at hl
        | cons s1 cells h1 hcl hst ho =>
          rename_i xs
          have h1' := (visit_base_fresh d ns s s1).2 h1
          have hroot : Vis.treeRoot s1 = (.ok s1.node, s1) := by simp [Vis.treeRoot, hst]
          obtain ⟨s', h3, hr⟩ := (ih (Vis.addSubsets s1.heap s1.node s1.cells p0) _ s1 r').2
            ⟨xs, by simpa using hl, ho, rfl⟩
          refine ⟨s', ?_, hr⟩
          rw [decodeSubsets_succ]
          refine ⟨s1, _, h1', hroot, ?_⟩
          rw [h3]
          rw [hcl]
          simp only [Vis.addSubsets, Payload.add, List.append_assoc, List.zipIdx_cons, List.map_cons,
            List.cons_append, List.nil_append, List.length_append, List.length_cons, List.length_nil]
          simp only [Int.natCast_zero, Int.add_zero, Prod.mk.injEq, Outcome.ok.injEq, Payload.mk.injEq,
            List.append_cancel_left_eq, List.cons.injEq, true_and, and_true]
          rw [List.zipIdx_succ, List.map_map]
          apply List.map_congr_left
          rintro ⟨a, n⟩ _
          simp
          omega
  rw [key k]
  constructor
  · rintro ⟨xs, hl, ho, rfl⟩
    refine ⟨rfl, by simp [hl], ?_, ?_⟩
    · apply List.ext_getElem?
      intro i
      simp only [List.nil_append, List.length_nil, List.map_map, List.getElem?_map, List.getElem?_zipIdx]
      by_cases hi : i < k
      · simp [List.getElem?_range hi, List.getElem?_eq_getElem (show i < xs.length by omega)]
      · simp [List.getElem?_eq_none (show xs.length ≤ i by omega),
          List.getElem?_eq_none (show (List.range k).length ≤ i by simp; omega)]
    · have : (xs.zipIdx.map fun x => (⟨(([] : List (Subset F)).length : Int) + x.2, x.1.1, x.1.2.1, x.1.2.2⟩
          : Subset F)).map (fun x => (x.cells, x.root, x.heap)) = xs := by
        rw [List.map_map]
        apply List.ext_getElem?
        intro i
        rw [List.getElem?_map, List.getElem?_zipIdx]
        cases xs[i]? <;> rfl
      simp only [List.nil_append]
      rw [this]
      exact ho
  · rintro ⟨rfl, hl, hidx, ho⟩
    refine ⟨_, by simp [hl], ho, ?_⟩
    obtain ⟨subs, comp⟩ := p
    simp only [Payload.mk.injEq, and_true, List.nil_append, List.length_nil] at hl hidx ⊢
    apply List.ext_getElem?
    intro i
    rw [List.getElem?_map, List.getElem?_zipIdx, List.getElem?_map]
    have hi := congrArg (fun l => l[i]?) hidx
    simp only [List.getElem?_map] at hi
    cases hx : subs[i]? with
    | none => rfl
    | some x =>
      have hlt := (List.getElem?_eq_some_iff.1 hx).1
      rw [hx, List.getElem?_range (by omega)] at hi
      simp only [Option.map_some, Option.some.injEq] at hi
      simp only [Option.map_some, Option.some.injEq]
      obtain ⟨a, b, e, f⟩ := x
      simp only [Subset.mk.injEq, and_true] at hi ⊢
      rw [hi]; simp

open PayloadExample in
-- an operator left open by the first subset does not change the width of the second one's element
example : values (Vis.decodeSubsets cfg (.base rootDescriptor [.element e8 false, .nbitsOffset (plain 201132)]) 2
      (⟨[], false⟩ : Payload ToyFloat) (start [0x12, 0x34])) = some [[.float ⟨0x12⟩], [.float ⟨0x34⟩]] := by
  decide +kernel

/-! ## C54 -/

theorem flat_visitL_append [GoFloat F] (as bs : List Ast) :
    Flat.visitL c (as ++ bs) = (Flat.visitL c as >>= fun _ => Flat.visitL c bs : M (State F) Unit) := by
  induction as with
  | nil => simp only [List.nil_append, Flat.visitL, M.pure_bind]
  | cons a as ih =>
    simp only [List.cons_append, Flat.visitL, ih, M.bind_assoc]

theorem flat_visitL_repeat [GoFloat F] (ms : List Ast) (n : Nat) :
    Flat.visitL c (List.replicate n ms).flatten = (Vis.repeatM (Flat.visitL c ms) n : M (State F) Unit) := by
  induction n with
  | zero => simp [Flat.visitL, Vis.repeatM]
  | succ n ih => simp only [List.replicate_succ, List.flatten_cons, flat_visitL_append, ih, Vis.repeatM]

theorem noBaseL_append (as bs : List Ast) : noBaseL (as ++ bs) = (noBaseL as && noBaseL bs) := by
  induction as with
  | nil => rfl
  | cons a as ih => simp only [List.cons_append, noBaseL, ih, Bool.and_assoc]

theorem noBaseL_repeat {ms : List Ast} (h : noBaseL ms = true) (n : Nat) :
    noBaseL (List.replicate n ms).flatten = true := by
  induction n with
  | zero => rfl
  | succ n ih => rw [List.replicate_succ, List.flatten_cons, noBaseL_append, h, ih]; rfl

/-- The two runs end alike: the same outcome, and (if they end at all) with the same tables, in
consistent states and with the same parents in the tree. -/
structure SameRun (c : VisCfg) (s : Vis F) (x y : Outcome Unit × Vis F) : Prop where
  outcome : x.1 = y.1
  table : x.1 ≠ .diverge → tableOf x.2 = tableOf y.2
  wf : x.1 ≠ .diverge → WellFormed c x.2 ∧ WellFormed c y.2
  stack : x.1 ≠ .diverge → x.2.stack = s.stack ∧ y.2.stack = s.stack ∧ x.2.node = s.node ∧ y.2.node = s.node

theorem sameRun [GoFloat F] (hc : CfgOk c) {t : Ast} {ts : List Ast} (ht : noBase t = true) (hts : noBaseL ts = true)
    {s : Vis F} (hs : WellFormed c s) (h : Flat.visit c t (tableOf s) = Flat.visitL c ts (tableOf s)) :
    SameRun c s (Vis.visit c t s) (Vis.visitL c ts s) := by
  have ho : (Vis.visit c t s).1 = (Vis.visitL c ts s).1 := by
    rw [visit_outcome hc ht hs, visitL_outcome hc hts hs, h]
  have h1 := fun hd => visit_table hc ht hs (o := (Vis.visit c t s).1) (s' := (Vis.visit c t s).2) rfl hd
  have h2 := fun hd => visitL_table hc hts hs (o := (Vis.visitL c ts s).1) (s' := (Vis.visitL c ts s).2) rfl hd
  rw [← ho] at h2
  refine ⟨ho, fun hd => ?_, fun hd => ⟨(h1 hd).2.1, (h2 hd).2.1⟩, fun hd => ?_⟩
  · have e1 := (h1 hd).1
    have e2 := (h2 hd).1
    rw [h, e2] at e1
    exact (Prod.mk.inj e1).2.symm
  · exact ⟨(h1 hd).2.2.1, (h2 hd).2.2.1, (h1 hd).2.2.2, (h2 hd).2.2.2⟩

theorem query_bind {q : σ → Outcome α} {s : σ} {a : α} (h : q s = .ok a) (k : α → M σ β) :
    ((fun s => (q s, s) : M σ α) >>= k) s = k a s := by
  apply M.bind_ok
  rw [← h]

theorem lift_bind {o : Outcome α} {a : α} (h : o = .ok a) (k : α → M σ β) (s : σ) :
    ((M.lift o : M σ α) >>= k) s = k a s := query_bind (q := fun _ => o) h k

theorem delayed_eq [GoFloat F] {factor block : M (State F) Unit} {f f1 : State F} {n : Int} {v : Val F} {k : Nat}
    (h1 : factor f = (.ok (), f1)) (h2 : f1.lastEqual = .ok true) (h3 : f1.len = .ok n)
    (h4 : f1.value (n - 1) = .ok v) (h5 : (⟨0, v⟩ : Cell F).uintValue = .ok k) :
    Flat.delayed factor block f = Vis.repeatM block k f1 := by
  unfold Flat.delayed
  rw [M.bind_ok h1]
  refine (query_bind h2 _).trans ?_
  simp only [Bool.not_true, Bool.false_eq_true, if_false]
  refine (query_bind h3 _).trans ?_
  refine (query_bind (q := fun f : State F => f.value (n - 1)) h4 _).trans ?_
  exact lift_bind h5 _ _

/-- C54. A fixed replication decodes like its block written `Y` times in a row. -/
theorem C54_fixed [GoFloat F] (hc : CfgOk c) (d : Desc) {ms : List Ast} (hms : noBaseL ms = true) {s : Vis F}
    (hs : WellFormed c s) :
    SameRun c s (Vis.visit c (.fixedRepl d ms) s) (Vis.visitL c (List.replicate d.id.Y.toNat ms).flatten s) := by
  refine sameRun hc (by simpa [noBase] using hms) (noBaseL_repeat hms _) hs ?_
  rw [flat_visitL_repeat]
  simp only [Flat.visit]

/-- C54. A delayed replication decodes like its factor followed by the block written as often as
the decoded factor says: the factor decodes, its value is the same in all subsets, and it is
the number `k`. -/
theorem C54_delayed [GoFloat F] (hc : CfgOk c) (d : Desc) {m : Ast} {ms : List Ast} (hm : noBase m = true)
    (hms : noBaseL ms = true) {s s1 : Vis F} (hs : WellFormed c s) (h1 : Vis.visit c m s = (.ok (), s1))
    (hsame : s1.cells.lastCellEquality = .ok true) (n : Int) (hn : s1.cells.len = .ok n) (x : Cell F)
    (hx : s1.cells.cell (n - 1) = .ok x) (k : Nat) (hk : x.uintValue = .ok k) :
    SameRun c s (Vis.visit c (.delayedRepl d (m :: ms)) s)
      (Vis.visitL c (m :: (List.replicate k ms).flatten) s) := by
  refine sameRun hc (by simp [noBase, noBaseL, hm, hms]) (by simp [noBaseL, hm, noBaseL_repeat hms]) hs ?_
  obtain ⟨e, ⟨ρ, hw⟩, _, _⟩ := visit_table hc hm hs h1 (by simp)
  rw [hw.lastEqual] at hsame
  rw [hw.len] at hn
  have hv := hw.value (n - 1)
  rw [hx] at hv
  cases hfv : (tableOf s1).value (n - 1) with
  | ok v =>
    rw [hfv] at hv
    obtain ⟨_, hv⟩ := hv
    have hk' : (⟨0, v⟩ : Cell F).uintValue = .ok k := by rw [← hv, ← hk]; rfl
    simp only [Flat.visit, Flat.visitL, flat_visitL_repeat]
    rw [delayed_eq e hsame hn hfv hk', M.bind_ok e]
  | err e => rw [hfv] at hv; exact False.elim hv
  | panic e => rw [hfv] at hv; exact False.elim hv
  | diverge => rw [hfv] at hv; exact False.elim hv

open PayloadExample in
example : SameRun cfg (ready cfg [0x12]) (Vis.visit cfg (.fixedRepl (plain 101002) [.element e4 false]) (ready cfg [0x12]))
      (Vis.visitL cfg [.element e4 false, .element e4 false] (ready cfg [0x12])) :=
  C54_fixed cfg_ok (plain 101002) (ms := [.element e4 false]) rfl (ready_wf _)

open PayloadExample in
example : SameRun cfgC (ready cfgC [0x30, 0x20, 0x80, 0x81, 0x88])
      (Vis.visit cfgC (.delayedRepl (plain 101000) [.element e4 false, .element e4 false])
        (ready cfgC [0x30, 0x20, 0x80, 0x81, 0x88]))
      (Vis.visitL cfgC [.element e4 false, .element e4 false, .element e4 false, .element e4 false]
        (ready cfgC [0x30, 0x20, 0x80, 0x81, 0x88])) := by
  have h1 : (Vis.visit cfgC (.element e4 false) (ready cfgC [0x30, 0x20, 0x80, 0x81, 0x88])).1 = .ok () := by
    decide +kernel
  exact C54_delayed cfgC_ok (plain 101000) (m := .element e4 false) (ms := [.element e4 false]) rfl rfl
    (s1 := (Vis.visit cfgC (.element e4 false) (ready cfgC [0x30, 0x20, 0x80, 0x81, 0x88])).2)
    (readyC_wf _) (Prod.ext h1 rfl) (by decide +kernel) 1 (by decide +kernel) ⟨1, .uint 3⟩ (by decide +kernel) 3 rfl

/-! ## C55 -/

/-- C55. A sequence decodes like its members written in line. -/
theorem C55_sequence [GoFloat F] (hc : CfgOk c) (d : Desc) {ms : List Ast} (hms : noBaseL ms = true) {s : Vis F}
    (hs : WellFormed c s) : SameRun c s (Vis.visit c (.sequence d ms) s) (Vis.visitL c ms s) := by
  refine sameRun hc (by simpa [noBase] using hms) hms hs ?_
  simp only [Flat.visit]

/-- C55. ... and wherever it stands in a list of nodes. -/
theorem C55_inline [GoFloat F] (hc : CfgOk c) (d : Desc) {as ms bs : List Ast} (ha : noBaseL as = true)
    (hm : noBaseL ms = true) (hb : noBaseL bs = true) {s : Vis F} (hs : WellFormed c s) :
    let x := Vis.visitL c (as ++ .sequence d ms :: bs) s
    let y := Vis.visitL c (as ++ ms ++ bs) s
    x.1 = y.1 ∧ (x.1 ≠ .diverge → tableOf x.2 = tableOf y.2) := by
  have n1 : noBaseL (as ++ .sequence d ms :: bs) = true := by simp [noBaseL_append, noBaseL, noBase, ha, hm, hb]
  have n2 : noBaseL (as ++ ms ++ bs) = true := by simp [noBaseL_append, ha, hm, hb]
  have e : Flat.visitL c (as ++ .sequence d ms :: bs) = (Flat.visitL c (as ++ ms ++ bs) : M (State F) Unit) := by
    simp only [flat_visitL_append, Flat.visitL, Flat.visit, M.bind_assoc]
  simp only []
  have ho : (Vis.visitL c (as ++ .sequence d ms :: bs) s).1 = (Vis.visitL c (as ++ ms ++ bs) s).1 := by
    rw [visitL_outcome hc n1 hs, visitL_outcome hc n2 hs, e]
  refine ⟨ho, fun hd => ?_⟩
  have h1 := (visitL_table hc n1 hs (o := (Vis.visitL c (as ++ .sequence d ms :: bs) s).1)
    (s' := (Vis.visitL c (as ++ .sequence d ms :: bs) s).2) rfl hd).1
  have h2 := (visitL_table hc n2 hs (o := (Vis.visitL c (as ++ ms ++ bs) s).1)
    (s' := (Vis.visitL c (as ++ ms ++ bs) s).2) rfl (ho ▸ hd)).1
  rw [e, h2] at h1
  exact (Prod.mk.inj h1).2.symm

/-- The states in which C54, C55 and the theorems below apply: those reached while decoding a
subset, up to any point of the template. -/
theorem reached_wellFormed [GoFloat F] (hc : CfgOk c) {ns : List Ast} (hns : noBaseL ns = true) (d : Desc)
    {s s' : Vis F} (h : Vis.visit c (.base d ns) s = (.ok (), s')) : WellFormed c s' :=
  (root_table_ok hc hns d s s' h).2.1

open PayloadExample in
example : SameRun cfg (ready cfg [0x12, 0x34])
    (Vis.visit cfg (.sequence (plain 301001) [.element e4 false, .element e8 false]) (ready cfg [0x12, 0x34]))
    (Vis.visitL cfg [.element e4 false, .element e8 false] (ready cfg [0x12, 0x34])) :=
  C55_sequence cfg_ok (plain 301001) rfl (ready_wf _)

/-! ## C79 -/

/-- C79. Whether it succeeds or fails, decoding a node leaves the parents in the tree as they were. -/
theorem C79_balanced [GoFloat F] (hc : CfgOk c) {t : Ast} (ht : noBase t = true) {s s' : Vis F}
    (hs : WellFormed c s) {o : Outcome Unit} (h : Vis.visit c t s = (o, s')) (hd : o ≠ .diverge) :
    s'.stack = s.stack ∧ s'.node = s.node :=
  (visit_table hc ht hs h hd).2.2

/-- C79. Once a subset has been decoded, or has failed to decode, `Produce` finds the root alone on
the stack (unless a negative number of subsets was announced, when decoding never starts). -/
theorem C79_produce [GoFloat F] (hc : CfgOk c) {ns : List Ast} (hns : noBaseL ns = true) (d : Desc)
    (hn : 0 ≤ c.nsubsets) {s s' : Vis F} {o : Outcome Unit} (h : Vis.visit c (.base d ns) s = (o, s'))
    (hd : o ≠ .diverge) (p : Payload F) :
    s'.stack = [] ∧ s'.node = 0 ∧ (Vis.produce p s').1 = .ok (Vis.addSubsets s'.heap 0 s'.cells p) := by
  rcases root_table hc hns d s s' o h hd with ⟨_, _, h1, h2⟩ | ⟨_, _, h⟩
  · refine ⟨h1, h2, ?_⟩
    have e : Vis.treeRoot s' = (.ok 0, s') := by simp [Vis.treeRoot, h1, h2]
    unfold Vis.produce
    exact congrArg Prod.fst (M.bind_ok e)
  · omega

/-- C79. So decoding subsets fails only where a subset fails to decode. -/
theorem C79_no_stack_error [GoFloat F] (hc : CfgOk c) {ns : List Ast} (hns : noBaseL ns = true) (d : Desc) :
    ∀ (k : Nat) (p : Payload F) (s : Vis F) (e : Err),
      (Vis.decodeSubsets c (.base d ns) k p s).1 = .err e →
      ∃ s1 s2 : Vis F, Vis.visit c (.base d ns) s1 = (.err e, s2)
  | 0, p, s, e, h => by simp [Vis.decodeSubsets] at h
  | k + 1, p, s, e, h => by
    simp only [Vis.decodeSubsets] at h
    rw [M.bind_apply] at h
    rcases hv : Vis.visit c (.base d ns) s with ⟨o, s1⟩
    rw [hv] at h
    cases o with
    | ok u =>
      simp only [] at h
      obtain ⟨_, _, h1, h2⟩ := root_table_ok hc hns d s s1 hv
      have e1 : Vis.treeRoot s1 = (.ok 0, s1) := by simp [Vis.treeRoot, h1, h2]
      have e2 : Vis.produce p s1 = (.ok (Vis.addSubsets s1.heap 0 s1.cells p), s1) := by
        unfold Vis.produce
        exact M.bind_ok e1
      rw [M.bind_ok e2] at h
      exact C79_no_stack_error hc hns d k _ _ e h
    | err e' => simp only [Outcome.err.injEq] at h; subst h; exact ⟨s, s1, hv⟩
    | panic w => simp at h
    | diverge => simp at h

open PayloadExample in
-- an input that ends inside a sequence inside a replication
example : let x := Vis.visit cfg (.base rootDescriptor [.fixedRepl (plain 101002)
      [.sequence (plain 301001) [.element e4 false, .element e8 false]]]) (start [0x12, 0x34])
    x.1 = .err .eof ∧ x.2.stack = [] ∧ x.2.node = 0 ∧ x.2.heap.length = 9 := by
  decide +kernel

end Gobufr
