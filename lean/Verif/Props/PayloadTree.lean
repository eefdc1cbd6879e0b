import Verif.Props.PayloadBitmap
import Verif.Proofs.PayloadTree
import Verif.Proofs.PayloadLeaf
import Verif.Proofs.Unpack

/-!
# Properties of payload decoding: the tree, replication factors, reference values, data not
present (C39, C60, C62, C65)
-/

set_option linter.unusedSimpArgs false

namespace Gobufr
open TemplateSpec ParserSpec Flat

variable {F : Type} {c : VisCfg}

/-! ## C60 -/

/-- The nodes that are reached from a node by going to members. -/
inductive Reach (heap : Heap F) (root : NodeId) : NodeId → Prop where
  | refl : Reach heap root root
  | step {n m : NodeId} {x : Node F} : Reach heap root n → heap[n]? = some x → some m ∈ x.members → Reach heap root m

theorem reach_member {heap : Heap F} {root n : NodeId} (h : some n ∈ membersOf heap root) : Reach heap root n := by
  unfold membersOf at h
  cases hx : heap[root]? with
  | none => rw [hx] at h; simp at h
  | some x => rw [hx] at h; exact .step .refl hx h

/-- C60, the property: every value of a decoded subset is reached from its root. -/
def C60_statement : Prop :=
  ∀ (F : Type) [GoFloat F] (c : VisCfg) (ns : List Ast) (d : Desc) (k : Nat) (b : Bool) (s s' : Vis F) (p : Payload F),
    CfgOk c → noBaseL ns = true → Vis.decodeSubsets c (.base d ns) k { compressed := b } s = (.ok p, s') →
    ∀ x ∈ p.subsets, ∀ y ∈ x.cells, Reach x.heap x.root y.n

/-- Decoding nothing but a sequence or replication leaves the root without members. -/
theorem reach_bare {heap : Heap F} {root n : NodeId} (h0 : membersOf heap root = []) (h : Reach heap root n) : n = root := by
  induction h with
  | refl => rfl
  | step h1 h2 h3 ih =>
    subst ih
    unfold membersOf at h0
    rw [h2] at h0
    simp only [Option.map_some, Option.getD_some] at h0
    rw [h0] at h3
    simp at h3

open PayloadExample in
/-- C60 is violated: the values in a sequence are not reached from the root. -/
theorem C60_violates : ¬ C60_statement := by
  intro h
  let x := Vis.decodeSubsets cfg (.base rootDescriptor [.sequence (plain 301001) [.element e4 false]]) 1
    ({ compressed := false } : Payload ToyFloat) (start [0x50])
  have k1 : ∃ p, x.1 = .ok p ∧ ∃ y, p.subsets[0]? = some y ∧ ∃ z, y.cells[0]? = some z ∧ z.n = 2 ∧ y.root = 0 ∧
      membersOf y.heap 0 = [] := by
    have k2 : (match x.1 with
      | .ok p => match p.subsets[0]? with
        | some y => match y.cells[0]? with
          | some z => decide (z.n = 2 ∧ y.root = 0 ∧ membersOf y.heap 0 = [])
          | none => false
        | none => false
      | _ => false) = true := by decide +kernel
    revert k2
    generalize x.1 = o
    cases o with
    | ok p =>
      intro k2
      simp only [] at k2
      refine ⟨p, rfl, ?_⟩
      cases hy : p.subsets[0]? with
      | none => rw [hy] at k2; cases k2
      | some y =>
        rw [hy] at k2
        simp only [] at k2
        refine ⟨y, rfl, ?_⟩
        cases hz : y.cells[0]? with
        | none => rw [hz] at k2; cases k2
        | some z =>
          rw [hz] at k2
          exact ⟨z, rfl, of_decide_eq_true k2⟩
    | err e => intro k2; cases k2
    | panic e => intro k2; cases k2
    | diverge => intro k2; cases k2
  obtain ⟨p, hp, y, hy, z, hz, h1, h2, h3⟩ := k1
  have hr := h ToyFloat cfg _ _ 1 false (start [0x50]) x.2 p cfg_ok (by decide) (eq_of_fst hp) y
    (List.mem_of_getElem? hy) z (List.mem_of_getElem? hz)
  rw [h1, h2] at hr
  exact absurd (reach_bare h3 hr) (by decide)

/-- C60. In any template: the values of a top level node without sequences and replications in it
are reached from the root in the end. -/
theorem C60_top_partial [GoFloat F] (hc : CfgOk c) {as bs : List Ast} {t : Ast} (has : noBaseL as = true)
    (ht : noBase t = true) (hbs : noBaseL bs = true) (hp : ∀ n ∈ nodes t, ¬ Pushes n) {s s0 s1 s2 s' : Vis F}
    (h0 : Vis.reset c s = (.ok (), s0)) (h1 : Vis.visitL c as s0 = (.ok (), s1))
    (h2 : Vis.visit c t s1 = (.ok (), s2)) (h3 : Vis.visitL c bs s2 = (.ok (), s')) :
    ∀ n ∈ allNodes s2, n ∉ allNodes s1 → Reach s'.heap 0 n := by
  intro n hn hno
  obtain ⟨hr, hst, hnode, _⟩ := represents_fresh c s s0 h0
  obtain ⟨_, ⟨ρ1, hw1⟩, _, hn1⟩ := visitL_table hc has hr.wellFormed h1 (by simp)
  have e1 : s1.node = 0 := by rw [hn1, hnode]
  have hT := (keeps_tops (c := c)).visit t ht hp s1
  rw [h2] at hT
  have hG := (keeps_grows (c := c)).visitL bs hbs (fun _ _ => trivial) s2
  rw [h3] at hG
  rcases hT.cells hw1.node.lt n hn with h | h
  · exact absurd h hno
  · refine reach_member (hG _ _ ?_)
    rwa [e1] at h

/-- C60. In templates without sequences and replications every value is reached. -/
theorem C60_flat_partial [GoFloat F] (hc : CfgOk c) {ns : List Ast} (hns : noBaseL ns = true)
    (hp : ∀ n ∈ nodesL ns, ¬ Pushes n) (d : Desc) (k : Nat) (b : Bool) (s s' : Vis F) (p : Payload F)
    (h : Vis.decodeSubsets c (.base d ns) k { compressed := b } s = (.ok p, s')) :
    ∀ x ∈ p.subsets, ∀ y ∈ x.cells, Reach x.heap x.root y.n := by
  refine decodeSubsets_mem (Q := fun x => ∀ y ∈ x.cells, Reach x.heap x.root y.n) ?_ k _ p s s' (by simp) h
  intro s s1 h1 root hroot cs hcs i y hy
  simp only [Vis.visit] at h1
  obtain ⟨_, s0, h0, h1⟩ := M.bind_eq_ok.1 h1
  obtain ⟨hr, hst, hnode, _⟩ := represents_fresh c s s0 h0
  obtain ⟨_, _, hst1, hn1⟩ := visitL_table hc hns hr.wellFormed h1 (by simp)
  have hT := (keeps_tops (c := c)).visitL ns hns hp s0
  rw [h1] at hT
  have hroot' : root = 0 := by
    unfold Vis.treeRoot at hroot
    rw [hst1, hst] at hroot
    simp only [List.isEmpty_nil, if_true, Prod.mk.injEq, Outcome.ok.injEq, and_true] at hroot
    rw [← hroot, hn1, hnode]
  have hempty : allNodes s0 = [] := by
    have hc0 := hr.cells
    unfold allNodes
    rw [hc0]
    unfold fresh
    simp only []
    split <;> simp [subsetsOf, cellsOf]
  rcases hT.cells hr.node.lt y.n (List.mem_map.2 ⟨y, List.mem_flatten.2 ⟨cs, hcs, hy⟩, rfl⟩) with h | h
  · rw [hempty] at h; simp at h
  · rw [hnode] at h
    rw [hroot']
    exact reach_member h

open PayloadExample in
example : let x := Vis.decodeSubsets cfg (.base rootDescriptor [.element e4 false, .nbitsOffset (plain 201132),
      .element e8 false]) 1 (⟨[], false⟩ : Payload ToyFloat) (start [0x12, 0x34])
    values x = some [[.uint 1, .float ⟨0x234⟩]] ∧ (∀ n ∈ nodesL [.element e4 false, .nbitsOffset (plain 201132),
      .element e8 false], ¬ Pushes n) := by
  refine ⟨by decide +kernel, ?_⟩
  simp [nodesL, nodes, Pushes]

/-- When no member of the root has members, only the root and its members are reached. -/
theorem reach_shallow {heap : Heap F} {root n : NodeId}
    (h0 : ∀ m, some m ∈ membersOf heap root → membersOf heap m = []) (h : Reach heap root n) :
    n = root ∨ some n ∈ membersOf heap root := by
  induction h with
  | refl => exact Or.inl rfl
  | @step n m x h1 h2 h3 ih =>
    have h4 : some m ∈ membersOf heap n := by
      unfold membersOf
      rw [h2]
      exact h3
    rcases ih with rfl | ih
    · exact Or.inr h4
    · rw [h0 n ih] at h4
      simp at h4

/-- C60. In templates without associated fields and assessments: the values in a sequence or
replication at the top level are not reached from the root in the end. -/
theorem C60_inner [GoFloat F] {as bs : List Ast} {t : Ast} (has : noBaseL as = true)
    (ht : noBase t = true) (hbs : noBaseL bs = true) (ha : ∀ n ∈ nodesL (as ++ t :: bs), ¬ Attaches n) (hp : Pushes t)
    {s s0 s1 s2 s' : Vis F}
    (h0 : Vis.reset c s = (.ok (), s0)) (h1 : Vis.visitL c as s0 = (.ok (), s1))
    (h2 : Vis.visit c t s1 = (.ok (), s2)) (h3 : Vis.visitL c bs s2 = (.ok (), s')) :
    ∀ n ∈ allNodes s2, n ∉ allNodes s1 → ¬ Reach s'.heap 0 n := by
  intro n hn hno hreach
  have hs0 : s0.assoc = [] ∧ s0.node = 0 ∧ s0.heap = [⟨.block, []⟩] := by
    unfold Vis.reset at h0
    split at h0
    · cases h0
    · rw [← (Prod.mk.inj h0).2]
      exact ⟨rfl, rfl, rfl⟩
  obtain ⟨e1, e2, e3⟩ := hs0
  have hmem : ∀ x ∈ nodesL as ++ nodes t ++ nodesL bs, x ∈ nodesL (as ++ t :: bs) := by
    intro x hx
    have : ∀ (l r : List Ast), nodesL (l ++ r) = nodesL l ++ nodesL r := by
      intro l r
      induction l with
      | nil => rfl
      | cons a l ih => simp [nodesL, ih]
    rw [this]
    simp only [nodesL, List.append_assoc] at hx ⊢
    exact hx
  have k1 : Leafy s0 s1 := by
    have := LeafyIf.visitL as has (fun x hx => ha x (hmem x (by simp [hx]))) s0 (by rw [h1]; simp) e1 (by rw [e2, e3]; simp)
    rwa [h1] at this
  have l1 : s1.node < s1.heap.length := by
    rw [k1.node, e2]
    exact Nat.lt_of_lt_of_le (by rw [e3]; simp) k1.length
  have n1 : s1.node = 0 := k1.node.trans e2
  have hta : ∀ x ∈ nodes t, ¬ Attaches x := fun x hx => ha x (hmem x (by simp [hx]))
  have k2 : Leafy s1 s2 := by
    have := LeafyIf.visit t ht hta s1 (by rw [h2]; simp) k1.assoc l1
    rwa [h2] at this
  have o2 := LeafyIf.visit_old hp ht hta s1 (by rw [h2]; simp) k1.assoc l1
  rw [h2] at o2
  have l2 : s2.node < s2.heap.length := by
    rw [k2.node]
    exact Nat.lt_of_lt_of_le l1 k2.length
  have k3 : Leafy s2 s' := by
    have := LeafyIf.visitL bs hbs (fun x hx => ha x (hmem x (by simp [hx]))) s2 (by rw [h3]; simp) k2.assoc l2
    rwa [h3] at this
  have l0 : s0.node < s0.heap.length := by rw [e2, e3]; simp
  have k := (k1.trans l0 k2).trans l0 k3
  have hm0 : membersOf s0.heap 0 = [] := by rw [e3]; rfl
  have hnew := k.new
  rw [e2, hm0] at hnew
  have hsh : ∀ m, some m ∈ membersOf s'.heap 0 → membersOf s'.heap m = [] := by
    intro m hm
    rcases hnew m hm with h | h
    · simp at h
    · exact h.2.2
  have hlo : s1.heap.length ≤ n ∧ n < s2.heap.length := by
    rcases k2.cells n hn with h | h
    · exact absurd h hno
    · exact h
  have hn2 : s2.node = 0 := k2.node.trans n1
  rcases reach_shallow hsh hreach with h | h
  · rw [h] at hlo
    rw [n1] at l1
    exact absurd hlo.1 (Nat.not_le.2 l1)
  · rw [← hn2] at h
    rcases k3.new n h with h | h
    · rw [hn2, o2 0 (by rw [n1] at l1; exact l1)] at h
      have hnew1 := k1.new
      rw [e2, hm0] at hnew1
      rcases hnew1 n h with h | h
      · simp at h
      · exact absurd hlo.1 (Nat.not_le.2 h.2.1)
    · exact absurd h.1 (Nat.not_le.2 hlo.2)

open PayloadExample in
example : let t : Ast := .sequence (plain 301001) [.element e4 false]
    let s0 := (Vis.reset cfg (start [0x12, 0x30])).2
    let s1 := (Vis.visitL cfg [.element e4 false] s0).2
    let s2 := (Vis.visit cfg t s1).2
    (Vis.reset cfg (start [0x12, 0x30])).1 = .ok () ∧
    (Vis.visitL cfg [.element e4 false] s0).1 = .ok () ∧ (Vis.visit cfg t s1).1 = .ok () ∧
    (Vis.visitL cfg [.element e4 false] s2).1 = .ok () ∧ allNodes s1 = [1] ∧ allNodes s2 = [1, 3] ∧
    (∀ n ∈ nodesL ([.element e4 false] ++ t :: [.element e4 false]), ¬ Attaches n) ∧ Pushes t := by
  refine ⟨by decide +kernel, by decide +kernel, by decide +kernel, by decide +kernel, by decide +kernel,
    by decide +kernel, ?_, trivial⟩
  simp [nodesL, nodes, Attaches]

theorem visitL_bare [GoFloat F] : ∀ {ns : List Ast}, noBaseL ns = true → (∀ n ∈ nodesL ns, ¬ Attaches n) →
    (∀ t ∈ ns, Pushes t) → ∀ {s s' : Vis F}, s.assoc = [] → s.node < s.heap.length → Vis.visitL c ns s = (.ok (), s') →
    membersOf s'.heap s.node = membersOf s.heap s.node
  | [], _, _, _, s, s', _, _, h => by
    simp only [Vis.visitL] at h
    rw [← (Prod.mk.inj h).2]
  | t :: ts, hb, ha, hp, s, s', h0, hn, h => by
    simp only [Vis.visitL] at h
    obtain ⟨_, s1, h1, h2⟩ := M.bind_eq_ok.1 h
    simp only [noBaseL, Bool.and_eq_true] at hb
    have hta : ∀ x ∈ nodes t, ¬ Attaches x := fun x hx => ha x (by simp [nodesL, hx])
    have k1 := LeafyIf.visit (c := c) t hb.1 hta s (by rw [h1]; simp) h0 hn
    have o1 := LeafyIf.visit_old (hp t (by simp)) hb.1 hta s (c := c) (by rw [h1]; simp) h0 hn
    rw [h1] at k1 o1
    have := visitL_bare (ns := ts) hb.2 (fun x hx => ha x (by simp [nodesL, hx])) (fun x hx => hp x (by simp [hx]))
      k1.assoc (by rw [k1.node]; exact Nat.lt_of_lt_of_le hn k1.length) h2
    rw [k1.node] at this
    rw [this, o1 _ hn]

/-- C60. When all top level nodes of the template are sequences and replications, and there are no
associated fields and no assessments, no value at all is reached from the root. -/
theorem C60_none [GoFloat F] (hc : CfgOk c) {ns : List Ast} (hns : noBaseL ns = true)
    (ha : ∀ n ∈ nodesL ns, ¬ Attaches n) (hp : ∀ t ∈ ns, Pushes t) (d : Desc) (k : Nat) (b : Bool) (s s' : Vis F)
    (p : Payload F) (h : Vis.decodeSubsets c (.base d ns) k { compressed := b } s = (.ok p, s')) :
    ∀ x ∈ p.subsets, ∀ y ∈ x.cells, ¬ Reach x.heap x.root y.n := by
  refine decodeSubsets_mem (Q := fun x => ∀ y ∈ x.cells, ¬ Reach x.heap x.root y.n) ?_ k _ p s s' (by simp) h
  intro s s1 h1 root hroot cs hcs i y hy hreach
  simp only [Vis.visit] at h1
  obtain ⟨_, s0, h0, h1⟩ := M.bind_eq_ok.1 h1
  obtain ⟨hr, hst, hnode, _⟩ := represents_fresh c s s0 h0
  obtain ⟨_, _, hst1, hn1⟩ := visitL_table hc hns hr.wellFormed h1 (by simp)
  have hs0 : s0.assoc = [] ∧ s0.heap = [⟨.block, []⟩] := by
    unfold Vis.reset at h0
    split at h0
    · cases h0
    · rw [← (Prod.mk.inj h0).2]
      exact ⟨rfl, rfl⟩
  have hroot' : root = 0 := by
    unfold Vis.treeRoot at hroot
    rw [hst1, hst] at hroot
    simp only [List.isEmpty_nil, if_true, Prod.mk.injEq, Outcome.ok.injEq, and_true] at hroot
    rw [← hroot, hn1, hnode]
  have hempty : allNodes s0 = [] := by
    have hc0 := hr.cells
    unfold allNodes
    rw [hc0]
    unfold fresh
    simp only []
    split <;> simp [subsetsOf, cellsOf]
  have l0 : s0.node < s0.heap.length := hr.node.lt
  have hL := LeafyIf.visitL (c := c) ns hns ha s0 (by rw [h1]; simp) hs0.1 l0
  rw [h1] at hL
  have hbare := visitL_bare hns ha hp hs0.1 l0 h1
  rw [hnode, hs0.2] at hbare
  subst hroot'
  have e := reach_bare (show membersOf s1.heap 0 = [] from hbare) hreach
  rcases hL.cells y.n (List.mem_map.2 ⟨y, List.mem_flatten.2 ⟨cs, hcs, hy⟩, rfl⟩) with h | h
  · rw [hempty] at h; simp at h
  · rw [e, hs0.2] at h
    simp at h

open PayloadExample in
example : let ns : List Ast := [.sequence (plain 301001) [.element e4 false, .fixedRepl (plain 101001) [.element e4 false]]]
    values (Vis.decodeSubsets cfg (.base rootDescriptor ns) 1 (⟨[], false⟩ : Payload ToyFloat) (start [0x12]))
      = some [[.uint 1, .uint 2]] ∧ (∀ n ∈ nodesL ns, ¬ Attaches n) ∧ (∀ t ∈ ns, Pushes t) := by
  refine ⟨by decide +kernel, ?_, ?_⟩
  · simp [nodesL, nodes, Attaches]
  · simp [Pushes]

/-! ## C62 -/

/-- C62, the property (for one definition in uncompressed data): when the new reference value `x` can
be read, decoding goes on, and the named element is then read with the reference value `x`. -/
def C62_statement : Prop :=
  ∀ (F : Type) [GoFloat F] (c : VisCfg) (d e : Desc) (s : Vis F) (x : Int) (r : Reader F), CfgOk c → WellFormed c s →
    d.id.Operator = 203 → d.id.Y ≠ 255 → s.refvalFactor = 0 →
    c.unpacker.unpack (Vis.plainInfo .code d.id.Y) s.r = (.ok (.plain (.int x)), r) →
    ∃ s', Vis.visit c (.newRefval d [.element e false]) s = (.ok (), s') ∧
      ∀ s'' col, Vis.visit c (.element e false) s' = (.ok (), s'') → (tableOf s'').cols.getLast? = some col →
        col.info.refval = GoFloat.ofInt x

/-- C62. A definition of new reference values is never decoded. -/
theorem C62_never [GoFloat F] (hc : CfgOk c) {d : Desc} {m : Ast} {ms : List Ast} (hm : noBaseL (m :: ms) = true)
    (hd : d.id.Y ≠ 255) {s : Vis F} (hs : WellFormed c s) : (Vis.visit c (.newRefval d (m :: ms)) s).1 ≠ .ok () := by
  rw [visit_outcome hc (t := .newRefval d (m :: ms)) (by simpa [noBase] using hm) hs]
  simp only [Flat.visit, if_pos hd, refvals]
  intro h
  obtain ⟨i, f1, _, h2⟩ := M.bind_eq_ok.1 (eq_of_fst h)
  cases hmd : m.descriptor <;> rw [hmd] at h2 <;> cases h2

/-- C62. If the new reference value can be read, decoding panics. -/
theorem C62_panics [GoFloat F] (hc : CfgOk c) {d e : Desc} {np : Bool} {ms : List Ast} (hm : noBaseL ms = true)
    (hd : d.id.Y ≠ 255) {s s1 : Vis F} {v : NodeId} (hs : WellFormed c s)
    (hv : Vis.buildValuedNodeWithInfo c ⟨some e, false⟩ (Vis.plainInfo .code d.id.Y) s = (.ok v, s1)) :
    (Vis.visit c (.newRefval d (.element e np :: ms)) s).1 = .panic "assignment to entry in nil map" := by
  rw [visit_outcome hc (t := .newRefval d (.element e np :: ms)) (by simpa [noBase, noBaseL] using hm) hs]
  obtain ⟨ρ, hr⟩ := hs
  obtain ⟨i, _, _, h1, _, _⟩ := sim_table (F := F) (sim_build hc _ _) hr hv
  simp only [Flat.visit, if_pos hd, refvals, Ast.descriptor]
  exact congrArg Prod.fst (M.bind_ok h1)

open PayloadExample in
/-- C62 is violated: 203008 for one element panics. -/
theorem C62_violates : ¬ C62_statement := by
  intro h
  have k : (cfg.unpacker.unpack (Vis.plainInfo (F := ToyFloat) .code 8) (ready cfg [0x05, 0x11]).r).1
      = .ok (.plain (.int 5)) := by decide +kernel
  obtain ⟨s', h1, _⟩ := h ToyFloat cfg (plain 203008) e8 (ready cfg [0x05, 0x11]) 5 _ cfg_ok (ready_wf _)
    (by decide) (by decide) (by decide) (eq_of_fst k)
  have h2 := C62_never cfg_ok (d := plain 203008) (m := .element e8 false) (ms := []) rfl (by decide)
    (ready_wf [0x05, 0x11])
  exact h2 (congrArg Prod.fst h1)

/-- C62, what holds: cancelling the definitions (203255), or defining none, changes nothing. -/
theorem C62_cancel_partial [GoFloat F] (hc : CfgOk c) {d : Desc} {ms : List Ast} (hms : noBaseL ms = true)
    (h : d.id.Y = 255 ∨ ms = []) {s : Vis F} (hs : WellFormed c s) :
    ∃ s', Vis.visit c (.newRefval d ms) s = (.ok (), s') ∧ WellFormed c s' ∧ tableOf s' = tableOf s := by
  have e : Flat.visit c (.newRefval d ms) (tableOf s) = (.ok (), tableOf s) := by
    simp only [Flat.visit]
    rcases h with h | h
    · rw [if_neg (by omega)]; rfl
    · subst h
      split <;> rfl
  have ho := visit_outcome hc (t := .newRefval d ms) (by simpa [noBase] using hms) hs
  rw [e] at ho
  have ht := visit_table hc (t := .newRefval d ms) (by simpa [noBase] using hms) hs (eq_of_fst ho) (by simp)
  rw [e] at ht
  exact ⟨_, eq_of_fst ho, ht.2.1, (Prod.mk.inj ht.1).2.symm⟩

/-- C62, the part of the reader: were a definition stored (node `n`, written to column `i`, with the integer `x`), a numeric
element would be read with `x` times the factor of 207YYY, and otherwise as without the definition.
(Missing: definitions are never stored, `C62_panics`.) -/
theorem C62_use_partial [GoFloat F] {s : Vis F} {d : Desc} {np : Bool} {e : Bentry} {m : List (ID × NodeId)} {n i : Nat} {x : Int}
    {cs : List (Cell F)} {nd : NodeDesc} {pi : PackingInfo F} {mv : Val F} {df : Int} {mem : List (Option NodeId)} {k : NodeId}
    (he : d.entry = .b e) (hu : e.unit = .numeric) (hm : s.newRefval = some m) (hn : mapGet m d.id = some n)
    (hh : s.heap[n]? = some ⟨.valued nd i pi mv df, mem⟩) (hc : s.cells = .flat cs) (hi : cs[i]? = some ⟨k, .int x⟩) :
    ∃ info, Vis.calcPackingInfo { s with newRefval := none } ⟨some d, np⟩ = .ok info ∧
      Vis.calcPackingInfo s ⟨some d, np⟩ =
        .ok { info with refval := GoFloat.mul (GoFloat.ofInt x) (GoFloat.pow10 s.refvalFactor) } := by
  have hx : s.cells.cell (i : Int) = .ok ⟨k, .int x⟩ := by
    rw [hc]
    simp [Cells.cell, index, hi]
  have h1 : s.cells.lastCellEquality = .ok true := by rw [hc]; rfl
  have h2 : Vis.calcRefval s d e = .ok (GoFloat.mul (GoFloat.ofInt x) (GoFloat.pow10 s.refvalFactor)) := by
    unfold Vis.calcRefval
    simp only [hm, Option.bind_some, hn, h1, hh]
    show (s.cells.cell (i : Int) >>= fun c => _) = _
    rw [hx]
    rfl
  refine ⟨⟨e.unit, e.scale + s.scaleOffset + s.scaleIncrement, GoFloat.mul (GoFloat.ofInt e.refval) (GoFloat.pow10 s.refvalFactor),
    e.nbits + s.nbitsOffset + s.nbitsIncrement⟩, ?_, ?_⟩
  · unfold Vis.calcPackingInfo
    simp only [he, hu]
    rfl
  · unfold Vis.calcPackingInfo
    simp only [he, hu, h2]
    rfl

open PayloadExample in
/-- C62: the hypotheses of `C62_use_partial` can be met: a definition for the element `e8` in column 0. -/
example : ∃ (s : Vis ToyFloat) (e : Bentry) (m : List (ID × NodeId)), e8.entry = .b e ∧ e.unit = .numeric ∧ s.newRefval = some m ∧
    mapGet m e8.id = some 0 ∧ (∃ nd pi mv df mem, s.heap[0]? = some ⟨.valued nd 0 pi mv df, mem⟩) ∧
    ∃ k, s.cells = .flat [⟨k, .int 5⟩] :=
  ⟨{ ready cfg [] with
      newRefval := some [(e8.id, 0)], heap := [⟨.valued ⟨some e8, false⟩ 0 (Vis.plainInfo .code 8) .nil 0, []⟩], cells := .flat [⟨0, .int 5⟩] },
    _, _, rfl, rfl, rfl, by decide, ⟨_, _, _, _, _, rfl⟩, 0, rfl⟩

/-! ## C65 -/

/-- Two values are the same; numbers are compared as numbers. -/
def SameVal [GoFloat F] : Val F → Val F → Prop
  | .float x, .float y => GoFloat.eq x y = true
  | v, w => v = w

/-- A value that is not a string. -/
def NotBytes (v : Val F) : Prop := ∀ b, v ≠ .bytes b

theorem ifaceEq_same [GoFloat F] {v w : Val F} (hv : NotBytes v) :
    ∃ b, ifaceEq v w = .ok b ∧ (b = true ↔ SameVal v w) := by
  unfold ifaceEq
  cases v with
  | bytes b => exact absurd rfl (hv b)
  | nil => cases w <;> simp [SameVal]
  | uint a => cases w <;> simp [SameVal]
  | int a => cases w <;> simp [SameVal]
  | float a => cases w <;> simp [SameVal]
  | bool a => cases w <;> simp [SameVal]
  | str a => cases w <;> simp [SameVal]
  | binary a => cases w <;> simp [SameVal]

theorem allEqual_iff [GoFloat F] {v : Val F} (hv : NotBytes v) : ∀ (vs : List (Val F)),
    ∃ b, allEqual v vs = .ok b ∧ (b = true ↔ ∀ w ∈ vs, SameVal v w)
  | [] => ⟨true, rfl, by simp⟩
  | w :: ws => by
    obtain ⟨b, h1, h2⟩ := ifaceEq_same (w := w) hv
    obtain ⟨b', h3, h4⟩ := allEqual_iff hv ws
    unfold allEqual
    rw [h1]
    simp only [Outcome.bind_ok, List.mem_cons, forall_eq_or_imp]
    cases b with
    | true =>
      simp only [if_true]
      exact ⟨b', h3, by rw [h4]; simp [h2.1 rfl]⟩
    | false =>
      simp only [Bool.false_eq_true, if_false]
      exact ⟨false, rfl, by simp [show ¬ SameVal v w from fun h => by simpa using h2.2 h]⟩

/-- C65. When the values of a delayed replication factor (the last column, compressed) are not all the
same, decoding the replication fails with an error. -/
theorem C65_disagree_partial [GoFloat F] (hc : CfgOk c) (hcomp : c.compressed = true ∧ c.inputType = .binary) (d : Desc)
    {m : Ast} {ms : List Ast} (hm : noBase m = true) (hms : noBaseL ms = true) {s s1 : Vis F} (hs : WellFormed c s)
    (h1 : Vis.visit c m s = (.ok (), s1)) {col : Column F} (hcol : (tableOf s1).cols.getLast? = some col)
    {v w : Val F} {vs : List (Val F)} (hv : col.vals = v :: vs) (hb : NotBytes v) (hw : w ∈ vs) (hne : ¬ SameVal v w) :
    (Vis.visit c (.delayedRepl d (m :: ms)) s).1
      = .err (.msg "delayed replication factor not equal across all (compressed) subsets") := by
  rw [visit_outcome hc (by simp [noBase, noBaseL, hm, hms]) hs]
  obtain ⟨e, ⟨ρ, hr⟩, _, _⟩ := visit_table hc hm hs h1 (by simp)
  have hsub : (tableOf s1).subsets = some c.nsubsets.toNat := by rw [hr.subsets, if_pos hcomp]
  have hlast : (tableOf s1).lastEqual = .ok false := by
    unfold State.lastEqual
    rw [hsub]
    simp only []
    have hi : index (tableOf s1).cols ((tableOf s1).cols.length - 1) = .ok col := by
      rw [List.getLast?_eq_getElem?] at hcol
      have hlt := (List.getElem?_eq_some_iff.1 hcol).1
      have := index_some hcol
      rwa [show (((tableOf s1).cols.length - 1 : Nat) : Int) = ((tableOf s1).cols.length : Int) - 1 by omega] at this
    rw [hi]
    simp only [Outcome.bind_ok, hv]
    obtain ⟨b, h2, h3⟩ := allEqual_iff hb vs
    rw [h2]
    cases b with
    | true => exact absurd (h3.1 rfl w hw) hne
    | false => rfl
  simp only [Flat.visit]
  unfold Flat.delayed
  rw [M.bind_ok e]
  exact congrArg Prod.fst (query_bind (q := fun f : State F => f.lastEqual) hlast _)

/-- C65. And only then: when they are all the same number `k`, the block is decoded `k` times
(`C54_delayed` with its hypotheses in terms of the column). -/
theorem C65_agree [GoFloat F] (hc : CfgOk c) (hcomp : c.compressed = true ∧ c.inputType = .binary) (d : Desc)
    {m : Ast} {ms : List Ast} (hm : noBase m = true) (hms : noBaseL ms = true) {s s1 : Vis F} (hs : WellFormed c s)
    (h1 : Vis.visit c m s = (.ok (), s1)) {col : Column F} (hcol : (tableOf s1).cols.getLast? = some col)
    {v : Val F} {vs : List (Val F)} (hv : col.vals = v :: vs) (hb : NotBytes v) (hall : ∀ w ∈ vs, SameVal v w)
    {k : Nat} (hk : numberOf v = some k) :
    (Vis.visit c (.delayedRepl d (m :: ms)) s).1 = (Vis.visitL c (m :: (List.replicate k ms).flatten) s).1 := by
  obtain ⟨e, ⟨ρ, hr⟩, _, _⟩ := visit_table hc hm hs h1 (by simp)
  have hsub : (tableOf s1).subsets = some c.nsubsets.toNat := by rw [hr.subsets, if_pos hcomp]
  rw [List.getLast?_eq_getElem?] at hcol
  have hlt := (List.getElem?_eq_some_iff.1 hcol).1
  have hi : index (tableOf s1).cols ((tableOf s1).cols.length - 1) = .ok col := by
    have := index_some hcol
    rwa [show (((tableOf s1).cols.length - 1 : Nat) : Int) = ((tableOf s1).cols.length : Int) - 1 by omega] at this
  have hlast : (tableOf s1).lastEqual = .ok true := by
    unfold State.lastEqual
    rw [hsub]
    simp only []
    rw [hi]
    simp only [Outcome.bind_ok, hv]
    obtain ⟨b, h2, h3⟩ := allEqual_iff hb vs
    rw [h2, h3.2 hall]
  have hne : (tableOf s1).subsets ≠ some 0 := fun h0 => by
    have := hr.empty h0
    rw [this] at hlt
    simp at hlt
  have hlen : (tableOf s1).len = .ok ((tableOf s1).cols.length : Int) := by
    unfold State.len
    rw [if_neg hne]
  have hval : (tableOf s1).value (((tableOf s1).cols.length : Int) - 1) = .ok v := by
    unfold State.value
    rw [hi]
    simp [hv]
  rw [visit_outcome hc (by simp [noBase, noBaseL, hm, hms]) hs,
    visitL_outcome hc (by simp [noBaseL, hm, noBaseL_repeat hms]) hs]
  simp only [Flat.visit, Flat.visitL, flat_visitL_repeat]
  rw [delayed_eq e hlast hlen hval ((Gobufr.uintValue_eq _ _ _).2 hk), M.bind_ok e]

/-- C65. A string as replication factor is not covered: texts cannot be compared, whether they are
equal or not, so the program panics where it should return an error. -/
theorem C65_text_panics [GoFloat F] (hc : CfgOk c) (hcomp : c.compressed = true ∧ c.inputType = .binary) (d : Desc)
    {m : Ast} {ms : List Ast} (hm : noBase m = true) (hms : noBaseL ms = true) {s s1 : Vis F} (hs : WellFormed c s)
    (h1 : Vis.visit c m s = (.ok (), s1)) {col : Column F} (hcol : (tableOf s1).cols.getLast? = some col)
    {x y : List UInt8} {vs : List (Val F)} (hv : col.vals = .bytes x :: .bytes y :: vs) :
    ∃ w, (Vis.visit c (.delayedRepl d (m :: ms)) s).1 = .panic w := by
  rw [visit_outcome hc (by simp [noBase, noBaseL, hm, hms]) hs]
  obtain ⟨e, ⟨ρ, hr⟩, _, _⟩ := visit_table hc hm hs h1 (by simp)
  have hsub : (tableOf s1).subsets = some c.nsubsets.toNat := by rw [hr.subsets, if_pos hcomp]
  have hlast : ∃ w, (tableOf s1).lastEqual = .panic w := by
    unfold State.lastEqual
    rw [hsub]
    simp only []
    have hi : index (tableOf s1).cols ((tableOf s1).cols.length - 1) = .ok col := by
      rw [List.getLast?_eq_getElem?] at hcol
      have hlt := (List.getElem?_eq_some_iff.1 hcol).1
      have := index_some hcol
      rwa [show (((tableOf s1).cols.length - 1 : Nat) : Int) = ((tableOf s1).cols.length : Int) - 1 by omega] at this
    rw [hi]
    simp only [Outcome.bind_ok, hv]
    exact ⟨_, rfl⟩
  obtain ⟨w, hlast⟩ := hlast
  refine ⟨w, ?_⟩
  simp only [Flat.visit]
  unfold Flat.delayed
  rw [M.bind_ok e]
  exact congrArg Prod.fst (M.bind_panic (m := fun f : State F => (f.lastEqual, f)) (s' := tableOf s1) (by rw [hlast]))

theorem fillM_mem {σ α : Type} {P : α → Prop} {f : M σ α} (hf : ∀ s a s', f s = (.ok a, s') → P a) :
    ∀ (n : Nat) (s s' : σ) (l : List α), fillM f n s = (.ok l, s') → ∀ a ∈ l, P a
  | 0, s, s', l, h => by
    simp only [fillM, M.pure_apply, Prod.mk.injEq, Outcome.ok.injEq] at h
    rw [← h.1]
    simp
  | n + 1, s, s', l, h => by
    simp only [fillM] at h
    obtain ⟨a, s1, h1, h⟩ := M.bind_eq_ok.1 h
    obtain ⟨as, s2, h2, h⟩ := M.bind_eq_ok.1 h
    simp only [M.pure_apply, Prod.mk.injEq, Outcome.ok.injEq] at h
    rw [← h.1]
    simp only [List.mem_cons, forall_eq_or_imp]
    exact ⟨hf _ _ _ h1, fillM_mem hf n _ _ _ h2⟩

theorem others_notBytes [GoFloat F] {ns : Int} {info : PackingInfo F} {f : PackingInfo F → Nat → Outcome (Val F)}
    (hf : ∀ x v, f info x = .ok v → NotBytes v) {r r' : Reader F} {cv : CompressedVal F}
    (h : unpackOthers ns info f r = (.ok cv, r')) : ∀ v ∈ cv.values, NotBytes v := by
  unfold unpackOthers at h
  obtain ⟨mv, r1, _, h⟩ := M.bind_eq_ok.1 h
  obtain ⟨nd, r2, _, h⟩ := M.bind_eq_ok.1 h
  obtain ⟨_, r3, _, h⟩ := M.bind_eq_ok.1 h
  split at h
  · obtain ⟨v, r4, h1, h⟩ := M.bind_eq_ok.1 h
    simp only [M.pure_apply, Prod.mk.injEq, Outcome.ok.injEq] at h
    rw [← h.1]
    intro w hw
    rw [(List.mem_replicate.1 hw).2]
    exact hf _ _ (Prod.mk.inj h1).1
  · split at h
    · cases h
    · obtain ⟨vs, r4, h1, h⟩ := M.bind_eq_ok.1 h
      simp only [M.pure_apply, Prod.mk.injEq, Outcome.ok.injEq] at h
      rw [← h.1]
      refine fillM_mem (fun s a s' h2 => ?_) _ _ _ _ h1
      unfold unpackDiff at h2
      obtain ⟨x, r5, _, h2⟩ := M.bind_eq_ok.1 h2
      split at h2
      · simp only [M.pure_apply, Prod.mk.injEq, Outcome.ok.injEq] at h2
        rw [← h2.1]
        intro b hb
        cases hb
      · exact hf _ _ (Prod.mk.inj h2).1

theorem unpackMissing_notBytes {info : PackingInfo F} {x : Nat} {v : Val F} (h : unpackMissing info x = .ok v) :
    NotBytes v := by
  unfold unpackMissing at h
  split at h <;> (cases h; intro b hb; cases hb)

theorem unpackNumeric_notBytes [GoFloat F] {info : PackingInfo F} {x : Nat} {v : Val F}
    (h : unpackNumeric info x = .ok v) : NotBytes v := by
  unfold unpackNumeric at h
  obtain ⟨y, _, h⟩ := Outcome.bind_eq_ok.1 h
  split at h
  · cases h; intro b hb; cases hb
  · split at h <;> (cases h; intro b hb; cases hb)

theorem compressed_notBytes [GoFloat F] {ns : Int} {fuel : Nat} {info : PackingInfo F} (hu : UnpackSpec.Plain info.unit)
    {r r' : Reader F} {cv : CompressedVal F} (h : compressedUnpack ns fuel info r = (.ok cv, r')) :
    ∀ v ∈ cv.values, NotBytes v := by
  by_cases h0 : info.nbits ≠ 0
  · rw [compressedUnpack_plain _ _ _ hu h0] at h
    refine others_notBytes (fun x v hx => ?_) h
    unfold unpackFn at hx
    split at hx
    · exact unpackNumeric_notBytes hx
    · exact unpackMissing_notBytes hx
  · unfold compressedUnpack at h
    have h0 : info.nbits = 0 := by omega
    rcases hu with hu | hu | hu <;> simp only [hu, h0, if_true] at h
    · exact others_notBytes (fun x v hx => unpackNumeric_notBytes hx) h
    · obtain ⟨_, r3, _, h⟩ := M.bind_eq_ok.1 h
      simp only [M.pure_apply, Prod.mk.injEq, Outcome.ok.injEq] at h
      rw [← h.1]
      intro w hw
      rw [(List.mem_replicate.1 hw).2]
      intro b hb; cases hb
    · obtain ⟨_, r3, _, h⟩ := M.bind_eq_ok.1 h
      simp only [M.pure_apply, Prod.mk.injEq, Outcome.ok.injEq] at h
      rw [← h.1]
      intro w hw
      rw [(List.mem_replicate.1 hw).2]
      intro b hb; cases hb

/-- C65, for a factor that is an element holding a number (numeric, code table or flag table). -/
theorem C65_element_partial [GoFloat F] (hc : CfgOk c) (hcomp : c.compressed = true ∧ c.inputType = .binary) (d de : Desc)
    {e : Bentry} (he : de.entry = .b e) (hu : UnpackSpec.Plain e.unit) {o : Operands}
    {ms : List Ast} (hms : noBaseL ms = true) {s s1 : Vis F} (hs : WellFormed c s) (ho : InForce s o)
    (h1 : Vis.visit c (.element de false) s = (.ok (), s1)) {col : Column F}
    (hcol : (tableOf s1).cols.getLast? = some col) {v w : Val F} {vs : List (Val F)} (hv : col.vals = v :: vs)
    (hw : w ∈ vs) (hne : ¬ SameVal v w) :
    (Vis.visit c (.delayedRepl d (.element de false :: ms)) s).1
      = .err (.msg "delayed replication factor not equal across all (compressed) subsets") := by
  obtain ⟨col', cv, r, hl, hd, hinfo, hun, hh⟩ := C56_element hc de e he o hs ho h1
  rw [hl] at hcol
  cases hcol
  have hplain : UnpackSpec.Plain (o.packing e : PackingInfo F).unit := by
    unfold Operands.packing
    rcases hu with h | h | h <;> simp [h, UnpackSpec.Plain]
  have hnb : NotBytes v := by
    rcases cfg_cases hc with ⟨_, _, fuel, hcc⟩ | ⟨hcc, _⟩
    · rw [hcc] at hun
      obtain ⟨cv', r2, h2, h3⟩ := M.bind_eq_ok.1 hun
      simp only [M.pure_apply, Prod.mk.injEq, Outcome.ok.injEq] at h3
      rw [← h3.1] at hh
      exact compressed_notBytes hplain h2 v (by rw [← hh.1, hv]; simp)
    · exact absurd hcomp hcc
  exact C65_disagree_partial hc hcomp d rfl hms hs h1 hl hv hnb hw hne

open PayloadExample in
-- two subsets with the factors 3 and 4
example : let s := ready cfgC [0x30, 0x84]
    let x := Vis.visit cfgC (.element e4 false) s
    x.1 = .ok () ∧ ((tableOf x.2).cols.getLast?.map fun col => col.vals) = some [.uint 3, .uint 4] ∧
    (Vis.visit cfgC (.delayedRepl (plain 101000) [.element e4 false, .element e4 false]) s).1
      = .err (.msg "delayed replication factor not equal across all (compressed) subsets") := by
  decide +kernel

/-- C65, the property: for a factor of any kind. -/
def C65_statement : Prop :=
  ∀ (F : Type) (_ : GoFloat F) (c : VisCfg), CfgOk c → c.compressed = true ∧ c.inputType = .binary →
    ∀ (d : Desc) (m : Ast) (ms : List Ast), noBase m = true → noBaseL ms = true → ∀ s s1 : Vis F, WellFormed c s →
      Vis.visit c m s = (.ok (), s1) → ∀ col : Column F, (tableOf s1).cols.getLast? = some col →
        ∀ (v w : Val F) (vs : List (Val F)), col.vals = v :: vs → w ∈ vs → ¬ SameVal v w →
          ∃ e, (Vis.visit c (.delayedRepl d (m :: ms)) s).1 = .err e

namespace TextFactor
open PayloadExample

/-- One character. -/
def e1c : Desc := elem 1015 .string 8

/-- Two subsets with the factors "B" and "C". -/
def s : Vis ToyFloat := ready cfgC [0x00, 0x05, 0x09, 0x0c]

theorem run : let x := Vis.visit cfgC (.element e1c false) s
    x.1 = .ok () ∧ ((tableOf x.2).cols.getLast?.map fun col => col.vals) = some [.bytes [66], .bytes [67]] := by
  decide +kernel

end TextFactor

open PayloadExample TextFactor in
/-- C65 is violated: if the factor is a text, the program panics. -/
theorem C65_violates : ¬ C65_statement := by
  intro hst
  obtain ⟨h1, h2⟩ := run
  cases hx : Vis.visit cfgC (.element e1c false) s with
  | mk o s1 =>
    rw [hx] at h1 h2
    cases hl : (tableOf s1).cols.getLast? with
    | none => simp only [hl, Option.map_none] at h2; cases h2
    | some col =>
      simp only [hl, Option.map_some, Option.some.injEq] at h2
      simp only at h1
      subst h1
      have hw : WellFormed cfgC s := readyC_wf _
      obtain ⟨e, he⟩ := hst ToyFloat inferInstance cfgC cfgC_ok ⟨rfl, rfl⟩ (plain 101000) (.element e1c false) [] rfl rfl s s1 hw
        hx col hl _ _ _ h2 (List.mem_singleton.2 rfl) (by simp [SameVal])
      obtain ⟨w, hp⟩ := C65_text_panics cfgC_ok ⟨rfl, rfl⟩ (plain 101000) (m := .element e1c false) (ms := []) rfl rfl hw hx hl h2
      rw [hp] at he
      cases he

/-! ## C39 -/

/-- Elements that are present in the data although 221YYY is in force: classes 01 - 09 and 31. -/
def StillPresent (id : ID) : Prop := (1 ≤ id.X ∧ id.X ≤ 9) ∨ id.X = 31

/-- C39, the property: decoding 221YYY with elements of other classes reads nothing. -/
def C39_statement : Prop :=
  ∀ (F : Type) [GoFloat F] (c : VisCfg) (lk : Lookup) (ids : List ID) (d : Desc) (ms : List Ast) (s s' : Vis F),
    CfgOk c → GoodLookup lk → WellFormed c s → Parses lk ids [.dataNotPresent d ms] →
    (∀ m ∈ ms, ∃ e np, m = .element e np ∧ ¬ StillPresent e.id) →
    Vis.visit c (.dataNotPresent d ms) s = (.ok (), s') → s'.r = s.r

namespace PayloadExample

/-- Tables with 012001 of 8 bits. -/
def group8 : SingleGroup where
  b := { path := [], entries := [(12001, { (default : Bentry) with unit := .numeric, nbits := 8 })] }
  d := { path := [], entries := [] }

/-- 012001 -/
def b12001 : Desc := ⟨12001, .b { (default : Bentry) with unit := .numeric, nbits := 8 }⟩

end PayloadExample

open PayloadExample in
/-- C39 is violated: the element after 221001 is read. -/
theorem C39_violates : ¬ C39_statement := by
  intro h
  have k1 : (Vis.visit cfg (.dataNotPresent ⟨221001, .c (pad06 221001)⟩ [.element b12001 false])
    (ready cfg [0x12])).1 = .ok () := by decide +kernel
  have k2 : (Vis.visit cfg (.dataNotPresent ⟨221001, .c (pad06 221001)⟩ [.element b12001 false])
    (ready cfg [0x12])).2.r ≠ (ready cfg [0x12]).r := by decide +kernel
  exact k2 (h ToyFloat cfg group8.lookup [221001, 12001] _ _ _ _ cfg_ok (good_single group8) (ready_wf _)
    ⟨9, by rfl⟩ (by
      intro m hm
      simp only [List.mem_singleton] at hm
      exact ⟨_, _, hm, by unfold StillPresent; decide⟩) (eq_of_fst k1))

/-- C39, what holds of the decoder: an element that is marked as not present is not read and gets no
value (`C39_never_marked`: the parser never does so). -/
theorem C39_marked_partial [GoFloat F] (hc : CfgOk c) (d : Desc) {s : Vis F} (hs : WellFormed c s) :
    ∃ s', Vis.visit c (.element d true) s = (.ok (), s') ∧ s'.r = s.r ∧ s'.cells = s.cells ∧
      tableOf s' = tableOf s := by
  have e : Vis.visit c (.element d true) s = (.ok (), (Vis.visit c (.element d true) s).2) := by
    simp only [Vis.visit, if_true]
    rfl
  refine ⟨_, e, ?_, ?_, ?_⟩
  · simp only [Vis.visit, if_true]
    rfl
  · simp only [Vis.visit, if_true]
    rfl
  · have ht := (visit_table hc (t := .element d true) rfl hs e (by simp)).1
    simp only [Flat.visit, if_true, M.pure_apply, Prod.mk.injEq, true_and] at ht
    exact ht.symm

end Gobufr
