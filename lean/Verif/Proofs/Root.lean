import Verif.Spec.Root
import Verif.Proofs.PayloadTree
import Verif.Proofs.PayloadCost

/-!
# Helper lemmas: the members of the root
-/

namespace Gobufr
open Spec ParserSpec Flat

variable {F : Type} {c : VisCfg}

theorem shownAt_alloc (h : Heap F) (k : NodeKind F) {n : NodeId} (hn : n < h.length) :
    shownAt (h ++ [⟨k, []⟩]) n = shownAt h n := by
  unfold shownAt
  rw [List.getElem?_append_left hn]

theorem shownAt_addMember (h : Heap F) (n : NodeId) (m : Option NodeId) (i : NodeId) :
    shownAt (h.addMember n m) i = shownAt h i := by
  unfold shownAt Heap.addMember
  rw [List.getElem?_modify]
  cases h[i]? with
  | none => rfl
  | some x => by_cases hi : n = i <;> simp [hi]

theorem shownAt_setIndex (h : Heap F) (m : NodeId) (i : Int) (mv : Val F) (nd : Int) (n : NodeId) :
    shownAt (h.setIndex m i mv nd) n = shownAt h n := by
  unfold shownAt Heap.setIndex
  rw [List.getElem?_modify]
  cases h[n]? with
  | none => rfl
  | some x =>
    by_cases hm : m = n
    · obtain ⟨k, ms⟩ := x
      subst hm
      simp only [if_true, Option.map_eq_map, Option.map_some, Option.bind_some]
      cases k <;> rfl
    · simp [hm]

/-- The root is there, and nothing that gets members later is the root. -/
structure Rooted (s : Vis F) : Prop where
  pos : 0 < s.heap.length
  cells : ∀ n ∈ allNodes s, 0 < n
  targets : ∀ n ∈ s.bm.targets, 0 < n

/-- From one state to another the root gets members that show `es`, if it is the current parent. -/
structure Adds (es : List RootMember) (s s' : Vis F) : Prop where
  node : s'.node = s.node
  stack : s'.stack = s.stack
  length : s.heap.length ≤ s'.heap.length
  old : ∀ i, i < s.heap.length → shownAt s'.heap i = shownAt s.heap i
  members : ∃ new : List NodeId, membersOf s'.heap 0 = membersOf s.heap 0 ++ new.map some ∧
    new.map (shownAt s'.heap) = (if s.node = 0 then es else []).map some ∧
    (∀ n ∈ new, s.heap.length ≤ n ∧ n < s'.heap.length) ∧ new.Pairwise (· < ·)
  good : Rooted s'

theorem Adds.trans {e1 e2 : List RootMember} {s1 s2 s3 : Vis F} (h1 : Adds e1 s1 s2) (h2 : Adds e2 s2 s3) :
    Adds (e1 ++ e2) s1 s3 where
  node := h2.node.trans h1.node
  stack := h2.stack.trans h1.stack
  length := Nat.le_trans h1.length h2.length
  old i hi := (h2.old i (Nat.lt_of_lt_of_le hi h1.length)).trans (h1.old i hi)
  good := h2.good
  members := by
    obtain ⟨n1, a1, b1, c1, d1⟩ := h1.members
    obtain ⟨n2, a2, b2, c2, d2⟩ := h2.members
    refine ⟨n1 ++ n2, by rw [a2, a1, List.map_append, List.append_assoc], ?_, ?_, ?_⟩
    · rw [List.map_append, b2, h1.node]
      have : n1.map (shownAt s3.heap) = n1.map (shownAt s2.heap) :=
        List.map_congr_left fun n hn => h2.old n (c1 n hn).2
      rw [this, b1]
      split <;> simp
    · intro n hn
      rcases List.mem_append.1 hn with hn | hn
      · exact ⟨(c1 n hn).1, Nat.lt_of_lt_of_le (c1 n hn).2 h2.length⟩
      · exact ⟨Nat.le_trans h1.length (c2 n hn).1, (c2 n hn).2⟩
    · refine List.pairwise_append.2 ⟨d1, d2, fun a ha b hb => ?_⟩
      exact Nat.lt_of_lt_of_le (c1 a ha).2 (c2 b hb).1

/-- Steps that do not change the nodes. -/
theorem Adds.same {s s' : Vis F} (hg : Rooted s) (h : s'.heap = s.heap) (hn : s'.node = s.node) (hs : s'.stack = s.stack)
    (hc : s'.cells = s.cells) (ht : ∀ n ∈ s'.bm.targets, 0 < n) : Adds [] s s' where
  node := hn
  stack := hs
  length := by rw [h]; exact Nat.le_refl _
  old i _ := by rw [h]
  good := ⟨by rw [h]; exact hg.pos, by unfold allNodes; rw [hc]; exact hg.cells, ht⟩
  members := ⟨[], by simp [h], by simp, by simp, by simp⟩

theorem Adds.refl {s : Vis F} (hg : Rooted s) : Adds [] s s := .same hg rfl rfl rfl rfl hg.targets

/-- A new node that becomes a member of the current parent. -/
theorem Adds.new {s s' : Vis F} (hg : Rooted s) {k : NodeKind F} {e : RootMember}
    (hk : ∀ h : Heap F, shownAt (h ++ [⟨k, []⟩]) h.length = some e)
    (h : s' = { s with heap := Heap.addMember (s.heap ++ [⟨k, []⟩]) s.node (some s.heap.length) }) : Adds [e] s s' := by
  subst h
  have hlen : (Heap.addMember (s.heap ++ [⟨k, []⟩]) s.node (some s.heap.length)).length = s.heap.length + 1 := by
    simp [Heap.addMember]
  refine ⟨rfl, rfl, by rw [hlen]; exact Nat.le_succ _, fun i hi => ?_, ?_, ?_⟩
  · rw [shownAt_addMember, shownAt_alloc _ _ hi]
  · by_cases hn : s.node = 0
    · refine ⟨[s.heap.length], ?_, ?_, ?_, by simp⟩
      · rw [membersOf_addMember, hn, if_pos ⟨rfl, by simp⟩, membersOf_alloc]
        rfl
      · rw [if_pos hn, List.map_singleton, List.map_singleton, shownAt_addMember, hk]
      · intro n hm
        rw [List.mem_singleton] at hm
        rw [hm, hlen]
        exact ⟨Nat.le_refl _, Nat.lt_succ_self _⟩
    · refine ⟨[], ?_, by rw [if_neg hn]; rfl, by simp, by simp⟩
      rw [membersOf_addMember, if_neg (fun e => hn e.1.symm), membersOf_alloc]
      simp
  · exact ⟨by rw [hlen]; exact Nat.succ_pos _, hg.cells, hg.targets⟩

theorem Adds.valueless {s s' : Vis F} (hg : Rooted s) {d : Option Desc} (h : Vis.addValueless d s = (.ok (), s')) :
    Adds [⟨false, d, false⟩] s s' ∧ s'.assoc = s.assoc := by
  have e : s' = { s with heap := Heap.addMember (s.heap ++ [⟨.valueless ⟨d, false⟩, []⟩]) s.node (some s.heap.length) } :=
    (Prod.mk.inj h).2.symm
  refine ⟨.new hg (k := .valueless ⟨d, false⟩) (fun h => by simp [shownAt]) e, by rw [e]⟩

/-- Adding members to a node that is not the root. -/
theorem Adds.addMember {s s' : Vis F} (hg : Rooted s) {n : NodeId} (hn : 0 < n) {m : Option NodeId}
    (h : Vis.addMember n m s = (.ok (), s')) : Adds [] s s' ∧ s'.assoc = s.assoc := by
  have e : s' = { s with heap := s.heap.addMember n m } := (Prod.mk.inj h).2.symm
  subst e
  have hlen : (s.heap.addMember n m).length = s.heap.length := by simp [Heap.addMember]
  refine ⟨⟨rfl, rfl, Nat.le_of_eq hlen.symm, fun i hi => by rw [shownAt_addMember], ⟨[], ?_, by simp, by simp, by simp⟩, ?_⟩, rfl⟩
  · rw [membersOf_addMember, if_neg (fun e => absurd e.1.symm (Nat.ne_of_gt hn))]
    simp
  · exact ⟨by rw [hlen]; exact hg.pos, hg.cells, hg.targets⟩

theorem Adds.addMembers {n : NodeId} (hn : 0 < n) : ∀ {ms : List NodeId} {s s' : Vis F}, Rooted s →
    Vis.addMembers n ms s = (.ok (), s') → Adds [] s s' ∧ s'.assoc = s.assoc
  | [], s, s', hg, h => by
    cases h
    exact ⟨.refl hg, rfl⟩
  | m :: ms, s, s', hg, h => by
    unfold Vis.addMembers at h
    obtain ⟨_, s1, h1, h⟩ := M.bind_eq_ok.1 h
    obtain ⟨a1, e1⟩ := Adds.addMember hg hn h1
    obtain ⟨a2, e2⟩ := Adds.addMembers hn a1.good h
    exact ⟨a1.trans a2, e2.trans e1⟩

theorem Adds.cellsAdd {s s' : Vis F} (hg : Rooted s) {n : NodeId} (hn : 0 < n) {v : Unpacked F}
    (h : Vis.cellsAdd n v s = (.ok (), s')) : Adds [] s s' ∧ s'.assoc = s.assoc := by
  have hcells := cellsAdd_nodes n v s
  rw [h] at hcells
  have key : ∀ {i mv nd cs}, s' = { s with heap := s.heap.setIndex n i mv nd, cells := cs } →
      Adds [] s s' ∧ s'.assoc = s.assoc := by
    intro i mv nd cs e
    have hlen : s'.heap.length = s.heap.length := by rw [e]; simp [Heap.setIndex]
    refine ⟨⟨by rw [e], by rw [e], Nat.le_of_eq hlen.symm, fun j hj => ?_, ⟨[], ?_, by simp, by simp, by simp⟩, ?_⟩, by rw [e]⟩
    · rw [e, shownAt_setIndex]
    · rw [e, membersOf_setIndex]
      simp
    · refine ⟨by rw [hlen]; exact hg.pos, fun m hm => ?_, by rw [e]; exact hg.targets⟩
      rcases hcells m hm with h | h
      · exact hg.cells m h
      · rw [h]; exact hn
  unfold Vis.cellsAdd at h
  split at h
  · exact key (Prod.mk.inj h).2.symm
  · cases h
  · cases h
  · cases h
  · split at h
    · exact key (Prod.mk.inj h).2.symm
    · cases h
    · cases h
    · cases h

theorem Adds.build [GoFloat F] {s s' : Vis F} (hg : Rooted s) {d : NodeDesc} {info : PackingInfo F} {n : NodeId}
    (h : Vis.buildValuedNodeWithInfo c d info s = (.ok n, s')) :
    Adds [⟨true, d.d, d.assoc⟩] s s' ∧ s'.assoc = s.assoc ∧ 0 < n := by
  unfold Vis.buildValuedNodeWithInfo at h
  obtain ⟨v, s1, hu, h⟩ := M.bind_eq_ok.1 h
  obtain ⟨n1, s2, ha, h⟩ := M.bind_eq_ok.1 h
  obtain ⟨_, s3, ht, h⟩ := M.bind_eq_ok.1 h
  obtain ⟨_, s4, hcell, h⟩ := M.bind_eq_ok.1 h
  cases h
  have hs1 : s1 = { s with r := s1.r } := by
    have := congrArg Prod.snd hu
    simp only [Vis.unpack, M.zoom] at this
    rw [← this]
  have a1 : Adds [] s s1 := by
    rw [hs1]
    exact .same hg rfl rfl rfl rfl hg.targets
  cases ha
  have a2 : Adds [⟨true, d.d, d.assoc⟩] s1 s3 :=
    .new a1.good (k := .valued d 0 info .nil 0) (fun h => by simp [shownAt]) (Prod.mk.inj ht).2.symm
  have e2 : s3.assoc = s1.assoc := by rw [← (Prod.mk.inj ht).2]
  obtain ⟨a3, e3⟩ := Adds.cellsAdd a2.good a1.good.pos hcell
  refine ⟨?_, ?_, a1.good.pos⟩
  · have := (a1.trans a2).trans a3
    simpa using this
  · rw [e3, e2, hs1]

theorem Adds.valued [GoFloat F] {s s' : Vis F} (hg : Rooted s) {d : NodeDesc} {n : NodeId}
    (h : Vis.buildValuedNode c d s = (.ok n, s')) :
    Adds [⟨true, d.d, d.assoc⟩] s s' ∧ s'.assoc = s.assoc ∧ 0 < n := by
  unfold Vis.buildValuedNode at h
  obtain ⟨info, s1, h1, h2⟩ := M.bind_eq_ok.1 h
  have : s1 = s := (Prod.mk.inj h1).2.symm
  rw [this] at h2
  exact Adds.build hg h2

theorem Adds.assocLoop [GoFloat F] {d : Desc} : ∀ {ps : List AssocPair} {s s' : Vis F} {ns : List NodeId}, Rooted s →
    Vis.assocLoop c d ps s = (.ok ns, s') →
    Adds (List.replicate ps.length ⟨true, some d, true⟩) s s' ∧ s'.assoc = s.assoc
  | [], s, s', ns, hg, h => by
    cases h
    exact ⟨.refl hg, rfl⟩
  | p :: ps, s, s', ns, hg, h => by
    unfold Vis.assocLoop at h
    obtain ⟨n, s1, h1, h⟩ := M.bind_eq_ok.1 h
    obtain ⟨_, s2, h2, h⟩ := M.bind_eq_ok.1 h
    obtain ⟨ns', s3, h3, h⟩ := M.bind_eq_ok.1 h
    cases h
    obtain ⟨a1, e1, p1⟩ := Adds.build hg h1
    obtain ⟨a2, e2⟩ := Adds.addMember a1.good p1 h2
    obtain ⟨a3, e3⟩ := Adds.assocLoop a2.good h3
    refine ⟨?_, e3.trans (e2.trans e1)⟩
    have := (a1.trans a2).trans a3
    simpa [List.replicate_succ] using this

theorem Adds.assocNodes [GoFloat F] {d : Desc} {s s' : Vis F} {ns : List NodeId} (hg : Rooted s)
    (h : Vis.buildAssocNodes c d s = (.ok ns, s')) :
    Adds (List.replicate (if d.id.X = 31 then 0 else s.assoc.length) ⟨true, some d, true⟩) s s' ∧ s'.assoc = s.assoc := by
  unfold Vis.buildAssocNodes at h
  split at h
  · rename_i hd
    cases h
    refine ⟨?_, rfl⟩
    have : (if d.id.X = 31 then 0 else s.assoc.length) = 0 := by
      split
      · rfl
      · rename_i h31
        exact hd.resolve_left h31
    rw [this]
    exact .refl hg
  · rename_i hd
    rw [if_neg (fun e => hd (.inl e))]
    exact Adds.assocLoop hg h

theorem query_inv {σ α β : Type} {m : M σ α} {f : α → M σ β} {s s' : σ} {b : β} (hq : ∀ s, (m s).2 = s)
    (h : (m >>= f) s = (.ok b, s')) : ∃ a, m s = (.ok a, s) ∧ f a s = (.ok b, s') := by
  obtain ⟨a, s1, h1, h2⟩ := M.bind_eq_ok.1 h
  have e : s1 = s := by rw [← hq s, h1]
  rw [e] at h1 h2
  exact ⟨a, h1, h2⟩

theorem deferDo_ok_inv {σ : Type} {m d : M σ Unit} {s s' : σ} (h : M.deferDo d m s = (.ok (), s'))
    (hd : ∀ s e s', d s ≠ (.err e, s')) : ∃ s1, m s = (.ok (), s1) ∧ d s1 = (.ok (), s') := by
  unfold M.deferDo at h
  rcases hm : m s with ⟨o, s1⟩
  rw [hm] at h
  cases o with
  | ok a =>
    simp only at h
    rcases hds : d s1 with ⟨o, s2⟩
    rw [hds] at h
    cases o with
    | err e => exact absurd hds (hd _ _ _)
    | ok _ => cases h; exact ⟨s1, rfl, hds⟩
    | panic w => cases h
    | diverge => cases h
  | err e =>
    simp only at h
    rcases hds : d s1 with ⟨o, s2⟩
    rw [hds] at h
    cases o <;> cases h
  | panic w =>
    simp only at h
    rcases hds : d s1 with ⟨o, s2⟩
    rw [hds] at h
    cases o <;> cases h
  | diverge => cases h

/-- With another parent the root gets no members. -/
theorem Adds.within {s s' : Vis F} (hg : Rooted s) {k : NodeKind F} {m : M (Vis F) Unit} {P : Vis F → Vis F → Prop}
    (h : Vis.within k m s = (.ok (), s'))
    (hm : ∀ s1 s2, Rooted s1 → s1.assoc = s.assoc → m s1 = (.ok (), s2) → ∃ es, Adds es s1 s2 ∧ P s1 s2) :
    Adds [] s s' ∧ ∃ s1 s2, s1.assoc = s.assoc ∧ s'.assoc = s2.assoc ∧ P s1 s2 := by
  unfold Vis.within at h
  obtain ⟨n, s1, h1, h⟩ := M.bind_eq_ok.1 h
  obtain ⟨_, s2, h2, h⟩ := M.bind_eq_ok.1 h
  cases h1
  cases h2
  obtain ⟨s3, h3, h4⟩ := deferDo_ok_inv h (by
    intro s e s'
    unfold Vis.treePop
    split <;> simp)
  have hg2 : Rooted (⟨s.r, s.heap ++ [⟨k, []⟩], s.heap.length, s.node :: s.stack, s.cells, s.nbitsOffset, s.scaleOffset,
      s.newRefval, s.assoc, s.nbitsIncrement, s.scaleIncrement, s.refvalFactor, s.nbitsString, s.bm⟩ : Vis F) :=
    ⟨by simp, hg.cells, hg.targets⟩
  obtain ⟨es, a, hp⟩ := hm _ s3 hg2 rfl h3
  have hst := a.stack
  simp only at hst
  have e' : s' = { s3 with stack := s.stack, node := s.node } := by
    unfold Vis.treePop at h4
    rw [hst] at h4
    exact (Prod.mk.inj h4).2.symm
  refine ⟨?_, _, s3, ?_, by rw [e'], hp⟩
  rotate_left
  · rfl
  have hl := a.length
  simp only [List.length_append, List.length_singleton] at hl
  obtain ⟨new, b1, b2, b3, b4⟩ := a.members
  rw [if_neg (Nat.ne_of_gt hg.pos)] at b2
  have hnew : new = [] := by simpa using b2
  subst hnew
  subst e'
  refine ⟨rfl, rfl, Nat.le_of_succ_le hl, fun i hi => ?_, ⟨[], ?_, by simp, by simp, by simp⟩,
    ⟨a.good.pos, a.good.cells, a.good.targets⟩⟩
  · rw [a.old i (by simp; omega)]
    exact shownAt_alloc _ _ hi
  · simp only [b1, membersOf_alloc]


/-! ## Bitmaps and assessments -/

theorem build_err [GoFloat F] {s s' : Vis F} {d : NodeDesc} {info : PackingInfo F} {e : Err}
    (h : Vis.buildValuedNodeWithInfo c d info s = (.err e, s')) :
    ∃ e' s1, Vis.unpack c info s = (.err e', s1) ∧ s' = s1 := by
  unfold Vis.buildValuedNodeWithInfo at h
  rw [M.bind_apply] at h
  rcases hu : Vis.unpack c info s with ⟨o, s1⟩
  rw [hu] at h
  cases o with
  | panic _ => cases h
  | diverge => cases h
  | err e3 => exact ⟨e3, s1, rfl, (Prod.mk.inj h).2.symm⟩
  | ok v =>
    exfalso
    have hn := cellsAdd_noErr s1.heap.length v (withNode d info s1)
    have hx : (do
        Vis.cellsAdd s1.heap.length v
        pure s1.heap.length : M (Vis F) NodeId) (withNode d info s1) = (.err e, s') := h
    rw [M.bind_apply] at hx
    rcases hy : Vis.cellsAdd s1.heap.length v (withNode d info s1) with ⟨o, s2⟩
    rw [hy] at hx hn
    cases o with
    | ok _ => cases hx
    | err e' => exact hn e' rfl
    | panic w => cases hx
    | diverge => cases hx

theorem Adds.zero [GoFloat F] {s s' : Vis F} (hg : Rooted s) {d : Desc}
    (h : M.ignoreErr () (Vis.buildZeroNode c (some d)) s = (.ok (), s')) :
    ∃ zs, Operator c.compatible (fromJson c) d zs ∧ Adds zs s s' ∧ s'.assoc = s.assoc := by
  unfold M.ignoreErr Vis.buildZeroNode at h
  by_cases hc : c.compatible = true
  · rw [if_pos hc, M.bind_apply] at h
    rcases hb : Vis.buildValuedNodeWithInfo c ⟨some d, false⟩ (Vis.plainInfo .nonnegCode 0) s with ⟨o, s1⟩
    rw [hb] at h
    cases o with
    | ok n =>
      cases h
      obtain ⟨a, e, _⟩ := Adds.build hg hb
      exact ⟨_, .value hc, a, e⟩
    | err e =>
      cases h
      obtain ⟨e', s2, hu, rfl⟩ := build_err hb
      refine ⟨_, .lost hc ?_, ?_⟩
      · unfold fromJson
        cases hj : c.unpacker with
        | json => rfl
        | _ =>
          exfalso
          obtain ⟨o, ho⟩ := zeroUnpack (c := c) (F := F) (by rw [hj]; simp)
          rw [ho] at hu
          unfold Vis.unpack M.zoom at ho
          have h1 := congrArg Prod.fst (ho s)
          cases hu
          rw [hj] at h1
          simp only [Unpacker.unpack] at h1
          first
            | cases h1
            | (rename_i n fuel
               by_cases hn : n < 0
               · simp [compressedUnpack, Vis.plainInfo, makeCheck, hn, M.bind_apply] at h1
               · simp [compressedUnpack, Vis.plainInfo, makeCheck, hn, M.bind_apply] at h1)
      · have hs3 : s' = { s with r := s'.r } := by
          have := congrArg Prod.snd hu
          simp only [Vis.unpack, M.zoom] at this
          rw [← this]
        rw [hs3]
        exact ⟨.same hg rfl rfl rfl rfl hg.targets, rfl⟩
    | panic w => cases h
    | diverge => cases h
  · rw [if_neg hc] at h
    rcases hb : Vis.addValueless (some d) s with ⟨o, s1⟩
    rw [hb] at h
    have ho : o = .ok () := (congrArg Prod.fst hb).symm
    subst ho
    cases h
    obtain ⟨a, e⟩ := Adds.valueless hg hb
    exact ⟨_, .label (by simpa using hc), a, e⟩

/-- What `m` adds to the root is as `P` says, given the numbers of associated fields open before and after. -/
def Does (P : Nat → List RootMember → Nat → Prop) (m : M (Vis F) Unit) : Prop :=
  ∀ s s', Rooted s → m s = (.ok (), s') → ∃ es, P s.assoc.length es s'.assoc.length ∧ Adds es s s'

theorem Does.within {P : Nat → List RootMember → Nat → Prop} {m : M (Vis F) Unit} (hm : Does P m) (k : NodeKind F) :
    Does (fun a es b => es = [] ∧ ∃ es', P a es' b) (Vis.within k m) := by
  intro s s' hg h
  obtain ⟨a, s1, s2, e1, e2, es, hp⟩ := Adds.within (P := fun s1 s2 => ∃ es, P s1.assoc.length es s2.assoc.length) hg h
    (fun s1 s2 hg1 _ h1 => by
      obtain ⟨es, hp, a⟩ := hm s1 s2 hg1 h1
      exact ⟨es, a, es, hp⟩)
  refine ⟨[], ⟨rfl, es, ?_⟩, a⟩
  rw [← e1, e2]
  exact hp

theorem Does.repeatM {j : Bool} {ms : List Ast} {m : M (Vis F) Unit}
    (hm : Does (MembersL c.compatible j · ms) m) :
    ∀ n, Does (fun a es b => es = [] ∧ Times c.compatible j n a ms b) (Vis.repeatM (Vis.within .block m) n)
  | 0 => by
    intro s s' hg h
    cases h
    exact ⟨[], ⟨rfl, .zero _ _⟩, .refl hg⟩
  | n + 1 => by
    intro s s' hg h
    unfold Vis.repeatM at h
    obtain ⟨_, s1, h1, h⟩ := M.bind_eq_ok.1 h
    obtain ⟨es1, ⟨rfl, es', hp⟩, a1⟩ := hm.within .block s s1 hg h1
    obtain ⟨es2, ⟨rfl, ht⟩, a2⟩ := Does.repeatM hm n s1 s' a1.good h
    exact ⟨[], ⟨rfl, .succ hp ht⟩, a1.trans a2⟩

theorem Does.delayed [GoFloat F] {j : Bool} {d : Desc} {m : Ast} {ms : List Ast} {first rest : M (Vis F) Unit}
    (hf : Does (Members c.compatible j · m) first) (hr : Does (MembersL c.compatible j · ms) rest) :
    Does (fun a _ b => ∃ n es k1, Members c.compatible j a m es k1 ∧ Times c.compatible j n k1 ms b)
      (Vis.visitDelayed first rest) := by
  intro s s' hg h
  unfold Vis.visitDelayed at h
  obtain ⟨_, s1, h1, h⟩ := M.bind_eq_ok.1 h
  obtain ⟨es1, p1, a1⟩ := hf s s1 hg h1
  obtain ⟨b, h2, h⟩ := query_inv (fun _ => rfl) h
  split at h
  · cases h
  · obtain ⟨n, h3, h⟩ := query_inv (fun _ => rfl) h
    obtain ⟨x, h4, h⟩ := query_inv (fun _ => rfl) h
    obtain ⟨k, h5, h⟩ := query_inv (fun _ => rfl) h
    obtain ⟨es2, ⟨rfl, ht⟩, a2⟩ := hr.repeatM k s1 s' a1.good h
    exact ⟨_, ⟨k, es1, _, p1, ht⟩, a1.trans a2⟩

theorem Does.newRefvalLoop [GoFloat F] {info : PackingInfo F} : ∀ ms : List Ast,
    Does (fun a es b => es = ms.map (fun m => ⟨true, m.descriptor, false⟩) ∧ b = a) (Vis.newRefvalLoop c info ms)
  | [] => by
    intro s s' hg h
    cases h
    exact ⟨[], ⟨rfl, rfl⟩, .refl hg⟩
  | m :: ms => by
    intro s s' hg h
    unfold Vis.newRefvalLoop at h
    obtain ⟨n, s1, h1, h⟩ := M.bind_eq_ok.1 h
    obtain ⟨a1, e1, _⟩ := Adds.build hg h1
    cases hm : m.descriptor with
    | none =>
      simp only [hm] at h
      cases h
    | some d =>
      simp only [hm] at h
      obtain ⟨_, s2, h2, h⟩ := M.bind_eq_ok.1 h
      have e2 : ∃ x, s2 = { s1 with newRefval := x } := by
        split at h2
        · cases h2
        · exact ⟨_, (Prod.mk.inj h2).2.symm⟩
      obtain ⟨x, rfl⟩ := e2
      have a2 : Adds [] s1 { s1 with newRefval := x } := .same a1.good rfl rfl rfl rfl a1.good.targets
      obtain ⟨es, ⟨rfl, eb⟩, a3⟩ := Does.newRefvalLoop ms _ s' a2.good h
      refine ⟨_, ⟨rfl, eb.trans (by rw [← e1])⟩, ?_⟩
      have := (a1.trans a2).trans a3
      simpa [hm] using this

theorem cell_node {cells : Cells F} {i : Int} {x : Cell F} (h : cells.cell i = .ok x) :
    x.n ∈ (subsetsOf cells).flatten.map Cell.n := by
  have hi : ∀ {l : List (Cell F)}, index l i = .ok x → x ∈ l := by
    intro l h
    unfold index at h
    split at h
    · cases h
    · split at h
      · rename_i hx
        cases h
        exact List.mem_of_getElem? hx
      · cases h
  unfold Cells.cell at h
  split at h
  · exact List.mem_map.2 ⟨x, by simpa [subsetsOf] using hi h, rfl⟩
  · cases h
  · exact List.mem_map.2 ⟨x, by simpa [subsetsOf] using .inl (hi h), rfl⟩

theorem nodesOfCells_pos {cells : Cells F} (hp : ∀ n ∈ (subsetsOf cells).flatten.map Cell.n, 0 < n) :
    ∀ {k : Nat} {i : Int} {ns : List NodeId}, Vis.nodesOfCells cells k i = .ok ns → ∀ n ∈ ns, 0 < n
  | 0, i, ns, h, n, hn => by
    cases h
    simp at hn
  | k + 1, i, ns, h, n, hn => by
    unfold Vis.nodesOfCells at h
    obtain ⟨x, hx, h⟩ := Outcome.bind_eq_ok.1 h
    obtain ⟨ns', h1, h⟩ := Outcome.bind_eq_ok.1 h
    cases h
    rcases List.mem_cons.1 hn with rfl | hn
    · exact hp _ (cell_node hx)
    · exact nodesOfCells_pos hp h1 n hn

theorem targetLoop_pos {cells : Cells F} (hp : ∀ n ∈ (subsetsOf cells).flatten.map Cell.n, 0 < n) {want : Nat} :
    ∀ {k : Nat} {acc ns : List NodeId}, (∀ n ∈ acc, 0 < n) → Vis.targetLoop cells want k acc = .ok ns → ∀ n ∈ ns, 0 < n
  | 0, acc, ns, ha, h => by
    cases h
    exact ha
  | k + 1, acc, ns, ha, h => by
    unfold Vis.targetLoop at h
    obtain ⟨x, hx, h⟩ := Outcome.bind_eq_ok.1 h
    have ha' : ∀ n ∈ x.n :: acc, 0 < n := by
      intro n hn
      rcases List.mem_cons.1 hn with rfl | hn
      · exact hp _ (cell_node hx)
      · exact ha n hn
    split at h
    · exact targetLoop_pos hp ha' h
    · cases h
      exact ha'

theorem mem_selectTargets : ∀ {bs : List Nat} {ns : List NodeId} {n : NodeId}, n ∈ Vis.selectTargets bs ns → n ∈ ns
  | [], _, n, h => by simp [Vis.selectTargets] at h
  | _ :: _, [], n, h => by simp [Vis.selectTargets] at h
  | b :: bs, m :: ns, n, h => by
    unfold Vis.selectTargets at h
    split at h
    · rcases List.mem_cons.1 h with rfl | h
      · simp
      · exact List.mem_cons_of_mem _ (mem_selectTargets h)
    · exact List.mem_cons_of_mem _ (mem_selectTargets h)

theorem Adds.initTargets [GoFloat F] {s s' : Vis F} (hg : Rooted s) {ts : List NodeId}
    (h : Vis.initTargetNodes s = (.ok ts, s')) : Adds [] s s' ∧ s'.assoc = s.assoc ∧ ∀ n ∈ ts, 0 < n := by
  unfold Vis.initTargetNodes at h
  obtain ⟨bits, h1, h⟩ := query_inv (fun _ => rfl) h
  obtain ⟨nodes, h2, h⟩ := query_inv (fun _ => rfl) h
  have hn := targetLoop_pos (cells := s.cells) hg.cells (by simp) (Prod.mk.inj h2).1
  split at h
  · cases h
  · cases h
    have ht : ∀ n ∈ Vis.selectTargets bits nodes, 0 < n := fun n hm => hn n (mem_selectTargets hm)
    exact ⟨.same hg rfl rfl rfl rfl ht, rfl, ht⟩

theorem ite_parts {σ α : Type} {p : Prop} [Decidable p] {m n : M σ α} {s : σ} {x : Outcome α × σ}
    (h : (if p then m else n) s = x) : (p ∧ m s = x) ∨ (¬ p ∧ n s = x) := by
  by_cases hp : p
  · exact .inl ⟨hp, by simpa [hp] using h⟩
  · exact .inr ⟨hp, by simpa [hp] using h⟩

theorem valuedNodes_inv {m : M (Vis F) Unit} {s s' : Vis F} {ns : List NodeId} (h : Vis.valuedNodes m s = (.ok ns, s')) :
    m s = (.ok (), s') ∧ ((∀ n ∈ allNodes s', 0 < n) → ∀ n ∈ ns, 0 < n) := by
  unfold Vis.valuedNodes at h
  obtain ⟨a0, h1, h⟩ := query_inv (fun _ => rfl) h
  obtain ⟨_, s2, h2, h⟩ := M.bind_eq_ok.1 h
  obtain ⟨a1, h3, h⟩ := query_inv (fun _ => rfl) h
  rcases ite_parts h with ⟨_, h⟩ | ⟨_, h⟩
  · simp at h
  · rw [Prod.mk.injEq] at h
    rw [← h.2]
    exact ⟨h2, fun hp => nodesOfCells_pos hp h.1⟩

theorem Adds.attach {as : List NodeId} : ∀ {ss ts : List NodeId} {s s' : Vis F}, Rooted s → (∀ n ∈ ss, 0 < n) →
    (∀ n ∈ ts, 0 < n) → Vis.attach as ss ts s = (.ok (), s') → Adds [] s s' ∧ s'.assoc = s.assoc
  | [], ts, s, s', hg, _, _, h => by
    cases h
    exact ⟨.refl hg, rfl⟩
  | _ :: _, [], s, s', hg, _, _, h => by cases h
  | n :: ss, t :: ts, s, s', hg, hs, ht, h => by
    unfold Vis.attach at h
    obtain ⟨_, s1, h1, h⟩ := M.bind_eq_ok.1 h
    obtain ⟨_, s2, h2, h⟩ := M.bind_eq_ok.1 h
    obtain ⟨a1, e1⟩ := Adds.addMember hg (ht t (by simp)) h1
    obtain ⟨a2, e2⟩ := Adds.addMembers (hs n (by simp)) a1.good h2
    obtain ⟨a3, e3⟩ := Adds.attach a2.good (fun m hm => hs m (by simp [hm])) (fun m hm => ht m (by simp [hm])) h
    exact ⟨(a1.trans a2).trans a3, e3.trans (e2.trans e1)⟩

theorem Adds.newAssessment {s s' : Vis F} (hg : Rooted s) (h : Vis.newAssessment s = (.ok (), s')) :
    Adds [] s s' ∧ s'.assoc = s.assoc := by
  unfold Vis.newAssessment at h
  split at h
  · split at h
    · cases h
      exact ⟨.same hg rfl rfl rfl rfl hg.targets, rfl⟩
    · cases h
    · cases h
    · cases h
  · cases h
    exact ⟨.refl hg, rfl⟩

theorem Does.assessment [GoFloat F] {d : Desc} {bm : Ast} {as ms : List Ast} {b a m : M (Vis F) Unit}
    (hb : Does (Members c.compatible (fromJson c) · bm) b) (ha : Does (MembersL c.compatible (fromJson c) · as) a)
    (hm : Does (MembersL c.compatible (fromJson c) · ms) m) :
    Does (Members c.compatible (fromJson c) · (.assessment d bm as ms)) (Vis.visitAssessment c d b a m) := by
  intro s s' hg h
  unfold Vis.visitAssessment at h
  obtain ⟨_, s1, h1, h⟩ := M.bind_eq_ok.1 h
  obtain ⟨_, s2, h2, h⟩ := M.bind_eq_ok.1 h
  obtain ⟨_, s3, h3, h⟩ := M.bind_eq_ok.1 h
  obtain ⟨an, s4, h4, h⟩ := M.bind_eq_ok.1 h
  obtain ⟨ts, s5, h5, h⟩ := M.bind_eq_ok.1 h
  obtain ⟨sn, s6, h6, h⟩ := M.bind_eq_ok.1 h
  obtain ⟨a1, e1⟩ := Adds.newAssessment hg h1
  obtain ⟨zs, pz, a2, e2⟩ := Adds.zero a1.good h2
  obtain ⟨es1, p1, a3⟩ := hb s2 s3 a2.good h3
  obtain ⟨h4', hp4⟩ := valuedNodes_inv h4
  obtain ⟨es2, p2, a4⟩ := ha s3 s4 a3.good h4'
  obtain ⟨a5, e5, hp5⟩ := Adds.initTargets a4.good h5
  obtain ⟨h6', hp6⟩ := valuedNodes_inv h6
  obtain ⟨es3, p3, a6⟩ := hm s5 s6 a5.good h6'
  obtain ⟨a7, e7⟩ := Adds.attach a6.good (hp6 a6.good.cells) hp5 h
  rw [e2, e1] at p1
  rw [e5] at p3
  refine ⟨zs ++ (es1 ++ (es2 ++ es3)), ?_, ?_⟩
  · rw [e7]
    exact .assessment pz p1 p2 p3
  · have := (((((a1.trans a2).trans a3).trans a4).trans a5).trans a6).trans a7
    simpa using this

theorem Does.marker [GoFloat F] {d : Desc} {j : Bool} : Does (F := F) (Members c.compatible j · (.marker d)) (Vis.visitMarker c d) := by
  intro s s' hg h
  unfold Vis.visitMarker at h
  obtain ⟨t, s1, h1, h⟩ := M.bind_eq_ok.1 h
  obtain ⟨td, h2, h⟩ := query_inv (fun _ => rfl) h
  obtain ⟨info, h3, h⟩ := query_inv (fun _ => rfl) h
  obtain ⟨n, s4, h4, h⟩ := M.bind_eq_ok.1 h
  cases h
  have a1 : Adds [] s s1 ∧ s1.assoc = s.assoc := by
    unfold Vis.nextTargetNode at h1
    split at h1
    · cases h1
    · rename_i ht
      cases h1
      exact ⟨.same hg rfl rfl rfl rfl fun n hn => hg.targets n (by rw [ht]; simp [hn]), rfl⟩
  obtain ⟨a4, e4, _⟩ := Adds.build a1.1.good h4
  refine ⟨[Spec.value d], ?_, a1.1.trans a4⟩
  rw [e4, a1.2]
  exact .marker _ _

theorem Does.bitmap [GoFloat F] {d : Option Desc} {ms : List Ast} {m : M (Vis F) Unit}
    (hm : Does (MembersL c.compatible (fromJson c) · ms) m) :
    Does (Members c.compatible (fromJson c) · (.bitmap d ms)) (Vis.visitBitmap c d m) := by
  intro s s' hg h
  unfold Vis.visitBitmap at h
  split at h
  · cases h
  · rename_i d
    obtain ⟨_, s1, h1, h⟩ := M.bind_eq_ok.1 h
    obtain ⟨zs, pz, a1, e1⟩ := Adds.zero hg h1
    split at h
    · rename_i hd
      cases h
      refine ⟨zs, ?_, ?_⟩
      · rw [← e1]
        exact .recalled hd pz
      · have := a1.trans (.same a1.good rfl rfl rfl rfl a1.good.targets :
          Adds [] s1 { s1 with bm.current := s1.bm.reusable })
        simpa using this
    · rename_i hd
      obtain ⟨_, s2, h2, h⟩ := M.bind_eq_ok.1 h
      obtain ⟨s3, h3, h4⟩ := deferDo_ok_inv h (by
        intro s e s'
        unfold Vis.endBitmap
        split <;> simp)
      have a2 : Adds [] s1 s2 ∧ s2.assoc = s1.assoc := by
        unfold Vis.newBitmap at h2
        obtain ⟨n, h5, h2⟩ := query_inv (fun _ => rfl) h2
        cases h2
        exact ⟨.same a1.good rfl rfl rfl rfl a1.good.targets, rfl⟩
      obtain ⟨es, p, a3⟩ := hm s2 s3 a2.1.good h3
      have a4 : Adds [] s3 s' ∧ s'.assoc = s3.assoc := by
        unfold Vis.endBitmap at h4
        split at h4
        · cases h4
          exact ⟨.same a3.good rfl rfl rfl rfl a3.good.targets, rfl⟩
        · cases h4
        · cases h4
      refine ⟨zs ++ es, ?_, ?_⟩
      · rw [a2.2, e1] at p
        rw [a4.2]
        exact .bitmap hd pz p
      · have := ((a1.trans a2.1).trans a3).trans a4.1
        simpa using this

theorem length_setLastNode (n : NodeId) : ∀ l : List AssocPair, (Vis.setLastNode n l).length = l.length
  | [] => rfl
  | [p] => rfl
  | p :: q :: l => by
    rw [Vis.setLastNode]
    · simp [length_setLastNode n (q :: l)]
    · simp

mutual
/-- The members that the decoder adds to the root. -/
theorem visit_does [GoFloat F] : (t : Ast) → noBase t = true →
    Does (F := F) (Members c.compatible (fromJson c) · t) (Vis.visit c t)
  | .base _ ms, hb => by simp [noBase] at hb
  | .element d np, _ => by
    intro s s' hg h
    unfold Vis.visit at h
    split at h
    · rename_i hnp
      subst hnp
      obtain ⟨a, e⟩ := Adds.valueless hg h
      exact ⟨_, by rw [e]; exact .absent _ _, a⟩
    · rename_i hnp
      have hnp : np = false := by simpa using hnp
      subst hnp
      obtain ⟨as, s1, h1, h⟩ := M.bind_eq_ok.1 h
      obtain ⟨n, s2, h2, h⟩ := M.bind_eq_ok.1 h
      obtain ⟨a1, e1⟩ := Adds.assocNodes hg h1
      obtain ⟨a2, e2, p2⟩ := Adds.valued a1.good h2
      obtain ⟨a3, e3⟩ := Adds.addMembers p2 a2.good h
      refine ⟨_, ?_, (a1.trans a2).trans a3⟩
      rw [e3, e2, e1, List.append_nil]
      exact .element _ _
  | .e031021 d, _ => by
    intro s s' hg h
    unfold Vis.visit at h
    obtain ⟨n, s1, h1, h⟩ := M.bind_eq_ok.1 h
    obtain ⟨a1, e1, _⟩ := Adds.valued hg h1
    cases h
    refine ⟨_, ?_, a1.trans (.same a1.good rfl rfl rfl rfl a1.good.targets)⟩
    simp only [length_setLastNode]
    rw [e1, List.append_nil]
    exact .meaning _ _
  | .fixedRepl d ms, hb => by
    intro s s' hg h
    unfold Vis.visit at h
    obtain ⟨es, ⟨rfl, _, _, ht⟩, a⟩ := ((visitL_does ms (by simpa [noBase] using hb)).repeatM d.id.Y.toNat).within
      (.valueless ⟨some d, false⟩) s s' hg h
    exact ⟨_, .fixed ht, a⟩
  | .delayedRepl d [], _ => by
    intro s s' hg h
    unfold Vis.visit at h
    exfalso
    unfold Vis.within at h
    obtain ⟨n, s1, h1, h⟩ := M.bind_eq_ok.1 h
    obtain ⟨_, s2, h2, h⟩ := M.bind_eq_ok.1 h
    obtain ⟨s3, h3, _⟩ := deferDo_ok_inv h (by
      intro s e s'
      unfold Vis.treePop
      split <;> simp)
    cases h3
  | .delayedRepl d (m :: ms), hb => by
    intro s s' hg h
    unfold Vis.visit at h
    simp only [noBase, noBaseL, Bool.and_eq_true] at hb
    obtain ⟨es, ⟨rfl, _, n, es1, k1, hm, ht⟩, a⟩ :=
      (Does.delayed (d := d) (visit_does m hb.1) (visitL_does ms hb.2)).within
        (.valueless ⟨some d, false⟩) s s' hg h
    exact ⟨_, .delayed hm ht, a⟩
  | .sequence d ms, hb => by
    intro s s' hg h
    unfold Vis.visit at h
    obtain ⟨es, ⟨rfl, es', hm⟩, a⟩ := (visitL_does ms (by simpa [noBase] using hb)).within
      (.valueless ⟨some d, false⟩) s s' hg h
    exact ⟨_, .sequence hm, a⟩
  | .nbitsOffset d, _ => by
    intro s s' hg h
    unfold Vis.visit at h
    obtain ⟨_, s1, h1, h⟩ := M.bind_eq_ok.1 h
    obtain ⟨a1, e1⟩ := Adds.valueless hg h1
    cases h
    refine ⟨_, ?_, a1.trans (.same a1.good rfl rfl rfl rfl a1.good.targets)⟩
    rw [← e1]
    exact .nbitsOffset _ _
  | .scaleOffset d, _ => by
    intro s s' hg h
    unfold Vis.visit at h
    obtain ⟨_, s1, h1, h⟩ := M.bind_eq_ok.1 h
    obtain ⟨a1, e1⟩ := Adds.valueless hg h1
    cases h
    refine ⟨_, ?_, a1.trans (.same a1.good rfl rfl rfl rfl a1.good.targets)⟩
    rw [← e1]
    exact .scaleOffset _ _
  | .newRefval d ms, _ => by
    intro s s' hg h
    unfold Vis.visit at h
    obtain ⟨_, s1, h1, h⟩ := M.bind_eq_ok.1 h
    obtain ⟨a1, e1⟩ := Adds.valueless hg h1
    by_cases hd : d.id.Y = 255
    · rw [if_neg (by simpa using hd)] at h
      cases h
      refine ⟨_, ?_, a1⟩
      rw [e1]
      have := Members.newRefval (compatible := c.compatible) (json := fromJson c) s.assoc.length d ms
      rw [if_pos hd] at this
      exact this
    · rw [if_pos (by simpa using hd)] at h
      obtain ⟨es, ⟨rfl, eb⟩, a2⟩ := Does.newRefvalLoop ms s1 s' a1.good h
      refine ⟨_, ?_, a1.trans a2⟩
      rw [eb, e1]
      have := Members.newRefval (compatible := c.compatible) (json := fromJson c) s.assoc.length d ms
      rw [if_neg hd] at this
      exact this
  | .assocField d ms, hb => by
    intro s s' hg h
    unfold Vis.visit at h
    obtain ⟨_, s1, h1, h⟩ := M.bind_eq_ok.1 h
    obtain ⟨a1, e1⟩ := Adds.valueless hg h1
    have hms := visitL_does ms (by simpa [noBase] using hb)
    by_cases hd : d.id.Y = 0
    · rw [if_pos hd] at h
      obtain ⟨_, s2, h2, h⟩ := M.bind_eq_ok.1 h
      unfold Vis.assocPop at h2
      split at h2
      · cases h2
      · rename_i he
        cases h2
        have a2 : Adds [] s1 { s1 with assoc := s1.assoc.dropLast } := .same a1.good rfl rfl rfl rfl a1.good.targets
        obtain ⟨es, p, a3⟩ := hms _ s' a2.good h
        refine ⟨_, ?_, (a1.trans a2).trans a3⟩
        have hl : s.assoc.length = s1.assoc.dropLast.length + 1 := by
          rw [← e1, List.length_dropLast]
          have : s1.assoc.length ≠ 0 := by simpa using he
          omega
        rw [hl, List.append_nil]
        exact .closes hd p
    · rw [if_neg hd] at h
      obtain ⟨_, s2, h2, h⟩ := M.bind_eq_ok.1 h
      cases h2
      have a2 : Adds [] s1 { s1 with assoc := s1.assoc ++ [{ nbits := d.id.Y }] } :=
        .same a1.good rfl rfl rfl rfl a1.good.targets
      obtain ⟨es, p, a3⟩ := hms _ s' a2.good h
      refine ⟨_, ?_, (a1.trans a2).trans a3⟩
      simp only [List.length_append, List.length_singleton] at p
      rw [e1] at p
      rw [List.append_nil]
      exact .opens hd p
  | .insertString d, _ => by
    intro s s' hg h
    unfold Vis.visit at h
    obtain ⟨n, s1, h1, h⟩ := M.bind_eq_ok.1 h
    obtain ⟨a1, e1, _⟩ := Adds.build hg h1
    cases h
    exact ⟨_, by rw [e1]; exact .insertString _ _, a1⟩
  | .skipLocal d [], _ => by
    intro s s' hg h
    unfold Vis.visit at h
    obtain ⟨_, s1, h1, h⟩ := M.bind_eq_ok.1 h
    cases h
  | .skipLocal d (m :: ms), _ => by
    intro s s' hg h
    unfold Vis.visit at h
    obtain ⟨_, s1, h1, h⟩ := M.bind_eq_ok.1 h
    obtain ⟨a1, e1⟩ := Adds.valueless hg h1
    obtain ⟨n, s2, h2, h⟩ := M.bind_eq_ok.1 h
    obtain ⟨a2, e2, _⟩ := Adds.build a1.good h2
    cases h
    exact ⟨_, by rw [e2, e1]; exact .skipLocal _ _ _ _, a1.trans a2⟩
  | .modifyPacking d, _ => by
    intro s s' hg h
    unfold Vis.visit at h
    obtain ⟨_, s1, h1, h⟩ := M.bind_eq_ok.1 h
    obtain ⟨a1, e1⟩ := Adds.valueless hg h1
    have a2 : Adds [] s1 s' ∧ s'.assoc = s1.assoc := by
      split at h
      · cases h
        exact ⟨.same a1.good rfl rfl rfl rfl a1.good.targets, rfl⟩
      · cases h
        exact ⟨.same a1.good rfl rfl rfl rfl a1.good.targets, rfl⟩
    exact ⟨_, by rw [a2.2, e1]; exact .modifyPacking _ _, a1.trans a2.1⟩
  | .setStringLength d, _ => by
    intro s s' hg h
    unfold Vis.visit at h
    obtain ⟨_, s1, h1, h⟩ := M.bind_eq_ok.1 h
    obtain ⟨a1, e1⟩ := Adds.valueless hg h1
    cases h
    refine ⟨_, ?_, a1.trans (.same a1.good rfl rfl rfl rfl a1.good.targets)⟩
    rw [← e1]
    exact .setStringLength _ _
  | .dataNotPresent d ms, hb => by
    intro s s' hg h
    unfold Vis.visit at h
    obtain ⟨_, s1, h1, h⟩ := M.bind_eq_ok.1 h
    obtain ⟨a1, e1⟩ := Adds.valueless hg h1
    obtain ⟨es, p, a2⟩ := visitL_does ms (by simpa [noBase] using hb) s1 s' a1.good h
    rw [e1] at p
    exact ⟨_, .dataNotPresent p, a1.trans a2⟩
  | .assessment d bm as ms, hb => by
    simp only [noBase, Bool.and_eq_true] at hb
    unfold Vis.visit
    exact Does.assessment (visit_does bm hb.1.1) (visitL_does as hb.1.2) (visitL_does ms hb.2)
  | .marker d, _ => by
    unfold Vis.visit
    exact Does.marker
  | .cancelBackRef d, _ => by
    intro s s' hg h
    unfold Vis.visit at h
    cases h
    exact ⟨_, .cancelBackRef _ _, .same hg rfl rfl rfl rfl hg.targets⟩
  | .cancelBitmap d, _ => by
    intro s s' hg h
    unfold Vis.visit at h
    cases h
    exact ⟨_, .cancelBitmap _ _, .same hg rfl rfl rfl rfl hg.targets⟩
  | .bitmap d ms, hb => by
    unfold Vis.visit
    exact Does.bitmap (visitL_does ms (by simpa [noBase] using hb))
/-- The members that the decoder adds to the root for a list of nodes. -/
theorem visitL_does [GoFloat F] : (ts : List Ast) → noBaseL ts = true →
    Does (F := F) (MembersL c.compatible (fromJson c) · ts) (Vis.visitL c ts)
  | [], _ => by
    intro s s' hg h
    unfold Vis.visitL at h
    cases h
    exact ⟨_, .nil _, .refl hg⟩
  | t :: ts, hb => by
    intro s s' hg h
    unfold Vis.visitL at h
    simp only [noBaseL, Bool.and_eq_true] at hb
    obtain ⟨_, s1, h1, h⟩ := M.bind_eq_ok.1 h
    obtain ⟨es1, p1, a1⟩ := visit_does t hb.1 s s1 hg h1
    obtain ⟨es2, p2, a2⟩ := visitL_does ts hb.2 s1 s' a1.good h
    exact ⟨_, .cons p1 p2, a1.trans a2⟩
end

end Gobufr
