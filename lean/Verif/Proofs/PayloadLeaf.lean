import Verif.Proofs.PayloadTree

/-!
# Helper lemmas: members in templates without associated fields and assessments

There new nodes become members of the current parent only, and never get members themselves
unless they are parents for a while.
-/

set_option linter.unusedSimpArgs false

namespace Gobufr
open ParserSpec Flat

variable {F : Type} {c : VisCfg}

/-- Nodes whose decoding adds members to other nodes than the current parent. -/
def Attaches : Ast → Prop
  | .assocField _ _ | .assessment _ _ _ _ => True
  | _ => False

/-- Only the current parent gets members; they are new and have no members. -/
structure Leafy (s s' : Vis F) : Prop where
  assoc : s'.assoc = []
  node : s'.node = s.node
  stack : s'.stack = s.stack
  length : s.heap.length ≤ s'.heap.length
  old : ∀ n < s.heap.length, n ≠ s.node → membersOf s'.heap n = membersOf s.heap n
  new : ∀ m, some m ∈ membersOf s'.heap s.node → some m ∈ membersOf s.heap s.node ∨
    (s.heap.length ≤ m ∧ m < s'.heap.length ∧ membersOf s'.heap m = [])
  cells : ∀ n ∈ allNodes s', n ∈ allNodes s ∨ (s.heap.length ≤ n ∧ n < s'.heap.length)

/-- `Leafy` when no associated field is in force. -/
def LeafyIf (s s' : Vis F) : Prop := s.assoc = [] → s.node < s.heap.length → Leafy s s'

/-- `LeafyIf` holds between the states before and after `m`, unless `m` never ends. -/
def LRel (m : M (Vis F) α) : Prop := ∀ s, (m s).1 ≠ .diverge → LeafyIf s (m s).2

namespace Leafy

theorem trans {s1 s2 s3 : Vis F} (hn : s1.node < s1.heap.length) (h1 : Leafy s1 s2) (h2 : Leafy s2 s3) : Leafy s1 s3 where
  assoc := h2.assoc
  node := h2.node.trans h1.node
  stack := h2.stack.trans h1.stack
  length := Nat.le_trans h1.length h2.length
  old n hl hne := by
    rw [h2.old n (Nat.lt_of_lt_of_le hl h1.length) (by rw [h1.node]; exact hne), h1.old n hl hne]
  new m hm := by
    rw [← h1.node] at hm
    rcases h2.new m hm with h | ⟨a, b, e⟩
    · rw [h1.node] at h
      rcases h1.new m h with h | ⟨a, b, e⟩
      · exact Or.inl h
      · refine Or.inr ⟨a, Nat.lt_of_lt_of_le b h2.length, ?_⟩
        rw [h2.old m b ?_, e]
        rw [h1.node]
        exact (Nat.ne_of_lt (Nat.lt_of_lt_of_le hn a)).symm
    · exact Or.inr ⟨Nat.le_trans h1.length a, b, e⟩
  cells n hm := by
    rcases h2.cells n hm with h | ⟨a, b⟩
    · rcases h1.cells n h with h | ⟨a, b⟩
      · exact Or.inl h
      · exact Or.inr ⟨a, Nat.lt_of_lt_of_le b h2.length⟩
    · exact Or.inr ⟨Nat.le_trans h1.length a, b⟩

/-- Steps that change neither nodes nor cells. -/
theorem same {s s' : Vis F} (ha : s'.assoc = []) (h : s'.heap = s.heap) (hn : s'.node = s.node)
    (hc : s'.cells = s.cells) (hs : s'.stack = s.stack) : Leafy s s' where
  assoc := ha
  node := hn
  stack := hs
  length := by rw [h]; exact Nat.le_refl _
  old n _ _ := by rw [h]
  new m hm := by rw [h] at hm; exact Or.inl hm
  cells n hm := by unfold allNodes at hm ⊢; rw [hc] at hm; exact Or.inl hm

end Leafy

namespace LeafyIf

theorem same {s s' : Vis F} (ha : s.assoc = [] → s'.assoc = []) (h : s'.heap = s.heap) (hn : s'.node = s.node)
    (hc : s'.cells = s.cells) (hs : s'.stack = s.stack) : LeafyIf s s' :=
  fun h0 _ => Leafy.same (ha h0) h hn hc hs

theorem refl (s : Vis F) : LeafyIf s s := same id rfl rfl rfl rfl

theorem trans {s1 s2 s3 : Vis F} (h1 : LeafyIf s1 s2) (h2 : LeafyIf s2 s3) : LeafyIf s1 s3 := by
  intro ha hn
  have k := h1 ha hn
  exact k.trans hn (h2 k.assoc (by rw [k.node]; exact Nat.lt_of_lt_of_le hn k.length))

theorem bind {m : M (Vis F) α} {n : α → M (Vis F) β} (hm : LRel m) (hn : ∀ a, LRel (n a)) : LRel (m >>= n) := by
  intro s hd
  have h1 := hm s
  rw [M.bind_apply] at hd ⊢
  rcases hms : m s with ⟨o, s1⟩
  rw [hms] at h1 hd
  cases o with
  | ok a => exact (h1 (by simp)).trans (hn a s1 hd)
  | err e => exact h1 (by simp)
  | panic w => exact h1 (by simp)
  | diverge => exact absurd rfl hd

theorem query (q : Vis F → Outcome α) : LRel (fun s => (q s, s) : M (Vis F) α) := fun s _ => refl s
theorem pure (a : α) : LRel (F := F) (Pure.pure a) := query fun _ => .ok a
theorem crash (w : String) : LRel (M.crash w : M (Vis F) α) := query fun _ => .panic w
theorem fail (e : Err) : LRel (M.fail e : M (Vis F) α) := query fun _ => .err e
theorem lift (o : Outcome α) : LRel (M.lift o : M (Vis F) α) := query fun _ => o

/-- Steps that change neither nodes nor cells. -/
theorem modify (g : Vis F → Vis F) (ha : ∀ s, s.assoc = [] → (g s).assoc = []) (h : ∀ s, (g s).heap = s.heap)
    (hn : ∀ s, (g s).node = s.node) (hc : ∀ s, (g s).cells = s.cells) (hs : ∀ s, (g s).stack = s.stack) :
    LRel (M.modify g) := fun s _ => same (ha s) (h s) (hn s) (hc s) (hs s)

theorem ignoreErr {m : M (Vis F) α} (a : α) (hm : LRel m) : LRel (M.ignoreErr a m) := by
  intro s hd
  have h1 := hm s
  unfold M.ignoreErr at hd ⊢
  rcases hms : m s with ⟨o, s1⟩
  rw [hms] at h1 hd
  cases o with
  | ok a => exact h1 (by simp)
  | err e => exact h1 (by simp)
  | panic w => exact h1 (by simp)
  | diverge => exact absurd rfl hd

theorem defer {m : M (Vis F) α} {d : M (Vis F) PUnit} (hm : LRel m) (hd : LRel d) (hend : ∀ s, (d s).1 ≠ .diverge) :
    LRel (M.deferDo d m) := by
  intro s hx
  have h1 := hm s
  unfold M.deferDo at hx ⊢
  rcases hms : m s with ⟨o, s1⟩
  rw [hms] at h1 hx
  have h2 := hd s1 (hend s1)
  rcases hds : d s1 with ⟨o', s2⟩
  rw [hds] at h2
  cases o with
  | ok a => have h3 := (h1 (by simp)).trans h2; simp only [hds]; cases o' <;> exact h3
  | err e => have h3 := (h1 (by simp)).trans h2; simp only [hds]; cases o' <;> exact h3
  | panic w => have h3 := (h1 (by simp)).trans h2; simp only [hds]; cases o' <;> exact h3
  | diverge => exact absurd rfl hx

/-- A new node is added to the current parent. -/
theorem added (s : Vis F) (x : NodeKind F) : Leafy { s with assoc := [] } { s with
    assoc := [], heap := Heap.addMember (s.heap ++ [⟨x, []⟩]) s.node (some s.heap.length) } ∨ ¬ s.node < s.heap.length := by
  by_cases hn : s.node < s.heap.length
  · refine Or.inl ⟨rfl, rfl, rfl, by simp [Heap.addMember], ?_, ?_, fun n h => Or.inl h⟩
    · intro n _ hne
      simp only [membersOf_addMember, membersOf_alloc]
      rw [if_neg (fun h => hne h.1)]
    · intro m hm
      simp only [membersOf_addMember, membersOf_alloc] at hm ⊢
      simp only [List.length_append, List.length_cons, List.length_nil, true_and] at hm
      rw [if_pos (Nat.lt_succ_of_lt hn)] at hm
      rcases List.mem_append.1 hm with h | h
      · exact Or.inl h
      · simp only [List.mem_singleton, Option.some.injEq] at h
        subst h
        refine Or.inr ⟨Nat.le_refl _, by simp [Heap.addMember], ?_⟩
        rw [if_neg (fun h => absurd h.1 (Nat.ne_of_gt hn))]
        unfold membersOf
        rw [List.getElem?_eq_none (Nat.le_refl _)]
        rfl
  · exact Or.inr hn

theorem addNode (s : Vis F) (x : NodeKind F) :
    LeafyIf s { s with heap := Heap.addMember (s.heap ++ [⟨x, []⟩]) s.node (some s.heap.length) } := by
  intro ha hn
  rcases added s x with h | h
  · rw [← ha] at h
    exact h
  · exact absurd hn h

theorem valueless (d : Option Desc) : LRel (F := F) (Vis.addValueless d) := fun s _ => addNode s _

theorem cellsAdd_frame (n : NodeId) (v : Unpacked F) (s : Vis F) :
    (Vis.cellsAdd n v s).2.assoc = s.assoc ∧ (Vis.cellsAdd n v s).2.stack = s.stack ∧
    ∀ i, membersOf (Vis.cellsAdd n v s).2.heap i = membersOf s.heap i := by
  unfold Vis.cellsAdd
  split <;> first | exact ⟨rfl, rfl, fun _ => rfl⟩ | exact ⟨rfl, rfl, fun _ => membersOf_setIndex ..⟩ | skip
  split <;> first | exact ⟨rfl, rfl, fun _ => rfl⟩ | exact ⟨rfl, rfl, fun _ => membersOf_setIndex ..⟩

theorem build [GoFloat F] (d : NodeDesc) (info : PackingInfo F) : LRel (Vis.buildValuedNodeWithInfo c d info) := by
  intro s _
  rcases hu : Vis.unpack c info s with ⟨o, s1⟩
  have hs1 : s1 = { s with r := s1.r } := by
    have := congrArg Prod.snd hu
    simp only [Vis.unpack, M.zoom] at this
    rw [← this]
  have h01 : LeafyIf s s1 := by
    rw [hs1]; exact same id rfl rfl rfl rfl
  cases o with
  | ok v =>
    rw [build_snd hu]
    refine h01.trans ?_
    intro ha hn
    have h2 : Leafy s1 (withNode d info s1) := addNode s1 _ ha hn
    obtain ⟨hl, hnd⟩ := cellsAdd_heap s1.heap.length v (withNode d info s1)
    obtain ⟨e1, e2, e3⟩ := cellsAdd_frame s1.heap.length v (withNode d info s1)
    refine ⟨e1.trans h2.assoc, hnd.trans h2.node, e2.trans h2.stack, by rw [hl]; exact h2.length, ?_, ?_, ?_⟩
    · intro n h h'
      rw [e3, h2.old n h h']
    · intro m hm
      rw [e3] at hm
      rw [e3, hl]
      exact h2.new m hm
    · intro n hm
      rw [hl]
      rcases cellsAdd_nodes _ _ _ n hm with h | h
      · exact h2.cells n h
      · subst h
        refine Or.inr ⟨Nat.le_refl _, ?_⟩
        simp [withNode, Heap.addMember]
  | err e => rw [build_snd_fail hu (by simp)]; exact h01
  | panic e => rw [build_snd_fail hu (by simp)]; exact h01
  | diverge => rw [build_snd_fail hu (by simp)]; exact h01

theorem valuedNode [GoFloat F] (d : NodeDesc) : LRel (Vis.buildValuedNode (F := F) c d) :=
  bind (query _) fun _ => build _ _

theorem zeroNode [GoFloat F] (d : Option Desc) : LRel (Vis.buildZeroNode (F := F) c d) := by
  unfold Vis.buildZeroNode
  split
  · exact bind (build _ _) fun _ => pure _
  · exact valueless _

theorem repeatM {m : M (Vis F) Unit} (h : LRel m) : ∀ n, LRel (Vis.repeatM m n)
  | 0 => pure ()
  | n + 1 => by
    unfold Vis.repeatM
    exact bind h fun _ => repeatM h n

theorem newRefvalLoop [GoFloat F] (info : PackingInfo F) : ∀ ms, LRel (Vis.newRefvalLoop c info ms)
  | [] => pure ()
  | m :: ms => by
    unfold Vis.newRefvalLoop
    refine bind (build _ _) fun n => ?_
    split
    · exact crash _
    · refine bind ?_ fun _ => newRefvalLoop info ms
      intro s _
      cases h : s.newRefval with
      | none => simp only [h]; exact refl s
      | some mp => simp only [h]; exact same id rfl rfl rfl rfl

/-- What a pushed node and its members change in the end: no other node gets members. -/
theorem within_old (k : NodeKind F) {m : M (Vis F) Unit} (hm : LRel m) (s : Vis F) (hx : (Vis.within k m s).1 ≠ .diverge)
    (ha : s.assoc = []) (hn : s.node < s.heap.length) : Leafy s (Vis.within k m s).2 ∧
      ∀ i < s.heap.length, membersOf (Vis.within k m s).2.heap i = membersOf s.heap i := by
  let s1 : Vis F := { s with heap := s.heap ++ [⟨k, []⟩], stack := s.node :: s.stack, node := s.heap.length }
  have e : Vis.within k m s = M.deferDo Vis.treePop m s1 := rfl
  rw [e] at hx ⊢
  have hd : (m s1).1 ≠ .diverge := by
    intro hd
    unfold M.deferDo at hx
    rw [eq_of_fst hd] at hx
    exact hx rfl
  have h1 : Leafy s1 (m s1).2 := hm s1 hd ha (by simp [s1])
  rcases hms : m s1 with ⟨o, s2⟩
  rw [hms] at h1 hd
  have hp : Vis.treePop s2 = (.ok (), { s2 with stack := s.stack, node := s.node }) := by
    unfold Vis.treePop
    rw [h1.stack]
  have hlen : s1.heap.length = s.heap.length + 1 := by simp [s1]
  have hold : ∀ i < s.heap.length, membersOf s2.heap i = membersOf s.heap i := by
    intro i hi
    rw [h1.old i (by rw [hlen]; omega) (Nat.ne_of_lt hi)]
    exact membersOf_alloc _ _ _
  have hle : s.heap.length ≤ s2.heap.length := Nat.le_trans (by rw [hlen]; omega) h1.length
  have hcells : ∀ n ∈ allNodes s2, n ∈ allNodes s ∨ (s.heap.length ≤ n ∧ n < s2.heap.length) := by
    intro n h
    rcases h1.cells n h with h | ⟨a, b⟩
    · exact Or.inl h
    · exact Or.inr ⟨by rw [hlen] at a; omega, b⟩
  have hfin : Leafy s { s2 with stack := s.stack, node := s.node } :=
    ⟨h1.assoc, rfl, rfl, hle, fun i hi _ => hold i hi, fun i hi => Or.inl (by rw [← hold _ hn]; exact hi), hcells⟩
  unfold M.deferDo
  rw [hms]
  cases o <;> simp only [hp] <;> first | exact ⟨hfin, hold⟩ | exact absurd rfl hd

theorem within (k : NodeKind F) {m : M (Vis F) Unit} (hm : LRel m) : LRel (Vis.within k m) :=
  fun s hx ha hn => (within_old k hm s hx ha hn).1

theorem delayed [GoFloat F] {m n : M (Vis F) Unit} (hm : LRel m) (hn : LRel n) : LRel (Vis.visitDelayed m n) := by
  unfold Vis.visitDelayed
  refine bind hm fun _ => bind (query _) fun b => ?_
  split
  · exact fail _
  · exact bind (query _) fun n => bind (query _) fun v => bind (lift _) fun j => repeatM (within _ hn) j

theorem marker [GoFloat F] (d : Desc) : LRel (Vis.visitMarker (F := F) c d) := by
  unfold Vis.visitMarker
  refine bind ?_ fun t => bind (query fun s => _) fun td => bind (query fun s => _) fun info =>
    bind (build _ _) fun _ => pure _
  intro s _
  unfold Vis.nextTargetNode
  split
  · exact refl s
  · exact same id rfl rfl rfl rfl

theorem endBitmap : LRel (Vis.endBitmap (F := F)) := by
  intro s _
  unfold Vis.endBitmap
  split <;> first | exact refl s | exact same id rfl rfl rfl rfl

theorem newBitmap (b : Bool) : LRel (Vis.newBitmap (F := F) b) := by
  unfold Vis.newBitmap
  exact bind (query _) fun n => modify _ (fun _ h => h) (fun _ => rfl) (fun _ => rfl) (fun _ => rfl) fun _ => rfl

theorem bitmap [GoFloat F] (d : Option Desc) {m : M (Vis F) Unit} (hm : LRel m) : LRel (Vis.visitBitmap c d m) := by
  unfold Vis.visitBitmap
  split
  · exact crash _
  · refine bind (ignoreErr _ (zeroNode _)) fun _ => ?_
    split
    · exact modify _ (fun _ h => h) (fun _ => rfl) (fun _ => rfl) (fun _ => rfl) fun _ => rfl
    · refine bind (newBitmap true) fun _ => defer hm endBitmap ?_
      intro s
      unfold Vis.endBitmap
      split <;> simp

theorem element [GoFloat F] (d : Desc) : LRel (Vis.buildAssocNodes (F := F) c d >>= fun as =>
    Vis.buildValuedNode c ⟨some d, false⟩ >>= fun n => Vis.addMembers n as) := by
  intro s hx ha hn
  have e : Vis.buildAssocNodes c d s = (.ok [], s) := by
    unfold Vis.buildAssocNodes
    rw [if_pos (Or.inr (by rw [ha]; rfl))]
  rw [M.bind_ok e] at hx ⊢
  exact bind (valuedNode _) (fun n => by unfold Vis.addMembers; exact pure ()) s hx ha hn

theorem setNode (n : NodeId) : LRel (Vis.assocSetNode (F := F) n) :=
  modify _ (fun s h => by simp [h, Vis.setLastNode]) (fun _ => rfl) (fun _ => rfl) (fun _ => rfl) fun _ => rfl

mutual
theorem visit [GoFloat F] : (t : Ast) → (noBase t = true) → (∀ n ∈ nodes t, ¬ Attaches n) → LRel (Vis.visit (F := F) c t)
  | .base _ ms, hb, _ => by simp [noBase] at hb
  | .element d np, _, _ => by
    unfold Vis.visit
    split
    · exact valueless _
    · exact element d
  | .e031021 d, _, _ => by
    unfold Vis.visit
    exact bind (valuedNode _) fun n => setNode n
  | .fixedRepl d ms, hb, h => by
    unfold Vis.visit
    refine within _ (repeatM (within _ ?_) _)
    exact visitL ms (by simpa [noBase] using hb) fun n hn => h n (by simp [nodes, hn])
  | .delayedRepl d [], _, h => by
    unfold Vis.visit
    exact within _ (crash _)
  | .delayedRepl d (m :: ms), hb, h => by
    unfold Vis.visit
    simp only [noBase, noBaseL, Bool.and_eq_true] at hb
    refine within _ (delayed ?_ ?_)
    · exact visit m hb.1 fun n hn => h n (by simp [nodes, nodesL, hn])
    · exact visitL ms hb.2 fun n hn => h n (by simp [nodes, nodesL, hn])
  | .sequence d ms, hb, h => by
    unfold Vis.visit
    exact within _ (visitL ms (by simpa [noBase] using hb) fun n hn => h n (by simp [nodes, hn]))
  | .nbitsOffset d, _, _ => by
    unfold Vis.visit
    exact bind (valueless _) fun _ => modify _ (fun _ h => h) (fun _ => rfl) (fun _ => rfl) (fun _ => rfl) fun _ => rfl
  | .scaleOffset d, _, _ => by
    unfold Vis.visit
    exact bind (valueless _) fun _ => modify _ (fun _ h => h) (fun _ => rfl) (fun _ => rfl) (fun _ => rfl) fun _ => rfl
  | .newRefval d ms, _, _ => by
    unfold Vis.visit
    refine bind (valueless _) fun _ => ?_
    split
    · exact newRefvalLoop _ ms
    · exact pure _
  | .assocField d ms, _, h => absurd (show Attaches (.assocField d ms) from trivial) (h _ (by simp [nodes]))
  | .insertString d, _, _ => by
    unfold Vis.visit
    exact bind (build _ _) fun _ => pure _
  | .skipLocal d [], _, _ => by
    unfold Vis.visit
    exact bind (valueless _) fun _ => crash _
  | .skipLocal d (m :: _), _, _ => by
    unfold Vis.visit
    exact bind (valueless _) fun _ => bind (build _ _) fun _ => pure _
  | .modifyPacking d, _, _ => by
    unfold Vis.visit
    refine bind (valueless _) fun _ => ?_
    split
    · exact modify _ (fun _ h => h) (fun _ => rfl) (fun _ => rfl) (fun _ => rfl) fun _ => rfl
    · exact modify _ (fun _ h => h) (fun _ => rfl) (fun _ => rfl) (fun _ => rfl) fun _ => rfl
  | .setStringLength d, _, _ => by
    unfold Vis.visit
    exact bind (valueless _) fun _ => modify _ (fun _ h => h) (fun _ => rfl) (fun _ => rfl) (fun _ => rfl) fun _ => rfl
  | .dataNotPresent d ms, hb, h => by
    unfold Vis.visit
    exact bind (valueless _) fun _ => visitL ms (by simpa [noBase] using hb) fun n hn => h n (by simp [nodes, hn])
  | .assessment d bm as ms, _, h => absurd (show Attaches (.assessment d bm as ms) from trivial) (h _ (by simp [nodes]))
  | .marker d, _, _ => by
    unfold Vis.visit
    exact marker d
  | .cancelBackRef d, _, _ => by
    unfold Vis.visit
    exact modify _ (fun _ h => h) (fun _ => rfl) (fun _ => rfl) (fun _ => rfl) fun _ => rfl
  | .cancelBitmap d, _, _ => by
    unfold Vis.visit
    exact modify _ (fun _ h => h) (fun _ => rfl) (fun _ => rfl) (fun _ => rfl) fun _ => rfl
  | .bitmap d ms, hb, h => by
    unfold Vis.visit
    exact bitmap d (visitL ms (by simpa [noBase] using hb) fun n hn => h n (by simp [nodes, hn]))
theorem visitL [GoFloat F] : (ts : List Ast) → (noBaseL ts = true) → (∀ n ∈ nodesL ts, ¬ Attaches n) →
    LRel (Vis.visitL (F := F) c ts)
  | [], _, _ => by
    unfold Vis.visitL
    exact pure _
  | t :: ts, hb, h => by
    unfold Vis.visitL
    simp only [noBaseL, Bool.and_eq_true] at hb
    exact bind (visit t hb.1 fun n hn => h n (by simp [nodesL, hn])) fun _ =>
      visitL ts hb.2 fun n hn => h n (by simp [nodesL, hn])
end

/-- Sequences and replications give members to none of the nodes made before. -/
theorem visit_old [GoFloat F] {t : Ast} (hp : Pushes t) (hb : noBase t = true) (h : ∀ n ∈ nodes t, ¬ Attaches n)
    (s : Vis F) (hx : (Vis.visit c t s).1 ≠ .diverge) (ha : s.assoc = []) (hn : s.node < s.heap.length) :
    ∀ i < s.heap.length, membersOf (Vis.visit c t s).2.heap i = membersOf s.heap i := by
  cases t with
  | fixedRepl d ms =>
    unfold Vis.visit at hx ⊢
    exact (within_old _ (repeatM (within _ (visitL ms (by simpa [noBase] using hb) fun n hn => h n (by simp [nodes, hn]))) _)
      s hx ha hn).2
  | sequence d ms =>
    unfold Vis.visit at hx ⊢
    exact (within_old _ (visitL ms (by simpa [noBase] using hb) fun n hn => h n (by simp [nodes, hn])) s hx ha hn).2
  | delayedRepl d ms =>
    unfold Vis.visit at hx ⊢
    refine (within_old _ ?_ s hx ha hn).2
    cases ms with
    | nil => exact crash _
    | cons m ms =>
      simp only [noBase, noBaseL, Bool.and_eq_true] at hb
      exact delayed (visit m hb.1 fun n hn => h n (by simp [nodes, nodesL, hn]))
        (visitL ms hb.2 fun n hn => h n (by simp [nodes, nodesL, hn]))
  | _ => exact absurd hp (by simp [Pushes])

end LeafyIf
end Gobufr
