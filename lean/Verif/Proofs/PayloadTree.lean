import Verif.Proofs.PayloadFacts

/-!
# What decoding does to the decoder state

Like `Flat.Keeps`, but for the decoder of the code itself and whatever the outcome is.
-/

set_option linter.unusedSimpArgs false

namespace Gobufr
open ParserSpec Flat

variable {F : Type} {c : VisCfg}

/-- Nodes that make a new parent node while their members are decoded. -/
def Pushes : Ast → Prop
  | .sequence _ _ | .fixedRepl _ _ | .delayedRepl _ _ => True
  | _ => False

/-- `R` relates the states before and after `m`. -/
def VRel (R : Vis F → Vis F → Prop) (m : M (Vis F) α) : Prop := ∀ s, R s (m s).2

/-- `R` relates the states before and after every step of decoding nodes that `A` allows. -/
structure VKeeps [GoFloat F] (c : VisCfg) (A : Ast → Prop) (R : Vis F → Vis F → Prop) : Prop where
  trans : ∀ s1 s2 s3, R s1 s2 → R s2 s3 → R s1 s3
  same : ∀ s s' : Vis F, s'.heap = s.heap → s'.node = s.node → s'.cells = s.cells → s'.stack = s.stack → R s s'
  valueless : ∀ d, VRel R (Vis.addValueless d)
  addMember : ∀ n m, VRel R (Vis.addMember n m)
  build : ∀ d info, VRel R (Vis.buildValuedNodeWithInfo c d info)
  within : ∀ t k m, A t → Pushes t → VRel R m → VRel R (Vis.within k m)

namespace VKeeps
variable [GoFloat F] {A : Ast → Prop} {R : Vis F → Vis F → Prop}

theorem refl (k : VKeeps c A R) (s : Vis F) : R s s := k.same s s rfl rfl rfl rfl

theorem pure (k : VKeeps c A R) (a : α) : VRel R (Pure.pure a) := fun s => k.refl s

theorem bind (k : VKeeps c A R) {m : M (Vis F) α} {n : α → M (Vis F) β} (hm : VRel R m) (hn : ∀ a, VRel R (n a)) :
    VRel R (m >>= n) := by
  intro s
  have h1 := hm s
  rw [M.bind_apply]
  rcases hms : m s with ⟨o, s1⟩
  rw [hms] at h1
  cases o with
  | ok a => exact k.trans _ _ _ h1 (hn a s1)
  | err e => exact h1
  | panic w => exact h1
  | diverge => exact h1

theorem query (k : VKeeps c A R) (q : Vis F → Outcome α) : VRel R (fun s => (q s, s) : M (Vis F) α) := fun s => k.refl s

theorem crash (k : VKeeps c A R) (w : String) : VRel R (M.crash w : M (Vis F) α) := k.query fun _ => .panic w

theorem fail (k : VKeeps c A R) (e : Err) : VRel R (M.fail e : M (Vis F) α) := k.query fun _ => .err e

theorem lift (k : VKeeps c A R) (o : Outcome α) : VRel R (M.lift o : M (Vis F) α) := k.query fun _ => o

theorem ignoreErr (_ : VKeeps c A R) {m : M (Vis F) α} (a : α) (hm : VRel R m) : VRel R (M.ignoreErr a m) := by
  intro s
  have h1 := hm s
  unfold M.ignoreErr
  rcases hms : m s with ⟨o, s1⟩
  rw [hms] at h1
  cases o <;> exact h1

theorem defer (k : VKeeps c A R) {m : M (Vis F) α} {d : M (Vis F) PUnit} (hm : VRel R m) (hd : VRel R d) :
    VRel R (M.deferDo d m) := by
  intro s
  have h1 := hm s
  unfold M.deferDo
  rcases hms : m s with ⟨o, s1⟩
  rw [hms] at h1
  have h2 := hd s1
  rcases hds : d s1 with ⟨o', s2⟩
  rw [hds] at h2
  have h3 := k.trans _ _ _ h1 h2
  cases o <;> simp only [hds] <;> first | exact h1 | (cases o' <;> exact h3)

omit [GoFloat F] in
theorem ite {p : Prop} [Decidable p] {m n : M (Vis F) α} (hm : VRel R m) (hn : VRel R n) :
    VRel R (if p then m else n) := by
  by_cases h : p
  · rw [if_pos h]; exact hm
  · rw [if_neg h]; exact hn

theorem valuedNode (k : VKeeps c A R) (d : NodeDesc) : VRel R (Vis.buildValuedNode c d) :=
  k.bind (k.query _) fun _ => k.build _ _

theorem assocLoop (k : VKeeps c A R) (d : Desc) : ∀ ps, VRel R (Vis.assocLoop c d ps)
  | [] => k.pure _
  | p :: ps => by
    unfold Vis.assocLoop
    exact k.bind (k.build _ _) fun n => k.bind (k.addMember _ _) fun _ => k.bind (k.assocLoop d ps) fun _ => k.pure _

theorem assocNodes (k : VKeeps c A R) (d : Desc) : VRel R (Vis.buildAssocNodes c d) := by
  intro s
  unfold Vis.buildAssocNodes
  split
  · exact k.refl s
  · exact k.assocLoop d _ s

theorem addMembers (k : VKeeps c A R) (n : NodeId) : ∀ ms, VRel R (Vis.addMembers n ms)
  | [] => k.pure _
  | m :: ms => by
    unfold Vis.addMembers
    exact k.bind (k.addMember _ _) fun _ => k.addMembers n ms

theorem attach (k : VKeeps c A R) (as : List NodeId) : ∀ ss ts, VRel R (Vis.attach as ss ts)
  | [], _ => k.pure _
  | _ :: _, [] => k.crash _
  | s :: ss, t :: ts => by
    unfold Vis.attach
    exact k.bind (k.addMember _ _) fun _ => k.bind (k.addMembers _ _) fun _ => k.attach as ss ts

theorem zeroNode (k : VKeeps c A R) (d : Option Desc) : VRel R (Vis.buildZeroNode c d) := by
  unfold Vis.buildZeroNode
  split
  · exact k.bind (k.build _ _) fun _ => k.pure _
  · exact k.valueless _

theorem repeatM (k : VKeeps c A R) {m : M (Vis F) Unit} (h : VRel R m) : ∀ n, VRel R (Vis.repeatM m n)
  | 0 => k.pure ()
  | n + 1 => by
    unfold Vis.repeatM
    exact k.bind h fun _ => k.repeatM h n

theorem newRefvalLoop (k : VKeeps c A R) (info : PackingInfo F) : ∀ ms, VRel R (Vis.newRefvalLoop c info ms)
  | [] => k.pure ()
  | m :: ms => by
    unfold Vis.newRefvalLoop
    refine k.bind (k.build _ _) fun n => ?_
    split
    · exact k.crash _
    · refine k.bind ?_ fun _ => k.newRefvalLoop info ms
      intro s
      cases h : s.newRefval with
      | none => simp only [h]; exact k.refl s
      | some mp => simp only [h]; exact k.same _ _ rfl rfl rfl rfl

theorem valuedNodes (k : VKeeps c A R) {m : M (Vis F) Unit} (h : VRel R m) : VRel R (Vis.valuedNodes m) := by
  unfold Vis.valuedNodes
  refine k.bind (k.query _) fun a0 => k.bind h fun _ => k.bind (k.query _) fun a1 => ite (k.crash _) (k.query fun s => _)

theorem newAssessment (k : VKeeps c A R) : VRel R (Vis.newAssessment (F := F)) := by
  intro s
  unfold Vis.newAssessment
  split
  · split <;> first | exact k.refl s | exact k.same _ _ rfl rfl rfl rfl
  · exact k.refl s

theorem initTargets (k : VKeeps c A R) : VRel R (Vis.initTargetNodes (F := F)) := by
  unfold Vis.initTargetNodes
  refine k.bind (k.query fun s => s.bits) fun bits => k.bind (k.query fun s => _) fun nodes => ?_
  split
  · exact k.fail _
  · exact k.bind (fun s => k.same _ _ rfl rfl rfl rfl) fun _ => k.pure _

theorem marker (k : VKeeps c A R) (d : Desc) : VRel R (Vis.visitMarker c d) := by
  unfold Vis.visitMarker
  refine k.bind ?_ fun t => k.bind (k.query fun s => _) fun td => k.bind (k.query fun s => _) fun info =>
    k.bind (k.build _ _) fun _ => k.pure _
  intro s
  unfold Vis.nextTargetNode
  split
  · exact k.refl s
  · exact k.same _ _ rfl rfl rfl rfl

theorem delayed (k : VKeeps c A R) {m n : M (Vis F) Unit} (hm : VRel R m) (hn : VRel R (Vis.within .block n)) :
    VRel R (Vis.visitDelayed m n) := by
  unfold Vis.visitDelayed
  refine k.bind hm fun _ => k.bind (k.query _) fun b => ?_
  split
  · exact k.fail _
  · exact k.bind (k.query _) fun n => k.bind (k.query _) fun v => k.bind (k.lift _) fun j => k.repeatM hn j

theorem assessment (k : VKeeps c A R) (d : Desc) {b a m : M (Vis F) Unit} (hb : VRel R b) (ha : VRel R a)
    (hm : VRel R m) : VRel R (Vis.visitAssessment c d b a m) := by
  unfold Vis.visitAssessment
  exact k.bind k.newAssessment fun _ => k.bind (k.ignoreErr _ (k.zeroNode _)) fun _ => k.bind hb fun _ =>
    k.bind (k.valuedNodes ha) fun _ => k.bind k.initTargets fun _ => k.bind (k.valuedNodes hm) fun _ => k.attach _ _ _

theorem endBitmap (k : VKeeps c A R) : VRel R (Vis.endBitmap (F := F)) := by
  intro s
  unfold Vis.endBitmap
  split <;> first | exact k.refl s | exact k.same _ _ rfl rfl rfl rfl

theorem newBitmap (k : VKeeps c A R) (b : Bool) : VRel R (Vis.newBitmap (F := F) b) := by
  unfold Vis.newBitmap
  exact k.bind (k.query _) fun n => fun s => k.same _ _ rfl rfl rfl rfl

theorem bitmap (k : VKeeps c A R) (d : Option Desc) {m : M (Vis F) Unit} (hm : VRel R m) :
    VRel R (Vis.visitBitmap c d m) := by
  unfold Vis.visitBitmap
  split
  · exact k.crash _
  · refine k.bind (k.ignoreErr _ (k.zeroNode _)) fun _ => ?_
    split
    · exact fun s => k.same _ _ rfl rfl rfl rfl
    · exact k.bind (k.newBitmap true) fun _ => k.defer hm k.endBitmap

theorem setNode (k : VKeeps c A R) (n : NodeId) : VRel R (Vis.assocSetNode (F := F) n) :=
  fun _ => k.same _ _ rfl rfl rfl rfl

theorem assocPop (k : VKeeps c A R) : VRel R (Vis.assocPop (F := F)) := by
  intro s
  unfold Vis.assocPop
  split
  · exact k.refl s
  · exact k.same _ _ rfl rfl rfl rfl

theorem assocPush (k : VKeeps c A R) (y : Int) : VRel R (Vis.assocPush (F := F) y) :=
  fun _ => k.same _ _ rfl rfl rfl rfl

mutual
theorem visit (k : VKeeps c A R) : (t : Ast) → (noBase t = true) → (∀ n ∈ nodes t, A n) → VRel R (Vis.visit c t)
  | .base _ ms, hb, _ => by simp [noBase] at hb
  | .element d np, _, _ => by
    unfold Vis.visit
    split
    · exact k.valueless _
    · exact k.bind (k.assocNodes d) fun as => k.bind (k.valuedNode _) fun n => k.addMembers n as
  | .e031021 d, _, _ => by
    unfold Vis.visit
    exact k.bind (k.valuedNode _) fun n => k.setNode n
  | .fixedRepl d ms, hb, h => by
    unfold Vis.visit
    have hA : A (.fixedRepl d ms) := h _ (by simp [nodes])
    refine k.within _ _ _ hA trivial (k.repeatM (k.within _ _ _ hA trivial ?_) _)
    exact k.visitL ms (by simpa [noBase] using hb) fun n hn => h n (by simp [nodes, hn])
  | .delayedRepl d [], _, h => by
    unfold Vis.visit
    exact k.within (.delayedRepl d []) _ _ (h _ (by simp [nodes])) trivial (k.crash _)
  | .delayedRepl d (m :: ms), hb, h => by
    unfold Vis.visit
    have hA : A (.delayedRepl d (m :: ms)) := h _ (by simp [nodes])
    simp only [noBase, noBaseL, Bool.and_eq_true] at hb
    refine k.within _ _ _ hA trivial (k.delayed ?_ (k.within _ _ _ hA trivial ?_))
    · exact k.visit m hb.1 fun n hn => h n (by simp [nodes, nodesL, hn])
    · exact k.visitL ms hb.2 fun n hn => h n (by simp [nodes, nodesL, hn])
  | .sequence d ms, hb, h => by
    unfold Vis.visit
    refine k.within (.sequence d ms) _ _ (h _ (by simp [nodes])) trivial ?_
    exact k.visitL ms (by simpa [noBase] using hb) fun n hn => h n (by simp [nodes, hn])
  | .nbitsOffset d, _, _ => by
    unfold Vis.visit
    exact k.bind (k.valueless _) fun _ => fun s => k.same _ _ rfl rfl rfl rfl
  | .scaleOffset d, _, _ => by
    unfold Vis.visit
    exact k.bind (k.valueless _) fun _ => fun s => k.same _ _ rfl rfl rfl rfl
  | .newRefval d ms, _, _ => by
    unfold Vis.visit
    refine k.bind (k.valueless _) fun _ => ?_
    split
    · exact k.newRefvalLoop _ ms
    · exact k.pure _
  | .assocField d ms, hb, h => by
    unfold Vis.visit
    have hms := k.visitL ms (by simpa [noBase] using hb) fun n hn => h n (by simp [nodes, hn])
    exact k.bind (k.valueless _) fun _ => ite (k.bind k.assocPop fun _ => hms) (k.bind (k.assocPush _) fun _ => hms)
  | .insertString d, _, _ => by
    unfold Vis.visit
    exact k.bind (k.build _ _) fun _ => k.pure _
  | .skipLocal d [], _, _ => by
    unfold Vis.visit
    exact k.bind (k.valueless _) fun _ => k.crash _
  | .skipLocal d (m :: _), _, _ => by
    unfold Vis.visit
    exact k.bind (k.valueless _) fun _ => k.bind (k.build _ _) fun _ => k.pure _
  | .modifyPacking d, _, _ => by
    unfold Vis.visit
    refine k.bind (k.valueless _) fun _ => ?_
    split
    · exact fun s => k.same _ _ rfl rfl rfl rfl
    · exact fun s => k.same _ _ rfl rfl rfl rfl
  | .setStringLength d, _, _ => by
    unfold Vis.visit
    exact k.bind (k.valueless _) fun _ => fun s => k.same _ _ rfl rfl rfl rfl
  | .dataNotPresent d ms, hb, h => by
    unfold Vis.visit
    refine k.bind (k.valueless _) fun _ => ?_
    exact k.visitL ms (by simpa [noBase] using hb) fun n hn => h n (by simp [nodes, hn])
  | .assessment d bm as ms, hb, h => by
    unfold Vis.visit
    simp only [noBase, Bool.and_eq_true] at hb
    refine k.assessment d ?_ ?_ ?_
    · exact k.visit bm hb.1.1 fun n hn => h n (by simp [nodes, hn])
    · exact k.visitL as hb.1.2 fun n hn => h n (by simp [nodes, hn])
    · exact k.visitL ms hb.2 fun n hn => h n (by simp [nodes, hn])
  | .marker d, _, _ => by
    unfold Vis.visit
    exact k.marker d
  | .cancelBackRef d, _, _ => by
    unfold Vis.visit
    exact fun s => k.same _ _ rfl rfl rfl rfl
  | .cancelBitmap d, _, _ => by
    unfold Vis.visit
    exact fun s => k.same _ _ rfl rfl rfl rfl
  | .bitmap d ms, hb, h => by
    unfold Vis.visit
    refine k.bitmap d ?_
    exact k.visitL ms (by simpa [noBase] using hb) fun n hn => h n (by simp [nodes, hn])
theorem visitL (k : VKeeps c A R) : (ts : List Ast) → (noBaseL ts = true) → (∀ n ∈ nodesL ts, A n) →
    VRel R (Vis.visitL c ts)
  | [], _, _ => by
    unfold Vis.visitL
    exact k.pure _
  | t :: ts, hb, h => by
    unfold Vis.visitL
    simp only [noBaseL, Bool.and_eq_true] at hb
    exact k.bind (k.visit t hb.1 fun n hn => h n (by simp [nodesL, hn])) fun _ =>
      k.visitL ts hb.2 fun n hn => h n (by simp [nodesL, hn])
end

end VKeeps

/-! ## The members of nodes -/

/-- The members of a node. -/
def membersOf (h : Heap F) (n : NodeId) : List (Option NodeId) := ((h[n]?).map fun x => x.members).getD []

theorem membersOf_alloc (h : Heap F) (k : NodeKind F) (n : NodeId) : membersOf (h ++ [⟨k, []⟩]) n = membersOf h n := by
  unfold membersOf
  rcases Nat.lt_trichotomy n h.length with hn | hn | hn
  · rw [List.getElem?_append_left hn]
  · subst hn; simp
  · rw [List.getElem?_eq_none (by simp; omega), List.getElem?_eq_none (by omega)]

theorem membersOf_setIndex (h : Heap F) (m : NodeId) (i : Int) (mv : Val F) (nd : Int) (n : NodeId) :
    membersOf (h.setIndex m i mv nd) n = membersOf h n := by
  unfold membersOf Heap.setIndex
  rw [List.getElem?_modify]
  cases h[n]? with
  | none => simp
  | some x => by_cases hm : m = n <;> simp [hm]

theorem membersOf_addMember (h : Heap F) (n : NodeId) (m : Option NodeId) (i : NodeId) :
    membersOf (h.addMember n m) i = if i = n ∧ n < h.length then membersOf h i ++ [m] else membersOf h i := by
  unfold membersOf Heap.addMember
  rw [List.getElem?_modify]
  by_cases hi : i = n
  · subst hi
    by_cases hl : i < h.length
    · simp [hl]
    · simp [hl, List.getElem?_eq_none (Nat.le_of_not_lt hl)]
  · cases h[i]? <;> simp [hi, Ne.symm hi]

/-- All members stay members. -/
def Grows (s s' : Vis F) : Prop := ∀ n m, m ∈ membersOf s.heap n → m ∈ membersOf s'.heap n

theorem grows_cellsAdd (n : NodeId) (v : Unpacked F) : VRel Grows (Vis.cellsAdd n v) := by
  intro s i m h
  unfold Vis.cellsAdd
  split <;> first | exact h | (simp only [membersOf_setIndex]; exact h) | skip
  split <;> first | exact h | (simp only [membersOf_setIndex]; exact h)

theorem grows_add {h h' : Heap F} {n : NodeId} {m x : Option NodeId} {i : NodeId} (e : h' = h.addMember n m)
    (hx : x ∈ membersOf h i) : x ∈ membersOf h' i := by
  rw [e, membersOf_addMember]
  split
  · simp [hx]
  · exact hx

theorem grows_bind {m : M (Vis F) α} {n : α → M (Vis F) β} (hm : VRel Grows m) (hn : ∀ a, VRel Grows (n a)) :
    VRel Grows (m >>= n) := by
  intro s
  have h1 := hm s
  rw [M.bind_apply]
  rcases hms : m s with ⟨o, s1⟩
  rw [hms] at h1
  cases o with
  | ok a => exact fun i x hx => hn a s1 i x (h1 i x hx)
  | err e => exact h1
  | panic w => exact h1
  | diverge => exact h1

theorem grows_alloc (k : NodeKind F) : VRel Grows (Vis.alloc k) := by
  intro s i m h
  simp only [Vis.alloc, membersOf_alloc]
  exact h

theorem grows_treeAdd (n : NodeId) : VRel Grows (Vis.treeAdd (F := F) n) := fun _ _ _ h => grows_add rfl h

theorem keeps_grows [GoFloat F] : VKeeps (F := F) c (fun _ => True) Grows where
  trans := fun _ _ _ h1 h2 n m h => h2 n m (h1 n m h)
  same := fun s s' h _ _ _ n m hm => by rw [h]; exact hm
  valueless := fun d => grows_bind (grows_alloc _) fun n => grows_treeAdd n
  addMember := fun n m s i x h => grows_add rfl h
  build := fun d info => grows_bind (fun s i m h => h) fun v => grows_bind (grows_alloc _) fun n =>
    grows_bind (grows_treeAdd n) fun _ => grows_bind (grows_cellsAdd n v) fun _ => fun _ _ _ h => h
  within := fun t k m _ _ hm => by
    refine grows_bind (grows_alloc _) fun n => grows_bind (fun s i x h => h) fun _ => ?_
    intro s
    have h1 := hm s
    unfold M.deferDo
    rcases hms : m s with ⟨o, s1⟩
    rw [hms] at h1
    have h2 : Grows s1 (Vis.treePop s1).2 := by
      unfold Vis.treePop
      split <;> exact fun _ _ h => h
    have h3 : Grows s (Vis.treePop s1).2 := fun i x hx => h2 i x (h1 i x hx)
    rcases hp : Vis.treePop s1 with ⟨o', s2⟩
    rw [hp] at h3
    cases o <;> simp only [hp] <;> first | exact h1 | (cases o' <;> exact h3)

/-- The nodes of the cells of all subsets. -/
def allNodes (s : Vis F) : List NodeId := (subsetsOf s.cells).flatten.map Cell.n

/-- New cells belong to members of the current parent. -/
structure Tops (s s' : Vis F) : Prop where
  node : s'.node = s.node
  length : s.heap.length ≤ s'.heap.length
  grows : Grows s s'
  cells : s.node < s.heap.length → ∀ n ∈ allNodes s', n ∈ allNodes s ∨ some n ∈ membersOf s'.heap s.node

theorem addColumn_nodes {n : NodeId} : ∀ {vs : List (Val F)} {ts ts' : List (List (Cell F))},
    Cells.addColumn n vs ts = .ok ts' → ∀ x ∈ ts'.flatten, x ∈ ts.flatten ∨ x.n = n
  | [], ts, ts', h, x, hx => by
    simp only [Cells.addColumn, Outcome.ok.injEq] at h
    subst h
    exact Or.inl hx
  | _ :: _, [], ts', h, x, hx => by simp [Cells.addColumn] at h
  | v :: vs, t :: ts, ts', h, x, hx => by
    simp only [Cells.addColumn] at h
    obtain ⟨ts1, h1, h2⟩ := Outcome.bind_eq_ok.1 h
    simp only [Outcome.ok.injEq] at h2
    subst h2
    simp only [List.flatten_cons, List.mem_append, List.mem_singleton] at hx ⊢
    rcases hx with (hx | rfl) | hx
    · exact Or.inl (Or.inl hx)
    · exact Or.inr rfl
    · rcases addColumn_nodes h1 x hx with h | h
      · exact Or.inl (Or.inr h)
      · exact Or.inr h

theorem cellsAdd_nodes (n : NodeId) (v : Unpacked F) (s : Vis F) :
    ∀ m ∈ allNodes (Vis.cellsAdd n v s).2, m ∈ allNodes s ∨ m = n := by
  intro m hm
  unfold Vis.cellsAdd at hm
  split at hm <;> first | exact Or.inl hm | skip
  · rename_i cs _ hcs
    simp only [allNodes, subsetsOf, List.flatten_cons, List.flatten_nil, List.append_nil, List.map_append,
      List.map_cons, List.map_nil, List.mem_append, List.mem_singleton, hcs] at hm ⊢
    exact hm
  · rename_i t ts _ hcs
    split at hm <;> first | exact Or.inl hm | skip
    rename_i ts' hts
    simp only [allNodes, subsetsOf, List.mem_map, hcs] at hm ⊢
    obtain ⟨x, hx, rfl⟩ := hm
    rcases addColumn_nodes hts x hx with h | h
    · exact Or.inl ⟨x, h, rfl⟩
    · exact Or.inr h

theorem cellsAdd_heap (n : NodeId) (v : Unpacked F) (s : Vis F) :
    (Vis.cellsAdd n v s).2.heap.length = s.heap.length ∧ (Vis.cellsAdd n v s).2.node = s.node := by
  unfold Vis.cellsAdd Heap.setIndex
  split <;> first | exact ⟨rfl, rfl⟩ | (simp; done) | skip
  split <;> first | exact ⟨rfl, rfl⟩ | (simp; done)

/-- A new node of a value was added to the current parent. -/
def withNode (d : NodeDesc) (info : PackingInfo F) (s : Vis F) : Vis F :=
  { s with heap := Heap.addMember (s.heap ++ [⟨.valued d 0 info .nil 0, []⟩]) s.node (some s.heap.length) }

theorem build_snd [GoFloat F] {d : NodeDesc} {info : PackingInfo F} {s s1 : Vis F} {v : Unpacked F}
    (hu : Vis.unpack c info s = (.ok v, s1)) :
    (Vis.buildValuedNodeWithInfo c d info s).2 = (Vis.cellsAdd s1.heap.length v (withNode d info s1)).2 := by
  unfold Vis.buildValuedNodeWithInfo
  rw [M.bind_ok hu]
  refine (congrArg Prod.snd (M.bind_ok (a := s1.heap.length) (f := fun n => do
    Vis.treeAdd n
    Vis.cellsAdd n v
    pure n) (m := Vis.alloc (.valued d 0 info .nil 0)) (s := s1)
    (s' := { s1 with heap := s1.heap ++ [⟨.valued d 0 info .nil 0, []⟩] }) rfl)).trans ?_
  refine (congrArg Prod.snd (M.bind_ok (a := ()) (m := Vis.treeAdd s1.heap.length)
    (s := { s1 with heap := s1.heap ++ [⟨.valued d 0 info .nil 0, []⟩] })
    (s' := withNode d info s1) rfl)).trans ?_
  rw [M.bind_apply]
  rcases Vis.cellsAdd s1.heap.length v _ with ⟨o, s4⟩
  cases o <;> rfl

theorem build_snd_fail [GoFloat F] {d : NodeDesc} {info : PackingInfo F} {s s1 : Vis F} {o : Outcome (Unpacked F)}
    (hu : Vis.unpack c info s = (o, s1)) (ho : ∀ v, o ≠ .ok v) : (Vis.buildValuedNodeWithInfo c d info s).2 = s1 := by
  unfold Vis.buildValuedNodeWithInfo
  rw [M.bind_apply, hu]
  cases o with
  | ok v => exact absurd rfl (ho v)
  | err e => rfl
  | panic e => rfl
  | diverge => rfl

theorem keeps_tops [GoFloat F] : VKeeps (F := F) c (fun t => ¬ Pushes t) Tops where
  trans := fun s1 s2 s3 h1 h2 => by
    refine ⟨h2.node.trans h1.node, Nat.le_trans h1.length h2.length,
      fun n m h => h2.grows n m (h1.grows n m h), fun hn n hm => ?_⟩
    have e := h1.node
    have hl := h1.length
    rcases h2.cells (by rw [e]; exact Nat.lt_of_lt_of_le hn hl) n hm with h | h
    · rcases h1.cells hn n h with h | h
      · exact Or.inl h
      · exact Or.inr (h2.grows _ _ h)
    · rw [e] at h
      exact Or.inr h
  same := fun s s' h hn hc _ => by
    refine ⟨hn, by rw [h]; exact Nat.le_refl _, fun n m hm => by rw [h]; exact hm, fun _ n hm => Or.inl ?_⟩
    unfold allNodes at hm ⊢
    rwa [hc] at hm
  valueless := fun d s => by
    refine ⟨rfl, ?_, (keeps_grows (c := c)).valueless d s, fun _ n hm => Or.inl hm⟩
    show s.heap.length ≤ (Heap.addMember (s.heap ++ _) _ _).length
    simp [Heap.addMember]
  addMember := fun n m s => by
    refine ⟨rfl, ?_, (keeps_grows (c := c)).addMember n m s, fun _ n hm => Or.inl hm⟩
    show s.heap.length ≤ (Heap.addMember s.heap _ _).length
    simp [Heap.addMember]
  build := fun d info s => by
    have hg := (keeps_grows (c := c)).build d info s
    rcases hu : Vis.unpack c info s with ⟨o, s1⟩
    have hs1 : s1 = { s with r := s1.r } := by
      have := congrArg Prod.snd hu
      simp only [Vis.unpack, M.zoom] at this
      rw [← this]
    cases o with
    | ok v =>
      rw [build_snd hu] at hg ⊢
      generalize h3 : withNode d info s1 = s3 at hg ⊢
      obtain ⟨hl, hn⟩ := cellsAdd_heap s1.heap.length v s3
      have hs3n : s3.node = s.node := by rw [← h3, withNode, hs1]
      have hs3l : s3.heap.length = s.heap.length + 1 := by
        rw [← h3, withNode, hs1]
        simp [Heap.addMember]
      refine ⟨by rw [hn, hs3n], by rw [hl, hs3l]; omega, hg, fun hlt n hm => ?_⟩
      rcases cellsAdd_nodes _ _ _ n hm with h | h
      · refine Or.inl ?_
        have : allNodes s3 = allNodes s := by rw [← h3, withNode, hs1]; rfl
        rwa [this] at h
      · refine Or.inr ?_
        subst h
        refine grows_cellsAdd _ _ s3 _ _ ?_
        rw [← h3]
        simp only [withNode, membersOf_addMember]
        rw [hs1]
        rw [if_pos ⟨rfl, by
          simp only [List.length_append, List.length_cons, List.length_nil]
          exact Nat.lt_succ_of_lt hlt⟩]
        simp
    | err e =>
      rw [build_snd_fail hu (by simp), hs1]
      exact ⟨rfl, Nat.le_refl _, fun _ _ h => h, fun _ n h => Or.inl h⟩
    | panic e =>
      rw [build_snd_fail hu (by simp), hs1]
      exact ⟨rfl, Nat.le_refl _, fun _ _ h => h, fun _ n h => Or.inl h⟩
    | diverge =>
      rw [build_snd_fail hu (by simp), hs1]
      exact ⟨rfl, Nat.le_refl _, fun _ _ h => h, fun _ n h => Or.inl h⟩
  within := fun t k m h1 h2 => absurd h2 h1

end Gobufr
