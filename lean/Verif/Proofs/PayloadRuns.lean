import Verif.Proofs.PayloadTree
import Verif.Proofs.Runs

/-!
# Helper lemmas: what decoding a payload depends on

Like `VKeeps`, for properties of the calls themselves instead of relations between states.
-/

namespace Gobufr
open ParserSpec Flat

variable {F : Type} {c : VisCfg}

/-- A call that neither uses the reader nor adds cells, and leaves the nodes made what they are. -/
structure Quiet (m : M (Vis F) α) : Prop where
  r : ∀ s, (m s).2.r = s.r
  frame : ∀ s r, m { s with r := r } = ((m s).1, { (m s).2 with r := r })
  cells : ∀ s, (m s).2.cells = s.cells
  kinds : ∀ s n, n < s.heap.length → ((m s).2.heap[n]?).map (·.kind) = (s.heap[n]?).map (·.kind)

/-- A property of calls that holds for all steps of decoding. -/
structure VClosed [GoFloat F] (c : VisCfg) (P : {α : Type} → M (Vis F) α → Prop) : Prop where
  quiet : ∀ {α : Type} {m : M (Vis F) α}, Quiet m → P m
  bind : ∀ {α β : Type} {m : M (Vis F) α} {f : α → M (Vis F) β}, P m → (∀ a, P (f a)) → P (m >>= f)
  build : ∀ d info, P (Vis.buildValuedNodeWithInfo c d info)
  zero : ∀ d, P (M.ignoreErr () (Vis.buildZeroNode c d))
  defer : ∀ {α : Type} {m : M (Vis F) α} {d : M (Vis F) Unit}, P m → Quiet d → P (M.deferDo d m)

namespace Quiet

theorem query (q : Vis F → Outcome α) (h : ∀ s r, q { s with r := r } = q s) :
    Quiet (fun s => (q s, s) : M (Vis F) α) where
  r _ := rfl
  frame s r := by rw [h]
  cells _ := rfl
  kinds _ _ _ := rfl

theorem pure (a : α) : Quiet (Pure.pure a : M (Vis F) α) := query (fun _ => .ok a) fun _ _ => rfl
theorem crash (w : String) : Quiet (M.crash w : M (Vis F) α) := query (fun _ => .panic w) fun _ _ => rfl
theorem fail (e : Err) : Quiet (M.fail e : M (Vis F) α) := query (fun _ => .err e) fun _ _ => rfl
theorem lift (o : Outcome α) : Quiet (M.lift o : M (Vis F) α) := query (fun _ => o) fun _ _ => rfl

/-- Changing other components than the reader, the nodes and the cells. -/
theorem modify (g : Vis F → Vis F) (hr : ∀ s, (g s).r = s.r) (hf : ∀ s r, g { s with r := r } = { g s with r := r })
    (hc : ∀ s, (g s).cells = s.cells) (hh : ∀ s, (g s).heap = s.heap) : Quiet (M.modify g) where
  r := hr
  frame s r := by show (Outcome.ok PUnit.unit, g { s with r := r }) = _; rw [hf]; rfl
  cells := hc
  kinds s n _ := by show ((g s).heap[n]?).map _ = _; rw [hh]

theorem alloc (k : NodeKind F) : Quiet (Vis.alloc k) where
  r _ := rfl
  frame _ _ := rfl
  cells _ := rfl
  kinds s n h := by
    show ((s.heap ++ [_])[n]?).map _ = _
    rw [List.getElem?_append_left h]

theorem kinds_addMember (h : Heap F) (n : NodeId) (m : Option NodeId) (i : Nat) :
    ((h.addMember n m)[i]?).map (·.kind) = (h[i]?).map (·.kind) := by
  unfold Heap.addMember
  rw [List.getElem?_modify]
  cases h[i]? with
  | none => rfl
  | some x => by_cases hn : n = i <;> simp [hn]

theorem addMember (n : NodeId) (m : Option NodeId) : Quiet (Vis.addMember (F := F) n m) where
  r _ := rfl
  frame _ _ := rfl
  cells _ := rfl
  kinds _ _ _ := kinds_addMember _ _ _ _

theorem treeAdd (n : NodeId) : Quiet (Vis.treeAdd (F := F) n) where
  r _ := rfl
  frame _ _ := rfl
  cells _ := rfl
  kinds _ _ _ := kinds_addMember _ _ _ _

theorem treePop : Quiet (Vis.treePop (F := F)) where
  r s := by unfold Vis.treePop; split <;> rfl
  frame s r := by
    unfold Vis.treePop
    rcases s with ⟨r0, heap, node, stack, cells, no, so, nr, assoc, ni, si, rf, ns, bm⟩
    cases stack <;> rfl
  cells s := by unfold Vis.treePop; split <;> rfl
  kinds s n _ := by unfold Vis.treePop; split <;> rfl

theorem assocPop : Quiet (Vis.assocPop (F := F)) where
  r s := by unfold Vis.assocPop; split <;> rfl
  frame s r := by
    unfold Vis.assocPop
    rcases s with ⟨r0, heap, node, stack, cells, no, so, nr, assoc, ni, si, rf, ns, bm⟩
    cases assoc <;> rfl
  cells s := by unfold Vis.assocPop; split <;> rfl
  kinds s n _ := by unfold Vis.assocPop; split <;> rfl

theorem endBitmap : Quiet (Vis.endBitmap (F := F)) where
  r s := by unfold Vis.endBitmap; split <;> rfl
  frame s r := by
    unfold Vis.endBitmap
    rcases s with ⟨r0, heap, node, stack, cells, no, so, nr, assoc, ni, si, rf, ns, bm⟩
    rcases bm with ⟨b1, b2, b3, b4, b5⟩
    dsimp only
    cases cells.len <;> cases b5 <;> rfl
  cells s := by unfold Vis.endBitmap; split <;> rfl
  kinds s n _ := by unfold Vis.endBitmap; split <;> rfl

theorem newAssessment : Quiet (Vis.newAssessment (F := F)) where
  r s := by
    unfold Vis.newAssessment
    split
    · split <;> rfl
    · rfl
  frame s r := by
    unfold Vis.newAssessment
    rcases s with ⟨r0, heap, node, stack, cells, no, so, nr, assoc, ni, si, rf, ns, bm⟩
    dsimp only
    by_cases hb : bm.backref1 = -1
    · simp only [if_pos hb]
      cases cells.len <;> rfl
    · simp only [if_neg hb]
  cells s := by
    unfold Vis.newAssessment
    split
    · split <;> rfl
    · rfl
  kinds s n _ := by
    unfold Vis.newAssessment
    split
    · split <;> rfl
    · rfl

theorem nextTarget : Quiet (Vis.nextTargetNode (F := F)) where
  r s := by unfold Vis.nextTargetNode; split <;> rfl
  frame s r := by
    unfold Vis.nextTargetNode
    rcases s with ⟨r0, heap, node, stack, cells, no, so, nr, assoc, ni, si, rf, ns, bm⟩
    rcases bm with ⟨b1, b2, b3, b4, b5⟩
    cases b2 <;> rfl
  cells s := by unfold Vis.nextTargetNode; split <;> rfl
  kinds s n _ := by unfold Vis.nextTargetNode; split <;> rfl

theorem setRefval (id : ID) (n : NodeId) : Quiet (fun s => match s.newRefval with
    | none => (.panic "assignment to entry in nil map", s)
    | some mp => (.ok (), { s with newRefval := some (mapSet mp id n) }) : M (Vis F) Unit) where
  r s := by split <;> rfl
  frame s r := by
    rcases s with ⟨r0, heap, node, stack, cells, no, so, nr, assoc, ni, si, rf, ns, bm⟩
    cases nr <;> rfl
  cells s := by split <;> rfl
  kinds s n _ := by split <;> rfl

end Quiet

namespace VClosed
variable [GoFloat F] {P : {α : Type} → M (Vis F) α → Prop}

theorem ite (_ : VClosed c P) {p : Prop} [Decidable p] {m n : M (Vis F) α} (hm : P m) (hn : P n) :
    P (if p then m else n) := by
  by_cases h : p
  · rw [if_pos h]; exact hm
  · rw [if_neg h]; exact hn

theorem pure (k : VClosed c P) (a : α) : P (Pure.pure a) := k.quiet (.pure a)

theorem valueless (k : VClosed c P) (d : Option Desc) : P (Vis.addValueless d) :=
  k.bind (k.quiet (.alloc _)) fun n => k.quiet (.treeAdd n)

theorem within (k : VClosed c P) (x : NodeKind F) {m : M (Vis F) Unit} (hm : P m) : P (Vis.within x m) := by
  unfold Vis.within
  exact k.bind (k.quiet (.alloc _)) fun n => k.bind
    (k.quiet (.modify _ (fun _ => rfl) (fun _ _ => rfl) (fun _ => rfl) fun _ => rfl)) fun _ => k.defer hm .treePop

theorem valuedNode (k : VClosed c P) (d : NodeDesc) : P (Vis.buildValuedNode c d) :=
  k.bind (k.quiet (.query _ fun _ _ => rfl)) fun _ => k.build _ _

theorem assocLoop (k : VClosed c P) (d : Desc) : ∀ ps, P (Vis.assocLoop c d ps)
  | [] => k.pure _
  | p :: ps => by
    unfold Vis.assocLoop
    exact k.bind (k.build _ _) fun n => k.bind (k.quiet (.addMember _ _)) fun _ =>
      k.bind (k.assocLoop d ps) fun _ => k.pure _

theorem assocNodes (k : VClosed c P) (d : Desc) : P (Vis.buildAssocNodes c d) := by
  have e : Vis.buildAssocNodes (F := F) c d = (do
      let ps ← (fun s => (.ok s.assoc, s) : M (Vis F) (List AssocPair))
      if d.id.X = 31 ∨ ps.length = 0 then Pure.pure [] else Vis.assocLoop c d ps) := by
    funext s
    unfold Vis.buildAssocNodes
    rw [M.bind_ok (m := fun s => (.ok s.assoc, s)) (a := s.assoc) (s' := s) rfl]
    split <;> rfl
  rw [e]
  exact k.bind (k.quiet (.query _ fun _ _ => rfl)) fun ps => k.ite (k.pure _) (k.assocLoop d ps)

theorem addMembers (k : VClosed c P) (n : NodeId) : ∀ ms, P (Vis.addMembers n ms)
  | [] => k.pure _
  | m :: ms => by
    unfold Vis.addMembers
    exact k.bind (k.quiet (.addMember _ _)) fun _ => k.addMembers n ms

theorem attach (k : VClosed c P) (as : List NodeId) : ∀ ss ts, P (Vis.attach as ss ts)
  | [], _ => k.pure _
  | _ :: _, [] => k.quiet (.crash _)
  | s :: ss, t :: ts => by
    unfold Vis.attach
    exact k.bind (k.quiet (.addMember _ _)) fun _ => k.bind (k.addMembers _ _) fun _ => k.attach as ss ts

theorem repeatM (k : VClosed c P) {m : M (Vis F) Unit} (h : P m) : ∀ n, P (Vis.repeatM m n)
  | 0 => k.pure ()
  | n + 1 => by
    unfold Vis.repeatM
    exact k.bind h fun _ => k.repeatM h n

theorem newRefvalLoop (k : VClosed c P) (info : PackingInfo F) : ∀ ms, P (Vis.newRefvalLoop c info ms)
  | [] => k.pure ()
  | m :: ms => by
    unfold Vis.newRefvalLoop
    refine k.bind (k.build _ _) fun n => ?_
    split
    · exact k.quiet (.crash _)
    · exact k.bind (k.quiet (.setRefval _ _)) fun _ => k.newRefvalLoop info ms

theorem valuedNodes (k : VClosed c P) {m : M (Vis F) Unit} (h : P m) : P (Vis.valuedNodes m) := by
  unfold Vis.valuedNodes
  exact k.bind (k.quiet (.query _ fun _ _ => rfl)) fun a0 => k.bind h fun _ =>
    k.bind (k.quiet (.query _ fun _ _ => rfl)) fun a1 => k.ite (k.quiet (.crash _))
      (k.quiet (.query (fun s => _) fun _ _ => rfl))

theorem initTargets (k : VClosed c P) : P (Vis.initTargetNodes (F := F)) := by
  unfold Vis.initTargetNodes
  refine k.bind (k.quiet (.query (fun s => s.bits) fun _ _ => rfl)) fun bits =>
    k.bind (k.quiet (.query (fun s => _) fun _ _ => rfl)) fun nodes => k.ite (k.quiet (.fail _)) ?_
  exact k.bind (k.quiet (.modify _ (fun _ => rfl) (fun _ _ => rfl) (fun _ => rfl) fun _ => rfl)) fun _ => k.pure _

theorem marker (k : VClosed c P) (d : Desc) : P (Vis.visitMarker c d) := by
  unfold Vis.visitMarker
  exact k.bind (k.quiet .nextTarget) fun t => k.bind (k.quiet (.query (fun s => _) fun _ _ => rfl)) fun td =>
    k.bind (k.quiet (.query (fun s => _) fun _ _ => rfl)) fun info => k.bind (k.build _ _) fun _ => k.pure _

theorem delayed (k : VClosed c P) {m n : M (Vis F) Unit} (hm : P m) (hn : P n) : P (Vis.visitDelayed m n) := by
  unfold Vis.visitDelayed
  exact k.bind hm fun _ => k.bind (k.quiet (.query _ fun _ _ => rfl)) fun b => k.ite (k.quiet (.fail _))
    (k.bind (k.quiet (.query _ fun _ _ => rfl)) fun n => k.bind (k.quiet (.query _ fun _ _ => rfl)) fun v =>
      k.bind (k.quiet (.lift _)) fun j => k.repeatM (k.within _ hn) j)

theorem assessment (k : VClosed c P) (d : Desc) {b a m : M (Vis F) Unit} (hb : P b) (ha : P a) (hm : P m) :
    P (Vis.visitAssessment c d b a m) := by
  unfold Vis.visitAssessment
  exact k.bind (k.quiet .newAssessment) fun _ => k.bind (k.zero _) fun _ => k.bind hb fun _ =>
    k.bind (k.valuedNodes ha) fun _ => k.bind k.initTargets fun _ => k.bind (k.valuedNodes hm) fun _ => k.attach _ _ _

theorem newBitmap (k : VClosed c P) (b : Bool) : P (Vis.newBitmap (F := F) b) := by
  unfold Vis.newBitmap
  exact k.bind (k.quiet (.query _ fun _ _ => rfl)) fun n =>
    k.quiet (.modify _ (fun _ => rfl) (fun _ _ => rfl) (fun _ => rfl) fun _ => rfl)

theorem bitmap (k : VClosed c P) (d : Option Desc) {m : M (Vis F) Unit} (hm : P m) : P (Vis.visitBitmap c d m) := by
  unfold Vis.visitBitmap
  split
  · exact k.quiet (.crash _)
  · exact k.bind (k.zero _) fun _ => k.ite
      (k.quiet (.modify _ (fun _ => rfl) (fun _ _ => rfl) (fun _ => rfl) fun _ => rfl))
      (k.bind (k.newBitmap true) fun _ => k.defer hm .endBitmap)

theorem change (k : VClosed c P) (g : Vis F → Vis F) (hr : ∀ s, (g s).r = s.r)
    (hf : ∀ s r, g { s with r := r } = { g s with r := r })
    (hc : ∀ s, (g s).cells = s.cells) (hh : ∀ s, (g s).heap = s.heap) : P (M.modify g) :=
  k.quiet (.modify g hr hf hc hh)

mutual
theorem visit (k : VClosed c P) : (t : Ast) → noBase t = true → P (Vis.visit c t)
  | .base _ ms, hb => by simp [noBase] at hb
  | .element d np, _ => by
    unfold Vis.visit
    exact k.ite (k.valueless _) (k.bind (k.assocNodes d) fun as => k.bind (k.valuedNode _) fun n => k.addMembers n as)
  | .e031021 d, _ => by
    unfold Vis.visit
    exact k.bind (k.valuedNode _) fun n => k.change _ (fun _ => rfl) (fun _ _ => rfl) (fun _ => rfl) fun _ => rfl
  | .fixedRepl d ms, hb => by
    unfold Vis.visit
    exact k.within _ (k.repeatM (k.within _ (k.visitL ms (by simpa [noBase] using hb))) _)
  | .delayedRepl d [], _ => by
    unfold Vis.visit
    exact k.within _ (k.quiet (.crash _))
  | .delayedRepl d (m :: ms), hb => by
    unfold Vis.visit
    simp only [noBase, noBaseL, Bool.and_eq_true] at hb
    exact k.within _ (k.delayed (k.visit m hb.1) (k.visitL ms hb.2))
  | .sequence d ms, hb => by
    unfold Vis.visit
    exact k.within _ (k.visitL ms (by simpa [noBase] using hb))
  | .nbitsOffset d, _ => by
    unfold Vis.visit
    exact k.bind (k.valueless _) fun _ => k.change _ (fun _ => rfl) (fun _ _ => rfl) (fun _ => rfl) fun _ => rfl
  | .scaleOffset d, _ => by
    unfold Vis.visit
    exact k.bind (k.valueless _) fun _ => k.change _ (fun _ => rfl) (fun _ _ => rfl) (fun _ => rfl) fun _ => rfl
  | .newRefval d ms, _ => by
    unfold Vis.visit
    exact k.bind (k.valueless _) fun _ => k.ite (k.newRefvalLoop _ ms) (k.pure _)
  | .assocField d ms, hb => by
    unfold Vis.visit
    have hms := k.visitL ms (by simpa [noBase] using hb)
    refine k.bind (k.valueless _) fun _ => k.ite (k.bind (k.quiet .assocPop) fun _ => hms) (k.bind ?_ fun _ => hms)
    exact k.change _ (fun _ => rfl) (fun _ _ => rfl) (fun _ => rfl) fun _ => rfl
  | .insertString d, _ => by
    unfold Vis.visit
    exact k.bind (k.build _ _) fun _ => k.pure _
  | .skipLocal d [], _ => by
    unfold Vis.visit
    exact k.bind (k.valueless _) fun _ => k.quiet (.crash _)
  | .skipLocal d (m :: _), _ => by
    unfold Vis.visit
    exact k.bind (k.valueless _) fun _ => k.bind (k.build _ _) fun _ => k.pure _
  | .modifyPacking d, _ => by
    unfold Vis.visit
    refine k.bind (k.valueless _) fun _ => k.ite ?_ ?_
    · exact k.change _ (fun _ => rfl) (fun _ _ => rfl) (fun _ => rfl) fun _ => rfl
    · exact k.change _ (fun _ => rfl) (fun _ _ => rfl) (fun _ => rfl) fun _ => rfl
  | .setStringLength d, _ => by
    unfold Vis.visit
    exact k.bind (k.valueless _) fun _ => k.change _ (fun _ => rfl) (fun _ _ => rfl) (fun _ => rfl) fun _ => rfl
  | .dataNotPresent d ms, hb => by
    unfold Vis.visit
    exact k.bind (k.valueless _) fun _ => k.visitL ms (by simpa [noBase] using hb)
  | .assessment d bm as ms, hb => by
    unfold Vis.visit
    simp only [noBase, Bool.and_eq_true] at hb
    exact k.assessment d (k.visit bm hb.1.1) (k.visitL as hb.1.2) (k.visitL ms hb.2)
  | .marker d, _ => by
    unfold Vis.visit
    exact k.marker d
  | .cancelBackRef d, _ => by
    unfold Vis.visit Vis.cancelBackref Vis.cancelBitmap
    exact k.bind (k.change _ (fun _ => rfl) (fun _ _ => rfl) (fun _ => rfl) fun _ => rfl)
      fun _ => k.change _ (fun _ => rfl) (fun _ _ => rfl) (fun _ => rfl) fun _ => rfl
  | .cancelBitmap d, _ => by
    unfold Vis.visit Vis.cancelBitmap
    exact k.change _ (fun _ => rfl) (fun _ _ => rfl) (fun _ => rfl) fun _ => rfl
  | .bitmap d ms, hb => by
    unfold Vis.visit
    exact k.bitmap d (k.visitL ms (by simpa [noBase] using hb))
theorem visitL (k : VClosed c P) : (ts : List Ast) → noBaseL ts = true → P (Vis.visitL c ts)
  | [], _ => by
    unfold Vis.visitL
    exact k.pure _
  | t :: ts, hb => by
    unfold Vis.visitL
    simp only [noBaseL, Bool.and_eq_true] at hb
    exact k.bind (k.visit t hb.1) fun _ => k.visitL ts hb.2
end

end VClosed

/-! ## Dependence on the input -/

/-- No value is the nil pointer that `ReadBinary` returns at the end of the input. -/
def NoNil : Cells F → Prop
  | .flat cs => ∀ x ∈ cs, x.v ≠ .binary none
  | .tissues _ => True

/-- A call that succeeds depends only on the input it consumes, if a byte is left or no binary was cut. -/
def VLocal (m : M (Vis F) α) : Prop :=
  ∀ s src p a s', s.r = .bin ⟨src, p⟩ → m s = (.ok a, s') → ∃ src' p', s'.r = .bin ⟨src', p'⟩ ∧
    src'.length ≤ src.length ∧ (NoNil s'.cells → NoNil s.cells) ∧
    (8 ≤ src'.length ∨ NoNil s'.cells → ∃ l, src = l ++ src' ∧
      ∀ z δ, m { s with r := .bin ⟨l ++ z, p + δ⟩ } = (.ok a, { s' with r := .bin ⟨z, p' + δ⟩ }))

/-- A call that does not use the reader and adds no nil binaries. -/
structure Calm (m : M (Vis F) α) : Prop where
  r : ∀ s, (m s).2.r = s.r
  frame : ∀ s r, m { s with r := r } = ((m s).1, { (m s).2 with r := r })
  cells : ∀ s, NoNil (m s).2.cells → NoNil s.cells

namespace VLocal

theorem calm {m : M (Vis F) α} (q : Calm m) : VLocal m := by
  intro s src p a s' hs h
  have h1 := q.r s
  have h3 := q.cells s
  have h2 := q.frame s
  rw [h] at h1 h2 h3
  refine ⟨src, p, h1.trans hs, Nat.le_refl _, h3, fun _ => ⟨[], rfl, fun z δ => ?_⟩⟩
  rw [h2]
  rfl

theorem bind {m : M (Vis F) α} {f : α → M (Vis F) β} (hm : VLocal m) (hf : ∀ a, VLocal (f a)) :
    VLocal (m >>= f) := by
  intro s src p b s2 hs h
  obtain ⟨a, s1, h1, h2⟩ := M.bind_eq_ok.1 h
  obtain ⟨src1, p1, e1, l1, n1, k1⟩ := hm s src p a s1 hs h1
  obtain ⟨src2, p2, e2, l2, n2, k2⟩ := hf a s1 src1 p1 b s2 e1 h2
  refine ⟨src2, p2, e2, by omega, fun h => n1 (n2 h), fun hg => ?_⟩
  obtain ⟨u1, rfl, q1⟩ := k1 (by
    rcases hg with hg | hg
    · left; omega
    · right; exact n2 hg)
  obtain ⟨u2, rfl, q2⟩ := k2 hg
  refine ⟨u1 ++ u2, by rw [List.append_assoc], fun z δ => ?_⟩
  rw [List.append_assoc, M.bind_ok (q1 _ _), q2]

theorem defer {m : M (Vis F) α} {d : M (Vis F) Unit} (hm : VLocal m) (hd : Quiet d) : VLocal (M.deferDo d m) := by
  have h0 : ∀ s a s', M.deferDo d m s = (.ok a, s') ↔ ∃ s1, m s = (.ok a, s1) ∧
      (d s1).1.isPanic = false ∧ (d s1).1 ≠ .diverge ∧ (d s1).2 = s' := by
    intro s a s'
    unfold M.deferDo
    rcases hms : m s with ⟨o, s1⟩
    rcases hds : d s1 with ⟨o', s2⟩
    cases o <;> cases o' <;> simp [hds, Outcome.isPanic, and_assoc]
  intro s src p a s' hs h
  obtain ⟨s1, h1, h2, h3, h4⟩ := (h0 _ _ _).1 h
  obtain ⟨src1, p1, e1, l1, n1, k1⟩ := hm s src p a s1 hs h1
  have hc := hd.cells s1
  rw [h4] at hc
  refine ⟨src1, p1, ?_, l1, ?_, fun hg => ?_⟩
  · rw [← h4, hd.r, e1]
  · rw [hc]; exact n1
  · rw [hc] at hg
    obtain ⟨u, e, q⟩ := k1 hg
    refine ⟨u, e, fun z δ => (h0 _ _ _).2 ⟨_, q z δ, ?_⟩⟩
    rw [hd.frame, ← h4]
    exact ⟨h2, h3, rfl⟩

end VLocal

theorem Quiet.calm {m : M (Vis F) α} (q : Quiet m) : Calm m :=
  ⟨q.r, q.frame, fun s h => by rwa [q.cells s] at h⟩

theorem Calm.bind {m : M (Vis F) α} {f : α → M (Vis F) β} (hm : Calm m) (hf : ∀ a, Calm (f a)) : Calm (m >>= f) where
  r s := by
    rw [M.bind_apply]
    have h1 := hm.r s
    rcases h : m s with ⟨o, s1⟩
    rw [h] at h1
    cases o with
    | ok a => exact ((hf a).r s1).trans h1
    | err e => exact h1
    | panic w => exact h1
    | diverge => exact h1
  frame s r := by
    have h1 := hm.frame s r
    rw [M.bind_apply, M.bind_apply, h1]
    rcases h : m s with ⟨o, s1⟩
    cases o with
    | ok a => exact (hf a).frame s1 r
    | err e => rfl
    | panic w => rfl
    | diverge => rfl
  cells s := by
    rw [M.bind_apply]
    have h1 := hm.cells s
    rcases h : m s with ⟨o, s1⟩
    rw [h] at h1
    cases o with
    | ok a => exact fun h2 => h1 ((hf a).cells s1 h2)
    | err e => exact h1
    | panic w => exact h1
    | diverge => exact h1

theorem Calm.ignoreErr {m : M (Vis F) α} (hm : Calm m) (a : α) : Calm (M.ignoreErr a m) where
  r s := by
    have h1 := hm.r s
    unfold M.ignoreErr
    rcases h : m s with ⟨o, s1⟩
    rw [h] at h1
    cases o <;> exact h1
  frame s r := by
    have h1 := hm.frame s r
    unfold M.ignoreErr
    rw [h1]
    rcases h : m s with ⟨o, s1⟩
    cases o <;> rfl
  cells s := by
    have h1 := hm.cells s
    unfold M.ignoreErr
    rcases h : m s with ⟨o, s1⟩
    rw [h] at h1
    cases o <;> exact h1

theorem Calm.cellsAdd (n : NodeId) (v : Unpacked F) : Calm (Vis.cellsAdd n v) where
  r s := by
    unfold Vis.cellsAdd
    split <;> try rfl
    split <;> rfl
  frame s r := by
    unfold Vis.cellsAdd
    rcases s with ⟨r0, heap, node, stack, cells, no, so, nr, assoc, ni, si, rf, ns, bm⟩
    cases cells with
    | flat cs => cases v <;> rfl
    | tissues ts =>
      cases ts with
      | nil => cases v <;> rfl
      | cons t ts =>
        cases v with
        | plain v => rfl
        | compressed x =>
          dsimp only
          cases h2 : Cells.addColumn n x.values (t :: ts) <;> rfl
  cells s := by
    unfold Vis.cellsAdd
    cases h1 : s.cells with
    | flat cs =>
      cases v with
      | plain v => exact fun h x hx => h x (by simp [hx])
      | compressed x => intro h; simpa [h1] using h
    | tissues ts => exact fun _ => trivial

section
variable [GoFloat F]

theorem zeroUnpack (hj : c.unpacker ≠ .json) : ∃ o, ∀ s : Vis F,
    Vis.unpack c (Vis.plainInfo .nonnegCode 0) s = (o, s) := by
  unfold Vis.unpack
  cases hu : c.unpacker with
  | uncompress => exact ⟨.ok (.plain (.uint 0)), fun s => rfl⟩
  | compressed n fuel =>
    by_cases hn : n < 0
    · refine ⟨.panic "makeslice: len out of range", fun s => ?_⟩
      simp [M.zoom, Unpacker.unpack, compressedUnpack, Vis.plainInfo, makeCheck, hn, M.bind_apply]
    · refine ⟨.ok (.compressed ⟨.uint 0, 0, List.replicate n.toNat (.uint 0)⟩), fun s => ?_⟩
      simp [M.zoom, Unpacker.unpack, compressedUnpack, Vis.plainInfo, makeCheck, hn, M.bind_apply]
  | json => exact absurd hu hj

theorem VLocal.build (hj : c.unpacker ≠ .json) (d : NodeDesc) (info : PackingInfo F) :
    VLocal (Vis.buildValuedNodeWithInfo c d info) := by
  intro s src p n s' hs h
  unfold Vis.buildValuedNodeWithInfo at h
  obtain ⟨v, s1, h1, h2⟩ := M.bind_eq_ok.1 h
  have hrest : Calm (do
      let n ← Vis.alloc (.valued d 0 info .nil 0)
      Vis.treeAdd n
      Vis.cellsAdd n v
      pure n : M (Vis F) NodeId) :=
    (Quiet.alloc _).calm.bind fun n => (Quiet.treeAdd n).calm.bind fun _ => (Calm.cellsAdd n v).bind fun _ =>
      (Quiet.pure _).calm
  simp only [Vis.unpack, M.zoom, hs, Prod.mk.injEq] at h1
  obtain ⟨h1a, h1b⟩ := h1
  obtain ⟨src1, p1, e1, l1, k1⟩ := Rd.unpack hj info _ _ _ _ (eq_of_fst h1a)
  obtain ⟨src2, p2, e2, l2, n2, k2⟩ := VLocal.calm hrest s1 src1 p1 n s' (by rw [← h1b]; exact e1) h2
  refine ⟨src2, p2, e2, by omega, ?_, fun hg => ?_⟩
  · intro hn
    have := n2 hn
    rw [← h1b] at this
    exact this
  · obtain ⟨u2, rfl, q2⟩ := k2 hg
    obtain ⟨u1, rfl, q1⟩ := k1 (by
      rcases hg with hg | hg
      · left; omega
      · right
        rintro rfl
        -- the nil binary would be among the cells
        obtain ⟨n1, t1, a1, a2⟩ := M.bind_eq_ok.1 h2
        obtain ⟨_, t2, a3, a4⟩ := M.bind_eq_ok.1 a2
        obtain ⟨_, t3, a5, a6⟩ := M.bind_eq_ok.1 a4
        cases a6
        unfold Vis.cellsAdd at a5
        cases h4 : t2.cells with
        | flat cs =>
          rw [h4] at a5
          cases a5
          exact hg ⟨n, .binary none⟩ (by simp) rfl
        | tissues ts =>
          rw [h4] at a5
          cases ts <;> cases a5)
    refine ⟨u1 ++ u2, by rw [List.append_assoc], fun z δ => ?_⟩
    unfold Vis.buildValuedNodeWithInfo
    have h5 : Vis.unpack c info { s with r := .bin ⟨u1 ++ u2 ++ z, p + δ⟩ }
        = (.ok v, { s1 with r := .bin ⟨u2 ++ z, p1 + δ⟩ }) := by
      simp only [Vis.unpack, M.zoom]
      rw [List.append_assoc, q1, ← h1b]
    rw [M.bind_ok h5]
    exact q2 z δ

theorem VLocal.closed (hj : c.unpacker ≠ .json) : VClosed (F := F) c VLocal where
  quiet q := .calm q.calm
  bind := .bind
  build := .build hj
  zero d := by
    refine VLocal.calm (Calm.ignoreErr ?_ ())
    unfold Vis.buildZeroNode
    split
    · refine Calm.bind ?_ fun _ => (Quiet.pure _).calm
      unfold Vis.buildValuedNodeWithInfo
      obtain ⟨o, ho⟩ := zeroUnpack (F := F) hj
      refine Calm.bind ⟨fun s => by rw [ho], fun s r => by rw [ho, ho], fun s h => by rwa [ho] at h⟩ fun v => ?_
      exact (Quiet.alloc _).calm.bind fun n => (Quiet.treeAdd n).calm.bind fun _ =>
        (Calm.cellsAdd n v).bind fun _ => (Quiet.pure _).calm
    · exact (Quiet.alloc _).calm.bind fun n => (Quiet.treeAdd n).calm
  defer := .defer

end

end Gobufr
