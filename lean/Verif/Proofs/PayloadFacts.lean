import Verif.Proofs.Payload
import Verif.Proofs.ParserFacts

/-!
# Consequences of the simulation, and what decoding keeps
-/

set_option linter.unusedSimpArgs false
set_option linter.unusedSectionVars false

namespace Gobufr
namespace Flat
open ParserSpec

variable {F : Type} {c : VisCfg} {ρ : List NodeId}

/-! ## Parsed templates have no inner root -/

mutual
theorem noBase_of : (t : Ast) → (∀ d ms, Ast.base d ms ∉ nodes t) → noBase t = true
  | .base d ms, h => absurd (by simp [nodes]) (h d ms)
  | .sequence _ ms, h | .fixedRepl _ ms, h | .delayedRepl _ ms, h | .newRefval _ ms, h | .assocField _ ms, h
  | .skipLocal _ ms, h | .dataNotPresent _ ms, h | .bitmap _ ms, h => by
    simp only [noBase]
    exact noBaseL_of ms fun d ms' hm => h d ms' (by simp [nodes, hm])
  | .assessment _ b as ms, h => by
    simp only [noBase, Bool.and_eq_true]
    exact ⟨⟨noBase_of b fun d ms' hm => h d ms' (by simp [nodes, hm]),
      noBaseL_of as fun d ms' hm => h d ms' (by simp [nodes, hm])⟩,
      noBaseL_of ms fun d ms' hm => h d ms' (by simp [nodes, hm])⟩
  | .element _ _, _ | .e031021 _, _ | .nbitsOffset _, _ | .scaleOffset _, _ | .insertString _, _
  | .modifyPacking _, _ | .setStringLength _, _ | .marker _, _ | .cancelBackRef _, _
  | .cancelBitmap _, _ => rfl
theorem noBaseL_of : (ts : List Ast) → (∀ d ms, Ast.base d ms ∉ nodesL ts) → noBaseL ts = true
  | [], _ => rfl
  | t :: ts, h => by
    simp only [noBaseL, Bool.and_eq_true]
    exact ⟨noBase_of t fun d ms hm => h d ms (by simp [nodesL, hm]),
      noBaseL_of ts fun d ms hm => h d ms (by simp [nodesL, hm])⟩
end

/-! ## Decoding a subset -/

theorem represents_fresh (c : VisCfg) (s s' : Vis F) (h : Vis.reset c s = (.ok (), s')) :
    Represents c [] s' (fresh c s.r) ∧ s'.stack = [] ∧ s'.node = 0 ∧ s'.r = s.r := by
  unfold Vis.reset at h
  split at h
  · cases h
  simp only [Prod.mk.injEq, true_and] at h
  subst h
  refine ⟨?_, rfl, rfl, rfl⟩
  refine {
    r := rfl, subsets := rfl, nodes := ⟨rfl, ?_⟩, widths := ?_, cells := ?_,
    node := ⟨⟨.block, []⟩, rfl, by simp⟩, stack := by simp,
    nbitsOffset := rfl, scaleOffset := rfl, newRefval := rfl, assoc := .nil, nbitsIncrement := rfl,
    scaleIncrement := rfl, refvalFactor := rfl, nbitsString := rfl, backref := rfl, targets := .nil,
    bitmaps := rfl, reusable := rfl, current := rfl, backref_ge := Int.le_refl _, backref_lt := ?_,
    empty := fun _ => rfl }
  · intro i n col h; simp at h
  · intro col h; simp [fresh] at h
  · unfold fresh
    by_cases hc : c.compressed = true ∧ c.inputType = .binary
    · simp only [if_pos hc]
      congr 1
      apply List.ext_getElem?
      intro i
      rw [List.getElem?_replicate, List.getElem?_map]
      split
      · rename_i hi
        rw [List.getElem?_range hi]; rfl
      · rename_i hi
        rw [List.getElem?_eq_none (by simp; omega)]; rfl
    · simp only [if_neg hc]
      rfl
  · simp [fresh]

/-- The root: decoding starts with the empty table, whatever was decoded before. -/
theorem root_visit [GoFloat F] (hc : CfgOk c) {ns : List Ast} (hns : noBaseL ns = true) (d : Desc) (s s' : Vis F)
    (o : Outcome Unit) (h : Vis.visit c (.base d ns) s = (o, s')) (hd : o ≠ .diverge) :
    (∃ ρ f', visitL c ns (fresh c s.r) = (o, f') ∧ Represents c ρ s' f' ∧ s'.stack = [] ∧ s'.node = 0) ∨
    (o = .panic "makeslice: len out of range" ∧ s' = s ∧ c.nsubsets < 0) := by
  simp only [Vis.visit] at h
  rw [M.bind_apply] at h
  rcases hr : Vis.reset c s with ⟨o1, s1⟩
  rw [hr] at h
  have hcase : (o1 = .ok ()) ∨ (o1 = .panic "makeslice: len out of range" ∧ s1 = s ∧ c.nsubsets < 0) := by
    unfold Vis.reset at hr
    split at hr
    · rename_i hh
      cases hr
      exact .inr ⟨rfl, rfl, hh.2.2⟩
    · cases hr
      exact .inl rfl
  rcases hcase with rfl | ⟨rfl, rfl, hn⟩
  · simp only [] at h
    obtain ⟨hrep, hst, hnd, hre⟩ := represents_fresh c s s1 hr
    obtain ⟨ρ', _, ho, hs⟩ := sim_visitL hc ns hns [] s1 _ hrep
    rw [h] at ho hs
    rcases hv : visitL c ns (fresh c s.r) with ⟨o', f'⟩
    rw [hv] at ho hs
    have e : o' = o := by
      cases o <;> cases o' <;> first
        | exact False.elim ho
        | exact congrArg _ (show _ = _ from ho).symm
        | rfl
    subst e
    obtain ⟨h1, h2, h3⟩ := hs hd
    exact .inl ⟨ρ', f', rfl, h1, by rw [h2, hst], by rw [h3, hnd]⟩
  · simp only [] at h
    cases h
    exact .inr ⟨rfl, rfl, hn⟩

/-! ## The table of a state -/

theorem indexOf_ref {heap : Heap F} {cols : List (Column F)} (hn : Nodes ρ heap cols) {n : NodeId} {i : Nat}
    (h : Ref ρ n i) : indexOf heap n = some (i : Int) := by
  have hi : i < ρ.length := (List.getElem?_eq_some_iff.1 h).1
  have hi' : i < cols.length := hn.length ▸ hi
  obtain ⟨ms, hm, _⟩ := hn.node i n cols[i] h (List.getElem?_eq_getElem hi')
  unfold indexOf
  rw [hm]
  rfl

theorem indexOf_refO {heap : Heap F} {cols : List (Column F)} (hn : Nodes ρ heap cols) {n : Option NodeId}
    {i : Option Nat} (h : RefO ρ n i) : (n.bind fun k => (indexOf heap k).map Int.toNat) = i := by
  cases n <;> cases i <;> simp only [RefO] at h
  · rfl
  · simp [indexOf_ref hn h]

theorem All2.map_eq {R : α → β → Prop} {g : α → β} (hg : ∀ a b, R a b → g a = b) {as : List α} {bs : List β}
    (h : All2 R as bs) : as.map g = bs := by
  induction h with
  | nil => rfl
  | cons h1 _ ih => rw [List.map_cons, hg _ _ h1, ih]

theorem columnOf_eq {heap : Heap F} {cols : List (Column F)} (hn : Nodes ρ heap cols) {n : NodeId} {i : Nat}
    {col : Column F} (h : Ref ρ n i) (hcol : cols[i]? = some col) {vals : List (Val F)} (hv : vals = col.vals) :
    columnOf heap n vals = some col := by
  obtain ⟨ms, hm, ha⟩ := hn.node i n col h hcol
  unfold columnOf
  rw [hm]
  simp only [kindOf]
  rw [ha.map_eq fun a b hab => indexOf_refO hn hab, hv]

theorem tableOf_eq {s : Vis F} {f : State F} (h : Represents c ρ s f) : tableOf s = f := by
  have hsub : subsetCount s.cells = f.subsets := by
    rw [h.cells]
    cases f.subsets <;> simp [subsetCount]
  have hcols : (((subsetsOf s.cells).headD []).zipIdx.filterMap fun x =>
      columnOf s.heap x.1.n ((subsetsOf s.cells).map fun t => (t[x.2]?.map Cell.v).getD .nil)) = f.cols := by
    have key : ∀ k0, (subsetsOf s.cells).headD [] = cellsOf ρ f.cols k0 →
        (∀ (i : Nat) (col : Column F), f.cols[i]? = some col →
          ((subsetsOf s.cells).map fun t => (t[i]?.map Cell.v).getD .nil) = col.vals) →
        (((subsetsOf s.cells).headD []).zipIdx.filterMap fun x =>
      columnOf s.heap x.1.n ((subsetsOf s.cells).map fun t => (t[x.2]?.map Cell.v).getD .nil)) = f.cols := by
      intro k0 h0 hv
      rw [h0]
      have e : (cellsOf ρ f.cols k0).zipIdx.map (fun x => columnOf s.heap x.1.n
          ((subsetsOf s.cells).map fun t => (t[x.2]?.map Cell.v).getD .nil)) = f.cols.map some := by
        apply List.ext_getElem?
        intro i
        rw [List.getElem?_map, List.getElem?_zipIdx, List.getElem?_map]
        by_cases hi : i < f.cols.length
        · have hi' : i < ρ.length := by rw [h.nodes.length]; exact hi
          have e1 : (cellsOf ρ f.cols k0)[i]? = some ⟨ρ[i], f.cols[i].vals.getD k0 .nil⟩ := by
            simp [cellsOf, List.getElem?_zipWith, List.getElem?_eq_getElem hi, List.getElem?_eq_getElem hi']
          rw [e1, List.getElem?_eq_getElem hi]
          simp only [Option.map_some, Option.some.injEq, Nat.zero_add]
          exact columnOf_eq h.nodes (List.getElem?_eq_getElem hi') (List.getElem?_eq_getElem hi)
            (hv i _ (List.getElem?_eq_getElem hi))
        · have e1 : (cellsOf ρ f.cols k0)[i]? = none := by
            apply List.getElem?_eq_none
            simp only [cellsOf, List.length_zipWith]; omega
          rw [e1, List.getElem?_eq_none (by omega)]
          rfl
      have e2 := congrArg (List.filterMap id) e
      rw [List.filterMap_map, List.filterMap_map] at e2
      simpa [Function.comp_def] using e2
    have hcell : ∀ (k i : Nat) (col : Column F), f.cols[i]? = some col →
        (((cellsOf ρ f.cols k)[i]?).map Cell.v).getD .nil = col.vals.getD k .nil := by
      intro k i col hcol
      have hi := (List.getElem?_eq_some_iff.1 hcol).1
      have hi' : i < ρ.length := by rw [h.nodes.length]; exact hi
      simp [cellsOf, List.getElem?_zipWith, hcol, List.getElem?_eq_getElem hi']
    rw [h.cells] at key ⊢
    cases hs : f.subsets with
    | none =>
      simp only [hs] at key
      refine key 0 rfl fun i col hcol => ?_
      simp only [subsetsOf, List.map_cons, List.map_nil]
      rw [hcell 0 i col hcol]
      have hw := h.widths col (List.mem_of_getElem? hcol)
      rw [hs] at hw
      rcases hcv : col.vals with _ | ⟨v, _ | ⟨w, vs⟩⟩ <;> simp [hcv] at hw ⊢
    | some n =>
      simp only [hs] at key
      cases n with
      | zero =>
        have he := h.empty hs
        simp [subsetsOf, he]
      | succ n =>
        refine key 0 ?_ fun i col hcol => ?_
        · simp [subsetsOf, List.range_succ_eq_map]
        · simp only [subsetsOf, List.map_map]
          have hw := h.widths col (List.mem_of_getElem? hcol)
          rw [hs] at hw
          apply List.ext_getElem?
          intro k
          rw [List.getElem?_map]
          by_cases hk : k < n + 1
          · rw [List.getElem?_range hk]
            simp only [Option.map_some, Function.comp]
            rw [hcell k i col hcol, List.getElem?_eq_getElem (by simpa [hw] using hk)]
            simp [List.getD_eq_getElem?_getD, List.getElem?_eq_getElem (show k < col.vals.length by simpa [hw] using hk)]
          · rw [List.getElem?_eq_none (by simp; omega), List.getElem?_eq_none (by simp at hw; omega)]
            rfl
  have hassoc : (s.assoc.map fun p =>
      (⟨p.nbits, p.node.bind fun k => (indexOf s.heap k).map Int.toNat⟩ : Assoc)) = f.assoc := by
    apply h.assoc.map_eq
    rintro p ⟨nb, sig⟩ ⟨h1, h2⟩
    rw [indexOf_refO h.nodes h2, h1]
  have htargets : (s.bm.targets.map fun k => ((indexOf s.heap k).map Int.toNat).getD 0) = f.targets := by
    apply h.targets.map_eq
    intro n i hr
    rw [indexOf_ref h.nodes hr]
    simp
  unfold tableOf
  rw [hsub, hcols, hassoc, htargets, h.r, h.nbitsOffset, h.scaleOffset, h.nbitsIncrement, h.scaleIncrement,
    h.refvalFactor, h.nbitsString, h.backref, h.bitmaps, h.reusable, h.current]

theorem Represents.wellFormed {s : Vis F} {f : State F} (h : Represents c ρ s f) : WellFormed c s :=
  ⟨ρ, by rw [tableOf_eq h]; exact h⟩

theorem outRel_any {o : Outcome Unit} {o' : Outcome Unit} (h : OutRel (Any ρ) o o') : o' = o := by
  cases o <;> cases o' <;> first
    | exact False.elim h
    | exact congrArg _ (show _ = _ from h).symm
    | rfl

/-- Decoding a node of the template, on the tables. -/
theorem visit_table [GoFloat F] (hc : CfgOk c) {t : Ast} (ht : noBase t = true) {s s' : Vis F}
    (hs : WellFormed c s) {o : Outcome Unit} (h : Vis.visit c t s = (o, s')) (hd : o ≠ .diverge) :
    visit c t (tableOf s) = (o, tableOf s') ∧ WellFormed c s' ∧ s'.stack = s.stack ∧ s'.node = s.node := by
  obtain ⟨ρ, hr⟩ := hs
  obtain ⟨ρ', _, ho, hs⟩ := sim_visit hc t ht ρ s _ hr
  rw [h] at ho hs
  rcases hv : visit c t (tableOf s) with ⟨o', f'⟩
  rw [hv] at ho hs
  have e := outRel_any ho
  simp only [] at e
  subst e
  obtain ⟨h1, h2, h3⟩ := hs hd
  exact ⟨by rw [tableOf_eq h1], h1.wellFormed, h2, h3⟩

/-- Decoding a list of nodes, on the tables. -/
theorem visitL_table [GoFloat F] (hc : CfgOk c) {ts : List Ast} (ht : noBaseL ts = true) {s s' : Vis F}
    (hs : WellFormed c s) {o : Outcome Unit} (h : Vis.visitL c ts s = (o, s')) (hd : o ≠ .diverge) :
    visitL c ts (tableOf s) = (o, tableOf s') ∧ WellFormed c s' ∧ s'.stack = s.stack ∧ s'.node = s.node := by
  obtain ⟨ρ, hr⟩ := hs
  obtain ⟨ρ', _, ho, hs⟩ := sim_visitL hc ts ht ρ s _ hr
  rw [h] at ho hs
  rcases hv : visitL c ts (tableOf s) with ⟨o', f'⟩
  rw [hv] at ho hs
  have e := outRel_any ho
  simp only [] at e
  subst e
  obtain ⟨h1, h2, h3⟩ := hs hd
  exact ⟨by rw [tableOf_eq h1], h1.wellFormed, h2, h3⟩

/-- The outcome of decoding is that of the table decoder. -/
theorem visit_outcome [GoFloat F] (hc : CfgOk c) {t : Ast} (ht : noBase t = true) {s : Vis F}
    (hs : WellFormed c s) : (Vis.visit c t s).1 = (visit c t (tableOf s)).1 := by
  obtain ⟨ρ, hr⟩ := hs
  obtain ⟨ρ', _, ho, _⟩ := sim_visit hc t ht ρ s _ hr
  exact (outRel_any ho).symm

theorem visitL_outcome [GoFloat F] (hc : CfgOk c) {ts : List Ast} (ht : noBaseL ts = true) {s : Vis F}
    (hs : WellFormed c s) : (Vis.visitL c ts s).1 = (visitL c ts (tableOf s)).1 := by
  obtain ⟨ρ, hr⟩ := hs
  obtain ⟨ρ', _, ho, _⟩ := sim_visitL hc ts ht ρ s _ hr
  exact (outRel_any ho).symm

/-! ## What decoding keeps -/

/-- `P` relates the tables before and after every step of decoding.  The steps that belong to
particular nodes of the template only need to be looked at if `A` allows such nodes. -/
structure Keeps [GoFloat F] (c : VisCfg) (A : Ast → Prop) (P : State F → State F → Prop) : Prop where
  refl : ∀ f, P f f
  trans : ∀ f g h, P f g → P g h → P f h
  build : ∀ d info f i f', build c d info f = (.ok i, f') → P f f'
  zero : ∀ d f f', buildZero c d f = (.ok (), f') → P f f'
  attach : ∀ i j f, P f { f with cols := f.cols.modify i fun x => { x with attrs := x.attrs ++ [j] } }
  setSig : ∀ d i f, A (.e031021 d) → P f { f with assoc := setSig i f.assoc }
  assocField : ∀ d ms l f, A (.assocField d ms) → P f { f with assoc := l }
  targets : ∀ l f, P f { f with targets := l }
  nbitsOffset : ∀ d x f, A (.nbitsOffset d) → P f { f with nbitsOffset := x }
  scaleOffset : ∀ d x f, A (.scaleOffset d) → P f { f with scaleOffset := x }
  modifyPacking : ∀ d x y z f, A (.modifyPacking d) →
    P f { f with nbitsIncrement := x, scaleIncrement := y, refvalFactor := z }
  setStringLength : ∀ d x f, A (.setStringLength d) → P f { f with nbitsString := x }
  newAssessment : ∀ d bm as ms f f', A (.assessment d bm as ms) → newAssessment f = (.ok (), f') → P f f'
  cancelBackRef : ∀ d f, A (.cancelBackRef d) → P f { f with backref := -1, reusable := none, current := none }
  cancelBitmap : ∀ d f, A (.cancelBitmap d) → P f { f with reusable := none, current := none }
  newBitmap : ∀ d ms f f', A (.bitmap (some d) ms) → d.id ≠ 237000 → newBitmap f = (.ok (), f') → P f f'
  endBitmap : ∀ d ms f f', A (.bitmap (some d) ms) → d.id ≠ 237000 → endBitmap f = (.ok (), f') → P f f'
  recall : ∀ d ms f, A (.bitmap (some d) ms) → d.id = 237000 → P f { f with current := f.reusable }

section
variable [GoFloat F] {A : Ast → Prop} {P : State F → State F → Prop}

/-- What a successful run of `m` relates. -/
def Rel (P : State F → State F → Prop) (m : M (State F) α) : Prop := ∀ f a f', m f = (.ok a, f') → P f f'

theorem Keeps.pure (k : Keeps c A P) (a : α) : Rel P (Pure.pure a) := by
  intro f b f' h
  simp only [M.pure_apply, Prod.mk.injEq] at h
  rw [← h.2]
  exact k.refl f

theorem Keeps.bind (k : Keeps c A P) {m : M (State F) α} {n : α → M (State F) β} (hm : Rel P m)
    (hn : ∀ a, Rel P (n a)) : Rel P (m >>= n) := by
  intro f b f' h
  obtain ⟨a, g, h1, h2⟩ := M.bind_eq_ok.1 h
  exact k.trans _ _ _ (hm _ _ _ h1) (hn a _ _ _ h2)

theorem Keeps.query (k : Keeps c A P) (q : State F → Outcome α) : Rel P (fun f => (q f, f) : M (State F) α) := by
  intro f a f' h
  simp only [Prod.mk.injEq] at h
  rw [← h.2]
  exact k.refl f

theorem Keeps.lift (k : Keeps c A P) (o : Outcome α) : Rel P (M.lift o : M (State F) α) := k.query fun _ => o

theorem Keeps.crash (k : Keeps c A P) (w : String) : Rel P (M.crash w : M (State F) α) := k.query fun _ => .panic w

theorem Keeps.fail (k : Keeps c A P) (e : Err) : Rel P (M.fail e : M (State F) α) := k.query fun _ => .err e

theorem Keeps.modify {g : State F → State F} (h : ∀ f, P f (g f)) : Rel P (M.modify g) := by
  intro f a f' h'
  simp only [M.modify_apply, Prod.mk.injEq] at h'
  rw [← h'.2]
  exact h f

theorem Keeps.attachAll (k : Keeps c A P) (i : Nat) : ∀ js, Rel P (Flat.attachAll i js)
  | [] => k.pure ()
  | j :: js => by
    simp only [Flat.attachAll]
    exact k.bind (Keeps.modify (k.attach i _)) fun _ => k.attachAll i js

theorem Keeps.element (k : Keeps c A P) (d : Desc) : Rel P (buildElement c d) :=
  k.bind (k.query _) fun info => k.build _ info

theorem Keeps.assocs (k : Keeps c A P) (d : Desc) : ∀ as, Rel P (buildAssocs c d as)
  | [] => k.pure _
  | a :: as => by
    simp only [buildAssocs]
    exact k.bind (k.build _ _) fun i => k.bind (Keeps.modify (k.attach i _)) fun _ =>
      k.bind (k.assocs d as) fun _ => k.pure _

theorem Keeps.added (k : Keeps c A P) {m : M (State F) Unit} (h : Rel P m) : Rel P (added m) :=
  k.bind (k.query _) fun _ => k.bind h fun _ => k.bind (k.query _) fun _ => k.pure _

theorem Keeps.repeatM (k : Keeps c A P) {m : M (State F) Unit} (h : Rel P m) : ∀ n, Rel P (Vis.repeatM m n)
  | 0 => k.pure ()
  | n + 1 => by
    simp only [Vis.repeatM]
    exact k.bind h fun _ => k.repeatM h n

theorem Keeps.attachSources (k : Keeps c A P) (as : List Nat) : ∀ ss ts, Rel P (attachSources as ss ts)
  | [], _ => k.pure ()
  | _ :: _, [] => k.crash _
  | s :: ss, t :: ts => by
    simp only [Flat.attachSources]
    exact k.bind (Keeps.modify (k.attach t _)) fun _ => k.bind (k.attachAll s as) fun _ =>
      k.attachSources as ss ts

theorem Keeps.delayed (k : Keeps c A P) {m n : M (State F) Unit} (hm : Rel P m) (hn : Rel P n) :
    Rel P (delayed m n) := by
  unfold Flat.delayed
  refine k.bind hm fun _ => k.bind (k.query _) fun b => ?_
  split
  · exact k.fail _
  · exact k.bind (k.query _) fun n => k.bind (k.query _) fun v => k.bind (k.lift _) fun j => k.repeatM hn j

theorem Keeps.marker (k : Keeps c A P) (d : Desc) : Rel P (marker c d) := by
  unfold Flat.marker
  refine k.bind ?_ fun t => k.bind (k.query _) fun td => k.bind (k.query _) fun info =>
    k.bind (k.build _ _) fun _ => k.pure _
  intro f a f' h
  simp only [] at h
  split at h
  · cases h
  · cases h
    exact k.targets _ f

theorem Keeps.selectTargets (k : Keeps c A P) : Rel P (selectTargets (F := F)) := by
  unfold Flat.selectTargets
  refine k.bind (k.query _) fun bits => k.bind (k.query fun f => .ok (f.backref + 1)) fun n => ?_
  split
  · exact k.fail _
  · exact k.bind (Keeps.modify (k.targets _)) fun _ => k.pure _

theorem Keeps.refvals (k : Keeps c A P) (info : PackingInfo F) : ∀ ms, Rel P (refvals c info ms)
  | [] => k.pure ()
  | m :: _ => by
    unfold Flat.refvals
    refine k.bind (k.build _ _) fun _ => ?_
    split
    · exact k.crash _
    · exact k.crash _

theorem Keeps.popAssoc (k : Keeps c A P) {d : Desc} {ms : List Ast} (ha : A (.assocField d ms)) :
    Rel P (popAssoc (F := F)) := by
  intro f a f' h
  unfold Flat.popAssoc at h
  split at h
  · cases h
  · cases h
    exact k.assocField d ms _ f ha

theorem Keeps.elementAssocs (k : Keeps c A P) (d : Desc) : Rel P (elementAssocs (F := F) c d) :=
  fun f a f' h => k.assocs d _ f a f' h

theorem Rel.defer (k : Keeps c A P) {m d : M (State F) Unit} (hm : Rel P m) (hd : Rel P d)
    (hne : ∀ f e f', d f ≠ (.err e, f')) : Rel P (M.deferDo d m) := by
  intro f a f' h
  unfold M.deferDo at h
  rcases h1 : m f with ⟨o, g⟩
  rcases h2 : d g with ⟨q, g'⟩
  simp only [h1] at h
  cases q with
  | err e => exact absurd h2 (hne _ _ _)
  | panic w => cases o <;> simp only [h2, Prod.mk.injEq, reduceCtorEq, false_and] at h
  | diverge => cases o <;> simp only [h2, Prod.mk.injEq, reduceCtorEq, false_and] at h
  | ok u =>
    cases o <;> simp only [h2, Prod.mk.injEq, reduceCtorEq, false_and] at h
    rw [← h.2]
    exact k.trans _ _ _ (hm _ _ _ h1) (hd _ _ _ h2)

theorem endBitmap_no_err (f : State F) (e : Err) (f' : State F) : endBitmap f ≠ (.err e, f') := by
  intro h
  unfold Flat.endBitmap at h
  split at h <;> simp at h

mutual
theorem Keeps.visit (k : Keeps c A P) : (t : Ast) → (∀ n ∈ nodes t, A n) → Rel P (visit c t)
  | .base _ ms, h => by
    unfold Flat.visit
    exact k.visitL ms fun n hn => h n (by simp [nodes, hn])
  | .element d np, _ => by
    unfold Flat.visit
    split
    · exact k.pure ()
    · exact k.bind (k.elementAssocs d) fun _ => k.bind (k.element d) fun _ => k.attachAll _ _
  | .e031021 d, h => by
    unfold Flat.visit
    exact k.bind (k.element d) fun _ => Keeps.modify fun f => k.setSig d _ f (h _ (by simp [nodes]))
  | .fixedRepl d ms, h => by
    unfold Flat.visit
    exact k.repeatM (k.visitL ms fun n hn => h n (by simp [nodes, hn])) _
  | .delayedRepl d [], _ => by
    unfold Flat.visit
    exact k.crash _
  | .delayedRepl d (m :: ms), h => by
    unfold Flat.visit
    exact k.delayed (k.visit m fun n hn => h n (by simp [nodes, nodesL, hn]))
      (k.visitL ms fun n hn => h n (by simp [nodes, nodesL, hn]))
  | .sequence d ms, h => by
    unfold Flat.visit
    exact k.visitL ms fun n hn => h n (by simp [nodes, hn])
  | .nbitsOffset d, h => by
    unfold Flat.visit
    exact Keeps.modify fun f => k.nbitsOffset d _ f (h _ (by simp [nodes]))
  | .scaleOffset d, h => by
    unfold Flat.visit
    exact Keeps.modify fun f => k.scaleOffset d _ f (h _ (by simp [nodes]))
  | .newRefval d ms, h => by
    unfold Flat.visit
    split
    · exact k.refvals _ _
    · exact k.pure ()
  | .assocField d ms, h => by
    unfold Flat.visit
    have hl := k.visitL ms fun n hn => h n (by simp [nodes, hn])
    split
    · exact k.bind (k.popAssoc (d := d) (ms := ms) (h _ (by simp [nodes]))) fun _ => hl
    · exact k.bind (Keeps.modify fun f => k.assocField d ms _ f (h _ (by simp [nodes]))) fun _ => hl
  | .insertString d, _ => by
    unfold Flat.visit
    exact k.bind (k.build _ _) fun _ => k.pure _
  | .skipLocal d [], _ => by
    unfold Flat.visit
    exact k.crash _
  | .skipLocal d (m :: _), _ => by
    unfold Flat.visit
    exact k.bind (k.build _ _) fun _ => k.pure _
  | .modifyPacking d, h => by
    unfold Flat.visit
    exact Keeps.modify fun f => k.modifyPacking d _ _ _ f (h _ (by simp [nodes]))
  | .setStringLength d, h => by
    unfold Flat.visit
    exact Keeps.modify fun f => k.setStringLength d _ f (h _ (by simp [nodes]))
  | .dataNotPresent d ms, h => by
    unfold Flat.visit
    exact k.visitL ms fun n hn => h n (by simp [nodes, hn])
  | .assessment d bm as ms, h => by
    unfold Flat.visit Flat.assessment
    refine k.bind (fun f a f' hn => k.newAssessment d bm as ms f f' (h _ (by simp [nodes])) hn) fun _ => ?_
    refine k.bind (fun f _ f' => k.zero d f f') fun _ => ?_
    refine k.bind (k.visit bm fun n hn => h n (by simp [nodes, hn])) fun _ => ?_
    refine k.bind (k.added (k.visitL as fun n hn => h n (by simp [nodes, hn]))) fun _ => ?_
    refine k.bind k.selectTargets fun _ => ?_
    refine k.bind (k.added (k.visitL ms fun n hn => h n (by simp [nodes, hn]))) fun _ => ?_
    exact k.attachSources _ _ _
  | .marker d, _ => by
    unfold Flat.visit
    exact k.marker d
  | .cancelBackRef d, h => by
    unfold Flat.visit
    exact Keeps.modify fun f => k.cancelBackRef d f (h _ (by simp [nodes]))
  | .cancelBitmap d, h => by
    unfold Flat.visit Flat.cancelBitmap
    exact Keeps.modify fun f => k.cancelBitmap d f (h _ (by simp [nodes]))
  | .bitmap none ms, h => by
    unfold Flat.visit Flat.bitmapDef
    exact k.crash _
  | .bitmap (some d) ms, h => by
    unfold Flat.visit Flat.bitmapDef
    simp only []
    have ha := h (.bitmap (some d) ms) (by simp [nodes])
    refine k.bind (fun f _ f' => k.zero d f f') fun _ => ?_
    split
    · rename_i hid
      exact Keeps.modify fun f => k.recall d ms f ha hid
    · rename_i hid
      refine k.bind (fun f _ f' => k.newBitmap d ms f f' ha hid) fun _ => ?_
      exact Rel.defer k (k.visitL ms fun n hn => h n (by simp [nodes, hn])) (fun f _ f' => k.endBitmap d ms f f' ha hid)
        endBitmap_no_err
theorem Keeps.visitL (k : Keeps c A P) : (ts : List Ast) → (∀ n ∈ nodesL ts, A n) → Rel P (visitL c ts)
  | [], _ => by
    unfold Flat.visitL
    exact k.pure ()
  | t :: ts, h => by
    unfold Flat.visitL
    exact k.bind (k.visit t fun n hn => h n (by simp [nodesL, hn])) fun _ =>
      k.visitL ts fun n hn => h n (by simp [nodesL, hn])
end
end

end Flat
end Gobufr

namespace Gobufr
namespace Flat

variable {F : Type} {c : VisCfg}

/-! ## The single steps -/

/-- A column holds an unpacked value. -/
def Holds : Unpacked F → Column F → Prop
  | .plain v, col => col.vals = [v] ∧ col.minValue = .nil ∧ col.nbitsDiff = 0
  | .compressed cv, col => col.vals = cv.values ∧ col.minValue = cv.minValue ∧ col.nbitsDiff = cv.nbitsDiff

theorem build_ok [GoFloat F] {d : NodeDesc} {info : PackingInfo F} {f f' : State F} {i : Nat}
    (h : build c d info f = (.ok i, f')) :
    i = f.cols.length ∧ ∃ (v : Unpacked F) (col : Column F) (r : Reader F), c.unpacker.unpack info f.r = (.ok v, r) ∧
      Holds v col ∧ col.desc = d ∧ col.info = info ∧ col.attrs = [] ∧
      f' = { f with r := r, cols := f.cols ++ [col] } := by
  unfold build at h
  obtain ⟨v, g, h1, h2⟩ := M.bind_eq_ok.1 h
  rcases hu : c.unpacker.unpack info f.r with ⟨o, r⟩
  have hz : M.zoom State.r (fun r f => { f with r := r }) (c.unpacker.unpack info) f =
      (o, ({ f with r := r } : State F)) := by
    unfold M.zoom
    rw [hu]
  rw [hz] at h1
  simp only [Prod.mk.injEq] at h1
  obtain ⟨rfl, rfl⟩ := h1
  simp only [] at h2
  split at h2
  · simp only [Prod.mk.injEq, Outcome.ok.injEq] at h2
    exact ⟨h2.1.symm, _, _, r, rfl, ⟨rfl, rfl, rfl⟩, rfl, rfl, rfl, h2.2.symm⟩
  · simp at h2
  · simp at h2
  · simp at h2
  · simp only [Prod.mk.injEq, Outcome.ok.injEq] at h2
    exact ⟨h2.1.symm, _, _, r, rfl, ⟨rfl, rfl, rfl⟩, rfl, rfl, rfl, h2.2.symm⟩

/-- Reading a column changes at most the reader if it does not succeed. -/
theorem build_fail [GoFloat F] {d : NodeDesc} {info : PackingInfo F} {f f' : State F} {o : Outcome Nat}
    (h : build c d info f = (o, f')) (ho : o.isOk = false) : ∃ r, f' = { f with r := r } := by
  unfold build at h
  replace h := (M.bind_apply _ _ _).symm.trans h
  rcases hu : c.unpacker.unpack info f.r with ⟨o1, r⟩
  have hz : M.zoom State.r (fun r f => { f with r := r }) (c.unpacker.unpack info) f =
      (o1, ({ f with r := r } : State F)) := by
    unfold M.zoom
    rw [hu]
  rw [hz] at h
  cases o1 with
  | ok v =>
    simp only [] at h
    split at h <;> simp only [Prod.mk.injEq] at h <;> obtain ⟨rfl, rfl⟩ := h <;>
      first
      | exact ⟨r, rfl⟩
      | simp [Outcome.isOk] at ho
  | err e => simp only [Prod.mk.injEq] at h; exact ⟨r, h.2.symm⟩
  | panic e => simp only [Prod.mk.injEq] at h; exact ⟨r, h.2.symm⟩
  | diverge => simp only [Prod.mk.injEq] at h; exact ⟨r, h.2.symm⟩

theorem zero_ok [GoFloat F] {d : Desc} {f f' : State F} (h : buildZero c d f = (.ok (), f')) :
    (∃ r, f' = { f with r := r }) ∨
      build c ⟨some d, false⟩ (Vis.plainInfo .nonnegCode 0) f = (.ok f.cols.length, f') := by
  unfold buildZero at h
  split at h
  · unfold M.ignoreErr at h
    rw [M.bind_apply] at h
    rcases hb : build c ⟨some d, false⟩ (Vis.plainInfo .nonnegCode 0) f with ⟨o, g⟩
    rw [hb] at h
    cases o with
    | ok i =>
      simp only [M.pure_apply, Prod.mk.injEq, true_and] at h
      subst h
      have := (build_ok hb).1
      rw [this]
      exact .inr rfl
    | err e =>
      simp only [Prod.mk.injEq, true_and] at h
      subst h
      exact .inl (build_fail hb rfl)
    | panic w => simp at h
    | diverge => simp at h
  · simp only [M.pure_apply, Prod.mk.injEq, true_and] at h
    exact .inl ⟨f.r, h.symm⟩

theorem zero_fields [GoFloat F] {d : Desc} {f f' : State F} (h : buildZero c d f = (.ok (), f')) :
    ∃ r cols, f' = { f with r := r, cols := cols } := by
  rcases zero_ok h with ⟨r, rfl⟩ | h
  · exact ⟨r, f.cols, rfl⟩
  · obtain ⟨_, v, col, r, _, _, _, _, _, rfl⟩ := build_ok h
    exact ⟨r, _, rfl⟩

theorem newAssessment_ok {f f' : State F} (h : newAssessment f = (.ok (), f')) :
    (f.backref = -1 ∧ f' = { f with backref := (f.cols.length : Int) - 1 }) ∨ (f.backref ≠ -1 ∧ f' = f) := by
  unfold newAssessment at h
  split at h
  · rename_i hb
    unfold State.len at h
    split at h
    · rename_i h1
      split at h1
      · cases h1
      · cases h1
        simp only [Prod.mk.injEq, true_and] at h
        exact .inl ⟨hb, h.symm⟩
    all_goals simp at h
  · rename_i hb
    simp only [Prod.mk.injEq, true_and] at h
    exact .inr ⟨hb, h.symm⟩

theorem newBitmap_ok {f f' : State F} (h : newBitmap f = (.ok (), f')) :
    f' = { f with bitmaps := f.bitmaps ++ [{ index0 := f.cols.length }],
                  current := some f.bitmaps.length, reusable := some f.bitmaps.length } := by
  unfold newBitmap at h
  obtain ⟨n, g, h1, h2⟩ := M.bind_eq_ok.1 h
  unfold State.len at h1
  split at h1
  · simp at h1
  · simp only [Prod.mk.injEq, Outcome.ok.injEq] at h1
    obtain ⟨rfl, rfl⟩ := h1
    simp only [M.modify_apply, Prod.mk.injEq, true_and] at h2
    exact h2.symm

theorem endBitmap_ok {f f' : State F} (h : endBitmap f = (.ok (), f')) :
    ∃ b, f.current = some b ∧
      f' = { f with bitmaps := f.bitmaps.modify b fun x => { x with index1 := f.cols.length } } := by
  unfold endBitmap State.len at h
  split at h
  · rename_i n b h1 h2
    split at h1
    · cases h1
    · cases h1
      simp only [Prod.mk.injEq, true_and] at h
      exact ⟨b, h2, h.symm⟩
  · simp at h
  · simp at h

/-- A part of the state that only some operators touch. -/
theorem keeps_proj [GoFloat F] {A : Ast → Prop} {β : Type} (π : State F → β)
    (h1 : ∀ f r cols, π { f with r := r, cols := cols } = π f)
    (h2 : ∀ d i f, A (.e031021 d) → π { f with assoc := setSig i f.assoc } = π f)
    (h2' : ∀ d ms l f, A (.assocField d ms) → π { f with assoc := l } = π f)
    (h3 : ∀ f l, π { f with targets := l } = π f)
    (h4 : ∀ d x f, A (.nbitsOffset d) → π { f with nbitsOffset := x } = π f)
    (h5 : ∀ d x f, A (.scaleOffset d) → π { f with scaleOffset := x } = π f)
    (h6 : ∀ d x y z f, A (.modifyPacking d) →
      π { f with nbitsIncrement := x, scaleIncrement := y, refvalFactor := z } = π f)
    (h7 : ∀ d x f, A (.setStringLength d) → π { f with nbitsString := x } = π f)
    (h8 : ∀ d bm as ms f, A (.assessment d bm as ms) → f.backref = -1 →
      π { f with backref := (f.cols.length : Int) - 1 } = π f)
    (h9 : ∀ d f, A (.cancelBackRef d) → π { f with backref := -1, reusable := none, current := none } = π f)
    (h10 : ∀ d f, A (.cancelBitmap d) → π { f with reusable := none, current := none } = π f)
    (h11 : ∀ d ms f, A (.bitmap (some d) ms) → d.id ≠ 237000 →
      π { f with bitmaps := f.bitmaps ++ [{ index0 := f.cols.length }],
                 current := some f.bitmaps.length, reusable := some f.bitmaps.length } = π f)
    (h12 : ∀ d ms f b, A (.bitmap (some d) ms) → d.id ≠ 237000 →
      π { f with bitmaps := f.bitmaps.modify b fun x => { x with index1 := f.cols.length } } = π f)
    (h13 : ∀ d ms f, A (.bitmap (some d) ms) → d.id = 237000 → π { f with current := f.reusable } = π f) :
    Keeps c A (fun f f' => π f' = π f) where
  refl _ := rfl
  trans _ _ _ e1 e2 := e2.trans e1
  build d info f i f' h := by
    obtain ⟨_, v, col, r, _, _, _, _, _, rfl⟩ := build_ok h
    exact h1 f r _
  zero d f f' h := by
    obtain ⟨r, cols, rfl⟩ := zero_fields h
    exact h1 f r cols
  attach i j f := h1 f f.r _
  setSig d i f h := h2 d i f h
  assocField d ms l f h := h2' d ms l f h
  targets l f := h3 f l
  nbitsOffset d x f h := h4 d x f h
  scaleOffset d x f h := h5 d x f h
  modifyPacking d x y z f h := h6 d x y z f h
  setStringLength d x f h := h7 d x f h
  newAssessment d bm as ms f f' h h' := by
    rcases newAssessment_ok h' with ⟨hb, rfl⟩ | ⟨_, rfl⟩
    · exact h8 d bm as ms f h hb
    · rfl
  cancelBackRef d f h := h9 d f h
  cancelBitmap d f h := h10 d f h
  newBitmap d ms f f' h hid h' := by
    rw [newBitmap_ok h']
    exact h11 d ms f h hid
  endBitmap d ms f f' h hid h' := by
    obtain ⟨b, _, rfl⟩ := endBitmap_ok h'
    exact h12 d ms f b h hid
  recall d ms f h hid := h13 d ms f h hid

/-! ## Columns that are read -/

/-- The columns were read one after the other, from the input `r` on, leaving `r'`. -/
inductive ReadCols [GoFloat F] (c : VisCfg) : Reader F → List (Column F) → Reader F → Prop where
  | nil (r) : ReadCols c r [] r
  | cons : c.unpacker.unpack col.info r = (.ok v, r1) → Holds v col → ReadCols c r1 cols r' →
      ReadCols c r (col :: cols) r'

theorem ReadCols.append [GoFloat F] {r r1 r2 : Reader F} {as bs : List (Column F)} (h1 : ReadCols c r as r1)
    (h2 : ReadCols c r1 bs r2) : ReadCols c r (as ++ bs) r2 := by
  induction h1 with
  | nil => exact h2
  | cons h3 h4 _ ih => exact .cons h3 h4 (ih h2)

/-- What is read does not depend on the attributes. -/
theorem ReadCols.attrs [GoFloat F] {r r' : Reader F} {as bs : List (Column F)} (h : ReadCols c r as r')
    (hb : bs.map (fun x => { x with attrs := [] }) = as.map (fun x => { x with attrs := [] })) :
    ReadCols c r bs r' := by
  induction h generalizing bs with
  | nil => cases bs <;> simp at hb; exact .nil _
  | cons h1 h2 _ ih =>
    cases bs with
    | nil => simp at hb
    | cons b bs =>
      simp only [List.map_cons, List.cons.injEq, Column.mk.injEq, and_true, true_and] at hb
      obtain ⟨⟨e1, e2, e3, e4, e5⟩, hb⟩ := hb
      refine .cons (by rw [e2]; exact h1) ?_ (ih hb)
      revert h2
      simp only [Holds]
      split <;> simp_all

theorem modify_last (as : List α) (b : α) (g : α → α) : (as ++ [b]).modify as.length g = as ++ [g b] := by
  induction as with
  | nil => rfl
  | cons a as ih => simp only [List.cons_append, List.length_cons, List.modify_succ_cons, ih]

/-- The associated fields of an element. -/
theorem assocs_ok [GoFloat F] {d : Desc} : ∀ {as : List Assoc} {f f' : State F} {is : List Nat},
    buildAssocs c d as f = (.ok is, f') →
    is = List.range' f.cols.length as.length ∧ ∃ cols r, ReadCols c f.r cols r ∧
      f' = { f with r := r, cols := f.cols ++ cols } ∧
      cols.map (fun x => (x.desc, x.info, x.attrs)) =
        as.map fun a => (⟨some d, true⟩, Vis.plainInfo .nonnegCode a.nbits, [a.sig])
  | [], f, f', is, h => by
    simp only [buildAssocs, M.pure_apply, Prod.mk.injEq, Outcome.ok.injEq] at h
    obtain ⟨rfl, rfl⟩ := h
    exact ⟨rfl, [], f.r, .nil _, by simp, rfl⟩
  | a :: as, f, f', is, h => by
    simp only [buildAssocs] at h
    obtain ⟨i, g, h1, h2⟩ := M.bind_eq_ok.1 h
    obtain ⟨rfl, v, col, r, hu, hv, hd, hi, ha, rfl⟩ := build_ok h1
    obtain ⟨_, g1, h3, h4⟩ := M.bind_eq_ok.1 h2
    simp only [attachTo, M.modify_apply, Prod.mk.injEq, true_and] at h3
    subst h3
    obtain ⟨js, g2, h5, h6⟩ := M.bind_eq_ok.1 h4
    simp only [M.pure_apply, Prod.mk.injEq, Outcome.ok.injEq] at h6
    obtain ⟨rfl, rfl⟩ := h6
    obtain ⟨rfl, cols, r', hr, rfl, hc⟩ := assocs_ok h5
    have hm : (f.cols ++ [col]).modify f.cols.length (fun x => { x with attrs := x.attrs ++ [a.sig] }) =
        f.cols ++ [{ col with attrs := [a.sig] }] := by
      rw [modify_last]
      simp [ha]
    refine ⟨by simp [List.range'_succ], { col with attrs := [a.sig] } :: cols, r', ?_, ?_, ?_⟩
    · refine .cons (by simpa [hi] using hu) ?_ hr
      cases v <;> exact hv
    · simp only [hm, List.append_assoc, List.cons_append, List.nil_append]
    · simp only [List.map_cons, hc, hd, hi]

theorem attachAll_eq (i : Nat) : ∀ (js : List Nat) (f : State F),
    attachAll i js f = (.ok (), { f with cols := f.cols.modify i fun x => { x with attrs := x.attrs ++ js.map some } })
  | [], f => by
    simp only [attachAll, M.pure_apply, List.map_nil, List.append_nil]
    have : (fun x : Column F => ({ x with attrs := x.attrs } : Column F)) = id := rfl
    rw [this, List.modify_id]
  | j :: js, f => by
    simp only [attachAll]
    have e : attachTo i (some j) f =
        (.ok (), { f with cols := f.cols.modify i fun x => { x with attrs := x.attrs ++ [some j] } }) := rfl
    rw [M.bind_ok e, attachAll_eq i js]
    simp only [List.modify_modify_eq]
    simp [Function.comp_def]

/-- Reading an element with its associated fields. -/
theorem element_ok [GoFloat F] {d : Desc} {f f' : State F} (h : visit c (.element d false) f = (.ok (), f')) :
    ∃ cols col r, ReadCols c f.r (cols ++ [col]) r ∧ f' = { f with r := r, cols := f.cols ++ (cols ++ [col]) } ∧
      cols.map (fun x => (x.desc, x.info, x.attrs)) =
        (if d.id.X = 31 then [] else f.assoc).map
          (fun a => (⟨some d, true⟩, Vis.plainInfo .nonnegCode a.nbits, [a.sig])) ∧
      col.desc = ⟨some d, false⟩ ∧ f.packing (some d) = .ok col.info ∧
      col.attrs = (List.range' f.cols.length cols.length).map some := by
  simp only [visit, Bool.false_eq_true, if_false] at h
  obtain ⟨is, g, h1, h2⟩ := M.bind_eq_ok.1 h
  unfold elementAssocs at h1
  obtain ⟨rfl, cols, r, hr, rfl, hm⟩ := assocs_ok h1
  obtain ⟨i, g, h3, h4⟩ := M.bind_eq_ok.1 h2
  unfold buildElement at h3
  obtain ⟨info, g', h5, h6⟩ := M.bind_eq_ok.1 h3
  simp only [Prod.mk.injEq] at h5
  obtain ⟨h5, rfl⟩ := h5
  obtain ⟨rfl, v, col, r', hu, hv, hd, hi, ha, rfl⟩ := build_ok h6
  rw [attachAll_eq] at h4
  simp only [Prod.mk.injEq, true_and] at h4
  subst h4
  have hl : cols.length = (if d.id.X = 31 then [] else f.assoc).length := by
    have := congrArg List.length hm
    simpa using this
  refine ⟨cols, { col with attrs := (List.range' f.cols.length cols.length).map some }, r', ?_, ?_, hm, hd, ?_, rfl⟩
  · refine hr.append (.cons (by simpa [hi] using hu) ?_ (.nil _))
    cases v <;> exact hv
  · simp only [modify_last]
    rw [hl]
    simp [ha]
  · rw [hi]
    exact h5

/-! ## Assessments -/

/-- Successful runs of an assessment. -/
theorem assessment_ok [GoFloat F] {d : Desc} {b a m : M (State F) Unit} {f f' : State F}
    (h : assessment c d b a m f = (.ok (), f')) :
    ∃ f1 f2 f3 f4 bits f5, newAssessment f = (.ok (), f1) ∧ buildZero c d f1 = (.ok (), f2) ∧ b f2 = (.ok (), f3) ∧
      a f3 = (.ok (), f4) ∧ f4.bits = .ok bits ∧ (bits.length : Int) ≤ f4.backref + 1 ∧
      (bits = [] → f4.backref + 1 ≤ 0) ∧
      m { f4 with targets := zeros bits ((f4.backref + 1).toNat - bits.length) } = (.ok (), f5) ∧
      attachSources (List.range' f3.cols.length (f4.cols.length - f3.cols.length))
        (List.range' f4.cols.length (f5.cols.length - f4.cols.length))
        (zeros bits ((f4.backref + 1).toNat - bits.length)) f5 = (.ok (), f') := by
  have haddl : ∀ (m : M (State F) Unit) (g g' : State F) (l : List Nat), added m g = (.ok l, g') →
      m g = (.ok (), g') ∧ l = List.range' g.cols.length (g'.cols.length - g.cols.length) := by
    intro m g g' l h
    unfold added at h
    obtain ⟨n0, g0, h0, h⟩ := M.bind_eq_ok.1 h
    obtain ⟨_, g1, h1, h⟩ := M.bind_eq_ok.1 h
    obtain ⟨n2, g2, h2, h⟩ := M.bind_eq_ok.1 h
    simp only [M.pure_apply, Prod.mk.injEq, Outcome.ok.injEq] at h h0 h2
    obtain ⟨h0, rfl⟩ := h0
    obtain ⟨h2, rfl⟩ := h2
    obtain ⟨rfl, rfl⟩ := h
    unfold State.len at h0 h2
    split at h0
    · cases h0
    · split at h2
      · cases h2
      · cases h0; cases h2
        refine ⟨h1, ?_⟩
        congr 1
        omega
  unfold assessment at h
  obtain ⟨_, f1, h1, h⟩ := M.bind_eq_ok.1 h
  obtain ⟨_, f2, h2, h⟩ := M.bind_eq_ok.1 h
  obtain ⟨_, f3, h3, h⟩ := M.bind_eq_ok.1 h
  obtain ⟨as, f4, h4, h⟩ := M.bind_eq_ok.1 h
  obtain ⟨ts, f5, h5, h⟩ := M.bind_eq_ok.1 h
  obtain ⟨ss, f6, h6, h⟩ := M.bind_eq_ok.1 h
  obtain ⟨h4', rfl⟩ := haddl _ _ _ _ h4
  obtain ⟨h6', rfl⟩ := haddl _ _ _ _ h6
  unfold selectTargets at h5
  obtain ⟨bits, g, h7, h5⟩ := M.bind_eq_ok.1 h5
  simp only [Prod.mk.injEq] at h7
  obtain ⟨h7, rfl⟩ := h7
  obtain ⟨n, g, h8, h5⟩ := M.bind_eq_ok.1 h5
  simp only [Prod.mk.injEq, Outcome.ok.injEq] at h8
  obtain ⟨rfl, rfl⟩ := h8
  by_cases hb : f4.backref + 1 < bits.length ∨ (bits = [] ∧ 0 < f4.backref + 1)
  · rw [if_pos hb] at h5
    simp at h5
  · rw [if_neg hb] at h5
    obtain ⟨_, g, h9, h5⟩ := M.bind_eq_ok.1 h5
    simp only [M.modify_apply, Prod.mk.injEq, true_and] at h9
    subst h9
    simp only [M.pure_apply, Prod.mk.injEq, Outcome.ok.injEq] at h5
    obtain ⟨rfl, rfl⟩ := h5
    exact ⟨f1, f2, f3, f4, bits, f6, h1, h2, h3, h4', h7, by omega, fun he => by
      rw [he] at hb; simp at hb; omega, h6', h⟩

/-- The attributes column `i` gets: the sources paired with it as target, and, if it is a source, `as`. -/
def newAttrs (as : List Nat) (l : List (Nat × Nat)) (i : Nat) : List (Option Nat) :=
  l.flatMap fun p => (if p.2 = i then [some p.1] else []) ++ (if p.1 = i then as.map some else [])

/-- The columns with attributes added: those of the targets `ts` get the sources `ss`, the
sources the attributes `as`. -/
theorem attachSources_ok (as : List Nat) : ∀ (ss ts : List Nat) (f f' : State F),
    attachSources as ss ts f = (.ok (), f') → ss.length ≤ ts.length ∧ (∃ cols, f' = { f with cols := cols }) ∧
    ∀ (i : Nat), f'.cols[i]? = f.cols[i]?.map fun x => { x with attrs := x.attrs ++ newAttrs as (ss.zip ts) i }
  | [], ts, f, f', h => by
    simp only [attachSources, M.pure_apply, Prod.mk.injEq, true_and] at h
    subst h
    refine ⟨by simp, ⟨_, rfl⟩, fun i => ?_⟩
    cases f.cols[i]? <;> simp [newAttrs]
  | s :: ss, [], f, f', h => by simp [attachSources] at h
  | s :: ss, t :: ts, f, f', h => by
    simp only [attachSources] at h
    obtain ⟨_, f1, h1, h⟩ := M.bind_eq_ok.1 h
    obtain ⟨_, f2, h2, h⟩ := M.bind_eq_ok.1 h
    simp only [attachTo, M.modify_apply, Prod.mk.injEq, true_and] at h1
    subst h1
    rw [attachAll_eq] at h2
    simp only [Prod.mk.injEq, true_and] at h2
    subst h2
    obtain ⟨hl, ⟨cols, rfl⟩, hi⟩ := attachSources_ok as ss ts _ _ h
    refine ⟨by simpa using hl, ⟨_, rfl⟩, fun i => ?_⟩
    rw [hi i]
    simp only [List.getElem?_modify, List.zip_cons_cons, newAttrs, List.flatMap_cons]
    cases f.cols[i]? with
    | none => rfl
    | some x =>
      by_cases h1 : t = i <;> by_cases h2 : s = i <;> simp [h1, h2]

/-- The positions of the zeros in a bitmap, counted from `lo`. -/
theorem mem_zeros {i : Nat} : ∀ {bits : List Nat} {lo : Nat}, i ∈ zeros bits lo ↔ lo ≤ i ∧ bits[i - lo]? = some 0
  | [], lo => by simp [zeros]
  | b :: bs, lo => by
    have ih := mem_zeros (i := i) (bits := bs) (lo := lo + 1)
    have e : (b :: bs)[i - lo]? = if i ≤ lo then some b else bs[i - (lo + 1)]? := by
      split
      · rw [show i - lo = 0 by omega]; rfl
      · rw [show i - lo = (i - (lo + 1)) + 1 by omega]; rfl
    rw [e]
    simp only [zeros]
    split
    · rename_i hb
      rw [List.mem_cons, ih]
      constructor
      · rintro (rfl | ⟨h1, h2⟩)
        · simp [hb]
        · exact ⟨by omega, by rw [if_neg (by omega)]; exact h2⟩
      · rintro ⟨h1, h2⟩
        by_cases h3 : i ≤ lo
        · exact .inl (by omega)
        · rw [if_neg h3] at h2
          exact .inr ⟨by omega, h2⟩
    · rename_i hb
      rw [ih]
      constructor
      · rintro ⟨h1, h2⟩
        exact ⟨by omega, by rw [if_neg (by omega)]; exact h2⟩
      · rintro ⟨h1, h2⟩
        by_cases h3 : i ≤ lo
        · rw [if_pos h3] at h2
          simp at h2
          exact absurd h2 hb
        · rw [if_neg h3] at h2
          exact ⟨by omega, h2⟩

/-- They are in ascending order. -/
theorem zeros_sorted : ∀ (bits : List Nat) (lo : Nat), (zeros bits lo).Pairwise (· < ·)
  | [], _ => by simp [zeros]
  | b :: bs, lo => by
    simp only [zeros]
    split
    · refine List.pairwise_cons.2 ⟨fun i hi => ?_, zeros_sorted bs (lo + 1)⟩
      have := (mem_zeros.1 hi).1
      omega
    · exact zeros_sorted bs (lo + 1)

theorem zeros_eq : ∀ (bits : List Nat) (lo : Nat), zeros bits lo =
    (((List.range bits.length).filter fun j => bits[j]? = some 0).map fun j => lo + j)
  | [], _ => rfl
  | b :: bs, lo => by
    simp only [zeros, List.length_cons, List.range_succ_eq_map, List.filter_cons, List.filter_map]
    rw [zeros_eq bs (lo + 1)]
    by_cases hb : b = 0
    · simp [hb, Function.comp_def]
      intro a _ _; omega
    · simp [hb, Function.comp_def]
      intro a _ _; omega

end Flat
end Gobufr
