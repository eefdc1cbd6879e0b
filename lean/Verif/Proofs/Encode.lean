import Verif.Spec.Encode
import Verif.Props.PayloadTree
import Verif.Props.Unpack
import Verif.Proofs.Header

/-!
# Lemmas for C88: reading what was written
-/

set_option linter.unusedSimpArgs false

namespace Gobufr
namespace EncodeSpec
open Spec UnpackSpec Flat

variable {F τ : Type} {c : VisCfg} {At : List τ → Reader F → Prop}

/-- The item of a column. -/
def itemOf (col : Column F) : Datum F := ⟨col.desc, col.info, col.vals⟩

/-- A bitmap of the decoder holds the bits. -/
def MapAt [GoFloat F] (f : State F) (i : Option Nat) (bits : Option (List Nat)) : Prop :=
  ∀ l, bits = some l → ∃ b bm, i = some b ∧ f.bitmaps[b]? = some bm ∧ BitsAt f.cols bm l

/-- The decoder state agrees with the context. -/
structure Agrees [GoFloat F] (f : State F) (x : Ctx) : Prop where
  nbitsOffset : f.nbitsOffset = if x.ops.y201 = 0 then 0 else x.ops.y201 - 128
  scaleOffset : f.scaleOffset = if x.ops.y202 = 0 then 0 else x.ops.y202 - 128
  nbitsIncrement : f.nbitsIncrement = (10 * x.ops.y207 + 2).tdiv 3
  scaleIncrement : f.scaleIncrement = x.ops.y207
  refvalFactor : f.refvalFactor = x.ops.y207
  nbitsString : f.nbitsString = 8 * x.ops.y208
  assoc : f.assoc.map Assoc.nbits = x.assoc
  seen : f.cols.map Column.desc = x.seen
  backref : f.backref = match x.back with | none => -1 | some n => (n : Int) - 1
  pos : ∀ n, x.back = some n → 0 < n
  targets : f.targets = x.targets
  current : MapAt f f.current x.current
  reusable : MapAt f f.reusable x.reusable
  subsets : f.subsets ≠ some 0

/-- The value is what was written. -/
def Fits : Option Nat → Unpacked F → List (Val F) → Prop
  | none, .plain v, vs => vs = [v]
  | some _, .compressed cv, vs => vs = cv.values
  | _, _, _ => False

/-- What is written is read; `At l r` says that the reader `r` has `l` before it. -/
def Reads [GoFloat F] (c : VisCfg) (At : List τ → Reader F → Prop) (W : Wire F τ) (k : Option Nat) : Prop :=
  ∀ info b vs, W info b vs → ∀ (t : List τ) (r : Reader F), At (b ++ t) r → ∃ v r',
    c.unpacker.unpack info r = (.ok v, r') ∧ At t r' ∧ Fits k v vs

/-- `m` reads the bits and adds the items. -/
def Runs [GoFloat F] (At : List τ → Reader F → Prop) (k : Option Nat) (m : M (State F) Unit) (x : Ctx) (bits : List τ) (is : List (Datum F)) (y : Ctx) :
    Prop :=
  ∀ (f : State F) (t : List τ), Agrees f x → f.subsets = k → At (bits ++ t) f.r →
    ∃ f', m f = (.ok (), f') ∧ At t f'.r ∧ f'.cols.map itemOf = f.cols.map itemOf ++ is ∧
      Agrees f' y ∧ f'.subsets = k

theorem items_desc (cols : List (Column F)) : (cols.map itemOf).map Datum.desc = cols.map Column.desc := by
  simp [Function.comp_def, itemOf]

theorem items_length {cols cols' : List (Column F)} {is : List (Datum F)} (h : cols'.map itemOf = cols.map itemOf ++ is) :
    cols'.length = cols.length + is.length := by
  have := congrArg List.length h
  simpa using this

theorem items_modify (cols : List (Column F)) (i : Nat) (l : List (Option Nat)) :
    (cols.modify i fun x => { x with attrs := x.attrs ++ l }).map itemOf = cols.map itemOf := by
  apply List.ext_getElem?
  intro k
  simp only [List.getElem?_map, List.getElem?_modify]
  cases cols[k]? with
  | none => rfl
  | some x => by_cases h : i = k <;> simp [h, itemOf]

theorem bitsAt_items [GoFloat F] {cols cols' : List (Column F)} {new : List (Datum F)}
    (h : cols'.map itemOf = cols.map itemOf ++ new) {b : Bitmap} {bits : List Nat} (hb : BitsAt cols b bits) :
    BitsAt cols' b bits := by
  refine ⟨hb.length, fun j n hj => ?_⟩
  obtain ⟨k, col, v, h1, h2, h3, h4⟩ := hb.bit j n hj
  have e := congrArg (fun l => l[k]?) h
  have hk : k < (cols.map itemOf).length := by
    rw [List.length_map]
    exact (List.getElem?_eq_some_iff.1 h2).1
  simp only [List.getElem?_append_left hk, List.getElem?_map, h2, Option.map_some] at e
  cases hc : cols'[k]? with
  | none => rw [hc] at e; simp at e
  | some col' =>
    rw [hc] at e
    simp only [Option.map_some, Option.some.injEq] at e
    have ev : col'.vals = col.vals := congrArg Datum.vals e
    exact ⟨k, col', v, h1, hc, (congrArg List.head? ev).trans h3, h4⟩

theorem mapAt_items [GoFloat F] {f f' : State F} {new : List (Datum F)} (h : f'.cols.map itemOf = f.cols.map itemOf ++ new)
    (hb : f'.bitmaps = f.bitmaps) {i : Option Nat} {bits : Option (List Nat)} (hm : MapAt f i bits) : MapAt f' i bits := by
  intro l hl
  obtain ⟨b, bm, h1, h2, h3⟩ := hm l hl
  exact ⟨b, bm, h1, by rw [hb]; exact h2, bitsAt_items h h3⟩

/-- New columns. -/
theorem Agrees.add [GoFloat F] {f f' : State F} {x : Ctx} {is : List (Datum F)} (h : Agrees f x) (r : Reader F)
    (cols : List (Column F)) (hf : f' = { f with r := r, cols := cols }) (hc : cols.map itemOf = f.cols.map itemOf ++ is) :
    Agrees f' (x.add is) := by
  subst hf
  refine { h with seen := ?_, current := ?_, reusable := ?_ }
  · have := congrArg (List.map Datum.desc) hc
    rw [List.map_append, items_desc, items_desc, h.seen] at this
    exact this
  · exact mapAt_items (f := f) (f' := { f with r := r, cols := cols }) hc rfl h.current
  · exact mapAt_items (f := f) (f' := { f with r := r, cols := cols }) hc rfl h.reusable

/-- Attributes do not matter. -/
theorem Agrees.cols [GoFloat F] {f f' : State F} {x : Ctx} (h : Agrees f x) (cols : List (Column F))
    (hf : f' = { f with cols := cols }) (hc : cols.map itemOf = f.cols.map itemOf) : Agrees f' x := by
  have := h.add (is := []) f.r cols (f' := f') hf (by simpa using hc)
  simpa [Ctx.add] using this

theorem Runs.seq [GoFloat F] {k : Option Nat} {m n : M (State F) Unit} {x y z : Ctx} {b1 b2 : List τ} {i1 i2 : List (Datum F)}
    (h1 : Runs At k m x b1 i1 z) (h2 : Runs At k n z b2 i2 y) : Runs At k (m >>= fun _ => n) x (b1 ++ b2) (i1 ++ i2) y := by
  intro f t ha hk hr
  rw [List.append_assoc] at hr
  obtain ⟨g, e1, r1, c1, a1, k1⟩ := h1 f _ ha hk hr
  obtain ⟨f', e2, r2, c2, a2, k2⟩ := h2 g _ a1 k1 r1
  exact ⟨f', by rw [M.bind_ok e1, e2], r2, by rw [c2, c1, List.append_assoc], a2, k2⟩

theorem Runs.pure [GoFloat F] {k : Option Nat} {x : Ctx} : Runs (F := F) At k (Pure.pure ()) x [] [] x := by
  intro f t ha hk hr
  exact ⟨f, rfl, by simpa using hr, by simp, ha, hk⟩

theorem build_coded [GoFloat F] {W : Wire F τ} {k : Option Nat} (hW : Reads c At W k) {f : State F} (hk : f.subsets = k)
    (h0 : f.subsets ≠ some 0) {info : PackingInfo F} {b : List τ} {vs : List (Val F)} (hw : W info b vs) {t : List τ}
    (hr : At (b ++ t) f.r) (d : NodeDesc) :
    ∃ col r, build c d info f = (.ok f.cols.length, { f with r := r, cols := f.cols ++ [col] }) ∧ At t r ∧
      itemOf col = ⟨d, info, vs⟩ := by
  obtain ⟨v, r, h1, h3, h2⟩ := hW info b vs hw t f.r hr
  have hz : M.zoom State.r (fun r f => { f with r := r }) (c.unpacker.unpack info) f = (.ok v, { f with r := r }) := by
    unfold M.zoom
    rw [h1]
  subst hk
  unfold build
  cases hs : f.subsets with
  | none =>
    rw [hs] at h2
    cases v with
    | plain v =>
      simp only [Fits] at h2
      subst h2
      refine ⟨⟨d, info, .nil, 0, [], [v]⟩, r, (M.bind_ok hz).trans ?_, h3, rfl⟩
      simp only [hs]
    | compressed cv => exact h2.elim
  | some n =>
    rw [hs] at h2
    cases n with
    | zero => exact absurd hs h0
    | succ n =>
      cases v with
      | plain v => exact h2.elim
      | compressed cv =>
        simp only [Fits] at h2
        subst h2
        refine ⟨⟨d, info, cv.minValue, cv.nbitsDiff, [], cv.values⟩, r, (M.bind_ok hz).trans ?_, h3, rfl⟩
        simp only [hs]

theorem build_runs [GoFloat F] {W : Wire F τ} {k : Option Nat} (hW : Reads c At W k) {info : PackingInfo F} {b : List τ}
    {vs : List (Val F)} (hw : W info b vs) (d : NodeDesc) (x : Ctx) :
    Runs At k (do let _ ← build c d info; Pure.pure ()) x b [⟨d, info, vs⟩] (x.add [(⟨d, info, vs⟩ : Datum F)]) := by
  intro f t ha hk hr
  obtain ⟨col, r, h1, h3, h2⟩ := build_coded hW hk ha.subsets hw hr d
  refine ⟨_, M.bind_ok h1 (f := fun _ => Pure.pure ()), h3, ?_, ha.add _ _ rfl ?_, hk⟩ <;> simp [h2]

theorem packing_agrees [GoFloat F] {f : State F} {x : Ctx} (h : Agrees f x) {d : Desc} {e : Bentry} (he : d.entry = .b e) :
    f.packing (some d) = .ok (x.ops.packing e) := by
  unfold State.packing Operands.packing
  simp only [he]
  have h1 := h.nbitsOffset
  have h2 := h.scaleOffset
  have h3 := h.nbitsIncrement
  have h4 := h.scaleIncrement
  have h5 := h.refvalFactor
  have h6 := h.nbitsString
  cases hu : e.unit <;> simp only [hu, h1, h2, h3, h4, h5]
  by_cases h0 : x.ops.y208 = 0
  · simp [h0, h6]
  · rw [if_neg h0, if_pos (by omega), h6]

theorem assocs_coded [GoFloat F] {W : Wire F τ} {k : Option Nat} (hW : Reads c At W k) {d : Desc} : ∀ {as : List Assoc} {ws : List Int}
    {b : List τ} {is : List (Datum F)}, Assocs W d ws b is → as.map Assoc.nbits = ws → ∀ {f : State F}, f.subsets = k →
    f.subsets ≠ some 0 → ∀ {t : List τ}, At (b ++ t) f.r →
    ∃ (js : List Nat) (cols : List (Column F)) (r : Reader F),
      buildAssocs c d as f = (.ok js, { f with r := r, cols := cols }) ∧ At t r ∧
      cols.map itemOf = f.cols.map itemOf ++ is := by
  intro as ws b is h
  induction h generalizing as with
  | nil =>
    intro ha f hk h0 t hr
    cases as with
    | nil => exact ⟨[], f.cols, f.r, by simp only [buildAssocs, M.pure_apply], hr, by simp⟩
    | cons a as => simp at ha
  | @cons w ws b bs vs is hw hrest ih =>
    intro ha f hk h0 t hr
    cases as with
    | nil => simp at ha
    | cons a as =>
      simp only [List.map_cons, List.cons.injEq] at ha
      obtain ⟨rfl, ha⟩ := ha
      rw [List.append_assoc] at hr
      obtain ⟨col, r, h1, hr', h2⟩ := build_coded hW hk h0 hw hr ⟨some d, true⟩
      simp only [buildAssocs]
      have h1' : build c ⟨some d, true⟩ (Vis.plainInfo .nonnegCode a.nbits) f = _ := h1
      rw [M.bind_ok h1']
      let g : State F := { f with r := r, cols := (f.cols ++ [col]).modify f.cols.length fun x => { x with attrs := x.attrs ++ [a.sig] } }
      have h3 : attachTo f.cols.length a.sig { f with r := r, cols := f.cols ++ [col] } = (.ok (), g) := rfl
      rw [M.bind_ok h3]
      obtain ⟨js, cols, r', h4, h6, h5⟩ := ih ha (f := g) hk h0 hr'
      rw [M.bind_ok h4]
      refine ⟨f.cols.length :: js, cols, r', ?_, h6, ?_⟩
      · simp only [M.pure_apply]
        simp [g]
      · rw [h5]
        have : g.cols.map itemOf = f.cols.map itemOf ++ [itemOf col] := by
          show ((f.cols ++ [col]).modify _ _).map itemOf = _
          rw [items_modify]
          simp
        rw [this, h2]
        simp [Vis.plainInfo, bare]

theorem element_runs [GoFloat F] {W : Wire F τ} {k : Option Nat} (hW : Reads c At W k) {x : Ctx} {d : Desc} {e : Bentry} {ab vb : List τ}
    {as : List (Datum F)} {vs : List (Val F)} (he : d.entry = .b e)
    (ha : Assocs W d (if d.id.X = 31 then [] else x.assoc) ab as) (hw : W (x.ops.packing e) vb vs) :
    Runs At k (visit c (.element d false)) x (ab ++ vb) (as ++ [⟨⟨some d, false⟩, x.ops.packing e, vs⟩])
      (x.add (as ++ [⟨⟨some d, false⟩, x.ops.packing e, vs⟩])) := by
  intro f t hag hk hr
  simp only [visit, Bool.false_eq_true, if_false]
  rw [List.append_assoc] at hr
  obtain ⟨js, cols, r, h1, hr1, h2⟩ := assocs_coded hW (as := if d.id.X = 31 then [] else f.assoc) ha (by
    by_cases h : d.id.X = 31
    · simp [h]
    · simp [h, hag.assoc]) hk hag.subsets hr
  have h1' : elementAssocs c d f = (.ok js, { f with r := r, cols := cols }) := h1
  rw [M.bind_ok h1']
  let g : State F := { f with r := r, cols := cols }
  have hg : Agrees g (x.add as) := hag.add _ _ rfl h2
  obtain ⟨col, r', h3, hr2, h4⟩ := build_coded hW (f := g) hk hag.subsets hw hr1 ⟨some d, false⟩
  have h5 : buildElement c d g = (.ok cols.length, { g with r := r', cols := g.cols ++ [col] }) := by
    unfold buildElement
    exact (query_bind (q := fun f : State F => f.packing (some d)) (packing_agrees hg he) _).trans h3
  rw [M.bind_ok h5]
  rw [attachAll_eq]
  have hcols : (((g.cols ++ [col]).modify cols.length fun x => { x with attrs := x.attrs ++ js.map some })).map itemOf =
      f.cols.map itemOf ++ (as ++ [⟨⟨some d, false⟩, x.ops.packing e, vs⟩]) := by
    rw [items_modify, List.map_append, List.map_cons, List.map_nil, h4]
    show cols.map itemOf ++ _ = _
    rw [h2, List.append_assoc]
  exact ⟨_, rfl, hr2, hcols, hag.add _ _ rfl hcols, hk⟩

theorem zero_runs [GoFloat F] {W : Wire F τ} {k : Option Nat} (hW : Reads c At W k) {x : Ctx} {d : Desc} {zb : List τ}
    {zs : List (Datum F)} (hz : Zero W c.compatible d zb zs) : Runs At k (buildZero c d) x zb zs (x.add zs) := by
  cases hz with
  | off h =>
    unfold buildZero
    rw [h]
    have : x.add ([] : List (Datum F)) = x := by simp [Ctx.add]
    rw [this]
    exact Runs.pure
  | @on _ vs h hw =>
    unfold buildZero
    rw [if_pos h]
    intro f t ha hk hr
    obtain ⟨f', h1, h2⟩ := build_runs hW hw ⟨some d, false⟩ x f t ha hk hr
    refine ⟨f', ?_, h2⟩
    unfold M.ignoreErr
    have h1' : (do let _ ← build c ⟨some d, false⟩ (Vis.plainInfo .nonnegCode 0); Pure.pure () : M (State F) Unit) f = _ := h1
    rw [h1']

theorem significance_runs [GoFloat F] {W : Wire F τ} {k : Option Nat} (hW : Reads c At W k) {x : Ctx} {d : Desc} {e : Bentry}
    {vb : List τ} {vs : List (Val F)} (he : d.entry = .b e) (hw : W (x.ops.packing e) vb vs) :
    Runs At k (visit c (.e031021 d)) x vb [⟨⟨some d, false⟩, x.ops.packing e, vs⟩]
      (x.add [(⟨⟨some d, false⟩, x.ops.packing e, vs⟩ : Datum F)]) := by
  intro f t hag hk hr
  simp only [visit]
  obtain ⟨col, r, h3, hr1, h4⟩ := build_coded hW hk hag.subsets hw hr ⟨some d, false⟩
  have h5 : buildElement c d f = (.ok f.cols.length, { f with r := r, cols := f.cols ++ [col] }) := by
    unfold buildElement
    exact (query_bind (q := fun f : State F => f.packing (some d)) (packing_agrees hag he) _).trans h3
  rw [M.bind_ok h5]
  have hcols : (f.cols ++ [col]).map itemOf = f.cols.map itemOf ++ [⟨⟨some d, false⟩, x.ops.packing e, vs⟩] := by simp [h4]
  have hg := hag.add (f' := { f with r := r, cols := f.cols ++ [col] }) _ _ rfl hcols
  refine ⟨_, rfl, hr1, hcols, { hg with assoc := ?_ }, hk⟩
  rw [← hg.assoc]
  have : ∀ (i : Nat) (l : List Assoc), (setSig i l).map Assoc.nbits = l.map Assoc.nbits := by
    intro i l
    induction l with
    | nil => rfl
    | cons a l ih => cases l <;> simp_all [setSig]
  exact this _ _

/-- The step that reads the factor of a delayed replication. -/
theorem delayed_step [GoFloat F] {k : Option Nat} {factor block rest : M (State F) Unit} {x z : Ctx} {fb : List τ}
    {fs : List (Datum F)} {v : Val F} {vs : List (Val F)} {n : Nat} {it : Datum F} (h1 : Runs At k factor x fb fs z)
    (hl : fs.getLast? = some it) (hv : it.vals = v :: vs) (hall : ∀ w ∈ vs, Alike v w) (hn : numberOf v = some n)
    {f : State F} {t : List τ} (ha : Agrees f x) (hk : f.subsets = k) (hr : At (fb ++ t) f.r) :
    ∃ g, (delayed factor block >>= fun _ => rest) f = (Vis.repeatM block n >>= fun _ => rest) g ∧ At t g.r ∧
      g.cols.map itemOf = f.cols.map itemOf ++ fs ∧ Agrees g z ∧ g.subsets = k ∧ factor f = (.ok (), g) := by
  obtain ⟨g, e1, r1, c1, a1, k1⟩ := h1 f _ ha hk hr
  have hlast : ∃ col, g.cols[g.cols.length - 1]? = some col ∧ itemOf col = it := by
    have : (g.cols.map itemOf).getLast? = some it := by
      rw [c1, List.getLast?_append, hl]
      rfl
    rw [List.getLast?_map] at this
    cases hc : g.cols.getLast? with
    | none => rw [hc] at this; simp at this
    | some col =>
      rw [hc] at this
      rw [List.getLast?_eq_getElem?] at hc
      exact ⟨col, hc, by simpa using this⟩
  obtain ⟨col, hcol, hit⟩ := hlast
  have hlt := (List.getElem?_eq_some_iff.1 hcol).1
  have hi : index g.cols ((g.cols.length : Int) - 1) = .ok col := by
    have := index_some hcol
    rwa [show ((g.cols.length - 1 : Nat) : Int) = (g.cols.length : Int) - 1 by omega] at this
  have hcv : col.vals = v :: vs := by rw [← hv, ← hit]; rfl
  have hb : NotBytes v := by
    intro b hb
    rw [hb] at hn
    simp [numberOf] at hn
  have hq1 : g.lastEqual = .ok true := by
    unfold State.lastEqual
    cases g.subsets with
    | none => rfl
    | some m =>
      simp only []
      rw [hi]
      simp only [Outcome.bind_ok, hcv]
      obtain ⟨b, h2, h3⟩ := allEqual_iff hb vs
      rw [h2, h3.2 hall]
  have hq2 : g.len = .ok (g.cols.length : Int) := by
    unfold State.len
    rw [if_neg a1.subsets]
  have hq3 : g.value ((g.cols.length : Int) - 1) = .ok v := by
    unfold State.value
    rw [hi]
    simp [hcv]
  refine ⟨g, ?_, r1, c1, a1, k1, e1⟩
  rw [M.bind_apply, delayed_eq e1 hq1 hq2 hq3 ((Gobufr.uintValue_eq _ _ _).2 hn), ← M.bind_apply]

theorem delayed_runs [GoFloat F] {k : Option Nat} {factor block rest : M (State F) Unit} {x z y : Ctx} {fb bs : List τ}
    {fs is : List (Datum F)} {v : Val F} {vs : List (Val F)} {n : Nat} {it : Datum F} (h1 : Runs At k factor x fb fs z)
    (hl : fs.getLast? = some it) (hv : it.vals = v :: vs) (hall : ∀ w ∈ vs, Alike v w) (hn : numberOf v = some n)
    (h2 : Runs At k (Vis.repeatM block n >>= fun _ => rest) z bs is y) :
    Runs At k (delayed factor block >>= fun _ => rest) x (fb ++ bs) (fs ++ is) y := by
  intro f t ha hk hr
  rw [List.append_assoc] at hr
  obtain ⟨g, e1, r1, c1, a1, k1, -⟩ := delayed_step (block := block) (rest := rest) h1 hl hv hall hn ha hk hr
  obtain ⟨f', e2, r2, c2, a2, k2⟩ := h2 g _ a1 k1 r1
  refine ⟨f', e1.trans e2, r2, ?_, a2, k2⟩
  rw [c2, c1, List.append_assoc]

theorem Runs.of_eq [GoFloat F] {k : Option Nat} {m n : M (State F) Unit} {x y : Ctx} {bs : List τ} {is : List (Datum F)}
    (h : Runs At k m x bs is y) (e : n = m) : Runs At k n x bs is y := e ▸ h

theorem keeps_apart [GoFloat F] : Keeps (F := F) c (fun n => ofBitmaps n = false) fun f f' =>
    f'.bitmaps = f.bitmaps ∧ f'.current = f.current ∧ f'.reusable = f.reusable ∧ f'.backref = f.backref where
  refl f := ⟨rfl, rfl, rfl, rfl⟩
  trans f g h h1 h2 := ⟨h2.1.trans h1.1, h2.2.1.trans h1.2.1, h2.2.2.1.trans h1.2.2.1, h2.2.2.2.trans h1.2.2.2⟩
  build d info f i f' h := by
    obtain ⟨_, v, col, r, _, _, _, _, _, rfl⟩ := build_ok h
    exact ⟨rfl, rfl, rfl, rfl⟩
  zero d f f' h := by
    obtain ⟨r, cols, rfl⟩ := zero_fields h
    exact ⟨rfl, rfl, rfl, rfl⟩
  attach _ _ _ := ⟨rfl, rfl, rfl, rfl⟩
  setSig _ _ _ _ := ⟨rfl, rfl, rfl, rfl⟩
  assocField _ _ _ _ _ := ⟨rfl, rfl, rfl, rfl⟩
  targets _ _ := ⟨rfl, rfl, rfl, rfl⟩
  nbitsOffset _ _ _ _ := ⟨rfl, rfl, rfl, rfl⟩
  scaleOffset _ _ _ _ := ⟨rfl, rfl, rfl, rfl⟩
  modifyPacking _ _ _ _ _ _ := ⟨rfl, rfl, rfl, rfl⟩
  setStringLength _ _ _ _ := ⟨rfl, rfl, rfl, rfl⟩
  newAssessment d bm as ms _ _ h _ := by cases h
  cancelBackRef _ _ h := by cases h
  cancelBitmap _ _ h := by cases h
  newBitmap d ms _ _ h _ _ := by cases h
  endBitmap d ms _ _ h _ _ := by cases h
  recall d ms _ h _ := by cases h

/-- Members of a bitmap leave the bitmaps alone. -/
theorem apart_frame [GoFloat F] {ms : List Ast} (hm : apart ms = true) {f f' : State F} (h : visitL c ms f = (.ok (), f')) :
    f'.bitmaps = f.bitmaps ∧ f'.current = f.current ∧ f'.reusable = f.reusable ∧ f'.backref = f.backref := by
  refine keeps_apart.visitL ms (fun n hn => ?_) f () f' h
  have := List.all_eq_true.1 hm n hn
  simpa using this

theorem bitmap_runs [GoFloat F] {W : Wire F τ} {k : Option Nat} (hW : Reads c At W k) {x z : Ctx} {zb bb : List τ}
    {zs bi : List (Datum F)} {d : Desc} {ms : List Ast} {bits : List Nat} (hd : d.id ≠ 237000) (hms : apart ms = true)
    (hz : Zero W c.compatible d zb zs)
    (h : Runs At k (visitL c ms) { x.add zs with current := none, reusable := none } bb bi z)
    (hb : bi.map (fun i => i.vals.head?.bind numberOf) = bits.map some) :
    Runs At k (visit c (.bitmap (some d) ms)) x (zb ++ bb) (zs ++ bi)
      { z with current := some bits, reusable := some bits } := by
  intro f t ha hk hr
  obtain ⟨f0, e0, r0, c0, a0, k0⟩ := zero_runs hW hz f (bb ++ t) ha hk (by simpa using hr)
  have hlen : f0.len = .ok (f0.cols.length : Int) := by
    unfold State.len
    rw [if_neg a0.subsets]
  let f1 : State F := { f0 with
    bitmaps := f0.bitmaps ++ [{ index0 := f0.cols.length }]
    current := some f0.bitmaps.length
    reusable := some f0.bitmaps.length }
  have e1 : newBitmap f0 = (.ok (), f1) := (query_bind (q := fun f : State F => f.len) hlen _).trans rfl
  simp only [visit]
  unfold bitmapDef
  simp only []
  rw [M.bind_ok e0, if_neg hd]
  rw [M.bind_ok e1]
  have a1 : Agrees f1 { x.add zs with current := none, reusable := none } :=
    { a0 with current := fun l hl => (by cases hl), reusable := fun l hl => (by cases hl) }
  obtain ⟨f2, e2, r2, c2, a2, k2⟩ := h f1 t a1 k0 r0
  obtain ⟨hbm, hcur, hreu, -⟩ := apart_frame hms e2
  change f2.bitmaps = f0.bitmaps ++ [{ index0 := f0.cols.length }] at hbm
  change f2.current = some f0.bitmaps.length at hcur
  change f2.reusable = some f0.bitmaps.length at hreu
  have hlen2 : f2.len = .ok (f2.cols.length : Int) := by
    unfold State.len
    rw [if_neg a2.subsets]
  let f3 : State F := { f2 with bitmaps := f2.bitmaps.modify f0.bitmaps.length fun x => { x with index1 := f2.cols.length } }
  have e3 : endBitmap f2 = (.ok (), f3) := by
    unfold endBitmap
    simp only [hlen2, hcur, f3]
  have hcl : f2.cols.map itemOf = f0.cols.map itemOf ++ bi := c2
  have hmap : BitsAt f2.cols ⟨f0.cols.length, f2.cols.length⟩ bits := by
    have hl := items_length hcl
    have hlb : bits.length = bi.length := by simpa using (congrArg List.length hb).symm
    refine ⟨by simp only; omega, fun j n hj => ?_⟩
    have hjb : (bi.map fun i => i.vals.head?.bind numberOf)[j]? = some (some n) := by rw [hb]; simp [hj]
    have hjlt : j < bi.length := by
      have := (List.getElem?_eq_some_iff.1 hj).1
      omega
    have hcol : (f2.cols.map itemOf)[f0.cols.length + j]? = some bi[j] := by
      rw [hcl, List.getElem?_append_right (by simp)]
      simp [hjlt]
    rw [List.getElem?_map, List.getElem?_eq_getElem hjlt] at hjb
    simp only [Option.map_some, Option.some.injEq] at hjb
    obtain ⟨v, hv1, hv2⟩ := Option.bind_eq_some_iff.1 hjb
    rw [List.getElem?_map] at hcol
    obtain ⟨col, hc1, hc2⟩ := Option.map_eq_some_iff.1 hcol
    refine ⟨f0.cols.length + j, col, v, by simp, hc1, ?_, hv2⟩
    rw [← hc2] at hv1
    exact hv1
  have hb3 : f3.bitmaps[f0.bitmaps.length]? = some ⟨f0.cols.length, f2.cols.length⟩ := by
    show (f2.bitmaps.modify _ _)[_]? = _
    rw [hbm]
    simp [List.getElem?_modify]
  refine ⟨f3, M.deferDo_ok e2 e3, r2, ?_, ?_, k2⟩
  · show f2.cols.map itemOf = _
    rw [hcl, c0, List.append_assoc]
  · refine { a2 with current := fun l hl => ?_, reusable := fun l hl => ?_ }
    · cases hl
      exact ⟨_, _, hcur, hb3, hmap⟩
    · cases hl
      exact ⟨_, _, hreu, hb3, hmap⟩

theorem recall_runs [GoFloat F] {W : Wire F τ} {k : Option Nat} (hW : Reads c At W k) {x : Ctx} {zb : List τ} {zs : List (Datum F)}
    {d : Desc} {ms : List Ast} (hd : d.id = 237000) (hz : Zero W c.compatible d zb zs) :
    Runs At k (visit c (.bitmap (some d) ms)) x zb zs { x.add zs with current := x.reusable } := by
  intro f t ha hk hr
  obtain ⟨f0, e0, r0, c0, a0, k0⟩ := zero_runs hW hz f t ha hk hr
  simp only [visit]
  unfold bitmapDef
  simp only []
  rw [M.bind_ok e0, if_pos hd]
  exact ⟨{ f0 with current := f0.reusable }, rfl, r0, c0, { a0 with current := a0.reusable }, k0⟩

theorem not_225 {z : Int} (h : z.tdiv 100000 = 0) : ¬ z.tdiv 1000 = 225 := by
  intro h'
  have h1 := Int.mul_tdiv_add_tmod z 1000
  have h2 := Int.mul_tdiv_add_tmod z 100000
  have h3 := Int.tmod_lt_of_pos z (show (0 : Int) < 100000 by decide)
  have h4 := Int.lt_tmod_of_pos z (show (0 : Int) < 1000 by decide)
  rw [h'] at h1
  rw [h] at h2
  omega

theorem marker_runs [GoFloat F] {W : Wire F τ} {k : Option Nat} (hW : Reads c At W k) {x : Ctx} {d td : Desc} {a : Bool} {e : Bentry} {t : Nat}
    {rest : List Nat} {vb : List τ} {vs : List (Val F)} (ht : x.targets = t :: rest)
    (hs : x.seen[t]? = some ⟨some td, a⟩) (h0 : td.id.F = 0) (he : td.entry = .b e) (hw : W (x.ops.packing e) vb vs) :
    Runs At k (visit c (.marker d)) x vb [⟨⟨some d, false⟩, x.ops.packing e, vs⟩]
      ({ x with targets := rest }.add [(⟨⟨some d, false⟩, x.ops.packing e, vs⟩ : Datum F)]) := by
  intro f t' ha hk hr
  simp only [visit]
  unfold marker
  let f1 : State F := { f with targets := rest }
  have a1 : Agrees f1 { x with targets := rest } := { ha with targets := rfl }
  have e1 : (fun f : State F => match f.targets with
    | [] => (.panic "index out of range", f)
    | t :: ts => (.ok t, { f with targets := ts }) : M (State F) Nat) f = (.ok t, f1) := by
    simp only [ha.targets, ht]
    rfl
  refine (?_ : ∃ f', _ = _ ∧ _)
  have hdesc : f.cols[t]?.map Column.desc = some ⟨some td, a⟩ := by
    rw [← hs, ← ha.seen, List.getElem?_map]
  obtain ⟨col0, hc1, hc2⟩ := Option.map_eq_some_iff.1 hdesc
  have hop : ¬ (some td).map (fun x : Desc => x.id.Operator) = some 225 := by
    simp only [Option.map_some, Option.some.injEq]
    exact not_225 h0
  obtain ⟨f', h1, h2⟩ := build_runs hW hw ⟨some d, false⟩ { x with targets := rest } f1 t' a1 hk hr
  refine ⟨f', ?_, h2⟩
  refine (M.bind_ok e1).trans ?_
  refine (query_bind (s := f1) (a := some td) (q := fun f : State F => match f.cols[t]? with
    | some col => (.ok col.desc.d : Outcome (Option Desc))
    | none => .panic "does not occur: targets are valued nodes") (by
      show (match f.cols[t]? with
        | some col => (.ok col.desc.d : Outcome (Option Desc))
        | none => .panic "does not occur: targets are valued nodes") = _
      rw [hc1]
      simp only [hc2]) _).trans ?_
  refine (query_bind (q := fun f : State F => f.packing (some td)) (packing_agrees a1 he) _).trans ?_
  simp only []
  rw [if_neg hop]
  exact h1

theorem newAssessment_runs [GoFloat F] {k : Option Nat} {x : Ctx} (h0 : 0 < x.back.getD x.seen.length) :
    Runs (F := F) At k newAssessment x [] [] { x with back := some (x.back.getD x.seen.length) } := by
  intro f t ha hk hr
  have hlen : f.len = .ok (f.cols.length : Int) := by
    unfold State.len
    rw [if_neg ha.subsets]
  unfold newAssessment
  have hb := ha.backref
  cases hx : x.back with
  | none =>
    rw [hx] at hb h0
    simp only [Option.getD_none] at hb h0 ⊢
    simp only [hb, if_true, hlen]
    refine ⟨_, rfl, by simpa using hr, by simp, { ha with backref := ?_, pos := ?_ }, hk⟩
    · simp [← ha.seen]
    · intro n hn
      cases hn
      exact h0
  | some n =>
    rw [hx] at hb h0
    simp only [Option.getD_some] at hb h0 ⊢
    rw [if_neg (by omega)]
    refine ⟨f, rfl, by simpa using hr, by simp, ?_, hk⟩
    rw [← hx]
    exact ha

theorem added_runs [GoFloat F] {k : Option Nat} {m : M (State F) Unit} {x y : Ctx} {bs : List τ} {is : List (Datum F)}
    (h : Runs At k m x bs is y) {f : State F} {t : List τ} (ha : Agrees f x) (hk : f.subsets = k)
    (hr : At (bs ++ t) f.r) :
    ∃ f', added m f = (.ok (List.range' f.cols.length is.length), f') ∧ At t f'.r ∧
      f'.cols.map itemOf = f.cols.map itemOf ++ is ∧ Agrees f' y ∧ f'.subsets = k := by
  obtain ⟨f', h1, h2, h3, h4, h5⟩ := h f t ha hk hr
  refine ⟨f', ?_, h2, h3, h4, h5⟩
  have hlen : f.len = .ok (f.cols.length : Int) := by
    unfold State.len
    rw [if_neg ha.subsets]
  have hlen' : f'.len = .ok (f'.cols.length : Int) := by
    unfold State.len
    rw [if_neg h4.subsets]
  unfold added
  refine (query_bind (q := fun f : State F => f.len) hlen _).trans ?_
  refine (M.bind_ok h1).trans ?_
  refine (query_bind (q := fun f : State F => f.len) hlen' _).trans ?_
  have hl := items_length h3
  simp only [M.pure_apply, Prod.mk.injEq, Outcome.ok.injEq, and_true]
  congr 1
  omega

theorem selectTargets_runs [GoFloat F] {f : State F} {x : Ctx} (ha : Agrees f x) {bits : List Nat} {n : Nat}
    (hc : x.current = some bits) (hb : x.back = some n) (h0 : bits ≠ []) (hn : bits.length ≤ n) :
    selectTargets f = (.ok (selected bits n), { f with targets := selected bits n }) := by
  obtain ⟨b, bm, h1, h2, h3⟩ := ha.current bits hc
  have hbits : f.bits = .ok bits := by
    unfold State.bits
    rw [h1]
    simp only [Option.bind_some, h2]
    have hl := h3.length
    rw [if_neg (by omega)]
    exact bitsOf_eq (by omega) h3.bit
  have hr : f.backref + 1 = n := by
    rw [ha.backref, hb]
    simp
  unfold selectTargets
  refine (query_bind (q := fun f : State F => f.bits) hbits _).trans ?_
  refine (query_bind (q := fun f : State F => (.ok (f.backref + 1) : Outcome Int)) rfl _).trans ?_
  rw [hr]
  rw [if_neg (by
    rintro (h | h)
    · omega
    · exact h0 h.1)]
  simp only [Int.toNat_natCast]
  rw [zeros_selected]
  rfl

theorem attachSources_eq (as : List Nat) : ∀ (ss ts : List Nat) (f : State F), ss.length ≤ ts.length →
    ∃ cols, attachSources as ss ts f = (.ok (), { f with cols := cols }) ∧ cols.map itemOf = f.cols.map itemOf
  | [], _, f, _ => ⟨f.cols, rfl, rfl⟩
  | _ :: _, [], f, h => by simp at h
  | s :: ss, t :: ts, f, h => by
    simp only [Flat.attachSources]
    have e1 : attachTo t (some s) f = (.ok (), { f with cols := f.cols.modify t fun x => { x with attrs := x.attrs ++ [some s] } }) := rfl
    rw [M.bind_ok e1, M.bind_ok (attachAll_eq s as _)]
    obtain ⟨cols, h1, h2⟩ := attachSources_eq as ss ts _ (by simpa using h)
    refine ⟨cols, h1, h2.trans ?_⟩
    rw [items_modify, items_modify]

theorem assessment_runs [GoFloat F] {W : Wire F τ} {k : Option Nat} (hW : Reads c At W k) {x x1 x2 x3 : Ctx}
    {bm as ms : M (State F) Unit} {zb b1 b2 b3 : List τ} {zs i1 i2 i3 : List (Datum F)} {d : Desc} {n : Nat} {bits : List Nat}
    (h0 : 0 < x.back.getD x.seen.length) (hz : Zero W c.compatible d zb zs)
    (h1 : Runs At k bm ({ x with back := some (x.back.getD x.seen.length) }.add zs) b1 i1 x1)
    (h2 : Runs At k as x1 b2 i2 x2) (hc : x2.current = some bits) (hb : x2.back = some n) (hne : bits ≠ [])
    (hn : bits.length ≤ n) (h3 : Runs At k ms { x2 with targets := selected bits n } b3 i3 x3)
    (hl : i3.length ≤ (selected bits n).length) :
    Runs At k (assessment c d bm as ms) x (zb ++ b1 ++ b2 ++ b3) (zs ++ i1 ++ i2 ++ i3) x3 := by
  intro f t ha hk hr
  have hpre := ((newAssessment_runs h0).seq ((zero_runs hW hz).seq h1))
  rw [List.nil_append, List.nil_append] at hpre
  rw [List.append_assoc, List.append_assoc] at hr
  obtain ⟨f1, e1, r1, c1, a1, k1⟩ := hpre f _ ha hk hr
  obtain ⟨_, g1, q1, e1⟩ := M.bind_eq_ok.1 e1
  obtain ⟨_, g2, q2, q3⟩ := M.bind_eq_ok.1 e1
  obtain ⟨f2, e2, r2, c2, a2, k2⟩ := added_runs h2 a1 k1 r1
  have e3 := selectTargets_runs a2 hc hb hne hn
  have a3 : Agrees { f2 with targets := selected bits n } { x2 with targets := selected bits n } := { a2 with targets := rfl }
  obtain ⟨f4, e4, r4, c4, a4, k4⟩ := added_runs h3 a3 k2 r2
  obtain ⟨cols, e5, c5⟩ := attachSources_eq (List.range' f1.cols.length i2.length)
    (List.range' f2.cols.length i3.length) (selected bits n) f4 (by simpa using hl)
  unfold assessment
  refine ⟨{ f4 with cols := cols }, ?_, r4, ?_, a4.cols cols rfl c5, k4⟩
  · rw [M.bind_ok q1, M.bind_ok q2, M.bind_ok q3, M.bind_ok e2, M.bind_ok e3, M.bind_ok e4, e5]
  · show cols.map itemOf = _
    rw [c5, c4]
    show f2.cols.map itemOf ++ _ = _
    rw [c2, c1]
    simp

/-- Reading what was written: the flat table. -/
theorem coded_runs [GoFloat F] {W : Wire F τ} {k : Option Nat} (hW : Reads c At W k) {x y : Ctx} {ts : List Ast} {bits : List τ}
    {is : List (Datum F)} (h : Coded W c.compatible x ts bits is y) : Runs At k (visitL c ts) x bits is y := by
  induction h with
  | nil => exact Runs.pure
  | element he ha hw _ ih =>
    simp only [visitL]
    exact (element_runs hW he ha hw).seq ih
  | absent _ ih =>
    simp only [visitL, visit, if_true, M.pure_bind]
    exact ih
  | significance he hw _ ih =>
    simp only [visitL]
    exact (significance_runs hW he hw).seq ih
  | sequence _ ih | notPresent _ ih =>
    refine ih.of_eq ?_
    rw [flat_visitL_append]
    simp only [visitL, visit]
  | fixed _ ih =>
    refine ih.of_eq ?_
    rw [flat_visitL_append, flat_visitL_repeat]
    simp only [visitL, visit]
  | @delayed x z y ts ms m fb bs fs is d v vs k it h1 hl hv ha hn h2 ih1 ih2 =>
    have e : visitL c (.delayedRepl d (m :: ms) :: ts) =
        (delayed (visit c m) (visitL c ms) >>= fun _ => visitL c ts : M (State F) Unit) := by
      simp only [visitL, visit]
    have e1 : visit c m = (visitL c [m] : M (State F) Unit) := by
      simp only [visitL]
      funext f
      rw [M.bind_apply]
      rcases visit c m f with ⟨o, g⟩
      cases o <;> rfl
    rw [e]
    refine delayed_runs (ih1.of_eq e1) hl hv ha hn (ih2.of_eq ?_)
    rw [flat_visitL_append, flat_visitL_repeat]
  | op201 _ ih =>
    simp only [visitL, visit]
    intro f t ha hk hr
    exact ih _ t { ha with nbitsOffset := rfl } hk hr
  | op202 _ ih =>
    simp only [visitL, visit]
    intro f t ha hk hr
    exact ih _ t { ha with scaleOffset := rfl } hk hr
  | @op207 _ _ _ _ _ d _ ih =>
    simp only [visitL, visit]
    intro f t ha hk hr
    refine ih _ t { ha with nbitsIncrement := ?_, scaleIncrement := rfl, refvalFactor := rfl } hk hr
    simp only
    split
    · rename_i h0; rw [h0]; decide
    · rfl
  | op208 _ ih =>
    simp only [visitL, visit]
    intro f t ha hk hr
    exact ih _ t { ha with nbitsString := Int.mul_comm _ _ } hk hr
  | op203end hy _ ih =>
    simp only [visitL, visit]
    rw [if_neg (by simp [hy]), M.pure_bind]
    exact ih
  | @op204 x y ts ms bs is d hy _ ih =>
    refine (Runs.of_eq (m := (M.modify fun f => { f with assoc := f.assoc ++ [⟨d.id.Y, none⟩] }) >>= fun _ => visitL c (ms ++ ts)) ?_ ?_)
    · intro f t ha hk hr
      exact ih _ t { ha with assoc := (by simp [ha.assoc]) } hk hr
    · simp only [visitL, visit, if_neg hy, flat_visitL_append, M.bind_assoc]
  | @op204end x y ts ms bs is d hy hne _ ih =>
    refine (Runs.of_eq (m := popAssoc >>= fun _ => visitL c (ms ++ ts)) ?_ ?_)
    · intro f t ha hk hr
      have e : popAssoc f = (.ok (), { f with assoc := f.assoc.dropLast }) := by
        unfold popAssoc
        rw [if_neg]
        intro h
        apply hne
        rw [← ha.assoc]
        simpa using h
      rw [M.bind_ok e]
      exact ih _ t { ha with assoc := (by simp [← ha.assoc]) } hk hr
    · simp only [visitL, visit, if_pos hy, flat_visitL_append, M.bind_assoc]
  | op205 hw _ ih =>
    simp only [visitL, visit]
    exact (build_runs hW hw _ _).seq ih
  | op206 hw _ ih =>
    simp only [visitL, visit]
    exact (build_runs hW hw _ _).seq ih
  | op235 _ ih =>
    simp only [visitL, visit]
    intro f t ha hk hr
    exact ih _ t { ha with backref := rfl, pos := (fun _ h => by cases h), current := (fun _ h => by cases h),
                             reusable := (fun _ h => by cases h) } hk hr
  | op237end _ ih =>
    simp only [visitL, visit]
    intro f t ha hk hr
    exact ih _ t { ha with current := (fun _ h => by cases h), reusable := (fun _ h => by cases h) } hk hr
  | bitmap hd hm hz _ hb _ ih1 ih2 =>
    simp only [visitL]
    exact (bitmap_runs hW hd hm hz ih1 hb).seq ih2
  | recall hd hz _ ih =>
    simp only [visitL]
    exact (recall_runs hW hd hz).seq ih
  | @assessment x x1 x2 x3 y ts as ms bm zb b1 b2 b3 bs zs i1 i2 i3 is d n bits h0 hz h1 h2 hc hb hne hn h3 hl h4 ih1 ih2 ih3 ih4 =>
    have e1 : visit c bm = (visitL c [bm] : M (State F) Unit) := by
      simp only [visitL]
      funext f
      rw [M.bind_apply]
      rcases visit c bm f with ⟨o, g⟩
      cases o <;> rfl
    simp only [visitL, visit]
    rw [e1]
    exact (assessment_runs hW h0 hz ih1 ih2 hc hb hne hn ih3 (by omega)).seq ih4
  | marker ht hs h0 he hw _ ih =>
    simp only [visitL]
    exact (marker_runs hW ht hs h0 he hw).seq ih

/-! ## The two ways of writing values -/

/-- Bits before the reader; the position counts from the end. -/
def AtBits (e : Int) (l : List Bool) (r : Reader F) : Prop := r = .bin ⟨l, e - l.length⟩

theorem atBits_start (l : List Bool) (p : Int) : AtBits (F := F) (p + l.length) l (.bin ⟨l, p⟩) := by
  unfold AtBits
  congr
  omega

theorem atBits_read {e p : Int} {b t : List Bool} {r : Reader F} (h : AtBits e (b ++ t) r) (hr : r = .bin ⟨b ++ t, p⟩) :
    AtBits (F := F) e t (.bin ⟨t, p + b.length⟩) := by
  unfold AtBits at h ⊢
  rw [hr] at h
  injection h with h
  injection h with _ h
  rw [h, show e - ((b ++ t).length : Int) + (b.length : Int) = e - (t.length : Int) by simp; omega]

theorem byteBits_length (b : UInt8) : (byteBits b).length = 8 := by simp [byteBits]

theorem flatMap_byteBits_length (s : List UInt8) : (s.flatMap byteBits).length = 8 * s.length := by
  induction s with
  | nil => rfl
  | cons b s ih =>
    rw [List.flatMap_cons, List.length_append, ih, byteBits_length, List.length_cons]
    omega

theorem packed_inj : ∀ {l : List Bool} {bs bs' : List UInt8}, Packed l bs → Packed l bs' → bs = bs'
  | _, [], [], _, _ => rfl
  | _, [], _ :: _, h, h' => absurd h h'.1
  | _, _ :: _, [], h, h' => absurd h' h.1
  | _, b :: bs, b' :: bs', h, h' => by
    obtain ⟨_, h2, h3⟩ := h
    obtain ⟨_, q2, q3⟩ := h'
    rw [UInt8.toNat_inj.1 (h2.trans q2.symm), packed_inj h3 q3]

theorem mul_tdiv_eight (n : Nat) : (8 * (n : Int)).tdiv 8 = n := Int.mul_tdiv_cancel_left _ (by decide)

theorem reads_single [GoFloat F] [LawfulGoFloat F] (hu : c.unpacker = .uncompress) {e : Int} :
    Reads (F := F) c (AtBits e) Single none := by
  intro info b vs h t r hat
  obtain ⟨p, rfl⟩ : ∃ p, r = .bin ⟨b ++ t, p⟩ := ⟨_, hat⟩
  suffices hs : ∃ v, c.unpacker.unpack info (.bin ⟨b ++ t, p⟩) = (.ok v, .bin ⟨t, p + b.length⟩) ∧ Fits none v vs by
    obtain ⟨v, h1, h2⟩ := hs
    exact ⟨v, _, h1, atBits_read hat rfl, h2⟩
  have key : ∀ {v : Val F} {r : Reader F}, uncompressUnpack info (.bin ⟨b ++ t, p⟩) = (.ok v, r) →
      c.unpacker.unpack info (.bin ⟨b ++ t, p⟩) = (.ok (.plain v), r) := by
    intro v r h
    rw [hu]
    simp only [Unpacker.unpack]
    rw [M.bind_ok h]
    rfl
  cases h with
  | @number n raw h1 h2 h3 h4 =>
    exact ⟨_, key (by simpa using C42_numeric_partial info n raw t p h1 h2 h3 h4), rfl⟩
  | @text s h1 h2 =>
    refine ⟨.plain (.bytes s), key ?_, rfl⟩
    rw [C42_string info s t p h1 (by rw [h2]; exact mul_tdiv_eight _), flatMap_byteBits_length]
    simp [Int.mul_comm]
  | @signed n mag neg h1 h2 h3 h4 =>
    exact ⟨_, key (by simpa using C42_signed info n neg mag t p h1 h2 h3 h4), rfl⟩
  | @skipped _ bs h1 h2 h3 =>
    rw [packed_inj h3 (packed_packBits b)]
    exact ⟨_, key (C42_binary info b t p h1 h2), rfl⟩

theorem flatMap_natBits_length (w : Nat) (l : List Nat) : (l.flatMap (natBits w)).length = w * l.length := by
  induction l with
  | nil => simp
  | cons b s ih =>
    rw [List.flatMap_cons, List.length_append, ih, List.length_cons, Nat.mul_succ]
    simp
    omega

theorem flatMap_texts_length (w : Nat) : ∀ (l : List (List UInt8)), (∀ x ∈ l, x.length = w) →
    (l.flatMap fun x => x.flatMap byteBits).length = 8 * w * l.length
  | [], _ => by simp
  | x :: l, h => by
    rw [List.flatMap_cons, List.length_append, flatMap_texts_length w l fun x hx => h x (List.mem_cons_of_mem _ hx),
      flatMap_byteBits_length, h x List.mem_cons_self, List.length_cons, Nat.mul_succ]
    omega

theorem reads_shared [GoFloat F] [LawfulGoFloat F] {k fuel : Nat} (hu : c.unpacker = .compressed k fuel)
    {e : Int} : Reads (F := F) c (AtBits e) (Shared k) (some k) := by
  intro info b vs h t r hat
  obtain ⟨p, rfl⟩ : ∃ p, r = .bin ⟨b ++ t, p⟩ := ⟨_, hat⟩
  suffices hs : ∃ v, c.unpacker.unpack info (.bin ⟨b ++ t, p⟩) = (.ok v, .bin ⟨t, p + b.length⟩) ∧ Fits (some k) v vs by
    obtain ⟨v, h1, h2⟩ := hs
    exact ⟨v, _, h1, atBits_read hat rfl, h2⟩
  have key : ∀ {v : CompressedVal F} {r : Reader F}, compressedUnpack k fuel info (.bin ⟨b ++ t, p⟩) = (.ok v, r) →
      c.unpacker.unpack info (.bin ⟨b ++ t, p⟩) = (.ok (.compressed v), r) := by
    intro v r h
    rw [hu]
    simp only [Unpacker.unpack]
    rw [M.bind_ok h]
    rfl
  cases h with
  | none h1 h2 => exact ⟨_, key (v := ⟨.uint 0, 0, List.replicate k (.uint 0)⟩) (by simpa using (C48_zero_width info h1 h2 _).2 k fuel), rfl⟩
  | @same n base h1 h2 h3 h4 h5 =>
    refine ⟨_, key (v := ⟨.uint base, 0, List.replicate k (value info n base)⟩) ?_, rfl⟩
    rw [C43_width0 info fuel n base k t p h1 h2 h3 h4 h5]
    simp [column]
  | @increments n base w incs h1 h2 h3 h4 h5 h6 h7 h8 h9 h10 =>
    subst h10
    refine ⟨_, key (v := ⟨.uint base, w, _⟩) ?_, rfl⟩
    rw [C43_column_partial info fuel n base w incs t p h1 h2 h3 h4 h5 h6 h7 h8 h9]
    simp only [column, List.length_append, flatMap_natBits_length, natBits_length]
    simp
  | @sameText s h1 h2 =>
    refine ⟨_, key (v := ⟨.bytes s, 0, List.replicate k (.bytes s)⟩) ?_, rfl⟩
    rw [C45_same info fuel s k t p h1 (by rw [h2]; exact mul_tdiv_eight _)]
    simp only [List.length_append, flatMap_byteBits_length, natBits_length]
    simp [Int.mul_comm]
  | @texts n w strs h1 h2 h3 h4 h5 h6 =>
    subst h6
    refine ⟨_, key (v := ⟨.bytes (List.replicate n 0), w, strs.map .bytes⟩) ?_, rfl⟩
    rw [C45_own info fuel n w strs t p h1 (by rw [h2]; exact mul_tdiv_eight _) h3 h4 h5]
    simp only [List.length_append, flatMap_byteBits_length, natBits_length, flatMap_texts_length w strs h5, List.length_replicate]
    simp [Int.mul_comm]
  | @sameSigned n mag neg h1 h2 h3 h4 =>
    refine ⟨_, key (v := ⟨.int (if neg then -(mag : Int) else mag), 0, _⟩) ?_, rfl⟩
    rw [C46_width0_partial info fuel n neg mag k t p h1 h2 h3 h4]
    simp [Int.add_assoc]

/-! ## Subsets -/

/-- Decoding the root reads what was written. -/
theorem root_coded [GoFloat F] (hc : CfgOk c) {W : Wire F τ} {k : Option Nat} (hW : Reads c At W k)
    (hk : k = if c.compressed = true ∧ c.inputType = .binary then some c.nsubsets.toNat else none) (h0 : k ≠ some 0)
    {ns : List Ast} (hns : noBaseL ns = true) {bits : List τ} {is : List (Datum F)} {y : Ctx}
    (h : Coded W c.compatible {} ns bits is y) (d : Desc) {s : Vis F} {t : List τ} (hr : At (bits ++ t) s.r) :
    ∃ s' ρ f', Vis.visit c (.base d ns) s = (.ok (), s') ∧ At t s'.r ∧ s'.stack = [] ∧
      Represents c ρ s' f' ∧ f'.cols.map itemOf = is ∧ f'.subsets = k := by
  have hn : ¬ (c.compressed = true ∧ c.inputType = .binary ∧ c.nsubsets < 0) := by
    rintro ⟨h1, h2, h3⟩
    rw [if_pos ⟨h1, h2⟩] at hk
    apply h0
    rw [hk]
    congr 1
    omega
  obtain ⟨s0, hreset⟩ : ∃ s0, Vis.reset c s = (.ok (), s0) := by
    unfold Vis.reset
    rw [if_neg hn]
    exact ⟨_, rfl⟩
  obtain ⟨hrep, hst, hnd, hre⟩ := represents_fresh c s s0 hreset
  obtain ⟨f', e, r', cc, aa, kk⟩ := coded_runs hW h (fresh c s.r) t
    { nbitsOffset := rfl, scaleOffset := rfl, nbitsIncrement := rfl, scaleIncrement := rfl, refvalFactor := rfl,
      nbitsString := rfl, assoc := rfl, seen := rfl, backref := rfl, pos := (fun _ h => by cases h), targets := rfl,
      current := (fun _ h => by cases h), reusable := (fun _ h => by cases h),
      subsets := (by
        show (if c.compressed = true ∧ c.inputType = .binary then some c.nsubsets.toNat else none) ≠ some 0
        rw [← hk]
        exact h0) } hk.symm hr
  have ho := visitL_outcome hc hns hrep.wellFormed
  rw [tableOf_eq hrep, e] at ho
  have e2 : Vis.visitL c ns s0 = (.ok (), (Vis.visitL c ns s0).2) := eq_of_fst ho
  obtain ⟨h1, ⟨ρ, h2⟩, h3, h4⟩ := visitL_table hc hns hrep.wellFormed e2 (by simp)
  rw [tableOf_eq hrep, e] at h1
  obtain ⟨_, h1'⟩ := Prod.mk.inj h1
  refine ⟨_, ρ, f', ?_, ?_, by rw [h3, hst], ?_, ?_, kk⟩
  · simp only [Vis.visit]
    rw [M.bind_ok hreset]
    exact e2
  · rw [h1'] at r'
    have := h2.r
    rwa [this]
  · rw [h1']
    exact h2
  · rw [cc]
    simp [fresh]

end EncodeSpec
end Gobufr
