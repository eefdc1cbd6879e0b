import Verif.Spec.Overrun
import Verif.Proofs.Clear

/-!
# Lemmas for C106: the number of values of an assessment
-/

namespace Gobufr
namespace EncodeSpec
open Flat

variable {F τ : Type} {c : VisCfg} {At : List τ → Reader F → Prop}

theorem attachSources_over (as : List Nat) : ∀ (ss ts : List Nat) (f : State F), ts.length < ss.length →
    (attachSources as ss ts f).1 = .panic "index out of range"
  | [], ts, f, h => by simp at h
  | _ :: _, [], f, _ => rfl
  | s :: ss, t :: ts, f, h => by
    simp only [attachSources]
    have e1 : attachTo t (some s) f = (.ok (), { f with cols := f.cols.modify t fun x => { x with attrs := x.attrs ++ [some s] } }) := rfl
    rw [M.bind_ok e1, M.bind_ok (attachAll_eq s as _)]
    exact attachSources_over as ss ts _ (by simpa using h)

/-- `m` stops with the panic when it reads the bits. -/
def Stops [GoFloat F] (At : List τ → Reader F → Prop) (k : Option Nat) (why : Why) (m : M (State F) Unit) (x : Ctx)
    (bits : List τ) : Prop :=
  ∀ (f : State F) (t : List τ), Agrees f x → Clear f x → f.subsets = k → At (bits ++ t) f.r → ∃ w, (m f).1 = .panic w ∧ why.panics w

theorem Stops.of_eq [GoFloat F] {k : Option Nat} {why : Why} {m m' : M (State F) Unit} {x : Ctx} {b : List τ}
    (h : Stops At k why m x b) (e : m' = m) : Stops At k why m' x b := e ▸ h

theorem Stops.seq [GoFloat F] {k : Option Nat} {why : Why} {m m' : M (State F) Unit} {x : Ctx} {b : List τ}
    (h : Stops At k why m x b) : Stops At k why (m >>= fun _ => m') x b := by
  intro f t ha hcl hk hr
  obtain ⟨w, h1, h2⟩ := h f t ha hcl hk hr
  rw [M.bind_panic (eq_of_fst h1)]
  exact ⟨w, rfl, h2⟩

theorem Stops.after [GoFloat F] {k : Option Nat} {why : Why} {m m' : M (State F) Unit} {x y : Ctx} {b b' : List τ}
    {is : List (Datum F)} (h : Runs At k m x b is y) (hc : Clears At k m x b y) (h' : Stops At k why m' y b') :
    Stops At k why (m >>= fun _ => m') x (b ++ b') := by
  intro f t ha hcl hk hr
  rw [List.append_assoc] at hr
  obtain ⟨f1, e1, r1, _, a1, k1⟩ := h f _ ha hk hr
  rw [M.bind_ok e1]
  exact h' f1 t a1 (hc f f1 _ e1 ha hk hr hcl) k1 r1

/-- The first part of an assessment. -/
theorem assessment_pre [GoFloat F] {W : Wire F τ} {k : Option Nat} (hW : Reads c At W k) {x x1 x2 : Ctx}
    {bm as ms : M (State F) Unit} {zb b1 b2 : List τ} {zs i1 i2 : List (Datum F)} {d : Desc} {n : Nat} {bits : List Nat}
    (h0 : 0 < x.back.getD x.seen.length) (hz : Zero W c.compatible d zb zs)
    (h1 : Runs At k bm ({ x with back := some (x.back.getD x.seen.length) }.add zs) b1 i1 x1)
    (h1' : Clears At k bm ({ x with back := some (x.back.getD x.seen.length) }.add zs) b1 x1)
    (h2 : Runs At k as x1 b2 i2 x2) (h2' : Clears At k as x1 b2 x2) (hc : x2.current = some bits) (hb : x2.back = some n) (hne : bits ≠ [])
    (hn : bits.length ≤ n) {f : State F} {t : List τ} (ha : Agrees f x) (hcl : Clear f x) (hk : f.subsets = k) (hr : At (zb ++ b1 ++ b2 ++ t) f.r) :
    ∃ (l : List Nat) (f2 : State F), assessment c d bm as ms f =
        (added ms >>= fun ss => attachSources l ss (selected bits n)) { f2 with targets := selected bits n } ∧
      At t f2.r ∧ Agrees { f2 with targets := selected bits n } { x2 with targets := selected bits n } ∧ f2.subsets = k ∧
      Clear { f2 with targets := selected bits n } { x2 with targets := selected bits n } := by
  have hcl1 : Clears At k _ x _ x1 := Clears.seq (newAssessment_runs (F := F) (At := At) h0) (.frame newAssessment_frame rfl rfl)
    (Clears.seq (zero_runs hW hz) (.frame (zero_frame d) rfl rfl) h1')
  rw [List.nil_append] at hcl1
  have hpre := ((newAssessment_runs h0).seq ((zero_runs hW hz).seq h1))
  rw [List.nil_append, List.nil_append] at hpre
  rw [List.append_assoc] at hr
  obtain ⟨f1, e1, r1, c1, a1, k1⟩ := hpre f _ ha hk hr
  have cl1 := hcl1 f f1 _ e1 ha hk hr hcl
  obtain ⟨_, g1, q1, e1⟩ := M.bind_eq_ok.1 e1
  obtain ⟨_, g2, q2, q3⟩ := M.bind_eq_ok.1 e1
  obtain ⟨f2, e2, r2, c2, a2, k2⟩ := added_runs h2 a1 k1 r1
  have cl2 := h2' f1 f2 _ (added_eq e2) a1 k1 r1 cl1
  have e3 := selectTargets_runs a2 hc hb hne hn
  refine ⟨List.range' f1.cols.length i2.length, f2, ?_, r2, { a2 with targets := rfl }, k2, ⟨cl2.current, cl2.reusable⟩⟩
  unfold assessment
  rw [M.bind_ok q1, M.bind_ok q2, M.bind_ok q3, M.bind_ok e2, M.bind_ok e3]

theorem added_stops [GoFloat F] {k : Option Nat} {why : Why} {m : M (State F) Unit} {x : Ctx} {bs : List τ}
    (h : Stops At k why m x bs) {f : State F} {t : List τ} (ha : Agrees f x) (hcl : Clear f x) (hk : f.subsets = k)
    (hr : At (bs ++ t) f.r) : ∃ w, (added m f).1 = .panic w ∧ why.panics w := by
  have hlen : f.len = .ok (f.cols.length : Int) := by
    unfold State.len
    rw [if_neg ha.subsets]
  obtain ⟨w, h1, h2⟩ := h f t ha hcl hk hr
  unfold added
  rw [query_bind (q := fun f : State F => f.len) hlen _, M.bind_panic (eq_of_fst h1)]
  exact ⟨w, rfl, h2⟩

/-- Fixing what bitmaps refer back to. -/
theorem newAssessment_agrees [GoFloat F] {f : State F} {x : Ctx} (ha : Agrees f x) :
    ∃ b, newAssessment f = (.ok (), { f with backref := b }) ∧ Agrees { f with backref := b } x.begin := by
  have hlen : f.len = .ok (f.cols.length : Int) := by
    unfold State.len
    rw [if_neg ha.subsets]
  have hs : f.cols.length = x.seen.length := by
    have := congrArg List.length ha.seen
    simpa using this
  have hb := ha.backref
  unfold newAssessment Ctx.begin
  cases hx : x.back with
  | none =>
    rw [hx] at hb
    rw [if_pos hb, hlen]
    refine ⟨_, rfl, ?_⟩
    simp only [Option.getD_none]
    by_cases h0 : 0 < x.seen.length
    · rw [if_pos h0]
      exact { ha with backref := (by simp [hs]), pos := (fun n h => by cases h; exact h0) }
    · rw [if_neg h0]
      exact { ha with backref := (by simp only [hx]; omega) }
  | some n =>
    rw [hx] at hb
    have := ha.pos n hx
    simp only at hb
    rw [if_neg (by omega)]
    simp only [Option.getD_some]
    refine ⟨f.backref, rfl, ?_⟩
    rw [if_pos this]
    exact { ha with backref := hb, pos := (fun m h => by cases h; exact this) }

theorem Ctx.begin_current (x : Ctx) : x.begin.current = x.current := by
  unfold Ctx.begin
  split <;> rfl

theorem Ctx.begin_reusable (x : Ctx) : x.begin.reusable = x.reusable := by
  unfold Ctx.begin
  split <;> rfl

theorem select_panic [GoFloat F] {f : State F} {w : String} (h : f.bits = .panic w) : selectTargets f = (.panic w, f) := by
  have e : (fun f : State F => (f.bits, f) : M (State F) (List Nat)) f = (.panic w, f) := by
    show (f.bits, f) = _
    rw [h]
  exact M.bind_panic e

/-- A marker that has no element, or one without an entry, stops the decoder. -/
theorem marker_panics [GoFloat F] {f : State F} {x : Ctx} (ha : Agrees f x) (d : Desc) :
    (x.targets = [] → (marker c d f).1 = .panic "index out of range") ∧
    (∀ t rest nd, x.targets = t :: rest → x.seen[t]? = some nd → (∀ td e, nd.d = some td → td.entry ≠ .b e) →
      ∃ w, (marker c d f).1 = .panic w ∧ Why.noEntry.panics w) := by
  constructor
  · intro ht
    have e : f.targets = [] := ha.targets.trans ht
    have e' : (match f.targets with
        | [] => (.panic "index out of range", f)
        | t :: ts => (.ok t, { f with targets := ts }) : Outcome Nat × State F) = (.panic "index out of range", f) := by rw [e]
    exact congrArg Prod.fst (M.bind_panic (m := fun f : State F => match f.targets with
        | [] => (.panic "index out of range", f)
        | t :: ts => (.ok t, { f with targets := ts })) e')
  · intro t rest nd ht hs hn
    let f1 : State F := { f with targets := rest }
    have e1 : (fun f : State F => match f.targets with
        | [] => (.panic "index out of range", f)
        | t :: ts => (.ok t, { f with targets := ts }) : M (State F) Nat) f = (.ok t, f1) := by
      simp only [ha.targets, ht]
      rfl
    have hdesc : f.cols[t]?.map Column.desc = some nd := by
      rw [← hs, ← ha.seen, List.getElem?_map]
    obtain ⟨col, hc1, hc2⟩ := Option.map_eq_some_iff.1 hdesc
    have e2 : (match f1.cols[t]? with
        | some col => (.ok col.desc.d : Outcome (Option Desc))
        | none => .panic "does not occur: targets are valued nodes") = .ok nd.d := by
      show (match f.cols[t]? with
        | some col => (.ok col.desc.d : Outcome (Option Desc))
        | none => .panic "does not occur: targets are valued nodes") = _
      rw [hc1]
      simp only [hc2]
    have e3 : ∃ w, f1.packing nd.d = .panic w ∧ Why.noEntry.panics w := by
      cases hd : nd.d with
      | none => exact ⟨_, rfl, .inr rfl⟩
      | some td =>
        refine ⟨_, ?_, .inl rfl⟩
        unfold State.packing
        split
        · cases ‹_›
        · rename_i td' heq
          cases heq
          split
          · rename_i e he
            exact absurd he (hn td e hd)
          · rfl
    obtain ⟨w, e3, hw⟩ := e3
    refine ⟨w, ?_, hw⟩
    unfold marker
    refine (congrArg Prod.fst (M.bind_ok e1)).trans ?_
    refine (congrArg Prod.fst (query_bind (s := f1) (a := nd.d) (q := fun f : State F => match f.cols[t]? with
      | some col => (.ok col.desc.d : Outcome (Option Desc))
      | none => .panic "does not occur: targets are valued nodes") e2 _)).trans ?_
    have e4 : (fun f : State F => (f.packing nd.d, f) : M (State F) (PackingInfo F)) f1 = (.panic w, f1) := by
      show (f1.packing nd.d, f1) = _
      rw [e3]
    exact congrArg Prod.fst (M.bind_panic e4)

/-- What cannot be decoded stops the decoder. -/
theorem stuck_stops [GoFloat F] {W : Wire F τ} {k : Option Nat} (hW : Reads c At W k) {why : Why} {x : Ctx}
    {ts : List Ast} {bits : List τ} (h : Stuck (F := F) W c.compatible why x ts bits) :
    Stops At k why (visitL (F := F) c ts) x bits := by
  induction h with
  | @values x ts as ms bm bits d chosen given h hl =>
    obtain ⟨x1, x2, x3, zb, b1, b2, b3, zs, i1, i2, i3, n, map, h0, hz, h1, h2, hc, hb, hne, hn, h3, rfl, rfl, rfl⟩ := h
    simp only [visitL, visit]
    apply Stops.seq
    intro f t ha hcl hk hr
    rw [List.append_assoc] at hr
    rw [visit_single]
    obtain ⟨l, f2, e, r2, a2, k2, cl2⟩ := assessment_pre (ms := visitL c ms) hW h0 hz (coded_runs hW h1) (coded_clears hW h1) (coded_runs hW h2)
      (coded_clears hW h2) hc hb hne hn ha hcl hk hr
    obtain ⟨f4, e4, _⟩ := added_runs (coded_runs hW h3) a2 k2 r2
    rw [e, M.bind_ok e4]
    exact ⟨_, attachSources_over _ _ _ _ (by simpa using hl), rfl⟩
  | @marker x ts d ht =>
    simp only [visitL, visit]
    apply Stops.seq
    intro f t ha hcl hk hr
    exact ⟨_, (marker_panics ha d).1 ht, rfl⟩
  | @stray x ts d t rest nd ht hs hn =>
    simp only [visitL, visit]
    apply Stops.seq
    intro f t ha hcl hk hr
    exact (marker_panics ha d).2 _ _ _ ht hs hn
  | @unset x x1 x2 ts as ms bm zb b1 b2 zs i1 i2 d hz h1 h2 hc =>
    simp only [visitL, visit]
    apply Stops.seq
    intro f t ha hcl hk hr
    rw [visit_single]
    rw [List.append_assoc, List.append_assoc] at hr
    obtain ⟨b, q1, a1⟩ := newAssessment_agrees ha
    have cl1 : Clear { f with backref := b } x.begin :=
      ⟨fun h => hcl.current (x.begin_current ▸ h), fun h => hcl.reusable (x.begin_reusable ▸ h)⟩
    obtain ⟨f2, q2, r2, c2, a2, k2⟩ := zero_runs hW hz _ _ a1 hk hr
    have cl2 : Clear f2 (x.begin.add zs) :=
      (Clears.frame (zero_frame (c := c) d) rfl rfl : Clears At k _ x.begin zb (x.begin.add zs)) _ f2 _ q2 a1 hk hr cl1
    obtain ⟨f3, q3, r3, c3, a3, k3⟩ := coded_runs hW h1 f2 _ a2 k2 r2
    have cl3 := coded_clears hW h1 f2 f3 _ q3 a2 k2 r2 cl2
    obtain ⟨f4, q4, r4, c4, a4, k4⟩ := added_runs (coded_runs hW h2) a3 k3 r3
    have cl4 := coded_clears hW h2 f3 f4 _ (added_eq q4) a3 k3 r3 cl3
    have hbits : f4.bits = .panic "nil pointer dereference" := by
      unfold State.bits
      rw [cl4.current hc]
      rfl
    unfold assessment
    rw [M.bind_ok q1, M.bind_ok q2, M.bind_ok q3, M.bind_ok q4, M.bind_panic (select_panic hbits)]
    exact ⟨_, rfl, rfl⟩
  | @reference x ts ms m d vb vs hy hw =>
    simp only [visitL, visit, if_pos hy, refvals]
    apply Stops.seq
    intro f t ha hcl hk hr
    obtain ⟨col, r, h1, -⟩ := build_coded hW hk ha.subsets hw hr ⟨m.descriptor, false⟩
    cases hm : m.descriptor with
    | none =>
      rw [hm] at h1
      exact ⟨_, congrArg Prod.fst (M.bind_ok h1), .inr rfl⟩
    | some _ =>
      rw [hm] at h1
      exact ⟨_, congrArg Prod.fst (M.bind_ok h1), .inl rfl⟩
  | @unopened x ts ms d hy hx =>
    simp only [visitL, visit, if_pos hy]
    apply Stops.seq
    apply Stops.seq
    intro f t ha hcl hk hr
    have he : f.assoc = [] := by
      have := ha.assoc
      rw [hx] at this
      simpa using this
    refine ⟨"slice bounds out of range", ?_, rfl⟩
    unfold popAssoc
    rw [he]
    rfl
  | after h _ ih =>
    rw [show visitL c (_ ++ _) = _ from flat_visitL_append ..]
    exact Stops.after (coded_runs hW h) (coded_clears hW h) ih
  | sequence _ ih | notPresent _ ih =>
    refine ih.of_eq ?_
    rw [flat_visitL_append]
    simp only [visitL, visit]
  | fixed _ ih =>
    refine ih.of_eq ?_
    rw [flat_visitL_append, flat_visitL_repeat]
    simp only [visitL, visit]
  | @op204 why x ts ms b d hy _ ih =>
    intro f t ha hcl hk hr
    have e : visitL c (.assocField d ms :: ts) f =
        (visitL c (ms ++ ts) : M (State F) Unit) { f with assoc := f.assoc ++ [⟨d.id.Y, none⟩] } := by
      rw [flat_visitL_append]
      simp only [visitL, visit, if_neg hy]
      rfl
    rw [e]
    exact ih _ t { ha with assoc := (by simp [← ha.assoc]) } ⟨hcl.current, hcl.reusable⟩ hk hr
  | @op204end why x ts ms b d hy hne _ ih =>
    intro f t ha hcl hk hr
    have hp : popAssoc f = (.ok (), { f with assoc := f.assoc.dropLast }) := by
      unfold popAssoc
      rw [if_neg]
      intro h
      rw [← ha.assoc] at hne
      rw [List.isEmpty_iff.1 h] at hne
      exact hne rfl
    have e : visitL c (.assocField d ms :: ts) f =
        (visitL c (ms ++ ts) : M (State F) Unit) { f with assoc := f.assoc.dropLast } := by
      rw [flat_visitL_append]
      simp only [visitL, visit, if_pos hy]
      rw [M.bind_assoc, M.bind_ok hp]
    rw [e]
    exact ih _ t { ha with assoc := (by simp [← ha.assoc]) } ⟨hcl.current, hcl.reusable⟩ hk hr
  | @delayed why x z ts ms m fb b fs d v vs n it h1 hl hv ha hn _ ih =>
    have e : visitL c (.delayedRepl d (m :: ms) :: ts) =
        (delayed (visit c m) (visitL c ms) >>= fun _ => visitL c ts : M (State F) Unit) := by
      simp only [visitL, visit]
    rw [e]
    intro f t ha' hcl hk hr
    rw [List.append_assoc] at hr
    obtain ⟨g, e1, r1, c1, a1, k1, e0⟩ := delayed_step (block := visitL c ms) (rest := visitL c ts)
      ((coded_runs hW h1).of_eq (visit_single m)) hl hv ha hn ha' hk hr
    rw [e1, ← flat_visitL_repeat, ← flat_visitL_append]
    rw [visit_single] at e0
    exact ih g t a1 (coded_clears hW h1 f g _ e0 ha' hk hr hcl) k1 r1
  | @within why x x1 x2 ts as ms bm zb b1 b2 b3 zs i1 i2 d n map h0 hz h1 h2 hc hb hne hn _ ih =>
    simp only [visitL, visit]
    apply Stops.seq
    intro f t ha hcl hk hr
    rw [List.append_assoc] at hr
    rw [visit_single]
    obtain ⟨l, f2, e, r2, a2, k2, cl2⟩ := assessment_pre (ms := visitL c ms) hW h0 hz (coded_runs hW h1) (coded_clears hW h1) (coded_runs hW h2)
      (coded_clears hW h2) hc hb hne hn ha hcl hk hr
    obtain ⟨w, q1, q2⟩ := added_stops ih a2 cl2 k2 r2
    rw [e, M.bind_panic (eq_of_fst q1)]
    exact ⟨w, rfl, q2⟩

/-- So decoding the subset panics. -/
theorem root_stops [GoFloat F] (hc : CfgOk c) {W : Wire F τ} {k : Option Nat} (hW : Reads c At W k)
    (hk : k = if c.compressed = true ∧ c.inputType = .binary then some c.nsubsets.toNat else none) (h0 : k ≠ some 0)
    {ns : List Ast} (hns : noBaseL ns = true) {why : Why} {bits : List τ}
    (h : Stuck (F := F) W c.compatible why {} ns bits) (d : Desc) {s : Vis F} {t : List τ} (hr : At (bits ++ t) s.r) :
    ∃ w, (Vis.visit c (.base d ns) s).1 = .panic w ∧ why.panics w := by
  have hn : ¬ (c.compressed = true ∧ c.inputType = .binary ∧ c.nsubsets < 0) := by
    rintro ⟨h1, h2, h3⟩
    rw [if_pos ⟨h1, h2⟩] at hk
    apply h0
    rw [hk]
    congr 1
    omega
  obtain ⟨s0, hreset⟩ : ∃ s0, Vis.reset c s = (.ok (), s0) := by
    unfold Vis.reset
    rw [if_neg hn]
    exact ⟨_, rfl⟩
  obtain ⟨hrep, hst, hnd, hre⟩ := represents_fresh c s s0 hreset
  obtain ⟨w, e, hw⟩ := stuck_stops hW h (fresh c s.r) t
    { nbitsOffset := rfl, scaleOffset := rfl, nbitsIncrement := rfl, scaleIncrement := rfl, refvalFactor := rfl,
      nbitsString := rfl, assoc := rfl, seen := rfl, backref := rfl, pos := (fun _ h => by cases h), targets := rfl,
      current := (fun _ h => by cases h), reusable := (fun _ h => by cases h),
      subsets := (by
        show (if c.compressed = true ∧ c.inputType = .binary then some c.nsubsets.toNat else none) ≠ some 0
        rw [← hk]
        exact h0) } ⟨fun _ => rfl, fun _ => rfl⟩ hk.symm hr
  have ho := visitL_outcome hc hns hrep.wellFormed
  rw [tableOf_eq hrep, e] at ho
  simp only [Vis.visit]
  rw [M.bind_ok hreset]
  exact ⟨w, ho, hw⟩

end EncodeSpec
end Gobufr
