import Verif.Proofs.Encode

/-!
# Lemmas for C94: where there is no bitmap, the decoder has none
-/

set_option linter.unusedSectionVars false

namespace Gobufr
namespace EncodeSpec
open Flat

variable {F τ : Type} {c : VisCfg} {At : List τ → Reader F → Prop} [GoFloat F]

/-- The decoder has no bitmap where there should be none. -/
structure Clear (f : State F) (x : Ctx) : Prop where
  current : x.current = none → f.current = none
  reusable : x.reusable = none → f.reusable = none

/-- `m` gets no bitmap but by the rules. -/
def Clears (At : List τ → Reader F → Prop) (k : Option Nat) (m : M (State F) Unit) (x : Ctx) (bits : List τ) (y : Ctx) : Prop :=
  ∀ (f f' : State F) (t : List τ), m f = (.ok (), f') → Agrees f x → f.subsets = k → At (bits ++ t) f.r → Clear f x → Clear f' y

theorem Clears.seq {k : Option Nat} {m n : M (State F) Unit} {x y z : Ctx} {b1 b2 : List τ} {i1 : List (Datum F)}
    (hr : Runs At k m x b1 i1 z) (h1 : Clears At k m x b1 z) (h2 : Clears At k n z b2 y) :
    Clears At k (m >>= fun _ => n) x (b1 ++ b2) y := by
  intro f f' t e ha hk hat hc
  rw [List.append_assoc] at hat
  obtain ⟨g, e1, r1, c1, a1, k1⟩ := hr f _ ha hk hat
  rw [M.bind_ok e1] at e
  exact h2 g f' t e a1 k1 r1 (h1 f g _ e1 ha hk hat hc)

theorem Clears.frame {k : Option Nat} {m : M (State F) Unit} {x y : Ctx} {b : List τ}
    (h : ∀ f f', m f = (.ok (), f') → f'.current = f.current ∧ f'.reusable = f.reusable) (h1 : y.current = x.current)
    (h2 : y.reusable = x.reusable) : Clears At k m x b y := by
  intro f f' t e _ _ _ hc
  obtain ⟨e1, e2⟩ := h f f' e
  exact ⟨fun h => by rw [e1]; exact hc.current (h1 ▸ h), fun h => by rw [e2]; exact hc.reusable (h2 ▸ h)⟩

theorem Clears.of_eq {k : Option Nat} {m n : M (State F) Unit} {x y : Ctx} {bs : List τ}
    (h : Clears At k m x bs y) (e : n = m) : Clears At k n x bs y := e ▸ h

theorem visit_single (m : Ast) : visit c m = (visitL c [m] : M (State F) Unit) := by
  simp only [visitL]
  funext f
  rw [M.bind_apply]
  rcases visit c m f with ⟨o, g⟩
  cases o <;> rfl

theorem visit_frame {m : Ast} (hm : apart [m] = true) (f f' : State F) (h : visit c m f = (.ok (), f')) :
    f'.current = f.current ∧ f'.reusable = f.reusable := by
  rw [visit_single] at h
  have := apart_frame hm h
  exact ⟨this.2.1, this.2.2.1⟩

theorem build_frame (nd : NodeDesc) (info : PackingInfo F) (f f' : State F)
    (h : (do let _ ← build c nd info; Pure.pure () : M (State F) Unit) f = (.ok (), f')) :
    f'.current = f.current ∧ f'.reusable = f.reusable := by
  obtain ⟨i, g, h1, h2⟩ := M.bind_eq_ok.1 h
  cases h2
  have := keeps_apart.build _ _ _ _ _ h1
  exact ⟨this.2.1, this.2.2.1⟩

theorem zero_frame (d : Desc) (f f' : State F) (h : buildZero c d f = (.ok (), f')) :
    f'.current = f.current ∧ f'.reusable = f.reusable := by
  have := keeps_apart.zero _ _ _ h
  exact ⟨this.2.1, this.2.2.1⟩

theorem newAssessment_frame (f f' : State F) (h : newAssessment f = (.ok (), f')) :
    f'.current = f.current ∧ f'.reusable = f.reusable := by
  unfold newAssessment at h
  split at h
  · split at h
    · cases h; exact ⟨rfl, rfl⟩
    · cases h
    · cases h
    · cases h
  · cases h; exact ⟨rfl, rfl⟩

theorem marker_frame (d : Desc) (f f' : State F) (h : marker c d f = (.ok (), f')) :
    f'.current = f.current ∧ f'.reusable = f.reusable :=
  visit_frame (c := c) (m := .marker d) rfl f f' h

theorem added_eq {m : M (State F) Unit} {f f' : State F} {l : List Nat} (h : added m f = (.ok l, f')) : m f = (.ok (), f') := by
  unfold added at h
  obtain ⟨n, g, h1, h2⟩ := M.bind_eq_ok.1 h
  cases (Prod.mk.inj h1).2
  obtain ⟨⟨⟩, g1, h3, h4⟩ := M.bind_eq_ok.1 h2
  obtain ⟨n', g2, h5, h6⟩ := M.bind_eq_ok.1 h4
  cases (Prod.mk.inj h5).2
  cases h6
  exact h3

theorem attachSources_frame (as : List Nat) : ∀ (ss ts : List Nat) (f f' : State F), attachSources as ss ts f = (.ok (), f') →
    f'.current = f.current ∧ f'.reusable = f.reusable
  | [], _, f, f', h => by cases h; exact ⟨rfl, rfl⟩
  | _ :: _, [], f, f', h => by cases h
  | s :: ss, t :: ts, f, f', h => by
    simp only [Flat.attachSources] at h
    have e1 : attachTo t (some s) f = (.ok (), { f with cols := f.cols.modify t fun x => { x with attrs := x.attrs ++ [some s] } }) := rfl
    rw [M.bind_ok e1, M.bind_ok (attachAll_eq s as _)] at h
    have := attachSources_frame as ss ts _ _ h
    exact ⟨this.1, this.2⟩

/-- By the rules, there is no bitmap but those of the rules. -/
theorem coded_clears {W : Wire F τ} {k : Option Nat} (hW : Reads c At W k) {x y : Ctx} {ts : List Ast} {bits : List τ}
    {is : List (Datum F)} (h : Coded W c.compatible x ts bits is y) : Clears At k (visitL c ts) x bits y := by
  induction h with
  | nil =>
    intro f f' t e _ _ _ hc
    cases e
    exact hc
  | element he ha hw _ ih =>
    simp only [visitL]
    exact Clears.seq (element_runs hW he ha hw) (.frame (visit_frame rfl) rfl rfl) ih
  | absent _ ih =>
    simp only [visitL, visit, if_true, M.pure_bind]
    exact ih
  | significance he hw _ ih =>
    simp only [visitL]
    exact Clears.seq (significance_runs hW he hw) (.frame (visit_frame rfl) rfl rfl) ih
  | sequence _ ih | notPresent _ ih =>
    refine ih.of_eq ?_
    rw [flat_visitL_append]
    simp only [visitL, visit]
  | fixed _ ih =>
    refine ih.of_eq ?_
    rw [flat_visitL_append, flat_visitL_repeat]
    simp only [visitL, visit]
  | @delayed x z y ts ms m fb bs fs is d v vs k it h1 hl hv ha hn h2 ih1 ih2 =>
    have e : visitL c (.delayedRepl d (m :: ms) :: ts) =
        (delayed (visit c m) (visitL c ms) >>= fun _ => visitL c ts : M (State F) Unit) := by
      simp only [visitL, visit]
    rw [e]
    intro f f' t e ha' hk hr hc
    rw [List.append_assoc] at hr
    obtain ⟨g, e1, r1, c1, a1, k1, e0⟩ := delayed_step (block := visitL c ms) (rest := visitL c ts)
      ((coded_runs hW h1).of_eq (visit_single m)) hl hv ha hn ha' hk hr
    rw [e1, ← flat_visitL_repeat, ← flat_visitL_append] at e
    rw [visit_single] at e0
    exact ih2 g f' t e a1 k1 r1 (ih1 f g _ e0 ha' hk hr hc)
  | op201 _ ih =>
    simp only [visitL, visit]
    intro f f' t e ha hk hr hc
    exact ih _ f' t ((M.bind_ok (M.modify_apply _ _)).symm.trans e) { ha with nbitsOffset := rfl } hk hr ⟨hc.current, hc.reusable⟩
  | op202 _ ih =>
    simp only [visitL, visit]
    intro f f' t e ha hk hr hc
    exact ih _ f' t ((M.bind_ok (M.modify_apply _ _)).symm.trans e) { ha with scaleOffset := rfl } hk hr ⟨hc.current, hc.reusable⟩
  | @op207 _ _ _ _ _ d _ ih =>
    simp only [visitL, visit]
    intro f f' t e ha hk hr hc
    refine ih _ f' t ((M.bind_ok (M.modify_apply _ _)).symm.trans e) { ha with nbitsIncrement := ?_, scaleIncrement := rfl, refvalFactor := rfl } hk hr ⟨hc.current, hc.reusable⟩
    simp only
    split
    · rename_i h0; rw [h0]; decide
    · rfl
  | op208 _ ih =>
    simp only [visitL, visit]
    intro f f' t e ha hk hr hc
    exact ih _ f' t ((M.bind_ok (M.modify_apply _ _)).symm.trans e) { ha with nbitsString := Int.mul_comm _ _ } hk hr ⟨hc.current, hc.reusable⟩
  | op203end hy _ ih =>
    simp only [visitL, visit]
    rw [if_neg (by simp [hy]), M.pure_bind]
    exact ih
  | @op204 x y ts ms bs is d hy _ ih =>
    intro f f' t e ha hk hr hc
    have e' : visitL c (.assocField d ms :: ts) f =
        (visitL c (ms ++ ts) : M (State F) Unit) { f with assoc := f.assoc ++ [⟨d.id.Y, none⟩] } := by
      rw [flat_visitL_append]
      simp only [visitL, visit, if_neg hy]
      rfl
    rw [e'] at e
    exact ih _ f' t e { ha with assoc := (by simp [ha.assoc]) } hk hr ⟨hc.current, hc.reusable⟩
  | @op204end x y ts ms bs is d hy hne _ ih =>
    intro f f' t e ha hk hr hc
    have hp : popAssoc f = (.ok (), { f with assoc := f.assoc.dropLast }) := by
      unfold popAssoc
      rw [if_neg]
      intro h
      apply hne
      rw [← ha.assoc]
      simpa using h
    have e' : visitL c (.assocField d ms :: ts) f =
        (visitL c (ms ++ ts) : M (State F) Unit) { f with assoc := f.assoc.dropLast } := by
      rw [flat_visitL_append]
      simp only [visitL, visit, if_pos hy]
      rw [M.bind_assoc, M.bind_ok hp]
    rw [e'] at e
    exact ih _ f' t e { ha with assoc := (by simp [← ha.assoc]) } hk hr ⟨hc.current, hc.reusable⟩
  | op205 hw _ ih =>
    simp only [visitL, visit]
    exact Clears.seq (build_runs hW hw _ _) (.frame (build_frame _ _) rfl rfl) ih
  | op206 hw _ ih =>
    simp only [visitL, visit]
    exact Clears.seq (build_runs hW hw _ _) (.frame (build_frame _ _) rfl rfl) ih
  | op235 _ ih =>
    simp only [visitL, visit]
    intro f f' t e ha hk hr hc
    exact ih _ f' t ((M.bind_ok (M.modify_apply _ _)).symm.trans e)
      { ha with backref := rfl, pos := nofun, current := nofun, reusable := nofun } hk hr ⟨fun _ => rfl, fun _ => rfl⟩
  | op237end _ ih =>
    simp only [visitL, visit]
    intro f f' t e ha hk hr hc
    exact ih _ f' t ((M.bind_ok (M.modify_apply _ _)).symm.trans e) { ha with current := nofun, reusable := nofun } hk hr
      ⟨fun _ => rfl, fun _ => rfl⟩
  | bitmap hd hm hz h1 hb _ _ ih2 =>
    simp only [visitL]
    exact Clears.seq (bitmap_runs hW hd hm hz (coded_runs hW h1) hb) (fun _ _ _ _ _ _ _ _ => ⟨nofun, nofun⟩) ih2
  | recall hd hz _ ih =>
    simp only [visitL]
    refine Clears.seq (recall_runs hW hd hz) ?_ ih
    intro f f' t e ha hk hr hc
    simp only [visit] at e
    unfold bitmapDef at e
    simp only [] at e
    obtain ⟨_, f0, e0, e1⟩ := M.bind_eq_ok.1 e
    rw [if_pos hd] at e1
    cases e1
    obtain ⟨_, q2⟩ := zero_frame _ _ _ e0
    have hq : ∀ h : _ = none, f0.reusable = none := fun h => q2.trans (hc.reusable h)
    exact ⟨hq, hq⟩
  | @assessment x x1 x2 x3 y ts as ms bm zb b1 b2 b3 bs zs i1 i2 i3 is d n bits h0 hz h1 h2 hc hb hne hn h3 hl h4 ih1 ih2 ih3 ih4 =>
    simp only [visitL, visit]
    rw [visit_single]
    refine Clears.seq (assessment_runs hW h0 hz (coded_runs hW h1) (coded_runs hW h2) hc hb hne hn (coded_runs hW h3) hl) ?_ ih4
    intro f f' t e ha hk hr hcl
    unfold assessment at e
    have hpre := ((newAssessment_runs h0).seq ((zero_runs hW hz).seq (coded_runs hW h1)))
    have hcl1 : Clears At k _ x _ x1 := Clears.seq (newAssessment_runs (F := F) (At := At) h0) (.frame newAssessment_frame rfl rfl)
      (Clears.seq (zero_runs hW hz) (.frame (zero_frame d) rfl rfl) ih1)
    rw [List.nil_append] at hpre hcl1
    rw [List.nil_append] at hpre
    rw [List.append_assoc, List.append_assoc] at hr
    obtain ⟨f1, e1, r1, c1, a1, k1⟩ := hpre f _ ha hk hr
    have cl1 := hcl1 f f1 _ e1 ha hk hr hcl
    obtain ⟨_, g1, q1, e1⟩ := M.bind_eq_ok.1 e1
    obtain ⟨_, g2, q2, q3⟩ := M.bind_eq_ok.1 e1
    obtain ⟨f2, e2, r2, c2, a2, k2⟩ := added_runs (coded_runs hW h2) a1 k1 r1
    have cl2 := ih2 f1 f2 _ (added_eq e2) a1 k1 r1 cl1
    have e3 := selectTargets_runs a2 hc hb hne hn
    have a3 : Agrees { f2 with targets := selected bits n } { x2 with targets := selected bits n } := { a2 with targets := rfl }
    obtain ⟨f4, e4, r4, c4, a4, k4⟩ := added_runs (coded_runs hW h3) a3 k2 r2
    have cl4 := ih3 _ f4 _ (added_eq e4) a3 k2 r2 ⟨cl2.current, cl2.reusable⟩
    rw [M.bind_ok q1, M.bind_ok q2, M.bind_ok q3, M.bind_ok e2, M.bind_ok e3, M.bind_ok e4] at e
    obtain ⟨q4, q5⟩ := attachSources_frame _ _ _ _ _ e
    exact ⟨fun h => q4.trans (cl4.current h), fun h => q5.trans (cl4.reusable h)⟩
  | marker ht hs h0 he hw _ ih =>
    simp only [visitL]
    exact Clears.seq (marker_runs hW ht hs h0 he hw) (.frame (marker_frame _) rfl rfl) ih

end EncodeSpec
end Gobufr
