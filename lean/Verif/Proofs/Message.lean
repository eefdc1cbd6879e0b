import Verif.Proofs.Factory
import Verif.Spec.Message

/-!
# Helper lemmas: what the scripts do to the message
-/

namespace Gobufr
open Spec

variable {F : Type}

theorem theSection_eq {s : Fac F} {m : Message F} {front : List (Section F)} {sec : Section F}
    (hm : s.message = some m) (hl : m.sections = front ++ [sec]) : Fac.theSection s = (.ok sec, s) := by
  unfold Fac.theSection
  rw [hm]
  simp [hl]

theorem changeSection_eq {s : Fac F} {m : Message F} {front : List (Section F)} {sec : Section F}
    (g : Section F → Section F) (hm : s.message = some m) (hl : m.sections = front ++ [sec]) :
    Fac.changeSection g s = (.ok (), { s with message := some { m with sections := front ++ [g sec] } }) := by
  unfold Fac.changeSection
  rw [hm]
  simp [Message.modifyLast, hl]

theorem bitsLeft_eq {s : Fac F} {m : Message F} {front : List (Section F)} {sec : Section F} (L : Nat)
    (hm : s.message = some m) (hl : m.sections = front ++ [sec]) :
    Fac.bitsLeft L s = (.ok ((L : Int) * 8 - (s.r.pos - sec.startByteIndex * 8)), s) := by
  unfold Fac.bitsLeft
  rw [M.bind_ok (theSection_eq hm hl)]
  rfl

theorem setProxyField_eq {s : Fac F} {m : Message F} (f : Field F) (hm : s.message = some m) :
    Fac.setProxyField f s = (.ok (), { s with message := some (m.setProxyField f) }) := by
  unfold Fac.setProxyField
  rw [hm]

theorem theMessage_eq {s : Fac F} {m : Message F} (hm : s.message = some m) : Fac.theMessage s = (.ok m, s) := by
  unfold Fac.theMessage
  rw [hm]

/-- A new section at any position. -/
theorem newSection_eq {s : Fac F} {m : Message F} (number : Int) (description : GoString)
    (hm : s.message = some m) :
    Fac.newSection number description s = (.ok (), { s with message := some { m with sections :=
      m.sections ++ [{ number := number, description := description, startByteIndex := s.r.pos.tdiv 8 }] } }) := by
  unfold Fac.newSection
  rw [M.bind_ok (theMessage_eq hm), M.bind_ok (M.modify_apply _ _), M.bind_ok (M.gets_apply _ _)]
  dsimp only
  rw [changeSection_eq _ (m := m.newSection number description) (front := m.sections)
    (sec := Gobufr.newSection number description) rfl rfl]
  rfl

/-- The state with the reader moved on, a field added and the proxies changed. -/
def Fac.grown (s : Fac F) (r : Reader F) (m : Message F) (front : List (Section F)) (sec : Section F)
    (fs : List (Field F)) (pf : List (GoString × Field F)) : Fac F :=
  { s with r := r, message := some ⟨m.inputPath, front ++ [{ sec with fields := sec.fields ++ fs }], pf⟩ }

/-- The field a declaration makes of a value. -/
def FieldDecl.field (d : FieldDecl) (v : Val F) : Field F := ⟨str d.name, .val v, d.nbits, false⟩

def FieldDecl.proxies (d : FieldDecl) (f : Field F) (pf : List (GoString × Field F)) : List (GoString × Field F) :=
  if d.proxy then mapSet pf f.name f else pf

theorem newField_any [GoFloat F] (d : FieldDecl) {s : Fac F} {m : Message F} {front : List (Section F)}
    {sec : Section F} (hm : s.message = some m) (hl : m.sections = front ++ [sec]) {o : Outcome (Val F)} {r : Reader F}
    (h : Fac.readValue d.dataType d.nbits s.r = (o, r)) :
    Script.newField d s = match o with
      | .ok v => (.ok (d.field v), s.grown r m front sec [d.field v] (d.proxies (d.field v) m.proxyFields))
      | .err e => (.err (.wrap "lua" e), { s with r := r })
      | .panic w => (.panic w, { s with r := r })
      | .diverge => (.diverge, { s with r := r }) := by
  unfold Script.newField raise Fac.newField
  have ho := onReader_eq (s := s) h
  cases o with
  | ok v =>
    apply wrapErr_ok
    rw [M.bind_ok ho]
    dsimp only
    rw [M.bind_ok (m := Fac.addField _) (changeSection_eq _ (s := { s with r := r }) hm hl)]
    unfold FieldDecl.field FieldDecl.proxies
    by_cases hp : d.proxy = true
    · rw [if_pos hp, M.bind_ok (setProxyField_eq _ rfl), if_pos hp]
      rfl
    · rw [if_neg hp, if_neg hp]
      rfl
  | err e => exact wrapErr_err (M.bind_err ho)
  | panic w => simp only [M.wrapErr, M.bind_panic ho]
  | diverge => simp only [M.wrapErr, M.bind_diverge ho]

theorem newField_ok [GoFloat F] {d : FieldDecl} {s s' : Fac F} {f : Field F} {m : Message F}
    {front : List (Section F)} {sec : Section F} (hm : s.message = some m) (hl : m.sections = front ++ [sec])
    (h : Script.newField d s = (.ok f, s')) :
    ∃ v r, Fac.readValue d.dataType d.nbits s.r = (.ok v, r) ∧ f = d.field v ∧
      s' = s.grown r m front sec [f] (d.proxies f m.proxyFields) := by
  rcases hr : Fac.readValue d.dataType d.nbits s.r with ⟨o, r⟩
  rw [newField_any d hm hl hr] at h
  cases o with
  | ok v => cases h; exact ⟨v, r, rfl, rfl, rfl⟩
  | err e => cases h
  | panic w => cases h
  | diverge => cases h

/-- Fields read one after the other. -/
inductive ReadFields [GoFloat F] : Reader F → List FieldDecl → List (Field F) → Reader F → Prop where
  | nil (r : Reader F) : ReadFields r [] [] r
  | cons {r r1 r2 : Reader F} {d : FieldDecl} {ds : List FieldDecl} {fs : List (Field F)} {v : Val F}
      (h1 : Fac.readValue d.dataType d.nbits r = (.ok v, r1)) (h2 : ReadFields r1 ds fs r2) :
      ReadFields r (d :: ds) (d.field v :: fs) r2

def proxiesOf : List FieldDecl → List (Field F) → List (GoString × Field F) → List (GoString × Field F)
  | d :: ds, f :: fs, pf => proxiesOf ds fs (d.proxies f pf)
  | _, _, pf => pf

theorem newFields_ok [GoFloat F] : ∀ {ds : List FieldDecl} {s s' : Fac F} {m : Message F}
    {front : List (Section F)} {sec : Section F}, s.message = some m → m.sections = front ++ [sec] →
    Script.newFields ds s = (.ok (), s') →
    ∃ r fs, ReadFields s.r ds fs r ∧ s' = s.grown r m front sec fs (proxiesOf ds fs m.proxyFields)
  | [], s, s', m, front, sec, hm, hl, h => by
    cases h
    refine ⟨s.r, [], .nil _, ?_⟩
    unfold Fac.grown
    obtain ⟨r, message, ut, tg⟩ := s
    obtain ⟨ip, ss, pf⟩ := m
    dsimp only at hm hl ⊢
    subst hm hl
    simp [proxiesOf]
  | d :: ds, s, s', m, front, sec, hm, hl, h => by
    unfold Script.newFields at h
    obtain ⟨f, s1, h1, h2⟩ := M.bind_eq_ok.1 h
    obtain ⟨v, r1, hv, rfl, rfl⟩ := newField_ok hm hl h1
    obtain ⟨r, fs, hr, rfl⟩ := newFields_ok (s := s.grown r1 m front sec [d.field v] _)
      (m := ⟨m.inputPath, front ++ [{ sec with fields := sec.fields ++ [d.field v] }], _⟩)
      (front := front) (sec := { sec with fields := sec.fields ++ [d.field v] }) rfl rfl h2
    refine ⟨r, d.field v :: fs, .cons hv hr, ?_⟩
    unfold Fac.grown
    simp [proxiesOf]

theorem ReadFields.shape [GoFloat F] {r r' : Reader F} {ds : List FieldDecl} {fs : List (Field F)}
    (h : ReadFields r ds fs r') : fs.map (fun f => (f.name, f.nbits, f.hidden)) =
      ds.map fun d => (str d.name, d.nbits, false) := by
  induction h with
  | nil => rfl
  | cons h1 h2 ih => simp [ih, FieldDecl.field]

theorem padding_ok {s s' : Fac F} {m : Message F} {front : List (Section F)} {sec : Section F} {v : LuaVal F}
    (hm : s.message = some m) (hl : m.sections = front ++ [sec]) (h : Script.padding v s = (.ok (), s')) :
    ∃ r pad n, s' = s.grown r m front { sec with padding := n } pad m.proxyFields ∧
      (pad = [] ∧ r = s.r ∧ n = sec.padding ∨
        ∃ b, pad = [⟨str "padding", .val (.binary (some b)), b.nbits, true⟩] ∧
          Reader.readBinary n s.r = (.ok (some b), r)) := by
  unfold Script.padding at h
  obtain ⟨o, s1, h1, h2⟩ := M.bind_eq_ok.1 h
  cases h2
  replace h1 := of_wrapErr_ok h1
  unfold Fac.padding at h1
  rw [M.bind_ok (bitsLeft_eq _ hm hl)] at h1
  generalize (v.toUnsigned : Int) * 8 - (s.r.pos - sec.startByteIndex * 8) = n at h1
  by_cases h0 : n = 0
  · rw [if_pos h0] at h1
    cases h1
    refine ⟨s.r, [], sec.padding, ?_, Or.inl ⟨rfl, rfl, rfl⟩⟩
    unfold Fac.grown
    obtain ⟨r, message, ut, tg⟩ := s
    obtain ⟨ip, ss, pf⟩ := m
    dsimp only at hm hl ⊢
    subst hm hl
    simp
  · rw [if_neg h0] at h1
    by_cases h3 : n < 0
    · rw [if_pos h3] at h1; cases h1
    · rw [if_neg h3, M.bind_ok (changeSection_eq _ hm hl)] at h1
      obtain ⟨b, s2, hb, h1⟩ := M.bind_eq_ok.1 h1
      obtain ⟨hb1, hb2⟩ := onReader_ok (of_wrapErr_ok hb)
      cases b with
      | none => cases h1
      | some b =>
        obtain ⟨u, s3, h4, h5⟩ := M.bind_eq_ok.1 h1
        cases h5
        rw [hb2, Fac.addField, changeSection_eq _ rfl rfl] at h4
        cases h4
        exact ⟨s2.r, _, n, rfl, Or.inr ⟨b, rfl, hb1⟩⟩

theorem newTemplateField_ok [GoFloat F] {s s' : Fac F} {m : Message F} {front : List (Section F)} {sec : Section F}
    {name : GoString} {fb xb yb : Int} {L : Nat} {f : Field F} (hm : s.message = some m)
    (hl : m.sections = front ++ [sec])
    (h : raise (Fac.newTemplateField name fb xb yb L) s = (.ok f, s')) :
    ∃ r ids k, Fac.readIds fb xb yb k s.r = (.ok ids, r) ∧
      (k : Int) = ((L : Int) * 8 - (s.r.pos - sec.startByteIndex * 8)).tdiv (fb + xb + yb) ∧
      f = ⟨name, .template ⟨ids, fb, xb, yb⟩, ids.length * (fb + xb + yb), false⟩ ∧
      s' = { s.grown r m front sec [f] (mapSet m.proxyFields name f) with ut := some ⟨ids, fb, xb, yb⟩ } := by
  replace h := of_wrapErr_ok h
  unfold Fac.newTemplateField at h
  rw [M.bind_ok (bitsLeft_eq L hm hl)] at h
  dsimp only at h
  by_cases h0 : fb + xb + yb = 0
  · rw [if_pos h0] at h; cases h
  · rw [if_neg h0] at h
    by_cases h1 : ((L : Int) * 8 - (s.r.pos - sec.startByteIndex * 8)).tdiv (fb + xb + yb) < 0
    · rw [if_pos h1] at h; cases h
    · rw [if_neg h1] at h
      obtain ⟨ids, s1, h2, h⟩ := M.bind_eq_ok.1 h
      obtain ⟨h3, h4⟩ := onReader_ok h2
      rw [h4, M.bind_ok (M.modify_apply _ _)] at h
      obtain ⟨_, s2, h5, h⟩ := M.bind_eq_ok.1 h
      rw [Fac.addField, changeSection_eq _ (by exact hm) hl] at h5
      cases h5
      rw [M.bind_ok (setProxyField_eq _ rfl)] at h
      cases h
      exact ⟨s1.r, ids, _, h3, by omega, rfl, rfl⟩

theorem parseTemplate_state {c : FacCfg} (s : Fac F) : (Fac.parseTemplate c s).2 = s := by
  unfold Fac.parseTemplate
  split <;> rfl

theorem verboseDump_state {c : FacCfg} (t : Ast) (s : Fac F) : (Fac.verboseDump c t s).2 = s := by
  unfold Fac.verboseDump
  split
  · unfold M.ignoreErr
    split
    · next h => simp only [M.lift_apply, Prod.mk.injEq] at h; exact h.2.symm
    · next h => rfl
  · rfl

/-- Decoding the payload: what is parsed, the visitor, and the visitor's run. -/
theorem newPayloadField_ok [GoFloat F] {c : FacCfg} {s s' : Fac F} {m : Message F} {front : List (Section F)}
    {sec : Section F} {name : GoString} {nsubsets : Int} {compressed : Bool} {f : Field F}
    (hm : s.message = some m) (hl : m.sections = front ++ [sec])
    (h : raise (Fac.newPayloadField c name nsubsets compressed) s = (.ok f, s')) :
    ∃ tree p s1, Fac.parseTemplate c s = (.ok tree, s) ∧ Fac.verboseDump c tree s = (.ok (), s) ∧
      Fac.decodePayload c tree nsubsets compressed s = (.ok p, s1) ∧
      f = ⟨name, .payload p, s1.r.pos - s.r.pos, false⟩ ∧
      s' = s.grown s1.r m front sec [f] (mapSet m.proxyFields name f) := by
  replace h := of_wrapErr_ok h
  unfold Fac.newPayloadField at h
  rw [M.bind_ok (M.gets_apply _ _)] at h
  obtain ⟨tree, s2, h1, h⟩ := M.bind_eq_ok.1 h
  have e1 := parseTemplate_state (c := c) s
  rw [h1] at e1
  dsimp only at e1
  subst e1
  obtain ⟨_, s3, h2, h⟩ := M.bind_eq_ok.1 h
  have e2 := verboseDump_state (c := c) tree s2
  rw [h2] at e2
  dsimp only at e2
  subst e2
  obtain ⟨p, s4, h3, h⟩ := M.bind_eq_ok.1 h
  have hs4 : s4 = { s3 with r := s4.r } := by
    unfold Fac.decodePayload at h3
    obtain ⟨vc, s5, h4, h5⟩ := M.bind_eq_ok.1 h3
    simp only [M.lift_apply, Prod.mk.injEq] at h4
    obtain ⟨h4, rfl⟩ := h4
    simp only [M.zoom, Prod.mk.injEq] at h5
    rw [← h5.2]
  rw [M.bind_ok (M.gets_apply _ _)] at h
  obtain ⟨_, s5, h4, h⟩ := M.bind_eq_ok.1 h
  rw [Fac.addField, changeSection_eq (m := m) _ (by rw [hs4]; exact hm) hl] at h4
  cases h4
  rw [M.bind_ok (setProxyField_eq _ rfl)] at h
  cases h
  refine ⟨tree, p, s4, h1, h2, h3, rfl, ?_⟩
  rw [hs4]
  rfl

end Gobufr
