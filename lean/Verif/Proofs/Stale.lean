import Verif.Model.Script
import Verif.Proofs.Message

/-!
# What a factory holds from an earlier message is not used

Used for `C97`.  A factory is used for one message after the other; the message, the template and the
table group of the last one stay in it until they are overwritten.
-/

namespace Gobufr

variable {F : Type}

/-- The call looks at the reader and the message only and changes nothing else. -/
def Plain (m : M (Fac F) α) : Prop := ∀ s t : Fac F, s.r = t.r → s.message = t.message →
  (m s).1 = (m t).1 ∧ (m s).2.r = (m t).2.r ∧ (m s).2.message = (m t).2.message ∧
    (m s).2.ut = s.ut ∧ (m s).2.tableGroup = s.tableGroup

/-- The factories agree, on the template if `u` and on the table group if `g`. -/
structure Agree (u g : Prop) (s t : Fac F) : Prop where
  r : s.r = t.r
  message : s.message = t.message
  ut : u → s.ut = t.ut
  tg : g → s.tableGroup = t.tableGroup

/-- Started in factories that agree the call does the same; and they agree after it. -/
def Same (u g u' g' : Prop) (m : M (Fac F) α) : Prop := ∀ s t : Fac F, Agree u g s t →
  (m s).1 = (m t).1 ∧ (m s).2.r = (m t).2.r ∧ (∀ a, (m s).1 = .ok a → Agree u' g' (m s).2 (m t).2)

theorem Plain.same {m : M (Fac F) α} (h : Plain m) (u g : Prop) : Same u g u g m := by
  intro s t e
  obtain ⟨h1, h2, h3, h4, h5⟩ := h s t e.r e.message
  obtain ⟨-, -, -, k4, k5⟩ := h t s e.r.symm e.message.symm
  exact ⟨h1, h2, fun _ _ => ⟨h2, h3, fun hu => by rw [h4, k4, e.ut hu], fun hg => by rw [h5, k5, e.tg hg]⟩⟩

theorem Plain.bind {m : M (Fac F) α} {f : α → M (Fac F) β} (hm : Plain m) (hf : ∀ a, Plain (f a)) :
    Plain (m >>= f) := by
  intro s t hr hmsg
  obtain ⟨h1, h2, h3, h4, h5⟩ := hm s t hr hmsg
  rw [M.bind_apply, M.bind_apply]
  rcases hx : m s with ⟨o, p⟩
  rcases hy : m t with ⟨o', q⟩
  rw [hx, hy] at h1 h2 h3
  rw [hx] at h4 h5
  dsimp only at h1 h2 h3 h4 h5
  subst h1
  cases o with
  | ok a =>
    obtain ⟨k1, k2, k3, k4, k5⟩ := hf a p q h2 h3
    exact ⟨k1, k2, k3, k4.trans h4, k5.trans h5⟩
  | err e => exact ⟨rfl, h2, h3, h4, h5⟩
  | panic w => exact ⟨rfl, h2, h3, h4, h5⟩
  | diverge => exact ⟨rfl, h2, h3, h4, h5⟩

theorem Plain.wrap {m : M (Fac F) α} (hm : Plain m) (w : String) : Plain (M.wrapErr w m) := by
  intro s t hr hmsg
  obtain ⟨h1, h2, h3, h4, h5⟩ := hm s t hr hmsg
  unfold M.wrapErr
  rcases hx : m s with ⟨o, p⟩
  rcases hy : m t with ⟨o', q⟩
  rw [hx, hy] at h1 h2 h3
  rw [hx] at h4 h5
  dsimp only at h1 h2 h3 h4 h5
  subst h1
  cases o <;> exact ⟨rfl, h2, h3, h4, h5⟩

theorem plain_pure (a : α) : Plain (pure a : M (Fac F) α) := fun _ _ h1 h2 => ⟨rfl, h1, h2, rfl, rfl⟩
theorem plain_fail (e : Err) : Plain (M.fail e : M (Fac F) α) := fun _ _ h1 h2 => ⟨rfl, h1, h2, rfl, rfl⟩
theorem plain_crash (w : String) : Plain (M.crash w : M (Fac F) α) := fun _ _ h1 h2 => ⟨rfl, h1, h2, rfl, rfl⟩
theorem plain_lift (o : Outcome α) : Plain (M.lift o : M (Fac F) α) := fun _ _ h1 h2 => ⟨rfl, h1, h2, rfl, rfl⟩
theorem plain_pos : Plain (M.gets fun s : Fac F => s.r.pos) := fun s t h1 h2 =>
  ⟨by show Outcome.ok s.r.pos = Outcome.ok t.r.pos; rw [h1], h1, h2, rfl, rfl⟩

theorem plain_onReader (m : M (Reader F) α) : Plain (Fac.onReader m) := by
  intro s t h1 h2
  show (m s.r).1 = (m t.r).1 ∧ (m s.r).2 = (m t.r).2 ∧ s.message = t.message ∧ s.ut = s.ut ∧ s.tableGroup = s.tableGroup
  rw [h1]
  exact ⟨rfl, rfl, h2, rfl, rfl⟩

theorem plain_theMessage : Plain (Fac.theMessage : M (Fac F) (Message F)) := by
  intro s t h1 h2
  unfold Fac.theMessage
  rw [h2]
  cases t.message with
  | none => exact ⟨rfl, h1, h2, rfl, rfl⟩
  | some m => exact ⟨rfl, h1, h2, rfl, rfl⟩

theorem plain_theSection : Plain (Fac.theSection : M (Fac F) (Section F)) := by
  intro s t h1 h2
  unfold Fac.theSection
  rw [h2]
  split <;> exact ⟨rfl, h1, h2, rfl, rfl⟩

theorem plain_changeSection (k : Section F → Section F) : Plain (Fac.changeSection k) := by
  intro s t h1 h2
  unfold Fac.changeSection
  rw [h2]
  split
  · exact ⟨rfl, h1, rfl, rfl, rfl⟩
  · exact ⟨rfl, h1, h2, rfl, rfl⟩

theorem plain_setProxyField (f : Field F) : Plain (Fac.setProxyField f) := by
  intro s t h1 h2
  unfold Fac.setProxyField
  rw [h2]
  cases t.message with
  | none => exact ⟨rfl, h1, h2, rfl, rfl⟩
  | some m => exact ⟨rfl, h1, rfl, rfl, rfl⟩

theorem plain_setMessage (m : Message F) :
    Plain (M.modify fun s : Fac F => { s with message := some m }) := fun _ _ h1 _ => ⟨rfl, h1, rfl, rfl, rfl⟩

theorem Plain.ite {q : Prop} [Decidable q] {a b : M (Fac F) α} (ha : Plain a) (hb : Plain b) :
    Plain (if q then a else b) := by split <;> assumption

theorem plain_newSection (n : Int) (d : GoString) : Plain (Fac.newSection n d : M (Fac F) Unit) :=
  plain_theMessage.bind fun _ => (plain_setMessage _).bind fun _ => plain_pos.bind fun _ => plain_changeSection _

theorem plain_newField [GoFloat F] (name : GoString) (t : DataType) (n : Int) (proxy : Bool) :
    Plain (Fac.newField name t n proxy : M (Fac F) (Field F)) := by
  refine (plain_onReader _).bind fun v => (plain_changeSection _).bind fun _ => ?_
  cases proxy
  · exact plain_pure _
  · exact (plain_setProxyField _).bind fun _ => plain_pure _

theorem plain_bitsLeft (n : Nat) : Plain (Fac.bitsLeft n : M (Fac F) Int) :=
  plain_theSection.bind fun x => fun s t h1 h2 =>
    ⟨by show Outcome.ok ((n : Int) * 8 - (s.r.pos - x.startByteIndex * 8)) =
          Outcome.ok ((n : Int) * 8 - (t.r.pos - x.startByteIndex * 8))
        rw [h1], h1, h2, rfl, rfl⟩

theorem plain_padding (n : Nat) : Plain (Fac.padding n : M (Fac F) (Option (Field F))) :=
  (plain_bitsLeft n).bind fun _ => Plain.ite (plain_pure _) (Plain.ite (plain_fail _)
    ((plain_changeSection _).bind fun _ => ((plain_onReader _).wrap _).bind fun b => by
      cases b with
      | none => exact plain_crash _
      | some b => exact (plain_changeSection _).bind fun _ => plain_pure _))

/-! ## Calls that use what the factory holds -/

theorem Same.bind {u g u' g' u'' g'' : Prop} {m : M (Fac F) α} {f : α → M (Fac F) β} (hm : Same u g u' g' m)
    (hf : ∀ a, Same u' g' u'' g'' (f a)) : Same u g u'' g'' (m >>= f) := by
  intro s t e
  obtain ⟨h1, h2, h3⟩ := hm s t e
  rw [M.bind_apply, M.bind_apply]
  rcases hx : m s with ⟨o, p⟩
  rcases hy : m t with ⟨o', q⟩
  rw [hx, hy] at h1 h2 h3
  dsimp only at h1 h2 h3
  subst h1
  cases o with
  | ok a => exact hf a p q (h3 a rfl)
  | err e => exact ⟨rfl, h2, fun _ h => nomatch h⟩
  | panic w => exact ⟨rfl, h2, fun _ h => nomatch h⟩
  | diverge => exact ⟨rfl, h2, fun _ h => nomatch h⟩

theorem Same.wrap {u g u' g' : Prop} {m : M (Fac F) α} (hm : Same u g u' g' m) (w : String) :
    Same u g u' g' (M.wrapErr w m) := by
  intro s t e
  obtain ⟨h1, h2, h3⟩ := hm s t e
  unfold M.wrapErr
  rcases hx : m s with ⟨o, p⟩
  rcases hy : m t with ⟨o', q⟩
  rw [hx, hy] at h1 h2 h3
  dsimp only at h1 h2 h3
  subst h1
  cases o with
  | ok a => exact ⟨rfl, h2, fun b _ => h3 a rfl⟩
  | err e => exact ⟨rfl, h2, fun _ h => nomatch h⟩
  | panic w => exact ⟨rfl, h2, fun _ h => nomatch h⟩
  | diverge => exact ⟨rfl, h2, fun _ h => nomatch h⟩

theorem same_setUt (u g : Prop) (ut : Option UnexpandedTemplate) :
    Same u g True g (M.modify fun s : Fac F => { s with ut := ut }) :=
  fun _ _ e => ⟨rfl, e.r, fun _ _ => ⟨e.r, e.message, fun _ => rfl, e.tg⟩⟩

theorem same_newTemplateField [GoFloat F] (u g : Prop) (name : GoString) (a b d : Int) (n : Nat) :
    Same u g True g (Fac.newTemplateField name a b d n : M (Fac F) (Field F)) := by
  refine ((plain_bitsLeft n).same u g).bind fun _ => ?_
  dsimp only
  split
  · exact fun _ _ e => ⟨rfl, e.r, fun _ h => nomatch h⟩
  · split
    · exact fun _ _ e => ⟨rfl, e.r, fun _ h => nomatch h⟩
    · exact ((plain_onReader _).same u g).bind fun _ => (same_setUt u g _).bind fun _ =>
        (((plain_changeSection _).bind fun _ => (plain_setProxyField _).bind fun _ => plain_pure _).same _ _)

theorem same_tables (c : FacCfg) (u g : Prop) (a b d e f : Int) :
    Same u g u True (Fac.initTableGroup c a b d e f : M (Fac F) Unit) := by
  intro s t h
  unfold Fac.initTableGroup
  split
  · exact ⟨rfl, h.r, fun _ _ => ⟨h.r, h.message, h.ut, fun _ => rfl⟩⟩
  · exact ⟨rfl, h.r, fun _ k => nomatch k⟩
  · exact ⟨rfl, h.r, fun _ k => nomatch k⟩
  · exact ⟨rfl, h.r, fun _ k => nomatch k⟩

theorem same_parse (c : FacCfg) : Same True True True True (Fac.parseTemplate c : M (Fac F) Ast) := by
  intro s t h
  have hl : Fac.lookup s = Fac.lookup t := by unfold Fac.lookup; rw [h.tg trivial]
  unfold Fac.parseTemplate
  rw [h.ut trivial, hl]
  cases t.ut with
  | none => exact ⟨rfl, h.r, fun _ _ => h⟩
  | some ut => exact ⟨rfl, h.r, fun _ _ => h⟩

theorem plain_dump (c : FacCfg) (tree : Ast) : Plain (Fac.verboseDump c tree : M (Fac F) Unit) := by
  unfold Fac.verboseDump
  split
  · intro s t h1 h2
    unfold M.ignoreErr M.lift
    rcases (AstDump.visit tree ⟨[], []⟩).1 with _ | _ | _ | _ <;> exact ⟨rfl, h1, h2, rfl, rfl⟩
  · exact plain_pure _

theorem plain_payload [GoFloat F] (c : FacCfg) (tree : Ast) (n : Int) (b : Bool) :
    Plain (Fac.decodePayload c tree n b : M (Fac F) (Payload F)) :=
  (plain_lift _).bind fun _ => fun s t h1 h2 => by
    dsimp only [M.zoom]
    rw [h1]
    exact ⟨rfl, rfl, h2, rfl, rfl⟩

theorem same_newPayloadField [GoFloat F] (c : FacCfg) (name : GoString) (n : Int) (b : Bool) :
    Same True True True True (Fac.newPayloadField c name n b : M (Fac F) (Field F)) :=
  (plain_pos.same _ _).bind fun _ => (same_parse c).bind fun _ => ((plain_dump c _).same _ _).bind fun _ =>
    ((plain_payload c _ n b).same _ _).bind fun _ => (plain_pos.same _ _).bind fun _ =>
      (((plain_changeSection _).bind fun _ => (plain_setProxyField _).bind fun _ => plain_pure _).same _ _)

/-! ## The scripts -/

theorem plain_field [GoFloat F] (d : FieldDecl) : Plain (Script.newField d : M (Fac F) (Field F)) :=
  (plain_newField _ _ _ _).wrap _

theorem plain_fields [GoFloat F] : ∀ ds : List FieldDecl, Plain (Script.newFields ds : M (Fac F) Unit)
  | [] => plain_pure _
  | d :: ds => (plain_field d).bind fun _ => plain_fields ds

theorem plain_proxyValue (name : String) : Plain (Script.proxyValue name : M (Fac F) (LuaVal F)) :=
  plain_theMessage.bind fun _ => (plain_lift _).bind fun _ => plain_lift _

theorem plain_scriptPadding (v : LuaVal F) : Plain (Script.padding v : M (Fac F) Unit) :=
  ((plain_padding _).wrap _).bind fun _ => plain_pure _

variable [GoFloat F]

theorem plain_section0 : Plain (Script.section0 : M (Fac F) Unit) :=
  (plain_newSection _ _).bind fun _ => plain_fields _

theorem plain_section1 (ds : List FieldDecl) : Plain (Script.section1 ds : M (Fac F) Unit) :=
  (plain_newSection _ _).bind fun _ => (plain_field _).bind fun _ => (plain_fields _).bind fun _ =>
    (plain_lift _).bind fun _ => plain_scriptPadding _

theorem plain_section2 : Plain (Script.section2 : M (Fac F) Unit) :=
  (plain_newSection _ _).bind fun _ => (plain_field _).bind fun _ => (plain_field _).bind fun _ =>
    (plain_lift _).bind fun _ => (plain_lift _).bind fun _ => (plain_field _).bind fun _ => plain_pure _

theorem plain_optional : Plain (Script.optionalSection2 : M (Fac F) Unit) :=
  (plain_proxyValue _).bind fun _ => Plain.ite plain_section2 (plain_pure _)

theorem same_section3 (u g : Prop) : Same u g True g (Script.section3 : M (Fac F) Unit) :=
  (((plain_newSection 3 (str "Data Description Section")).same u g).bind fun _ =>
    ((plain_field _).same u g).bind fun _ => ((plain_fields _).same u g).bind fun _ =>
    ((plain_lift _).same u g).bind fun _ => ((same_newTemplateField u g _ _ _ _ _).wrap _).bind fun _ =>
    ((plain_lift _).bind fun _ => plain_scriptPadding _).same _ _)

omit [GoFloat F] in
theorem same_initTables (c : FacCfg) (u g : Prop) : Same u g u True (Script.initTableGroup c : M (Fac F) Unit) :=
  ((plain_proxyValue "masterTableNumber").same u g).bind fun _ =>
    ((plain_proxyValue "originatingCentre").same u g).bind fun _ =>
    ((plain_proxyValue "originatingSubCentre").same u g).bind fun _ =>
    ((plain_proxyValue "masterTableVersion").same u g).bind fun _ =>
    ((plain_proxyValue "localTableVersion").same u g).bind fun _ =>
    (same_tables c u g _ _ _ _ _).wrap _

theorem same_section4 (c : FacCfg) : Same True True True True (Script.section4 c : M (Fac F) Unit) :=
  ((plain_newSection 4 (str "Data Section")).same _ _).bind fun _ =>
    ((plain_field _).same _ _).bind fun _ => ((plain_field _).same _ _).bind fun _ =>
    ((plain_proxyValue "nSubsets").same _ _).bind fun _ => ((plain_proxyValue "isCompressed").same _ _).bind fun _ =>
    ((same_newPayloadField c _ _ _).wrap _).bind fun _ =>
    ((plain_lift _).bind fun _ => plain_scriptPadding _).same _ _

theorem plain_section5 : Plain (Script.section5 : M (Fac F) Unit) :=
  (plain_newSection _ _).bind fun _ => plain_fields _

/-- The factories have the same reader. -/
theorem deserialise_same (c : FacCfg) (ds : List FieldDecl) {s t : Fac F} (h : s.r = t.r) :
    (Script.deserialise c ds s).1 = (Script.deserialise c ds t).1 ∧
    (Script.deserialise c ds s).2.r = (Script.deserialise c ds t).2.r := by
  have k : Same False False True True (Script.section0 >>= fun _ => Script.section1 ds >>= fun _ =>
      Script.optionalSection2 >>= fun _ => Script.section3 >>= fun _ => Script.initTableGroup c >>= fun _ =>
      Script.section4 c >>= fun _ => Script.section5 >>= fun _ => Fac.theMessage : M (Fac F) (Message F)) :=
    (plain_section0.same _ _).bind fun _ => ((plain_section1 ds).same _ _).bind fun _ =>
      (plain_optional.same _ _).bind fun _ => (same_section3 _ _).bind fun _ => (same_initTables c _ _).bind fun _ =>
      (same_section4 c).bind fun _ => (plain_section5.same _ _).bind fun _ => plain_theMessage.same _ _
  obtain ⟨h1, h2, -⟩ := k { s with message := some (newMessage []) } { t with message := some (newMessage []) }
    ⟨h, rfl, fun h => h.elim, fun h => h.elim⟩
  exact ⟨h1, h2⟩

theorem boot_same (c : FacCfg) {s t : Fac F} (h : s.r = t.r) :
    (Script.boot c s).1 = (Script.boot c t).1 ∧ (Script.boot c s).2.r = (Script.boot c t).2.r := by
  have e : ∀ s : Fac F, (Fac.peekEditionNumber s) =
      (((Reader.peekUint 7 8 : M (Reader F) Nat) s.r).1, { s with r := ((Reader.peekUint 7 8 : M (Reader F) Nat) s.r).2 }) :=
    fun _ => rfl
  unfold Script.boot
  rw [M.bind_apply, M.bind_apply]
  unfold raise M.wrapErr
  rw [e s, e t, h]
  rcases (Reader.peekUint 7 8 : M (Reader F) Nat) t.r with ⟨o, r⟩
  cases o with
  | ok n =>
    dsimp only
    split
    · exact deserialise_same c _ rfl
    · split
      · exact deserialise_same c _ rfl
      · exact ⟨rfl, rfl⟩
  | err e => exact ⟨rfl, rfl⟩
  | panic w => exact ⟨rfl, rfl⟩
  | diverge => exact ⟨rfl, rfl⟩

/-- What a run does depends on the reader only. -/
theorem run_same (c : FacCfg) {s t : Fac F} (h : s.r = t.r) :
    (Runtime.run c s).1 = (Runtime.run c t).1 ∧ (Runtime.run c s).2.r = (Runtime.run c t).2.r := by
  have e : ∀ s : Fac F, (Fac.seekStartSignature s) =
      ((Fac.seekLoop (Fac.left s.r + 1) s.r).1, { s with r := (Fac.seekLoop (Fac.left s.r + 1) s.r).2 }) :=
    fun _ => rfl
  unfold Runtime.run
  rw [M.bind_apply, M.bind_apply, e s, e t, h]
  rcases Fac.seekLoop (Fac.left t.r + 1) t.r with ⟨o, r⟩
  cases o with
  | ok _ => exact boot_same c rfl
  | err e => exact ⟨rfl, rfl⟩
  | panic w => exact ⟨rfl, rfl⟩
  | diverge => exact ⟨rfl, rfl⟩

end Gobufr
