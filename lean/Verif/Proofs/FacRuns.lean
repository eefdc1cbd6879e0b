import Verif.Proofs.Runs
import Verif.Proofs.Sections
import Verif.Props.PayloadInput
import Verif.Props.Message

/-!
# Helper lemmas: what decoding a message depends on
-/

namespace Gobufr
open Spec

variable {F : Type}

/-- `t` is `s` with other input, `k` bytes further on.  With `U` the templates are the same, with `G` the
tables. -/
structure Rel (U G : Bool) (k : Int) (x : Bits) (s t : Fac F) : Prop where
  r : t.r = .bin ⟨x, s.r.pos + 8 * k⟩
  message : t.message = s.message.map (moved k)
  ut : U = true → t.ut = s.ut
  tg : G = true → t.tableGroup = s.tableGroup

/-- With `G` there are tables. -/
def HasTables (G : Bool) (s : Fac F) : Prop := G = true → ∃ g, s.tableGroup = some g

/-- A call that succeeds depends only on the bits it consumes, if at least `n` bits are left. -/
def FLocal (n : Nat) (U G U' G' : Bool) (m : M (Fac F) α) : Prop :=
  ∀ s src p a s', HasTables G s → s.r = .bin ⟨src, p⟩ → m s = (.ok a, s') →
    HasTables G' s' ∧ ∃ src' p', s'.r = .bin ⟨src', p'⟩ ∧ src'.length ≤ src.length ∧ (n ≤ src'.length → ∃ l, src = l ++ src' ∧
      ∀ z k t, Rel U G k (l ++ z) s t → ∃ t', m t = (.ok a, t') ∧ Rel U' G' k z s' t')

namespace FLocal

variable {n : Nat} {U G U' G' U'' G'' : Bool}

theorem bind {m : M (Fac F) α} {f : α → M (Fac F) β} (hm : FLocal n U G U' G' m)
    (hf : ∀ a, FLocal n U' G' U'' G'' (f a)) : FLocal n U G U'' G'' (m >>= f) := by
  intro s src p b s'' hT hs h
  obtain ⟨a, s', h1, h2⟩ := M.bind_eq_ok.1 h
  obtain ⟨hT1, src1, p1, e1, l1, k1⟩ := hm s src p a s' hT hs h1
  obtain ⟨hT2, src2, p2, e2, l2, k2⟩ := hf a s' src1 p1 b s'' hT1 e1 h2
  refine ⟨hT2, src2, p2, e2, by omega, fun hn => ?_⟩
  obtain ⟨x2, rfl, q2⟩ := k2 hn
  obtain ⟨x1, rfl, q1⟩ := k1 (by omega)
  refine ⟨x1 ++ x2, by rw [List.append_assoc], fun z k t ht => ?_⟩
  rw [List.append_assoc] at ht
  obtain ⟨t1, j1, r1⟩ := q1 _ k t ht
  obtain ⟨t2, j2, r2⟩ := q2 _ k t1 r1
  exact ⟨t2, by rw [M.bind_ok j1, j2], r2⟩

/-- A call that changes nothing and whose result is the same for related states. -/
theorem query (q : Fac F → Outcome α) (h : ∀ k x s t a, Rel U G k x s t → q s = .ok a → q t = .ok a) :
    FLocal n U G U G (fun s => (q s, s) : M (Fac F) α) := by
  intro s src p a s' hT hs hq
  obtain ⟨h1, rfl⟩ := Prod.mk.inj hq
  exact ⟨hT, src, p, hs, Nat.le_refl _, fun _ => ⟨[], rfl, fun z k t ht => ⟨t, by show (q t, t) = _; rw [h _ _ _ _ _ ht h1], ht⟩⟩⟩

theorem pure (a : α) : FLocal n U G U G (Pure.pure a : M (Fac F) α) :=
  query (fun _ => .ok a) fun _ _ _ _ _ _ h => h

theorem fail (e : Err) : FLocal n U G U' G' (M.fail e : M (Fac F) α) := by
  intro s src p a s' hT hs h; cases h

theorem crash (w : String) : FLocal n U G U' G' (M.crash w : M (Fac F) α) := by
  intro s src p a s' hT hs h; cases h

theorem lift (o : Outcome α) : FLocal n U G U G (M.lift o : M (Fac F) α) :=
  query (fun _ => o) fun _ _ _ _ _ _ h => h

theorem ite {p : Prop} [Decidable p] {m m' : M (Fac F) α} (hm : FLocal n U G U' G' m)
    (hn : FLocal n U G U' G' m') : FLocal n U G U' G' (if p then m else m') := by
  by_cases h : p
  · rw [if_pos h]; exact hm
  · rw [if_neg h]; exact hn

theorem wrapErr {w : String} {m : M (Fac F) α} (hm : FLocal n U G U' G' m) :
    FLocal n U G U' G' (M.wrapErr w m) := by
  intro s src p a s' hT hs h
  obtain ⟨hT', src', p', e, l, k⟩ := hm s src p a s' hT hs (of_wrapErr_ok h)
  refine ⟨hT', src', p', e, l, fun hn => ?_⟩
  obtain ⟨x, e', q⟩ := k hn
  refine ⟨x, e', fun z k t ht => ?_⟩
  obtain ⟨t', j, r⟩ := q z k t ht
  exact ⟨t', wrapErr_ok j, r⟩

/-- A read. -/
theorem onReader {E : α → Prop} {m : M (Reader F) α} (hm : Rd E m) (hn : 8 ≤ n ∨ ∀ a, ¬ E a) :
    FLocal n U G U G (Fac.onReader m) := by
  intro s src p a s' hT hs h
  obtain ⟨h1, h2⟩ := onReader_ok h
  rw [hs] at h1
  obtain ⟨src', p', e, l, k⟩ := hm _ _ _ _ h1
  refine ⟨by rw [h2]; exact hT, src', p', e, l, fun hl => ?_⟩
  obtain ⟨x, rfl, q⟩ := k (by
    rcases hn with hn | hn
    · left; omega
    · right; exact hn a)
  refine ⟨x, rfl, fun z k t ht => ?_⟩
  have hp : s.r.pos = p := by rw [hs]; rfl
  have hp' : s'.r.pos = p' := by rw [e]; rfl
  have := q z (8 * k)
  rw [← hp, ← ht.r] at this
  refine ⟨_, onReader_eq this, ⟨?_, ?_, ?_, ?_⟩⟩
  · rw [hp']
  · rw [h2]; exact ht.message
  · rw [h2]; exact ht.ut
  · rw [h2]; exact ht.tg

/-- Changing the current section, but not where it begins. -/
theorem changeSection (g : Section F → Section F) (hg : ∀ (k : Int) (x : Section F),
      g { x with startByteIndex := x.startByteIndex + k } =
        { g x with startByteIndex := (g x).startByteIndex + k }) :
    FLocal n U G U G (Fac.changeSection g) := by
  intro s src p a s' hT hs h
  unfold Fac.changeSection at h
  cases hm : s.message with
  | none => rw [hm] at h; cases h
  | some m =>
    rw [hm] at h
    rcases List.eq_nil_or_concat m.sections with hl | ⟨front, sec, hl⟩
    · simp [Message.modifyLast, hl] at h
    · rw [List.concat_eq_append] at hl
      have h' := changeSection_eq g hm hl
      unfold Fac.changeSection at h'
      rw [hm] at h'
      rw [h'] at h
      cases h
      refine ⟨hT, src, p, hs, Nat.le_refl _, fun _ => ⟨[], rfl, fun z k t ht => ?_⟩⟩
      have htm := ht.message
      rw [hm] at htm
      have ht2 := changeSection_eq g (s := t) (m := moved k m)
        (front := front.map fun x => { x with startByteIndex := x.startByteIndex + k })
        (sec := { sec with startByteIndex := sec.startByteIndex + k }) htm (by simp [moved, hl])
      refine ⟨_, ht2, ⟨ht.r, ?_, ht.ut, ht.tg⟩⟩
      simp [moved, hg]

theorem addField (f : Field F) : FLocal n U G U G (Fac.addField f) := changeSection _ fun _ _ => rfl

theorem setProxyField (f : Field F) : FLocal n U G U G (Fac.setProxyField f) := by
  intro s src p a s' hT hs h
  cases hm : s.message with
  | none => unfold Fac.setProxyField at h; rw [hm] at h; cases h
  | some m =>
    rw [setProxyField_eq f hm] at h
    cases h
    refine ⟨hT, src, p, hs, Nat.le_refl _, fun _ => ⟨[], rfl, fun z k t ht => ?_⟩⟩
    have htm := ht.message
    rw [hm] at htm
    exact ⟨_, setProxyField_eq f htm, ⟨ht.r, rfl, ht.ut, ht.tg⟩⟩

theorem bitsLeft (L : Nat) : FLocal n U G U G (Fac.bitsLeft (F := F) L) := by
  intro s src p a s' hT hs h
  have hm' : ∃ m front sec, s.message = some m ∧ m.sections = front ++ [sec] := by
    unfold Fac.bitsLeft Fac.theSection at h
    obtain ⟨x, s1, h1, h2⟩ := M.bind_eq_ok.1 h
    cases hm : s.message with
    | none => rw [hm] at h1; cases h1
    | some m =>
      rcases List.eq_nil_or_concat m.sections with hl | ⟨front, sec, hl⟩
      · rw [hm] at h1; simp [hl] at h1
      · exact ⟨m, front, sec, rfl, by rw [hl, List.concat_eq_append]⟩
  obtain ⟨m, front, sec, hm, hl⟩ := hm'
  rw [bitsLeft_eq L hm hl] at h
  cases h
  refine ⟨hT, src, p, hs, Nat.le_refl _, fun _ => ⟨[], rfl, fun z k t ht => ?_⟩⟩
  have htm := ht.message
  rw [hm] at htm
  have ht2 := bitsLeft_eq L (s := t) (m := moved k m)
    (front := front.map fun x => { x with startByteIndex := x.startByteIndex + k })
    (sec := { sec with startByteIndex := sec.startByteIndex + k }) htm (by simp [moved, hl])
  refine ⟨t, ?_, ht⟩
  rw [ht2, ht.r]
  congr 2
  show (L : Int) * 8 - (s.r.pos + 8 * k - (sec.startByteIndex + k) * 8) = _
  omega

theorem setUt (u : UnexpandedTemplate) : FLocal n U G true G (M.modify fun s : Fac F => { s with ut := some u }) := by
  intro s src p a s' hT hs h
  cases h
  exact ⟨hT, src, p, hs, Nat.le_refl _, fun _ => ⟨[], rfl, fun z k t ht => ⟨_, rfl, ⟨ht.r, ht.message, fun _ => rfl, ht.tg⟩⟩⟩⟩

theorem value (f : Field F) : FLocal n U G U G (Script.value f) := lift _

theorem proxyValue (name : String) : FLocal n U G U G (Script.proxyValue (F := F) name) := by
  intro s src p a s' hT hs h
  have hm' : ∃ m, s.message = some m := by
    unfold Script.proxyValue Fac.theMessage at h
    obtain ⟨x, s1, h1, h2⟩ := M.bind_eq_ok.1 h
    cases hm : s.message with
    | none => rw [hm] at h1; cases h1
    | some m => exact ⟨m, rfl⟩
  obtain ⟨m, hm⟩ := hm'
  have h0 := h
  obtain ⟨f, hf, hv, rfl⟩ := proxyValue_ok hm h
  refine ⟨hT, src, p, hs, Nat.le_refl _, fun _ => ⟨[], rfl, fun z k t ht => ⟨t, ?_, ht⟩⟩⟩
  have htm := ht.message
  rw [hm] at htm
  unfold Script.proxyValue
  rw [M.bind_ok (theMessage_eq htm)]
  have hpf : (moved k m).proxyField (str name) = .ok f := by
    show m.proxyField (str name) = _
    unfold Message.proxyField
    rw [hf]
  rw [hpf]
  show (BitReader.wrapO "lua" f.luaValue, t) = _
  rw [hv]
  rfl

/-- Reading the value of a field. -/
theorem readValue [GoFloat F] (dt : DataType) (w : Int) :
    ∃ E : Val F → Prop, Rd E (Fac.readValue dt w) ∧ (dt ≠ DataType.BINARY → ∀ v, ¬ E v) := by
  refine ⟨fun v => dt = DataType.BINARY ∧ v = .binary none, ?_, fun h v hv => h hv.1⟩
  have hnv : ∀ {m : M (Reader F) (Val F)}, Rd Never m → Rd (fun v => dt = DataType.BINARY ∧ v = .binary none) m := by
    intro m hm src p a r' h
    obtain ⟨src', p', e, l, k⟩ := hm _ _ _ _ h
    exact ⟨src', p', e, l, fun _ => k (Or.inr fun h => h)⟩
  unfold Fac.readValue
  refine Rd.ite (hnv (Rd.bind' (Rd.readUint _) fun _ => Rd.pure _ _)) (Rd.ite
    (hnv (Rd.bind' (Rd.readInt _) fun _ => Rd.pure _ _)) (Rd.ite
    (hnv (Rd.bind' Rd.readFloat32 fun _ => Rd.pure _ _)) (Rd.ite
    (hnv (Rd.bind' Rd.readBool fun _ => Rd.pure _ _)) (Rd.ite
    (hnv (Rd.bind' (Rd.readBytes _) fun _ => Rd.pure _ _)) ?_))))
  by_cases hb : dt = DataType.BINARY
  · rw [if_pos hb]
    refine Rd.bind (Rd.readBinary _) (fun _ => Rd.pure _ _) ?_
    intro a b r r' h e
    cases h
    exact ⟨hb, by rw [e]⟩
  · rw [if_neg hb]
    exact Rd.stop _ (by intro _ _ _ h; cases h)

theorem newField [GoFloat F] (d : FieldDecl) (hn : 8 ≤ n ∨ d.dataType ≠ DataType.BINARY) :
    FLocal n U G U G (Script.newField (F := F) d) := by
  obtain ⟨E, h1, h2⟩ := readValue (F := F) d.dataType d.nbits
  refine wrapErr (bind (onReader h1 ?_) fun v => ?_)
  · rcases hn with hn | hn
    · exact Or.inl hn
    · exact Or.inr (h2 hn)
  · refine bind (addField _) fun _ => ?_
    exact ite (bind (setProxyField _) fun _ => pure _) (pure _)

theorem newFields [GoFloat F] : ∀ (ds : List FieldDecl), (8 ≤ n ∨ ∀ d ∈ ds, d.dataType ≠ DataType.BINARY) →
    FLocal n U G U G (Script.newFields (F := F) ds)
  | [], _ => pure _
  | d :: ds, hn => bind (newField d (hn.imp id fun h => h d (by simp))) fun _ =>
      newFields ds (hn.imp id fun h x hx => h x (List.mem_cons_of_mem _ hx))

theorem padding (v : LuaVal F) (hn : 8 ≤ n) : FLocal n U G U G (Script.padding v) := by
  refine bind (wrapErr (bind (bitsLeft _) fun x => ite (pure _) (ite (fail _) ?_))) fun _ => pure _
  refine bind (changeSection _ fun _ _ => rfl) fun _ => ?_
  refine bind (wrapErr (onReader (Rd.readBinary _) (Or.inl hn))) fun b => ?_
  cases b with
  | none => exact crash _
  | some b => exact bind (addField _) fun _ => pure _

theorem readIds [GoFloat F] (a b c : Int) : ∀ k, Rd (F := F) Never (Fac.readIds a b c k)
  | 0 => Rd.pure _ _
  | k + 1 => by
    refine Rd.bind' ?_ fun _ => Rd.bind' (readIds a b c k) fun _ => Rd.pure _ _
    exact Rd.bind' (Rd.readUint _) fun _ => Rd.bind' (Rd.readUint _) fun _ => Rd.bind' (Rd.readUint _) fun _ => Rd.pure _ _

theorem newTemplateField [GoFloat F] (name : GoString) (a b c : Int) (L : Nat) :
    FLocal n U G true G (raise (Fac.newTemplateField (F := F) name a b c L)) := by
  refine wrapErr (bind (bitsLeft _) fun x => ite (crash _) (ite (crash _) ?_))
  refine bind (onReader (readIds _ _ _ _) (Or.inr fun _ h => h)) fun ids => ?_
  exact bind (setUt _) fun _ => bind (addField _) fun _ => bind (setProxyField _) fun _ => pure _

theorem initTableGroup (c : FacCfg) : FLocal n U G U true (Script.initTableGroup (F := F) c) := by
  refine bind (proxyValue _) fun _ => bind (proxyValue _) fun _ => bind (proxyValue _) fun _ =>
    bind (proxyValue _) fun _ => bind (proxyValue _) fun _ => wrapErr ?_
  intro s src p a s' hT hs h
  unfold Fac.initTableGroup at h ⊢
  split at h
  · cases h
    refine ⟨fun _ => ⟨_, rfl⟩, src, p, hs, Nat.le_refl _, fun _ => ⟨[], rfl, fun z k t ht => ⟨{ t with tableGroup := some _ }, rfl,
      ⟨ht.r, ht.message, ht.ut, fun _ => rfl⟩⟩⟩⟩
  · cases h
  · cases h
  · cases h

/-- The payload. -/
theorem decodePayload [GoFloat F] {c : FacCfg} (hc : c.inputType = .binary) (hn : 8 ≤ n) (nsubsets : Int)
    (compressed : Bool) : FLocal n true true true true (do
      let tree ← Fac.parseTemplate c
      Fac.verboseDump (F := F) c tree
      Fac.decodePayload c tree nsubsets compressed) := by
  intro s src p pay s' hT hs h
  obtain ⟨tree, s1, h1, ha⟩ := M.bind_eq_ok.1 h
  obtain ⟨_, s2, h2, hb⟩ := M.bind_eq_ok.1 ha
  clear h ha
  have e1 := parseTemplate_state (c := c) s
  rw [h1] at e1
  dsimp only at e1
  subst e1
  have e2 := verboseDump_state (c := c) tree s1
  rw [h2] at e2
  dsimp only at e2
  subst e2
  have hvd : ∀ t : Fac F, Fac.verboseDump c tree t = (.ok (), t) := by
    intro t
    have h3 := verboseDump_state (c := c) tree t
    have h4 : (Fac.verboseDump c tree t).1 = (Fac.verboseDump c tree s2).1 := by
      unfold Fac.verboseDump
      split
      · simp only [M.ignoreErr, M.lift_apply]
        cases (AstDump.visit tree ⟨[], []⟩).1 <;> rfl
      · rfl
    rw [h2] at h4
    exact Prod.ext h4 h3
  unfold Fac.decodePayload at hb
  obtain ⟨vc, s3, h3, hd⟩ := M.bind_eq_ok.1 hb
  clear hb
  obtain ⟨h6, rfl⟩ := Prod.mk.inj h3
  clear h3
  have h3 := h6
  clear h6
  obtain ⟨h4, h5⟩ := Prod.mk.inj hd
  have hj : vc.unpacker ≠ .json := by
    unfold newDeserializeVisitor at h3
    cases hu : newUnpacker c.fuel nsubsets compressed c.inputType with
    | ok u =>
      rw [hu] at h3
      cases h3
      rw [hc] at hu
      unfold newUnpacker at hu
      cases compressed <;> simp at hu <;> subst hu <;> simp
    | err e => rw [hu] at h3; cases h3
    | panic w => rw [hu] at h3; cases h3
    | diverge => rw [hu] at h3; cases h3
  cases hut : s2.ut with
  | none => unfold Fac.parseTemplate at h1; rw [hut] at h1; cases h1
  | some ut =>
    have hp : ∀ g, s2.tableGroup = some g → parse g.lookup c.fuel ut.ids = .ok tree := by
      intro g hg
      unfold Fac.parseTemplate at h1
      rw [hut] at h1
      have hlk : Fac.lookup s2 = g.lookup := by unfold Fac.lookup; rw [hg]
      rw [hlk] at h1
      have h1 := (Prod.mk.inj h1).1
      cases hpp : parse g.lookup c.fuel ut.ids with
      | ok t => rw [hpp] at h1; simpa [Outcome.wrapErr] using h1
      | err e => rw [hpp] at h1; cases h1
      | panic w => rw [hpp] at h1; cases h1
      | diverge => rw [hpp] at h1; cases h1
    cases hg : s2.tableGroup with
    | none => obtain ⟨g, hg'⟩ := hT rfl; rw [hg] at hg'; cases hg'
    | some g =>
      have hp := hp g hg
      obtain ⟨ns, f', rfl, _⟩ := parse_ok_iff.1 hp
      have hns := parse_noBase (good_chain g) ⟨c.fuel, hp⟩
      obtain ⟨src', p', e, l, -, k⟩ := decodeSubsets_local hj hns rootDescriptor _ _ _ (Fac.freshVis s2.r) _ src p hs (eq_of_fst h4)
      refine ⟨by rw [← h5]; exact fun _ => ⟨g, hg⟩, src', p', by rw [← h5]; exact e, l, fun hl => ?_⟩
      obtain ⟨x, rfl, q⟩ := k (Or.inl (by omega))
      refine ⟨x, rfl, fun z k t ht => ?_⟩
      have e1 : Fac.parseTemplate c t = (.ok (.base rootDescriptor ns), t) := by
        have h6 := congrArg Prod.fst h1
        unfold Fac.parseTemplate at h6 ⊢
        unfold Fac.lookup at h6 ⊢
        rw [ht.ut rfl, ht.tg rfl]
        rw [hut] at h6 ⊢
        dsimp only at h6 ⊢
        rw [h6]
      have q1 := q z (8 * k)
      have hsp : s2.r.pos = p := by rw [hs]; rfl
      have e2 : { Fac.freshVis s2.r with r := .bin ⟨x ++ z, p + 8 * k⟩ } = Fac.freshVis t.r := by
        rw [ht.r, hsp]; rfl
      rw [e2] at q1
      refine ⟨{ t with r := .bin ⟨z, p' + 8 * k⟩ }, ?_, ⟨?_, ?_, ?_, ?_⟩⟩
      · rw [M.bind_ok e1, M.bind_ok (hvd t)]
        unfold Fac.decodePayload
        rw [h3]
        refine (M.bind_ok (m := M.lift (.ok vc)) (a := vc) (s' := t) rfl).trans ?_
        unfold M.zoom
        dsimp only
        rw [q1]
      · rw [← h5]; dsimp only; rw [e]; rfl
      · rw [← h5]; exact ht.message
      · rw [← h5]; exact ht.ut
      · rw [← h5]; exact ht.tg

theorem newPayloadField [GoFloat F] {c : FacCfg} (hc : c.inputType = .binary) (hn : 8 ≤ n) (name : GoString)
    (nsubsets : Int) (compressed : Bool) :
    FLocal n true true true true (raise (Fac.newPayloadField (F := F) c name nsubsets compressed)) := by
  refine wrapErr ?_
  intro s src p f s' hT hs h
  unfold Fac.newPayloadField at h
  obtain ⟨_, _, h0, ha⟩ := M.bind_eq_ok.1 h
  cases h0
  obtain ⟨tree, s1, h1, hb⟩ := M.bind_eq_ok.1 ha
  obtain ⟨_, s2, h2, hd⟩ := M.bind_eq_ok.1 hb
  obtain ⟨pay, s3, h3, he⟩ := M.bind_eq_ok.1 hd
  obtain ⟨_, _, h4, hf⟩ := M.bind_eq_ok.1 he
  cases h4
  clear h ha hb hd he
  have hD : (do
      let tree ← Fac.parseTemplate c
      Fac.verboseDump (F := F) c tree
      Fac.decodePayload c tree nsubsets compressed : M (Fac F) (Payload F)) s = (.ok pay, s3) := by
    rw [M.bind_ok h1, M.bind_ok h2, h3]
  obtain ⟨hT3, src3, p3, e3, l3, k3⟩ := decodePayload hc hn nsubsets compressed s src p pay s3 hT hs hD
  have hrest : FLocal n true true true true (do
      Fac.addField (Gobufr.newField name (.payload pay) (s3.r.pos - s.r.pos))
      Fac.setProxyField (Gobufr.newField name (.payload pay) (s3.r.pos - s.r.pos))
      Pure.pure (Gobufr.newField name (.payload pay) (s3.r.pos - s.r.pos)) : M (Fac F) (Field F)) :=
    bind (addField _) fun _ => bind (setProxyField _) fun _ => pure _
  obtain ⟨hT4, src4, p4, e4, l4, k4⟩ := hrest s3 src3 p3 f s' hT3 e3 hf
  refine ⟨hT4, src4, p4, e4, by omega, fun hl => ?_⟩
  obtain ⟨x4, rfl, q4⟩ := k4 hl
  obtain ⟨x3, rfl, q3⟩ := k3 (by omega)
  refine ⟨x3 ++ x4, by rw [List.append_assoc], fun z k t ht => ?_⟩
  rw [List.append_assoc] at ht
  obtain ⟨t3, j3, r3⟩ := q3 _ k t ht
  obtain ⟨t4, j4, r4⟩ := q4 _ k t3 r3
  refine ⟨t4, ?_, r4⟩
  obtain ⟨tree', t1, i1, j3a⟩ := M.bind_eq_ok.1 j3
  obtain ⟨_, t2, i2, i3⟩ := M.bind_eq_ok.1 j3a
  unfold Fac.newPayloadField
  rw [M.bind_ok (M.gets_apply _ _), M.bind_ok i1, M.bind_ok i2, M.bind_ok i3, M.bind_ok (M.gets_apply _ _)]
  have hp : t3.r.pos - t.r.pos = s3.r.pos - s.r.pos := by
    rw [r3.r, ht.r]
    show s3.r.pos + 8 * k - (s.r.pos + 8 * k) = _
    omega
  rw [hp]
  exact j4

end FLocal

/-- Like `FLocal`, for calls that begin and end at a byte boundary. -/
def FAligned (n : Nat) (U G U' G' : Bool) (m : M (Fac F) α) : Prop :=
  ∀ s src q a s', HasTables G s → s.r = .bin ⟨src, 8 * q⟩ → m s = (.ok a, s') →
    HasTables G' s' ∧ ∃ src' q', s'.r = .bin ⟨src', 8 * q'⟩ ∧ src'.length ≤ src.length ∧ (n ≤ src'.length → ∃ l, src = l ++ src' ∧
      ∀ z k t, Rel U G k (l ++ z) s t → ∃ t', m t = (.ok a, t') ∧ Rel U' G' k z s' t')

namespace FAligned

variable {n : Nat} {U G U' G' U'' G'' : Bool}

theorem bind {m : M (Fac F) α} {f : α → M (Fac F) β} (hm : FAligned n U G U' G' m)
    (hf : ∀ a, FAligned n U' G' U'' G'' (f a)) : FAligned n U G U'' G'' (m >>= f) := by
  intro s src p b s'' hT hs h
  obtain ⟨a, s', h1, h2⟩ := M.bind_eq_ok.1 h
  obtain ⟨hT1, src1, p1, e1, l1, k1⟩ := hm s src p a s' hT hs h1
  obtain ⟨hT2, src2, p2, e2, l2, k2⟩ := hf a s' src1 p1 b s'' hT1 e1 h2
  refine ⟨hT2, src2, p2, e2, by omega, fun hn => ?_⟩
  obtain ⟨x2, rfl, q2⟩ := k2 hn
  obtain ⟨x1, rfl, q1⟩ := k1 (by omega)
  refine ⟨x1 ++ x2, by rw [List.append_assoc], fun z k t ht => ?_⟩
  rw [List.append_assoc] at ht
  obtain ⟨t1, j1, r1⟩ := q1 _ k t ht
  obtain ⟨t2, j2, r2⟩ := q2 _ k t1 r1
  exact ⟨t2, by rw [M.bind_ok j1, j2], r2⟩

theorem ite {p : Prop} [Decidable p] {m m' : M (Fac F) α} (hm : FAligned n U G U' G' m)
    (hn : FAligned n U G U' G' m') : FAligned n U G U' G' (if p then m else m') := by
  by_cases h : p
  · rw [if_pos h]; exact hm
  · rw [if_neg h]; exact hn

theorem ofLocal {m : M (Fac F) α} (hm : FLocal n U G U' G' m)
    (ha : ∀ s a s' q, s.r.pos = 8 * q → m s = (.ok a, s') → ∃ q', s'.r.pos = 8 * q') : FAligned n U G U' G' m := by
  intro s src q a s' hT hs h
  obtain ⟨hT', src', p', e, l, k⟩ := hm s src _ a s' hT hs h
  obtain ⟨q', hq⟩ := ha s a s' q (by rw [hs]; rfl) h
  have : p' = 8 * q' := by rw [← hq, e]; rfl
  subst this
  exact ⟨hT', src', q', e, l, k⟩

/-- The beginning of a section. -/
theorem newSection (number : Int) (description : GoString) :
    FAligned n U G U G (Fac.newSection (F := F) number description) := by
  intro s src q a s' hT hs h
  have hm' : ∃ m, s.message = some m := by
    unfold Fac.newSection Fac.theMessage at h
    obtain ⟨x, s1, h1, h2⟩ := M.bind_eq_ok.1 h
    cases hm : s.message with
    | none => rw [hm] at h1; cases h1
    | some m => exact ⟨m, rfl⟩
  obtain ⟨m, hm⟩ := hm'
  rw [newSection_eq _ _ hm] at h
  cases h
  refine ⟨hT, src, q, hs, Nat.le_refl _, fun _ => ⟨[], rfl, fun z k t ht => ?_⟩⟩
  have htm := ht.message
  rw [hm] at htm
  refine ⟨_, newSection_eq _ _ htm, ⟨ht.r, ?_, ht.ut, ht.tg⟩⟩
  have e1 : s.r.pos = 8 * q := by rw [hs]; rfl
  have e2 : t.r.pos = 8 * (q + k) := by
    rw [ht.r]
    show s.r.pos + 8 * k = _
    omega
  rw [e1, e2, Int.mul_tdiv_cancel_left _ (by decide), Int.mul_tdiv_cancel_left _ (by decide)]
  simp [moved]

end FAligned

/-! ## Positions -/

/-- The width of a field is what its type takes. -/
def FieldDecl.fits (d : FieldDecl) : Prop :=
  (d.dataType = DataType.BOOL → d.nbits = 1) ∧ (d.dataType = DataType.BYTES → d.nbits.tdiv 8 * 8 = d.nbits) ∧
    (d.dataType = DataType.FLOAT → d.nbits = 32)

theorem readValue_pos [GoFloat F] (d : FieldDecl) (hd : d.fits) {src : Bits} {p : Int} {v : Val F} {r : Reader F}
    (h : Fac.readValue d.dataType d.nbits (.bin ⟨src, p⟩) = (.ok v, r)) : ∃ src', r = .bin ⟨src', p + d.nbits⟩ := by
  obtain ⟨h1, h2, h3⟩ := hd
  unfold Fac.readValue at h
  split at h
  · obtain ⟨x, r1, i1, i2⟩ := M.bind_eq_ok.1 h
    cases i2
    obtain ⟨i1, i2⟩ := Prod.mk.inj i1
    obtain ⟨_, t, _, _, hr, _⟩ := BitReader.readUint_ok (eq_of_fst i1)
    exact ⟨t, by rw [← i2, hr]⟩
  split at h
  · obtain ⟨x, r1, i1, i2⟩ := M.bind_eq_ok.1 h
    cases i2
    obtain ⟨i1, i2⟩ := Prod.mk.inj i1
    obtain ⟨_, _, t, _, _, hr⟩ := BitReader.readInt_ok (eq_of_fst i1)
    exact ⟨t, by rw [← i2, hr]⟩
  split at h
  · rename_i hf
    obtain ⟨x, r1, i1, i2⟩ := M.bind_eq_ok.1 h
    cases i2
    obtain ⟨i1, i2⟩ := Prod.mk.inj i1
    obtain ⟨_, r2, i3, i4⟩ := M.bind_eq_ok.1 (eq_of_fst i1)
    obtain ⟨_, t, _, _, hr, _⟩ := BitReader.readUint_ok i3
    have e4 : r2 = (BitReader.readFloat32 (F := F) ⟨src, p⟩).2 := (Prod.mk.inj i4).2
    exact ⟨t, by rw [← i2, ← e4, hr, h3 hf]⟩
  split at h
  · rename_i hb
    obtain ⟨x, r1, i1, i2⟩ := M.bind_eq_ok.1 h
    cases i2
    rw [h1 hb]
    match src with
    | [] => cases i1
    | b :: src => cases i1; exact ⟨src, rfl⟩
  split at h
  · rename_i hb
    obtain ⟨x, r1, i1, i2⟩ := M.bind_eq_ok.1 h
    cases i2
    obtain ⟨i1, i2⟩ := Prod.mk.inj i1
    obtain ⟨_, t, _, hr⟩ := BitReader.readBytes_ok (eq_of_fst i1)
    exact ⟨t, by rw [← i2, hr, h2 hb]⟩
  split at h
  · obtain ⟨x, r1, i1, i2⟩ := M.bind_eq_ok.1 h
    cases i2
    obtain ⟨i1, i2⟩ := Prod.mk.inj i1
    obtain ⟨t, hr, _⟩ := BitReader.readBinary_ok (eq_of_fst i1)
    exact ⟨t, by rw [← i2, hr]⟩
  · cases h

theorem ReadFields.pos [GoFloat F] {r r' : Reader F} {ds : List FieldDecl} {fs : List (Field F)}
    (h : ReadFields r ds fs r') (hd : ∀ d ∈ ds, d.fits) : ∀ {src : Bits} {p : Int}, r = .bin ⟨src, p⟩ →
    ∃ src', r' = .bin ⟨src', p + (ds.map FieldDecl.nbits).sum⟩ := by
  induction h with
  | nil => intro src p e; exact ⟨src, by rw [e]; simp⟩
  | @cons r r1 r2 d ds fs v h1 h2 ih =>
    intro src p e
    rw [e] at h1
    obtain ⟨src1, e1⟩ := readValue_pos d (hd d (by simp)) h1
    obtain ⟨src2, e2⟩ := ih (fun x hx => hd x (List.mem_cons_of_mem _ hx)) e1
    exact ⟨src2, by rw [e2, List.map_cons, List.sum_cons, Int.add_assoc]⟩

theorem padding_aligned {v : LuaVal F} {s s' : Fac F} (h : Script.padding v s = (.ok (), s')) :
    ∃ q, s'.r.pos = 8 * q := by
  unfold Script.padding at h
  obtain ⟨o, s1, h1, h2⟩ := M.bind_eq_ok.1 h
  cases h2
  replace h1 := of_wrapErr_ok h1
  unfold Fac.padding at h1
  obtain ⟨n, s2, h3, h4⟩ := M.bind_eq_ok.1 h1
  have hn : s2 = s ∧ ∃ b, n = (v.toUnsigned : Int) * 8 - (s.r.pos - b * 8) := by
    unfold Fac.bitsLeft at h3
    obtain ⟨x, s3, h5, h6⟩ := M.bind_eq_ok.1 h3
    have : s3 = s := by
      unfold Fac.theSection at h5
      split at h5 <;> cases h5
      rfl
    subst this
    cases h6
    exact ⟨rfl, _, rfl⟩
  obtain ⟨rfl, b, hb⟩ := hn
  by_cases h0 : n = 0
  · rw [if_pos h0] at h4
    cases h4
    exact ⟨v.toUnsigned + b, by omega⟩
  · rw [if_neg h0] at h4
    by_cases h5 : n < 0
    · rw [if_pos h5] at h4; cases h4
    · rw [if_neg h5] at h4
      obtain ⟨_, s3, h6, h7⟩ := M.bind_eq_ok.1 h4
      obtain ⟨o2, s4, h8, h9⟩ := M.bind_eq_ok.1 h7
      have e3 : s3.r = s2.r := by
        unfold Fac.changeSection at h6
        split at h6 <;> cases h6
        rfl
      obtain ⟨h10, -⟩ := onReader_ok (of_wrapErr_ok h8)
      have := readBinary_pos _ _ _ _ h10
      rw [e3] at this
      cases o2 with
      | none => cases h9
      | some bb =>
        obtain ⟨_, s5, h11, h12⟩ := M.bind_eq_ok.1 h9
        cases h12
        have e5 : s'.r = s4.r := by
          unfold Fac.addField Fac.changeSection at h11
          split at h11 <;> cases h11
          rfl
        refine ⟨v.toUnsigned + b, ?_⟩
        rw [e5]
        omega

/-! ## The sections -/

namespace FAligned

variable {n : Nat} {U G U' G' : Bool}

theorem newSection_ok {number : Int} {d : GoString} {s s' : Fac F}
    (h : Fac.newSection number d s = (.ok (), s')) : ∃ m, s.message = some m := by
  unfold Fac.newSection Fac.theMessage at h
  obtain ⟨x, s1, h1, h2⟩ := M.bind_eq_ok.1 h
  cases hm : s.message with
  | none => rw [hm] at h1; cases h1
  | some m => exact ⟨m, rfl⟩

/-- A section: its beginning, then a call that ends at a byte boundary. -/
theorem section_ {number : Int} {d : GoString} {m : M (Fac F) Unit} (hm : FLocal n U G U' G' m)
    (ha : ∀ s src q s' s1, s.r = .bin ⟨src, 8 * q⟩ → Fac.newSection number d s = (.ok (), s1) →
      m s1 = (.ok (), s') → ∃ q', s'.r.pos = 8 * q') :
    FAligned n U G U' G' (do Fac.newSection number d; m) := by
  intro s src q a s' hT hs h
  obtain ⟨_, s1, h1, h2⟩ := M.bind_eq_ok.1 h
  obtain ⟨hT1, src1, q1, e1, l1, k1⟩ := newSection (n := n) (U := U) (G := G) number d s src q () s1 hT hs h1
  obtain ⟨hT', src', p', e, l, k⟩ := hm s1 src1 _ a s' hT1 e1 h2
  obtain ⟨q', hq⟩ := ha s src q s' s1 hs h1 h2
  have : p' = 8 * q' := by rw [← hq, e]; rfl
  subst this
  refine ⟨hT', src', q', e, by omega, fun hl => ?_⟩
  obtain ⟨x2, rfl, q2⟩ := k hl
  obtain ⟨x1, rfl, q1⟩ := k1 (by omega)
  refine ⟨x1 ++ x2, by rw [List.append_assoc], fun z k t ht => ?_⟩
  rw [List.append_assoc] at ht
  obtain ⟨t1, j1, r1⟩ := q1 _ k t ht
  obtain ⟨t2, j2, r2⟩ := q2 _ k t1 r1
  exact ⟨t2, by rw [M.bind_ok j1, j2], r2⟩

theorem section0 [GoFloat F] : FAligned n U G U G (Script.section0 (F := F)) := by
  refine section_ (FLocal.newFields _ (Or.inr (by decide))) ?_
  intro s src q s' s1 hs h1 h2
  obtain ⟨m, hm⟩ := newSection_ok h1
  obtain ⟨r, fs, h3, rfl⟩ := section0_ok hm (s' := s') (by unfold Script.section0; rw [M.bind_ok h1, h2])
  obtain ⟨src', e⟩ := h3.pos (by unfold FieldDecl.fits; decide) hs
  exact ⟨q + 8, by show r.pos = _; rw [e]; show 8 * q + _ = _; simp [Script.fields0]; omega⟩

theorem section1 [GoFloat F] (ds : List FieldDecl) (hn : 8 ≤ n) : FAligned n U G U G (Script.section1 (F := F) ds) := by
  refine section_ (FLocal.bind (FLocal.newField _ (Or.inl hn)) fun f => FLocal.bind (FLocal.newFields _ (Or.inl hn)) fun _ =>
    FLocal.bind (FLocal.value _) fun v => FLocal.padding v hn) ?_
  intro s src q s' s1 hs h1 h2
  obtain ⟨_, _, _, h3⟩ := M.bind_eq_ok.1 h2
  obtain ⟨_, _, _, h4⟩ := M.bind_eq_ok.1 h3
  obtain ⟨_, _, _, h5⟩ := M.bind_eq_ok.1 h4
  exact padding_aligned h5

theorem section2 [GoFloat F] (hn : 8 ≤ n) : FAligned n U G U G (Script.section2 (F := F)) := by
  refine section_ (FLocal.bind (FLocal.newField _ (Or.inl hn)) fun f => FLocal.bind (FLocal.newField _ (Or.inl hn)) fun _ =>
    FLocal.bind (FLocal.value _) fun v => FLocal.bind (FLocal.lift _) fun l =>
    FLocal.bind (FLocal.newField _ (Or.inl hn)) fun _ => FLocal.pure _) ?_
  intro s src q s' s1 hs h1 h2
  obtain ⟨m, hm⟩ := newSection_ok h1
  obtain ⟨f, s2, h3, h4⟩ := M.bind_eq_ok.1 h2
  obtain ⟨g, s3, h5, h6⟩ := M.bind_eq_ok.1 h4
  obtain ⟨v, s4, h7, h8⟩ := M.bind_eq_ok.1 h6
  obtain ⟨w, s5, h9, h10⟩ := M.bind_eq_ok.1 h8
  obtain ⟨k, s6, h11, h12⟩ := M.bind_eq_ok.1 h10
  cases h12
  rw [newSection_eq _ _ hm] at h1
  cases h1
  obtain ⟨v1, r1, hv1, rfl, rfl⟩ := newField_ok rfl rfl h3
  obtain ⟨v2, r2, hv2, rfl, rfl⟩ := newField_ok rfl rfl h5
  obtain ⟨-, rfl⟩ := value_ok h7
  obtain ⟨-, rfl⟩ := Prod.mk.inj h9
  obtain ⟨v3, r3, hv3, rfl, rfl⟩ := newField_ok rfl rfl h11
  have hr : ReadFields s.r [lengthDecl, ⟨"reservedBits", DataType.BINARY, 8, false⟩,
        ⟨"localBits", DataType.BINARY, (w - 4) * 8, false⟩] _ r3 := .cons hv1 (.cons hv2 (.cons hv3 (.nil _)))
  obtain ⟨src', e⟩ := hr.pos (by
    intro d hd
    simp only [List.mem_cons, List.not_mem_nil, or_false] at hd
    rcases hd with rfl | rfl | rfl <;> refine ⟨?_, ?_, ?_⟩ <;> intro h <;> cases h) hs
  exact ⟨q + 4 + (w - 4), by show r3.pos = _; rw [e]; show 8 * q + _ = _; simp [lengthDecl]; omega⟩

theorem section3 [GoFloat F] (hn : 8 ≤ n) : FAligned n U G true G (Script.section3 (F := F)) := by
  refine section_ (FLocal.bind (FLocal.newField _ (Or.inl hn)) fun f => FLocal.bind (FLocal.newFields _ (Or.inl hn)) fun _ =>
    FLocal.bind (FLocal.value _) fun v => FLocal.bind (FLocal.newTemplateField _ _ _ _ _) fun _ =>
    FLocal.bind (FLocal.value _) fun v => FLocal.padding v hn) ?_
  intro s src q s' s1 hs h1 h2
  obtain ⟨_, _, _, h3⟩ := M.bind_eq_ok.1 h2
  obtain ⟨_, _, _, h4⟩ := M.bind_eq_ok.1 h3
  obtain ⟨_, _, _, h5⟩ := M.bind_eq_ok.1 h4
  obtain ⟨_, _, _, h6⟩ := M.bind_eq_ok.1 h5
  obtain ⟨_, _, _, h7⟩ := M.bind_eq_ok.1 h6
  exact padding_aligned h7

theorem section4 [GoFloat F] {c : FacCfg} (hc : c.inputType = .binary) (hn : 8 ≤ n) :
    FAligned n true true true true (Script.section4 (F := F) c) := by
  refine section_ (FLocal.bind (FLocal.newField _ (Or.inl hn)) fun f => FLocal.bind (FLocal.newField _ (Or.inl hn)) fun _ =>
    FLocal.bind (FLocal.proxyValue _) fun v => FLocal.bind (FLocal.proxyValue _) fun w =>
    FLocal.bind (FLocal.newPayloadField hc hn _ _ _) fun _ =>
    FLocal.bind (FLocal.value _) fun v => FLocal.padding v hn) ?_
  intro s src q s' s1 hs h1 h2
  obtain ⟨_, _, _, h3⟩ := M.bind_eq_ok.1 h2
  obtain ⟨_, _, _, h4⟩ := M.bind_eq_ok.1 h3
  obtain ⟨_, _, _, h5⟩ := M.bind_eq_ok.1 h4
  obtain ⟨_, _, _, h6⟩ := M.bind_eq_ok.1 h5
  obtain ⟨_, _, _, h7⟩ := M.bind_eq_ok.1 h6
  obtain ⟨_, _, _, h8⟩ := M.bind_eq_ok.1 h7
  exact padding_aligned h8

theorem section5 [GoFloat F] : FAligned n U G U G (Script.section5 (F := F)) := by
  refine section_ (FLocal.newFields _ (Or.inr (by decide))) ?_
  intro s src q s' s1 hs h1 h2
  obtain ⟨m, hm⟩ := newSection_ok h1
  obtain ⟨r, fs, h3, rfl⟩ := section5_ok hm (s' := s') (by unfold Script.section5; rw [M.bind_ok h1, h2])
  obtain ⟨src', e⟩ := h3.pos (by unfold FieldDecl.fits; decide) hs
  exact ⟨q + 4, by show r.pos = _; rw [e]; show 8 * q + _ = _; simp; omega⟩

theorem proxyValue_pos {name : String} {s s' : Fac F} {v : LuaVal F} (h : Script.proxyValue name s = (.ok v, s')) :
    s' = s := by
  unfold Script.proxyValue at h
  obtain ⟨m, s1, h1, h2⟩ := M.bind_eq_ok.1 h
  unfold Fac.theMessage at h1
  split at h1 <;> cases h1
  obtain ⟨f, s2, h3, h4⟩ := M.bind_eq_ok.1 h2
  obtain ⟨-, rfl⟩ := Prod.mk.inj h3
  obtain ⟨-, rfl⟩ := Prod.mk.inj h4
  rfl

theorem optionalSection2 [GoFloat F] (hn : 8 ≤ n) : FAligned n U G U G (Script.optionalSection2 (F := F)) := by
  refine bind (ofLocal (FLocal.proxyValue _) ?_) fun v => ite (section2 hn) (ofLocal (FLocal.pure _) ?_)
  · intro s a s' q hq h
    rw [proxyValue_pos h]
    exact ⟨q, hq⟩
  · intro s a s' q hq h
    cases h
    exact ⟨q, hq⟩

theorem initTableGroup (c : FacCfg) : FAligned n U G U true (Script.initTableGroup (F := F) c) := by
  refine ofLocal (FLocal.initTableGroup c) ?_
  intro s a s' q hq h
  have hm : ∃ m, s.message = some m := by
    unfold Script.initTableGroup at h
    obtain ⟨x, s1, h1, h2⟩ := M.bind_eq_ok.1 h
    unfold Script.proxyValue Fac.theMessage at h1
    obtain ⟨x, s1, h1, h2⟩ := M.bind_eq_ok.1 h1
    cases hm : s.message with
    | none => rw [hm] at h1; cases h1
    | some m => exact ⟨m, rfl⟩
  obtain ⟨m, hm⟩ := hm
  obtain ⟨g, rfl⟩ := initTableGroup_ok hm h
  exact ⟨q, hq⟩

/-- The sections before the last. -/
def body [GoFloat F] (c : FacCfg) (fields1 : List FieldDecl) : M (Fac F) Unit := do
  Script.section0
  Script.section1 fields1
  Script.optionalSection2
  Script.section3
  Script.initTableGroup c
  Script.section4 c

theorem body_aligned [GoFloat F] {c : FacCfg} (hc : c.inputType = .binary) (ds : List FieldDecl) (hn : 8 ≤ n) :
    FAligned n false false true true (body (F := F) c ds) :=
  bind section0 fun _ => bind (section1 ds hn) fun _ => bind (optionalSection2 hn) fun _ =>
    bind (section3 hn) fun _ => bind (initTableGroup c) fun _ => section4 hc hn

end FAligned

/-- Decoding a message depends only on the bits it consumes. -/
theorem deserialise_local [GoFloat F] {c : FacCfg} (hc : c.inputType = .binary) {ds : List FieldDecl} {s s' : Fac F}
    {m : Message F} {src : Bits} {q : Int} (hs : s.r = .bin ⟨src, 8 * q⟩)
    (h : Script.deserialise c ds s = (.ok m, s')) :
    ∃ src' q', s'.r = .bin ⟨src', 8 * q'⟩ ∧ ∃ l, src = l ++ src' ∧ 32 ≤ l.length ∧
      ∀ z k t, t.r = .bin ⟨l ++ z, 8 * (q + k)⟩ →
        ∃ t', Script.deserialise c ds t = (.ok (moved k m), t') ∧ t'.r = .bin ⟨z, 8 * (q' + k)⟩ := by
  unfold Script.deserialise at h
  obtain ⟨_, s0, h0, ha⟩ := M.bind_eq_ok.1 h
  cases h0
  obtain ⟨_, s1, h1, hb⟩ := M.bind_eq_ok.1 ha
  obtain ⟨_, s2, h2, hd⟩ := M.bind_eq_ok.1 hb
  obtain ⟨_, s3, h3, he⟩ := M.bind_eq_ok.1 hd
  obtain ⟨_, s4, h4, hf⟩ := M.bind_eq_ok.1 he
  obtain ⟨_, s5, h5, hg⟩ := M.bind_eq_ok.1 hf
  obtain ⟨_, s6, h6, hh⟩ := M.bind_eq_ok.1 hg
  obtain ⟨_, s7, h7, hi⟩ := M.bind_eq_ok.1 hh
  clear h ha hb hd he hf hg hh
  have hB : FAligned.body c ds { s with message := some (newMessage []) } = (.ok (), s6) := by
    unfold FAligned.body
    rw [M.bind_ok h1, M.bind_ok h2, M.bind_ok h3, M.bind_ok h4, M.bind_ok h5, h6]
  obtain ⟨hT, src6, q6, e6, l6, k6⟩ := FAligned.body_aligned hc ds (Nat.le_refl 8)
    { s with message := some (newMessage []) } src q () s6 (by intro h; cases h) hs hB
  obtain ⟨hT7, src7, q7, e7, l7, k7⟩ := FAligned.section5 (n := 0) s6 src6 q6 () s7 hT e6 h7
  have h32 : ¬ src6.length < 32 := by
    intro hlt
    obtain ⟨m6, hm6⟩ := FAligned.newSection_ok (M.bind_eq_ok.1 h7).choose_spec.choose_spec.1
    obtain ⟨e, s8, h8⟩ := C71_short_partial s6 m6 src6 (8 * q6) hm6 e6 hlt
    rw [h7] at h8
    cases h8
  obtain ⟨x7, rfl, j7⟩ := k7 (Nat.zero_le _)
  obtain ⟨x6, rfl, j6⟩ := k6 (by omega)
  have hsm : s7.message = some m ∧ s' = s7 := by
    unfold Fac.theMessage at hi
    split at hi
    · rename_i hm
      cases hi
      exact ⟨hm, rfl⟩
    · cases hi
  obtain ⟨hsm, rfl⟩ := hsm
  obtain ⟨m6, hm6⟩ := FAligned.newSection_ok (M.bind_eq_ok.1 h7).choose_spec.choose_spec.1
  obtain ⟨r, fs, hrf, hs7⟩ := section5_ok hm6 h7
  have hx7 : x7.length = 32 := by
    rw [e6] at hrf
    cases hrf with
    | cons g1 g2 =>
      cases g2
      have g1' : (do let v ← Reader.readBytes 4; pure (.bytes v) : M (Reader F) (Val F)) (.bin ⟨x7 ++ src7, 8 * q6⟩) = (.ok _, r) := g1
      obtain ⟨x, r1, i1, i2⟩ := M.bind_eq_ok.1 g1'
      cases i2
      obtain ⟨i1, i2⟩ := Prod.mk.inj i1
      obtain ⟨hl, t, ht, hr⟩ := BitReader.readBytes_ok (eq_of_fst i1)
      have : s'.r = r := by rw [hs7]; rfl
      rw [e7, ← i2, hr] at this
      injection this with this
      injection this with this _
      subst this
      have h9 := congrArg List.length ht
      have h10 : ∀ bs : List UInt8, (bs.flatMap byteBits).length = 8 * bs.length := fun bs =>
        BitReader.bitsOfBytes_length bs
      simp only [List.length_append, h10] at h9
      omega
  refine ⟨src7, q7, e7, x6 ++ x7, by rw [List.append_assoc], by simp; omega, fun z k t ht => ?_⟩
  rw [List.append_assoc] at ht
  obtain ⟨t6, i6, r6⟩ := j6 (x7 ++ z) k { t with message := some (newMessage []) } ⟨by
    have : s.r.pos = 8 * q := by rw [hs]; rfl
    show t.r = .bin ⟨_, s.r.pos + _⟩
    rw [ht, this]
    congr 2
    omega, rfl, (by intro h; cases h), (by intro h; cases h)⟩
  obtain ⟨t7, i7, r7⟩ := j7 z k t6 r6
  unfold FAligned.body at i6
  obtain ⟨_, t1, g1, ga⟩ := M.bind_eq_ok.1 i6
  obtain ⟨_, t2, g2, gb⟩ := M.bind_eq_ok.1 ga
  obtain ⟨_, t3, g3, gc⟩ := M.bind_eq_ok.1 gb
  obtain ⟨_, t4, g4, gd⟩ := M.bind_eq_ok.1 gc
  obtain ⟨_, t5, g5, ge⟩ := M.bind_eq_ok.1 gd
  refine ⟨t7, ?_, ?_⟩
  · unfold Script.deserialise
    have hmsg := r7.message
    rw [hsm] at hmsg
    rw [M.bind_ok (m := Fac.newMessage []) (s' := { t with message := some (newMessage []) }) rfl,
      M.bind_ok g1, M.bind_ok g2, M.bind_ok g3, M.bind_ok g4, M.bind_ok g5, M.bind_ok ge, M.bind_ok i7,
      theMessage_eq hmsg]
  · rw [r7.r, e7]
    show Reader.bin ⟨z, 8 * q7 + 8 * k⟩ = _
    congr 2
    omega

end Gobufr
