import Verif.Proofs.Message

/-!
# Helper lemmas: the sections of a decoded message
-/

namespace Gobufr
open Spec Layout

variable {F : Type}

/-- The state after a section: one section more, other proxies. -/
def Fac.closed (s : Fac F) (r : Reader F) (m : Message F) (sec : Section F) (pf : List (GoString × Field F)) : Fac F :=
  { s with r := r, message := some ⟨m.inputPath, m.sections ++ [sec], pf⟩ }

/-- What `Padding` adds. -/
def PadField (pad : List (Field F)) : Prop :=
  pad = [] ∨ ∃ b : Binary, pad = [⟨str "padding", .val (.binary (some b)), b.nbits, true⟩]

/-- The shape of a declaration. -/
def FieldDecl.shape (d : FieldDecl) : FieldShape := ⟨d.name, some d.nbits.toNat⟩

theorem ReadFields.has [GoFloat F] {r r' : Reader F} {ds : List FieldDecl} {fs : List (Field F)}
    (h : ReadFields r ds fs r') (hn : ∀ d ∈ ds, 0 ≤ d.nbits) : Matches HasShape fs (ds.map FieldDecl.shape) := by
  induction h with
  | nil => exact trivial
  | @cons r r1 r2 d ds fs v h1 h2 ih =>
    refine ⟨⟨rfl, rfl, ?_⟩, ih fun d hd => hn d (List.mem_cons_of_mem _ hd)⟩
    intro w hw
    cases hw
    have := hn d (by simp)
    show d.nbits = _
    omega

theorem Matches.append {R : α → β → Prop} : ∀ {as as' : List α} {bs bs' : List β}, Matches R as bs →
    Matches R as' bs' → Matches R (as ++ as') (bs ++ bs')
  | [], _, [], _, _, h => h
  | _ :: _, _, _ :: _, _, ⟨h1, h2⟩, h => ⟨h1, Matches.append h2 h⟩

theorem section0_ok [GoFloat F] {s s' : Fac F} {m : Message F} (hm : s.message = some m)
    (h : Script.section0 s = (.ok (), s')) :
    ∃ r fs, ReadFields s.r Script.fields0 fs r ∧
      s' = s.closed r m ⟨0, str "Indicator Section", s.r.pos.tdiv 8, 0, fs⟩
        (proxiesOf Script.fields0 fs m.proxyFields) := by
  unfold Script.section0 at h
  rw [M.bind_ok (newSection_eq _ _ hm)] at h
  obtain ⟨r, fs, h1, rfl⟩ := newFields_ok rfl rfl h
  exact ⟨r, fs, h1, rfl⟩

theorem value_ok {f : Field F} {s s' : Fac F} {v : LuaVal F} (h : Script.value f s = (.ok v, s')) :
    f.luaValue = .ok v ∧ s' = s := by
  unfold Script.value at h
  simp only [M.lift_apply, Prod.mk.injEq] at h
  obtain ⟨h1, rfl⟩ := h
  refine ⟨?_, rfl⟩
  cases hf : f.luaValue with
  | ok a => rw [hf] at h1; simpa [BitReader.wrapO] using h1
  | err e => rw [hf] at h1; simp [BitReader.wrapO] at h1
  | panic w => rw [hf] at h1; simp [BitReader.wrapO] at h1
  | diverge => rw [hf] at h1; simp [BitReader.wrapO] at h1

theorem proxyValue_ok {name : String} {s s' : Fac F} {v : LuaVal F} {m : Message F} (hm : s.message = some m)
    (h : Script.proxyValue name s = (.ok v, s')) :
    ∃ f, mapGet m.proxyFields (str name) = some f ∧ f.luaValue = .ok v ∧ s' = s := by
  unfold Script.proxyValue at h
  rw [M.bind_ok (theMessage_eq hm)] at h
  obtain ⟨f, s1, h1, h2⟩ := M.bind_eq_ok.1 h
  simp only [M.lift_apply, Prod.mk.injEq] at h1
  obtain ⟨h1, rfl⟩ := h1
  obtain ⟨h3, rfl⟩ := value_ok h2
  refine ⟨f, ?_, h3, rfl⟩
  unfold Message.proxyField at h1
  cases hg : mapGet m.proxyFields (str name) with
  | none => rw [hg] at h1; simp [BitReader.wrapO] at h1
  | some g => rw [hg] at h1; simpa [BitReader.wrapO] using h1

/-- `lengthInBytes` -/
def lengthDecl : FieldDecl := ⟨"lengthInBytes", DataType.UINT, 24, false⟩

/-- The beginning of a section: the section, its length and further fields. -/
theorem opening_ok [GoFloat F] {ds : List FieldDecl} {number : Int} {description : GoString} {s s1 s2 s3 : Fac F}
    {m : Message F} {f : Field F} (hm : s.message = some m)
    (h1 : Fac.newSection number description s = (.ok (), s1)) (h2 : Script.lengthField s1 = (.ok f, s2))
    (h3 : Script.newFields ds s2 = (.ok (), s3)) :
    ∃ r fs, ReadFields s.r (lengthDecl :: ds) (f :: fs) r ∧
      s3 = s.closed r m ⟨number, description, s.r.pos.tdiv 8, 0, f :: fs⟩ (proxiesOf ds fs m.proxyFields) := by
  rw [newSection_eq _ _ hm] at h1
  cases h1
  obtain ⟨v, r1, hv, rfl, rfl⟩ := newField_ok rfl rfl h2
  obtain ⟨r, fs, hr, rfl⟩ := newFields_ok rfl rfl h3
  exact ⟨r, fs, .cons hv hr, rfl⟩

theorem section1_ok [GoFloat F] {ds : List FieldDecl} {s s' : Fac F} {m : Message F} (hm : s.message = some m)
    (h : Script.section1 ds s = (.ok (), s')) :
    ∃ r r1 f fs pad n, ReadFields s.r (lengthDecl :: ds) (f :: fs) r1 ∧ PadField pad ∧
      s' = s.closed r m ⟨1, str "Identification Section", s.r.pos.tdiv 8, n, f :: fs ++ pad⟩
        (proxiesOf ds fs m.proxyFields) := by
  unfold Script.section1 at h
  obtain ⟨_, s1, h1, h⟩ := M.bind_eq_ok.1 h
  obtain ⟨f, s2, h2, h⟩ := M.bind_eq_ok.1 h
  obtain ⟨_, s3, h3, h⟩ := M.bind_eq_ok.1 h
  obtain ⟨v, s4, h4, h⟩ := M.bind_eq_ok.1 h
  obtain ⟨r1, fs, hr, rfl⟩ := opening_ok hm h1 h2 h3
  obtain ⟨-, rfl⟩ := value_ok h4
  obtain ⟨r, pad, n, rfl, hp⟩ := padding_ok rfl rfl h
  refine ⟨r, r1, f, fs, pad, n, hr, ?_, rfl⟩
  rcases hp with ⟨rfl, -, -⟩ | ⟨b, rfl, -⟩
  · exact Or.inl rfl
  · exact Or.inr ⟨b, rfl⟩

theorem section2_ok [GoFloat F] {s s' : Fac F} {m : Message F} (hm : s.message = some m)
    (h : Script.section2 s = (.ok (), s')) :
    ∃ r fs w, ReadFields s.r [lengthDecl, ⟨"reservedBits", DataType.BINARY, 8, false⟩,
        ⟨"localBits", DataType.BINARY, w, false⟩] fs r ∧
      s' = s.closed r m ⟨2, str "Optional Section", s.r.pos.tdiv 8, 0, fs⟩ m.proxyFields := by
  unfold Script.section2 at h
  obtain ⟨_, s1, h1, h⟩ := M.bind_eq_ok.1 h
  obtain ⟨f, s2, h2, h⟩ := M.bind_eq_ok.1 h
  obtain ⟨g, s3, h3, h⟩ := M.bind_eq_ok.1 h
  obtain ⟨v, s4, h4, h⟩ := M.bind_eq_ok.1 h
  obtain ⟨w, s5, h5, h⟩ := M.bind_eq_ok.1 h
  obtain ⟨k, s6, h6, h7⟩ := M.bind_eq_ok.1 h
  cases h7
  rw [newSection_eq _ _ hm] at h1
  cases h1
  obtain ⟨v1, r1, hv1, rfl, rfl⟩ := newField_ok rfl rfl h2
  obtain ⟨v2, r2, hv2, rfl, rfl⟩ := newField_ok rfl rfl h3
  obtain ⟨-, rfl⟩ := value_ok h4
  simp only [M.lift_apply, Prod.mk.injEq] at h5
  obtain ⟨-, rfl⟩ := h5
  obtain ⟨v3, r3, hv3, rfl, rfl⟩ := newField_ok rfl rfl h6
  exact ⟨r3, _, _, .cons hv1 (.cons hv2 (.cons hv3 (.nil _))), rfl⟩

theorem section3_ok [GoFloat F] {s s' : Fac F} {m : Message F} (hm : s.message = some m)
    (h : Script.section3 s = (.ok (), s')) :
    ∃ r r1 f fs t ids pad n, ReadFields s.r (lengthDecl :: Script.fields3) (f :: fs) r1 ∧ PadField pad ∧
      t = ⟨str "unexpandedTemplate", .template ⟨ids, 2, 6, 8⟩, ids.length * 16, false⟩ ∧
      s' = { s.closed r m ⟨3, str "Data Description Section", s.r.pos.tdiv 8, n, f :: fs ++ [t] ++ pad⟩
        (mapSet (proxiesOf Script.fields3 fs m.proxyFields) t.name t) with ut := some ⟨ids, 2, 6, 8⟩ } := by
  unfold Script.section3 at h
  obtain ⟨_, s1, h1, h⟩ := M.bind_eq_ok.1 h
  obtain ⟨f, s2, h2, h⟩ := M.bind_eq_ok.1 h
  obtain ⟨_, s3, h3, h⟩ := M.bind_eq_ok.1 h
  obtain ⟨v, s4, h4, h⟩ := M.bind_eq_ok.1 h
  obtain ⟨t, s5, h5, h⟩ := M.bind_eq_ok.1 h
  obtain ⟨v2, s6, h6, h⟩ := M.bind_eq_ok.1 h
  obtain ⟨r1, fs, hr, rfl⟩ := opening_ok hm h1 h2 h3
  obtain ⟨-, rfl⟩ := value_ok h4
  obtain ⟨r2, ids, k, -, -, rfl, rfl⟩ := newTemplateField_ok rfl rfl h5
  obtain ⟨-, rfl⟩ := value_ok h6
  obtain ⟨r, pad, n, rfl, hp⟩ := padding_ok rfl rfl h
  refine ⟨r, r1, f, fs, _, ids, pad, n, hr, ?_, rfl, rfl⟩
  rcases hp with ⟨rfl, -, -⟩ | ⟨b, rfl, -⟩
  · exact Or.inl rfl
  · exact Or.inr ⟨b, rfl⟩

theorem section4_ok [GoFloat F] {c : FacCfg} {s s' : Fac F} {m : Message F} (hm : s.message = some m)
    (h : Script.section4 c s = (.ok (), s')) :
    ∃ r r1 f fs t p w pad n, ReadFields s.r [lengthDecl, ⟨"reservedBits", Script.BIN, 8, false⟩] (f :: fs) r1 ∧
      PadField pad ∧ t = ⟨str "payload", .payload p, w, false⟩ ∧
      s' = s.closed r m ⟨4, str "Data Section", s.r.pos.tdiv 8, n, f :: fs ++ [t] ++ pad⟩
        (mapSet m.proxyFields t.name t) := by
  unfold Script.section4 at h
  obtain ⟨_, s1, h1, h⟩ := M.bind_eq_ok.1 h
  obtain ⟨f, s2, h2, h⟩ := M.bind_eq_ok.1 h
  obtain ⟨g, s3, h3, h⟩ := M.bind_eq_ok.1 h
  obtain ⟨ns, s4, h4, h⟩ := M.bind_eq_ok.1 h
  obtain ⟨co, s5, h5, h⟩ := M.bind_eq_ok.1 h
  obtain ⟨t, s6, h6, h⟩ := M.bind_eq_ok.1 h
  obtain ⟨v, s7, h7, h⟩ := M.bind_eq_ok.1 h
  rw [newSection_eq _ _ hm] at h1
  cases h1
  obtain ⟨v1, r1, hv1, rfl, rfl⟩ := newField_ok rfl rfl h2
  obtain ⟨v2, r2, hv2, rfl, rfl⟩ := newField_ok rfl rfl h3
  obtain ⟨_, -, -, rfl⟩ := proxyValue_ok rfl h4
  obtain ⟨_, -, -, rfl⟩ := proxyValue_ok rfl h5
  obtain ⟨tree, p, s8, -, -, -, rfl, rfl⟩ := newPayloadField_ok rfl rfl h6
  obtain ⟨-, rfl⟩ := value_ok h7
  obtain ⟨r, pad, n, rfl, hp⟩ := padding_ok rfl rfl h
  refine ⟨r, _, _, _, _, p, _, pad, n, .cons hv1 (.cons hv2 (.nil _)), ?_, rfl, rfl⟩
  rcases hp with ⟨rfl, -, -⟩ | ⟨b, rfl, -⟩
  · exact Or.inl rfl
  · exact Or.inr ⟨b, rfl⟩

theorem section5_ok [GoFloat F] {s s' : Fac F} {m : Message F} (hm : s.message = some m)
    (h : Script.section5 s = (.ok (), s')) :
    ∃ r fs, ReadFields s.r [⟨"stopSignature", DataType.BYTES, 32, false⟩] fs r ∧
      s' = s.closed r m ⟨5, str "End Section", s.r.pos.tdiv 8, 0, fs⟩ m.proxyFields := by
  unfold Script.section5 at h
  rw [M.bind_ok (newSection_eq _ _ hm)] at h
  obtain ⟨r, fs, h1, rfl⟩ := newFields_ok rfl rfl h
  cases h1 with
  | cons h1 h2 =>
    cases h2
    exact ⟨_, _, .cons h1 (.nil _), rfl⟩

theorem initTableGroup_ok {c : FacCfg} {s s' : Fac F} {m : Message F} (hm : s.message = some m)
    (h : Script.initTableGroup c s = (.ok (), s')) : ∃ g, s' = { s with tableGroup := some g } := by
  unfold Script.initTableGroup at h
  obtain ⟨_, s1, p1, q1⟩ := M.bind_eq_ok.1 h
  obtain ⟨_, -, -, e1⟩ := proxyValue_ok hm p1
  rw [e1] at q1
  obtain ⟨_, s2, p2, q2⟩ := M.bind_eq_ok.1 q1
  obtain ⟨_, -, -, e2⟩ := proxyValue_ok hm p2
  rw [e2] at q2
  obtain ⟨_, s3, p3, q3⟩ := M.bind_eq_ok.1 q2
  obtain ⟨_, -, -, e3⟩ := proxyValue_ok hm p3
  rw [e3] at q3
  obtain ⟨_, s4, p4, q4⟩ := M.bind_eq_ok.1 q3
  obtain ⟨_, -, -, e4⟩ := proxyValue_ok hm p4
  rw [e4] at q4
  obtain ⟨_, s5, p5, q5⟩ := M.bind_eq_ok.1 q4
  obtain ⟨_, -, -, e5⟩ := proxyValue_ok hm p5
  rw [e5] at q5
  clear h
  have h := of_wrapErr_ok q5
  unfold Fac.initTableGroup at h
  split at h
  · cases h; exact ⟨_, rfl⟩
  · cases h
  · cases h
  · cases h

/-- The field made by a declaration, in the section and among the proxies. -/
theorem ReadFields.get [GoFloat F] : ∀ {pre : List FieldDecl} {d : FieldDecl} {post : List FieldDecl}
    {r r' : Reader F} {fs : List (Field F)}, ReadFields r (pre ++ d :: post) fs r' →
    (∀ x ∈ pre, str x.name ≠ str d.name) →
    ∃ v r1 r2, Fac.readValue d.dataType d.nbits r1 = (.ok v, r2) ∧
      (∀ more, (fs ++ more).find? (fun f => f.name = str d.name) = some (d.field v)) ∧
      (d.proxy = true → (∀ x ∈ post, str x.name ≠ str d.name) →
        ∀ pf, mapGet (proxiesOf (pre ++ d :: post) fs pf) (str d.name) = some (d.field v))
  | [], d, post, r, r', fs, h, hpre => by
    cases h with
    | @cons _ r1 _ _ _ fs v h1 h2 =>
      refine ⟨v, r, r1, h1, fun more => by simp [FieldDecl.field], fun hp hpost pf => ?_⟩
      have key : ∀ {post : List FieldDecl} {r r' : Reader F} {fs : List (Field F)}, ReadFields r post fs r' →
          (∀ x ∈ post, str x.name ≠ str d.name) → ∀ pf, mapGet (proxiesOf post fs pf) (str d.name)
            = mapGet pf (str d.name) := by
        intro post r r' fs h
        induction h with
        | nil => intros; rfl
        | @cons r r1 r2 x xs fs v h1 h2 ih =>
          intro hx pf
          simp only [proxiesOf]
          rw [ih fun y hy => hx y (List.mem_cons_of_mem _ hy)]
          unfold FieldDecl.proxies
          split
          · simp [mapSet, mapGet, FieldDecl.field, hx x (by simp)]
          · rfl
      show mapGet (proxiesOf (d :: post) (d.field v :: fs) pf) (str d.name) = _
      simp only [proxiesOf]
      rw [key h2 hpost]
      simp [FieldDecl.proxies, hp, mapSet, mapGet, FieldDecl.field]
  | x :: pre, d, post, r, r', fs, h, hpre => by
    cases h with
    | @cons _ r1 _ _ _ fs v h1 h2 =>
      obtain ⟨v', r2, r3, k1, k2, k3⟩ := ReadFields.get h2 fun y hy => hpre y (List.mem_cons_of_mem _ hy)
      refine ⟨v', r2, r3, k1, fun more => ?_, fun hp hpost pf => ?_⟩
      · have := hpre x (by simp)
        have hx : ¬ ((fun f : Field F => decide (f.name = str d.name)) (x.field v) = true) :=
          fun hd => this (of_decide_eq_true hd)
        exact (List.find?_cons_of_neg (p := fun f : Field F => decide (f.name = str d.name)) (a := x.field v)
          hx).trans (k2 more)
      · simp only [List.cons_append, proxiesOf]
        exact k3 hp hpost _

end Gobufr
