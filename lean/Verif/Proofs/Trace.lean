import Verif.Props.Message

/-!
# Helper lemmas: what the fields of a decoded message were read from
-/

namespace Gobufr
open Spec Layout

variable {F : Type}

/-- The padding of a section that begins at byte `b` and has `L` bytes, read at `r`. -/
def Pads (L : Nat) (b : Int) (r : Reader F) (pad : List (Field F)) (n : Int) (r' : Reader F) : Prop :=
  ((L : Int) * 8 = r.pos - b * 8 ∧ pad = [] ∧ n = 0 ∧ r' = r) ∨
    (0 < n ∧ (L : Int) * 8 = r.pos - b * 8 + n ∧
      ∃ x, pad = [⟨str "padding", .val (.binary (some x)), x.nbits, true⟩] ∧ Reader.readBinary n r = (.ok (some x), r'))

theorem Pads.padField {L : Nat} {b : Int} {r r' : Reader F} {pad : List (Field F)} {n : Int}
    (h : Pads L b r pad n r') : PadField pad := by
  rcases h with ⟨-, rfl, -⟩ | ⟨-, -, x, rfl, -⟩
  · exact Or.inl rfl
  · exact Or.inr ⟨x, rfl⟩

/-- `Padding` on a section that has no padding yet. -/
theorem padding_full {s s' : Fac F} {m : Message F} {front : List (Section F)} {sec : Section F} {L : Nat}
    (hm : s.message = some m) (hl : m.sections = front ++ [sec]) (h0 : sec.padding = 0)
    (h : Script.padding (.num L) s = (.ok (), s')) :
    ∃ r pad n, s' = s.grown r m front { sec with padding := n } pad m.proxyFields ∧
      Pads L sec.startByteIndex s.r pad n r := by
  unfold Script.padding at h
  obtain ⟨o, s1, h1, h2⟩ := M.bind_eq_ok.1 h
  cases h2
  replace h1 := of_wrapErr_ok h1
  unfold Fac.padding at h1
  rw [M.bind_ok (bitsLeft_eq _ hm hl)] at h1
  have hL : ((LuaVal.num (F := F) L).toUnsigned : Int) = L := by simp [LuaVal.toUnsigned, LuaVal.toInteger]
  rw [hL] at h1
  obtain ⟨n, hn⟩ : ∃ n, n = (L : Int) * 8 - (s.r.pos - sec.startByteIndex * 8) := ⟨_, rfl⟩
  rw [← hn] at h1
  by_cases h3 : n = 0
  · rw [if_pos h3] at h1
    cases h1
    refine ⟨s.r, [], 0, ?_, Or.inl ⟨by omega, rfl, rfl, rfl⟩⟩
    unfold Fac.grown
    obtain ⟨r, message, ut, tg⟩ := s
    obtain ⟨ip, ss, pf⟩ := m
    obtain ⟨n1, n2, n3, n4, n5⟩ := sec
    dsimp only at hm hl h0 ⊢
    subst hm hl h0
    simp
  · rw [if_neg h3] at h1
    by_cases h4 : n < 0
    · rw [if_pos h4] at h1; cases h1
    · rw [if_neg h4, M.bind_ok (changeSection_eq _ hm hl)] at h1
      obtain ⟨b, s2, hb, h1⟩ := M.bind_eq_ok.1 h1
      obtain ⟨hb1, hb2⟩ := onReader_ok (of_wrapErr_ok hb)
      cases b with
      | none => cases h1
      | some b =>
        obtain ⟨u, s3, h5, h6⟩ := M.bind_eq_ok.1 h1
        cases h6
        rw [hb2, Fac.addField, changeSection_eq _ rfl rfl] at h5
        cases h5
        exact ⟨s2.r, _, n, rfl, Or.inr ⟨by omega, by omega, b, rfl, hb1⟩⟩

/-- The value of the length field. -/
theorem readUint_value [GoFloat F] {r r' : Reader F} {v : Val F} {n : Int}
    (h : Fac.readValue DataType.UINT n r = (.ok v, r')) : ∃ u, v = .uint u := by
  unfold Fac.readValue at h
  rw [if_pos rfl] at h
  obtain ⟨b, r1, h1, h2⟩ := M.bind_eq_ok.1 h
  cases h2
  exact ⟨b, rfl⟩

/-- The field `lengthInBytes` with the value `L`. -/
def lengthOf (L : Nat) : Field F := lengthDecl.field (.uint L)

theorem value_length {L : Nat} {s s' : Fac F} {v : LuaVal F} (h : Script.value (lengthOf L) s = (.ok v, s')) :
    v = .num L ∧ s' = s := by
  obtain ⟨h1, rfl⟩ := value_ok h
  cases h1
  exact ⟨rfl, rfl⟩

/-- The beginning of a section. -/
theorem opening_full [GoFloat F] {ds : List FieldDecl} {number : Int} {description : GoString} {s s1 s2 s3 : Fac F}
    {m : Message F} {f : Field F} (hm : s.message = some m)
    (h1 : Fac.newSection number description s = (.ok (), s1)) (h2 : Script.lengthField s1 = (.ok f, s2))
    (h3 : Script.newFields ds s2 = (.ok (), s3)) :
    ∃ L r fs, f = lengthOf L ∧ ReadFields s.r (lengthDecl :: ds) (lengthOf L :: fs) r ∧
      s3 = s.closed r m ⟨number, description, s.r.pos.tdiv 8, 0, lengthOf L :: fs⟩ (proxiesOf ds fs m.proxyFields) := by
  rw [newSection_eq _ _ hm] at h1
  cases h1
  obtain ⟨v, r1, hv, rfl, rfl⟩ := newField_ok rfl rfl h2
  obtain ⟨r, fs, hr, rfl⟩ := newFields_ok rfl rfl h3
  obtain ⟨L, rfl⟩ := readUint_value hv
  exact ⟨L, r, fs, rfl, .cons hv hr, rfl⟩

theorem section1_full [GoFloat F] {ds : List FieldDecl} {s s' : Fac F} {m : Message F} (hm : s.message = some m)
    (h : Script.section1 ds s = (.ok (), s')) :
    ∃ L r r1 fs pad n, ReadFields s.r (lengthDecl :: ds) (lengthOf L :: fs) r1 ∧
      Pads L (s.r.pos.tdiv 8) r1 pad n r ∧
      s' = s.closed r m ⟨1, str "Identification Section", s.r.pos.tdiv 8, n, lengthOf L :: fs ++ pad⟩
        (proxiesOf ds fs m.proxyFields) := by
  unfold Script.section1 at h
  obtain ⟨_, s1, h1, h⟩ := M.bind_eq_ok.1 h
  obtain ⟨f, s2, h2, h⟩ := M.bind_eq_ok.1 h
  obtain ⟨_, s3, h3, h⟩ := M.bind_eq_ok.1 h
  obtain ⟨v, s4, h4, h⟩ := M.bind_eq_ok.1 h
  obtain ⟨L, r1, fs, rfl, hr, rfl⟩ := opening_full hm h1 h2 h3
  obtain ⟨rfl, rfl⟩ := value_length h4
  obtain ⟨r, pad, n, rfl, hp⟩ := padding_full rfl rfl rfl h
  exact ⟨L, r, r1, fs, pad, n, hr, hp, rfl⟩

/-- The fields of section 2 with the length `L`. -/
def fields2 (L : Nat) : List FieldDecl :=
  [lengthDecl, ⟨"reservedBits", DataType.BINARY, 8, false⟩, ⟨"localBits", DataType.BINARY, ((L : Int) - 4) * 8, false⟩]

theorem section2_full [GoFloat F] {s s' : Fac F} {m : Message F} (hm : s.message = some m)
    (h : Script.section2 s = (.ok (), s')) :
    ∃ L r fs, ReadFields s.r (fields2 L) (lengthOf L :: fs) r ∧
      s' = s.closed r m ⟨2, str "Optional Section", s.r.pos.tdiv 8, 0, lengthOf L :: fs⟩ m.proxyFields := by
  unfold Script.section2 at h
  obtain ⟨_, s1, h1, h⟩ := M.bind_eq_ok.1 h
  obtain ⟨f, s2, h2, h⟩ := M.bind_eq_ok.1 h
  obtain ⟨g, s3, h3, h⟩ := M.bind_eq_ok.1 h
  obtain ⟨v, s4, h4, h⟩ := M.bind_eq_ok.1 h
  obtain ⟨w, s5, h5, h⟩ := M.bind_eq_ok.1 h
  obtain ⟨k, s6, h6, h7⟩ := M.bind_eq_ok.1 h
  cases h7
  rw [newSection_eq _ _ hm] at h1
  cases h1
  obtain ⟨v1, r1, hv1, rfl, rfl⟩ := newField_ok rfl rfl h2
  obtain ⟨v2, r2, hv2, rfl, rfl⟩ := newField_ok rfl rfl h3
  obtain ⟨L, rfl⟩ := readUint_value hv1
  obtain ⟨rfl, rfl⟩ := value_length (L := L) h4
  simp only [M.lift_apply, Prod.mk.injEq] at h5
  obtain ⟨hw, rfl⟩ := h5
  cases hw
  obtain ⟨v3, r3, hv3, rfl, rfl⟩ := newField_ok rfl rfl h6
  exact ⟨L, r3, _, .cons hv1 (.cons hv2 (.cons hv3 (.nil _))), rfl⟩

/-- The field `unexpandedTemplate`. -/
def templateField (ids : List ID) : Field F :=
  ⟨str "unexpandedTemplate", .template ⟨ids, 2, 6, 8⟩, ids.length * 16, false⟩

theorem section3_full [GoFloat F] {s s' : Fac F} {m : Message F} (hm : s.message = some m)
    (h : Script.section3 s = (.ok (), s')) :
    ∃ (L : Nat) (r r1 r2 : Reader F) (fs : List (Field F)) (ids : List ID) (k : Nat) (pad : List (Field F)) (n : Int),
      ReadFields s.r (lengthDecl :: Script.fields3) (lengthOf L :: fs) r1 ∧
      (k : Int) = ((L : Int) * 8 - (r1.pos - s.r.pos.tdiv 8 * 8)).tdiv 16 ∧
      Fac.readIds 2 6 8 k r1 = (.ok ids, r2) ∧ Pads L (s.r.pos.tdiv 8) r2 pad n r ∧
      s' = { s.closed r m ⟨3, str "Data Description Section", s.r.pos.tdiv 8, n,
          lengthOf L :: fs ++ [templateField ids] ++ pad⟩
        (mapSet (proxiesOf Script.fields3 fs m.proxyFields) (str "unexpandedTemplate") (templateField ids))
          with ut := some ⟨ids, 2, 6, 8⟩ } := by
  unfold Script.section3 at h
  obtain ⟨_, s1, h1, h⟩ := M.bind_eq_ok.1 h
  obtain ⟨f, s2, h2, h⟩ := M.bind_eq_ok.1 h
  obtain ⟨_, s3, h3, h⟩ := M.bind_eq_ok.1 h
  obtain ⟨v, s4, h4, h⟩ := M.bind_eq_ok.1 h
  obtain ⟨t, s5, h5, h⟩ := M.bind_eq_ok.1 h
  obtain ⟨v2, s6, h6, h⟩ := M.bind_eq_ok.1 h
  obtain ⟨L, r1, fs, rfl, hr, rfl⟩ := opening_full hm h1 h2 h3
  obtain ⟨rfl, rfl⟩ := value_length h4
  obtain ⟨r2, ids, k, hk, hids, rfl, rfl⟩ := newTemplateField_ok rfl rfl h5
  obtain ⟨rfl, rfl⟩ := value_length h6
  obtain ⟨r, pad, n, rfl, hp⟩ := padding_full rfl rfl rfl h
  exact ⟨L, r, r1, r2, fs, ids, k, pad, n, hr, hids, hk, hp, rfl⟩

/-- The field `payload`. -/
def payloadField (p : Payload F) (w : Int) : Field F := ⟨str "payload", .payload p, w, false⟩

/-- The payload `p` is decoded at `r` with the given template, tables, number of subsets and flag; then the
reader is `r'`. -/
def DecodesAt [GoFloat F] (c : FacCfg) (lookup : Lookup) (ids : List ID) (n : Int) (compressed : Bool) (r : Reader F)
    (p : Payload F) (r' : Reader F) : Prop :=
  ∃ tree vc v', parse lookup c.fuel ids = .ok tree ∧
    newDeserializeVisitor c.fuel compressed c.inputType c.compatible n = .ok vc ∧
    Vis.decodeSubsets vc tree (if compressed = true ∧ c.inputType = .binary then 1 else n).toNat
      { compressed := compressed } (Fac.freshVis r) = (.ok p, v') ∧ r' = v'.r

theorem newPayloadField_full [GoFloat F] {c : FacCfg} {s s' : Fac F} {m : Message F} {front : List (Section F)}
    {sec : Section F} {name : GoString} {nsubsets : Int} {compressed : Bool} {f : Field F}
    (hm : s.message = some m) (hl : m.sections = front ++ [sec])
    (h : raise (Fac.newPayloadField c name nsubsets compressed) s = (.ok f, s')) :
    ∃ ut p r', s.ut = some ut ∧ DecodesAt c (Fac.lookup s) ut.ids nsubsets compressed s.r p r' ∧
      f = ⟨name, .payload p, r'.pos - s.r.pos, false⟩ ∧
      s' = s.grown r' m front sec [f] (mapSet m.proxyFields name f) := by
  obtain ⟨tree, p, s1, h1, -, h3, rfl, rfl⟩ := newPayloadField_ok hm hl h
  unfold Fac.parseTemplate at h1
  cases hu : s.ut with
  | none => rw [hu] at h1; cases h1
  | some ut =>
    rw [hu] at h1
    have h1 := (Prod.mk.inj h1).1
    have hp : parse (Fac.lookup s) c.fuel ut.ids = .ok tree := by
      cases hpp : parse (Fac.lookup s) c.fuel ut.ids with
      | ok t => rw [hpp] at h1; simpa [Outcome.wrapErr] using h1
      | err e => rw [hpp] at h1; cases h1
      | panic w => rw [hpp] at h1; cases h1
      | diverge => rw [hpp] at h1; cases h1
    unfold Fac.decodePayload at h3
    obtain ⟨vc, s5, h4, h5⟩ := M.bind_eq_ok.1 h3
    simp only [M.lift_apply, Prod.mk.injEq] at h4
    obtain ⟨h4, rfl⟩ := h4
    have h5' : M.zoom (fun s : Fac F => Fac.freshVis s.r) (fun v s => { s with r := v.r })
      (Vis.decodeSubsets vc tree (if compressed = true ∧ c.inputType = .binary then 1 else nsubsets).toNat
        { compressed := compressed }) s = (.ok p, s1) := h5
    simp only [M.zoom, Prod.mk.injEq] at h5'
    exact ⟨ut, p, s1.r, rfl, ⟨tree, vc, _, hp, h4, eq_of_fst h5'.1, by rw [← h5'.2]⟩, rfl, rfl⟩

theorem section4_full [GoFloat F] {c : FacCfg} {s s' : Fac F} {m : Message F} (hm : s.message = some m)
    (h : Script.section4 c s = (.ok (), s')) :
    ∃ L r r1 r2 fs ut p pad n nf cf nv cv, ReadFields s.r [lengthDecl, ⟨"reservedBits", Script.BIN, 8, false⟩]
        (lengthOf L :: fs) r1 ∧
      mapGet m.proxyFields (str "nSubsets") = some nf ∧ nf.luaValue = .ok nv ∧
      mapGet m.proxyFields (str "isCompressed") = some cf ∧ cf.luaValue = .ok cv ∧
      s.ut = some ut ∧ DecodesAt c (Fac.lookup s) ut.ids nv.toInteger cv.toBoolean r1 p r2 ∧
      Pads L (s.r.pos.tdiv 8) r2 pad n r ∧
      s' = s.closed r m ⟨4, str "Data Section", s.r.pos.tdiv 8, n,
        lengthOf L :: fs ++ [payloadField p (r2.pos - r1.pos)] ++ pad⟩
        (mapSet m.proxyFields (str "payload") (payloadField p (r2.pos - r1.pos))) := by
  unfold Script.section4 at h
  obtain ⟨_, s1, h1, h⟩ := M.bind_eq_ok.1 h
  obtain ⟨f, s2, h2, h⟩ := M.bind_eq_ok.1 h
  obtain ⟨g, s3, h3, h⟩ := M.bind_eq_ok.1 h
  obtain ⟨ns, s4, h4, h⟩ := M.bind_eq_ok.1 h
  obtain ⟨co, s5, h5, h⟩ := M.bind_eq_ok.1 h
  obtain ⟨t, s6, h6, h⟩ := M.bind_eq_ok.1 h
  obtain ⟨v, s7, h7, h⟩ := M.bind_eq_ok.1 h
  rw [newSection_eq _ _ hm] at h1
  cases h1
  obtain ⟨v1, r1, hv1, rfl, rfl⟩ := newField_ok rfl rfl h2
  obtain ⟨v2, r2, hv2, rfl, rfl⟩ := newField_ok rfl rfl h3
  obtain ⟨L, rfl⟩ := readUint_value hv1
  obtain ⟨nf, hn1, hn2, rfl⟩ := proxyValue_ok rfl h4
  obtain ⟨cf, hc1, hc2, rfl⟩ := proxyValue_ok rfl h5
  obtain ⟨ut, p, r', hu, hd, rfl, rfl⟩ := newPayloadField_full rfl rfl h6
  obtain ⟨rfl, rfl⟩ := value_length (L := L) h7
  obtain ⟨r, pad, n, rfl, hp⟩ := padding_full rfl rfl rfl h
  exact ⟨L, r, r2, r', _, ut, p, pad, n, nf, cf, ns, co, .cons hv1 (.cons hv2 (.nil _)), hn1, hn2, hc1, hc2, hu, hd, hp, rfl⟩

theorem initTableGroup_full {c : FacCfg} {s s' : Fac F} {m : Message F} (hm : s.message = some m)
    (h : Script.initTableGroup c s = (.ok (), s')) :
    ∃ f1 f2 f3 f4 f5 v1 v2 v3 v4 v5 g,
      mapGet m.proxyFields (str "masterTableNumber") = some f1 ∧ f1.luaValue = .ok v1 ∧
      mapGet m.proxyFields (str "originatingCentre") = some f2 ∧ f2.luaValue = .ok v2 ∧
      mapGet m.proxyFields (str "originatingSubCentre") = some f3 ∧ f3.luaValue = .ok v3 ∧
      mapGet m.proxyFields (str "masterTableVersion") = some f4 ∧ f4.luaValue = .ok v4 ∧
      mapGet m.proxyFields (str "localTableVersion") = some f5 ∧ f5.luaValue = .ok v5 ∧
      addLocalAndWmoTableGroups c.tables v1.toInteger v2.toInteger v3.toInteger v4.toInteger v5.toInteger ⟨[]⟩ =
        (.ok (), g) ∧ s' = { s with tableGroup := some g } := by
  unfold Script.initTableGroup at h
  obtain ⟨v1, s1, p1, q1⟩ := M.bind_eq_ok.1 h
  obtain ⟨f1, a1, b1, e1⟩ := proxyValue_ok hm p1
  rw [e1] at q1
  obtain ⟨v2, s2, p2, q2⟩ := M.bind_eq_ok.1 q1
  obtain ⟨f2, a2, b2, e2⟩ := proxyValue_ok hm p2
  rw [e2] at q2
  obtain ⟨v3, s3, p3, q3⟩ := M.bind_eq_ok.1 q2
  obtain ⟨f3, a3, b3, e3⟩ := proxyValue_ok hm p3
  rw [e3] at q3
  obtain ⟨v4, s4, p4, q4⟩ := M.bind_eq_ok.1 q3
  obtain ⟨f4, a4, b4, e4⟩ := proxyValue_ok hm p4
  rw [e4] at q4
  obtain ⟨v5, s5, p5, q5⟩ := M.bind_eq_ok.1 q4
  obtain ⟨f5, a5, b5, e5⟩ := proxyValue_ok hm p5
  rw [e5] at q5
  clear h
  have h := of_wrapErr_ok q5
  unfold Fac.initTableGroup at h
  split at h
  · rename_i g hg
    cases h
    exact ⟨f1, f2, f3, f4, f5, v1, v2, v3, v4, v5, g, a1, b1, a2, b2, a3, b3, a4, b4, a5, b5, hg, rfl⟩
  · cases h
  · cases h
  · cases h

/-! ## Fields by name -/

/-- The value of the first simple field of that name. -/
def valueIn (fs : List (Field F)) (name : String) : Option (Val F) :=
  (fs.find? fun f => f.name = str name).bind fun f =>
    match f.value with
    | .val v => some v
    | _ => none

theorem proxiesOf_other [GoFloat F] {r r' : Reader F} {ds : List FieldDecl} {fs : List (Field F)} {name : String}
    (h : ReadFields r ds fs r') : (∀ x ∈ ds, str x.name ≠ str name) → ∀ pf,
    mapGet (proxiesOf ds fs pf) (str name) = mapGet pf (str name) := by
  induction h with
  | nil => intros; rfl
  | @cons r r1 r2 x xs fs v h1 h2 ih =>
    intro hx pf
    simp only [proxiesOf]
    rw [ih fun y hy => hx y (List.mem_cons_of_mem _ hy)]
    unfold FieldDecl.proxies
    split
    · simp [mapSet, mapGet, FieldDecl.field, hx x (by simp)]
    · rfl

theorem ReadFields.lookup [GoFloat F] {r r' : Reader F} {ds : List FieldDecl} {fs : List (Field F)} {d : FieldDecl}
    (h : ReadFields r ds fs r') (hnd : (ds.map fun x => str x.name).Nodup) (hd : d ∈ ds) :
    ∃ v r1 r2, Fac.readValue d.dataType d.nbits r1 = (.ok v, r2) ∧
      (∀ more, valueIn (fs ++ more) d.name = some v) ∧
      (d.proxy = true → ∀ pf, mapGet (proxiesOf ds fs pf) (str d.name) = some (d.field v)) := by
  obtain ⟨pre, post, rfl⟩ := List.append_of_mem hd
  simp only [List.map_append, List.map_cons] at hnd
  have h1 : ∀ x ∈ pre, str x.name ≠ str d.name := by
    intro x hx he
    exact (List.nodup_append.1 hnd).2.2 _ (List.mem_map_of_mem hx) _ (by simp) he
  have h2 : ∀ x ∈ post, str x.name ≠ str d.name := by
    intro x hx he
    exact (List.nodup_cons.1 (List.nodup_append.1 hnd).2.1).1 (he ▸ List.mem_map_of_mem (f := fun x => str x.name) hx)
  obtain ⟨v, r1, r2, k1, k2, k3⟩ := h.get h1
  refine ⟨v, r1, r2, k1, fun more => ?_, fun hp pf => k3 hp h2 pf⟩
  unfold valueIn
  rw [k2 more]
  rfl

/-! ## Whole messages -/

/-- How the sections of a message were read. -/
structure Trace [GoFloat F] (c : FacCfg) (ds : List FieldDecl) (r : Reader F) where
  fs0 : List (Field F)
  r1 : Reader F
  h0 : ReadFields r Script.fields0 fs0 r1
  L1 : Nat
  fs1 : List (Field F)
  r1' : Reader F
  pad1 : List (Field F)
  n1 : Int
  r2 : Reader F
  h1 : ReadFields r1 (lengthDecl :: ds) (lengthOf L1 :: fs1) r1'
  p1 : Pads L1 (r1.pos.tdiv 8) r1' pad1 n1 r2
  present : Bool
  hpresent : ∀ more, valueIn (lengthOf L1 :: fs1 ++ more) "isSection2Presents" = some (.bool present)
  L2 : Nat
  fs2 : List (Field F)
  r3 : Reader F
  h2 : if present then ReadFields r2 (fields2 L2) (lengthOf L2 :: fs2) r3 else r3 = r2
  L3 : Nat
  fs3 : List (Field F)
  r3' : Reader F
  h3 : ReadFields r3 (lengthDecl :: Script.fields3) (lengthOf L3 :: fs3) r3'
  ids : List ID
  k : Nat
  hk : (k : Int) = ((L3 : Int) * 8 - (r3'.pos - r3.pos.tdiv 8 * 8)).tdiv 16
  r3'' : Reader F
  hids : Fac.readIds 2 6 8 k r3' = (.ok ids, r3'')
  pad3 : List (Field F)
  n3 : Int
  r4 : Reader F
  p3 : Pads L3 (r3.pos.tdiv 8) r3'' pad3 n3 r4
  master : Nat
  centre : Nat
  subCentre : Nat
  masterVersion : Nat
  localVersion : Nat
  hmaster : ∀ more, valueIn (lengthOf L1 :: fs1 ++ more) "masterTableNumber" = some (.uint master)
  hcentre : ∀ more, valueIn (lengthOf L1 :: fs1 ++ more) "originatingCentre" = some (.uint centre)
  hsubCentre : ∀ more, valueIn (lengthOf L1 :: fs1 ++ more) "originatingSubCentre" = some (.uint subCentre)
  hmasterVersion : ∀ more, valueIn (lengthOf L1 :: fs1 ++ more) "masterTableVersion" = some (.uint masterVersion)
  hlocalVersion : ∀ more, valueIn (lengthOf L1 :: fs1 ++ more) "localTableVersion" = some (.uint localVersion)
  g : ChainGroup
  hg : addLocalAndWmoTableGroups c.tables master centre subCentre masterVersion localVersion ⟨[]⟩ = (.ok (), g)
  L4 : Nat
  fs4 : List (Field F)
  r4' : Reader F
  h4 : ReadFields r4 [lengthDecl, ⟨"reservedBits", Script.BIN, 8, false⟩] (lengthOf L4 :: fs4) r4'
  nSubsets : Nat
  hnSubsets : ∀ more, valueIn (lengthOf L3 :: fs3 ++ more) "nSubsets" = some (.uint nSubsets)
  compressed : Bool
  hcompressed : ∀ more, valueIn (lengthOf L3 :: fs3 ++ more) "isCompressed" = some (.bool compressed)
  p : Payload F
  r4'' : Reader F
  hp : DecodesAt c g.lookup ids nSubsets compressed r4' p r4''
  pad4 : List (Field F)
  n4 : Int
  r5 : Reader F
  p4 : Pads L4 (r4.pos.tdiv 8) r4'' pad4 n4 r5
  fs5 : List (Field F)
  r6 : Reader F
  h5 : ReadFields r5 [⟨"stopSignature", DataType.BYTES, 32, false⟩] fs5 r6

namespace Trace

variable [GoFloat F] {c : FacCfg} {ds : List FieldDecl} {r : Reader F}

def sec0 (t : Trace c ds r) : Section F := ⟨0, str "Indicator Section", r.pos.tdiv 8, 0, t.fs0⟩
def sec1 (t : Trace c ds r) : Section F :=
  ⟨1, str "Identification Section", t.r1.pos.tdiv 8, t.n1, lengthOf t.L1 :: t.fs1 ++ t.pad1⟩
def sec2 (t : Trace c ds r) : Section F := ⟨2, str "Optional Section", t.r2.pos.tdiv 8, 0, lengthOf t.L2 :: t.fs2⟩
def sec3 (t : Trace c ds r) : Section F :=
  ⟨3, str "Data Description Section", t.r3.pos.tdiv 8, t.n3, lengthOf t.L3 :: t.fs3 ++ [templateField t.ids] ++ t.pad3⟩
def sec4 (t : Trace c ds r) : Section F :=
  ⟨4, str "Data Section", t.r4.pos.tdiv 8, t.n4,
    lengthOf t.L4 :: t.fs4 ++ [payloadField t.p (t.r4''.pos - t.r4'.pos)] ++ t.pad4⟩
def sec5 (t : Trace c ds r) : Section F := ⟨5, str "End Section", t.r5.pos.tdiv 8, 0, t.fs5⟩

def sections (t : Trace c ds r) : List (Section F) :=
  [t.sec0, t.sec1] ++ (if t.present then [t.sec2] else []) ++ [t.sec3, t.sec4, t.sec5]

def proxies (t : Trace c ds r) : List (GoString × Field F) :=
  mapSet (mapSet (proxiesOf Script.fields3 t.fs3 (proxiesOf ds t.fs1 (proxiesOf Script.fields0 t.fs0 [])))
    (str "unexpandedTemplate") (templateField t.ids)) (str "payload") (payloadField t.p (t.r4''.pos - t.r4'.pos))

def message (t : Trace c ds r) : Message F := ⟨[], t.sections, t.proxies⟩

end Trace

/-- Section 1 of an edition. -/
def IsEdition (ds : List FieldDecl) : Prop := ds = Script.fields1Edition3 ∨ ds = Script.fields1Edition4

instance : DecidablePred IsEdition := fun _ => inferInstanceAs (Decidable (_ ∨ _))

/-- A field of section 1 and its proxy. -/
theorem section1_value [GoFloat F] {ds : List FieldDecl} (hds : IsEdition ds) {r r' : Reader F} {L : Nat}
    {fs : List (Field F)} (h : ReadFields r (lengthDecl :: ds) (lengthOf L :: fs) r') {name : String}
    (h1 : ∃ d ∈ Script.fields1Edition3, d.name = name ∧ d.proxy = true)
    (h2 : ∃ d ∈ Script.fields1Edition4, d.name = name ∧ d.proxy = true) :
    ∃ d ∈ ds, d.name = name ∧ ∃ v r1 r2, Fac.readValue d.dataType d.nbits r1 = (.ok v, r2) ∧
      (∀ more, valueIn (lengthOf L :: fs ++ more) name = some v) ∧
      (∀ pf, mapGet (proxiesOf ds fs pf) (str name) = some (d.field v)) := by
  have hnd : ((lengthDecl :: ds).map fun x => str x.name).Nodup := by
    rcases hds with rfl | rfl <;> decide
  have hd : ∃ d ∈ ds, d.name = name ∧ d.proxy = true := by
    rcases hds with rfl | rfl
    · exact h1
    · exact h2
  obtain ⟨d, hd, rfl, hp⟩ := hd
  obtain ⟨v, r1, r2, k1, k2, k3⟩ := h.lookup hnd (List.mem_cons_of_mem _ hd)
  exact ⟨d, hd, rfl, v, r1, r2, k1, k2, k3 hp⟩

/-- An unsigned field of section 1 and its proxy. -/
theorem section1_uint [GoFloat F] {ds : List FieldDecl} (hds : IsEdition ds) {r r' : Reader F} {L : Nat}
    {fs : List (Field F)} (h : ReadFields r (lengthDecl :: ds) (lengthOf L :: fs) r') {name : String}
    (h1 : ∃ d ∈ Script.fields1Edition3, d.name = name ∧ d.proxy = true)
    (h2 : ∃ d ∈ Script.fields1Edition4, d.name = name ∧ d.proxy = true)
    (h3 : ∀ d ∈ ds, d.name = name → d.dataType = DataType.UINT) :
    ∃ u, (∀ more, valueIn (lengthOf L :: fs ++ more) name = some (.uint u)) ∧
      ∀ pf f v, mapGet (proxiesOf ds fs pf) (str name) = some f → f.luaValue = .ok v → v = .num (u : Int) := by
  obtain ⟨d, hd, hn, v, r1, r2, k1, k2, k3⟩ := section1_value hds h h1 h2
  rw [h3 d hd hn] at k1
  obtain ⟨u, rfl⟩ := readUint_value k1
  refine ⟨u, k2, fun pf f v hf hv => ?_⟩
  rw [k3] at hf
  cases hf
  cases hv
  rfl

theorem mapGet_mapSet_other {α : Type} (pf : List (GoString × α)) {a b : GoString} (f : α) (h : a ≠ b) :
    mapGet (mapSet pf a f) b = mapGet pf b := by
  simp [mapSet, mapGet, h]

theorem deserialise_trace [GoFloat F] {c : FacCfg} {s s' : Fac F} {m : Message F} {ds : List FieldDecl}
    (hds : IsEdition ds) (h : Script.deserialise c ds s = (.ok m, s')) :
    ∃ t : Trace c ds s.r, m = t.message ∧ s'.r = t.r6 := by
  unfold Script.deserialise at h
  obtain ⟨_, s1, h1, q1⟩ := M.bind_eq_ok.1 h
  cases h1
  obtain ⟨_, s2, h2, q2⟩ := M.bind_eq_ok.1 q1
  obtain ⟨_, s3, h3, q3⟩ := M.bind_eq_ok.1 q2
  obtain ⟨_, s4, h4, q4⟩ := M.bind_eq_ok.1 q3
  obtain ⟨_, s5, h5, q5⟩ := M.bind_eq_ok.1 q4
  obtain ⟨_, s6, h6, q6⟩ := M.bind_eq_ok.1 q5
  obtain ⟨_, s7, h7, q7⟩ := M.bind_eq_ok.1 q6
  obtain ⟨_, s8, h8, q8⟩ := M.bind_eq_ok.1 q7
  clear h q1 q2 q3 q4 q5 q6 q7
  obtain ⟨r0, fs0, hr0, rfl⟩ := section0_ok rfl h2
  obtain ⟨L1, r2, r1', fs1, pad1, n1, hr1, hp1, rfl⟩ := section1_full rfl h3
  -- the flag
  have hb : ∃ b, (∀ more, valueIn (lengthOf L1 :: fs1 ++ more) "isSection2Presents" = some (.bool b)) ∧
      ∀ pf f v, mapGet (proxiesOf ds fs1 pf) (str "isSection2Presents") = some f → f.luaValue = .ok v → v = .bool b := by
    obtain ⟨d, hd, hn, v, ra, rb, k1, k2, k3⟩ := section1_value hds hr1 (name := "isSection2Presents") (by decide) (by decide)
    have : ∀ d ∈ ds, d.name = "isSection2Presents" → d.dataType = DataType.BOOL := by
      rcases hds with rfl | rfl <;> decide
    rw [this d hd hn] at k1
    obtain ⟨b, rfl⟩ := readBool_value k1
    refine ⟨b, k2, fun pf f v hf hv => ?_⟩
    rw [k3] at hf
    cases hf
    cases hv
    rfl
  obtain ⟨b, hb1, hb2⟩ := hb
  have hu : ∀ d ∈ ds, (d.name = "masterTableNumber" ∨ d.name = "originatingCentre" ∨ d.name = "originatingSubCentre" ∨
      d.name = "masterTableVersion" ∨ d.name = "localTableVersion") → d.dataType = DataType.UINT := by
    rcases hds with rfl | rfl <;> decide
  obtain ⟨u1, ha1, hc1⟩ := section1_uint hds hr1 (name := "masterTableNumber") (by decide) (by decide)
    (fun d hd hn => hu d hd (by simp [hn]))
  obtain ⟨u2, ha2, hc2⟩ := section1_uint hds hr1 (name := "originatingCentre") (by decide) (by decide)
    (fun d hd hn => hu d hd (by simp [hn]))
  obtain ⟨u3, ha3, hc3⟩ := section1_uint hds hr1 (name := "originatingSubCentre") (by decide) (by decide)
    (fun d hd hn => hu d hd (by simp [hn]))
  obtain ⟨u4, ha4, hc4⟩ := section1_uint hds hr1 (name := "masterTableVersion") (by decide) (by decide)
    (fun d hd hn => hu d hd (by simp [hn]))
  obtain ⟨u5, ha5, hc5⟩ := section1_uint hds hr1 (name := "localTableVersion") (by decide) (by decide)
    (fun d hd hn => hu d hd (by simp [hn]))
  -- the optional section
  unfold Script.optionalSection2 at h4
  obtain ⟨v4, s4', h4a, h4b⟩ := M.bind_eq_ok.1 h4
  obtain ⟨f4, hf4, hl4, rfl⟩ := proxyValue_ok rfl h4a
  obtain rfl := hb2 _ _ _ hf4 hl4
  obtain ⟨m3, hm3⟩ : ∃ m3 : Message F, m3 = ⟨[], [⟨0, str "Indicator Section", s.r.pos.tdiv 8, 0, fs0⟩,
      ⟨1, str "Identification Section", r0.pos.tdiv 8, n1, lengthOf L1 :: fs1 ++ pad1⟩],
      proxiesOf ds fs1 (proxiesOf Script.fields0 fs0 [])⟩ := ⟨_, rfl⟩
  have h2c : ∃ L2 fs2 r3, (if b then ReadFields r2 (fields2 L2) (lengthOf L2 :: fs2) r3 else r3 = r2) ∧
      s4.r = r3 ∧ s4.message = some ⟨[], m3.sections ++
        (if b then [⟨2, str "Optional Section", r2.pos.tdiv 8, 0, lengthOf L2 :: fs2⟩] else []), m3.proxyFields⟩ := by
    cases b with
    | false =>
      replace h4b : (pure () : M (Fac F) Unit) _ = (.ok (), s4) := h4b
      cases h4b
      exact ⟨0, [], _, rfl, rfl, by subst hm3; rfl⟩
    | true =>
      replace h4b : Script.section2 _ = (.ok (), s4) := h4b
      obtain ⟨L2, r3, fs2, hr2, rfl⟩ := section2_full rfl h4b
      exact ⟨L2, fs2, r3, hr2, rfl, by subst hm3; rfl⟩
  clear h4 h4a h4b hl4 hf4
  obtain ⟨L2, fs2, r3, hr2, hsr, hsm⟩ := h2c
  obtain ⟨L3, r4, r3', r3'', fs3, ids, k, pad3, n3, hr3, hk, hids, hp3, rfl⟩ := section3_full hsm h5
  rw [hsr] at hr3 hk hp3
  obtain ⟨f1, f2, f3, f4', f5, v1, v2, v3, v4, v5, g, t1, w1, t2, w2, t3, w3, t4, w4, t5, w5, hg, rfl⟩ :=
    initTableGroup_full rfl h6
  have other : ∀ name : String, (∀ x ∈ lengthDecl :: Script.fields3, str x.name ≠ str name) →
      str "unexpandedTemplate" ≠ str name →
      mapGet (mapSet (proxiesOf Script.fields3 fs3 m3.proxyFields) (str "unexpandedTemplate")
        (templateField (F := F) ids)) (str name) = mapGet m3.proxyFields (str name) := by
    intro name g1 g2
    rw [mapGet_mapSet_other _ _ g2]
    exact proxiesOf_other hr3 g1 m3.proxyFields
  have hm3p : m3.proxyFields = proxiesOf ds fs1 (proxiesOf Script.fields0 fs0 []) := by rw [hm3]
  have e1 : v1 = .num (u1 : Int) := hc1 _ _ _ (by rw [← hm3p, ← other _ (by decide) (by decide)]; exact t1) w1
  have e2 : v2 = .num (u2 : Int) := hc2 _ _ _ (by rw [← hm3p, ← other _ (by decide) (by decide)]; exact t2) w2
  have e3 : v3 = .num (u3 : Int) := hc3 _ _ _ (by rw [← hm3p, ← other _ (by decide) (by decide)]; exact t3) w3
  have e4 : v4 = .num (u4 : Int) := hc4 _ _ _ (by rw [← hm3p, ← other _ (by decide) (by decide)]; exact t4) w4
  have e5 : v5 = .num (u5 : Int) := hc5 _ _ _ (by rw [← hm3p, ← other _ (by decide) (by decide)]; exact t5) w5
  subst e1 e2 e3 e4 e5
  obtain ⟨L4, r5, r4', r4'', fs4, ut, p, pad4, n4, nf, cf, nv, cv, hr4, g1, g2, g3, g4, g5, g6, hp4, rfl⟩ :=
    section4_full rfl h7
  have hnd3 : ((lengthDecl :: Script.fields3).map fun x => str x.name).Nodup := by decide
  obtain ⟨x1, ra, rb, i1, i2, i3⟩ := hr3.lookup (d := ⟨"nSubsets", DataType.UINT, 16, true⟩) hnd3 (by decide)
  obtain ⟨nsub, rfl⟩ := readUint_value i1
  have en : nv = .num (nsub : Int) := by
    have := i3 rfl m3.proxyFields
    have g1' : mapGet (mapSet (proxiesOf Script.fields3 fs3 m3.proxyFields) (str "unexpandedTemplate")
        (templateField (F := F) ids)) (str "nSubsets") = some nf := g1
    rw [mapGet_mapSet_other _ _ (by decide)] at g1'
    have : some nf = some _ := g1'.symm.trans this
    cases this
    cases g2
    rfl
  obtain ⟨x2, rc, rd, j1, j2, j3⟩ := hr3.lookup (d := ⟨"isCompressed", DataType.BOOL, 1, true⟩) hnd3 (by decide)
  obtain ⟨co, rfl⟩ := readBool_value j1
  have ec : cv = .bool co := by
    have := j3 rfl m3.proxyFields
    have g3' : mapGet (mapSet (proxiesOf Script.fields3 fs3 m3.proxyFields) (str "unexpandedTemplate")
        (templateField (F := F) ids)) (str "isCompressed") = some cf := g3
    rw [mapGet_mapSet_other _ _ (by decide)] at g3'
    have : some cf = some _ := g3'.symm.trans this
    cases this
    cases g4
    rfl
  subst en ec
  cases g5
  obtain ⟨r6, fs5, hr5, rfl⟩ := section5_ok rfl h8
  have hm := (Outcome.ok.inj (Prod.mk.inj q8).1).symm
  have hs' := (Prod.mk.inj q8).2.symm
  refine ⟨⟨fs0, r0, hr0, L1, fs1, r1', pad1, n1, r2, hr1, hp1, b, hb1, L2, fs2, r3, hr2, L3, fs3, r3', hr3, ids, k, hk,
    r3'', hids, pad3, n3, r4, hp3, u1, u2, u3, u4, u5, ha1, ha2, ha3, ha4, ha5, g, hg, L4, fs4, r4', hr4, nsub, i2, co,
    j2, p, r4'', g6, pad4, n4, r5, hp4, fs5, r6, hr5⟩, ?_, ?_⟩
  · rw [hm]
    subst hm3 hsr
    simp only [Trace.message, Trace.sections, Trace.proxies, Trace.sec0, Trace.sec1, Trace.sec2, Trace.sec3, Trace.sec4,
      Trace.sec5]
    simp [Fac.closed]
  · rw [hs']
    rfl

end Gobufr
