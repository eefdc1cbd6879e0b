import Verif.Props.Header
import Verif.Props.Ast
import Verif.Props.Stream

/-!
# Helper lemmas: from a trace back to a run of the scripts
-/

namespace Gobufr
open Spec Layout TemplateSpec ParserSpec

variable {F : Type}

theorem newFields_eq [GoFloat F] {ds : List FieldDecl} {fs : List (Field F)} {r r' : Reader F} (h : ReadFields r ds fs r') :
    ∀ {s : Fac F} {m : Message F} {front : List (Section F)} {sec : Section F}, s.r = r → s.message = some m →
    m.sections = front ++ [sec] →
    Script.newFields ds s = (.ok (), s.grown r' m front sec fs (proxiesOf ds fs m.proxyFields)) := by
  induction h with
  | nil r =>
    intro s m front sec hr hm hl
    obtain ⟨r, message, ut, tg⟩ := s
    obtain ⟨ip, ss, pf⟩ := m
    dsimp only at hr hm hl
    subst hr hm hl
    simp [Script.newFields, Fac.grown, proxiesOf]
  | @cons r r1 r2 d ds fs v h1 h2 ih =>
    intro s m front sec hr hm hl
    subst hr
    unfold Script.newFields
    have h3 := newField_any d hm hl h1
    dsimp only at h3
    rw [M.bind_ok h3, ih (m := ⟨m.inputPath, front ++ [{ sec with fields := sec.fields ++ [d.field v] }], _⟩)
      (front := front) (sec := { sec with fields := sec.fields ++ [d.field v] }) rfl rfl rfl]
    simp [Fac.grown, proxiesOf]

theorem newFields_at [GoFloat F] {ds : List FieldDecl} {fs : List (Field F)} {r r' : Reader F} (h : ReadFields r ds fs r')
    {ip : GoString} {front : List (Section F)} {num : Int} {de : GoString} {st pd : Int} {fs0 : List (Field F)}
    {pf : List (GoString × Field F)}
    {ut : Option UnexpandedTemplate} {tg : Option ChainGroup} :
    Script.newFields ds ⟨r, some ⟨ip, front ++ [⟨num, de, st, pd, fs0⟩], pf⟩, ut, tg⟩ =
      (.ok (), ⟨r', some ⟨ip, front ++ [⟨num, de, st, pd, fs0 ++ fs⟩], proxiesOf ds fs pf⟩, ut, tg⟩) :=
  newFields_eq h (s := ⟨r, some ⟨ip, front ++ [⟨num, de, st, pd, fs0⟩], pf⟩, ut, tg⟩) rfl rfl rfl

theorem newField_at [GoFloat F] (d : FieldDecl) {v : Val F} {r r' : Reader F} (h : Fac.readValue d.dataType d.nbits r = (.ok v, r'))
    {ip : GoString} {front : List (Section F)} {num : Int} {de : GoString} {st pd : Int} {fs0 : List (Field F)}
    {pf : List (GoString × Field F)}
    {ut : Option UnexpandedTemplate} {tg : Option ChainGroup} :
    Script.newField d ⟨r, some ⟨ip, front ++ [⟨num, de, st, pd, fs0⟩], pf⟩, ut, tg⟩ =
      (.ok (d.field v), ⟨r', some ⟨ip, front ++ [⟨num, de, st, pd, fs0 ++ [d.field v]⟩],
        d.proxies (d.field v) pf⟩, ut, tg⟩) :=
  newField_any d (s := ⟨r, some ⟨ip, front ++ [⟨num, de, st, pd, fs0⟩], pf⟩, ut, tg⟩) rfl rfl h

theorem onReader_at {m : M (Reader F) α} {r r' : Reader F} {o : Outcome α} (h : m r = (o, r')) {x : Option (Message F)}
    {ut : Option UnexpandedTemplate} {tg : Option ChainGroup} : Fac.onReader m ⟨r, x, ut, tg⟩ = (o, ⟨r', x, ut, tg⟩) :=
  onReader_eq (s := ⟨r, x, ut, tg⟩) h

theorem padding_eq {s : Fac F} {m : Message F} {front : List (Section F)} {sec : Section F} {L : Nat} {r : Reader F}
    {pad : List (Field F)} {n : Int}
    (hm : s.message = some m) (hl : m.sections = front ++ [sec]) (h0 : sec.padding = 0)
    (h : Pads L sec.startByteIndex s.r pad n r) :
    Script.padding (.num L) s = (.ok (), s.grown r m front { sec with padding := n } pad m.proxyFields) := by
  unfold Script.padding
  have hL : ((LuaVal.num (F := F) L).toUnsigned : Int) = L := by simp [LuaVal.toUnsigned, LuaVal.toInteger]
  rcases h with ⟨h1, rfl, rfl, rfl⟩ | ⟨h1, h2, x, rfl, h3⟩
  · have : raise (Fac.padding (LuaVal.num (F := F) L).toUnsigned) s = (.ok none, s) := by
      apply wrapErr_ok
      unfold Fac.padding
      rw [M.bind_ok (bitsLeft_eq _ hm hl), hL, if_pos (by omega)]
      rfl
    rw [M.bind_ok this]
    obtain ⟨r, message, ut, tg⟩ := s
    obtain ⟨ip, ss, pf⟩ := m
    obtain ⟨n1, n2, n3, n4, n5⟩ := sec
    dsimp only at hm hl h0
    subst hm hl h0
    simp [Fac.grown]
  · have : raise (Fac.padding (LuaVal.num (F := F) L).toUnsigned) s =
        (.ok (some ⟨str "padding", .val (.binary (some x)), x.nbits, true⟩),
          s.grown r m front { sec with padding := n } [⟨str "padding", .val (.binary (some x)), x.nbits, true⟩]
            m.proxyFields) := by
      apply wrapErr_ok
      unfold Fac.padding
      have hn : (L : Int) * 8 - (s.r.pos - sec.startByteIndex * 8) = n := by omega
      rw [M.bind_ok (bitsLeft_eq _ hm hl), hL, hn, if_neg (by omega), if_neg (by omega),
        M.bind_ok (changeSection_eq _ hm hl)]
      rw [M.bind_ok (wrapErr_ok (onReader_at h3))]
      dsimp only
      rw [M.bind_ok (m := Fac.addField _) (changeSection_eq _ (m := ⟨m.inputPath, _, m.proxyFields⟩)
        (front := front) (sec := { sec with padding := n }) rfl rfl)]
      rfl
    rw [M.bind_ok this]
    rfl

theorem value_length_eq (L : Nat) (s : Fac F) : Script.value (lengthOf L) s = (.ok (.num L), s) := rfl

/-- The beginning of a section. -/
theorem opening_eq [GoFloat F] {ds : List FieldDecl} {number : Int} {description : GoString} {s : Fac F}
    {m : Message F} {L : Nat} {fs : List (Field F)} {r : Reader F} (hm : s.message = some m)
    (h : ReadFields s.r (lengthDecl :: ds) (lengthOf L :: fs) r) {α : Type} (k : Field F → M (Fac F) α) :
    (do Fac.newSection number description; let l ← Script.lengthField; Script.newFields ds; k l) s =
      k (lengthOf L) (s.closed r m ⟨number, description, s.r.pos.tdiv 8, 0, lengthOf L :: fs⟩
        (proxiesOf ds fs m.proxyFields)) := by
  rw [M.bind_ok (newSection_eq _ _ hm)]
  cases h with
  | @cons _ r1 _ _ _ _ v h1 h2 =>
    rw [M.bind_ok (m := Script.lengthField) (newField_at lengthDecl h1), M.bind_ok (newFields_at h2)]
    rfl

theorem section0_eq [GoFloat F] {s : Fac F} {m : Message F} {fs : List (Field F)} {r : Reader F} (hm : s.message = some m)
    (h : ReadFields s.r Script.fields0 fs r) :
    Script.section0 s = (.ok (), s.closed r m ⟨0, str "Indicator Section", s.r.pos.tdiv 8, 0, fs⟩
        (proxiesOf Script.fields0 fs m.proxyFields)) := by
  unfold Script.section0
  rw [M.bind_ok (newSection_eq _ _ hm), newFields_at h]
  rfl

theorem section5_eq [GoFloat F] {s : Fac F} {m : Message F} {fs : List (Field F)} {r : Reader F} (hm : s.message = some m)
    (h : ReadFields s.r [⟨"stopSignature", DataType.BYTES, 32, false⟩] fs r) :
    Script.section5 s = (.ok (), s.closed r m ⟨5, str "End Section", s.r.pos.tdiv 8, 0, fs⟩ m.proxyFields) := by
  unfold Script.section5
  rw [M.bind_ok (newSection_eq _ _ hm), newFields_at h]
  cases h with
  | cons h1 h2 =>
    cases h2
    rfl

theorem section1_eq [GoFloat F] {ds : List FieldDecl} {s : Fac F} {m : Message F} {L : Nat} {fs pad : List (Field F)}
    {n : Int} {r r1 : Reader F} (hm : s.message = some m)
    (h : ReadFields s.r (lengthDecl :: ds) (lengthOf L :: fs) r1) (hp : Pads L (s.r.pos.tdiv 8) r1 pad n r) :
    Script.section1 ds s = (.ok (), s.closed r m
      ⟨1, str "Identification Section", s.r.pos.tdiv 8, n, lengthOf L :: fs ++ pad⟩ (proxiesOf ds fs m.proxyFields)) := by
  unfold Script.section1
  refine (opening_eq hm h (fun l => do Script.padding (← Script.value l))).trans ?_
  rw [M.bind_ok (value_length_eq _ _), padding_eq (s := Fac.closed _ _ _ _ _) rfl rfl rfl hp]
  rfl

theorem section2_eq [GoFloat F] {s : Fac F} {m : Message F} {L : Nat} {fs : List (Field F)} {r : Reader F}
    (hm : s.message = some m) (h : ReadFields s.r (fields2 L) (lengthOf L :: fs) r) :
    Script.section2 s = (.ok (), s.closed r m ⟨2, str "Optional Section", s.r.pos.tdiv 8, 0, lengthOf L :: fs⟩
      m.proxyFields) := by
  unfold Script.section2
  rw [M.bind_ok (newSection_eq _ _ hm)]
  cases h with
  | @cons _ r1 _ _ _ _ v h1 h2 =>
    cases h2 with
    | @cons _ r2 _ _ _ _ v2 h2 h3 =>
      cases h3 with
      | @cons _ r3 _ _ _ _ v3 h3 h4 =>
        cases h4
        rw [M.bind_ok (m := Script.lengthField) (newField_at lengthDecl h1), M.bind_ok (newField_at _ h2),
          M.bind_ok (m := Script.value (lengthDecl.field (.uint L))) (value_length_eq L _)]
        refine (M.bind_ok (m := M.lift (LuaVal.num (F := F) (L : Int)).number) rfl).trans ?_
        rw [M.bind_ok (newField_at _ h3)]
        rfl

theorem addField_at (f : Field F) {r : Reader F} {ip : GoString} {front : List (Section F)} {sec : Section F}
    {pf : List (GoString × Field F)} {ut : Option UnexpandedTemplate} {tg : Option ChainGroup} :
    Fac.addField f ⟨r, some ⟨ip, front ++ [sec], pf⟩, ut, tg⟩ =
      (.ok (), ⟨r, some ⟨ip, front ++ [{ sec with fields := sec.fields ++ [f] }], pf⟩, ut, tg⟩) :=
  changeSection_eq _ (s := ⟨r, some ⟨ip, front ++ [sec], pf⟩, ut, tg⟩) rfl rfl

theorem setProxyField_at (f : Field F) {r : Reader F} {m : Message F} {ut : Option UnexpandedTemplate}
    {tg : Option ChainGroup} : Fac.setProxyField f ⟨r, some m, ut, tg⟩ = (.ok (), ⟨r, some (m.setProxyField f), ut, tg⟩) := rfl

theorem newTemplateField_at [GoFloat F] {ip : GoString} {front : List (Section F)} {sec : Section F}
    {pf : List (GoString × Field F)} {ut : Option UnexpandedTemplate} {tg : Option ChainGroup}
    {L k : Nat} {ids : List ID} {r0 r : Reader F}
    (hk : (k : Int) = ((L : Int) * 8 - (r0.pos - sec.startByteIndex * 8)).tdiv 16)
    (h : Fac.readIds 2 6 8 k r0 = (.ok ids, r)) :
    raise (Fac.newTemplateField (str "unexpandedTemplate") 2 6 8 L) ⟨r0, some ⟨ip, front ++ [sec], pf⟩, ut, tg⟩ =
      (.ok (templateField ids), ⟨r, some ⟨ip, front ++ [{ sec with fields := sec.fields ++ [templateField ids] }],
        mapSet pf (str "unexpandedTemplate") (templateField ids)⟩, some ⟨ids, 2, 6, 8⟩, tg⟩) := by
  apply wrapErr_ok
  unfold Fac.newTemplateField
  rw [M.bind_ok (bitsLeft_eq L (s := ⟨r0, some ⟨ip, front ++ [sec], pf⟩, ut, tg⟩) rfl rfl)]
  dsimp only
  rw [if_neg (by decide)]
  have e : (2 + 6 + 8 : Int) = 16 := rfl
  rw [e, ← hk, if_neg (by omega), Int.toNat_natCast]
  rw [M.bind_ok (onReader_at h), M.bind_ok (M.modify_apply _ _)]
  dsimp only
  rw [M.bind_ok (addField_at _), M.bind_ok (setProxyField_at _)]
  rfl

theorem padding_at {ip : GoString} {front : List (Section F)} {num : Int} {de : GoString} {st : Int} {fs0 : List (Field F)}
    {pf : List (GoString × Field F)} {ut : Option UnexpandedTemplate} {tg : Option ChainGroup} {L : Nat} {r0 r : Reader F}
    {pad : List (Field F)} {n : Int} (h : Pads L st r0 pad n r) :
    Script.padding (.num L) ⟨r0, some ⟨ip, front ++ [⟨num, de, st, 0, fs0⟩], pf⟩, ut, tg⟩ =
      (.ok (), ⟨r, some ⟨ip, front ++ [⟨num, de, st, n, fs0 ++ pad⟩], pf⟩, ut, tg⟩) :=
  padding_eq (s := ⟨r0, some ⟨ip, front ++ [⟨num, de, st, 0, fs0⟩], pf⟩, ut, tg⟩) rfl rfl rfl h

theorem section3_eq [GoFloat F] {s : Fac F} {m : Message F} {L k : Nat} {fs pad : List (Field F)} {n : Int}
    {r r1 r2 : Reader F} {ids : List ID} (hm : s.message = some m)
    (h : ReadFields s.r (lengthDecl :: Script.fields3) (lengthOf L :: fs) r1)
    (hk : (k : Int) = ((L : Int) * 8 - (r1.pos - s.r.pos.tdiv 8 * 8)).tdiv 16)
    (hids : Fac.readIds 2 6 8 k r1 = (.ok ids, r2)) (hp : Pads L (s.r.pos.tdiv 8) r2 pad n r) :
    Script.section3 s = (.ok (), { s.closed r m ⟨3, str "Data Description Section", s.r.pos.tdiv 8, n,
          lengthOf L :: fs ++ [templateField ids] ++ pad⟩
        (mapSet (proxiesOf Script.fields3 fs m.proxyFields) (str "unexpandedTemplate") (templateField ids))
          with ut := some ⟨ids, 2, 6, 8⟩ }) := by
  unfold Script.section3
  refine (opening_eq hm h (fun l => do
    let length ← Script.value l
    let _ ← raise (Fac.newTemplateField (str "unexpandedTemplate") 2 6 8 length.toUnsigned)
    Script.padding (← Script.value l))).trans ?_
  have hu : (LuaVal.num (F := F) (L : Int)).toUnsigned = L := by simp [LuaVal.toUnsigned, LuaVal.toInteger]
  rw [M.bind_ok (value_length_eq _ _), hu]
  refine (M.bind_ok (newTemplateField_at hk hids)).trans ?_
  rw [M.bind_ok (value_length_eq _ _)]
  exact padding_at hp

theorem proxyValue_eq {name : String} {s : Fac F} {v : LuaVal F} {m : Message F} {f : Field F} (hm : s.message = some m)
    (hf : mapGet m.proxyFields (str name) = some f) (hv : f.luaValue = .ok v) :
    Script.proxyValue name s = (.ok v, s) := by
  unfold Script.proxyValue
  rw [M.bind_ok (theMessage_eq hm)]
  have : (M.lift (BitReader.wrapO "lua" (m.proxyField (str name))) : M (Fac F) (Field F)) s = (.ok f, s) := by
    simp [Message.proxyField, hf, BitReader.wrapO, M.lift_apply]
  rw [M.bind_ok this]
  unfold Script.value
  simp [hv, BitReader.wrapO, M.lift_apply]

theorem proxyValue_at {name : String} {r : Reader F} {ip : GoString} {ss : List (Section F)} {pf : List (GoString × Field F)}
    {ut : Option UnexpandedTemplate} {tg : Option ChainGroup} {v : LuaVal F} {f : Field F}
    (hf : mapGet pf (str name) = some f) (hv : f.luaValue = .ok v) :
    Script.proxyValue name ⟨r, some ⟨ip, ss, pf⟩, ut, tg⟩ = (.ok v, ⟨r, some ⟨ip, ss, pf⟩, ut, tg⟩) :=
  proxyValue_eq (m := ⟨ip, ss, pf⟩) rfl hf hv

theorem newPayloadField_at [GoFloat F] {c : FacCfg} {ip : GoString} {front : List (Section F)} {sec : Section F}
    {pf : List (GoString × Field F)} {nsubsets : Int} {compressed : Bool} {ut : UnexpandedTemplate} {p : Payload F}
    {r0 r : Reader F} {g : ChainGroup} (h : DecodesAt c g.lookup ut.ids nsubsets compressed r0 p r) :
    raise (Fac.newPayloadField c (str "payload") nsubsets compressed)
        ⟨r0, some ⟨ip, front ++ [sec], pf⟩, some ut, some g⟩ = (.ok (payloadField p (r.pos - r0.pos)),
      ⟨r, some ⟨ip, front ++ [{ sec with fields := sec.fields ++ [payloadField p (r.pos - r0.pos)] }],
        mapSet pf (str "payload") (payloadField p (r.pos - r0.pos))⟩, some ut, some g⟩) := by
  obtain ⟨s, hs⟩ : ∃ s : Fac F, s = ⟨r0, some ⟨ip, front ++ [sec], pf⟩, some ut, some g⟩ := ⟨_, rfl⟩
  rw [← hs]
  have hu : s.ut = some ut := by rw [hs]
  have hg : s.tableGroup = some g := by rw [hs]
  obtain ⟨tree, vc, v', h1, h2, h3, rfl⟩ := h
  obtain ⟨ns, rfl⟩ : ∃ ns, tree = .base rootDescriptor ns := by
    obtain ⟨s', ns, h, -⟩ := parse_ok_iff.1 h1
    exact ⟨_, h⟩
  apply wrapErr_ok
  unfold Fac.newPayloadField
  rw [M.bind_ok (M.gets_apply _ _)]
  have e1 : Fac.parseTemplate c s = (.ok (.base rootDescriptor ns), s) := by
    have hlk : Fac.lookup s = g.lookup := by unfold Fac.lookup; rw [hg]
    unfold Fac.parseTemplate
    rw [hu]
    dsimp only
    rw [hlk, h1]
    rfl
  have e2 : Fac.verboseDump c (.base rootDescriptor ns) s = (.ok (), s) := by
    unfold Fac.verboseDump
    split
    · have := C78_dump _ (C78_parse_trees _ (good_chain g) _ _ ⟨c.fuel, h1⟩) 0 []
      simp only [Nat.mul_zero, List.replicate_zero] at this
      rw [this]
      rfl
    · rfl
  have e3 : Fac.decodePayload c (.base rootDescriptor ns) nsubsets compressed s = (.ok p, { s with r := v'.r }) := by
    have hr : s.r = r0 := by rw [hs]
    rw [← hr] at h3
    unfold Fac.decodePayload
    rw [h2]
    refine (M.bind_ok (m := M.lift (.ok vc)) rfl).trans ?_
    simp only [M.zoom]
    rw [h3]
  rw [M.bind_ok e1, M.bind_ok e2, M.bind_ok e3, M.bind_ok (M.gets_apply _ _)]
  subst hs
  dsimp only
  rw [M.bind_ok (addField_at _), M.bind_ok (setProxyField_at _)]
  rfl

theorem section4_eq [GoFloat F] {c : FacCfg} {s : Fac F} {m : Message F} {L : Nat} {fs pad : List (Field F)} {n : Int}
    {r r1 r2 : Reader F} {ut : UnexpandedTemplate} {g : ChainGroup} {p : Payload F} {nf cf : Field F} {nv cv : LuaVal F}
    (hm : s.message = some m)
    (h : ReadFields s.r [lengthDecl, ⟨"reservedBits", Script.BIN, 8, false⟩] (lengthOf L :: fs) r1)
    (hn1 : mapGet m.proxyFields (str "nSubsets") = some nf) (hn2 : nf.luaValue = .ok nv)
    (hc1 : mapGet m.proxyFields (str "isCompressed") = some cf) (hc2 : cf.luaValue = .ok cv)
    (hu : s.ut = some ut) (hg : s.tableGroup = some g)
    (hd : DecodesAt c g.lookup ut.ids nv.toInteger cv.toBoolean r1 p r2)
    (hp : Pads L (s.r.pos.tdiv 8) r2 pad n r) :
    Script.section4 c s = (.ok (), s.closed r m ⟨4, str "Data Section", s.r.pos.tdiv 8, n,
        lengthOf L :: fs ++ [payloadField p (r2.pos - r1.pos)] ++ pad⟩
        (mapSet m.proxyFields (str "payload") (payloadField p (r2.pos - r1.pos)))) := by
  unfold Script.section4
  obtain ⟨r0, message, ut', tg⟩ := s
  dsimp only at hm hu hg
  subst hm hu hg
  obtain ⟨ip, ss, pf⟩ := m
  rw [M.bind_ok (newSection_eq _ _ rfl)]
  cases h with
  | @cons _ r' _ _ _ _ v h1 h2 =>
    cases h2 with
    | @cons _ r'' _ _ _ _ v2 h2 h3 =>
      cases h3
      rw [M.bind_ok (m := Script.lengthField) (newField_at lengthDecl h1)]
      rw [M.bind_ok (newField_at _ h2)]
      refine (M.bind_ok (proxyValue_at hn1 hn2)).trans ?_
      refine (M.bind_ok (proxyValue_at hc1 hc2)).trans ?_
      refine (M.bind_ok (newPayloadField_at hd)).trans ?_
      refine (M.bind_ok (m := Script.value (lengthDecl.field (.uint L))) (value_length_eq L _)).trans ?_
      exact padding_at hp

theorem initTableGroup_at {c : FacCfg} {r : Reader F} {ip : GoString} {ss : List (Section F)} {pf : List (GoString × Field F)}
    {ut : Option UnexpandedTemplate} {tg : Option ChainGroup} {g : ChainGroup} {f1 f2 f3 f4 f5 : Field F} {v1 v2 v3 v4 v5 : LuaVal F}
    (a1 : mapGet pf (str "masterTableNumber") = some f1) (b1 : f1.luaValue = .ok v1)
    (a2 : mapGet pf (str "originatingCentre") = some f2) (b2 : f2.luaValue = .ok v2)
    (a3 : mapGet pf (str "originatingSubCentre") = some f3) (b3 : f3.luaValue = .ok v3)
    (a4 : mapGet pf (str "masterTableVersion") = some f4) (b4 : f4.luaValue = .ok v4)
    (a5 : mapGet pf (str "localTableVersion") = some f5) (b5 : f5.luaValue = .ok v5)
    (hg : addLocalAndWmoTableGroups c.tables v1.toInteger v2.toInteger v3.toInteger v4.toInteger v5.toInteger ⟨[]⟩ = (.ok (), g)) :
    Script.initTableGroup c ⟨r, some ⟨ip, ss, pf⟩, ut, tg⟩ = (.ok (), ⟨r, some ⟨ip, ss, pf⟩, ut, some g⟩) := by
  unfold Script.initTableGroup
  rw [M.bind_ok (proxyValue_at a1 b1), M.bind_ok (proxyValue_at a2 b2), M.bind_ok (proxyValue_at a3 b3),
    M.bind_ok (proxyValue_at a4 b4), M.bind_ok (proxyValue_at a5 b5)]
  apply wrapErr_ok
  unfold Fac.initTableGroup
  rw [hg]

/-- The proxy of a field of section 1, by its value. -/
theorem section1_proxy [GoFloat F] {ds : List FieldDecl} (hds : IsEdition ds) {r r' : Reader F} {L : Nat} {fs : List (Field F)}
    (h : ReadFields r (lengthDecl :: ds) (lengthOf L :: fs) r') {name : String}
    (h1 : ∃ d ∈ Script.fields1Edition3, d.name = name ∧ d.proxy = true)
    (h2 : ∃ d ∈ Script.fields1Edition4, d.name = name ∧ d.proxy = true) {v : Val F}
    (hv : ∀ more, valueIn (lengthOf L :: fs ++ more) name = some v) :
    ∃ f : Field F, f.value = .val v ∧ ∀ pf, mapGet (proxiesOf ds fs pf) (str name) = some f := by
  obtain ⟨d, _, _, v', _, _, _, k2, k3⟩ := section1_value hds h h1 h2
  have : v' = v := Option.some.inj ((k2 []).symm.trans (hv []))
  subst this
  exact ⟨_, rfl, k3⟩

theorem luaValue_uint {f : Field F} {u : Nat} (h : f.value = .val (.uint u)) : f.luaValue = .ok (.num u) := by
  unfold Field.luaValue; rw [h]

theorem luaValue_bool {f : Field F} {b : Bool} (h : f.value = .val (.bool b)) : f.luaValue = .ok (.bool b) := by
  unfold Field.luaValue; rw [h]

/-- What was read like this is what the scripts make of it. -/
theorem deserialise_of_trace [GoFloat F] {c : FacCfg} {ds : List FieldDecl} (hds : IsEdition ds) (s : Fac F) (t : Trace c ds s.r) :
    ∃ s', Script.deserialise c ds s = (.ok t.message, s') ∧ s'.r = t.r6 := by
  obtain ⟨r, message, ut, tg⟩ := s
  obtain ⟨fb, hb1, hb2⟩ := section1_proxy hds t.h1 (by decide) (by decide) t.hpresent
  obtain ⟨f1, u1, w1⟩ := section1_proxy hds t.h1 (by decide) (by decide) t.hmaster
  obtain ⟨f2, u2, w2⟩ := section1_proxy hds t.h1 (by decide) (by decide) t.hcentre
  obtain ⟨f3, u3, w3⟩ := section1_proxy hds t.h1 (by decide) (by decide) t.hsubCentre
  obtain ⟨f4, u4, w4⟩ := section1_proxy hds t.h1 (by decide) (by decide) t.hmasterVersion
  obtain ⟨f5, u5, w5⟩ := section1_proxy hds t.h1 (by decide) (by decide) t.hlocalVersion
  have hnd3 : ((lengthDecl :: Script.fields3).map fun x => str x.name).Nodup := by decide
  obtain ⟨x1, _, _, _, i2, i3⟩ := t.h3.lookup (d := ⟨"nSubsets", DataType.UINT, 16, true⟩) hnd3 (by decide)
  obtain rfl : x1 = .uint t.nSubsets := Option.some.inj ((i2 []).symm.trans (t.hnSubsets []))
  obtain ⟨x2, _, _, _, j2, j3⟩ := t.h3.lookup (d := ⟨"isCompressed", DataType.BOOL, 1, true⟩) hnd3 (by decide)
  obtain rfl : x2 = .bool t.compressed := Option.some.inj ((j2 []).symm.trans (t.hcompressed []))
  have other : ∀ name : String, (∀ x ∈ lengthDecl :: Script.fields3, str x.name ≠ str name) →
      str "unexpandedTemplate" ≠ str name → ∀ pf,
      mapGet (mapSet (proxiesOf Script.fields3 t.fs3 pf) (str "unexpandedTemplate")
        (templateField (F := F) t.ids)) (str name) = mapGet pf (str name) := by
    intro name g1 g2 pf
    rw [mapGet_mapSet_other _ _ g2]
    exact proxiesOf_other t.h3 g1 pf
  have n3 : ∀ pf, mapGet (mapSet (proxiesOf Script.fields3 t.fs3 pf) (str "unexpandedTemplate")
        (templateField (F := F) t.ids)) (str "nSubsets") = some _ := fun pf =>
    (mapGet_mapSet_other _ _ (by decide)).trans (i3 rfl pf)
  have c3 : ∀ pf, mapGet (mapSet (proxiesOf Script.fields3 t.fs3 pf) (str "unexpandedTemplate")
        (templateField (F := F) t.ids)) (str "isCompressed") = some _ := fun pf =>
    (mapGet_mapSet_other _ _ (by decide)).trans (j3 rfl pf)
  unfold Script.deserialise
  have e1 : Fac.newMessage [] (⟨r, message, ut, tg⟩ : Fac F) = (.ok _, ⟨r, some ⟨[], [], []⟩, ut, tg⟩) := rfl
  rw [M.bind_ok e1]
  refine ⟨⟨t.r6, some t.message, some ⟨t.ids, 2, 6, 8⟩, some t.g⟩, ?_, rfl⟩
  refine (M.bind_ok (section0_eq (s := ⟨r, some ⟨[], [], []⟩, ut, tg⟩) rfl t.h0)).trans ?_
  refine (M.bind_ok (section1_eq (s := Fac.closed _ _ _ _ _) rfl t.h1 t.p1)).trans ?_
  have e2 : ∀ m : Message F, m.proxyFields = proxiesOf ds t.fs1 (proxiesOf Script.fields0 t.fs0 []) →
      Script.optionalSection2 ⟨t.r2, some m, ut, tg⟩ = (.ok (), ⟨t.r3, some ⟨m.inputPath,
        m.sections ++ (if t.present then [t.sec2] else []), m.proxyFields⟩, ut, tg⟩) := by
    intro m hm
    obtain ⟨ip, ss, pf⟩ := m
    dsimp only at hm ⊢
    subst hm
    unfold Script.optionalSection2
    rw [M.bind_ok (proxyValue_at (hb2 _) (luaValue_bool hb1))]
    have h2 := t.h2
    cases hp : t.present with
    | false =>
      rw [hp] at h2
      simp only [Bool.false_eq_true, if_false] at h2
      simp [LuaVal.toBoolean, h2]
    | true =>
      rw [hp] at h2
      simp only [if_true] at h2
      exact section2_eq (s := ⟨t.r2, some ⟨ip, ss, _⟩, ut, tg⟩) rfl h2
  refine (M.bind_ok (e2 _ rfl)).trans ?_
  refine (M.bind_ok (section3_eq (s := ⟨t.r3, some _, ut, tg⟩) rfl t.h3 t.hk t.hids t.p3)).trans ?_
  refine (M.bind_ok (initTableGroup_at
    ((other _ (by decide) (by decide) _).trans (w1 _)) (luaValue_uint u1)
    ((other _ (by decide) (by decide) _).trans (w2 _)) (luaValue_uint u2)
    ((other _ (by decide) (by decide) _).trans (w3 _)) (luaValue_uint u3)
    ((other _ (by decide) (by decide) _).trans (w4 _)) (luaValue_uint u4)
    ((other _ (by decide) (by decide) _).trans (w5 _)) (luaValue_uint u5) t.hg)).trans ?_
  refine (M.bind_ok (section4_eq (s := ⟨t.r4, some _, some ⟨t.ids, 2, 6, 8⟩, some t.g⟩) rfl t.h4
    (n3 _) rfl (c3 _) rfl rfl rfl t.hp t.p4)).trans ?_
  refine (M.bind_ok (section5_eq (s := Fac.closed _ _ _ _ _) rfl t.h5)).trans ?_
  refine (theMessage_eq rfl).trans ?_
  simp [Fac.closed, Trace.message, Trace.sections, Trace.proxies, Trace.sec0, Trace.sec1, Trace.sec2, Trace.sec3,
    Trace.sec4, Trace.sec5]

end Gobufr
