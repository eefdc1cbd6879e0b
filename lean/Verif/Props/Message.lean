import Verif.Proofs.Sections
import Verif.Props.Factory

/-!
# Properties of whole messages

C70, C71, C82
-/

namespace Gobufr
open Spec

variable {F : Type}

/-! ## C70: the structure of a decoded message -/

theorem has_padded {s : Section F} {x : Layout.SectionShape} {fs pad : List (Field F)} (hn : s.number = x.number)
    (hf : s.fields = fs ++ pad) (hm : Matches HasShape fs x.fields) (hp : x.padded = true) (h : PadField pad) :
    SectionHas s x := by
  refine ⟨hn, fs, pad, hf, hm, ?_⟩
  rcases h with rfl | ⟨b, rfl⟩
  · exact Or.inl rfl
  · exact Or.inr ⟨hp, _, rfl, rfl, rfl⟩

theorem has_bare {s : Section F} {x : Layout.SectionShape} {fs : List (Field F)} (hn : s.number = x.number)
    (hf : s.fields = fs) (hm : Matches HasShape fs x.fields) : SectionHas s x :=
  ⟨hn, fs, [], by simp [hf], hm, Or.inl rfl⟩

theorem has_fields [GoFloat F] {r r' : Reader F} {ds : List FieldDecl} {fs : List (Field F)}
    {xs : List Layout.FieldShape} (h : ReadFields r ds fs r') (hn : ∀ d ∈ ds, 0 ≤ d.nbits)
    (hx : ds.map FieldDecl.shape = xs) : Matches HasShape fs xs := hx ▸ h.has hn

/-- The value of the flag field. -/
theorem readBool_value [GoFloat F] {r r' : Reader F} {v : Val F} {n : Int}
    (h : Fac.readValue DataType.BOOL n r = (.ok v, r')) : ∃ b, v = .bool b := by
  unfold Fac.readValue at h
  rw [if_neg (by decide), if_neg (by decide), if_neg (by decide), if_pos rfl] at h
  obtain ⟨b, r1, h1, h2⟩ := M.bind_eq_ok.1 h
  cases h2
  exact ⟨b, rfl⟩

/-- A successful run of the script of an edition. -/
theorem deserialise_ok [GoFloat F] {c : FacCfg} {s s' : Fac F} {m : Message F} {ds : List FieldDecl}
    {shape : Layout.SectionShape} {pre post : List FieldDecl}
    (hds : ds = pre ++ ⟨"isSection2Presents", DataType.BOOL, 1, true⟩ :: post)
    (hpre : ∀ x ∈ pre, str x.name ≠ str "isSection2Presents")
    (hpost : ∀ x ∈ post, str x.name ≠ str "isSection2Presents")
    (hn : ∀ d ∈ ds, 0 ≤ d.nbits)
    (hshape : (lengthDecl :: ds).map FieldDecl.shape = shape.fields) (hnum : shape.number = 1)
    (hpad : shape.padded = true)
    (h : Script.deserialise c ds s = (.ok m, s')) :
    ∃ fs0 r0 b, ReadFields s.r Script.fields0 fs0 r0 ∧ (m.sections.head?.map (·.fields)) = some fs0 ∧
      fieldValue m 1 "isSection2Presents" = some (.bool b) ∧
      MessageHas m ([Layout.indicator, shape] ++ (if b then [Layout.optional] else []) ++
        [Layout.description, Layout.data, Layout.ending]) := by
  unfold Script.deserialise at h
  obtain ⟨_, s1, h1, q1⟩ := M.bind_eq_ok.1 h
  cases h1
  obtain ⟨_, s2, h2, q2⟩ := M.bind_eq_ok.1 q1
  obtain ⟨_, s3, h3, q3⟩ := M.bind_eq_ok.1 q2
  obtain ⟨_, s4, h4, q4⟩ := M.bind_eq_ok.1 q3
  obtain ⟨_, s5, h5, q5⟩ := M.bind_eq_ok.1 q4
  obtain ⟨_, s6, h6, q6⟩ := M.bind_eq_ok.1 q5
  obtain ⟨_, s7, h7, q7⟩ := M.bind_eq_ok.1 q6
  obtain ⟨_, s8, h8, q8⟩ := M.bind_eq_ok.1 q7
  obtain ⟨r0, fs0, hr0, e2⟩ := section0_ok rfl h2
  have m2 : s2.message = some _ := congrArg Fac.message e2
  obtain ⟨r1, r1', f1, fs1, pad1, n1, hr1, hp1, e3⟩ := section1_ok m2 h3
  have m3 : s3.message = some _ := congrArg Fac.message e3
  -- the flag
  have hr1' : ReadFields s2.r ((lengthDecl :: pre) ++ ⟨"isSection2Presents", DataType.BOOL, 1, true⟩ :: post)
      (f1 :: fs1) r1' := by rw [hds] at hr1; exact hr1
  obtain ⟨v, ra, rb, hv, hfind, hget⟩ := hr1'.get (by
    intro x hx
    rcases List.mem_cons.1 hx with rfl | hx
    · decide
    · exact hpre x hx)
  obtain ⟨b, rfl⟩ := readBool_value hv
  have hflag := hget rfl hpost (proxiesOf Script.fields0 fs0 [])
  unfold Script.optionalSection2 at h4
  obtain ⟨v4, s4', h4a, h4b⟩ := M.bind_eq_ok.1 h4
  obtain ⟨f4, hf4, hl4, e4⟩ := proxyValue_ok m3 h4a
  rw [e4] at h4b
  have hb : v4 = .bool b := by
    have hx : mapGet (proxiesOf ds fs1 (proxiesOf Script.fields0 fs0 [])) (str "isSection2Presents") = some f4 := hf4
    have hy : proxiesOf ds fs1 (proxiesOf Script.fields0 fs0 []) = proxiesOf
        ((lengthDecl :: pre) ++ ⟨"isSection2Presents", DataType.BOOL, 1, true⟩ :: post) (f1 :: fs1)
        (proxiesOf Script.fields0 fs0 []) := by
      rw [hds]; rfl
    rw [hy, hflag] at hx
    cases hx
    cases hl4
    rfl
  subst hb
  have hsec0 : SectionHas ⟨0, str "Indicator Section", s.r.pos.tdiv 8, 0, fs0⟩ Layout.indicator :=
    has_bare rfl rfl (has_fields hr0 (by decide) rfl)
  have hsec1 : SectionHas ⟨1, str "Identification Section", s2.r.pos.tdiv 8, n1, f1 :: fs1 ++ pad1⟩ shape :=
    has_padded (by rw [hnum]; rfl) rfl (has_fields hr1 (by
      intro d hd
      rcases List.mem_cons.1 hd with rfl | hd
      · decide
      · exact hn d hd) hshape) hpad hp1
  -- the optional section
  have h4c : ∃ sec2, s4.message = some ⟨[], [⟨0, str "Indicator Section", s.r.pos.tdiv 8, 0, fs0⟩,
      ⟨1, str "Identification Section", s2.r.pos.tdiv 8, n1, f1 :: fs1 ++ pad1⟩] ++ sec2,
      proxiesOf ds fs1 (proxiesOf Script.fields0 fs0 [])⟩ ∧
      Matches SectionHas sec2 (if b then [Layout.optional] else []) ∧
      ∀ x ∈ sec2, x.number = 2 := by
    cases b with
    | false =>
      replace h4b : (pure () : M (Fac F) Unit) s3 = (.ok (), s4) := h4b
      cases h4b
      exact ⟨[], by rw [m3]; rfl, trivial, by simp⟩
    | true =>
      replace h4b : Script.section2 s3 = (.ok (), s4) := h4b
      obtain ⟨r2, fs2, w, hr2, e⟩ := section2_ok m3 h4b
      refine ⟨[⟨2, str "Optional Section", s3.r.pos.tdiv 8, 0, fs2⟩], by rw [e]; rfl, ⟨?_, trivial⟩, by simp⟩
      refine has_bare rfl rfl ?_
      cases hr2 with
      | cons k1 hr2 => cases hr2 with
        | cons k2 hr2 => cases hr2 with
          | cons k3 hr2 =>
            cases hr2
            refine ⟨⟨rfl, rfl, ?_⟩, ⟨rfl, rfl, ?_⟩, ⟨by simp only [FieldDecl.field, Layout.free], rfl, ?_⟩, trivial⟩
            · intro w hw; cases hw; rfl
            · intro w hw; cases hw; rfl
            · intro w hw; cases hw
  obtain ⟨sec2, m4, hsec2, hnum2⟩ := h4c
  obtain ⟨r3, r3', f3, fs3, t3, ids, pad3, n3, hr3, hp3, ht3, e5⟩ := section3_ok m4 h5
  have m5 : s5.message = some _ := congrArg Fac.message e5
  obtain ⟨g, e6⟩ := initTableGroup_ok m5 h6
  have m6 : s6.message = some _ := (congrArg Fac.message e6).trans m5
  obtain ⟨r4, r4', f4', fs4, t4, p4, w4, pad4, n4, hr4, hp4, ht4, e7⟩ := section4_ok m6 h7
  have m7 : s7.message = some _ := congrArg Fac.message e7
  obtain ⟨r5, fs5, hr5, e8⟩ := section5_ok m7 h8
  have m8 : s8.message = some _ := congrArg Fac.message e8
  rw [theMessage_eq m8] at q8
  have hm := (Outcome.ok.inj (Prod.mk.inj q8).1).symm
  subst hm
  refine ⟨fs0, r0, b, hr0, rfl, ?_, ?_⟩
  · have hf := hfind pad1
    simp only [fieldValue, List.append_assoc, List.cons_append, List.nil_append]
    rw [List.find?_cons_of_neg (by simp), List.find?_cons_of_pos (by simp)]
    simp only [Option.bind_some]
    have : (f1 :: (fs1 ++ pad1)).find? (fun f => decide (f.name = str "isSection2Presents")) = some _ := hf
    rw [this]
    rfl
  · have hsec3 : SectionHas ⟨3, str "Data Description Section", s4.r.pos.tdiv 8, n3, f3 :: fs3 ++ [t3] ++ pad3⟩
        Layout.description := by
      refine has_padded rfl rfl ?_ rfl hp3
      refine Matches.append (bs := Layout.description.fields.take 6) (bs' := [Layout.free "unexpandedTemplate"])
        (has_fields hr3 (by decide) rfl) ⟨?_, trivial⟩
      subst ht3
      exact ⟨rfl, rfl, fun w hw => by cases hw⟩
    have hsec4 : SectionHas ⟨4, str "Data Section", s6.r.pos.tdiv 8, n4, f4' :: fs4 ++ [t4] ++ pad4⟩
        Layout.data := by
      refine has_padded rfl rfl ?_ rfl hp4
      refine Matches.append (bs := Layout.data.fields.take 2) (bs' := [Layout.free "payload"])
        (has_fields hr4 (by decide) rfl) ⟨?_, trivial⟩
      subst ht4
      exact ⟨rfl, rfl, fun w hw => by cases hw⟩
    have hsec5 : SectionHas ⟨5, str "End Section", s7.r.pos.tdiv 8, 0, fs5⟩ Layout.ending :=
      has_bare rfl rfl (has_fields hr5 (by decide) rfl)
    have hall := Matches.append (Matches.append (as := [_, _]) (bs := [Layout.indicator, shape])
      ⟨hsec0, hsec1, trivial⟩ hsec2) (as' := [_, _, _]) (bs' := [Layout.description, Layout.data, Layout.ending])
      ⟨hsec3, hsec4, hsec5, trivial⟩
    show Matches SectionHas _ _
    simpa [List.append_assoc] using hall

/-- A successful run: the signature search, the edition number, and the sections. -/
theorem run_ok [GoFloat F] {c : FacCfg} {s s' : Fac F} {m : Message F} (h : Runtime.run c s = (.ok m, s')) :
    ∃ edition s1 s2 b fs0 r0, Fac.seekStartSignature s = (.ok (), s1) ∧
      Fac.peekEditionNumber s1 = (.ok edition, s2) ∧ (edition = 3 ∨ edition = 4) ∧
      ReadFields s2.r Script.fields0 fs0 r0 ∧ m.sections.head?.map (·.fields) = some fs0 ∧
      fieldValue m 1 "isSection2Presents" = some (.bool b) ∧ MessageHas m (Layout.sections edition b) := by
  unfold Runtime.run at h
  obtain ⟨_, s1, h1, h⟩ := M.bind_eq_ok.1 h
  unfold Script.boot at h
  obtain ⟨e, s2, h2, h⟩ := M.bind_eq_ok.1 h
  replace h2 := of_wrapErr_ok h2
  by_cases h4 : e = 4
  · rw [if_pos h4] at h
    obtain ⟨fs0, r0, b, k3, k4, k1, k2⟩ := deserialise_ok (pre := Script.fields1Edition4.take 4)
      (post := Script.fields1Edition4.drop 5) (shape := Layout.identification4) rfl (by decide) (by decide) (by decide)
      rfl rfl rfl h
    subst h4
    exact ⟨4, s1, s2, b, fs0, r0, h1, h2, Or.inr rfl, k3, k4, k1, k2⟩
  · rw [if_neg h4] at h
    by_cases h3 : e = 3
    · rw [if_pos h3] at h
      obtain ⟨fs0, r0, b, k3, k4, k1, k2⟩ := deserialise_ok (pre := Script.fields1Edition3.take 4)
        (post := Script.fields1Edition3.drop 5) (shape := Layout.identification3) rfl (by decide) (by decide)
        (by decide) rfl rfl rfl h
      subst h3
      exact ⟨3, s1, s2, b, fs0, r0, h1, h2, Or.inl rfl, k3, k4, k1, k2⟩
    · rw [if_neg h3] at h
      cases h

/-- **C70** (structure).  For every input, binary or flat JSON: a successful run gives a message with the
sections and fields of edition 3 or 4, whichever number was peeked after the start signature; section 2
is there exactly if the flag field of section 1 says so. -/
theorem C70_structure [GoFloat F] (c : FacCfg) (s s' : Fac F) (m : Message F)
    (h : Runtime.run c s = (.ok m, s')) :
    ∃ edition s1 s2 b, Fac.seekStartSignature s = (.ok (), s1) ∧
      Fac.peekEditionNumber s1 = (.ok edition, s2) ∧ (edition = 3 ∨ edition = 4) ∧
      fieldValue m 1 "isSection2Presents" = some (.bool b) ∧ MessageHas m (Layout.sections edition b) := by
  obtain ⟨e, s1, s2, b, -, -, h1, h2, h3, -, -, h4, h5⟩ := run_ok h
  exact ⟨e, s1, s2, b, h1, h2, h3, h4, h5⟩

namespace MessageExample

/-- Version 13 of the WMO tables with the element 012001 of 8 bits. -/
def tables : Tables where
  getB n := if n = ⟨0, 0, 0, 13⟩ then .ok ⟨[], [(12001, { (default : Bentry) with unit := .numeric, nbits := 8 })]⟩
    else .err .notExist
  getD n := if n = ⟨0, 0, 0, 13⟩ then .ok ⟨[], []⟩ else .err .notExist

def cfg : FacCfg := ⟨tables, .binary, false, false, 100⟩

/-- Sections 0 to 4 of an edition 4 message with one subset of the template 012001. -/
def body : List UInt8 :=
  [0x42, 0x55, 0x46, 0x52, 0, 0, 48, 4] ++
  [0, 0, 22, 0, 0, 1, 0, 0, 0, 0, 0, 0, 0, 13, 0, 7, 0xE4, 1, 1, 0, 0, 0] ++
  [0, 0, 9, 0, 0, 1, 0x80, 0x0C, 0x01] ++ [0, 0, 5, 0, 0x12]

/-- `7777` -/
def stop : List UInt8 := [0x37, 0x37, 0x37, 0x37]

def input (bs : List UInt8) : Fac ToyFloat := Fac.new (.bin ⟨BitReader.bitsOfBytes bs, 0⟩)

/-- Sections 0 to 4 of an edition 3 message with an optional section of 6 bytes and padding in the
sections 3 and 4. -/
def body3 : List UInt8 :=
  [0x42, 0x55, 0x46, 0x52, 0, 0, 54, 3] ++
  [0, 0, 18, 0, 0, 1, 0, 0x80, 0, 0, 13, 0, 7, 1, 1, 0, 0, 0] ++ [0, 0, 6, 0, 1, 2] ++
  [0, 0, 10, 0, 0, 2, 0x80, 0x0C, 0x01, 0] ++ [0, 0, 8, 0, 0x12, 0x13, 0, 0]

theorem run4 : (Runtime.run cfg (input (body ++ stop))).1.isOk = true := by decide +kernel

theorem run3 : (Runtime.run cfg (input (body3 ++ stop))).1.isOk = true := by decide +kernel

theorem isOk_eq {o : Outcome α} (h : o.isOk = true) : ∃ a, o = .ok a := by
  cases o with
  | ok a => exact ⟨a, rfl⟩
  | err e => cases h
  | panic w => cases h
  | diverge => cases h

end MessageExample

open MessageExample in
/-- Both messages have the structure stated. -/
example : (∃ m s' b, Runtime.run cfg (input (body ++ stop)) = (.ok m, s') ∧
      MessageHas m (Layout.sections 4 b)) ∧
    ∃ m s' b, Runtime.run cfg (input (body3 ++ stop)) = (.ok m, s') ∧ MessageHas m (Layout.sections 3 b) := by
  constructor
  · obtain ⟨m, hm⟩ := isOk_eq run4
    obtain ⟨e, s1, s2, b, h1, h2, -, -, h5⟩ := C70_structure _ _ _ m (eq_of_fst hm)
    have he : e = 4 := by
      have k : (do Fac.seekStartSignature; Fac.peekEditionNumber : M (Fac ToyFloat) Nat) (input (body ++ stop))
          = (.ok e, s2) := by rw [M.bind_ok h1]; exact h2
      have k' : ((do Fac.seekStartSignature; Fac.peekEditionNumber : M (Fac ToyFloat) Nat)
        (input (body ++ stop))).1 = .ok 4 := by decide +kernel
      rw [k] at k'
      exact Outcome.ok.inj k'
    subst he
    exact ⟨m, _, b, eq_of_fst hm, h5⟩
  · obtain ⟨m, hm⟩ := isOk_eq run3
    obtain ⟨e, s1, s2, b, h1, h2, -, -, h5⟩ := C70_structure _ _ _ m (eq_of_fst hm)
    have he : e = 3 := by
      have k : (do Fac.seekStartSignature; Fac.peekEditionNumber : M (Fac ToyFloat) Nat) (input (body3 ++ stop))
          = (.ok e, s2) := by rw [M.bind_ok h1]; exact h2
      have k' : ((do Fac.seekStartSignature; Fac.peekEditionNumber : M (Fac ToyFloat) Nat)
        (input (body3 ++ stop))).1 = .ok 3 := by decide +kernel
      rw [k] at k'
      exact Outcome.ok.inj k'
    subst he
    exact ⟨m, _, b, eq_of_fst hm, h5⟩

/-- **C70** (other editions).  For binary input at a byte boundary, an edition number other than 3 or 4
is an error. -/
theorem C70_rejects [GoFloat F] (c : FacCfg) (s : Fac F) (pre post : List UInt8) (l0 l1 l2 e : UInt8) (p : Int)
    (hs : s.r = .bin ⟨BitReader.bitsOfBytes (pre ++ signature ++ ([l0, l1, l2, e] ++ post)), p⟩) (hp : p.tmod 8 = 0)
    (hfirst : ∀ pre' post', pre ++ signature ++ ([l0, l1, l2, e] ++ post) = pre' ++ signature ++ post' →
      pre.length ≤ pre'.length)
    (h3 : e ≠ 3) (h4 : e ≠ 4) : ∃ err s', Runtime.run c s = (.err err, s') := by
  have hk := C68_found s pre _ p hs hp hfirst
  have hpk := BitReader.peekUint_byte 7 (signature ++ ([l0, l1, l2, e] ++ post)) (p + 8 * pre.length)
    (tmod8_add hp _) (by decide)
  have hpk' : Fac.peekEditionNumber { s with r := .bin ⟨BitReader.bitsOfBytes (signature ++ ([l0, l1, l2, e] ++ post)),
      p + 8 * pre.length⟩ } = (.ok e.toNat, _) := onReader_eq (Reader.call_bin hpk)
  unfold Runtime.run
  rw [M.bind_ok hk]
  unfold Script.boot raise
  rw [M.bind_ok (wrapErr_ok hpk'), if_neg, if_neg]
  · exact ⟨_, _, rfl⟩
  · intro h
    exact h3 (UInt8.toNat_inj.1 h)
  · intro h
    exact h4 (UInt8.toNat_inj.1 h)

open MessageExample in
/-- An edition 2 message behind two other bytes. -/
example : ∃ err s', Runtime.run cfg (input [7, 7, 0x42, 0x55, 0x46, 0x52, 0, 0, 48, 2, 0, 0]) = (.err err, s') := by
  refine C70_rejects cfg _ [7, 7] [0, 0] 0 0 48 2 0 rfl (by decide) ?_ (by decide) (by decide)
  intro pre' post' h
  match pre', h with
  | [], h => simp [signature] at h
  | [_], h => simp [signature] at h
  | _ :: _ :: _, _ => simp

/-! ## C82: the edition number -/

/-- **C82**, as it should be: the sections are decoded according to the edition number in section 0. -/
def C82_statement (F : Type) [GoFloat F] : Prop :=
  ∀ (c : FacCfg) (s s' : Fac F) (m : Message F), Runtime.run c s = (.ok m, s') →
    ∃ edition b, fieldValue m 0 "bufrEditionNumber" = some (.uint edition) ∧
      MessageHas m (Layout.sections edition b)

namespace MessageExample

/-- The edition 4 message as flat JSON, but with edition number 3 and update sequence number 4. -/
def tokens : List (Tok ToyFloat) :=
  [.delim, .str (str "BUFR"), .num ⟨48⟩, .num ⟨3⟩] ++
  [.num ⟨22⟩, .num ⟨0⟩, .num ⟨1⟩, .num ⟨0⟩, .num ⟨4⟩, .bool false, .str (str "0000000"), .num ⟨0⟩, .num ⟨0⟩, .num ⟨0⟩,
    .num ⟨13⟩, .num ⟨0⟩, .num ⟨2020⟩, .num ⟨1⟩, .num ⟨1⟩, .num ⟨0⟩, .num ⟨0⟩, .num ⟨0⟩] ++
  [.num ⟨9⟩, .num ⟨0⟩, .num ⟨1⟩, .bool true, .bool false, .num ⟨0⟩, .num ⟨0⟩, .num ⟨12⟩, .num ⟨1⟩] ++
  [.num ⟨5⟩, .num ⟨0⟩, .num ⟨18⟩] ++ [.str (str "7777"), .delim]

def jsonCfg : FacCfg := ⟨tables, .flatJson, false, false, 100⟩

def jsonInput : Fac ToyFloat := Fac.new (.json (PeekJson.new tokens))

end MessageExample

theorem Matches.get {R : α → β → Prop} : ∀ {as : List α} {bs : List β}, Matches R as bs → ∀ {i : Nat} {b : β},
    bs[i]? = some b → ∃ a, as[i]? = some a ∧ R a b
  | a :: _, b :: _, ⟨h1, h2⟩, 0, b', hb => by
    simp only [List.getElem?_cons_zero, Option.some.injEq] at hb
    subst hb
    exact ⟨a, rfl, h1⟩
  | _ :: _, _ :: _, ⟨h1, h2⟩, i + 1, b', hb => by
    simp only [List.getElem?_cons_succ] at hb ⊢
    exact Matches.get h2 hb
  | [], [], _, i, b, hb => by simp at hb

/-- The name of a field of a section, from the structure. -/
theorem MessageHas.name {m : Message F} {l : List Layout.SectionShape} (h : MessageHas m l) {i j : Nat}
    {x : Layout.SectionShape} {y : Layout.FieldShape} (hx : l[i]? = some x) (hy : x.fields[j]? = some y) :
    ((m.sections[i]?).bind fun s => (s.fields[j]?).map (·.name)) = some (str y.name) := by
  obtain ⟨s, hs, -, fs, pad, hf, hm, -⟩ := Matches.get h hx
  obtain ⟨f, hf2, hn, -⟩ := Matches.get hm hy
  have hlt : j < fs.length := by
    rcases Nat.lt_or_ge j fs.length with h | h
    · exact h
    · rw [List.getElem?_eq_none h] at hf2; cases hf2
  rw [hs]
  simp only [Option.bind_some, hf]
  rw [List.getElem?_append_left hlt, hf2]
  simp [hn]

open MessageExample in
/-- C82 is violated for flat JSON: the number looked at is the eighth value of the document, which is
not the edition number.  A document that says edition 3 is decoded with the fields of edition 4. -/
theorem C82_violates : ¬ C82_statement ToyFloat := by
  intro h
  have hok : (Runtime.run jsonCfg jsonInput).1.isOk = true := by decide +kernel
  obtain ⟨m, hm⟩ := isOk_eq hok
  have k : (match (Runtime.run jsonCfg jsonInput).1 with
      | .ok m => decide (fieldValue m 0 "bufrEditionNumber" = some (.uint 3) ∧
          ((m.sections[1]?).bind fun s => (s.fields[2]?).map (·.name)) = some (str "originatingCentre"))
      | _ => false) = true := by decide +kernel
  rw [hm] at k
  obtain ⟨k1, k2⟩ := of_decide_eq_true k
  obtain ⟨e, b, h1, h2⟩ := h _ _ _ m (eq_of_fst hm)
  rw [k1] at h1
  cases h1
  have := MessageHas.name h2 (i := 1) (j := 2) (x := Layout.identification3) rfl rfl
  rw [k2] at this
  revert this
  decide

theorem seek_ok {s s1 : Fac F} {bs : List UInt8} {p : Int} (hs : s.r = .bin ⟨BitReader.bitsOfBytes bs, p⟩)
    (hp : p.tmod 8 = 0) (h : Fac.seekStartSignature s = (.ok (), s1)) :
    ∃ pre post, bs = pre ++ signature ++ post ∧
      (∀ pre' post', bs = pre' ++ signature ++ post' → pre.length ≤ pre'.length) ∧
      s1 = { s with r := .bin ⟨BitReader.bitsOfBytes (signature ++ post), p + 8 * pre.length⟩ } := by
  have hex : ∃ n, ∃ pre post : List UInt8, pre.length = n ∧ bs = pre ++ signature ++ post := by
    obtain ⟨pre, post, hb⟩ := (C68_iff s bs p hs hp).1 (by rw [h])
    exact ⟨_, pre, post, rfl, hb⟩
  classical
  obtain ⟨pre, post, hl, hb⟩ := Nat.find_spec hex
  have hmin : ∀ pre' post', bs = pre' ++ signature ++ post' → pre.length ≤ pre'.length := by
    intro pre' post' h'
    rw [hl]
    exact Nat.find_min' hex ⟨pre', post', rfl, h'⟩
  refine ⟨pre, post, hb, hmin, ?_⟩
  have := C68_found s pre post p (by rw [hs, hb]) hp (by rw [← hb]; exact hmin)
  rw [this] at h
  exact (Prod.mk.inj h).2.symm

theorem readValue_uint [GoFloat F] (n : Int) (l t : Bits) (p : Int) (h : l.length = n.toNat) :
    (Fac.readValue DataType.UINT n (.bin ⟨l ++ t, p⟩) : Outcome (Val F) × Reader F)
      = (.ok (.uint (bitsVal l % two64)), .bin ⟨t, p + n⟩) := by
  unfold Fac.readValue
  rw [if_pos rfl, M.bind_ok (Reader.readUint_bin n l t p h)]
  rfl

theorem readValue_bytes [GoFloat F] (bs : List UInt8) (t : Bits) (p n : Int) (h : n = 8 * bs.length) :
    (Fac.readValue DataType.BYTES n (.bin ⟨BitReader.bitsOfBytes bs ++ t, p⟩) : Outcome (Val F) × Reader F)
      = (.ok (.bytes bs), .bin ⟨t, p + n⟩) := by
  unfold Fac.readValue
  have hn : n.tdiv 8 = bs.length := by rw [h]; exact Int.mul_tdiv_cancel_left _ (by decide)
  have hr : (Reader.readBytes bs.length (.bin ⟨BitReader.bitsOfBytes bs ++ t, p⟩) : Outcome _ × Reader F) = _ :=
    Reader.readBytes_bin bs t p
  rw [if_neg (by decide), if_neg (by decide), if_neg (by decide), if_neg (by decide), if_pos rfl, hn,
    M.bind_ok hr, h, Int.mul_comm]
  rfl

/-- **C82** (binary).  For binary input at a byte boundary the sections are decoded according to the edition
number in section 0. -/
theorem C82_binary_partial [GoFloat F] (c : FacCfg) (s s' : Fac F) (m : Message F) (bs : List UInt8) (p : Int)
    (hs : s.r = .bin ⟨BitReader.bitsOfBytes bs, p⟩) (hp : p.tmod 8 = 0) (h : Runtime.run c s = (.ok m, s')) :
    ∃ edition b, (edition = 3 ∨ edition = 4) ∧ fieldValue m 0 "bufrEditionNumber" = some (.uint edition) ∧
      fieldValue m 1 "isSection2Presents" = some (.bool b) ∧ MessageHas m (Layout.sections edition b) := by
  obtain ⟨e, s1, s2, b, fs0, r0, h1, h2, he, hr0, hfs, hb, hmh⟩ := run_ok h
  refine ⟨e, b, he, ?_, hb, hmh⟩
  obtain ⟨pre, post, hbs, -, rfl⟩ := seek_ok hs hp h1
  have hpk := BitReader.peekUint_byte 7 (signature ++ post) (p + 8 * pre.length) (tmod8_add hp _) (by decide)
  have hpk' : Fac.peekEditionNumber { s with r := .bin ⟨BitReader.bitsOfBytes (signature ++ post),
      p + 8 * pre.length⟩ } = _ := onReader_eq (Reader.call_bin hpk)
  rw [hpk'] at h2
  match post, h2, hr0 with
  | l0 :: l1 :: l2 :: x :: rest, h2, hr0 =>
    replace h2 : ((.ok x.toNat : Outcome Nat), _) = (.ok e, s2) := h2
    cases h2
    cases hr0 with
    | cons k1 hr0 => cases hr0 with
      | cons k2 hr0 => cases hr0 with
        | @cons _ _ _ _ _ _ v k3 hr0 =>
          cases hr0
          have e1 := readValue_bytes (F := F) signature (BitReader.bitsOfBytes (l0 :: l1 :: l2 :: x :: rest))
            (p + 8 * pre.length) 32 (by decide)
          rw [← BitReader.bitsOfBytes_append] at e1
          rw [e1] at k1
          cases k1
          have e2 := readValue_uint (F := F) 24 (BitReader.bitsOfBytes [l0, l1, l2])
            (BitReader.bitsOfBytes (x :: rest)) (p + 8 * pre.length + 32) rfl
          rw [← BitReader.bitsOfBytes_append] at e2
          replace k2 := e2.symm.trans k2
          cases k2
          have e3 := readValue_uint (F := F) 8 (byteBits x) (BitReader.bitsOfBytes rest)
            (p + 8 * pre.length + 32 + 24) rfl
          replace k3 := e3.symm.trans k3
          have hv := Outcome.ok.inj (Prod.mk.inj k3).1
          rw [BitReader.bitsVal_byteBits, Nat.mod_eq_of_lt (Nat.lt_trans x.toNat_lt (by decide))] at hv
          have hsec : ∃ sec rest, m.sections = sec :: rest ∧ sec.number = 0 := by
            obtain ⟨sec, h1, h2, -⟩ := Matches.get hmh (i := 0) (b := Layout.indicator) rfl
            cases hm : m.sections with
            | nil => rw [hm] at h1; cases h1
            | cons a as =>
              rw [hm] at h1
              cases h1
              exact ⟨_, _, rfl, h2⟩
          obtain ⟨sec, more, hm, hnum⟩ := hsec
          rw [hm] at hfs
          simp only [List.head?_cons, Option.map_some, Option.some.injEq] at hfs
          unfold fieldValue
          rw [hm, List.find?_cons_of_pos (by simp [hnum])]
          simp only [Option.bind_some, hfs]
          rw [← hv]
          rfl
  | [], h2, _ => exact absurd (Prod.mk.inj h2).1 (by simp [signature])
  | [_], h2, _ => exact absurd (Prod.mk.inj h2).1 (by simp [signature])
  | [_, _], h2, _ => exact absurd (Prod.mk.inj h2).1 (by simp [signature])
  | [_, _, _], h2, _ => exact absurd (Prod.mk.inj h2).1 (by simp [signature])

open MessageExample in
example : ∃ m s', Runtime.run cfg (input (body ++ stop)) = (.ok m, s') ∧
    ∃ e b, (e = 3 ∨ e = 4) ∧ fieldValue m 0 "bufrEditionNumber" = some (.uint e) ∧
      fieldValue m 1 "isSection2Presents" = some (.bool b) ∧ MessageHas m (Layout.sections e b) := by
  obtain ⟨m, hm⟩ := isOk_eq run4
  exact ⟨m, _, eq_of_fst hm, C82_binary_partial cfg _ _ m (body ++ stop) 0 rfl rfl (eq_of_fst hm)⟩

/-! ## C71: the stop signature -/

/-- **C71**, as it should be: a message that is decoded ends with `7777`. -/
def C71_statement (F : Type) [GoFloat F] : Prop :=
  ∀ (c : FacCfg) (s s' : Fac F) (m : Message F) (bs : List UInt8) (p : Int),
    s.r = .bin ⟨BitReader.bitsOfBytes bs, p⟩ → p.tmod 8 = 0 → Runtime.run c s = (.ok m, s') →
    fieldValue m 5 "stopSignature" = some (.bytes (str "7777"))

open MessageExample in
/-- C71 is violated: a message that ends with `7778` is decoded.  (The function given as `assert` in the
script is never called.) -/
theorem C71_violates : ¬ C71_statement ToyFloat := by
  intro h
  have hok : (Runtime.run cfg (input (body ++ [0x37, 0x37, 0x37, 0x38]))).1.isOk = true := by decide +kernel
  obtain ⟨m, hm⟩ := isOk_eq hok
  have k : (match (Runtime.run cfg (input (body ++ [0x37, 0x37, 0x37, 0x38]))).1 with
      | .ok m => decide (fieldValue m 5 "stopSignature" = some (.bytes (str "7778")))
      | _ => false) = true := by decide +kernel
  rw [hm] at k
  have k1 := of_decide_eq_true k
  rw [h _ _ _ m _ 0 rfl rfl (eq_of_fst hm)] at k1
  revert k1
  decide

/-- How C71 fails: section 5 takes any four bytes. -/
theorem C71_any_four_bytes [GoFloat F] (s : Fac F) (m : Message F) (bs : List UInt8) (t : Bits) (p : Int)
    (hm : s.message = some m) (hs : s.r = .bin ⟨BitReader.bitsOfBytes bs ++ t, p⟩) (h4 : bs.length = 4) :
    Script.section5 s = (.ok (), { s with
      r := .bin ⟨t, p + 32⟩
      message := some { m with sections := m.sections ++ [⟨5, str "End Section", p.tdiv 8, 0,
        [⟨str "stopSignature", .val (.bytes bs), 32, false⟩]⟩] } }) := by
  unfold Script.section5
  rw [M.bind_ok (newSection_eq _ _ hm)]
  unfold Script.newFields
  have hr := readValue_bytes (F := F) bs t p 32 (by omega)
  rw [← hs] at hr
  have hn := newField_any (s := { s with message := some { m with sections := m.sections ++
    [{ number := 5, description := str "End Section", startByteIndex := s.r.pos.tdiv 8 }] } })
    ⟨"stopSignature", DataType.BYTES, 32, false⟩ rfl rfl hr
  refine (M.bind_ok hn).trans ?_
  rw [hs]
  rfl

/-- **C71** (partial: only what is missing of the signature is noticed).  An input that ends inside the
stop signature is an error. -/
theorem C71_short_partial [GoFloat F] (s : Fac F) (m : Message F) (src : Bits) (p : Int)
    (hm : s.message = some m) (hs : s.r = .bin ⟨src, p⟩) (h : src.length < 32) :
    ∃ e s', Script.section5 s = (.err e, s') := by
  unfold Script.section5
  rw [M.bind_ok (newSection_eq _ _ hm)]
  unfold Script.newFields
  obtain ⟨r', hr⟩ := BitReader.readBytes_short 4 src p (by omega)
  have hv : Fac.readValue (F := F) DataType.BYTES 32 s.r = (.err .eof, .bin ⟨r', p + 4 * 8⟩) := by
    unfold Fac.readValue
    rw [if_neg (by decide), if_neg (by decide), if_neg (by decide), if_neg (by decide), if_pos rfl, hs]
    exact M.bind_err (Reader.call_bin hr)
  have hn := newField_any (s := { s with message := some { m with sections := m.sections ++
    [{ number := 5, description := str "End Section", startByteIndex := s.r.pos.tdiv 8 }] } })
    ⟨"stopSignature", DataType.BYTES, 32, false⟩ rfl rfl hv
  exact ⟨_, _, M.bind_err hn⟩

/-- Section 5 at the end of the example message, complete and cut. -/
example : (∃ s', Script.section5 (⟨.bin ⟨BitReader.bitsOfBytes [1, 2, 3, 4] ++ [], 352⟩, some ⟨[], [], []⟩,
      none, none⟩ : Fac ToyFloat) = (.ok (), s')) ∧
    ∃ e s', Script.section5 (⟨.bin ⟨BitReader.bitsOfBytes [0x37, 0x37, 0x37], 352⟩, some ⟨[], [], []⟩,
      none, none⟩ : Fac ToyFloat) = (.err e, s') :=
  ⟨⟨_, C71_any_four_bytes _ _ [1, 2, 3, 4] [] 352 rfl rfl rfl⟩, C71_short_partial _ _ _ 352 rfl rfl (by decide)⟩

end Gobufr
