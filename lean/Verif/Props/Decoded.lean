import Verif.Spec.Decoded
import Verif.Proofs.Decompose
import Verif.Props.Only

/-!
# What messages are decoded

C100: a message that is decoded is a message composed by the rules of the format (C89).
-/

namespace Gobufr
open Spec Layout Flat EncodeSpec

variable {F : Type}

/-- **C100**, as it should be: whenever the decoder succeeds, the bytes it used are those of a draft that keeps the rules
of the format, and the message says what is in the draft. -/
def C100_statement (F : Type) [GoFloat F] : Prop :=
  ∀ (c : FacCfg) (s s' : Fac F) (m : Message F) (input : List UInt8) (q : Int), c.inputType = .binary →
    s.r = .bin ⟨BitReader.bitsOfBytes input, 8 * q⟩ → Runtime.run c s = (.ok m, s') →
    ∃ (d : Draft) (junk bs rest : List UInt8), d.StandsIn input junk bs rest ∧ d.Sound ∧ d.Says m ∧
      s'.r = .bin ⟨BitReader.bitsOfBytes rest, 8 * (q + junk.length + bs.length)⟩

theorem not_infix_of_first {input junk post : List UInt8} (h : input = junk ++ signature ++ post)
    (hf : ∀ pre' post', input = pre' ++ signature ++ post' → junk.length ≤ pre'.length) : ¬ signature <:+: junk := by
  rintro ⟨a, b, rfl⟩
  have := hf a (b ++ signature ++ post) (by rw [h]; simp only [List.append_assoc])
  simp [signature] at this
  omega

/-- A successful run: what was in front of the message, and how it was read. -/
theorem run_trace_at [GoFloat F] {c : FacCfg} {s s' : Fac F} {m : Message F} {input : List UInt8} {q : Int}
    (hs : s.r = .bin ⟨BitReader.bitsOfBytes input, 8 * q⟩) (h : Runtime.run c s = (.ok m, s')) :
    ∃ (junk post : List UInt8) (e : Nat), input = junk ++ signature ++ post ∧ ¬ signature <:+: junk ∧ (e = 3 ∨ e = 4) ∧
      fieldValue m 0 "bufrEditionNumber" = some (.uint e) ∧
      ∃ t : Trace c (editionDecls e) (.bin ⟨BitReader.bitsOfBytes (signature ++ post), 8 * (q + junk.length)⟩),
        m = t.message ∧ s'.r = t.r6 := by
  obtain ⟨e, s1, s2, ds, h1, h2, hds, t, ht, hr⟩ := run_trace h
  obtain ⟨junk, post, hbs, hfirst, rfl⟩ := seek_ok hs (Int.mul_tmod_right 8 _) h1
  have hpk := BitReader.peekUint_byte 7 (signature ++ post) (8 * q + 8 * junk.length)
    (tmod8_add (Int.mul_tmod_right 8 _) _) (by decide)
  have hpk' : Fac.peekEditionNumber { s with r := .bin ⟨BitReader.bitsOfBytes (signature ++ post),
      8 * q + 8 * junk.length⟩ } = _ := onReader_eq (Reader.call_bin hpk)
  have hs2 : s2.r = .bin ⟨BitReader.bitsOfBytes (signature ++ post), 8 * (q + junk.length)⟩ := by
    rw [hpk'] at h2
    rw [← (Prod.mk.inj h2).2]
    show Reader.bin _ = _
    congr 2
    omega
  obtain ⟨e', b, he', k1, -, -⟩ := C82_binary_partial c s s' m input (8 * q) hs (Int.mul_tmod_right 8 _) h
  have hed : edition1 e' ds := by
    refine trace_edition hs (ht ▸ h) ?_ (ht ▸ k1)
    rcases hds with ⟨-, h⟩ | ⟨-, h⟩
    · exact Or.inl h
    · exact Or.inr h
  have : ds = editionDecls e' := by
    rcases hed with ⟨rfl, rfl⟩ | ⟨rfl, rfl⟩ <;> rfl
  subst this
  revert t
  rw [hs2]
  intro t ht hr
  exact ⟨junk, post, e', hbs, not_infix_of_first hbs hfirst, he', k1, t, ht, hr⟩

/-- The numbers of section 1 that name the tables. -/
theorem trace_means [GoFloat F] {c : FacCfg} {ds : List FieldDecl} {r : Reader F} (t : Trace c ds r) {ns : List Ast}
    (h : Means c t.message ns) : ∃ root, parse t.g.lookup c.fuel t.ids = .ok (.base root ns) := by
  obtain ⟨a1, a2, a3, a4, a5, ids, h1, h2, h3, h4, h5, h6, g, root, h7, h8⟩ := h
  have key : ∀ {name : String} {a b : Nat}, fieldValue t.message 1 name = some (.uint a) →
      (∀ more, valueIn (lengthOf t.L1 :: t.fs1 ++ more) name = some (.uint b)) → a = b := by
    intro name a b ha hb
    rw [t.fieldValue_eq t.find1] at ha
    have := ha.symm.trans (hb _)
    injection this with this
    injection this
  cases key h1 t.hmaster
  cases key h2 t.hcentre
  cases key h3 t.hsubCentre
  cases key h4 t.hmasterVersion
  cases key h5 t.hlocalVersion
  have hg := t.hg
  rw [h7] at hg
  cases hg
  rw [t.templateOf_eq] at h6
  cases h6
  exact ⟨root, h8⟩

theorem trace_compressed [GoFloat F] {c : FacCfg} {ds : List FieldDecl} {r : Reader F} (t : Trace c ds r) :
    fieldValue t.message 3 "isCompressed" = some (.bool t.compressed) := by
  rw [t.fieldValue_eq t.find3]
  show valueIn (lengthOf t.L3 :: t.fs3 ++ [templateField t.ids] ++ t.pad3) _ = _
  rw [List.append_assoc]
  exact t.hcompressed _

/-- The bytes of the draft of a trace. -/
theorem draft_stands {d : Draft} {input junk post : List UInt8} {rest : Bits} {k : Nat} (h1 : input = junk ++ signature ++ post)
    (h2 : ¬ signature <:+: junk) (h3 : BitReader.bitsOfBytes (signature ++ post) = d.bits ++ rest) (h4 : d.bits.length = 8 * k) :
    ∃ bs u, d.StandsIn input junk bs u ∧ BitReader.bitsOfBytes u = rest ∧ bs.length = k := by
  obtain ⟨b1, b2, e1, e2, e3, e4⟩ := bytes_split h3 h4
  exact ⟨b1, b2, ⟨by rw [h1, List.append_assoc, e1, List.append_assoc], h2, e2⟩, e3, e4⟩

/-- **C100**, uncompressed: the part that holds.  If the decoder succeeds, and a local section has its four bytes, and the
template is one of those of `C99_partial` and the values are packed properly, then the bytes it used are those of a draft
that keeps the rules, its data are subsets written by the rules, and the message says what is in the draft. -/
theorem C100_uncompressed_partial [GoFloat F] [LawfulGoFloat F] (c : FacCfg) (hc : c.inputType = .binary) (s s' : Fac F)
    (m : Message F) (input : List UInt8) (q : Int) (hs : s.r = .bin ⟨BitReader.bitsOfBytes input, 8 * q⟩)
    (h : Runtime.run c s = (.ok m, s')) (hcomp : fieldValue m 3 "isCompressed" = some (.bool false)) (hloc : LocalFits m)
    {ns : List Ast} (hns : Means c m ns) (hsim : simpleL true ns = true)
    (hp : ∀ p, payloadOf m = some p → ∀ sub ∈ p.subsets, ∀ d info v, some (d, info, v) ∈ reported sub → EncodeSpec.Proper info v) :
    ∃ (d : Draft) (junk bs rest : List UInt8) (p : Payload F) (subsets : List (List Bool × List (Datum F))),
      d.StandsIn input junk bs rest ∧ d.Sound ∧ d.Says m ∧ d.Means c ns ∧ d.Carries c ns subsets ∧ payloadOf m = some p ∧
      p.subsets.map reported = (subsets.map fun x => written x.2 0) ∧
      s'.r = .bin ⟨BitReader.bitsOfBytes rest, 8 * (q + junk.length + bs.length)⟩ := by
  obtain ⟨junk, post, e, hin, hj, he, hnum, t, rfl, hr6⟩ := run_trace_at hs h
  obtain ⟨root, hroot⟩ := trace_means t hns
  obtain ⟨_, ns', hr, -⟩ := parse_ok_iff.1 hroot
  cases hr
  have htc : t.compressed = false := by
    have := (trace_compressed t).symm.trans hcomp
    injection this with this
    injection this
  have hdata : ∀ l pos, t.r4' = .bin ⟨l, pos⟩ → ∃ b u, (∃ subsets : List (List Bool × List (Datum F)),
      b = subsets.flatMap Prod.fst ∧ subsets.length = t.nSubsets ∧
      (∀ x ∈ subsets, ∃ y, Coded Single c.compatible {} ns x.1 x.2 y)) ∧
      l = b ++ u ∧ t.r4'' = .bin ⟨u, pos + b.length⟩ := by
    intro l pos hl
    obtain ⟨tree, vc, v', h1, h2, h3, h4⟩ := t.hp
    rw [hroot] at h1
    cases h1
    rw [htc] at h2 h3
    rw [hc] at h2
    simp only [newDeserializeVisitor, newUnpacker, Bool.false_eq_true, if_false, Outcome.bind_ok] at h2
    cases h2
    simp only [Bool.false_eq_true, false_and, if_false, Int.toNat_natCast] at h3
    obtain ⟨subsets, u, k1, k2, k3, k4, k5⟩ := C99_partial (c := ⟨false, .binary, c.compatible, t.nSubsets, .uncompress⟩)
      ⟨c.fuel, rfl⟩ rfl rfl (parse_noBase (good_chain t.g) ⟨c.fuel, hroot⟩) hsim rootDescriptor _ _ _ _ _ l pos hl h3
      (hp _ t.payloadOf_eq)
    exact ⟨_, u, ⟨subsets, rfl, k1, k2⟩, k3, h4.trans k4⟩
  obtain ⟨d, rest, k, hd, hed, hbits, -, hk, ⟨subsets, g1, g2, g3⟩, hids, m1, m2, m3, m4, m5, m6, m7⟩ := draft_of_trace hc he t
    (fun hp => hloc _ (t.length2 hp)) _ hdata ⟨_, BitReader.bitsOfBytes_append signature post⟩ hnum
  obtain ⟨bs, u, hst, hu, hbl⟩ := draft_stands hin hj hbits hk
  rw [htc] at m7
  have m7 : d.head 3 "isCompressed" = 0 := m7
  have hm : addLocalAndWmoTableGroups c.tables (d.head 1 "masterTableNumber") (d.head 1 "originatingCentre")
      (d.head 1 "originatingSubCentre") (d.head 1 "masterTableVersion") (d.head 1 "localTableVersion") ⟨[]⟩ = (.ok (), t.g) := by
    rw [m1, m2, m3, m4, m5]
    exact t.hg
  rw [hids] at hroot
  obtain ⟨m', s2, p, k1, k2, k3, k4, k5⟩ := C89_uncompressed c hc d hd t.g hm rootDescriptor ns hroot subsets g1 g3 m7
    (m6.trans g2.symm) bs hst.bits junk u hj q s (by rw [hs, hst.parts])
  rw [h] at k1
  cases k1
  exact ⟨d, junk, bs, u, p, subsets, hst, hd, k3, ⟨t.g, _, hm, hroot⟩, ⟨m7, m6.trans g2.symm, g1, g3⟩, k4, k5, k2⟩

/-- C89 for all columns that are accepted. -/
theorem C89_lenient [GoFloat F] [LawfulGoFloat F] (c : FacCfg) (hc : c.inputType = .binary) (d : Draft) (hd : d.Sound)
    (ns : List Ast) (hns : d.Means c ns) (k : Nat) (hk : 0 < k) (is : List (Datum F)) (h : d.CarriesColumns c ns k is)
    (input junk bs rest : List UInt8) (hst : d.StandsIn input junk bs rest)
    (q : Int) (s : Fac F) (hs : s.r = .bin ⟨BitReader.bitsOfBytes input, 8 * q⟩) :
    ∃ m s' p, Runtime.run c s = (.ok m, s') ∧
      s'.r = .bin ⟨BitReader.bitsOfBytes rest, 8 * (q + junk.length + bs.length)⟩ ∧
      d.Says m ∧ payloadOf m = some p ∧ p.subsets.map reported = (List.range k).map (written is) := by
  obtain ⟨g, root, hg, hns⟩ := hns
  obtain ⟨_, ns', hr, hp⟩ := parse_ok_iff.1 hns
  cases hr
  obtain ⟨hcomp, hn, y, hy⟩ := h
  refine run_draft c d hd true (by simpa using hcomp) g hg _ (fun t pos => ?_) hst.bits hst.first rest q s (by rw [hs, hst.parts])
  let vc : VisCfg := ⟨true, .binary, c.compatible, (d.head 3 "nSubsets" : Nat), .compressed (d.head 3 "nSubsets" : Nat) c.fuel⟩
  have hvc : CfgOk vc := ⟨c.fuel, rfl⟩
  obtain ⟨p, s', h1, h2, h3⟩ := C88_lenient (c := vc) hvc rfl rfl (k := k) (by show ((d.head 3 "nSubsets" : Nat) : Int) = k; rw [hn]) hk
    (parse_noBase (good_chain g) ⟨c.fuel, hns⟩) rootDescriptor true d.data is hy t pos (Fac.freshVis (.bin ⟨d.data ++ t, pos⟩)) rfl
  refine ⟨p, ⟨_, vc, s', hns, by rw [hc]; rfl, ?_, ?_⟩, h3⟩
  · rw [if_pos ⟨rfl, hc⟩]
    exact h1
  · rw [h2]

/-- **C100**, compressed: the part that holds, with the columns that are accepted (see `C99_compressed_partial`), for
messages with a subset. -/
theorem C100_compressed_partial [GoFloat F] [LawfulGoFloat F] (c : FacCfg) (hc : c.inputType = .binary) (s s' : Fac F)
    (m : Message F) (input : List UInt8) (q : Int) (hs : s.r = .bin ⟨BitReader.bitsOfBytes input, 8 * q⟩)
    (h : Runtime.run c s = (.ok m, s')) (hcomp : fieldValue m 3 "isCompressed" = some (.bool true))
    (hsub : fieldValue m 3 "nSubsets" ≠ some (.uint 0)) (hloc : LocalFits m)
    {ns : List Ast} (hns : Means c m ns) (hsim : simpleL true ns = true)
    (hp : ∀ p, payloadOf m = some p → ∀ sub ∈ p.subsets, ∀ d info v, some (d, info, v) ∈ reported sub → ProperColumn info) :
    ∃ (d : Draft) (junk bs rest : List UInt8) (p : Payload F) (k : Nat) (is : List (Datum F)),
      d.StandsIn input junk bs rest ∧ d.Sound ∧ d.Says m ∧ d.Means c ns ∧ 0 < k ∧ d.CarriesColumns c ns k is ∧
      payloadOf m = some p ∧ p.subsets.map reported = (List.range k).map (written is) ∧
      s'.r = .bin ⟨BitReader.bitsOfBytes rest, 8 * (q + junk.length + bs.length)⟩ := by
  obtain ⟨junk, post, e, hin, hj, he, hnum, t, rfl, hr6⟩ := run_trace_at hs h
  obtain ⟨root, hroot⟩ := trace_means t hns
  obtain ⟨_, ns', hr, -⟩ := parse_ok_iff.1 hroot
  cases hr
  have htc : t.compressed = true := by
    have := (trace_compressed t).symm.trans hcomp
    injection this with this
    injection this
  have h0 : 0 < t.nSubsets := by
    refine Nat.pos_of_ne_zero fun h0 => hsub ?_
    rw [t.fieldValue_eq t.find3, ← h0]
    show valueIn (lengthOf t.L3 :: t.fs3 ++ [templateField t.ids] ++ t.pad3) _ = _
    rw [List.append_assoc]
    exact t.hnSubsets _
  have hdata : ∀ l pos, t.r4' = .bin ⟨l, pos⟩ → ∃ b u, (∃ (is : List (Datum F)) (y : Ctx),
      Coded (Lenient t.nSubsets) c.compatible {} ns b is y) ∧ l = b ++ u ∧ t.r4'' = .bin ⟨u, pos + b.length⟩ := by
    intro l pos hl
    obtain ⟨tree, vc, v', h1, h2, h3, h4⟩ := t.hp
    rw [hroot] at h1
    cases h1
    rw [htc] at h2 h3
    rw [if_pos ⟨rfl, hc⟩] at h3
    rw [hc] at h2
    simp only [newDeserializeVisitor, newUnpacker, if_true, Outcome.bind_ok] at h2
    cases h2
    obtain ⟨b, is, y, u, k1, k2, k3, k4⟩ := C99_compressed_partial
      (c := ⟨true, .binary, c.compatible, t.nSubsets, .compressed t.nSubsets c.fuel⟩)
      ⟨c.fuel, rfl⟩ rfl rfl rfl h0 (parse_noBase (good_chain t.g) ⟨c.fuel, hroot⟩) hsim rootDescriptor _ _ _ _ l pos hl h3
      (hp _ t.payloadOf_eq)
    exact ⟨b, u, ⟨is, y, k1⟩, k2, h4.trans k3⟩
  obtain ⟨d, rest, k, hd, hed, hbits, -, hk, ⟨is, y, g1⟩, hids, m1, m2, m3, m4, m5, m6, m7⟩ := draft_of_trace hc he t
    (fun hp => hloc _ (t.length2 hp)) _ hdata ⟨_, BitReader.bitsOfBytes_append signature post⟩ hnum
  obtain ⟨bs, u, hst, hu, hbl⟩ := draft_stands hin hj hbits hk
  rw [htc] at m7
  have m7 : d.head 3 "isCompressed" = 1 := m7
  have hm : d.Means c ns := by
    refine ⟨t.g, rootDescriptor, ?_, hids ▸ hroot⟩
    rw [m1, m2, m3, m4, m5]
    exact t.hg
  have hca : d.CarriesColumns c ns t.nSubsets is := ⟨m7, m6, y, g1⟩
  obtain ⟨m', s2, p, k1, k2, k3, k4, k5⟩ := C89_lenient c hc d hd ns hm _ h0 is hca input junk bs u hst q s hs
  rw [h] at k1
  cases k1
  exact ⟨d, junk, bs, u, p, _, is, hst, hd, k3, hm, h0, hca, k4, k5, k2⟩

/-! ## Exactly these messages -/

theorem says_uint {d : Draft} (hd : d.Sound) {m : Message F} (h : d.Says m) {x : SectionShape} (hx : x ∈ d.sections) {f : FieldShape}
    (hf : f ∈ x.fields) {w : Nat} (hw : f.width = some w) (hk : kindOf (Gobufr.str f.name) = .number) :
    fieldValue m x.number f.name = some (.uint (d.head x.number f.name)) := by
  obtain ⟨v, h1, h2⟩ := h.fields x hx f hf w hw (by rw [hk]; decide)
  rw [hk] at h2
  rw [h1, show v = _ from h2, bitsVal_natBits_lt (hd.fits x hx f hf w hw)]

theorem says_means {c : FacCfg} {d : Draft} (hd : d.Sound) {m : Message F} (h : d.Says m) {ns : List Ast} (hns : d.Means c ns) :
    Means c m ns := by
  have hx : (if d.edition = 4 then identification4 else identification3) ∈ d.sections := by simp [Draft.sections, Layout.sections]
  have hn : (if d.edition = 4 then identification4 else identification3).number = 1 := by split <;> rfl
  have key : ∀ name : String, kindOf (Gobufr.str name) = .number →
      (∀ y ∈ [identification3, identification4], ∃ w, fixed name w ∈ y.fields) →
      fieldValue m 1 name = some (.uint (d.head 1 name)) := by
    intro name hk hy
    obtain ⟨w, hw⟩ := hy (if d.edition = 4 then identification4 else identification3) (by split <;> simp)
    have := says_uint hd h hx hw rfl hk
    rw [hn] at this
    exact this
  have find : ∀ name : String, (∀ y ∈ [identification3, identification4], ∃ f ∈ y.fields, f.name = name ∧ f.width.isSome = true) →
      ∀ y ∈ [identification3, identification4], ∃ w, fixed name w ∈ y.fields := by
    intro name hy y hm
    obtain ⟨⟨n, w⟩, h1, rfl, h3⟩ := hy y hm
    match w, h3 with
    | some w, _ => exact ⟨w, h1⟩
  exact ⟨_, _, _, _, _, _, key _ (by decide) (find _ (by decide)), key _ (by decide) (find _ (by decide)),
    key _ (by decide) (find _ (by decide)), key _ (by decide) (find _ (by decide)), key _ (by decide) (find _ (by decide)),
    h.template, hns⟩

theorem says_local {d : Draft} (hd : d.Sound) {m : Message F} (h : d.Says m) : LocalFits m := by
  intro L hL
  have hsec : ∀ {secs : List (Section F)} {xs : List SectionShape}, Matches SectionHas secs xs →
      ∀ s ∈ secs, ∃ x ∈ xs, s.number = x.number := by
    intro secs
    induction secs with
    | nil => intro xs _ s hs; cases hs
    | cons a secs ih =>
      intro xs hm s hs
      match xs, hm with
      | x :: xs, hm =>
        rcases List.mem_cons.1 hs with rfl | hs
        · exact ⟨x, by simp, hm.1.1⟩
        · obtain ⟨y, h1, h2⟩ := ih hm.2 s hs
          exact ⟨y, by simp [h1], h2⟩
  have hx : Layout.optional ∈ d.sections := by
    have hL' := hL
    unfold fieldValue at hL'
    obtain ⟨f, h1, -⟩ := Option.bind_eq_some_iff.1 hL'
    obtain ⟨sec, h2, -⟩ := Option.bind_eq_some_iff.1 h1
    obtain ⟨x, h3, h4⟩ := hsec h.sections sec (List.mem_of_find?_eq_some h2)
    have h5 : sec.number = ((2 : Nat) : Int) := by simpa using List.find?_some h2
    have hn : x.number = 2 := by omega
    have hx := h3
    unfold Draft.sections Layout.sections at hx
    cases hl : d.locals.isSome with
    | true => simp [Draft.sections, Layout.sections, hl]
    | false =>
      simp only [hl, Bool.false_eq_true, if_false, List.append_nil, List.cons_append, List.nil_append, List.mem_cons,
        List.not_mem_nil, or_false] at hx
      rcases hx with rfl | rfl | rfl | rfl | rfl
      · cases hn
      · split at hn <;> cases hn
      · cases hn
      · cases hn
      · cases hn
  have := says_uint hd h hx (f := fixed "lengthInBytes" 24) (by decide) rfl (by decide)
  have e : some (Val.uint L : Val F) = some (.uint (d.head 2 "lengthInBytes")) := hL.symm.trans this
  injection e with e
  injection e with e
  have h1 := hd.lengths _ hx (by decide)
  rw [part2, List.length_append] at h1
  have h2 : d.head2.length = 32 := declBits_length _ _
  have h1 : d.head 2 "lengthInBytes" * 8 = d.head2.length + (d.locals.getD []).length := h1
  omega

/-- **C100**: which messages are decoded, exactly, without compression. -/
theorem C100_uncompressed_exactly [GoFloat F] [LawfulGoFloat F] (c : FacCfg) (hc : c.inputType = .binary) (s : Fac F)
    (input : List UInt8) (q : Int) (hs : s.r = .bin ⟨BitReader.bitsOfBytes input, 8 * q⟩) {ns : List Ast}
    (hsim : simpleL true ns = true) (xs : List (List (Option (NodeDesc × PackingInfo F × Val F)))) :
    (∃ m s' p, Runtime.run c s = (.ok m, s') ∧ fieldValue m 3 "isCompressed" = some (.bool false) ∧ LocalFits m ∧ Means c m ns ∧
      payloadOf m = some p ∧ p.subsets.map reported = xs ∧
      ∀ x ∈ xs, ∀ d info v, some (d, info, v) ∈ x → EncodeSpec.Proper info v) ↔
    ∃ (d : Draft) (junk bs rest : List UInt8) (subsets : List (List Bool × List (Datum F))), d.StandsIn input junk bs rest ∧
      d.Sound ∧ d.Means c ns ∧ d.Carries c ns subsets ∧ xs = subsets.map fun x => written x.2 0 := by
  constructor
  · rintro ⟨m, s', p, h, h1, h2, h3, h4, rfl, h5⟩
    obtain ⟨d, junk, bs, rest, p', subsets, k1, k2, k3, k4, k5, k6, k7, -⟩ := C100_uncompressed_partial c hc s s' m input q hs h h1
      h2 h3 hsim fun p' hp' => by
        rw [h4] at hp'
        cases hp'
        exact fun sub hsub => h5 _ (List.mem_map.2 ⟨sub, hsub, rfl⟩)
    rw [h4] at k6
    cases k6
    exact ⟨d, junk, bs, rest, subsets, k1, k2, k4, k5, k7⟩
  · rintro ⟨d, junk, bs, rest, subsets, hst, hd, hm, hca, rfl⟩
    obtain ⟨g, root, hg, hroot⟩ := id hm
    obtain ⟨m, s', p, k1, -, k3, k4, k5⟩ := C89_uncompressed c hc d hd g hg root ns hroot subsets hca.data hca.coded hca.flag
      hca.number bs hst.bits junk rest hst.first q s (by rw [hs, hst.parts])
    refine ⟨m, s', p, k1, ?_, says_local hd k3, says_means hd k3 hm, k4, k5, fun x hx d info v hv => ?_⟩
    · obtain ⟨v, h1, b, h2, h3⟩ := k3.fields description (by simp [Draft.sections, Layout.sections]) (fixed "isCompressed" 1)
        (by decide) 1 rfl (by decide)
      have h2 : natBits 1 (d.head 3 "isCompressed") = [b] := h2
      rw [hca.flag] at h2
      cases h2
      have h3 : v = .bool false := h3
      rw [← h3]
      exact h1
    · obtain ⟨z, hz, rfl⟩ := List.mem_map.1 hx
      obtain ⟨y, hy⟩ := hca.coded z hz
      obtain ⟨i, hi, e⟩ := List.mem_map.1 hv
      obtain ⟨w, hw, hq⟩ := Coded.proper hy i hi
      rw [hw] at e
      cases e
      exact hq

/-- **C100**: which messages with subsets are decoded, exactly, with compression. -/
theorem C100_compressed_exactly [GoFloat F] [LawfulGoFloat F] (c : FacCfg) (hc : c.inputType = .binary) (s : Fac F)
    (input : List UInt8) (q : Int) (hs : s.r = .bin ⟨BitReader.bitsOfBytes input, 8 * q⟩) {ns : List Ast}
    (hsim : simpleL true ns = true) (xs : List (List (Option (NodeDesc × PackingInfo F × Val F)))) :
    (∃ m s' p, Runtime.run c s = (.ok m, s') ∧ fieldValue m 3 "isCompressed" = some (.bool true) ∧
      fieldValue m 3 "nSubsets" ≠ some (.uint 0) ∧ LocalFits m ∧ Means c m ns ∧
      payloadOf m = some p ∧ p.subsets.map reported = xs ∧ ∀ x ∈ xs, ∀ d info v, some (d, info, v) ∈ x → ProperColumn info) ↔
    ∃ (d : Draft) (junk bs rest : List UInt8) (k : Nat) (is : List (Datum F)), d.StandsIn input junk bs rest ∧
      d.Sound ∧ d.Means c ns ∧ 0 < k ∧ d.CarriesColumns c ns k is ∧ xs = (List.range k).map (written is) := by
  constructor
  · rintro ⟨m, s', p, h, h1, h0, h2, h3, h4, rfl, h5⟩
    obtain ⟨d, junk, bs, rest, p', k, is, k1, k2, k3, k4, hk, k5, k6, k7, -⟩ := C100_compressed_partial c hc s s' m input q hs h h1
      h0 h2 h3 hsim fun p' hp' => by
        rw [h4] at hp'
        cases hp'
        exact fun sub hsub => h5 _ (List.mem_map.2 ⟨sub, hsub, rfl⟩)
    rw [h4] at k6
    cases k6
    exact ⟨d, junk, bs, rest, k, is, k1, k2, k4, hk, k5, k7⟩
  · rintro ⟨d, junk, bs, rest, k, is, hst, hd, hm, hk, hca, rfl⟩
    obtain ⟨m, s', p, k1, -, k3, k4, k5⟩ := C89_lenient c hc d hd ns hm k hk is hca input junk bs rest hst q s hs
    have hx : description ∈ d.sections := by simp [Draft.sections, Layout.sections]
    refine ⟨m, s', p, k1, ?_, ?_, says_local hd k3, says_means hd k3 hm, k4, k5, fun x hx d info v hv => ?_⟩
    · obtain ⟨v, h1, b, h2, h3⟩ := k3.fields description hx (fixed "isCompressed" 1) (by decide) 1 rfl (by decide)
      have h2 : natBits 1 (d.head 3 "isCompressed") = [b] := h2
      rw [hca.flag] at h2
      cases h2
      have h3 : v = .bool true := h3
      rw [← h3]
      exact h1
    · have := says_uint hd k3 hx (f := fixed "nSubsets" 16) (by decide) rfl (by decide)
      have : fieldValue m 3 "nSubsets" = some (.uint (d.head 3 "nSubsets")) := this
      rw [this, hca.number]
      intro e
      injection e with e
      injection e with e
      omega
    · obtain ⟨y, hy⟩ := hca.coded
      obtain ⟨j, -, rfl⟩ := List.mem_map.1 hx
      obtain ⟨i, hi, e⟩ := List.mem_map.1 hv
      cases e
      exact hy.every (Q := fun info _ => ProperColumn info) (fun _ _ _ hw => Lenient.proper hw) i hi

/-! ## The code -/

namespace DecodedExample
open MessageExample AcceptExample

/-- The example message of edition 3 with a local section that says it has three bytes. -/
def short2 : List UInt8 := body3.take 26 ++ [0, 0, 3, 0] ++ body3.drop 32 ++ stop

theorem short2_run : (match Runtime.run cfg (input short2) with
    | (.ok m, _) => decide (fieldValue m 2 "lengthInBytes" = some (.uint 3))
    | _ => false) = true := by
  decide +kernel

/-- What is needed of a message. -/
def facts (compressed : Bool) (xs : List (List (Option (NodeDesc × PackingInfo ToyFloat × Val ToyFloat)))) (m : Message ToyFloat) :
    Bool :=
  decide (fieldValue m 3 "isCompressed" = some (.bool compressed) ∧ fieldValue m 3 "nSubsets" = some (.uint 2) ∧
    fieldValue m 1 "masterTableNumber" = some (.uint 0) ∧ fieldValue m 1 "originatingCentre" = some (.uint 1) ∧
    fieldValue m 1 "originatingSubCentre" = some (.uint 0) ∧ fieldValue m 1 "masterTableVersion" = some (.uint 13) ∧
    fieldValue m 1 "localTableVersion" = some (.uint 0) ∧ templateOf m = some [12001] ∧
    (fieldValue m 2 "lengthInBytes" = some (.uint 6) ∨ fieldValue m 2 "lengthInBytes" = none)) &&
    match payloadOf m with
    | some p => decide (p.subsets.map reported = xs)
    | none => false

def item (v : Val ToyFloat) : Option (NodeDesc × PackingInfo ToyFloat × Val ToyFloat) :=
  some (⟨some ⟨12001, .b temperature⟩, false⟩, ⟨.numeric, 0, ⟨0⟩, 8⟩, v)

theorem run3_facts : (match Runtime.run cfg (input ([0x42, 0x55] ++ (body3 ++ stop) ++ [1, 2, 3])) with
    | (.ok m, _) => facts false [[item (.float ⟨18⟩)], [item (.float ⟨19⟩)]] m
    | _ => false) = true := by
  decide +kernel

theorem run4_facts : (match Runtime.run cfg (input (bytes4 ++ [7])) with
    | (.ok m, _) => facts true [[item (.float ⟨103⟩)], [item .nil]] m
    | _ => false) = true := by
  decide +kernel

theorem facts_means {b : Bool} {xs : List (List (Option (NodeDesc × PackingInfo ToyFloat × Val ToyFloat)))} {m : Message ToyFloat}
    (h : facts b xs m = true) : fieldValue m 3 "isCompressed" = some (.bool b) ∧ fieldValue m 3 "nSubsets" ≠ some (.uint 0) ∧
      LocalFits m ∧ Means cfg m tree ∧ ∃ p, payloadOf m = some p ∧ p.subsets.map reported = xs := by
  obtain ⟨h, h10⟩ := Bool.and_eq_true_iff.1 h
  obtain ⟨h1, h2, h3, h4, h5, h6, h7, h8, h9⟩ := of_decide_eq_true h
  refine ⟨h1, by rw [h2]; simp, fun L hL => ?_, ⟨_, _, _, _, _, _, h3, h4, h5, h6, h7, h8, group, rootDescriptor, found, parsed⟩, ?_⟩
  · rcases h9 with h9 | h9 <;> rw [h9] at hL <;> cases hL
    decide
  · split at h10
    · rename_i p hp
      exact ⟨p, hp, of_decide_eq_true h10⟩
    · cases h10

end DecodedExample

open DecodedExample MessageExample in
/-- The code violates C100: a local section that says it has three bytes is accepted, though it takes four. -/
theorem C100_violates : ¬ C100_statement ToyFloat := by
  intro h
  have hv := short2_run
  split at hv
  case h_2 => cases hv
  case h_1 m s' hr =>
    obtain ⟨d, junk, bs, rest, -, hd, hsays, -⟩ := h cfg _ s' m short2 0 rfl rfl hr
    exact absurd (says_local hd hsays 3 (of_decide_eq_true hv)) (by decide)

open DecodedExample MessageExample AcceptExample in
/-- The hypotheses of `C100_uncompressed_partial` are met. -/
example : ∃ m s', Runtime.run cfg (input ([0x42, 0x55] ++ (body3 ++ stop) ++ [1, 2, 3])) = (.ok m, s') ∧
    ∃ (d : Draft) (junk bs rest : List UInt8) (p : Payload ToyFloat) (subsets : List (List Bool × List (Datum ToyFloat))),
      d.StandsIn ([0x42, 0x55] ++ (body3 ++ stop) ++ [1, 2, 3]) junk bs rest ∧ d.Sound ∧ d.Says m ∧ d.Means cfg tree ∧
      d.Carries cfg tree subsets ∧ payloadOf m = some p ∧ p.subsets.map reported = (subsets.map fun x => written x.2 0) ∧
      p.subsets.map reported = [[item (.float ⟨18⟩)], [item (.float ⟨19⟩)]] := by
  have hv := run3_facts
  split at hv
  case h_2 => cases hv
  case h_1 m s' hr =>
    obtain ⟨h1, -, h2, h3, p, h4, h5⟩ := facts_means hv
    obtain ⟨d, junk, bs, rest, p', subsets, k1, k2, k3, k4, k5, k6, k7, -⟩ := C100_uncompressed_partial cfg rfl _ s' m _ 0 rfl hr h1
      h2 h3 (by decide) fun p' hp' sub hsub => by
        rw [h4] at hp'
        cases hp'
        have := List.mem_map_of_mem (f := reported) hsub
        rw [h5] at this
        intro d info v hi
        simp only [List.mem_cons, List.not_mem_nil, or_false] at this
        rcases this with e | e <;> rw [e] at hi <;> simp only [item, List.mem_cons, List.not_mem_nil, or_false,
          Option.some.injEq, Prod.mk.injEq] at hi <;> obtain ⟨-, rfl, -⟩ := hi <;>
          exact ⟨by decide, by decide⟩
    rw [h4] at k6
    cases k6
    exact ⟨m, s', hr, d, junk, bs, rest, p, subsets, k1, k2, k3, k4, k5, h4, k7, h5⟩

open DecodedExample MessageExample AcceptExample in
/-- Those of `C100_compressed_partial`. -/
example : ∃ m s', Runtime.run cfg (input (bytes4 ++ [7])) = (.ok m, s') ∧
    ∃ (d : Draft) (junk bs rest : List UInt8) (p : Payload ToyFloat) (k : Nat) (is : List (Datum ToyFloat)),
      d.StandsIn (bytes4 ++ [7]) junk bs rest ∧ d.Sound ∧ d.Says m ∧ d.Means cfg tree ∧
      d.CarriesColumns cfg tree k is ∧ payloadOf m = some p ∧ p.subsets.map reported = (List.range k).map (written is) ∧
      p.subsets.map reported = [[item (.float ⟨103⟩)], [item .nil]] := by
  have hv := run4_facts
  split at hv
  case h_2 => cases hv
  case h_1 m s' hr =>
    obtain ⟨h1, h0, h2, h3, p, h4, h5⟩ := facts_means hv
    obtain ⟨d, junk, bs, rest, p', k, is, k1, k2, k3, k4, -, k5, k6, k7, -⟩ := C100_compressed_partial cfg rfl _ s' m _ 0 rfl hr h1
      h0 h2 h3 (by decide) fun p' hp' sub hsub => by
        rw [h4] at hp'
        cases hp'
        have := List.mem_map_of_mem (f := reported) hsub
        rw [h5] at this
        intro d info v hi
        simp only [List.mem_cons, List.not_mem_nil, or_false] at this
        rcases this with e | e <;> rw [e] at hi <;> simp only [item, List.mem_cons, List.not_mem_nil, or_false,
          Option.some.injEq, Prod.mk.injEq] at hi <;> obtain ⟨-, rfl, -⟩ := hi <;>
          exact ⟨by decide, by decide⟩
    rw [h4] at k6
    cases k6
    exact ⟨m, s', hr, d, junk, bs, rest, p, k, is, k1, k2, k3, k4, k5, h4, k7, h5⟩

end Gobufr
