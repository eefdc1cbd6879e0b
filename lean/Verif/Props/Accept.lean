import Verif.Proofs.Compose

/-!
# C89: what keeps the rules is read

A message composed by the rules of the format is decoded without error to what was put into it, and what
follows it in the input is left alone.
-/

namespace Gobufr
open Spec Layout Flat EncodeSpec

variable {F : Type}

theorem find0 [GoFloat F] {c : FacCfg} {ds : List FieldDecl} {r : Reader F} (t : Trace c ds r) :
    t.message.sections.find? (fun s => s.number = ((0 : Nat) : Int)) = some t.sec0 := by
  simp [Trace.message, Trace.sections, Trace.sec0]

theorem find5 [GoFloat F] {c : FacCfg} {ds : List FieldDecl} {r : Reader F} (t : Trace c ds r) :
    t.message.sections.find? (fun s => s.number = ((5 : Nat) : Int)) = some t.sec5 := by
  cases h : t.present <;>
    simp [Trace.message, Trace.sections, Trace.sec0, Trace.sec1, Trace.sec2, Trace.sec3, Trace.sec4, Trace.sec5, h]

theorem Filled.denotes {v : String → Nat} {ds : List FieldDecl} {fs : List (Field F)} (h : Filled v ds fs)
    (hfit : ∀ d ∈ ds, kindOf (str d.name) = .bits ∨ d.fit) {f : FieldShape} (hf : f ∈ ds.map FieldDecl.shape) {w : Nat}
    (hw : f.width = some w) (hk : kindOf (str f.name) ≠ .bits) :
    ∃ x, (∀ more, valueIn (fs ++ more) f.name = some x) ∧ Denotes (kindOf (str f.name)) (natBits w (v f.name)) x := by
  obtain ⟨d, hd, rfl⟩ := List.mem_map.1 hf
  cases hw
  obtain ⟨x, h1, h2⟩ := h d hd
  refine ⟨x, h2, ?_⟩
  have h3 := (hfit d hd).resolve_left hk
  show Denotes (kindOf (str d.name)) (natBits d.nbits.toNat (v d.name)) x
  rcases h1 with ⟨h1, h4⟩ | ⟨h1, h4⟩ | ⟨h1, h4⟩ | ⟨h1, h4⟩ | ⟨h1, -⟩ <;>
    rcases h3 with ⟨h3, h5⟩ | ⟨h3, h5⟩ | ⟨h3, h5⟩ | ⟨h3, h5⟩ <;>
    first
    | (rw [h5]; exact h4)
    | (rw [h1] at h3; exact absurd h3 (by decide))

theorem mem_sized {fs : List FieldShape} {name : String} {f : FieldShape} (h : f ∈ fs ++ [free name]) {w : Nat}
    (hw : f.width = some w) : f ∈ fs := by
  rcases List.mem_append.1 h with h | h
  · exact h
  · rw [List.mem_singleton.1 h] at hw; cases hw

theorem reads_fields [GoFloat F] {c : FacCfg} {d : Draft} {r : Reader F} {t : Trace c (editionDecls d.edition) r} (h : Reads d t) :
    ∀ x ∈ d.sections, ∀ f ∈ x.fields, ∀ w, f.width = some w → kindOf (Gobufr.str f.name) ≠ .bits →
    ∃ v, fieldValue t.message x.number f.name = some v ∧
      Denotes (kindOf (Gobufr.str f.name)) (natBits w (d.head x.number f.name)) v := by
  intro x hx f hf w hw hk
  have hds := editionDecls_edition d.edition
  unfold Draft.sections Layout.sections at hx
  have hx : x = indicator ∨ x = (if d.edition = 4 then identification4 else identification3) ∨
      (d.locals.isSome = true ∧ x = optional) ∨ x = description ∨ x = data ∨ x = ending := by
    cases hl : d.locals.isSome <;> simpa [hl] using hx
  rcases hx with rfl | rfl | ⟨hl, rfl⟩ | rfl | rfl | rfl
  · obtain ⟨v, h1, h2⟩ := h.f0.denotes (by decide) (f := f) hf hw hk
    exact ⟨v, (t.fieldValue_eq (find0 t)).trans (by simpa using! h1 []), h2⟩
  · have hs : (if d.edition = 4 then identification4 else identification3).fields =
        (lengthDecl :: editionDecls d.edition).map FieldDecl.shape := by unfold editionDecls; split <;> rfl
    have hn : (if d.edition = 4 then identification4 else identification3).number = 1 := by split <;> rfl
    rw [hs] at hf
    rw [hn]
    obtain ⟨v, h1, h2⟩ := h.f1.denotes (by rcases hds with h | h <;> rw [h] <;> decide) hf hw hk
    exact ⟨v, (t.fieldValue_eq t.find1).trans (h1 _), h2⟩
  · have hp : t.present = true := h.present.trans hl
    obtain ⟨v, h1, h2⟩ := (h.f2 hp).denotes (by decide) (f := f)
      (mem_sized (name := "localBits") hf hw) hw hk
    exact ⟨v, (t.fieldValue_eq (t.find2 hp)).trans (by simpa using! h1 []), h2⟩
  · obtain ⟨v, h1, h2⟩ := h.f3.denotes (by decide) (f := f)
      (mem_sized (name := "unexpandedTemplate") hf hw) hw hk
    refine ⟨v, (t.fieldValue_eq t.find3).trans ?_, h2⟩
    show valueIn (lengthOf t.L3 :: t.fs3 ++ [templateField t.ids] ++ t.pad3) f.name = _
    rw [List.append_assoc]
    exact h1 _
  · obtain ⟨v, h1, h2⟩ := h.f4.denotes (by decide) (f := f)
      (mem_sized (name := "payload") hf hw) hw hk
    refine ⟨v, (t.fieldValue_eq t.find4).trans ?_, h2⟩
    show valueIn (lengthOf t.L4 :: t.fs4 ++ [_] ++ t.pad4) f.name = _
    rw [List.append_assoc]
    exact h1 _
  · obtain ⟨v, h1, h2⟩ := h.f5.denotes (by decide) (f := f) hf hw hk
    exact ⟨v, (t.fieldValue_eq (find5 t)).trans (by simpa using! h1 []), h2⟩

theorem bytes_split {bs : List UInt8} {l1 l2 : Bits} {k : Nat} (h : BitReader.bitsOfBytes bs = l1 ++ l2) (hk : l1.length = 8 * k) :
    ∃ b1 b2, bs = b1 ++ b2 ∧ BitReader.bitsOfBytes b1 = l1 ∧ BitReader.bitsOfBytes b2 = l2 ∧ b1.length = k := by
  have hl := congrArg List.length h
  rw [BitReader.bitsOfBytes_length, List.length_append, hk] at hl
  have h1 : (bs.take k).length = k := by simp; omega
  have h2 : BitReader.bitsOfBytes (bs.take k) ++ BitReader.bitsOfBytes (bs.drop k) = l1 ++ l2 := by
    rw [← BitReader.bitsOfBytes_append, List.take_append_drop, h]
  obtain ⟨h3, h4⟩ := List.append_inj h2 (by rw [BitReader.bitsOfBytes_length, h1, hk])
  exact ⟨_, _, (List.take_append_drop k bs).symm, h3, h4, h1⟩

theorem bytes_inj {a b : List UInt8} (h : BitReader.bitsOfBytes a = BitReader.bitsOfBytes b) : a = b := by
  rw [← BitReader.bytesOfBits_bitsOfBytes a, h, BitReader.bytesOfBits_bitsOfBytes]

/-- The first bytes of a message. -/
theorem draft_start {d : Draft} (hd : d.Sound) {bs : List UInt8} (hbs : BitReader.bitsOfBytes bs = d.bits) :
    ∃ post, bs = signature ++ post ∧ ∀ rest, editionFields (post ++ rest) = some (editionDecls d.edition) := by
  have h0 : d.head0 = natBits 32 (d.head 0 "startSignature") ++ (natBits 24 (d.head 0 "totalLengthInBytes") ++
      natBits 8 (d.head 0 "bufrEditionNumber")) := by
    simp [Draft.head0, declBits, Script.fields0]
  rw [draft_bits, h0, List.append_assoc, List.append_assoc] at hbs
  obtain ⟨b1, b2, rfl, e1, e2, -⟩ := bytes_split (k := 4) hbs (by simp)
  obtain ⟨b3, b4, rfl, -, e4, l3⟩ := bytes_split (k := 3) e2 (by simp)
  obtain ⟨b5, b6, rfl, e5, -, l5⟩ := bytes_split (k := 1) e4 (by simp)
  have hsig : b1 = signature := by
    apply bytes_inj
    rw [e1, hd.signature]
    rfl
  subst hsig
  refine ⟨_, rfl, fun rest => ?_⟩
  match b5, l5 with
  | [e], _ =>
    have he : e.toNat = d.edition := by
      have : byteBits e = natBits 8 (d.head 0 "bufrEditionNumber") := by simpa [BitReader.bitsOfBytes] using e5
      rw [byteBits_natBits, hd.number] at this
      have h1 := congrArg bitsVal this
      rw [bitsVal_natBits_lt (UInt8.toNat_lt e)] at h1
      rcases hd.edition with h | h <;> rw [h] at h1 ⊢ <;> exact h1
    have hget : ((b3 ++ ([e] ++ b6)) ++ rest)[3]? = some e := by
      match b3, l3 with
      | [_, _, _], _ => rfl
    unfold editionFields
    rw [hget]
    have e4 : e = 4 ↔ d.edition = 4 := by
      rw [← he]
      exact ⟨fun h => by rw [h]; rfl, fun h => UInt8.toNat_inj.1 h⟩
    have e3 : e = 3 ↔ d.edition = 3 := by
      rw [← he]
      exact ⟨fun h => by rw [h]; rfl, fun h => UInt8.toNat_inj.1 h⟩
    dsimp only
    unfold editionDecls
    by_cases h4 : d.edition = 4
    · rw [if_pos (e4.2 h4), if_pos h4]
    · rw [if_neg (fun h => h4 (e4.1 h)), if_neg h4, if_pos (e3.2 (hd.edition.resolve_right h4))]

/-- A composed message is read, if its data is. -/
theorem run_draft [GoFloat F] (c : FacCfg) (d : Draft) (hd : d.Sound) (compressed : Bool)
    (hcomp : d.head 3 "isCompressed" = if compressed then 1 else 0) (g : ChainGroup)
    (hg : addLocalAndWmoTableGroups c.tables (d.head 1 "masterTableNumber") (d.head 1 "originatingCentre")
      (d.head 1 "originatingSubCentre") (d.head 1 "masterTableVersion") (d.head 1 "localTableVersion") ⟨[]⟩ = (.ok (), g))
    (P : Payload F → Prop)
    (hdec : ∀ t pos, ∃ p, DecodesAt c g.lookup (d.descriptors.map descriptorNumber) (d.head 3 "nSubsets") compressed
      (.bin ⟨d.data ++ t, pos⟩) p (.bin ⟨t, pos + d.data.length⟩) ∧ P p)
    {bs : List UInt8} (hbs : BitReader.bitsOfBytes bs = d.bits) {junk : List UInt8} (hj : ¬ signature <:+: junk)
    (rest : List UInt8) (q : Int) (s : Fac F) (hs : s.r = .bin ⟨BitReader.bitsOfBytes (junk ++ bs ++ rest), 8 * q⟩) :
    ∃ m s' p, Runtime.run c s = (.ok m, s') ∧
      s'.r = .bin ⟨BitReader.bitsOfBytes rest, 8 * (q + junk.length + bs.length)⟩ ∧
      d.Says m ∧ payloadOf m = some p ∧ P p := by
  obtain ⟨post, rfl, hed⟩ := draft_start hd hbs
  have hb : BitReader.bitsOfBytes (signature ++ (post ++ rest)) = d.bits ++ BitReader.bitsOfBytes rest := by
    rw [← List.append_assoc, BitReader.bitsOfBytes_append, hbs]
  have hlen : (d.bits.length : Int) = 8 * (signature ++ post).length := by
    rw [← hbs, BitReader.bitsOfBytes_length]
    push_cast
    rfl
  obtain ⟨t, h1, h2, h3⟩ := trace_of_draft c d hd compressed hcomp g hg P hdec (q + junk.length) (BitReader.bitsOfBytes rest)
  obtain ⟨s', h4, h5⟩ := deserialise_of_trace (editionDecls_edition d.edition)
    { s with r := .bin ⟨d.bits ++ BitReader.bitsOfBytes rest, 8 * (q + junk.length)⟩ } t
  obtain ⟨m, hm⟩ : ∃ m, m = t.message := ⟨_, rfl⟩
  rw [← hm, ← hb] at h4
  have hs' : s.r = .bin ⟨BitReader.bitsOfBytes (junk ++ signature ++ (post ++ rest)), 8 * q⟩ := by
    rw [hs]; simp only [List.append_assoc]
  have hrun : Runtime.run c s = (.ok t.message, s') := (run_at hs' (signature_first hj)).2 ⟨_, hed rest, hm ▸ h4⟩
  refine ⟨t.message, s', t.p, hrun, ?_, ⟨?_, reads_fields h1, ?_⟩, t.payloadOf_eq, h2⟩
  · rw [h5, h3, hlen]
    congr 2
    omega
  · obtain ⟨e, b, -, h6, h7, h8⟩ := C82_binary_partial c s s' t.message _ (8 * q) hs' (Int.mul_tmod_right 8 _) hrun
    have k6 : fieldValue t.message 0 "bufrEditionNumber" = some (.uint d.edition) := by
      have := h1.f0.uint (d := ⟨"bufrEditionNumber", DataType.UINT, 8, true⟩) (by decide) rfl (by
        show d.head 0 "bufrEditionNumber" < _
        rw [hd.number]
        rcases hd.edition with h | h <;> rw [h] <;> decide) []
      rw [t.fieldValue_eq (find0 t)]
      dsimp only at this
      rw [hd.number] at this
      simpa using! this
    have k7 : fieldValue t.message 1 "isSection2Presents" = some (.bool d.locals.isSome) := by
      rw [t.fieldValue_eq t.find1, ← h1.present]
      exact t.hpresent _
    rw [k6] at h6
    rw [k7] at h7
    cases h6
    cases h7
    exact h8
  · rw [t.templateOf_eq, h1.ids]

/-- **C89**, uncompressed.  For every draft that keeps the rules of the format, whose tables are there, whose
template has the meaning `ns`, and whose data are subsets written by the rules (`Coded`, see C88): the
decoder reads the message, wherever it stands in the input, to what is in the draft; and what follows the
message is left in the input. -/
theorem C89_uncompressed [GoFloat F] [LawfulGoFloat F] (c : FacCfg) (hc : c.inputType = .binary) (d : Draft) (hd : d.Sound)
    (g : ChainGroup)
    (hg : addLocalAndWmoTableGroups c.tables (d.head 1 "masterTableNumber") (d.head 1 "originatingCentre")
      (d.head 1 "originatingSubCentre") (d.head 1 "masterTableVersion") (d.head 1 "localTableVersion") ⟨[]⟩ = (.ok (), g))
    (root : Desc) (ns : List Ast) (hns : parse g.lookup c.fuel (d.descriptors.map descriptorNumber) = .ok (.base root ns))
    (subsets : List (List Bool × List (Datum F))) (hdata : d.data = subsets.flatMap Prod.fst)
    (h : ∀ x ∈ subsets, ∃ y, Coded Single c.compatible {} ns x.1 x.2 y)
    (hcomp : d.head 3 "isCompressed" = 0) (hn : d.head 3 "nSubsets" = subsets.length)
    (bs : List UInt8) (hbs : BitReader.bitsOfBytes bs = d.bits) (junk rest : List UInt8) (hj : ¬ signature <:+: junk)
    (q : Int) (s : Fac F) (hs : s.r = .bin ⟨BitReader.bitsOfBytes (junk ++ bs ++ rest), 8 * q⟩) :
    ∃ m s' p, Runtime.run c s = (.ok m, s') ∧
      s'.r = .bin ⟨BitReader.bitsOfBytes rest, 8 * (q + junk.length + bs.length)⟩ ∧
      d.Says m ∧ payloadOf m = some p ∧ p.subsets.map reported = subsets.map fun x => written x.2 0 := by
  obtain ⟨_, ns', hr, hp⟩ := parse_ok_iff.1 hns
  cases hr
  refine run_draft c d hd false (by simpa using hcomp) g hg _ (fun t pos => ?_) hbs hj rest q s hs
  let vc : VisCfg := ⟨false, .binary, c.compatible, (d.head 3 "nSubsets" : Nat), .uncompress⟩
  have hvc : CfgOk vc := ⟨c.fuel, rfl⟩
  obtain ⟨p, s', h1, h2, h3⟩ := C88_uncompressed (c := vc) hvc rfl rfl (parse_noBase (good_chain g) ⟨c.fuel, hns⟩) rootDescriptor
    false subsets h t pos (Fac.freshVis (.bin ⟨d.data ++ t, pos⟩)) (by rw [hdata]; rfl)
  refine ⟨p, ⟨_, vc, s', hns, by rw [hc]; rfl, ?_, ?_⟩, h3⟩
  · simp only [Bool.false_eq_true, false_and, if_false, Int.toNat_natCast, hn]
    exact h1
  · rw [h2, hdata]

/-- **C89**, compressed. -/
theorem C89_compressed [GoFloat F] [LawfulGoFloat F] (c : FacCfg) (hc : c.inputType = .binary) (d : Draft) (hd : d.Sound)
    (g : ChainGroup)
    (hg : addLocalAndWmoTableGroups c.tables (d.head 1 "masterTableNumber") (d.head 1 "originatingCentre")
      (d.head 1 "originatingSubCentre") (d.head 1 "masterTableVersion") (d.head 1 "localTableVersion") ⟨[]⟩ = (.ok (), g))
    (root : Desc) (ns : List Ast) (hns : parse g.lookup c.fuel (d.descriptors.map descriptorNumber) = .ok (.base root ns))
    (k : Nat) (hk : 0 < k) (is : List (Datum F)) (y : Ctx) (h : Coded (Shared k) c.compatible {} ns d.data is y)
    (hcomp : d.head 3 "isCompressed" = 1) (hn : d.head 3 "nSubsets" = k)
    (bs : List UInt8) (hbs : BitReader.bitsOfBytes bs = d.bits) (junk rest : List UInt8) (hj : ¬ signature <:+: junk)
    (q : Int) (s : Fac F) (hs : s.r = .bin ⟨BitReader.bitsOfBytes (junk ++ bs ++ rest), 8 * q⟩) :
    ∃ m s' p, Runtime.run c s = (.ok m, s') ∧
      s'.r = .bin ⟨BitReader.bitsOfBytes rest, 8 * (q + junk.length + bs.length)⟩ ∧
      d.Says m ∧ payloadOf m = some p ∧ p.subsets.map reported = (List.range k).map (written is) := by
  obtain ⟨_, ns', hr, hp⟩ := parse_ok_iff.1 hns
  cases hr
  refine run_draft c d hd true (by simpa using hcomp) g hg _ (fun t pos => ?_) hbs hj rest q s hs
  let vc : VisCfg := ⟨true, .binary, c.compatible, (d.head 3 "nSubsets" : Nat), .compressed (d.head 3 "nSubsets" : Nat) c.fuel⟩
  have hvc : CfgOk vc := ⟨c.fuel, rfl⟩
  obtain ⟨p, s', h1, h2, h3⟩ := C88_compressed (c := vc) hvc rfl rfl (k := k) (by show ((d.head 3 "nSubsets" : Nat) : Int) = k; rw [hn]) hk
    (parse_noBase (good_chain g) ⟨c.fuel, hns⟩) rootDescriptor true d.data is h t pos (Fac.freshVis (.bin ⟨d.data ++ t, pos⟩)) rfl
  refine ⟨p, ⟨_, vc, s', hns, by rw [hc]; rfl, ?_, ?_⟩, h3⟩
  · rw [if_pos ⟨rfl, hc⟩]
    exact h1
  · rw [h2]

/-! ## Drafts for the examples -/

namespace AcceptExample
open MessageExample PayloadExample

/-- Numbers by section and name; all others are zero. -/
def numbers (l : List (Nat × String × Nat)) (n : Nat) (name : String) : Nat :=
  ((l.find? fun x => x.1 = n ∧ x.2.1 = name).map fun x => x.2.2).getD 0

/-- Edition 3, with an optional section of 6 bytes, two subsets, and padding in the sections 3 and 4. -/
def draft3 : Draft where
  edition := 3
  head := numbers [(0, "startSignature", 0x42554652), (0, "totalLengthInBytes", 54), (0, "bufrEditionNumber", 3),
    (1, "lengthInBytes", 18), (1, "originatingCentre", 1), (1, "isSection2Presents", 1), (1, "masterTableVersion", 13),
    (1, "year", 7), (1, "month", 1), (1, "day", 1), (2, "lengthInBytes", 6), (3, "lengthInBytes", 10), (3, "nSubsets", 2),
    (3, "isObservation", 1), (4, "lengthInBytes", 8), (5, "stopSignature", 0x37373737)]
  pad1 := []
  locals := some (natBits 16 0x0102)
  descriptors := [(0, 12, 1)]
  pad3 := natBits 8 0
  data := natBits 8 0x12 ++ natBits 8 0x13
  pad4 := natBits 16 0

/-- Edition 4, compressed, two subsets. -/
def draft4 : Draft where
  edition := 4
  head := numbers [(0, "startSignature", 0x42554652), (0, "totalLengthInBytes", 50), (0, "bufrEditionNumber", 4),
    (1, "lengthInBytes", 22), (1, "originatingCentre", 1), (1, "masterTableVersion", 13),
    (1, "year", 2020), (1, "month", 1), (1, "day", 1), (3, "lengthInBytes", 9), (3, "nSubsets", 2),
    (3, "isObservation", 1), (3, "isCompressed", 1), (4, "lengthInBytes", 7), (5, "stopSignature", 0x37373737)]
  pad1 := []
  locals := none
  descriptors := [(0, 12, 1)]
  pad3 := []
  data := natBits 8 100 ++ natBits 6 3 ++ natBits 3 3 ++ natBits 3 7
  pad4 := natBits 4 0

def bytes4 : List UInt8 :=
  [0x42, 0x55, 0x46, 0x52, 0, 0, 50, 4] ++
  [0, 0, 22, 0, 0, 1, 0, 0, 0, 0, 0, 0, 0, 13, 0, 7, 0xE4, 1, 1, 0, 0, 0] ++
  [0, 0, 9, 0, 0, 2, 0xC0, 0x0C, 0x01] ++ [0, 0, 7, 0, 100, 0x0D, 0xF0] ++ stop

theorem sound_of (d : Draft) (h1 : d.edition = 3 ∨ d.edition = 4)
    (h2 : ∀ x ∈ d.sections, ∀ f ∈ x.fields, f.width.all (fun w => d.head x.number f.name < 2 ^ w) = true)
    (h3 : ∀ x ∈ d.sections, fixed "lengthInBytes" 24 ∈ x.fields → d.head x.number "lengthInBytes" * 8 = (d.part x).length)
    (h4 : natBits 32 (d.head 0 "startSignature") = signature.flatMap fun b => natBits 8 b.toNat)
    (h5 : d.head 0 "bufrEditionNumber" = d.edition)
    (h6 : d.head 1 "isSection2Presents" = if d.locals.isSome then 1 else 0)
    (h7 : ∀ x ∈ d.descriptors, x.1 < 2 ^ 2 ∧ x.2.1 < 2 ^ 6 ∧ x.2.2 < 2 ^ 8) (h8 : d.pad3.length < 16) : d.Sound :=
  ⟨h1, fun x hx f hf w hw => by simpa [hw] using h2 x hx f hf, h3, h4, h5, h6, h7, h8⟩

theorem sound3 : draft3.Sound := sound_of _ (by decide) (by decide +kernel) (by decide +kernel) (by decide +kernel)
  (by decide) (by decide) (by decide) (by decide)

theorem sound4 : draft4.Sound := sound_of _ (by decide) (by decide +kernel) (by decide +kernel) (by decide +kernel)
  (by decide) (by decide) (by decide) (by decide)

def temperature : Bentry := { (default : Bentry) with unit := .numeric, nbits := 8 }

def tree : List Ast := [.element ⟨12001, .b temperature⟩ false]

theorem coded1 (n : Nat) (h : n < 2 ^ 8) : ∃ y, EncodeSpec.Coded (F := ToyFloat) EncodeSpec.Single false {} tree (natBits 8 n)
    [⟨⟨some ⟨12001, .b temperature⟩, false⟩, ⟨.numeric, 0, ⟨0⟩, 8⟩, [UnpackSpec.value ⟨.numeric, 0, ⟨0⟩, 8⟩ 8 n]⟩] y := by
  have := EncodeSpec.Coded.element (F := ToyFloat) (W := EncodeSpec.Single) (compatible := false) (x := {}) (ts := [])
    (d := ⟨12001, .b temperature⟩) (e := temperature) rfl .nil (.number (n := 8) (raw := n) (.inl rfl) rfl (by decide) h) .nil
  exact ⟨_, by simpa using! this⟩

theorem codedC : ∃ y, EncodeSpec.Coded (F := ToyFloat) (EncodeSpec.Shared 2) false {} tree draft4.data
    [⟨⟨some ⟨12001, .b temperature⟩, false⟩, ⟨.numeric, 0, ⟨0⟩, 8⟩, [.float ⟨103⟩, .nil]⟩] y := by
  have := EncodeSpec.Coded.element (F := ToyFloat) (W := EncodeSpec.Shared 2) (compatible := false) (x := {}) (ts := [])
    (d := ⟨12001, .b temperature⟩) (e := temperature) rfl .nil (.increments (n := 8) (base := 100) (w := 3) (incs := [3, 7]) (.inl rfl)
      rfl (by decide) (by decide) (by decide) (by decide) (by decide) (by decide) (by decide) rfl) .nil
  exact ⟨_, by simpa using! this⟩

/-- The group of the tables of version 13. -/
def group : ChainGroup := (addLocalAndWmoTableGroups tables 0 1 0 13 0 ⟨[]⟩).2

theorem found : addLocalAndWmoTableGroups tables 0 1 0 13 0 ⟨[]⟩ = (.ok (), group) := by
  have k : (addLocalAndWmoTableGroups tables 0 1 0 13 0 ⟨[]⟩).1 = .ok () := by decide +kernel
  exact eq_of_fst k

theorem parsed : parse group.lookup cfg.fuel [12001] = .ok (.base rootDescriptor tree) := by rfl

end AcceptExample

open AcceptExample MessageExample in
/-- The hypotheses of `C89_uncompressed` are met by the draft of edition 3, in an input with something
before the message and something behind it. -/
example : ∃ m s' p, Runtime.run cfg (input ([0x42, 0x55] ++ (body3 ++ stop) ++ [1, 2, 3])) = (.ok m, s') ∧
    s'.r = .bin ⟨BitReader.bitsOfBytes [1, 2, 3], 8 * 56⟩ ∧ draft3.Says m ∧ payloadOf m = some p ∧
    p.subsets.map reported = [
      [some (⟨some ⟨12001, .b temperature⟩, false⟩, ⟨.numeric, 0, ⟨0⟩, 8⟩, .float ⟨18⟩)],
      [some (⟨some ⟨12001, .b temperature⟩, false⟩, ⟨.numeric, 0, ⟨0⟩, 8⟩, .float ⟨19⟩)]] := by
  obtain ⟨m, s', p, h1, h2, h3, h4, h5⟩ := C89_uncompressed cfg rfl draft3 sound3 group found rootDescriptor tree parsed
    [(natBits 8 0x12, _), (natBits 8 0x13, _)] rfl
    (by simpa using ⟨coded1 0x12 (by decide), coded1 0x13 (by decide)⟩) rfl rfl (body3 ++ stop) (by decide +kernel) [0x42, 0x55] [1, 2, 3]
    (by decide) 0 (input ([0x42, 0x55] ++ (body3 ++ stop) ++ [1, 2, 3])) rfl
  exact ⟨m, s', p, h1, h2, h3, h4, h5.trans (by decide +kernel)⟩

open AcceptExample MessageExample in
/-- Those of `C89_compressed` by the draft of edition 4. -/
example : ∃ m s' p, Runtime.run cfg (input ([] ++ bytes4 ++ [7])) = (.ok m, s') ∧
    s'.r = .bin ⟨BitReader.bitsOfBytes [7], 8 * 50⟩ ∧ draft4.Says m ∧ payloadOf m = some p ∧
    p.subsets.map reported = [
      [some (⟨some ⟨12001, .b temperature⟩, false⟩, ⟨.numeric, 0, ⟨0⟩, 8⟩, .float ⟨103⟩)],
      [some (⟨some ⟨12001, .b temperature⟩, false⟩, ⟨.numeric, 0, ⟨0⟩, 8⟩, .nil)]] := by
  obtain ⟨y, hy⟩ := codedC
  obtain ⟨m, s', p, h1, h2, h3, h4, h5⟩ := C89_compressed cfg rfl draft4 sound4 group found rootDescriptor tree parsed
    2 (by decide) _ y hy rfl rfl bytes4 (by decide +kernel) [] [7] (by decide) 0 (input ([] ++ bytes4 ++ [7])) rfl
  exact ⟨m, s', p, h1, h2, h3, h4, h5.trans (by decide +kernel)⟩

end Gobufr
