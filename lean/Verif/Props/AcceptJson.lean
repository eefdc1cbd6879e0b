import Verif.Proofs.OnlyJson
import Verif.Props.Accept

/-!
# C105: messages as flat JSON

A message composed by the rules of the format, given as a JSON text with the values of its fields one after the other, is
decoded to what was put into it.
-/

namespace Gobufr
open Spec Layout Flat EncodeSpec

variable {F : Type}

/-- The message `d` with the data `subsets`, written as the scalars `toks`, is decoded to what is in it; what follows is
left in the input. -/
def ReadAsJson [GoFloat F] (c : FacCfg) (d : Draft) (subsets : List (List Bool × List (Datum F))) (toks : List (Tok F)) : Prop :=
  ∀ (ts rest : List (Tok F)) (e : Err) (q : Int) (s : Fac F), s.r = .json ⟨⟨ts, e, 8 * q⟩, []⟩ → scalars ts = toks ++ rest →
    ∃ m s' ts' p, Runtime.run c s = (.ok m, s') ∧ s'.r = .json ⟨⟨ts', e, 8 * q + d.bits.length⟩, []⟩ ∧ scalars ts' = rest ∧
      d.Says m ∧ payloadOf m = some p ∧ p.subsets.map reported = subsets.map fun x => written x.2 0

/-- The tables and the template of the message are there, and its data are `subsets`, with a value everywhere that JSON
numbers can hold. -/
structure HasData [GoFloat F] (c : FacCfg) (d : Draft) (subsets : List (List Bool × List (Datum F))) : Prop where
  meaning : ∃ g root ns, addLocalAndWmoTableGroups c.tables (d.head 1 "masterTableNumber") (d.head 1 "originatingCentre")
      (d.head 1 "originatingSubCentre") (d.head 1 "masterTableVersion") (d.head 1 "localTableVersion") ⟨[]⟩ = (.ok (), g) ∧
    parse g.lookup c.fuel (d.descriptors.map descriptorNumber) = .ok (.base root ns) ∧
    ∀ x ∈ subsets, ∃ y, Coded Single c.compatible {} ns x.1 x.2 y
  data : d.data = subsets.flatMap Prod.fst
  count : d.head 3 "nSubsets" = subsets.length
  values : ∀ v ∈ EncodeSpec.values subsets, Present v ∧ Exact v

/-- **C105**, as it should be: numbers, true and false for flags, characters as strings and bits as strings of zeros and ones. -/
def C105_statement (F : Type) [GoFloat F] : Prop :=
  ∀ (c : FacCfg), c.inputType = .flatJson → ∀ (d : Draft), d.Sound → ∀ (subsets : List (List Bool × List (Datum F))),
    HasData c d subsets → ∀ values, Tokens (EncodeSpec.values subsets) values →
      ReadAsJson c d subsets (d.tokens (fun _ _ => false) values)

/-- **C105**, the part that holds: the update sequence number is the edition number, and the bits of the fields declared with
the undefined type `BIN` (in section 1 of edition 3, and in the sections 3 and 4) are given as numbers.  The compression flag makes
no difference; the lengths of the sections are those of the binary message without compression.  (Missing: all other
messages, of which none is decoded, see `C105_never`.) -/
theorem C105_partial [GoFloat F] [LawfulGoFloat F] (c : FacCfg) (hc : c.inputType = .flatJson) (d : Draft) (hd : d.Sound)
    (husn : d.head 1 "updateSequenceNumber" = d.edition) (subsets : List (List Bool × List (Datum F)))
    (h : HasData c d subsets) (values : List (Tok F)) (ht : Tokens (EncodeSpec.values subsets) values) :
    ReadAsJson c d subsets (d.tokens (asNumbers d.edition) values) := by
  intro ts rest e q s hs hts
  obtain ⟨⟨g, root, ns, hg, hns, hcoded⟩, hdata, hn, hv⟩ := h
  obtain ⟨_, ns', hr, hp⟩ := parse_ok_iff.1 hns
  cases hr
  obtain ⟨t1, t2, t3, t4, t5, t6, l, hl, hnull⟩ := first_tokens hd (asNumbers d.edition) values
  obtain ⟨s1, r2, h1, h2, h3⟩ := start_json (by rw [hts, hl]; rfl) hnull s hs
  have he53 : d.edition ≤ 2 ^ 53 := by rcases hd.edition with h | h <;> rw [h] <;> decide
  rw [husn, LawfulGoFloat.truncUint_ofNat _ he53] at h2
  obtain ⟨compressed, hcomp⟩ : ∃ compressed : Bool, d.head 3 "isCompressed" = if compressed then 1 else 0 := by
    have := hd.fits description (by simp [Draft.sections, Layout.sections]) (fixed "isCompressed" 1) (by decide) 1 rfl
    have : d.head 3 "isCompressed" < 2 := this
    match hd : d.head 3 "isCompressed", this with
    | 0, _ => exact ⟨false, rfl⟩
    | 1, _ => exact ⟨true, rfl⟩
  obtain ⟨N, hN⟩ : ∃ N, N = (scalars ts).length := ⟨_, rfl⟩
  rw [← hN] at h3
  have hat : (jsonMedium N e).At ((jsonMedium N e).message d values ++ rest) (8 * q) r2 := by
    rw [← tokens_message d hd.edition, ← hts]
    exact h3
  obtain ⟨t, k1, k2, k3⟩ := (jsonMedium N e).trace_of_draft c d hd compressed hcomp g hg
    (fun p => p.subsets.map reported = subsets.map fun x => written x.2 0) values (fun t pos r hr => by
      let vc : VisCfg := ⟨compressed, .flatJson, c.compatible, (d.head 3 "nSubsets" : Nat), .json⟩
      have hvc : CfgOk vc := ⟨c.fuel, rfl⟩
      have hr : AtJson N e ((EncodeSpec.values subsets).map tokenOf ++ t) pos (Fac.freshVis r).r := by
        rw [← tokens_unique ht]; exact hr
      obtain ⟨p', s', a1, a2, a3⟩ := decodes_json (c := vc) hvc rfl (parse_noBase (good_chain g) ⟨c.fuel, hns⟩) rootDescriptor
        subsets hcoded hv t { compressed := compressed } _ pos hr
      refine ⟨p', s'.r, ⟨_, vc, s', hns, by rw [hc]; rfl, ?_, rfl⟩, by rw [hdata]; exact a2, by simpa using a3⟩
      rw [if_neg (by simp [hc]), Int.toNat_natCast, hn]
      exact a1) q rest r2 hat
  obtain ⟨s', k4, k5⟩ := deserialise_of_trace (editionDecls_edition d.edition) { s with r := r2 } t
  have hrun : Runtime.run c s = (.ok t.message, s') := by
    unfold Runtime.run
    rw [M.bind_ok h1]
    unfold Script.boot raise
    rw [M.bind_ok (wrapErr_ok h2)]
    have boot : ∀ n : Nat, n = 3 ∨ n = 4 → Script.deserialise c (editionDecls n) { s with r := r2 } = (.ok t.message, s') →
        (if n = 4 then Script.deserialise c Script.fields1Edition4
          else if n = 3 then Script.deserialise c Script.fields1Edition3
          else M.fail (.msg "Invalid BUFR edition number")) { s with r := r2 } = (.ok t.message, s') := by
      rintro _ (rfl | rfl) h <;> exact h
    exact boot _ hd.edition k4
  obtain ⟨ts', cache, hr6, hc1, -, -, hc4⟩ := k3
  have hcache : cache = [] := by
    have hlen := congrArg List.length hts
    rw [hl, ← hN] at hlen
    simp only [List.length_append, List.length_cons] at hlen
    apply List.eq_nil_of_length_eq_zero
    omega
  subst hcache
  refine ⟨t.message, s', ts', t.p, hrun, k5.trans hr6, hc1, ⟨?_, reads_fields k1, ?_⟩, t.payloadOf_eq, k2⟩
  · obtain ⟨e', s1', s2', b, a1, a2, -, a4, a5⟩ := C70_structure c s s' t.message hrun
    rw [h1] at a1
    cases a1
    rw [h2] at a2
    cases a2
    have k7 : fieldValue t.message 1 "isSection2Presents" = some (.bool d.locals.isSome) := by
      rw [t.fieldValue_eq t.find1, ← k1.present]
      exact t.hpresent _
    rw [k7] at a4
    cases a4
    exact a5
  · rw [t.templateOf_eq, k1.ids]

/-- **C105**, the other way: of the messages composed by the rules, with the bits of each field given as a string or as a
number, only those are decoded whose update sequence number is the edition number, and whose bits are numbers exactly where
the undefined type is declared.  Nothing is asked of the data, the tables or what follows. -/
theorem C105_only [GoFloat F] [LawfulGoFloat F] (c : FacCfg) (d : Draft) (hd : d.Sound) (plain : Nat → String → Bool)
    (values ts rest : List (Tok F)) (e : Err) (q : Int) (s s' : Fac F) (m : Message F) (hs : s.r = .json ⟨⟨ts, e, 8 * q⟩, []⟩)
    (hts : scalars ts = d.tokens plain values ++ rest) (h : Runtime.run c s = (.ok m, s')) :
    d.head 1 "updateSequenceNumber" = d.edition ∧ ∀ x ∈ d.sections, ∀ f ∈ x.fields, ∀ w, f.width = some w →
      kindOf (str f.name) = .bits → plain x.number f.name = asNumbers d.edition x.number f.name := by
  obtain ⟨edition, s1, s2, ds, h1, h2, h3, t, -⟩ := run_trace h
  obtain ⟨t1, t2, t3, t4, t5, t6, l, hl, hnull⟩ := first_tokens hd plain values
  obtain ⟨s1', r2, k1, k2, k3⟩ := start_json (by rw [hts, hl]; rfl) hnull s hs
  rw [k1] at h1
  cases h1
  rw [k2] at h2
  obtain ⟨he, rfl⟩ := Prod.mk.inj h2
  have husn : d.head 1 "updateSequenceNumber" < 2 ^ 8 := by
    have m1 : (if d.edition = 4 then identification4 else identification3) ∈ d.sections := by
      simp [Draft.sections, Layout.sections]
    have n1 : (if d.edition = 4 then identification4 else identification3).number = 1 := by split <;> rfl
    have := hd.fits _ m1 (fixed "updateSequenceNumber" 8) (by split <;> decide) 8 rfl
    rw [n1] at this
    exact this
  rw [LawfulGoFloat.truncUint_ofNat _ (by omega)] at he
  have he := Outcome.ok.inj he
  rw [hts] at k3
  have hds : IsEdition ds := by
    rcases h3 with ⟨-, h⟩ | ⟨-, h⟩
    · exact Or.inl h
    · exact Or.inr h
  obtain ⟨b1, b2⟩ := trace_back hds hd k3 t
  refine ⟨?_, ?_⟩
  · rw [he]
    rcases h3 with ⟨g1, g2⟩ | ⟨g1, g2⟩ <;> rcases hd.edition with g3 | g3
    · rw [g1, g3]
    · rw [g2, g3] at b1
      exact absurd b1 (by decide)
    · rw [g2, g3] at b1
      exact absurd b1 (by decide)
    · rw [g1, g3]
  · intro x hx f hf w hw hk
    have fin : ∀ (fs : List FieldShape) (n : Nat) (names : List String), (∀ f ∈ fs, f.width.isSome = true → kindOf (str f.name) = .bits →
        f.name ∈ names) → (∀ name ∈ names, plain n name = asNumbers d.edition n name) → f ∈ fs →
        plain n f.name = asNumbers d.edition n f.name := by
      intro fs n names a1 a2 a3
      exact a2 _ (a1 f a3 (by rw [hw]; rfl) hk)
    have hx' : x = indicator ∨ x = (if d.edition = 4 then identification4 else identification3) ∨
        (d.locals.isSome = true ∧ x = Layout.optional) ∨ x = description ∨ x = Layout.data ∨ x = ending := by
      unfold Draft.sections Layout.sections at hx
      cases hl : d.locals <;> simp [hl] at hx ⊢ <;> simpa using hx
    rcases hx' with rfl | rfl | ⟨hl, rfl⟩ | rfl | rfl | rfl
    · exact fin _ _ [] (by decide) (by simp) hf
    · have n1 : (if d.edition = 4 then identification4 else identification3).number = 1 := by split <;> rfl
      rw [n1]
      exact fin _ 1 ["flagBits"] (by split <;> decide) (by simpa using b2.flag1) hf
    · exact fin _ 2 ["reservedBits"] (by decide) (by simpa [asNumbers] using b2.reserved2 hl) hf
    · exact fin _ 3 ["reservedBits", "flagBits"] (by decide) (by simpa [asNumbers] using ⟨b2.reserved3, b2.flag3⟩) hf
    · exact fin _ 4 ["reservedBits"] (by decide) (by simpa [asNumbers] using b2.reserved4) hf
    · exact fin _ _ [] (by decide) (by simp) hf

/-- No message is decoded whose bits are all given as strings of zeros and ones. -/
theorem C105_never [GoFloat F] [LawfulGoFloat F] (c : FacCfg) (d : Draft) (hd : d.Sound) (values ts rest : List (Tok F)) (e : Err)
    (q : Int) (s s' : Fac F) (m : Message F) (hs : s.r = .json ⟨⟨ts, e, 8 * q⟩, []⟩)
    (hts : scalars ts = d.tokens (fun _ _ => false) values ++ rest) : Runtime.run c s ≠ (.ok m, s') := by
  intro h
  have := (C105_only c d hd _ values ts rest e q s s' m hs hts h).2 description (by simp [Draft.sections, Layout.sections])
    (fixed "reservedBits" 8) (by decide) 8 rfl (by decide)
  cases this

namespace AcceptJsonExample
open AcceptExample MessageExample

/-- The draft of edition 3, with the update sequence number 3. -/
def draftJ : Draft := { draft3 with
  head := fun n name => if n = 1 ∧ name = "updateSequenceNumber" then 3 else draft3.head n name }

theorem soundJ : draftJ.Sound := sound_of _ (by decide) (by decide +kernel) (by decide +kernel) (by decide +kernel)
  (by decide) (by decide) (by decide) (by decide)

/-- A temperature. -/
def item (n : Nat) : Datum ToyFloat :=
  ⟨⟨some ⟨12001, .b temperature⟩, false⟩, ⟨.numeric, 0, ⟨0⟩, 8⟩, [UnpackSpec.value ⟨.numeric, 0, ⟨0⟩, 8⟩ 8 n]⟩

/-- The temperatures 18 and 19. -/
def subsets : List (List Bool × List (Datum ToyFloat)) := [(natBits 8 0x12, [item 0x12]), (natBits 8 0x13, [item 0x13])]

theorem hasData : HasData jsonCfg draftJ subsets :=
  ⟨⟨group, rootDescriptor, tree, found, parsed, by simpa [subsets] using ⟨coded1 0x12 (by decide), coded1 0x13 (by decide)⟩⟩, rfl, rfl, by
    intro v hv
    have : EncodeSpec.values subsets = [.float ⟨18⟩, .float ⟨19⟩] := by decide +kernel
    rw [this] at hv
    simp only [List.mem_cons, List.not_mem_nil, or_false] at hv
    rcases hv with rfl | rfl <;> exact ⟨trivial, trivial⟩⟩

def numberTokens : List (Tok ToyFloat) := [.num ⟨18⟩, .num ⟨19⟩]

theorem tokens_values : Tokens (EncodeSpec.values subsets) numberTokens := by
  have : EncodeSpec.values subsets = [.float ⟨18⟩, .float ⟨19⟩] := by decide +kernel
  rw [this]
  exact .cons (.float _) (.cons (.float _) .nil)

/-- The message as it is decoded. -/
def document : List (Tok ToyFloat) :=
  [.str (str "BUFR"), .num ⟨54⟩, .num ⟨3⟩] ++
  [.num ⟨18⟩, .num ⟨0⟩, .num ⟨0⟩, .num ⟨1⟩, .num ⟨3⟩, .bool true, .num ⟨0⟩, .num ⟨0⟩, .num ⟨0⟩, .num ⟨13⟩, .num ⟨0⟩, .num ⟨7⟩, .num ⟨1⟩,
    .num ⟨1⟩, .num ⟨0⟩, .num ⟨0⟩, .num ⟨0⟩] ++
  [.num ⟨6⟩, .str (str "00000000"), .str (str "0000000100000010")] ++
  [.num ⟨10⟩, .num ⟨0⟩, .num ⟨2⟩, .bool true, .bool false, .num ⟨0⟩, .num ⟨0⟩, .num ⟨12⟩, .num ⟨1⟩, .str (str "00000000")] ++
  [.num ⟨8⟩, .num ⟨0⟩, .num ⟨18⟩, .num ⟨19⟩, .str (str "0000000000000000")] ++ [.str (str "7777")]

theorem document_eq : draftJ.tokens (asNumbers 3) numberTokens = document := by decide +kernel

end AcceptJsonExample

open AcceptJsonExample AcceptExample MessageExample in
/-- **C105** as it should be fails: a message with all bits as strings is refused. -/
theorem C105_violates : ¬ C105_statement ToyFloat := by
  intro h
  obtain ⟨m, s', ts', p, h1, -⟩ := h jsonCfg rfl draftJ soundJ subsets hasData numberTokens tokens_values
    (draftJ.tokens (fun _ _ => false) numberTokens) [] .eof 0
    (Fac.new (.json ⟨⟨draftJ.tokens (fun _ _ => false) numberTokens, .eof, 0⟩, []⟩)) rfl (by decide +kernel)
  exact C105_never jsonCfg draftJ soundJ numberTokens _ [] .eof 0
    (Fac.new (.json ⟨⟨draftJ.tokens (fun _ _ => false) numberTokens, .eof, 0⟩, []⟩)) s' m rfl (by decide +kernel) h1

open AcceptJsonExample AcceptExample MessageExample in
/-- The hypotheses of `C105_partial` are met by the message above in nested arrays, with something behind it. -/
example : ∃ m s' ts' p, Runtime.run jsonCfg (Fac.new (.json ⟨⟨.delim :: .delim :: document ++ [.delim, .null, .delim], .eof, 0⟩, []⟩)) = (.ok m, s') ∧
    s'.r = .json ⟨⟨ts', .eof, 8 * 54⟩, []⟩ ∧ scalars ts' = [.null] ∧ draftJ.Says m ∧ payloadOf m = some p ∧
    p.subsets.map reported = [
      [some (⟨some ⟨12001, .b temperature⟩, false⟩, ⟨.numeric, 0, ⟨0⟩, 8⟩, .float ⟨18⟩)],
      [some (⟨some ⟨12001, .b temperature⟩, false⟩, ⟨.numeric, 0, ⟨0⟩, 8⟩, .float ⟨19⟩)]] := by
  obtain ⟨m, s', ts', p, h1, h2, h3, h4, h5, h6⟩ := C105_partial jsonCfg rfl draftJ soundJ rfl subsets hasData numberTokens tokens_values
    (.delim :: .delim :: document ++ [.delim, .null, .delim]) [.null] .eof 0
    (Fac.new (.json ⟨⟨.delim :: .delim :: document ++ [.delim, .null, .delim], .eof, 0⟩, []⟩)) rfl (by decide +kernel)
  have hlen : draftJ.bits.length = 432 := by decide +kernel
  rw [hlen] at h2
  exact ⟨m, s', ts', p, h1, h2, h3, h4, h5, h6.trans (by decide +kernel)⟩

open AcceptJsonExample AcceptExample MessageExample in
/-- Those of `C105_only` too: this message is decoded. -/
example : draftJ.head 1 "updateSequenceNumber" = draftJ.edition := by
  obtain ⟨m, s', ts', p, h1, -⟩ := C105_partial jsonCfg rfl draftJ soundJ rfl subsets hasData numberTokens tokens_values
    document [] .eof 0 (Fac.new (.json ⟨⟨document, .eof, 0⟩, []⟩)) rfl (by decide +kernel)
  exact (C105_only jsonCfg draftJ soundJ (asNumbers 3) numberTokens document [] .eof 0 _ s' m rfl (by decide +kernel) h1).1

end Gobufr
