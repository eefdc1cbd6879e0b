import Verif.Proofs.Marshal
import Verif.Props.Json
import Verif.Props.Message
import Verif.Props.Encode

/-!
# JSON output

C90: the document shows every value, in order.  C91: it can be read again.
-/

namespace Gobufr
open Spec

variable {F : Type}

/-! ## C90 -/

/-- **C90**, as it should be: the JSON document of a decoded message shows its sections, fields, descriptors and values,
one by one and in order; numbers as numbers, text as text, strings of bits as zeros and ones, missing values as null. -/
def C90_statement (F : Type) [GoFloat F] : Prop :=
  ∀ (c : FacCfg) (s s' : Fac F) (m : Message F) (finite : F → Bool) (j : Doc F), Runtime.run c s = (.ok m, s') →
    Marshal.message finite m = .ok j → MessageShown AsText m j

/-- Leaves a bit reader a bit reader. -/
def KeepsBin {α : Type} (m : M (Reader F) α) : Prop := ∀ r, ∃ r', (m (.bin r)).2 = .bin r'

theorem KeepsBin.bind {α β : Type} {m : M (Reader F) α} {f : α → M (Reader F) β} (h : KeepsBin m) (hf : ∀ a, KeepsBin (f a)) :
    KeepsBin (m >>= f) := by
  intro r
  obtain ⟨r', h⟩ := h r
  rw [M.bind_apply]
  rcases hm : m (.bin r) with ⟨o, x⟩
  rw [hm] at h
  subst h
  cases o with
  | ok a => exact hf a r'
  | err e => exact ⟨r', rfl⟩
  | panic w => exact ⟨r', rfl⟩
  | diverge => exact ⟨r', rfl⟩

theorem KeepsBin.handle {α β : Type} {m : M (Reader F) α} {f : Outcome α → M (Reader F) β} (h : KeepsBin m)
    (hf : ∀ o, KeepsBin (f o)) : KeepsBin (M.handle m f) := by
  intro r
  obtain ⟨r', h⟩ := h r
  rcases hm : m (.bin r) with ⟨o, x⟩
  rw [hm] at h
  subst h
  rw [M.handle_eq hm]
  exact hf o r'

theorem KeepsBin.call {α : Type} (mb : M BitReader α) (mj : M (PeekJson F) α) : KeepsBin (Reader.call mb mj) :=
  fun _ => ⟨_, rfl⟩

theorem seekLoop_bin : ∀ k : Nat, KeepsBin (Fac.seekLoop (F := F) k)
  | 0 => fun r => ⟨r, rfl⟩
  | k + 1 => by
    unfold Fac.seekLoop
    refine KeepsBin.bind (.call _ _) fun bs => ?_
    split
    · exact fun r => ⟨r, rfl⟩
    split
    · exact fun r => ⟨r, rfl⟩
    refine KeepsBin.handle (.call _ _) fun o => ?_
    cases o with
    | ok _ => exact seekLoop_bin k
    | err _ => exact seekLoop_bin k
    | panic w => exact fun r => ⟨r, rfl⟩
    | diverge => exact fun r => ⟨r, rfl⟩

theorem onReader_r {α : Type} {m : M (Reader F) α} {s s' : Fac F} {o : Outcome α} (h : Fac.onReader m s = (o, s')) :
    s'.r = (m s.r).2 ∧ o = (m s.r).1 := by
  cases h
  exact ⟨rfl, rfl⟩

/-- The first field of a message decoded from binary input holds four bytes, the second a number. -/
theorem opening_values [GoFloat F] {c : FacCfg} {s s' : Fac F} {m : Message F} {r : BitReader} (hr : s.r = .bin r)
    (h : Runtime.run c s = (.ok m, s')) :
    ∃ (sec : Section F) (rest : List (Section F)) (f1 f2 : Field F) (fs : List (Field F)) (bs : List UInt8) (n : Nat),
      m.sections = sec :: rest ∧ sec.fields = f1 :: f2 :: fs ∧ f1.value = .val (.bytes bs) ∧ bs.length = 4 ∧ f2.value = .val (.uint n) := by
  obtain ⟨e, s1, s2, b, fs0, r0, h1, h2, -, h3, h4, -⟩ := run_ok h
  obtain ⟨r1, hr1⟩ : ∃ r1, s1.r = .bin r1 := by
    rw [(onReader_r h1).1, hr]
    exact seekLoop_bin _ _
  obtain ⟨r2, hr2⟩ : ∃ r2, s2.r = .bin r2 := by
    rw [(onReader_r h2).1, hr1]
    exact ⟨_, rfl⟩
  rw [hr2] at h3
  cases hs : m.sections with
  | nil => rw [hs] at h4; simp at h4
  | cons sec rest =>
    rw [hs] at h4
    have h4 : sec.fields = fs0 := by simpa using h4
    rw [Script.fields0] at h3
    cases h3 with
    | cons k1 k2 =>
      cases k2 with
      | cons k3 k4 =>
        simp only [Fac.readValue] at k1 k3
        rw [if_neg (by decide), if_neg (by decide), if_neg (by decide), if_neg (by decide), if_pos (by decide)] at k1
        rw [if_pos (by decide)] at k3
        obtain ⟨bs, x, hb, k1⟩ := M.bind_eq_ok.1 k1
        obtain ⟨n, y, hn, k3⟩ := M.bind_eq_ok.1 k3
        cases k1
        cases k3
        have hb' : BitReader.readBytes 4 r2 = (.ok bs, (BitReader.readBytes 4 r2).2) := eq_of_fst (congrArg Prod.fst hb)
        have hl := (BitReader.readBytes_ok hb').1
        exact ⟨sec, rest, _, _, _, bs, n, rfl, h4, rfl, by omega, rfl⟩

theorem base64_length : ∀ s : List UInt8, (Marshal.base64 s).length = (s.length + 2) / 3 * 4
  | [] => rfl
  | [_] => by simp [Marshal.base64]
  | [_, _] => by simp [Marshal.base64]
  | a :: b :: c :: rest => by
    simp only [Marshal.base64, List.length_cons, base64_length rest]
    omega

/-- How the document of a message decoded from binary input starts. -/
theorem opening_doc [GoFloat F] {c : FacCfg} {s s' : Fac F} {m : Message F} {r : BitReader} {finite : F → Bool} {j : Doc F}
    (hr : s.r = .bin r) (h : Runtime.run c s = (.ok m, s')) (hj : Marshal.message finite m = .ok j) :
    ∃ (bs : List UInt8) (n : Nat) (js ks : List (Doc F)), bs.length = 4 ∧
      j = .arr (.arr (.str (Marshal.base64 bs) :: .int n :: js) :: ks) ∧
      ∃ sec rest f1 fs, m.sections = sec :: rest ∧ sec.fields = f1 :: fs ∧ f1.value = .val (.bytes bs) := by
  obtain ⟨sec, rest, f1, f2, fs, bs, n, h1, h2, h3, h4, h5⟩ := opening_values hr h
  unfold Marshal.message at hj
  rw [h1] at hj
  obtain ⟨ks, rfl, hj'⟩ := (Marshal.appended_ok (by simp)).1 hj
  obtain ⟨hl, hk⟩ := Marshal.elements_ok.1 hj'
  match ks, hl with
  | k :: ks, _ =>
    have hk := Marshal.call_ok.1 (hk (sec, k) (by simp))
    unfold Marshal.section_ at hk
    simp only [h2] at hk
    obtain ⟨js, rfl, hk'⟩ := (Marshal.appended_ok (by simp)).1 hk
    obtain ⟨hl, hk⟩ := Marshal.elements_ok.1 hk'
    match js, hl with
    | [_], hl => simp at hl
    | j1 :: j2 :: js, _ =>
      have k1 := Marshal.call_ok.1 (hk (f1, j1) (by simp))
      have k2 := Marshal.call_ok.1 (hk (f2, j2) (by simp))
      simp only [Marshal.field, h3] at k1
      simp only [Marshal.field, h5] at k2
      cases k1
      cases k2
      exact ⟨bs, n, js, ks, h4, rfl, sec, rest, f1, _, h1, h2, h3⟩

/-- C90 is violated by every message decoded from binary input: the start signature comes out in base64
(`QlVGUg==` instead of `BUFR`), and so does all other text. -/
theorem C90_never [GoFloat F] (c : FacCfg) (s s' : Fac F) (m : Message F) (finite : F → Bool) (j : Doc F) (r : BitReader)
    (hr : s.r = .bin r) (h : Runtime.run c s = (.ok m, s')) (hj : Marshal.message finite m = .ok j) : ¬ MessageShown AsText m j := by
  obtain ⟨bs, n, js, ks, hl, rfl, sec, rest, f1, fs, h1, h2, h3⟩ := opening_doc hr h hj
  rintro ⟨ks', e, -, hs⟩
  cases e
  rw [h1] at hs
  obtain ⟨js', e, -, hs⟩ := hs (sec, _) (List.mem_cons_self ..)
  cases e
  rw [h2] at hs
  have hs := hs (f1, _) (List.mem_cons_self ..)
  unfold FieldShown at hs
  simp only [h3] at hs
  obtain ⟨t, ht, e⟩ := Marshal.shown_bytes hs
  injection e with e
  have := congrArg List.length (e.trans ht)
  rw [base64_length, hl] at this
  omega

open MessageExample in
/-- The code violates C90: the example message has a document, which does not show its text. -/
theorem C90_violates : ¬ C90_statement ToyFloat := by
  intro h
  obtain ⟨m, hm⟩ := isOk_eq run4
  obtain ⟨j, hj⟩ := (Marshal.message_some (fun _ => true) m).2 fun _ _ => rfl
  exact C90_never _ _ _ m _ j _ rfl (eq_of_fst hm) hj (h _ _ _ m _ j (eq_of_fst hm) hj)

/-- A payload without subsets comes out as null, not as an empty list. -/
theorem C90_empty_violates (finite : F → Bool) (f : Field F) (b : Bool) (hf : f.value = .payload ⟨[], b⟩) :
    Marshal.field finite f = .ok .null ∧ ∀ text, ¬ FieldShown text f (Doc.null : Doc F) := by
  constructor
  · simp only [Marshal.field, hf]
    rfl
  · intro text h
    unfold FieldShown at h
    simp only [hf] at h
    obtain ⟨js, h, -⟩ := h
    cases h

/-- **C90**, the part that holds: the document shows everything one by one and in order, text in base64.
(Missing: text as text, and payloads without subsets.) -/
theorem C90_partial (m : Message F) (finite : F → Bool) (j : Doc F) (hv : ∀ v ∈ items m, Proper v) (hm : NothingEmpty m)
    (hj : Marshal.message finite m = .ok j) : MessageShown AsBase64 m j :=
  Marshal.message_shown hv hm hj

/-- C90. There is a document iff no number is a NaN or infinite; otherwise there is an error, never a panic. -/
theorem C90_exists (m : Message F) (finite : F → Bool) :
    ((∃ j, Marshal.message finite m = .ok j) ↔ ∀ x, .float x ∈ items m → finite x = true) ∧
    ((∃ j, Marshal.message finite m = .ok j) ∨ ∃ e, Marshal.message finite m = .err e) :=
  ⟨Marshal.message_some finite m, Marshal.message_clean finite m⟩

/-- C90. Nothing is lost: the document determines all values of known kinds. -/
theorem C90_lossless (m m' : Message F) (finite finite' : F → Bool) (j : Doc F) (hv : ∀ v ∈ items m, Proper v) (hm : NothingEmpty m)
    (hj : Marshal.message finite m = .ok j) (hv' : ∀ v ∈ items m', Proper v) (hm' : NothingEmpty m')
    (hj' : Marshal.message finite' m' = .ok j) (hk : ∀ p ∈ (items m).zip (items m'), SameKind p.1 p.2) : items m = items m' :=
  Marshal.aligned_inj (Marshal.aligned_message (Marshal.message_shown hv hm hj))
    (Marshal.aligned_message (Marshal.message_shown hv' hm' hj')) hk

/-- C90. A value that is a string of characters is shown as it is, with U+FFFD for every byte that does not belong
to a character. -/
theorem C90_characters (finite : F → Bool) (s : List UInt8) (t : GoString) :
    Marshal.value finite (.str s) = .ok (.str t) ↔ Replaced s t := by
  have h : Marshal.value finite (.str s) = .ok (.str (Marshal.validText s)) := rfl
  rw [h]
  constructor
  · intro e
    cases e
    exact Marshal.validText_replaced s.length s (Nat.le_refl _)
  · intro hr
    rw [Marshal.replaced_unique hr]

/-- C90. The document of a subset is the list of the documents of its cells. -/
theorem C90_cells (finite : F → Bool) (s : Subset F) (js : List (Doc F)) :
    Marshal.subset finite s = .ok (.arr js) ↔ s.cells.map (Marshal.cell finite) = js.map .ok := by
  have key : ∀ (cs : List (Cell F)) (js : List (Doc F)),
      Marshal.elements (Marshal.value finite) (cs.map fun c => c.v) = .ok js ↔ cs.map (Marshal.cell finite) = js.map .ok := by
    intro cs
    induction cs with
    | nil =>
      intro js
      cases js <;> simp [Marshal.elements]
    | cons c cs ih =>
      intro js
      simp only [List.map_cons, Marshal.elements, Outcome.bind_eq_ok, Outcome.ok.injEq]
      constructor
      · rintro ⟨j, h1, js', h2, rfl⟩
        rw [List.map_cons, ← (ih js').1 h2]
        exact congrArg (· :: _) h1
      · intro h
        cases js with
        | nil => simp at h
        | cons j js =>
          simp only [List.map_cons, List.cons.injEq] at h
          exact ⟨j, h.1, js, (ih js).2 h.2, rfl⟩
  rw [← key]
  unfold Marshal.subset Marshal.made
  simp only [Outcome.bind_eq_ok, Outcome.ok.injEq]
  constructor
  · rintro ⟨js', h, e⟩
    cases e
    exact h
  · exact fun h => ⟨js, h, rfl⟩

example : Marshal.subset (F := ToyFloat) (fun _ => true) ⟨0, [⟨0, .uint 3⟩, ⟨1, .nil⟩], 0, []⟩
    = .ok (.arr [.int 3, .null]) := rfl

/-! ## C91 -/

/-- A JSON reader at the start of a document. -/
def Doc.reader [GoFloat F] (j : Doc F) : Reader F := .json (PeekJson.new j.toks)

/-- **C91**, as it should be: the JSON document of a message decoded from binary input, given to the decoder as JSON input,
gives a message with the same values. -/
def C91_statement (F : Type) [GoFloat F] : Prop :=
  ∀ (c : FacCfg) (s s' : Fac F) (r : BitReader) (m : Message F) (finite : F → Bool) (j : Doc F), s.r = .bin r →
    Runtime.run c s = (.ok m, s') → Marshal.message finite m = .ok j →
    ∃ m' s'', Runtime.run { c with inputType := .flatJson } (Fac.new j.reader) = (.ok m', s'') ∧ items m' = items m

theorem seek_text (k : Nat) (t : GoString) (x : F) (ts : List (Tok F)) (ht : t.length ≠ 4) :
    ∃ e r, Fac.seekLoop (k + 2) (.json (PeekJson.new (.delim :: .delim :: .str t :: .num x :: ts))) = (.err e, r) := by
  unfold Fac.seekLoop
  have h1 : (Reader.peekBytes 0 4 (.json (PeekJson.new (.delim :: .delim :: .str t :: .num x :: ts))) : Outcome _ × Reader F)
    = (.ok t, .json ⟨⟨.num x :: ts, .eof, 0⟩, [.str t]⟩) := rfl
  rw [M.bind_ok h1]
  by_cases hs : t.length < 4
  · rw [if_pos hs]
    exact ⟨_, _, rfl⟩
  rw [if_neg hs, if_neg (fun e => ht (by rw [e]; rfl))]
  have h2 : (Reader.readBytes 1 (.json ⟨⟨.num x :: ts, .eof, 0⟩, [.str t]⟩) : Outcome _ × Reader F)
    = (.ok t, .json ⟨⟨.num x :: ts, .eof, 8⟩, []⟩) := rfl
  rw [M.handle_eq h2]
  exact ⟨_, _, rfl⟩

/-- C91 is violated by every message: whatever the configuration, the document is refused.  The start signature
comes out in base64, which the reader skips over, and behind it there is no text. -/
theorem C91_never [GoFloat F] (c c' : FacCfg) (s s' : Fac F) (r : BitReader) (m : Message F) (finite : F → Bool) (j : Doc F)
    (hr : s.r = .bin r) (h : Runtime.run c s = (.ok m, s')) (hj : Marshal.message finite m = .ok j) :
    ∃ e s'', Runtime.run c' (Fac.new j.reader) = (.err e, s'') := by
  obtain ⟨bs, n, js, ks, hl, rfl, -⟩ := opening_doc hr h hj
  have ht : ∃ x ts, (Doc.arr (.arr (.str (Marshal.base64 bs) :: .int n :: js) :: ks) : Doc F).toks =
      .delim :: .delim :: .str (Marshal.base64 bs) :: .num x :: ts := ⟨_, _, rfl⟩
  obtain ⟨x, ts, ht⟩ := ht
  unfold Doc.reader
  rw [ht]
  generalize hq : (Reader.json (PeekJson.new (.delim :: .delim :: .str (Marshal.base64 bs) :: .num x :: ts)) : Reader F) = q
  have hleft : ∃ k, Fac.left q + 1 = k + 2 := by
    subst hq
    exact ⟨_, rfl⟩
  obtain ⟨k, hk⟩ := hleft
  obtain ⟨e, r', hs⟩ := seek_text k (Marshal.base64 bs) x ts (by rw [base64_length, hl]; decide)
  rw [hq, ← hk] at hs
  have hseek : Fac.seekStartSignature (Fac.new q) = (.err e, _) := onReader_eq hs
  exact ⟨e, _, M.bind_err hseek⟩

open MessageExample in
/-- The code violates C91. -/
theorem C91_violates : ¬ C91_statement ToyFloat := by
  intro h
  obtain ⟨m, hm⟩ := isOk_eq run4
  obtain ⟨j, hj⟩ := (Marshal.message_some (fun _ => true) m).2 fun _ _ => rfl
  obtain ⟨m', s'', h1, -⟩ := h _ _ _ _ m _ j rfl (eq_of_fst hm) hj
  obtain ⟨e, s3, h2⟩ := C91_never _ { cfg with inputType := .flatJson } _ _ _ m _ j rfl (eq_of_fst hm) hj
  rw [h1] at h2
  cases h2

/-- C91. A reader of the document meets one scalar for each value, in order. -/
theorem C91_tokens [GoFloat F] (m : Message F) (finite : F → Bool) (j : Doc F) (hv : ∀ v ∈ items m, Proper v) (hm : NothingEmpty m)
    (hj : Marshal.message finite m = .ok j) : (j.toks.filter isScalar).length = (items m).length ∧
      ∀ p ∈ (items m).zip (j.toks.filter isScalar), TokenOf AsBase64 p.1 p.2 := by
  rw [Marshal.toks_leaves]
  exact Marshal.aligned_tokens (Marshal.aligned_message (Marshal.message_shown hv hm hj))

/-- **C91**, for single values: numbers up to 2^53, truth values and strings of bits can be read back by the
read for their kind.  (Missing: text and missing values, and with the former every document.) -/
theorem C91_values_partial [GoFloat F] [LawfulGoFloat F] (finite : F → Bool) :
    (∀ v : Nat, v ≤ 2 ^ 53 → ∃ j : Doc F, Marshal.value finite (.uint v) = .ok j ∧ j.toks.filterMap (JOp.value .uint) = [.uint v]) ∧
    (∀ v : Int, v.natAbs ≤ 2 ^ 53 → ∃ j : Doc F, Marshal.value finite (.int v) = .ok j ∧ j.toks.filterMap (JOp.value .int) = [.int v]) ∧
    (∀ f : F, finite f = true → ∃ j, Marshal.value finite (.float f) = .ok j ∧ j.toks.filterMap (JOp.value .number) = [.float f]) ∧
    (∀ b : Bool, ∃ j : Doc F, Marshal.value finite (.bool b) = .ok j ∧ j.toks.filterMap (JOp.value .bool) = [.bool b]) ∧
    (∀ b : Binary, Proper (F := F) (.binary (some b)) →
      ∃ j : Doc F, Marshal.value finite (.binary (some b)) = .ok j ∧ j.toks.filterMap (JOp.value .binary) = [.binary (some b)]) := by
  refine ⟨fun v hv => ⟨.int v, rfl, ?_⟩, fun v hv => ⟨.int v, rfl, ?_⟩, fun f hf => ⟨.num f, by simp [Marshal.value, hf], rfl⟩,
    fun b => ⟨.bool b, rfl, rfl⟩, fun b hb => ⟨.str b.string, rfl, ?_⟩⟩
  · simp [Doc.toks, JOp.value, LawfulGoFloat.truncUint_ofNat v hv]
  · by_cases h0 : 0 ≤ v
    · simp only [Doc.toks, if_pos h0, List.filterMap_cons, List.filterMap_nil, JOp.value, LawfulGoFloat.truncInt_ofNat v.toNat (by omega)]
      rw [Int.toNat_of_nonneg h0]
    · simp [Doc.toks, JOp.value, h0, LawfulGoFloat.truncInt_ofInt v hv]
  · obtain ⟨l, h1, h2⟩ := hb
    obtain ⟨bs, n⟩ := b
    simp only at h1 h2
    subst h2
    have e := EncodeSpec.packed_inj h1 (packed_packBits l)
    subst e
    simp only [Doc.toks, List.filterMap_cons, List.filterMap_nil, JOp.value]
    rw [string_pack, newBinaryFromString_text, if_pos]
    rw [List.all_eq_true]
    intro x hx
    obtain ⟨b, -, rfl⟩ := List.mem_map.1 hx
    cases b <;> rfl

/-! ## Examples -/

namespace MarshalExample

/-- A message with one value of each kind. -/
def sample : Message ToyFloat :=
  { inputPath := [], sections :=
    [ { number := 0, description := str "s", fields :=
        [ ⟨str "a", .val (.bytes (str "BUFR")), 32, false⟩, ⟨str "b", .val (.uint 7), 8, false⟩,
          ⟨str "c", .val (.binary (some ⟨[5], 3⟩)), 3, false⟩, ⟨str "d", .val (.bool true), 1, false⟩,
          ⟨str "e", .template ⟨[1001, 301011], 2, 6, 8⟩, 0, false⟩,
          ⟨str "f", .payload ⟨[⟨0, [⟨0, .int (-5)⟩, ⟨1, .nil⟩, ⟨2, .bytes (str "A")⟩], 0, []⟩], false⟩, 0, false⟩ ] } ] }

/-- Its document, token by token. -/
def shown : List (Tok ToyFloat) :=
  [.delim, .delim, .str (str "QlVGUg=="), .num (GoFloat.ofNat 7), .str (str "101"), .bool true,
    .delim, .num (GoFloat.ofNat 1001), .num (GoFloat.ofNat 301011), .delim,
    .delim, .delim, .num (GoFloat.ofInt (-5)), .null, .str (str "QQ=="), .delim, .delim, .delim, .delim]

theorem sample_doc : (match Marshal.message (fun _ => true) sample with | .ok j => decide (j.toks = shown) | _ => false) = true := by
  decide +kernel

theorem sample_proper : ∀ v ∈ items sample, Proper v := by
  intro v hv
  have : v = .bytes (str "BUFR") ∨ v = .uint 7 ∨ v = .binary (some ⟨[5], 3⟩) ∨ v = .bool true ∨ v = .int 1001 ∨ v = .int 301011 ∨
    v = .int (-5) ∨ v = .nil ∨ v = .bytes (str "A") := by
    simpa [items, fieldItems, sample] using hv
  rcases this with rfl | rfl | rfl | rfl | rfl | rfl | rfl | rfl | rfl <;> try exact trivial
  exact ⟨[true, false, true], ⟨by simp, by decide, rfl⟩, rfl⟩

theorem sample_full : NothingEmpty sample := by
  refine ⟨by simp [sample], fun s hs => ?_⟩
  simp only [sample, List.mem_singleton] at hs
  subst hs
  refine ⟨by simp, fun f hf p hp => ?_⟩
  simp only [List.mem_cons, List.not_mem_nil, or_false] at hf
  rcases hf with rfl | rfl | rfl | rfl | rfl | rfl <;> simp only [reduceCtorEq, FieldVal.payload.injEq] at hp
  subst hp
  simp

end MarshalExample

open MarshalExample in
/-- C91: the hypotheses of `C91_tokens` are met; one of the nine is null. -/
example : ∃ j, Marshal.message (fun _ => true) sample = .ok j ∧ (j.toks.filter isScalar).length = 9 :=
  have ⟨j, hj⟩ := (C90_exists sample _).1.2 fun _ _ => rfl
  ⟨j, hj, (C91_tokens sample _ j sample_proper sample_full hj).1⟩

/-- C90: a character of two bytes is kept, a byte in between replaced. -/
example : Marshal.value (F := ToyFloat) (fun _ => true) (.str [0xC3, 0xA9, 0xFF, 65]) = .ok (.str [0xC3, 0xA9, 0xEF, 0xBF, 0xBD, 65]) := by
  refine (C90_characters _ _ _).2 (.char (n := 0xE9) (.inl (by decide)) (.byte (fun n s' hn e => ?_) (.char (n := 65) (.inl (by decide)) .nil)))
  have h : Marshal.runeLength [0xFF, 65] = 0 := by decide
  rw [e, Marshal.runeLength_utf8 hn] at h
  have := Marshal.utf8_length_pos n
  omega

open MarshalExample in
/-- C90: the hypotheses of `C90_partial` and `C90_lossless` are met. -/
example : ∃ j, Marshal.message (fun _ => true) sample = .ok j ∧ MessageShown AsBase64 sample j :=
  have ⟨j, hj⟩ := (C90_exists sample _).1.2 fun _ _ => rfl
  ⟨j, hj, C90_partial sample _ j sample_proper sample_full hj⟩

open MarshalExample MessageExample in
/-- C90, C91: the hypotheses of `C90_never` and `C91_never` are met. -/
example : ∃ (m : Message ToyFloat) (s' : Fac ToyFloat) (j : Doc ToyFloat),
    (∃ r, (input (body ++ stop)).r = .bin r) ∧ Runtime.run cfg (input (body ++ stop)) = (.ok m, s') ∧ Marshal.message (fun _ => true) m = .ok j := by
  obtain ⟨m, hm⟩ := isOk_eq run4
  obtain ⟨j, hj⟩ := (Marshal.message_some (fun _ => true) m).2 fun _ _ => rfl
  exact ⟨m, _, j, ⟨_, rfl⟩, eq_of_fst hm, hj⟩

/-- C90: a number that JSON cannot show. -/
example : ∃ e, Marshal.field (F := ToyFloat) (fun _ => false) ⟨str "x", .val (.float default), 8, false⟩ = .err e := ⟨_, rfl⟩

/-- C90: the payload of `C90_empty_violates`. -/
example : Marshal.field (F := ToyFloat) (fun _ => true) ⟨str "x", .payload ⟨[], true⟩, 0, false⟩ = .ok .null :=
  (C90_empty_violates _ _ true rfl).1

end Gobufr
