import Verif.Proofs.Header
import Verif.Props.PayloadShape

/-!
# C84, C85, C86, C87: the fields of a message and the bits of the input
-/

namespace Gobufr
open Spec

variable {F : Type}

/-! ## What the sections of a traced message are -/

def AllVals (fs : List (Field F)) : Prop := ∀ f ∈ fs, ∃ v, f.value = .val v

theorem ReadFields.vals [GoFloat F] {r r' : Reader F} {ds : List FieldDecl} {fs : List (Field F)}
    (h : ReadFields r ds fs r') : AllVals fs := by
  induction h with
  | nil r => simp [AllVals]
  | @cons r r1 r2 d ds fs v h1 h2 ih =>
    intro f hf
    rcases List.mem_cons.1 hf with rfl | hf
    · exact ⟨v, rfl⟩
    · exact ih f hf

theorem Pads.vals {L : Nat} {b : Int} {r r' : Reader F} {pad : List (Field F)} {n : Int}
    (h : Pads L b r pad n r') : AllVals pad := by
  rcases h with ⟨-, rfl, -, -⟩ | ⟨-, -, x, rfl, -⟩
  · simp [AllVals]
  · intro f hf
    simp only [List.mem_cons, List.not_mem_nil, or_false] at hf
    exact ⟨_, by rw [hf]⟩

theorem AllVals.findSome? {fs : List (Field F)} (h : AllVals fs) {g : Field F → Option α}
    (hg : ∀ f v, f.value = .val v → g f = none) : fs.findSome? g = none := by
  rw [List.findSome?_eq_none_iff]
  intro f hf
  obtain ⟨v, hv⟩ := h f hf
  exact hg f v hv

namespace Trace

variable [GoFloat F] {c : FacCfg} {ds : List FieldDecl} {r : Reader F} (t : Trace c ds r)

theorem vals2 : AllVals ((if t.present then [t.sec2] else []).flatMap fun s => s.fields) := by
  have := t.h2
  cases hb : t.present with
  | true =>
    rw [hb] at this
    simpa using! ReadFields.vals this
  | false => simp [AllVals]

theorem fields_eq : t.message.sections.flatMap (fun s => s.fields) =
    t.fs0 ++ (lengthOf t.L1 :: t.fs1) ++ t.pad1 ++ ((if t.present then [t.sec2] else []).flatMap fun s => s.fields) ++
      (lengthOf t.L3 :: t.fs3) ++ [templateField t.ids] ++ (t.pad3 ++
      (lengthOf t.L4 :: t.fs4)) ++ [payloadField t.p (t.r4''.pos - t.r4'.pos)] ++ (t.pad4 ++ t.fs5) := by
  cases hb : t.present <;> simp [message, sections, sec0, sec1, sec2, sec3, sec4, sec5, hb]

theorem payloadOf_eq : payloadOf t.message = some t.p := by
  unfold payloadOf
  rw [t.fields_eq]
  simp only [List.findSome?_append]
  rw [t.h0.vals.findSome? (by intro f v h; simp [h]), t.h1.vals.findSome? (by intro f v h; simp [h]),
    t.p1.vals.findSome? (by intro f v h; simp [h]), t.vals2.findSome? (by intro f v h; simp [h]),
    t.h3.vals.findSome? (by intro f v h; simp [h]), t.p3.vals.findSome? (by intro f v h; simp [h]),
    t.h4.vals.findSome? (by intro f v h; simp [h])]
  rfl

theorem templateOf_eq : templateOf t.message = some t.ids := by
  unfold templateOf
  rw [t.fields_eq]
  simp only [List.findSome?_append]
  rw [t.h0.vals.findSome? (by intro f v h; simp [h]), t.h1.vals.findSome? (by intro f v h; simp [h]),
    t.p1.vals.findSome? (by intro f v h; simp [h]), t.vals2.findSome? (by intro f v h; simp [h]),
    t.h3.vals.findSome? (by intro f v h; simp [h])]
  rfl

/-- The fields of a section, by its number. -/
theorem fieldValue_eq {n : Nat} {name : String} {sec : Section F}
    (h : t.message.sections.find? (fun s => s.number = (n : Int)) = some sec) :
    fieldValue t.message n name = valueIn sec.fields name := by
  unfold fieldValue valueIn
  rw [h]
  rfl

theorem find1 : t.message.sections.find? (fun s => s.number = ((1 : Nat) : Int)) = some t.sec1 := by
  simp [message, sections, sec0, sec1]

theorem find2 (h : t.present = true) : t.message.sections.find? (fun s => s.number = ((2 : Nat) : Int)) = some t.sec2 := by
  simp [message, sections, sec0, sec1, sec2, h]

theorem find3 : t.message.sections.find? (fun s => s.number = ((3 : Nat) : Int)) = some t.sec3 := by
  cases h : t.present <;> simp [message, sections, sec0, sec1, sec2, sec3, h]

theorem find4 : t.message.sections.find? (fun s => s.number = ((4 : Nat) : Int)) = some t.sec4 := by
  cases h : t.present <;> simp [message, sections, sec0, sec1, sec2, sec3, sec4, h]

theorem length1 : fieldValue t.message 1 "lengthInBytes" = some (.uint t.L1) := by
  rw [t.fieldValue_eq t.find1]; rfl

theorem length2 (h : t.present = true) : fieldValue t.message 2 "lengthInBytes" = some (.uint t.L2) := by
  rw [t.fieldValue_eq (t.find2 h)]; rfl

theorem length3 : fieldValue t.message 3 "lengthInBytes" = some (.uint t.L3) := by
  rw [t.fieldValue_eq t.find3]; rfl

theorem length4 : fieldValue t.message 4 "lengthInBytes" = some (.uint t.L4) := by
  rw [t.fieldValue_eq t.find4]; rfl

theorem mem_sections {sec : Section F} : sec ∈ t.message.sections ↔
    sec = t.sec0 ∨ sec = t.sec1 ∨ (t.present = true ∧ sec = t.sec2) ∨ sec = t.sec3 ∨ sec = t.sec4 ∨ sec = t.sec5 := by
  cases h : t.present <;> simp [message, sections, h]

end Trace

/-! ## C85: numbers, flags, texts and descriptors -/

/-- **C85**, as it should be: every field with a number, a flag, a text or the descriptors holds what
the bits at its place in the input say.  Its place is given by the start of its section and the widths
of the fields before it; the first byte of the input has the index `q`. -/
def C85_statement (F : Type) [GoFloat F] : Prop :=
  ∀ (c : FacCfg) (s s' : Fac F) (m : Message F) (bs : List UInt8) (q : Int), c.inputType = .binary →
    s.r = .bin ⟨BitReader.bitsOfBytes bs, 8 * q⟩ → Runtime.run c s = (.ok m, s') →
    ∀ sec ∈ m.sections, FieldsAt isPlain (BitReader.bitsOfBytes bs) (8 * q) (8 * sec.startByteIndex) sec.fields

theorem typed_of_kind {P : Field F → Prop} {d : FieldDecl}
    (h : (∃ v, P (d.field v)) → (d.dataType = DataType.UINT ∧ kindOf (str d.name) = .number) ∨
      (d.dataType = DataType.BOOL ∧ kindOf (str d.name) = .flag) ∨
      (d.dataType = DataType.BYTES ∧ kindOf (str d.name) = .text) ∨
      (d.dataType = DataType.BINARY ∧ kindOf (str d.name) = .bits)) : Typed P d := by
  intro v l hp hd
  have h' := h ⟨v, hp⟩
  rcases hd with ⟨h1, h2⟩ | ⟨h1, h2⟩ | ⟨h1, h2⟩ | ⟨h1, h2⟩ | ⟨h1, -⟩ <;>
    rcases h' with ⟨h3, h4⟩ | ⟨h3, h4⟩ | ⟨h3, h4⟩ | ⟨h3, h4⟩ <;>
    first
    | (rw [h4]; exact h2)
    | (rw [h1] at h3; exact absurd h3 (by decide))

/-- The type is the one for what the field is for. -/
def FieldDecl.fit (d : FieldDecl) : Prop :=
  (d.dataType = DataType.UINT ∧ kindOf (str d.name) = .number) ∨
      (d.dataType = DataType.BOOL ∧ kindOf (str d.name) = .flag) ∨
      (d.dataType = DataType.BYTES ∧ kindOf (str d.name) = .text) ∨
      (d.dataType = DataType.BINARY ∧ kindOf (str d.name) = .bits)

instance (d : FieldDecl) : Decidable d.fit := by unfold FieldDecl.fit; infer_instance

theorem typed_plain {d : FieldDecl} (h : kindOf (str d.name) = .bits ∨ d.fit) :
    Typed (isPlain (F := F)) d := by
  refine typed_of_kind fun ⟨v, hv⟩ => ?_
  rcases h with h | h
  · exact absurd h hv
  · exact h

theorem allTyped_plain {ds : List FieldDecl} (hds : IsEdition ds) : AllTyped (F := F) (fun _ => isPlain) ds where
  h0 := fun d hd => typed_plain (by
    have : ∀ d ∈ Script.fields0, kindOf (str d.name) = .bits ∨ d.fit := by decide
    exact this d hd)
  h1 := fun d hd => typed_plain (by
    have : ∀ d ∈ lengthDecl :: ds, kindOf (str d.name) = .bits ∨ d.fit := by rcases hds with rfl | rfl <;> decide
    exact this d hd)
  h2 := fun L d hd => typed_plain (by
    simp only [fields2, List.mem_cons, List.not_mem_nil, or_false] at hd
    rcases hd with rfl | rfl | rfl
    · decide
    · decide
    · left
      show kindOf (str "localBits") = .bits
      decide)
  h3 := fun d hd => typed_plain (by
    have : ∀ d ∈ lengthDecl :: Script.fields3, kindOf (str d.name) = .bits ∨ d.fit := by decide
    exact this d hd)
  h4 := fun d hd => typed_plain (by
    have : ∀ d ∈ [lengthDecl, ⟨"reservedBits", Script.BIN, 8, false⟩], kindOf (str d.name) = .bits ∨ d.fit := by decide
    exact this d hd)
  h5 := fun d hd => typed_plain (by
    have : ∀ d ∈ [(⟨"stopSignature", DataType.BYTES, 32, false⟩ : FieldDecl)], kindOf (str d.name) = .bits ∨ d.fit := by
      decide
    exact this d hd)

theorem FieldsAt.of_none {P : Field F → Prop} {src : List Bool} {p0 : Int} : ∀ {pos : Int} {fs : List (Field F)},
    (∀ f ∈ fs, ¬ P f) → FieldsAt P src p0 pos fs
  | _, [], _ => trivial
  | _, f :: _, h => ⟨fun hp => absurd hp (h f (by simp)), FieldsAt.of_none fun g hg => h g (List.mem_cons_of_mem _ hg)⟩

theorem Pads.padField' {L : Nat} {b : Int} {r r' : Reader F} {pad : List (Field F)} {n : Int}
    (h : Pads L b r pad n r') : ∀ f ∈ pad, f.name = str "padding" := by
  rcases h with ⟨-, rfl, -, -⟩ | ⟨-, -, x, rfl, -⟩
  · simp
  · intro f hf
    simp only [List.mem_cons, List.not_mem_nil, or_false] at hf
    rw [hf]

/-- **C85** (partial: not for a message with an optional section of less than 4 bytes; and the stop
signature only if nothing in the payload is counted wrongly, see C53). -/
theorem C85_partial [GoFloat F] (c : FacCfg) (s s' : Fac F) (m : Message F) (bs : List UInt8) (q : Int)
    (hc : c.inputType = .binary) (hs : s.r = .bin ⟨BitReader.bitsOfBytes bs, 8 * q⟩)
    (h : Runtime.run c s = (.ok m, s'))
    (h2 : ∀ L, fieldValue m 2 "lengthInBytes" = some (.uint L) → 4 ≤ L) :
    ∀ sec ∈ m.sections, (sec.number = 5 → ∀ p, payloadOf m = some p → GoodPayload p) →
      FieldsAt isPlain (BitReader.bitsOfBytes bs) (8 * q) (8 * sec.startByteIndex) sec.fields := by
  obtain ⟨pre, ds, r, hds, hsync, hpos, t, rfl, -⟩ := run_trace_bytes hs h
  obtain ⟨k0, k1, k2, k3, k4, -, k5⟩ := t.at (P := fun _ => isPlain) hc hds (allTyped_plain hds) hsync hpos
    fun hp => h2 _ (t.length2 hp)
  intro sec hsec hgood
  rcases t.mem_sections.1 hsec with rfl | rfl | ⟨hp, rfl⟩ | rfl | rfl | rfl
  · exact k0
  · exact k1
  · exact k2 hp
  · exact k3
  · show FieldsAt isPlain _ _ _ (lengthOf t.L4 :: t.fs4 ++ [payloadField t.p (t.r4''.pos - t.r4'.pos)] ++ t.pad4)
    refine FieldsAt.append (FieldsAt.append k4 ?_) ?_
    · exact ⟨fun hp => absurd hp (by simp [isPlain, payloadField]), trivial⟩
    · refine FieldsAt.of_none fun f hf hp => ?_
      obtain ⟨v, hv⟩ := t.p4.vals f hf
      unfold isPlain at hp
      rw [hv, t.p4.padField' f hf] at hp
      exact hp (by decide)
  · exact (k5 (hgood rfl _ t.payloadOf_eq)).2.1

namespace HeaderExample
open MessageExample

/-- An edition 3 message whose optional section says it has 3 bytes. -/
def shortOptional : List UInt8 :=
  [0x42, 0x55, 0x46, 0x52, 0, 0, 51, 3] ++
  [0, 0, 18, 0, 0, 1, 0, 0x80, 0, 0, 13, 0, 7, 1, 1, 0, 0, 0] ++ [0, 0, 3, 0] ++
  [0, 0, 10, 0, 0, 2, 0x80, 0x0C, 0x01, 0] ++ [0, 0, 8, 0, 0x12, 0x13, 0, 0] ++ stop

instance (y : NodeKind F) : Decidable (goodKind y) := by
  unfold goodKind goodWidth
  cases y <;> infer_instance

/-- Whether nothing in the payload is counted wrongly. -/
def allGood (p : Payload ToyFloat) : Bool :=
  p.subsets.all fun x => x.cells.all fun y => decide (y.v ≠ .binary none) &&
    match x.heap[y.n]? with
    | some z => decide (goodKind z.kind)
    | none => true

theorem good_of {p : Payload ToyFloat} (h : allGood p = true) : GoodPayload p := by
  intro x hx y hy
  have h1 := List.all_eq_true.1 (List.all_eq_true.1 h x hx) y hy
  rw [Bool.and_eq_true] at h1
  obtain ⟨h1, h2⟩ := h1
  refine ⟨of_decide_eq_true h1, fun z hz => ?_⟩
  rw [hz] at h2
  exact of_decide_eq_true h2

end HeaderExample

theorem BitsAt.eq {src : List Bool} {p0 pos : Int} {l : List Bool} (h : BitsAt src p0 pos l) :
    l = (src.drop (pos - p0).toNat).take l.length := by
  obtain ⟨pre, post, rfl, h⟩ := h
  have : (pos - p0).toNat = pre.length := by omega
  rw [this, List.append_assoc, List.drop_left, List.take_left]

open MessageExample HeaderExample in
/-- C85 is violated: an optional section that says it has 3 bytes has 4, but counts as 3, and all sections
after it are found one byte too early. -/
theorem C85_violates : ¬ C85_statement ToyFloat := by
  intro h
  have hok : (Runtime.run cfg (input shortOptional)).1.isOk = true := by decide +kernel
  obtain ⟨m, hm⟩ := isOk_eq hok
  have k : (match (Runtime.run cfg (input shortOptional)).1 with
      | .ok m => decide (m.sections[3]?.bind (fun s => s.fields.head?.map fun f => (s.startByteIndex, f))
          = some (29, ⟨str "lengthInBytes", .val (.uint 10), 24, false⟩))
      | _ => false) = true := by decide +kernel
  rw [hm] at k
  obtain ⟨sec, hsec, k1⟩ := Option.bind_eq_some_iff.1 (of_decide_eq_true k)
  obtain ⟨f, hf, k2⟩ := Option.map_eq_some_iff.1 k1
  obtain ⟨fs, hfs⟩ := List.head?_eq_some_iff.1 hf
  obtain ⟨k3, rfl⟩ := Prod.mk.inj k2
  have hat := h cfg _ _ m shortOptional 0 rfl rfl (eq_of_fst hm) sec (List.mem_of_getElem? hsec)
  rw [k3, hfs] at hat
  obtain ⟨l, hl, hl2, hl3⟩ := hat.1 (by
    show kindOf (str "lengthInBytes") ≠ .bits
    decide)
  have hl4 := BitsAt.eq hl
  have : l.length = 24 := by
    have : (l.length : Int) = 24 := hl2
    omega
  rw [this] at hl4
  subst hl4
  have hl3 : (Val.uint 10 : Val ToyFloat) = .uint (bitsVal _) := hl3
  injection hl3 with hl3
  revert hl3
  decide

open MessageExample HeaderExample in
/-- The example message of edition 3, with an optional section of 6 bytes, meets the hypotheses. -/
example : ∃ m s', Runtime.run cfg (input (body3 ++ stop)) = (.ok m, s') ∧ m.sections.length = 6 ∧
    ∀ sec ∈ m.sections, FieldsAt isPlain (BitReader.bitsOfBytes (body3 ++ stop)) (8 * 0) (8 * sec.startByteIndex)
      sec.fields := by
  obtain ⟨m, hm⟩ := isOk_eq run3
  have k : (match (Runtime.run cfg (input (body3 ++ stop))).1 with
      | .ok m => decide (m.sections.length = 6 ∧ fieldValue m 2 "lengthInBytes" = some (.uint 6) ∧
          (payloadOf m).map allGood = some true)
      | _ => false) = true := by decide +kernel
  rw [hm] at k
  obtain ⟨k1, k2, k3⟩ := of_decide_eq_true k
  refine ⟨m, _, eq_of_fst hm, k1, fun sec hsec => C85_partial cfg _ _ m _ 0 rfl rfl (eq_of_fst hm) ?_ sec hsec ?_⟩
  · intro L hL
    rw [k2] at hL
    cases hL
    decide
  · intro _ p hp
    rw [hp] at k3
    exact good_of (Option.some.inj k3)

/-! ## C84: bit strings -/

/-- **C84**, as it should be: every field for bits (reserved bits, flag bits, local bits, padding) holds
the bits at its place in the input. -/
def C84_statement (F : Type) [GoFloat F] : Prop :=
  ∀ (c : FacCfg) (s s' : Fac F) (m : Message F) (bs : List UInt8) (q : Int), c.inputType = .binary →
    s.r = .bin ⟨BitReader.bitsOfBytes bs, 8 * q⟩ → Runtime.run c s = (.ok m, s') →
    ∀ sec ∈ m.sections, FieldsAt isBits (BitReader.bitsOfBytes bs) (8 * q) (8 * sec.startByteIndex) sec.fields

open MessageExample in
/-- C84 is violated: the reserved bits of section 3 come out as a number. -/
theorem C84_violates : ¬ C84_statement ToyFloat := by
  intro h
  obtain ⟨m, hm⟩ := isOk_eq run4
  have k : (match (Runtime.run cfg (input (body ++ stop))).1 with
      | .ok m => decide (m.sections[2]?.bind (fun s => (s.fields.drop 1).head?)
          = some ⟨str "reservedBits", .val (.int 0), 8, false⟩)
      | _ => false) = true := by decide +kernel
  rw [hm] at k
  obtain ⟨sec, hsec, k1⟩ := Option.bind_eq_some_iff.1 (of_decide_eq_true k)
  have hat := h cfg _ _ m _ 0 rfl rfl (eq_of_fst hm) sec (List.mem_of_getElem? hsec)
  generalize sec.fields = l, 8 * sec.startByteIndex = pos at k1 hat
  match l, k1, hat with
  | a :: b :: _, k1, hat =>
    cases k1
    obtain ⟨l, -, -, hl⟩ := hat.2.1 (by
      show kindOf (str "reservedBits") = .bits
      decide)
    have : kindOf (str "reservedBits") = .bits := by decide
    have hl : Denotes (kindOf (str "reservedBits")) l (.int 0) := hl
    rw [this] at hl
    obtain ⟨bs, -, hl⟩ := hl
    cases hl

/-- The fields for bits, by section, that come out as numbers: the scripts declare them with the name
`BIN`, which is not defined. -/
def undefinedType (edition : Nat) : List (Nat × String) :=
  [(3, "reservedBits"), (3, "flagBits"), (4, "reservedBits")] ++ if edition = 3 then [(1, "flagBits")] else []

/-- A field for bits of the section with the number `n`, not one of those. -/
def isDefinedBits (edition n : Nat) (f : Field F) : Prop :=
  isBits f ∧ ∀ name, (n, name) ∈ undefinedType edition → f.name ≠ str name

theorem typed_bits {d : FieldDecl} {e n : Nat}
    (h : kindOf (str d.name) ≠ .bits ∨ d.fit ∨ (n, d.name) ∈ undefinedType e) :
    Typed (isDefinedBits (F := F) e n) d := by
  refine typed_of_kind fun ⟨v, hv, hv'⟩ => ?_
  rcases h with h | h | h
  · exact absurd hv h
  · exact h
  · exact absurd rfl (hv' d.name h)

/-- The fields of section 1 in an edition. -/
def edition1 (e : Nat) (ds : List FieldDecl) : Prop :=
  (e = 3 ∧ ds = Script.fields1Edition3) ∨ (e = 4 ∧ ds = Script.fields1Edition4)

theorem allTyped_bits {ds : List FieldDecl} {e : Nat} (hds : edition1 e ds) :
    AllTyped (F := F) (isDefinedBits e) ds := by
  have hd : ∀ n, (∀ x : List FieldDecl, (∀ d ∈ x, kindOf (str d.name) ≠ .bits ∨ d.fit ∨ (n, d.name) ∈ undefinedType e) →
      ∀ d ∈ x, Typed (isDefinedBits (F := F) e n) d) := fun n x h d hd => typed_bits (h d hd)
  refine ⟨hd 0 _ ?_, hd 1 _ ?_, fun L => hd 2 _ ?_, hd 3 _ ?_, hd 4 _ ?_, hd 5 _ ?_⟩
  · rcases hds with ⟨rfl, rfl⟩ | ⟨rfl, rfl⟩ <;> decide
  · rcases hds with ⟨rfl, rfl⟩ | ⟨rfl, rfl⟩ <;> decide
  · intro d hd
    simp only [fields2, List.mem_cons, List.not_mem_nil, or_false] at hd
    rcases hd with rfl | rfl | rfl
    · left; decide
    · right; left; decide
    · right; left; right; right; right; exact ⟨rfl, by show kindOf (str "localBits") = .bits; decide⟩
  · rcases hds with ⟨rfl, rfl⟩ | ⟨rfl, rfl⟩ <;> decide
  · rcases hds with ⟨rfl, rfl⟩ | ⟨rfl, rfl⟩ <;> decide
  · rcases hds with ⟨rfl, rfl⟩ | ⟨rfl, rfl⟩ <;> decide

/-- The edition number of a traced message. -/
theorem trace_edition [GoFloat F] {c : FacCfg} {s s' : Fac F} {ds : List FieldDecl} {r : Reader F} {t : Trace c ds r}
    {bs : List UInt8} {q : Int} (hs : s.r = .bin ⟨BitReader.bitsOfBytes bs, 8 * q⟩)
    (h : Runtime.run c s = (.ok t.message, s')) (hds : IsEdition ds) {e : Nat}
    (he : fieldValue t.message 0 "bufrEditionNumber" = some (.uint e)) : edition1 e ds := by
  obtain ⟨e', b, h1, h2, -, h4⟩ := C82_binary_partial c s s' t.message bs (8 * q) hs (Int.mul_tmod_right 8 _) h
  rw [he] at h2
  cases h2
  have hname : (t.sec1.fields[2]?).map (·.name) = ((lengthDecl :: ds)[2]?).map fun d => str d.name := by
    have := congrArg (fun l => (l[2]?).map Prod.fst) t.h1.shape
    simp only [List.getElem?_map, Option.map_map] at this
    have hlen : 2 < (lengthOf t.L1 :: t.fs1).length := by
      have := congrArg List.length t.h1.shape
      simp only [List.length_map] at this
      rw [this]
      rcases hds with rfl | rfl <;> decide
    show (((lengthOf t.L1 :: t.fs1) ++ t.pad1)[2]?).map (·.name) = _
    rw [List.getElem?_append_left hlen]
    exact this
  rcases h1 with rfl | rfl
  · have k := MessageHas.name h4 (i := 1) (j := 2) (x := Layout.identification3) rfl rfl
    rcases hds with rfl | rfl
    · exact Or.inl ⟨rfl, rfl⟩
    · replace k : (t.sec1.fields[2]?).map (·.name) = _ := k
      rw [hname] at k
      exact absurd k (by decide)
  · have k := MessageHas.name h4 (i := 1) (j := 2) (x := Layout.identification4) rfl rfl
    rcases hds with rfl | rfl
    · replace k : (t.sec1.fields[2]?).map (·.name) = _ := k
      rw [hname] at k
      exact absurd k (by decide)
    · exact Or.inr ⟨rfl, rfl⟩

/-- **C84** (partial: not for the fields declared with `BIN`; not for a message with an optional section of less than
4 bytes; and the padding after the payload only if nothing in the payload is counted wrongly). -/
theorem C84_partial [GoFloat F] (c : FacCfg) (s s' : Fac F) (m : Message F) (bs : List UInt8) (q : Int) (e : Nat)
    (hc : c.inputType = .binary) (hs : s.r = .bin ⟨BitReader.bitsOfBytes bs, 8 * q⟩)
    (h : Runtime.run c s = (.ok m, s')) (he : fieldValue m 0 "bufrEditionNumber" = some (.uint e))
    (h2 : ∀ L, fieldValue m 2 "lengthInBytes" = some (.uint L) → 4 ≤ L) :
    ∀ sec ∈ m.sections, (4 ≤ sec.number → ∀ p, payloadOf m = some p → GoodPayload p) →
      FieldsAt (isDefinedBits e sec.number.toNat) (BitReader.bitsOfBytes bs) (8 * q) (8 * sec.startByteIndex) sec.fields := by
  obtain ⟨pre, ds, r, hds, hsync, hpos, t, rfl, -⟩ := run_trace_bytes hs h
  obtain ⟨k0, k1, k2, k3, k4, -, k5⟩ := t.at (P := isDefinedBits e) hc hds (allTyped_bits (trace_edition hs h hds he)) hsync
    hpos fun hp => h2 _ (t.length2 hp)
  intro sec hsec hgood
  rcases t.mem_sections.1 hsec with rfl | rfl | ⟨hp, rfl⟩ | rfl | rfl | rfl
  · exact k0
  · exact k1
  · exact k2 hp
  · exact k3
  · exact (k5 (hgood (Int.le_refl 4) _ t.payloadOf_eq)).1
  · exact (k5 (hgood (by show (4 : Int) ≤ 5; decide) _ t.payloadOf_eq)).2.1

/-- How C84 fails: in every message that is decoded from bytes, the fields declared with `BIN` are numbers. -/
theorem C84_numbers [GoFloat F] (c : FacCfg) (s s' : Fac F) (m : Message F) (bs : List UInt8) (q : Int) (e : Nat)
    (hs : s.r = .bin ⟨BitReader.bitsOfBytes bs, 8 * q⟩)
    (h : Runtime.run c s = (.ok m, s')) (he : fieldValue m 0 "bufrEditionNumber" = some (.uint e))
    (n : Nat) (name : String) (hn : (n, name) ∈ undefinedType e) : ∃ i, fieldValue m n name = some (.int i) := by
  obtain ⟨pre, ds, r, hds, hsync, hpos, t, rfl, -⟩ := run_trace_bytes hs h
  have hed := trace_edition hs h hds he
  have key : ∀ {r r' : Reader F} {x : Nat} {fs : List (Field F)} {ds : List FieldDecl} (w : Int)
      (_ : ReadFields r (lengthDecl :: ds) (lengthOf x :: fs) r'),
      ((lengthDecl :: ds).map fun x => str x.name).Nodup → (⟨name, Script.BIN, w, false⟩ : FieldDecl) ∈ lengthDecl :: ds →
      ∀ more, ∃ i, valueIn (lengthOf x :: fs ++ more) name = some (.int i) := by
    intro r r' x fs ds w h hnd hd more
    obtain ⟨v, r1, r2, k1, k2, -⟩ := h.lookup hnd hd
    replace k1 : Fac.readValue DataType.INT w r1 = _ := k1
    unfold Fac.readValue at k1
    rw [if_neg (by decide), if_pos rfl] at k1
    obtain ⟨i, r3, -, k3⟩ := M.bind_eq_ok.1 k1
    cases k3
    exact ⟨i, k2 more⟩
  have h3 : (3, name) ∈ [(3, "reservedBits"), (3, "flagBits")] → ∃ i, fieldValue t.message 3 name = some (.int i) := by
    intro hn
    rw [t.fieldValue_eq t.find3]
    simp only [List.mem_cons, List.not_mem_nil, or_false, Prod.mk.injEq, true_and] at hn
    show ∃ i, valueIn (lengthOf t.L3 :: t.fs3 ++ [templateField t.ids] ++ t.pad3) name = _
    rw [List.append_assoc]
    rcases hn with rfl | rfl
    · exact key 8 t.h3 (by decide) (by decide) _
    · exact key 6 t.h3 (by decide) (by decide) _
  simp only [undefinedType, List.mem_append, List.mem_cons, List.not_mem_nil, or_false, Prod.mk.injEq] at hn
  rcases hn with (⟨rfl, rfl⟩ | ⟨rfl, rfl⟩ | ⟨rfl, rfl⟩) | hn
  · exact h3 (by decide)
  · exact h3 (by decide)
  · rw [t.fieldValue_eq t.find4]
    show ∃ i, valueIn (lengthOf t.L4 :: t.fs4 ++ [payloadField t.p (t.r4''.pos - t.r4'.pos)] ++ t.pad4) _ = _
    rw [List.append_assoc]
    exact key 8 t.h4 (by decide) (by decide) _
  · split at hn
    · simp only [List.mem_cons, List.not_mem_nil, or_false, Prod.mk.injEq] at hn
      obtain ⟨rfl, rfl⟩ := hn
      rw [t.fieldValue_eq t.find1]
      have hds3 : ds = Script.fields1Edition3 := by
        rcases hed with ⟨-, h⟩ | ⟨h, -⟩
        · exact h
        · omega
      subst hds3
      exact key 7 t.h1 (by decide) (by decide) _
    · cases hn

open MessageExample HeaderExample in
/-- The example message of edition 3 again: the hypotheses of both theorems hold, and four fields are numbers. -/
example : ∃ m s', Runtime.run cfg (input (body3 ++ stop)) = (.ok m, s') ∧
    (∀ sec ∈ m.sections, FieldsAt (isDefinedBits 3 sec.number.toNat) (BitReader.bitsOfBytes (body3 ++ stop)) (8 * 0)
      (8 * sec.startByteIndex) sec.fields) ∧
    (undefinedType 3).length = 4 ∧ ∀ x ∈ undefinedType 3, ∃ i, fieldValue m x.1 x.2 = some (.int i) := by
  obtain ⟨m, hm⟩ := isOk_eq run3
  have k : (match (Runtime.run cfg (input (body3 ++ stop))).1 with
      | .ok m => decide (fieldValue m 0 "bufrEditionNumber" = some (.uint 3) ∧
          fieldValue m 2 "lengthInBytes" = some (.uint 6) ∧ (payloadOf m).map allGood = some true)
      | _ => false) = true := by decide +kernel
  rw [hm] at k
  obtain ⟨k1, k2, k3⟩ := of_decide_eq_true k
  refine ⟨m, _, eq_of_fst hm, fun sec hsec => C84_partial cfg _ _ m _ 0 3 rfl rfl (eq_of_fst hm) k1 ?_ sec hsec ?_, rfl,
    fun x hx => C84_numbers cfg _ _ m _ 0 3 rfl (eq_of_fst hm) k1 x.1 x.2 hx⟩
  · intro L hL
    rw [k2] at hL
    cases hL
    decide
  · intro _ p hp
    rw [hp] at k3
    exact good_of (Option.some.inj k3)

/-! ## C86: the data section belongs to its own header -/

theorem addSubsets_compressed (heap : Heap F) (root : NodeId) (cells : Cells F) (p : Payload F) :
    (Vis.addSubsets heap root cells p).compressed = p.compressed := by
  cases cells with
  | flat cs => rfl
  | tissues ts =>
    unfold Vis.addSubsets
    dsimp only
    induction ts generalizing p with
    | nil => rfl
    | cons t ts ih => rw [List.foldl_cons, ih]; rfl

theorem decodeSubsets_compressed [GoFloat F] {vc : VisCfg} {tree : Ast} : ∀ (k : Nat) (p0 p : Payload F) (v v' : Vis F),
    Vis.decodeSubsets vc tree k p0 v = (.ok p, v') → p.compressed = p0.compressed
  | 0, p0, p, v, v', h => by cases h; rfl
  | k + 1, p0, p, v, v', h => by
    obtain ⟨s1, root, -, -, h3⟩ := decodeSubsets_succ.1 h
    rw [decodeSubsets_compressed k _ _ _ _ h3, addSubsets_compressed]

/-- The payload of the message is what decoding the template in section 3 (parsed with the tables named in
section 1) at the reader `r` yields for the number of subsets and the compression flag in section 3, with a
fresh visitor; it has as many subsets as section 3 says. -/
def DataDecodedAt [GoFloat F] (c : FacCfg) (m : Message F) (r : Reader F) : Prop :=
  ∃ (master centre subCentre version localVersion n : Nat) (compressed : Bool) (ids : List ID) (p : Payload F)
    (g : ChainGroup) (tree : Ast) (vc : VisCfg) (v' : Vis F),
    fieldValue m 1 "masterTableNumber" = some (.uint master) ∧
    fieldValue m 1 "originatingCentre" = some (.uint centre) ∧
    fieldValue m 1 "originatingSubCentre" = some (.uint subCentre) ∧
    fieldValue m 1 "masterTableVersion" = some (.uint version) ∧
    fieldValue m 1 "localTableVersion" = some (.uint localVersion) ∧
    fieldValue m 3 "nSubsets" = some (.uint n) ∧ fieldValue m 3 "isCompressed" = some (.bool compressed) ∧
    templateOf m = some ids ∧ payloadOf m = some p ∧
    addLocalAndWmoTableGroups c.tables master centre subCentre version localVersion ⟨[]⟩ = (.ok (), g) ∧
    parse g.lookup c.fuel ids = .ok tree ∧
    newDeserializeVisitor c.fuel compressed c.inputType c.compatible n = .ok vc ∧
    Vis.decodeSubsets vc tree (if compressed = true ∧ c.inputType = .binary then 1 else n) { compressed := compressed }
      (Fac.freshVis r) = (.ok p, v') ∧
    p.compressed = compressed ∧ p.subsets.length = n

theorem Trace.data [GoFloat F] {c : FacCfg} {ds : List FieldDecl} {r : Reader F} (t : Trace c ds r) :
    DataDecodedAt c t.message t.r4' := by
  obtain ⟨tree, vc, v', h1, h2, h3, -⟩ := t.hp
  have hk : (if t.compressed = true ∧ c.inputType = .binary then 1 else (t.nSubsets : Int)).toNat =
      if t.compressed = true ∧ c.inputType = .binary then 1 else t.nSubsets := by
    split <;> simp
  rw [hk] at h3
  obtain ⟨ns, f', rfl, _⟩ := parse_ok_iff.1 h1
  have hns := parse_noBase (good_chain t.g) ⟨c.fuel, h1⟩
  have hvc : Flat.CfgOk vc ∧ vc.inputType = c.inputType ∧ vc.compressed = t.compressed ∧ vc.nsubsets = t.nSubsets := by
    have h6 := h2
    unfold newDeserializeVisitor at h2
    cases hu : newUnpacker c.fuel t.nSubsets t.compressed c.inputType with
    | ok u =>
      rw [hu] at h2
      cases h2
      exact ⟨⟨c.fuel, h6⟩, rfl, rfl, rfl⟩
    | err e => rw [hu] at h2; cases h2
    | panic w => rw [hu] at h2; cases h2
    | diverge => rw [hu] at h2; cases h2
  obtain ⟨v1, v2, v3, v4⟩ := hvc
  have hshape : t.p.compressed = t.compressed ∧ t.p.subsets.length = t.nSubsets := by
    by_cases hcomp : t.compressed = true ∧ c.inputType = .binary
    · rw [if_pos hcomp] at h3
      obtain ⟨k1, -, -⟩ := C50_shape v1 (by rw [v2, v3]; exact hcomp) hns _ _ _ _ _ h3
      rw [v4] at k1
      exact ⟨decodeSubsets_compressed _ _ _ _ _ h3, by omega⟩
    · rw [if_neg hcomp] at h3
      obtain ⟨k1, k2, -⟩ := (C51_subsets v1 (by rw [v2, v3]; exact hcomp) hns _ _ _ _ _ _).1 ⟨v', h3, rfl⟩
      exact ⟨k1, k2⟩
  refine ⟨t.master, t.centre, t.subCentre, t.masterVersion, t.localVersion, t.nSubsets, t.compressed, t.ids, t.p, t.g, _, vc,
    v', ?_, ?_, ?_, ?_, ?_, ?_, ?_, t.templateOf_eq, t.payloadOf_eq, t.hg, h1, h2, h3, hshape⟩
  · rw [t.fieldValue_eq t.find1]; exact t.hmaster _
  · rw [t.fieldValue_eq t.find1]; exact t.hcentre _
  · rw [t.fieldValue_eq t.find1]; exact t.hsubCentre _
  · rw [t.fieldValue_eq t.find1]; exact t.hmasterVersion _
  · rw [t.fieldValue_eq t.find1]; exact t.hlocalVersion _
  · rw [t.fieldValue_eq t.find3]
    exact (congrArg (valueIn · _) (List.append_assoc _ _ _)).trans (t.hnSubsets _)
  · rw [t.fieldValue_eq t.find3]
    exact (congrArg (valueIn · _) (List.append_assoc _ _ _)).trans (t.hcompressed _)

/-- **C86**.  For every kind of input: the data section of a message that is decoded is decoded with the
template, number of subsets and compression flag of its own section 3 and the tables named in its own section 1. -/
theorem C86_data [GoFloat F] (c : FacCfg) (s s' : Fac F) (m : Message F) (h : Runtime.run c s = (.ok m, s')) :
    ∃ r, DataDecodedAt c m r := by
  obtain ⟨e, s1, s2, ds, -, -, hds, t, rfl, -⟩ := run_trace h
  exact ⟨t.r4', t.data⟩

/-- The start of a section, by its number. -/
def startOf (m : Message F) (n : Nat) : Option Int :=
  (m.sections.find? fun s => s.number = (n : Int)).map (·.startByteIndex)

/-- The reader of the bytes `bs`, the first of which has the index `q`, at the bit with the position `pos`. -/
def readerAt (F : Type) (bs : List UInt8) (q pos : Int) : Reader F :=
  .bin ⟨(BitReader.bitsOfBytes bs).drop (pos - 8 * q).toNat, pos⟩

theorem Sync.readerAt {bs : List UInt8} {q : Int} {r : Reader F} (h : Sync (BitReader.bitsOfBytes bs) (8 * q) r) :
    r = readerAt F bs q r.pos := by
  obtain ⟨pre, rest, rfl, h⟩ := h
  unfold Gobufr.readerAt
  rw [h]
  have : (Reader.pos (F := F) (.bin ⟨rest, 8 * q + pre.length⟩) - 8 * q).toNat = pre.length := by
    show (8 * q + pre.length - 8 * q).toNat = _
    omega
  rw [this, List.drop_left]
  rfl

/-- **C86** (the place).  For bytes, unless there is an optional section of less than 4 bytes: the data are the bits from
the fifth byte of section 4 on.  Missing: that exception, for which it is false (`C86_violates`). -/
theorem C86_place_partial [GoFloat F] (c : FacCfg) (s s' : Fac F) (m : Message F) (bs : List UInt8) (q : Int)
    (hc : c.inputType = .binary) (hs : s.r = .bin ⟨BitReader.bitsOfBytes bs, 8 * q⟩)
    (h : Runtime.run c s = (.ok m, s'))
    (h2 : ∀ L, fieldValue m 2 "lengthInBytes" = some (.uint L) → 4 ≤ L) :
    ∃ start, startOf m 4 = some start ∧ DataDecodedAt c m (readerAt F bs q (8 * (start + 4))) := by
  obtain ⟨pre, ds, r, hds, hsync, hpos, t, rfl, -⟩ := run_trace_bytes hs h
  obtain ⟨-, -, -, -, -, ⟨k1, k2⟩, -⟩ := t.at (P := fun _ => isPlain) hc hds (allTyped_plain hds) hsync hpos
    fun hp => h2 _ (t.length2 hp)
  refine ⟨t.sec4.startByteIndex, by unfold startOf; rw [t.find4]; rfl, ?_⟩
  have := k1.readerAt
  rw [k2] at this
  rw [show 8 * (t.sec4.startByteIndex + 4) = 8 * t.sec4.startByteIndex + 32 by omega, ← this]
  exact t.data

/-- **C86** in full, for bytes. -/
def C86_statement (F : Type) [GoFloat F] : Prop :=
  ∀ (c : FacCfg) (s s' : Fac F) (m : Message F) (bs : List UInt8) (q : Int), c.inputType = .binary →
    s.r = .bin ⟨BitReader.bitsOfBytes bs, 8 * q⟩ → Runtime.run c s = (.ok m, s') →
    ∃ start, startOf m 4 = some start ∧ DataDecodedAt c m (readerAt F bs q (8 * (start + 4)))

open MessageExample HeaderExample in
/-- The code violates C86: after an optional section that says it has 3 bytes, the place recorded for section 4 is one
byte too early, and decoding at the fifth byte from there gives other values. -/
theorem C86_violates : ¬ C86_statement ToyFloat := by
  intro h
  have hok : (Runtime.run cfg (input shortOptional)).1.isOk = true := by decide +kernel
  obtain ⟨m, hm⟩ := isOk_eq hok
  obtain ⟨start, h0, ma, ce, sc, ve, lv, n, co, ids, p, g, tree, vc, v', h1, h2, h3, h4, h5, h6, h7, h8, h9, h10, h11, h12, h13, -⟩ :=
    h cfg _ _ m shortOptional 0 rfl rfl (eq_of_fst hm)
  have k : (match (Runtime.run cfg (input shortOptional)).1 with
      | .ok m =>
        match startOf m 4, fieldValue m 1 "masterTableNumber", fieldValue m 1 "originatingCentre",
          fieldValue m 1 "originatingSubCentre", fieldValue m 1 "masterTableVersion", fieldValue m 1 "localTableVersion",
          fieldValue m 3 "nSubsets", fieldValue m 3 "isCompressed", templateOf m, payloadOf m with
        | some start, some (.uint ma), some (.uint ce), some (.uint sc), some (.uint ve), some (.uint lv), some (.uint n),
          some (.bool co), some ids, some p =>
          match addLocalAndWmoTableGroups cfg.tables ma ce sc ve lv ⟨[]⟩ with
          | (.ok (), g) =>
            match parse g.lookup cfg.fuel ids, newDeserializeVisitor cfg.fuel co cfg.inputType cfg.compatible n with
            | .ok tree, .ok vc =>
              match (Vis.decodeSubsets vc tree (if co = true ∧ cfg.inputType = .binary then 1 else n) { compressed := co }
                (Fac.freshVis (readerAt ToyFloat shortOptional 0 (8 * (start + 4))))).1 with
              | .ok p' => decide (p'.subsets.map (·.cells) ≠ p.subsets.map (·.cells))
              | _ => true
            | _, _ => false
          | _ => false
        | _, _, _, _, _, _, _, _, _, _ => false
      | _ => false) = true := by decide +kernel
  rw [hm] at k
  simp only [h0, h1, h2, h3, h4, h5, h6, h7, h8, h9, h10, h11, h12, h13] at k
  exact absurd rfl (of_decide_eq_true k)

open MessageExample in
/-- The example message of edition 3 says two subsets of the template 012001, not compressed, and has them. -/
example : ∃ m s' p, Runtime.run cfg (input (body3 ++ stop)) = (.ok m, s') ∧
    fieldValue m 3 "nSubsets" = some (.uint 2) ∧ fieldValue m 3 "isCompressed" = some (.bool false) ∧
    templateOf m = some [12001] ∧ payloadOf m = some p ∧ p.subsets.length = 2 := by
  obtain ⟨m, hm⟩ := isOk_eq run3
  have k : (match (Runtime.run cfg (input (body3 ++ stop))).1 with
      | .ok m => decide (fieldValue m 3 "nSubsets" = some (.uint 2) ∧ fieldValue m 3 "isCompressed" = some (.bool false) ∧
          templateOf m = some [12001] ∧ fieldValue m 2 "lengthInBytes" = some (.uint 6))
      | _ => false) = true := by decide +kernel
  rw [hm] at k
  obtain ⟨k1, k2, k3, k4⟩ := of_decide_eq_true k
  obtain ⟨start, -, _, _, _, _, _, n, comp, ids, p, _, _, _, _, -, -, -, -, -, h1, h2, h3, h4, -, -, -, -, -, h5⟩ :=
    C86_place_partial cfg _ _ m _ 0 rfl rfl (eq_of_fst hm) (by
      intro L hL
      rw [k4] at hL
      cases hL
      decide)
  rw [k1] at h1
  cases h1
  exact ⟨m, _, p, eq_of_fst hm, k1, k2, k3, h4, h5⟩

/-! ## C87: the length of a message -/

/-- **C87**, as it should be: a message that is decoded is as long as section 0 says. -/
def C87_statement (F : Type) [GoFloat F] : Prop :=
  ∀ (c : FacCfg) (s s' : Fac F) (m : Message F) (bs : List UInt8) (q : Int) (T : Nat), c.inputType = .binary →
    s.r = .bin ⟨BitReader.bitsOfBytes bs, 8 * q⟩ → Runtime.run c s = (.ok m, s') →
    fieldValue m 0 "totalLengthInBytes" = some (.uint T) →
    ∃ start, startOf m 0 = some start ∧ s'.r.pos = 8 * (start + T)

open MessageExample in
/-- C87 is violated: nobody looks at the total length. -/
theorem C87_violates : ¬ C87_statement ToyFloat := by
  intro h
  have hok : (Runtime.run cfg (input (body3 ++ stop))).1.isOk = true := run3
  obtain ⟨m, hm⟩ := isOk_eq hok
  have k : (match Runtime.run cfg (input ([0x42, 0x55, 0x46, 0x52, 0, 0, 99, 3] ++ body3.drop 8 ++ stop)) with
      | (.ok m, s') => decide (fieldValue m 0 "totalLengthInBytes" = some (.uint 99) ∧ startOf m 0 = some 0 ∧
          s'.r.pos = 432)
      | _ => false) = true := by decide +kernel
  generalize hr : Runtime.run cfg (input ([0x42, 0x55, 0x46, 0x52, 0, 0, 99, 3] ++ body3.drop 8 ++ stop)) = x at k
  match x, hr, k with
  | (.ok m, s'), hr, k =>
    obtain ⟨k1, k2, k3⟩ := of_decide_eq_true k
    obtain ⟨start, h1, h2⟩ := h cfg _ _ m _ 0 99 rfl rfl hr k1
    rw [k2] at h1
    cases h1
    omega
  | (.err _, _), _, k => cases k
  | (.panic _, _), _, k => cases k
  | (.diverge, _), _, k => cases k

/-- **C87** (partial: by the lengths of the sections, not by the total length).  The sections lie end to end: section 0 has
8 bytes, sections 1 to 4 as many as they say, section 5 has 4; and there the message ends.
The input goes on there, unless something in the payload or the optional section is counted wrongly. -/
theorem C87_sections_partial [GoFloat F] (c : FacCfg) (s s' : Fac F) (m : Message F) (bs : List UInt8) (q : Int)
    (hc : c.inputType = .binary) (hs : s.r = .bin ⟨BitReader.bitsOfBytes bs, 8 * q⟩)
    (h : Runtime.run c s = (.ok m, s')) :
    ∃ (start : Int) (L1 L2 L3 L4 : Nat), q ≤ start ∧
      fieldValue m 1 "lengthInBytes" = some (.uint L1) ∧
      (fieldValue m 2 "lengthInBytes" = some (.uint L2) ∧ startOf m 2 = some (start + 8 + L1) ∨
        startOf m 2 = none ∧ L2 = 0) ∧
      fieldValue m 3 "lengthInBytes" = some (.uint L3) ∧ fieldValue m 4 "lengthInBytes" = some (.uint L4) ∧
      startOf m 0 = some start ∧ startOf m 1 = some (start + 8) ∧
      startOf m 3 = some (start + 8 + L1 + L2) ∧ startOf m 4 = some (start + 8 + L1 + L2 + L3) ∧
      startOf m 5 = some (start + 8 + L1 + L2 + L3 + L4) ∧
      s'.r.pos = 8 * (start + 8 + L1 + L2 + L3 + L4 + 4) ∧
      ((startOf m 2 = none ∨ 4 ≤ L2) → (∀ p, payloadOf m = some p → GoodPayload p) →
        s'.r = readerAt F bs q (8 * (start + 8 + L1 + L2 + L3 + L4 + 4))) := by
  obtain ⟨pre, ds, r, hds, hsync, hpos, t, rfl, hr⟩ := run_trace_bytes hs h
  obtain ⟨k0, k1, k2, k3, k4, k5, k6⟩ := t.places hc hsync.isBin hpos
  have f0 : startOf t.message 0 = some t.sec0.startByteIndex := rfl
  have f1 : startOf t.message 1 = some t.sec1.startByteIndex := by unfold startOf; rw [t.find1]; rfl
  have f3 : startOf t.message 3 = some t.sec3.startByteIndex := by unfold startOf; rw [t.find3]; rfl
  have f4 : startOf t.message 4 = some t.sec4.startByteIndex := by unfold startOf; rw [t.find4]; rfl
  have f5 : startOf t.message 5 = some t.sec5.startByteIndex := by
    unfold startOf
    cases h : t.present <;>
      simp [Trace.message, Trace.sections, Trace.sec0, Trace.sec1, Trace.sec2, Trace.sec3, Trace.sec4, Trace.sec5, h]
  refine ⟨q + pre, t.L1, (if t.present then t.L2 else 0), t.L3, t.L4, ?_, t.length1, ?_, t.length3, t.length4, by rw [f0, k0],
    by rw [f1, k1], by rw [f3, k3], by rw [f4, k4], by rw [f5, k5], by rw [hr, k6], fun hL hg => ?_⟩
  · obtain ⟨a, b, h1, -⟩ := hsync
    rw [h1] at hpos
    have : 8 * q + a.length = 8 * (q + pre) := hpos
    omega
  · cases hp : t.present with
    | true =>
      left
      refine ⟨t.length2 hp, ?_⟩
      unfold startOf
      rw [t.find2 hp]
      exact congrArg some (k2 hp)
    | false =>
      right
      refine ⟨?_, rfl⟩
      unfold startOf
      simp [Trace.message, Trace.sections, Trace.sec0, Trace.sec1, Trace.sec3, Trace.sec4, Trace.sec5, hp]
  · obtain ⟨-, -, -, -, -, -, k7⟩ := t.at (P := fun _ => isPlain) hc hds (allTyped_plain hds) hsync hpos (by
      intro hp
      rcases hL with hL | hL
      · unfold startOf at hL
        rw [t.find2 hp] at hL
        cases hL
      · simpa [hp] using hL)
    have := (k7 (hg _ t.payloadOf_eq)).2.2.readerAt
    rw [k6] at this
    rw [hr, this]

open MessageExample in
/-- The example message of edition 3, behind two other bytes. -/
example : ∃ m s', Runtime.run cfg (input ([1, 2] ++ body3 ++ stop)) = (.ok m, s') ∧ startOf m 0 = some 2 ∧
    ∃ (start : Int) (L1 L2 L3 L4 : Nat), startOf m 5 = some (start + 8 + L1 + L2 + L3 + L4) ∧
      s'.r.pos = 8 * (start + 8 + L1 + L2 + L3 + L4 + 4) := by
  have k : (match Runtime.run cfg (input ([1, 2] ++ body3 ++ stop)) with
      | (.ok m, _) => decide (startOf m 0 = some 2)
      | _ => false) = true := by decide +kernel
  generalize hr : Runtime.run cfg (input ([1, 2] ++ body3 ++ stop)) = x at k
  match x, hr, k with
  | (.ok m, s'), hr, k =>
    obtain ⟨start, L1, L2, L3, L4, -, -, -, -, -, -, -, -, -, h5, h6, -⟩ :=
      C87_sections_partial cfg _ _ m _ 0 rfl rfl hr
    exact ⟨m, s', rfl, of_decide_eq_true k, start, L1, L2, L3, L4, h5, h6⟩
  | (.err _, _), _, k => cases k
  | (.panic _, _), _, k => cases k
  | (.diverge, _), _, k => cases k

end Gobufr
