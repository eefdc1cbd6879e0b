import Verif.Spec.Compose
import Verif.Proofs.Accept
import Verif.Props.Encode
import Verif.Props.BitIO

/-!
# Helper lemmas: a message that was composed is read
-/

namespace Gobufr
open Spec Layout

variable {F : Type}

/-- A field is read from its bits. -/
theorem readValue_fwd [GoFloat F] (dt : DataType) (n : Int) (h : (⟨"", dt, n, false⟩ : FieldDecl).nice) (l t : Bits) (p : Int)
    (hl : (l.length : Int) = n) :
    ∃ v : Val F, Fac.readValue dt n (.bin ⟨l ++ t, p⟩) = (.ok v, .bin ⟨t, p + n⟩) ∧ DenotesType dt l v := by
  have hn : l.length = n.toNat := by omega
  unfold Fac.readValue
  rcases h with ⟨h, h0, h1⟩ | ⟨h, h0⟩ | ⟨h, h0, h1⟩ | ⟨h, h0⟩ | ⟨h, h0⟩ <;> dsimp only at h h0 <;> subst h
  · refine ⟨.uint (bitsVal l), ?_, Or.inl ⟨rfl, rfl⟩⟩
    rw [if_pos rfl, M.bind_ok (Reader.readUint_bin n l t p hn)]
    have h2 := bitsVal_lt l
    have h3 : 2 ^ l.length ≤ two64 := by
      have : two64 = 2 ^ 64 := by decide
      rw [this]
      dsimp only at h1
      exact Nat.pow_le_pow_right (by decide) (by omega)
    rw [Nat.mod_eq_of_lt (by omega)]
    rfl
  · subst h0
    match l, hl with
    | [b], _ =>
      exact ⟨.bool b, rfl, Or.inr (Or.inl ⟨rfl, b, rfl, rfl⟩)⟩
  · dsimp only at h1
    have hk : l.length = 8 * (n.toNat / 8) := by omega
    obtain ⟨hb, hlen, -⟩ := bitsOfBytes_bytesOfBits _ l hk
    refine ⟨.bytes (BitReader.bytesOfBits l), ?_, Or.inr (Or.inr (Or.inl ⟨rfl, _, ?_, rfl⟩))⟩
    · rw [if_neg (by decide), if_neg (by decide), if_neg (by decide), if_neg (by decide), if_pos rfl]
      have h3 := Reader.readBytes_bin (F := F) (BitReader.bytesOfBits l) t p
      have h4 : (BitReader.bytesOfBits l).flatMap byteBits = l := hb
      have h5 : n.tdiv 8 = ((BitReader.bytesOfBits l).length : Int) := by
        rw [Int.tdiv_eq_ediv_of_nonneg h0]; omega
      rw [h4] at h3
      rw [h5, M.bind_ok h3]
      have : p + ((BitReader.bytesOfBits l).length : Int) * 8 = p + n := by omega
      rw [this]
      rfl
    · have h6 : (BitReader.bytesOfBits l).flatMap byteBits = l := hb
      rw [show (byteBits : UInt8 → _) = fun b => natBits 8 b.toNat from funext byteBits_natBits] at h6
      exact h6.symm
  · refine ⟨.binary (some ⟨packBits l, n⟩), ?_, Or.inr (Or.inr (Or.inr (Or.inl ⟨rfl, packBits l, packed_packBits l, by rw [hl]⟩)))⟩
    rw [if_neg (by decide), if_neg (by decide), if_neg (by decide), if_neg (by decide), if_neg (by decide), if_pos rfl,
      M.bind_ok (Reader.readBinary_bin n l t p hn)]
    rfl
  · match l, hl, hn with
    | b :: l, hl, hn =>
      obtain ⟨i, hi⟩ : ∃ i, (Reader.readInt n (.bin ⟨b :: l ++ t, p⟩) : Outcome Int × Reader F) = (.ok i, .bin ⟨t, p + n⟩) :=
        ⟨_, Reader.readInt_bin n b l t p (by simp at hn; omega)⟩
      refine ⟨.int i, ?_, Or.inr (Or.inr (Or.inr (Or.inr ⟨rfl, i, rfl⟩)))⟩
      rw [if_neg (by decide), if_pos rfl, M.bind_ok hi]
      rfl
    | [], hl, _ => simp at hl; omega

/-- The bits of declared fields. -/
def declBits (v : String → Nat) (ds : List FieldDecl) : List Bool := ds.flatMap fun d => natBits d.nbits.toNat (v d.name)

theorem declBits_shape (v : String → Nat) (ds : List FieldDecl) : declBits v ds = headBits v (ds.map FieldDecl.shape) := by
  induction ds with
  | nil => rfl
  | cons d ds ih =>
    simp only [declBits, headBits, List.map_cons, List.flatMap_cons] at ih ⊢
    rw [ih]
    rfl

def FieldDecl.sized (d : FieldDecl) : Prop := (⟨"", d.dataType, d.nbits, false⟩ : FieldDecl).nice

instance (d : FieldDecl) : Decidable d.sized := by unfold FieldDecl.sized; infer_instance

theorem FieldDecl.sized_nonneg {d : FieldDecl} (h : d.sized) : 0 ≤ d.nbits := by
  rcases h with ⟨_, h, _⟩ | ⟨_, h⟩ | ⟨_, h, _⟩ | ⟨_, h⟩ | ⟨_, h⟩ <;> dsimp only at h <;> omega

/-- What the fields hold. -/
def Filled (v : String → Nat) (ds : List FieldDecl) (fs : List (Field F)) : Prop :=
  ∀ d ∈ ds, ∃ x, DenotesType d.dataType (natBits d.nbits.toNat (v d.name)) x ∧ ∀ more, valueIn (fs ++ more) d.name = some x

theorem readFields_fwd [GoFloat F] (v : String → Nat) : ∀ (ds : List FieldDecl), (∀ d ∈ ds, d.sized) →
    (ds.map fun x => str x.name).Nodup → ∀ (t : Bits) (p : Int),
    ∃ fs : List (Field F), ReadFields (.bin ⟨declBits v ds ++ t, p⟩) ds fs (.bin ⟨t, p + (declBits v ds).length⟩) ∧ Filled v ds fs
  | [], _, _, t, p => ⟨[], by simpa [declBits] using ReadFields.nil _, by simp [Filled]⟩
  | d :: ds, hs, hnd, t, p => by
    have h0 := FieldDecl.sized_nonneg (hs d (by simp))
    obtain ⟨x, h1, h2⟩ := readValue_fwd (F := F) d.dataType d.nbits (hs d (by simp)) (natBits d.nbits.toNat (v d.name))
      (declBits v ds ++ t) p (by simp; omega)
    obtain ⟨fs, h3, h4⟩ := readFields_fwd v ds (fun y hy => hs y (by simp [hy])) (List.nodup_cons.1 hnd).2 t (p + d.nbits)
    refine ⟨d.field x :: fs, ?_, ?_⟩
    · have e1 : declBits v (d :: ds) ++ t = natBits d.nbits.toNat (v d.name) ++ (declBits v ds ++ t) := by
        simp [declBits]
      have e2 : p + ((declBits v (d :: ds)).length : Int) = p + d.nbits + (declBits v ds).length := by
        simp [declBits]; omega
      rw [e1, e2]
      exact .cons h1 h3
    · intro y hy
      rcases List.mem_cons.1 hy with rfl | hy
      · exact ⟨x, h2, fun more => by simp [valueIn, FieldDecl.field]⟩
      · obtain ⟨z, k1, k2⟩ := h4 y hy
        refine ⟨z, k1, fun more => ?_⟩
        have hne : str d.name ≠ str y.name := by
          intro he
          exact (List.nodup_cons.1 hnd).1 (List.mem_map.2 ⟨y, hy, he.symm⟩)
        rw [← k2 more]
        simp [valueIn, FieldDecl.field, hne]

theorem bitsVal_natBits_lt {n w : Nat} (h : n < 2 ^ w) : bitsVal (natBits w n) = n := by
  rw [bitsVal_natBits, Nat.mod_eq_of_lt h]

theorem Filled.uint {v : String → Nat} {ds : List FieldDecl} {fs : List (Field F)} (h : Filled v ds fs) {d : FieldDecl}
    (hd : d ∈ ds) (ht : d.dataType = DataType.UINT) (hv : v d.name < 2 ^ d.nbits.toNat) :
    ∀ more, valueIn (fs ++ more) d.name = some (.uint (v d.name)) := by
  obtain ⟨x, h1, h2⟩ := h d hd
  rcases h1 with ⟨_, h1⟩ | ⟨h1, _⟩ | ⟨h1, _⟩ | ⟨h1, _⟩ | ⟨h1, _⟩
  · intro more
    rw [h2, show x = _ from h1, bitsVal_natBits_lt hv]
  all_goals exact absurd (ht.symm.trans h1) (by decide)

theorem Filled.bool {v : String → Nat} {ds : List FieldDecl} {fs : List (Field F)} (h : Filled v ds fs) {d : FieldDecl}
    (hd : d ∈ ds) (ht : d.dataType = DataType.BOOL) (hn : d.nbits = 1) :
    ∀ b : Bool, v d.name = (if b then 1 else 0) → ∀ more, valueIn (fs ++ more) d.name = some (.bool b) := by
  obtain ⟨x, h1, h2⟩ := h d hd
  intro b hb more
  rcases h1 with ⟨h1, _⟩ | ⟨_, h1⟩ | ⟨h1, _⟩ | ⟨h1, _⟩ | ⟨h1, _⟩
  case inr.inl =>
    obtain ⟨b', h3, h4⟩ := h1
    rw [hn, hb] at h3
    rw [h2, h4]
    cases b <;> cases b' <;> first | rfl | exact absurd h3 (by decide)
  all_goals exact absurd (ht.symm.trans h1) (by decide)

/-- The fields of a section with a length. -/
theorem opening_fwd [GoFloat F] (v : String → Nat) (ds : List FieldDecl) (hs : ∀ d ∈ lengthDecl :: ds, d.sized)
    (hnd : ((lengthDecl :: ds).map fun x => str x.name).Nodup) (hL : v "lengthInBytes" < 2 ^ 24) (t : Bits) (p : Int) :
    ∃ fs : List (Field F), ReadFields (.bin ⟨declBits v (lengthDecl :: ds) ++ t, p⟩) (lengthDecl :: ds)
        (lengthOf (v "lengthInBytes") :: fs) (.bin ⟨t, p + (declBits v (lengthDecl :: ds)).length⟩) ∧
      Filled v (lengthDecl :: ds) (lengthOf (v "lengthInBytes") :: fs) := by
  obtain ⟨fs, h1, h2⟩ := readFields_fwd (F := F) v (lengthDecl :: ds) hs hnd t p
  have h3 := h2.uint (d := lengthDecl) (by simp) rfl hL []
  generalize hds : lengthDecl :: ds = ds' at h1
  generalize hr : (Reader.bin ⟨t, p + (declBits v ds').length⟩ : Reader F) = r' at h1
  cases h1 with
  | nil => cases hds
  | @cons _ _ _ d ds2 fs x k1 k2 =>
    cases hds
    have : x = .uint (v "lengthInBytes") := by
      simpa [valueIn, FieldDecl.field, lengthDecl] using h3
    subst this
    exact ⟨fs, .cons k1 k2, h2⟩

/-- The padding of a section. -/
theorem pads_fwd (L : Nat) (b : Int) (pad t : Bits) (p : Int) (h : (L : Int) * 8 = p - b * 8 + pad.length) :
    ∃ (fs : List (Field F)) (n : Int), Pads L b (.bin ⟨pad ++ t, p⟩) fs n (.bin ⟨t, p + pad.length⟩) := by
  by_cases hp : pad = []
  · subst hp
    refine ⟨[], 0, Or.inl ⟨by show _ = p - _; simpa using h, rfl, rfl, by simp⟩⟩
  · refine ⟨_, pad.length, Or.inr ⟨?_, h, ⟨packBits pad, pad.length⟩, rfl, Reader.readBinary_bin _ pad t p (by simp)⟩⟩
    have := List.length_pos_iff.2 hp
    omega

theorem ReadFields.snoc [GoFloat F] {r r1 r2 : Reader F} {ds : List FieldDecl} {fs : List (Field F)} {d : FieldDecl} {v : Val F}
    (h : ReadFields r ds fs r1) (h1 : Fac.readValue d.dataType d.nbits r1 = (.ok v, r2)) :
    ReadFields r (ds ++ [d]) (fs ++ [d.field v]) r2 := by
  induction h with
  | nil r => exact .cons h1 (.nil _)
  | cons k1 k2 ih => exact .cons k1 (ih h1)

theorem headBits_free (v : String → Nat) (fs : List FieldShape) (name : String) :
    headBits v (fs ++ [free name]) = headBits v fs := by
  simp [headBits, free]

/-- The fields of section 1 of an edition. -/
def editionDecls (e : Nat) : List FieldDecl := if e = 4 then Script.fields1Edition4 else Script.fields1Edition3

theorem editionDecls_edition (e : Nat) : IsEdition (editionDecls e) := by
  unfold editionDecls
  split
  · exact Or.inr rfl
  · exact Or.inl rfl

def reserved2 : List FieldDecl := [⟨"reservedBits", DataType.BINARY, 8, false⟩]
def reserved4 : List FieldDecl := [⟨"reservedBits", Script.BIN, 8, false⟩]
def stop5 : List FieldDecl := [⟨"stopSignature", DataType.BYTES, 32, false⟩]

/-- The bits of the sections, with the declarations of the scripts. -/
def _root_.Spec.Draft.head0 (d : Draft) : Bits := declBits (d.head 0) Script.fields0
def _root_.Spec.Draft.head1 (d : Draft) : Bits := declBits (d.head 1) (lengthDecl :: editionDecls d.edition)
def _root_.Spec.Draft.head2 (d : Draft) : Bits := declBits (d.head 2) (lengthDecl :: reserved2)
def _root_.Spec.Draft.head3 (d : Draft) : Bits := declBits (d.head 3) (lengthDecl :: Script.fields3)
def _root_.Spec.Draft.head4 (d : Draft) : Bits := declBits (d.head 4) (lengthDecl :: reserved4)
def _root_.Spec.Draft.head5 (d : Draft) : Bits := declBits (d.head 5) stop5
def _root_.Spec.Draft.ids (d : Draft) : Bits := d.descriptors.flatMap (descriptorBits 2 6 8)
def _root_.Spec.Draft.bits2 (d : Draft) : Bits := match d.locals with
  | some l => d.head2 ++ l
  | none => []

theorem part0 (d : Draft) : d.part indicator = d.head0 := by
  show headBits _ _ ++ [] = _
  rw [List.append_nil, Draft.head0, declBits_shape]
  rfl

theorem part1 (d : Draft) : d.part (if d.edition = 4 then identification4 else identification3) = d.head1 ++ d.pad1 := by
  unfold Draft.head1 editionDecls Draft.part
  rw [declBits_shape]
  split <;> rfl

theorem part2 (d : Draft) : d.part optional = d.head2 ++ d.locals.getD [] := by
  unfold Draft.head2 Draft.part
  rw [declBits_shape, ← headBits_free _ _ "localBits"]
  rfl

theorem part3 (d : Draft) : d.part description = d.head3 ++ (d.ids ++ d.pad3) := by
  unfold Draft.head3 Draft.part
  rw [declBits_shape, ← headBits_free _ _ "unexpandedTemplate"]
  rfl

theorem part4 (d : Draft) : d.part data = d.head4 ++ (d.data ++ d.pad4) := by
  unfold Draft.head4 Draft.part
  rw [declBits_shape, ← headBits_free _ _ "payload"]
  rfl

theorem part5 (d : Draft) : d.part ending = d.head5 := by
  show headBits _ _ ++ [] = _
  rw [List.append_nil, Draft.head5, declBits_shape]
  rfl

theorem draft_bits (d : Draft) : d.bits = d.head0 ++ (d.head1 ++ d.pad1 ++ (d.bits2 ++ (d.head3 ++ (d.ids ++ d.pad3) ++
    (d.head4 ++ (d.data ++ d.pad4) ++ d.head5)))) := by
  unfold Draft.bits Draft.sections Layout.sections Draft.bits2
  cases h : d.locals with
  | none => simp [part0, part1, part3, part4, part5]
  | some l => simp [part0, part1, part2, part3, part4, part5, h]

/-- A reader at the beginning of a section. -/
theorem tdiv_bin (l : Bits) (q : Int) : (Reader.bin ⟨l, 8 * q⟩ : Reader F).pos.tdiv 8 = q :=
  Int.mul_tdiv_cancel_left _ (by decide)

theorem declBits_length (v : String → Nat) (ds : List FieldDecl) : (declBits v ds).length = (ds.map fun d => d.nbits.toNat).sum := by
  induction ds with
  | nil => rfl
  | cons d ds ih =>
    simp only [declBits, List.flatMap_cons, List.length_append, List.map_cons, List.sum_cons, natBits_length] at ih ⊢
    rw [ih]

theorem ids_length (ds : List (Nat × Nat × Nat)) : (ds.flatMap (descriptorBits 2 6 8)).length = 16 * ds.length := by
  induction ds with
  | nil => rfl
  | cons d ds ih => simp [descriptorBits, ih]; omega

/-- What a draft is read as. -/
structure Reads [GoFloat F] {c : FacCfg} (d : Draft) {r : Reader F} (t : Trace c (editionDecls d.edition) r) : Prop where
  ids : t.ids = d.descriptors.map descriptorNumber
  present : t.present = d.locals.isSome
  f0 : Filled (d.head 0) Script.fields0 t.fs0
  f1 : Filled (d.head 1) (lengthDecl :: editionDecls d.edition) (lengthOf t.L1 :: t.fs1)
  f2 : t.present = true → Filled (d.head 2) (lengthDecl :: reserved2) (lengthOf t.L2 :: t.fs2)
  f3 : Filled (d.head 3) (lengthDecl :: Script.fields3) (lengthOf t.L3 :: t.fs3)
  f4 : Filled (d.head 4) (lengthDecl :: reserved4) (lengthOf t.L4 :: t.fs4)
  f5 : Filled (d.head 5) stop5 t.fs5

theorem trace_of_draft [GoFloat F] (c : FacCfg) (d : Draft) (hd : d.Sound) (compressed : Bool)
    (hcomp : d.head 3 "isCompressed" = if compressed then 1 else 0) (g : ChainGroup)
    (hg : addLocalAndWmoTableGroups c.tables (d.head 1 "masterTableNumber") (d.head 1 "originatingCentre")
      (d.head 1 "originatingSubCentre") (d.head 1 "masterTableVersion") (d.head 1 "localTableVersion") ⟨[]⟩ = (.ok (), g))
    (P : Payload F → Prop)
    (hdec : ∀ t pos, ∃ p, DecodesAt c g.lookup (d.descriptors.map descriptorNumber) (d.head 3 "nSubsets") compressed
      (.bin ⟨d.data ++ t, pos⟩) p (.bin ⟨t, pos + d.data.length⟩) ∧ P p)
    (q : Int) (rest : Bits) :
    ∃ t : Trace c (editionDecls d.edition) (.bin ⟨d.bits ++ rest, 8 * q⟩), Reads d t ∧ P t.p ∧
      t.r6 = .bin ⟨rest, 8 * q + d.bits.length⟩ := by
  have he := editionDecls_edition d.edition
  have m1 : (if d.edition = 4 then identification4 else identification3) ∈ d.sections := by
    simp [Draft.sections, Layout.sections]
  have m3 : description ∈ d.sections := by simp [Draft.sections, Layout.sections]
  have m4 : data ∈ d.sections := by simp [Draft.sections, Layout.sections]
  have m2 : d.locals.isSome = true → optional ∈ d.sections := by intro h; simp [Draft.sections, Layout.sections, h]
  have n1 : (if d.edition = 4 then identification4 else identification3).number = 1 := by split <;> rfl
  have l1 : d.head 1 "lengthInBytes" * 8 = (d.head1 ++ d.pad1).length := by
    rw [← part1, ← n1]
    exact hd.lengths _ m1 (by split <;> decide)
  have l3 : d.head 3 "lengthInBytes" * 8 = (d.head3 ++ (d.ids ++ d.pad3)).length := by
    rw [← part3]; exact hd.lengths _ m3 (by decide)
  have l4 : d.head 4 "lengthInBytes" * 8 = (d.head4 ++ (d.data ++ d.pad4)).length := by
    rw [← part4]; exact hd.lengths _ m4 (by decide)
  have w1 : ∀ x ∈ lengthDecl :: editionDecls d.edition, d.head 1 x.name < 2 ^ x.nbits.toNat := by
    intro x hx
    have := hd.fits _ m1 x.shape (by
      have : (if d.edition = 4 then identification4 else identification3).fields =
        (lengthDecl :: editionDecls d.edition).map FieldDecl.shape := by unfold editionDecls; split <;> rfl
      rw [this]; exact List.mem_map_of_mem hx) x.nbits.toNat rfl
    rw [n1] at this
    exact this
  have w3 : ∀ x ∈ lengthDecl :: Script.fields3, d.head 3 x.name < 2 ^ x.nbits.toNat := by
    intro x hx
    exact hd.fits _ m3 x.shape (by
      have : description.fields = (lengthDecl :: Script.fields3).map FieldDecl.shape ++ [free "unexpandedTemplate"] := rfl
      rw [this]; exact List.mem_append_left _ (List.mem_map_of_mem hx)) x.nbits.toNat rfl
  have w4 : d.head 4 "lengthInBytes" < 2 ^ 24 := hd.fits _ m4 (fixed "lengthInBytes" 24) (by decide) 24 rfl
  have sized1 : ∀ x ∈ lengthDecl :: editionDecls d.edition, x.sized := by
    rcases he with h | h <;> rw [h] <;> decide
  have nodup1 : ((lengthDecl :: editionDecls d.edition).map fun x => str x.name).Nodup := by
    rcases he with h | h <;> rw [h] <;> decide
  have len0 : (d.head0.length : Int) = 64 := by
    have : d.head0.length = 64 := declBits_length _ _
    omega
  have len3 : d.head3.length = 56 := declBits_length _ _
  obtain ⟨T4, hT4⟩ : ∃ T4, T4 = d.head5 ++ rest := ⟨_, rfl⟩
  obtain ⟨T3, hT3⟩ : ∃ T3, T3 = d.head4 ++ (d.data ++ (d.pad4 ++ T4)) := ⟨_, rfl⟩
  obtain ⟨T2, hT2⟩ : ∃ T2, T2 = d.head3 ++ (d.ids ++ (d.pad3 ++ T3)) := ⟨_, rfl⟩
  obtain ⟨T1, hT1⟩ : ∃ T1, T1 = d.head1 ++ (d.pad1 ++ (d.bits2 ++ T2)) := ⟨_, rfl⟩
  have hsrc : d.bits ++ rest = d.head0 ++ T1 := by
    rw [draft_bits, hT1, hT2, hT3, hT4]
    simp only [List.append_assoc]
  rw [hsrc]
  -- section 0
  obtain ⟨fs0, h0, f0⟩ := readFields_fwd (F := F) (d.head 0) Script.fields0 (by decide) (by decide) T1 (8 * q)
  have e0 : 8 * q + ((declBits (d.head 0) Script.fields0).length : Int) = 8 * (q + 8) := by
    have : ((declBits (d.head 0) Script.fields0).length : Int) = 64 := len0
    omega
  rw [e0] at h0
  -- section 1
  obtain ⟨fs1, h1, f1⟩ := opening_fwd (F := F) (d.head 1) (editionDecls d.edition) sized1 nodup1
    (w1 lengthDecl (by simp)) (d.pad1 ++ (d.bits2 ++ T2)) (8 * (q + 8))
  have b1 : ((d.head 1 "lengthInBytes" : Nat) : Int) * 8 = d.head1.length + d.pad1.length := by
    rw [List.length_append] at l1
    omega
  obtain ⟨pad1, n1', p1⟩ := pads_fwd (F := F) (d.head 1 "lengthInBytes") ((Reader.bin ⟨T1, 8 * (q + 8)⟩ : Reader F).pos.tdiv 8)
    d.pad1 (d.bits2 ++ T2) (8 * (q + 8) + d.head1.length) (by rw [tdiv_bin]; omega)
  have e1 : 8 * (q + 8) + (d.head1.length : Int) + d.pad1.length = 8 * (q + 8 + (d.head 1 "lengthInBytes" : Nat)) := by omega
  rw [e1] at p1
  obtain ⟨q2, hq2⟩ : ∃ q2, q2 = q + 8 + ((d.head 1 "lengthInBytes" : Nat) : Int) := ⟨_, rfl⟩
  rw [← hq2] at p1
  -- section 2
  have s2 : ∃ (L2 : Nat) (fs2 : List (Field F)) (q3 : Int), (if d.locals.isSome = true then
      ReadFields (.bin ⟨d.bits2 ++ T2, 8 * q2⟩) (fields2 L2) (lengthOf L2 :: fs2) (.bin ⟨T2, 8 * q3⟩)
      else (Reader.bin ⟨T2, 8 * q3⟩ : Reader F) = .bin ⟨d.bits2 ++ T2, 8 * q2⟩) ∧
      (d.locals.isSome = true → Filled (d.head 2) (lengthDecl :: reserved2) (lengthOf L2 :: fs2)) ∧
      8 * q3 = 8 * q2 + d.bits2.length := by
    unfold Draft.bits2
    cases hl : d.locals with
    | none => exact ⟨0, [], q2, by simp, by simp, by simp⟩
    | some l =>
      have m2 := m2 (by simp [hl])
      have l2 := hd.lengths _ m2 (by decide)
      have w2 : d.head 2 "lengthInBytes" < 2 ^ 24 := hd.fits _ m2 (fixed "lengthInBytes" 24) (by decide) 24 rfl
      rw [part2, hl] at l2
      have len2 : d.head2.length = 32 := declBits_length _ _
      have b2 : d.head 2 "lengthInBytes" * 8 = 32 + l.length := by
        have : d.head 2 "lengthInBytes" * 8 = (d.head2 ++ l).length := l2
        rw [List.length_append, len2] at this
        exact this
      obtain ⟨fs2, h2, f2⟩ := opening_fwd (F := F) (d.head 2) reserved2 (by decide) (by decide) w2 (l ++ T2) (8 * q2)
      obtain ⟨v, h2', -⟩ := readValue_fwd (F := F) DataType.BINARY ((((d.head 2 "lengthInBytes" : Nat) : Int) - 4) * 8)
        (Or.inr (Or.inr (Or.inr (Or.inl ⟨rfl, by dsimp only; omega⟩)))) l T2 (8 * q2 + d.head2.length) (by omega)
      refine ⟨d.head 2 "lengthInBytes", fs2 ++ [FieldDecl.field ⟨"localBits", DataType.BINARY, (((d.head 2 "lengthInBytes" : Nat) : Int) - 4) * 8, false⟩ v], q2 + (d.head 2 "lengthInBytes" : Nat), ?_, fun _ => ?_, ?_⟩
      · simp only [Option.isSome_some, if_true]
        have := h2.snoc (d := ⟨"localBits", DataType.BINARY, (((d.head 2 "lengthInBytes" : Nat) : Int) - 4) * 8, false⟩) h2'
        have e2 : 8 * (q2 + ((d.head 2 "lengthInBytes" : Nat) : Int)) =
          8 * q2 + d.head2.length + (((d.head 2 "lengthInBytes" : Nat) : Int) - 4) * 8 := by omega
        rw [e2, List.append_assoc]
        exact this
      · intro x hx
        obtain ⟨y, k1, k2⟩ := f2 x hx
        exact ⟨y, k1, fun more => by
          rw [← k2 ([_] ++ more)]
          congr 1
          exact congrArg (List.cons _) (List.append_assoc _ _ _)⟩
      · rw [List.length_append, len2]; omega
  obtain ⟨L2, fs2, q3, h2, f2, hq3⟩ := s2
  -- section 3
  obtain ⟨fs3, h3, f3⟩ := opening_fwd (F := F) (d.head 3) Script.fields3 (by decide) (by decide)
    (w3 lengthDecl (by simp)) (d.ids ++ (d.pad3 ++ T3)) (8 * q3)
  have b3 : ((d.head 3 "lengthInBytes" : Nat) : Int) * 8 = d.head3.length + (16 * d.descriptors.length + d.pad3.length) := by
    have : d.ids.length = 16 * d.descriptors.length := ids_length _
    rw [List.length_append, List.length_append, this] at l3
    omega
  have hids := readIds_eq (F := F) 2 6 8 d.descriptors (d.pad3 ++ T3) (8 * q3 + d.head3.length) (by
    intro x hx
    obtain ⟨k1, k2, k3⟩ := hd.descriptors x hx
    exact ⟨by decide, by decide, by decide, k1, k2, k3, by omega⟩)
  obtain ⟨pad3, n3, p3⟩ := pads_fwd (F := F) (d.head 3 "lengthInBytes") ((Reader.bin ⟨T2, 8 * q3⟩ : Reader F).pos.tdiv 8)
    d.pad3 T3 (8 * q3 + d.head3.length + d.descriptors.length * ((2 : Nat) + (6 : Nat) + (8 : Nat))) (by rw [tdiv_bin]; omega)
  have e3 : 8 * q3 + (d.head3.length : Int) + d.descriptors.length * ((2 : Nat) + (6 : Nat) + (8 : Nat)) + d.pad3.length =
    8 * (q3 + (d.head 3 "lengthInBytes" : Nat)) := by omega
  rw [e3] at p3
  obtain ⟨q4, hq4⟩ : ∃ q4, q4 = q3 + ((d.head 3 "lengthInBytes" : Nat) : Int) := ⟨_, rfl⟩
  rw [← hq4] at p3
  -- section 4
  obtain ⟨fs4, h4, f4⟩ := opening_fwd (F := F) (d.head 4) reserved4 (by decide) (by decide) w4 (d.data ++ (d.pad4 ++ T4)) (8 * q4)
  obtain ⟨p, hp, hP⟩ := hdec (d.pad4 ++ T4) (8 * q4 + d.head4.length)
  have b4 : ((d.head 4 "lengthInBytes" : Nat) : Int) * 8 = d.head4.length + (d.data.length + d.pad4.length) := by
    rw [List.length_append, List.length_append] at l4
    omega
  obtain ⟨pad4, n4, p4⟩ := pads_fwd (F := F) (d.head 4 "lengthInBytes") ((Reader.bin ⟨T3, 8 * q4⟩ : Reader F).pos.tdiv 8)
    d.pad4 T4 (8 * q4 + d.head4.length + d.data.length) (by rw [tdiv_bin]; omega)
  -- section 5
  obtain ⟨fs5, h5, f5⟩ := readFields_fwd (F := F) (d.head 5) stop5 (by decide) (by decide) rest
    (8 * q4 + d.head4.length + d.data.length + d.pad4.length)
  have uint1 : ∀ (name : String), (∀ ds, IsEdition ds → ∃ x ∈ ds, x.name = name ∧ x.dataType = DataType.UINT) →
      ∀ more, valueIn (lengthOf (F := F) (d.head 1 "lengthInBytes") :: fs1 ++ more) name = some (.uint (d.head 1 name)) := by
    intro name h
    obtain ⟨x, hx, rfl, ht⟩ := h _ he
    exact f1.uint (List.mem_cons_of_mem _ hx) ht (w1 x (List.mem_cons_of_mem _ hx))
  have hpres : ∀ more, valueIn (lengthOf (F := F) (d.head 1 "lengthInBytes") :: fs1 ++ more) "isSection2Presents" =
      some (.bool d.locals.isSome) := by
    have : (⟨"isSection2Presents", DataType.BOOL, 1, true⟩ : FieldDecl) ∈ editionDecls d.edition := by
      rcases he with h | h <;> rw [h] <;> decide
    exact f1.bool (List.mem_cons_of_mem _ this) rfl rfl _ hd.flag
  refine ⟨⟨fs0, .bin ⟨T1, 8 * (q + 8)⟩, h0, d.head 1 "lengthInBytes", fs1, .bin ⟨d.pad1 ++ (d.bits2 ++ T2), 8 * (q + 8) + d.head1.length⟩,
    pad1, n1', .bin ⟨d.bits2 ++ T2, 8 * q2⟩, by rw [hT1]; exact h1, p1, d.locals.isSome, hpres, L2, fs2, .bin ⟨T2, 8 * q3⟩, h2,
    d.head 3 "lengthInBytes", fs3, .bin ⟨d.ids ++ (d.pad3 ++ T3), 8 * q3 + d.head3.length⟩, by rw [hT2]; exact h3,
    d.descriptors.map descriptorNumber, d.descriptors.length, ?_, _, hids, pad3, n3, .bin ⟨T3, 8 * q4⟩, p3,
    _, _, _, _, _, uint1 _ ?_, uint1 _ ?_, uint1 _ ?_, uint1 _ ?_, uint1 _ ?_, g, hg,
    d.head 4 "lengthInBytes", fs4, .bin ⟨d.data ++ (d.pad4 ++ T4), 8 * q4 + d.head4.length⟩, by rw [hT3]; exact h4,
    d.head 3 "nSubsets", ?_, compressed, ?_, p, _, hp, pad4, n4, _, p4, fs5, _, by rw [hT4]; exact h5⟩, ?_, hP, ?_⟩
  · show _ = (((d.head 3 "lengthInBytes" : Nat) : Int) * 8 - (8 * q3 + (d.head3.length : Int) - (Reader.bin ⟨T2, 8 * q3⟩ : Reader F).pos.tdiv 8 * 8)).tdiv 16
    have hp3 := hd.pad3
    rw [tdiv_bin, Int.tdiv_eq_ediv_of_nonneg (by omega)]
    omega
  · rintro ds (rfl | rfl) <;> decide
  · rintro ds (rfl | rfl) <;> decide
  · rintro ds (rfl | rfl) <;> decide
  · rintro ds (rfl | rfl) <;> decide
  · rintro ds (rfl | rfl) <;> decide
  · exact f3.uint (d := ⟨"nSubsets", DataType.UINT, 16, true⟩) (by decide) rfl (w3 ⟨"nSubsets", DataType.UINT, 16, true⟩ (by decide))
  · exact f3.bool (d := ⟨"isCompressed", DataType.BOOL, 1, true⟩) (by decide) rfl rfl _ hcomp
  · exact ⟨rfl, rfl, f0, f1, f2, f3, f4, f5⟩
  · show Reader.bin ⟨rest, 8 * q4 + (d.head4.length : Int) + d.data.length + d.pad4.length + d.head5.length⟩ = _
    have : (d.bits.length : Int) = 64 + (d.head1.length + d.pad1.length + (d.bits2.length + (d.head3.length +
        (16 * d.descriptors.length + d.pad3.length) + (d.head4.length + (d.data.length + d.pad4.length) + d.head5.length)))) := by
      have h1 : d.ids.length = 16 * d.descriptors.length := ids_length _
      rw [draft_bits]
      simp only [List.length_append, h1]
      push_cast
      rw [len0]
    congr 2
    omega

end Gobufr
