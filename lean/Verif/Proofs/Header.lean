import Verif.Spec.Header
import Verif.Proofs.Trace
import Verif.Props.Stream

/-!
# Helper lemmas: where the fields of a message are in the input
-/

namespace Gobufr
open Spec

variable {F : Type}

/-- The reader is where its position says: `src` is the whole input, its first bit has position `p0`. -/
def Sync (src : List Bool) (p0 : Int) (r : Reader F) : Prop :=
  ∃ pre rest, r = .bin ⟨rest, p0 + pre.length⟩ ∧ src = pre ++ rest

theorem Sync.pos {src : List Bool} {p0 : Int} {r : Reader F} (h : Sync src p0 r) :
    ∃ rest, r = .bin ⟨rest, r.pos⟩ := by
  obtain ⟨pre, rest, rfl, -⟩ := h
  exact ⟨rest, rfl⟩

/-- Reading the bits `l`. -/
theorem Sync.step {src : List Bool} {p0 : Int} {l t : List Bool} {p : Int}
    (h : Sync (F := F) src p0 (.bin ⟨l ++ t, p⟩)) :
    BitsAt src p0 p l ∧ Sync (F := F) src p0 (.bin ⟨t, p + l.length⟩) := by
  obtain ⟨pre, rest, h1, h2⟩ := h
  injection h1 with h1
  injection h1 with h1 h3
  subst h1
  exact ⟨⟨pre, t, by rw [h2, List.append_assoc], h3.symm⟩, pre ++ l, t, by
    congr 2; simp; omega, by rw [h2, List.append_assoc]⟩

/-- What a value of the type looks like. -/
def DenotesType (dt : DataType) (l : List Bool) (v : Val F) : Prop :=
  (dt = DataType.UINT ∧ Denotes .number l v) ∨ (dt = DataType.BOOL ∧ Denotes .flag l v) ∨
    (dt = DataType.BYTES ∧ Denotes .text l v) ∨ (dt = DataType.BINARY ∧ Denotes .bits l v) ∨
    (dt = DataType.INT ∧ ∃ i, v = .int i)

/-- The width is what the type takes. -/
def FieldDecl.nice (d : FieldDecl) : Prop :=
  (d.dataType = DataType.UINT ∧ 0 ≤ d.nbits ∧ d.nbits ≤ 64) ∨ (d.dataType = DataType.BOOL ∧ d.nbits = 1) ∨
    (d.dataType = DataType.BYTES ∧ 0 ≤ d.nbits ∧ d.nbits % 8 = 0) ∨ (d.dataType = DataType.BINARY ∧ 0 ≤ d.nbits) ∨
    (d.dataType = DataType.INT ∧ 1 ≤ d.nbits)

instance (d : FieldDecl) : Decidable d.nice := by unfold FieldDecl.nice; infer_instance

theorem packed_packBits (l : List Bool) : Packed l (packBits l) := by
  induction hn : l.length using Nat.strongRecOn generalizing l with
  | _ n ih =>
    by_cases h : l = []
    · subst h; rw [packBits_nil]; rfl
    · rw [packBits_eq h]
      refine ⟨h, ?_, ih (l.drop 8).length ?_ _ rfl⟩
      · have h1 := bitsVal_lt (l.take 8)
        have h2 : 2 ^ (l.take 8).length ≤ 2 ^ 8 := Nat.pow_le_pow_right (by decide) (by simp; omega)
        rw [UInt8.toNat_ofNat']
        exact Nat.mod_eq_of_lt (by omega)
      · have : 0 < l.length := List.length_pos_iff.mpr h
        simp; omega

theorem byteBits_natBits (b : UInt8) : byteBits b = natBits 8 b.toNat := by
  rw [← BitReader.bitsVal_byteBits b]
  exact (natBits_bitsVal (byteBits b)).symm

/-- A field read at its place. -/
theorem readValue_at [GoFloat F] {d : FieldDecl} (hd : d.nice) {src : List Bool} {p0 : Int} {r r1 : Reader F} {v : Val F}
    (hr : Sync src p0 r) (h : Fac.readValue d.dataType d.nbits r = (.ok v, r1)) :
    Fac.left r1 ≤ Fac.left r ∧ (8 ≤ Fac.left r1 ∨ d.dataType ≠ DataType.BINARY →
      Sync src p0 r1 ∧ r1.pos = r.pos + d.nbits ∧
        ∃ l, BitsAt src p0 r.pos l ∧ (l.length : Int) = d.nbits ∧ DenotesType d.dataType l v) := by
  obtain ⟨rest, hrest⟩ := hr.pos
  have hr' := hr
  rw [hrest] at h hr' ⊢
  generalize r.pos = p at *
  clear hrest hr
  unfold Fac.readValue at h
  rcases hd with ⟨hd, h0, h64⟩ | ⟨hd, h1⟩ | ⟨hd, h0, h8⟩ | ⟨hd, h0⟩ | ⟨hd, h1⟩
  · rw [hd, if_pos rfl] at h
    obtain ⟨x, r2, i1, i2⟩ := M.bind_eq_ok.1 h
    cases i2
    obtain ⟨i1, i2⟩ := Prod.mk.inj i1
    obtain ⟨l, t, hl, rfl, hrr, rfl⟩ := BitReader.readUint_ok (eq_of_fst i1)
    rw [← i2, hrr]
    obtain ⟨g1, g2⟩ := hr'.step
    have hll : (l.length : Int) = d.nbits := by omega
    refine ⟨by simp [Fac.left], fun _ => ⟨by rw [← hll]; exact g2, rfl, l, g1, hll, Or.inl ⟨hd, ?_⟩⟩⟩
    show Val.uint _ = _
    have h2 := bitsVal_lt l
    have h3 : 2 ^ l.length ≤ two64 := by
      have : two64 = 2 ^ 64 := by decide
      rw [this]
      exact Nat.pow_le_pow_right (by decide) (by omega)
    rw [Nat.mod_eq_of_lt (by omega)]
  · rw [hd, if_neg (by decide), if_neg (by decide), if_neg (by decide), if_pos rfl] at h
    obtain ⟨x, r2, i1, i2⟩ := M.bind_eq_ok.1 h
    cases i2
    match rest, i1, hr' with
    | [], i1, _ => cases i1
    | b :: rest, i1, hr' =>
      cases i1
      obtain ⟨g1, g2⟩ := Sync.step (l := [x]) hr'
      exact ⟨Nat.le_succ rest.length, fun _ => ⟨g2, by rw [h1]; rfl, [x], g1, by rw [h1]; rfl, Or.inr (Or.inl ⟨hd, x, rfl, rfl⟩)⟩⟩
  · rw [hd, if_neg (by decide), if_neg (by decide), if_neg (by decide), if_neg (by decide), if_pos rfl] at h
    obtain ⟨x, r2, i1, i2⟩ := M.bind_eq_ok.1 h
    cases i2
    obtain ⟨i1, i2⟩ := Prod.mk.inj i1
    obtain ⟨hl, t, rfl, hrr⟩ := BitReader.readBytes_ok (eq_of_fst i1)
    rw [← i2, hrr]
    obtain ⟨g1, g2⟩ := hr'.step
    have h9 : (x.flatMap byteBits).length = 8 * x.length := BitReader.bitsOfBytes_length x
    have h10 : d.nbits.tdiv 8 = d.nbits / 8 := Int.tdiv_eq_ediv_of_nonneg h0
    have h11 : d.nbits.tdiv 8 * 8 = d.nbits := by omega
    have h12 : ((x.flatMap byteBits).length : Int) = d.nbits := by rw [h9]; push_cast; omega
    refine ⟨by simp [Fac.left], fun _ => ⟨by rw [h11, ← h12]; exact g2, by rw [h11]; rfl, _, g1, h12,
      Or.inr (Or.inr (Or.inl ⟨hd, x, ?_, rfl⟩))⟩⟩
    congr 1
    funext b
    exact byteBits_natBits b
  · rw [hd, if_neg (by decide), if_neg (by decide), if_neg (by decide), if_neg (by decide), if_neg (by decide), if_pos rfl] at h
    obtain ⟨x, r2, i1, i2⟩ := M.bind_eq_ok.1 h
    cases i2
    obtain ⟨i1, i2⟩ := Prod.mk.inj i1
    obtain ⟨t, hrr, hc⟩ := BitReader.readBinary_ok (eq_of_fst i1)
    rw [← i2, hrr]
    rcases hc with ⟨l, hl, rfl, rfl⟩ | ⟨-, -, h3, h4⟩
    · obtain ⟨g1, g2⟩ := hr'.step
      have hll : (l.length : Int) = d.nbits := by omega
      exact ⟨by simp [Fac.left], fun _ => ⟨by rw [← hll]; exact g2, rfl, l, g1, hll,
        Or.inr (Or.inr (Or.inr (Or.inl ⟨hd, packBits l, packed_packBits l, by rw [hll]⟩)))⟩⟩
    · refine ⟨h4, fun hg => ?_⟩
      rcases hg with hg | hg
      · have : 8 ≤ t.length := hg
        omega
      · exact absurd hd hg
  · rw [hd, if_neg (by decide), if_pos rfl] at h
    obtain ⟨x, r2, i1, i2⟩ := M.bind_eq_ok.1 h
    cases i2
    obtain ⟨i1, i2⟩ := Prod.mk.inj i1
    obtain ⟨b, l, t, hl, rfl, hrr⟩ := BitReader.readInt_ok (eq_of_fst i1)
    rw [← i2, hrr]
    obtain ⟨g1, g2⟩ := hr'.step
    have hll : ((b :: l).length : Int) = d.nbits := by simp; omega
    exact ⟨by simp [Fac.left]; omega, fun _ => ⟨by rw [← hll]; exact g2, rfl, b :: l, g1, hll,
      Or.inr (Or.inr (Or.inr (Or.inr ⟨hd, x, rfl⟩)))⟩⟩

/-! ## What is left of the input -/

def IsBin (r : Reader F) : Prop := ∃ b, r = .bin b

theorem Sync.isBin {src : List Bool} {p0 : Int} {r : Reader F} (h : Sync src p0 r) : IsBin r := by
  obtain ⟨pre, rest, rfl, -⟩ := h
  exact ⟨_, rfl⟩

/-- A read leaves less than there was. -/
def Less (r r' : Reader F) : Prop := IsBin r → IsBin r' ∧ Fac.left r' ≤ Fac.left r

theorem Less.refl (r : Reader F) : Less r r := fun h => ⟨h, Nat.le_refl _⟩

theorem Less.trans {r r' r'' : Reader F} (h : Less r r') (h' : Less r' r'') : Less r r'' := fun hb =>
  ⟨(h' (h hb).1).1, Nat.le_trans (h' (h hb).1).2 (h hb).2⟩

theorem Rd.less {E : α → Prop} {m : M (Reader F) α} (hm : Rd E m) {r r' : Reader F} {a : α} (h : m r = (.ok a, r')) :
    Less r r' := by
  rintro ⟨⟨src, p⟩, rfl⟩
  obtain ⟨src', p', rfl, hl, -⟩ := hm _ _ _ _ h
  exact ⟨⟨_, rfl⟩, hl⟩

theorem ReadFields.less [GoFloat F] {r r' : Reader F} {ds : List FieldDecl} {fs : List (Field F)}
    (h : ReadFields r ds fs r') : Less r r' := by
  induction h with
  | nil r => exact .refl r
  | @cons r r1 r2 d ds fs v h1 h2 ih =>
    obtain ⟨E, hE, -⟩ := FLocal.readValue (F := F) d.dataType d.nbits
    exact (hE.less h1).trans ih

theorem Pads.less {L : Nat} {b : Int} {r r' : Reader F} {pad : List (Field F)} {n : Int}
    (h : Pads L b r pad n r') : Less r r' := by
  rcases h with ⟨-, -, -, rfl⟩ | ⟨-, -, x, -, h⟩
  · exact .refl _
  · exact (Rd.readBinary n).less h

theorem unpacker_binary {fuel : Nat} {compressed compatible : Bool} {n : Int} {vc : VisCfg}
    (h : newDeserializeVisitor fuel compressed .binary compatible n = .ok vc) : vc.unpacker ≠ .json := by
  unfold newDeserializeVisitor at h
  cases hu : newUnpacker fuel n compressed .binary with
  | ok u =>
    rw [hu] at h
    cases h
    unfold newUnpacker at hu
    cases compressed <;> simp at hu <;> subst hu <;> simp
  | err e => rw [hu] at h; cases h
  | panic w => rw [hu] at h; cases h
  | diverge => rw [hu] at h; cases h

theorem DecodesAt.less [GoFloat F] {c : FacCfg} (hc : c.inputType = .binary) {g : ChainGroup} {ids : List ID} {n : Int}
    {compressed : Bool} {r r' : Reader F} {p : Payload F} (h : DecodesAt c g.lookup ids n compressed r p r') :
    Less r r' := by
  rintro ⟨⟨src, pos⟩, rfl⟩
  obtain ⟨tree, vc, v', h1, h2, h3, rfl⟩ := h
  rw [hc] at h2
  obtain ⟨ns, f', rfl, _⟩ := parse_ok_iff.1 h1
  have hns := parse_noBase (good_chain g) ⟨c.fuel, h1⟩
  obtain ⟨src', p', e, l, -, -⟩ := decodeSubsets_local (unpacker_binary h2) hns rootDescriptor _ _ _ _ _ src pos rfl h3
  rw [e]
  exact ⟨⟨_, rfl⟩, l⟩

/-! ## Fields at their places -/

/-- The bits of all fields. -/
def fieldBits (fs : List (Field F)) : Int := (fs.map (·.nbits)).sum

theorem FieldsAt.append {P : Field F → Prop} {src : List Bool} {p0 : Int} : ∀ {pos : Int} {fs fs' : List (Field F)},
    FieldsAt P src p0 pos fs → FieldsAt P src p0 (pos + fieldBits fs) fs' → FieldsAt P src p0 pos (fs ++ fs')
  | pos, [], fs', _, h => by simpa [fieldBits] using h
  | pos, f :: fs, fs', ⟨h1, h2⟩, h => ⟨h1, FieldsAt.append h2 (by
      have : pos + fieldBits (f :: fs) = pos + f.nbits + fieldBits fs := by simp [fieldBits]; omega
      rwa [this] at h)⟩

/-- Fields whose type is what the format says. -/
def Typed (P : Field F → Prop) (d : FieldDecl) : Prop :=
  ∀ v l, P (d.field v) → DenotesType d.dataType l v → Denotes (kindOf (str d.name)) l v

theorem ReadFields.at [GoFloat F] {P : Field F → Prop} {src : List Bool} {p0 : Int} {r r' : Reader F}
    {ds : List FieldDecl} {fs : List (Field F)} (h : ReadFields r ds fs r') : (∀ d ∈ ds, d.nice) →
    (∀ d ∈ ds, Typed P d) → Sync src p0 r → (8 ≤ Fac.left r' ∨ ∀ d ∈ ds, d.dataType ≠ DataType.BINARY) →
    Sync src p0 r' ∧ r'.pos = r.pos + fieldBits fs ∧ FieldsAt P src p0 r.pos fs := by
  induction h with
  | nil r => intro _ _ hr _; exact ⟨hr, by simp [fieldBits], trivial⟩
  | @cons r r1 r2 d ds fs v h1 h2 ih =>
    intro hn ht hr hl
    obtain ⟨-, k⟩ := readValue_at (hn d (by simp)) hr h1
    have hb : IsBin r1 := by
      obtain ⟨E, hE, -⟩ := FLocal.readValue (F := F) d.dataType d.nbits
      exact ((hE.less h1) hr.isBin).1
    obtain ⟨k1, k2, l, k3, k4, k5⟩ := k (by
      rcases hl with hl | hl
      · left
        exact Nat.le_trans hl (h2.less hb).2
      · right; exact hl d (by simp))
    obtain ⟨i1, i2, i3⟩ := ih (fun d hd => hn d (List.mem_cons_of_mem _ hd)) (fun d hd => ht d (List.mem_cons_of_mem _ hd))
      k1 (hl.imp id fun h d hd => h d (List.mem_cons_of_mem _ hd))
    refine ⟨i1, ?_, fun hp => ⟨l, k3, k4, ?_⟩, ?_⟩
    · rw [i2, k2]
      simp [fieldBits, FieldDecl.field]
      omega
    · exact ht d (by simp) v l hp k5
    · rw [k2] at i3
      exact i3

/-- The padding. -/
theorem Pads.at {P : Field F → Prop} {src : List Bool} {p0 : Int} {L : Nat} {b : Int} {r r' : Reader F}
    {pad : List (Field F)} {n : Int} (h : Pads L b r pad n r') (hr : Sync src p0 r) :
    Sync src p0 r' ∧ r'.pos = r.pos + fieldBits pad ∧ FieldsAt P src p0 r.pos pad ∧ r'.pos = 8 * (b + L) := by
  rcases h with ⟨h1, rfl, -, rfl⟩ | ⟨h0, h1, x, rfl, h⟩
  · exact ⟨hr, by simp [fieldBits], trivial, by omega⟩
  · obtain ⟨rest, hrest⟩ := hr.pos
    rw [hrest] at h hr ⊢
    generalize r.pos = p at *
    obtain ⟨i1, i2⟩ := Prod.mk.inj h
    obtain ⟨t, hrr, hc⟩ := BitReader.readBinary_ok (eq_of_fst i1)
    rw [← i2, hrr]
    rcases hc with ⟨l, hl, rfl, hx⟩ | ⟨hx, -⟩
    · cases hx
      obtain ⟨g1, g2⟩ := hr.step
      have hll : (l.length : Int) = n := by omega
      refine ⟨by rw [← hll]; exact g2, by simp [fieldBits, Reader.pos], ⟨fun _ => ⟨l, g1, hll, ?_⟩, trivial⟩, ?_⟩
      · show Denotes (kindOf (str "padding")) l _
        have : kindOf (str "padding") = .bits := by decide
        rw [this]
        exact ⟨packBits l, packed_packBits l, by rw [hll]⟩
      · show p + n = _
        omega
    · cases hx

/-- The descriptors. -/
theorem readIds_at [GoFloat F] {src : List Bool} {p0 : Int} : ∀ {k : Nat} {r r' : Reader F} {ids : List ID},
    Sync src p0 r → Fac.readIds 2 6 8 k r = (.ok ids, r') →
    Sync src p0 r' ∧ ids.length = k ∧ r'.pos = r.pos + k * 16 ∧ ∃ l, BitsAt src p0 r.pos l ∧
      (l.length : Int) = k * 16 ∧ Spells l ids := by
  intro k r r' ids hr h
  obtain ⟨rest, hrest⟩ := hr.pos
  have hlen : ¬ rest.length < k * 16 := by
    intro hlt
    obtain ⟨e, r2, h2⟩ := readIds_short (F := F) 2 6 8 k rest r.pos hlt
    rw [← hrest] at h2
    have := h.symm.trans h2
    cases this
  have key : ∀ (k : Nat) (l : List Bool), l.length = k * 16 → ∃ ds : List (Nat × Nat × Nat), ds.length = k ∧
      (∀ d ∈ ds, Fits 2 6 8 d) ∧ l = ds.flatMap (descriptorBits 2 6 8) := by
    intro k
    induction k with
    | zero => intro l hl; exact ⟨[], rfl, by simp, by simpa using hl⟩
    | succ k ih =>
      intro l hl
      obtain ⟨ds, h1, h2, h3⟩ := ih (l.drop 16) (by simp; omega)
      have hx1 : (l.take 2).length = 2 := by simp; omega
      have hx2 : ((l.drop 2).take 6).length = 6 := by simp; omega
      have hx3 : ((l.drop 8).take 8).length = 8 := by simp; omega
      have b1 := bitsVal_lt (l.take 2)
      have b2 := bitsVal_lt ((l.drop 2).take 6)
      have b3 := bitsVal_lt ((l.drop 8).take 8)
      rw [hx1] at b1
      rw [hx2] at b2
      rw [hx3] at b3
      refine ⟨(bitsVal (l.take 2), bitsVal ((l.drop 2).take 6), bitsVal ((l.drop 8).take 8)) :: ds, by simp [h1], ?_, ?_⟩
      · intro d hd
        rcases List.mem_cons.1 hd with rfl | hd
        · exact ⟨by decide, by decide, by decide, b1, b2, b3, by dsimp only; omega⟩
        · exact h2 d hd
      · rw [List.flatMap_cons, ← h3]
        unfold descriptorBits
        have e1 := natBits_bitsVal (l.take 2)
        have e2 := natBits_bitsVal ((l.drop 2).take 6)
        have e3 := natBits_bitsVal ((l.drop 8).take 8)
        rw [hx1] at e1
        rw [hx2] at e2
        rw [hx3] at e3
        dsimp only
        rw [e1, e2, e3]
        have : l.drop 8 = (l.drop 2).drop 6 := by rw [List.drop_drop]
        rw [List.append_assoc, List.append_assoc]
        have hd16 : l.drop 16 = (l.drop 8).drop 8 := by rw [List.drop_drop]
        rw [hd16, List.take_append_drop, this, List.take_append_drop, List.take_append_drop]
  obtain ⟨ds, h1, h2, h3⟩ := key k (rest.take (k * 16)) (by simp; omega)
  have hrest2 : rest = ds.flatMap (descriptorBits 2 6 8) ++ rest.drop (k * 16) := by
    rw [← h3, List.take_append_drop]
  have heq := readIds_eq (F := F) 2 6 8 ds (rest.drop (k * 16)) r.pos h2
  rw [← hrest2, ← hrest, h1] at heq
  have := h.symm.trans heq
  cases this
  rw [hrest] at hr
  have hr2 : Sync (F := F) src p0 (.bin ⟨ds.flatMap (descriptorBits 2 6 8) ++ rest.drop (k * 16), r.pos⟩) := by
    rw [← hrest2]; exact hr
  obtain ⟨g1, g2⟩ := hr2.step
  have hl : ((ds.flatMap (descriptorBits 2 6 8)).length : Int) = k * 16 := by
    rw [← h3]; simp; omega
  refine ⟨?_, by simp [h1], ?_, _, g1, hl, ds, h2, rfl, rfl⟩
  · rw [hl] at g2
    exact g2
  · show r.pos + (k : Int) * 16 = _
    rfl

/-- The payload, if nothing in it is counted wrongly. -/
theorem DecodesAt.at [GoFloat F] {c : FacCfg} (hc : c.inputType = .binary) {g : ChainGroup} {ids : List ID} {n : Int}
    {compressed : Bool} {src : List Bool} {p0 : Int} {r r' : Reader F} {p : Payload F}
    (h : DecodesAt c g.lookup ids n compressed r p r') (hr : Sync src p0 r) (h8 : 8 ≤ Fac.left r') (hg : GoodPayload p) :
    Sync src p0 r' ∧ ∃ l, BitsAt src p0 r.pos l ∧ (l.length : Int) = r'.pos - r.pos := by
  obtain ⟨rest, hrest⟩ := hr.pos
  rw [hrest] at h hr ⊢
  generalize r.pos = pos at *
  obtain ⟨tree, vc, v', h1, h2, h3, rfl⟩ := h
  rw [hc] at h2
  obtain ⟨ns, f', rfl, _⟩ := parse_ok_iff.1 h1
  have hns := parse_noBase (good_chain g) ⟨c.fuel, h1⟩
  obtain ⟨src', p', e, -, -, k⟩ := decodeSubsets_local (unpacker_binary h2) hns rootDescriptor _ _ _ _ _ rest pos rfl h3
  rw [e] at h8
  obtain ⟨l, rfl, -⟩ := k (Or.inl h8)
  have hvc : Flat.CfgOk vc ∧ vc.inputType = .binary ∧ vc.compressed = compressed := by
    have h6 := h2
    unfold newDeserializeVisitor at h2
    cases hu : newUnpacker c.fuel n compressed .binary with
    | ok u =>
      rw [hu] at h2
      cases h2
      exact ⟨⟨c.fuel, h6⟩, rfl, rfl⟩
    | err e => rw [hu] at h2; cases h2
    | panic w => rw [hu] at h2; cases h2
    | diverge => rw [hu] at h2; cases h2
  obtain ⟨v1, v2, rfl⟩ := hvc
  obtain ⟨src2, pos2, k1, k2, k3⟩ := payload_accounts v1 v2 hns _ _ (by
    intro hc'
    rw [if_pos ⟨hc', hc⟩]
    rfl) p (Fac.freshVis _) v' (l ++ src') pos rfl h3
  rw [e] at k1
  cases k1
  have := k3 hg
  simp only [List.length_append] at this
  obtain ⟨g1, g2⟩ := hr.step
  have hp : p' = pos + l.length := by push_cast at this; omega
  subst hp
  rw [e]
  exact ⟨g2, l, g1, by show (l.length : Int) = pos + l.length - pos; omega⟩

/-! ## The sections at their places -/

/-- The fields of the section are where the section begins. -/
def SecAt (P : Field F → Prop) (src : List Bool) (p0 : Int) (sec : Section F) : Prop :=
  FieldsAt P src p0 (8 * sec.startByteIndex) sec.fields

theorem ReadFields.bits [GoFloat F] {r r' : Reader F} {ds : List FieldDecl} {fs : List (Field F)}
    (h : ReadFields r ds fs r') : fieldBits fs = (ds.map FieldDecl.nbits).sum := by
  have := congrArg (List.map fun x : GoString × Int × Bool => x.2.1) h.shape
  simp only [List.map_map] at this
  unfold fieldBits
  exact congrArg List.sum this

theorem tdiv_at {r : Reader F} {q : Int} (h : r.pos = 8 * q) : r.pos.tdiv 8 = q := by
  rw [h]; exact Int.mul_tdiv_cancel_left _ (by decide)

/-! ## Positions alone -/

instance (d : FieldDecl) : Decidable d.fits := by unfold FieldDecl.fits; infer_instance

theorem ReadFields.moves [GoFloat F] {r r' : Reader F} {ds : List FieldDecl} {fs : List (Field F)}
    (h : ReadFields r ds fs r') (hd : ∀ d ∈ ds, d.fits) (hb : IsBin r) : r'.pos = r.pos + fieldBits fs := by
  obtain ⟨⟨src, p⟩, rfl⟩ := hb
  obtain ⟨src', rfl⟩ := h.pos hd rfl
  rw [h.bits]
  rfl

theorem Pads.pos {L : Nat} {b : Int} {r r' : Reader F} {pad : List (Field F)} {n : Int}
    (h : Pads L b r pad n r') (hb : IsBin r) : r'.pos = 8 * (b + L) := by
  rcases h with ⟨h1, -, -, rfl⟩ | ⟨-, h1, x, -, h⟩
  · omega
  · obtain ⟨⟨rest, p⟩, rfl⟩ := hb
    obtain ⟨i1, i2⟩ := Prod.mk.inj h
    obtain ⟨t, hrr, -⟩ := BitReader.readBinary_ok (eq_of_fst i1)
    rw [← i2, hrr]
    have h1 : (L : Int) * 8 = p - b * 8 + n := h1
    show p + n = _
    omega

/-- Where the sections begin and the message ends. -/
theorem Trace.places [GoFloat F] {c : FacCfg} (hc : c.inputType = .binary) {ds : List FieldDecl}
    {q : Int} {r : Reader F} (t : Trace c ds r) (hb : IsBin r) (hq : r.pos = 8 * q) :
    t.sec0.startByteIndex = q ∧ t.sec1.startByteIndex = q + 8 ∧
      (t.present = true → t.sec2.startByteIndex = q + 8 + t.L1) ∧
      t.sec3.startByteIndex = q + 8 + t.L1 + (if t.present then t.L2 else 0 : Nat) ∧
      t.sec4.startByteIndex = q + 8 + t.L1 + (if t.present then t.L2 else 0 : Nat) + t.L3 ∧
      t.sec5.startByteIndex = q + 8 + t.L1 + (if t.present then t.L2 else 0 : Nat) + t.L3 + t.L4 ∧
      t.r6.pos = 8 * (q + 8 + t.L1 + (if t.present then t.L2 else 0 : Nat) + t.L3 + t.L4 + 4) := by
  have w2 : Less t.r2 t.r3 := by
    have := t.h2
    cases hb : t.present with
    | true => rw [hb] at this; exact ReadFields.less this
    | false => rw [hb] at this; rw [show t.r3 = t.r2 from this]; exact .refl _
  have bin1 := (t.h0.less hb).1
  have bin1' := (t.h1.less bin1).1
  have bin2 := (t.p1.less bin1').1
  have bin3 := (w2 bin2).1
  have bin3' := (t.h3.less bin3).1
  have bin3'' := ((FLocal.readIds 2 6 8 t.k).less t.hids bin3').1
  have bin4 := (t.p3.less bin3'').1
  have bin4' := (t.h4.less bin4).1
  have bin4'' := (t.hp.less hc bin4').1
  have bin5 := (t.p4.less bin4'').1
  have q1 : t.r1.pos = 8 * (q + 8) := by
    rw [t.h0.moves (by decide) hb, t.h0.bits, hq]
    have : (Script.fields0.map FieldDecl.nbits).sum = 64 := by decide
    omega
  have q2 := t.p1.pos bin1'
  rw [tdiv_at q1] at q2
  have q3 : t.r3.pos = 8 * (q + 8 + t.L1 + (if t.present then t.L2 else 0 : Nat)) := by
    have h2 := t.h2
    cases hp : t.present with
    | false =>
      rw [hp] at h2
      rw [show t.r3 = t.r2 from h2, q2]
      simp
    | true =>
      rw [hp] at h2
      have h2 : ReadFields t.r2 (fields2 t.L2) (lengthOf t.L2 :: t.fs2) t.r3 := h2
      rw [h2.moves (by
        intro d hd
        simp only [fields2, List.mem_cons, List.not_mem_nil, or_false] at hd
        rcases hd with rfl | rfl | rfl
        · decide
        · decide
        · exact ⟨fun h => absurd (a := DataType.BINARY = DataType.BOOL) h (by decide), fun h => absurd (a := DataType.BINARY = DataType.BYTES) h (by decide),
            fun h => absurd (a := DataType.BINARY = DataType.FLOAT) h (by decide)⟩) bin2, h2.bits, q2]
      simp [fields2, lengthDecl]
      omega
  have q4 := t.p3.pos bin3''
  rw [tdiv_at q3] at q4
  have q5 := t.p4.pos bin4''
  rw [tdiv_at q4] at q5
  refine ⟨tdiv_at hq, tdiv_at q1, fun _ => tdiv_at q2, tdiv_at q3, tdiv_at q4, tdiv_at q5, ?_⟩
  rw [t.h5.moves (by decide) bin5, t.h5.bits, q5]
  have : ([(⟨"stopSignature", DataType.BYTES, 32, false⟩ : FieldDecl)].map FieldDecl.nbits).sum = 32 := by decide
  omega

/-- The declarations that may occur. -/
structure AllTyped (P : Nat → Field F → Prop) (ds : List FieldDecl) : Prop where
  h0 : ∀ d ∈ Script.fields0, Typed (P 0) d
  h1 : ∀ d ∈ lengthDecl :: ds, Typed (P 1) d
  h2 : ∀ L, ∀ d ∈ fields2 L, Typed (P 2) d
  h3 : ∀ d ∈ lengthDecl :: Script.fields3, Typed (P 3) d
  h4 : ∀ d ∈ [lengthDecl, ⟨"reservedBits", Script.BIN, 8, false⟩], Typed (P 4) d
  h5 : ∀ d ∈ [(⟨"stopSignature", DataType.BYTES, 32, false⟩ : FieldDecl)], Typed (P 5) d

theorem Trace.at [GoFloat F] {P : Nat → Field F → Prop} {c : FacCfg} (hc : c.inputType = .binary) {ds : List FieldDecl}
    (hds : IsEdition ds) (hP : AllTyped P ds) {src : List Bool} {p0 q : Int} {r : Reader F} (t : Trace c ds r)
    (hr : Sync src p0 r) (hq : r.pos = 8 * q) (hL2 : t.present = true → 4 ≤ t.L2) :
    SecAt (P 0) src p0 t.sec0 ∧ SecAt (P 1) src p0 t.sec1 ∧ (t.present = true → SecAt (P 2) src p0 t.sec2) ∧
      SecAt (P 3) src p0 t.sec3 ∧
      FieldsAt (P 4) src p0 (8 * t.sec4.startByteIndex) (lengthOf t.L4 :: t.fs4) ∧
      (Sync src p0 t.r4' ∧ t.r4'.pos = 8 * t.sec4.startByteIndex + 32) ∧
      (GoodPayload t.p → SecAt (P 4) src p0 t.sec4 ∧ SecAt (P 5) src p0 t.sec5 ∧ Sync src p0 t.r6) := by
  -- what is left
  have hnice1 : ∀ d ∈ lengthDecl :: ds, d.nice := by rcases hds with rfl | rfl <;> decide
  have w0 := t.h0.less
  have w1 := t.h1.less.trans t.p1.less
  have w2 : Less t.r2 t.r3 := by
    have := t.h2
    cases hb : t.present with
    | true => rw [hb] at this; exact ReadFields.less this
    | false => rw [hb] at this; rw [show t.r3 = t.r2 from this]; exact .refl _
  have w3 : Less t.r3' t.r4 := ((FLocal.readIds 2 6 8 t.k).less t.hids).trans t.p3.less
  have w3' := t.h3.less
  have w4 := t.h4.less
  have w4' : Less t.r4' t.r4'' := t.hp.less hc
  have w4'' := t.p4.less
  have bin0 := (w0 hr.isBin).1
  have bin1 := (t.h1.less bin0).1
  have bin2 := (w1 bin0).1
  have bin3 := (w2 bin2).1
  have bin3' := (w3' bin3).1
  have bin4 := (w3 bin3').1
  have bin4' := (w4 bin4).1
  have bin4'' := (w4' bin4').1
  have bin5 := (w4'' bin4'').1
  have n5 : 32 ≤ Fac.left t.r5 := by
    obtain ⟨b, hb⟩ := bin5
    have h5 := t.h5
    rw [hb] at h5 ⊢
    generalize t.fs5 = fs5, t.r6 = r6 at h5
    cases h5 with
    | cons g1 g2 =>
      have g1' : (do let v ← Reader.readBytes 4; pure (.bytes v) : M (Reader F) (Val F)) (.bin b) = (.ok _, _) := g1
      obtain ⟨x, r1, i1, i2⟩ := M.bind_eq_ok.1 g1'
      obtain ⟨i1, -⟩ := Prod.mk.inj i1
      obtain ⟨hl, u, hu, -⟩ := BitReader.readBytes_ok (s := b.src) (p := b.pos) (eq_of_fst i1)
      show 32 ≤ b.src.length
      rw [hu]
      have : (x.flatMap byteBits).length = 8 * x.length := BitReader.bitsOfBytes_length x
      simp only [List.length_append, this]
      omega
  have n4'' := (w4'' bin4'').2
  have n4' := (w4' bin4').2
  have n4 := (w4 bin4).2
  have n3' := (w3 bin3').2
  have n3 := (w3' bin3).2
  have n2 := (w2 bin2).2
  have n1 := (t.p1.less bin1).2
  have n0 := (t.h1.less bin0).2
  -- section 0
  obtain ⟨s1, e1, f0⟩ := t.h0.at (P := P 0) (by decide) hP.h0 hr (Or.inl (by omega))
  have q1 : t.r1.pos = 8 * (q + 8) := by
    rw [e1, t.h0.bits, hq]
    have : (Script.fields0.map FieldDecl.nbits).sum = 64 := by decide
    omega
  -- section 1
  obtain ⟨s1', e1', f1⟩ := t.h1.at (P := P 1) hnice1 hP.h1 s1 (Or.inl (by omega))
  obtain ⟨s2, e2, fp1, q2⟩ := t.p1.at (P := P 1) s1'
  -- section 2
  have sec2 : Sync src p0 t.r3 ∧ (∃ q3, t.r3.pos = 8 * q3) ∧ (t.present = true → SecAt (P 2) src p0 t.sec2) := by
    have h2 := t.h2
    cases hb : t.present with
    | false =>
      rw [hb] at h2
      rw [show t.r3 = t.r2 from h2]
      exact ⟨s2, ⟨_, q2⟩, by simp⟩
    | true =>
      rw [hb] at h2
      have h2 : ReadFields t.r2 (fields2 t.L2) (lengthOf t.L2 :: t.fs2) t.r3 := h2
      have hL := hL2 hb
      obtain ⟨i1, i2, i3⟩ := h2.at (P := P 2) (by
        intro d hd
        simp only [fields2, List.mem_cons, List.not_mem_nil, or_false] at hd
        rcases hd with rfl | rfl | rfl
        · decide
        · decide
        · exact Or.inr (Or.inr (Or.inr (Or.inl ⟨rfl, by show 0 ≤ ((t.L2 : Int) - 4) * 8; omega⟩)))) (hP.h2 _) s2
        (Or.inl (by omega))
      refine ⟨i1, ⟨t.r1.pos.tdiv 8 + t.L1 + t.L2, ?_⟩, fun _ => ?_⟩
      · rw [i2, h2.bits, q2]
        simp [fields2, lengthDecl]
        omega
      · show FieldsAt (P 2) src p0 (8 * t.r2.pos.tdiv 8) _
        rw [tdiv_at q2, ← q2]
        exact i3
  obtain ⟨s3, ⟨q3, e3⟩, f2⟩ := sec2
  -- section 3
  obtain ⟨s3', e3', f3⟩ := t.h3.at (P := P 3) (by decide) hP.h3 s3 (Or.inl (by omega))
  obtain ⟨s3'', hlen, e3'', l3, g1, g2, g3⟩ := readIds_at s3' t.hids
  obtain ⟨s4, e4, fp3, q4⟩ := t.p3.at (P := P 3) s3''
  -- section 4
  obtain ⟨s4', e4', f4⟩ := t.h4.at (P := P 4) (by decide) hP.h4 s4 (Or.inl (by omega))
  refine ⟨?_, ?_, f2, ?_, ?_, ⟨s4', ?_⟩, fun hg => ?_⟩
  · show FieldsAt (P 0) src p0 (8 * r.pos.tdiv 8) _
    rw [tdiv_at hq, ← hq]
    exact f0
  · show FieldsAt (P 1) src p0 (8 * t.r1.pos.tdiv 8) (lengthOf t.L1 :: t.fs1 ++ t.pad1)
    rw [tdiv_at q1, ← q1]
    exact FieldsAt.append f1 (by rw [← e1']; exact fp1)
  · show FieldsAt (P 3) src p0 (8 * t.r3.pos.tdiv 8) (lengthOf t.L3 :: t.fs3 ++ [templateField t.ids] ++ t.pad3)
    rw [tdiv_at e3, ← e3]
    refine FieldsAt.append (FieldsAt.append f3 ?_) ?_
    · rw [← e3']
      exact ⟨fun _ => ⟨l3, g1, by rw [g2]; show _ = (t.ids.length : Int) * 16; rw [hlen], g3⟩, trivial⟩
    · have : t.r3.pos + fieldBits (lengthOf t.L3 :: t.fs3 ++ [templateField t.ids]) = t.r3''.pos := by
        rw [e3'', e3', ← hlen]
        simp [fieldBits, templateField]
        omega
      rw [this]
      exact fp3
  · show FieldsAt (P 4) src p0 (8 * t.r4.pos.tdiv 8) _
    rw [tdiv_at q4, ← q4]
    exact f4
  · rw [e4', t.h4.bits]
    show _ = 8 * t.r4.pos.tdiv 8 + 32
    rw [tdiv_at q4, ← q4]
    rfl
  · obtain ⟨s4'', l4, j1, j2⟩ := t.hp.at hc s4' (by omega) hg
    obtain ⟨s5, e5, fp4, q5⟩ := t.p4.at (P := P 4) s4''
    obtain ⟨s6, e6, f5⟩ := t.h5.at (P := P 5) (by decide) hP.h5 s5 (Or.inr (by decide))
    refine ⟨?_, ?_, s6⟩
    · show FieldsAt (P 4) src p0 (8 * t.r4.pos.tdiv 8)
        (lengthOf t.L4 :: t.fs4 ++ [payloadField t.p (t.r4''.pos - t.r4'.pos)] ++ t.pad4)
      rw [tdiv_at q4, ← q4]
      refine FieldsAt.append (FieldsAt.append f4 ?_) ?_
      · rw [← e4']
        exact ⟨fun _ => ⟨l4, j1, j2, trivial⟩, trivial⟩
      · have : t.r4.pos + fieldBits (lengthOf t.L4 :: t.fs4 ++ [payloadField t.p (t.r4''.pos - t.r4'.pos)]) = t.r4''.pos := by
          have := e4'
          simp [fieldBits, payloadField] at this ⊢
          omega
        rw [this]
        exact fp4
    · show FieldsAt (P 5) src p0 (8 * t.r5.pos.tdiv 8) _
      rw [tdiv_at q5, ← q5]
      exact f5

/-- A successful run, section by section. -/
theorem run_trace [GoFloat F] {c : FacCfg} {s s' : Fac F} {m : Message F} (h : Runtime.run c s = (.ok m, s')) :
    ∃ edition s1 s2 ds, Fac.seekStartSignature s = (.ok (), s1) ∧
      Fac.peekEditionNumber s1 = (.ok edition, s2) ∧
      (edition = 3 ∧ ds = Script.fields1Edition3 ∨ edition = 4 ∧ ds = Script.fields1Edition4) ∧
      ∃ t : Trace c ds s2.r, m = t.message ∧ s'.r = t.r6 := by
  unfold Runtime.run at h
  obtain ⟨_, s1, h1, h⟩ := M.bind_eq_ok.1 h
  unfold Script.boot at h
  obtain ⟨e, s2, h2, h⟩ := M.bind_eq_ok.1 h
  replace h2 := of_wrapErr_ok h2
  by_cases h4 : e = 4
  · rw [if_pos h4] at h
    obtain ⟨t, ht, hr⟩ := deserialise_trace (Or.inr rfl) h
    exact ⟨e, s1, s2, _, h1, h2, Or.inr ⟨h4, rfl⟩, t, ht, hr⟩
  · rw [if_neg h4] at h
    by_cases h3 : e = 3
    · rw [if_pos h3] at h
      obtain ⟨t, ht, hr⟩ := deserialise_trace (Or.inl rfl) h
      exact ⟨e, s1, s2, _, h1, h2, Or.inl ⟨h3, rfl⟩, t, ht, hr⟩
    · rw [if_neg h3] at h
      cases h

/-- A successful run on bytes. -/
theorem run_trace_bytes [GoFloat F] {c : FacCfg} {s s' : Fac F} {m : Message F} {bs : List UInt8} {q : Int}
    (hs : s.r = .bin ⟨BitReader.bitsOfBytes bs, 8 * q⟩) (h : Runtime.run c s = (.ok m, s')) :
    ∃ pre ds r, IsEdition ds ∧ Sync (BitReader.bitsOfBytes bs) (8 * q) r ∧ r.pos = 8 * (q + pre) ∧
      ∃ t : Trace c ds r, m = t.message ∧ s'.r = t.r6 := by
  obtain ⟨e, s1, s2, ds, h1, h2, hds, t, ht, hr⟩ := run_trace h
  obtain ⟨pre, post, hbs, -, rfl⟩ := seek_ok hs (Int.mul_tmod_right 8 _) h1
  have hpk := BitReader.peekUint_byte 7 (signature ++ post) (8 * q + 8 * pre.length)
    (tmod8_add (Int.mul_tmod_right 8 _) _) (by decide)
  have hpk' : Fac.peekEditionNumber { s with r := .bin ⟨BitReader.bitsOfBytes (signature ++ post),
      8 * q + 8 * pre.length⟩ } = _ := onReader_eq (Reader.call_bin hpk)
  have hs2 : s2.r = .bin ⟨BitReader.bitsOfBytes (signature ++ post), 8 * q + 8 * pre.length⟩ := by
    rw [hpk'] at h2
    rw [← (Prod.mk.inj h2).2]
  refine ⟨pre.length, ds, s2.r, ?_, ?_, ?_, t, ht, hr⟩
  · rcases hds with ⟨-, h⟩ | ⟨-, h⟩
    · exact Or.inl h
    · exact Or.inr h
  · refine ⟨BitReader.bitsOfBytes pre, BitReader.bitsOfBytes (signature ++ post), ?_, ?_⟩
    · rw [hs2, BitReader.bitsOfBytes_length]; push_cast; rfl
    · rw [hbs, ← BitReader.bitsOfBytes_append, List.append_assoc]
  · rw [hs2]
    show 8 * q + 8 * (pre.length : Int) = _
    omega

end Gobufr
