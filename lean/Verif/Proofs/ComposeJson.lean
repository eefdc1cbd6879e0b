import Verif.Spec.ComposeJson
import Verif.Proofs.Medium
import Verif.Proofs.EncodeJson
import Verif.Props.EncodeJson
import Verif.Props.Json

/-!
# Helper lemmas: flat JSON messages
-/

namespace Gobufr
open Spec Layout EncodeSpec

variable {F : Type}

/-- The scalars `l` before a JSON reader at position `p`; of the `N` scalars of the input, the first 8 had been cached. -/
def AtJson (N : Nat) (e : Err) (l : List (Tok F)) (p : Int) (r : Reader F) : Prop :=
  ∃ ts cache, r = .json ⟨⟨ts, e, p⟩, cache⟩ ∧ cache ++ scalars ts = l ∧ (∀ t ∈ cache, t ≠ .null) ∧ l.length ≤ N ∧
    cache.length = 8 - (N - l.length)

theorem AtJson.pos {N : Nat} {e : Err} {l : List (Tok F)} {p : Int} {r : Reader F} (h : AtJson N e l p r) : r.pos = p := by
  obtain ⟨ts, cache, rfl, -⟩ := h
  rfl

/-- One read. -/
theorem readWith_at [GoFloat F] {α : Type} (mb : M BitReader α) (width : Int) (conv : Tok F → Outcome α) {N : Nat} {e : Err}
    {l : List (Tok F)} {p : Int} {r : Reader F} {t : Tok F} (h : AtJson N e (t :: l) p r) :
    ∃ r', Reader.call mb (PeekJson.readWith width conv) r = (conv t, r') ∧ AtJson N e l (p + width) r' := by
  obtain ⟨ts, cache, rfl, h1, h2, h3, h4⟩ := h
  rw [List.length_cons] at h3 h4
  cases cache with
  | nil =>
    obtain ⟨ts', k1, k2⟩ := EncodeSpec.tokenLoop_scalars e ts h1
    have k3 : FlatJson.token (⟨ts, e, p⟩ : FlatJson F) = (.ok t, ⟨ts', e, p⟩) := by
      unfold FlatJson.token
      simp only [k1]
    have k4 : FlatJson.readWith width conv (⟨ts, e, p⟩ : FlatJson F) = (conv t, ⟨ts', e, p + width⟩) := by
      unfold FlatJson.readWith
      rw [M.bind_ok k3, M.bind_ok (M.modify_apply _ _), M.lift_apply]
    refine ⟨.json ⟨⟨ts', e, p + width⟩, []⟩, ?_, ts', [], rfl, k2, by simp, by omega, by simp at h4 ⊢; omega⟩
    unfold Reader.call PeekJson.readWith
    have h5 : (PeekJson.shift : M (PeekJson F) _) ⟨⟨ts, e, p⟩, []⟩ = (.ok none, ⟨⟨ts, e, p⟩, []⟩) := rfl
    dsimp only
    rw [M.bind_ok h5]
    unfold PeekJson.onBase
    simp only [k4]
  | cons c cache =>
    obtain ⟨rfl, h1'⟩ := List.cons.inj (show c :: (cache ++ scalars ts) = t :: l from h1)
    have hc : c ≠ .null := h2 c List.mem_cons_self
    have h5 : (PeekJson.shift : M (PeekJson F) _) ⟨⟨ts, e, p⟩, c :: cache⟩ = (.ok (some c), ⟨⟨ts, e, p⟩, cache⟩) := by
      unfold PeekJson.shift
      cases c <;> first | rfl | exact absurd rfl hc
    refine ⟨.json ⟨⟨ts, e, p + width⟩, cache⟩, ?_, ts, cache, rfl, h1', fun t ht => h2 t (List.mem_cons_of_mem _ ht), by omega, by
      rw [List.length_cons] at h4; omega⟩
    unfold Reader.call PeekJson.readWith
    dsimp only
    rw [M.bind_ok h5]
    rfl

/-! ## Fields -/

/-- The scalar of a declared field. -/
def declToken [GoFloat F] (d : FieldDecl) (v : Nat) : Tok F :=
  fieldToken (d.dataType == DataType.INT) d.nbits.toNat v
    (if d.dataType = DataType.UINT then .number else if d.dataType = DataType.BOOL then .flag
      else if d.dataType = DataType.BYTES then .text else .bits)

theorem bytesOf_bits : ∀ (k v : Nat), (bytesOf k v).flatMap (fun b => natBits 8 b.toNat) = natBits (8 * k) v
  | 0, v => rfl
  | k + 1, v => by
    rw [bytesOf, List.flatMap_cons, bytesOf_bits k v]
    have h1 : (UInt8.ofNat (v / 256 ^ k)).toNat = v / 256 ^ k % 256 := UInt8.toNat_ofNat'
    have h2 : natBits (8 * (k + 1)) v = natBits 8 (v / 2 ^ (8 * k)) ++ natBits (8 * k) v := by
      rw [show 8 * (k + 1) = 8 + 8 * k by omega]
      exact natBits_add _ _ _
    rw [h1, h2, show (256 : Nat) = 2 ^ 8 from rfl, ← Nat.pow_mul, natBits_mod]

theorem fromString_digits (l : List Bool) : newBinaryFromString (digits l) = .ok ⟨packBits l, l.length⟩ :=
  newBinaryFromString_text l

theorem readValue_json [GoFloat F] [LawfulGoFloat F] {N : Nat} {e : Err} (d : FieldDecl) (v : Nat) (t : List (Tok F)) (p : Int)
    (r : Reader F) (hs : d.sized) (hn : d.nbits ≤ 32) (hv : v < 2 ^ d.nbits.toNat) (h : AtJson N e (declToken d v :: t) p r) :
    ∃ x r', Fac.readValue d.dataType d.nbits r = (.ok x, r') ∧ AtJson N e t (p + d.nbits) r' ∧
      DenotesType d.dataType (natBits d.nbits.toNat v) x := by
  have hv53 : v ≤ 2 ^ 53 := by
    have : 2 ^ d.nbits.toNat ≤ 2 ^ 32 := Nat.pow_le_pow_right (by decide) (by omega)
    omega
  obtain ⟨name, dt, n, proxy⟩ := d
  dsimp only at *
  unfold Fac.readValue
  unfold declToken at h
  dsimp only at h
  rcases hs with ⟨h0, h1, h2⟩ | ⟨h0, h1⟩ | ⟨h0, h1, h2⟩ | ⟨h0, h1⟩ | ⟨h0, h1⟩ <;> dsimp only at h0 h1 <;> subst h0
  · rw [if_pos rfl] at h ⊢
    obtain ⟨r', k1, k2⟩ := readWith_at (BitReader.readUint n) n FlatJson.toUint h
    refine ⟨.uint v, r', ?_, k2, Or.inl ⟨rfl, ?_⟩⟩
    · have : FlatJson.toUint (fieldToken (F := F) (DataType.UINT == DataType.INT) n.toNat v .number) = .ok v := by
        show Outcome.ok _ = _
        rw [LawfulGoFloat.truncUint_ofNat v hv53]
      rw [this] at k1
      exact M.bind_ok k1
    · show Val.uint v = .uint (bitsVal _)
      rw [bitsVal_natBits_lt hv]
  · subst h1
    rw [if_neg (by decide), if_pos rfl] at h
    rw [if_neg (by decide), if_neg (by decide), if_neg (by decide), if_pos rfl]
    obtain ⟨r', k1, k2⟩ := readWith_at BitReader.readBool 1 FlatJson.toBool h
    refine ⟨.bool (v == 1), r', M.bind_ok k1, k2, Or.inr (Or.inl ⟨rfl, v == 1, ?_, rfl⟩)⟩
    have hv : v < 2 := hv
    match v, hv with
    | 0, _ => rfl
    | 1, _ => rfl
  · rw [if_neg (by decide), if_neg (by decide), if_pos rfl] at h
    rw [if_neg (by decide), if_neg (by decide), if_neg (by decide), if_neg (by decide), if_pos rfl]
    obtain ⟨r', k1, k2⟩ := readWith_at (BitReader.readBytes (n.tdiv 8)) (n.tdiv 8 * 8) FlatJson.toBytes h
    have hd : n.tdiv 8 * 8 = n := by
      rw [Int.tdiv_eq_ediv_of_nonneg h1]; dsimp only at h2; omega
    rw [hd] at k2
    refine ⟨.bytes (bytesOf (n.toNat / 8) v), r', M.bind_ok k1, k2, Or.inr (Or.inr (Or.inl ⟨rfl, _, ?_, rfl⟩))⟩
    rw [bytesOf_bits]
    congr 1
    dsimp only at h2
    omega
  · rw [if_neg (by decide), if_neg (by decide), if_neg (by decide)] at h
    rw [if_neg (by decide), if_neg (by decide), if_neg (by decide), if_neg (by decide), if_neg (by decide), if_pos rfl]
    obtain ⟨r', k1, k2⟩ := readWith_at (BitReader.readBinary n) n FlatJson.toBinary h
    refine ⟨.binary (some ⟨packBits (natBits n.toNat v), (natBits n.toNat v).length⟩), r', ?_, k2,
      Or.inr (Or.inr (Or.inr (Or.inl ⟨rfl, _, packed_packBits _, rfl⟩)))⟩
    have : FlatJson.toBinary (fieldToken (F := F) (DataType.BINARY == DataType.INT) n.toNat v .bits) =
        .ok (some ⟨packBits (natBits n.toNat v), (natBits n.toNat v).length⟩) := by
      show (do let b ← newBinaryFromString (digits _); Outcome.ok (some b)) = _
      rw [fromString_digits]
      rfl
    rw [this] at k1
    exact M.bind_ok k1
  · rw [if_neg (by decide), if_neg (by decide), if_neg (by decide)] at h
    rw [if_neg (by decide), if_pos rfl]
    obtain ⟨r', k1, k2⟩ := readWith_at (BitReader.readInt n) n FlatJson.toInt h
    refine ⟨.int v, r', ?_, k2, Or.inr (Or.inr (Or.inr (Or.inr ⟨rfl, _, rfl⟩)))⟩
    have : FlatJson.toInt (fieldToken (F := F) (DataType.INT == DataType.INT) n.toNat v .bits) = .ok (v : Int) := by
      show Outcome.ok _ = _
      rw [LawfulGoFloat.truncInt_ofNat v hv53]
    rw [this] at k1
    exact M.bind_ok k1

theorem readBits_json [GoFloat F] {N : Nat} {e : Err} (l : Bits) (t : List (Tok F)) (p : Int) (r : Reader F)
    (h : AtJson N e (bitsToken l :: t) p r) :
    ∃ x r', Reader.readBinary l.length r = (.ok (some x), r') ∧ AtJson N e t (p + l.length) r' := by
  obtain ⟨r', k1, k2⟩ := readWith_at (BitReader.readBinary l.length) l.length FlatJson.toBinary h
  refine ⟨⟨packBits l, l.length⟩, r', ?_, k2⟩
  have : FlatJson.toBinary (bitsToken (F := F) l) = .ok (some ⟨packBits l, l.length⟩) := by
    show (do let b ← newBinaryFromString (digits _); Outcome.ok (some b)) = _
    rw [fromString_digits]
    rfl
  rw [this] at k1
  exact k1

theorem readIds_json [GoFloat F] [LawfulGoFloat F] {N : Nat} {e : Err} : ∀ (ds : List (Nat × Nat × Nat)) (t : List (Tok F)) (p : Int)
    (r : Reader F), (∀ x ∈ ds, x.1 < 2 ^ 2 ∧ x.2.1 < 2 ^ 6 ∧ x.2.2 < 2 ^ 8) → AtJson N e (ds.flatMap idTokens ++ t) p r →
    ∃ r', Fac.readIds 2 6 8 ds.length r = (.ok (ds.map descriptorNumber), r') ∧ AtJson N e t (p + 16 * ds.length) r'
  | [], t, p, r, _, h => ⟨r, rfl, by simpa using h⟩
  | d :: ds, t, p, r, hd, h => by
    obtain ⟨d1, d2, d3⟩ := hd d List.mem_cons_self
    have num : ∀ (v : Nat) (w : Int), v < 2 ^ 8 → ∀ (l : List (Tok F)) (p : Int) (r : Reader F), AtJson N e (.num (GoFloat.ofNat v) :: l) p r →
        ∃ r', Reader.readUint w r = (.ok v, r') ∧ AtJson N e l (p + w) r' := by
      intro v w hv l p r h
      obtain ⟨r', k1, k2⟩ := readWith_at (BitReader.readUint w) w FlatJson.toUint h
      refine ⟨r', ?_, k2⟩
      have : FlatJson.toUint (Tok.num (GoFloat.ofNat v) : Tok F) = .ok v := by
        show Outcome.ok _ = _
        rw [LawfulGoFloat.truncUint_ofNat v (by omega)]
      rw [this] at k1
      exact k1
    rw [List.flatMap_cons, List.append_assoc] at h
    obtain ⟨r1, a1, b1⟩ := num d.1 2 (by omega) _ _ r h
    obtain ⟨r2, a2, b2⟩ := num d.2.1 6 (by omega) _ _ r1 b1
    obtain ⟨r3, a3, b3⟩ := num d.2.2 8 (by omega) _ _ r2 b2
    obtain ⟨r4, a4, b4⟩ := readIds_json ds t _ r3 (fun x hx => hd x (List.mem_cons_of_mem _ hx)) b3
    refine ⟨r4, ?_, ?_⟩
    · rw [List.length_cons]
      unfold Fac.readIds
      have : Fac.readId 2 6 8 r = (.ok (descriptorNumber d), r3) := by
        unfold Fac.readId
        rw [M.bind_ok a1, M.bind_ok a2, M.bind_ok a3]
        unfold descriptorNumber
        have : toInt64 ((d.1 * 100000 + d.2.1 * 1000 + d.2.2 : Nat) : Int) = ((d.1 * 100000 + d.2.1 * 1000 + d.2.2 : Nat) : Int) := by
          apply toInt64_small <;> omega
        rw [this]
        rfl
      rw [M.bind_ok this, M.bind_ok a4]
      rfl
    · have e : p + 2 + 6 + 8 + 16 * (ds.length : Int) = p + 16 * ((d :: ds).length : Int) := by
        rw [List.length_cons]; push_cast; omega
      rw [← e]
      exact b4

/-- Messages as flat JSON. -/
def jsonMedium [GoFloat F] [LawfulGoFloat F] (N : Nat) (e : Err) : Medium F (Tok F) where
  At := AtJson N e
  pos := AtJson.pos
  field d v := [declToken d v]
  bits l := [bitsToken l]
  id := idTokens
  readValue := readValue_json
  readBits := readBits_json
  readIds := readIds_json

/-! ## Data -/

section Data
open Flat

/-- The bits a value takes up. -/
def widthOf (info : PackingInfo F) : Int := if info.unit = .string then info.nbits.tdiv 8 * 8 else info.nbits

/-- One scalar, with the bits it takes up, for one value that is there. -/
def Sized [GoFloat F] (info : PackingInfo F) (b : List (Tok F × Int)) (vs : List (Val F)) : Prop :=
  ∃ t, b = [(t, widthOf info)] ∧ Scalar info [t] vs

/-- Scalars with the bits they take up; after them the position is `total`. -/
def AtSized (N : Nat) (e : Err) (total : Int) (l : List (Tok F × Int)) (r : Reader F) : Prop :=
  ∃ p, AtJson N e (l.map Prod.fst) p r ∧ p + (l.map Prod.snd).sum = total

theorem reads_sized [GoFloat F] [LawfulGoFloat F] {c : VisCfg} (hu : c.unpacker = .json) {N : Nat} {e : Err} {total : Int} :
    EncodeSpec.Reads (F := F) c (AtSized N e total) Sized none := by
  rintro info b vs ⟨tok, rfl, h⟩ t r ⟨p, hat, htot⟩
  cases h with
  | @one v _ h1 h2 h3 h4 =>
    suffices hs : ∃ r', jsonUnpack info r = (.ok v, r') ∧ AtJson N e (t.map Prod.fst) (p + widthOf info) r' by
      obtain ⟨r', k1, k2⟩ := hs
      refine ⟨.plain v, r', ?_, ⟨_, k2, ?_⟩, rfl⟩
      · rw [hu]
        simp only [Unpacker.unpack]
        rw [M.bind_ok k1]
        rfl
      · rw [← htot]
        simp
        omega
    have key : ∀ {α : Type} (width : Int) (conv : Tok F → Outcome α) (mb : M BitReader α) {a : α}, conv tok = .ok a →
        width = widthOf info →
        ∃ r', Reader.call mb (PeekJson.readWith width conv) r = (.ok a, r') ∧ AtJson N e (t.map Prod.fst) (p + widthOf info) r' := by
      intro α width conv mb a ha hw
      obtain ⟨r', k1, k2⟩ := readWith_at mb width conv hat
      rw [ha] at k1
      rw [hw] at k2
      exact ⟨r', k1, k2⟩
    unfold jsonUnpack
    cases h1 with
    | float f =>
      have h2 : info.unit = .numeric := h2
      rw [h2]
      obtain ⟨r', h5, h6⟩ := key info.nbits FlatJson.toFloat (BitReader.readNumber info.nbits) (a := f) rfl (by simp [widthOf, h2])
      exact ⟨r', M.bind_ok h5, h6⟩
    | uint n =>
      have h3 : n ≤ 2 ^ 53 := h3
      obtain ⟨r', h5, h6⟩ := key info.nbits FlatJson.toUint (BitReader.readUint info.nbits) (a := n)
        (by show Outcome.ok _ = _; rw [LawfulGoFloat.truncUint_ofNat n h3])
        (by rcases h2 with h2 | h2 <;> simp [widthOf, h2])
      refine ⟨r', ?_, h6⟩
      rcases h2 with h2 | h2 <;> rw [h2] <;> exact M.bind_ok h5
    | int z =>
      have h2 : info.unit = .code := h2
      have h3 : z.natAbs ≤ 2 ^ 53 := h3
      rw [h2]
      obtain ⟨r', h5, h6⟩ := key info.nbits FlatJson.toInt (BitReader.readInt info.nbits) (a := z) (by
        show Outcome.ok _ = _
        by_cases h0 : 0 ≤ z
        · rw [if_pos h0, LawfulGoFloat.truncInt_ofNat z.toNat (by omega), Int.toNat_of_nonneg h0]
        · rw [if_neg h0, LawfulGoFloat.truncInt_ofInt z h3]) (by simp [widthOf, h2])
      exact ⟨r', M.bind_ok h5, h6⟩
    | text s =>
      have h2 : info.unit = .string := h2
      rw [h2]
      obtain ⟨r', h5, h6⟩ := key (info.nbits.tdiv 8 * 8) FlatJson.toBytes (BitReader.readBytes (info.nbits.tdiv 8)) (a := s) rfl
        (by simp [widthOf, h2])
      exact ⟨r', M.bind_ok h5, h6⟩
    | @bits l bs hp =>
      have h2 : info.unit = .binary := h2
      rw [h2]
      obtain ⟨r', h5, h6⟩ := key info.nbits FlatJson.toBinary (BitReader.readBinary info.nbits) (a := some ⟨bs, l.length⟩) (by
        show (do let b ← newBinaryFromString (digits l); Outcome.ok (some b)) = _
        have : newBinaryFromString (digits l) = .ok ⟨bs, l.length⟩ := by
          rw [packed_inj hp (packed_packBits l)]
          exact newBinaryFromString_text l
        rw [this]
        rfl) (by simp [widthOf, h2])
      exact ⟨r', M.bind_ok h5, h6⟩
    | missing => exact h4.elim

theorem single_width [GoFloat F] {info : PackingInfo F} {b : List Bool} {vs : List (Val F)} (h : Single info b vs) :
    (b.length : Int) = vs.length * widthOf info := by
  have num : ∀ {u : Unit'}, UnpackSpec.Plain u → u ≠ .string := by
    rintro u (rfl | rfl | rfl) <;> decide
  cases h with
  | number h1 h2 h3 h4 =>
    simp [widthOf, num h1, h2]
  | @text s h1 h2 =>
    have : (s.flatMap byteBits).length = 8 * s.length := by
      rw [← BitReader.bitsOfBytes_length]; rfl
    rw [this]
    simp [widthOf, h1, h2]
    omega
  | signed h1 h2 h3 h4 => simp [widthOf, h1, h2]
  | skipped h1 h2 h3 => simp [widthOf, h1, h2]

/-- The scalars of a value, with the bits they take up. -/
def sizedOf [GoFloat F] (info : PackingInfo F) (vs : List (Val F)) : List (Tok F × Int) := vs.map fun v => (tokenOf v, widthOf info)

theorem single_sized [GoFloat F] {info : PackingInfo F} {b : List Bool} {vs : List (Val F)} (h : Single info b vs)
    (hv : ∀ v ∈ vs, Present v ∧ Exact v) : Sized info (sizedOf info vs) vs := by
  obtain ⟨v, rfl⟩ := single_one h
  exact ⟨tokenOf v, rfl, single_json h hv⟩

theorem sizedOf_sum [GoFloat F] (info : PackingInfo F) (vs : List (Val F)) :
    ((sizedOf info vs).map Prod.snd).sum = vs.length * widthOf info := by
  induction vs with
  | nil => simp [sizedOf]
  | cons v vs ih =>
    simp only [sizedOf, List.map_cons, List.sum_cons, List.length_cons] at ih ⊢
    rw [ih]
    push_cast
    rw [Int.add_mul, Int.one_mul, Int.add_comm]

theorem items_sum [GoFloat F] (is : List (Datum F)) :
    ((is.flatMap fun i => sizedOf i.info i.vals).map Prod.snd).sum = (is.map fun i => (i.vals.length : Int) * widthOf i.info).sum := by
  induction is with
  | nil => rfl
  | cons i is ih => rw [List.flatMap_cons, List.map_append, List.sum_append, ih, sizedOf_sum, List.map_cons, List.sum_cons]

theorem items_tokens [GoFloat F] (is : List (Datum F)) :
    (is.flatMap fun i => sizedOf i.info i.vals).map Prod.fst = (is.flatMap Datum.vals).map tokenOf := by
  induction is with
  | nil => rfl
  | cons i is ih =>
    rw [List.flatMap_cons, List.map_append, ih, List.flatMap_cons, List.map_append]
    simp [sizedOf]

/-- The data of a message as flat JSON. -/
theorem decodes_json [GoFloat F] [LawfulGoFloat F] {c : VisCfg} (hc : CfgOk c) (hj : c.inputType = .flatJson) {ns : List Ast}
    (hns : noBaseL ns = true) (d : Desc) {N : Nat} {e : Err} : ∀ (data : List (List Bool × List (Datum F))),
    (∀ x ∈ data, ∃ y, Coded Single c.compatible {} ns x.1 x.2 y) → (∀ v ∈ EncodeSpec.values data, Present v ∧ Exact v) →
    ∀ (t : List (Tok F)) (p0 : Payload F) (s : Vis F) (p : Int),
      AtJson N e ((EncodeSpec.values data).map tokenOf ++ t) p s.r →
      ∃ p' s', Vis.decodeSubsets c (.base d ns) data.length p0 s = (.ok p', s') ∧
        AtJson N e t (p + (data.flatMap Prod.fst).length) s'.r ∧
        p'.subsets.map reported = p0.subsets.map reported ++ data.map fun x => written x.2 0
  | [], _, _, t, p0, s, p, hr => ⟨p0, s, rfl, by simpa [EncodeSpec.values] using hr, by simp⟩
  | x :: data, h, hv, t, p0, s, p, hr => by
    have hcomp : ¬ (c.compressed = true ∧ c.inputType = .binary) := by simp [hj]
    obtain ⟨y, hx⟩ := h x List.mem_cons_self
    have hv1 : ∀ i ∈ x.2, ∀ v ∈ i.vals, Present v ∧ Exact v := fun i hi v hvv =>
      hv v (List.mem_flatMap.2 ⟨x, List.mem_cons_self, List.mem_flatMap.2 ⟨i, hi, hvv⟩⟩)
    have hv2 : ∀ v ∈ EncodeSpec.values data, Present v ∧ Exact v := fun v hvv => by
      obtain ⟨z, hz, hz'⟩ := List.mem_flatMap.1 hvv
      exact hv v (List.mem_flatMap.2 ⟨z, List.mem_cons_of_mem _ hz, hz'⟩)
    have hsz := hx.rewrite (f := sizedOf) (P := fun v => Present v ∧ Exact v) (fun _ _ _ hw hp => single_sized hw hp) hv1
    have hlen : (x.1.length : Int) = ((x.2.flatMap fun i => sizedOf i.info i.vals).map Prod.snd).sum := by
      rw [items_sum]
      exact hx.measure (g := fun info vs => vs.length * widthOf info) fun _ _ _ hw => single_width hw
    obtain ⟨t', ht'⟩ : ∃ t', t' = ((EncodeSpec.values data).map tokenOf ++ t).map fun t : Tok F => (t, (0 : Int)) := ⟨_, rfl⟩
    have hfst : t'.map Prod.fst = (EncodeSpec.values data).map tokenOf ++ t := by
      rw [ht', List.map_map, show (Prod.fst ∘ fun t : Tok F => (t, (0 : Int))) = _root_.id from rfl, List.map_id]
    have hsnd : (t'.map Prod.snd).sum = 0 := by
      rw [ht']
      generalize (EncodeSpec.values data).map tokenOf ++ t = l
      induction l with
      | nil => rfl
      | cons a l ih => simpa using ih
    have hat : AtSized N e (p + x.1.length) ((x.2.flatMap fun i => sizedOf i.info i.vals) ++ t') s.r := by
      refine ⟨p, ?_, ?_⟩
      · rw [List.map_append, items_tokens, hfst, ← List.append_assoc, ← List.map_append]
        exact hr
      · rw [List.map_append, List.sum_append, hsnd, ← hlen, Int.add_zero]
    obtain ⟨s1, ρ, f, e1, ⟨p1, r1, hp1⟩, st1, rep, hcols, hsub⟩ := root_coded hc (reads_sized (json_unpacker hc hj))
      (by rw [if_neg hcomp]) (by simp) hns hsz d hat
    rw [hfst] at r1
    rw [hsnd, Int.add_zero] at hp1
    subst hp1
    obtain ⟨p', s', e2, r2, q2⟩ := decodes_json hc hj hns d data (fun z hz => h z (List.mem_cons_of_mem _ hz)) hv2 t
      (Vis.addSubsets s1.heap s1.node s1.cells p0) s1 _ r1
    refine ⟨p', s', ?_, ?_, ?_⟩
    · rw [List.length_cons]
      refine decodeSubsets_succ.2 ⟨s1, s1.node, e1, ?_, e2⟩
      unfold Vis.treeRoot
      rw [st1]
      rfl
    · rw [List.flatMap_cons, List.length_append]
      have : p + ((x.1.length + (data.flatMap Prod.fst).length : Nat) : Int) = p + x.1.length + (data.flatMap Prod.fst).length := by
        omega
      rw [this]
      exact r2
    · rw [q2, addSubsets_subsets, rep.cells, hsub]
      simp only [subsetsOf, List.zipIdx_cons, List.zipIdx_nil, List.map_cons, List.map_nil, List.map_append,
        reported_cells rep.nodes, hcols]
      simp

end Data

/-! ## The scalars of a message -/

/-- The scalars of declared fields. -/
def declTokens [GoFloat F] (plain : String → Bool) (v : String → Nat) (ds : List FieldDecl) : List (Tok F) :=
  ds.map fun d => fieldToken (plain d.name) d.nbits.toNat (v d.name) (kindOf (str d.name))

theorem headTokens_decls [GoFloat F] (plain : String → Bool) (v : String → Nat) (ds : List FieldDecl) :
    headTokens (F := F) plain v (ds.map FieldDecl.shape) = declTokens plain v ds := by
  induction ds with
  | nil => rfl
  | cons d ds ih =>
    simp only [headTokens, declTokens, List.map_cons, List.flatMap_cons] at ih ⊢
    rw [ih]
    rfl

theorem headTokens_free [GoFloat F] (plain : String → Bool) (v : String → Nat) (fs : List FieldShape) (name : String) :
    headTokens (F := F) plain v (fs ++ [free name]) = headTokens plain v fs := by
  simp [headTokens, free]

/-- The scalars of section 2. -/
def _root_.Spec.Draft.tokens2 [GoFloat F] (d : Draft) (plain : Nat → String → Bool) : List (Tok F) := match d.locals with
  | some l => declTokens (plain 2) (d.head 2) (lengthDecl :: reserved2) ++ [bitsToken l]
  | none => []

theorem draft_tokens [GoFloat F] (d : Draft) (plain : Nat → String → Bool) (values : List (Tok F)) :
    d.tokens plain values = declTokens (plain 0) (d.head 0) Script.fields0 ++
      (declTokens (plain 1) (d.head 1) (lengthDecl :: editionDecls d.edition) ++ (padTokens d.pad1 ++ (d.tokens2 plain ++
      (declTokens (plain 3) (d.head 3) (lengthDecl :: Script.fields3) ++ (d.descriptors.flatMap idTokens ++ (padTokens d.pad3 ++
      (declTokens (plain 4) (d.head 4) (lengthDecl :: reserved4) ++ (values ++ (padTokens d.pad4 ++
      declTokens (plain 5) (d.head 5) stop5))))))))) := by
  have h0 : headTokens (F := F) (plain indicator.number) (d.head indicator.number) indicator.fields =
      declTokens (plain 0) (d.head 0) Script.fields0 := headTokens_decls _ _ Script.fields0
  have h1 : headTokens (F := F) (plain (if d.edition = 4 then identification4 else identification3).number)
      (d.head (if d.edition = 4 then identification4 else identification3).number)
      (if d.edition = 4 then identification4 else identification3).fields =
      declTokens (plain 1) (d.head 1) (lengthDecl :: editionDecls d.edition) := by
    unfold editionDecls
    split
    · exact headTokens_decls _ _ (lengthDecl :: Script.fields1Edition4)
    · exact headTokens_decls _ _ (lengthDecl :: Script.fields1Edition3)
  have h1' : d.tailTokens values (if d.edition = 4 then identification4 else identification3).number = padTokens d.pad1 := by
    split <;> rfl
  have h2 : headTokens (F := F) (plain Layout.optional.number) (d.head Layout.optional.number) Layout.optional.fields =
      declTokens (plain 2) (d.head 2) (lengthDecl :: reserved2) := by
    rw [← headTokens_decls, ← headTokens_free _ _ _ "localBits"]; rfl
  have h3 : headTokens (F := F) (plain description.number) (d.head description.number) description.fields =
      declTokens (plain 3) (d.head 3) (lengthDecl :: Script.fields3) := by
    rw [← headTokens_decls, ← headTokens_free _ _ _ "unexpandedTemplate"]; rfl
  have h4 : headTokens (F := F) (plain Layout.data.number) (d.head Layout.data.number) Layout.data.fields =
      declTokens (plain 4) (d.head 4) (lengthDecl :: reserved4) := by
    rw [← headTokens_decls, ← headTokens_free _ _ _ "payload"]; rfl
  have h5 : headTokens (F := F) (plain ending.number) (d.head ending.number) ending.fields =
      declTokens (plain 5) (d.head 5) stop5 := headTokens_decls _ _ stop5
  have t0 : d.tailTokens values indicator.number = [] := rfl
  have t2 : d.tailTokens values Layout.optional.number = [bitsToken (d.locals.getD [])] := rfl
  have t3 : d.tailTokens values description.number = d.descriptors.flatMap idTokens ++ padTokens d.pad3 := rfl
  have t4 : d.tailTokens values Layout.data.number = values ++ padTokens d.pad4 := rfl
  have t5 : d.tailTokens values ending.number = [] := rfl
  unfold Draft.tokens Draft.sections Layout.sections Draft.tokens2
  cases h : d.locals with
  | none => simp [h0, h1, h1', h3, h4, h5, t0, t3, t4, t5]
  | some l => simp [h0, h1, h1', h2, h3, h4, h5, t0, t2, t3, t4, t5, h]

/-- A field is given in the way its declaration asks for. -/
def FieldDecl.given (plain : String → Bool) (d : FieldDecl) : Prop :=
  (d.dataType = DataType.UINT ∧ kindOf (str d.name) = .number) ∨ (d.dataType = DataType.BOOL ∧ kindOf (str d.name) = .flag) ∨
    (d.dataType = DataType.BYTES ∧ kindOf (str d.name) = .text) ∨
    (d.dataType = DataType.BINARY ∧ kindOf (str d.name) = .bits ∧ plain d.name = false) ∨
    (d.dataType = DataType.INT ∧ kindOf (str d.name) = .bits ∧ plain d.name = true)

instance (plain : String → Bool) (d : FieldDecl) : Decidable (d.given plain) := by unfold FieldDecl.given; infer_instance

theorem declTokens_given [GoFloat F] [LawfulGoFloat F] {plain : String → Bool} (v : String → Nat) {ds : List FieldDecl} {N : Nat} {e : Err}
    (h : ∀ d ∈ ds, d.given plain) : declTokens (F := F) plain v ds = (jsonMedium N e).decls v ds := by
  induction ds with
  | nil => rfl
  | cons d ds ih =>
    have h1 : fieldToken (F := F) (plain d.name) d.nbits.toNat (v d.name) (kindOf (str d.name)) = declToken d (v d.name) := by
      unfold declToken
      rcases h d List.mem_cons_self with ⟨a, b⟩ | ⟨a, b⟩ | ⟨a, b⟩ | ⟨a, b, c⟩ | ⟨a, b, c⟩
      · rw [a, b]; rfl
      · rw [a, b]; rfl
      · rw [a, b]; rfl
      · rw [a, b, c]; rfl
      · rw [a, b, c]; rfl
    have h2 := ih fun x hx => h x (List.mem_cons_of_mem _ hx)
    unfold declTokens Medium.decls at h2 ⊢
    rw [List.map_cons, List.flatMap_cons, h1, h2]
    rfl

theorem tokens_message [GoFloat F] [LawfulGoFloat F] (d : Draft) (he : d.edition = 3 ∨ d.edition = 4) (values : List (Tok F)) (N : Nat)
    (e : Err) : d.tokens (asNumbers d.edition) values = (jsonMedium N e).message d values := by
  rw [draft_tokens]
  unfold Medium.message
  rw [declTokens_given (N := N) (e := e) (d.head 0) (show ∀ x ∈ Script.fields0, x.given (asNumbers d.edition 0) from by
      show ∀ x ∈ Script.fields0, x.given (fun _ => false); decide), declTokens_given (N := N) (e := e) (d.head 1)
      (by unfold editionDecls; rcases he with h | h <;> rw [h] <;> decide),
    declTokens_given (N := N) (e := e) (d.head 3) (show ∀ x ∈ lengthDecl :: Script.fields3, x.given (asNumbers d.edition 3) from by
      show ∀ x ∈ lengthDecl :: Script.fields3, x.given (fun _ => true); decide),
    declTokens_given (N := N) (e := e) (d.head 4) (show ∀ x ∈ lengthDecl :: reserved4, x.given (asNumbers d.edition 4) from by
      show ∀ x ∈ lengthDecl :: reserved4, x.given (fun _ => true); decide),
    declTokens_given (N := N) (e := e) (d.head 5) (show ∀ x ∈ stop5, x.given (asNumbers d.edition 5) from by
      show ∀ x ∈ stop5, x.given (fun _ => false); decide)]
  have h2 : d.tokens2 (asNumbers d.edition) = (jsonMedium (F := F) N e).part2 d := by
    unfold Draft.tokens2 Medium.part2
    cases d.locals with
    | none => rfl
    | some l =>
      dsimp only
      rw [declTokens_given (N := N) (e := e) (d.head 2) (show ∀ x ∈ lengthDecl :: reserved2, x.given (asNumbers d.edition 2) from by
        show ∀ x ∈ lengthDecl :: reserved2, x.given (fun _ => false); decide)]
      rfl
  rw [h2]
  rfl

/-! ## The beginning of a message -/

theorem fill_at [GoFloat F] {e : Err} {p : Int} : ∀ (a : List (Tok F)) {ts cache b : List (Tok F)}, scalars ts = a ++ b →
    ∃ ts', PeekJson.fill a.length ⟨⟨ts, e, p⟩, cache⟩ = (.ok (), ⟨⟨ts', e, p⟩, cache ++ a⟩) ∧ scalars ts' = b
  | [], ts, cache, b, h => ⟨ts, by simp [PeekJson.fill], by simpa using h⟩
  | t :: a, ts, cache, b, h => by
    obtain ⟨ts1, k1, k2⟩ := EncodeSpec.tokenLoop_scalars e ts (l := a ++ b) h
    obtain ⟨ts2, k3, k4⟩ := fill_at a (cache := cache ++ [t]) (b := b) k2
    refine ⟨ts2, ?_, k4⟩
    have k5 : PeekJson.onBase FlatJson.token (⟨⟨ts, e, p⟩, cache⟩ : PeekJson F) = (.ok t, ⟨⟨ts1, e, p⟩, cache⟩) := by
      unfold PeekJson.onBase FlatJson.token
      simp only [k1]
    rw [List.length_cons]
    unfold PeekJson.fill
    rw [M.bind_ok (wrapErr_ok k5), M.bind_ok (M.modify_apply _ _)]
    dsimp only
    rw [k3]
    simp

/-- The start signature is there, and the eighth scalar is taken for the edition number. -/
theorem start_json [GoFloat F] {e : Err} {p : Int} {ts l : List (Tok F)} {t1 t2 t3 t4 t5 t6 : Tok F} {f : F}
    (h : scalars ts = .str (str "BUFR") :: t1 :: t2 :: t3 :: t4 :: t5 :: t6 :: .num f :: l)
    (hn : ∀ t ∈ [t1, t2, t3, t4, t5, t6], t ≠ .null) (s : Fac F) (hs : s.r = .json ⟨⟨ts, e, p⟩, []⟩) :
    ∃ s1 r2, Fac.seekStartSignature s = (.ok (), s1) ∧ Fac.peekEditionNumber s1 = (.ok (GoFloat.truncUint f), { s with r := r2 }) ∧
      AtJson (scalars ts).length e (scalars ts) p r2 := by
  obtain ⟨ts1, k1, k2⟩ := fill_at (e := e) (p := p) [.str (str "BUFR")] (ts := ts) (cache := [])
    (b := t1 :: t2 :: t3 :: t4 :: t5 :: t6 :: .num f :: l) h
  obtain ⟨ts2, k3, k4⟩ := fill_at (e := e) (p := p) [t1, t2, t3, t4, t5, t6, .num f] (ts := ts1) (cache := [.str (str "BUFR")]) (b := l) k2
  have hp0 : PeekJson.peekBytes 0 4 (⟨⟨ts, e, p⟩, []⟩ : PeekJson F) = (.ok (str "BUFR"), ⟨⟨ts1, e, p⟩, [.str (str "BUFR")]⟩) := by
    unfold PeekJson.peekBytes PeekJson.peek
    have : PeekJson.fill ((0 : Int) - (([] : List (Tok F)).length : Int) + 1).toNat (⟨⟨ts, e, p⟩, []⟩ : PeekJson F) = _ := k1
    rw [M.bind_assoc, M.bind_ok (M.get_apply _), M.bind_assoc, M.bind_ok this]
    rfl
  have hp7 : PeekJson.peekUint 7 8 (⟨⟨ts1, e, p⟩, [.str (str "BUFR")]⟩ : PeekJson F) = (.ok (GoFloat.truncUint f), ⟨⟨ts2, e, p⟩,
      [.str (str "BUFR"), t1, t2, t3, t4, t5, t6, .num f]⟩) := by
    unfold PeekJson.peekUint PeekJson.peek
    have : PeekJson.fill ((7 : Int) - (([.str (str "BUFR")] : List (Tok F)).length : Int) + 1).toNat
      (⟨⟨ts1, e, p⟩, [.str (str "BUFR")]⟩ : PeekJson F) = _ := k3
    rw [M.bind_assoc, M.bind_ok (M.get_apply _), M.bind_assoc, M.bind_ok this]
    rfl
  refine ⟨{ s with r := .json ⟨⟨ts1, e, p⟩, [.str (str "BUFR")]⟩ }, .json ⟨⟨ts2, e, p⟩, [.str (str "BUFR"), t1, t2, t3, t4, t5, t6, .num f]⟩,
    ?_, ?_, ts2, _, rfl, ?_, ?_, Nat.le_refl _, ?_⟩
  · unfold Fac.seekStartSignature
    apply onReader_eq
    rw [hs]
    unfold Fac.seekLoop
    have : Reader.peekBytes 0 4 (.json ⟨⟨ts, e, p⟩, []⟩ : Reader F) = (.ok (str "BUFR"), .json ⟨⟨ts1, e, p⟩, [.str (str "BUFR")]⟩) := by
      unfold Reader.peekBytes Reader.call
      simp only [hp0]
    rw [M.bind_ok this]
    rfl
  · unfold Fac.peekEditionNumber
    apply onReader_eq (s := { s with r := .json ⟨⟨ts1, e, p⟩, [.str (str "BUFR")]⟩ })
    unfold Reader.peekUint Reader.call
    simp only [hp7]
  · rw [k4, h]; rfl
  · intro t ht
    simp only [List.mem_cons, List.not_mem_nil, or_false] at ht hn
    rcases ht with rfl | ht | ht | ht | ht | ht | ht | rfl
    · simp
    all_goals first | exact hn t (by simp [ht]) | simp
  · simp

theorem signature_text {d : Draft} (hd : d.Sound) : bytesOf 4 (d.head 0 "startSignature") = str "BUFR" := by
  have h := bytesOf_bits 4 (d.head 0 "startSignature")
  rw [show 8 * 4 = 32 from rfl, hd.signature] at h
  have h2 : ∀ bs : List UInt8, BitReader.bitsOfBytes bs = bs.flatMap fun b => natBits 8 b.toNat := by
    intro bs
    unfold BitReader.bitsOfBytes
    rw [show (byteBits : UInt8 → _) = fun b => natBits 8 b.toNat from funext byteBits_natBits]
  rw [← h2, ← h2] at h
  rw [← BitReader.bytesOfBits_bitsOfBytes (bytesOf 4 _), h, BitReader.bytesOfBits_bitsOfBytes]
  rfl

/-- The first scalars of a message. -/
theorem first_tokens [GoFloat F] {d : Draft} (hd : d.Sound) (plain : Nat → String → Bool) (values : List (Tok F)) :
    ∃ t1 t2 t3 t4 t5 t6 l, d.tokens plain values = .str (str "BUFR") :: t1 :: t2 :: t3 :: t4 :: t5 :: t6 ::
      .num (GoFloat.ofNat (d.head 1 "updateSequenceNumber")) :: l ∧ ∀ t ∈ [t1, t2, t3, t4, t5, t6], t ≠ .null := by
  have nn : ∀ (b : Bool) (w v : Nat) (k : Kind), fieldToken (F := F) b w v k ≠ .null := by
    intro b w v k
    cases k <;> simp [fieldToken]
    cases b <;> simp
  have h0 : fieldToken (F := F) (plain 0 "startSignature") 32 (d.head 0 "startSignature") (kindOf (str "startSignature")) =
      .str (str "BUFR") := by
    rw [show kindOf (str "startSignature") = .text from by decide, ← signature_text hd]
    rfl
  have h7 : fieldToken (F := F) (plain 1 "updateSequenceNumber") 8 (d.head 1 "updateSequenceNumber") (kindOf (str "updateSequenceNumber")) =
      .num (GoFloat.ofNat (d.head 1 "updateSequenceNumber")) := by
    rw [show kindOf (str "updateSequenceNumber") = .number from by decide]
    rfl
  obtain ⟨ft, hft⟩ : ∃ ft : Nat → String → Nat → Tok F, ft = fun n name w => fieldToken (plain n name) w (d.head n name) (kindOf (str name)) :=
    ⟨_, rfl⟩
  have nf : ∀ n name w, ft n name w ≠ .null := fun n name w => by rw [hft]; exact nn _ _ _ _
  obtain ⟨more, hmore⟩ : ∃ more : List (Tok F), more = (padTokens d.pad1 ++ (d.tokens2 plain ++
      (declTokens (plain 3) (d.head 3) (lengthDecl :: Script.fields3) ++ (d.descriptors.flatMap idTokens ++ (padTokens d.pad3 ++
      (declTokens (plain 4) (d.head 4) (lengthDecl :: reserved4) ++ (values ++ (padTokens d.pad4 ++
      declTokens (plain 5) (d.head 5) stop5)))))))) := ⟨_, rfl⟩
  rw [draft_tokens, ← h0, ← h7, ← hmore]
  have fin : ∀ a b c d e f : Tok F, a ≠ .null → b ≠ .null → c ≠ .null → d ≠ .null → e ≠ .null → f ≠ .null →
      ∀ t ∈ [a, b, c, d, e, f], t ≠ .null := by
    intro a b c d e f h1 h2 h3 h4 h5 h6 t ht
    simp only [List.mem_cons, List.not_mem_nil, or_false] at ht
    rcases ht with rfl | rfl | rfl | rfl | rfl | rfl <;> assumption
  unfold editionDecls
  rcases hd.edition with he | he
  · rw [he]
    exact ⟨ft 0 "totalLengthInBytes" 24, ft 0 "bufrEditionNumber" 8, ft 1 "lengthInBytes" 24, ft 1 "masterTableNumber" 8,
      ft 1 "originatingSubCentre" 8, ft 1 "originatingCentre" 8, declTokens (plain 1) (d.head 1) (Script.fields1Edition3.drop 4) ++ more,
      by rw [hft]; rfl, fin _ _ _ _ _ _ (nf _ _ _) (nf _ _ _) (nf _ _ _) (nf _ _ _) (nf _ _ _) (nf _ _ _)⟩
  · rw [he]
    exact ⟨ft 0 "totalLengthInBytes" 24, ft 0 "bufrEditionNumber" 8, ft 1 "lengthInBytes" 24, ft 1 "masterTableNumber" 8,
      ft 1 "originatingCentre" 16, ft 1 "originatingSubCentre" 16, declTokens (plain 1) (d.head 1) (Script.fields1Edition4.drop 4) ++ more,
      by rw [hft]; rfl, fin _ _ _ _ _ _ (nf _ _ _) (nf _ _ _) (nf _ _ _) (nf _ _ _) (nf _ _ _) (nf _ _ _)⟩

end Gobufr
