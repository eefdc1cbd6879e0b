import Verif.Proofs.ComposeJson

/-!
# Helper lemmas: what a flat JSON message that is decoded must look like
-/

namespace Gobufr
open Spec Layout EncodeSpec

variable {F : Type}

/-- A scalar is taken for a field of type `dt`, and its value is `x`. -/
def TakesTok [GoFloat F] (dt : DataType) (t : Tok F) (x : Val F) : Prop :=
  (dt = DataType.UINT ∧ ∃ f, t = .num f ∧ x = .uint (GoFloat.truncUint f)) ∨ (dt = DataType.BOOL ∧ ∃ b, t = .bool b ∧ x = .bool b) ∨
    (dt = DataType.INT ∧ ∃ f, t = .num f) ∨ ((dt = DataType.BYTES ∨ dt = DataType.BINARY) ∧ ∃ s, t = .str s)

theorem toFloat_ok {t : Tok F} {f : F} (h : FlatJson.toFloat t = .ok f) : t = .num f := by
  cases t <;> simp_all [FlatJson.toFloat]

theorem toUint_ok [GoFloat F] {t : Tok F} {n : Nat} (h : FlatJson.toUint t = .ok n) : ∃ f, t = .num f ∧ n = GoFloat.truncUint f := by
  cases t with
  | num f => cases h; exact ⟨f, rfl, rfl⟩
  | _ => cases h

theorem toInt_ok [GoFloat F] {t : Tok F} {n : Int} (h : FlatJson.toInt t = .ok n) : ∃ f, t = .num f := by
  cases t with
  | num f => exact ⟨f, rfl⟩
  | _ => cases h

theorem toBool_ok {t : Tok F} {b : Bool} (h : FlatJson.toBool t = .ok b) : t = .bool b := by
  cases t <;> simp_all [FlatJson.toBool]

theorem toBytes_ok {t : Tok F} {b : List UInt8} (h : FlatJson.toBytes t = .ok b) : ∃ s, t = .str s := by
  cases t with
  | str s => exact ⟨s, rfl⟩
  | _ => cases h

theorem toBinary_ok {t : Tok F} {b : Option Binary} (h : FlatJson.toBinary t = .ok b) : ∃ s, t = .str s := by
  cases t with
  | str s => exact ⟨s, rfl⟩
  | _ => cases h

theorem readUint_back [GoFloat F] {N : Nat} {e : Err} {w : Int} {t : Tok F} {l : List (Tok F)} {p : Int} {r r' : Reader F} {n : Nat}
    (h : AtJson N e (t :: l) p r) (hr : Reader.readUint w r = (.ok n, r')) :
    AtJson N e l (p + w) r' ∧ ∃ f, t = .num f ∧ n = GoFloat.truncUint f := by
  obtain ⟨r1, k1, k2⟩ := readWith_at (BitReader.readUint w) w FlatJson.toUint h
  obtain ⟨a, rfl⟩ := Prod.mk.inj (k1.symm.trans hr)
  exact ⟨k2, toUint_ok a⟩

theorem readBinary_back [GoFloat F] {N : Nat} {e : Err} {w : Int} {t : Tok F} {l : List (Tok F)} {p : Int} {r r' : Reader F}
    {b : Option Binary} (h : AtJson N e (t :: l) p r) (hr : Reader.readBinary w r = (.ok b, r')) :
    AtJson N e l (p + w) r' ∧ ∃ s, t = .str s := by
  obtain ⟨r1, k1, k2⟩ := readWith_at (BitReader.readBinary w) w FlatJson.toBinary h
  obtain ⟨a, rfl⟩ := Prod.mk.inj (k1.symm.trans hr)
  exact ⟨k2, toBinary_ok a⟩

theorem readValue_back [GoFloat F] {N : Nat} {e : Err} {d : FieldDecl} {t : Tok F} {l : List (Tok F)} {p : Int} {r r' : Reader F} {x : Val F}
    (hs : d.sized ∨ d.dataType = DataType.BINARY) (h : AtJson N e (t :: l) p r)
    (hr : Fac.readValue d.dataType d.nbits r = (.ok x, r')) : AtJson N e l (p + d.nbits) r' ∧ TakesTok d.dataType t x := by
  obtain ⟨name, dt, n, proxy⟩ := d
  dsimp only at *
  have bin : ∀ {r' : Reader F} {x : Val F}, Fac.readValue DataType.BINARY n r = (.ok x, r') → AtJson N e l (p + n) r' ∧ TakesTok DataType.BINARY t x := by
    intro r' x hr
    unfold Fac.readValue at hr
    rw [if_neg (by decide), if_neg (by decide), if_neg (by decide), if_neg (by decide), if_neg (by decide), if_pos rfl] at hr
    obtain ⟨b, r1, h1, h2⟩ := M.bind_eq_ok.1 hr
    cases h2
    obtain ⟨k1, k2⟩ := readBinary_back h h1
    exact ⟨k1, Or.inr (Or.inr (Or.inr ⟨Or.inr rfl, k2⟩))⟩
  rcases hs with (⟨h0, h1, h2⟩ | ⟨h0, h1⟩ | ⟨h0, h1, h2⟩ | ⟨h0, h1⟩ | ⟨h0, h1⟩) | h0 <;> subst h0
  · unfold Fac.readValue at hr
    rw [if_pos rfl] at hr
    obtain ⟨b, r1, h3, h4⟩ := M.bind_eq_ok.1 hr
    cases h4
    obtain ⟨k1, f, k2, k3⟩ := readUint_back h h3
    exact ⟨k1, Or.inl ⟨rfl, f, k2, by rw [k3]⟩⟩
  · unfold Fac.readValue at hr
    dsimp only at h1
    subst h1
    rw [if_neg (by decide), if_neg (by decide), if_neg (by decide), if_pos rfl] at hr
    obtain ⟨b, r1, h3, h4⟩ := M.bind_eq_ok.1 hr
    cases h4
    obtain ⟨r2, k1, k2⟩ := readWith_at BitReader.readBool 1 FlatJson.toBool h
    obtain ⟨a, rfl⟩ := Prod.mk.inj (k1.symm.trans h3)
    exact ⟨k2, Or.inr (Or.inl ⟨rfl, b, toBool_ok a, rfl⟩)⟩
  · unfold Fac.readValue at hr
    rw [if_neg (by decide), if_neg (by decide), if_neg (by decide), if_neg (by decide), if_pos rfl] at hr
    obtain ⟨b, r1, h3, h4⟩ := M.bind_eq_ok.1 hr
    cases h4
    obtain ⟨r2, k1, k2⟩ := readWith_at (BitReader.readBytes (n.tdiv 8)) (n.tdiv 8 * 8) FlatJson.toBytes h
    obtain ⟨a, rfl⟩ := Prod.mk.inj (k1.symm.trans h3)
    have hd : n.tdiv 8 * 8 = n := by
      have h1 : 0 ≤ n := h1
      have h2 : n % 8 = 0 := h2
      rw [Int.tdiv_eq_ediv_of_nonneg h1]; omega
    rw [hd] at k2
    exact ⟨k2, Or.inr (Or.inr (Or.inr ⟨Or.inl rfl, toBytes_ok a⟩))⟩
  · exact bin hr
  · unfold Fac.readValue at hr
    rw [if_neg (by decide), if_pos rfl] at hr
    obtain ⟨b, r1, h3, h4⟩ := M.bind_eq_ok.1 hr
    cases h4
    obtain ⟨r2, k1, k2⟩ := readWith_at (BitReader.readInt n) n FlatJson.toInt h
    obtain ⟨a, rfl⟩ := Prod.mk.inj (k1.symm.trans h3)
    exact ⟨k2, Or.inr (Or.inr (Or.inl ⟨rfl, toInt_ok a⟩))⟩
  · exact bin hr

/-- The scalars of declared fields. -/
def TakesAll [GoFloat F] : List FieldDecl → List (Tok F) → List (Field F) → Prop
  | [], [], [] => True
  | d :: ds, t :: ts, f :: fs => (∃ x, f = d.field x ∧ TakesTok d.dataType t x) ∧ TakesAll ds ts fs
  | _, _, _ => False

theorem readFields_back [GoFloat F] {N : Nat} {e : Err} : ∀ {ds : List FieldDecl} {toks : List (Tok F)} {fs : List (Field F)}
    {l : List (Tok F)} {p : Int} {r r' : Reader F}, (∀ d ∈ ds, d.sized ∨ d.dataType = DataType.BINARY) → toks.length = ds.length →
    AtJson N e (toks ++ l) p r → ReadFields r ds fs r' →
    AtJson N e l (p + (ds.map FieldDecl.nbits).sum) r' ∧ TakesAll ds toks fs
  | [], [], fs, l, p, r, r', _, _, h, hr => by
    cases hr
    exact ⟨by simpa using h, trivial⟩
  | d :: ds, t :: toks, _, l, p, r, r', hs, hl, h, hr => by
    cases hr with
    | cons h1 h2 =>
      obtain ⟨k1, k2⟩ := readValue_back (hs d List.mem_cons_self) h h1
      obtain ⟨k3, k4⟩ := readFields_back (fun x hx => hs x (List.mem_cons_of_mem _ hx)) (by simpa using hl) k1 h2
      refine ⟨?_, ⟨_, rfl, k2⟩, k4⟩
      rw [List.map_cons, List.sum_cons, ← Int.add_assoc]
      exact k3
  | [], _ :: _, _, _, _, _, _, _, hl, _, _ => by cases hl
  | _ :: _, [], _, _, _, _, _, _, hl, _, _ => by cases hl

theorem TakesAll.get [GoFloat F] {g : FieldDecl → Tok F} : ∀ {ds : List FieldDecl} {fs : List (Field F)}, TakesAll ds (ds.map g) fs →
    ∀ d ∈ ds, ∃ x, TakesTok d.dataType (g d) x ∧ ((ds.map fun y => str y.name).Nodup → ∀ more, valueIn (fs ++ more) d.name = some x)
  | d :: ds, f :: fs, ⟨⟨x, hf, h1⟩, h2⟩, y, hy => by
    subst hf
    rcases List.mem_cons.1 hy with rfl | hy
    · exact ⟨x, h1, fun _ more => by simp [valueIn, FieldDecl.field]⟩
    · obtain ⟨z, k1, k2⟩ := h2.get y hy
      refine ⟨z, k1, fun hnd more => ?_⟩
      have hne : str d.name ≠ str y.name := by
        intro he
        exact (List.nodup_cons.1 hnd).1 (List.mem_map.2 ⟨y, hy, he.symm⟩)
      rw [← k2 (List.nodup_cons.1 hnd).2 more]
      simp [valueIn, FieldDecl.field, hne]

theorem TakesAll.last [GoFloat F] {d : FieldDecl} {t : Tok F} {ds : List FieldDecl} {toks : List (Tok F)} {fs : List (Field F)}
    (hl : toks.length = ds.length) (h : TakesAll (ds ++ [d]) (toks ++ [t]) fs) : ∃ x, TakesTok d.dataType t x := by
  induction ds generalizing toks fs with
  | nil =>
    obtain rfl : toks = [] := List.eq_nil_of_length_eq_zero hl
    cases fs with
    | nil => exact h.elim
    | cons f fs =>
      obtain ⟨⟨x, -, h⟩, -⟩ := h
      exact ⟨x, h⟩
  | cons d' ds ih =>
    cases toks with
    | nil => cases hl
    | cons t' toks =>
      cases fs with
      | nil => exact h.elim
      | cons f fs =>
        have h2 : TakesAll (ds ++ [d]) (toks ++ [t]) fs := h.2
        exact ih (by simpa using hl) h2

/-- A field with bits is given in the way it is declared. -/
theorem TakesTok.plain [GoFloat F] {d : FieldDecl} {plain : Bool} {v : Nat} {x : Val F}
    (h : TakesTok d.dataType (fieldToken (F := F) plain d.nbits.toNat v .bits) x) :
    plain = true ∧ d.dataType ≠ DataType.BINARY ∨ plain = false ∧ d.dataType = DataType.BINARY ∨
      plain = false ∧ d.dataType = DataType.BYTES := by
  cases plain with
  | false =>
    have e : fieldToken (F := F) false d.nbits.toNat v .bits = .str (digits (natBits d.nbits.toNat v)) := rfl
    rw [e] at h
    rcases h with ⟨-, f, h, -⟩ | ⟨-, b, h, -⟩ | ⟨-, f, h⟩ | ⟨h, -⟩
    · cases h
    · cases h
    · cases h
    · rcases h with h | h
      · exact Or.inr (Or.inr ⟨rfl, h⟩)
      · exact Or.inr (Or.inl ⟨rfl, h⟩)
  | true =>
    have e : fieldToken (F := F) true d.nbits.toNat v .bits = .num (GoFloat.ofNat v) := rfl
    rw [e] at h
    refine Or.inl ⟨rfl, ?_⟩
    rcases h with ⟨h, -⟩ | ⟨-, b, h, -⟩ | ⟨h, -⟩ | ⟨-, s, h⟩
    · rw [h]; decide
    · cases h
    · rw [h]; decide
    · cases h

/-- The value of a number field. -/
theorem TakesTok.number [GoFloat F] [LawfulGoFloat F] {plain : Bool} {w v : Nat} {x : Val F} (hv : v ≤ 2 ^ 53)
    (h : TakesTok DataType.UINT (fieldToken (F := F) plain w v .number) x) : x = .uint v := by
  rcases h with ⟨-, f, h, h'⟩ | ⟨h, -⟩ | ⟨h, -⟩ | ⟨h, -⟩
  · cases h
    rw [h', LawfulGoFloat.truncUint_ofNat v hv]
  · exact absurd h (by decide)
  · exact absurd h (by decide)
  · rcases h with h | h <;> exact absurd h (by decide)

theorem TakesTok.flag [GoFloat F] {plain : Bool} {w v : Nat} {x : Val F}
    (h : TakesTok DataType.BOOL (fieldToken (F := F) plain w v .flag) x) : x = .bool (v == 1) := by
  rcases h with ⟨h, -⟩ | ⟨-, b, h, h'⟩ | ⟨h, -⟩ | ⟨h, -⟩
  · exact absurd h (by decide)
  · cases h
    exact h'
  · exact absurd h (by decide)
  · rcases h with h | h <;> exact absurd h (by decide)

theorem readIds_back [GoFloat F] {N : Nat} {e : Err} : ∀ (ds : List (Nat × Nat × Nat)) {t : List (Tok F)} {p : Int}
    {r r' : Reader F} {ids : List ID}, AtJson N e (ds.flatMap idTokens ++ t) p r → Fac.readIds 2 6 8 ds.length r = (.ok ids, r') →
    AtJson N e t (p + 16 * ds.length) r'
  | [], t, p, r, r', ids, h, hr => by
    cases hr
    simpa using h
  | d :: ds, t, p, r, r', ids, h, hr => by
    rw [List.length_cons] at hr
    unfold Fac.readIds at hr
    obtain ⟨id, r1, h1, h2⟩ := M.bind_eq_ok.1 hr
    obtain ⟨ids', r2, h3, h4⟩ := M.bind_eq_ok.1 h2
    cases h4
    unfold Fac.readId at h1
    obtain ⟨a, ra, ha, h1⟩ := M.bind_eq_ok.1 h1
    obtain ⟨b, rb, hb, h1⟩ := M.bind_eq_ok.1 h1
    obtain ⟨c, rc, hc, h1⟩ := M.bind_eq_ok.1 h1
    obtain rfl : rc = r1 := (Prod.mk.inj h1).2
    rw [List.flatMap_cons, List.append_assoc] at h
    have k1 := (readUint_back h ha).1
    have k2 := (readUint_back k1 hb).1
    have k3 := (readUint_back k2 hc).1
    have k4 := readIds_back ds k3 h3
    have e : p + 2 + 6 + 8 + 16 * (ds.length : Int) = p + 16 * ((d :: ds).length : Int) := by
      rw [List.length_cons]; push_cast; omega
    rw [← e]
    exact k4

/-- Padding of the length that is declared. -/
theorem pads_back [GoFloat F] {N : Nat} {e : Err} {L : Nat} {b : Int} {l : Bits} {t : List (Tok F)} {p : Int} {r r' : Reader F}
    {fs : List (Field F)} {n : Int} (h : (L : Int) * 8 = p - b * 8 + l.length) (hr : AtJson N e (padTokens l ++ t) p r)
    (hp : Pads L b r fs n r') : AtJson N e t (p + l.length) r' := by
  have hpos := hr.pos
  unfold padTokens at hr
  rcases hp with ⟨h1, -, -, rfl⟩ | ⟨h1, h2, x, -, h3⟩
  · have hl : l = [] := List.eq_nil_of_length_eq_zero (by omega)
    subst hl
    simpa using hr
  · have hl : l ≠ [] := by
      rintro rfl
      simp at h
      omega
    rw [if_neg hl] at hr
    have k := (readBinary_back hr h3).1
    have : n = l.length := by omega
    rw [this] at k
    exact k

/-- The fields of a section that are given as a draft says. -/
theorem section_back [GoFloat F] {N : Nat} {e : Err} {plain : String → Bool} {v : String → Nat} {ds : List FieldDecl}
    {fs : List (Field F)} {l : List (Tok F)} {p : Int} {r r' : Reader F} (hs : ∀ d ∈ ds, d.sized)
    (h : AtJson N e (declTokens plain v ds ++ l) p r) (hr : ReadFields r ds fs r') :
    AtJson N e l (p + (ds.map FieldDecl.nbits).sum) r' ∧ ∀ d ∈ ds,
      ∃ x, TakesTok d.dataType (fieldToken (F := F) (plain d.name) d.nbits.toNat (v d.name) (kindOf (str d.name))) x ∧
        ((ds.map fun y => str y.name).Nodup → ∀ more, valueIn (fs ++ more) d.name = some x) := by
  obtain ⟨k1, k2⟩ := readFields_back (fun d hd => Or.inl (hs d hd)) (by simp [declTokens]) h hr
  exact ⟨k1, k2.get⟩

/-- The bits of a section are given in the way they are declared. -/
theorem plain_back [GoFloat F] {plain : String → Bool} {v : String → Nat} {ds : List FieldDecl}
    (h : ∀ d ∈ ds, ∃ x, TakesTok d.dataType (fieldToken (F := F) (plain d.name) d.nbits.toNat (v d.name) (kindOf (str d.name))) x)
    {name : String} (n : Int) (proxy b : Bool) (hd : ⟨name, if b then DataType.INT else DataType.BINARY, n, proxy⟩ ∈ ds)
    (hk : kindOf (str name) = .bits) : plain name = b := by
  obtain ⟨x, hx⟩ := h _ hd
  dsimp only at hx
  rw [hk] at hx
  have := TakesTok.plain (d := ⟨name, if b then DataType.INT else DataType.BINARY, n, proxy⟩) hx
  cases b with
  | true =>
    rcases this with ⟨h, -⟩ | ⟨-, h⟩ | ⟨-, h⟩
    · exact h
    · exact absurd (show DataType.INT = DataType.BINARY from h) (by decide)
    · exact absurd (show DataType.INT = DataType.BYTES from h) (by decide)
  | false =>
    rcases this with ⟨-, h⟩ | ⟨h, -⟩ | ⟨h, -⟩
    · exact absurd rfl h
    · exact h
    · exact h

/-- The length of a section, read from its scalar. -/
theorem length_back [GoFloat F] [LawfulGoFloat F] {plain : String → Bool} {v : String → Nat} {ds : List FieldDecl} {L : Nat} {fs : List (Field F)}
    (h : ∀ d ∈ lengthDecl :: ds, ∃ x, TakesTok d.dataType (fieldToken (F := F) (plain d.name) d.nbits.toNat (v d.name) (kindOf (str d.name))) x ∧
        (((lengthDecl :: ds).map fun y => str y.name).Nodup → ∀ more, valueIn (lengthOf L :: fs ++ more) d.name = some x))
    (hnd : ((lengthDecl :: ds).map fun y => str y.name).Nodup) (hv : v "lengthInBytes" < 2 ^ 24) : L = v "lengthInBytes" := by
  obtain ⟨x, h1, h2⟩ := h lengthDecl List.mem_cons_self
  have h3 := TakesTok.number (by omega) (show TakesTok DataType.UINT (fieldToken (F := F) (plain "lengthInBytes") 24 (v "lengthInBytes") .number) x from h1)
  have h4 := h2 hnd []
  rw [h3] at h4
  simpa [valueIn, lengthOf, FieldDecl.field, lengthDecl] using h4

/-- Section 1 with the fields of an edition. -/
theorem section1_back [GoFloat F] [LawfulGoFloat F] {d : Draft} (hd : d.Sound) {plain : Nat → String → Bool} {N : Nat} {e : Err} {ds : List FieldDecl}
    (hds : IsEdition ds) {q : Int} {l : List (Tok F)} {r r' r2 : Reader F} {L : Nat} {fs pad : List (Field F)} {n : Int}
    (hl : l ≠ [])
    (h : AtJson N e (declTokens (plain 1) (d.head 1) (lengthDecl :: editionDecls d.edition) ++ (padTokens d.pad1 ++ l)) (8 * q) r)
    (h1 : ReadFields r (lengthDecl :: ds) (lengthOf L :: fs) r') (p1 : Pads L (r.pos.tdiv 8) r' pad n r2) :
    ds = editionDecls d.edition ∧ plain 1 "flagBits" = asNumbers d.edition 1 "flagBits" ∧
      AtJson N e l (8 * (q + (d.head 1 "lengthInBytes" : Nat))) r2 ∧
      ∀ more, valueIn (lengthOf L :: fs ++ more) "isSection2Presents" = some (.bool d.locals.isSome) := by
  have m1 : (if d.edition = 4 then identification4 else identification3) ∈ d.sections := by
    simp [Draft.sections, Layout.sections]
  have n1 : (if d.edition = 4 then identification4 else identification3).number = 1 := by split <;> rfl
  have l1 : d.head 1 "lengthInBytes" * 8 = (d.head1 ++ d.pad1).length := by
    rw [← part1, ← n1]
    exact hd.lengths _ m1 (by split <;> decide)
  rw [List.length_append] at l1
  have v1 : d.head 1 "lengthInBytes" < 2 ^ 24 := by
    have := hd.fits _ m1 (fixed "lengthInBytes" 24) (by split <;> decide) 24 rfl
    rw [n1] at this
    exact this
  have t1 : r.pos.tdiv 8 = q := by rw [h.pos]; exact Int.mul_tdiv_cancel_left _ (by decide)
  rw [t1] at p1
  have same : ds = editionDecls d.edition → ds = editionDecls d.edition ∧ plain 1 "flagBits" = asNumbers d.edition 1 "flagBits" ∧
      AtJson N e l (8 * (q + (d.head 1 "lengthInBytes" : Nat))) r2 ∧
      ∀ more, valueIn (lengthOf L :: fs ++ more) "isSection2Presents" = some (.bool d.locals.isSome) := fun hs => by
    subst hs
    have sized1 : ∀ x ∈ lengthDecl :: editionDecls d.edition, x.sized := by
      rcases hds with h | h <;> rw [h] <;> decide
    have nodup1 : ((lengthDecl :: editionDecls d.edition).map fun x => str x.name).Nodup := by
      rcases hds with h | h <;> rw [h] <;> decide
    obtain ⟨a1, a2⟩ := section_back sized1 h h1
    have hL := length_back a2 nodup1 v1
    have hw : ((lengthDecl :: editionDecls d.edition).map FieldDecl.nbits).sum = d.head1.length := by
      unfold Draft.head1
      rw [declBits_length]
      rcases hds with h | h <;> rw [h] <;> rfl
    rw [hw] at a1
    subst hL
    have a3 := pads_back (by omega) a1 p1
    refine ⟨rfl, ?_, ?_, ?_⟩
    · have hf : ⟨"flagBits", if asNumbers d.edition 1 "flagBits" then DataType.INT else DataType.BINARY, 7, false⟩ ∈ lengthDecl :: editionDecls d.edition := by
        unfold editionDecls
        rcases hd.edition with h | h <;> rw [h] <;> decide
      exact plain_back (fun d hd => let ⟨x, h, _⟩ := a2 d hd; ⟨x, h⟩) 7 false _ hf (by decide)
    · have : 8 * q + (d.head1.length : Int) + d.pad1.length = 8 * (q + (d.head 1 "lengthInBytes" : Nat)) := by omega
      rw [← this]
      exact a3
    · have hf : (⟨"isSection2Presents", DataType.BOOL, 1, true⟩ : FieldDecl) ∈ lengthDecl :: editionDecls d.edition := by
        rcases hds with h | h <;> rw [h] <;> decide
      obtain ⟨x, k1, k2⟩ := a2 _ hf
      have k3 := TakesTok.flag (show TakesTok DataType.BOOL (fieldToken (F := F) (plain 1 "isSection2Presents") 1 (d.head 1 "isSection2Presents") .flag) x from k1)
      intro more
      rw [k2 nodup1 more, k3, hd.flag]
      cases d.locals <;> rfl
  rcases hds with hds | hds <;> rcases hd.edition with he | he
  · exact same (by rw [hds, he]; rfl)
  · -- edition 4 taken for edition 3
    exfalso
    have hsplit : lengthDecl :: editionDecls d.edition = (lengthDecl :: editionDecls d.edition).take 17 ++ [⟨"second", DataType.UINT, 8, true⟩] := by
      rw [he]; rfl
    have hh : d.head1.length = 176 := by unfold Draft.head1; rw [declBits_length, he]; rfl
    rw [hsplit, declTokens, List.map_append, List.append_assoc] at h
    subst hds
    obtain ⟨a1, a2⟩ := readFields_back (by decide) (by rw [he]; rfl) h h1
    have hL : L = d.head 1 "lengthInBytes" := by
      rw [he] at a2
      obtain ⟨⟨x, hf, hx⟩, -⟩ := a2
      have := TakesTok.number (by omega) (show TakesTok DataType.UINT (fieldToken (F := F) (plain 1 "lengthInBytes") 24 (d.head 1 "lengthInBytes") .number) x from hx)
      subst this
      simpa [lengthOf, FieldDecl.field, lengthDecl] using hf
    have hpos := a1.pos
    have hw : ((lengthDecl :: Script.fields1Edition3).map FieldDecl.nbits).sum = 144 := rfl
    rw [hw] at hpos a1
    subst hL
    rcases p1 with ⟨g1, -⟩ | ⟨g1, g2, x, -, g3⟩
    · omega
    · obtain ⟨-, s, hs⟩ := readBinary_back a1 g3
      cases hs
  · -- edition 3 taken for edition 4
    exfalso
    subst hds
    have hh : d.head1.length = 144 := by unfold Draft.head1; rw [declBits_length, he]; rfl
    obtain ⟨t, l', ht, ht'⟩ : ∃ t l', padTokens d.pad1 ++ l = t :: l' ∧ (d.pad1 ≠ [] → t = bitsToken d.pad1) := by
      unfold padTokens
      by_cases hp : d.pad1 = []
      · rw [if_pos hp]
        cases l with
        | nil => exact absurd rfl hl
        | cons t l => exact ⟨t, l, rfl, fun h => absurd hp h⟩
      · rw [if_neg hp]
        exact ⟨_, _, rfl, fun _ => rfl⟩
    rw [ht, show ∀ (a : List (Tok F)), a ++ t :: l' = (a ++ [t]) ++ l' from by simp] at h
    obtain ⟨a1, a2⟩ := readFields_back (by decide) (by rw [he]; rfl) h h1
    have hpos := a1.pos
    have hw : ((lengthDecl :: Script.fields1Edition4).map FieldDecl.nbits).sum = 176 := rfl
    rw [hw] at hpos
    rw [he] at a2
    obtain ⟨⟨x, hf, hx⟩, a2⟩ := a2
    have := TakesTok.number (by omega) (show TakesTok DataType.UINT (fieldToken (F := F) (plain 1 "lengthInBytes") 24 (d.head 1 "lengthInBytes") .number) x from hx)
    subst this
    have hL : L = d.head 1 "lengthInBytes" := by simpa [lengthOf, FieldDecl.field, lengthDecl] using hf
    subst hL
    have hn : ∃ f, t = .num f := by
      obtain ⟨y, hy⟩ := TakesAll.last (ds := Script.fields1Edition4.dropLast) (d := ⟨"second", DataType.UINT, 8, true⟩)
        (toks := declTokens (plain 1) (d.head 1) (editionDecls 3)) rfl a2
      rcases hy with ⟨-, f, h, -⟩ | ⟨h, -⟩ | ⟨-, f, h⟩ | ⟨h, -⟩
      · exact ⟨f, h⟩
      · exact absurd h (by decide)
      · exact ⟨f, h⟩
      · rcases h with h | h <;> exact absurd h (by decide)
    obtain ⟨f, rfl⟩ := hn
    have hp : d.pad1 = [] := Classical.byContradiction fun h => by cases ht' h
    rw [hp] at l1
    simp only [List.length_nil] at l1
    rcases p1 with ⟨g1, -⟩ | ⟨g1, g2, -⟩ <;> omega
  · exact same (by rw [hds, he]; rfl)

/-- The bits of a message that is decoded are given in the way they are declared. -/
structure GivenAs (d : Draft) (plain : Nat → String → Bool) : Prop where
  flag1 : plain 1 "flagBits" = asNumbers d.edition 1 "flagBits"
  reserved2 : d.locals.isSome = true → plain 2 "reservedBits" = false
  reserved3 : plain 3 "reservedBits" = true
  flag3 : plain 3 "flagBits" = true
  reserved4 : plain 4 "reservedBits" = true

theorem trace_back [GoFloat F] [LawfulGoFloat F] {c : FacCfg} {ds : List FieldDecl} (hds : IsEdition ds) {d : Draft} (hd : d.Sound)
    {plain : Nat → String → Bool} {values rest : List (Tok F)} {N : Nat} {e : Err} {q : Int} {r : Reader F}
    (h : AtJson N e (d.tokens plain values ++ rest) (8 * q) r) (t : Trace c ds r) :
    ds = editionDecls d.edition ∧ GivenAs d plain := by
  have m3 : description ∈ d.sections := by simp [Draft.sections, Layout.sections]
  have m4 : Layout.data ∈ d.sections := by simp [Draft.sections, Layout.sections]
  have l3 : d.head 3 "lengthInBytes" * 8 = (d.head3 ++ (d.ids ++ d.pad3)).length := by
    rw [← part3]; exact hd.lengths _ m3 (by decide)
  have len3 : d.head3.length = 56 := declBits_length _ _
  have hil : d.ids.length = 16 * d.descriptors.length := ids_length _
  rw [List.length_append, List.length_append, hil, len3] at l3
  have v3 : d.head 3 "lengthInBytes" < 2 ^ 24 := hd.fits _ m3 (fixed "lengthInBytes" 24) (by decide) 24 rfl
  rw [draft_tokens] at h
  simp only [List.append_assoc] at h
  obtain ⟨a0, -⟩ := section_back (by decide) h t.h0
  have e0 : 8 * q + (Script.fields0.map FieldDecl.nbits).sum = 8 * (q + 8) := by
    have : (Script.fields0.map FieldDecl.nbits).sum = 64 := rfl
    omega
  rw [e0] at a0
  obtain ⟨b1, b2, b3, b4⟩ := section1_back hd hds (by simp [declTokens]) a0 t.h1 t.p1
  have hpres : t.present = d.locals.isSome := by
    have := (b4 []).symm.trans (t.hpresent [])
    simpa using this.symm
  obtain ⟨q2, hq2⟩ : ∃ q2, q2 = q + 8 + ((d.head 1 "lengthInBytes" : Nat) : Int) := ⟨_, rfl⟩
  rw [← hq2] at b3
  obtain ⟨T, hT⟩ : ∃ T, T = declTokens (plain 3) (d.head 3) (lengthDecl :: Script.fields3) ++ (d.descriptors.flatMap idTokens ++
      (padTokens d.pad3 ++ (declTokens (plain 4) (d.head 4) (lengthDecl :: reserved4) ++ (values ++ (padTokens d.pad4 ++
        (declTokens (plain 5) (d.head 5) stop5 ++ rest)))))) := ⟨_, rfl⟩
  rw [← hT] at b3
  have s2 : ∃ q3, AtJson N e T (8 * q3) t.r3 ∧ (d.locals.isSome = true → plain 2 "reservedBits" = false) := by
    have h2 := t.h2
    rw [hpres] at h2
    unfold Draft.tokens2 at b3
    cases hl : d.locals with
    | none =>
      rw [hl] at b3 h2
      simp only [Option.isSome_none, Bool.false_eq_true, if_false] at h2
      rw [h2]
      exact ⟨q2, b3, by simp⟩
    | some l =>
      rw [hl] at b3 h2
      simp only [Option.isSome_some, if_true] at h2
      have v2 : d.head 2 "lengthInBytes" < 2 ^ 24 :=
        hd.fits Layout.optional (by simp [Draft.sections, Layout.sections, hl]) (fixed "lengthInBytes" 24) (by decide) 24 rfl
      obtain ⟨a1, a2⟩ := readFields_back (ds := fields2 t.L2)
        (toks := declTokens (plain 2) (d.head 2) (lengthDecl :: reserved2) ++ [bitsToken l]) (by
          intro x hx
          rcases List.mem_cons.1 hx with rfl | hx
          · exact Or.inl (by decide)
          · rcases List.mem_cons.1 hx with rfl | hx
            · exact Or.inr rfl
            · rcases List.mem_cons.1 hx with rfl | hx
              · exact Or.inr rfl
              · cases hx) rfl b3 h2
      have hw : ((fields2 t.L2).map FieldDecl.nbits).sum = 24 + (8 + (((t.L2 : Int) - 4) * 8 + 0)) := rfl
      rw [hw] at a1
      refine ⟨q2 + t.L2, ?_, fun _ => ?_⟩
      · have : 8 * q2 + (24 + (8 + (((t.L2 : Int) - 4) * 8 + 0))) = 8 * (q2 + t.L2) := by omega
        rw [← this]
        exact a1
      · generalize t.fs2 = fs2 at a2
        cases fs2 with
        | nil => exact a2.2.elim
        | cons f fs2 =>
          obtain ⟨-, ⟨x, -, hx⟩, -⟩ := a2
          have hx : TakesTok DataType.BINARY (fieldToken (F := F) (plain 2 "reservedBits") 8 (d.head 2 "reservedBits") .bits) x := hx
          rcases TakesTok.plain (d := ⟨"reservedBits", DataType.BINARY, 8, false⟩) hx with ⟨-, h⟩ | ⟨h, -⟩ | ⟨h, -⟩
          · exact absurd rfl h
          · exact h
          · exact h
  obtain ⟨q3, hr3, g2⟩ := s2
  rw [hT] at hr3
  have t3 : t.r3.pos.tdiv 8 = q3 := by rw [hr3.pos]; exact Int.mul_tdiv_cancel_left _ (by decide)
  obtain ⟨a3, f3⟩ := section_back (by decide) hr3 t.h3
  have hL3 := length_back f3 (by decide) v3
  have hw : ((lengthDecl :: Script.fields3).map FieldDecl.nbits).sum = 56 := rfl
  rw [hw] at a3
  have hk := t.hk
  have hp3 := hd.pad3
  have hk' : t.k = d.descriptors.length := by
    rw [a3.pos, t3, hL3, Int.tdiv_eq_ediv_of_nonneg (by omega)] at hk
    omega
  have hids := t.hids
  rw [hk'] at hids
  have a4 := readIds_back d.descriptors a3 hids
  have p3 := t.p3
  rw [t3, hL3] at p3
  have a5 := pads_back (by omega) a4 p3
  obtain ⟨-, f4⟩ := section_back (by decide) a5 t.h4
  refine ⟨b1, b2, g2, ?_, ?_, ?_⟩
  · exact plain_back (fun d hd => let ⟨x, h, _⟩ := f3 d hd; ⟨x, h⟩) 8 false true (by decide) (by decide)
  · exact plain_back (fun d hd => let ⟨x, h, _⟩ := f3 d hd; ⟨x, h⟩) 6 false true (by decide) (by decide)
  · exact plain_back (fun d hd => let ⟨x, h, _⟩ := f4 d hd; ⟨x, h⟩) 8 false true (by decide) (by decide)

end Gobufr
