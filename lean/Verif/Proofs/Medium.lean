import Verif.Proofs.Compose

/-!
# Helper lemmas: a composed message, written with any symbols, is read
-/

namespace Gobufr
open Spec Layout

variable {F τ : Type}

/-- A way to write messages with symbols of type `τ`: `At l p r` says that the reader `r` is at position `p` with the symbols
`l` before it. -/
structure Medium (F τ : Type) [GoFloat F] where
  At : List τ → Int → Reader F → Prop
  pos : ∀ {l p r}, At l p r → r.pos = p
  field : FieldDecl → Nat → List τ
  bits : Bits → List τ
  id : Nat × Nat × Nat → List τ
  readValue : ∀ (d : FieldDecl) (v : Nat) (t : List τ) (p : Int) (r : Reader F), d.sized → d.nbits ≤ 32 → v < 2 ^ d.nbits.toNat →
    At (field d v ++ t) p r → ∃ x r', Fac.readValue d.dataType d.nbits r = (.ok x, r') ∧ At t (p + d.nbits) r' ∧
      DenotesType d.dataType (natBits d.nbits.toNat v) x
  readBits : ∀ (l : Bits) (t : List τ) (p : Int) (r : Reader F), At (bits l ++ t) p r →
    ∃ x r', Reader.readBinary l.length r = (.ok (some x), r') ∧ At t (p + l.length) r'
  readIds : ∀ (ds : List (Nat × Nat × Nat)) (t : List τ) (p : Int) (r : Reader F),
    (∀ x ∈ ds, x.1 < 2 ^ 2 ∧ x.2.1 < 2 ^ 6 ∧ x.2.2 < 2 ^ 8) → At (ds.flatMap id ++ t) p r →
    ∃ r', Fac.readIds 2 6 8 ds.length r = (.ok (ds.map descriptorNumber), r') ∧ At t (p + 16 * ds.length) r'

namespace Medium
variable [GoFloat F] (W : Medium F τ)

/-- Declared fields. -/
def decls (v : String → Nat) (ds : List FieldDecl) : List τ := ds.flatMap fun d => W.field d (v d.name)

/-- Padding. -/
def pad (l : Bits) : List τ := if l = [] then [] else W.bits l

theorem readFields_fwd (v : String → Nat) : ∀ (ds : List FieldDecl), (∀ d ∈ ds, d.sized ∧ d.nbits ≤ 32) →
    (∀ d ∈ ds, v d.name < 2 ^ d.nbits.toNat) →
    (ds.map fun x => str x.name).Nodup → ∀ (t : List τ) (p : Int) (r : Reader F), W.At (W.decls v ds ++ t) p r →
    ∃ (fs : List (Field F)) (r' : Reader F), ReadFields r ds fs r' ∧ W.At t (p + (declBits v ds).length) r' ∧ Filled v ds fs
  | [], _, _, _, t, p, r, h => ⟨[], r, .nil _, by simpa [declBits, decls] using h, by simp [Filled]⟩
  | d :: ds, hs, hv, hnd, t, p, r, h => by
    have h0 := FieldDecl.sized_nonneg (hs d (by simp)).1
    have e1 : W.decls v (d :: ds) ++ t = W.field d (v d.name) ++ (W.decls v ds ++ t) := by simp [decls]
    rw [e1] at h
    obtain ⟨x, r1, h1, h1', h2⟩ := W.readValue d (v d.name) _ p r (hs d (by simp)).1 (hs d (by simp)).2 (hv d (by simp)) h
    obtain ⟨fs, r2, h3, h3', h4⟩ := readFields_fwd v ds (fun y hy => hs y (by simp [hy])) (fun y hy => hv y (by simp [hy]))
      (List.nodup_cons.1 hnd).2 t (p + d.nbits) r1 h1'
    refine ⟨d.field x :: fs, r2, .cons h1 h3, ?_, ?_⟩
    · have e2 : p + ((declBits v (d :: ds)).length : Int) = p + d.nbits + (declBits v ds).length := by
        simp [declBits]; omega
      rw [e2]
      exact h3'
    · intro y hy
      rcases List.mem_cons.1 hy with rfl | hy
      · exact ⟨x, h2, fun more => by simp [valueIn, FieldDecl.field]⟩
      · obtain ⟨z, k1, k2⟩ := h4 y hy
        refine ⟨z, k1, fun more => ?_⟩
        have hne : str d.name ≠ str y.name := by
          intro he
          exact (List.nodup_cons.1 hnd).1 (List.mem_map.2 ⟨y, hy, he.symm⟩)
        rw [← k2 more]
        simp [valueIn, FieldDecl.field, hne]

theorem opening_fwd (v : String → Nat) (ds : List FieldDecl) (hs : ∀ d ∈ lengthDecl :: ds, d.sized ∧ d.nbits ≤ 32)
    (hv : ∀ d ∈ lengthDecl :: ds, v d.name < 2 ^ d.nbits.toNat)
    (hnd : ((lengthDecl :: ds).map fun x => str x.name).Nodup) (t : List τ) (p : Int) (r : Reader F)
    (h : W.At (W.decls v (lengthDecl :: ds) ++ t) p r) :
    ∃ (fs : List (Field F)) (r' : Reader F), ReadFields r (lengthDecl :: ds) (lengthOf (v "lengthInBytes") :: fs) r' ∧
      W.At t (p + (declBits v (lengthDecl :: ds)).length) r' ∧
      Filled v (lengthDecl :: ds) (lengthOf (v "lengthInBytes") :: fs) := by
  obtain ⟨fs, r', h1, h1', h2⟩ := W.readFields_fwd v (lengthDecl :: ds) hs hv hnd t p r h
  have h3 := h2.uint (d := lengthDecl) (by simp) rfl (hv lengthDecl (by simp)) []
  generalize hds : lengthDecl :: ds = ds' at h1
  cases h1 with
  | nil => cases hds
  | @cons _ _ _ d ds2 fs x k1 k2 =>
    cases hds
    have : x = .uint (v "lengthInBytes") := by
      simpa [valueIn, FieldDecl.field, lengthDecl] using h3
    subst this
    exact ⟨fs, r', .cons k1 k2, h1', h2⟩

theorem pads_fwd (L : Nat) (b : Int) (l : Bits) (t : List τ) (p : Int) (r : Reader F) (h : (L : Int) * 8 = p - b * 8 + l.length)
    (hr : W.At (W.pad l ++ t) p r) :
    ∃ (fs : List (Field F)) (n : Int) (r' : Reader F), Pads L b r fs n r' ∧ W.At t (p + l.length) r' := by
  have hp := W.pos hr
  unfold pad at hr
  by_cases hl : l = []
  · subst hl
    rw [if_pos rfl] at hr
    exact ⟨[], 0, r, Or.inl ⟨by rw [hp]; simpa using h, rfl, rfl, rfl⟩, by simpa using hr⟩
  · rw [if_neg hl] at hr
    obtain ⟨x, r', h1, h2⟩ := W.readBits l t p r hr
    refine ⟨_, l.length, r', Or.inr ⟨?_, by rw [hp]; exact h, x, rfl, h1⟩, h2⟩
    have := List.length_pos_iff.2 hl
    omega

/-- The symbols of section 2. -/
def part2 (d : Draft) : List τ := match d.locals with
  | some l => W.decls (d.head 2) (lengthDecl :: reserved2) ++ W.bits l
  | none => []

/-- The symbols of a message; the data are `data`. -/
def message (d : Draft) (data : List τ) : List τ :=
  W.decls (d.head 0) Script.fields0 ++ (W.decls (d.head 1) (lengthDecl :: editionDecls d.edition) ++ (W.pad d.pad1 ++
    (W.part2 d ++ (W.decls (d.head 3) (lengthDecl :: Script.fields3) ++ (d.descriptors.flatMap W.id ++ (W.pad d.pad3 ++
      (W.decls (d.head 4) (lengthDecl :: reserved4) ++ (data ++ (W.pad d.pad4 ++ W.decls (d.head 5) stop5)))))))))

theorem trace_of_draft (c : FacCfg) (d : Draft) (hd : d.Sound) (compressed : Bool)
    (hcomp : d.head 3 "isCompressed" = if compressed then 1 else 0) (g : ChainGroup)
    (hg : addLocalAndWmoTableGroups c.tables (d.head 1 "masterTableNumber") (d.head 1 "originatingCentre")
      (d.head 1 "originatingSubCentre") (d.head 1 "masterTableVersion") (d.head 1 "localTableVersion") ⟨[]⟩ = (.ok (), g))
    (P : Payload F → Prop) (dat : List τ)
    (hdec : ∀ t pos r, W.At (dat ++ t) pos r → ∃ p r', DecodesAt c g.lookup (d.descriptors.map descriptorNumber)
      (d.head 3 "nSubsets") compressed r p r' ∧ W.At t (pos + d.data.length) r' ∧ P p)
    (q : Int) (rest : List τ) (r : Reader F) (hr : W.At (W.message d dat ++ rest) (8 * q) r) :
    ∃ t : Trace c (editionDecls d.edition) r, Reads d t ∧ P t.p ∧ W.At rest (8 * q + d.bits.length) t.r6 := by
  have he := editionDecls_edition d.edition
  have m0 : indicator ∈ d.sections := by simp [Draft.sections, Layout.sections]
  have m1 : (if d.edition = 4 then identification4 else identification3) ∈ d.sections := by
    simp [Draft.sections, Layout.sections]
  have m3 : description ∈ d.sections := by simp [Draft.sections, Layout.sections]
  have m4 : Layout.data ∈ d.sections := by simp [Draft.sections, Layout.sections]
  have m5 : ending ∈ d.sections := by simp [Draft.sections, Layout.sections]
  have m2 : d.locals.isSome = true → optional ∈ d.sections := by intro h; simp [Draft.sections, Layout.sections, h]
  have n1 : (if d.edition = 4 then identification4 else identification3).number = 1 := by split <;> rfl
  have l1 : d.head 1 "lengthInBytes" * 8 = (d.head1 ++ d.pad1).length := by
    rw [← part1, ← n1]
    exact hd.lengths _ m1 (by split <;> decide)
  have l3 : d.head 3 "lengthInBytes" * 8 = (d.head3 ++ (d.ids ++ d.pad3)).length := by
    rw [← part3]; exact hd.lengths _ m3 (by decide)
  have l4 : d.head 4 "lengthInBytes" * 8 = (d.head4 ++ (d.data ++ d.pad4)).length := by
    rw [← part4]; exact hd.lengths _ m4 (by decide)
  have w0 : ∀ x ∈ Script.fields0, d.head 0 x.name < 2 ^ x.nbits.toNat := fun x hx =>
    hd.fits _ m0 x.shape (List.mem_map_of_mem (f := FieldDecl.shape) hx) x.nbits.toNat rfl
  have w5 : ∀ x ∈ stop5, d.head 5 x.name < 2 ^ x.nbits.toNat := fun x hx =>
    hd.fits _ m5 x.shape (List.mem_map_of_mem (f := FieldDecl.shape) hx) x.nbits.toNat rfl
  have w1 : ∀ x ∈ lengthDecl :: editionDecls d.edition, d.head 1 x.name < 2 ^ x.nbits.toNat := by
    intro x hx
    have := hd.fits _ m1 x.shape (by
      have : (if d.edition = 4 then identification4 else identification3).fields =
        (lengthDecl :: editionDecls d.edition).map FieldDecl.shape := by unfold editionDecls; split <;> rfl
      rw [this]; exact List.mem_map_of_mem hx) x.nbits.toNat rfl
    rw [n1] at this
    exact this
  have w3 : ∀ x ∈ lengthDecl :: Script.fields3, d.head 3 x.name < 2 ^ x.nbits.toNat := by
    intro x hx
    exact hd.fits _ m3 x.shape (by
      have : description.fields = (lengthDecl :: Script.fields3).map FieldDecl.shape ++ [free "unexpandedTemplate"] := rfl
      rw [this]; exact List.mem_append_left _ (List.mem_map_of_mem hx)) x.nbits.toNat rfl
  have w4 : ∀ x ∈ lengthDecl :: reserved4, d.head 4 x.name < 2 ^ x.nbits.toNat := by
    intro x hx
    exact hd.fits _ m4 x.shape (by
      have : Layout.data.fields = (lengthDecl :: reserved4).map FieldDecl.shape ++ [free "payload"] := rfl
      rw [this]; exact List.mem_append_left _ (List.mem_map_of_mem hx)) x.nbits.toNat rfl
  have sized1 : ∀ x ∈ lengthDecl :: editionDecls d.edition, x.sized ∧ x.nbits ≤ 32 := by
    rcases he with h | h <;> rw [h] <;> decide
  have nodup1 : ((lengthDecl :: editionDecls d.edition).map fun x => str x.name).Nodup := by
    rcases he with h | h <;> rw [h] <;> decide
  have len0 : (d.head0.length : Int) = 64 := by
    have : d.head0.length = 64 := declBits_length _ _
    omega
  have len3 : d.head3.length = 56 := declBits_length _ _
  unfold message at hr
  simp only [List.append_assoc] at hr
  -- section 0
  have q0 := W.pos hr
  obtain ⟨fs0, r1, h0, hr1, f0⟩ := W.readFields_fwd (d.head 0) Script.fields0 (by decide) w0 (by decide) _ _ r hr
  have e0 : 8 * q + ((declBits (d.head 0) Script.fields0).length : Int) = 8 * (q + 8) := by
    have : ((declBits (d.head 0) Script.fields0).length : Int) = 64 := len0
    omega
  rw [e0] at hr1
  have p1' := W.pos hr1
  -- section 1
  obtain ⟨fs1, r1', h1, hr1', f1⟩ := W.opening_fwd (d.head 1) (editionDecls d.edition) sized1 w1 nodup1 _ _ r1 hr1
  have b1 : ((d.head 1 "lengthInBytes" : Nat) : Int) * 8 = d.head1.length + d.pad1.length := by
    rw [List.length_append] at l1
    omega
  change W.At _ (8 * (q + 8) + d.head1.length) r1' at hr1'
  have t1 : r1.pos.tdiv 8 = q + 8 := by rw [p1']; exact Int.mul_tdiv_cancel_left _ (by decide)
  obtain ⟨pad1, n1', r2, p1, hr2⟩ := W.pads_fwd (d.head 1 "lengthInBytes") (r1.pos.tdiv 8) d.pad1 _ _ r1'
    (by rw [t1]; omega) hr1'
  have e1 : 8 * (q + 8) + (d.head1.length : Int) + d.pad1.length = 8 * (q + 8 + (d.head 1 "lengthInBytes" : Nat)) := by omega
  rw [e1] at hr2
  obtain ⟨q2, hq2⟩ : ∃ q2, q2 = q + 8 + ((d.head 1 "lengthInBytes" : Nat) : Int) := ⟨_, rfl⟩
  rw [← hq2] at hr2
  -- section 2
  obtain ⟨T2, hT2⟩ : ∃ T2, T2 = W.decls (d.head 3) (lengthDecl :: Script.fields3) ++ (d.descriptors.flatMap W.id ++ (W.pad d.pad3 ++
      (W.decls (d.head 4) (lengthDecl :: reserved4) ++ (dat ++ (W.pad d.pad4 ++ (W.decls (d.head 5) stop5 ++ rest)))))) := ⟨_, rfl⟩
  rw [← hT2] at hr2
  have s2 : ∃ (L2 : Nat) (fs2 : List (Field F)) (q3 : Int) (r3 : Reader F), (if d.locals.isSome = true then
      ReadFields r2 (fields2 L2) (lengthOf L2 :: fs2) r3 else r3 = r2) ∧ W.At T2 (8 * q3) r3 ∧
      (d.locals.isSome = true → Filled (d.head 2) (lengthDecl :: reserved2) (lengthOf L2 :: fs2)) ∧
      8 * q3 = 8 * q2 + d.bits2.length := by
    unfold part2 at hr2
    unfold Draft.bits2
    cases hl : d.locals with
    | none =>
      rw [hl] at hr2
      exact ⟨0, [], q2, r2, by simp, by simpa using hr2, by simp, by simp⟩
    | some l =>
      rw [hl] at hr2
      have m2 := m2 (by simp [hl])
      have l2 := hd.lengths _ m2 (by decide)
      have w2 : ∀ x ∈ lengthDecl :: reserved2, d.head 2 x.name < 2 ^ x.nbits.toNat := by
        intro x hx
        exact hd.fits _ m2 x.shape (by
          have : Layout.optional.fields = (lengthDecl :: reserved2).map FieldDecl.shape ++ [free "localBits"] := rfl
          rw [this]; exact List.mem_append_left _ (List.mem_map_of_mem hx)) x.nbits.toNat rfl
      rw [Gobufr.part2, hl] at l2
      have len2 : d.head2.length = 32 := declBits_length _ _
      have b2 : d.head 2 "lengthInBytes" * 8 = 32 + l.length := by
        have : d.head 2 "lengthInBytes" * 8 = (d.head2 ++ l).length := l2
        rw [List.length_append, len2] at this
        exact this
      simp only [List.append_assoc] at hr2
      obtain ⟨fs2, r2', h2, hr2', f2⟩ := W.opening_fwd (d.head 2) reserved2 (by decide) w2 (by decide) _ _ r2 hr2
      obtain ⟨x, r3, h3, hr3⟩ := W.readBits l _ _ r2' hr2'
      have en : (((d.head 2 "lengthInBytes" : Nat) : Int) - 4) * 8 = l.length := by omega
      have h2' : Fac.readValue DataType.BINARY ((((d.head 2 "lengthInBytes" : Nat) : Int) - 4) * 8) r2' = (.ok (.binary (some x)), r3) := by
        unfold Fac.readValue
        rw [if_neg (by decide), if_neg (by decide), if_neg (by decide), if_neg (by decide), if_neg (by decide), if_pos rfl, en,
          M.bind_ok h3]
        rfl
      refine ⟨d.head 2 "lengthInBytes", fs2 ++ [FieldDecl.field ⟨"localBits", DataType.BINARY, (((d.head 2 "lengthInBytes" : Nat) : Int) - 4) * 8, false⟩ (.binary (some x))], q2 + (d.head 2 "lengthInBytes" : Nat), r3, ?_, ?_, fun _ => ?_, ?_⟩
      · simp only [Option.isSome_some, if_true]
        exact h2.snoc (d := ⟨"localBits", DataType.BINARY, (((d.head 2 "lengthInBytes" : Nat) : Int) - 4) * 8, false⟩) h2'
      · change W.At T2 (8 * q2 + d.head2.length + l.length) r3 at hr3
        have e2 : 8 * (q2 + ((d.head 2 "lengthInBytes" : Nat) : Int)) = 8 * q2 + d.head2.length + l.length := by omega
        rw [e2]
        exact hr3
      · intro x hx
        obtain ⟨y, k1, k2⟩ := f2 x hx
        exact ⟨y, k1, fun more => by
          rw [← k2 ([_] ++ more)]
          congr 1
          exact congrArg (List.cons _) (List.append_assoc _ _ _)⟩
      · rw [List.length_append, len2]; omega
  obtain ⟨L2, fs2, q3, r3, h2, hr3, f2, hq3⟩ := s2
  rw [hT2] at hr3
  have p3' := W.pos hr3
  have t3 : r3.pos.tdiv 8 = q3 := by rw [p3']; exact Int.mul_tdiv_cancel_left _ (by decide)
  -- section 3
  obtain ⟨fs3, r3', h3, hr3', f3⟩ := W.opening_fwd (d.head 3) Script.fields3 (by decide) w3 (by decide) _ _ r3 hr3
  change W.At _ (8 * q3 + d.head3.length) r3' at hr3'
  have p3'' := W.pos hr3'
  have b3 : ((d.head 3 "lengthInBytes" : Nat) : Int) * 8 = d.head3.length + (16 * d.descriptors.length + d.pad3.length) := by
    have : d.ids.length = 16 * d.descriptors.length := ids_length _
    rw [List.length_append, List.length_append, this] at l3
    omega
  obtain ⟨r3i, hids, hri⟩ := W.readIds d.descriptors _ _ r3' hd.descriptors hr3'
  obtain ⟨pad3, n3, r4, p3, hr4⟩ := W.pads_fwd (d.head 3 "lengthInBytes") (r3.pos.tdiv 8) d.pad3 _ _ r3i (by rw [t3]; omega) hri
  have e3 : 8 * q3 + (d.head3.length : Int) + 16 * d.descriptors.length + d.pad3.length =
    8 * (q3 + (d.head 3 "lengthInBytes" : Nat)) := by omega
  rw [e3] at hr4
  obtain ⟨q4, hq4⟩ : ∃ q4, q4 = q3 + ((d.head 3 "lengthInBytes" : Nat) : Int) := ⟨_, rfl⟩
  rw [← hq4] at hr4
  have p4' := W.pos hr4
  have t4 : r4.pos.tdiv 8 = q4 := by rw [p4']; exact Int.mul_tdiv_cancel_left _ (by decide)
  -- section 4
  obtain ⟨fs4, r4', h4, hr4', f4⟩ := W.opening_fwd (d.head 4) reserved4 (by decide) w4 (by decide) _ _ r4 hr4
  change W.At _ (8 * q4 + d.head4.length) r4' at hr4'
  obtain ⟨p, r4i, hp, hr4i, hP⟩ := hdec _ _ r4' hr4'
  have b4 : ((d.head 4 "lengthInBytes" : Nat) : Int) * 8 = d.head4.length + (d.data.length + d.pad4.length) := by
    rw [List.length_append, List.length_append] at l4
    omega
  obtain ⟨pad4, n4, r5, p4, hr5⟩ := W.pads_fwd (d.head 4 "lengthInBytes") (r4.pos.tdiv 8) d.pad4 _ _ r4i (by rw [t4]; omega) hr4i
  -- section 5
  obtain ⟨fs5, r6, h5, hr6, f5⟩ := W.readFields_fwd (d.head 5) stop5 (by decide) w5 (by decide) _ _ r5 hr5
  have uint1 : ∀ (name : String), (∀ ds, IsEdition ds → ∃ x ∈ ds, x.name = name ∧ x.dataType = DataType.UINT) →
      ∀ more, valueIn (lengthOf (F := F) (d.head 1 "lengthInBytes") :: fs1 ++ more) name = some (.uint (d.head 1 name)) := by
    intro name h
    obtain ⟨x, hx, rfl, ht⟩ := h _ he
    exact f1.uint (List.mem_cons_of_mem _ hx) ht (w1 x (List.mem_cons_of_mem _ hx))
  have hpres : ∀ more, valueIn (lengthOf (F := F) (d.head 1 "lengthInBytes") :: fs1 ++ more) "isSection2Presents" =
      some (.bool d.locals.isSome) := by
    have : (⟨"isSection2Presents", DataType.BOOL, 1, true⟩ : FieldDecl) ∈ editionDecls d.edition := by
      rcases he with h | h <;> rw [h] <;> decide
    exact f1.bool (List.mem_cons_of_mem _ this) rfl rfl _ hd.flag
  refine ⟨⟨fs0, r1, h0, d.head 1 "lengthInBytes", fs1, r1',
    pad1, n1', r2, h1, p1, d.locals.isSome, hpres, L2, fs2, r3, h2,
    d.head 3 "lengthInBytes", fs3, r3', h3,
    d.descriptors.map descriptorNumber, d.descriptors.length, ?_, r3i, hids, pad3, n3, r4, p3,
    _, _, _, _, _, uint1 _ ?_, uint1 _ ?_, uint1 _ ?_, uint1 _ ?_, uint1 _ ?_, g, hg,
    d.head 4 "lengthInBytes", fs4, r4', h4,
    d.head 3 "nSubsets", ?_, compressed, ?_, p, r4i, hp, pad4, n4, r5, p4, fs5, r6, h5⟩, ?_, hP, ?_⟩
  · have hp3 := hd.pad3
    rw [p3'', t3, Int.tdiv_eq_ediv_of_nonneg (by omega)]
    omega
  · rintro ds (rfl | rfl) <;> decide
  · rintro ds (rfl | rfl) <;> decide
  · rintro ds (rfl | rfl) <;> decide
  · rintro ds (rfl | rfl) <;> decide
  · rintro ds (rfl | rfl) <;> decide
  · exact f3.uint (d := ⟨"nSubsets", DataType.UINT, 16, true⟩) (by decide) rfl (w3 ⟨"nSubsets", DataType.UINT, 16, true⟩ (by decide))
  · exact f3.bool (d := ⟨"isCompressed", DataType.BOOL, 1, true⟩) (by decide) rfl rfl _ hcomp
  · exact ⟨rfl, rfl, f0, f1, f2, f3, f4, f5⟩
  · change W.At rest (8 * q4 + (d.head4.length : Int) + d.data.length + d.pad4.length + d.head5.length) r6 at hr6
    have : (d.bits.length : Int) = 64 + (d.head1.length + d.pad1.length + (d.bits2.length + (d.head3.length +
        (16 * d.descriptors.length + d.pad3.length) + (d.head4.length + (d.data.length + d.pad4.length) + d.head5.length)))) := by
      have h1 : d.ids.length = 16 * d.descriptors.length := ids_length _
      rw [draft_bits]
      simp only [List.length_append, h1]
      push_cast
      rw [len0]
    have e : 8 * q + (d.bits.length : Int) = 8 * q4 + (d.head4.length : Int) + d.data.length + d.pad4.length + d.head5.length := by
      omega
    rw [e]
    exact hr6

end Medium

end Gobufr
