import Verif.Props.Accept

/-!
# Helper lemmas: a message that is read was composed
-/

namespace Gobufr
open Spec Layout

variable {F : Type}

/-- Bits at the beginning of the input, and the reader behind them. -/
theorem split_of_sync {src l : Bits} {p : Int} {r : Reader F} (h1 : BitsAt src p p l) (h2 : Sync src p r)
    (h3 : r.pos = p + l.length) : ∃ t, src = l ++ t ∧ r = .bin ⟨t, p + l.length⟩ := by
  obtain ⟨pre, post, rfl, e1⟩ := h1
  have : pre = [] := List.length_eq_zero_iff.1 (by omega)
  subst this
  obtain ⟨pre', rest, rfl, e2⟩ := h2
  have h3 : p + (pre'.length : Int) = p + l.length := h3
  rw [List.nil_append] at e2 ⊢
  obtain ⟨rfl, rfl⟩ := List.append_inj e2 (by omega)
  exact ⟨_, rfl, rfl⟩

theorem sync_self (src : Bits) (p : Int) : Sync (F := F) src p (.bin ⟨src, p⟩) := ⟨[], src, by simp, rfl⟩

theorem readValue_inv [GoFloat F] {dt : DataType} {n : Int} (hd : (⟨"", dt, n, false⟩ : FieldDecl).nice) {src : Bits} {p : Int}
    {r : Reader F} {v : Val F} (h : Fac.readValue dt n (.bin ⟨src, p⟩) = (.ok v, r))
    (h8 : 8 ≤ Fac.left r ∨ dt ≠ DataType.BINARY) :
    ∃ l t, src = l ++ t ∧ (l.length : Int) = n ∧ r = .bin ⟨t, p + l.length⟩ ∧ DenotesType dt l v := by
  obtain ⟨-, k⟩ := readValue_at hd (sync_self src p) h
  obtain ⟨k1, k2, l, k3, k4, k5⟩ := k h8
  have k4 : (l.length : Int) = n := k4
  have k2 : r.pos = p + n := k2
  obtain ⟨t, e1, e2⟩ := split_of_sync k3 k1 (by omega)
  exact ⟨l, t, e1, k4, e2, k5⟩

theorem declBits_congr {v w : String → Nat} {ds : List FieldDecl} (h : ∀ d ∈ ds, v d.name = w d.name) :
    declBits v ds = declBits w ds := by
  unfold declBits
  induction ds with
  | nil => rfl
  | cons d ds ih =>
    rw [List.flatMap_cons, List.flatMap_cons, h d (by simp), ih fun x hx => h x (List.mem_cons_of_mem _ hx)]

theorem declBits_cons (v : String → Nat) (d : FieldDecl) (ds : List FieldDecl) :
    declBits v (d :: ds) = natBits d.nbits.toNat (v d.name) ++ declBits v ds := by
  simp [declBits]

/-- Fields that were read: their bits are those of some numbers. -/
theorem readFields_inv [GoFloat F] {r r' : Reader F} {ds : List FieldDecl} {fs : List (Field F)} (h : ReadFields r ds fs r') :
    (∀ d ∈ ds, d.sized) → (ds.map fun x => str x.name).Nodup → (8 ≤ Fac.left r' ∨ ∀ d ∈ ds, d.dataType ≠ DataType.BINARY) →
    ∀ (src : Bits) (p : Int), r = .bin ⟨src, p⟩ →
    ∃ (v : String → Nat) (t : Bits), (∀ d ∈ ds, v d.name < 2 ^ d.nbits.toNat) ∧ src = declBits v ds ++ t ∧
      r' = .bin ⟨t, p + (declBits v ds).length⟩ ∧ Filled v ds fs := by
  induction h with
  | nil r =>
    rintro - - - src p rfl
    exact ⟨fun _ => 0, src, by simp, by simp [declBits], by simp [declBits], by simp [Filled]⟩
  | @cons r r1 r2 d ds fs x h1 h2 ih =>
    rintro hs hnd hl src p rfl
    have hb : IsBin r1 := by
      obtain ⟨E, hE, -⟩ := FLocal.readValue (F := F) d.dataType d.nbits
      exact ((hE.less h1) ⟨_, rfl⟩).1
    obtain ⟨l, t1, rfl, e2, rfl, e4⟩ := readValue_inv (hs d (by simp)) h1 (by
      rcases hl with hl | hl
      · exact Or.inl (Nat.le_trans hl (h2.less hb).2)
      · exact Or.inr (hl d (by simp)))
    obtain ⟨v, t, g1, rfl, rfl, g4⟩ := ih (fun y hy => hs y (List.mem_cons_of_mem _ hy)) (List.nodup_cons.1 hnd).2
      (hl.imp id fun h y hy => h y (List.mem_cons_of_mem _ hy)) _ _ rfl
    have hne : ∀ y ∈ ds, y.name ≠ d.name := fun y hy he =>
      (List.nodup_cons.1 hnd).1 (List.mem_map.2 ⟨y, hy, by rw [he]⟩)
    have hll : l.length = d.nbits.toNat := by omega
    have hbits : natBits d.nbits.toNat (bitsVal l) = l := by rw [← hll]; exact natBits_bitsVal l
    refine ⟨fun n => if n = d.name then bitsVal l else v n, t, ?_, ?_, ?_, ?_⟩
    · intro y hy
      rcases List.mem_cons.1 hy with rfl | hy
      · simp only [if_true]
        rw [← hll]
        exact bitsVal_lt l
      · simp only [if_neg (hne y hy)]
        exact g1 y hy
    · have e : declBits (fun n => if n = d.name then bitsVal l else v n) (d :: ds) = l ++ declBits v ds := by
        rw [declBits_cons, if_pos rfl, hbits, declBits_congr (w := v) fun y hy => if_neg (hne y hy)]
      rw [e, List.append_assoc]
    · have e : declBits (fun n => if n = d.name then bitsVal l else v n) (d :: ds) = l ++ declBits v ds := by
        rw [declBits_cons, if_pos rfl, hbits, declBits_congr (w := v) fun y hy => if_neg (hne y hy)]
      rw [e, List.length_append]
      congr 2
      push_cast
      omega
    · intro y hy
      rcases List.mem_cons.1 hy with rfl | hy
      · refine ⟨x, ?_, fun more => by simp [valueIn, FieldDecl.field]⟩
        simp only [if_true]
        rw [hbits]
        exact e4
      · obtain ⟨z, k1, k2⟩ := g4 y hy
        refine ⟨z, ?_, fun more => ?_⟩
        · simp only [if_neg (hne y hy)]
          exact k1
        · have : str d.name ≠ str y.name := fun he => (List.nodup_cons.1 hnd).1 (List.mem_map.2 ⟨y, hy, he.symm⟩)
          rw [← k2 more]
          simp [valueIn, FieldDecl.field, this]

/-- The fields of a section with a length. -/
theorem opening_inv [GoFloat F] {src : Bits} {p : Int} {r' : Reader F} {L : Nat} {ds : List FieldDecl} {fs : List (Field F)}
    (h : ReadFields (.bin ⟨src, p⟩) (lengthDecl :: ds) (lengthOf L :: fs) r') (hs : ∀ d ∈ lengthDecl :: ds, d.sized)
    (hnd : ((lengthDecl :: ds).map fun x => str x.name).Nodup) (h8 : 8 ≤ Fac.left r') :
    ∃ (v : String → Nat) (t : Bits), (∀ d ∈ lengthDecl :: ds, v d.name < 2 ^ d.nbits.toNat) ∧ v "lengthInBytes" = L ∧
      src = declBits v (lengthDecl :: ds) ++ t ∧ r' = .bin ⟨t, p + (declBits v (lengthDecl :: ds)).length⟩ ∧
      Filled v (lengthDecl :: ds) (lengthOf L :: fs) := by
  obtain ⟨v, t, h1, h2, h3, h4⟩ := readFields_inv h hs hnd (Or.inl h8) src p rfl
  refine ⟨v, t, h1, ?_, h2, h3, h4⟩
  have := h4.uint (d := lengthDecl) (by simp) rfl (h1 lengthDecl (by simp)) []
  have : some (Val.uint L : Val F) = some (.uint (v "lengthInBytes")) := this
  injection this with this
  injection this with this
  exact this.symm

/-- The padding. -/
theorem pads_inv {L : Nat} {b : Int} {src : Bits} {p : Int} {r' : Reader F} {pad : List (Field F)} {n : Int}
    (h : Pads L b (.bin ⟨src, p⟩) pad n r') :
    ∃ l t, src = l ++ t ∧ r' = .bin ⟨t, p + l.length⟩ ∧ (L : Int) * 8 = p - b * 8 + l.length := by
  obtain ⟨h1, h2, -, h4⟩ := h.at (P := fun _ => True) (sync_self src p)
  obtain ⟨pre, rest, rfl, rfl⟩ := h1
  have h4 : p + (pre.length : Int) = _ := h4
  exact ⟨pre, rest, rfl, rfl, by omega⟩

theorem readIds_inv [GoFloat F] {k : Nat} {src : Bits} {p : Int} {r' : Reader F} {ids : List ID}
    (h : Fac.readIds 2 6 8 k (.bin ⟨src, p⟩) = (.ok ids, r')) :
    ∃ (ds : List (Nat × Nat × Nat)) (t : Bits), (∀ x ∈ ds, x.1 < 2 ^ 2 ∧ x.2.1 < 2 ^ 6 ∧ x.2.2 < 2 ^ 8) ∧
      src = ds.flatMap (descriptorBits 2 6 8) ++ t ∧ ids = ds.map descriptorNumber ∧ ds.length = k ∧
      r' = .bin ⟨t, p + 16 * k⟩ := by
  obtain ⟨h1, h2, h3, l, h4, h5, ds, h6, rfl, rfl⟩ := readIds_at (sync_self src p) h
  have hl := ids_length ds
  have h3 : r'.pos = p + k * 16 := h3
  obtain ⟨t, e1, e2⟩ := split_of_sync h4 h1 (by omega)
  refine ⟨ds, t, fun x hx => ?_, e1, rfl, by simpa using h2, ?_⟩
  · obtain ⟨-, -, -, k1, k2, k3, -⟩ := h6 x hx
    exact ⟨k1, k2, k3⟩
  · rw [e2, h5, Int.mul_comm]

theorem Filled.uint_inv {v : String → Nat} {ds : List FieldDecl} {fs : List (Field F)} (h : Filled v ds fs) {d : FieldDecl}
    (hd : d ∈ ds) (ht : d.dataType = DataType.UINT) (hv : v d.name < 2 ^ d.nbits.toNat) {n : Nat}
    (hn : ∀ more, valueIn (fs ++ more) d.name = some (.uint n)) : v d.name = n := by
  have := (h.uint hd ht hv []).symm.trans (hn [])
  injection this with this
  injection this with this

theorem Filled.bool_inv {v : String → Nat} {ds : List FieldDecl} {fs : List (Field F)} (h : Filled v ds fs) {d : FieldDecl}
    (hd : d ∈ ds) (ht : d.dataType = DataType.BOOL) (hw : d.nbits = 1) (hv : v d.name < 2 ^ d.nbits.toNat) {b : Bool}
    (hb : ∀ more, valueIn (fs ++ more) d.name = some (.bool b)) : v d.name = if b then 1 else 0 := by
  have hv : v d.name < 2 := by rw [hw] at hv; exact hv
  obtain ⟨b', hb'⟩ : ∃ b' : Bool, v d.name = if b' then 1 else 0 := by
    rcases Nat.lt_or_ge (v d.name) 1 with h1 | h1
    · exact ⟨false, by simp; omega⟩
    · exact ⟨true, by simp; omega⟩
  have := (h.bool hd ht hw b' hb' []).symm.trans (hb [])
  injection this with this
  injection this with this
  rw [hb', this]

/-- What is left of the input while a message is read: at least the last section. -/
theorem Trace.lefts [GoFloat F] {c : FacCfg} (hc : c.inputType = .binary) {ds : List FieldDecl} {r : Reader F} (t : Trace c ds r)
    (hr : IsBin r) : 32 ≤ Fac.left t.r1 ∧ 32 ≤ Fac.left t.r1' ∧ 32 ≤ Fac.left t.r2 ∧ 32 ≤ Fac.left t.r3 ∧ 32 ≤ Fac.left t.r3' ∧
      32 ≤ Fac.left t.r4 ∧ 32 ≤ Fac.left t.r4' ∧ 32 ≤ Fac.left t.r4'' ∧ 32 ≤ Fac.left t.r5 := by
  have w2 : Less t.r2 t.r3 := by
    have := t.h2
    cases hb : t.present with
    | true => rw [hb] at this; exact ReadFields.less this
    | false => rw [hb] at this; rw [show t.r3 = t.r2 from this]; exact .refl _
  have w3 : Less t.r3' t.r4 := ((FLocal.readIds 2 6 8 t.k).less t.hids).trans t.p3.less
  have bin1 := (t.h0.less hr).1
  have bin1' := (t.h1.less bin1).1
  have bin2 := (t.p1.less bin1').1
  have bin3 := (w2 bin2).1
  have bin3' := (t.h3.less bin3).1
  have bin4 := (w3 bin3').1
  have bin4' := (t.h4.less bin4).1
  have bin4'' := (t.hp.less hc bin4').1
  have bin5 := (t.p4.less bin4'').1
  have n5 : 32 ≤ Fac.left t.r5 := by
    obtain ⟨b, hb⟩ := bin5
    have h5 := t.h5
    rw [hb] at h5 ⊢
    generalize t.fs5 = fs5, t.r6 = r6 at h5
    cases h5 with
    | cons g1 g2 =>
      have g1' : (do let v ← Reader.readBytes 4; pure (.bytes v) : M (Reader F) (Val F)) (.bin b) = (.ok _, _) := g1
      obtain ⟨x, r1, i1, i2⟩ := M.bind_eq_ok.1 g1'
      obtain ⟨i1, -⟩ := Prod.mk.inj i1
      obtain ⟨hl, u, hu, -⟩ := BitReader.readBytes_ok (s := b.src) (p := b.pos) (eq_of_fst i1)
      show 32 ≤ b.src.length
      rw [hu]
      have : (x.flatMap byteBits).length = 8 * x.length := BitReader.bitsOfBytes_length x
      simp only [List.length_append, this]
      omega
  have k1 := (t.p4.less bin4'').2
  have k2 := (t.hp.less hc bin4').2
  have k3 := (t.h4.less bin4).2
  have k4 := (w3 bin3').2
  have k5 := (t.h3.less bin3).2
  have k6 := (w2 bin2).2
  have k7 := (t.p1.less bin1').2
  have k8 := (t.h1.less bin1).2
  omega

/-- Section 2, if it has at least four bytes. -/
theorem section2_inv [GoFloat F] {src : Bits} {p : Int} {r' : Reader F} {L : Nat} {fs : List (Field F)}
    (h : ReadFields (.bin ⟨src, p⟩) (fields2 L) (lengthOf L :: fs) r') (hL : 4 ≤ L) (h8 : 8 ≤ Fac.left r') :
    ∃ (v : String → Nat) (l t : Bits), (∀ d ∈ lengthDecl :: reserved2, v d.name < 2 ^ d.nbits.toNat) ∧ v "lengthInBytes" = L ∧
      src = declBits v (lengthDecl :: reserved2) ++ l ++ t ∧ (L : Int) * 8 = 32 + l.length ∧
      r' = .bin ⟨t, p + 32 + l.length⟩ := by
  unfold fields2 at h
  generalize hr : (Reader.bin ⟨src, p⟩ : Reader F) = r at h
  cases h with
  | @cons _ r1 _ _ _ _ v1 k1 h =>
    cases h with
    | @cons _ r2 _ _ _ fs' v2 k2 h =>
      cases h with
      | @cons _ r3 _ _ _ fs'' v3 k3 h =>
        cases h
        subst hr
        have hb : IsBin r2 := (ReadFields.less (.cons k1 (.cons k2 (.nil _))) ⟨_, rfl⟩).1
        have h82 : 8 ≤ Fac.left r2 := Nat.le_trans h8 (ReadFields.less (.cons k3 (.nil _)) hb).2
        have h2 : ReadFields (.bin ⟨src, p⟩) (lengthDecl :: reserved2)
          (lengthOf L :: [FieldDecl.field ⟨"reservedBits", DataType.BINARY, 8, false⟩ v2]) r2 := .cons k1 (.cons k2 (.nil _))
        obtain ⟨v, t, g1, g2, rfl, rfl, -⟩ := opening_inv h2 (by decide) (by decide) h82
        obtain ⟨l, t', rfl, e2, rfl, -⟩ := readValue_inv (Or.inr (Or.inr (Or.inr (Or.inl ⟨rfl, by dsimp only; omega⟩)))) k3
          (Or.inl h8)
        have hlen : (declBits v (lengthDecl :: reserved2)).length = 32 := declBits_length _ _
        refine ⟨v, l, t', g1, g2, by rw [List.append_assoc], ?_, ?_⟩
        · dsimp only at e2
          omega
        · rw [hlen]
          rfl

/-- The numbers of the sections. -/
def heads (v0 v1 v2 v3 v4 v5 : String → Nat) : Nat → String → Nat
  | 0 => v0
  | 1 => v1
  | 2 => v2
  | 3 => v3
  | 4 => v4
  | _ => v5

/-- The bits of section 2, if there is one. -/
def localPart (v : String → Nat) : Option Bits → Bits
  | some l => declBits v (lengthDecl :: reserved2) ++ l
  | none => []

/-- A message that was read was composed, if its data were. -/
theorem draft_of_trace [GoFloat F] {c : FacCfg} (hc : c.inputType = .binary) {e : Nat} (he : e = 3 ∨ e = 4) {src : Bits} {q : Int}
    (t : Trace (F := F) c (editionDecls e) (.bin ⟨src, 8 * q⟩)) (hL2 : t.present = true → 4 ≤ t.L2) (P : Bits → Prop)
    (hdata : ∀ l pos, t.r4' = .bin ⟨l, pos⟩ → ∃ b u, P b ∧ l = b ++ u ∧ t.r4'' = .bin ⟨u, pos + b.length⟩)
    (hsig : ∃ u, src = (signature.flatMap fun b => natBits 8 b.toNat) ++ u)
    (hnum : fieldValue t.message 0 "bufrEditionNumber" = some (.uint e)) :
    ∃ (d : Draft) (rest : Bits) (k : Nat), d.Sound ∧ d.edition = e ∧ src = d.bits ++ rest ∧
      t.r6 = .bin ⟨rest, 8 * q + d.bits.length⟩ ∧ d.bits.length = 8 * k ∧ P d.data ∧ t.ids = d.descriptors.map descriptorNumber ∧
      d.head 1 "masterTableNumber" = t.master ∧ d.head 1 "originatingCentre" = t.centre ∧
      d.head 1 "originatingSubCentre" = t.subCentre ∧ d.head 1 "masterTableVersion" = t.masterVersion ∧
      d.head 1 "localTableVersion" = t.localVersion ∧ d.head 3 "nSubsets" = t.nSubsets ∧
      d.head 3 "isCompressed" = if t.compressed then 1 else 0 := by
  obtain ⟨n1, n1', n2, n3, n3', n4, n4', n4'', n5⟩ := t.lefts hc ⟨_, rfl⟩
  have hed := editionDecls_edition e
  have sized1 : ∀ x ∈ lengthDecl :: editionDecls e, x.sized := by rcases hed with h | h <;> rw [h] <;> decide
  have nodup1 : ((lengthDecl :: editionDecls e).map fun x => str x.name).Nodup := by
    rcases hed with h | h <;> rw [h] <;> decide
  -- section 0
  obtain ⟨v0, T1, fit0, hsrc, hr1, f0⟩ := readFields_inv t.h0 (by decide) (by decide) (Or.inr (by decide)) _ _ rfl
  have len0 : (declBits v0 Script.fields0).length = 64 := declBits_length _ _
  have q1 : 8 * q + ((declBits v0 Script.fields0).length : Int) = 8 * (q + 8) := by omega
  rw [q1] at hr1
  -- section 1
  have h1 := t.h1
  rw [hr1] at h1
  obtain ⟨v1, T1', fit1, hv1, hT1, hr1', f1⟩ := opening_inv h1 sized1 nodup1 (by omega)
  have p1 := t.p1
  rw [hr1, hr1', tdiv_bin] at p1
  obtain ⟨pad1, T2, hT1', hr2, l1⟩ := pads_inv p1
  obtain ⟨q2, hq2⟩ : ∃ q2, q2 = q + 8 + (t.L1 : Int) := ⟨_, rfl⟩
  have e2 : 8 * (q + 8) + ((declBits v1 (lengthDecl :: editionDecls e)).length : Int) + pad1.length = 8 * q2 := by omega
  rw [e2] at hr2
  -- section 2
  have sec2 : ∃ (v2 : String → Nat) (locals : Option Bits) (T3 : Bits) (q3 : Int), t.present = locals.isSome ∧
      T2 = localPart v2 locals ++ T3 ∧
      t.r3 = .bin ⟨T3, 8 * q3⟩ ∧
      ((localPart v2 locals).length : Int) = 8 * (q3 - q2) ∧
      (locals.isSome = true → ∀ d ∈ lengthDecl :: reserved2, v2 d.name < 2 ^ d.nbits.toNat) ∧
      ∀ l, locals = some l → v2 "lengthInBytes" * 8 = 32 + l.length := by
    have h2 := t.h2
    cases hb : t.present with
    | false =>
      rw [hb] at h2
      have h2 : t.r3 = t.r2 := h2
      exact ⟨fun _ => 0, none, T2, q2, rfl, rfl, by rw [h2, hr2], by simp [localPart], by simp, by simp⟩
    | true =>
      rw [hb] at h2
      have h2 : ReadFields t.r2 (fields2 t.L2) (lengthOf t.L2 :: t.fs2) t.r3 := h2
      rw [hr2] at h2
      obtain ⟨v2, l, T3, g1, g2, g3, g4, g5⟩ := section2_inv h2 (hL2 hb) (by omega)
      have len2 : (declBits v2 (lengthDecl :: reserved2)).length = 32 := declBits_length _ _
      refine ⟨v2, some l, T3, q2 + t.L2, rfl, g3, ?_, ?_, fun _ => g1, ?_⟩
      · rw [g5]
        congr 2
        omega
      · simp only [localPart, List.length_append, len2]
        push_cast
        omega
      · intro l' hl'
        cases hl'
        omega
  obtain ⟨v2, locals, T3, q3, hpres, hT2, hr3, len2, fit2, hv2⟩ := sec2
  -- section 3
  have h3 := t.h3
  rw [hr3] at h3
  obtain ⟨v3, T3', fit3, hv3, hT3, hr3', f3⟩ := opening_inv h3 (by decide) (by decide) (by omega)
  have len3 : (declBits v3 (lengthDecl :: Script.fields3)).length = 56 := declBits_length _ _
  have hids := t.hids
  rw [hr3'] at hids
  obtain ⟨ds, T3'', fitds, hT3', eids, hk, hr3''⟩ := readIds_inv hids
  have hk' := t.hk
  rw [hr3', hr3, tdiv_bin] at hk'
  have p3 := t.p3
  rw [hr3, hr3'', tdiv_bin] at p3
  obtain ⟨pad3, T4, hT3'', hr4, l3⟩ := pads_inv p3
  have hpad3 : pad3.length < 16 := by
    have hk' : (t.k : Int) = ((t.L3 : Int) * 8 - (8 * q3 + (declBits v3 (lengthDecl :: Script.fields3)).length - q3 * 8)).tdiv 16 := hk'
    rw [Int.tdiv_eq_ediv_of_nonneg (by omega)] at hk'
    omega
  obtain ⟨q4, hq4⟩ : ∃ q4, q4 = q3 + (t.L3 : Int) := ⟨_, rfl⟩
  have e4 : 8 * q3 + ((declBits v3 (lengthDecl :: Script.fields3)).length : Int) + 16 * t.k + pad3.length = 8 * q4 := by omega
  rw [e4] at hr4
  -- section 4
  have h4 : ReadFields t.r4 (lengthDecl :: reserved4) (lengthOf t.L4 :: t.fs4) t.r4' := t.h4
  rw [hr4] at h4
  obtain ⟨v4, T4', fit4, hv4, hT4, hr4', f4⟩ := opening_inv h4 (by decide) (by decide) (by omega)
  have len4 : (declBits v4 (lengthDecl :: reserved4)).length = 32 := declBits_length _ _
  obtain ⟨dat, T4'', hP, hT4', hr4''⟩ := hdata _ _ hr4'
  have p4 := t.p4
  rw [hr4, hr4'', tdiv_bin] at p4
  obtain ⟨pad4, T5, hT4'', hr5, l4⟩ := pads_inv p4
  -- section 5
  have h5 : ReadFields t.r5 stop5 t.fs5 t.r6 := t.h5
  rw [hr5] at h5
  obtain ⟨v5, rest, fit5, hT5, hr6, f5⟩ := readFields_inv h5 (by decide) (by decide) (Or.inr (by decide)) _ _ rfl
  have len5 : (declBits v5 stop5).length = 32 := declBits_length _ _
  -- the draft
  let d : Draft := ⟨e, heads v0 v1 v2 v3 v4 v5, pad1, locals, ds, pad3, dat, pad4⟩
  have hbits : d.bits = declBits v0 Script.fields0 ++ (declBits v1 (lengthDecl :: editionDecls e) ++ pad1 ++
      (localPart v2 locals ++
      (declBits v3 (lengthDecl :: Script.fields3) ++ (ds.flatMap (descriptorBits 2 6 8) ++ pad3) ++
      (declBits v4 (lengthDecl :: reserved4) ++ (dat ++ pad4) ++ declBits v5 stop5)))) := by
    rw [draft_bits d]
    have : d.bits2 = localPart v2 locals := by
      show (match locals with | some l => _ | none => _) = _
      cases locals <;> rfl
    rw [this]
    rfl
  have hidl := ids_length ds
  have hlen : (d.bits.length : Int) = 8 * (8 + t.L1 + (q3 - q2) + t.L3 + t.L4 + 4) := by
    rw [hbits]
    simp only [List.length_append, len0, len3, len4, len5, hidl] at len2 ⊢
    push_cast at len2 ⊢
    omega
  refine ⟨d, rest, (8 + t.L1 + (q3 - q2) + t.L3 + t.L4 + 4).toNat, ?_, rfl, ?_, ?_, by omega, hP, eids, ?_, ?_, ?_, ?_, ?_, ?_, ?_⟩
  · refine ⟨he, ?_, ?_, ?_, ?_, ?_, fitds, hpad3⟩
    · intro x hx f hf w hw
      have hx : x = indicator ∨ x = (if e = 4 then identification4 else identification3) ∨
          (locals.isSome = true ∧ x = Layout.optional) ∨ x = description ∨ x = data ∨ x = ending := by
        unfold Draft.sections Layout.sections at hx
        have hx : x ∈ [indicator, if e = 4 then identification4 else identification3] ++
          (if locals.isSome then [Layout.optional] else []) ++ [description, data, ending] := hx
        cases hl : locals.isSome <;> simpa [hl] using hx
      have key : ∀ (v : String → Nat) (l : List FieldDecl), (∀ y ∈ l, v y.name < 2 ^ y.nbits.toNat) →
          f ∈ l.map FieldDecl.shape → v f.name < 2 ^ w := by
        intro v l h hf
        obtain ⟨y, hy, rfl⟩ := List.mem_map.1 hf
        cases hw
        exact h y hy
      rcases hx with rfl | rfl | ⟨hl, rfl⟩ | rfl | rfl | rfl
      · exact key v0 _ fit0 hf
      · have hs : (if e = 4 then identification4 else identification3).fields =
            (lengthDecl :: editionDecls e).map FieldDecl.shape := by unfold editionDecls; split <;> rfl
        have hn : (if e = 4 then identification4 else identification3).number = 1 := by split <;> rfl
        rw [hs] at hf
        rw [hn]
        exact key v1 _ fit1 hf
      · exact key v2 _ (fit2 hl) (mem_sized (name := "localBits") hf hw)
      · exact key v3 _ fit3 (mem_sized (name := "unexpandedTemplate") hf hw)
      · exact key v4 _ fit4 (mem_sized (name := "payload") hf hw)
      · exact key v5 _ fit5 hf
    · intro x hx hf
      have hx : x = indicator ∨ x = (if d.edition = 4 then identification4 else identification3) ∨
          (locals.isSome = true ∧ x = Layout.optional) ∨ x = description ∨ x = data ∨ x = ending := by
        unfold Draft.sections Layout.sections at hx
        have hx : x ∈ [indicator, if d.edition = 4 then identification4 else identification3] ++
          (if locals.isSome then [Layout.optional] else []) ++ [description, data, ending] := hx
        cases hl : locals.isSome <;> simpa [hl] using hx
      rcases hx with rfl | rfl | ⟨hl, rfl⟩ | rfl | rfl | rfl
      · exact absurd hf (by decide)
      · have hn : (if d.edition = 4 then identification4 else identification3).number = 1 := by split <;> rfl
        rw [part1, hn]
        show v1 "lengthInBytes" * 8 = (declBits v1 (lengthDecl :: editionDecls e) ++ pad1).length
        rw [hv1, List.length_append]
        omega
      · rw [part2]
        cases hlo : locals with
        | none => rw [hlo] at hl; cases hl
        | some l =>
          show v2 "lengthInBytes" * 8 = (declBits v2 (lengthDecl :: reserved2) ++ locals.getD []).length
          rw [hlo, hv2 l hlo]
          have : (declBits v2 (lengthDecl :: reserved2)).length = 32 := declBits_length _ _
          simp [this]
      · rw [part3]
        show v3 "lengthInBytes" * 8 = (declBits v3 (lengthDecl :: Script.fields3) ++ (ds.flatMap (descriptorBits 2 6 8) ++ pad3)).length
        rw [hv3]
        simp only [List.length_append, len3, hidl]
        omega
      · rw [part4]
        show v4 "lengthInBytes" * 8 = (declBits v4 (lengthDecl :: reserved4) ++ (dat ++ pad4)).length
        rw [hv4]
        simp only [List.length_append, len4]
        omega
      · exact absurd hf (by decide)
    · obtain ⟨u, hu⟩ := hsig
      rw [hsrc] at hu
      have h0 : declBits v0 Script.fields0 = natBits 32 (v0 "startSignature") ++ (natBits 24 (v0 "totalLengthInBytes") ++
          natBits 8 (v0 "bufrEditionNumber")) := by
        simp [declBits, Script.fields0]
      rw [h0, List.append_assoc] at hu
      exact (List.append_inj hu (by simp [signature])).1
    · show v0 "bufrEditionNumber" = e
      refine f0.uint_inv (d := ⟨"bufrEditionNumber", DataType.UINT, 8, true⟩) (by decide) rfl (fit0 _ (by decide)) fun more => ?_
      rw [t.fieldValue_eq (find0 t)] at hnum
      have hx := f0.uint (d := ⟨"bufrEditionNumber", DataType.UINT, 8, true⟩) (by decide) rfl (fit0 _ (by decide))
      have h0 := hx []
      rw [List.append_nil] at h0
      have hnum : valueIn t.fs0 "bufrEditionNumber" = _ := hnum
      rw [hnum] at h0
      rw [hx more, h0]
    · have : (⟨"isSection2Presents", DataType.BOOL, 1, true⟩ : FieldDecl) ∈ lengthDecl :: editionDecls e := by
        rcases hed with h | h <;> rw [h] <;> decide
      have := f1.bool_inv this rfl rfl (fit1 _ this) t.hpresent
      rw [hpres] at this
      exact this
  · rw [hbits, hsrc, hT1, hT1', hT2, hT3, hT3', hT3'', hT4, hT4', hT4'', hT5]
    simp only [List.append_assoc]
  · rw [hr6]
    congr 2
    omega
  · have : (⟨"masterTableNumber", DataType.UINT, 8, true⟩ : FieldDecl) ∈ lengthDecl :: editionDecls e := by
      rcases hed with h | h <;> rw [h] <;> decide
    exact f1.uint_inv this rfl (fit1 _ this) t.hmaster
  · obtain ⟨x, hx, hn, ht⟩ : ∃ x ∈ lengthDecl :: editionDecls e, x.name = "originatingCentre" ∧ x.dataType = DataType.UINT := by
      rcases hed with h | h <;> rw [h] <;> decide
    have hk := t.hcentre
    rw [← hn] at hk
    have := f1.uint_inv hx ht (fit1 _ hx) hk
    rw [hn] at this
    exact this
  · obtain ⟨x, hx, hn, ht⟩ : ∃ x ∈ lengthDecl :: editionDecls e, x.name = "originatingSubCentre" ∧ x.dataType = DataType.UINT := by
      rcases hed with h | h <;> rw [h] <;> decide
    have hk := t.hsubCentre
    rw [← hn] at hk
    have := f1.uint_inv hx ht (fit1 _ hx) hk
    rw [hn] at this
    exact this
  · obtain ⟨x, hx, hn, ht⟩ : ∃ x ∈ lengthDecl :: editionDecls e, x.name = "masterTableVersion" ∧ x.dataType = DataType.UINT := by
      rcases hed with h | h <;> rw [h] <;> decide
    have hk := t.hmasterVersion
    rw [← hn] at hk
    have := f1.uint_inv hx ht (fit1 _ hx) hk
    rw [hn] at this
    exact this
  · obtain ⟨x, hx, hn, ht⟩ : ∃ x ∈ lengthDecl :: editionDecls e, x.name = "localTableVersion" ∧ x.dataType = DataType.UINT := by
      rcases hed with h | h <;> rw [h] <;> decide
    have hk := t.hlocalVersion
    rw [← hn] at hk
    have := f1.uint_inv hx ht (fit1 _ hx) hk
    rw [hn] at this
    exact this
  · have : (⟨"nSubsets", DataType.UINT, 16, true⟩ : FieldDecl) ∈ lengthDecl :: Script.fields3 := by decide
    exact f3.uint_inv this rfl (fit3 _ this) t.hnSubsets
  · have : (⟨"isCompressed", DataType.BOOL, 1, true⟩ : FieldDecl) ∈ lengthDecl :: Script.fields3 := by decide
    exact f3.bool_inv this rfl rfl (fit3 _ this) t.hcompressed

end Gobufr
