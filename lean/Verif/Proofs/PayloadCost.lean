import Verif.Proofs.PayloadRuns
import Verif.Spec.PayloadBits

/-!
# Helper lemmas: how much input decoding a payload takes
-/

namespace Gobufr
open ParserSpec Flat Spec

variable {F : Type} {c : VisCfg}

/-- A read that succeeds with `a` moves the position by `w a`, and consumes that many bits if `G a`. -/
def Takes (w : α → Int) (G : α → Prop) (m : M (Reader F) α) : Prop :=
  ∀ src p a r', m (.bin ⟨src, p⟩) = (.ok a, r') → ∃ src', r' = .bin ⟨src', p + w a⟩ ∧
    (G a → (src.length : Int) = src'.length + w a)

namespace Takes

theorem pure {w : α → Int} (G : α → Prop) (a : α) (h : w a = 0) : Takes (F := F) w G (Pure.pure a) := by
  intro src p b r e
  cases e
  exact ⟨src, by rw [h]; simp, fun _ => by omega⟩

theorem stop {m : M (Reader F) α} (w : α → Int) (G : α → Prop) (h : ∀ r a r', m r ≠ (.ok a, r')) : Takes w G m :=
  fun _ _ _ _ e => absurd e (h _ _ _)

theorem lift (G : α → Prop) (o : Outcome α) : Takes (F := F) (fun _ => 0) G (M.lift o) := by
  intro src p b r h
  simp only [M.lift_apply, Prod.mk.injEq] at h
  obtain ⟨rfl, rfl⟩ := h
  exact ⟨src, by simp, fun _ => by simp⟩

theorem bind {w1 : α → Int} {w2 : α → β → Int} {w : β → Int} {G1 : α → Prop} {G2 : α → β → Prop} {G : β → Prop}
    {m : M (Reader F) α} {f : α → M (Reader F) β}
    (hm : Takes w1 G1 m) (hf : ∀ a, Takes (w2 a) (G2 a) (f a))
    (hw : ∀ a b s r r' s', m s = (.ok a, r) → f a r = (.ok b, r') → s = .bin s' →
      w b = w1 a + w2 a b ∧ (G b → G1 a ∧ G2 a b)) : Takes w G (m >>= f) := by
  intro src p b r h
  obtain ⟨a, r1, h1, h2⟩ := M.bind_eq_ok.1 h
  obtain ⟨e1, e2⟩ := hw _ _ _ _ _ _ h1 h2 rfl
  obtain ⟨src1, rfl, k1⟩ := hm _ _ _ _ h1
  obtain ⟨src2, rfl, k2⟩ := hf _ _ _ _ _ h2
  refine ⟨src2, by rw [e1, Int.add_assoc], fun hg => ?_⟩
  have := k1 (e2 hg).1
  have := k2 (e2 hg).2
  omega

theorem mono {w w' : α → Int} {G G' : α → Prop} {m : M (Reader F) α} (hm : Takes w G m)
    (hw : ∀ a, w' a = w a) (hG : ∀ a, G' a → G a) : Takes w' G' m := by
  intro src p a r h
  obtain ⟨src1, rfl, k1⟩ := hm _ _ _ _ h
  exact ⟨src1, by rw [hw], fun hg => by rw [hw]; exact k1 (hG _ hg)⟩

theorem ite {w : α → Int} {G : α → Prop} {p : Prop} [Decidable p] {m n : M (Reader F) α}
    (hm : p → Takes w G m) (hn : ¬ p → Takes w G n) : Takes w G (if p then m else n) := by
  by_cases h : p
  · rw [if_pos h]; exact hm h
  · rw [if_neg h]; exact hn h

theorem readUint [GoFloat F] (n : Int) : Takes (F := F) (fun _ => n) (fun _ => 0 ≤ n) (Reader.readUint n) := by
  intro src p a r h
  simp only [Reader.readUint, Reader.call, Prod.mk.injEq] at h
  obtain ⟨l, t, hl, rfl, hr, rfl⟩ := BitReader.readUint_ok (eq_of_fst h.1)
  rw [hr] at h
  refine ⟨t, h.2.symm, fun hn => ?_⟩
  simp only [List.length_append]
  omega

theorem readInt [GoFloat F] (n : Int) : Takes (F := F) (fun _ => n) (fun _ => 0 < n) (Reader.readInt n) := by
  intro src p a r h
  simp only [Reader.readInt, Reader.call, Prod.mk.injEq] at h
  obtain ⟨b, l, t, hl, rfl, hr⟩ := BitReader.readInt_ok (eq_of_fst h.1)
  rw [hr] at h
  refine ⟨t, h.2.symm, fun hn => ?_⟩
  simp only [List.length_append, List.length_cons]
  omega

theorem readBytes (n : Int) : Takes (F := F) (fun _ => n * 8) (fun _ => True) (Reader.readBytes n) := by
  intro src p a r h
  simp only [Reader.readBytes, Reader.call, Prod.mk.injEq] at h
  obtain ⟨hl, t, rfl, hr⟩ := BitReader.readBytes_ok (eq_of_fst h.1)
  rw [hr] at h
  refine ⟨t, h.2.symm, fun _ => ?_⟩
  have key : ∀ a : List UInt8, (a.flatMap byteBits).length = a.length * 8 := by
    intro a
    induction a with
    | nil => rfl
    | cons b a ih =>
      rw [List.flatMap_cons, List.length_append, ih, List.length_cons, show (byteBits b).length = 8 from rfl]
      omega
  have := key a
  simp only [List.length_append]
  omega

theorem readBinary (n : Int) : Takes (F := F) (fun _ => n) (fun o => 0 ≤ n ∧ o ≠ none) (Reader.readBinary n) := by
  intro src p a r h
  simp only [Reader.readBinary, Reader.call, Prod.mk.injEq] at h
  obtain ⟨t, hr, hc⟩ := BitReader.readBinary_ok (eq_of_fst h.1)
  rw [hr] at h
  refine ⟨t, h.2.symm, fun hg => ?_⟩
  rcases hc with ⟨l, hl, rfl, ho⟩ | ⟨ho, _⟩
  · simp only [List.length_append]
    omega
  · exact absurd ho hg.2

variable [GoFloat F]

theorem uncompress (info : PackingInfo F) :
    Takes (fun _ => valueBits info.unit info.nbits) (fun v => goodWidth info ∧ v ≠ .binary none) (uncompressUnpack info) := by
  unfold uncompressUnpack valueBits goodWidth
  cases hu : info.unit <;> simp only
  · refine bind (readUint _) (fun _ => lift (fun _ => True) _) ?_
    intros; simp_all
  · refine bind (readBytes _) (w2 := fun _ _ => 0) (G2 := fun _ _ => True) (fun _ => pure _ _ rfl) ?_
    intros; simp
  · refine ite (fun h => pure _ _ (by simpa using h)) fun _ => bind (readUint _) (fun _ => lift (fun _ => True) _) ?_
    intros; simp_all
  · refine bind (readInt _) (w2 := fun _ _ => 0) (G2 := fun _ _ => True) (fun _ => pure _ _ rfl) ?_
    intros; simp_all
  · refine ite (fun h => pure _ _ (by simpa using h)) fun _ => bind (readUint _) (fun _ => lift (fun _ => True) _) ?_
    intros; simp_all
  · refine bind (readBinary _) (w2 := fun _ _ => 0) (G2 := fun _ _ => True) (fun _ => pure _ _ rfl) ?_
    intro a b s r r' s' h1 h2 _
    cases h2
    simp_all

omit [GoFloat F] in
theorem fill {f : M (Reader F) α} {w : Int} (hf : Takes (fun _ => w) (fun _ => True) f) :
    ∀ k : Nat, Takes (fun _ => k * w) (fun _ => True) (fillM f k)
  | 0 => pure _ _ (by simp)
  | k + 1 => by
    refine bind hf (fun _ => bind (fill hf k) (w := fun _ => k * w) (G := fun _ => True) (w2 := fun _ _ => 0)
      (G2 := fun _ _ => True) (fun _ => pure _ _ rfl) ?_) ?_
    · intros; simp
    · intros
      simp only [and_self, implies_true, and_true]
      push_cast
      rw [Int.add_mul]
      omega

theorem nbitsDiff : Takes (F := F) (fun _ => 6) (fun _ => True) readNbitsDiff := by
  refine bind (readUint 6) (w2 := fun _ _ => 0) (G2 := fun _ _ => True) (fun _ => pure _ _ rfl) ?_
  intros; simp

theorem nbitsDiff_nonneg {s : BitReader} {r' : Reader F} {a : Int} (h : readNbitsDiff (.bin s) = (.ok a, r')) : 0 ≤ a := by
  unfold readNbitsDiff at h
  obtain ⟨n, r1, h1, h2⟩ := M.bind_eq_ok.1 h
  have e2 : toInt64 n = a := Outcome.ok.inj (Prod.mk.inj h2).1
  rw [← e2]
  clear h2
  simp only [Reader.readUint, Reader.call, Prod.mk.injEq] at h1
  obtain ⟨l, t, hl, _, _, e⟩ := BitReader.readUint_ok (eq_of_fst h1.1)
  have hb : bitsVal l < 2 ^ 6 := by
    have := bitsVal_lt l
    rw [hl] at this
    exact this
  have h2 : n < 64 := by
    rw [e]
    exact Nat.lt_of_le_of_lt (Nat.mod_le _ _) hb
  have e3 : toInt64 (n : Int) = n := by
    unfold toInt64 two64
    rw [Int.bmod_eq_iff (by decide)]
    exact ⟨by omega, by omega, by simp⟩
  omega

omit [GoFloat F] in
theorem make (n : Int) : Takes (F := F) (fun _ => 0) (fun _ => True) (makeCheck n) :=
  ite (fun _ => stop _ _ (by intro _ _ _ h; cases h)) fun _ => pure _ _ rfl

theorem others (n : Int) (info : PackingInfo F) (u : PackingInfo F → Nat → Outcome (Val F)) :
    Takes (fun x => info.nbits + 6 + n * x.nbitsDiff) (fun _ => 0 ≤ info.nbits) (unpackOthers n info u) := by
  unfold unpackOthers
  refine bind (readUint _) (w2 := fun _ x => 6 + n * x.nbitsDiff) (G2 := fun _ _ => True) (fun min => ?_)
    (by intros; simp; omega)
  intro src p x r h
  obtain ⟨nd, r1, h1, h2⟩ := M.bind_eq_ok.1 h
  have hnd := nbitsDiff_nonneg h1
  obtain ⟨src1, rfl, k1⟩ := nbitsDiff _ _ _ _ h1
  suffices hs : Takes (fun x : CompressedVal F => n * x.nbitsDiff) (fun _ => True) (do
      makeCheck n
      if nd = 0 then do
        let v ← M.lift (u info min)
        Pure.pure ⟨.uint min, nd, List.replicate n.toNat v⟩
      else if isMissing (.uint min : Val F) info.nbits then
        M.fail (.msg "missing value must have zero valued nbitsDiff")
      else do
        let values ← fillM (unpackDiff u info min nd) n.toNat
        Pure.pure ⟨.uint min, nd, values⟩) by
    obtain ⟨src2, rfl, k2⟩ := hs _ _ _ _ h2
    refine ⟨src2, by rw [Int.add_assoc], fun _ => ?_⟩
    have := k1 trivial
    have := k2 trivial
    dsimp only at *
    omega
  unfold makeCheck
  by_cases hn : n < 0
  · exact stop _ _ (by intro r a r' e; rw [if_pos hn, M.bind_apply] at e; cases e)
  rw [if_neg hn, M.pure_bind]
  refine ite (fun h0 => ?_) fun h0 => ite (fun _ => stop _ _ (by intro _ _ _ h; cases h)) fun _ => ?_
  · subst h0
    refine bind (lift (fun _ => True) _) (w2 := fun _ x => n * x.nbitsDiff) (G2 := fun _ _ => True)
      (fun _ => pure _ _ (by simp)) (by intros; simp)
  · refine bind (fill (w := nd) ?_ n.toNat) (w2 := fun _ _ => 0) (G2 := fun _ _ => True) (fun _ => pure _ _ rfl) ?_
    · unfold unpackDiff
      refine bind (readUint nd) (w2 := fun _ _ => 0) (G2 := fun _ _ => True)
        (fun _ => ite (fun _ => pure _ _ rfl) fun _ => lift _ _) ?_
      intros; simp [hnd]
    · intro a b s r r' s' _ h2 _
      cases h2
      rw [show ((n.toNat : Nat) : Int) = n by omega]
      simp

theorem string (n : Int) (info : PackingInfo F) :
    Takes (fun x => info.nbits.tdiv 8 * 8 + 6 + n * (x.nbitsDiff * 8)) (fun _ => True) (unpackString n info) := by
  unfold unpackString
  refine bind (readBytes _) (w2 := fun _ x => 6 + n * (x.nbitsDiff * 8)) (G2 := fun _ _ => True) (fun min => ?_)
    (by intros; simp; omega)
  refine bind nbitsDiff (w2 := fun nd x => n * (x.nbitsDiff * 8)) (G2 := fun _ _ => True) (fun nd => ?_)
    (by intros; simp)
  unfold makeCheck
  by_cases hn : n < 0
  · exact stop _ _ (by intro r a r' e; rw [if_pos hn, M.bind_apply] at e; cases e)
  rw [if_neg hn, M.pure_bind]
  refine ite (fun h0 => ?_) fun h0 => ite (fun _ => stop _ _ (by intro _ _ _ h; cases h)) fun _ => ?_
  · subst h0
    exact pure _ _ (by simp)
  · refine bind (fill (readBytes nd) n.toNat) (w2 := fun _ _ => 0) (G2 := fun _ _ => True) (fun _ => pure _ _ rfl) ?_
    intro a b s r r' s' _ h2 _
    cases h2
    rw [show ((n.toNat : Nat) : Int) = n by omega]
    simp

theorem code (n : Int) (info : PackingInfo F) :
    Takes (fun x => info.nbits + 6 + n * x.nbitsDiff) (fun _ => 0 < info.nbits) (unpackCode n info) := by
  unfold unpackCode
  refine bind (readInt _) (w2 := fun _ x => 6 + n * x.nbitsDiff) (G2 := fun _ _ => True) (fun min => ?_)
    (by intros; simp; omega)
  intro src p x r h
  obtain ⟨nd, r1, h1, h2⟩ := M.bind_eq_ok.1 h
  have hnd := nbitsDiff_nonneg h1
  obtain ⟨src1, rfl, k1⟩ := nbitsDiff _ _ _ _ h1
  suffices hs : Takes (fun x : CompressedVal F => n * x.nbitsDiff) (fun _ => True) (do
      makeCheck n
      if nd = 0 then
        Pure.pure ⟨.int min, nd, List.replicate n.toNat (.int min)⟩
      else do
        let values ← fillM (unpackCodeDiff nd) n.toNat
        Pure.pure ⟨.int min, nd, values⟩) by
    obtain ⟨src2, rfl, k2⟩ := hs _ _ _ _ h2
    refine ⟨src2, by rw [Int.add_assoc], fun _ => ?_⟩
    have := k1 trivial
    have := k2 trivial
    dsimp only at *
    omega
  unfold makeCheck
  by_cases hn : n < 0
  · exact stop _ _ (by intro r a r' e; rw [if_pos hn, M.bind_apply] at e; cases e)
  rw [if_neg hn, M.pure_bind]
  refine ite (fun h0 => ?_) fun h0 => ?_
  · subst h0
    exact pure _ _ (by simp)
  · refine bind (fill (w := nd) ?_ n.toNat) (w2 := fun _ _ => 0) (G2 := fun _ _ => True) (fun _ => pure _ _ rfl) ?_
    · unfold unpackCodeDiff
      refine bind (readUint nd) (w2 := fun _ _ => 0) (G2 := fun _ _ => True)
        (fun _ => ite (fun _ => pure _ _ rfl) fun _ => stop _ _ (by intro _ _ _ h; cases h)) ?_
      intros; simp [hnd]
    · intro a b s r r' s' _ h2 _
      cases h2
      rw [show ((n.toNat : Nat) : Int) = n by omega]
      simp

theorem compressed (n : Nat) (fuel : Nat) (info : PackingInfo F) :
    Takes (fun x => columnBits n info.unit info.nbits x.nbitsDiff) (fun _ => goodWidth info)
      (compressedUnpack n fuel info) := by
  unfold compressedUnpack columnBits goodWidth
  cases hu : info.unit <;> simp only
  · exact (others n info _).mono (fun _ => rfl) (by simp)
  · exact (string n info).mono (fun _ => rfl) (by simp)
  · refine ite (fun h => ?_) fun h => ?_
    · simp only [if_pos h]
      exact bind (make _) (w2 := fun _ _ => 0) (G2 := fun _ _ => True) (fun _ => pure _ _ rfl) (by intros; simp)
    · simp only [if_neg h]
      exact (others n info _).mono (fun _ => rfl) (by simp)
  · exact (code n info).mono (fun _ => rfl) (by simp)
  · refine ite (fun h => ?_) fun h => ?_
    · simp only [if_pos h]
      exact bind (make _) (w2 := fun _ _ => 0) (G2 := fun _ _ => True) (fun _ => pure _ _ rfl) (by intros; simp)
    · simp only [if_neg h]
      exact (others n info _).mono (fun _ => rfl) (by simp)
  · exact (others n info _).mono (fun _ => rfl) (by simp)

end Takes

/-! ## The visitor -/

/-- The number of subsets, and the cells of the first. -/
def firstOf : Cells F → Option Nat × List (Cell F)
  | .flat cs => (none, cs)
  | .tissues [] => (some 0, [])
  | .tissues (t :: ts) => (some (ts.length + 1), t)

/-- The bits of the values decoded so far. -/
def costOf (s : Vis F) : Int := cellsBits (firstOf s.cells).1 s.heap (firstOf s.cells).2

/-- No read so far took other bits than it said. -/
def Fine (s : Vis F) : Prop := goodCells s.heap (firstOf s.cells).2

/-- The nodes of the cells exist; the number of subsets is the unpacker's. -/
structure Sound (c : VisCfg) (s : Vis F) : Prop where
  nodes : ∀ x ∈ (firstOf s.cells).2, x.n < s.heap.length
  unpacker : match (firstOf s.cells).1 with
    | none => c.unpacker = .uncompress
    | some n => ∃ fuel, c.unpacker = .compressed n fuel

/-- A call that takes the bits of the values it adds. -/
def Accounts (c : VisCfg) (m : M (Vis F) α) : Prop :=
  ∀ s src p a s', Sound c s → s.r = .bin ⟨src, p⟩ → m s = (.ok a, s') → Sound c s' ∧
    ∃ src' p', s'.r = .bin ⟨src', p'⟩ ∧ p' - p = costOf s' - costOf s ∧
      (Fine s' → Fine s ∧ (src.length : Int) - src'.length = costOf s' - costOf s)

/-- Nodes that exist keep their kinds. -/
theorem grown_kind {h h' : Heap F} {n : Nat} (hk : (h'[n]?).map (·.kind) = (h[n]?).map (·.kind)) (hn : n < h.length) :
    n < h'.length := by
  rw [List.getElem?_eq_getElem hn] at hk
  cases h2 : h'[n]? with
  | none => rw [h2] at hk; cases hk
  | some y => exact (List.getElem?_eq_some_iff.1 h2).1

theorem cellsBits_congr {h h' : Heap F} (k : Option Nat) {cs : List (Cell F)} (hn : ∀ x ∈ cs, x.n < h.length)
    (hk : ∀ n, n < h.length → (h'[n]?).map (·.kind) = (h[n]?).map (·.kind)) :
    cellsBits k h' cs = cellsBits k h cs := by
  unfold cellsBits
  congr 1
  apply List.map_congr_left
  intro x hx
  have := hk x.n (hn x hx)
  cases h1 : h'[x.n]? with
  | none =>
    rw [h1] at this
    cases h2 : h[x.n]? with
    | none => rfl
    | some y => rw [h2] at this; cases this
  | some z =>
    rw [h1] at this
    cases h2 : h[x.n]? with
    | none => rw [h2] at this; cases this
    | some y =>
      rw [h2] at this
      have : z.kind = y.kind := Option.some.inj this
      simp only [this]

theorem goodCells_congr {h h' : Heap F} {cs : List (Cell F)} (hn : ∀ x ∈ cs, x.n < h.length)
    (hk : ∀ n, n < h.length → (h'[n]?).map (·.kind) = (h[n]?).map (·.kind)) (hg : goodCells h' cs) :
    goodCells h cs := by
  intro x hx
  refine ⟨(hg x hx).1, fun y hy => ?_⟩
  have := hk x.n (hn x hx)
  rw [hy] at this
  cases h1 : h'[x.n]? with
  | none => rw [h1] at this; cases this
  | some z =>
    rw [h1] at this
    have e : z.kind = y.kind := Option.some.inj this
    rw [← e]
    exact (hg x hx).2 z h1

namespace Accounts

theorem quiet {m : M (Vis F) α} (q : Quiet m) : Accounts c m := by
  intro s src p a s' hs hr h
  have h1 := q.r s
  have h2 := q.cells s
  have h3 := q.kinds s
  rw [h] at h1 h2 h3
  dsimp only at h1 h2 h3
  have hc : costOf s' = costOf s := by
    unfold costOf
    rw [h2]
    exact cellsBits_congr _ hs.nodes h3
  refine ⟨⟨?_, ?_⟩, src, p, h1.trans hr, by omega, fun hf => ⟨?_, by omega⟩⟩
  · rw [h2]
    intro x hx
    exact grown_kind (h3 _ (hs.nodes x hx)) (hs.nodes x hx)
  · rw [h2]; exact hs.unpacker
  · unfold Fine at hf ⊢
    rw [h2] at hf
    exact goodCells_congr hs.nodes h3 hf

theorem bind {m : M (Vis F) α} {f : α → M (Vis F) β} (hm : Accounts c m) (hf : ∀ a, Accounts c (f a)) :
    Accounts c (m >>= f) := by
  intro s src p b s2 hs hr h
  obtain ⟨a, s1, h1, h2⟩ := M.bind_eq_ok.1 h
  obtain ⟨hs1, src1, p1, e1, c1, k1⟩ := hm s src p a s1 hs hr h1
  obtain ⟨hs2, src2, p2, e2, c2, k2⟩ := hf a s1 src1 p1 b s2 hs1 e1 h2
  refine ⟨hs2, src2, p2, e2, by omega, fun hf => ?_⟩
  obtain ⟨f1, d2⟩ := k2 hf
  obtain ⟨f0, d1⟩ := k1 f1
  exact ⟨f0, by omega⟩

theorem defer {m : M (Vis F) α} {d : M (Vis F) Unit} (hm : Accounts c m) (hd : Quiet d) : Accounts c (M.deferDo d m) := by
  intro s src p a s' hs hr h
  obtain ⟨s1, h1, h2⟩ : ∃ s1, m s = (.ok a, s1) ∧ (d s1).2 = s' := by
    unfold M.deferDo at h
    rcases hms : m s with ⟨o, s1⟩
    rcases hds : d s1 with ⟨o', s2⟩
    rw [hms] at h
    cases o <;> cases o' <;> simp_all
  obtain ⟨hs1, src1, p1, e1, c1, k1⟩ := hm s src p a s1 hs hr h1
  have hq : Accounts c (fun s => (.ok (), (d s).2) : M (Vis F) Unit) :=
    quiet ⟨fun s => hd.r s, fun s r => by rw [hd.frame], fun s => hd.cells s, fun s => hd.kinds s⟩
  obtain ⟨hs2, src2, p2, e2, c2, k2⟩ := hq s1 src1 p1 () s' hs1 e1 (by rw [← h2])
  refine ⟨hs2, src2, p2, e2, by omega, fun hf => ?_⟩
  obtain ⟨f1, d2⟩ := k2 hf
  obtain ⟨f0, d1⟩ := k1 f1
  exact ⟨f0, by omega⟩

end Accounts

theorem withNode_old (s : Vis F) (d : NodeDesc) (info : PackingInfo F) (i : Int) (mv : Val F) (nd : Int) (n : Nat)
    (hn : n < s.heap.length) :
    ((Flat.withNode s d info i mv nd)[n]?).map (·.kind) = (s.heap[n]?).map (·.kind) := by
  unfold Flat.withNode Heap.setIndex
  rw [List.getElem?_modify]
  have h1 : ¬ s.heap.length = n := by omega
  simp only [h1, if_false]
  have := Quiet.kinds_addMember (s.heap ++ [⟨.valued d 0 info .nil 0, []⟩]) s.node (some s.heap.length) n
  rw [List.getElem?_append_left hn] at this
  rw [← this]
  simp

theorem withNode_new (s : Vis F) (d : NodeDesc) (info : PackingInfo F) (i : Int) (mv : Val F) (nd : Int) :
    ((Flat.withNode s d info i mv nd)[s.heap.length]?).map (·.kind) = some (.valued d i info mv nd) := by
  unfold Flat.withNode Heap.setIndex
  rw [List.getElem?_modify]
  have := Quiet.kinds_addMember (s.heap ++ [⟨.valued d 0 info .nil 0, []⟩]) s.node (some s.heap.length) s.heap.length
  rw [List.getElem?_append_right (Nat.le_refl _)] at this
  simp only [Nat.sub_self, List.getElem?_cons_zero, Option.map_some] at this
  cases hx : (Heap.addMember (s.heap ++ [⟨.valued d 0 info .nil 0, []⟩]) s.node (some s.heap.length))[s.heap.length]? with
  | none => rw [hx] at this; cases this
  | some x =>
    rw [hx] at this
    have e : x.kind = .valued d 0 info .nil 0 := Option.some.inj this
    simp [e]

/-- Adding a value adds its bits. -/
theorem placed_cost (s : Vis F) (d : NodeDesc) (info : PackingInfo F) (i : Int) (mv : Val F) (nd : Int)
    (k : Option Nat) (cs : List (Cell F)) (v : Val F) (hn : ∀ x ∈ cs, x.n < s.heap.length) :
    (∀ x ∈ cs ++ [⟨s.heap.length, v⟩], x.n < (Flat.withNode s d info i mv nd).length) ∧
    cellsBits k (Flat.withNode s d info i mv nd) (cs ++ [⟨s.heap.length, v⟩]) =
      cellsBits k s.heap cs + nodeBits k (.valued d i info mv nd : NodeKind F) ∧
    (goodCells (Flat.withNode s d info i mv nd) (cs ++ [⟨s.heap.length, v⟩]) →
      goodCells s.heap cs ∧ goodWidth info ∧ v ≠ .binary none) := by
  have hold := withNode_old s d info i mv nd
  have hnew := withNode_new s d info i mv nd
  obtain ⟨y, hy, hyk⟩ : ∃ y, (Flat.withNode s d info i mv nd)[s.heap.length]? = some y ∧
      y.kind = .valued d i info mv nd := by
    cases hx : (Flat.withNode s d info i mv nd)[s.heap.length]? with
    | none => rw [hx] at hnew; cases hnew
    | some x => rw [hx] at hnew; exact ⟨x, rfl, Option.some.inj hnew⟩
  refine ⟨?_, ?_, ?_⟩
  · intro x hx
    rcases List.mem_append.1 hx with hx | hx
    · exact grown_kind (hold _ (hn x hx)) (hn x hx)
    · simp only [List.mem_singleton] at hx
      subst hx
      exact (List.getElem?_eq_some_iff.1 hy).1
  · rw [← cellsBits_congr k hn hold]
    unfold cellsBits
    rw [List.map_append, List.sum_append]
    simp [hy, hyk]
  · intro hg
    refine ⟨goodCells_congr hn hold fun x hx => hg x (List.mem_append_left _ hx), ?_⟩
    obtain ⟨g1, g2⟩ := hg ⟨s.heap.length, v⟩ (by simp)
    have := g2 y hy
    rw [hyk] at this
    exact ⟨this, g1⟩

section
variable [GoFloat F]

theorem Accounts.place (d : NodeDesc) (info : PackingInfo F) (s s1 : Vis F) (src : List Bool) (p : Int) (v : Unpacked F)
    (n : NodeId) (s' : Vis F) (hs : Sound c s) (hr : s.r = .bin ⟨src, p⟩)
    (h1 : Vis.unpack c info s = (.ok v, s1)) (h2 : Flat.place d info v s1 = (.ok n, s')) :
    Sound c s' ∧ ∃ src' p', s'.r = .bin ⟨src', p'⟩ ∧ p' - p = costOf s' - costOf s ∧
      (Fine s' → Fine s ∧ (src.length : Int) - src'.length = costOf s' - costOf s) := by
  rcases h1a : c.unpacker.unpack info (.bin ⟨src, p⟩) with ⟨o, r1⟩
  simp only [Vis.unpack, M.zoom, hr, h1a, Prod.mk.injEq] at h1
  obtain ⟨rfl, h1b⟩ := h1
  have hsu := hs.unpacker
  have hsn := hs.nodes
  cases hcells : s.cells with
  | flat cs =>
    rw [hcells] at hsu hsn
    dsimp only [firstOf] at hsu hsn
    rw [hsu] at h1a
    obtain ⟨x, rfl⟩ := unpack_plain (.inl rfl) _ _ _ _ h1a
    simp only [Unpacker.unpack] at h1a
    obtain ⟨x', r2, h3, h4⟩ := M.bind_eq_ok.1 h1a
    simp only [M.pure_apply, Prod.mk.injEq, Outcome.ok.injEq, Unpacked.plain.injEq] at h4
    obtain ⟨rfl, rfl⟩ := h4
    obtain ⟨src', rfl, k⟩ := Takes.uncompress info _ _ _ _ h3
    have e1 : s1 = { s with r := .bin ⟨src', p + valueBits info.unit info.nbits⟩ } := by
      exact h1b.symm
    have hc1 : s1.cells = .flat cs := by rw [e1]; exact hcells
    rw [place_flat d info x' s1 hc1] at h2
    obtain ⟨_, rfl⟩ := Prod.mk.inj h2
    have eh : s1.heap = s.heap := by rw [e1]
    obtain ⟨a1, a2, a3⟩ := placed_cost s1 d info cs.length .nil 0 none cs x' (by rw [eh]; exact hsn)
    have ec : costOf (placed s1 d info cs.length .nil 0 (.flat (cs ++ [⟨s1.heap.length, x'⟩]))) =
        costOf s + valueBits info.unit info.nbits := by
      refine a2.trans ?_
      unfold costOf
      rw [hcells, eh]
      rfl
    refine ⟨⟨a1, hsu⟩, src', p + valueBits info.unit info.nbits, by rw [e1]; rfl, by omega, fun hf => ?_⟩
    obtain ⟨f1, f2⟩ := a3 hf
    refine ⟨?_, ?_⟩
    · unfold Fine
      rw [hcells, ← eh]
      exact f1
    · have := k f2
      dsimp only at this
      omega
  | tissues ts =>
    cases ts with
    | nil =>
      exfalso
      have hc1 : s1.cells = .tissues [] := by rw [← h1b]; exact hcells
      rw [place_apply, M.bind_apply] at h2
      unfold Vis.cellsAdd at h2
      simp only [hc1] at h2
      cases h2
    | cons t ts =>
      rw [hcells] at hsu hsn
      dsimp only [firstOf] at hsu hsn
      obtain ⟨fuel, hsu⟩ := hsu
      rw [hsu] at h1a
      obtain ⟨x, rfl, hlen⟩ := unpack_compressed _ _ _ _ _ _ h1a
      simp only [Unpacker.unpack] at h1a
      obtain ⟨x', r2, h3, h4⟩ := M.bind_eq_ok.1 h1a
      simp only [M.pure_apply, Prod.mk.injEq, Outcome.ok.injEq, Unpacked.compressed.injEq] at h4
      obtain ⟨rfl, rfl⟩ := h4
      obtain ⟨src', rfl, k⟩ := Takes.compressed (ts.length + 1) fuel info _ _ _ _ h3
      have e1 : s1 = { s with r := .bin ⟨src', p + columnBits (ts.length + 1) info.unit info.nbits x'.nbitsDiff⟩ } := by
        exact h1b.symm
      have hc1 : s1.cells = .tissues (t :: ts) := by rw [e1]; exact hcells
      have hl : x'.values.length = (t :: ts).length := by rw [hlen]; simp
      obtain ⟨v0, vs, hvs⟩ : ∃ v0 vs, x'.values = v0 :: vs := by
        cases hv : x'.values with
        | nil => rw [hv] at hl; simp at hl
        | cons a b => exact ⟨a, b, rfl⟩
      have hadd := addColumn_eq s1.heap.length x'.values (t :: ts) hl
      rw [place_tissues d info x' s1 hc1 hadd] at h2
      obtain ⟨_, rfl⟩ := Prod.mk.inj h2
      have eh : s1.heap = s.heap := by rw [e1]
      obtain ⟨a1, a2, a3⟩ := placed_cost s1 d info t.length x'.minValue x'.nbitsDiff (some (ts.length + 1)) t v0
        (by rw [eh]; exact hsn)
      have hlz : vs.length = ts.length := by rw [hvs] at hl; simpa using hl
      have ef : firstOf (placed s1 d info t.length x'.minValue x'.nbitsDiff (.tissues
          (List.zipWith (fun t v => t ++ [⟨s1.heap.length, v⟩]) (t :: ts) x'.values))).cells =
          (some (ts.length + 1), t ++ [⟨s1.heap.length, v0⟩]) := by
        rw [hvs]
        show firstOf (.tissues (_ :: _)) = _
        simp [firstOf, hlz]
      have ec : costOf (placed s1 d info t.length x'.minValue x'.nbitsDiff (.tissues
          (List.zipWith (fun t v => t ++ [⟨s1.heap.length, v⟩]) (t :: ts) x'.values))) =
          costOf s + columnBits (ts.length + 1) info.unit info.nbits x'.nbitsDiff := by
        unfold costOf
        rw [ef]
        refine a2.trans ?_
        rw [hcells, eh]
        rfl
      refine ⟨⟨by rw [ef]; exact a1, by rw [ef]; exact ⟨fuel, hsu⟩⟩, src', _, by rw [e1]; rfl, by omega, fun hf => ?_⟩
      unfold Fine at hf
      rw [ef] at hf
      obtain ⟨f1, f2, _⟩ := a3 hf
      refine ⟨?_, ?_⟩
      · unfold Fine
        rw [hcells, ← eh]
        exact f1
      · have := k f2
        dsimp only at this
        omega

theorem Accounts.build (d : NodeDesc) (info : PackingInfo F) : Accounts c (Vis.buildValuedNodeWithInfo c d info) := by
  intro s src p n s' hs hr h
  unfold Vis.buildValuedNodeWithInfo at h
  obtain ⟨v, s1, h1, h2⟩ := M.bind_eq_ok.1 h
  exact Accounts.place d info s s1 src p v n s' hs hr h1 h2

omit [GoFloat F] in
theorem addColumn_noErr (n : NodeId) : ∀ (vs : List (Val F)) (ts : List (List (Cell F))) (e : Err),
    Cells.addColumn n vs ts ≠ .err e
  | [], _, _, h => by cases h
  | _ :: _, [], _, h => by cases h
  | v :: vs, t :: ts, e, h => by
    simp only [Cells.addColumn] at h
    cases hx : Cells.addColumn n vs ts with
    | ok a => rw [hx] at h; cases h
    | err e' => exact addColumn_noErr n vs ts e' hx
    | panic w => rw [hx] at h; cases h
    | diverge => rw [hx] at h; cases h

omit [GoFloat F] in
theorem cellsAdd_noErr (n : NodeId) (v : Unpacked F) (s : Vis F) (e : Err) : (Vis.cellsAdd n v s).1 ≠ .err e := by
  unfold Vis.cellsAdd
  split <;> try simp
  split <;> try simp
  rename_i h
  exact absurd h (addColumn_noErr _ _ _ _)

theorem Accounts.zero (hj : c.unpacker ≠ .json) (d : Option Desc) :
    Accounts c (M.ignoreErr () (Vis.buildZeroNode (F := F) c d)) := by
  intro s src p a s' hs hr h
  unfold M.ignoreErr at h
  rcases hb : Vis.buildZeroNode c d s with ⟨o, s1⟩
  rw [hb] at h
  cases o with
  | ok x =>
    cases h
    refine Accounts.bind (f := fun _ => Pure.pure ()) (m := Vis.buildZeroNode c d) ?_ (fun _ => .quiet (.pure _))
      s src p () s' hs hr (by rw [M.bind_ok hb]; rfl)
    unfold Vis.buildZeroNode
    split
    · exact .bind (.build _ _) fun _ => .quiet (.pure _)
    · exact .bind (.quiet (.alloc _)) fun n => .quiet (.treeAdd n)
  | err e =>
    cases h
    unfold Vis.buildZeroNode at hb
    split at hb
    · obtain ⟨o, ho⟩ := zeroUnpack (F := F) hj
      unfold Vis.buildValuedNodeWithInfo at hb
      rw [M.bind_apply, M.bind_apply, ho] at hb
      cases o with
      | ok v =>
        exfalso
        have hp : Flat.place ⟨d, false⟩ (Vis.plainInfo .nonnegCode 0) v s = (.err e, s') := by
          rcases hp : Flat.place ⟨d, false⟩ (Vis.plainInfo .nonnegCode 0) v s with ⟨o, s2⟩
          have hp' : (Vis.alloc (.valued ⟨d, false⟩ 0 (Vis.plainInfo .nonnegCode 0) .nil 0) >>= fun n => do
            Vis.treeAdd n
            Vis.cellsAdd n v
            Pure.pure n : M (Vis F) NodeId) s = (o, s2) := hp
          simp only [hp'] at hb
          cases o with
          | ok _ => cases hb
          | err e' => cases hb; rfl
          | panic w => cases hb
          | diverge => cases hb
        replace hb := hp
        rw [place_apply, M.bind_apply] at hb
        have hn := cellsAdd_noErr s.heap.length v { s with heap := (Heap.addMember
          (s.heap ++ [⟨.valued ⟨d, false⟩ 0 (Vis.plainInfo .nonnegCode 0) .nil 0, []⟩]) s.node (some s.heap.length)) }
        rcases hx : Vis.cellsAdd s.heap.length v { s with heap := (Heap.addMember
          (s.heap ++ [⟨.valued ⟨d, false⟩ 0 (Vis.plainInfo .nonnegCode 0) .nil 0, []⟩]) s.node (some s.heap.length)) }
          with ⟨o, s2⟩
        rw [hx] at hb hn
        cases o with
        | ok _ => cases hb
        | err e' => exact hn e' rfl
        | panic w => cases hb
        | diverge => cases hb
      | err e' =>
        cases hb
        exact ⟨hs, src, p, hr, by omega, fun hf => ⟨hf, by omega⟩⟩
      | panic w => cases hb
      | diverge => cases hb
    · cases hb
  | panic w => cases h
  | diverge => cases h

theorem Accounts.closed (hj : c.unpacker ≠ .json) : VClosed (F := F) c (Accounts c) where
  quiet := Accounts.quiet
  bind := Accounts.bind
  build := Accounts.build
  zero := Accounts.zero hj
  defer := Accounts.defer

end
end Gobufr
