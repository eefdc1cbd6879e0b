import Verif.Props.PayloadOps

/-!
# Properties of payload decoding: bitmaps and assessments (C58, C59, C61, C63, C64)
-/

set_option linter.unusedSimpArgs false

namespace Gobufr
open TemplateSpec ParserSpec Flat

variable {F : Type} {c : VisCfg}

/-! ## Helpers -/

/-- A simulated step, on tables. -/
theorem sim_table {α β : Type} {V : List NodeId → α → β → Prop} {m : M (Vis F) α} {m' : M (State F) β}
    {ρ : List NodeId} (h : Flat.Sim c ρ V m m') {s s' : Vis F} (hs : Represents c ρ s (tableOf s)) {a : α}
    (hm : m s = (.ok a, s')) :
    ∃ b ρ', ρ <+: ρ' ∧ m' (tableOf s) = (.ok b, tableOf s') ∧ Represents c ρ' s' (tableOf s') ∧ V ρ' a b := by
  obtain ⟨ρ', hp, ho, hr⟩ := h s _ hs
  rw [hm] at ho hr
  have hr := (hr (by simp)).1
  rcases hv : m' (tableOf s) with ⟨o, f'⟩
  rw [hv] at ho hr
  cases o with
  | ok b =>
    have e := tableOf_eq hr
    exact ⟨b, ρ', hp, by rw [e], by rw [e]; exact hr, ho⟩
  | err e => exact False.elim ho
  | panic w => exact False.elim ho
  | diverge => exact False.elim ho

theorem sim_table_err {α β : Type} {V : List NodeId → α → β → Prop} {m : M (Vis F) α} {m' : M (State F) β}
    {ρ : List NodeId} (h : Flat.Sim c ρ V m m') {s : Vis F} (hs : Represents c ρ s (tableOf s)) {e : Err}
    (hm : (m' (tableOf s)).1 = .err e) : (m s).1 = .err e := by
  obtain ⟨ρ', hp, ho, _⟩ := h s _ hs
  rw [hm] at ho
  cases h1 : (m s).1 <;> rw [h1] at ho <;> first | exact False.elim ho | skip
  exact congrArg _ ho

theorem uintValue_eq [GoFloat F] (n : NodeId) (v : Val F) (k : Nat) :
    Cell.uintValue ⟨n, v⟩ = .ok k ↔ numberOf v = some k := by
  unfold Cell.uintValue numberOf
  cases v <;> simp

theorem bitsOf_ok [GoFloat F] {f : State F} : ∀ {k : Nat} {i : Int} {bits : List Nat},
    bitsOf f k i = .ok bits → bits.length = k ∧
    ∀ (j : Nat) (n : Nat), bits[j]? = some n → ∃ (k : Nat) (col : Column F) (v : Val F),
      i + j = k ∧ f.cols[k]? = some col ∧ col.vals.head? = some v ∧ numberOf v = some n
  | 0, i, bits, h => by
    simp only [bitsOf, Outcome.ok.injEq] at h
    subst h
    simp
  | k + 1, i, bits, h => by
    simp only [bitsOf] at h
    obtain ⟨v, h1, h⟩ := Outcome.bind_eq_ok.1 h
    obtain ⟨b, h2, h⟩ := Outcome.bind_eq_ok.1 h
    obtain ⟨bs, h3, h⟩ := Outcome.bind_eq_ok.1 h
    simp only [Outcome.ok.injEq] at h
    subst h
    obtain ⟨hl, ih⟩ := bitsOf_ok h3
    refine ⟨by simp [hl], fun j n hj => ?_⟩
    cases j with
    | zero =>
      simp only [List.getElem?_cons_zero, Option.some.injEq] at hj
      subst hj
      unfold State.value at h1
      obtain ⟨col, h4, h5⟩ := Outcome.bind_eq_ok.1 h1
      simp only [Outcome.ok.injEq] at h5
      unfold index at h4
      split at h4
      · cases h4
      · split at h4
        · rename_i h6 _ h7
          cases h4
          refine ⟨i.toNat, col, v, by omega, h7, ?_, (uintValue_eq _ _ _).1 h2⟩
          cases hcv : col.vals with
          | nil =>
            rw [hcv] at h5
            have := (uintValue_eq _ _ _).1 h2
            rw [← h5] at this
            simp [numberOf] at this
          | cons w ws => rw [hcv] at h5; simpa using h5
        · cases h4
    | succ j =>
      simp only [List.getElem?_cons_succ] at hj
      obtain ⟨k', col, v', h4, h5⟩ := ih j n hj
      exact ⟨k', col, v', by push_cast; omega, h5⟩

theorem widths_ne {ρ : List NodeId} {s : Vis F} {f : State F} (hr : Represents c ρ s f) :
    ∀ col ∈ f.cols, col.vals ≠ [] := by
  intro col hc h0
  have hw := hr.widths col hc
  rw [h0] at hw
  cases hs : f.subsets with
  | none => rw [hs] at hw; simp at hw
  | some n =>
    rw [hs] at hw
    simp only [List.length_nil, Option.getD_some] at hw
    rw [hr.empty (by rw [hs, ← hw])] at hc
    simp at hc

theorem bits_at [GoFloat F] {ρ : List NodeId} {s : Vis F} (hr : Represents c ρ s (tableOf s)) {bits : List Nat}
    (h : (tableOf s).bits = .ok bits) : ∃ b, currentBitmap s = some b ∧ BitsAt (tableOf s).cols b bits := by
  unfold State.bits at h
  have e : ((tableOf s).current.bind fun b => (tableOf s).bitmaps[b]?) = currentBitmap s := rfl
  rw [e] at h
  cases hb : currentBitmap s with
  | none => rw [hb] at h; simp at h
  | some b =>
    rw [hb] at h
    simp only [] at h
    split at h
    · simp at h
    · rename_i h0
      obtain ⟨hl, hbit⟩ := bitsOf_ok h
      exact ⟨b, rfl, by omega, hbit⟩

theorem bitsOf_eq [GoFloat F] {f : State F} : ∀ {k : Nat} {i : Int} {bits : List Nat}, bits.length = k →
    (∀ (j : Nat) (n : Nat), bits[j]? = some n → ∃ (k : Nat) (col : Column F) (v : Val F),
      i + j = k ∧ f.cols[k]? = some col ∧ col.vals.head? = some v ∧ numberOf v = some n) →
    bitsOf f k i = .ok bits
  | 0, i, bits, hl, _ => by
    cases bits <;> simp at hl
    rfl
  | k + 1, i, [], hl, _ => by simp at hl
  | k + 1, i, b :: bs, hl, h => by
    obtain ⟨k', col, v, h1, h2, h3, h4⟩ := h 0 b rfl
    have ih := bitsOf_eq (f := f) (k := k) (i := i + 1) (bits := bs) (by simpa using hl) (fun j n hj => by
      obtain ⟨k', h⟩ := h (j + 1) n (by simpa using hj)
      exact ⟨k', by push_cast at h; simpa [Int.add_assoc, Int.add_comm 1] using h⟩)
    simp only [bitsOf, ih]
    have hi : i = k' := by simpa using h1
    have hv : f.value i = .ok v := by
      unfold State.value index
      rw [if_neg (by omega), hi]
      simp only [Int.toNat_natCast, h2, Outcome.bind_ok]
      cases hcv : col.vals with
      | nil => rw [hcv] at h3; simp at h3
      | cons w ws => rw [hcv] at h3; simpa using h3
    rw [hv]
    simp only [Outcome.bind_ok, (uintValue_eq 0 v b).2 h4]

theorem bits_eq [GoFloat F] {s : Vis F} {bits : List Nat} {b : Bitmap} (hb : currentBitmap s = some b)
    (h : BitsAt (tableOf s).cols b bits) : (tableOf s).bits = .ok bits := by
  unfold State.bits
  have e : ((tableOf s).current.bind fun b => (tableOf s).bitmaps[b]?) = currentBitmap s := rfl
  rw [e, hb]
  have hl := h.length
  simp only []
  rw [if_neg (by omega)]
  exact bitsOf_eq (by omega) h.bit

theorem cellNodes_eq {ρ : List NodeId} {s : Vis F} (hr : Represents c ρ s (tableOf s)) : cellNodes s = ρ := by
  have hz : ∀ k, (cellsOf ρ (tableOf s).cols k).map Cell.n = ρ := by
    intro k
    unfold cellsOf
    apply List.ext_getElem?
    intro i
    rw [List.getElem?_map, List.getElem?_zipWith]
    have hl := hr.nodes.length
    rcases Nat.lt_or_ge i ρ.length with h | h
    · rw [List.getElem?_eq_getElem h, List.getElem?_eq_getElem (by omega)]
      rfl
    · rw [List.getElem?_eq_none h, List.getElem?_eq_none (by omega)]
      rfl
  unfold cellNodes
  rw [hr.cells]
  cases hs : (tableOf s).subsets with
  | none => simpa [subsetsOf] using hz 0
  | some n =>
    cases n with
    | zero =>
      have := hr.nodes.length
      rw [hr.empty hs] at this
      simp at this
      simp [subsetsOf, this]
    | succ n => simpa [subsetsOf, List.range_succ_eq_map] using hz 0

theorem refs_map {ρ : List NodeId} {ns : List NodeId} {is : List Nat} (h : All2 (Ref ρ) ns is) :
    ns.map some = is.map (ρ[·]?) := by
  induction h with
  | nil => rfl
  | cons h1 _ ih => simp only [List.map_cons, ih]; rw [h1]

theorem zeros_selected (bits : List Nat) (n : Nat) : zeros bits (n - bits.length) = selected bits n := by
  rw [zeros_eq]; rfl

/-- What selecting targets does, on tables. -/
theorem selectTargets_ok [GoFloat F] {f f' : State F} {ts : List Nat} (h : selectTargets f = (.ok ts, f')) :
    ∃ bits, f.bits = .ok bits ∧ (bits.length : Int) ≤ f.backref + 1 ∧ (bits = [] → f.backref + 1 ≤ 0) ∧
      ts = zeros bits ((f.backref + 1).toNat - bits.length) ∧ f' = { f with targets := ts } := by
  unfold selectTargets at h
  obtain ⟨bits, g, h7, h5⟩ := M.bind_eq_ok.1 h
  simp only [Prod.mk.injEq] at h7
  obtain ⟨h7, rfl⟩ := h7
  obtain ⟨n, g, h8, h5⟩ := M.bind_eq_ok.1 h5
  simp only [Prod.mk.injEq, Outcome.ok.injEq] at h8
  obtain ⟨rfl, rfl⟩ := h8
  by_cases hb : f.backref + 1 < bits.length ∨ (bits = [] ∧ 0 < f.backref + 1)
  · rw [if_pos hb] at h5
    simp at h5
  · rw [if_neg hb] at h5
    obtain ⟨_, g, h9, h5⟩ := M.bind_eq_ok.1 h5
    simp only [M.modify_apply, Prod.mk.injEq, true_and] at h9
    subst h9
    simp only [M.pure_apply, Prod.mk.injEq, Outcome.ok.injEq] at h5
    obtain ⟨rfl, rfl⟩ := h5
    exact ⟨bits, h7, by omega, fun he => by rw [he] at hb; simp at hb; omega, rfl, rfl⟩

theorem added_ok {m : M (State F) Unit} {g g' : State F} {l : List Nat} (h : added m g = (.ok l, g')) :
    m g = (.ok (), g') ∧ l = List.range' g.cols.length (g'.cols.length - g.cols.length) := by
  unfold added at h
  obtain ⟨n0, g0, h0, h⟩ := M.bind_eq_ok.1 h
  obtain ⟨_, g1, h1, h⟩ := M.bind_eq_ok.1 h
  obtain ⟨n2, g2, h2, h⟩ := M.bind_eq_ok.1 h
  simp only [M.pure_apply, Prod.mk.injEq, Outcome.ok.injEq] at h h0 h2
  obtain ⟨h0, rfl⟩ := h0
  obtain ⟨h2, rfl⟩ := h2
  obtain ⟨rfl, rfl⟩ := h
  unfold State.len at h0 h2
  split at h0
  · cases h0
  · split at h2
    · cases h2
    · cases h0; cases h2
      refine ⟨h1, ?_⟩
      congr 1
      omega

/-! ## C58 -/

/-- C58. The targets of an assessment: the bits are the values decoded for the bitmap in force; they
belong to the last so many cells up to the back reference, and the targets are the nodes of those
whose bit is 0, in order.  There are at least as many cells as bits. -/
theorem C58_targets [GoFloat F] {s s' : Vis F} (hs : WellFormed c s) {ns : List NodeId}
    (h : Vis.initTargetNodes s = (.ok ns, s')) :
    ∃ b bits, currentBitmap s = some b ∧ BitsAt (tableOf s).cols b bits ∧ (bits.length : Int) ≤ s.bm.backref1 + 1 ∧
      ns.map some = (selected bits (s.bm.backref1 + 1).toNat).map ((cellNodes s)[·]?) ∧
      s' = { s with bm.targets := ns } ∧ (tableOf s').targets = selected bits (s.bm.backref1 + 1).toNat := by
  obtain ⟨ρ, hr⟩ := hs
  obtain ⟨ts, ρ', hp, h1, hr', hns⟩ := sim_table (F := F) sim_targets hr h
  obtain ⟨bits, h2, h3, _, h4, h5⟩ := selectTargets_ok h1
  obtain ⟨b, hb, hba⟩ := bits_at hr h2
  have hs' : s' = { s with bm.targets := ns } := by
    unfold Vis.initTargetNodes at h
    obtain ⟨_, g, h6, h⟩ := M.bind_eq_ok.1 h
    obtain ⟨_, g1, h7, h⟩ := M.bind_eq_ok.1 h
    simp only [Prod.mk.injEq] at h6 h7
    obtain ⟨_, rfl⟩ := h6
    obtain ⟨_, rfl⟩ := h7
    split at h
    · simp at h
    · obtain ⟨_, g2, h8, h⟩ := M.bind_eq_ok.1 h
      simp only [M.modify_apply, Prod.mk.injEq, true_and] at h8
      simp only [M.pure_apply, Prod.mk.injEq, Outcome.ok.injEq] at h
      rw [← h.2, ← h8, h.1]
  refine ⟨b, bits, hb, hba, h3, ?_, hs', ?_⟩
  · have e1 : cellNodes s' = cellNodes s := by rw [hs']; rfl
    rw [← e1, cellNodes_eq hr', ← zeros_selected]
    exact (refs_map hns).trans (by rw [h4]; rfl)
  · rw [h5, ← zeros_selected]
    exact h4

/-- C58. A bitmap with more bits than there are cells up to the back reference is rejected. -/
theorem C58_rejected [GoFloat F] {s : Vis F} (hs : WellFormed c s) {b : Bitmap} {bits : List Nat}
    (hb : currentBitmap s = some b) (hbits : BitsAt (tableOf s).cols b bits)
    (hl : s.bm.backref1 + 1 < bits.length) :
    (Vis.initTargetNodes s).1 = .err (.msg "inconsistent number of bits and target nodes") := by
  obtain ⟨ρ, hr⟩ := hs
  refine sim_table_err (F := F) sim_targets hr ?_
  unfold selectTargets
  refine (congrArg Prod.fst (query_bind (q := fun f : State F => f.bits) (bits_eq hb hbits) _)).trans ?_
  refine (congrArg Prod.fst (query_bind (q := fun f : State F => .ok (f.backref + 1)) rfl _)).trans ?_
  have e : (tableOf s).backref = s.bm.backref1 := rfl
  rw [if_pos (.inl (by rw [e]; exact hl))]
  rfl

/-- C58. A bitmap with at least one bit and not too many is accepted. -/
theorem C58_accepted [GoFloat F] {s : Vis F} (hs : WellFormed c s) {b : Bitmap} {bits : List Nat}
    (hb : currentBitmap s = some b) (hbits : BitsAt (tableOf s).cols b bits)
    (hl : (bits.length : Int) ≤ s.bm.backref1 + 1) (hne : bits ≠ []) :
    ∃ ns s', Vis.initTargetNodes s = (.ok ns, s') := by
  obtain ⟨ρ, hr⟩ := hs
  obtain ⟨ρ', _, ho, _⟩ := sim_targets s _ hr
  have e : (selectTargets (tableOf s)).1 = .ok (zeros bits ((s.bm.backref1 + 1).toNat - bits.length)) := by
    unfold selectTargets
    refine (congrArg Prod.fst (query_bind (q := fun f : State F => f.bits) (bits_eq hb hbits) _)).trans ?_
    refine (congrArg Prod.fst (query_bind (q := fun f : State F => .ok (f.backref + 1)) rfl _)).trans ?_
    have e : (tableOf s).backref = s.bm.backref1 := rfl
    rw [if_neg (by rw [e]; exact fun h => h.elim (fun h => by omega) fun h => hne h.1)]
    rfl
  rw [e] at ho
  obtain ⟨ns, h1, _⟩ := ho.ok
  exact ⟨ns, _, Prod.ext h1 rfl⟩

/-- C58. The back reference, once set, is kept by everything that does not contain 235000; and it is
not set by anything that does not contain an assessment. -/
theorem C58_keep [GoFloat F] (hc : CfgOk c) {ts : List Ast} (hts : noBaseL ts = true)
    (hA : ∀ d, .cancelBackRef d ∉ nodesL ts) {s s' : Vis F}
    (hB : s.bm.backref1 ≠ -1 ∨ ∀ d bm as ms, .assessment d bm as ms ∉ nodesL ts)
    (hs : WellFormed c s) (h : Vis.visitL c ts s = (.ok (), s')) : s'.bm.backref1 = s.bm.backref1 := by
  rcases hB with hB | hB
  · have k : Keeps c (fun n => ∀ d, n ≠ .cancelBackRef d)
        (fun f f' : State F => f.backref ≠ -1 → f'.backref = f.backref) :=
      { refl := fun _ _ => rfl
        trans := fun f g h e1 e2 hf => by
          have := e1 hf
          rw [← this]
          exact e2 (by rw [this]; exact hf)
        build := fun d info f i f' h _ => by
          obtain ⟨_, v, col, r, _, _, _, _, _, rfl⟩ := build_ok h
          rfl
        zero := fun d f f' h _ => by
          obtain ⟨r, cols, rfl⟩ := zero_fields h
          rfl
        attach := fun _ _ _ _ => rfl
        setSig := fun _ _ _ _ _ => rfl
        assocField := fun _ _ _ _ _ _ => rfl
        targets := fun _ _ _ => rfl
        nbitsOffset := fun _ _ _ _ _ => rfl
        scaleOffset := fun _ _ _ _ _ => rfl
        modifyPacking := fun _ _ _ _ _ _ _ => rfl
        setStringLength := fun _ _ _ _ _ => rfl
        newAssessment := fun d bm as ms f f' h h' hf => by
          rcases newAssessment_ok h' with ⟨hb, rfl⟩ | ⟨_, rfl⟩
          · exact absurd hb hf
          · rfl
        cancelBackRef := fun d f h _ => absurd rfl (h d)
        cancelBitmap := fun _ _ _ _ => rfl
        newBitmap := fun d ms f f' h hid h' _ => by rw [newBitmap_ok h']
        endBitmap := fun d ms f f' h hid h' _ => by
          obtain ⟨b, _, rfl⟩ := endBitmap_ok h'
          rfl
        recall := fun _ _ _ _ _ _ => rfl }
    exact keeps_visitL k hc hts (fun n hn d he => hA d (he ▸ hn)) hs h hB
  · have k : Keeps c (fun n => (∀ d, n ≠ .cancelBackRef d) ∧ ∀ d bm as ms, n ≠ .assessment d bm as ms)
        (fun f f' : State F => f'.backref = f.backref) := by
      apply keeps_proj (fun f => f.backref) <;> intros <;>
        first | rfl | (rename_i hA; exact absurd rfl (hA.1 _)) | (rename_i hA _; exact absurd rfl (hA.2 _ _ _ _))
    exact keeps_visitL k hc hts (fun n hn => ⟨fun d he => hA d (he ▸ hn), fun d bm as ms he => hB d bm as ms (he ▸ hn)⟩) hs h

/-- The steps of decoding an assessment: `s0` is when its bitmap is decoded, `s1` when the attributes,
`s2` when the targets `ns` are selected, `s3` when the members are decoded, `s4` when they are
attached. -/
structure Assessed [GoFloat F] (c : VisCfg) (d : Desc) (bm : Ast) (as ms : List Ast) (s s0 s1 s2 : Vis F)
    (ns : List NodeId) (s3 s4 s' : Vis F) : Prop where
  backref : s0.bm.backref1 = if s.bm.backref1 = -1 then ((tableOf s).cols.length : Int) - 1 else s.bm.backref1
  bitmaps : s0.bm.bitmaps = s.bm.bitmaps ∧ s0.bm.reusable = s.bm.reusable ∧ s0.bm.current = s.bm.current
  cols : ∃ zero, (tableOf s0).cols = (tableOf s).cols ++ zero ∧ zero.length ≤ 1 ∧ (c.compatible = false → zero = [])
  wf : WellFormed c s0 ∧ WellFormed c s1 ∧ WellFormed c s2 ∧ WellFormed c s3 ∧ WellFormed c s4 ∧ WellFormed c s'
  decodeBitmap : Vis.visit c bm s0 = (.ok (), s1)
  decodeAttrs : Vis.visitL c as s1 = (.ok (), s2)
  select : Vis.initTargetNodes s2 = (.ok ns, s3)
  decodeMembers : Vis.visitL c ms s3 = (.ok (), s4)
  attach : attachSources (List.range' (tableOf s1).cols.length ((tableOf s2).cols.length - (tableOf s1).cols.length))
    (List.range' (tableOf s3).cols.length ((tableOf s4).cols.length - (tableOf s3).cols.length))
    (tableOf s3).targets (tableOf s4) = (.ok (), tableOf s')


theorem ite_cases {σ α : Type} {p : Prop} [Decidable p] {m n : M σ α} {s : σ} {x : Outcome α × σ}
    (h : (if p then m else n) s = x) : (p ∧ m s = x) ∨ (¬ p ∧ n s = x) := by
  by_cases hp : p
  · exact .inl ⟨hp, by simpa [hp] using h⟩
  · exact .inr ⟨hp, by simpa [hp] using h⟩

theorem valuedNodes_ok {m : M (Vis F) Unit} {s s' : Vis F} {ns : List NodeId} (h : Vis.valuedNodes m s = (.ok ns, s')) :
    m s = (.ok (), s') := by
  unfold Vis.valuedNodes at h
  obtain ⟨n0, g0, h0, h⟩ := M.bind_eq_ok.1 h
  obtain ⟨_, g1, h1, h⟩ := M.bind_eq_ok.1 h
  obtain ⟨n2, g2, h2, h⟩ := M.bind_eq_ok.1 h
  simp only [Vis.len, Prod.mk.injEq] at h0 h2
  obtain ⟨_, rfl⟩ := h0
  obtain ⟨_, rfl⟩ := h2
  rcases ite_cases h with ⟨_, h⟩ | ⟨_, h⟩
  · simp at h
  · simp only [Prod.mk.injEq] at h
    rw [h1, h.2]

theorem assessed [GoFloat F] (hc : CfgOk c) {d : Desc} {bm : Ast} {as ms : List Ast}
    (ht : noBase (.assessment d bm as ms) = true) {s s' : Vis F} (hs : WellFormed c s)
    (h : Vis.visit c (.assessment d bm as ms) s = (.ok (), s')) :
    ∃ s0 s1 s2 ns s3 s4, Assessed c d bm as ms s s0 s1 s2 ns s3 s4 s' := by
  simp only [noBase, Bool.and_eq_true] at ht
  obtain ⟨⟨hb, ha⟩, hm⟩ := ht
  obtain ⟨ρ, hr⟩ := hs
  simp only [Vis.visit] at h
  unfold Vis.visitAssessment at h
  obtain ⟨_, sa, h1, h⟩ := M.bind_eq_ok.1 h
  obtain ⟨_, s0, h2, h⟩ := M.bind_eq_ok.1 h
  obtain ⟨_, s1, h3, h⟩ := M.bind_eq_ok.1 h
  obtain ⟨an, s2, h4, h⟩ := M.bind_eq_ok.1 h
  obtain ⟨ns, s3, h5, h⟩ := M.bind_eq_ok.1 h
  obtain ⟨sn, s4, h6, h⟩ := M.bind_eq_ok.1 h
  obtain ⟨_, ρ1, hp1, t1, hr1, _⟩ := sim_table (F := F) sim_newAssessment hr h1
  obtain ⟨_, ρ2, hp2, t2, hr2, _⟩ := sim_table (F := F) (sim_zero hc d) hr1 h2
  obtain ⟨_, ρ3, hp3, t3, hr3, _⟩ := sim_table (F := F) (sim_visit hc bm hb _) hr2 h3
  obtain ⟨as', ρ4, hp4, t4, hr4, ha4⟩ := sim_table (F := F)
    (sim_valuedNodes fun ρ' _ => sim_visitL hc as ha ρ') hr3 h4
  obtain ⟨ts', ρ5, hp5, t5, hr5, ht5⟩ := sim_table (F := F) sim_targets hr4 h5
  obtain ⟨ss', ρ6, hp6, t6, hr6, ha6⟩ := sim_table (F := F)
    (sim_valuedNodes fun ρ' _ => sim_visitL hc ms hm ρ') hr5 h6
  obtain ⟨_, ρ7, hp7, t7, hr7, _⟩ := sim_table (F := F)
    (sim_attach (ha4.imp fun _ _ h => h.mono (hp5.trans hp6)) ha6 (ht5.imp fun _ _ h => h.mono hp6)) hr6 h
  obtain ⟨_, rfl⟩ := added_ok t4
  obtain ⟨_, rfl⟩ := added_ok t6
  obtain ⟨bits, _, _, _, _, e5⟩ := selectTargets_ok t5
  have ets : (tableOf s3).targets = ts' := by rw [e5]
  obtain ⟨r, zcols, ez⟩ := zero_fields t2
  refine ⟨s0, s1, s2, ns, s3, s4, {
    backref := ?_, bitmaps := ?_, cols := ?_, decodeBitmap := h3, decodeAttrs := valuedNodes_ok h4, select := h5,
    decodeMembers := valuedNodes_ok h6, attach := ?_,
    wf := ⟨⟨_, hr2⟩, ⟨_, hr3⟩, ⟨_, hr4⟩, ⟨_, hr5⟩, ⟨_, hr6⟩, ⟨_, hr7⟩⟩ }⟩
  · have e : s0.bm.backref1 = (tableOf s0).backref := rfl
    rw [e, ez]
    have e1 : s.bm.backref1 = (tableOf s).backref := rfl
    rw [e1]
    rcases newAssessment_ok t1 with ⟨h0, e2⟩ | ⟨h0, e2⟩ <;> rw [e2] <;> simp [h0]
  · have e1 := congrArg (fun f => (f.bitmaps, f.reusable, f.current)) ez
    rcases newAssessment_ok t1 with ⟨h0, e2⟩ | ⟨h0, e2⟩ <;> rw [e2] at e1 <;>
      simpa [tableOf] using e1
  · have e3 : (tableOf sa).cols = (tableOf s).cols := by
      rcases newAssessment_ok t1 with ⟨_, e2⟩ | ⟨_, e2⟩ <;> rw [e2]
    rw [← e3]
    by_cases hcomp : c.compatible = true
    · rcases zero_ok t2 with ⟨r, e4⟩ | e4
      · exact ⟨[], by rw [e4]; simp, by simp, fun _ => rfl⟩
      · obtain ⟨_, v, col, r, _, _, _, _, _, e4⟩ := build_ok e4
        exact ⟨[col], by rw [e4], by simp, fun h0 => by rw [hcomp] at h0; cases h0⟩
    · refine ⟨[], ?_, by simp, fun _ => rfl⟩
      unfold buildZero at t2
      rw [if_neg hcomp] at t2
      simp only [M.pure_apply, Prod.mk.injEq] at t2
      rw [← t2.2]
      simp
  · rw [ets]
    exact t7

/-- C58. In an assessment, the cells that are referred to are the last ones before it, or before
the first assessment since the start or 235000: when the targets are selected, the back
reference is the one of `s`, or, if there is none, the last cell of `s`. -/
theorem C58_assessment [GoFloat F] (hc : CfgOk c) {d : Desc} {bm : Ast} {as ms : List Ast}
    (ht : noBase (.assessment d bm as ms) = true) (hA : ∀ e, .cancelBackRef e ∉ nodesL (bm :: as))
    {s s' : Vis F} (hs : WellFormed c s) (hne : (tableOf s).cols ≠ [])
    (h : Vis.visit c (.assessment d bm as ms) s = (.ok (), s')) :
    ∃ s0 s1 s2 ns s3 s4, Assessed c d bm as ms s s0 s1 s2 ns s3 s4 s' ∧
      s2.bm.backref1 = (if s.bm.backref1 = -1 then ((tableOf s).cols.length : Int) - 1 else s.bm.backref1) ∧
      ((∀ e, .cancelBackRef e ∉ nodesL ms) → s'.bm.backref1 = s2.bm.backref1) := by
  obtain ⟨s0, s1, s2, ns, s3, s4, ha⟩ := assessed hc ht hs h
  simp only [noBase, Bool.and_eq_true] at ht
  have h0 : s0.bm.backref1 ≠ -1 := by
    rw [ha.backref]
    have : 0 < (tableOf s).cols.length := List.length_pos_iff.2 hne
    split <;> omega
  have hb : Vis.visitL c (bm :: as) s0 = (.ok (), s2) := by
    simp only [Vis.visitL]
    rw [M.bind_ok ha.decodeBitmap]
    exact ha.decodeAttrs
  have e2 : s2.bm.backref1 = s0.bm.backref1 :=
    C58_keep hc (by simp [noBaseL, ht]) hA (.inl h0) ha.wf.1 hb
  refine ⟨s0, s1, s2, ns, s3, s4, ha, by rw [e2, ha.backref], fun hm => ?_⟩
  have e3 : s3.bm.backref1 = s2.bm.backref1 := by
    obtain ⟨_, _, _, _, _, _, e, _⟩ := C58_targets ha.wf.2.2.1 ha.select
    rw [e]
  have e4 : s4.bm.backref1 = s3.bm.backref1 :=
    C58_keep hc ht.2 hm (.inl (by rw [e3, e2]; exact h0)) ha.wf.2.2.2.1 ha.decodeMembers
  have e5 : s'.bm.backref1 = s4.bm.backref1 := by
    obtain ⟨_, ⟨cols, e⟩, _⟩ := attachSources_ok _ _ _ _ _ ha.attach
    exact congrArg State.backref e
  rw [e5, e4, e3]

namespace PayloadExample

/-- A bit of a bitmap. -/
def bit : Desc := elem 31031 .nonnegCode 1

/-- Two elements, then quality information for one of them: the template up to the quality values. -/
def assessed2 (ms : List Ast) : List Ast := [.element e4 false, .element e4 false,
  .assessment (plain 222000) (.bitmap (some (plain 236000)) [.fixedRepl (plain 101002) [.element bit false]]) []
    ms]

end PayloadExample

open PayloadExample in
-- the bits 1, 0 select the second element; its quality value becomes an attribute of it
example : let x := Vis.visitL cfg (assessed2 [.element e4 false]) (ready cfg [0x12, 0x8C])
    x.1 = .ok () ∧ (tableOf x.2).cols.map Column.attrs = [[], [some 4], [], [], []] ∧
    x.2.bm.backref1 = 1 ∧ currentBitmap x.2 = some ⟨2, 4⟩ := by
  decide +kernel

/-! ## C59 -/

/-- What columns are without their attributes. -/
def bare (col : Column F) : Column F := { col with attrs := [] }

/-- Columns are only added, and only their attributes change. -/
theorem keeps_cols [GoFloat F] : Keeps c (fun _ => True)
    (fun f f' : State F => ∃ new, f'.cols.map bare = f.cols.map bare ++ new) where
  refl _ := ⟨[], by simp⟩
  trans f g h := by
    rintro ⟨n1, e1⟩ ⟨n2, e2⟩
    exact ⟨n1 ++ n2, by rw [e2, e1, List.append_assoc]⟩
  build d info f i f' h := by
    obtain ⟨_, v, col, r, _, _, _, _, _, rfl⟩ := build_ok h
    exact ⟨[bare col], by simp⟩
  zero d f f' h := by
    rcases zero_ok h with ⟨r, rfl⟩ | h
    · exact ⟨[], by simp⟩
    · obtain ⟨_, v, col, r, _, _, _, _, _, rfl⟩ := build_ok h
      exact ⟨[bare col], by simp⟩
  attach i j f := ⟨[], by
    simp only [List.append_nil]
    apply List.ext_getElem?
    intro k
    simp only [List.getElem?_map, List.getElem?_modify]
    cases f.cols[k]? with
    | none => rfl
    | some x => by_cases h : i = k <;> simp [h, bare]⟩
  setSig _ _ _ _ := ⟨[], by simp⟩
  assocField _ _ _ _ _ := ⟨[], by simp⟩
  targets _ _ := ⟨[], by simp⟩
  nbitsOffset _ _ _ _ := ⟨[], by simp⟩
  scaleOffset _ _ _ _ := ⟨[], by simp⟩
  modifyPacking _ _ _ _ _ _ := ⟨[], by simp⟩
  setStringLength _ _ _ _ := ⟨[], by simp⟩
  newAssessment d bm as ms f f' h h' := by
    rcases newAssessment_ok h' with ⟨_, rfl⟩ | ⟨_, rfl⟩ <;> exact ⟨[], by simp⟩
  cancelBackRef _ _ _ := ⟨[], by simp⟩
  cancelBitmap _ _ _ := ⟨[], by simp⟩
  newBitmap d ms f f' h hid h' := by rw [newBitmap_ok h']; exact ⟨[], by simp⟩
  endBitmap d ms f f' h hid h' := by
    obtain ⟨b, _, rfl⟩ := endBitmap_ok h'
    exact ⟨[], by simp⟩
  recall _ _ _ _ _ := ⟨[], by simp⟩

/-- What was read of a bitmap stays. -/
theorem bitsAt_mono [GoFloat F] {cols cols' : List (Column F)} {new : List (Column F)}
    (h : cols'.map bare = cols.map bare ++ new) {b : Bitmap} {bits : List Nat} (hb : BitsAt cols b bits) :
    BitsAt cols' b bits := by
  refine ⟨hb.length, fun j n hj => ?_⟩
  obtain ⟨k, col, v, h1, h2, h3, h4⟩ := hb.bit j n hj
  have e := congrArg (fun l => l[k]?) h
  have hk : k < (cols.map bare).length := by
    rw [List.length_map]
    exact (List.getElem?_eq_some_iff.1 h2).1
  simp only [List.getElem?_append_left hk, List.getElem?_map, h2, Option.map_some] at e
  cases hc : cols'[k]? with
  | none => rw [hc] at e; simp at e
  | some col' =>
    rw [hc] at e
    simp only [Option.map_some, Option.some.injEq] at e
    have ev : (bare col').vals = (bare col).vals := congrArg Column.vals e
    exact ⟨k, col', v, h1, hc, (congrArg List.head? ev).trans h3, h4⟩

/-- C59. 236000 makes the cells of its members the bitmap, both the current one and the one to be
reused: `i0` is the number of cells before them, and afterwards they end the cells. -/
theorem C59_define [GoFloat F] (hc : CfgOk c) (d : Desc) (hd : d.id ≠ 237000) {ms : List Ast} (hms : noBaseL ms = true)
    (hA : ∀ e ms', .bitmap (some e) ms' ∉ nodesL ms) (hB : ∀ e, .cancelBitmap e ∉ nodesL ms)
    (hC : ∀ e, .cancelBackRef e ∉ nodesL ms) {s s' : Vis F} (hs : WellFormed c s)
    (h : Vis.visit c (.bitmap (some d) ms) s = (.ok (), s')) :
    ∃ s0 s1 : Vis F, WellFormed c s0 ∧ WellFormed c s1 ∧ Vis.visitL c ms s0 = (.ok (), s1) ∧
      tableOf s' = { tableOf s1 with bitmaps := s'.bm.bitmaps } ∧
      s'.bm.bitmaps = s.bm.bitmaps ++ [⟨(tableOf s0).cols.length, (tableOf s').cols.length⟩] ∧
      s'.bm.current = some s.bm.bitmaps.length ∧ s'.bm.reusable = some s.bm.bitmaps.length := by
  obtain ⟨ρ, hr⟩ := hs
  simp only [Vis.visit, Vis.visitBitmap, if_neg hd] at h
  obtain ⟨_, sa, h1, h⟩ := M.bind_eq_ok.1 h
  obtain ⟨_, s0, h2, h⟩ := M.bind_eq_ok.1 h
  obtain ⟨_, ρ1, hp1, t1, hr1, _⟩ := sim_table (F := F) (sim_zero hc d) hr h1
  obtain ⟨_, ρ2, hp2, t2, hr2, _⟩ := sim_table (F := F) sim_newBitmap hr1 h2
  unfold M.deferDo at h
  rcases h3 : Vis.visitL c ms s0 with ⟨o, s1⟩
  rcases h4 : Vis.endBitmap s1 with ⟨q, s2⟩
  simp only [h3] at h
  have ho : o = .ok () ∧ q = .ok () ∧ s2 = s' := by
    cases q with
    | err e =>
      unfold Vis.endBitmap at h4
      split at h4 <;> simp at h4
    | panic w => cases o <;> simp only [h4, Prod.mk.injEq, reduceCtorEq, false_and] at h
    | diverge => cases o <;> simp only [h4, Prod.mk.injEq, reduceCtorEq, false_and] at h
    | ok u =>
      cases o <;> simp only [h4, Prod.mk.injEq, reduceCtorEq, false_and] at h
      exact ⟨rfl, rfl, h.2⟩
  obtain ⟨rfl, rfl, rfl⟩ := ho
  obtain ⟨_, ρ3, hp3, t3, hr3, _⟩ := sim_table (F := F) (sim_visitL hc ms hms _) hr2 h3
  obtain ⟨_, ρ4, hp4, t4, hr4, _⟩ := sim_table (F := F) sim_endBitmap hr3 h4
  obtain ⟨r, zcols, ez⟩ := zero_fields t1
  have e2 := newBitmap_ok t2
  obtain ⟨b, hb, e4⟩ := endBitmap_ok t4
  have k : Keeps c (fun n => (∀ e ms', n ≠ .bitmap (some e) ms') ∧ (∀ e, n ≠ .cancelBitmap e) ∧ ∀ e, n ≠ .cancelBackRef e)
      (fun f f' : State F => (f'.bitmaps, f'.current, f'.reusable) = (f.bitmaps, f.current, f.reusable)) := by
    apply keeps_proj (fun f => (f.bitmaps, f.current, f.reusable)) <;> intros <;>
      first
        | rfl
        | (rename_i hA _; exact absurd rfl (hA.1 _ _))
        | (rename_i hA; exact absurd rfl (hA.2.1 _))
        | (rename_i hA; exact absurd rfl (hA.2.2 _))
  have e3 := k.visitL ms (fun n hn => ⟨fun e ms' he => hA e ms' (he ▸ hn), fun e he => hB e (he ▸ hn),
    fun e he => hC e (he ▸ hn)⟩) _ _ _ t3
  rw [e2, ez] at e3
  simp only [Prod.mk.injEq] at e3
  obtain ⟨e5, e6, e7⟩ := e3
  have hb' : b = s.bm.bitmaps.length := by
    rw [e6] at hb
    exact (Option.some.inj hb).symm
  subst hb'
  have eb : s2.bm.bitmaps = s.bm.bitmaps ++ [⟨(tableOf s0).cols.length, (tableOf s2).cols.length⟩] := by
    have e8 : s2.bm.bitmaps = (tableOf s2).bitmaps := rfl
    have e9 : (tableOf s2).cols = (tableOf s1).cols := by rw [e4]
    have e10 : (tableOf s0).cols = (tableOf sa).cols := by rw [e2]
    have e12 := congrArg State.bitmaps e4
    simp only [e5] at e12
    have e11 : (tableOf s).bitmaps = s.bm.bitmaps := rfl
    rw [e11, modify_last] at e12
    rw [e8, e12, e9, e10, ez]
  refine ⟨s0, s1, ⟨_, hr2⟩, ⟨_, hr3⟩, h3, ?_, eb, ?_, ?_⟩
  · have e8 : s2.bm.bitmaps = (tableOf s2).bitmaps := rfl
    rw [e8, e4]
  · have e8 : s2.bm.current = (tableOf s2).current := rfl
    rw [e8, e4]
    exact e6
  · have e8 : s2.bm.reusable = (tableOf s2).reusable := rfl
    rw [e8, e4]
    exact e7

/-- C59. 237000 makes the bitmap to be reused the current one. -/
theorem C59_recall [GoFloat F] (hc : CfgOk c) (d : Desc) (hd : d.id = 237000) (ms : List Ast) (hms : noBaseL ms = true)
    {s s' : Vis F} (hs : WellFormed c s) (h : Vis.visit c (.bitmap (some d) ms) s = (.ok (), s')) :
    s'.bm.current = s.bm.reusable ∧ s'.bm.reusable = s.bm.reusable ∧ s'.bm.bitmaps = s.bm.bitmaps := by
  have ht := (visit_table hc (t := .bitmap (some d) ms) (by simpa [noBase] using hms) hs h (by simp)).1
  simp only [Flat.visit, bitmapDef, if_pos hd] at ht
  obtain ⟨_, f1, h1, h2⟩ := M.bind_eq_ok.1 ht
  simp only [M.modify_apply, Prod.mk.injEq, true_and] at h2
  obtain ⟨r, cols, rfl⟩ := zero_fields h1
  have e1 := congrArg State.current h2
  have e2 := congrArg State.reusable h2
  have e3 := congrArg State.bitmaps h2
  exact ⟨e1.symm, e2.symm, e3.symm⟩

/-- C59. 237255 forgets the bitmap; the cells referred to stay. -/
theorem C59_cancel [GoFloat F] (d : Desc) (s : Vis F) : ∃ s', Vis.visit c (.cancelBitmap d) s = (.ok (), s') ∧
    s'.bm.current = none ∧ s'.bm.reusable = none ∧ s'.bm.backref1 = s.bm.backref1 ∧ s'.cells = s.cells ∧ s'.r = s.r := by
  exact ⟨{ s with bm.reusable := none, bm.current := none }, by simp only [Vis.visit]; rfl, rfl, rfl, rfl, rfl, rfl⟩

/-- C59. 235000 forgets the bitmap and the back reference (so that by `C58_assessment` the next
assessment refers to the cells before it). -/
theorem C59_cancel_backref [GoFloat F] (d : Desc) (s : Vis F) :
    ∃ s', Vis.visit c (.cancelBackRef d) s = (.ok (), s') ∧
      s'.bm.current = none ∧ s'.bm.reusable = none ∧ s'.bm.backref1 = -1 ∧ s'.cells = s.cells ∧ s'.r = s.r := by
  exact ⟨{ s with bm.backref1 := -1, bm.reusable := none, bm.current := none }, by simp only [Vis.visit]; rfl, rfl, rfl, rfl, rfl, rfl⟩

/-- C59. Without a bitmap there are no targets: selecting them crashes. -/
theorem C59_none [GoFloat F] (s : Vis F) (h : s.bm.current = none) :
    (Vis.initTargetNodes s).1 = .panic "nil pointer dereference" := by
  have hb : s.bits = .panic "nil pointer dereference" := by
    unfold Vis.bits
    rw [h]
    rfl
  unfold Vis.initTargetNodes
  refine congrArg Prod.fst (M.bind_panic (w := "nil pointer dereference") (s' := s) ?_)
  simp only [hb]

/-- C59. The bitmap to be reused, and its bits, are kept by everything that contains no 236000, 237255 or
235000: a 237000 that follows recalls it, whatever comes in between. -/
theorem C59_keep [GoFloat F] (hc : CfgOk c) {ts : List Ast} (hts : noBaseL ts = true)
    (hA : ∀ e ms', .bitmap (some e) ms' ∈ nodesL ts → e.id = 237000) (hB : ∀ e, .cancelBitmap e ∉ nodesL ts)
    (hC : ∀ e, .cancelBackRef e ∉ nodesL ts) {s s' : Vis F} (hs : WellFormed c s)
    (h : Vis.visitL c ts s = (.ok (), s')) :
    s'.bm.reusable = s.bm.reusable ∧ s'.bm.bitmaps = s.bm.bitmaps ∧
    (s.bm.current = s.bm.reusable → s'.bm.current = s'.bm.reusable) ∧
    ∀ b bits, BitsAt (tableOf s).cols b bits → BitsAt (tableOf s').cols b bits := by
  have k : Keeps c (fun n => (∀ e ms', n = .bitmap (some e) ms' → e.id = 237000) ∧ (∀ e, n ≠ .cancelBitmap e) ∧
        ∀ e, n ≠ .cancelBackRef e)
      (fun f f' : State F => (f'.bitmaps, f'.reusable) = (f.bitmaps, f.reusable)) := by
    apply keeps_proj (fun f => (f.bitmaps, f.reusable)) <;> intros <;>
      first
        | rfl
        | (rename_i hA hne; exact absurd (hA.1 _ _ rfl) hne)
        | (rename_i hA; exact absurd rfl (hA.2.1 _))
        | (rename_i hA; exact absurd rfl (hA.2.2 _))
  have k2 : Keeps c (fun n => (∀ e ms', n = .bitmap (some e) ms' → e.id = 237000) ∧ (∀ e, n ≠ .cancelBitmap e) ∧
        ∀ e, n ≠ .cancelBackRef e)
      (fun f f' : State F => f.current = f.reusable → f'.current = f'.reusable) :=
    { refl := fun _ h => h
      trans := fun f g h e1 e2 hf => e2 (e1 hf)
      build := fun d info f i f' h hf => by
        obtain ⟨_, v, col, r, _, _, _, _, _, rfl⟩ := build_ok h
        exact hf
      zero := fun d f f' h hf => by
        obtain ⟨r, cols, rfl⟩ := zero_fields h
        exact hf
      attach := fun _ _ _ h => h
      setSig := fun _ _ _ _ h => h
      assocField := fun _ _ _ _ _ h => h
      targets := fun _ _ h => h
      nbitsOffset := fun _ _ _ _ h => h
      scaleOffset := fun _ _ _ _ h => h
      modifyPacking := fun _ _ _ _ _ _ h => h
      setStringLength := fun _ _ _ _ h => h
      newAssessment := fun d bm as ms f f' h h' hf => by
        rcases newAssessment_ok h' with ⟨hb, rfl⟩ | ⟨_, rfl⟩ <;> exact hf
      cancelBackRef := fun d f h _ => rfl
      cancelBitmap := fun _ _ _ _ => rfl
      newBitmap := fun d ms f f' h hid h' hf => by rw [newBitmap_ok h']
      endBitmap := fun d ms f f' h hid h' hf => by
        obtain ⟨b, _, rfl⟩ := endBitmap_ok h'
        exact hf
      recall := fun _ _ _ _ _ _ => rfl }
  have hAll : ∀ n ∈ nodesL ts, (∀ e ms', n = .bitmap (some e) ms' → e.id = 237000) ∧ (∀ e, n ≠ .cancelBitmap e) ∧
        ∀ e, n ≠ .cancelBackRef e :=
    fun n hn => ⟨fun e ms' he => hA e ms' (he ▸ hn), fun e he => hB e (he ▸ hn), fun e he => hC e (he ▸ hn)⟩
  have e1 := keeps_visitL k hc hts hAll hs h
  simp only [Prod.mk.injEq] at e1
  obtain ⟨new, e2⟩ := keeps_visitL (keeps_cols (c := c)) hc hts (fun _ _ => trivial) hs h
  exact ⟨e1.2, e1.1, fun hcur => keeps_visitL k2 hc hts hAll hs h hcur, fun b bits hb => bitsAt_mono e2 hb⟩

open PayloadExample in
-- first order statistics with a new bitmap, an element, then quality information with the same one
example : let x := Vis.visitL cfg (assessed2 [.element e4 false] ++ [.element e4 false,
      .assessment (plain 222000) (.bitmap (some (plain 237000)) []) [] [.element e8 false]]) (ready cfg [0x12, 0x8C, 0xCC, 0xD0])
    x.1 = .ok () ∧ (tableOf x.2).cols.map Column.attrs = [[], [some 4, some 6], [], [], [], [], []] ∧
    x.2.bm.backref1 = 1 ∧ currentBitmap x.2 = some ⟨2, 4⟩ := by
  decide +kernel

/-! ## C63 -/

/-- C63. A bitmap given directly after an assessment operator crashes the decoder. -/
theorem C63_adhoc_panics [GoFloat F] (ms : List Ast) (s : Vis F) :
    Vis.visit c (.bitmap none ms) s = (.panic "nil pointer dereference", s) := by
  simp only [Vis.visit, Vis.visitBitmap]
  rfl

/-- C63. No template decodes in which an assessment operator is followed by its bitmap without
236000 or 237000. -/
theorem C63_never_decodes [GoFloat F] {lk : Lookup} (hg : GoodLookup lk) {op : ID} (hop : op ∈ assessOps) {d : Desc}
    (hd : lk op = .ok d) {id : ID} (hid : id.F = 1 ∨ id = 31031) {l : List ID} {ns : List Ast}
    (h : Parses lk (op :: id :: l) ns) (s s' : Vis F) : Vis.visitL c ns s ≠ (.ok (), s') := by
  intro hv
  obtain ⟨bd, bids, aids, mids, rest, bms, as, ms, ns', ⟨_, _, l1, l2, _, hb, _⟩, _, _, _, _, rfl⟩ :=
    (C41_node lk hg op hop d hd _ _).1 h
  have hbd : bd = none := by
    cases hb with
    | recall => exact absurd hid (by decide)
    | define => exact absurd hid (by decide)
    | adhoc => rfl
  subst hbd
  simp only [Vis.visitL] at hv
  obtain ⟨_, s1, hv, _⟩ := M.bind_eq_ok.1 hv
  simp only [Vis.visit, Vis.visitAssessment] at hv
  obtain ⟨_, s2, _, hv⟩ := M.bind_eq_ok.1 hv
  obtain ⟨_, s3, _, hv⟩ := M.bind_eq_ok.1 hv
  obtain ⟨_, s4, hv, _⟩ := M.bind_eq_ok.1 hv
  have e : Vis.visitBitmap c none (Vis.visitL c bms) s3 = (.panic "nil pointer dereference", s3) := rfl
  rw [e] at hv
  cases hv

/-- C63, the property: a bitmap without an opening descriptor is decoded if its members are. -/
def C63_statement : Prop :=
  ∀ (F : Type) [GoFloat F] (c : VisCfg) (ms : List Ast) (s s' : Vis F), CfgOk c → WellFormed c s →
    noBaseL ms = true → Vis.visitL c ms s = (.ok (), s') → (Vis.visit c (.bitmap none ms) s).1 = .ok ()

open PayloadExample in
/-- C63 is violated: the members 101002 031031 decode, the bitmap does not. -/
theorem C63_violates : ¬ C63_statement := by
  intro h
  have k : (Vis.visitL cfg [.fixedRepl (plain 101002) [.element bit false]] (ready cfg [0x80])).1 = .ok () := by
    decide +kernel
  have h1 := h ToyFloat cfg _ _ _ cfg_ok (ready_wf _) (by decide) (eq_of_fst k)
  rw [C63_adhoc_panics] at h1
  cases h1

/-- C63. After 236000, which may be the only way, a bitmap is decoded if its members are. -/
theorem C63_defined_partial [GoFloat F] (hc : CfgOk c) (hcomp : c.compatible = false) (d : Desc) (hd : d.id ≠ 237000)
    {ms : List Ast} (hms : noBaseL ms = true) {s : Vis F} (hs : WellFormed c s) (hn : (tableOf s).subsets ≠ some 0)
    (h : ∀ s0 : Vis F, WellFormed c s0 → (tableOf s0).cols = (tableOf s).cols → s0.r = s.r →
      ∃ s1, Vis.visitL c ms s0 = (.ok (), s1) ∧ s1.bm.current ≠ none) :
    ∃ s', Vis.visit c (.bitmap (some d) ms) s = (.ok (), s') := by
  obtain ⟨ρ, hr⟩ := hs
  simp only [Vis.visit, Vis.visitBitmap, if_neg hd]
  have hz : ∃ sa, M.ignoreErr () (Vis.buildZeroNode c (some d)) s = (.ok (), sa) := by
    unfold Vis.buildZeroNode
    rw [if_neg (by rw [hcomp]; decide)]
    exact ⟨_, rfl⟩
  obtain ⟨sa, h1⟩ := hz
  obtain ⟨_, ρ1, hp1, t1, hr1, _⟩ := sim_table (F := F) (sim_zero hc d) hr h1
  have e1 : tableOf sa = tableOf s := by
    unfold buildZero at t1
    rw [if_neg (by rw [hcomp]; decide)] at t1
    simp only [M.pure_apply, Prod.mk.injEq] at t1
    exact t1.2.symm
  rw [M.bind_ok h1]
  have hlen : sa.cells.len = .ok ((tableOf s).cols.length : Int) := by
    rw [hr1.len, e1]
    unfold State.len
    rw [if_neg hn]
  have h2 : ∃ s0, Vis.newBitmap true sa = (.ok (), s0) ∧ s0.cells = sa.cells ∧ s0.heap = sa.heap ∧ s0.r = sa.r := by
    unfold Vis.newBitmap
    refine ⟨_, M.bind_ok (a := ((tableOf s).cols.length : Int)) (s' := sa) (by simp only [Vis.len, hlen]), rfl, rfl, rfl⟩
  obtain ⟨s0, h2, ec, eh, er⟩ := h2
  obtain ⟨_, ρ2, hp2, t2, hr2, _⟩ := sim_table (F := F) sim_newBitmap hr1 h2
  have e2 := newBitmap_ok t2
  obtain ⟨s1, h3, hcur⟩ := h s0 ⟨_, hr2⟩ (by rw [e2, e1]) (by rw [er]; exact congrArg State.r e1)
  obtain ⟨_, ρ3, hp3, t3, hr3, _⟩ := sim_table (F := F) (sim_visitL hc ms hms _) hr2 h3
  rw [M.bind_ok h2]
  have h4 : ∃ s2, Vis.endBitmap s1 = (.ok (), s2) := by
    have hsub : (tableOf s1).subsets ≠ some 0 := by
      rw [hr3.subsets, ← hr.subsets]
      exact hn
    unfold Vis.endBitmap
    rw [hr3.len]
    unfold State.len
    rw [if_neg hsub]
    cases hb : s1.bm.current with
    | none => exact absurd hb hcur
    | some b => exact ⟨_, rfl⟩
  obtain ⟨s2, h4⟩ := h4
  exact ⟨s2, M.deferDo_ok h3 h4⟩

open PayloadExample in
example : (Vis.visit cfg (.bitmap (some (plain 236000)) [.fixedRepl (plain 101002) [.element bit false]])
    (ready cfg [0x80])).1 = .ok () := by decide +kernel

/-! ## C61 -/

/-- C61, the property: the value of a 225255 is packed with one more bit than its target and the
reference value -2^n, where n is the width of the target. -/
def C61_statement : Prop :=
  ∀ (F : Type) [GoFloat F] (c : VisCfg) (d : Desc) (s s' : Vis F) (t : Nat) (ts : List Nat) (col : Column F) (td : Desc)
    (e : Bentry) (o : Operands), CfgOk c → WellFormed c s → d.id = 225255 →
    (tableOf s).targets = t :: ts → (tableOf s).cols[t]? = some col → col.desc.d = some td → td.entry = .b e →
    InForce s o → Vis.visit c (.marker d) s = (.ok (), s') →
    ∃ new, (tableOf s').cols.getLast? = some new ∧ new.info.nbits = (o.packing (F := F) e).nbits + 1 ∧
      new.info.refval = GoFloat.ofInt (-(2 ^ (o.packing (F := F) e).nbits.toNat))

/-- C61. Markers are packed like their target, with the operators in force at the marker, whatever
the marker; they take the targets one after the other. -/
theorem C61_like_target_partial [GoFloat F] (hc : CfgOk c) (d : Desc) {s s' : Vis F} {t : Nat} {ts : List Nat} {col : Column F}
    {td : Desc} {e : Bentry} {o : Operands} (hs : WellFormed c s) (ht : (tableOf s).targets = t :: ts)
    (hcol : (tableOf s).cols[t]? = some col) (htd : col.desc.d = some td) (he : td.entry = .b e)
    (hno : td.id.Operator ≠ 225) (ho : InForce s o) (h : Vis.visit c (.marker d) s = (.ok (), s')) :
    ∃ new, (tableOf s').cols = (tableOf s).cols ++ [new] ∧ new.desc = ⟨some d, false⟩ ∧ new.info = o.packing e ∧
      new.attrs = [] ∧ ReadCols c s.r [new] s'.r ∧ (tableOf s').targets = ts := by
  have hv := (visit_table hc (t := .marker d) rfl hs h (by simp)).1
  simp only [Flat.visit] at hv
  unfold marker at hv
  obtain ⟨t', f1, h1, hv⟩ := M.bind_eq_ok.1 hv
  simp only [ht, Prod.mk.injEq, Outcome.ok.injEq] at h1
  obtain ⟨rfl, rfl⟩ := h1
  obtain ⟨td', f2, h2, hv⟩ := M.bind_eq_ok.1 hv
  simp only [hcol, htd, Prod.mk.injEq, Outcome.ok.injEq] at h2
  obtain ⟨rfl, rfl⟩ := h2
  obtain ⟨info, f3, h3, hv⟩ := M.bind_eq_ok.1 hv
  simp only [Prod.mk.injEq] at h3
  obtain ⟨h3, rfl⟩ := h3
  rw [if_neg (by simpa using hno)] at hv
  obtain ⟨i, f4, h4, hv⟩ := M.bind_eq_ok.1 hv
  obtain ⟨_, v, new, r, hu, hh, hd, hi, ha, rfl⟩ := build_ok h4
  simp only [M.pure_apply, Prod.mk.injEq, true_and] at hv
  have hp : State.packing (tableOf s) (some td) = .ok info := h3
  have hinfo : info = o.packing e := packing_inForce he ho hp
  have hr : s'.r = r := (congrArg State.r hv).symm
  refine ⟨new, by rw [← hv], hd, by rw [hi, hinfo], ha, ?_, by rw [← hv]⟩
  rw [hr]
  exact .cons (by rw [hi]; exact hu) hh (.nil _)

namespace PayloadExample

/-- An element of 8 bits, then the start of difference statistics 225000 for it. -/
def differences : List Ast := [.element e8 false,
  .assessment (plain 225000) (.bitmap (some (plain 236000)) [.element bit false]) [] []]

/-- The decoder when it comes to the 225255. -/
def atMarker : Vis ToyFloat := (Vis.visitL cfg differences (ready cfg [0x12, 0x7F, 0xFF])).2

theorem atMarker_wf : WellFormed cfg atMarker := by
  have k : (Vis.visitL cfg differences (ready cfg [0x12, 0x7F, 0xFF])).1 = .ok () := by decide +kernel
  exact (visitL_table cfg_ok (by decide) (ready_wf _) (eq_of_fst k) (by simp)).2.1

end PayloadExample

open PayloadExample in
/-- C61 is violated: the 225255 for an element of 8 bits is read with 8 bits. -/
theorem C61_violates : ¬ C61_statement := by
  intro h
  have k1 : (tableOf atMarker).targets = [0] := by decide +kernel
  have k2 : (tableOf atMarker).cols[0]? = some ((tableOf atMarker).cols.headD default) := by decide +kernel
  have k3 : ((tableOf atMarker).cols.headD default).desc.d = some e8 := by decide +kernel
  have k4 : InForce atMarker {} := by unfold InForce In201 In202 In207 In208; decide +kernel
  have k5 : (Vis.visit cfg (.marker (plain 225255)) atMarker).1 = .ok () := by decide +kernel
  obtain ⟨new, h1, h2, _⟩ := h ToyFloat cfg (plain 225255) atMarker _ 0 [] _ e8 _ {} cfg_ok atMarker_wf rfl k1 k2 k3 rfl k4
    (eq_of_fst k5)
  have h3 : (tableOf (Vis.visit cfg (.marker (plain 225255)) atMarker).2).cols.getLast?.map (fun x => x.info.nbits) =
      some 8 := by decide +kernel
  rw [h1] at h3
  simp only [Option.map_some, Option.some.injEq] at h3
  rw [h3] at h2
  revert h2
  decide +kernel

/-! ## C64 -/

theorem zip_snd_sublist {α β : Type} : ∀ (l : List α) (m : List β), ((l.zip m).map Prod.snd).Sublist m
  | [], _ => by simp
  | _ :: _, [] => by simp
  | _ :: l, b :: m => by
    simp only [List.zip_cons_cons, List.map_cons]
    exact (zip_snd_sublist l m).cons_cons _

theorem newAttrs_none {as : List Nat} {i : Nat} : ∀ {l : List (Nat × Nat)}, (∀ p ∈ l, p.1 ≠ i ∧ p.2 ≠ i) →
    newAttrs as l i = []
  | [], _ => rfl
  | p :: l, h => by
    have h1 := h p (by simp)
    simp only [newAttrs, List.flatMap_cons, if_neg h1.1, if_neg h1.2, List.append_nil, List.nil_append]
    exact newAttrs_none fun q hq => h q (by simp [hq])

theorem newAttrs_target {as : List Nat} {i : Nat} : ∀ {l : List (Nat × Nat)} {k q : Nat}, (∀ p ∈ l, p.1 ≠ i) →
    (l.map Prod.snd).Nodup → l[k]? = some (q, i) → newAttrs as l i = [some q]
  | [], k, q, _, _, h => by simp at h
  | p :: l, k, q, h1, h2, h => by
    simp only [List.map_cons, List.nodup_cons] at h2
    cases k with
    | zero =>
      simp only [List.getElem?_cons_zero, Option.some.injEq] at h
      subst h
      have hn : newAttrs as l i = [] := newAttrs_none fun p hp => ⟨h1 p (by simp [hp]), fun he =>
        h2.1 (List.mem_map.2 ⟨p, hp, he⟩)⟩
      have hq : q ≠ i := h1 (q, i) (by simp)
      unfold newAttrs at hn ⊢
      rw [List.flatMap_cons, hn]
      simp [hq]
    | succ k =>
      simp only [List.getElem?_cons_succ] at h
      have hp : p.2 ≠ i := fun he => h2.1 (List.mem_map.2 ⟨_, List.mem_of_getElem? h, he.symm⟩)
      have ih := newAttrs_target (as := as) (fun q hq => h1 q (by simp [hq])) h2.2 h
      unfold newAttrs at ih ⊢
      rw [List.flatMap_cons, ih, if_neg hp, if_neg (h1 p (by simp))]
      rfl

theorem newAttrs_source {as : List Nat} {i : Nat} : ∀ {l : List (Nat × Nat)} {k t : Nat}, (∀ p ∈ l, p.2 ≠ i) →
    (l.map Prod.fst).Nodup → l[k]? = some (i, t) → newAttrs as l i = as.map some
  | [], k, t, _, _, h => by simp at h
  | p :: l, k, t, h1, h2, h => by
    simp only [List.map_cons, List.nodup_cons] at h2
    cases k with
    | zero =>
      simp only [List.getElem?_cons_zero, Option.some.injEq] at h
      subst h
      have hn : newAttrs as l i = [] := newAttrs_none fun p hp => ⟨fun he =>
        h2.1 (List.mem_map.2 ⟨p, hp, he⟩), h1 p (by simp [hp])⟩
      have ht : t ≠ i := h1 (i, t) (by simp)
      unfold newAttrs at hn ⊢
      rw [List.flatMap_cons, hn]
      simp [ht]
    | succ k =>
      simp only [List.getElem?_cons_succ] at h
      have hp : p.1 ≠ i := fun he => h2.1 (List.mem_map.2 ⟨_, List.mem_of_getElem? h, he.symm⟩)
      have ih := newAttrs_source (as := as) (fun q hq => h1 q (by simp [hq])) h2.2 h
      unfold newAttrs at ih ⊢
      rw [List.flatMap_cons, ih, if_neg hp, if_neg (h1 p (by simp))]
      rfl

/-- C64. The values decoded for the members of an assessment (from column `first` on, `n` of them) are
attached one by one to the targets in order: the k-th to the k-th.  There cannot be more than
targets.  They get the values decoded for the attributes as attributes; nothing else changes. -/
theorem C64_attached_partial [GoFloat F] (hc : CfgOk c) {d : Desc} {bm : Ast} {as ms : List Ast}
    (ht : noBase (.assessment d bm as ms) = true) {s s' : Vis F} (hs : WellFormed c s)
    (h : Vis.visit c (.assessment d bm as ms) s = (.ok (), s')) :
    ∃ s0 s1 s2 ns s3 s4, Assessed c d bm as ms s s0 s1 s2 ns s3 s4 s' ∧
      let first := (tableOf s3).cols.length
      let n := (tableOf s4).cols.length - first
      let targets := (tableOf s3).targets
      n ≤ targets.length ∧
      (∀ k t : Nat, k < n → targets[k]? = some t → ∃ col, (tableOf s4).cols[t]? = some col ∧
        (tableOf s').cols[t]? = some { col with attrs := col.attrs ++ [some (first + k)] }) ∧
      (∀ k, k < n → ∃ col, (tableOf s4).cols[first + k]? = some col ∧
        (tableOf s').cols[first + k]? = some { col with attrs := col.attrs ++
          (List.range' (tableOf s1).cols.length ((tableOf s2).cols.length - (tableOf s1).cols.length)).map some }) ∧
      (∀ i : Nat, (∀ k : Nat, k < n → i ≠ first + k ∧ targets[k]? ≠ some i) → (tableOf s').cols[i]? = (tableOf s4).cols[i]?) ∧
      (tableOf s').cols.length = (tableOf s4).cols.length := by
  obtain ⟨s0, s1, s2, ns, s3, s4, ha⟩ := assessed hc ht hs h
  refine ⟨s0, s1, s2, ns, s3, s4, ha, ?_⟩
  obtain ⟨hl, _, hi⟩ := attachSources_ok _ _ _ _ _ ha.attach
  simp only [noBase, Bool.and_eq_true] at ht
  intro first n targets
  rw [List.length_range'] at hl
  obtain ⟨b, bits, hb, hba, hle, hns, hs3, htg⟩ := C58_targets ha.wf.2.2.1 ha.select
  have hfirst : first = (tableOf s2).cols.length := by
    show (tableOf s3).cols.length = _
    rw [hs3]; rfl
  obtain ⟨ρ2, hr2⟩ := ha.wf.2.2.1
  have hback : s2.bm.backref1 < (tableOf s2).cols.length := hr2.backref_lt
  have hlt : ∀ t ∈ targets, t < first := by
    intro t hm
    have hm' : t ∈ selected bits (s2.bm.backref1 + 1).toNat := htg ▸ hm
    rw [← zeros_selected, mem_zeros] at hm'
    obtain ⟨h1, h2⟩ := hm'
    have h3 := (List.getElem?_eq_some_iff.1 h2).1
    omega
  have hnd : targets.Nodup := by
    have : targets = selected bits (s2.bm.backref1 + 1).toNat := htg
    rw [this, ← zeros_selected]
    exact (zeros_sorted _ _).imp fun h => Nat.ne_of_lt h
  have hgrow : first ≤ (tableOf s4).cols.length := by
    obtain ⟨new, e⟩ := keeps_visitL (keeps_cols (c := c)) hc ht.2 (fun _ _ => trivial) ha.wf.2.2.2.1 ha.decodeMembers
    have := congrArg List.length e
    simp only [List.length_map, List.length_append] at this
    show (tableOf s3).cols.length ≤ _
    omega
  have hlen : ∀ i : Nat, (tableOf s').cols[i]? = none ↔ (tableOf s4).cols[i]? = none := by
    intro i
    rw [hi i]
    simp
  have hzip1 : ∀ p ∈ (List.range' first n).zip targets, first ≤ p.1 ∧ p.1 < first + n ∧ p.2 < first := by
    intro p hp
    have h1 := (List.of_mem_zip hp).1
    have h2 := hlt _ (List.of_mem_zip hp).2
    rw [List.mem_range'_1] at h1
    omega
  have hzipk : ∀ k t : Nat, k < n → targets[k]? = some t → ((List.range' first n).zip targets)[k]? = some (first + k, t) := by
    intro k t hk htk
    rw [List.getElem?_zip_eq_some]
    exact ⟨by rw [List.getElem?_range' (by exact hk)]; simp, htk⟩
  have hfstnd : (((List.range' first n).zip targets).map Prod.fst).Nodup := by
    rw [List.map_fst_zip (by rw [List.length_range']; exact hl)]
    exact List.nodup_range'
  have hsndnd : (((List.range' first n).zip targets).map Prod.snd).Nodup := by
    exact hnd.sublist (zip_snd_sublist _ _)
  refine ⟨hl, ?_, ?_, ?_, ?_⟩
  · intro k t hk htk
    have htf := hlt t (List.mem_of_getElem? htk)
    have e := hi t
    have hs4 : t < (tableOf s4).cols.length := by omega
    rw [List.getElem?_eq_getElem hs4] at e ⊢
    refine ⟨_, rfl, e.trans ?_⟩
    rw [Option.map_some, newAttrs_target (fun p hp => by have := hzip1 p hp; omega) hsndnd (hzipk k t hk htk)]
  · intro k hk
    have e := hi (first + k)
    have hs4 : first + k < (tableOf s4).cols.length := by omega
    rw [List.getElem?_eq_getElem hs4] at e ⊢
    refine ⟨_, rfl, e.trans ?_⟩
    have hkt : k < targets.length := Nat.lt_of_lt_of_le hk hl
    rw [Option.map_some, newAttrs_source (fun p hp => by have := hzip1 p hp; omega) hfstnd
      (hzipk k _ hk (List.getElem?_eq_getElem hkt))]
  · intro i hno
    rw [hi i, newAttrs_none]
    · cases (tableOf s4).cols[i]? <;> simp
    · intro p hp
      obtain ⟨k, hk⟩ := List.getElem?_of_mem hp
      rw [List.getElem?_zip_eq_some] at hk
      have hkn : k < n := by
        have := (List.getElem?_eq_some_iff.1 hk.1).1
        rwa [List.length_range'] at this
      have h1 := hk.1
      rw [List.getElem?_range' hkn] at h1
      have := hno k hkn
      simp only [Nat.one_mul, Option.some.injEq] at h1
      exact ⟨fun he => this.1 (by omega), fun he => this.2 (by rw [← he]; exact hk.2)⟩
  · have h1 := hlen (tableOf s').cols.length
    have h2 := hlen (tableOf s4).cols.length
    simp only [List.getElem?_eq_none_iff, Nat.le_refl, true_iff, iff_true] at h1 h2
    omega

/-- The columns of quality values (class 33) from column `n` on. -/
def qualityCols (cols : List (Column F)) (n : Nat) : List Nat :=
  (List.range cols.length).filter fun i => n ≤ i ∧ cols[i]?.bind (fun col => col.desc.d.map fun d => d.id.X) = some 33

/-- C64, the property: the k-th quality value becomes an attribute of the k-th selected element. -/
def C64_statement : Prop :=
  ∀ (F : Type) [GoFloat F] (c : VisCfg) (d : Desc) (bm : Ast) (as ms : List Ast) (s s' : Vis F) (b : Bitmap)
    (bits : List Nat), CfgOk c → noBase (.assessment d bm as ms) = true → WellFormed c s →
    Vis.visit c (.assessment d bm as ms) s = (.ok (), s') → currentBitmap s' = some b → BitsAt (tableOf s').cols b bits →
    ∀ (k q t : Nat), (qualityCols (tableOf s').cols (tableOf s).cols.length)[k]? = some q →
      (selected bits (s'.bm.backref1 + 1).toNat)[k]? = some t →
      ∃ col, (tableOf s').cols[t]? = some col ∧ some q ∈ col.attrs

namespace PayloadExample

/-- Two elements of 4 bits. -/
def two : Vis ToyFloat := (Vis.visitL cfg [.element e4 false, .element e4 false] (ready cfg [0x12, 0x00, 0x54])).2

theorem two_wf : WellFormed cfg two := by
  have k : (Vis.visitL cfg [.element e4 false, .element e4 false] (ready cfg [0x12, 0x00, 0x54])).1 = .ok () := by
    decide +kernel
  exact (visitL_table cfg_ok (by decide) (ready_wf _) (eq_of_fst k) (by simp)).2.1

/-- Quality values for two elements, one of them, in a delayed replication. -/
def delayedQuality : Ast :=
  .assessment (plain 222000) (.bitmap (some (plain 236000)) [.fixedRepl (plain 101002) [.element bit false]]) []
    [.delayedRepl (plain 101000) [.element (elem 31001 .nonnegCode 8) false, .element (elem 33007 .nonnegCode 4) false]]

end PayloadExample

open PayloadExample in
/-- C64 is violated: the replication factor of a delayed replication of quality values takes the place
of the first of them, so that the quality value 5 is attached to the second element, not to the first. -/
theorem C64_violates : ¬ C64_statement := by
  intro h
  have k1 : (Vis.visit cfg delayedQuality two).1 = .ok () := by decide +kernel
  have k2 : currentBitmap (Vis.visit cfg delayedQuality two).2 = some ⟨2, 4⟩ := by decide +kernel
  have k3 : (tableOf (Vis.visit cfg delayedQuality two).2).cols[2]?.map (fun x => x.vals.head?) = some (some (.uint 0)) ∧
      (tableOf (Vis.visit cfg delayedQuality two).2).cols[3]?.map (fun x => x.vals.head?) = some (some (.uint 0)) := by
    decide +kernel
  have k4 : (qualityCols (tableOf (Vis.visit cfg delayedQuality two).2).cols (tableOf two).cols.length)[0]? = some 5 := by
    decide +kernel
  have k5 : (Vis.visit cfg delayedQuality two).2.bm.backref1 = 1 := by decide +kernel
  have k6 : (tableOf (Vis.visit cfg delayedQuality two).2).cols[0]?.map (fun x => x.attrs) = some [some 4] := by
    decide +kernel
  have k7 : noBase delayedQuality = true := by decide
  generalize hx : Vis.visit cfg delayedQuality two = x at k1 k2 k3 k4 k5 k6
  have hb : BitsAt (tableOf x.2).cols ⟨2, 4⟩ [0, 0] := by
    refine ⟨rfl, fun j n hj => ?_⟩
    have hv : ∀ i : Nat, (tableOf x.2).cols[i]?.map (fun x => x.vals.head?) = some (some (.uint 0)) →
        ∃ (col : Column ToyFloat) (v : Val ToyFloat), (tableOf x.2).cols[i]? = some col ∧ col.vals.head? = some v ∧
          numberOf v = some 0 := by
      intro i hi
      cases hcol : (tableOf x.2).cols[i]? with
      | none => rw [hcol] at hi; simp at hi
      | some col =>
        rw [hcol] at hi
        exact ⟨col, .uint 0, rfl, by simpa using hi, rfl⟩
    match j, hj with
    | 0, hj =>
      obtain ⟨col, v, h1, h2, h3⟩ := hv 2 k3.1
      simp at hj
      subst hj
      exact ⟨2, col, v, rfl, h1, h2, h3⟩
    | 1, hj =>
      obtain ⟨col, v, h1, h2, h3⟩ := hv 3 k3.2
      simp at hj
      subst hj
      exact ⟨3, col, v, rfl, h1, h2, h3⟩
    | j + 2, hj => simp at hj
  have hrun : Vis.visit cfg delayedQuality two = (.ok (), x.2) := by rw [hx]; exact eq_of_fst k1
  obtain ⟨col, h1, h2⟩ := h ToyFloat cfg _ _ _ _ two x.2 ⟨2, 4⟩ [0, 0] cfg_ok k7 two_wf hrun k2 hb 0 5 0 k4
    (by rw [k5]; decide)
  rw [h1] at k6
  simp only [Option.map_some, Option.some.injEq] at k6
  rw [k6] at h2
  simp at h2

open PayloadExample in
-- without the delayed replication: two quality values for two elements
example : let x := Vis.visit cfg (.assessment (plain 222000)
      (.bitmap (some (plain 236000)) [.fixedRepl (plain 101002) [.element bit false]]) []
      [.fixedRepl (plain 101002) [.element (elem 33007 .nonnegCode 4) false]]) two
    x.1 = .ok () ∧ (tableOf x.2).cols.map Column.attrs = [[some 4], [some 5], [], [], [], []] := by
  decide +kernel

end Gobufr
