import Verif.Spec.Objects
import Verif.Proofs.Trace

/-!
# Properties of metadata (C101), payloads and subsets (C102)
-/

namespace Gobufr

open Spec

variable {F : Type}

/-! ## C101 -/

/-- What was stored first, and what later. -/
def setAll (m : Metadata F) (sets : List (GoString × Val F)) : Metadata F :=
  sets.foldl (fun m x => m.set x.1 x.2) m

theorem setAll_get (name : GoString) : ∀ (sets : List (GoString × Val F)) (m : Metadata F),
    mapGet (setAll m sets) name = (lastValue sets name).or (mapGet m name)
  | [], m => rfl
  | (k, v) :: sets, m => by
    show mapGet (setAll (mapSet m k v) sets) name = _
    rw [setAll_get name sets]
    unfold lastValue
    rw [List.reverse_cons, List.find?_append, Option.map_or, Option.or_assoc]
    congr 1
    simp only [mapSet, mapGet, List.find?_cons, List.find?_nil]
    by_cases h : k = name
    · simp [h]
    · simp [h, show (k == name) = false by simpa using h]

/-- **C101** (messages).  `Metadata` returns what was stored last under the name, the input path from
the beginning, and nil for other names. -/
theorem C101_message (inputPath : GoString) (sets : List (GoString × Val F)) (name : GoString) :
    (setAll (messageMetadata inputPath) sets).ofMessage name
      = (lastValue ((str "inputPath", .str inputPath) :: sets) name).getD .nil := by
  unfold Metadata.ofMessage
  rw [show setAll (messageMetadata inputPath) sets = setAll [] ((str "inputPath", .str inputPath) :: sets) from rfl, setAll_get]
  cases lastValue ((str "inputPath", Val.str inputPath) :: sets) name <;> rfl

/-- **C101** for sections, as it should be: a name that is not there does not end the program. -/
def C101_statement (F : Type) : Prop :=
  ∀ (description : GoString) (sets : List (GoString × Val F)) (name : GoString),
    (∀ v, lastValue ((str "description", .str description) :: sets) name = some v →
      (setAll (sectionMetadata description) sets).ofSection name = .ok v) ∧
    (lastValue ((str "description", .str description) :: sets) name = none →
      ¬ ((setAll (sectionMetadata description) sets).ofSection name).isPanic)

theorem section_get (description : GoString) (sets : List (GoString × Val F)) (name : GoString) :
    mapGet (setAll (sectionMetadata description) sets) name
      = lastValue ((str "description", .str description) :: sets) name := by
  rw [show setAll (sectionMetadata description) sets = setAll [] ((str "description", .str description) :: sets) from rfl, setAll_get]
  exact Option.or_none

/-- **C101** (sections).  `Metadata` returns what was stored last under the name, the description from
the beginning. -/
theorem C101_section_partial (description : GoString) (sets : List (GoString × Val F)) (name : GoString) (v : Val F)
    (h : lastValue ((str "description", .str description) :: sets) name = some v) :
    (setAll (sectionMetadata description) sets).ofSection name = .ok v := by
  unfold Metadata.ofSection
  rw [section_get, h]

/-- C101, for every other name: the program ends. -/
theorem C101_section_exits (description : GoString) (sets : List (GoString × Val F)) (name : GoString)
    (h : lastValue ((str "description", .str description) :: sets) name = none) :
    (setAll (sectionMetadata description) sets).ofSection name = .panic "exit status 1" := by
  unfold Metadata.ofSection
  rw [section_get, h]

/-- C101 is violated by every name that was not stored. -/
theorem C101_violates : ¬ C101_statement ToyFloat := by
  intro h
  refine (h (str "Data Section") [] (str "number")).2 (by decide) ?_
  rw [C101_section_exits _ _ _ (by decide)]
  rfl

example : (setAll (sectionMetadata (str "Data Section")) [(str "a", .uint 1), (str "b", .uint 2), (str "a", .nil)] :
    Metadata ToyFloat).ofSection (str "a") = .ok .nil := C101_section_partial _ _ _ _ (by decide)

/-! ## C102 -/

theorem len_eq (m : PayMem F) (p : PayRef) : m.len p = (m.subsets p).length := by
  unfold PayMem.len PayMem.subsets
  cases m.pays[p]? <;> rfl

theorem subsets_append (m : PayMem F) {p : PayRef} (hp : p < m.pays.length) (s : SubRef) (q : PayRef) :
    (m.append p s).subsets q = m.subsets q ++ if p = q then [s] else [] := by
  unfold PayMem.append PayMem.subsets
  simp only [List.getElem?_modify]
  by_cases h : p = q
  · subst h
    rw [List.getElem?_eq_getElem hp]
    simp
  · simp [h]

theorem pays_append (m : PayMem F) (p : PayRef) (s : SubRef) : (m.append p s).pays.length = m.pays.length := by
  simp [PayMem.append]

theorem subsets_none (m : PayMem F) {p : PayRef} (hp : m.pays.length ≤ p) : m.subsets p = [] := by
  unfold PayMem.subsets
  rw [List.getElem?_eq_none hp]
  rfl

theorem run_subsets (p : PayRef) : ∀ (ops : List (PayOp F)) (m : PayMem F), Possible m.pays.length m.subs.length ops →
    (m.run ops).subsets p = m.subsets p ++ added p m.subs.length ops
  | [], m, _ => by simp [PayMem.run, added]
  | .newPayload c :: ops, m, h => by
    have ih := run_subsets p ops (m.newPayload c) (by simpa [PayMem.newPayload, Possible] using h)
    rw [show m.run (.newPayload c :: ops) = (m.newPayload c).run ops from rfl, ih]
    congr 1
    unfold PayMem.subsets PayMem.newPayload
    simp only [List.getElem?_append]
    split
    · rfl
    · rename_i hl
      rw [List.getElem?_eq_none (l := m.pays) (by omega)]
      cases hk : ([{ compressed := c }] : List PayObj)[p - m.pays.length]? with
      | none => rfl
      | some x =>
        have := List.getElem?_eq_some_iff.1 hk
        obtain ⟨h1, h2⟩ := this
        have h0 : p - m.pays.length = 0 := by simpa using h1
        simp only [h0, List.getElem_cons_zero] at h2
        rw [← h2]
        rfl
  | .newSubset cs r :: ops, m, h => by
    have ih := run_subsets p ops (m.newSubset cs r) (by simpa [PayMem.newSubset, Possible] using h)
    rw [show m.run (.newSubset cs r :: ops) = (m.newSubset cs r).run ops from rfl, ih]
    simp [added, PayMem.newSubset, PayMem.subsets]
  | .addSubset q s :: ops, m, h => by
    have ih := run_subsets p ops (m.addSubset q s) (by simpa [PayMem.addSubset, PayMem.append, PayMem.setIndex] using h.2.2)
    rw [show m.run (.addSubset q s :: ops) = (m.addSubset q s).run ops from rfl, ih]
    unfold PayMem.addSubset
    rw [subsets_append _ (by exact h.1)]
    simp [added, PayMem.append, PayMem.setIndex, PayMem.subsets]
  | .add q r cs :: ops, m, h => by
    have ih := run_subsets p ops (m.add q r cs) (by simpa [PayMem.add, PayMem.append] using h.2)
    rw [show m.run (.add q r cs :: ops) = (m.add q r cs).run ops from rfl, ih]
    unfold PayMem.add
    rw [subsets_append _ (by exact h.1)]
    simp [added, PayMem.append, PayMem.subsets]
  | .addCell s c :: ops, m, h => by
    have ih := run_subsets p ops (m.addCell s c) (by simpa [PayMem.addCell] using h.2)
    rw [show m.run (.addCell s c :: ops) = (m.addCell s c).run ops from rfl, ih]
    simp [added, PayMem.addCell, PayMem.subsets]

/-- **C102** (order).  A payload lists the subsets in the order they were added. -/
theorem C102_order (ops : List (PayOp F)) (h : Possible 0 0 ops) (p : PayRef) :
    (PayMem.run {} ops).subsets p = added p 0 ops := run_subsets p ops {} h

theorem at_ok_iff {α : Type} (l : List α) (i : Int) (a : α) :
    PayMem.at_ l i = .ok a ↔ 0 ≤ i ∧ l[i.toNat]? = some a := by
  unfold PayMem.at_
  split
  · constructor
    · intro h; cases h
    · intro h; omega
  · split
    · rename_i b hb
      rw [hb]
      simp only [Outcome.ok.injEq, Option.some.injEq]
      constructor
      · intro h; exact ⟨by omega, h⟩
      · intro h; exact h.2
    · rename_i hb
      rw [hb]
      simp

theorem at_panics {α : Type} (l : List α) (i : Int) : (PayMem.at_ l i).isPanic ↔ i < 0 ∨ (l.length : Int) ≤ i := by
  unfold PayMem.at_
  split
  · simp [Outcome.isPanic]; omega
  · split
    · rename_i b hb
      have := (List.getElem?_eq_some_iff.1 hb).1
      simp [Outcome.isPanic]; omega
    · rename_i hb
      have := List.getElem?_eq_none_iff.1 hb
      simp [Outcome.isPanic]; omega

/-- **C102** (position).  `Subset(i)` is the subset added as number `i`, counted from 0; it panics
exactly if there is none. -/
theorem C102_position (ops : List (PayOp F)) (h : Possible 0 0 ops) (p : PayRef) (i : Int) (s : SubRef) :
    ((PayMem.run {} ops).subset p i = .ok s ↔ 0 ≤ i ∧ (added p 0 ops)[i.toNat]? = some s) ∧
    (((PayMem.run {} ops).subset p i).isPanic ↔ i < 0 ∨ ((added p 0 ops).length : Int) ≤ i) := by
  unfold PayMem.subset
  rw [C102_order ops h]
  exact ⟨at_ok_iff _ _ _, at_panics _ _⟩

theorem cells_modify (m : PayMem F) (g : SubObj F → SubObj F) (hg : ∀ x, (g x).cells = x.cells) (t s : SubRef) :
    ({ m with subs := m.subs.modify t g } : PayMem F).cells s = m.cells s := by
  unfold PayMem.cells
  simp only [List.getElem?_modify]
  cases m.subs[s]? with
  | none => simp
  | some x =>
    simp only [Option.map_some, Option.getD_some]
    split
    · exact hg x
    · rfl

theorem cells_snoc (m : PayMem F) (x : SubObj F) (s : SubRef) :
    ({ m with subs := m.subs ++ [x] } : PayMem F).cells s = m.cells s ++ if m.subs.length = s then x.cells else [] := by
  unfold PayMem.cells
  simp only [List.getElem?_append]
  split
  · rename_i hl
    rw [if_neg (by omega)]
    simp
  · rename_i hl
    rw [List.getElem?_eq_none (l := m.subs) (by omega)]
    by_cases h : m.subs.length = s
    · simp [h]
    · rw [List.getElem?_eq_none (by simp; omega)]
      simp [h]

theorem run_cells (s : SubRef) : ∀ (ops : List (PayOp F)) (m : PayMem F), Possible m.pays.length m.subs.length ops →
    (m.run ops).cells s = m.cells s ++ cellsOf s m.subs.length ops
  | [], m, _ => by simp [PayMem.run, cellsOf]
  | .newPayload c :: ops, m, h => run_cells s ops (m.newPayload c) (by simpa [PayMem.newPayload, Possible] using h)
  | .newSubset cs r :: ops, m, h => by
    have ih := run_cells s ops (m.newSubset cs r) (by simpa [PayMem.newSubset, Possible] using h)
    rw [show m.run (.newSubset cs r :: ops) = (m.newSubset cs r).run ops from rfl, ih]
    unfold PayMem.newSubset
    rw [cells_snoc]
    simp [cellsOf]
  | .addSubset q t :: ops, m, h => by
    have ih := run_cells s ops (m.addSubset q t) (by simpa [PayMem.addSubset, PayMem.append, PayMem.setIndex] using h.2.2)
    rw [show m.run (.addSubset q t :: ops) = (m.addSubset q t).run ops from rfl, ih]
    rw [show (m.addSubset q t).cells s = (m.setIndex t (m.len q)).cells s from rfl]
    unfold PayMem.setIndex
    rw [cells_modify m (fun x => { x with index := (m.len q : Int) }) (fun _ => rfl)]
    simp [cellsOf, PayMem.addSubset, PayMem.append, PayMem.setIndex]
  | .add q r cs :: ops, m, h => by
    have ih := run_cells s ops (m.add q r cs) (by simpa [PayMem.add, PayMem.append] using h.2)
    rw [show m.run (.add q r cs :: ops) = (m.add q r cs).run ops from rfl, ih]
    rw [show (m.add q r cs).cells s = ({ m with subs := m.subs ++ [⟨m.len q, cs, r⟩] } : PayMem F).cells s from rfl, cells_snoc]
    simp [cellsOf, PayMem.add, PayMem.append]
  | .addCell t c :: ops, m, h => by
    have ih := run_cells s ops (m.addCell t c) (by simpa [PayMem.addCell] using h.2)
    rw [show m.run (.addCell t c :: ops) = (m.addCell t c).run ops from rfl, ih]
    have : (m.addCell t c).cells s = m.cells s ++ if t = s then [c] else [] := by
      unfold PayMem.addCell PayMem.cells
      simp only [List.getElem?_modify]
      by_cases e : t = s
      · subst e
        rw [List.getElem?_eq_getElem h.1]
        simp
      · simp [e]
    rw [this]
    simp [cellsOf, PayMem.addCell]

/-- **C102** (cells).  The cells of a subset are those it was made with and those added, in order;
`Cell(i)` is number `i` of them and panics exactly if there is none. -/
theorem C102_cells (ops : List (PayOp F)) (h : Possible 0 0 ops) (s : SubRef) :
    (PayMem.run {} ops).cells s = cellsOf s 0 ops ∧
    (∀ i c, (PayMem.run {} ops).cell s i = .ok c ↔ 0 ≤ i ∧ (cellsOf s 0 ops)[i.toNat]? = some c) ∧
    (∀ i, ((PayMem.run {} ops).cell s i).isPanic ↔ i < 0 ∨ ((cellsOf s 0 ops).length : Int) ≤ i) := by
  have h1 := run_cells s ops {} h
  refine ⟨h1, fun i c => ?_, fun i => ?_⟩
  · unfold PayMem.cell
    rw [h1]
    exact at_ok_iff _ _ _
  · unfold PayMem.cell
    rw [h1]
    exact at_panics _ _

/-- **C102**, the index: the subset at a position has this position as its index. -/
def C102_statement (F : Type) : Prop :=
  ∀ (ops : List (PayOp F)), Possible 0 0 ops → ∀ (p : PayRef) (i : Int) (s : SubRef),
    (PayMem.run {} ops).subset p i = .ok s → (PayMem.run {} ops).index s = some i

/-- C102 is violated: a subset that is added twice has only one index. -/
theorem C102_violates : ¬ C102_statement ToyFloat := by
  intro h
  have := h [.newPayload false, .newSubset [] 0, .addSubset 0 0, .addSubset 0 0] ⟨by decide, by decide, by decide, by decide, trivial⟩
    0 0 0 (by decide)
  revert this
  decide

/-- Indices are positions, and only subsets in `taken` are in payloads. -/
structure Numbered (m : PayMem F) (taken : List SubRef) : Prop where
  index : ∀ p (i : Nat) s, (m.subsets p)[i]? = some s → m.index s = some (i : Int)
  taken : ∀ p s, s ∈ m.subsets p → s ∈ taken

theorem index_snoc (m : PayMem F) (x : SubObj F) {s : SubRef} (hs : s < m.subs.length) :
    ({ m with subs := m.subs ++ [x] } : PayMem F).index s = m.index s := by
  unfold PayMem.index
  simp only [List.getElem?_append_left hs]

theorem index_lt {m : PayMem F} {s : SubRef} {i : Int} (h : m.index s = some i) : s < m.subs.length := by
  unfold PayMem.index at h
  cases hx : m.subs[s]? with
  | none => rw [hx] at h; cases h
  | some x => exact (List.getElem?_eq_some_iff.1 hx).1

theorem run_numbered : ∀ (ops : List (PayOp F)) (m : PayMem F) (taken : List SubRef),
    Possible m.pays.length m.subs.length ops → Once taken m.subs.length ops → Numbered m taken →
    ∃ taken', Numbered (m.run ops) taken'
  | [], m, taken, _, _, hn => ⟨taken, hn⟩
  | .newPayload c :: ops, m, taken, h, ho, hn => by
    refine run_numbered ops (m.newPayload c) taken (by simpa [PayMem.newPayload, Possible] using h) ho ?_
    have hs : ∀ p, (m.newPayload c).subsets p = m.subsets p := by
      intro p
      have := run_subsets p [.newPayload c] m trivial
      simpa [PayMem.run, PayMem.step, added] using this
    exact ⟨fun p i s hi => hn.index p i s (by rwa [hs] at hi), fun p s hi => hn.taken p s (by rwa [hs] at hi)⟩
  | .newSubset cs r :: ops, m, taken, h, ho, hn => by
    refine run_numbered ops (m.newSubset cs r) taken (by simpa [PayMem.newSubset, Possible] using h)
      (by simpa [PayMem.newSubset, Once] using ho) ?_
    refine ⟨fun p i s hi => ?_, fun p s hi => hn.taken p s hi⟩
    have h1 := hn.index p i s hi
    exact (index_snoc m _ (index_lt h1)).trans h1
  | .addSubset q t :: ops, m, taken, h, ho, hn => by
    refine run_numbered ops (m.addSubset q t) (t :: taken)
      (by simpa [PayMem.addSubset, PayMem.append, PayMem.setIndex] using h.2.2)
      (by simpa [PayMem.addSubset, PayMem.append, PayMem.setIndex] using ho.2) ?_
    have hs : ∀ p, (m.addSubset q t).subsets p = m.subsets p ++ if q = p then [t] else [] := fun p =>
      subsets_append (m.setIndex t (m.len q)) h.1 t p
    have hi : ∀ s, (m.addSubset q t).index s = if t = s then some (m.len q : Int) else m.index s := by
      intro s
      show (m.setIndex t (m.len q)).index s = _
      unfold PayMem.setIndex PayMem.index
      simp only [List.getElem?_modify]
      by_cases e : t = s
      · subst e
        rw [List.getElem?_eq_getElem h.2.1]
        simp
      · simp [e]
    refine ⟨fun p i s hx => ?_, fun p s hx => ?_⟩
    · rw [hs] at hx
      rw [hi]
      rw [List.getElem?_append] at hx
      split at hx
      · have hm := hn.taken p s (List.mem_of_getElem? hx)
        rw [if_neg (fun e : t = s => ho.1 (e ▸ hm))]
        exact hn.index p i s hx
      · split at hx
        · rename_i hl e
          subst e
          have h0 : i - (m.subsets q).length = 0 := by
            have := (List.getElem?_eq_some_iff.1 hx).1
            simpa using this
          rw [h0] at hx
          simp only [List.getElem?_cons_zero, Option.some.injEq] at hx
          rw [if_pos hx, len_eq]
          congr 2
          omega
        · simp at hx
    · rw [hs] at hx
      rcases List.mem_append.1 hx with hx | hx
      · exact List.mem_cons_of_mem _ (hn.taken p s hx)
      · split at hx
        · simp at hx; simp [hx]
        · simp at hx
  | .add q r cs :: ops, m, taken, h, ho, hn => by
    refine run_numbered ops (m.add q r cs) (m.subs.length :: taken)
      (by simpa [PayMem.add, PayMem.append] using h.2)
      (by simpa [PayMem.add, PayMem.append, Once] using ho) ?_
    have hs : ∀ p, (m.add q r cs).subsets p = m.subsets p ++ if q = p then [m.subs.length] else [] := fun p =>
      subsets_append _ h.1 _ p
    refine ⟨fun p i s hx => ?_, fun p s hx => ?_⟩
    · rw [hs, List.getElem?_append] at hx
      show ({ m with subs := m.subs ++ [⟨m.len q, cs, r⟩] } : PayMem F).index s = _
      split at hx
      · have h1 := hn.index p i s hx
        exact (index_snoc m _ (index_lt h1)).trans h1
      · split at hx
        · rename_i hl e
          subst e
          have h0 : i - (m.subsets q).length = 0 := by
            have := (List.getElem?_eq_some_iff.1 hx).1
            simpa using this
          rw [h0] at hx
          simp only [List.getElem?_cons_zero, Option.some.injEq] at hx
          subst hx
          simp only [PayMem.index, List.getElem?_concat_length, Option.map_some, Option.some.injEq, len_eq]
          omega
        · simp at hx
    · rw [hs] at hx
      rcases List.mem_append.1 hx with hx | hx
      · exact List.mem_cons_of_mem _ (hn.taken p s hx)
      · split at hx
        · simp at hx; simp [hx]
        · simp at hx
  | .addCell t c :: ops, m, taken, h, ho, hn => by
    refine run_numbered ops (m.addCell t c) taken (by simpa [PayMem.addCell] using h.2)
      (by simpa [PayMem.addCell, Once] using ho) ?_
    refine ⟨fun p i s hx => ?_, fun p s hx => hn.taken p s hx⟩
    rw [← hn.index p i s hx]
    unfold PayMem.addCell PayMem.index
    simp only [List.getElem?_modify]
    cases m.subs[s]? with
    | none => simp
    | some x =>
      simp only [Option.map_some]
      split <;> rfl

/-- **C102** (index), if no subset is added twice: the subset at position `i` has the index `i`. -/
theorem C102_index_partial (ops : List (PayOp F)) (h : Possible 0 0 ops) (ho : Once [] 0 ops) (p : PayRef) (i : Int)
    (s : SubRef) (hs : (PayMem.run {} ops).subset p i = .ok s) : (PayMem.run {} ops).index s = some i := by
  obtain ⟨taken, hn⟩ := run_numbered ops {} [] h ho ⟨by simp [PayMem.subsets], by simp [PayMem.subsets]⟩
  obtain ⟨h1, h2⟩ := (at_ok_iff _ _ _).1 hs
  rw [hn.index p _ s h2]
  congr 1
  omega

theorem run_index (s : SubRef) : ∀ (ops : List (PayOp F)) (m : PayMem F), Possible m.pays.length m.subs.length ops →
    (∀ p, s ∉ added p m.subs.length ops) → (m.subs.length ≤ s ∨ m.index s = some 0) → s < (m.run ops).subs.length →
    (m.run ops).index s = some 0
  | [], m, _, _, hi, hl => by
    rcases hi with hi | hi
    · exact absurd hl (Nat.not_lt.2 hi)
    · exact hi
  | .newPayload c :: ops, m, h, ha, hi, hl =>
    run_index s ops (m.newPayload c) (by simpa [PayMem.newPayload, Possible] using h) ha hi hl
  | .newSubset cs r :: ops, m, h, ha, hi, hl => by
    refine run_index s ops (m.newSubset cs r) (by simpa [PayMem.newSubset, Possible] using h)
      (fun p => by simpa [added, PayMem.newSubset] using ha p) ?_ hl
    by_cases hs : s < m.subs.length
    · refine .inr ((index_snoc m _ hs).trans ?_)
      rcases hi with hi | hi
      · exact absurd hs (Nat.not_lt.2 hi)
      · exact hi
    · by_cases he : s = m.subs.length
      · right
        subst he
        simp [PayMem.newSubset, PayMem.index]
      · left
        simp only [PayMem.newSubset, List.length_append, List.length_cons, List.length_nil]
        exact Nat.lt_of_le_of_ne (Nat.not_lt.1 hs) (Ne.symm he)
  | .addSubset q t :: ops, m, h, ha, hi, hl => by
    have hq := ha q
    simp only [added, if_true, List.cons_append, List.nil_append, List.mem_cons, not_or] at hq
    refine run_index s ops (m.addSubset q t)
      (by simpa [PayMem.addSubset, PayMem.append, PayMem.setIndex] using h.2.2) (fun p hp => ha p ?_) ?_ hl
    · simp only [added]
      exact List.mem_append_right _ (by simpa [PayMem.addSubset, PayMem.append, PayMem.setIndex] using hp)
    · rcases hi with hi | hi
      · left; simpa [PayMem.addSubset, PayMem.append, PayMem.setIndex] using hi
      · right
        rw [← hi]
        show (m.setIndex t (m.len q)).index s = _
        unfold PayMem.setIndex PayMem.index
        simp only [List.getElem?_modify, if_neg (Ne.symm hq.1)]
        cases m.subs[s]? <;> rfl
  | .add q r cs :: ops, m, h, ha, hi, hl => by
    have hq := ha q
    simp only [added, if_true, List.cons_append, List.nil_append, List.mem_cons, not_or] at hq
    refine run_index s ops (m.add q r cs) (by simpa [PayMem.add, PayMem.append] using h.2) (fun p hp => ha p ?_) ?_ hl
    · simp only [added]
      exact List.mem_append_right _ (by simpa [PayMem.add, PayMem.append] using hp)
    · rcases hi with hi | hi
      · left
        simp only [PayMem.add, PayMem.append, List.length_append, List.length_cons, List.length_nil]
        exact Nat.lt_of_le_of_ne hi (Ne.symm hq.1)
      · right
        exact (index_snoc m _ (index_lt hi)).trans hi
  | .addCell t c :: ops, m, h, ha, hi, hl => by
    refine run_index s ops (m.addCell t c) (by simpa [PayMem.addCell] using h.2)
      (fun p => by simpa [added, PayMem.addCell] using ha p) ?_ hl
    rcases hi with hi | hi
    · left; simpa [PayMem.addCell] using hi
    · right
      rw [← hi]
      unfold PayMem.addCell PayMem.index
      simp only [List.getElem?_modify]
      cases m.subs[s]? with
      | none => simp
      | some x =>
        simp only [Option.map_some]
        split <;> rfl

/-- C102, for a subset that is in no payload: its index is 0. -/
theorem C102_fresh (ops : List (PayOp F)) (h : Possible 0 0 ops) (s : SubRef) (hs : s < (PayMem.run {} ops).subs.length)
    (ha : ∀ p, s ∉ (PayMem.run {} ops).subsets p) : (PayMem.run {} ops).index s = some 0 :=
  run_index s ops {} h (fun p => by
    have := ha p
    rw [C102_order ops h p] at this
    exact this) (.inl (by simp)) hs

-- two payloads, three subsets
example : let ops : List (PayOp ToyFloat) := [.newPayload false, .newSubset [⟨0, .uint 1⟩] 0, .add 0 0 [], .newPayload true,
      .addSubset 0 0, .addCell 0 ⟨0, .uint 2⟩, .add 1 0 []]
    Possible 0 0 ops ∧ Once [] 0 ops ∧ added 0 0 ops = [1, 0] ∧ added 1 0 ops = [2] ∧
    cellsOf 0 0 ops = [⟨0, .uint 1⟩, ⟨0, .uint 2⟩] := by
  refine ⟨⟨?_, ?_, ?_, ?_, ?_, trivial⟩, ⟨?_, trivial⟩, ?_, ?_, ?_⟩ <;> decide

end Gobufr
