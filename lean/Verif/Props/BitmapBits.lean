import Verif.Props.PayloadBitmap

/-!
# C83: the bits of a bitmap are its data present indicators
-/

namespace Gobufr
open TemplateSpec ParserSpec Flat

variable {F : Type} {c : VisCfg}

/-- The column holds a data present indicator: a value of the element 031031. -/
def IsIndicator (col : Column F) : Prop := ∃ e : Desc, col.desc = ⟨some e, false⟩ ∧ e.id = 31031

/-- A replication of 031031: as often as the descriptor says, or as a decoded factor says. -/
def IndicatorBlock (ms : List Ast) : Prop :=
  ∃ d e : Desc, e.id = 31031 ∧
    (ms = [.fixedRepl d [.element e false]] ∨ ∃ f : Desc, ms = [.delayedRepl d [.element f false, .element e false]])

/-- **C83**, as it should be: the bits of a bitmap are data present indicators and nothing else. -/
def C83_statement : Prop :=
  ∀ (F : Type) [GoFloat F] (c : VisCfg) (d : Desc) (ms : List Ast) (s s' : Vis F) (b : Bitmap), CfgOk c → WellFormed c s →
    d.id = 236000 → IndicatorBlock ms → Vis.visit c (.bitmap (some d) ms) s = (.ok (), s') → currentBitmap s' = some b →
    ∀ i : Nat, b.index0 ≤ i → (i : Int) < b.index1 → ∃ col, (tableOf s').cols[i]? = some col ∧ IsIndicator col

theorem repeat_elements [GoFloat F] {e : Desc} (he : e.id = 31031) : ∀ (n : Nat) {f f' : State F},
    Vis.repeatM (Flat.visitL c [.element e false]) n f = (.ok (), f') →
    ∃ cols r, f' = { f with r := r, cols := f.cols ++ cols } ∧ cols.length = n ∧ ∀ col ∈ cols, col.desc = ⟨some e, false⟩
  | 0, f, f', h => by
    cases h
    exact ⟨[], f.r, by simp, rfl, by simp⟩
  | n + 1, f, f', h => by
    obtain ⟨_, g, h1, h2⟩ := M.bind_eq_ok.1 h
    simp only [Flat.visitL] at h1
    obtain ⟨_, g', h3, h4⟩ := M.bind_eq_ok.1 h1
    cases h4
    obtain ⟨cols, col, r, -, rfl, hm, hd, -, -⟩ := element_ok h3
    have hx : e.id.X = 31 := by rw [he]; decide
    rw [if_pos hx] at hm
    have : cols = [] := by simpa using hm
    subst this
    obtain ⟨cols', r', rfl, hl, hall⟩ := repeat_elements he n h2
    refine ⟨col :: cols', r', by simp, by simp [hl], ?_⟩
    intro x hx
    rcases List.mem_cons.1 hx with rfl | hx
    · exact hd
    · exact hall x hx

theorem noBitmap_element {d e : Desc} {ms : List Ast} (h : ms = [.fixedRepl d [.element e false]] ∨
    ∃ f : Desc, ms = [.delayedRepl d [.element f false, .element e false]]) :
    noBaseL ms = true ∧ (∀ x ms', .bitmap (some x) ms' ∉ nodesL ms) ∧ (∀ x, .cancelBitmap x ∉ nodesL ms) ∧
      ∀ x, .cancelBackRef x ∉ nodesL ms := by
  rcases h with rfl | ⟨f, rfl⟩ <;>
    refine ⟨rfl, fun x ms' => ?_, fun x => ?_, fun x => ?_⟩ <;> simp [nodesL, nodes]

/-- **C83** (partial: fixed replications).  A bitmap written as a fixed replication has as many bits as the
replication says, and they are the indicators. -/
theorem C83_fixed_partial [GoFloat F] (hc : CfgOk c) (d r e : Desc) (hd : d.id ≠ 237000) (he : e.id = 31031) {s s' : Vis F}
    {b : Bitmap} (hs : WellFormed c s)
    (h : Vis.visit c (.bitmap (some d) [.fixedRepl r [.element e false]]) s = (.ok (), s'))
    (hb : currentBitmap s' = some b) :
    b.index1 - b.index0 = r.id.Y.toNat ∧
      ∀ i : Nat, b.index0 ≤ i → (i : Int) < b.index1 → ∃ col, (tableOf s').cols[i]? = some col ∧ IsIndicator col := by
  obtain ⟨n1, n2, n3, n4⟩ := noBitmap_element (Or.inl rfl : _ ∨ ∃ f : Desc, _)
  obtain ⟨s0, s1, w0, w1, h1, h2, h3, h4, -⟩ := C59_define hc d hd n1 n2 n3 n4 hs h
  have ht := (visitL_table hc n1 w0 h1 (by simp)).1
  simp only [Flat.visitL, Flat.visit] at ht
  obtain ⟨_, f1, k1, k2⟩ := M.bind_eq_ok.1 ht
  cases k2
  obtain ⟨cols, r', k3, hl, hall⟩ := repeat_elements he _ k1
  have hcols : (tableOf s').cols = (tableOf s0).cols ++ cols := by rw [h2, k3]
  unfold currentBitmap at hb
  rw [h4, h3] at hb
  simp at hb
  subst hb
  rw [hcols]
  refine ⟨?_, fun i hi hi' => ?_⟩
  · simp [hl]
    omega
  · simp only [List.length_append] at hi hi'
    have hlt : i - (tableOf s0).cols.length < cols.length := by omega
    refine ⟨cols[i - (tableOf s0).cols.length], ?_, e, hall _ (List.getElem_mem _), he⟩
    rw [List.getElem?_append_right (by omega)]
    exact List.getElem?_eq_getElem hlt

/-- How C83 fails: a bitmap written as a delayed replication always has one bit more than the factor says, and the
first is the factor. -/
theorem C83_delayed [GoFloat F] (hc : CfgOk c) (d r f e : Desc) (hd : d.id ≠ 237000) (hf : f.id.X = 31) (he : e.id = 31031)
    {s s' : Vis F} {b : Bitmap} (hs : WellFormed c s)
    (h : Vis.visit c (.bitmap (some d) [.delayedRepl r [.element f false, .element e false]]) s = (.ok (), s'))
    (hb : currentBitmap s' = some b) :
    ∃ (i0 k : Nat) (col : Column F) (v : Val F), b.index0 = i0 ∧ b.index1 = i0 + 1 + k ∧
      (tableOf s').cols[i0]? = some col ∧ col.desc = ⟨some f, false⟩ ∧ col.vals.head? = some v ∧ numberOf v = some k ∧
      ∀ i : Nat, i0 < i → i < i0 + 1 + k → ∃ col, (tableOf s').cols[i]? = some col ∧ IsIndicator col := by
  obtain ⟨n1, n2, n3, n4⟩ := noBitmap_element (ms := [.delayedRepl r [.element f false, .element e false]])
    (d := r) (e := e) (Or.inr ⟨f, rfl⟩)
  obtain ⟨s0, s1, w0, w1, h1, h2, h3, h4, -⟩ := C59_define hc d hd n1 n2 n3 n4 hs h
  have ht := (visitL_table hc n1 w0 h1 (by simp)).1
  have ht' : (do Flat.delayed (Flat.visit c (.element f false)) (Flat.visitL c [.element e false]); pure () : M (State F) Unit)
      (tableOf s0) = (.ok (), tableOf s1) := ht
  obtain ⟨_, f1, k1, k2⟩ := M.bind_eq_ok.1 ht'
  cases k2
  unfold Flat.delayed at k1
  obtain ⟨_, g1, k3, k4⟩ := M.bind_eq_ok.1 k1
  obtain ⟨cs, col, r', -, rfl, hm, hdesc, -, -⟩ := element_ok k3
  rw [if_pos hf] at hm
  have : cs = [] := by simpa using hm
  subst this
  obtain ⟨same, g2, k5, k6⟩ := M.bind_eq_ok.1 k4
  obtain ⟨q5, rfl⟩ := Prod.mk.inj k5
  cases same with
  | false => cases k6
  | true =>
    obtain ⟨n, g3, k7, k8⟩ := M.bind_eq_ok.1 k6
    obtain ⟨q7, rfl⟩ := Prod.mk.inj k7
    obtain ⟨v, g4, k9, k10⟩ := M.bind_eq_ok.1 k8
    obtain ⟨q9, rfl⟩ := Prod.mk.inj k9
    obtain ⟨k, g5, k11, k12⟩ := M.bind_eq_ok.1 k10
    rw [M.lift_apply] at k11
    obtain ⟨q11, rfl⟩ := Prod.mk.inj k11
    obtain ⟨cols, r'', k13, hl, hall⟩ := repeat_elements he _ k12
    have hn : n = (tableOf s0).cols.length + 1 := by
      unfold State.len at q7
      split at q7
      · cases q7
      · have := (Outcome.ok.inj q7).symm
        simpa using this
    subst hn
    have hcols : (tableOf s').cols = (tableOf s0).cols ++ (col :: cols) := by rw [h2, k13]; simp
    have hv : v = col.vals.getD 0 .nil := by
      unfold State.value at q9
      obtain ⟨x, i1, i2⟩ := Outcome.bind_eq_ok.1 q9
      have e1 : ((tableOf s0).cols.length : Int) + 1 - 1 = (tableOf s0).cols.length := by omega
      rw [e1] at i1
      unfold index at i1
      simp at i1
      rw [if_neg (by omega)] at i1
      have i3 := Outcome.ok.inj i1
      subst i3
      exact (Outcome.ok.inj i2).symm
    have hnum := (uintValue_eq 0 v k).1 q11
    unfold currentBitmap at hb
    rw [h4, h3] at hb
    simp at hb
    subst hb
    rw [hcols]
    refine ⟨(tableOf s0).cols.length, k, col, v, rfl, by simp [hl]; omega, by simp, hdesc, ?_, hnum, fun i hi hi' => ?_⟩
    · cases hvals : col.vals with
      | nil => rw [hv, hvals] at hnum; cases hnum
      | cons x xs => rw [hv, hvals]; rfl
    · have hlt : i - (tableOf s0).cols.length - 1 < cols.length := by omega
      refine ⟨cols[i - (tableOf s0).cols.length - 1], ?_, e, hall _ (List.getElem_mem _), he⟩
      rw [List.getElem?_append_right (by omega), List.getElem?_cons]
      rw [if_neg (by omega)]
      exact List.getElem?_eq_getElem hlt

namespace PayloadExample

/-- A bitmap of as many indicators as a factor of 8 bits says. -/
def delayedBitmap : List Ast := [.delayedRepl (plain 101000) [.element (elem 31001 .nonnegCode 8) false, .element bit false]]

/-- Two indicators, 0 and 1. -/
def delayedRun : Outcome Unit × Vis ToyFloat := Vis.visit cfg (.bitmap (some (plain 236000)) delayedBitmap) (ready cfg [2, 0x40])

theorem delayedRun_ok : delayedRun.1 = .ok () := by decide +kernel

end PayloadExample

open PayloadExample in
/-- C83 is violated: the factor of a delayed replication counts as a bit. -/
theorem C83_violates : ¬ C83_statement := by
  intro h
  have k1 := delayedRun_ok
  have k2 : currentBitmap delayedRun.2 = some ⟨0, 3⟩ := by decide +kernel
  have k3 : (tableOf delayedRun.2).cols[0]?.map (fun col => col.desc.d.map Desc.id) = some (some 31001) := by decide +kernel
  obtain ⟨col, h1, e, h2, h3⟩ := h ToyFloat cfg (plain 236000) delayedBitmap (ready cfg [2, 0x40]) delayedRun.2 ⟨0, 3⟩ cfg_ok
    (ready_wf _) (by decide) ⟨plain 101000, bit, by decide, Or.inr ⟨_, rfl⟩⟩ (eq_of_fst k1) k2 0 (by decide) (by decide)
  rw [h1] at k3
  simp [h2, h3] at k3

open PayloadExample in
/-- A fixed replication of two indicators, and the delayed one: the hypotheses of both theorems hold. -/
example : (∃ s' b, Vis.visit cfg (.bitmap (some (plain 236000)) [.fixedRepl (plain 101002) [.element bit false]])
      (ready cfg [0x40]) = (.ok (), s') ∧ currentBitmap s' = some b ∧ b.index1 - b.index0 = 2) ∧
    ∃ (i0 k : Nat) (b : Bitmap), currentBitmap delayedRun.2 = some b ∧ b.index0 = i0 ∧ b.index1 = i0 + 1 + k := by
  constructor
  · have k1 : (Vis.visit cfg (.bitmap (some (plain 236000)) [.fixedRepl (plain 101002) [.element bit false]])
      (ready cfg [0x40])).1 = .ok () := by decide +kernel
    have k2 : currentBitmap (Vis.visit cfg (.bitmap (some (plain 236000)) [.fixedRepl (plain 101002) [.element bit false]])
      (ready cfg [0x40])).2 = some ⟨0, 2⟩ := by decide +kernel
    exact ⟨_, _, eq_of_fst k1, k2, (C83_fixed_partial cfg_ok (plain 236000) (plain 101002) bit (by decide) (by decide)
      (ready_wf _) (eq_of_fst k1) k2).1⟩
  · have k2 : currentBitmap delayedRun.2 = some ⟨0, 3⟩ := by decide +kernel
    obtain ⟨i0, k, -, -, h1, h2, -⟩ := C83_delayed cfg_ok (plain 236000) (plain 101000) (elem 31001 .nonnegCode 8) bit
      (by decide) (by decide) (by decide) (ready_wf _) (eq_of_fst delayedRun_ok) k2
    exact ⟨i0, k, _, k2, h1, h2⟩

/-- **C83**, how much it matters: the factor counted as a bit makes no difference to which elements are selected, as long
as it is not zero and there is an element before those of the indicators that it can stand for.  (If there is none, the
assessment is refused, as C58 says.) -/
theorem C83_harmless (k : Nat) (hk : k ≠ 0) (bits : List Nat) (n : Nat) (h : bits.length < n) :
    selected (k :: bits) n = selected bits n := by
  unfold selected
  rw [List.length_cons, List.range_succ_eq_map, List.filter_cons]
  simp only [List.getElem?_cons_zero, Option.some.injEq, hk, decide_false, Bool.false_eq_true, if_false,
    List.filter_map, List.map_map]
  refine congr (congrArg List.map ?_) (congrArg (List.filter · _) ?_)
  · funext j
    simp only [Function.comp]
    omega
  · funext j
    simp

/-- Three indicators after a factor of three, for five elements: the second and the fourth of the last four. -/
example : selected [3, 0, 1, 0] 5 = [2, 4] ∧ selected [0, 1, 0] 5 = [2, 4] := by decide

end Gobufr
