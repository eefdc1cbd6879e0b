import Verif.Props.PayloadShape

/-!
# Properties of payload decoding: operators (C39, C56 - C65)
-/

set_option linter.unusedSimpArgs false

namespace Gobufr
open TemplateSpec ParserSpec Flat

variable {F : Type} {c : VisCfg}

/-- What decoding keeps, for the code's decoder. -/
theorem keeps_visit [GoFloat F] {A : Ast → Prop} {P : State F → State F → Prop} (k : Keeps c A P) (hc : CfgOk c)
    {t : Ast} (ht : noBase t = true) (hA : ∀ n ∈ nodes t, A n) {s s' : Vis F} (hs : WellFormed c s)
    (h : Vis.visit c t s = (.ok (), s')) : P (tableOf s) (tableOf s') :=
  k.visit t hA _ _ _ (visit_table hc ht hs h (by simp)).1

theorem keeps_visitL [GoFloat F] {A : Ast → Prop} {P : State F → State F → Prop} (k : Keeps c A P) (hc : CfgOk c)
    {ts : List Ast} (ht : noBaseL ts = true) (hA : ∀ n ∈ nodesL ts, A n) {s s' : Vis F} (hs : WellFormed c s)
    (h : Vis.visitL c ts s = (.ok (), s')) : P (tableOf s) (tableOf s') :=
  k.visitL ts hA _ _ _ (visitL_table hc ht hs h (by simp)).1

/-! ## C56 -/

/-- C56. At the start of a subset no operator is in force. -/
theorem C56_start (s s' : Vis F) (h : Vis.reset c s = (.ok (), s')) : InForce s' {} := by
  obtain ⟨hr, _⟩ := represents_fresh c s s' h
  exact ⟨hr.nbitsOffset, hr.scaleOffset, ⟨hr.nbitsIncrement, hr.scaleIncrement, hr.refvalFactor⟩, hr.nbitsString⟩

/-- The packing of an element with the operators in force. -/
theorem packing_inForce [GoFloat F] {s : Vis F} {d : Desc} {e : Bentry} (he : d.entry = .b e) {o : Operands}
    (ho : InForce s o) {info : PackingInfo F} (hp : (tableOf s).packing (some d) = .ok info) : info = o.packing e := by
  obtain ⟨o1, o2, ⟨o3, o4, o5⟩, o6⟩ := ho
  unfold In201 at o1; unfold In202 at o2; unfold In208 at o6
  unfold State.packing at hp
  simp only [he] at hp
  have e1 : (tableOf s).nbitsOffset = s.nbitsOffset := rfl
  have e2 : (tableOf s).scaleOffset = s.scaleOffset := rfl
  have e3 : (tableOf s).nbitsIncrement = s.nbitsIncrement := rfl
  have e4 : (tableOf s).scaleIncrement = s.scaleIncrement := rfl
  have e5 : (tableOf s).refvalFactor = s.refvalFactor := rfl
  have e6 : (tableOf s).nbitsString = s.nbitsString := rfl
  rw [e1, e2, e3, e4, e5, e6, o1, o2, o3, o4, o5, o6] at hp
  unfold Operands.packing
  cases hu : e.unit <;> simp only [hu, Outcome.ok.injEq] at hp ⊢ <;> rw [← hp]
  by_cases h0 : o.y208 = 0
  · simp [h0]
  · simp only [if_neg h0]
    rw [if_pos (by omega)]

/-- C56. An element is read with its table entry as changed by the operators in force, and this
is also what is recorded with its value, which is the last cell. -/
theorem C56_element [GoFloat F] (hc : CfgOk c) (d : Desc) (e : Bentry) (he : d.entry = .b e) (o : Operands)
    {s s' : Vis F} (hs : WellFormed c s) (ho : InForce s o)
    (h : Vis.visit c (.element d false) s = (.ok (), s')) :
    ∃ col v r, (tableOf s').cols.getLast? = some col ∧ col.desc = ⟨some d, false⟩ ∧ col.info = o.packing e ∧
      c.unpacker.unpack (o.packing e) r = (.ok v, s'.r) ∧ Holds v col := by
  have ht := (visit_table hc (t := .element d false) rfl hs h (by simp)).1
  obtain ⟨cols, col, r, hr, he', hm, hd, hp, ha⟩ := element_ok ht
  have hinfo : col.info = o.packing e := packing_inForce he ho hp
  have hlast : ∃ v r1, c.unpacker.unpack col.info r1 = (.ok v, r) ∧ Holds v col := by
    clear he' hp h ht hm ha
    generalize (tableOf s).r = r0 at hr
    generalize hl : cols ++ [col] = l at hr
    induction hr generalizing cols with
    | nil => simp at hl
    | cons h1 h2 h3 ih =>
      cases cols with
      | nil =>
        simp only [List.nil_append, List.cons.injEq] at hl
        obtain ⟨rfl, rfl⟩ := hl
        cases h3
        exact ⟨_, _, h1, h2⟩
      | cons a as =>
        simp only [List.cons_append, List.cons.injEq] at hl
        exact ih as hl.2
  obtain ⟨v, r1, h1, h2⟩ := hlast
  have hr' : s'.r = r := congrArg State.r he'
  refine ⟨col, v, r1, ?_, hd, hinfo, ?_, h2⟩
  · rw [he']
    simp
  · rw [hr', ← hinfo]
    exact h1

/-- C56. The operators put their operand in force, and change nothing else. -/
theorem C56_set [GoFloat F] (hc : CfgOk c) (d : Desc) {s : Vis F} (hs : WellFormed c s) :
    (∃ s', Vis.visit c (.nbitsOffset d) s = (.ok (), s') ∧ WellFormed c s' ∧ In201 s' d.id.Y ∧
      tableOf s' = { tableOf s with nbitsOffset := s'.nbitsOffset }) ∧
    (∃ s', Vis.visit c (.scaleOffset d) s = (.ok (), s') ∧ WellFormed c s' ∧ In202 s' d.id.Y ∧
      tableOf s' = { tableOf s with scaleOffset := s'.scaleOffset }) ∧
    (∃ s', Vis.visit c (.modifyPacking d) s = (.ok (), s') ∧ WellFormed c s' ∧ In207 s' d.id.Y ∧
      tableOf s' = { tableOf s with
        nbitsIncrement := s'.nbitsIncrement
        scaleIncrement := s'.scaleIncrement
        refvalFactor := s'.refvalFactor }) ∧
    (∃ s', Vis.visit c (.setStringLength d) s = (.ok (), s') ∧ WellFormed c s' ∧ In208 s' d.id.Y ∧
      tableOf s' = { tableOf s with nbitsString := s'.nbitsString }) := by
  have key : ∀ t, noBase t = true → ∀ g : State F → State F, Flat.visit c t = M.modify g →
      ∃ s', Vis.visit c t s = (.ok (), s') ∧ WellFormed c s' ∧ tableOf s' = g (tableOf s) := by
    intro t ht g hg
    have hf : Flat.visit c t (tableOf s) = (.ok (), g (tableOf s)) := by rw [hg]; rfl
    have ho := visit_outcome hc ht hs
    rw [hf] at ho
    have h := visit_table hc ht hs (o := .ok ()) (s' := (Vis.visit c t s).2) (Prod.ext ho rfl) (by simp)
    rw [hf] at h
    exact ⟨_, Prod.ext ho rfl, h.2.1, (Prod.mk.inj h.1).2.symm⟩
  refine ⟨?_, ?_, ?_, ?_⟩
  · obtain ⟨s', h1, h2, h3⟩ := key (.nbitsOffset d) rfl _ (by unfold Flat.visit; rfl)
    have e : s'.nbitsOffset = _ := congrArg State.nbitsOffset h3
    exact ⟨s', h1, h2, e, by rw [h3, e]⟩
  · obtain ⟨s', h1, h2, h3⟩ := key (.scaleOffset d) rfl _ (by unfold Flat.visit; rfl)
    have e : s'.scaleOffset = _ := congrArg State.scaleOffset h3
    exact ⟨s', h1, h2, e, by rw [h3, e]⟩
  · obtain ⟨s', h1, h2, h3⟩ := key (.modifyPacking d) rfl _ (by unfold Flat.visit; rfl)
    have e1 : s'.nbitsIncrement = _ := congrArg State.nbitsIncrement h3
    have e2 : s'.scaleIncrement = _ := congrArg State.scaleIncrement h3
    have e3 : s'.refvalFactor = _ := congrArg State.refvalFactor h3
    refine ⟨s', h1, h2, ⟨?_, e2, e3⟩, by rw [h3, e1, e2, e3]⟩
    rw [e1]
    simp only []
    split
    · rename_i h0
      rw [h0]; rfl
    · rfl
  · obtain ⟨s', h1, h2, h3⟩ := key (.setStringLength d) rfl _ (by unfold Flat.visit; rfl)
    have e : s'.nbitsString = _ := congrArg State.nbitsString h3
    refine ⟨s', h1, h2, ?_, by rw [h3, e]⟩
    unfold In208
    rw [e]
    simp only []
    omega

/-- C56. An operand stays in force over everything that does not contain its operator. -/
theorem C56_keep [GoFloat F] (hc : CfgOk c) {ts : List Ast} (hts : noBaseL ts = true) {s s' : Vis F}
    (hs : WellFormed c s) (h : Vis.visitL c ts s = (.ok (), s')) (y : Int) :
    ((∀ d, .nbitsOffset d ∉ nodesL ts) → In201 s y → In201 s' y) ∧
    ((∀ d, .scaleOffset d ∉ nodesL ts) → In202 s y → In202 s' y) ∧
    ((∀ d, .modifyPacking d ∉ nodesL ts) → In207 s y → In207 s' y) ∧
    ((∀ d, .setStringLength d ∉ nodesL ts) → In208 s y → In208 s' y) := by
  refine ⟨fun hA hi => ?_, fun hA hi => ?_, fun hA hi => ?_, fun hA hi => ?_⟩
  · have k : Keeps c (fun n => ∀ d, n ≠ .nbitsOffset d) (fun f f' : State F => f'.nbitsOffset = f.nbitsOffset) := by
      apply keeps_proj (fun f => f.nbitsOffset) <;> intros <;> first | rfl | (rename_i hA; exact absurd rfl (hA _))
    have e := keeps_visitL k hc hts (fun n hn d he => hA d (he ▸ hn)) hs h
    exact Eq.trans e hi
  · have k : Keeps c (fun n => ∀ d, n ≠ .scaleOffset d) (fun f f' : State F => f'.scaleOffset = f.scaleOffset) := by
      apply keeps_proj (fun f => f.scaleOffset) <;> intros <;> first | rfl | (rename_i hA; exact absurd rfl (hA _))
    have e := keeps_visitL k hc hts (fun n hn d he => hA d (he ▸ hn)) hs h
    exact Eq.trans e hi
  · have k : Keeps c (fun n => ∀ d, n ≠ .modifyPacking d) (fun f f' : State F =>
        (f'.nbitsIncrement, f'.scaleIncrement, f'.refvalFactor) = (f.nbitsIncrement, f.scaleIncrement, f.refvalFactor)) := by
      apply keeps_proj (fun f => (f.nbitsIncrement, f.scaleIncrement, f.refvalFactor)) <;> intros <;>
        first | rfl | (rename_i hA; exact absurd rfl (hA _))
    have e := keeps_visitL k hc hts (fun n hn d he => hA d (he ▸ hn)) hs h
    simp only [Prod.mk.injEq] at e
    exact ⟨Eq.trans e.1 hi.1, Eq.trans e.2.1 hi.2.1, Eq.trans e.2.2 hi.2.2⟩
  · have k : Keeps c (fun n => ∀ d, n ≠ .setStringLength d) (fun f f' : State F => f'.nbitsString = f.nbitsString) := by
      apply keeps_proj (fun f => f.nbitsString) <;> intros <;> first | rfl | (rename_i hA; exact absurd rfl (hA _))
    have e := keeps_visitL k hc hts (fun n hn d he => hA d (he ▸ hn)) hs h
    exact Eq.trans e hi

open PayloadExample in
-- 201132 widens the number by 4 bits but not the code, 207001 by another 4; 201000 cancels
example : values (Vis.decodeSubsets cfg (.base rootDescriptor [.nbitsOffset (plain 201132), .element e8 false,
      .element e4 false, .modifyPacking (plain 207001), .element e8 false, .nbitsOffset (plain 201000),
      .modifyPacking (plain 207000), .element e8 false]) 1
      (⟨[], false⟩ : Payload ToyFloat) (start [0x12, 0x34, 0x56, 0x78, 0x90])) =
    some [[.float ⟨0x123⟩, .uint 4, .float ⟨0x5678 / 10⟩, .float ⟨0x90⟩]] := by
  decide +kernel

/-! ## C57 -/

/-- C57. An element is preceded by one extra value for every 204YYY that is open (none, if it is of
class 31): the values are YYY bits wide each, in the order in which they were opened, they are
marked as associated with the element and bear the significance in force as attribute; and they
are the attributes of the element.  Nothing else is decoded. -/
theorem C57_element [GoFloat F] (hc : CfgOk c) (d : Desc) {s s' : Vis F} (hs : WellFormed c s)
    (h : Vis.visit c (.element d false) s = (.ok (), s')) :
    let opened := if d.id.X = 31 then [] else (tableOf s).assoc
    let n := (tableOf s).cols.length
    ∃ extra col, tableOf s' = { tableOf s with r := s'.r, cols := (tableOf s).cols ++ (extra ++ [col]) } ∧
      ReadCols c s.r (extra ++ [col]) s'.r ∧
      extra.length = opened.length ∧
      (∀ (j : Nat) (a : Assoc), opened[j]? = some a → ∃ x, extra[j]? = some x ∧ x.desc = ⟨some d, true⟩ ∧
        x.info.unit = .nonnegCode ∧ x.info.nbits = a.nbits ∧ x.attrs = [a.sig]) ∧
      col.desc = ⟨some d, false⟩ ∧ col.attrs = (List.range' n opened.length).map some := by
  have ht := (visit_table hc (t := .element d false) rfl hs h (by simp)).1
  obtain ⟨cols, col, r, hr, he', hm, hd, hp, ha⟩ := element_ok ht
  have hl : cols.length = (if d.id.X = 31 then [] else (tableOf s).assoc).length := by
    have := congrArg List.length hm
    simpa using this
  have hr' : s'.r = r := congrArg State.r he'
  refine ⟨cols, col, by rw [hr']; exact he', by rw [hr']; exact hr, hl, fun j a hj => ?_, hd, by rw [ha, hl]⟩
  have e := congrArg (fun l => l[j]?) hm
  simp only [List.getElem?_map, hj, Option.map_some] at e
  cases hx : cols[j]? with
  | none => rw [hx] at e; simp at e
  | some x =>
    rw [hx] at e
    simp only [Option.map_some, Option.some.injEq, Prod.mk.injEq] at e
    obtain ⟨e1, e2, e3⟩ := e
    exact ⟨x, rfl, e1, by rw [e2]; rfl, by rw [e2]; rfl, e3⟩

theorem setSig_last (i : Nat) (as : List Assoc) (a : Assoc) : setSig i (as ++ [a]) = as ++ [{ a with sig := some i }] := by
  induction as with
  | nil => rfl
  | cons b bs ih =>
    cases bs with
    | nil => rfl
    | cons x xs =>
      have : setSig i (b :: ((x :: xs) ++ [a])) = b :: setSig i ((x :: xs) ++ [a]) := rfl
      simp only [List.cons_append] at this ih ⊢
      rw [this, ih]

/-- C57. 204YYY with its significance 031021 opens a field of YYY bits, whose significance is the
value of the 031021. -/
theorem C57_open [GoFloat F] (hc : CfgOk c) (d dsig : Desc) (hy : d.id.Y ≠ 0) {s s' : Vis F} (hs : WellFormed c s)
    (h : Vis.visit c (.assocField d [.e031021 dsig]) s = (.ok (), s')) :
    (tableOf s').assoc = (tableOf s).assoc ++ [⟨d.id.Y, some (tableOf s).cols.length⟩] ∧
    ∃ col, (tableOf s').cols = (tableOf s).cols ++ [col] ∧ col.desc = ⟨some dsig, false⟩ := by
  have ht := (visit_table hc (t := .assocField d [.e031021 dsig]) rfl hs h (by simp)).1
  simp only [Flat.visit, if_neg hy, Flat.visitL] at ht
  obtain ⟨_, f1, h1, h2⟩ := M.bind_eq_ok.1 ht
  simp only [M.modify_apply, Prod.mk.injEq, true_and] at h1
  subst h1
  obtain ⟨_, f2, h3, h4⟩ := M.bind_eq_ok.1 h2
  simp only [M.pure_apply, Prod.mk.injEq, true_and] at h4
  subst h4
  obtain ⟨i, f3, h5, h6⟩ := M.bind_eq_ok.1 h3
  simp only [M.modify_apply, Prod.mk.injEq, true_and] at h6
  unfold buildElement at h5
  obtain ⟨info, f4, h7, h8⟩ := M.bind_eq_ok.1 h5
  simp only [Prod.mk.injEq] at h7
  obtain ⟨_, rfl⟩ := h7
  obtain ⟨rfl, v, col, r, _, _, hd, _, _, rfl⟩ := build_ok h8
  rw [← h6]
  simp only [setSig_last]
  exact ⟨trivial, col, rfl, hd⟩

/-- C57. 204000 closes the field opened last. -/
theorem C57_close [GoFloat F] (hc : CfgOk c) (d : Desc) (hy : d.id.Y = 0) {s s' : Vis F} (hs : WellFormed c s)
    (h : Vis.visit c (.assocField d []) s = (.ok (), s')) :
    (tableOf s).assoc ≠ [] ∧ tableOf s' = { tableOf s with assoc := (tableOf s).assoc.dropLast } := by
  have ht := (visit_table hc (t := .assocField d []) rfl hs h (by simp)).1
  simp only [Flat.visit, if_pos hy, Flat.visitL] at ht
  obtain ⟨_, f1, h1, h2⟩ := M.bind_eq_ok.1 ht
  simp only [M.pure_apply, Prod.mk.injEq, true_and] at h2
  rw [← h2]
  unfold popAssoc at h1
  split at h1
  · simp at h1
  · rename_i hne
    simp only [Prod.mk.injEq, true_and] at h1
    exact ⟨by simpa using hne, h1.symm⟩

/-- C57. The open fields stay as they are over everything that contains no 204YYY and no 031021. -/
theorem C57_keep [GoFloat F] (hc : CfgOk c) {ts : List Ast} (hts : noBaseL ts = true)
    (hA : ∀ d ms, .assocField d ms ∉ nodesL ts) (hB : ∀ d, .e031021 d ∉ nodesL ts) {s s' : Vis F}
    (hs : WellFormed c s) (h : Vis.visitL c ts s = (.ok (), s')) : (tableOf s').assoc = (tableOf s).assoc := by
  have k : Keeps c (fun n => (∀ d ms, n ≠ .assocField d ms) ∧ ∀ d, n ≠ .e031021 d)
      (fun f f' : State F => f'.assoc = f.assoc) := by
    apply keeps_proj (fun f => f.assoc) <;> intros <;>
      first | rfl | (rename_i hA; exact absurd rfl (hA.1 _ _)) | (rename_i hA; exact absurd rfl (hA.2 _))
  exact keeps_visitL k hc hts (fun n hn => ⟨fun d ms he => hA d ms (he ▸ hn), fun d he => hB d (he ▸ hn)⟩) hs h

/-- An element not marked as absent, in an example: a significance of 6 bits. -/
def PayloadExample.sig : Desc := PayloadExample.elem 31021 .nonnegCode 6

open PayloadExample in
-- two open fields of 2 and 3 bits: significances 5 and 6, then 1 and 2 before the element, then one closed
example : values (Vis.decodeSubsets cfg (.base rootDescriptor [.assocField (plain 204002) [.e031021 sig],
      .assocField (plain 204003) [.e031021 sig], .element e4 false, .assocField (plain 204000) [], .element e4 false]) 1
      (⟨[], false⟩ : Payload ToyFloat) (start [0x14, 0x65, 0x7C, 0x20])) =
    some [[.uint 5, .uint 6, .uint 1, .uint 2, .nil, .uint 2, .uint 1]] := by
  decide +kernel

end Gobufr
