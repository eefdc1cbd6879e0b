import Verif.Proofs.ParserFacts
import Verif.Props.Template

/-!
# Properties of the template parser (C32, C34-C38, C40, C41)
-/

set_option linter.unusedSimpArgs false

namespace Gobufr
open TemplateSpec ParserSpec

/-- `Parse` succeeds on the template and gives the tree with the given members. -/
def Parses (lk : Lookup) (ids : List ID) (ns : List Ast) : Prop :=
  ∃ fuel, parse lk fuel ids = .ok (.base rootDescriptor ns)

theorem parse_ok_iff {lk : Lookup} {fuel : Nat} {ids : List ID} {t : Ast} :
    parse lk fuel ids = .ok t ↔ ∃ ns f', t = .base rootDescriptor ns ∧ parseF lk fuel {} ids = .ok (ns, f') := by
  rw [parse_eq, Outcome.bind_eq_ok]
  constructor
  · rintro ⟨x, h1, h2⟩
    cases h2
    exact ⟨_, _, rfl, h1⟩
  · rintro ⟨ns, f', rfl, h⟩
    exact ⟨_, h, rfl⟩

theorem parses_iff {lk : Lookup} (hg : GoodLookup lk) {ids : List ID} {ns : List Ast} :
    Parses lk ids ns ↔ Derives lk true {} ids ns {} := by
  constructor
  · rintro ⟨fuel, h⟩
    obtain ⟨ns', f', h1, h2⟩ := parse_ok_iff.1 h
    cases h1
    have := parseF_sound hg.id _ _ _ _ _ h2
    have hf : f' = {} := flagsLe_clear (derives_flags this)
    rwa [hf] at this
  · intro h
    obtain ⟨N, hN⟩ := derives_yields hg.id h
    exact ⟨N, parse_ok_iff.2 ⟨_, _, rfl, hN N (Nat.le_refl _)⟩⟩

/-! ## A small table for the examples -/

namespace ParserExample

/-- 301001 = (001001, 012001). -/
def group : SingleGroup where
  b := { path := [], entries := [(1001, default), (12001, default), (31001, default),
    (31021, default), (31031, default), (33007, default)] }
  d := { path := [], entries := [(301001, ⟨str "S", [1001, 12001]⟩)] }

abbrev lk : Lookup := group.lookup

theorem seq_members {id : ID} {ms : List ID} (h : SeqMembers lk id ms) :
    id = 301001 ∧ ms = [1001, 12001] := by
  obtain ⟨hF, d, e, h1, h2, rfl⟩ := h
  have hF0 : ¬ ID.F id = 0 := by rw [hF]; decide
  have hF1 : ¬ ID.F id = 1 := by rw [hF]; decide
  have hF2 : ¬ ID.F id = 2 := by rw [hF]; decide
  simp only [lk, SingleGroup.lookup, hF0, hF1, hF2, hF, if_false, if_true, TableD.lookup, group,
    mapGet] at h1
  by_cases ha : id = 301001
  · subst ha
    simp at h1; subst h1; simp at h2; subst h2; simp
  · have ha' : ¬ (301001 : Int) = id := fun e => ha e.symm
    simp [ha', List.find?] at h1

theorem good : GoodLookup lk := good_single group

theorem acyclic : Acyclic lk := by
  refine ⟨fun id => if id = 301001 then 1 else 0, fun s ms m hs hm => ?_⟩
  obtain ⟨rfl, rfl⟩ := seq_members hs
  simp only [List.mem_cons, List.not_mem_nil, or_false] at hm
  rcases hm with rfl | rfl <;> decide

theorem mentions {l : List ID} {x : ID} (h : Mentions lk l x) : x ∈ l ∨ x = 1001 ∨ x = 12001 := by
  induction h with
  | here h => exact .inl h
  | deep _ h2 _ ih =>
    obtain ⟨rfl, rfl⟩ := seq_members h2
    rcases ih with ih | ih
    · simp at ih; exact .inr ih
    · exact .inr ih

end ParserExample

/-! ## C32 -/

/-- C32. When no sequence contains itself, Parse terminates on every template. -/
theorem C32_parse_terminates (lk : Lookup) (hg : GoodLookup lk) (hac : Acyclic lk) (ids : List ID) :
    ∃ r, r ≠ .diverge ∧ ∃ N, ∀ fuel, N ≤ fuel → parse lk fuel ids = r := by
  obtain ⟨rank, hr⟩ := hac
  have : ∃ R, ∀ id ∈ ids, rank id < R := by
    clear hg
    induction ids with
    | nil => exact ⟨0, by simp⟩
    | cons a l ih =>
      obtain ⟨R, hR⟩ := ih
      refine ⟨max R (rank a + 1), fun id hid => ?_⟩
      rcases List.mem_cons.mp hid with rfl | h
      · omega
      · have := hR id h; omega
  obtain ⟨R, hR⟩ := this
  have h : Ends fun n => parse lk n ids := by
    have h1 := parseF_ends hg rank hr R _ _ {} ids (fun id h _ => hR id h) (Nat.le_refl _) (Nat.le_refl _)
    have := h1.bindOk (g := fun _ x => .ok (Ast.base rootDescriptor x.1)) fun _ _ _ => .const (by simp)
    simpa only [← parse_eq] using this
  exact h

/-- C32. A template that uses a sequence containing itself is never parsed; when it and the
sequences it uses are made of known elements and sequences, Parse runs forever. -/
theorem C32_parse_diverges (lk : Lookup) (hg : GoodLookup lk) (ids : List ID) (s : ID)
    (hm : Mentions lk ids s) (hc : Cyclic lk s) (fuel : Nat) :
    (parse lk fuel ids).isOk = false ∧
      ((∀ id, Mentions lk ids id → (id.F = 0 ∨ id.F = 3) ∧ ∃ d, lk id = .ok d) →
        parse lk fuel ids = .diverge) := by
  obtain ⟨ms, hs, hself⟩ := hc
  have hnot : ∀ x, parseF lk fuel {} ids ≠ .ok x := by
    rintro ⟨ns, f'⟩ h
    exact derives_acyclic hg.id hm hs hself (parseF_sound hg.id _ _ _ _ _ h)
  constructor
  · rw [parse_eq]
    cases h : parseF lk fuel {} ids with
    | ok x => exact absurd h (hnot x)
    | err | panic | diverge => rfl
  · intro hk
    have plain : ∀ n f l, (∀ id, Mentions lk l id → (id.F = 0 ∨ id.F = 3) ∧ ∃ d, lk id = .ok d) →
        parseF lk n f l = .diverge ∨ ∃ x, parseF lk n f l = .ok x := by
      intro n
      induction n with
      | zero => intro f l _; exact .inl rfl
      | succ n ih =>
        intro f l hl
        cases l with
        | nil => exact .inr ⟨_, rfl⟩
        | cons id r =>
          obtain ⟨hF, d, hd⟩ := hl id (.here (by simp))
          have hrest : ∀ y, Mentions lk r y → (y.F = 0 ∨ y.F = 3) ∧ ∃ d, lk y = .ok d :=
            fun y hy => hl y (mentions_cons.2 (.inr (.inr hy)))
          simp only [parseF, stepF]
          rcases hF with hF | hF
          · rw [if_neg (by omega), if_neg (by omega), if_neg (by omega), if_neg (by omega), if_pos hF]
            cases f.skipLocal with
            | true =>
              simp only [if_true, Outcome.bind_ok]
              rcases ih f r hrest with h | ⟨x, h⟩
              · left; rw [h]; rfl
              · right; rw [h]; exact ⟨_, rfl⟩
            | false =>
              simp only [Bool.false_eq_true, if_false, hd, Outcome.bind_ok]
              rcases ih f r hrest with h | ⟨x, h⟩
              · left; rw [h]; rfl
              · right; rw [h]; exact ⟨_, rfl⟩
          · obtain ⟨e, he⟩ := hg.seq id d hd hF
            simp only [if_pos hF, hd, Outcome.bind_ok, Desc.dentry, he, populateF]
            have hms : ∀ y, Mentions lk e.members y → (y.F = 0 ∨ y.F = 3) ∧ ∃ d, lk y = .ok d :=
              fun y hy => hl y (mentions_cons.2 (.inr (.inl ⟨_, ⟨hF, d, e, hd, he, rfl⟩, hy⟩)))
            rcases ih f e.members hms with h | ⟨x, h⟩
            · left; rw [h]; rfl
            · rw [h]
              simp only [Outcome.bind_ok]
              rcases ih x.2 r hrest with h | ⟨y, h⟩
              · left; rw [h]; rfl
              · right; rw [h]; exact ⟨_, rfl⟩
    rw [parse_eq]
    rcases plain fuel {} ids hk with h | ⟨x, h⟩
    · rw [h]; rfl
    · exact absurd h (hnot x)

/-- Non-vacuity: the example table is good and acyclic; 301002 of the other one contains itself. -/
example : GoodLookup ParserExample.lk ∧ Acyclic ParserExample.lk ∧
    parse TemplateExample.lk 1000 [1001, 301002] = .diverge ∧
    (∀ id, Mentions TemplateExample.lk [1001, 301002] id →
      (id.F = 0 ∨ id.F = 3) ∧ ∃ d, TemplateExample.lk id = .ok d) := by
  have hk : ∀ id, Mentions TemplateExample.lk [1001, 301002] id →
      (id.F = 0 ∨ id.F = 3) ∧ ∃ d, TemplateExample.lk id = .ok d := by
    have : ∀ l x, Mentions TemplateExample.lk l x → (∀ y ∈ l, y = 1001 ∨ y = 301002) →
        x = 1001 ∨ x = 301002 := by
      intro l x h
      induction h with
      | here h => exact fun hl => hl _ h
      | deep h1 h2 _ ih =>
        intro hl
        refine ih fun y hy => ?_
        rcases TemplateExample.seq_members h2 with ⟨rfl, _⟩ | ⟨_, rfl⟩
        · exact absurd (hl _ h1) (by decide)
        · simpa using hy
    intro id h
    rcases this _ _ h (by simp) with rfl | rfl
    · exact ⟨by decide, _, rfl⟩
    · exact ⟨by decide, _, rfl⟩
  have hs : SeqMembers TemplateExample.lk 301002 [1001, 301002] := ⟨by decide, _, _, rfl, rfl, rfl⟩
  exact ⟨ParserExample.good, ParserExample.acyclic,
    (C32_parse_diverges _ (good_single _) _ 301002 (.here (by simp)) ⟨_, hs, .here (by simp)⟩ _).2 hk, hk⟩

/-! ## C34 -/

/-- C34. Parse computes the grammar of Spec/Parser.lean: it succeeds exactly on the templates the
grammar accepts (000000 filled in at the end) and gives the tree of the derivation. -/
theorem C34_parse_iff (lk : Lookup) (hg : GoodLookup lk) (ids : List ID) (ns : List Ast) :
    Parses lk ids ns ↔ Derives lk true {} ids ns {} := parses_iff hg

/-- The tree has no other descriptors than the template and its sequences have their members. -/
def Faithful (ids : List ID) (ns : List Ast) : Prop :=
  spellL ns = ids ∧ ∀ d ms, Ast.sequence d ms ∈ nodesL ns → ∃ e, d.entry = .d e ∧ spellL ms = e.members

/-- C34, the property. -/
def C34_statement : Prop :=
  ∀ (lk : Lookup) (ids : List ID) (ns : List Ast), GoodLookup lk → Parses lk ids ns → Faithful ids ns

/-- C34. The root of every tree is descriptor 0, called Root, which stands for nothing in the template. -/
theorem C34_root (lk : Lookup) (fuel : Nat) (ids : List ID) (t : Ast) (h : parse lk fuel ids = .ok t) :
    ∃ ns, t = .base ⟨0, .r (str "Root")⟩ ns := by
  obtain ⟨ns, _, rfl, _⟩ := parse_ok_iff.1 h
  exact ⟨ns, rfl⟩

/-- C34 is violated: 206008 at the end of a template is given a descriptor 000000 that is not
there. -/
theorem C34_violates : ¬ C34_statement := by
  intro h
  have h1 := h ParserExample.lk [206008]
    [.skipLocal ⟨206008, .c (pad06 206008)⟩ [.element (newLocalDescriptor 0) false]] ParserExample.good
    ⟨3, by rfl⟩
  exact absurd h1.1 (by decide +kernel)

/-- C34. Descriptors 000000 are all that is ever added: nothing is dropped, reordered or
duplicated. -/
theorem C34_only_zeros (lk : Lookup) (hg : GoodLookup lk) (ids : List ID) (ns : List Ast)
    (h : Parses lk ids ns) :
    ids.Sublist (spellL ns) ∧ (spellL ns).filter (· != 0) = ids.filter (· != 0) :=
  derives_padded hg.id ((parses_iff hg).1 h)

theorem faithful_of {lk : Lookup} (hg : GoodLookup lk) {f f' : PFlags} {ids : List ID} {ns : List Ast}
    (h : Derives lk false f ids ns f') : Faithful ids ns := by
  refine ⟨derives_spell hg.id h, fun d ms hm => ?_⟩
  obtain ⟨_, _, e, g, g', he, h1⟩ := derived_sequence hg.id (derives_nodes h _ hm)
  exact ⟨e, he, derives_spell hg.id h1⟩

/-- C34. A tree without an element 000000 is the template, exactly. -/
theorem C34_faithful_partial (lk : Lookup) (hg : GoodLookup lk) (ids : List ID) (ns : List Ast)
    (h : Parses lk ids ns) (h0 : ¬ HasZero ns) : Faithful ids ns :=
  faithful_of hg (derives_complete hg.id ((parses_iff hg).1 h) h0)

/-- C34. With tables that do not define 000000, parsing a template that does not use 206YYY loses
and adds nothing. -/
theorem C34_tables_partial (lk : Lookup) (hg : GoodLookup lk) (h0 : ∀ d, lk 0 ≠ .ok d) (ids : List ID)
    (hu : ¬ Uses206 lk ids) (ns : List Ast) (h : Parses lk ids ns) : Faithful ids ns :=
  faithful_of hg (derives_unpadded hg.id h0 ((parses_iff hg).1 h) rfl hu)

/-- Non-vacuity: a template with a sequence, a replication and an assessment. -/
example : (parse ParserExample.lk 20 [301001, 101000, 31001, 12001, 222000, 236000, 101002, 31031, 1001,
      101002, 33007]).isOk = true ∧ (∀ d, ParserExample.lk 0 ≠ .ok d) ∧
    ¬ Uses206 ParserExample.lk [301001, 101000, 31001, 12001, 222000, 236000, 101002, 31031, 1001,
      101002, 33007] := by
  refine ⟨by decide +kernel, (fun d h => nomatch (show (Outcome.err _ : Outcome Desc) = _ from h)), ?_⟩
  rintro ⟨o, h1, h2⟩
  rcases ParserExample.mentions h1 with h | rfl | rfl
  · simp only [List.mem_cons, List.not_mem_nil, or_false] at h
    rcases h with rfl | rfl | rfl | rfl | rfl | rfl | rfl | rfl | rfl | rfl | rfl <;>
      exact absurd h2 (by decide)
  · exact absurd h2 (by decide)
  · exact absurd h2 (by decide)

/-! ## C35 -/

/-- C35. What Parse gives does not depend on how long it was allowed to run. -/
theorem C35_function (lk : Lookup) (hg : GoodLookup lk) (ids : List ID) (n m : Nat)
    (hn : parse lk n ids ≠ .diverge) (hm : parse lk m ids ≠ .diverge) :
    parse lk n ids = parse lk m ids := by
  have key : ∀ {n m : Nat}, n ≤ m → parse lk n ids ≠ .diverge → parse lk n ids = parse lk m ids := by
    intro n m h hn
    rw [parse_eq] at hn
    rw [parse_eq, parse_eq, parseF_mono hg h]
    intro h'
    rw [h'] at hn
    exact hn rfl
  rcases Nat.le_total n m with h | h
  · exact key h hn
  · exact (key h hm).symm

/-- C35. A template has at most one tree. -/
theorem C35_unique (lk : Lookup) (hg : GoodLookup lk) (ids : List ID) (ns ns' : List Ast)
    (h : Parses lk ids ns) (h' : Parses lk ids ns') : ns = ns' := by
  obtain ⟨n, h⟩ := h
  obtain ⟨m, h'⟩ := h'
  have := C35_function lk hg ids n m (by rw [h]; simp) (by rw [h']; simp)
  rw [h, h'] at this
  cases this
  rfl

/-- Non-vacuity. -/
example : (parse ParserExample.lk 10 [301001]).isOk = true ∧ (parse ParserExample.lk 20 [301001]).isOk = true :=
  ⟨by decide +kernel, by decide +kernel⟩

/-! ## C36 -/

/-- C36, the property: a template with a descriptor that is unknown or not implemented is an
error. Elements covered by 206YYY may be unknown. -/
def C36_statement : Prop :=
  ∀ (lk : Lookup) (ids : List ID) (x : ID), GoodLookup lk → Acyclic lk → x ∈ ids → ¬ LegalId lk x →
    (x.F = 0 → ¬ Uses206 lk ids) → ∃ e N, ∀ fuel, N ≤ fuel → parse lk fuel ids = .err e

/-- C36 is violated: 101001 covers 222000 alone, which crashes the parser before it sees the
unknown 363255. -/
theorem C36_violates : ¬ C36_statement := by
  intro h
  obtain ⟨e, N, hN⟩ := h ParserExample.lk [101001, 222000, 363255] 363255 ParserExample.good
    ParserExample.acyclic (by simp) (fun h => by obtain ⟨⟨d, hd⟩, _⟩ := h; cases hd)
    (fun h => absurd h (by decide))
  have h1 := hN (max N 5) (by omega)
  have h2 : parse ParserExample.lk 5 [101001, 222000, 363255] = .panic "index out of range" := by
    rfl
  have := C35_function _ ParserExample.good _ (max N 5) 5 (by rw [h1]; simp) (by rw [h2]; simp)
  rw [h1, h2] at this
  cases this

/-- C36. A template that mentions, itself or in a sequence it uses, an unknown descriptor, an
operator that is not implemented or an illegal operand never parses; unknown elements are
excused by a 206YYY only. -/
theorem C36_rejected (lk : Lookup) (hg : GoodLookup lk) (ids : List ID) (x : ID)
    (hm : Mentions lk ids x) (hx : ¬ LegalId lk x) (hu : x.F = 0 → ¬ Uses206 lk ids) (fuel : Nat) :
    (parse lk fuel ids).isOk = false := by
  cases h : parse lk fuel ids with
  | ok t =>
    obtain ⟨ns, f', rfl, h1⟩ := parse_ok_iff.1 h
    rcases derives_legal hg.id (parseF_sound hg.id _ _ _ _ _ h1) x hm with h2 | ⟨h2, h3 | h3⟩
    · exact absurd h2 hx
    · cases h3
    · exact absurd h3 (hu h2)
  | err | panic | diverge => rfl

/-- C36. Without assessment operators Parse never crashes. -/
theorem C36_no_panic (lk : Lookup) (hg : GoodLookup lk) (ids : List ID)
    (ha : ∀ op ∈ assessOps, ¬ Mentions lk ids op) (fuel : Nat) : (parse lk fuel ids).isPanic = false := by
  rw [parse_eq]
  cases h : parseF lk fuel {} ids with
  | ok x => rfl
  | err e => rfl
  | panic w => exact absurd h (parseF_calm hg fuel {} ids ha w)
  | diverge => rfl

/-- C36. Without assessment operators such a template ends in an error. -/
theorem C36_error_partial (lk : Lookup) (hg : GoodLookup lk) (hac : Acyclic lk) (ids : List ID) (x : ID)
    (hm : Mentions lk ids x) (hx : ¬ LegalId lk x) (hu : x.F = 0 → ¬ Uses206 lk ids)
    (ha : ∀ op ∈ assessOps, ¬ Mentions lk ids op) :
    ∃ e N, ∀ fuel, N ≤ fuel → parse lk fuel ids = .err e := by
  obtain ⟨r, hr, N, hN⟩ := C32_parse_terminates lk hg hac ids
  have h1 := C36_rejected lk hg ids x hm hx hu N
  have h2 := C36_no_panic lk hg ids ha N
  rw [hN N (Nat.le_refl _)] at h1 h2
  cases r with
  | ok t => cases h1
  | err e => exact ⟨e, N, hN⟩
  | panic w => cases h2
  | diverge => exact absurd rfl hr

/-- Non-vacuity: 241000 is not implemented, 222001 is an illegal operand, 363255 is unknown. -/
example : ¬ LegalId ParserExample.lk 241000 ∧ ¬ LegalId ParserExample.lk 222001 ∧
    ¬ LegalId ParserExample.lk 363255 ∧ ¬ LegalId ParserExample.lk 2002 ∧
    (parse ParserExample.lk 9 [1001, 241000]).isErr = true := by
  refine ⟨?_, ?_, ?_, ?_, by decide +kernel⟩
  · rintro ⟨_, h⟩
    have := h (by decide)
    revert this
    unfold LegalOp
    decide
  · rintro ⟨_, h⟩
    have := h (by decide)
    revert this
    unfold LegalOp
    decide
  · rintro ⟨⟨d, h⟩, _⟩; cases h
  · rintro ⟨⟨d, h⟩, _⟩; cases h

/-! ## C37 -/

/-- C37. 1XXYYY covers exactly the next XX descriptors. -/
theorem C37_fixed (lk : Lookup) (hg : GoodLookup lk) (id : ID) (d : Desc) (hd : lk id = .ok d)
    (hF : id.F = 1) (hY : id.Y ≠ 0) (body rest : List ID) (hX : id.X = body.length) (ns : List Ast) :
    Parses lk (id :: (body ++ rest)) ns ↔
      ∃ ms ns', Parses lk body ms ∧ Parses lk rest ns' ∧ ns = .fixedRepl d ms :: ns' := by
  simp only [parses_iff hg]
  constructor
  · intro h
    generalize hl : id :: (body ++ rest) = l at h
    cases h with
    | nil => cases hl
    | leaf hl' =>
      cases hl
      rcases leaf_F hl' with h | h <;> omega
    | sequence h => cases hl; omega
    | @scope f f₁ f' id' d' n j mk fin fout body' rest' ms ns hs hd' hn hj h1 h2 =>
      obtain ⟨rfl, hl2⟩ := List.cons.inj hl
      rw [hd] at hd'; cases hd'
      cases hs with
      | fixed _ _ hX' =>
        have hlen : body.length = n := by omega
        have hb : body' = body ∧ rest' = rest := by
          have hll := congrArg List.length hl2
          simp only [List.length_append, List.length_cons] at hll hlen
          have : body'.length = body.length := by
            rcases hj with rfl | ⟨_, rfl⟩
            · omega
            · simp only [List.length_nil] at hll; omega
          exact List.append_inj hl2.symm this
        obtain ⟨rfl, rfl⟩ := hb
        have : j = 0 := by omega
        subst this
        simp at h1
        have hf := flagsLe_clear (derives_flags h1)
        subst hf
        exact ⟨_, _, h1, h2, rfl⟩
      | delayed _ h => exact absurd h hY
      | assocField h => have := F_of_operator h (by decide) (by decide); omega
      | skipLocal h => have := F_of_operator h (by decide) (by decide); omega
      | dataNotPresent h => have := F_of_operator h (by decide) (by decide); omega
    | newRefval h => cases hl; have := F_of_operator h (by decide) (by decide); omega
    | bitmap hb =>
      subst hl
      cases hb with
      | recall => exact absurd hF (by decide)
      | define => exact absurd hF (by decide)
    | assessment ha => cases hl; have := assess_F ha; omega
  · rintro ⟨ms, ns', h1, h2, rfl⟩
    exact .scope (j := 0) (.fixed hF hY hX) hd (by simp) (.inl rfl) (by simpa using h1) h2

/-- C37. 1XX000 covers its factor and the next XX descriptors. -/
theorem C37_delayed (lk : Lookup) (hg : GoodLookup lk) (id factor : ID) (d : Desc) (hd : lk id = .ok d)
    (hF : id.F = 1) (hY : id.Y = 0) (body rest : List ID) (hX : id.X = body.length) (ns : List Ast) :
    Parses lk (id :: factor :: (body ++ rest)) ns ↔
      ∃ ms ns', Parses lk (factor :: body) ms ∧ Parses lk rest ns' ∧ ns = .delayedRepl d ms :: ns' := by
  simp only [parses_iff hg]
  constructor
  · intro h
    generalize hl : id :: factor :: (body ++ rest) = l at h
    cases h with
    | nil => cases hl
    | leaf hl' =>
      cases hl
      rcases leaf_F hl' with h | h <;> omega
    | sequence h => cases hl; omega
    | @scope f f₁ f' id' d' n j mk fin fout body' rest' ms ns hs hd' hn hj h1 h2 =>
      obtain ⟨rfl, hl2⟩ := List.cons.inj hl
      rw [← List.cons_append] at hl2
      rw [hd] at hd'; cases hd'
      cases hs with
      | fixed _ h => exact absurd hY h
      | @delayed n _ _ hX' =>
        have hlen : (factor :: body).length = n + 1 := by simp; omega
        have hb : body' = factor :: body ∧ rest' = rest := by
          have hll := congrArg List.length hl2
          simp only [List.length_append, List.length_cons] at hll hlen
          have : body'.length = (factor :: body).length := by
            simp only [List.length_cons]
            rcases hj with rfl | ⟨_, rfl⟩
            · omega
            · simp only [List.length_nil] at hll; omega
          exact List.append_inj hl2.symm this
        obtain ⟨rfl, rfl⟩ := hb
        have : j = 0 := by omega
        subst this
        simp at h1
        have hf := flagsLe_clear (derives_flags h1)
        subst hf
        exact ⟨_, _, h1, h2, rfl⟩
      | assocField h => have := F_of_operator h (by decide) (by decide); omega
      | skipLocal h => have := F_of_operator h (by decide) (by decide); omega
      | dataNotPresent h => have := F_of_operator h (by decide) (by decide); omega
    | newRefval h => cases hl; have := F_of_operator h (by decide) (by decide); omega
    | bitmap hb =>
      subst hl
      cases hb with
      | recall => exact absurd hF (by decide)
      | define => exact absurd hF (by decide)
    | assessment ha => cases hl; have := assess_F ha; omega
  · rintro ⟨ms, ns', h1, h2, rfl⟩
    exact .scope (j := 0) (body := factor :: body) (.delayed hF hY hX) hd (by simp) (.inl rfl)
      (by simpa using h1) h2

/-- C37. Wherever it stands in the tree, the node of a replication is made of exactly XX, or one
and XX, descriptors, and unless 000000 was filled in it spells exactly as many. -/
theorem C37_nodes (lk : Lookup) (hg : GoodLookup lk) (ids : List ID) (ns : List Ast)
    (h : Parses lk ids ns) :
    (∀ d ms, Ast.fixedRepl d ms ∈ nodesL ns → (∃ body f f', d.id.X = (body.length : Nat) ∧
        Derives lk true f body ms f') ∧ (¬ HasZero ns → (spellL ms).length = d.id.X)) ∧
    (∀ d ms, Ast.delayedRepl d ms ∈ nodesL ns → (∃ body f f', d.id.X + 1 = (body.length : Nat) ∧
        Derives lk true f body ms f') ∧ (¬ HasZero ns → (spellL ms).length = d.id.X + 1)) := by
  have hd := (parses_iff hg).1 h
  constructor
  · intro d ms hm
    constructor
    · obtain ⟨_, _, _, body, j, f, f', h1, h2, h3⟩ := derived_fixed hg.id (derives_nodes hd _ hm)
      exact ⟨_, f, f', by simpa using h1, h3⟩
    · intro h0
      obtain ⟨_, _, _, body, j, f, f', h1, h2, h3⟩ :=
        derived_fixed hg.id (derives_nodes (derives_complete hg.id hd h0) _ hm)
      have : j = 0 := h2.resolve_right (by simp)
      subst this
      rw [derives_spell hg.id h3]
      simpa using h1.symm
  · intro d ms hm
    constructor
    · obtain ⟨_, _, _, body, j, f, f', h1, h2, h3⟩ := derived_delayed hg.id (derives_nodes hd _ hm)
      exact ⟨_, f, f', by simpa using h1, h3⟩
    · intro h0
      obtain ⟨_, _, _, body, j, f, f', h1, h2, h3⟩ :=
        derived_delayed hg.id (derives_nodes (derives_complete hg.id hd h0) _ hm)
      have : j = 0 := h2.resolve_right (by simp)
      subst this
      rw [derives_spell hg.id h3]
      simpa using h1.symm

/-- Non-vacuity: 102000 031001 (001001 012001) 012001. -/
example : (∃ d, ParserExample.lk 102000 = .ok d) ∧ ID.F 102000 = 1 ∧ ID.X 102000 = ([1001, 12001] : List ID).length ∧
    (parse ParserExample.lk 9 [102000, 31001, 1001, 12001, 12001]).isOk = true :=
  ⟨⟨_, rfl⟩, by decide, by decide, by decide +kernel⟩

/-! ## C38 -/

/-- C38. In whatever state the parser is, after it went through some descriptors its flags are
what they were or cleared. -/
theorem C38_flags (lk : Lookup) (hg : GoodLookup lk) (fuel : Nat) (s s' : PSt) (ns : List Ast)
    (h : processThrough lk fuel s = (.ok ns, s')) : FlagsLe s'.flags s.flags := by
  have hs := parseF_sim lk fuel s
  cases hp : parseF lk fuel s.flags s.k.rest with
  | ok x =>
    rw [hp] at hs
    obtain ⟨s'', h1, h2⟩ := hs
    rw [h] at h1
    simp only [Prod.mk.injEq, Outcome.ok.injEq] at h1
    obtain ⟨_, rfl⟩ := h1
    rw [h2]
    exact derives_flags (parseF_sound hg.id _ _ _ _ _ hp)
  | err e => rw [hp] at hs; obtain ⟨_, h1⟩ := hs; rw [h] at h1; cases h1
  | panic w => rw [hp] at hs; obtain ⟨_, h1⟩ := hs; rw [h] at h1; cases h1
  | diverge => rw [hp] at hs; obtain ⟨_, h1⟩ := hs; rw [h] at h1; cases h1

/-- C38. Elements that are not below a 206YYY have their descriptor from the tables. -/
theorem C38_local_confined (lk : Lookup) (hg : GoodLookup lk) (ids : List ID) (ns : List Ast)
    (h : Parses lk ids ns) : ∀ n ∈ outsideL ns, KnownElement lk n :=
  derives_outside hg.id ((parses_iff hg).1 h) rfl

/-- Non-vacuity: 002002 is unknown to the tables; covered by 206008 it is accepted, the 012001
after it is from the tables. -/
example : (parse ParserExample.lk 9 [206008, 2002, 12001]).isOk = true ∧
    (parse ParserExample.lk 9 [206008, 2002, 2002]).isErr = true := by decide +kernel

/-! ## C39 (the parser's half) -/

/-- C39. The parser never marks an element as not present, below 221YYY or elsewhere. -/
theorem C39_never_marked (lk : Lookup) (hg : GoodLookup lk) (ids : List ID) (ns : List Ast)
    (h : Parses lk ids ns) (d : Desc) (np : Bool) (hn : Ast.element d np ∈ nodesL ns) : np = false :=
  derived_element (derives_nodes ((parses_iff hg).1 h) _ hn)

/-- Non-vacuity: 221001 and the 012001 it covers. -/
example : Parses ParserExample.lk [221001, 12001] [.dataNotPresent ⟨221001, .c (pad06 221001)⟩
    [.element ⟨12001, .b default⟩ false]] := ⟨9, by rfl⟩

/-! ## C40 -/

/-- C40, the property: in a template that parses every scope is complete. -/
def C40_statement : Prop :=
  ∀ (lk : Lookup) (ids : List ID) (ns : List Ast), GoodLookup lk → Parses lk ids ns →
    ∃ f', Derives lk false {} ids ns f'

/-- C40 is violated: 206008 without the descriptor it covers is accepted. -/
theorem C40_violates : ¬ C40_statement := by
  intro h
  obtain ⟨f', h1⟩ := h ParserExample.lk [206008]
    [.skipLocal ⟨206008, .c (pad06 206008)⟩ [.element (newLocalDescriptor 0) false]] ParserExample.good
    ⟨3, by rfl⟩
  exact absurd (derives_spell ParserExample.good.id h1) (by decide +kernel)

/-- C40. With tables that do not define 000000, in a template that parses and does not use 206YYY
every scope is complete. -/
theorem C40_complete_partial (lk : Lookup) (hg : GoodLookup lk) (h0 : ∀ d, lk 0 ≠ .ok d)
    (ids : List ID) (hu : ¬ Uses206 lk ids) (ns : List Ast) (h : Parses lk ids ns) :
    Derives lk false {} ids ns {} :=
  derives_unpadded hg.id h0 ((parses_iff hg).1 h) rfl hu

theorem scope_needs {lk : Lookup} (hid : ∀ id d, lk id = .ok d → d.id = id) {rf : RecF} {f : PFlags}
    {id : ID} {d : Desc} {n : Nat} {mk : List Ast → Ast} {fin fout : PFlags → PFlags} {r : List ID}
    {x : Ast × PFlags × List ID} (hs : Scope id d n mk fin fout) (hd : lk id = .ok d)
    (h : stepF lk rf f id r = .ok x) : ∃ y, rf (fin f) (scopeN n r) = .ok y := by
  have hdi := hid _ _ hd
  have key : ∀ (k : Int) {x}, k = n → scopeF rf (fin f) k mk r = .ok x →
      ∃ y, rf (fin f) (scopeN n r) = .ok y := by
    intro k x hk h
    unfold scopeF at h
    rw [if_neg (by omega)] at h
    have : k.toNat = n := by omega
    rw [this] at h
    simp only [populateF, Outcome.bind_eq_ok] at h
    obtain ⟨y, h1, _⟩ := h
    exact ⟨y, h1⟩
  cases hs with
  | fixed hF hY hX =>
    unfold stepF at h
    rw [if_neg (by omega), if_neg (fun h => hY h.2), if_pos hF, hd] at h
    simp only [Outcome.bind_ok, hdi] at h
    exact key _ hX h
  | delayed hF hY hX =>
    unfold stepF at h
    rw [if_neg (by omega), if_pos ⟨hF, hY⟩, hd] at h
    simp only [Outcome.bind_ok, hdi] at h
    exact key _ (by omega) h
  | assocField ho hY =>
    rw [operator_cases ho (by decide) (by decide) hd] at h
    simp only [operatorF, hdi, ho] at h
    exact key 1 rfl (by simpa [hY] using h)
  | skipLocal ho =>
    rw [operator_cases ho (by decide) (by decide) hd] at h
    simp only [operatorF, hdi, ho] at h
    simp [thenFlags, Outcome.bind_eq_ok] at h
    obtain ⟨_, _, _, h1, _⟩ := h
    exact key 1 rfl h1
  | dataNotPresent ho hY =>
    rw [operator_cases ho (by decide) (by decide) hd] at h
    simp only [operatorF, hdi, ho] at h
    simp [thenFlags, Outcome.bind_eq_ok] at h
    obtain ⟨_, _, _, h1, _⟩ := h
    exact key _ hY h1

/-- C40. So a replication, 204YYY or 221YYY followed by fewer descriptors than it covers is
rejected. -/
theorem C40_truncated_partial (lk : Lookup) (hg : GoodLookup lk) (h0 : ∀ d, lk 0 ≠ .ok d)
    (id : ID) (d : Desc) (n : Nat) (mk : List Ast → Ast) (fin fout : PFlags → PFlags)
    (hs : Scope id d n mk fin fout) (hd : lk id = .ok d) (body : List ID) (hb : body.length < n)
    (hu : ¬ Uses206 lk (id :: body)) (fuel : Nat) : (parse lk fuel (id :: body)).isOk = false := by
  cases h : parse lk fuel (id :: body) with
  | err | panic | diverge => rfl
  | ok t =>
    exfalso
    obtain ⟨ns, f', rfl, h1⟩ := parse_ok_iff.1 h
    cases fuel with
    | zero => cases h1
    | succ fuel =>
      simp only [parseF, Outcome.bind_eq_ok] at h1
      obtain ⟨x, h1, _⟩ := h1
      obtain ⟨⟨ms, f₁⟩, h2⟩ := scope_needs hg.id hs hd h1
      have h3 := parseF_sound hg.id _ _ _ _ _ h2
      have hz : (0 : ID) ∈ scopeN n body := by
        unfold scopeN
        exact List.mem_append_right _ (List.mem_replicate.2 ⟨by omega, rfl⟩)
      have hsk : (fin {}).skipLocal = false := by
        cases hs with
        | skipLocal h => exact absurd ⟨id, .here (by simp), h⟩ hu
        | _ => rfl
      rcases derives_legal hg.id h3 0 (.here hz) with h4 | ⟨_, h4 | ⟨o, h4, h5⟩⟩
      · obtain ⟨d, hd⟩ := h4.1; exact h0 d hd
      · rw [hsk] at h4; cases h4
      · refine hu ⟨o, mentions_cons.2 (.inr (.inr ?_)), h5⟩
        have : ∀ y ∈ scopeN n body, y ∈ body ∨ y = 0 := by
          intro y hy
          unfold scopeN at hy
          rcases List.mem_append.1 hy with hy | hy
          · exact .inl (List.mem_of_mem_take hy)
          · exact .inr (List.eq_of_mem_replicate hy)
        cases h4 with
        | here h4 =>
          rcases this _ h4 with h | rfl
          · exact .here h
          · exact absurd h5 (by decide)
        | deep h4 h6 h7 =>
          rcases this _ h4 with h | rfl
          · exact .deep h h6 h7
          · exact absurd h6.1 (by decide)

/-- Non-vacuity: 102002 followed by one descriptor. -/
example : Scope 102002 ⟨102002, .r (pad06 102002)⟩ 2 (.fixedRepl ⟨102002, .r (pad06 102002)⟩)
      (fun f => f) (fun f => f) ∧ ParserExample.lk 102002 = .ok ⟨102002, .r (pad06 102002)⟩ ∧
    ¬ Uses206 ParserExample.lk [102002, 1001] ∧ (parse ParserExample.lk 9 [102002, 1001]).isErr = true := by
  refine ⟨.fixed (by decide) (by decide) (by decide), rfl, ?_, by decide +kernel⟩
  rintro ⟨o, h1, h2⟩
  rcases ParserExample.mentions h1 with h | rfl | rfl
  · simp only [List.mem_cons, List.not_mem_nil, or_false] at h
    rcases h with rfl | rfl <;> exact absurd h2 (by decide)
  · exact absurd h2 (by decide)
  · exact absurd h2 (by decide)

/-! ## C41 -/

/-- The parts of a template that starts with an assessment operator. -/
structure AssessParts (lk : Lookup) (op : ID) (l : List ID) (bd : Option Desc)
    (bids aids mids rest : List ID) : Prop where
  split : ∃ attrP memP l₁ l₂, Assess op attrP memP ∧ BitmapIds lk l bd bids l₁ ∧ Till attrP l₁ aids l₂ ∧
    Until memP l₂ mids rest

/-- C41. An assessment operator takes its bitmap, the attributes before its class 33 or marker
descriptors, and those; nothing gets lost and the order is kept. -/
theorem C41_node (lk : Lookup) (hg : GoodLookup lk) (op : ID) (hop : op ∈ assessOps) (d : Desc)
    (hd : lk op = .ok d) (l : List ID) (ns : List Ast) :
    Parses lk (op :: l) ns ↔ ∃ bd bids aids mids rest bms as ms ns',
      AssessParts lk op l bd bids aids mids rest ∧ Parses lk bids bms ∧ Parses lk aids as ∧
      Parses lk mids ms ∧ Parses lk rest ns' ∧ ns = .assessment d (.bitmap bd bms) as ms :: ns' := by
  simp only [parses_iff hg]
  have hF : op.F = 2 ∧ op.Operator ∈ [222, 223, 224, 225, 232] ∧ op.Y = 0 := by
    simp only [assessOps, List.mem_cons, List.not_mem_nil, or_false] at hop
    rcases hop with rfl | rfl | rfl | rfl | rfl <;> decide
  obtain ⟨hF, hO, hY⟩ := hF
  have hno : ∀ k, op.Operator = k → k ∉ [222, 223, 224, 225, 232] → False := fun k h h' => h' (h ▸ hO)
  constructor
  · intro h
    generalize hl : op :: l = l' at h
    cases h with
    | nil => cases hl
    | leaf hl' =>
      obtain ⟨rfl, rfl⟩ := List.cons.inj hl
      cases hl' with
      | element _ h => omega
      | unknown _ h => omega
      | e031021 => exact absurd hF (by decide)
      | unknown031021 => exact absurd hF (by decide)
      | marker h => rcases h with rfl | rfl | rfl | rfl <;> exact absurd hY (by decide)
      | nbitsOffset h => exact (hno _ h (by decide)).elim
      | scaleOffset h => exact (hno _ h (by decide)).elim
      | refvalEnd h => exact (hno _ h (by decide)).elim
      | assocEnd h => exact (hno _ h (by decide)).elim
      | insertString h => exact (hno _ h (by decide)).elim
      | modifyPacking h => exact (hno _ h (by decide)).elim
      | setStringLength h => exact (hno _ h (by decide)).elim
      | cancelBackRef h => exact (hno _ h (by decide)).elim
      | cancelBitmap h => exact (hno _ h (by decide)).elim
    | sequence h => obtain ⟨rfl, rfl⟩ := List.cons.inj hl; omega
    | scope hs =>
      obtain ⟨rfl, hl⟩ := List.cons.inj hl
      cases hs with
      | fixed h => omega
      | delayed h => omega
      | assocField h => exact (hno _ h (by decide)).elim
      | skipLocal h => exact (hno _ h (by decide)).elim
      | dataNotPresent h => exact (hno _ h (by decide)).elim
    | newRefval h => obtain ⟨rfl, rfl⟩ := List.cons.inj hl; exact (hno _ h (by decide)).elim
    | bitmap hb =>
      subst hl
      cases hb with
      | recall => exact absurd hop (by decide)
      | define => exact absurd hop (by decide)
    | assessment ha hd' hb h1 ht h2 hu h3 h4 =>
      obtain ⟨rfl, rfl⟩ := List.cons.inj hl
      rw [hd] at hd'; cases hd'
      have e1 := flagsLe_clear (derives_flags h1)
      subst e1
      have e2 := flagsLe_clear (derives_flags h2)
      subst e2
      have e3 := flagsLe_clear (derives_flags h3)
      subst e3
      exact ⟨_, _, _, _, _, _, _, _, _, ⟨_, _, _, _, ha, hb, ht, hu⟩, h1, h2, h3, h4, rfl⟩
  · rintro ⟨bd, bids, aids, mids, rest, bms, as, ms, ns', ⟨ap, mp, l₁, l₂, ha, hb, ht, hu⟩, h1, h2, h3, h4, rfl⟩
    exact .assessment ha hd hb h1 ht h2 hu h3 h4

/-- C41. The parts are the whole: put together they are what follows the operator. -/
theorem C41_parts (lk : Lookup) (hg : GoodLookup lk) (op : ID) (l : List ID) (bd : Option Desc)
    (bids aids mids rest : List ID) (h : AssessParts lk op l bd bids aids mids rest) :
    l = (bd.map Desc.id).toList ++ bids ++ aids ++ mids ++ rest := by
  obtain ⟨ap, mp, l₁, l₂, ha, hb, ht, hu⟩ := h.split
  rw [bitmap_append hg.id hb, till_append ht, until_append hu]
  simp [List.append_assoc]

/-- C41, the last part of the property: a template that ends right after an assessment operator
is rejected without a crash. -/
def C41_end_statement : Prop :=
  ∀ (lk : Lookup) (op : ID) (fuel : Nat), GoodLookup lk → op ∈ assessOps →
    (parse lk fuel [op]).isPanic = false

/-- C41. A template that ends right after an assessment operator crashes the parser. -/
theorem C41_end_panics (lk : Lookup) (hg : GoodLookup lk) (op : ID) (hop : op ∈ assessOps) (d : Desc)
    (hd : lk op = .ok d) (fuel : Nat) : (parse lk (fuel + 1) [op]).isPanic = true := by
  have key : ∀ k, op.Operator = k → 200 ≤ k → k < 300 →
      stepF lk (parseF lk fuel) {} op [] = operatorF lk (parseF lk fuel) {} d op [] :=
    fun k h h1 h2 => operator_cases h h1 h2 hd
  have hdi := hg.id _ _ hd
  rw [parse_eq]
  simp only [parseF]
  simp only [assessOps, List.mem_cons, List.not_mem_nil, or_false] at hop
  rcases hop with rfl | rfl | rfl | rfl | rfl
  · rw [key 222 (by decide) (by decide) (by decide)]
    simp [operatorF, hdi, show ID.Operator 222000 = 222 by decide, assessF, bitmapF, Outcome.isPanic]
  · rw [key 223 (by decide) (by decide) (by decide)]
    simp [operatorF, hdi, show ID.Operator 223000 = 223 by decide, markedF, assessF, bitmapF, Outcome.isPanic]
  · rw [key 224 (by decide) (by decide) (by decide)]
    simp [operatorF, hdi, show ID.Operator 224000 = 224 by decide, markedF, assessF, bitmapF, Outcome.isPanic]
  · rw [key 225 (by decide) (by decide) (by decide)]
    simp [operatorF, hdi, show ID.Operator 225000 = 225 by decide, markedF, assessF, bitmapF, Outcome.isPanic]
  · rw [key 232 (by decide) (by decide) (by decide)]
    simp [operatorF, hdi, show ID.Operator 232000 = 232 by decide, markedF, assessF, bitmapF, Outcome.isPanic]

/-- C41 is violated by every assessment operator at the end of a template. -/
theorem C41_end_violates : ¬ C41_end_statement := by
  intro h
  have h1 := h ParserExample.lk 222000 1 ParserExample.good (by simp [assessOps])
  rw [C41_end_panics _ ParserExample.good 222000 (by simp [assessOps]) _ rfl 0] at h1
  cases h1

/-- Non-vacuity: quality information 222000 236000 101002 031031 001001 101002 033007. -/
example : AssessParts ParserExample.lk 222000 [236000, 101002, 31031, 1001, 101002, 33007]
    (some ⟨236000, .c (pad06 236000)⟩) [101002, 31031] [1001] [101002, 33007] [] := by
  refine ⟨_, _, [1001, 101002, 33007], [101002, 33007], .qaInfo, .define rfl ?_, ?_, ?_⟩
  · exact ⟨[101002], [31031], rfl, rfl, by decide, by decide, by simp, by simp⟩
  · exact ⟨rfl, by decide, by decide⟩
  · exact ⟨[101002], [33007], rfl, rfl, by decide, by decide, by simp, by simp⟩

end Gobufr
