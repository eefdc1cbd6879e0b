import Verif.Proofs.Template
import Verif.Proofs.Walk
import Verif.Props.Table

/-!
# Properties of template expansion, walking and dumping (C28-C33)
-/

set_option linter.unusedSimpArgs false

namespace Gobufr
open TemplateSpec

/-! ## The real table groups are good lookups -/

theorem good_single (g : SingleGroup) : GoodLookup g.lookup where
  total id := by
    rcases C21_total g id with h | h
    · left; cases hl : g.lookup id <;> simp_all [Outcome.isOk]
    · right; cases hl : g.lookup id <;> simp_all [Outcome.isErr]
  id id d h := (C21_lookup_id g id d h).1
  seq id d h := (C21_lookup_id g id d h).2.2

theorem chain_total (gs : List Lookup) (hg : ∀ g ∈ gs, GoodLookup g) (id : ID) :
    (∃ d, chainLookup gs id = .ok d) ∨ (∃ e, chainLookup gs id = .err e) := by
  induction gs with
  | nil => right; exact ⟨_, rfl⟩
  | cons g gs ih =>
    have ih := ih fun x hx => hg x (by simp [hx])
    rcases (hg g (by simp)).total id with ⟨d, hd⟩ | ⟨e, he⟩
    · left; exact ⟨d, by simp [chainLookup, hd]⟩
    · simpa [chainLookup, he] using ih

theorem good_chain (c : ChainGroup) : GoodLookup c.lookup where
  total id := chain_total _ (by simp; exact fun g _ => good_single g) id
  id id d h := (C21_chain_lookup_id c id d h).1
  seq id d h := (C21_chain_lookup_id c id d h).2.2

/-! ## A small table for the examples -/

namespace TemplateExample

/-- 301001 = (001001, 102002, 012001, 201132); 301002 contains itself. -/
def group : SingleGroup where
  b := { path := [], entries := [(1001, default), (12001, default), (31001, default)] }
  d := { path := [], entries := [(301001, ⟨str "S", [1001, 102002, 12001, 201132]⟩),
                     (301002, ⟨str "T", [1001, 301002]⟩)] }

abbrev lk : Lookup := group.lookup

theorem seq_members {id : ID} {ms : List ID} (h : SeqMembers lk id ms) :
    id = 301001 ∧ ms = [1001, 102002, 12001, 201132] ∨ id = 301002 ∧ ms = [1001, 301002] := by
  obtain ⟨hF, d, e, h1, h2, rfl⟩ := h
  have hF0 : ¬ ID.F id = 0 := by rw [hF]; decide
  have hF1 : ¬ ID.F id = 1 := by rw [hF]; decide
  have hF2 : ¬ ID.F id = 2 := by rw [hF]; decide
  simp only [lk, SingleGroup.lookup, hF0, hF1, hF2, hF, if_false, if_true, TableD.lookup, group,
    mapGet] at h1
  by_cases ha : id = 301001
  · subst ha; left
    simp at h1; subst h1; simp at h2; subst h2; simp
  · by_cases hb : id = 301002
    · subst hb; right
      simp at h1; subst h1; simp at h2; subst h2; simp
    · have ha' : ¬ (301001 : Int) = id := fun e => ha e.symm
      have hb' : ¬ (301002 : Int) = id := fun e => hb e.symm
      simp [ha', hb', List.find?] at h1

theorem nested_tables : NestedTables lk := by
  intro id ms h
  rcases seq_members h with ⟨_, rfl⟩ | ⟨_, rfl⟩
  · exact .plain (by decide) (.fixed (body := [12001, 201132]) (rest := []) (by decide) (by decide)
      (by decide) (.plain (by decide) (.plain (by decide) .nil)) .nil)
  · exact .plain (by decide) (.plain (by decide) .nil)

end TemplateExample

/-! ## C28 -/

/-- C28. Expand succeeds exactly when every descriptor the template uses is known. -/
theorem C28_expand_iff (lk : Lookup) (hg : GoodLookup lk) (ht : NestedTables lk)
    (hac : Acyclic lk) (ids : List ID) (hn : Nested ids) :
    (∃ fuel ts, expand lk fuel (.exact ids) = .ok ts) ↔
      ∀ id, Mentions lk ids id → ∃ d, lk id = .ok d := by
  constructor
  · rintro ⟨fuel, ts, h⟩ id hm
    have := expand_explained lk hg ht fuel ids hn [] []
    rw [← exact_eq_mid] at this
    simp only [List.length_nil] at this
    rw [expand] at h
    rw [h] at this
    exact expands_mentions ht hm this hn
  · intro hk
    obtain ⟨rank, hr⟩ := hac
    have : ∃ R, ∀ id ∈ ids, rank id < R := by
      clear hn hk
      induction ids with
      | nil => exact ⟨0, by simp⟩
      | cons a l ih =>
        obtain ⟨R, hR⟩ := ih
        refine ⟨max R (rank a + 1), fun id hid => ?_⟩
        rcases List.mem_cons.mp hid with rfl | h
        · omega
        · have := hR id h; omega
    obtain ⟨R, hR⟩ := this
    obtain ⟨ts, hts⟩ := expands_exists_acyclic hg ht rank hr R ids hn hR hk
    obtain ⟨N, hN⟩ := expand_complete lk hg hts
    refine ⟨N, ts, ?_⟩
    rw [expand, exact_eq_mid]
    exact hN N (Nat.le_refl _) [] []

theorem flats_append (a b : List TNode) : flats (a ++ b) = flats a ++ flats b := by
  induction a with
  | nil => simp [flats]
  | cons n a ih => simp [flats, ih]

theorem expands_flat {lk : Lookup} (hg : GoodLookup lk) {ids : List ID} {ts : List TNode}
    (h : Expands lk ids ts) : flats ts = ids ∧ seqsOks ts := by
  induction h with
  | nil => simp [flats, seqsOks]
  | @plain id d rest ts hlk hF1 hF3 _ ih =>
    have := hg.id _ _ hlk
    simp [flats, flat, seqsOks, seqsOk, this, hF1, hF3, ih]
  | @seq id d e rest ms ts hlk hF3 he _ _ ih1 ih2 =>
    have := hg.id _ _ hlk
    simp [flats, flat, seqsOks, seqsOk, this, hF3, he, ih1, ih2]
  | @fixed id d body rest ms ts hlk hF hY hX _ _ ih1 ih2 =>
    have := hg.id _ _ hlk
    simp [flats, flat, seqsOks, seqsOk, this, hF, ih1, ih2]
  | @delayed id f d df body rest ms ts hlk hF hY hf hX _ _ ih1 ih2 =>
    have := hg.id _ _ hlk
    have hf' := hg.id _ _ hf
    simp [flats, flat, seqsOks, seqsOk, this, hF, ih1, ih2, hf']

/-- C28. Flattening the expanded tree gives the template back, and below each sequence are
exactly its table D members. -/
theorem C28_faithful (lk : Lookup) (hg : GoodLookup lk) (ht : NestedTables lk)
    (ids : List ID) (hn : Nested ids) (fuel : Nat) (ts : List TNode)
    (h : expand lk fuel (.exact ids) = .ok ts) :
    flats ts = ids ∧ seqsOks ts ∧ Expands lk ids ts := by
  have := expand_explained lk hg ht fuel ids hn [] []
  rw [← exact_eq_mid] at this
  simp only [List.length_nil] at this
  rw [expand] at h
  rw [h] at this
  exact ⟨(expands_flat hg this).1, (expands_flat hg this).2, this⟩

/-- C28. On a well nested template Expand never panics, and an error is that of the lookup of
a descriptor the template uses. -/
theorem C28_failure (lk : Lookup) (hg : GoodLookup lk) (ht : NestedTables lk)
    (ids : List ID) (hn : Nested ids) (fuel : Nat) :
    (expand lk fuel (.exact ids)).isPanic = false ∧
    ∀ e, expand lk fuel (.exact ids) = .err e → ∃ id, Mentions lk ids id ∧ lk id = .err e := by
  have := expand_explained lk hg ht fuel ids hn [] []
  rw [← exact_eq_mid] at this
  simp only [List.length_nil] at this
  rw [expand]
  revert this
  cases expandLoop lk fuel (IdSlice.exact ids) 0 <;> simp [Explained, Outcome.isPanic]

/-- C28. The expansion is the specified one whenever there is one. -/
theorem C28_complete (lk : Lookup) (hg : GoodLookup lk) (ids : List ID) (ts : List TNode)
    (h : Expands lk ids ts) : ∃ N, ∀ fuel, N ≤ fuel → expand lk fuel (.exact ids) = .ok ts := by
  obtain ⟨N, hN⟩ := expand_complete lk hg h
  refine ⟨N, fun fuel hf => ?_⟩
  rw [expand, exact_eq_mid]
  exact hN fuel hf [] []

/-- Non-vacuity: a template with a sequence and a delayed replication around it. -/
example : GoodLookup TemplateExample.lk ∧ NestedTables TemplateExample.lk ∧
    Nested [1001, 102000, 31001, 301001, 12001] ∧
    ∃ ts, expand TemplateExample.lk 20 (.exact [1001, 102000, 31001, 301001, 12001]) = .ok ts := by
  refine ⟨good_single _, TemplateExample.nested_tables, ?_, ⟨_, rfl⟩⟩
  exact .plain (by decide) (.delayed (body := [301001, 12001]) (rest := []) (by decide) (by decide)
    (by decide) (by decide) (.plain (by decide) (.plain (by decide) .nil)) .nil)

/-! ## C29 -/

/-- C29. The events of a walk are properly bracketed, whatever the factors. -/
theorem C29_bracketed (ms : List TNode) (ins : Option (List Int)) (s : WalkSt)
    (h : walkTemplate ms ⟨[], ins⟩ = (.ok ⟨⟩, s)) : bracketed [] s.outs = true := by
  obtain ⟨es, i'⟩ := s
  simp only [walkTemplate] at h
  rw [M.bind_ok (emit_apply _ _), M.bind_eq_ok] at h
  obtain ⟨_, ⟨o, i⟩, h1, h2⟩ := h
  obtain ⟨b, rfl, hb⟩ := (walkNodes_follows ms _ _ _ _).mp h1
  rw [emit_apply] at h2
  simp at h2
  obtain ⟨rfl, rfl⟩ := h2
  have := neutral_nodes ms _ _ _ hb
  simp [bracketed, opens, closes, this _ _]

/-- C29. Without factor channel the walk always completes, and its events determine the
template. -/
theorem C29_events_determine (ms ms' : List TNode) (hs : sanes ms) (hs' : sanes ms') :
    ∃ s s', walkTemplate ms ⟨[], none⟩ = (.ok ⟨⟩, s) ∧ walkTemplate ms' ⟨[], none⟩ = (.ok ⟨⟩, s') ∧
      (s.outs = s'.outs → ms = ms') := by
  have key : ∀ ms : List TNode, ∃ b, WalksL ms none b none ∧
      walkTemplate ms ⟨[], none⟩ = (.ok ⟨⟩, ⟨[.beginTemplate] ++ b ++ [.endTemplate], none⟩) := by
    intro ms
    rcases walkNodes_waits ms ⟨[.beginTemplate], none⟩ with ⟨⟨o, i⟩, h1, h2⟩ | ⟨h, _⟩
    · obtain ⟨b, rfl, hb⟩ := (walkNodes_follows ms _ _ _ _).mp h1
      have hi := h2 rfl
      simp only at hi
      subst hi
      refine ⟨b, hb, ?_⟩
      simp only [walkTemplate]
      rw [M.bind_ok (emit_apply _ _)]
      simp only [List.nil_append]
      rw [M.bind_ok h1]
      rfl
    · exact absurd rfl h
  obtain ⟨b, hb, he⟩ := key ms
  obtain ⟨b', hb', he'⟩ := key ms'
  refine ⟨_, _, he, he', fun heq => ?_⟩
  simp only [List.singleton_append, List.cons_append, List.cons.injEq, true_and] at heq
  exact (nodes_inj ms ms' hs hs' hb hb' rfl rfl heq).1

mutual
theorem sane_of_expands_aux {lk : Lookup} (hg : GoodLookup lk)
    (hF : ∀ id d, lk id = .ok d → 0 ≤ id.F ∧ id.F ≤ 3) {ids : List ID} {ts : List TNode}
    (h : Expands lk ids ts) : sanes ts := by
  induction h with
  | nil => simp [sanes]
  | @plain id d rest ts hlk hF1 hF3 _ ih =>
    have := hg.id _ _ hlk
    have h03 := hF _ _ hlk
    refine ⟨⟨.inl ⟨?_, rfl, rfl⟩, trivial⟩, ih⟩
    rw [this]; omega
  | @seq id d e rest ms ts hlk hF3 he _ _ ih1 ih2 =>
    have := hg.id _ _ hlk
    exact ⟨⟨.inr (.inr ⟨by rw [this]; exact hF3, rfl⟩), ih1⟩, ih2⟩
  | @fixed id d body rest ms ts hlk hF' hY hX _ _ ih1 ih2 =>
    have := hg.id _ _ hlk
    exact ⟨⟨.inr (.inl (by rw [this]; exact hF')), ih1⟩, ih2⟩
  | @delayed id f d df body rest ms ts hlk hF' hY hf hX _ _ ih1 ih2 =>
    have := hg.id _ _ hlk
    exact ⟨⟨.inr (.inl (by rw [this]; exact hF')), ih1⟩, ih2⟩
end

/-- C29. Expanded templates are among the trees C29 is about. -/
theorem C29_expanded_sane (g : ChainGroup) (ids : List ID) (ts : List TNode)
    (h : Expands g.lookup ids ts) : sanes ts := by
  refine sane_of_expands_aux (good_chain g) ?_ h
  intro id d hd
  obtain ⟨gs⟩ := g
  unfold ChainGroup.lookup at hd
  simp only at hd
  clear h
  induction gs with
  | nil => simp [chainLookup] at hd
  | cons g gs ih =>
    simp only [List.map_cons, chainLookup] at hd
    split at hd
    · rename_i hl
      unfold SingleGroup.lookup at hl
      repeat' split at hl
      all_goals first | omega | simp at hl
    all_goals first | exact ih hd | simp at hd

/-- Non-vacuity: two different sane templates. -/
example : sanes [.mk ⟨101000, .r []⟩ (some ⟨31001, .b default⟩) [.mk ⟨1001, .b default⟩ none []]] ∧
    sanes [.mk ⟨101002, .r []⟩ none [.mk ⟨1001, .b default⟩ none []]] := by
  constructor
  · exact ⟨⟨.inr (.inl (by decide)), ⟨.inl ⟨.inl (by decide), rfl, rfl⟩, trivial⟩, trivial⟩, trivial⟩
  · exact ⟨⟨.inr (.inl (by decide)), ⟨.inl ⟨.inl (by decide), rfl, rfl⟩, trivial⟩, trivial⟩, trivial⟩

/-! ## C30 -/

/-- C30. The events of a walk and the factors it leaves are exactly those specified: a delayed
replication has as many blocks as the factor received, a fixed one Y, without factor channel
each has one; every block walks all members. -/
theorem C30_walk_iff (ms : List TNode) (ins ins' : Option (List Int)) (es : List Event) :
    walkTemplate ms ⟨[], ins⟩ = (.ok ⟨⟩, ⟨es, ins'⟩) ↔
      ∃ b, es = [.beginTemplate] ++ b ++ [.endTemplate] ∧ WalksL ms ins b ins' := by
  simp only [walkTemplate]
  rw [M.bind_ok (emit_apply _ _), M.bind_eq_ok]
  constructor
  · rintro ⟨_, ⟨o, i⟩, h1, h2⟩
    obtain ⟨b, rfl, hb⟩ := (walkNodes_follows ms _ _ _ _).mp h1
    rw [emit_apply] at h2
    simp at h2
    obtain ⟨rfl, rfl⟩ := h2
    exact ⟨b, by simp, hb⟩
  · rintro ⟨b, rfl, hb⟩
    exact ⟨⟨⟩, _, (walkNodes_follows ms _ _ _ _).mpr ⟨b, rfl, hb⟩, rfl⟩

/-- C30. The only way a walk does not complete is to wait for a factor nobody sends. -/
theorem C30_only_waits (ms : List TNode) (ins : Option (List Int)) :
    (walkTemplate ms ⟨[], ins⟩).1 = .ok ⟨⟩ ∨
      (ins ≠ none ∧ (walkTemplate ms ⟨[], ins⟩).1 = .diverge) := by
  have := (waits_emit .beginTemplate).bind (f := fun _ => do walkNodes ms; emit .endTemplate)
    ((walkNodes_waits ms).bind (f := fun _ => emit .endTemplate) (waits_emit _)) ⟨[], ins⟩
  rcases this with ⟨s', h, _⟩ | ⟨h1, h2⟩
  · left
    show (((emit .beginTemplate) >>= fun _ => do walkNodes ms; emit .endTemplate) _).1 = _
    rw [h]
  · exact .inr ⟨h1, h2⟩

/-- The number of blocks of a replication in terms of its events. -/
theorem C30_block_count (k : Nat) (ms : List TNode) (i i' : Option (List Int)) (es : List Event)
    (h : WalksB k ms i es i') :
    ∃ blocks : List (List Event), blocks.length = k ∧
      es = (blocks.map fun b => [Event.beginBlock] ++ b ++ [.endBlock]).flatten ∧
      ∀ b ∈ blocks, ∃ j j', WalksL ms j b j' := by
  induction k generalizing i es with
  | zero => cases h; exact ⟨[], rfl, rfl, by simp⟩
  | succ k ih =>
    cases h with
    | succ h1 h2 =>
      obtain ⟨bs, hl, he, hb⟩ := ih _ _ h2
      refine ⟨_ :: bs, by simp [hl], by simp [he]; rfl, ?_⟩
      intro b hm
      rcases List.mem_cons.mp hm with rfl | hm
      · exact ⟨_, _, h1⟩
      · exact hb b hm

/-- Non-vacuity: factor 2 makes two blocks. -/
example : walkTemplate [.mk ⟨101000, .r []⟩ (some ⟨31001, .b default⟩)
      [.mk ⟨1001, .b default⟩ none []]] ⟨[], some [2, 7]⟩ =
    (.ok ⟨⟩, ⟨[.beginTemplate, .replication ⟨101000, .r []⟩, .factor ⟨31001, .b default⟩,
      .beginReplication, .beginBlock, .element ⟨1001, .b default⟩, .endBlock,
      .beginBlock, .element ⟨1001, .b default⟩, .endBlock, .endReplication, .endTemplate],
      some [7]⟩) := by rfl

/-! ## C31 -/

/-- C31. Dump never fails: one line per node, indented by its depth. -/
theorem C31_dump (ms : List TNode) :
    dumpTemplate ms = .ok (List.intercalate (str "\n") (ms.map fun n => List.intercalate (str "\n") (dumpLines 0 n))) := by
  have hj : List.intercalate (str "\n") = joinLines := rfl
  rw [hj]
  have hn : ∀ n, dumpNode n = .ok (joinLines (dumpLines 0 n)) := by
    intro n
    unfold dumpNode
    rcases walkNode_waits n ⟨[], none⟩ with ⟨⟨o, i⟩, h1, _⟩ | ⟨h, _⟩
    · obtain ⟨es, rfl, hes⟩ := (walkNode_follows n _ _ _ _).mp h1
      have := dump_node n 0 hes []
      simp only [List.replicate_zero, List.nil_append] at this
      rw [h1]
      simp only [List.nil_append, this]
    · exact absurd rfl h
  have hl : dumpNodes ms = .ok (ms.map fun n => joinLines (dumpLines 0 n)) := by
    induction ms with
    | nil => rfl
    | cons n ns ih => simp [dumpNodes, hn, ih]
  simp [dumpTemplate, hl]

/-- Non-vacuity: the dump of a sequence in a replication. -/
example : dumpTemplate [.mk ⟨101000, .r (str "101000")⟩ (some ⟨31001, .r (str "F")⟩)
      [.mk ⟨301001, .r (str "S")⟩ none [.mk ⟨1001, .r (str "E")⟩ none []]]] =
    .ok (str "101000 101000\n....031001 F\n    301001 S\n        001001 E") := by decide +kernel

/-! ## C32 (Expand; Parse is treated with the parser) -/

/-- C32. When no sequence contains itself, Expand terminates on every template, well nested or
not. -/
theorem C32_expand_terminates (lk : Lookup) (hg : GoodLookup lk) (hac : Acyclic lk)
    (s : IdSlice) : ∃ r, r ≠ .diverge ∧ ∃ N, ∀ fuel, N ≤ fuel → expand lk fuel s = r := by
  obtain ⟨rank, hr⟩ := hac
  have : ∃ R, ∀ id ∈ s.arr, rank id < R := by
    induction s.arr with
    | nil => exact ⟨0, by simp⟩
    | cons a l ih =>
      obtain ⟨R, hR⟩ := ih
      refine ⟨max R (rank a + 1), fun id hid => ?_⟩
      rcases List.mem_cons.mp hid with rfl | h
      · omega
      · have := hR id h; omega
  obtain ⟨R, hR⟩ := this
  refine expandLoop_ends (fun id => ?_) hg.id rank hr R _ s 0 (Nat.le_refl _) hR
  rcases hg.total id with ⟨d, hd⟩ | ⟨e, he⟩
  · rw [hd]; simp
  · rw [he]; simp

/-- A sequence that contains itself, directly or not. -/
def Cyclic (lk : Lookup) (s : ID) : Prop := ∃ ms, SeqMembers lk s ms ∧ Mentions lk ms s

theorem expands_mentions_seq {lk : Lookup} (ht : NestedTables lk) {l ms : List ID} {s : ID}
    (hm : Mentions lk l s) (hs : SeqMembers lk s ms) : ∀ {ts : List TNode}, Expands lk l ts →
    Nested l → ∃ us, Expands lk ms us ∧ treesSize us < treesSize ts := by
  induction hm with
  | here h => exact fun h1 h2 => (expands_members h1 h2 _ h).2 ms hs
  | deep h1 h2 _ ih =>
    intro ts h3 h4
    obtain ⟨us, h5, h6⟩ := (expands_members h3 h4 _ h1).2 _ h2
    obtain ⟨vs, h7, h8⟩ := ih hs h5 (ht _ _ h2)
    exact ⟨vs, h7, by omega⟩

/-- C32. A template that uses a sequence containing itself is never expanded; when all its
descriptors are known Expand runs forever. -/
theorem C32_expand_diverges (lk : Lookup) (hg : GoodLookup lk) (ht : NestedTables lk)
    (ids : List ID) (hn : Nested ids) (s : ID) (hm : Mentions lk ids s) (hc : Cyclic lk s)
    (fuel : Nat) : (expand lk fuel (.exact ids)).isOk = false ∧
      ((∀ id, Mentions lk ids id → ∃ d, lk id = .ok d) → expand lk fuel (.exact ids) = .diverge) := by
  obtain ⟨ms, hs, hself⟩ := hc
  have hno : ∀ n us, treesSize us ≤ n → ¬ Expands lk ms us := by
    intro n
    induction n with
    | zero =>
      intro us hus h
      obtain ⟨vs, _, h2⟩ := expands_mentions_seq ht hself hs h (ht _ _ hs)
      omega
    | succ n ih =>
      intro us hus h
      obtain ⟨vs, h1, h2⟩ := expands_mentions_seq ht hself hs h (ht _ _ hs)
      exact ih vs (by omega) h1
  have := expand_explained lk hg ht fuel ids hn [] []
  rw [← exact_eq_mid] at this
  simp only [List.length_nil] at this
  rw [expand]
  revert this
  cases expandLoop lk fuel (IdSlice.exact ids) 0 with
  | ok ts =>
    intro h
    obtain ⟨us, h1, _⟩ := expands_mentions_seq ht hm hs h hn
    exact absurd h1 (hno _ us (Nat.le_refl _))
  | err e =>
    rintro ⟨id, h1, h2⟩
    refine ⟨rfl, fun hk => ?_⟩
    obtain ⟨d, hd⟩ := hk id h1
    rw [hd] at h2; cases h2
  | panic w => exact fun h => h.elim
  | diverge => exact fun _ => ⟨rfl, fun _ => rfl⟩

/-- Non-vacuity: 301002 of the example table contains itself. -/
example : Cyclic TemplateExample.lk 301002 ∧ Mentions TemplateExample.lk [1001, 301002] 301002 ∧
    Nested [1001, 301002] := by
  have h : SeqMembers TemplateExample.lk 301002 [1001, 301002] :=
    ⟨by decide, _, _, rfl, rfl, rfl⟩
  exact ⟨⟨_, h, .here (by simp)⟩, .here (by simp), .plain (by decide) (.plain (by decide) .nil)⟩

/-- Non-vacuity: a table without sequences is acyclic. -/
example : Acyclic (SingleGroup.lookup ⟨⟨[], [(1001, default)]⟩, ⟨[], []⟩⟩) := by
  refine ⟨fun _ => 0, ?_⟩
  rintro s ms m ⟨hF, d, e, h1, h2, rfl⟩ hm
  exfalso
  have hF0 : ¬ ID.F s = 0 := by rw [hF]; decide
  have hF1 : ¬ ID.F s = 1 := by rw [hF]; decide
  have hF2 : ¬ ID.F s = 2 := by rw [hF]; decide
  simp [SingleGroup.lookup, hF0, hF1, hF2, hF, TableD.lookup, mapGet] at h1

/-! ## C33 -/

/-- C33, the property: what Expand accepts is well nested. -/
def C33_statement : Prop :=
  ∀ (lk : Lookup) (ids : List ID) (fuel : Nat) (ts : List TNode), GoodLookup lk →
    NestedTables lk → expand lk fuel (.exact ids) = .ok ts → Nested ids

/-- C33 is violated: 101002 covers the one descriptor 101003, which itself reaches out to
001001; 001001 is then visited twice. -/
theorem C33_scope_violates : ¬ C33_statement := by
  intro h
  have hn := h TemplateExample.lk [101002, 101003, 1001] 20 _ (good_single _)
    TemplateExample.nested_tables rfl
  generalize hw : ([101002, 101003, 1001] : List ID) = w at hn
  cases hn with
  | nil => cases hw
  | plain h _ => cases hw; exact absurd (by decide) h
  | @fixed id body rest hF hY hX hb hr =>
    simp only [List.cons.injEq] at hw
    obtain ⟨rfl, hw⟩ := hw
    rcases body with _ | ⟨a, _ | ⟨b, body⟩⟩
    · exact absurd hX (by decide)
    · simp at hw
      obtain ⟨rfl, rfl⟩ := hw
      generalize hw : ([101003] : List ID) = w at hb
      cases hb with
      | nil => cases hw
      | plain h _ => cases hw; exact absurd (by decide) h
      | @fixed id body rest hF hY hX hb hr =>
        simp only [List.cons.injEq] at hw
        obtain ⟨rfl, hw⟩ := hw
        rcases body with _ | ⟨a, body⟩
        · exact absurd hX (by decide)
        · simp at hw
      | delayed hF hY =>
        simp at hw
    · have : ID.X 101002 = 1 := by decide
      rw [this] at hX; simp at hX; omega
  | @delayed id f body rest hF hY =>
    rw [← (List.cons.inj hw).1] at hY
    exact absurd hY (by decide)

/-- C33. What does hold: a replication that reaches past the end of the whole template (or of
the array underlying it) is never accepted, it ends in a panic. -/
theorem C33_end_partial (lk : Lookup) (hg : GoodLookup lk) (fuel : Nat) (s : IdSlice)
    (count : Nat) (id : ID) (hcount : count < s.len) (hat : s.arr[count]? = some id)
    (hF : id.F = 1) (hY : id.Y ≠ 0) (hover : s.arr.length < count + 1 + id.X.toNat) :
    (∃ e, lk id = .err e) ∨ (expandLoop lk (fuel + 1) s count).isPanic = true := by
  rcases hg.total id with ⟨d, hd⟩ | h
  · right
    have hid := hg.id id d hd
    have hat' : s.at count = .ok id := by simp [IdSlice.at, hcount, hat]
    rw [expandLoop, if_pos hcount, hat']
    simp only [Outcome.bind_ok, hd, hid]
    rw [if_neg (by rw [hF]; decide), if_pos hF, if_neg hY]
    have : ∃ w, s.sub (count + 1) id.X = .panic w := by
      unfold IdSlice.sub
      split
      · exact ⟨_, rfl⟩
      · rw [if_neg (by omega)]; exact ⟨_, rfl⟩
    obtain ⟨w, hw⟩ := this
    rw [hw]
    rfl
  · exact .inl h

/-- Non-vacuity. -/
example : (expand TemplateExample.lk 9 (.exact [102002, 1001])).isPanic = true := by rfl

end Gobufr
