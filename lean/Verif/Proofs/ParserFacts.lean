import Verif.Proofs.ParserRun

/-!
# What can be read off a derivation
-/

set_option linter.unusedSimpArgs false

namespace Gobufr
open ParserSpec TemplateSpec

@[simp] theorem spellL_append (a b : List Ast) : spellL (a ++ b) = spellL a ++ spellL b := by
  induction a with
  | nil => rfl
  | cons n ns ih => simp [spellL, ih]

theorem until_append {p : ID → Bool} {l body rest : List ID} (h : Until p l body rest) :
    l = body ++ rest := by
  obtain ⟨a, b, rfl, rfl, _⟩ := h; rfl

theorem till_append {p : ID → Bool} {l body rest : List ID} (h : Till p l body rest) :
    l = body ++ rest := h.1

section

variable {lk : Lookup} (hid : ∀ id d, lk id = .ok d → d.id = id)

include hid in
theorem bitmap_append {l body rest : List ID} {bd : Option Desc} (h : BitmapIds lk l bd body rest) :
    l = (bd.map Desc.id).toList ++ body ++ rest := by
  cases h with
  | recall hd => simp [hid _ _ hd]
  | define hd hu => simp [hid _ _ hd, until_append hu]
  | adhoc _ hd hu => simpa using until_append hu

include hid in
theorem leaf_spell {skip : Bool} {id : ID} {n : Ast} (h : Leaf lk skip id n) : spell n = [id] := by
  cases h with
  | unknown => rfl
  | unknown031021 => rfl
  | element _ _ _ hd => simp [spell, hid _ _ hd]
  | e031021 _ hd => simp [spell, hid _ _ hd]
  | refvalEnd _ _ hd => simp [spell, spellL, hid _ _ hd]
  | assocEnd _ _ hd => simp [spell, spellL, hid _ _ hd]
  | nbitsOffset _ hd => simp [spell, hid _ _ hd]
  | scaleOffset _ hd => simp [spell, hid _ _ hd]
  | insertString _ hd => simp [spell, hid _ _ hd]
  | modifyPacking _ hd => simp [spell, hid _ _ hd]
  | setStringLength _ hd => simp [spell, hid _ _ hd]
  | marker _ hd => simp [spell, hid _ _ hd]
  | cancelBackRef _ hd => simp [spell, hid _ _ hd]
  | cancelBitmap _ _ hd => simp [spell, hid _ _ hd]

theorem scope_spell {id : ID} {d : Desc} {n : Nat} {mk : List Ast → Ast} {fin fout : PFlags → PFlags}
    (h : Scope id d n mk fin fout) (ms : List Ast) : spell (mk ms) = d.id :: spellL ms := by
  cases h <;> rfl

theorem scope_nodes {id : ID} {d : Desc} {n : Nat} {mk : List Ast → Ast} {fin fout : PFlags → PFlags}
    (h : Scope id d n mk fin fout) (ms : List Ast) : nodes (mk ms) = mk ms :: nodesL ms := by
  cases h <;> rfl

include hid in
/-- Complete scopes: the tree spells the template. -/
theorem derives_spell {f f' : PFlags} {l : List ID} {ns : List Ast} (h : Derives lk false f l ns f') :
    spellL ns = l := by
  induction h with
  | nil => rfl
  | leaf hl _ ih => simp [spellL, leaf_spell hid hl, ih]
  | sequence _ hd _ _ _ _ ih2 => simp [spellL, spell, hid _ _ hd, ih2]
  | scope hs hd hn hj _ _ ih1 ih2 =>
    have hj : _ = 0 := hj.resolve_right (by simp)
    subst hj
    simp [spellL, scope_spell hs, hid _ _ hd, ih1, ih2]
  | newRefval _ _ hd ht _ _ ih1 ih2 => simp [spellL, spell, hid _ _ hd, ih1, ih2, till_append ht]
  | bitmap hb _ _ ih1 ih2 => simp [spellL, spell, ih1, ih2, bitmap_append hid hb]
  | assessment _ hd hb _ ht _ hu _ _ ih1 ih2 ih3 ih4 =>
    simp [spellL, spell, hid _ _ hd, ih1, ih2, ih3, ih4, bitmap_append hid hb, till_append ht, until_append hu]

include hid in
/-- In general the tree spells the template with descriptors 000000 added. -/
theorem derives_padded {pad : Bool} {f f' : PFlags} {l : List ID} {ns : List Ast}
    (h : Derives lk pad f l ns f') :
    l.Sublist (spellL ns) ∧ (spellL ns).filter (· != 0) = l.filter (· != 0) := by
  induction h with
  | nil => exact ⟨.slnil, rfl⟩
  | leaf hl _ ih =>
    simp only [spellL, leaf_spell hid hl, List.singleton_append]
    exact ⟨ih.1.cons_cons _, by simp [List.filter_cons, ih.2]⟩
  | sequence _ hd _ _ _ _ ih2 =>
    simp only [spellL, spell, hid _ _ hd, List.singleton_append]
    exact ⟨ih2.1.cons_cons _, by simp [List.filter_cons, ih2.2]⟩
  | @scope f f₁ f' id d n j mk fin fout body rest ms ns hs hd hn hj _ _ ih1 ih2 =>
    simp only [spellL, scope_spell hs, hid _ _ hd, List.cons_append]
    refine ⟨List.Sublist.cons_cons _ (List.Sublist.append ?_ ih2.1), ?_⟩
    · exact (List.sublist_append_left _ _).trans ih1.1
    · have := ih1.2
      simp only [List.filter_append, List.filter_replicate] at this
      simp [List.filter_cons, this, ih2.2]
  | newRefval _ _ hd ht _ _ ih1 ih2 =>
    simp only [spellL, spell, hid _ _ hd, List.cons_append, till_append ht]
    exact ⟨(ih1.1.append ih2.1).cons_cons _, by simp [List.filter_cons, ih1.2, ih2.2]⟩
  | bitmap hb _ _ ih1 ih2 =>
    simp only [spellL, spell, bitmap_append hid hb]
    exact ⟨((List.Sublist.refl _).append ih1.1).append ih2.1, by simp [List.filter_cons, ih1.2, ih2.2]⟩
  | @assessment _ _ _ _ _ _ _ _ _ bd _ _ _ _ _ _ _ _ _ _ _ _ hd hb _ ht _ hu _ _ ih1 ih2 ih3 ih4 =>
    have e1 := bitmap_append hid hb
    have e2 := till_append ht
    have e3 := until_append hu
    simp only [spellL, spell, hid _ _ hd, List.cons_append, e1, e2, e3]
    refine ⟨?_, by simp [List.filter_cons, ih1.2, ih2.2, ih3.2, ih4.2]⟩
    refine List.Sublist.cons_cons _ ?_
    have := (((List.Sublist.refl ((Option.map Desc.id bd).toList)).append ih1.1).append
      (ih2.1.append (ih3.1.append ih4.1)))
    simpa [List.append_assoc] using this

/-! ## Descriptors 000000 -/

theorem nodesL_cons (n : Ast) (ns : List Ast) : nodesL (n :: ns) = nodes n ++ nodesL ns := rfl

theorem nodesL_append (a b : List Ast) : nodesL (a ++ b) = nodesL a ++ nodesL b := by
  induction a with
  | nil => rfl
  | cons n ns ih => simp [nodesL_cons, ih]

theorem self_mem_nodes (n : Ast) : n ∈ nodes n := by
  cases n <;> simp [nodes]

theorem ParserSpec.HasZero.cons_left {n : Ast} {ns ms : List Ast} (h : HasZero ms)
    (hn : ∀ x ∈ nodesL ms, x ∈ nodes n) : HasZero (n :: ns) := by
  obtain ⟨d, np, h1, h2⟩ := h
  exact ⟨d, np, by rw [nodesL_cons]; exact List.mem_append_left _ (hn _ h1), h2⟩

theorem ParserSpec.HasZero.cons_right {n : Ast} {ns : List Ast} (h : HasZero ns) : HasZero (n :: ns) := by
  obtain ⟨d, np, h1, h2⟩ := h
  exact ⟨d, np, by rw [nodesL_cons]; exact List.mem_append_right _ h1, h2⟩

include hid in
theorem derives_zero {pad : Bool} {f f' : PFlags} {l : List ID} {ns : List Ast}
    (h : Derives lk pad f l ns f') (h0 : (0 : ID) ∈ l) : HasZero ns := by
  induction h with
  | nil => cases h0
  | @leaf f f' id n rest ns hl _ ih =>
    rcases List.mem_cons.1 h0 with rfl | h0
    · cases hl with
      | element _ _ _ hd =>
        exact ⟨_, _, List.mem_cons_self, hid _ _ hd⟩
      | unknown => exact ⟨_, _, List.mem_cons_self, rfl⟩
      | nbitsOffset h => exact absurd h (by decide)
      | scaleOffset h => exact absurd h (by decide)
      | refvalEnd h => exact absurd h (by decide)
      | assocEnd h => exact absurd h (by decide)
      | insertString h => exact absurd h (by decide)
      | modifyPacking h => exact absurd h (by decide)
      | setStringLength h => exact absurd h (by decide)
      | marker h => exact absurd h (by decide)
      | cancelBackRef h => exact absurd h (by decide)
      | cancelBitmap h => exact absurd h (by decide)
    · exact (ih h0).cons_right
  | sequence hF _ _ _ _ _ ih2 =>
    rcases List.mem_cons.1 h0 with rfl | h0
    · exact absurd hF (by decide)
    · exact (ih2 h0).cons_right
  | scope hs _ _ _ _ _ ih1 ih2 =>
    rcases List.mem_cons.1 h0 with rfl | h0
    · cases hs with
      | fixed h => exact absurd h (by decide)
      | delayed h => exact absurd h (by decide)
      | assocField h => exact absurd h (by decide)
      | skipLocal h => exact absurd h (by decide)
      | dataNotPresent h => exact absurd h (by decide)
    · rcases List.mem_append.1 h0 with h0 | h0
      · refine (ih1 (List.mem_append_left _ h0)).cons_left fun x hx => ?_
        rw [scope_nodes hs]; exact List.mem_cons_of_mem _ hx
      · exact (ih2 h0).cons_right
  | newRefval h _ _ ht _ _ ih1 ih2 =>
    rw [till_append ht] at h0
    rcases List.mem_cons.1 h0 with rfl | h0
    · exact absurd h (by decide)
    · rcases List.mem_append.1 h0 with h0 | h0
      · exact (ih1 h0).cons_left fun x hx => by simp [nodes, hx]
      · exact (ih2 h0).cons_right
  | bitmap hb _ _ ih1 ih2 =>
    rw [bitmap_append hid hb] at h0
    simp only [Option.map_some, Option.toList_some, List.mem_append, List.mem_singleton] at h0
    rcases h0 with (h0 | h0) | h0
    · cases hb with
      | recall hd => rw [hid _ _ hd] at h0; cases h0
      | define hd => rw [hid _ _ hd] at h0; cases h0
    · exact (ih1 h0).cons_left fun x hx => by simp [nodes, hx]
    · exact (ih2 h0).cons_right
  | @assessment f f₁ f₂ f₃ f' id d attrP memP bd l bids l₁ aids l₂ mids rest bms as ms ns ha hd hb _ ht _ hu _ _ ih1 ih2 ih3 ih4 =>
    rcases List.mem_cons.1 h0 with hz | hz
    · subst hz
      cases ha with
      | marked h => simp at h
    rw [bitmap_append hid hb, till_append ht, until_append hu] at hz
    simp only [List.mem_append] at hz
    rcases hz with (hz | hz) | hz | hz | hz
    · cases hb with
      | recall hd => rw [Option.map_some, hid _ _ hd] at hz; simp at hz
      | define hd => rw [Option.map_some, hid _ _ hd] at hz; simp at hz
      | adhoc => simp at hz
    · exact (ih1 hz).cons_left fun x hx => by simp [nodes, hx]
    · exact (ih2 hz).cons_left fun x hx => by simp [nodes, hx]
    · exact (ih3 hz).cons_left fun x hx => by simp [nodes, hx]
    · exact (ih4 hz).cons_right

include hid in
/-- Without an element 000000 in the tree every scope was complete. -/
theorem derives_complete {pad : Bool} {f f' : PFlags} {l : List ID} {ns : List Ast}
    (h : Derives lk pad f l ns f') (h0 : ¬ HasZero ns) : Derives lk false f l ns f' := by
  induction h with
  | nil => exact .nil
  | leaf hl _ ih => exact .leaf hl (ih fun h => h0 h.cons_right)
  | sequence hF hd he _ _ ih1 ih2 =>
    exact .sequence hF hd he (ih1 fun h => h0 (h.cons_left fun x hx => by simp [nodes, hx]))
      (ih2 fun h => h0 h.cons_right)
  | @scope f f₁ f' id d n j mk fin fout body rest ms ns hs hd hn hj h1 _ ih1 ih2 =>
    have hms : ¬ HasZero ms := fun h => h0 (h.cons_left fun x hx => by
      rw [scope_nodes hs]; exact List.mem_cons_of_mem _ hx)
    have : j = 0 := by
      rcases Nat.eq_zero_or_pos j with h | h
      · exact h
      · refine absurd (derives_zero hid h1 (List.mem_append_right _ ?_)) hms
        exact List.mem_replicate.2 ⟨by omega, rfl⟩
    exact .scope hs hd hn (.inl this) (ih1 hms) (ih2 fun h => h0 h.cons_right)
  | newRefval h hy hd ht _ _ ih1 ih2 =>
    exact .newRefval h hy hd ht (ih1 fun h => h0 (h.cons_left fun x hx => by simp [nodes, hx]))
      (ih2 fun h => h0 h.cons_right)
  | bitmap hb _ _ ih1 ih2 =>
    exact .bitmap hb (ih1 fun h => h0 (h.cons_left fun x hx => by simp [nodes, hx]))
      (ih2 fun h => h0 h.cons_right)
  | assessment ha hd hb _ ht _ hu _ _ ih1 ih2 ih3 ih4 =>
    exact .assessment ha hd hb (ih1 fun h => h0 (h.cons_left fun x hx => by simp [nodes, hx]))
      ht (ih2 fun h => h0 (h.cons_left fun x hx => by simp [nodes, hx]))
      hu (ih3 fun h => h0 (h.cons_left fun x hx => by simp [nodes, hx]))
      (ih4 fun h => h0 h.cons_right)

/-! ## Flags -/

theorem ParserSpec.FlagsLe.refl (a : PFlags) : FlagsLe a a := ⟨fun h => h, fun h => h⟩

theorem ParserSpec.FlagsLe.trans {a b c : PFlags} (h1 : FlagsLe a b) (h2 : FlagsLe b c) : FlagsLe a c :=
  ⟨fun h => h2.1 (h1.1 h), fun h => h2.2 (h1.2 h)⟩

theorem flagsLe_clear {a : PFlags} (h : FlagsLe a {}) : a = {} := by
  obtain ⟨h1, h2⟩ := h
  cases a with
  | mk x y =>
    cases x <;> cases y <;> simp_all

theorem scope_flags {id : ID} {d : Desc} {n : Nat} {mk : List Ast → Ast} {fin fout : PFlags → PFlags}
    (hs : Scope id d n mk fin fout) {f f₁ : PFlags} (h : FlagsLe f₁ (fin f)) : FlagsLe (fout f₁) f := by
  cases hs with
  | fixed | delayed | assocField => exact h
  | skipLocal => exact ⟨fun h => (by simp at h), h.2⟩
  | dataNotPresent => exact ⟨h.1, fun h => (by simp at h)⟩

theorem derives_flags {pad : Bool} {f f' : PFlags} {l : List ID} {ns : List Ast}
    (h : Derives lk pad f l ns f') : FlagsLe f' f := by
  induction h with
  | nil => exact .refl _
  | leaf _ _ ih => exact ih
  | sequence _ _ _ _ _ ih1 ih2 => exact ih2.trans ih1
  | scope hs _ _ _ _ _ ih1 ih2 => exact ih2.trans (scope_flags hs ih1)
  | newRefval _ _ _ _ _ _ ih1 ih2 => exact ih2.trans ih1
  | bitmap _ _ _ ih1 ih2 => exact ih2.trans ih1
  | assessment _ _ _ _ _ _ _ _ _ ih1 ih2 ih3 ih4 => exact ih4.trans (ih3.trans (ih2.trans ih1))

/-! ## Legal descriptors -/

theorem mentions_cons {l : List ID} {id x : ID} :
    Mentions lk (id :: l) x ↔ x = id ∨ (∃ ms, SeqMembers lk id ms ∧ Mentions lk ms x) ∨ Mentions lk l x := by
  constructor
  · intro h
    cases h with
    | here h =>
      rcases List.mem_cons.1 h with rfl | h
      · exact .inl rfl
      · exact .inr (.inr (.here h))
    | deep h1 h2 h3 =>
      rcases List.mem_cons.1 h1 with rfl | h
      · exact .inr (.inl ⟨_, h2, h3⟩)
      · exact .inr (.inr (.deep h h2 h3))
  · rintro (rfl | ⟨ms, h1, h2⟩ | h)
    · exact .here (by simp)
    · exact .deep (by simp) h1 h2
    · exact mentions_mono h fun y hy => List.mem_cons_of_mem _ hy

theorem mentions_append {a b : List ID} {x : ID} :
    Mentions lk (a ++ b) x ↔ Mentions lk a x ∨ Mentions lk b x := by
  constructor
  · intro h
    cases h with
    | here h => exact (List.mem_append.1 h).imp .here .here
    | deep h1 h2 h3 => exact (List.mem_append.1 h1).imp (.deep · h2 h3) (.deep · h2 h3)
  · rintro (h | h)
    · exact mentions_mono h fun y hy => List.mem_append_left _ hy
    · exact mentions_mono h fun y hy => List.mem_append_right _ hy

theorem seqMembers_F {id : ID} {ms : List ID} (h : SeqMembers lk id ms) (hF : id.F ≠ 3) : False := hF h.1

theorem leaf_F {skip : Bool} {id : ID} {n : Ast} (h : Leaf lk skip id n) : id.F = 0 ∨ id.F = 2 := by
  cases h with
  | element _ h => exact .inl h
  | unknown _ h => exact .inl h
  | e031021 => exact .inl (by decide)
  | unknown031021 => exact .inl (by decide)
  | marker h => rcases h with rfl | rfl | rfl | rfl <;> exact .inr (by decide)
  | nbitsOffset h => exact .inr (F_of_operator h (by decide) (by decide))
  | scaleOffset h => exact .inr (F_of_operator h (by decide) (by decide))
  | refvalEnd h => exact .inr (F_of_operator h (by decide) (by decide))
  | assocEnd h => exact .inr (F_of_operator h (by decide) (by decide))
  | insertString h => exact .inr (F_of_operator h (by decide) (by decide))
  | modifyPacking h => exact .inr (F_of_operator h (by decide) (by decide))
  | setStringLength h => exact .inr (F_of_operator h (by decide) (by decide))
  | cancelBackRef h => exact .inr (F_of_operator h (by decide) (by decide))
  | cancelBitmap h => exact .inr (F_of_operator h (by decide) (by decide))

theorem leaf_legal {skip : Bool} {id : ID} {n : Ast} (h : Leaf lk skip id n) :
    LegalId lk id ∨ (id.F = 0 ∧ skip = true) := by
  cases h with
  | element _ h _ hd => exact .inl ⟨⟨_, hd⟩, fun h' => by omega⟩
  | unknown hs h => exact .inr ⟨h, hs⟩
  | e031021 _ hd => exact .inl ⟨⟨_, hd⟩, fun h' => absurd h' (by decide)⟩
  | unknown031021 hs => exact .inr ⟨by decide, hs⟩
  | marker h hd =>
    exact .inl ⟨⟨_, hd⟩, fun _ => .inr (.inl (by rcases h with rfl | rfl | rfl | rfl <;> simp))⟩
  | cancelBitmap h hy hd => exact .inl ⟨⟨_, hd⟩, fun _ => .inr (.inr ⟨h, hy⟩)⟩
  | nbitsOffset h hd => exact .inl ⟨⟨_, hd⟩, fun _ => .inl (by simp [h])⟩
  | scaleOffset h hd => exact .inl ⟨⟨_, hd⟩, fun _ => .inl (by simp [h])⟩
  | refvalEnd h _ hd => exact .inl ⟨⟨_, hd⟩, fun _ => .inl (by simp [h])⟩
  | assocEnd h _ hd => exact .inl ⟨⟨_, hd⟩, fun _ => .inl (by simp [h])⟩
  | insertString h hd => exact .inl ⟨⟨_, hd⟩, fun _ => .inl (by simp [h])⟩
  | modifyPacking h hd => exact .inl ⟨⟨_, hd⟩, fun _ => .inl (by simp [h])⟩
  | setStringLength h hd => exact .inl ⟨⟨_, hd⟩, fun _ => .inl (by simp [h])⟩
  | cancelBackRef h hd => exact .inl ⟨⟨_, hd⟩, fun _ => .inl (by simp [h])⟩

theorem scope_F {id : ID} {d : Desc} {n : Nat} {mk : List Ast → Ast} {fin fout : PFlags → PFlags}
    (h : Scope id d n mk fin fout) : id.F = 1 ∨ id.F = 2 := by
  cases h with
  | fixed h => exact .inl h
  | delayed h => exact .inl h
  | assocField h => exact .inr (F_of_operator h (by decide) (by decide))
  | skipLocal h => exact .inr (F_of_operator h (by decide) (by decide))
  | dataNotPresent h => exact .inr (F_of_operator h (by decide) (by decide))

theorem scope_legal {id : ID} {d : Desc} {n : Nat} {mk : List Ast → Ast} {fin fout : PFlags → PFlags}
    (h : Scope id d n mk fin fout) (hd : lk id = .ok d) : LegalId lk id := by
  refine ⟨⟨_, hd⟩, fun hF => ?_⟩
  cases h with
  | fixed h => omega
  | delayed h => omega
  | assocField h => exact .inl (by simp [h])
  | skipLocal h => exact .inl (by simp [h])
  | dataNotPresent h => exact .inl (by simp [h])

theorem assess_mem {id : ID} {ap mp : ID → Bool} (h : Assess id ap mp) : id ∈ assessOps := by
  cases h with
  | qaInfo => simp [assessOps]
  | marked h =>
    simp only [List.mem_cons, Prod.mk.injEq, List.not_mem_nil, or_false] at h
    rcases h with h | h | h | h <;> simp [assessOps, h.1]

theorem assess_F {id : ID} {ap mp : ID → Bool} (h : Assess id ap mp) : id.F = 2 := by
  have := assess_mem h
  simp only [assessOps, List.mem_cons, List.not_mem_nil, or_false] at this
  rcases this with rfl | rfl | rfl | rfl | rfl <;> decide

include hid in
/-- Whatever the tree came from is legal; unknown elements need a 206YYY. -/
theorem derives_legal {pad : Bool} {f f' : PFlags} {l : List ID} {ns : List Ast}
    (h : Derives lk pad f l ns f') : ∀ x, Mentions lk l x →
    LegalId lk x ∨ (x.F = 0 ∧ (f.skipLocal = true ∨ Uses206 lk l)) := by
  have lift : ∀ {x : ID} {f g : PFlags} {a b : List ID}, FlagsLe g f →
      (∀ o, Mentions lk a o → Mentions lk b o) →
      (LegalId lk x ∨ (x.F = 0 ∧ (g.skipLocal = true ∨ Uses206 lk a))) →
      LegalId lk x ∨ (x.F = 0 ∧ (f.skipLocal = true ∨ Uses206 lk b)) := by
    intro x f g a b hfg hab h
    refine h.imp (fun h => h) fun h => ⟨h.1, h.2.imp hfg.1 ?_⟩
    rintro ⟨o, h1, h2⟩
    exact ⟨o, hab o h1, h2⟩
  induction h with
  | nil =>
    intro x hx
    cases hx with
    | here h => cases h
    | deep h => cases h
  | leaf hl _ ih =>
    intro x hx
    rcases mentions_cons.1 hx with rfl | ⟨ms, h1, _⟩ | hx
    · exact (leaf_legal hl).imp (fun h => h) fun h => ⟨h.1, .inl h.2⟩
    · have := h1.1
      rcases leaf_F hl with h | h <;> omega
    · exact lift (.refl _) (fun o ho => mentions_cons.2 (.inr (.inr ho))) (ih x hx)
  | @sequence f f₁ f' id d e rest ms ns hF hd he h1 _ ih1 ih2 =>
    intro x hx
    rcases mentions_cons.1 hx with rfl | ⟨ms', h2, hx⟩ | hx
    · exact .inl ⟨⟨_, hd⟩, fun h => by omega⟩
    · obtain ⟨_, d', e', hd', he', rfl⟩ := h2
      rw [hd] at hd'; cases hd'
      rw [he] at he'; cases he'
      exact lift (.refl _) (fun o ho => mentions_cons.2 (.inr (.inl ⟨_, ⟨hF, d, e, hd, he, rfl⟩, ho⟩)))
        (ih1 x hx)
    · exact lift (derives_flags h1) (fun o ho => mentions_cons.2 (.inr (.inr ho))) (ih2 x hx)
  | @scope f f₁ f' id d n j mk fin fout body rest ms ns hs hd hn hj h1 _ ih1 ih2 =>
    intro x hx
    rcases mentions_cons.1 hx with rfl | ⟨ms, h2, _⟩ | hx
    · exact .inl (scope_legal hs hd)
    · have := h2.1
      rcases scope_F hs with h | h <;> omega
    · rcases mentions_append.1 hx with hx | hx
      · have := ih1 x (mentions_append.2 (.inl hx))
        refine this.imp (fun h => h) fun h => ⟨h.1, ?_⟩
        rcases h.2 with h3 | ⟨o, h3, h4⟩
        · cases hs with
          | fixed | delayed | assocField | dataNotPresent => exact .inl h3
          | skipLocal h206 => exact .inr ⟨id, .here (by simp), h206⟩
        · rcases mentions_append.1 h3 with h3 | h3
          · exact .inr ⟨o, mentions_cons.2 (.inr (.inr (mentions_append.2 (.inl h3)))), h4⟩
          · cases h3 with
            | here h3 => rw [List.eq_of_mem_replicate h3] at h4; exact absurd h4 (by decide)
            | deep h3 h5 =>
              rw [List.eq_of_mem_replicate h3] at h5; exact absurd h5.1 (by decide)
      · exact lift (scope_flags hs (derives_flags h1))
          (fun o ho => mentions_cons.2 (.inr (.inr (mentions_append.2 (.inr ho))))) (ih2 x hx)
  | @newRefval f f₁ f' id d l body rest ms ns h hy hd ht h1 _ ih1 ih2 =>
    intro x hx
    have hl := till_append ht
    subst hl
    rcases mentions_cons.1 hx with rfl | ⟨ms, h2, _⟩ | hx
    · exact .inl ⟨⟨_, hd⟩, fun _ => .inl (by simp [h])⟩
    · have := h2.1
      have := F_of_operator h (by decide) (by decide)
      omega
    · rcases mentions_append.1 hx with hx | hx
      · exact lift (.refl _)
          (fun o ho => mentions_cons.2 (.inr (.inr (mentions_append.2 (.inl ho))))) (ih1 x hx)
      · exact lift (derives_flags h1)
          (fun o ho => mentions_cons.2 (.inr (.inr (mentions_append.2 (.inr ho))))) (ih2 x hx)
  | @bitmap f f₁ f' d l body rest ms ns hb h1 _ ih1 ih2 =>
    intro x hx
    have hl := bitmap_append hid hb
    have hd : LegalId lk d.id ∧ d.id.F = 2 := by
      cases hb with
      | recall hd => rw [hid _ _ hd]; exact ⟨⟨⟨_, hd⟩, fun _ => .inr (.inl (by simp))⟩, by decide⟩
      | define hd => rw [hid _ _ hd]; exact ⟨⟨⟨_, hd⟩, fun _ => .inr (.inl (by simp))⟩, by decide⟩
    simp only [Option.map_some, Option.toList_some, List.cons_append, List.nil_append] at hl
    subst hl
    rcases mentions_cons.1 hx with rfl | ⟨ms, h2, _⟩ | hx
    · exact .inl hd.1
    · have := h2.1; omega
    · rcases mentions_append.1 hx with hx | hx
      · exact lift (.refl _)
          (fun o ho => mentions_cons.2 (.inr (.inr (mentions_append.2 (.inl ho))))) (ih1 x hx)
      · exact lift (derives_flags h1)
          (fun o ho => mentions_cons.2 (.inr (.inr (mentions_append.2 (.inr ho))))) (ih2 x hx)
  | @assessment f f₁ f₂ f₃ f' id d attrP memP bd l bids l₁ aids l₂ mids rest bms as ms ns ha hd hb h1 ht h2 hu h3 _ ih1 ih2 ih3 ih4 =>
    intro x hx
    have hl := bitmap_append hid hb
    have hbd : ∀ y ∈ (bd.map Desc.id).toList, LegalId lk y ∧ y.F = 2 := by
      intro y hy
      cases hb with
      | recall hd =>
        simp [hid _ _ hd] at hy; subst hy
        exact ⟨⟨⟨_, hd⟩, fun _ => .inr (.inl (by simp))⟩, by decide⟩
      | define hd =>
        simp [hid _ _ hd] at hy; subst hy
        exact ⟨⟨⟨_, hd⟩, fun _ => .inr (.inl (by simp))⟩, by decide⟩
      | adhoc => simp at hy
    rw [till_append ht, until_append hu] at hl
    subst hl
    have f1 := derives_flags h1
    have f2 := (derives_flags h2).trans f1
    have f3 := (derives_flags h3).trans f2
    rcases mentions_cons.1 hx with rfl | ⟨ms, h2, _⟩ | hx
    · refine .inl ⟨⟨_, hd⟩, fun _ => .inr (.inl ?_)⟩
      have := assess_mem ha
      simp only [assessOps, List.mem_cons, List.not_mem_nil, or_false] at this
      rcases this with h | h | h | h | h <;> simp [h]
    · have := h2.1
      have := assess_F ha
      omega
    · rcases mentions_append.1 hx with hx | hx
      · rcases mentions_append.1 hx with hx | hx
        · cases hx with
          | here h => exact .inl (hbd _ h).1
          | deep h h' => have := h'.1; have := (hbd _ h).2; omega
        · exact lift (.refl _) (fun o ho => mentions_cons.2 (.inr (.inr (mentions_append.2
            (.inl (mentions_append.2 (.inr ho))))))) (ih1 x hx)
      · rcases mentions_append.1 hx with hx | hx
        · exact lift f1 (fun o ho => mentions_cons.2 (.inr (.inr (mentions_append.2
            (.inr (mentions_append.2 (.inl ho))))))) (ih2 x hx)
        · rcases mentions_append.1 hx with hx | hx
          · exact lift f2 (fun o ho => mentions_cons.2 (.inr (.inr (mentions_append.2
              (.inr (mentions_append.2 (.inr (mentions_append.2 (.inl ho))))))))) (ih3 x hx)
          · exact lift f3 (fun o ho => mentions_cons.2 (.inr (.inr (mentions_append.2
              (.inr (mentions_append.2 (.inr (mentions_append.2 (.inr ho))))))))) (ih4 x hx)

/-! ## Every node was derived -/

/-- Some derivation starts with the node. -/
def Derived (lk : Lookup) (pad : Bool) (x : Ast) : Prop :=
  (∃ g l ns g', Derives lk pad g l (x :: ns) g') ∨ ∃ bd ms, x = .bitmap bd ms

theorem leaf_nodes {skip : Bool} {id : ID} {n : Ast} (h : Leaf lk skip id n) : nodes n = [n] := by
  cases h <;> rfl

theorem derives_nodes {pad : Bool} {f f' : PFlags} {l : List ID} {ns : List Ast}
    (h : Derives lk pad f l ns f') : ∀ x ∈ nodesL ns, Derived lk pad x := by
  induction h with
  | nil => intro x hx; cases hx
  | leaf hl h ih =>
    intro x hx
    rw [nodesL_cons, leaf_nodes hl] at hx
    rcases List.mem_cons.1 hx with rfl | hx
    · exact .inl ⟨_, _, _, _, .leaf hl h⟩
    · exact ih x hx
  | sequence hF hd he h1 h2 ih1 ih2 =>
    intro x hx
    simp only [nodesL_cons, nodes, List.cons_append, List.mem_cons, List.mem_append] at hx
    rcases hx with rfl | hx | hx
    · exact .inl ⟨_, _, _, _, .sequence hF hd he h1 h2⟩
    · exact ih1 x hx
    · exact ih2 x hx
  | scope hs hd hn hj h1 h2 ih1 ih2 =>
    intro x hx
    simp only [nodesL_cons, scope_nodes hs, List.cons_append, List.mem_cons, List.mem_append] at hx
    rcases hx with rfl | hx | hx
    · exact .inl ⟨_, _, _, _, .scope hs hd hn hj h1 h2⟩
    · exact ih1 x hx
    · exact ih2 x hx
  | newRefval h hy hd ht h1 h2 ih1 ih2 =>
    intro x hx
    simp only [nodesL_cons, nodes, List.cons_append, List.mem_cons, List.mem_append] at hx
    rcases hx with rfl | hx | hx
    · exact .inl ⟨_, _, _, _, .newRefval h hy hd ht h1 h2⟩
    · exact ih1 x hx
    · exact ih2 x hx
  | bitmap hb _ _ ih1 ih2 =>
    intro x hx
    simp only [nodesL_cons, nodes, List.cons_append, List.mem_cons, List.mem_append] at hx
    rcases hx with rfl | hx | hx
    · exact .inr ⟨_, _, rfl⟩
    · exact ih1 x hx
    · exact ih2 x hx
  | assessment ha hd hb h1 ht h2 hu h3 h4 ih1 ih2 ih3 ih4 =>
    intro x hx
    simp only [nodesL_cons, nodes, List.cons_append, List.mem_cons, List.mem_append] at hx
    rcases hx with rfl | rfl | ((hx | hx) | hx) | hx
    · exact .inl ⟨_, _, _, _, .assessment ha hd hb h1 ht h2 hu h3 h4⟩
    · exact .inr ⟨_, _, rfl⟩
    · exact ih1 x hx
    · exact ih2 x hx
    · exact ih3 x hx
    · exact ih4 x hx

include hid in
theorem derived_sequence {pad : Bool} {d : Desc} {ms : List Ast} (h : Derived lk pad (.sequence d ms)) :
    lk d.id = .ok d ∧ d.id.F = 3 ∧ ∃ e f f', d.entry = .d e ∧ Derives lk pad f e.members ms f' := by
  rcases h with ⟨g, l, ns, g', h⟩ | ⟨_, _, h⟩
  · generalize hx : Ast.sequence d ms :: ns = xs at h
    cases h with
    | nil => cases hx
    | leaf hl => cases hx; cases hl
    | sequence hF hd he h1 => cases hx; rw [hid _ _ hd]; exact ⟨hd, hF, _, _, _, he, h1⟩
    | scope hs => cases hs <;> cases hx
    | newRefval => cases hx
    | bitmap => cases hx
    | assessment => cases hx
  · cases h

include hid in
theorem derived_fixed {pad : Bool} {d : Desc} {ms : List Ast} (h : Derived lk pad (.fixedRepl d ms)) :
    lk d.id = .ok d ∧ d.id.F = 1 ∧ d.id.Y ≠ 0 ∧ ∃ body j f f', d.id.X = ((body.length + j : Nat) : Int) ∧
      (j = 0 ∨ pad = true) ∧ Derives lk pad f (body ++ List.replicate j 0) ms f' := by
  rcases h with ⟨g, l, ns, g', h⟩ | ⟨_, _, h⟩
  · generalize hx : Ast.fixedRepl d ms :: ns = xs at h
    cases h with
    | nil => cases hx
    | leaf hl => cases hx; cases hl
    | sequence => cases hx
    | scope hs hd hn hj h1 =>
      cases hs <;> cases hx
      rename_i hF hY hX _
      rw [hid _ _ hd]
      exact ⟨hd, hF, hY, _, _, _, _, hn ▸ hX, hj.imp (fun h => h) And.left, h1⟩
    | newRefval => cases hx
    | bitmap => cases hx
    | assessment => cases hx
  · cases h

include hid in
theorem derived_delayed {pad : Bool} {d : Desc} {ms : List Ast} (h : Derived lk pad (.delayedRepl d ms)) :
    lk d.id = .ok d ∧ d.id.F = 1 ∧ d.id.Y = 0 ∧ ∃ body j f f', d.id.X + 1 = ((body.length + j : Nat) : Int) ∧
      (j = 0 ∨ pad = true) ∧ Derives lk pad f (body ++ List.replicate j 0) ms f' := by
  rcases h with ⟨g, l, ns, g', h⟩ | ⟨_, _, h⟩
  · generalize hx : Ast.delayedRepl d ms :: ns = xs at h
    cases h with
    | nil => cases hx
    | leaf hl => cases hx; cases hl
    | sequence => cases hx
    | scope hs hd hn hj h1 =>
      cases hs <;> cases hx
      rename_i hF hY hX _
      rw [hid _ _ hd]
      refine ⟨hd, hF, hY, _, _, _, _, ?_, hj.imp (fun h => h) And.left, h1⟩
      rw [hn, hX]; rfl
    | newRefval => cases hx
    | bitmap => cases hx
    | assessment => cases hx
  · cases h

theorem derived_element {pad : Bool} {d : Desc} {np : Bool} (h : Derived lk pad (.element d np)) :
    np = false := by
  rcases h with ⟨g, l, ns, g', h⟩ | ⟨_, _, h⟩
  · generalize hx : Ast.element d np :: ns = xs at h
    cases h with
    | nil => cases hx
    | leaf hl => cases hx; cases hl <;> rfl
    | sequence => cases hx
    | scope hs => cases hs <;> cases hx
    | newRefval => cases hx
    | bitmap => cases hx
    | assessment => cases hx
  · cases h

/-! ## Local elements -/

theorem outsideL_cons (n : Ast) (ns : List Ast) : outsideL (n :: ns) = outside n ++ outsideL ns := rfl

include hid in
theorem leaf_known {id : ID} {n : Ast} {skip : Bool} (h : Leaf lk skip id n) (hs : skip = false) :
    ∀ x ∈ outside n, KnownElement lk x := by
  cases h with
  | element _ _ _ hd =>
    intro x hx
    rw [List.mem_singleton.1 hx]
    rintro d' (⟨np, h⟩ | h)
    · cases h; rw [hid _ _ hd]; exact hd
    · cases h
  | unknown h => rw [h] at hs; cases hs
  | e031021 _ hd =>
    intro x hx
    rw [List.mem_singleton.1 hx]
    rintro d' (⟨np, h⟩ | h)
    · cases h
    · cases h; rw [hid _ _ hd]; exact hd
  | unknown031021 h => rw [h] at hs; cases hs
  | refvalEnd | assocEnd =>
    intro x hx
    simp only [outside, outsideL, List.mem_singleton] at hx
    subst hx
    rintro d' (⟨np, h⟩ | h) <;> cases h
  | _ =>
    intro x hx
    rw [List.mem_singleton.1 hx]
    rintro d' (⟨np, h⟩ | h) <;> cases h

include hid in
theorem derives_outside {pad : Bool} {f f' : PFlags} {l : List ID} {ns : List Ast}
    (h : Derives lk pad f l ns f') : f.skipLocal = false → ∀ x ∈ outsideL ns, KnownElement lk x := by
  have clear : ∀ {f g : PFlags}, FlagsLe g f → f.skipLocal = false → g.skipLocal = false := by
    intro f g h hf
    cases hg : g.skipLocal with
    | false => rfl
    | true => rw [h.1 hg] at hf; cases hf
  induction h with
  | nil => intro _ x hx; cases hx
  | leaf hl _ ih =>
    intro hs x hx
    rw [outsideL_cons] at hx
    rcases List.mem_append.1 hx with hx | hx
    · exact leaf_known hid hl hs x hx
    · exact ih hs x hx
  | sequence hF hd he h1 h2 ih1 ih2 =>
    intro hs x hx
    simp only [outsideL_cons, outside, List.cons_append, List.mem_cons, List.mem_append] at hx
    rcases hx with rfl | hx | hx
    · rintro d (⟨np, h⟩ | h) <;> cases h
    · exact ih1 hs x hx
    · exact ih2 (clear (derives_flags h1) hs) x hx
  | scope hsc hd hn hj h1 h2 ih1 ih2 =>
    intro hs x hx
    have hrest := ih2 (clear (scope_flags hsc (derives_flags h1)) hs)
    cases hsc with
    | skipLocal =>
      simp only [outsideL_cons, outside, List.cons_append, List.nil_append, List.mem_cons] at hx
      rcases hx with rfl | hx
      · rintro d (⟨np, h⟩ | h) <;> cases h
      · exact hrest x hx
    | _ =>
      simp only [outsideL_cons, outside, List.cons_append, List.mem_cons, List.mem_append] at hx
      rcases hx with rfl | hx | hx
      · rintro d (⟨np, h⟩ | h) <;> cases h
      · exact ih1 hs x hx
      · exact hrest x hx
  | newRefval h hy hd ht h1 h2 ih1 ih2 =>
    intro hs x hx
    simp only [outsideL_cons, outside, List.cons_append, List.mem_cons, List.mem_append] at hx
    rcases hx with rfl | hx | hx
    · rintro d (⟨np, h⟩ | h) <;> cases h
    · exact ih1 hs x hx
    · exact ih2 (clear (derives_flags h1) hs) x hx
  | bitmap hb h1 _ ih1 ih2 =>
    intro hs x hx
    simp only [outsideL_cons, outside, List.cons_append, List.mem_cons, List.mem_append] at hx
    rcases hx with rfl | hx | hx
    · rintro d (⟨np, h⟩ | h) <;> cases h
    · exact ih1 hs x hx
    · exact ih2 (clear (derives_flags h1) hs) x hx
  | assessment ha hd hb h1 ht h2 hu h3 h4 ih1 ih2 ih3 ih4 =>
    intro hs x hx
    have f1 := derives_flags h1
    have f2 := (derives_flags h2).trans f1
    have f3 := (derives_flags h3).trans f2
    simp only [outsideL_cons, outside, List.cons_append, List.mem_cons, List.mem_append] at hx
    rcases hx with rfl | rfl | ((hx | hx) | hx) | hx
    · rintro d (⟨np, h⟩ | h) <;> cases h
    · rintro d (⟨np, h⟩ | h) <;> cases h
    · exact ih1 hs x hx
    · exact ih2 (clear f1 hs) x hx
    · exact ih3 (clear f2 hs) x hx
    · exact ih4 (clear f3 hs) x hx

/-! ## No padding when 000000 is unknown -/

theorem uses206_mono {a b : List ID} (h : Uses206 lk a) (hab : ∀ o, Mentions lk a o → Mentions lk b o) :
    Uses206 lk b := by
  obtain ⟨o, h1, h2⟩ := h
  exact ⟨o, hab o h1, h2⟩

include hid in
theorem derives_unpadded (h0 : ∀ d, lk 0 ≠ .ok d) {pad : Bool} {f f' : PFlags} {l : List ID}
    {ns : List Ast} (h : Derives lk pad f l ns f') :
    f.skipLocal = false → ¬ Uses206 lk l → Derives lk false f l ns f' := by
  have clear : ∀ {f g : PFlags}, FlagsLe g f → f.skipLocal = false → g.skipLocal = false := by
    intro f g h hf
    cases hg : g.skipLocal with
    | false => rfl
    | true => rw [h.1 hg] at hf; cases hf
  induction h with
  | nil => intro _ _; exact .nil
  | leaf hl _ ih =>
    intro hs hu
    exact .leaf hl (ih hs fun h => hu (uses206_mono h fun o ho => mentions_cons.2 (.inr (.inr ho))))
  | sequence hF hd he h1 _ ih1 ih2 =>
    intro hs hu
    exact .sequence hF hd he
      (ih1 hs fun h => hu (uses206_mono h fun o ho =>
        mentions_cons.2 (.inr (.inl ⟨_, ⟨hF, _, _, hd, he, rfl⟩, ho⟩))))
      (ih2 (clear (derives_flags h1) hs) fun h => hu (uses206_mono h fun o ho =>
        mentions_cons.2 (.inr (.inr ho))))
  | @scope f f₁ f' id d n j mk fin fout body rest ms ns hsc hd hn hj h1 _ ih1 ih2 =>
    intro hs hu
    have hb : ¬ Uses206 lk (body ++ List.replicate j 0) := by
      rintro ⟨o, h3, h4⟩
      rcases mentions_append.1 h3 with h3 | h3
      · exact hu ⟨o, mentions_cons.2 (.inr (.inr (mentions_append.2 (.inl h3)))), h4⟩
      · cases h3 with
        | here h3 => rw [List.eq_of_mem_replicate h3] at h4; exact absurd h4 (by decide)
        | deep h3 h5 => rw [List.eq_of_mem_replicate h3] at h5; exact absurd h5.1 (by decide)
    have hin : (fin f).skipLocal = false := by
      cases hsc with
      | skipLocal h => exact absurd ⟨id, .here (by simp), h⟩ hu
      | _ => exact hs
    have hj0 : j = 0 := by
      rcases Nat.eq_zero_or_pos j with h | h
      · exact h
      · rcases derives_legal hid h1 0 (mentions_append.2 (.inr (.here (List.mem_replicate.2 ⟨by omega, rfl⟩))))
          with h2 | ⟨_, h2 | h2⟩
        · obtain ⟨d, hd⟩ := h2.1; exact absurd hd (h0 d)
        · rw [hin] at h2; cases h2
        · exact absurd h2 hb
    exact .scope hsc hd hn (.inl hj0) (ih1 hin hb)
      (ih2 (clear (scope_flags hsc (derives_flags h1)) hs) fun h => hu (uses206_mono h fun o ho =>
        mentions_cons.2 (.inr (.inr (mentions_append.2 (.inr ho))))))
  | newRefval h hy hd ht h1 _ ih1 ih2 =>
    intro hs hu
    refine .newRefval h hy hd ht (ih1 hs fun h => hu (uses206_mono h fun o ho => ?_))
      (ih2 (clear (derives_flags h1) hs) fun h => hu (uses206_mono h fun o ho => ?_)) <;>
      rw [till_append ht]
    · exact mentions_cons.2 (.inr (.inr (mentions_append.2 (.inl ho))))
    · exact mentions_cons.2 (.inr (.inr (mentions_append.2 (.inr ho))))
  | bitmap hb h1 _ ih1 ih2 =>
    intro hs hu
    refine .bitmap hb (ih1 hs fun h => hu (uses206_mono h fun o ho => ?_))
      (ih2 (clear (derives_flags h1) hs) fun h => hu (uses206_mono h fun o ho => ?_)) <;>
      rw [bitmap_append hid hb]
    · exact mentions_append.2 (.inl (mentions_append.2 (.inr ho)))
    · exact mentions_append.2 (.inr ho)
  | assessment ha hd hb h1 ht h2 huu h3 _ ih1 ih2 ih3 ih4 =>
    intro hs hu
    have f1 := derives_flags h1
    have f2 := (derives_flags h2).trans f1
    have f3 := (derives_flags h3).trans f2
    refine .assessment ha hd hb (ih1 hs fun h => hu (uses206_mono h fun o ho => ?_)) ht
      (ih2 (clear f1 hs) fun h => hu (uses206_mono h fun o ho => ?_)) huu
      (ih3 (clear f2 hs) fun h => hu (uses206_mono h fun o ho => ?_))
      (ih4 (clear f3 hs) fun h => hu (uses206_mono h fun o ho => ?_)) <;>
      (rw [bitmap_append hid hb, till_append ht, until_append huu]
       refine mentions_cons.2 (.inr (.inr ?_)))
    · exact mentions_append.2 (.inl (mentions_append.2 (.inr ho)))
    · exact mentions_append.2 (.inr (mentions_append.2 (.inl ho)))
    · exact mentions_append.2 (.inr (mentions_append.2 (.inr (mentions_append.2 (.inl ho)))))
    · exact mentions_append.2 (.inr (mentions_append.2 (.inr (mentions_append.2 (.inr ho)))))

/-! ## Sequences inside -/

include hid in
/-- A sequence of the template was parsed, into fewer nodes. -/
theorem derives_member {pad : Bool} {f f' : PFlags} {l : List ID} {ns : List Ast}
    (h : Derives lk pad f l ns f') : ∀ s ms, s ∈ l → SeqMembers lk s ms →
    ∃ g us g', Derives lk pad g ms us g' ∧ (nodesL us).length < (nodesL ns).length := by
  induction h with
  | nil => intro s ms hs; cases hs
  | leaf hl _ ih =>
    intro s ms hs hm
    rcases List.mem_cons.1 hs with rfl | hs
    · have := hm.1
      rcases leaf_F hl with h | h <;> omega
    · obtain ⟨g, us, g', h1, h2⟩ := ih s ms hs hm
      exact ⟨g, us, g', h1, by simp only [nodesL_cons, List.length_append]; omega⟩
  | sequence hF hd he h1 h2 ih1 ih2 =>
    intro s ms hs hm
    rcases List.mem_cons.1 hs with rfl | hs
    · obtain ⟨_, d', e', hd', he', rfl⟩ := hm
      rw [hd] at hd'; cases hd'
      rw [he] at he'; cases he'
      exact ⟨_, _, _, h1, by simp only [nodesL_cons, nodes, List.length_append, List.length_cons]; omega⟩
    · obtain ⟨g, us, g', h1, h2⟩ := ih2 s ms hs hm
      exact ⟨g, us, g', h1, by simp only [nodesL_cons, List.length_append]; omega⟩
  | scope hsc hd hn hj h1 h2 ih1 ih2 =>
    intro s ms hs hm
    rcases List.mem_cons.1 hs with rfl | hs
    · have := hm.1
      rcases scope_F hsc with h | h <;> omega
    · rcases List.mem_append.1 hs with hs | hs
      · obtain ⟨g, us, g', h1, h2⟩ := ih1 s ms (List.mem_append_left _ hs) hm
        exact ⟨g, us, g', h1, by
          simp only [nodesL_cons, scope_nodes hsc, List.length_append, List.length_cons]; omega⟩
      · obtain ⟨g, us, g', h1, h2⟩ := ih2 s ms hs hm
        exact ⟨g, us, g', h1, by simp only [nodesL_cons, List.length_append]; omega⟩
  | newRefval h hy hd ht h1 h2 ih1 ih2 =>
    intro s ms hs hm
    rw [till_append ht] at hs
    rcases List.mem_cons.1 hs with rfl | hs
    · have := hm.1
      have := F_of_operator h (by decide) (by decide)
      omega
    · rcases List.mem_append.1 hs with hs | hs
      · obtain ⟨g, us, g', h1, h2⟩ := ih1 s ms hs hm
        exact ⟨g, us, g', h1, by simp only [nodesL_cons, nodes, List.length_append, List.length_cons]; omega⟩
      · obtain ⟨g, us, g', h1, h2⟩ := ih2 s ms hs hm
        exact ⟨g, us, g', h1, by simp only [nodesL_cons, List.length_append]; omega⟩
  | @bitmap f f₁ f' d l body rest ms' ns hb h1 _ ih1 ih2 =>
    intro s ms hs hm
    have hF : d.id.F = 2 := by
      cases hb with
      | recall hd => rw [hid _ _ hd]; decide
      | define hd => rw [hid _ _ hd]; decide
    rw [bitmap_append hid hb] at hs
    simp only [Option.map_some, Option.toList_some, List.mem_append, List.mem_singleton] at hs
    rcases hs with (rfl | hs) | hs
    · have := hm.1; omega
    · obtain ⟨g, us, g', h1, h2⟩ := ih1 s ms hs hm
      exact ⟨g, us, g', h1, by simp only [nodesL_cons, nodes, List.length_append, List.length_cons]; omega⟩
    · obtain ⟨g, us, g', h1, h2⟩ := ih2 s ms hs hm
      exact ⟨g, us, g', h1, by simp only [nodesL_cons, List.length_append]; omega⟩
  | @assessment f f₁ f₂ f₃ f' id d attrP memP bd l bids l₁ aids l₂ mids rest bms as ms' ns ha hd hb h1 ht h2 hu h3 h4 ih1 ih2 ih3 ih4 =>
    intro s ms hs hm
    have hF : ∀ y ∈ (bd.map Desc.id).toList, y.F = 2 := by
      intro y hy
      cases hb with
      | recall hd => simp [hid _ _ hd] at hy; subst hy; decide
      | define hd => simp [hid _ _ hd] at hy; subst hy; decide
      | adhoc => simp at hy
    rw [bitmap_append hid hb, till_append ht, until_append hu] at hs
    simp only [List.mem_cons, List.mem_append] at hs
    rcases hs with rfl | (hs | hs) | hs | hs | hs
    · have := hm.1
      have := assess_F ha
      omega
    · have := hF _ hs
      have := hm.1
      omega
    · obtain ⟨g, us, g', h1, h2⟩ := ih1 s ms hs hm
      exact ⟨g, us, g', h1, by simp only [nodesL_cons, nodes, List.length_append, List.length_cons]; omega⟩
    · obtain ⟨g, us, g', h1, h2⟩ := ih2 s ms hs hm
      exact ⟨g, us, g', h1, by simp only [nodesL_cons, nodes, List.length_append, List.length_cons]; omega⟩
    · obtain ⟨g, us, g', h1, h2⟩ := ih3 s ms hs hm
      exact ⟨g, us, g', h1, by simp only [nodesL_cons, nodes, List.length_append, List.length_cons]; omega⟩
    · obtain ⟨g, us, g', h1, h2⟩ := ih4 s ms hs hm
      exact ⟨g, us, g', h1, by simp only [nodesL_cons, List.length_append]; omega⟩

include hid in
theorem derives_mentions {l ms : List ID} {s : ID} (hm : Mentions lk l s) (hs : SeqMembers lk s ms)
    {pad : Bool} : ∀ {f f' : PFlags} {ns : List Ast}, Derives lk pad f l ns f' →
    ∃ g us g', Derives lk pad g ms us g' ∧ (nodesL us).length < (nodesL ns).length := by
  induction hm with
  | here h => exact fun hd => derives_member hid hd _ _ h hs
  | deep h1 h2 _ ih =>
    intro f f' ns hd
    obtain ⟨g, us, g', h3, h4⟩ := derives_member hid hd _ _ h1 h2
    obtain ⟨g2, vs, g2', h5, h6⟩ := ih hs h3
    exact ⟨g2, vs, g2', h5, by omega⟩

include hid in
/-- Nothing is derived from a template that uses a sequence containing itself. -/
theorem derives_acyclic {l ms : List ID} {s : ID} (hm : Mentions lk l s) (hs : SeqMembers lk s ms)
    (hself : Mentions lk ms s) {pad : Bool} {f f' : PFlags} {ns : List Ast} :
    ¬ Derives lk pad f l ns f' := by
  intro h
  obtain ⟨g, us, g', h1, _⟩ := derives_mentions hid hm hs h
  have key : ∀ n g us g', (nodesL us).length ≤ n → ¬ Derives lk pad g ms us g' := by
    intro n
    induction n with
    | zero =>
      intro g us g' hn h
      obtain ⟨_, vs, _, _, h3⟩ := derives_mentions hid hself hs h
      omega
    | succ n ih =>
      intro g us g' hn h
      obtain ⟨g2, vs, g2', h2, h3⟩ := derives_mentions hid hself hs h
      exact ih g2 vs g2' (by omega) h2
  exact key _ g us g' (Nat.le_refl _) h1

end

end Gobufr
