import Verif.Spec.Extend
import Verif.Proofs.Stale
import Verif.Proofs.Transcode

/-!
# The parser and the factory with two groups of tables

Used for `C115`.
-/

namespace Gobufr.ExtendSpec

/-- `o'` is `o`, always if `strict`, and if `o` is a result otherwise. -/
def Follows (strict : Prop) (o o' : Outcome α) : Prop := (strict → o = o') ∧ ∀ a, o = .ok a → o' = .ok a

/-! ## The parser -/

/-- On keepers of ids in `S`, `m'` does what `m` does; the keeper keeps its ids, the result meets `Q`. -/
def Lo (strict : Prop) (S : ID → Prop) (Q : α → Prop) (m m' : M PSt α) : Prop :=
  ∀ s : PSt, (∀ id ∈ s.k.ids, S id) →
    (strict → m s = m' s) ∧ (∀ a s', m s = (.ok a, s') → m' s = (.ok a, s')) ∧
    (∀ a s', m s = (.ok a, s') → Q a ∧ s'.k.ids = s.k.ids)

variable {strict : Prop} {S : ID → Prop}

theorem Lo.bind {Q : α → Prop} {Q' : β → Prop} {m m' : M PSt α} {f f' : α → M PSt β} (h : Lo strict S Q m m')
    (hf : ∀ a, Q a → Lo strict S Q' (f a) (f' a)) : Lo strict S Q' (m >>= f) (m' >>= f') := by
  intro s hs
  obtain ⟨h1, h2, h3⟩ := h s hs
  refine ⟨fun st => ?_, fun b s2 e => ?_, fun b s2 e => ?_⟩
  · rw [M.bind_apply, M.bind_apply, ← h1 st]
    rcases hx : m s with ⟨o, p⟩
    cases o with
    | ok a =>
      obtain ⟨q, k⟩ := h3 a p hx
      exact (hf a q p (by rw [k]; exact hs)).1 st
    | err e => rfl
    | panic w => rfl
    | diverge => rfl
  · obtain ⟨a, p, e1, e2⟩ := M.bind_eq_ok.1 e
    obtain ⟨q, k⟩ := h3 a p e1
    exact M.bind_eq_ok.2 ⟨a, p, h2 a p e1, (hf a q p (by rw [k]; exact hs)).2.1 b s2 e2⟩
  · obtain ⟨a, p, e1, e2⟩ := M.bind_eq_ok.1 e
    obtain ⟨q, k⟩ := h3 a p e1
    obtain ⟨q', k'⟩ := (hf a q p (by rw [k]; exact hs)).2.2 b s2 e2
    exact ⟨q', k'.trans k⟩

/-- A call that does not look at the tables. -/
theorem Lo.refl {Q : α → Prop} {m : M PSt α} (h : ∀ s : PSt, (∀ id ∈ s.k.ids, S id) → ∀ a s', m s = (.ok a, s') →
    Q a ∧ s'.k.ids = s.k.ids) : Lo strict S Q m m :=
  fun s hs => ⟨fun _ => rfl, fun _ _ e => e, h s hs⟩

theorem Lo.pure {Q : α → Prop} {a : α} (h : Q a) : Lo strict S Q (pure a) (pure a) :=
  Lo.refl fun s _ b s' e => by cases e; exact ⟨h, rfl⟩

theorem Lo.fail {Q : α → Prop} (e : Err) : Lo strict S Q (M.fail e) (M.fail e) :=
  Lo.refl fun _ _ _ _ e => nomatch e

theorem Lo.ite {Q : α → Prop} {p : Prop} [Decidable p] {m m' n n' : M PSt α} (h : Lo strict S Q m m')
    (k : Lo strict S Q n n') : Lo strict S Q (if p then m else n) (if p then m' else n') := by
  split <;> assumption

theorem Lo.mono {Q Q' : α → Prop} {m m' : M PSt α} (h : Lo strict S Q m m') (k : ∀ a, Q a → Q' a) :
    Lo strict S Q' m m' := fun s hs =>
  ⟨(h s hs).1, (h s hs).2.1, fun a s' e => ⟨k a ((h s hs).2.2 a s' e).1, ((h s hs).2.2 a s' e).2⟩⟩

/-- A call on the keeper whose results are ids in `S`. -/
theorem Lo.keeper {Q : α → Prop} {m : M Keeper α} (h : ∀ k : Keeper, (∀ id ∈ k.ids, S id) → ∀ a k', m k = (.ok a, k') →
    Q a ∧ k'.ids = k.ids) : Lo strict S Q (onKeeper m) (onKeeper m) := by
  refine Lo.refl fun s hs a s' e => ?_
  have e0 : (m s.k).1 = .ok a := congrArg Prod.fst e
  have e1 : m s.k = (.ok a, (m s.k).2) := Prod.ext e0 rfl
  have e2 : s' = { s with k := (m s.k).2 } := (congrArg Prod.snd e).symm
  obtain ⟨q, k⟩ := h s.k hs a _ e1
  rw [e2]
  exact ⟨q, k⟩

theorem lo_take : Lo strict S S (onKeeper Keeper.take) (onKeeper Keeper.take) := by
  refine Lo.keeper fun k hk a k' e => ?_
  unfold Keeper.take at e
  split at e
  · next id hid =>
    cases e
    exact ⟨hk _ (List.mem_of_getElem? hid), rfl⟩
  · cases e

theorem lo_back : Lo strict S (fun _ => True) (onKeeper Keeper.back) (onKeeper Keeper.back) :=
  Lo.keeper fun k _ a k' e => by cases e; exact ⟨trivial, rfl⟩

theorem take_ids {k k' : Keeper} {id : ID} (e : Keeper.take k = (.ok id, k')) : id ∈ k.ids ∧ k'.ids = k.ids := by
  unfold Keeper.take at e
  split at e
  · next id' hid =>
    cases e
    exact ⟨List.mem_of_getElem? hid, rfl⟩
  · cases e

theorem lo_peek : Lo strict S S (onKeeper Keeper.peek) (onKeeper Keeper.peek) := by
  refine Lo.keeper fun k hk a k' e => ?_
  unfold Keeper.peek at e
  obtain ⟨id, p, e1, e⟩ := M.bind_eq_ok.1 e
  obtain ⟨u, q, e2, e⟩ := M.bind_eq_ok.1 e
  cases e
  cases e2
  obtain ⟨m, l⟩ := take_ids e1
  exact ⟨hk _ m, l⟩

theorem takeN_ids : ∀ {n : Nat} {k k' : Keeper} {l : List ID}, Keeper.takeNLoop n k = (.ok l, k') →
    (∀ id ∈ l, id = 0 ∨ id ∈ k.ids) ∧ k'.ids = k.ids
  | 0, k, k', l, e => by cases e; exact ⟨fun _ h => (List.not_mem_nil h).elim, rfl⟩
  | n + 1, k, k', l, e => by
    unfold Keeper.takeNLoop at e
    obtain ⟨k0, p, e1, e⟩ := M.bind_eq_ok.1 e
    cases e1
    split at e
    · cases e
      exact ⟨fun id h => Or.inl (List.eq_of_mem_replicate h), rfl⟩
    · obtain ⟨id, p, e1, e⟩ := M.bind_eq_ok.1 e
      obtain ⟨ids, q, e2, e⟩ := M.bind_eq_ok.1 e
      cases e
      obtain ⟨m, h1⟩ := take_ids e1
      obtain ⟨m', h2⟩ := takeN_ids e2
      rw [h1] at m' h2
      refine ⟨fun x hx => ?_, h2⟩
      rcases List.mem_cons.1 hx with rfl | hx
      · exact Or.inr m
      · exact m' x hx

theorem lo_takeN (h0 : S 0) (n : Int) : Lo strict S (fun l => ∀ id ∈ l, S id) (onKeeper (Keeper.takeN n))
    (onKeeper (Keeper.takeN n)) := by
  refine Lo.keeper fun k hk a k' e => ?_
  unfold Keeper.takeN at e
  split at e
  · cases e
  · obtain ⟨m, h⟩ := takeN_ids e
    exact ⟨fun id hid => (m id hid).elim (fun h => h ▸ h0) (hk id), h⟩

theorem takeWhile_ids {p : ID → Bool} : ∀ {n : Nat} {b : Bool} {k k' : Keeper} {l : List ID},
    Keeper.takeWhileLoop p n b k = (.ok l, k') → (∀ id ∈ l, id ∈ k.ids) ∧ k'.ids = k.ids
  | 0, b, k, k', l, e => by cases e; exact ⟨fun _ h => (List.not_mem_nil h).elim, rfl⟩
  | n + 1, b, k, k', l, e => by
    unfold Keeper.takeWhileLoop at e
    obtain ⟨k0, p', e1, e⟩ := M.bind_eq_ok.1 e
    cases e1
    split at e
    · cases e
      exact ⟨fun _ h => (List.not_mem_nil h).elim, rfl⟩
    · obtain ⟨id, p', e1, e⟩ := M.bind_eq_ok.1 e
      obtain ⟨m, h1⟩ := take_ids e1
      have go : ∀ {b' : Bool}, (do let ids ← Keeper.takeWhileLoop p n b'; pure (id :: ids) : M Keeper (List ID)) p' = (.ok l, k') →
          (∀ id ∈ l, id ∈ k.ids) ∧ k'.ids = k.ids := by
        intro b' e
        obtain ⟨ids, q, e2, e⟩ := M.bind_eq_ok.1 e
        cases e
        obtain ⟨m', h2⟩ := takeWhile_ids e2
        rw [h1] at m' h2
        refine ⟨fun x hx => ?_, h2⟩
        rcases List.mem_cons.1 hx with rfl | hx
        · exact m
        · exact m' x hx
      split at e
      · exact go e
      · split at e
        · obtain ⟨u, q, e2, e⟩ := M.bind_eq_ok.1 e
          cases e2
          cases e
          exact ⟨fun _ h => (List.not_mem_nil h).elim, h1⟩
        · exact go e

theorem lo_takeWhile (p : ID → Bool) : Lo strict S (fun l => ∀ id ∈ l, S id) (onKeeper (Keeper.takeWhile p))
    (onKeeper (Keeper.takeWhile p)) := by
  refine Lo.keeper fun k hk a k' e => ?_
  unfold Keeper.takeWhile at e
  obtain ⟨k0, p', e1, e⟩ := M.bind_eq_ok.1 e
  cases e1
  obtain ⟨m, h⟩ := takeWhile_ids e
  exact ⟨fun id hid => hk id (m id hid), h⟩

theorem takeTill_ids {p : ID → Bool} : ∀ {n : Nat} {k k' : Keeper} {l : List ID},
    Keeper.takeTillLoop p n k = (.ok l, k') → (∀ id ∈ l, id ∈ k.ids) ∧ k'.ids = k.ids
  | 0, k, k', l, e => by cases e; exact ⟨fun _ h => (List.not_mem_nil h).elim, rfl⟩
  | n + 1, k, k', l, e => by
    unfold Keeper.takeTillLoop at e
    obtain ⟨k0, p', e1, e⟩ := M.bind_eq_ok.1 e
    cases e1
    split at e
    · cases e
      exact ⟨fun _ h => (List.not_mem_nil h).elim, rfl⟩
    · obtain ⟨id, p', e1, e⟩ := M.bind_eq_ok.1 e
      obtain ⟨m, h1⟩ := take_ids e1
      split at e
      · obtain ⟨u, q, e2, e⟩ := M.bind_eq_ok.1 e
        cases e2
        cases e
        exact ⟨fun _ h => (List.not_mem_nil h).elim, h1⟩
      · obtain ⟨ids, q, e2, e⟩ := M.bind_eq_ok.1 e
        cases e
        obtain ⟨m', h2⟩ := takeTill_ids e2
        rw [h1] at m' h2
        refine ⟨fun x hx => ?_, h2⟩
        rcases List.mem_cons.1 hx with rfl | hx
        · exact m
        · exact m' x hx

theorem lo_takeTill (p : ID → Bool) : Lo strict S (fun l => ∀ id ∈ l, S id) (onKeeper (Keeper.takeTill p))
    (onKeeper (Keeper.takeTill p)) := by
  refine Lo.keeper fun k hk a k' e => ?_
  unfold Keeper.takeTill at e
  obtain ⟨k0, p', e1, e⟩ := M.bind_eq_ok.1 e
  cases e1
  obtain ⟨m, h⟩ := takeTill_ids e
  exact ⟨fun id hid => hk id (m id hid), h⟩

theorem lo_setFlags (f : PFlags → PFlags) : Lo strict S (fun _ => True) (setFlags f) (setFlags f) :=
  Lo.refl fun s _ a s' e => by cases e; exact ⟨trivial, rfl⟩

theorem Lo.defer {Q : α → Prop} {m m' : M PSt α} (h : Lo strict S Q m m') (f : PFlags → PFlags) :
    Lo strict S Q (M.deferDo (setFlags f) m) (M.deferDo (setFlags f) m') := by
  intro s hs
  obtain ⟨h1, h2, h3⟩ := h s hs
  have key : ∀ a s', M.deferDo (setFlags f) m s = (.ok a, s') → ∃ p, m s = (.ok a, p) ∧ s' = { p with flags := f p.flags } := by
    intro a s' e
    unfold M.deferDo at e
    rcases hx : m s with ⟨o, p⟩
    rw [hx] at e
    cases o <;> cases e
    exact ⟨p, rfl, rfl⟩
  refine ⟨fun st => ?_, fun a s' e => ?_, fun a s' e => ?_⟩
  · unfold M.deferDo
    rw [h1 st]
  · obtain ⟨p, e1, rfl⟩ := key a s' e
    exact M.deferDo_ok (h2 a p e1) rfl
  · obtain ⟨p, e1, rfl⟩ := key a s' e
    exact h3 a p e1

/-- Tables that follow one another on `S`; sequences in `S` have members in `S`. -/
structure On (strict : Prop) (S : ID → Prop) (lk lk' : Lookup) : Prop where
  zero : S 0
  follows : ∀ id, S id → Follows strict (lk id) (lk' id)
  closed : ∀ id d e, S id → lk id = .ok d → d.entry = .d e → ∀ m ∈ e.members, S m

variable {lk lk' : Lookup} {rec rec' : M PSt (List Ast)}

/-- What the parser found for an id. -/
def Found (S : ID → Prop) (d : Desc) : Prop := ∀ e, d.entry = .d e → ∀ m ∈ e.members, S m

theorem lo_takeLookup (h : On strict S lk lk') : Lo strict S (Found S) (takeLookup lk) (takeLookup lk') :=
  lo_take.bind fun id hid s _ =>
    ⟨fun st => by show (lk id, s) = (lk' id, s); rw [(h.follows id hid).1 st],
     fun a s' e => by
      have e1 : lk id = .ok a := congrArg Prod.fst e
      have e2 : s = s' := congrArg Prod.snd e
      subst e2
      show (lk' id, s) = (.ok a, s)
      rw [(h.follows id hid).2 a e1],
     fun a s' e => by
      have e1 : lk id = .ok a := congrArg Prod.fst e
      have e2 : s = s' := congrArg Prod.snd e
      subst e2
      exact ⟨fun e' he => h.closed id a e' hid e1 he, rfl⟩⟩

/-- Run on ids of its own. -/
theorem lo_onIds (hr : Lo strict S (fun _ => True) rec rec') {ids : List ID} (hi : ∀ id ∈ ids, S id) :
    Lo strict S (fun _ => True) (onIds rec ids) (onIds rec' ids) := by
  intro s _
  obtain ⟨h1, h2, h3⟩ := hr ⟨s.flags, newKeeper ids⟩ hi
  refine ⟨fun st => ?_, fun a s' e => ?_, fun a s' e => ?_⟩
  · unfold onIds
    rw [h1 st]
  · have e1 : rec ⟨s.flags, newKeeper ids⟩ = (.ok a, (rec ⟨s.flags, newKeeper ids⟩).2) := eq_of_fst (congrArg Prod.fst e)
    have e2 : s' = { s with flags := (rec ⟨s.flags, newKeeper ids⟩).2.flags } := (congrArg Prod.snd e).symm
    unfold onIds
    rw [h2 _ _ e1, e2]
  · have e2 : s' = { s with flags := (rec ⟨s.flags, newKeeper ids⟩).2.flags } := (congrArg Prod.snd e).symm
    rw [e2]
    exact ⟨trivial, rfl⟩

theorem lo_populate (hr : Lo strict S (fun _ => True) rec rec') {ids : List ID} (hi : ∀ id ∈ ids, S id)
    (mk : List Ast → Ast) : Lo strict S (fun _ => True) (populateMembers rec ids mk) (populateMembers rec' ids mk) :=
  (lo_onIds hr hi).bind fun _ _ => Lo.pure trivial

theorem lo_element (h : On strict S lk lk') : Lo strict S (fun _ => True) (parseElementNode lk) (parseElementNode lk') := by
  refine Lo.bind (Q := fun _ => True) (Lo.refl fun s _ a s' e => by cases e; exact ⟨trivial, rfl⟩) fun st _ => ?_
  have k : ∀ d : Desc, Lo strict S (fun _ => True)
      (if d.id = 31021 then pure (.e031021 d) else pure (.element d (notPresent st.flags d)) : M PSt Ast)
      (if d.id = 31021 then pure (.e031021 d) else pure (.element d (notPresent st.flags d)) : M PSt Ast) :=
    fun d => Lo.ite (Lo.pure trivial) (Lo.pure trivial)
  exact Lo.ite (lo_take.bind fun id _ => (Lo.pure (Q := fun _ => True) trivial).bind fun d _ => k d)
    ((lo_takeLookup h).bind fun d _ => k d)

theorem lo_sequence (h : On strict S lk lk') (hr : Lo strict S (fun _ => True) rec rec') :
    Lo strict S (fun _ => True) (parseSequenceNode lk rec) (parseSequenceNode lk' rec') := by
  refine (lo_takeLookup h).bind fun d hd => ?_
  refine Lo.bind (Q := fun e : Dentry => ∀ m ∈ e.members, S m) (Lo.refl fun s _ a s' e => ?_) fun e he => lo_populate hr he _
  have e1 : d.dentry = .ok a := congrArg Prod.fst e
  have e2 : s = s' := congrArg Prod.snd e
  subst e2
  refine ⟨hd a ?_, rfl⟩
  unfold Desc.dentry at e1
  split at e1
  · next he => cases e1; exact he
  · cases e1

theorem lo_delayed (h : On strict S lk lk') (hr : Lo strict S (fun _ => True) rec rec') :
    Lo strict S (fun _ => True) (parseDelayedReplicationNode lk rec) (parseDelayedReplicationNode lk' rec') :=
  (lo_takeLookup h).bind fun _ _ => (lo_takeN h.zero _).bind fun _ hi => lo_populate hr hi _

theorem lo_fixed (h : On strict S lk lk') (hr : Lo strict S (fun _ => True) rec rec') :
    Lo strict S (fun _ => True) (parseFixedReplicationNode lk rec) (parseFixedReplicationNode lk' rec') :=
  (lo_takeLookup h).bind fun _ _ => (lo_takeN h.zero _).bind fun _ hi => lo_populate hr hi _

theorem lo_bitmap (h : On strict S lk lk') (hr : Lo strict S (fun _ => True) rec rec') :
    Lo strict S (fun _ => True) (parseBitmapNode lk rec) (parseBitmapNode lk' rec') :=
  (lo_takeLookup h).bind fun _ _ => Lo.ite (Lo.pure trivial) (Lo.ite
    (lo_back.bind fun _ _ => (lo_takeWhile _).bind fun _ hi => lo_populate hr hi _)
    (Lo.ite ((lo_takeWhile _).bind fun _ hi => lo_populate hr hi _) (Lo.fail _)))

theorem lo_assess (h : On strict S lk lk') (hr : Lo strict S (fun _ => True) rec rec') (d : Desc) (p q : ID → Bool) :
    Lo strict S (fun _ => True) (assembleAssessmentNode lk rec d p q) (assembleAssessmentNode lk' rec' d p q) :=
  (lo_bitmap h hr).bind fun _ _ => (lo_takeTill _).bind fun _ hi => (lo_onIds hr hi).bind fun _ _ =>
    (lo_takeWhile _).bind fun _ hi => lo_populate hr hi _

theorem lo_marked (h : On strict S lk lk') (hr : Lo strict S (fun _ => True) rec rec') (a b : ID) (d : Desc) :
    Lo strict S (fun _ => True) (assembleOpMarkedNode lk rec a b d) (assembleOpMarkedNode lk' rec' a b d) :=
  Lo.ite (lo_assess h hr _ _ _) (Lo.ite (Lo.pure trivial) (Lo.fail _))

theorem lo_operator (h : On strict S lk lk') (hr : Lo strict S (fun _ => True) rec rec') :
    Lo strict S (fun _ => True) (parseOperatorNode lk rec) (parseOperatorNode lk' rec') := by
  refine (lo_takeLookup h).bind fun d _ => ?_
  refine Lo.ite (Lo.pure trivial) <| Lo.ite (Lo.pure trivial) <| Lo.ite ?_ <| Lo.ite ?_ <| Lo.ite (Lo.pure trivial) <|
    Lo.ite ?_ <| Lo.ite (Lo.pure trivial) <| Lo.ite (Lo.pure trivial) <| Lo.ite ?_ <| Lo.ite ?_ <|
    Lo.ite (lo_marked h hr _ _ _) <| Lo.ite (lo_marked h hr _ _ _) <| Lo.ite (lo_marked h hr _ _ _) <|
    Lo.ite (lo_marked h hr _ _ _) <| Lo.ite (Lo.pure trivial) <| Lo.ite (lo_back.bind fun _ _ => lo_bitmap h hr) <|
    Lo.ite (Lo.ite (Lo.pure trivial) (lo_back.bind fun _ _ => lo_bitmap h hr)) <| Lo.ite (Lo.fail _) (Lo.fail _)
  · exact Lo.ite (Lo.pure trivial) ((lo_takeTill _).bind fun _ hi => lo_populate hr hi _)
  · exact Lo.ite ((lo_takeN h.zero _).bind fun _ hi => lo_populate hr hi _) (Lo.pure trivial)
  · exact (lo_setFlags _).bind fun _ _ => Lo.defer ((lo_takeN h.zero _).bind fun _ hi => lo_populate hr hi _) _
  · exact (lo_setFlags _).bind fun _ _ => Lo.defer ((lo_takeN h.zero _).bind fun _ hi => lo_populate hr hi _) _
  · exact Lo.ite (Lo.fail _) (lo_assess h hr _ _ _)

theorem lo_one (h : On strict S lk lk') (hr : Lo strict S (fun _ => True) rec rec') (id : ID) :
    Lo strict S (fun _ => True) (parseOne lk rec id) (parseOne lk' rec' id) :=
  Lo.ite (lo_sequence h hr) <| Lo.ite (lo_delayed h hr) <| Lo.ite (lo_fixed h hr) <| Lo.ite (lo_operator h hr) <|
    Lo.ite (lo_element h) (Lo.fail _)

theorem lo_through (h : On strict S lk lk') : ∀ n : Nat,
    Lo strict S (fun _ => True) (processThrough lk n) (processThrough lk' n)
  | 0 => Lo.refl fun _ _ _ _ e => nomatch e
  | n + 1 => by
    unfold processThrough
    refine Lo.bind (Q := fun _ => True) (Lo.refl fun s _ a s' e => by cases e; exact ⟨trivial, rfl⟩) fun st _ => ?_
    exact Lo.ite (Lo.pure trivial) (lo_peek.bind fun id _ => (lo_one h (lo_through h n) id).bind fun _ _ =>
      (lo_through h n).bind fun _ _ => Lo.pure trivial)

theorem follows_parse (h : On strict S lk lk') (n : Nat) {ids : List ID} (hi : ∀ id ∈ ids, S id) :
    Follows strict (parse lk n ids) (parse lk' n ids) := by
  obtain ⟨h1, h2, -⟩ := lo_populate (lo_through h n) hi (.base rootDescriptor) ⟨{}, newKeeper []⟩
    (fun _ h => (List.not_mem_nil h).elim)
  refine ⟨fun st => ?_, fun a e => ?_⟩
  · unfold parse
    rw [h1 st]
  · unfold parse at e ⊢
    rw [h2 a _ (eq_of_fst e)]

/-! ## Groups of tables -/

open EncodeSpec (Paired)

/-- Two chains of table groups. -/
inductive Chains (R : SingleGroup → SingleGroup → Prop) : Outcome Unit × ChainGroup → Outcome Unit × ChainGroup → Prop
  | ok {l l' : List SingleGroup} : Paired R l l' → Chains R (.ok (), ⟨l⟩) (.ok (), ⟨l'⟩)
  | err (e : Err) (g g' : ChainGroup) : Chains R (.err e, g) (.err e, g')
  | panic (w : String) (g g' : ChainGroup) : Chains R (.panic w, g) (.panic w, g')
  | diverge (g g' : ChainGroup) : Chains R (.diverge, g) (.diverge, g')

theorem single_loads {RB : TableB → TableB → Prop} {RD : TableD → TableD → Prop} {t t' : Tables} (n : TableNum)
    (hb : Loads RB (t.getB n) (t'.getB n)) (hd : Loads RD (t.getD n) (t'.getD n)) :
    Loads (fun x y => RB x.b y.b ∧ RD x.d y.d ∧ t.getB n = .ok x.b ∧ t.getD n = .ok x.d) (newSingleTableGroup t n)
      (newSingleTableGroup t' n) := by
  unfold newSingleTableGroup
  generalize e1 : t.getB n = o1 at hb
  generalize e2 : t'.getB n = o2 at hb
  cases hb with
  | both h =>
    show Loads _ (Outcome.bind (t.getD n) _) (Outcome.bind (t'.getD n) _)
    generalize e3 : t.getD n = o3 at hd
    generalize e4 : t'.getD n = o4 at hd
    cases hd with
    | both h' => exact .both ⟨h, h', rfl, rfl⟩
    | err e => exact .err e
    | panic w => exact .panic w
    | diverge => exact .diverge
  | err e => exact .err e
  | panic w => exact .panic w
  | diverge => exact .diverge

theorem paired_snoc {R : SingleGroup → SingleGroup → Prop} {x y : SingleGroup} (h : R x y) :
    ∀ {l l' : List SingleGroup}, Paired R l l' → Paired R (l ++ [x]) (l' ++ [y])
  | _, _, .nil => .cons h .nil
  | _, _, .cons a b => .cons a (paired_snoc h b)

theorem add_loads {R : SingleGroup → SingleGroup → Prop} {t t' : Tables} {n : TableNum} {l l' : List SingleGroup}
    (h : Loads R (newSingleTableGroup t n) (newSingleTableGroup t' n)) (hl : Paired R l l') :
    Chains R (addSingleTableGroup t n ⟨l⟩) (addSingleTableGroup t' n ⟨l'⟩) := by
  unfold addSingleTableGroup
  rw [M.bind_apply, M.bind_apply]
  unfold M.lift
  generalize newSingleTableGroup t n = o1 at h
  generalize newSingleTableGroup t' n = o2 at h
  cases h with
  | both h => exact .ok (paired_snoc h hl)
  | err e => exact .err e _ _
  | panic w => exact .panic w _ _
  | diverge => exact .diverge _ _

/-- A failed addition leaves the chain as it was. -/
theorem add_err {t : Tables} {n : TableNum} {g g' : ChainGroup} {e : Err} (h : addSingleTableGroup t n g = (.err e, g')) :
    g' = g := by
  unfold addSingleTableGroup at h
  rw [M.bind_apply] at h
  unfold M.lift at h
  generalize newSingleTableGroup t n = o at h
  cases o <;> cases h
  rfl

theorem groups_loads {R : SingleGroup → SingleGroup → Prop} {t t' : Tables}
    (h : ∀ n, Loads R (newSingleTableGroup t n) (newSingleTableGroup t' n)) (a b c d e : Int) :
    Chains R (addLocalAndWmoTableGroups t a b c d e ⟨[]⟩) (addLocalAndWmoTableGroups t' a b c d e ⟨[]⟩) := by
  unfold addLocalAndWmoTableGroups
  split
  · have k := add_loads (h ⟨a, b, c, e⟩) (l := []) (l' := []) .nil
    rcases h1 : addSingleTableGroup t ⟨a, b, c, e⟩ ⟨[]⟩ with ⟨o1, g1⟩
    rcases h2 : addSingleTableGroup t' ⟨a, b, c, e⟩ ⟨[]⟩ with ⟨o2, g2⟩
    rw [h1, h2] at k
    rw [M.handle_eq h1, M.handle_eq h2]
    cases k with
    | ok p => exact add_loads (h _) p
    | err er _ _ =>
      dsimp only
      cases add_err h1
      cases add_err h2
      split
      · have k := add_loads (h ⟨a, b, 0, e⟩) (l := []) (l' := []) .nil
        rw [M.bind_apply, M.bind_apply]
        rcases h3 : addSingleTableGroup t ⟨a, b, 0, e⟩ ⟨[]⟩ with ⟨o3, g3⟩
        rcases h4 : addSingleTableGroup t' ⟨a, b, 0, e⟩ ⟨[]⟩ with ⟨o4, g4⟩
        rw [h3, h4] at k
        cases k with
        | ok p => exact add_loads (h _) p
        | err e _ _ => exact .err e _ _
        | panic w _ _ => exact .panic w _ _
        | diverge _ _ => exact .diverge _ _
      · exact .err er _ _
    | panic w _ _ => exact .panic w _ _
    | diverge _ _ => exact .diverge _ _
  · exact add_loads (h _) .nil

theorem chain_cons (x : SingleGroup) (l : List SingleGroup) (id : ID) : ChainGroup.lookup ⟨x :: l⟩ id =
    match x.lookup id with
    | .ok d => .ok d
    | .err _ => ChainGroup.lookup ⟨l⟩ id
    | .panic w => .panic w
    | .diverge => .diverge := rfl

/-- Chains of groups that give the same answer give the same answer. -/
theorem chain_same {id : ID} : ∀ {l l' : List SingleGroup}, Paired (fun x y => x.lookup id = y.lookup id) l l' →
    ChainGroup.lookup ⟨l⟩ id = ChainGroup.lookup ⟨l'⟩ id
  | _, _, .nil => rfl
  | x :: l, y :: l', .cons h hs => by
    rw [chain_cons, chain_cons, h, chain_same hs]

/-- What a chain finds is found by the other chain. -/
theorem chain_follows {id : ID} {d : Desc} : ∀ {l l' : List SingleGroup},
    Paired (fun x y => (∀ d, x.lookup id = .ok d → y.lookup id = .ok d) ∧
      (∀ e, x.lookup id = .err e → ∃ e, y.lookup id = .err e)) l l' →
    ChainGroup.lookup ⟨l⟩ id = .ok d → ChainGroup.lookup ⟨l'⟩ id = .ok d
  | _, _, .nil, h => by cases h
  | x :: l, y :: l', .cons h hs, hd => by
    rw [chain_cons] at hd ⊢
    cases hx : x.lookup id with
    | ok d' =>
      rw [hx] at hd
      rw [h.1 d' hx]
      exact hd
    | err e =>
      rw [hx] at hd
      obtain ⟨e', he⟩ := h.2 e hx
      rw [he]
      exact chain_follows hs hd
    | panic w => rw [hx] at hd; cases hd
    | diverge => rw [hx] at hd; cases hd

theorem Paired.imp' {α β : Type} {R R' : α → β → Prop} (h : ∀ a b, R a b → R' a b) :
    ∀ {l : List α} {l' : List β}, Paired R l l' → Paired R' l l'
  | _, _, .nil => .nil
  | _, _, .cons a b => .cons (h _ _ a) (Paired.imp' h b)

theorem SameOn.groups {T : ID → Prop} {t t' : Tables} (h : SameOn T t t') (n : TableNum) :
    Loads (fun x y => ∀ id, T id → x.lookup id = y.lookup id) (newSingleTableGroup t n) (newSingleTableGroup t' n) := by
  have k := single_loads n (h.b n) (h.d n)
  generalize newSingleTableGroup t n = o at k
  generalize newSingleTableGroup t' n = o' at k
  cases k with
  | both q =>
    refine .both fun id hid => ?_
    unfold SingleGroup.lookup
    rw [q.1 id hid, q.2.1 id hid]
  | err e => exact .err e
  | panic w => exact .panic w
  | diverge => exact .diverge

theorem tableB_cases (b : TableB) (id : ID) : (∃ d, b.lookup id = .ok d) ∨ b.lookup id = .err (.msg "ID not found") := by
  unfold TableB.lookup
  split
  · exact Or.inl ⟨_, rfl⟩
  · exact Or.inr rfl

theorem tableD_cases (b : TableD) (id : ID) : (∃ d, b.lookup id = .ok d) ∨ b.lookup id = .err (.msg "ID not found") := by
  unfold TableD.lookup
  split
  · exact Or.inl ⟨_, rfl⟩
  · exact Or.inr rfl

/-- What a group answers is known to the tables, or holds of any group. -/
theorem Grown.groups {t t' : Tables} (h : Grown t t') (n : TableNum) :
    Loads (fun x y => ∀ id, ((∀ d, x.lookup id = .ok d → y.lookup id = .ok d) ∧
        (∀ e, x.lookup id = .err e → (Known t id ∨ id.F ≠ 0 ∧ id.F ≠ 3) → ∃ e, y.lookup id = .err e)) ∧
        ((∃ d, x.lookup id = .ok d) → Known t id ∨ id.F ≠ 0 ∧ id.F ≠ 3))
      (newSingleTableGroup t n) (newSingleTableGroup t' n) := by
  have k := single_loads n (h.b n) (h.d n)
  generalize newSingleTableGroup t n = o at k
  generalize newSingleTableGroup t' n = o' at k
  cases k with
  | @both x y q =>
    refine .both fun id => ?_
    obtain ⟨qb, qd, eb, ed⟩ := q
    unfold SingleGroup.lookup
    split
    · next h0 =>
      refine ⟨⟨fun d => (qb id d).1, fun e he hk => ?_⟩, fun ⟨d, hd⟩ => Or.inl (Or.inl ⟨n, x.b, d, eb, hd⟩)⟩
      rcases tableB_cases y.b id with ⟨d, hd⟩ | hd
      · rcases (qb id d).2 hd with hx | hx
        · rw [hx] at he; cases he
        · rcases hk with hk | hk
          · exact absurd hk hx
          · exact absurd h0 hk.1
      · exact ⟨_, hd⟩
    · next h0 =>
      split
      · next h1 => exact ⟨⟨fun d hd => hd, fun e he => nomatch he⟩, fun _ => Or.inr ⟨h0, by rw [h1]; decide⟩⟩
      · split
        · next h2 => exact ⟨⟨fun d hd => hd, fun e he => nomatch he⟩, fun _ => Or.inr ⟨h0, by rw [h2]; decide⟩⟩
        · split
          · next h3 =>
            refine ⟨⟨fun d => (qd id d).1, fun e he hk => ?_⟩, fun ⟨d, hd⟩ => Or.inl (Or.inr ⟨n, x.d, d, ed, hd⟩)⟩
            rcases tableD_cases y.d id with ⟨d, hd⟩ | hd
            · rcases (qd id d).2 hd with hx | hx
              · rw [hx] at he; cases he
              · rcases hk with hk | hk
                · exact absurd hk hx
                · exact absurd h3 hk.2
            · exact ⟨_, hd⟩
          · exact ⟨⟨fun d hd => hd, fun e he _ => ⟨_, rfl⟩⟩, fun ⟨d, hd⟩ => nomatch hd⟩
  | err e => exact .err e
  | panic w => exact .panic w
  | diverge => exact .diverge

theorem chain_ok_mem {id : ID} {d : Desc} : ∀ {l : List SingleGroup}, ChainGroup.lookup ⟨l⟩ id = .ok d →
    ∃ x ∈ l, x.lookup id = .ok d
  | [], h => by cases h
  | x :: l, hd => by
    rw [chain_cons] at hd
    cases hx : x.lookup id with
    | ok d' =>
      rw [hx] at hd
      cases hd
      exact ⟨x, List.mem_cons_self, hx⟩
    | err e =>
      rw [hx] at hd
      obtain ⟨y, hy, h⟩ := chain_ok_mem (l := l) hd
      exact ⟨y, List.mem_cons_of_mem _ hy, h⟩
    | panic w => rw [hx] at hd; cases hd
    | diverge => rw [hx] at hd; cases hd

theorem Paired.left_mem {α β : Type} {R : α → β → Prop} {a : α} : ∀ {l : List α} {l' : List β}, Paired R l l' → a ∈ l →
    ∃ b, R a b
  | _, _, .cons h hs, m => by
    rcases List.mem_cons.1 m with rfl | m
    · exact ⟨_, h⟩
    · exact Paired.left_mem hs m

/-- Two chains the factory may set up with tables that follow one another. -/
def Groups (strict : Prop) (T : ID → Prop) (g g' : ChainGroup) : Prop :=
  ∀ id, T id → Follows strict (g.lookup id) (g'.lookup id)

theorem SameOn.chains {T : ID → Prop} {l l' : List SingleGroup}
    (hl : Paired (fun x y => ∀ id, T id → SingleGroup.lookup x id = SingleGroup.lookup y id) l l') :
    Groups True T ⟨l⟩ ⟨l'⟩ := fun id hid => by
  have e := chain_same (Paired.imp' (fun _ _ k => k id hid) hl)
  exact ⟨fun _ => e, fun a ha => e ▸ ha⟩

theorem Grown.chains {t : Tables} {l l' : List SingleGroup}
    (hl : Paired (fun x y => ∀ id, ((∀ d, SingleGroup.lookup x id = .ok d → y.lookup id = .ok d) ∧
        (∀ e, x.lookup id = .err e → (Known t id ∨ id.F ≠ 0 ∧ id.F ≠ 3) → ∃ e, y.lookup id = .err e)) ∧
        ((∃ d, x.lookup id = .ok d) → Known t id ∨ id.F ≠ 0 ∧ id.F ≠ 3)) l l') :
    Groups False (fun _ => True) ⟨l⟩ ⟨l'⟩ := fun id _ => by
  refine ⟨fun h => h.elim, fun d hd => ?_⟩
  obtain ⟨x, hx, hxd⟩ := chain_ok_mem hd
  obtain ⟨y, hy⟩ := Paired.left_mem hl hx
  have hk := (hy id).2 ⟨d, hxd⟩
  exact chain_follows (Paired.imp' (fun _ _ k => ⟨(k id).1.1, fun e he => (k id).1.2 e he hk⟩) hl) hd

/-! ## The factory -/

variable {F : Type}

/-- Factories that differ at most in their table groups, which are related to the template by `P`. -/
structure Near (P : Option UnexpandedTemplate → Option ChainGroup → Option ChainGroup → Prop) (s t : Fac F) : Prop where
  r : s.r = t.r
  message : s.message = t.message
  ut : s.ut = t.ut
  tables : P s.ut s.tableGroup t.tableGroup

/-- What `m` does in one factory `m'` does in the other. -/
def Two (strict : Prop) (P : Option UnexpandedTemplate → Option ChainGroup → Option ChainGroup → Prop)
    (m m' : M (Fac F) α) : Prop := ∀ s t : Fac F, Near P s t →
  (strict → (m s).1 = (m' t).1 ∧ (m s).2.r = (m' t).2.r) ∧
  (∀ a s', m s = (.ok a, s') → ∃ t', m' t = (.ok a, t') ∧ Near P s' t') ∧
  (m s).2.ut = s.ut ∧ (m s).2.tableGroup = s.tableGroup

variable {P : Option UnexpandedTemplate → Option ChainGroup → Option ChainGroup → Prop}

theorem Two.bind {m m' : M (Fac F) α} {f f' : α → M (Fac F) β} (h : Two strict P m m')
    (hf : ∀ a, Two strict P (f a) (f' a)) : Two strict P (m >>= f) (m' >>= f') := by
  intro s t n
  obtain ⟨h1, h2, h3, h4⟩ := h s t n
  rw [M.bind_apply, M.bind_apply]
  rcases hx : m s with ⟨o, p⟩
  rcases hy : m' t with ⟨o', q⟩
  rw [hx] at h1 h2 h3 h4
  rw [hy] at h1 h2
  dsimp only at h1 h2 h3 h4
  cases o with
  | ok a =>
    obtain ⟨t', e, n'⟩ := h2 a p rfl
    cases e
    obtain ⟨k1, k2, k3, k4⟩ := hf a p q n'
    exact ⟨k1, k2, k3.trans h3, k4.trans h4⟩
  | err e =>
    refine ⟨fun st => ?_, fun a s' e => (by cases e), h3, h4⟩
    obtain ⟨e1, e2⟩ := h1 st
    subst e1
    exact ⟨rfl, e2⟩
  | panic w =>
    refine ⟨fun st => ?_, fun a s' e => (by cases e), h3, h4⟩
    obtain ⟨e1, e2⟩ := h1 st
    subst e1
    exact ⟨rfl, e2⟩
  | diverge =>
    refine ⟨fun st => ?_, fun a s' e => (by cases e), h3, h4⟩
    obtain ⟨e1, e2⟩ := h1 st
    subst e1
    exact ⟨rfl, e2⟩

theorem Two.wrap {m m' : M (Fac F) α} (h : Two strict P m m') (w : String) :
    Two strict P (M.wrapErr w m) (M.wrapErr w m') := by
  intro s t n
  obtain ⟨h1, h2, h3, h4⟩ := h s t n
  unfold M.wrapErr
  rcases hx : m s with ⟨o, p⟩
  rcases hy : m' t with ⟨o', q⟩
  rw [hx] at h1 h2 h3 h4
  rw [hy] at h1 h2
  dsimp only at h1 h2 h3 h4
  cases o with
  | ok a =>
    obtain ⟨t', e, n'⟩ := h2 a p rfl
    cases e
    exact ⟨fun _ => ⟨rfl, n'.r⟩, fun b s' e => by cases e; exact ⟨q, rfl, n'⟩, h3, h4⟩
  | err e =>
    refine ⟨fun st => ?_, fun a s' e => (by cases e), h3, h4⟩
    obtain ⟨e1, e2⟩ := h1 st
    subst e1
    exact ⟨rfl, e2⟩
  | panic w =>
    refine ⟨fun st => ?_, fun a s' e => (by cases e), h3, h4⟩
    obtain ⟨e1, e2⟩ := h1 st
    subst e1
    exact ⟨rfl, e2⟩
  | diverge =>
    refine ⟨fun st => ?_, fun a s' e => (by cases e), h3, h4⟩
    obtain ⟨e1, e2⟩ := h1 st
    subst e1
    exact ⟨rfl, e2⟩

theorem two_plain {m : M (Fac F) α} (h : Plain m) : Two strict P m m := by
  intro s t n
  obtain ⟨h1, h2, h3, h4, h5⟩ := h s t n.r n.message
  obtain ⟨-, -, -, k4, k5⟩ := h t s n.r.symm n.message.symm
  refine ⟨fun _ => ⟨h1, h2⟩, fun a s' e => ?_, h4, h5⟩
  rw [e] at h1 h2 h3 h4 h5
  dsimp only at h1 h2 h3 h4 h5
  refine ⟨(m t).2, Prod.ext h1.symm rfl, ⟨h2, h3, by rw [h4, k4, n.ut], ?_⟩⟩
  rw [h4, h5, k5]
  exact n.tables

/-- Table groups with which the parser does the same with the template. -/
def Parses' (strict : Prop) (n : Nat) (ut : Option UnexpandedTemplate) (tg tg' : Option ChainGroup) : Prop :=
  ∃ g g', tg = some g ∧ tg' = some g' ∧ ∀ u, ut = some u →
    Follows strict (parse g.lookup n u.ids) (parse g'.lookup n u.ids)

theorem two_parse {c c' : FacCfg} (hc : SameBut c c') :
    Two strict (Parses' strict c.fuel) (Fac.parseTemplate c : M (Fac F) Ast) (Fac.parseTemplate c') := by
  intro s t n
  obtain ⟨g, g', hg, hg', h⟩ := n.tables
  have hf : c'.fuel = c.fuel := by rw [hc]
  unfold Fac.parseTemplate Fac.lookup
  rw [← n.ut, hg, hg', hf]
  cases hu : s.ut with
  | none => exact ⟨fun _ => ⟨rfl, n.r⟩, fun a s' e => (by cases e), hu, hg⟩
  | some u =>
    obtain ⟨h1, h2⟩ := h u hu
    dsimp only
    refine ⟨fun st => ⟨by rw [h1 st], n.r⟩, fun a s' e => ?_, hu, hg⟩
    have e1 : Outcome.wrapErr "cannot parse template" (parse g.lookup c.fuel u.ids) = .ok a := congrArg Prod.fst e
    have e2 : s = s' := congrArg Prod.snd e
    subst e2
    refine ⟨t, ?_, n⟩
    cases hp : parse g.lookup c.fuel u.ids with
    | ok a' =>
      rw [hp] at e1
      cases e1
      rw [h2 _ hp]
      rfl
    | err e => rw [hp] at e1; cases e1
    | panic w => rw [hp] at e1; cases e1
    | diverge => rw [hp] at e1; cases e1

variable [GoFloat F]

theorem two_payloadField {c c' : FacCfg} (hc : SameBut c c') (name : GoString) (n : Int) (b : Bool) :
    Two strict (Parses' strict c.fuel) (Fac.newPayloadField c name n b : M (Fac F) (Field F))
      (Fac.newPayloadField c' name n b) := by
  have hd : ∀ tree : Ast, (Fac.verboseDump c' tree : M (Fac F) Unit) = Fac.verboseDump c tree := fun tree => by
    rw [hc]; rfl
  have hp : ∀ tree : Ast, (Fac.decodePayload c' tree n b : M (Fac F) (Payload F)) = Fac.decodePayload c tree n b :=
    fun tree => by rw [hc]; rfl
  unfold Fac.newPayloadField
  refine (two_plain plain_pos).bind fun _ => (two_parse hc).bind fun tree => ?_
  rw [hd, hp]
  exact two_plain ((plain_dump c _).bind fun _ => (plain_payload c _ n b).bind fun _ => plain_pos.bind fun _ =>
    (plain_changeSection _).bind fun _ => (plain_setProxyField _).bind fun _ => plain_pure _)

theorem two_section4 {c c' : FacCfg} (hc : SameBut c c') :
    Two strict (Parses' strict c.fuel) (Script.section4 c : M (Fac F) Unit) (Script.section4 c') :=
  (two_plain (plain_newSection 4 (str "Data Section"))).bind fun _ =>
    (two_plain (plain_field _)).bind fun _ => (two_plain (plain_field _)).bind fun _ =>
    (two_plain (plain_proxyValue "nSubsets")).bind fun _ => (two_plain (plain_proxyValue "isCompressed")).bind fun _ =>
    ((two_payloadField hc _ _ _).wrap _).bind fun _ =>
    two_plain ((plain_lift _).bind fun _ => plain_scriptPadding _)

/-- The two calls have the same result from the factory `s`, provided the one that the first call leaves
behind meets `H`. -/
def Res (strict : Prop) (H : Fac F → Prop) (s : Fac F) (m m' : M (Fac F) α) : Prop := H (m s).2 →
  (strict → (m s).1 = (m' s).1 ∧ (m s).2.r = (m' s).2.r) ∧
  (∀ a, (m s).1 = .ok a → (m' s).1 = .ok a ∧ (m s).2.r = (m' s).2.r)

omit [GoFloat F] in
theorem Res.bind {H : Fac F → Prop} {s : Fac F} {x : M (Fac F) α} {f f' : α → M (Fac F) β}
    (h : ∀ a p, x s = (.ok a, p) → Res strict H p (f a) (f' a)) : Res strict H s (x >>= f) (x >>= f') := by
  unfold Res
  rw [M.bind_apply, M.bind_apply]
  rcases hx : x s with ⟨o, p⟩
  cases o with
  | ok a => exact h a p hx
  | err e => exact fun _ => ⟨fun _ => ⟨rfl, rfl⟩, fun a e => by cases e⟩
  | panic w => exact fun _ => ⟨fun _ => ⟨rfl, rfl⟩, fun a e => by cases e⟩
  | diverge => exact fun _ => ⟨fun _ => ⟨rfl, rfl⟩, fun a e => by cases e⟩

/-- With the tables of `c'` the factory finds the same groups as with those of `c`. -/
def Serves (strict : Prop) (T : ID → Prop) (t t' : Tables) : Prop :=
  ∀ a b c d e, Chains (fun _ _ => True) (addLocalAndWmoTableGroups t a b c d e ⟨[]⟩)
      (addLocalAndWmoTableGroups t' a b c d e ⟨[]⟩) ∧
    ∀ g g', addLocalAndWmoTableGroups t a b c d e ⟨[]⟩ = (.ok (), g) →
      addLocalAndWmoTableGroups t' a b c d e ⟨[]⟩ = (.ok (), g') → Groups strict T g g'

/-- After the template is read. -/
def rest (c : FacCfg) : M (Fac F) (Message F) := do
  Script.section4 c
  Script.section5
  Fac.theMessage

theorem two_rest {c c' : FacCfg} (hc : SameBut c c') :
    Two strict (Parses' strict c.fuel) (rest c : M (Fac F) (Message F)) (rest c') :=
  (two_section4 hc).bind fun _ => (two_plain plain_section5).bind fun _ => two_plain plain_theMessage

theorem res_tables {T : ID → Prop} {c c' : FacCfg} (hc : SameBut c c') (ht : Serves strict T c.tables c'.tables)
    (s : Fac F) (i1 i2 i3 i4 i5 : Int) :
    Res strict (Within T) s (raise (Fac.initTableGroup c i1 i2 i3 i4 i5) >>= fun _ => rest c)
      (raise (Fac.initTableGroup c' i1 i2 i3 i4 i5) >>= fun _ => rest c') := by
  obtain ⟨h1, h2⟩ := ht i1 i2 i3 i4 i5
  unfold Res
  rw [M.bind_apply, M.bind_apply]
  unfold raise M.wrapErr Fac.initTableGroup
  rcases hx : addLocalAndWmoTableGroups c.tables i1 i2 i3 i4 i5 ⟨[]⟩ with ⟨o, g⟩
  rcases hy : addLocalAndWmoTableGroups c'.tables i1 i2 i3 i4 i5 ⟨[]⟩ with ⟨o', g'⟩
  rw [hx, hy] at h1
  cases h1 with
  | @ok l l' _ =>
    dsimp only
    intro hw
    have hg := h2 _ _ hx hy
    obtain ⟨-, -, k3, k4⟩ := two_rest (strict := strict) (F := F) (c := c) (c' := c) rfl { s with tableGroup := some ⟨l⟩ }
      { s with tableGroup := some ⟨l⟩ } ⟨rfl, rfl, rfl, ⟨_, _, rfl, rfl, fun _ _ => ⟨fun _ => rfl, fun _ h => h⟩⟩⟩
    have hp : Parses' strict c.fuel s.ut (some ⟨l⟩) (some ⟨l'⟩) := by
      refine ⟨_, _, rfl, rfl, fun u hu => ?_⟩
      refine follows_parse (S := Reached (ChainGroup.lookup ⟨l⟩) u.ids) ⟨.zero, fun id hid => hg id ?_, fun id d e hid hd he m hm =>
        .member hid hd he hm⟩ _ fun id hid => .top hid
      exact hw u ⟨l⟩ (k3.trans hu) k4 id hid
    obtain ⟨q1, q2, -, -⟩ := two_rest (strict := strict) (F := F) hc { s with tableGroup := some ⟨l⟩ }
      { s with tableGroup := some ⟨l'⟩ } ⟨rfl, rfl, rfl, hp⟩
    refine ⟨q1, fun a e => ?_⟩
    obtain ⟨t', e1, n⟩ := q2 a _ (eq_of_fst e)
    rw [e1]
    exact ⟨rfl, n.r⟩
  | err e _ _ => exact fun _ => ⟨fun _ => ⟨rfl, rfl⟩, fun a e => by cases e⟩
  | panic w _ _ => exact fun _ => ⟨fun _ => ⟨rfl, rfl⟩, fun a e => by cases e⟩
  | diverge _ _ => exact fun _ => ⟨fun _ => ⟨rfl, rfl⟩, fun a e => by cases e⟩

theorem res_deserialise {T : ID → Prop} {c c' : FacCfg} (hc : SameBut c c') (ht : Serves strict T c.tables c'.tables)
    (ds : List FieldDecl) (s : Fac F) : Res strict (Within T) s (Script.deserialise c ds) (Script.deserialise c' ds) := by
  unfold Script.deserialise
  refine Res.bind fun _ _ _ => Res.bind fun _ _ _ => Res.bind fun _ _ _ => Res.bind fun _ _ _ => Res.bind fun _ p _ => ?_
  unfold Script.initTableGroup
  simp only [M.bind_assoc]
  exact Res.bind fun _ _ _ => Res.bind fun _ _ _ => Res.bind fun _ _ _ => Res.bind fun _ _ _ => Res.bind fun _ p _ =>
    res_tables hc ht p _ _ _ _ _

theorem res_run {T : ID → Prop} {c c' : FacCfg} (hc : SameBut c c') (ht : Serves strict T c.tables c'.tables)
    (s : Fac F) : Res strict (Within T) s (Runtime.run c) (Runtime.run c') := by
  unfold Runtime.run Script.boot
  refine Res.bind fun _ _ _ => Res.bind fun n p _ => ?_
  split
  · exact res_deserialise hc ht _ _
  · split
    · exact res_deserialise hc ht _ _
    · exact fun _ => ⟨fun _ => ⟨rfl, rfl⟩, fun a e => by cases e⟩

omit [GoFloat F] in
theorem chains_true {R : SingleGroup → SingleGroup → Prop} {x y : Outcome Unit × ChainGroup} (h : Chains R x y) :
    Chains (fun _ _ => True) x y := by
  cases h with
  | ok p => exact .ok (Paired.imp' (fun _ _ _ => trivial) p)
  | err e g g' => exact .err e g g'
  | panic w g g' => exact .panic w g g'
  | diverge g g' => exact .diverge g g'

theorem SameOn.serves {T : ID → Prop} {t t' : Tables} (h : SameOn T t t') : Serves True T t t' := by
  intro a b c d e
  have k := groups_loads h.groups a b c d e
  refine ⟨chains_true k, fun g g' h1 h2 => ?_⟩
  rw [h1, h2] at k
  cases k with
  | ok p => exact SameOn.chains p

theorem Grown.serves {t t' : Tables} (h : Grown t t') : Serves False (fun _ => True) t t' := by
  intro a b c d e
  have k := groups_loads h.groups a b c d e
  refine ⟨chains_true k, fun g g' h1 h2 => ?_⟩
  rw [h1, h2] at k
  cases k with
  | ok p => exact Grown.chains p

end Gobufr.ExtendSpec
