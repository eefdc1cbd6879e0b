import Verif.Spec.Template

/-! Helper lemmas about walking and dumping templates. -/

set_option linter.unusedSimpArgs false

namespace Gobufr.TemplateSpec

theorem emit_apply (e : Event) (s : WalkSt) : emit e s = (.ok ⟨⟩, ⟨s.outs ++ [e], s.ins⟩) := rfl

/-- `m` appends events, as described by `W`. -/
def Follows (m : M WalkSt Unit) (W : Option (List Int) → List Event → Option (List Int) → Prop) :
    Prop :=
  ∀ o i es' i', m ⟨o, i⟩ = (.ok ⟨⟩, ⟨es', i'⟩) ↔ ∃ es, es' = o ++ es ∧ W i es i'

/-- `m` either returns or waits forever for a factor. -/
def Waits (m : M WalkSt Unit) : Prop :=
  ∀ s, (∃ s', m s = (.ok ⟨⟩, s') ∧ (s.ins = none → s'.ins = none)) ∨
    (s.ins ≠ none ∧ (m s).1 = .diverge)

theorem Follows.congr {m : M WalkSt Unit}
    {W W' : Option (List Int) → List Event → Option (List Int) → Prop} (h : Follows m W)
    (hW : ∀ i es i', W i es i' ↔ W' i es i') : Follows m W' := by
  intro o i es' i'
  rw [h o i es' i']
  constructor
  · rintro ⟨es, h1, h2⟩; exact ⟨es, h1, (hW ..).mp h2⟩
  · rintro ⟨es, h1, h2⟩; exact ⟨es, h1, (hW ..).mpr h2⟩

theorem follows_pure : Follows (pure ⟨⟩) fun i es i' => es = [] ∧ i' = i := by
  intro o i es' i'
  simp only [M.pure_apply, Prod.mk.injEq, true_and, WalkSt.mk.injEq]
  constructor
  · rintro ⟨rfl, rfl⟩; exact ⟨[], by simp, rfl, rfl⟩
  · rintro ⟨es, rfl, rfl, rfl⟩; simp

theorem follows_emit (e : Event) : Follows (emit e) fun i es i' => es = [e] ∧ i' = i := by
  intro o i es' i'
  simp only [emit_apply, Prod.mk.injEq, true_and, WalkSt.mk.injEq]
  constructor
  · rintro ⟨rfl, rfl⟩; exact ⟨_, rfl, rfl, rfl⟩
  · rintro ⟨es, rfl, rfl, rfl⟩; exact ⟨rfl, rfl⟩

theorem Follows.bind {m : M WalkSt Unit} {f : Unit → M WalkSt Unit}
    {W W' : Option (List Int) → List Event → Option (List Int) → Prop} (h : Follows m W)
    (h' : Follows (f ⟨⟩) W') :
    Follows (m >>= f) fun i es i'' => ∃ es1 es2 i', es = es1 ++ es2 ∧ W i es1 i' ∧ W' i' es2 i'' := by
  intro o i es' i''
  rw [M.bind_eq_ok]
  constructor
  · rintro ⟨a, ⟨o', i'⟩, h1, h2⟩
    obtain ⟨es1, rfl, hw⟩ := (h ..).mp h1
    obtain ⟨es2, rfl, hw'⟩ := (h' ..).mp h2
    exact ⟨es1 ++ es2, by simp, es1, es2, i', rfl, hw, hw'⟩
  · rintro ⟨es, rfl, es1, es2, i', rfl, hw, hw'⟩
    refine ⟨⟨⟩, ⟨o ++ es1, i'⟩, (h ..).mpr ⟨_, rfl, hw⟩, ?_⟩
    rw [← List.append_assoc]
    exact (h' ..).mpr ⟨_, rfl, hw'⟩

theorem waits_pure : Waits (pure ⟨⟩) := fun s => .inl ⟨s, rfl, id⟩
theorem waits_emit (e : Event) : Waits (emit e) := fun s => .inl ⟨_, emit_apply e s, id⟩
theorem Waits.bind {m : M WalkSt Unit} {f : Unit → M WalkSt Unit} (h : Waits m)
    (h' : Waits (f ⟨⟩)) : Waits (m >>= f) := by
  intro s
  rcases h s with ⟨s', h1, h2⟩ | ⟨h1, h2⟩
  · rw [M.bind_ok h1]
    rcases h' s' with ⟨s'', h3, h4⟩ | ⟨h3, h4⟩
    · exact .inl ⟨s'', h3, fun e => h4 (h2 e)⟩
    · exact .inr ⟨fun e => h3 (h2 e), h4⟩
  · refine .inr ⟨h1, ?_⟩
    rcases hm : m s with ⟨o, s'⟩
    rw [hm] at h2
    simp only at h2
    subst h2
    rw [M.bind_diverge hm]

theorem repeat_follows {ms : List TNode} (h : Follows (walkNodes ms) (WalksL ms)) (k : Nat) :
    Follows (repeatM k (walkBlock (walkNodes ms))) (WalksB k ms) := by
  induction k with
  | zero =>
    refine follows_pure.congr fun i es i' => ⟨?_, ?_⟩
    · rintro ⟨rfl, rfl⟩; exact .zero
    · intro h; cases h; exact ⟨rfl, rfl⟩
  | succ k ih =>
    have hb := (follows_emit .beginBlock).bind (f := fun _ => do walkNodes ms; emit .endBlock)
      (h.bind (f := fun _ => emit .endBlock) (follows_emit .endBlock))
    refine (hb.bind (f := fun _ => repeatM k (walkBlock (walkNodes ms))) ih).congr
      fun i es i' => ⟨?_, ?_⟩
    · rintro ⟨es1, es2, i1, rfl, ⟨e1, e2, i2, rfl, ⟨rfl, rfl⟩, e3, e4, i3, rfl, hw, rfl, rfl⟩, hk⟩
      have := WalksB.succ hw hk
      simpa using this
    · intro h
      cases h with
      | succ h1 h2 =>
        exact ⟨_, _, _, rfl, ⟨[.beginBlock], _, _, List.append_assoc .. , ⟨rfl, rfl⟩, _, _, _,
          rfl, h1, rfl, rfl⟩, h2⟩

theorem repeat_waits {m : M WalkSt Unit} (h : Waits m) (k : Nat) :
    Waits (repeatM k (walkBlock m)) := by
  induction k with
  | zero => exact waits_pure
  | succ k ih =>
    exact ((waits_emit _).bind (f := fun _ => do m; emit .endBlock)
      (h.bind (f := fun _ => emit .endBlock) (waits_emit _))).bind
      (f := fun _ => repeatM k (walkBlock m)) ih

theorem replication_follows {ms : List TNode} (h : Follows (walkNodes ms) (WalksL ms)) (n : Int) :
    Follows (walkReplication (walkNodes ms) n) fun i es i' =>
      ∃ b, es = [.beginReplication] ++ b ++ [.endReplication] ∧ WalksB n.toNat ms i b i' := by
  refine ((follows_emit .beginReplication).bind
    (f := fun _ => do repeatM n.toNat (walkBlock (walkNodes ms)); emit .endReplication)
    ((repeat_follows h _).bind (f := fun _ => emit .endReplication) (follows_emit _))).congr
    fun i es i' => ⟨?_, ?_⟩
  · rintro ⟨e1, e2, i1, rfl, ⟨rfl, rfl⟩, e3, e4, i3, rfl, hw, rfl, rfl⟩
    exact ⟨e3, by simp, hw⟩
  · rintro ⟨b, rfl, hw⟩
    exact ⟨_, _, _, List.append_assoc .., ⟨rfl, rfl⟩, _, _, _, rfl, hw, rfl, rfl⟩

theorem replication_waits {m : M WalkSt Unit} (h : Waits m) (n : Int) :
    Waits (walkReplication m n) :=
  (waits_emit _).bind (f := fun _ => do repeatM n.toNat (walkBlock m); emit .endReplication)
    ((repeat_waits h _).bind (f := fun _ => emit .endReplication) (waits_emit _))

mutual
theorem walkNode_follows : (n : TNode) → Follows (walkNode n) (WalksN n)
  | .mk d factor ms => by
    have hms := walkNodes_follows ms
    unfold walkNode
    by_cases h0 : d.id.F = 0
    · rw [if_pos h0]
      refine (follows_emit _).congr fun i es i' => ⟨?_, ?_⟩
      · rintro ⟨rfl, rfl⟩; exact .element h0
      · intro h; cases h <;> simp_all
    rw [if_neg h0]
    by_cases h1 : d.id.F = 1
    · rw [if_pos h1]
      have hrep := replication_follows hms
      cases factor with
      | none =>
        intro o i es' i'
        rw [M.bind_ok (emit_apply _ _)]
        show walkReplication (walkNodes ms) (if i.isSome then d.id.Y else 1)
          ⟨o ++ [.replication d], i⟩ = _ ↔ _
        rw [hrep]
        constructor
        · rintro ⟨es, rfl, b, rfl, hb⟩
          refine ⟨_, List.append_assoc .., ?_⟩
          have hc : Count d none i (if i.isSome then d.id.Y else 1).toNat i := by
            cases i with
            | none => exact .once
            | some ks => exact .fixed rfl
          have := WalksN.replication (f := none) h1 hc hb
          simpa using this
        · rintro ⟨es, rfl, hw⟩
          cases hw with
          | replication _ hc hb =>
            rename_i b _
            refine ⟨[.beginReplication] ++ b ++ [.endReplication], by simp, b, rfl, ?_⟩
            cases hc with
            | once => exact hb
            | delayed h => cases h
            | fixed _ => exact hb
          | _ => simp_all
      | some f =>
        intro o i es' i'
        rw [M.bind_ok (emit_apply _ _)]
        simp only []
        rw [M.bind_ok (emit_apply _ _)]
        simp only []
        rw [M.bind_eq_ok]
        constructor
        · rintro ⟨n, ⟨o1, i1⟩, hr, hw⟩
          obtain ⟨es, rfl, b, rfl, hb⟩ := (hrep ..).mp hw
          have hc : Count d (some f) i n.toNat i1 ∧ o1 = o ++ [.replication d] ++ [.factor f] := by
            unfold recvFactor at hr
            rcases i with _ | _ | ⟨k, ks⟩ <;> simp at hr
            · obtain ⟨rfl, rfl, rfl⟩ := hr; exact ⟨.once, by simp⟩
            · obtain ⟨rfl, rfl, rfl⟩ := hr; exact ⟨.delayed rfl, by simp⟩
          obtain ⟨hc, rfl⟩ := hc
          have := WalksN.replication (f := some f) h1 hc hb
          exact ⟨_, by simp, this⟩
        · rintro ⟨es, rfl, hw⟩
          cases hw with
          | replication _ hc hb =>
            rename_i i1 k b _
            cases hc with
            | once =>
              exact ⟨1, _, rfl, (hrep ..).mpr ⟨[.beginReplication] ++ b ++ [.endReplication],
                by simp, b, rfl, hb⟩⟩
            | @delayed _ kk ks _ =>
              exact ⟨kk, _, rfl, (hrep ..).mpr ⟨[.beginReplication] ++ b ++ [.endReplication],
                by simp, b, rfl, hb⟩⟩
            | fixed h => cases h
          | _ => simp_all
    rw [if_neg h1]
    by_cases h2 : d.id.F = 2
    · rw [if_pos h2]
      refine (follows_emit _).congr fun i es i' => ⟨?_, ?_⟩
      · rintro ⟨rfl, rfl⟩; exact .operator h2
      · intro h; cases h <;> simp_all
    rw [if_neg h2]
    by_cases h3 : d.id.F = 3
    · rw [if_pos h3]
      refine ((follows_emit _).bind (f := fun _ => walkSequence (walkNodes ms))
        ((follows_emit .beginSequence).bind (f := fun _ => do walkNodes ms; emit .endSequence)
          (hms.bind (f := fun _ => emit .endSequence) (follows_emit _)))).congr
        fun i es i' => ⟨?_, ?_⟩
      · rintro ⟨e1, e2, i1, rfl, ⟨rfl, rfl⟩, e3, e4, i3, rfl, ⟨rfl, rfl⟩, e5, e6, i5, rfl, hw,
          rfl, rfl⟩
        simpa using WalksN.sequence (f := factor) h3 hw
      · intro h
        cases h with
        | sequence _ hw =>
          exact ⟨[.sequence d], _, _, by simp, ⟨rfl, rfl⟩, [.beginSequence], _, _, rfl,
            ⟨rfl, rfl⟩, _, _, _, rfl, hw, rfl, rfl⟩
        | _ => simp_all
    rw [if_neg h3]
    refine follows_pure.congr fun i es i' => ⟨?_, ?_⟩
    · rintro ⟨rfl, rfl⟩; exact .unknown h0 h1 h2 h3
    · intro h; cases h <;> simp_all
theorem walkNodes_follows : (ns : List TNode) → Follows (walkNodes ns) (WalksL ns)
  | [] => by
    unfold walkNodes
    refine follows_pure.congr fun i es i' => ⟨?_, ?_⟩
    · rintro ⟨rfl, rfl⟩; exact .nil
    · intro h; cases h; exact ⟨rfl, rfl⟩
  | n :: ns => by
    unfold walkNodes
    refine ((walkNode_follows n).bind (f := fun _ => walkNodes ns) (walkNodes_follows ns)).congr
      fun i es i' => ⟨?_, ?_⟩
    · rintro ⟨e1, e2, i1, rfl, h1, h2⟩; exact .cons h1 h2
    · intro h
      cases h with
      | cons h1 h2 => exact ⟨_, _, _, rfl, h1, h2⟩
end

mutual
theorem walkNode_waits : (n : TNode) → Waits (walkNode n)
  | .mk d factor ms => by
    have hms := walkNodes_waits ms
    unfold walkNode
    split
    · exact waits_emit _
    split
    · cases factor with
      | none =>
        refine (waits_emit _).bind ?_
        intro s
        exact replication_waits hms _ s
      | some f =>
        refine (waits_emit _).bind ((waits_emit _).bind ?_)
        intro s
        obtain ⟨o, i⟩ := s
        rcases i with _ | _ | ⟨k, ks⟩
        · exact replication_waits hms 1 ⟨o, none⟩
        · exact .inr ⟨by simp, rfl⟩
        · refine (replication_waits hms k ⟨o, some ks⟩).imp ?_ ?_
          · rintro ⟨s', h1, h2⟩; exact ⟨s', h1, by simp⟩
          · rintro ⟨h1, h2⟩; exact ⟨by simp, h2⟩
    split
    · exact waits_emit _
    split
    · exact (waits_emit _).bind (f := fun _ => walkSequence (walkNodes ms))
        ((waits_emit _).bind (f := fun _ => do walkNodes ms; emit .endSequence)
          (hms.bind (f := fun _ => emit .endSequence) (waits_emit _)))
    · exact waits_pure
theorem walkNodes_waits : (ns : List TNode) → Waits (walkNodes ns)
  | [] => by unfold walkNodes; exact waits_pure
  | n :: ns => by
    unfold walkNodes
    exact (walkNode_waits n).bind (f := fun _ => walkNodes ns) (walkNodes_waits ns)
end

/-! ### Brackets -/

/-- Plain events and complete brackets do not change the stack. -/
def Neutral (es : List Event) : Prop :=
  ∀ st rest, bracketed st (es ++ rest) = bracketed st rest

theorem Neutral.nil : Neutral [] := fun _ _ => rfl
theorem Neutral.append {a b : List Event} (ha : Neutral a) (hb : Neutral b) : Neutral (a ++ b) := by
  intro st rest; rw [List.append_assoc, ha, hb]

theorem neutral_block {es : List Event} (h : Neutral es) :
    Neutral ([.beginBlock] ++ es ++ [.endBlock]) := by
  intro st rest
  simp only [List.append_assoc, List.singleton_append]
  simp [bracketed, opens, closes, h _ _]
theorem neutral_sequence {es : List Event} (h : Neutral es) :
    Neutral ([.beginSequence] ++ es ++ [.endSequence]) := by
  intro st rest
  simp only [List.append_assoc, List.singleton_append]
  simp [bracketed, opens, closes, h _ _]
theorem neutral_replication {es : List Event} (h : Neutral es) :
    Neutral ([.beginReplication] ++ es ++ [.endReplication]) := by
  intro st rest
  simp only [List.append_assoc, List.singleton_append]
  simp [bracketed, opens, closes, h _ _]

theorem neutral_event (e : Event) (h : ∀ st es, bracketed st (e :: es) = bracketed st es) :
    Neutral [e] := fun st rest => h st rest

theorem neutral_d (d : Desc) : Neutral [.element d] ∧ Neutral [.operator d] ∧
    Neutral [.replication d] ∧ Neutral [.sequence d] ∧ Neutral [.factor d] := by
  refine ⟨?_, ?_, ?_, ?_, ?_⟩ <;> intro st rest <;> simp [bracketed, opens, closes]

theorem neutral_blocks {ms : List TNode}
    (h : ∀ i es i', WalksL ms i es i' → Neutral es) (k : Nat) :
    ∀ i es i', WalksB k ms i es i' → Neutral es := by
  induction k with
  | zero => intro i es i' hw; cases hw; exact .nil
  | succ k ih =>
    intro i es i' hw
    cases hw with
    | succ h1 h2 => exact (neutral_block (h _ _ _ h1)).append (ih _ _ _ h2)

mutual
theorem neutral_node : (n : TNode) → ∀ i es i', WalksN n i es i' → Neutral es
  | .mk d f ms => by
    intro i es i' h
    cases h with
    | element => exact (neutral_d d).1
    | operator => exact (neutral_d d).2.1
    | unknown => exact .nil
    | sequence _ h =>
      have := (neutral_d d).2.2.2.1.append (neutral_sequence (neutral_nodes ms _ _ _ h))
      simpa using this
    | replication _ _ h =>
      have h1 := (neutral_d d).2.2.1
      have h2 := neutral_replication (neutral_blocks (neutral_nodes ms) _ _ _ _ h)
      have h3 : Neutral (f.map Event.factor).toList := by
        cases f with
        | none => exact .nil
        | some f => exact (neutral_d f).2.2.2.2
      simpa using (h1.append h3).append h2
theorem neutral_nodes : (ns : List TNode) → ∀ i es i', WalksL ns i es i' → Neutral es
  | [] => by intro i es i' h; cases h; exact .nil
  | n :: ns => by
    intro i es i' h
    cases h with
    | cons h1 h2 => exact (neutral_node n _ _ _ h1).append (neutral_nodes ns _ _ _ h2)
end

/-! ### Rebuilding -/

theorem walksN_none_ins : ∀ {n : TNode} {i : Option (List Int)} {es : List Event}
    {i' : Option (List Int)}, WalksN n i es i' → i = none → i' = none := by
  intro n i es i' h hi
  subst hi
  have h1 := (walkNode_follows n [] none es i').mpr ⟨es, by simp, h⟩
  rcases walkNode_waits n ⟨[], none⟩ with ⟨s', h2, h3⟩ | ⟨h2, _⟩
  · rw [h1] at h2
    simp only [Prod.mk.injEq, true_and] at h2
    subst h2
    exact h3 rfl
  · exact absurd rfl h2

theorem walksL_none_ins {ns : List TNode} {i : Option (List Int)} {es : List Event}
    {i' : Option (List Int)} (h : WalksL ns i es i') (hi : i = none) : i' = none := by
  subst hi
  have h1 := (walkNodes_follows ns [] none es i').mpr ⟨es, by simp, h⟩
  rcases walkNodes_waits ns ⟨[], none⟩ with ⟨s', h2, h3⟩ | ⟨h2, _⟩
  · rw [h1] at h2
    simp only [Prod.mk.injEq, true_and] at h2
    subst h2
    exact h3 rfl
  · exact absurd rfl h2

/-- The events that can follow the members of a template, sequence or block. -/
def isEnd : Event → Bool
  | .endSequence | .endBlock | .endTemplate => true
  | _ => false

/-- The shape of the events of a sane node in a walk without factors. -/
theorem walksN_none {d : Desc} {f : Option Desc} {ms : List TNode} {es : List Event}
    {i' : Option (List Int)} (h : WalksN (.mk d f ms) none es i') (hs : sane (.mk d f ms)) :
    (d.id.F = 0 ∧ f = none ∧ ms = [] ∧ es = [.element d]) ∨
    (d.id.F = 2 ∧ f = none ∧ ms = [] ∧ es = [.operator d]) ∨
    (d.id.F = 3 ∧ f = none ∧ ∃ b, WalksL ms none b none ∧
      es = [.sequence d, .beginSequence] ++ b ++ [.endSequence]) ∨
    (d.id.F = 1 ∧ ∃ b, WalksL ms none b none ∧
      es = [.replication d] ++ (f.map .factor).toList ++ [.beginReplication, .beginBlock] ++ b
        ++ [.endBlock, .endReplication]) := by
  unfold sane at hs
  cases h with
  | element h => left; simp_all
  | operator h => right; left; simp_all
  | unknown h0 h1 h2 h3 => simp_all
  | sequence h hb =>
    right; right; left
    have := walksL_none_ins hb rfl
    subst this
    refine ⟨h, by simp_all, _, hb, rfl⟩
  | replication h hc hb =>
    right; right; right
    cases hc
    cases hb with
    | succ h1 h2 =>
      cases h2
      have := walksL_none_ins h1 rfl
      subst this
      exact ⟨h, _, h1, by simp⟩

mutual
theorem node_inj : (n n' : TNode) → sane n → sane n' → ∀ {es es' i i' r r'},
    WalksN n none es i → WalksN n' none es' i' → es ++ r = es' ++ r' → n = n' ∧ r = r'
  | .mk d f ms, .mk d' f' ms' => by
    intro hs hs' es es' i i' r r' h h' he
    have hms : sanes ms := by unfold sane at hs; exact hs.2
    have hms' : sanes ms' := by unfold sane at hs'; exact hs'.2
    rcases walksN_none h hs with ⟨hF, rfl, rfl, rfl⟩ | ⟨hF, rfl, rfl, rfl⟩ |
        ⟨hF, rfl, b, hb, rfl⟩ | ⟨hF, b, hb, rfl⟩ <;>
      rcases walksN_none h' hs' with ⟨hF', rfl, rfl, rfl⟩ | ⟨hF', rfl, rfl, rfl⟩ |
        ⟨hF', rfl, b', hb', rfl⟩ | ⟨hF', b', hb', rfl⟩ <;>
      try (simp at he; done)
    · simp at he; obtain ⟨rfl, rfl⟩ := he; exact ⟨rfl, rfl⟩
    · simp at he; obtain ⟨rfl, rfl⟩ := he; exact ⟨rfl, rfl⟩
    · simp only [List.cons_append, List.nil_append, List.append_assoc, List.cons.injEq,
        Event.sequence.injEq, true_and] at he
      obtain ⟨rfl, he⟩ := he
      have := nodes_inj ms ms' hms hms' hb hb' rfl rfl he
      obtain ⟨rfl, h2⟩ := this
      simp at h2; subst h2
      exact ⟨rfl, rfl⟩
    · simp only [List.cons_append, List.nil_append, List.append_assoc, List.cons.injEq,
        Event.replication.injEq] at he
      obtain ⟨rfl, he⟩ := he
      cases f with
      | none =>
        cases f' with
        | none =>
          simp only [Option.map_none, Option.toList_none, List.nil_append, List.cons.injEq,
            true_and] at he
          have := nodes_inj ms ms' hms hms' hb hb' rfl rfl he
          obtain ⟨rfl, h2⟩ := this
          simp at h2; subst h2
          exact ⟨rfl, rfl⟩
        | some f' => simp at he
      | some f =>
        cases f' with
        | none => simp at he
        | some f' =>
          simp only [Option.map_some, Option.toList_some, List.cons_append, List.nil_append,
            List.cons.injEq, Event.factor.injEq, true_and] at he
          obtain ⟨rfl, he⟩ := he
          have := nodes_inj ms ms' hms hms' hb hb' rfl rfl he
          obtain ⟨rfl, h2⟩ := this
          simp at h2; subst h2
          exact ⟨rfl, rfl⟩
theorem nodes_inj : (ns ns' : List TNode) → sanes ns → sanes ns' →
    ∀ {es es' i i' e r e' r'}, WalksL ns none es i → WalksL ns' none es' i' →
      isEnd e = true → isEnd e' = true →
      es ++ e :: r = es' ++ e' :: r' → ns = ns' ∧ e :: r = e' :: r'
  | [], [] => by
    intro _ _ es es' i i' e r e' r' h h' _ _ he
    cases h; cases h'; exact ⟨rfl, he⟩
  | [], n' :: ns' => by
    intro _ hs es es' i i' e r e' r' h h' hend _ he
    unfold sanes at hs
    cases h
    cases h' with
    | cons h1 h2 =>
      exfalso
      obtain ⟨d, f, ms⟩ := n'
      rcases walksN_none h1 hs.1 with ⟨_, _, _, rfl⟩ | ⟨_, _, _, rfl⟩ |
        ⟨_, _, b', _, rfl⟩ | ⟨_, b', _, rfl⟩ <;> simp at he <;>
        (obtain ⟨rfl, _⟩ := he; simp [isEnd] at hend)
  | n :: ns, [] => by
    intro hs _ es es' i i' e r e' r' h h' _ hend he
    unfold sanes at hs
    cases h'
    cases h with
    | cons h1 h2 =>
      exfalso
      obtain ⟨d, f, ms⟩ := n
      rcases walksN_none h1 hs.1 with ⟨_, _, _, rfl⟩ | ⟨_, _, _, rfl⟩ |
        ⟨_, _, b', _, rfl⟩ | ⟨_, b', _, rfl⟩ <;> simp at he <;>
        (obtain ⟨rfl, _⟩ := he; simp [isEnd] at hend)
  | n :: ns, n' :: ns' => by
    intro hs hs' es es' i i' e r e' r' h h' hend hend' he
    unfold sanes at hs hs'
    cases h with
    | cons h1 h2 =>
      cases h' with
      | cons h1' h2' =>
        simp only [List.append_assoc] at he
        have := node_inj n n' hs.1 hs'.1 h1 h1' he
        obtain ⟨rfl, hr⟩ := this
        have e1 := walksN_none_ins h1 rfl
        have e2 := walksN_none_ins h1' rfl
        subst e1 e2
        have := nodes_inj ns ns' hs.2 hs'.2 h2 h2' hend hend' hr
        exact ⟨by rw [this.1], this.2⟩
end

/-! ### Dump -/

attribute [local irreducible] INDENT INDOTS

theorem dumpEvents_append (a b : List Event) (s : DumpSt) :
    dumpEvents (a ++ b) s = (dumpEvents a >>= fun _ => dumpEvents b) s := by
  induction a generalizing s with
  | nil => rfl
  | cons e a ih =>
    simp only [List.cons_append, dumpEvents]
    rw [M.bind_assoc]
    simp only [M.bind_apply]
    rcases dumpEvent e s with ⟨o, s'⟩
    cases o <;> simp [M.bind_apply, ih]

/-- `es` adds the lines `ls` at depth `k` and restores the indentation. -/
def Dumps (k : Nat) (es : List Event) (ls : List GoString) : Prop :=
  ∀ L, dumpEvents es ⟨L, List.replicate k INDENT⟩
    = (.ok ⟨⟩, ⟨L ++ ls, List.replicate k INDENT⟩)

theorem Dumps.nil (k : Nat) : Dumps k [] [] := fun L => by simp [dumpEvents]
theorem Dumps.append {k : Nat} {a b : List Event} {la lb : List GoString} (ha : Dumps k a la)
    (hb : Dumps k b lb) : Dumps k (a ++ b) (la ++ lb) := by
  intro L
  rw [dumpEvents_append, M.bind_ok (ha L), hb]
  simp

theorem dumpEvents_cons {e : Event} {es : List Event} {s s' : DumpSt}
    (h : dumpEvent e s = (.ok ⟨⟩, s')) : dumpEvents (e :: es) s = dumpEvents es s' := by
  simp only [dumpEvents]; rw [M.bind_ok h]

theorem Dumps.line {k : Nat} {e : Event} {l : GoString}
    (h : ∀ L, dumpEvent e ⟨L, List.replicate k INDENT⟩
      = (.ok ⟨⟩, ⟨L ++ [l], List.replicate k INDENT⟩)) : Dumps k [e] [l] := by
  intro L; rw [dumpEvents_cons (h L)]; rfl

theorem Dumps.bracket {k : Nat} {b e : Event} {es : List Event} {ls : List GoString}
    (h : Dumps (k + 1) es ls)
    (hb : ∀ L, dumpEvent b ⟨L, List.replicate k INDENT⟩
      = (.ok ⟨⟩, ⟨L, List.replicate (k + 1) INDENT⟩))
    (he : ∀ L, dumpEvent e ⟨L, List.replicate (k + 1) INDENT⟩
      = (.ok ⟨⟩, ⟨L, List.replicate k INDENT⟩)) : Dumps k ([b] ++ es ++ [e]) ls := by
  intro L
  rw [List.append_assoc, List.singleton_append, dumpEvents_cons (hb L), dumpEvents_append,
    M.bind_ok (h L), dumpEvents_cons (he _)]
  rfl

theorem Dumps.skip {k : Nat} {b e : Event} {es : List Event} {ls : List GoString}
    (h : Dumps k es ls) (hb : ∀ s, dumpEvent b s = (.ok ⟨⟩, s))
    (he : ∀ s, dumpEvent e s = (.ok ⟨⟩, s)) : Dumps k ([b] ++ es ++ [e]) ls := by
  intro L
  rw [List.append_assoc, List.singleton_append, dumpEvents_cons (hb _), dumpEvents_append,
    M.bind_ok (h L), dumpEvents_cons (he _)]
  rfl

theorem open_indent (k : Nat) (L : List GoString) :
    dumpEvent .beginBlock ⟨L, List.replicate k INDENT⟩
      = (.ok ⟨⟩, ⟨L, List.replicate (k + 1) INDENT⟩) ∧
    dumpEvent .beginSequence ⟨L, List.replicate k INDENT⟩
      = (.ok ⟨⟩, ⟨L, List.replicate (k + 1) INDENT⟩) := by
  simp [dumpEvent, dumpOpen, dumpClose, List.replicate_succ']

theorem close_indent (k : Nat) (L : List GoString) :
    dumpEvent .endBlock ⟨L, List.replicate (k + 1) INDENT⟩
      = (.ok ⟨⟩, ⟨L, List.replicate k INDENT⟩) ∧
    dumpEvent .endSequence ⟨L, List.replicate (k + 1) INDENT⟩
      = (.ok ⟨⟩, ⟨L, List.replicate k INDENT⟩) := by
  simp [dumpEvent, dumpOpen, dumpClose, List.replicate_succ']

mutual
theorem dump_node : (n : TNode) → ∀ k {es i'}, WalksN n none es i' → Dumps k es (dumpLines k n)
  | .mk d f ms => by
    intro k es i' h
    have hd : ∀ e ∈ [Event.element d, .operator d, .replication d, .sequence d],
        Dumps k [e] [indent k ++ d.toStr] := by
      intro e he
      refine .line fun L => ?_
      simp at he
      rcases he with rfl | rfl | rfl | rfl <;> simp [dumpEvent, dumpLine, indent]
    cases h with
    | element h0 => simp only [dumpLines, h0, true_or, if_true]; exact hd _ (by simp)
    | operator h0 => simp only [dumpLines, h0, or_true, if_true]; exact hd _ (by simp)
    | unknown h0 h1 h2 h3 => simp only [dumpLines, h0, h1, h2, h3, or_self, if_false]; exact .nil k
    | sequence h3 hw =>
      have h1 := hd (.sequence d) (by simp)
      have h2 := (dump_nodes ms (k + 1) hw).bracket (b := .beginSequence) (e := .endSequence)
        (fun L => (open_indent k L).2) (fun L => (close_indent k L).2)
      have := h1.append h2
      simp only [dumpLines, h3]
      simpa using this
    | replication h1 hc hb =>
      cases hc
      cases hb with
      | succ hw hz =>
        cases hz
        have a1 := hd (.replication d) (by simp)
        have a2 := (dump_nodes ms (k + 1) hw).bracket (b := .beginBlock) (e := .endBlock)
          (fun L => (open_indent k L).1) (fun L => (close_indent k L).1)
        have a3 := a2.skip (b := .beginReplication) (e := .endReplication)
          (fun _ => rfl) (fun _ => rfl)
        have a4 : Dumps k (f.map Event.factor).toList
            (f.map fun f => indent k ++ INDOTS ++ f.toStr).toList := by
          cases f with
          | none => exact .nil k
          | some f => exact .line fun L => by simp [dumpEvent, dumpLine, indent]
        have := (a1.append a4).append a3
        simp only [dumpLines, h1]
        simpa using this
theorem dump_nodes : (ns : List TNode) → ∀ k {es i'}, WalksL ns none es i' →
    Dumps k es (dumpLinesL k ns)
  | [] => by intro k es i' h; cases h; simp only [dumpLinesL]; exact .nil k
  | n :: ns => by
    intro k es i' h
    cases h with
    | cons h1 h2 =>
      have := walksN_none_ins h1 rfl
      subst this
      simp only [dumpLinesL]
      exact (dump_node n k h1).append (dump_nodes ns k h2)
end

end Gobufr.TemplateSpec
