import Verif.Spec.Payload

/-!
# The decoder of the code computes the flat table

`Sim` relates a program of the decoder to a program on tables; `sim_visit` is the result for the
whole visitor.
-/

set_option linter.unusedSimpArgs false

namespace Gobufr
namespace Flat

variable {F : Type}

/-! ## Lists -/

theorem All2.imp {R S : α → β → Prop} (h : ∀ a b, R a b → S a b) {as : List α} {bs : List β}
    (h2 : All2 R as bs) : All2 S as bs := by
  induction h2 with
  | nil => exact .nil
  | cons h1 _ ih => exact .cons (h _ _ h1) ih

theorem All2.append {R : α → β → Prop} {as as' : List α} {bs bs' : List β} (h : All2 R as bs)
    (h' : All2 R as' bs') : All2 R (as ++ as') (bs ++ bs') := by
  induction h with
  | nil => exact h'
  | cons h1 _ ih => exact .cons h1 ih

theorem All2.length {R : α → β → Prop} {as : List α} {bs : List β} (h : All2 R as bs) :
    as.length = bs.length := by
  induction h with
  | nil => rfl
  | cons _ _ ih => simp [ih]

theorem All2.dropLast {R : α → β → Prop} {as : List α} {bs : List β} (h : All2 R as bs) :
    All2 R as.dropLast bs.dropLast := by
  induction h with
  | nil => exact .nil
  | cons h1 h2 ih =>
    cases h2 with
    | nil => exact .nil
    | cons h3 h4 => exact .cons h1 ih

theorem Ref.mono {ρ ρ' : List NodeId} (h : ρ <+: ρ') {n : NodeId} {i : Nat} (hr : Ref ρ n i) :
    Ref ρ' n i := by
  obtain ⟨t, rfl⟩ := h
  unfold Ref at *
  have hl : i < ρ.length := by
    rcases Nat.lt_or_ge i ρ.length with h | h
    · exact h
    · rw [List.getElem?_eq_none h] at hr; cases hr
  rw [List.getElem?_append_left hl]
  exact hr

theorem Ref.lt {ρ : List NodeId} {n : NodeId} {i : Nat} (hr : Ref ρ n i) : i < ρ.length := by
  unfold Ref at hr
  rcases Nat.lt_or_ge i ρ.length with h | h
  · exact h
  · rw [List.getElem?_eq_none h] at hr; cases hr

theorem RefO.mono {ρ ρ' : List NodeId} (h : ρ <+: ρ') {n : Option NodeId} {i : Option Nat}
    (hr : RefO ρ n i) : RefO ρ' n i := by
  cases n <;> cases i <;> first | exact hr | exact Ref.mono h hr

/-! ## Heaps -/

/-- Later heaps keep the value nodes as they are and the other nodes as such. -/
def Ext (h h' : Heap F) : Prop :=
  (∀ (n : NodeId) d i info mv nd ms, h[n]? = some (⟨.valued d i info mv nd, ms⟩ : Node F) →
    h'[n]? = some (⟨.valued d i info mv nd, ms⟩ : Node F)) ∧
  ∀ n, Inner h n → Inner h' n

theorem Ext.refl (h : Heap F) : Ext h h := ⟨fun _ _ _ _ _ _ _ h => h, fun _ h => h⟩

theorem Ext.trans {h h' h'' : Heap F} (h1 : Ext h h') (h2 : Ext h' h'') : Ext h h'' :=
  ⟨fun n d i info mv nd ms h => h2.1 n d i info mv nd ms (h1.1 n d i info mv nd ms h),
   fun n h => h2.2 n (h1.2 n h)⟩

theorem getElem?_lt {l : List α} {i : Nat} {a : α} (h : l[i]? = some a) : i < l.length := by
  rcases Nat.lt_or_ge i l.length with h1 | h1
  · exact h1
  · rw [List.getElem?_eq_none h1] at h; cases h

theorem ext_append (h : Heap F) (x : Node F) : Ext h (h ++ [x]) := by
  constructor
  · intro n d i info mv nd ms hn
    rw [List.getElem?_append_left (getElem?_lt hn)]; exact hn
  · rintro n ⟨y, hy, hk⟩
    exact ⟨y, by rw [List.getElem?_append_left (getElem?_lt hy)]; exact hy, hk⟩

/-- Adding a member to an inner node. -/
theorem ext_addMember (h : Heap F) (n : NodeId) (m : Option NodeId) (hn : Inner h n) :
    Ext h (h.addMember n m) := by
  obtain ⟨x, hx, hk⟩ := hn
  constructor
  · intro n' d i info mv nd ms hn'
    unfold Heap.addMember
    rw [List.getElem?_modify, hn']
    by_cases e : n = n'
    · subst e
      rw [hn'] at hx
      cases hx
      exact absurd rfl (hk d i info mv nd)
    · simp [e]
  · rintro n' ⟨y, hy, hk'⟩
    unfold Heap.addMember
    refine ⟨_, by rw [List.getElem?_modify, hy]; rfl, ?_⟩
    by_cases e : n = n'
    · simpa [e] using hk'
    · simpa [e] using hk'

theorem Nodes.ext {ρ : List NodeId} {h h' : Heap F} {cols : List (Column F)} (hn : Nodes ρ h cols)
    (he : Ext h h') : Nodes ρ h' cols := by
  refine ⟨hn.length, fun i n col h1 h2 => ?_⟩
  obtain ⟨ms, h3, h4⟩ := hn.node i n col h1 h2
  exact ⟨ms, he.1 _ _ _ _ _ _ _ h3, h4⟩

theorem Nodes.inj {ρ : List NodeId} {h : Heap F} {cols : List (Column F)} (hn : Nodes ρ h cols)
    {i j : Nat} {n : NodeId} (h1 : Ref ρ n i) (h2 : Ref ρ n j) : i = j := by
  have l1 := h1.lt
  have l2 := h2.lt
  rw [hn.length] at l1 l2
  obtain ⟨_, h3, _⟩ := hn.node i n _ h1 (List.getElem?_eq_getElem l1)
  obtain ⟨_, h4, _⟩ := hn.node j n _ h2 (List.getElem?_eq_getElem l2)
  rw [h3] at h4
  simp only [Option.some.injEq, Node.mk.injEq, kindOf, NodeKind.valued.injEq] at h4
  have := h4.1.2.1
  omega

/-- A new column. -/
theorem Nodes.push {ρ : List NodeId} {h h' : Heap F} {cols : List (Column F)} (hn : Nodes ρ h cols)
    (he : Ext h h') (n : NodeId) (col : Column F) (ha : col.attrs = [])
    (hnode : h'[n]? = some ⟨kindOf cols.length col, []⟩) : Nodes (ρ ++ [n]) h' (cols ++ [col]) := by
  have hlen := hn.length
  refine ⟨by simp [hlen], fun i n' col' h1 h2 => ?_⟩
  rcases Nat.lt_or_ge i ρ.length with hi | hi
  · rw [List.getElem?_append_left hi] at h1
    rw [List.getElem?_append_left (by omega)] at h2
    obtain ⟨ms, h3, h4⟩ := hn.node i n' col' h1 h2
    exact ⟨ms, he.1 _ _ _ _ _ _ _ h3, h4.imp fun a b hr => hr.mono (List.prefix_append _ _)⟩
  · rw [List.getElem?_append_right hi] at h1
    rw [List.getElem?_append_right (by omega)] at h2
    have hi0 : i = ρ.length := by
      have := getElem?_lt h1
      simp at this
      omega
    subst hi0
    simp at h1
    subst h1
    rw [hlen] at h2
    simp at h2
    subst h2
    refine ⟨[], ?_, ?_⟩
    · rw [hlen]; exact hnode
    · rw [ha]; exact .nil

/-- Attaching a column. -/
theorem Nodes.attach {ρ : List NodeId} {h : Heap F} {cols : List (Column F)} (hn : Nodes ρ h cols)
    {n : NodeId} {i : Nat} {m : Option NodeId} {j : Option Nat} (hni : Ref ρ n i) (hmj : RefO ρ m j) :
    Nodes ρ (h.addMember n m) (cols.modify i fun x => { x with attrs := x.attrs ++ [j] }) := by
  refine ⟨by rw [List.length_modify]; exact hn.length, fun i' n' col' h1 h2 => ?_⟩
  rw [List.getElem?_modify] at h2
  obtain ⟨col, hc, hc'⟩ : ∃ col, cols[i']? = some col ∧
      (if i = i' then { col with attrs := col.attrs ++ [j] } else col) = col' := by
    cases hc : cols[i']? with
    | none => rw [hc] at h2; cases h2
    | some col =>
      rw [hc] at h2
      exact ⟨col, rfl, by simpa using h2⟩
  obtain ⟨ms, h3, h4⟩ := hn.node i' n' col h1 hc
  unfold Heap.addMember
  by_cases e : i = i'
  · subst e
    have hnn : n = n' := by
      unfold Ref at hni
      rw [h1] at hni
      exact (Option.some.inj hni).symm
    subst hnn
    simp only [if_true] at hc'
    subst hc'
    refine ⟨ms ++ [m], ?_, h4.append (.cons hmj .nil)⟩
    rw [List.getElem?_modify, h3]
    simp [kindOf]
  · simp only [e, if_false] at hc'
    subst hc'
    have hnn : n ≠ n' := by
      rintro rfl
      exact e (hn.inj hni h1)
    refine ⟨ms, ?_, h4⟩
    rw [List.getElem?_modify, h3]
    simp [hnn]

theorem ext_addMember_inner (h : Heap F) (n : NodeId) (m : Option NodeId) {n' : NodeId} (hn : Inner h n') :
    Inner (h.addMember n m) n' := by
  obtain ⟨y, hy, hk'⟩ := hn
  unfold Heap.addMember
  refine ⟨_, by rw [List.getElem?_modify, hy]; rfl, ?_⟩
  by_cases e : n = n'
  · simpa [e] using hk'
  · simpa [e] using hk'

/-! ## Cells -/

theorem cellsOf_length {ρ : List NodeId} {cols : List (Column F)} (h : ρ.length = cols.length) (k : Nat) :
    (cellsOf ρ cols k).length = cols.length := by
  simp [cellsOf, h]

theorem cellsOf_get {ρ : List NodeId} {cols : List (Column F)} {i : Nat} {n : NodeId} {col : Column F}
    (h1 : ρ[i]? = some n) (h2 : cols[i]? = some col) (k : Nat) :
    (cellsOf ρ cols k)[i]? = some ⟨n, col.vals.getD k .nil⟩ := by
  unfold cellsOf
  rw [List.getElem?_zipWith, h1, h2]

theorem cellsOf_push {ρ : List NodeId} {cols : List (Column F)} (h : ρ.length = cols.length) (n : NodeId)
    (col : Column F) (k : Nat) :
    cellsOf (ρ ++ [n]) (cols ++ [col]) k = cellsOf ρ cols k ++ [⟨n, col.vals.getD k .nil⟩] := by
  unfold cellsOf
  rw [List.zipWith_append h]
  rfl

theorem cellsOf_attach (ρ : List NodeId) (cols : List (Column F)) (i : Nat) (j : Option Nat) (k : Nat) :
    cellsOf ρ (cols.modify i fun x => { x with attrs := x.attrs ++ [j] }) k = cellsOf ρ cols k := by
  apply List.ext_getElem?
  intro i'
  unfold cellsOf
  rw [List.getElem?_zipWith, List.getElem?_zipWith, List.getElem?_modify]
  cases ρ[i']? with
  | none => rfl
  | some n =>
    cases cols[i']? with
    | none => rfl
    | some col =>
      by_cases e : i = i' <;> simp [e]

theorem addColumn_eq (n : NodeId) : ∀ (vs : List (Val F)) (ts : List (List (Cell F))), vs.length = ts.length →
    Cells.addColumn n vs ts = .ok (List.zipWith (fun t v => t ++ [⟨n, v⟩]) ts vs)
  | [], [], _ => rfl
  | _ :: _, [], h => by simp at h
  | [], _ :: _, h => by simp at h
  | v :: vs, t :: ts, h => by
    simp only [Cells.addColumn]
    rw [addColumn_eq n vs ts (by simpa using h)]
    rfl

theorem index_some {l : List α} {i : Nat} {a : α} (h : l[i]? = some a) : index l (i : Int) = .ok a := by
  unfold index
  rw [if_neg (by omega)]
  simp [h]

theorem index_out {l : List α} {i : Int} (h : i < 0 ∨ (l.length : Int) ≤ i) :
    index l i = .panic "index out of range" := by
  unfold index
  rcases h with h | h
  · rw [if_pos h]
  · rw [if_neg (by omega), List.getElem?_eq_none (by omega)]

/-! ## Configuration -/

theorem cfg_cases {c : VisCfg} (h : CfgOk c) :
    (c.compressed = true ∧ c.inputType = .binary ∧ ∃ fuel, c.unpacker = .compressed c.nsubsets fuel) ∨
    (¬ (c.compressed = true ∧ c.inputType = .binary) ∧
      ((c.inputType = .binary ∧ c.unpacker = .uncompress) ∨ (c.inputType = .flatJson ∧ c.unpacker = .json))) := by
  obtain ⟨fuel, h⟩ := h
  unfold newDeserializeVisitor newUnpacker at h
  obtain ⟨cc, it, co, ns, u⟩ := c
  cases it with
  | binary =>
    cases cc with
    | true =>
      simp at h
      exact .inl ⟨rfl, rfl, fuel, h.symm⟩
    | false =>
      simp at h
      exact .inr ⟨by simp, .inl ⟨rfl, h.symm⟩⟩
  | flatText => simp at h
  | flatJson =>
    simp at h
    exact .inr ⟨by simp, .inr ⟨rfl, h.symm⟩⟩

theorem fillM_length {σ α : Type} (f : M σ α) : ∀ (k : Nat) (s s' : σ) (vs : List α),
    fillM f k s = (.ok vs, s') → vs.length = k
  | 0, s, s', vs, h => by
    simp only [fillM, M.pure_apply, Prod.mk.injEq, Outcome.ok.injEq] at h
    simp [← h.1]
  | k + 1, s, s', vs, h => by
    simp only [fillM, M.bind_eq_ok] at h
    obtain ⟨v, s1, _, vs', s2, h2, h3⟩ := h
    simp only [M.pure_apply, Prod.mk.injEq, Outcome.ok.injEq] at h3
    rw [← h3.1, List.length_cons, fillM_length f k _ _ _ h2]

theorem makeCheck_ok {σ : Type} {n : Int} {s s' : σ} {u : Unit} (h : makeCheck n s = (.ok u, s')) :
    s' = s ∧ 0 ≤ n := by
  unfold makeCheck at h
  by_cases hn : n < 0
  · simp [hn] at h
  · simp [hn] at h
    exact ⟨h.symm, by omega⟩

theorem compressedUnpack_length [GoFloat F] (ns : Int) (fuel : Nat) (info : PackingInfo F) (r r' : Reader F)
    (cv : CompressedVal F) (h : compressedUnpack ns fuel info r = (.ok cv, r')) :
    cv.values.length = ns.toNat := by
  have others : ∀ (uf : PackingInfo F → Nat → Outcome (Val F)) {r r' : Reader F} {cv : CompressedVal F},
      unpackOthers ns info uf r = (.ok cv, r') → cv.values.length = ns.toNat := by
    intro uf r r' cv h
    unfold unpackOthers at h
    simp only [M.bind_eq_ok] at h
    obtain ⟨mv, s1, _, nd, s2, _, u, s3, h3, h4⟩ := h
    split at h4
    · simp only [M.bind_eq_ok] at h4
      obtain ⟨v, s4, _, h5⟩ := h4
      simp only [M.pure_apply, Prod.mk.injEq, Outcome.ok.injEq] at h5
      rw [← h5.1]; simp
    · split at h4
      · simp at h4
      · simp only [M.bind_eq_ok] at h4
        obtain ⟨vs, s4, h5, h6⟩ := h4
        simp only [M.pure_apply, Prod.mk.injEq, Outcome.ok.injEq] at h6
        rw [← h6.1]
        exact fillM_length _ _ _ _ _ h5
  unfold compressedUnpack at h
  cases hu : info.unit <;> simp only [hu] at h
  case string =>
    unfold unpackString at h
    simp only [M.bind_eq_ok] at h
    obtain ⟨mv, s1, _, nd, s2, _, u, s3, h3, h4⟩ := h
    split at h4
    · simp only [M.pure_apply, Prod.mk.injEq, Outcome.ok.injEq] at h4
      rw [← h4.1]; simp
    · split at h4
      · simp at h4
      · simp only [M.bind_eq_ok] at h4
        obtain ⟨vs, s4, h5, h6⟩ := h4
        simp only [M.pure_apply, Prod.mk.injEq, Outcome.ok.injEq] at h6
        rw [← h6.1]
        simp [fillM_length _ _ _ _ _ h5]
  case code =>
    unfold unpackCode at h
    simp only [M.bind_eq_ok] at h
    obtain ⟨mv, s1, _, nd, s2, _, u, s3, h3, h4⟩ := h
    split at h4
    · simp only [M.pure_apply, Prod.mk.injEq, Outcome.ok.injEq] at h4
      rw [← h4.1]; simp
    · simp only [M.bind_eq_ok] at h4
      obtain ⟨vs, s4, h5, h6⟩ := h4
      simp only [M.pure_apply, Prod.mk.injEq, Outcome.ok.injEq] at h6
      rw [← h6.1]
      exact fillM_length _ _ _ _ _ h5
  case nonnegCode =>
    split at h
    · simp only [M.bind_eq_ok] at h
      obtain ⟨u, s1, _, h2⟩ := h
      simp only [M.pure_apply, Prod.mk.injEq, Outcome.ok.injEq] at h2
      rw [← h2.1]; simp
    · exact others _ h
  case flag =>
    split at h
    · simp only [M.bind_eq_ok] at h
      obtain ⟨u, s1, _, h2⟩ := h
      simp only [M.pure_apply, Prod.mk.injEq, Outcome.ok.injEq] at h2
      rw [← h2.1]; simp
    · exact others _ h
  case numeric => exact others _ h
  case binary => exact others _ h

/-! ## Simulation -/

/-- Equal kinds of outcomes, related values. -/
def OutRel (V : α → β → Prop) : Outcome α → Outcome β → Prop
  | .ok a, .ok b => V a b
  | .err e, .err e' => e = e'
  | .panic w, .panic w' => w = w'
  | .diverge, .diverge => True
  | _, _ => False

theorem OutRel.ok {V : α → β → Prop} {b : β} {o : Outcome α} (h : OutRel V o (.ok b)) :
    ∃ a, o = .ok a ∧ V a b := by
  cases o <;> first | exact ⟨_, rfl, h⟩ | cases h

theorem outRel_eq {o o' : Outcome α} : OutRel (fun a b => a = b) o o' ↔ o = o' := by
  cases o <;> cases o' <;> simp [OutRel]

/-- The program `m` does on decoder states what `m'` does on the tables they stand for, with
related results; the nodes of the columns so far stay, and the tree position is restored. -/
def Sim (c : VisCfg) (ρ : List NodeId) (V : List NodeId → α → β → Prop) (m : M (Vis F) α)
    (m' : M (State F) β) : Prop :=
  ∀ s f, Represents c ρ s f → ∃ ρ', ρ <+: ρ' ∧ OutRel (V ρ') (m s).1 (m' f).1 ∧
    ((m s).1 ≠ .diverge → Represents c ρ' (m s).2 (m' f).2 ∧ (m s).2.stack = s.stack ∧
      (m s).2.node = s.node)

/-- Results that carry no information. -/
abbrev Any : List NodeId → α → β → Prop := fun _ _ _ => True

variable {c : VisCfg} {ρ : List NodeId} {α β γ δ : Type}

theorem sim_bind {V : List NodeId → α → β → Prop} {W : List NodeId → γ → δ → Prop}
    {m : M (Vis F) α} {m' : M (State F) β} {k : α → M (Vis F) γ} {k' : β → M (State F) δ}
    (h : Sim c ρ V m m') (hk : ∀ ρ', ρ <+: ρ' → ∀ a b, V ρ' a b → Sim c ρ' W (k a) (k' b)) :
    Sim c ρ W (m >>= k) (m' >>= k') := by
  intro s f hr
  obtain ⟨ρ', hp, ho, hs⟩ := h s f hr
  rw [M.bind_apply, M.bind_apply]
  rcases hm : m s with ⟨o, s'⟩
  rcases hm' : m' f with ⟨o', f'⟩
  rw [hm, hm'] at ho
  rw [hm, hm'] at hs
  cases o <;> cases o' <;> first
    | exact False.elim ho
    | skip
  · obtain ⟨h1, h2, h3⟩ := hs (by simp)
    obtain ⟨ρ'', hp', ho', hs'⟩ := hk ρ' hp _ _ ho s' f' h1
    refine ⟨ρ'', hp.trans hp', ho', fun hd => ?_⟩
    obtain ⟨h4, h5, h6⟩ := hs' hd
    exact ⟨h4, h5.trans h2, h6.trans h3⟩
  · exact ⟨ρ', hp, ho, fun _ => hs (by simp)⟩
  · exact ⟨ρ', hp, ho, fun _ => hs (by simp)⟩
  · exact ⟨ρ', hp, trivial, fun hd => absurd rfl hd⟩

/-- The table does nothing. -/
theorem sim_bindL {V : List NodeId → α → Unit → Prop} {W : List NodeId → γ → δ → Prop}
    {m : M (Vis F) α} {k : α → M (Vis F) γ} {m' : M (State F) δ}
    (h : Sim c ρ V m (pure ())) (hk : ∀ ρ', ρ <+: ρ' → ∀ a, V ρ' a () → Sim c ρ' W (k a) m') :
    Sim c ρ W (m >>= k) m' :=
  sim_bind (k' := fun _ => m') h fun ρ' hp a _ hv => hk ρ' hp a hv

theorem sim_pure {V : List NodeId → α → β → Prop} {a : α} {b : β} (h : V ρ a b) :
    Sim (F := F) c ρ V (pure a) (pure b) :=
  fun _ _ hr => ⟨ρ, List.prefix_refl _, h, fun _ => ⟨hr, rfl, rfl⟩⟩

theorem sim_query {V : List NodeId → α → β → Prop} {g : Vis F → Outcome α} {g' : State F → Outcome β}
    (h : ∀ s f, Represents c ρ s f → OutRel (V ρ) (g s) (g' f)) :
    Sim c ρ V (fun s => (g s, s)) (fun f => (g' f, f)) :=
  fun s f hr => ⟨ρ, List.prefix_refl _, h s f hr, fun _ => ⟨hr, rfl, rfl⟩⟩

theorem sim_lift {V : List NodeId → α → β → Prop} {o : Outcome α} {o' : Outcome β} (h : OutRel (V ρ) o o') :
    Sim (F := F) c ρ V (M.lift o) (M.lift o') := sim_query fun _ _ _ => h

theorem sim_crash {V : List NodeId → α → β → Prop} (w : String) :
    Sim (F := F) c ρ V (M.crash w) (M.crash w) :=
  sim_query (g := fun _ => .panic w) (g' := fun _ => .panic w) fun _ _ _ => rfl

theorem sim_fail {V : List NodeId → α → β → Prop} (e : Err) :
    Sim (F := F) c ρ V (M.fail e) (M.fail e) :=
  sim_query (g := fun _ => .err e) (g' := fun _ => .err e) fun _ _ _ => rfl

theorem sim_modify {V : List NodeId → Unit → Unit → Prop} {g : Vis F → Vis F} {g' : State F → State F}
    (hv : V ρ () ()) (h : ∀ s f, Represents c ρ s f → Represents c ρ (g s) (g' f) ∧ (g s).stack = s.stack ∧
      (g s).node = s.node) : Sim c ρ V (M.modify g) (M.modify g') :=
  fun s f hr => ⟨ρ, List.prefix_refl _, hv, fun _ => h s f hr⟩

theorem sim_ite_neg {V : List NodeId → α → β → Prop} {p : Prop} [Decidable p] {m1 m2 : M (Vis F) α}
    {m' : M (State F) β} (hp : ¬ p) (h : Sim c ρ V m2 m') : Sim c ρ V (if p then m1 else m2) m' := by
  rw [if_neg hp]
  exact h

theorem sim_weaken {V W : List NodeId → α → β → Prop} {m : M (Vis F) α} {m' : M (State F) β}
    (h : Sim c ρ V m m') (hv : ∀ ρ' a b, V ρ' a b → W ρ' a b) : Sim c ρ W m m' := by
  intro s f hr
  obtain ⟨ρ', hp, ho, hs⟩ := h s f hr
  refine ⟨ρ', hp, ?_, hs⟩
  cases h1 : (m s).1 <;> cases h2 : (m' f).1 <;> rw [h1, h2] at ho <;> first
    | exact hv _ _ _ ho
    | exact ho

theorem sim_ignore {m : M (Vis F) Unit} {m' : M (State F) Unit} (h : Sim c ρ Any m m') :
    Sim c ρ Any (M.ignoreErr () m) (M.ignoreErr () m') := by
  intro s f hr
  obtain ⟨ρ', hp, ho, hs⟩ := h s f hr
  unfold M.ignoreErr
  rcases hm : m s with ⟨o, s'⟩
  rcases hm' : m' f with ⟨o', f'⟩
  rw [hm, hm'] at ho
  rw [hm, hm'] at hs
  cases o <;> cases o' <;> first
    | exact False.elim ho
    | skip
  · exact ⟨ρ', hp, ho, fun _ => hs (by simp)⟩
  · exact ⟨ρ', hp, trivial, fun _ => hs (by simp)⟩
  · exact ⟨ρ', hp, ho, fun _ => hs (by simp)⟩
  · exact ⟨ρ', hp, trivial, fun hd => absurd rfl hd⟩

theorem sim_defer {d : M (Vis F) Unit} {d' : M (State F) Unit} {m : M (Vis F) Unit} {m' : M (State F) Unit}
    (h : Sim c ρ Any m m') (hd : ∀ ρ', ρ <+: ρ' → Sim c ρ' Any d d') :
    Sim c ρ Any (M.deferDo d m) (M.deferDo d' m') := by
  intro s f hr
  obtain ⟨ρ', hp, ho, hs⟩ := h s f hr
  unfold M.deferDo
  rcases hm : m s with ⟨o, s'⟩
  rcases hm' : m' f with ⟨o', f'⟩
  rw [hm, hm'] at ho
  rw [hm, hm'] at hs
  cases o <;> cases o' <;> first
    | exact False.elim ho
    | exact ⟨ρ', hp, trivial, fun hd => absurd rfl hd⟩
    | skip
  all_goals
    obtain ⟨h1, h2, h3⟩ := hs (by simp)
    obtain ⟨ρ'', hp', ho', hs'⟩ := hd ρ' hp s' f' h1
    rcases he : d s' with ⟨q, s''⟩
    rcases he' : d' f' with ⟨q', f''⟩
    rw [he, he'] at ho'
    rw [he, he'] at hs'
    simp only [he, he']
    cases q <;> cases q' <;> first
      | exact False.elim ho'
      | exact ⟨ρ'', hp.trans hp', trivial, fun hd => absurd rfl hd⟩
      | skip
    all_goals
      obtain ⟨h4, h5, h6⟩ := hs' (by simp)
      refine ⟨ρ'', hp.trans hp', ?_, fun _ => ⟨h4, h5.trans h2, h6.trans h3⟩⟩
      first | exact ho | exact ho'

theorem sim_repeat {m : M (Vis F) Unit} {m' : M (State F) Unit}
    (h : ∀ ρ', ρ <+: ρ' → Sim c ρ' Any m m') : ∀ (k : Nat) (ρ' : List NodeId), ρ <+: ρ' →
      Sim c ρ' Any (Vis.repeatM m k) (Vis.repeatM m' k)
  | 0, _, _ => sim_pure trivial
  | k + 1, ρ', hp => by
    simp only [Vis.repeatM]
    exact sim_bind (h ρ' hp) fun ρ'' hp' _ _ _ => sim_repeat h k ρ'' (hp.trans hp')

/-! ## Primitives -/

theorem Represents.heap {s : Vis F} {f : State F} (hr : Represents c ρ s f) {h' : Heap F}
    (he : Ext s.heap h') : Represents c ρ { s with heap := h' } f :=
  { hr with
    nodes := hr.nodes.ext he
    node := he.2 _ hr.node
    stack := fun n hn => he.2 _ (hr.stack n hn) }

theorem sim_addValueless (d : Option Desc) : Sim (F := F) c ρ Any (Vis.addValueless d) (pure ()) := by
  intro s f hr
  refine ⟨ρ, List.prefix_refl _, trivial, fun _ => ⟨?_, rfl, rfl⟩⟩
  have h1 := ext_append s.heap ⟨.valueless ⟨d, false⟩, []⟩
  have h2 := ext_addMember (s.heap ++ [⟨.valueless ⟨d, false⟩, []⟩]) s.node (some s.heap.length)
    (h1.2 _ hr.node)
  exact hr.heap (h1.trans h2)

/-- The state after `treePush` of a new node. -/
def enter (k : NodeKind F) (s : Vis F) : Vis F :=
  { s with heap := s.heap ++ [⟨k, []⟩], stack := s.node :: s.stack, node := s.heap.length }

theorem sim_within {k : NodeKind F} (hk : ∀ d i info mv nd, k ≠ .valued d i info mv nd)
    {m : M (Vis F) Unit} {m' : M (State F) Unit} (h : Sim c ρ Any m m') :
    Sim c ρ Any (Vis.within k m) m' := by
  intro s f hr
  have h1 := ext_append s.heap ⟨k, []⟩
  have hinner : Inner (s.heap ++ [⟨k, []⟩]) s.heap.length := ⟨⟨k, []⟩, by simp, hk⟩
  have hr1 := hr.heap h1
  have hr2 : Represents c ρ (enter k s) f :=
    { hr1 with
      node := hinner
      stack := fun n hn => by
        rcases List.mem_cons.1 hn with rfl | hn
        · exact hr1.node
        · exact hr1.stack n hn }
  obtain ⟨ρ', hp, ho, hs⟩ := h _ f hr2
  have he : Vis.within k m s = M.deferDo Vis.treePop m (enter k s) := rfl
  rw [he]
  unfold M.deferDo
  rcases hm : m (enter k s) with ⟨o, s'⟩
  rcases hm' : m' f with ⟨o', f'⟩
  rw [hm, hm'] at ho
  rw [hm, hm'] at hs
  cases o <;> cases o' <;> first
    | exact False.elim ho
    | exact ⟨ρ', hp, trivial, fun hd => absurd rfl hd⟩
    | skip
  all_goals
    obtain ⟨h3, h4, h5⟩ := hs (by simp)
    simp only [enter] at h4 h5
    have hpop : Vis.treePop s' = (.ok (), { s' with stack := s.stack, node := s.node }) := by
      unfold Vis.treePop
      rw [h4]
    simp only [hpop]
    have hst := h3.stack
    rw [h4] at hst
    exact ⟨ρ', hp, ho, fun _ => ⟨{ h3 with
      node := hst _ (by simp)
      stack := fun n hn => hst n (by simp [hn]) }, trivial, trivial⟩⟩

theorem sim_addMember {n : NodeId} {i : Nat} {m : Option NodeId} {j : Option Nat} (h1 : Ref ρ n i)
    (h2 : RefO ρ m j) : Sim (F := F) c ρ Any (Vis.addMember n m) (attachTo i j) := by
  refine sim_modify trivial fun s f hr => ⟨?_, rfl, rfl⟩
  refine { hr with
    nodes := hr.nodes.attach h1 h2
    node := ext_addMember_inner _ _ _ hr.node
    stack := fun n hn => ext_addMember_inner _ _ _ (hr.stack n hn)
    widths := ?_
    cells := ?_
    backref_lt := ?_
    empty := ?_ }
  · intro col hc
    obtain ⟨i', hi⟩ := List.getElem?_of_mem hc
    simp only [List.getElem?_modify] at hi
    cases hc : f.cols[i']? with
    | none => rw [hc] at hi; cases hi
    | some col' =>
      rw [hc] at hi
      have := hr.widths col' (List.mem_of_getElem? hc)
      by_cases e : i = i' <;> simp [e] at hi <;> rw [← hi] <;> exact this
  · rw [hr.cells]
    have e : cellsOf ρ (f.cols.modify i fun x => { x with attrs := x.attrs ++ [j] }) = cellsOf ρ f.cols :=
      funext fun k => cellsOf_attach ρ f.cols i j k
    simp only [e]
  · simp only [List.length_modify]
    exact hr.backref_lt
  · intro h0
    have := hr.empty h0
    simp [this]

theorem sim_addMembers {n : NodeId} {i : Nat} (h1 : Ref ρ n i) {ns : List NodeId} {is : List Nat}
    (h2 : All2 (Ref ρ) ns is) : Sim (F := F) c ρ Any (Vis.addMembers n ns) (attachAll i is) := by
  have key : ∀ ρ', ρ <+: ρ' → Sim (F := F) c ρ' Any (Vis.addMembers n ns) (attachAll i is) := by
    induction h2 with
    | nil => exact fun _ _ => sim_pure trivial
    | cons h3 h4 ih =>
      intro ρ' hp
      simp only [Vis.addMembers, attachAll]
      exact sim_bind (sim_addMember (h1.mono hp) (h3.mono hp)) fun ρ'' hp' _ _ _ => ih _ (hp.trans hp')
  exact key ρ (List.prefix_refl _)

/-! ## Looking at cells -/

theorem Represents.len {s : Vis F} {f : State F} (hr : Represents c ρ s f) : s.cells.len = f.len := by
  rw [hr.cells]
  unfold State.len
  rcases hs : f.subsets with _ | _ | n
  · simp [Cells.len, cellsOf_length hr.nodes.length]
  · simp [Cells.len]
  · simp [List.range_succ_eq_map, Cells.len, cellsOf_length hr.nodes.length]

theorem Represents.cell {s : Vis F} {f : State F} (hr : Represents c ρ s f) (i : Int) :
    OutRel (fun x col => Ref ρ x.n i.toNat ∧ x.v = col.vals.getD 0 .nil) (s.cells.cell i) (index f.cols i) := by
  have key : OutRel (fun (x : Cell F) (col : Column F) => Ref ρ x.n i.toNat ∧ x.v = col.vals.getD 0 .nil)
      (index (cellsOf ρ f.cols 0) i) (index f.cols i) := by
    have hl := cellsOf_length hr.nodes.length 0
    by_cases hi : i < 0 ∨ (f.cols.length : Int) ≤ i
    · rw [index_out hi, index_out (by rw [hl]; exact hi)]
      rfl
    · obtain ⟨k, rfl⟩ : ∃ k : Nat, i = k := ⟨i.toNat, by omega⟩
      have hk : k < f.cols.length := by omega
      have h1 := List.getElem?_eq_getElem hk
      have h2 := List.getElem?_eq_getElem (l := ρ) (i := k) (by rw [hr.nodes.length]; exact hk)
      rw [index_some h1, index_some (cellsOf_get h2 h1 0)]
      exact ⟨h2, rfl⟩
  rw [hr.cells]
  rcases hs : f.subsets with _ | _ | n
  · exact key
  · rw [hr.empty hs]
    simp [Cells.cell, index, OutRel]
  · simp only [List.range_succ_eq_map, List.map_cons, Cells.cell]
    exact key

theorem Represents.value {s : Vis F} {f : State F} (hr : Represents c ρ s f) (i : Int) :
    OutRel (fun x v => Ref ρ x.n i.toNat ∧ x.v = v) (s.cells.cell i) (f.value i) := by
  have h := hr.cell i
  unfold State.value
  cases h1 : s.cells.cell i <;> cases h2 : index f.cols i <;> rw [h1, h2] at h <;> first
    | exact False.elim h
    | exact h

theorem sameValue_eq [GoFloat F] {ρ : List NodeId} {cols : List (Column F)} {i : Nat} {n : NodeId}
    {col : Column F} (h1 : ρ[i]? = some n) (h2 : cols[i]? = some col) (v : Val F) : ∀ ks : List Nat,
    Cells.sameValue v i (ks.map (cellsOf ρ cols)) = allEqual v (ks.map fun k => col.vals.getD k .nil)
  | [] => rfl
  | k :: ks => by
    simp only [List.map_cons, Cells.sameValue, allEqual, index_some (cellsOf_get h1 h2 k),
      Outcome.bind_ok, sameValue_eq h1 h2 v ks]

theorem map_getD {l : List α} {d : α} : (List.range l.length).map (fun k => l.getD k d) = l := by
  apply List.ext_getElem?
  intro i
  rw [List.getElem?_map]
  rcases Nat.lt_or_ge i l.length with h | h
  · rw [List.getElem?_range h]
    simp [List.getElem?_eq_getElem h, List.getD]
  · rw [List.getElem?_eq_none h, List.getElem?_eq_none (by simpa using h)]
    rfl

theorem Represents.lastEqual [GoFloat F] {s : Vis F} {f : State F} (hr : Represents c ρ s f) :
    s.cells.lastCellEquality = f.lastEqual := by
  rw [hr.cells]
  unfold State.lastEqual
  rcases hs : f.subsets with _ | _ | n
  · rfl
  · simp [hr.empty hs, Cells.lastCellEquality, index]
  · have hl := cellsOf_length hr.nodes.length 0
    simp only [List.range_succ_eq_map, List.map_cons, Cells.lastCellEquality, hl]
    rcases Nat.eq_zero_or_pos f.cols.length with h0 | h0
    · have h1 : f.cols = [] := List.length_eq_zero_iff.1 h0
      rw [h1]
      simp [index, cellsOf]
    · obtain ⟨k, hk⟩ : ∃ k, f.cols.length = k + 1 := ⟨f.cols.length - 1, by omega⟩
      have he : (f.cols.length : Int) - 1 = (k : Nat) := by omega
      rw [he]
      have h1 := List.getElem?_eq_getElem (l := f.cols) (i := k) (by omega)
      have h2 := List.getElem?_eq_getElem (l := ρ) (i := k) (by rw [hr.nodes.length]; omega)
      rw [index_some h1, index_some (cellsOf_get h2 h1 0)]
      simp only [Outcome.bind_ok]
      rw [sameValue_eq h2 h1]
      have hw := hr.widths _ (List.mem_of_getElem? h1)
      rw [hs] at hw
      simp only [Option.getD_some] at hw
      have hv := map_getD (l := (f.cols[k]'(by omega)).vals) (d := (Val.nil : Val F))
      rw [hw, List.range_succ_eq_map, List.map_cons] at hv
      cases hvals : (f.cols[k]'(by omega)).vals with
      | nil => rw [hvals] at hw; simp at hw
      | cons v vs =>
        rw [hvals] at hv
        have := List.cons.inj hv
        simp only [List.getD_cons_zero] at this ⊢
        rw [this.2]

theorem Represents.packing [GoFloat F] {s : Vis F} {f : State F} (hr : Represents c ρ s f) (d : NodeDesc) :
    Vis.calcPackingInfo s d = f.packing d.d := by
  unfold Vis.calcPackingInfo State.packing Vis.calcRefval
  rw [hr.newRefval, hr.nbitsString, hr.nbitsOffset, hr.nbitsIncrement, hr.scaleOffset, hr.scaleIncrement,
    hr.refvalFactor]
  cases d.d with
  | none => rfl
  | some d =>
    simp only []
    cases d.entry <;> try rfl

/-! ## Reading a value -/

theorem setIndex_ne (h : Heap F) (n m : NodeId) (i : Int) (mv : Val F) (nd : Int) (hne : n ≠ m) :
    (h.setIndex n i mv nd)[m]? = h[m]? := by
  unfold Heap.setIndex
  rw [List.getElem?_modify]
  simp [hne]

theorem ext_setIndex {h0 h : Heap F} (he : Ext h0 h) (n : NodeId) (hn : h0.length ≤ n) (i : Int) (mv : Val F)
    (nd : Int) : Ext h0 (h.setIndex n i mv nd) := by
  constructor
  · intro m d j info mv' nd' ms hm
    rw [setIndex_ne _ _ _ _ _ _ (Nat.ne_of_gt (Nat.lt_of_lt_of_le (getElem?_lt hm) hn))]
    exact he.1 _ _ _ _ _ _ _ hm
  · intro m hm
    obtain ⟨y, hy, hk⟩ := he.2 m hm
    obtain ⟨z, hz, _⟩ := hm
    exact ⟨y, by rw [setIndex_ne _ _ _ _ _ _ (Nat.ne_of_gt (Nat.lt_of_lt_of_le (getElem?_lt hz) hn))]; exact hy, hk⟩

/-- The heap after a value node was made, added to the tree and given its index. -/
def withNode (s : Vis F) (d : NodeDesc) (info : PackingInfo F) (i : Int) (mv : Val F) (nd : Int) : Heap F :=
  Heap.setIndex (Heap.addMember (s.heap ++ [⟨.valued d 0 info .nil 0, []⟩]) s.node (some s.heap.length))
    s.heap.length i mv nd

theorem Inner.lt {h : Heap F} {n : NodeId} (hn : Inner h n) : n < h.length := by
  obtain ⟨_, hx, _⟩ := hn
  exact getElem?_lt hx

theorem ext_withNode {s : Vis F} (hn : Inner s.heap s.node) (d : NodeDesc) (info : PackingInfo F) (i : Int)
    (mv : Val F) (nd : Int) : Ext s.heap (withNode s d info i mv nd) := by
  have h1 := ext_append s.heap ⟨.valued d 0 info .nil 0, []⟩
  exact ext_setIndex (h1.trans (ext_addMember _ _ _ (h1.2 _ hn))) _ (Nat.le_refl _) _ _ _

theorem get_withNode {s : Vis F} (hn : Inner s.heap s.node) (d : NodeDesc) (info : PackingInfo F) (i : Int)
    (mv : Val F) (nd : Int) :
    (withNode s d info i mv nd)[s.heap.length]? = some ⟨.valued d i info mv nd, []⟩ := by
  unfold withNode Heap.setIndex Heap.addMember
  rw [List.getElem?_modify, List.getElem?_modify]
  have hne : s.node ≠ s.heap.length := Nat.ne_of_lt hn.lt
  simp [hne]

theorem Represents.push {s : Vis F} {f : State F} (hr : Represents c ρ s f) (col : Column F)
    (ha : col.attrs = []) (hw : col.vals.length = f.subsets.getD 1) (h0 : f.subsets ≠ some 0)
    {cells' : Cells F}
    (hc : cells' = match f.subsets with
      | none => .flat (cellsOf (ρ ++ [s.heap.length]) (f.cols ++ [col]) 0)
      | some n => .tissues ((List.range n).map (cellsOf (ρ ++ [s.heap.length]) (f.cols ++ [col])))) :
    Represents c (ρ ++ [s.heap.length])
      ({ s with
        heap := withNode s col.desc col.info f.cols.length col.minValue col.nbitsDiff
        cells := cells' } : Vis F)
      { f with cols := f.cols ++ [col] } := by
  have he := ext_withNode hr.node col.desc col.info f.cols.length col.minValue col.nbitsDiff
  have hp : ρ <+: ρ ++ [s.heap.length] := List.prefix_append _ _
  exact { hr with
    nodes := hr.nodes.push he _ col ha (get_withNode hr.node _ _ _ _ _)
    widths := by
      intro col' hm
      rcases List.mem_append.1 hm with hm | hm
      · exact hr.widths _ hm
      · rw [List.mem_singleton.1 hm]; exact hw
    cells := hc
    node := he.2 _ hr.node
    stack := fun n hn => he.2 _ (hr.stack n hn)
    assoc := hr.assoc.imp fun a b h => ⟨h.1, h.2.mono hp⟩
    targets := hr.targets.imp fun a b h => h.mono hp
    backref_lt := by
      have := hr.backref_lt
      simp only [List.length_append, List.length_singleton]
      omega
    empty := fun h => absurd h h0 }

theorem Represents.reader {s : Vis F} {f : State F} (hr : Represents c ρ s f) (r : Reader F) :
    Represents c ρ ({ s with r := r } : Vis F) { f with r := r } := { hr with r := rfl }

theorem ref_push {n : NodeId} {f : State F} {heap : Heap F} (hn : Nodes ρ heap f.cols) :
    Ref (ρ ++ [n]) n f.cols.length := by
  unfold Ref
  rw [← hn.length]
  simp

theorem unpack_plain [GoFloat F] {u : Unpacker} (hu : u = .uncompress ∨ u = .json) (info : PackingInfo F)
    (r r' : Reader F) (v : Unpacked F) (h : u.unpack info r = (.ok v, r')) : ∃ x, v = .plain x := by
  rcases hu with rfl | rfl <;>
  · simp only [Unpacker.unpack, M.bind_eq_ok] at h
    obtain ⟨x, s1, _, h1⟩ := h
    simp only [M.pure_apply, Prod.mk.injEq, Outcome.ok.injEq] at h1
    exact ⟨x, h1.1.symm⟩

theorem unpack_compressed [GoFloat F] (ns : Int) (fuel : Nat) (info : PackingInfo F)
    (r r' : Reader F) (v : Unpacked F) (h : (Unpacker.compressed ns fuel).unpack info r = (.ok v, r')) :
    ∃ x, v = .compressed x ∧ x.values.length = ns.toNat := by
  simp only [Unpacker.unpack, M.bind_eq_ok] at h
  obtain ⟨x, s1, h0, h1⟩ := h
  simp only [M.pure_apply, Prod.mk.injEq, Outcome.ok.injEq] at h1
  exact ⟨x, h1.1.symm, compressedUnpack_length _ _ _ _ _ _ h0⟩

theorem addColumn_cellsOf {cols : List (Column F)} (h : ρ.length = cols.length) (n : NodeId) (col : Column F)
    (k : Nat) (hk : col.vals.length = k) :
    Cells.addColumn n col.vals ((List.range k).map (cellsOf ρ cols)) =
      .ok ((List.range k).map (cellsOf (ρ ++ [n]) (cols ++ [col]))) := by
  rw [addColumn_eq _ _ _ (by simp [hk])]
  congr 1
  apply List.ext_getElem?
  intro i
  rw [List.getElem?_zipWith, List.getElem?_map, List.getElem?_map]
  rcases Nat.lt_or_ge i k with hi | hi
  · rw [List.getElem?_range hi, List.getElem?_eq_getElem (by omega)]
    simp only [Option.map_some, Option.some.injEq]
    rw [cellsOf_push h]
    congr 3
    simp [List.getD, List.getElem?_eq_getElem (show i < col.vals.length by omega)]
  · rw [List.getElem?_eq_none (by simpa using hi)]
    simp

/-- Making the node and adding the cell. -/
def place (d : NodeDesc) (info : PackingInfo F) (v : Unpacked F) : M (Vis F) NodeId := do
  let n ← Vis.alloc (.valued d 0 info .nil 0)
  Vis.treeAdd n
  Vis.cellsAdd n v
  pure n

theorem place_apply (d : NodeDesc) (info : PackingInfo F) (v : Unpacked F) (s : Vis F) :
    place d info v s = (do Vis.cellsAdd s.heap.length v; pure s.heap.length : M (Vis F) NodeId)
      ({ s with heap := (Heap.addMember (s.heap ++ [⟨.valued d 0 info .nil 0, []⟩]) s.node
        (some s.heap.length)) } : Vis F) := rfl

/-- The state after a value node was made. -/
def placed (s : Vis F) (d : NodeDesc) (info : PackingInfo F) (i : Int) (mv : Val F) (nd : Int) (cells : Cells F) :
    Vis F :=
  { s with heap := withNode s d info i mv nd, cells := cells }

theorem place_flat (d : NodeDesc) (info : PackingInfo F) (v : Val F) (s : Vis F) {cs : List (Cell F)}
    (hc : s.cells = .flat cs) : place d info (.plain v) s =
      (.ok s.heap.length, placed s d info cs.length .nil 0 (.flat (cs ++ [⟨s.heap.length, v⟩]))) := by
  rw [place_apply, M.bind_apply]
  unfold Vis.cellsAdd
  simp only [hc]
  rfl

theorem place_tissues (d : NodeDesc) (info : PackingInfo F) (v : CompressedVal F) (s : Vis F)
    {t : List (Cell F)} {ts ts' : List (List (Cell F))}
    (hc : s.cells = .tissues (t :: ts)) (ha : Cells.addColumn s.heap.length v.values (t :: ts) = .ok ts') :
    place d info (.compressed v) s =
      (.ok s.heap.length, placed s d info t.length v.minValue v.nbitsDiff (.tissues ts')) := by
  rw [place_apply, M.bind_apply]
  unfold Vis.cellsAdd
  simp only [hc, ha]
  rfl

/-- The unpacker in use matches the cells builder in use. -/
def Fits (c : VisCfg) (v : Unpacked F) : Prop :=
  if c.compressed = true ∧ c.inputType = .binary then
    ∃ x, v = .compressed x ∧ x.values.length = c.nsubsets.toNat
  else ∃ x, v = .plain x

theorem sim_unpack [GoFloat F] (hc : CfgOk c) (info : PackingInfo F) :
    Sim c ρ (fun _ v w => v = w ∧ Fits c v) (Vis.unpack c info)
      (M.zoom State.r (fun r f => { f with r := r }) (c.unpacker.unpack info)) := by
  intro s f hr
  have e2 : M.zoom State.r (fun r f => { f with r := r }) (c.unpacker.unpack info) f =
      ((c.unpacker.unpack info s.r).1, ({ f with r := (c.unpacker.unpack info s.r).2 } : State F)) := by
    rw [hr.r]; rfl
  have e1 : Vis.unpack c info s = ((c.unpacker.unpack info s.r).1,
      ({ s with r := (c.unpacker.unpack info s.r).2 } : Vis F)) := rfl
  rw [e1, e2]
  refine ⟨ρ, List.prefix_refl _, ?_, fun _ => ⟨hr.reader _, rfl, rfl⟩⟩
  rcases hv : (c.unpacker.unpack info s.r) with ⟨o, r'⟩
  cases o with
  | err e => rfl
  | panic w => rfl
  | diverge => trivial
  | ok v =>
    refine ⟨rfl, ?_⟩
    unfold Fits
    rcases cfg_cases hc with ⟨hc1, hc2, fuel, hu⟩ | ⟨hcn, hu⟩
    · rw [if_pos ⟨hc1, hc2⟩]
      rw [hu] at hv
      exact unpack_compressed _ _ _ _ _ _ hv
    · rw [if_neg hcn]
      exact unpack_plain (hu.imp And.right And.right) _ _ _ _ hv

/-- Adding the column. -/
def placeCol (d : NodeDesc) (info : PackingInfo F) (val : Unpacked F) : M (State F) Nat := fun f =>
  match f.subsets, val with
  | none, .plain v =>
    (.ok f.cols.length, { f with cols := f.cols ++ [⟨d, info, .nil, 0, [], [v]⟩] })
  | none, .compressed _ => (.panic "does not occur", f)
  | some 0, _ => (.panic "index out of range", f)
  | some (_ + 1), .plain _ => (.panic "interface conversion", f)
  | some (_ + 1), .compressed cv =>
    (.ok f.cols.length,
      { f with cols := f.cols ++ [⟨d, info, cv.minValue, cv.nbitsDiff, [], cv.values⟩] })

theorem sim_place (d : NodeDesc) (info : PackingInfo F) (v : Unpacked F) (hv : Fits c v) :
    Sim c ρ (fun ρ' n i => Ref ρ' n i) (place d info v) (placeCol d info v) := by
  intro s f hr
  have hcells := hr.cells
  have hl := cellsOf_length hr.nodes.length 0
  unfold Fits at hv
  by_cases hcc : c.compressed = true ∧ c.inputType = .binary
  · rw [if_pos hcc] at hv
    obtain ⟨cv, rfl, hlen⟩ := hv
    have hsub : f.subsets = some c.nsubsets.toNat := by rw [hr.subsets, if_pos hcc]
    rw [hsub] at hcells
    simp only [] at hcells
    cases hns : c.nsubsets.toNat with
    | zero =>
      rw [hns] at hcells hsub
      simp only [List.range_zero, List.map_nil] at hcells
      have h1 := ext_append s.heap ⟨.valued d 0 info .nil 0, []⟩
      have hr2 := hr.heap (h1.trans (ext_addMember _ _ (some s.heap.length) (h1.2 _ hr.node)))
      have e : place d info (.compressed cv) s = (.panic "index out of range",
          ({ s with heap := (Heap.addMember (s.heap ++ [⟨.valued d 0 info .nil 0, []⟩]) s.node
            (some s.heap.length)) } : Vis F)) := by
        rw [place_apply, M.bind_apply]
        unfold Vis.cellsAdd
        simp only [hcells]
      have e' : placeCol d info (.compressed cv) f = (.panic "index out of range", f) := by
        unfold placeCol
        simp only [hsub]
      rw [e, e']
      exact ⟨ρ, List.prefix_refl _, rfl, fun _ => ⟨hr2, rfl, rfl⟩⟩
    | succ k =>
      rw [hns] at hcells hsub hlen
      have hadd := addColumn_cellsOf hr.nodes.length s.heap.length
        (⟨d, info, cv.minValue, cv.nbitsDiff, [], cv.values⟩ : Column F) (k + 1) hlen
      have hex : (List.range (k + 1)).map (cellsOf ρ f.cols) =
        cellsOf ρ f.cols 0 :: (List.map Nat.succ (List.range k)).map (cellsOf ρ f.cols) := by
        rw [List.range_succ_eq_map, List.map_cons]
      rw [hex] at hcells hadd
      have e := place_tissues d info cv s hcells hadd
      rw [hl] at e
      have e' : placeCol d info (.compressed cv) f = (.ok f.cols.length,
          { f with cols := f.cols ++ [⟨d, info, cv.minValue, cv.nbitsDiff, [], cv.values⟩] }) := by
        unfold placeCol
        simp only [hsub]
      rw [e, e']
      refine ⟨ρ ++ [s.heap.length], List.prefix_append _ _, ref_push hr.nodes, fun _ => ⟨?_, rfl, rfl⟩⟩
      refine hr.push (⟨d, info, cv.minValue, cv.nbitsDiff, [], cv.values⟩ : Column F) rfl ?_ ?_ ?_
      · rw [hsub]; exact hlen
      · rw [hsub]; simp
      · rw [hsub]
  · rw [if_neg hcc] at hv
    obtain ⟨v, rfl⟩ := hv
    have hsub : f.subsets = none := by rw [hr.subsets, if_neg hcc]
    rw [hsub] at hcells
    simp only [] at hcells
    have e := place_flat d info v s hcells
    rw [hl] at e
    have e' : placeCol d info (.plain v) f = (.ok f.cols.length,
        { f with cols := f.cols ++ [⟨d, info, .nil, 0, [], [v]⟩] }) := by
      unfold placeCol
      simp only [hsub]
    rw [e, e']
    refine ⟨ρ ++ [s.heap.length], List.prefix_append _ _, ref_push hr.nodes, fun _ => ⟨?_, rfl, rfl⟩⟩
    refine hr.push (⟨d, info, .nil, 0, [], [v]⟩ : Column F) rfl ?_ ?_ ?_
    · rw [hsub]; rfl
    · rw [hsub]; simp
    · rw [hsub]
      simp only []
      rw [cellsOf_push hr.nodes.length]
      rfl

theorem sim_build [GoFloat F] (hc : CfgOk c) (d : NodeDesc) (info : PackingInfo F) :
    Sim c ρ (fun ρ' n i => Ref ρ' n i) (Vis.buildValuedNodeWithInfo c d info) (build c d info) := by
  unfold Vis.buildValuedNodeWithInfo build
  refine sim_bind (sim_unpack hc info) fun ρ' hp v w hv => ?_
  obtain ⟨rfl, hf⟩ := hv
  exact sim_place d info v hf

theorem sim_packing [GoFloat F] (d : NodeDesc) : Sim (F := F) c ρ (fun _ a b => a = b)
    (fun s => (Vis.calcPackingInfo s d, s)) (fun f => (f.packing d.d, f)) :=
  sim_query fun _ _ hr => outRel_eq.2 (hr.packing d)

theorem sim_element [GoFloat F] (hc : CfgOk c) (d : Desc) :
    Sim c ρ (fun ρ' n i => Ref ρ' n i) (Vis.buildValuedNode (F := F) c ⟨some d, false⟩) (buildElement c d) := by
  unfold Vis.buildValuedNode buildElement
  refine sim_bind (sim_packing _) fun ρ' hp a b hv => ?_
  subst hv
  exact sim_build hc _ _

theorem sim_assocs [GoFloat F] (hc : CfgOk c) (d : Desc) {ps : List AssocPair} {as : List Assoc}
    (h : All2 (fun p a => p.nbits = a.nbits ∧ RefO ρ p.node a.sig) ps as) :
    Sim (F := F) c ρ (fun ρ' ns is => All2 (Ref ρ') ns is) (Vis.assocLoop c d ps) (buildAssocs c d as) := by
  have key : ∀ ρ', ρ <+: ρ' →
      Sim (F := F) c ρ' (fun ρ' ns is => All2 (Ref ρ') ns is) (Vis.assocLoop c d ps) (buildAssocs c d as) := by
    induction h with
    | nil => exact fun _ _ => sim_pure .nil
    | cons h1 h2 ih =>
      intro ρ' hp
      simp only [Vis.assocLoop, buildAssocs]
      rw [h1.1]
      refine sim_bind (sim_build hc _ _) fun ρ1 hp1 n i hn => ?_
      refine sim_bind (sim_addMember hn (h1.2.mono (hp.trans hp1))) fun ρ2 hp2 _ _ _ => ?_
      refine sim_bind (ih _ (hp.trans (hp1.trans hp2))) fun ρ3 hp3 ns is hns => ?_
      exact sim_pure (.cons (hn.mono (hp2.trans hp3)) hns)
  exact key ρ (List.prefix_refl _)

theorem sim_assocNodes [GoFloat F] (hc : CfgOk c) (d : Desc) :
    Sim (F := F) c ρ (fun ρ' ns is => All2 (Ref ρ') ns is) (Vis.buildAssocNodes c d) (elementAssocs c d) := by
  intro s f hr
  have hl := hr.assoc.length
  by_cases h1 : d.id.X = 31 ∨ s.assoc.length = 0
  · have e1 : Vis.buildAssocNodes c d s = (.ok [], s) := if_pos h1
    have e2 : (if d.id.X = 31 then [] else f.assoc) = [] := by
      split
      · rfl
      · rename_i h
        exact List.length_eq_zero_iff.1 (by rw [← hl]; exact h1.resolve_left h)
    have e3 : elementAssocs c d f = (.ok [], f) := by
      unfold elementAssocs
      rw [e2]
      rfl
    rw [e1, e3]
    exact ⟨ρ, List.prefix_refl _, .nil, fun _ => ⟨hr, rfl, rfl⟩⟩
  · have e1 : Vis.buildAssocNodes c d s = Vis.assocLoop c d s.assoc s := if_neg h1
    have e3 : elementAssocs c d f = buildAssocs c d f.assoc f := by
      unfold elementAssocs
      rw [if_neg fun h => h1 (.inl h)]
    rw [e1, e3]
    exact sim_assocs hc d hr.assoc s f hr

theorem sim_popAssoc : Sim (F := F) c ρ Any Vis.assocPop popAssoc := by
  intro s f hr
  have hl := hr.assoc.length
  unfold Vis.assocPop popAssoc
  rw [show f.assoc.isEmpty = s.assoc.isEmpty by
    rw [Bool.eq_iff_iff, List.isEmpty_iff_length_eq_zero, List.isEmpty_iff_length_eq_zero]; omega]
  split
  · exact ⟨ρ, List.prefix_refl _, rfl, fun _ => ⟨hr, rfl, rfl⟩⟩
  · exact ⟨ρ, List.prefix_refl _, trivial, fun _ => ⟨{ hr with assoc := hr.assoc.dropLast }, rfl, rfl⟩⟩

theorem sim_zero [GoFloat F] (hc : CfgOk c) (d : Desc) :
    Sim (F := F) c ρ Any (M.ignoreErr () (Vis.buildZeroNode c (some d))) (buildZero c d) := by
  unfold Vis.buildZeroNode buildZero
  split
  · exact sim_ignore (sim_bind (sim_build hc _ _) fun _ _ _ _ _ => sim_pure trivial)
  · exact sim_ignore (m' := pure ()) (sim_addValueless _)

/-! ## Bitmaps -/

theorem sim_len : Sim (F := F) c ρ (fun ρ' (a b : Int) => a = b ∧ a = (ρ'.length : Int)) Vis.len (fun f => (f.len, f)) :=
  sim_query fun s f hr => by
    rw [hr.len]
    unfold State.len
    split
    · rfl
    · exact ⟨rfl, by rw [hr.nodes.length]⟩

theorem State.len_cases (f : State F) : f.len = .panic "index out of range" ∨ f.len = .ok f.cols.length := by
  unfold State.len
  split
  · exact .inl rfl
  · exact .inr rfl

theorem sim_newAssessment : Sim (F := F) c ρ Any Vis.newAssessment newAssessment := by
  intro s f hr
  unfold Vis.newAssessment newAssessment
  rw [hr.backref, hr.len]
  split
  · rcases f.len_cases with h | h <;> rw [h]
    · exact ⟨ρ, List.prefix_refl _, rfl, fun _ => ⟨hr, rfl, rfl⟩⟩
    · refine ⟨ρ, List.prefix_refl _, trivial, fun _ => ⟨?_, rfl, rfl⟩⟩
      exact { hr with
        backref := rfl
        backref_ge := by simp only []; omega
        backref_lt := by simp only []; omega }
  · exact ⟨ρ, List.prefix_refl _, trivial, fun _ => ⟨hr, rfl, rfl⟩⟩

theorem sim_newBitmap : Sim (F := F) c ρ Any (Vis.newBitmap true) newBitmap := by
  unfold Vis.newBitmap newBitmap
  refine sim_bind sim_len fun ρ' hp a b hv => ?_
  rw [hv.1]
  refine sim_modify trivial fun s f hr => ⟨?_, rfl, rfl⟩
  exact { hr with
    bitmaps := by simp only [hr.bitmaps]
    reusable := by simp [hr.bitmaps]
    current := by simp only [hr.bitmaps] }

theorem sim_endBitmap : Sim (F := F) c ρ Any Vis.endBitmap endBitmap := by
  intro s f hr
  unfold Vis.endBitmap endBitmap
  rw [hr.len, hr.current]
  rcases f.len_cases with h | h <;> rw [h]
  · exact ⟨ρ, List.prefix_refl _, rfl, fun _ => ⟨hr, rfl, rfl⟩⟩
  · cases hcur : f.current with
    | none => exact ⟨ρ, List.prefix_refl _, rfl, fun _ => ⟨hr, rfl, rfl⟩⟩
    | some b =>
      refine ⟨ρ, List.prefix_refl _, trivial, fun _ => ⟨?_, rfl, rfl⟩⟩
      exact { hr with
        bitmaps := by simp only [hr.bitmaps]
        current := by rw [hr.current, hcur] }

theorem uintValue_eq [GoFloat F] (x : Cell F) : x.uintValue = Cell.uintValue ⟨0, x.v⟩ := rfl

theorem Represents.bitsLoop [GoFloat F] {s : Vis F} {f : State F} (hr : Represents c ρ s f) :
    ∀ (k : Nat) (i : Int), Vis.bitsLoop s.cells k i = bitsOf f k i
  | 0, _ => rfl
  | k + 1, i => by
    have h := hr.value i
    simp only [Vis.bitsLoop, bitsOf]
    rw [hr.bitsLoop k (i + 1)]
    cases h1 : s.cells.cell i <;> cases h2 : f.value i <;> rw [h1, h2] at h <;> first
      | exact False.elim h
      | skip
    · rename_i x v
      simp only [Outcome.bind_ok]
      rw [uintValue_eq, h.2]
    · rw [show _ = _ from h]; rfl
    · rw [show _ = _ from h]; rfl
    · rfl

theorem Represents.bits [GoFloat F] {s : Vis F} {f : State F} (hr : Represents c ρ s f) :
    s.bits = f.bits := by
  unfold Vis.bits State.bits
  rw [hr.current, hr.bitmaps]
  cases f.current.bind fun b => f.bitmaps[b]? with
  | none => rfl
  | some b =>
    simp only []
    split
    · rfl
    · exact hr.bitsLoop _ _

theorem Represents.node_at {s : Vis F} {f : State F} (hr : Represents c ρ s f) {k : Nat} (hk : k < ρ.length) :
    ∃ v, s.cells.cell k = .ok ⟨ρ[k], v⟩ := by
  have h := hr.cell k
  rw [index_some (List.getElem?_eq_getElem (by rw [← hr.nodes.length]; exact hk))] at h
  obtain ⟨⟨n, v⟩, h1, h2, _⟩ := h.ok
  simp only [Int.toNat_natCast] at h2
  unfold Ref at h2
  rw [List.getElem?_eq_getElem hk] at h2
  rw [h1, Option.some.inj h2]
  exact ⟨v, rfl⟩

theorem Represents.targetLoop {s : Vis F} {f : State F} (hr : Represents c ρ s f) (want : Nat) :
    ∀ (k : Nat) (acc : List NodeId), k ≤ ρ.length → Vis.targetLoop s.cells want k acc =
      .ok ((ρ.take k).drop (k - (want - 1 - acc.length + 1)) ++ acc)
  | 0, acc, _ => by simp [Vis.targetLoop]
  | k + 1, acc, hk => by
    obtain ⟨v, hv⟩ := hr.node_at (k := k) (by omega)
    simp only [Vis.targetLoop, hv, Outcome.bind_ok]
    have ht : ρ.take (k + 1) = ρ.take k ++ [ρ[k]] := (List.take_append_getElem (by omega)).symm
    rw [ht]
    have hlen : (ρ.take k).length = k := by rw [List.length_take]; omega
    split
    · rename_i hlt
      simp only [List.length_cons] at hlt
      rw [hr.targetLoop want k (ρ[k] :: acc) (by omega)]
      have e : k + 1 - (want - 1 - acc.length + 1) = k - (want - 1 - (acc.length + 1) + 1) := by omega
      rw [List.length_cons, e, List.drop_append_of_le_length (by rw [hlen]; omega)]
      simp
    · rename_i hge
      simp only [List.length_cons] at hge
      have e : k + 1 - (want - 1 - acc.length + 1) = k := by omega
      rw [e, List.drop_append_of_le_length (by rw [hlen]; omega), List.drop_of_length_le (by rw [hlen]; omega)]
      simp

theorem select_zeros : ∀ (bits : List Nat) (nodes : List NodeId) (lo : Nat),
    nodes.length = bits.length → (∀ j n, nodes[j]? = some n → Ref ρ n (lo + j)) →
    All2 (Ref ρ) (Vis.selectTargets bits nodes) (zeros bits lo)
  | [], [], _, _, _ => .nil
  | [], _ :: _, _, h, _ => by simp at h
  | _ :: _, [], _, h, _ => by simp at h
  | b :: bs, n :: ns, lo, h, hn => by
    have ih := select_zeros bs ns (lo + 1) (by simpa using h) fun j m hj => by
      have := hn (j + 1) m (by simpa using hj)
      rwa [show lo + (j + 1) = lo + 1 + j by omega] at this
    simp only [Vis.selectTargets, zeros]
    split
    · exact .cons (by simpa using hn 0 n rfl) ih
    · exact ih

theorem sim_targets [GoFloat F] : Sim (F := F) c ρ (fun ρ' ns is => All2 (Ref ρ') ns is) Vis.initTargetNodes
    selectTargets := by
  unfold Vis.initTargetNodes selectTargets
  refine sim_bind (sim_query (V := fun _ a b => a = b) fun s f hr => outRel_eq.2 hr.bits) fun ρ1 hp1 bits _ hb => ?_
  subst hb
  refine sim_bind (sim_query (V := fun ρ nodes (n : Int) => -1 < n ∧ n ≤ ρ.length ∧
      nodes = (ρ.take n.toNat).drop (n.toNat - (bits.length - 1 + 1)))
    (g' := fun f => .ok (f.backref + 1)) fun s f hr => ?_) fun ρ2 hp2 nodes n hn => ?_
  · have h1 := hr.backref_ge
    have h2 := hr.backref_lt
    have h3 := hr.nodes.length
    rw [hr.backref, hr.targetLoop _ _ _ (by omega)]
    refine ⟨by omega, by omega, ?_⟩
    simp
  · obtain ⟨h1, h2, rfl⟩ := hn
    have hlen : (ρ2.take n.toNat).length = n.toNat := by rw [List.length_take]; omega
    rw [List.length_drop, hlen]
    by_cases hf : n < bits.length ∨ (bits = [] ∧ 0 < n)
    · rw [if_pos hf, if_pos (by
        rcases hf with hf | ⟨rfl, hf⟩
        · omega
        · simp only [List.length_nil]; omega)]
      exact sim_fail _
    · have h3 : ¬ n < bits.length := fun h => hf (.inl h)
      have h4 : bits.length = 0 → n = 0 := by
        intro h0
        by_cases h : 0 < n
        · exact absurd (.inr ⟨List.length_eq_zero_iff.1 h0, h⟩) hf
        · omega
      rw [if_neg hf, if_neg (by omega)]
      have hsel : All2 (Ref ρ2) (Vis.selectTargets bits ((ρ2.take n.toNat).drop (n.toNat - (bits.length - 1 + 1))))
          (zeros bits (n.toNat - bits.length)) := by
        refine select_zeros bits _ _ ?_ ?_
        · rw [List.length_drop, hlen]; omega
        · intro j m hj
          rw [List.getElem?_drop] at hj
          have hlt := getElem?_lt hj
          rw [hlen] at hlt
          rw [List.getElem?_take_of_lt hlt] at hj
          unfold Ref
          rw [← hj]
          congr 1
          omega
      refine sim_bind (V := fun _ _ _ => True) (sim_modify trivial fun s f hr => ⟨{ hr with targets := hsel }, rfl, rfl⟩)
        fun ρ3 hp3 _ _ _ => sim_pure (hsel.imp fun _ _ h => h.mono hp3)

theorem Represents.nodesOfCells {s : Vis F} {f : State F} (hr : Represents c ρ s f) :
    ∀ (k i : Nat), i + k ≤ ρ.length → ∃ ns, Vis.nodesOfCells s.cells k i = .ok ns ∧
      All2 (Ref ρ) ns (List.range' i k)
  | 0, _, _ => ⟨[], rfl, .nil⟩
  | k + 1, i, h => by
    obtain ⟨v, hv⟩ := hr.node_at (k := i) (by omega)
    obtain ⟨ns, h1, h2⟩ := hr.nodesOfCells k (i + 1) (by omega)
    refine ⟨ρ[i] :: ns, ?_, ?_⟩
    · simp only [Vis.nodesOfCells, hv, Outcome.bind_ok]
      rw [show (i : Int) + 1 = ((i + 1 : Nat) : Int) by omega, h1]
      rfl
    · rw [List.range'_succ]
      exact .cons (List.getElem?_eq_getElem (by omega)) h2

theorem sim_valuedNodes {m : M (Vis F) Unit} {m' : M (State F) Unit}
    (h : ∀ ρ', ρ <+: ρ' → Sim c ρ' Any m m') :
    Sim c ρ (fun ρ' ns is => All2 (Ref ρ') ns is) (Vis.valuedNodes m) (added m') := by
  unfold Vis.valuedNodes added
  refine sim_bind sim_len fun ρ1 hp1 a0 _ h0 => ?_
  obtain ⟨rfl, h0⟩ := h0
  refine sim_bind (h _ hp1) fun ρ2 hp2 _ _ _ => ?_
  refine sim_bind sim_len fun ρ3 hp3 a1 _ h1 => ?_
  obtain ⟨rfl, h1⟩ := h1
  have hle := (hp2.trans hp3).length_le
  refine sim_ite_neg (by omega) ?_
  refine sim_query (g' := fun _ => .ok (List.range' a0.toNat (a1 - a0).toNat)) fun s f hr => ?_
  obtain ⟨ns, h2, h3⟩ := hr.nodesOfCells (a1 - a0).toNat a0.toNat (by omega)
  rw [show ((a0.toNat : Nat) : Int) = a0 by omega] at h2
  rw [h2]
  exact h3

theorem sim_attach {as : List NodeId} {as' : List Nat} (ha : All2 (Ref ρ) as as') {sns ts : List NodeId}
    {ss ts' : List Nat} (hs : All2 (Ref ρ) sns ss) (ht : All2 (Ref ρ) ts ts') :
    Sim (F := F) c ρ Any (Vis.attach as sns ts) (attachSources as' ss ts') := by
  have key : ∀ ρ', ρ <+: ρ' → Sim (F := F) c ρ' Any (Vis.attach as sns ts) (attachSources as' ss ts') := by
    induction hs generalizing ts ts' with
    | nil => exact fun _ _ => sim_pure trivial
    | cons h1 h2 ih =>
      intro ρ' hp
      cases ht with
      | nil => exact sim_crash _
      | cons h3 h4 =>
        simp only [Vis.attach, attachSources]
        refine sim_bind (sim_addMember (h3.mono hp) (h1.mono hp)) fun ρ1 hp1 _ _ _ => ?_
        refine sim_bind (sim_addMembers (h1.mono (hp.trans hp1))
          (ha.imp fun _ _ h => h.mono (hp.trans hp1))) fun ρ2 hp2 _ _ _ => ?_
        exact ih h4 _ (hp.trans (hp1.trans hp2))
  exact key ρ (List.prefix_refl _)

/-! ## The nodes of templates -/

theorem sim_marker [GoFloat F] (hc : CfgOk c) (d : Desc) :
    Sim (F := F) c ρ Any (Vis.visitMarker c d) (marker c d) := by
  unfold Vis.visitMarker marker
  refine sim_bind (V := fun ρ' n i => Ref ρ' n i) ?_ fun ρ1 hp1 n i hn => ?_
  · intro s f hr
    unfold Vis.nextTargetNode
    have ht := hr.targets
    cases h1 : s.bm.targets with
    | nil =>
      rw [h1] at ht
      cases h2 : f.targets with
      | nil =>
        simp only [h2]
        exact ⟨ρ, List.prefix_refl _, rfl, fun _ => ⟨hr, trivial, trivial⟩⟩
      | cons _ _ => rw [h2] at ht; cases ht
    | cons n ns =>
      rw [h1] at ht
      cases h2 : f.targets with
      | nil => rw [h2] at ht; cases ht
      | cons i is =>
        rw [h2] at ht
        cases ht with
        | cons h3 h4 =>
          simp only [h2]
          exact ⟨ρ, List.prefix_refl _, h3, fun _ => ⟨{ hr with targets := h4 }, trivial, trivial⟩⟩
  refine sim_bind (sim_query (V := fun _ (a : NodeDesc) b => a.d = b) fun s f hr => ?_) fun ρ2 hp2 td _ htd => ?_
  · have hl := hn.lt
    rw [hr.nodes.length] at hl
    obtain ⟨ms, h1, _⟩ := hr.nodes.node i n _ hn (List.getElem?_eq_getElem hl)
    rw [h1, List.getElem?_eq_getElem hl]
    rfl
  subst htd
  refine sim_bind (sim_packing td) fun ρ3 hp3 info _ hi => ?_
  subst hi
  exact sim_bind (sim_build hc _ _) fun _ _ _ _ _ => sim_pure trivial

theorem sim_delayed [GoFloat F] {m k : M (Vis F) Unit} {m' k' : M (State F) Unit}
    (h : ∀ ρ', ρ <+: ρ' → Sim c ρ' Any m m') (hk : ∀ ρ', ρ <+: ρ' → Sim c ρ' Any k k') :
    Sim c ρ Any (Vis.visitDelayed m k) (delayed m' k') := by
  unfold Vis.visitDelayed delayed
  refine sim_bind (h _ (List.prefix_refl _)) fun ρ1 hp1 _ _ _ => ?_
  refine sim_bind (sim_query (V := fun _ a b => a = b) fun s f hr => outRel_eq.2 hr.lastEqual) fun ρ2 hp2 b _ hb => ?_
  subst hb
  split
  · exact sim_fail _
  · refine sim_bind sim_len fun ρ3 hp3 n _ hn => ?_
    obtain ⟨rfl, hn⟩ := hn
    refine sim_bind (sim_query (V := fun _ (x : Cell F) v => x.v = v) fun s f hr => ?_) fun ρ4 hp4 x v hx => ?_
    · have := hr.value (n - 1)
      revert this
      cases s.cells.cell (n - 1) <;> cases f.value (n - 1) <;> simp [OutRel]
    · rw [uintValue_eq, hx]
      refine sim_bind (sim_lift (V := fun _ a b => a = b) (outRel_eq.2 rfl)) fun ρ5 hp5 j _ hj => ?_
      subst hj
      have hp : ρ <+: ρ5 := hp1.trans (hp2.trans (hp3.trans (hp4.trans hp5)))
      exact sim_repeat (ρ := ρ5) (fun ρ' hp' => sim_within (by simp) (hk ρ' (hp.trans hp'))) j ρ5 (List.prefix_refl _)

theorem sim_assessment [GoFloat F] (hc : CfgOk c) (d : Desc) {b a m : M (Vis F) Unit} {b' a' m' : M (State F) Unit}
    (hb : ∀ ρ', ρ <+: ρ' → Sim c ρ' Any b b') (ha : ∀ ρ', ρ <+: ρ' → Sim c ρ' Any a a')
    (hm : ∀ ρ', ρ <+: ρ' → Sim c ρ' Any m m') :
    Sim c ρ Any (Vis.visitAssessment c d b a m) (assessment c d b' a' m') := by
  unfold Vis.visitAssessment assessment
  refine sim_bind sim_newAssessment fun ρ1 hp1 _ _ _ => ?_
  refine sim_bind (sim_zero hc d) fun ρ2 hp2 _ _ _ => ?_
  refine sim_bind (hb _ (hp1.trans hp2)) fun ρ3 hp3 _ _ _ => ?_
  have hp03 := hp1.trans (hp2.trans hp3)
  refine sim_bind (sim_valuedNodes fun ρ' hp => ha _ (hp03.trans hp)) fun ρ4 hp4 as as' has => ?_
  refine sim_bind sim_targets fun ρ5 hp5 ts ts' hts => ?_
  refine sim_bind (sim_valuedNodes fun ρ' hp => hm _ (hp03.trans (hp4.trans (hp5.trans hp))))
    fun ρ6 hp6 ss ss' hss => ?_
  exact sim_attach (has.imp fun _ _ h => h.mono (hp5.trans hp6)) hss (hts.imp fun _ _ h => h.mono hp6)

theorem sim_bitmap [GoFloat F] (hc : CfgOk c) (d : Option Desc) {m : M (Vis F) Unit} {m' : M (State F) Unit}
    (hm : ∀ ρ', ρ <+: ρ' → Sim c ρ' Any m m') : Sim c ρ Any (Vis.visitBitmap c d m) (bitmapDef c d m') := by
  unfold Vis.visitBitmap bitmapDef
  cases d with
  | none => exact sim_crash _
  | some d =>
    simp only []
    refine sim_bind (sim_zero hc d) fun ρ1 hp1 _ _ _ => ?_
    split
    · refine sim_modify trivial fun s f hr => ⟨{ hr with current := hr.reusable }, rfl, rfl⟩
    · refine sim_bind sim_newBitmap fun ρ2 hp2 _ _ _ => ?_
      exact sim_defer (hm _ (hp1.trans hp2)) fun ρ' hp => sim_endBitmap

theorem sim_refvals [GoFloat F] (hc : CfgOk c) (info : PackingInfo F) (ms : List Ast) :
    Sim c ρ Any (Vis.newRefvalLoop c info ms) (refvals c info ms) := by
  cases ms with
  | nil => exact sim_pure trivial
  | cons m ms =>
    simp only [Vis.newRefvalLoop, refvals]
    refine sim_bind (sim_build hc _ _) fun ρ1 hp1 n i _ => ?_
    cases m.descriptor with
    | none => exact sim_crash _
    | some d =>
      simp only []
      refine sim_bind (m' := (M.crash "assignment to entry in nil map" : M (State F) Unit))
        (k' := fun (_ : Unit) => pure ()) (V := fun _ _ _ => False) (fun s f hr => ?_)
        fun _ _ _ _ h => h.elim
      simp only [hr.newRefval]
      exact ⟨ρ1, List.prefix_refl _, rfl, fun _ => ⟨hr, trivial, trivial⟩⟩

theorem setLast_rel {ps : List AssocPair} {as : List Assoc} {n : NodeId} {i : Nat} (hn : Ref ρ n i)
    (h : All2 (fun p a => p.nbits = a.nbits ∧ RefO ρ p.node a.sig) ps as) :
    All2 (fun p a => p.nbits = a.nbits ∧ RefO ρ p.node a.sig) (Vis.setLastNode n ps) (setSig i as) := by
  induction h with
  | nil => exact .nil
  | cons h1 h2 ih =>
    cases h2 with
    | nil => exact .cons ⟨h1.1, hn⟩ .nil
    | cons h3 h4 => exact .cons h1 ih

mutual
theorem sim_visit [GoFloat F] (hc : CfgOk c) : (t : Ast) → noBase t = true → (ρ : List NodeId) →
    Sim (F := F) c ρ Any (Vis.visit c t) (visit c t)
  | .base _ _, h, _ => by simp [noBase] at h
  | .element d np, _, ρ => by
    simp only [Vis.visit, visit]
    split
    · exact sim_addValueless _
    · refine sim_bind (sim_assocNodes hc d) fun ρ1 hp1 ns is hns => ?_
      refine sim_bind (sim_element hc d) fun ρ2 hp2 n i hn => ?_
      exact sim_addMembers hn (hns.imp fun _ _ h => h.mono hp2)
  | .e031021 d, _, ρ => by
    simp only [Vis.visit, visit]
    refine sim_bind (sim_element hc d) fun ρ1 hp1 n i hn => ?_
    exact sim_modify trivial fun s f hr => ⟨{ hr with assoc := setLast_rel hn hr.assoc }, rfl, rfl⟩
  | .fixedRepl d ms, h, ρ => by
    simp only [Vis.visit, visit]
    simp only [noBase] at h
    exact sim_within (by simp) (sim_repeat (ρ := ρ)
      (fun ρ' _ => sim_within (by simp) (sim_visitL hc ms h ρ')) _ ρ (List.prefix_refl _))
  | .delayedRepl d [], _, ρ => by
    simp only [Vis.visit, visit]
    exact sim_within (by simp) (sim_crash _)
  | .delayedRepl d (m :: ms), h, ρ => by
    simp only [Vis.visit, visit]
    simp only [noBase, noBaseL, Bool.and_eq_true] at h
    exact sim_within (by simp) (sim_delayed (fun ρ' _ => sim_visit hc m h.1 ρ')
      (fun ρ' _ => sim_visitL hc ms h.2 ρ'))
  | .sequence d ms, h, ρ => by
    simp only [Vis.visit, visit]
    simp only [noBase] at h
    exact sim_within (by simp) (sim_visitL hc ms h ρ)
  | .nbitsOffset d, _, ρ => by
    simp only [Vis.visit, visit]
    refine sim_bindL (sim_addValueless _) fun ρ1 _ _ _ => ?_
    exact sim_modify trivial fun s f hr => ⟨{ hr with nbitsOffset := by simp only []; split <;> simp_all }, rfl, rfl⟩
  | .scaleOffset d, _, ρ => by
    simp only [Vis.visit, visit]
    refine sim_bindL (sim_addValueless _) fun ρ1 _ _ _ => ?_
    exact sim_modify trivial fun s f hr => ⟨{ hr with scaleOffset := by simp only []; split <;> simp_all }, rfl, rfl⟩
  | .newRefval d ms, _, ρ => by
    simp only [Vis.visit, visit]
    refine sim_bindL (sim_addValueless _) fun ρ1 _ _ _ => ?_
    split
    · exact sim_refvals hc _ _
    · exact sim_pure trivial
  | .assocField d ms, h, ρ => by
    simp only [Vis.visit, visit]
    simp only [noBase] at h
    refine sim_bindL (sim_addValueless _) fun ρ1 _ _ _ => ?_
    split
    · exact sim_bind sim_popAssoc fun ρ2 _ _ _ _ => sim_visitL hc ms h ρ2
    · refine sim_bind (V := Any) ?_ fun ρ2 _ _ _ _ => sim_visitL hc ms h ρ2
      exact sim_modify trivial fun s f hr =>
        ⟨{ hr with assoc := hr.assoc.append (.cons ⟨rfl, trivial⟩ .nil) }, rfl, rfl⟩
  | .insertString d, _, ρ => by
    simp only [Vis.visit, visit]
    exact sim_bind (sim_build hc _ _) fun _ _ _ _ _ => sim_pure trivial
  | .skipLocal d ms, _, ρ => by
    simp only [Vis.visit, visit]
    refine sim_bindL (sim_addValueless _) fun ρ1 _ _ _ => ?_
    cases ms with
    | nil => exact sim_crash _
    | cons m _ => exact sim_bind (sim_build hc _ _) fun _ _ _ _ _ => sim_pure trivial
  | .modifyPacking d, _, ρ => by
    simp only [Vis.visit, visit]
    refine sim_bindL (sim_addValueless _) fun ρ1 _ _ _ => ?_
    split
    · rename_i h0
      refine sim_modify trivial fun s f hr => ⟨{ hr with
        nbitsIncrement := by simp [h0]
        scaleIncrement := by simp [h0]
        refvalFactor := by simp [h0] }, rfl, rfl⟩
    · rename_i h0
      refine sim_modify trivial fun s f hr => ⟨{ hr with
        nbitsIncrement := by simp [h0]
        scaleIncrement := rfl
        refvalFactor := rfl }, rfl, rfl⟩
  | .setStringLength d, _, ρ => by
    simp only [Vis.visit, visit]
    refine sim_bindL (sim_addValueless _) fun ρ1 _ _ _ => ?_
    exact sim_modify trivial fun s f hr => ⟨{ hr with nbitsString := rfl }, rfl, rfl⟩
  | .dataNotPresent d ms, h, ρ => by
    simp only [Vis.visit, visit]
    simp only [noBase] at h
    exact sim_bindL (sim_addValueless _) fun ρ1 _ _ _ => sim_visitL hc ms h ρ1
  | .assessment d bm as ms, h, ρ => by
    simp only [Vis.visit, visit]
    simp only [noBase, Bool.and_eq_true] at h
    exact sim_assessment hc d (fun ρ' _ => sim_visit hc bm h.1.1 ρ') (fun ρ' _ => sim_visitL hc as h.1.2 ρ')
      (fun ρ' _ => sim_visitL hc ms h.2 ρ')
  | .marker d, _, ρ => by
    simp only [Vis.visit, visit]
    exact sim_marker hc d
  | .cancelBackRef _, _, ρ => by
    simp only [Vis.visit, visit, Vis.cancelBackref, Vis.cancelBitmap]
    intro s f hr
    refine ⟨ρ, List.prefix_refl _, trivial, fun _ => ⟨?_, rfl, rfl⟩⟩
    exact { hr with
      backref := rfl
      reusable := rfl
      current := rfl
      backref_ge := Int.le_refl _
      backref_lt := by
        have := Int.natCast_nonneg f.cols.length
        show (-1 : Int) < f.cols.length
        omega }
  | .cancelBitmap _, _, ρ => by
    simp only [Vis.visit, visit, Vis.cancelBitmap, cancelBitmap]
    exact sim_modify trivial fun s f hr => ⟨{ hr with reusable := rfl, current := rfl }, rfl, rfl⟩
  | .bitmap d ms, h, ρ => by
    simp only [Vis.visit, visit]
    simp only [noBase] at h
    exact sim_bitmap hc d fun ρ' _ => sim_visitL hc ms h ρ'
theorem sim_visitL [GoFloat F] (hc : CfgOk c) : (ts : List Ast) → noBaseL ts = true → (ρ : List NodeId) →
    Sim (F := F) c ρ Any (Vis.visitL c ts) (visitL c ts)
  | [], _, ρ => by
    simp only [Vis.visitL, visitL]
    exact sim_pure trivial
  | t :: ts, h, ρ => by
    simp only [Vis.visitL, visitL]
    simp only [noBaseL, Bool.and_eq_true] at h
    exact sim_bind (sim_visit hc t h.1 ρ) fun ρ1 _ _ _ _ => sim_visitL hc ts h.2 ρ1
end

end Flat
end Gobufr
