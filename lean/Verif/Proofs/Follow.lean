import Verif.Spec.Follow
import Verif.Spec.Encode
import Verif.Spec.Only
import Verif.Proofs.OnlyCompressed
import Verif.Props.Template
import Verif.Props.Parser

/-!
# Walks of templates follow the data: lemmas
-/

namespace Gobufr
open Flat EncodeSpec TemplateSpec ParserSpec FollowSpec

variable {F τ : Type}

theorem treeL_append (as bs : List TNode) : treeL (as ++ bs) = treeL as ++ treeL bs := by
  induction as with
  | nil => rfl
  | cons a as ih => simp [treeL, ih]

theorem straightL_append (as bs : List TNode) : straightL (as ++ bs) = (straightL as && straightL bs) := by
  induction as with
  | nil => simp [straightL]
  | cons a as ih => simp [straightL, ih, Bool.and_assoc]

theorem treeL_times (n : Nat) (ms : List TNode) :
    treeL (List.replicate n ms).flatten = (List.replicate n (treeL ms)).flatten := by
  induction n with
  | zero => rfl
  | succ n ih => simp [List.replicate_succ, treeL_append, ih]

theorem straightL_times (n : Nat) {ms : List TNode} (h : straightL ms = true) :
    straightL (List.replicate n ms).flatten = true := by
  induction n with
  | zero => rfl
  | succ n ih => simp [List.replicate_succ, straightL_append, ih, h]

theorem walksL_split {as bs : List TNode} : ∀ {i i'' : Option (List Int)} {es : List Event},
    WalksL (as ++ bs) i es i'' → ∃ es1 es2 i', es = es1 ++ es2 ∧ WalksL as i es1 i' ∧ WalksL bs i' es2 i'' := by
  induction as with
  | nil =>
    intro i i'' es h
    exact ⟨[], es, i, rfl, .nil, h⟩
  | cons a as ih =>
    intro i i'' es h
    cases h with
    | cons h1 h2 =>
      obtain ⟨es1, es2, i', rfl, h3, h4⟩ := ih h2
      exact ⟨_, es2, i', (List.append_assoc ..).symm, .cons h1 h3, h4⟩

/-- The blocks of a replication announce what the members do. -/
theorem walksB_of {ms : List TNode} : ∀ {n : Nat} {i i' : Option (List Int)} {es : List Event},
    WalksL (List.replicate n ms).flatten i es i' →
    ∃ es', WalksB n ms i es' i' ∧ es'.flatMap announced = es.flatMap announced := by
  intro n
  induction n with
  | zero =>
    intro i i' es h
    cases h
    exact ⟨[], .zero, rfl⟩
  | succ n ih =>
    intro i i' es h
    rw [List.replicate_succ, List.flatten_cons] at h
    obtain ⟨es1, es2, j, rfl, h1, h2⟩ := walksL_split h
    obtain ⟨es', h3, h4⟩ := ih h2
    exact ⟨_, .succ h1 h3, by simp [announced, h4]⟩

/-- What is said of the items announced by a walk with the factors `ks`. -/
structure Announces [GoFloat F] (as : List (Bool × Desc)) (is : List (Datum F)) (ks : List Nat) : Prop where
  descs : is.map (fun i => i.desc) = as.map fun a => ⟨some a.2, false⟩
  factors : (ofFactors as is).map (fun i => i.vals.head?.bind numberOf) = ks.map some
  alike : ∀ i ∈ ofFactors as is, ∃ v vs, i.vals = v :: vs ∧ ∀ w ∈ vs, Alike v w

theorem Announces.plain [GoFloat F] {as : List (Bool × Desc)} {is : List (Datum F)} {ks : List Nat} {d : Desc} {i : Datum F}
    (h : Announces as is ks) (hi : i.desc = ⟨some d, false⟩) : Announces ((false, d) :: as) (i :: is) ks :=
  ⟨by simp [h.descs, hi], by simpa [ofFactors] using h.factors, by simpa [ofFactors] using h.alike⟩

theorem Announces.factor [GoFloat F] {as : List (Bool × Desc)} {is : List (Datum F)} {ks : List Nat} {d : Desc} {i : Datum F}
    {v : Val F} {vs : List (Val F)} {k : Nat} (h : Announces as is ks) (hi : i.desc = ⟨some d, false⟩)
    (hv : i.vals = v :: vs) (ha : ∀ w ∈ vs, Alike v w) (hk : numberOf v = some k) :
    Announces ((true, d) :: as) (i :: is) (k :: ks) := by
  have e : ofFactors ((true, d) :: as) (i :: is) = i :: ofFactors as is := by simp [ofFactors]
  refine ⟨by simp [h.descs, hi], by rw [e]; simp [h.factors, hv, hk], ?_⟩
  rw [e]
  intro j hj
  rcases List.mem_cons.1 hj with rfl | hj
  · exact ⟨v, vs, hv, ha⟩
  · exact h.alike j hj

theorem Operator_F {id : ID} {o : Int} (h : id.Operator = o) (h1 : 200 ≤ o) (h2 : o < 300) : id.F = 2 := by
  have h : Int.tdiv id 1000 = o := h
  change Int.tdiv id 100000 = 2
  have key : ∀ x : Int, Int.tdiv x 1000 = o → Int.tdiv x 100000 = 2 := by
    intro x hx
    rcases Int.le_total 0 x with h0 | h0
    · rw [Int.tdiv_eq_ediv_of_nonneg h0] at hx ⊢
      omega
    · have e : Int.tdiv x 1000 = -((-x) / 1000) := by
        rw [← Int.tdiv_eq_ediv_of_nonneg (by omega : 0 ≤ -x), Int.neg_tdiv, Int.neg_neg]
      rw [e] at hx
      omega
  exact key _ h

/-- A leaf has one item, and associated fields as none are in force. -/
theorem coded_leaf [GoFloat F] {W : Wire F τ} {b : Bool} {x y : Ctx} {f : Desc} {bits : List τ} {is : List (Datum F)}
    (hx : x.assoc = []) (h : Coded W b x [leafOf f] bits is y) :
    ∃ i, is = [i] ∧ i.desc = ⟨some f, false⟩ ∧ y.assoc = [] := by
  unfold leafOf at h
  split at h
  · cases h with
    | significance _ _ h => cases h; exact ⟨_, rfl, rfl, hx⟩
  · cases h with
    | element _ ha _ h =>
      rw [hx, ite_self] at ha
      cases ha
      cases h
      exact ⟨_, rfl, rfl, hx⟩

/-- The forms of nodes, side by side. -/
inductive Shape : TNode → Ast → Prop where
  | element {d : Desc} {f : Option Desc} {ms : List TNode} : d.id.F = 0 → Shape (.mk d f ms) (.element d false)
  | significance {d : Desc} {f : Option Desc} {ms : List TNode} : d.id.F = 0 → Shape (.mk d f ms) (.e031021 d)
  | sequence {d : Desc} {f : Option Desc} {ms : List TNode} : d.id.F = 3 → straightL ms = true →
      Shape (.mk d f ms) (.sequence d (treeL ms))
  | fixed {d : Desc} {ms : List TNode} : d.id.F = 1 → straightL ms = true → Shape (.mk d none ms) (.fixedRepl d (treeL ms))
  | delayed {d f : Desc} {ms : List TNode} : d.id.F = 1 → straightL ms = true →
      Shape (.mk d (some f) ms) (.delayedRepl d (leafOf f :: treeL ms))
  | nbitsOffset {d : Desc} {f : Option Desc} {ms : List TNode} : d.id.Operator = 201 → Shape (.mk d f ms) (.nbitsOffset d)
  | scaleOffset {d : Desc} {f : Option Desc} {ms : List TNode} : d.id.Operator = 202 → Shape (.mk d f ms) (.scaleOffset d)
  | insertString {d : Desc} {f : Option Desc} {ms : List TNode} : d.id.Operator = 205 → Shape (.mk d f ms) (.insertString d)
  | modifyPacking {d : Desc} {f : Option Desc} {ms : List TNode} : d.id.Operator = 207 → Shape (.mk d f ms) (.modifyPacking d)
  | setStringLength {d : Desc} {f : Option Desc} {ms : List TNode} : d.id.Operator = 208 →
      Shape (.mk d f ms) (.setStringLength d)

theorem shape : ∀ {t : TNode}, straight t = true → Shape t (treeOf t)
  | .mk d f ms, h => by
    simp only [straight, Bool.and_eq_true, Bool.or_eq_true, beq_iff_eq] at h
    obtain ⟨⟨h1, h2⟩, h3⟩ := h
    unfold treeOf leafOf
    by_cases f0 : d.id.F = 0
    · rw [if_pos f0]
      split
      · exact .significance f0
      · exact .element f0
    rw [if_neg f0]
    by_cases f3 : d.id.F = 3
    · rw [if_pos f3]
      exact .sequence f3 h3
    rw [if_neg f3]
    by_cases f1 : d.id.F = 1
    · rw [if_pos f1]
      cases f with
      | none => exact .fixed f1 h3
      | some f => exact .delayed f1 h3
    rw [if_neg f1]
    simp only [f0, f1, f3, false_or, plainOps, List.contains_eq_mem, decide_eq_true_eq, List.mem_cons, List.not_mem_nil,
      or_false] at h1
    rcases h1 with h1 | h1 | h1 | h1 | h1
    · rw [if_pos h1]; exact .nbitsOffset h1
    · rw [if_neg (by omega), if_pos h1]; exact .scaleOffset h1
    · rw [if_neg (by omega), if_neg (by omega), if_pos h1]; exact .insertString h1
    · rw [if_neg (by omega), if_neg (by omega), if_neg (by omega), if_pos h1]; exact .modifyPacking h1
    · rw [if_neg (by omega), if_neg (by omega), if_neg (by omega), if_neg (by omega)]; exact .setStringLength h1

theorem treeL_cons {m : Ast} {us : List Ast} {ts : List TNode} (h : m :: us = treeL ts) (hs : straightL ts = true) :
    ∃ t ts', ts = t :: ts' ∧ us = treeL ts' ∧ straightL ts' = true ∧ Shape t m := by
  cases ts with
  | nil => cases h
  | cons t ts =>
    simp only [treeL, List.cons.injEq] at h
    simp only [straightL, Bool.and_eq_true] at hs
    exact ⟨t, ts, rfl, h.2, hs.2, h.1 ▸ shape hs.1⟩

/-- A walk with the factors in the data announces the data. -/
theorem coded_walk [GoFloat F] {W : Wire F τ} {b : Bool} {x y : Ctx} {us : List Ast} {bits : List τ} {is : List (Datum F)}
    (h : Coded W b x us bits is y) : ∀ ts : List TNode, us = treeL ts → straightL ts = true → x.assoc = [] →
    ∃ (ks : List Nat) (es : List Event), WalksL ts (some (ks.map Int.ofNat)) es (some []) ∧
      Announces (es.flatMap announced) is ks := by
  have inert : ∀ {d : Desc} {f : Option Desc} {ms ts : List TNode} {o : Int} {is : List (Datum F)}, d.id.Operator = o →
      200 ≤ o → o < 300 → o ≠ 205 →
      (∃ (ks : List Nat) (es : List Event), WalksL ts (some (ks.map Int.ofNat)) es (some []) ∧
        Announces (es.flatMap announced) is ks) →
      ∃ (ks : List Nat) (es : List Event), WalksL (.mk d f ms :: ts) (some (ks.map Int.ofNat)) es (some []) ∧
        Announces (es.flatMap announced) is ks := by
    rintro d f ms ts o is h h1 h2 h3 ⟨ks, es, q1, q2⟩
    refine ⟨ks, _, .cons (.operator (Operator_F h h1 h2)) q1, ?_⟩
    have : d.id.Operator ≠ 205 := by omega
    simpa [announced, this] using q2
  induction h with
  | nil =>
    intro ts h _ _
    cases ts with
    | nil => exact ⟨[], [], .nil, ⟨rfl, rfl, by simp [ofFactors]⟩⟩
    | cons => cases h
  | element _ ha _ _ ih =>
    intro ts h hs hx
    obtain ⟨t, ts, rfl, h', hs', sh⟩ := treeL_cons h hs
    cases sh with
    | element hF =>
      obtain ⟨ks, es, q1, q2⟩ := ih ts h' hs' hx
      rw [hx, ite_self] at ha
      cases ha
      exact ⟨ks, _, .cons (.element hF) q1, q2.plain rfl⟩
  | significance _ _ _ ih =>
    intro ts h hs hx
    obtain ⟨t, ts, rfl, h', hs', sh⟩ := treeL_cons h hs
    cases sh with
    | significance hF =>
      obtain ⟨ks, es, q1, q2⟩ := ih ts h' hs' hx
      exact ⟨ks, _, .cons (.element hF) q1, q2.plain rfl⟩
  | sequence _ ih =>
    intro ts h hs hx
    obtain ⟨t, ts, rfl, rfl, hs', sh⟩ := treeL_cons h hs
    cases sh with
    | @sequence _ _ ms hF hm =>
      obtain ⟨ks, es, q1, q2⟩ := ih (ms ++ ts) (treeL_append ..).symm (by simp [straightL_append, hm, hs']) hx
      obtain ⟨es1, es2, i', rfl, w1, w2⟩ := walksL_split q1
      exact ⟨ks, _, .cons (.sequence hF w1) w2, by simpa [announced] using q2⟩
  | @fixed _ _ _ _ _ _ d _ ih =>
    intro ts h hs hx
    obtain ⟨t, ts, rfl, rfl, hs', sh⟩ := treeL_cons h hs
    cases sh with
    | @fixed _ ms hF hm =>
      obtain ⟨ks, es, q1, q2⟩ := ih ((List.replicate d.id.Y.toNat ms).flatten ++ ts)
        (by rw [treeL_append, treeL_times]) (by simp only [straightL_append, straightL_times _ hm, hs', Bool.and_self]) hx
      obtain ⟨es1, es2, i', rfl, w1, w2⟩ := walksL_split q1
      obtain ⟨es', w3, e⟩ := walksB_of w1
      exact ⟨ks, _, .cons (.replication hF (.fixed rfl) w3) w2, by simpa [announced, e] using q2⟩
  | delayed hf hl hv ha hk _ _ ih =>
    intro ts h hs hx
    obtain ⟨t, ts, rfl, rfl, hs', sh⟩ := treeL_cons h hs
    cases sh with
    | @delayed d f ms hF hm =>
      obtain ⟨i, rfl, hi, hz⟩ := coded_leaf hx hf
      cases hl
      obtain ⟨ks, es, q1, q2⟩ := ih ((List.replicate _ ms).flatten ++ ts)
        (by rw [treeL_append, treeL_times]) (by simp only [straightL_append, straightL_times _ hm, hs', Bool.and_self]) hz
      obtain ⟨es1, es2, i', rfl, w1, w2⟩ := walksL_split q1
      obtain ⟨es', w3, e⟩ := walksB_of w1
      refine ⟨_ :: ks, _, .cons (.replication hF (.delayed rfl) w3) w2, ?_⟩
      have := q2.factor hi hv ha hk
      simpa [announced, e] using this
  | op201 _ ih =>
    intro ts h hs hx
    obtain ⟨t, ts, rfl, h', hs', sh⟩ := treeL_cons h hs
    cases sh with
    | nbitsOffset ho => exact inert ho (by omega) (by omega) (by omega) (ih ts h' hs' hx)
  | op202 _ ih =>
    intro ts h hs hx
    obtain ⟨t, ts, rfl, h', hs', sh⟩ := treeL_cons h hs
    cases sh with
    | scaleOffset ho => exact inert ho (by omega) (by omega) (by omega) (ih ts h' hs' hx)
  | op207 _ ih =>
    intro ts h hs hx
    obtain ⟨t, ts, rfl, h', hs', sh⟩ := treeL_cons h hs
    cases sh with
    | modifyPacking ho => exact inert ho (by omega) (by omega) (by omega) (ih ts h' hs' hx)
  | op208 _ ih =>
    intro ts h hs hx
    obtain ⟨t, ts, rfl, h', hs', sh⟩ := treeL_cons h hs
    cases sh with
    | setStringLength ho => exact inert ho (by omega) (by omega) (by omega) (ih ts h' hs' hx)
  | op205 _ _ ih =>
    intro ts h hs hx
    obtain ⟨t, ts, rfl, h', hs', sh⟩ := treeL_cons h hs
    cases sh with
    | insertString ho =>
      obtain ⟨ks, es, q1, q2⟩ := ih ts h' hs' hx
      refine ⟨ks, _, .cons (.operator (Operator_F ho (by omega) (by omega))) q1, ?_⟩
      simpa [announced, ho] using q2.plain rfl
  | _ =>
    intro ts h hs hx
    obtain ⟨t, ts, rfl, h', hs', sh⟩ := treeL_cons h hs
    cases sh

/-! ## The syntax tree -/

theorem ops_single (g : SingleGroup) (id : ID) (d : Desc) (h : g.lookup id = .ok d) : fine d = true := by
  unfold SingleGroup.lookup TableB.lookup TableD.lookup at h
  repeat' split at h
  all_goals simp at h
  all_goals subst h
  all_goals simp_all [fine]

theorem ops_chain (c : ChainGroup) (id : ID) (d : Desc) (h : c.lookup id = .ok d) : fine d = true := by
  obtain ⟨gs⟩ := c
  unfold ChainGroup.lookup at h
  induction gs with
  | nil => simp [chainLookup] at h
  | cons g gs ih =>
    simp only [List.map_cons, chainLookup] at h
    split at h
    · next d' hd =>
      cases h
      exact ops_single g id d hd
    · exact ih h
    · cases h
    · cases h

theorem leaf_of {lk : Lookup} (hg : GoodLookup lk) {id : ID} {d : Desc} (h : lk id = .ok d) (hF : id.F = 0) :
    Leaf lk false id (leafOf d) := by
  have := hg.id _ _ h
  subst this
  unfold leafOf
  split
  · next e => rw [e] at h ⊢; exact .e031021 rfl h
  · next e => exact .element rfl hF e h

/-- The tree of an expanded template is derived by the grammar of templates. -/
theorem expands_derives {lk : Lookup} (hg : GoodLookup lk) {ids : List ID} {ts : List TNode} (h : Expands lk ids ts) :
    straightL ts = true → Derives lk true {} ids (treeL ts) {} := by
  induction h with
  | nil => exact fun _ => .nil
  | @plain id d rest ts hlk hF1 hF3 _ ih =>
    intro hs
    simp only [straightL, Bool.and_eq_true] at hs
    have hid := hg.id _ _ hlk
    subst hid
    refine .leaf ?_ (ih hs.2)
    by_cases f0 : d.id.F = 0
    · have : treeOf (.mk d none []) = leafOf d := by unfold treeOf; rw [if_pos f0]
      rw [this]
      exact leaf_of hg hlk f0
    have sh := shape hs.1
    generalize treeOf (.mk d none []) = m at sh
    cases sh with
    | element h => exact absurd h f0
    | significance h => exact absurd h f0
    | sequence h => exact absurd h hF3
    | fixed h => exact absurd h hF1
    | nbitsOffset h => exact .nbitsOffset h hlk
    | scaleOffset h => exact .scaleOffset h hlk
    | insertString h => exact .insertString h hlk
    | modifyPacking h => exact .modifyPacking h hlk
    | setStringLength h => exact .setStringLength h hlk
  | @seq id d e rest ms ts hlk hF3 he _ _ ih1 ih2 =>
    intro hs
    simp only [straightL, straight, Bool.and_eq_true] at hs
    have hid := hg.id _ _ hlk
    subst hid
    have : treeOf (.mk d none ms) = .sequence d (treeL ms) := by
      unfold treeOf
      rw [if_neg (by omega), if_pos hF3]
    simp only [treeL, this]
    exact .sequence hF3 hlk he (ih1 hs.1.2) (ih2 hs.2)
  | @fixed id d body rest ms ts hlk hF1 hY hX _ _ ih1 ih2 =>
    intro hs
    simp only [straightL, straight, Bool.and_eq_true] at hs
    have hid := hg.id _ _ hlk
    subst hid
    have : treeOf (.mk d none ms) = .fixedRepl d (treeL ms) := by
      unfold treeOf
      rw [if_neg (by omega), if_neg (by omega), if_pos hF1]
    simp only [treeL, this]
    exact .scope (j := 0) (.fixed hF1 hY hX) hlk rfl (.inl rfl) (by simpa using ih1 hs.1.2) (ih2 hs.2)
  | @delayed id f d df body rest ms ts hlk hF1 hY hf hX _ _ ih1 ih2 =>
    intro hs
    simp only [straightL, straight, Bool.and_eq_true, Option.all_some, beq_iff_eq] at hs
    have hid := hg.id _ _ hlk
    have hfid := hg.id _ _ hf
    subst hid hfid
    have : treeOf (.mk d (some df) ms) = .delayedRepl d (leafOf df :: treeL ms) := by
      unfold treeOf
      rw [if_neg (by omega), if_neg (by omega), if_pos hF1]
    simp only [treeL, this]
    exact .scope (j := 0) (body := df.id :: body) (.delayed hF1 hY hX) hlk rfl (.inl rfl)
      (by simpa using .leaf (leaf_of hg hf hs.1.1.2) (ih1 hs.1.2)) (ih2 hs.2)

theorem simple_leaf {d : Desc} (h : fine d = true) : simple false (leafOf d) = true ∧ yields (leafOf d) = true ∧
    noBase (leafOf d) = true := by
  unfold leafOf
  split <;> simp [simple, yields, noBase, h]

/-- Such trees have no bitmaps. -/
theorem expands_simple {lk : Lookup} (hfine : ∀ id d, lk id = .ok d → fine d = true) {ids : List ID} {ts : List TNode}
    (h : Expands lk ids ts) : straightL ts = true → simpleL false (treeL ts) = true ∧ noBaseL (treeL ts) = true := by
  induction h with
  | nil => exact fun _ => ⟨rfl, rfl⟩
  | @plain id d rest ts hlk hF1 hF3 _ ih =>
    intro hs
    simp only [straightL, Bool.and_eq_true] at hs
    have hd := hfine _ _ hlk
    obtain ⟨i1, i2⟩ := ih hs.2
    have sh := shape hs.1
    simp only [treeL, simpleL, noBaseL, i1, i2, Bool.and_true]
    generalize treeOf (.mk d none []) = m at sh
    cases sh <;> simp_all [simple, noBase, treeL, simpleL, noBaseL]
  | @seq id d e rest ms ts hlk hF3 he _ _ ih1 ih2 =>
    intro hs
    simp only [straightL, straight, Bool.and_eq_true] at hs
    obtain ⟨i1, i2⟩ := ih1 hs.1.2
    obtain ⟨j1, j2⟩ := ih2 hs.2
    have sh := shape (t := .mk d none ms) (by simp only [straight, Bool.and_eq_true]; exact hs.1)
    simp only [treeL, simpleL, noBaseL, j1, j2, Bool.and_true]
    have hd := hfine _ _ hlk
    generalize treeOf (.mk d none ms) = m at sh
    cases sh <;> simp_all [simple, noBase]
  | @fixed id d body rest ms ts hlk hF1 hY hX _ _ ih1 ih2 =>
    intro hs
    simp only [straightL, straight, Bool.and_eq_true] at hs
    obtain ⟨i1, i2⟩ := ih1 hs.1.2
    obtain ⟨j1, j2⟩ := ih2 hs.2
    have sh := shape (t := .mk d none ms) (by simp only [straight, Bool.and_eq_true]; exact hs.1)
    simp only [treeL, simpleL, noBaseL, j1, j2, Bool.and_true]
    have hd := hfine _ _ hlk
    generalize treeOf (.mk d none ms) = m at sh
    cases sh <;> simp_all [simple, noBase]
  | @delayed id f d df body rest ms ts hlk hF1 hY hf hX _ _ ih1 ih2 =>
    intro hs
    simp only [straightL, straight, Bool.and_eq_true] at hs
    obtain ⟨i1, i2⟩ := ih1 hs.1.2
    obtain ⟨j1, j2⟩ := ih2 hs.2
    have sh := shape (t := .mk d (some df) ms) (by simp only [straight, Bool.and_eq_true]; exact hs.1)
    simp only [treeL, simpleL, noBaseL, j1, j2, Bool.and_true]
    have hd := hfine _ _ hlk
    obtain ⟨l1, l2, l3⟩ := simple_leaf (hfine _ _ hf)
    generalize treeOf (.mk d (some df) ms) = m at sh
    cases sh <;> simp_all [simple, noBase, simpleL, noBaseL]

/-! ## Whatever is read -/

/-- One value or a column, whatever it was read from. -/
def Whatever (k : Option Nat) : Wire F Unit := fun _ _ vs => vs.length = k.getD 1

theorem takes_whatever [GoFloat F] {c : VisCfg} {k : Option Nat}
    (hk : ∀ n, k = some n → ∃ fuel, c.unpacker = .compressed n fuel) :
    EncodeSpec.Takes (F := F) c (fun _ _ => True) (Whatever k) k := by
  intro info l r r' v vs _ h hf
  refine ⟨[], l, rfl, ?_, trivial⟩
  cases k with
  | none =>
    cases v with
    | plain v => rw [show vs = [v] from hf]; rfl
    | compressed v => exact hf.elim
  | some n =>
    cases v with
    | plain v => exact hf.elim
    | compressed v =>
      obtain ⟨fuel, hu⟩ := hk n rfl
      rw [hu] at h
      simp only [Unpacker.unpack] at h
      obtain ⟨a, r1, h1, h2⟩ := M.bind_eq_ok.1 h
      cases h2
      rw [show vs = v.values from hf]
      exact compressed_length h1

theorem plainly_whatever [GoFloat F] {k : Option Nat} : Plainly (F := F) (Whatever k) k := by
  rintro rfl _ _ vs h
  match vs, h with
  | [v], _ => exact ⟨v, rfl⟩

theorem matches_plain [GoFloat F] {c : VisCfg} (hc : CfgOk c) (h : ¬ (c.compressed = true ∧ c.inputType = .binary)) :
    Matches (F := F) c none := by
  rcases cfg_cases hc with ⟨h1, h2, -⟩ | ⟨-, ⟨-, h1⟩ | ⟨-, h1⟩⟩
  · exact absurd ⟨h1, h2⟩ h
  · exact matches_uncompress h1
  · intro info r r' v h
    rw [h1] at h
    simp only [Unpacker.unpack] at h
    obtain ⟨a, r1, h1, h2⟩ := M.bind_eq_ok.1 h
    cases h2
    trivial

end Gobufr
