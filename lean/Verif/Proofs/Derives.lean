import Verif.Proofs.Parser

/-!
# The parser accepts exactly what the grammar derives
-/

set_option linter.unusedSimpArgs false

namespace Gobufr
open ParserSpec TemplateSpec

/-! ## Splitting lists -/

theorem till_iff (p : ID → Bool) (l body rest : List ID) :
    Till p l body rest ↔ body = tillB p l ∧ rest = tillR p l := by
  constructor
  · rintro ⟨rfl, hb, hr⟩
    unfold tillB tillR
    rw [List.takeWhile_append_of_pos (by simpa using hb), List.dropWhile_append_of_pos (by simpa using hb)]
    cases rest with
    | nil => simp
    | cons x xs => simp [hr x rfl]
  · rintro ⟨rfl, rfl⟩
    refine ⟨(tillB_append_tillR p l).symm, ?_, ?_⟩
    · intro x hx
      have := List.all_takeWhile (p := fun x => !p x) (l := l)
      rw [List.all_eq_true] at this
      simpa using this x hx
    · intro x hx
      have := List.head?_dropWhile_not (fun x => !p x) l
      unfold tillR at hx
      rw [hx] at this
      simpa using this

theorem until_iff (p : ID → Bool) (l body rest : List ID) :
    Until p l body rest ↔ body = untilB p l ∧ rest = untilR p l := by
  constructor
  · rintro ⟨before, run, rfl, rfl, hb, hrun, h0, hr⟩
    have h1 : tillB p (before ++ run ++ rest) = before ∧ tillR p (before ++ run ++ rest) = run ++ rest := by
      have : Till p (before ++ run ++ rest) before (run ++ rest) := by
        refine ⟨by simp, hb, fun x hx => ?_⟩
        cases run with
        | nil => rw [h0 rfl] at hx; cases hx
        | cons y ys => simp at hx; subst hx; exact hrun _ (by simp)
      have := (till_iff p _ _ _).1 this
      exact ⟨this.1.symm, this.2.symm⟩
    unfold untilB untilR
    rw [h1.1, h1.2, List.takeWhile_append_of_pos (by simpa using hrun),
      List.dropWhile_append_of_pos (by simpa using hrun)]
    cases rest with
    | nil => simp
    | cons x xs => simp [hr x rfl]
  · rintro ⟨rfl, rfl⟩
    have ht := (till_iff p l _ _).2 ⟨rfl, rfl⟩
    refine ⟨tillB p l, (tillR p l).takeWhile p, ?_, rfl, ht.2.1, ?_, ?_, ?_⟩
    · exact (untilB_append_untilR p l).symm
    · intro x hx
      have := List.all_takeWhile (p := p) (l := tillR p l)
      rw [List.all_eq_true] at this
      simpa using this x hx
    · intro h
      unfold untilR
      cases hr : tillR p l with
      | nil => rfl
      | cons x xs =>
        have := ht.2.2 x (by rw [hr]; rfl)
        rw [hr] at h
        simp [this] at h
    · intro x hx
      have := List.head?_dropWhile_not p (tillR p l)
      unfold untilR at hx
      rw [hx] at this
      simpa using this

theorem scopeN_eq (n : Nat) (l : List ID) :
    ∃ body j, scopeN n l = body ++ List.replicate j 0 ∧ l = body ++ l.drop n ∧ body.length + j = n ∧
      (j = 0 ∨ l.drop n = []) := by
  refine ⟨l.take n, n - l.length, rfl, (List.take_append_drop n l).symm, ?_, ?_⟩
  · simp only [List.length_take]; omega
  · rcases Nat.le_total n l.length with h | h
    · left; omega
    · right; exact List.drop_of_length_le h

theorem scopeN_of {n j : Nat} {body rest : List ID} (hn : body.length + j = n)
    (hj : j = 0 ∨ rest = []) :
    scopeN n (body ++ rest) = body ++ List.replicate j 0 ∧ (body ++ rest).drop n = rest := by
  subst hn
  rcases hj with rfl | rfl
  · simp [scopeN]
  · simp [scopeN, List.take_of_length_le]

/-! ## Arithmetic of ids -/

theorem tdiv_nonpos {a : Int} (b : Int) (ha : a ≤ 0) (hb : 0 < b) : a.tdiv b ≤ 0 := by
  have h : a = -(-a) := by omega
  rw [h, Int.neg_tdiv, Int.tdiv_eq_ediv_of_nonneg (by omega)]
  have : 0 ≤ (-a) / b := Int.ediv_nonneg (by omega) (by omega)
  omega

theorem F_of_operator {id : ID} {k : Int} (h : id.Operator = k) (h1 : 200 ≤ k) (h2 : k < 300) :
    id.F = 2 := by
  unfold ID.Operator at h
  unfold ID.F
  by_cases hp : (0 : Int) ≤ id
  · rw [Int.tdiv_eq_ediv_of_nonneg hp] at *; omega
  · have : (id.tdiv 1000) ≤ 0 := tdiv_nonpos _ (by first | exact Int.le_of_lt (Int.not_le.1 hp) | exact Int.le_of_lt (Int.not_le.1 hn)) (by omega)
    omega

theorem Y_nonneg {id : ID} (h : 0 < id.F) : 0 ≤ id.Y ∧ 0 ≤ id.X := by
  unfold ID.F at h
  have hp : (0 : Int) ≤ id := by
    apply Classical.byContradiction
    intro hn
    have : (id.tdiv 100000) ≤ 0 := tdiv_nonpos _ (by first | exact Int.le_of_lt (Int.not_le.1 hp) | exact Int.le_of_lt (Int.not_le.1 hn)) (by omega)
    omega
  unfold ID.Y ID.X
  constructor
  · rw [Int.tmod_eq_emod_of_nonneg hp]; omega
  · rw [Int.tdiv_eq_ediv_of_nonneg hp, Int.tmod_eq_emod_of_nonneg (Int.ediv_nonneg hp (by omega))]; omega

/-! ## Soundness -/

section Sound

variable {lk : Lookup} (hid : ∀ id d, lk id = .ok d → d.id = id)
include hid

theorem bitmapF_sound {rf : RecF}
    (hrf : ∀ f l ns f', rf f l = .ok (ns, f') → Derives lk true f l ns f')
    {f f₁ : PFlags} {l r₁ : List ID} {n : Ast} (h : bitmapF lk rf f l = .ok (n, f₁, r₁)) :
    ∃ bd body ms, BitmapIds lk l bd body r₁ ∧ n = .bitmap bd ms ∧ Derives lk true f body ms f₁ := by
  cases l with
  | nil => simp [bitmapF] at h
  | cons id r =>
    simp only [bitmapF, Outcome.bind_eq_ok] at h
    obtain ⟨d, hd, h⟩ := h
    have hdi := hid id d hd
    rw [hdi] at h
    split at h
    · rename_i h1
      simp only [Outcome.ok.injEq, Prod.mk.injEq] at h
      obtain ⟨rfl, rfl, rfl⟩ := h
      subst h1
      exact ⟨some d, [], [], .recall hd, rfl, .nil⟩
    split at h
    · rename_i h1
      simp only [populateF, Outcome.bind_eq_ok, Outcome.ok.injEq, Prod.mk.injEq] at h
      obtain ⟨⟨ms, f'⟩, h2, rfl, rfl, rfl⟩ := h
      exact ⟨none, _, ms, .adhoc h1 hd ((until_iff _ _ _ _).2 ⟨rfl, rfl⟩), rfl, hrf _ _ _ _ h2⟩
    split at h
    · rename_i h1
      simp only [populateF, Outcome.bind_eq_ok, Outcome.ok.injEq, Prod.mk.injEq] at h
      obtain ⟨⟨ms, f'⟩, h2, rfl, rfl, rfl⟩ := h
      subst h1
      exact ⟨some d, _, ms, .define hd ((until_iff _ _ _ _).2 ⟨rfl, rfl⟩), rfl, hrf _ _ _ _ h2⟩
    · cases h

theorem assessF_sound {rf : RecF}
    (hrf : ∀ f l ns f', rf f l = .ok (ns, f') → Derives lk true f l ns f')
    {f f₁ : PFlags} {id : ID} {l r₁ : List ID} {n : Ast} {d : Desc} {ap mp : ID → Bool}
    (hd : lk id = .ok d) (ha : Assess id ap mp)
    (h : assessF lk rf d ap mp f l = .ok (n, f₁, r₁)) (ns : List Ast) (f' : PFlags)
    (hrest : Derives lk true f₁ r₁ ns f') : Derives lk true f (id :: l) (n :: ns) f' := by
  simp only [assessF, populateF, Outcome.bind_eq_ok, Outcome.ok.injEq, Prod.mk.injEq] at h
  obtain ⟨⟨bn, f2, r2⟩, h1, ⟨as, f3⟩, h2, ⟨ms, f4⟩, h3, rfl, rfl, rfl⟩ := h
  obtain ⟨bd, body, bms, hb, rfl, hbm⟩ := bitmapF_sound hid hrf h1
  exact .assessment ha hd hb hbm ((till_iff _ _ _ _).2 ⟨rfl, rfl⟩) (hrf _ _ _ _ h2)
    ((until_iff _ _ _ _).2 ⟨rfl, rfl⟩) (hrf _ _ _ _ h3) hrest

omit hid in
theorem scopeF_sound {rf : RecF}
    (hrf : ∀ f l ns f', rf f l = .ok (ns, f') → Derives lk true f l ns f')
    {f f₁ : PFlags} {id : ID} {l r₁ : List ID} {n : Ast} {d : Desc} {k : Int} {mk : List Ast → Ast}
    {fin fout : PFlags → PFlags} (hd : lk id = .ok d)
    (hs : 0 ≤ k → Scope id d k.toNat mk fin fout)
    (h : scopeF rf (fin f) k mk l = .ok (n, f₁, r₁)) (ns : List Ast) (f' : PFlags)
    (hrest : Derives lk true (fout f₁) r₁ ns f') : Derives lk true f (id :: l) (n :: ns) f' := by
  unfold scopeF at h
  split at h
  · cases h
  · rename_i hk
    simp only [populateF, Outcome.bind_eq_ok, Outcome.ok.injEq, Prod.mk.injEq] at h
    obtain ⟨⟨ms, f2⟩, h2, rfl, rfl, rfl⟩ := h
    obtain ⟨body, j, h3, h4, h5, h6⟩ := scopeN_eq k.toNat l
    rw [h4]
    refine .scope (hs (by omega)) hd h5 (h6.imp (fun h => h) (fun h => ⟨rfl, h⟩)) ?_ hrest
    rw [← h3]
    exact hrf _ _ _ _ h2

theorem operatorF_sound {rf : RecF}
    (hrf : ∀ f l ns f', rf f l = .ok (ns, f') → Derives lk true f l ns f')
    {f f₁ : PFlags} {id : ID} {l r₁ : List ID} {n : Ast} {d : Desc} (hd : lk id = .ok d)
    (hF : id.F = 2)
    (h : operatorF lk rf f d id l = .ok (n, f₁, r₁)) (ns : List Ast) (f' : PFlags)
    (hrest : Derives lk true f₁ r₁ ns f') : Derives lk true f (id :: l) (n :: ns) f' := by
  have hdi := hid id d hd
  have hleaf : ∀ {m : Ast}, (Outcome.ok (m, f, l) : StepR) = .ok (n, f₁, r₁) →
      Leaf lk f.skipLocal id m → Derives lk true f (id :: l) (n :: ns) f' := by
    intro m h h'
    simp only [Outcome.ok.injEq, Prod.mk.injEq] at h
    obtain ⟨rfl, rfl, rfl⟩ := h
    exact .leaf h' hrest
  have hbm : bitmapF lk rf f (id :: l) = .ok (n, f₁, r₁) → Derives lk true f (id :: l) (n :: ns) f' := by
    intro h
    obtain ⟨bd, body, ms, h1, rfl, h2⟩ := bitmapF_sound hid hrf h
    cases bd with
    | some d' => exact .bitmap h1 h2 hrest
    | none =>
      cases h1 with
      | adhoc h3 => rcases h3 with h3 | rfl
                    · omega
                    · exact absurd hF (by decide)
  have hmarked : ∀ o m : ID, (o, m) ∈ [((223000 : ID), (223255 : ID)), (224000, 224255), (225000, 225255),
      (232000, 232255)] → markedF lk rf o m f d l = .ok (n, f₁, r₁) →
      Derives lk true f (id :: l) (n :: ns) f' := by
    intro o m hom h
    unfold markedF at h
    rw [hdi] at h
    split at h
    · rename_i hio
      subst hio
      exact assessF_sound hid hrf hd (.marked hom) h ns f' hrest
    · split at h
      · rename_i _ him
        subst him
        refine hleaf h (.marker ?_ hd)
        simp only [List.mem_cons, Prod.mk.injEq, List.not_mem_nil, or_false] at hom
        rcases hom with h | h | h | h <;> simp [h.2]
      · cases h
  unfold operatorF at h
  rw [hdi] at h
  by_cases h1 : id.Operator = 201
  · rw [if_pos h1] at h; exact hleaf h (.nbitsOffset h1 hd)
  rw [if_neg h1] at h
  by_cases h2 : id.Operator = 202
  · rw [if_pos h2] at h; exact hleaf h (.scaleOffset h2 hd)
  rw [if_neg h2] at h
  by_cases h3 : id.Operator = 203
  · rw [if_pos h3] at h
    split at h
    · rename_i hy; exact hleaf h (.refvalEnd h3 hy hd)
    · rename_i hy
      simp only [populateF, Outcome.bind_eq_ok, Outcome.ok.injEq, Prod.mk.injEq] at h
      obtain ⟨⟨ms, f2⟩, h4, rfl, rfl, rfl⟩ := h
      exact .newRefval h3 hy hd ((till_iff _ _ _ _).2 ⟨rfl, rfl⟩) (hrf _ _ _ _ h4) hrest
  rw [if_neg h3] at h
  by_cases h4 : id.Operator = 204
  · rw [if_pos h4] at h
    split at h
    · rename_i hy
      exact scopeF_sound (fin := fun f => f) (fout := fun f => f) hrf hd
        (fun _ => .assocField h4 hy) h ns f' hrest
    · rename_i hy; exact hleaf h (.assocEnd h4 (by simpa using hy) hd)
  rw [if_neg h4] at h
  by_cases h5 : id.Operator = 205
  · rw [if_pos h5] at h; exact hleaf h (.insertString h5 hd)
  rw [if_neg h5] at h
  by_cases h6 : id.Operator = 206
  · rw [if_pos h6] at h
    simp only [thenFlags, Outcome.bind_eq_ok, Outcome.ok.injEq, Prod.mk.injEq] at h
    obtain ⟨⟨n', f2, r2⟩, h7, rfl, rfl, rfl⟩ := h
    exact scopeF_sound (fin := fun f => { f with skipLocal := true })
      (fout := fun f => { f with skipLocal := false }) hrf hd (fun _ => .skipLocal h6) h7 ns f' hrest
  rw [if_neg h6] at h
  by_cases h7 : id.Operator = 207
  · rw [if_pos h7] at h; exact hleaf h (.modifyPacking h7 hd)
  rw [if_neg h7] at h
  by_cases h8 : id.Operator = 208
  · rw [if_pos h8] at h; exact hleaf h (.setStringLength h8 hd)
  rw [if_neg h8] at h
  by_cases h9 : id.Operator = 221
  · rw [if_pos h9] at h
    simp only [thenFlags, Outcome.bind_eq_ok, Outcome.ok.injEq, Prod.mk.injEq] at h
    obtain ⟨⟨n', f2, r2⟩, h7, rfl, rfl, rfl⟩ := h
    exact scopeF_sound (fin := fun f => { f with dataNotPresent := true })
      (fout := fun f => { f with dataNotPresent := false }) hrf hd
      (fun hy => .dataNotPresent h9 (by omega)) h7 ns f' hrest
  rw [if_neg h9] at h
  by_cases h10 : id.Operator = 222
  · rw [if_pos h10] at h
    split at h
    · cases h
    · rename_i hi
      have hi : id = 222000 := by simpa using hi
      subst hi
      exact assessF_sound hid hrf hd .qaInfo h ns f' hrest
  rw [if_neg h10] at h
  by_cases h11 : id.Operator = 223
  · rw [if_pos h11] at h; exact hmarked _ _ (by simp) h
  rw [if_neg h11] at h
  by_cases h12 : id.Operator = 224
  · rw [if_pos h12] at h; exact hmarked _ _ (by simp) h
  rw [if_neg h12] at h
  by_cases h13 : id.Operator = 225
  · rw [if_pos h13] at h; exact hmarked _ _ (by simp) h
  rw [if_neg h13] at h
  by_cases h14 : id.Operator = 232
  · rw [if_pos h14] at h; exact hmarked _ _ (by simp) h
  rw [if_neg h14] at h
  by_cases h15 : id.Operator = 235
  · rw [if_pos h15] at h; exact hleaf h (.cancelBackRef h15 hd)
  rw [if_neg h15] at h
  by_cases h16 : id.Operator = 236
  · rw [if_pos h16] at h; exact hbm h
  rw [if_neg h16] at h
  by_cases h17 : id.Operator = 237
  · rw [if_pos h17] at h
    split at h
    · rename_i hy; exact hleaf h (.cancelBitmap h17 hy hd)
    · exact hbm h
  rw [if_neg h17] at h
  split at h <;> cases h

theorem stepF_sound {rf : RecF}
    (hrf : ∀ f l ns f', rf f l = .ok (ns, f') → Derives lk true f l ns f')
    {f f₁ : PFlags} {id : ID} {l r₁ : List ID} {n : Ast}
    (h : stepF lk rf f id l = .ok (n, f₁, r₁)) (ns : List Ast) (f' : PFlags)
    (hrest : Derives lk true f₁ r₁ ns f') : Derives lk true f (id :: l) (n :: ns) f' := by
  unfold stepF at h
  split at h
  · rename_i hF
    simp only [populateF, Outcome.bind_eq_ok, Outcome.ok.injEq, Prod.mk.injEq] at h
    obtain ⟨d, hd, e, he, ⟨ms, f2⟩, h2, rfl, rfl, rfl⟩ := h
    have he' : d.entry = .d e := by
      unfold Desc.dentry at he
      split at he
      · rename_i e' h; cases he; exact h
      · cases he
    exact .sequence hF hd he' (hrf _ _ _ _ h2) hrest
  split at h
  · rename_i hF
    simp only [Outcome.bind_eq_ok] at h
    obtain ⟨d, hd, h⟩ := h
    have hdi := hid id d hd
    rw [hdi] at h
    have hx := Y_nonneg (show 0 < id.F by omega)
    refine scopeF_sound (fin := fun f => f) (fout := fun f => f) hrf hd (fun _ => ?_) h ns f' hrest
    have : (id.X + 1).toNat = id.X.toNat + 1 := by omega
    rw [this]
    exact .delayed hF.1 hF.2 (by omega)
  split at h
  · rename_i hF0 hF
    simp only [Outcome.bind_eq_ok] at h
    obtain ⟨d, hd, h⟩ := h
    have hdi := hid id d hd
    rw [hdi] at h
    refine scopeF_sound (fin := fun f => f) (fout := fun f => f) hrf hd (fun hx => ?_) h ns f' hrest
    exact .fixed hF (fun h => hF0 ⟨hF, h⟩) (by omega)
  split at h
  · rename_i hF
    simp only [Outcome.bind_eq_ok] at h
    obtain ⟨d, hd, h⟩ := h
    exact operatorF_sound hid hrf hd hF h ns f' hrest
  split at h
  · rename_i hF
    split at h
    · rename_i hs
      simp only [Outcome.ok.injEq, Prod.mk.injEq] at h
      obtain ⟨rfl, rfl, rfl⟩ := h
      refine .leaf ?_ hrest
      unfold elementF
      split
      · rename_i h1
        have h1 : id = 31021 := h1
        subst h1
        exact .unknown031021 hs
      · rename_i h1
        exact .unknown hs hF h1
    · rename_i hs
      simp only [Outcome.bind_eq_ok, Outcome.ok.injEq, Prod.mk.injEq] at h
      obtain ⟨d, hd, rfl, rfl, rfl⟩ := h
      have hdi := hid id d hd
      refine .leaf ?_ hrest
      unfold elementF
      rw [hdi]
      split
      · rename_i h1
        subst h1
        exact .e031021 (by simpa using hs) hd
      · rename_i h1
        exact .element (by simpa using hs) hF h1 hd
  · cases h

theorem parseF_sound (fuel : Nat) : ∀ f l ns f', parseF lk fuel f l = .ok (ns, f') →
    Derives lk true f l ns f' := by
  induction fuel with
  | zero => intro f l ns f' h; cases h
  | succ fuel ih =>
    intro f l ns f' h
    cases l with
    | nil =>
      simp only [parseF, Outcome.ok.injEq, Prod.mk.injEq] at h
      obtain ⟨rfl, rfl⟩ := h
      exact .nil
    | cons id r =>
      simp only [parseF, Outcome.bind_eq_ok, Outcome.ok.injEq, Prod.mk.injEq] at h
      obtain ⟨⟨n, f1, r1⟩, h1, ⟨ns', f2⟩, h2, rfl, rfl⟩ := h
      exact stepF_sound hid ih h1 _ _ (ih _ _ _ _ h2)

end Sound

/-! ## Completeness -/

/-- Given enough fuel the parser yields the nodes. -/
def Yields (lk : Lookup) (f : PFlags) (l : List ID) (ns : List Ast) (f' : PFlags) : Prop :=
  ∃ N, ∀ n, N ≤ n → parseF lk n f l = .ok (ns, f')

theorem Yields.cons {lk : Lookup} {f f₁ f' : PFlags} {id : ID} {r r₁ : List ID} {n : Ast} {ns : List Ast}
    (h1 : ∃ N, ∀ k, N ≤ k → stepF lk (parseF lk k) f id r = .ok (n, f₁, r₁))
    (h2 : Yields lk f₁ r₁ ns f') : Yields lk f (id :: r) (n :: ns) f' := by
  obtain ⟨N1, h1⟩ := h1
  obtain ⟨N2, h2⟩ := h2
  refine ⟨max N1 N2 + 1, fun k hk => ?_⟩
  obtain ⟨k, rfl⟩ : ∃ k', k = k' + 1 := ⟨k - 1, by omega⟩
  simp only [parseF]
  rw [h1 k (by omega), Outcome.bind_ok]
  simp only
  rw [h2 k (by omega)]
  rfl

theorem operator_cases {id : ID} {k : Int} (h : id.Operator = k) (h1 : 200 ≤ k) (h2 : k < 300)
    {lk : Lookup} {rf : RecF} {f : PFlags} {r : List ID} {d : Desc} (hd : lk id = .ok d) :
    stepF lk rf f id r = operatorF lk rf f d id r := by
  have hF := F_of_operator h h1 h2
  unfold stepF
  rw [if_neg (by omega), if_neg (by omega), if_neg (by omega), if_pos hF, hd]
  rfl

section Complete

variable {lk : Lookup} (hid : ∀ id d, lk id = .ok d → d.id = id)
include hid

theorem leaf_step {f : PFlags} {id : ID} {n : Ast} (h : Leaf lk f.skipLocal id n) (r : List ID)
    (rf : RecF) : stepF lk rf f id r = .ok (n, f, r) := by
  cases h with
  | @element _ d hs hF h1 hd =>
    have hdi := hid _ _ hd
    unfold stepF
    rw [if_neg (by omega), if_neg (by omega), if_neg (by omega), if_neg (by omega), if_pos hF, hs, hd]
    simp [elementF, hdi, h1]
  | unknown hs hF h1 =>
    unfold stepF
    rw [if_neg (by omega), if_neg (by omega), if_neg (by omega), if_neg (by omega), if_pos hF, hs]
    simp [elementF, newLocalDescriptor, emptyBentry, placeholder, h1]
  | @e031021 d hs hd =>
    have hdi := hid _ _ hd
    unfold stepF
    rw [if_neg (by decide), if_neg (by decide), if_neg (by decide), if_neg (by decide),
      if_pos (by decide), hs, hd]
    simp [elementF, hdi]
  | unknown031021 hs =>
    unfold stepF
    rw [if_neg (by decide), if_neg (by decide), if_neg (by decide), if_neg (by decide),
      if_pos (by decide), hs]
    simp [elementF, newLocalDescriptor, emptyBentry, placeholder]
  | nbitsOffset h hd =>
    rw [operator_cases h (by decide) (by decide) hd]
    simp [operatorF, hid _ _ hd, h]
  | scaleOffset h hd =>
    rw [operator_cases h (by decide) (by decide) hd]
    simp [operatorF, hid _ _ hd, h]
  | refvalEnd h hy hd =>
    rw [operator_cases h (by decide) (by decide) hd]
    simp [operatorF, hid _ _ hd, h, hy]
  | assocEnd h hy hd =>
    rw [operator_cases h (by decide) (by decide) hd]
    simp [operatorF, hid _ _ hd, h, hy]
  | insertString h hd =>
    rw [operator_cases h (by decide) (by decide) hd]
    simp [operatorF, hid _ _ hd, h]
  | modifyPacking h hd =>
    rw [operator_cases h (by decide) (by decide) hd]
    simp [operatorF, hid _ _ hd, h]
  | setStringLength h hd =>
    rw [operator_cases h (by decide) (by decide) hd]
    simp [operatorF, hid _ _ hd, h]
  | @marker _ d h hd =>
    have hdi := hid _ _ hd
    rcases h with rfl | rfl | rfl | rfl
    · rw [operator_cases (k := 223) (by decide) (by decide) (by decide) hd]
      simp [operatorF, hdi, markedF, show ID.Operator 223255 = 223 by decide]
    · rw [operator_cases (k := 224) (by decide) (by decide) (by decide) hd]
      simp [operatorF, hdi, markedF, show ID.Operator 224255 = 224 by decide]
    · rw [operator_cases (k := 225) (by decide) (by decide) (by decide) hd]
      simp [operatorF, hdi, markedF, show ID.Operator 225255 = 225 by decide]
    · rw [operator_cases (k := 232) (by decide) (by decide) (by decide) hd]
      simp [operatorF, hdi, markedF, show ID.Operator 232255 = 232 by decide]
  | cancelBackRef h hd =>
    rw [operator_cases h (by decide) (by decide) hd]
    simp [operatorF, hid _ _ hd, h]
  | cancelBitmap h hy hd =>
    rw [operator_cases h (by decide) (by decide) hd]
    simp [operatorF, hid _ _ hd, h, hy]

theorem scope_step {f f₁ : PFlags} {id : ID} {d : Desc} {n j : Nat} {mk : List Ast → Ast}
    {fin fout : PFlags → PFlags} {body rest : List ID} {ms : List Ast} {rf : RecF}
    (hs : Scope id d n mk fin fout) (hd : lk id = .ok d) (hn : body.length + j = n)
    (hj : j = 0 ∨ rest = []) (hrf : rf (fin f) (body ++ List.replicate j 0) = .ok (ms, f₁)) :
    stepF lk rf f id (body ++ rest) = .ok (mk ms, fout f₁, rest) := by
  have hdi := hid _ _ hd
  have hsc := scopeN_of hn hj
  have key : ∀ k : Int, k = n → scopeF rf (fin f) k mk (body ++ rest) = .ok (mk ms, f₁, rest) := by
    intro k hk
    unfold scopeF
    rw [if_neg (by omega)]
    have : k.toNat = n := by omega
    rw [this, hsc.1, hsc.2]
    unfold populateF
    rw [hrf]
    rfl
  cases hs with
  | fixed hF hY hX =>
    unfold stepF
    rw [if_neg (by omega), if_neg (fun h => hY h.2), if_pos hF, hd]
    simp only [Outcome.bind_ok, hdi]
    exact key _ hX
  | delayed hF hY hX =>
    unfold stepF
    rw [if_neg (by omega), if_pos ⟨hF, hY⟩, hd]
    simp only [Outcome.bind_ok, hdi]
    exact key _ (by omega)
  | assocField h hY =>
    rw [operator_cases h (by decide) (by decide) hd]
    simp only [operatorF, hdi, h]
    simpa [hY] using key 1 rfl
  | skipLocal h =>
    rw [operator_cases h (by decide) (by decide) hd]
    simp only [operatorF, hdi, h]
    have := key 1 rfl
    simp only [] at this
    simp [this, thenFlags]
  | dataNotPresent h hY =>
    rw [operator_cases h (by decide) (by decide) hd]
    simp only [operatorF, hdi, h]
    have := key _ hY
    simp only [] at this
    simp [this, thenFlags]

theorem bitmapF_of {bd : Option Desc} {l body rest : List ID} {ms : List Ast} {f f₁ : PFlags} {rf : RecF}
    (hb : BitmapIds lk l bd body rest) (h0 : body = [] → ms = [] ∧ f₁ = f)
    (hrf : rf f body = .ok (ms, f₁)) : bitmapF lk rf f l = .ok (.bitmap bd ms, f₁, rest) := by
  cases hb with
  | recall hd =>
    obtain ⟨rfl, rfl⟩ := h0 rfl
    simp [bitmapF, hd, hid _ _ hd]
  | define hd hu =>
    obtain ⟨rfl, rfl⟩ := (until_iff _ _ _ _).1 hu
    simp only [bitmapF, hd, Outcome.bind_ok, hid _ _ hd]
    rw [if_neg (by decide), if_neg (by decide), if_pos trivial]
    simp only [populateF, hrf]
    rfl
  | @adhoc id d l' _ _ h1 hd hu =>
    obtain ⟨rfl, rfl⟩ := (until_iff _ _ _ _).1 hu
    simp only [bitmapF, hd, Outcome.bind_ok, hid _ _ hd]
    have : id ≠ 237000 := by
      rintro rfl
      rcases h1 with h1 | h1
      · exact absurd h1 (by decide)
      · exact absurd h1 (by decide)
    rw [if_neg this, if_pos h1]
    simp only [populateF, hrf]
    rfl

omit hid in
theorem derives_nil {pad : Bool} {f f' : PFlags} {ns : List Ast} (h : Derives lk pad f [] ns f') :
    ns = [] ∧ f' = f := by
  generalize hl : ([] : List ID) = l at h
  cases h with
  | nil => exact ⟨rfl, rfl⟩
  | bitmap hb => subst hl; cases hb
  | _ => cases hl

theorem derives_yields {pad : Bool} {f f' : PFlags} {l : List ID} {ns : List Ast}
    (h : Derives lk pad f l ns f') : Yields lk f l ns f' := by
  induction h with
  | nil =>
    refine ⟨1, fun n hn => ?_⟩
    obtain ⟨n, rfl⟩ : ∃ k, n = k + 1 := ⟨n - 1, by omega⟩
    rfl
  | leaf hl _ ih => exact .cons ⟨0, fun k _ => leaf_step hid hl _ _⟩ ih
  | @sequence f f₁ f' id d e rest ms ns hF hd he _ _ ih1 ih2 =>
    refine .cons ?_ ih2
    obtain ⟨N, hN⟩ := ih1
    refine ⟨N, fun k hk => ?_⟩
    unfold stepF
    rw [if_pos hF, hd]
    simp only [Outcome.bind_ok, Desc.dentry, he, populateF, hN k hk]
  | scope hs hd hn hj _ _ ih1 ih2 =>
    refine .cons ?_ ih2
    obtain ⟨N, hN⟩ := ih1
    exact ⟨N, fun k hk => scope_step hid hs hd hn (hj.imp (fun h => h) And.right) (hN k hk)⟩
  | newRefval h hy hd ht _ _ ih1 ih2 =>
    refine .cons ?_ ih2
    obtain ⟨N, hN⟩ := ih1
    obtain ⟨rfl, rfl⟩ := (till_iff _ _ _ _).1 ht
    refine ⟨N, fun k hk => ?_⟩
    rw [operator_cases h (by decide) (by decide) hd]
    simp only [operatorF, hid _ _ hd, h]
    simp [hy, populateF, hN k hk]
  | @bitmap f f₁ f' d l body rest ms ns hb hder _ ih1 ih2 =>
    obtain ⟨N, hN⟩ := ih1
    have h0 : body = [] → ms = [] ∧ f₁ = f := by
      rintro rfl
      exact derives_nil hder
    have key : ∀ k, N ≤ k → bitmapF lk (parseF lk k) f l = .ok (.bitmap (some d) ms, f₁, rest) :=
      fun k hk => bitmapF_of hid hb h0 (hN k hk)
    cases hb with
    | recall hd =>
      refine .cons ⟨N, fun k hk => ?_⟩ ih2
      rw [operator_cases (k := 237) (by decide) (by decide) (by decide) hd, ← key k hk]
      simp only [operatorF, hid _ _ hd, show ID.Operator 237000 = 237 by decide,
        show ID.Y 237000 = 0 by decide]
      simp
    | define hd hu =>
      refine .cons ⟨N, fun k hk => ?_⟩ ih2
      rw [operator_cases (k := 236) (by decide) (by decide) (by decide) hd, ← key k hk]
      simp only [operatorF, hid _ _ hd, show ID.Operator 236000 = 236 by decide]
      simp
  | @assessment f f₁ f₂ f₃ f' id d attrP memP bd l bids l₁ aids l₂ mids rest bms as ms ns ha hd hb hder ht _ hu _ _ ih1 ih2 ih3 ih4 =>
    refine .cons ?_ ih4
    obtain ⟨N1, h1⟩ := ih1
    obtain ⟨N2, h2⟩ := ih2
    obtain ⟨N3, h3⟩ := ih3
    obtain ⟨rfl, rfl⟩ := (till_iff _ _ _ _).1 ht
    obtain ⟨rfl, rfl⟩ := (until_iff _ _ _ _).1 hu
    have h0 : bids = [] → bms = [] ∧ f₁ = f := by
      rintro rfl
      exact derives_nil hder
    refine ⟨max N1 (max N2 N3), fun k hk => ?_⟩
    have key : assessF lk (parseF lk k) d attrP memP f l
        = .ok (.assessment d (.bitmap bd bms) as ms, f₃, untilR memP (tillR attrP l₁)) := by
      unfold assessF
      rw [bitmapF_of hid hb h0 (h1 k (by omega))]
      simp only [Outcome.bind_ok]
      rw [h2 k (by omega)]
      simp only [Outcome.bind_ok, populateF]
      rw [h3 k (by omega)]
      rfl
    have hdi := hid _ _ hd
    cases ha with
    | qaInfo =>
      rw [operator_cases (k := 222) (by decide) (by decide) (by decide) hd, ← key]
      simp [operatorF, hdi, show ID.Operator 222000 = 222 by decide]
    | @marked op mark hom =>
      simp only [List.mem_cons, Prod.mk.injEq, List.not_mem_nil, or_false] at hom
      rcases hom with ⟨rfl, rfl⟩ | ⟨rfl, rfl⟩ | ⟨rfl, rfl⟩ | ⟨rfl, rfl⟩
      · rw [operator_cases (k := 223) (by decide) (by decide) (by decide) hd, ← key]
        simp [operatorF, hdi, markedF, show ID.Operator 223000 = 223 by decide]
      · rw [operator_cases (k := 224) (by decide) (by decide) (by decide) hd, ← key]
        simp [operatorF, hdi, markedF, show ID.Operator 224000 = 224 by decide]
      · rw [operator_cases (k := 225) (by decide) (by decide) (by decide) hd, ← key]
        simp [operatorF, hdi, markedF, show ID.Operator 225000 = 225 by decide]
      · rw [operator_cases (k := 232) (by decide) (by decide) (by decide) hd, ← key]
        simp [operatorF, hdi, markedF, show ID.Operator 232000 = 232 by decide]

end Complete

end Gobufr
