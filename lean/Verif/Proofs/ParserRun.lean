import Verif.Proofs.Derives

/-!
# How the parser runs: fuel, termination, panics
-/

set_option linter.unusedSimpArgs false

namespace Gobufr
open ParserSpec TemplateSpec

/-- Properties of fuel indexed outcomes that pass through the code of the parser. -/
structure FamPred where
  P : {α : Type} → (Nat → Outcome α) → Prop
  ok : ∀ {α : Type} (a : α), P fun _ => .ok a
  err : ∀ {α : Type} (e : Err), P fun _ => (.err e : Outcome α)
  bind : ∀ {α β : Type} {f : Nat → Outcome α} {g : Nat → α → Outcome β}, P f →
    (∀ a n, f n = .ok a → P fun n => g n a) → P fun n => f n >>= g n
  panics : Prop
  panic : ∀ {α : Type} (w : String), panics → P fun _ => (.panic w : Outcome α)

/-- The lists the parser calls itself on at `id` followed by `r`. -/
def Body (lk : Lookup) (id : ID) (r body : List ID) : Prop :=
  SeqMembers lk id body ∨
    (id.F ≠ 0 ∧ ∃ b j, b.Sublist r ∧ body = b ++ List.replicate j 0)

theorem untilB_sublist (p : ID → Bool) (l : List ID) : (untilB p l).Sublist l := by
  have := List.sublist_append_left (untilB p l) (untilR p l)
  rwa [untilB_append_untilR] at this

theorem tillB_sublist (p : ID → Bool) (l : List ID) : (tillB p l).Sublist l := by
  have := List.sublist_append_left (tillB p l) (tillR p l)
  rwa [tillB_append_tillR] at this

theorem untilR_suffix (p : ID → Bool) (l : List ID) : untilR p l <:+ l :=
  ⟨_, untilB_append_untilR p l⟩

theorem tillR_suffix (p : ID → Bool) (l : List ID) : tillR p l <:+ l :=
  ⟨_, tillB_append_tillR p l⟩

theorem bitmapF_suffix {lk : Lookup} {rf : RecF} {f : PFlags} {l : List ID} {x : Ast × PFlags × List ID}
    (h : bitmapF lk rf f l = .ok x) : x.2.2 <:+ l := by
  cases l with
  | nil => simp [bitmapF] at h
  | cons id r =>
    simp only [bitmapF, Outcome.bind_eq_ok] at h
    obtain ⟨d, hd, h⟩ := h
    split at h
    · cases h; exact List.suffix_cons _ _
    split at h
    · simp only [populateF, Outcome.bind_eq_ok, Outcome.ok.injEq] at h
      obtain ⟨y, _, rfl⟩ := h
      exact untilR_suffix _ _
    split at h
    · simp only [populateF, Outcome.bind_eq_ok, Outcome.ok.injEq] at h
      obtain ⟨y, _, rfl⟩ := h
      exact (untilR_suffix _ _).trans (List.suffix_cons _ _)
    · cases h

theorem assessF_suffix {lk : Lookup} {rf : RecF} {f : PFlags} {d : Desc} {ap mp : ID → Bool} {l : List ID}
    {x : Ast × PFlags × List ID} (h : assessF lk rf d ap mp f l = .ok x) : x.2.2 <:+ l := by
  simp only [assessF, populateF, Outcome.bind_eq_ok, Outcome.ok.injEq] at h
  obtain ⟨y, h1, z, _, w, _, rfl⟩ := h
  exact (untilR_suffix _ _).trans ((tillR_suffix _ _).trans (bitmapF_suffix h1))

theorem populateF_suffix {rf : RecF} {f : PFlags} {ids r : List ID} {mk : List Ast → Ast}
    {x : Ast × PFlags × List ID} (h : populateF rf f ids mk r = .ok x) : x.2.2 = r := by
  simp only [populateF, Outcome.bind_eq_ok, Outcome.ok.injEq] at h
  obtain ⟨y, _, rfl⟩ := h
  rfl

theorem scopeF_suffix {rf : RecF} {f : PFlags} {k : Int} {r : List ID} {mk : List Ast → Ast}
    {x : Ast × PFlags × List ID} (h : scopeF rf f k mk r = .ok x) : x.2.2 <:+ r := by
  unfold scopeF at h
  split at h
  · cases h
  · rw [populateF_suffix h]; exact List.drop_suffix _ _

theorem thenFlags_suffix {g : PFlags → PFlags} {o : StepR} {l : List ID}
    (ho : ∀ x, o = .ok x → x.2.2 <:+ l) {x : Ast × PFlags × List ID}
    (h : thenFlags g o = .ok x) : x.2.2 <:+ l := by
  simp only [thenFlags, Outcome.bind_eq_ok, Outcome.ok.injEq] at h
  obtain ⟨y, h1, rfl⟩ := h
  exact ho y h1

theorem markedF_suffix {lk : Lookup} {rf : RecF} {f : PFlags} {d : Desc} {o m : ID} {l : List ID}
    {x : Ast × PFlags × List ID} (h : markedF lk rf o m f d l = .ok x) : x.2.2 <:+ l := by
  unfold markedF at h
  split at h
  · exact assessF_suffix h
  split at h
  · cases h; exact List.suffix_refl _
  · cases h

/-- Choosing between outcomes that leave a part of `l`. -/
theorem suffix_ite {l : List ID} {c : Prop} [Decidable c] {a b : StepR}
    (ha : c → ∀ x, a = .ok x → x.2.2 <:+ l) (hb : ¬ c → ∀ x, b = .ok x → x.2.2 <:+ l) :
    ∀ x, (if c then a else b) = .ok x → x.2.2 <:+ l := by
  by_cases h : c
  · rw [if_pos h]; exact ha h
  · rw [if_neg h]; exact hb h

theorem suffix_ok {l : List ID} {n : Ast} {f : PFlags} :
    ∀ x, (Outcome.ok (n, f, l) : StepR) = .ok x → x.2.2 <:+ l := by
  intro x h; cases h; exact List.suffix_refl _

/-- Unless a bitmap is redefined from its own descriptor, an operator leaves what follows it. -/
theorem operatorF_suffix {lk : Lookup} (hid : ∀ id d, lk id = .ok d → d.id = id) {rf : RecF}
    {f : PFlags} {id : ID} {d : Desc} {r : List ID} (hd : lk id = .ok d) (hF : id.F = 2) :
    ∀ x, operatorF lk rf f d id r = .ok x → x.2.2 <:+ r := by
  have hb : ∀ x, bitmapF lk rf f (id :: r) = .ok x → x.2.2 <:+ r := by
    intro x h
    simp only [bitmapF, hd, Outcome.bind_ok, hid _ _ hd] at h
    split at h
    · cases h; exact List.suffix_refl _
    split at h
    · rename_i h1
      rcases h1 with h1 | rfl
      · omega
      · exact absurd hF (by decide)
    split at h
    · rw [populateF_suffix h]; exact untilR_suffix _ _
    · cases h
  unfold operatorF
  refine suffix_ite (fun _ => suffix_ok) fun _ => ?_
  refine suffix_ite (fun _ => suffix_ok) fun _ => ?_
  refine suffix_ite (fun _ => suffix_ite (fun _ => suffix_ok) fun _ => ?_) fun _ => ?_
  · intro x h; rw [populateF_suffix h]; exact tillR_suffix _ _
  refine suffix_ite (fun _ => suffix_ite (fun _ x => scopeF_suffix) fun _ => suffix_ok) fun _ => ?_
  refine suffix_ite (fun _ => suffix_ok) fun _ => ?_
  refine suffix_ite (fun _ x => thenFlags_suffix fun _ => scopeF_suffix) fun _ => ?_
  refine suffix_ite (fun _ => suffix_ok) fun _ => ?_
  refine suffix_ite (fun _ => suffix_ok) fun _ => ?_
  refine suffix_ite (fun _ x => thenFlags_suffix fun _ => scopeF_suffix) fun _ => ?_
  refine suffix_ite (fun _ => suffix_ite (fun _ x h => by cases h) fun _ x => assessF_suffix) fun _ => ?_
  refine suffix_ite (fun _ x => markedF_suffix) fun _ => ?_
  refine suffix_ite (fun _ x => markedF_suffix) fun _ => ?_
  refine suffix_ite (fun _ x => markedF_suffix) fun _ => ?_
  refine suffix_ite (fun _ x => markedF_suffix) fun _ => ?_
  refine suffix_ite (fun _ => suffix_ok) fun _ => ?_
  refine suffix_ite (fun _ => hb) fun _ => ?_
  refine suffix_ite (fun _ => suffix_ite (fun _ => suffix_ok) fun _ => hb) fun _ => ?_
  exact suffix_ite (fun _ x h => by cases h) fun _ x h => by cases h

theorem stepF_suffix {lk : Lookup} (hid : ∀ id d, lk id = .ok d → d.id = id) {rf : RecF} {f : PFlags}
    {id : ID} {r : List ID} : ∀ x, stepF lk rf f id r = .ok x → x.2.2 <:+ r := by
  unfold stepF
  refine suffix_ite (fun _ x h => ?_) fun _ => ?_
  · simp only [Outcome.bind_eq_ok] at h
    obtain ⟨d, _, e, _, h⟩ := h
    rw [populateF_suffix h]
    exact List.suffix_refl _
  refine suffix_ite (fun _ x h => ?_) fun _ => ?_
  · simp only [Outcome.bind_eq_ok] at h
    obtain ⟨d, _, h⟩ := h
    exact scopeF_suffix h
  refine suffix_ite (fun _ x h => ?_) fun _ => ?_
  · simp only [Outcome.bind_eq_ok] at h
    obtain ⟨d, _, h⟩ := h
    exact scopeF_suffix h
  refine suffix_ite (fun hF x h => ?_) fun _ => ?_
  · simp only [Outcome.bind_eq_ok] at h
    obtain ⟨d, hd, h⟩ := h
    exact operatorF_suffix hid hd hF x h
  refine suffix_ite (fun _ => suffix_ite (fun _ => suffix_ok) fun _ x h => ?_) fun _ x h => by cases h
  simp only [Outcome.bind_eq_ok] at h
  obtain ⟨d, _, h⟩ := h
  exact suffix_ok x h

/-! ## Predicates pass through -/

section Pass

variable (Q : FamPred) {lk : Lookup} (hg : GoodLookup lk) (rf : Nat → RecF)

theorem FamPred.ite {Q : FamPred} {α : Type} {c : Prop} [Decidable c] {a b : Nat → Outcome α}
    (ha : c → Q.P a) (hb : ¬ c → Q.P b) : Q.P fun n => if c then a n else b n := by
  by_cases h : c
  · simp only [if_pos h]; exact ha h
  · simp only [if_neg h]; exact hb h

include hg in
theorem pass_lookup (id : ID) : Q.P fun _ => lk id := by
  rcases hg.total id with ⟨d, hd⟩ | ⟨e, he⟩
  · rw [hd]; exact Q.ok d
  · rw [he]; exact Q.err e

theorem pass_populate {f : PFlags} {ids r : List ID} {mk : List Ast → Ast}
    (h : Q.P fun n => rf n f ids) : Q.P fun n => populateF (rf n) f ids mk r :=
  Q.bind h fun _ _ _ => Q.ok _

theorem pass_scope {f : PFlags} {k : Int} {r : List ID} {mk : List Ast → Ast} (hk : 0 ≤ k)
    (h : Q.P fun n => rf n f (scopeN k.toNat r)) : Q.P fun n => scopeF (rf n) f k mk r := by
  unfold scopeF
  simp only [if_neg (show ¬ k < 0 by omega)]
  exact pass_populate Q rf h

include hg in
theorem pass_bitmap {f : PFlags} {id : ID} {r : List ID}
    (hrec : ∀ f b, (b.Sublist r ∨ ((id.F = 1 ∨ id = 31031) ∧ b.Sublist (id :: r))) →
      Q.P fun n => rf n f b) :
    Q.P fun n => bitmapF lk (rf n) f (id :: r) := by
  refine Q.bind (pass_lookup Q hg id) fun d _ hd => ?_
  have hdi := hg.id _ _ hd
  rw [hdi]
  refine FamPred.ite (fun _ => Q.ok _) fun _ => ?_
  refine FamPred.ite (fun h => pass_populate Q rf (hrec _ _ (.inr ⟨h, untilB_sublist _ _⟩))) fun _ => ?_
  exact FamPred.ite (fun h => pass_populate Q rf (hrec _ _ (.inl (untilB_sublist _ _)))) fun _ => Q.err _

include hg in
theorem pass_assess {f : PFlags} {d : Desc} {ap mp : ID → Bool} {r : List ID} (hp : Q.panics)
    (hrec : ∀ f b, b.Sublist r → Q.P fun n => rf n f b) :
    Q.P fun n => assessF lk (rf n) d ap mp f r := by
  refine Q.bind (f := fun n => bitmapF lk (rf n) f r) ?_ fun x n hx => ?_
  · cases r with
    | nil => exact Q.panic _ hp
    | cons id r =>
      refine pass_bitmap Q hg rf fun f b hb => hrec f b ?_
      rcases hb with hb | hb
      · exact hb.trans (List.sublist_cons_self _ _)
      · exact hb.2
  · have hs := (bitmapF_suffix hx).sublist
    refine Q.bind (hrec _ _ ((tillB_sublist _ _).trans hs)) fun y _ _ => ?_
    exact pass_populate Q rf
      (hrec _ _ ((untilB_sublist _ _).trans ((tillR_suffix _ _).sublist.trans hs)))

theorem scopeN_body (n : Nat) (r : List ID) : ∃ b j, b.Sublist r ∧ scopeN n r = b ++ List.replicate j 0 :=
  ⟨r.take n, n - r.length, List.take_sublist _ _, rfl⟩

include hg in
theorem pass_operator {f : PFlags} {id : ID} {r : List ID} {d : Desc} (hd : lk id = .ok d)
    (hF : id.F = 2) (hp : Q.panics ∨ id ∉ assessOps)
    (hrec : ∀ f body, Body lk id r body → Q.P fun n => rf n f body) :
    Q.P fun n => operatorF lk (rf n) f d id r := by
  have hdi := hg.id _ _ hd
  have hsub : ∀ f b, b.Sublist r → Q.P fun n => rf n f b := fun f b hb =>
    hrec f b (.inr ⟨by omega, b, 0, hb, by simp⟩)
  have hsc : ∀ f k, Q.P fun n => rf n f (scopeN k r) := fun f k =>
    hrec f _ (.inr ⟨by omega, scopeN_body k r⟩)
  have hb : Q.P fun n => bitmapF lk (rf n) f (id :: r) := by
    refine pass_bitmap Q hg rf fun f b hb => ?_
    rcases hb with hb | ⟨hb, _⟩
    · exact hsub f b hb
    · rcases hb with h | rfl
      · omega
      · exact absurd hF (by decide)
  have has : id ∈ assessOps → ∀ ap mp, Q.P fun n => assessF lk (rf n) d ap mp f r := fun h ap mp =>
    pass_assess Q hg rf (hp.resolve_right fun h' => h' h) hsub
  have hmk : ∀ o m, o ∈ assessOps → Q.P fun n => markedF lk (rf n) o m f d r := by
    intro o m ho
    unfold markedF
    rw [hdi]
    refine FamPred.ite (fun h => has (h ▸ ho) _ _) fun _ => ?_
    exact FamPred.ite (fun _ => Q.ok _) fun _ => Q.err _
  unfold operatorF
  rw [hdi]
  refine FamPred.ite (fun _ => Q.ok _) fun _ => ?_
  refine FamPred.ite (fun _ => Q.ok _) fun _ => ?_
  refine FamPred.ite (fun _ => FamPred.ite (fun _ => Q.ok _) fun _ =>
    pass_populate Q rf (hsub _ _ (tillB_sublist _ _))) fun _ => ?_
  refine FamPred.ite (fun _ => FamPred.ite (fun _ => pass_scope Q rf (by omega) (hsc _ _)) fun _ =>
    Q.ok _) fun _ => ?_
  refine FamPred.ite (fun _ => Q.ok _) fun _ => ?_
  refine FamPred.ite (fun _ => Q.bind (pass_scope Q rf (by omega) (hsc _ _)) fun _ _ _ => Q.ok _) fun _ => ?_
  refine FamPred.ite (fun _ => Q.ok _) fun _ => ?_
  refine FamPred.ite (fun _ => Q.ok _) fun _ => ?_
  refine FamPred.ite (fun _ => Q.bind (pass_scope Q rf (Y_nonneg (by omega)).1 (hsc _ _)) fun _ _ _ => Q.ok _)
    fun _ => ?_
  refine FamPred.ite (fun _ => FamPred.ite (fun _ => Q.err _) fun h => ?_) fun _ => ?_
  · have h : id = 222000 := by simpa using h
    exact has (by simp [assessOps, h]) _ _
  refine FamPred.ite (fun _ => hmk _ _ (by simp [assessOps])) fun _ => ?_
  refine FamPred.ite (fun _ => hmk _ _ (by simp [assessOps])) fun _ => ?_
  refine FamPred.ite (fun _ => hmk _ _ (by simp [assessOps])) fun _ => ?_
  refine FamPred.ite (fun _ => hmk _ _ (by simp [assessOps])) fun _ => ?_
  refine FamPred.ite (fun _ => Q.ok _) fun _ => ?_
  refine FamPred.ite (fun _ => hb) fun _ => ?_
  refine FamPred.ite (fun _ => FamPred.ite (fun _ => Q.ok _) fun _ => hb) fun _ => ?_
  exact FamPred.ite (fun _ => Q.err _) fun _ => Q.err _

include hg in
theorem pass_step {f : PFlags} {id : ID} {r : List ID} (hp : Q.panics ∨ id ∉ assessOps)
    (hrec : ∀ f body, Body lk id r body → Q.P fun n => rf n f body) :
    Q.P fun n => stepF lk (rf n) f id r := by
  unfold stepF
  refine FamPred.ite (fun hF => ?_) fun _ => ?_
  · refine Q.bind (pass_lookup Q hg id) fun d _ hd => ?_
    obtain ⟨e, he⟩ := hg.seq id d hd hF
    have : d.dentry = .ok e := by simp [Desc.dentry, he]
    simp only [this, Outcome.bind_ok]
    exact pass_populate Q rf (hrec _ _ (.inl ⟨hF, d, e, hd, he, rfl⟩))
  refine FamPred.ite (fun hF => ?_) fun _ => ?_
  · refine Q.bind (pass_lookup Q hg id) fun d _ hd => ?_
    have := Y_nonneg (show 0 < id.F by omega)
    rw [hg.id _ _ hd]
    exact pass_scope Q rf (by omega) (hrec _ _ (.inr ⟨by omega, scopeN_body _ _⟩))
  refine FamPred.ite (fun hF => ?_) fun _ => ?_
  · refine Q.bind (pass_lookup Q hg id) fun d _ hd => ?_
    have := Y_nonneg (show 0 < id.F by omega)
    rw [hg.id _ _ hd]
    exact pass_scope Q rf (by omega) (hrec _ _ (.inr ⟨by omega, scopeN_body _ _⟩))
  refine FamPred.ite (fun hF => ?_) fun _ => ?_
  · exact Q.bind (pass_lookup Q hg id) fun d _ hd => pass_operator Q hg rf hd hF hp hrec
  refine FamPred.ite (fun hF => ?_) fun _ => Q.err _
  exact FamPred.ite (fun _ => Q.ok _) fun _ =>
    Q.bind (pass_lookup Q hg id) fun d _ hd => Q.ok _

end Pass

/-! ## More fuel does not change a result -/

/-- At fuel `n` the outcome is final. -/
def monoPred (n : Nat) : FamPred where
  P g := g n = .diverge ∨ g n = g (n + 1)
  ok _ := .inr rfl
  err _ := .inr rfl
  bind := by
    intro α β f g hf hg
    rcases hf with hf | hf
    · left; simp only [hf]; rfl
    · simp only [← hf]
      cases h : f n with
      | ok a => exact hg a n h
      | err e => right; rfl
      | panic w => right; rfl
      | diverge => left; rfl
  panics := True
  panic _ _ := .inr rfl

theorem parseF_succ {lk : Lookup} (hg : GoodLookup lk) (n : Nat) : ∀ f l,
    parseF lk n f l = .diverge ∨ parseF lk n f l = parseF lk (n + 1) f l := by
  induction n with
  | zero => intro f l; left; rfl
  | succ n ih =>
    intro f l
    cases l with
    | nil => right; rfl
    | cons id r =>
      exact (monoPred n).bind (f := fun n => stepF lk (parseF lk n) f id r)
        (g := fun n x => parseF lk n x.2.1 x.2.2 >>= fun y => .ok (x.1 :: y.1, y.2))
        (pass_step (monoPred n) hg _ (.inl trivial) fun f body _ => ih f body)
        fun x _ _ => (monoPred n).bind (ih _ _) fun _ _ _ => (monoPred n).ok _

theorem parseF_mono {lk : Lookup} (hg : GoodLookup lk) {n m : Nat} (h : n ≤ m) (f : PFlags) (l : List ID)
    (hn : parseF lk n f l ≠ .diverge) : parseF lk m f l = parseF lk n f l := by
  induction h with
  | refl => rfl
  | step _ ih =>
    rw [← ih]
    rcases parseF_succ hg _ f l with h | h
    · rw [ih] at h; exact absurd h hn
    · exact h.symm

/-! ## Panics -/

/-- At fuel `n` the outcome is no panic. -/
def calmPred (n : Nat) : FamPred where
  P g := ∀ w, g n ≠ .panic w
  ok _ := by simp
  err _ := by simp
  bind := by
    intro α β f g hf hg
    cases h : f n with
    | ok a => simp only [h]; exact hg a n h
    | err e => simp only [h]; simp
    | panic w => exact absurd h (hf w)
    | diverge => simp only [h]; simp
  panics := False
  panic _ h := h.elim

theorem mentions_mono {lk : Lookup} {l l' : List ID} {id : ID} (h : Mentions lk l id)
    (hs : ∀ x ∈ l, x ∈ l') : Mentions lk l' id := by
  cases h with
  | here h => exact .here (hs _ h)
  | deep h1 h2 h3 => exact .deep (hs _ h1) h2 h3

/-- What is mentioned in a list the parser calls itself on is mentioned in the template, or is
a padded 000000. -/
theorem body_mentions {lk : Lookup} {id : ID} {r body : List ID} (hb : Body lk id r body) {x : ID}
    (hx : Mentions lk body x) : Mentions lk (id :: r) x ∨ x = 0 := by
  rcases hb with hs | ⟨_, b, j, hb, rfl⟩
  · exact .inl (.deep (by simp) hs hx)
  · cases hx with
    | here h =>
      rcases List.mem_append.1 h with h | h
      · exact .inl (.here (List.mem_cons_of_mem _ (hb.subset h)))
      · exact .inr (List.eq_of_mem_replicate h)
    | deep h1 h2 h3 =>
      rcases List.mem_append.1 h1 with h | h
      · exact .inl (.deep (List.mem_cons_of_mem _ (hb.subset h)) h2 h3)
      · rw [List.eq_of_mem_replicate h] at h2
        exact absurd h2.1 (by decide)

theorem parseF_calm {lk : Lookup} (hg : GoodLookup lk) (n : Nat) : ∀ f l,
    (∀ id ∈ assessOps, ¬ Mentions lk l id) → ∀ w, parseF lk n f l ≠ .panic w := by
  induction n with
  | zero => intro f l _ w; simp [parseF]
  | succ n ih =>
    intro f l hl
    cases l with
    | nil => intro w; simp [parseF]
    | cons id r =>
      refine (calmPred n).bind (f := fun n => stepF lk (parseF lk n) f id r)
        (g := fun n x => parseF lk n x.2.1 x.2.2 >>= fun y => .ok (x.1 :: y.1, y.2))
        (pass_step (calmPred n) hg _ (.inr fun h => hl id h (.here (by simp))) fun f body hb => ih f body ?_)
        fun x _ hx => (calmPred n).bind (ih _ _ ?_) fun _ _ _ => (calmPred n).ok _
      · intro op hop hm
        rcases body_mentions hb hm with h | rfl
        · exact hl op hop h
        · exact absurd hop (by decide)
      · intro op hop hm
        exact hl op hop (mentions_mono hm fun y hy =>
          List.mem_cons_of_mem _ ((stepF_suffix hg.id x hx).subset hy))

/-! ## Termination -/

theorem TemplateSpec.Ends.bindOk {f : Nat → Outcome α} {g : Nat → α → Outcome β} (hf : Ends f)
    (hg : ∀ a n, f n = .ok a → Ends fun n => g n a) : Ends fun n => f n >>= g n := by
  obtain ⟨r, hr, N, hN⟩ := hf
  cases r with
  | ok a =>
    obtain ⟨r', hr', N', hN'⟩ := hg a N (hN N (Nat.le_refl _))
    exact ⟨r', hr', max N N', fun n hn => by simp only [hN n (by omega)]; exact hN' n (by omega)⟩
  | err e => exact ⟨.err e, by simp, N, fun n hn => by simp only [hN n hn]; rfl⟩
  | panic w => exact ⟨.panic w, by simp, N, fun n hn => by simp only [hN n hn]; rfl⟩
  | diverge => exact absurd rfl hr

/-- With enough fuel the outcome settles. -/
def endsPred : FamPred where
  P := Ends
  ok _ := .const (by simp)
  err _ := .const (by simp)
  bind hf hg := hf.bindOk hg
  panics := True
  panic _ _ := .const (by simp)

theorem parseF_ends {lk : Lookup} (hg : GoodLookup lk) (rank : ID → Nat)
    (hr : ∀ s ms m, SeqMembers lk s ms → m ∈ ms → rank m < rank s) (R : Nat) : ∀ c m f (l : List ID),
    (∀ id ∈ l, id.F = 3 → rank id < R) → (l.filter fun id => id.F != 0).length ≤ c → l.length ≤ m →
    Ends fun n => parseF lk n f l := by
  induction R using Nat.strongRecOn with
  | ind R ihR =>
  intro c
  induction c using Nat.strongRecOn with
  | ind c ihc =>
  intro m
  induction m with
  | zero =>
    intro f l _ _ hm
    have : l = [] := List.eq_nil_of_length_eq_zero (by omega)
    subst this
    exact .shift (.const (by simp [parseF]))
  | succ m ihm =>
    intro f l hR hc hm
    cases l with
    | nil => exact .shift (.const (by simp [parseF]))
    | cons id r =>
      refine .shift ?_
      simp only [parseF]
      refine .bindOk (pass_step endsPred hg _ (.inl trivial) fun f body hb => ?_) fun x _ hx => ?_
      · rcases hb with hs | ⟨hF, b, j, hb, rfl⟩
        · refine ihR (rank id) (hR id (by simp) hs.1) _ _ f body
            (fun y hy _ => hr _ _ _ hs hy) (Nat.le_refl _) (Nat.le_refl _)
        · have h0 : (ID.F 0 != 0) = false := by decide
          have hlen : ((b ++ List.replicate j 0).filter fun id => ID.F id != 0).length < c := by
            have h1 := (hb.filter fun id => id.F != 0).length_le
            rw [List.filter_append, List.filter_replicate, h0]
            have h2 : (id.F != 0) = true := by simpa using hF
            simp only [List.filter_cons, h2, if_true, List.length_cons] at hc
            simp
            omega
          refine ihc _ hlen _ f _ (fun y hy hy3 => ?_) (Nat.le_refl _) (Nat.le_refl _)
          rcases List.mem_append.1 hy with h | h
          · exact hR y (List.mem_cons_of_mem _ (hb.subset h)) hy3
          · rw [List.eq_of_mem_replicate h] at hy3; exact absurd hy3 (by decide)
      · have hs := stepF_suffix hg.id x hx
        refine .bindOk (ihm _ _ (fun y hy => hR y (List.mem_cons_of_mem _ (hs.subset hy))) ?_ ?_)
          fun _ _ _ => .const (by simp)
        · have h1 := (hs.sublist.filter fun id => id.F != 0).length_le
          have h2 := ((List.sublist_cons_self id r).filter fun id => ID.F id != 0).length_le
          omega
        · have := hs.length_le
          simp at hm
          omega

end Gobufr
