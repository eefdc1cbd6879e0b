import Verif.Model.Path
import Verif.Proofs.Table

/-!
# Lemmas about file paths
-/

namespace Gobufr.Path

theorem split_ne_nil (sep : UInt8) : ∀ s : GoString, split sep s ≠ []
  | [] => by simp [split]
  | c :: cs => by
    unfold split
    split
    · simp
    · split <;> simp

theorem split_noSep {sep : UInt8} : ∀ {s : GoString}, sep ∉ s → split sep s = [s]
  | [], _ => rfl
  | c :: cs, h => by
    unfold split
    rw [if_neg (fun e => h (by simp [e])), split_noSep (fun e => h (by simp [e]))]

theorem split_cons_sep (sep : UInt8) (cs : GoString) : split sep (sep :: cs) = [] :: split sep cs := by
  rw [split, if_pos rfl]

theorem split_cons {sep c : UInt8} (h : c ≠ sep) {cs p : GoString} {ps : List GoString} (hs : split sep cs = p :: ps) :
    split sep (c :: cs) = (c :: p) :: ps := by
  rw [split, if_neg h, hs]

theorem split_append {sep : UInt8} : ∀ (a b : GoString), split sep (a ++ sep :: b) = split sep a ++ split sep b
  | [], b => split_cons_sep sep b
  | c :: cs, b => by
    by_cases h : c = sep
    · subst h
      rw [List.cons_append, split_cons_sep, split_cons_sep, split_append cs b]
      rfl
    · cases hs : split sep cs with
      | nil => exact absurd hs (split_ne_nil _ _)
      | cons p ps =>
        have := split_append (sep := sep) cs b
        rw [hs] at this
        rw [List.cons_append, split_cons h this, split_cons h hs]
        rfl

/-- A file name, or one element of a path. -/
def Plain (part : GoString) : Prop := part ≠ [] ∧ part ≠ str "." ∧ part ≠ str ".." ∧ ch '/' ∉ part

theorem push_plain {r : Bool} {st : List GoString} {p : GoString} (h : Plain p) : push r st p = p :: st := by
  unfold push
  rw [if_neg (fun e => e.elim h.1 h.2.1), if_neg h.2.2.1]

theorem foldl_plain {r : Bool} : ∀ {ps : List GoString} {st : List GoString}, (∀ p ∈ ps, Plain p) →
    ps.foldl (push r) st = ps.reverse ++ st
  | [], st, _ => rfl
  | p :: ps, st, h => by
    rw [List.foldl_cons, push_plain (h p (by simp)), foldl_plain (fun q hq => h q (by simp [hq]))]
    simp

theorem joinWith_cons (sep : UInt8) (p : GoString) {ps : List GoString} (h : ps ≠ []) :
    joinWith sep (p :: ps) = p ++ sep :: joinWith sep ps := by
  obtain ⟨q, qs, rfl⟩ := List.exists_cons_of_ne_nil h
  simp [joinWith, List.intercalate, List.intersperse]

theorem joinWith_append (sep : UInt8) : ∀ {ps qs : List GoString}, ps ≠ [] → qs ≠ [] →
    joinWith sep (ps ++ qs) = joinWith sep ps ++ sep :: joinWith sep qs
  | [], _, h, _ => absurd rfl h
  | [p], qs, _, h => by
    rw [List.singleton_append, joinWith_cons sep p h]
    simp [joinWith, List.intercalate]
  | p :: q :: ps, qs, _, h => by
    rw [List.cons_append, joinWith_cons sep p (by simp), joinWith_append sep (ps := q :: ps) (by simp) h,
      joinWith_cons sep p (by simp)]
    simp

theorem split_joinWith {sep : UInt8} : ∀ {ps : List GoString}, ps ≠ [] → (∀ p ∈ ps, sep ∉ p) →
    split sep (joinWith sep ps) = ps
  | [], h, _ => absurd rfl h
  | [p], _, h => by
    rw [show joinWith sep [p] = p by simp [joinWith, List.intercalate]]
    exact split_noSep (h p (by simp))
  | p :: q :: ps, _, h => by
    rw [joinWith_cons sep p (by simp), split_append, split_noSep (h p (by simp)),
      split_joinWith (ps := q :: ps) (by simp) (fun x hx => h x (List.mem_cons_of_mem _ hx))]
    rfl

theorem mem_joinWith {sep x : UInt8} (hx : x ≠ sep) : ∀ {ps : List GoString}, x ∈ joinWith sep ps → ∃ p ∈ ps, x ∈ p
  | [], h => by simp [joinWith, List.intercalate] at h
  | [p], h => ⟨p, by simp, by simpa [joinWith, List.intercalate] using h⟩
  | p :: q :: ps, h => by
    rw [joinWith_cons sep p (by simp)] at h
    rcases List.mem_append.1 h with h | h
    · exact ⟨p, by simp, h⟩
    · rcases List.mem_cons.1 h with h | h
      · exact absurd h hx
      · obtain ⟨y, h1, h2⟩ := mem_joinWith hx h
        exact ⟨y, List.mem_cons_of_mem _ h1, h2⟩

theorem rooted_append {a b : GoString} (h : a ≠ []) : rooted (a ++ b) = rooted a := by
  obtain ⟨c, cs, rfl⟩ := List.exists_cons_of_ne_nil h
  rfl

theorem kept_append {dir : GoString} (hd : dir ≠ []) {files : List GoString} (hf : files ≠ [])
    (h : ∀ f ∈ files, Plain f) :
    kept (dir ++ ch '/' :: joinWith (ch '/') files) = files.reverse ++ kept dir := by
  unfold kept
  rw [rooted_append hd, split_append, List.foldl_append, split_joinWith hf (fun p hp => (h p hp).2.2.2), foldl_plain h]

/-- every element kept is one of the path, or begins with a dot -/
theorem foldl_push_mem {r : Bool} : ∀ {ps st : List GoString} {x : GoString}, x ∈ ps.foldl (push r) st → x ∈ ps ∨ x ∈ st
  | [], st, x, h => .inr h
  | p :: ps, st, x, h => by
    rcases foldl_push_mem (ps := ps) (st := push r st p) h with h | h
    · exact .inl (by simp [h])
    · unfold push at h
      split at h
      · exact .inr h
      · split at h
        · split at h
          · split at h
            · simp at h
            · exact .inl (by simp at h; simp [h])
          · rename_i t ts _
            split at h
            · rcases List.mem_cons.1 h with h | h
              · exact .inl (by simp [h])
              · exact .inr h
            · exact .inr (by simp [h])
        · rcases List.mem_cons.1 h with h | h
          · exact .inl (by simp [h])
          · exact .inr h

theorem mem_split {sep x : UInt8} : ∀ {s p : GoString}, p ∈ split sep s → x ∈ p → x ∈ s
  | [], p, hp, hx => by
    simp [split] at hp
    simp [hp] at hx
  | c :: cs, p, hp, hx => by
    unfold split at hp
    split at hp
    · rcases List.mem_cons.1 hp with rfl | hp
      · simp at hx
      · exact List.mem_cons_of_mem _ (mem_split hp hx)
    · revert hp
      cases hs : split sep cs with
      | nil => exact absurd hs (split_ne_nil _ _)
      | cons q qs =>
        intro hp
        rcases List.mem_cons.1 hp with rfl | hp
        · rcases List.mem_cons.1 hx with rfl | hx
          · simp
          · exact List.mem_cons_of_mem _ (mem_split (s := cs) (p := q) (by rw [hs]; simp) hx)
        · exact List.mem_cons_of_mem _ (mem_split (s := cs) (p := p) (by rw [hs]; simp [hp]) hx)

theorem mem_kept {dir part : GoString} (h : part ∈ kept dir) {x : UInt8} (hx : x ∈ part) : x ∈ dir := by
  rcases foldl_push_mem h with h | h
  · exact mem_split h hx
  · simp at h

/-- What is kept of a path: no empty elements and no dots. -/
theorem foldl_push_good {r : Bool} : ∀ {ps st : List GoString}, (∀ x ∈ st, x ≠ [] ∧ x ≠ str ".") →
    ∀ x ∈ ps.foldl (push r) st, x ≠ [] ∧ x ≠ str "."
  | [], st, hst, x, h => hst x h
  | p :: ps, st, hst, x, h => by
    refine foldl_push_good (ps := ps) (st := push r st p) ?_ x h
    intro y hy
    unfold push at hy
    split at hy
    · exact hst y hy
    · rename_i hp
      have hp' : p ≠ [] ∧ p ≠ str "." := ⟨fun e => hp (.inl e), fun e => hp (.inr e)⟩
      split at hy
      · split at hy
        · split at hy
          · simp at hy
          · rw [List.mem_singleton] at hy
            exact hy ▸ hp'
        · split at hy
          · rcases List.mem_cons.1 hy with rfl | hy
            · exact hp'
            · exact hst y hy
          · exact hst y (List.mem_cons_of_mem _ hy)
      · rcases List.mem_cons.1 hy with rfl | hy
        · exact hp'
        · exact hst y hy

theorem kept_good {dir x : GoString} (h : x ∈ kept dir) : x ≠ [] ∧ x ≠ str "." :=
  foldl_push_good (by simp) x h

theorem joinWith_eq_nil {sep : UInt8} : ∀ {ps : List GoString}, (∀ p ∈ ps, p ≠ []) → joinWith sep ps = [] → ps = []
  | [], _, _ => rfl
  | [p], h, e => absurd (by simpa [joinWith, List.intercalate] using e) (h p (by simp))
  | p :: q :: ps, h, e => by
    rw [joinWith_cons sep p (by simp)] at e
    simp at e

theorem joinWith_eq_dot {ps : List GoString} (h : ∀ p ∈ ps, p ≠ [] ∧ p ≠ str ".") : joinWith (ch '/') ps ≠ str "." := by
  intro e
  match ps with
  | [] => simp [joinWith, List.intercalate, str] at e
  | [p] => exact (h p (by simp)).2 (by simpa [joinWith, List.intercalate] using e)
  | p :: q :: ps =>
    rw [joinWith_cons _ p (by simp)] at e
    have : ch '/' ∈ str "." := by rw [← e]; simp
    revert this
    decide

/-- The directory with a slash behind it, ready for a file name. -/
theorem render_dir {r : Bool} {ks : List GoString} (hk : ∀ x ∈ ks, x ≠ [] ∧ x ≠ str ".") (hs : ∀ x ∈ ks, ch '/' ∉ x)
    {files : List GoString}
    (hf : files ≠ []) :
    render r (files.reverse ++ ks)
      = (if render r ks = str "." then [] else if render r ks = str "/" then str "/" else render r ks ++ str "/")
        ++ joinWith (ch '/') files := by
  have hne : files.reverse ++ ks ≠ [] := by simp [hf]
  have hj : ks ≠ [] → joinWith (ch '/') (files.reverse ++ ks).reverse
      = joinWith (ch '/') ks.reverse ++ ch '/' :: joinWith (ch '/') files := by
    intro h
    rw [List.reverse_append, List.reverse_reverse, joinWith_append _ (by simpa using h) hf]
  have hk' : ∀ x ∈ ks.reverse, x ≠ [] ∧ x ≠ str "." := fun x hx => hk x (List.mem_reverse.1 hx)
  cases r with
  | true =>
    simp only [render, if_true]
    have h1 : ∀ l : GoString, ch '/' :: l ≠ str "." := by
      intro l e
      injection e with e _
      revert e
      decide
    rw [if_neg (h1 _)]
    by_cases hks : ks = []
    · subst hks
      have : (ch '/' :: joinWith (ch '/') ([] : List GoString).reverse) = str "/" := by decide
      rw [if_pos this]
      simp [str]
    · have h2 : (ch '/' :: joinWith (ch '/') ks.reverse) ≠ str "/" := by
        intro e
        have e' : joinWith (ch '/') ks.reverse = [] := by
          injection e
        exact hks (by simpa using joinWith_eq_nil (fun p hp => (hk' p hp).1) e')
      rw [if_neg h2, hj hks]
      simp [str]
  | false =>
    simp only [render, Bool.false_eq_true, if_false, if_neg hne]
    by_cases hks : ks = []
    · subst hks
      simp
    · rw [if_neg hks, if_neg (joinWith_eq_dot hk'), hj hks]
      have h2 : joinWith (ch '/') ks.reverse ≠ str "/" := by
        intro e
        match hr : ks.reverse with
        | [] => exact hks (by simpa using hr)
        | [p] =>
          rw [hr] at e
          refine hs p (List.mem_reverse.1 (by rw [hr]; simp)) ?_
          rw [show p = str "/" by simpa [joinWith, List.intercalate] using e]
          decide
        | p :: q :: ps =>
          rw [hr, joinWith_cons _ p (by simp)] at e
          refine (hk' p (by rw [hr]; simp)).1 ?_
          have hl := congrArg List.length e
          simp [str] at hl
          exact List.eq_nil_of_length_eq_zero (by omega)
      rw [if_neg h2]
      simp [str]

theorem noSep_split {sep : UInt8} : ∀ {s p : GoString}, p ∈ split sep s → sep ∉ p
  | [], p, h => by
    simp [split] at h
    simp [h]
  | c :: cs, p, h => by
    by_cases hc : c = sep
    · subst hc
      rw [split_cons_sep] at h
      rcases List.mem_cons.1 h with rfl | h
      · simp
      · exact noSep_split h
    · cases hs : split sep cs with
      | nil => exact absurd hs (split_ne_nil _ _)
      | cons q qs =>
        rw [split_cons hc hs] at h
        rcases List.mem_cons.1 h with rfl | h
        · intro hm
          rcases List.mem_cons.1 hm with e | hm
          · exact hc e.symm
          · exact noSep_split (s := cs) (p := q) (by rw [hs]; simp) hm
        · exact noSep_split (s := cs) (p := p) (by rw [hs]; simp [h])

theorem kept_noSlash {dir x : GoString} (h : x ∈ kept dir) : ch '/' ∉ x := by
  rcases foldl_push_mem h with h | h
  · exact noSep_split h
  · simp at h

/-- Joining file names to a directory. -/
theorem join_dir (dir : GoString) {files : List GoString} (hf : files ≠ []) (h : ∀ f ∈ files, Plain f) :
    join (dir :: files) = (if dir = [] ∨ clean dir = str "." then []
      else if clean dir = str "/" then str "/" else clean dir ++ str "/") ++ joinWith (ch '/') files := by
  by_cases hd : dir = []
  · subst hd
    obtain ⟨f, fs, rfl⟩ := List.exists_cons_of_ne_nil hf
    have hk : kept (joinWith (ch '/') (f :: fs)) = (f :: fs).reverse := by
      unfold kept
      rw [split_joinWith hf (fun p hp => (h p hp).2.2.2), foldl_plain h]
      simp
    have hr : rooted (joinWith (ch '/') (f :: fs)) = false := by
      obtain ⟨c, cs, rfl⟩ := List.exists_cons_of_ne_nil (h f (by simp)).1
      have hc : c ≠ ch '/' := fun e => (h (c :: cs) (by simp)).2.2.2 (by simp [e])
      cases fs with
      | nil => simp [joinWith, List.intercalate, rooted, hc]
      | cons g gs =>
        rw [joinWith_cons _ _ (by simp)]
        simp [rooted, hc]
    simp only [join, if_true, (h f (by simp)).1, if_false, true_or, List.nil_append]
    unfold clean
    rw [hk, hr]
    simp [render]
  · rw [join, if_neg hd, joinWith_cons _ dir hf]
    show render _ _ = _
    rw [rooted_append hd, kept_append hd hf h, render_dir (fun x hx => kept_good hx) (fun x hx => kept_noSlash hx) hf]
    simp only [hd, false_or]
    rfl

theorem mem_clean {dir : GoString} {x : UInt8} (h : x ∈ clean dir) : x ∈ dir ∨ x = ch '/' ∨ x = ch '.' := by
  have hj : ∀ {x}, x ∈ joinWith (ch '/') (kept dir).reverse → x ∈ dir ∨ x = ch '/' := by
    intro x hx
    by_cases e : x = ch '/'
    · exact .inr e
    · obtain ⟨p, h1, h2⟩ := mem_joinWith e hx
      exact .inl (mem_kept (List.mem_reverse.1 h1) h2)
  unfold clean render at h
  split at h
  · rcases List.mem_cons.1 h with h | h
    · exact .inr (.inl h)
    · rcases hj h with h | h
      · exact .inl h
      · exact .inr (.inl h)
  · split at h
    · exact .inr (.inr (by simpa [str] using h))
    · rcases hj h with h | h
      · exact .inl h
      · exact .inr (.inl h)

end Gobufr.Path
