import Verif.Spec.Path
import Verif.Props.Paths
import Verif.Props.Runtime

/-!
# C81 and C104: the places that paths name
-/

namespace Gobufr

open Spec

namespace Path

theorem walk_split : ∀ (here : List GoString) (name s : GoString), ∃ p ps, split (ch '/') s = p :: ps ∧
    walk here name s = ((name ++ p) :: ps).foldl enter here
  | here, name, [] => ⟨[], [], rfl, by simp [walk]⟩
  | here, name, c :: cs => by
    by_cases h : c = ch '/'
    · subst h
      obtain ⟨p, ps, hs, hw⟩ := walk_split (enter here name) [] cs
      refine ⟨[], p :: ps, by rw [split_cons_sep, hs], ?_⟩
      rw [walk, if_pos rfl, hw]
      simp
    · obtain ⟨p, ps, hs, hw⟩ := walk_split here (name ++ [c]) cs
      refine ⟨c :: p, ps, split_cons h hs, ?_⟩
      rw [walk, if_neg h, hw]
      simp

theorem place_eq (here : List GoString) (path : GoString) :
    place here path = (split (ch '/') path).foldl enter (if rooted path then [] else here) := by
  unfold place
  obtain ⟨p, ps, hs, hw⟩ := walk_split (if path.head? = some (ch '/') then [] else here) [] path
  rw [hw, hs, List.nil_append]
  unfold rooted
  simp

/-- Following the elements kept so far and then one more. -/
theorem enter_push {r : Bool} {start stack : List GoString} (hr : r = true → start = [])
    (hg : ∀ x ∈ stack, x ≠ [] ∧ x ≠ str ".") (part : GoString) :
    (push r stack part).reverse.foldl enter start = enter (stack.reverse.foldl enter start) part := by
  unfold push
  split
  · rename_i h
    rw [enter, if_pos h]
  · rename_i h
    split
    · rename_i hp
      subst hp
      split
      · cases r
        · rfl
        · rw [hr rfl]; rfl
      · rename_i t ts
        split
        · simp
        · rename_i ht
          rw [List.reverse_cons, List.foldl_append, List.foldl_cons, List.foldl_nil,
            enter.eq_def (ts.reverse.foldl enter start), if_neg, if_neg ht]
          · rfl
          · rintro (e | e)
            · exact (hg t (by simp)).1 e
            · exact (hg t (by simp)).2 e
    · simp

theorem enter_foldl {r : Bool} {start : List GoString} (hr : r = true → start = []) :
    ∀ (parts stack : List GoString), (∀ x ∈ stack, x ≠ [] ∧ x ≠ str ".") →
      (parts.foldl (push r) stack).reverse.foldl enter start = parts.foldl enter (stack.reverse.foldl enter start)
  | [], _, _ => rfl
  | p :: ps, stack, hg => by
    rw [List.foldl_cons, List.foldl_cons, ← enter_push hr hg]
    exact enter_foldl hr ps _ fun x hx => foldl_push_good (ps := [p]) hg x hx

theorem rooted_joinWith {ps : List GoString} (h : ∀ p ∈ ps, p ≠ [] ∧ ch '/' ∉ p) :
    rooted (joinWith (ch '/') ps) = false := by
  match ps, h with
  | [], _ => rfl
  | p :: ps, h =>
    obtain ⟨h1, h2⟩ := h p (by simp)
    obtain ⟨c, cs, rfl⟩ := List.exists_cons_of_ne_nil h1
    have hc : c ≠ ch '/' := fun e => h2 (by simp [e])
    by_cases hp : ps = []
    · subst hp
      simp [joinWith, List.intercalate, rooted, hc]
    · rw [joinWith_cons _ _ hp]
      simp [rooted, hc]

end Path

/-- **C104** (the place).  A cleaned path names the place that the path names, wherever one is. -/
theorem C104_clean (here : List GoString) (path : GoString) : place here (Path.clean path) = place here path := by
  have hk : ∀ x ∈ (Path.kept path).reverse, x ≠ [] ∧ ch '/' ∉ x := fun x hx =>
    ⟨(Path.kept_good (List.mem_reverse.1 hx)).1, Path.kept_noSlash (List.mem_reverse.1 hx)⟩
  rw [Path.place_eq, Path.place_eq here path]
  have hf := Path.enter_foldl (r := Path.rooted path) (start := if Path.rooted path then [] else here)
    (fun h => by rw [if_pos h]) (Path.split (ch '/') path) [] (by simp)
  rw [List.reverse_nil, List.foldl_nil] at hf
  rw [← hf]
  change _ = (Path.kept path).reverse.foldl enter _
  by_cases hn : (Path.kept path).reverse = []
  · have hn' : Path.kept path = [] := by simpa using hn
    cases hr : Path.rooted path
    · rw [show Path.clean path = str "." by unfold Path.clean Path.render; rw [hr, hn']; rfl, hn]
      rfl
    · rw [show Path.clean path = str "/" by unfold Path.clean Path.render; rw [hr, hn']; rfl, hn]
      rfl
  · have hn' : Path.kept path ≠ [] := by simpa using hn
    cases hr : Path.rooted path
    · rw [show Path.clean path = Path.joinWith (ch '/') (Path.kept path).reverse by
          unfold Path.clean Path.render
          rw [hr, if_neg (by simp), if_neg hn'],
        Path.rooted_joinWith hk, Path.split_joinWith hn fun p hp => (hk p hp).2]
    · rw [show Path.clean path = ch '/' :: Path.joinWith (ch '/') (Path.kept path).reverse by
          unfold Path.clean Path.render
          rw [hr, if_pos rfl],
        show Path.rooted (ch '/' :: Path.joinWith (ch '/') (Path.kept path).reverse) = true from rfl,
        Path.split_cons_sep, Path.split_joinWith hn fun p hp => (hk p hp).2]
      rfl

theorem Path.place_append {here : List GoString} {a : GoString} (ha : a ≠ []) (b : GoString) :
    place here (a ++ ch '/' :: b) = (Path.split (ch '/') b).foldl enter (place here a) := by
  rw [Path.place_eq, Path.place_eq, Path.rooted_append ha, Path.split_append, List.foldl_append]

theorem Path.enter_plain : ∀ {ps here : List GoString}, (∀ p ∈ ps, Path.Plain p) →
    ps.foldl enter here = ps.reverse ++ here
  | [], _, _ => rfl
  | p :: ps, here, h => by
    have hp := h p (by simp)
    rw [List.foldl_cons, Path.enter_plain fun q hq => h q (by simp [hq]), enter,
      if_neg (fun e => e.elim hp.1 hp.2.1), if_neg hp.2.2.1]
    simp

theorem Path.clean_ne_nil (path : GoString) : Path.clean path ≠ [] := by
  unfold Path.clean Path.render
  split
  · simp
  · split
    · simp [str]
    · rename_i hn
      intro e
      have := Path.joinWith_eq_nil (ps := (Path.kept path).reverse)
        (fun p hp => (Path.kept_good (List.mem_reverse.1 hp)).1) e
      exact hn (by simpa using this)

/-- The place of a file below a directory. -/
theorem place_below (here : List GoString) (dir : GoString) {files : List GoString} (hn : files ≠ [])
    (h : ∀ f ∈ files, Path.Plain f) :
    place here (below dir (List.intercalate (str "/") files)) = files.reverse ++ place here dir := by
  have hs : Path.split (ch '/') (List.intercalate (str "/") files) = files :=
    Path.split_joinWith hn fun p hp => (h p hp).2.2.2
  have hroot : Path.rooted (List.intercalate (str "/") files) = false :=
    Path.rooted_joinWith (ps := files) fun p hp => ⟨(h p hp).1, (h p hp).2.2.2⟩
  have hclean := C104_clean here dir
  unfold below
  by_cases h1 : dir = [] ∨ Path.clean dir = str "."
  · rw [if_pos h1, List.nil_append, Path.place_eq, hroot, hs, Path.enter_plain h, if_neg (by simp)]
    congr 1
    rcases h1 with h1 | h1
    · subst h1
      rfl
    · rw [← hclean, h1]
      rfl
  · rw [if_neg h1]
    by_cases h2 : Path.clean dir = str "/"
    · rw [if_pos h2, ← hclean, h2, show str "/" ++ List.intercalate (str "/") files
          = ch '/' :: List.intercalate (str "/") files from rfl, Path.place_eq, Path.split_cons_sep, hs]
      rw [List.foldl_cons, Path.enter_plain h]
      rfl
    · rw [if_neg h2, show Path.clean dir ++ str "/" ++ List.intercalate (str "/") files
          = Path.clean dir ++ ch '/' :: List.intercalate (str "/") files by simp [str],
        Path.place_append (Path.clean_ne_nil _), hs, Path.enter_plain h, hclean]

/-- **C104** (the place).  The file of a module is the one of that name in the directories of the module's
name below the definitions directory, however that is written. -/
theorem C104_place (here : List GoString) (dir : GoString) {parts : List GoString} {last : GoString}
    (hp : ∀ p ∈ parts, NamePart p) (hl : NamePart last) :
    place here (moduleFile dir (parts ++ [last])) = (last ++ str ".lua") :: (parts.reverse ++ place here dir) := by
  have hplain : ∀ {p : GoString}, NamePart p → Path.Plain p := fun {p} h =>
    ⟨h.1, fun e => (h.2 (ch '.') (by rw [e]; decide)).1 rfl, fun e => (h.2 (ch '.') (by rw [e]; decide)).1 rfl,
      fun e => (h.2 _ e).2.1 rfl⟩
  have hfile : Path.Plain (last ++ str ".lua") := by
    obtain ⟨c, cs, rfl⟩ := List.exists_cons_of_ne_nil hl.1
    refine ⟨by simp, fun e => ?_, fun e => ?_, fun e => ?_⟩
    · have := congrArg List.length e
      simp [str] at this
    · have := congrArg List.length e
      simp [str] at this
    · rcases List.mem_append.1 e with e | e
      · exact (hl.2 _ e).2.1 rfl
      · revert e; decide
  have hcat : List.intercalate (str "/") (parts ++ [last]) ++ str ".lua"
      = List.intercalate (str "/") (parts ++ [last ++ str ".lua"]) := by
    by_cases hn : parts = []
    · subst hn
      simp [List.intercalate]
    · change Path.joinWith (ch '/') (parts ++ [last]) ++ str ".lua" = Path.joinWith (ch '/') (parts ++ [last ++ str ".lua"])
      rw [Path.joinWith_append _ hn (by simp), Path.joinWith_append _ hn (by simp)]
      simp [Path.joinWith, List.intercalate]
  unfold moduleFile
  rw [hcat, place_below here dir (by simp) (by
    intro f hf
    rcases List.mem_append.1 hf with hf | hf
    · exact hplain (hp f hf)
    · rw [List.mem_singleton] at hf
      subst hf
      exact hfile)]
  simp

/-- **C103** (the place).  The script that is run is boot.lua of the definitions directory. -/
theorem C103_place (here : List GoString) (dir : GoString) :
    place here (below dir (str "boot.lua")) = str "boot.lua" :: place here dir := by
  have := place_below here dir (files := [str "boot.lua"]) (by simp) (by
    intro f hf
    rw [List.mem_singleton] at hf
    subst hf
    exact ⟨by decide, by decide, by decide, by decide⟩)
  simpa [List.intercalate] using this

/-- **C81** (the place).  A table is a file of the directory of its numbers below the tables directory. -/
theorem C81_place (here : List GoString) (dir : GoString) (n : TableNum) {name : GoString} (h : Path.Plain name) :
    place here (Path.join [dir, itoa n.master, itoa n.centre, itoa n.subCentre, itoa n.version, name])
      = [name, itoa n.version, itoa n.subCentre, itoa n.centre, itoa n.master] ++ place here dir := by
  have hp : ∀ f ∈ [itoa n.master, itoa n.centre, itoa n.subCentre, itoa n.version, name], Path.Plain f := by
    intro f hf
    simp only [List.mem_cons, List.not_mem_nil, or_false] at hf
    rcases hf with rfl | rfl | rfl | rfl | rfl
    · exact plain_itoa _
    · exact plain_itoa _
    · exact plain_itoa _
    · exact plain_itoa _
    · exact h
  rw [Path.join_dir dir (by simp) hp]
  exact place_below here dir (by simp) hp

/-! ## One path for every place -/

/-- What is kept of a path: names, after that many steps up. -/
theorem Path.push_shape {r : Bool} {names : List GoString} {k : Nat} (hn : ∀ x ∈ names, Path.Plain x) (hr : r = true → k = 0)
    {part : GoString} (hs : ch '/' ∉ part) :
    ∃ names' k', Path.push r (names ++ List.replicate k (str "..")) part = names' ++ List.replicate k' (str "..") ∧
      (∀ x ∈ names', Path.Plain x) ∧ (r = true → k' = 0) := by
  unfold Path.push
  split
  · exact ⟨names, k, rfl, hn, hr⟩
  · rename_i h
    split
    · rename_i hp
      subst hp
      cases names with
      | nil =>
        cases k with
        | zero =>
          cases r
          · exact ⟨[], 1, rfl, by simp, by simp⟩
          · exact ⟨[], 0, rfl, by simp, by simp⟩
        | succ k =>
          cases r
          · refine ⟨[], k + 2, ?_, by simp, by simp⟩
            simp [List.replicate_succ]
          · exact absurd (hr rfl) (by simp)
      | cons t ts =>
        refine ⟨ts, k, ?_, fun x hx => hn x (by simp [hx]), hr⟩
        simp only [List.cons_append]
        rw [if_neg (hn t (by simp)).2.2.1]
    · rename_i hp
      exact ⟨part :: names, k, rfl, by
        intro x hx
        rcases List.mem_cons.1 hx with rfl | hx
        · exact ⟨fun e => h (.inl e), fun e => h (.inr e), hp, hs⟩
        · exact hn x hx, hr⟩

theorem Path.foldl_shape {r : Bool} : ∀ {parts : List GoString} {names : List GoString} {k : Nat},
    (∀ p ∈ parts, ch '/' ∉ p) → (∀ x ∈ names, Path.Plain x) → (r = true → k = 0) →
    ∃ names' k', parts.foldl (Path.push r) (names ++ List.replicate k (str "..")) = names' ++ List.replicate k' (str "..") ∧
      (∀ x ∈ names', Path.Plain x) ∧ (r = true → k' = 0)
  | [], names, k, _, hn, hr => ⟨names, k, rfl, hn, hr⟩
  | p :: ps, names, k, hs, hn, hr => by
    obtain ⟨names1, k1, e1, hn1, hr1⟩ := Path.push_shape hn hr (hs p (by simp))
    rw [List.foldl_cons, e1]
    exact Path.foldl_shape (fun q hq => hs q (by simp [hq])) hn1 hr1

theorem Path.kept_shape (path : GoString) : ∃ names k, Path.kept path = names ++ List.replicate k (str "..") ∧
    (∀ x ∈ names, Path.Plain x) ∧ (Path.rooted path = true → k = 0) :=
  Path.foldl_shape (names := []) (k := 0) (fun _ hp => Path.noSep_split hp) (by simp) (fun _ => rfl)

theorem Path.enter_up : ∀ (k : Nat) (here : List GoString), (List.replicate k (str "..")).foldl enter here = here.drop k
  | 0, _ => rfl
  | k + 1, here => by
    rw [List.replicate_succ, List.foldl_cons, Path.enter_up k]
    cases here <;> simp [enter, str]

theorem Path.place_kept (here : List GoString) (path : GoString) :
    place here path = (Path.kept path).reverse.foldl enter (if Path.rooted path then [] else here) := by
  rw [Path.place_eq]
  exact (Path.enter_foldl (r := Path.rooted path) (start := if Path.rooted path then [] else here)
    (fun h => by rw [if_pos h]) (Path.split (ch '/') path) [] (by simp)).symm

/-- **C81** (one path for every place).  Two paths, both from the top or both not, become the same path if
they name the same place wherever one is. -/
theorem C81_canonical {p q : GoString} (hr : (p.head? = some (ch '/') ↔ q.head? = some (ch '/')))
    (h : ∀ here, place here p = place here q) : Path.clean p = Path.clean q := by
  have hroot : Path.rooted p = Path.rooted q := by
    unfold Path.rooted
    rw [Bool.eq_iff_iff]
    simpa using hr
  have hkept : Path.kept p = Path.kept q := by
    obtain ⟨n1, k1, e1, hn1, hr1⟩ := Path.kept_shape p
    obtain ⟨n2, k2, e2, hn2, hr2⟩ := Path.kept_shape q
    have hp : ∀ here : List GoString, n1 ++ (if Path.rooted p then [] else here).drop k1
        = n2 ++ (if Path.rooted p then [] else here).drop k2 := by
      intro here
      have := h here
      rw [Path.place_kept, Path.place_kept, e1, e2, List.reverse_append, List.reverse_append, List.foldl_append,
        List.foldl_append, List.reverse_replicate, List.reverse_replicate, Path.enter_up, Path.enter_up,
        Path.enter_plain (fun x hx => hn1 x (List.mem_reverse.1 hx)),
        Path.enter_plain (fun x hx => hn2 x (List.mem_reverse.1 hx)), List.reverse_reverse, List.reverse_reverse,
        ← hroot] at this
      exact this
    have hnames : n1 = n2 := by simpa using hp []
    subst hnames
    cases hrt : Path.rooted p
    · have := congrArg List.length (List.append_cancel_left (hp (List.replicate (k1 + k2) [])))
      rw [hrt] at this
      simp at this
      rw [e1, e2, show k1 = k2 by omega]
    · rw [e1, e2, hr1 hrt, hr2 (hroot ▸ hrt)]
  unfold Path.clean
  rw [hroot, hkept]

/-- **C81** (one path for every place).  Cleaning a path twice is cleaning it once. -/
theorem C81_clean_clean (path : GoString) : Path.clean (Path.clean path) = Path.clean path := by
  refine C81_canonical ?_ (C104_clean · path)
  have hk : ∀ x ∈ (Path.kept path).reverse, x ≠ [] ∧ ch '/' ∉ x := fun x hx =>
    ⟨(Path.kept_good (List.mem_reverse.1 hx)).1, Path.kept_noSlash (List.mem_reverse.1 hx)⟩
  have : Path.rooted (Path.clean path) = Path.rooted path := by
    conv_lhs => unfold Path.clean
    unfold Path.render
    cases Path.rooted path
    · rw [if_neg (by simp)]
      split
      · rfl
      · exact Path.rooted_joinWith hk
    · rfl
  unfold Path.rooted at this
  rw [Bool.eq_iff_iff] at this
  simpa using this

-- a roundabout path: from /home/me, one directory up and down again
example : place [str "me", str "home"] (str "x/../.././you//defs/") = [str "defs", str "you", str "home"] ∧
    Path.clean (str "x/../.././you//defs/") = str "../you/defs" ∧
    place [] (str "../x") = [str "x"] ∧ NamePart (str "bufr4") := by
  refine ⟨by decide, by decide, by decide, by decide, ?_⟩
  intro c hc
  revert c
  decide

end Gobufr
