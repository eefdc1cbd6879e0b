import Verif.Proofs.Table
import Verif.Model.FloatInst

/-!
# Properties of descriptors, tables and table groups (C19 - C21, C25 - C27, C81)
-/

namespace Gobufr

/-! ## C19 -/

/-- C19. The decimal digits of an id are its F, X and Y. -/
theorem C19_fxy (f x y : Nat) (hx : x < 100) (hy : y < 1000) :
    ID.F (f * 100000 + x * 1000 + y : Nat) = f ∧ ID.X (f * 100000 + x * 1000 + y : Nat) = x ∧
    ID.Y (f * 100000 + x * 1000 + y : Nat) = y := by
  unfold ID.F ID.X ID.Y
  have h1 : ((f * 100000 + x * 1000 + y : Nat) : Int).tdiv 100000
      = (((f * 100000 + x * 1000 + y) / 100000 : Nat) : Int) := rfl
  have h2 : ((f * 100000 + x * 1000 + y : Nat) : Int).tdiv 1000
      = (((f * 100000 + x * 1000 + y) / 1000 : Nat) : Int) := rfl
  have h3 : ((f * 100000 + x * 1000 + y : Nat) : Int).tmod 1000
      = (((f * 100000 + x * 1000 + y) % 1000 : Nat) : Int) := rfl
  rw [h1, h2, h3]
  have h4 : (((f * 100000 + x * 1000 + y) / 1000 : Nat) : Int).tmod 100
      = (((f * 100000 + x * 1000 + y) / 1000 % 100 : Nat) : Int) := rfl
  rw [h4]
  omega

/-- C19, converse: every non-negative id is determined by its F, X and Y, and X and Y are in
range. -/
theorem C19_fxy_determine (id : ID) (h : 0 ≤ id) :
    id = id.F * 100000 + id.X * 1000 + id.Y ∧ 0 ≤ id.F ∧ 0 ≤ id.X ∧ id.X < 100 ∧
    0 ≤ id.Y ∧ id.Y < 1000 := by
  obtain ⟨n, rfl⟩ := Int.eq_ofNat_of_zero_le h
  have := C19_fxy (n / 100000) (n / 1000 % 100) (n % 1000) (by omega) (by omega)
  have e' : n / 1000 / 100 = n / 100000 := by rw [Nat.div_div_eq_div_mul]
  have e : n / 100000 * 100000 + n / 1000 % 100 * 1000 + n % 1000 = n := by omega
  rw [e] at this
  rw [this.1, this.2.1, this.2.2]
  refine ⟨?_, ?_, ?_, ?_, ?_, ?_⟩
  · have := congrArg (Int.ofNat) e
    simpa using this.symm
  all_goals omega

/-- C19, consequence: ids assembled from different F, X, Y are different. -/
theorem C19_fxy_inj (f x y f' x' y' : Nat) (hx : x < 100) (hy : y < 1000) (hx' : x' < 100)
    (hy' : y' < 1000)
    (h : f * 100000 + x * 1000 + y = f' * 100000 + x' * 1000 + y') : f = f' ∧ x = x' ∧ y = y' := by
  omega

example : ID.F 301011 = 3 ∧ ID.X 301011 = 1 ∧ ID.Y 301011 = 11 := by decide

/-! ## C20 -/

/-- C20. The first group that knows the id answers. -/
theorem C20_first_match (gs : List (ID → Outcome Desc)) (g : ID → Outcome Desc)
    (hs : List (ID → Outcome Desc)) (id : ID) (d : Desc)
    (hb : ∀ g' ∈ gs, (g' id).isErr = true) (hg : g id = .ok d) :
    chainLookup (gs ++ g :: hs) id = .ok d := by
  induction gs with
  | nil => simp [chainLookup, hg]
  | cons a as ih =>
    have ha := hb a (by simp)
    simp only [List.cons_append, chainLookup]
    cases hx : a id <;> simp [hx, Outcome.isErr] at ha
    exact ih (fun g' h => hb g' (by simp [h]))

/-- C20. The chain fails iff every group fails (groups do not panic: `C21_total`). -/
theorem C20_fails_iff (gs : List (ID → Outcome Desc)) (id : ID)
    (ht : ∀ g ∈ gs, (g id).isOk = true ∨ (g id).isErr = true) :
    (chainLookup gs id).isErr = true ↔ ∀ g ∈ gs, (g id).isErr = true := by
  induction gs with
  | nil => simp [chainLookup, Outcome.isErr]
  | cons a as ih =>
    have ha := ht a (by simp)
    have ih := ih (fun g h => ht g (by simp [h]))
    simp only [chainLookup, List.mem_cons, forall_eq_or_imp]
    cases hx : a id <;> simp [hx, Outcome.isErr, Outcome.isOk] at ha ⊢
    exact ih

/-- C20, as used: local tables, added first, shadow the WMO tables. -/
theorem C20_local_shadows (l w : SingleGroup) (id : ID) (d : Desc) (h : l.lookup id = .ok d) :
    ChainGroup.lookup ⟨[l, w]⟩ id = .ok d := by
  simp [ChainGroup.lookup, chainLookup, h]

/-- C20. A group that was reset knows nothing. -/
theorem C20_reset (c : ChainGroup) (id : ID) :
    ∃ c', resetGroups c = (.ok (), c') ∧ (c'.lookup id).isErr = true := ⟨⟨[]⟩, rfl, rfl⟩

/-- C20. Tables added after a reset answer alone: what the group knew before is forgotten. -/
theorem C20_reset_add (t : Tables) (n : TableNum) (b : TableB) (d : TableD) (hb : t.getB n = .ok b) (hd : t.getD n = .ok d)
    (c : ChainGroup) :
    (do resetGroups; addSingleTableGroup t n) c = (.ok (), ⟨[⟨b, d⟩]⟩) := by
  have h1 : resetGroups c = (.ok (), ⟨[]⟩) := rfl
  rw [M.bind_ok h1]
  have h2 : newSingleTableGroup t n = .ok ⟨b, d⟩ := by simp [newSingleTableGroup, hb, hd]
  unfold addSingleTableGroup
  rw [M.bind_ok (show M.lift (newSingleTableGroup t n) (⟨[]⟩ : ChainGroup) = (.ok ⟨b, d⟩, ⟨[]⟩) by rw [h2]; rfl)]
  rfl

/-! ## C21 -/

/-- C21. Lookup in a group is total: a descriptor or an error. -/
theorem C21_total (g : SingleGroup) (id : ID) :
    (g.lookup id).isOk = true ∨ (g.lookup id).isErr = true := by
  unfold SingleGroup.lookup TableB.lookup TableD.lookup
  repeat' split
  all_goals simp [Outcome.isOk, Outcome.isErr]

/-- C21. Which table answers, by F. -/
theorem C21_routes (g : SingleGroup) (id : ID) :
    (id.F = 0 → ((∀ e, mapGet g.b.entries id = some e → g.lookup id = .ok ⟨id, .b e⟩) ∧
      (mapGet g.b.entries id = none → (g.lookup id).isErr = true))) ∧
    (id.F = 1 → ∃ n, g.lookup id = .ok ⟨id, .r n⟩) ∧
    (id.F = 2 → ∃ n, g.lookup id = .ok ⟨id, .c n⟩) ∧
    (id.F = 3 → ((∀ e, mapGet g.d.entries id = some e → g.lookup id = .ok ⟨id, .d e⟩) ∧
      (mapGet g.d.entries id = none → (g.lookup id).isErr = true))) ∧
    ((id.F < 0 ∨ 3 < id.F) → (g.lookup id).isErr = true) := by
  unfold SingleGroup.lookup TableB.lookup TableD.lookup
  refine ⟨fun h => ?_, fun h => ?_, fun h => ?_, fun h => ?_, fun h => ?_⟩
  · simp only [h, if_true]
    exact ⟨fun e he => by simp [he], fun he => by simp [he, Outcome.isErr]⟩
  · simp [h]
  · simp [h]
  · simp only [h]
    exact ⟨fun e he => by simp [he], fun he => by simp [he, Outcome.isErr]⟩
  · rw [if_neg (by omega), if_neg (by omega), if_neg (by omega), if_neg (by omega)]
    rfl

/-- C21. The descriptor returned has the id asked for and an entry of the kind its F demands. -/
theorem C21_lookup_id (g : SingleGroup) (id : ID) (d : Desc) (h : g.lookup id = .ok d) :
    d.id = id ∧ (id.F = 0 → ∃ e, d.entry = .b e) ∧ (id.F = 3 → ∃ e, d.entry = .d e) := by
  unfold SingleGroup.lookup TableB.lookup TableD.lookup at h
  repeat' split at h
  all_goals simp at h
  all_goals subst h
  all_goals simp_all

/-- C21 for chains. -/
theorem C21_chain_lookup_id (c : ChainGroup) (id : ID) (d : Desc) (h : c.lookup id = .ok d) :
    d.id = id ∧ (id.F = 0 → ∃ e, d.entry = .b e) ∧ (id.F = 3 → ∃ e, d.entry = .d e) := by
  obtain ⟨gs⟩ := c
  unfold ChainGroup.lookup at h
  induction gs with
  | nil => simp [chainLookup] at h
  | cons g gs ih =>
    simp only [List.map_cons, chainLookup] at h
    split at h
    · rename_i d' hd
      cases h
      exact C21_lookup_id g id d hd
    · exact ih h
    · cases h
    · cases h

/-! ## C25 -/

/-- The state after the groups `gs` have been appended. -/
def ChainGroup.plus (c : ChainGroup) (gs : List SingleGroup) : ChainGroup :=
  ⟨c.groups ++ gs⟩

/-- C25, the property as documented: local tables of the sub-centre, else of sub-centre 0, else
only the WMO tables. -/
def C25_statement : Prop :=
  ∀ (t : Tables) (m c s w l : Int) (wmo : SingleGroup) (g : ChainGroup),
    newSingleTableGroup t ⟨m, 0, 0, w⟩ = .ok wmo →
    (l = 0 → addLocalAndWmoTableGroups t m c s w l g = (.ok (), g.plus [wmo])) ∧
    (l ≠ 0 → (∀ lg, newSingleTableGroup t ⟨m, c, s, l⟩ = .ok lg →
      addLocalAndWmoTableGroups t m c s w l g = (.ok (), g.plus [lg, wmo]))) ∧
    (l ≠ 0 → newSingleTableGroup t ⟨m, c, s, l⟩ = .err .notExist →
      (∀ lg, newSingleTableGroup t ⟨m, c, 0, l⟩ = .ok lg →
        addLocalAndWmoTableGroups t m c s w l g = (.ok (), g.plus [lg, wmo])) ∧
      (newSingleTableGroup t ⟨m, c, 0, l⟩ = .err .notExist →
        addLocalAndWmoTableGroups t m c s w l g = (.ok (), g.plus [wmo])))

theorem addSingle_ok {t : Tables} {n : TableNum} {sg : SingleGroup} (g : ChainGroup)
    (h : newSingleTableGroup t n = .ok sg) : addSingleTableGroup t n g = (.ok (), g.plus [sg]) := by
  simp [addSingleTableGroup, M.bind_apply, h, ChainGroup.plus]

theorem addSingle_err {t : Tables} {n : TableNum} {e : Err} (g : ChainGroup)
    (h : newSingleTableGroup t n = .err e) : addSingleTableGroup t n g = (.err e, g) := by
  simp [addSingleTableGroup, M.bind_apply, h]

theorem plus_plus (g : ChainGroup) (a b : List SingleGroup) :
    (g.plus a).plus b = g.plus (a ++ b) := by simp [ChainGroup.plus]

/-- C25 (all but the last clause of `C25_statement`). Missing: falling back to the WMO tables
alone, which the code does not do (`C25_violates`). Also: any other failure is reported
and leaves the groups unchanged. -/
theorem C25_fallback_partial (t : Tables) (m c s w l : Int) (wmo : SingleGroup) (g : ChainGroup)
    (hw : newSingleTableGroup t ⟨m, 0, 0, w⟩ = .ok wmo) :
    (l = 0 → addLocalAndWmoTableGroups t m c s w l g = (.ok (), g.plus [wmo])) ∧
    (l ≠ 0 → (∀ lg, newSingleTableGroup t ⟨m, c, s, l⟩ = .ok lg →
      addLocalAndWmoTableGroups t m c s w l g = (.ok (), g.plus [lg, wmo]))) ∧
    (l ≠ 0 → newSingleTableGroup t ⟨m, c, s, l⟩ = .err .notExist →
      (∀ lg, newSingleTableGroup t ⟨m, c, 0, l⟩ = .ok lg →
        addLocalAndWmoTableGroups t m c s w l g = (.ok (), g.plus [lg, wmo]))) ∧
    (l ≠ 0 → ∀ e, newSingleTableGroup t ⟨m, c, s, l⟩ = .err e → e ≠ .notExist →
      addLocalAndWmoTableGroups t m c s w l g = (.err e, g)) := by
  refine ⟨fun hl => ?_, fun hl lg h1 => ?_, fun hl h1 lg h2 => ?_, fun hl e h1 he => ?_⟩
  · unfold addLocalAndWmoTableGroups
    rw [if_neg (by simpa using hl)]
    exact addSingle_ok g hw
  · unfold addLocalAndWmoTableGroups
    rw [if_pos hl]
    rw [M.handle_eq (addSingle_ok g h1)]
    show addSingleTableGroup t ⟨m, 0, 0, w⟩ (g.plus [lg]) = _
    rw [addSingle_ok _ hw, plus_plus]
    rfl
  · unfold addLocalAndWmoTableGroups
    rw [if_pos hl]
    rw [M.handle_eq (addSingle_err g h1)]
    show (addSingleTableGroup t ⟨m, c, 0, l⟩ >>= fun _ => addSingleTableGroup t ⟨m, 0, 0, w⟩) g = _
    rw [M.bind_ok (addSingle_ok g h2), addSingle_ok _ hw, plus_plus]
    rfl
  · unfold addLocalAndWmoTableGroups
    rw [if_pos hl]
    rw [M.handle_eq (addSingle_err g h1)]
    have : isNotExist e = false := by cases e <;> simp_all [isNotExist]
    simp [this]

/-- Non-vacuity and the shape of the result: a centre with tables for sub-centre 0 only. -/
example : addLocalAndWmoTableGroups
    ⟨fun n => if n.subCentre = 0 then .ok ⟨[], []⟩ else .err .notExist, fun _ => .ok ⟨[], []⟩⟩
    0 98 5 29 1 ⟨[]⟩ = (.ok (), ⟨[⟨⟨[], []⟩, ⟨[], []⟩⟩, ⟨⟨[], []⟩, ⟨[], []⟩⟩]⟩) := by decide

/-- C25 is violated: when no local table exists the documentation promises the WMO tables only,
but the code returns an error and loads nothing. -/
theorem C25_violates : ¬ C25_statement := by
  intro h
  have := ((h ⟨fun n => if n.centre = 0 then .ok ⟨[], []⟩ else .err .notExist,
      fun _ => .ok ⟨[], []⟩⟩ 0 98 5 29 1 ⟨⟨[], []⟩, ⟨[], []⟩⟩ ⟨[]⟩ (by decide)).2.2
    (by decide) (by decide)).2 (by decide)
  revert this
  decide

/-! ## C26 -/

section Load
set_option linter.unusedSectionVars false
variable {F : Type} [GoFloat F]

theorem strAt {r : List (Json F)} {i : Nat} {w : String} {x : GoString} :
    (recAt r i >>= asStr w) = .ok x ↔ r[i]? = some (.str x) := by
  unfold recAt
  cases r[i]? with
  | none => simp
  | some j => cases j <;> simp [asStr]

theorem numAt {r : List (Json F)} {i : Nat} {w : String} {x : F} :
    (recAt r i >>= asNum w) = .ok x ↔ r[i]? = some (.num x) := by
  unfold recAt
  cases r[i]? with
  | none => simp
  | some j => cases j <;> simp [asNum]

/-- C26. A table B record becomes an entry iff its first eight fields have the right kinds, and
the entry then carries exactly these fields. -/
theorem C26_bentry (record : List (Json F)) (e : Bentry) :
    recordToBentry record = .ok e ↔
      ∃ (n u cu : GoString) (sc rf nb cs cn : F) (rest : List (Json F)),
        record = [.str n, .str u, .num sc, .num rf, .num nb, .str cu, .num cs, .num cn] ++ rest ∧
        e = ⟨n, u, unitOf u, GoFloat.truncInt sc, GoFloat.truncInt rf, GoFloat.truncInt nb,
             cu, unitOf cu, GoFloat.truncInt cs, GoFloat.truncInt cn⟩ := by
  unfold recordToBentry
  simp only [Outcome.bind_eq_ok (f := fun _ => _ >>= _), Outcome.bind_eq_ok (f := fun _ => .ok _),
    strAt, numAt, Outcome.ok.injEq]
  constructor
  · rintro ⟨n, h0, u, h1, sc, h2, rf, h3, nb, h4, cu, h5, cs, h6, cn, h7, he⟩
    match record with
    | [] | [_] | [_, _] | [_, _, _] | [_, _, _, _] | [_, _, _, _, _] | [_, _, _, _, _, _]
    | [_, _, _, _, _, _, _] => simp at h7
    | a :: b :: c :: d :: f :: g :: i :: j :: rest =>
      simp only [List.getElem?_cons_zero, List.getElem?_cons_succ, Option.some.injEq]
        at h0 h1 h2 h3 h4 h5 h6 h7
      refine ⟨n, u, cu, sc, rf, nb, cs, cn, rest, ?_, he.symm⟩
      rw [h0, h1, h2, h3, h4, h5, h6, h7]; rfl
  · rintro ⟨n, u, cu, sc, rf, nb, cs, cn, rest, rfl, rfl⟩
    exact ⟨n, rfl, u, rfl, sc, rfl, rf, rfl, nb, rfl, cu, rfl, cs, rfl, cn, rfl, rfl⟩

theorem tame_bind {x : Outcome α} {f : α → Outcome β} (hx : x.isOk = true ∨ x.isErr = true)
    (hf : ∀ a, (f a).isOk = true ∨ (f a).isErr = true) :
    (x >>= f).isOk = true ∨ (x >>= f).isErr = true := by
  cases x <;> simp [Outcome.isOk, Outcome.isErr] at hx
  · exact hf _
  · exact .inr rfl

theorem tame_str {r : List (Json F)} {i : Nat} {w : String} (h : i < r.length) :
    (recAt r i >>= asStr w).isOk = true ∨ (recAt r i >>= asStr w).isErr = true := by
  unfold recAt
  rw [List.getElem?_eq_getElem h]
  cases r[i] <;> simp [asStr, Outcome.isOk, Outcome.isErr]

theorem tame_num {r : List (Json F)} {i : Nat} {w : String} (h : i < r.length) :
    (recAt r i >>= asNum w).isOk = true ∨ (recAt r i >>= asNum w).isErr = true := by
  unfold recAt
  rw [List.getElem?_eq_getElem h]
  cases r[i] <;> simp [asNum, Outcome.isOk, Outcome.isErr]

/-- C26. A record with at least eight fields never panics: it is an entry or an error. -/
theorem C26_bentry_total (record : List (Json F)) (h : 8 ≤ record.length) :
    (recordToBentry record).isOk = true ∨ (recordToBentry record).isErr = true := by
  unfold recordToBentry
  refine tame_bind (tame_str (by omega)) fun _ => tame_bind (tame_str (by omega)) fun _ =>
    tame_bind (tame_num (by omega)) fun _ => tame_bind (tame_num (by omega)) fun _ =>
    tame_bind (tame_num (by omega)) fun _ => tame_bind (tame_str (by omega)) fun _ =>
    tame_bind (tame_num (by omega)) fun _ => tame_bind (tame_num (by omega)) fun _ => .inl rfl

/-- The kinds of the fields of a table B record. -/
def bKinds : List (Json F → Bool) :=
  let isStr : Json F → Bool := fun j => match j with | .str _ => true | _ => false
  let isNum : Json F → Bool := fun j => match j with | .num _ => true | _ => false
  [isStr, isStr, isNum, isNum, isNum, isStr, isNum, isNum]

/-- C26. A record with a wrongly typed field is an error, however long the record is: fields are looked at one after
the other, and one that is not there is noticed after one before it that is wrong. -/
theorem C26_wrong_type (record : List (Json F)) (i : Nat) (j : Json F) (kind : Json F → Bool) (hk : bKinds[i]? = some kind)
    (hj : record[i]? = some j) (h : kind j = false) : (recordToBentry record).isErr = true := by
  have hl : i < record.length := (List.getElem?_eq_some_iff.1 hj).1
  have hi : i < 8 := (List.getElem?_eq_some_iff.1 hk).1
  have step : ∀ {α β : Type} {m : Outcome α} {k : α → Outcome β},
      (m.isErr = true ∨ ∃ a, m = .ok a) → ((∃ a, m = .ok a) → ∀ a, (k a).isErr = true) → (m >>= k).isErr = true := by
    intro α β m k h1 h2
    rcases h1 with h1 | ⟨a, ha⟩
    · cases m <;> first | rfl | cases h1
    · subst ha; exact h2 ⟨a, rfl⟩ a
  have stop : ∀ {α β : Type} {m : Outcome α} {k : α → Outcome β}, m.isErr = true → (m >>= k).isErr = true := by
    intro α β m k h1
    cases m <;> first | rfl | cases h1
  have ts : ∀ {n : Nat} {w : String}, n < record.length →
      ((recAt record n >>= asStr w).isErr = true ∨ ∃ a, (recAt record n >>= asStr w) = .ok a) := by
    intro n w hn
    unfold recAt
    rw [List.getElem?_eq_getElem hn]
    cases record[n] <;> simp [asStr, Outcome.isErr]
  have tn : ∀ {n : Nat} {w : String}, n < record.length →
      ((recAt record n >>= asNum w).isErr = true ∨ ∃ a, (recAt record n >>= asNum w) = .ok a) := by
    intro n w hn
    unfold recAt
    rw [List.getElem?_eq_getElem hn]
    cases record[n] <;> simp [asNum, Outcome.isErr]
  unfold recordToBentry
  match i, hi with
  | 0, _ =>
    cases hk
    refine stop ?_
    unfold recAt; rw [hj]
    cases j <;> first | rfl | cases h
  | 1, _ =>
    cases hk
    refine step (ts (by omega)) fun _ _ => stop ?_
    unfold recAt; rw [hj]
    cases j <;> first | rfl | cases h
  | 2, _ =>
    cases hk
    refine step (ts (by omega)) fun _ _ => step (ts (by omega)) fun _ _ => stop ?_
    unfold recAt; rw [hj]
    cases j <;> first | rfl | cases h
  | 3, _ =>
    cases hk
    refine step (ts (by omega)) fun _ _ => step (ts (by omega)) fun _ _ => step (tn (by omega)) fun _ _ => stop ?_
    unfold recAt; rw [hj]
    cases j <;> first | rfl | cases h
  | 4, _ =>
    cases hk
    refine step (ts (by omega)) fun _ _ => step (ts (by omega)) fun _ _ => step (tn (by omega)) fun _ _ =>
      step (tn (by omega)) fun _ _ => stop ?_
    unfold recAt; rw [hj]
    cases j <;> first | rfl | cases h
  | 5, _ =>
    cases hk
    refine step (ts (by omega)) fun _ _ => step (ts (by omega)) fun _ _ => step (tn (by omega)) fun _ _ =>
      step (tn (by omega)) fun _ _ => step (tn (by omega)) fun _ _ => stop ?_
    unfold recAt; rw [hj]
    cases j <;> first | rfl | cases h
  | 6, _ =>
    cases hk
    refine step (ts (by omega)) fun _ _ => step (ts (by omega)) fun _ _ => step (tn (by omega)) fun _ _ =>
      step (tn (by omega)) fun _ _ => step (tn (by omega)) fun _ _ => step (ts (by omega)) fun _ _ => stop ?_
    unfold recAt; rw [hj]
    cases j <;> first | rfl | cases h
  | 7, _ =>
    cases hk
    refine step (ts (by omega)) fun _ _ => step (ts (by omega)) fun _ _ => step (tn (by omega)) fun _ _ =>
      step (tn (by omega)) fun _ _ => step (tn (by omega)) fun _ _ => step (ts (by omega)) fun _ _ =>
      step (tn (by omega)) fun _ _ => stop ?_
    unfold recAt; rw [hj]
    cases j <;> first | rfl | cases h

/-- C26. The same for table D: the name must be a text and the members a list. -/
theorem C26_wrong_type_d (record : List (Json F)) (j : Json F)
    (h : (record[0]? = some j ∧ ∀ s, j ≠ .str s) ∨ (1 < record.length ∧ record[1]? = some j ∧ ∀ l, j ≠ .arr l)) :
    (recordToDentry record).isErr = true := by
  unfold recordToDentry recAt
  rcases h with ⟨h, hj⟩ | ⟨hl, h, hj⟩
  · rw [h]
    cases j <;> first | rfl | exact absurd rfl (hj _)
  · rw [List.getElem?_eq_getElem (by omega : 0 < record.length), h]
    cases record[0] <;> first
      | rfl
      | (cases j <;> first | rfl | exact absurd rfl (hj _))

/-- A record of three fields, the last of the wrong kind. -/
example (n u s : GoString) : (recordToBentry [Json.str (F := F) n, .str u, .str s]).isErr = true :=
  C26_wrong_type _ 2 (.str s) _ rfl rfl rfl

/-- C26 is violated for short records: a record that ends early makes the load panic instead of
failing with an error. -/
theorem C26_short_record_panics (n u : GoString) :
    (recordToBentry [Json.str (F := F) n, Json.str u]).isPanic = true := rfl

theorem memberIds_ok (l : List (Json F)) (ids : List ID) :
    memberIds l = .ok ids ↔ ∃ ss : List GoString, l = ss.map Json.str ∧
      ss.map atoi = ids.map Outcome.ok := by
  induction l generalizing ids with
  | nil =>
    constructor
    · intro h; cases h; exact ⟨[], rfl, rfl⟩
    · rintro ⟨ss, h1, h2⟩
      have : ss = [] := by simpa using h1.symm
      subst this
      cases ids with
      | nil => rfl
      | cons a b => simp at h2
  | cons j js ih =>
    simp only [memberIds]
    constructor
    · intro h
      cases j with
      | str s =>
        simp only [asStr, Outcome.bind_ok] at h
        rw [Outcome.bind_eq_ok] at h
        obtain ⟨id, h1, h⟩ := h
        rw [Outcome.bind_eq_ok] at h
        obtain ⟨ids', h2, h⟩ := h
        cases h
        obtain ⟨ss, e1, e2⟩ := (ih ids').mp h2
        exact ⟨s :: ss, by simp [e1], by simp [h1, e2]⟩
      | _ => simp [asStr] at h
    · rintro ⟨ss, h1, h2⟩
      cases ss with
      | nil => simp at h1
      | cons s ss =>
        cases ids with
        | nil => simp at h2
        | cons id ids =>
          simp only [List.map_cons, List.cons.injEq] at h1 h2
          rw [h1.1]
          simp [asStr, h2.1, (ih ids).mpr ⟨ss, h1.2, h2.2⟩]

/-- C26. A table D record becomes an entry iff it is a name and a list of decimal ids; the
members are these ids in order. -/
theorem C26_dentry (record : List (Json F)) (e : Dentry) :
    recordToDentry record = .ok e ↔
      ∃ (n : GoString) (ss : List GoString) (rest : List (Json F)),
        record = .str n :: .arr (ss.map Json.str) :: rest ∧
        e.name = n ∧ ss.map atoi = e.members.map Outcome.ok := by
  constructor
  · intro h
    unfold recordToDentry at h
    match record with
    | [] => simp [recAt] at h
    | [a] => cases a <;> simp [recAt, asStr] at h
    | a :: b :: rest =>
      cases a <;> cases b <;> simp [recAt, asStr, asArr] at h
      rename_i n l
      rw [Outcome.bind_eq_ok] at h
      obtain ⟨ids, h1, h2⟩ := h
      obtain ⟨ss, e1, e2⟩ := (memberIds_ok l ids).mp h1
      cases h2
      exact ⟨n, ss, rest, by rw [e1], rfl, e2⟩
  · rintro ⟨n, ss, rest, rfl, h1, h2⟩
    obtain ⟨en, em⟩ := e
    simp only at h1 h2
    subst h1
    simp [recordToDentry, recAt, asStr, asArr, (memberIds_ok _ em).mpr ⟨ss, rfl, h2⟩]

/-- The number that decimal digits stand for. -/
def numeral (digits : GoString) : Nat := digits.foldl (fun n c => 10 * n + (c.toNat - 48)) 0

/-- C26, the numbers in table files: the keys and the members are read as numbers exactly if they are decimal digits, at least one, with a
sign or none, and the number fits into 64 bits. -/
theorem C26_number (s : GoString) (i : Int) : atoi s = .ok i ↔ ∃ (sign digits : GoString), s = sign ++ digits ∧ digits ≠ [] ∧
    (∀ c ∈ digits, ch '0' ≤ c ∧ c ≤ ch '9') ∧ -2 ^ 63 ≤ i ∧ i ≤ 2 ^ 63 - 1 ∧
    ((sign = [] ∨ sign = str "+") ∧ i = numeral digits ∨ sign = str "-" ∧ i = -(numeral digits : Int)) := by
  have dig : ∀ (l : GoString) (acc n : Nat), atoiDigits l acc = some n ↔
      (∀ c ∈ l, ch '0' ≤ c ∧ c ≤ ch '9') ∧ n = l.foldl (fun n c => 10 * n + (c.toNat - 48)) acc := by
    intro l
    induction l with
    | nil => intro acc n; simp [atoiDigits, eq_comm]
    | cons c l ih =>
      intro acc n
      have hc : (48 ≤ c.toNat ∧ c.toNat ≤ 57) ↔ (ch '0' ≤ c ∧ c ≤ ch '9') := by
        rw [UInt8.le_iff_toNat_le, UInt8.le_iff_toNat_le]
        exact Iff.rfl
      simp only [atoiDigits]
      split
      · rename_i h
        rw [ih, Nat.mul_comm acc 10]
        simp only [List.mem_cons, forall_eq_or_imp, List.foldl_cons]
        exact ⟨fun ⟨a, b⟩ => ⟨⟨hc.1 h, a⟩, b⟩, fun ⟨a, b⟩ => ⟨a.2, b⟩⟩
      · rename_i h
        simp only [List.mem_cons, forall_eq_or_imp, reduceCtorEq, false_iff]
        exact fun ⟨a, _⟩ => h (hc.2 a.1)
  have main : ∀ (neg : Bool) (l : GoString), (if l = [] then Outcome.err (.msg "invalid syntax") else match atoiDigits l 0 with
      | none => .err (.msg "invalid syntax")
      | some n => checkInt64 (if neg then -(n : Int) else n)) = .ok i ↔ l ≠ [] ∧ (∀ c ∈ l, ch '0' ≤ c ∧ c ≤ ch '9') ∧
      -2 ^ 63 ≤ i ∧ i ≤ 2 ^ 63 - 1 ∧ i = if neg then -(numeral l : Int) else numeral l := by
    intro neg l
    by_cases hl : l = []
    · simp [hl]
    · rw [if_neg hl]
      cases hn : atoiDigits l 0 with
      | none =>
        simp only [reduceCtorEq, false_iff]
        rintro ⟨-, h, -⟩
        rw [(dig l 0 _).2 ⟨h, rfl⟩] at hn
        cases hn
      | some n =>
        obtain ⟨h1, h2⟩ := (dig l 0 n).1 hn
        have h2 : n = numeral l := h2
        subst h2
        simp only [checkInt64]
        generalize (if neg then -(numeral l : Int) else numeral l) = j
        split
        · rename_i h
          constructor
          · intro e
            cases e
            exact ⟨hl, h1, by omega, by omega, rfl⟩
          · rintro ⟨-, -, -, -, rfl⟩
            rfl
        · rename_i h
          simp only [reduceCtorEq, false_iff]
          rintro ⟨-, -, a, b, rfl⟩
          exact h ⟨by omega, by omega⟩
  have notsign : ∀ (l : GoString), (∀ c ∈ l, ch '0' ≤ c ∧ c ≤ ch '9') → l ≠ [] → atoiSign l = (false, l) := by
    intro l h hl
    cases l with
    | nil => exact absurd rfl hl
    | cons c l =>
      have hc := h c (by simp)
      have h1 : c ≠ ch '-' := by intro h; rw [h] at hc; revert hc; decide
      have h2 : c ≠ ch '+' := by intro h; rw [h] at hc; revert hc; decide
      simp only [atoiSign, if_neg h1, if_neg h2]
  refine Iff.trans (main (atoiSign s).1 (atoiSign s).2) ?_
  constructor
  · rintro ⟨h1, h2, h3, h4, h5⟩
    cases s with
    | nil => exact absurd rfl h1
    | cons c cs =>
      have hs : atoiSign (c :: cs) = if c = ch '-' then (true, cs) else if c = ch '+' then (false, cs) else (false, c :: cs) := rfl
      generalize atoiSign (c :: cs) = x at hs h1 h2 h5
      split at hs
      · rename_i hc
        subst hs
        exact ⟨str "-", cs, by rw [hc]; rfl, h1, h2, h3, h4, .inr ⟨rfl, h5⟩⟩
      · split at hs
        · rename_i hc
          subst hs
          exact ⟨str "+", cs, by rw [hc]; rfl, h1, h2, h3, h4, .inl ⟨.inr rfl, h5⟩⟩
        · subst hs
          exact ⟨[], c :: cs, rfl, h1, h2, h3, h4, .inl ⟨.inl rfl, h5⟩⟩
  · rintro ⟨sign, digits, rfl, h1, h2, h3, h4, ⟨rfl | rfl, h5⟩ | ⟨rfl, h5⟩⟩
    · rw [List.nil_append, notsign digits h2 h1]
      exact ⟨h1, h2, h3, h4, h5⟩
    · have : atoiSign (str "+" ++ digits) = (false, digits) := rfl
      rw [this]
      exact ⟨h1, h2, h3, h4, h5⟩
    · have : atoiSign (str "-" ++ digits) = (true, digits) := rfl
      rw [this]
      exact ⟨h1, h2, h3, h4, h5⟩

example : atoi (str "-9223372036854775808") = .ok (-2 ^ 63) ∧ atoi (str "+012001") = .ok 12001 ∧
    ∀ i, atoi (str "9223372036854775808") ≠ .ok i ∧ atoi (str "12 001") ≠ .ok i ∧ atoi (str "-") ≠ .ok i := by
  refine ⟨by decide, by decide, fun i => ⟨?_, ?_, ?_⟩⟩
  · have : atoi (str "9223372036854775808") = .err (.msg "value out of range") := by decide
    rw [this]; exact nofun
  · have : atoi (str "12 001") = .err (.msg "invalid syntax") := by decide
    rw [this]; exact nofun
  · have : atoi (str "-") = .err (.msg "invalid syntax") := by decide
    rw [this]; exact nofun

/-- The six digit form of an id, as used in table files, is read back as that id. -/
theorem C26_id_text (n : Nat) (h : n < 2 ^ 63) : atoi (pad06 n) = .ok (n : Int) := atoi_pad06 n h

example : recordToDentry (F := ToyFloat) [.str (str "S"), .arr [.str (str "001001"), .str (str "102002")]]
    = .ok ⟨str "S", [1001, 102002]⟩ := by decide

/-- What loading has stored, in order of loading. -/
theorem loadRecords_ok {E : Type} (conv : List (Json F) → Outcome E)
    (rs : List (GoString × List (Json F))) (m0 m : List (ID × E))
    (h : loadRecords conv rs m0 = .ok m) :
    ∃ kvs : List (ID × E), m = kvs.reverse ++ m0 ∧
      rs.map (fun r => (atoi r.1, conv r.2)) = kvs.map (fun p => (Outcome.ok p.1, Outcome.ok p.2)) := by
  induction rs generalizing m0 with
  | nil => cases h; exact ⟨[], rfl, rfl⟩
  | cons r rs ih =>
    obtain ⟨key, record⟩ := r
    simp only [loadRecords] at h
    rw [Outcome.bind_eq_ok] at h
    obtain ⟨id, h1, h⟩ := h
    rw [Outcome.bind_eq_ok] at h
    obtain ⟨e, h2, h⟩ := h
    obtain ⟨kvs, e1, e2⟩ := ih _ h
    refine ⟨(id, e) :: kvs, ?_, ?_⟩
    · rw [e1]; simp [mapSet]
    · have h1' : atoi key = .ok id := by
        cases hk : atoi key <;> simp [hk, Outcome.wrapErr] at h1 ⊢; exact h1
      have h2' : conv record = .ok e := by
        cases hk : conv record <;> simp [hk, Outcome.wrapErr] at h2 ⊢; exact h2
      simp [e2, h1', h2']

theorem loadRecords_ok_of {E : Type} (conv : List (Json F) → Outcome E)
    (rs : List (GoString × List (Json F))) (m0 : List (ID × E))
    (h : ∀ r ∈ rs, (∃ id, atoi r.1 = .ok id) ∧ ∃ e, conv r.2 = .ok e) :
    ∃ m, loadRecords conv rs m0 = .ok m := by
  induction rs generalizing m0 with
  | nil => exact ⟨m0, rfl⟩
  | cons r rs ih =>
    obtain ⟨key, record⟩ := r
    obtain ⟨⟨id, h1⟩, e, h2⟩ := h (key, record) (by simp)
    simp only at h1 h2
    obtain ⟨m, hm⟩ := ih (mapSet m0 id e) (fun r hr => h r (by simp [hr]))
    exact ⟨m, by simp [loadRecords, h1, h2, Outcome.wrapErr, hm]⟩

/-- C26. A table loads iff every key is an id and every record is well formed: nothing is
skipped. -/
theorem C26_load_all_or_nothing {E : Type} (conv : List (Json F) → Outcome E)
    (rs : List (GoString × List (Json F))) :
    (∃ m, loadRecords conv rs [] = .ok m) ↔
      ∀ r ∈ rs, (∃ id, atoi r.1 = .ok id) ∧ ∃ e, conv r.2 = .ok e := by
  constructor
  · rintro ⟨m, h⟩ r hr
    obtain ⟨kvs, _, e2⟩ := loadRecords_ok conv rs [] m h
    have : (atoi r.1, conv r.2) ∈ kvs.map (fun p => (Outcome.ok p.1, Outcome.ok p.2)) := by
      rw [← e2]; exact List.mem_map.mpr ⟨r, hr, rfl⟩
    obtain ⟨p, _, hp⟩ := List.mem_map.mp this
    simp only [Prod.mk.injEq] at hp
    exact ⟨⟨p.1, hp.1.symm⟩, p.2, hp.2.symm⟩
  · exact loadRecords_ok_of conv rs []

/-- C26. When the keys denote different ids, the loaded table answers for an id with the entry
of its record, and for nothing else. -/
theorem C26_load_content {E : Type} (conv : List (Json F) → Outcome E)
    (rs : List (GoString × List (Json F))) (m : List (ID × E))
    (h : loadRecords conv rs [] = .ok m) (hd : (rs.map (fun r => atoi r.1)).Nodup)
    (id : ID) (e : E) :
    mapGet m id = some e ↔ ∃ r ∈ rs, atoi r.1 = .ok id ∧ conv r.2 = .ok e := by
  obtain ⟨kvs, e1, e2⟩ := loadRecords_ok conv rs [] m h
  have hmem : (id, e) ∈ kvs ↔ ∃ r ∈ rs, atoi r.1 = .ok id ∧ conv r.2 = .ok e := by
    constructor
    · intro hm
      have : (Outcome.ok id, Outcome.ok e) ∈ rs.map (fun r => (atoi r.1, conv r.2)) := by
        rw [e2]; exact List.mem_map.mpr ⟨_, hm, rfl⟩
      obtain ⟨r, hr, he⟩ := List.mem_map.mp this
      simp only [Prod.mk.injEq] at he
      exact ⟨r, hr, he⟩
    · rintro ⟨r, hr, h1, h2⟩
      have : (atoi r.1, conv r.2) ∈ kvs.map (fun p => (Outcome.ok p.1, Outcome.ok p.2)) := by
        rw [← e2]; exact List.mem_map.mpr ⟨r, hr, rfl⟩
      obtain ⟨p, hp, he⟩ := List.mem_map.mp this
      simp only [h1, h2, Prod.mk.injEq, Outcome.ok.injEq] at he
      obtain ⟨p1, p2⟩ := p
      simp only at he
      rw [← he.1, ← he.2]; exact hp
  have hnd : (kvs.map Prod.fst).Nodup := by
    have h3 : rs.map (fun r => atoi r.1) = (kvs.map Prod.fst).map Outcome.ok := by
      have := congrArg (List.map Prod.fst) e2
      simpa [List.map_map, Function.comp_def] using this
    rw [h3] at hd
    exact nodup_of_map hd
  have hnd' : (m.map Prod.fst).Nodup := by
    rw [e1, List.append_nil, List.map_reverse]
    exact (List.reverse_perm _).nodup_iff.mpr hnd
  rw [← hmem]
  constructor
  · intro hg
    have := mapGet_some_mem hg
    rw [e1] at this
    simpa using this
  · intro hm
    exact mapGet_of_mem hnd' (by rw [e1]; simpa using hm)

/-- C26. The order in which Go iterates over the record map does not matter (when the keys denote
different ids). -/
theorem C26_load_order {E : Type} (conv : List (Json F) → Outcome E)
    (rs rs' : List (GoString × List (Json F))) (m : List (ID × E)) (hp : rs.Perm rs')
    (h : loadRecords conv rs [] = .ok m) (hd : (rs.map (fun r => atoi r.1)).Nodup) :
    ∃ m', loadRecords conv rs' [] = .ok m' ∧ ∀ id, mapGet m' id = mapGet m id := by
  have hall := (C26_load_all_or_nothing conv rs).mp ⟨m, h⟩
  obtain ⟨m', h'⟩ := (C26_load_all_or_nothing conv rs').mpr
    (fun r hr => hall r (hp.mem_iff.mpr hr))
  refine ⟨m', h', fun id => ?_⟩
  have hd' : (rs'.map (fun r => atoi r.1)).Nodup := (hp.map _).nodup_iff.mp hd
  have key : ∀ e, mapGet m' id = some e ↔ mapGet m id = some e := by
    intro e
    rw [C26_load_content conv rs m h hd, C26_load_content conv rs' m' h' hd']
    exact ⟨fun ⟨r, hr, x⟩ => ⟨r, hp.mem_iff.mpr hr, x⟩, fun ⟨r, hr, x⟩ => ⟨r, hp.mem_iff.mp hr, x⟩⟩
  cases h1 : mapGet m' id with
  | some e => exact ((key e).mp h1).symm
  | none =>
    cases h2 : mapGet m id with
    | none => rfl
    | some e => rw [(key e).mpr h2] at h1; cases h1

/-- C26. Table B from a file: it is loaded iff the file is read, every key is an id and every record an entry, and looking up
an id then finds the entry of its record and nothing else (when the keys denote different ids). -/
theorem C26_table_b (disk : Disk F) (path : GoString) (rs : List (GoString × List (Json F))) (h : disk path = .ok rs) :
    ((∃ t, loadTableB disk path = .ok t) ↔ ∀ r ∈ rs, (∃ id, atoi r.1 = .ok id) ∧ ∃ e, recordToBentry r.2 = .ok e) ∧
    ∀ t, loadTableB disk path = .ok t → (rs.map (fun r => atoi r.1)).Nodup → ∀ id d,
      t.lookup id = .ok d ↔ ∃ r ∈ rs, ∃ e, atoi r.1 = .ok id ∧ recordToBentry r.2 = .ok e ∧ d = ⟨id, .b e⟩ := by
  constructor
  · rw [← C26_load_all_or_nothing]
    unfold loadTableB
    rw [h, Outcome.bind_ok]
    cases loadRecords recordToBentry rs [] <;> simp
  · intro t ht hd id d
    unfold loadTableB at ht
    rw [h, Outcome.bind_ok] at ht
    cases e1 : loadRecords recordToBentry rs [] with
    | ok m =>
      rw [e1, Outcome.bind_ok] at ht
      injection ht with ht
      subst ht
      have key := C26_load_content recordToBentry rs m e1 hd id
      unfold TableB.lookup
      simp only
      cases e2 : mapGet m id with
      | some x =>
        constructor
        · intro e
          injection e with e
          obtain ⟨r, hr, h1, h2⟩ := (key x).mp e2
          exact ⟨r, hr, x, h1, h2, e.symm⟩
        · rintro ⟨r, hr, x', h1, h2, rfl⟩
          have := (key x').mpr ⟨r, hr, h1, h2⟩
          rw [e2] at this
          injection this with this
          rw [this]
      | none =>
        constructor
        · intro e; cases e
        · rintro ⟨r, hr, x', h1, h2, rfl⟩
          have := (key x').mpr ⟨r, hr, h1, h2⟩
          rw [e2] at this
          cases this
    | err w => rw [e1] at ht; cases ht
    | panic w => rw [e1] at ht; cases ht
    | diverge => rw [e1] at ht; cases ht

/-- C26. The same for Table D. -/
theorem C26_table_d (disk : Disk F) (path : GoString) (rs : List (GoString × List (Json F))) (h : disk path = .ok rs) :
    ((∃ t, loadTableD disk path = .ok t) ↔ ∀ r ∈ rs, (∃ id, atoi r.1 = .ok id) ∧ ∃ e, recordToDentry r.2 = .ok e) ∧
    ∀ t, loadTableD disk path = .ok t → (rs.map (fun r => atoi r.1)).Nodup → ∀ id d,
      t.lookup id = .ok d ↔ ∃ r ∈ rs, ∃ e, atoi r.1 = .ok id ∧ recordToDentry r.2 = .ok e ∧ d = ⟨id, .d e⟩ := by
  constructor
  · rw [← C26_load_all_or_nothing]
    unfold loadTableD
    rw [h, Outcome.bind_ok]
    cases loadRecords recordToDentry rs [] <;> simp
  · intro t ht hd id d
    unfold loadTableD at ht
    rw [h, Outcome.bind_ok] at ht
    cases e1 : loadRecords recordToDentry rs [] with
    | ok m =>
      rw [e1, Outcome.bind_ok] at ht
      injection ht with ht
      subst ht
      have key := C26_load_content recordToDentry rs m e1 hd id
      unfold TableD.lookup
      simp only
      cases e2 : mapGet m id with
      | some x =>
        constructor
        · intro e
          injection e with e
          obtain ⟨r, hr, h1, h2⟩ := (key x).mp e2
          exact ⟨r, hr, x, h1, h2, e.symm⟩
        · rintro ⟨r, hr, x', h1, h2, rfl⟩
          have := (key x').mpr ⟨r, hr, h1, h2⟩
          rw [e2] at this
          injection this with this
          rw [this]
      | none =>
        constructor
        · intro e; cases e
        · rintro ⟨r, hr, x', h1, h2, rfl⟩
          have := (key x').mpr ⟨r, hr, h1, h2⟩
          rw [e2] at this
          cases this
    | err w => rw [e1] at ht; cases ht
    | panic w => rw [e1] at ht; cases ht
    | diverge => rw [e1] at ht; cases ht

/-- C26. A table remembers where it was loaded from. -/
theorem C26_path (disk : Disk F) (path : GoString) :
    (∀ t, loadTableB disk path = .ok t → t.path = path) ∧ ∀ t, loadTableD disk path = .ok t → t.path = path := by
  constructor
  · intro t h
    unfold loadTableB at h
    obtain ⟨rs, _, h⟩ := Outcome.bind_eq_ok.1 h
    obtain ⟨m, _, h⟩ := Outcome.bind_eq_ok.1 h
    cases h
    rfl
  · intro t h
    unfold loadTableD at h
    obtain ⟨rs, _, h⟩ := Outcome.bind_eq_ok.1 h
    obtain ⟨m, _, h⟩ := Outcome.bind_eq_ok.1 h
    cases h
    rfl

/-- Non-vacuity: a Table D of two sequences is loaded, and one of them is found. -/
example : (match loadTableD (F := ToyFloat) (fun _ => .ok [(str "301001", [.str (str "a"), .arr [.str (str "001001")]]),
      (str "301011", [.str (str "b"), .arr []])]) (str "x") with
    | .ok t => decide (t.lookup 301001 = .ok ⟨301001, .d ⟨str "a", [1001]⟩⟩)
    | _ => false) = true := by decide +kernel

/-- Keys that are different strings but denote the same id make the loaded table depend on the
iteration order of the Go map. -/
theorem C26_ambiguous_keys :
    ∃ (rs rs' : List (GoString × List (Json ToyFloat))) (m m' : List (ID × Dentry)),
      rs.Perm rs' ∧ (rs.map Prod.fst).Nodup ∧
      loadRecords recordToDentry rs [] = .ok m ∧ loadRecords recordToDentry rs' [] = .ok m' ∧
      mapGet m 301001 ≠ mapGet m' 301001 := by
  refine ⟨[(str "301001", [.str (str "a"), .arr []]), (str "0301001", [.str (str "b"), .arr []])],
    [(str "0301001", [.str (str "b"), .arr []]), (str "301001", [.str (str "a"), .arr []])],
    [(301001, ⟨str "b", []⟩), (301001, ⟨str "a", []⟩)],
    [(301001, ⟨str "a", []⟩), (301001, ⟨str "b", []⟩)], List.Perm.swap _ _ _, ?_, ?_, ?_, ?_⟩
  all_goals decide

end Load

/-! ## C27 -/

/-- C27. -/
theorem C27_units (s : GoString) :
    (unitOf s = .string ↔ s = str "CCITT IA5" ∨ s = str "Character") ∧
    (unitOf s = .flag ↔ s = str "FLAG TABLE") ∧
    (unitOf s = .nonnegCode ↔ s = str "CODE TABLE" ∨ ∃ t, s = str "Common CODE TABLE" ++ t) ∧
    (unitOf s = .numeric ↔ s ≠ str "CCITT IA5" ∧ s ≠ str "Character" ∧ s ≠ str "FLAG TABLE" ∧
      s ≠ str "CODE TABLE" ∧ ¬ ∃ t, s = str "Common CODE TABLE" ++ t) ∧
    unitOf s ≠ .code ∧ unitOf s ≠ .binary := by
  have hp : hasPrefix s (str "Common CODE TABLE") = true ↔ ∃ t, s = str "Common CODE TABLE" ++ t := by
    unfold hasPrefix
    rw [List.isPrefixOf_iff_prefix]
    exact ⟨fun ⟨t, ht⟩ => ⟨t, ht.symm⟩, fun ⟨t, ht⟩ => ⟨t, ht.symm⟩⟩
  have d1 : ∀ t, str "CCITT IA5" ≠ str "Common CODE TABLE" ++ t := by
    intro t h; exact absurd (congrArg (fun l => l.head? == some (ch 'F') || l[1]? == some (ch 'C') || l[1]? == some (ch 'h')) h) (by simp [str, ch])
  have d2 : ∀ t, str "Character" ≠ str "Common CODE TABLE" ++ t := by
    intro t h; exact absurd (congrArg (fun l => l.head? == some (ch 'F') || l[1]? == some (ch 'C') || l[1]? == some (ch 'h')) h) (by simp [str, ch])
  have d3 : ∀ t, str "FLAG TABLE" ≠ str "Common CODE TABLE" ++ t := by
    intro t h; exact absurd (congrArg (fun l => l.head? == some (ch 'F') || l[1]? == some (ch 'C') || l[1]? == some (ch 'h')) h) (by simp [str, ch])
  unfold unitOf
  by_cases h1 : s = str "CCITT IA5" ∨ s = str "Character"
  · rw [if_pos h1]
    rcases h1 with rfl | rfl
    · refine ⟨?_, ?_, ?_, ?_, ?_, ?_⟩ <;> simp [d1] <;> decide
    · refine ⟨?_, ?_, ?_, ?_, ?_, ?_⟩ <;> simp [d2] <;> decide
  · rw [if_neg h1]
    by_cases h2 : s = str "FLAG TABLE"
    · rw [if_pos h2]
      subst h2
      refine ⟨?_, ?_, ?_, ?_, ?_, ?_⟩ <;> simp [d3] <;> decide
    · rw [if_neg h2]
      by_cases h3 : s = str "CODE TABLE" ∨ hasPrefix s (str "Common CODE TABLE") = true
      · rw [if_pos h3]
        rw [hp] at h3
        simp only [not_or] at h1
        refine ⟨by simp [h1], by simp [h2], by simp [h3], ?_, by simp, by simp⟩
        simp only [reduceCtorEq, false_iff]
        rintro ⟨_, _, _, h4, h5⟩
        exact h3.elim h4 h5
      · rw [if_neg h3]
        rw [hp] at h3
        simp only [not_or] at h1 h3
        exact ⟨by simp [h1], by simp [h2], by simp [h3], by simp [h1, h2, h3], by simp, by simp⟩

example : unitOf (str "Common CODE TABLE C-1") = .nonnegCode ∧ unitOf (str "m/s") = .numeric := by
  decide

/-! ## C81 -/

/-- C81. Under one base path, different table numbers or table names never share a path, hence
never a cache entry. -/
theorem C81_paths_distinct (base : GoString) (n m : TableNum) (a b : GoString)
    (h : composeTablePath base n a = composeTablePath base m b) : n = m ∧ a = b := by
  unfold composeTablePath at h
  have h := List.append_cancel_left h
  obtain ⟨h1, h⟩ := cut_unique (itoa_no_slash _) (itoa_no_slash _) h
  obtain ⟨h2, h⟩ := cut_unique (itoa_no_slash _) (itoa_no_slash _) h
  obtain ⟨h3, h⟩ := cut_unique (itoa_no_slash _) (itoa_no_slash _) h
  obtain ⟨h4, h⟩ := cut_unique (itoa_no_slash _) (itoa_no_slash _) h
  refine ⟨?_, h⟩
  cases n; cases m
  simp only [TableNum.mk.injEq]
  exact ⟨itoa_inj h1, itoa_inj h2, itoa_inj h3, itoa_inj h4⟩

example : composeTablePath (str "t/") ⟨0, 98, 0, 1⟩ (str "TableB.json")
    = str "t/0/98/0/1/TableB.json" := by decide

end Gobufr
