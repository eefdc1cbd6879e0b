import Verif.Spec.Parser
import Verif.Proofs.Template

/-!
# The parser as a function on lists

The keeper is a list with a position; everything the parser does depends on the ids after the
position only.  This file defines that function and shows that the parser computes it.
-/

set_option linter.unusedSimpArgs false

namespace Gobufr
open ParserSpec TemplateSpec

namespace Keeper

/-- The ids not taken yet. -/
def rest (k : Keeper) : List ID := k.ids.drop k.index

/-- The keeper `n` positions further. -/
def adv (k : Keeper) (n : Nat) : Keeper := { k with index := k.index + n }

@[simp] theorem rest_adv (k : Keeper) (n : Nat) : (k.adv n).rest = k.rest.drop n := by
  simp [rest, adv, List.drop_drop]

@[simp] theorem adv_adv (k : Keeper) (m n : Nat) : (k.adv m).adv n = k.adv (m + n) := by
  simp [adv, Nat.add_assoc]

@[simp] theorem adv_zero (k : Keeper) : k.adv 0 = k := rfl

@[simp] theorem rest_new (ids : List ID) : (newKeeper ids).rest = ids := rfl

theorem eof_iff (k : Keeper) : k.eof = true ↔ k.rest = [] := by
  simp [eof, rest]

theorem eof_false {k : Keeper} {id : ID} {r : List ID} (h : k.rest = id :: r) : k.eof = false := by
  cases he : k.eof with
  | false => rfl
  | true => rw [eof_iff, h] at he; cases he

theorem take_eq {k : Keeper} {id : ID} {r : List ID} (h : k.rest = id :: r) :
    take k = (.ok id, k.adv 1) := by
  have : k.ids[k.index]? = some id := by
    rw [← List.head?_drop, ← rest, h]; rfl
  simp [take, this, adv]

theorem take_nil {k : Keeper} (h : k.rest = []) : take k = (.panic "index out of range", k) := by
  have : k.ids[k.index]? = none := by
    rw [← List.head?_drop, ← rest, h]; rfl
  simp [take, this]

theorem back_adv (k : Keeper) : back (k.adv 1) = (.ok (), k) := by simp [back, adv]

theorem peek_eq {k : Keeper} {id : ID} {r : List ID} (h : k.rest = id :: r) :
    peek k = (.ok id, k) := by
  unfold peek
  rw [M.bind_ok (take_eq h), M.bind_ok (back_adv k)]
  rfl

end Keeper

/-- `n` ids, the missing ones 0. -/
def scopeN (n : Nat) (l : List ID) : List ID := l.take n ++ List.replicate (n - l.length) 0

/-- The ids `takeTill` takes. -/
def tillB (p : ID → Bool) (l : List ID) : List ID := l.takeWhile fun x => !p x
/-- The ids `takeTill` leaves. -/
def tillR (p : ID → Bool) (l : List ID) : List ID := l.dropWhile fun x => !p x
/-- The ids `takeWhile` takes. -/
def untilB (p : ID → Bool) (l : List ID) : List ID := tillB p l ++ (tillR p l).takeWhile p
/-- The ids `takeWhile` leaves. -/
def untilR (p : ID → Bool) (l : List ID) : List ID := (tillR p l).dropWhile p

theorem tillB_append_tillR (p : ID → Bool) (l : List ID) : tillB p l ++ tillR p l = l :=
  List.takeWhile_append_dropWhile

theorem untilB_append_untilR (p : ID → Bool) (l : List ID) : untilB p l ++ untilR p l = l := by
  unfold untilB untilR
  rw [List.append_assoc, List.takeWhile_append_dropWhile, tillB_append_tillR]

namespace Keeper

theorem takeNLoop_eq (n : Nat) : ∀ k : Keeper,
    takeNLoop n k = (.ok (scopeN n k.rest), k.adv (min n k.rest.length)) := by
  induction n with
  | zero => intro k; simp [takeNLoop, scopeN]
  | succ n ih =>
    intro k
    unfold takeNLoop
    rw [M.bind_ok (M.get_apply k)]
    cases hr : k.rest with
    | nil =>
      rw [show k.eof = true from (eof_iff k).2 hr]
      simp [scopeN]
    | cons id r =>
      rw [show k.eof = false from eof_false hr]
      simp only [Bool.false_eq_true, if_false]
      rw [M.bind_ok (take_eq hr), M.bind_ok (ih _)]
      simp only [rest_adv, hr, List.drop_succ_cons, List.drop_zero, adv_adv, M.pure_apply, scopeN,
        List.take_succ_cons, List.length_cons]
      congr 2
      · congr 3; omega
      · omega

theorem takeTillLoop_eq (p : ID → Bool) (fuel : Nat) : ∀ k : Keeper, k.rest.length ≤ fuel →
    takeTillLoop p fuel k = (.ok (tillB p k.rest), k.adv (tillB p k.rest).length) := by
  induction fuel with
  | zero =>
    intro k h
    have : k.rest = [] := List.eq_nil_of_length_eq_zero (by omega)
    simp [takeTillLoop, this, tillB]
  | succ fuel ih =>
    intro k h
    unfold takeTillLoop
    rw [M.bind_ok (M.get_apply k)]
    cases hr : k.rest with
    | nil =>
      rw [show k.eof = true from (eof_iff k).2 hr]
      simp [tillB]
    | cons id r =>
      rw [show k.eof = false from eof_false hr]
      simp only [Bool.false_eq_true, if_false]
      rw [M.bind_ok (take_eq hr)]
      by_cases hp : p id = true
      · simp only [hp, if_true]
        rw [M.bind_ok (back_adv k)]
        simp [tillB, hp]
      · have hp' : p id = false := by simpa using hp
        simp only [hp', Bool.false_eq_true, if_false]
        rw [M.bind_ok (ih _ (by rw [rest_adv, hr]; rw [hr] at h; simpa using h))]
        simp [rest_adv, hr, tillB, hp', Nat.add_comm]

theorem takeTill_eq (p : ID → Bool) (k : Keeper) :
    takeTill p k = (.ok (tillB p k.rest), k.adv (tillB p k.rest).length) := by
  unfold takeTill
  rw [M.bind_ok (M.get_apply k)]
  exact takeTillLoop_eq p _ k (by simp [rest])

theorem takeWhileLoop_started (p : ID → Bool) (fuel : Nat) : ∀ k : Keeper, k.rest.length ≤ fuel →
    takeWhileLoop p fuel true k
      = (.ok (k.rest.takeWhile p), k.adv (k.rest.takeWhile p).length) := by
  induction fuel with
  | zero =>
    intro k h
    have : k.rest = [] := List.eq_nil_of_length_eq_zero (by omega)
    simp [takeWhileLoop, this]
  | succ fuel ih =>
    intro k h
    unfold takeWhileLoop
    rw [M.bind_ok (M.get_apply k)]
    cases hr : k.rest with
    | nil =>
      rw [show k.eof = true from (eof_iff k).2 hr]
      simp
    | cons id r =>
      rw [show k.eof = false from eof_false hr]
      simp only [Bool.false_eq_true, if_false]
      rw [M.bind_ok (take_eq hr)]
      by_cases hp : p id = true
      · simp only [hp, Bool.not_true, Bool.and_false, Bool.false_and, Bool.false_eq_true, if_false]
        rw [M.bind_ok (ih _ (by rw [rest_adv, hr]; rw [hr] at h; simpa using h))]
        simp [rest_adv, hr, hp, Nat.add_comm]
      · have hp' : p id = false := by simpa using hp
        simp only [hp', Bool.not_false, Bool.not_true, Bool.and_true, Bool.true_and,
          Bool.false_and, Bool.false_eq_true, if_false, if_true]
        rw [M.bind_ok (back_adv k)]
        simp [hp']

theorem takeWhileLoop_eq (p : ID → Bool) (fuel : Nat) : ∀ k : Keeper, k.rest.length ≤ fuel →
    takeWhileLoop p fuel false k
      = (.ok (untilB p k.rest), k.adv (untilB p k.rest).length) := by
  induction fuel with
  | zero =>
    intro k h
    have : k.rest = [] := List.eq_nil_of_length_eq_zero (by omega)
    simp [takeWhileLoop, this, untilB, tillB, tillR]
  | succ fuel ih =>
    intro k h
    unfold takeWhileLoop
    rw [M.bind_ok (M.get_apply k)]
    cases hr : k.rest with
    | nil =>
      rw [show k.eof = true from (eof_iff k).2 hr]
      simp [untilB, tillB, tillR]
    | cons id r =>
      rw [show k.eof = false from eof_false hr]
      simp only [Bool.false_eq_true, if_false]
      rw [M.bind_ok (take_eq hr)]
      have hlen : (k.adv 1).rest.length ≤ fuel := by
        rw [rest_adv, hr]; rw [hr] at h; simpa using h
      by_cases hp : p id = true
      · simp only [hp, Bool.not_false, Bool.and_true, if_true]
        rw [M.bind_ok (takeWhileLoop_started p fuel _ hlen)]
        simp [rest_adv, hr, hp, untilB, tillB, tillR, Nat.add_comm]
      · have hp' : p id = false := by simpa using hp
        simp only [hp', Bool.not_false, Bool.and_false, Bool.false_and, Bool.false_eq_true, if_false]
        rw [M.bind_ok (ih _ hlen)]
        simp [rest_adv, hr, hp', untilB, tillB, tillR, Nat.add_comm]

theorem takeWhile_eq (p : ID → Bool) (k : Keeper) :
    takeWhile p k = (.ok (untilB p k.rest), k.adv (untilB p k.rest).length) := by
  unfold takeWhile
  rw [M.bind_ok (M.get_apply k)]
  exact takeWhileLoop_eq p _ k (by simp [rest])

end Keeper

/-! ## The function -/

/-- `processThrough` as a function of flags and ids. -/
abbrev RecF := PFlags → List ID → Outcome (List Ast × PFlags)
/-- Result of parsing one node: node, flags, ids left. -/
abbrev StepR := Outcome (Ast × PFlags × List ID)

/-- `populateMembers` -/
def populateF (rf : RecF) (f : PFlags) (ids : List ID) (mk : List Ast → Ast) (r : List ID) : StepR := do
  let x ← rf f ids
  .ok (mk x.1, x.2, r)

/-- `takeN` and `populateMembers` -/
def scopeF (rf : RecF) (f : PFlags) (n : Int) (mk : List Ast → Ast) (r : List ID) : StepR :=
  if n < 0 then .panic "makeslice: len out of range"
  else populateF rf f (scopeN n.toNat r) mk (r.drop n.toNat)

/-- `parseBitmapNode` -/
def bitmapF (lk : Lookup) (rf : RecF) (f : PFlags) : List ID → StepR
  | [] => .panic "index out of range"
  | id :: r => do
    let d ← lk id
    if d.id = 237000 then .ok (.bitmap (some d) [], f, r)
    else if d.id.F = 1 ∨ d.id = 31031 then
      populateF rf f (untilB (· == 31031) (id :: r)) (.bitmap none) (untilR (· == 31031) (id :: r))
    else if d.id = 236000 then
      populateF rf f (untilB (· == 31031) r) (.bitmap (some d)) (untilR (· == 31031) r)
    else .err (.msg "invalid bitmap definition")

/-- `assembleAssessmentNode` -/
def assessF (lk : Lookup) (rf : RecF) (d : Desc) (ap mp : ID → Bool) (f : PFlags) (l : List ID) :
    StepR := do
  let x ← bitmapF lk rf f l
  let y ← rf x.2.1 (tillB ap x.2.2)
  populateF rf y.2 (untilB mp (tillR ap x.2.2)) (.assessment d x.1 y.1) (untilR mp (tillR ap x.2.2))

/-- unset a flag after a step -/
def thenFlags (g : PFlags → PFlags) (o : StepR) : StepR := do
  let x ← o
  .ok (x.1, g x.2.1, x.2.2)

/-- `assembleOpMarkedNode` -/
def markedF (lk : Lookup) (rf : RecF) (open_ mark : ID) (f : PFlags) (d : Desc) (r : List ID) :
    StepR :=
  if d.id = open_ then assessF lk rf d (fun id => id.F == 1 || id == mark) (fun id => id == mark) f r
  else if d.id = mark then .ok (.marker d, f, r)
  else .err (.msg "invalid operand")

/-- `parseOperatorNode` once the descriptor is known -/
def operatorF (lk : Lookup) (rf : RecF) (f : PFlags) (d : Desc) (id : ID) (r : List ID) : StepR :=
  if d.id.Operator = 201 then .ok (.nbitsOffset d, f, r)
  else if d.id.Operator = 202 then .ok (.scaleOffset d, f, r)
  else if d.id.Operator = 203 then
    if d.id.Y = 255 then .ok (.newRefval d [], f, r)
    else populateF rf f (tillB (· == 203255) r) (.newRefval d) (tillR (· == 203255) r)
  else if d.id.Operator = 204 then
    if d.id.Y ≠ 0 then scopeF rf f 1 (.assocField d) r else .ok (.assocField d [], f, r)
  else if d.id.Operator = 205 then .ok (.insertString d, f, r)
  else if d.id.Operator = 206 then
    thenFlags (fun f => { f with skipLocal := false })
      (scopeF rf { f with skipLocal := true } 1 (.skipLocal d) r)
  else if d.id.Operator = 207 then .ok (.modifyPacking d, f, r)
  else if d.id.Operator = 208 then .ok (.setStringLength d, f, r)
  else if d.id.Operator = 221 then
    thenFlags (fun f => { f with dataNotPresent := false })
      (scopeF rf { f with dataNotPresent := true } d.id.Y (.dataNotPresent d) r)
  else if d.id.Operator = 222 then
    if d.id ≠ 222000 then .err (.msg "invalid operand")
    else assessF lk rf d (fun id => id.F == 1 || (id.F == 0 && id.X == 33))
      (fun id => id.F == 0 && id.X == 33) f r
  else if d.id.Operator = 223 then markedF lk rf 223000 223255 f d r
  else if d.id.Operator = 224 then markedF lk rf 224000 224255 f d r
  else if d.id.Operator = 225 then markedF lk rf 225000 225255 f d r
  else if d.id.Operator = 232 then markedF lk rf 232000 232255 f d r
  else if d.id.Operator = 235 then .ok (.cancelBackRef d, f, r)
  else if d.id.Operator = 236 then bitmapF lk rf f (id :: r)
  else if d.id.Operator = 237 then
    if d.id.Y = 255 then .ok (.cancelBitmap d, f, r) else bitmapF lk rf f (id :: r)
  else if d.id.Operator = 241 ∨ d.id.Operator = 242 ∨ d.id.Operator = 243 then
    .err (.msg "operator not implemented")
  else .err (.msg "unrecognised operator")

/-- the node of an element descriptor -/
def elementF (d : Desc) : Ast := if d.id = 31021 then .e031021 d else .element d false

/-- `parseOne` -/
def stepF (lk : Lookup) (rf : RecF) (f : PFlags) (id : ID) (r : List ID) : StepR :=
  if id.F = 3 then do
    let d ← lk id
    let e ← d.dentry
    populateF rf f e.members (.sequence d) r
  else if id.F = 1 ∧ id.Y = 0 then do
    let d ← lk id
    scopeF rf f (d.id.X + 1) (.delayedRepl d) r
  else if id.F = 1 then do
    let d ← lk id
    scopeF rf f d.id.X (.fixedRepl d) r
  else if id.F = 2 then do
    let d ← lk id
    operatorF lk rf f d id r
  else if id.F = 0 then
    if f.skipLocal then .ok (elementF (newLocalDescriptor id), f, r)
    else do
      let d ← lk id
      .ok (elementF d, f, r)
  else .err (.msg "unknown ID")

/-- `processThrough` -/
def parseF (lk : Lookup) : Nat → RecF
  | 0, _, _ => .diverge
  | _ + 1, f, [] => .ok ([], f)
  | fuel + 1, f, id :: r => do
    let x ← stepF lk (parseF lk fuel) f id r
    let y ← parseF lk fuel x.2.1 x.2.2
    .ok (x.1 :: y.1, y.2)

/-! ## The parser computes it -/

/-- A call ends as foretold. -/
def Sim (m : M PSt α) (s : PSt) (o : Outcome (α × PFlags × List ID)) : Prop :=
  match o with
  | .ok x => ∃ s', m s = (.ok x.1, s') ∧ s'.flags = x.2.1 ∧ s'.k.rest = x.2.2
  | .err e => ∃ s', m s = (.err e, s')
  | .panic w => ∃ s', m s = (.panic w, s')
  | .diverge => ∃ s', m s = (.diverge, s')

theorem Sim.ok {m : M PSt α} {s s' : PSt} {a : α} (h : m s = (.ok a, s')) :
    Sim m s (.ok (a, s'.flags, s'.k.rest)) := ⟨s', h, rfl, rfl⟩

theorem Sim.bind {m : M PSt α} {g : α → M PSt β} {s : PSt} {o : Outcome (α × PFlags × List ID)}
    {h : α × PFlags × List ID → Outcome (β × PFlags × List ID)} (hm : Sim m s o)
    (hg : ∀ a s', Sim (g a) s' (h (a, s'.flags, s'.k.rest))) : Sim (m >>= g) s (o >>= h) := by
  cases o with
  | ok x =>
    obtain ⟨a, f, r⟩ := x
    obtain ⟨s', h1, h2, h3⟩ := hm
    simp only at h1 h2 h3
    have := hg a s'
    rw [h2, h3] at this
    simp only [Outcome.bind_ok]
    unfold Sim at this ⊢
    rw [M.bind_ok h1]
    exact this
  | err e => obtain ⟨s', h1⟩ := hm; exact ⟨s', M.bind_err h1⟩
  | panic w => obtain ⟨s', h1⟩ := hm; exact ⟨s', M.bind_panic h1⟩
  | diverge => obtain ⟨s', h1⟩ := hm; exact ⟨s', M.bind_diverge h1⟩

/-- Rewrite the first call of a sequence. -/
theorem Sim.step {m : M PSt α} {g : α → M PSt β} {s s' : PSt} {a : α}
    {o : Outcome (β × PFlags × List ID)} (h : m s = (.ok a, s')) (hg : Sim (g a) s' o) :
    Sim (m >>= g) s o := by
  unfold Sim at hg ⊢
  rw [M.bind_ok h]
  exact hg

theorem Sim.ite {c : Prop} [Decidable c] {m m' : M PSt α} {s : PSt}
    {o o' : Outcome (α × PFlags × List ID)} (h : c → Sim m s o) (h' : ¬ c → Sim m' s o') :
    Sim (if c then m else m') s (if c then o else o') := by
  by_cases hc : c
  · simpa [hc] using h hc
  · simpa [hc] using h' hc

/-- A pure step. -/
theorem Sim.lift {g : α → M PSt β} {s : PSt} {o : Outcome α} {h : α → Outcome (β × PFlags × List ID)}
    (hg : ∀ a, o = .ok a → Sim (g a) s (h a)) : Sim (M.lift o >>= g) s (o >>= h) := by
  cases o with
  | ok a => exact Sim.step rfl (hg a rfl)
  | err e => exact ⟨s, rfl⟩
  | panic w => exact ⟨s, rfl⟩
  | diverge => exact ⟨s, rfl⟩

/-- `rec` computes `rf`. -/
def RecSim (rec : M PSt (List Ast)) (rf : RecF) : Prop :=
  ∀ s : PSt, match rf s.flags s.k.rest with
    | .ok x => ∃ s', rec s = (.ok x.1, s') ∧ s'.flags = x.2
    | .err e => ∃ s', rec s = (.err e, s')
    | .panic w => ∃ s', rec s = (.panic w, s')
    | .diverge => ∃ s', rec s = (.diverge, s')

theorem onIds_sim {rec : M PSt (List Ast)} {rf : RecF} (hr : RecSim rec rf) (ids : List ID) (s : PSt) :
    Sim (onIds rec ids) s (rf s.flags ids >>= fun x => .ok (x.1, x.2, s.k.rest)) := by
  have h := hr ⟨s.flags, newKeeper ids⟩
  simp only [Keeper.rest_new] at h
  unfold Sim onIds
  cases hrf : rf s.flags ids with
  | ok x =>
    rw [hrf] at h
    obtain ⟨s', h1, h2⟩ := h
    simp [h1, h2]
  | err e => rw [hrf] at h; obtain ⟨s', h1⟩ := h; simp [h1]
  | panic w => rw [hrf] at h; obtain ⟨s', h1⟩ := h; simp [h1]
  | diverge => rw [hrf] at h; obtain ⟨s', h1⟩ := h; simp [h1]

theorem bind_assoc_outcome {α β γ : Type} (o : Outcome α) (f : α → Outcome β) (g : β → Outcome γ) :
    ((o >>= f) >>= g) = (o >>= fun a => f a >>= g) := by cases o <;> rfl

theorem populate_sim {rec : M PSt (List Ast)} {rf : RecF} (hr : RecSim rec rf) (ids : List ID)
    (mk : List Ast → Ast) (s : PSt) :
    Sim (populateMembers rec ids mk) s (populateF rf s.flags ids mk s.k.rest) := by
  unfold populateMembers populateF
  have := Sim.bind (onIds_sim hr ids s) (g := fun ms => pure (mk ms))
    (h := fun x => .ok (mk x.1, x.2.1, x.2.2)) (fun a s' => Sim.ok (s' := s') rfl)
  rw [bind_assoc_outcome] at this
  exact this

theorem onKeeper_eq {m : M Keeper α} {s : PSt} {a : α} {k' : Keeper} (h : m s.k = (.ok a, k')) :
    onKeeper m s = (.ok a, { s with k := k' }) := by
  simp [onKeeper, M.zoom, h]

theorem takeLookup_sim {lk : Lookup} {s : PSt} {id : ID} {r : List ID} (hk : s.k.rest = id :: r)
    {g : Desc → M PSt β} {h : Desc → Outcome (β × PFlags × List ID)}
    (hg : ∀ d, lk id = .ok d → Sim (g d) { s with k := s.k.adv 1 } (h d)) :
    Sim (takeLookup lk >>= g) s (lk id >>= h) := by
  unfold takeLookup
  rw [M.bind_assoc]
  exact Sim.step (onKeeper_eq (Keeper.take_eq hk)) (Sim.lift hg)

theorem scope_sim {rec : M PSt (List Ast)} {rf : RecF} (hr : RecSim rec rf) (n : Int)
    (mk : List Ast → Ast) (s : PSt) :
    Sim (onKeeper (Keeper.takeN n) >>= fun ids => populateMembers rec ids mk) s
      (scopeF rf s.flags n mk s.k.rest) := by
  unfold scopeF
  split
  · rename_i hn
    have : onKeeper (Keeper.takeN n) s = (.panic "makeslice: len out of range", s) := by
      simp [onKeeper, M.zoom, Keeper.takeN, hn]
    exact ⟨s, M.bind_panic this⟩
  · rename_i hn
    have : Keeper.takeN n s.k = (.ok (scopeN n.toNat s.k.rest), s.k.adv (min n.toNat s.k.rest.length)) := by
      simp only [Keeper.takeN, if_neg hn]
      exact Keeper.takeNLoop_eq _ _
    refine Sim.step (onKeeper_eq this) ?_
    have h2 := populate_sim hr (scopeN n.toNat s.k.rest) mk
      { s with k := s.k.adv (min n.toNat s.k.rest.length) }
    simp only [Keeper.rest_adv] at h2
    have : s.k.rest.drop (min n.toNat s.k.rest.length) = s.k.rest.drop n.toNat := by
      rcases Nat.le_total n.toNat s.k.rest.length with h | h
      · rw [Nat.min_eq_left h]
      · rw [Nat.min_eq_right h, List.drop_of_length_le (Nat.le_refl _), List.drop_of_length_le h]
    rwa [this] at h2

theorem drop_tillB (p : ID → Bool) (l : List ID) : l.drop (tillB p l).length = tillR p l := by
  conv => lhs; rw [← tillB_append_tillR p l]
  have : ((tillB p (tillB p l ++ tillR p l))).length = (tillB p l).length := by
    rw [tillB_append_tillR]
  rw [this, List.drop_left]

theorem drop_untilB (p : ID → Bool) (l : List ID) : l.drop (untilB p l).length = untilR p l := by
  conv => lhs; rw [← untilB_append_untilR p l]
  have : ((untilB p (untilB p l ++ untilR p l))).length = (untilB p l).length := by
    rw [untilB_append_untilR]
  rw [this, List.drop_left]

theorem while_sim {rec : M PSt (List Ast)} {rf : RecF} (hr : RecSim rec rf) (p : ID → Bool)
    (mk : List Ast → Ast) (s : PSt) :
    Sim (onKeeper (Keeper.takeWhile p) >>= fun ids => populateMembers rec ids mk) s
      (populateF rf s.flags (untilB p s.k.rest) mk (untilR p s.k.rest)) := by
  refine Sim.step (onKeeper_eq (Keeper.takeWhile_eq p s.k)) ?_
  have h2 := populate_sim hr (untilB p s.k.rest) mk
    { s with k := s.k.adv (untilB p s.k.rest).length }
  simpa only [Keeper.rest_adv, drop_untilB] using h2

theorem till_sim {rec : M PSt (List Ast)} {rf : RecF} (hr : RecSim rec rf) (p : ID → Bool)
    (mk : List Ast → Ast) (s : PSt) :
    Sim (onKeeper (Keeper.takeTill p) >>= fun ids => populateMembers rec ids mk) s
      (populateF rf s.flags (tillB p s.k.rest) mk (tillR p s.k.rest)) := by
  refine Sim.step (onKeeper_eq (Keeper.takeTill_eq p s.k)) ?_
  have h2 := populate_sim hr (tillB p s.k.rest) mk
    { s with k := s.k.adv (tillB p s.k.rest).length }
  simpa only [Keeper.rest_adv, drop_tillB] using h2

theorem bitmap_sim {lk : Lookup} {rec : M PSt (List Ast)} {rf : RecF} (hr : RecSim rec rf) (s : PSt) :
    Sim (parseBitmapNode lk rec) s (bitmapF lk rf s.flags s.k.rest) := by
  unfold parseBitmapNode
  cases hk : s.k.rest with
  | nil =>
    refine ⟨s, M.bind_panic ?_⟩
    unfold takeLookup
    exact M.bind_panic (by simp [onKeeper, M.zoom, Keeper.take_nil hk])
  | cons id r =>
    simp only [bitmapF]
    refine takeLookup_sim hk fun d _ => ?_
    split
    · have := Sim.ok (m := (pure (Ast.bitmap (some d) []) : M PSt Ast)) (s := { s with k := s.k.adv 1 })
        (s' := { s with k := s.k.adv 1 }) rfl
      simpa [hk] using this
    · split
      · refine Sim.step (onKeeper_eq (Keeper.back_adv s.k)) ?_
        have := while_sim hr (· == 31031) (.bitmap none) { s with k := s.k }
        simpa [hk] using this
      · split
        · have := while_sim hr (· == 31031) (.bitmap (some d)) { s with k := s.k.adv 1 }
          simpa [hk] using this
        · exact ⟨_, rfl⟩

theorem assess_sim {lk : Lookup} {rec : M PSt (List Ast)} {rf : RecF} (hr : RecSim rec rf) (d : Desc)
    (ap mp : ID → Bool) (s : PSt) :
    Sim (assembleAssessmentNode lk rec d ap mp) s (assessF lk rf d ap mp s.flags s.k.rest) := by
  unfold assembleAssessmentNode assessF
  refine Sim.bind (bitmap_sim hr s) fun bm s1 => ?_
  refine Sim.step (onKeeper_eq (Keeper.takeTill_eq ap s1.k)) ?_
  have h1 := onIds_sim hr (tillB ap s1.k.rest) { s1 with k := s1.k.adv (tillB ap s1.k.rest).length }
  simp only [Keeper.rest_adv, drop_tillB] at h1
  have h2 := Sim.bind h1 (g := fun attrs => do
      let mids ← onKeeper (Keeper.takeWhile mp)
      populateMembers rec mids (.assessment d bm attrs))
    (h := fun y => populateF rf y.2.1 (untilB mp y.2.2) (.assessment d bm y.1) (untilR mp y.2.2))
    (fun a s' => while_sim hr mp _ s')
  rw [bind_assoc_outcome] at h2
  exact h2

theorem setFlags_eq (g : PFlags → PFlags) (s : PSt) :
    setFlags g s = (.ok (), { s with flags := g s.flags }) := rfl

theorem defer_sim {m : M PSt Ast} {s : PSt} {o : StepR} (g : PFlags → PFlags) (hm : Sim m s o) :
    Sim (M.deferDo (setFlags g) m) s (thenFlags g o) := by
  unfold thenFlags
  cases o with
  | ok x =>
    obtain ⟨s', h1, h2, h3⟩ := hm
    refine ⟨{ s' with flags := g s'.flags }, ?_, ?_, ?_⟩
    · exact M.deferDo_ok h1 rfl
    · simp [h2]
    · simpa using h3
  | err e => obtain ⟨s', h1⟩ := hm; exact ⟨{ s' with flags := g s'.flags }, by simp [M.deferDo, h1, setFlags]⟩
  | panic w => obtain ⟨s', h1⟩ := hm; exact ⟨{ s' with flags := g s'.flags }, by simp [M.deferDo, h1, setFlags]⟩
  | diverge => obtain ⟨s', h1⟩ := hm; exact ⟨s', by simp [M.deferDo, h1]⟩

theorem marked_sim {lk : Lookup} {rec : M PSt (List Ast)} {rf : RecF} (hr : RecSim rec rf)
    (o m : ID) (d : Desc) (s : PSt) :
    Sim (assembleOpMarkedNode lk rec o m d) s (markedF lk rf o m s.flags d s.k.rest) := by
  unfold assembleOpMarkedNode markedF
  split
  · exact assess_sim hr d _ _ s
  · split
    · exact Sim.ok rfl
    · exact ⟨_, rfl⟩

theorem notPresent_false (f : PFlags) (d : Desc) : notPresent f d = false := by
  unfold notPresent
  split
  · rfl
  · simp only [Bool.and_eq_false_iff, decide_eq_false_iff_not]
    by_cases h : d.id.X < 1
    · exact Or.inl (Or.inr (by omega))
    · exact Or.inl (Or.inl h)

theorem one_sim {lk : Lookup} {rec : M PSt (List Ast)} {rf : RecF} (hr : RecSim rec rf) (s : PSt)
    (id : ID) (r : List ID) (hk : s.k.rest = id :: r) :
    Sim (parseOne lk rec id) s (stepF lk rf s.flags id r) := by
  have hk1 : ({ s with k := s.k.adv 1 } : PSt).k.rest = r := by simp [hk]
  unfold parseOne stepF
  split
  · unfold parseSequenceNode
    refine takeLookup_sim hk fun d _ => Sim.lift fun e _ => ?_
    have := populate_sim hr e.members (.sequence d) { s with k := s.k.adv 1 }
    rwa [hk1] at this
  split
  · unfold parseDelayedReplicationNode
    refine takeLookup_sim hk fun d _ => ?_
    have := scope_sim hr (d.id.X + 1) (.delayedRepl d) { s with k := s.k.adv 1 }
    rwa [hk1] at this
  split
  · unfold parseFixedReplicationNode
    refine takeLookup_sim hk fun d _ => ?_
    have := scope_sim hr d.id.X (.fixedRepl d) { s with k := s.k.adv 1 }
    rwa [hk1] at this
  split
  · unfold parseOperatorNode
    refine takeLookup_sim hk fun d _ => ?_
    have hpure : ∀ n : Ast, Sim (pure n) { s with k := s.k.adv 1 } (.ok (n, s.flags, r)) := by
      intro n
      have := Sim.ok (m := pure n) (s := { s with k := s.k.adv 1 }) (s' := { s with k := s.k.adv 1 }) rfl
      rwa [hk1] at this
    have hbm : Sim (onKeeper Keeper.back >>= fun _ => parseBitmapNode lk rec) { s with k := s.k.adv 1 }
        (bitmapF lk rf s.flags (id :: r)) := by
      refine Sim.step (onKeeper_eq (Keeper.back_adv s.k)) ?_
      have := bitmap_sim (lk := lk) hr { s with k := s.k }
      simpa [hk] using this
    unfold operatorF
    refine Sim.ite (fun _ => hpure _) fun _ => ?_
    refine Sim.ite (fun _ => hpure _) fun _ => ?_
    refine Sim.ite (fun _ => ?_) fun _ => ?_
    · refine Sim.ite (fun _ => hpure _) fun _ => ?_
      have := till_sim hr (· == 203255) (.newRefval d) { s with k := s.k.adv 1 }
      rwa [hk1] at this
    refine Sim.ite (fun _ => ?_) fun _ => ?_
    · refine Sim.ite (fun _ => ?_) fun _ => hpure _
      have := scope_sim hr 1 (.assocField d) { s with k := s.k.adv 1 }
      rwa [hk1] at this
    refine Sim.ite (fun _ => hpure _) fun _ => ?_
    refine Sim.ite (fun _ => ?_) fun _ => ?_
    · refine Sim.step (setFlags_eq _ _) (defer_sim _ ?_)
      have := scope_sim hr 1 (.skipLocal d)
        { s with k := s.k.adv 1, flags := { s.flags with skipLocal := true } }
      rwa [show ({ s with k := s.k.adv 1, flags := { s.flags with skipLocal := true } } : PSt).k.rest = r
        from hk1] at this
    refine Sim.ite (fun _ => hpure _) fun _ => ?_
    refine Sim.ite (fun _ => hpure _) fun _ => ?_
    refine Sim.ite (fun _ => ?_) fun _ => ?_
    · refine Sim.step (setFlags_eq _ _) (defer_sim _ ?_)
      have := scope_sim hr d.id.Y (.dataNotPresent d)
        { s with k := s.k.adv 1, flags := { s.flags with dataNotPresent := true } }
      rwa [show ({ s with k := s.k.adv 1, flags := { s.flags with dataNotPresent := true } } : PSt).k.rest = r
        from hk1] at this
    refine Sim.ite (fun _ => ?_) fun _ => ?_
    · refine Sim.ite (fun _ => ⟨_, rfl⟩) fun _ => ?_
      have := assess_sim (lk := lk) hr d (fun id => id.F == 1 || (id.F == 0 && id.X == 33))
          (fun id => id.F == 0 && id.X == 33) { s with k := s.k.adv 1 }
      rwa [hk1] at this
    have hmk : ∀ o m : ID, Sim (assembleOpMarkedNode lk rec o m d) { s with k := s.k.adv 1 }
        (markedF lk rf o m s.flags d r) := by
      intro o m
      have := marked_sim (lk := lk) hr o m d { s with k := s.k.adv 1 }
      rwa [hk1] at this
    refine Sim.ite (fun _ => hmk _ _) fun _ => ?_
    refine Sim.ite (fun _ => hmk _ _) fun _ => ?_
    refine Sim.ite (fun _ => hmk _ _) fun _ => ?_
    refine Sim.ite (fun _ => hmk _ _) fun _ => ?_
    refine Sim.ite (fun _ => hpure _) fun _ => ?_
    refine Sim.ite (fun _ => hbm) fun _ => ?_
    refine Sim.ite (fun _ => Sim.ite (fun _ => hpure _) fun _ => hbm) fun _ => ?_
    exact Sim.ite (fun _ => ⟨_, rfl⟩) fun _ => ⟨_, rfl⟩
  split
  · unfold parseElementNode
    refine Sim.step (M.get_apply s) ?_
    have hpure : ∀ d : Desc, Sim (if d.id = 31021 then pure (.e031021 d)
        else pure (.element d (notPresent s.flags d))) { s with k := s.k.adv 1 }
        (.ok (elementF d, s.flags, r)) := by
      intro d
      have := Sim.ok (m := (pure (elementF d) : M PSt Ast)) (s := { s with k := s.k.adv 1 })
        (s' := { s with k := s.k.adv 1 }) rfl
      rw [hk1] at this
      rw [notPresent_false]
      unfold elementF at this ⊢
      split <;> simp_all
    cases hl : s.flags.skipLocal with
    | true =>
      simp only [if_true]
      exact Sim.step (onKeeper_eq (Keeper.take_eq hk)) (hpure _)
    | false =>
      simp only [Bool.false_eq_true, if_false]
      exact takeLookup_sim hk fun d _ => hpure d
  · exact ⟨_, rfl⟩

theorem parseF_sim (lk : Lookup) (fuel : Nat) : RecSim (processThrough lk fuel) (parseF lk fuel) := by
  induction fuel with
  | zero => intro s; exact ⟨s, rfl⟩
  | succ fuel ih =>
    intro s
    unfold processThrough
    rw [M.bind_ok (M.get_apply s)]
    cases hk : s.k.rest with
    | nil =>
      rw [show s.k.eof = true from (Keeper.eof_iff _).2 hk]
      exact ⟨s, rfl, rfl⟩
    | cons id r =>
      rw [show s.k.eof = false from Keeper.eof_false hk]
      simp only [Bool.false_eq_true, if_false]
      rw [M.bind_ok (onKeeper_eq (Keeper.peek_eq hk))]
      have h1 := one_sim (lk := lk) ih { s with k := s.k } id r hk
      simp only [parseF]
      cases ho : stepF lk (parseF lk fuel) s.flags id r with
      | ok x =>
        rw [show stepF lk (parseF lk fuel) ({ s with k := s.k } : PSt).flags id r = _ from ho] at h1
        obtain ⟨s', h2, h3, h4⟩ := h1
        have h5 := ih s'
        rw [h3, h4] at h5
        simp only [Outcome.bind_ok]
        rw [M.bind_ok h2]
        cases hp : parseF lk fuel x.2.1 x.2.2 with
        | ok y =>
          rw [hp] at h5
          obtain ⟨s'', h6, h7⟩ := h5
          exact ⟨s'', by rw [M.bind_ok h6]; rfl, h7⟩
        | err e => rw [hp] at h5; obtain ⟨s'', h6⟩ := h5; exact ⟨s'', M.bind_err h6⟩
        | panic w => rw [hp] at h5; obtain ⟨s'', h6⟩ := h5; exact ⟨s'', M.bind_panic h6⟩
        | diverge => rw [hp] at h5; obtain ⟨s'', h6⟩ := h5; exact ⟨s'', M.bind_diverge h6⟩
      | err e =>
        rw [show stepF lk (parseF lk fuel) ({ s with k := s.k } : PSt).flags id r = _ from ho] at h1
        obtain ⟨s', h2⟩ := h1; exact ⟨s', M.bind_err h2⟩
      | panic w =>
        rw [show stepF lk (parseF lk fuel) ({ s with k := s.k } : PSt).flags id r = _ from ho] at h1
        obtain ⟨s', h2⟩ := h1; exact ⟨s', M.bind_panic h2⟩
      | diverge =>
        rw [show stepF lk (parseF lk fuel) ({ s with k := s.k } : PSt).flags id r = _ from ho] at h1
        obtain ⟨s', h2⟩ := h1; exact ⟨s', M.bind_diverge h2⟩

theorem parse_eq (lk : Lookup) (fuel : Nat) (ids : List ID) :
    parse lk fuel ids = (parseF lk fuel {} ids >>= fun x => .ok (.base rootDescriptor x.1)) := by
  have h := populate_sim (parseF_sim lk fuel) ids (.base rootDescriptor) ⟨{}, newKeeper []⟩
  unfold parse
  unfold populateF at h
  simp only at h
  cases hp : parseF lk fuel {} ids with
  | ok x => rw [hp] at h; obtain ⟨s', h1, _⟩ := h; rw [h1]; rfl
  | err e => rw [hp] at h; obtain ⟨s', h1⟩ := h; rw [h1]; rfl
  | panic w => rw [hp] at h; obtain ⟨s', h1⟩ := h; rw [h1]; rfl
  | diverge => rw [hp] at h; obtain ⟨s', h1⟩ := h; rw [h1]; rfl

end Gobufr
