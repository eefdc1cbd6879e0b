/-!
# Go semantics used by the model

Everything in this file is model infrastructure: how the observable result of a Go
call is represented.  No file of /repo is modelled here.

* A Go call either returns normally (`ok`), returns a non-nil `error` (`err`), panics
  (`panic`), or never returns (`diverge`; also stack exhaustion).
* Values returned together with a non-nil error are dropped: no caller in /repo looks at
  them (checked by reading), except where the model says so.
* A stateful call is a function from the state to outcome and new state.  The state is
  kept after an error because some callers in /repo ignore errors.
-/

namespace Gobufr

/-- Go `error` values.  Only the identities that the code inspects (`io.EOF`) and the
wrapping structure (`%w`) are kept; messages are abbreviated. -/
inductive Err where
  | eof
  | bufferFull
  | negativeCount
  /-- an `os.PathError` for which `os.IsNotExist` holds -/
  | notExist
  | msg (s : String)
  | wrap (s : String) (e : Err)
  deriving Repr, DecidableEq, Inhabited

/-- Result of a Go call. -/
inductive Outcome (α : Type u) where
  | ok (a : α)
  | err (e : Err)
  | panic (why : String)
  | diverge
  deriving Repr, DecidableEq, Inhabited

namespace Outcome

/-- The call returned normally. -/
def isOk : Outcome α → Bool
  | ok _ => true
  | _ => false

/-- The call returned an error. -/
def isErr : Outcome α → Bool
  | err _ => true
  | _ => false

/-- The call panicked. -/
def isPanic : Outcome α → Bool
  | panic _ => true
  | _ => false

protected def bind : Outcome α → (α → Outcome β) → Outcome β
  | ok a, f => f a
  | err e, _ => err e
  | panic w, _ => panic w
  | diverge, _ => diverge

instance : Monad Outcome where
  pure := ok
  bind := Outcome.bind

@[simp] theorem bind_ok (a : α) (f : α → Outcome β) : (ok a >>= f) = f a := rfl
@[simp] theorem bind_err (e : Err) (f : α → Outcome β) : ((err e : Outcome α) >>= f) = err e := rfl
@[simp] theorem bind_panic (w : String) (f : α → Outcome β) :
    ((panic w : Outcome α) >>= f) = panic w := rfl
@[simp] theorem bind_diverge (f : α → Outcome β) : ((diverge : Outcome α) >>= f) = diverge := rfl
@[simp] theorem pure_eq (a : α) : (pure a : Outcome α) = ok a := rfl

theorem bind_eq_ok {x : Outcome α} {f : α → Outcome β} {b : β} :
    (x >>= f) = ok b ↔ ∃ a, x = ok a ∧ f a = ok b := by
  cases x <;> simp

end Outcome

/-- A stateful Go call. -/
def M (σ : Type u) (α : Type v) := σ → Outcome α × σ

namespace M

variable {σ : Type u} {α β : Type v}

protected def bind (m : M σ α) (f : α → M σ β) : M σ β := fun s =>
  match m s with
  | (.ok a, s') => f a s'
  | (.err e, s') => (.err e, s')
  | (.panic w, s') => (.panic w, s')
  | (.diverge, s') => (.diverge, s')

instance : Monad (M σ) where
  pure a := fun s => (.ok a, s)
  bind := M.bind

/-- return an error -/
def fail (e : Err) : M σ α := fun s => (.err e, s)
/-- panic -/
def crash (w : String) : M σ α := fun s => (.panic w, s)
/-- never return -/
def loop : M σ α := fun s => (.diverge, s)
def get : M σ σ := fun s => (.ok s, s)
def set (s : σ) : M σ PUnit := fun _ => (.ok ⟨⟩, s)
def modify (f : σ → σ) : M σ PUnit := fun s => (.ok ⟨⟩, f s)
def gets (f : σ → α) : M σ α := fun s => (.ok (f s), s)
/-- run a stateless call -/
def lift (o : Outcome α) : M σ α := fun s => (o, s)

/-- `if err != nil { return fmt.Errorf("...%w", err) }` : wrap the error of a call. -/
def wrapErr (w : String) (m : M σ α) : M σ α := fun s =>
  match m s with
  | (.err e, s') => (.err (.wrap w e), s')
  | r => r

/-- Call and ignore the returned error (`f()` as a statement where `f` returns an error). -/
def ignoreErr (d : α) (m : M σ α) : M σ α := fun s =>
  match m s with
  | (.err _, s') => (.ok d, s')
  | r => r

@[simp] theorem pure_apply (a : α) (s : σ) : (pure a : M σ α) s = (.ok a, s) := rfl

theorem bind_apply (m : M σ α) (f : α → M σ β) (s : σ) :
    (m >>= f) s = match m s with
      | (.ok a, s') => f a s'
      | (.err e, s') => (.err e, s')
      | (.panic w, s') => (.panic w, s')
      | (.diverge, s') => (.diverge, s') := rfl

@[simp] theorem fail_apply (e : Err) (s : σ) : (fail e : M σ α) s = (.err e, s) := rfl
@[simp] theorem crash_apply (w : String) (s : σ) : (crash w : M σ α) s = (.panic w, s) := rfl
@[simp] theorem loop_apply (s : σ) : (loop : M σ α) s = (.diverge, s) := rfl
@[simp] theorem get_apply (s : σ) : (get : M σ σ) s = (.ok s, s) := rfl
@[simp] theorem set_apply (t s : σ) : (set t : M σ PUnit) s = (.ok ⟨⟩, t) := rfl
@[simp] theorem modify_apply (f : σ → σ) (s : σ) : (modify f : M σ PUnit) s = (.ok ⟨⟩, f s) := rfl
@[simp] theorem gets_apply (f : σ → α) (s : σ) : (gets f : M σ α) s = (.ok (f s), s) := rfl
@[simp] theorem lift_apply (o : Outcome α) (s : σ) : (lift o : M σ α) s = (o, s) := rfl

theorem bind_ok {m : M σ α} {f : α → M σ β} {s s' : σ} {a : α} (h : m s = (.ok a, s')) :
    (m >>= f) s = f a s' := by simp [bind_apply, h]

theorem bind_eq_ok {m : M σ α} {f : α → M σ β} {s s'' : σ} {b : β} :
    (m >>= f) s = (.ok b, s'') ↔ ∃ a s', m s = (.ok a, s') ∧ f a s' = (.ok b, s'') := by
  rw [bind_apply]
  rcases h : m s with ⟨o, s'⟩
  cases o <;> simp [and_assoc]

theorem bind_err {m : M σ α} {f : α → M σ β} {s s' : σ} {e : Err} (h : m s = (.err e, s')) :
    (m >>= f) s = (.err e, s') := by simp [bind_apply, h]

theorem bind_panic {m : M σ α} {f : α → M σ β} {s s' : σ} {w : String}
    (h : m s = (.panic w, s')) : (m >>= f) s = (.panic w, s') := by simp [bind_apply, h]

theorem bind_diverge {m : M σ α} {f : α → M σ β} {s s' : σ}
    (h : m s = (.diverge, s')) : (m >>= f) s = (.diverge, s') := by simp [bind_apply, h]

theorem pure_bind (a : α) (f : α → M σ β) : (pure a >>= f) = f a := rfl

theorem bind_assoc {γ : Type v} (m : M σ α) (f : α → M σ β) (g : β → M σ γ) :
    ((m >>= f) >>= g) = (m >>= fun a => f a >>= g) := by
  funext s
  simp only [bind_apply]
  rcases m s with ⟨o, s'⟩
  cases o <;> simp

theorem bind_pure (m : M σ α) : (m >>= pure) = m := by
  funext s
  simp only [bind_apply]
  rcases m s with ⟨o, s'⟩
  cases o <;> simp

/-- Call and decide on the outcome how to go on (`x, err := f(); if ... `). -/
def handle {γ : Type w} (m : M σ α) (k : Outcome α → M σ γ) : M σ γ := fun s => k (m s).1 (m s).2

theorem handle_eq {γ : Type w} {m : M σ α} {k : Outcome α → M σ γ} {s s' : σ} {o : Outcome α}
    (h : m s = (o, s')) : handle m k s = k o s' := by
  simp [handle, h]

/-- `defer d()` before `return m()`: `d` runs on a normal return, on an error and on a panic. -/
def deferDo (d : M σ PUnit) (m : M σ α) : M σ α := fun s =>
  match m s with
  | (.diverge, s') => (.diverge, s')
  | (o, s') =>
    match d s' with
    | (.panic w, s'') => (.panic w, s'')
    | (.diverge, s'') => (.diverge, s'')
    | (_, s'') => (o, s'')

theorem deferDo_ok {d : M σ PUnit} {m : M σ α} {s s' s'' : σ} {a : α} (h : m s = (.ok a, s'))
    (hd : d s' = (.ok ⟨⟩, s'')) : deferDo d m s = (.ok a, s'') := by simp [deferDo, h, hd]

/-- Run a call on a component of the state. -/
def zoom {τ : Type u} (g : σ → τ) (p : τ → σ → σ) (m : M τ α) : M σ α := fun s =>
  let r := m (g s)
  (r.1, p r.2 s)

end M

theorem eq_of_fst {α β : Type} {x : α × β} {a : α} (h : x.1 = a) : x = (a, x.2) := Prod.ext h rfl

/-- Go machine constants: `uint` and `int` are 64 bits wide. -/
abbrev two64 : Nat := 2 ^ 64

/-- Conversion of an arbitrary integer to Go `uint` (wrap around). -/
def toUint (i : Int) : Nat := (i % (two64 : Int)).toNat

/-- Conversion of an arbitrary integer to Go `int` (wrap around, two's complement). -/
def toInt64 (i : Int) : Int := i.bmod two64

theorem toUint_lt (i : Int) : toUint i < two64 := by
  unfold toUint two64
  omega

theorem toUint_of_lt {n : Nat} (h : n < two64) : toUint (n : Int) = n := by
  unfold toUint two64 at *
  omega

end Gobufr
