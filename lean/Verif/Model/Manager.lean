import Verif.Model.Table

/-!
# tableManager: the cache of loaded tables under concurrency

Models /repo/table/manager.go:11-86 as a small step machine.  `getTableB` and `getTableD` are the
same program over different maps and locks; `Kind` selects which.  Threads issue arbitrary lists
of requests (e.g. `NewSingleTableGroup` issues a B request, then a D request).

`sync.RWMutex` is modelled as: a writer first announces itself (later readers and writers then
wait), and gets the lock when the active readers have left.  Loading a file may succeed or fail
arbitrarily each time it is tried (a panic inside the load is a failure: the deferred `Unlock`
runs); a successful load allocates a new table object, represented by a fresh number.
-/

namespace Gobufr.Mgr

/-- Table B or Table D: selects `bmu`/`bs` or `dmu`/`ds`. -/
inductive Kind where
  | b | d
  deriving Repr, DecidableEq, Inhabited

/-- A table path, /repo/table/manager.go:34-36. -/
abbrev Path := GoString
abbrev Tid := Nat
/-- The identity of a table object (a Go pointer). -/
abbrev Handle := Nat

/-- A call of getTableB or getTableD. -/
abbrev Req := Kind × Path

/-- Where a thread is. -/
inductive Pc where
  /-- between two requests -/
  | idle
  /-- /repo/table/manager.go:38, before `RLock` -/
  | wantR (r : Req)
  /-- :39, holding the read lock, before reading the map -/
  | readR (r : Req)
  /-- :40, before `RUnlock`; result of the map lookup -/
  | gotR (r : Req) (v : Option Handle)
  /-- :45, before `Lock` -/
  | wantW (r : Req)
  /-- :45, inside `Lock`: announced, waiting for readers to leave -/
  | waitW (r : Req)
  /-- :47, holding the write lock, before reading the map again -/
  | readW (r : Req)
  /-- :51, holding the write lock, before loading the file -/
  | load (r : Req)
  /-- :55, holding the write lock, before storing the loaded table -/
  | store (r : Req) (h : Handle)
  /-- :46, the deferred `Unlock`; `none`: the load failed -/
  | unlockW (r : Req) (v : Option Handle)
  deriving Repr, DecidableEq, Inhabited

/-- A goroutine: position, requests to come, answers received (`none`: error). -/
structure Thread where
  pc : Pc
  todo : List Req
  done : List (Req × Option Handle)
  deriving Repr, DecidableEq, Inhabited

/-- `sync.RWMutex` -/
structure Lock where
  readers : List Tid
  writer : Option Tid
  pending : Option Tid
  deriving Repr, DecidableEq, Inhabited

/-- The shared state.  `loads` and `fails` record, for specification only, the successful and
the failed loads so far. -/
structure St where
  threads : Tid → Thread
  locks : Kind → Lock
  cache : Kind → Path → Option Handle
  next : Handle
  loads : List (Req × Handle)
  fails : List (Tid × Req)

/-- function update -/
def upd [DecidableEq α] (f : α → β) (a : α) (b : β) : α → β := fun x => if x = a then b else f x

@[simp] theorem upd_self [DecidableEq α] (f : α → β) (a : α) (b : β) : upd f a b a = b := by
  simp [upd]

theorem upd_ne [DecidableEq α] (f : α → β) {a x : α} (b : β) (h : x ≠ a) : upd f a b x = f x := by
  simp [upd, h]

/-- Move thread `t` to `pc`. -/
def St.goto (s : St) (t : Tid) (pc : Pc) : St :=
  { s with threads := upd s.threads t { s.threads t with pc := pc } }

/-- Thread `t` starts its request `r`. -/
def St.begin (s : St) (t : Tid) (r : Req) (rs : List Req) : St :=
  { s with threads := upd s.threads t { s.threads t with pc := .wantR r, todo := rs } }

/-- Thread `t` returns `v` for its request `r`. -/
def St.ret (s : St) (t : Tid) (r : Req) (v : Option Handle) : St :=
  let th := s.threads t
  { s with threads := upd s.threads t { th with pc := .idle, done := th.done ++ [(r, v)] } }

/-- Change a lock. -/
def St.setLock (s : St) (k : Kind) (l : Lock) : St := { s with locks := upd s.locks k l }

/-- One step of thread `t`. -/
inductive StepBy (t : Tid) : St → St → Prop
  /-- the caller issues its next request, /repo/table/manager.go:31 -/
  | call {s : St} {r : Req} {rs : List Req} (hpc : (s.threads t).pc = .idle)
      (htodo : (s.threads t).todo = r :: rs) :
      StepBy t s (s.begin t r rs)
  /-- :38 -/
  | rlock {s : St} {r : Req} (hpc : (s.threads t).pc = .wantR r)
      (hw : (s.locks r.1).writer = none) (hp : (s.locks r.1).pending = none) :
      StepBy t s ((s.setLock r.1 { s.locks r.1 with readers := t :: (s.locks r.1).readers }).goto t
        (.readR r))
  /-- :39 -/
  | lookR {s : St} {r : Req} (hpc : (s.threads t).pc = .readR r) :
      StepBy t s (s.goto t (.gotR r (s.cache r.1 r.2)))
  /-- :40-43, found -/
  | runlockHit {s : St} {r : Req} {h : Handle} (hpc : (s.threads t).pc = .gotR r (some h)) :
      StepBy t s ((s.setLock r.1 { s.locks r.1 with
        readers := (s.locks r.1).readers.filter (· ≠ t) }).ret t r (some h))
  /-- :40-45, not found -/
  | runlockMiss {s : St} {r : Req} (hpc : (s.threads t).pc = .gotR r none) :
      StepBy t s ((s.setLock r.1 { s.locks r.1 with
        readers := (s.locks r.1).readers.filter (· ≠ t) }).goto t (.wantW r))
  /-- :45, announce -/
  | announce {s : St} {r : Req} (hpc : (s.threads t).pc = .wantW r)
      (hw : (s.locks r.1).writer = none) (hp : (s.locks r.1).pending = none) :
      StepBy t s ((s.setLock r.1 { s.locks r.1 with pending := some t }).goto t (.waitW r))
  /-- :45, acquire -/
  | lock {s : St} {r : Req} (hpc : (s.threads t).pc = .waitW r)
      (hr : (s.locks r.1).readers = []) :
      StepBy t s ((s.setLock r.1 { s.locks r.1 with pending := none, writer := some t }).goto t
        (.readW r))
  /-- :47-50, found now -/
  | lookWHit {s : St} {r : Req} {h : Handle} (hpc : (s.threads t).pc = .readW r)
      (hc : s.cache r.1 r.2 = some h) :
      StepBy t s (s.goto t (.unlockW r (some h)))
  /-- :47-51, still not found -/
  | lookWMiss {s : St} {r : Req} (hpc : (s.threads t).pc = .readW r)
      (hc : s.cache r.1 r.2 = none) :
      StepBy t s (s.goto t (.load r))
  /-- :51, the load succeeds -/
  | loadOk {s : St} {r : Req} (hpc : (s.threads t).pc = .load r) :
      StepBy t s ({ s with next := s.next + 1, loads := (r, s.next) :: s.loads }.goto t
        (.store r s.next))
  /-- :51-54, the load fails -/
  | loadErr {s : St} {r : Req} (hpc : (s.threads t).pc = .load r) :
      StepBy t s ({ s with fails := (t, r) :: s.fails }.goto t (.unlockW r none))
  /-- :55 -/
  | store {s : St} {r : Req} {h : Handle} (hpc : (s.threads t).pc = .store r h) :
      StepBy t s ({ s with cache := upd s.cache r.1 (upd (s.cache r.1) r.2 (some h)) }.goto t
        (.unlockW r (some h)))
  /-- :46, :56 -/
  | unlock {s : St} {r : Req} {v : Option Handle} (hpc : (s.threads t).pc = .unlockW r v) :
      StepBy t s ((s.setLock r.1 { s.locks r.1 with writer := none }).ret t r v)

/-- One step of some thread. -/
def Step (s s' : St) : Prop := ∃ t, StepBy t s s'

/-- The initial state, /repo/table/manager.go:22-25: `prog t` are the requests of thread `t`. -/
def St.init (prog : Tid → List Req) : St where
  threads t := ⟨.idle, prog t, []⟩
  locks _ := ⟨[], none, none⟩
  cache _ _ := none
  next := 0
  loads := []
  fails := []

/-- States that can occur. -/
inductive Reachable (prog : Tid → List Req) : St → Prop
  | init : Reachable prog (St.init prog)
  | step {s s' : St} : Reachable prog s → Step s s' → Reachable prog s'

end Gobufr.Mgr
