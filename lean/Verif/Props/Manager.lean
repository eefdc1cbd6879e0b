import Verif.Model.Manager

/-!
# Properties of the concurrent table cache (C22 - C24)
-/

set_option linter.unusedSimpArgs false

namespace Gobufr.Mgr

/-! ## The invariant -/

/-- `pc` holds the read lock of `k`. -/
def Pc.reads (k : Kind) : Pc → Prop
  | .readR r | .gotR r _ => r.1 = k
  | _ => False

/-- `pc` holds the write lock of `k`. -/
def Pc.writes (k : Kind) : Pc → Prop
  | .readW r | .load r | .store r _ | .unlockW r _ => r.1 = k
  | _ => False

/-- `pc` has announced itself as a writer of `k`. -/
def Pc.waits (k : Kind) : Pc → Prop
  | .waitW r => r.1 = k
  | _ => False

structure Inv (s : St) : Prop where
  readers : ∀ k t, t ∈ (s.locks k).readers ↔ (s.threads t).pc.reads k
  writer : ∀ k t, (s.locks k).writer = some t ↔ (s.threads t).pc.writes k
  pending : ∀ k t, (s.locks k).pending = some t ↔ (s.threads t).pc.waits k
  excl : ∀ k, (s.locks k).writer ≠ none → (s.locks k).readers = [] ∧ (s.locks k).pending = none
  gotR : ∀ t r h, (s.threads t).pc = .gotR r (some h) → s.cache r.1 r.2 = some h
  unlockW : ∀ t r h, (s.threads t).pc = .unlockW r (some h) → s.cache r.1 r.2 = some h
  load : ∀ t r, (s.threads t).pc = .load r → s.cache r.1 r.2 = none
  store : ∀ t r h, (s.threads t).pc = .store r h → s.cache r.1 r.2 = none ∧ (r, h) ∈ s.loads
  done : ∀ t r h, (r, some h) ∈ (s.threads t).done → s.cache r.1 r.2 = some h
  cached : ∀ k p h, s.cache k p = some h → ((k, p), h) ∈ s.loads
  loads : ∀ r h, (r, h) ∈ s.loads →
    s.cache r.1 r.2 = some h ∨ ∃ t, (s.threads t).pc = .store r h
  once : (s.loads.map Prod.fst).Nodup

theorem Inv.init (prog : Tid → List Req) : Inv (St.init prog) := by
  constructor <;> simp [St.init, Pc.reads, Pc.writes, Pc.waits]

theorem writes_unique {s : St} (hi : Inv s) {t u : Tid} {k : Kind}
    (ht : (s.threads t).pc.writes k) (hu : (s.threads u).pc.writes k) : t = u := by
  have h1 := (hi.writer k t).mpr ht
  have h2 := (hi.writer k u).mpr hu
  rw [h1] at h2; exact Option.some.inj h2

/-- A load in progress: no load of that path has succeeded before. -/
theorem load_fresh {s : St} (hi : Inv s) {t : Tid} {r : Req} (h : (s.threads t).pc = .load r) :
    ∀ x, (r, x) ∉ s.loads := by
  intro x hx
  rcases hi.loads r x hx with hc | ⟨u, hu⟩
  · rw [hi.load t r h] at hc; cases hc
  · have : t = u := writes_unique hi (k := r.1) (by rw [h]; rfl) (by rw [hu]; rfl)
    subst this
    rw [h] at hu; cases hu

theorem loads_keep {s : St} (hi : Inv s) (t : Tid) (th : Thread)
    (hpc : ∀ r h, (s.threads t).pc ≠ .store r h) (r : Req) (h : Handle) (hm : (r, h) ∈ s.loads) :
    s.cache r.1 r.2 = some h ∨ ∃ u, (upd s.threads t th u).pc = .store r h := by
  rcases hi.loads r h hm with hc | ⟨u, hu⟩
  · exact .inl hc
  · refine .inr ⟨u, ?_⟩
    rw [upd_ne]
    · exact hu
    · rintro rfl; exact hpc r h hu

theorem Inv.call {s : St} (hi : Inv s) {t : Tid} {r : Req} {rs : List Req} (hpc : (s.threads t).pc = .idle) :
    Inv (s.begin t r rs) := by
  obtain ⟨h1, h2, h3, h4, h5, h6, h7, h8, h9, h10, h11, h12⟩ := id hi
  refine ⟨?_, ?_, ?_, ?_, ?_, ?_, ?_, ?_, ?_, h10,
    loads_keep hi t _ (by rw [hpc]; simp), h12⟩ <;>
    simp only [St.goto, St.setLock, St.ret, St.begin] <;>
    grind [upd, Pc.reads, Pc.writes, Pc.waits]

theorem Inv.rlock {s : St} (hi : Inv s) {t : Tid} {r : Req} (hpc : (s.threads t).pc = .wantR r) (hw : (s.locks r.1).writer = none) (hp : (s.locks r.1).pending = none) :
    Inv ((s.setLock r.1 { s.locks r.1 with readers := t :: (s.locks r.1).readers }).goto t (.readR r)) := by
  obtain ⟨h1, h2, h3, h4, h5, h6, h7, h8, h9, h10, h11, h12⟩ := id hi
  refine ⟨?_, ?_, ?_, ?_, ?_, ?_, ?_, ?_, ?_, h10,
    loads_keep hi t _ (by rw [hpc]; simp), h12⟩ <;>
    simp only [St.goto, St.setLock, St.ret, St.begin] <;>
    grind [upd, Pc.reads, Pc.writes, Pc.waits]

theorem Inv.lookR {s : St} (hi : Inv s) {t : Tid} {r : Req} (hpc : (s.threads t).pc = .readR r) :
    Inv (s.goto t (.gotR r (s.cache r.1 r.2))) := by
  obtain ⟨h1, h2, h3, h4, h5, h6, h7, h8, h9, h10, h11, h12⟩ := id hi
  refine ⟨?_, ?_, ?_, ?_, ?_, ?_, ?_, ?_, ?_, h10,
    loads_keep hi t _ (by rw [hpc]; simp), h12⟩ <;>
    simp only [St.goto, St.setLock, St.ret, St.begin] <;>
    grind [upd, Pc.reads, Pc.writes, Pc.waits]

theorem Inv.runlockHit {s : St} (hi : Inv s) {t : Tid} {r : Req} {h : Handle} (hpc : (s.threads t).pc = .gotR r (some h)) :
    Inv ((s.setLock r.1 { s.locks r.1 with readers := (s.locks r.1).readers.filter (· ≠ t) }).ret t r (some h)) := by
  obtain ⟨h1, h2, h3, h4, h5, h6, h7, h8, h9, h10, h11, h12⟩ := id hi
  refine ⟨?_, ?_, ?_, ?_, ?_, ?_, ?_, ?_, ?_, h10,
    loads_keep hi t _ (by rw [hpc]; simp), h12⟩ <;>
    simp only [St.goto, St.setLock, St.ret, St.begin] <;>
    grind [upd, Pc.reads, Pc.writes, Pc.waits]

theorem Inv.runlockMiss {s : St} (hi : Inv s) {t : Tid} {r : Req} (hpc : (s.threads t).pc = .gotR r none) :
    Inv ((s.setLock r.1 { s.locks r.1 with readers := (s.locks r.1).readers.filter (· ≠ t) }).goto t (.wantW r)) := by
  obtain ⟨h1, h2, h3, h4, h5, h6, h7, h8, h9, h10, h11, h12⟩ := id hi
  refine ⟨?_, ?_, ?_, ?_, ?_, ?_, ?_, ?_, ?_, h10,
    loads_keep hi t _ (by rw [hpc]; simp), h12⟩ <;>
    simp only [St.goto, St.setLock, St.ret, St.begin] <;>
    grind [upd, Pc.reads, Pc.writes, Pc.waits]

theorem Inv.announce {s : St} (hi : Inv s) {t : Tid} {r : Req} (hpc : (s.threads t).pc = .wantW r) (hw : (s.locks r.1).writer = none) (hp : (s.locks r.1).pending = none) :
    Inv ((s.setLock r.1 { s.locks r.1 with pending := some t }).goto t (.waitW r)) := by
  obtain ⟨h1, h2, h3, h4, h5, h6, h7, h8, h9, h10, h11, h12⟩ := id hi
  refine ⟨?_, ?_, ?_, ?_, ?_, ?_, ?_, ?_, ?_, h10,
    loads_keep hi t _ (by rw [hpc]; simp), h12⟩ <;>
    simp only [St.goto, St.setLock, St.ret, St.begin] <;>
    grind [upd, Pc.reads, Pc.writes, Pc.waits]

theorem Inv.lock {s : St} (hi : Inv s) {t : Tid} {r : Req} (hpc : (s.threads t).pc = .waitW r) (hr : (s.locks r.1).readers = []) :
    Inv ((s.setLock r.1 { s.locks r.1 with pending := none, writer := some t }).goto t (.readW r)) := by
  obtain ⟨h1, h2, h3, h4, h5, h6, h7, h8, h9, h10, h11, h12⟩ := id hi
  refine ⟨?_, ?_, ?_, ?_, ?_, ?_, ?_, ?_, ?_, h10,
    loads_keep hi t _ (by rw [hpc]; simp), h12⟩ <;>
    simp only [St.goto, St.setLock, St.ret, St.begin] <;>
    grind [upd, Pc.reads, Pc.writes, Pc.waits]

theorem Inv.lookWHit {s : St} (hi : Inv s) {t : Tid} {r : Req} {h : Handle} (hpc : (s.threads t).pc = .readW r) (hc : s.cache r.1 r.2 = some h) :
    Inv (s.goto t (.unlockW r (some h))) := by
  obtain ⟨h1, h2, h3, h4, h5, h6, h7, h8, h9, h10, h11, h12⟩ := id hi
  refine ⟨?_, ?_, ?_, ?_, ?_, ?_, ?_, ?_, ?_, h10,
    loads_keep hi t _ (by rw [hpc]; simp), h12⟩ <;>
    simp only [St.goto, St.setLock, St.ret, St.begin] <;>
    grind [upd, Pc.reads, Pc.writes, Pc.waits]

theorem Inv.lookWMiss {s : St} (hi : Inv s) {t : Tid} {r : Req} (hpc : (s.threads t).pc = .readW r) (hc : s.cache r.1 r.2 = none) :
    Inv (s.goto t (.load r)) := by
  obtain ⟨h1, h2, h3, h4, h5, h6, h7, h8, h9, h10, h11, h12⟩ := id hi
  refine ⟨?_, ?_, ?_, ?_, ?_, ?_, ?_, ?_, ?_, h10,
    loads_keep hi t _ (by rw [hpc]; simp), h12⟩ <;>
    simp only [St.goto, St.setLock, St.ret, St.begin] <;>
    grind [upd, Pc.reads, Pc.writes, Pc.waits]

theorem Inv.loadErr {s : St} (hi : Inv s) {t : Tid} {r : Req} (hpc : (s.threads t).pc = .load r) :
    Inv ({ s with fails := (t, r) :: s.fails }.goto t (.unlockW r none)) := by
  obtain ⟨h1, h2, h3, h4, h5, h6, h7, h8, h9, h10, h11, h12⟩ := id hi
  refine ⟨?_, ?_, ?_, ?_, ?_, ?_, ?_, ?_, ?_, h10,
    loads_keep hi t _ (by rw [hpc]; simp), h12⟩ <;>
    simp only [St.goto, St.setLock, St.ret, St.begin] <;>
    grind [upd, Pc.reads, Pc.writes, Pc.waits]

theorem Inv.unlock {s : St} (hi : Inv s) {t : Tid} {r : Req} {v : Option Handle} (hpc : (s.threads t).pc = .unlockW r v) :
    Inv ((s.setLock r.1 { s.locks r.1 with writer := none }).ret t r v) := by
  obtain ⟨h1, h2, h3, h4, h5, h6, h7, h8, h9, h10, h11, h12⟩ := id hi
  have hw := (h2 r.1 t).mpr (by rw [hpc]; rfl)
  refine ⟨?_, ?_, ?_, ?_, ?_, ?_, ?_, ?_, ?_, h10,
    loads_keep hi t _ (by rw [hpc]; simp), h12⟩ <;>
    simp only [St.goto, St.setLock, St.ret, St.begin] <;>
    grind [upd, Pc.reads, Pc.writes, Pc.waits]

theorem Inv.loadOk {s : St} (hi : Inv s) {t : Tid} {r : Req} (hpc : (s.threads t).pc = .load r) :
    Inv ({ s with next := s.next + 1, loads := (r, s.next) :: s.loads }.goto t
        (.store r s.next)) := by
  have hf := load_fresh hi hpc
  obtain ⟨h1, h2, h3, h4, h5, h6, h7, h8, h9, h10, h11, h12⟩ := id hi
  refine ⟨?_, ?_, ?_, ?_, ?_, ?_, ?_, ?_, ?_, ?_, ?_, ?_⟩
  case refine_11 =>
    intro r' h' hm
    simp only [St.goto, List.mem_cons, Prod.mk.injEq] at hm
    rcases hm with ⟨rfl, rfl⟩ | hm
    · exact .inr ⟨t, by simp [St.goto]⟩
    · exact loads_keep hi t _ (by rw [hpc]; simp) r' h' hm
  all_goals
    simp only [St.goto, St.setLock, St.ret, St.begin]
    grind [upd, Pc.reads, Pc.writes, Pc.waits]

theorem Inv.storeStep {s : St} (hi : Inv s) {t : Tid} {r : Req} {h : Handle}
    (hpc : (s.threads t).pc = .store r h) :
    Inv ({ s with cache := upd s.cache r.1 (upd (s.cache r.1) r.2 (some h)) }.goto t
        (.unlockW r (some h))) := by
  have hn := (hi.store t r h hpc).1
  have hm := (hi.store t r h hpc).2
  obtain ⟨h1, h2, h3, h4, h5, h6, h7, h8, h9, h10, h11, h12⟩ := id hi
  have key : ∀ k p x, s.cache k p = some x →
      upd s.cache r.1 (upd (s.cache r.1) r.2 (some h)) k p = some x := by
    intro k p x hx
    by_cases hk : k = r.1
    · subst hk
      by_cases hp : p = r.2
      · subst hp; rw [hn] at hx; cases hx
      · rw [upd_self, upd_ne _ _ hp]; exact hx
    · rw [upd_ne _ _ hk]; exact hx
  refine ⟨?_, ?_, ?_, ?_, ?_, ?_, ?_, ?_, ?_, ?_, ?_, h12⟩
  case refine_11 =>
    intro r' h' hm'
    simp only [St.goto] at hm' ⊢
    rcases hi.loads r' h' hm' with hc | ⟨u, hu⟩
    · exact .inl (key _ _ _ hc)
    · by_cases hut : u = t
      · subst hut
        rw [hpc] at hu
        cases hu
        exact .inl (by simp)
      · exact .inr ⟨u, by rw [upd_ne _ _ hut]; exact hu⟩
  case refine_5 =>
    intro u r' h' hu
    simp only [St.goto] at hu ⊢
    by_cases hut : u = t
    · subst hut; simp at hu
    · rw [upd_ne _ _ hut] at hu; exact key _ _ _ (h5 u r' h' hu)
  case refine_6 =>
    intro u r' h' hu
    simp only [St.goto] at hu ⊢
    by_cases hut : u = t
    · subst hut
      simp only [upd_self, Pc.unlockW.injEq, Option.some.injEq] at hu
      obtain ⟨rfl, rfl⟩ := hu
      simp
    · rw [upd_ne _ _ hut] at hu; exact key _ _ _ (h6 u r' h' hu)
  case refine_7 =>
    intro u r' hu
    simp only [St.goto] at hu ⊢
    by_cases hut : u = t
    · subst hut; simp at hu
    · rw [upd_ne _ _ hut] at hu
      have : r'.1 ≠ r.1 := fun e => hut (writes_unique hi (k := r.1) (by rw [hu]; exact e)
        (by rw [hpc]; rfl))
      rw [upd_ne _ _ this]; exact h7 u r' hu
  case refine_8 =>
    intro u r' h' hu
    simp only [St.goto] at hu ⊢
    by_cases hut : u = t
    · subst hut; simp at hu
    · rw [upd_ne _ _ hut] at hu
      have : r'.1 ≠ r.1 := fun e => hut (writes_unique hi (k := r.1) (by rw [hu]; exact e)
        (by rw [hpc]; rfl))
      rw [upd_ne _ _ this]; exact h8 u r' h' hu
  case refine_9 =>
    intro u r' h' hu
    simp only [St.goto] at hu ⊢
    have : (r', some h') ∈ (s.threads u).done := by
      by_cases hut : u = t
      · subst hut; simpa using hu
      · rwa [upd_ne _ _ hut] at hu
    exact key _ _ _ (h9 u r' h' this)
  case refine_10 =>
    intro k p x hx
    simp only [St.goto] at hx ⊢
    by_cases hk : k = r.1
    · subst hk
      by_cases hp : p = r.2
      · subst hp; simp at hx; subst hx; exact hm
      · rw [upd_self, upd_ne _ _ hp] at hx; exact h10 _ _ _ hx
    · rw [upd_ne _ _ hk] at hx; exact h10 _ _ _ hx
  all_goals
    simp only [St.goto]
    grind [upd, Pc.reads, Pc.writes, Pc.waits]

theorem Inv.step {s s' : St} (hi : Inv s) (hst : Step s s') : Inv s' := by
  obtain ⟨t, hst⟩ := hst
  cases hst with
  | call hpc htodo => exact hi.call hpc
  | rlock hpc hw hp => exact hi.rlock hpc hw hp
  | lookR hpc => exact hi.lookR hpc
  | runlockHit hpc => exact hi.runlockHit hpc
  | runlockMiss hpc => exact hi.runlockMiss hpc
  | announce hpc hw hp => exact hi.announce hpc hw hp
  | lock hpc hr => exact hi.lock hpc hr
  | lookWHit hpc hc => exact hi.lookWHit hpc hc
  | lookWMiss hpc hc => exact hi.lookWMiss hpc hc
  | loadOk hpc => exact hi.loadOk hpc
  | loadErr hpc => exact hi.loadErr hpc
  | store hpc => exact hi.storeStep hpc
  | unlock hpc => exact hi.unlock hpc

theorem Reachable.inv {prog : Tid → List Req} {s : St} (h : Reachable prog s) : Inv s := by
  induction h with
  | init => exact Inv.init prog
  | step _ hst ih => exact ih.step hst

/-! ## C22 -/

/-- C22. All successful answers for one table path are the same table object, whoever asked. -/
theorem C22_one_object (prog : Tid → List Req) (s : St) (hr : Reachable prog s)
    (t u : Tid) (r : Req) (h h' : Handle)
    (ht : (r, some h) ∈ (s.threads t).done) (hu : (r, some h') ∈ (s.threads u).done) : h = h' := by
  have h1 := hr.inv.done t r h ht
  have h2 := hr.inv.done u r h' hu
  rw [h1] at h2
  exact Option.some.inj h2

/-- C22. No table file is loaded successfully twice. -/
theorem C22_loaded_once (prog : Tid → List Req) (s : St) (hr : Reachable prog s) :
    (s.loads.map Prod.fst).Nodup := hr.inv.once

/-- C22. An object handed out is the result of a successful load of the path asked for. -/
theorem C22_answers_are_loads (prog : Tid → List Req) (s : St) (hr : Reachable prog s)
    (t : Tid) (r : Req) (h : Handle) (ht : (r, some h) ∈ (s.threads t).done) :
    (r, h) ∈ s.loads := hr.inv.cached _ _ _ (hr.inv.done t r h ht)

/-! ## C23 -/

/-- The map (of which kind) that the next step of a thread reads. -/
def Pc.mapRead : Pc → Option Kind
  | .readR r | .readW r => some r.1
  | _ => none

/-- The map that the next step of a thread writes. -/
def Pc.mapWrite : Pc → Option Kind
  | .store r _ => some r.1
  | _ => none

/-- C23. No data race: when a thread is about to write a map, no other thread is about to read
or write it. -/
theorem C23_no_race (prog : Tid → List Req) (s : St) (hr : Reachable prog s) (t u : Tid)
    (k : Kind) (ht : (s.threads t).pc.mapWrite = some k)
    (hu : (s.threads u).pc.mapWrite = some k ∨ (s.threads u).pc.mapRead = some k) : t = u := by
  have hi := hr.inv
  have wt : (s.threads t).pc.writes k := by
    cases hp : (s.threads t).pc <;> simp [hp, Pc.mapWrite, Pc.writes] at ht ⊢; exact ht
  cases hp : (s.threads u).pc <;> simp [hp, Pc.mapWrite, Pc.mapRead] at hu
  · exfalso
    have h1 := (hi.writer k t).mpr wt
    have h2 := (hi.readers k u).mpr (by rw [hp]; exact hu)
    have h3 := (hi.excl k (by rw [h1]; simp)).1
    rw [h3] at h2; cases h2
  · exact writes_unique hi wt (by rw [hp]; exact hu)
  · exact writes_unique hi wt (by rw [hp]; exact hu)

/-- C23. Mutual exclusion: a thread inside the write section of a kind excludes every other
thread from both sections of that kind. -/
theorem C23_mutual_exclusion (prog : Tid → List Req) (s : St) (hr : Reachable prog s)
    (t u : Tid) (k : Kind) (ht : (s.threads t).pc.writes k)
    (hu : (s.threads u).pc.writes k ∨ (s.threads u).pc.reads k) : t = u := by
  have hi := hr.inv
  rcases hu with hu | hu
  · exact writes_unique hi ht hu
  · exfalso
    have h1 := (hi.writer k t).mpr ht
    have h2 := (hi.readers k u).mpr hu
    rw [(hi.excl k (by rw [h1]; simp)).1] at h2; cases h2

/-- The thread has something left to do. -/
def Thread.unfinished (th : Thread) : Prop := th.pc ≠ .idle ∨ th.todo ≠ []

/-- C23. No deadlock: whenever some thread is unfinished, some thread can move. -/
theorem C23_no_deadlock (prog : Tid → List Req) (s : St) (hr : Reachable prog s) (t : Tid)
    (ht : (s.threads t).unfinished) : ∃ s', Step s s' := by
  have hi := hr.inv
  -- a thread in a read or write section can always move
  have hread : ∀ k u, u ∈ (s.locks k).readers → ∃ s', Step s s' := by
    intro k u hu
    have hp := (hi.readers k u).mp hu
    cases hpc : (s.threads u).pc with
    | readR r => exact ⟨_, u, .lookR hpc⟩
    | gotR r v =>
      cases v with
      | none => exact ⟨_, u, .runlockMiss hpc⟩
      | some h => exact ⟨_, u, .runlockHit hpc⟩
    | _ => rw [hpc] at hp; exact absurd hp (by simp [Pc.reads])
  have hwrite : ∀ k u, (s.locks k).writer = some u → ∃ s', Step s s' := by
    intro k u hu
    have hp := (hi.writer k u).mp hu
    cases hpc : (s.threads u).pc with
    | readW r =>
      cases hc : s.cache r.1 r.2 with
      | none => exact ⟨_, u, .lookWMiss hpc hc⟩
      | some h => exact ⟨_, u, .lookWHit hpc hc⟩
    | load r => exact ⟨_, u, .loadErr hpc⟩
    | store r h => exact ⟨_, u, .store hpc⟩
    | unlockW r v => exact ⟨_, u, .unlock hpc⟩
    | _ => rw [hpc] at hp; exact absurd hp (by simp [Pc.writes])
  have hpend : ∀ k u, (s.locks k).pending = some u → ∃ s', Step s s' := by
    intro k u hu
    have hp := (hi.pending k u).mp hu
    cases hpc : (s.threads u).pc with
    | waitW r =>
      rw [hpc] at hp
      cases hrd : (s.locks r.1).readers with
      | nil => exact ⟨_, u, .lock hpc hrd⟩
      | cons v vs => exact hread r.1 v (by rw [hrd]; simp)
    | _ => rw [hpc] at hp; exact absurd hp (by simp [Pc.waits])
  -- a thread that wants a lock can move, or the one in its way can
  have hfree : ∀ k, (∃ s', Step s s') ∨ ((s.locks k).writer = none ∧ (s.locks k).pending = none) := by
    intro k
    cases hw : (s.locks k).writer with
    | some u => exact .inl (hwrite k u hw)
    | none =>
      cases hp : (s.locks k).pending with
      | some u => exact .inl (hpend k u hp)
      | none => exact .inr ⟨rfl, rfl⟩
  cases hpc : (s.threads t).pc with
  | idle =>
    cases htd : (s.threads t).todo with
    | nil => rcases ht with h | h
             · exact absurd hpc h
             · exact absurd htd h
    | cons r rs => exact ⟨_, t, .call hpc htd⟩
  | wantR r =>
    rcases hfree r.1 with h | ⟨h1, h2⟩
    · exact h
    · exact ⟨_, t, .rlock hpc h1 h2⟩
  | readR r => exact ⟨_, t, .lookR hpc⟩
  | gotR r v => exact hread r.1 t ((hi.readers r.1 t).mpr (by rw [hpc]; rfl))
  | wantW r =>
    rcases hfree r.1 with h | ⟨h1, h2⟩
    · exact h
    · exact ⟨_, t, .announce hpc h1 h2⟩
  | waitW r => exact hpend r.1 t ((hi.pending r.1 t).mpr (by rw [hpc]; rfl))
  | readW r => exact hwrite r.1 t ((hi.writer r.1 t).mpr (by rw [hpc]; rfl))
  | load r => exact hwrite r.1 t ((hi.writer r.1 t).mpr (by rw [hpc]; rfl))
  | store r h => exact hwrite r.1 t ((hi.writer r.1 t).mpr (by rw [hpc]; rfl))
  | unlockW r v => exact hwrite r.1 t ((hi.writer r.1 t).mpr (by rw [hpc]; rfl))

/-- Steps a thread can still take for its current request. -/
def Pc.rank : Pc → Nat
  | .idle => 0
  | .unlockW .. => 1
  | .store .. => 2
  | .load .. => 3
  | .readW .. => 4
  | .waitW .. => 5
  | .wantW .. => 6
  | .gotR .. => 7
  | .readR .. => 8
  | .wantR .. => 9

/-- Bound on the steps a thread can still take. -/
def Thread.rank (th : Thread) : Nat := 10 * th.todo.length + th.pc.rank

/-- C23. No livelock: every step uses up one of at most ten steps per request of its thread and
touches no other thread, so threads with finitely many requests finish. -/
theorem C23_no_livelock (s s' : St) (t : Tid) (h : StepBy t s s') :
    (s'.threads t).rank < (s.threads t).rank ∧ ∀ u, u ≠ t → s'.threads u = s.threads u := by
  cases h with
  | call hpc htodo =>
    refine ⟨?_, fun u hu => by simp [St.begin, upd_ne _ _ hu]⟩
    simp [St.begin, Thread.rank, hpc, htodo, Pc.rank]; omega
  | runlockHit hpc | runlockMiss hpc | lookR hpc | loadOk hpc | loadErr hpc | store hpc
  | unlock hpc =>
    refine ⟨?_, fun u hu => by simp [St.goto, St.ret, St.setLock, upd_ne _ _ hu]⟩
    simp [St.goto, St.ret, St.setLock, Thread.rank, hpc, Pc.rank]
  | rlock hpc _ _ | announce hpc _ _ | lock hpc _ | lookWHit hpc _ | lookWMiss hpc _ =>
    refine ⟨?_, fun u hu => by simp [St.goto, St.ret, St.setLock, upd_ne _ _ hu]⟩
    simp [St.goto, St.setLock, Thread.rank, hpc, Pc.rank]

/-- An execution of `n` steps, all taken by threads of the list `ts`. -/
inductive Run (ts : List Tid) : Nat → St → St → Prop
  | nil (s : St) : Run ts 0 s s
  | cons {n : Nat} {s s' s'' : St} {t : Tid} : t ∈ ts → StepBy t s s' → Run ts n s' s'' →
      Run ts (n + 1) s s''

/-- C23. With finitely many threads every execution is finite, with a bound known in advance. -/
theorem C23_bounded (ts : List Tid) (n : Nat) (s s' : St) (h : Run ts n s s') :
    n + (ts.map fun t => (s'.threads t).rank).sum ≤ (ts.map fun t => (s.threads t).rank).sum := by
  induction h with
  | nil s => simp
  | @cons n s s1 s2 t ht hst _ ih =>
    have hr := C23_no_livelock s s1 t hst
    have : ∀ l : List Tid, (l.map fun t => (s1.threads t).rank).sum
          ≤ (l.map fun t => (s.threads t).rank).sum ∧
        (t ∈ l → (l.map fun t => (s1.threads t).rank).sum
          < (l.map fun t => (s.threads t).rank).sum) := by
      intro l
      induction l with
      | nil => simp
      | cons a l ihl =>
        simp only [List.map_cons, List.sum_cons, List.mem_cons]
        by_cases ha : a = t
        · subst ha; exact ⟨by omega, fun _ => by omega⟩
        · rw [hr.2 a ha]
          refine ⟨by omega, fun h => ?_⟩
          rcases h with h | h
          · exact absurd h.symm ha
          · have := ihl.2 h; omega
    have := (this ts).2 ht
    omega

/-! ## C24 -/

/-- C24. A failed load leaves the cache as it was, and the thread goes on to return the error. -/
theorem C24_failed_load (s : St) (t : Tid) (r : Req) (hpc : (s.threads t).pc = .load r) :
    ∃ s1 s2, StepBy t s s1 ∧ StepBy t s1 s2 ∧ s1.cache = s.cache ∧ s2.cache = s.cache ∧
      (t, r) ∈ s1.fails ∧
      (s2.threads t).done = (s.threads t).done ++ [(r, none)] := by
  refine ⟨_, _, .loadErr hpc, .unlock (r := r) (v := none) (by simp [St.goto]), rfl, rfl, ?_, ?_⟩
  · simp [St.goto]
  · simp [St.goto, St.ret, St.setLock]

/-- C24. Whatever is in the cache was loaded successfully: a failure is never cached. -/
theorem C24_only_loaded_cached (prog : Tid → List Req) (s : St) (hr : Reachable prog s)
    (k : Kind) (p : Path) (h : Handle) (hc : s.cache k p = some h) : ((k, p), h) ∈ s.loads :=
  hr.inv.cached k p h hc

/-- C24. A request for a path that is not cached when the thread has the write lock loads the
file: the only possible next step of the thread is to go to the load. -/
theorem C24_loads_again (s s' : St) (t : Tid) (r : Req) (hpc : (s.threads t).pc = .readW r)
    (hc : s.cache r.1 r.2 = none) (h : StepBy t s s') : (s'.threads t).pc = .load r := by
  cases h <;> simp_all [St.goto]

/-- Ghost accounting: answers and the request in progress. -/
def Thread.current (th : Thread) : List Req :=
  match th.pc with
  | .idle => []
  | .wantR r | .readR r | .gotR r _ | .wantW r | .waitW r | .readW r | .load r | .store r _
  | .unlockW r _ => [r]

/-- C24. Requests are answered in order, none is lost: answers so far, the request in progress
and the requests to come are the requests of the thread. -/
theorem C24_requests_answered (prog : Tid → List Req) (s : St) (hr : Reachable prog s) (t : Tid) :
    (s.threads t).done.map Prod.fst ++ (s.threads t).current ++ (s.threads t).todo = prog t := by
  induction hr with
  | init => simp [St.init, Thread.current]
  | @step s s' _ hst ih =>
    obtain ⟨u, hst⟩ := hst
    by_cases hu : t = u
    · subst hu
      rw [← ih]
      cases hst with
      | call hpc htodo => simp [St.begin, Thread.current, hpc, htodo]
      | runlockHit hpc | runlockMiss hpc | lookR hpc | loadOk hpc | loadErr hpc | store hpc
      | unlock hpc => simp [St.goto, St.ret, St.setLock, Thread.current, hpc]
      | rlock hpc _ _ | announce hpc _ _ | lock hpc _ | lookWHit hpc _ | lookWMiss hpc _ =>
        simp [St.goto, St.setLock, Thread.current, hpc]
    · rw [(C23_no_livelock s s' u hst).2 t hu]; exact ih

/-- C24. Errors are exactly the failed loads: a thread was answered with an error (or is about to
be) exactly as often as a load of that path by that thread failed. -/
theorem C24_errors_are_failed_loads (prog : Tid → List Req) (s : St) (hr : Reachable prog s)
    (t : Tid) (r : Req) :
    (s.threads t).done.count (r, none)
      + (if (s.threads t).pc = .unlockW r none then 1 else 0) = s.fails.count (t, r) := by
  induction hr with
  | init => simp [St.init]
  | @step s s' _ hst ih =>
    obtain ⟨u, hst⟩ := hst
    by_cases hu : t = u
    · subst hu
      cases hst with
      | call hpc htodo => simpa [St.begin, hpc] using ih
      | lookR hpc | loadOk hpc | store hpc | runlockMiss hpc =>
        simpa [St.goto, St.setLock, hpc] using ih
      | rlock hpc _ _ | announce hpc _ _ | lock hpc _ | lookWHit hpc _ | lookWMiss hpc _ =>
        simpa [St.goto, St.setLock, hpc] using ih
      | runlockHit hpc =>
        simpa [St.ret, St.setLock, hpc, List.count_append, List.count_singleton] using ih
      | @loadErr r' hpc =>
        simp only [St.goto, upd_self, List.count_cons, Prod.mk.injEq, hpc] at ih ⊢
        simp only [reduceCtorEq, if_false] at ih
        by_cases hr : r' = r
        · subst hr; simpa using ih
        · simpa [hr] using ih
      | @unlock r' v hpc =>
        simp only [St.ret, St.setLock, upd_self, hpc, List.count_append,
          List.count_singleton] at ih ⊢
        simp only [reduceCtorEq, if_false, Nat.add_zero]
        rw [← ih]
        congr 1
        by_cases hr : r' = r ∧ v = none
        · obtain ⟨rfl, rfl⟩ := hr; simp
        · simp [hr]
    · have h2 := (C23_no_livelock s s' u hst).2 t hu
      rw [h2]
      have : s'.fails.count (t, r) = s.fails.count (t, r) := by
        cases hst <;> simp [St.goto, St.begin, St.ret, St.setLock, List.count_cons]
        exact fun h => absurd h.symm hu
      rw [this]; exact ih

/-- Non-vacuity: two threads, same path; one loads, both end with the same object. -/
example : ∃ s, Reachable (fun t => if t < 2 then [(.b, str "p")] else []) s ∧
    ((.b, str "p"), some 0) ∈ (s.threads 0).done ∧ ((.b, str "p"), some 0) ∈ (s.threads 1).done := by
  have r0 := Reachable.init (prog := fun t => if t < 2 then [((.b, str "p") : Req)] else [])
  have r1 := r0.step ⟨0, .call (r := (.b, str "p")) (rs := []) rfl rfl⟩
  have r2 := r1.step ⟨0, .rlock (r := (.b, str "p")) rfl rfl rfl⟩
  have r3 := r2.step ⟨0, .lookR (r := (.b, str "p")) rfl⟩
  have r4 := r3.step ⟨0, .runlockMiss (r := (.b, str "p")) rfl⟩
  have r5 := r4.step ⟨0, .announce (r := (.b, str "p")) rfl rfl rfl⟩
  have r6 := r5.step ⟨0, .lock (r := (.b, str "p")) rfl rfl⟩
  have r7 := r6.step ⟨0, .lookWMiss (r := (.b, str "p")) rfl rfl⟩
  have r8 := r7.step ⟨0, .loadOk (r := (.b, str "p")) rfl⟩
  have r9 := r8.step ⟨0, .store (r := (.b, str "p")) (h := 0) rfl⟩
  have r10 := r9.step ⟨0, .unlock (r := (.b, str "p")) (v := some 0) rfl⟩
  have r11 := r10.step ⟨1, .call (r := (.b, str "p")) (rs := []) rfl rfl⟩
  have r12 := r11.step ⟨1, .rlock (r := (.b, str "p")) rfl rfl rfl⟩
  have r13 := r12.step ⟨1, .lookR (r := (.b, str "p")) rfl⟩
  have r14 := r13.step ⟨1, .runlockHit (r := (.b, str "p")) (h := 0) rfl⟩
  exact ⟨_, r14, List.mem_cons_self, List.mem_cons_self⟩

end Gobufr.Mgr
