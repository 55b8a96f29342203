import Mathlib.Data.List.Basic
import Mathlib.Data.List.GetD
import Mathlib.Tactic.Common

/-!
# Computations on the thread pool

Model of crates/zappot/src/util/tokio_rayon.rs: `spawn_compute`, `ThreadPool::spawn_compute`,
`spawn_install_compute` and `AsyncRayonHandle::poll`, for any number of computations, worker threads and
handles.  The three functions differ only in the pool the job is put into; `install` on a worker of the same
pool runs the closure in place.

Trusted: rayon starts every job that was put into the pool on one of its workers (jobs are not lost when the pool
is dropped), tokio's `oneshot` as written below.  A function is a computation that ends with a value
or a panic.
-/
set_option autoImplicit false

namespace Verif.Util.Spawn

/-- Where a job is: in the queue of the pool, on a worker, finished. -/
inductive Phase where
  | queued | running | finished
deriving DecidableEq, Repr

/-- What the user of a handle sees when polling it. -/
inductive Seen (α π : Type) where
  | pending
  | value (a : α)
  /-- the panic of the function is resumed -/
  | panic (p : π)
  /-- `expect("Unreachable error: Tokio channel closed")` -/
  | closed
deriving DecidableEq, Repr

/-- The state of the handle. -/
inductive Handle where
  | alive | dropped | resolved
deriving DecidableEq, Repr

/-- A computation with its job, its `oneshot` channel and its handle. -/
structure Task (α π : Type) where
  /-- the result of `catch_unwind(func)` -/
  func : Except π α
  phase : Phase := .queued
  /-- how often `func` was called -/
  runs : Nat := 0
  /-- the value in the channel -/
  slot : Option (Except π α) := none
  /-- the sender exists -/
  tx : Bool := true
  handle : Handle := .alive
  /-- a waker is registered in the channel -/
  waker : Bool := false
  /-- the asynchronous task awaiting the handle is scheduled -/
  scheduled : Bool := true
  /-- what polling the handle returned, oldest first -/
  seen : List (Seen α π) := []

structure State (α π : Type) where
  tasks : List (Task α π) := []
  /-- the panic handler of the pool was called -/
  abort : Bool := false

inductive Event (α π : Type) where
  /-- a call of one of the `spawn` functions -/
  | spawn (f : Except π α)
  /-- a worker takes job `i` -/
  | start (i : Nat)
  /-- the function of job `i` returns or panics, and the job sends the result -/
  | finish (i : Nat)
  /-- handle `i` is polled -/
  | poll (i : Nat)
  | drop (i : Nat)

variable {α π : Type}

/-- tokio_rayon.rs:19-27 (95-100, 113-120): the job after `catch_unwind`.  With the handle gone, `send` returns
the result, which is dropped. -/
def Task.send (t : Task α π) : Task α π :=
  let ret := t.func
  match t.handle with
  | .alive =>
    { t with phase := .finished, slot := some ret, tx := false, scheduled := t.scheduled || t.waker, waker := false }
  | _ => { t with phase := .finished, tx := false }

/-- `oneshot::Receiver::poll` followed by tokio_rayon.rs:43-51: the task and what the caller sees. -/
def Task.poll (t : Task α π) : Task α π × Seen α π :=
  match t.slot with
  | some (.ok a) => ({ t with slot := none, handle := .resolved }, .value a)
  | some (.error p) => ({ t with slot := none, handle := .resolved }, .panic p)
  | none =>
    if t.tx then ({ t with waker := true, scheduled := false }, .pending)
    else ({ t with handle := .resolved }, .closed)

/-- The jobs on a worker. -/
def State.busy (s : State α π) : Nat := (s.tasks.filter fun t => t.phase = .running).length

/-- One event; `none` when it cannot happen.  `n` worker threads, `bad r` says that dropping the result `r`
panics (on a worker this calls the panic handler of the pool). -/
def step (n : Nat) (bad : Except π α → Bool) (s : State α π) : Event α π → Option (State α π)
  | .spawn f => if s.abort then none else some { s with tasks := s.tasks ++ [{ func := f }] }
  | .start i =>
    if s.abort then none else
    match s.tasks[i]? with
    | some t =>
      if t.phase = .queued ∧ s.busy < n then
        some { s with tasks := s.tasks.set i { t with phase := .running, runs := t.runs + 1 } }
      else none
    | none => none
  | .finish i =>
    if s.abort then none else
    match s.tasks[i]? with
    | some t =>
      if t.phase = .running then
        some { tasks := s.tasks.set i t.send, abort := decide (t.handle ≠ .alive) && bad t.func }
      else none
    | none => none
  | .poll i =>
    if s.abort then none else
    match s.tasks[i]? with
    | some t =>
      if t.handle = .alive then
        let (t, r) := t.poll
        some { s with tasks := s.tasks.set i { t with seen := t.seen ++ [r] } }
      else none
    | none => none
  | .drop i =>
    if s.abort then none else
    match s.tasks[i]? with
    | some t => if t.handle = .alive then some { s with tasks := s.tasks.set i { t with handle := .dropped, slot := none } } else none
    | none => none

def run (n : Nat) (bad : Except π α → Bool) : State α π → List (Event α π) → Option (State α π)
  | s, [] => some s
  | s, e :: es => (step n bad s e).bind fun s => run n bad s es

/-! ## Specification -/

/-- The functions given to the `spawn` calls, in order. -/
def spawned : List (Event α π) → List (Except π α)
  | [] => []
  | .spawn f :: es => f :: spawned es
  | _ :: es => spawned es

/-- What the user of a handle should see of a function. -/
def outcome : Except π α → Seen α π
  | .ok a => .value a
  | .error p => .panic p

/-- An event of the pool. -/
def Event.ofPool : Event α π → Bool
  | .start _ | .finish _ => true
  | _ => false

/-! ## Invariant -/

structure Good (t : Task α π) : Prop where
  tx : t.tx = true ↔ t.phase ≠ .finished
  runs : t.runs = if t.phase = .queued then 0 else 1
  slot : ∀ r, t.slot = some r → r = t.func ∧ t.phase = .finished
  full : t.handle = .alive → t.phase = .finished → t.slot = some t.func
  wake : t.handle = .alive → t.scheduled = false → t.waker = true ∧ t.phase ≠ .finished
  seen : ∃ k, t.seen = List.replicate k .pending ++ (if t.handle = .resolved then [outcome t.func] else []) ∨
    (t.handle = .dropped ∧ t.seen = List.replicate k .pending)
  resolved : t.handle = .resolved → t.phase = .finished

theorem good_new (f : Except π α) : Good ({ func := f } : Task α π) :=
  ⟨by simp, by simp, by simp, by simp, by simp, ⟨0, Or.inl (by simp)⟩, by simp⟩

theorem good_start {t : Task α π} (h : Good t) (hp : t.phase = .queued) :
    Good { t with phase := .running, runs := t.runs + 1 } := by
  obtain ⟨h1, h2, h3, h4, h5, h6, h7⟩ := h
  refine ⟨?_, ?_, ?_, ?_, ?_, h6, ?_⟩
  · simp [h1, hp]
  · simp [h2, hp]
  · intro r hr; have := (h3 r hr).2; rw [hp] at this; cases this
  · intro _ h; cases h
  · intro ha hs; exact ⟨(h5 ha hs).1, by simp⟩
  · intro hr; have := h7 hr; rw [hp] at this; cases this

theorem good_send {t : Task α π} (h : Good t) (hp : t.phase = .running) : Good t.send := by
  obtain ⟨h1, h2, h3, h4, h5, h6, h7⟩ := h
  unfold Task.send
  cases hh : t.handle with
  | alive =>
    dsimp only
    refine ⟨by simp, ?_, ?_, ?_, ?_, ?_, ?_⟩
    · simpa [hp] using h2
    · intro r hr; exact ⟨(Option.some.inj hr).symm, rfl⟩
    · intro _ _; rfl
    · intro _ hs
      have hs : (t.scheduled || t.waker) = false := hs
      simp only [Bool.or_eq_false_iff] at hs
      have := (h5 hh hs.1).1
      rw [hs.2] at this; cases this
    · simpa [hh] using h6
    · intro hr; cases hr
  | dropped =>
    dsimp only
    refine ⟨by simp, ?_, ?_, ?_, ?_, ?_, ?_⟩
    · simpa [hp] using h2
    · intro r hr; exact ⟨(h3 r hr).1, rfl⟩
    · intro ha; cases ha
    · intro ha; cases ha
    · simpa [hh] using h6
    · intro _; rfl
  | resolved =>
    have := h7 hh
    rw [hp] at this; cases this

theorem poll_spec {t : Task α π} (h : Good t) (ha : t.handle = .alive) :
    (t.phase = .finished ∧ t.poll.2 = outcome t.func ∧ t.poll.1.handle = .resolved) ∨
    (t.phase ≠ .finished ∧ t.poll.2 = .pending ∧ t.poll.1.handle = .alive) := by
  obtain ⟨h1, h2, h3, h4, h5, h6, h7⟩ := h
  unfold Task.poll
  by_cases hp : t.phase = .finished
  · left
    rw [h4 ha hp]
    cases t.func <;> simp [hp, outcome]
  · right
    cases hs : t.slot with
    | some r => exact absurd (h3 r hs).2 hp
    | none =>
      dsimp only
      rw [h1.mpr hp]
      simp [ha, hp]

theorem good_poll {t : Task α π} (h : Good t) (ha : t.handle = .alive) :
    Good { t.poll.1 with seen := t.poll.1.seen ++ [t.poll.2] } := by
  have hs := poll_spec h ha
  obtain ⟨h1, h2, h3, h4, h5, ⟨k, h6⟩, h7⟩ := h
  have h6 : t.seen = List.replicate k .pending := by
    rcases h6 with h | h
    · simpa [ha] using h
    · exact h.2
  rcases hs with ⟨hp, hv, hh⟩ | ⟨hp, hv, hh⟩
  · have e := h4 ha hp
    rw [hv]
    unfold Task.poll
    rw [e]
    cases hf : t.func with
    | ok a =>
      dsimp only
      exact ⟨h1, h2, by simp, by simp, by simp, ⟨k, Or.inl (by simp [h6])⟩, fun _ => hp⟩
    | error p =>
      dsimp only
      exact ⟨h1, h2, by simp, by simp, by simp, ⟨k, Or.inl (by simp [h6])⟩, fun _ => hp⟩
  · rw [hv]
    unfold Task.poll
    have e : t.slot = none := by
      cases hs : t.slot with
      | some r => exact absurd (h3 r hs).2 hp
      | none => rfl
    have e2 := h1.mpr hp
    simp only [e, e2, if_true]
    refine ⟨by simp [hp], h2, by simp, ?_, ?_, ⟨k + 1, Or.inl ?_⟩, h7⟩
    · intro _ hf; exact absurd hf hp
    · intro _ _; exact ⟨rfl, hp⟩
    · simp [ha, h6, List.replicate_succ']

theorem good_drop {t : Task α π} (h : Good t) (ha : t.handle = .alive) : Good { t with handle := .dropped, slot := none } := by
  obtain ⟨h1, h2, h3, h4, h5, ⟨k, h6⟩, h7⟩ := h
  refine ⟨h1, h2, by simp, by simp, by simp, ⟨k, Or.inl ?_⟩, by simp⟩
  rcases h6 with h | h
  · simpa [ha] using h
  · simpa using h.2


/-! ## Runs -/

theorem forall_set {ts : List (Task α π)} {P : Task α π → Prop} (h : ∀ t ∈ ts, P t) {i : Nat} {u : Task α π} (hu : P u) :
    ∀ t ∈ ts.set i u, P t := by
  intro t ht
  rcases List.mem_or_eq_of_mem_set ht with h' | rfl
  · exact h t h'
  · exact hu

theorem step_good {n : Nat} {bad : Except π α → Bool} {s s' : State α π} {e : Event α π} (hs : ∀ t ∈ s.tasks, Good t)
    (h : step n bad s e = some s') : ∀ t ∈ s'.tasks, Good t := by
  cases e with
  | spawn f =>
    simp only [step] at h
    split at h
    · cases h
    · cases h
      intro t ht
      rcases List.mem_append.mp ht with ht | ht
      · exact hs t ht
      · rw [List.mem_singleton.mp ht]; exact good_new f
  | start i =>
    simp only [step] at h
    split at h
    · cases h
    · split at h
      · rename_i t ht
        split at h
        · rename_i hc
          cases h
          exact forall_set hs (good_start (hs t (List.mem_of_getElem? ht)) hc.1)
        · cases h
      · cases h
  | finish i =>
    simp only [step] at h
    split at h
    · cases h
    · split at h
      · rename_i t ht
        split at h
        · rename_i hc
          cases h
          exact forall_set hs (good_send (hs t (List.mem_of_getElem? ht)) hc)
        · cases h
      · cases h
  | poll i =>
    simp only [step] at h
    split at h
    · cases h
    · split at h
      · rename_i t ht
        split at h
        · rename_i hc
          cases h
          exact forall_set hs (good_poll (hs t (List.mem_of_getElem? ht)) hc)
        · cases h
      · cases h
  | drop i =>
    simp only [step] at h
    split at h
    · cases h
    · split at h
      · rename_i t ht
        split at h
        · rename_i hc
          cases h
          exact forall_set hs (good_drop (hs t (List.mem_of_getElem? ht)) hc)
        · cases h
      · cases h

theorem run_good {n : Nat} {bad : Except π α → Bool} {es : List (Event α π)} : ∀ {s s' : State α π}, (∀ t ∈ s.tasks, Good t) →
    run n bad s es = some s' → ∀ t ∈ s'.tasks, Good t := by
  induction es with
  | nil => intro s s' hs h; cases h; exact hs
  | cons e es ih =>
    intro s s' hs h
    simp only [run, Option.bind_eq_some_iff] at h
    obtain ⟨s1, h1, h2⟩ := h
    exact ih (step_good hs h1) h2

theorem map_set_same {ts : List (Task α π)} {i : Nat} {t u : Task α π} (h : ts[i]? = some t) (hf : u.func = t.func) :
    (ts.set i u).map Task.func = ts.map Task.func := by
  rw [List.map_set, hf]
  apply List.ext_getElem?
  intro j
  rw [List.getElem?_set]
  split
  · rename_i hj
    subst hj
    have := List.getElem?_eq_some_iff.mp h
    obtain ⟨hl, he⟩ := this
    simp [hl, he]
  · rfl

theorem send_func (t : Task α π) : t.send.func = t.func := by
  unfold Task.send; cases t.handle <;> rfl

theorem poll_func (t : Task α π) : t.poll.1.func = t.func := by
  unfold Task.poll
  cases t.slot with
  | none => dsimp only; split <;> rfl
  | some r => cases r <;> rfl

theorem step_funcs {n : Nat} {bad : Except π α → Bool} {s s' : State α π} {e : Event α π} (h : step n bad s e = some s') :
    s'.tasks.map Task.func = s.tasks.map Task.func ++ spawned [e] := by
  cases e with
  | spawn f =>
    simp only [step] at h
    split at h
    · cases h
    · cases h; simp [spawned]
  | start i =>
    simp only [step] at h
    split at h
    · cases h
    · split at h
      · rename_i t ht
        split at h
        · cases h; simp only [spawned, List.append_nil]; exact map_set_same ht rfl
        · cases h
      · cases h
  | finish i =>
    simp only [step] at h
    split at h
    · cases h
    · split at h
      · rename_i t ht
        split at h
        · cases h; simp only [spawned, List.append_nil]; exact map_set_same ht (send_func t)
        · cases h
      · cases h
  | poll i =>
    simp only [step] at h
    split at h
    · cases h
    · split at h
      · rename_i t ht
        split at h
        · cases h; simp only [spawned, List.append_nil]; exact map_set_same ht (poll_func t)
        · cases h
      · cases h
  | drop i =>
    simp only [step] at h
    split at h
    · cases h
    · split at h
      · rename_i t ht
        split at h
        · cases h; simp only [spawned, List.append_nil]; exact map_set_same ht rfl
        · cases h
      · cases h

theorem spawned_cons (e : Event α π) (es : List (Event α π)) : spawned (e :: es) = spawned [e] ++ spawned es := by
  cases e <;> rfl

theorem run_funcs {n : Nat} {bad : Except π α → Bool} {es : List (Event α π)} : ∀ {s s' : State α π},
    run n bad s es = some s' → s'.tasks.map Task.func = s.tasks.map Task.func ++ spawned es := by
  induction es with
  | nil => intro s s' h; cases h; simp [spawned]
  | cons e es ih =>
    intro s s' h
    simp only [run, Option.bind_eq_some_iff] at h
    obtain ⟨s1, h1, h2⟩ := h
    rw [ih h2, step_funcs h1, spawned_cons e es, List.append_assoc]

/-- How many events of the pool are left for a job. -/
def Task.left (t : Task α π) : Nat :=
  match t.phase with
  | .queued => 2
  | .running => 1
  | .finished => 0

def left (ts : List (Task α π)) : Nat := (ts.map Task.left).sum

theorem left_set {ts : List (Task α π)} {i : Nat} {t u : Task α π} (h : ts[i]? = some t) :
    left (ts.set i u) + t.left = left ts + u.left := by
  induction ts generalizing i with
  | nil => simp at h
  | cons x xs ih =>
    cases i with
    | zero =>
      simp only [List.getElem?_cons_zero, Option.some.injEq] at h
      subst h
      simp only [left, List.set_cons_zero, List.map_cons, List.sum_cons]
      omega
    | succ i =>
      have := ih (i := i) (by simpa using h)
      simp only [left, List.set_cons_succ, List.map_cons, List.sum_cons] at this ⊢
      omega

theorem poll_phase (t : Task α π) : t.poll.1.phase = t.phase := by
  unfold Task.poll
  cases t.slot with
  | none => dsimp only; split <;> rfl
  | some r => cases r <;> rfl

theorem step_left {n : Nat} {bad : Except π α → Bool} {s s' : State α π} {e : Event α π} (h : step n bad s e = some s') :
    left s'.tasks + (if e.ofPool then 1 else 0) = left s.tasks + 2 * (spawned [e]).length := by
  cases e with
  | spawn f =>
    simp only [step] at h
    split at h
    · cases h
    · cases h; simp [spawned, left, Task.left, Event.ofPool]
  | start i =>
    simp only [step] at h
    split at h
    · cases h
    · split at h
      · rename_i t ht
        split at h
        · rename_i hc
          cases h
          have h1 := left_set (u := { t with phase := .running, runs := t.runs + 1 }) ht
          simp only [Task.left, hc.1] at h1
          simp only [spawned, Event.ofPool, List.length_nil, if_true]
          omega
        · cases h
      · cases h
  | finish i =>
    simp only [step] at h
    split at h
    · cases h
    · split at h
      · rename_i t ht
        split at h
        · rename_i hc
          cases h
          have h1 := left_set (u := t.send) ht
          have h2 : t.send.phase = .finished := by unfold Task.send; cases t.handle <;> rfl
          simp only [Task.left, hc, h2] at h1
          simp only [spawned, Event.ofPool, List.length_nil, if_true]
          omega
        · cases h
      · cases h
  | poll i =>
    simp only [step] at h
    split at h
    · cases h
    · split at h
      · rename_i t ht
        split at h
        · cases h
          have h1 := left_set (u := { t.poll.1 with seen := t.poll.1.seen ++ [t.poll.2] }) ht
          have h2 : Task.left { t.poll.1 with seen := t.poll.1.seen ++ [t.poll.2] } = t.left := by
            simp only [Task.left, poll_phase]
          rw [h2] at h1
          simp only [spawned, Event.ofPool, List.length_nil, Bool.false_eq_true, if_false]
          have h3 := Nat.add_right_cancel h1
          exact congrArg (· + 0) h3
        · cases h
      · cases h
  | drop i =>
    simp only [step] at h
    split at h
    · cases h
    · split at h
      · rename_i t ht
        split at h
        · cases h
          have h1 := left_set (u := { t with handle := .dropped, slot := none }) ht
          simp only [Task.left] at h1
          simp [spawned, Event.ofPool]
          omega
        · cases h
      · cases h

theorem run_left {n : Nat} {bad : Except π α → Bool} {es : List (Event α π)} : ∀ {s s' : State α π},
    run n bad s es = some s' →
      left s'.tasks + (es.filter Event.ofPool).length = left s.tasks + 2 * (spawned es).length := by
  induction es with
  | nil => intro s s' h; cases h; simp [spawned]
  | cons e es ih =>
    intro s s' h
    simp only [run, Option.bind_eq_some_iff] at h
    obtain ⟨s1, h1, h2⟩ := h
    have a := ih h2
    have b := step_left h1
    rw [spawned_cons e es, List.length_append]
    cases he : e.ofPool
    · rw [List.filter_cons_of_neg (by simp [he])]
      simp only [he] at b
      simp at b
      omega
    · rw [List.filter_cons_of_pos he]
      simp only [he, if_true] at b
      simp only [List.length_cons]
      omega

/-! ## Theorems -/

/-- **Handles give the result of their own function.**  For every number of workers and every sequence of
calls, polls, drops and pool events: handle `i` belongs to the `i`-th call; polling it returned `pending` some number of times and then, if it
returned anything else, once the value of that function, or its panic.  It never saw a closed channel.  The function was called at most once, and
exactly once when the handle returned a result.  The results of other functions, their panics, and dropped handles
make no difference. -/
theorem handle_result (n : Nat) (bad : Except π α → Bool) (es : List (Event α π)) (s : State α π) (h : run n bad {} es = some s) :
    s.tasks.length = (spawned es).length ∧
    ∀ (i : Nat) (t : Task α π) (f : Except π α), s.tasks[i]? = some t → (spawned es)[i]? = some f →
      t.runs ≤ 1 ∧ Seen.closed ∉ t.seen ∧
      ∃ k, t.seen = List.replicate k .pending ∨ (t.seen = List.replicate k .pending ++ [outcome f] ∧ t.runs = 1) := by
  have hf := run_funcs h
  simp only [List.map_nil, List.nil_append] at hf
  refine ⟨by rw [← hf, List.length_map], ?_⟩
  intro i t f ht hi
  have e : t.func = f := by
    have := congrArg (·[i]?) hf
    simp only [List.getElem?_map, ht, Option.map_some, hi, Option.some.injEq] at this
    exact this
  obtain ⟨h1, h2, h3, h4, h5, ⟨k, h6⟩, h7⟩ := run_good (by simp) h t (List.mem_of_getElem? ht)
  have hseen : t.seen = List.replicate k .pending ∨ (t.seen = List.replicate k .pending ++ [outcome f] ∧ t.runs = 1) := by
    rcases h6 with h | h
    · by_cases hr : t.handle = .resolved
      · right
        rw [if_pos hr, e] at h
        exact ⟨h, by rw [h2, h7 hr]; rfl⟩
      · left; simpa [hr] using h
    · exact Or.inl h.2
  refine ⟨by rw [h2]; split <;> omega, ?_, k, hseen⟩
  rcases hseen with h | ⟨h, _⟩
  · rw [h]; intro hm; have := List.eq_of_mem_replicate hm; cases this
  · rw [h]; intro hm
    rcases List.mem_append.mp hm with hm | hm
    · have := List.eq_of_mem_replicate hm; cases this
    · have := List.mem_singleton.mp hm; cases f <;> cases this

/-- **A finished function is delivered at once.**  In every reachable state, polling a handle that is neither dropped nor resolved gives the
outcome of its function if the job has finished, and `pending` if not. -/
theorem poll_delivers (n : Nat) (bad : Except π α → Bool) (es : List (Event α π)) (s : State α π) (h : run n bad {} es = some s)
    (ha : s.abort = false) (i : Nat) (t : Task α π) (ht : s.tasks[i]? = some t) (hh : t.handle = .alive) :
    ∃ (s' : State α π) (t' : Task α π), step n bad s (.poll i) = some s' ∧ s'.tasks[i]? = some t' ∧
      t'.seen = t.seen ++ [if t.phase = .finished then outcome t.func else .pending] := by
  have hg := run_good (by simp) h t (List.mem_of_getElem? ht)
  refine ⟨{ s with tasks := s.tasks.set i { t.poll.1 with seen := t.poll.1.seen ++ [t.poll.2] } },
    { t.poll.1 with seen := t.poll.1.seen ++ [t.poll.2] }, ?_, ?_, ?_⟩
  · simp [step, ha, ht, hh]
  · have := (List.getElem?_eq_some_iff.mp ht).1
    simp [this]
  · have hs : t.poll.1.seen = t.seen := by
      unfold Task.poll
      cases t.slot with
      | none => dsimp only; split <;> rfl
      | some r => cases r <;> rfl
    rcases poll_spec hg hh with ⟨hp, hv, _⟩ | ⟨hp, hv, _⟩
    · simp only [hs, hv, hp, if_true]
    · simp only [hs, hv, hp, if_false]

/-- **No wake-up is lost, and the pool never gets stuck.**  In every reachable state in which the panic handler was not called, with at least one
worker: as long as a job is not finished, an event of the pool is possible; and when none is possible, every handle that is still awaited is
scheduled to be polled (so that it is polled, and by `poll_delivers` gets its result).  A run with `k` calls has at most `2k` events of the pool. -/
theorem pool_progress (n : Nat) (hn : 0 < n) (bad : Except π α → Bool) (es : List (Event α π)) (s : State α π) (h : run n bad {} es = some s)
    (ha : s.abort = false) :
    (es.filter Event.ofPool).length ≤ 2 * (spawned es).length ∧
    ((∃ t ∈ s.tasks, t.phase ≠ .finished) → ∃ (e : Event α π) (s' : State α π), e.ofPool = true ∧ step n bad s e = some s') ∧
    ((∀ (e : Event α π), e.ofPool = true → step n bad s e = none) →
      ∀ t ∈ s.tasks, t.phase = .finished ∧ (t.handle = .alive → t.scheduled = true)) := by
  have hl := run_left h
  have hg := run_good (by simp) h
  have hprog : (∃ t ∈ s.tasks, t.phase ≠ .finished) → ∃ (e : Event α π) (s' : State α π), e.ofPool = true ∧ step n bad s e = some s' := by
    rintro ⟨t, ht, hp⟩
    by_cases hb : s.busy = 0
    · obtain ⟨i, hi, rfl⟩ := List.getElem_of_mem ht
      have hq : s.tasks[i].phase = .queued := by
        cases hc : s.tasks[i].phase with
        | queued => rfl
        | finished => exact absurd hc hp
        | running =>
          simp only [State.busy, List.length_eq_zero_iff, List.filter_eq_nil_iff] at hb
          exact absurd (by simpa using hc) (hb _ ht)
      refine ⟨.start i, { s with tasks := s.tasks.set i { s.tasks[i] with phase := .running, runs := s.tasks[i].runs + 1 } }, rfl, ?_⟩
      simp [step, ha, List.getElem?_eq_getElem hi, hq, hb, hn]
    · have : ∃ u ∈ s.tasks, u.phase = .running := by
        by_contra hno
        push Not at hno
        apply hb
        simp only [State.busy, List.length_eq_zero_iff, List.filter_eq_nil_iff]
        intro u hu
        simpa using hno u hu
      obtain ⟨u, hu, hr⟩ := this
      obtain ⟨i, hi, rfl⟩ := List.getElem_of_mem hu
      refine ⟨.finish i, { tasks := s.tasks.set i s.tasks[i].send, abort := decide (s.tasks[i].handle ≠ .alive) && bad s.tasks[i].func }, rfl, ?_⟩
      simp [step, ha, List.getElem?_eq_getElem hi, hr]
  refine ⟨?_, hprog, ?_⟩
  · simp only [left, List.map_nil, List.sum_nil] at hl
    omega
  · intro hstuck t ht
    have hf : t.phase = .finished := by
      by_contra hc
      obtain ⟨e, s', he, hs⟩ := hprog ⟨t, ht, hc⟩
      rw [hstuck e he] at hs; cases hs
    refine ⟨hf, ?_⟩
    intro hal
    by_contra hns
    exact ((hg t ht).wake hal (by simpa using hns)).2 hf

/-- **A panic of a function does not reach the pool.**  The panic handler of the pool is called only if a handle was dropped while its job had not
finished, and dropping the result of that function panics itself. -/
theorem pool_survives (n : Nat) (bad : Except π α → Bool) (es : List (Event α π)) (s : State α π) (h : run n bad {} es = some s)
    (ha : s.abort = true) : ∃ (i : Nat) (f : Except π α), (spawned es)[i]? = some f ∧ bad f = true ∧ ∃ t, s.tasks[i]? = some t ∧ t.handle = .dropped := by
  have key : ∀ (es : List (Event α π)) (s0 : State α π), s0.abort = false → (∀ t ∈ s0.tasks, Good t) → run n bad s0 es = some s → s.abort = true →
      ∃ (i : Nat) (t : Task α π), s.tasks[i]? = some t ∧ bad t.func = true ∧ t.handle = .dropped := by
    intro es
    induction es with
    | nil => intro s0 h0 _ h1 h2; cases h1; rw [h0] at h2; cases h2
    | cons e es ih =>
      intro s0 h0 hg0 h1 h2
      simp only [run, Option.bind_eq_some_iff] at h1
      obtain ⟨s1, hs1, hr⟩ := h1
      cases hab : s1.abort with
      | false => exact ih s1 hab (step_good hg0 hs1) hr h2
      | true =>
        have hes : es = [] := by
          cases es with
          | nil => rfl
          | cons e' es' =>
            simp only [run] at hr
            cases e' <;> simp [step, hab] at hr
        subst hes
        cases hr
        cases e with
        | finish i =>
          simp only [step, h0] at hs1
          cases ht : s0.tasks[i]? with
          | none => simp [ht] at hs1
          | some t =>
            simp only [ht] at hs1
            by_cases hp : t.phase = .running
            · simp only [hp, if_true, Bool.false_eq_true, if_false, Option.some.injEq] at hs1
              subst hs1
              simp only [Bool.and_eq_true, decide_eq_true_eq] at hab
              have hg := hg0 t (List.mem_of_getElem? ht)
              have hd : t.handle = .dropped := by
                cases hh : t.handle with
                | alive => exact absurd hh hab.1
                | dropped => rfl
                | resolved => have := hg.resolved hh; rw [hp] at this; cases this
              refine ⟨i, t.send, ?_, ?_, ?_⟩
              · have := (List.getElem?_eq_some_iff.mp ht).1
                simp [this]
              · rw [send_func]; exact hab.2
              · unfold Task.send; rw [hd]
            · simp [hp] at hs1
        | spawn f => simp [step, h0] at hs1; subst hs1; cases hab
        | start i =>
          simp only [step, h0] at hs1
          cases ht : s0.tasks[i]? with
          | none => simp [ht] at hs1
          | some t =>
            simp only [ht, Bool.false_eq_true, if_false] at hs1
            split at hs1
            · cases hs1; cases hab
            · cases hs1
        | poll i =>
          simp only [step, h0] at hs1
          cases ht : s0.tasks[i]? with
          | none => simp [ht] at hs1
          | some t =>
            simp only [ht, Bool.false_eq_true, if_false] at hs1
            split at hs1
            · cases hs1; cases hab
            · cases hs1
        | drop i =>
          simp only [step, h0] at hs1
          cases ht : s0.tasks[i]? with
          | none => simp [ht] at hs1
          | some t =>
            simp only [ht, Bool.false_eq_true, if_false] at hs1
            split at hs1
            · cases hs1; cases hab
            · cases hs1
  obtain ⟨i, t, ht, hb, hd⟩ := key es {} rfl (by simp) h ha
  have hf := run_funcs h
  simp only [List.map_nil, List.nil_append] at hf
  refine ⟨i, t.func, ?_, hb, t, ht, hd⟩
  rw [← hf, List.getElem?_map, ht]; rfl

/-! ## Examples -/

/-- Two workers, three calls: the second function panics, the third handle is dropped while its job runs. -/
def demo : List (Event Nat String) :=
  [.spawn (.ok 7), .spawn (.error "boom"), .poll 0, .start 1, .spawn (.ok 9), .start 0, .finish 1, .start 2, .drop 2, .finish 2,
   .poll 1, .poll 0, .finish 0, .poll 0]

example : (run 2 (fun _ => false) {} demo).map (fun s => (s.abort, s.tasks.map fun t => t.seen)) =
    some (false, [[.pending, .pending, .value 7], [.panic "boom"], []]) := by decide +kernel

/-- With one worker the second job waits for the first. -/
example : (run 1 (fun _ => false) {} [.spawn (.ok 7), .spawn (.ok 8), .start 0, .start 1] : Option (State Nat String)).isNone = true := by
  decide +kernel

/-- The panic handler is called when the result of a dropped handle panics while being dropped (documented in tokio_rayon.rs:66-68). -/
example : (run 1 (fun _ => true) {} [.spawn (.ok 7), .start 0, .drop 0, .finish 0] : Option (State Nat String)).map (·.abort) = some true := by
  decide +kernel

end Verif.Util.Spawn
