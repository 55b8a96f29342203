import Mathlib.Data.List.Basic
import Mathlib.Algebra.BigOperators.Group.List.Basic
import Mathlib.Tactic.Common

/-!
# `connect_with_timeout`

Model of crates/seec-channel/src/tcp.rs:46-81.  Times are in microseconds since `start`.  The network is an
arbitrary sequence of attempts.  The growth of the waiting time, `(wait as f64 * 1.2) as u64`, is `wait * 6 / 5`: for multiples of
5 the rounded product is the integer, otherwise the error of the product is far below the distance to the next integer
(waiting times below 2^52 milliseconds).
-/
set_option autoImplicit false

namespace Verif.Chan.Connect

/-- What one attempt does. -/
inductive Result (ε γ : Type) where
  /-- `TcpStream::connect` fails -/
  | refused (e : ε)
  /-- `establish_remoc_connection_tcp` fails -/
  | broken (e : ε)
  | connected (c : γ)

/-- One attempt: its result, how long it takes, and by how much a following `sleep` exceeds the requested time. -/
structure Attempt (ε γ : Type) where
  result : Result ε γ
  dur : Nat
  extra : Nat := 0

inductive Out (ε γ : Type) where
  /-- attempts are still being made when the given sequence ends -/
  | running
  | ok (c : γ)
  /-- `Err(e)`, returned at the given time -/
  | err (e : ε) (time : Nat)
  /-- `last_err.unwrap()` on `None` -/
  | panic
deriving DecidableEq

variable {ε γ : Type}

/-- tcp.rs:62, in milliseconds. -/
def grow (wait : Nat) : Nat := wait * 6 / 5

/-- tcp.rs:76 `Err(last_err.unwrap())`. -/
def ended (last : Option ε) (now : Nat) : Out ε γ := last.elim .panic fun e => .err e now

/-- tcp.rs:56-79, from the check of the loop at time `now`. -/
def loop (timeout : Nat) : List (Attempt ε γ) → (now wait : Nat) → (last : Option ε) → Out ε γ
  | [], now, _, last => if now < timeout then .running else ended last now
  | a :: as, now, wait, last =>
    if now < timeout then
      match a.result with
      | .refused e => loop timeout as (now + a.dur + 1000 * wait + a.extra) (grow wait) (some e)
      | .broken e => loop timeout as (now + a.dur) wait (some e)
      | .connected c => .ok c
    else ended last now

/-- tcp.rs:46-81; `first` is the time until the first check. -/
def connectWithTimeout (timeout first : Nat) (as : List (Attempt ε γ)) : Out ε γ := loop timeout as first 10 none

/-! ## Specification -/

def Attempt.error (a : Attempt ε γ) : Option ε :=
  match a.result with
  | .refused e | .broken e => some e
  | .connected _ => none

/-- The waiting time after `r` refused attempts, in milliseconds. -/
def waitAfter : Nat → Nat
  | 0 => 10
  | r + 1 => waitAfter r * 6 / 5

/-- The time of the check after the given failed attempts, `r` attempts having been refused before them. -/
def checkTime (first : Nat) (r : Nat) : List (Attempt ε γ) → Nat
  | [] => first
  | a :: as =>
    match a.result with
    | .refused _ => checkTime (first + a.dur + 1000 * waitAfter r + a.extra) (r + 1) as
    | _ => checkTime (first + a.dur) r as

theorem grow_waitAfter (r : Nat) : grow (waitAfter r) = waitAfter (r + 1) := rfl

theorem le_checkTime (as : List (Attempt ε γ)) : ∀ first r, first ≤ checkTime first r as := by
  induction as with
  | nil => intro _ _; exact Nat.le_refl _
  | cons a as ih =>
    intro first r
    cases h : a.result <;> simp only [checkTime, h]
    · exact Nat.le_trans (by omega) (ih _ _)
    · exact Nat.le_trans (by omega) (ih _ _)
    · exact Nat.le_trans (by omega) (ih _ _)

theorem loop_nil (timeout now wait : Nat) (last : Option ε) :
    loop timeout ([] : List (Attempt ε γ)) now wait last = if now < timeout then .running else ended last now := rfl

theorem loop_cons (timeout : Nat) (a : Attempt ε γ) (as : List (Attempt ε γ)) (now wait : Nat) (last : Option ε) :
    loop timeout (a :: as) now wait last = if now < timeout then
      match a.result with
      | .refused e => loop timeout as (now + a.dur + 1000 * wait + a.extra) (grow wait) (some e)
      | .broken e => loop timeout as (now + a.dur) wait (some e)
      | .connected c => .ok c
    else ended last now := rfl

theorem loop_ok (timeout : Nat) (c : γ) (as : List (Attempt ε γ)) : ∀ now r last, loop timeout as now (waitAfter r) last = .ok c ↔
    ∃ (pre post : List (Attempt ε γ)) (a : Attempt ε γ), as = pre ++ a :: post ∧ (∀ b ∈ pre, b.error.isSome) ∧ a.result = .connected c ∧
      checkTime now r pre < timeout := by
  induction as with
  | nil =>
    intro now r last
    rw [loop_nil]
    constructor
    · intro h
      split at h
      · cases h
      · cases last <;> cases h
    · rintro ⟨pre, post, a, h, _⟩
      cases pre <;> cases h
  | cons a as ih =>
    intro now r last
    rw [loop_cons]
    by_cases hn : now < timeout
    · rw [if_pos hn]
      cases hr : a.result with
      | refused e =>
        dsimp only
        rw [grow_waitAfter, ih]
        constructor
        · rintro ⟨pre, post, b, rfl, h1, h2, h3⟩
          refine ⟨a :: pre, post, b, rfl, ?_, h2, ?_⟩
          · intro b hb
            rcases List.mem_cons.mp hb with rfl | hb
            · simp [Attempt.error, hr]
            · exact h1 b hb
          · simpa only [checkTime, hr] using h3
        · rintro ⟨pre, post, b, h, h1, h2, h3⟩
          cases pre with
          | nil => cases h; rw [hr] at h2; cases h2
          | cons x pre =>
            cases h
            refine ⟨pre, post, b, rfl, fun y hy => h1 y (List.mem_cons_of_mem _ hy), h2, ?_⟩
            simpa only [checkTime, hr] using h3
      | broken e =>
        dsimp only
        rw [ih]
        constructor
        · rintro ⟨pre, post, b, rfl, h1, h2, h3⟩
          refine ⟨a :: pre, post, b, rfl, ?_, h2, ?_⟩
          · intro b hb
            rcases List.mem_cons.mp hb with rfl | hb
            · simp [Attempt.error, hr]
            · exact h1 b hb
          · simpa only [checkTime, hr] using h3
        · rintro ⟨pre, post, b, h, h1, h2, h3⟩
          cases pre with
          | nil => cases h; rw [hr] at h2; cases h2
          | cons x pre =>
            cases h
            refine ⟨pre, post, b, rfl, fun y hy => h1 y (List.mem_cons_of_mem _ hy), h2, ?_⟩
            simpa only [checkTime, hr] using h3
      | connected d =>
        dsimp only
        constructor
        · intro h
          cases h
          exact ⟨[], as, a, rfl, by simp, hr, hn⟩
        · rintro ⟨pre, post, b, h, h1, h2, h3⟩
          cases pre with
          | nil => cases h; rw [hr] at h2; cases h2; rfl
          | cons x pre =>
            cases h
            have := h1 a (by simp)
            simp [Attempt.error, hr] at this
    · rw [if_neg hn]
      constructor
      · intro h; cases last <;> cases h
      · rintro ⟨pre, post, b, h, h1, h2, h3⟩
        exact absurd (Nat.lt_of_le_of_lt (le_checkTime pre now r) h3) hn

/-- **`Ok`**: `connect_with_timeout` returns a connection exactly if some attempt yields it, all earlier attempts failed, and the
time of the check before that attempt is below the timeout. -/
theorem connect_ok (timeout first : Nat) (as : List (Attempt ε γ)) (c : γ) : connectWithTimeout timeout first as = .ok c ↔
    ∃ (pre post : List (Attempt ε γ)) (a : Attempt ε γ), as = pre ++ a :: post ∧ (∀ b ∈ pre, b.error.isSome) ∧ a.result = .connected c ∧
      checkTime first 0 pre < timeout :=
  loop_ok timeout c as first 0 none

theorem loop_err (timeout : Nat) (e : ε) (t : Nat) (as : List (Attempt ε γ)) : ∀ now r last, loop timeout as now (waitAfter r) last = .err e t ↔
    (timeout ≤ now ∧ last = some e ∧ t = now) ∨
    ∃ (pre post : List (Attempt ε γ)) (a : Attempt ε γ), as = pre ++ a :: post ∧ (∀ b ∈ pre, b.error.isSome) ∧ a.error = some e ∧
      checkTime now r pre < timeout ∧ t = checkTime now r (pre ++ [a]) ∧ timeout ≤ t := by
  induction as with
  | nil =>
    intro now r last
    rw [loop_nil]
    constructor
    · intro h
      split at h
      · cases h
      · cases last with
        | none => cases h
        | some e' => cases h; exact Or.inl ⟨by omega, rfl, rfl⟩
    · rintro (⟨h1, rfl, rfl⟩ | ⟨pre, post, a, h, _⟩)
      · rw [if_neg (by omega)]; rfl
      · cases pre <;> cases h
  | cons a as ih =>
    intro now r last
    rw [loop_cons]
    by_cases hn : now < timeout
    · rw [if_pos hn]
      have hno : ¬ (timeout ≤ now ∧ last = some e ∧ t = now) := by omega
      cases hr : a.result with
      | refused e' =>
        dsimp only
        rw [grow_waitAfter, ih, or_iff_right hno]
        constructor
        · rintro (⟨h1, h2, h3⟩ | ⟨pre, post, b, rfl, h1, h2, h3, h4, h5⟩)
          · refine ⟨[], as, a, rfl, by simp, by simpa [Attempt.error, hr] using h2, hn, ?_, by omega⟩
            simp only [List.nil_append, checkTime, hr]; exact h3
          · refine ⟨a :: pre, post, b, rfl, ?_, h2, ?_, ?_, h5⟩
            · intro b hb
              rcases List.mem_cons.mp hb with rfl | hb
              · simp [Attempt.error, hr]
              · exact h1 b hb
            · simpa only [checkTime, hr] using h3
            · simpa only [List.cons_append, checkTime, hr] using h4
        · rintro ⟨pre, post, b, h, h1, h2, h3, h4, h5⟩
          cases pre with
          | nil =>
            cases h
            simp only [List.nil_append, checkTime, hr] at h4
            exact Or.inl ⟨by omega, by simpa [Attempt.error, hr] using h2, h4⟩
          | cons x pre =>
            cases h
            refine Or.inr ⟨pre, post, b, rfl, fun y hy => h1 y (List.mem_cons_of_mem _ hy), h2, ?_, ?_, h5⟩
            · simpa only [checkTime, hr] using h3
            · simpa only [List.cons_append, checkTime, hr] using h4
      | broken e' =>
        dsimp only
        rw [ih, or_iff_right hno]
        constructor
        · rintro (⟨h1, h2, h3⟩ | ⟨pre, post, b, rfl, h1, h2, h3, h4, h5⟩)
          · refine ⟨[], as, a, rfl, by simp, by simpa [Attempt.error, hr] using h2, hn, ?_, by omega⟩
            simp only [List.nil_append, checkTime, hr]; exact h3
          · refine ⟨a :: pre, post, b, rfl, ?_, h2, ?_, ?_, h5⟩
            · intro b hb
              rcases List.mem_cons.mp hb with rfl | hb
              · simp [Attempt.error, hr]
              · exact h1 b hb
            · simpa only [checkTime, hr] using h3
            · simpa only [List.cons_append, checkTime, hr] using h4
        · rintro ⟨pre, post, b, h, h1, h2, h3, h4, h5⟩
          cases pre with
          | nil =>
            cases h
            simp only [List.nil_append, checkTime, hr] at h4
            exact Or.inl ⟨by omega, by simpa [Attempt.error, hr] using h2, h4⟩
          | cons x pre =>
            cases h
            refine Or.inr ⟨pre, post, b, rfl, fun y hy => h1 y (List.mem_cons_of_mem _ hy), h2, ?_, ?_, h5⟩
            · simpa only [checkTime, hr] using h3
            · simpa only [List.cons_append, checkTime, hr] using h4
      | connected d =>
        dsimp only
        rw [or_iff_right hno]
        constructor
        · intro h; cases h
        · rintro ⟨pre, post, b, h, h1, h2, h3, h4, h5⟩
          cases pre with
          | nil => cases h; simp [Attempt.error, hr] at h2
          | cons x pre =>
            cases h
            have := h1 a (by simp)
            simp [Attempt.error, hr] at this
    · rw [if_neg hn]
      constructor
      · intro h
        cases last with
        | none => cases h
        | some e' => cases h; exact Or.inl ⟨by omega, rfl, rfl⟩
      · rintro (⟨h1, rfl, rfl⟩ | ⟨pre, post, b, h, h1, h2, h3, h4, h5⟩)
        · rfl
        · exact absurd (Nat.lt_of_le_of_lt (le_checkTime pre now r) h3) hn

theorem loop_panic (timeout : Nat) (as : List (Attempt ε γ)) : ∀ now w last,
    loop timeout as now w last = .panic ↔ timeout ≤ now ∧ last = none := by
  induction as with
  | nil =>
    intro now w last
    rw [loop_nil]
    by_cases hn : now < timeout
    · rw [if_pos hn]; constructor
      · intro h; cases h
      · intro h; omega
    · rw [if_neg hn]; cases last <;> simp [ended]; omega
  | cons a as ih =>
    intro now w last
    rw [loop_cons]
    by_cases hn : now < timeout
    · rw [if_pos hn]
      constructor
      · intro h
        cases hr : a.result <;> simp only [hr] at h
        · exact absurd ((ih _ _ _).mp h).2 (by simp)
        · exact absurd ((ih _ _ _).mp h).2 (by simp)
        · cases h
      · intro h; omega
    · rw [if_neg hn]; cases last <;> simp [ended]; omega

/-- The waiting time is at most 10 ms plus a fifth of the time already spent waiting. -/
theorem wait_bound (as : List (Attempt ε γ)) : ∀ first r, 5 * (1000 * waitAfter r) ≤ 50000 + first →
    ∀ (pre : List (Attempt ε γ)) (a : Attempt ε γ), as = pre ++ [a] →
      5 * checkTime first r as ≤ 6 * checkTime first r pre + 50000 + 5 * a.dur + 5 * a.extra := by
  induction as with
  | nil => intro first r _ pre a h; cases pre <;> cases h
  | cons x as ih =>
    intro first r hw pre a h
    cases pre with
    | nil =>
      cases h
      cases hr : x.result <;> simp only [checkTime, hr] <;> omega
    | cons y pre =>
      cases h
      have hw' : 5 * waitAfter (r + 1) ≤ 6 * waitAfter r := by
        simp only [waitAfter]; omega
      cases hr : x.result <;> simp only [checkTime, hr]
      · exact ih _ _ (by omega) pre a rfl
      · exact ih _ _ (by omega) pre a rfl
      · exact ih _ _ (by omega) pre a rfl

/-- **`Err`**: an error is returned exactly if all attempts up to some point failed and the timeout passes with the last of them.  It is the error
of that last attempt.  It is returned at most a fifth of the timeout plus 10 ms after the timeout, not counting the
duration of the last attempt and the inaccuracy of its `sleep`. -/
theorem connect_err (timeout first : Nat) (as : List (Attempt ε γ)) (e : ε) (t : Nat) : (connectWithTimeout timeout first as = .err e t ↔
    ∃ (pre post : List (Attempt ε γ)) (a : Attempt ε γ), as = pre ++ a :: post ∧ (∀ b ∈ pre, b.error.isSome) ∧ a.error = some e ∧
      checkTime first 0 pre < timeout ∧ t = checkTime first 0 (pre ++ [a]) ∧ timeout ≤ t) ∧
    ∀ (pre post : List (Attempt ε γ)) (a : Attempt ε γ), as = pre ++ a :: post → checkTime first 0 pre < timeout →
      5 * checkTime first 0 (pre ++ [a]) ≤ 6 * timeout + 50000 + 5 * a.dur + 5 * a.extra := by
  refine ⟨?_, ?_⟩
  · have := loop_err timeout e t as first 0 (none : Option ε)
    simpa [connectWithTimeout, waitAfter] using this
  · intro pre post a _ h
    have := wait_bound (pre ++ [a]) first 0 (by simp [waitAfter]) pre a rfl
    omega

/-- **Panic**: the call panics exactly if the timeout has passed before the first attempt, in particular for a timeout of zero. -/
theorem connect_panics (timeout first : Nat) (as : List (Attempt ε γ)) : connectWithTimeout timeout first as = .panic ↔ timeout ≤ first := by
  unfold connectWithTimeout
  rw [loop_panic]
  simp

theorem loop_running (timeout : Nat) (as : List (Attempt ε γ)) (hd : ∀ a ∈ as, 0 < a.dur) : ∀ now w last, timeout < now + as.length →
    loop timeout as now w last ≠ .running := by
  induction as with
  | nil =>
    intro now w last h
    rw [loop_nil, if_neg (by simpa using Nat.le_of_lt h)]
    cases last <;> simp [ended]
  | cons a as ih =>
    intro now w last h
    have ha := hd a (by simp)
    have hd' := fun b hb => hd b (List.mem_cons_of_mem _ hb)
    simp only [List.length_cons] at h
    rw [loop_cons]
    split
    · cases hr : a.result <;> dsimp only
      · exact ih hd' _ _ _ (by omega)
      · exact ih hd' _ _ _ (by omega)
      · simp
    · cases last <;> simp [ended]

/-- **It ends**: if every attempt takes some time, the call returns before more attempts than the timeout has microseconds. -/
theorem connect_returns (timeout first : Nat) (as : List (Attempt ε γ)) (hd : ∀ a ∈ as, 0 < a.dur) (hl : timeout < as.length) :
    connectWithTimeout timeout first as ≠ .running :=
  loop_running timeout as hd first 10 none (by omega)

theorem waitAfter_ge (r : Nat) : 10 ≤ waitAfter r := by
  induction r with
  | zero => simp [waitAfter]
  | succ r ih => simp only [waitAfter]; omega

theorem loop_refused (timeout : Nat) (as : List (Attempt ε γ)) (hd : ∀ a ∈ as, ∃ e, a.result = .refused e) : ∀ now r last,
    timeout ≤ now + 10000 * as.length → loop timeout as now (waitAfter r) last ≠ .running := by
  induction as with
  | nil =>
    intro now w last h
    rw [loop_nil, if_neg (by simpa using h)]
    cases last <;> simp [ended]
  | cons a as ih =>
    intro now r last h
    obtain ⟨e, ha⟩ := hd a (by simp)
    have hd' := fun b hb => hd b (List.mem_cons_of_mem _ hb)
    simp only [List.length_cons] at h
    rw [loop_cons]
    split
    · rw [ha]
      dsimp only
      rw [grow_waitAfter]
      have := waitAfter_ge r
      exact ih hd' _ _ _ (by omega)
    · cases last <;> simp [ended]

/-- If the peer is not listening, at most one attempt per 10 ms of timeout is made, however fast it is refused. -/
theorem connect_refused_rate (timeout first : Nat) (as : List (Attempt ε γ)) (hd : ∀ a ∈ as, ∃ e, a.result = .refused e)
    (hl : timeout ≤ 10000 * as.length) : connectWithTimeout timeout first as ≠ .running :=
  loop_refused timeout as hd first 0 none (by omega)

/-- **No waiting after a failed handshake**: attempts that fail while establishing the connection on top of TCP are repeated at once; without
a duration of their own, any number of them is made before any timeout. -/
theorem broken_spins (timeout : Nat) (ht : 0 < timeout) (e : ε) (n : Nat) :
    connectWithTimeout timeout 0 (List.replicate n (⟨.broken e, 0, 0⟩ : Attempt ε γ)) = .running := by
  have key : ∀ n w last, loop timeout (List.replicate n (⟨.broken e, 0, 0⟩ : Attempt ε γ)) 0 w last = .running := by
    intro n
    induction n with
    | zero => intro w last; simp only [List.replicate_zero]; rw [loop_nil, if_pos ht]
    | succ n ih => intro w last; rw [List.replicate_succ, loop_cons, if_pos ht]; exact ih _ _
  exact key n 10 none

/-! ## Examples -/

/-- A server that starts listening late is found. -/
example : connectWithTimeout 100000 0 [⟨.refused "refused", 100, 50⟩, ⟨.broken "reset", 300, 0⟩, ⟨.refused "refused", 100, 0⟩, ⟨.connected 5, 200, 0⟩] =
    (.ok 5 : Out String Nat) := by decide +kernel

/-- Refused until the timeout of 30 ms: the error is that of the third attempt, at 36.3 ms. -/
example : connectWithTimeout 30000 0 [⟨.refused "a", 100, 0⟩, ⟨.refused "b", 100, 0⟩, ⟨.refused "c", 100, 0⟩, ⟨.connected 5, 200, 0⟩] =
    (.err "c" 36300 : Out String Nat) := by decide +kernel

/-- A timeout of zero panics although the server is listening. -/
example : connectWithTimeout 0 0 [⟨.connected 5, 200, 0⟩] = (.panic : Out String Nat) := by decide +kernel

end Verif.Chan.Connect
