import Mathlib.Data.List.Basic

/-!
The locks of the circuit builders (crates/seec/src/circuit/builder.rs, secret.rs, and the code generated by
crates/seec-macros/src/sub_circuit.rs): which locks a call takes in which order.  All of them are
`parking_lot::Mutex`, which is not re-entrant: a thread that locks a mutex it holds waits for itself.

Simplification: only the locks are modelled here, the circuits are in `Verif.Macro` and `Verif.Global.Model`.
-/
set_option autoImplicit false

namespace Verif.Global

/-! ### Model -/

/-- The mutexes: the cache of a `#[sub_circuit]` function (sub_circuit.rs:76-83), `CIRCUIT_BUILDER_MAP`
(builder.rs:35-36), the shared circuits (builder.rs:29-30). -/
inductive Lk where
  | cache (n : Nat)
  | map
  | circ (a : Nat)
  deriving DecidableEq, Repr

/-- Lock, and drop the guard. -/
inductive Ev where
  | acq (l : Lk)
  | rel (l : Lk)
  deriving DecidableEq, Repr

/-- builder.rs:104-113 `with_global` with a closure. -/
def withGlobal (body : List Ev) : List Ev := .acq .map :: body ++ [.rel .map]

/-- `circuit.lock()` for one statement or block. -/
def lockCirc (a : Nat) : List Ev := [.acq (.circ a), .rel (.circ a)]

/-- secret.rs:46-98, 122-125, 133-305: `from_const`, `input`, `sub_circuit_input`, `sub_circuit_output`, `output` and
the operators: `get_global_circuit` (builder.rs:95-97), then a lock on the circuit. -/
def gateOp (a : Nat) : List Ev := withGlobal [] ++ lockCirc a

/-- builder.rs:464-477, 489-502: `connect_to_main` of `[Secret; N]` and `Vec<Secret>`; the main circuit `m` is locked by
`lock_arc` while the builders are. -/
def connectVec (n m : Nat) : List Ev := (List.replicate n (gateOp m)).flatten ++ withGlobal (lockCirc m)

/-- Calls of the API.  `m` is the main circuit. -/
inductive Call where
  /-- `install`, `get_global_circuit`, `push_global_circuit` -/
  | builder
  /-- `with_global_main_circ_mut` -/
  | mainMut (m : Nat)
  /-- The functions and operators of `Secret` that add one gate to the circuit `a`. -/
  | gate (a : Nat)
  /-- `global_into_circuit` -/
  | intoCircuit (caches circs : List Nat)
  /-- `connect_to_main` of `n` secrets -/
  | connectVec (n m : Nat)
  /-- `connect_to_main` of one secret: `connect_circuits` locks the circuit `a` -/
  | connectOne (m a : Nat)
  /-- `connect_simd_to_main` -/
  | connectSimd (simd n m : Nat)
  /-- A function with `#[sub_circuit]`: its cache, the circuits its body adds gates to (none if the circuit is in the
  cache), the sub-circuit, the outputs -/
  | subCircuit (cache : Nat) (body : List Nat) (sc n m : Nat)
  /-- `Secret::connect_to_main_circuit` of a secret of the circuit `sc` -/
  | connectToMainCircuit (sc m : Nat)

/-- The locks of a call. -/
def Call.events : Call → List Ev
  -- builder.rs:91-101
  | .builder => withGlobal []
  -- builder.rs:115-124
  | .mainMut m => withGlobal (lockCirc m)
  | .gate a => gateOp a
  -- builder.rs:126-130, 378-382, 454-458, 340-373
  | .intoCircuit caches circs =>
    withGlobal [] ++ caches.flatMap (fun n => [.acq (.cache n), .rel (.cache n)]) ++ circs.flatMap lockCirc
  | .connectVec n m => Global.connectVec n m
  -- builder.rs:529-541, 246-281
  | .connectOne m a => gateOp m ++ withGlobal (lockCirc a)
  -- builder.rs:504-525
  | .connectSimd simd n m => (List.replicate simd (Global.connectVec n m)).flatten
  -- sub_circuit.rs:85-122
  | .subCircuit cache body sc n m =>
    withGlobal [] ++ (.acq (.cache cache) :: (withGlobal [] ++ body.flatMap gateOp) ++ [.rel (.cache cache)]) ++
      withGlobal (lockCirc sc) ++ Global.connectVec n m
  -- secret.rs:102-117
  | .connectToMainCircuit sc m => gateOp sc ++ withGlobal (gateOp m ++ lockCirc m)

/-- A thread: the locks it holds, and what it does next. -/
structure LTh where
  held : List Lk
  todo : List Ev

/-- The next action of one thread. -/
inductive Adv : List LTh → List LTh → Prop
  | acq (ts : List LTh) (i : Nat) (held : List Lk) (l : Lk) (rest : List Ev) :
      ts[i]? = some ⟨held, .acq l :: rest⟩ → (∀ t ∈ ts, l ∉ t.held) → Adv ts (ts.set i ⟨l :: held, rest⟩)
  | rel (ts : List LTh) (i : Nat) (held : List Lk) (l : Lk) (rest : List Ev) :
      ts[i]? = some ⟨held, .rel l :: rest⟩ → Adv ts (ts.set i ⟨held.erase l, rest⟩)

/-- Actions, and panics: a thread that panics drops its guards. -/
inductive Reach (ts : List LTh) : List LTh → Prop
  | refl : Reach ts ts
  | adv {a b : List LTh} : Reach ts a → Adv a b → Reach ts b
  | panic {a : List LTh} (i : Nat) (t : LTh) : Reach ts a → a[i]? = some t →
      Reach ts (a.set i ⟨t.held, t.held.map .rel⟩)

/-- The threads before they begin. -/
def start (cs : List (List Call)) : List LTh := cs.map fun c => ⟨[], c.flatMap Call.events⟩

/-- All threads have ended. -/
def Ended (ts : List LTh) : Prop := ∀ t ∈ ts, t.todo = []

/-! ### Proof: the locks are ordered -/

/-- Caches before the builders before the circuits. -/
def Lk.rank : Lk → Nat
  | .cache _ => 0
  | .map => 1
  | .circ _ => 2

/-- The thread takes locks in ascending order and drops all of them. -/
def Ordered : List Lk → List Ev → Prop
  | held, [] => held = []
  | held, .acq l :: es => (∀ h ∈ held, h.rank < l.rank) ∧ Ordered (l :: held) es
  | held, .rel l :: es => l ∈ held ∧ Ordered (held.erase l) es

/-- A block that can be run by a thread that holds `held`. -/
def Block (held : List Lk) (b : List Ev) : Prop := ∀ es, Ordered held es → Ordered held (b ++ es)

theorem Block.nil (held : List Lk) : Block held [] := fun _ h => h

theorem Block.append {held : List Lk} {a b : List Ev} (ha : Block held a) (hb : Block held b) : Block held (a ++ b) :=
  fun es h => by rw [List.append_assoc]; exact ha _ (hb _ h)

theorem Block.flatten {held : List Lk} {bs : List (List Ev)} (h : ∀ b ∈ bs, Block held b) :
    Block held bs.flatten := by
  induction bs with
  | nil => exact .nil _
  | cons b bs ih =>
    exact (h b (by simp)).append (ih fun b' hb => h b' (by simp [hb]))

theorem Block.flatMap {α : Type} {held : List Lk} {f : α → List Ev} {as : List α} (h : ∀ a, Block held (f a)) :
    Block held (as.flatMap f) := by
  rw [List.flatMap_def]
  refine .flatten fun b hb => ?_
  obtain ⟨a, -, rfl⟩ := List.mem_map.1 hb
  exact h a

theorem Block.locked {held : List Lk} {l : Lk} {b : List Ev} (hl : ∀ h ∈ held, h.rank < l.rank)
    (hb : Block (l :: held) b) : Block held (.acq l :: b ++ [.rel l]) := by
  intro es h
  refine ⟨hl, ?_⟩
  change Ordered (l :: held) ((b ++ [.rel l]) ++ es)
  rw [List.append_assoc]
  refine hb _ ⟨by simp, ?_⟩
  simpa using h

theorem block_lockCirc {held : List Lk} (h : ∀ l ∈ held, l.rank < 2) (a : Nat) : Block held (lockCirc a) :=
  Block.locked (l := .circ a) h (.nil _)

theorem block_withGlobal {held : List Lk} (h : ∀ l ∈ held, l.rank < 1) {b : List Ev} (hb : Block (.map :: held) b) :
    Block held (withGlobal b) := Block.locked (l := .map) h hb

theorem block_gateOp {held : List Lk} (h : ∀ l ∈ held, l.rank < 1) (a : Nat) : Block held (gateOp a) :=
  (block_withGlobal h (.nil _)).append (block_lockCirc (fun l hl => Nat.lt_trans (h l hl) (by decide)) a)

theorem none_held (n : Nat) : ∀ l ∈ ([] : List Lk), l.rank < n := fun _ h => nomatch h

theorem map_held : ∀ l ∈ [Lk.map], l.rank < 2 := by decide

theorem block_connectVec (n m : Nat) : Block [] (connectVec n m) := by
  refine .append (.flatten fun b hb => ?_) (block_withGlobal (none_held _) (block_lockCirc map_held m))
  rw [List.eq_of_mem_replicate hb]
  exact block_gateOp (none_held _) m

theorem block_call (c : Call) (h : ∀ sc m, c ≠ .connectToMainCircuit sc m) : Block [] c.events := by
  cases c with
  | builder => exact block_withGlobal (none_held _) (.nil _)
  | mainMut m => exact block_withGlobal (none_held _) (block_lockCirc map_held m)
  | gate a => exact block_gateOp (none_held _) a
  | intoCircuit caches circs =>
    exact ((block_withGlobal (none_held _) (.nil _)).append (.flatMap fun n =>
      Block.locked (l := .cache n) (none_held _) (.nil _))).append (.flatMap fun a => block_lockCirc (none_held _) a)
  | connectVec n m => exact block_connectVec n m
  | connectOne m a =>
    exact (block_gateOp (none_held _) m).append (block_withGlobal (none_held _) (block_lockCirc map_held a))
  | connectSimd simd n m =>
    refine .flatten fun b hb => ?_
    rw [List.eq_of_mem_replicate hb]
    exact block_connectVec n m
  | subCircuit cache body sc n m =>
    have hc : ∀ l ∈ [Lk.cache cache], l.rank < 1 := by simp [Lk.rank]
    exact (((block_withGlobal (none_held _) (.nil _)).append (Block.locked (l := .cache cache) (none_held _)
      ((block_withGlobal hc (.nil _)).append (.flatMap fun a => block_gateOp hc a)))).append
      (block_withGlobal (none_held _) (block_lockCirc map_held sc))).append (block_connectVec n m)
  | connectToMainCircuit sc m => exact absurd rfl (h sc m)

theorem ordered_unwind (held : List Lk) : Ordered held (held.map .rel) := by
  induction held with
  | nil => rfl
  | cons l held ih => exact ⟨by simp, by simpa using ih⟩

theorem Adv.ordered {a b : List LTh} (h : Adv a b) (ho : ∀ t ∈ a, Ordered t.held t.todo) :
    ∀ t ∈ b, Ordered t.held t.todo := by
  intro t ht
  cases h with
  | acq i held l rest hi _ =>
    rcases List.mem_or_eq_of_mem_set ht with h | rfl
    · exact ho t h
    · exact (ho _ (List.mem_of_getElem? hi)).2
  | rel i held l rest hi =>
    rcases List.mem_or_eq_of_mem_set ht with h | rfl
    · exact ho t h
    · exact (ho _ (List.mem_of_getElem? hi)).2

theorem Reach.ordered {a b : List LTh} (h : Reach a b) (ho : ∀ t ∈ a, Ordered t.held t.todo) :
    ∀ t ∈ b, Ordered t.held t.todo := by
  induction h with
  | refl => exact ho
  | adv _ h2 ih => exact h2.ordered ih
  | panic i t _ hi ih =>
    intro t' ht
    rcases List.mem_or_eq_of_mem_set ht with h | rfl
    · exact ih t' h
    · exact ordered_unwind _

/-- A lock that a waiting thread wants leads to a thread that can go on. -/
theorem progress {ts : List LTh} (ho : ∀ t ∈ ts, Ordered t.held t.todo) (n : Nat) :
    ∀ (i : Nat) (t : LTh), ts[i]? = some t → t.todo ≠ [] →
      (∀ l rest, t.todo = .acq l :: rest → 2 - l.rank ≤ n) → ∃ ts', Adv ts ts' := by
  induction n with
  | zero =>
    intro i t hi ht hn
    obtain ⟨held, todo⟩ := t
    match todo, ht with
    | .rel l :: rest, _ => exact ⟨_, .rel ts i held l rest hi⟩
    | .acq l :: rest, _ =>
      by_cases hf : ∀ t ∈ ts, l ∉ t.held
      · exact ⟨_, .acq ts i held l rest hi hf⟩
      · push Not at hf
        obtain ⟨t2, ht2, hl⟩ := hf
        obtain ⟨j, hj⟩ := List.getElem?_of_mem ht2
        obtain ⟨held2, todo2⟩ := t2
        have ho2 := ho _ ht2
        match todo2, ho2 with
        | [], h => simp only [Ordered] at h; subst h; simp at hl
        | .rel l2 :: rest2, _ => exact ⟨_, .rel ts j held2 l2 rest2 hj⟩
        | .acq l2 :: rest2, h =>
          have h1 := h.1 l hl
          have h2 := hn l rest rfl
          have h3 : l2.rank ≤ 2 := by cases l2 <;> simp [Lk.rank]
          omega
  | succ n ih =>
    intro i t hi ht hn
    obtain ⟨held, todo⟩ := t
    match todo, ht with
    | .rel l :: rest, _ => exact ⟨_, .rel ts i held l rest hi⟩
    | .acq l :: rest, _ =>
      by_cases hf : ∀ t ∈ ts, l ∉ t.held
      · exact ⟨_, .acq ts i held l rest hi hf⟩
      · push Not at hf
        obtain ⟨t2, ht2, hl⟩ := hf
        obtain ⟨j, hj⟩ := List.getElem?_of_mem ht2
        have ho2 := ho _ ht2
        refine ih j t2 hj ?_ ?_
        · intro he
          rw [he] at ho2
          simp only [Ordered] at ho2
          rw [ho2] at hl
          simp at hl
        · intro l2 rest2 he
          rw [he] at ho2
          have h1 := ho2.1 l hl
          have h2 := hn l rest rfl
          omega

/-! ### Theorems -/

/-- How much is left to do. -/
def left (ts : List LTh) : Nat := (ts.map fun t => t.todo.length).sum

theorem left_set {ts : List LTh} {i : Nat} {t t' : LTh} (h : ts[i]? = some t) (hl : t.todo.length = t'.todo.length + 1) :
    left (ts.set i t') + 1 = left ts := by
  induction ts generalizing i with
  | nil => simp at h
  | cons a ts ih =>
    cases i with
    | zero =>
      simp only [List.getElem?_cons_zero, Option.some.injEq] at h
      subst h
      simp only [List.set_cons_zero, left, List.map_cons, List.sum_cons]
      omega
    | succ i =>
      have := ih (i := i) (by simpa using h)
      simp only [List.set_cons_succ, left, List.map_cons, List.sum_cons] at *
      omega

/-- Every action brings its thread one event further. -/
theorem Adv.left {a b : List LTh} (h : Adv a b) : left b + 1 = left a := by
  cases h with
  | acq i held l rest hi _ => exact left_set hi rfl
  | rel i held l rest hi => exact left_set hi rfl

/-- **C85.**  Any number of threads make any calls of the builder API other than `Secret::connect_to_main_circuit`, and
may panic anywhere.  They are never all blocked: as long as one has not ended, some thread can go on, and no
schedule without further panics has more actions than there are events left. -/
theorem calls_never_deadlock_partial (cs : List (List Call))
    (h : ∀ c ∈ cs, ∀ x ∈ c, ∀ sc m, x ≠ .connectToMainCircuit sc m) (ts : List LTh) (hr : Reach (start cs) ts) :
    (¬ Ended ts → ∃ ts', Adv ts ts') ∧ ∀ ts', Adv ts ts' → left ts' < left ts := by
  have ho := hr.ordered (by
    intro t ht
    obtain ⟨c, hc, rfl⟩ := List.mem_map.1 ht
    have hb : Block [] (c.flatMap Call.events) := by
      rw [List.flatMap_def]
      refine .flatten fun b hb => ?_
      obtain ⟨x, hx, rfl⟩ := List.mem_map.1 hb
      exact block_call x (h c hc x hx)
    simpa using hb [] rfl)
  refine ⟨fun he => ?_, fun ts' ha => by have := ha.left; omega⟩
  unfold Ended at he
  push Not at he
  obtain ⟨t, ht, hne⟩ := he
  obtain ⟨i, hi⟩ := List.getElem?_of_mem ht
  exact progress ho 2 i t hi hne fun l _ _ => Nat.sub_le _ _

/-- Without panics. -/
inductive Runs (ts : List LTh) : List LTh → Prop
  | refl : Runs ts ts
  | adv {a b : List LTh} : Runs ts a → Adv a b → Runs ts b

/-- **C85, the exception.**  `Secret::connect_to_main_circuit` locks the builders while it holds them
(secret.rs:108-112: `sub_circuit_input` inside of `with_global`).  It never returns, whatever the program is
and whatever other threads do. -/
theorem connect_to_main_circuit_never_returns (sc m : Nat) (rest : List Call) (cs : List (List Call))
    (ts : List LTh) (hr : Runs (start ((.connectToMainCircuit sc m :: rest) :: cs)) ts) :
    ∃ t, ts[0]? = some t ∧ (rest.flatMap Call.events).length + 5 < t.todo.length := by
  suffices H : ∃ t, ts[0]? = some t ∧ ∃ n, n ≤ 5 ∧
      t.todo = ((Call.connectToMainCircuit sc m :: rest).flatMap Call.events).drop n ∧
      (n = 5 → Lk.map ∈ t.held) by
    obtain ⟨t, ht, n, hn, htodo, -⟩ := H
    refine ⟨t, ht, ?_⟩
    rw [htodo, List.length_drop, List.flatMap_cons, List.length_append]
    simp only [Call.events, gateOp, withGlobal, lockCirc, List.length_append, List.length_cons, List.length_nil]
    omega
  induction hr with
  | refl => exact ⟨_, rfl, 0, by omega, rfl, by omega⟩
  | adv _ ha ih =>
    obtain ⟨t, ht, n, hn, htodo, hmap⟩ := ih
    have hE : ((Call.connectToMainCircuit sc m :: rest).flatMap Call.events) =
        .acq .map :: .rel .map :: .acq (.circ sc) :: .rel (.circ sc) :: .acq .map :: .acq .map :: .rel .map ::
          .acq (.circ m) :: .rel (.circ m) :: .acq (.circ m) :: .rel (.circ m) :: .rel .map ::
            rest.flatMap Call.events := rfl
    rw [hE] at htodo ⊢
    cases ha with
    | acq i held l rst hi hf =>
      cases i with
      | succ i => exact ⟨t, by rw [List.getElem?_set, if_neg (by omega)]; exact ht, n, hn, htodo, hmap⟩
      | zero =>
        rw [ht] at hi
        cases hi
        refine ⟨_, by rw [List.getElem?_set, if_pos rfl, if_pos (List.getElem?_eq_some_iff.1 ht).1], ?_⟩
        match n, hn with
        | 0, _ => cases htodo; exact ⟨1, by omega, rfl, by omega⟩
        | 1, _ => cases htodo
        | 2, _ => cases htodo; exact ⟨3, by omega, rfl, by omega⟩
        | 3, _ => cases htodo
        | 4, _ => cases htodo; exact ⟨5, by omega, rfl, by simp⟩
        | 5, _ =>
          cases htodo
          exact absurd (hmap rfl) (hf _ (List.mem_of_getElem? ht))
    | rel i held l rst hi =>
      cases i with
      | succ i => exact ⟨t, by rw [List.getElem?_set, if_neg (by omega)]; exact ht, n, hn, htodo, hmap⟩
      | zero =>
        rw [ht] at hi
        cases hi
        refine ⟨_, by rw [List.getElem?_set, if_pos rfl, if_pos (List.getElem?_eq_some_iff.1 ht).1], ?_⟩
        match n, hn with
        | 0, _ => cases htodo
        | 1, _ => cases htodo; exact ⟨2, by omega, rfl, by omega⟩
        | 2, _ => cases htodo
        | 3, _ => cases htodo; exact ⟨4, by omega, rfl, by omega⟩
        | 4, _ => cases htodo
        | 5, _ => cases htodo

/-- Two threads: one calls a function with `#[sub_circuit]` and takes the circuit, the other adds gates. -/
example : ∀ c ∈ [[Call.subCircuit 0 [1, 1, 1] 1 2 0, .intoCircuit [0] [0, 1]], [.gate 0, .gate 1, .connectOne 0 1]],
    ∀ x ∈ c, ∀ sc m, x ≠ .connectToMainCircuit sc m := by
  intro c hc x hx sc m h
  subst h
  simp only [List.mem_cons, List.not_mem_nil, or_false] at hc
  rcases hc with rfl | rfl <;> simp at hx

end Verif.Global
