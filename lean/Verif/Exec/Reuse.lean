import Verif.Exec.PreprocProps
import Verif.Exec.StoredWitness

/-!
C83: an executor executes its circuit any number of times.
-/
set_option autoImplicit false

namespace Verif.Exec

open Circuit Proc Gmw

variable {G : Type} [GateLike G] {S V M MS T σ : Type}

/-- Sequential composition of the code of a party. -/
def bindProc {A B : Type} : Proc M A → (A → Proc M B) → Proc M B
  | .done a, k => k a
  | .fail, _ => .fail
  | .send m p, k => .send m (bindProc p k)
  | .recv p, k => .recv fun x => bindProc (p x) k

/-- executor.rs:155-480 as `execLayersP`.  The outputs of the gates (`self.gate_outputs`), which the executor keeps, are
returned as well. -/
def execLayersR (pr : Protocol G S V M MS T) (m : Multi G) (party : Nat) (inp : Input S V)
    (req : σ → Nat → Option (σ × T)) : σ → List (MLayer × List Node) → Store S V →
    Proc (M × Option MS) (Input S V × σ × Store S V)
  | s, [], st => match outputs m st with
    | some o => .done (o, s, st)
    | none => .fail
  | s, (l, fs) :: ls, st =>
    match evalNodes pr m party inp st (niOf l) with
    | none => .fail
    | some st =>
      if intCount m l = 0 then execLayersR pr m party inp req s ls st
      else match req s (intCount m l) with
        | none => .fail
        | some (s, t) =>
          match computeMsgs pr m party st l t with
          | none => .fail
          | some (msg, t) =>
            .send msg (.recv fun other =>
              match finishLayer pr m party (free pr st fs) l msg other t with
              | none => .fail
              | some st => execLayersR pr m party inp req s ls st)

/-- executor.rs:124-493 `execute(&mut self, ..)` as `executeP`, returning also the outputs of the gates it
leaves in the executor. -/
def executeR (pr : Protocol G S V M MS T) (m : Multi G) (party : Nat) (inp : Input S V)
    (req : σ → Nat → Option (σ × T)) (s : σ) (st : Store S V) :
    Proc (M × Option MS) (Input S V × σ × Store S V) :=
  match (do
    let c ← m.circs[0]?
    let len := match inp with
      | .scalar l => l.length
      | .simd l => l.length
    if c.inputGates.length = len then do
      let it ← MIter.new m
      let ls ← MIter.collect m ((m.circs.map fun c => c.gates.length).sum + 1) it
      freeable m (fun _ => none) ls
    else none) with
  | some ls => execLayersR pr m party inp req s ls st
  | none => .fail

/-- Calls of `execute` on one executor with the inputs in turn, over the same channel: the provider and the outputs of
the gates are what the previous call left (executor.rs:31-38, the fields `setup` and `gate_outputs`). -/
def executeAll (pr : Protocol G S V M MS T) (m : Multi G) (party : Nat)
    (req : σ → Nat → Option (σ × T)) : List (Input S V) → σ → Store S V →
    Proc (M × Option MS) (List (Input S V) × σ)
  | [], s, _ => .done ([], s)
  | inp :: inps, s, st =>
    bindProc (executeR pr m party inp req s st) fun r =>
      bindProc (executeAll pr m party req inps r.2.1 r.2.2) fun rs => .done (r.1 :: rs.1, rs.2)

/-! ### Composition -/

theorem execLayersP_of_R (pr : Protocol G S V M MS T) (m : Multi G) (party : Nat) (inp : Input S V)
    (req : σ → Nat → Option (σ × T)) (ls : List (MLayer × List Node)) (s : σ) (st : Store S V) :
    execLayersP pr m party inp req s ls st =
      mapProc (fun r => (r.1, r.2.1)) (execLayersR pr m party inp req s ls st) := by
  induction ls generalizing s st with
  | nil =>
    simp only [execLayersP, execLayersR]
    cases outputs m st <;> rfl
  | cons e ls ih =>
    obtain ⟨l, fs⟩ := e
    simp only [execLayersP, execLayersR]
    cases evalNodes pr m party inp st (niOf l) with
    | none => rfl
    | some st1 =>
      dsimp only
      by_cases hc : intCount m l = 0
      · rw [if_pos hc, if_pos hc]; exact ih s st1
      · rw [if_neg hc, if_neg hc]
        cases req s (intCount m l) with
        | none => rfl
        | some r =>
          obtain ⟨s', t⟩ := r
          dsimp only
          cases computeMsgs pr m party st1 l t with
          | none => rfl
          | some r =>
            obtain ⟨msg, t'⟩ := r
            simp only [mapProc]
            congr 2
            funext other
            cases finishLayer pr m party (free pr st1 fs) l msg other t' with
            | none => rfl
            | some st2 => exact ih s' st2

theorem executeP_of_R (pr : Protocol G S V M MS T) (m : Multi G) (party : Nat) (inp : Input S V)
    (req : σ → Nat → Option (σ × T)) (s : σ) (st : Store S V) :
    executeP pr m party inp req s st =
      mapProc (fun r => (r.1, r.2.1)) (executeR pr m party inp req s st) := by
  unfold executeP executeR
  generalize (m.circs[0]? >>= fun c => _) = x
  cases x with
  | none => rfl
  | some ls => exact execLayersP_of_R pr m party inp req ls s st

theorem steps_mapProc_inv {A B : Type} {f g : A → B} {n : Nat} {c d : Conf M B} (h : Steps n c d) :
    ∀ p q x y, c = ⟨mapProc f p, mapProc g q, x, y⟩ →
      ∃ p' q' x' y', d = ⟨mapProc f p', mapProc g q', x', y'⟩ ∧ Steps n ⟨p, q, x, y⟩ ⟨p', q', x', y'⟩ := by
  induction h with
  | refl c => rintro p q x y rfl; exact ⟨p, q, x, y, rfl, .refl _⟩
  | @cons n a b c hs _ ih =>
    rintro p q x y rfl
    have one : ∃ p' q' x' y', b = ⟨mapProc f p', mapProc g q', x', y'⟩ ∧ Step ⟨p, q, x, y⟩ ⟨p', q', x', y'⟩ := by
      generalize hp : mapProc f p = fp at hs
      generalize hq : mapProc g q = gq at hs
      cases hs with
      | send0 m k =>
        cases p with
        | send m' k' =>
          simp only [mapProc, Proc.send.injEq] at hp
          obtain ⟨rfl, rfl⟩ := hp
          subst hq
          exact ⟨_, _, _, _, rfl, .send0 ..⟩
        | _ => simp [mapProc] at hp
      | send1 m k =>
        cases q with
        | send m' k' =>
          simp only [mapProc, Proc.send.injEq] at hq
          obtain ⟨rfl, rfl⟩ := hq
          subst hp
          exact ⟨_, _, _, _, rfl, .send1 ..⟩
        | _ => simp [mapProc] at hq
      | recv0 m k =>
        cases p with
        | recv k' =>
          simp only [mapProc, Proc.recv.injEq] at hp
          subst hp
          subst hq
          exact ⟨_, _, _, _, rfl, .recv0 ..⟩
        | _ => simp [mapProc] at hp
      | recv1 m k =>
        cases q with
        | recv k' =>
          simp only [mapProc, Proc.recv.injEq] at hq
          subst hq
          subst hp
          exact ⟨_, _, _, _, rfl, .recv1 ..⟩
        | _ => simp [mapProc] at hq
    obtain ⟨p', q', x', y', rfl, h1⟩ := one
    obtain ⟨p2, q2, x2, y2, e, h2⟩ := ih p' q' x' y' rfl
    exact ⟨p2, q2, x2, y2, e, .cons h1 h2⟩

theorem runs_of_mapProc {A B : Type} {f g : A → B} {p q : Proc M A} {a b : B}
    (h : Runs (mapProc f p) (mapProc g q) a b) : ∃ a' b', f a' = a ∧ g b' = b ∧ Runs p q a' b' := by
  obtain ⟨n, hn⟩ := h.steps
  obtain ⟨p', q', x', y', e, hs⟩ := steps_mapProc_inv hn p q [] [] rfl
  cases p' with
  | done a' =>
    cases q' with
    | done b' =>
      simp only [mapProc, Conf.mk.injEq, Proc.done.injEq] at e
      obtain ⟨rfl, rfl, rfl, rfl⟩ := e
      exact ⟨a', b', rfl, rfl, Runs.of_steps hs⟩
    | _ => simp [mapProc] at e
  | _ => simp [mapProc] at e

theorem steps_bindProc {A B : Type} (k l : A → Proc M B) {n : Nat} {c d : Conf M A} (h : Steps n c d) :
    Steps n (⟨bindProc c.p0 k, bindProc c.p1 l, c.q01, c.q10⟩ : Conf M B)
      ⟨bindProc d.p0 k, bindProc d.p1 l, d.q01, d.q10⟩ := by
  induction h with
  | refl c => exact .refl _
  | cons hs _ ih =>
    refine .cons ?_ ih
    cases hs with
    | send0 => exact .send0 ..
    | send1 => exact .send1 ..
    | recv0 => exact .recv0 ..
    | recv1 => exact .recv1 ..

theorem runs_bindProc {A B : Type} {p q : Proc M A} {k l : A → Proc M B} {a b : A} {c d : B}
    (h : Runs p q a b) (h' : Runs (k a) (l b) c d) : Runs (bindProc p k) (bindProc q l) c d := by
  obtain ⟨n, hn⟩ := h.steps
  obtain ⟨n', hn'⟩ := h'.steps
  exact Runs.of_steps ((steps_bindProc k l hn).trans hn')

/-! ### Boolean GMW -/

/-- One execution: what the parties are given, and the plaintext input. -/
structure Job where
  inp0 : Input Bool (List Bool)
  inp1 : Input Bool (List Bool)
  plain : Input Bool (List Bool)

theorem gmw_reuse (m : Multi BoolGate) (rank : Node → Nat) (w : WF m rank)
    (hw : ExecWF m) (hu : Unmixed m) (c0 : Base BoolGate) (hc0 : m.circs[0]? = some c0)
    {σ : Type} (req0 req1 : σ → Nat → Option (σ × List Triple)) (Q : σ → σ → Prop)
    (hserve : ∀ s0 s1, Q s0 s1 → ∀ ls, LayersOk m ls →
      ∃ q0 q1, Served req0 req1 s0 s1 (requestsOf m ls) q0 q1 ∧ Q q0 q1)
    (val : Input Bool (List Bool) → Node → Bool) (valV : Input Bool (List Bool) → Node → List Bool)
    (jobs : List Job) (hj : ∀ j ∈ jobs, InputOk m c0 j.plain ∧ Shares j.inp0 j.inp1 j.plain ∧
      PlainEval m j.plain (val j.plain) (valV j.plain))
    (s0 s1 : σ) (hq : Q s0 s1) (st0 st1 : Store Bool (List Bool)) :
    ∃ os0 os1 q0 q1, Q q0 q1 ∧
      Runs (executeAll gmw m 0 req0 (jobs.map (·.inp0)) s0 st0)
        (executeAll gmw m 1 req1 (jobs.map (·.inp1)) s1 st1) (os0, q0) (os1, q1) ∧
      os0.length = jobs.length ∧ os1.length = jobs.length ∧
      ∀ (i : Nat) (j : Job) (o0 o1 : Input Bool (List Bool)), jobs[i]? = some j → os0[i]? = some o0 → os1[i]? = some o1 →
        Shares o0 o1 (plainOutput m c0 (val j.plain) (valV j.plain)) := by
  induction jobs generalizing s0 s1 st0 st1 with
  | nil => exact ⟨[], [], s0, s1, hq, Runs.done _ _, rfl, rfl, by intro i j o0 o1 h; cases h⟩
  | cons j jobs ih =>
    obtain ⟨h1, h2, h3⟩ := hj j (List.mem_cons_self ..)
    obtain ⟨o0, o1, q0, q1, hq1, hr, hs⟩ := gmw_provider_correct m rank w hw hu c0 hc0 j.inp0 j.inp1 j.plain h1 h2
      req0 req1 s0 s1 Q (hserve s0 s1 hq) st0 st1 _ _ h3
    rw [executeP_of_R, executeP_of_R] at hr
    obtain ⟨⟨a0, a1, a2⟩, ⟨b0, b1, b2⟩, ea, eb, hr1⟩ := runs_of_mapProc hr
    cases ea; cases eb
    obtain ⟨os0, os1, r0, r1, hq2, hr2, l0, l1, h⟩ :=
      ih (fun j' h' => hj j' (List.mem_cons_of_mem _ h')) a1 b1 hq1 a2 b2
    refine ⟨a0 :: os0, b0 :: os1, r0, r1, hq2, ?_, by simp [l0], by simp [l1], ?_⟩
    · exact runs_bindProc hr1 (runs_bindProc hr2 (Runs.done _ _))
    · intro i j' p0 p1 e1 e2 e3
      cases i with
      | zero => cases e1; cases e2; cases e3; exact hs
      | succ i => exact h i j' p0 p1 (by simpa using e1) (by simpa using e2) (by simpa using e3)

/-- **C83.**  Two parties each build one executor for Boolean GMW and call `execute` any number of times on it, with
different inputs, over the same channel and with OT based triple providers in any matching states.  Under every
schedule, where a party may be ahead of the other by an execution, all calls return shares of the plaintext output
for their own inputs: nothing of an earlier execution is left that matters.  Conditions on the circuit as in C08. -/
theorem gmw_executor_reuse (m : Multi BoolGate) (rank : Node → Nat) (w : WF m rank)
    (hw : ExecWF m) (hu : Unmixed m) (c0 : Base BoolGate) (hc0 : m.circs[0]? = some c0)
    (gen0 gen1 : Nat → Nat → Mt.MulTriples Bool) (hg : GenPair gen0 gen1) (p0 p1 : Mt.Provider)
    (hpp : Mt.PairOk p0 p1)
    (val : Input Bool (List Bool) → Node → Bool) (valV : Input Bool (List Bool) → Node → List Bool)
    (jobs : List Job) (hj : ∀ j ∈ jobs, InputOk m c0 j.plain ∧ Shares j.inp0 j.inp1 j.plain ∧
      PlainEval m j.plain (val j.plain) (valV j.plain)) (init0 init1 : Store Bool (List Bool)) :
    ∃ os0 os1 q0 q1, Mt.PairOk q0 q1 ∧
      Runs (executeAll gmw m 0 (requestMts gen0) (jobs.map (·.inp0)) p0 init0)
        (executeAll gmw m 1 (requestMts gen1) (jobs.map (·.inp1)) p1 init1) (os0, q0) (os1, q1) ∧
      os0.length = jobs.length ∧ os1.length = jobs.length ∧
      ∀ (i : Nat) (j : Job) (o0 o1 : Input Bool (List Bool)), jobs[i]? = some j → os0[i]? = some o0 → os1[i]? = some o1 →
        Shares o0 o1 (plainOutput m c0 (val j.plain) (valV j.plain)) :=
  gmw_reuse m rank w hw hu c0 hc0 _ _ Mt.PairOk
    (fun _ _ hq ls _ => provider_serves hg (requestsOf m ls) hq) val valV jobs hj p0 p1 hpp init0 init1

/-- One executor each computes `(x & y) ^ x` for any list of inputs, with a sub-circuit call. -/
example (gen0 gen1 : Nat → Nat → Mt.MulTriples Bool) (hg : GenPair gen0 gen1)
    (jobs : List (Bool × Bool × Bool × Bool)) (init0 init1 : Store Bool (List Bool)) :
    ∃ os0 os1 q0 q1,
      Runs (executeAll gmw callCirc 0 (requestMts gen0) (jobs.map fun j => .scalar [j.2.2.1, j.2.2.2]) {} init0)
        (executeAll gmw callCirc 1 (requestMts gen1)
          (jobs.map fun j => .scalar [j.2.2.1 ^^ j.1, j.2.2.2 ^^ j.2.1]) {} init1) (os0, q0) (os1, q1) ∧
      ∀ (i : Nat) (j : Bool × Bool × Bool × Bool) (o0 o1 : Input Bool (List Bool)), jobs[i]? = some j →
        os0[i]? = some o0 → os1[i]? = some o1 → Shares o0 o1 (.scalar [(j.1 && j.2.1) ^^ j.1]) := by
  let bit : Input Bool (List Bool) → Nat → Bool := fun i n => match i with
    | .scalar l => l.getD n false
    | .simd _ => false
  obtain ⟨os0, os1, q0, q1, -, hr, -, -, h⟩ := gmw_executor_reuse callCirc callRank callCirc_wf callCirc_exec.1
    callCirc_exec.2 callMain rfl gen0 gen1 hg {} {} ⟨rfl, .inl ⟨rfl, rfl⟩⟩
    (fun i => callVal (bit i 0) (bit i 1)) (fun _ _ => [])
    (jobs.map fun j => ⟨.scalar [j.2.2.1, j.2.2.2], .scalar [j.2.2.1 ^^ j.1, j.2.2.2 ^^ j.2.1], .scalar [j.1, j.2.1]⟩)
    (by
      intro j hj
      obtain ⟨⟨x, y, r, s⟩, -, rfl⟩ := List.mem_map.1 hj
      exact ⟨⟨rfl, rfl⟩, ⟨rfl, rfl, by simp [xorL]⟩, callCirc_plain x y⟩) init0 init1
  rw [List.map_map, List.map_map] at hr
  refine ⟨os0, os1, q0, q1, hr, fun i j o0 o1 h1 h2 h3 => ?_⟩
  exact h i _ o0 o1 (by rw [List.getElem?_map, h1]; rfl) h2 h3

/-! ### Providers that are set up for one execution -/

/-- **C83, negative part.**  If the provider has nothing left, an execution of a circuit with interactive gates panics before
it sends a message. -/
theorem exhausted_provider_panics (pr : Protocol G S V M MS T) (m : Multi G) (rank : Node → Nat) (w : WF m rank)
    (hb : ∀ c ∈ m.circs, c.interactiveCount = c.gates.countP fun g => GateLike.interactive g)
    (hc : countTimesSimd m ≠ 0) (party : Nat) (inp : Input S V) (req : σ → Nat → Option (σ × T)) (s : σ)
    (hs : ∀ n, n ≠ 0 → req s n = none) (st : Store S V) : executeR pr m party inp req s st = .fail := by
  obtain ⟨it, ls, e1, e2, ok⟩ := layers_ok_partial m rank w
  have hsum := counts_total m ls ok hb
  have key : ∀ (fl : List (MLayer × List Node)) (st : Store S V), (fl.map fun l => intCount m l.1).sum ≠ 0 →
      execLayersR pr m party inp req s fl st = .fail := by
    intro fl
    induction fl with
    | nil => intro st h; simp at h
    | cons e fl ih =>
      obtain ⟨l, fs⟩ := e
      intro st h
      unfold execLayersR
      cases evalNodes pr m party inp st (niOf l) with
      | none => rfl
      | some st1 =>
        dsimp only
        by_cases h0 : intCount m l = 0
        · rw [if_pos h0]
          exact ih st1 (by simpa [h0] using h)
        · rw [if_neg h0, hs _ h0]
  unfold executeR
  simp only [e1, e2, Option.bind_eq_bind, Option.bind_some]
  have fin : ∀ x : Option (List (MLayer × List Node)), (x = none ∨ x = freeable m (fun _ => none) ls) →
      (match x with
        | some ls => execLayersR pr m party inp req s ls st
        | none => .fail) = .fail := by
    intro x hx
    cases x with
    | none => rfl
    | some fl =>
      rcases hx with hx | hx
      · cases hx
      · refine key fl st ?_
        rw [← freeable_fst ls _ _ hx.symm, List.map_map] at hsum
        rw [← hsum] at hc
        exact hc
  apply fin
  cases m.circs[0]? with
  | none => exact .inl rfl
  | some c =>
    cases inp <;>
    · simp only [Option.bind_some]
      split
      · exact .inr rfl
      · exact .inl rfl

end Verif.Exec
