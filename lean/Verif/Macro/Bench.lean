import Verif.Macro.Witness

/-!
C83: repeated runs of a benchmark.
-/
set_option autoImplicit false

namespace Verif.Macro

open Circuit Gmw Exec Proc

/-- bench.rs:229-262: the circuits that the runs of `BenchParty::bench` execute.  `circ` is the circuit given with
`explicit_circuit`.  Without it each run takes the circuit of the global builder. -/
def benchCircuits (circ : Option (Multi BoolGate)) : Nat → St → List (Multi BoolGate)
  | 0, _ => []
  | n + 1, s => match circ with
    | some c => c :: benchCircuits circ n s
    | none => finished s :: benchCircuits circ n s.globalIntoCircuit

theorem benchCircuits_given (c : Multi BoolGate) (n : Nat) (s : St) :
    benchCircuits (some c) n s = List.replicate n c := by
  induction n with
  | zero => rfl
  | succ n ih => simp only [benchCircuits, ih, List.replicate_succ]

theorem finished_global (s : St) : (finished s.globalIntoCircuit).circs = [{}] := by
  have hl : (taken s).length = s.heap.length := by simp [taken]
  simp [finished, St.globalIntoCircuit, St.mem, ← hl]

/-- An execution of a circuit without gates returns at once. -/
theorem empty_execution (m : Multi BoolGate) (h : m.circs = [{}]) (party : Nat) (setup : Nat → Nat → List Triple)
    (init : Store Bool (List Bool)) : execute gmw m party (.scalar []) setup init = .done (.scalar []) := by
  obtain ⟨circs, out, inc⟩ := m
  simp only at h
  subst h
  rfl

/-- **C83 (benchmarks).**  With a given circuit, all runs of a benchmark execute it.  Without, only the first run executes the
circuit of the global builder: every further run executes a circuit without gates, which returns at once, without
sending a message. -/
theorem bench_repeat (n : Nat) (s : St) :
    (∀ c, benchCircuits (some c) n s = List.replicate n c) ∧
    (benchCircuits none n s).length = n ∧
    (∀ m, (benchCircuits none n s)[0]? = some m → m = finished s) ∧
    ∀ i m, 0 < i → (benchCircuits none n s)[i]? = some m →
      m.circs = [{}] ∧ ∀ party setup init, execute gmw m party (.scalar []) setup init = .done (.scalar []) := by
  refine ⟨fun c => benchCircuits_given c n s, ?_, ?_, ?_⟩
  · induction n generalizing s with
    | zero => rfl
    | succ n ih => simp [benchCircuits, ih]
  · intro m h
    cases n with
    | zero => cases h
    | succ n => simp only [benchCircuits, List.getElem?_cons_zero, Option.some.injEq] at h; exact h.symm
  · have key : ∀ (n i : Nat) (s : St) (m : Multi BoolGate), (benchCircuits none n s.globalIntoCircuit)[i]? = some m →
        m.circs = [{}] := by
      intro n
      induction n with
      | zero => intro i s m h; cases h
      | succ n ih =>
        intro i s m h
        simp only [benchCircuits] at h
        cases i with
        | zero => cases h; exact finished_global s
        | succ i => exact ih i _ m (by simpa using h)
    intro i m hi h
    have hm : m.circs = [{}] := by
      cases n with
      | zero => cases h
      | succ n =>
        cases i with
        | zero => omega
        | succ i => exact key n i s m (by simpa [benchCircuits] using h)
    exact ⟨hm, empty_execution m hm⟩

/-- The example program, benchmarked twice: the circuit with its sub-circuits, then the empty circuit. -/
example : ∃ s, (run exampleFns exampleProg start []).map Prod.fst = some s ∧
    (benchCircuits none 2 s).map (fun m => (m.circs.map fun c => c.gates.length).sum != 0) = [true, false] := by
  refine ⟨_, rfl, ?_⟩
  decide +kernel

end Verif.Macro
