import Verif.Exec.Witness
import Verif.Macro.Props

/-!
C59: a program that meets the hypotheses, and the cases in which the claim fails.
-/
set_option autoImplicit false

namespace Verif.Macro

open Circuit Gmw Exec Proc

/-- Function 0: the conjunction of two arguments, or two sums of three arguments.  Function 1: negated
conjunction of its two arguments, with a constant.  Function 2: no arguments, returns `true`.
Others return their arguments. -/
def exampleFns : Fns := fun f sizes =>
  match f, sizes with
  | 0, [2] => ⟨[(.and, [0, 1])], [2], false⟩
  | 0, [3] => ⟨[(.xor, [0, 1]), (.xor, [3, 2])], [4, 3], false⟩
  | 1, [1, 1] => ⟨[(.base (.constant true), []), (.and, [0, 1]), (.xor, [3, 2])], [4], true⟩
  | 2, _ => ⟨[(.base (.constant true), [])], [0], true⟩
  | _, _ => ⟨[], List.range sizes.sum, false⟩

/-- ```
let [x, y, z] = inputs();        // 0, 1, 2
let p = f(&[x, y]);              // 3
let q = f(&[y, z]);              // 4
let [s, t] = f(&[x, y, z]);      // 5, 6
let u = g(&[s], &[p]);           // 7
(u ^ q).output();                // 8, 9
t.output();                      // 10
``` -/
def exampleProg : List Stmt :=
  [.input, .input, .input, .call 0 [[0, 1]], .call 0 [[1, 2]], .call 0 [[0, 1, 2]], .call 1 [[5], [3]],
   .op .xor [7, 4], .output 8, .output 6]

/-- The state of the global builder at the start. -/
def start : St := ⟨[{}], [0], {}, [], fun _ _ => none, false⟩

theorem start_fresh : Fresh start := ⟨⟨[], rfl, rfl⟩, rfl, fun _ _ => rfl, rfl⟩

/-- The hypotheses of the theorems are met, by a program with four calls, three distinct circuits and
`u ^ q = !((x ^ y ^ z) & (x & y)) ^ (y & z)`. -/
example : ProgramOk exampleFns 0 exampleProg ∧ ArgsOk (calls exampleFns 0 exampleProg) ∧ Fresh start ∧
    (calls exampleFns 0 exampleProg).length = 4 ∧
    ((calls exampleFns 0 exampleProg).map CallRec.key).dedup.length = 3 ∧
    (∀ x y z, plainRun exampleFns exampleProg [x, y, z] =
      [(!((x ^^ y ^^ z) && (x && y))) ^^ (y && z), x ^^ y]) := by
  have body : ∀ (b : Body) (n : Nat), (∀ i (h : i < b.ops.length), OpOk (n + i) b.ops[i]) →
      (∀ a ∈ b.ret, a < n + b.ops.length) → BodyOk n b := by
    intro b n h1 h2
    refine ⟨?_, h2⟩
    intro i o ho
    obtain ⟨h, rfl⟩ := List.getElem?_eq_some_iff.1 ho
    exact h1 i h
  refine ⟨?_, ⟨?_, ?_⟩, start_fresh, rfl, by decide, by decide⟩
  · refine ⟨trivial, trivial, trivial, ⟨by decide, by decide, ?_⟩, ⟨by decide, by decide, ?_⟩,
      ⟨by decide, by decide, ?_⟩, ⟨by decide, by decide, ?_⟩, ?_, ?_, ?_, trivial⟩
    · exact body _ _ (by simp only [OpOk]; decide) (by decide)
    · exact body _ _ (by simp only [OpOk]; decide) (by decide)
    · exact body _ _ (by simp only [OpOk]; decide) (by decide)
    · exact body _ _ (by simp only [OpOk]; decide) (by decide)
    · exact ⟨rfl, rfl, by decide⟩
    · change 8 < 9; omega
    · change 6 < 10; omega
  · simp [argRuns, calls, exampleProg, Stmt.ops, exampleFns, runs, Nested]
  · simp [calls, exampleProg, Stmt.ops, exampleFns, runs, GRange.first]

/-- Two calls in which the arguments of the second lie inside those of the first panic. -/
theorem sub_circuit_inner_args_panic :
    (run exampleFns [.input, .input, .input, .input, .call 3 [[0, 1, 2, 3]], .call 3 [[1, 2]]] start []).isNone =
      true := by decide +kernel

/-- Passing the same secret twice in a row panics. -/
theorem sub_circuit_repeated_arg_panic :
    (run exampleFns [.input, .call 0 [[0, 0]]] start []).isNone = true := by decide +kernel

/-- The circuit of a finished builder. -/
def finished (s : St) : Multi BoolGate :=
  ⟨s.ptrs.map s.mem, s.conns.outgoing, s.conns.incoming⟩

/-- A function without arguments is never executed: the program builds, but both parties fail. -/
theorem sub_circuit_without_args_fails :
    ∃ s, (run exampleFns [.call 2 [], .output 0] start []).map Prod.fst = some s ∧
      execute gmw (finished s) 0 (.scalar []) zeroTriples noOutputs = .fail ∧
      execute gmw (finished s) 1 (.scalar []) zeroTriples noOutputs = .fail := by
  refine ⟨_, rfl, rfl, rfl⟩

/-- A builder that was installed and finished with `into_circuit` leaves the cached circuits behind,
emptied: the next program that calls the function gets a circuit without gates. -/
theorem sub_circuit_stale_cache :
    ∃ s1 s2, (run exampleFns [.input, .input, .call 0 [[0, 1]], .output 2] start []).map Prod.fst = some s1 ∧
      (run exampleFns [.input, .input, .call 0 [[0, 1]], .output 2] s1.installIntoCircuit []).map Prod.fst = some s2 ∧
      (getCirc (intoCircuit {} s1.mem s1.ptrs) 1).map (fun c => c.gates.length) = some 4 ∧
      (getCirc (intoCircuit {} s2.mem s2.ptrs) 1).map (fun c => c.gates.length) = some 0 := by
  refine ⟨_, _, rfl, rfl, rfl, rfl⟩

/-- With `global_into_circuit` in between, it gets its circuit. -/
example :
    ∃ s1 s2, (run exampleFns [.input, .input, .call 0 [[0, 1]], .output 2] start []).map Prod.fst = some s1 ∧
      (run exampleFns [.input, .input, .call 0 [[0, 1]], .output 2] s1.globalIntoCircuit []).map Prod.fst = some s2 ∧
      (getCirc (intoCircuit {} s2.mem s2.ptrs) 1).map (fun c => c.gates.length) = some 4 := by
  refine ⟨_, _, rfl, rfl, rfl⟩

end Verif.Macro
