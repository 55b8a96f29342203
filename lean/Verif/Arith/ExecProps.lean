import Verif.Arith.Exec

/-!
C72: a circuit on which the result is wrong; C73: what the openings of multiplications reveal.
-/
set_option autoImplicit false

namespace Verif.Arith

open Gmw (BaseGate)
open Circuit Exec Proc

variable {w : Nat}

/-! ### The circuit of the unit test -/

/-- arithmetic_gmw.rs:227-237: the circuit `inp3 * (inp1 + inp2)` of the test `simple_circ`. -/
def simpleCirc : List (AGate w × List Nat) :=
  [(.base .input, []), (.base .input, []), (.base .input, []), (.op .add, [0, 1]), (.op .mul, [2, 3]),
    (.base .output, [4])]

theorem simpleCirc_ok : AOk (simpleCirc (w := w)) := by
  intro i g args hi
  match i, hi with
  | 0, hi | 1, hi | 2, hi | 3, hi | 4, hi | 5, hi =>
    simp only [simpleCirc, List.getElem?_cons_succ, List.getElem?_cons_zero, Option.some.injEq,
      Prod.mk.injEq] at hi
    obtain ⟨rfl, rfl⟩ := hi
    simp [AGate.arity, isCross, GateLike.asBase]
  | i + 6, hi => simp [simpleCirc] at hi

/-- What it should compute. -/
theorem simpleCirc_outputs (x y z : BitVec w) :
    outputs (fun _ a b => a * b) simpleCirc [x, y, z] = [z * (x + y)] := by
  simp [outputs, simpleCirc, evalOps, opStep]

theorem replicate_equal (s t : Triple w) (h : EqualPair s t) (n : Nat) :
    List.Forall₂ EqualPair (List.replicate n s) (List.replicate n t) := by
  induction n with
  | zero => exact .nil
  | succ n ih => exact .cons h ih

/-- The unit test, for all inputs and all sharings of them: with the zero triples of
`InsecureMTProvider` the result is right. -/
example (x0 y0 z0 x1 y1 z1 : BitVec w) (init0 init1 : Store (BitVec w) (List (BitVec w))) :
    ∃ c, buildG simpleCirc = some c ∧ ∃ o0 o1,
      Runs (execute (arith w) (.ofBase c) 0 (.scalar [x0, y0, z0]) (fun _ n => .replicate n ⟨0, 0, 0⟩) init0)
        (execute (arith w) (.ofBase c) 1 (.scalar [x1, y1, z1]) (fun _ n => .replicate n ⟨0, 0, 0⟩) init1)
        (.scalar o0) (.scalar o1) ∧
      reconstruct (o0, o1) = [(z0 + z1) * ((x0 + x1) + (y0 + y1))] := by
  obtain ⟨c, hc, o0, o1, hr, ho⟩ := arith_built_correct_partial simpleCirc simpleCirc_ok [x0, y0, z0]
    [x1, y1, z1] rfl rfl (fun _ n => .replicate n ⟨0, 0, 0⟩) (fun _ n => .replicate n ⟨0, 0, 0⟩)
    (fun _ n => ⟨replicate_equal _ _ (by simp [EqualPair, ValidPair]) n, by simp⟩) init0 init1
  exact ⟨c, hc, o0, o1, hr, by rw [ho]; exact simpleCirc_outputs _ _ _⟩

/-- A linear circuit with a constant: `(x - y) + 7`. -/
example (x0 y0 x1 y1 : BitVec w) (setup0 setup1 : Nat → Nat → List (Triple w))
    (init0 init1 : Store (BitVec w) (List (BitVec w))) :
    ∃ c, buildG [(AGate.base .input, []), (.base .input, []), (.base (.constant 7), []), (.op .sub, [0, 1]),
        (.op .add, [3, 2]), (.base .output, [4])] = some c ∧ ∃ o0 o1,
      Runs (execute (arith w) (.ofBase c) 0 (.scalar [x0, y0]) setup0 init0)
        (execute (arith w) (.ofBase c) 1 (.scalar [x1, y1]) setup1 init1) (.scalar o0) (.scalar o1) ∧
      reconstruct (o0, o1) = [((x0 + x1) - (y0 + y1)) + 7] := by
  obtain ⟨c, hc, o0, o1, hr, ho⟩ := arith_built_linear
    [(AGate.base .input, []), (.base .input, []), (.base (.constant 7), []), (.op .sub, [0, 1]),
        (.op .add, [3, 2]), (.base .output, [4])] (by
      intro i g args hi
      match i, hi with
      | 0, hi | 1, hi | 2, hi | 3, hi | 4, hi | 5, hi =>
        simp only [List.getElem?_cons_succ, List.getElem?_cons_zero, Option.some.injEq,
          Prod.mk.injEq] at hi
        obtain ⟨rfl, rfl⟩ := hi
        simp [AGate.arity, isCross, GateLike.asBase]
      | i + 6, hi => simp at hi) (by simp) [x0, y0] [x1, y1] rfl rfl setup0 setup1 init0 init1
  refine ⟨c, hc, o0, o1, hr, ?_⟩
  rw [ho]
  simp [outputs, evalOps, opStep, reconstruct]

/-- **C72 fails with multiplications.**  In the unit test's circuit, with the valid triples
`a = 1, b = c = 0`, the result differs from the product by `z - x - y - 1`, whatever the inputs and
their sharing. -/
theorem arith_execute_wrong (x0 y0 z0 x1 y1 z1 : BitVec w)
    (init0 init1 : Store (BitVec w) (List (BitVec w))) :
    ValidPair (⟨1, 0, 0⟩ : Triple w) ⟨0, 0, 0⟩ ∧
    ∃ c, buildG simpleCirc = some c ∧ ∃ o0 o1,
      Runs (execute (arith w) (.ofBase c) 0 (.scalar [x0, y0, z0]) (fun _ n => .replicate n ⟨1, 0, 0⟩) init0)
        (execute (arith w) (.ofBase c) 1 (.scalar [x1, y1, z1]) (fun _ n => .replicate n ⟨0, 0, 0⟩) init1)
        (.scalar o0) (.scalar o1) ∧
      reconstruct (o0, o1) = [(z0 + z1) * ((x0 + x1) + (y0 + y1)) +
        ((z0 + z1) - ((x0 + x1) + (y0 + y1)) - 1)] := by
  refine ⟨by simp [ValidPair], ?_⟩
  obtain ⟨c, rank, hc, ok, hs, hg, hi, hp, ho⟩ := arith_built
    (fun _ => mulOut (Triple.sum (⟨1, 0, 0⟩ : Triple w) ⟨0, 0, 0⟩)) simpleCirc simpleCirc_ok
    (reconstruct ([x0, y0, z0], [x1, y1, z1])) rfl
  obtain ⟨-, o0, o1, -, -, hr, -, -, hrec⟩ := arith_execute_value (.ofBase c) _ (single_wf ok)
    (single_exec ok hs base_local) (single_scalar hs) c rfl [x0, y0, z0] [x1, y1, z1] _ (by rw [hi]; rfl)
    (by rw [hi]; rfl) rfl (fun _ n => .replicate n ⟨1, 0, 0⟩) (fun _ n => .replicate n ⟨0, 0, 0⟩)
    (fun _ => mulOut (Triple.sum (⟨1, 0, 0⟩ : Triple w) ⟨0, 0, 0⟩)) (by
      intro ls hls k l hk i v hv
      have hlt := (List.getElem?_eq_some_iff.1 hv).1
      have e : (intScalar (Multi.ofBase c) l).length = intCount (Multi.ofBase c) l := by
        rw [intCount_scalar (single_scalar hs)]
        unfold intScalar intNodes
        rw [List.filter_eq_self.2 (by intro p _; simp [single_scalar hs])]
      exact ⟨⟨1, 0, 0⟩, ⟨0, 0, 0⟩, by rw [List.getElem?_replicate, if_pos (by omega)],
        by rw [List.getElem?_replicate, if_pos (by omega)], rfl⟩) init0 init1 _ hp
  refine ⟨c, hc, o0, o1, hr, ?_⟩
  rw [hrec]
  refine ho.trans ?_
  have hout : ∀ F : Nat → BitVec w → BitVec w → BitVec w, ∀ x y z : BitVec w,
      outputs F simpleCirc [x, y, z] = [F 4 z (x + y)] := by
    intro F x y z
    simp [outputs, simpleCirc, evalOps, opStep]
  refine (hout _ (x0 + x1) (y0 + y1) (z0 + z1)).trans ?_
  simp only [mulOut, Triple.sum, List.cons.injEq, and_true]
  ring

/-- The unit test's inputs give 99 instead of 100. -/
example (init0 init1 : Store (BitVec 32) (List (BitVec 32))) :
    ∃ c, buildG simpleCirc = some c ∧ ∃ o0 o1,
      Runs (execute (arith 32) (.ofBase c) 0 (.scalar [5, 5, 10]) (fun _ n => .replicate n ⟨1, 0, 0⟩) init0)
        (execute (arith 32) (.ofBase c) 1 (.scalar [0, 0, 0]) (fun _ n => .replicate n ⟨0, 0, 0⟩) init1)
        (.scalar o0) (.scalar o1) ∧ reconstruct (o0, o1) = [99] := by
  obtain ⟨-, c, hc, o0, o1, hr, ho⟩ := arith_execute_wrong (w := 32) 5 5 10 0 0 0 init0 init1
  exact ⟨c, hc, o0, o1, hr, ho⟩

/-! ### C73: what a multiplication reveals -/

/-- What both parties learn from the messages of one multiplication, with the shares `x0, y0` of
party 0, `x1, y1` of party 1 and the triple shares `s` and `t`: the sums of the `d` and of the `e`
parts. -/
def opened (x0 y0 x1 y1 : BitVec w) (s t : Triple w) : Option (List (BitVec w) × List (BitVec w)) := do
  let m0 ← computeMsg [.mul] [x0, y0] [s]
  let m1 ← computeMsg [.mul] [x1, y1] [t]
  some (List.zipWith (· + ·) m0.d m1.d, List.zipWith (· + ·) m0.e m1.e)

/-- The full claim: whatever is opened is possible for all operands, with exactly one pair of factors
of a valid triple.  `x0, y0` are the shares of party 0 and `s` its share of the triple, which it
knows; the operands are `x0 + x1` and `y0 + y1`. -/
def OpeningHides (w : Nat) : Prop :=
  ∀ (x0 y0 : BitVec w) (x1 y1 d e : BitVec w), ∃! ab : BitVec w × BitVec w,
    ∃ s t : Triple w, ValidPair s t ∧ s.a + t.a = ab.1 ∧ s.b + t.b = ab.2 ∧
      opened x0 y0 x1 y1 s t = some ([d], [e])

theorem opened_eq (x0 y0 x1 y1 : BitVec w) (s t : Triple w) :
    opened x0 y0 x1 y1 s t =
      some ([(x0 + x1) - (s.a + t.a)], [(y0 + y1) - (s.c + t.c)]) := by
  have : opened x0 y0 x1 y1 s t = some ([(x0 - s.a) + (x1 - t.a)], [(y0 - s.c) + (y1 - t.c)]) := by
    simp [opened, computeMsg, msgPairs]
  rw [this]
  simp only [Option.some.injEq, Prod.mk.injEq, List.cons.injEq, and_true]
  constructor <;> ring

/-- The first opened value is masked: it is possible for every first operand, with exactly one first
factor.  Missing: the second value (`opening_leaks`). -/
theorem opening_first_masked_partial (x0 y0 x1 y1 d : BitVec w) :
    ∃! a : BitVec w, ∃ (s t : Triple w) (e : BitVec w), ValidPair s t ∧ s.a + t.a = a ∧
      opened x0 y0 x1 y1 s t = some ([d], [e]) := by
  refine ⟨(x0 + x1) - d, ⟨⟨(x0 + x1) - d, 0, 0⟩, ⟨0, 0, 0⟩, y0 + y1, by simp [ValidPair], by simp, ?_⟩, ?_⟩
  · rw [opened_eq]
    simp
  · rintro a ⟨s, t, e, -, rfl, h⟩
    rw [opened_eq] at h
    simp only [Option.some.injEq, Prod.mk.injEq, List.cons.injEq, and_true] at h
    rw [← h.1]
    ring

/-- **C73 fails.**  The second operand is masked with `c = a * b` instead of `b`.  If the opened `d`
equals the first operand, then `a = 0`, and the opened `e` is the second operand itself. -/
theorem opening_leaks (x0 y0 x1 y1 d e : BitVec w) (s t : Triple w) (hv : ValidPair s t)
    (h : opened x0 y0 x1 y1 s t = some ([d], [e])) (hx : x0 + x1 = d) : e = y0 + y1 := by
  rw [opened_eq] at h
  simp only [Option.some.injEq, Prod.mk.injEq, List.cons.injEq, and_true] at h
  obtain ⟨h1, h2⟩ := h
  have ha : s.a + t.a = 0 := by
    rw [← hx] at h1
    linear_combination -h1
  have hc : s.c + t.c = 0 := by
    rw [← hv, ha]; ring
  rw [← h2, hc]
  ring

/-- A concrete case of its hypotheses. -/
example : opened (w := 8) 200 3 56 4 ⟨17, 5, 9⟩ ⟨239, 2, 247⟩ = some ([0], [7]) ∧
    ValidPair (w := 8) ⟨17, 5, 9⟩ ⟨239, 2, 247⟩ := by
  rw [opened_eq, ValidPair]; decide

/-- So the messages do not hide the operands, for rings with at least one bit. -/
theorem opening_not_hiding (hw : 0 < w) : ¬ OpeningHides w := by
  intro h
  obtain ⟨ab, ⟨s, t, hv, -, -, ho⟩, -⟩ := h 0 0 0 0 0 1
  have := opening_leaks 0 0 0 0 0 1 s t hv ho (by simp)
  have e := congrArg BitVec.toNat this
  simp at e
  omega

end Verif.Arith
