import Verif.Exec.Base

/-!
Circuits built with `add_wired_gate` satisfy the hypotheses of the execution theorems; concrete
circuits; the cases in which the claims C08 and C10 fail.
-/
set_option autoImplicit false

namespace Verif.Exec

open Circuit Proc Gmw

/-- A list of gates with their operands: operands come earlier, and there are as many as the gate
needs. -/
def WellTyped (ops : List (BoolGate × List Nat)) : Prop :=
  ∀ (i : Nat) g args, ops[i]? = some (g, args) →
    args.length = arity g ∧ (∀ a ∈ args, a < i) ∧ plainGate g = true

/-- Build a circuit with `add_wired_gate` calls. -/
def build (ops : List (BoolGate × List Nat)) : Option (Base BoolGate) :=
  runCalls {} (ops.map fun o => .wired o.1 o.2)

theorem runCalls_append (c : Base BoolGate) (a b : List (Call BoolGate)) :
    runCalls c (a ++ b) = (runCalls c a).bind fun c => runCalls c b := by
  induction a generalizing c with
  | nil => rfl
  | cons k ks ih =>
    simp only [List.cons_append, runCalls, Option.bind_assoc]
    congr 1; funext c'; exact ih c'

theorem built_ok (ops : List (BoolGate × List Nat)) (h : WellTyped ops) :
    ∃ c, build ops = some c ∧ BaseOk c ∧ c.gates = ops.map (·.1) ∧ c.simdSize = none ∧
      ∀ (i : Nat) g args, ops[i]? = some (g, args) → c.parents i = args := by
  induction ops using List.reverseRecOn with
  | nil =>
    refine ⟨{}, rfl, ⟨?_, ?_, ?_, ⟨rfl, rfl, rfl, rfl, rfl⟩⟩, rfl, rfl, ?_⟩
    · intro e he; simp at he
    · intro i g hg; simp at hg
    · intro i g hg; simp at hg
    · intro i g a hg; simp at hg
  | append_singleton ops op ih =>
    obtain ⟨g, args⟩ := op
    obtain ⟨c, hc, ok, hg, hsimd, hp⟩ := ih (by
      intro i g a hi
      exact h i g a (by rw [List.getElem?_append_left (List.getElem?_eq_some_iff.1 hi).1]; exact hi))
    have hlen : c.gates.length = ops.length := by rw [hg]; simp
    obtain ⟨h1, h2, h3⟩ := h ops.length g args (by simp)
    obtain ⟨c', hc'⟩ := addWiredGate_some c g args (by rw [hlen]; exact h2)
    have hrun : (Call.wired g args).run c = some c' := by simp [Call.run, hc']
    obtain ⟨-, -, e⟩ := addWiredGate_spec hc'
    obtain ⟨a1, a2, -, a4⟩ := addGate_gates c g
    have hbuild : build (ops ++ [(g, args)]) = some c' := by
      unfold build at hc ⊢
      rw [List.map_append, runCalls_append, hc]
      simp [runCalls, hrun]
    have hgates : c'.gates = c.gates ++ [g] := by rw [e]; exact a1
    have hedges : c'.edges = c.edges ++ args.reverse.map fun s => (s, c.gates.length) := by rw [e]
    have hold : ∀ i < c.gates.length, c'.parents i = c.parents i := by
      intro i hi
      have := parents_append_other c (args.reverse.map fun s => (s, c.gates.length)) i (by
        intro x hx
        simp only [List.mem_map] at hx
        obtain ⟨y, -, rfl⟩ := hx
        simp only; omega)
      rw [← this]
      simp only [Base.parents, hedges]
    have hnew : c'.parents c.gates.length = args := by
      unfold build at hc
      exact (operands_in_order _ [] c c' c' g args c.gates.length hc hc' rfl (by simp)).1
    have split : ∀ (i : Nat) (x : BoolGate), c'.gates[i]? = some x →
        (i < c.gates.length ∧ c.gates[i]? = some x) ∨ (i = c.gates.length ∧ x = g) := by
      intro i x hx
      rw [hgates] at hx
      by_cases hi : i < c.gates.length
      · left; exact ⟨hi, by rwa [List.getElem?_append_left hi] at hx⟩
      · right
        have := (List.getElem?_eq_some_iff.1 hx).1
        have hi' : i = c.gates.length := by simp at this; omega
        subst hi'
        rw [List.getElem?_append_right (Nat.le_refl _)] at hx
        simp only [Nat.sub_self, List.getElem?_cons_zero, Option.some.injEq] at hx
        exact ⟨rfl, hx.symm⟩
    refine ⟨c', hbuild, ⟨?_, ?_, ?_, bookOk_run hrun ok.book⟩, ?_, ?_, ?_⟩
    · intro x hx
      rw [hedges, List.mem_append] at hx
      rw [hgates, List.length_append, List.length_singleton]
      rcases hx with hx | hx
      · have := ok.edges x hx; omega
      · simp only [List.mem_map, List.mem_reverse] at hx
        obtain ⟨y, hy, rfl⟩ := hx
        have := h2 y hy
        simp only; omega
    · intro i x hx
      rcases split i x hx with ⟨hi, hx⟩ | ⟨rfl, rfl⟩
      · rw [hold i hi]; exact ok.arity i x hx
      · rw [hnew, h1]
    · intro i x hx
      rcases split i x hx with ⟨hi, hx⟩ | ⟨rfl, rfl⟩
      · exact ok.kinds i x hx
      · exact h3
    · rw [hgates, hg]; simp
    · rw [e]; simp only; rw [a4]; exact hsimd
    · intro i x a hi
      by_cases hlt : i < ops.length
      · rw [List.getElem?_append_left hlt] at hi
        rw [hold i (by omega)]
        exact hp i x a hi
      · have := (List.getElem?_eq_some_iff.1 hi).1
        have hi' : i = ops.length := by simp at this; omega
        subst hi'
        rw [List.getElem?_append_right (Nat.le_refl _)] at hi
        simp only [Nat.sub_self, List.getElem?_cons_zero, Option.some.injEq, Prod.mk.injEq] at hi
        rw [← hlen, hnew, hi.2]

/-- **C08** for circuits built gate by gate: for every well-typed list of `add_wired_gate` calls
the construction succeeds, and executing the circuit computes its plaintext function. -/
theorem gmw_built_circuit_correct (ops : List (BoolGate × List Nat)) (h : WellTyped ops)
    (a b : List Bool) (hl : a.length = ops.countP fun o => o.1 = .base .input)
    (hl' : b.length = a.length) (setup0 setup1 : Nat → Nat → List Triple)
    (hset : ∀ k n, Matching (setup0 k n) (setup1 k n) ∧ n ≤ (setup0 k n).length)
    (init0 init1 : Store Bool (List Bool)) :
    ∃ c, build ops = some c ∧ (∀ (i : Nat) g args, ops[i]? = some (g, args) →
        c.gates[i]? = some g ∧ c.parents i = args) ∧ ∃ o0 o1,
      Runs (execute gmw (.ofBase c) 0 (.scalar a) setup0 init0)
        (execute gmw (.ofBase c) 1 (.scalar b) setup1 init1) (.scalar o0) (.scalar o1) ∧
      xorL o0 o1 = plainFn c (xorL a b) := by
  obtain ⟨c, hc, ok, hg, hs, hp⟩ := built_ok ops h
  have hlen : (xorL a b).length = c.inputGates.length := by
    have : ∀ gs : List BoolGate, (positions (fun g => g = .base .input) gs).length =
        gs.countP (fun g => g = .base .input) := by
      intro gs
      induction gs using List.reverseRecOn with
      | nil => rfl
      | append_singleton gs y ih =>
        rw [positions_append, List.length_append, ih, List.countP_append, List.countP_singleton]
        split <;> simp
    rw [input_pos c ok.book, this, hg, List.countP_map]
    simp only [xorL, List.length_zipWith, hl', Nat.min_self, hl]
    rfl
  obtain ⟨ls, o0, o1, -, -, hr, ho⟩ := gmw_scalar_circuit_correct c ok hs a b (xorL a b)
    (by simp [xorL, hl']) (by simp [xorL, hl']) rfl hlen setup0 setup1 hset init0 init1
  refine ⟨c, hc, ?_, o0, o1, hr, ho⟩
  intro i g args hi
  refine ⟨?_, hp i g args hi⟩
  rw [hg, List.getElem?_map, hi]; rfl

/-- A full adder: the hypotheses hold and the plaintext function is addition. -/
def fullAdder : List (BoolGate × List Nat) :=
  [(.base .input, []), (.base .input, []), (.base .input, []), (.xor, [0, 1]), (.xor, [3, 2]),
    (.and, [3, 2]), (.and, [0, 1]), (.xor, [5, 6]), (.base .output, [4]), (.base .output, [7])]

example : WellTyped fullAdder ∧ ∃ c, build fullAdder = some c ∧
    ∀ x y z : Bool, plainFn c [x, y, z] = [(x ^^ y) ^^ z, ((x ^^ y) && z) ^^ (x && y)] := by
  refine ⟨?_, _, rfl, ?_⟩
  · intro i g args h
    have hi := (List.getElem?_eq_some_iff.1 h).1
    have : i < 10 := hi
    interval_cases i <;> simp [fullAdder] at h <;> obtain ⟨rfl, rfl⟩ := h <;>
      simp [arity, plainGate]
  · intro x y z; cases x <;> cases y <;> cases z <;> decide

/-- Triples exist: all-zero shares are matching triples. -/
example : ∀ k n : Nat, Matching ((fun _ n => List.replicate n ⟨false, false, false⟩ :
      Nat → Nat → List Triple) k n) (List.replicate n ⟨false, false, false⟩) ∧
    n ≤ (List.replicate n (⟨false, false, false⟩ : Triple)).length := by
  intro k n
  refine ⟨?_, by simp⟩
  unfold Matching
  simp only
  induction n with
  | zero => exact .nil
  | succ n ih => exact .cons (by simp [ValidPair]) ih

end Verif.Exec
