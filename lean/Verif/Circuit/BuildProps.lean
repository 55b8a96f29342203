import Verif.Circuit.Build

/-!
C13 and C49.
-/
set_option autoImplicit false

namespace Verif.Circuit

open Gmw (BaseGate BoolGate)

variable {G : Type} [GateLike G]

/-- **C13.** After any history of calls, add a gate with an operand list, and perform any further
calls that do not add a wire to this gate: its parents are the operand list in the given order. -/
theorem operands_in_order (pre post : List (Call G)) (c c1 c2 : Base G) (g : G) (ops : List Nat)
    (id : Nat) (hpre : runCalls {} pre = some c) (hadd : c.addWiredGate g ops = some (c1, id))
    (hpost : runCalls c1 post = some c2) (hno : ∀ s, .wire s id ∉ post) :
    c2.parents id = ops ∧ c2.gates[id]? = some g := by
  have he : EdgesIn c := (runCalls_spec hpre (by intro e h; simp at h)).1
  obtain ⟨rfl, hops, rfl⟩ := addWiredGate_spec hadd
  obtain ⟨h1, h2, -⟩ := addGate_gates c g
  have hr : (Call.wired g ops).run c = some
      { (c.addGate g).1 with edges := c.edges ++ ops.reverse.map fun s => (s, c.gates.length) } := by
    simp only [Call.run, hadd, Option.map_some]
  obtain ⟨he1, -, -⟩ := run_spec hr he
  obtain ⟨-, ⟨gs, hg⟩, es, hes, hk⟩ := runCalls_spec hpost he1
  simp only [h1] at hg hk
  constructor
  · have e1 : c2.parents c.gates.length =
        ({ (c.addGate g).1 with edges := (c.edges ++ ops.reverse.map fun s => (s, c.gates.length)) ++ es } :
          Base G).parents c.gates.length := by
      unfold Base.parents; rw [hes]
    rw [e1]
    have := parents_append_other
      { (c.addGate g).1 with edges := c.edges ++ ops.reverse.map fun s => (s, c.gates.length) } es
      c.gates.length (by
        intro e hh heq
        refine hno e.1 ?_
        have := hk e hh (by rw [heq]; simp)
        rwa [heq] at this)
    rw [this]
    simp only [Base.parents, List.reverse_append, List.filter_append, List.map_append]
    have e2 : c.edges.reverse.filter (fun e => decide (e.2 = c.gates.length)) = [] := by
      rw [List.filter_eq_nil_iff]
      intro e hh
      have := he e (by simpa using hh)
      simp; omega
    rw [e2, ← List.map_reverse, List.reverse_reverse]
    rw [List.filter_eq_self.2 (by simp)]
    simp [Function.comp_def]
  · rw [hg, List.append_assoc, List.getElem?_append_right (Nat.le_refl _)]
    simp

/-- Non-trivial instance: `a - b` style operand order with duplicates. -/
example : runCalls ({} : Base BoolGate)
      [.gate (.base .input), .gate (.base .input), .wired .xor [1, 0], .wired .and [2, 2],
        .wire 0 1] = some
      { gates := [.base .input, .base .input, .xor, .and]
        edges := [(0, 2), (1, 2), (2, 3), (2, 3), (0, 1)]
        inputGates := [0, 1], interactiveCount := 1 } ∧
    ({ gates := [.base .input, .base .input, .xor, .and]
       edges := [(0, 2), (1, 2), (2, 3), (2, 3), (0, 1)] } : Base BoolGate).parents 2 = [1, 0] := by
  constructor
  · rfl
  · decide

/-- **C49.** The lists and counters of a circuit match its gates after any history of calls.  For
sub-circuit inputs this needs that `add_sc_input_gate` is only used with `SubCircuitInput`
gates. -/
theorem bookkeeping (ks : List (Call G)) (c : Base G) (h : runCalls {} ks = some c) :
    BookOk c ∧ ((∀ g, .scInput g ∈ ks → asBase g = some .subCircuitInput) → ScBookOk c) := by
  have gen : ∀ (ks : List (Call G)) (c0 c : Base G), runCalls c0 ks = some c →
      (BookOk c0 → BookOk c) ∧
      ((∀ g, .scInput g ∈ ks → asBase g = some .subCircuitInput) → ScBookOk c0 → ScBookOk c) := by
    intro ks
    induction ks with
    | nil =>
      intro c0 c h
      simp only [runCalls, Option.some.injEq] at h
      subst h
      exact ⟨id, fun _ => id⟩
    | cons k ks ih =>
      intro c0 c h
      simp only [runCalls, Option.bind_eq_some_iff] at h
      obtain ⟨c1, h1, h2⟩ := h
      obtain ⟨i1, i2⟩ := ih c1 c h2
      refine ⟨fun hb => i1 (bookOk_run h1 hb), fun hk hb => i2 (fun g hg => hk g (List.mem_cons_of_mem _ hg))
        (scBookOk_run h1 hb fun g hg => hk g (by rw [hg]; exact List.mem_cons_self))⟩
  obtain ⟨h1, h2⟩ := gen ks {} c h
  exact ⟨h1 ⟨rfl, rfl, rfl, rfl, rfl⟩, fun hk => h2 hk rfl⟩

example : ∃ c, runCalls ({} : Base BoolGate)
      [.scInput (.base .subCircuitInput), .gate (.base (.constant true)), .wired .and [0, 1],
        .wired (.base .subCircuitOutput) [2]] = some c ∧ c.scInputGates = [0] ∧
      c.constantGates = [1] ∧ c.scOutputGates = [3] ∧ c.interactiveCount = 1 :=
  ⟨_, rfl, rfl, rfl, rfl, rfl⟩

/-- The restriction in `bookkeeping` is necessary: a `ConnectToMain` gate added as sub-circuit
input is listed twice. -/
theorem connect_gate_listed_twice : ∃ c, runCalls ({} : Base BoolGate)
      [.scInput (.base .connectToMain)] = some c ∧ c.gates.length = 1 ∧ c.scInputGates = [0, 0] :=
  ⟨_, rfl, rfl, rfl⟩

end Verif.Circuit
