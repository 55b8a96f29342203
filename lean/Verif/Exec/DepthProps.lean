import Verif.Exec.Depth
import Verif.Exec.Witness

/-!
C63: concrete circuits, and the case in which the claim fails.
-/
set_option autoImplicit false

namespace Verif.Exec

open Circuit Proc Gmw GateLike

/-- Non-vacuity: a chain of two AND gates besides a single one. -/
def chainOps : List (BoolGate × List Nat) :=
  [(.base .input, []), (.base .input, []), (.and, [0, 1]), (.inv, [2]), (.and, [3, 0]), (.and, [0, 0]),
    (.base .output, [4]), (.base .output, [5])]

example : OpsOk chainOps := by
  intro i g args h
  have hi : i < 8 := (List.getElem?_eq_some_iff.1 h).1
  interval_cases i <;> simp [chainOps] at h <;> obtain ⟨rfl, rfl⟩ := h <;>
    simp [isSource, isCross, asBase]

/-- Non-vacuity: its rounds. -/
example : ∃ c rank it ls, buildG chainOps = some c ∧ SingleOk c rank ∧ MIter.new (Multi.ofBase c) = some it ∧
    MIter.collect (Multi.ofBase c) (c.gates.length + 1) it = some ls ∧
    (interactiveLayers (Multi.ofBase c) ls).length = 2 := by
  obtain ⟨c, rank, e, ok, hg, hs, hp⟩ := single_built chainOps (by
    intro i g args h
    have hi : i < 8 := (List.getElem?_eq_some_iff.1 h).1
    interval_cases i <;> simp [chainOps] at h <;> obtain ⟨rfl, rfl⟩ := h <;>
      simp [isSource, isCross, asBase])
  let d : Nat → Nat := fun v => [0, 0, 0, 1, 1, 0, 2, 1].getD v 0
  have hd : IsDepth c d := by
    intro v hv
    have hv' : v < 8 := by simpa [hg, chainOps] using hv
    interval_cases v <;> rw [hp _ _ _ rfl] <;>
      simp [d, cost, hg, chainOps, maxL, interactive, BoolGate.isInteractive]
  obtain ⟨it, ls, e1, e2, e3⟩ := rounds_eq_depth_partial ok hs d hd
  refine ⟨c, rank, it, ls, e, ok, e1, e2, ?_⟩
  rw [e3]
  simp [mulDepth, hg, chainOps, cost, d, maxL, interactive, BoolGate.isInteractive, List.range_succ]

/-! ### Circuits with sub-circuits -/

/-- The rounds a gate of any circuit costs. -/
def costM {G : Type} [GateLike G] (m : Multi G) (v : Node) : Nat :=
  match m.gate? v with
  | some g => if interactive g then 1 else 0
  | none => 0

/-- The claim C63 for circuits with sub-circuits: whenever no path has more than `n` interactive gates, there
are at most `n` rounds. -/
def RoundsBounded : Prop :=
  ∀ (m : Multi BoolGate) (rank : Node → Nat) (d : Node → Nat) (n : Nat), WF m rank →
    (∀ v, m.Valid v → d v = maxL ((m.parents v).map fun u => d u + costM m u)) →
    (∀ v, m.Valid v → d v + costM m v ≤ n) → ∀ it ls, MIter.new m = some it →
    MIter.collect m ((m.circs.map fun c => c.gates.length).sum + 1) it = some ls →
    (interactiveLayers m ls).length ≤ n

/-- `output(x & y); output(call(x, y))` with `call` being an AND. -/
def roundMain : Base BoolGate :=
  { gates := [.base .input, .base .input, .base .subCircuitInput, .and, .base .output, .base .output]
    edges := [(1, 3), (0, 3), (3, 4), (2, 5)], interactiveCount := 1, inputGates := [0, 1], outputGates := [4, 5]
    scInputGates := [2] }

def roundCirc : Multi BoolGate := .ofConns [roundMain, callSub] callConns

theorem roundCirc_circ {i : Nat} {c : Base BoolGate} (h : roundCirc.circs[i]? = some c) :
    (i = 0 ∧ c = roundMain) ∨ (i = 1 ∧ c = callSub) := by
  match i, h with
  | 0, h => left; simp [roundCirc, Multi.ofConns] at h; exact ⟨rfl, h.symm⟩
  | 1, h => right; simp [roundCirc, Multi.ofConns] at h; exact ⟨rfl, h.symm⟩
  | i + 2, h => simp [roundCirc, Multi.ofConns] at h

theorem roundCirc_in {u v : Node} (h : u ∈ roundCirc.incoming v) : (u, v) ∈ callConns :=
  mem_incoming.1 h

/-- The example satisfies `WF`. -/
theorem roundCirc_wf : WF roundCirc callRank := by
  refine ⟨by decide, ?_, ?_, ?_, ofConns_consistent _ _, ?_, ?_, ?_, ?_, ?_, ?_, ?_, ?_, ?_⟩
  · intro i c h; rcases roundCirc_circ h with ⟨rfl, rfl⟩ | ⟨rfl, rfl⟩ <;> decide
  · intro i c h; rcases roundCirc_circ h with ⟨rfl, rfl⟩ | ⟨rfl, rfl⟩ <;> decide
  · intro u v h
    have := roundCirc_in h
    simp only [callConns, List.mem_cons, Prod.mk.injEq, List.not_mem_nil, or_false] at this
    rcases this with ⟨rfl, rfl⟩ | ⟨rfl, rfl⟩ | ⟨rfl, rfl⟩ <;> decide
  · intro u v h
    have := roundCirc_in h
    simp only [callConns, List.mem_cons, Prod.mk.injEq, List.not_mem_nil, or_false] at this
    rcases this with ⟨rfl, rfl⟩ | ⟨rfl, rfl⟩ | ⟨rfl, rfl⟩
    · exact ⟨roundMain, rfl, by decide⟩
    · exact ⟨roundMain, rfl, by decide⟩
    · exact ⟨callSub, rfl, by decide⟩
  · intro u v h
    have := roundCirc_in h
    simp only [callConns, List.mem_cons, Prod.mk.injEq, List.not_mem_nil, or_false] at this
    rcases this with ⟨rfl, rfl⟩ | ⟨rfl, rfl⟩ | ⟨rfl, rfl⟩
    · exact ⟨callSub, rfl, by decide⟩
    · exact ⟨callSub, rfl, by decide⟩
    · exact ⟨roundMain, rfl, by decide⟩
  · intro v
    by_cases h : v = (1, 0) ∨ v = (1, 1) ∨ v = (0, 2)
    · rcases h with rfl | rfl | rfl <;> decide
    · have : roundCirc.incoming v = [] := by
        rw [List.eq_nil_iff_forall_not_mem]
        intro u hu
        have := roundCirc_in hu
        simp only [callConns, List.mem_cons, Prod.mk.injEq, List.not_mem_nil, or_false] at this
        tauto
      simp [this]
  · intro v c hne hc
    obtain ⟨u, hu⟩ := List.exists_mem_of_ne_nil _ hne
    have := roundCirc_in hu
    simp only [callConns, List.mem_cons, Prod.mk.injEq, List.not_mem_nil, or_false] at this
    rcases roundCirc_circ hc with ⟨h0, rfl⟩ | ⟨h0, rfl⟩ <;>
      rcases this with ⟨rfl, rfl⟩ | ⟨rfl, rfl⟩ | ⟨rfl, rfl⟩ <;> first | decide | simp at h0
  · intro i c h; rcases roundCirc_circ h with ⟨rfl, rfl⟩ | ⟨rfl, rfl⟩ <;> decide
  · intro i c h; rcases roundCirc_circ h with ⟨rfl, rfl⟩ | ⟨rfl, rfl⟩ <;> decide
  · intro i c h; rcases roundCirc_circ h with ⟨rfl, rfl⟩ | ⟨rfl, rfl⟩ <;> decide
  · intro i c h; rcases roundCirc_circ h with ⟨rfl, rfl⟩ | ⟨rfl, rfl⟩ <;> decide
  · intro i c h hi g hg
    rcases roundCirc_circ h with ⟨rfl, rfl⟩ | ⟨rfl, rfl⟩
    · exact absurd rfl hi
    · simp [initial, callSub] at hg

/-- **C63** fails for circuits with sub-circuits: entering a sub-circuit takes a layer, so the AND gate of a
called function is not evaluated together with the AND gate next to the call.  Both have depth one, but there are
two rounds. -/
theorem calls_cost_rounds : ¬ RoundsBounded := by
  intro h
  have hnew : ∃ it, MIter.new roundCirc = some it ∧
      MIter.collect roundCirc 11 it = some [[(0, ⟨[0, 1], [3]⟩)], [(0, ⟨[4], []⟩), (1, ⟨[0, 1], [2]⟩)],
        [(1, ⟨[3], []⟩)], [(0, ⟨[2, 5], []⟩)]] := ⟨_, rfl, rfl⟩
  obtain ⟨it, e1, e2⟩ := hnew
  have := h roundCirc callRank
    (fun v => if v = (0, 2) ∨ v = (0, 4) ∨ v = (0, 5) ∨ v = (1, 3) then 1 else 0) 1 roundCirc_wf ?_ ?_ it _ e1 e2
  · revert this
    decide
  all_goals
    rintro ⟨i, j⟩ ⟨c, hc, hj⟩
    rcases roundCirc_circ hc with ⟨h0, rfl⟩ | ⟨h0, rfl⟩ <;> simp only at h0 hj <;> subst h0
    · have hj : j < 6 := hj
      interval_cases j <;> decide
    · have hj : j < 4 := hj
      interval_cases j <;> decide

end Verif.Exec
