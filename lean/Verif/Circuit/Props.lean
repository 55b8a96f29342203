import Verif.Circuit.CollectLemmas
import Mathlib.Tactic.FinCases
import Mathlib.Tactic.IntervalCases

/-!
C10: layer iteration visits each gate exactly once, after its operands.
-/
set_option autoImplicit false

namespace Verif.Circuit

variable {G : Type}

/-- What a caller of the layer iterator relies on. -/
structure LayersOk [GateLike G] (m : Multi G) (ls : List MLayer) : Prop where
  /-- No gate is visited twice. -/
  once : (ls.flatMap layerNodes).Nodup
  /-- Exactly the gates of the circuit are visited. -/
  all : ∀ v, v ∈ ls.flatMap layerNodes ↔ m.Valid v
  /-- Operands come first, interactive operands in an earlier layer. -/
  topo : TopoFrom m.parents [] (ls.map fun l => (niNodes l, intNodes l))
  /-- The local part of a layer contains local gates. -/
  local_ : ∀ l ∈ ls, ∀ v ∈ niNodes l, ∃ g, m.gate? v = some g ∧ interactive g = false
  /-- The interactive part of a layer contains interactive gates. -/
  inter : ∀ l ∈ ls, ∀ v ∈ intNodes l, ∃ g, m.gate? v = some g ∧ interactive g = true
  /-- No layer is empty. -/
  nonempty : ∀ l ∈ ls, layerNodes l ≠ []

/-- **C10.** Iterating the layers of a well-formed circuit with any number of connected
sub-circuits terminates without panic and yields all gates once, in topological order.
Partial: `WF.single` excludes sub-circuit inputs with several sources, for which the claim is
false (`Verif.Exec.packed_input_panics`). -/
theorem layers_ok_partial [GateLike G] (m : Multi G) (rank : Node → Nat) (w : WF m rank) :
    ∃ it ls, MIter.new m = some it ∧
      MIter.collect m ((m.circs.map fun c => c.gates.length).sum + 1) it = some ls ∧
      LayersOk m ls := by
  obtain ⟨it, e, g, x⟩ := good_new w
  have hlen : (allNodes m).length = (m.circs.map fun c => c.gates.length).sum := by
    rw [allNodes, nodesOf, List.length_flatMap]
    simp only [List.length_map]
    congr 1
    apply List.ext_getElem?
    intro i
    simp only [List.getElem?_map]
    by_cases h : i < m.circs.length
    · simp [h]
    · simp [h, List.getElem?_eq_none (Nat.le_of_not_lt h)]
  obtain ⟨ls, h1, h2, h3, h4, h5, h6, h7⟩ := collect_spec w
    ((m.circs.map fun c => c.gates.length).sum + 1) _ _ it g x [] (by simp) List.nodup_nil (by simp)
    (by rw [hlen]; simp)
  exact ⟨it, ls, e, h1, ⟨by simpa using h2, by simpa using h3, h4, h5, h6, h7⟩⟩

end Verif.Circuit
