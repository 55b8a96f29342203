import Verif.Mixed.Private
import Verif.Arith.ExecLeak

/-!
Multiplications in the mixed protocol (C98): the condition of `mixed_active_private_partial` is needed.
-/

set_option autoImplicit false

namespace Verif.Mixed
open Verif.Exec Verif.Circuit Verif.Proc

/-! ### Specification -/

/-- Two shares are multiplied. -/
def mulCirc (w : Nat) : Base (Gate w) where
  gates := [.base .input, .base .input, .arith .mul, .base .output]
  edges := [(0, 2), (1, 2), (2, 3)]
  interactiveCount := 1
  inputGates := [0, 1]
  outputGates := [3]

/-- All that the peer sees when an honest party multiplies its shares `x` and `y` with the triple `t`. -/
def mulView {w : Nat} (party : Nat) (x y : BitVec w) (t : Arith.Triple w) (adv : List (Msg w) → Option (Msg w × Option Unit)) :
    List (Msg w) :=
  (observe sentOf adv (execute (mixed w) (.ofBase (mulCirc w)) party (.scalar [.arith x, .arith y])
    (fun _ _ => (fun _ => 0, ⟨[], [t], [], []⟩)) ⟨fun _ => .bool false, fun _ => [], fun _ => false⟩)).1

/-! ### Theorems -/

/-- The first message that the peer receives, whatever it does: one operand is masked with the product of the
triple (the first one, since the executor hands operands over in reverse order). -/
theorem mul_view {w : Nat} (party : Nat) (x y : BitVec w) (t : Arith.Triple w) (adv : List (Msg w) → Option (Msg w × Option Unit)) :
    (mulView party x y t adv).head? = some ⟨⟨0, [], []⟩, ⟨[x - t.c], [y - t.a]⟩, [], [], []⟩ := by
  have h : ∃ k, execute (mixed w) (.ofBase (mulCirc w)) party (.scalar [.arith x, .arith y])
      (fun _ _ => (fun _ => 0, ⟨[], [t], [], []⟩)) ⟨fun _ => .bool false, fun _ => [], fun _ => false⟩ =
      .send (⟨⟨0, [], []⟩, ⟨[x - t.c], [y - t.a]⟩, [], [], []⟩, none) k := ⟨_, rfl⟩
  obtain ⟨k, hk⟩ := h
  rw [mulView, hk, observe_head]
  rfl

/-- **C98** is false with multiplications, for every width, every triple `u` of the peer and every strategy: there is a valid
triple for which the shares 0 and 0 lead to messages that the shares 1 and 0 never lead to. -/
theorem mixed_mul_leaks {w : Nat} (hw : 0 < w) (party : Nat) (u : Arith.Triple w)
    (adv : List (Msg w) → Option (Msg w × Option Unit)) :
    ∃ t, Arith.ValidPair t u ∧ ∀ t', Arith.ValidPair t' u → mulView party 0 0 t adv ≠ mulView party 1 0 t' adv := by
  refine ⟨⟨-u.a, 0, -u.c⟩, by simp [Arith.ValidPair], fun t' ht' he => ?_⟩
  have h := congrArg List.head? he
  rw [mul_view, mul_view] at h
  simp only [Option.some.injEq, Msg.mk.injEq, Arith.Msg.mk.injEq, List.cons.injEq, and_true, true_and] at h
  exact Arith.openings_differ hw ht' h.1 h.2

end Verif.Mixed
