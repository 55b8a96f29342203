import Verif.Arith.ExecProps
import Verif.Exec.ActiveScalar

/-!
C73 in whole executions: what the peer sees of a multiplication.
-/
set_option autoImplicit false

namespace Verif.Exec
open Proc

theorem interact_sent_prefix {M O : Type} (adv : List M → Option M) (p : Proc M O) :
    ∀ sent : List M, sent <+: (interact adv sent p).1 := by
  induction p with
  | done o => exact fun _ => List.prefix_rfl
  | fail => exact fun _ => List.prefix_rfl
  | send m k ih => exact fun sent => (List.prefix_append sent [m]).trans (ih _)
  | recv k ih =>
    intro sent
    rw [interact]
    cases adv sent with
    | none => exact List.prefix_rfl
    | some r => exact ih r sent

/-- The first message that a peer receives does not depend on what it does. -/
theorem observe_head {M MS W S V : Type} (view : M × Option MS → W) (adv : List W → Option (M × Option MS))
    (a : M × Option MS) (k : Proc (M × Option MS) (Input S V)) : (observe view adv (.send a k)).1.head? = some (view a) := by
  unfold observe
  rw [interact]
  obtain ⟨r, hr⟩ := interact_sent_prefix (fun sent => adv (sent.map view)) k ([] ++ [a])
  dsimp only
  rw [← hr]
  rfl

end Verif.Exec

namespace Verif.Arith
open Circuit Exec Proc

/-! ### Specification -/

/-- Two shares are multiplied. -/
def mulCirc (w : Nat) : Base (AGate w) where
  gates := [.base .input, .base .input, .op .mul, .base .output]
  edges := [(0, 2), (1, 2), (2, 3)]
  interactiveCount := 1
  inputGates := [0, 1]
  outputGates := [3]

/-- All that the peer sees when an honest party multiplies its shares `x` and `y` with the triple `t`. -/
def mulView {w : Nat} (party : Nat) (x y : BitVec w) (t : Triple w) (adv : List (Msg w) → Option (Msg w × Option Unit)) :
    List (Msg w) :=
  (observe Prod.fst adv (execute (arith w) (.ofBase (mulCirc w)) party (.scalar [x, y]) (fun _ _ => [t])
    ⟨fun _ => 0, fun _ => [], fun _ => false⟩)).1

/-! ### Theorems -/

/-- The first message that the peer receives, whatever it does: one operand is masked with the product of the triple (the
first one, since the executor hands operands over in reverse order). -/
theorem mul_view {w : Nat} (party : Nat) (x y : BitVec w) (t : Triple w) (adv : List (Msg w) → Option (Msg w × Option Unit)) :
    (mulView party x y t adv).head? = some ⟨[x - t.c], [y - t.a]⟩ := by
  have h : ∃ k, execute (arith w) (.ofBase (mulCirc w)) party (.scalar [x, y]) (fun _ _ => [t])
      ⟨fun _ => 0, fun _ => [], fun _ => false⟩ = .send (⟨[x - t.c], [y - t.a]⟩, none) k := ⟨_, rfl⟩
  obtain ⟨k, hk⟩ := h
  rw [mulView, hk, observe_head]

/-- Openings that are equal only for equal shares, if the other one is zero. -/
theorem openings_differ {w : Nat} (hw : 0 < w) {t' u : Triple w} (ht : ValidPair t' u) (h1 : 0 - -u.c = 1 - t'.c)
    (h2 : 0 - -u.a = 0 - t'.a) : False := by
  have ha : t'.a = -u.a := by
    have := congrArg (fun z => -z) h2
    simpa using this.symm
  have hc : t'.c = -u.c := by
    unfold ValidPair at ht
    rw [ha] at ht
    have h3 : t'.c + u.c = 0 := by rw [← ht]; simp
    have h4 := congrArg (fun z => z - u.c) h3
    simpa using h4
  rw [hc] at h1
  have h4 : (0 : BitVec w) = 1 := by
    have := congrArg (fun z => z + -u.c) h1
    simpa [BitVec.sub_eq_add_neg] using this
  have := congrArg BitVec.toNat h4
  simp [hw] at this

/-- **C73** is false in whole executions, for every width, every triple `u` of the peer and every strategy: there is a valid
triple for which the shares 0 and 0 lead to messages that the shares 1 and 0 never lead to. -/
theorem arith_mul_leaks {w : Nat} (hw : 0 < w) (party : Nat) (u : Triple w)
    (adv : List (Msg w) → Option (Msg w × Option Unit)) :
    ∃ t, ValidPair t u ∧ ∀ t', ValidPair t' u → mulView party 0 0 t adv ≠ mulView party 1 0 t' adv := by
  refine ⟨⟨-u.a, 0, -u.c⟩, by simp [ValidPair], fun t' ht' he => ?_⟩
  have h := congrArg List.head? he
  rw [mul_view, mul_view] at h
  simp only [Option.some.injEq, Msg.mk.injEq, List.cons.injEq, and_true] at h
  exact openings_differ hw ht' h.1 h.2

/-- A valid pair of triples. -/
example : ValidPair (⟨3, 4, 40⟩ : Triple 8) ⟨2, 6, 10⟩ := by
  unfold ValidPair
  decide

end Verif.Arith
