import Verif.Global.Props

/-!
C84: what goes wrong when two threads use the builder of the same gate type, and examples.
-/
set_option autoImplicit false

namespace Verif.Global

open Circuit Gmw

variable {K S R : Type} [DecidableEq K]

/-- Run the threads in the given order. -/
def sched : List Nat → Conf K S R → Option (Conf K S R)
  | [], c => some c
  | i :: is, c => match c.ths[i]? with
    | some (.act k upd next) => sched is ⟨Function.update c.mem k (upd (c.mem k)), c.ths.set i (next (c.mem k))⟩
    | _ => none

theorem steps_of_sched (is : List Nat) (c c' : Conf K S R) (h : sched is c = some c') : Steps c c' := by
  induction is generalizing c with
  | nil => cases h; exact .refl _
  | cons i is ih =>
    unfold sched at h
    cases ht : c.ths[i]? with
    | none => simp [ht] at h
    | some t =>
      cases t with
      | ret r => simp [ht] at h
      | fail => simp [ht] at h
      | act k upd next =>
        rw [ht] at h
        exact .cons (.act c i k upd next ht) (ih _ h)

/-- One multiplication. -/
def exMul : List Op := [.input, .input, .gate .and [0, 1], .output 2]

/-- The identity. -/
def exId : List Op := [.input, .output 0]

/-- A user's circuit under construction: two inputs so far. -/
def exUser : Bld := ⟨[{ gates := [.base .input, .base .input], inputGates := [0, 1] }], 0⟩

/-- **C84 fails for two threads with the same gate type** (for example the setup providers of two ABY2 parties in one
process): there is a schedule in which both threads return, one with a circuit that contains the gates of
a user of the global builder, whose circuit is gone afterwards; and one in which a thread panics. -/
theorem same_gate_type_mixes_circuits :
    (∃ c' r r' : _, Steps (⟨fun _ => exUser, [scopedBuild () exMul, scopedBuild () exId]⟩ :
        Conf Unit Bld (Base BoolGate × List Nat)) c' ∧
      c'.ths = [.ret r, .ret r'] ∧ circuitOf exMul = some r ∧
      r'.1.gates = [.base .input, .base .input, .base .input, .base .output] ∧
      (circuitOf exId).map (·.1.gates) = some [.base .input, .base .output] ∧
      ((c'.mem ()).cells[(c'.mem ()).cur]?).map (·.gates) = some []) ∧
    ∃ c', Steps (⟨fun _ => exUser, [scopedBuild () exMul, scopedBuild () exId]⟩ :
        Conf Unit Bld (Base BoolGate × List Nat)) c' ∧ c'.ths[0]? = some .fail := by
  refine ⟨⟨_, _, _, steps_of_sched ([0, 1] ++ List.replicate 11 0 ++ List.replicate 7 1) _ _ rfl, rfl, ?_, ?_, ?_, ?_⟩,
    ⟨_, steps_of_sched (List.replicate 5 0 ++ [1, 0, 0]) _ _ rfl, rfl⟩⟩
  all_goals rfl

/-- Two threads with different gate types meet the hypotheses of `concurrent_builders_partial`. -/
example : ∃ bs : List (Builder Bool), bs.length = 2 ∧ (bs.map (·.key)).Nodup ∧
    (∀ b ∈ bs, Unused ((fun _ => ⟨[{}], 0⟩ : Bool → Bld) b.key)) ∧
    ∃ c', Steps ⟨(fun _ => ⟨[{}], 0⟩ : Bool → Bld), bs.map Builder.thread⟩ c' ∧
      ∃ r r', c'.ths = [.ret r, .ret r'] := by
  refine ⟨[⟨false, true, exMul⟩, ⟨true, false, exId⟩], rfl, by decide, fun _ _ => rfl, _,
    steps_of_sched ([0, 1, 0, 1, 1, 1] ++ List.replicate 10 0 ++ [1, 1]) _ _ rfl, _, _, rfl⟩

/-- A section runs between the operations of a user. -/
example : ∃ g' r, WithSections (fun _ : Unit => ⟨[{}], 0⟩) (plainBuild () exMul) g' (.ret r) ∧
    r.1.gates = [.base .input, .base .input, .and, .base .output] := by
  refine ⟨_, _, .act _ _ _ (.act _ _ _ (.act _ _ _ (.inside () exId (by decide) (.act _ _ _ (.act _ _ _ (.act _ _ _
    (.act _ _ _ (.act _ _ _ (.inside () exId (by decide) (.act _ _ _ (.act _ _ _ (.refl _ _)))))))))))), ?_⟩
  rfl

end Verif.Global
