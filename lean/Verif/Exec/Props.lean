import Verif.Exec.Gmw

/-!
C08: two executors compute the circuit.
-/
set_option autoImplicit false

namespace Verif.Exec

open Circuit Proc Gmw

/-- C08.  Two executors with Boolean GMW on shares of the input and matching triples: for some
layering of the circuit, the parties exchange exactly one message each per layer that has AND
gates, the message sizes are determined by the layer, and they return shares of the plaintext
output.  Restrictions: `single` in `WF` (C10), AND gates all scalar or all simd (C05), and
`freeCross`/`freeOut` in `ExecWF`. -/
theorem gmw_execute_correct_partial (m : Multi BoolGate) (rank : Node → Nat) (w : WF m rank)
    (hw : ExecWF m) (hu : Unmixed m) (c0 : Base BoolGate) (hc0 : m.circs[0]? = some c0)
    (inp0 inp1 inp : Input Bool (List Bool)) (hi : InputOk m c0 inp) (hin : Shares inp0 inp1 inp)
    (setup0 setup1 : Nat → Nat → List Triple)
    (hset : ∀ k n, Matching (setup0 k n) (setup1 k n) ∧ n ≤ (setup0 k n).length)
    (init0 init1 : Store Bool (List Bool)) (val : Node → Bool) (valV : Node → List Bool)
    (hp : PlainEval m inp val valV) :
    ∃ ls o0 o1, LayersOk m ls ∧
      Exchange (fun l a b => MsgSize m l a ∧ MsgSize m l b) o0 o1 (interactiveLayers m ls)
        (execute gmw m 0 inp0 setup0 init0) (execute gmw m 1 inp1 setup1 init1) ∧
      Runs (execute gmw m 0 inp0 setup0 init0) (execute gmw m 1 inp1 setup1 init1) o0 o1 ∧
      Shares o0 o1 (plainOutput m c0 val valV) := by
  have hpv : ∀ v, ∀ u ∈ m.parents v, m.Valid u := by
    intro v u hu
    unfold Multi.parents at hu
    rcases List.mem_append.1 hu with h | h
    · cases hc : m.circs[v.1]? with
      | none => simp [hc] at h
      | some c =>
        simp only [hc, List.mem_map] at h
        obtain ⟨x, hx, rfl⟩ := h
        simp only [Base.parents, List.mem_map, List.mem_filter, List.mem_reverse] at hx
        obtain ⟨e, ⟨he, -⟩, rfl⟩ := hx
        exact ⟨c, hc, (w.edges v.1 c hc e he).1⟩
    · exact w.validFrom u v h
  have hl : InputLen c0 inp0 ∧ InputLen c0 inp1 := by
    match inp0, inp1, inp, hi, hin with
    | .scalar a, .scalar b, .scalar c, hi, hin =>
      exact ⟨(hin.1.trans hi.2).symm, (hin.2.1.trans hi.2).symm⟩
    | .simd a, .simd b, .simd c, hi, hin =>
      have h1 : a.length = c.length := by simpa using congrArg List.length hin.1
      have h2 : b.length = c.length := by simpa using congrArg List.length hin.2.1
      exact ⟨(h1.trans hi.2).symm, (h2.trans hi.2).symm⟩
  obtain ⟨ls, o0, o1, ok, hx, hout, hty⟩ := execute_spec (pr := gmw) (setup0 := setup0)
    (setup1 := setup1) (init0 := init0) (init1 := init1) w hw
    (fun ls ok => gmw_sound hc0 hpv hw.base hu hi hin hset hp ls ok) c0 hc0 hl.1 hl.2
  refine ⟨ls, o0, o1, ok, hx, hx.runs, ?_⟩
  match o0, o1, hout, hty with
  | .scalar a, .scalar b, hout, hty =>
    have hs : isSimd m 0 = false := hty.2 ⟨a, rfl⟩
    obtain ⟨l0, l1, hr⟩ := hout
    simp only [plainOutput, hs, Bool.false_eq_true, if_false, Shares, List.length_map]
    refine ⟨l0, l1, ?_⟩
    apply List.ext_getElem
    · simp [xorL, l0, l1]
    · intro i h1 h2
      simp only [xorL, List.getElem_zipWith, List.getElem_map]
      simp only [List.length_map] at h2
      exact hr i _ _ _ (by simp [h2]) (by simp [l0, h2]) (by simp [l1, h2])
  | .simd a, .simd b, hout, hty =>
    have hs : isSimd m 0 = true := by
      cases h : isSimd m 0 with
      | true => rfl
      | false => obtain ⟨l, hl⟩ := hty.1 h; cases hl
    obtain ⟨l0, l1, hr⟩ := hout
    simp only [plainOutput, hs, if_true, Shares]
    have hr' : ∀ i (h : i < c0.outputGates.length),
        RBV valV (0, c0.outputGates[i]) (a[i]'(by omega)) (b[i]'(by omega)) := fun i h =>
      hr i _ _ _ (by simp [h]) (by simp [l0, h]) (by simp [l1, h])
    refine ⟨?_, ?_, ?_⟩
    · apply List.ext_getElem
      · simp [l0]
      · intro i h1 h2
        simp only [List.length_map] at h2
        simp only [List.getElem_map]
        exact (hr' i h2).1
    · apply List.ext_getElem
      · simp [l1]
      · intro i h1 h2
        simp only [List.length_map] at h2
        simp only [List.getElem_map]
        exact (hr' i h2).2.1
    · apply List.ext_getElem
      · simp [l0, l1]
      · intro i h1 h2
        simp only [List.length_map] at h2
        simp only [List.getElem_zipWith, List.getElem_map]
        exact (hr' i h2).2.2

end Verif.Exec
