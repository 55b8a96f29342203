import Verif.Exec.WordsProps
import Verif.Exec.SimdCalls
import Verif.Exec.Witness

/-!
C95 for single circuits, for programs with calls, and the circuit for which it fails.
-/
set_option autoImplicit false

namespace Verif.Exec

open Circuit Proc Gmw

/-- A vector that begins at a word. -/
def AtWord (r : Raw) : Prop := r.WF ∧ r.head = 0

theorem atWord_ofBits (l : List Bool) : AtWord (ofBits l) := ⟨ofBits_wf l, rfl⟩

theorem inputHeads_zero {c : Base BoolGate} {l : List Raw} (h : ∀ r ∈ l, AtWord r) :
    InputHeads c (fun _ => 0) (.simd l) :=
  fun _ _ r _ hr => h r (List.mem_of_getElem? hr)

/-- A simd circuit with a multiple of 64 lanes: each lane is evaluated like the scalar circuit,
wherever the triples lie in their words. -/
theorem words_simd_circuit_correct_partial (c : Base BoolGate) (h : BaseOk c) (n : Nat) (hn : n ≠ 0)
    (hn64 : n % 64 = 0) (hs : c.simdSize = some n)
    (hout : ∀ i, c.gates[i]? = some (.base .output) → ∀ e ∈ c.edges, e.1 ≠ i)
    (a b : List Raw) (inp : List (List Bool)) (haw : ∀ r ∈ a, AtWord r) (hbw : ∀ r ∈ b, AtWord r)
    (ha : a.map (·.live.length) = inp.map List.length)
    (hb : b.map (·.live.length) = inp.map List.length)
    (hab : List.zipWith xorL (a.map Raw.live) (b.map Raw.live) = inp)
    (hl : inp.length = c.inputGates.length) (hln : ∀ l ∈ inp, l.length = n)
    (setup0 setup1 : Nat → Nat → Mts)
    (hset : ∀ k n, Matching (setup0 k n).ts (setup1 k n).ts ∧ n ≤ (setup0 k n).ts.length ∧
      (setup1 k n).head = (setup0 k n).head)
    (init0 init1 : Store Bool Raw) :
    ∃ o0 o1 : List Raw,
      Runs (execute wgmw (.ofBase c) 0 (.simd a) setup0 init0)
        (execute wgmw (.ofBase c) 1 (.simd b) setup1 init1) (.simd o0) (.simd o1) ∧
      ∀ j < n, lane j (List.zipWith xorL (o0.map Raw.live) (o1.map Raw.live)) =
        plainFn c (lane j inp) := by
  have hns : isSimd (Multi.ofBase c) 0 = true := by simp [isSimd, Multi.ofBase, hs]
  have hlan : ∀ i, isSimd (Multi.ofBase c) i = true → i = 0 := by
    intro i hi
    cases i with
    | zero => rfl
    | succ i => simp [isSimd, Multi.ofBase] at hi
  have hla : lanes (Multi.ofBase c) 0 = n := by simp [lanes, Multi.ofBase, hs]
  obtain ⟨o0, o1, hr, hsh⟩ := gmw_words_aligned_partial (Multi.ofBase c) _ (baseOk_wf c h)
    (baseOk_exec c h (by simp [hs, hn]) (fun _ => hout)) (base_unmixed c) c (by simp [Multi.ofBase])
    (.simd a) (.simd b) (.simd inp) ⟨hns, hl⟩
    ⟨by simpa [Function.comp_def] using ha, by simpa [Function.comp_def] using hb, hab⟩ setup0
    setup1 hset init0 init1 _ _ (base_plain_simd c h n hs inp hl hln)
    (by intro i hi; rw [hlan i hi, hla]; exact hn64)
    (by
      intro v hv hsv u hu
      obtain ⟨i, j⟩ := v
      have hi : i = 0 := hlan i hsv
      subst hi
      rw [ofBase_parents] at hu
      obtain ⟨x, -, rfl⟩ := List.mem_map.1 hu
      rfl)
    (inputHeads_zero haw) (inputHeads_zero hbw)
  simp only [plainOutput, hns, if_true] at hsh
  match o0, o1, hsh with
  | .simd o0, .simd o1, hsh =>
    refine ⟨o0, o1, hr, ?_⟩
    rw [hsh.2.2]
    intro j hj
    rw [plainFn, output_pos c h.book, lane, List.map_map]
    apply List.map_congr_left
    intro g _
    simp only [Function.comp_apply, baseValV]
    rw [getD_lt _ _ (by simpa using hj)]
    simp

/-- A program whose circuits all have `n` lanes, `n` a multiple of 64: every lane of the outputs is
what the scalar program computes from that lane of the inputs, wherever the triples lie in their
words. -/
theorem words_simd_program_correct_partial (circs : List (Base BoolGate)) (wires : List (Node × Node))
    (rank : Node → Nat) (ok : ProgOk circs wires rank) (n : Nat) (hn : 0 < n) (hn64 : n % 64 = 0)
    (m : Multi BoolGate) (hm : WiredSimd n m circs wires) (hf : NotFreed circs wires)
    (c0 : Base BoolGate) (hc0 : circs[0]? = some c0)
    (a b : List Raw) (inp : List (List Bool)) (haw : ∀ r ∈ a, AtWord r) (hbw : ∀ r ∈ b, AtWord r)
    (hs : Shares (.simd (a.map Raw.live)) (.simd (b.map Raw.live)) (.simd inp))
    (hl : inp.length = c0.inputGates.length) (hlanes : ∀ l ∈ inp, l.length = n)
    (setup0 setup1 : Nat → Nat → Mts)
    (hset : ∀ k n, Matching (setup0 k n).ts (setup1 k n).ts ∧ n ≤ (setup0 k n).ts.length ∧
      (setup1 k n).head = (setup0 k n).head)
    (init0 init1 : Store Bool Raw) :
    ∃ (val : Nat → Node → Bool) (o0 o1 : List Raw),
      (∀ k, ProgVal circs wires (lane k inp) (val k)) ∧
      Runs (execute wgmw m 0 (.simd a) setup0 init0) (execute wgmw m 1 (.simd b) setup1 init1)
        (.simd o0) (.simd o1) ∧
      List.zipWith xorL (o0.map Raw.live) (o1.map Raw.live) =
        c0.outputGates.map fun g => (List.range n).map fun k => val k (0, g) := by
  obtain ⟨val, hv, hp⟩ := simd_values ok hm c0 hc0 inp hl hlanes
  have hmain := (simd_main ok hm).1
  have hlan : ∀ i, isSimd m i = true → lanes m i = n := by
    intro i hi
    unfold isSimd at hi
    rw [simd_circ hm] at hi
    unfold lanes
    rw [simd_circ hm]
    cases hc : circs[i]? with
    | none => simp [hc] at hi
    | some c => simp [setSimd]
  obtain ⟨o0, o1, hr, hsh⟩ := gmw_words_aligned_partial m rank (simd_wf ok hm)
    (simd_exec ok hn hm hf) (simd_unmixed hm) (setSimd n c0) (by rw [simd_circ hm, hc0]; rfl)
    (.simd a) (.simd b) (.simd inp) ⟨hmain, hl⟩ hs setup0 setup1 hset init0 init1 _ _ hp
    (by intro i hi; rw [hlan i hi]; exact hn64)
    (by
      intro v hv hsv u hu
      have := (simd_exec ok hn hm hf).base.other v _ hv (by simp [GateLike.asBase])
        (by simp [GateLike.asBase]) u hu
      rw [hlan _ hsv, hlan _ (this.trans hsv)])
    (inputHeads_zero haw) (inputHeads_zero hbw)
  simp only [plainOutput, hmain, if_true] at hsh
  match o0, o1, hsh with
  | .simd o0, .simd o1, hsh => exact ⟨val, o0, o1, hv, hr, hsh.2.2⟩

/-! ### A circuit with one lane -/

/-- `output((x & y) ^ (z & w))` in a simd circuit with one lane. -/
def xorOfAnds : Base BoolGate :=
  { gates := [.base .input, .base .input, .base .input, .base .input, .and, .and, .xor,
      .base .output]
    edges := [(0, 4), (1, 4), (2, 5), (3, 5), (4, 6), (5, 6), (6, 7)]
    simdSize := some 1, interactiveCount := 2, inputGates := [0, 1, 2, 3], outputGates := [7] }

def noRaw : Store Bool Raw := ⟨fun _ => false, fun _ => ofBits [], fun _ => false⟩

/-- The circuit is well-formed and the triples begin at a word, but for the inputs 1, 1, 1, 1 the
output is 1: the second conjunction is ignored, because it begins at position 1 of its word and the
first at position 0. -/
theorem words_execute_wrong : BaseOk xorOfAnds ∧
    (∃ o0 o1 : List Raw, Runs
      (execute wgmw (.ofBase xorOfAnds) 0 (.simd (List.replicate 4 (ofBits [true])))
        (fun k n => ⟨0, zeroTriples k n⟩) noRaw)
      (execute wgmw (.ofBase xorOfAnds) 1 (.simd (List.replicate 4 (ofBits [false])))
        (fun k n => ⟨0, zeroTriples k n⟩) noRaw) (.simd o0) (.simd o1) ∧
      List.zipWith xorL (o0.map Raw.live) (o1.map Raw.live) = [[true]]) ∧
    plainFn xorOfAnds [true, true, true, true] = [false] := by
  refine ⟨⟨by decide, ?_, ?_, ⟨by decide, by decide, by decide, by decide, by decide⟩⟩, ?_,
    by decide⟩
  · intro i g h
    have hi : i < 8 := (List.getElem?_eq_some_iff.1 h).1
    interval_cases i <;> simp [xorOfAnds] at h <;> subst h <;> decide
  · intro i g h
    have hi : i < 8 := (List.getElem?_eq_some_iff.1 h).1
    interval_cases i <;> simp [xorOfAnds] at h <;> subst h <;> decide
  · refine ⟨_, _, Exchange.runs (Q := fun (_ : Unit) _ _ => True) (ls := [()])
      (.round trivial .done), ?_⟩
    decide +kernel

/-- The hypotheses of `words_simd_circuit_correct_partial` hold for the same circuit with 64 lanes
and triples which begin at position 5. -/
example : ∃ o0 o1 : List Raw, Runs
      (execute wgmw (.ofBase { xorOfAnds with simdSize := some 64 }) 0
        (.simd (List.replicate 4 (ofBits (List.replicate 64 true))))
        (fun k n => ⟨5, zeroTriples k n⟩) noRaw)
      (execute wgmw (.ofBase { xorOfAnds with simdSize := some 64 }) 1
        (.simd (List.replicate 4 (ofBits (List.replicate 64 false))))
        (fun k n => ⟨5, zeroTriples k n⟩) noRaw) (.simd o0) (.simd o1) ∧
      ∀ j < 64, lane j (List.zipWith xorL (o0.map Raw.live) (o1.map Raw.live)) = [false] := by
  obtain ⟨o0, o1, hr, h⟩ := words_simd_circuit_correct_partial { xorOfAnds with simdSize := some 64 }
    (by
      refine ⟨by decide, ?_, ?_, ⟨by decide, by decide, by decide, by decide, by decide⟩⟩
      · intro i g h
        have hi : i < 8 := (List.getElem?_eq_some_iff.1 h).1
        interval_cases i <;> simp [xorOfAnds] at h <;> subst h <;> decide
      · intro i g h
        have hi : i < 8 := (List.getElem?_eq_some_iff.1 h).1
        interval_cases i <;> simp [xorOfAnds] at h <;> subst h <;> decide)
    64 (by decide) (by decide) rfl
    (by
      intro i h e he hi
      subst hi
      have : ∀ e ∈ xorOfAnds.edges, xorOfAnds.gates[e.1]? ≠ some (.base .output) := by decide
      exact this e he h)
    (List.replicate 4 (ofBits (List.replicate 64 true)))
    (List.replicate 4 (ofBits (List.replicate 64 false))) (List.replicate 4 (List.replicate 64 true))
    (by intro r hr; rw [List.eq_of_mem_replicate hr]; exact atWord_ofBits _)
    (by intro r hr; rw [List.eq_of_mem_replicate hr]; exact atWord_ofBits _)
    (by simp [ofBits_live]) (by simp [ofBits_live]) (by simp [ofBits_live, xorL]) rfl
    (by intro l hl; rw [List.eq_of_mem_replicate hl]; simp)
    (fun k n => ⟨5, zeroTriples k n⟩) (fun k n => ⟨5, zeroTriples k n⟩)
    (by
      intro k n
      refine ⟨?_, by simp [zeroTriples], rfl⟩
      unfold Matching zeroTriples
      induction n with
      | zero => exact .nil
      | succ n ih => exact .cons (by simp [ValidPair]) ih) noRaw noRaw
  refine ⟨o0, o1, hr, fun j hj => ?_⟩
  rw [h j hj]
  have : lane j (List.replicate 4 (List.replicate 64 true)) = [true, true, true, true] := by
    have hg : (List.replicate 64 true).getD j false = true := by
      have hj' : j < (List.replicate 64 true).length := by rw [List.length_replicate]; exact hj
      rw [getD_lt _ _ hj', List.getElem_replicate]
    simp only [lane, List.map_replicate, hg]
    rfl
  rw [this]
  decide

end Verif.Exec
