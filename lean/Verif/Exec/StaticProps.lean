import Verif.Exec.Static
import Verif.Exec.Witness
import Verif.Circuit.StaticWitness

/-!
C74: precomputing the layers does not change an execution.  Theorems, the circuits for which the claim
fails, and examples.
-/
set_option autoImplicit false

namespace Verif.Exec

open Circuit Proc Gmw

variable {G : Type} [GateLike G]

/-! ### Scalar circuits: the same execution -/

theorem freeable_scalar {m : Multi G} (hns : ∀ i, isSimd m i = false) (left : Left) (ls : List MLayer) :
    freeable m left ls = some (ls.map fun l => (l, [])) := by
  induction ls generalizing left with
  | nil => rfl
  | cons l ls ih =>
    have h1 : (niOf l).filter (fun v => isSimd m v.1) = [] := by
      rw [List.filter_eq_nil_iff]; intro v _; simp [hns]
    have h2 : intSimd m l = [] := by
      unfold intSimd
      rw [List.filter_eq_nil_iff.2 (by intro v _; simp [hns])]
      rfl
    simp only [freeable, h1, h2, leftNi, leftInt, Option.bind_eq_bind, Option.bind_some, List.foldl_nil, ih,
      Option.pure_def, List.map_cons]

/-- **C74 (same execution).**  For every protocol, precomputing the layers of a circuit without simd
parts does not change the execution of a party: it sends the same messages and returns the same outputs
on all inputs, with all preprocessing data.  `ls` are the layers the iterator of the original circuit
yields.  Partial: the calls must be reached in the order of `circ_map`, calls of a shared circuit must
have the same layers, and no circuit is empty; otherwise the claim is false
(`static_execute_wrong`, `static_execute_panics`, `unreached_circuit_panics`). -/
theorem static_execute_same_partial [DecidableEq G] (m : Multi G) (rank : Node → Nat) (w : WF m rank)
    (hns : ∀ i, isSimd m i = false) (cmap : List Nat) (hcmap : CMapOk m cmap) (hne : NoEmpty m)
    (c0 : Base G) (hc0 : m.circs[0]? = some c0) (ho : ∀ g ∈ c0.outputGates, m.Valid (0, g)) :
    ∃ it ls, MIter.new m = some it ∧
      MIter.collect m ((m.circs.map fun c => c.gates.length).sum + 1) it = some ls ∧
      (FirstUseInOrder cmap ls.flatten → SameLayers cmap ls.flatten →
        ∃ c, precomputeCirc m cmap = some c ∧
          ∀ (S V M MS T : Type) (pr : Protocol G S V M MS T) (party : Nat) (inp : Input S V)
            (setup : Nat → Nat → T) (st : Store S V),
            executeStatic pr c party inp setup st = execute pr m party inp setup st) := by
  obtain ⟨it, ls, e1, e2, ok, h⟩ := static_execute_layers m rank w cmap hcmap hne c0 hc0 ho
  refine ⟨it, ls, e1, e2, fun hf hs => ?_⟩
  obtain ⟨c, hc, hex⟩ := h hf hs
  refine ⟨c, hc, fun S V M MS T pr party inp setup st => ?_⟩
  obtain ⟨h1, h2⟩ := hex S V M MS T pr party inp setup st
  by_cases hl : InputLen c0 inp
  · rw [h1 hl]
    unfold execute
    cases inp <;> simp only [InputLen] at hl <;> simp [hc0, hl, e1, e2, freeable_scalar hns]
  · rw [h2 hl]
    unfold execute
    cases inp <;> simp only [InputLen] at hl <;> simp [hc0, hl]

/-! ### Single circuits: no condition -/

theorem single_cmap (c : Base G) : CMapOk (Multi.ofBase c) [0] := by
  have h0 : ∀ i mp : Nat, ([0] : List Nat)[i]? = some mp → i = 0 := by
    intro i mp h
    have := (List.getElem?_eq_some_iff.1 h).1
    simpa using this
  exact ⟨rfl, fun i j mp hi hj => by rw [h0 i mp hi, h0 j mp hj], fun i mp hi _ => h0 i mp hi⟩

theorem single_first (P : List (Nat × Layer)) : FirstUseInOrder [0] P := by
  intro a e b _ mp hmp k hk
  have := (List.getElem?_eq_some_iff.1 hmp)
  obtain ⟨h1, h2⟩ := this
  simp at h2
  omega

theorem single_same (P : List (Nat × Layer)) : SameLayers [0] P := by
  apply sameLayers_of_injective
  intro i j mp hi hj
  have h1 := (List.getElem?_eq_some_iff.1 hi).1
  have h2 := (List.getElem?_eq_some_iff.1 hj).1
  simp at h1 h2
  omega

theorem single_outputs {c : Base G} {rank : Nat → Nat} (h : SingleOk c rank) :
    ∀ g ∈ c.outputGates, (Multi.ofBase c).Valid (0, g) := by
  intro g hg
  rw [h.book.outputs, mem_positions'] at hg
  obtain ⟨x, hx, -⟩ := hg
  exact ⟨c, by simp [Multi.ofBase], (List.getElem?_eq_some_iff.1 hx).1⟩

/-- **C74, single circuits.**  Every scalar circuit without sub-circuits and with at least one gate can be
precomputed, and every party of every protocol behaves as on the original circuit, on every input. -/
theorem static_execute_single [DecidableEq G] (c : Base G) (rank : Nat → Nat) (h : SingleOk c rank)
    (hne : c.gates ≠ []) (hs : c.simdSize = none) :
    ∃ s, precomputeCirc (.ofBase c) [0] = some s ∧
      ∀ (S V M MS T : Type) (pr : Protocol G S V M MS T) (party : Nat) (inp : Input S V)
        (setup : Nat → Nat → T) (st : Store S V),
        executeStatic pr s party inp setup st = execute pr (.ofBase c) party inp setup st := by
  obtain ⟨it, ls, -, -, hx⟩ := static_execute_same_partial (.ofBase c) _ (single_wf h) (single_scalar hs) [0]
    (single_cmap c) (fun i c' hc => by obtain ⟨-, rfl⟩ := single_circ hc; exact hne) c rfl (single_outputs h)
  exact hx (single_first _) (single_same _)

/-- Built with `add_wired_gate`. -/
theorem static_execute_built [DecidableEq G] (ops : List (G × List Nat)) (h : OpsOk ops) (hne : ops ≠ []) :
    ∃ c s, buildG ops = some c ∧ precomputeCirc (.ofBase c) [0] = some s ∧
      ∀ (S V M MS T : Type) (pr : Protocol G S V M MS T) (party : Nat) (inp : Input S V)
        (setup : Nat → Nat → T) (st : Store S V),
        executeStatic pr s party inp setup st = execute pr (.ofBase c) party inp setup st := by
  obtain ⟨c, rank, hc, ok, hg, hs, -⟩ := single_built ops h
  obtain ⟨s, h1, h2⟩ := static_execute_single c rank ok (by rw [hg]; simpa using hne) hs
  exact ⟨c, s, hc, h1, h2⟩

/-! ### Boolean GMW, with simd circuits -/

/-- **C74 (correctness).**  Two executors with Boolean GMW on the precomputed circuit return shares of the
plaintext output.  Simd circuits are included; since nothing is freed, the conditions `freeCross` and
`freeOut` of C08 are not needed.  Partial: as `static_execute_same_partial`, and `Unmixed` (C05). -/
theorem gmw_static_correct_partial (m : Multi BoolGate) (rank : Node → Nat) (w : WF m rank)
    (hw : ExecBase m) (hu : Unmixed m) (cmap : List Nat) (hcmap : CMapOk m cmap) (hne : NoEmpty m)
    (c0 : Base BoolGate) (hc0 : m.circs[0]? = some c0)
    (inp0 inp1 inp : Input Bool (List Bool)) (hi : InputOk m c0 inp) (hin : Shares inp0 inp1 inp)
    (setup0 setup1 : Nat → Nat → List Triple)
    (hset : ∀ k n, Matching (setup0 k n) (setup1 k n) ∧ n ≤ (setup0 k n).length)
    (init0 init1 : Store Bool (List Bool)) (val : Node → Bool) (valV : Node → List Bool)
    (hp : PlainEval m inp val valV) :
    ∃ it ls, MIter.new m = some it ∧
      MIter.collect m ((m.circs.map fun c => c.gates.length).sum + 1) it = some ls ∧
      (FirstUseInOrder cmap ls.flatten → SameLayers cmap ls.flatten →
        ∃ c o0 o1, precomputeCirc m cmap = some c ∧
          Exchange (fun l a b => MsgSize m l a ∧ MsgSize m l b) o0 o1 (interactiveLayers m ls)
            (executeStatic gmw c 0 inp0 setup0 init0) (executeStatic gmw c 1 inp1 setup1 init1) ∧
          Runs (executeStatic gmw c 0 inp0 setup0 init0) (executeStatic gmw c 1 inp1 setup1 init1) o0 o1 ∧
          Shares o0 o1 (plainOutput m c0 val valV)) := by
  have hl : InputLen c0 inp0 ∧ InputLen c0 inp1 := by
    match inp0, inp1, inp, hi, hin with
    | .scalar a, .scalar b, .scalar c, hi, hin =>
      exact ⟨(hin.1.trans hi.2).symm, (hin.2.1.trans hi.2).symm⟩
    | .simd a, .simd b, .simd c, hi, hin =>
      have h1 : a.length = c.length := by simpa using congrArg List.length hin.1
      have h2 : b.length = c.length := by simpa using congrArg List.length hin.2.1
      exact ⟨(h1.trans hi.2).symm, (h2.trans hi.2).symm⟩
  obtain ⟨it, ls, e1, e2, ok, h⟩ := static_execute_layers m rank w cmap hcmap hne c0 hc0
    (hw.outputsValid c0 hc0)
  refine ⟨it, ls, e1, e2, fun hf hs => ?_⟩
  obtain ⟨c, hc, hex⟩ := h hf hs
  have hfl : (ls.map fun l => ((l, []) : MLayer × List Node)).map (·.1) = ls := by simp [Function.comp_def]
  have hno : (ls.map fun l => ((l, []) : MLayer × List Node)).flatMap (·.2) = [] := by
    rw [List.flatMap_eq_nil_iff]
    intro x hx
    obtain ⟨l, -, rfl⟩ := List.mem_map.1 hx
    rfl
  have hfree : ∀ (ls : List MLayer) (done : List Node),
      FreeLayers m done (ls.map fun l => ((l, []) : MLayer × List Node)) := by
    intro ls
    induction ls with
    | nil => intro done; trivial
    | cons l ls ih => intro done; exact ⟨by intro u hu; simp at hu, ih _⟩
  have key := execLayers_spec hw (gmw_sound (init0 := init0) (init1 := init1) hc0 (parents_valid w) hw hu hi hin
    hset hp ls ok) (ls.map fun l => (l, [])) 0 init0 init1 [] []
    ⟨fun _ _ => ⟨rfl, rfl⟩, fun _ _ => ⟨rfl, rfl⟩, by simp⟩ (by intro u hu; simp at hu)
    (by rw [hno]; intro u hu; simp at hu) (by simp)
    (by rw [hfl]; simpa using ok.once) (by rw [hfl]; simpa using ok.all)
    (by rw [hfl]; exact ok.topo) (by rw [hfl]; exact ok.local_) (by rw [hfl]; exact ok.inter)
    (hfree ls []) (by rw [hfl]; intro j l h; simpa using h) c0 hc0
  rw [hfl, ← (hex _ _ _ _ _ gmw 0 inp0 setup0 init0).1 hl.1, ← (hex _ _ _ _ _ gmw 1 inp1 setup1 init1).1 hl.2] at key
  cases hsi : isSimd m 0 with
  | false =>
    obtain ⟨a, b, hx, l0, l1, hr⟩ := key.1 hsi
    refine ⟨c, _, _, hc, hx, hx.runs, ?_⟩
    simp only [plainOutput, hsi, Bool.false_eq_true, if_false, Shares, List.length_map]
    refine ⟨l0, l1, ?_⟩
    apply List.ext_getElem
    · simp [xorL, l0, l1]
    · intro i h1 h2
      simp only [xorL, List.getElem_zipWith, List.getElem_map]
      simp only [List.length_map] at h2
      exact hr i _ _ _ (by simp [h2]) (by simp [l0, h2]) (by simp [l1, h2])
  | true =>
    obtain ⟨a, b, hx, l0, l1, hr⟩ := key.2 hsi
    refine ⟨c, _, _, hc, hx, hx.runs, ?_⟩
    simp only [plainOutput, hsi, if_true, Shares]
    have hr' : ∀ i (h : i < c0.outputGates.length),
        RBV valV (0, c0.outputGates[i]) (a[i]'(by omega)) (b[i]'(by omega)) := fun i h =>
      hr i _ _ _ (by simp [h]) (by simp [l0, h]) (by simp [l1, h])
    refine ⟨?_, ?_, ?_⟩
    · apply List.ext_getElem
      · simp [l0]
      · intro i h1 h2
        simp only [List.length_map] at h2
        simp only [List.getElem_map]
        exact (hr' i h2).1
    · apply List.ext_getElem
      · simp [l1]
      · intro i h1 h2
        simp only [List.length_map] at h2
        simp only [List.getElem_map]
        exact (hr' i h2).2.1
    · apply List.ext_getElem
      · simp [l0, l1]
      · intro i h1 h2
        simp only [List.length_map] at h2
        simp only [List.getElem_zipWith, List.getElem_map]
        exact (hr' i h2).2.2

/-! ### Where the claim fails -/

/-- Both parties in lockstep, for concrete circuits. -/
def runBoth {M O : Type} : Nat → Proc M O → Proc M O → Option (O × O)
  | n + 1, .send a (.recv k0), .send b (.recv k1) => runBoth n (k0 b) (k1 a)
  | _, .done a, .done b => some (a, b)
  | _, _, _ => none

theorem runBoth_runs {M O : Type} (n : Nat) (p0 p1 : Proc M O) (o : O × O) (h : runBoth n p0 p1 = some o) :
    Runs p0 p1 o.1 o.2 := by
  have : ∃ ls : List Unit, Exchange (fun _ _ _ => True) o.1 o.2 ls p0 p1 := by
    induction n generalizing p0 p1 with
    | zero =>
      unfold runBoth at h
      split at h
      · omega
      · cases h; exact ⟨[], .done⟩
      · cases h
    | succ n ih =>
      unfold runBoth at h
      split at h
      · rename_i e
        have e := Nat.succ.inj e
        subst e
        obtain ⟨ls, hl⟩ := ih _ _ h
        exact ⟨() :: ls, .round trivial hl⟩
      · cases h; exact ⟨[], .done⟩
      · cases h
  obtain ⟨ls, hl⟩ := this
  exact hl.runs

def scalarOuts (o : Option (Input Bool (List Bool) × Input Bool (List Bool))) : Option (List Bool × List Bool) :=
  match o with
  | some (.scalar a, .scalar b) => some (a, b)
  | _ => none

def simdOuts (o : Option (Input Bool (List Bool) × Input Bool (List Bool))) :
    Option (List (List Bool) × List (List Bool)) :=
  match o with
  | some (.simd a, .simd b) => some (a, b)
  | _ => none

theorem runs_of_scalarOuts {M : Type} (n : Nat) (p0 p1 : Proc M (Input Bool (List Bool))) (a b : List Bool)
    (h : scalarOuts (runBoth n p0 p1) = some (a, b)) : Runs p0 p1 (.scalar a) (.scalar b) := by
  unfold scalarOuts at h
  split at h
  · rename_i e
    cases h
    exact runBoth_runs n p0 p1 _ e
  · cases h

/-- **C74 fails: a wrong result.**  The circuit `late` (`call1((x & y) & y) ^ call2(x)`, where `call1` negates
and `call2` is the identity) is well-formed and each circuit is used once.  On `x = y = 1` the parties
return shares of 1; after precomputing the layers they return shares of 0, without any error. -/
theorem static_execute_wrong :
    WF late lateRank ∧ CMapOk late [0, 1, 2] ∧ NoEmpty late ∧
    Runs (execute gmw late 0 (.scalar [true, true]) zeroTriples noOutputs)
      (execute gmw late 1 (.scalar [false, false]) zeroTriples noOutputs) (.scalar [true]) (.scalar [false]) ∧
    ∃ c, precomputeCirc late [0, 1, 2] = some c ∧
      Runs (executeStatic gmw c 0 (.scalar [true, true]) zeroTriples noOutputs)
        (executeStatic gmw c 1 (.scalar [false, false]) zeroTriples noOutputs) (.scalar [false]) (.scalar [false]) := by
  refine ⟨late_wf, ⟨rfl, ?_, ?_⟩, ?_, ?_, ?_⟩
  · have h : ∀ i < 3, ∀ j < 3, ([0, 1, 2] : List Nat)[i]? = ([0, 1, 2] : List Nat)[j]? → i = j := by decide
    intro i j mp hi hj
    rw [h i (List.getElem?_eq_some_iff.mp hi).1 j (List.getElem?_eq_some_iff.mp hj).1 (hi.trans hj.symm)]
  · have h : ∀ i < 3, ([0, 1, 2] : List Nat)[i]? = ([0, 1, 2] : List Nat)[0]? → i = 0 := by decide
    intro i mp hi h0
    exact h i (List.getElem?_eq_some_iff.mp hi).1 (hi.trans h0.symm)
  · intro i c hc
    have hm := List.mem_of_getElem? hc
    simp only [late, Multi.ofConns, lateCircs, List.mem_cons, List.not_mem_nil, or_false] at hm
    rcases hm with rfl | rfl | rfl <;> simp [lateMain, lateNot, lateId]
  · exact runs_of_scalarOuts 10 _ _ _ _ (by decide +kernel)
  · have h : ((precomputeCirc late [0, 1, 2]).bind fun c => scalarOuts (runBoth 10
        (executeStatic gmw c 0 (.scalar [true, true]) zeroTriples noOutputs)
        (executeStatic gmw c 1 (.scalar [false, false]) zeroTriples noOutputs))) = some ([false], [false]) := by
      decide +kernel
    rw [Option.bind_eq_some_iff] at h
    obtain ⟨c, hc, h⟩ := h
    exact ⟨c, hc, runs_of_scalarOuts 10 _ _ _ _ h⟩

/-- Whether both parties, in lockstep, panic. -/
def failBoth {M O : Type} : Nat → Proc M O → Proc M O → Bool
  | n + 1, .send a (.recv k0), .send b (.recv k1) => failBoth n (k0 b) (k1 a)
  | _, .fail, .fail => true
  | _, _, _ => false

theorem failBoth_steps {M O : Type} (n : Nat) (p0 p1 : Proc M O) (h : failBoth n p0 p1 = true) :
    ∃ k, Steps k ⟨p0, p1, [], []⟩ ⟨.fail, .fail, [], []⟩ := by
  induction n generalizing p0 p1 with
  | zero =>
    unfold failBoth at h
    split at h
    · omega
    · exact ⟨0, .refl _⟩
    · cases h
  | succ n ih =>
    unfold failBoth at h
    split at h
    · rename_i e
      have e := Nat.succ.inj e
      subst e
      obtain ⟨k, hk⟩ := ih _ _ h
      exact ⟨k + 4, .cons (.send0 _ _ _ _ _) (.cons (.send1 _ _ _ _ _) (.cons (.recv0 _ _ _ _ _)
        (.cons (.recv1 _ _ _ _ _) hk)))⟩
    · exact ⟨0, .refl _⟩
    · cases h

/-- **C74 fails: a panic.**  With calls of a shared circuit whose operands become available at different
times, a precomputed gate reads an operand that has not been computed, and both parties panic, whereas
they return shares of the output on the original circuit. -/
theorem static_execute_panics :
    WF reused chainRank ∧
    Runs (execute gmw reused 0 (.scalar [true, true]) zeroTriples noOutputs)
      (execute gmw reused 1 (.scalar [false, false]) zeroTriples noOutputs)
      (.scalar [true, true, true]) (.scalar [false, false, false]) ∧
    ∃ c, precomputeCirc reused [0, 1, 1, 1] = some c ∧
      ∃ k, Steps k ⟨executeStatic gmw c 0 (.scalar [true, true]) zeroTriples noOutputs,
        executeStatic gmw c 1 (.scalar [false, false]) zeroTriples noOutputs, [], []⟩ ⟨.fail, .fail, [], []⟩ := by
  refine ⟨reused_wf, runs_of_scalarOuts 10 _ _ _ _ (by decide +kernel), ?_⟩
  have h : ((precomputeCirc reused [0, 1, 1, 1]).any fun c =>
      failBoth 10 (executeStatic gmw c 0 (.scalar [true, true]) zeroTriples noOutputs)
        (executeStatic gmw c 1 (.scalar [false, false]) zeroTriples noOutputs)) = true := by
    decide +kernel
  rw [Option.any_eq_true] at h
  obtain ⟨c, hc, h⟩ := h
  exact ⟨c, hc, failBoth_steps 10 _ _ h⟩

/-! ### Examples -/

/-- The conditions hold of a circuit with a shared sub-circuit (36 gates): it executes the same way in every
protocol. -/
example : ∃ c, precomputeCirc aligned [0, 1, 1, 2] = some c ∧
    ∀ (S V M MS T : Type) (pr : Protocol BoolGate S V M MS T) (party : Nat) (inp : Input S V)
      (setup : Nat → Nat → T) (st : Store S V),
      executeStatic pr c party inp setup st = execute pr aligned party inp setup st := by
  have hcirc : ∀ (i : Nat) (c : Base BoolGate), aligned.circs[i]? = some c →
      c = chainMain ∨ c = xor4 ∨ c = pass4 := by
    intro i c hc
    have hm := List.mem_of_getElem? hc
    simp only [aligned, Multi.ofConns, List.mem_cons, List.not_mem_nil, or_false] at hm
    tauto
  obtain ⟨it, ls, e1, e2, h⟩ := static_execute_same_partial aligned chainRank
    (wf_of_check _ _ _ (by decide +kernel))
    (by
      intro i
      unfold isSimd
      cases hc : aligned.circs[i]? with
      | none => rfl
      | some c => rcases hcirc i c hc with rfl | rfl | rfl <;> rfl)
    [0, 1, 1, 2]
    ⟨rfl, by
      have h : ∀ i < 4, ∀ j < 4, ([0, 1, 1, 2] : List Nat)[i]? = ([0, 1, 1, 2] : List Nat)[j]? →
          aligned.circs[i]? = aligned.circs[j]? := by
        intro i hi j hj
        interval_cases i <;> interval_cases j <;> simp [aligned, Multi.ofConns]
      intro i j mp hi hj
      exact h i (List.getElem?_eq_some_iff.mp hi).1 j (List.getElem?_eq_some_iff.mp hj).1 (hi.trans hj.symm), by
      have h : ∀ i < 4, ([0, 1, 1, 2] : List Nat)[i]? = ([0, 1, 1, 2] : List Nat)[0]? → i = 0 := by decide
      intro i mp hi h0
      exact h i (List.getElem?_eq_some_iff.mp hi).1 (hi.trans h0.symm)⟩
    (by intro i c hc; rcases hcirc i c hc with rfl | rfl | rfl <;> simp [chainMain, xor4, pass4])
    chainMain rfl (by
      intro g hg
      refine ⟨chainMain, rfl, ?_⟩
      simp only [chainMain, List.mem_cons, List.not_mem_nil, or_false] at hg
      rcases hg with rfl | rfl | rfl <;> decide)
  have hls : ((dynLayers aligned (((aligned.circs.map fun c => c.gates.length)).sum + 1)).any fun ls =>
      firstUseB [0, 1, 1, 2] [] ls.flatten && sameLayersB [0, 1, 1, 2] ls.flatten) = true := by
    decide +kernel
  unfold dynLayers at hls
  rw [e1, Option.bind_some, e2, Option.any_some, Bool.and_eq_true] at hls
  refine h ?_ (sameLayers_of_check _ _ hls.2)
  intro a e b hP mp hmp k hk
  rcases firstUse_of_check _ _ _ hls.1 a e b hP mp hmp k hk with h3 | h3
  · simp at h3
  · exact h3

/-- All hypotheses of `gmw_static_correct_partial` hold of a circuit with a call: the parties compute
`(x & y) ^ x` on the precomputed circuit, from all sharings. -/
example (x y r s : Bool) : ∃ c o0 o1, precomputeCirc callCirc [0, 1] = some c ∧
    Runs (executeStatic gmw c 0 (.scalar [r, s]) zeroTriples noOutputs)
      (executeStatic gmw c 1 (.scalar [r ^^ x, s ^^ y]) zeroTriples noOutputs) o0 o1 ∧
    Shares o0 o1 (.scalar [(x && y) ^^ x]) := by
  have hinj : ∀ i j mp : Nat, ([0, 1] : List Nat)[i]? = some mp → ([0, 1] : List Nat)[j]? = some mp → i = j := by
    have h : ∀ i < 2, ∀ j < 2, ([0, 1] : List Nat)[i]? = ([0, 1] : List Nat)[j]? → i = j := by decide
    intro i j mp hi hj
    exact h i (List.getElem?_eq_some_iff.mp hi).1 j (List.getElem?_eq_some_iff.mp hj).1 (hi.trans hj.symm)
  obtain ⟨it, ls, e1, e2, h⟩ := gmw_static_correct_partial callCirc callRank callCirc_wf
    callCirc_exec.1.base callCirc_exec.2 [0, 1]
    ⟨rfl, fun i j mp hi hj => by rw [hinj i j mp hi hj], fun i mp hi h0 => hinj i 0 mp hi h0⟩
    (by intro i c hc; rcases callCirc_circ hc with ⟨-, rfl⟩ | ⟨-, rfl⟩ <;> simp [callMain, callSub])
    callMain rfl (.scalar [r, s]) (.scalar [r ^^ x, s ^^ y])
    (.scalar [x, y]) ⟨rfl, rfl⟩ ⟨rfl, rfl, by simp [xorL]⟩ zeroTriples zeroTriples (by
      intro k n
      refine ⟨?_, by simp [zeroTriples]⟩
      unfold Matching zeroTriples
      induction n with
      | zero => exact .nil
      | succ n ih => exact .cons (by simp [ValidPair]) ih) noOutputs noOutputs _ _ (callCirc_plain x y)
  have hls : ((dynLayers callCirc (((callCirc.circs.map fun c => c.gates.length)).sum + 1)).any fun ls =>
      firstUseB [0, 1] [] ls.flatten) = true := by
    decide +kernel
  unfold dynLayers at hls
  rw [e1, Option.bind_some, e2, Option.any_some] at hls
  obtain ⟨c, o0, o1, hc, -, hr, hsh⟩ := h (by
    intro a e b hP mp hmp k hk
    rcases firstUse_of_check _ _ _ hls a e b hP mp hmp k hk with h3 | h3
    · simp at h3
    · exact h3) (sameLayers_of_injective _ _ hinj)
  exact ⟨c, o0, o1, hc, hr, hsh⟩

/-- A simd circuit that loses an output when it is executed directly (`output_operand_is_freed`) is computed
correctly after precomputing its layers. -/
example : ∃ s, precomputeCirc (.ofBase freedOutput) [0] = some s ∧
    Runs (executeStatic gmw s 0 (.simd [[true]]) zeroTriples noOutputs)
      (executeStatic gmw s 1 (.simd [[false]]) zeroTriples noOutputs)
      (.simd [[true], [true]]) (.simd [[false], [false]]) := by
  have h : ((precomputeCirc (.ofBase freedOutput) [0]).bind fun c => simdOuts (runBoth 10
      (executeStatic gmw c 0 (.simd [[true]]) zeroTriples noOutputs)
      (executeStatic gmw c 1 (.simd [[false]]) zeroTriples noOutputs))) =
        some ([[true], [true]], [[false], [false]]) := by
    decide +kernel
  rw [Option.bind_eq_some_iff] at h
  obtain ⟨c, hc, h⟩ := h
  refine ⟨c, hc, ?_⟩
  unfold simdOuts at h
  split at h
  · rename_i e
    cases h
    exact runBoth_runs 10 _ _ _ e
  · cases h

end Verif.Exec
