import Verif.Exec.Calls
import Verif.Exec.StaticProps

/-!
C87: programs made of a main circuit and sub-circuit calls, all circuits with the same simd size.
-/
set_option autoImplicit false

namespace Verif.Exec

open Circuit Proc Gmw

/-- base_circuit.rs:309-311 `set_simd_size`. -/
def setSimd (n : Nat) (c : Base BoolGate) : Base BoolGate := { c with simdSize := some n }

/-! ### Specification -/

/-- `m` consists of `circs`, all with simd size `n`, connected by `wires`. -/
structure WiredSimd (n : Nat) (m : Multi BoolGate) (circs : List (Base BoolGate))
    (wires : List (Node × Node)) : Prop where
  circs : m.circs = circs.map (setSimd n)
  out : ∀ u, (m.outgoing u).Perm ((wires.filter fun w => w.1 = u).map (·.2))
  inc : ∀ v, (m.incoming v).Perm ((wires.filter fun w => w.2 = v).map (·.1))

/-- The sources of wires and the outputs of the main circuit have no consumers in their own circuit.  Otherwise
the executor frees their values too early (C08). -/
structure NotFreed (circs : List (Base BoolGate)) (wires : List (Node × Node)) : Prop where
  wires : ∀ w ∈ wires, ∀ c : Base BoolGate, circs[w.1.1]? = some c → c.children w.1.2 = []
  outputs : ∀ c : Base BoolGate, circs[0]? = some c → ∀ g ∈ c.outputGates, c.children g = []

/-! ### Proof -/

variable {m : Multi BoolGate} {circs : List (Base BoolGate)} {wires : List (Node × Node)}
  {rank : Node → Nat} {n : Nat}

/-- The same program with scalar circuits. -/
def unSimd (m : Multi BoolGate) (circs : List (Base BoolGate)) : Multi BoolGate := { m with circs := circs }

theorem unSimd_wired (hm : WiredSimd n m circs wires) : Wired (unSimd m circs) circs wires :=
  ⟨rfl, hm.out, hm.inc⟩

theorem simd_circ (hm : WiredSimd n m circs wires) (i : Nat) :
    m.circs[i]? = (circs[i]?).map (setSimd n) := by rw [hm.circs, List.getElem?_map]

theorem simd_circ' (hm : WiredSimd n m circs wires) {i : Nat} {c : Base BoolGate} (h : m.circs[i]? = some c) :
    ∃ d : Base BoolGate, circs[i]? = some d ∧ c = setSimd n d := by
  rw [simd_circ hm, Option.map_eq_some_iff] at h
  obtain ⟨d, h1, h2⟩ := h
  exact ⟨d, h1, h2.symm⟩

theorem simd_gate (hm : WiredSimd n m circs wires) (v : Node) : m.gate? v = (unSimd m circs).gate? v := by
  unfold Multi.gate?
  rw [simd_circ hm]
  simp only [unSimd]
  cases circs[v.1]? <;> rfl

theorem simd_parents (hm : WiredSimd n m circs wires) (v : Node) :
    m.parents v = (unSimd m circs).parents v := by
  unfold Multi.parents
  rw [simd_circ hm]
  simp only [unSimd]
  cases circs[v.1]? <;> rfl

theorem simd_valid (hm : WiredSimd n m circs wires) (v : Node) : m.Valid v ↔ (unSimd m circs).Valid v := by
  unfold Multi.Valid
  constructor
  · rintro ⟨c, h1, h2⟩
    obtain ⟨d, h3, rfl⟩ := simd_circ' hm h1
    exact ⟨d, h3, h2⟩
  · rintro ⟨d, h1, h2⟩
    have h1 : circs[v.1]? = some d := h1
    exact ⟨setSimd n d, by rw [simd_circ hm, h1]; rfl, h2⟩

theorem simd_wf (ok : ProgOk circs wires rank) (hm : WiredSimd n m circs wires) : WF m rank := by
  have w := prog_wf ok (unSimd_wired hm)
  constructor
  case nonempty => rw [hm.circs, List.length_map]; exact ok.nonempty
  case edges => intro i c hc; obtain ⟨d, h, rfl⟩ := simd_circ' hm hc; exact w.edges i d h
  case rankIn => intro i c hc; obtain ⟨d, h, rfl⟩ := simd_circ' hm hc; exact w.rankIn i d h
  case rankCross => exact w.rankCross
  case consistent => exact w.consistent
  case validFrom => intro u v h; exact (simd_valid hm u).2 (w.validFrom u v h)
  case validTo => intro u v h; exact (simd_valid hm v).2 (w.validTo u v h)
  case single => exact w.single
  case crossSource => intro v c hi hc; obtain ⟨d, h, rfl⟩ := simd_circ' hm hc; exact w.crossSource v d hi h
  case initNodup => intro i c hc; obtain ⟨d, h, rfl⟩ := simd_circ' hm hc; exact w.initNodup i d h
  case initBound => intro i c hc; obtain ⟨d, h, rfl⟩ := simd_circ' hm hc; exact w.initBound i d h
  case initSource => intro i c hc; obtain ⟨d, h, rfl⟩ := simd_circ' hm hc; exact w.initSource i d h
  case sources => intro i c hc; obtain ⟨d, h, rfl⟩ := simd_circ' hm hc; exact w.sources i d h
  case constReach => intro i c hc; obtain ⟨d, h, rfl⟩ := simd_circ' hm hc; exact w.constReach i d h

theorem simd_isSimd (hm : WiredSimd n m circs wires) {i : Nat} {c : Base BoolGate} (h : m.circs[i]? = some c) :
    isSimd m i = true ∧ lanes m i = n := by
  obtain ⟨d, -, rfl⟩ := simd_circ' hm h
  simp [isSimd, lanes, h, setSimd]

theorem simd_valid_isSimd (hm : WiredSimd n m circs wires) {v : Node} (h : m.Valid v) :
    isSimd m v.1 = true ∧ lanes m v.1 = n := by
  obtain ⟨c, h, -⟩ := h
  exact simd_isSimd hm h

theorem simd_main (ok : ProgOk circs wires rank) (hm : WiredSimd n m circs wires) :
    isSimd m 0 = true ∧ lanes m 0 = n := by
  have := ok.nonempty
  exact simd_isSimd hm (c := setSimd n circs[0]) (by rw [simd_circ hm, List.getElem?_eq_getElem this]; rfl)

theorem simd_base (ok : ProgOk circs wires rank) (hn : 0 < n) (hm : WiredSimd n m circs wires) :
    ExecBase m := by
  have w := simd_wf ok hm
  have e := prog_exec ok (unSimd_wired hm)
  have pv := parents_valid w
  have hg : ∀ {v g}, m.gate? v = some g → (unSimd m circs).gate? v = some g := by
    intro v g h; rw [← simd_gate hm]; exact h
  constructor
  case inputs =>
    intro v g h hb
    obtain ⟨h0, c, hc, hi⟩ := e.inputs v g (hg h) hb
    have hc : circs[0]? = some c := hc
    exact ⟨h0, setSimd n c, by rw [simd_circ hm, hc]; rfl, hi⟩
  case lanesPos =>
    intro i c hc
    obtain ⟨d, -, rfl⟩ := simd_circ' hm hc
    simp [setSimd]; omega
  case scInput =>
    intro v g h _
    refine ⟨fun _ => (simd_valid_isSimd hm (gate_valid h)).1, fun u hu => ?_⟩
    rw [(simd_valid_isSimd hm (pv v u hu)).1, (simd_main ok hm).1]
  case fromSimd =>
    intro v g k h hb
    have := (e.fromSimd v g k (hg h) hb).2
    obtain ⟨p, -, hp⟩ := this
    rw [not_simd ok (unSimd_wired hm)] at hp
    cases hp
  case other =>
    intro v g h _ _ u hu
    rw [(simd_valid_isSimd hm (pv v u hu)).1, (simd_valid_isSimd hm (gate_valid h)).1]
  case sameLanes =>
    intro v u g h _ hu
    rw [(simd_valid_isSimd hm (pv v u hu)).2, (simd_valid_isSimd hm (gate_valid h)).2]
  case intBase => intro v g h hi; exact e.intBase v g (hg h) hi
  case outputsValid =>
    intro c hc g hgo
    obtain ⟨d, h, rfl⟩ := simd_circ' hm hc
    exact (simd_valid hm _).2 (e.outputsValid d h g hgo)

theorem simd_exec (ok : ProgOk circs wires rank) (hn : 0 < n) (hm : WiredSimd n m circs wires)
    (hf : NotFreed circs wires) : ExecWF m := by
  have b := simd_base ok hn hm
  have key : ∀ v : Node, (∀ c : Base BoolGate, circs[v.1]? = some c → c.children v.2 = []) →
      inChildren m v = [] := by
    intro v h
    unfold inChildren
    rw [simd_circ hm]
    cases hc : circs[v.1]? with
    | none => rfl
    | some c =>
      have : (setSimd n c).children v.2 = [] := h c hc
      simp only [Option.map_some, this, List.map_nil]
  refine ⟨b.inputs, b.lanesPos, b.scInput, b.fromSimd, b.other, b.sameLanes, b.intBase, b.outputsValid, ?_, ?_⟩
  · intro u v _ hne hin
    exact hne (key u fun c hc => hf.wires _ ((mem_inc (unSimd_wired hm)).1 hin) c hc)
  · intro c hc _ g hg
    obtain ⟨d, h, rfl⟩ := simd_circ' hm hc
    refine key (0, g) fun c hc => ?_
    rw [h] at hc; cases hc
    exact hf.outputs d h g hg

/-- All lanes of a value. -/
def simdVal (n : Nat) (val : Nat → Node → Bool) (v : Node) : List Bool := (List.range n).map fun k => val k v

/-- The values of a simd program are those of its lanes. -/
theorem simd_plain (ok : ProgOk circs wires rank) (hm : WiredSimd n m circs wires)
    (c0 : Base BoolGate) (hc0 : circs[0]? = some c0) (inp : List (List Bool))
    (hn : ∀ l ∈ inp, l.length = n) (val : Nat → Node → Bool)
    (hv : ∀ k, PlainEval (unSimd m circs) (.scalar (lane k inp)) (val k) (fun _ => [])) :
    PlainEval m (.simd inp) (fun _ => false) (simdVal n val) := by
  have ns := not_simd ok (unSimd_wired hm)
  refine ⟨?_, ?_, ?_⟩
  · intro v g hg hs
    rw [(simd_valid_isSimd hm (gate_valid hg)).1] at hs; cases hs
  · intro v g hg _
    rw [(simd_valid_isSimd hm (gate_valid hg)).2]
    have hg' : (unSimd m circs).gate? v = some g := by rw [← simd_gate hm]; exact hg
    have ev := fun k => (hv k).scalar v g hg' (ns _)
    have hp := simd_parents hm v
    cases g with
    | and =>
      obtain ⟨p, q, e, -⟩ := ev 0
      refine ⟨p, q, hp.trans e, ?_⟩
      have : ∀ k, val k v = (val k p && val k q) := by
        intro k
        obtain ⟨p', q', e', h⟩ := ev k
        rw [e] at e'; cases e'
        exact h
      simp only [simdVal, this, andL]
      simp [List.zipWith_map, List.zipWith_self]
    | xor =>
      obtain ⟨p, q, e, -⟩ := ev 0
      refine ⟨p, q, hp.trans e, ?_⟩
      have : ∀ k, val k v = (val k p ^^ val k q) := by
        intro k
        obtain ⟨p', q', e', h⟩ := ev k
        rw [e] at e'; cases e'
        exact h
      simp only [simdVal, this, xorL]
      simp [List.zipWith_map, List.zipWith_self]
    | inv =>
      obtain ⟨p, e, -⟩ := ev 0
      refine ⟨p, hp.trans e, ?_⟩
      have : ∀ k, val k v = !val k p := by
        intro k
        obtain ⟨p', e', h⟩ := ev k
        rw [e] at e'; cases e'
        exact h
      simp [simdVal, this, Function.comp_def]
    | base b =>
      have one : (∀ k, ∃ p, (unSimd m circs).parents v = [p] ∧ val k v = val k p) →
          ∃ p, m.parents v = [p] ∧ simdVal n val v = simdVal n val p := by
        intro h
        obtain ⟨p, e, -⟩ := h 0
        refine ⟨p, hp.trans e, ?_⟩
        have : ∀ k, val k v = val k p := by
          intro k
          obtain ⟨p', e', h⟩ := h k
          rw [e] at e'; cases e'
          exact h
        simp [simdVal, this]
      cases b with
      | input =>
        obtain ⟨c, i, hc, hi, hx⟩ := ev 0
        have hc : circs[0]? = some c := hc
        rw [hc0] at hc; cases hc
        have hlt : i < inp.length := by
          have := (List.getElem?_eq_some_iff.1 hx).1
          simpa [Input.scalars, lane] using this
        refine ⟨setSimd n c0, i, by rw [simd_circ hm, hc0]; rfl, hi, ?_⟩
        simp only [Input.vectors]
        rw [List.getElem?_eq_getElem hlt]
        have hln := hn _ (List.getElem_mem hlt)
        congr 1
        apply List.ext_getElem
        · simp [hln, simdVal]
        · intro k k1 k2
          simp only [simdVal, List.getElem_map, List.getElem_range]
          obtain ⟨c, i', hc, hi', hx⟩ := ev k
          have hc : circs[0]? = some c := hc
          rw [hc0] at hc; cases hc
          rw [hi] at hi'; cases hi'
          simp only [Input.scalars, lane, List.getElem?_map, List.getElem?_eq_getElem hlt, Option.map_some,
            Option.some.injEq] at hx
          rw [← hx, getD_lt _ _ k1]
      | constant b =>
        have : ∀ k, val k v = b := ev
        simp [SimdEq, simdVal, this, List.map_const']
      | subCircuitInput =>
        simp only [SimdEq, (simd_main ok hm).1, if_true]
        exact one ev
      | connectToMainFromSimd k =>
        obtain ⟨c, h1, h2⟩ := prog_gate (unSimd_wired hm) hg'
        exact absurd rfl ((ok.kinds _ _ _ _ h1 h2).2.1 k)
      | _ => exact one ev
  · intro v hv' _
    rw [(simd_valid_isSimd hm hv').2]; simp [simdVal]

theorem lane_length (k : Nat) (inp : List (List Bool)) : (lane k inp).length = inp.length := by simp [lane]

/-- Plaintext values of all lanes of a simd program. -/
theorem simd_values (ok : ProgOk circs wires rank) (hm : WiredSimd n m circs wires)
    (c0 : Base BoolGate) (hc0 : circs[0]? = some c0) (inp : List (List Bool))
    (hl : inp.length = c0.inputGates.length) (hn : ∀ l ∈ inp, l.length = n) :
    ∃ val : Nat → Node → Bool, (∀ k, ProgVal circs wires (lane k inp) (val k)) ∧
      PlainEval m (.simd inp) (fun _ => false) (simdVal n val) :=
  ⟨fun k => progVal (unSimd m circs) rank c0 (lane k inp),
    fun k => prog_val ok (unSimd_wired hm) c0 hc0 (lane k inp),
    simd_plain ok hm c0 hc0 inp hn _ fun k =>
      prog_plain ok (unSimd_wired hm) c0 hc0 (lane k inp) (by rw [lane_length, hl])⟩

theorem simd_unmixed (hm : WiredSimd n m circs wires) : Unmixed m :=
  .inr fun _ h => (simd_valid_isSimd hm (gate_valid h)).1

/-! ### Theorems -/

/-- **C87 (calls).**  A program whose circuits all have `n` lanes, executed with dynamic layers: every lane of the
outputs is what the scalar program computes from that lane of the inputs (C51). -/
theorem simd_program_correct_partial (circs : List (Base BoolGate)) (wires : List (Node × Node))
    (rank : Node → Nat) (ok : ProgOk circs wires rank) (n : Nat) (hn : 0 < n) (m : Multi BoolGate)
    (hm : WiredSimd n m circs wires) (hf : NotFreed circs wires)
    (c0 : Base BoolGate) (hc0 : circs[0]? = some c0)
    (a b inp : List (List Bool)) (hs : Shares (.simd a) (.simd b) (.simd inp))
    (hl : inp.length = c0.inputGates.length) (hlanes : ∀ l ∈ inp, l.length = n)
    (setup0 setup1 : Nat → Nat → List Triple)
    (hset : ∀ k n, Matching (setup0 k n) (setup1 k n) ∧ n ≤ (setup0 k n).length)
    (init0 init1 : Store Bool (List Bool)) :
    ∃ (val : Nat → Node → Bool) (o0 o1 : List (List Bool)),
      (∀ k, ProgVal circs wires (lane k inp) (val k)) ∧
      Runs (execute gmw m 0 (.simd a) setup0 init0) (execute gmw m 1 (.simd b) setup1 init1)
        (.simd o0) (.simd o1) ∧
      List.zipWith xorL o0 o1 = c0.outputGates.map fun g => (List.range n).map fun k => val k (0, g) := by
  obtain ⟨val, hv, hp⟩ := simd_values ok hm c0 hc0 inp hl hlanes
  have hmain := (simd_main ok hm).1
  obtain ⟨ls, o0, o1, -, -, hr, hsh⟩ := gmw_execute_correct_partial m rank (simd_wf ok hm)
    (simd_exec ok hn hm hf) (simd_unmixed hm) (setSimd n c0) (by rw [simd_circ hm, hc0]; rfl)
    (.simd a) (.simd b) (.simd inp) ⟨hmain, hl⟩ hs setup0 setup1 hset init0 init1 _ _ hp
  simp only [plainOutput, hmain, if_true] at hsh
  match o0, o1, hsh with
  | .simd o0, .simd o1, hsh => exact ⟨val, o0, o1, hv, hr, hsh.2.2⟩

/-- **C87 (calls, precomputed layers).**  The same with the layers computed in advance.  No condition on freeing
is needed; the conditions on `circ_map` are those of C74. -/
theorem simd_program_static_partial (circs : List (Base BoolGate)) (wires : List (Node × Node))
    (rank : Node → Nat) (ok : ProgOk circs wires rank) (n : Nat) (hn : 0 < n) (m : Multi BoolGate)
    (hm : WiredSimd n m circs wires) (cmap : List Nat) (hcmap : CMapOk m cmap)
    (hne : ∀ c ∈ circs, c.gates ≠ [])
    (c0 : Base BoolGate) (hc0 : circs[0]? = some c0)
    (a b inp : List (List Bool)) (hs : Shares (.simd a) (.simd b) (.simd inp))
    (hl : inp.length = c0.inputGates.length) (hlanes : ∀ l ∈ inp, l.length = n)
    (setup0 setup1 : Nat → Nat → List Triple)
    (hset : ∀ k n, Matching (setup0 k n) (setup1 k n) ∧ n ≤ (setup0 k n).length)
    (init0 init1 : Store Bool (List Bool)) :
    ∃ it ls, MIter.new m = some it ∧
      MIter.collect m ((m.circs.map fun c => c.gates.length).sum + 1) it = some ls ∧
      (FirstUseInOrder cmap ls.flatten → SameLayers cmap ls.flatten →
        ∃ (c : SCirc BoolGate) (val : Nat → Node → Bool) (o0 o1 : List (List Bool)),
          precomputeCirc m cmap = some c ∧ (∀ k, ProgVal circs wires (lane k inp) (val k)) ∧
          Runs (executeStatic gmw c 0 (.simd a) setup0 init0) (executeStatic gmw c 1 (.simd b) setup1 init1)
            (.simd o0) (.simd o1) ∧
          List.zipWith xorL o0 o1 =
            c0.outputGates.map fun g => (List.range n).map fun k => val k (0, g)) := by
  obtain ⟨val, hv, hp⟩ := simd_values ok hm c0 hc0 inp hl hlanes
  have hmain := (simd_main ok hm).1
  obtain ⟨it, ls, e1, e2, h⟩ := gmw_static_correct_partial m rank (simd_wf ok hm)
    (simd_base ok hn hm) (simd_unmixed hm) cmap hcmap (by
      intro i c hc
      obtain ⟨d, h, rfl⟩ := simd_circ' hm hc
      exact hne d (List.mem_of_getElem? h)) (setSimd n c0) (by rw [simd_circ hm, hc0]; rfl)
    (.simd a) (.simd b) (.simd inp) ⟨hmain, hl⟩ hs setup0 setup1 hset init0 init1 _ _ hp
  refine ⟨it, ls, e1, e2, fun hf hsl => ?_⟩
  obtain ⟨c, o0, o1, hc, -, hr, hsh⟩ := h hf hsl
  simp only [plainOutput, hmain, if_true] at hsh
  match o0, o1, hsh with
  | .simd o0, .simd o1, hsh => exact ⟨c, val, o0, o1, hc, hv, hr, hsh.2.2⟩

/-- The layers start with the main circuit. -/
theorem first_layer_main {G : Type} [GateLike G] (m : Multi G) (it : MIter) (fuel : Nat) (ls : List MLayer)
    (h1 : MIter.new m = some it) (h2 : MIter.collect m fuel it = some ls) :
    ∀ e ∈ ls.flatten.head?, e.1 = 0 := by
  have hit : ∀ i, i ≠ 0 → it i = none := by
    intro i hi
    simp only [MIter.new, Option.bind_eq_bind, Option.bind_eq_some_iff, Option.pure_def,
      Option.some.injEq] at h1
    obtain ⟨c, -, rfl⟩ := h1
    simp [hi]
  have step : ∀ (is : List Nat) (it it' : MIter) (l : MLayer), (∀ i, i ≠ 0 → it i = none) →
      stepAll m it is = some (l, it') → ∀ e ∈ l, e.1 = 0 := by
    intro is
    induction is with
    | nil =>
      intro it it' l _ h
      simp only [stepAll, Option.some.injEq, Prod.mk.injEq] at h
      rw [← h.1]; simp
    | cons i is ih =>
      intro it it' l hit h
      unfold stepAll at h
      cases hi : it i with
      | none =>
        simp only [hi] at h
        exact ih _ _ _ hit h
      | some s =>
        have h0 : i = 0 := by
          by_contra hne
          rw [hit i hne] at hi; cases hi
        cases hc : m.circs[i]? with
        | none => simp [hi, hc] at h
        | some c =>
          simp only [hi, hc, Option.bind_eq_bind, Option.bind_eq_some_iff, Option.pure_def,
            Option.some.injEq, Prod.exists] at h
          obtain ⟨lo, s', -, ls, it2, h2, h3⟩ := h
          have := ih _ _ _ (by
            intro j hj
            have : j ≠ i := by omega
            simp only [this, if_false]
            exact hit j hj) h2
          cases lo with
          | none =>
            simp only [Prod.mk.injEq] at h3
            rw [← h3.1]; exact this
          | some l0 =>
            simp only [Prod.mk.injEq] at h3
            rw [← h3.1]
            intro e he
            rcases List.mem_cons.1 he with rfl | he
            · exact h0
            · exact this e he
  cases fuel with
  | zero => simp [MIter.collect] at h2
  | succ fuel =>
    simp only [MIter.collect, Option.bind_eq_bind, Option.bind_eq_some_iff, Prod.exists] at h2
    obtain ⟨lo, it', h3, h4⟩ := h2
    cases lo with
    | none =>
      simp only [Option.pure_def, Option.some.injEq] at h4
      rw [← h4]; simp
    | some l0 =>
      simp only [Option.bind_eq_some_iff, Option.pure_def, Option.some.injEq] at h4
      obtain ⟨ls', -, rfl⟩ := h4
      simp only [MIter.next, Option.bind_eq_bind, Option.bind_eq_some_iff, Prod.exists,
        Option.pure_def, Option.some.injEq, Prod.mk.injEq] at h3
      obtain ⟨l1, it1, h5, it2, -, h6, -⟩ := h3
      by_cases hl : l1 = []
      · simp [hl] at h6
      · simp only [hl, if_false, Option.some.injEq] at h6
        subst h6
        have := step _ _ _ _ hit h5
        obtain ⟨x, xs, rfl⟩ := List.exists_cons_of_ne_nil hl
        intro e he
        simp at he
        exact this e (by simp [he])

/-- With one call, circuits are reached in the order of `circ_map`. -/
theorem one_call_first (P : List (Nat × Layer)) (h : ∀ e ∈ P.head?, e.1 = 0) : FirstUseInOrder [0, 1] P := by
  intro a e b hP mp hmp k hk
  have hlt := (List.getElem?_eq_some_iff.1 hmp).1
  have h01 : e.1 = 0 ∨ e.1 = 1 := by simp at hlt; omega
  rcases h01 with h0 | h1
  · rw [h0] at hmp; simp at hmp; omega
  · rw [h1] at hmp
    simp at hmp
    have hk : k = 0 := by omega
    subst hk
    cases a with
    | nil =>
      rw [hP] at h
      have := h e (by simp)
      omega
    | cons x a =>
      rw [hP] at h
      have := h x (by simp)
      exact ⟨x, List.mem_cons_self, by rw [this]; rfl⟩

end Verif.Exec
