import Verif.Circuit.ConnectProps
import Verif.Circuit.Dedup
import Verif.Exec.Base

/-!
C51: programs made of a main circuit and sub-circuit calls.
-/
set_option autoImplicit false

namespace Verif.Exec

open Circuit Proc Gmw

/-! ### Specification -/

/-- The gate of the stand-alone circuit for a gate of a sub-circuit. -/
def aloneGate : BoolGate → BoolGate
  | .base .subCircuitInput => .base .input
  | .base .subCircuitOutput => .base .output
  | g => g

/-- A sub-circuit as stand-alone circuit: its sub-circuit inputs and outputs become inputs and
outputs. -/
def alone (c : Base BoolGate) : Base BoolGate :=
  { c with
    gates := c.gates.map aloneGate
    inputGates := c.scInputGates
    outputGates := c.scOutputGates
    scInputGates := []
    scOutputGates := [] }

/-- The sub-circuit inputs in the order of their creation. -/
def scInputs (c : Base BoolGate) : List Nat := positions (fun g => g = .base .subCircuitInput) c.gates

/-- The sub-circuit outputs in the order of their creation. -/
def scOutputs (c : Base BoolGate) : List Nat := positions (fun g => g = .base .subCircuitOutput) c.gates

/-- A program: scalar circuits `circs` (the main circuit first), connected by `wires`.  `rank`
witnesses that the whole graph is acyclic. -/
structure ProgOk (circs : List (Base BoolGate)) (wires : List (Node × Node)) (rank : Node → Nat) :
    Prop where
  nonempty : 0 < circs.length
  scalar : ∀ (i : Nat) (c : Base BoolGate), circs[i]? = some c → c.simdSize = none
  /-- Gates were added after their operands. -/
  edges : ∀ (i : Nat) (c : Base BoolGate), circs[i]? = some c →
    ∀ e ∈ c.edges, e.1 < e.2 ∧ e.2 < c.gates.length
  /-- Gates have the operands they need; sub-circuit inputs have none in their circuit. -/
  arity : ∀ (i : Nat) (c : Base BoolGate) (j : Nat) (g : BoolGate), circs[i]? = some c →
    c.gates[j]? = some g →
    (c.parents j).length = if g = .base .subCircuitInput then 0 else Exec.arity g
  kinds : ∀ (i : Nat) (c : Base BoolGate) (j : Nat) (g : BoolGate), circs[i]? = some c →
    c.gates[j]? = some g → g ≠ .base .connectToMain ∧ (∀ k, g ≠ .base (.connectToMainFromSimd k)) ∧
      (i ≠ 0 → g ≠ .base .input ∧ g ≠ .base .output)
  book : ∀ (i : Nat) (c : Base BoolGate), circs[i]? = some c → BookOk c
  src : ∀ w ∈ wires, ∃ c : Base BoolGate, circs[w.1.1]? = some c ∧ w.1.2 < c.gates.length
  dst : ∀ w ∈ wires, ∃ c : Base BoolGate, circs[w.2.1]? = some c ∧
    c.gates[w.2.2]? = some (.base .subCircuitInput)
  /-- Every sub-circuit input is connected, once. -/
  all : ∀ (i : Nat) (c : Base BoolGate) (j : Nat), circs[i]? = some c →
    c.gates[j]? = some (.base .subCircuitInput) → ∃ w ∈ wires, w.2 = (i, j)
  once : (wires.map (·.2)).Nodup
  rankIn : ∀ (i : Nat) (c : Base BoolGate), circs[i]? = some c →
    ∀ e ∈ c.edges, rank (i, e.1) < rank (i, e.2)
  rankWire : ∀ w ∈ wires, rank w.1 < rank w.2
  /-- The constants of a callee become available with its first connected input. -/
  constants : ∀ (i : Nat) (c : Base BoolGate) (j : Nat) (b : Bool), circs[i]? = some c → i ≠ 0 →
    c.gates[j]? = some (.base (.constant b)) → ∃ w ∈ wires, w.2.1 = i ∧ rank w.1 < rank (i, j)

/-- The cross connections of `m` are `wires`. -/
structure Wired (m : Multi BoolGate) (circs : List (Base BoolGate)) (wires : List (Node × Node)) :
    Prop where
  circs : m.circs = circs
  out : ∀ u, (m.outgoing u).Perm ((wires.filter fun w => w.1 = u).map (·.2))
  inc : ∀ v, (m.incoming v).Perm ((wires.filter fun w => w.2 = v).map (·.1))

/-- Plaintext values of a program. -/
structure ProgVal (circs : List (Base BoolGate)) (wires : List (Node × Node)) (inp : List Bool)
    (val : Node → Bool) : Prop where
  /-- Gates of the main circuit, by their function. -/
  main : ∀ (c : Base BoolGate) (j : Nat) (g : BoolGate), circs[0]? = some c → c.gates[j]? = some g →
    g ≠ .base .subCircuitInput →
    val (0, j) = gateFn (inp.getD (inputIdx c j) false) g ((c.parents j).map fun u => val (0, u))
  /-- Wires copy. -/
  wire : ∀ w ∈ wires, val w.2 = val w.1
  /-- The outputs of a callee are its function of the values at its inputs. -/
  callee : ∀ (i : Nat) (c : Base BoolGate) (srcs : List Node), circs[i]? = some c → i ≠ 0 →
    srcs.length = (scInputs c).length →
    (∀ (k : Nat) (s : Node) (j : Nat), srcs[k]? = some s → (scInputs c)[k]? = some j →
      (s, (i, j)) ∈ wires) →
    (scOutputs c).map (fun g => val (i, g)) = plainFn (alone c) (srcs.map val)

/-! ### Proof -/

variable {m : Multi BoolGate} {circs : List (Base BoolGate)} {wires : List (Node × Node)}
  {rank : Node → Nat}

theorem mem_inc (hm : Wired m circs wires) {u v : Node} : u ∈ m.incoming v ↔ (u, v) ∈ wires := by
  rw [(hm.inc v).mem_iff]
  simp only [List.mem_map, List.mem_filter, decide_eq_true_eq]
  constructor
  · rintro ⟨w, ⟨h, rfl⟩, rfl⟩; exact h
  · intro h; exact ⟨_, ⟨h, rfl⟩, rfl⟩

theorem filter_once {l : List (Node × Node)} (h : (l.map (·.2)).Nodup) (v : Node) :
    (l.filter fun w => decide (w.2 = v)).length ≤ 1 := by
  induction l with
  | nil => simp
  | cons w l ih =>
    rw [List.map_cons, List.nodup_cons] at h
    rw [List.filter_cons]
    split
    · rename_i hw
      have : (l.filter fun w => decide (w.2 = v)) = [] := by
        rw [List.filter_eq_nil_iff]
        intro x hx hxv
        simp only [decide_eq_true_eq] at hw hxv
        exact h.1 (List.mem_map.2 ⟨x, hx, hxv.trans hw.symm⟩)
      rw [this]; simp
    · exact ih h.2

theorem inc_single (ok : ProgOk circs wires rank) (hm : Wired m circs wires) (v : Node) :
    (m.incoming v).length ≤ 1 := by
  rw [(hm.inc v).length_eq, List.length_map]
  exact filter_once ok.once v

theorem inc_eq (ok : ProgOk circs wires rank) (hm : Wired m circs wires) {u v : Node}
    (h : (u, v) ∈ wires) : m.incoming v = [u] := by
  have h1 := (mem_inc hm).2 h
  have h2 := inc_single ok hm v
  match hl : m.incoming v, h1, h2 with
  | [a], h1, _ =>
    simp only [List.mem_singleton] at h1
    rw [h1]

theorem inc_none (ok : ProgOk circs wires rank) (hm : Wired m circs wires) {i j : Nat}
    {c : Base BoolGate} {g : BoolGate} (hc : circs[i]? = some c) (hg : c.gates[j]? = some g)
    (hne : g ≠ .base .subCircuitInput) : m.incoming (i, j) = [] := by
  rw [List.eq_nil_iff_forall_not_mem]
  intro u hu
  obtain ⟨c', hc', hg'⟩ := ok.dst _ ((mem_inc hm).1 hu)
  simp only at hc' hg'
  rw [hc] at hc'; cases hc'
  rw [hg] at hg'; cases hg'
  exact hne rfl

theorem not_simd (ok : ProgOk circs wires rank) (hm : Wired m circs wires) (i : Nat) :
    isSimd m i = false := by
  unfold isSimd
  rw [hm.circs]
  cases h : circs[i]? with
  | none => rfl
  | some c => simp [ok.scalar i c h]

theorem prog_gate (hm : Wired m circs wires) {v : Node} {g : BoolGate} (h : m.gate? v = some g) :
    ∃ c : Base BoolGate, circs[v.1]? = some c ∧ c.gates[v.2]? = some g := by
  unfold Multi.gate? at h
  rw [hm.circs] at h
  simpa [Option.bind_eq_some_iff] using h

theorem prog_parents (ok : ProgOk circs wires rank) (hm : Wired m circs wires) {i j : Nat}
    {c : Base BoolGate} {g : BoolGate} (hc : circs[i]? = some c) (hg : c.gates[j]? = some g)
    (hne : g ≠ .base .subCircuitInput) : m.parents (i, j) = (c.parents j).map fun u => (i, u) := by
  unfold Multi.parents
  rw [hm.circs, inc_none ok hm hc hg hne]
  simp [hc]

theorem prog_parents_sc (ok : ProgOk circs wires rank) (hm : Wired m circs wires) {i j : Nat}
    {c : Base BoolGate} (hc : circs[i]? = some c) (hg : c.gates[j]? = some (.base .subCircuitInput))
    {u : Node} (hu : (u, (i, j)) ∈ wires) : m.parents (i, j) = [u] := by
  have ha := ok.arity i c j _ hc hg
  simp only [if_true, List.length_eq_zero_iff] at ha
  unfold Multi.parents
  rw [hm.circs, inc_eq ok hm hu]
  simp [hc, ha]

theorem prog_wf (ok : ProgOk circs wires rank) (hm : Wired m circs wires) : WF m rank := by
  have hpos : ∀ (c : Base BoolGate) p, (positions p c.gates).Nodup := fun c p => List.nodup_range.filter _
  have hinit : ∀ (i : Nat) (c : Base BoolGate), circs[i]? = some c → ∀ g ∈ initial i c,
      ∃ x, c.gates[g]? = some x ∧ ((∃ b, x = .base (.constant b)) ∨ x = .base .input) := by
    intro i c hc g hg
    simp only [initial, List.mem_append, const_pos c (ok.book i c hc), input_pos c (ok.book i c hc)] at hg
    rcases hg with hg | hg
    · rw [mem_positions] at hg
      obtain ⟨x, h1, h2⟩ := hg
      refine ⟨x, h1, .inl ?_⟩
      cases x with
      | base b => cases b <;> simp at h2; exact ⟨_, rfl⟩
      | _ => simp at h2
    · split at hg
      · rw [mem_positions] at hg
        obtain ⟨x, h1, h2⟩ := hg
        exact ⟨x, h1, .inr (by simpa using h2)⟩
      · simp at hg
  constructor
  case nonempty => rw [hm.circs]; exact ok.nonempty
  case edges =>
    rw [hm.circs]; intro i c hc e he
    have := ok.edges i c hc e he
    omega
  case rankIn => rw [hm.circs]; exact ok.rankIn
  case rankCross => intro u v h; exact ok.rankWire _ ((mem_inc hm).1 h)
  case consistent =>
    intro u v
    rw [(hm.out u).count_eq, (hm.inc v).count_eq]
    exact ofConns_consistent circs wires u v
  case validFrom =>
    intro u v h
    obtain ⟨c, h1, h2⟩ := ok.src _ ((mem_inc hm).1 h)
    exact ⟨c, by rw [hm.circs]; exact h1, h2⟩
  case validTo =>
    intro u v h
    obtain ⟨c, h1, h2⟩ := ok.dst _ ((mem_inc hm).1 h)
    exact ⟨c, by rw [hm.circs]; exact h1, (List.getElem?_eq_some_iff.1 h2).1⟩
  case single => exact inc_single ok hm
  case crossSource =>
    rw [hm.circs]
    intro v c hv hc
    obtain ⟨u, hu⟩ := List.exists_mem_of_ne_nil _ hv
    obtain ⟨c', h1, h2⟩ := ok.dst _ ((mem_inc hm).1 hu)
    simp only at h1 h2
    rw [hc] at h1; cases h1
    have ha := ok.arity _ c _ _ hc h2
    simpa [List.length_eq_zero_iff] using ha
  case initNodup =>
    rw [hm.circs]
    intro i c hc
    simp only [initial, input_pos c (ok.book i c hc), const_pos c (ok.book i c hc)]
    refine List.Nodup.append (hpos _ _) ?_ ?_
    · split
      · exact hpos _ _
      · exact List.nodup_nil
    · intro g h1 h2
      split at h2
      · rw [mem_positions] at h1 h2
        obtain ⟨x, e1, e2⟩ := h1
        obtain ⟨y, e3, e4⟩ := h2
        rw [e1] at e3
        cases e3
        simp only [decide_eq_true_eq] at e4
        subst e4
        simp at e2
      · simp at h2
  case initBound =>
    rw [hm.circs]
    intro i c hc g hg
    obtain ⟨x, h1, -⟩ := hinit i c hc g hg
    exact (List.getElem?_eq_some_iff.1 h1).1
  case initSource =>
    rw [hm.circs]
    intro i c hc g hg
    obtain ⟨x, h1, h2⟩ := hinit i c hc g hg
    have ha := ok.arity i c g x hc h1
    refine ⟨?_, ?_⟩
    · rcases h2 with ⟨b, rfl⟩ | rfl <;> simpa [Exec.arity] using ha
    · refine inc_none ok hm hc h1 ?_
      rcases h2 with ⟨b, rfl⟩ | rfl <;> simp
  case sources =>
    rw [hm.circs]
    intro i c hc g hg hp
    have hx : c.gates[g]? = some c.gates[g] := List.getElem?_eq_getElem hg
    have ha := ok.arity i c g _ hc hx
    have hk := ok.kinds i c g _ hc hx
    rw [hp] at ha
    cases hgt : c.gates[g] with
    | base b =>
      rw [hgt] at ha hk hx
      cases b with
      | subCircuitInput =>
        right
        obtain ⟨w, hw, e⟩ := ok.all i c g hc hx
        have : (w.1, (i, g)) ∈ wires := by rw [← e]; exact hw
        rw [inc_eq ok hm this]
        simp
      | constant b =>
        left
        simp only [initial, List.mem_append, const_pos c (ok.book i c hc), mem_positions]
        left; exact ⟨_, hx, rfl⟩
      | input =>
        left
        by_cases hi : i = 0
        · subst hi
          simp only [initial, List.mem_append, if_true, input_pos c (ok.book 0 c hc), mem_positions]
          right; exact ⟨_, hx, by simp⟩
        · exact absurd rfl (hk.2.2 hi).1
      | _ => simp [Exec.arity] at ha
    | _ => rw [hgt] at ha; simp [Exec.arity] at ha
  case constReach =>
    rw [hm.circs]
    intro i c hc hi g hg
    obtain ⟨x, h1, h2⟩ := hinit i c hc g hg
    rcases h2 with ⟨b, rfl⟩ | rfl
    · obtain ⟨w, hw, e, hr⟩ := ok.constants i c g b hc hi h1
      refine ⟨w.2.2, w.1, ?_, hr⟩
      rw [mem_inc hm, ← e]; exact hw
    · exact absurd rfl ((ok.kinds i c g _ hc h1).2.2 hi).1

theorem prog_exec (ok : ProgOk circs wires rank) (hm : Wired m circs wires) : ExecWF m := by
  have ns := not_simd ok hm
  have kd : ∀ v g, m.gate? v = some g → g ≠ .base .connectToMain ∧
      (∀ k, g ≠ .base (.connectToMainFromSimd k)) := by
    intro v g hg
    obtain ⟨c, h1, h2⟩ := prog_gate hm hg
    have := ok.kinds v.1 c v.2 g h1 h2
    exact ⟨this.1, this.2.1⟩
  have nl : ∀ i, lanes m i = 1 := by
    intro i
    unfold lanes
    rw [hm.circs]
    cases h : circs[i]? with
    | none => rfl
    | some c => simp [ok.scalar i c h]
  constructor
  case inputs =>
    intro v g hg hb
    obtain ⟨c, h1, h2⟩ := prog_gate hm hg
    have hgi : g = .base .input := by
      cases g with
      | base b => cases b <;> simp [GateLike.asBase] at hb ⊢
      | _ => simp [GateLike.asBase] at hb
    subst hgi
    have h0 : v.1 = 0 := by
      by_contra h
      exact ((ok.kinds _ c _ _ h1 h2).2.2 h).1 rfl
    rw [h0] at h1
    refine ⟨h0, c, by rw [hm.circs]; exact h1, ?_⟩
    rw [input_pos c (ok.book 0 c h1), mem_positions]
    exact ⟨_, h2, by simp⟩
  case lanesPos => rw [hm.circs]; intro i c hc; simp [ok.scalar i c hc]
  case scInput =>
    intro v g _ _
    refine ⟨fun h => ?_, fun u _ => ?_⟩
    · rw [ns] at h; cases h
    · rw [ns, ns]
  case fromSimd =>
    intro v g k hg hb
    exfalso
    cases g with
    | base b =>
      cases b <;> simp [GateLike.asBase] at hb
      subst hb
      exact (kd v _ hg).2 _ rfl
    | _ => simp [GateLike.asBase] at hb
  case other => intro v g _ _ _ u _; rw [ns, ns]
  case sameLanes => intro v u g _ _ _; rw [nl, nl]
  case intBase =>
    intro v g _ hi
    rw [gate_and_of_interactive hi]
    simp [GateLike.asBase]
  case outputsValid =>
    intro c hc g hg
    rw [hm.circs] at hc
    rw [output_pos c (ok.book 0 c hc), mem_positions] at hg
    obtain ⟨x, hx, -⟩ := hg
    exact ⟨c, by rw [hm.circs]; exact hc, (List.getElem?_eq_some_iff.1 hx).1⟩
  case freeCross => intro u v h; rw [ns] at h; cases h
  case freeOut => intro c _ h; rw [ns] at h; cases h

/-- Values of all gates, `k` levels deep. -/
def progVals (m : Multi BoolGate) (c0 : Base BoolGate) (inp : List Bool) : Nat → Node → Bool
  | 0, _ => false
  | k + 1, v =>
    match m.gate? v with
    | some g => gateFn (inp.getD (inputIdx c0 v.2) false) g ((m.parents v).map (progVals m c0 inp k))
    | none => false

theorem parents_rank (w : WF m rank) {u v : Node} (h : u ∈ m.parents v) : rank u < rank v := by
  unfold Multi.parents at h
  rcases List.mem_append.1 h with h | h
  · cases hc : m.circs[v.1]? with
    | none => simp [hc] at h
    | some c =>
      simp only [hc, List.mem_map] at h
      obtain ⟨x, hx, rfl⟩ := h
      simp only [Base.parents, List.mem_map, List.mem_filter, List.mem_reverse, decide_eq_true_eq] at hx
      obtain ⟨e, ⟨he, h2⟩, rfl⟩ := hx
      have := w.rankIn v.1 c hc e he
      rw [h2] at this
      exact this
  · exact w.rankCross u v h

theorem progVals_stable (w : WF m rank) (c0 : Base BoolGate) (inp : List Bool) :
    ∀ (k k' : Nat) (v : Node), rank v < k → rank v < k' →
      progVals m c0 inp k v = progVals m c0 inp k' v := by
  intro k
  induction k with
  | zero => intro k' v h; omega
  | succ k ih =>
    intro k' v h h'
    cases k' with
    | zero => omega
    | succ k' =>
      unfold progVals
      cases hg : m.gate? v with
      | none => rfl
      | some g =>
        simp only
        congr 1
        apply List.map_congr_left
        intro u hu
        have := parents_rank w hu
        exact ih k' u (by omega) (by omega)

/-- The plaintext value of each gate of a program. -/
def progVal (m : Multi BoolGate) (rank : Node → Nat) (c0 : Base BoolGate) (inp : List Bool) (v : Node) :
    Bool := progVals m c0 inp (rank v + 1) v

theorem progVal_eq (w : WF m rank) (c0 : Base BoolGate) (inp : List Bool) {v : Node} {g : BoolGate}
    (hg : m.gate? v = some g) : progVal m rank c0 inp v =
      gateFn (inp.getD (inputIdx c0 v.2) false) g ((m.parents v).map (progVal m rank c0 inp)) := by
  unfold progVal
  rw [progVals, hg]
  simp only
  congr 1
  apply List.map_congr_left
  intro u hu
  have := parents_rank w hu
  exact progVals_stable w c0 inp _ _ u (by omega) (by omega)

theorem gate_of {i j : Nat} {c : Base BoolGate} {g : BoolGate} (hm : Wired m circs wires)
    (hc : circs[i]? = some c) (hg : c.gates[j]? = some g) : m.gate? (i, j) = some g := by
  simp [Multi.gate?, hm.circs, hc, hg]

theorem prog_plain (ok : ProgOk circs wires rank) (hm : Wired m circs wires) (c0 : Base BoolGate)
    (hc0 : circs[0]? = some c0) (inp : List Bool) (hl : inp.length = c0.inputGates.length) :
    PlainEval m (.scalar inp) (progVal m rank c0 inp) (fun _ => []) := by
  have w := prog_wf ok hm
  have ns := not_simd ok hm
  refine ⟨?_, ?_, ?_⟩
  · intro v g hg _
    obtain ⟨i, j⟩ := v
    have ev := progVal_eq w c0 inp hg
    obtain ⟨c, h1, h2⟩ := prog_gate hm hg
    simp only at h1 h2
    have ar := ok.arity i c j g h1 h2
    have kd := ok.kinds i c j g h1 h2
    cases g with
    | and =>
      have hp := prog_parents ok hm h1 h2 (by simp)
      obtain ⟨p, q, e⟩ := two_of_length ar
      rw [e] at hp
      refine ⟨(i, p), (i, q), hp, ?_⟩
      rw [hp] at ev; exact ev
    | xor =>
      have hp := prog_parents ok hm h1 h2 (by simp)
      obtain ⟨p, q, e⟩ := two_of_length ar
      rw [e] at hp
      refine ⟨(i, p), (i, q), hp, ?_⟩
      rw [hp] at ev; exact ev
    | inv =>
      have hp := prog_parents ok hm h1 h2 (by simp)
      obtain ⟨p, e⟩ := one_of_length ar
      rw [e] at hp
      refine ⟨(i, p), hp, ?_⟩
      rw [hp] at ev; exact ev
    | base b =>
      cases b with
      | input =>
        have hi : i = 0 := by
          by_contra h
          exact (kd.2.2 h).1 rfl
        subst hi
        rw [hc0] at h1; cases h1
        obtain ⟨i1, i2⟩ := input_lt (ok.book 0 c0 hc0) h2
        refine ⟨c0, inputIdx c0 j, by rw [hm.circs]; exact hc0, i2, ?_⟩
        simp only [Input.scalars]
        rw [List.getElem?_eq_getElem (by omega)]
        simp only [gateFn] at ev
        rw [ev, getD_lt _ _ (by omega)]
      | constant b => exact ev
      | subCircuitInput =>
        obtain ⟨wi, hw, e⟩ := ok.all i c j h1 h2
        have hp := prog_parents_sc ok hm h1 h2 (u := wi.1) (by rw [← e]; exact hw)
        refine ⟨wi.1, hp, ?_⟩
        rw [hp] at ev; exact ev
      | connectToMain => exact absurd rfl kd.1
      | connectToMainFromSimd k => exact absurd rfl (kd.2.1 k)
      | _ =>
        have hp := prog_parents ok hm h1 h2 (by simp)
        obtain ⟨p, e⟩ := one_of_length ar
        rw [e] at hp
        refine ⟨(i, p), hp, ?_⟩
        rw [hp] at ev; exact ev
  · intro v g _ hv; rw [ns] at hv; cases hv
  · intro v _ hv; rw [ns] at hv; cases hv

theorem alone_inputIdx {i : Nat} {c : Base BoolGate} (ok : ProgOk circs wires rank)
    (hc : circs[i]? = some c) (hi : i ≠ 0) (j : Nat) :
    inputIdx (alone c) j = (c.gates.take j).countP fun g => g = .base .subCircuitInput := by
  unfold inputIdx alone
  simp only
  rw [← List.map_take, List.countP_map]
  apply List.countP_congr
  intro g hg
  obtain ⟨k, hk⟩ := List.getElem?_of_mem (List.mem_of_mem_take hg)
  have := ((ok.kinds i c k g hc hk).2.2 hi).1
  cases g with
  | base b => cases b <;> simp [aloneGate] at this ⊢
  | _ => simp [aloneGate]

theorem prog_val (ok : ProgOk circs wires rank) (hm : Wired m circs wires) (c0 : Base BoolGate)
    (hc0 : circs[0]? = some c0) (inp : List Bool) :
    ProgVal circs wires inp (progVal m rank c0 inp) := by
  have w := prog_wf ok hm
  have wire : ∀ w ∈ wires, progVal m rank c0 inp w.2 = progVal m rank c0 inp w.1 := by
    intro wi hw
    obtain ⟨c, h1, h2⟩ := ok.dst wi hw
    have hp := prog_parents_sc ok hm h1 h2 (u := wi.1) hw
    have ev := progVal_eq w c0 inp (gate_of hm h1 h2)
    rw [hp] at ev
    exact ev
  refine ⟨?_, wire, ?_⟩
  · intro c j g hc hg hne
    rw [hc0] at hc; cases hc
    have ev := progVal_eq w c0 inp (gate_of hm hc0 hg)
    rw [prog_parents ok hm hc0 hg hne, List.map_map] at ev
    exact ev
  · intro i c srcs hc hi hlen hsrc
    have hed : ∀ e ∈ (alone c).edges, e.1 < e.2 := fun e he => (ok.edges i c hc e he).1
    have key : ∀ (j : Nat) (g : BoolGate), c.gates[j]? = some g → progVal m rank c0 inp (i, j) =
        plainVal (alone c) (srcs.map (progVal m rank c0 inp)) j := by
      intro j
      induction j using Nat.strongRecOn with
      | ind j ih =>
        intro g hg
        have hga : (alone c).gates[j]? = some (aloneGate g) := by simp [alone, hg]
        have ev := progVal_eq w c0 inp (gate_of hm hc hg)
        have ev' := plainVal_eq_of_edges hed (srcs.map (progVal m rank c0 inp)) hga
        by_cases hne : g = .base .subCircuitInput
        · subst hne
          obtain ⟨wi, hw, e⟩ := ok.all i c j hc hg
          have hp := prog_parents_sc ok hm hc hg (u := wi.1) (by rw [← e]; exact hw)
          rw [hp] at ev
          simp only [List.map_cons, List.map_nil, gateFn] at ev
          simp only [aloneGate, gateFn] at ev'
          rw [ev, ev', alone_inputIdx ok hc hi]
          have hf := positions_findIdx (fun g => g = .base .subCircuitInput) c.gates j _ hg (by simp)
          obtain ⟨hlt, hk, -⟩ := List.findIdx?_eq_some_iff_getElem.1 hf
          simp only [decide_eq_true_eq] at hk
          have hlt' : (c.gates.take j).countP (fun g => decide (g = .base .subCircuitInput)) < srcs.length := by
            rw [hlen]; exact hlt
          have hin := hsrc _ _ _ (List.getElem?_eq_getElem hlt')
            ((List.getElem?_eq_getElem hlt).trans (congrArg some hk))
          have hinc := inc_eq ok hm hin
          have hinc' := inc_eq ok hm (u := wi.1) (v := (i, j)) (by rw [← e]; exact hw)
          rw [hinc] at hinc'
          simp only [List.cons.injEq, and_true] at hinc'
          rw [getD_lt _ _ (by simpa using hlt'), List.getElem_map, hinc']
        · rw [prog_parents ok hm hc hg hne, List.map_map] at ev
          rw [ev, ev']
          have hpar : (c.parents j).map (progVal m rank c0 inp ∘ fun u => (i, u)) =
              ((alone c).parents j).map (plainVal (alone c) (srcs.map (progVal m rank c0 inp))) := by
            apply List.map_congr_left
            intro u hu
            simp only [Base.parents, List.mem_map, List.mem_filter, List.mem_reverse,
              decide_eq_true_eq] at hu
            obtain ⟨e, ⟨he, rfl⟩, rfl⟩ := hu
            have := ok.edges i c hc e he
            exact ih e.1 this.1 _ (List.getElem?_eq_getElem (show e.1 < c.gates.length by omega))
          rw [hpar]
          have hin := ((ok.kinds i c j g hc hg).2.2 hi).1
          cases g with
          | base b =>
            cases b with
            | input => exact absurd rfl hin
            | subCircuitInput => exact absurd rfl hne
            | constant b => rfl
            | _ =>
              simp only [aloneGate]
              rcases ((alone c).parents j).map _ with _ | ⟨a, _⟩ <;> rfl
          | and => simp only [aloneGate]; rcases ((alone c).parents j).map _ with _ | ⟨a, _ | ⟨b, _ | _⟩⟩ <;> rfl
          | xor => simp only [aloneGate]; rcases ((alone c).parents j).map _ with _ | ⟨a, _ | ⟨b, _ | _⟩⟩ <;> rfl
          | inv => simp only [aloneGate]; rcases ((alone c).parents j).map _ with _ | ⟨a, _ | _⟩ <;> rfl
    have hpos : positions (fun g => g = .base .output) (alone c).gates = scOutputs c := by
      unfold positions scOutputs positions
      simp only [alone, List.length_map]
      apply List.filter_congr
      intro j hj
      simp only [List.mem_range] at hj
      have hx : c.gates[j]? = some c.gates[j] := List.getElem?_eq_getElem hj
      have hk := ((ok.kinds i c j _ hc hx).2.2 hi).2
      simp only [List.getElem?_map, hx, Option.map_some, Option.any_some]
      generalize c.gates[j] = g at hk
      cases g with
      | base b => cases b <;> simp [aloneGate] at hk ⊢
      | _ => simp [aloneGate]
    unfold plainFn
    rw [hpos]
    apply List.map_congr_left
    intro j hj
    unfold scOutputs at hj
    rw [mem_positions] at hj
    obtain ⟨g, hg, -⟩ := hj
    exact key j g hg

/-! ### Theorems -/

/-- C51: a program of scalar circuits connected by `wires`.  The parties exchange one message per
layer with AND gates and end with shares of the outputs of the main circuit, where every callee
computes its function, as a stand-alone circuit, on the values at its own inputs. -/
theorem program_correct (circs : List (Base BoolGate)) (wires : List (Node × Node)) (rank : Node → Nat)
    (ok : ProgOk circs wires rank) (m : Multi BoolGate) (hm : Wired m circs wires)
    (c0 : Base BoolGate) (hc0 : circs[0]? = some c0)
    (a b inp : List Bool) (ha : a.length = inp.length) (hb : b.length = inp.length)
    (hab : xorL a b = inp) (hl : inp.length = c0.inputGates.length)
    (setup0 setup1 : Nat → Nat → List Triple)
    (hset : ∀ k n, Matching (setup0 k n) (setup1 k n) ∧ n ≤ (setup0 k n).length)
    (init0 init1 : Store Bool (List Bool)) :
    ∃ val o0 o1, ProgVal circs wires inp val ∧
      Runs (execute gmw m 0 (.scalar a) setup0 init0) (execute gmw m 1 (.scalar b) setup1 init1)
        (.scalar o0) (.scalar o1) ∧
      xorL o0 o1 = c0.outputGates.map fun g => val (0, g) := by
  have ns := not_simd ok hm 0
  have hc0' : m.circs[0]? = some c0 := by rw [hm.circs]; exact hc0
  obtain ⟨ls, o0, o1, ok', hx, hr, hsh⟩ := gmw_execute_correct_partial m rank (prog_wf ok hm)
    (prog_exec ok hm) (.inl fun v _ => not_simd ok hm v.1) c0 hc0' (.scalar a) (.scalar b) (.scalar inp)
    ⟨ns, hl⟩ ⟨ha, hb, hab⟩ setup0 setup1 hset init0 init1 _ _ (prog_plain ok hm c0 hc0 inp hl)
  simp only [plainOutput, ns, Bool.false_eq_true, if_false] at hsh
  match o0, o1, hsh with
  | .scalar o0, .scalar o1, hsh => exact ⟨_, o0, o1, prog_val ok hm c0 hc0 inp, hr, hsh.2.2⟩

/-- C51 through the builder: shared circuits at the addresses `ptrs`, calls `cs` made with
`connect_sub_circuit_gates`, none of whose source ranges lies inside another (C15).  For every call
that connects all inputs of its callee, the callee's outputs are its function of the values passed in
the call. -/
theorem calls_correct_partial (dflt : Base BoolGate) (heap : Nat → Base BoolGate) (ptrs : List Nat)
    (cs : List Conn) (rank : Node → Nat) (ok : ProgOk (ptrs.map heap) (cs.flatMap Conn.wires) rank)
    (hcs : ∀ c ∈ cs, c.Ok) (hsrc : (sourceRanges cs).Pairwise fun a b => ¬ Nested a b)
    (c0 : Base BoolGate) (hc0 : getCirc (intoCircuit dflt heap ptrs) 0 = some c0)
    (a b inp : List Bool) (ha : a.length = inp.length) (hb : b.length = inp.length)
    (hab : xorL a b = inp) (hl : inp.length = c0.inputGates.length)
    (setup0 setup1 : Nat → Nat → List Triple)
    (hset : ∀ k n, Matching (setup0 k n) (setup1 k n) ∧ n ≤ (setup0 k n).length)
    (init0 init1 : Store Bool (List Bool)) :
    ∃ x, CrossConns.connectAll cs {} = some x ∧ ∀ m : Multi BoolGate,
      (∀ i, m.circs[i]? = getCirc (intoCircuit dflt heap ptrs) i) → m.outgoing = x.outgoing →
      m.incoming = x.incoming →
      ∃ val o0 o1, ProgVal (ptrs.map heap) (cs.flatMap Conn.wires) inp val ∧
        Runs (execute gmw m 0 (.scalar a) setup0 init0) (execute gmw m 1 (.scalar b) setup1 init1)
          (.scalar o0) (.scalar o1) ∧
        (xorL o0 o1 = c0.outputGates.map fun g => val (0, g)) ∧
        ∀ call ∈ cs, call.circ ≠ 0 → ∀ c : Base BoolGate,
          getCirc (intoCircuit dflt heap ptrs) call.circ = some c → call.ids = scInputs c →
          call.inputs.length = call.ids.length →
          (scOutputs c).map (fun g => val (call.circ, g)) = plainFn (alone c) (call.inputs.map val) := by
  obtain ⟨x, hx, hout, hinc⟩ := connect_calls_partial cs hcs hsrc ok.once
  have htab := (into_circuit_keeps_table dflt heap ptrs).1
  refine ⟨x, hx, fun m hmc hmo hmi => ?_⟩
  have hm : Wired m (ptrs.map heap) (cs.flatMap Conn.wires) := by
    refine ⟨?_, ?_, ?_⟩
    · apply List.ext_getElem?
      intro i
      rw [hmc, htab, List.getElem?_map]
    · rw [hmo]; exact hout
    · rw [hmi]; exact hinc
  obtain ⟨val, o0, o1, hv, hr, he⟩ := program_correct _ _ rank ok m hm c0
    (by rw [List.getElem?_map, ← htab]; exact hc0) a b inp ha hb hab hl setup0 setup1 hset init0 init1
  refine ⟨val, o0, o1, hv, hr, he, ?_⟩
  intro call hcall hne c hc hids hlen
  refine hv.callee call.circ c call.inputs (by rw [List.getElem?_map, ← htab]; exact hc) hne
    (by rw [hlen, hids]) ?_
  intro k s j hs hj
  refine List.mem_flatMap.2 ⟨call, hcall, ?_⟩
  unfold Conn.wires
  rw [hids]
  refine List.mem_iff_getElem?.2 ⟨k, ?_⟩
  rw [List.getElem?_zip_eq_some]
  exact ⟨hs, by simp [hj]⟩

/-! ### A program with two calls of a shared circuit -/

/-- `p = nand(x, y); q = nand(p, x); output(p ^ q)`. -/
def nandMain : Base BoolGate :=
  { gates := [.base .input, .base .input, .base .subCircuitInput, .base .subCircuitInput, .xor,
      .base .output]
    edges := [(2, 4), (3, 4), (4, 5)]
    inputGates := [0, 1], outputGates := [5], scInputGates := [2, 3] }

/-- The called circuit, with a constant. -/
def nandSub : Base BoolGate :=
  { gates := [.base .subCircuitInput, .base .subCircuitInput, .base (.constant true), .and, .xor,
      .base .subCircuitOutput]
    edges := [(0, 3), (1, 3), (3, 4), (2, 4), (4, 5)]
    interactiveCount := 1, constantGates := [2], scInputGates := [0, 1], scOutputGates := [5] }

/-- Both calls and the two connections back to the main circuit. -/
def nandCalls : List Conn :=
  [⟨[(0, 0), (0, 1)], 1, [0, 1], fun _ => 1, false⟩, ⟨[(1, 5)], 0, [2], fun _ => 1, false⟩,
    ⟨[(1, 5), (0, 0)], 2, [0, 1], fun _ => 1, false⟩, ⟨[(2, 5)], 0, [3], fun _ => 1, false⟩]

def nandRank (v : Node) : Nat :=
  (([[0, 0, 5, 9, 10, 11], [1, 1, 1, 2, 3, 4], [5, 5, 6, 6, 7, 8]] : List (List Nat)).getD v.1 []).getD v.2 0

/-- The hypotheses of `calls_correct_partial` are met. -/
example : ProgOk ([0, 1, 1].map fun p => if p = 0 then nandMain else nandSub)
      (nandCalls.flatMap Conn.wires) nandRank ∧
    (∀ c ∈ nandCalls, c.Ok) ∧ (sourceRanges nandCalls).Pairwise (fun a b => ¬ Nested a b) ∧
    scInputs nandSub = [0, 1] ∧ scOutputs nandSub = [5] ∧
    (∀ x y, plainFn (alone nandSub) [x, y] = [!(x && y)]) := by
  have hm : ([0, 1, 1].map fun p => if p = 0 then nandMain else nandSub) =
    [nandMain, nandSub, nandSub] := rfl
  have hcs : ∀ {P : Nat → Base BoolGate → Prop}, P 0 nandMain → P 1 nandSub → P 2 nandSub →
      ∀ (i : Nat) (c : Base BoolGate), [nandMain, nandSub, nandSub][i]? = some c → P i c := by
    intro P h0 h1 h2 i c h
    match i, h with
    | 0, h => cases h; exact h0
    | 1, h => cases h; exact h1
    | 2, h => cases h; exact h2
  have hgs : ∀ {P : Nat → BoolGate → Prop} (c : Base BoolGate), c.gates.length = 6 →
      (∀ j (h : j < c.gates.length), P j c.gates[j]) → ∀ (j : Nat) (g : BoolGate), c.gates[j]? = some g → P j g := by
    intro P c _ h j g hg
    obtain ⟨h1, rfl⟩ := List.getElem?_eq_some_iff.1 hg
    exact h j h1
  refine ⟨?_, ?_, ?_, by decide, by decide, by decide⟩
  · rw [hm]
    constructor
    case nonempty => decide
    case scalar => exact hcs rfl rfl rfl
    case edges => exact hcs (by decide) (by decide) (by decide)
    case arity =>
      refine fun i c j g hc => ?_
      revert j g
      revert i c
      refine hcs ?_ ?_ ?_ <;> refine hgs _ rfl ?_ <;> decide
    case kinds =>
      refine fun i c j g hc => ?_
      revert j g
      revert i c
      refine hcs ?_ ?_ ?_ <;> refine hgs _ rfl ?_ <;> intro j h <;> change j < 6 at h <;>
        interval_cases j <;> simp [nandMain, nandSub]
    case book =>
      refine hcs ?_ ?_ ?_ <;>
        exact ⟨by decide, by decide, by decide, by decide, by decide⟩
    case src =>
      intro w hw
      simp [nandCalls, Conn.wires] at hw
      rcases hw with rfl | rfl | rfl | rfl | rfl | rfl
      all_goals exact ⟨_, rfl, by decide⟩
    case dst =>
      intro w hw
      simp [nandCalls, Conn.wires] at hw
      rcases hw with rfl | rfl | rfl | rfl | rfl | rfl
      all_goals exact ⟨_, rfl, rfl⟩
    case all =>
      refine fun i c j hc => ?_
      intro hg'
      obtain ⟨g, hgg, hg⟩ : ∃ g, g = .base .subCircuitInput ∧ c.gates[j]? = some g := ⟨_, rfl, hg'⟩
      clear hg'
      revert hgg
      revert j g
      revert i c
      refine hcs ?_ ?_ ?_ <;> refine hgs _ rfl ?_ <;> intro j h <;> change j < 6 at h <;>
        interval_cases j <;> simp [nandMain, nandSub, nandCalls, Conn.wires]
    case once => decide
    case rankIn => exact hcs (by decide) (by decide) (by decide)
    case rankWire => decide
    case constants =>
      intro i c j b hc hi hg'
      obtain ⟨g, hgg, hg⟩ : ∃ g, g = .base (.constant b) ∧ c.gates[j]? = some g := ⟨_, rfl, hg'⟩
      clear hg'
      revert hgg hi
      revert j g
      revert i c
      refine hcs ?_ ?_ ?_ <;> refine hgs _ rfl ?_ <;> intro j h <;> change j < 6 at h <;>
        interval_cases j <;> simp [nandMain, nandSub, nandCalls, Conn.wires, nandRank]
  · intro c hc
    simp only [nandCalls, List.mem_cons, List.not_mem_nil, or_false] at hc
    rcases hc with rfl | rfl | rfl | rfl <;>
      exact ⟨fun _ _ => rfl, by simp, fun _ => by simp [Conn.runs, runs, GRange.first]⟩
  · simp [nandCalls, sourceRanges, Conn.ranged, consecutive, Conn.runs, runs, Nested]

end Verif.Exec
