import Verif.Exec.Props
import Verif.Circuit.BuildProps

/-!
C08 for a single circuit built through the API, with an executable plaintext semantics.
-/
set_option autoImplicit false

namespace Verif.Exec

open Circuit Proc Gmw

/-! ### Specification -/

/-- Number of operands of a gate. -/
def arity : BoolGate → Nat
  | .base .input | .base (.constant _) => 0
  | .and | .xor => 2
  | _ => 1

/-- Gates of a circuit without sub-circuits. -/
def plainGate : BoolGate → Bool
  | .base .subCircuitInput | .base .connectToMain | .base (.connectToMainFromSimd _) => false
  | _ => true

/-- The circuit was built by adding gates after their operands, each with as many operands as it
needs, and contains no connections to other circuits. -/
structure BaseOk (c : Base BoolGate) : Prop where
  edges : ∀ e ∈ c.edges, e.1 < e.2 ∧ e.2 < c.gates.length
  arity : ∀ (i : Nat) (g : BoolGate), c.gates[i]? = some g → (c.parents i).length = Exec.arity g
  kinds : ∀ (i : Nat) (g : BoolGate), c.gates[i]? = some g → plainGate g = true
  book : BookOk c

/-- The function computed by a gate; `x` is the value of the input if it is an input gate. -/
def gateFn (x : Bool) : BoolGate → List Bool → Bool
  | .base .input, _ => x
  | .base (.constant b), _ => b
  | .and, [a, b] => a && b
  | .xor, [a, b] => a ^^ b
  | .inv, [a] => !a
  | _, a :: _ => a
  | _, [] => false

/-- The number of input gates among the first `i` gates. -/
def inputIdx (c : Base BoolGate) (i : Nat) : Nat :=
  (c.gates.take i).countP fun g => g = .base .input

/-- The plaintext values of the first `n` gates: gate by gate, input gates taking the next input. -/
def plainVals (c : Base BoolGate) (inp : List Bool) : Nat → List Bool
  | 0 => []
  | n + 1 =>
    let vals := plainVals c inp n
    vals ++ [match c.gates[n]? with
      | some g => gateFn (inp.getD (inputIdx c n) false) g
          ((c.parents n).map fun u => vals.getD u false)
      | none => false]

/-- The plaintext value of gate `i`. -/
def plainVal (c : Base BoolGate) (inp : List Bool) (i : Nat) : Bool :=
  (plainVals c inp c.gates.length).getD i false

/-- The plaintext function of the circuit: the values of the output gates in the order of their
creation. -/
def plainFn (c : Base BoolGate) (inp : List Bool) : List Bool :=
  (positions (fun g => g = .base .output) c.gates).map (plainVal c inp)

/-- Lane `j` of the inputs of a simd circuit. -/
def lane (j : Nat) (inp : List (List Bool)) : List Bool := inp.map fun l => l.getD j false

/-! ### Proof -/

theorem getD_lt {α : Type} (l : List α) (d : α) {i : Nat} (h : i < l.length) : l.getD i d = l[i] := by
  simp [List.getD_eq_getElem?_getD, h]

theorem plainVals_length (c : Base BoolGate) (inp : List Bool) (n : Nat) :
    (plainVals c inp n).length = n := by
  induction n with
  | zero => rfl
  | succ n ih => simp [plainVals, ih]

theorem plainVals_prefix (c : Base BoolGate) (inp : List Bool) (n k i : Nat) (hi : i < n) :
    (plainVals c inp (n + k)).getD i false = (plainVals c inp n).getD i false := by
  induction k with
  | zero => rfl
  | succ k ih =>
    rw [← ih]
    have hl := plainVals_length c inp (n + k)
    have e : plainVals c inp (n + (k + 1)) = plainVals c inp (n + k) ++ [match c.gates[n + k]? with
      | some g => gateFn (inp.getD (inputIdx c (n + k)) false) g
          ((c.parents (n + k)).map fun u => (plainVals c inp (n + k)).getD u false)
      | none => false] := rfl
    rw [e, List.getD_eq_getElem?_getD, List.getElem?_append_left (by omega),
      List.getD_eq_getElem?_getD]

theorem plainVal_eq_of_edges {c : Base BoolGate} (h : ∀ e ∈ c.edges, e.1 < e.2) (inp : List Bool)
    {i : Nat} {g : BoolGate} (hg : c.gates[i]? = some g) :
    plainVal c inp i = gateFn (inp.getD (inputIdx c i) false) g
      ((c.parents i).map (plainVal c inp)) := by
  have hi : i < c.gates.length := (List.getElem?_eq_some_iff.1 hg).1
  have hpar : ∀ u ∈ c.parents i, u < i := by
    intro u hu
    simp only [Base.parents, List.mem_map, List.mem_filter, List.mem_reverse, decide_eq_true_eq] at hu
    obtain ⟨e, ⟨he, rfl⟩, rfl⟩ := hu
    exact h e he
  have e1 : plainVal c inp i = (plainVals c inp (i + 1)).getD i false := by
    unfold plainVal
    rw [show c.gates.length = (i + 1) + (c.gates.length - (i + 1)) by omega]
    exact plainVals_prefix c inp (i + 1) _ i (by omega)
  have hl := plainVals_length c inp i
  rw [e1]
  simp only [plainVals, hg]
  rw [List.getD_eq_getElem?_getD, List.getElem?_append_right (by omega), hl, Nat.sub_self]
  simp only [List.getElem?_cons_zero, Option.getD_some]
  congr 1
  apply List.map_congr_left
  intro u hu
  have := hpar u hu
  unfold plainVal
  rw [show c.gates.length = i + (c.gates.length - i) by omega]
  exact (plainVals_prefix c inp i _ u this).symm

theorem plainVal_eq {c : Base BoolGate} (h : BaseOk c) (inp : List Bool) {i : Nat} {g : BoolGate}
    (hg : c.gates[i]? = some g) :
    plainVal c inp i = gateFn (inp.getD (inputIdx c i) false) g
      ((c.parents i).map (plainVal c inp)) :=
  plainVal_eq_of_edges (fun e he => (h.edges e he).1) inp hg

theorem positions_findIdx (p : BoolGate → Bool) (gates : List BoolGate) (i : Nat) (g : BoolGate)
    (hg : gates[i]? = some g) (hp : p g = true) :
    (positions p gates).findIdx? (· = i) = some ((gates.take i).countP p) := by
  induction gates using List.reverseRecOn with
  | nil => simp at hg
  | append_singleton gs x ih =>
    rw [positions_append, List.findIdx?_append]
    by_cases hi : i < gs.length
    · rw [List.getElem?_append_left hi] at hg
      rw [ih hg, List.take_append_of_le_length (by omega)]
      rfl
    · have hi' : i = gs.length := by
        have := (List.getElem?_eq_some_iff.1 hg).1
        simp at this; omega
      subst hi'
      rw [List.getElem?_append_right (Nat.le_refl _)] at hg
      simp only [Nat.sub_self, List.getElem?_cons_zero, Option.some.injEq] at hg
      subst hg
      have hnone : (positions p gs).findIdx? (· = gs.length) = none := by
        rw [List.findIdx?_eq_none_iff]
        intro j hj
        simp only [positions, List.mem_filter, List.mem_range] at hj
        simp; omega
      have hlen : (positions p gs).length = gs.countP p := by
        clear hnone ih hp hi
        induction gs using List.reverseRecOn with
        | nil => rfl
        | append_singleton gs y ih =>
          rw [positions_append, List.length_append, ih, List.countP_append, List.countP_singleton]
          split <;> simp
      rw [hnone]
      simp [hp, hlen]

theorem input_pos (c : Base BoolGate) (h : BookOk c) : c.inputGates =
    positions (fun g => g = .base .input) c.gates := by
  rw [h.inputs]
  congr 1
  funext g
  cases g with
  | base b => cases b <;> rfl
  | _ => rfl

theorem output_pos (c : Base BoolGate) (h : BookOk c) : c.outputGates =
    positions (fun g => g = .base .output) c.gates := by
  rw [h.outputs]
  congr 1
  funext g
  cases g with
  | base b => cases b <;> rfl
  | _ => rfl

theorem const_pos (c : Base BoolGate) (h : BookOk c) : c.constantGates =
    positions (fun g => match g with | .base (.constant _) => true | _ => false) c.gates := by
  rw [h.constants]
  congr 1
  funext g
  cases g with
  | base b => cases b <;> rfl
  | _ => rfl

theorem mem_positions (p : BoolGate → Bool) (gates : List BoolGate) (i : Nat) :
    i ∈ positions p gates ↔ ∃ g, gates[i]? = some g ∧ p g = true := by
  simp only [positions, List.mem_filter, List.mem_range, Option.any_eq_true_iff_get]
  constructor
  · rintro ⟨h, h1, h2⟩
    exact ⟨_, List.getElem?_eq_getElem h, by simpa using h2⟩
  · rintro ⟨g, h1, h2⟩
    have := List.getElem?_eq_some_iff.1 h1
    exact ⟨this.1, by simp [this.1], by simpa [h1] using h2⟩

theorem ofBase_gate (c : Base BoolGate) (v : Node) (g : BoolGate)
    (h : (Multi.ofBase c).gate? v = some g) : v.1 = 0 ∧ c.gates[v.2]? = some g := by
  obtain ⟨i, j⟩ := v
  cases i with
  | zero => exact ⟨rfl, by simpa [Multi.gate?, Multi.ofBase] using h⟩
  | succ i => simp [Multi.gate?, Multi.ofBase] at h

theorem ofBase_parents (c : Base BoolGate) (i : Nat) :
    (Multi.ofBase c).parents (0, i) = (c.parents i).map fun u => (0, u) := by
  simp [Multi.parents, Multi.ofBase]

theorem ofBase_circ {c c' : Base BoolGate} {i : Nat} (h : (Multi.ofBase c).circs[i]? = some c') :
    i = 0 ∧ c' = c := by
  cases i with
  | zero => simp [Multi.ofBase] at h; exact ⟨rfl, h.symm⟩
  | succ i => simp [Multi.ofBase] at h

theorem baseOk_wf (c : Base BoolGate) (h : BaseOk c) : WF (Multi.ofBase c) (·.2) := by
  have hpos : ∀ p, (positions p c.gates).Nodup := fun p => List.nodup_range.filter _
  have hsrc : ∀ g ∈ initial 0 c, c.parents g = [] := by
    intro g hg
    simp only [initial, if_true, List.mem_append, input_pos c h.book, const_pos c h.book,
      mem_positions] at hg
    rcases hg with ⟨x, h1, h2⟩ | ⟨x, h1, h2⟩
    · have := h.arity g x h1
      cases x with
      | base b => cases b <;> simp at h2; simpa [arity] using this
      | _ => simp at h2
    · have := h.arity g x h1
      simp only [decide_eq_true_eq] at h2
      subst h2
      simpa [arity] using this
  refine ⟨?_, ?_, ?_, ?_, ?_, ?_, ?_, ?_, ?_, ?_, ?_, ?_, ?_, ?_⟩
  · simp [Multi.ofBase]
  · intro i c' hc e he
    obtain ⟨rfl, rfl⟩ := ofBase_circ hc
    have := h.edges e he
    omega
  · intro i c' hc e he
    obtain ⟨rfl, rfl⟩ := ofBase_circ hc
    exact (h.edges e he).1
  · intro u v hu; simp [Multi.ofBase] at hu
  · intro u v; simp [Multi.ofBase]
  · intro u v hu; simp [Multi.ofBase] at hu
  · intro u v hu; simp [Multi.ofBase] at hu
  · intro v; simp [Multi.ofBase]
  · intro v c' hv; simp [Multi.ofBase] at hv
  · intro i c' hc
    obtain ⟨rfl, rfl⟩ := ofBase_circ hc
    simp only [initial, if_true, input_pos c' h.book, const_pos c' h.book]
    refine List.Nodup.append (hpos _) (hpos _) ?_
    intro g h1 h2
    rw [mem_positions] at h1 h2
    obtain ⟨x, e1, e2⟩ := h1
    obtain ⟨y, e3, e4⟩ := h2
    rw [e1] at e3
    cases e3
    simp only [decide_eq_true_eq] at e4
    subst e4
    simp at e2
  · intro i c' hc g hg
    obtain ⟨rfl, rfl⟩ := ofBase_circ hc
    simp only [initial, if_true, List.mem_append, input_pos c' h.book, const_pos c' h.book,
      mem_positions] at hg
    rcases hg with ⟨x, h1, -⟩ | ⟨x, h1, -⟩ <;> exact (List.getElem?_eq_some_iff.1 h1).1
  · intro i c' hc g hg
    obtain ⟨rfl, rfl⟩ := ofBase_circ hc
    exact ⟨hsrc g hg, rfl⟩
  · intro i c' hc g hg hp
    obtain ⟨rfl, rfl⟩ := ofBase_circ hc
    left
    have hx : c'.gates[g]? = some c'.gates[g] := List.getElem?_eq_getElem hg
    have ha := h.arity g _ hx
    have hk := h.kinds g _ hx
    rw [hp] at ha
    simp only [initial, if_true, List.mem_append, input_pos c' h.book, const_pos c' h.book,
      mem_positions]
    cases hgt : c'.gates[g] with
    | base b =>
      rw [hgt] at ha hk hx
      cases b <;> first | simp [arity] at ha | simp [plainGate] at hk | skip
      · right; exact ⟨_, hx, by simp⟩
      · left; exact ⟨_, hx, by simp⟩
    | _ => rw [hgt] at ha; simp [arity] at ha
  · intro i c' hc hi
    obtain ⟨rfl, -⟩ := ofBase_circ hc
    exact absurd rfl hi

/-- **C10** for single circuits: every circuit whose gates were added after their operands. -/
theorem base_layers_ok (c : Base BoolGate) (h : BaseOk c) : ∃ it ls,
    MIter.new (Multi.ofBase c) = some it ∧
    MIter.collect (Multi.ofBase c) (c.gates.length + 1) it = some ls ∧
    LayersOk (Multi.ofBase c) ls := by
  simpa [Multi.ofBase] using layers_ok_partial (Multi.ofBase c) _ (baseOk_wf c h)

theorem baseOk_exec (c : Base BoolGate) (h : BaseOk c) (hs : c.simdSize ≠ some 0)
    (hout : c.simdSize.isSome → ∀ i, c.gates[i]? = some (.base .output) → ∀ e ∈ c.edges, e.1 ≠ i) :
    ExecWF (Multi.ofBase c) := by
  have gk : ∀ v g, (Multi.ofBase c).gate? v = some g → plainGate g = true := fun v g hg =>
    h.kinds _ g (ofBase_gate c v g hg).2
  have p0 : ∀ v g, (Multi.ofBase c).gate? v = some g → ∀ u ∈ (Multi.ofBase c).parents v, u.1 = v.1 := by
    intro v g hg u hu
    obtain ⟨i, j⟩ := v
    obtain ⟨h1, -⟩ := ofBase_gate c _ g hg
    simp only at h1
    subst h1
    rw [ofBase_parents, List.mem_map] at hu
    obtain ⟨x, -, rfl⟩ := hu
    rfl
  constructor
  · intro v g hg hb
    obtain ⟨h1, h2⟩ := ofBase_gate c v g hg
    refine ⟨h1, c, by simp [Multi.ofBase], ?_⟩
    rw [input_pos c h.book, mem_positions]
    refine ⟨g, h2, ?_⟩
    cases g with
    | base b => cases b <;> simp [GateLike.asBase] at hb ⊢
    | _ => simp [GateLike.asBase] at hb
  · intro i c' hc
    obtain ⟨rfl, rfl⟩ := ofBase_circ hc
    exact hs
  · intro v g hg hb
    have := gk v g hg
    cases g with
    | base b => cases b <;> simp [GateLike.asBase] at hb; simp [plainGate] at this
    | _ => simp [GateLike.asBase] at hb
  · intro v g k hg hb
    have := gk v g hg
    cases g with
    | base b => cases b <;> simp [GateLike.asBase] at hb; simp [plainGate] at this
    | _ => simp [GateLike.asBase] at hb
  · intro v g hg _ _ u hu
    rw [p0 v g hg u hu]
  · intro v u g hg _ hu
    rw [p0 v g hg u hu]
  · intro v g _ hi
    rw [gate_and_of_interactive hi]
    simp [GateLike.asBase]
  · intro c' hc g hg
    obtain ⟨-, rfl⟩ := ofBase_circ hc
    rw [output_pos c' h.book, mem_positions] at hg
    obtain ⟨x, hx, -⟩ := hg
    exact ⟨c', by simp [Multi.ofBase], (List.getElem?_eq_some_iff.1 hx).1⟩
  · intro u v _ _ hv; simp [Multi.ofBase] at hv
  · intro c' hc hsi g hg
    obtain ⟨-, rfl⟩ := ofBase_circ hc
    rw [output_pos c' h.book, mem_positions] at hg
    obtain ⟨x, hx, hx'⟩ := hg
    simp only [decide_eq_true_eq] at hx'
    subst hx'
    have hs' : c'.simdSize.isSome := by simpa [isSimd, Multi.ofBase] using hsi
    have := hout hs' g hx
    simp only [inChildren, hc, List.map_eq_nil_iff, Base.children, List.filter_eq_nil_iff,
      List.mem_reverse]
    intro e he
    simpa using this e he

/-- The value of every gate on scalar inputs. -/
def baseVal (c : Base BoolGate) (inp : List Bool) (v : Node) : Bool := plainVal c inp v.2

/-- The value of every gate on simd inputs, lane by lane. -/
def baseValV (c : Base BoolGate) (inp : List (List Bool)) (n : Nat) (v : Node) : List Bool :=
  (List.range n).map fun j => plainVal c (lane j inp) v.2

theorem two_of_length {α : Type} {l : List α} (h : l.length = 2) : ∃ a b, l = [a, b] := by
  match l, h with
  | [a, b], _ => exact ⟨a, b, rfl⟩

theorem one_of_length {α : Type} {l : List α} (h : l.length = 1) : ∃ a, l = [a] := by
  match l, h with
  | [a], _ => exact ⟨a, rfl⟩

theorem input_lt {c : Base BoolGate} (h : BookOk c) {i : Nat}
    (hg : c.gates[i]? = some (.base .input)) : inputIdx c i < c.inputGates.length ∧
      c.inputGates.findIdx? (· = i) = some (inputIdx c i) := by
  have hf := positions_findIdx (fun g => g = .base .input) c.gates i _ hg (by simp)
  rw [← input_pos c h] at hf
  refine ⟨?_, hf⟩
  have := List.findIdx?_eq_some_iff_getElem.1 hf
  exact this.1

theorem base_plain_scalar (c : Base BoolGate) (h : BaseOk c) (hs : c.simdSize = none)
    (inp : List Bool) (hl : inp.length = c.inputGates.length) :
    PlainEval (Multi.ofBase c) (.scalar inp) (baseVal c inp) (fun _ => []) := by
  have hns : isSimd (Multi.ofBase c) 0 = false := by simp [isSimd, Multi.ofBase, hs]
  refine ⟨?_, ?_, ?_⟩
  · intro v g hg _
    obtain ⟨i, j⟩ := v
    obtain ⟨h1, h2⟩ := ofBase_gate c _ g hg
    simp only at h1 h2
    subst h1
    have ev := plainVal_eq h inp h2
    have ar := h.arity j g h2
    have kd := h.kinds j g h2
    cases g with
    | and =>
      obtain ⟨p, q, e⟩ := two_of_length ar
      refine ⟨(0, p), (0, q), by simp [ofBase_parents, e], ?_⟩
      rw [e] at ev; exact ev
    | xor =>
      obtain ⟨p, q, e⟩ := two_of_length ar
      refine ⟨(0, p), (0, q), by simp [ofBase_parents, e], ?_⟩
      rw [e] at ev; exact ev
    | inv =>
      obtain ⟨p, e⟩ := one_of_length ar
      refine ⟨(0, p), by simp [ofBase_parents, e], ?_⟩
      rw [e] at ev; exact ev
    | base b =>
      cases b with
      | input =>
        obtain ⟨i1, i2⟩ := input_lt h.book h2
        refine ⟨c, inputIdx c j, by simp [Multi.ofBase], i2, ?_⟩
        simp only [Input.scalars]
        rw [List.getElem?_eq_getElem (by omega)]
        simp only [gateFn] at ev
        rw [baseVal, ev, getD_lt _ _ (by omega)]
      | constant b => exact ev
      | subCircuitInput => simp [plainGate] at kd
      | connectToMain => simp [plainGate] at kd
      | connectToMainFromSimd k => simp [plainGate] at kd
      | _ =>
        obtain ⟨p, e⟩ := one_of_length ar
        refine ⟨(0, p), by simp [ofBase_parents, e], ?_⟩
        rw [e] at ev; exact ev
  · intro v g hg hv
    obtain ⟨h1, -⟩ := ofBase_gate c _ g hg
    rw [h1, hns] at hv; cases hv
  · intro v hv hs'
    obtain ⟨c', hc', -⟩ := hv
    rw [(ofBase_circ hc').1, hns] at hs'; cases hs'

theorem base_plain_simd (c : Base BoolGate) (h : BaseOk c) (n : Nat) (hs : c.simdSize = some n)
    (inp : List (List Bool)) (hl : inp.length = c.inputGates.length) (hn : ∀ l ∈ inp, l.length = n) :
    PlainEval (Multi.ofBase c) (.simd inp) (fun _ => false) (baseValV c inp n) := by
  have hns : isSimd (Multi.ofBase c) 0 = true := by simp [isSimd, Multi.ofBase, hs]
  have hla : lanes (Multi.ofBase c) 0 = n := by simp [lanes, Multi.ofBase, hs]
  refine ⟨?_, ?_, ?_⟩
  · intro v g hg hv
    obtain ⟨h1, -⟩ := ofBase_gate c _ g hg
    rw [h1, hns] at hv; cases hv
  · intro v g hg _
    obtain ⟨i, j⟩ := v
    obtain ⟨h1, h2⟩ := ofBase_gate c _ g hg
    simp only at h1 h2
    subst h1
    rw [hla]
    have ev := fun k => plainVal_eq h (lane k inp) h2
    have ar := h.arity j g h2
    have kd := h.kinds j g h2
    cases g with
    | and =>
      obtain ⟨p, q, e⟩ := two_of_length ar
      refine ⟨(0, p), (0, q), by simp [ofBase_parents, e], ?_⟩
      simp only [baseValV, ev, e, gateFn, List.map_cons, List.map_nil, andL]
      simp [List.zipWith_map, List.zipWith_self]
    | xor =>
      obtain ⟨p, q, e⟩ := two_of_length ar
      refine ⟨(0, p), (0, q), by simp [ofBase_parents, e], ?_⟩
      simp only [baseValV, ev, e, gateFn, List.map_cons, List.map_nil, xorL]
      simp [List.zipWith_map, List.zipWith_self]
    | inv =>
      obtain ⟨p, e⟩ := one_of_length ar
      refine ⟨(0, p), by simp [ofBase_parents, e], ?_⟩
      simp [baseValV, ev, e, gateFn, Function.comp_def]
    | base b =>
      cases b with
      | input =>
        obtain ⟨i1, i2⟩ := input_lt h.book h2
        refine ⟨c, inputIdx c j, by simp [Multi.ofBase], i2, ?_⟩
        have hlt : inputIdx c j < inp.length := by omega
        simp only [Input.vectors]
        rw [List.getElem?_eq_getElem hlt]
        have hln := hn _ (List.getElem_mem hlt)
        simp only [baseValV, ev, gateFn]
        congr 1
        apply List.ext_getElem
        · simp [hln]
        · intro k k1 k2
          simp only [List.getElem_map, List.getElem_range, lane]
          rw [getD_lt _ _ (by simpa using hlt), List.getElem_map,
            getD_lt _ _ k1]
      | constant b => simp [SimdEq, baseValV, ev, gateFn, List.map_const']
      | subCircuitInput => simp [plainGate] at kd
      | connectToMain => simp [plainGate] at kd
      | connectToMainFromSimd k => simp [plainGate] at kd
      | _ =>
        obtain ⟨p, e⟩ := one_of_length ar
        refine ⟨(0, p), by simp [ofBase_parents, e], ?_⟩
        simp [baseValV, ev, e, gateFn]
  · intro v hv _
    obtain ⟨c', hc', -⟩ := hv
    rw [(ofBase_circ hc').1, hla]; simp [baseValV]

theorem base_unmixed (c : Base BoolGate) : Unmixed (Multi.ofBase c) := by
  cases hs : isSimd (Multi.ofBase c) 0 with
  | false =>
    left
    intro v hv
    rw [(ofBase_gate c v _ hv).1, hs]
  | true =>
    right
    intro v hv
    rw [(ofBase_gate c v _ hv).1, hs]

/-- **C08**, scalar circuits: two executors on shares of the input return shares of the plaintext
function of the circuit, under every schedule. -/
theorem gmw_scalar_circuit_correct (c : Base BoolGate) (h : BaseOk c) (hs : c.simdSize = none)
    (a b inp : List Bool) (ha : a.length = inp.length) (hb : b.length = inp.length)
    (hab : xorL a b = inp) (hl : inp.length = c.inputGates.length)
    (setup0 setup1 : Nat → Nat → List Triple)
    (hset : ∀ k n, Matching (setup0 k n) (setup1 k n) ∧ n ≤ (setup0 k n).length)
    (init0 init1 : Store Bool (List Bool)) :
    ∃ ls o0 o1, LayersOk (Multi.ofBase c) ls ∧
      Exchange (fun l a b => MsgSize (Multi.ofBase c) l a ∧ MsgSize (Multi.ofBase c) l b)
        (.scalar o0) (.scalar o1) (interactiveLayers (Multi.ofBase c) ls)
        (execute gmw (.ofBase c) 0 (.scalar a) setup0 init0)
        (execute gmw (.ofBase c) 1 (.scalar b) setup1 init1) ∧
      Runs (execute gmw (.ofBase c) 0 (.scalar a) setup0 init0)
        (execute gmw (.ofBase c) 1 (.scalar b) setup1 init1) (.scalar o0) (.scalar o1) ∧
      xorL o0 o1 = plainFn c inp := by
  have hns : isSimd (Multi.ofBase c) 0 = false := by simp [isSimd, Multi.ofBase, hs]
  obtain ⟨ls, o0, o1, ok, hx, hr, hsh⟩ := gmw_execute_correct_partial (Multi.ofBase c) _ (baseOk_wf c h)
    (baseOk_exec c h (by simp [hs]) (by simp [hs])) (base_unmixed c) c (by simp [Multi.ofBase])
    (.scalar a) (.scalar b) (.scalar inp) ⟨hns, hl⟩ ⟨ha, hb, hab⟩ setup0 setup1 hset init0 init1 _ _
    (base_plain_scalar c h hs inp hl)
  simp only [plainOutput, hns, Bool.false_eq_true, if_false] at hsh
  match o0, o1, hsh with
  | .scalar o0, .scalar o1, hsh =>
    refine ⟨ls, o0, o1, ok, hx, hr, ?_⟩
    rw [hsh.2.2, plainFn, output_pos c h.book]
    rfl

/-- **C08**, simd circuits: each lane is evaluated like the scalar circuit.  Output gates must not
be used as operands (see `output_operand_is_freed`). -/
theorem gmw_simd_circuit_correct (c : Base BoolGate) (h : BaseOk c) (n : Nat) (hn : n ≠ 0)
    (hs : c.simdSize = some n)
    (hout : ∀ i, c.gates[i]? = some (.base .output) → ∀ e ∈ c.edges, e.1 ≠ i)
    (a b inp : List (List Bool)) (ha : a.map List.length = inp.map List.length)
    (hb : b.map List.length = inp.map List.length)
    (hab : List.zipWith xorL a b = inp) (hl : inp.length = c.inputGates.length)
    (hln : ∀ l ∈ inp, l.length = n)
    (setup0 setup1 : Nat → Nat → List Triple)
    (hset : ∀ k n, Matching (setup0 k n) (setup1 k n) ∧ n ≤ (setup0 k n).length)
    (init0 init1 : Store Bool (List Bool)) :
    ∃ o0 o1,
      Runs (execute gmw (.ofBase c) 0 (.simd a) setup0 init0)
        (execute gmw (.ofBase c) 1 (.simd b) setup1 init1) (.simd o0) (.simd o1) ∧
      (∀ l ∈ List.zipWith xorL o0 o1, l.length = n) ∧
      ∀ j < n, lane j (List.zipWith xorL o0 o1) = plainFn c (lane j inp) := by
  have hns : isSimd (Multi.ofBase c) 0 = true := by simp [isSimd, Multi.ofBase, hs]
  obtain ⟨ls, o0, o1, -, -, hr, hsh⟩ := gmw_execute_correct_partial (Multi.ofBase c) _ (baseOk_wf c h)
    (baseOk_exec c h (by simp [hs, hn]) (fun _ => hout)) (base_unmixed c) c (by simp [Multi.ofBase])
    (.simd a) (.simd b) (.simd inp) ⟨hns, hl⟩ ⟨ha, hb, hab⟩ setup0 setup1 hset init0 init1 _ _
    (base_plain_simd c h n hs inp hl hln)
  simp only [plainOutput, hns, if_true] at hsh
  match o0, o1, hsh with
  | .simd o0, .simd o1, hsh =>
    refine ⟨o0, o1, hr, ?_⟩
    rw [hsh.2.2]
    constructor
    · intro l hl
      simp only [List.mem_map] at hl
      obtain ⟨g, -, rfl⟩ := hl
      simp [baseValV]
    · intro j hj
      rw [plainFn, ← output_pos c h.book, lane, List.map_map]
      apply List.map_congr_left
      intro g _
      simp only [Function.comp_apply, baseValV]
      rw [getD_lt _ _ (by simpa using hj)]
      simp

end Verif.Exec
