import Verif.Exec.Joint
import Verif.Circuit.BuildProps
import Verif.Circuit.InlineProps

/-!
Single circuits of any protocol satisfy the hypotheses of the execution theorems.
-/
set_option autoImplicit false

namespace Verif.Exec

open Circuit Proc GateLike
open Gmw (BaseGate)

variable {G : Type} [GateLike G]

/-- The gates without operands of a single circuit: inputs and constants. -/
def isSource (g : G) : Bool :=
  match asBase g with
  | some .input | some (.constant _) => true
  | _ => false

/-- The gates which take their value from another circuit. -/
def isCross (g : G) : Bool :=
  match asBase g with
  | some .subCircuitInput | some .connectToMain | some (.connectToMainFromSimd _) => true
  | _ => false

/-- A circuit without connections to other circuits: `rank` orders the gates, and exactly the inputs and the
constants have no operands. -/
structure SingleOk (c : Base G) (rank : Nat → Nat) : Prop where
  edges : EdgesIn c
  rank : ∀ e ∈ c.edges, rank e.1 < rank e.2
  sources : ∀ (i : Nat) (g : G), c.gates[i]? = some g → (c.parents i = [] ↔ isSource g = true)
  kinds : ∀ (i : Nat) (g : G), c.gates[i]? = some g → isCross g = false
  book : BookOk c

theorem mem_positions' (p : G → Bool) (gates : List G) (i : Nat) :
    i ∈ positions p gates ↔ ∃ g, gates[i]? = some g ∧ p g = true := by
  simp only [positions, List.mem_filter, List.mem_range, Option.any_eq_true_iff_get]
  constructor
  · rintro ⟨h, h1, h2⟩
    exact ⟨_, List.getElem?_eq_getElem h, by simpa using h2⟩
  · rintro ⟨g, h1, h2⟩
    have := List.getElem?_eq_some_iff.1 h1
    exact ⟨this.1, by simp [this.1], by simpa [h1] using h2⟩

theorem single_gate (c : Base G) (v : Node) (g : G) (h : (Multi.ofBase c).gate? v = some g) :
    v.1 = 0 ∧ c.gates[v.2]? = some g := by
  obtain ⟨i, j⟩ := v
  cases i with
  | zero => exact ⟨rfl, by simpa [Multi.gate?, Multi.ofBase] using h⟩
  | succ i => simp [Multi.gate?, Multi.ofBase] at h

theorem single_gate' (c : Base G) (i : Nat) : (Multi.ofBase c).gate? (0, i) = c.gates[i]? := by
  simp [Multi.gate?, Multi.ofBase]

theorem single_parents (c : Base G) (i : Nat) :
    (Multi.ofBase c).parents (0, i) = (c.parents i).map fun u => (0, u) := by
  simp [Multi.parents, Multi.ofBase]

theorem single_circ {c c' : Base G} {i : Nat} (h : (Multi.ofBase c).circs[i]? = some c') :
    i = 0 ∧ c' = c := by
  cases i with
  | zero => simp [Multi.ofBase] at h; exact ⟨rfl, h.symm⟩
  | succ i => simp [Multi.ofBase] at h

theorem mem_initial {c : Base G} (hb : BookOk c) (g : Nat) :
    g ∈ initial 0 c ↔ ∃ x, c.gates[g]? = some x ∧ isSource x = true := by
  simp only [initial, if_true, List.mem_append, hb.inputs, hb.constants, mem_positions', ofKind, isSource]
  constructor
  · rintro (⟨x, h1, h2⟩ | ⟨x, h1, h2⟩) <;> refine ⟨x, h1, ?_⟩ <;>
      (cases hx : asBase x with
        | none => simp [hx] at h2
        | some b => cases b <;> simp [hx] at h2 ⊢)
  · rintro ⟨x, h1, h2⟩
    cases hx : asBase x with
    | none => simp [hx] at h2
    | some b => cases b <;> simp [hx] at h2 <;> simp [h1, hx]

theorem single_wf {c : Base G} {rank : Nat → Nat} (h : SingleOk c rank) :
    WF (Multi.ofBase c) (fun v => rank v.2) := by
  have hpos : ∀ p, (positions p c.gates).Nodup := fun p => List.nodup_range.filter _
  refine ⟨?_, ?_, ?_, ?_, ?_, ?_, ?_, ?_, ?_, ?_, ?_, ?_, ?_, ?_⟩
  · simp [Multi.ofBase]
  · intro i c' hc e he
    obtain ⟨rfl, rfl⟩ := single_circ hc
    exact h.edges e he
  · intro i c' hc e he
    obtain ⟨rfl, rfl⟩ := single_circ hc
    exact h.rank e he
  · intro u v hu; simp [Multi.ofBase] at hu
  · intro u v; simp [Multi.ofBase]
  · intro u v hu; simp [Multi.ofBase] at hu
  · intro u v hu; simp [Multi.ofBase] at hu
  · intro v; simp [Multi.ofBase]
  · intro v c' hv; simp [Multi.ofBase] at hv
  · intro i c' hc
    obtain ⟨rfl, rfl⟩ := single_circ hc
    simp only [initial, if_true, h.book.inputs, h.book.constants]
    refine List.Nodup.append (hpos _) (hpos _) ?_
    intro g h1 h2
    rw [mem_positions'] at h1 h2
    obtain ⟨x, e1, e2⟩ := h1
    obtain ⟨y, e3, e4⟩ := h2
    rw [e1] at e3
    cases e3
    cases hx : asBase x with
    | none => simp [ofKind, hx] at e2
    | some b => cases b <;> simp [ofKind, hx] at e2 e4
  · intro i c' hc g hg
    obtain ⟨rfl, rfl⟩ := single_circ hc
    obtain ⟨x, h1, -⟩ := (mem_initial h.book g).1 hg
    exact (List.getElem?_eq_some_iff.1 h1).1
  · intro i c' hc g hg
    obtain ⟨rfl, rfl⟩ := single_circ hc
    obtain ⟨x, h1, h2⟩ := (mem_initial h.book g).1 hg
    exact ⟨(h.sources g x h1).2 h2, rfl⟩
  · intro i c' hc g hg hp
    obtain ⟨rfl, rfl⟩ := single_circ hc
    left
    have hx : c'.gates[g]? = some c'.gates[g] := List.getElem?_eq_getElem hg
    exact (mem_initial h.book g).2 ⟨_, hx, (h.sources g _ hx).1 hp⟩
  · intro i c' hc hi
    obtain ⟨rfl, -⟩ := single_circ hc
    exact absurd rfl hi

theorem single_exec {c : Base G} {rank : Nat → Nat} (h : SingleOk c rank) (hs : c.simdSize = none)
    (hbase : ∀ g : G, asBase g ≠ none → interactive g = false) : ExecWF (Multi.ofBase c) := by
  have p0 : ∀ v g, (Multi.ofBase c).gate? v = some g → ∀ u ∈ (Multi.ofBase c).parents v, u.1 = v.1 := by
    intro v g hg u hu
    obtain ⟨i, j⟩ := v
    obtain ⟨h1, -⟩ := single_gate c _ g hg
    simp only at h1
    subst h1
    rw [single_parents, List.mem_map] at hu
    obtain ⟨x, -, rfl⟩ := hu
    rfl
  have hsi : isSimd (Multi.ofBase c) 0 = false := by simp [isSimd, Multi.ofBase, hs]
  have hk : ∀ v g, (Multi.ofBase c).gate? v = some g → isCross g = false := fun v g hg =>
    h.kinds _ g (single_gate c v g hg).2
  constructor
  · intro v g hg hb
    obtain ⟨h1, h2⟩ := single_gate c v g hg
    refine ⟨h1, c, by simp [Multi.ofBase], ?_⟩
    rw [h.book.inputs, mem_positions']
    exact ⟨g, h2, by simp [ofKind, hb]⟩
  · intro i c' hc
    obtain ⟨rfl, rfl⟩ := single_circ hc
    simp [hs]
  · intro v g hg hb
    have := hk v g hg
    simp [isCross, hb] at this
  · intro v g k hg hb
    have := hk v g hg
    simp [isCross, hb] at this
  · intro v g hg _ _ u hu
    rw [p0 v g hg u hu]
  · intro v u g hg _ hu
    rw [p0 v g hg u hu]
  · intro v g _ hi
    have : asBase g = none := by
      by_contra hn
      rw [hbase g hn] at hi
      cases hi
    simp [this]
  · intro c' hc g hg
    obtain ⟨-, rfl⟩ := single_circ hc
    rw [h.book.outputs, mem_positions'] at hg
    obtain ⟨x, hx, -⟩ := hg
    exact ⟨c', by simp [Multi.ofBase], (List.getElem?_eq_some_iff.1 hx).1⟩
  · intro u v _ _ hv; simp [Multi.ofBase] at hv
  · intro c' hc hsi' g hg
    rw [hsi] at hsi'
    cases hsi'

theorem single_scalar {c : Base G} (hs : c.simdSize = none) (i : Nat) : isSimd (Multi.ofBase c) i = false := by
  cases i with
  | zero => simp [isSimd, Multi.ofBase, hs]
  | succ i => simp [isSimd, Multi.ofBase]

/-! ### Construction -/

theorem edge_of_parent {c : Base G} {u v : Nat} (h : u ∈ c.parents v) : (u, v) ∈ c.edges := by
  simp only [Base.parents, List.mem_map, List.mem_filter, List.mem_reverse, decide_eq_true_eq] at h
  obtain ⟨⟨a, b⟩, ⟨he, rfl⟩, rfl⟩ := h
  exact he

theorem le_sum_mem {l : List Nat} {x : Nat} (h : x ∈ l) : x ≤ l.sum := by
  induction l with
  | nil => simp at h
  | cons y l ih =>
    rw [List.sum_cons]
    rcases List.mem_cons.1 h with rfl | h
    · omega
    · have := ih h; omega

/-- Adding a gate with operands to a circuit. -/
theorem single_addWired {c : Base G} {rank : Nat → Nat} (h : SingleOk c rank) (g : G) (args : List Nat)
    (ha : ∀ a ∈ args, a < c.gates.length) (hsrc : args = [] ↔ isSource g = true) (hk : isCross g = false) :
    ∃ c' rank', c.addWiredGate g args = some (c', c.gates.length) ∧ SingleOk c' rank' ∧
      c'.gates = c.gates ++ [g] ∧ c'.simdSize = c.simdSize ∧
      (∀ v < c.gates.length, c'.parents v = c.parents v) ∧ c'.parents c.gates.length = args := by
  obtain ⟨c', hc'⟩ := addWiredGate_some c g args ha
  have hrun : (Call.wired g args).run c = some c' := by simp [Call.run, hc']
  obtain ⟨-, -, e⟩ := addWiredGate_spec hc'
  obtain ⟨a1, a2, -, a4⟩ := addGate_gates c g
  have hgates : c'.gates = c.gates ++ [g] := by rw [e]; exact a1
  have hedges : c'.edges = c.edges ++ args.reverse.map fun s => (s, c.gates.length) := by rw [e]
  have hold : ∀ i < c.gates.length, c'.parents i = c.parents i := by
    intro i hi
    have := parents_append_other c (args.reverse.map fun s => (s, c.gates.length)) i (by
      intro x hx
      simp only [List.mem_map] at hx
      obtain ⟨y, -, rfl⟩ := hx
      simp only; omega)
    rw [← this]
    simp only [Base.parents, hedges]
  have hnew : c'.parents c.gates.length = args := by
    simp only [Base.parents, hedges, List.reverse_append, List.filter_append, List.map_append]
    have e2 : c.edges.reverse.filter (fun e => decide (e.2 = c.gates.length)) = [] := by
      rw [List.filter_eq_nil_iff]
      intro e hh
      have := h.edges e (by simpa using hh)
      simp; omega
    rw [e2, ← List.map_reverse, List.filter_eq_self.2 (by simp)]
    simp [Function.comp_def]
  let R := (c.gates.length :: (List.range c.gates.length).map rank).sum
  have hR : ∀ a < c.gates.length, rank a < R := by
    intro a hlt
    have hm : rank a ∈ (List.range c.gates.length).map rank := List.mem_map.2 ⟨a, List.mem_range.2 hlt, rfl⟩
    have := le_sum_mem hm
    simp only [R, List.sum_cons]
    omega
  refine ⟨c', fun i => if i < c.gates.length then rank i else R, hc', ⟨?_, ?_, ?_, ?_, bookOk_run hrun h.book⟩,
    hgates, by rw [e]; simp only; rw [a4], hold, hnew⟩
  · intro x hx
    rw [hedges, List.mem_append] at hx
    rw [hgates, List.length_append, List.length_singleton]
    rcases hx with hx | hx
    · have := h.edges x hx; omega
    · simp only [List.mem_map, List.mem_reverse] at hx
      obtain ⟨y, hy, rfl⟩ := hx
      have := ha y hy
      simp only; omega
  · intro x hx
    rw [hedges, List.mem_append] at hx
    rcases hx with hx | hx
    · have := h.edges x hx
      simp only [this.1, this.2, if_true]
      exact h.rank x hx
    · simp only [List.mem_map, List.mem_reverse] at hx
      obtain ⟨y, hy, rfl⟩ := hx
      have := ha y hy
      simp only [this, if_true, Nat.lt_irrefl, if_false]
      exact hR y this
  · intro i x hx
    rw [hgates] at hx
    by_cases hi : i < c.gates.length
    · rw [List.getElem?_append_left hi] at hx
      rw [hold i hi]
      exact h.sources i x hx
    · have := (List.getElem?_eq_some_iff.1 hx).1
      have hi' : i = c.gates.length := by simp at this; omega
      subst hi'
      rw [List.getElem?_append_right (Nat.le_refl _)] at hx
      simp only [Nat.sub_self, List.getElem?_cons_zero, Option.some.injEq] at hx
      subst hx
      rw [hnew]
      exact hsrc
  · intro i x hx
    rw [hgates] at hx
    by_cases hi : i < c.gates.length
    · rw [List.getElem?_append_left hi] at hx
      exact h.kinds i x hx
    · have := (List.getElem?_eq_some_iff.1 hx).1
      have hi' : i = c.gates.length := by simp at this; omega
      subst hi'
      rw [List.getElem?_append_right (Nat.le_refl _)] at hx
      simp only [Nat.sub_self, List.getElem?_cons_zero, Option.some.injEq] at hx
      subst hx
      exact hk

theorem single_empty : SingleOk ({} : Base G) id := by
  refine ⟨?_, ?_, ?_, ?_, ⟨rfl, rfl, rfl, rfl, rfl⟩⟩
  · intro e he; simp at he
  · intro e he; simp at he
  · intro i g hg; simp at hg
  · intro i g hg; simp at hg

/-- A list of gates with their operands, in the order in which they are added. -/
def OpsOk (ops : List (G × List Nat)) : Prop :=
  ∀ (i : Nat) g args, ops[i]? = some (g, args) →
    (∀ a ∈ args, a < i) ∧ (args = [] ↔ isSource g = true) ∧ isCross g = false

/-- Build a circuit with `add_wired_gate` calls. -/
def buildG (ops : List (G × List Nat)) : Option (Base G) :=
  ops.foldlM (fun c o => (c.addWiredGate o.1 o.2).map (·.1)) {}

theorem single_built (ops : List (G × List Nat)) (h : OpsOk ops) :
    ∃ c rank, buildG ops = some c ∧ SingleOk c rank ∧ c.gates = ops.map (·.1) ∧ c.simdSize = none ∧
      ∀ (i : Nat) g args, ops[i]? = some (g, args) → c.parents i = args := by
  induction ops using List.reverseRecOn with
  | nil => exact ⟨{}, id, rfl, single_empty, rfl, rfl, by simp⟩
  | append_singleton ops op ih =>
    obtain ⟨g, args⟩ := op
    obtain ⟨c, rank, hc, ok, hg, hsimd, hp⟩ := ih (by
      intro i g a hi
      exact h i g a (by rw [List.getElem?_append_left (List.getElem?_eq_some_iff.1 hi).1]; exact hi))
    have hlen : c.gates.length = ops.length := by rw [hg]; simp
    obtain ⟨h1, h2, h3⟩ := h ops.length g args (by simp)
    obtain ⟨c', rank', e, ok', hg', hs', hold, hnew⟩ := single_addWired ok g args (by rw [hlen]; exact h1) h2 h3
    refine ⟨c', rank', ?_, ok', by rw [hg', hg]; simp, by rw [hs', hsimd], ?_⟩
    · unfold buildG at hc ⊢
      rw [List.foldlM_append, hc]
      simp [e]
    · intro i x a hi
      by_cases hlt : i < ops.length
      · rw [List.getElem?_append_left hlt] at hi
        rw [hold i (by omega)]
        exact hp i x a hi
      · have := (List.getElem?_eq_some_iff.1 hi).1
        have hi' : i = ops.length := by simp at this; omega
        subst hi'
        rw [List.getElem?_append_right (Nat.le_refl _)] at hi
        simp only [Nat.sub_self, List.getElem?_cons_zero, Option.some.injEq, Prod.mk.injEq] at hi
        rw [← hlen, hnew, hi.2]

theorem prefix_get {α : Type} {l l' : List α} (h : l <+: l') {i : Nat} (hi : i < l.length) : l'[i]? = l[i]? := by
  obtain ⟨x, rfl⟩ := h
  rw [List.getElem?_append_left hi]

/-- Inlining a sub-circuit. -/
theorem single_addSub {s c : Base G} {rank rc : Nat → Nat} (ok : SingleOk s rank) (w : SubOk c rc)
    (hwrap : asBase (wrapBase .identity : G) = some .identity)
    (hkind : ∀ (v : Nat) (g : G), c.gates[v]? = some g → (v ∈ c.scInputGates ↔ asBase g = some .subCircuitInput))
    (hsrc : ∀ (v : Nat) (g : G), c.gates[v]? = some g → v ∉ c.scInputGates →
      (c.parents v = [] ↔ isSource g = true) ∧ isCross g = false)
    (inputs : List Nat) (hin : ∀ i ∈ inputs, i < s.gates.length) (hlen : c.scInputGates.length ≤ inputs.length) :
    ∃ (s' : Base G) (m rank' : Nat → Nat), s.addSubCircuit c inputs = some (s', c.scOutputGates.map m) ∧
      SingleOk s' rank' ∧ s'.simdSize = s.simdSize ∧ s.gates <+: s'.gates ∧
      (∀ v < s.gates.length, s'.parents v = s.parents v) ∧
      (∀ (v : Nat) (g : G), c.gates[v]? = some g → s.gates.length ≤ m v ∧ s'.gates[m v]? = some (conv g) ∧
        (v ∉ c.scInputGates → s'.parents (m v) = ((c.parents v).map m).reverse)) ∧
      (∀ (j v i : Nat), c.scInputGates[j]? = some v → inputs[j]? = some i → s'.parents (m v) = [i]) ∧
      (∀ u v, u < c.gates.length → v < c.gates.length → m u = m v → u = v) ∧
      (∀ i, s.gates.length ≤ i → i < s'.gates.length → ∃ v < c.gates.length, m v = i) := by
  obtain ⟨s', m, e, hpre, hold, hnew, hinp, hinj, hl, hE, hsur, hbook, hsimd⟩ :=
    add_sub_circuit_structure s c rc ok.edges w inputs hin hlen
  have conv_scIn : ∀ g : G, asBase g = some .subCircuitInput → conv g = wrapBase .identity := by
    intro g hg; simp [conv, hg]
  have conv_src : ∀ g : G, isSource (conv g) = isSource g := by
    intro g
    unfold conv
    split
    · rename_i h; simp [isSource, hwrap, h]
    · rename_i h; simp [isSource, hwrap, h]
    · rfl
  let R := (s.gates.length :: (List.range s.gates.length).map rank).sum
  have hR : ∀ a < s.gates.length, rank a < R := by
    intro a hlt
    have hm : rank a ∈ (List.range s.gates.length).map rank := List.mem_map.2 ⟨a, List.mem_range.2 hlt, rfl⟩
    have := le_sum_mem hm
    simp only [R, List.sum_cons]
    omega
  have hinv : ∃ inv : Nat → Nat, ∀ v < c.gates.length, inv (m v) = v := by
    classical
    refine ⟨fun i => if h : ∃ v < c.gates.length, m v = i then h.choose else 0, ?_⟩
    intro v hv
    have h : ∃ x < c.gates.length, m x = m v := ⟨v, hv, rfl⟩
    simp only [h, dif_pos]
    exact hinj _ _ h.choose_spec.1 hv h.choose_spec.2
  obtain ⟨inv, hinv⟩ := hinv
  have hge : ∀ v < c.gates.length, s.gates.length ≤ m v := fun v hv =>
    (hnew v _ (List.getElem?_eq_getElem hv)).1
  refine ⟨s', m, fun i => if i < s.gates.length then rank i else R + rc (inv i), e, ?_, hsimd, hpre, hold, hnew,
    hinp, hinj, hsur⟩
  refine ⟨hE, ?_, ?_, ?_, hbook ok.book⟩
  · rintro ⟨u, v⟩ he
    have hu : u ∈ s'.parents v := (mem_parents s' u v).2 he
    by_cases hv : v < s.gates.length
    · rw [hold v hv] at hu
      have he' := edge_of_parent hu
      have := (ok.edges _ he').1
      simp only at this
      simp only [hv, this, if_true]
      exact ok.rank _ he'
    · obtain ⟨x, hx, rfl⟩ := hsur v (by omega) (hE _ he).2
      have hgx := List.getElem?_eq_getElem hx
      simp only [hv, if_false, hinv x hx]
      by_cases hxi : x ∈ c.scInputGates
      · obtain ⟨j, hj⟩ := List.mem_iff_getElem?.1 hxi
        have hjl := (List.getElem?_eq_some_iff.1 hj).1
        have hij : inputs[j]? = some (inputs[j]'(by omega)) := List.getElem?_eq_getElem (by omega)
        rw [hinp j x _ hj hij, List.mem_singleton] at hu
        have hlt := hin _ (List.mem_of_getElem? hij)
        rw [← hu] at hlt
        simp only [hlt, if_true]
        have := hR u hlt
        omega
      · rw [(hnew x _ hgx).2.2 hxi, List.mem_reverse, List.mem_map] at hu
        obtain ⟨y, hy, rfl⟩ := hu
        have he' := edge_of_parent hy
        have hyl : y < c.gates.length := (w.edges _ he').1
        have := hge y hyl
        simp only [Nat.not_lt.2 this, if_false, hinv y hyl]
        have := w.rank _ he'
        simp only at this
        omega
  · intro i g hg
    by_cases hi : i < s.gates.length
    · rw [hold i hi]
      rw [prefix_get hpre hi] at hg
      exact ok.sources i g hg
    · obtain ⟨x, hx, rfl⟩ := hsur i (by omega) (List.getElem?_eq_some_iff.1 hg).1
      have hgx := List.getElem?_eq_getElem hx
      obtain ⟨-, h2, h3⟩ := hnew x _ hgx
      rw [h2, Option.some.injEq] at hg
      subst hg
      rw [conv_src]
      by_cases hxi : x ∈ c.scInputGates
      · obtain ⟨j, hj⟩ := List.mem_iff_getElem?.1 hxi
        have hjl := (List.getElem?_eq_some_iff.1 hj).1
        have hij : inputs[j]? = some (inputs[j]'(by omega)) := List.getElem?_eq_getElem (by omega)
        rw [hinp j x _ hj hij]
        have := (hkind x _ hgx).1 hxi
        simp [isSource, this]
      · rw [h3 hxi, ← (hsrc x _ hgx hxi).1]
        simp
  · intro i g hg
    by_cases hi : i < s.gates.length
    · rw [prefix_get hpre hi] at hg
      exact ok.kinds i g hg
    · obtain ⟨x, hx, rfl⟩ := hsur i (by omega) (List.getElem?_eq_some_iff.1 hg).1
      have hgx := List.getElem?_eq_getElem hx
      obtain ⟨-, h2, h3⟩ := hnew x _ hgx
      rw [h2, Option.some.injEq] at hg
      subst hg
      by_cases hxi : x ∈ c.scInputGates
      · rw [conv_scIn _ ((hkind x _ hgx).1 hxi)]
        simp [isCross, hwrap]
      · have := (hsrc x _ hgx hxi).2
        unfold conv
        split
        · simp [isCross, hwrap]
        · simp [isCross, hwrap]
        · exact this

end Verif.Exec
