import Verif.Circuit.Static
import Mathlib.Tactic.IntervalCases

/-!
Where C47 fails, and a circuit with sub-circuits that satisfies the conditions of the theorem.
-/
set_option autoImplicit false

namespace Verif.Circuit

open Gmw

/-! ### A checker for well-formedness of concrete circuits -/

variable {G : Type}

def validB (circs : List (Base G)) (v : Node) : Bool :=
  match circs[v.1]? with
  | some c => decide (v.2 < c.gates.length)
  | none => false

/-- The conditions of `WF`, as a computation. -/
def wfCheck (circs : List (Base G)) (conns : List (Node × Node)) (rank : Node → Nat) : Bool :=
  let m := Multi.ofConns circs conns
  !circs.isEmpty &&
  circs.zipIdx.all (fun ci =>
    ci.1.edges.all (fun e => decide (e.1 < ci.1.gates.length) && decide (e.2 < ci.1.gates.length) &&
      decide (rank (ci.2, e.1) < rank (ci.2, e.2))) &&
    decide (initial ci.2 ci.1).Nodup &&
    (initial ci.2 ci.1).all (fun g => decide (g < ci.1.gates.length) && decide (ci.1.parents g = []) &&
      decide (m.incoming (ci.2, g) = [])) &&
    (List.range ci.1.gates.length).all (fun g => !decide (ci.1.parents g = []) ||
      decide (g ∈ initial ci.2 ci.1) || !decide (m.incoming (ci.2, g) = [])) &&
    (decide (ci.2 = 0) || (initial ci.2 ci.1).all fun g =>
      conns.any fun uv => decide (uv.2.1 = ci.2) && decide (rank uv.1 < rank (ci.2, g)))) &&
  conns.all (fun uv => decide (rank uv.1 < rank uv.2) && validB circs uv.1 && validB circs uv.2 &&
    decide ((m.incoming uv.2).length ≤ 1) &&
    match circs[uv.2.1]? with
    | some c => decide (c.parents uv.2.2 = [])
    | none => true)

theorem valid_of_validB {circs : List (Base G)} {conns : List (Node × Node)} {v : Node}
    (h : validB circs v = true) : (Multi.ofConns circs conns).Valid v := by
  unfold validB at h
  cases hc : circs[v.1]? with
  | none => simp [hc] at h
  | some c => exact ⟨c, hc, by simpa [hc] using h⟩

theorem wf_of_check (circs : List (Base G)) (conns : List (Node × Node)) (rank : Node → Nat)
    (h : wfCheck circs conns rank = true) : WF (Multi.ofConns circs conns) rank := by
  simp only [wfCheck, Bool.and_eq_true, List.all_eq_true, Bool.or_eq_true, decide_eq_true_eq,
    Bool.not_eq_true', List.any_eq_true, decide_eq_false_iff_not] at h
  obtain ⟨⟨h1, h2⟩, h3⟩ := h
  have hz : ∀ (i : Nat) (c : Base G), circs[i]? = some c → (c, i) ∈ circs.zipIdx := by
    intro i c hc
    exact List.mem_zipIdx_iff_getElem?.mpr hc
  refine ⟨?_, ?_, ?_, ?_, ofConns_consistent _ _, ?_, ?_, ?_, ?_, ?_, ?_, ?_, ?_, ?_⟩
  · cases circs with
    | nil => simp at h1
    | cons a t => simp [Multi.ofConns]
  · intro i c hc e he
    have := (h2 _ (hz i c hc)).1.1.1.1 e he
    exact this.1
  · intro i c hc e he
    have := (h2 _ (hz i c hc)).1.1.1.1 e he
    exact this.2
  · intro u v huv
    exact (h3 _ (mem_incoming.mp huv)).1.1.1.1
  · intro u v huv
    exact valid_of_validB (h3 _ (mem_incoming.mp huv)).1.1.1.2
  · intro u v huv
    exact valid_of_validB (h3 _ (mem_incoming.mp huv)).1.1.2
  · intro v
    cases hi : (Multi.ofConns circs conns).incoming v with
    | nil => simp
    | cons u t =>
      have hu : u ∈ (Multi.ofConns circs conns).incoming v := by rw [hi]; simp
      have := (h3 _ (mem_incoming.mp hu)).1.2
      rw [hi] at this
      exact this
  · intro v c hne hc
    obtain ⟨u, hu⟩ := List.exists_mem_of_ne_nil _ hne
    have := (h3 _ (mem_incoming.mp hu)).2
    have hc' : circs[v.1]? = some c := hc
    simpa [hc'] using this
  · intro i c hc
    exact (h2 _ (hz i c hc)).1.1.1.2
  · intro i c hc g hg
    exact ((h2 _ (hz i c hc)).1.1.2 g hg).1.1
  · intro i c hc g hg
    exact ⟨((h2 _ (hz i c hc)).1.1.2 g hg).1.2, ((h2 _ (hz i c hc)).1.1.2 g hg).2⟩
  · intro i c hc g hg hp
    rcases (h2 _ (hz i c hc)).1.2 g (by simpa using hg) with (h | h) | h
    · exact absurd hp h
    · exact Or.inl h
    · exact Or.inr h
  · intro i c hc hi g hg
    rcases (h2 _ (hz i c hc)).2 with h | h
    · exact absurd h hi
    · obtain ⟨uv, huv, h4, h5⟩ := h g hg
      refine ⟨uv.2.2, uv.1, mem_incoming.mpr ?_, h5⟩
      have h4 : uv.2.1 = i := h4
      rw [← h4]
      exact huv

/-- Everything the witnesses below need to know about an iteration. -/
def dynLayers [GateLike G] (m : Multi G) (fuel : Nat) : Option (List MLayer) :=
  (MIter.new m).bind (MIter.collect m fuel)

/-- The gate positions, per layer. -/
def gatePositions (ls : List (List (View G))) : List (List Node) :=
  ls.map fun l => l.flatMap fun v => (v.ni ++ v.int).map fun e => e.1.2

/-- The positions the executor sees after `precompute_layers`; `none` is a panic. -/
def staticPositions [GateLike G] [DecidableEq G] (m : Multi G) (cmap : List Nat) (fuel : Nat) :
    Option (List (List Node)) :=
  (dynLayers m fuel).bind fun ls => (precompute m cmap ls).bind fun s =>
    (s.iter false false).map fun r => gatePositions (r.map fun l => l.map (viewStatic s))

/-- The positions the executor sees without. -/
def dynPositions [GateLike G] (m : Multi G) (fuel : Nat) : Option (List (List Node)) :=
  (dynLayers m fuel).map fun ls => gatePositions (ls.map fun l => l.map (viewDyn m))

/-! ### Circuits are stored in the order in which they are reached -/

/-- `p = call1((x & y) & y)`, `q = call2(x)`, `output(p ^ q)`. -/
def lateMain : Base BoolGate :=
  { gates := [.base .input, .base .input, .and, .and, .base .subCircuitInput, .base .subCircuitInput,
      .xor, .base .output]
    edges := [(0, 2), (1, 2), (2, 3), (1, 3), (4, 6), (5, 6), (6, 7)]
    interactiveCount := 2, inputGates := [0, 1], outputGates := [7], scInputGates := [4, 5] }

/-- Negation. -/
def lateNot : Base BoolGate :=
  { gates := [.base .subCircuitInput, .inv, .base .subCircuitOutput], edges := [(0, 1), (1, 2)]
    scInputGates := [0], scOutputGates := [2] }

/-- Identity. -/
def lateId : Base BoolGate :=
  { gates := [.base .subCircuitInput, .base .subCircuitOutput], edges := [(0, 1)]
    scInputGates := [0], scOutputGates := [1] }

def lateCircs : List (Base BoolGate) := [lateMain, lateNot, lateId]

def lateConns : List (Node × Node) :=
  [((0, 3), (1, 0)), ((1, 2), (0, 4)), ((0, 0), (2, 0)), ((2, 1), (0, 5))]

def late : Multi BoolGate := .ofConns lateCircs lateConns

def lateRank (v : Node) : Nat :=
  if v.1 = 0 then (if v.2 ≤ 3 then v.2 else v.2 + 10) else 4 + v.2


theorem late_wf : WF late lateRank := wf_of_check _ _ _ (by decide +kernel)

/-- The precomputed form of a well-formed circuit in which no circuit is shared evaluates other
gates: `call2` is reached first and stored as number 1, where `call1` is looked up.  Both calls end up
with the layers of `call1`, so the second layer contains a gate `(2, 2)` that does not exist. -/
theorem static_layers_swap_circuits :
    dynPositions late 20 = some [[(0, 0), (0, 1), (0, 2)], [(0, 3), (2, 0), (2, 1)],
      [(0, 5), (1, 0), (1, 1), (1, 2)], [(0, 4), (0, 6), (0, 7)]] ∧
    staticPositions late [0, 1, 2] 20 = some [[(0, 0), (0, 1), (0, 2)], [(0, 3), (2, 0), (2, 1), (2, 2)],
      [(0, 5), (1, 0), (1, 1), (1, 2)], [(0, 4), (0, 6), (0, 7)]] ∧
    ¬ late.Valid (2, 2) := by
  refine ⟨by decide +kernel, by decide +kernel, ?_⟩
  rintro ⟨c, hc, hlt⟩
  have : c = lateId := by simpa [late, lateCircs, Multi.ofConns] using hc.symm
  subst this
  simp [lateId] at hlt

/-! ### Calls of a shared circuit whose operands become available at different times -/

/-- A chain of ANDs (gates 2 to 5) whose values are passed to three calls. -/
def chainMain : Base BoolGate :=
  { gates := [.base .input, .base .input, .and, .and, .and, .and,
      .base .subCircuitInput, .base .subCircuitInput, .base .subCircuitInput,
      .base .output, .base .output, .base .output]
    edges := [(0, 2), (1, 2), (2, 3), (1, 3), (3, 4), (1, 4), (4, 5), (1, 5), (6, 9), (7, 10), (8, 11)]
    interactiveCount := 4, inputGates := [0, 1], outputGates := [9, 10, 11], scInputGates := [6, 7, 8] }

/-- XOR of four operands. -/
def xor4 : Base BoolGate :=
  { gates := [.base .subCircuitInput, .base .subCircuitInput, .base .subCircuitInput,
      .base .subCircuitInput, .xor, .xor, .xor, .base .subCircuitOutput]
    edges := [(0, 4), (1, 4), (4, 5), (2, 5), (5, 6), (3, 6), (6, 7)]
    scInputGates := [0, 1, 2, 3], scOutputGates := [7] }

def chainCircs : List (Base BoolGate) := [chainMain, xor4, xor4, xor4]

/-- The connections when call `i` gets the gates `as` of the main circuit and its result goes to
gate `5 + i`. -/
def chainCall (i : Nat) (as : List Nat) : List (Node × Node) :=
  (as.zipIdx.map fun a => (((0, a.1) : Node), ((i, a.2) : Node))) ++ [((i, 7), (0, 5 + i))]

def chainRank (v : Node) : Nat :=
  if v.1 = 0 then (if v.2 ≤ 5 then v.2 else v.2 + 20) else 10 + v.2

/-- Three calls of `xor4`, with operands of depth 0, 2, 3, 4; 0, 2, 2, 2; and 0, 2, 3, 3. -/
def staggered : Multi BoolGate :=
  .ofConns chainCircs (chainCall 1 [0, 3, 4, 5] ++ chainCall 2 [0, 3, 3, 3] ++ chainCall 3 [0, 3, 4, 4])

theorem staggered_wf : WF staggered chainRank := wf_of_check _ _ _ (by decide +kernel)

/-- The circuit can be evaluated layer by layer, but `precompute_layers` panics: the third call differs
from the first in its third layer, and the copy made for the second call has only two layers. -/
theorem static_layers_panic :
    (∃ ls, dynLayers staggered 20 = some ls ∧ precompute staggered [0, 1, 1, 1] ls = none) ∧
    CMapOk staggered [0, 1, 1, 1] := by
  refine ⟨?_, rfl, ?_, ?_⟩
  · have h1 : (dynLayers staggered 20).isSome = true := by decide +kernel
    have h2 : ((dynLayers staggered 20).bind fun ls => precompute staggered [0, 1, 1, 1] ls).isNone = true := by
      decide +kernel
    obtain ⟨ls, hls⟩ := Option.isSome_iff_exists.mp h1
    rw [hls] at h2
    exact ⟨ls, hls, by simpa using h2⟩
  · have h : ∀ i < 4, ∀ j < 4, ([0, 1, 1, 1] : List Nat)[i]? = ([0, 1, 1, 1] : List Nat)[j]? →
        staggered.circs[i]? = staggered.circs[j]? := by
      intro i hi j hj
      interval_cases i <;> interval_cases j <;> simp [staggered, chainCircs, Multi.ofConns]
    intro i j mp hi hj
    exact h i (List.getElem?_eq_some_iff.mp hi).1 j (List.getElem?_eq_some_iff.mp hj).1 (hi.trans hj.symm)
  · have h : ∀ i < 4, ([0, 1, 1, 1] : List Nat)[i]? = ([0, 1, 1, 1] : List Nat)[0]? → i = 0 := by decide
    intro i mp hi h0
    exact h i (List.getElem?_eq_some_iff.mp hi).1 (hi.trans h0.symm)

/-- Four values are passed through. -/
def pass4 : Base BoolGate :=
  { gates := [.base .subCircuitInput, .base .subCircuitInput, .base .subCircuitInput,
      .base .subCircuitInput, .base .subCircuitOutput, .base .subCircuitOutput, .base .subCircuitOutput,
      .base .subCircuitOutput]
    edges := [(0, 4), (1, 5), (2, 6), (3, 7)]
    scInputGates := [0, 1, 2, 3], scOutputGates := [4, 5, 6, 7] }

/-- Operands of depth 0, 2, 3, 4; 0, 2, 2, 3; and 0, 2, 4, 3. -/
def reused : Multi BoolGate :=
  .ofConns [chainMain, pass4, pass4, pass4] (chainCall 1 [0, 3, 4, 5] ++ chainCall 2 [0, 3, 3, 4] ++ chainCall 3 [0, 3, 5, 4])

theorem reused_wf : WF reused chainRank := wf_of_check _ _ _ (by decide +kernel)

/-- The precomputed form evaluates gates too early: the third call is redirected to the copy made for
the second call because one layer is equal, although an earlier layer is not.  Its third operand
`(0, 5)` is computed in the fourth layer, but `(3, 2)`, which reads it, is already in the third (and
again in the fifth). -/
theorem static_layers_reuse :
    dynPositions reused 20 = some
      [[(0, 0), (0, 1), (0, 2)], [(0, 3), (1, 0), (1, 4), (2, 0), (2, 4), (3, 0), (3, 4)],
        [(0, 4), (1, 1), (1, 5), (2, 1), (2, 2), (2, 5), (2, 6), (3, 1), (3, 5)],
        [(0, 5), (1, 2), (1, 6), (2, 3), (2, 7), (3, 3), (3, 7)],
        [(0, 7), (0, 8), (0, 10), (0, 11), (1, 3), (1, 7), (3, 2), (3, 6)], [(0, 6), (0, 9)]] ∧
    staticPositions reused [0, 1, 1, 1] 20 = some
      [[(0, 0), (0, 1), (0, 2)], [(0, 3), (1, 0), (1, 4), (2, 0), (2, 4), (3, 0), (3, 4)],
        [(0, 4), (1, 1), (1, 5), (2, 1), (2, 2), (2, 5), (2, 6), (3, 1), (3, 2), (3, 5), (3, 6)],
        [(0, 5), (1, 2), (1, 6), (2, 3), (2, 7), (3, 3), (3, 7)],
        [(0, 7), (0, 8), (0, 10), (0, 11), (1, 3), (1, 7), (3, 2), (3, 6)], [(0, 6), (0, 9)]] ∧
    reused.incoming (3, 2) = [(0, 5)] := by
  exact ⟨by decide +kernel, by decide +kernel, by decide +kernel⟩

/-! ### A circuit that satisfies the conditions -/

/-- `FirstUseInOrder`, as a computation on the numbers given by `circ_map`. -/
def firstUseB (cmap : List Nat) : List Nat → List (Nat × Layer) → Bool
  | _, [] => true
  | seen, e :: P =>
    match cmap[e.1]? with
    | none => firstUseB cmap seen P
    | some mp => (List.range mp).all (fun k => seen.contains k) && firstUseB cmap (mp :: seen) P

theorem firstUse_of_check (cmap seen : List Nat) (P : List (Nat × Layer)) (h : firstUseB cmap seen P = true)
    (a : List (Nat × Layer)) (e : Nat × Layer) (b : List (Nat × Layer)) (hP : P = a ++ e :: b)
    (mp : Nat) (hmp : cmap[e.1]? = some mp) (k : Nat) (hk : k < mp) :
    k ∈ seen ∨ ∃ x ∈ a, cmap[x.1]? = some k := by
  induction P generalizing seen a with
  | nil => simp at hP
  | cons y P ih =>
    cases a with
    | nil =>
      simp only [List.nil_append, List.cons.injEq] at hP
      obtain ⟨rfl, rfl⟩ := hP
      simp only [firstUseB, hmp, Bool.and_eq_true, List.all_eq_true, List.mem_range,
        List.contains_iff_mem] at h
      exact Or.inl (h.1 k hk)
    | cons z a =>
      simp only [List.cons_append, List.cons.injEq] at hP
      obtain ⟨rfl, hP⟩ := hP
      unfold firstUseB at h
      cases hy : cmap[y.1]? with
      | none =>
        simp only [hy] at h
        rcases ih seen h a hP with h1 | ⟨x, hx, hxk⟩
        · exact Or.inl h1
        · exact Or.inr ⟨x, List.mem_cons_of_mem _ hx, hxk⟩
      | some q =>
        simp only [hy, Bool.and_eq_true] at h
        rcases ih (q :: seen) h.2 a hP with h1 | ⟨x, hx, hxk⟩
        · rcases List.mem_cons.mp h1 with rfl | h1
          · exact Or.inr ⟨y, List.mem_cons_self, hy⟩
          · exact Or.inl h1
        · exact Or.inr ⟨x, List.mem_cons_of_mem _ hx, hxk⟩

/-- `SameLayers`, as a computation. -/
def sameLayersB (cmap : List Nat) (P : List (Nat × Layer)) : Bool :=
  (List.range cmap.length).all fun i => (List.range cmap.length).all fun j =>
    !decide (cmap[i]? = cmap[j]?) ||
      ((histOf i P).zip (histOf j P)).all fun xy => decide (xy.1 = xy.2)

theorem sameLayers_of_check (cmap : List Nat) (P : List (Nat × Layer)) (h : sameLayersB cmap P = true) :
    SameLayers cmap P := by
  intro i j mp hi hj k x y hx hy
  simp only [sameLayersB, List.all_eq_true, List.mem_range, Bool.or_eq_true, Bool.not_eq_true',
    decide_eq_false_iff_not, decide_eq_true_eq] at h
  rcases h i (List.getElem?_eq_some_iff.mp hi).1 j (List.getElem?_eq_some_iff.mp hj).1 with h | h
  · exact absurd (hi.trans hj.symm) h
  · have : ((histOf i P).zip (histOf j P))[k]? = some (x, y) := by
      rw [List.getElem?_zip_eq_some]
      exact ⟨hx, hy⟩
    exact h (x, y) (List.mem_of_getElem? this)

/-- Two calls of `xor4` with operands of the same depths, and one of `pass4`. -/
def aligned : Multi BoolGate :=
  .ofConns [chainMain, xor4, xor4, pass4]
    (chainCall 1 [0, 3, 4, 5] ++ chainCall 2 [1, 3, 4, 5] ++ chainCall 3 [0, 3, 5, 4])

/-- The conditions of `static_layers_same_partial` hold of a circuit with a shared sub-circuit, and
the static iteration evaluates its 36 gates. -/
example : WF aligned chainRank ∧ CMapOk aligned [0, 1, 1, 2] ∧
    (∃ ls, dynLayers aligned 20 = some ls ∧ FirstUseInOrder [0, 1, 1, 2] ls.flatten ∧
      SameLayers [0, 1, 1, 2] ls.flatten) ∧
    (staticPositions aligned [0, 1, 1, 2] 20).map (fun l => l.flatten.length) = some 36 := by
  refine ⟨wf_of_check _ _ _ (by decide +kernel), ⟨rfl, ?_, ?_⟩, ?_, by decide +kernel⟩
  · have h : ∀ i < 4, ∀ j < 4, ([0, 1, 1, 2] : List Nat)[i]? = ([0, 1, 1, 2] : List Nat)[j]? →
        aligned.circs[i]? = aligned.circs[j]? := by
      intro i hi j hj
      interval_cases i <;> interval_cases j <;> simp [aligned, Multi.ofConns]
    intro i j mp hi hj
    exact h i (List.getElem?_eq_some_iff.mp hi).1 j (List.getElem?_eq_some_iff.mp hj).1 (hi.trans hj.symm)
  · have h : ∀ i < 4, ([0, 1, 1, 2] : List Nat)[i]? = ([0, 1, 1, 2] : List Nat)[0]? → i = 0 := by decide
    intro i mp hi h0
    exact h i (List.getElem?_eq_some_iff.mp hi).1 (hi.trans h0.symm)
  · have h1 : ((dynLayers aligned 20).any fun ls =>
        firstUseB [0, 1, 1, 2] [] ls.flatten && sameLayersB [0, 1, 1, 2] ls.flatten) = true := by
      decide +kernel
    rw [Option.any_eq_true] at h1
    obtain ⟨ls, hls, h2⟩ := h1
    rw [Bool.and_eq_true] at h2
    refine ⟨ls, hls, ?_, sameLayers_of_check _ _ h2.2⟩
    intro a e b hP mp hmp k hk
    rcases firstUse_of_check _ _ _ h2.1 a e b hP mp hmp k hk with h3 | h3
    · simp at h3
    · exact h3

/-! ### A circuit that is never reached -/

/-- A sub-circuit without gates has no layer, and `gate_counts` (static_layers.rs:96-102) panics on it:
`get_circ` finds no entry. -/
theorem unreached_circuit_panics :
    let m : Multi BoolGate := .ofConns [{ gates := [.base .input], inputGates := [0] }, {}] []
    WF m (fun _ => 0) ∧ ∃ ls s, dynLayers m 20 = some ls ∧ precompute m [0, 1] ls = some s ∧
      s.getCirc 1 = none := by
  refine ⟨wf_of_check _ _ _ (by decide +kernel), [[(0, ⟨[0], []⟩)]], _, by decide +kernel, rfl, rfl⟩

end Verif.Circuit
