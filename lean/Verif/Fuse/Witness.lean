import Verif.Fuse.Props

/-!
**C65**: what the converter does not support, and examples.
-/
set_option autoImplicit false

namespace Verif.Fuse

open Circuit Mixed Adder Exec Proc
open Gmw (BoolGate BaseGate)

variable {w : Nat}

/-! ### Parts of the module which are not read -/

/-- Change the nodes of a module. -/
def FModule.mapNodes (f : FNode → FNode) (m : FModule) : FModule :=
  { m with circuits := m.circuits.map fun cs => cs.map fun c => c.map fun c => { c with nodes := c.nodes.map fun ns => ns.map f } }

/-- The two nodes differ at most in the offsets of their operands and in the value of the constant. -/
def SameButValue (n n' : FNode) : Prop :=
  n'.id = n.id ∧ n'.op = n.op ∧ n'.inputs = n.inputs ∧ n'.types = n.types ∧ n'.callee = n.callee

theorem addNode_same {mode : CallMode} {inMain : Bool} {st : FConv w} {bc : Base (Gate w)} {n n' : FNode} (h : SameButValue n n')
    (ins : List Nat) : addNode mode inMain st bc n' ins = addNode mode inMain st bc n ins := by
  obtain ⟨-, h2, -, h4, h5⟩ := h
  unfold addNode gateOf
  rw [h2, h4, h5]

theorem addNodes_same {mode : CallMode} {inMain : Bool} {f : FNode → FNode} (hf : ∀ n, SameButValue n (f n)) (ns : List FNode) (st : FConv w)
    (bc : Base (Gate w)) (keys : List (Nat × Nat)) :
    addNodes mode inMain (ns.map f) st bc keys = addNodes mode inMain ns st bc keys := by
  induction ns generalizing st bc keys with
  | nil => rfl
  | cons n ns ih =>
    simp only [List.map_cons, addNodes, (hf n).2.2.1, (hf n).1, addNode_same (hf n), ih]

theorem addCircuit_same {mode : CallMode} {f : FNode → FNode} (hf : ∀ n, SameButValue n (f n)) (st : FConv w) (c : FCircuit) (b : Bool) :
    addCircuit mode st { c with nodes := c.nodes.map fun ns => ns.map f } b = addCircuit mode st c b := by
  unfold addCircuit
  cases c.nodes with
  | none => rfl
  | some ns => simp only [Option.map_some, Option.bind_eq_bind, Option.bind_some, addNodes_same hf]

/-- **C65** finding: neither the offsets of the operands (which output of the operand is meant) nor the values of constants are read.
Modules which differ only there are converted to the same circuit, whatever they mean. -/
theorem convert_ignores_values (mode : CallMode) (f : FNode → FNode) (hf : ∀ n, SameButValue n (f n)) (m : FModule) :
    (convertModule mode (m.mapNodes f) : Option (Except String (Multi (Gate w)))) = convertModule mode m := by
  unfold convertModule FModule.mapNodes
  cases m.circuits with
  | none => rfl
  | some cs =>
    have h1 : ∀ (ep : String) (st : FConv w), addSubs mode ep
        (cs.map fun c => c.map fun c => { c with nodes := c.nodes.map fun ns => ns.map f }) st = addSubs mode ep cs st := by
      intro ep
      induction cs with
      | nil => intro st; rfl
      | cons c cs ih =>
        intro st
        cases c with
        | none => rfl
        | some c => simp only [List.map_cons, Option.map_some, addSubs, addCircuit_same hf, ih]
    have h2 : ∀ (ep : String) (st : FConv w), addMain mode ep
        (cs.map fun c => c.map fun c => { c with nodes := c.nodes.map fun ns => ns.map f }) st = addMain mode ep cs st := by
      clear h1
      intro ep
      induction cs with
      | nil => intro st; rfl
      | cons c cs ih =>
        intro st
        cases c with
        | none => rfl
        | some c => simp only [List.map_cons, Option.map_some, addMain, addCircuit_same hf, ih]
    simp only [Option.map_some, h1, h2]

/-- For modules without calls the mode is irrelevant: the theorems on inlining hold for `CallCircuits` as well. -/
theorem convert_mode (m : FModule) (h : Without m .call) :
    (convertModule .call m : Option (Except String (Multi (Gate w)))) = convertModule .inline m := by
  have hn : ∀ (inMain : Bool) (st : FConv w) (bc : Base (Gate w)) (n : FNode) (ins : List Nat), n.op ≠ .call →
      addNode .call inMain st bc n ins = addNode .inline inMain st bc n ins := by
    intro inMain st bc n ins hop
    unfold addNode
    split
    · rfl
    · cases hn : n.op <;> first | rfl | exact absurd hn hop
  have hns : ∀ (inMain : Bool) (ns : List FNode), (∀ n ∈ ns, n.op ≠ .call) → ∀ (st : FConv w) (bc : Base (Gate w)) (keys : List (Nat × Nat)),
      addNodes .call inMain ns st bc keys = addNodes .inline inMain ns st bc keys := by
    intro inMain ns
    induction ns with
    | nil => intros; rfl
    | cons n ns ih =>
      intro hop st bc keys
      simp only [addNodes, hn inMain _ _ n _ (hop n (by simp)), ih fun x hx => hop x (by simp [hx])]
  have hc : ∀ (st : FConv w) (c : FCircuit) (b : Bool), (∀ ns, c.nodes = some ns → ∀ n ∈ ns, n.op ≠ .call) →
      addCircuit .call st c b = addCircuit .inline st c b := by
    intro st c b hop
    unfold addCircuit
    cases hcn : c.nodes with
    | none => rfl
    | some ns => simp only [Option.bind_eq_bind, Option.bind_some, hns b ns (hop ns hcn)]
  unfold convertModule
  cases hcs : m.circuits with
  | none => rfl
  | some cs =>
    have hall := h cs hcs
    clear hcs
    have h1 : ∀ (ep : String) (st : FConv w), addSubs .call ep cs st = addSubs .inline ep cs st := by
      intro ep
      induction cs with
      | nil => intro st; rfl
      | cons c cs ih =>
        intro st
        cases c with
        | none => rfl
        | some c =>
          simp only [addSubs, hc _ c _ (hall c (by simp)), ih fun c' hc' => hall c' (by simp [hc'])]
    have h2 : ∀ (ep : String) (st : FConv w), addMain .call ep cs st = addMain .inline ep cs st := by
      clear h1
      intro ep
      induction cs with
      | nil => intro st; rfl
      | cons c cs ih =>
        intro st
        cases c with
        | none => rfl
        | some c =>
          simp only [addMain, hc _ c _ (hall c (by simp)), ih fun c' hc' => hall c' (by simp [hc'])]
    simp only [h1, h2]

theorem sub_state {mode : CallMode} {st st' : FConv w} {bc bc' : Base (Gate w)} {n : FNode} {ins : List Nat} {id : Nat}
    (h : addNode mode false st bc n ins = some (st', bc', id)) : st' = st := by
  cases mode with
  | inline => exact inline_state h
  | call =>
    unfold addNode at h
    split at h
    · simp only [Option.bind_eq_bind, Option.bind_eq_some_iff, Option.some.injEq, Prod.mk.injEq] at h
      obtain ⟨_, -, _, -, h, -⟩ := h
      exact h.symm
    · split at h
      · split at h
        · simp only [Option.bind_eq_bind, Option.bind_eq_some_iff, Option.some.injEq, Prod.mk.injEq] at h
          obtain ⟨_, -, _, -, _, -, h, -⟩ := h
          exact h.symm
        · cases h
      · simp at h
      · cases h

theorem sub_states {mode : CallMode} (ns : List FNode) {st st' : FConv w} {bc bc' : Base (Gate w)} {keys : List (Nat × Nat)}
    (h : addNodes mode false ns st bc keys = some (st', bc')) : st' = st := by
  induction ns generalizing st bc keys with
  | nil =>
    simp only [addNodes, Option.some.injEq, Prod.mk.injEq] at h
    exact h.1.symm
  | cons n ns ih =>
    simp only [addNodes, Option.bind_eq_bind, Option.bind_eq_some_iff] at h
    obtain ⟨ins, -, ⟨st1, bc1, id⟩, h1, h⟩ := h
    obtain rfl := sub_state h1
    exact ih h

/-- **C65** finding: a module without a circuit named like the entry point is converted without an error, to a circuit
without gates. -/
theorem no_entry_point (m : FModule) (cs : List FCircuit) (hcs : m.circuits = some (cs.map some))
    (hno : ∀ c ∈ cs, c.name ≠ m.entryPoint.getD "main") (mode : CallMode) (r : Except String (Multi (Gate w)))
    (hr : convertModule mode m = some r) : r = .ok (.ofBase ({} : Base _)) := by
  have h1 : ∀ st : FConv w, ∀ r, addSubs mode (m.entryPoint.getD "main") (cs.map some) st = some r →
      ∃ sc, r = .ok { st with scMap := sc } := by
    clear hcs hr
    induction cs with
    | nil =>
      intro st r h
      simp only [List.map_nil, addSubs, Option.some.injEq] at h
      exact ⟨st.scMap, h.symm⟩
    | cons c cs ih =>
      intro st r h
      simp only [List.map_cons, addSubs, if_neg (hno c (by simp)), addCircuit, Option.bind_eq_bind, Option.bind_eq_some_iff] at h
      obtain ⟨st1, ⟨ns, -, ⟨st2, bc⟩, e1, e2⟩, h⟩ := h
      obtain rfl := sub_states ns e1
      simp only [Bool.false_eq_true, if_false, Option.some.injEq] at e2
      subst e2
      obtain ⟨sc, h⟩ := ih (fun c hc => hno c (by simp [hc])) _ r h
      exact ⟨sc, h⟩
  have h2 : ∀ st : FConv w, addMain mode (m.entryPoint.getD "main") (cs.map some) st = some (.ok st) := by
    clear hcs hr h1
    intro st
    induction cs with
    | nil => rfl
    | cons c cs ih =>
      simp only [List.map_cons, addMain, if_neg (hno c (by simp))]
      exact ih fun c hc => hno c (by simp [hc])
  simp only [convertModule, hcs] at hr
  split at hr
  · cases hr
  · rename_i e he
    obtain ⟨sc, h⟩ := h1 _ _ he
    cases h
  · rename_i st he
    obtain ⟨sc, h⟩ := h1 _ _ he
    cases h
    rw [h2] at hr
    simp only [Option.some.injEq] at hr
    rw [← hr]
    rfl

/-! ### Examples and further findings -/

/-- `f(x, y) = x * y + 1`, `g(x, y) = f(x, y) + x`, main: `g(a, b) - b`; the entry point comes first. -/
def exampleModule : FModule where
  circuits := some [
    some ⟨"main", some [
      { id := 0, op := .input }, { id := 1, op := .input },
      { id := 2, op := .call, inputs := some [0, 1], callee := some "g" },
      { id := 3, op := .sub, inputs := some [2, 1] }, { id := 4, op := .output, inputs := some [3] }]⟩,
    some ⟨"f", some [
      { id := 0, op := .input }, { id := 1, op := .input }, { id := 2, op := .mul, inputs := some [0, 1] },
      { id := 3, op := .constant, types := some [.int32], payload := some [1] },
      { id := 4, op := .add, inputs := some [2, 3], offsets := some [0, 0] }, { id := 5, op := .output, inputs := some [4] }]⟩,
    some ⟨"g", some [
      { id := 10, op := .input }, { id := 11, op := .input },
      { id := 12, op := .call, inputs := some [10, 11], callee := some "f" },
      { id := 13, op := .add, inputs := some [12, 10] }, { id := 14, op := .output, inputs := some [13] }]⟩]

theorem exampleModule_eval (a b : BitVec 32) :
    evalModule (fun _ => .arith 1) exampleModule [.arith a, .arith b] = some [.arith (a * b + 1 + a - b)] := by
  rfl

/-- The example is converted to a circuit which is executed correctly, for all inputs. -/
example (a b : BitVec 32) : ∃ c, convertModule .inline exampleModule = some (.ok (.ofBase c)) ∧
    RunsTo c [.arith a, .arith b] [.arith (a * b + 1 + a - b)] := by
  refine fuse_inline_plain_partial (f := _) rfl (fun _ => .arith 1) exampleModule ?_ ?_ ?_ ?_ _ _ (exampleModule_eval a b)
  · intro cs hcs c hc ns hns n hn
    simp only [exampleModule, Option.some.injEq] at hcs
    subst hcs
    simp only [List.mem_cons, Option.some.injEq, List.not_mem_nil, or_false] at hc
    rcases hc with rfl | rfl | rfl <;> simp only [Option.some.injEq] at hns <;> subst hns <;>
      simp only [List.mem_cons, List.not_mem_nil, or_false] at hn <;>
      (rcases hn with rfl | rfl | rfl | rfl | rfl | rfl <;>
        exact ⟨⟨by simp, by simp⟩, by simp [exampleModule, SubNodeOk]⟩)
  · exact ⟨⟨[.arith 0, .arith 0], _, rfl⟩, ⟨[.arith 0, .arith 0], _, rfl⟩, trivial⟩
  · intro cs hcs c hc ns hns n hn
    simp only [exampleModule, Option.some.injEq] at hcs
    subst hcs
    simp only [List.mem_cons, Option.some.injEq, List.not_mem_nil, or_false] at hc
    rcases hc with rfl | rfl | rfl <;> simp only [Option.some.injEq] at hns <;> subst hns <;>
      simp only [List.mem_cons, List.not_mem_nil, or_false] at hn <;>
      (rcases hn with rfl | rfl | rfl | rfl | rfl | rfl <;> simp)
  · intro cs hcs c hc ns hns n hn
    simp only [exampleModule, Option.some.injEq] at hcs
    subst hcs
    simp only [List.mem_cons, Option.some.injEq, List.not_mem_nil, or_false] at hc
    rcases hc with rfl | rfl | rfl <;> simp only [Option.some.injEq] at hns <;> subst hns <;>
      simp only [List.mem_cons, List.not_mem_nil, or_false] at hn <;>
      (rcases hn with rfl | rfl | rfl | rfl | rfl | rfl <;> simp)

/-- Split a ring element, output bit `k`. -/
def bitModule (k : Nat) : FModule where
  circuits := some [some ⟨"main", some [
    { id := 0, op := .input }, { id := 1, op := .split, inputs := some [0], offsets := some [0] },
    { id := 2, op := .output, inputs := some [1], offsets := some [k] }]⟩]

theorem bitModule_eval (cst : FNode → Val w) (k : Nat) (hk : k < w) (x : BitVec w) :
    evalModule cst (bitModule k) [.arith x] = some [.bool (x.getLsbD k)] := by
  have hw : w ≠ 0 := by omega
  simp [evalModule, bitModule, evalCircuit, evalNode, operands, evalOp, List.lookup, List.filter, hk, bitsOf, hw]

/-- **C65** finding: which bit of a split is meant is ignored, every bit is the first one. -/
theorem split_bit_wrong {f : List Char} (hf : fileFor w = some f) (cst : FNode → Val w) (k : Nat) (hk : k < w) (x : BitVec w) :
    evalModule cst (bitModule k) [.arith x] = some [.bool (x.getLsbD k)] ∧
    ∃ c, convertModule .inline (bitModule k) = some (.ok (.ofBase c)) ∧ Computes c [.arith x] [.bool (x.getLsbD 0)] := by
  refine ⟨bitModule_eval cst k hk x, ?_⟩
  have h := convert_ignores_values (w := w) .inline (fun n => { n with offsets := n.offsets.map fun l => l.map fun _ => 0 })
    (fun n => ⟨rfl, rfl, rfl, rfl, rfl⟩) (bitModule k)
  rw [← h]
  refine convert_computes hf cst _ ?_ ?_ _ _ (bitModule_eval cst 0 (by omega) x)
  · intro cs hcs c hc ns hns n hn
    simp only [bitModule, FModule.mapNodes, Option.map_some, List.map_cons, List.map_nil, Option.some.injEq] at hcs
    subst hcs
    simp only [List.mem_cons, Option.some.injEq, List.not_mem_nil, or_false] at hc
    subst hc
    simp only [Option.some.injEq] at hns
    subst hns
    simp only [List.mem_cons, List.not_mem_nil, or_false] at hn
    rcases hn with rfl | rfl | rfl <;> exact ⟨⟨by simp, by simp⟩, by simp [bitModule, FModule.mapNodes]⟩
  · exact trivial

/-- The constant `v`. -/
def constModule (v : Nat) : FModule where
  circuits := some [some ⟨"main", some [
    { id := 0, op := .constant, types := some [.int32], payload := some [v] }, { id := 1, op := .output, inputs := some [0] }]⟩]

/-- The value of a constant is the first number of the payload. -/
def payloadValue (n : FNode) : Val w := .arith (BitVec.ofNat w ((n.payload.getD []).headD 0))

/-- **C65** finding: every constant is 1. -/
theorem constant_wrong {f : List Char} (hf : fileFor w = some f) (v : Nat) :
    evalModule payloadValue (constModule v) [] = some [.arith (BitVec.ofNat w v)] ∧
    ∃ c : Base (Gate w), convertModule .inline (constModule v) = some (.ok (.ofBase c)) ∧ RunsTo c [] [.arith 1] := by
  refine ⟨rfl, ?_⟩
  refine fuse_inline_plain_partial hf (fun _ => .arith 1) (constModule v) ?_ trivial ?_ ?_ _ _ rfl
  · intro cs hcs c hc ns hns n hn
    simp only [constModule, Option.some.injEq] at hcs
    subst hcs
    simp only [List.mem_cons, Option.some.injEq, List.not_mem_nil, or_false] at hc
    subst hc
    simp only [Option.some.injEq] at hns
    subst hns
    simp only [List.mem_cons, List.not_mem_nil, or_false] at hn
    rcases hn with rfl | rfl <;> exact ⟨⟨by simp, by simp⟩, by simp [constModule]⟩
  · intro cs hcs c hc ns hns n hn
    simp only [constModule, Option.some.injEq] at hcs
    subst hcs
    simp only [List.mem_cons, Option.some.injEq, List.not_mem_nil, or_false] at hc
    subst hc
    simp only [Option.some.injEq] at hns
    subst hns
    simp only [List.mem_cons, List.not_mem_nil, or_false] at hn
    rcases hn with rfl | rfl <;> simp
  · intro cs hcs c hc ns hns n hn
    simp only [constModule, Option.some.injEq] at hcs
    subst hcs
    simp only [List.mem_cons, Option.some.injEq, List.not_mem_nil, or_false] at hc
    subst hc
    simp only [Option.some.injEq] at hns
    subst hns
    simp only [List.mem_cons, List.not_mem_nil, or_false] at hn
    rcases hn with rfl | rfl <;> simp

/-- A subtraction in a sub-circuit. -/
def subModule : FModule where
  circuits := some [
    some ⟨"minus", some [
      { id := 0, op := .input }, { id := 1, op := .input }, { id := 2, op := .sub, inputs := some [0, 1] },
      { id := 3, op := .output, inputs := some [2] }]⟩,
    some ⟨"main", some [
      { id := 0, op := .input }, { id := 1, op := .input },
      { id := 2, op := .call, inputs := some [0, 1], callee := some "minus" }, { id := 3, op := .output, inputs := some [2] }]⟩]

/-- **C65** finding: inlining swaps the operands of a subtraction. -/
theorem inlined_sub_wrong (a b : BitVec 32) :
    evalModule payloadValue subModule [.arith a, .arith b] = some [.arith (a - b)] ∧
    ∃ c, convertModule .inline subModule = some (.ok (.ofBase c)) ∧
      (∃ val part, Solves (.ofBase c) [.arith a, .arith b] val part) ∧
      ∀ val part, Solves (.ofBase c) [.arith a, .arith b] val part →
        c.outputGates.map (fun g => val (0, g)) = [.arith (b - a)] := by
  obtain ⟨c, hc⟩ : ∃ c : Base (Gate 32), convertModule .inline subModule = some (.ok (.ofBase c)) := ⟨_, rfl⟩
  refine ⟨rfl, c, hc, ?_⟩
  have hb : c.gates = [.base .input, .base .input, .base .identity, .base .identity, .arith .sub, .base .identity, .base .output] ∧
      c.inputGates = [0, 1] ∧ c.outputGates = [6] ∧ (List.range 7).map c.parents = [[], [], [0], [1], [3, 2], [4], [5]] := by
    have : (.ok (.ofBase c) : Except String (Multi (Gate 32))) = .ok (.ofBase _) := Option.some.inj (hc.symm.trans rfl)
    simp only [Except.ok.injEq, Multi.ofBase, Multi.mk.injEq, List.cons.injEq, and_true] at this
    rw [this]
    decide +kernel
  obtain ⟨hg, hi, ho, hp⟩ := hb
  have gate : ∀ i, (Multi.ofBase c).gate? (0, i) = c.gates[i]? := fun i => single_gate' c i
  have par : ∀ (i : Nat) (l : List Nat), ((List.range 7).map c.parents)[i]? = some l →
      (Multi.ofBase c).parents (0, i) = l.map fun u => (0, u) := by
    intro i l hl
    rw [single_parents]
    by_cases h7 : i < 7
    · rw [List.getElem?_map, List.getElem?_range h7] at hl
      simp only [Option.map_some, Option.some.injEq] at hl
      rw [hl]
    · simp [List.getElem?_range, h7] at hl
  rw [hp] at par
  have p2 := par 2 [0] rfl
  have p3 := par 3 [1] rfl
  have p4 := par 4 [3, 2] rfl
  have p5 := par 5 [4] rfl
  have p6 := par 6 [5] rfl
  constructor
  · refine ⟨fun v => ([.arith a, .arith b, .arith a, .arith b, .arith (b - a), .arith (b - a), .arith (b - a)] : List (Val 32)).getD v.2 (.arith 0), fun _ => 0, ?_⟩
    intro v g hv'
    obtain ⟨h0, hv⟩ := single_gate c v g hv'
    obtain ⟨i, v⟩ := v
    simp only at h0 hv
    subst h0
    rw [hg] at hv
    have hlt := (List.getElem?_eq_some_iff.1 hv).1
    simp only [List.length_cons, List.length_nil] at hlt
    match v, hlt with
    | 0, _ => cases hv; exact ⟨c, 0, rfl, by rw [hi]; rfl, rfl⟩
    | 1, _ => cases hv; exact ⟨c, 1, rfl, by rw [hi]; rfl, rfl⟩
    | 2, _ => cases hv; exact ⟨_, p2, rfl⟩
    | 3, _ => cases hv; exact ⟨_, p3, rfl⟩
    | 4, _ => cases hv; exact ⟨_, _, b, a, p4, rfl, rfl, rfl⟩
    | 5, _ => cases hv; exact ⟨_, p5, rfl⟩
    | 6, _ => cases hv; exact ⟨_, p6, rfl⟩
  · intro val part hs
    obtain ⟨c0, i0, e0, f0, v0⟩ := hs (0, 0) (.base .input) (by rw [gate, hg]; rfl)
    obtain ⟨c1, i1, e1, f1, v1⟩ := hs (0, 1) (.base .input) (by rw [gate, hg]; rfl)
    simp only [Multi.ofBase, List.getElem?_cons_zero, Option.some.injEq] at e0 e1
    subst e0; subst e1
    rw [hi] at f0 f1
    simp [List.findIdx?_cons] at f0 f1
    subst f0; subst f1
    simp only [List.getElem?_cons_zero, List.getElem?_cons_succ, Option.some.injEq] at v0 v1
    have one : ∀ (i u : Nat) (g : BaseGate (Val 32)), c.gates[i]? = some (.base g) → (g = .identity ∨ g = .output) →
        (Multi.ofBase c).parents (0, i) = [u].map (fun u => (0, u)) → val (0, i) = val (0, u) := by
      intro i u g h1 h2 h3
      have := hs (0, i) (.base g) (by rw [gate, h1])
      rcases h2 with rfl | rfl
      all_goals
        obtain ⟨p, hp, hv⟩ := this
        rw [h3] at hp
        cases hp
        exact hv
    have v2 := one 2 0 _ (by rw [hg]; rfl) (.inl rfl) p2
    have v3 := one 3 1 _ (by rw [hg]; rfl) (.inl rfl) p3
    have v5 := one 5 4 _ (by rw [hg]; rfl) (.inl rfl) p5
    have v6 := one 6 5 _ (by rw [hg]; rfl) (.inr rfl) p6
    obtain ⟨p, q, x, y, h1, h2, h3, v4⟩ := hs (0, 4) (.arith .sub) (by rw [gate, hg]; rfl)
    rw [p4] at h1
    cases h1
    rw [v3, ← v1] at h2
    rw [v2, ← v0] at h3
    cases h2; cases h3
    rw [ho, List.map_cons, List.map_nil, v6, v5, v4]

/-- **C65** finding: a sub-circuit may not call another one unless calls are inlined. -/
theorem nested_call_panics : (convertModule .call exampleModule : Option (Except String (Multi (Gate 32)))) = none := rfl

/-- Both results of a sub-circuit. -/
def pairModule : FModule where
  circuits := some [
    some ⟨"pair", some [
      { id := 0, op := .input }, { id := 1, op := .output, inputs := some [0] }, { id := 2, op := .output, inputs := some [0] }]⟩,
    some ⟨"main", some [
      { id := 0, op := .input },
      { id := 2, op := .call, inputs := some [0], callee := some "pair" }, { id := 3, op := .output, inputs := some [2] }]⟩]

/-- **C65** finding: a called sub-circuit must have exactly one output unless calls are inlined. -/
theorem two_outputs_panic : (convertModule .call pairModule : Option (Except String (Multi (Gate 32)))) = none ∧
    evalModule payloadValue pairModule [.bool true] = some [(.bool true : Val 32)] := ⟨rfl, rfl⟩

/-- **C65** finding: a circuit without nodes panics instead of giving the error `MissingField("circuit.nodes")`. -/
theorem missing_nodes_panics (mode : CallMode) :
    (convertModule mode ⟨some [some ⟨"main", none⟩], none⟩ : Option (Except String (Multi (Gate w)))) = none := by
  cases mode <;> rfl

/-- **C65** finding: a reference to a later node panics. -/
theorem forward_reference_panics (mode : CallMode) :
    (convertModule mode ⟨some [some ⟨"main", some [
      { id := 1, op := .output, inputs := some [0] }, { id := 0, op := .input }]⟩], none⟩ :
        Option (Except String (Multi (Gate w)))) = none := by
  cases mode <;> rfl

end Verif.Fuse
