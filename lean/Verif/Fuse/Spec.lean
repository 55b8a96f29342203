import Verif.Fuse.Model

/-!
What a FUSE module means: a reference evaluator, and the modules for which the converter is claimed to be correct.
-/
set_option autoImplicit false

namespace Verif.Fuse

open Circuit Mixed Adder

variable {w : Nat}

/-- The values computed so far: all outputs of each node; the inputs not used yet; the outputs. -/
structure EvalSt (w : Nat) where
  vals : List (Nat × List (Val w)) := []
  ins : List (Val w)
  outs : List (Val w) := []

/-- The operands of a node: output `offsets[k]` of node `inputs[k]`; a missing offset is 0. -/
def operands (vals : List (Nat × List (Val w))) (offsets : List Nat) : List Nat → Option (List (Val w))
  | [] => some []
  | i :: is => do
    let outs ← vals.lookup i
    let x ← outs[offsets.headD 0]?
    let xs ← operands vals offsets.tail is
    some (x :: xs)

/-- The outputs of a node.  `call` gives the outputs of the sub-circuits, `cst` the values of the constants. -/
def evalOp (call : String → List (Val w) → Option (List (Val w))) (cst : FNode → Val w) (n : FNode) :
    List (Val w) → Option (List (Val w))
  | args =>
    match n.op, args with
    | .and, [.bool a, .bool b] => some [.bool (a && b)]
    | .xor, [.bool a, .bool b] => some [.bool (a ^^ b)]
    | .not, [.bool a] => some [.bool !a]
    | .add, [.arith a, .arith b] => some [.arith (a + b)]
    | .mul, [.arith a, .arith b] => some [.arith (a * b)]
    | .sub, [.arith a, .arith b] => some [.arith (a - b)]
    | .output, [x] => some [x]
    | .constant, [] => some [cst n]
    | .merge, args => do
      let bits ← args.mapM Val.unwrapBool
      if bits.length = w then some [.arith (BitVec.ofNat w (bitsVal bits))] else none
    | .split, [.arith a] => some ((bitsOf a).map .bool)
    | .call, args => do
      let name ← n.callee
      call name args
    | _, _ => none

/-- Evaluate a node.  Identifiers must be new; nodes without any output have no meaning. -/
def evalNode (call : String → List (Val w) → Option (List (Val w))) (cst : FNode → Val w) (s : EvalSt w) (n : FNode) :
    Option (EvalSt w) := do
  let args ← operands s.vals (n.offsets.getD []) (n.inputs.getD [])
  if (s.vals.lookup n.id).isSome then none
  else
    match n.op, args, s.ins with
    | .input, [], x :: ins => some { s with vals := (n.id, [x]) :: s.vals, ins := ins }
    | .input, _, _ => none
    | _, _, _ => do
      let r ← evalOp call cst n args
      if r = [] then none
      else some { s with vals := (n.id, r) :: s.vals, outs := s.outs ++ if n.op = .output then r else [] }

/-- Evaluate a circuit: inputs and outputs are those of the input and output nodes in the order of the nodes. -/
def evalCircuit (call : String → List (Val w) → Option (List (Val w))) (cst : FNode → Val w) (c : FCircuit)
    (ins : List (Val w)) : Option (List (Val w)) := do
  let nodes ← c.nodes
  let s ← nodes.foldlM (evalNode call cst) { ins := ins }
  if s.ins = [] then some s.outs else none

/-- The sub-circuits, last one first: each may call the ones before it. -/
def evalSub (cst : FNode → Val w) : List FCircuit → String → List (Val w) → Option (List (Val w))
  | [], _, _ => none
  | c :: earlier, name, ins =>
    if c.name = name then evalCircuit (evalSub cst earlier) cst c ins else evalSub cst earlier name ins

/-- A module whose circuits are all present: the entry point is evaluated, it may call all others. -/
def evalModule (cst : FNode → Val w) (m : FModule) (ins : List (Val w)) : Option (List (Val w)) := do
  let cs ← m.circuits
  let cs ← cs.mapM id
  let main ← cs.find? fun c => c.name = m.entryPoint.getD "main"
  evalCircuit (evalSub cst (cs.filter fun c => c.name ≠ m.entryPoint.getD "main").reverse) cst main ins

/-! ### The supported modules -/

/-- Only first outputs are used, constants are one or true. -/
structure NodeOk (cst : FNode → Val w) (n : FNode) : Prop where
  first : ∀ o ∈ n.offsets.getD [], o = 0
  const : n.op = .constant → ((n.types = none ∨ ∃ ts, n.types = some (.bool :: ts)) ∧ cst n = .bool true) ∨
    ((∃ ts, n.types = some (.int32 :: ts)) ∧ cst n = .arith 1)

/-- Nodes of sub-circuits: besides, the order of the operands is irrelevant. -/
def SubNodeOk (n : FNode) : Prop := n.op ≠ .sub ∧ n.op ≠ .merge

/-- The modules for which the conversion is correct. -/
def Supported (cst : FNode → Val w) (m : FModule) : Prop :=
  ∀ cs, m.circuits = some cs → ∀ c, some c ∈ cs → ∀ ns, c.nodes = some ns → ∀ n ∈ ns,
    NodeOk cst n ∧ (c.name ≠ m.entryPoint.getD "main" → SubNodeOk n)

end Verif.Fuse
