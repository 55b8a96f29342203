import Verif.Circuit.Connect
import Verif.Circuit.Dedup
import Verif.Exec.Calls

/-!
Functions annotated with `#[sub_circuit]`: the code generated by crates/seec-macros/src/sub_circuit.rs
on top of the global builder (crates/seec/src/circuit/builder.rs).

Simplifications: arguments are slices `&[Secret]`, the result is a `Vec<Secret>` or an array (the
generated code is the same for `&[[Secret; N]]`, whose elements are flattened); a function body consists of
`Secret` operators only (a `#[sub_circuit]` call inside a body panics, see `busy`).  `none` stands for a
panic.
-/
set_option autoImplicit false

namespace Verif.Macro

open Circuit Gmw

/-! ### Programs -/

/-- A gate created by a `Secret` operator, with its operands: variables, numbered in the order of
their creation.  Operators that create several gates are several of these (see C12). -/
abbrev Op := BoolGate × List Nat

/-- What the body of a function does for some argument lengths: the operators it applies, the
arguments being the first variables, and the variables it returns: one `Secret` (`single`), or an array or
`Vec` of them. -/
structure Body where
  ops : List Op
  ret : List Nat
  single : Bool

/-- The functions of a program.  Control flow can depend on the lengths of the arguments only, as
values are secret. -/
abbrev Fns := Nat → List Nat → Body

/-- Statements of the main function.  Each creates variables: `call` one for each returned secret, the others one
(for `output`, the id of the output gate). -/
inductive Stmt where
  /-- `Secret::input(0)` -/
  | input
  /-- A `Secret` operator. -/
  | op (g : BoolGate) (args : List Nat)
  /-- A call of a `#[sub_circuit]` function. -/
  | call (f : Nat) (args : List (List Nat))
  /-- `secret.output()` -/
  | output (a : Nat)

/-! ### Model -/

/-- The global state.  `heap` are the `SharedCircuit`s by address. -/
structure St where
  heap : List (Base BoolGate)
  /-- builder.rs:56 `circuits` -/
  ptrs : List Nat
  /-- builder.rs:57 `connections` -/
  conns : CrossConns
  /-- builder.rs:58 `caches`: the functions whose cache is registered. -/
  caches : List Nat
  /-- sub_circuit.rs:76-83 the static `CACHE` of each function: argument lengths to the circuit and
  the gates of the returned secrets. -/
  cache : Nat → List Nat → Option (Nat × List Nat)
  /-- builder.rs:47 `EVALUATING_SUB_CIRCUIT` -/
  busy : Bool

/-- Operands are looked up in the variables. -/
def lookup (vars : List Nat) : List Nat → Option (List Nat)
  | [] => some []
  | a :: as => do
    let x ← vars[a]?
    let xs ← lookup vars as
    pure (x :: xs)

/-- secret.rs:67-76, 374-382 `sub_circuit_input`s of one slice, builder.rs:538-552 `with_input`. -/
def addScInputs : Nat → Base BoolGate → Base BoolGate × List Nat
  | 0, c => (c, [])
  | n + 1, c =>
    let (c, i) := c.addScInputGate (.base .subCircuitInput)
    let (c, is) := addScInputs n c
    (c, i :: is)

/-- sub_circuit.rs:31-40: the nested `with_input`s, the first argument outermost. -/
def withInputs : List Nat → Base BoolGate → Base BoolGate × List (List Nat)
  | [], c => (c, [])
  | n :: ns, c =>
    let (c, ids) := addScInputs n c
    let (c, rest) := withInputs ns c
    (c, ids :: rest)

/-- The operators of a body (secret.rs:130-302, see C12). -/
def addOps : List Op → List Nat → Base BoolGate → Option (Base BoolGate × List Nat)
  | [], vars, c => some (c, vars)
  | (g, args) :: ops, vars, c => do
    let from_ ← lookup vars args
    let (c, id) ← c.addWiredGate g from_
    addOps ops (vars ++ [id]) c

/-- builder.rs:461-463, 486-488, 529-531 `create_output_gates`, secret.rs:78-86 `sub_circuit_output`. -/
def addOutputs : List Nat → Base BoolGate → Option (Base BoolGate × List Nat)
  | [], c => some (c, [])
  | a :: as, c => do
    let (c, id) ← c.addWiredGate (.base .subCircuitOutput) [a]
    let (c, ids) ← addOutputs as c
    pure (c, id :: ids)

/-- sub_circuit.rs:94-98: run the body on the inputs of a new circuit. -/
def trace (sizes : List Nat) (b : Body) : Option (Base BoolGate × List Nat) := do
  let (c, inputs) := withInputs sizes {}
  let (c, vars) ← addOps b.ops inputs.flatten c
  let ret ← lookup vars b.ret
  addOutputs ret c

/-- sub_circuit.rs:93-107: the circuit of the call, pushed to the builder. -/
def St.enter (F : Fns) (s : St) (f : Nat) (sizes : List Nat) : Option (St × Nat × List Nat) :=
  match s.cache f sizes with
  | none => do
    let (c, ret) ← trace sizes (F f sizes)
    pure ({ s with
      heap := s.heap ++ [c]
      ptrs := s.ptrs ++ [s.heap.length]
      cache := fun g k => if g = f ∧ k = sizes then some (s.heap.length, ret) else s.cache g k },
      s.ptrs.length, ret)
  | some (p, ret) => some ({ s with ptrs := s.ptrs ++ [p] }, s.ptrs.length, ret)

/-- The circuit with the given id. -/
def St.circ (s : St) (i : Nat) : Option (Base BoolGate) := s.ptrs[i]? >>= fun p => s.heap[p]?

/-- Edit a circuit. -/
def St.setCirc (s : St) (i : Nat) (c : Base BoolGate) : Option St := do
  let p ← s.ptrs[i]?
  pure { s with heap := s.heap.set p c }

/-- builder.rs:465-479, 490-503 `connect_to_main` of an array or a `Vec`; `single`: builder.rs:533-543, the
`connect_to_main` of one `Secret`, which uses `connect_circuits`.  The `input_size` of a sub-circuit input is 1
(gate/base.rs). -/
def St.connectToMain (s : St) (sc : Nat) (ret : List Nat) (single : Bool) : Option (St × List Nat) := do
  let c ← s.circ 0
  let (c, ids) := addScInputs ret.length c
  let s ← s.setCirc 0 c
  let x ← s.conns.connect ⟨ret.map fun g => (sc, g), 0, ids, fun _ => 1, single⟩
  pure ({ s with conns := x }, ids)

/-- sub_circuit.rs:52-121: the generated function.  `args` are gates of the main circuit. -/
def St.call (F : Fns) (s : St) (f : Nat) (args : List (List Nat)) : Option (St × List Nat) :=
  if s.busy then none else do
    let s := { s with busy := true, caches := f :: s.caches }
    let (s, sc, ret) ← s.enter F f (args.map List.length)
    -- builder.rs:219-243 `connect_sub_circuit`
    let c ← s.circ sc
    let x ← s.conns.connect ⟨args.flatten.map fun g => (0, g), sc, c.scInputGates, fun _ => 1, false⟩
    let s := { s with conns := x, busy := false }
    s.connectToMain sc ret (F f (args.map List.length)).single

/-- One statement. -/
def step (F : Fns) (s : St) (vars : List Nat) : Stmt → Option (St × List Nat)
  | .input => do
    let c ← s.circ 0
    let (c, id) := c.addGate (.base .input)
    let s ← s.setCirc 0 c
    pure (s, vars ++ [id])
  | .op g args => do
    let c ← s.circ 0
    let from_ ← lookup vars args
    let (c, id) ← c.addWiredGate g from_
    let s ← s.setCirc 0 c
    pure (s, vars ++ [id])
  | .call f args => do
    let args ← args.mapM (lookup vars)
    let (s, ids) ← s.call F f args
    pure (s, vars ++ ids)
  | .output a => do
    let c ← s.circ 0
    let from_ ← lookup vars [a]
    let (c, id) ← c.addWiredGate (.base .output) from_
    let s ← s.setCirc 0 c
    pure (s, vars ++ [id])

def run (F : Fns) : List Stmt → St → List Nat → Option (St × List Nat)
  | [], s, vars => some (s, vars)
  | st :: r, s, vars => step F s vars st >>= fun p => run F r p.1 p.2

/-- The contents of the shared circuits. -/
def St.mem (s : St) (p : Nat) : Base BoolGate := s.heap.getD p {}

/-- builder.rs:340-373 `into_circuit` takes the contents out of the shared circuits. -/
def taken (s : St) : List (Base BoolGate) :=
  (List.range s.heap.length).map fun p => if p ∈ s.ptrs then {} else s.mem p

/-- builder.rs:124-128 `global_into_circuit`: the finished circuit is `intoCircuit` of the builder, a
new builder becomes the global one, the registered caches are cleared. -/
def St.globalIntoCircuit (s : St) : St where
  heap := taken s ++ [{}]
  ptrs := [s.heap.length]
  conns := {}
  caches := []
  cache f k := if f ∈ s.caches then none else s.cache f k
  busy := s.busy

/-- builder.rs:90-92 `CircuitBuilder::new().install()`, followed by `into_circuit` on the builder it
returns. -/
def St.installIntoCircuit (s : St) : St where
  heap := taken s ++ [{}]
  ptrs := [s.heap.length]
  conns := {}
  caches := []
  cache := s.cache
  busy := s.busy

/-- The state when a program starts. -/
structure Fresh (s : St) : Prop where
  main : ∃ h : List (Base BoolGate), s.heap = h ++ [({} : Base BoolGate)] ∧ s.ptrs = [h.length]
  conns : s.conns = {}
  cache : ∀ f k, s.cache f k = none
  busy : s.busy = false

end Verif.Macro
