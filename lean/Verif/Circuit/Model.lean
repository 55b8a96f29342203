import Verif.Gmw.Model

/-!
Circuits: the gate graph, its construction API and the layer iterators.

`GateId`s are `Nat`; overflow of the index type (`u32` by default) is not modelled.
`none` stands for a panic.
-/
set_option autoImplicit false

namespace Verif.Circuit

open Gmw (BaseGate)

/-- What the circuit code needs to know about a gate type: trait `Gate`, protocols/mod.rs
(`is_interactive`, `as_base_gate`, `wrap_base_gate`). -/
class GateLike (G : Type) where
  Plain : Type
  interactive : G → Bool
  asBase : G → Option (BaseGate Plain)
  wrapBase : BaseGate Plain → G

export GateLike (interactive asBase wrapBase)

/-- boolean_gmw.rs:270-300 `impl Gate<bool> for BooleanGate`. -/
instance : GateLike Gmw.BoolGate where
  Plain := Bool
  interactive := Gmw.BoolGate.isInteractive
  asBase
    | .base b => some b
    | _ => none
  wrapBase := .base

/-- crates/seec/src/circuit/base_circuit.rs:35-46 `BaseCircuit`.  The petgraph `Graph` is the
list of gates (node weights in index order) and the list of edges in insertion order. -/
structure Base (G : Type) where
  gates : List G := []
  edges : List (Nat × Nat) := []
  isMain : Bool := false
  simdSize : Option Nat := none
  interactiveCount : Nat := 0
  inputGates : List Nat := []
  outputGates : List Nat := []
  constantGates : List Nat := []
  scOutputGates : List Nat := []
  scInputGates : List Nat := []

variable {G : Type}

/-- petgraph `neighbors_directed(.., Incoming)`: the incoming edges are a linked list with the
most recently added edge first.  base_circuit.rs:151-158 `parent_gates`. -/
def Base.parents (c : Base G) (v : Nat) : List Nat :=
  (c.edges.reverse.filter (fun e => e.2 = v)).map (·.1)

/-- petgraph `neighbors`: targets of outgoing edges, most recently added first. -/
def Base.children (c : Base G) (v : Nat) : List Nat :=
  (c.edges.reverse.filter (fun e => e.1 = v)).map (·.2)

/-- base_circuit.rs:113-133 `add_gate`. -/
def Base.addGate [GateLike G] (c : Base G) (g : G) : Base G × Nat :=
  let id := c.gates.length
  let c := { c with gates := c.gates ++ [g] }
  let c := match asBase g with
    | some .input => { c with inputGates := c.inputGates ++ [id] }
    | some (.constant _) => { c with constantGates := c.constantGates ++ [id] }
    | some .output => { c with outputGates := c.outputGates ++ [id] }
    | some .subCircuitOutput => { c with scOutputGates := c.scOutputGates ++ [id] }
    | some .subCircuitInput | some .connectToMain | some (.connectToMainFromSimd _) =>
        { c with scInputGates := c.scInputGates ++ [id] }
    | some .debug | some .identity | none => c
  let c := if interactive g then { c with interactiveCount := c.interactiveCount + 1 } else c
  (c, id)

/-- base_circuit.rs:136-144 `add_sc_input_gate`. -/
def Base.addScInputGate [GateLike G] (c : Base G) (g : G) : Base G × Nat :=
  let (c, id) := c.addGate g
  match asBase g with
  | some .subCircuitInput => (c, id)
  | _ => ({ c with scInputGates := c.scInputGates ++ [id] }, id)

/-- base_circuit.rs:200-203 `add_wire`; petgraph panics if an endpoint does not exist. -/
def Base.addWire (c : Base G) (src dst : Nat) : Option (Base G) :=
  if src < c.gates.length ∧ dst < c.gates.length then
    some { c with edges := c.edges ++ [(src, dst)] }
  else none

/-- base_circuit.rs:205-213 `add_wired_gate`: wires are added in reverse order. -/
def Base.addWiredGate [GateLike G] (c : Base G) (g : G) (from_ : List Nat) :
    Option (Base G × Nat) := do
  let (c, id) := c.addGate g
  let c ← from_.reverse.foldlM (fun c s => c.addWire s id) c
  pure (c, id)

/-- base_circuit.rs:600-609 `CircuitLayer`; gates are looked up by id when needed.
`freeable_gates` (SIMD only) is not part of this definition. -/
structure Layer where
  ni : List Nat
  int : List Nat
deriving DecidableEq, Repr

/-- base_circuit.rs:519-532 `BaseLayerIter`, without the SIMD freeing counter.
`to_visit` is empty between calls and therefore not part of the state. -/
structure Iter where
  needed : Nat → Nat
  prev : List Nat
  nextLayer : List Nat
  produced : Nat

/-- base_circuit.rs:712-731 `update_queue`: one entry of the loop over the neighbours.
`none` is the `u32` underflow (a panic in debug builds). -/
def relax (needed : Nat → Nat) (queue : List Nat) : List Nat → Option ((Nat → Nat) × List Nat)
  | [] => some (needed, queue)
  | v :: vs =>
    if needed v = 0 then none
    else
      let k := needed v - 1
      let needed' := fun u => if u = v then k else needed u
      relax needed' (if k = 0 then queue ++ [v] else queue) vs

/-- base_circuit.rs:733-740: relax the interactive gates of the previous layer. -/
def relaxAll (c : Base G) (needed : Nat → Nat) (queue : List Nat) :
    List Nat → Option ((Nat → Nat) × List Nat)
  | [] => some (needed, queue)
  | u :: us => do
    let (needed, queue) ← relax needed queue (c.children u)
    relaxAll c needed queue us

/-- base_circuit.rs:742-769: the visiting loop.  `fuel` bounds the number of iterations, running
out of it is reported as `none` (the theorems show this does not happen). -/
def visit [GateLike G] (c : Base G) : Nat → (Nat → Nat) → List Nat → Layer →
    Option ((Nat → Nat) × Layer)
  | _, needed, [], layer => some (needed, layer)
  | 0, _, _ :: _, _ => none
  | fuel + 1, needed, v :: queue, layer =>
    match c.gates[v]? with
    | none => none
    | some g =>
      if interactive g then
        visit c fuel needed queue { layer with int := layer.int ++ [v] }
      else do
        let (needed, queue) ← relax needed queue (c.children v)
        visit c fuel needed queue { layer with ni := layer.ni ++ [v] }

/-- base_circuit.rs:548-573 `BaseLayerIter::new_uninit`. -/
def Iter.newUninit (c : Base G) : Iter where
  needed v := (c.parents v).length
  prev := []
  nextLayer := c.constantGates
  produced := 0

/-- base_circuit.rs:535-546 `BaseLayerIter::new`. -/
def Iter.new (c : Base G) : Iter :=
  let i := Iter.newUninit c
  { i with nextLayer := i.nextLayer ++ c.inputGates }

/-- base_circuit.rs:575-584 `visit_sc_inputs`. -/
def Iter.visitScInputs (c : Base G) (i : Iter) : Iter :=
  { i with nextLayer := i.nextLayer ++ c.scInputGates }

/-- base_circuit.rs:595-597 `is_exhausted`. -/
def Iter.isExhausted (c : Base G) (i : Iter) : Bool := i.produced = c.gates.length

/-- base_circuit.rs:706-776 `BaseLayerIter::next`.  The outer option is a panic, the inner one
the end of the iteration. -/
def Iter.next [GateLike G] (c : Base G) (i : Iter) : Option (Option Layer × Iter) := do
  let (needed, queue) ← relaxAll c i.needed i.nextLayer i.prev
  let (needed, layer) ← visit c (queue.length + c.gates.length) needed queue ⟨[], []⟩
  let i' : Iter := { needed, prev := layer.int, nextLayer := [], produced := i.produced }
  if layer.ni = [] ∧ layer.int = [] then
    pure (none, i')
  else
    pure (some layer, { i' with produced := i.produced + (layer.int.length + layer.ni.length) })

/-! ### Circuits consisting of several sub-circuits -/

/-- builder.rs:50-53 `SubCircuitGate`: circuit id and gate id. -/
abbrev Node := Nat × Nat

/-- dyn_layers.rs:25-29 `Circuit`.  `circs[i]` is `get_circ(i)` (the sharing of identical
sub-circuits through `circ_map` is transparent, see C48); the two directions of
`CrossCircuitConnections` are given by their look-up functions. -/
structure Multi (G : Type) where
  circs : List (Base G)
  outgoing : Node → List Node
  incoming : Node → List Node

/-- dyn_layers.rs:333-341 `From<BaseCircuit>`. -/
def Multi.ofBase (c : Base G) : Multi G := ⟨[c], fun _ => [], fun _ => []⟩

/-- dyn_layers.rs:51-61 `parent_gates`. -/
def Multi.parents (m : Multi G) (v : Node) : List Node :=
  (match m.circs[v.1]? with
    | some c => (c.parents v.2).map fun u => (v.1, u)
    | none => []) ++ m.incoming v

/-- dyn_layers.rs:46-48 `get_gate`. -/
def Multi.gate? (m : Multi G) (v : Node) : Option G :=
  m.circs[v.1]? >>= fun c => c.gates[v.2]?

/-- dyn_layers.rs:180-183 `CircuitLayerIter`: the hash map from circuit ids to iterators.  Its
iteration order does not matter as the layers are sorted by id (229). -/
abbrev MIter := Nat → Option Iter

/-- dyn_layers.rs:186-192 `CircuitLayerIter::new`. -/
def MIter.new (m : Multi G) : Option MIter := do
  let c ← m.circs[0]?
  pure fun i => if i = 0 then some (Iter.new c) else none

/-- dyn_layers.rs:196-203 `CircuitLayer` (without the simd sizes, which are those of the
circuits). -/
abbrev MLayer := List (Nat × Layer)

/-- dyn_layers.rs:214-229: call `next` on every iterator, in circuit order (the result is sorted
by circuit id), and drop the exhausted ones. -/
def stepAll [GateLike G] (m : Multi G) (it : MIter) : List Nat → Option (MLayer × MIter)
  | [] => some ([], it)
  | i :: is =>
    match it i, m.circs[i]? with
    | none, _ => stepAll m it is
    | some _, none => none
    | some s, some c => do
      let (l, s') ← s.next c
      let it' : MIter := fun j => if j = i then (if s'.isExhausted c then none else some s') else it j
      let (ls, it'') ← stepAll m it' is
      pure (match l with
        | some l => ((i, l) :: ls, it'')
        | none => (ls, it''))

/-- dyn_layers.rs:238-246: insert a gate into the next layer of its circuit. -/
def pushTarget (m : Multi G) (it : MIter) (t : Node) : Option MIter := do
  let s ← match it t.1 with
    | some s => some s
    | none => (m.circs[t.1]?).map Iter.newUninit
  pure fun j => if j = t.1 then some { s with nextLayer := s.nextLayer ++ [t.2] } else it j

/-- dyn_layers.rs:230-249: the targets of all cross connections leaving the layer, in order. -/
def layerTargets (m : Multi G) (l : MLayer) : List Node :=
  l.flatMap fun (i, l) => (l.ni ++ l.int).flatMap fun g => m.outgoing (i, g)

/-- dyn_layers.rs:212-260 `CircuitLayerIter::next`. -/
def MIter.next [GateLike G] (m : Multi G) (it : MIter) : Option (Option MLayer × MIter) := do
  let (l, it) ← stepAll m it (List.range m.circs.length)
  let it ← (layerTargets m l).foldlM (pushTarget m) it
  pure (if l = [] then none else some l, it)

/-- Run the iterator until it ends.  `none`: a panic, or more than `fuel` layers. -/
def MIter.collect [GateLike G] (m : Multi G) : Nat → MIter → Option (List MLayer)
  | 0, _ => none
  | fuel + 1, it => do
    let (l, it) ← MIter.next m it
    match l with
    | none => pure []
    | some l => do
      let ls ← MIter.collect m fuel it
      pure (l :: ls)

end Verif.Circuit
