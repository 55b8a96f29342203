import Verif.Mixed.A2b
import Verif.Circuit.Connect

/-!
The converter for FUSE modules, crates/seec/src/parse/fuse/mod.rs.  The flatbuffer reader (module_generated.rs) is
not modelled: the tables are given as structures, optional fields of the schema are `Option`s.
`none` stands for a panic.
-/
set_option autoImplicit false

namespace Verif.Fuse

open Circuit Mixed
open Gmw (BoolGate BaseGate)

variable {w : Nat}

/-- module_generated.rs:277-304 `PrimitiveOperation`; the operations without implementation are `other`. -/
inductive PrimOp where
  | and | xor | not | add | mul | sub | input | output | constant | merge | split | call
  | other (code : Nat)
deriving DecidableEq, Repr

/-- module_generated.rs:54-64 `PrimitiveType`. -/
inductive PrimType where
  | bool | int32
  | other (code : Nat)
deriving DecidableEq, Repr

/-- module_generated.rs:626-706 `NodeTable`: the fields with a meaning for the conversion. -/
structure FNode where
  id : Nat
  op : PrimOp
  /-- `input_identifiers` -/
  inputs : Option (List Nat) := none
  /-- `input_offsets`: which output of the operand is meant. -/
  offsets : Option (List Nat) := none
  /-- the primitive types of `output_datatypes` -/
  types : Option (List PrimType) := none
  /-- the value of a constant -/
  payload : Option (List Nat) := none
  /-- `subcircuit_name` -/
  callee : Option String := none
deriving DecidableEq, Repr

/-- module_generated.rs:895-937 `CircuitTable`. -/
structure FCircuit where
  name : String
  nodes : Option (List FNode)
deriving DecidableEq, Repr

/-- module_generated.rs:1193-1207 `ModuleTable`.  A circuit is `none` if its nested buffer is missing. -/
structure FModule where
  circuits : Option (List (Option FCircuit))
  entryPoint : Option String := none

/-- mod.rs:61-65 `CallMode`. -/
inductive CallMode where
  | inline | call
deriving DecidableEq, Repr

/-- mod.rs:31-35 `FuseConverter` without the mode.  The circuits of the builder are given by value; circuits are
not changed after their registration. -/
structure FConv (w : Nat) where
  /-- `builder.circuits` -/
  circs : List (Base (Gate w)) := [({} : Base _)]
  /-- `builder.connections` -/
  conns : CrossConns := {}
  /-- `sc_map`, last insertion first. -/
  scMap : List (String × Base (Gate w)) := []

/-- mod.rs:270-287 `has_one_to_one_mapping`. -/
def PrimOp.oneToOne : PrimOp → Bool
  | .and | .xor | .not | .add | .sub | .mul | .input | .output | .constant | .merge => true
  | _ => false

/-- mod.rs:173-201: the gate of a one to one operation. -/
def gateOf (inMain : Bool) (n : FNode) : Option (Gate w) :=
  match n.op with
  | .and => some (.bool .and)
  | .xor => some (.bool .xor)
  | .not => some (.bool .inv)
  | .add => some (.arith .add)
  | .mul => some (.arith .mul)
  | .sub => some (.arith .sub)
  | .input => some (.base (if inMain then .input else .subCircuitInput))
  | .output => some (.base (if inMain then .output else .subCircuitOutput))
  | .constant =>
    match n.types with
    | none => some (.base (.constant (.bool true)))
    | some (.bool :: _) => some (.base (.constant (.bool true)))
    | some (.int32 :: _) => some (.base (.constant (.arith 1)))
    | some _ => none
  | .merge => some (.conv .b2a)
  | _ => none

/-- mod.rs:209-212: identities behind the bits of `a2b`. -/
def identities (bc : Base (Gate w)) : List Nat → Option (Base (Gate w) × List Nat)
  | [] => some (bc, [])
  | s :: ss => do
    let (bc, i) ← bc.addWiredGate (.base .identity) [s]
    let (bc, is) ← identities bc ss
    some (bc, i :: is)

/-- builder.rs:220-243 `connect_sub_circuit` for gates of the main circuit. -/
def connectSub (st : FConv w) (inputs : List Nat) (sc : Nat) (c : Base (Gate w)) : Option (FConv w) := do
  let x ← st.conns.connect ⟨inputs.map fun g => (0, g), sc, c.scInputGates,
    fun t => ((c.gates[t]?).map Gate.inputSize).getD 0, false⟩
  some { st with conns := x }

/-- `bc.add_gate(SubCircuitInput)`, `n` times. -/
def addScInputs (bc : Base (Gate w)) : Nat → Base (Gate w) × List Nat
  | 0 => (bc, [])
  | n + 1 =>
    let (bc, i) := bc.addGate (.base .subCircuitInput)
    let (bc, is) := addScInputs bc n
    (bc, i :: is)

/-- mod.rs:160-267 `add_node`. -/
def addNode (mode : CallMode) (inMain : Bool) (st : FConv w) (bc : Base (Gate w)) (n : FNode) (inputs : List Nat) :
    Option (FConv w × Base (Gate w) × Nat) :=
  if n.op.oneToOne then do
    let g ← gateOf inMain n
    let (bc, id) ← bc.addWiredGate g inputs
    some (st, bc, id)
  else
    match n.op with
    | .split =>
      match inputs with
      | [a] => do
        let (bc, shares) ← a2b bc a
        let (bc, ids) ← identities bc shares
        let id ← ids.head?
        some (st, bc, id)
      | _ => none
    | .call =>
      match mode with
      | .call =>
        if inMain then do
          let name ← n.callee
          let circ ← st.scMap.lookup name
          let sc := st.circs.length
          let st := { st with circs := st.circs ++ [circ] }
          let st ← connectSub st inputs sc circ
          let (bc, mainInputs) := addScInputs bc circ.scOutputGates.length
          let x ← st.conns.connect ⟨circ.scOutputGates.map fun g => (sc, g), 0, mainInputs,
            fun t => ((bc.gates[t]?).map Gate.inputSize).getD 0, false⟩
          match mainInputs with
          | [i] => some ({ st with conns := x }, bc, i)
          | _ => none
        else none
      | .inline => do
        let name ← n.callee
        let circ ← st.scMap.lookup name
        let (bc, outs) ← bc.addSubCircuit circ inputs
        let o ← outs.head?
        some (st, bc, o)
    | _ => none

/-- mod.rs:138-150: the loop over the nodes.  `keys` is `key_map`. -/
def addNodes (mode : CallMode) (inMain : Bool) : List FNode → FConv w → Base (Gate w) → List (Nat × Nat) →
    Option (FConv w × Base (Gate w))
  | [], st, bc, _ => some (st, bc)
  | n :: ns, st, bc, keys => do
    let inputs ← (n.inputs.getD []).mapM fun i => keys.lookup i
    let (st, bc, id) ← addNode mode inMain st bc n inputs
    addNodes mode inMain ns st bc (if (keys.lookup n.id).isSome then keys else (n.id, id) :: keys)

/-- mod.rs:131-158 `add_fuse_sub_circ`. -/
def addCircuit (mode : CallMode) (st : FConv w) (c : FCircuit) (isMain : Bool) : Option (FConv w) := do
  let nodes ← c.nodes
  let (st, bc) ← addNodes mode isMain nodes st {} []
  if isMain then
    some { st with circs := bc :: st.circs.tail }
  else
    some { st with scMap := (c.name, bc) :: st.scMap }

/-- mod.rs:96-111: the loop over the sub-circuits.  `error`: `ConversionError::MissingField`. -/
def addSubs (mode : CallMode) (ep : String) : List (Option FCircuit) → FConv w → Option (Except String (FConv w))
  | [], st => some (.ok st)
  | none :: _, _ => some (.error "circuit_buffer_nested_flatbuffer")
  | some c :: cs, st =>
    if c.name = ep then addSubs mode ep cs st
    else do
      let st ← addCircuit mode st c false
      addSubs mode ep cs st

/-- mod.rs:115-126: the search for the main circuit. -/
def addMain (mode : CallMode) (ep : String) : List (Option FCircuit) → FConv w → Option (Except String (FConv w))
  | [], st => some (.ok st)
  | none :: _, _ => some (.error "circuit_buffer_nested_flatbuffer")
  | some c :: cs, st =>
    if c.name = ep then (addCircuit mode st c true).map .ok
    else addMain mode ep cs st

/-- builder.rs:340-375 `into_circuit` (see C48 for the sharing of circuits). -/
def FConv.intoCircuit (st : FConv w) : Multi (Gate w) := ⟨st.circs, st.conns.outgoing, st.conns.incoming⟩

/-- mod.rs:90-129 `convert_module`. -/
def convertModule (mode : CallMode) (m : FModule) : Option (Except String (Multi (Gate w))) :=
  let ep := m.entryPoint.getD "main"
  match m.circuits with
  | none => some (.error "circuits")
  | some cs =>
    match addSubs mode ep cs ({} : FConv w) with
    | none => none
    | some (.error e) => some (.error e)
    | some (.ok st) =>
      match addMain mode ep cs st with
      | none => none
      | some (.error e) => some (.error e)
      | some (.ok st) => some (.ok st.intoCircuit)

end Verif.Fuse
