import Verif.Proc.Model
import Verif.Circuit.Model

/-!
The executor (crates/seec/src/executor.rs) for one party, generic in the protocol.
-/
set_option autoImplicit false

namespace Verif.Exec

open Circuit Proc

/-- The trait `Protocol`, crates/seec/src/protocols/mod.rs:40-176.  `S`: `Share`, `V`:
`ShareStorage` (also the simd share), `M`/`MS`: `Msg`/`SimdMsg`, `T`: `SetupStorage`.
The `&mut self` state is not used by the modelled protocols after the setup; `&mut
setup_storage` is returned. -/
structure Protocol (G : Type) [GateLike G] (S V M MS T : Type) where
  shareConstant : Nat → S → GateLike.Plain G → S
  evalLocal : Nat → G → List S → Option S
  computeMsg : Nat → List G → List S → List S → T → Option (M × T)
  evalInteractive : Nat → List G → List S → M → M → T → Option (List S × T)
  /-- `SIMD_SUPPORT`. -/
  simd : Bool
  shareConstantSimd : Nat → V → GateLike.Plain G → Nat → V
  evalLocalSimd : Nat → G → List V → Option V
  computeMsgSimd : Nat → List G → List V → List V → T → Option (MS × T)
  evalInteractiveSimd : Nat → List G → List V → MS → MS → T → Option (List V × T)
  /-- `ShareStorage::get`. -/
  get : V → Nat → Option S
  /-- `FromIterator<Share>` of the storage. -/
  collect : List S → V
  /-- `Default` of the storage. -/
  empty : V

/-- executor.rs:37-43 `Input`/`Output`. -/
inductive Input (S V : Type) where
  | scalar (l : List S)
  | simd (l : List V)

/-- executor.rs:37-50 `GateOutputs`.  `sc` are the entries of scalar circuits, `ve` those of simd
circuits, `set` is `output_set`, whose check (a debug assertion) is a panic here. -/
structure Store (S V : Type) where
  sc : Node → S
  ve : Node → V
  set : Node → Bool

variable {G : Type} [GateLike G] {S V M MS T : Type}

/-- dyn_layers.rs / mod.rs:135-140 `simd_size(circ_id).is_some()`. -/
def isSimd (m : Multi G) (i : Nat) : Bool :=
  match m.circs[i]? with
  | some c => c.simdSize.isSome
  | none => false

/-- The number of lanes of a circuit, 1 for scalar circuits. -/
def lanes (m : Multi G) (i : Nat) : Nat :=
  match m.circs[i]? with
  | some c => c.simdSize.getD 1
  | none => 1

/-- executor.rs:583-594 `GateOutputs::get`. -/
def Store.get (m : Multi G) (st : Store S V) (v : Node) : Option S :=
  if isSimd m v.1 then none else if st.set v then some (st.sc v) else none

/-- executor.rs:608-617 `GateOutputs::get_simd`. -/
def Store.getSimd (m : Multi G) (st : Store S V) (v : Node) : Option V :=
  if isSimd m v.1 then (if st.set v then some (st.ve v) else none) else none

/-- executor.rs:628-641 `GateOutputs::set`. -/
def Store.put (m : Multi G) (st : Store S V) (v : Node) (s : S) : Option (Store S V) :=
  if isSimd m v.1 then none
  else some { st with sc := fun u => if u = v then s else st.sc u
                      set := fun u => if u = v then true else st.set u }

/-- executor.rs `GateOutputs::set_simd`. -/
def Store.putSimd (m : Multi G) (st : Store S V) (v : Node) (x : V) : Option (Store S V) :=
  if isSimd m v.1 then
    some { st with ve := fun u => if u = v then x else st.ve u
                   set := fun u => if u = v then true else st.set u }
  else none

/-- executor.rs:155-329: evaluation of one non-interactive gate.  Operand iterators are read
completely here (the code reads them on demand). The error return `IllegalCircuit` of a scalar
sub-circuit input in a simd main circuit is `none` as well. -/
def evalNode (pr : Protocol G S V M MS T) (m : Multi G) (party : Nat) (inp : Input S V)
    (st : Store S V) (v : Node) : Option (Store S V) := do
  let g ← m.gate? v
  let mainSimd := isSimd m 0
  match asBase g with
  | some .input =>
    if v.1 = 0 then do
      let c ← m.circs[0]?
      let idx ← c.inputGates.findIdx? (· = v.2)
      match mainSimd, inp with
      | true, .simd xs => do
        let x ← xs[idx]?
        let o ← pr.evalLocalSimd party g [x]
        st.putSimd m v o
      | false, .scalar xs => do
        let x ← xs[idx]?
        let o ← pr.evalLocal party g [x]
        st.put m v o
      | _, _ => none
    else none
  | some .subCircuitInput =>
    match mainSimd, isSimd m v.1 with
    | true, true => do
      let xs ← (m.parents v).mapM (st.getSimd m)
      let o ← pr.evalLocalSimd party g xs
      st.putSimd m v o
    | false, true => do
      let xs ← (m.parents v).mapM (st.get m)
      st.putSimd m v (pr.collect xs)
    | false, false => do
      let xs ← (m.parents v).mapM (st.get m)
      let o ← pr.evalLocal party g xs
      st.put m v o
    | true, false => none
  | some (.connectToMainFromSimd sel) => do
    let p ← (m.parents v).head?
    let x ← st.getSimd m p
    let o ← pr.get x sel
    st.put m v o
  | some (.constant val) =>
    if isSimd m v.1 then
      st.putSimd m v (pr.shareConstantSimd party (st.ve v) val (lanes m v.1))
    else st.put m v (pr.shareConstant party (st.sc v) val)
  | _ =>
    if isSimd m v.1 then do
      let xs ← (m.parents v).mapM (st.getSimd m)
      let o ← pr.evalLocalSimd party g xs
      st.putSimd m v o
    else do
      let xs ← (m.parents v).mapM (st.get m)
      let o ← pr.evalLocal party g xs
      st.put m v o

/-- executor.rs:156-330: all non-interactive gates of a layer in order. -/
def evalNodes (pr : Protocol G S V M MS T) (m : Multi G) (party : Nat) (inp : Input S V) :
    Store S V → List Node → Option (Store S V)
  | st, [] => some st
  | st, v :: vs => do
    let st ← evalNode pr m party inp st v
    evalNodes pr m party inp st vs

/-- executor.rs:459-473: write the results of the interactive gates (`zip`: stops at the shorter
one). -/
def putAll (m : Multi G) : Store S V → List Node → List S → Option (Store S V)
  | st, v :: vs, x :: xs => do
    let st ← st.put m v x
    putAll m st vs xs
  | st, _, _ => some st

/-- As `putAll` for simd gates. -/
def putAllSimd (m : Multi G) : Store S V → List Node → List V → Option (Store S V)
  | st, v :: vs, x :: xs => do
    let st ← st.putSimd m v x
    putAllSimd m st vs xs
  | st, _, _ => some st

/-- dyn_layers.rs:274-291 `split_simd`: the interactive gates in scalar circuits. -/
def intScalar (m : Multi G) (l : MLayer) : List Node :=
  (l.filter fun p => !isSimd m p.1).flatMap fun p => p.2.int.map fun g => (p.1, g)

/-- dyn_layers.rs:274-291 `split_simd`: the interactive gates in simd circuits. -/
def intSimd (m : Multi G) (l : MLayer) : List Node :=
  (l.filter fun p => isSimd m p.1).flatMap fun p => p.2.int.map fun g => (p.1, g)

/-- The non-interactive gates of a layer: dyn_layers.rs:293-303. -/
def niOf (l : MLayer) : List Node := l.flatMap fun p => p.2.ni.map fun g => (p.1, g)

/-- dyn_layers.rs:264-272 `interactive_count_times_simd`. -/
def intCount (m : Multi G) (l : MLayer) : Nat :=
  (l.map fun p => lanes m p.1 * p.2.int.length).sum

/-- executor.rs:348-394: the two messages. -/
def computeMsgs (pr : Protocol G S V M MS T) (m : Multi G) (party : Nat) (st : Store S V)
    (l : MLayer) (t : T) : Option ((M × Option MS) × T) := do
  let gs ← (intScalar m l).mapM m.gate?
  let xs ← (intScalar m l).mapM fun v => (m.parents v).mapM (st.get m)
  let (sm, t) ← pr.computeMsg party gs ((intScalar m l).map st.sc) xs.flatten t
  if pr.simd then do
    let hs ← (intSimd m l).mapM m.gate?
    let ys ← (intSimd m l).mapM fun v => (m.parents v).mapM (st.getSimd m)
    let (vm, t) ← pr.computeMsgSimd party hs ((intSimd m l).map st.ve) ys.flatten t
    pure ((sm, some vm), t)
  else pure ((sm, none), t)

/-- executor.rs:400-411: the storage of freeable simd gates is replaced by the default value. -/
def free (pr : Protocol G S V M MS T) (st : Store S V) (fs : List Node) : Store S V :=
  { st with ve := fun u => if u ∈ fs then pr.empty else st.ve u }

/-- executor.rs:421-473: evaluation with the received message. -/
def finishLayer (pr : Protocol G S V M MS T) (m : Multi G) (party : Nat) (st : Store S V)
    (l : MLayer) (own other : M × Option MS) (t : T) : Option (Store S V) := do
  let gs ← (intScalar m l).mapM m.gate?
  let (zs, t) ← pr.evalInteractive party gs ((intScalar m l).map st.sc) own.1 other.1 t
  match own.2, other.2 with
  | some vo, some vr => do
    let hs ← (intSimd m l).mapM m.gate?
    let (ws, _) ← pr.evalInteractiveSimd party hs ((intSimd m l).map st.ve) vo vr t
    let st ← putAll m st (intScalar m l) zs
    putAllSimd m st (intSimd m l) ws
  | none, none => putAll m st (intScalar m l) zs
  | _, _ => none

/-- executor.rs:481-492: the outputs of the main circuit. -/
def outputs (m : Multi G) (st : Store S V) : Option (Input S V) := do
  let c ← m.circs[0]?
  if isSimd m 0 then do
    let xs ← c.outputGates.mapM fun g => st.getSimd m (0, g)
    pure (.simd xs)
  else do
    let xs ← c.outputGates.mapM fun g => st.get m (0, g)
    pure (.scalar xs)

/-- executor.rs:155-480: the loop over the layers.  Each layer comes with its freeable gates.
`setup k n` is what the `k`-th call `request_setup_output(n)` returns. -/
def execLayers (pr : Protocol G S V M MS T) (m : Multi G) (party : Nat) (inp : Input S V)
    (setup : Nat → Nat → T) : Nat → List (MLayer × List Node) → Store S V →
    Proc (M × Option MS) (Input S V)
  | _, [], st => match outputs m st with
    | some o => .done o
    | none => .fail
  | k, (l, fs) :: ls, st =>
    match evalNodes pr m party inp st (niOf l) with
    | none => .fail
    | some st =>
      if intCount m l = 0 then execLayers pr m party inp setup k ls st
      else match computeMsgs pr m party st l (setup k (intCount m l)) with
        | none => .fail
        | some (msg, t) =>
          .send msg (.recv fun other =>
            match finishLayer pr m party (free pr st fs) l msg other t with
            | none => .fail
            | some st => execLayers pr m party inp setup (k + 1) ls st)

/-! ### Freeable gates of simd circuits -/

/-- The operands of a gate inside its circuit. -/
def inParents (m : Multi G) (v : Node) : List Node :=
  match m.circs[v.1]? with
  | some c => (c.parents v.2).map fun u => (v.1, u)
  | none => []

/-- The consumers of a gate inside its circuit. -/
def inChildren (m : Multi G) (v : Node) : List Node :=
  match m.circs[v.1]? with
  | some c => (c.children v.2).map fun u => (v.1, u)
  | none => []

/-- `inputs_left_to_provide` of all circuits. -/
abbrev Left := Node → Option Nat

/-- base_circuit.rs:724-726 `entry(node).or_insert(neigh_cnt)`. -/
def leftInsert (m : Multi G) (left : Left) (v : Node) : Left :=
  match left v with
  | some _ => left
  | none => fun u => if u = v then some (inChildren m v).length else left u

/-- base_circuit.rs:757-767: decrement the counters of the operands; `none`: missing entry or
underflow. -/
def leftDec : Left → List Node → List Node → Option (Left × List Node)
  | left, fs, [] => some (left, fs)
  | left, fs, p :: ps =>
    match left p with
    | some (k + 1) =>
      leftDec (fun u => if u = p then some k else left u) (if k = 0 then fs ++ [p] else fs) ps
    | _ => none

/-- base_circuit.rs:742-768 for the local gates of a layer. -/
def leftNi (m : Multi G) : Left → List Node → List Node → Option (Left × List Node)
  | left, fs, [] => some (left, fs)
  | left, fs, v :: vs => do
    let (left, fs) ← leftDec (leftInsert m left v) fs (inParents m v)
    leftNi m left fs vs

/-- base_circuit.rs:742-768 for the interactive gates of a layer. -/
def leftInt (m : Multi G) : Left → List Node → List Node → Option (Left × List Node)
  | left, fs, [] => some (left, fs)
  | left, fs, v :: vs => do
    let (left, fs) ← leftDec left fs (inParents m v)
    leftInt m left fs vs

/-- The freeable gates of all layers (base_circuit.rs:733-768, dyn_layers.rs `freeable_simd_gates`).
Simplifications: the counters are handled in a pass of their own; local gates are processed
before the interactive ones of the same layer (the code interleaves them, which only affects the
order of the list); the entries of interactive gates are inserted at the end of their layer
instead of the beginning of the next one. -/
def freeable (m : Multi G) : Left → List MLayer → Option (List (MLayer × List Node))
  | _, [] => some []
  | left, l :: ls => do
    let ni := (niOf l).filter fun v => isSimd m v.1
    let (left, fs) ← leftNi m left [] ni
    let (left, fs) ← leftInt m left fs (intSimd m l)
    let left := (intSimd m l).foldl (leftInsert m) left
    let rest ← freeable m left ls
    pure ((l, fs) :: rest)

/-- executor.rs:124-493 `Executor::execute` on a `DynLayers` circuit, starting with the given gate
outputs (`setup_gate_outputs`). -/
def execute (pr : Protocol G S V M MS T) (m : Multi G) (party : Nat) (inp : Input S V)
    (setup : Nat → Nat → T) (st : Store S V) : Proc (M × Option MS) (Input S V) :=
  match (do
    let c ← m.circs[0]?
    let len := match inp with
      | .scalar l => l.length
      | .simd l => l.length
    if c.inputGates.length = len then do
      let it ← MIter.new m
      let ls ← MIter.collect m ((m.circs.map fun c => c.gates.length).sum + 1) it
      freeable m (fun _ => none) ls
    else none) with
  | some ls => execLayers pr m party inp setup 0 ls st
  | none => .fail

end Verif.Exec
