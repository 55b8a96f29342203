import Verif.Tensor.Setup
import Verif.Aby2.TwoParty

/-!
Circuits of Boolean ABY2 with matrices: the protocol for the executor, `setup_gate_outputs` and
`AbySetupProvider` (crates/seec/src/protocols/tensor_aby2.rs).
-/
set_option autoImplicit false

namespace Verif.Tensor

open Gmw (BaseGate)
open Bitmat (BitMatrix)
open Circuit Exec Proc Secret
open Mail (mapB)
open Aby2 (mapSt layers interactiveNodes iterNodes readOutputs ShareType InputBy shareType)

/-- tensor_aby2.rs:68-84 `BooleanGate` with its `Base` gates; `dim` is the dimension (`DynDim`) of a
base gate, which is only looked at for inputs. -/
inductive TGate where
  | base (b : BaseGate PShare) (dim : List Nat)
  | op (g : Gate)
deriving DecidableEq, Repr

/-- tensor_aby2.rs:486-515 `Gate for BooleanGate`. -/
instance : GateLike TGate where
  Plain := PShare
  interactive
    | .op .and2 | .op (.matMult _ _) => true
    | _ => false
  asBase
    | .base b _ => some b
    | .op _ => none
  wrapBase b := .base b []

/-- tensor_aby2.rs:155-181 `evaluate_non_interactive`. -/
def evalNode (party : Nat) (g : TGate) (inputs : List TShare) : Option TShare :=
  match g with
  | .base b _ => b.defaultEvaluate inputs
  | .op g => evalLocal party g inputs

/-- The gate of an interactive gate. -/
def TGate.op? : TGate → Option Gate
  | .op g => some g
  | .base _ _ => none

/-- tensor_aby2.rs:125-254 `Protocol for BoolTensorAby2`.  A constant whose sharing panics is a zero
here; the setup panics for every constant anyway. -/
def tensorAby2 : Protocol TGate TShare (List TShare) (List PShare) Unit SetupData where
  shareConstant party _ v := (shareConstant party v).getD (.scalar false false)
  evalLocal := evalNode
  computeMsg party gs outs xs d := do
    let gs ← gs.mapM TGate.op?
    computeMsg party (gs.zip outs) xs d
  evalInteractive _ _ outs own other d := (evaluateInteractive outs own other).map (·, d)
  simd := false
  shareConstantSimd _ _ _ _ := []
  evalLocalSimd _ _ _ := none
  computeMsgSimd _ _ _ _ _ := none
  evalInteractiveSimd _ _ _ _ _ _ := none
  get v k := v[k]?
  collect := id
  empty := []

/-! ### The masks of all gates -/

/-- tensor_aby2.rs:334-424 `setup_output_share`.  Inputs that are vectors (`[n]`) are not modelled;
the other dimensions panic.  Constants are `todo!()`. -/
def setupOutputShare {σ : Type} (gen : Gen σ) (g : TGate) (inputs : List TShare) (s : σ) :
    Option (TShare × σ) :=
  match g with
  | .base .input dim =>
    match dim with
    | [] => some (.scalar false (gen.bit s).1, (gen.bit s).2)
    | [r, c] => do
      let (m, s) ← gen.random s r c
      some (.matrix ⟨0, 0, []⟩ m, s)
    | _ => none
  | .base (.constant _) _ | .base (.connectToMainFromSimd _) _ => none
  | .base _ _ => do
    let a ← inputs[0]?
    some (a, s)
  | .op g => setupOutput gen g inputs s

/-- aby2.rs:34-40 `DeltaSharing`, as far as `setup_gate_outputs` uses it. -/
structure Sharing (σ : Type) where
  priv : σ
  remoteJoint : σ
  map : Nat → Option ShareType

/-- tensor_aby2.rs:237-250: one gate of the loop.  The generator is selected by the gate id, whatever
the circuit id.  The operands are read completely here (the code reads them on demand). -/
def setupNode {σ : Type} (gen : Gen σ) (m : Multi TGate) (s : Sharing σ)
    (st : Store TShare (List TShare)) (v : Node) : Option (Sharing σ × Store TShare (List TShare)) := do
  let g ← m.gate? v
  let xs ← (m.parents v).mapM (st.get m)
  match s.map v.2 with
  | some .remote => do
    let (o, r) ← setupOutputShare gen g xs s.remoteJoint
    let st ← st.put m v o
    pure ({ s with remoteJoint := r }, st)
  | _ => do
    let (o, r) ← setupOutputShare gen g xs s.priv
    let st ← st.put m v o
    pure ({ s with priv := r }, st)

/-- tensor_aby2.rs:237-250: the loop. -/
def setupNodes {σ : Type} (gen : Gen σ) (m : Multi TGate) : Sharing σ → Store TShare (List TShare) →
    List Node → Option (Sharing σ × Store TShare (List TShare))
  | s, st, [] => some (s, st)
  | s, st, v :: vs => do
    let (s, st) ← setupNode gen m s st v
    setupNodes gen m s st vs

/-- tensor_aby2.rs:227-235: the storage before the loop (`Default for TensorShare` is a scalar). -/
def emptyStore : Store TShare (List TShare) := ⟨fun _ => .scalar false false, fun _ => [], fun _ => false⟩

/-- tensor_aby2.rs:222-254 `setup_gate_outputs`. -/
def setupGateOutputs {σ : Type} (gen : Gen σ) (m : Multi TGate) (s : Sharing σ) :
    Option (Store TShare (List TShare)) := do
  let ls ← layers m
  if m.circs.all (fun c => c.simdSize.isNone) then
    (setupNodes gen m s emptyStore (iterNodes ls)).map (·.2)
  else none

/-! ### The setup with the other party -/

/-- The state of the loop tensor_aby2.rs:894-930: the new global builder, `circ_inputs` and
`input_sw_map`.  The type of the entries of `circ_inputs` is a parameter. -/
structure SetupBuild (α : Type) where
  b : Builder
  inputs : List α
  map : Node → Option (List Sec)

/-- tensor_aby2.rs:894-908 (and builder.rs `CircuitBuilder::new`: one empty main circuit). -/
def SetupBuild.new (α : Type) : SetupBuild α := ⟨[({} : Base _)], [], fun _ => none⟩

/-- tensor_aby2.rs:912-924: the secrets of one operand; `mask p` is
`shares.get(p).get_private().flatten()`. -/
def operand {α : Type} (mask : Node → Option (List α)) (s : SetupBuild α) (p : Node) :
    Option (SetupBuild α × List Sec) :=
  match s.map p with
  | some xs => some (s, xs)
  | none => do
    let bits ← mask p
    let (b, xs) ← Mail.inputs s.b bits.length
    pure (⟨b, s.inputs ++ bits, fun q => if q = p then some xs else s.map q⟩, xs)

/-- tensor_aby2.rs:467-472 `map(&).reduce(^)`: an AND gate for each pair, and an XOR gate with the
sum of the products before. -/
def dotFrom (b : Builder) (acc : Sec) : List (Sec × Sec) → Option (Builder × Sec)
  | [] => some (b, acc)
  | (x, y) :: l => do
    let (b, t) ← bitAnd b x y
    let (b, acc) ← bitXor b acc t
    dotFrom b acc l

def dot (b : Builder) (row col : List Sec) : Option (Builder × Sec) :=
  match row.zip col with
  | [] => none
  | (x, y) :: l => do
    let (b, t) ← bitAnd b x y
    dotFrom b t l

/-- tensor_aby2.rs:425-480 `setup_data_circ`. -/
def setupCirc (b : Builder) (g : Gate) (inputs : List (List Sec)) : Option (Builder × List Sec) :=
  match g, inputs with
  | .and2, a :: c :: _ => do
    let x ← a[0]?
    let y ← c[0]?
    let (b, t) ← bitAnd b x y
    some (b, [t])
  | .matMult rows cols, [a, c] => do
    let ps ← matPairs rows cols a c
    mapB (fun b p => dot b p.1 p.2) b ps
  | _, _ => none

/-- tensor_aby2.rs:909-930: one interactive gate of the loop. -/
def setupGate {α : Type} (m : Multi TGate) (mask : Node → Option (List α)) (s : SetupBuild α)
    (v : Node) : Option (SetupBuild α × List Sec) := do
  let g ← (m.gate? v).bind TGate.op?
  let (s, xs) ← mapSt (operand mask) s (m.parents v)
  let (b, t) ← setupCirc s.b g xs
  pure ({ s with b }, t)

/-- tensor_aby2.rs:894-935: the setup circuit, the inputs for it, and the output gates of each
interactive gate. -/
def buildSetup {α : Type} (m : Multi TGate) (mask : Node → Option (List α)) (vs : List Node) :
    Option (Base Gmw.BoolGate × List α × List (List Sec)) := do
  let (s, ts) ← mapSt (setupGate m mask) (.new α) vs
  let (b, outs) ← mapB (fun b t => mapB (fun b x => output b x) b t) s.b ts
  let c ← b[0]?
  pure (c, s.inputs, outs)

/-- tensor_aby2.rs:955-976: what the provider stores for one interactive gate. -/
def evalShare (g : Option TGate) (bits : List Bool) : Option PShare :=
  match g with
  | some (.op .and2) => match bits with
    | [b] => some (.scalar b)
    | _ => none
  | some (.op (.matMult rows cols)) => (Bitmat.fromBits 8 bits rows cols).map .matrix
  | _ => none

/-- tensor_aby2.rs:888-979 `AbySetupProvider::setup` of one party on a `DynLayers` circuit.  `st`: the
gate outputs of the party (`setup_gate_outputs`), `triples k n`: what its `mt_provider` returns for
the `k`-th request of `n` triples, `init`: the gate outputs of the new executor.  The result is
`setup_data`, in reverse evaluation order (`SetupData::from_raw`). -/
def tensorSetup (m : Multi TGate) (party : Nat) (st : Store TShare (List TShare))
    (triples : Nat → Nat → List Gmw.Triple) (init : Store Bool (List Bool)) :
    Proc (Gmw.Msg × Option Gmw.SimdMsg) SetupData :=
  match layers m with
  | none => .fail
  | some ls =>
    match buildSetup m (fun p => (st.get m p).map fun s => s.getPrivate.flatten)
      (interactiveNodes m ls) with
    | none => .fail
    | some (c, inputs, outs) =>
      (execute gmw (.ofBase c) party (.scalar inputs) triples init).andThen fun o =>
        match o with
        | Input.scalar l => do
          let bits ← readOutputs c outs l
          let shares ← ((interactiveNodes m ls).zip bits).mapM fun p => evalShare (m.gate? p.1) p.2
          pure shares.reverse
        | Input.simd _ => none

end Verif.Tensor
