import Verif.Aby2.Model
import Verif.Exec.Gmw
import Verif.Mail.Model

/-!
The setup of ABY2 without a helper: `AbySetupProvider` (crates/seec/src/protocols/aby2.rs:93-101,
361-402, 687-792).  The two parties build a Boolean GMW circuit that multiplies the masks of the
operands of the AND gates, and execute it.
-/
set_option autoImplicit false

namespace Verif.Aby2

open Circuit Exec Proc Secret
open Mail (mapB)

/-- The state of the loop aby2.rs:722-751: the new global builder, `circ_inputs`, `input_sw_map`
and `setup_sub_circ_cache`.  The type of the entries of `circ_inputs` is a parameter. -/
structure SetupBuild (α : Type) where
  b : Builder
  inputs : List α
  map : Node → Option Sec
  cache : List Sec → Option Sec

/-- aby2.rs:722-732 (and builder.rs `CircuitBuilder::new`: one empty main circuit). -/
def SetupBuild.new (α : Type) : SetupBuild α :=
  ⟨[({} : Base _)], [], fun _ => none, fun _ => none⟩

/-- `iter().map(f).collect()` for a function with a state. -/
def mapSt {σ α β : Type} (f : σ → α → Option (σ × β)) : σ → List α → Option (σ × List β)
  | s, [] => some (s, [])
  | s, x :: xs => do
    let (s, y) ← f s x
    let (s, ys) ← mapSt f s xs
    pure (s, y :: ys)

/-- aby2.rs:735-745: the secret of one operand; `mask p` is `shares.get(p).get_private()`. -/
def operand {α : Type} (mask : Node → Option α) (s : SetupBuild α) (p : Node) :
    Option (SetupBuild α × Sec) :=
  match s.map p with
  | some x => some (s, x)
  | none => do
    let (b, x) ← input s.b 0
    let v ← mask p
    pure ({ s with b, inputs := s.inputs ++ [v], map := fun q => if q = p then some x else s.map q }, x)

/-- secret.rs:326-345 `Ord for Secret`. -/
def secLe (a b : Sec) : Bool := decide (a.1 < b.1) || (decide (a.1 = b.1) && decide (a.2 ≤ b.2))

/-- aby2.rs:381-398: an AND gate for the product of one set of operands. -/
def newProduct (b : Builder) (cache : List Sec → Option Sec) (set : List Sec) :
    Option (Builder × Sec) :=
  match set with
  | [] => none
  | [a, c] => bitAnd b a c
  | _ =>
    if 2 ≤ set.dropLast.length then do
      let sub ← cache set.dropLast
      let last ← set.getLast?
      bitAnd b last sub
    else none

/-- aby2.rs:379-400: the product of one set of operands, from the cache or with an AND gate. -/
def dataSet {α : Type} (s : SetupBuild α) (set : List Sec) : Option (SetupBuild α × Sec) :=
  match s.cache set with
  | some x => some (s, x)
  | none => do
    let (b, x) ← newProduct s.b s.cache set
    pure ({ s with b, cache := fun t => if t = set then some x else s.cache t }, x)

/-- aby2.rs:361-402 `setup_data_circ`. -/
def setupDataCirc {α : Type} (s : SetupBuild α) (g : Gate) (xs : List Sec) :
    Option (SetupBuild α × List Sec) :=
  match g with
  | .and n => mapSt dataSet s ((powerset (xs.take n)).drop (n + 1))
  | _ => none

/-- aby2.rs:733-752: one interactive gate of the loop. -/
def setupGate {α : Type} (m : Multi Gate) (mask : Node → Option α) (s : SetupBuild α) (v : Node) :
    Option (SetupBuild α × List Sec) := do
  let g ← m.gate? v
  let (s, xs) ← mapSt (operand mask) s (m.parents v)
  setupDataCirc s g (xs.mergeSort secLe)

/-- aby2.rs:722-758: the setup circuit, the inputs for it, and the output gates of each interactive
gate. -/
def buildSetup {α : Type} (m : Multi Gate) (mask : Node → Option α) (vs : List Node) :
    Option (Base Gmw.BoolGate × List α × List (List Sec)) := do
  let (s, ts) ← mapSt (setupGate m mask) (.new α) vs
  let (b, outs) ← mapB (fun b t => mapB (fun b x => output b x) b t) s.b ts
  let c ← b[0]?
  pure (c, s.inputs, outs)

/-- aby2.rs:772-789: the gate outputs of the executor at the output gates.  The executor returns the
gate outputs at `c.outputGates` (`Exec.outputs`), so the value of an output gate is looked up there. -/
def readOutputs (c : Base Gmw.BoolGate) (outs : List (List Sec)) (o : List Bool) :
    Option (List (List Bool)) :=
  outs.mapM fun t => t.mapM fun x => do
    let k ← c.outputGates.findIdx? (· = x.2)
    o[k]?

/-- Continue after an `.await`ed computation that returns `o` with a computation that does not
communicate. -/
def _root_.Verif.Proc.Proc.andThen {M O P : Type} (f : O → Option P) : Proc M O → Proc M P
  | .done o => match f o with
    | some p => .done p
    | none => .fail
  | .fail => .fail
  | .send m k => .send m (k.andThen f)
  | .recv k => .recv fun m => (k m).andThen f

/-- aby2.rs:705-791 `AbySetupProvider::setup` of one party on a `DynLayers` circuit.  `st`: the gate
outputs of the party (`setup_gate_outputs`), `triples k n`: what its `mt_provider` returns for the
`k`-th request of `n` triples, `init`: the gate outputs of the new executor.  The result is
`setup_data`. -/
def abySetup (m : Multi Gate) (party : Nat) (st : Store Share (List Share))
    (triples : Nat → Nat → List Gmw.Triple) (init : Store Bool (List Bool)) :
    Proc (Gmw.Msg × Option Gmw.SimdMsg) SetupData :=
  match (do
    let ls ← layers m
    buildSetup m (fun p => (st.get m p).map Share.priv) (interactiveNodes m ls)) with
  | none => .fail
  | some (c, inputs, outs) =>
    (execute gmw (.ofBase c) party (.scalar inputs) triples init).andThen fun o =>
      match o with
      | Input.scalar l => (readOutputs c outs l).map SetupData.fromRaw
      | Input.simd _ => none

end Verif.Aby2
