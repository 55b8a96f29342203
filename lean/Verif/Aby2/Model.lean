import Verif.Exec.Model

/-!
The Boolean ABY2 protocol, crates/seec/src/protocols/aby2.rs.

The ChaCha generators are abstract streams of bits: every theorem holds for all streams.
-/
set_option autoImplicit false

namespace Verif.Aby2

open Gmw (BaseGate)
open Circuit Exec

/-- aby2.rs:48-52 `Share`. -/
structure Share where
  pub : Bool
  priv : Bool
deriving DecidableEq, Repr

/-- `Share::default`. -/
def Share.zero : Share := ⟨false, false⟩

/-- aby2.rs:65-71 `BooleanGate`. -/
inductive Gate where
  | base (g : BaseGate Bool)
  | and (n : Nat)
  | xor
  | inv
deriving DecidableEq, Repr

/-- aby2.rs:404-428 `impl Gate<bool> for BooleanGate`. -/
instance : GateLike Gate where
  Plain := Bool
  interactive
    | .and _ => true
    | _ => false
  asBase
    | .base b => some b
    | _ => none
  wrapBase := .base

/-- aby2.rs:411-418 `input_size`; protocols/mod.rs `BaseGate::input_size` (only used for
interactive gates here). -/
def Gate.inputSize : Gate → Nat
  | .base (.constant _) => 0
  | .base _ | .inv => 1
  | .xor => 2
  | .and n => n

/-- aby2.rs:592-600 `Share::xor`. -/
def Share.xor (a b : Share) : Share := ⟨a.pub ^^ b.pub, a.priv ^^ b.priv⟩

/-- aby2.rs:611-618 `Not for Share`. -/
def Share.not (a : Share) : Share := ⟨!a.pub, a.priv⟩

/-- aby2.rs:73-83 `SetupData`: one `EvalShares` per interactive gate, in reverse evaluation order. -/
abbrev SetupData := List (List Bool)

/-- aby2.rs:552-557 `SetupData::from_raw`. -/
def SetupData.fromRaw {α : Type} (l : List α) : List α := l.reverse

/-- aby2.rs:574-578 `SetupData::split_off_last`: (rest, returned part); `none` is the underflow of
the subtraction. -/
def SetupData.splitOffLast {α : Type} (d : List α) (count : Nat) : Option (List α × List α) :=
  if count ≤ d.length then some (d.take (d.length - count), d.drop (d.length - count)) else none

/-- `Vec::pop`. -/
def pop {α : Type} (l : List α) : Option (α × List α) :=
  match l.reverse with
  | [] => none
  | x :: r => some (x, r.reverse)

/-- `Itertools::combinations(k)` in its lexicographic order. -/
def combos {α : Type} : Nat → List α → List (List α)
  | 0, _ => [[]]
  | _ + 1, [] => []
  | k + 1, x :: xs => (combos k xs).map (x :: ·) ++ combos (k + 1) xs

/-- `Itertools::powerset`: by size, then lexicographically. -/
def powerset {α : Type} (l : List α) : List (List α) :=
  (List.range (l.length + 1)).flatMap fun k => combos k l

/-- aby2.rs:139-153 `share_constant`.  The assertion that the private part of `output_share` is
zero is not part of the definition; `setup_masks` shows that it holds. -/
def shareConstant (_party : Nat) (_out : Share) (v : Bool) : Share := ⟨v, false⟩

/-- aby2.rs:155-177 `evaluate_non_interactive`. -/
def evalLocal (_party : Nat) (g : Gate) (inputs : List Share) : Option Share :=
  match g with
  | .base b => b.defaultEvaluate inputs
  | .and _ => none
  | .xor => do
    let a ← inputs[0]?
    let b ← inputs[1]?
    pure (a.xor b)
  | .inv => do
    let a ← inputs[0]?
    pure a.not

/-- aby2.rs:260-307 `compute_delta_share`. -/
def computeDeltaShare (party : Nat) (g : Gate) (inputs : List Share) (data : SetupData)
    (out : Share) : Option (Bool × SetupData) := do
  let (shares, data) ← pop data
  match g with
  | .and 2 => do
    let a ← inputs[0]?
    let b ← inputs[1]?
    let plainAb := a.pub && b.pub
    let (s, _) ← pop shares
    pure ((((decide (party = 1) && plainAb) ^^ (a.pub && b.priv)) ^^ (b.pub && a.priv)) ^^ s ^^
      out.priv, data)
  | .and n => do
    let inputs := inputs.take n
    let deltas := shares.reverse ++ inputs.reverse.map (·.priv)
    let psets := (powerset inputs).map fun s => s.foldl (fun acc a => acc && a.pub) true
    let (mulPlain, psets) ← pop psets
    if psets.length = deltas.length then
      let inter := (psets.zip deltas).foldl (fun acc p => acc && p.1 && p.2) true
      pure ((decide (party = 1) && mulPlain) ^^ inter ^^ out.priv, data)
    else none
  | _ => none

/-- aby2.rs:187-194: the loop of `compute_msg`. -/
def computeDeltas (party : Nat) :
    List (Gate × Share) → List Share → SetupData → Option (List Bool × SetupData)
  | [], _, d => some ([], d)
  | (g, o) :: gs, xs, d => do
    let (b, d) ← computeDeltaShare party g (xs.take g.inputSize) d o
    let (bs, d) ← computeDeltas party gs (xs.drop g.inputSize) d
    pure (b :: bs, d)

/-- `BitVec<u8>::into_vec` followed by `BitVec::from_vec`: whole bytes. -/
def padBytes (l : List Bool) : List Bool :=
  l ++ List.replicate ((8 - l.length % 8) % 8) false

/-- aby2.rs:60-63 `Msg::Delta`, as the bits of its bytes. -/
abbrev Msg := List Bool

/-- aby2.rs:179-198 `compute_msg`. -/
def computeMsg (party : Nat) (gs : List Gate) (outs : List Share) (xs : List Share)
    (d : SetupData) : Option (Msg × SetupData) := do
  let (bs, d) ← computeDeltas party (gs.zip outs) xs d
  pure (padBytes bs, d)

/-- aby2.rs:200-219 `evaluate_interactive`. -/
def evalInteractive (outs : List Share) (own other : Msg) : List Share :=
  ((outs.zip own).zip other).map fun p => { p.1.1 with pub := p.1.2 ^^ p.2 }

/-- aby2.rs:128-219 `impl Protocol for BooleanAby2`. -/
def aby2 : Protocol Gate Share (List Share) Msg Unit SetupData where
  shareConstant := shareConstant
  evalLocal := evalLocal
  computeMsg := computeMsg
  evalInteractive _ _ outs own other d := some (evalInteractive outs own other, d)
  simd := false
  shareConstantSimd _ _ _ _ := []
  evalLocalSimd _ _ _ := none
  computeMsgSimd _ _ _ _ _ := none
  evalInteractiveSimd _ _ _ _ _ _ := none
  get v k := v[k]?
  collect := id
  empty := []

/-! ### Sharing -/

/-- A `ChaChaRng` used for bits: one bit per call of `gen`. -/
structure Rng where
  stream : Nat → Bool
  pos : Nat

/-- `Rng::gen::<bool>`. -/
def Rng.gen (r : Rng) : Bool × Rng := (r.stream r.pos, { r with pos := r.pos + 1 })

/-- `ChaChaRng::from_seed` and `set_stream`: a seed gives a stream of bits for each stream
number. -/
abbrev Seed := Nat → Nat → Bool

/-- aby2.rs:42-46 `ShareType`. -/
inductive ShareType where
  | local_
  | remote
deriving DecidableEq, Repr

/-- aby2.rs:33-40 `DeltaSharing`. -/
structure DeltaSharing where
  priv : Rng
  localJoint : Rng
  remoteJoint : Rng
  map : Nat → Option ShareType

/-- aby2.rs:621-640 `DeltaSharing::new`. -/
def DeltaSharing.new (party : Nat) (priv joint : Seed) (map : Nat → Option ShareType) :
    DeltaSharing where
  priv := ⟨priv 0, 0⟩
  localJoint := ⟨joint party, 0⟩
  remoteJoint := ⟨joint (party ^^^ 1), 0⟩
  map := map

/-- aby2.rs:652-663 `share`: own shares and public deltas. -/
def DeltaSharing.share (s : DeltaSharing) : List Bool → (List Share × List Bool) × DeltaSharing
  | [] => (([], []), s)
  | bit :: bits =>
    let (mine, priv) := s.priv.gen
    let (other, localJoint) := s.localJoint.gen
    let plain := bit ^^ mine ^^ other
    let ((shs, ds), s) := DeltaSharing.share { s with priv, localJoint } bits
    ((⟨plain, mine⟩ :: shs, plain :: ds), s)

/-- aby2.rs:665-670 `plain_delta_to_share`. -/
def DeltaSharing.toShare (s : DeltaSharing) : List Bool → List Share × DeltaSharing
  | [] => ([], s)
  | d :: ds =>
    let (p, remoteJoint) := s.remoteJoint.gen
    let (shs, s) := DeltaSharing.toShare { s with remoteJoint } ds
    (⟨d, p⟩ :: shs, s)

/-- aby2.rs:672-684 `reconstruct`; `none` is the failed assertion. -/
def reconstruct : List Share → List Share → Option (List Bool)
  | a :: as, b :: bs =>
    if a.pub = b.pub then (reconstruct as bs).map ((a.pub ^^ a.priv ^^ b.priv) :: ·) else none
  | _, _ => some []

/-! ### Masks of all gates -/

/-- aby2.rs:309-359 `setup_output_share`. -/
def setupOutputShare (g : Gate) (inputs : List Share) (rng : Rng) : Option (Share × Rng) :=
  match g with
  | .base .input => some (⟨false, rng.gen.1⟩, rng.gen.2)
  | .base (.constant _) => some (.zero, rng)
  | .base (.connectToMainFromSimd _) => none
  | .base _ => do
    let a ← inputs[0]?
    pure (a, rng)
  | .and _ => some (⟨false, rng.gen.1⟩, rng.gen.2)
  | .xor => do
    let a ← inputs[0]?
    let b ← inputs[1]?
    pure ({ a with priv := a.priv ^^ b.priv }, rng)
  | .inv => do
    let a ← inputs[0]?
    pure (a, rng)

/-- aby2.rs:237-250: one gate of the loop.  The generator is selected by the gate id, whatever the
circuit id.  The operands are read completely here (the code reads them on demand). -/
def setupNode (m : Multi Gate) (s : DeltaSharing) (st : Store Share (List Share)) (v : Node) :
    Option (DeltaSharing × Store Share (List Share)) := do
  let g ← m.gate? v
  let xs ← (m.parents v).mapM (st.get m)
  match s.map v.2 with
  | some .remote => do
    let (o, r) ← setupOutputShare g xs s.remoteJoint
    let st ← st.put m v o
    pure ({ s with remoteJoint := r }, st)
  | _ => do
    let (o, r) ← setupOutputShare g xs s.priv
    let st ← st.put m v o
    pure ({ s with priv := r }, st)

/-- aby2.rs:237-250: the loop. -/
def setupNodes (m : Multi Gate) : DeltaSharing → Store Share (List Share) → List Node →
    Option (DeltaSharing × Store Share (List Share))
  | s, st, [] => some (s, st)
  | s, st, v :: vs => do
    let (s, st) ← setupNode m s st v
    setupNodes m s st vs

/-- dyn_layers.rs:68-80 `Circuit::iter` (circuit/mod.rs:181-202 `iter_with_parents`): layer by
layer, sub-circuit by sub-circuit, local gates before interactive ones. -/
def iterNodes (ls : List MLayer) : List Node :=
  ls.flatMap fun l => l.flatMap fun p => (p.2.ni ++ p.2.int).map fun g => (p.1, g)

/-- The layers of the circuit, as in `Exec.execute`. -/
def layers {G : Type} [GateLike G] (m : Multi G) : Option (List MLayer) := do
  let it ← MIter.new m
  MIter.collect m ((m.circs.map fun c => c.gates.length).sum + 1) it

/-- aby2.rs:226-236: the storage before the loop. -/
def emptyStore : Store Share (List Share) := ⟨fun _ => .zero, fun _ => [], fun _ => false⟩

/-- aby2.rs:221-254 `setup_gate_outputs`. -/
def setupGateOutputs (m : Multi Gate) (s : DeltaSharing) :
    Option (DeltaSharing × Store Share (List Share)) := do
  let ls ← layers m
  if m.circs.all (fun c => c.simdSize.isNone) then setupNodes m s emptyStore (iterNodes ls)
  else none

/-! ### Setup with a helper -/

/-- aby2.rs:106-110 `InputBy`. -/
inductive InputBy where
  | p0
  | p1
deriving DecidableEq, Repr

/-- aby2.rs:885-896: how party `party` shares an input of `by`. -/
def shareType (party : Nat) : InputBy → ShareType
  | .p0 => if party = 0 then .local_ else .remote
  | .p1 => if party = 0 then .remote else .local_

/-- aby2.rs:875-904 `AstraSetupHelper::setup_gate_outputs`. -/
def helperGateOutputs (m : Multi Gate) (party : Nat) (priv joint : Seed)
    (input : Nat → Option InputBy) : Option (Store Share (List Share)) :=
  (setupGateOutputs m (.new party priv joint fun i => (input i).map (shareType party))).map (·.2)

/-- aby2.rs:846-864: the loop over the interactive gates of the helper. -/
def helperProducts (m : Multi Gate) (lam : Node → Bool) : Rng → List Node → Option (List Bool)
  | _, [] => some []
  | r, v :: vs => do
    match ← m.gate? v with
    | .and 2 => do
      let a ← (m.parents v)[0]?
      let b ← (m.parents v)[1]?
      let xy := lam a && lam b
      let xy1 := xy ^^ r.gen.1
      let rest ← helperProducts m lam r.gen.2 vs
      pure (xy1 :: rest)
    | _ => none

/-- dyn_layers.rs:82-85 `interactive_iter`. -/
def interactiveNodes {G : Type} [GateLike G] (m : Multi G) (ls : List MLayer) : List Node :=
  (iterNodes ls).filter fun v => (m.gate? v).any interactive

/-- aby2.rs:815-868 `AstraSetupHelper::setup`: the message to party 1. -/
def helperSetup (m : Multi Gate) (priv0 priv1 joint : Seed) (input : Nat → Option InputBy) :
    Option (List Bool) := do
  let st0 ← helperGateOutputs m 0 priv0 joint input
  let st1 ← helperGateOutputs m 1 priv1 joint input
  let lam : Node → Bool := fun v => (st0.sc v).priv ^^ (st1.sc v).priv
  let ls ← layers m
  helperProducts m lam ⟨priv0 1, 0⟩ (interactiveNodes m ls)

/-- dyn_layers.rs:133-135 `interactive_count`. -/
def interactiveCount {G : Type} (m : Multi G) : Nat := (m.circs.map fun c => c.interactiveCount).sum

/-- aby2.rs:927-941 `AstraSetupProvider::setup` of party 0; aby2.rs:907-917: its generator. -/
def astraSetup0 (m : Multi Gate) (priv0 : Seed) : SetupData :=
  .fromRaw ((List.range (interactiveCount m)).map fun i => [priv0 1 i])

/-- aby2.rs:927-955 `AstraSetupProvider::setup` of party 1. -/
def astraSetup1 (msg : List Bool) : SetupData := .fromRaw (msg.map fun b => [b])

/-- aby2.rs:784-791, 961-968 `request_setup_output`: the answers to a sequence of requests.
`none` (a panic) where the data is exhausted. -/
def requests {α : Type} : List α → List Nat → List (Option (List α))
  | _, [] => []
  | d, n :: ns =>
    match SetupData.splitOffLast d n with
    | some (rest, r) => some r :: requests rest ns
    | none => none :: requests d ns

end Verif.Aby2
