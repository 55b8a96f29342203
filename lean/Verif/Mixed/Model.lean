import Verif.Arith.Model
import Verif.Util.Convert

/-!
The mixed protocol, crates/seec/src/protocols/mixed_gmw.rs, over machine integers of any width `w`
(`R::BITS = w`).  `none` stands for a panic.
-/
set_option autoImplicit false

namespace Verif.Mixed

/-- mixed_gmw.rs:52-56 `Mixed`. -/
inductive Val (w : Nat) where
  | bool (b : Bool)
  | arith (r : BitVec w)
deriving DecidableEq, Repr

/-- mixed_gmw.rs:72-77 `unwrap_bool`. -/
def Val.unwrapBool {w : Nat} : Val w → Option Bool
  | .bool b => some b
  | .arith _ => none

/-- mixed_gmw.rs:78-83 `unwrap_arith`. -/
def Val.unwrapArith {w : Nat} : Val w → Option (BitVec w)
  | .bool _ => none
  | .arith r => some r

/-- mixed_gmw.rs:101-113 `ConvGate`. -/
inductive Conv where
  | select
  | snd
  | rcv
  | selectBit (idx : Nat)
  | b2a
deriving DecidableEq, Repr

/-- mixed_gmw.rs:93-99 `MixedGate`. -/
inductive Gate (w : Nat) where
  | base (g : Gmw.BaseGate (Val w))
  | bool (g : Gmw.BoolGate)
  | arith (g : Arith.Gate)
  | conv (g : Conv)
deriving DecidableEq, Repr

/-- mixed_gmw.rs:661-671 `is_interactive`. -/
def Gate.isInteractive {w : Nat} : Gate w → Bool
  | .bool g => g.isInteractive
  | .arith g => g = .mul
  | .conv .snd => true
  | .conv .rcv => true
  | .conv .b2a => true
  | _ => false

/-- mixed_gmw.rs:673-685 `input_size`. -/
def Gate.inputSize {w : Nat} : Gate w → Nat
  | .bool g => g.inputSize
  | .arith _ => 2
  | .base _ => 1
  | .conv .select => 2
  | .conv .b2a => w
  | .conv _ => 1

/-- mixed_gmw.rs:374-384 `share_constant`. -/
def shareConstant {w : Nat} (party : Nat) : Val w → Val w
  | .bool b => .bool (Gmw.shareConstant party b)
  | .arith a => .arith (if party = 0 then a else 0)

/-- mixed_gmw.rs:386-439 `evaluate_non_interactive`.  The conversion of the inputs to Booleans or
ring elements is lazy in the code; a wrong input beyond those the gate reads does not panic there
but makes this definition fail. -/
def evalLocal {w : Nat} (party : Nat) (g : Gate w) (inputs : List (Val w)) : Option (Val w) :=
  match g with
  | .base b => b.defaultEvaluate inputs
  | .bool g => do
    let xs ← inputs.mapM Val.unwrapBool
    let z ← Gmw.evalLocal party g xs
    some (.bool z)
  | .arith g => do
    let xs ← inputs.mapM Val.unwrapArith
    let z ← Arith.evalLocal g xs
    some (.arith z)
  | .conv (.selectBit idx) =>
    match inputs with
    | .arith r :: _ => (Util.getBit r idx).map .bool
    | _ => none
  | .conv .select =>
    match inputs with
    | a :: b :: _ => some (if party = 0 then a else b)
    | _ => none
  | .conv _ => none

/-- The inputs and gates of a layer by kind (mixed_gmw.rs:451-484). -/
structure Split (w : Nat) where
  bools : List Bool
  ariths : List (BitVec w)
  convs : List (Val w)
  bgates : List Gmw.BoolGate
  agates : List Arith.Gate
  cgates : List Conv
deriving DecidableEq, Repr

/-- mixed_gmw.rs:456-484: the fold over the interactive gates, each takes `input_size` inputs. -/
def split {w : Nat} : List (Gate w) → List (Val w) → Option (Split w)
  | [], _ => some ⟨[], [], [], [], [], []⟩
  | .bool g :: gs, inputs => do
    let xs ← (inputs.take g.inputSize).mapM Val.unwrapBool
    let s ← split gs (inputs.drop g.inputSize)
    some { s with bools := xs ++ s.bools, bgates := g :: s.bgates }
  | .arith g :: gs, inputs => do
    let xs ← (inputs.take 2).mapM Val.unwrapArith
    let s ← split gs (inputs.drop 2)
    some { s with ariths := xs ++ s.ariths, agates := g :: s.agates }
  | .conv g :: gs, inputs => do
    let s ← split gs (inputs.drop (Gate.conv g : Gate w).inputSize)
    some { s with convs := inputs.take (Gate.conv g : Gate w).inputSize ++ s.convs
                  cgates := g :: s.cgates }
  | .base _ :: _, _ => none

/-- mixed_gmw.rs:514-518: the little endian word of the bits (`BitArray<_, Lsb0>`); missing bits are
zero. -/
def wordOf (w : Nat) (bits : List Bool) : BitVec w :=
  BitVec.ofNat w (bits.foldr (fun b acc => b.toNat + 2 * acc) 0)

/-- What the conversion gates contribute to the message, and the rest of the Boolean shared bits. -/
structure ConvMsg (w : Nat) where
  b2a : List (BitVec w)
  reshares : List (BitVec w)
  own : List (BitVec w)
  sbBool : List (BitVec w)
deriving DecidableEq, Repr

/-- mixed_gmw.rs:499-534: the loop over the conversion gates.  `rand` is what `random()` delivers;
`Vec::pop` takes the last word. -/
def convMsg {w : Nat} : List Conv → List (Val w) → (Nat → BitVec w) → List (BitVec w) →
    Option (ConvMsg w)
  | [], _, _, sb => some ⟨[], [], [], sb⟩
  | .snd :: gs, .arith r :: inputs, rand, sb => do
    let m ← convMsg gs inputs (fun n => rand (n + 1)) sb
    some { m with own := (r ^^^ rand 0) :: m.own, reshares := rand 0 :: m.reshares }
  | .b2a :: gs, inputs, rand, sb => do
    let bits ← (inputs.take w).mapM Val.unwrapBool
    let s ← sb.getLast?
    let m ← convMsg gs (inputs.drop w) rand sb.dropLast
    some { m with b2a := (wordOf w bits ^^^ s) :: m.b2a }
  | .rcv :: gs, inputs, rand, sb => convMsg gs inputs rand sb
  | _, _, _, _ => none

/-- mixed_gmw.rs:278-289 `MixedSetupStorage` and `SharedBits`. -/
structure Setup (w : Nat) where
  bool : List Gmw.Triple
  arith : List (Arith.Triple w)
  sbBool : List (BitVec w)
  sbArith : List (BitVec w)
deriving DecidableEq, Repr

/-- mixed_gmw.rs:37-50 `Msg`. -/
structure Msg (w : Nat) where
  bool : Gmw.Msg
  arith : Arith.Msg w
  b2a : List (BitVec w)
  reshares : List (BitVec w)
  own : List (BitVec w)
deriving DecidableEq, Repr

/-- What the other party receives: `own_bool_reshares` is skipped (mixed_gmw.rs:45-49). -/
def Msg.sent {w : Nat} (m : Msg w) : Msg w := { m with own := [] }

/-- mixed_gmw.rs:441-543 `compute_msg`; only the Boolean shared bits are consumed. -/
def computeMsg {w : Nat} (gates : List (Gate w)) (inputs : List (Val w)) (rand : Nat → BitVec w)
    (st : Setup w) : Option (Msg w × Setup w) := do
  let s ← split gates inputs
  let b ← Gmw.computeMsg s.bgates s.bools st.bool
  let a ← Arith.computeMsg s.agates s.ariths st.arith
  let c ← convMsg s.cgates s.convs rand st.sbBool
  some (⟨b, a, c.b2a, c.reshares, c.own⟩, { st with sbBool := c.sbBool })

/-- mixed_gmw.rs:604-615: the summand of bit `i`, from the opened word `t` and the arithmetic share
`r` of the shared bit. -/
def b2aTerm {w : Nat} (party : Nat) (t : BitVec w) (i : Nat) (r : BitVec w) : Option (BitVec w) :=
  (Util.getBit t i).map fun tb =>
    let ti : BitVec w := if tb then 1 else 0
    let lhs := if party = 0 then ti + r else r
    2 ^ i * (lhs - 2 * ti * r)

/-- mixed_gmw.rs:595-618: the output of a `B2A` gate.  The last `R::BITS` arithmetic shared bits are
read in reverse order and stay in the storage. -/
def b2aEval {w : Nat} (party : Nat) (t : BitVec w) (sbArith : List (BitVec w)) : Option (BitVec w) :=
  if sbArith.length < w ∨ w = 0 then none
  else do
    let xs ← (((sbArith.drop (sbArith.length - w)).reverse).zipIdx).mapM
      fun p => b2aTerm party t p.2 p.1
    some (xs.foldl (· + ·) 0)

/-- The iterators of mixed_gmw.rs:554-577. -/
structure Queues (w : Nat) where
  bool : List Bool
  arith : List (BitVec w)
  own : List (BitVec w)
  other : List (BitVec w)
  ownB : List (BitVec w)
  otherB : List (BitVec w)

/-- mixed_gmw.rs:579-624: the loop over the gates. -/
def evalGates {w : Nat} (party : Nat) (sbArith : List (BitVec w)) :
    List (Gate w) → Queues w → Option (List (Val w))
  | [], _ => some []
  | .bool _ :: gs, ⟨z :: b, a, ow, ot, ob, tb⟩ =>
    (evalGates party sbArith gs ⟨b, a, ow, ot, ob, tb⟩).map (.bool z :: ·)
  | .arith _ :: gs, ⟨b, z :: a, ow, ot, ob, tb⟩ =>
    (evalGates party sbArith gs ⟨b, a, ow, ot, ob, tb⟩).map (.arith z :: ·)
  | .conv .snd :: gs, ⟨b, a, z :: ow, ot, ob, tb⟩ =>
    (evalGates party sbArith gs ⟨b, a, ow, ot, ob, tb⟩).map (.arith z :: ·)
  | .conv .rcv :: gs, ⟨b, a, ow, z :: ot, ob, tb⟩ =>
    (evalGates party sbArith gs ⟨b, a, ow, ot, ob, tb⟩).map (.arith z :: ·)
  | .conv .b2a :: gs, ⟨b, a, ow, ot, t0 :: ob, t1 :: tb⟩ => do
    let z ← b2aEval party (t0 ^^^ t1) sbArith
    let zs ← evalGates party sbArith gs ⟨b, a, ow, ot, ob, tb⟩
    some (.arith z :: zs)
  | _, _ => none

/-- mixed_gmw.rs:545-626 `evaluate_interactive`. -/
def evaluateInteractive {w : Nat} (party : Nat) (gates : List (Gate w)) (own other : Msg w)
    (st : Setup w) : Option (List (Val w) × Setup w) := do
  let (b, rb) ← Gmw.evaluateInteractive party own.bool other.bool st.bool
  let (a, ra) ← Arith.evaluateInteractive party own.arith other.arith st.arith
  let zs ← evalGates party st.sbArith gates ⟨b, a, own.own, other.reshares, own.b2a, other.b2a⟩
  some (zs, { st with bool := rb, arith := ra })

/-- Both parties execute one interactive layer (executor.rs:353-457): the two outputs and the
storages left. -/
def runLayer {w : Nat} (gates : List (Gate w)) (x0 x1 : List (Val w)) (rand0 rand1 : Nat → BitVec w)
    (s0 s1 : Setup w) : Option ((List (Val w) × Setup w) × (List (Val w) × Setup w)) := do
  let (m0, s0) ← computeMsg gates x0 rand0 s0
  let (m1, s1) ← computeMsg gates x1 rand1 s1
  let r0 ← evaluateInteractive 0 gates m0 m1.sent s0
  let r1 ← evaluateInteractive 1 gates m1 m0.sent s1
  some (r0, r1)

/-- mixed_gmw.rs:117-122 `MixedShareStorage`. -/
inductive Storage (w : Nat) where
  | bool (bits : List Bool)
  | arith (vals : List (BitVec w))
  | mixed (vals : List (Val w))
deriving DecidableEq, Repr

/-- The shares in a storage, mixed_gmw.rs:200-211 `into_iter`. -/
def Storage.toList {w : Nat} : Storage w → List (Val w)
  | .bool b => b.map .bool
  | .arith a => a.map .arith
  | .mixed v => v

/-- mixed_gmw.rs:167-185 `try_push`. -/
def Storage.tryPush {w : Nat} : Storage w → Val w → Option (Storage w)
  | .bool b, .bool x => some (.bool (b ++ [x]))
  | .arith a, .arith x => some (.arith (a ++ [x]))
  | .mixed v, x => some (.mixed (v ++ [x]))
  | _, _ => none

/-- mixed_gmw.rs:187-197 `as_mixed`. -/
def Storage.asMixed {w : Nat} (s : Storage w) : Storage w := .mixed s.toList

/-- mixed_gmw.rs:124-164 `extend`; the recursive call is made on a `Mixed` storage, whose extension
cannot fail. -/
def Storage.extend {w : Nat} : Storage w → List (Val w) → Option (Storage w)
  | s, [] => some s
  | .bool b, .bool x :: xs => Storage.extend (.bool (b ++ [x])) xs
  | .bool b, .arith x :: xs => do
    let s ← (Storage.bool b).asMixed.tryPush (.arith x)
    Storage.extend s xs
  | .arith a, .arith x :: xs => Storage.extend (.arith (a ++ [x])) xs
  | .arith a, .bool x :: xs => do
    let s ← (Storage.arith a).asMixed.tryPush (.bool x)
    Storage.extend s xs
  | .mixed v, x :: xs => some (.mixed (v ++ x :: xs))
termination_by _ xs => xs.length

/-- mixed_gmw.rs:213-224 `from_iter`: the first element decides the variant. -/
def Storage.fromIter {w : Nat} : List (Val w) → Option (Storage w)
  | [] => some (.mixed [])
  | .bool b :: xs => xs.foldlM Storage.tryPush (.bool [b])
  | .arith r :: xs => xs.foldlM Storage.tryPush (.arith [r])

/-- mixed_gmw.rs:241-246 `repeat`. -/
def Storage.repeat {w : Nat} : Val w → Nat → Storage w
  | .bool b, n => .bool (List.replicate n b)
  | .arith r, n => .arith (List.replicate n r)

/-- mixed_gmw.rs:248-267 `set`; `none` also for an index out of range. -/
def Storage.set {w : Nat} : Storage w → Nat → Val w → Option (Storage w)
  | .bool b, i, .bool x => if i < b.length then some (.bool (b.set i x)) else none
  | .arith a, i, .arith x => if i < a.length then some (.arith (a.set i x)) else none
  | .mixed v, i, x => if i < v.length then some (.mixed (v.set i x)) else none
  | _, _, _ => none

/-- mixed_gmw.rs:269-275 `get`. -/
def Storage.get {w : Nat} (s : Storage w) (i : Nat) : Option (Val w) := s.toList[i]?

end Verif.Mixed
