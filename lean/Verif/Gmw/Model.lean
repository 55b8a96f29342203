/-
Model of the GMW protocols: sharing, local gates and the interactive layer exchange.

Bit vectors (`BitVec<usize>`) are `List Bool`.  A `MulTriples` value (three bit vectors of
equal length, crates/seec/src/mul_triple/boolean/mod.rs:27-31, equality asserted in
`from_raw` 78-82) is a `List Triple`.
`none` stands for a panic.
-/
set_option autoImplicit false

namespace Verif.Gmw

/-- crates/seec/src/mul_triple/boolean/mod.rs:184-188 `MulTriple`. -/
structure Triple where
  a : Bool
  b : Bool
  c : Bool
deriving DecidableEq, Repr

/-- crates/seec/src/gate/base.rs `BaseGate`, without `Debug`-only data.  The dimension
payload of `Input`/`ConnectToMainFromSimd` is dropped (Boolean GMW uses `ScalarDim`). -/
inductive BaseGate (P : Type) where
  | output
  | input
  | subCircuitInput
  | subCircuitOutput
  | connectToMain
  | connectToMainFromSimd (select : Nat)
  | identity
  | constant (val : P)
  | debug
deriving DecidableEq, Repr

/-- crates/seec/src/protocols/boolean_gmw.rs `BooleanGate` (the gate enum evaluated in 65-86). -/
inductive BoolGate where
  | base (g : BaseGate Bool)
  | and
  | xor
  | inv
deriving DecidableEq, Repr

/-- boolean_gmw.rs:278-280 `is_interactive`. -/
def BoolGate.isInteractive : BoolGate → Bool
  | .and => true
  | _ => false

/-- boolean_gmw.rs:282-288 `input_size`; base gates report 1 (gate/base.rs `input_size`). -/
def BoolGate.inputSize : BoolGate → Nat
  | .base _ => 1
  | .inv => 1
  | .and => 2
  | .xor => 2

/-- boolean_gmw.rs:57-63 `share_constant`. -/
def shareConstant (party : Nat) (val : Bool) : Bool :=
  if party = 0 then val else false

/-- gate/base.rs `default_evaluate`: first input, panics on `Constant` and
`ConnectToMainFromSimd` and on missing input. -/
def BaseGate.defaultEvaluate {P S : Type} (g : BaseGate P) (inputs : List S) : Option S :=
  match g with
  | .constant _ => none
  | .connectToMainFromSimd _ => none
  | _ => inputs.head?

/-- boolean_gmw.rs:65-86 `evaluate_non_interactive`. -/
def evalLocal (party : Nat) (g : BoolGate) (inputs : List Bool) : Option Bool :=
  match g with
  | .base b => b.defaultEvaluate inputs
  | .and => none
  | .xor => do
      let x ← inputs[0]?
      let y ← inputs[1]?
      pure (x ^^ y)
  | .inv => do
      let x ← inputs[0]?
      pure (if party = 0 then !x else x)

/-- Executor::execute, executor.rs:124-493, arm for non-interactive gates: `Constant` goes to
`share_constant`, everything else to `evaluate_non_interactive`. -/
def evalLocalOrConst (party : Nat) (g : BoolGate) (inputs : List Bool) : Option Bool :=
  match g with
  | .base (.constant v) => some (shareConstant party v)
  | g => evalLocal party g inputs

/-- Element-wise xor of bit vectors as done by bitvec's `^` (truncating to the shorter one only
in model; all uses have equal lengths). -/
def xorL (x y : List Bool) : List Bool := List.zipWith (· ^^ ·) x y

/-- Element-wise and of bit vectors. -/
def andL (x y : List Bool) : List Bool := List.zipWith (· && ·) x y

/-- gate/base.rs `default_evaluate_simd`: first input, panics on `Constant`. -/
def BaseGate.defaultEvaluateSimd {P S : Type} (g : BaseGate P) (inputs : List S) : Option S :=
  match g with
  | .constant _ => none
  | _ => inputs.head?

/-- boolean_gmw.rs:88-111 `evaluate_non_interactive_simd`. -/
def evalLocalSimd (party : Nat) (g : BoolGate) (inputs : List (List Bool)) : Option (List Bool) :=
  match g with
  | .base b => b.defaultEvaluateSimd inputs
  | .and => none
  | .xor => do
      let x ← inputs[0]?
      let y ← inputs[1]?
      pure (xorL x y)
  | .inv => do
      let x ← inputs[0]?
      pure (if party = 0 then x.map (!·) else x)

/-- protocols/mod.rs default `share_constant_simd`: the scalar share repeated. -/
def shareConstantSimd (party : Nat) (val : Bool) (len : Nat) : List Bool :=
  List.replicate len (shareConstant party val)

/-- evaluate.rs:5-9 `and::compute_shares`. -/
def andComputeShares (x y : Bool) (mt : Triple) : Bool × Bool :=
  (x ^^ mt.a, y ^^ mt.b)

/-- evaluate.rs:12-21 `and::evaluate`. -/
def andEvaluate (d e : Bool × Bool) (mt : Triple) (party : Nat) : Bool :=
  let d := d.1 ^^ d.2
  let e := e.1 ^^ e.2
  let res := ((d && mt.b) ^^ (e && mt.a)) ^^ mt.c
  if party = 0 then res ^^ (d && e) else res

/-- boolean_gmw.rs `Msg::AndLayer`.  `d`,`e` are the bits of the sent words: the real bits
followed by padding. -/
structure Msg where
  size : Nat
  d : List Bool
  e : List Bool
deriving DecidableEq, Repr

/-- `BitVec<usize>::into_vec` followed (at the other side) by `BitVec::from_vec`: the bits are
padded to a multiple of the word width 64. -/
def padWords (l : List Bool) : List Bool :=
  l ++ List.replicate ((64 - l.length % 64) % 64) false

/-- Taking `input_size = 2` inputs per gate from the flat input iterator
(boolean_gmw.rs:127-128); `none` if an `unwrap` fails. Only called with `And` gates, others
fail the assert in 126. -/
def computeMsgPairs : List BoolGate → List Triple → List Bool → Option (List (Bool × Bool))
  | g :: gs, mt :: mts, inputs =>
    match g, inputs with
    | .and, x :: y :: rest => do
        let r ← computeMsgPairs gs mts rest
        pure (andComputeShares x y mt :: r)
    | _, _ => none
  | _, _, _ => some []

/-- boolean_gmw.rs:113-141 `compute_msg`: gates are zipped with the triples in reverse order.
The store is not modified. -/
def computeMsg (gates : List BoolGate) (inputs : List Bool) (mts : List Triple) : Option Msg := do
  let r ← computeMsgPairs gates mts.reverse inputs
  let d := r.map (·.1)
  let e := r.map (·.2)
  pure { size := e.length, e := padWords e, d := padWords d }

/-- mul_triple/boolean/mod.rs:221-227 `split_off_last`: returns (rest, removed); panics (usize
underflow / out of range) if more than stored is requested. -/
def splitOffLast {α : Type} (store : List α) (count : Nat) : Option (List α × List α) :=
  if count ≤ store.length then
    some (store.take (store.length - count), store.drop (store.length - count))
  else none

/-- The five-way `zip` of boolean_gmw.rs:197-207. -/
def zipEval (party : Nat) :
    List Bool → List Bool → List Bool → List Bool → List Triple → List Bool
  | d :: ds, e :: es, rd :: rds, re :: res, mt :: mts =>
    andEvaluate (d, rd) (e, re) mt party :: zipEval party ds es rds res mts
  | _, _, _, _, _ => []

/-- boolean_gmw.rs:177-208 `evaluate_interactive`: returns the output shares and the remaining
store. -/
def evaluateInteractive (party : Nat) (own other : Msg) (mts : List Triple) :
    Option (List Bool × List Triple) :=
  if own.size = other.size then do
    let (rest, used) ← splitOffLast mts own.size
    pure (zipEval party own.d own.e other.d other.e used.reverse, rest)
  else none

/-- boolean_gmw.rs `SimdMsg`; the packed `size` field is always 0 and not modelled. -/
structure SimdMsg where
  d : List Bool
  e : List Bool
  simdSizes : List Nat
deriving DecidableEq, Repr

/-- boolean_gmw.rs:154-161: inputs in chunks of two; `none` if the second of a chunk is missing.
The lengths of the two are compared only by a `debug_assert`, which is modelled as a panic. -/
def chunkPairs : List (List Bool) → Option (List (List Bool × List Bool))
  | [] => some []
  | x :: y :: rest =>
    if x.length = y.length then do
      let r ← chunkPairs rest
      pure ((x, y) :: r)
    else none
  | [_] => none

/-- boolean_gmw.rs:143-175 `compute_msg_simd`: `e` collects the first operands and `d` the
second ones; masked with the last `d.len()` triples of the store in store order. -/
def computeMsgSimd (inputs : List (List Bool)) (mts : List Triple) : Option SimdMsg := do
  let prs ← chunkPairs inputs
  let e := (prs.map (·.1)).flatten
  let d := (prs.map (·.2)).flatten
  let (_, used) ← splitOffLast mts d.length
  pure { d := padWords (xorL d (used.map (·.a)))
         e := padWords (xorL e (used.map (·.b)))
         simdSizes := prs.map (·.1.length) }

/-- boolean_gmw.rs:256-264: cut the flat result into pieces; `none` if a slice is out of range. -/
def cutSizes : List Nat → List Bool → Option (List (List Bool))
  | [], _ => some []
  | n :: ns, res =>
    if n ≤ res.length then do
      let r ← cutSizes ns (res.drop n)
      pure (res.take n :: r)
    else none

/-- Word-wise xor/and of possibly different lengths (`fast_bit_xor_mut`/`fast_bit_and`,
utils.rs): operates on the raw words zipped together, keeps the length of the left operand.
Here the left operand keeps its tail unchanged. Heads are assumed word aligned. -/
def fastOp (f : Bool → Bool → Bool) : List Bool → List Bool → List Bool
  | x :: xs, y :: ys => f x y :: fastOp f xs ys
  | xs, [] => xs
  | [], _ => []

/-- boolean_gmw.rs:210-265 `evaluate_interactive_simd`. -/
def evaluateInteractiveSimd (party : Nat) (own other : SimdMsg) (mts : List Triple) :
    Option (List (List Bool) × List Triple) :=
  if own.simdSizes = other.simdSizes then do
    let total := own.simdSizes.sum
    let (rest, used) ← splitOffLast mts total
    let d := fastOp xor own.d other.d
    let e := fastOp xor own.e other.e
    let res0 := if party = 0 then fastOp and d e else List.replicate total false
    let res1 := fastOp xor res0 (fastOp and d (used.map (·.b)))
    let res2 := fastOp xor res1 (fastOp and e (used.map (·.a)))
    let res := fastOp xor res2 (used.map (·.c))
    let out ← cutSizes own.simdSizes res
    pure (out, rest)
  else none

/-- boolean_gmw.rs:328-332 `XorSharing::share` with the generator output as an argument.
`rand_bitvec(input.len())` has the length of the input. -/
def xorShare (rand input : List Bool) : List Bool × List Bool :=
  (rand, xorL input rand)

/-- boolean_gmw.rs:334-337 `reconstruct`. -/
def xorReconstruct (s : List Bool × List Bool) : List Bool := xorL s.1 s.2

end Verif.Gmw
