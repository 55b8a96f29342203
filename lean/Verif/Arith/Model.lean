import Mathlib.Data.BitVec
import Verif.Gmw.Model

/-!
Arithmetic GMW over machine integers of any width `w` (`u8`..`u128` in the code, wrapping
arithmetic is that of `BitVec w`).
-/
set_option autoImplicit false

namespace Verif.Arith

/-- mul_triple/arithmetic/mod.rs:19-23 `MulTriple`. -/
structure Triple (w : Nat) where
  a : BitVec w
  b : BitVec w
  c : BitVec w
deriving DecidableEq, Repr

/-- Local gates and multiplication, arithmetic_gmw.rs:16-31 (`Base` gates are those of
`Verif.Gmw.BaseGate` and pass their input through, see C06). -/
inductive Gate where
  | mul | add | sub
deriving DecidableEq, Repr

/-- arithmetic_gmw.rs:55-77 `evaluate_non_interactive`; `none` where it panics. -/
def evalLocal {w : Nat} : Gate → List (BitVec w) → Option (BitVec w)
  | .mul, _ => none
  | .add, x :: y :: _ => some (x + y)
  | .sub, x :: y :: _ => some (x - y)
  | _, _ => none

/-- arithmetic_gmw.rs `Msg::MulLayer`. -/
structure Msg (w : Nat) where
  e : List (BitVec w)
  d : List (BitVec w)
deriving DecidableEq, Repr

/-- arithmetic_gmw.rs:79-102 `compute_msg`, the pairs `(d, e)`; the second operand is masked
with the `c` component (line 99). The zip is with the triples in store order. -/
def msgPairs {w : Nat} : List Gate → List (Triple w) → List (BitVec w) →
    Option (List (BitVec w × BitVec w))
  | g :: gs, mt :: mts, inputs =>
    match g, inputs with
    | .mul, x :: y :: rest => do
        let r ← msgPairs gs mts rest
        pure ((x - mt.a, y - mt.c) :: r)
    | _, _ => none
  | _, _, _ => some []

/-- arithmetic_gmw.rs:79-102 `compute_msg`. -/
def computeMsg {w : Nat} (gates : List Gate) (inputs : List (BitVec w)) (mts : List (Triple w)) :
    Option (Msg w) := do
  let r ← msgPairs gates mts inputs
  pure ⟨r.map (·.2), r.map (·.1)⟩

/-- protocols/mod.rs:262-265 default `remove_first`, on top of `split_off_last`
(mul_triple/arithmetic/mod.rs:89-95); returns (removed first, what stays). -/
def removeFirst {α : Type} (store : List α) (count : Nat) : Option (List α × List α) :=
  if count ≤ store.length then Gmw.splitOffLast store (store.length - count) else none

/-- arithmetic_gmw.rs:121-136 the map over the zipped messages. -/
def zipEval {w : Nat} (party : Nat) :
    List (BitVec w) → List (BitVec w) → List (BitVec w) → List (BitVec w) → List (Triple w) →
    List (BitVec w)
  | od :: ods, oe :: oes, rd :: rds, re :: res, mt :: mts =>
    let d := od + rd
    let e := oe + re
    let s := d * mt.a + e * mt.b + mt.c
    (if party = 0 then s + d * e else s) :: zipEval party ods oes rds res mts
  | _, _, _, _, _ => []

/-- arithmetic_gmw.rs:104-138 `evaluate_interactive`. -/
def evaluateInteractive {w : Nat} (party : Nat) (own other : Msg w) (mts : List (Triple w)) :
    Option (List (BitVec w) × List (Triple w)) := do
  let (used, rest) ← removeFirst mts own.e.length
  pure (zipEval party own.d own.e other.d other.e used, rest)

/-- Both parties run one layer of `n` multiplications (executor.rs:353-457). -/
def runLayer {w : Nat} (n : Nat) (x0 x1 : List (BitVec w)) (m0 m1 : List (Triple w)) :
    Option ((List (BitVec w) × List (BitVec w)) × (List (Triple w) × List (Triple w))) := do
  let msg0 ← computeMsg (List.replicate n .mul) x0 m0
  let msg1 ← computeMsg (List.replicate n .mul) x1 m1
  let (z0, r0) ← evaluateInteractive 0 msg0 msg1 m0
  let (z1, r1) ← evaluateInteractive 1 msg1 msg0 m1
  pure ((z0, z1), (r0, r1))

/-- arithmetic_gmw.rs:190-201 `share`; `rand` is what the generator delivers. -/
def share {w : Nat} (rand input : List (BitVec w)) : List (BitVec w) × List (BitVec w) :=
  (rand, List.zipWith (fun r i => i - r) rand input)

/-- arithmetic_gmw.rs:203-209 `reconstruct`. -/
def reconstruct {w : Nat} (s : List (BitVec w) × List (BitVec w)) : List (BitVec w) :=
  List.zipWith (· + ·) s.1 s.2

end Verif.Arith
