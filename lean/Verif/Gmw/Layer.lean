import Verif.Gmw.Model

/-!
One interactive step of the executor for Boolean GMW, both parties together.
-/
set_option autoImplicit false

namespace Verif.Gmw

/-- What one party sends in a layer: executor.rs:395-398 (`ExecutorMsg`, `SIMD_SUPPORT` is true
for Boolean GMW, so the simd part is always present). -/
structure LayerMsg where
  scalar : Msg
  simd : SimdMsg

/-- executor.rs:353-398: both messages are computed from the same, unmodified, setup storage. -/
def layerMsg (n : Nat) (x : List Bool) (v : List (List Bool)) (m : List Triple) :
    Option LayerMsg := do
  let s ← computeMsg (List.replicate n .and) x m
  let t ← computeMsgSimd v m
  pure ⟨s, t⟩

/-- executor.rs:436-457: scalar evaluation first, then SIMD evaluation on the remaining storage. -/
def layerEval (party : Nat) (own other : LayerMsg) (m : List Triple) :
    Option (List Bool × List (List Bool) × List Triple) := do
  let (z, r) ← evaluateInteractive party own.scalar other.scalar m
  let (w, r') ← evaluateInteractiveSimd party own.simd other.simd r
  pure (z, w, r')

/-- Joint execution of one layer with `n` scalar AND gates and the vector AND gates whose
operand sequences are `v0`, `v1`. -/
def runLayer (n : Nat) (x0 x1 : List Bool) (v0 v1 : List (List Bool)) (m0 m1 : List Triple) :
    Option ((List Bool × List Bool) × (List (List Bool) × List (List Bool)) ×
      (List Triple × List Triple)) := do
  let msg0 ← layerMsg n x0 v0 m0
  let msg1 ← layerMsg n x1 v1 m1
  let (z0, w0, r0) ← layerEval 0 msg0 msg1 m0
  let (z1, w1, r1) ← layerEval 1 msg1 msg0 m1
  pure ((z0, z1), (w0, w1), (r0, r1))

end Verif.Gmw
