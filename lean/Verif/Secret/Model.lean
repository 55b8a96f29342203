import Verif.Circuit.Build

/-!
`Secret` operators (crates/seec/src/secret.rs) and `low_depth_reduce`.

The global `CircuitBuilder` (circuit/builder.rs:60-113) is the list of its circuits; a `Secret` is
the pair of its circuit id and gate id.  Simplification: a circuit that is shared between several
ids is not edited after being shared.  `none` stands for a panic.
-/
set_option autoImplicit false

namespace Verif.Secret

open Circuit Gmw

/-- The circuits of the global builder, by circuit id. -/
abbrev Builder := List (Base BoolGate)

/-- secret.rs:20-28 `Secret<BooleanGmw, Idx>`. -/
abbrev Sec := Node

/-- Lock a circuit of the builder, add gates, and wrap the id of the last one
(e.g. secret.rs:141-146). -/
def onCirc (b : Builder) (i : Nat) (f : Base BoolGate → Option (Base BoolGate × Nat)) :
    Option (Builder × Sec) := do
  let c ← b[i]?
  let (c, id) ← f c
  pure (b.set i c, (i, id))

/-- secret.rs:44-54 `from_const`. -/
def fromConst (b : Builder) (i : Nat) (v : Bool) : Option (Builder × Sec) :=
  onCirc b i fun c => some (c.addGate (.base (.constant v)))

/-- secret.rs:132-148 `BitXor`, 164-175 `BitXorAssign`. -/
def bitXor (b : Builder) (s r : Sec) : Option (Builder × Sec) :=
  if s.1 = r.1 then onCirc b s.1 fun c => c.addWiredGate .xor [s.2, r.2] else none

/-- secret.rs:150-162 `BitXor<bool>`, 177-184 `BitXorAssign<bool>`. -/
def bitXorConst (b : Builder) (s : Sec) (v : Bool) : Option (Builder × Sec) :=
  onCirc b s.1 fun c =>
    let (c, k) := c.addGate (.base (.constant v))
    c.addWiredGate .xor [s.2, k]

/-- secret.rs:186-202 `BitAnd`, 218-229 `BitAndAssign`. -/
def bitAnd (b : Builder) (s r : Sec) : Option (Builder × Sec) :=
  if s.1 = r.1 then onCirc b s.1 fun c => c.addWiredGate .and [s.2, r.2] else none

/-- secret.rs:204-216 `BitAnd<bool>`, 231-238 `BitAndAssign<bool>`. -/
def bitAndConst (b : Builder) (s : Sec) (v : Bool) : Option (Builder × Sec) :=
  onCirc b s.1 fun c =>
    let (c, k) := c.addGate (.base (.constant v))
    c.addWiredGate .and [s.2, k]

/-- secret.rs:240-252 `BitOr`. -/
def bitOr (b : Builder) (s r : Sec) : Option (Builder × Sec) :=
  if s.1 = r.1 then do
    let (b, x) ← bitXor b s r
    let (b, y) ← bitAnd b s r
    bitXor b x y
  else none

/-- secret.rs:254-262 `BitOr<bool>`. -/
def bitOrConst (b : Builder) (s : Sec) (v : Bool) : Option (Builder × Sec) := do
  let (b, r) ← fromConst b s.1 v
  let (b, x) ← bitXor b s r
  let (b, y) ← bitAnd b s r
  bitXor b x y

/-- secret.rs:264-269 `BitOrAssign`. -/
def bitOrAssign (b : Builder) (s r : Sec) : Option (Builder × Sec) := do
  let (b, y) ← bitAnd b s r
  let (b, x) ← bitXor b r y
  bitXor b s x

/-- secret.rs:271-276 `BitOrAssign<bool>`. -/
def bitOrAssignConst (b : Builder) (s : Sec) (v : Bool) : Option (Builder × Sec) := do
  let (b, r) ← fromConst b s.1 v
  bitOrAssign b s r

/-- secret.rs:278-302 `Not`. -/
def not (b : Builder) (s : Sec) : Option (Builder × Sec) :=
  onCirc b s.1 fun c => c.addWiredGate .inv [s.2]

/-- secret.rs:88-96 `output`; the id of the output gate is wrapped as a secret here. -/
def output (b : Builder) (s : Sec) : Option (Builder × Sec) :=
  onCirc b s.1 fun c => c.addWiredGate (.base .output) [s.2]

/-- secret.rs:56-65 `input`. -/
def input (b : Builder) (i : Nat) : Option (Builder × Sec) :=
  onCirc b i fun c => some (c.addGate (.base .input))

variable {α σ : Type}

/-- secret.rs:406-412: one pass over the buffer; `tuples` yields consecutive pairs, an odd last
element stays in the buffer of the iterator.  The operation may change the state (the builder). -/
def pass (f : α → α → σ → Option (α × σ)) : List α → σ → Option (List α × σ)
  | x :: y :: rest, s => do
    let (z, s) ← f x y s
    let (zs, s) ← pass f rest s
    pure (z :: zs, s)
  | [x], s => some ([x], s)
  | [], s => some ([], s)

/-- secret.rs:404-413: the loop.  Running out of `fuel` is reported as `none` (the theorems show
that this does not happen). -/
def reduceLoop (f : α → α → σ → Option (α × σ)) : Nat → List α → σ → Option (List α × σ)
  | 0, _, _ => none
  | fuel + 1, buf, s =>
    if buf.length ≤ 1 then some (buf, s)
    else do
      let (buf, s) ← pass f buf s
      reduceLoop f fuel buf s

/-- secret.rs:393-416 `low_depth_reduce`. -/
def lowDepthReduce (f : α → α → σ → Option (α × σ)) (xs : List α) (s : σ) :
    Option (Option α × σ) := do
  let (buf, s) ← reduceLoop f (xs.length + 1) xs s
  pure (buf.getLast?, s)

end Verif.Secret
