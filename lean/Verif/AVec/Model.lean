/-!
`AlignedVec` (crates/aligned-vec/src/lib.rs) on an explicit heap.

Elements are tokens: an identity and a value.  A token is created by the caller or by `T::clone`; it is
dropped at most once, and a token handed to the caller is not dropped by the vector.  Undefined behaviour
is `none`; a panic is an outcome.

Simplifications: dropping an element does not panic; `Deref`, `Index` with ranges and `Debug` are views
of `as_slice`; the bytes of an element are one cell.
-/
set_option autoImplicit false

namespace Verif.AVec

/-- Platform, element type, allocator. -/
structure Par where
  /-- bits of `usize` -/
  w : Nat
  /-- `size_of::<T>()` -/
  sizeT : Nat
  /-- `align_of::<T>()` -/
  alignT : Nat
  /-- `ALIGN::to_usize()` -/
  align : Nat
  /-- overflow checks are compiled in -/
  debug : Bool
  /-- `needs_drop::<T>()` -/
  glue : Bool
  /-- the answer of the allocator to the `k`-th request, for size and alignment; `none` is a null
  pointer -/
  alloc : Nat → Nat → Nat → Option Nat
  /-- whether the `k`-th call of `T::clone` panics -/
  clonePanics : Nat → Bool

abbrev Tok (V : Type) := Nat × V

/-- An allocation. -/
structure Block (V : Type) where
  addr : Nat
  size : Nat
  align : Nat
  cells : List (Option (Tok V))

structure Hp (V : Type) where
  blocks : Nat → Option (Block V) := fun _ => none
  /-- requests to the allocator so far -/
  allocs : Nat := 0
  /-- tokens created so far -/
  fresh : Nat := 0
  /-- calls of `T::clone` so far -/
  clones : Nat := 0
  dropped : List Nat := []
  /-- tokens returned by `pop` -/
  given : List Nat := []

/-- lib.rs:11-17; the pointer is the allocation, `none` for `NonNull::dangling()`. -/
structure AV where
  blk : Option Nat
  cap : Nat
  len : Nat

variable {V : Type}

/-! ### Elements and memory -/

/-- The caller makes a value. -/
def Hp.mk_ (h : Hp V) (v : V) : Hp V × Tok V := ({ h with fresh := h.fresh + 1 }, (h.fresh, v))

/-- Drop an element.  Dropping twice, or dropping what was handed out, is undefined behaviour. -/
def Hp.dropTok (P : Par) (h : Hp V) (t : Tok V) : Option (Hp V) :=
  if P.glue then
    if t.1 ∈ h.dropped ∨ t.1 ∈ h.given then none else some { h with dropped := t.1 :: h.dropped }
  else some h

def Hp.dropAll (P : Par) (h : Hp V) : List (Tok V) → Option (Hp V)
  | [] => some h
  | t :: ts => h.dropTok P t >>= fun h => h.dropAll P ts

/-- `T::clone` of an element with value `v`; `none` is a panic. -/
def Hp.cloneTok (P : Par) (h : Hp V) (v : V) : Hp V × Option (Tok V) :=
  if P.clonePanics h.clones then ({ h with clones := h.clones + 1 }, none)
  else ({ h with clones := h.clones + 1, fresh := h.fresh + 1 }, some (h.fresh, v))

/-- `Layout::from_size_align` succeeds. -/
def Par.layoutOk (P : Par) (size : Nat) : Bool := decide (size + P.align ≤ 2 ^ (P.w - 1))

/-- `alloc` of `cap` elements; `none` is a null pointer. -/
def Hp.allocate (P : Par) (h : Hp V) (size cap : Nat) : Hp V × Option Nat :=
  match P.alloc h.allocs size P.align with
  | none => ({ h with allocs := h.allocs + 1 }, none)
  | some a => ({ h with
      allocs := h.allocs + 1
      blocks := fun b => if b = h.allocs then
        some ⟨a, size, P.align, List.replicate cap none⟩ else h.blocks b }, some h.allocs)

/-- `realloc`: undefined behaviour for a wrong layout and for a new size that overflows `isize`. -/
def Hp.reallocate (P : Par) (h : Hp V) (blk : Option Nat) (size newSize newCap : Nat) :
    Option (Hp V × Option Nat) := do
  let b ← blk
  let B ← h.blocks b
  if B.size ≠ size ∨ B.align ≠ P.align ∨ ¬ P.layoutOk newSize then none
  else match P.alloc h.allocs newSize P.align with
    | none => some ({ h with allocs := h.allocs + 1 }, none)
    | some a => some ({ h with
        allocs := h.allocs + 1
        blocks := fun c => if c = h.allocs then
          some ⟨a, newSize, P.align, B.cells.take newCap ++ List.replicate (newCap - B.cells.length) none⟩
          else if c = b then none else h.blocks c }, some h.allocs)

/-- `dealloc`: undefined behaviour for a wrong layout. -/
def Hp.deallocate (P : Par) (h : Hp V) (blk : Option Nat) (size : Nat) : Option (Hp V) := do
  let b ← blk
  let B ← h.blocks b
  if B.size ≠ size ∨ B.align ≠ P.align then none
  else some { h with blocks := fun c => if c = b then none else h.blocks c }

/-- `ptr.add(i).write(t)`. -/
def Hp.write (h : Hp V) (blk : Option Nat) (i : Nat) (t : Tok V) : Option (Hp V) := do
  let b ← blk
  let B ← h.blocks b
  if i < B.cells.length then
    some { h with blocks := fun c => if c = b then some { B with cells := B.cells.set i (some t) }
      else h.blocks c }
  else none

/-- Reading an element. -/
def Hp.read (h : Hp V) (blk : Option Nat) (i : Nat) : Option (Tok V) := do
  let b ← blk
  let B ← h.blocks b
  let c ← B.cells[i]?
  c

/-- Reading `n` elements from position `i`. -/
def Hp.readN (h : Hp V) (blk : Option Nat) : Nat → Nat → Option (List (Tok V))
  | _, 0 => some []
  | i, n + 1 => do
    let t ← h.read blk i
    let ts ← h.readN blk (i + 1) n
    pure (t :: ts)

/-! ### The vector.  The Boolean of a result is `false` for a panic. -/

/-- lib.rs:20-33 `new`. -/
def new (P : Par) : Option AV :=
  if P.sizeT = 0 ∨ P.align < P.alignT then none else some ⟨none, 0, 0⟩

/-- lib.rs:35-60 `with_capacity`; `none` in the second component is a panic. -/
def withCapacity (P : Par) (h : Hp V) (capacity : Nat) : Hp V × Option AV :=
  if P.sizeT = 0 ∨ P.align < P.alignT then (h, none)
  else if capacity = 0 then (h, new P)
  else if 2 ^ P.w ≤ capacity * P.sizeT then (h, none)
  else if ¬ P.layoutOk (capacity * P.sizeT) then (h, none)
  else match h.allocate P (capacity * P.sizeT) capacity with
    | (h, none) => (h, none)
    | (h, some b) => (h, some ⟨some b, capacity, 0⟩)

/-- lib.rs:74-80 `as_ptr`: `NonNull::dangling()` is the alignment of `T`. -/
def asPtr (P : Par) (h : Hp V) (v : AV) : Option Nat :=
  match v.blk with
  | none => some P.alignT
  | some b => (h.blocks b).map (·.addr)

/-- lib.rs:86-107 `truncate`. -/
def truncate (P : Par) (h : Hp V) (v : AV) (len : Nat) : Option (Hp V × AV) :=
  if len > v.len then some (h, v)
  else do
    let ts ← h.readN v.blk len (v.len - len)
    let h ← h.dropAll P ts
    pure (h, { v with len := len })

/-- lib.rs:82-84 `clear`. -/
def clear (P : Par) (h : Hp V) (v : AV) : Option (Hp V × AV) := truncate P h v 0

/-- `usize::next_power_of_two` without the overflow check. -/
def nextPow2 (n : Nat) : Nat := if n ≤ 1 then 1 else 2 ^ (Nat.log2 (n - 1) + 1)

/-- lib.rs:109-135 `reserve`.  `len + additional` wraps in release builds. -/
def reserve (P : Par) (h : Hp V) (v : AV) (additional : Nat) : Option (Hp V × AV × Bool) :=
  if P.debug ∧ 2 ^ P.w ≤ v.len + additional then some (h, v, false)
  else
    let need := (v.len + additional) % 2 ^ P.w
    if need ≤ v.cap then some (h, v, true)
    else
      let newCap := nextPow2 need
      if 2 ^ P.w ≤ newCap then some (h, v, false)
      else if 2 ^ P.w ≤ newCap * P.sizeT then some (h, v, false)
      else if newCap * P.sizeT = 0 then some (h, v, false)
      else if v.cap = 0 then
        if ¬ P.layoutOk (newCap * P.sizeT) then some (h, v, false)
        else match h.allocate P (newCap * P.sizeT) newCap with
          | (h, none) => some (h, v, false)
          | (h, some b) => some (h, { v with blk := some b, cap := newCap }, true)
      else if ¬ P.layoutOk (v.cap * P.sizeT) then some (h, v, false)
      else match h.reallocate P v.blk (v.cap * P.sizeT) (newCap * P.sizeT) newCap with
        | none => none
        | some (h, none) => some (h, v, false)
        | some (h, some b) => some (h, { v with blk := some b, cap := newCap }, true)

/-- lib.rs:137-144 `pop`. -/
def pop (h : Hp V) (v : AV) : Option (AV × Option (Tok V)) :=
  if v.len = 0 then some (v, none)
  else do
    let t ← h.read v.blk (v.len - 1)
    pure ({ v with len := v.len - 1 }, some t)

/-- lib.rs:146-152 `push`.  A panic of `reserve` drops the element. -/
def push (P : Par) (h : Hp V) (v : AV) (t : Tok V) : Option (Hp V × AV × Bool) := do
  let (h, v, ok) ← reserve P h v 1
  if ok then
    let h ← h.write v.blk v.len t
    pure (h, { v with len := v.len + 1 }, true)
  else
    let h ← h.dropTok P t
    pure (h, v, false)

/-- lib.rs:154-160 `as_slice`, `as_mut_slice`. -/
def asSlice (h : Hp V) (v : AV) : Option (List (Tok V)) := h.readN v.blk 0 v.len

/-- lib.rs:181-212 `extend_with` after `reserve`: the length counts the elements written so far also
when a clone panics (`SetLenOnDrop`, lib.rs:301-328). -/
def extendLoop (P : Par) : Nat → Hp V → AV → Tok V → Option (Hp V × AV × Bool)
  | 0, h, v, t => do
    let h ← h.dropTok P t
    pure (h, v, true)
  | 1, h, v, t => do
    let h ← h.write v.blk v.len t
    pure (h, { v with len := v.len + 1 }, true)
  | n + 2, h, v, t =>
    match h.cloneTok P t.2 with
    | (h, none) => do
      let h ← h.dropTok P t
      pure (h, v, false)
    | (h, some c) => do
      let h ← h.write v.blk v.len c
      extendLoop P (n + 1) h { v with len := v.len + 1 } t

/-- lib.rs:172-183 `resize`. -/
def resize (P : Par) (h : Hp V) (v : AV) (newLen : Nat) (t : Tok V) : Option (Hp V × AV × Bool) :=
  if newLen > v.len then do
    let (h, v', ok) ← reserve P h v (newLen - v.len)
    if ok then extendLoop P (newLen - v.len) h v' t
    else
      let h ← h.dropTok P t
      pure (h, v', false)
  else do
    let (h, v) ← truncate P h v newLen
    let h ← h.dropTok P t
    pure (h, v, true)

/-- lib.rs:221 `while self.pop().is_some() {}`, with the length as fuel. -/
def popLoop (P : Par) : Nat → Hp V → AV → Option (Hp V × AV)
  | 0, h, v => some (h, v)
  | n + 1, h, v => do
    let (v, t) ← pop h v
    match t with
    | none => pure (h, v)
    | some t =>
      let h ← h.dropTok P t
      popLoop P n h v

/-- lib.rs:214-227 `drop`. -/
def drop (P : Par) (h : Hp V) (v : AV) : Option (Hp V) :=
  if v.cap ≠ 0 ∧ P.sizeT ≠ 0 then do
    let (h, v) ← popLoop P v.len h v
    h.deallocate P v.blk (v.cap * P.sizeT)
  else some h

/-- `ptr::copy_nonoverlapping` of `n` cells. -/
def Hp.copy (h : Hp V) (src dst : Option Nat) : Nat → Option (Hp V)
  | 0 => some h
  | n + 1 => do
    let h ← h.copy src dst n
    let t ← h.read src n
    h.write dst n t

/-- lib.rs:229-239 `clone`: the elements are copied bit by bit. -/
def clone (P : Par) (h : Hp V) (v : AV) : Option (Hp V × Option AV) :=
  match withCapacity P h v.len with
  | (h, none) => some (h, none)
  | (h, some r) => do
    let h ← h.copy v.blk r.blk v.len
    pure (h, some { r with len := v.len })

/-- lib.rs:263-266, the closure of `for_each`. -/
def fromLoop (P : Par) : List V → Hp V → AV → Option (Hp V × AV × Bool)
  | [], h, v => some (h, v, true)
  | x :: xs, h, v =>
    match h.cloneTok P x with
    | (h, none) => some (h, v, false)
    | (h, some t) => do
      let (h, v, ok) ← push P h v t
      if ok then fromLoop P xs h v else pure (h, v, false)

/-- lib.rs:257-267 `From<&[T]>`.  A panic drops the vector. -/
def fromSlice (P : Par) (h : Hp V) (xs : List V) : Option (Hp V × Option AV) :=
  match withCapacity P h xs.length with
  | (h, none) => some (h, none)
  | (h, some v) => do
    let (h, v, ok) ← fromLoop P xs h v
    if ok then pure (h, some v)
    else
      let h ← drop P h v
      pure (h, none)

/-- `v[i] = x` (lib.rs:281-288): the old element is dropped. -/
def setAt (P : Par) (h : Hp V) (v : AV) (i : Nat) (t : Tok V) : Option (Hp V × Bool) :=
  if i < v.len then do
    let old ← h.read v.blk i
    let h ← h.dropTok P old
    let h ← h.write v.blk i t
    pure (h, true)
  else do
    let h ← h.dropTok P t
    pure (h, false)

/-! ### Programs -/

/-- Operations of a program on its vectors, numbered in the order of their creation. -/
inductive Op (V : Type) where
  | new
  | withCapacity (n : Nat)
  | fromSlice (xs : List V)
  | clone (i : Nat)
  | push (i : Nat) (x : V)
  | pop (i : Nat)
  | truncate (i n : Nat)
  | clear (i : Nat)
  | reserve (i n : Nat)
  | resize (i n : Nat) (x : V)
  | read (i : Nat)
  | set (i j : Nat) (x : V)
  | capacity (i : Nat)
  | drop (i : Nat)

/-- What the program observes. -/
inductive Out (V : Type) where
  | done
  | panic
  | popped (x : Option V)
  | vals (xs : List V)
  | num (n : Nat)
  /-- not a program that type checks: the vector does not exist (any more) -/
  | bad

structure St (V : Type) where
  h : Hp V := {}
  vecs : List (Option AV) := []

/-- The vector `i`. -/
def St.get (s : St V) (i : Nat) : Option AV := (s.vecs[i]?).join

/-- Creating a vector: on a panic there is none. -/
def St.add (s : St V) : Hp V × Option AV → St V × Out V
  | (h, some v) => (⟨h, s.vecs ++ [some v]⟩, .done)
  | (h, none) => (⟨h, s.vecs ++ [none]⟩, .panic)

def St.put (s : St V) (i : Nat) (h : Hp V) (v : AV) (ok : Bool) : St V × Out V :=
  (⟨h, s.vecs.set i (some v)⟩, if ok then .done else .panic)

/-- One operation on the vector `v`, which is the `i`-th. -/
def St.onVec (P : Par) (s : St V) (i : Nat) (v : AV) : Op V → Option (St V × Out V)
  | .clone _ => (clone P s.h v).map s.add
  | .push _ x =>
    let (h, t) := s.h.mk_ x
    (push P h v t).map fun r => s.put i r.1 r.2.1 r.2.2
  | .pop _ => (pop s.h v).map fun r => match r with
    | (v, none) => ((s.put i s.h v true).1, .popped none)
    | (v, some t) => ((s.put i { s.h with given := t.1 :: s.h.given } v true).1, .popped (some t.2))
  | .truncate _ n => (truncate P s.h v n).map fun r => s.put i r.1 r.2 true
  | .clear _ => (clear P s.h v).map fun r => s.put i r.1 r.2 true
  | .reserve _ n => (reserve P s.h v n).map fun r => s.put i r.1 r.2.1 r.2.2
  | .resize _ n x =>
    let (h, t) := s.h.mk_ x
    (resize P h v n t).map fun r => s.put i r.1 r.2.1 r.2.2
  | .read _ => (asSlice s.h v).map fun ts => (s, .vals (ts.map (·.2)))
  | .set _ j x =>
    let (h, t) := s.h.mk_ x
    (setAt P h v j t).map fun r => s.put i r.1 v r.2
  | .capacity _ => some (s, .num v.cap)
  | .drop _ => (drop P s.h v).map fun h => (⟨h, s.vecs.set i none⟩, .done)
  | _ => none

/-- The vector an operation works on. -/
def Op.target : Op V → Option Nat
  | .new | .withCapacity _ | .fromSlice _ => none
  | .clone i | .push i _ | .pop i | .truncate i _ | .clear i | .reserve i _ | .resize i _ _
  | .read i | .set i _ _ | .capacity i | .drop i => some i

def step (P : Par) (s : St V) (op : Op V) : Option (St V × Out V) :=
  match op.target with
  | some i =>
    match s.get i with
    | some v => s.onVec P i v op
    | none => some (s, .bad)
  | none =>
    match op with
    | .new => some (s.add (s.h, new P))
    | .withCapacity n => some (s.add (withCapacity P s.h n))
    | .fromSlice xs => (fromSlice P s.h xs).map s.add
    | _ => none

def run (P : Par) : List (Op V) → St V → Option (St V × List (Out V))
  | [], s => some (s, [])
  | op :: ops, s => do
    let (s, o) ← step P s op
    let (s, os) ← run P ops s
    pure (s, o :: os)

end Verif.AVec
