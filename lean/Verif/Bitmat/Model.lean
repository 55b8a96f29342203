/-!
crates/seec-bitmatrix: bit matrices.

Storage words are modelled as lists of bits, least significant bit first (`Lsb0`); on a
little-endian machine this is also the order of the bits in the bytes of the storage. `none` is a
panic, an access out of bounds (undefined behaviour in the unsafe code) or a loop that does not end.
-/
set_option autoImplicit false

namespace Verif.Bitmat

/-- lib.rs:29-34 `BitMatrix`: `data` are the bits of the storage words. -/
structure BitMatrix where
  rows : Nat
  cols : Nat
  data : List Bool
deriving DecidableEq, Repr

/-- The bits of `BitVec::into_vec` with storage words of `bits` bits: padding in the last word
(modelled as zeros). -/
def padWords (bits : Nat) (l : List Bool) : List Bool :=
  l ++ List.replicate ((bits - l.length % bits) % bits) false

/-- lib.rs:481-487 `check_dim` and lib.rs:67-74 `zeros`. -/
def zeros (bits rows cols : Nat) : Option BitMatrix :=
  if rows * cols % bits = 0 then some ⟨rows, cols, List.replicate (rows * cols) false⟩ else none

/-- lib.rs:181-190 `from_bits`. -/
def fromBits (bits : Nat) (l : List Bool) (rows cols : Nat) : Option BitMatrix :=
  if l.length % bits = 0 ∧ l.length = rows * cols then some ⟨rows, cols, l⟩ else none

/-- lib.rs:192-201 `identity`: the loop sets every `size + 1`st bit. -/
def identity (bits size : Nat) : Option BitMatrix :=
  if size * size % bits = 0 then
    some ⟨size, size, (List.range (size * size)).map fun i => decide (i % (size + 1) = 0)⟩
  else none

/-- lib.rs:273-279 `BitMatrixView::row`. -/
def row (m : BitMatrix) (r : Nat) : Option (List Bool) :=
  if (r + 1) * m.cols ≤ m.data.length then some ((m.data.drop (r * m.cols)).take m.cols) else none

/-- lib.rs:418-428 `Rows::next` until it returns `None`: the iterator knows nothing about the number
of rows.  With no columns it does not end. -/
def iterRows (m : BitMatrix) : Option (List (List Bool)) :=
  if m.cols = 0 then none
  else (List.range (m.data.length / m.cols)).mapM (row m)

/-! ### Transposition -/

/-- simple.rs:9-26: the two loops, for each position of the output.  Each position
`col * rows + row` is written once. -/
def simpleTranspose (input : List Bool) (rows cols : Nat) : Option (List Bool) :=
  if rows * cols = input.length then
    (List.range rows).foldlM (fun out row =>
      (List.range cols).foldlM (fun out col => do
        let bit ← input[row * cols + col]?
        if col * rows + row < rows * cols then some (out.set (col * rows + row) bit) else none) out)
      (List.replicate (rows * cols) false)
  else none

/-- A byte, as its bits. -/
abbrev Byte := Nat → Bool

/-- A 128 bit vector. -/
abbrev Vec := Nat → Bool

/-- `*input.get_unchecked(b)` on the bytes. -/
def readByte (input : List Bool) (b : Nat) : Option Byte :=
  if 8 * b + 8 ≤ input.length then some fun k => (input[8 * b + k]?).getD false else none

/-- `*byte_output.get_unchecked_mut(b) = h` with `n` bytes. -/
def writeByte (n : Nat) (out : Nat → Bool) (b : Nat) (h : Byte) : Option (Nat → Bool) :=
  if b < n then some fun j => if j / 8 = b then h (j % 8) else out j else none

/-- `_mm_movemask_epi8`: the most significant bit of each byte; `low` and `high` are the bytes of
the result. -/
def maskLow (v : Vec) : Byte := fun k => v (8 * k + 7)
def maskHigh (v : Vec) : Byte := fun k => v (8 * (k + 8) + 7)

/-- `_mm_slli_epi64::<1>`: shift of the two 64 bit halves. -/
def slli (v : Vec) : Vec := fun j => if j % 64 = 0 then false else v (j - 1)

/-- sse2_transpose.rs:34-35. -/
def inpIdx (ncols x y : Nat) : Nat := x * ncols / 8 + y / 8
def outIdx (nrows x y : Nat) : Nat := y * nrows / 8 + x / 8

/-- `_mm_setr_epi8` of the bytes. -/
def ofBytes (bs : List Byte) : Vec := fun j => ((bs[j / 8]?).map fun b => b (j % 8)).getD false

/-- sse2_transpose.rs:61-69: the loop over `(0..8).rev()` of the main part. -/
def flushMain (nrows n rr cc : Nat) : List Nat → Vec → (Nat → Bool) → Option (Nat → Bool)
  | [], _, out => some out
  | i :: is, v, out => do
    let out ← writeByte n out (outIdx nrows rr (cc + i)) (maskLow v)
    let out ← writeByte n out (outIdx nrows rr (cc + i) + 1) (maskHigh v)
    flushMain nrows n rr cc is (slli v) out

/-- sse2_transpose.rs:41-71: the loop over the columns of the main part. -/
def colLoop (input : List Bool) (nrows ncols n rr cc : Nat) (out : Nat → Bool) : Option (Nat → Bool) :=
  if cc < ncols then do
    let bs ← (List.range 16).mapM fun k => readByte input (inpIdx ncols (rr + k) cc)
    let out ← flushMain nrows n rr cc [7, 6, 5, 4, 3, 2, 1, 0] (ofBytes bs) out
    colLoop input nrows ncols n rr (cc + 8) out
  else some out
termination_by ncols - cc

/-- sse2_transpose.rs:39-73: the loop over the rows. -/
def rowLoop (input : List Bool) (nrows ncols n rr : Nat) (out : Nat → Bool) :
    Option (Nat × (Nat → Bool)) :=
  if rr ≤ nrows - 16 then do
    let out ← colLoop input nrows ncols n rr 0 out
    rowLoop input nrows ncols n (rr + 16) out
  else some (rr, out)
termination_by nrows + 1 - rr

/-- sse2_transpose.rs:91-99, 114-119: a pair of 8x8 blocks is written. -/
def flushPair (nrows n rr cc : Nat) : List Nat → Vec → (Nat → Bool) → Option (Vec × (Nat → Bool))
  | [], v, out => some (v, out)
  | i :: is, v, out => do
    let out ← writeByte n out (outIdx nrows rr (cc + i)) (maskLow v)
    let out ← writeByte n out (outIdx nrows rr (cc + i + 8)) (maskHigh v)
    flushPair nrows n rr cc is (slli v) out

/-- sse2_transpose.rs:85-101: remainder, in pairs of blocks; returns `cc` and the vector. -/
def pairLoop (input : List Bool) (nrows ncols n rr cc : Nat) (tmp : Vec) (out : Nat → Bool) :
    Option (Nat × Vec × (Nat → Bool)) :=
  if cc ≤ ncols - 16 then do
    let lo ← (List.range 8).mapM fun i => readByte input (inpIdx ncols (rr + i) cc)
    let hi ← (List.range 8).mapM fun i => readByte input (inpIdx ncols (rr + i) cc + 1)
    let (tmp, out) ← flushPair nrows n rr cc [7, 6, 5, 4, 3, 2, 1, 0] (ofBytes (lo ++ hi)) out
    pairLoop input nrows ncols n rr (cc + 16) tmp out
  else some (cc, tmp, out)
termination_by ncols + 1 - cc

/-- sse2_transpose.rs:103-121: the variant with 16 bit loads.  `_mm_set_epi16` puts the two bytes of
row `i` next to each other. -/
def pairLoop16 (input : List Bool) (nrows ncols n rr cc : Nat) (tmp : Vec) (out : Nat → Bool) :
    Option (Nat × Vec × (Nat → Bool)) :=
  if cc ≤ ncols - 16 then do
    let bs ← (List.range 16).mapM fun i => readByte input (inpIdx ncols (rr + i / 2) cc + i % 2)
    let (_, out) ← flushPair nrows n rr cc [7, 6, 5, 4, 3, 2, 1, 0] (ofBytes bs) out
    pairLoop16 input nrows ncols n rr (cc + 16) tmp out
  else some (cc, tmp, out)
termination_by ncols + 1 - cc

/-- sse2_transpose.rs:129-133: the last block. -/
def flushLast (nrows n rr cc : Nat) : List Nat → Vec → (Nat → Bool) → Option (Nat → Bool)
  | [], _, out => some out
  | i :: is, v, out => do
    let out ← writeByte n out (outIdx nrows rr (cc + i)) (maskLow v)
    flushLast nrows n rr cc is (slli v) out

/-- sse2_transpose.rs:20-136 `transpose`; portable_transpose.rs:8-114 has the same structure. -/
def blockTranspose (input : List Bool) (nrows ncols : Nat) : Option (List Bool) :=
  if nrows % 8 = 0 ∧ ncols % 8 = 0 ∧ 16 ≤ ncols ∧ 16 ≤ nrows ∧ ncols * nrows = input.length then do
    let n := input.length / 8
    let (rr, out) ← rowLoop input nrows ncols n 0 fun _ => false
    let out ← if rr = nrows then some out else do
      let tmp : Vec := fun _ => false
      let (cc, tmp, out) ←
        if ncols % 16 ≠ 0 ∨ nrows % 16 ≠ 0 then pairLoop input nrows ncols n rr 0 tmp out
        else pairLoop16 input nrows ncols n rr 0 tmp out
      if cc = ncols then some out else do
        let lo ← (List.range 8).mapM fun i => readByte input (inpIdx ncols (rr + i) cc)
        let v : Vec := fun j => if j < 64 then ofBytes lo j else tmp j
        flushLast nrows n rr cc [7, 6, 5, 4, 3, 2, 1, 0] v out
    some ((List.range input.length).map out)
  else none

/-- lib.rs:282-300 `BitMatrixView::transpose`, on a machine with sse2 (or a nightly compiler). -/
def transpose (m : BitMatrix) : Option BitMatrix :=
  (if m.rows % 8 = 0 ∧ m.cols % 8 = 0 ∧ 16 ≤ m.rows ∧ 16 ≤ m.cols then
      blockTranspose m.data m.rows m.cols
    else simpleTranspose m.data m.rows m.cols).map fun d => ⟨m.cols, m.rows, d⟩

/-! ### Arithmetic -/

/-- `reduce(BitXor::bitxor).unwrap()`. -/
def reduceXor : List Bool → Option Bool
  | [] => none
  | b :: bs => some (bs.foldl xor b)

/-- lib.rs:210-213 `dotp`: `BitVec & BitSlice` keeps the length of the left operand; both have the
same length here. -/
def dotp (l r : List Bool) : Option Bool := reduceXor (List.zipWith (· && ·) l r)

/-- lib.rs:203-222 `mat_mul`. -/
def matMul (bits : Nat) (a b : BitMatrix) : Option BitMatrix :=
  if a.cols = b.rows then do
    let bt ← transpose b
    let la ← iterRows a
    let lb ← iterRows bt
    let rs ← la.mapM fun l => lb.mapM fun r => dotp l r
    some ⟨a.rows, bt.rows, padWords bits rs.flatten⟩
  else none

/-- lib.rs:331-361 `bitxor`. -/
def matXor (a b : BitMatrix) : Option BitMatrix :=
  if a.rows = b.rows ∧ a.cols = b.cols then
    some { a with data := List.zipWith xor a.data b.data ++ a.data.drop b.data.length }
  else none

/-- lib.rs:322-329 `not`. -/
def matNot (a : BitMatrix) : BitMatrix := { a with data := a.data.map not }

/-- lib.rs:157-175 `scalar_and`. -/
def scalarAnd (a b : BitMatrix) : Option BitMatrix :=
  if a.rows = b.rows ∧ a.cols = b.cols then
    some { a with data := List.zipWith and a.data b.data }
  else none

end Verif.Bitmat
