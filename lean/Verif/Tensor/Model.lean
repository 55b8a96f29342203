import Verif.Bitmat.MatMul
import Verif.Aby2.Model

/-!
Boolean ABY2 with matrices, crates/seec/src/protocols/tensor_aby2.rs.  Matrices have `u8` storage.
-/
set_option autoImplicit false

namespace Verif.Tensor

open Bitmat (BitMatrix)
open Aby2 (pop)

/-- tensor_aby2.rs:43-47 `PartialShare`. -/
inductive PShare where
  | scalar (b : Bool)
  | vec (v : List Bool)
  | matrix (m : BitMatrix)
deriving DecidableEq, Repr

/-- tensor_aby2.rs:49-54 `TensorShare` (`Share`, `ShareVec`, `ShareMatrix`): public, private. -/
inductive TShare where
  | scalar (pub priv : Bool)
  | vec (pub priv : List Bool)
  | matrix (pub priv : BitMatrix)
deriving DecidableEq, Repr

/-- tensor_aby2.rs:68-84 `BooleanGate`, without the `Base` gates and the gates that are `todo!()`
everywhere (`And3`, `And4`, `Combine`, `Select`). -/
inductive Gate where
  | and2
  | xor
  | inv
  | matMult (rows cols : Nat)
deriving DecidableEq, Repr

/-- tensor_aby2.rs:527-542 `get_private`, `get_public`. -/
def TShare.getPrivate : TShare → PShare
  | .scalar _ b => .scalar b
  | .vec _ v => .vec v
  | .matrix _ m => .matrix m

def TShare.getPublic : TShare → PShare
  | .scalar b _ => .scalar b
  | .vec v _ => .vec v
  | .matrix m _ => .matrix m

/-- tensor_aby2.rs:746-775 `BitXor for PartialShare`. -/
def PShare.xor : PShare → PShare → Option PShare
  | .scalar a, .scalar b => some (.scalar (a ^^ b))
  | .vec a, .vec b => if a.length = b.length then some (.vec (List.zipWith (· ^^ ·) a b)) else none
  | .matrix a, .matrix b => (Bitmat.matXor a b).map .matrix
  | _, _ => none

/-- tensor_aby2.rs:679-701 `BitXor for TensorShare`. -/
def TShare.xor : TShare → TShare → Option TShare
  | .scalar p q, .scalar p' q' => some (.scalar (p ^^ p') (q ^^ q'))
  | .vec p q, .vec p' q' => some (.vec (List.zipWith (· ^^ ·) p p') (List.zipWith (· ^^ ·) q q'))
  | .matrix p q, .matrix p' q' => do
    let a ← Bitmat.matXor p p'
    let b ← Bitmat.matXor q q'
    some (.matrix a b)
  | _, _ => none

/-- tensor_aby2.rs:518-525, 703-713 `Not`. -/
def TShare.not : TShare → TShare
  | .scalar p q => .scalar (!p) q
  | .vec p q => .vec (p.map (!·)) q
  | .matrix p q => .matrix (Bitmat.matNot p) q

/-- tensor_aby2.rs:659-677 `set_public`. -/
def TShare.setPublic : TShare → PShare → Option TShare
  | .scalar _ q, .scalar d => some (.scalar d q)
  | .vec _ q, .vec d => some (.vec d q)
  | .matrix _ q, .matrix d => some (.matrix d q)
  | _, _ => none

/-- tensor_aby2.rs:136-153 `share_constant`; `Share::new(private, public)` (aby2.rs:588) gets the
constant as first argument, `ShareVec::new(public, private)` (aby2.rs:461) too. -/
def shareConstant (_party : Nat) : PShare → Option TShare
  | .scalar b => some (.scalar false b)
  | .vec v => some (.vec v (List.replicate v.length false))
  | .matrix m => (Bitmat.zeros 8 m.rows m.cols).map (.matrix m)

/-- tensor_aby2.rs:155-181 `evaluate_non_interactive`. -/
def evalLocal (party : Nat) (g : Gate) (inputs : List TShare) : Option TShare :=
  match g with
  | .xor => do
    let a ← inputs[0]?
    let b ← inputs[1]?
    a.xor b
  | .inv => do
    let a ← inputs[0]?
    if party = 0 then some a.not else some a
  | .and2 | .matMult _ _ => none

/-- tensor_aby2.rs:103-106 `SetupData`, in reverse evaluation order. -/
abbrev SetupData := List PShare

/-- tensor_aby2.rs:259-332 `compute_delta_share`. -/
def computeDeltaShare (party : Nat) (g : Gate) (inputs : List TShare) (data : SetupData)
    (out : TShare) : Option (PShare × SetupData) :=
  match g with
  | .and2 =>
    match inputs, pop data, out with
    | .scalar ap aq :: .scalar bp bq :: _, some (.scalar e, data), .scalar _ o =>
      some (.scalar ((decide (party = 1) && (ap && bp)) ^^ (ap && bq) ^^ (bp && aq) ^^ e ^^ o), data)
    | _, _, _ => none
  | .matMult rows cols =>
    match inputs, pop data, out with
    | .matrix ap aq :: .matrix bp bq :: _, some (.matrix e, data), .matrix _ o => do
      let m1 ← Bitmat.matMul 8 ap bq
      let m2 ← Bitmat.matMul 8 aq bp
      let s ← Bitmat.matXor m1 m2
      let s ← Bitmat.matXor s e
      let s ← Bitmat.matXor s o
      let s ← if party = 0 then do
          let m3 ← Bitmat.matMul 8 ap bp
          Bitmat.matXor s m3
        else some s
      if s.rows = rows ∧ s.cols = cols then some (.matrix s, data) else none
    | _, _, _ => none
  | .xor | .inv => none

/-- tensor_aby2.rs:494-504 `input_size`. -/
def Gate.inputSize : Gate → Nat
  | .inv => 1
  | .and2 | .xor | .matMult _ _ => 2

/-- tensor_aby2.rs:183-199 `compute_msg`. -/
def computeMsg (party : Nat) :
    List (Gate × TShare) → List TShare → SetupData → Option (List PShare × SetupData)
  | [], _, d => some ([], d)
  | (g, o) :: gs, xs, d => do
    let (s, d) ← computeDeltaShare party g (xs.take g.inputSize) d o
    let (ss, d) ← computeMsg party gs (xs.drop g.inputSize) d
    some (s :: ss, d)

/-- tensor_aby2.rs:201-220 `evaluate_interactive`. -/
def evaluateInteractive : List TShare → List PShare → List PShare → Option (List TShare)
  | o :: os, m :: ms, t :: ts => do
    let d ← m.xor t
    let o ← o.setPublic d
    let os ← evaluateInteractive os ms ts
    some (o :: os)
  | _, _, _ => some []

/-- Generators: bits and matrices (`BitMatrix::random`, lib.rs:76-86, after `check_dim`). -/
structure Gen (σ : Type) where
  bit : σ → Bool × σ
  mat : σ → Nat → Nat → BitMatrix × σ
  mat_dim : ∀ s r c, (mat s r c).1.rows = r ∧ (mat s r c).1.cols = c ∧ (mat s r c).1.Valid

def Gen.random {σ : Type} (g : Gen σ) (s : σ) (r c : Nat) : Option (BitMatrix × σ) :=
  if r * c % 8 = 0 then some (g.mat s r c) else none

/-- tensor_aby2.rs:334-424 `setup_output_share`, for the gates modelled here.  `Inv` is `todo!()`;
`random` draws the private part. -/
def setupOutput {σ : Type} (gen : Gen σ) (g : Gate) (inputs : List TShare) (s : σ) :
    Option (TShare × σ) :=
  match g with
  | .and2 => some (.scalar false (gen.bit s).1, (gen.bit s).2)
  | .xor =>
    match inputs with
    | .scalar p q :: .scalar _ q' :: _ => some (.scalar p (q ^^ q'), s)
    | _ => none
  | .inv => none
  | .matMult rows cols =>
    match inputs with
    | .matrix _ a :: .matrix _ b :: _ =>
      if a.rows = rows ∧ b.cols = cols then do
        let (m, s) ← gen.random s rows cols
        some (.matrix ⟨0, 0, []⟩ m, s)
      else none
    | _ => none

/-- `step_by(n)` -/
def strided {α : Type} (l : List α) (n : Nat) : List α :=
  (List.range ((l.length + n - 1) / n)).filterMap fun i => l[i * n]?

/-- `chunks_exact(n)` -/
def chunksExact {α : Type} (l : List α) (n : Nat) : List (List α) :=
  (List.range (l.length / n)).map fun i => (l.drop (i * n)).take n

/-- `zip(r.cycle())` -/
def zipCycle {α : Type} (l r : List α) : List (α × α) :=
  if r.isEmpty then [] else
  (List.range l.length).filterMap fun i => do
    let x ← l[i]?
    let y ← r[i % r.length]?
    some (x, y)

/-- tensor_aby2.rs:453-467: the pairs of a row of the first and a column of the second operand of a
matrix multiplication, for matrices of any type.  `None` is a division by zero or an empty row. -/
def matPairs {α : Type} (rows cols : Nat) (a b : List α) : Option (List (List α × List α)) :=
  if rows = 0 ∨ cols = 0 then none else
  let aCols := a.length / rows
  let bRows := b.length / cols
  let bTrans := (List.range cols).flatMap fun k => strided (b.drop k) cols
  if aCols = 0 ∨ bRows = 0 then none else
  let left := (chunksExact a aCols).flatMap fun row => List.replicate cols row
  let right := chunksExact bTrans bRows
  some (zipCycle left right)

/-- tensor_aby2.rs:426-475 `setup_data_circ`, on the values of the secrets.  `None` is a division by
zero, an empty row or a missing operand. -/
def setupDataCirc (g : Gate) (inputs : List (List Bool)) : Option (List Bool) :=
  match g, inputs with
  | .and2, a :: b :: _ => do
    let x ← a[0]?
    let y ← b[0]?
    some [x && y]
  | .matMult rows cols, [a, b] => do
    let ps ← matPairs rows cols a b
    ps.mapM fun p => Bitmat.reduceXor (List.zipWith (· && ·) p.1 p.2)
  | _, _ => none

/-- tensor_aby2.rs:737-743 `flatten`. -/
def PShare.flatten : PShare → List Bool
  | .scalar b => [b]
  | .vec v => v
  | .matrix m => m.data

/-- tensor_aby2.rs:778-809 `share_tensor`: (my share, message), with the private and the joint
generator. -/
def shareTensor {σ : Type} (gen : Gen σ) : List PShare → σ → σ →
    Option (List TShare × List PShare)
  | [], _, _ => some ([], [])
  | .scalar b :: xs, p, j => do
    let d := b ^^ (gen.bit p).1 ^^ (gen.bit j).1
    let (sh, ms) ← shareTensor gen xs (gen.bit p).2 (gen.bit j).2
    some (.scalar d (gen.bit p).1 :: sh, .scalar d :: ms)
  | .vec _ :: _, _, _ => none
  | .matrix m :: xs, p, j => do
    let (mine, p) ← gen.random p m.rows m.cols
    let (other, j) ← gen.random j m.rows m.cols
    let d ← Bitmat.matXor m mine
    let d ← Bitmat.matXor d other
    let (sh, ms) ← shareTensor gen xs p j
    some (.matrix d mine :: sh, .matrix d :: ms)

/-- tensor_aby2.rs:811-834 `plain_delta_to_share_tensor`. -/
def plainDeltaToShare {σ : Type} (gen : Gen σ) : List PShare → σ → Option (List TShare)
  | [], _ => some []
  | .scalar b :: xs, j => do
    let sh ← plainDeltaToShare gen xs (gen.bit j).2
    some (.scalar b (gen.bit j).1 :: sh)
  | .vec _ :: _, _ => none
  | .matrix m :: xs, j => do
    let (priv, j) ← gen.random j m.rows m.cols
    let sh ← plainDeltaToShare gen xs j
    some (.matrix m priv :: sh)

/-- tensor_aby2.rs:836-858 `reconstruct_tensor`, on one pair of shares; the assertion compares the
public parts, vectors are `unreachable!()`. -/
def reconstructOne (a b : TShare) : Option PShare :=
  if a.getPublic = b.getPublic then
    match a, b with
    | .scalar p q, .scalar _ q' => some (.scalar (p ^^ q ^^ q'))
    | .matrix p q, .matrix _ q' => do
      let m ← Bitmat.matXor p q
      let m ← Bitmat.matXor m q'
      some (.matrix m)
    | _, _ => none
  else none

def reconstruct (a b : List TShare) : Option (List PShare) :=
  (a.zip b).mapM fun p => reconstructOne p.1 p.2

end Verif.Tensor
