import Verif.Mail.Model
import Verif.Macro.Model

/-!
The PrivMail example with `#[sub_circuit]` functions (crates/seec/examples/privmail_sc.rs).

What the program does depends only on the lengths of its arguments, so that it can be written down as the
sequence of its statements, a program in the sense of `Verif.Macro`: variables are numbered in the order in
which they are created, which is also the order of the gates of the main circuit.  `none` stands for a panic.
Base64 decoding is not modelled, as in `Verif.Mail.Model`.

For a mail shorter than a keyword, `or_sc` is called with an empty slice, and its body adds gates to the main
circuit instead of the sub-circuit (`Secret::from_const(0, _)`), which a `Body` cannot express: `runMail` treats
this call apart.
-/
set_option autoImplicit false

namespace Verif.Mail

open Circuit Gmw Macro

/-! ### The functions -/

/-- A body of a function being run: the number of its arguments and the operators so far. -/
structure Rec where
  args : Nat
  ops : List Op

/-- A `Secret` operator; the result is the next variable. -/
def Rec.op (s : Rec) (g : BoolGate) (as : List Nat) : Nat × Rec :=
  (s.args + s.ops.length, { s with ops := s.ops ++ [(g, as)] })

/-- secret.rs:240-252 `BitOr`. -/
def Rec.or (s : Rec) (x y : Nat) : Nat × Rec :=
  let (a, s) := s.op .xor [x, y]
  let (b, s) := s.op .and [x, y]
  s.op .xor [a, b]

/-- privmail_sc.rs:156-160: `!(k ^ t)` for each pair, one after the other. -/
def Rec.xnors (s : Rec) : List (Nat × Nat) → List Nat × Rec
  | [] => ([], s)
  | (k, t) :: ps =>
    let (x, s) := s.op .xor [k, t]
    let (y, s) := s.op .inv [x]
    let (ys, s) := s.xnors ps
    (y :: ys, s)

/-- `&[[Secret; 8]]`: `n` characters whose variables start at `g`. -/
def chars (g n : Nat) : List (List Nat) := (List.range n).map fun k => List.range' (g + 8 * k) 8

/-- privmail_sc.rs:146-154: the six low bits of the characters. -/
def splitChars (t : List (List Nat)) : List Nat := t.flatMap fun c => c.take 6

/-- privmail_sc.rs:144-163 `comparison_circuit`, for slices with `a` and `b` bits.  The `expect` panics for an
empty keyword, which `windows` does before (`windowsOf`). -/
def comparisonBody (a b : Nat) : Body :=
  let (res, s) := Rec.xnors ⟨a + b, []⟩ ((splitChars (chars 0 (a / 8))).zip (splitChars (chars a (b / 8))))
  match Secret.lowDepthReduce (fun x y (s : Rec) => some (s.op .and [x, y])) res s with
  | some (some r, s) => ⟨s.ops, [r], true⟩
  | _ => ⟨[], [], true⟩

/-- privmail_sc.rs:165-169 `or_sc`, for a slice of `n > 0` bits; see `callOrEmpty` for `n = 0`. -/
def orBody (n : Nat) : Body :=
  match Secret.lowDepthReduce (fun x y (s : Rec) => some (s.or x y)) (List.range n) ⟨n, []⟩ with
  | some (some r, s) => ⟨s.ops, [r], true⟩
  | _ => ⟨[], [], true⟩

/-- The functions: 0 is `comparison_circuit`, 1 is `or_sc`. -/
def mailFns : Fns := fun f sizes =>
  match f, sizes with
  | 0, [a, b] => comparisonBody a b
  | 1, [n] => orBody n
  | _, _ => ⟨[], [], true⟩

/-- A call of `or_sc` with an empty slice (sub_circuit.rs:52-121).  The body is
`Secret::from_const(0, false)` (privmail_sc.rs:168, secret.rs:46-55): the constant, and the
`SubCircuitOutput` that `create_output_gates` adds behind it (builder.rs:529-531, secret.rs:78-86), are gates of
the main circuit, and the pushed circuit stays empty.  `connect_sub_circuit` returns at once
(builder.rs:144-147).  `connect_to_main` takes the id of the gate of the main circuit for one of the pushed
circuit (builder.rs:533-541). -/
def callOrEmpty (s : St) : Option (St × List Nat) :=
  if s.busy then none else do
    let s := { s with caches := 1 :: s.caches }
    let (s, ret) ← match s.cache 1 [0] with
      | none => do
        let p := s.heap.length
        let s := { s with heap := s.heap ++ [({} : Base BoolGate)], ptrs := s.ptrs ++ [p] }
        let c ← s.circ 0
        let (c, k) := c.addGate (.base (.constant false))
        let (c, o) ← c.addWiredGate (.base .subCircuitOutput) [k]
        let s ← s.setCirc 0 c
        pure ({ s with cache := fun g k => if g = 1 ∧ k = [0] then some (p, [o]) else s.cache g k }, [o])
      | some (p, ret) => pure ({ s with ptrs := s.ptrs ++ [p] }, ret)
    s.connectToMain (s.ptrs.length - 1) ret true

/-- One statement of the program. -/
def stepMail (s : St) (vars : List Nat) (st : Stmt) : Option (St × List Nat) :=
  match st with
  | .call 1 [[]] => do
    let (s, ids) ← callOrEmpty s
    pure (s, vars ++ ids)
  | st => step mailFns s vars st

/-- The statements of the program, one after the other. -/
def runMail : List Stmt → St → List Nat → Option (St × List Nat)
  | [], s, vars => some (s, vars)
  | st :: r, s, vars => stepMail s vars st >>= fun p => runMail r p.1 p.2

/-! ### The main function -/

/-- The main function being run: the number of variables and the statements so far. -/
structure W where
  n : Nat
  stmts : List Stmt

/-- A `Secret` operator. -/
def W.op (w : W) (g : BoolGate) (as : List Nat) : W × Nat := (⟨w.n + 1, w.stmts ++ [.op g as]⟩, w.n)

/-- A call of a function that returns one `Secret`. -/
def W.call (w : W) (f : Nat) (args : List (List Nat)) : W × Nat := (⟨w.n + 1, w.stmts ++ [.call f args]⟩, w.n)

/-- privmail_sc.rs:171-183 `base64_string_to_input`: eight inputs for each of the `n` characters. -/
def W.inputs (w : W) (n : Nat) : W × List (List Nat) :=
  (⟨w.n + 8 * n, w.stmts ++ List.replicate (8 * n) .input⟩, chars w.n n)

/-- `base64_string_to_input` for several texts. -/
def W.texts (w : W) : List Nat → W × List (List (List Nat))
  | [] => (w, [])
  | n :: ns =>
    let (w, t) := w.inputs n
    let (w, ts) := w.texts ns
    (w, t :: ts)

/-- `slice::windows`, which panics for size 0. -/
def windowsOf {α : Type} (n : Nat) (l : List α) : Option (List (List α)) :=
  if n = 0 then none else some ((List.range (l.length + 1 - n)).map fun i => (l.drop i).take n)

/-- privmail_sc.rs:135-138: the comparisons. -/
def W.comparisons (w : W) (kw : List (List Nat)) : List (List (List Nat)) → W × List Nat
  | [] => (w, [])
  | t :: ts =>
    let (w, r) := w.call 0 [kw.flatten, t.flatten]
    let (w, rs) := w.comparisons kw ts
    (w, r :: rs)

/-- privmail_sc.rs:126-142 `create_search_circuit`. -/
def W.search (w : W) (kw t : List (List Nat)) : Option (W × Nat) := do
  let ws ← windowsOf kw.length t
  let (w, bits) := w.comparisons kw ws
  pure (w.call 1 [bits])

/-- privmail_sc.rs:116-124 `create_chaining_circuit`. -/
def W.chaining (w : W) (previous new orBit notBit : Nat) : W × Nat :=
  let (w, x) := w.op .xor [previous, orBit]
  let (w, y) := w.op .xor [new, notBit]
  let (w, y) := w.op .xor [y, orBit]
  let (w, z) := w.op .and [x, y]
  w.op .xor [z, orBit]

/-- privmail_sc.rs:95-107: the loop over the mails for keyword `j`; `i` is the index of the first mail of the
list. -/
def W.mailLoop (modifier : List Nat) (j : Nat) (kw : List (List Nat)) :
    W → List Nat → Nat → List (List (List Nat)) → Option (W × List Nat)
  | w, results, _, [] => some (w, results)
  | w, results, i, target :: targets => do
    let (w, r) ← w.search kw target
    if j = 0 then
      let m ← modifier[0]?
      let (w, r) := w.op .xor [r, m]
      W.mailLoop modifier j kw w (results ++ [r]) (i + 1) targets
    else
      let prev ← results[i]?
      let orBit ← modifier[2 * j - 1]?
      let notBit ← modifier[2 * j]?
      let (w, r) := w.chaining prev r orBit notBit
      W.mailLoop modifier j kw w (results.set i r) (i + 1) targets

/-- privmail_sc.rs:94-108: the loop over the keywords. -/
def W.keywordLoop (modifier : List Nat) (targets : List (List (List Nat))) :
    W → List Nat → Nat → List (List (List Nat)) → Option (W × List Nat)
  | w, results, _, [] => some (w, results)
  | w, results, j, kw :: kws => do
    let (w, results) ← W.mailLoop modifier j kw w results 0 targets
    W.keywordLoop modifier targets w results (j + 1) kws

/-- privmail_sc.rs:58-114 `priv_mail_search`: the statements, from the lengths of the modifier chain, the
keywords and the (duplicated) mails.  `2 * len - 1` on `usize` panics for `len = 0`, see
`privMailSearch`. -/
def mailProg (nm : Nat) (kl tl : List Nat) : Option (List Stmt) := do
  let (w, modifier) := W.inputs ⟨0, []⟩ nm
  let modifier := modifier.flatten
  let (w, kws) := w.texts kl
  if 1 ≤ 2 * kws.length ∧ 2 * kws.length - 1 ≤ modifier.length then
    let (w, targets) := w.texts tl
    let (w, results) ← W.keywordLoop modifier targets w [] 0 kws
    pure (w.stmts ++ results.map .output)
  else none

/-- privmail_sc.rs:65-90, 171-183: the input of a party. -/
def mailInput (m : List Byte) (ks ts : List (List Byte)) (dup : Nat) : List Bool :=
  bitsOf m ++ (ks.map bitsOf).flatten ++ ((ts.map fun t => (List.replicate dup t).flatten).map bitsOf).flatten

/-- privmail_sc.rs:58-114 `priv_mail_search`: the statements and the input of this party. -/
def privMailSc (m : List Byte) (ks ts : List (List Byte)) (dup : Nat) : Option (List Stmt × List Bool) := do
  let prog ← mailProg m.length (ks.map List.length) (ts.map fun t => (List.replicate dup t).flatten.length)
  pure (prog, mailInput m ks ts dup)

end Verif.Mail
