import Verif.Secret.Reduce

/-!
The PrivMail example (crates/seec/examples/privmail.rs): a keyword search over secret-shared mails,
written against the `Secret` API.

Base64 decoding is not modelled: the strings of the query and of the mails are given as the bytes
they decode to.  A byte is a `BitVec 8`.  A `[Secret; 8]` is a list.  The state of the program is
the global circuit builder; `none` stands for a panic.
-/
set_option autoImplicit false

namespace Verif.Mail

open Circuit Gmw Secret

abbrev Byte := BitVec 8

/-- `iter().map(f).collect()` for an `f` that uses the global builder. -/
def mapB {α β : Type} (f : Builder → α → Option (Builder × β)) :
    Builder → List α → Option (Builder × List β)
  | b, [] => some (b, [])
  | b, x :: xs => do
    let (b, y) ← f b x
    let (b, ys) ← mapB f b xs
    pure (b, y :: ys)

/-- secret.rs:356-358 `inputs`. -/
def inputs (b : Builder) (n : Nat) : Option (Builder × List Sec) :=
  mapB (fun b (_ : Nat) => input b 0) b (List.range n)

/-- The bits of a `BitVec<u8>` made from the bytes (`from_vec`, order `Lsb0`), collected into a
`BitVec<usize>`; privmail.rs:183-184. -/
def bitsOf (bytes : List Byte) : List Bool :=
  bytes.flatMap fun x => (List.range 8).map fun k => x.getLsbD k

/-- privmail.rs:172-186 `base64_string_to_input`, after decoding. -/
def bytesToInput (b : Builder) (decoded : List Byte) (duplication : Nat) :
    Option (Builder × List Bool × List (List Sec)) := do
  let duplicated := (List.replicate duplication decoded).flatten
  let (b, shares) ← mapB (fun b (_ : Nat) => inputs b 8) b (List.range duplicated.length)
  pure (b, bitsOf duplicated, shares)

/-- privmail.rs:188-197 `xor_inplace`. -/
def xorInplace (b : Builder) (dst other : List Sec) : Option (Builder × List Sec) :=
  if dst.length = other.length then
    mapB (fun b (p : Sec × Sec) => bitXor b p.1 p.2) b (dst.zip other)
  else none

/-- privmail.rs:150-170 `create_comparison_circuit`; `CHARACTER_BIT_LEN` is 6. -/
def comparison (b : Builder) (keyword target : List (List Sec)) (pos : Nat) :
    Option (Builder × List Sec) := do
  let splitKeyword := keyword.flatMap fun c => c.take 6
  if pos + keyword.length ≤ target.length then
    let splitText := ((target.drop pos).take keyword.length).flatMap fun c => c.take 6
    let (b, res) ← xorInplace b splitKeyword splitText
    mapB (fun b s => Secret.not b s) b res
  else none

/-- `low_depth_reduce(xs, op).expect(..)`. -/
def reduceExpect (op : Builder → Sec → Sec → Option (Builder × Sec)) (b : Builder) (xs : List Sec) :
    Option (Builder × Sec) := do
  let (r, b) ← lowDepthReduce (fun x y s => (op s x y).map Prod.swap) xs b
  let r ← r
  pure (b, r)

/-- privmail.rs:127-148 `create_search_circuit`.  The comparisons are collected before the first
reduction; the reduced bits are collected by the outer `low_depth_reduce`. -/
def search (b : Builder) (keyword target : List (List Sec)) : Option (Builder × Sec) :=
  if keyword.length ≤ target.length then do
    let numPositions := target.length - keyword.length + 1
    let (b, perPosition) ← mapB (fun b k => comparison b keyword target k) b (List.range numPositions)
    let (b, bits) ← mapB (fun b r => reduceExpect bitAnd b r) b perPosition
    reduceExpect bitOr b bits
  else none

/-- privmail.rs:117-125 `create_chaining_circuit`. -/
def chaining (b : Builder) (previous new orBit notBit : Sec) : Option (Builder × Sec) := do
  let (b, x) ← bitXor b previous orBit
  let (b, y) ← bitXor b new notBit
  let (b, y) ← bitXor b y orBit
  let (b, z) ← bitAnd b x y
  bitXor b z orBit

/-- privmail.rs:93-96: the search for one keyword in one mail. -/
def perMail (b : Builder) (keyword target : List (List Sec)) : Option (Builder × Sec) := do
  let (b, r) ← fromConst b 0 false
  if keyword.length ≤ target.length then search b keyword target else pure (b, r)

/-- privmail.rs:92-106: the loop over the mails for keyword `j`; `i` is the index of the first mail
of the list. -/
def mailLoop (modifier : List Sec) (j : Nat) (keyword : List (List Sec)) :
    Builder → List Sec → Nat → List (List (List Sec)) → Option (Builder × List Sec)
  | b, results, _, [] => some (b, results)
  | b, results, i, target :: targets => do
    let (b, r) ← perMail b keyword target
    if j = 0 then
      let m ← modifier[0]?
      let (b, r) ← bitXor b r m
      mailLoop modifier j keyword b (results ++ [r]) (i + 1) targets
    else
      let prev ← results[i]?
      let orBit ← modifier[2 * j - 1]?
      let notBit ← modifier[2 * j]?
      let (b, r) ← chaining b prev r orBit notBit
      mailLoop modifier j keyword b (results.set i r) (i + 1) targets

/-- privmail.rs:91-107: the loop over the keywords. -/
def keywordLoop (modifier : List Sec) (targets : List (List (List Sec))) :
    Builder → List Sec → Nat → List (List (List Sec)) → Option (Builder × List Sec)
  | b, results, _, [] => some (b, results)
  | b, results, j, keyword :: keywords => do
    let (b, results) ← mailLoop modifier j keyword b results 0 targets
    keywordLoop modifier targets b results (j + 1) keywords

/-- privmail.rs:57-115 `priv_mail_search`: the builder, the input of this party and the ids of the
output gates.  `2 * len - 1` on `usize` panics for `len = 0` (in release builds it wraps, and the
assertion fails). -/
def privMailSearch (b : Builder) (modifierChain : List Byte) (keywords mails : List (List Byte))
    (duplication : Nat) : Option (Builder × List Bool × List Sec) := do
  let (b, input, modifier) ← bytesToInput b modifierChain 1
  let modifier := modifier.flatten
  let (b, ks) ← mapB (fun b k => bytesToInput b k 1) b keywords
  let input := input ++ (ks.map (·.1)).flatten
  if 1 ≤ 2 * keywords.length ∧ 2 * keywords.length - 1 ≤ modifier.length then
    let (b, ts) ← mapB (fun b t => bytesToInput b t duplication) b mails
    let input := input ++ (ts.map (·.1)).flatten
    let (b, results) ← keywordLoop modifier (ts.map (·.2)) b [] 0 (ks.map (·.2))
    let (b, outs) ← mapB (fun b s => output b s) b results
    pure (b, input, outs)
  else none

end Verif.Mail
