/-!
The Bristol parser, crates/seec/src/parse/mod.rs and crates/seec/src/parse/bristol.rs.

A text is a list of characters.  A nom parser is a function from the remaining text to the result
and the remaining text, `none` for `Err::Error` (none of the parsers used returns `Failure` or
`Incomplete`).  Error values are not modelled.
-/
set_option autoImplicit false

namespace Verif.Parse

abbrev Parser (α : Type) := List Char → Option (α × List Char)

/-- nom `multispace0`: space, tab, carriage return and newline. -/
def isWs (c : Char) : Bool := c = ' ' || c = '\t' || c = '\r' || c = '\n'

def multispace0 (s : List Char) : List Char := s.dropWhile isWs

/-- `str::parse::<usize>` on digits; `usize` has 64 bits. -/
def numeral (ds : List Char) : Nat := ds.foldl (fun a c => a * 10 + (c.toNat - 48)) 0

/-- parse/mod.rs:12-16 `integer`: `map_res(digit1, parse)`. -/
def integer : Parser Nat := fun s =>
  if s.takeWhile Char.isDigit = [] then none
  else if numeral (s.takeWhile Char.isDigit) < 2 ^ 64 then
    some (numeral (s.takeWhile Char.isDigit), s.dropWhile Char.isDigit)
  else none

/-- parse/mod.rs:27-32 `ws`. -/
def ws {α : Type} (p : Parser α) : Parser α := fun s =>
  (p (multispace0 s)).map fun r => (r.1, multispace0 r.2)

/-- parse/mod.rs:18-22 `integer_ws`. -/
def integerWs : Parser Nat := ws integer

/-- nom `count` and `fill`: run the parser `n` times. -/
def count {α : Type} (p : Parser α) : Nat → Parser (List α)
  | 0, s => some ([], s)
  | n + 1, s =>
    match p s with
    | none => none
    | some (a, s) => (count p n s).map fun r => (a :: r.1, r.2)

/-- nom `length_count`. -/
def lengthCount {α : Type} (n : Parser Nat) (p : Parser α) : Parser (List α) := fun s =>
  match n s with
  | none => none
  | some (k, s) => count p k s

/-- nom `tuple` of two parsers. -/
def pair {α β : Type} (p : Parser α) (q : Parser β) : Parser (α × β) := fun s =>
  match p s with
  | none => none
  | some (a, s) => (q s).map fun r => ((a, r.1), r.2)

/-- nom `alt` of two parsers. -/
def alt {α : Type} (p q : Parser α) : Parser α := fun s =>
  match p s with
  | some r => some r
  | none => q s

/-- nom `tag`. -/
def tag (t : List Char) : Parser (List Char) := fun s =>
  if t.isPrefixOf s then some (t, s.drop t.length) else none

/-- bristol.rs:23-31 `Header`. -/
structure Header where
  gates : Nat
  wires : Nat
  inputWires : List Nat
  outputWires : List Nat
deriving DecidableEq, Repr

inductive Kind where
  | and
  | xor
  | inv
deriving DecidableEq, Repr

/-- bristol.rs:33-38 and 61-65 `Gate` with its `GateData`. -/
structure Gate where
  kind : Kind
  inputWires : List Nat
  outputWires : List Nat
deriving DecidableEq, Repr

/-- bristol.rs:17-21 `Circuit`. -/
structure Circuit where
  header : Header
  gates : List Gate
deriving DecidableEq, Repr

/-- bristol.rs:67-87 `header`. -/
def header : Parser Header := fun s =>
  match pair integerWs integerWs s with
  | none => none
  | some ((gates, wires), s) =>
    (alt (pair (lengthCount integerWs integerWs) (lengthCount integerWs integerWs))
      (pair (count integerWs 2) (count integerWs 1)) s).map
      fun r => (⟨gates, wires, r.1.1, r.1.2⟩, r.2)

/-- The keyword alternatives of bristol.rs:100-105. -/
def kind : Parser Kind := fun s =>
  match alt (tag "AND".toList) (alt (tag "XOR".toList) (tag "INV".toList)) s with
  | none => none
  | some (t, s) =>
    if t = "AND".toList then some (.and, s) else if t = "XOR".toList then some (.xor, s)
    else some (.inv, s)

/-- bristol.rs:89-107 `gate`.  The allocation of the wire lists (`SmallVec::from_elem`), which can
fail for absurd wire counts, is not modelled. -/
def gate : Parser Gate := fun s =>
  match pair (ws integer) (ws integer) s with
  | none => none
  | some ((nin, nout), s) =>
    match count integerWs nin s with
    | none => none
    | some (ins, s) =>
      match count integerWs nout s with
      | none => none
      | some (outs, s) => (kind s).map fun r => (⟨r.1, ins, outs⟩, r.2)

/-- bristol.rs:109-114 `circuit`. -/
def circuit (s : List Char) : Option Circuit :=
  match header s with
  | none => none
  | some (h, s) =>
    match count gate h.gates s with
    | none => none
    | some (gates, s) => if multispace0 s = [] then some ⟨h, gates⟩ else none

end Verif.Parse
