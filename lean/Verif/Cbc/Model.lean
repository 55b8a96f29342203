import Verif.Mail.Model
import Verif.Circuit.InlineProps
import Verif.Parse.Convert

/-!
The AES-CBC example (crates/seec/examples/aes_cbc.rs): encryption of secret-shared data with a
Bristol circuit of the block cipher.

The file of the circuit is a parameter (`file`), and so is the block size (`bs`, 128 in the code).
The variant that inlines the cipher (`use_sc = false`) is modelled here.
-/
set_option autoImplicit false

namespace Verif.Cbc

open Circuit Gmw Secret Mail

/-- aes_cbc.rs:423-431 `AES_CIRC`; both errors are panics (`expect`). -/
def cipherCirc (file : List Char) : Option (Base BoolGate) := do
  let parsed ← Parse.circuit file
  match Parse.fromBristol parsed .subCircuit with
  | .ok c => some c
  | _ => none

/-- aes_cbc.rs:442-456: the inlined call. -/
def inlined (b : Builder) (circ : Base BoolGate) (inp : List Sec) : Option (Builder × List Sec) :=
  if ∀ s ∈ inp, s.1 = 0 then do
    let main ← b[0]?
    let (main, out) ← main.addSubCircuit circ (inp.map (·.2))
    pure (b.set 0 main, out.map fun g => (0, g))
  else none

/-- aes_cbc.rs:418-458 `aes128` for `use_sc = false`. -/
def cipher (file : List Char) (b : Builder) (key chunk : List Sec) : Option (Builder × List Sec) := do
  let circ ← cipherCirc file
  inlined b circ (chunk ++ key)

/-- aes_cbc.rs:400-416 `aes_cbc_chunk`: the builder and the new chaining state.
`clone_from_slice` panics if the lengths differ. -/
def cbcChunk (file : List Char) (b : Builder) (key chunk chaining : List Sec) :
    Option (Builder × List Sec) := do
  let (b, inp) ← mapB (fun b (p : Sec × Sec) => bitXor b p.1 p.2) b (chunk.zip chaining)
  let (b, out) ← cipher file b key inp
  if out.length = chaining.length then
    let (b, _) ← mapB (fun b s => output b s) b out
    pure (b, out)
  else none

/-- `for_each` over the chunks. -/
def cbcChunks (file : List Char) (key : List Sec) :
    Builder → List Sec → List (List Sec) → Option (Builder × List Sec)
  | b, chaining, [] => some (b, chaining)
  | b, chaining, chunk :: chunks => do
    let (b, chaining) ← cbcChunk file b key chunk chaining
    cbcChunks file key b chaining chunks

/-- `chunks_exact(n)`: the first `k` chunks of length `n`. -/
def chunksOf {α : Type} (n : Nat) : Nat → List α → List (List α)
  | 0, _ => []
  | k + 1, l => l.take n :: chunksOf n k (l.drop n)

/-- `chunks_exact(n)`; panics for `n = 0`. -/
def chunksExact {α : Type} (n : Nat) (l : List α) : List (List α) := chunksOf n (l.length / n) l

/-- aes_cbc.rs:373-398 `build_enc_circuit` for `use_sc = false`, starting from the builder `b`. -/
def buildEnc (file : List Char) (bs : Nat) (b : Builder) (dataBits : Nat) : Option Builder :=
  if dataBits % bs = 0 then do
    let (b, key) ← inputs b bs
    let (b, iv) ← inputs b bs
    let (b, data) ← inputs b dataBits
    let (b, _) ← cbcChunks file key b iv (chunksExact bs data)
    pure b
  else none

/-! ### Encoding of the inputs -/

/-- The bits of `BitVec<usize>` made of words (`Lsb0`). -/
def wordBits (ws : List (BitVec 64)) : List Bool :=
  ws.flatMap fun w => (List.range 64).map fun k => w.getLsbD k

/-- `bytemuck::cast` of bytes to `usize` on a little-endian machine with 64 bit, eight bytes. -/
def wordOf (bytes : List Byte) : BitVec 64 :=
  bytes.foldr (fun x acc => x.setWidth 64 ||| (acc <<< 8)) 0

/-- aes_cbc.rs:178-190: the key (and the IV) as given to the circuit. -/
def encodeKey (key : List Byte) : List Bool :=
  wordBits ((chunksExact 8 key).map fun c => (wordOf c).reverse)

/-- aes_cbc.rs:331-344 and :229-231: the padded data as given to the circuit, `data` being the
bytes to encrypt: PKCS#7 padding, then the bits of every byte are reversed. -/
def encodeData (data : List Byte) : List Bool :=
  let n := 16 - data.length % 16
  let padded := data ++ List.replicate n (BitVec.ofNat 8 n)
  wordBits ((chunksExact 8 (padded.map BitVec.reverse)).map wordOf)

end Verif.Cbc
