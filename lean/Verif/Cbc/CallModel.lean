import Verif.Macro.Model
import Verif.Cbc.Model

/-!
The AES-CBC example (crates/seec/examples/aes_cbc.rs) with the cipher as a sub-circuit (`use_sc = true`).

All secrets of the main function belong to the main circuit; they are given by their gate ids.
`Macro.St` is the state of the global builder; its fields for annotated functions are not used here.
-/
set_option autoImplicit false

namespace Verif.Cbc

open Circuit Gmw Macro

/-- The state of the program. -/
structure Sc where
  st : St
  /-- aes_cbc.rs:431 `AES_CIRC`: the address of the shared circuit, if initialised. -/
  aes : Option Nat

/-- `iter().map(f).collect()` for an `f` that uses the state. -/
def mapS {α β : Type} (f : Sc → α → Option (Sc × β)) : Sc → List α → Option (Sc × List β)
  | s, [] => some (s, [])
  | s, x :: xs => do
    let (s, y) ← f s x
    let (s, ys) ← mapS f s xs
    pure (s, y :: ys)

/-- A gate of the main circuit with its operands: `Secret::input(0)`, `^`, `output` (secret.rs:60-66, 130-302,
see C12). -/
def Sc.gate (s : Sc) (o : Op) : Option (Sc × Nat) := do
  let c ← s.st.circ 0
  let (c, id) ← c.addWiredGate o.1 o.2
  let st ← s.st.setCirc 0 c
  pure ({ s with st }, id)

/-- aes_cbc.rs:423-431: the `Lazy` is initialised when it is used for the first time. -/
def Sc.circuit (s : Sc) (file : List Char) : Option (Sc × Nat) :=
  match s.aes with
  | some p => some (s, p)
  | none => do
    let c ← cipherCirc file
    pure ({ st := { s.st with heap := s.st.heap ++ [c] }, aes := some s.st.heap.length }, s.st.heap.length)

/-- aes_cbc.rs:435-441: `push_circuit`, `connect_sub_circuit` (builder.rs:220-243), `connect_to_main`. -/
def Sc.cipher (s : Sc) (file : List Char) (key chunk : List Nat) : Option (Sc × List Nat) := do
  let inp := chunk ++ key
  let (s, p) ← s.circuit file
  let sc := s.st.ptrs.length
  let s := { s with st := { s.st with ptrs := s.st.ptrs ++ [p] } }
  let c ← s.st.circ sc
  let x ← s.st.conns.connect ⟨inp.map fun g => (0, g), sc, c.scInputGates, fun _ => 1, false⟩
  let s := { s with st := { s.st with conns := x } }
  let (st, ids) ← s.st.connectToMain sc c.scOutputGates false
  pure ({ s with st }, ids)

/-- aes_cbc.rs:400-416 `aes_cbc_chunk`. -/
def Sc.chunk (s : Sc) (file : List Char) (key chunk chaining : List Nat) : Option (Sc × List Nat) := do
  let (s, inp) ← mapS Sc.gate s ((chunk.zip chaining).map fun p => (.xor, [p.1, p.2]))
  let (s, out) ← s.cipher file key inp
  if out.length = chaining.length then
    let (s, _) ← mapS Sc.gate s (out.map fun a => (.base .output, [a]))
    pure (s, out)
  else none

/-- `for_each` over the chunks. -/
def Sc.chunks (file : List Char) (key : List Nat) : Sc → List Nat → List (List Nat) → Option (Sc × List Nat)
  | s, chaining, [] => some (s, chaining)
  | s, chaining, chunk :: chunks => do
    let (s, chaining) ← s.chunk file key chunk chaining
    Sc.chunks file key s chaining chunks

/-- secret.rs:356-358 `inputs`. -/
def Sc.inputs (s : Sc) (n : Nat) : Option (Sc × List Nat) :=
  mapS Sc.gate s (List.replicate n (.base .input, []))

/-- aes_cbc.rs:373-398 `build_enc_circuit` for `use_sc = true`, before `global_into_circuit`. -/
def Sc.buildEnc (s : Sc) (file : List Char) (bs : Nat) (dataBits : Nat) : Option Sc :=
  if dataBits % bs = 0 then do
    let (s, key) ← s.inputs bs
    let (s, iv) ← s.inputs bs
    let (s, data) ← s.inputs dataBits
    let (s, _) ← Sc.chunks file key s iv (chunksExact bs data)
    pure s
  else none

/-- builder.rs:124-128 `global_into_circuit`: the state afterwards.  The static `AES_CIRC` keeps its circuit,
whose contents were taken. -/
def Sc.globalIntoCircuit (s : Sc) : Sc := { s with st := s.st.globalIntoCircuit }

end Verif.Cbc
