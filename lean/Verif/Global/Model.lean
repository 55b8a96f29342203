import Mathlib.Logic.Function.Basic
import Verif.Gmw.Model
import Verif.Circuit.Model

/-!
The global circuit builders (crates/seec/src/circuit/builder.rs), used by several threads.

Simplifications: builders without sub-circuits (a builder is the address of its main circuit), gates of
Boolean GMW for all gate types, an operator that creates several gates under one lock is several
operations here, an operation that panics adds nothing.
-/
set_option autoImplicit false

namespace Verif.Global

open Circuit Gmw

/-! ### Threads -/

/-- The code of a thread: a sequence of actions, each of which holds a lock, on the part `k` of the shared state. -/
inductive Th (K S R : Type) where
  | ret (r : R)
  | fail
  | act (k : K) (upd : S → S) (next : S → Th K S R)

variable {K S R : Type}

/-- Shared state and threads. -/
structure Conf (K S R : Type) where
  mem : K → S
  ths : List (Th K S R)

/-- The next action of one thread, chosen by the scheduler.  `next` is given the state before the action. -/
inductive Step [DecidableEq K] : Conf K S R → Conf K S R → Prop
  | act (c : Conf K S R) (i : Nat) (k : K) (upd : S → S) (next : S → Th K S R) :
      c.ths[i]? = some (.act k upd next) →
      Step c ⟨Function.update c.mem k (upd (c.mem k)), c.ths.set i (next (c.mem k))⟩

/-- Any number of actions. -/
inductive Steps [DecidableEq K] : Conf K S R → Conf K S R → Prop
  | refl (c : Conf K S R) : Steps c c
  | cons {a b c : Conf K S R} : Step a b → Steps b c → Steps a c

/-- A thread that runs alone. -/
def solo [DecidableEq K] : Th K S R → (K → S) → Option R × (K → S)
  | .ret r, g => (some r, g)
  | .fail, g => (none, g)
  | .act k upd next, g => solo (next (g k)) (Function.update g k (upd (g k)))

/-! ### The builder of one gate type -/

/-- builder.rs:35-58: the shared circuits (`SharedCircuit`) by address, and the address of the main circuit of
the global builder. -/
structure Bld where
  cells : List (Base BoolGate)
  cur : Nat

/-- Operations of the `Secret` API.  Operands are secrets, numbered in the order in which the thread created
them. -/
inductive Op where
  /-- `Secret::input(0)` -/
  | input
  /-- An operator. -/
  | gate (g : BoolGate) (args : List Nat)
  /-- `secret.output()` -/
  | output (a : Nat)

/-- The gates of the operands. -/
def lookup (vars : List Nat) (args : List Nat) : Option (List Nat) := args.mapM fun a => vars[a]?

/-- secret.rs:46-181: the gate an operation adds to a circuit, and its id.  `none` is a panic. -/
def Op.apply (o : Op) (vars : List Nat) (c : Base BoolGate) : Option (Base BoolGate × Nat) :=
  match o with
  | .input => some (c.addGate (.base .input))
  | .gate g args => lookup vars args >>= c.addWiredGate g
  | .output a => lookup vars [a] >>= c.addWiredGate (.base .output)

/-- secret.rs:62-70, 122-125, 127-181: an operation takes the circuit out of the global builder (a lock on the builders,
builder.rs:95-97), then locks the circuit and adds the gate. -/
def ops {K R : Type} (k : K) : List Op → List Nat → (List Nat → Th K Bld R) → Th K Bld R
  | [], vars, cont => cont vars
  | o :: os, vars, cont =>
    .act k id fun s =>
      .act k (fun s' => match s'.cells[s.cur]? >>= o.apply vars with
          | some (c, _) => { s' with cells := s'.cells.set s.cur c }
          | none => s')
        fun s' => match s'.cells[s.cur]? >>= o.apply vars with
          | some (_, id) => ops k os (vars ++ [id]) cont
          | none => .fail

/-- builder.rs:126-130 `global_into_circuit`: the global builder is replaced by a new one, then `into_circuit`
(builder.rs:340-373) takes the circuit out of the shared one. -/
def take {K R : Type} (k : K) (cont : Base BoolGate → Th K Bld R) : Th K Bld R :=
  .act k (fun s => ⟨s.cells ++ [({} : Base BoolGate)], s.cells.length⟩) fun s =>
    .act k (fun s' => { s' with cells := s'.cells.set s.cur {} }) fun s' =>
      match s'.cells[s.cur]? with
      | some c => cont c
      | none => .fail

/-- A thread that builds a circuit in the global builder and takes it (for example examples/simple.rs, and the
documentation of secret.rs): the circuit and the gates of the secrets. -/
def plainBuild {K : Type} (k : K) (os : List Op) : Th K Bld (Base BoolGate × List Nat) :=
  ops k os [] fun vars => take k fun c => .ret (c, vars)

/-- aby2.rs:716-762, tensor_aby2.rs:894-939: a thread that installs a new builder (builder.rs:91-93), builds and
takes a circuit, and installs the previous builder again. -/
def scopedBuild {K : Type} (k : K) (os : List Op) : Th K Bld (Base BoolGate × List Nat) :=
  .act k (fun s => ⟨s.cells ++ [({} : Base BoolGate)], s.cells.length⟩) fun s =>
    ops k os [] fun vars => take k fun c =>
      .act k (fun s' => { s' with cur := s.cur }) fun _ => .ret (c, vars)

/-! ### Specification -/

/-- The circuit of some operations, starting with an empty circuit. -/
def build : List Op → Base BoolGate × List Nat → Option (Base BoolGate × List Nat)
  | [], r => some r
  | o :: os, (c, vars) => o.apply vars c >>= fun r => build os (r.1, vars ++ [r.2])

/-- The circuit the thread means. -/
def circuitOf (os : List Op) : Option (Base BoolGate × List Nat) := build os ({}, [])

/-- The gate an operation stands for, and its operands. -/
def Op.what : Op → BoolGate × List Nat
  | .input => (.base .input, [])
  | .gate g args => (g, args)
  | .output a => (.base .output, [a])

/-- The state of a global builder that no one has used since its last circuit was taken. -/
def Unused (s : Bld) : Prop := s.cells[s.cur]? = some {}

/-- The actions of the thread are on the parts in `U`. -/
inductive Uses (U : K → Prop) : Th K S R → Prop
  | ret (r : R) : Uses U (.ret r)
  | fail : Uses U .fail
  | act {k : K} {upd : S → S} {next : S → Th K S R} : U k → (∀ s, Uses U (next s)) → Uses U (.act k upd next)

end Verif.Global
