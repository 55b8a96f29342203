/-!
Two communicating parties.

An `async fn` of the code base that talks to one other party over a pair of channels is a
`Proc`: a sequence of sends and receives ending in a result.  The two parties run under an
arbitrary scheduler; the two channels are reliable unbounded FIFO queues
(crates/seec-channel/src/lib.rs: `Sender`/`Receiver` over remoc/tcp or in-memory channels;
loss of the connection is not modelled).
-/
set_option autoImplicit false

namespace Verif.Proc

/-- The communication behaviour of an `async fn`. `fail` is a panic or an error return. -/
inductive Proc (M O : Type) where
  | done (o : O)
  | fail
  | send (m : M) (k : Proc M O)
  | recv (k : M → Proc M O)

/-- Both parties and the messages in flight (oldest first). -/
structure Conf (M O : Type) where
  p0 : Proc M O
  p1 : Proc M O
  q01 : List M
  q10 : List M

/-- One step of one party, chosen by the scheduler. -/
inductive Step {M O : Type} : Conf M O → Conf M O → Prop
  | send0 (m : M) (k p1 : Proc M O) (a b : List M) :
      Step ⟨.send m k, p1, a, b⟩ ⟨k, p1, a ++ [m], b⟩
  | send1 (m : M) (k p0 : Proc M O) (a b : List M) :
      Step ⟨p0, .send m k, a, b⟩ ⟨p0, k, a, b ++ [m]⟩
  | recv0 (m : M) (k : M → Proc M O) (p1 : Proc M O) (a b : List M) :
      Step ⟨.recv k, p1, a, m :: b⟩ ⟨k m, p1, a, b⟩
  | recv1 (m : M) (k : M → Proc M O) (p0 : Proc M O) (a b : List M) :
      Step ⟨p0, .recv k, m :: a, b⟩ ⟨p0, k m, a, b⟩

/-- `n` scheduler steps. -/
inductive Steps {M O : Type} : Nat → Conf M O → Conf M O → Prop
  | refl (c : Conf M O) : Steps 0 c c
  | cons {n : Nat} {a b c : Conf M O} : Step a b → Steps n b c → Steps (n + 1) a c

/-- Both parties have returned and no message is left. -/
def Conf.Final {M O : Type} (c : Conf M O) (o0 o1 : O) : Prop := c = ⟨.done o0, .done o1, [], []⟩

/-- Specification: whatever the scheduler does, the two parties terminate with the given results.
From every reachable configuration the final one is reachable, the number of steps is bounded,
and nothing else is a dead end. -/
structure Runs {M O : Type} (p0 p1 : Proc M O) (o0 o1 : O) : Prop where
  /-- From wherever the scheduler got to, the results are still reached. -/
  reaches : ∀ n c, Steps n ⟨p0, p1, [], []⟩ c → ∃ k, Steps k c ⟨.done o0, .done o1, [], []⟩
  /-- There is no infinite schedule. -/
  bounded : ∃ N, ∀ n c, Steps n ⟨p0, p1, [], []⟩ c → n ≤ N
  /-- A configuration in which no step is possible is the final one. -/
  stuck : ∀ n c, Steps n ⟨p0, p1, [], []⟩ c → (∀ c', ¬ Step c c') →
    c = ⟨.done o0, .done o1, [], []⟩

/-- The parties exchange one message each per element of `ls`, the two messages of a round being
related by `Q`, and then return.  By `Exchange.runs` this is the course of every schedule. -/
inductive Exchange {M O L : Type} (Q : L → M → M → Prop) (o0 o1 : O) :
    List L → Proc M O → Proc M O → Prop
  | done : Exchange Q o0 o1 [] (.done o0) (.done o1)
  | round {l : L} {ls : List L} {m0 m1 : M} {k0 k1 : M → Proc M O} : Q l m0 m1 →
      Exchange Q o0 o1 ls (k0 m1) (k1 m0) →
      Exchange Q o0 o1 (l :: ls) (.send m0 (.recv k0)) (.send m1 (.recv k1))

end Verif.Proc
