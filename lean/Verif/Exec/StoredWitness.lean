import Verif.Exec.Stored
import Verif.Exec.Private

/-!
C79: cases, and what looping the file costs.
-/
set_option autoImplicit false

namespace Verif.Exec

open Circuit Proc Gmw

/-- `(x & y) & y`: two multiplications in different layers. -/
def twoAnds : Base BoolGate :=
  { gates := [.base .input, .base .input, .and, .and, .base .output]
    edges := [(1, 2), (0, 2), (1, 3), (2, 3), (3, 4)], interactiveCount := 2
    inputGates := [0, 1], outputGates := [4] }

/-- A file with a single triple. -/
def oneTriple (a b c : Bool) : List (Mt.MulTriples Bool) := [⟨[a], [b], [c]⟩]

/-- The messages of the two parties in lockstep, if they both return. -/
def traceOf {M O : Type} : Nat → Proc M O → Proc M O → Option (List (M × M))
  | n + 1, .send a (.recv k0), .send b (.recv k1) => (traceOf n (k0 b) (k1 a)).map ((a, b) :: ·)
  | _, .done _, .done _ => some []
  | _, _, _ => none

theorem trace_of_traceOf {M O : Type} (n : Nat) (p0 p1 : Proc M O) (tr : List (M × M))
    (h : traceOf n p0 p1 = some tr) : Trace p0 p1 tr := by
  induction n generalizing p0 p1 tr with
  | zero =>
    unfold traceOf at h
    split at h
    · omega
    · cases h; exact .done _ _
    · cases h
  | succ n ih =>
    unfold traceOf at h
    split at h
    · rename_i e
      cases e
      obtain ⟨tr', h', rfl⟩ := Option.map_eq_some_iff.1 h
      exact .round (ih _ _ _ h')
    · cases h; exact .done _ _
    · cases h

/-- The xor of the first bits of all messages (the first value opened, over all layers). -/
def openedXor (tr : List ((Msg × Option SimdMsg) × (Msg × Option SimdMsg))) : Bool :=
  tr.foldl (fun acc m => acc ^^ m.1.1.d.headD false ^^ m.2.1.d.headD false) false

/-- **C79, what looping the file costs.**  The file of each party holds one triple, and with `insecure_loop_file` it masks
both multiplications.  Whatever the triples and the shares of the secrets are, the xor of the opened values, which both
parties see, is the secret `x & !y`.  (With fresh triples the messages are independent of the secrets, C77.) -/
theorem looped_file_leaks (x y r s a0 b0 c0 a1 b1 : Bool) :
    ∃ tr, Trace
        (executeP gmw (.ofBase twoAnds) 0 (.scalar [r, s]) (loopRequest (oneTriple a0 b0 c0))
          ⟨oneTriple a0 b0 c0, .empty⟩ noOutputs)
        (executeP gmw (.ofBase twoAnds) 1 (.scalar [r ^^ x, s ^^ y])
          (loopRequest (oneTriple a1 b1 (((a0 ^^ a1) && (b0 ^^ b1)) ^^ c0)))
          ⟨oneTriple a1 b1 (((a0 ^^ a1) && (b0 ^^ b1)) ^^ c0), .empty⟩ noOutputs) tr ∧
      openedXor tr = (x && !y) := by
  have h : ((traceOf 5 (executeP gmw (.ofBase twoAnds) 0 (.scalar [r, s]) (loopRequest (oneTriple a0 b0 c0))
          ⟨oneTriple a0 b0 c0, .empty⟩ noOutputs)
        (executeP gmw (.ofBase twoAnds) 1 (.scalar [r ^^ x, s ^^ y])
          (loopRequest (oneTriple a1 b1 (((a0 ^^ a1) && (b0 ^^ b1)) ^^ c0)))
          ⟨oneTriple a1 b1 (((a0 ^^ a1) && (b0 ^^ b1)) ^^ c0), .empty⟩ noOutputs)).map openedXor) =
      some (x && !y) := by
    revert x y r s a0 b0 c0 a1 b1
    decide +kernel
  obtain ⟨tr, h1, h2⟩ := Option.map_eq_some_iff.1 h
  exact ⟨tr, trace_of_traceOf 5 _ _ tr h1, h2⟩

/-- Two parties with one triple each in their files cannot execute the circuit when the file is not looped: after
the first layer both panic. -/
example : ∃ k, Steps k
    ⟨executeP gmw (.ofBase twoAnds) 0 (.scalar [true, true]) storedRequest ⟨oneTriple true true false, .empty⟩ noOutputs,
      executeP gmw (.ofBase twoAnds) 1 (.scalar [false, true]) storedRequest ⟨oneTriple true true false, .empty⟩ noOutputs,
      [], []⟩ ⟨.fail, .fail, [], []⟩ :=
  failBoth_steps 5 _ _ (by decide +kernel)

/-- A generator of valid triples. -/
def someGen (v : Bool) (_ n : Nat) : Mt.MulTriples Bool :=
  ⟨List.replicate (Mt.nextMultipleOf8 n) v, List.replicate (Mt.nextMultipleOf8 n) !v,
    List.replicate (Mt.nextMultipleOf8 n) v⟩

theorem someGen_pair : GenPair (someGen true) (someGen false) := by
  refine ⟨fun _ _ => by simp [someGen, Mt.MulTriples.WF], fun _ _ => by simp [someGen, Mt.MulTriples.WF],
    fun _ _ => by simp [someGen, Mt.MulTriples.rows], fun _ _ => by simp [someGen, Mt.MulTriples.rows], fun _ n => ?_⟩
  simp only [Mt.MulTriples.rows, someGen]
  generalize Mt.nextMultipleOf8 n = k
  induction k with
  | zero => exact .nil
  | succ k ih => exact .cons (by simp [Mt.Valid]) ih

/-- Files with 20 triples in batches of 3 (rounded up to 8 each by the provider), 5 of them read ahead: the parties
compute `(x & y) ^ x` with a sub-circuit call. -/
example (x y r s : Bool) : ∃ f0 f1 s0 s1, Mt.storeProvider (someGen true) {} 20 3 = some f0 ∧
    Mt.storeProvider (someGen false) {} 20 3 = some f1 ∧
    storedPrecompute ⟨f0, .empty⟩ 5 = some s0 ∧ storedPrecompute ⟨f1, .empty⟩ 5 = some s1 ∧
    ∃ o0 o1 q0 q1,
      Runs (executeP gmw callCirc 0 (.scalar [r, s]) storedRequest s0 noOutputs)
        (executeP gmw callCirc 1 (.scalar [r ^^ x, s ^^ y]) storedRequest s1 noOutputs) (o0, q0) (o1, q1) ∧
      Shares o0 o1 (.scalar [(x && y) ^^ x]) :=
  gmw_stored_file_correct callCirc callRank callCirc_wf callCirc_exec.1 callCirc_exec.2 callCirc_counts callMain rfl
    (.scalar [r, s]) (.scalar [r ^^ x, s ^^ y]) (.scalar [x, y]) ⟨rfl, rfl⟩ ⟨rfl, rfl, by simp [xorL]⟩
    (someGen true) (someGen false) someGen_pair 20 3 5 (by decide) (by decide) noOutputs noOutputs _ _ (callCirc_plain x y)

end Verif.Exec
