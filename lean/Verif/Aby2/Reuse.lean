import Verif.Exec.Reuse
import Verif.Aby2.Model

/-!
C83: executors whose setup data is made for one execution (ABY2 and tensor ABY2).
-/
set_option autoImplicit false

namespace Verif.Exec

open Circuit Proc

variable {G : Type} [GateLike G] {S V M MS σ : Type}

theorem ends_bindProc {A B : Type} {p : Proc M A} {k : A → Proc M B} {b : B} (h : Ends (bindProc p k) b) :
    ∃ a, Ends p a ∧ Ends (k a) b := by
  induction p with
  | done a => exact ⟨a, .done _, h⟩
  | fail => cases h
  | send m p ih =>
    cases h with
    | send h => obtain ⟨a, h1, h2⟩ := ih h; exact ⟨a, .send h1, h2⟩
  | recv p ih =>
    cases h with
    | recv h => obtain ⟨a, h1, h2⟩ := ih _ h; exact ⟨a, .recv h1, h2⟩

theorem ends_mapProc {A B : Type} (f : A → B) {p : Proc M A} {a : A} (h : Ends p a) : Ends (mapProc f p) (f a) := by
  induction h with
  | done => exact .done _
  | send _ ih => exact .send ih
  | recv _ ih => exact .recv ih

/-- aby2.rs:784-791, tensor_aby2.rs:981-983 `request_setup_output`: `split_off_last` on the data of the setup. -/
def splitRequest {α : Type} (d : List α) (n : Nat) : Option (List α × List α) := Aby2.SetupData.splitOffLast d n

theorem stateAfter_split {α : Type} (ns : List Nat) (d q : List α) (h : stateAfter splitRequest d ns = some q) :
    q.length + ns.sum = d.length := by
  induction ns generalizing d with
  | nil => cases h; simp
  | cons n ns ih =>
    simp only [stateAfter, splitRequest, Aby2.SetupData.splitOffLast, Option.bind_eq_bind] at h
    split at h
    · have := ih _ h
      simp only [List.length_take] at this
      simp only [List.sum_cons]
      omega
    · cases h

/-- **C83, negative part.**  An executor of a protocol whose provider answers from the data of one setup with
`split_off_last` (ABY2 and tensor ABY2) returns from `execute` at most once, if the circuit has interactive gates: no
sequence of messages of the other party makes two calls return.  (The second call panics in `split_off_last`.) -/
theorem one_setup_one_execution {α : Type} (pr : Protocol G S V M MS (List α)) (m : Multi G) (rank : Node → Nat)
    (w : WF m rank) (hb : ∀ c ∈ m.circs, c.interactiveCount = c.gates.countP fun g => GateLike.interactive g)
    (hc : countTimesSimd m ≠ 0) (party : Nat) (inp inp' : Input S V) (inps : List (Input S V)) (d : List α)
    (hd : d.length = countTimesSimd m) (st : Store S V) (r : List (Input S V) × List α) :
    ¬ Ends (executeAll pr m party splitRequest (inp :: inp' :: inps) d st) r := by
  intro h
  obtain ⟨⟨o, q, st'⟩, h1, h2⟩ := ends_bindProc h
  have h3 := ends_mapProc (fun r : Input S V × List α × Store S V => (r.1, r.2.1)) h1
  rw [← executeP_of_R] at h3
  obtain ⟨ls, ok, hst⟩ := executeP_ends pr m rank w party inp splitRequest d st o q h3
  have := stateAfter_split _ _ _ hst
  rw [requestsOf_sum, counts_total m ls ok hb] at this
  have hq : q = [] := List.length_eq_zero_iff.1 (by omega)
  subst hq
  obtain ⟨x, h4, -⟩ := ends_bindProc h2
  obtain ⟨y, h5, -⟩ := ends_bindProc h4
  have hf := exhausted_provider_panics pr m rank w hb hc party inp' (splitRequest (α := α)) [] (by
    intro n hn
    simp only [splitRequest, Aby2.SetupData.splitOffLast, List.length_nil]
    rw [if_neg (by omega)]) st'
  simp only at h5
  rw [hf] at h5
  cases h5

/-- The conditions hold for `(x & y) ^ x` with a sub-circuit. -/
example : ∃ rank, WF callCirc rank ∧
    (∀ c ∈ callCirc.circs, c.interactiveCount = c.gates.countP fun g => GateLike.interactive g) ∧
    countTimesSimd callCirc ≠ 0 ∧ ([true] : List Bool).length = countTimesSimd callCirc :=
  ⟨callRank, callCirc_wf, callCirc_counts, by decide, rfl⟩

end Verif.Exec
