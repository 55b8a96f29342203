import Verif.Exec.PreprocProps
import Verif.Mt.Stored

/-!
C79: execution with triples read from a file.
-/
set_option autoImplicit false

namespace Verif.Exec

open Circuit Proc Gmw

/-- storage.rs:139-145 `request_mts` as the setup provider of an executor (executor.rs:342-346: an error
panics). -/
def storedRequest (s : Mt.Storage Bool) (n : Nat) : Option (Mt.Storage Bool × List Triple) :=
  match Mt.storageCall .boolean s (.request n) with
  | some (s', [some out]) => some (s', Mt.triples out)
  | _ => none

/-- The same with `insecure_loop_file`, which is what the benchmark helper does with a file (bench.rs:55-58). -/
def loopRequest (whole : List (Mt.MulTriples Bool)) (s : Mt.Storage Bool) (n : Nat) :
    Option (Mt.Storage Bool × List Triple) :=
  match Mt.loopCall .boolean whole s (.request n) with
  | some (s', [some out]) => some (s', Mt.triples out)
  | _ => none

/-- bench.rs:264-273: `precompute_mts` before the execution; the error of a file that is too short is not
looked at here. -/
def storedPrecompute (s : Mt.Storage Bool) (n : Nat) : Option (Mt.Storage Bool) :=
  (Mt.storageCall .boolean s (.precompute n)).map (·.1)

/-! ### Serving requests -/

theorem rel_wf {s t : Mt.Storage Bool} (h : s.Rel Mt.Valid t) :
    ((∀ b ∈ s.file, b.WF) ∧ s.stored.WF) ∧ (∀ b ∈ t.file, b.WF) ∧ t.stored.WF := by
  obtain ⟨hf, hs, ht, -⟩ := h
  refine ⟨⟨?_, hs⟩, ?_, ht⟩
  · intro b hb
    obtain ⟨i, hi, rfl⟩ := List.mem_iff_getElem.1 hb
    exact (List.Forall₂.get hf hi (hf.length_eq ▸ hi)).1
  · intro b hb
    obtain ⟨i, hi, rfl⟩ := List.mem_iff_getElem.1 hb
    exact (List.Forall₂.get hf (hf.length_eq.symm ▸ hi) hi).2.1

theorem rel_left {s t : Mt.Storage Bool} (h : s.Rel Mt.Valid t) : s.left.length = t.left.length := by
  obtain ⟨hf, -, -, hst⟩ := h
  unfold Mt.Storage.left Mt.content
  rw [List.length_append, List.length_append, hst.length_eq]
  congr 1
  revert hf
  generalize s.file = a, t.file = b
  intro hf
  induction hf with
  | nil => rfl
  | cons h _ ih => simp [ih, h.2.2.length_eq]

/-- One request of one party: it is answered if and only if there are enough triples. -/
theorem storedRequest_spec (s : Mt.Storage Bool) (hf : ∀ b ∈ s.file, b.WF) (hs : s.stored.WF) (n : Nat) :
    (n ≤ s.left.length → ∃ s' t, storedRequest s n = some (s', t) ∧ t.length = n ∧ (∀ b ∈ s'.file, b.WF) ∧
      s'.stored.WF ∧ s'.left.length + n = s.left.length) ∧
    (s.left.length < n → storedRequest s n = none) := by
  obtain ⟨s', o, h1, h2, h3, h4⟩ := Mt.request_spec .boolean s hf hs n
  constructor
  · intro hn
    rcases h4 with ⟨-, m, rfl, hm, hp, -⟩ | ⟨h, -⟩
    · have := hp.length_eq
      rw [List.length_append, hm] at this
      exact ⟨s', Mt.triples m, by simp only [storedRequest, h1], by simp [Mt.triples, hm], h2, h3, by
        unfold Mt.Storage.left; omega⟩
    · exact absurd hn h
  · intro hn
    rcases h4 with ⟨h, -⟩ | ⟨-, rfl, -⟩
    · exact absurd h (by unfold Mt.Storage.left at hn; omega)
    · simp only [storedRequest, h1]

theorem stored_serves (ns : List Nat) {s t : Mt.Storage Bool} (h : s.Rel Mt.Valid t)
    (hl : ns.sum ≤ s.left.length) :
    ∃ q0 q1, Served storedRequest storedRequest s t ns q0 q1 ∧ q0.Rel Mt.Valid q1 ∧
      q0.left.length + ns.sum = s.left.length := by
  induction ns generalizing s t with
  | nil => exact ⟨s, t, .nil _ _, h, rfl⟩
  | cons n ns ih =>
    simp only [List.sum_cons] at hl
    obtain ⟨w, w'⟩ := rel_wf h
    obtain ⟨s', o, t', o', h1, h2, h3, h4⟩ := Mt.storage_pairwise Mt.Valid .boolean [.request n] s t h
    obtain ⟨s1, x, e1, -, -, hx⟩ := Mt.request_spec .boolean s w.1 w.2 n
    obtain ⟨t1, y, e2, -, -, hy⟩ := Mt.request_spec .boolean t w'.1 w'.2 n
    simp only [Mt.storageCalls, e1, e2, Option.bind_eq_bind, Option.bind_some, Option.pure_def, Option.some.injEq,
      Prod.mk.injEq] at h1 h2
    obtain ⟨rfl, rfl⟩ := h1
    obtain ⟨rfl, rfl⟩ := h2
    obtain ⟨a, -⟩ := storedRequest_spec s w.1 w.2 n
    obtain ⟨a', -⟩ := storedRequest_spec t w'.1 w'.2 n
    obtain ⟨s2, u, b1, b2, -, -, b3⟩ := a (by omega)
    obtain ⟨t2, v, c1, c2, -, -, c3⟩ := a' (by rw [← rel_left h]; omega)
    rcases hx with ⟨-, m, rfl, -⟩ | ⟨hx, -⟩
    · rcases hy with ⟨-, m', rfl, -⟩ | ⟨hy, -⟩
      · simp only [storedRequest, e1, e2] at b1 c1
        cases b1
        cases c1
        simp only [List.append_nil] at h4
        cases h4 with
        | cons h4 _ =>
          cases h4 with
          | some h4 =>
            obtain ⟨q0, q1, g1, g2, g3⟩ := ih h3 (by omega)
            exact ⟨q0, q1, .cons (by simp only [storedRequest, e1]) (by simp only [storedRequest, e2])
              (Mt.triples_matching.2 h4) (by omega) g1, g2, by simp only [List.sum_cons]; omega⟩
      · exact absurd (by have := rel_left h; unfold Mt.Storage.left at *; omega) hy
    · exact absurd (by unfold Mt.Storage.left at *; omega) hx

theorem loop_serves (ns : List Nat) {whole whole' : List (Mt.MulTriples Bool)}
    (hw : List.Forall₂ (fun b b' => b.WF ∧ b'.WF ∧ List.Forall₂ Mt.Valid b.rows b'.rows) whole whole')
    (hne : whole ≠ []) (hpos : ∀ b ∈ whole, 0 < b.len) {s t : Mt.Storage Bool} (h : s.Rel Mt.Valid t)
    (hsub : ∀ b ∈ s.file, b ∈ whole) :
    ∃ q0 q1, Served (loopRequest whole) (loopRequest whole') s t ns q0 q1 ∧ q0.Rel Mt.Valid q1 := by
  induction ns generalizing s t with
  | nil => exact ⟨s, t, .nil _ _, h⟩
  | cons n ns ih =>
    obtain ⟨s', o, t', o', h1, h2, h3, h4, m, m', rfl, rfl, h5, h6⟩ := Mt.loop_pair Mt.Valid .boolean hw hne hpos s t h hsub
      (.request n)
    obtain ⟨q0, q1, g1, g2⟩ := ih h3 h4
    exact ⟨q0, q1, .cons (by simp only [loopRequest, h1]) (by simp only [loopRequest, h2])
      (Mt.triples_matching.2 h6) (by simp [Mt.triples, h5]) g1, g2⟩

theorem storedPrecompute_spec {s t : Mt.Storage Bool} (h : s.Rel Mt.Valid t) (n : Nat) :
    ∃ s' t', storedPrecompute s n = some s' ∧ storedPrecompute t n = some t' ∧ s'.Rel Mt.Valid t' ∧
      s'.left = s.left := by
  obtain ⟨w, w'⟩ := rel_wf h
  obtain ⟨s', o, t', o', h1, h2, h3, -⟩ := Mt.storage_pairwise Mt.Valid .boolean [.precompute n] s t h
  obtain ⟨s1, e1, -, -, hx⟩ := Mt.precompute_spec .boolean s w.1 w.2 n
  obtain ⟨t1, e2, -, -, -⟩ := Mt.precompute_spec .boolean t w'.1 w'.2 n
  simp only [Mt.storageCalls, e1, e2, Option.bind_eq_bind, Option.bind_some, Option.pure_def, Option.some.injEq,
    Prod.mk.injEq] at h1 h2
  obtain ⟨rfl, -⟩ := h1
  obtain ⟨rfl, -⟩ := h2
  exact ⟨s1, t1, by simp [storedPrecompute, e1], by simp [storedPrecompute, e2], h3, hx⟩

/-! ### A party that ends was served -/

section
variable {G : Type} [GateLike G] {S V M MS T σ : Type}

/-- The party can return `o`, for some messages of the other party. -/
inductive Ends {M O : Type} : Proc M O → O → Prop
  | done (o : O) : Ends (.done o) o
  | send {m : M} {k : Proc M O} {o : O} : Ends k o → Ends (.send m k) o
  | recv {k : M → Proc M O} {m : M} {o : O} : Ends (k m) o → Ends (.recv k) o

theorem Ends.of_step {M O : Type} {c c' : Conf M O} (h : Step c c') :
    (∀ o, Ends c'.p0 o → Ends c.p0 o) ∧ ∀ o, Ends c'.p1 o → Ends c.p1 o := by
  cases h
  · exact ⟨fun _ h => .send h, fun _ h => h⟩
  · exact ⟨fun _ h => h, fun _ h => .send h⟩
  · exact ⟨fun _ h => .recv h, fun _ h => h⟩
  · exact ⟨fun _ h => h, fun _ h => .recv h⟩

theorem Ends.of_steps {M O : Type} {n : Nat} {c c' : Conf M O} (h : Steps n c c') :
    (∀ o, Ends c'.p0 o → Ends c.p0 o) ∧ ∀ o, Ends c'.p1 o → Ends c.p1 o := by
  induction h with
  | refl => exact ⟨fun _ h => h, fun _ h => h⟩
  | cons h _ ih => exact ⟨fun o x => (Ends.of_step h).1 o (ih.1 o x), fun o x => (Ends.of_step h).2 o (ih.2 o x)⟩

theorem execLayersP_ends (pr : Protocol G S V M MS T) (m : Multi G) (party : Nat) (inp : Input S V)
    (req : σ → Nat → Option (σ × T)) (ls : List (MLayer × List Node)) (s : σ) (st : Store S V)
    (o : Input S V) (q : σ) (h : Ends (execLayersP pr m party inp req s ls st) (o, q)) :
    stateAfter req s ((ls.map fun l => intCount m l.1).filter (· ≠ 0)) = some q := by
  induction ls generalizing s st with
  | nil =>
    simp only [execLayersP] at h
    cases ho : outputs m st with
    | none => rw [ho] at h; cases h
    | some x => rw [ho] at h; cases h; rfl
  | cons e ls ih =>
    obtain ⟨l, fs⟩ := e
    simp only [execLayersP] at h
    cases he : evalNodes pr m party inp st (niOf l) with
    | none => rw [he] at h; cases h
    | some st1 =>
      rw [he] at h
      dsimp only at h
      by_cases hc : intCount m l = 0
      · rw [if_pos hc] at h
        have := ih s st1 h
        simpa [hc] using this
      · rw [if_neg hc] at h
        cases hr : req s (intCount m l) with
        | none => rw [hr] at h; cases h
        | some x =>
          obtain ⟨s', t⟩ := x
          rw [hr] at h
          dsimp only at h
          cases hm : computeMsgs pr m party st1 l t with
          | none => rw [hm] at h; cases h
          | some y =>
            obtain ⟨msg, t'⟩ := y
            rw [hm] at h
            cases h with
            | send h => cases h with
              | recv h =>
                rename_i other
                dsimp only at h
                cases hfin : finishLayer pr m party (free pr st1 fs) l msg other t' with
                | none => rw [hfin] at h; cases h
                | some st2 =>
                  rw [hfin] at h
                  have := ih s' st2 h
                  simp [hc, stateAfter, hr] at this ⊢
                  exact this

theorem execLayersSP_ends (pr : Protocol G S V M MS T) (c : SCirc G) (sh : Shape) (party : Nat) (inp : Input S V)
    (req : σ → Nat → Option (σ × T)) (ls : List (SLayer G)) (s : σ) (st : Store S V)
    (o : Input S V) (q : σ) (h : Ends (execLayersSP pr c sh party inp req s ls st) (o, q)) :
    stateAfter req s ((ls.map fun l => l.count).filter (· ≠ 0)) = some q := by
  induction ls generalizing s st with
  | nil =>
    simp only [execLayersSP] at h
    cases ho : outputsS c sh st with
    | none => rw [ho] at h; cases h
    | some x => rw [ho] at h; cases h; rfl
  | cons l ls ih =>
    simp only [execLayersSP] at h
    cases he : evalEntries pr sh c.inputs party inp st l.ni with
    | none => rw [he] at h; cases h
    | some st1 =>
      rw [he] at h
      dsimp only at h
      by_cases hc : l.count = 0
      · rw [if_pos hc] at h
        have := ih s st1 h
        simpa [hc] using this
      · rw [if_neg hc] at h
        cases hr : req s l.count with
        | none => rw [hr] at h; cases h
        | some x =>
          obtain ⟨s', t⟩ := x
          rw [hr] at h
          dsimp only at h
          cases hm : computeMsgsS pr sh party st1 l t with
          | none => rw [hm] at h; cases h
          | some y =>
            obtain ⟨msg, t'⟩ := y
            rw [hm] at h
            cases h with
            | send h => cases h with
              | recv h =>
                rename_i other
                dsimp only at h
                cases hfin : finishLayerS pr sh party st1 l msg other t' with
                | none => rw [hfin] at h; cases h
                | some st2 =>
                  rw [hfin] at h
                  have := ih s' st2 h
                  simp [hc, stateAfter, hr] at this ⊢
                  exact this

/-- A party that returns has had all requests of the layers answered. -/
theorem executeP_ends (pr : Protocol G S V M MS T) (m : Multi G) (rank : Node → Nat) (w : WF m rank)
    (party : Nat) (inp : Input S V) (req : σ → Nat → Option (σ × T)) (s : σ) (st : Store S V)
    (o : Input S V) (q : σ) (h : Ends (executeP pr m party inp req s st) (o, q)) :
    ∃ ls, LayersOk m ls ∧ stateAfter req s (requestsOf m ls) = some q := by
  obtain ⟨it, ls, e1, e2, ok⟩ := layers_ok_partial m rank w
  refine ⟨ls, ok, ?_⟩
  unfold executeP at h
  simp only [e1, e2, Option.bind_eq_bind, Option.bind_some] at h
  have key : ∀ fl, freeable m (fun _ => none) ls = some fl →
      Ends (execLayersP pr m party inp req s fl st) (o, q) → stateAfter req s (requestsOf m ls) = some q := by
    intro fl hfl he
    have := execLayersP_ends pr m party inp req fl s st o q he
    rw [requestsOf, ← freeable_fst ls _ _ hfl, List.map_map]
    exact this
  revert h
  split
  · rename_i fl hfl
    intro h
    refine key fl ?_ h
    obtain ⟨c, -, hfl⟩ := Option.bind_eq_some_iff.1 hfl
    revert hfl
    cases inp with
    | scalar l => dsimp only; split <;> simp
    | simd l => dsimp only; split <;> simp
  · intro h; cases h

end

theorem stateAfter_left (ns : List Nat) (s q : Mt.Storage Bool) (hf : ∀ b ∈ s.file, b.WF) (hs : s.stored.WF)
    (h : stateAfter storedRequest s ns = some q) : q.left.length + ns.sum = s.left.length := by
  induction ns generalizing s with
  | nil => simp only [stateAfter, Option.some.injEq] at h; subst h; rfl
  | cons n ns ih =>
    obtain ⟨a, b⟩ := storedRequest_spec s hf hs n
    by_cases hn : n ≤ s.left.length
    · obtain ⟨s', t, h1, -, h2, h3, h4⟩ := a hn
      simp only [stateAfter, h1, Option.bind_eq_bind, Option.bind_some] at h
      have := ih s' h2 h3 h
      simp only [List.sum_cons]; omega
    · simp only [stateAfter, b (by omega), Option.bind_eq_bind, Option.bind_none] at h
      cases h

/-! ### C79 -/

/-- **C79 (reading).**  Two executors that read their triples from files in step, for example as written by
`store_mts`, possibly after other calls.  If at least `interactive_count_times_simd` triples are left, the parties
return shares of the plaintext output, and exactly that many triples have been used.  Conditions on the circuit
as in C08. -/
theorem gmw_stored_correct (m : Multi BoolGate) (rank : Node → Nat) (w : WF m rank)
    (hw : ExecWF m) (hu : Unmixed m)
    (hb : ∀ c ∈ m.circs, c.interactiveCount = c.gates.countP fun g => GateLike.interactive g)
    (c0 : Base BoolGate) (hc0 : m.circs[0]? = some c0)
    (inp0 inp1 inp : Input Bool (List Bool)) (hi : InputOk m c0 inp) (hin : Shares inp0 inp1 inp)
    (s0 s1 : Mt.Storage Bool) (hs : s0.Rel Mt.Valid s1) (hl : countTimesSimd m ≤ s0.left.length)
    (init0 init1 : Store Bool (List Bool)) (val : Node → Bool) (valV : Node → List Bool)
    (hp : PlainEval m inp val valV) :
    ∃ o0 o1 q0 q1, (q0.Rel Mt.Valid q1 ∧ q0.left.length + countTimesSimd m = s0.left.length) ∧
      Runs (executeP gmw m 0 inp0 storedRequest s0 init0) (executeP gmw m 1 inp1 storedRequest s1 init1)
        (o0, q0) (o1, q1) ∧
      Shares o0 o1 (plainOutput m c0 val valV) :=
  gmw_provider_correct m rank w hw hu c0 hc0 inp0 inp1 inp hi hin storedRequest storedRequest s0 s1
    (fun q0 q1 => q0.Rel Mt.Valid q1 ∧ q0.left.length + countTimesSimd m = s0.left.length)
    (fun ls ok => by
      have hsum : (requestsOf m ls).sum = countTimesSimd m := by rw [requestsOf_sum, counts_total m ls ok hb]
      obtain ⟨q0, q1, h1, h2, h3⟩ := stored_serves (requestsOf m ls) hs (by rw [hsum]; exact hl)
      exact ⟨q0, q1, h1, h2, by rw [← hsum]; exact h3⟩)
    init0 init1 val valV hp

/-- **C79.**  Both parties store `num` triples with an OT based provider in batches of the same size
(examples/precompute_mts.rs), where each run of the generator gives valid triples (C19), open the file, possibly read
triples ahead, and execute a circuit that needs no more than `num` triples: they return shares of the plaintext output. -/
theorem gmw_stored_file_correct (m : Multi BoolGate) (rank : Node → Nat) (w : WF m rank)
    (hw : ExecWF m) (hu : Unmixed m)
    (hb : ∀ c ∈ m.circs, c.interactiveCount = c.gates.countP fun g => GateLike.interactive g)
    (c0 : Base BoolGate) (hc0 : m.circs[0]? = some c0)
    (inp0 inp1 inp : Input Bool (List Bool)) (hi : InputOk m c0 inp) (hin : Shares inp0 inp1 inp)
    (gen0 gen1 : Nat → Nat → Mt.MulTriples Bool) (hg : GenPair gen0 gen1)
    (num batch ahead : Nat) (hbatch : 0 < batch) (hnum : countTimesSimd m ≤ num)
    (init0 init1 : Store Bool (List Bool)) (val : Node → Bool) (valV : Node → List Bool)
    (hp : PlainEval m inp val valV) :
    ∃ f0 f1 s0 s1, Mt.storeProvider gen0 {} num batch = some f0 ∧ Mt.storeProvider gen1 {} num batch = some f1 ∧
      storedPrecompute ⟨f0, .empty⟩ ahead = some s0 ∧ storedPrecompute ⟨f1, .empty⟩ ahead = some s1 ∧
      ∃ o0 o1 q0 q1,
        Runs (executeP gmw m 0 inp0 storedRequest s0 init0) (executeP gmw m 1 inp1 storedRequest s1 init1)
          (o0, q0) (o1, q1) ∧
        Shares o0 o1 (plainOutput m c0 val valV) := by
  obtain ⟨f0, f1, h0, h1, hr, hl, -, -⟩ := Mt.store_pair
    (fun k n => ⟨hg.wf0 k n, hg.wf1 k n, hg.valid k n, hg.len k n⟩)
    (p0 := {}) (p1 := {}) ⟨rfl, .inl ⟨rfl, rfl⟩⟩ num batch hbatch
  obtain ⟨s0, s1, e0, e1, hs, he⟩ := storedPrecompute_spec hr ahead
  have hlen : countTimesSimd m ≤ s0.left.length := by
    rw [he]
    simp only [Mt.Storage.left, Mt.MulTriples.empty, Mt.MulTriples.rows, List.zip_nil_left, List.nil_append]
    omega
  obtain ⟨o0, o1, q0, q1, -, h2, h3⟩ := gmw_stored_correct m rank w hw hu hb c0 hc0 inp0 inp1 inp hi hin s0 s1 hs hlen
    init0 init1 val valV hp
  exact ⟨f0, f1, s0, s1, h0, h1, e0, e1, o0, o1, q0, q1, h2, h3⟩

/-- **C79 (too few triples).**  A party that reads its triples from a file returns a result only if the file held as many
triples as `interactive_count_times_simd` says, whatever the other party does and however the parties are scheduled.  Then
exactly that many have been used.  No condition on the circuit beyond being well formed, none on the content of the files. -/
theorem gmw_stored_needs_triples (m : Multi BoolGate) (rank : Node → Nat) (w : WF m rank)
    (hb : ∀ c ∈ m.circs, c.interactiveCount = c.gates.countP fun g => GateLike.interactive g)
    (inp : Input Bool (List Bool)) (s : Mt.Storage Bool) (hf : ∀ b ∈ s.file, b.WF) (hs : s.stored.WF)
    (init : Store Bool (List Bool))
    (other : Proc (Msg × Option SimdMsg) (Input Bool (List Bool) × Mt.Storage Bool)) :
    (∀ n c o q, Steps n ⟨executeP gmw m 0 inp storedRequest s init, other, [], []⟩ c → c.p0 = .done (o, q) →
      q.left.length + countTimesSimd m = s.left.length) ∧
    (∀ n c o q, Steps n ⟨other, executeP gmw m 1 inp storedRequest s init, [], []⟩ c → c.p1 = .done (o, q) →
      q.left.length + countTimesSimd m = s.left.length) := by
  have key : ∀ party o q, Ends (executeP gmw m party inp storedRequest s init) (o, q) →
      q.left.length + countTimesSimd m = s.left.length := by
    intro party o q h
    obtain ⟨ls, ok, hst⟩ := executeP_ends gmw m rank w party inp storedRequest s init o q h
    rw [← counts_total m ls ok hb, ← requestsOf_sum]
    exact stateAfter_left _ s q hf hs hst
  constructor
  · intro n c o q h hc
    exact key 0 o q ((Ends.of_steps h).1 _ (by rw [hc]; exact .done _))
  · intro n c o q h hc
    exact key 1 o q ((Ends.of_steps h).2 _ (by rw [hc]; exact .done _))

/-- **C79 (benchmark mode).**  With `insecure_loop_file` any non-empty file suffices for every circuit: the parties
return shares of the plaintext output.  (Triples are used several times then, see `looped_file_leaks`.) -/
theorem gmw_looped_correct (m : Multi BoolGate) (rank : Node → Nat) (w : WF m rank)
    (hw : ExecWF m) (hu : Unmixed m) (c0 : Base BoolGate) (hc0 : m.circs[0]? = some c0)
    (inp0 inp1 inp : Input Bool (List Bool)) (hi : InputOk m c0 inp) (hin : Shares inp0 inp1 inp)
    (gen0 gen1 : Nat → Nat → Mt.MulTriples Bool) (hg : GenPair gen0 gen1)
    (num batch ahead : Nat) (hbatch : 0 < batch) (hnum : 0 < num)
    (init0 init1 : Store Bool (List Bool)) (val : Node → Bool) (valV : Node → List Bool)
    (hp : PlainEval m inp val valV) :
    ∃ f0 f1 s0 s1, Mt.storeProvider gen0 {} num batch = some f0 ∧ Mt.storeProvider gen1 {} num batch = some f1 ∧
      Mt.loopCall .boolean f0 ⟨f0, .empty⟩ (.precompute ahead) = some (s0, []) ∧
      Mt.loopCall .boolean f1 ⟨f1, .empty⟩ (.precompute ahead) = some (s1, []) ∧
      ∃ o0 o1 q0 q1,
        Runs (executeP gmw m 0 inp0 (loopRequest f0) s0 init0) (executeP gmw m 1 inp1 (loopRequest f1) s1 init1)
          (o0, q0) (o1, q1) ∧
        Shares o0 o1 (plainOutput m c0 val valV) := by
  obtain ⟨f0, f1, h0, h1, hr, -, hpos, hne⟩ := Mt.store_pair
    (fun k n => ⟨hg.wf0 k n, hg.wf1 k n, hg.valid k n, hg.len k n⟩)
    (p0 := {}) (p1 := {}) ⟨rfl, .inl ⟨rfl, rfl⟩⟩ num batch hbatch
  have hwf := (rel_wf hr).1.1
  have hpos' : ∀ b ∈ f0, 0 < b.len := fun b hb => by rw [← Mt.rows_length (hwf b hb)]; exact hpos b hb
  obtain ⟨s0, x, s1, y, e0, e1, hs, hsub, rfl, rfl⟩ := Mt.loop_pair Mt.Valid .boolean hr.1 (hne hnum) hpos' _ _ hr
    (fun b hb => hb) (.precompute ahead)
  obtain ⟨o0, o1, q0, q1, -, h2, h3⟩ := gmw_provider_correct m rank w hw hu c0 hc0 inp0 inp1 inp hi hin
    (loopRequest f0) (loopRequest f1) s0 s1 (fun q0 q1 => q0.Rel Mt.Valid q1)
    (fun ls _ => loop_serves (requestsOf m ls) hr.1 (hne hnum) hpos' hs hsub) init0 init1 val valV hp
  exact ⟨f0, f1, s0, s1, h0, h1, e0, e1, o0, o1, q0, q1, h2, h3⟩

end Verif.Exec
