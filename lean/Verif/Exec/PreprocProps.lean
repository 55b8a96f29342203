import Verif.Exec.Preproc

/-!
C75: theorems.
-/
set_option autoImplicit false

namespace Verif.Exec

open Circuit Proc Gmw

section
variable {G : Type} [GateLike G] {S V M MS T σ : Type}

/-! ### The number of triples of a precomputed circuit -/

theorem mapM_index {α β : Type} (f : α → Option β) (l : List α) (r : Nat → β)
    (h : ∀ i x, l[i]? = some x → f x = some (r i)) : l.mapM f = some ((List.range l.length).map r) := by
  induction l generalizing r with
  | nil => rfl
  | cons x l ih =>
    have h0 := h 0 x rfl
    have hs := ih (fun i => r (i + 1)) fun i y hy => h (i + 1) y (by simpa using hy)
    simp only [List.mapM_cons, h0, hs, Option.bind_eq_bind, Option.bind_some, Option.pure_def,
      List.length_cons, List.range_succ_eq_map, List.map_cons, List.map_map]
    rfl

theorem static_count {m : Multi G} {c : SCirc G} (hlen : c.core.scMap.length = m.circs.length)
    (hc : ∀ (i : Nat) (d : Base G), m.circs[i]? = some d → ∃ t, c.core.getCirc i = some t ∧
      t.simd = d.simdSize ∧ t.intCount = d.gates.countP fun g => GateLike.interactive g)
    (hb : ∀ c ∈ m.circs, c.interactiveCount = c.gates.countP fun g => GateLike.interactive g) :
    c.countTimesSimd = some (countTimesSimd m) := by
  unfold SCirc.countTimesSimd
  rw [mapM_index _ _ (fun i => match m.circs[i]? with
    | some d => d.interactiveCount * d.simdSize.getD 1
    | none => 0)]
  · rw [Option.map_some, countTimesSimd, hlen]
    congr 2
    apply List.ext_getElem
    · simp
    · intro i h1 h2
      have hi : i < m.circs.length := by simpa using h1
      simp [List.getElem?_eq_getElem hi]
  · intro i mp hmp
    have hi : i < m.circs.length := hlen ▸ (List.getElem?_eq_some_iff.1 hmp).1
    have hd := List.getElem?_eq_getElem hi
    obtain ⟨t, h1, h2, h3⟩ := hc i _ hd
    simp only [Static.getCirc, hmp, Option.bind_some] at h1
    simp only [h1, Option.map_some, h2, h3, hd, hb _ (List.getElem_mem hi)]

/-! ### Requests that are served -/

/-- Both providers serve the requests `ns` with matching triples, enough for each request, and end in
the states `q0` and `q1`. -/
inductive Served (req0 req1 : σ → Nat → Option (σ × List Triple)) : σ → σ → List Nat → σ → σ → Prop
  | nil (s0 s1 : σ) : Served req0 req1 s0 s1 [] s0 s1
  | cons {s0 s1 s0' s1' q0 q1 : σ} {n : Nat} {ns : List Nat} {t0 t1 : List Triple} :
      req0 s0 n = some (s0', t0) → req1 s1 n = some (s1', t1) → Matching t0 t1 → n ≤ t0.length →
      Served req0 req1 s0' s1' ns q0 q1 → Served req0 req1 s0 s1 (n :: ns) q0 q1

theorem Served.after {req0 req1 : σ → Nat → Option (σ × List Triple)} {s0 s1 q0 q1 : σ} {ns : List Nat}
    (h : Served req0 req1 s0 s1 ns q0 q1) :
    stateAfter req0 s0 ns = some q0 ∧ stateAfter req1 s1 ns = some q1 := by
  induction h with
  | nil => exact ⟨rfl, rfl⟩
  | cons h0 h1 _ _ _ ih => exact ⟨by simp [stateAfter, h0, ih.1], by simp [stateAfter, h1, ih.2]⟩

theorem Served.answers {req0 req1 : σ → Nat → Option (σ × List Triple)} {s0 s1 q0 q1 : σ} {ns : List Nat}
    (h : Served req0 req1 s0 s1 ns q0 q1) :
    ∃ setup0 setup1, Answers req0 s0 ns setup0 ∧ Answers req1 s1 ns setup1 ∧
      ∀ k n, Matching (setup0 k n) (setup1 k n) ∧ n ≤ (setup0 k n).length := by
  induction h with
  | nil =>
    refine ⟨zeroTriples, zeroTriples, ?_, ?_, ?_⟩
    · intro k n s' q t _ hk; simp at hk
    · intro k n s' q t _ hk; simp at hk
    · intro k n
      refine ⟨?_, by simp [zeroTriples]⟩
      unfold zeroTriples
      clear k
      induction n with
      | zero => exact .nil
      | succ n ih => exact .cons (by simp [ValidPair]) ih
  | @cons s0 s1 s0' s1' q0 q1 n ns t0 t1 h0 h1 hm hl _ ih =>
    obtain ⟨f0, f1, a0, a1, hf⟩ := ih
    have hz : ∀ n, Matching (zeroTriples 0 n) (zeroTriples 0 n) := by
      intro n
      unfold zeroTriples
      induction n with
      | zero => exact .nil
      | succ n ih => exact .cons (by simp [ValidPair]) ih
    refine ⟨fun k i => match k with | 0 => if i = n then t0 else zeroTriples 0 i | k + 1 => f0 k i,
      fun k i => match k with | 0 => if i = n then t1 else zeroTriples 0 i | k + 1 => f1 k i, ?_, ?_, ?_⟩
    · intro k i s' q t hs hk hr
      cases k with
      | zero =>
        simp only [List.take_zero, stateAfter, Option.some.injEq] at hs
        subst hs
        simp only [List.getElem?_cons_zero, Option.some.injEq] at hk
        subst hk
        rw [h0] at hr
        cases hr
        simp
      | succ k =>
        simp only [List.take_succ_cons, stateAfter, h0, Option.bind_eq_bind, Option.bind_some] at hs
        exact a0 k i s' q t hs (by simpa using hk) hr
    · intro k i s' q t hs hk hr
      cases k with
      | zero =>
        simp only [List.take_zero, stateAfter, Option.some.injEq] at hs
        subst hs
        simp only [List.getElem?_cons_zero, Option.some.injEq] at hk
        subst hk
        rw [h1] at hr
        cases hr
        simp
      | succ k =>
        simp only [List.take_succ_cons, stateAfter, h1, Option.bind_eq_bind, Option.bind_some] at hs
        exact a1 k i s' q t hs (by simpa using hk) hr
    · intro k i
      cases k with
      | zero =>
        by_cases h : i = n
        · subst h; simpa using ⟨hm, hl⟩
        · simp only [h, if_false]; exact ⟨hz i, by simp [zeroTriples]⟩
      | succ k => exact hf k i

/-! ### The OT based provider -/

/-- The amounts an execution requests, one for each layer with interactive gates. -/
def requestsOf (m : Multi G) (ls : List MLayer) : List Nat := (ls.map (intCount m)).filter (· ≠ 0)

theorem requestsOf_sum (m : Multi G) (ls : List MLayer) :
    (requestsOf m ls).sum = (ls.map (intCount m)).sum := by
  unfold requestsOf
  induction ls.map (intCount m) with
  | nil => rfl
  | cons n ns ih =>
    by_cases h : n = 0
    · simp [h] at ih ⊢; exact ih
    · simp [h] at ih ⊢; exact ih

end

/-- The generators of the two parties make valid triples, as many as asked for (C19). -/
structure GenPair (gen0 gen1 : Nat → Nat → Mt.MulTriples Bool) : Prop where
  wf0 : ∀ k n, (gen0 k n).WF
  wf1 : ∀ k n, (gen1 k n).WF
  len : ∀ k n, (gen0 k n).rows.length = Mt.nextMultipleOf8 n
  len1 : ∀ k n, (gen1 k n).rows.length = Mt.nextMultipleOf8 n
  valid : ∀ k n, List.Forall₂ Mt.Valid (gen0 k n).rows (gen1 k n).rows

theorem request_pair {gen0 gen1 : Nat → Nat → Mt.MulTriples Bool} (hg : GenPair gen0 gen1)
    {p0 p1 : Mt.Provider} (hp : Mt.PairOk p0 p1) (n : Nat) :
    ∃ q0 t0 q1 t1, requestMts gen0 p0 n = some (q0, t0) ∧ requestMts gen1 p1 n = some (q1, t1) ∧
      Mt.PairOk q0 q1 ∧ Matching t0 t1 ∧ n ≤ t0.length := by
  obtain ⟨q0, y0, q1, y1, h0, h1, hq, hy⟩ := Mt.provide_pair
    (fun k n => ⟨hg.wf0 k n, hg.wf1 k n, hg.valid k n⟩) hp (.request n)
  have hok : p0.Ok := by
    intro m hm
    rcases hp.2 with ⟨h, -⟩ | ⟨m0, m1, e0, -, w0, -⟩
    · rw [h] at hm; cases hm
    · rw [e0] at hm; cases hm; exact w0
  obtain ⟨q, y, h2, -, h3, -⟩ := Mt.provide_ok (fun k n => ⟨hg.wf0 k n, hg.len k n⟩) hok (.request n)
  rw [h0] at h2
  cases h2
  simp only [Mt.requested] at h3
  refine ⟨q0, y0.returned.flatMap Mt.triples, q1, y1.returned.flatMap Mt.triples, by rw [requestMts, h0],
    by rw [requestMts, h1], hq, ?_, ?_⟩
  · clear h3 h0 h1
    revert hy
    generalize y0.returned = a, y1.returned = b
    intro hy
    induction hy with
    | nil => exact .nil
    | cons hab _ ih =>
      simp only [List.flatMap_cons]
      exact matching_append (Mt.triples_matching.2 hab) ih
  · revert h3
    generalize y0.returned = a
    intro h3
    cases h3 with
    | cons h _ =>
      simp only [List.flatMap_cons, List.length_append, Mt.triples, List.length_map]
      omega

/-- Providers that hold matching buffers serve every sequence of requests, generating triples when needed. -/
theorem provider_serves {gen0 gen1 : Nat → Nat → Mt.MulTriples Bool} (hg : GenPair gen0 gen1)
    (ns : List Nat) {p0 p1 : Mt.Provider} (hp : Mt.PairOk p0 p1) :
    ∃ q0 q1, Served (requestMts gen0) (requestMts gen1) p0 p1 ns q0 q1 ∧ Mt.PairOk q0 q1 := by
  induction ns generalizing p0 p1 with
  | nil => exact ⟨p0, p1, .nil _ _, hp⟩
  | cons n ns ih =>
    obtain ⟨q0, t0, q1, t1, h0, h1, hq, hm, hl⟩ := request_pair hg hp n
    obtain ⟨r0, r1, hs, hr⟩ := ih hq
    exact ⟨r0, r1, .cons h0 h1 hm hl hs, hr⟩

/-- Providers whose buffers hold enough triples serve the requests from the buffer.  Nothing is
generated, whatever the generators are. -/
theorem buffer_serves (gen0 gen1 : Nat → Nat → Mt.MulTriples Bool) (ns : List Nat) {p0 p1 : Mt.Provider}
    {m0 m1 : Mt.MulTriples Bool} (h0 : p0.stored = some m0) (h1 : p1.stored = some m1) (w0 : m0.WF)
    (w1 : m1.WF) (hv : List.Forall₂ Mt.Valid m0.rows m1.rows) (hl : ns.sum ≤ m0.rows.length) :
    ∃ q0 q1, Served (requestMts gen0) (requestMts gen1) p0 p1 ns q0 q1 ∧
      q0.computed = p0.computed ∧ q1.computed = p1.computed ∧
      q0.held.length = m0.rows.length - ns.sum ∧ q1.held.length = m0.rows.length - ns.sum := by
  induction ns generalizing p0 p1 m0 m1 with
  | nil =>
    exact ⟨p0, p1, .nil _ _, rfl, rfl, by simp [Mt.Provider.held, h0],
      by simp [Mt.Provider.held, h1, hv.length_eq]⟩
  | cons n ns ih =>
    simp only [List.sum_cons] at hl
    have hlen := Mt.rel_len w0 w1 hv
    have hrl := Mt.rows_length w0
    have hn : m0.len ≥ n := by omega
    obtain ⟨s', r, t', q, e0, e1, a1, a2, a3, a4, a5, a6⟩ := Mt.removeFirst_rel Mt.Valid .boolean w0 w1 hv hn
    obtain ⟨s2, r2, f1, f2, f3, f4, f5, f6⟩ := Mt.removeFirst_split .boolean w0 hn
    rw [e0] at f1
    cases f1
    simp only [Mt.removeFirst] at e0 e1
    have hsum := f6.length_eq
    simp only [List.length_append] at hsum
    obtain ⟨q0, q1, hs, c0, c1, k0, k1⟩ := ih (p0 := ⟨some s', p0.computed⟩) (p1 := ⟨some t', p1.computed⟩)
      rfl rfl a1 a3 a6 (by omega)
    refine ⟨q0, q1, .cons (t0 := Mt.triples r) (t1 := Mt.triples q) ?_ ?_ (Mt.triples_matching.2 a5) ?_ hs, c0, c1, ?_, ?_⟩
    · simp [requestMts, Mt.provide, h0, hn, e0]
    · simp [requestMts, Mt.provide, h1, hlen ▸ hn, e1]
    · simp only [Mt.triples, List.length_map]; omega
    · rw [k0]; simp only [List.sum_cons]; omega
    · rw [k1]; simp only [List.sum_cons]; omega

/-! ### Execution -/

section
variable {G : Type} [GateLike G] {S V M MS T σ : Type}

theorem freeable_fst {m : Multi G} (ls : List MLayer) (left : Left) (fl : List (MLayer × List Node))
    (h : freeable m left ls = some fl) : fl.map (·.1) = ls := by
  induction ls generalizing left fl with
  | nil => simp only [freeable, Option.some.injEq] at h; subst h; rfl
  | cons l ls ih =>
    simp only [freeable, Option.bind_eq_bind, Option.bind_eq_some_iff, Option.pure_def, Option.some.injEq] at h
    obtain ⟨a, -, b, -, rest, hr, rfl⟩ := h
    rw [List.map_cons, ih _ _ hr]

/-- An execution with a provider is the execution with the answers of the provider. -/
theorem executeP_eq (pr : Protocol G S V M MS T) (m : Multi G) (rank : Node → Nat) (w : WF m rank)
    (party : Nat) (inp : Input S V) (req : σ → Nat → Option (σ × T)) :
    ∃ it ls, MIter.new m = some it ∧
      MIter.collect m ((m.circs.map fun c => c.gates.length).sum + 1) it = some ls ∧ LayersOk m ls ∧
      ∀ (s q : σ) (setup : Nat → Nat → T) (st : Store S V), stateAfter req s (requestsOf m ls) = some q →
        Answers req s (requestsOf m ls) setup →
        executeP pr m party inp req s st =
          mapProc (fun o => (o, q)) (execute pr m party inp setup st) := by
  obtain ⟨it, ls, e1, e2, ok⟩ := layers_ok_partial m rank w
  refine ⟨it, ls, e1, e2, ok, fun s q setup st hq ha => ?_⟩
  unfold executeP execute
  simp only [e1, e2, Option.bind_eq_bind, Option.bind_some]
  have key : ∀ fl, freeable m (fun _ => none) ls = some fl →
      execLayersP pr m party inp req s fl st =
        mapProc (fun o => (o, q)) (execLayers pr m party inp setup 0 fl st) := by
    intro fl hfl
    have hfst := freeable_fst ls _ _ hfl
    refine execLayersP_eq pr m party inp req s _ q hq setup ha fl 0 s (by simp [stateAfter]) ?_ st
    rw [List.drop_zero, requestsOf, ← hfst, List.map_map]
    rfl
  cases hc : m.circs[0]? with
  | none => rfl
  | some c =>
    cases inp with
    | scalar l =>
      by_cases h : c.inputGates.length = l.length
      · simp only [Option.bind_some, h, if_true]
        cases hfl : freeable m (fun _ => none) ls with
        | none => rfl
        | some fl => exact key fl hfl
      · simp only [Option.bind_some, h, if_false]; rfl
    | simd l =>
      by_cases h : c.inputGates.length = l.length
      · simp only [Option.bind_some, h, if_true]
        cases hfl : freeable m (fun _ => none) ls with
        | none => rfl
        | some fl => exact key fl hfl
      · simp only [Option.bind_some, h, if_false]; rfl

/-- The same for a precomputed circuit. -/
theorem executeStaticP_eq (pr : Protocol G S V M MS T) {m : Multi G} {c : SCirc G} {sh : Shape} {ls : List MLayer}
    (hsh : c.shape = some sh) (hl : c.layers sh = some (ls.map (layerOf m))) (party : Nat) (inp : Input S V)
    (req : σ → Nat → Option (σ × T)) (s q : σ) (setup : Nat → Nat → T) (st : Store S V)
    (hq : stateAfter req s (requestsOf m ls) = some q) (ha : Answers req s (requestsOf m ls) setup) :
    executeStaticP pr c party inp req s st =
      mapProc (fun o => (o, q)) (executeStatic pr c party inp setup st) := by
  unfold executeStaticP executeStatic
  simp only [hsh, hl, Option.bind_eq_bind, Option.bind_some]
  have key : execLayersSP pr c sh party inp req s (ls.map (layerOf m)) st =
      mapProc (fun o => (o, q)) (execLayersS pr c sh party inp setup 0 (ls.map (layerOf m)) st) := by
    refine execLayersSP_eq pr c sh party inp req s _ q hq setup ha _ 0 s (by simp [stateAfter]) ?_ st
    rw [List.drop_zero, requestsOf, List.map_map]
    rfl
  cases inp with
  | scalar l =>
    by_cases h : c.inputs.length = l.length
    · simp only [h, if_true]; exact key
    · simp only [h, if_false]; rfl
  | simd l =>
    by_cases h : c.inputs.length = l.length
    · simp only [h, if_true]; exact key
    · simp only [h, if_false]; rfl

end

/-- **C75 (execution with a provider).**  Two executors whose triple providers are asked during the
execution.  If the providers serve the requests of the layers, the parties return shares of the
plaintext output.  Conditions on the circuit as in C08. -/
theorem gmw_provider_correct (m : Multi BoolGate) (rank : Node → Nat) (w : WF m rank)
    (hw : ExecWF m) (hu : Unmixed m) (c0 : Base BoolGate) (hc0 : m.circs[0]? = some c0)
    (inp0 inp1 inp : Input Bool (List Bool)) (hi : InputOk m c0 inp) (hin : Shares inp0 inp1 inp)
    {σ : Type} (req0 req1 : σ → Nat → Option (σ × List Triple)) (s0 s1 : σ)
    (Q : σ → σ → Prop)
    (hserve : ∀ ls, LayersOk m ls → ∃ q0 q1, Served req0 req1 s0 s1 (requestsOf m ls) q0 q1 ∧ Q q0 q1)
    (init0 init1 : Store Bool (List Bool)) (val : Node → Bool) (valV : Node → List Bool)
    (hp : PlainEval m inp val valV) :
    ∃ o0 o1 q0 q1, Q q0 q1 ∧
      Runs (executeP gmw m 0 inp0 req0 s0 init0) (executeP gmw m 1 inp1 req1 s1 init1) (o0, q0) (o1, q1) ∧
      Shares o0 o1 (plainOutput m c0 val valV) := by
  obtain ⟨it, ls, e1, e2, ok, h0⟩ := executeP_eq gmw m rank w 0 inp0 req0
  obtain ⟨it', ls', e1', e2', -, h1⟩ := executeP_eq gmw m rank w 1 inp1 req1
  rw [e1] at e1'; cases e1'
  rw [e2] at e2'; cases e2'
  obtain ⟨q0, q1, hs, hq⟩ := hserve ls ok
  obtain ⟨setup0, setup1, a0, a1, hset⟩ := hs.answers
  obtain ⟨ls'', o0, o1, -, hx, -, hsh⟩ := gmw_execute_correct_partial m rank w hw hu c0 hc0 inp0 inp1 inp hi hin
    setup0 setup1 hset init0 init1 val valV hp
  refine ⟨o0, o1, q0, q1, hq, ?_, hsh⟩
  rw [h0 s0 q0 setup0 init0 hs.after.1 a0, h1 s1 q1 setup1 init1 hs.after.2 a1]
  exact (mapProc_exchange (f := fun o => (o, q0)) (g := fun o => (o, q1)) hx).runs

/-- **C75 (number of triples).**  `interactive_count_times_simd` of a circuit is the number of triples
requested over all layers of its execution, and precomputing the layers does not change the number.  For
precomputed circuits the conditions of C74 apply. -/
theorem precomputed_amount {G : Type} [GateLike G] [DecidableEq G] (m : Multi G) (rank : Node → Nat) (w : WF m rank)
    (hb : ∀ c ∈ m.circs, c.interactiveCount = c.gates.countP fun g => GateLike.interactive g)
    (cmap : List Nat) (hcmap : CMapOk m cmap) (hne : NoEmpty m) (c0 : Base G) (hc0 : m.circs[0]? = some c0) :
    ∃ it ls, MIter.new m = some it ∧
      MIter.collect m ((m.circs.map fun c => c.gates.length).sum + 1) it = some ls ∧
      (ls.map (intCount m)).sum = countTimesSimd m ∧
      (FirstUseInOrder cmap ls.flatten → SameLayers cmap ls.flatten →
        ∃ (c : SCirc G) (sh : Shape) (sl : List (SLayer G)), precomputeCirc m cmap = some c ∧ c.shape = some sh ∧
          c.layers sh = some sl ∧ sl.map (·.count) = ls.map (intCount m) ∧
          c.countTimesSimd = some (countTimesSimd m)) := by
  obtain ⟨it, ls, e1, e2, ok, h⟩ := static_parts m rank w cmap hcmap hne c0 hc0
  refine ⟨it, ls, e1, e2, counts_total m ls ok hb, fun hf hs => ?_⟩
  obtain ⟨c, sh, hpre, hsh, -, hl, -, -, hlen, hc⟩ := h hf hs
  refine ⟨c, sh, ls.map (layerOf m), hpre, hsh, hl, ?_, static_count hlen hc hb⟩
  rw [List.map_map]
  rfl

/-- **C75 (triples generated when needed).**  Two executors with OT based triple providers, in any
matching states (for example new), where each run of the generator gives valid triples (C19).  The providers are asked
layer by layer, generate triples when their buffer is short, and the parties return shares of the
plaintext output. -/
theorem gmw_interleaved_correct (m : Multi BoolGate) (rank : Node → Nat) (w : WF m rank)
    (hw : ExecWF m) (hu : Unmixed m) (c0 : Base BoolGate) (hc0 : m.circs[0]? = some c0)
    (inp0 inp1 inp : Input Bool (List Bool)) (hi : InputOk m c0 inp) (hin : Shares inp0 inp1 inp)
    (gen0 gen1 : Nat → Nat → Mt.MulTriples Bool) (hg : GenPair gen0 gen1) (p0 p1 : Mt.Provider)
    (hpp : Mt.PairOk p0 p1)
    (init0 init1 : Store Bool (List Bool)) (val : Node → Bool) (valV : Node → List Bool)
    (hp : PlainEval m inp val valV) :
    ∃ o0 o1 q0 q1, Mt.PairOk q0 q1 ∧
      Runs (executeP gmw m 0 inp0 (requestMts gen0) p0 init0) (executeP gmw m 1 inp1 (requestMts gen1) p1 init1)
        (o0, q0) (o1, q1) ∧
      Shares o0 o1 (plainOutput m c0 val valV) :=
  gmw_provider_correct m rank w hw hu c0 hc0 inp0 inp1 inp hi hin (requestMts gen0) (requestMts gen1) p0 p1
    Mt.PairOk (fun ls _ => provider_serves hg (requestsOf m ls) hpp) init0 init1 val valV hp

/-- The state of a provider after an execution that was served from its buffer of `total` precomputed
triples: one run of the generator in all, and the triples that rounding up added are left over. -/
def UsedUp (total : Nat) (q : Mt.Provider) : Prop :=
  q.computed = 1 ∧ q.held.length = Mt.nextMultipleOf8 total - total

theorem boolMts_ok {τ : Type} (g : Ot.Prg τ) (H : List Bool → Ot.Block) (p0 p1 : Mt.OtParty τ)
    (h01 : Ot.Synced p0.sender p1.receiver) (h10 : Ot.Synced p1.sender p0.receiver)
    (c0 : 0 < p0.sender.choices.length) (c1 : 0 < p1.sender.choices.length) (n : Nat)
    (a0 a1 : List Bool) (l0 : a0.length = Mt.nextMultipleOf8 n) (l1 : a1.length = Mt.nextMultipleOf8 n) :
    ∃ m0 m1 p0' p1', Mt.boolMts g H p0 p1 n a0 a1 = some (m0, m1, p0', p1') ∧ m0.WF ∧ m1.WF ∧
      m0.rows.length = Mt.nextMultipleOf8 n ∧ List.Forall₂ Mt.Valid m0.rows m1.rows := by
  obtain ⟨ms, p0', p1', h, hm⟩ := Mt.boolean_ot_history g H p0 p1 h01 h10 c0 c1 [(n, a0, a1)]
    (by intro c hc; simp only [List.mem_singleton] at hc; subst hc; exact ⟨l0, l1⟩)
  simp only [Mt.boolMtsAll, Option.bind_eq_bind, Option.pure_def, Option.bind_some] at h
  cases hb : Mt.boolMts g H p0 p1 n a0 a1 with
  | none => rw [hb] at h; cases h
  | some r =>
    obtain ⟨m0, m1, r0, r1⟩ := r
    rw [hb] at h
    simp only [Option.bind_some, Option.some.injEq, Prod.mk.injEq] at h
    obtain ⟨rfl, -, -⟩ := h
    cases hm with
    | cons hm _ =>
      obtain ⟨w0, w1, e0, -, -, hv⟩ := hm
      refine ⟨m0, m1, r0, r1, rfl, w0, w1, ?_, hv⟩
      rw [Mt.rows_length w0]
      show m0.a.length = _
      rw [e0]
      exact l0

theorem buffer_used {gen0 gen1 : Nat → Nat → Mt.MulTriples Bool} {m0 m1 : Mt.MulTriples Bool} (w0 : m0.WF)
    (w1 : m1.WF) {n : Nat} (hl : m0.rows.length = Mt.nextMultipleOf8 n)
    (hv : List.Forall₂ Mt.Valid m0.rows m1.rows) (ns : List Nat) (hn : ns.sum = n) :
    ∃ q0 q1, Served (requestMts gen0) (requestMts gen1) ⟨some m0, 1⟩ ⟨some m1, 1⟩ ns q0 q1 ∧
      UsedUp n q0 ∧ UsedUp n q1 := by
  obtain ⟨q0, q1, hs, h1, h2, h3, h4⟩ := buffer_serves gen0 gen1 ns (p0 := ⟨some m0, 1⟩) (p1 := ⟨some m1, 1⟩)
    rfl rfl w0 w1 hv (by rw [hl, hn]; exact (Mt.nextMultipleOf8_spec n).1)
  exact ⟨q0, q1, hs, ⟨h1, by rw [h3, hl, hn]⟩, ⟨h2, by rw [h4, hl, hn]⟩⟩

/-- **C75.**  The parties precompute `interactive_count_times_simd` triples by random OT and then execute the
circuit.  Starting from correct base OTs, the OTs deliver triples, the execution needs no further run of the
generator (whatever it would return), exactly the triples added by rounding up to a multiple of eight are left,
and the parties return shares of the plaintext output.  Conditions on the circuit as in C08. -/
theorem gmw_precomputed_correct (m : Multi BoolGate) (rank : Node → Nat) (w : WF m rank)
    (hw : ExecWF m) (hu : Unmixed m)
    (hb : ∀ c ∈ m.circs, c.interactiveCount = c.gates.countP fun g => GateLike.interactive g)
    (c0 : Base BoolGate) (hc0 : m.circs[0]? = some c0)
    (inp0 inp1 inp : Input Bool (List Bool)) (hi : InputOk m c0 inp) (hin : Shares inp0 inp1 inp)
    {τ : Type} (g : Ot.Prg τ) (H : List Bool → Ot.Block) (p0 p1 : Mt.OtParty τ)
    (h01 : Ot.Synced p0.sender p1.receiver) (h10 : Ot.Synced p1.sender p0.receiver)
    (k0 : 0 < p0.sender.choices.length) (k1 : 0 < p1.sender.choices.length) (a0 a1 : List Bool)
    (l0 : a0.length = Mt.nextMultipleOf8 (countTimesSimd m))
    (l1 : a1.length = Mt.nextMultipleOf8 (countTimesSimd m))
    (init0 init1 : Store Bool (List Bool)) (val : Node → Bool) (valV : Node → List Bool)
    (hp : PlainEval m inp val valV) :
    ∃ m0 m1 p0' p1', Mt.boolMts g H p0 p1 (countTimesSimd m) a0 a1 = some (m0, m1, p0', p1') ∧
      ∀ gen0 gen1 : Nat → Nat → Mt.MulTriples Bool,
        gen0 0 (countTimesSimd m) = m0 → gen1 0 (countTimesSimd m) = m1 →
        ∃ s0 s1, Mt.provide gen0 {} (.precompute (countTimesSimd m)) = some (s0, ⟨[], [m0]⟩) ∧
          Mt.provide gen1 {} (.precompute (countTimesSimd m)) = some (s1, ⟨[], [m1]⟩) ∧
          ∃ o0 o1 q0 q1, (UsedUp (countTimesSimd m) q0 ∧ UsedUp (countTimesSimd m) q1) ∧
            Runs (executeP gmw m 0 inp0 (requestMts gen0) s0 init0)
              (executeP gmw m 1 inp1 (requestMts gen1) s1 init1) (o0, q0) (o1, q1) ∧
            Shares o0 o1 (plainOutput m c0 val valV) := by
  obtain ⟨m0, m1, p0', p1', e, w0, w1, hl, hv⟩ := boolMts_ok g H p0 p1 h01 h10 k0 k1 _ a0 a1 l0 l1
  refine ⟨m0, m1, p0', p1', e, fun gen0 gen1 g0 g1 => ?_⟩
  refine ⟨⟨some m0, 1⟩, ⟨some m1, 1⟩, by simp [Mt.provide, g0], by simp [Mt.provide, g1], ?_⟩
  exact gmw_provider_correct m rank w hw hu c0 hc0 inp0 inp1 inp hi hin (requestMts gen0) (requestMts gen1)
    ⟨some m0, 1⟩ ⟨some m1, 1⟩ (fun q0 q1 => UsedUp (countTimesSimd m) q0 ∧ UsedUp (countTimesSimd m) q1)
    (fun ls ok => buffer_used w0 w1 hl hv _ (by rw [requestsOf_sum, counts_total m ls ok hb]))
    init0 init1 val valV hp

/-! ### Precomputed layers -/

/-- As `gmw_provider_correct`, for the precomputed circuit. -/
theorem gmw_static_provider (m : Multi BoolGate) (rank : Node → Nat) (w : WF m rank)
    (hw : ExecBase m) (hu : Unmixed m) (cmap : List Nat) (hcmap : CMapOk m cmap) (hne : NoEmpty m)
    (hb : ∀ c ∈ m.circs, c.interactiveCount = c.gates.countP fun g => GateLike.interactive g)
    (c0 : Base BoolGate) (hc0 : m.circs[0]? = some c0)
    (inp0 inp1 inp : Input Bool (List Bool)) (hi : InputOk m c0 inp) (hin : Shares inp0 inp1 inp)
    {σ : Type} (req0 req1 : σ → Nat → Option (σ × List Triple)) (s0 s1 : σ)
    (Q : σ → σ → Prop)
    (hserve : ∀ ls, LayersOk m ls → ∃ q0 q1, Served req0 req1 s0 s1 (requestsOf m ls) q0 q1 ∧ Q q0 q1)
    (init0 init1 : Store Bool (List Bool)) (val : Node → Bool) (valV : Node → List Bool)
    (hp : PlainEval m inp val valV) :
    ∃ it ls, MIter.new m = some it ∧
      MIter.collect m ((m.circs.map fun c => c.gates.length).sum + 1) it = some ls ∧
      (FirstUseInOrder cmap ls.flatten → SameLayers cmap ls.flatten →
        ∃ c o0 o1 q0 q1, precomputeCirc m cmap = some c ∧ c.countTimesSimd = some (countTimesSimd m) ∧ Q q0 q1 ∧
          Runs (executeStaticP gmw c 0 inp0 req0 s0 init0) (executeStaticP gmw c 1 inp1 req1 s1 init1)
            (o0, q0) (o1, q1) ∧
          Shares o0 o1 (plainOutput m c0 val valV)) := by
  obtain ⟨it, ls, e1, e2, ok, h⟩ := static_parts m rank w cmap hcmap hne c0 hc0
  refine ⟨it, ls, e1, e2, fun hf hs => ?_⟩
  obtain ⟨c, sh, hpre, hsh, -, hl, -, -, hlen, hc⟩ := h hf hs
  obtain ⟨q0, q1, hsv, hq⟩ := hserve ls ok
  obtain ⟨setup0, setup1, a0, a1, hset⟩ := hsv.answers
  obtain ⟨it', ls', e1', e2', h'⟩ := gmw_static_correct_partial m rank w hw hu cmap hcmap hne c0 hc0 inp0 inp1
    inp hi hin setup0 setup1 hset init0 init1 val valV hp
  rw [e1] at e1'; cases e1'
  rw [e2] at e2'; cases e2'
  obtain ⟨c', o0, o1, hpre', hx, -, hshare⟩ := h' hf hs
  rw [hpre] at hpre'; cases hpre'
  refine ⟨c, o0, o1, q0, q1, hpre, static_count hlen hc hb, hq, ?_, hshare⟩
  rw [executeStaticP_eq gmw hsh hl 0 inp0 req0 s0 q0 setup0 init0 hsv.after.1 a0,
    executeStaticP_eq gmw hsh hl 1 inp1 req1 s1 q1 setup1 init1 hsv.after.2 a1]
  exact (mapProc_exchange (f := fun o => (o, q0)) (g := fun o => (o, q1)) hx).runs

/-- **C75 (precomputed layers).**  As `gmw_precomputed_correct`, with the layers precomputed as well and the
number of triples asked of the precomputed circuit, which is what `BenchParty` does by default.  Partial: the
conditions of C74 on calls of shared circuits. -/
theorem gmw_precomputed_static_partial (m : Multi BoolGate) (rank : Node → Nat) (w : WF m rank)
    (hw : ExecBase m) (hu : Unmixed m) (cmap : List Nat) (hcmap : CMapOk m cmap) (hne : NoEmpty m)
    (hb : ∀ c ∈ m.circs, c.interactiveCount = c.gates.countP fun g => GateLike.interactive g)
    (c0 : Base BoolGate) (hc0 : m.circs[0]? = some c0)
    (inp0 inp1 inp : Input Bool (List Bool)) (hi : InputOk m c0 inp) (hin : Shares inp0 inp1 inp)
    {τ : Type} (g : Ot.Prg τ) (H : List Bool → Ot.Block) (p0 p1 : Mt.OtParty τ)
    (h01 : Ot.Synced p0.sender p1.receiver) (h10 : Ot.Synced p1.sender p0.receiver)
    (k0 : 0 < p0.sender.choices.length) (k1 : 0 < p1.sender.choices.length) (a0 a1 : List Bool)
    (l0 : a0.length = Mt.nextMultipleOf8 (countTimesSimd m))
    (l1 : a1.length = Mt.nextMultipleOf8 (countTimesSimd m))
    (init0 init1 : Store Bool (List Bool)) (val : Node → Bool) (valV : Node → List Bool)
    (hp : PlainEval m inp val valV) :
    ∃ it ls, MIter.new m = some it ∧
      MIter.collect m ((m.circs.map fun c => c.gates.length).sum + 1) it = some ls ∧
      (FirstUseInOrder cmap ls.flatten → SameLayers cmap ls.flatten →
        ∃ c n m0 m1 p0' p1', precomputeCirc m cmap = some c ∧ c.countTimesSimd = some n ∧
          n = countTimesSimd m ∧ Mt.boolMts g H p0 p1 n a0 a1 = some (m0, m1, p0', p1') ∧
          ∀ gen0 gen1 : Nat → Nat → Mt.MulTriples Bool, gen0 0 n = m0 → gen1 0 n = m1 →
            ∃ s0 s1, Mt.provide gen0 {} (.precompute n) = some (s0, ⟨[], [m0]⟩) ∧
              Mt.provide gen1 {} (.precompute n) = some (s1, ⟨[], [m1]⟩) ∧
              ∃ o0 o1 q0 q1, (UsedUp n q0 ∧ UsedUp n q1) ∧
                Runs (executeStaticP gmw c 0 inp0 (requestMts gen0) s0 init0)
                  (executeStaticP gmw c 1 inp1 (requestMts gen1) s1 init1) (o0, q0) (o1, q1) ∧
                Shares o0 o1 (plainOutput m c0 val valV)) := by
  obtain ⟨m0, m1, p0', p1', e, w0, w1, hl, hv⟩ := boolMts_ok g H p0 p1 h01 h10 k0 k1 _ a0 a1 l0 l1
  obtain ⟨it, ls, e1, e2, ok, h⟩ := static_parts m rank w cmap hcmap hne c0 hc0
  refine ⟨it, ls, e1, e2, fun hf hs => ?_⟩
  obtain ⟨c, sh, hpre, hsh, -, -, -, -, hlen, hc⟩ := h hf hs
  refine ⟨c, countTimesSimd m, m0, m1, p0', p1', hpre, static_count hlen hc hb, rfl, e, fun gen0 gen1 g0 g1 => ?_⟩
  refine ⟨⟨some m0, 1⟩, ⟨some m1, 1⟩, by simp [Mt.provide, g0], by simp [Mt.provide, g1], ?_⟩
  obtain ⟨it', ls', e1', e2', h'⟩ := gmw_static_provider m rank w hw hu cmap hcmap hne hb c0 hc0 inp0 inp1 inp hi
    hin (requestMts gen0) (requestMts gen1)
    ⟨some m0, 1⟩ ⟨some m1, 1⟩ (fun q0 q1 => UsedUp (countTimesSimd m) q0 ∧ UsedUp (countTimesSimd m) q1)
    (fun ls ok => buffer_used w0 w1 hl hv _ (by rw [requestsOf_sum, counts_total m ls ok hb]))
    init0 init1 val valV hp
  rw [e1] at e1'; cases e1'
  rw [e2] at e2'; cases e2'
  obtain ⟨c', o0, o1, q0, q1, hpre', -, hq, hr, hsh'⟩ := h' hf hs
  rw [hpre] at hpre'; cases hpre'
  exact ⟨o0, o1, q0, q1, hq, hr, hsh'⟩

/-! ### Cases -/

theorem callCirc_counts : ∀ c ∈ callCirc.circs, c.interactiveCount = c.gates.countP fun g => GateLike.interactive g := by
  intro c hc
  obtain ⟨i, hi⟩ := List.getElem?_of_mem hc
  rcases callCirc_circ hi with ⟨-, rfl⟩ | ⟨-, rfl⟩ <;> decide

/-- The parties compute `(x & y) ^ x` with a sub-circuit call and one triple made by OT. -/
example (x y r s : Bool) : ∃ m0 m1 p0' p1', countTimesSimd callCirc = 1 ∧
    Mt.boolMts Mt.posPrg (fun _ => 0) Mt.startParty Mt.startParty 1 (List.replicate 8 true)
      (List.replicate 8 false) = some (m0, m1, p0', p1') ∧
    ∃ o0 o1 q0 q1, UsedUp 1 q0 ∧ q1.held.length = 7 ∧
      Runs (executeP gmw callCirc 0 (.scalar [r, s]) (requestMts fun _ _ => m0) ⟨some m0, 1⟩ noOutputs)
        (executeP gmw callCirc 1 (.scalar [r ^^ x, s ^^ y]) (requestMts fun _ _ => m1) ⟨some m1, 1⟩ noOutputs)
        (o0, q0) (o1, q1) ∧
      Shares o0 o1 (.scalar [(x && y) ^^ x]) := by
  obtain ⟨m0, m1, p0', p1', e, h⟩ := gmw_precomputed_correct callCirc callRank callCirc_wf callCirc_exec.1
    callCirc_exec.2 callCirc_counts callMain rfl (.scalar [r, s]) (.scalar [r ^^ x, s ^^ y]) (.scalar [x, y])
    ⟨rfl, rfl⟩ ⟨rfl, rfl, by simp [xorL]⟩ Mt.posPrg (fun _ => 0) Mt.startParty Mt.startParty Mt.start_synced
    Mt.start_synced (by decide) (by decide) (List.replicate 8 true) (List.replicate 8 false) rfl rfl
    noOutputs noOutputs _ _ (callCirc_plain x y)
  refine ⟨m0, m1, p0', p1', rfl, e, ?_⟩
  obtain ⟨s0, s1, h0, h1, o0, o1, q0, q1, hq, hr, hs⟩ := h (fun _ _ => m0) (fun _ _ => m1) rfl rfl
  cases h0
  cases h1
  exact ⟨o0, o1, q0, q1, hq.1, hq.2.2, hr, hs⟩

/-- A generator of valid triples: `GenPair` is satisfied, so `gmw_interleaved_correct` applies to new
providers. -/
example : GenPair (fun _ n => ⟨List.replicate (Mt.nextMultipleOf8 n) true, List.replicate (Mt.nextMultipleOf8 n) false,
      List.replicate (Mt.nextMultipleOf8 n) true⟩)
    (fun _ n => ⟨List.replicate (Mt.nextMultipleOf8 n) false, List.replicate (Mt.nextMultipleOf8 n) true,
      List.replicate (Mt.nextMultipleOf8 n) false⟩) ∧ Mt.PairOk {} {} := by
  refine ⟨⟨fun _ _ => by simp [Mt.MulTriples.WF], fun _ _ => by simp [Mt.MulTriples.WF],
    fun _ _ => by simp [Mt.MulTriples.rows], fun _ _ => by simp [Mt.MulTriples.rows], fun _ n => ?_⟩,
    rfl, .inl ⟨rfl, rfl⟩⟩
  simp only [Mt.MulTriples.rows]
  generalize Mt.nextMultipleOf8 n = k
  induction k with
  | zero => exact .nil
  | succ k ih => exact .cons (by simp [Mt.Valid]) ih

end Verif.Exec
