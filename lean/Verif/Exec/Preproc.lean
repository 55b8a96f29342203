import Verif.Exec.StaticProps
import Verif.Mt.ArithOt

/-!
C75: triples precomputed for a circuit suffice for its execution.  Model: the executor with a stateful
provider of setup data, and the numbers of triples a circuit reports.
-/
set_option autoImplicit false

namespace Verif.Exec

open Circuit Proc Gmw

variable {G : Type} [GateLike G] {S V M MS T σ : Type}

/-- dyn_layers.rs:140-146 `interactive_count_times_simd`. -/
def countTimesSimd (m : Multi G) : Nat :=
  (m.circs.map fun c => c.interactiveCount * c.simdSize.getD 1).sum

/-- static_layers.rs:82-90 `interactive_count_times_simd`; `none` is the index panic. -/
def SCirc.countTimesSimd (c : SCirc G) : Option Nat :=
  (c.core.scMap.mapM fun mp => (c.core.subs[mp]?).map fun s => s.intCount * s.simd.getD 1).map List.sum

/-- executor.rs:155-480 as `execLayers`, with the provider `self.setup` as a state machine:
`req s n` is `request_setup_output(n)` in state `s` (executor.rs:342-346, an error panics).  The final
state of the provider is returned as well. -/
def execLayersP (pr : Protocol G S V M MS T) (m : Multi G) (party : Nat) (inp : Input S V)
    (req : σ → Nat → Option (σ × T)) : σ → List (MLayer × List Node) → Store S V →
    Proc (M × Option MS) (Input S V × σ)
  | s, [], st => match outputs m st with
    | some o => .done (o, s)
    | none => .fail
  | s, (l, fs) :: ls, st =>
    match evalNodes pr m party inp st (niOf l) with
    | none => .fail
    | some st =>
      if intCount m l = 0 then execLayersP pr m party inp req s ls st
      else match req s (intCount m l) with
        | none => .fail
        | some (s, t) =>
          match computeMsgs pr m party st l t with
          | none => .fail
          | some (msg, t) =>
            .send msg (.recv fun other =>
              match finishLayer pr m party (free pr st fs) l msg other t with
              | none => .fail
              | some st => execLayersP pr m party inp req s ls st)

/-- executor.rs:124-493 as `execute`, with a provider. -/
def executeP (pr : Protocol G S V M MS T) (m : Multi G) (party : Nat) (inp : Input S V)
    (req : σ → Nat → Option (σ × T)) (s : σ) (st : Store S V) :
    Proc (M × Option MS) (Input S V × σ) :=
  match (do
    let c ← m.circs[0]?
    let len := match inp with
      | .scalar l => l.length
      | .simd l => l.length
    if c.inputGates.length = len then do
      let it ← MIter.new m
      let ls ← MIter.collect m ((m.circs.map fun c => c.gates.length).sum + 1) it
      freeable m (fun _ => none) ls
    else none) with
  | some ls => execLayersP pr m party inp req s ls st
  | none => .fail

/-- executor.rs:155-480 on a precomputed circuit, with a provider. -/
def execLayersSP (pr : Protocol G S V M MS T) (c : SCirc G) (sh : Shape) (party : Nat) (inp : Input S V)
    (req : σ → Nat → Option (σ × T)) : σ → List (SLayer G) → Store S V →
    Proc (M × Option MS) (Input S V × σ)
  | s, [], st => match outputsS c sh st with
    | some o => .done (o, s)
    | none => .fail
  | s, l :: ls, st =>
    match evalEntries pr sh c.inputs party inp st l.ni with
    | none => .fail
    | some st =>
      if l.count = 0 then execLayersSP pr c sh party inp req s ls st
      else match req s l.count with
        | none => .fail
        | some (s, t) =>
          match computeMsgsS pr sh party st l t with
          | none => .fail
          | some (msg, t) =>
            .send msg (.recv fun other =>
              match finishLayerS pr sh party st l msg other t with
              | none => .fail
              | some st => execLayersSP pr c sh party inp req s ls st)

/-- executor.rs:124-493 on a precomputed circuit, with a provider. -/
def executeStaticP (pr : Protocol G S V M MS T) (c : SCirc G) (party : Nat) (inp : Input S V)
    (req : σ → Nat → Option (σ × T)) (s : σ) (st : Store S V) : Proc (M × Option MS) (Input S V × σ) :=
  match (do
    let sh ← c.shape
    let len := match inp with
      | .scalar l => l.length
      | .simd l => l.length
    if c.inputs.length = len then do
      let ls ← c.layers sh
      pure (sh, ls)
    else none) with
  | some (sh, ls) => execLayersSP pr c sh party inp req s ls st
  | none => .fail

/-- mul_triple/boolean/ot_ext.rs:150-162 `request_mts` as the setup provider of an executor
(protocols/mod.rs `FunctionDependentSetup` for triple providers). -/
def requestMts (gen : Nat → Nat → Mt.MulTriples Bool) (p : Mt.Provider) (n : Nat) :
    Option (Mt.Provider × List Triple) :=
  match Mt.provide gen p (.request n) with
  | some (q, y) => some (q, y.returned.flatMap Mt.triples)
  | none => none

/-! ### Specification -/

/-- The results of a process, post-processed. -/
def mapProc {A B : Type} (f : A → B) : Proc M A → Proc M B
  | .done a => .done (f a)
  | .fail => .fail
  | .send m k => .send m (mapProc f k)
  | .recv k => .recv fun x => mapProc f (k x)

/-- The state after a number of requests. -/
def stateAfter (req : σ → Nat → Option (σ × T)) : σ → List Nat → Option σ
  | s, [] => some s
  | s, n :: ns => do
    let (s', _) ← req s n
    stateAfter req s' ns

/-- `setup` gives the answers of the provider to the requests `ns`. -/
def Answers (req : σ → Nat → Option (σ × T)) (s : σ) (ns : List Nat) (setup : Nat → Nat → T) : Prop :=
  ∀ k n s' q t, stateAfter req s (ns.take k) = some s' → ns[k]? = some n → req s' n = some (q, t) →
    setup k n = t

/-! ### The provider as a setup function -/

theorem stateAfter_append (req : σ → Nat → Option (σ × T)) (s : σ) (a b : List Nat) :
    stateAfter req s (a ++ b) = (stateAfter req s a).bind fun s => stateAfter req s b := by
  induction a generalizing s with
  | nil => rfl
  | cons n a ih =>
    simp only [List.cons_append, stateAfter, Option.bind_eq_bind, Option.bind_assoc]
    congr 1; funext x; exact ih _

theorem execLayersP_eq (pr : Protocol G S V M MS T) (m : Multi G) (party : Nat) (inp : Input S V)
    (req : σ → Nat → Option (σ × T)) (s0 : σ) (ns : List Nat) (sf : σ)
    (hsf : stateAfter req s0 ns = some sf) (setup : Nat → Nat → T) (hans : Answers req s0 ns setup)
    (ls : List (MLayer × List Node)) (k : Nat) (s : σ) (hs : stateAfter req s0 (ns.take k) = some s)
    (hns : ns.drop k = ((ls.map fun l => intCount m l.1).filter (· ≠ 0))) (st : Store S V) :
    execLayersP pr m party inp req s ls st =
      mapProc (fun o => (o, sf)) (execLayers pr m party inp setup k ls st) := by
  induction ls generalizing k s st with
  | nil =>
    have : ns.take k = ns := by
      have := List.take_append_drop k ns
      rw [hns] at this; simpa using this
    rw [this, hsf] at hs
    cases hs
    simp only [execLayersP, execLayers]
    cases outputs m st <;> rfl
  | cons e ls ih =>
    obtain ⟨l, fs⟩ := e
    simp only [execLayersP, execLayers]
    cases evalNodes pr m party inp st (niOf l) with
    | none => rfl
    | some st1 =>
      dsimp only
      by_cases hc : intCount m l = 0
      · rw [if_pos hc, if_pos hc]
        exact ih k s hs (by rw [hns]; simp [hc]) st1
      · rw [if_neg hc, if_neg hc]
        have hcons : ns.drop k = intCount m l :: ((ls.map fun l => intCount m l.1).filter (· ≠ 0)) := by
          rw [hns]; simp [hc]
        have hk : ns[k]? = some (intCount m l) := by
          rw [← List.head?_drop, hcons]; rfl
        have htake : ns.take (k + 1) = ns.take k ++ [intCount m l] := by
          rw [List.take_add_one, hk]; rfl
        have hdrop : ns.drop (k + 1) = ((ls.map fun l => intCount m l.1).filter (· ≠ 0)) := by
          rw [← List.tail_drop, hcons]; rfl
        obtain ⟨s', t, hreq⟩ : ∃ s' t, req s (intCount m l) = some (s', t) := by
          have := hsf
          rw [← List.take_append_drop k ns, stateAfter_append, hs, hcons] at this
          simp only [Option.bind_some, stateAfter, Option.bind_eq_bind] at this
          cases hr : req s (intCount m l) with
          | none => rw [hr] at this; cases this
          | some x => exact ⟨x.1, x.2, rfl⟩
        have hs' : stateAfter req s0 (ns.take (k + 1)) = some s' := by
          rw [htake, stateAfter_append, hs]
          simp [stateAfter, hreq]
        rw [hreq, hans k _ s s' t hs hk hreq]
        dsimp only
        cases computeMsgs pr m party st1 l t with
        | none => rfl
        | some r =>
          obtain ⟨msg, t'⟩ := r
          simp only [mapProc]
          congr 2
          funext other
          cases finishLayer pr m party (free pr st1 fs) l msg other t' with
          | none => rfl
          | some st2 => exact ih (k + 1) s' hs' hdrop st2

theorem execLayersSP_eq (pr : Protocol G S V M MS T) (c : SCirc G) (sh : Shape) (party : Nat) (inp : Input S V)
    (req : σ → Nat → Option (σ × T)) (s0 : σ) (ns : List Nat) (sf : σ)
    (hsf : stateAfter req s0 ns = some sf) (setup : Nat → Nat → T) (hans : Answers req s0 ns setup)
    (ls : List (SLayer G)) (k : Nat) (s : σ) (hs : stateAfter req s0 (ns.take k) = some s)
    (hns : ns.drop k = ((ls.map fun l => l.count).filter (· ≠ 0))) (st : Store S V) :
    execLayersSP pr c sh party inp req s ls st =
      mapProc (fun o => (o, sf)) (execLayersS pr c sh party inp setup k ls st) := by
  induction ls generalizing k s st with
  | nil =>
    have : ns.take k = ns := by
      have := List.take_append_drop k ns
      rw [hns] at this; simpa using this
    rw [this, hsf] at hs
    cases hs
    simp only [execLayersSP, execLayersS]
    cases outputsS c sh st <;> rfl
  | cons l ls ih =>
    simp only [execLayersSP, execLayersS]
    cases evalEntries pr sh c.inputs party inp st l.ni with
    | none => rfl
    | some st1 =>
      dsimp only
      by_cases hc : l.count = 0
      · rw [if_pos hc, if_pos hc]
        exact ih k s hs (by rw [hns]; simp [hc]) st1
      · rw [if_neg hc, if_neg hc]
        have hcons : ns.drop k = l.count :: ((ls.map fun l => l.count).filter (· ≠ 0)) := by
          rw [hns]; simp [hc]
        have hk : ns[k]? = some l.count := by
          rw [← List.head?_drop, hcons]; rfl
        have htake : ns.take (k + 1) = ns.take k ++ [l.count] := by
          rw [List.take_add_one, hk]; rfl
        have hdrop : ns.drop (k + 1) = ((ls.map fun l => l.count).filter (· ≠ 0)) := by
          rw [← List.tail_drop, hcons]; rfl
        obtain ⟨s', t, hreq⟩ : ∃ s' t, req s l.count = some (s', t) := by
          have := hsf
          rw [← List.take_append_drop k ns, stateAfter_append, hs, hcons] at this
          simp only [Option.bind_some, stateAfter, Option.bind_eq_bind] at this
          cases hr : req s l.count with
          | none => rw [hr] at this; cases this
          | some x => exact ⟨x.1, x.2, rfl⟩
        have hs' : stateAfter req s0 (ns.take (k + 1)) = some s' := by
          rw [htake, stateAfter_append, hs]
          simp [stateAfter, hreq]
        rw [hreq, hans k _ s s' t hs hk hreq]
        dsimp only
        cases computeMsgsS pr sh party st1 l t with
        | none => rfl
        | some r =>
          obtain ⟨msg, t'⟩ := r
          simp only [mapProc]
          congr 2
          funext other
          cases finishLayerS pr sh party st1 l msg other t' with
          | none => rfl
          | some st2 => exact ih (k + 1) s' hs' hdrop st2

theorem mapProc_exchange {A B L : Type} {f g : A → B} {Q : L → M → M → Prop} {o0 o1 : A} {ls : List L}
    {p q : Proc M A} (h : Exchange Q o0 o1 ls p q) :
    Exchange Q (f o0) (g o1) ls (mapProc f p) (mapProc g q) := by
  induction h with
  | done => exact .done
  | round hq _ ih => exact .round hq ih

/-! ### The number of triples -/

/-- The interactive gates of circuit `i`. -/
def intGates (m : Multi G) (i : Nat) : List Node :=
  match m.circs[i]? with
  | some c => (positions (fun g => interactive g) c.gates).map fun g => (i, g)
  | none => []

theorem mem_intGates (m : Multi G) (v : Node) (i : Nat) :
    v ∈ intGates m i ↔ v.1 = i ∧ ∃ g, m.gate? v = some g ∧ interactive g = true := by
  obtain ⟨a, b⟩ := v
  unfold intGates
  cases hc : m.circs[i]? with
  | none =>
    simp only [List.not_mem_nil, false_iff, not_and]
    rintro rfl ⟨g, hg, -⟩
    simp [Multi.gate?, hc] at hg
  | some c =>
    simp only [List.mem_map, Prod.mk.injEq, mem_positions']
    constructor
    · rintro ⟨x, ⟨g, h1, h2⟩, rfl, rfl⟩
      exact ⟨rfl, g, by simp [Multi.gate?, hc, h1], h2⟩
    · rintro ⟨rfl, g, h1, h2⟩
      exact ⟨b, ⟨g, by simpa [Multi.gate?, hc] using h1, h2⟩, rfl, rfl⟩

theorem intGates_nodup (m : Multi G) (i : Nat) : (intGates m i).Nodup := by
  unfold intGates
  split
  · exact (List.nodup_range.filter _).map fun a b h => by simpa using h
  · exact List.nodup_nil

theorem positions_length (p : G → Bool) (gs : List G) : (positions p gs).length = gs.countP p := by
  induction gs using List.reverseRecOn with
  | nil => rfl
  | append_singleton gs y ih =>
    rw [positions_append, List.length_append, ih, List.countP_append, List.countP_singleton]
    split <;> simp

/-- Over all layers of a circuit, the requests add up to `interactive_count_times_simd`. -/
theorem counts_total (m : Multi G) (ls : List MLayer) (ok : LayersOk m ls)
    (hb : ∀ c ∈ m.circs, c.interactiveCount = c.gates.countP fun g => interactive g) :
    (ls.map (intCount m)).sum = countTimesSimd m := by
  have h1 : ∀ l : MLayer, intCount m l = ((intNodes l).map fun v => lanes m v.1).sum := by
    intro l
    unfold intCount intNodes
    induction l with
    | nil => rfl
    | cons e l ih =>
      simp only [List.map_cons, List.sum_cons, List.flatMap_cons, List.map_append, List.sum_append, ih,
        List.map_map]
      congr 1
      rw [show ((fun v : Node => lanes m v.1) ∘ fun g => (e.1, g)) = fun _ => lanes m e.1 from rfl]
      simp [Nat.mul_comm]
  have h2 : (ls.map (intCount m)).sum = ((ls.flatMap intNodes).map fun v => lanes m v.1).sum := by
    clear ok
    induction ls with
    | nil => rfl
    | cons l ls ih => simp [h1 l, ih]
  have hperm : (ls.flatMap intNodes).Perm ((List.range m.circs.length).flatMap (intGates m)) := by
    rw [List.perm_ext_iff_of_nodup]
    · intro v
      simp only [List.mem_flatMap, List.mem_range, mem_intGates]
      constructor
      · rintro ⟨l, hl, hv⟩
        obtain ⟨g, h3, h4⟩ := ok.inter l hl v hv
        obtain ⟨c, hc, -⟩ := (ok.all v).1 (List.mem_flatMap.2 ⟨l, hl, List.mem_append_right _ hv⟩)
        exact ⟨v.1, (List.getElem?_eq_some_iff.1 hc).1, rfl, g, h3, h4⟩
      · rintro ⟨i, hi, rfl, g, h3, h4⟩
        have hval : m.Valid v := by
          unfold Multi.gate? at h3
          cases hc : m.circs[v.1]? with
          | none => simp [hc] at h3
          | some c => exact ⟨c, hc, (List.getElem?_eq_some_iff.1 (by simpa [hc] using h3)).1⟩
        obtain ⟨l, hl, hv⟩ := List.mem_flatMap.1 ((ok.all v).2 hval)
        rcases List.mem_append.1 hv with hv | hv
        · obtain ⟨g', h5, h6⟩ := ok.local_ l hl v hv
          rw [h3] at h5; cases h5; rw [h4] at h6; cases h6
        · exact ⟨l, hl, hv⟩
    · refine List.Nodup.sublist ?_ ok.once
      clear ok h2
      induction ls with
      | nil => exact .slnil
      | cons l ls ih =>
        simp only [List.flatMap_cons]
        exact (List.sublist_append_right _ _).append ih
    · rw [List.nodup_flatMap]
      refine ⟨fun i _ => intGates_nodup m i, ?_⟩
      refine List.nodup_range.imp ?_
      intro i j hij v hi hj
      rw [mem_intGates] at hi hj
      exact hij (hi.1.symm.trans hj.1)
  rw [h2, (hperm.map fun v => lanes m v.1).sum_eq, countTimesSimd, List.map_flatMap]
  rw [List.flatMap_def]
  rw [List.sum_flatten, List.map_map]
  congr 1
  apply List.ext_getElem
  · simp
  · intro i hi hi'
    have hi2 : i < m.circs.length := by simpa using hi'
    simp only [List.getElem_map, List.getElem_range, Function.comp_apply]
    have hc := List.getElem?_eq_getElem hi2
    rw [hb _ (List.getElem_mem hi2)]
    unfold intGates
    simp only [hc, List.map_map]
    rw [show ((fun v : Node => lanes m v.1) ∘ fun g => (i, g)) = fun _ => lanes m i from rfl]
    simp [positions_length, lanes, hc]

end Verif.Exec
