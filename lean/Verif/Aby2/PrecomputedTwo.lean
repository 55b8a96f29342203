import Verif.Aby2.Precomputed
import Verif.Aby2.TwoPartyProps

/-!
C105: ABY2 without a helper on circuits with precomputed layers: `AbySetupProvider::setup` (aby2.rs:705-791) on
`ExecutableCircuit::StaticLayers`, and the execution.
-/
set_option autoImplicit false

namespace Verif.Aby2

open Circuit Exec Proc Secret
open Mail (mapB)

/-! ### Model -/

/-- aby2.rs:733-752: one interactive gate of the loop, with the operands the iterator gives. -/
def setupGateS {α : Type} (mask : Node → Option α) (s : SetupBuild α) (e : Entry Gate) :
    Option (SetupBuild α × List Sec) := do
  let (s, xs) ← mapSt (operand mask) s e.2
  setupDataCirc s e.1.1 (xs.mergeSort secLe)

/-- aby2.rs:722-758: the setup circuit, the inputs for it, and the output gates of each interactive gate. -/
def buildSetupS {α : Type} (mask : Node → Option α) (es : List (Entry Gate)) :
    Option (Base Gmw.BoolGate × List α × List (List Sec)) := do
  let (s, ts) ← mapSt (setupGateS mask) (.new α) es
  let (b, outs) ← mapB (fun b t => mapB (fun b x => output b x) b t) s.b ts
  let c ← b[0]?
  pure (c, s.inputs, outs)

/-- aby2.rs:705-791 `AbySetupProvider::setup` of one party on a `StaticLayers` circuit; the arguments are those of
`abySetup`.  The setup circuit itself is always a `DynLayers` circuit (aby2.rs:760-761).  The results are zipped with
the interactive gates (aby2.rs:778-789): the rest is cut off if there are more results. -/
def abySetupS (c : SCirc Gate) (party : Nat) (st : Store Share (List Share))
    (triples : Nat → Nat → List Gmw.Triple) (init : Store Bool (List Bool)) :
    Proc (Gmw.Msg × Option Gmw.SimdMsg) SetupData :=
  match (do
    let sh ← c.shape
    let gs ← interactiveGatesS c.core
    let es ← interactiveWithParents c.core
    let b ← buildSetupS (fun p => (sh.get st p).map Share.priv) es
    pure (gs, b)) with
  | none => .fail
  | some (gs, s, inputs, outs) =>
    (execute gmw (.ofBase s) party (.scalar inputs) triples init).andThen fun o =>
      match o with
      | Input.scalar l => (readOutputs s ((gs.zip outs).map (·.2)) l).map SetupData.fromRaw
      | Input.simd _ => none

/-! ### The same setup -/

theorem mapSt_congr {σ α β : Type} {f g : σ → α → Option (σ × β)} (l : List α) (s : σ)
    (h : ∀ x ∈ l, ∀ s, f s x = g s x) : mapSt f s l = mapSt g s l := by
  induction l generalizing s with
  | nil => rfl
  | cons x l ih =>
    simp only [mapSt, h x List.mem_cons_self]
    congr 1
    funext y
    rw [ih _ fun z hz => h z (List.mem_cons_of_mem _ hz)]

theorem mapSt_length {σ α β : Type} {f : σ → α → Option (σ × β)} (l : List α) (s s' : σ) (r : List β)
    (h : mapSt f s l = some (s', r)) : r.length = l.length := by
  induction l generalizing s s' r with
  | nil => simp only [mapSt, Option.some.injEq, Prod.mk.injEq] at h; rw [← h.2]; rfl
  | cons x l ih =>
    simp only [mapSt, Option.bind_eq_bind, Option.bind_eq_some_iff, Option.pure_def, Option.some.injEq,
      Prod.mk.injEq] at h
    obtain ⟨⟨s1, y⟩, -, ⟨s2, ys⟩, h2, -, rfl⟩ := h
    simp [ih _ _ _ h2]

theorem mapB_length {α β : Type} {f : Builder → α → Option (Builder × β)} (l : List α) (s s' : Builder) (r : List β)
    (h : mapB f s l = some (s', r)) : r.length = l.length := by
  induction l generalizing s s' r with
  | nil => simp only [mapB, Option.some.injEq, Prod.mk.injEq] at h; rw [← h.2]; rfl
  | cons x l ih =>
    simp only [mapB, Option.bind_eq_bind, Option.bind_eq_some_iff, Option.pure_def, Option.some.injEq,
      Prod.mk.injEq] at h
    obtain ⟨⟨s1, y⟩, -, ⟨s2, ys⟩, h2, -, rfl⟩ := h
    simp [ih _ _ _ h2]

theorem buildSetupS_length {α : Type} {mask : Node → Option α} {es : List (Entry Gate)} {c : Base Gmw.BoolGate}
    {inputs : List α} {outs : List (List Sec)} (h : buildSetupS mask es = some (c, inputs, outs)) :
    outs.length = es.length := by
  simp only [buildSetupS, Option.bind_eq_bind, Option.bind_eq_some_iff, Option.pure_def, Option.some.injEq,
    Prod.mk.injEq] at h
  obtain ⟨⟨s, ts⟩, h1, ⟨b, os⟩, h2, c', -, -, -, rfl⟩ := h
  rw [mapB_length _ _ _ _ h2, mapSt_length _ _ _ _ h1]

theorem setupGates_eq {α : Type} {m : Multi Gate} {mask mask' : Node → Option α}
    (hp : ∀ v, ∀ u ∈ m.parents v, mask u = mask' u) (vs : List Node) (hv : ∀ v ∈ vs, m.Valid v) (s : SetupBuild α) :
    mapSt (setupGateS mask) s (vs.filterMap (entryOf m)) = mapSt (setupGate m mask') s vs := by
  induction vs generalizing s with
  | nil => rfl
  | cons v vs ih =>
    obtain ⟨g, hg⟩ : ∃ g, m.gate? v = some g := by
      obtain ⟨c, hc, hl⟩ := hv v List.mem_cons_self
      exact ⟨c.gates[v.2], by simp [Multi.gate?, hc, hl]⟩
    rw [List.filterMap_cons_some (show entryOf m v = some ((g, v), m.parents v) by rw [entryOf, hg]; rfl)]
    have h1 : setupGateS mask s ((g, v), m.parents v) = setupGate m mask' s v := by
      simp only [setupGateS, setupGate, hg, Option.bind_eq_bind, Option.bind_some]
      rw [mapSt_congr (g := operand mask') _ _ fun u hu s => by simp only [operand, hp v u hu]]
    simp only [mapSt, h1]
    congr 1
    funext y
    rw [ih fun u hu => hv u (List.mem_cons_of_mem _ hu)]

/-- **C105, setup without a helper.**  `AbySetupProvider::setup` of both parties is the same on the circuit and on its
precomputed layers, for all gate outputs, triples and initial gate outputs.  Partial: the conditions of C47, and no
circuit is empty. -/
theorem aby_static_setup_partial (m : Multi Gate) (rank : Node → Nat) (w : WF m rank) (cmap : List Nat)
    (hcmap : CMapOk m cmap) (hne : NoEmpty m)
    (hb : ∀ c ∈ m.circs, c.interactiveCount = c.gates.countP fun g => interactive g) (c0 : Base Gate)
    (hc0 : m.circs[0]? = some c0) :
    ∃ ls, layers m = some ls ∧ (FirstUseInOrder cmap ls.flatten → SameLayers cmap ls.flatten →
      ∃ c, precomputeCirc m cmap = some c ∧
        ∀ party st triples init, abySetupS c party st triples init = abySetup m party st triples init) := by
  obtain ⟨it, ls, e1, e2, ok, hx⟩ := static_parts m rank w cmap hcmap hne c0 hc0
  have hls : layers m = some ls := by simp [layers, e1, e2]
  refine ⟨ls, hls, fun hf hs => ?_⟩
  obtain ⟨c, sh, hpre, hsh, hok, -⟩ := hx hf hs
  obtain ⟨ls', hls', -, hy⟩ := static_iterators_same_partial m rank w cmap hcmap hne hb
  rw [hls] at hls'
  cases hls'
  obtain ⟨s, es, is, hp, h1, h2, h3, h4, -, hg, -, -, -, -, -⟩ := hy hf hs
  have hcs : c = ⟨s, c0.inputGates, c0.outputGates⟩ := by
    simp only [precomputeCirc, hc0, e1, e2, hp, Option.bind_eq_bind, Option.bind_some, Option.pure_def,
      Option.some.injEq] at hpre
    exact hpre.symm
  subst hcs
  have hv : ∀ v ∈ iterNodes ls, m.Valid v := fun v hv => (ok.all v).1 ((iterNodes_perm ls).mem_iff.1 hv)
  have his : is = (interactiveNodes m ls).filterMap (entryOf m) := by
    have := (static_views s m ls (fun l hl => (Circuit.collect_ids m _ it ls e2 l hl).2) ?_).2
    · rw [h2, ← interactiveNodes_eq m ls ok.local_ ok.inter] at this
      exact Option.some.inj this
    · obtain ⟨s', hp', hviews, -⟩ := static_layers_core m rank w cmap hcmap it ls _ e2 ok hf hs
      rw [hp] at hp'
      cases hp'
      exact hviews false false
  refine ⟨_, hpre, fun party st triples init => ?_⟩
  have hbuild : buildSetupS (fun p => (sh.get st p).map Share.priv) is =
      buildSetup m (fun p => (st.get m p).map Share.priv) (interactiveNodes m ls) := by
    have := setupGates_eq (m := m) (mask := fun p => (sh.get st p).map Share.priv)
      (mask' := fun p => (st.get m p).map Share.priv)
      (fun v u hu => by simp only [hok.get (parents_valid w v u hu) st]) (interactiveNodes m ls)
      (fun v h => hv v (List.mem_of_mem_filter h)) (.new Bool)
    rw [buildSetupS, buildSetup, his, this]
  simp only [abySetupS, abySetup, hsh, hls, h2, hg, Option.bind_eq_bind, Option.bind_some, ← hbuild]
  cases hbs : buildSetupS (fun p => (sh.get st p).map Share.priv) is with
  | none => rfl
  | some b =>
    obtain ⟨b, inputs, outs⟩ := b
    have hz : ((is.map (·.1)).zip outs).map (·.2) = outs := by
      rw [show (fun x : (Gate × Node) × List Sec => x.2) = Prod.snd from rfl, List.map_snd_zip]
      rw [buildSetupS_length hbs, List.length_map]
    simp only [Option.bind_some, Option.pure_def, hz]
    rfl

/-- **C105, C71 with precomputed layers.**  Two parties without a helper run ABY2 on the precomputed circuit as in
`aby2_two_party_correct`: under every schedule the setup and the execution finish, and the outputs reconstruct to the
plaintext values.  Partial: the conditions of C47, and no circuit is empty. -/
theorem aby2_two_party_static_partial (m : Multi Gate) (rank : Node → Nat) (w : WF m rank) (hw : ExecWF m)
    (hns : ∀ i, isSimd m i = false) (h2 : ∀ v n, m.gate? v = some (.and n) → n = 2)
    (hb : ∀ c ∈ m.circs, BookOk c) (c0 : Base Gate) (hc0 : m.circs[0]? = some c0)
    (hout : ∀ g ∈ c0.outputGates, m.Valid (0, g))
    (cmap : List Nat) (hcmap : CMapOk m cmap) (hne : NoEmpty m)
    (priv0 priv1 joint : Seed) (owner : Nat → Option InputBy) (os : List InputBy)
    (ho : c0.inputGates.map owner = os.map some) (map0 map1 : Nat → Option ShareType)
    (ops0 ops1 : List Op)
    (h01 : (run (.new 1 priv1 joint map1) ops1).received = (run (.new 0 priv0 joint map0) ops0).sent)
    (h10 : (run (.new 0 priv0 joint map0) ops0).received = (run (.new 1 priv1 joint map1) ops1).sent)
    (hl0 : os.count .p0 = (run (.new 0 priv0 joint map0) ops0).bits.length)
    (hl1 : os.count .p1 = (run (.new 1 priv1 joint map1) ops1).bits.length) (val : Node → Bool)
    (hp : PlainEval m (merge os (run (.new 0 priv0 joint map0) ops0).bits
      (run (.new 1 priv1 joint map1) ops1).bits) val)
    (triples0 triples1 : Nat → Nat → List Gmw.Triple)
    (hset : ∀ k n, Gmw.Matching (triples0 k n) (triples1 k n) ∧ n ≤ (triples0 k n).length)
    (init0 init1 : Store Bool (List Bool)) :
    let t0 := run (.new 0 priv0 joint map0) ops0
    let t1 := run (.new 1 priv1 joint map1) ops1
    ∃ ls, layers m = some ls ∧ (FirstUseInOrder cmap ls.flatten → SameLayers cmap ls.flatten →
      ∃ c st0 st1 d0 d1, precomputeCirc m cmap = some c ∧ helperGateOutputsS c 0 priv0 joint owner = some st0 ∧
        helperGateOutputsS c 1 priv1 joint owner = some st1 ∧
        Runs (abySetupS c 0 st0 triples0 init0) (abySetupS c 1 st1 triples1 init1) d0 d1 ∧
        ∀ setup0 setup1, Answers m d0 setup0 → Answers m d1 setup1 →
          ∃ o0 o1, Runs (executeStatic aby2 c 0 (.scalar (merge os t0.own t0.other)) setup0 st0)
              (executeStatic aby2 c 1 (.scalar (merge os t1.other t1.own)) setup1 st1)
              (.scalar o0) (.scalar o1) ∧
            reconstruct o0 o1 = some (c0.outputGates.map fun g => val (0, g))) := by
  intro t0 t1
  have hi : ∀ c ∈ m.circs, c.interactiveCount = c.gates.countP fun g => interactive g := fun c hc => (hb c hc).interactives
  obtain ⟨ls, hls, hx⟩ := astra_static_setup_partial m rank w cmap hcmap hne hi c0 hc0
  obtain ⟨ls1, hls1, hz⟩ := aby_static_setup_partial m rank w cmap hcmap hne hi c0 hc0
  rw [hls] at hls1
  cases hls1
  obtain ⟨it, ls', e1, e2, hy⟩ := static_execute_same_partial m rank w hns cmap hcmap hne c0 hc0 hout
  have : layers m = some ls' := by simp [layers, e1, e2]
  rw [hls] at this
  cases this
  refine ⟨ls, hls, fun hf hs => ?_⟩
  obtain ⟨c, hc, hset', -, -⟩ := hx hf hs
  obtain ⟨c', hc', hex⟩ := hy hf hs
  rw [hc] at hc'
  cases hc'
  obtain ⟨c', hc', hab⟩ := hz hf hs
  rw [hc] at hc'
  cases hc'
  obtain ⟨st0, st1, d0, d1, g0, g1, g2, -, -, g3⟩ := aby2_two_party_correct m rank w hw hns h2 hb c0 hc0 priv0 priv1
    joint owner os ho map0 map1 ops0 ops1 h01 h10 hl0 hl1 val hp triples0 triples1 hset init0 init1
  refine ⟨c, st0, st1, d0, d1, hc, ?_, ?_, ?_, ?_⟩
  · rw [helperGateOutputsS, hset']; exact g0
  · rw [helperGateOutputsS, hset']; exact g1
  · rw [hab, hab]; exact g2
  · intro setup0 setup1 a0 a1
    obtain ⟨o0, o1, hr, hrec⟩ := g3 setup0 setup1 a0 a1
    refine ⟨o0, o1, ?_, hrec⟩
    rw [hex, hex]
    exact hr

/-- **C105, single circuits without a helper.**  Without sub-circuits there is no condition beyond those of the original
circuit. -/
theorem aby2_two_party_static_single (c0 : Base Gate) (rank : Nat → Nat) (h : SingleOk c0 rank) (hg : c0.gates ≠ [])
    (hs : c0.simdSize = none) (h2 : ∀ n, .and n ∈ c0.gates → n = 2)
    (priv0 priv1 joint : Seed) (owner : Nat → Option InputBy) (os : List InputBy)
    (ho : c0.inputGates.map owner = os.map some) (map0 map1 : Nat → Option ShareType)
    (ops0 ops1 : List Op)
    (h01 : (run (.new 1 priv1 joint map1) ops1).received = (run (.new 0 priv0 joint map0) ops0).sent)
    (h10 : (run (.new 0 priv0 joint map0) ops0).received = (run (.new 1 priv1 joint map1) ops1).sent)
    (hl0 : os.count .p0 = (run (.new 0 priv0 joint map0) ops0).bits.length)
    (hl1 : os.count .p1 = (run (.new 1 priv1 joint map1) ops1).bits.length) (val : Node → Bool)
    (hp : PlainEval (.ofBase c0) (merge os (run (.new 0 priv0 joint map0) ops0).bits
      (run (.new 1 priv1 joint map1) ops1).bits) val)
    (triples0 triples1 : Nat → Nat → List Gmw.Triple)
    (hset : ∀ k n, Gmw.Matching (triples0 k n) (triples1 k n) ∧ n ≤ (triples0 k n).length)
    (init0 init1 : Store Bool (List Bool)) :
    let t0 := run (.new 0 priv0 joint map0) ops0
    let t1 := run (.new 1 priv1 joint map1) ops1
    ∃ c st0 st1 d0 d1, precomputeCirc (.ofBase c0) [0] = some c ∧
      helperGateOutputsS c 0 priv0 joint owner = some st0 ∧
      helperGateOutputsS c 1 priv1 joint owner = some st1 ∧
      Runs (abySetupS c 0 st0 triples0 init0) (abySetupS c 1 st1 triples1 init1) d0 d1 ∧
      ∀ setup0 setup1, Answers (.ofBase c0) d0 setup0 → Answers (.ofBase c0) d1 setup1 →
        ∃ o0 o1, Runs (executeStatic aby2 c 0 (.scalar (merge os t0.own t0.other)) setup0 st0)
            (executeStatic aby2 c 1 (.scalar (merge os t1.other t1.own)) setup1 st1)
            (.scalar o0) (.scalar o1) ∧
          reconstruct o0 o1 = some (c0.outputGates.map fun g => val (0, g)) := by
  intro t0 t1
  obtain ⟨ls, -, hx⟩ := aby2_two_party_static_partial (.ofBase c0) _ (single_wf h)
    (single_exec h hs (fun g hb => by cases g <;> simp_all [asBase, interactive])) (single_scalar hs)
    (fun v n hv => by
      simp only [Multi.gate?, Option.bind_eq_bind, Option.bind_eq_some_iff] at hv
      obtain ⟨c, hc, hv⟩ := hv
      obtain ⟨-, rfl⟩ := single_circ hc
      exact h2 n (List.mem_of_getElem? hv))
    (fun c hc => by
      obtain ⟨i, hi⟩ := List.getElem?_of_mem hc
      obtain ⟨-, rfl⟩ := single_circ hi
      exact h.book) c0 rfl (single_outputs h) [0] (single_cmap c0)
    (fun i c' hc => by obtain ⟨-, rfl⟩ := single_circ hc; exact hg)
    priv0 priv1 joint owner os ho map0 map1 ops0 ops1 h01 h10 hl0 hl1 val hp triples0 triples1 hset init0 init1
  exact hx (single_first _) (single_same _)

/-- The conditions hold of the circuit with a sub-circuit of C39, which is precomputed with two circuits: with any
seeds the parties compute `(x & y) ^ z`. -/
example (priv0 priv1 joint : Seed) (x y z : Bool) (init0 init1 : Store Bool (List Bool)) :
    ∃ c st0 st1 d0 d1, precomputeCirc callCirc [0, 1] = some c ∧
      helperGateOutputsS c 0 priv0 joint callOwner = some st0 ∧
      helperGateOutputsS c 1 priv1 joint callOwner = some st1 ∧
      Runs (abySetupS c 0 st0 (exTriples 0) init0) (abySetupS c 1 st1 (exTriples 1) init1) d0 d1 ∧
      ∀ setup0 setup1, Answers callCirc d0 setup0 → Answers callCirc d1 setup1 →
        ∃ xs0 xs1 o0 o1, Runs (executeStatic aby2 c 0 (.scalar xs0) setup0 st0)
            (executeStatic aby2 c 1 (.scalar xs1) setup1 st1) (.scalar o0) (.scalar o1) ∧
          reconstruct o0 o1 = some [(x && y) ^^ z] := by
  obtain ⟨hcm, hne, ls, hls, hf, hs⟩ := callCirc_static
  let ops0 : List Op := [.share [x], .receive [y ^^ priv1 0 0 ^^ joint 1 0, z ^^ priv1 0 1 ^^ joint 1 1]]
  let ops1 : List Op := [.receive [x ^^ priv0 0 0 ^^ joint 0 0], .share [y, z]]
  obtain ⟨ls', hls', h⟩ := aby2_two_party_static_partial callCirc callRank callCirc_wf
    callCirc_exec.2 callCirc_exec.1 callCirc_and callCirc_book callMain rfl
    (by intro g hg; exact ⟨callMain, rfl, by revert g; decide⟩) [0, 1] hcm hne priv0 priv1 joint callOwner
    [.p0, .p1, .p1] rfl (fun _ => none) (fun _ => none) ops0 ops1 rfl rfl rfl rfl (callVal x y z)
    (callCirc_plain x y z) (exTriples 0) (exTriples 1) exTriples_ok init0 init1
  rw [hls] at hls'
  cases hls'
  obtain ⟨c, st0, st1, d0, d1, hc, g0, g1, g2, g3⟩ := h hf hs
  refine ⟨c, st0, st1, d0, d1, hc, g0, g1, g2, fun setup0 setup1 a0 a1 => ?_⟩
  obtain ⟨o0, o1, hr, hrec⟩ := g3 setup0 setup1 a0 a1
  exact ⟨_, _, o0, o1, hr, hrec⟩

end Verif.Aby2
