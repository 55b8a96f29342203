import Verif.Aby2.PrecomputedTwo
import Verif.Tensor.Witness

/-!
C106: Boolean ABY2 with matrices on circuits with precomputed layers (`ExecutableCircuit::StaticLayers`): the masks,
`AbySetupProvider::setup` and the execution.
-/
set_option autoImplicit false

namespace Verif.Tensor

open Gmw (BoolGate BaseGate Triple Matching)
open Circuit Exec Proc Secret
open Mail (mapB)
open Aby2 (layers interactiveNodes iterNodes mapSt readOutputs merge InputBy ShareType shareType Answers withParents
  interactiveWithParents interactiveGatesS exTriples exTriples_ok)

/-! ### Model -/

/-- tensor_aby2.rs:237-250: one gate of the loop, with the operands the iterator gives. -/
def setupEntry {σ : Type} (gen : Gen σ) (sh : Exec.Shape) (s : Sharing σ) (st : Store TShare (List TShare))
    (e : Entry TGate) : Option (Sharing σ × Store TShare (List TShare)) := do
  let xs ← e.2.mapM (sh.get st)
  match s.map e.1.2.2 with
  | some .remote => do
    let (o, r) ← setupOutputShare gen e.1.1 xs s.remoteJoint
    let st ← sh.put st e.1.2 o
    pure ({ s with remoteJoint := r }, st)
  | _ => do
    let (o, r) ← setupOutputShare gen e.1.1 xs s.priv
    let st ← sh.put st e.1.2 o
    pure ({ s with priv := r }, st)

/-- tensor_aby2.rs:237-250: the loop. -/
def setupEntries {σ : Type} (gen : Gen σ) (sh : Exec.Shape) : Sharing σ → Store TShare (List TShare) →
    List (Entry TGate) → Option (Sharing σ × Store TShare (List TShare))
  | s, st, [] => some (s, st)
  | s, st, e :: es => do
    let (s, st) ← setupEntry gen sh s st e
    setupEntries gen sh s st es

/-- tensor_aby2.rs:222-254 `setup_gate_outputs` for precomputed layers. -/
def setupGateOutputsS {σ : Type} (gen : Gen σ) (c : SCirc TGate) (s : Sharing σ) :
    Option (Store TShare (List TShare)) := do
  let sh ← c.shape
  if sh.all (fun x => x.2.isNone) then do
    let es ← withParents c.core
    (setupEntries gen sh s emptyStore es).map (·.2)
  else none

/-- tensor_aby2.rs:909-929: one interactive gate of the loop, with the operands the iterator gives. -/
def setupGateS {α : Type} (mask : Node → Option (List α)) (s : SetupBuild α) (e : Entry TGate) :
    Option (SetupBuild α × List Sec) := do
  let g ← e.1.1.op?
  let (s, xs) ← mapSt (operand mask) s e.2
  let (b, t) ← setupCirc s.b g xs
  pure ({ s with b }, t)

/-- tensor_aby2.rs:897-935: the setup circuit, the inputs for it, and the output gates of each interactive gate. -/
def buildSetupS {α : Type} (mask : Node → Option (List α)) (es : List (Entry TGate)) :
    Option (Base Gmw.BoolGate × List α × List (List Sec)) := do
  let (s, ts) ← mapSt (setupGateS mask) (.new α) es
  let (b, outs) ← mapB (fun b t => mapB (fun b x => output b x) b t) s.b ts
  let c ← b[0]?
  pure (c, s.inputs, outs)

/-- tensor_aby2.rs:887-980 `AbySetupProvider::setup` of one party on a `StaticLayers` circuit; the arguments are those
of `tensorSetup`. -/
def tensorSetupS (c : SCirc TGate) (party : Nat) (st : Store TShare (List TShare))
    (triples : Nat → Nat → List Gmw.Triple) (init : Store Bool (List Bool)) :
    Proc (Gmw.Msg × Option Gmw.SimdMsg) SetupData :=
  match (do
    let sh ← c.shape
    let gs ← interactiveGatesS c.core
    let es ← interactiveWithParents c.core
    let b ← buildSetupS (fun p => (sh.get st p).map fun (s : TShare) => s.getPrivate.flatten) es
    pure (gs, b)) with
  | none => .fail
  | some (gs, s, inputs, outs) =>
    (execute gmw (.ofBase s) party (.scalar inputs) triples init).andThen fun o =>
      match o with
      | Input.scalar l => do
        let bits ← readOutputs s outs l
        let shares ← (gs.zip bits).mapM fun (p : (TGate × Node) × List Bool) => evalShare (some p.1.1) p.2
        pure shares.reverse
      | Input.simd _ => none

/-! ### The same setup -/

section
variable {m : Multi TGate} {sh : Exec.Shape}

theorem setupEntry_eq {σ : Type} (gen : Gen σ) (hsh : ShapeOk m sh) (hp : ∀ v, ∀ u ∈ m.parents v, m.Valid u)
    (s : Sharing σ) (st : Store TShare (List TShare)) (v : Node) (g : TGate) (hg : m.gate? v = some g)
    (hv : m.Valid v) : setupEntry gen sh s st ((g, v), m.parents v) = setupNode gen m s st v := by
  unfold setupEntry setupNode
  rw [hg, mapM_congr' fun u hu => hsh.get (hp v u hu) st]
  simp only [hsh.put hv, Option.bind_eq_bind, Option.bind_some]
  rfl

theorem entry_cons {v : Node} (hv : m.Valid v) : ∃ g, m.gate? v = some g ∧
    ∀ vs, (v :: vs).filterMap (entryOf m) = ((g, v), m.parents v) :: vs.filterMap (entryOf m) := by
  obtain ⟨c, hc, hl⟩ := hv
  have hg : m.gate? v = some c.gates[v.2] := by simp [Multi.gate?, hc, hl]
  refine ⟨c.gates[v.2], hg, fun vs => ?_⟩
  rw [List.filterMap_cons_some (show entryOf m v = some ((c.gates[v.2], v), m.parents v) by rw [entryOf, hg]; rfl)]

theorem setupEntries_eq {σ : Type} (gen : Gen σ) (hsh : ShapeOk m sh) (hp : ∀ v, ∀ u ∈ m.parents v, m.Valid u)
    (vs : List Node) (hv : ∀ v ∈ vs, m.Valid v) (s : Sharing σ) (st : Store TShare (List TShare)) :
    setupEntries gen sh s st (vs.filterMap (entryOf m)) = setupNodes gen m s st vs := by
  induction vs generalizing s st with
  | nil => rfl
  | cons v vs ih =>
    have hvv := hv v List.mem_cons_self
    obtain ⟨g, hg, hc⟩ := entry_cons hvv
    rw [hc]
    simp only [setupEntries, setupNodes, setupEntry_eq gen hsh hp s st v g hg hvv]
    congr 1
    funext x
    exact ih (fun u hu => hv u (List.mem_cons_of_mem _ hu)) _ _

theorem setupGates_eq {α : Type} {mask mask' : Node → Option (List α)}
    (hp : ∀ v, ∀ u ∈ m.parents v, mask u = mask' u) (vs : List Node) (hv : ∀ v ∈ vs, m.Valid v) (s : SetupBuild α) :
    mapSt (setupGateS mask) s (vs.filterMap (entryOf m)) = mapSt (setupGate m mask') s vs := by
  induction vs generalizing s with
  | nil => rfl
  | cons v vs ih =>
    obtain ⟨g, hg, hc⟩ := entry_cons (hv v List.mem_cons_self)
    rw [hc]
    have h1 : setupGateS mask s ((g, v), m.parents v) = setupGate m mask' s v := by
      simp only [setupGateS, setupGate, hg, Option.bind_eq_bind, Option.bind_some]
      congr 1
      funext g
      rw [Aby2.mapSt_congr (g := operand mask') _ _ fun u hu s => by simp only [operand, hp v u hu]]
    simp only [mapSt, h1]
    congr 1
    funext y
    rw [ih fun u hu => hv u (List.mem_cons_of_mem _ hu)]

theorem evalShares_eq (vs : List Node) (hv : ∀ v ∈ vs, m.Valid v) (bits : List (List Bool)) :
    ((((vs.filterMap (entryOf m)).map (·.1)).zip bits).mapM fun p => evalShare (some p.1.1) p.2) =
      ((vs.zip bits).mapM fun p => evalShare (m.gate? p.1) p.2) := by
  induction vs generalizing bits with
  | nil => rfl
  | cons v vs ih =>
    obtain ⟨g, hg, hc⟩ := entry_cons (hv v List.mem_cons_self)
    rw [hc]
    cases bits with
    | nil => rfl
    | cons b bits =>
      simp only [List.map_cons, List.zip_cons_cons, List.mapM_cons, hg,
        ih (fun u hu => hv u (List.mem_cons_of_mem _ hu)) bits]

end

/-- What the setup reads of a precomputed circuit. -/
theorem static_data {G : Type} [GateLike G] [DecidableEq G] (m : Multi G) (rank : Node → Nat) (w : WF m rank)
    (cmap : List Nat) (hcmap : CMapOk m cmap) (hne : NoEmpty m)
    (hb : ∀ c ∈ m.circs, c.interactiveCount = c.gates.countP fun g => GateLike.interactive g) (c0 : Base G)
    (hc0 : m.circs[0]? = some c0) :
    ∃ ls, layers m = some ls ∧ LayersOk m ls ∧ (FirstUseInOrder cmap ls.flatten → SameLayers cmap ls.flatten →
      ∃ c sh, precomputeCirc m cmap = some c ∧ c.shape = some sh ∧ ShapeOk m sh ∧
        sh.all (fun x => x.2.isNone) = m.circs.all (fun c => c.simdSize.isNone) ∧
        withParents c.core = some ((iterNodes ls).filterMap (entryOf m)) ∧
        interactiveWithParents c.core = some ((interactiveNodes m ls).filterMap (entryOf m)) ∧
        interactiveGatesS c.core = some (((interactiveNodes m ls).filterMap (entryOf m)).map (·.1))) := by
  obtain ⟨it, ls, e1, e2, ok, hx⟩ := static_parts m rank w cmap hcmap hne c0 hc0
  have hls : layers m = some ls := by simp [layers, e1, e2]
  refine ⟨ls, hls, ok, fun hf hs => ?_⟩
  obtain ⟨c, sh, hpre, hsh, hok, -⟩ := hx hf hs
  obtain ⟨ls', hls', -, hy⟩ := Aby2.static_iterators_same_partial m rank w cmap hcmap hne hb
  rw [hls] at hls'
  cases hls'
  obtain ⟨s, es, is, hp, h1, h2, h3, h4, -, hg, -, -, -, -, -⟩ := hy hf hs
  have hcs : c = ⟨s, c0.inputGates, c0.outputGates⟩ := by
    simp only [precomputeCirc, hc0, e1, e2, hp, Option.bind_eq_bind, Option.bind_some, Option.pure_def,
      Option.some.injEq] at hpre
    exact hpre.symm
  subst hcs
  have his : is = (interactiveNodes m ls).filterMap (entryOf m) := by
    have := (Aby2.static_views s m ls (fun l hl => (Circuit.collect_ids m _ it ls e2 l hl).2) ?_).2
    · rw [h2, ← Aby2.interactiveNodes_eq m ls ok.local_ ok.inter] at this
      exact Option.some.inj this
    · obtain ⟨s', hp', hviews, -⟩ := static_layers_core m rank w cmap hcmap it ls _ e2 ok hf hs
      rw [hp] at hp'
      cases hp'
      exact hviews false false
  refine ⟨_, sh, hpre, hsh, hok, ?_, by rw [h1, h3]; rfl, by rw [h2, his], by rw [hg, his]⟩
  have : sh = m.circs.map fun c => (c.gates.length, c.simdSize) := by
    apply List.ext_getElem?
    intro i
    rw [List.getElem?_map]
    cases hi : m.circs[i]? with
    | none => rw [Option.map_none, List.getElem?_eq_none_iff, hok.len]; exact List.getElem?_eq_none_iff.1 hi
    | some d => rw [hok.cells i d hi]; rfl
  rw [this, List.all_map]
  rfl

/-- **C106, setup.**  `setup_gate_outputs` and `AbySetupProvider::setup` are the same on the circuit and on its
precomputed layers, for all generators, gate outputs, triples and initial gate outputs.  Partial: the conditions of
C47, and no circuit is empty. -/
theorem tensor_static_setup_partial (m : Multi TGate) (rank : Node → Nat) (w : WF m rank) (cmap : List Nat)
    (hcmap : CMapOk m cmap) (hne : NoEmpty m)
    (hb : ∀ c ∈ m.circs, c.interactiveCount = c.gates.countP fun g => GateLike.interactive g) (c0 : Base TGate)
    (hc0 : m.circs[0]? = some c0) :
    ∃ ls, layers m = some ls ∧ (FirstUseInOrder cmap ls.flatten → SameLayers cmap ls.flatten →
      ∃ c, precomputeCirc m cmap = some c ∧
        (∀ (σ : Type) (gen : Gen σ) s, setupGateOutputsS gen c s = setupGateOutputs gen m s) ∧
        ∀ party st triples init, tensorSetupS c party st triples init = tensorSetup m party st triples init) := by
  obtain ⟨ls, hls, ok, hx⟩ := static_data m rank w cmap hcmap hne hb c0 hc0
  refine ⟨ls, hls, fun hf hs => ?_⟩
  obtain ⟨c, sh, hpre, hsh, hok, hall, h1, h2, h3⟩ := hx hf hs
  have hv : ∀ v ∈ iterNodes ls, m.Valid v := fun v hv => (ok.all v).1 ((Aby2.iterNodes_perm ls).mem_iff.1 hv)
  have hvi : ∀ v ∈ interactiveNodes m ls, m.Valid v := fun v h => hv v (List.mem_of_mem_filter h)
  refine ⟨c, hpre, fun σ gen s => ?_, fun party st triples init => ?_⟩
  · simp only [setupGateOutputsS, setupGateOutputs, hsh, hls, hall, h1, Option.bind_eq_bind, Option.bind_some]
    rw [setupEntries_eq gen hok (parents_valid w) _ hv s emptyStore]
  · have hbuild : buildSetupS (fun p => (sh.get st p).map fun (s : TShare) => s.getPrivate.flatten)
          ((interactiveNodes m ls).filterMap (entryOf m)) =
        buildSetup m (fun p => (st.get m p).map fun (s : TShare) => s.getPrivate.flatten) (interactiveNodes m ls) := by
      have := setupGates_eq (m := m) (mask := fun p => (sh.get st p).map fun (s : TShare) => s.getPrivate.flatten)
        (mask' := fun p => (st.get m p).map fun (s : TShare) => s.getPrivate.flatten)
        (fun v u hu => by simp only [hok.get (parents_valid w v u hu) st]) (interactiveNodes m ls) hvi (.new Bool)
      rw [buildSetupS, buildSetup, this]
    simp only [tensorSetupS, tensorSetup, hsh, hls, h2, h3, Option.bind_eq_bind, Option.bind_some, hbuild]
    cases buildSetup m (fun p => (st.get m p).map fun (s : TShare) => s.getPrivate.flatten) (interactiveNodes m ls) with
    | none => rfl
    | some b =>
      obtain ⟨b, inputs, outs⟩ := b
      simp only [Option.bind_some, Option.pure_def, evalShares_eq _ hvi]
      rfl

/-- **C106, C82 with precomputed layers.**  Two parties run Boolean ABY2 with matrices on the precomputed circuit as in
`tensor_two_party_correct`: under every schedule the setup and the execution finish, and the outputs reconstruct to
the plaintext values.  Partial: the conditions of C47, and no circuit is empty. -/
theorem tensor_static_correct_partial {σ : Type} (gen : Gen σ) (m : Multi TGate) (rank : Node → Nat)
    (w : WF m rank) (hw : ExecWF m) (hns : ∀ i, isSimd m i = false) (hb : ∀ c ∈ m.circs, BookOk c)
    (c0 : Base TGate) (hc0 : m.circs[0]? = some c0) (hout : ∀ g ∈ c0.outputGates, m.Valid (0, g))
    (cmap : List Nat) (hcmap : CMapOk m cmap) (hne : NoEmpty m) (p0 p1 j0 j1 : σ)
    (owner : Nat → Option InputBy) (os : List InputBy) (ho : c0.inputGates.map owner = os.map some)
    (x0 x1 : List PShare) (hl0 : os.count .p0 = x0.length) (hl1 : os.count .p1 = x1.length)
    (val : Node → PShare) (hp : PlainEval m (merge os x0 x1) val)
    (triples0 triples1 : Nat → Nat → List Triple)
    (hset : ∀ k n, Matching (triples0 k n) (triples1 k n) ∧ n ≤ (triples0 k n).length)
    (init0 init1 : Store Bool (List Bool)) :
    ∃ ls, layers m = some ls ∧ (FirstUseInOrder cmap ls.flatten → SameLayers cmap ls.flatten →
      ∃ c own0 own1 msg0 msg1 other0 other1 st0 st1 d0 d1, precomputeCirc m cmap = some c ∧
        shareTensor gen x0 p0 j0 = some (own0, msg0) ∧ shareTensor gen x1 p1 j1 = some (own1, msg1) ∧
        plainDeltaToShare gen msg1 j1 = some other0 ∧ plainDeltaToShare gen msg0 j0 = some other1 ∧
        setupGateOutputsS gen c ⟨p0, j1, fun i => (owner i).map (shareType 0)⟩ = some st0 ∧
        setupGateOutputsS gen c ⟨p1, j0, fun i => (owner i).map (shareType 1)⟩ = some st1 ∧
        Runs (tensorSetupS c 0 st0 triples0 init0) (tensorSetupS c 1 st1 triples1 init1) d0 d1 ∧
        ∀ setup0 setup1, Answers m d0 setup0 → Answers m d1 setup1 →
          ∃ o0 o1, Runs (executeStatic tensorAby2 c 0 (.scalar (merge os own0 other0)) setup0 st0)
              (executeStatic tensorAby2 c 1 (.scalar (merge os other1 own1)) setup1 st1)
              (.scalar o0) (.scalar o1) ∧
            reconstruct o0 o1 = some (c0.outputGates.map fun g => val (0, g))) := by
  obtain ⟨ls, hls, hx⟩ := tensor_static_setup_partial m rank w cmap hcmap hne (fun c hc => (hb c hc).interactives) c0 hc0
  obtain ⟨it, ls', e1, e2, hy⟩ := static_execute_same_partial m rank w hns cmap hcmap hne c0 hc0 hout
  have : layers m = some ls' := by simp [layers, e1, e2]
  rw [hls] at this
  cases this
  refine ⟨ls, hls, fun hf hs => ?_⟩
  obtain ⟨c, hc, hset', hab⟩ := hx hf hs
  obtain ⟨c', hc', hex⟩ := hy hf hs
  rw [hc] at hc'
  cases hc'
  obtain ⟨own0, own1, msg0, msg1, other0, other1, st0, st1, d0, d1, a1, a2, a3, a4, a5, a6, a7, -, -, a8⟩ :=
    tensor_two_party_correct gen m rank w hw hns hb c0 hc0 p0 p1 j0 j1 owner os ho x0 x1 hl0 hl1 val hp triples0
      triples1 hset init0 init1
  refine ⟨c, own0, own1, msg0, msg1, other0, other1, st0, st1, d0, d1, hc, a1, a2, a3, a4, by rw [hset']; exact a5,
    by rw [hset']; exact a6, by rw [hab, hab]; exact a7, fun setup0 setup1 u0 u1 => ?_⟩
  obtain ⟨o0, o1, hr, hrec⟩ := a8 setup0 setup1 u0 u1
  refine ⟨o0, o1, ?_, hrec⟩
  rw [hex, hex]
  exact hr

/-- **C106, single circuits.**  Without sub-circuits there is no condition beyond those of the original circuit. -/
theorem tensor_static_single {σ : Type} (gen : Gen σ) (c0 : Base TGate) (rank : Nat → Nat) (h : SingleOk c0 rank)
    (hg : c0.gates ≠ []) (hs : c0.simdSize = none) (p0 p1 j0 j1 : σ)
    (owner : Nat → Option InputBy) (os : List InputBy) (ho : c0.inputGates.map owner = os.map some)
    (x0 x1 : List PShare) (hl0 : os.count .p0 = x0.length) (hl1 : os.count .p1 = x1.length)
    (val : Node → PShare) (hp : PlainEval (.ofBase c0) (merge os x0 x1) val)
    (triples0 triples1 : Nat → Nat → List Triple)
    (hset : ∀ k n, Matching (triples0 k n) (triples1 k n) ∧ n ≤ (triples0 k n).length)
    (init0 init1 : Store Bool (List Bool)) :
    ∃ c own0 own1 msg0 msg1 other0 other1 st0 st1 d0 d1, precomputeCirc (.ofBase c0) [0] = some c ∧
      shareTensor gen x0 p0 j0 = some (own0, msg0) ∧ shareTensor gen x1 p1 j1 = some (own1, msg1) ∧
      plainDeltaToShare gen msg1 j1 = some other0 ∧ plainDeltaToShare gen msg0 j0 = some other1 ∧
      setupGateOutputsS gen c ⟨p0, j1, fun i => (owner i).map (shareType 0)⟩ = some st0 ∧
      setupGateOutputsS gen c ⟨p1, j0, fun i => (owner i).map (shareType 1)⟩ = some st1 ∧
      Runs (tensorSetupS c 0 st0 triples0 init0) (tensorSetupS c 1 st1 triples1 init1) d0 d1 ∧
      ∀ setup0 setup1, Answers (.ofBase c0) d0 setup0 → Answers (.ofBase c0) d1 setup1 →
        ∃ o0 o1, Runs (executeStatic tensorAby2 c 0 (.scalar (merge os own0 other0)) setup0 st0)
            (executeStatic tensorAby2 c 1 (.scalar (merge os other1 own1)) setup1 st1)
            (.scalar o0) (.scalar o1) ∧
          reconstruct o0 o1 = some (c0.outputGates.map fun g => val (0, g)) := by
  obtain ⟨ls, -, hx⟩ := tensor_static_correct_partial gen (.ofBase c0) _ (single_wf h)
    (single_exec h hs (by
      intro g hg
      cases g with
      | base b d => rfl
      | op g => simp [GateLike.asBase] at hg)) (single_scalar hs)
    (fun c hc => by
      obtain ⟨i, hi⟩ := List.getElem?_of_mem hc
      obtain ⟨-, rfl⟩ := single_circ hi
      exact h.book) c0 rfl (single_outputs h) [0] (single_cmap c0)
    (fun i c' hc => by obtain ⟨-, rfl⟩ := single_circ hc; exact hg)
    p0 p1 j0 j1 owner os ho x0 x1 hl0 hl1 val hp triples0 triples1 hset init0 init1
  exact hx (single_first _) (single_same _)

/-- The conditions hold of the circuit of C82's example, with two products of matrices: with any generators and seeds
the parties compute `(a b) b` and `(x & y) ^ x` on the precomputed layers. -/
example {σ : Type} (gen : Gen σ) (p0 p1 j0 j1 : σ) (a b : Bitmat.BitMatrix) (ha : IsMat 2 4 a)
    (hb : IsMat 4 4 b) (x y : Bool) (init0 init1 : Store Bool (List Bool)) :
    ∃ c st0 st1 d0 d1, precomputeCirc exCirc [0] = some c ∧
      Runs (tensorSetupS c 0 st0 (exTriples 0) init0) (tensorSetupS c 1 st1 (exTriples 1) init1) d0 d1 ∧
      ∀ setup0 setup1, Answers exCirc d0 setup0 → Answers exCirc d1 setup1 →
        ∃ xs0 xs1 o0 o1, Runs (executeStatic tensorAby2 c 0 (.scalar xs0) setup0 st0)
            (executeStatic tensorAby2 c 1 (.scalar xs1) setup1 st1) (.scalar o0) (.scalar o1) ∧
          reconstruct o0 o1 =
            some [.matrix (prodMat 2 4 (prodMat 2 4 a b) b), .scalar ((x && y) ^^ x)] := by
  obtain ⟨c, own0, own1, msg0, msg1, other0, other1, st0, st1, d0, d1, hc, -, -, -, -, -, -, hs, h⟩ :=
    tensor_static_single gen exBase _ exBase_ok (by simp [exBase]) rfl p0 p1 j0 j1
      (fun i => if i = 0 ∨ i = 2 then some .p0 else if i = 1 ∨ i = 3 then some .p1 else none)
      [.p0, .p1, .p0, .p1] rfl [.matrix a, .scalar x] [.matrix b, .scalar y] rfl rfl
      (exVal a b x y) (exCirc_plain ha hb x y) (exTriples 0) (exTriples 1) exTriples_ok init0 init1
  refine ⟨c, st0, st1, d0, d1, hc, hs, fun setup0 setup1 u0 u1 => ?_⟩
  obtain ⟨o0, o1, hr, hrec⟩ := h setup0 setup1 u0 u1
  exact ⟨_, _, o0, o1, hr, hrec⟩

end Verif.Tensor
