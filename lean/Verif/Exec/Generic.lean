import Verif.Exec.FreeLemmas
import Verif.Proc.Lemmas
import Verif.Circuit.Props

/-!
Two executors on the same circuit: if the protocol keeps an invariant between the shares of the
two parties at each gate, the outputs satisfy the invariant, under every schedule.
-/
set_option autoImplicit false

namespace Verif.Exec

open Circuit Proc

variable {G : Type} [GateLike G] {S V M MS T : Type}

/-- Typing of wires with respect to scalar and simd circuits, and the condition under which freeing
simd values is safe. -/
structure ExecWF (m : Multi G) : Prop where
  /-- Input gates are in the main circuit and registered. -/
  inputs : ∀ v g, m.gate? v = some g → asBase g = some .input →
    v.1 = 0 ∧ ∃ c : Base G, m.circs[0]? = some c ∧ v.2 ∈ c.inputGates
  /-- simd sizes are not zero (`NonZeroUsize`). -/
  lanesPos : ∀ (i : Nat) (c : Base G), m.circs[i]? = some c → c.simdSize ≠ some 0
  scInput : ∀ v g, m.gate? v = some g → asBase g = some .subCircuitInput →
    (isSimd m 0 = true → isSimd m v.1 = true) ∧ ∀ u ∈ m.parents v, isSimd m u.1 = isSimd m 0
  fromSimd : ∀ v g k, m.gate? v = some g → asBase g = some (.connectToMainFromSimd k) →
    isSimd m v.1 = false ∧ ∃ p, m.parents v = [p] ∧ isSimd m p.1 = true
  other : ∀ v g, m.gate? v = some g → asBase g ≠ some .subCircuitInput →
    (∀ k, asBase g ≠ some (.connectToMainFromSimd k)) → ∀ u ∈ m.parents v, isSimd m u.1 = isSimd m v.1
  /-- Operands of interactive gates come from circuits with the same number of lanes. -/
  sameLanes : ∀ v u g, m.gate? v = some g → interactive g = true → u ∈ m.parents v →
    lanes m u.1 = lanes m v.1
  intBase : ∀ v g, m.gate? v = some g → interactive g = true → asBase g ≠ some .subCircuitInput ∧
    ∀ k, asBase g ≠ some (.connectToMainFromSimd k)
  outputsValid : ∀ c : Base G, m.circs[0]? = some c → ∀ g ∈ c.outputGates, m.Valid (0, g)
  /-- A simd gate with consumers in its own circuit feeds no other circuit. -/
  freeCross : ∀ u v, isSimd m u.1 = true → inChildren m u ≠ [] → u ∉ m.incoming v
  /-- Output gates have no consumers. -/
  freeOut : ∀ c : Base G, m.circs[0]? = some c → isSimd m 0 = true → ∀ g ∈ c.outputGates,
    inChildren m (0, g) = []

/-- The part of `ExecWF` which does not concern the freeing of gates. -/
structure ExecBase (m : Multi G) : Prop where
  /-- Input gates are in the main circuit and registered. -/
  inputs : ∀ v g, m.gate? v = some g → asBase g = some .input →
    v.1 = 0 ∧ ∃ c : Base G, m.circs[0]? = some c ∧ v.2 ∈ c.inputGates
  /-- simd sizes are not zero (`NonZeroUsize`). -/
  lanesPos : ∀ (i : Nat) (c : Base G), m.circs[i]? = some c → c.simdSize ≠ some 0
  scInput : ∀ v g, m.gate? v = some g → asBase g = some .subCircuitInput →
    (isSimd m 0 = true → isSimd m v.1 = true) ∧ ∀ u ∈ m.parents v, isSimd m u.1 = isSimd m 0
  fromSimd : ∀ v g k, m.gate? v = some g → asBase g = some (.connectToMainFromSimd k) →
    isSimd m v.1 = false ∧ ∃ p, m.parents v = [p] ∧ isSimd m p.1 = true
  other : ∀ v g, m.gate? v = some g → asBase g ≠ some .subCircuitInput →
    (∀ k, asBase g ≠ some (.connectToMainFromSimd k)) → ∀ u ∈ m.parents v, isSimd m u.1 = isSimd m v.1
  /-- Operands of interactive gates come from circuits with the same number of lanes. -/
  sameLanes : ∀ v u g, m.gate? v = some g → interactive g = true → u ∈ m.parents v →
    lanes m u.1 = lanes m v.1
  intBase : ∀ v g, m.gate? v = some g → interactive g = true → asBase g ≠ some .subCircuitInput ∧
    ∀ k, asBase g ≠ some (.connectToMainFromSimd k)
  outputsValid : ∀ c : Base G, m.circs[0]? = some c → ∀ g ∈ c.outputGates, m.Valid (0, g)

theorem ExecWF.base {m : Multi G} (h : ExecWF m) : ExecBase m :=
  ⟨h.inputs, h.lanesPos, h.scInput, h.fromSimd, h.other, h.sameLanes, h.intBase, h.outputsValid⟩

/-- None of the gates is used by another circuit or is an output of the main circuit. -/
def FreeCond (m : Multi G) (F : List Node) : Prop :=
  ∀ u ∈ F, (∀ v, u ∉ m.incoming v) ∧ ∀ c : Base G, m.circs[0]? = some c → u.1 = 0 → u.2 ∉ c.outputGates

/-- Layers in which messages are exchanged. -/
def interactiveLayers (m : Multi G) (ls : List MLayer) : List MLayer :=
  ls.filter fun l => intCount m l ≠ 0

/-- The joint invariant of a protocol: `R` relates the shares of a scalar gate, `RV` those of a simd
gate. -/
structure Sound (pr : Protocol G S V M MS T) (m : Multi G) (inp0 inp1 : Input S V)
    (setup0 setup1 : Nat → Nat → T) (init0 init1 : Store S V) (R : Node → S → S → Prop)
    (RV : Node → V → V → Prop)
    (Q : MLayer → M × Option MS → M × Option MS → Prop) (ls : List MLayer) : Prop where
  const : ∀ v g val, m.gate? v = some g → asBase g = some (.constant val) → isSimd m v.1 = false →
    R v (pr.shareConstant 0 (init0.sc v) val) (pr.shareConstant 1 (init1.sc v) val)
  constSimd : ∀ v g val, m.gate? v = some g → asBase g = some (.constant val) →
    isSimd m v.1 = true →
    RV v (pr.shareConstantSimd 0 (init0.ve v) val (lanes m v.1))
      (pr.shareConstantSimd 1 (init1.ve v) val (lanes m v.1))
  input : isSimd m 0 = false → ∃ xs0 xs1, inp0 = .scalar xs0 ∧ inp1 = .scalar xs1 ∧
    ∀ (c : Base G) i g, m.circs[0]? = some c → c.inputGates.findIdx? (· = g) = some i →
      ∀ gate, m.gate? (0, g) = some gate → asBase gate = some .input →
      ∃ x0 x1 z0 z1, xs0[i]? = some x0 ∧ xs1[i]? = some x1 ∧
        pr.evalLocal 0 gate [x0] = some z0 ∧ pr.evalLocal 1 gate [x1] = some z1 ∧ R (0, g) z0 z1
  inputSimd : isSimd m 0 = true → ∃ xs0 xs1, inp0 = .simd xs0 ∧ inp1 = .simd xs1 ∧
    ∀ (c : Base G) i g, m.circs[0]? = some c → c.inputGates.findIdx? (· = g) = some i →
      ∀ gate, m.gate? (0, g) = some gate → asBase gate = some .input →
      ∃ x0 x1 z0 z1, xs0[i]? = some x0 ∧ xs1[i]? = some x1 ∧
        pr.evalLocalSimd 0 gate [x0] = some z0 ∧ pr.evalLocalSimd 1 gate [x1] = some z1 ∧
        RV (0, g) z0 z1
  localGate : ∀ v g, m.gate? v = some g → interactive g = false → isSimd m v.1 = false →
    asBase g ≠ some .input → (∀ x, asBase g ≠ some (.constant x)) →
    (∀ k, asBase g ≠ some (.connectToMainFromSimd k)) →
    ∀ f0 f1 : Node → S, (∀ u ∈ m.parents v, R u (f0 u) (f1 u)) →
    ∃ z0 z1, pr.evalLocal 0 g ((m.parents v).map f0) = some z0 ∧
      pr.evalLocal 1 g ((m.parents v).map f1) = some z1 ∧ R v z0 z1
  localSimd : ∀ v g, m.gate? v = some g → interactive g = false → isSimd m v.1 = true →
    asBase g ≠ some .input → (∀ x, asBase g ≠ some (.constant x)) →
    (asBase g = some .subCircuitInput → isSimd m 0 = true) →
    ∀ f0 f1 : Node → V, (∀ u ∈ m.parents v, RV u (f0 u) (f1 u)) →
    ∃ z0 z1, pr.evalLocalSimd 0 g ((m.parents v).map f0) = some z0 ∧
      pr.evalLocalSimd 1 g ((m.parents v).map f1) = some z1 ∧ RV v z0 z1
  pack : ∀ v g, m.gate? v = some g → asBase g = some .subCircuitInput → isSimd m 0 = false →
    isSimd m v.1 = true →
    ∀ f0 f1 : Node → S, (∀ u ∈ m.parents v, R u (f0 u) (f1 u)) →
    RV v (pr.collect ((m.parents v).map f0)) (pr.collect ((m.parents v).map f1))
  unpack : ∀ v g k p, m.gate? v = some g → asBase g = some (.connectToMainFromSimd k) →
    m.parents v = [p] → ∀ x0 x1, RV p x0 x1 →
    ∃ z0 z1, pr.get x0 k = some z0 ∧ pr.get x1 k = some z1 ∧ R v z0 z1
  layer : ∀ k l, (interactiveLayers m ls)[k]? = some l →
    ∀ gs hs, (intScalar m l).mapM m.gate? = some gs → (intSimd m l).mapM m.gate? = some hs →
    ∀ (f0 f1 : Node → S) (h0 h1 : Node → V),
    (∀ v ∈ intScalar m l, ∀ u ∈ m.parents v, R u (f0 u) (f1 u)) →
    (∀ v ∈ intSimd m l, ∀ u ∈ m.parents v, RV u (h0 u) (h1 u)) →
    ∃ a0 a1 t0 t1 z0 z1 r0 r1,
      pr.computeMsg 0 gs ((intScalar m l).map init0.sc)
        ((intScalar m l).map fun v => (m.parents v).map f0).flatten (setup0 k (intCount m l)) =
        some (a0, t0) ∧
      pr.computeMsg 1 gs ((intScalar m l).map init1.sc)
        ((intScalar m l).map fun v => (m.parents v).map f1).flatten (setup1 k (intCount m l)) =
        some (a1, t1) ∧
      z0.length = (intScalar m l).length ∧ z1.length = (intScalar m l).length ∧
      (∀ (i : Nat) v x0 x1, (intScalar m l)[i]? = some v → z0[i]? = some x0 → z1[i]? = some x1 →
        R v x0 x1) ∧
      if pr.simd then
        ∃ b0 b1 t0' t1' w0 w1 r0' r1',
        pr.computeMsgSimd 0 hs ((intSimd m l).map init0.ve)
          ((intSimd m l).map fun v => (m.parents v).map h0).flatten t0 = some (b0, t0') ∧
        pr.computeMsgSimd 1 hs ((intSimd m l).map init1.ve)
          ((intSimd m l).map fun v => (m.parents v).map h1).flatten t1 = some (b1, t1') ∧
        pr.evalInteractive 0 gs ((intScalar m l).map init0.sc) a0 a1 t0' = some (z0, r0) ∧
        pr.evalInteractive 1 gs ((intScalar m l).map init1.sc) a1 a0 t1' = some (z1, r1) ∧
        pr.evalInteractiveSimd 0 hs ((intSimd m l).map init0.ve) b0 b1 r0 = some (w0, r0') ∧
        pr.evalInteractiveSimd 1 hs ((intSimd m l).map init1.ve) b1 b0 r1 = some (w1, r1') ∧
        Q l (a0, some b0) (a1, some b1) ∧
        w0.length = (intSimd m l).length ∧ w1.length = (intSimd m l).length ∧
        (∀ (i : Nat) v x0 x1, (intSimd m l)[i]? = some v → w0[i]? = some x0 → w1[i]? = some x1 →
          RV v x0 x1)
      else
        intSimd m l = [] ∧ Q l (a0, none) (a1, none) ∧
        pr.evalInteractive 0 gs ((intScalar m l).map init0.sc) a0 a1 t0 = some (z0, r0) ∧
        pr.evalInteractive 1 gs ((intScalar m l).map init1.sc) a1 a0 t1 = some (z1, r1)

/-- The stores hold related values at `u`. -/
def Rel (m : Multi G) (R : Node → S → S → Prop) (RV : Node → V → V → Prop) (st0 st1 : Store S V)
    (u : Node) : Prop :=
  st0.set u = true ∧ st1.set u = true ∧
    (isSimd m u.1 = false → R u (st0.sc u) (st1.sc u)) ∧
    (isSimd m u.1 = true → RV u (st0.ve u) (st1.ve u))

/-- The stores agree outside `v`. -/
def Frame (v : Node) (st st' : Store S V) : Prop :=
  ∀ u, u ≠ v → st'.sc u = st.sc u ∧ st'.ve u = st.ve u ∧ st'.set u = st.set u

theorem mapM_get (m : Multi G) (st : Store S V) (us : List Node)
    (hs : ∀ u ∈ us, isSimd m u.1 = false) (h : ∀ u ∈ us, st.set u = true) :
    us.mapM (st.get m) = some (us.map st.sc) := by
  induction us with
  | nil => rfl
  | cons u us ih =>
    rw [List.mapM_cons, ih (fun u hu => hs u (List.mem_cons_of_mem _ hu))
      (fun u hu => h u (List.mem_cons_of_mem _ hu))]
    simp [Store.get, hs u List.mem_cons_self, h u List.mem_cons_self]

theorem mapM_getSimd (m : Multi G) (st : Store S V) (us : List Node)
    (hs : ∀ u ∈ us, isSimd m u.1 = true) (h : ∀ u ∈ us, st.set u = true) :
    us.mapM (st.getSimd m) = some (us.map st.ve) := by
  induction us with
  | nil => rfl
  | cons u us ih =>
    rw [List.mapM_cons, ih (fun u hu => hs u (List.mem_cons_of_mem _ hu))
      (fun u hu => h u (List.mem_cons_of_mem _ hu))]
    simp [Store.getSimd, hs u List.mem_cons_self, h u List.mem_cons_self]

theorem put_spec (m : Multi G) {R : Node → S → S → Prop} {RV : Node → V → V → Prop}
    {st0 st1 : Store S V} {v : Node} {z0 z1 : S} (hs : isSimd m v.1 = false) (h : R v z0 z1) :
    ∃ s0 s1, st0.put m v z0 = some s0 ∧ st1.put m v z1 = some s1 ∧
      Rel m R RV s0 s1 v ∧ Frame v st0 s0 ∧ Frame v st1 s1 := by
  refine ⟨{ st0 with sc := fun u => if u = v then z0 else st0.sc u
                     set := fun u => if u = v then true else st0.set u },
    { st1 with sc := fun u => if u = v then z1 else st1.sc u
               set := fun u => if u = v then true else st1.set u },
    by simp [Store.put, hs], by simp [Store.put, hs], ?_, ?_, ?_⟩
  · refine ⟨by simp, by simp, fun _ => by simpa using h, fun h' => by simp [hs] at h'⟩
  · intro u hu; simp [hu]
  · intro u hu; simp [hu]

theorem putSimd_spec (m : Multi G) {R : Node → S → S → Prop} {RV : Node → V → V → Prop}
    {st0 st1 : Store S V} {v : Node} {z0 z1 : V} (hs : isSimd m v.1 = true) (h : RV v z0 z1) :
    ∃ s0 s1, st0.putSimd m v z0 = some s0 ∧ st1.putSimd m v z1 = some s1 ∧
      Rel m R RV s0 s1 v ∧ Frame v st0 s0 ∧ Frame v st1 s1 := by
  refine ⟨{ st0 with ve := fun u => if u = v then z0 else st0.ve u
                     set := fun u => if u = v then true else st0.set u },
    { st1 with ve := fun u => if u = v then z1 else st1.ve u
               set := fun u => if u = v then true else st1.set u },
    by simp [Store.putSimd, hs], by simp [Store.putSimd, hs], ?_, ?_, ?_⟩
  · refine ⟨by simp, by simp, fun h' => by simp [hs] at h', fun _ => by simpa using h⟩
  · intro u hu; simp [hu]
  · intro u hu; simp [hu]

variable {pr : Protocol G S V M MS T} {m : Multi G} {inp0 inp1 : Input S V}
  {setup0 setup1 : Nat → Nat → T} {init0 init1 : Store S V} {R : Node → S → S → Prop}
  {RV : Node → V → V → Prop} {Q : MLayer → M × Option MS → M × Option MS → Prop} {ls : List MLayer}

/-- One local gate in both executors. -/
theorem evalNode_spec (hw : ExecBase m)
    (hS : Sound pr m inp0 inp1 setup0 setup1 init0 init1 R RV Q ls) (st0 st1 : Store S V) (v : Node)
    (g : G) (hg : m.gate? v = some g) (hi : interactive g = false)
    (hr : ∀ u ∈ m.parents v, Rel m R RV st0 st1 u)
    (h0 : st0.sc v = init0.sc v ∧ st0.ve v = init0.ve v)
    (h1 : st1.sc v = init1.sc v ∧ st1.ve v = init1.ve v) :
    ∃ s0 s1, evalNode pr m 0 inp0 st0 v = some s0 ∧ evalNode pr m 1 inp1 st1 v = some s1 ∧
      Rel m R RV s0 s1 v ∧ Frame v st0 s0 ∧ Frame v st1 s1 := by
  have scalarArgs : (∀ u ∈ m.parents v, isSimd m u.1 = false) →
      (m.parents v).mapM (st0.get m) = some ((m.parents v).map st0.sc) ∧
      (m.parents v).mapM (st1.get m) = some ((m.parents v).map st1.sc) ∧
      ∀ u ∈ m.parents v, R u (st0.sc u) (st1.sc u) := fun h =>
    ⟨mapM_get m st0 _ h fun u hu => (hr u hu).1, mapM_get m st1 _ h fun u hu => (hr u hu).2.1,
      fun u hu => (hr u hu).2.2.1 (h u hu)⟩
  have simdArgs : (∀ u ∈ m.parents v, isSimd m u.1 = true) →
      (m.parents v).mapM (st0.getSimd m) = some ((m.parents v).map st0.ve) ∧
      (m.parents v).mapM (st1.getSimd m) = some ((m.parents v).map st1.ve) ∧
      ∀ u ∈ m.parents v, RV u (st0.ve u) (st1.ve u) := fun h =>
    ⟨mapM_getSimd m st0 _ h fun u hu => (hr u hu).1,
      mapM_getSimd m st1 _ h fun u hu => (hr u hu).2.1,
      fun u hu => (hr u hu).2.2.2 (h u hu)⟩
  have generic : ∀ b, asBase g = b → b ≠ some .input → (∀ x, b ≠ some (.constant x)) →
      b ≠ some .subCircuitInput → (∀ k, b ≠ some (.connectToMainFromSimd k)) →
      ∃ s0 s1, (if isSimd m v.1 then do
          let xs ← (m.parents v).mapM (st0.getSimd m)
          let o ← pr.evalLocalSimd 0 g xs
          st0.putSimd m v o
        else do
          let xs ← (m.parents v).mapM (st0.get m)
          let o ← pr.evalLocal 0 g xs
          st0.put m v o) = some s0 ∧ (if isSimd m v.1 then do
          let xs ← (m.parents v).mapM (st1.getSimd m)
          let o ← pr.evalLocalSimd 1 g xs
          st1.putSimd m v o
        else do
          let xs ← (m.parents v).mapM (st1.get m)
          let o ← pr.evalLocal 1 g xs
          st1.put m v o) = some s1 ∧
        Rel m R RV s0 s1 v ∧ Frame v st0 s0 ∧ Frame v st1 s1 := by
    rintro b rfl n1 n2 n3 n4
    have ht := hw.other v g hg n3 n4
    cases hs : isSimd m v.1 with
    | true =>
      obtain ⟨a0, a1, ar⟩ := simdArgs fun u hu => (ht u hu).trans hs
      obtain ⟨z0, z1, e0, e1, hz⟩ := hS.localSimd v g hg hi hs n1 n2 (fun h => absurd h n3) _ _ ar
      obtain ⟨s0, s1, p0, p1, q⟩ := putSimd_spec (R := R) (st0 := st0) (st1 := st1) m hs hz
      exact ⟨s0, s1, by simp [a0, e0, p0], by simp [a1, e1, p1], q⟩
    | false =>
      obtain ⟨a0, a1, ar⟩ := scalarArgs fun u hu => (ht u hu).trans hs
      obtain ⟨z0, z1, e0, e1, hz⟩ := hS.localGate v g hg hi hs n1 n2 n4 _ _ ar
      obtain ⟨s0, s1, p0, p1, q⟩ := put_spec (RV := RV) (st0 := st0) (st1 := st1) m hs hz
      exact ⟨s0, s1, by simp [a0, e0, p0], by simp [a1, e1, p1], q⟩
  unfold evalNode
  simp only [hg, Option.bind_eq_bind, Option.bind_some]
  cases hb : asBase g with
  | none => simpa using generic none hb (by simp) (by simp) (by simp) (by simp)
  | some b =>
    cases b with
    | input =>
      obtain ⟨hv0, c, hc, hmem⟩ := hw.inputs v g hg hb
      obtain ⟨i, hidx⟩ : ∃ i, c.inputGates.findIdx? (· = v.2) = some i := by
        cases hf : c.inputGates.findIdx? (· = v.2) with
        | none =>
          rw [List.findIdx?_eq_none_iff] at hf
          exact absurd (hf v.2 hmem) (by simp)
        | some i => exact ⟨i, rfl⟩
      have hv : v = (0, v.2) := Prod.ext hv0 rfl
      cases hs : isSimd m 0 with
      | true =>
        obtain ⟨xs0, xs1, rfl, rfl, hin⟩ := hS.inputSimd hs
        obtain ⟨x0, x1, z0, z1, i0, i1, e0, e1, hz⟩ := hin c i v.2 hc hidx g (by rw [← hv]; exact hg) hb
        rw [← hv] at hz
        obtain ⟨s0, s1, p0, p1, q⟩ := putSimd_spec (R := R) (st0 := st0) (st1 := st1) m
          (by rw [hv0]; exact hs) hz
        exact ⟨s0, s1, by simp [hv0, hc, hidx, i0, e0, p0], by simp [hv0, hc, hidx, i1, e1, p1], q⟩
      | false =>
        obtain ⟨xs0, xs1, rfl, rfl, hin⟩ := hS.input hs
        obtain ⟨x0, x1, z0, z1, i0, i1, e0, e1, hz⟩ := hin c i v.2 hc hidx g (by rw [← hv]; exact hg) hb
        rw [← hv] at hz
        obtain ⟨s0, s1, p0, p1, q⟩ := put_spec (RV := RV) (st0 := st0) (st1 := st1) m
          (by rw [hv0]; exact hs) hz
        exact ⟨s0, s1, by simp [hv0, hc, hidx, i0, e0, p0], by simp [hv0, hc, hidx, i1, e1, p1], q⟩
    | subCircuitInput =>
      obtain ⟨t1, t2⟩ := hw.scInput v g hg hb
      cases hm : isSimd m 0 with
      | true =>
        have hs := t1 hm
        obtain ⟨a0, a1, ar⟩ := simdArgs fun u hu => (t2 u hu).trans hm
        obtain ⟨z0, z1, e0, e1, hz⟩ := hS.localSimd v g hg hi hs (by simp [hb]) (by simp [hb])
          (fun _ => hm) _ _ ar
        obtain ⟨s0, s1, p0, p1, q⟩ := putSimd_spec (R := R) (st0 := st0) (st1 := st1) m hs hz
        exact ⟨s0, s1, by simp [hs, a0, e0, p0], by simp [hs, a1, e1, p1], q⟩
      | false =>
        obtain ⟨a0, a1, ar⟩ := scalarArgs fun u hu => (t2 u hu).trans hm
        cases hs : isSimd m v.1 with
        | true =>
          have hz := hS.pack v g hg hb hm hs _ _ ar
          obtain ⟨s0, s1, p0, p1, q⟩ := putSimd_spec (R := R) (st0 := st0) (st1 := st1) m hs hz
          exact ⟨s0, s1, by simp [a0, p0], by simp [a1, p1], q⟩
        | false =>
          obtain ⟨z0, z1, e0, e1, hz⟩ := hS.localGate v g hg hi hs (by simp [hb]) (by simp [hb])
            (by simp [hb]) _ _ ar
          obtain ⟨s0, s1, p0, p1, q⟩ := put_spec (RV := RV) (st0 := st0) (st1 := st1) m hs hz
          exact ⟨s0, s1, by simp [a0, e0, p0], by simp [a1, e1, p1], q⟩
    | connectToMainFromSimd k =>
      obtain ⟨hs, p, hp, hps⟩ := hw.fromSimd v g k hg hb
      have hrp := hr p (by rw [hp]; simp)
      obtain ⟨z0, z1, e0, e1, hz⟩ := hS.unpack v g k p hg hb hp _ _ (hrp.2.2.2 hps)
      obtain ⟨s0, s1, p0, p1, q⟩ := put_spec (RV := RV) (st0 := st0) (st1 := st1) m hs hz
      refine ⟨s0, s1, ?_, ?_, q⟩
      · simp [hp, Store.getSimd, hps, hrp.1, e0, p0]
      · simp [hp, Store.getSimd, hps, hrp.2.1, e1, p1]
    | constant val =>
      cases hs : isSimd m v.1 with
      | true =>
        have hz := hS.constSimd v g val hg hb hs
        rw [← h0.2, ← h1.2] at hz
        obtain ⟨s0, s1, p0, p1, q⟩ := putSimd_spec (R := R) (st0 := st0) (st1 := st1) m hs hz
        exact ⟨s0, s1, by simp [p0], by simp [p1], q⟩
      | false =>
        have hz := hS.const v g val hg hb hs
        rw [← h0.1, ← h1.1] at hz
        obtain ⟨s0, s1, p0, p1, q⟩ := put_spec (RV := RV) (st0 := st0) (st1 := st1) m hs hz
        exact ⟨s0, s1, by simp [p0], by simp [p1], q⟩
    | output => simpa using generic _ hb (by simp) (by simp) (by simp) (by simp)
    | subCircuitOutput => simpa using generic _ hb (by simp) (by simp) (by simp) (by simp)
    | connectToMain => simpa using generic _ hb (by simp) (by simp) (by simp) (by simp)
    | identity => simpa using generic _ hb (by simp) (by simp) (by simp) (by simp)
    | debug => simpa using generic _ hb (by simp) (by simp) (by simp) (by simp)

/-- The state between two layers: gates outside `done` untouched, gates in `done` related unless
freed. -/
structure SInv (m : Multi G) (R : Node → S → S → Prop) (RV : Node → V → V → Prop)
    (init0 init1 st0 st1 : Store S V) (done F : List Node) : Prop where
  fresh0 : ∀ u, u ∉ done → st0.sc u = init0.sc u ∧ st0.ve u = init0.ve u
  fresh1 : ∀ u, u ∉ done → st1.sc u = init1.sc u ∧ st1.ve u = init1.ve u
  rel : ∀ u ∈ done, u ∉ F → Rel m R RV st0 st1 u

theorem SInv.step {st0 st1 s0 s1 : Store S V} {done F : List Node} {v : Node}
    (h : SInv m R RV init0 init1 st0 st1 done F) (hv : v ∉ done) (hr : Rel m R RV s0 s1 v)
    (f0 : Frame v st0 s0) (f1 : Frame v st1 s1) :
    SInv m R RV init0 init1 s0 s1 (done ++ [v]) F := by
  have hne : ∀ u, u ∉ done ++ [v] → u ≠ v ∧ u ∉ done := by
    intro u hu; simp only [List.mem_append, List.mem_singleton, not_or] at hu; exact ⟨hu.2, hu.1⟩
  constructor
  · intro u hu
    obtain ⟨a, b⟩ := hne u hu
    obtain ⟨p, q, -⟩ := f0 u a
    rw [p, q]; exact h.fresh0 u b
  · intro u hu
    obtain ⟨a, b⟩ := hne u hu
    obtain ⟨p, q, -⟩ := f1 u a
    rw [p, q]; exact h.fresh1 u b
  · intro u hu hF
    by_cases huv : u = v
    · subst huv; exact hr
    · have hud : u ∈ done := by simpa [huv] using hu
      have := h.rel u hud hF
      obtain ⟨a, b, c⟩ := f0 u huv
      obtain ⟨a', b', c'⟩ := f1 u huv
      simp only [Rel, a, b, c, a', b', c']
      exact this

/-- A parent of a gate that is not yet visited has not been freed. -/
theorem not_freed {done F : List Node} (hF : FreeOk m done F) (hc : FreeCond m F) {u v : Node}
    (hv : v ∉ done) (hu : u ∈ m.parents v) : u ∉ F := by
  intro hf
  obtain ⟨hs, -, hne, hall⟩ := hF u hf
  unfold Multi.parents at hu
  rcases List.mem_append.1 hu with hu | hu
  · exact hv (hall v ((mem_inChildren m u v).2 hu))
  · exact (hc u hf).1 v hu

theorem evalNodes_spec (hw : ExecBase m)
    (hS : Sound pr m inp0 inp1 setup0 setup1 init0 init1 R RV Q ls) (vs : List Node)
    (st0 st1 : Store S V) (done F : List Node)
    (h : SInv m R RV init0 init1 st0 st1 done F) (hF : FreeOk m done F) (hfc : FreeCond m F)
    (hn : (done ++ vs).Nodup)
    (hg : ∀ v ∈ vs, ∃ g, m.gate? v = some g ∧ interactive g = false)
    (ho : ∀ a v b, vs = a ++ v :: b → ∀ u ∈ m.parents v, u ∈ done ++ a) :
    ∃ s0 s1, evalNodes pr m 0 inp0 st0 vs = some s0 ∧ evalNodes pr m 1 inp1 st1 vs = some s1 ∧
      SInv m R RV init0 init1 s0 s1 (done ++ vs) F := by
  induction vs generalizing st0 st1 done with
  | nil => exact ⟨st0, st1, rfl, rfl, by simpa using h⟩
  | cons v vs ih =>
    have hvd : v ∉ done := fun h' => (List.disjoint_of_nodup_append hn) h' List.mem_cons_self
    obtain ⟨g, hg1, hg2⟩ := hg v List.mem_cons_self
    obtain ⟨s0, s1, e0, e1, hr, f0, f1⟩ := evalNode_spec hw hS st0 st1 v g hg1 hg2 (by
      intro u hu
      exact h.rel u (by simpa using ho [] v vs rfl u hu) (not_freed hF hfc hvd hu))
      (h.fresh0 v hvd) (h.fresh1 v hvd)
    have hassoc : done ++ v :: vs = done ++ [v] ++ vs := by simp
    rw [hassoc] at hn ⊢
    obtain ⟨t0, t1, d0, d1, r⟩ := ih s0 s1 (done ++ [v]) (h.step hvd hr f0 f1)
      (freeOk_mono hF fun _ h => List.mem_append_left _ h) hn (fun w hw' => hg w (List.mem_cons_of_mem _ hw')) (by
        intro a w b e u hu
        have := ho (v :: a) w b (by simp [e]) u hu
        simpa using this)
    exact ⟨t0, t1, by simp [evalNodes, e0, d0], by simp [evalNodes, e1, d1], r⟩

theorem putAll_spec (vs : List Node) (z0 z1 : List S) (st0 st1 : Store S V) (done F : List Node)
    (h : SInv m R RV init0 init1 st0 st1 done F) (hn : (done ++ vs).Nodup)
    (hs : ∀ v ∈ vs, isSimd m v.1 = false) (l0 : z0.length = vs.length) (l1 : z1.length = vs.length)
    (hz : ∀ (i : Nat) v x0 x1, vs[i]? = some v → z0[i]? = some x0 → z1[i]? = some x1 → R v x0 x1) :
    ∃ s0 s1, putAll m st0 vs z0 = some s0 ∧ putAll m st1 vs z1 = some s1 ∧
      SInv m R RV init0 init1 s0 s1 (done ++ vs) F := by
  induction vs generalizing st0 st1 done z0 z1 with
  | nil => exact ⟨st0, st1, by simp [putAll], by simp [putAll], by simpa using h⟩
  | cons v vs ih =>
    match z0, l0, z1, l1 with
    | x0 :: z0, l0, x1 :: z1, l1 =>
      have hvd : v ∉ done := fun h' => (List.disjoint_of_nodup_append hn) h' List.mem_cons_self
      obtain ⟨s0, s1, e0, e1, hr, f0, f1⟩ := put_spec (RV := RV) (st0 := st0) (st1 := st1) m
        (hs v List.mem_cons_self) (hz 0 v x0 x1 rfl rfl rfl)
      have hassoc : done ++ v :: vs = done ++ [v] ++ vs := by simp
      rw [hassoc] at hn ⊢
      obtain ⟨t0, t1, d0, d1, r⟩ := ih z0 z1 s0 s1 (done ++ [v]) (h.step hvd hr f0 f1) hn
        (fun w hw' => hs w (List.mem_cons_of_mem _ hw')) (by simpa using l0) (by simpa using l1)
        (fun i w x y a b c => hz (i + 1) w x y (by simpa using a) (by simpa using b) (by simpa using c))
      exact ⟨t0, t1, by simp [putAll, e0, d0], by simp [putAll, e1, d1], r⟩

theorem putAllSimd_spec (vs : List Node) (z0 z1 : List V) (st0 st1 : Store S V)
    (done F : List Node)
    (h : SInv m R RV init0 init1 st0 st1 done F) (hn : (done ++ vs).Nodup)
    (hs : ∀ v ∈ vs, isSimd m v.1 = true) (l0 : z0.length = vs.length) (l1 : z1.length = vs.length)
    (hz : ∀ (i : Nat) v x0 x1, vs[i]? = some v → z0[i]? = some x0 → z1[i]? = some x1 → RV v x0 x1) :
    ∃ s0 s1, putAllSimd m st0 vs z0 = some s0 ∧ putAllSimd m st1 vs z1 = some s1 ∧
      SInv m R RV init0 init1 s0 s1 (done ++ vs) F := by
  induction vs generalizing st0 st1 done z0 z1 with
  | nil => exact ⟨st0, st1, by simp [putAllSimd], by simp [putAllSimd], by simpa using h⟩
  | cons v vs ih =>
    match z0, l0, z1, l1 with
    | x0 :: z0, l0, x1 :: z1, l1 =>
      have hvd : v ∉ done := fun h' => (List.disjoint_of_nodup_append hn) h' List.mem_cons_self
      obtain ⟨s0, s1, e0, e1, hr, f0, f1⟩ := putSimd_spec (R := R) (st0 := st0) (st1 := st1) m
        (hs v List.mem_cons_self) (hz 0 v x0 x1 rfl rfl rfl)
      have hassoc : done ++ v :: vs = done ++ [v] ++ vs := by simp
      rw [hassoc] at hn ⊢
      obtain ⟨t0, t1, d0, d1, r⟩ := ih z0 z1 s0 s1 (done ++ [v]) (h.step hvd hr f0 f1) hn
        (fun w hw' => hs w (List.mem_cons_of_mem _ hw')) (by simpa using l0) (by simpa using l1)
        (fun i w x y a b c => hz (i + 1) w x y (by simpa using a) (by simpa using b) (by simpa using c))
      exact ⟨t0, t1, by simp [putAllSimd, e0, d0], by simp [putAllSimd, e1, d1], r⟩

theorem nodup_filter_perm {α : Type} (p : α → Bool) (l : List α) :
    (l.filter (fun x => !p x) ++ l.filter p).Perm l := by
  have := List.filter_append_perm (fun x => !p x) l
  simpa using this

theorem mapM_gates (vs : List Node) (h : ∀ v ∈ vs, ∃ g, m.gate? v = some g) :
    ∃ gs, vs.mapM m.gate? = some gs := by
  induction vs with
  | nil => exact ⟨[], rfl⟩
  | cons v vs ih =>
    obtain ⟨g, hg⟩ := h v List.mem_cons_self
    obtain ⟨gs, hgs⟩ := ih fun w hw => h w (List.mem_cons_of_mem _ hw)
    exact ⟨g :: gs, by simp [List.mapM_cons, hg, hgs]⟩

theorem mapM_some_map {α β : Type} (f : α → Option β) (g : α → β) (l : List α)
    (h : ∀ x ∈ l, f x = some (g x)) : l.mapM f = some (l.map g) := by
  induction l with
  | nil => rfl
  | cons x l ih =>
    simp [List.mapM_cons, h x List.mem_cons_self, ih fun y hy => h y (List.mem_cons_of_mem _ hy)]

theorem intNodes_empty_of_count (hw : ExecBase m) (l : MLayer)
    (hv : ∀ v ∈ intNodes l, m.Valid v) (h : intCount m l = 0) : intNodes l = [] := by
  rw [List.eq_nil_iff_forall_not_mem]
  rintro v hvm
  obtain ⟨c, hc, -⟩ := hv v hvm
  unfold intNodes at hvm
  obtain ⟨p, hp, hx⟩ := List.mem_flatMap.1 hvm
  obtain ⟨g, hg, rfl⟩ := List.mem_map.1 hx
  have h0 := List.sum_eq_zero_iff_forall_eq_nat.1 h (lanes m p.1 * p.2.int.length)
    (List.mem_map.2 ⟨p, hp, rfl⟩)
  rcases Nat.mul_eq_zero.1 h0 with h1 | h1
  · simp only at hc
    simp only [lanes, hc] at h1
    have := hw.lanesPos p.1 c hc
    cases hs : c.simdSize with
    | none => simp [hs] at h1
    | some k => simp [hs] at h1; subst h1; exact this hs
  · rw [List.length_eq_zero_iff] at h1
    rw [h1] at hg; simp at hg

theorem execLayers_spec (hw : ExecBase m)
    (hS : Sound pr m inp0 inp1 setup0 setup1 init0 init1 R RV Q ls)
    (fl : List (MLayer × List Node)) (k : Nat) (st0 st1 : Store S V) (done F : List Node)
    (h : SInv m R RV init0 init1 st0 st1 done F) (hF : FreeOk m done F)
    (hfc : FreeCond m (F ++ fl.flatMap (·.2))) (hcl : ∀ w ∈ done, ∀ u ∈ m.parents w, u ∈ done)
    (hn : (done ++ (fl.map (·.1)).flatMap layerNodes).Nodup)
    (hall : ∀ v, v ∈ done ++ (fl.map (·.1)).flatMap layerNodes ↔ m.Valid v)
    (ht : TopoFrom m.parents done ((fl.map (·.1)).map fun l => (niNodes l, intNodes l)))
    (hni : ∀ l ∈ fl.map (·.1), ∀ v ∈ niNodes l, ∃ g, m.gate? v = some g ∧ interactive g = false)
    (hint : ∀ l ∈ fl.map (·.1), ∀ v ∈ intNodes l, ∃ g, m.gate? v = some g ∧ interactive g = true)
    (hfl : FreeLayers m done fl)
    (hk : ∀ j l, (interactiveLayers m (fl.map (·.1)))[j]? = some l →
      (interactiveLayers m ls)[k + j]? = some l)
    (c0 : Base G) (hc0 : m.circs[0]? = some c0) :
    (isSimd m 0 = false → ∃ o0 o1 : List S,
      Exchange Q (.scalar o0) (.scalar o1) (interactiveLayers m (fl.map (·.1)))
        (execLayers pr m 0 inp0 setup0 k fl st0) (execLayers pr m 1 inp1 setup1 k fl st1) ∧ o0.length = c0.outputGates.length ∧
        o1.length = c0.outputGates.length ∧
        ∀ (i : Nat) g x0 x1, c0.outputGates[i]? = some g → o0[i]? = some x0 → o1[i]? = some x1 →
          R (0, g) x0 x1) ∧
    (isSimd m 0 = true → ∃ o0 o1 : List V,
      Exchange Q (.simd o0) (.simd o1) (interactiveLayers m (fl.map (·.1)))
        (execLayers pr m 0 inp0 setup0 k fl st0) (execLayers pr m 1 inp1 setup1 k fl st1) ∧ o0.length = c0.outputGates.length ∧
        o1.length = c0.outputGates.length ∧
        ∀ (i : Nat) g x0 x1, c0.outputGates[i]? = some g → o0[i]? = some x0 → o1[i]? = some x1 →
          RV (0, g) x0 x1) := by
  induction fl generalizing k st0 st1 done F with
  | nil =>
    have hrel : ∀ g ∈ c0.outputGates, Rel m R RV st0 st1 (0, g) := by
      intro g hg
      apply h.rel
      · have := (hall (0, g)).2 (hw.outputsValid c0 hc0 g hg)
        simpa using this
      · intro hf
        exact (hfc _ (List.mem_append_left _ hf)).2 c0 hc0 rfl hg
    constructor
    · intro hs
      refine ⟨c0.outputGates.map fun g => st0.sc (0, g), c0.outputGates.map fun g => st1.sc (0, g),
        ?_, by simp, by simp, ?_⟩
      · have e0 : outputs m st0 = some (.scalar (c0.outputGates.map fun g => st0.sc (0, g))) := by
          simp only [outputs, hc0, Option.bind_eq_bind, Option.bind_some, hs, Bool.false_eq_true,
            if_false]
          rw [mapM_some_map _ (fun g => st0.sc (0, g))]
          · simp
          · intro g hg; simp [Store.get, hs, (hrel g hg).1]
        have e1 : outputs m st1 = some (.scalar (c0.outputGates.map fun g => st1.sc (0, g))) := by
          simp only [outputs, hc0, Option.bind_eq_bind, Option.bind_some, hs, Bool.false_eq_true,
            if_false]
          rw [mapM_some_map _ (fun g => st1.sc (0, g))]
          · simp
          · intro g hg; simp [Store.get, hs, (hrel g hg).2.1]
        simp only [execLayers, e0, e1]
        exact .done
      · intro i g x0 x1 hg h0 h1
        rw [List.getElem?_map, hg] at h0 h1
        simp only [Option.map_some, Option.some.injEq] at h0 h1
        subst h0 h1
        exact (hrel g (List.mem_of_getElem? hg)).2.2.1 hs
    · intro hs
      refine ⟨c0.outputGates.map fun g => st0.ve (0, g), c0.outputGates.map fun g => st1.ve (0, g),
        ?_, by simp, by simp, ?_⟩
      · have e0 : outputs m st0 = some (.simd (c0.outputGates.map fun g => st0.ve (0, g))) := by
          simp only [outputs, hc0, Option.bind_eq_bind, Option.bind_some, hs, if_true]
          rw [mapM_some_map _ (fun g => st0.ve (0, g))]
          · simp
          · intro g hg; simp [Store.getSimd, hs, (hrel g hg).1]
        have e1 : outputs m st1 = some (.simd (c0.outputGates.map fun g => st1.ve (0, g))) := by
          simp only [outputs, hc0, Option.bind_eq_bind, Option.bind_some, hs, if_true]
          rw [mapM_some_map _ (fun g => st1.ve (0, g))]
          · simp
          · intro g hg; simp [Store.getSimd, hs, (hrel g hg).2.1]
        simp only [execLayers, e0, e1]
        exact .done
      · intro i g x0 x1 hg h0 h1
        rw [List.getElem?_map, hg] at h0 h1
        simp only [Option.map_some, Option.some.injEq] at h0 h1
        subst h0 h1
        exact (hrel g (List.mem_of_getElem? hg)).2.2.2 hs
  | cons p fl ih =>
    obtain ⟨l, fs⟩ := p
    obtain ⟨t1, t2, t3⟩ := ht
    obtain ⟨f1, f2⟩ := hfl
    simp only [List.map_cons, List.flatMap_cons] at hn hall hni hint hk
    have e0 : done ++ (layerNodes l ++ (fl.map (·.1)).flatMap layerNodes) =
        done ++ niNodes l ++ intNodes l ++ (fl.map (·.1)).flatMap layerNodes := by simp [layerNodes]
    rw [e0] at hn
    rw [e0] at hall
    have hn1 : (done ++ niNodes l ++ intNodes l).Nodup := hn.of_append_left
    obtain ⟨s0, s1, d0, d1, hsi⟩ := evalNodes_spec hw hS (niNodes l) st0 st1 done F h hF
      (fun u hu => hfc u (List.mem_append_left _ hu)) hn1.of_append_left (hni l List.mem_cons_self) t1
    have d0' : evalNodes pr m 0 inp0 st0 (niOf l) = some s0 := d0
    have d1' : evalNodes pr m 1 inp1 st1 (niOf l) = some s1 := d1
    have hcl' : ∀ w ∈ done ++ niNodes l ++ intNodes l, ∀ u ∈ m.parents w, u ∈ done ++ niNodes l := by
      intro w hw' u hu
      rcases List.mem_append.1 hw' with hw' | hw'
      · rcases List.mem_append.1 hw' with hw' | hw'
        · exact List.mem_append_left _ (hcl w hw' u hu)
        · obtain ⟨a, b, e⟩ := List.append_of_mem hw'
          have := t1 a w b e u hu
          rw [e]
          simp only [List.mem_append, List.mem_cons] at this ⊢
          tauto
      · exact t2 w hw' u hu
    have hclosed : ∀ w ∈ done ++ niNodes l ++ intNodes l, ∀ u ∈ m.parents w,
        u ∈ done ++ niNodes l ++ intNodes l := fun w hw' u hu =>
      List.mem_append_left _ (hcl' w hw' u hu)
    have hvalid : ∀ v ∈ intNodes l, m.Valid v := fun v hv =>
      (hall v).1 (List.mem_append_left _ (List.mem_append_right _ hv))
    by_cases hcnt : intCount m l = 0
    · have hnil := intNodes_empty_of_count hw l hvalid hcnt
      rw [hnil, List.append_nil] at hn hall t3 f2 hclosed
      have := ih k s0 s1 (done ++ niNodes l) F hsi (freeOk_mono hF fun _ h => List.mem_append_left _ h)
        (fun u hu => hfc u (by simp only [List.flatMap_cons, List.mem_append] at hu ⊢; tauto)) hclosed hn hall t3 (fun l' hl' => hni l' (List.mem_cons_of_mem _ hl'))
        (fun l' hl' => hint l' (List.mem_cons_of_mem _ hl')) f2 (by
          intro j l' hj
          apply hk j l'
          simp only [interactiveLayers, List.filter_cons, hcnt, ne_eq, not_true_eq_false,
            decide_false, Bool.false_eq_true, if_false]
          exact hj)
      have hil : interactiveLayers m (((l, fs) :: fl).map (·.1)) =
          interactiveLayers m (fl.map (·.1)) := by
        simp [interactiveLayers, hcnt]
      rw [hil]
      simpa only [execLayers, d0', d1', hcnt, if_true] using this
    · -- an interactive layer
      have hkl := hk 0 l (by simp [interactiveLayers, hcnt])
      rw [Nat.add_zero] at hkl
      have hsc := intScalar_eq m l
      have hsi' := intSimd_eq m l
      have msc : ∀ v ∈ intScalar m l, v ∈ intNodes l ∧ isSimd m v.1 = false := by
        intro v hv; rw [hsc, List.mem_filter] at hv; exact ⟨hv.1, by simpa using hv.2⟩
      have msi : ∀ v ∈ intSimd m l, v ∈ intNodes l ∧ isSimd m v.1 = true := by
        intro v hv; rw [hsi', List.mem_filter] at hv; exact hv
      have gsc : ∀ v ∈ intNodes l, ∃ g, m.gate? v = some g := fun v hv => by
        obtain ⟨g, hg, -⟩ := hint l List.mem_cons_self v hv; exact ⟨g, hg⟩
      obtain ⟨gs, hgs⟩ := mapM_gates (m := m) (intScalar m l) fun v hv => gsc v (msc v hv).1
      obtain ⟨hs, hhs⟩ := mapM_gates (m := m) (intSimd m l) fun v hv => gsc v (msi v hv).1
      have hdisj : ∀ v ∈ intNodes l, v ∉ done ++ niNodes l := fun v hv h' =>
        (List.disjoint_of_nodup_append hn1) h' hv
      have hF' : FreeOk m (done ++ niNodes l) F := freeOk_mono hF fun _ h => List.mem_append_left _ h
      have hrel : ∀ v ∈ intNodes l, ∀ u ∈ m.parents v, Rel m R RV s0 s1 u := by
        intro v hv u hu
        exact hsi.rel u (t2 v hv u hu) (not_freed hF' (fun u hu => hfc u (List.mem_append_left _ hu)) (hdisj v hv) hu)
      have hty : ∀ v ∈ intNodes l, ∀ u ∈ m.parents v, isSimd m u.1 = isSimd m v.1 := by
        intro v hv u hu
        obtain ⟨g, hg, hgi⟩ := hint l List.mem_cons_self v hv
        exact hw.other v g hg (hw.intBase v g hg hgi).1 (hw.intBase v g hg hgi).2 u hu
      obtain ⟨a0, a1, x0, x1, z0, z1, r0, r1, A0, A1, lz0, lz1, hz, hrest⟩ :=
        hS.layer k l hkl gs hs hgs hhs s0.sc s1.sc s0.ve s1.ve
        (fun v hv u hu => (hrel v (msc v hv).1 u hu).2.2.1
          ((hty v (msc v hv).1 u hu).trans (msc v hv).2))
        (fun v hv u hu => (hrel v (msi v hv).1 u hu).2.2.2
          ((hty v (msi v hv).1 u hu).trans (msi v hv).2))
      -- initial values at the interactive gates
      have i0 : (intScalar m l).map s0.sc = (intScalar m l).map init0.sc :=
        List.map_congr_left fun v hv => (hsi.fresh0 v (hdisj v (msc v hv).1)).1
      have i1 : (intScalar m l).map s1.sc = (intScalar m l).map init1.sc :=
        List.map_congr_left fun v hv => (hsi.fresh1 v (hdisj v (msc v hv).1)).1
      have j0 : (intSimd m l).map s0.ve = (intSimd m l).map init0.ve :=
        List.map_congr_left fun v hv => (hsi.fresh0 v (hdisj v (msi v hv).1)).2
      have j1 : (intSimd m l).map s1.ve = (intSimd m l).map init1.ve :=
        List.map_congr_left fun v hv => (hsi.fresh1 v (hdisj v (msi v hv).1)).2
      -- operands
      have q0 : (intScalar m l).mapM (fun v => (m.parents v).mapM (s0.get m)) =
          some ((intScalar m l).map fun v => (m.parents v).map s0.sc) :=
        mapM_some_map _ _ _ fun v hv => mapM_get m s0 _
          (fun u hu => (hty v (msc v hv).1 u hu).trans (msc v hv).2)
          (fun u hu => (hrel v (msc v hv).1 u hu).1)
      have q1 : (intScalar m l).mapM (fun v => (m.parents v).mapM (s1.get m)) =
          some ((intScalar m l).map fun v => (m.parents v).map s1.sc) :=
        mapM_some_map _ _ _ fun v hv => mapM_get m s1 _
          (fun u hu => (hty v (msc v hv).1 u hu).trans (msc v hv).2)
          (fun u hu => (hrel v (msc v hv).1 u hu).2.1)
      have y0 : (intSimd m l).mapM (fun v => (m.parents v).mapM (s0.getSimd m)) =
          some ((intSimd m l).map fun v => (m.parents v).map s0.ve) :=
        mapM_some_map _ _ _ fun v hv => mapM_getSimd m s0 _
          (fun u hu => (hty v (msi v hv).1 u hu).trans (msi v hv).2)
          (fun u hu => (hrel v (msi v hv).1 u hu).1)
      have y1 : (intSimd m l).mapM (fun v => (m.parents v).mapM (s1.getSimd m)) =
          some ((intSimd m l).map fun v => (m.parents v).map s1.ve) :=
        mapM_some_map _ _ _ fun v hv => mapM_getSimd m s1 _
          (fun u hu => (hty v (msi v hv).1 u hu).trans (msi v hv).2)
          (fun u hu => (hrel v (msi v hv).1 u hu).2.1)
      -- freeing
      have hfs : ∀ u ∈ fs, u ∈ done ++ niNodes l := by
        intro u hu
        obtain ⟨-, -, hne, hch⟩ := f1 u hu
        obtain ⟨w, hw'⟩ := List.exists_mem_of_ne_nil _ hne
        exact hcl' w (hch w hw') u (inParents_sub m w u ((mem_inChildren m u w).1 hw'))
      have hfree : SInv m R RV init0 init1 (free pr s0 fs) (free pr s1 fs) (done ++ niNodes l)
          (F ++ fs) := by
        constructor
        · intro u hu
          have : u ∉ fs := fun h' => hu (hfs u h')
          simpa [free, this] using hsi.fresh0 u hu
        · intro u hu
          have : u ∉ fs := fun h' => hu (hfs u h')
          simpa [free, this] using hsi.fresh1 u hu
        · intro u hu hne
          simp only [List.mem_append, not_or] at hne
          have := hsi.rel u hu hne.1
          simpa [Rel, free, hne.2] using this
      have hperm : (intScalar m l ++ intSimd m l).Perm (intNodes l) := by
        rw [hsc, hsi']; exact nodup_filter_perm _ _
      have hnd3 : (done ++ niNodes l ++ intScalar m l ++ intSimd m l).Nodup := by
        rw [List.append_assoc]
        exact ((hperm.append_left (done ++ niNodes l)).nodup_iff).2 hn1
      -- completing the layer from the results
      have key : ∀ msg0 msg1 tt0 tt1, Q l msg0 msg1 → computeMsgs pr m 0 s0 l (setup0 k (intCount m l)) = some (msg0, tt0) →
          computeMsgs pr m 1 s1 l (setup1 k (intCount m l)) = some (msg1, tt1) →
          ∀ u0 u1, finishLayer pr m 0 (free pr s0 fs) l msg0 msg1 tt0 = some u0 →
          finishLayer pr m 1 (free pr s1 fs) l msg1 msg0 tt1 = some u1 →
          SInv m R RV init0 init1 u0 u1 (done ++ niNodes l ++ intScalar m l ++ intSimd m l) (F ++ fs) →
          _ := fun msg0 msg1 tt0 tt1 hQ c0' c1' u0 u1 g0 g1 hu => by
        have hu' : SInv m R RV init0 init1 u0 u1 (done ++ niNodes l ++ intNodes l) (F ++ fs) := by
          have hm : ∀ u, u ∈ done ++ niNodes l ++ intScalar m l ++ intSimd m l ↔
              u ∈ done ++ niNodes l ++ intNodes l := by
            intro u
            rw [List.append_assoc]
            exact (hperm.append_left (done ++ niNodes l)).mem_iff
          exact ⟨fun u h' => hu.fresh0 u (fun h'' => h' ((hm u).1 h'')),
            fun u h' => hu.fresh1 u (fun h'' => h' ((hm u).1 h'')),
            fun u h' h'' => hu.rel u ((hm u).2 h') h''⟩
        have := ih (k + 1) u0 u1 (done ++ niNodes l ++ intNodes l) (F ++ fs) hu' (by
            intro u hu
            rcases List.mem_append.1 hu with hu | hu
            · exact freeOk_mono hF' (fun _ h => List.mem_append_left _ h) u hu
            · exact f1 u hu)
          (fun u hu => hfc u (by simpa only [List.flatMap_cons, List.append_assoc] using hu)) hclosed hn hall t3 (fun l' hl' => hni l' (List.mem_cons_of_mem _ hl'))
          (fun l' hl' => hint l' (List.mem_cons_of_mem _ hl')) f2 (by
            intro j l' hj
            have := hk (j + 1) l' (by simpa [interactiveLayers, hcnt] using hj)
            rwa [show k + 1 + j = k + (j + 1) by omega])
        have hil : interactiveLayers m (((l, fs) :: fl).map (·.1)) =
            l :: interactiveLayers m (fl.map (·.1)) := by
          simp [interactiveLayers, hcnt]
        have lift : ∀ o0 o1, Exchange Q o0 o1 (interactiveLayers m (fl.map (·.1)))
              (execLayers pr m 0 inp0 setup0 (k + 1) fl u0)
              (execLayers pr m 1 inp1 setup1 (k + 1) fl u1) →
            Exchange Q o0 o1 (interactiveLayers m (((l, fs) :: fl).map (·.1)))
              (execLayers pr m 0 inp0 setup0 k ((l, fs) :: fl) st0)
              (execLayers pr m 1 inp1 setup1 k ((l, fs) :: fl) st1) := by
          intro o0 o1 hr
          rw [hil]
          simp only [execLayers, d0', d1', hcnt, if_false, c0', c1']
          apply Exchange.round hQ
          simp only [g0, g1]
          exact hr
        show (isSimd m 0 = false → ∃ o0 o1 : List S,
          Exchange Q (.scalar o0) (.scalar o1) (interactiveLayers m (((l, fs) :: fl).map (·.1)))
            (execLayers pr m 0 inp0 setup0 k ((l, fs) :: fl) st0)
            (execLayers pr m 1 inp1 setup1 k ((l, fs) :: fl) st1) ∧ o0.length = c0.outputGates.length ∧
            o1.length = c0.outputGates.length ∧
            ∀ (i : Nat) g x0 x1, c0.outputGates[i]? = some g → o0[i]? = some x0 → o1[i]? = some x1 →
              R (0, g) x0 x1) ∧
        (isSimd m 0 = true → ∃ o0 o1 : List V,
          Exchange Q (.simd o0) (.simd o1) (interactiveLayers m (((l, fs) :: fl).map (·.1)))
            (execLayers pr m 0 inp0 setup0 k ((l, fs) :: fl) st0)
            (execLayers pr m 1 inp1 setup1 k ((l, fs) :: fl) st1) ∧ o0.length = c0.outputGates.length ∧
            o1.length = c0.outputGates.length ∧
            ∀ (i : Nat) g x0 x1, c0.outputGates[i]? = some g → o0[i]? = some x0 → o1[i]? = some x1 →
              RV (0, g) x0 x1)
        exact ⟨fun hs => by
            obtain ⟨o0, o1, hr, rest⟩ := this.1 hs
            exact ⟨o0, o1, lift _ _ hr, rest⟩,
          fun hs => by
            obtain ⟨o0, o1, hr, rest⟩ := this.2 hs
            exact ⟨o0, o1, lift _ _ hr, rest⟩⟩
      have fi0 : (intScalar m l).map (free pr s0 fs).sc = (intScalar m l).map init0.sc := i0
      have fi1 : (intScalar m l).map (free pr s1 fs).sc = (intScalar m l).map init1.sc := i1
      have fj0 : (intSimd m l).map (free pr s0 fs).ve = (intSimd m l).map init0.ve :=
        List.map_congr_left fun v hv => (hfree.fresh0 v (hdisj v (msi v hv).1)).2
      have fj1 : (intSimd m l).map (free pr s1 fs).ve = (intSimd m l).map init1.ve :=
        List.map_congr_left fun v hv => (hfree.fresh1 v (hdisj v (msi v hv).1)).2
      obtain ⟨u0, u1, p0, p1, hu⟩ := putAll_spec (intScalar m l) z0 z1 (free pr s0 fs) (free pr s1 fs)
        (done ++ niNodes l) (F ++ fs) hfree hnd3.of_append_left (fun v hv => (msc v hv).2) lz0 lz1 hz
      by_cases hsimd : pr.simd = true
      · simp only [hsimd, if_true] at hrest
        obtain ⟨b0, b1, t0', t1', w0, w1, r0', r1', B0, B1, E0, E1, W0, W1, hQ, lw0, lw1, hww⟩ := hrest
        obtain ⟨v0, v1, P0, P1, hu2⟩ := putAllSimd_spec (intSimd m l) w0 w1 u0 u1
          (done ++ niNodes l ++ intScalar m l) (F ++ fs) hu hnd3 (fun v hv => (msi v hv).2) lw0 lw1 hww
        exact key (a0, some b0) (a1, some b1) t0' t1' hQ
          (by simp [computeMsgs, hgs, q0, i0, A0, hsimd, hhs, y0, j0, B0])
          (by simp [computeMsgs, hgs, q1, i1, A1, hsimd, hhs, y1, j1, B1])
          v0 v1
          (by simp [finishLayer, hgs, fi0, E0, hhs, fj0, W0, p0, P0])
          (by simp [finishLayer, hgs, fi1, E1, hhs, fj1, W1, p1, P1]) hu2
      · simp only [hsimd, if_false, Bool.false_eq_true] at hrest
        obtain ⟨hnil, hQ, E0, E1⟩ := hrest
        exact key (a0, none) (a1, none) x0 x1 hQ
          (by simp [computeMsgs, hgs, q0, i0, A0, hsimd])
          (by simp [computeMsgs, hgs, q1, i1, A1, hsimd])
          u0 u1
          (by simp [finishLayer, hgs, fi0, E0, p0])
          (by simp [finishLayer, hgs, fi1, E1, p1]) (by rw [hnil, List.append_nil]; exact hu)

theorem freeCond_of_layers (hw : ExecWF m) (fl : List (MLayer × List Node)) (done : List Node)
    (h : FreeLayers m done fl) : FreeCond m (fl.flatMap (·.2)) := by
  induction fl generalizing done with
  | nil => intro u hu; simp at hu
  | cons p fl ih =>
    obtain ⟨l, fs⟩ := p
    intro u hu
    rw [List.flatMap_cons, List.mem_append] at hu
    rcases hu with hu | hu
    · obtain ⟨hs, -, hne, -⟩ := h.1 u hu
      refine ⟨fun v => hw.freeCross u v hs hne, fun c hc h0 hg => ?_⟩
      apply hne
      have := hw.freeOut c hc (h0 ▸ hs) u.2 hg
      rw [← h0] at this
      exact this
    · exact ih _ h.2 u hu

/-- The length of the input equals the number of input gates (executor.rs:146-150). -/
def InputLen (c : Base G) (inp : Input S V) : Prop :=
  match inp with
  | .scalar l => c.inputGates.length = l.length
  | .simd l => c.inputGates.length = l.length

/-- Related outputs. -/
def OutRel (c : Base G) (R : Node → S → S → Prop) (RV : Node → V → V → Prop) :
    Input S V → Input S V → Prop
  | .scalar o0, .scalar o1 => o0.length = c.outputGates.length ∧ o1.length = c.outputGates.length ∧
      ∀ (i : Nat) g x0 x1, c.outputGates[i]? = some g → o0[i]? = some x0 → o1[i]? = some x1 →
        R (0, g) x0 x1
  | .simd o0, .simd o1 => o0.length = c.outputGates.length ∧ o1.length = c.outputGates.length ∧
      ∀ (i : Nat) g x0 x1, c.outputGates[i]? = some g → o0[i]? = some x0 → o1[i]? = some x1 →
        RV (0, g) x0 x1
  | _, _ => False

/-- Two executors with an invariant-preserving protocol terminate under every schedule, with
related outputs. -/
theorem execute_spec_layers {rank : Node → Nat} (w : WF m rank) (hw : ExecWF m)
    (hS : ∀ it ls, MIter.new m = some it →
      MIter.collect m ((m.circs.map fun c => c.gates.length).sum + 1) it = some ls →
      LayersOk m ls → Sound pr m inp0 inp1 setup0 setup1 init0 init1 R RV Q ls)
    (c0 : Base G) (hc0 : m.circs[0]? = some c0) (hl0 : InputLen c0 inp0) (hl1 : InputLen c0 inp1) :
    ∃ it ls o0 o1, MIter.new m = some it ∧
      MIter.collect m ((m.circs.map fun c => c.gates.length).sum + 1) it = some ls ∧
      LayersOk m ls ∧ Exchange Q o0 o1 (interactiveLayers m ls)
      (execute pr m 0 inp0 setup0 init0) (execute pr m 1 inp1 setup1 init1) ∧
      OutRel c0 R RV o0 o1 ∧ (isSimd m 0 = false ↔ ∃ l, o0 = .scalar l) := by
  obtain ⟨it, ls, e1, e2, ok⟩ := layers_ok_partial m rank w
  have hS := hS it ls e1 e2 ok
  obtain ⟨fl, e3, hfl, hfree⟩ := freeable_spec (m := m) ls [] (fun _ => none)
    (by simpa using ok.once) (by intro u _; simp) (by intro w hw; simp at hw) ok.topo
  have ex0 : execute pr m 0 inp0 setup0 init0 = execLayers pr m 0 inp0 setup0 0 fl init0 := by
    cases inp0 <;> simp only [InputLen] at hl0 <;> simp [execute, hc0, hl0, e1, e2, e3]
  have ex1 : execute pr m 1 inp1 setup1 init1 = execLayers pr m 1 inp1 setup1 0 fl init1 := by
    cases inp1 <;> simp only [InputLen] at hl1 <;> simp [execute, hc0, hl1, e1, e2, e3]
  have := execLayers_spec hw.base hS fl 0 init0 init1 [] []
    ⟨fun _ _ => ⟨rfl, rfl⟩, fun _ _ => ⟨rfl, rfl⟩, by simp⟩ (by intro u hu; simp at hu)
    (freeCond_of_layers hw fl [] hfree) (by simp)
    (by rw [hfl]; simpa using ok.once) (by rw [hfl]; simpa using ok.all)
    (by rw [hfl]; exact ok.topo) (by rw [hfl]; exact ok.local_) (by rw [hfl]; exact ok.inter)
    hfree (by rw [hfl]; intro j l h; simpa using h) c0 hc0
  rw [ex0, ex1]
  cases hs : isSimd m 0 with
  | false =>
    obtain ⟨o0, o1, hr, rest⟩ := this.1 hs
    rw [hfl] at hr
    exact ⟨it, ls, _, _, e1, e2, ok, hr, rest, by simp⟩
  | true =>
    obtain ⟨o0, o1, hr, rest⟩ := this.2 hs
    rw [hfl] at hr
    exact ⟨it, ls, _, _, e1, e2, ok, hr, rest, by simp⟩

/-- `execute_spec_layers` without the layers. -/
theorem execute_spec' {rank : Node → Nat} (w : WF m rank) (hw : ExecWF m)
    (hS : ∀ it ls, MIter.new m = some it →
      MIter.collect m ((m.circs.map fun c => c.gates.length).sum + 1) it = some ls →
      LayersOk m ls → Sound pr m inp0 inp1 setup0 setup1 init0 init1 R RV Q ls)
    (c0 : Base G) (hc0 : m.circs[0]? = some c0) (hl0 : InputLen c0 inp0) (hl1 : InputLen c0 inp1) :
    ∃ ls o0 o1, LayersOk m ls ∧ Exchange Q o0 o1 (interactiveLayers m ls)
      (execute pr m 0 inp0 setup0 init0) (execute pr m 1 inp1 setup1 init1) ∧
      OutRel c0 R RV o0 o1 ∧ (isSimd m 0 = false ↔ ∃ l, o0 = .scalar l) := by
  obtain ⟨_, ls, o0, o1, _, _, h⟩ := execute_spec_layers w hw hS c0 hc0 hl0 hl1
  exact ⟨ls, o0, o1, h⟩

/-- `execute_spec'` with an invariant that holds for every layering. -/
theorem execute_spec {rank : Node → Nat} (w : WF m rank) (hw : ExecWF m)
    (hS : ∀ ls, LayersOk m ls → Sound pr m inp0 inp1 setup0 setup1 init0 init1 R RV Q ls)
    (c0 : Base G) (hc0 : m.circs[0]? = some c0) (hl0 : InputLen c0 inp0) (hl1 : InputLen c0 inp1) :
    ∃ ls o0 o1, LayersOk m ls ∧ Exchange Q o0 o1 (interactiveLayers m ls)
      (execute pr m 0 inp0 setup0 init0) (execute pr m 1 inp1 setup1 init1) ∧
      OutRel c0 R RV o0 o1 ∧ (isSimd m 0 = false ↔ ∃ l, o0 = .scalar l) :=
  execute_spec' w hw (fun _ ls _ _ ok => hS ls ok) c0 hc0 hl0 hl1

end Verif.Exec
