import Verif.Exec.Generic

/-!
Executions described by the shares of all gates: for scalar circuits, if every gate can be evaluated while
an invariant between the shares of both parties is kept, there is an assignment of shares that satisfies
the equations of all gates and layers, and the executors return its values at the output gates.  Unlike in
`Sound` the invariant may relate shares of different gates.
-/
set_option autoImplicit false

namespace Verif.Exec

open Circuit Proc

variable {G : Type} [GateLike G] {S V M MS T : Type}

/-- What a party computes at a local gate of a scalar circuit from the shares `F`. -/
def LocalEq (pr : Protocol G S V M MS T) (m : Multi G) (party : Nat) (xs : List S) (init : Node → S)
    (F : Node → S) (v : Node) (g : G) (z : S) : Prop :=
  match asBase g with
  | some (.constant val) => z = pr.shareConstant party (init v) val
  | some .input => ∃ (c : Base G) (i : Nat) (x : S), m.circs[0]? = some c ∧
      c.inputGates.findIdx? (· = v.2) = some i ∧ xs[i]? = some x ∧ pr.evalLocal party g [x] = some z
  | _ => pr.evalLocal party g ((m.parents v).map F) = some z

/-- What the parties compute in an interactive layer with the gates `vs`. -/
def LayerEq (pr : Protocol G S V M MS T) (m : Multi G) (init0 init1 : Node → S) (vs : List Node)
    (gs : List G) (t0 t1 : T) (F0 F1 : Node → S) (z0 z1 : List S) (a0 a1 : M) : Prop :=
  ∃ t0' t1' r0 r1,
    pr.computeMsg 0 gs (vs.map init0) (vs.map fun v => (m.parents v).map F0).flatten t0 = some (a0, t0') ∧
    pr.computeMsg 1 gs (vs.map init1) (vs.map fun v => (m.parents v).map F1).flatten t1 = some (a1, t1') ∧
    pr.evalInteractive 0 gs (vs.map init0) a0 a1 t0' = some (z0, r0) ∧
    pr.evalInteractive 1 gs (vs.map init1) a1 a0 t1' = some (z1, r1)

/-- The shares `F0`, `F1` satisfy all equations. -/
structure Joint (pr : Protocol G S V M MS T) (m : Multi G) (xs0 xs1 : List S)
    (setup0 setup1 : Nat → Nat → T) (init0 init1 : Node → S)
    (Q : MLayer → M × Option MS → M × Option MS → Prop) (ls : List MLayer) (F0 F1 : Node → S) : Prop where
  local_ : ∀ v g, m.gate? v = some g → interactive g = false →
    LocalEq pr m 0 xs0 init0 F0 v g (F0 v) ∧ LocalEq pr m 1 xs1 init1 F1 v g (F1 v)
  layer : ∀ (k : Nat) (l : MLayer), (interactiveLayers m ls)[k]? = some l → ∀ gs,
    (intNodes l).mapM m.gate? = some gs →
    ∃ a0 a1, LayerEq pr m init0 init1 (intNodes l) gs (setup0 k (intCount m l)) (setup1 k (intCount m l)) F0 F1
      ((intNodes l).map F0) ((intNodes l).map F1) a0 a1 ∧ Q l (a0, none) (a1, none)

/-- The executors return the shares at the output gates. -/
theorem execute_of_joint {pr : Protocol G S V M MS T} {m : Multi G} {rank : Node → Nat} (w : WF m rank)
    (hw : ExecWF m) (hsc : ∀ i, isSimd m i = false) (hpr : pr.simd = false)
    (hbase : ∀ g : G, asBase g ≠ none → interactive g = false) {xs0 xs1 : List S}
    {setup0 setup1 : Nat → Nat → T} {init0 init1 : Store S V}
    {Q : MLayer → M × Option MS → M × Option MS → Prop} {it : MIter} {ls : List MLayer}
    (e1 : MIter.new m = some it)
    (e2 : MIter.collect m ((m.circs.map fun c => c.gates.length).sum + 1) it = some ls)
    {F0 F1 : Node → S} (h : Joint pr m xs0 xs1 setup0 setup1 init0.sc init1.sc Q ls F0 F1)
    (c0 : Base G) (hc0 : m.circs[0]? = some c0) (hl0 : c0.inputGates.length = xs0.length)
    (hl1 : c0.inputGates.length = xs1.length) :
    Exchange Q (.scalar (c0.outputGates.map fun g => F0 (0, g))) (.scalar (c0.outputGates.map fun g => F1 (0, g)))
      (interactiveLayers m ls)
      (execute pr m 0 (.scalar xs0) setup0 init0) (execute pr m 1 (.scalar xs1) setup1 init1) := by
  have hint : ∀ l, intScalar m l = intNodes l ∧ intSimd m l = [] := by
    intro l
    rw [intScalar_eq, intSimd_eq]
    refine ⟨List.filter_eq_self.2 ?_, List.filter_eq_nil_iff.2 ?_⟩
    · intro v _; simp [hsc]
    · intro v _; simp [hsc]
  have hF : ∀ (us : List Node) (f F : Node → S), (∀ u ∈ us, f u = F u) → us.map f = us.map F :=
    fun us f F hu => List.map_congr_left hu
  have key := execute_spec_layers (pr := pr) (setup0 := setup0)
    (setup1 := setup1) (init0 := init0) (init1 := init1) (inp0 := .scalar xs0) (inp1 := .scalar xs1)
    (R := fun v x y => x = F0 v ∧ y = F1 v) (RV := fun _ _ _ => True) (Q := Q) w hw
    (by
      intro it' ls' e1' e2' ok
      rw [e1] at e1'
      cases e1'
      rw [e2] at e2'
      cases e2'
      refine ⟨?_, ?_, ?_, ?_, ?_, ?_, ?_, ?_, ?_⟩
      · intro v g val hg hb _
        have := h.local_ v g hg (hbase g (by simp [hb]))
        simp only [LocalEq, hb] at this
        exact ⟨this.1.symm, this.2.symm⟩
      · intro v g val _ _ hs
        rw [hsc] at hs; cases hs
      · intro _
        refine ⟨xs0, xs1, rfl, rfl, ?_⟩
        intro c i g hc hi gate hg hb
        have := h.local_ (0, g) gate hg (hbase gate (by simp [hb]))
        simp only [LocalEq, hb] at this
        obtain ⟨⟨c', i', x0, h1, h2, h3, h4⟩, c'', i'', x1, h1', h2', h3', h4'⟩ := this
        rw [hc] at h1 h1'
        cases h1
        cases h1'
        rw [hi] at h2 h2'
        cases h2
        cases h2'
        exact ⟨x0, x1, _, _, h3, h3', h4, h4', rfl, rfl⟩
      · intro hs
        rw [hsc] at hs; cases hs
      · intro v g hg hi _ h1 h2 h3 f0 f1 hf
        have := h.local_ v g hg hi
        rw [hF _ f0 F0 fun u hu => (hf u hu).1, hF _ f1 F1 fun u hu => (hf u hu).2]
        have hL : ∀ (p : Nat) (xs : List S) (init F : Node → S) (z : S),
            LocalEq pr m p xs init F v g z → pr.evalLocal p g ((m.parents v).map F) = some z := by
          intro p xs init F z hz
          unfold LocalEq at hz
          split at hz
          · rename_i val hb; exact absurd hb (h2 val)
          · rename_i hb; exact absurd hb h1
          · exact hz
        exact ⟨_, _, hL _ _ _ _ _ this.1, hL _ _ _ _ _ this.2, rfl, rfl⟩
      · intro v g _ _ hs
        rw [hsc] at hs; cases hs
      · intro v g _ _ _ hs
        rw [hsc] at hs; cases hs
      · intro v g k p hg hb hp
        obtain ⟨-, p', hp', hs⟩ := hw.fromSimd v g k hg hb
        rw [hsc] at hs; cases hs
      · intro k l hl gs hs hgs hhs f0 f1 h0 h1 hf _
        rw [(hint l).1] at hgs hf
        rw [(hint l).1]
        obtain ⟨a0, a1, ⟨t0, t1, r0, r1, q1, q2, q3, q4⟩, hQ⟩ := h.layer k l hl gs hgs
        have hf0 : (intNodes l).map (fun v => (m.parents v).map f0) =
            (intNodes l).map (fun v => (m.parents v).map F0) :=
          List.map_congr_left fun v hv => hF _ _ _ fun u hu => (hf v hv u hu).1
        have hf1 : (intNodes l).map (fun v => (m.parents v).map f1) =
            (intNodes l).map (fun v => (m.parents v).map F1) :=
          List.map_congr_left fun v hv => hF _ _ _ fun u hu => (hf v hv u hu).2
        refine ⟨a0, a1, t0, t1, (intNodes l).map F0, (intNodes l).map F1, r0, r1, ?_, ?_, by simp, by simp,
          ?_, ?_⟩
        · rw [hf0]; exact q1
        · rw [hf1]; exact q2
        · intro i v x0 x1 hi hx0 hx1
          simp only [List.getElem?_map, hi, Option.map_some, Option.some.injEq] at hx0 hx1
          exact ⟨hx0.symm, hx1.symm⟩
        · rw [hpr]
          simp only [Bool.false_eq_true, if_false]
          exact ⟨(hint l).2, hQ, q3, q4⟩)
    c0 hc0 hl0 hl1
  obtain ⟨it', ls', o0, o1, e1', e2', -, hx, hout, hty⟩ := key
  rw [e1] at e1'
  cases e1'
  rw [e2] at e2'
  cases e2'
  obtain ⟨l0, rfl⟩ := hty.1 (hsc 0)
  cases o1 with
  | simd o1 => simp [OutRel] at hout
  | scalar o1 =>
    obtain ⟨n0, n1, hR⟩ := hout
    have h0 : l0 = c0.outputGates.map fun g => F0 (0, g) := by
      apply List.ext_getElem (by simpa using n0)
      intro i h1 h2
      have h3 : i < c0.outputGates.length := by omega
      simpa using (hR i _ _ _ (List.getElem?_eq_getElem h3) (List.getElem?_eq_getElem h1)
        (List.getElem?_eq_getElem (by omega))).1
    have h1 : o1 = c0.outputGates.map fun g => F1 (0, g) := by
      apply List.ext_getElem (by simpa using n1)
      intro i h1 h2
      have h3 : i < c0.outputGates.length := by omega
      simpa using (hR i _ _ _ (List.getElem?_eq_getElem h3) (List.getElem?_eq_getElem (by omega))
        (List.getElem?_eq_getElem h1)).2
    rw [← h0, ← h1]
    exact hx

/-! ### Existence of the shares -/

omit [GateLike G] in
theorem valid_of_gate {m : Multi G} {v : Node} {g : G} (h : m.gate? v = some g) : m.Valid v := by
  simp only [Multi.gate?, Option.bind_eq_bind, Option.bind_eq_some_iff] at h
  obtain ⟨c, hc, hg⟩ := h
  exact ⟨c, hc, (List.getElem?_eq_some_iff.1 hg).1⟩

/-- In a scalar circuit every interactive gate counts once. -/
theorem intCount_scalar {m : Multi G} (hsc : ∀ i, isSimd m i = false) (l : MLayer) :
    intCount m l = (intNodes l).length := by
  have hlanes : ∀ i, lanes m i = 1 := by
    intro i
    have := hsc i
    unfold isSimd at this
    unfold lanes
    cases hc : m.circs[i]? with
    | none => rfl
    | some c =>
      rw [hc] at this
      cases hs : c.simdSize with
      | none => simp [hs]
      | some n => simp [hs] at this
  simp [intCount, intNodes, hlanes, List.length_flatMap]

theorem mapM_some {α β : Type} {f : α → Option β} (vs : List α) (h : ∀ v ∈ vs, ∃ g, f v = some g) :
    ∃ gs, vs.mapM f = some gs := by
  induction vs with
  | nil => exact ⟨[], rfl⟩
  | cons v vs ih =>
    obtain ⟨g, h1⟩ := h v List.mem_cons_self
    obtain ⟨gs, h2⟩ := ih fun u hu => h u (List.mem_cons_of_mem _ hu)
    exact ⟨g :: gs, by rw [List.mapM_cons, h1, h2]; rfl⟩

/-- Operands of visited gates are visited. -/
theorem topo_closed {parents : Node → List Node} {ls : List MLayer} {done : List Node}
    (h : TopoFrom parents done (ls.map fun l => (niNodes l, intNodes l)))
    (hd : ∀ v ∈ done, ∀ u ∈ parents v, u ∈ done) :
    ∀ v ∈ done ++ ls.flatMap layerNodes, ∀ u ∈ parents v, u ∈ done ++ ls.flatMap layerNodes := by
  induction ls generalizing done with
  | nil => simpa using hd
  | cons l ls ih =>
    obtain ⟨h1, h2, h3⟩ := h
    have := ih h3 (by
      intro v hv u hu
      rcases List.mem_append.1 hv with hv | hv
      · rcases List.mem_append.1 hv with hv | hv
        · exact List.mem_append_left _ (List.mem_append_left _ (hd v hv u hu))
        · obtain ⟨a, b, hab⟩ := List.append_of_mem hv
          rcases List.mem_append.1 (h1 a v b hab u hu) with hx | hx
          · exact List.mem_append_left _ (List.mem_append_left _ hx)
          · exact List.mem_append_left _ (List.mem_append_right _ (by rw [hab]; simp [hx]))
      · exact List.mem_append_left _ (h2 v hv u hu))
    simpa [layerNodes] using this

theorem localEq_congr {pr : Protocol G S V M MS T} {m : Multi G} {party : Nat} {xs : List S}
    {init F F' : Node → S} {v : Node} {g : G} {z : S} (hF : ∀ u ∈ m.parents v, F' u = F u)
    (h : LocalEq pr m party xs init F v g z) : LocalEq pr m party xs init F' v g z := by
  unfold LocalEq at h ⊢
  rw [List.map_congr_left hF]
  exact h

theorem layerEq_congr {pr : Protocol G S V M MS T} {m : Multi G} {init0 init1 : Node → S}
    {vs : List Node} {gs : List G} {t0 t1 : T} {F0 F1 F0' F1' : Node → S} {z0 z1 : List S} {a0 a1 : M}
    (hF : ∀ v ∈ vs, ∀ u ∈ m.parents v, F0' u = F0 u ∧ F1' u = F1 u)
    (h : LayerEq pr m init0 init1 vs gs t0 t1 F0 F1 z0 z1 a0 a1) :
    LayerEq pr m init0 init1 vs gs t0 t1 F0' F1' z0 z1 a0 a1 := by
  unfold LayerEq at h ⊢
  rw [List.map_congr_left fun v hv => List.map_congr_left fun u hu => (hF v hv u hu).1,
    List.map_congr_left (f := fun v => (m.parents v).map F1') fun v hv =>
      List.map_congr_left fun u hu => (hF v hv u hu).2]
  exact h

/-- Progress: every local gate and every interactive layer can be evaluated on related operands, with
related results. -/
structure Progress (pr : Protocol G S V M MS T) (m : Multi G) (xs0 xs1 : List S)
    (setup0 setup1 : Nat → Nat → T) (init0 init1 : Node → S)
    (Q : MLayer → M × Option MS → M × Option MS → Prop) (ls : List MLayer)
    (R : Node → S → S → Prop) : Prop where
  local_ : ∀ v g, m.gate? v = some g → interactive g = false → ∀ F0 F1 : Node → S,
    (∀ u ∈ m.parents v, R u (F0 u) (F1 u)) →
    ∃ z0 z1, LocalEq pr m 0 xs0 init0 F0 v g z0 ∧ LocalEq pr m 1 xs1 init1 F1 v g z1 ∧ R v z0 z1
  layer : ∀ (k : Nat) (l : MLayer), (interactiveLayers m ls)[k]? = some l → ∀ gs,
    (intNodes l).mapM m.gate? = some gs → ∀ F0 F1 : Node → S,
    (∀ v ∈ intNodes l, ∀ u ∈ m.parents v, R u (F0 u) (F1 u)) →
    ∃ z0 z1 a0 a1, LayerEq pr m init0 init1 (intNodes l) gs (setup0 k (intCount m l))
        (setup1 k (intCount m l)) F0 F1 z0 z1 a0 a1 ∧ Q l (a0, none) (a1, none) ∧
      z0.length = (intNodes l).length ∧ z1.length = (intNodes l).length ∧
      ∀ (i : Nat) v x0 x1, (intNodes l)[i]? = some v → z0[i]? = some x0 → z1[i]? = some x1 → R v x0 x1

section
variable (pr : Protocol G S V M MS T) (m : Multi G) (xs0 xs1 : List S) (setup0 setup1 : Nat → Nat → T)
  (init0 init1 : Node → S) (Q : MLayer → M × Option MS → M × Option MS → Prop) (R : Node → S → S → Prop)

/-- The shares of the gates `done` and the layers `pre` are right. -/
structure Built (done : List Node) (pre : List MLayer) (F0 F1 : Node → S) : Prop where
  closed : ∀ v ∈ done, ∀ u ∈ m.parents v, u ∈ done
  sub : ∀ l ∈ pre, ∀ v ∈ intNodes l, v ∈ done
  local_ : ∀ v ∈ done, ∀ g, m.gate? v = some g → interactive g = false →
    LocalEq pr m 0 xs0 init0 F0 v g (F0 v) ∧ LocalEq pr m 1 xs1 init1 F1 v g (F1 v)
  layer : ∀ (k : Nat) (l : MLayer), (interactiveLayers m pre)[k]? = some l → ∀ gs,
    (intNodes l).mapM m.gate? = some gs →
    ∃ a0 a1, LayerEq pr m init0 init1 (intNodes l) gs (setup0 k (intCount m l)) (setup1 k (intCount m l)) F0 F1
      ((intNodes l).map F0) ((intNodes l).map F1) a0 a1 ∧ Q l (a0, none) (a1, none)
  rel : ∀ v ∈ done, R v (F0 v) (F1 v)

variable {pr m xs0 xs1 setup0 setup1 init0 init1 Q R}

theorem interactiveLayers_mem {pre : List MLayer} {k : Nat} {l : MLayer}
    (h : (interactiveLayers m pre)[k]? = some l) : l ∈ pre :=
  (List.mem_filter.1 (List.mem_of_getElem? h)).1

/-- New shares outside `done` do not matter. -/
theorem Built.agree {done : List Node} {pre : List MLayer} {F0 F1 F0' F1' : Node → S}
    (h : Built pr m xs0 xs1 setup0 setup1 init0 init1 Q R done pre F0 F1)
    (hF : ∀ u ∈ done, F0' u = F0 u ∧ F1' u = F1 u) :
    Built pr m xs0 xs1 setup0 setup1 init0 init1 Q R done pre F0' F1' := by
  refine ⟨h.closed, h.sub, ?_, ?_, ?_⟩
  · intro v hv g hg hi
    obtain ⟨h0, h1⟩ := h.local_ v hv g hg hi
    rw [(hF v hv).1, (hF v hv).2]
    exact ⟨localEq_congr (fun u hu => (hF u (h.closed v hv u hu)).1) h0,
      localEq_congr (fun u hu => (hF u (h.closed v hv u hu)).2) h1⟩
  · intro k l hl gs hgs
    obtain ⟨a0, a1, he, hQ⟩ := h.layer k l hl gs hgs
    have hs := h.sub l (interactiveLayers_mem hl)
    refine ⟨a0, a1, ?_, hQ⟩
    rw [List.map_congr_left fun v hv => (hF v (hs v hv)).1,
      List.map_congr_left (f := F1') fun v hv => (hF v (hs v hv)).2]
    exact layerEq_congr (fun v hv u hu => hF u (h.closed v (hs v hv) u hu)) he
  · intro v hv
    rw [(hF v hv).1, (hF v hv).2]
    exact h.rel v hv

theorem Built.ni {ls : List MLayer} (hp : Progress pr m xs0 xs1 setup0 setup1 init0 init1 Q ls R)
    {pre : List MLayer} (ns : List Node) : ∀ {done : List Node} {F0 F1 : Node → S},
    Built pr m xs0 xs1 setup0 setup1 init0 init1 Q R done pre F0 F1 → (done ++ ns).Nodup →
    (∀ a v b, ns = a ++ v :: b → ∀ u ∈ m.parents v, u ∈ done ++ a) →
    (∀ v ∈ ns, ∃ g, m.gate? v = some g ∧ interactive g = false) →
    ∃ F0' F1', Built pr m xs0 xs1 setup0 setup1 init0 init1 Q R (done ++ ns) pre F0' F1' := by
  induction ns with
  | nil => intro done F0 F1 h _ _ _; exact ⟨F0, F1, by simpa using h⟩
  | cons v ns ih =>
    intro done F0 F1 h hnd ht hg
    obtain ⟨g, hgv, hgi⟩ := hg v List.mem_cons_self
    have hpar : ∀ u ∈ m.parents v, u ∈ done := by
      intro u hu
      simpa using ht [] v ns rfl u hu
    obtain ⟨z0, z1, e0, e1, er⟩ := hp.local_ v g hgv hgi F0 F1 fun u hu => h.rel u (hpar u hu)
    have hv : v ∉ done := by
      intro hv
      have := (List.nodup_append.1 hnd).2.2 v hv v List.mem_cons_self
      exact this rfl
    generalize hA0 : (fun u => if u = v then z0 else F0 u) = A0
    generalize hA1 : (fun u => if u = v then z1 else F1 u) = A1
    have hne : ∀ u ∈ done, u ≠ v := by rintro u hu rfl; exact hv hu
    have hag : ∀ u ∈ done, A0 u = F0 u ∧ A1 u = F1 u := by
      intro u hu
      subst hA0 hA1
      simp [hne u hu]
    have hv0 : A0 v = z0 := by subst hA0; simp
    have hv1 : A1 v = z1 := by subst hA1; simp
    have h' := h.agree hag
    have hb : Built pr m xs0 xs1 setup0 setup1 init0 init1 Q R (done ++ [v]) pre A0 A1 := by
      refine ⟨?_, fun l hl u hu => List.mem_append_left _ (h'.sub l hl u hu), ?_, h'.layer, ?_⟩
      · intro w hw u hu
        rcases List.mem_append.1 hw with hw | hw
        · exact List.mem_append_left _ (h'.closed w hw u hu)
        · rw [List.mem_singleton.1 hw] at hu
          exact List.mem_append_left _ (hpar u hu)
      · intro w hw g' hg' hi'
        rcases List.mem_append.1 hw with hw | hw
        · exact h'.local_ w hw g' hg' hi'
        · rw [List.mem_singleton.1 hw] at hg' ⊢
          rw [hgv] at hg'
          cases hg'
          rw [hv0, hv1]
          exact ⟨localEq_congr (fun u hu => (hag u (hpar u hu)).1) e0,
            localEq_congr (fun u hu => (hag u (hpar u hu)).2) e1⟩
      · intro w hw
        rcases List.mem_append.1 hw with hw | hw
        · exact h'.rel w hw
        · rw [List.mem_singleton.1 hw, hv0, hv1]
          exact er
    obtain ⟨B0, B1, hB⟩ := ih hb (by simpa using hnd)
      (by
        intro a u b hab x hx
        have := ht (v :: a) u b (by rw [hab]; rfl) x hx
        simpa using this)
      (fun u hu => hg u (List.mem_cons_of_mem _ hu))
    exact ⟨B0, B1, by simpa using hB⟩

theorem map_lookup {vs : List Node} (hnd : vs.Nodup) {z : List S} (hz : z.length = vs.length)
    (F : Node → S) : vs.map (fun u => (z[vs.idxOf u]?).getD (F u)) = z := by
  apply List.ext_getElem (by simp [hz])
  intro i h1 h2
  have h3 : i < vs.length := by omega
  simp [hnd.idxOf_getElem i h3, h2]

theorem Built.int {ls : List MLayer} (hp : Progress pr m xs0 xs1 setup0 setup1 init0 init1 Q ls R)
    (hsc : ∀ i, isSimd m i = false) {pre post : List MLayer} {l : MLayer} (hls : ls = pre ++ l :: post)
    {done : List Node} {F0 F1 : Node → S}
    (h : Built pr m xs0 xs1 setup0 setup1 init0 init1 Q R done pre F0 F1)
    (hnd : (done ++ intNodes l).Nodup) (ht : ∀ v ∈ intNodes l, ∀ u ∈ m.parents v, u ∈ done)
    (hg : ∀ v ∈ intNodes l, ∃ g, m.gate? v = some g ∧ interactive g = true) :
    ∃ F0' F1', Built pr m xs0 xs1 setup0 setup1 init0 init1 Q R (done ++ intNodes l) (pre ++ [l]) F0' F1' := by
  have hcnt := intCount_scalar hsc l
  obtain ⟨-, hnd2, hdis⟩ := List.nodup_append.1 hnd
  by_cases h0 : intCount m l = 0
  · have hn : intNodes l = [] := List.length_eq_zero_iff.1 (hcnt ▸ h0)
    have hil : interactiveLayers m (pre ++ [l]) = interactiveLayers m pre := by
      simp [interactiveLayers, h0]
    refine ⟨F0, F1, ?_⟩
    rw [hn, List.append_nil]
    refine ⟨h.closed, ?_, h.local_, by rw [hil]; exact h.layer, h.rel⟩
    intro l' hl' v hv
    rcases List.mem_append.1 hl' with hl' | hl'
    · exact h.sub l' hl' v hv
    · rw [List.mem_singleton.1 hl', hn] at hv
      cases hv
  · have hil : interactiveLayers m (pre ++ [l]) = interactiveLayers m pre ++ [l] := by
      simp [interactiveLayers, h0]
    have hk : (interactiveLayers m ls)[(interactiveLayers m pre).length]? = some l := by
      rw [hls]
      have : interactiveLayers m (pre ++ l :: post) =
          interactiveLayers m pre ++ l :: interactiveLayers m post := by
        simp [interactiveLayers, h0]
      rw [this]
      simp
    obtain ⟨gs, hgs⟩ := mapM_some (f := m.gate?) (intNodes l) fun v hv => by
      obtain ⟨g, h1, -⟩ := hg v hv
      exact ⟨g, h1⟩
    obtain ⟨z0, z1, a0, a1, he, hQ, n0, n1, hR⟩ := hp.layer _ l hk gs hgs F0 F1
      fun v hv u hu => h.rel u (ht v hv u hu)
    generalize hA0 : (fun u => (z0[(intNodes l).idxOf u]?).getD (F0 u)) = A0
    generalize hA1 : (fun u => (z1[(intNodes l).idxOf u]?).getD (F1 u)) = A1
    have hm0 : (intNodes l).map A0 = z0 := by rw [← hA0]; exact map_lookup hnd2 n0 F0
    have hm1 : (intNodes l).map A1 = z1 := by rw [← hA1]; exact map_lookup hnd2 n1 F1
    have hag : ∀ u ∈ done, A0 u = F0 u ∧ A1 u = F1 u := by
      intro u hu
      have hni : u ∉ intNodes l := fun hu' => hdis u hu u hu' rfl
      have hid : (intNodes l).idxOf u = (intNodes l).length := List.idxOf_eq_length hni
      subst hA0 hA1
      simp [hid, n0, n1]
    have h' := h.agree hag
    refine ⟨A0, A1, ?_, ?_, ?_, ?_, ?_⟩
    · intro w hw u hu
      rcases List.mem_append.1 hw with hw | hw
      · exact List.mem_append_left _ (h'.closed w hw u hu)
      · exact List.mem_append_left _ (ht w hw u hu)
    · intro l' hl' v hv
      rcases List.mem_append.1 hl' with hl' | hl'
      · exact List.mem_append_left _ (h'.sub l' hl' v hv)
      · rw [List.mem_singleton.1 hl'] at hv
        exact List.mem_append_right _ hv
    · intro w hw g' hg' hi'
      rcases List.mem_append.1 hw with hw | hw
      · exact h'.local_ w hw g' hg' hi'
      · obtain ⟨g'', h1, h2⟩ := hg w hw
        rw [hg'] at h1
        cases h1
        rw [hi'] at h2
        cases h2
    · intro k l' hl' gs' hgs'
      rw [hil, List.getElem?_append] at hl'
      split at hl'
      · exact h'.layer k l' hl' gs' hgs'
      · rename_i hlt
        have hk0 : k = (interactiveLayers m pre).length := by
          have := (List.getElem?_eq_some_iff.1 hl').1
          simp at this
          omega
        subst hk0
        simp only [Nat.sub_self, List.getElem?_cons_zero, Option.some.injEq] at hl'
        subst hl'
        rw [hgs] at hgs'
        cases hgs'
        rw [hm0, hm1]
        exact ⟨a0, a1, layerEq_congr (fun v hv u hu => hag u (ht v hv u hu)) he, hQ⟩
    · intro w hw
      rcases List.mem_append.1 hw with hw | hw
      · exact h'.rel w hw
      · obtain ⟨i, hi⟩ := List.mem_iff_getElem?.1 hw
        refine hR i w (A0 w) (A1 w) hi ?_ ?_
        · rw [← hm0]; simp [hi]
        · rw [← hm1]; simp [hi]

theorem Built.all {ls : List MLayer} (hp : Progress pr m xs0 xs1 setup0 setup1 init0 init1 Q ls R)
    (hsc : ∀ i, isSimd m i = false) (post : List MLayer) : ∀ {pre : List MLayer} {done : List Node}
    {F0 F1 : Node → S}, ls = pre ++ post →
    Built pr m xs0 xs1 setup0 setup1 init0 init1 Q R done pre F0 F1 →
    (done ++ post.flatMap layerNodes).Nodup →
    TopoFrom m.parents done (post.map fun l => (niNodes l, intNodes l)) →
    (∀ l ∈ post, ∀ v ∈ niNodes l, ∃ g, m.gate? v = some g ∧ interactive g = false) →
    (∀ l ∈ post, ∀ v ∈ intNodes l, ∃ g, m.gate? v = some g ∧ interactive g = true) →
    ∃ F0' F1', Built pr m xs0 xs1 setup0 setup1 init0 init1 Q R (done ++ post.flatMap layerNodes) ls F0' F1' := by
  induction post with
  | nil =>
    intro pre done F0 F1 hls h _ _ _ _
    rw [List.append_nil] at hls
    subst hls
    exact ⟨F0, F1, by simpa using h⟩
  | cons l post ih =>
    intro pre done F0 F1 hls h hnd ht hl hi
    obtain ⟨t1, t2, t3⟩ := ht
    have e : done ++ (l :: post).flatMap layerNodes =
        done ++ niNodes l ++ intNodes l ++ post.flatMap layerNodes := by
      simp [layerNodes]
    rw [e] at hnd ⊢
    have nd1 := (List.nodup_append.1 hnd).1
    have nd2 := (List.nodup_append.1 nd1).1
    obtain ⟨A0, A1, hA⟩ := Built.ni hp (niNodes l) h nd2 t1 (hl l List.mem_cons_self)
    obtain ⟨B0, B1, hB⟩ := Built.int hp hsc hls hA nd1 t2 (hi l List.mem_cons_self)
    exact ih (by rw [hls]; simp) hB hnd t3 (fun l' hl' => hl l' (List.mem_cons_of_mem _ hl'))
      (fun l' hl' => hi l' (List.mem_cons_of_mem _ hl'))

/-- With progress, shares of all gates exist. -/
theorem joint_exists {ls : List MLayer} (ok : LayersOk m ls) (hsc : ∀ i, isSimd m i = false)
    (hp : Progress pr m xs0 xs1 setup0 setup1 init0 init1 Q ls R) :
    ∃ F0 F1, Joint pr m xs0 xs1 setup0 setup1 init0 init1 Q ls F0 F1 ∧ ∀ v, m.Valid v → R v (F0 v) (F1 v) := by
  obtain ⟨F0, F1, h⟩ := Built.all hp hsc ls (pre := []) (done := []) (F0 := init0) (F1 := init1) rfl
    ⟨by simp, by simp, by simp, by simp [interactiveLayers], by simp⟩ (by simpa using ok.once) ok.topo ok.local_ ok.inter
  rw [List.nil_append] at h
  refine ⟨F0, F1, ⟨?_, h.layer⟩, fun v hv => h.rel v ((ok.all v).2 hv)⟩
  intro v g hg hi
  exact h.local_ v ((ok.all v).2 (valid_of_gate hg)) g hg hi

end

end Verif.Exec
