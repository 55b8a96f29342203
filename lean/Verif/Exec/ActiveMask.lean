import Verif.Exec.ActiveScalar

/-!
C100: `Executor::execute` against an arbitrary peer, for protocols without SIMD support whose masks are in the gate outputs
prepared by `setup_gate_outputs`.  What has to be known of the protocol is collected in `OutMasking`.
-/
set_option autoImplicit false

namespace Verif.Exec

open Circuit Proc

variable {G : Type} [GateLike G] {S V M MS T X D : Type}

/-! ### Specification -/

/-- A choice of masks for each layer with interactive gates. -/
def FitL (Xs : MLayer → Set X) (m : Multi G) (ls : List MLayer) (x : List X) : Prop :=
  List.Forall₂ (fun l a => a ∈ Xs l) (interactiveLayers m ls) x

/-- The setup data of the `k`-th layer with interactive gates; it may depend on the masks of the gates of earlier layers. -/
def histData (su : List X → T) (x : List X) (k _n : Nat) : T := su (x.take k)

/-- Masks for the first layers with interactive gates. -/
def FitPre (Xs : MLayer → Set X) (m : Multi G) (ls : List MLayer) (a : List X) : Prop :=
  List.Forall₂ (fun l a => a ∈ Xs l) ((interactiveLayers m ls).take a.length) a

/-- The gate outputs before the execution contain the masks. -/
def HoldsMasks (m : Multi G) (ls : List MLayer) (outs : X → List S) (none_ : X) (x : List X) (s : Store S V) : Prop :=
  ∀ k l, (interactiveLayers m ls)[k]? = some l → (intScalar m l).map s.sc = outs (x.getD k none_)

/-- What masks a protocol: for every layer, every two lists of operands of the same kinds (`R`) and every two setups of the
same kinds (`Q`) there is a permutation of the masks in the gate outputs that gives the same messages; and the results (gates
for which there is no answer keep their output) are again of the same kinds. -/
structure OutMasking (pr : Protocol G S V M MS T) (m : Multi G) (R : S → S → Prop) (Q : T → T → Prop) (party : Nat)
    (Xs : MLayer → Set X) (outs : X → List S) : Prop where
  simd : pr.simd = false
  local_ : ∀ (g : G) (xs ys : List S), List.Forall₂ R xs ys → OptRel R (pr.evalLocal party g xs) (pr.evalLocal party g ys)
  noConst : ∀ v g c, m.gate? v = some g → asBase g ≠ some (.constant c)
  layer : ∀ (l : MLayer) (gs : List G), (intScalar m l).mapM m.gate? = some gs → ∀ (xs ys : List S), List.Forall₂ R xs ys →
    ∀ t t' : T, Q t t' →
    ∃ φ : X → X, Set.BijOn φ (Xs l) (Xs l) ∧ ∀ x ∈ Xs l, (outs x).length = gs.length ∧
      OptRel (fun a b => a.1 = b.1 ∧
          ∀ other : M, OptRel (fun z z' => List.Forall₂ R (z.1 ++ (outs x).drop z.1.length)
              (z'.1 ++ (outs (φ x)).drop z'.1.length) ∧ z.1.length ≤ gs.length)
            (pr.evalInteractive party gs (outs x) a.1 other a.2)
            (pr.evalInteractive party gs (outs (φ x)) b.1 other b.2))
        (pr.computeMsg party gs (outs x) xs t) (pr.computeMsg party gs (outs (φ x)) ys t')

/-! ### The masks as part of the setup -/

/-- The protocol with the prepared gate outputs as part of the setup. -/
def taped (pr : Protocol G S V M MS T) : Protocol G S V M MS (T × List S) where
  shareConstant := pr.shareConstant
  evalLocal := pr.evalLocal
  computeMsg party gs _ xs t := (pr.computeMsg party gs t.2 xs t.1).map fun r => (r.1, (r.2, t.2))
  evalInteractive party gs _ own other t :=
    (pr.evalInteractive party gs t.2 own other t.1).map fun r => (r.1 ++ t.2.drop r.1.length, (r.2, t.2))
  simd := pr.simd
  shareConstantSimd := pr.shareConstantSimd
  evalLocalSimd := pr.evalLocalSimd
  computeMsgSimd party gs o xs t := (pr.computeMsgSimd party gs o xs t.1).map fun r => (r.1, (r.2, t.2))
  evalInteractiveSimd party gs o own other t :=
    (pr.evalInteractiveSimd party gs o own other t.1).map fun r => (r.1, (r.2, t.2))
  get := pr.get
  collect := pr.collect
  empty := pr.empty

/-- The same entries are set, to values of the same kinds for the gates `E` evaluated so far. -/
structure AlikeD (E : List Node) (R : S → S → Prop) (st st' : Store S V) : Prop where
  set : st.set = st'.set
  rel : ∀ v ∈ E, R (st.sc v) (st'.sc v)

section
variable {R : S → S → Prop} {m : Multi G} {st st' : Store S V} {E : List Node}

theorem getD_ (hsc : ∀ i, isSimd m i = false) (h : AlikeD E R st st') {v : Node} (hv : v ∈ E) :
    OptRel R (st.get m v) (st'.get m v) := by
  unfold Store.get
  rw [← h.set, hsc]
  simp only [Bool.false_eq_true, if_false]
  cases st.set v with
  | true => exact h.rel v hv
  | false => trivial

theorem getsD (hsc : ∀ i, isSimd m i = false) (h : AlikeD E R st st') : ∀ {l : List Node}, (∀ v ∈ l, v ∈ E) →
    OptRel (List.Forall₂ R) (l.mapM (st.get m)) (l.mapM (st'.get m))
  | [], _ => .nil
  | v :: l, hl => by
    simp only [List.mapM_cons, Option.bind_eq_bind, Option.pure_def]
    refine (getD_ hsc h (hl v (by simp))).bind fun x y hxy =>
      (getsD hsc h fun u hu => hl u (by simp [hu])).bind fun xs ys hx => ?_
    exact .cons hxy hx

theorem putD (hsc : ∀ i, isSimd m i = false) (h : AlikeD E R st st') (v : Node) {a b : S} (hab : R a b) :
    OptRel (AlikeD (E ++ [v]) R) (st.put m v a) (st'.put m v b) := by
  unfold Store.put
  rw [hsc]
  simp only [Bool.false_eq_true, if_false]
  refine ⟨by simp [h.set], fun u hu => ?_⟩
  dsimp only
  by_cases huv : u = v
  · rw [if_pos huv, if_pos huv]; exact hab
  · rw [if_neg huv, if_neg huv]
    simp only [List.mem_append, List.mem_singleton, huv, or_false] at hu
    exact h.rel u hu

variable {pr : Protocol G S V M MS T} {party : Nat}

theorem evalNodeD
    (hlo : ∀ (g : G) (xs ys : List S), List.Forall₂ R xs ys →
      OptRel R (pr.evalLocal party g xs) (pr.evalLocal party g ys))
    (hnc : ∀ v g c, m.gate? v = some g → asBase g ≠ some (.constant c))
    (hsc : ∀ i, isSimd m i = false) {xs ys : List S}
    (hin : List.Forall₂ R xs ys) (h : AlikeD E R st st') {v : Node} (hp : ∀ u ∈ m.parents v, u ∈ E) :
    OptRel (AlikeD (E ++ [v]) R) (evalNode pr m party (.scalar xs) st v) (evalNode pr m party (.scalar ys) st' v) := by
  unfold evalNode
  simp only [Option.bind_eq_bind]
  cases hgv : m.gate? v with
  | none => trivial
  | some g =>
  simp only [Option.bind_some]
  have def1 : OptRel (AlikeD (E ++ [v]) R)
      (((m.parents v).mapM (st.get m)).bind fun xs => (pr.evalLocal party g xs).bind fun o => st.put m v o)
      (((m.parents v).mapM (st'.get m)).bind fun xs => (pr.evalLocal party g xs).bind fun o => st'.put m v o) :=
    (getsD hsc h hp).bind fun xs ys hx => (hlo g xs ys hx).bind fun a b hab => putD hsc h v hab
  have no : ∀ (p : Node) (s : Store S V), s.getSimd m p = none := by
    intro p s; simp [Store.getSimd, hsc]
  cases hg : asBase g with
  | none => simp only [hsc, Bool.false_eq_true, if_false]; exact def1
  | some b =>
    cases b with
    | input =>
      dsimp only
      split
      · refine OptRel.bind_eq fun c => OptRel.bind_eq fun idx => ?_
        simp only [hsc]
        exact (getElem_rel hin idx).bind fun x y hxy =>
          (hlo g [x] [y] (.cons hxy .nil)).bind fun a b hab => putD hsc h v hab
      · trivial
    | subCircuitInput => simp only [hsc]; exact def1
    | connectToMainFromSimd sel =>
      dsimp only
      refine OptRel.bind_eq fun p => ?_
      rw [no, no]
      trivial
    | constant val => exact absurd hg (hnc v g val hgv)
    | _ => simp only [hsc, Bool.false_eq_true, if_false]; exact def1

theorem evalNodesD
    (hlo : ∀ (g : G) (xs ys : List S), List.Forall₂ R xs ys →
      OptRel R (pr.evalLocal party g xs) (pr.evalLocal party g ys))
    (hnc : ∀ v g c, m.gate? v = some g → asBase g ≠ some (.constant c))
    (hsc : ∀ i, isSimd m i = false) {xs ys : List S}
    (hin : List.Forall₂ R xs ys) (vs : List Node) : ∀ {E : List Node} {st st' : Store S V}, AlikeD E R st st' →
    (∀ a v b, vs = a ++ v :: b → ∀ u ∈ m.parents v, u ∈ E ++ a) →
    OptRel (AlikeD (E ++ vs) R) (evalNodes pr m party (.scalar xs) st vs) (evalNodes pr m party (.scalar ys) st' vs) := by
  induction vs with
  | nil => intro E st st' h _; simpa [evalNodes, OptRel] using h
  | cons v vs ih =>
    intro E st st' h hp
    simp only [evalNodes, Option.bind_eq_bind]
    refine (evalNodeD hlo hnc hsc hin h fun u hu => ?_).bind fun a b hab => ?_
    · simpa using hp [] v vs rfl u hu
    · have := ih hab fun a' v' b' e u hu => by
        have := hp (v :: a') v' b' (by simp [e]) u hu
        simpa using this
      simpa using this

theorem putAllD (hsc : ∀ i, isSimd m i = false) (vs : List Node) : ∀ {E : List Node} {st st' : Store S V} {xs ys : List S},
    AlikeD E R st st' → List.Forall₂ R xs ys → xs.length = vs.length →
    OptRel (AlikeD (E ++ vs) R) (putAll m st vs xs) (putAll m st' vs ys) := by
  induction vs with
  | nil => intro E st st' xs ys h _ _; simpa [putAll, OptRel] using h
  | cons v vs ih =>
    intro E st st' xs ys h hl hlen
    cases hl with
    | nil => simp at hlen
    | cons h0 hl =>
      simp only [putAll, Option.bind_eq_bind]
      refine (putD hsc h v h0).bind fun a b hab => ?_
      have := ih hab hl (by simpa using hlen)
      simpa using this

theorem outputsD (hsc : ∀ i, isSimd m i = false) (h : AlikeD E R st st') :
    OptRel (fun _ _ => True) (outputs m st) (outputs m st') := by
  unfold outputs
  simp only [Option.bind_eq_bind, Option.pure_def]
  refine OptRel.bind_eq fun c => ?_
  simp only [hsc, Bool.false_eq_true, if_false]
  refine (mapM_rel (R := fun _ _ => True) (fun g => ?_) _).bind fun _ _ _ => trivial
  unfold Store.get
  rw [← h.set, hsc]
  simp only [Bool.false_eq_true, if_false]
  cases st.set (0, g) <;> trivial

/-! ### The two protocols do the same -/

/-- Nodes that are not written keep their values. -/
theorem put_keeps {s s1 : Store S V} {v : Node} {a : S} (h : s.put m v a = some s1) {u : Node} (hu : u ≠ v) :
    s1.sc u = s.sc u ∧ s1.set u = s.set u := by
  unfold Store.put at h
  split at h
  · cases h
  · cases h
    simp [hu]

theorem putSimd_keeps {s s1 : Store S V} {v : Node} {a : V} (h : s.putSimd m v a = some s1) {u : Node} (hu : u ≠ v) :
    s1.sc u = s.sc u ∧ s1.set u = s.set u := by
  unfold Store.putSimd at h
  split at h
  · cases h
    simp [hu]
  · cases h

theorem evalNode_keeps (hsc : ∀ i, isSimd m i = false) {inp : Input S V} {s s1 : Store S V} {v : Node}
    (h : evalNode pr m party inp s v = some s1) {u : Node} (hu : u ≠ v) : s1.sc u = s.sc u ∧ s1.set u = s.set u := by
  have key : ∀ {A : Type} {o : Option A} {f : A → Option (Store S V)}, o.bind f = some s1 → ∃ a, f a = some s1 := by
    intro A o f h
    obtain ⟨a, -, ha⟩ := Option.bind_eq_some_iff.1 h
    exact ⟨a, ha⟩
  unfold evalNode at h
  simp only [Option.bind_eq_bind, hsc, Bool.false_eq_true, if_false] at h
  obtain ⟨g, h⟩ := key h
  have def1 : (((m.parents v).mapM (s.get m)).bind fun xs => (pr.evalLocal party g xs).bind fun o => s.put m v o) = some s1 →
      s1.sc u = s.sc u ∧ s1.set u = s.set u := by
    intro h
    obtain ⟨_, h⟩ := key h
    obtain ⟨_, h⟩ := key h
    exact put_keeps h hu
  cases hg : asBase g with
  | none => rw [hg] at h; exact def1 h
  | some b =>
    rw [hg] at h
    cases b with
    | input =>
      dsimp only at h
      split at h
      · obtain ⟨_, h⟩ := key h
        obtain ⟨_, h⟩ := key h
        cases inp with
        | scalar xs =>
          dsimp only at h
          obtain ⟨_, h⟩ := key h
          obtain ⟨_, h⟩ := key h
          exact put_keeps h hu
        | simd xs => cases h
      · cases h
    | connectToMainFromSimd sel =>
      dsimp only at h
      obtain ⟨_, h⟩ := key h
      obtain ⟨_, h⟩ := key h
      obtain ⟨_, h⟩ := key h
      exact put_keeps h hu
    | constant val => exact put_keeps h hu
    | _ => exact def1 h

theorem evalNodes_keeps (hsc : ∀ i, isSimd m i = false) {inp : Input S V} (vs : List Node) : ∀ {s s1 : Store S V},
    evalNodes pr m party inp s vs = some s1 → ∀ {u : Node}, u ∉ vs → s1.sc u = s.sc u ∧ s1.set u = s.set u := by
  induction vs with
  | nil => intro s s1 h u _; cases h; exact ⟨rfl, rfl⟩
  | cons v vs ih =>
    intro s s1 h u hu
    simp only [evalNodes, Option.bind_eq_bind, Option.bind_eq_some_iff] at h
    obtain ⟨s2, h2, h3⟩ := h
    simp only [List.mem_cons, not_or] at hu
    have a := evalNode_keeps hsc h2 hu.1
    have b := ih h3 hu.2
    exact ⟨b.1.trans a.1, b.2.trans a.2⟩

theorem putAll_keeps (vs : List Node) : ∀ {s s1 : Store S V} {xs : List S},
    putAll m s vs xs = some s1 → ∀ {u : Node}, u ∉ vs → s1.sc u = s.sc u ∧ s1.set u = s.set u := by
  induction vs with
  | nil => intro s s1 xs h u _; simp only [putAll, Option.some.injEq] at h; subst h; exact ⟨rfl, rfl⟩
  | cons v vs ih =>
    intro s s1 xs h u hu
    cases xs with
    | nil => simp only [putAll, Option.some.injEq] at h; subst h; exact ⟨rfl, rfl⟩
    | cons x xs =>
      simp only [putAll, Option.bind_eq_bind, Option.bind_eq_some_iff] at h
      obtain ⟨s2, h2, h3⟩ := h
      simp only [List.mem_cons, not_or] at hu
      have a := put_keeps h2 hu.1
      have b := ih h3 hu.2
      exact ⟨b.1.trans a.1, b.2.trans a.2⟩

/-- Writing values that are there already. -/
theorem put_there (hsc : ∀ i, isSimd m i = false) (vs : List Node) : ∀ {E : List Node} {s s0 : Store S V},
    AlikeD E Eq s s0 → (∀ v ∈ vs, s.set v = true) →
    OptRel (AlikeD (E ++ vs) Eq) (some s) (putAll m s0 vs (vs.map s.sc)) := by
  induction vs with
  | nil => intro E s s0 h _; simpa [putAll, OptRel] using h
  | cons v vs ih =>
    intro E s s0 h hs
    simp only [List.map_cons, putAll, Option.bind_eq_bind, Store.put, hsc, Bool.false_eq_true, if_false, Option.bind_some]
    have h1 : AlikeD (E ++ [v]) Eq s { s0 with
        sc := fun u => if u = v then s.sc v else s0.sc u, set := fun u => if u = v then true else s0.set u } := by
      refine ⟨?_, fun u hu => ?_⟩
      · funext u
        dsimp only
        by_cases huv : u = v
        · rw [if_pos huv, huv]; exact hs v (by simp)
        · rw [if_neg huv, h.set]
      · dsimp only
        by_cases huv : u = v
        · rw [if_pos huv, huv]
        · rw [if_neg huv]
          simp only [List.mem_append, List.mem_singleton, huv, or_false] at hu
          exact h.rel u hu
    have := ih h1 fun u hu => hs u (by simp [hu])
    simpa using this

/-- Writing fewer values than there are gates. -/
theorem putAll_pad (hsc : ∀ i, isSimd m i = false) (vs : List Node) : ∀ {E : List Node} {s s0 : Store S V} (zs : List S),
    AlikeD E Eq s s0 → (∀ v ∈ vs, s.set v = true) → vs.Nodup →
    OptRel (AlikeD (E ++ vs) Eq) (putAll m s vs zs) (putAll m s0 vs (zs ++ (vs.map s.sc).drop zs.length)) := by
  induction vs with
  | nil => intro E s s0 zs h _ _; simpa [putAll, OptRel] using h
  | cons v vs ih =>
    intro E s s0 zs h hs hn
    cases zs with
    | nil =>
      have := put_there hsc (v :: vs) h hs
      simpa [putAll] using this
    | cons z zs =>
      rw [List.nodup_cons] at hn
      simp only [List.cons_append, List.length_cons, List.map_cons, List.drop_succ_cons, putAll, Option.bind_eq_bind]
      cases h1 : s.put m v z with
      | none =>
        have := putD (R := Eq) hsc h v (rfl : z = z)
        rw [h1] at this
        cases h2 : s0.put m v z with
        | none => trivial
        | some _ => rw [h2] at this; exact this.elim
      | some s1 =>
        have hp := putD (R := Eq) hsc h v (rfl : z = z)
        rw [h1] at hp
        cases h2 : s0.put m v z with
        | none => rw [h2] at hp; exact hp.elim
        | some s2 =>
          rw [h2] at hp
          have hk : ∀ u ∈ vs, s1.sc u = s.sc u ∧ s1.set u = s.set u := fun u hu =>
            put_keeps h1 fun e => hn.1 (e ▸ hu)
          have := ih (s := s1) (s0 := s2) zs hp (fun u hu => by rw [(hk u hu).2]; exact hs u (by simp [hu])) hn.2
          rw [List.map_congr_left fun u hu => (hk u hu).1] at this
          simpa using this

theorem evalNodes_taped {inp : Input S V} (vs : List Node) : ∀ s : Store S V,
    evalNodes (taped pr) m party inp s vs = evalNodes pr m party inp s vs := by
  induction vs with
  | nil => intro s; rfl
  | cons v vs ih =>
    intro s
    simp only [evalNodes]
    have : evalNode (taped pr) m party inp s v = evalNode pr m party inp s v := rfl
    rw [this]
    congr 1
    funext s1
    exact ih s1

theorem intScalar_all (hsc : ∀ i, isSimd m i = false) (l : MLayer) : intScalar m l = intNodes l := by
  unfold intScalar intNodes
  rw [List.filter_eq_self.2]
  intro p _
  simp [hsc]

theorem zero_of_sum (l : List Nat) (h : l.sum = 0) : ∀ x ∈ l, x = 0 := by
  induction l with
  | nil => simp
  | cons a l ih =>
    rw [List.sum_cons] at h
    intro x hx
    rcases List.mem_cons.1 hx with rfl | hx
    · omega
    · exact ih (by omega) x hx

theorem intNodes_nil (hsc : ∀ i, isSimd m i = false) {l : MLayer} (hz : intCount m l = 0) : intNodes l = [] := by
  have hz' : (l.map fun p => lanes m p.1 * p.2.int.length).sum = 0 := hz
  have hl1 : ∀ i, lanes m i = 1 := by
    intro i
    have := hsc i
    unfold isSimd at this
    unfold lanes
    cases hc : m.circs[i]? with
    | none => simp
    | some c =>
      cases hq : c.simdSize with
      | none => simp [hq]
      | some q => simp [hc, hq] at this
  unfold intNodes
  rw [List.flatMap_eq_nil_iff]
  intro p hp
  have := zero_of_sum _ hz' _ (List.mem_map_of_mem (f := fun p => lanes m p.1 * p.2.int.length) hp)
  simp only [hl1, one_mul, List.length_eq_zero_iff] at this
  simp [this]

/-- Two executions that look the same. -/
def SameRun (r r' : List (M × Option MS) × Option (Input S V)) : Prop := r.1 = r'.1 ∧ r.2.isSome = r'.2.isSome

/-- The execution with masks in the gate outputs, and the one with the masks in the setup. -/
theorem layers_taped (hsd : pr.simd = false) (hnc : ∀ v g c, m.gate? v = some g → asBase g ≠ some (.constant c))
    (hsc : ∀ i, isSimd m i = false) {xs : List S} (adv : List (M × Option MS) → Option (M × Option MS))
    (su : Nat → Nat → T) (mask : Nat → List S) (fl : List (MLayer × List Node)) :
    ∀ (k : Nat) (E : List Node) (s s0 : Store S V) (sent : List (M × Option MS)), AlikeD E Eq s s0 →
      (E ++ (fl.map (·.1)).flatMap layerNodes).Nodup →
      TopoFrom m.parents E ((fl.map (·.1)).map fun l => (niNodes l, intNodes l)) →
      (∀ l ∈ fl.map (·.1), ∀ v ∈ intScalar m l, s.set v = true) →
      (∀ i l, (interactiveLayers m (fl.map (·.1)))[i]? = some l → (intScalar m l).map s.sc = mask (k + i)) →
      SameRun (interact adv sent (execLayers pr m party (.scalar xs) su k fl s))
        (interact adv sent (execLayers (taped pr) m party (.scalar xs) (fun i n => (su i n, mask i)) k fl s0)) := by
  induction fl with
  | nil =>
    intro k E s s0 sent h _ _ _ _
    simp only [execLayers]
    have := outputsD (R := Eq) hsc h
    cases h1 : outputs m s <;> cases h2 : outputs m s0 <;> rw [h1, h2] at this
    · exact ⟨rfl, rfl⟩
    · exact this.elim
    · exact this.elim
    · exact ⟨rfl, rfl⟩
  | cons f fl ih =>
    obtain ⟨l, fs⟩ := f
    intro k E s s0 sent h hn ht hset hm
    simp only [List.map_cons] at hn ht hset hm ⊢
    obtain ⟨t1, t2, t3⟩ := ht
    have hint : intScalar m l = intNodes l := intScalar_all hsc l
    have e0 : E ++ (l :: fl.map (·.1)).flatMap layerNodes =
        E ++ niNodes l ++ intNodes l ++ (fl.map (·.1)).flatMap layerNodes := by simp [layerNodes]
    rw [e0] at hn
    have n1 : (E ++ niNodes l ++ intNodes l).Nodup := hn.of_append_left
    have n2 : ∀ l' ∈ fl.map (·.1), ∀ v ∈ intScalar m l', v ∉ E ++ niNodes l ++ intNodes l := by
      intro l' hl' v hv hv'
      rw [intScalar_all hsc] at hv
      exact List.disjoint_of_nodup_append hn hv' (List.mem_flatMap.2 ⟨l', hl', List.mem_append_right _ hv⟩)
    have n3 : ∀ v ∈ intScalar m l, v ∉ niOf l := by
      intro v hv hv'
      rw [hint] at hv
      exact List.disjoint_of_nodup_append n1 (List.mem_append_right _ hv') hv
    have hev := evalNodesD (pr := pr) (party := party) (R := Eq)
      (fun g a b hab => by rw [List.forall₂_eq_eq_eq] at hab; subst hab; exact OptRel.refl _) hnc hsc
      (xs := xs) (ys := xs) (by rw [List.forall₂_eq_eq_eq]) (niOf l) h t1
    simp only [execLayers, evalNodes_taped]
    cases h1 : evalNodes pr m party (.scalar xs) s (niOf l) with
    | none =>
      cases h2 : evalNodes pr m party (.scalar xs) s0 (niOf l) with
      | none => exact ⟨rfl, rfl⟩
      | some _ => rw [h1, h2] at hev; exact hev.elim
    | some s1 =>
      cases h2 : evalNodes pr m party (.scalar xs) s0 (niOf l) with
      | none => rw [h1, h2] at hev; exact hev.elim
      | some s2 =>
        rw [h1, h2] at hev
        replace hev : AlikeD (E ++ niOf l) Eq s1 s2 := hev
        have kp : ∀ u, u ∉ niOf l → s1.sc u = s.sc u ∧ s1.set u = s.set u := fun u hu => evalNodes_keeps hsc _ h1 hu
        have n4 : ∀ l' ∈ fl.map (·.1), ∀ v ∈ intScalar m l', v ∉ niOf l := fun l' hl' v hv hv' =>
          n2 l' hl' v hv (List.mem_append_left _ (List.mem_append_right _ hv'))
        dsimp only
        by_cases hz : intCount m l = 0
        · have hi : interactiveLayers m (l :: fl.map (·.1)) = interactiveLayers m (fl.map (·.1)) := by
            simp [interactiveLayers, hz]
          rw [hi] at hm
          have hempty : intNodes l = [] := intNodes_nil hsc hz
          simp only [hz, if_true]
          rw [hempty, List.append_nil] at hn
          rw [hempty, List.append_nil] at t3
          refine ih k (E ++ niOf l) s1 s2 sent hev hn t3 (fun l' hl' v hv => ?_) fun i l' hl' => ?_
          · rw [(kp v (n4 l' hl' v hv)).2]
            exact hset l' (List.mem_cons_of_mem _ hl') v hv
          · rw [← hm i l' hl']
            refine List.map_congr_left fun v hv => (kp v (n4 l' ?_ v hv)).1
            exact (List.mem_filter.1 (List.mem_of_getElem? hl')).1
        · have hi : interactiveLayers m (l :: fl.map (·.1)) = l :: interactiveLayers m (fl.map (·.1)) := by
            simp [interactiveLayers, hz]
          rw [hi] at hm
          simp only [hz, if_false]
          have hmask : (intScalar m l).map s1.sc = mask k := by
            have h0 := hm 0 l rfl
            rw [Nat.add_zero] at h0
            rw [← h0]
            exact List.map_congr_left fun v hv => (kp v (n3 v hv)).1
          have hset1 : ∀ v ∈ intScalar m l, s1.set v = true := fun v hv => by
            rw [(kp v (n3 v hv)).2]; exact hset l (by simp) v hv
          have hpar : ∀ v ∈ intScalar m l, ∀ u ∈ m.parents v, u ∈ E ++ niOf l := by
            intro v hv; rw [hint] at hv; exact t2 v hv
          have hops : (intScalar m l).mapM (fun v => (m.parents v).mapM (s1.get m)) =
              (intScalar m l).mapM (fun v => (m.parents v).mapM (s2.get m)) := by
            have : ∀ vs : List Node, (∀ v ∈ vs, v ∈ intScalar m l) →
                vs.mapM (fun v => (m.parents v).mapM (s1.get m)) = vs.mapM (fun v => (m.parents v).mapM (s2.get m)) := by
              intro vs
              induction vs with
              | nil => intro _; rfl
              | cons v vs ihv =>
                intro hv
                have e := getsD hsc hev (hpar v (hv v (by simp)))
                have e' : (m.parents v).mapM (s1.get m) = (m.parents v).mapM (s2.get m) := by
                  cases a : (m.parents v).mapM (s1.get m) <;> cases b : (m.parents v).mapM (s2.get m) <;>
                    rw [a, b] at e
                  · exact e.elim
                  · exact e.elim
                  · rw [OptRel, List.forall₂_eq_eq_eq] at e; rw [e]
                simp only [List.mapM_cons, e', ihv fun u hu => hv u (by simp [hu])]
            exact this _ fun _ h => h
          have hcm : computeMsgs (taped pr) m party s2 l (su k (intCount m l), mask k) =
              (computeMsgs pr m party s1 l (su k (intCount m l))).map fun r => (r.1, (r.2, mask k)) := by
            unfold computeMsgs
            rw [← hops]
            simp only [Option.bind_eq_bind, taped, hsd, Bool.false_eq_true, if_false, hmask, Option.pure_def]
            cases (intScalar m l).mapM m.gate? with
            | none => rfl
            | some gs =>
              cases (intScalar m l).mapM (fun v => (m.parents v).mapM (s1.get m)) with
              | none => rfl
              | some ys =>
                simp only [Option.bind_some]
                cases pr.computeMsg party gs (mask k) ys.flatten (su k (intCount m l)) <;> rfl
          rw [hcm]
          cases hc : computeMsgs pr m party s1 l (su k (intCount m l)) with
          | none => exact ⟨rfl, rfl⟩
          | some r =>
            obtain ⟨msg, t⟩ := r
            simp only [Option.map_some, interact]
            cases adv (sent ++ [msg]) with
            | none => exact ⟨rfl, rfl⟩
            | some other =>
              dsimp only
              have hfin : OptRel (AlikeD (E ++ niOf l ++ intScalar m l) Eq)
                  (finishLayer pr m party (free pr s1 fs) l msg other t)
                  (finishLayer (taped pr) m party (free (taped pr) s2 fs) l msg other (t, mask k)) := by
                unfold finishLayer
                simp only [Option.bind_eq_bind]
                refine OptRel.bind_eq fun gs => ?_
                have hfree : (intScalar m l).map (free pr s1 fs).sc = mask k := hmask
                simp only [taped, hfree]
                cases pr.evalInteractive party gs (mask k) msg.1 other.1 t with
                | none => trivial
                | some z =>
                  simp only [Option.map_some, Option.bind_some]
                  have := putAll_pad hsc (intScalar m l) (s := free pr s1 fs) (s0 := free (taped pr) s2 fs) z.1
                    ⟨hev.set, hev.rel⟩ hset1 (by rw [hint]; exact n1.of_append_right)
                  rw [hfree] at this
                  obtain ⟨a, b⟩ := msg
                  obtain ⟨c, d⟩ := other
                  cases b with
                  | none =>
                    cases d with
                    | none => exact this
                    | some _ => trivial
                  | some b =>
                    exfalso
                    have : computeMsgs pr m party s1 l (su k (intCount m l)) = some ((a, some b), t) := hc
                    simp only [computeMsgs, hsd, Option.bind_eq_bind, Option.bind_eq_some_iff, Bool.false_eq_true,
                      if_false, Option.pure_def, Option.some.injEq, Prod.mk.injEq] at this
                    obtain ⟨_, _, _, _, _, _, ⟨_, h⟩, _⟩ := this
                    cases h
              cases f1 : finishLayer pr m party (free pr s1 fs) l msg other t with
              | none =>
                cases f2 : finishLayer (taped pr) m party (free (taped pr) s2 fs) l msg other (t, mask k) with
                | none => exact ⟨rfl, rfl⟩
                | some _ => rw [f1, f2] at hfin; exact hfin.elim
              | some s3 =>
                cases f2 : finishLayer (taped pr) m party (free (taped pr) s2 fs) l msg other (t, mask k) with
                | none => rw [f1, f2] at hfin; exact hfin.elim
                | some s4 =>
                  rw [f1, f2] at hfin
                  have kp2 : ∀ u, u ∉ intScalar m l → s3.sc u = s1.sc u ∧ s3.set u = s1.set u := by
                    intro u hu
                    unfold finishLayer at f1
                    simp only [Option.bind_eq_bind, Option.bind_eq_some_iff] at f1
                    obtain ⟨_, _, z, _, f1⟩ := f1
                    split at f1
                    · rename_i hmsg _
                      exfalso
                      have : computeMsgs pr m party s1 l (su k (intCount m l)) = some (msg, t) := hc
                      simp only [computeMsgs, hsd, Option.bind_eq_bind, Option.bind_eq_some_iff, Bool.false_eq_true,
                        if_false, Option.pure_def, Option.some.injEq, Prod.mk.injEq] at this
                      obtain ⟨_, _, _, _, _, _, h, _⟩ := this
                      rw [← h] at hmsg
                      cases hmsg
                    · exact putAll_keeps (s := free pr s1 fs) _ f1 hu
                    · cases f1
                  have n5 : ∀ l' ∈ fl.map (·.1), ∀ v ∈ intScalar m l', v ∉ intScalar m l := fun l' hl' v hv hv' =>
                    n2 l' hl' v hv (List.mem_append_right _ (hint ▸ hv'))
                  rw [hint] at hfin
                  refine ih (k + 1) _ s3 s4 (sent ++ [msg]) hfin hn t3 (fun l' hl' v hv => ?_) fun i l' hl' => ?_
                  · rw [(kp2 v (n5 l' hl' v hv)).2, (kp v (n4 l' hl' v hv)).2]
                    exact hset l' (List.mem_cons_of_mem _ hl') v hv
                  · rw [show k + 1 + i = k + (i + 1) by omega, ← hm (i + 1) l' hl']
                    have hl2 := (List.mem_filter.1 (List.mem_of_getElem? hl')).1
                    exact List.map_congr_left fun v hv =>
                      ((kp2 v (n5 l' hl2 v hv)).1).trans (kp v (n4 l' hl2 v hv)).1

/-! ### Permutations of the masks -/

variable {Q : T → T → Prop} {Xs : MLayer → Set X} {outs : X → List S}

/-- A layer: the messages and what is done with the answer. -/
theorem layerM (hM : OutMasking pr m R Q party Xs outs) (hsc : ∀ i, isSimd m i = false) (h : AlikeD E R st st')
    (l : MLayer) (fs : List Node) (hpar : ∀ v ∈ intScalar m l, ∀ u ∈ m.parents v, u ∈ E) (t t' : T) (hq : Q t t') :
    ∃ φ : X → X, Set.BijOn φ (Xs l) (Xs l) ∧ ∀ x ∈ Xs l,
      OptRel (fun a b => a.1 = b.1 ∧ ∀ other : M × Option MS,
          OptRel (AlikeD (E ++ intScalar m l) R)
            (finishLayer (taped pr) m party (free (taped pr) st fs) l a.1 other a.2)
            (finishLayer (taped pr) m party (free (taped pr) st' fs) l b.1 other b.2))
        (computeMsgs (taped pr) m party st l (t, outs x)) (computeMsgs (taped pr) m party st' l (t', outs (φ x))) := by
  cases hgs : (intScalar m l).mapM m.gate? with
  | none =>
    refine ⟨id, Set.bijOn_id _, fun x _ => ?_⟩
    simp only [computeMsgs, hgs, Option.bind_eq_bind, Option.bind_none]
    trivial
  | some gs =>
    have hlen : gs.length = (intScalar m l).length := by
      have : ∀ (vs : List Node) (r : List G), vs.mapM m.gate? = some r → r.length = vs.length := by
        intro vs
        induction vs with
        | nil => intro r h; cases h; rfl
        | cons v vs ih =>
          intro r h
          simp only [List.mapM_cons, Option.bind_eq_bind, Option.bind_eq_some_iff, Option.pure_def, Option.some.injEq] at h
          obtain ⟨b, -, c, hc, rfl⟩ := h
          simp [ih c hc]
      exact this _ _ hgs
    have hg : OptRel (List.Forall₂ (List.Forall₂ R)) ((intScalar m l).mapM (fun v => (m.parents v).mapM (st.get m)))
        ((intScalar m l).mapM (fun v => (m.parents v).mapM (st'.get m))) := by
      have : ∀ vs : List Node, (∀ v ∈ vs, v ∈ intScalar m l) →
          OptRel (List.Forall₂ (List.Forall₂ R)) (vs.mapM (fun v => (m.parents v).mapM (st.get m)))
            (vs.mapM (fun v => (m.parents v).mapM (st'.get m))) := by
        intro vs
        induction vs with
        | nil => intro _; exact .nil
        | cons v vs ih =>
          intro hv
          simp only [List.mapM_cons, Option.bind_eq_bind, Option.pure_def]
          refine (getsD hsc h (hpar v (hv v (by simp)))).bind fun x y hxy =>
            (ih fun u hu => hv u (by simp [hu])).bind fun xs ys hx => ?_
          exact .cons hxy hx
      exact this _ fun _ h => h
    cases hy : (intScalar m l).mapM (fun v => (m.parents v).mapM (st.get m)) with
    | none =>
      cases hy' : (intScalar m l).mapM (fun v => (m.parents v).mapM (st'.get m)) with
      | none =>
        refine ⟨id, Set.bijOn_id _, fun x _ => ?_⟩
        simp only [computeMsgs, hgs, hy, hy', Option.bind_eq_bind, Option.bind_none, Option.bind_some]
        trivial
      | some b => rw [hy, hy'] at hg; exact hg.elim
    | some a =>
      cases hy' : (intScalar m l).mapM (fun v => (m.parents v).mapM (st'.get m)) with
      | none => rw [hy, hy'] at hg; exact hg.elim
      | some b =>
        rw [hy, hy'] at hg
        obtain ⟨φ, p1, p2⟩ := hM.layer l gs hgs a.flatten b.flatten (forall_flatten hg) t t' hq
        refine ⟨φ, p1, fun x hx => ?_⟩
        obtain ⟨q1, q2⟩ := p2 x hx
        simp only [computeMsgs, hgs, hy, hy', Option.bind_eq_bind, Option.bind_some, taped, hM.simd, Bool.false_eq_true,
          if_false, Option.pure_def]
        cases c1 : pr.computeMsg party gs (outs x) a.flatten t with
        | none =>
          cases c2 : pr.computeMsg party gs (outs (φ x)) b.flatten t' with
          | none => trivial
          | some _ => rw [c1, c2] at q2; exact q2.elim
        | some u =>
          cases c2 : pr.computeMsg party gs (outs (φ x)) b.flatten t' with
          | none => rw [c1, c2] at q2; exact q2.elim
          | some w =>
            rw [c1, c2] at q2
            obtain ⟨q3, q4⟩ := q2
            simp only [Option.map_some, Option.bind_some]
            refine ⟨by rw [q3], fun other => ?_⟩
            unfold finishLayer
            simp only [hgs, Option.bind_eq_bind, Option.bind_some]
            have q5 := q4 other.1
            cases d1 : pr.evalInteractive party gs (outs x) u.1 other.1 u.2 with
            | none =>
              cases d2 : pr.evalInteractive party gs (outs (φ x)) w.1 other.1 w.2 with
              | none => trivial
              | some _ => rw [d1, d2] at q5; exact q5.elim
            | some z =>
              cases d2 : pr.evalInteractive party gs (outs (φ x)) w.1 other.1 w.2 with
              | none => rw [d1, d2] at q5; exact q5.elim
              | some z' =>
                rw [d1, d2] at q5
                simp only [Option.map_some, Option.bind_some]
                obtain ⟨o1, o2⟩ := other
                cases o2 with
                | none =>
                  refine putAllD hsc _ ⟨h.set, h.rel⟩ q5.1 ?_
                  rw [List.length_append, List.length_drop, q1, ← hlen]
                  have := q5.2
                  omega
                | some _ => trivial

theorem fitL_cons {l : MLayer} {fl : List MLayer} (h0 : intCount m l ≠ 0) (x : List X) :
    FitL Xs m (l :: fl) x ↔ ∃ a r, x = a :: r ∧ a ∈ Xs l ∧ FitL Xs m fl r := by
  unfold FitL
  have : interactiveLayers m (l :: fl) = l :: interactiveLayers m fl := by simp [interactiveLayers, h0]
  rw [this]
  cases x with
  | nil => simp
  | cons a r => simp

theorem fitL_skip {l : MLayer} {fl : List MLayer} (h0 : intCount m l = 0) (x : List X) :
    FitL Xs m (l :: fl) x ↔ FitL Xs m fl x := by
  unfold FitL
  have : interactiveLayers m (l :: fl) = interactiveLayers m fl := by simp [interactiveLayers, h0]
  rw [this]

/-- Setups for the requests from `k` on, after the choices `hist`. -/
def fromHist (su : List X → T) (outs : X → List S) (none_ : X) (hist : List X) (k : Nat) (x : List X) (i _n : Nat) :
    T × List S :=
  (su (hist ++ x.take (i - k)), outs (x.getD (i - k) none_))

theorem layers_activeM (hM : OutMasking pr m R Q party Xs outs) (hsc : ∀ i, isSimd m i = false) {xs ys : List S}
    (hin : List.Forall₂ R xs ys) (none_ : X) (su su' : List X → T) (ls : List MLayer)
    (hq : ∀ a b, FitPre Xs m ls a → FitPre Xs m ls b → a.length = b.length → Q (su a) (su' b))
    (adv : List (M × Option MS) → Option (M × Option MS)) (fl : List (MLayer × List Node)) :
    ∀ (k : Nat) (hist hist' : List X) (E : List Node) (st st' : Store S V) (sent : List (M × Option MS)),
      AlikeD E R st st' →
      (∃ done, interactiveLayers m ls = done ++ interactiveLayers m (fl.map (·.1)) ∧
        List.Forall₂ (fun l a => a ∈ Xs l) done hist ∧ List.Forall₂ (fun l a => a ∈ Xs l) done hist') →
      TopoFrom m.parents E ((fl.map (·.1)).map fun l => (niNodes l, intNodes l)) →
    ∃ f : List X → List X, Set.BijOn f {x | FitL Xs m (fl.map (·.1)) x} {x | FitL Xs m (fl.map (·.1)) x} ∧
      ∀ x, FitL Xs m (fl.map (·.1)) x →
        SameRun
          (interact adv sent (execLayers (taped pr) m party (.scalar xs) (fromHist su outs none_ hist k x) k fl st))
          (interact adv sent
            (execLayers (taped pr) m party (.scalar ys) (fromHist su' outs none_ hist' k (f x)) k fl st')) := by
  induction fl with
  | nil =>
    intro k hist hist' E st st' sent h _ _
    refine ⟨id, Set.bijOn_id _, fun x _ => ?_⟩
    simp only [execLayers]
    have := outputsD (R := R) hsc h
    cases h1 : outputs m st <;> cases h2 : outputs m st' <;> rw [h1, h2] at this
    · exact ⟨rfl, rfl⟩
    · exact this.elim
    · exact this.elim
    · exact ⟨rfl, rfl⟩
  | cons f fl ih =>
    obtain ⟨l, fs⟩ := f
    intro k hist hist' E st st' sent h hdone ht
    simp only [List.map_cons] at ht hdone
    obtain ⟨done, d1, d2, d3⟩ := hdone
    have hpre : ∀ hist, List.Forall₂ (fun l a => a ∈ Xs l) done hist → FitPre Xs m ls hist := by
      intro hist hd
      rw [FitPre, d1, ← hd.length_eq, List.take_left']
      · exact hd
      · rfl
    obtain ⟨t1, t2, t3⟩ := ht
    have hint : intScalar m l = intNodes l := intScalar_all hsc l
    have hev := evalNodesD hM.local_ hM.noConst hsc hin (niOf l) h t1
    cases h1 : evalNodes pr m party (.scalar xs) st (niOf l) with
    | none =>
      cases h2 : evalNodes pr m party (.scalar ys) st' (niOf l) with
      | none =>
        refine ⟨id, Set.bijOn_id _, fun x _ => ?_⟩
        simp only [execLayers, evalNodes_taped, h1, h2]
        exact ⟨rfl, rfl⟩
      | some _ => rw [h1, h2] at hev; exact hev.elim
    | some s1 =>
      cases h2 : evalNodes pr m party (.scalar ys) st' (niOf l) with
      | none => rw [h1, h2] at hev; exact hev.elim
      | some s1' =>
        rw [h1, h2] at hev
        replace hev : AlikeD (E ++ niOf l) R s1 s1' := hev
        by_cases h0 : intCount m l = 0
        · simp only [execLayers, evalNodes_taped, h1, h2, h0, if_true, List.map_cons, fitL_skip h0]
          have hempty : intNodes l = [] := intNodes_nil hsc h0
          rw [hempty, List.append_nil] at t3
          have hi : interactiveLayers m (l :: fl.map (·.1)) = interactiveLayers m (fl.map (·.1)) := by
            simp [interactiveLayers, h0]
          rw [hi] at d1
          exact ih k hist hist' _ s1 s1' sent hev ⟨done, d1, d2, d3⟩ t3
        · simp only [List.map_cons]
          obtain ⟨φ, p1, p2⟩ := layerM hM hsc hev l fs (by rw [hint]; exact t2) (su hist) (su' hist')
            (hq _ _ (hpre _ d2) (hpre _ d3) (d2.length_eq.symm.trans d3.length_eq))
          have hi : interactiveLayers m (l :: fl.map (·.1)) = l :: interactiveLayers m (fl.map (·.1)) := by
            simp [interactiveLayers, h0]
          rw [hi] at d1
          have step : ∀ a : X, ∃ g : List X → List X,
              Set.BijOn g {x | FitL Xs m (fl.map (·.1)) x} {x | FitL Xs m (fl.map (·.1)) x} ∧
              (a ∈ Xs l → ∀ r, FitL Xs m (fl.map (·.1)) r →
                SameRun
                  (interact adv sent
                    (execLayers (taped pr) m party (.scalar xs) (fromHist su outs none_ hist k (a :: r)) k
                      ((l, fs) :: fl) st))
                  (interact adv sent
                    (execLayers (taped pr) m party (.scalar ys) (fromHist su' outs none_ hist' k (φ a :: g r)) k
                      ((l, fs) :: fl) st'))) := by
            intro a
            by_cases ha : a ∈ Xs l
            swap
            · exact ⟨id, Set.bijOn_id _, fun h => absurd h ha⟩
            have hrel := p2 a ha
            have head : ∀ (su : List X → T) (hist : List X) (b : X) (r : List X),
                fromHist su outs none_ hist k (b :: r) k (intCount m l) = (su hist, outs b) := by
              intro su hist b r; simp [fromHist]
            have cong : ∀ (su : List X → T) (hist : List X) (y : Input S V) (b : X) (r : List X) (s : Store S V),
                execLayers (taped pr) m party y (fromHist su outs none_ hist k (b :: r)) (k + 1) fl s =
                  execLayers (taped pr) m party y (fromHist su outs none_ (hist ++ [b]) (k + 1) r) (k + 1) fl s := by
              intro su hist y b r s
              refine execLayers_congrT fl (k + 1) s fun i n hi => ?_
              obtain ⟨j, rfl⟩ := Nat.exists_eq_add_of_le hi
              simp only [fromHist]
              rw [show k + 1 + j - k = j + 1 by omega, show k + 1 + j - (k + 1) = j by omega]
              simp
            simp only [execLayers, evalNodes_taped, h1, h2, h0, if_false, head, cong]
            cases c1 : computeMsgs (taped pr) m party s1 l (su hist, outs a) with
            | none =>
              cases c2 : computeMsgs (taped pr) m party s1' l (su' hist', outs (φ a)) with
              | none => exact ⟨id, Set.bijOn_id _, fun _ _ _ => ⟨rfl, rfl⟩⟩
              | some _ => rw [c1, c2] at hrel; exact hrel.elim
            | some w =>
              cases c2 : computeMsgs (taped pr) m party s1' l (su' hist', outs (φ a)) with
              | none => rw [c1, c2] at hrel; exact hrel.elim
              | some w' =>
                rw [c1, c2] at hrel
                obtain ⟨msg, t⟩ := w
                obtain ⟨msg', t'⟩ := w'
                obtain ⟨e1, e2⟩ := hrel
                dsimp only at e1 e2
                subst e1
                simp only [interact]
                cases hadv : adv (sent ++ [msg]) with
                | none => exact ⟨id, Set.bijOn_id _, fun _ _ _ => ⟨rfl, rfl⟩⟩
                | some r =>
                  dsimp only
                  have hf := e2 r
                  cases f1 : finishLayer (taped pr) m party (free (taped pr) s1 fs) l msg r t with
                  | none =>
                    cases f2 : finishLayer (taped pr) m party (free (taped pr) s1' fs) l msg r t' with
                    | none => exact ⟨id, Set.bijOn_id _, fun _ _ _ => ⟨rfl, rfl⟩⟩
                    | some _ => rw [f1, f2] at hf; exact hf.elim
                  | some s2 =>
                    cases f2 : finishLayer (taped pr) m party (free (taped pr) s1' fs) l msg r t' with
                    | none => rw [f1, f2] at hf; exact hf.elim
                    | some s2' =>
                      rw [f1, f2] at hf
                      rw [hint] at hf
                      obtain ⟨g, g1, g2⟩ := ih (k + 1) (hist ++ [a]) (hist' ++ [φ a]) _ s2 s2' (sent ++ [msg]) hf
                        ⟨done ++ [l], by rw [d1]; simp, List.rel_append d2 (.cons ha .nil),
                          List.rel_append d3 (.cons (p1.mapsTo ha) .nil)⟩ t3
                      exact ⟨g, g1, fun _ r hr => g2 r hr⟩
          choose g g1 g2 using step
          let F : List X → List X := fun x =>
            match x with
            | [] => []
            | a :: r => φ a :: g a r
          refine ⟨F, ⟨?_, ?_, ?_⟩, ?_⟩
          · intro x hx
            obtain ⟨a, r, rfl, ha, hr⟩ := (fitL_cons h0 x).1 hx
            exact (fitL_cons h0 _).2 ⟨φ a, g a r, rfl, p1.mapsTo ha, (g1 a).mapsTo hr⟩
          · intro x hx y hy hxy
            obtain ⟨a, r, rfl, ha, hr⟩ := (fitL_cons h0 x).1 hx
            obtain ⟨b, q, rfl, hb, hq⟩ := (fitL_cons h0 y).1 hy
            simp only [F, List.cons.injEq] at hxy
            have hab : a = b := p1.injOn ha hb hxy.1
            subst hab
            rw [(g1 a).injOn hr hq hxy.2]
          · intro y hy
            obtain ⟨b, q, rfl, hb, hq⟩ := (fitL_cons h0 y).1 hy
            obtain ⟨a, ha, rfl⟩ := p1.surjOn hb
            obtain ⟨r, hr, rfl⟩ := (g1 a).surjOn hq
            exact ⟨a :: r, (fitL_cons h0 _).2 ⟨_, _, rfl, ha, hr⟩, rfl⟩
          · intro x hx
            obtain ⟨a, r, rfl, ha, hr⟩ := (fitL_cons h0 x).1 hx
            exact g2 a ha r hr

/-- Executions of a protocol whose messages are masked by the prepared gate outputs, for inputs and setups of the same kinds:
the choices of masks correspond one to one such that an arbitrary peer sees the same and the party returns an output in both
cases or in none. -/
theorem out_masking_private (hM : OutMasking pr m R Q party Xs outs) (rank : Node → Nat) (w : WF m rank)
    (hsc : ∀ i, isSimd m i = false) (xs ys : List S) (hin : List.Forall₂ R xs ys) (none_ : X) (blank : Node → Bool)
    (hb : ∀ v g, m.gate? v = some g → interactive g = true → blank v = true) :
    ∃ it ls, MIter.new m = some it ∧
      MIter.collect m ((m.circs.map fun c => c.gates.length).sum + 1) it = some ls ∧
      ∀ su su' : List X → T, (∀ a b, FitPre Xs m ls a → FitPre Xs m ls b → a.length = b.length → Q (su a) (su' b)) →
      ∀ adv : List (M × Option MS) → Option (M × Option MS),
      ∃ f : List X → List X, Set.BijOn f {x | FitL Xs m ls x} {x | FitL Xs m ls x} ∧
        ∀ x, FitL Xs m ls x → ∀ s s' : Store S V, s.set = blank → s'.set = blank →
          HoldsMasks m ls outs none_ x s → HoldsMasks m ls outs none_ (f x) s' →
          ∃ (seen : List (M × Option MS)) (o o' : Option (Input S V)),
            interact adv [] (execute pr m party (.scalar xs) (histData su x) s) = (seen, o) ∧
            interact adv [] (execute pr m party (.scalar ys) (histData su' (f x)) s') = (seen, o') ∧
            o.isSome = o'.isSome := by
  obtain ⟨it, ls, e1, e2, ok⟩ := layers_ok_partial m rank w
  refine ⟨it, ls, e1, e2, fun su su' hq adv => ?_⟩
  obtain ⟨fl, e3, hfl, hfree⟩ := freeable_spec (m := m) ls [] (fun _ => none)
    (by simpa using ok.once) (by intro u _; simp) (by intro w hw; simp at hw) ok.topo
  cases hc : m.circs[0]? with
  | none =>
    refine ⟨id, Set.bijOn_id _, fun x _ s s' _ _ _ _ => ⟨[], none, none, ?_, ?_, rfl⟩⟩ <;> simp [execute, hc, interact]
  | some c =>
    have yes : ∀ (y : List S) (su : Nat → Nat → T) (s : Store S V), c.inputGates.length = y.length →
        execute pr m party (.scalar y) su s = execLayers pr m party (.scalar y) su 0 fl s := by
      intro y su s hy
      simp [execute, hc, hy, e1, e2, e3]
    have no : ∀ (y : List S) (su : Nat → Nat → T) (s : Store S V), ¬ c.inputGates.length = y.length →
        execute pr m party (.scalar y) su s = .fail := by
      intro y su s hy
      simp [execute, hc, hy]
    have hlen := hin.length_eq
    by_cases hl : c.inputGates.length = xs.length
    · by_cases hne : Nonempty (Store S V)
      swap
      · exact ⟨id, Set.bijOn_id _, fun x _ s => absurd ⟨s⟩ hne⟩
      obtain ⟨s0⟩ := hne
      let st0 : Store S V := { s0 with set := blank }
      obtain ⟨f, f1, f2⟩ := layers_activeM hM hsc hin none_ su su' ls hq adv fl 0 [] [] [] st0 st0 []
        ⟨rfl, by simp⟩ ⟨[], by rw [hfl]; rfl, .nil, .nil⟩ (by rw [hfl]; exact ok.topo)
      rw [hfl] at f1 f2
      refine ⟨f, f1, fun x hx s s' hs hs' hm hm' => ?_⟩
      have key := f2 x hx
      have hset : ∀ s : Store S V, s.set = blank → ∀ l ∈ fl.map (·.1), ∀ v ∈ intScalar m l, s.set v = true := by
        intro s hs l hl v hv
        rw [hfl] at hl
        rw [intScalar_all hsc] at hv
        obtain ⟨g, hg, hi⟩ := ok.inter l hl v hv
        rw [hs]
        exact hb v g hg hi
      have tp : ∀ (zs : List S) (su : List X → T) (x : List X) (s : Store S V), s.set = blank →
          HoldsMasks m ls outs none_ x s →
          SameRun (interact adv [] (execLayers pr m party (.scalar zs) (histData su x) 0 fl s))
            (interact adv [] (execLayers (taped pr) m party (.scalar zs) (fromHist su outs none_ [] 0 x) 0 fl st0)) := by
        intro zs su x s hs hm
        have := layers_taped (pr := pr) (party := party) hM.simd hM.noConst hsc (xs := zs) adv (histData su x)
          (fun k => outs (x.getD k none_)) fl 0 [] s st0 [] ⟨hs, by simp⟩ (by rw [hfl]; simpa using ok.once)
          (by rw [hfl]; exact ok.topo) (hset s hs) (fun i l hil => by
            rw [hfl] at hil
            rw [Nat.zero_add]
            exact hm i l hil)
        have e : fromHist su outs none_ [] 0 x = fun i n => (histData su x i n, outs (x.getD i none_)) := by
          funext i n
          simp [fromHist, histData]
        rw [e]
        exact this
      have a := tp xs su x s hs hm
      have b := tp ys su' (f x) s' hs' hm'
      refine ⟨(interact adv [] (execLayers pr m party (.scalar xs) (histData su x) 0 fl s)).1,
        (interact adv [] (execLayers pr m party (.scalar xs) (histData su x) 0 fl s)).2,
        (interact adv [] (execLayers pr m party (.scalar ys) (histData su' (f x)) 0 fl s')).2, ?_, ?_, ?_⟩
      · rw [yes _ _ _ hl]
      · rw [yes _ _ _ (hl.trans hlen), a.1, key.1, ← b.1]
      · rw [a.2, key.2, b.2]
    · refine ⟨id, Set.bijOn_id _, fun x _ s s' _ _ _ _ => ⟨[], none, none, ?_, ?_, rfl⟩⟩
      · rw [no _ _ _ hl]; rfl
      · rw [no _ _ _ fun h => hl (h.trans hlen.symm)]; rfl

end

end Verif.Exec
