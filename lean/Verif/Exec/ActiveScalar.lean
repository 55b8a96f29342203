import Verif.Exec.Active

/-!
C98: `Executor::execute` against an arbitrary peer, for protocols without SIMD support.  What has to be known of the protocol
is collected in `Masking`.
-/
set_option autoImplicit false

namespace Verif.Exec

open Circuit Proc

variable {G : Type} [GateLike G] {S V M MS T X W : Type}

/-! ### Specification -/

/-- The setup data of the requests: the `k`-th one is made from the `k`-th choice of masks. -/
def maskSetup (mk : Nat → X → T) (none_ : X) (x : List X) (k _n : Nat) : T := mk k (x.getD k none_)

/-- A choice of masks for each request of the layers `ls`. -/
def FitX (Xs : Nat → Set X) (m : Multi G) (ls : List MLayer) (x : List X) : Prop :=
  List.Forall₂ (fun l a => a ∈ Xs (intCount m l)) (interactiveLayers m ls) x

/-- What the peer sees of the messages is `view`, on which its answers depend.  All that it sees, and what the party
returns. -/
def observe (view : M × Option MS → W) (adv : List W → Option (M × Option MS)) (p : Proc (M × Option MS) (Input S V)) :
    List W × Option (Input S V) :=
  let r := interact (fun sent => adv (sent.map view)) [] p
  (r.1.map view, r.2)

/-- What masks a protocol: for every layer of gates that satisfy `P` and every two lists of operands of the same kinds (`R`)
there is a permutation of the choices of masks that makes the messages look the same, and the results are again of the
same kinds. -/
structure Masking (pr : Protocol G S V M MS T) (view : M × Option MS → W) (R : S → S → Prop) (P : G → Prop) (party : Nat)
    (Xs : Nat → Set X) (mk : Nat → X → T) : Prop where
  simd : pr.simd = false
  local_ : ∀ (g : G) (xs ys : List S), List.Forall₂ R xs ys → OptRel R (pr.evalLocal party g xs) (pr.evalLocal party g ys)
  const : ∀ (s s' : S) (c : GateLike.Plain G), R (pr.shareConstant party s c) (pr.shareConstant party s' c)
  layer : ∀ (gs : List G), (∀ g ∈ gs, P g) → ∀ (xs ys outs outs' : List S), List.Forall₂ R xs ys → ∀ k n : Nat,
    ∃ φ : X → X, Set.BijOn φ (Xs n) (Xs n) ∧ ∀ x ∈ Xs n,
      OptRel (fun a b => view (a.1, none) = view (b.1, none) ∧
          ∀ other : M, OptRel (fun z z' => List.Forall₂ R z.1 z'.1) (pr.evalInteractive party gs outs a.1 other a.2)
            (pr.evalInteractive party gs outs' b.1 other b.2))
        (pr.computeMsg party gs outs xs (mk k x)) (pr.computeMsg party gs outs' ys (mk k (φ x)))

/-! ### Proof -/

/-- The same entries are set, to values of the same kinds. -/
structure AlikeR (R : S → S → Prop) (st st' : Store S V) : Prop where
  set : st.set = st'.set
  rel : ∀ v, st.set v = true → R (st.sc v) (st'.sc v)

section
variable {R : S → S → Prop} {m : Multi G} {st st' : Store S V}

theorem getR (hsc : ∀ i, isSimd m i = false) (h : AlikeR R st st') (v : Node) : OptRel R (st.get m v) (st'.get m v) := by
  unfold Store.get
  rw [← h.set, hsc]
  simp only [Bool.false_eq_true, if_false]
  cases hv : st.set v with
  | true => exact h.rel v hv
  | false => trivial

theorem putR (hsc : ∀ i, isSimd m i = false) (h : AlikeR R st st') (v : Node) {a b : S} (hab : R a b) :
    OptRel (AlikeR R) (st.put m v a) (st'.put m v b) := by
  unfold Store.put
  rw [hsc]
  simp only [Bool.false_eq_true, if_false]
  refine ⟨by simp [h.set], fun u hu => ?_⟩
  dsimp only at hu ⊢
  by_cases huv : u = v
  · rw [if_pos huv, if_pos huv]; exact hab
  · rw [if_neg huv] at hu
    rw [if_neg huv, if_neg huv]
    exact h.rel u hu

theorem getsR (hsc : ∀ i, isSimd m i = false) (h : AlikeR R st st') (l : List Node) :
    OptRel (List.Forall₂ R) (l.mapM (st.get m)) (l.mapM (st'.get m)) := mapM_rel (getR hsc h) l

variable {pr : Protocol G S V M MS T} {view : M × Option MS → W} {P : G → Prop} {party : Nat} {Xs : Nat → Set X}
  {mk : Nat → X → T}

theorem evalNodeR (hM : Masking pr view R P party Xs mk) (hsc : ∀ i, isSimd m i = false) {xs ys : List S}
    (hin : List.Forall₂ R xs ys) (h : AlikeR R st st') (v : Node) :
    OptRel (AlikeR R) (evalNode pr m party (.scalar xs) st v) (evalNode pr m party (.scalar ys) st' v) := by
  unfold evalNode
  simp only [Option.bind_eq_bind]
  refine OptRel.bind_eq fun g => ?_
  have def1 : OptRel (AlikeR R)
      (((m.parents v).mapM (st.get m)).bind fun xs => (pr.evalLocal party g xs).bind fun o => st.put m v o)
      (((m.parents v).mapM (st'.get m)).bind fun xs => (pr.evalLocal party g xs).bind fun o => st'.put m v o) :=
    (getsR hsc h _).bind fun xs ys hx => (hM.local_ g xs ys hx).bind fun a b hab => putR hsc h v hab
  have no : ∀ (p : Node) (s : Store S V), s.getSimd m p = none := by
    intro p s; simp [Store.getSimd, hsc]
  cases hg : asBase g with
  | none => simp only [hsc, Bool.false_eq_true, if_false]; exact def1
  | some b =>
    cases b with
    | input =>
      dsimp only
      split
      · refine OptRel.bind_eq fun c => OptRel.bind_eq fun idx => ?_
        simp only [hsc]
        exact (getElem_rel hin idx).bind fun x y hxy =>
          (hM.local_ g [x] [y] (.cons hxy .nil)).bind fun a b hab => putR hsc h v hab
      · trivial
    | subCircuitInput => simp only [hsc]; exact def1
    | connectToMainFromSimd sel =>
      dsimp only
      refine OptRel.bind_eq fun p => ?_
      rw [no, no]
      trivial
    | constant val =>
      simp only [hsc, Bool.false_eq_true, if_false]
      exact putR hsc h v (hM.const _ _ _)
    | _ => simp only [hsc, Bool.false_eq_true, if_false]; exact def1

theorem evalNodesR (hM : Masking pr view R P party Xs mk) (hsc : ∀ i, isSimd m i = false) {xs ys : List S}
    (hin : List.Forall₂ R xs ys) (vs : List Node) : ∀ {st st' : Store S V}, AlikeR R st st' →
    OptRel (AlikeR R) (evalNodes pr m party (.scalar xs) st vs) (evalNodes pr m party (.scalar ys) st' vs) := by
  induction vs with
  | nil => intro st st' h; exact h
  | cons v vs ih =>
    intro st st' h
    simp only [evalNodes, Option.bind_eq_bind]
    exact (evalNodeR hM hsc hin h v).bind fun a b hab => ih hab

theorem putAllR (hsc : ∀ i, isSimd m i = false) (vs : List Node) : ∀ {st st' : Store S V} {xs ys : List S},
    AlikeR R st st' → List.Forall₂ R xs ys → OptRel (AlikeR R) (putAll m st vs xs) (putAll m st' vs ys) := by
  induction vs with
  | nil => intro st st' xs ys h _; exact h
  | cons v vs ih =>
    intro st st' xs ys h hl
    cases hl with
    | nil => exact h
    | cons h0 hl =>
      simp only [putAll, Option.bind_eq_bind]
      exact (putR hsc h v h0).bind fun a b hab => ih hab hl

theorem freeR (h : AlikeR R st st') (fs : List Node) : AlikeR R (free pr st fs) (free pr st' fs) := ⟨h.set, h.rel⟩

theorem outputsR (hsc : ∀ i, isSimd m i = false) (h : AlikeR R st st') :
    OptRel (fun _ _ => True) (outputs m st) (outputs m st') := by
  unfold outputs
  simp only [Option.bind_eq_bind, Option.pure_def]
  refine OptRel.bind_eq fun c => ?_
  simp only [hsc, Bool.false_eq_true, if_false]
  exact (mapM_rel (fun g => getR hsc h (0, g)) _).bind fun _ _ _ => trivial

theorem mapM_mem {A B : Type} {f : A → Option B} {l : List A} {r : List B} (h : l.mapM f = some r) {b : B} (hb : b ∈ r) :
    ∃ a ∈ l, f a = some b := by
  induction l generalizing r with
  | nil => cases h; simp at hb
  | cons a l ih =>
    simp only [List.mapM_cons, Option.bind_eq_bind, Option.pure_def, Option.bind_eq_some_iff, Option.some.injEq] at h
    obtain ⟨b', h1, r', h2, rfl⟩ := h
    rcases List.mem_cons.1 hb with rfl | hb
    · exact ⟨a, List.mem_cons_self, h1⟩
    · obtain ⟨x, hx, hf⟩ := ih h2 hb
      exact ⟨x, List.mem_cons_of_mem _ hx, hf⟩

/-- A layer: the messages and what is done with the answer. -/
theorem layerR (hM : Masking pr view R P party Xs mk) (hsc : ∀ i, isSimd m i = false) (h : AlikeR R st st')
    (l : MLayer) (fs : List Node) (hP : ∀ v ∈ intScalar m l, ∀ g, m.gate? v = some g → P g) (k n : Nat) :
    ∃ φ : X → X, Set.BijOn φ (Xs n) (Xs n) ∧ ∀ x ∈ Xs n,
      OptRel (fun a b => view a.1 = view b.1 ∧ ∀ other : M × Option MS,
          OptRel (AlikeR R) (finishLayer pr m party (free pr st fs) l a.1 other a.2)
            (finishLayer pr m party (free pr st' fs) l b.1 other b.2))
        (computeMsgs pr m party st l (mk k x)) (computeMsgs pr m party st' l (mk k (φ x))) := by
  cases hgs : (intScalar m l).mapM m.gate? with
  | none =>
    refine ⟨id, Set.bijOn_id _, fun x _ => ?_⟩
    simp only [computeMsgs, hgs, Option.bind_eq_bind, Option.bind_none]
    trivial
  | some gs =>
    have hg := mapM_rel (R := List.Forall₂ R) (f := fun v => (m.parents v).mapM (st.get m))
      (g := fun v => (m.parents v).mapM (st'.get m)) (fun v => getsR hsc h (m.parents v)) (intScalar m l)
    cases hy : (intScalar m l).mapM (fun v => (m.parents v).mapM (st.get m)) with
    | none =>
      cases hy' : (intScalar m l).mapM (fun v => (m.parents v).mapM (st'.get m)) with
      | none =>
        refine ⟨id, Set.bijOn_id _, fun x _ => ?_⟩
        simp only [computeMsgs, hgs, hy, hy', Option.bind_eq_bind, Option.bind_none, Option.bind_some]
        trivial
      | some b => rw [hy, hy'] at hg; exact hg.elim
    | some a =>
      cases hy' : (intScalar m l).mapM (fun v => (m.parents v).mapM (st'.get m)) with
      | none => rw [hy, hy'] at hg; exact hg.elim
      | some b =>
        rw [hy, hy'] at hg
        obtain ⟨φ, p1, p2⟩ := hM.layer gs
          (fun g hgm => by
            obtain ⟨v, hv, hvg⟩ := mapM_mem hgs hgm
            exact hP v hv g hvg)
          a.flatten b.flatten ((intScalar m l).map st.sc) ((intScalar m l).map st'.sc) (forall_flatten hg) k n
        refine ⟨φ, p1, fun x hx => ?_⟩
        simp only [computeMsgs, hgs, hy, hy', Option.bind_eq_bind, Option.bind_some, hM.simd, Bool.false_eq_true, if_false]
        refine (p2 x hx).bind fun u w huw => ?_
        refine ⟨huw.1, fun other => ?_⟩
        unfold finishLayer
        simp only [hgs, Option.bind_eq_bind, Option.bind_some]
        refine OptRel.bind (huw.2 other.1) fun z z' hz => ?_
        obtain ⟨o1, o2⟩ := other
        cases o2 with
        | none => exact putAllR hsc _ (freeR h fs) hz
        | some _ => trivial

end

variable {R : S → S → Prop} {pr : Protocol G S V M MS T} {view : M × Option MS → W} {P : G → Prop} {party : Nat}
  {Xs : Nat → Set X} {mk : Nat → X → T} {m : Multi G}

/-- What the party does depends only on the setups of the requests that are still to come. -/
theorem execLayers_congrT {inp : Input S V} {s s' : Nat → Nat → T}
    (fl : List (MLayer × List Node)) : ∀ (k : Nat) (st : Store S V), (∀ i n, k ≤ i → s i n = s' i n) →
    execLayers pr m party inp s k fl st = execLayers pr m party inp s' k fl st := by
  induction fl with
  | nil => intro k st _; simp [execLayers]
  | cons f fl ih =>
    obtain ⟨l, fs⟩ := f
    intro k st h
    simp only [execLayers]
    cases evalNodes pr m party inp st (niOf l) with
    | none => rfl
    | some st1 =>
      dsimp only
      split
      · exact ih k st1 h
      · rw [h k _ (le_refl k)]
        cases computeMsgs pr m party st1 l (s' k (intCount m l)) with
        | none => rfl
        | some r =>
          dsimp only
          congr 2
          funext other
          cases finishLayer pr m party (free pr st1 fs) l r.1 other r.2 with
          | none => rfl
          | some st2 => exact ih (k + 1) st2 fun i n hi => h i n (by omega)

theorem fitX_cons {l : MLayer} {fl : List MLayer} (h0 : intCount m l ≠ 0) (x : List X) :
    FitX Xs m (l :: fl) x ↔ ∃ a r, x = a :: r ∧ a ∈ Xs (intCount m l) ∧ FitX Xs m fl r := by
  unfold FitX
  have : interactiveLayers m (l :: fl) = l :: interactiveLayers m fl := by simp [interactiveLayers, h0]
  rw [this]
  cases x with
  | nil => simp
  | cons a r => simp

theorem fitX_skip {l : MLayer} {fl : List MLayer} (h0 : intCount m l = 0) (x : List X) :
    FitX Xs m (l :: fl) x ↔ FitX Xs m fl x := by
  unfold FitX
  have : interactiveLayers m (l :: fl) = interactiveLayers m fl := by simp [interactiveLayers, h0]
  rw [this]

/-- Setups for the requests from `k` on. -/
def fromSetup (mk : Nat → X → T) (none_ : X) (k : Nat) (x : List X) (i _n : Nat) : T := mk i (x.getD (i - k) none_)

/-- Two executions that look the same. -/
def SameView (view : M × Option MS → W) (r r' : List (M × Option MS) × Option (Input S V)) : Prop :=
  r.1.map view = r'.1.map view ∧ r.2.isSome = r'.2.isSome

theorem layers_activeR (hM : Masking pr view R P party Xs mk) (hsc : ∀ i, isSimd m i = false) {xs ys : List S}
    (hin : List.Forall₂ R xs ys) (none_ : X) (adv : List W → Option (M × Option MS)) (fl : List (MLayer × List Node))
    (hP : ∀ l ∈ fl.map (·.1), ∀ v ∈ intScalar m l, ∀ g, m.gate? v = some g → P g) :
    ∀ (k : Nat) (st st' : Store S V) (sent sent' : List (M × Option MS)), AlikeR R st st' →
      sent.map view = sent'.map view →
    ∃ f : List X → List X, Set.BijOn f {x | FitX Xs m (fl.map (·.1)) x} {x | FitX Xs m (fl.map (·.1)) x} ∧
      ∀ x, FitX Xs m (fl.map (·.1)) x →
        SameView view
          (interact (fun s => adv (s.map view)) sent (execLayers pr m party (.scalar xs) (fromSetup mk none_ k x) k fl st))
          (interact (fun s => adv (s.map view)) sent'
            (execLayers pr m party (.scalar ys) (fromSetup mk none_ k (f x)) k fl st')) := by
  induction fl with
  | nil =>
    intro k st st' sent sent' h hsent
    refine ⟨id, Set.bijOn_id _, fun x _ => ?_⟩
    simp only [execLayers]
    have := outputsR (R := R) hsc h
    cases h1 : outputs m st <;> cases h2 : outputs m st' <;> rw [h1, h2] at this
    · exact ⟨hsent, rfl⟩
    · exact this.elim
    · exact this.elim
    · exact ⟨hsent, rfl⟩
  | cons f fl ih =>
    obtain ⟨l, fs⟩ := f
    have ih := ih fun l h => hP l (List.mem_cons_of_mem _ h)
    intro k st st' sent sent' h hsent
    have hev := evalNodesR hM hsc hin (niOf l) h
    cases h1 : evalNodes pr m party (.scalar xs) st (niOf l) with
    | none =>
      cases h2 : evalNodes pr m party (.scalar ys) st' (niOf l) with
      | none =>
        refine ⟨id, Set.bijOn_id _, fun x _ => ?_⟩
        simp only [execLayers, h1, h2]
        exact ⟨hsent, rfl⟩
      | some _ => rw [h1, h2] at hev; exact hev.elim
    | some s1 =>
      cases h2 : evalNodes pr m party (.scalar ys) st' (niOf l) with
      | none => rw [h1, h2] at hev; exact hev.elim
      | some s1' =>
        rw [h1, h2] at hev
        replace hev : AlikeR R s1 s1' := hev
        by_cases h0 : intCount m l = 0
        · simp only [execLayers, h1, h2, h0, if_true, List.map_cons, fitX_skip h0]
          exact ih k s1 s1' sent sent' hev hsent
        · simp only [List.map_cons]
          obtain ⟨φ, p1, p2⟩ := layerR hM hsc hev l fs (hP l (by simp)) k (intCount m l)
          have step : ∀ a : X, ∃ g : List X → List X,
              Set.BijOn g {x | FitX Xs m (fl.map (·.1)) x} {x | FitX Xs m (fl.map (·.1)) x} ∧
              (a ∈ Xs (intCount m l) → ∀ r, FitX Xs m (fl.map (·.1)) r →
                SameView view
                  (interact (fun s => adv (s.map view)) sent
                    (execLayers pr m party (.scalar xs) (fromSetup mk none_ k (a :: r)) k ((l, fs) :: fl) st))
                  (interact (fun s => adv (s.map view)) sent'
                    (execLayers pr m party (.scalar ys) (fromSetup mk none_ k (φ a :: g r)) k ((l, fs) :: fl) st'))) := by
            intro a
            by_cases ha : a ∈ Xs (intCount m l)
            swap
            · exact ⟨id, Set.bijOn_id _, fun h => absurd h ha⟩
            have hrel := p2 a ha
            have head : ∀ (b : X) (r : List X), fromSetup mk none_ k (b :: r) k (intCount m l) = mk k b := by
              intro b r; simp [fromSetup]
            have cong : ∀ (y : Input S V) (b : X) (r : List X) (s : Store S V),
                execLayers pr m party y (fromSetup mk none_ k (b :: r)) (k + 1) fl s =
                  execLayers pr m party y (fromSetup mk none_ (k + 1) r) (k + 1) fl s := by
              intro y b r s
              refine execLayers_congrT fl (k + 1) s fun i n hi => ?_
              obtain ⟨j, rfl⟩ := Nat.exists_eq_add_of_le hi
              simp only [fromSetup]
              rw [show k + 1 + j - k = j + 1 by omega, show k + 1 + j - (k + 1) = j by omega]
              simp
            simp only [execLayers, h1, h2, h0, if_false, head, cong]
            cases c1 : computeMsgs pr m party s1 l (mk k a) with
            | none =>
              cases c2 : computeMsgs pr m party s1' l (mk k (φ a)) with
              | none => exact ⟨id, Set.bijOn_id _, fun _ _ _ => ⟨hsent, rfl⟩⟩
              | some _ => rw [c1, c2] at hrel; exact hrel.elim
            | some w =>
              cases c2 : computeMsgs pr m party s1' l (mk k (φ a)) with
              | none => rw [c1, c2] at hrel; exact hrel.elim
              | some w' =>
                rw [c1, c2] at hrel
                obtain ⟨msg, t⟩ := w
                obtain ⟨msg', t'⟩ := w'
                obtain ⟨e1, e2⟩ := hrel
                dsimp only at e1 e2
                have hs2 : (sent ++ [msg]).map view = (sent' ++ [msg']).map view := by
                  simp [hsent, e1]
                simp only [interact, ← hs2]
                cases hadv : adv ((sent ++ [msg]).map view) with
                | none => exact ⟨id, Set.bijOn_id _, fun _ _ _ => ⟨hs2, rfl⟩⟩
                | some r =>
                  dsimp only
                  have hf := e2 r
                  cases f1 : finishLayer pr m party (free pr s1 fs) l msg r t with
                  | none =>
                    cases f2 : finishLayer pr m party (free pr s1' fs) l msg' r t' with
                    | none => exact ⟨id, Set.bijOn_id _, fun _ _ _ => ⟨hs2, rfl⟩⟩
                    | some _ => rw [f1, f2] at hf; exact hf.elim
                  | some s2 =>
                    cases f2 : finishLayer pr m party (free pr s1' fs) l msg' r t' with
                    | none => rw [f1, f2] at hf; exact hf.elim
                    | some s2' =>
                      rw [f1, f2] at hf
                      obtain ⟨g, g1, g2⟩ := ih (k + 1) s2 s2' (sent ++ [msg]) (sent' ++ [msg']) hf hs2
                      exact ⟨g, g1, fun _ r hr => g2 r hr⟩
          choose g g1 g2 using step
          let F : List X → List X := fun x =>
            match x with
            | [] => []
            | a :: r => φ a :: g a r
          refine ⟨F, ⟨?_, ?_, ?_⟩, ?_⟩
          · intro x hx
            obtain ⟨a, r, rfl, ha, hr⟩ := (fitX_cons h0 x).1 hx
            exact (fitX_cons h0 _).2 ⟨φ a, g a r, rfl, p1.mapsTo ha, (g1 a).mapsTo hr⟩
          · intro x hx y hy hxy
            obtain ⟨a, r, rfl, ha, hr⟩ := (fitX_cons h0 x).1 hx
            obtain ⟨b, q, rfl, hb, hq⟩ := (fitX_cons h0 y).1 hy
            simp only [F, List.cons.injEq] at hxy
            have hab : a = b := p1.injOn ha hb hxy.1
            subst hab
            rw [(g1 a).injOn hr hq hxy.2]
          · intro y hy
            obtain ⟨b, q, rfl, hb, hq⟩ := (fitX_cons h0 y).1 hy
            obtain ⟨a, ha, rfl⟩ := p1.surjOn hb
            obtain ⟨r, hr, rfl⟩ := (g1 a).surjOn hq
            exact ⟨a :: r, (fitX_cons h0 _).2 ⟨_, _, rfl, ha, hr⟩, rfl⟩
          · intro x hx
            obtain ⟨a, r, rfl, ha, hr⟩ := (fitX_cons h0 x).1 hx
            exact g2 a ha r hr

/-- Executions of a protocol that masks its messages, for inputs of the same kinds: the choices of masks correspond one to
one such that an arbitrary peer sees the same and the party returns an output in both cases or in none. -/
theorem masking_private (hM : Masking pr view R P party Xs mk) (rank : Node → Nat) (w : WF m rank)
    (hsc : ∀ i, isSimd m i = false) (hP : ∀ v g, m.gate? v = some g → interactive g = true → P g)
    (xs ys : List S) (hin : List.Forall₂ R xs ys) (none_ : X) (init : Store S V) (hset : ∀ v, init.set v = false) :
    ∃ it ls, MIter.new m = some it ∧
      MIter.collect m ((m.circs.map fun c => c.gates.length).sum + 1) it = some ls ∧
      ∀ adv : List W → Option (M × Option MS),
      ∃ f : List X → List X, Set.BijOn f {x | FitX Xs m ls x} {x | FitX Xs m ls x} ∧
        ∀ x, FitX Xs m ls x → ∃ (seen : List W) (o o' : Option (Input S V)),
          observe view adv (execute pr m party (.scalar xs) (maskSetup mk none_ x) init) = (seen, o) ∧
          observe view adv (execute pr m party (.scalar ys) (maskSetup mk none_ (f x)) init) = (seen, o') ∧
          o.isSome = o'.isSome := by
  obtain ⟨it, ls, e1, e2, ok⟩ := layers_ok_partial m rank w
  refine ⟨it, ls, e1, e2, fun adv => ?_⟩
  obtain ⟨fl, e3, hfl, hfree⟩ := freeable_spec (m := m) ls [] (fun _ => none)
    (by simpa using ok.once) (by intro u _; simp) (by intro w hw; simp at hw) ok.topo
  cases hc : m.circs[0]? with
  | none =>
    refine ⟨id, Set.bijOn_id _, fun x _ => ⟨[], none, none, ?_, ?_, rfl⟩⟩ <;> simp [execute, hc, interact, observe]
  | some c =>
    have yes : ∀ (y : List S) (su : Nat → Nat → T), c.inputGates.length = y.length →
        execute pr m party (.scalar y) su init = execLayers pr m party (.scalar y) su 0 fl init := by
      intro y su hy
      simp [execute, hc, hy, e1, e2, e3]
    have no : ∀ (y : List S) (su : Nat → Nat → T), ¬ c.inputGates.length = y.length →
        execute pr m party (.scalar y) su init = .fail := by
      intro y su hy
      simp [execute, hc, hy]
    have hlen := hin.length_eq
    by_cases hl : c.inputGates.length = xs.length
    · have tail : ∀ x, fromSetup mk none_ 0 x = maskSetup mk none_ x := by
        intro x; funext i n; simp [fromSetup, maskSetup]
      have hP' : ∀ l ∈ fl.map (·.1), ∀ v ∈ intScalar m l, ∀ g, m.gate? v = some g → P g := by
        intro l hl' v hv g hg
        rw [hfl] at hl'
        have hv' : v ∈ intNodes l := by
          unfold intScalar at hv
          obtain ⟨p, hp, hpv⟩ := List.mem_flatMap.1 hv
          exact List.mem_flatMap.2 ⟨p, (List.mem_filter.1 hp).1, hpv⟩
        obtain ⟨g', hg', hi⟩ := ok.inter l hl' v hv'
        rw [hg] at hg'
        cases hg'
        exact hP v g hg hi
      obtain ⟨f, f1, f2⟩ := layers_activeR hM hsc hin none_ adv fl hP' 0 init init [] []
        ⟨rfl, fun v hv => by rw [hset] at hv; cases hv⟩ rfl
      rw [hfl] at f1 f2
      refine ⟨f, f1, fun x hx => ?_⟩
      have := f2 x hx
      rw [tail, tail] at this
      refine ⟨(interact (fun s => adv (s.map view)) []
          (execLayers pr m party (.scalar xs) (maskSetup mk none_ x) 0 fl init)).1.map view, _,
        (interact (fun s => adv (s.map view)) []
          (execLayers pr m party (.scalar ys) (maskSetup mk none_ (f x)) 0 fl init)).2, ?_, ?_, this.2⟩
      · unfold observe
        rw [yes _ _ hl]
      · unfold observe
        rw [yes _ _ (hl.trans hlen), this.1]
    · refine ⟨id, Set.bijOn_id _, fun x _ => ⟨[], none, none, ?_, ?_, rfl⟩⟩
      · rw [no _ _ hl]; rfl
      · rw [no _ _ fun h => hl (h.trans hlen.symm)]; rfl

end Verif.Exec
