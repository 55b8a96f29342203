import Verif.Tensor.Circuit

/-!
The masks drawn by `setup_gate_outputs`, and those of the inputs.
-/
set_option autoImplicit false

namespace Verif.Tensor

open Gmw (BaseGate)
open Bitmat
open Circuit Exec Proc
open Aby2 (layers interactiveNodes iterNodes OrdFrom merge InputBy ShareType shareType)

/-- A mask fits a value. -/
def Shape : PShare → PShare → Prop
  | .scalar _, .scalar _ => True
  | .matrix m, .matrix o => IsMat m.rows m.cols o
  | _, _ => False

/-! ### One gate -/

theorem shape_scalar {x : Bool} {l : PShare} (h : Shape (.scalar x) l) : ∃ b, l = .scalar b := by
  cases l <;> simp only [Shape] at h
  exact ⟨_, rfl⟩

theorem shape_matrix {x : BitMatrix} {l : PShare} (h : Shape (.matrix x) l) :
    ∃ b, l = .matrix b ∧ IsMat x.rows x.cols b := by
  cases l <;> simp only [Shape] at h
  exact ⟨_, rfl, h⟩

/-- The generator is not shared with the other party unless the gate id is a remote input. -/
theorem setupNode_select {σ : Type} (gen : Gen σ) (m : Multi TGate) (s : Sharing σ)
    (st : Store TShare (List TShare)) (v : Node) :
    setupNode gen m s st v = (if s.map v.2 = some .remote then do
        let g ← m.gate? v
        let xs ← (m.parents v).mapM (st.get m)
        let (o, r) ← setupOutputShare gen g xs s.remoteJoint
        let st ← st.put m v o
        pure ({ s with remoteJoint := r }, st)
      else do
        let g ← m.gate? v
        let xs ← (m.parents v).mapM (st.get m)
        let (o, r) ← setupOutputShare gen g xs s.priv
        let st ← st.put m v o
        pure ({ s with priv := r }, st)) := by
  unfold setupNode
  cases h : s.map v.2 with
  | none => simp
  | some t => cases t <;> simp

theorem mapM_get {m : Multi TGate} {st : Store TShare (List TShare)} (vs : List Node)
    (hns : ∀ i, isSimd m i = false) (h : ∀ u ∈ vs, st.set u = true) :
    vs.mapM (st.get m) = some (vs.map st.sc) := by
  refine mapM_some_map (st.get m) st.sc vs ?_
  intro v hv
  simp [Store.get, hns, h v hv]

theorem setupNode_spec {σ : Type} (gen : Gen σ) {m : Multi TGate} (hns : ∀ i, isSimd m i = false)
    {inp : List PShare} {val : Node → PShare} (s : Sharing σ) (st : Store TShare (List TShare))
    (v : Node) (g : TGate) (hg : m.gate? v = some g) (ha : GateEq m inp val v g)
    (hset : ∀ u ∈ m.parents v, st.set u = true) (hv : v ∉ m.parents v)
    (hsh : ∀ u ∈ m.parents v, Shape (val u) (maskOf st u)) :
    ∃ s' st', setupNode gen m s st v = some (s', st') ∧
      (∀ u, u ≠ v → st'.sc u = st.sc u ∧ st'.set u = st.set u) ∧ st'.set v = true ∧
      MaskEq m (maskOf st') v g ∧ Shape (val v) (maskOf st' v) := by
  obtain ⟨o, hput⟩ : ∃ o : TShare → Store TShare (List TShare), ∀ x, st.put m v x = some (o x) ∧
      (∀ u, u ≠ v → (o x).sc u = st.sc u ∧ (o x).set u = st.set u) ∧ (o x).set v = true ∧
      (o x).sc v = x := by
    refine ⟨fun x => { st with sc := fun u => if u = v then x else st.sc u
                               set := fun u => if u = v then true else st.set u }, ?_⟩
    intro x
    refine ⟨by simp [Store.put, hns], ?_, by simp, by simp⟩
    intro u hu; simp [hu]
  have hother : ∀ x u, u ∈ m.parents v → maskOf (o x) u = maskOf st u := by
    intro x u hu
    have : u ≠ v := fun e => hv (e ▸ hu)
    simp [maskOf, ((hput x).2.1 u this).1]
  have hm : ∀ x, maskOf (o x) v = x.getPrivate := fun x => by simp [maskOf, (hput x).2.2.2]
  have key : ∀ r : σ, ∃ x r', setupOutputShare gen g ((m.parents v).map st.sc) r = some (x, r') ∧
      MaskEq m (maskOf (o x)) v g ∧ Shape (val v) (maskOf (o x) v) := by
    intro r
    have pass : ∀ b d, g = .base b d → (∃ p, m.parents v = [p] ∧ val v = val p) →
        (∀ xs, setupOutputShare gen (.base b d) xs r = (do let a ← xs[0]?; pure (a, r))) →
        (∀ lam, MaskEq m lam v (.base b d) = ∃ p, m.parents v = [p] ∧ lam v = lam p) →
        ∃ x r', setupOutputShare gen g ((m.parents v).map st.sc) r = some (x, r') ∧
          MaskEq m (maskOf (o x)) v g ∧ Shape (val v) (maskOf (o x) v) := by
      rintro b d rfl ⟨p, hp, hvp⟩ h1 h2
      refine ⟨st.sc p, r, by simp [h1, hp], ?_, ?_⟩
      · rw [h2]
        exact ⟨p, hp, by rw [hm, hother _ p (by simp [hp])]; rfl⟩
      · rw [hvp, hm]; exact hsh p (by simp [hp])
    cases g with
    | base b d =>
      cases b with
      | input =>
        obtain ⟨c, i, -, -, -, hd⟩ := ha
        match d, hx : val v, hd with
        | [], .scalar _, _ =>
          exact ⟨_, _, rfl, by simp [MaskEq, hm, TShare.getPrivate, HasDim],
            by simp [hm, TShare.getPrivate, Shape]⟩
        | [a, b], .matrix z, hz =>
          obtain ⟨e1, m1⟩ := random_some gen r (show 8 ∣ a * b from hz.2.2.2)
          refine ⟨.matrix ⟨0, 0, []⟩ (gen.mat r a b).1, (gen.mat r a b).2, ?_, ?_, ?_⟩
          · simp [setupOutputShare, e1]
          · simpa [MaskEq, hm, TShare.getPrivate, HasDim] using m1
          · have hz' : IsMat a b z := hz
            simp only [hm, TShare.getPrivate, Shape, hz'.1, hz'.2.1]
            exact m1
      | constant x => exact absurd ha id
      | connectToMainFromSimd k => exact absurd ha id
      | _ => exact pass _ _ rfl ha (fun _ => rfl) (fun _ => rfl)
    | op g =>
      cases g with
      | inv => exact absurd ha id
      | and2 =>
        obtain ⟨p, q, x, y, hp, vp, vq, vv⟩ := ha
        exact ⟨.scalar false (gen.bit r).1, _, rfl, ⟨_, by rw [hm]; rfl⟩,
          by rw [vv, hm]; exact trivial⟩
      | xor =>
        obtain ⟨p, q, x, y, hp, vp, vq, vv⟩ := ha
        have sp := hsh p (by simp [hp])
        have sq := hsh q (by simp [hp])
        rw [vp] at sp
        rw [vq] at sq
        obtain ⟨b, hb⟩ := shape_scalar sp
        obtain ⟨b', hb'⟩ := shape_scalar sq
        obtain ⟨u, eu⟩ := priv_scalar hb
        obtain ⟨u', eu'⟩ := priv_scalar hb'
        refine ⟨.scalar u (b ^^ b'), r, by simp [setupOutputShare, setupOutput, hp, eu, eu'],
          ⟨p, q, b, b', hp, ?_, ?_, by rw [hm]; rfl⟩, by rw [vv, hm]; exact trivial⟩
        · rw [hother _ p (by simp [hp])]; exact hb
        · rw [hother _ q (by simp [hp])]; exact hb'
      | matMult rr cc =>
        obtain ⟨p, q, x, y, z, hp, vp, vq, vv, mx, my, mz, -⟩ := ha
        have sp := hsh p (by simp [hp])
        have sq := hsh q (by simp [hp])
        rw [vp] at sp
        rw [vq] at sq
        obtain ⟨b, hb, ib⟩ := shape_matrix sp
        obtain ⟨b', hb', ib'⟩ := shape_matrix sq
        obtain ⟨u, eu⟩ := priv_matrix hb
        obtain ⟨u', eu'⟩ := priv_matrix hb'
        obtain ⟨e1, m1⟩ := random_some gen r (show 8 ∣ rr * cc from mz.2.2.2)
        refine ⟨.matrix ⟨0, 0, []⟩ (gen.mat r rr cc).1, (gen.mat r rr cc).2, ?_,
          ⟨_, by rw [hm]; rfl, m1⟩, ?_⟩
        · have d1 : b.rows = rr := by rw [ib.1, mx.1]
          have d2 : b'.cols = cc := by rw [ib'.2.1, my.2.1]
          simp [setupOutputShare, setupOutput, hp, eu, eu', d1, d2, e1]
        · rw [vv, hm]
          simp only [TShare.getPrivate, Shape, mz.1, mz.2.1]
          exact m1
  have hxs := mapM_get (st := st) (m.parents v) hns hset
  rw [setupNode_select]
  by_cases hrem : s.map v.2 = some .remote
  · obtain ⟨x, r', k1, k2, k3⟩ := key s.remoteJoint
    obtain ⟨p1, p2, p3, p4⟩ := hput x
    refine ⟨{ s with remoteJoint := r' }, o x, ?_, p2, p3, k2, k3⟩
    simp [hrem, hg, hxs, k1, p1]
  · obtain ⟨x, r', k1, k2, k3⟩ := key s.priv
    obtain ⟨p1, p2, p3, p4⟩ := hput x
    refine ⟨{ s with priv := r' }, o x, ?_, p2, p3, k2, k3⟩
    simp [hrem, hg, hxs, k1, p1]

theorem maskEq_congr {m : Multi TGate} {v : Node} {g : TGate} {l l' : Node → PShare}
    (h : MaskEq m l v g) (hv : l' v = l v) (hp : ∀ u ∈ m.parents v, l' u = l u) :
    MaskEq m l' v g := by
  cases g with
  | base b d =>
    cases b with
    | input => simp only [MaskEq] at h ⊢; rw [hv]; exact h
    | constant x => exact h
    | connectToMainFromSimd x => exact h
    | _ =>
      obtain ⟨p, e, h⟩ := h
      exact ⟨p, e, by rw [hv, h, hp p (by simp [e])]⟩
  | op g =>
    cases g with
    | inv => exact h
    | and2 => obtain ⟨b, h⟩ := h; exact ⟨b, by rw [hv, h]⟩
    | matMult r c => obtain ⟨b, h, h'⟩ := h; exact ⟨b, by rw [hv, h], h'⟩
    | xor =>
      obtain ⟨p, q, a, b, e, h1, h2, h3⟩ := h
      exact ⟨p, q, a, b, e, by rw [hp p (by simp [e]), h1], by rw [hp q (by simp [e]), h2],
        by rw [hv, h3]⟩

/-! ### All gates -/

theorem setupNodes_spec {σ : Type} (gen : Gen σ) {m : Multi TGate} (hns : ∀ i, isSimd m i = false)
    {inp : List PShare} {val : Node → PShare} (har : PlainEval m inp val) (vs done : List Node)
    (s : Sharing σ) (st : Store TShare (List TShare)) (hval : ∀ v ∈ vs, ∃ g, m.gate? v = some g)
    (ho : OrdFrom m.parents done vs) (hnd : vs.Nodup) (hdis : ∀ v ∈ vs, v ∉ done)
    (hdone : ∀ u ∈ done, st.set u = true ∧ Shape (val u) (maskOf st u)) :
    ∃ s' st', setupNodes gen m s st vs = some (s', st') ∧ (∀ u, u ∉ vs → st'.sc u = st.sc u) ∧
      (∀ u, st.set u = true → st'.set u = true) ∧ (∀ u ∈ vs, st'.set u = true) ∧
      (∀ v ∈ vs, ∀ g, m.gate? v = some g → MaskEq m (maskOf st') v g ∧
        Shape (val v) (maskOf st' v)) := by
  induction vs generalizing done s st with
  | nil => exact ⟨s, st, rfl, fun _ _ => rfl, fun _ h => h, by simp, by simp⟩
  | cons v vs ih =>
    obtain ⟨g, hg⟩ := hval v List.mem_cons_self
    obtain ⟨o1, o2⟩ := ho
    have hv : v ∉ done := hdis v List.mem_cons_self
    simp only [List.nodup_cons] at hnd
    obtain ⟨s1, st1, e1, k1, k2, k3, k4⟩ := setupNode_spec gen hns s st v g hg (har v g hg)
      (fun u hu => (hdone u (o1 u hu)).1) (fun h => hv (o1 v h)) (fun u hu => (hdone u (o1 u hu)).2)
    obtain ⟨s', st', f1, f2, f3, f4, f5⟩ := ih (done ++ [v]) s1 st1
      (fun w hw => hval w (List.mem_cons_of_mem _ hw)) o2 hnd.2
      (by
        intro w hw h
        rcases List.mem_append.1 h with h | h
        · exact hdis w (List.mem_cons_of_mem _ hw) h
        · rw [List.mem_singleton] at h; subst h; exact hnd.1 hw)
      (by
        intro u hu
        rcases List.mem_append.1 hu with hu | hu
        · have hne : u ≠ v := fun e => hv (e ▸ hu)
          rw [(k1 u hne).2, maskOf, (k1 u hne).1]; exact hdone u hu
        · rw [List.mem_singleton] at hu; rw [hu]; exact ⟨k2, k4⟩)
    have hvv : st'.sc v = st1.sc v := f2 v hnd.1
    refine ⟨s', st', by simp [setupNodes, e1, f1], ?_, ?_, ?_, ?_⟩
    · intro u hu
      simp only [List.mem_cons, not_or] at hu
      rw [f2 u hu.2, (k1 u hu.1).1]
    · intro u hu
      by_cases hne : u = v
      · rw [hne]; exact f3 v k2
      · exact f3 u (by rw [(k1 u hne).2]; exact hu)
    · intro u hu
      rcases List.mem_cons.1 hu with rfl | hu
      · exact f3 _ k2
      · exact f4 u hu
    · intro w hw g' hg'
      rcases List.mem_cons.1 hw with rfl | hw
      · rw [hg] at hg'; cases hg'
        refine ⟨maskEq_congr k3 (by simp [maskOf, hvv]) ?_, by rw [maskOf, hvv]; exact k4⟩
        intro u hu
        have h1 : u ∉ vs := fun h => hdis u (List.mem_cons_of_mem _ h) (o1 u hu)
        simp [maskOf, f2 u h1]
      · exact f5 w hw g' hg'

/-- Setup of the first gates, then of the others. -/
theorem setupNodes_append {σ : Type} (gen : Gen σ) (m : Multi TGate) (a b : List Node) (s : Sharing σ)
    (st : Store TShare (List TShare)) :
    setupNodes gen m s st (a ++ b) = (setupNodes gen m s st a).bind fun r =>
      setupNodes gen m r.1 r.2 b := by
  induction a generalizing s st with
  | nil => rfl
  | cons v a ih =>
    simp only [List.cons_append, setupNodes, Option.bind_eq_bind]
    cases setupNode gen m s st v with
    | none => rfl
    | some r => simp [ih]

theorem put_other {m : Multi TGate} {st st' : Store TShare (List TShare)} {v : Node} {x : TShare}
    (h : st.put m v x = some st') : (∀ u, u ≠ v → st'.sc u = st.sc u) ∧ st'.sc v = x := by
  unfold Store.put at h
  split at h
  · cases h
  · cases h; exact ⟨fun u hu => by simp [hu], by simp⟩

theorem setupNode_other {σ : Type} {gen : Gen σ} {m : Multi TGate} {s s' : Sharing σ}
    {st st' : Store TShare (List TShare)} {v : Node} (h : setupNode gen m s st v = some (s', st')) :
    ∀ u, u ≠ v → st'.sc u = st.sc u := by
  rw [setupNode_select] at h
  split at h
  · simp only [Option.bind_eq_bind, Option.bind_eq_some_iff, Option.pure_def, Option.some.injEq,
      Prod.mk.injEq] at h
    obtain ⟨g, -, xs, -, ⟨o, r⟩, -, st1, h1, -, rfl⟩ := h
    exact (put_other h1).1
  · simp only [Option.bind_eq_bind, Option.bind_eq_some_iff, Option.pure_def, Option.some.injEq,
      Prod.mk.injEq] at h
    obtain ⟨g, -, xs, -, ⟨o, r⟩, -, st1, h1, -, rfl⟩ := h
    exact (put_other h1).1

theorem setupNodes_other {σ : Type} {gen : Gen σ} {m : Multi TGate} (vs : List Node)
    {s s' : Sharing σ} {st st' : Store TShare (List TShare)}
    (h : setupNodes gen m s st vs = some (s', st')) : ∀ u, u ∉ vs → st'.sc u = st.sc u := by
  induction vs generalizing s st with
  | nil => cases h; exact fun _ _ => rfl
  | cons v vs ih =>
    simp only [setupNodes, Option.bind_eq_bind, Option.bind_eq_some_iff] at h
    obtain ⟨⟨s1, st1⟩, h1, h2⟩ := h
    intro u hu
    simp only [List.mem_cons, not_or] at hu
    rw [ih h2 u hu.2, setupNode_other h1 u hu.1]

/-! ### The inputs -/

/-- A random mask for a value. -/
def drawOne {σ : Type} (gen : Gen σ) : PShare → σ → PShare × σ
  | .matrix m, s => (.matrix (gen.mat s m.rows m.cols).1, (gen.mat s m.rows m.cols).2)
  | _, s => (.scalar (gen.bit s).1, (gen.bit s).2)

/-- Masks for the values, one after the other. -/
def drawAll {σ : Type} (gen : Gen σ) : List PShare → σ → List PShare
  | [], _ => []
  | x :: xs, s => (drawOne gen x s).1 :: drawAll gen xs (drawOne gen x s).2

theorem share_masks {σ : Type} (gen : Gen σ) (xs : List PShare) (p j : σ) (s0 s1 : List TShare)
    (ms : List PShare) (h0 : shareTensor gen xs p j = some (s0, ms))
    (h1 : plainDeltaToShare gen ms j = some s1) :
    s0.map (·.getPrivate) = drawAll gen xs p ∧ s1.map (·.getPrivate) = drawAll gen xs j := by
  induction xs generalizing p j s0 s1 ms with
  | nil =>
    simp only [shareTensor, Option.some.injEq, Prod.mk.injEq] at h0
    obtain ⟨rfl, rfl⟩ := h0
    simp only [plainDeltaToShare, Option.some.injEq] at h1
    subst h1
    exact ⟨rfl, rfl⟩
  | cons x xs ih =>
    cases x with
    | vec v => simp [shareTensor] at h0
    | scalar b =>
      simp only [shareTensor, Option.bind_eq_bind, Option.bind_eq_some_iff, Option.some.injEq,
        Prod.mk.injEq] at h0
      obtain ⟨⟨t, ms'⟩, h2, rfl, rfl⟩ := h0
      simp only [plainDeltaToShare, Option.bind_eq_bind, Option.bind_eq_some_iff,
        Option.some.injEq] at h1
      obtain ⟨t1, h3, rfl⟩ := h1
      obtain ⟨i1, i2⟩ := ih _ _ _ _ _ h2 h3
      rw [List.map_cons, List.map_cons, i1, i2]
      exact ⟨rfl, rfl⟩
    | matrix m =>
      have rnd : ∀ (s : σ) r c z, gen.random s r c = some z → z = gen.mat s r c := by
        intro s r c z h
        unfold Gen.random at h
        split at h
        · exact (Option.some.inj h).symm
        · cases h
      simp only [shareTensor, Option.bind_eq_bind, Option.bind_eq_some_iff, Option.some.injEq,
        Prod.mk.injEq] at h0
      obtain ⟨a, ha, b, hb, d1, hd1, d2, hd2, ⟨t, ms'⟩, h2, rfl, rfl⟩ := h0
      rw [rnd _ _ _ _ ha] at hd1 h2 ⊢
      rw [rnd _ _ _ _ hb] at hd2 h2
      have dim : ∀ {a b c : BitMatrix}, matXor a b = some c → c.rows = a.rows ∧ c.cols = a.cols := by
        intro a b c h
        unfold matXor at h
        split at h
        · cases h; exact ⟨rfl, rfl⟩
        · cases h
      have hdim : d2.rows = m.rows ∧ d2.cols = m.cols :=
        ⟨(dim hd2).1.trans (dim hd1).1, (dim hd2).2.trans (dim hd1).2⟩
      simp only [plainDeltaToShare, Option.bind_eq_bind, Option.bind_eq_some_iff,
        Option.some.injEq, hdim.1, hdim.2] at h1
      obtain ⟨a', ha', t1, h3, rfl⟩ := h1
      rw [rnd _ _ _ _ ha'] at h3 ⊢
      obtain ⟨i1, i2⟩ := ih _ _ _ _ _ h2 h3
      rw [List.map_cons, List.map_cons, i1, i2]
      exact ⟨rfl, rfl⟩

/-- The mask of an input gate. -/
theorem setupNode_input {σ : Type} {gen : Gen σ} {m : Multi TGate} {s s' : Sharing σ}
    {st st' : Store TShare (List TShare)} {v : Node} {dim : List Nat} {x : PShare}
    (hg : m.gate? v = some (.base .input dim)) (hd : HasDim dim x)
    (h : setupNode gen m s st v = some (s', st')) :
    s'.map = s.map ∧
    (s.map v.2 = some .remote → maskOf st' v = (drawOne gen x s.remoteJoint).1 ∧
      s'.remoteJoint = (drawOne gen x s.remoteJoint).2 ∧ s'.priv = s.priv) ∧
    (s.map v.2 ≠ some .remote → maskOf st' v = (drawOne gen x s.priv).1 ∧
      s'.priv = (drawOne gen x s.priv).2 ∧ s'.remoteJoint = s.remoteJoint) := by
  have draw : ∀ xs r o r', setupOutputShare gen (.base .input dim) xs r = some (o, r') →
      o.getPrivate = (drawOne gen x r).1 ∧ r' = (drawOne gen x r).2 := by
    intro xs r o r' h
    match dim, x, hd with
    | [], .scalar _, _ =>
      simp only [setupOutputShare, Option.some.injEq, Prod.mk.injEq] at h
      obtain ⟨rfl, rfl⟩ := h
      exact ⟨rfl, rfl⟩
    | [a, b], .matrix z, hz =>
      have hz' : IsMat a b z := hz
      rw [setupOutputShare, (random_some gen r hz'.2.2.2).1] at h
      simp only [Option.bind_eq_bind, Option.bind_some, Option.some.injEq, Prod.mk.injEq] at h
      obtain ⟨rfl, rfl⟩ := h
      simp [drawOne, hz'.1, hz'.2.1, TShare.getPrivate]
  rw [setupNode_select] at h
  split at h
  · rename_i hrem
    simp only [hg, Option.bind_eq_bind, Option.bind_eq_some_iff, Option.pure_def, Option.some.injEq,
      Prod.mk.injEq] at h
    obtain ⟨g, rfl, xs, -, ⟨o, r⟩, h2, st1, h1, rfl, rfl⟩ := h
    obtain ⟨d1, d2⟩ := draw _ _ _ _ h2
    exact ⟨rfl, fun _ => ⟨by rw [maskOf, (put_other h1).2, d1], d2, rfl⟩, fun h => absurd hrem h⟩
  · rename_i hrem
    simp only [hg, Option.bind_eq_bind, Option.bind_eq_some_iff, Option.pure_def, Option.some.injEq,
      Prod.mk.injEq] at h
    obtain ⟨g, rfl, xs, -, ⟨o, r⟩, h2, st1, h1, rfl, rfl⟩ := h
    obtain ⟨d1, d2⟩ := draw _ _ _ _ h2
    exact ⟨rfl, fun h => absurd h hrem, fun _ => ⟨by rw [maskOf, (put_other h1).2, d1], d2, rfl⟩⟩

/-- The state of the generator for the inputs of party 0 and of party 1, at a party. -/
def genOf {σ : Type} (party : Nat) (s : Sharing σ) : InputBy → σ
  | o => if shareType party o = .remote then s.remoteJoint else s.priv

theorem setupNodes_inputs {σ : Type} {gen : Gen σ} {m : Multi TGate} {val : Node → PShare}
    (party : Nat) (ys : List Nat) (os : List InputBy) (x0 x1 : List PShare) {s s' : Sharing σ}
    {st st' : Store TShare (List TShare)}
    (hg : ∀ g ∈ ys, ∃ dim, m.gate? (0, g) = some (.base .input dim) ∧ HasDim dim (val (0, g)))
    (hnd : ys.Nodup) (hmap : ys.map s.map = os.map fun o => some (shareType party o))
    (hval : (ys.map fun g => val (0, g)) = merge os x0 x1)
    (h0 : os.count .p0 = x0.length) (h1 : os.count .p1 = x1.length)
    (h : setupNodes gen m s st (ys.map fun g => (0, g)) = some (s', st')) :
    (ys.map fun g => maskOf st' (0, g)) =
      merge os (drawAll gen x0 (genOf party s .p0)) (drawAll gen x1 (genOf party s .p1)) := by
  induction ys generalizing os x0 x1 s st with
  | nil =>
    have : os = [] := by simpa using hmap.symm
    subst this
    rfl
  | cons y ys ih =>
    cases os with
    | nil => simp at hmap
    | cons o os =>
      simp only [List.map_cons, List.cons.injEq] at hmap
      simp only [List.map_cons, setupNodes, Option.bind_eq_bind, Option.bind_eq_some_iff] at h
      obtain ⟨⟨s1, st1⟩, e1, e2⟩ := h
      obtain ⟨dim, hgy, hdy⟩ := hg y List.mem_cons_self
      obtain ⟨k1, k2, k3⟩ := setupNode_input hgy hdy e1
      have hkeep : maskOf st' (0, y) = maskOf st1 (0, y) := by
        rw [maskOf, setupNodes_other _ e2 (0, y) (by
          simp only [List.mem_map, not_exists, not_and]
          rintro g hg' e
          rw [Prod.mk.injEq] at e
          rw [← e.2] at hnd
          exact (List.nodup_cons.1 hnd).1 hg')]
        rfl
      have hrest := fun x0' x1' => ih os x0' x1' (st := st1) (fun g hg' => hg g (List.mem_cons_of_mem _ hg'))
        (List.nodup_cons.1 hnd).2 (by rw [k1]; exact hmap.2)
      have hty : shareType party .p0 ≠ shareType party .p1 := by
        unfold shareType; by_cases hp : party = 0 <;> simp [hp]
      -- the generator that is not used stays
      have step : ∀ o', shareType party o' = shareType party o → ∀ o'', o'' ≠ o' →
          shareType party o'' ≠ shareType party o →
          maskOf st1 (0, y) = (drawOne gen (val (0, y)) (genOf party s o')).1 ∧
          genOf party s1 o' = (drawOne gen (val (0, y)) (genOf party s o')).2 ∧
          genOf party s1 o'' = genOf party s o'' := by
        intro o' ho' o'' _ ho''
        cases hsh : shareType party o with
        | remote =>
          obtain ⟨q1, q2, q3⟩ := k2 (by rw [hmap.1, hsh])
          rw [hsh] at ho' ho''
          simp only [genOf, ho', ho'', if_true, if_false]
          exact ⟨q1, q2, q3⟩
        | local_ =>
          obtain ⟨q1, q2, q3⟩ := k3 (by rw [hmap.1, hsh]; simp)
          rw [hsh] at ho' ho''
          have : shareType party o'' = .remote := by cases h : shareType party o'' <;> simp_all
          simp only [genOf, ho', this, if_true]
          exact ⟨q1, q2, q3⟩
      cases o with
      | p0 =>
        cases x0 with
        | nil => simp at h0
        | cons a x0 =>
          simp only [List.map_cons, merge, List.cons.injEq] at hval
          obtain ⟨u1, u2, u3⟩ := step .p0 rfl .p1 (by simp) (Ne.symm hty)
          rw [hval.1] at u1 u2
          rw [List.map_cons, hkeep, hrest x0 x1 hval.2 (by simpa using h0) (by simpa using h1) e2,
            u1, u2, u3]
          rfl
      | p1 =>
        cases x1 with
        | nil => simp at h1
        | cons a x1 =>
          simp only [List.map_cons, merge, List.cons.injEq] at hval
          obtain ⟨u1, u2, u3⟩ := step .p1 rfl .p0 (by simp) hty
          rw [hval.1] at u1 u2
          rw [List.map_cons, hkeep, hrest x0 x1 hval.2 (by simpa using h0) (by simpa using h1) e2,
            u1, u2, u3]
          rfl

/-! ### The whole circuit -/

theorem same_circuit {G : Type} {m : Multi G} {rank : Node → Nat} [GateLike G] (w : WF m rank) {v : Node} {g : G}
    (hg : m.gate? v = some g) (hl : 2 ≤ (m.parents v).length) : ∀ u ∈ m.parents v, u.1 = v.1 := by
  intro u hu
  obtain ⟨c, hc, -⟩ : ∃ c, m.circs[v.1]? = some c ∧ c.gates[v.2]? = some g := by
    simpa [Multi.gate?, Option.bind_eq_some_iff] using hg
  have e : m.parents v = (c.parents v.2).map (fun g => (v.1, g)) ++ m.incoming v := by
    simp [Multi.parents, hc]
  by_cases hi : m.incoming v = []
  · rw [e, hi, List.append_nil] at hu
    obtain ⟨g, -, rfl⟩ := List.mem_map.1 hu
    rfl
  · have h1 := w.crossSource v c hi hc
    have h2 := w.single v
    rw [e, h1] at hl
    simp only [List.map_nil, List.nil_append] at hl
    omega

theorem gate_valid {G : Type} (m : Multi G) (v : Node) : m.Valid v ↔ ∃ g, m.gate? v = some g := by
  simp only [Multi.Valid, Multi.gate?, Option.bind_eq_bind, Option.bind_eq_some_iff]
  constructor
  · rintro ⟨c, hc, hl⟩; exact ⟨_, c, hc, List.getElem?_eq_getElem hl⟩
  · rintro ⟨g, c, hc, hg⟩; exact ⟨c, hc, (List.getElem?_eq_some_iff.1 hg).1⟩

theorem interactive_two {m : Multi TGate} {inp : List PShare} {val : Node → PShare} {v : Node}
    {g : TGate} (h : GateEq m inp val v g) (hi : interactive g = true) :
    ∃ p q, m.parents v = [p, q] := by
  cases g with
  | base b d => simp [GateLike.interactive] at hi
  | op g =>
    cases g with
    | xor => simp [GateLike.interactive] at hi
    | inv => simp [GateLike.interactive] at hi
    | and2 => obtain ⟨p, q, -, -, h, -⟩ := h; exact ⟨p, q, h⟩
    | matMult r c => obtain ⟨p, q, -, -, -, h, -⟩ := h; exact ⟨p, q, h⟩

/-- What `setup_gate_outputs` computes on a circuit with plaintext values: it does not panic, the
masks are compatible with the gates and have the dimensions of the values, and the inputs are drawn
first. -/
theorem setup_masks {σ : Type} (gen : Gen σ) (m : Multi TGate) (rank : Node → Nat) (w : WF m rank)
    (hns : ∀ i, isSimd m i = false) {inp : List PShare} {val : Node → PShare}
    (hp : PlainEval m inp val) (ls : List MLayer) (hls : layers m = some ls) (ok : LayersOk m ls)
    (s : Sharing σ) :
    ∃ st, setupGateOutputs gen m s = some st ∧
      (∀ v g, m.gate? v = some g → MaskEq m (maskOf st) v g ∧ Shape (val v) (maskOf st v)) ∧
      (∀ v, m.Valid v → st.get m v = some (st.sc v)) ∧
      (∀ a b, iterNodes ls = a ++ b → ∃ s' st', setupNodes gen m s emptyStore a = some (s', st') ∧
        ∀ v ∈ a, st.sc v = st'.sc v) := by
  obtain ⟨it, hit, hcol⟩ : ∃ it, MIter.new m = some it ∧
      MIter.collect m ((m.circs.map fun c => c.gates.length).sum + 1) it = some ls := by
    simpa [layers, Option.bind_eq_some_iff] using hls
  have hid := Aby2.collect_ids m _ it ls hcol
  have hperm := Aby2.iterNodes_perm ls
  have hvalid : ∀ v, v ∈ iterNodes ls ↔ m.Valid v := fun v => by
    rw [hperm.mem_iff]; exact ok.all v
  have hord : OrdFrom m.parents [] (iterNodes ls) := by
    refine Aby2.iterNodes_ord ls [] hid ok.topo ?_
    intro l hl v hv u hu
    obtain ⟨g, hg, hi⟩ := ok.inter l hl v hv
    obtain ⟨p, q, hpq⟩ := interactive_two (hp v g hg) hi
    exact same_circuit w hg (by rw [hpq]; simp) u hu
  have hnd := hperm.nodup_iff.2 ok.once
  obtain ⟨s', st, f1, f2, f3, f4, f5⟩ := setupNodes_spec gen hns hp (iterNodes ls) [] s emptyStore
    (fun v hv => (gate_valid m v).1 ((hvalid v).1 hv)) hord hnd (by simp) (by simp)
  refine ⟨st, ?_, ?_, ?_, ?_⟩
  · have hall : m.circs.all (fun c => c.simdSize.isNone) = true := by
      rw [List.all_eq_true]
      intro c hc
      obtain ⟨i, hi⟩ := List.getElem?_of_mem hc
      have := hns i
      simp only [isSimd, hi] at this
      simpa using this
    simp [setupGateOutputs, hls, hall, f1]
  · intro v g hg
    exact f5 v ((hvalid v).2 ((gate_valid m v).2 ⟨g, hg⟩)) g hg
  · intro v hv
    simp [Store.get, hns, f4 v ((hvalid v).2 hv)]
  · intro a b hab
    rw [hab, setupNodes_append] at f1
    simp only [Option.bind_eq_some_iff] at f1
    obtain ⟨⟨s1, st1⟩, g1, g2⟩ := f1
    refine ⟨s1, st1, g1, fun v hv => ?_⟩
    apply setupNodes_other _ g2
    intro hb
    rw [hab, List.nodup_append] at hnd
    exact hnd.2.2 v hv v hb rfl

end Verif.Tensor
