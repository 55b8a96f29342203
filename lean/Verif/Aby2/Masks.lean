import Verif.Aby2.Setup

/-!
The masks drawn by `setup_gate_outputs`.
-/
set_option autoImplicit false

namespace Verif.Aby2

open Gmw (BaseGate)
open Circuit Exec Proc

/-- Each gate has the operands it needs. -/
def Arity (m : Multi Gate) (v : Node) : Gate → Prop
  | .base .input | .base (.constant _) => True
  | .base (.connectToMainFromSimd _) => False
  | .base _ | .inv => ∃ p, m.parents v = [p]
  | .and n => (m.parents v).length = n
  | .xor => ∃ p q, m.parents v = [p, q]

theorem arity_of_gateEq {m : Multi Gate} {inp : List Bool} {val : Node → Bool} {v : Node} {g : Gate}
    (h : GateEq m inp val v g) : Arity m v g := by
  cases g with
  | base b =>
    cases b with
    | input => trivial
    | constant x => trivial
    | connectToMainFromSimd k => exact h
    | _ => obtain ⟨p, h, -⟩ := h; exact ⟨p, h⟩
  | and n => exact h.1
  | xor => obtain ⟨p, q, h, -⟩ := h; exact ⟨p, q, h⟩
  | inv => obtain ⟨p, h, -⟩ := h; exact ⟨p, h⟩

/-- Input and AND gates get a fresh mask. -/
def isDraw (m : Multi Gate) (v : Node) : Bool :=
  match m.gate? v with
  | some (.base .input) | some (.and _) => true
  | _ => false

/-- The mask is drawn from the generator shared with the other party. -/
def isRemote (s : DeltaSharing) (v : Node) : Bool := decide (s.map v.2 = some .remote)

/-- The mask of `v` when it is preceded by `before`. -/
def drawn (m : Multi Gate) (s : DeltaSharing) (before : List Node) (v : Node) : Bool :=
  if isRemote s v then
    s.remoteJoint.stream (s.remoteJoint.pos + before.countP fun u => isDraw m u && isRemote s u)
  else s.priv.stream (s.priv.pos + before.countP fun u => isDraw m u && !isRemote s u)

/-- The sharing state after one gate. -/
def stepRng (m : Multi Gate) (s : DeltaSharing) (v : Node) : DeltaSharing :=
  if isDraw m v then
    if isRemote s v then { s with remoteJoint := s.remoteJoint.gen.2 }
    else { s with priv := s.priv.gen.2 }
  else s

theorem stepRng_map (m : Multi Gate) (s : DeltaSharing) (v : Node) : (stepRng m s v).map = s.map := by
  unfold stepRng; split
  · split <;> rfl
  · rfl

theorem drawn_step (m : Multi Gate) (s : DeltaSharing) (v w : Node) (a : List Node) :
    drawn m (stepRng m s v) a w = drawn m s (v :: a) w := by
  have hr : ∀ u, isRemote (stepRng m s v) u = isRemote s u := by
    intro u; simp [isRemote, stepRng_map]
  simp only [drawn, hr, List.countP_cons]
  unfold stepRng
  by_cases hd : isDraw m v = true
  · by_cases hv : isRemote s v = true
    · simp [hd, hv, Rng.gen, Nat.add_assoc, Nat.add_comm 1]
    · simp [hd, hv, Rng.gen, Nat.add_assoc, Nat.add_comm 1]
  · simp [hd]

theorem mapM_get {m : Multi Gate} {st : Store Share (List Share)} (vs : List Node)
    (hns : ∀ i, isSimd m i = false) (h : ∀ u ∈ vs, st.set u = true) :
    vs.mapM (st.get m) = some (vs.map st.sc) := by
  refine mapM_some_map (st.get m) st.sc vs ?_
  intro v hv
  simp [Store.get, hns, h v hv]

theorem setupNode_spec {m : Multi Gate} (hns : ∀ i, isSimd m i = false) (s : DeltaSharing)
    (st : Store Share (List Share)) (v : Node) (g : Gate) (hg : m.gate? v = some g)
    (ha : Arity m v g) (hset : ∀ u ∈ m.parents v, st.set u = true) (hv : v ∉ m.parents v) :
    ∃ st', setupNode m s st v = some (stepRng m s v, st') ∧
      (∀ u, u ≠ v → st'.sc u = st.sc u ∧ st'.set u = st.set u) ∧ st'.set v = true ∧
      MaskEq m (maskOf st') v g ∧ (isDraw m v = true → maskOf st' v = drawn m s [] v) := by
  -- the selected generator
  obtain ⟨o, hput⟩ : ∃ o : Share → Store Share (List Share), ∀ x, st.put m v x = some (o x) ∧
      (∀ u, u ≠ v → (o x).sc u = st.sc u ∧ (o x).set u = st.set u) ∧ (o x).set v = true ∧
      (o x).sc v = x := by
    refine ⟨fun x => { st with sc := fun u => if u = v then x else st.sc u
                               set := fun u => if u = v then true else st.set u }, ?_⟩
    intro x
    refine ⟨by simp [Store.put, hns], ?_, by simp, by simp⟩
    intro u hu; simp [hu]
  have hother : ∀ x u, u ∈ m.parents v → maskOf (o x) u = maskOf st u := by
    intro x u hu
    have : u ≠ v := fun e => hv (e ▸ hu)
    simp [maskOf, ((hput x).2.1 u this).1]
  have key : ∀ r : Rng, ∃ x, setupOutputShare g ((m.parents v).map st.sc) r =
      some (x, if isDraw m v then r.gen.2 else r) ∧ MaskEq m (maskOf (o x)) v g ∧
      (isDraw m v = true → x.priv = r.gen.1) := by
    intro r
    have hm : ∀ x, maskOf (o x) v = x.priv := fun x => by simp [maskOf, (hput x).2.2.2]
    have pass : ∀ b, g = .base b → (∃ p, m.parents v = [p]) → isDraw m v = false →
        (∀ xs, setupOutputShare (.base b) xs r = (do let a ← xs[0]?; pure (a, r))) →
        (∀ lam, MaskEq m lam v (.base b) = ∃ p, m.parents v = [p] ∧ lam v = lam p) →
        ∃ x, setupOutputShare g ((m.parents v).map st.sc) r =
          some (x, if isDraw m v then r.gen.2 else r) ∧ MaskEq m (maskOf (o x)) v g ∧
          (isDraw m v = true → x.priv = r.gen.1) := by
      rintro b rfl ⟨p, hp⟩ hd h1 h2
      refine ⟨st.sc p, by simp [h1, hp, hd], ?_, by simp [hd]⟩
      rw [h2]
      exact ⟨p, hp, by rw [hm, hother _ p (by simp [hp])]; rfl⟩
    cases g with
    | base b =>
      cases b with
      | input =>
        exact ⟨⟨false, r.gen.1⟩, by simp [setupOutputShare, isDraw, hg], trivial, fun _ => rfl⟩
      | constant x =>
        exact ⟨.zero, by simp [setupOutputShare, isDraw, hg], by rw [MaskEq, hm]; rfl,
          by simp [isDraw, hg]⟩
      | connectToMainFromSimd k => exact absurd ha (by simp [Arity])
      | _ => exact pass _ rfl ha (by simp [isDraw, hg]) (fun _ => rfl) (fun _ => rfl)
    | and n => exact ⟨⟨false, r.gen.1⟩, by simp [setupOutputShare, isDraw, hg], trivial, fun _ => rfl⟩
    | xor =>
      obtain ⟨p, q, hp⟩ := ha
      refine ⟨{ st.sc p with priv := (st.sc p).priv ^^ (st.sc q).priv },
        by simp [setupOutputShare, isDraw, hg, hp], ⟨p, q, hp, ?_⟩, by simp [isDraw, hg]⟩
      rw [hm, hother _ p (by simp [hp]), hother _ q (by simp [hp])]; rfl
    | inv =>
      obtain ⟨p, hp⟩ := ha
      refine ⟨st.sc p, by simp [setupOutputShare, isDraw, hg, hp], ⟨p, hp, ?_⟩, by simp [isDraw, hg]⟩
      rw [hm, hother _ p (by simp [hp])]; rfl
  have hxs := mapM_get (st := st) (m.parents v) hns hset
  by_cases hrem : s.map v.2 = some .remote
  · obtain ⟨x, k1, k2, k3⟩ := key s.remoteJoint
    obtain ⟨p1, p2, p3, p4⟩ := hput x
    refine ⟨o x, ?_, p2, p3, k2, ?_⟩
    · simp only [setupNode, hg, hxs, hrem, k1, p1, Option.bind_eq_bind, Option.bind_some,
        Option.pure_def, Option.some.injEq, Prod.mk.injEq, and_true]
      simp only [stepRng, isRemote, hrem, decide_true, if_true]
      split <;> rfl
    · intro hd
      simp only [drawn, isRemote, hrem, decide_true, if_true, List.countP_nil, Nat.add_zero]
      rw [maskOf, p4, k3 hd]; rfl
  · obtain ⟨x, k1, k2, k3⟩ := key s.priv
    obtain ⟨p1, p2, p3, p4⟩ := hput x
    have hmatch : setupNode m s st v = some (({ s with priv := if isDraw m v then s.priv.gen.2 else s.priv }
        : DeltaSharing), o x) := by
      generalize hk : (if isDraw m v = true then s.priv.gen.2 else s.priv) = k at k1
      match hs : s.map v.2 with
      | none => simp [setupNode, hg, hxs, hs, k1, p1]
      | some .local_ => simp [setupNode, hg, hxs, hs, k1, p1]
      | some .remote => exact absurd hs hrem
    refine ⟨o x, ?_, p2, p3, k2, ?_⟩
    · rw [hmatch]
      simp only [stepRng, isRemote, hrem, decide_false, Bool.false_eq_true, if_false]
      split <;> rfl
    · intro hd
      simp only [drawn, isRemote, hrem, decide_false, Bool.false_eq_true, if_false, List.countP_nil,
        Nat.add_zero]
      rw [maskOf, p4, k3 hd]; rfl

theorem maskEq_congr {m : Multi Gate} {v : Node} {g : Gate} {l l' : Node → Bool}
    (h : MaskEq m l v g) (hv : l' v = l v) (hp : ∀ u ∈ m.parents v, l' u = l u) :
    MaskEq m l' v g := by
  cases g with
  | base b =>
    cases b with
    | input => trivial
    | constant x => simp only [MaskEq] at h ⊢; rw [hv, h]
    | _ =>
      obtain ⟨p, e, h⟩ := h
      exact ⟨p, e, by rw [hv, h, hp p (by simp [e])]⟩
  | and n => trivial
  | xor =>
    obtain ⟨p, q, e, h⟩ := h
    exact ⟨p, q, e, by rw [hv, h, hp p (by simp [e]), hp q (by simp [e])]⟩
  | inv =>
    obtain ⟨p, e, h⟩ := h
    exact ⟨p, e, by rw [hv, h, hp p (by simp [e])]⟩

theorem setupNodes_spec {m : Multi Gate} (hns : ∀ i, isSimd m i = false)
    (har : ∀ v g, m.gate? v = some g → Arity m v g) (vs done : List Node) (s : DeltaSharing)
    (st : Store Share (List Share)) (hval : ∀ v ∈ vs, ∃ g, m.gate? v = some g)
    (ho : OrdFrom m.parents done vs) (hnd : vs.Nodup) (hdis : ∀ v ∈ vs, v ∉ done)
    (hdone : ∀ u ∈ done, st.set u = true) :
    ∃ s' st', setupNodes m s st vs = some (s', st') ∧ (∀ u, u ∉ vs → st'.sc u = st.sc u) ∧
      (∀ v ∈ vs, ∀ g, m.gate? v = some g → MaskEq m (maskOf st') v g) ∧
      (∀ a v b, vs = a ++ v :: b → isDraw m v = true → maskOf st' v = drawn m s a v) := by
  induction vs generalizing done s st with
  | nil => exact ⟨s, st, rfl, fun _ _ => rfl, by simp, by simp⟩
  | cons v vs ih =>
    obtain ⟨g, hg⟩ := hval v List.mem_cons_self
    obtain ⟨o1, o2⟩ := ho
    have hv : v ∉ done := hdis v List.mem_cons_self
    simp only [List.nodup_cons] at hnd
    obtain ⟨st1, e1, k1, k2, k3, k4⟩ := setupNode_spec hns s st v g hg (har v g hg)
      (fun u hu => hdone u (o1 u hu)) (fun h => hv (o1 v h))
    obtain ⟨s', st', f1, f2, f3, f4⟩ := ih (done ++ [v]) (stepRng m s v) st1
      (fun w hw => hval w (List.mem_cons_of_mem _ hw)) o2 hnd.2
      (by
        intro w hw h
        rcases List.mem_append.1 h with h | h
        · exact hdis w (List.mem_cons_of_mem _ hw) h
        · rw [List.mem_singleton] at h; subst h; exact hnd.1 hw)
      (by
        intro u hu
        rcases List.mem_append.1 hu with hu | hu
        · rw [(k1 u (fun e => hv (e ▸ hu))).2]; exact hdone u hu
        · rw [List.mem_singleton] at hu; rw [hu]; exact k2)
    have hvv : st'.sc v = st1.sc v := f2 v hnd.1
    refine ⟨s', st', by simp [setupNodes, e1, f1], ?_, ?_, ?_⟩
    · intro u hu
      simp only [List.mem_cons, not_or] at hu
      rw [f2 u hu.2, (k1 u hu.1).1]
    · intro w hw g' hg'
      rcases List.mem_cons.1 hw with rfl | hw
      · rw [hg] at hg'; cases hg'
        refine maskEq_congr k3 (by simp [maskOf, hvv]) ?_
        intro u hu
        have h1 : u ∉ vs := fun h => hdis u (List.mem_cons_of_mem _ h) (o1 u hu)
        simp [maskOf, f2 u h1]
      · exact f3 w hw g' hg'
    · intro a w b e hd
      cases a with
      | nil =>
        simp only [List.nil_append, List.cons.injEq] at e
        obtain ⟨rfl, rfl⟩ := e
        rw [maskOf, hvv]; exact k4 hd
      | cons x a =>
        simp only [List.cons_append, List.cons.injEq] at e
        obtain ⟨rfl, rfl⟩ := e
        rw [f4 a w b rfl hd, drawn_step]

theorem same_circuit {m : Multi Gate} {rank : Node → Nat} (w : WF m rank) {v : Node} {n : Nat}
    (hg : m.gate? v = some (.and n)) (hl : (m.parents v).length = n) (hn : 2 ≤ n) :
    ∀ u ∈ m.parents v, u.1 = v.1 := by
  intro u hu
  obtain ⟨c, hc, -⟩ : ∃ c, m.circs[v.1]? = some c ∧ c.gates[v.2]? = some (Gate.and n) := by
    simpa [Multi.gate?, Option.bind_eq_some_iff] using hg
  have e : m.parents v = (c.parents v.2).map (fun g => (v.1, g)) ++ m.incoming v := by
    simp [Multi.parents, hc]
  by_cases hi : m.incoming v = []
  · rw [e, hi, List.append_nil] at hu
    obtain ⟨g, -, rfl⟩ := List.mem_map.1 hu
    rfl
  · have h1 := w.crossSource v c hi hc
    have h2 := w.single v
    rw [e, h1] at hl
    simp only [List.map_nil, List.nil_append] at hl
    omega

/-- What `setup_gate_outputs` computes: it does not panic, the masks are compatible with the local
gates (constants have mask zero, as `share_constant` asserts), and the masks of input and AND gates
are consecutive draws in iteration order, from the joint generator where the map has the *gate id*
as a remote input and from the private generator otherwise. -/
theorem setup_masks (m : Multi Gate) (rank : Node → Nat) (w : WF m rank)
    (hns : ∀ i, isSimd m i = false) (har : ∀ v g, m.gate? v = some g → Arity m v g)
    (h2 : ∀ v n, m.gate? v = some (.and n) → 2 ≤ n) (s : DeltaSharing) :
    ∃ ls s' st, layers m = some ls ∧ LayersOk m ls ∧ (∀ l ∈ ls, (l.map (·.1)).Nodup) ∧
      setupGateOutputs m s = some (s', st) ∧
      (∀ v g, m.gate? v = some g → MaskEq m (maskOf st) v g) ∧
      (∀ a v b, iterNodes ls = a ++ v :: b → isDraw m v = true → maskOf st v = drawn m s a v) := by
  obtain ⟨it, ls, h1, h3, ok⟩ := layers_ok_partial m rank w
  have hls : layers m = some ls := by simp [layers, h1, h3]
  have hid := collect_ids m _ it ls h3
  have hperm := iterNodes_perm ls
  have hvalid : ∀ v, v ∈ iterNodes ls ↔ m.Valid v := fun v => by
    rw [hperm.mem_iff]; exact ok.all v
  have hgate : ∀ v, m.Valid v ↔ ∃ g, m.gate? v = some g := by
    intro v
    simp only [Multi.Valid, Multi.gate?, Option.bind_eq_bind, Option.bind_eq_some_iff]
    constructor
    · rintro ⟨c, hc, hl⟩; exact ⟨_, c, hc, List.getElem?_eq_getElem hl⟩
    · rintro ⟨g, c, hc, hg⟩; exact ⟨c, hc, (List.getElem?_eq_some_iff.1 hg).1⟩
  have hord : OrdFrom m.parents [] (iterNodes ls) := by
    refine iterNodes_ord ls [] hid ok.topo ?_
    intro l hl v hv u hu
    obtain ⟨g, hg, hi⟩ := ok.inter l hl v hv
    obtain ⟨n, rfl⟩ := interactive_and hi
    exact same_circuit w hg (har v _ hg) (h2 v n hg) u hu
  obtain ⟨s', st, f1, f2, f3, f4⟩ := setupNodes_spec hns har (iterNodes ls) [] s emptyStore
    (fun v hv => (hgate v).1 ((hvalid v).1 hv)) hord (hperm.nodup_iff.2 ok.once) (by simp) (by simp)
  refine ⟨ls, s', st, hls, ok, hid, ?_, ?_, f4⟩
  · have hall : m.circs.all (fun c => c.simdSize.isNone) = true := by
      rw [List.all_eq_true]
      intro c hc
      obtain ⟨i, hi⟩ := List.getElem?_of_mem hc
      have := hns i
      simp only [isSimd, hi] at this
      simpa using this
    simp [setupGateOutputs, hls, hall, f1]
  · intro v g hg
    exact f3 v ((hvalid v).2 ((hgate v).2 ⟨g, hg⟩)) g hg

end Verif.Aby2
