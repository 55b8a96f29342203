import Verif.Exec.Props
import Verif.Gmw.WordsProps

/-!
C95: executions of Boolean GMW with SIMD shares kept in words (`Gmw/Words.lean`).
-/
set_option autoImplicit false

namespace Verif.Exec

open Circuit Proc Gmw

/-- boolean_gmw.rs:46-266 `impl Protocol for BooleanGmw`, with the SIMD shares and the triples in
words.  The scalar functions iterate over the bits, for them heads are irrelevant. -/
def wgmw : Protocol BoolGate Bool Raw Msg SimdMsg Mts where
  shareConstant p _ v := shareConstant p v
  evalLocal := evalLocal
  computeMsg _ gs _ xs t := (computeMsg gs xs t.ts).map fun x => (x, t)
  evalInteractive p _ _ own other t :=
    (evaluateInteractive p own other t.ts).map fun x => (x.1, ⟨t.head, x.2⟩)
  simd := true
  shareConstantSimd p _ v n := ofBits (shareConstantSimd p v n)
  evalLocalSimd := evalLocalWords
  computeMsgSimd _ _ _ xs t := (computeMsgWords xs t).map fun x => (x, t)
  evalInteractiveSimd p _ _ own other t := evaluateInteractiveWords p own other t
  get v k := v.live[k]?
  collect := ofBits
  empty := ofBits []

/-- The contents of an input or output. -/
def Input.lives : Input Bool Raw → Input Bool (List Bool)
  | .scalar l => .scalar l
  | .simd l => .simd (l.map Raw.live)

/-- The vectors of an input are well-formed and begin at the positions `hd` gives for the input
gates. -/
def InputHeads (c : Base BoolGate) (hd : Node → Nat) : Input Bool Raw → Prop
  | .scalar _ => True
  | .simd l => ∀ (i g : Nat) (r : Raw), c.inputGates.findIdx? (· = g) = some i → l[i]? = some r →
      r.WF ∧ r.head = hd (0, g)

/-- The positions at which the values of simd gates begin in their words: constants and packed
inputs at 0, the results of the AND gates of a layer one after the other, all others where their
operands begin.  An XOR gate whose operands begin at different positions has no such position. -/
structure HeadsOk (m : Multi BoolGate) (hd : Node → Nat) (ls : List MLayer) : Prop where
  const : ∀ v b, m.gate? v = some (.base (.constant b)) → isSimd m v.1 = true → hd v = 0
  pack : ∀ v, m.gate? v = some (.base .subCircuitInput) → isSimd m v.1 = true →
    isSimd m 0 = false → hd v = 0
  same : ∀ v g, m.gate? v = some g → isSimd m v.1 = true → interactive g = false →
    asBase g ≠ some .input → (∀ b, asBase g ≠ some (.constant b)) →
    (asBase g = some .subCircuitInput → isSimd m 0 = true) → ∀ u ∈ m.parents v, hd u = hd v
  xorLanes : ∀ v, m.gate? v = some .xor → isSimd m v.1 = true → ∀ u ∈ m.parents v,
    lanes m u.1 = lanes m v.1
  inter : ∀ l ∈ ls, (intSimd m l).map hd = offsets 0 ((intSimd m l).map fun v => lanes m v.1)

/-! ### Proof -/

/-- The relation between the shares of a simd gate. -/
def RW (hd : Node → Nat) (valV : Node → List Bool) (v : Node) (x y : Raw) : Prop :=
  x.head = hd v ∧ y.head = hd v ∧ x.WF ∧ y.WF ∧ RBV valV v x.live y.live

theorem evalLocalWords_spec (party : Nat) (g : BoolGate) (h n : Nat) (rs : List Raw)
    (hh : ∀ r ∈ rs, r.head = h ∧ r.WF) (hl : g = .xor → ∀ r ∈ rs, r.live.length = n)
    (z : List Bool) (hz : evalLocalSimd party g (rs.map Raw.live) = some z) :
    ∃ r, evalLocalWords party g rs = some r ∧ r.WF ∧ r.head = h ∧ r.live = z := by
  cases g with
  | and => simp [evalLocalSimd] at hz
  | base b =>
    have key : ∀ (ht : (rs.map Raw.live).head? = some z), ∃ r, rs.head?.map Raw.clone = some r ∧
        r.WF ∧ r.head = h ∧ r.live = z := by
      intro ht
      cases rs with
      | nil => simp at ht
      | cons r rs =>
        simp only [List.map_cons, List.head?_cons, Option.some.injEq] at ht
        exact ⟨r.clone, rfl, clone_wf _, (hh r List.mem_cons_self).1, by rw [clone_live, ht]⟩
    cases b <;> first
      | (simp [evalLocalSimd, BaseGate.defaultEvaluateSimd] at hz; done)
      | exact key hz
  | xor =>
    match rs, hh, hl, hz with
    | [], _, _, hz => simp [evalLocalSimd] at hz
    | [_], _, _, hz => simp [evalLocalSimd] at hz
    | x :: y :: rs, hh, hl, hz =>
      simp only [evalLocalSimd, List.map_cons, List.getElem?_cons_zero, List.getElem?_cons_succ,
        Option.bind_eq_bind, Option.bind_some, Option.pure_def, Option.some.injEq] at hz
      have hx := hh x (by simp)
      have hy := hh y (by simp)
      have lx := hl rfl x (by simp)
      have ly := hl rfl y (by simp)
      rw [hx.2.live_length] at lx
      rw [hy.2.live_length] at ly
      refine ⟨x.clone.fast xor y, rfl, fast_wf (clone_wf _), hx.1, ?_⟩
      rw [fast_live (clone_wf _) hy.2 (by rw [hy.1]; exact hx.1.symm)
        (by rw [clone_len hx.2, lx, ly]), clone_live, ← hz]
      rfl
  | inv =>
    cases rs with
    | nil => simp [evalLocalSimd] at hz
    | cons x rs =>
      simp only [evalLocalSimd, List.map_cons, List.getElem?_cons_zero, Option.bind_eq_bind,
        Option.bind_some, Option.pure_def, Option.some.injEq] at hz
      have hx := hh x (by simp)
      refine ⟨if party = 0 then x.clone.not else x.clone, rfl, ?_, ?_, ?_⟩
      · split
        · exact not_wf (clone_wf _)
        · exact clone_wf _
      · split
        · exact hx.1
        · exact hx.1
      · rw [← hz]
        split
        · rw [not_live, clone_live]
        · rw [clone_live]

theorem computeMsgWords_nil (t : Mts) : computeMsgWords [] t = some ⟨[], [], []⟩ := by
  have h : ∀ l, fastOp xor [] l = [] := fun l => by cases l <;> rfl
  simp [computeMsgWords, chunkPairs, ofBits, Raw.fast, padWords, h]

theorem evaluateInteractiveWords_nil (p : Nat) (t : Mts) :
    evaluateInteractiveWords p ⟨[], [], []⟩ ⟨[], [], []⟩ t = some ([], t) := by
  obtain ⟨h, ts⟩ := t
  simp [evaluateInteractiveWords, Mts.splitOffLast, cutWords]

theorem padWords_replicate_length (n : Nat) :
    (padWords (List.replicate n false)).length = words n := by
  rw [padWords_length]; simp

set_option maxHeartbeats 1000000 in
theorem wgmw_sound {m : Multi BoolGate} {inp0 inp1 : Input Bool Raw} {inp : Input Bool (List Bool)}
    {setup0 setup1 : Nat → Nat → Mts} {init0 init1 : Store Bool Raw}
    {val : Node → Bool} {valV : Node → List Bool} {c0 : Base BoolGate} (hc0 : m.circs[0]? = some c0)
    (hpv : ∀ v, ∀ u ∈ m.parents v, m.Valid u)
    (hw : ExecBase m) (hu : Unmixed m) (hi : InputOk m c0 inp)
    (hin : Shares inp0.lives inp1.lives inp)
    (hset : ∀ k n, Matching (setup0 k n).ts (setup1 k n).ts ∧ n ≤ (setup0 k n).ts.length ∧
      (setup1 k n).head = (setup0 k n).head)
    (hp : PlainEval m inp val valV) (ls : List MLayer) (ok : LayersOk m ls) (hd : Node → Nat)
    (hh : HeadsOk m hd ls) (hi0 : InputHeads c0 hd inp0) (hi1 : InputHeads c0 hd inp1) :
    Sound wgmw m inp0 inp1 setup0 setup1 init0 init1 (RB val) (RW hd valV)
      (fun l a b => MsgSize m l a ∧ MsgSize m l b) ls := by
  have hS := gmw_sound (init0 := ⟨init0.sc, fun _ => [], init0.set⟩)
    (init1 := ⟨init1.sc, fun _ => [], init1.set⟩) (setup0 := fun k n => (setup0 k n).ts)
    (setup1 := fun k n => (setup1 k n).ts) hc0 hpv hw hu hi hin
    (fun k n => ⟨(hset k n).1, (hset k n).2.1⟩) hp ls ok
  have toLocal : ∀ v g (b : BaseGate Bool), m.gate? v = some g → asBase g = some b → g = .base b := by
    intro v g b _ hb
    cases g <;> simp [GateLike.asBase] at hb
    rw [hb]
  constructor
  · exact hS.const
  · intro v g b hg hb hs
    have hg' := toLocal v g _ hg hb
    have := hS.constSimd v g b hg hb hs
    subst hg'
    refine ⟨(hh.const v b hg hs).symm, (hh.const v b hg hs).symm, ofBits_wf _, ofBits_wf _, ?_⟩
    simp only [wgmw, ofBits_live]
    exact this
  · intro hs
    obtain ⟨xs0, xs1, e0, e1, h⟩ := hS.input hs
    match inp0, inp1, e0, e1 with
    | .scalar a, .scalar b, e0, e1 =>
      simp only [Input.lives, Input.scalar.injEq] at e0 e1
      subst e0 e1
      exact ⟨a, b, rfl, rfl, h⟩
  · intro hs
    obtain ⟨xs0, xs1, e0, e1, h⟩ := hS.inputSimd hs
    match inp0, inp1, e0, e1, hi0, hi1 with
    | .simd a, .simd b, e0, e1, hi0, hi1 =>
      simp only [Input.lives, Input.simd.injEq] at e0 e1
      subst e0 e1
      refine ⟨a, b, rfl, rfl, ?_⟩
      intro c i g hc hidx gate hg hb
      obtain ⟨x0, x1, z0, z1, f0, f1, r0, r1, hr⟩ := h c i g hc hidx gate hg hb
      have hg' := toLocal _ gate _ hg hb
      subst hg'
      rw [hc0] at hc; cases hc
      simp only [List.getElem?_map, Option.map_eq_some_iff] at f0 f1
      obtain ⟨y0, g0, rfl⟩ := f0
      obtain ⟨y1, g1, rfl⟩ := f1
      simp only [gmw, evalLocalSimd, BaseGate.defaultEvaluateSimd, List.head?_cons,
        Option.some.injEq] at r0 r1
      subst r0 r1
      refine ⟨y0, y1, y0.clone, y1.clone, g0, g1, rfl, rfl, (hi0 i g y0 hidx g0).2,
        (hi1 i g y1 hidx g1).2, clone_wf _, clone_wf _, ?_⟩
      rw [clone_live, clone_live]
      exact hr
  · exact hS.localGate
  · intro v g hg hni hs n1 n2 n3 f0 f1 hr
    obtain ⟨z0, z1, e0, e1, hz⟩ := hS.localSimd v g hg hni hs n1 n2 n3 (fun u => (f0 u).live)
      (fun u => (f1 u).live) (fun u hu => (hr u hu).2.2.2.2)
    have hsame := hh.same v g hg hs hni n1 n2 n3
    have hlen : g = .xor → ∀ u ∈ m.parents v, (valV u).length = lanes m v.1 := by
      intro hx u hu'
      subst hx
      have := hw.other v _ hg (by simp [GateLike.asBase]) (by simp [GateLike.asBase]) u hu'
      rw [hp.lanes u (hpv v u hu') (this.trans hs), hh.xorLanes v hg hs u hu']
    obtain ⟨r0, k0, w0, d0, l0⟩ := evalLocalWords_spec 0 g (hd v) (lanes m v.1)
      ((m.parents v).map f0) (by
        intro r hr'
        obtain ⟨u, hu', rfl⟩ := List.mem_map.1 hr'
        exact ⟨(hr u hu').1.trans (hsame u hu'), (hr u hu').2.2.1⟩) (by
        intro hx r hr'
        obtain ⟨u, hu', rfl⟩ := List.mem_map.1 hr'
        rw [(hr u hu').2.2.2.2.1, hlen hx u hu']) z0 (by rw [List.map_map]; exact e0)
    obtain ⟨r1, k1, w1, d1, l1⟩ := evalLocalWords_spec 1 g (hd v) (lanes m v.1)
      ((m.parents v).map f1) (by
        intro r hr'
        obtain ⟨u, hu', rfl⟩ := List.mem_map.1 hr'
        exact ⟨(hr u hu').2.1.trans (hsame u hu'), (hr u hu').2.2.2.1⟩) (by
        intro hx r hr'
        obtain ⟨u, hu', rfl⟩ := List.mem_map.1 hr'
        rw [(hr u hu').2.2.2.2.2.1, hlen hx u hu']) z1 (by rw [List.map_map]; exact e1)
    exact ⟨r0, r1, k0, k1, d0, d1, w0, w1, by rw [l0, l1]; exact hz⟩
  · intro v g hg hb hm hs f0 f1 hr
    have := hS.pack v g hg hb hm hs f0 f1 hr
    have hg' := toLocal _ g _ hg hb
    subst hg'
    have h0 := hh.pack v hg hs hm
    refine ⟨h0.symm, h0.symm, ofBits_wf _, ofBits_wf _, ?_⟩
    simp only [wgmw, ofBits_live]
    exact this
  · intro v g k p hg hb hpp x0 x1 hx
    exact hS.unpack v g k p hg hb hpp x0.live x1.live hx.2.2.2.2
  · intro k l hk gs hs hgs hhs f0 f1 h0 h1 hr hrv
    have hl : l ∈ ls := List.mem_of_mem_filter (List.mem_of_getElem? hk)
    have hand : ∀ v ∈ intNodes l, m.gate? v = some .and := by
      intro v hv
      obtain ⟨g, hg, hi⟩ := ok.inter l hl v hv
      rw [hg, gate_and_of_interactive hi]
    have msc : ∀ v ∈ intScalar m l, m.gate? v = some .and ∧ isSimd m v.1 = false := by
      intro v hv
      rw [intScalar_eq, List.mem_filter] at hv
      exact ⟨hand v hv.1, by simpa using hv.2⟩
    have msi : ∀ v ∈ intSimd m l, m.gate? v = some .and ∧ isSimd m v.1 = true := by
      intro v hv
      rw [intSimd_eq, List.mem_filter] at hv
      exact ⟨hand v hv.1, hv.2⟩
    have hgs' := mapM_gates_and m _ gs (fun v hv => (msc v hv).1) hgs
    obtain ⟨hmt, hle, hhd⟩ := hset k (intCount m l)
    obtain ⟨x0l, x1l, hx⟩ := scalar_operands m val f0 f1 (intScalar m l)
      (fun v hv => hp.scalar v _ (msc v hv).1 (msc v hv).2) hr
    obtain ⟨g0, g1, q0, q1, hlan, hn, hzz⟩ := simd_operands m valV (fun u => (h0 u).live)
      (fun u => (h1 u).live) (fun v => lanes m v.1)
      (intSimd m l) (fun v hv => by
        obtain ⟨p, q, e1, e2⟩ := hp.simd v _ (msi v hv).1 (msi v hv).2
        have hty : ∀ u ∈ m.parents v, (valV u).length = lanes m v.1 := by
          intro u hu
          have hus := hw.other v _ (msi v hv).1 (by simp [GateLike.asBase]) (by simp [GateLike.asBase]) u hu
          have hv' : m.Valid u := hpv v u hu
          have := hp.lanes u hv' (hus.trans (msi v hv).2)
          rw [this]
          exact hw.sameLanes v u .and (msi v hv).1 (by decide) hu
        exact ⟨p, q, e1, e2, hty p (by rw [e1]; simp), hty q (by rw [e1]; simp)⟩)
      (fun v hv u hu => (hrv v hv u hu).2.2.2.2)
    have hcnt := intCount_eq m l
    have hsum : (g0.map (·.1.length)).sum = ((intSimd m l).map fun v => lanes m v.1).sum := by rw [hn]
    have hunm : intScalar m l = [] ∨ intSimd m l = [] := by
      rcases hu with h | h
      · right
        rw [List.eq_nil_iff_forall_not_mem]
        intro v hv
        have := h v (msi v hv).1
        rw [(msi v hv).2] at this; simp at this
      · left
        rw [List.eq_nil_iff_forall_not_mem]
        intro v hv
        have := h v (msc v hv).1
        rw [(msc v hv).2] at this; simp at this
    obtain ⟨A0, A1, z0, z1, r0, r1, hA0, hA1, hE0, hE1, -, -, lz0, lz1, hz, hr0, hr1, -⟩ :=
      and_layer_correct (intScalar m l).length _ _ (setup0 k (intCount m l)).ts
        (setup1 k (intCount m l)).ts x0l x1l hmt (by omega)
    have sz0 := computeMsg_size x0l (by omega) hA0
    have sz1 := computeMsg_size x1l (by have := hmt.length_eq; omega) hA1
    have lives : ∀ (f : Node → Raw) (vs : List Node),
        ((vs.map fun v => (m.parents v).map f).flatten).map Raw.live =
          (vs.map fun v => (m.parents v).map fun u => (f u).live).flatten := by
      intro f vs
      induction vs with
      | nil => rfl
      | cons v vs ih => simp only [List.map_cons, List.flatten_cons, List.map_append, ih, List.map_map]; rfl
    -- the simd part, on the storage left by the scalar part
    obtain ⟨B0, B1, w0, w1, hB0, hB1, hW0, hW1, wf0, wf1, hd0, hd1, ll0, ll1, s0, s1, p0, p0', p1, p1',
        hwz⟩ : ∃ B0 B1 w0 w1,
        computeMsgWords ((intSimd m l).map fun v => (m.parents v).map h0).flatten
          (setup0 k (intCount m l)) = some B0 ∧
        computeMsgWords ((intSimd m l).map fun v => (m.parents v).map h1).flatten
          (setup1 k (intCount m l)) = some B1 ∧
        (∃ t, evaluateInteractiveWords 0 B0 B1 ⟨(setup0 k (intCount m l)).head, r0⟩ = some (w0, t)) ∧
        (∃ t, evaluateInteractiveWords 1 B1 B0 ⟨(setup1 k (intCount m l)).head, r1⟩ = some (w1, t)) ∧
        (∀ r ∈ w0, r.WF) ∧ (∀ r ∈ w1, r.WF) ∧
        w0.map Raw.head = offsets 0 (g0.map (·.1.length)) ∧
        w1.map Raw.head = offsets 0 (g0.map (·.1.length)) ∧
        w0.map (fun r => r.live.length) = g0.map (·.1.length) ∧
        w1.map (fun r => r.live.length) = g0.map (·.1.length) ∧
        B0.simdSizes = g0.map (·.1.length) ∧ B1.simdSizes = g0.map (·.1.length) ∧
        B0.d.length = words (g0.map (·.1.length)).sum ∧
        B0.e.length = words (g0.map (·.1.length)).sum ∧
        B1.d.length = words (g0.map (·.1.length)).sum ∧
        B1.e.length = words (g0.map (·.1.length)).sum ∧
        List.zipWith xorL (w0.map Raw.live) (w1.map Raw.live) =
          List.zipWith (fun p q => andL (xorL p.1 q.1) (xorL p.2 q.2)) g0 g1 := by
      rcases hunm with hsc | hsi
      · have e0 : r0 = (setup0 k (intCount m l)).ts := by rw [hr0, hsc]; simp
        have e1 : r1 = (setup1 k (intCount m l)).ts := by rw [hr1, hsc]; simp
        obtain ⟨a0, a1, y0, y1, j1, j2, j3, j4, j5, j6, j7, j8, j9, j10, j11, j12, j13, j14, j15, j16,
          j17⟩ := words_and_layer_correct g0 g1 _ _ (setup0 k (intCount m l)) (setup1 k (intCount m l))
            (by rw [lives, q0]) (by rw [lives, q1]) hlan hmt hhd (by omega)
        rw [padWords_replicate_length] at j13 j14 j15 j16
        refine ⟨a0, a1, y0, y1, j1, j2, ⟨_, by rw [e0]; exact j3⟩, ⟨_, by rw [e1]; exact j4⟩, j5, j6,
          j7, j8, j9, j10, j11, j12, j13, j14, j15, j16, j17⟩
      · have hg0 : g0 = [] := by rw [hsi] at hn; simpa using hn
        subst hg0
        have hg1 : g1 = [] := by cases hlan; rfl
        subst hg1
        refine ⟨⟨[], [], []⟩, ⟨[], [], []⟩, [], [], ?_, ?_, ⟨_, evaluateInteractiveWords_nil _ _⟩,
          ⟨_, evaluateInteractiveWords_nil _ _⟩, by simp, by simp, rfl, rfl, rfl, rfl, rfl, rfl, rfl,
          rfl, rfl, rfl, rfl⟩
        · rw [hsi]; exact computeMsgWords_nil _
        · rw [hsi]; exact computeMsgWords_nil _
    obtain ⟨t0, hW0⟩ := hW0
    obtain ⟨t1, hW1⟩ := hW1
    have lw0 : w0.length = (intSimd m l).length := by
      have a := congrArg List.length ll0
      have b := congrArg List.length hn
      simp only [List.length_map] at a b
      omega
    have lw1 : w1.length = (intSimd m l).length := by
      have a := congrArg List.length ll1
      have b := congrArg List.length hn
      simp only [List.length_map] at a b
      omega
    refine ⟨A0, A1, setup0 k (intCount m l), setup1 k (intCount m l), z0, z1,
      ⟨(setup0 k (intCount m l)).head, r0⟩, ⟨(setup1 k (intCount m l)).head, r1⟩, ?_, ?_, lz0,
      lz1, ?_, ?_⟩
    · simp only [wgmw, hgs']
      rw [hA0]; rfl
    · simp only [wgmw, hgs']
      rw [hA1]; rfl
    · intro i v y0 y1 hv hy0 hy1
      rw [hx] at hz
      have := xorL_getElem hz hy0 hy1
      simp only [List.getElem?_map, hv, Option.map_some, Option.some.injEq] at this
      exact this.symm
    · simp only [wgmw, if_true]
      refine ⟨B0, B1, setup0 k (intCount m l), setup1 k (intCount m l), w0, w1, t0, t1, ?_, ?_, ?_, ?_,
        hW0, hW1, ⟨⟨sz0.1, sz0.2.1, sz0.2.2, B0, rfl, by rw [s0, hn], by rw [s0]; exact p0,
          by rw [s0]; exact p0'⟩,
          ⟨sz1.1, sz1.2.1, sz1.2.2, B1, rfl, by rw [s1, hn], by rw [s1]; exact p1,
          by rw [s1]; exact p1'⟩⟩, lw0, lw1, ?_⟩
      · rw [hB0]; rfl
      · rw [hB1]; rfl
      · rw [hE0]; rfl
      · rw [hE1]; rfl
      · intro i v y0 y1 hv hy0 hy1
        have hvm := List.mem_of_getElem? hv
        have e1 := congrArg (fun l => l[i]?) hwz
        rw [hzz] at e1
        simp only [List.getElem?_zipWith, hy0, hy1, List.getElem?_map, hv, Option.map_some,
          Option.some.injEq] at e1
        have hlv := hp.lanes v (gate_valid (msi v hvm).1) (msi v hvm).2
        have e2 := congrArg (fun l => l[i]?) ll0
        have e3 := congrArg (fun l => l[i]?) ll1
        rw [hn] at e2 e3
        simp only [List.getElem?_map, hy0, hy1, hv, Option.map_some, Option.some.injEq] at e2 e3
        have hin := hh.inter l hl
        have e4 := congrArg (fun l => l[i]?) hd0
        have e5 := congrArg (fun l => l[i]?) hd1
        rw [hn, ← hin] at e4 e5
        simp only [List.getElem?_map, hy0, hy1, hv, Option.map_some, Option.some.injEq] at e4 e5
        exact ⟨e4, e5, wf0 y0 (List.mem_of_getElem? hy0), wf1 y1 (List.mem_of_getElem? hy1),
          by rw [e2, hlv], by rw [e3, hlv], e1⟩

end Verif.Exec
