import Verif.Aby2.Model
import Verif.Exec.Generic

/-!
C37: online evaluation of circuits with two-input AND gates.
-/
set_option autoImplicit false

namespace Verif.Aby2

open Gmw (BaseGate)
open Circuit Exec Proc

/-! ### Specification -/

/-- The plaintext equation of a gate. -/
def GateEq (m : Multi Gate) (inp : List Bool) (val : Node → Bool) (v : Node) : Gate → Prop
  | .base .input => ∃ c i, m.circs[0]? = some c ∧ c.inputGates.findIdx? (· = v.2) = some i ∧
      inp[i]? = some (val v)
  | .base (.constant b) => val v = b
  | .base (.connectToMainFromSimd _) => False
  | .base _ => ∃ p, m.parents v = [p] ∧ val v = val p
  | .and n => (m.parents v).length = n ∧ val v = (m.parents v).all val
  | .xor => ∃ p q, m.parents v = [p, q] ∧ val v = (val p ^^ val q)
  | .inv => ∃ p, m.parents v = [p] ∧ val v = !val p

/-- `val` are the plaintext values of all gates. -/
def PlainEval (m : Multi Gate) (inp : List Bool) (val : Node → Bool) : Prop :=
  ∀ v g, m.gate? v = some g → GateEq m inp val v g

/-- The masks of one party are compatible with the local gates. -/
def MaskEq (m : Multi Gate) (lam : Node → Bool) (v : Node) : Gate → Prop
  | .base .input | .and _ => True
  | .base (.constant _) => lam v = false
  | .base _ => ∃ p, m.parents v = [p] ∧ lam v = lam p
  | .xor => ∃ p q, m.parents v = [p, q] ∧ lam v = (lam p ^^ lam q)
  | .inv => ∃ p, m.parents v = [p] ∧ lam v = lam p

/-- The private part of each gate output of one party. -/
def maskOf (st : Store Share (List Share)) (v : Node) : Bool := (st.sc v).priv

/-- Shares of the products of the masks `lam` of the operands, gate by gate. -/
inductive Products (m : Multi Gate) (lam : Node → Bool) :
    List Node → List (List Bool) → List (List Bool) → Prop
  | nil : Products m lam [] [] []
  | cons {v p q : Node} {vs : List Node} {a b : Bool} {s0 s1 : List (List Bool)} :
      m.parents v = [p, q] → (a ^^ b) = (lam p && lam q) → Products m lam vs s0 s1 →
      Products m lam (v :: vs) ([a] :: s0) ([b] :: s1)

/-- `xs0`, `xs1` are shares of `inp` with the masks chosen in the setup. -/
structure InputShares (c : Base Gate) (lam0 lam1 : Node → Bool) (xs0 xs1 : List Share)
    (inp : List Bool) : Prop where
  len0 : xs0.length = c.inputGates.length
  len1 : xs1.length = c.inputGates.length
  value : reconstruct xs0 xs1 = some inp
  mask0 : xs0.map (·.priv) = c.inputGates.map fun g => lam0 (0, g)
  mask1 : xs1.map (·.priv) = c.inputGates.map fun g => lam1 (0, g)

/-- The message of a layer: one bit per AND gate, in whole bytes. -/
def MsgSize (m : Multi Gate) (l : MLayer) (msg : Msg × Option Unit) : Prop :=
  msg.1.length = ((intScalar m l).length + 7) / 8 * 8 ∧ msg.2 = none

/-- The messages of a layer open the public parts `delta` of its AND gates: one bit per gate from each party, in whole
bytes. -/
def Opened (m : Multi Gate) (delta : Node → Bool) (l : MLayer) (a b : Msg × Option Unit) : Prop :=
  ∃ b0 b1 : List Bool, a = (padBytes b0, none) ∧ b = (padBytes b1, none) ∧ b0.length = (intScalar m l).length ∧
    b1.length = (intScalar m l).length ∧ List.zipWith xor b0 b1 = (intScalar m l).map delta

/-! ### Proof -/

/-- The relation between the shares of a gate. -/
def RA (lam0 lam1 val : Node → Bool) (v : Node) (x y : Share) : Prop :=
  x.pub = y.pub ∧ x.priv = lam0 v ∧ y.priv = lam1 v ∧ (x.pub ^^ lam0 v ^^ lam1 v) = val v

theorem pop_concat {α : Type} (l : List α) (x : α) : pop (l ++ [x]) = some (x, l) := by
  simp [pop]

theorem padBytes_length (l : List Bool) : (padBytes l).length = (l.length + 7) / 8 * 8 := by
  simp only [padBytes, List.length_append, List.length_replicate]
  omega

theorem reconstruct_getElem : ∀ (a b : List Share) (inp : List Bool), a.length = b.length →
    reconstruct a b = some inp → inp.length = a.length ∧ ∀ (i : Nat) x y, a[i]? = some x →
      b[i]? = some y → x.pub = y.pub ∧ inp[i]? = some (x.pub ^^ x.priv ^^ y.priv)
  | [], [], inp, _, h => by
    simp only [reconstruct, Option.some.injEq] at h; subst h
    exact ⟨rfl, by simp⟩
  | x :: a, y :: b, inp, hl, h => by
    simp only [reconstruct] at h
    split at h
    · rename_i hp
      simp only [Option.map_eq_some_iff] at h
      obtain ⟨r, hr, rfl⟩ := h
      obtain ⟨i1, i2⟩ := reconstruct_getElem a b r (by simpa using hl) hr
      refine ⟨by simp [i1], ?_⟩
      intro i u v hu hv
      cases i with
      | zero =>
        simp only [List.getElem?_cons_zero, Option.some.injEq] at hu hv
        subst hu hv
        exact ⟨hp, rfl⟩
      | succ i => exact i2 i u v (by simpa using hu) (by simpa using hv)
    · cases h
  | [], _ :: _, _, hl, _ => by simp at hl
  | _ :: _, [], _, hl, _ => by simp at hl

/-- The values both parties compute for one AND gate. -/
theorem and_share (a b s0 s1 la0 la1 lb0 lb1 lo0 lo1 : Bool)
    (h : (s0 ^^ s1) = ((la0 ^^ la1) && (lb0 ^^ lb1))) :
    (((((((false && (a && b)) ^^ (a && lb0)) ^^ (b && la0)) ^^ s0 ^^ lo0) ^^
      ((((true && (a && b)) ^^ (a && lb1)) ^^ (b && la1)) ^^ s1 ^^ lo1)) ^^ lo0) ^^ lo1) =
      ((a ^^ la0 ^^ la1) && (b ^^ lb0 ^^ lb1)) := by
  revert h
  cases a <;> cases b <;> cases s0 <;> cases s1 <;> cases la0 <;> cases la1 <;> cases lb0 <;>
    cases lb1 <;> cases lo0 <;> cases lo1 <;> decide

/-- The bit a party sends for an AND gate with operands `p`, `q`. -/
def deltaBit (party : Nat) (f : Node → Share) (out : Share) (s : Bool) (p q : Node) : Bool :=
  (((decide (party = 1) && ((f p).pub && (f q).pub)) ^^ ((f p).pub && (f q).priv)) ^^
    ((f q).pub && (f p).priv)) ^^ s ^^ out.priv

theorem computeDeltaShare_two (party : Nat) (x y out : Share) (r : SetupData) (a : Bool) :
    computeDeltaShare party (.and 2) [x, y] (r ++ [[a]]) out =
      some ((((decide (party = 1) && (x.pub && y.pub)) ^^ (x.pub && y.priv)) ^^
        (y.pub && x.priv)) ^^ a ^^ out.priv, r) := by
  rw [computeDeltaShare, pop_concat]
  rfl

theorem computeDeltas_spec (m : Multi Gate) (lam0 lam1 val : Node → Bool) (init0 init1 : Node → Share)
    (hl0 : ∀ v, (init0 v).priv = lam0 v) (hl1 : ∀ v, (init1 v).priv = lam1 v)
    (f0 f1 : Node → Share) (vs : List Node) (s0 s1 : List (List Bool))
    (hp : Products m (fun v => lam0 v ^^ lam1 v) vs s0 s1)
    (hv : ∀ v ∈ vs, ∀ p q, m.parents v = [p, q] → val v = (val p && val q))
    (hr : ∀ v ∈ vs, ∀ u ∈ m.parents v, RA lam0 lam1 val u (f0 u) (f1 u)) (r0 r1 : SetupData) :
    ∃ b0 b1,
      computeDeltas 0 ((List.replicate vs.length (.and 2)).zip (vs.map init0))
        (vs.map fun v => (m.parents v).map f0).flatten (r0 ++ s0.reverse) = some (b0, r0) ∧
      computeDeltas 1 ((List.replicate vs.length (.and 2)).zip (vs.map init1))
        (vs.map fun v => (m.parents v).map f1).flatten (r1 ++ s1.reverse) = some (b1, r1) ∧
      b0.length = vs.length ∧ b1.length = vs.length ∧
      ∀ (i : Nat) v x y, vs[i]? = some v → b0[i]? = some x → b1[i]? = some y →
        ((x ^^ y) ^^ lam0 v ^^ lam1 v) = val v := by
  induction hp with
  | nil => exact ⟨[], [], by simp [computeDeltas], by simp [computeDeltas], rfl, rfl, by simp⟩
  | @cons v p q vs a b s0 s1 hpar hab hrest ih =>
    obtain ⟨b0, b1, e0, e1, l0, l1, hx⟩ := ih (fun w hw => hv w (List.mem_cons_of_mem _ hw))
      (fun w hw => hr w (List.mem_cons_of_mem _ hw))
    have hp' := hr v List.mem_cons_self p (by rw [hpar]; simp)
    have hq' := hr v List.mem_cons_self q (by rw [hpar]; simp)
    have hval := hv v List.mem_cons_self p q hpar
    refine ⟨deltaBit 0 f0 (init0 v) a p q :: b0, deltaBit 1 f1 (init1 v) b p q :: b1, ?_, ?_,
      by simp [l0], by simp [l1], ?_⟩
    · simp only [List.length_cons, List.replicate_succ, List.map_cons, List.zip_cons_cons,
        List.flatten_cons, hpar, List.map_nil, computeDeltas, Gate.inputSize, List.cons_append,
        List.nil_append, List.take_succ_cons, List.take_zero, List.drop_succ_cons, List.drop_zero,
        List.reverse_cons, ← List.append_assoc]
      simp only [computeDeltaShare_two, Option.bind_eq_bind, Option.bind_some, Option.pure_def, e0]
      rfl
    · simp only [List.length_cons, List.replicate_succ, List.map_cons, List.zip_cons_cons,
        List.flatten_cons, hpar, List.map_nil, computeDeltas, Gate.inputSize, List.cons_append,
        List.nil_append, List.take_succ_cons, List.take_zero, List.drop_succ_cons, List.drop_zero,
        List.reverse_cons, ← List.append_assoc]
      simp only [computeDeltaShare_two, Option.bind_eq_bind, Option.bind_some, Option.pure_def, e1]
      rfl
    · intro i w x y hw hxi hyi
      cases i with
      | succ i => exact hx i w x y (by simpa using hw) (by simpa using hxi) (by simpa using hyi)
      | zero =>
        simp only [List.getElem?_cons_zero, Option.some.injEq] at hw hxi hyi
        subst hw hxi hyi
        obtain ⟨p1, p2, p3, p4⟩ := hp'
        obtain ⟨q1, q2, q3, q4⟩ := hq'
        have := and_share (f1 p).pub (f1 q).pub a b (lam0 p) (lam1 p) (lam0 q) (lam1 q) (lam0 v)
          (lam1 v) hab
        simp only [deltaBit, hl0, hl1, p1, p2, p3, q1, q2, q3, hval, ← p4, ← q4]
        simpa using this

theorem evalInteractive_getElem (outs : List Share) (a b : List Bool) (i : Nat) (z : Share)
    (h : (evalInteractive outs a b)[i]? = some z) : ∃ o x y, outs[i]? = some o ∧ a[i]? = some x ∧
      b[i]? = some y ∧ z = { o with pub := x ^^ y } := by
  simp only [evalInteractive, List.getElem?_map, Option.map_eq_some_iff] at h
  obtain ⟨⟨⟨o, x⟩, y⟩, h1, rfl⟩ := h
  rw [List.getElem?_zip_eq_some] at h1
  obtain ⟨h2, h3⟩ := h1
  rw [List.getElem?_zip_eq_some] at h2
  exact ⟨o, x, y, h2.1, h2.2, h3, rfl⟩

theorem evalInteractive_length (outs : List Share) (a b : List Bool) (ha : outs.length ≤ a.length)
    (hb : outs.length ≤ b.length) : (evalInteractive outs a b).length = outs.length := by
  simp only [evalInteractive, List.length_map, List.length_zip]; omega

theorem padBytes_getElem (l : List Bool) (i : Nat) (x : Bool) (h : l[i]? = some x) :
    (padBytes l)[i]? = some x := by
  rw [padBytes, List.getElem?_append_left (List.getElem?_eq_some_iff.1 h).1]; exact h

theorem interactive_and {g : Gate} (h : GateLike.interactive g = true) : ∃ n, g = .and n := by
  cases g with
  | and n => exact ⟨n, rfl⟩
  | base b => simp [GateLike.interactive] at h
  | xor => simp [GateLike.interactive] at h
  | inv => simp [GateLike.interactive] at h

theorem asBase_eq {g : Gate} {b : BaseGate Bool} (h : asBase g = some b) : g = .base b := by
  cases g <;> simp [GateLike.asBase] at h; rw [h]

theorem aby2_sound {m : Multi Gate} {xs0 xs1 : List Share} {inp : List Bool}
    {setup0 setup1 : Nat → Nat → SetupData} {init0 init1 : Store Share (List Share)}
    {val : Node → Bool} {c0 : Base Gate} (hc0 : m.circs[0]? = some c0)
    (hns : ∀ i, isSimd m i = false) (h2 : ∀ v n, m.gate? v = some (.and n) → n = 2)
    (hp : PlainEval m inp val)
    (hm0 : ∀ v g, m.gate? v = some g → MaskEq m (maskOf init0) v g)
    (hm1 : ∀ v g, m.gate? v = some g → MaskEq m (maskOf init1) v g)
    (hin : InputShares c0 (maskOf init0) (maskOf init1) xs0 xs1 inp)
    (ls : List MLayer) (ok : LayersOk m ls)
    (hset : ∀ k l, (interactiveLayers m ls)[k]? = some l → ∃ s0 s1,
      setup0 k (intCount m l) = s0.reverse ∧ setup1 k (intCount m l) = s1.reverse ∧
      Products m (fun v => maskOf init0 v ^^ maskOf init1 v) (intScalar m l) s0 s1) :
    Sound aby2 m (.scalar xs0) (.scalar xs1) setup0 setup1 init0 init1
      (RA (maskOf init0) (maskOf init1) val) (fun _ _ _ => False)
      (Opened m fun v => val v ^^ maskOf init0 v ^^ maskOf init1 v) ls := by
  have hlocal : ∀ v g, m.gate? v = some g → interactive g = false →
      asBase g ≠ some .input → (∀ x, asBase g ≠ some (.constant x)) →
      (∀ k, asBase g ≠ some (.connectToMainFromSimd k)) →
      ∀ f0 f1 : Node → Share,
      (∀ u ∈ m.parents v, RA (maskOf init0) (maskOf init1) val u (f0 u) (f1 u)) →
      ∃ z0 z1, evalLocal 0 g ((m.parents v).map f0) = some z0 ∧
        evalLocal 1 g ((m.parents v).map f1) = some z1 ∧
        RA (maskOf init0) (maskOf init1) val v z0 z1 := by
    intro v g hg hi n1 n2 n3 f0 f1 hr
    have e := hp v g hg
    have e0 := hm0 v g hg
    have e1 := hm1 v g hg
    have pass : ∀ b, g = .base b → (∃ p, m.parents v = [p] ∧ val v = val p) →
        (∃ p, m.parents v = [p] ∧ maskOf init0 v = maskOf init0 p) →
        (∃ p, m.parents v = [p] ∧ maskOf init1 v = maskOf init1 p) →
        (∀ x : Share, b.defaultEvaluate [x] = some x) →
        ∃ z0 z1, evalLocal 0 g ((m.parents v).map f0) = some z0 ∧
          evalLocal 1 g ((m.parents v).map f1) = some z1 ∧
          RA (maskOf init0) (maskOf init1) val v z0 z1 := by
      rintro b rfl ⟨p, hpar, hv⟩ ⟨p', hp', h0⟩ ⟨p'', hp'', h1⟩ hd
      rw [hpar] at hp' hp''; cases hp'; cases hp''
      have := hr p (by rw [hpar]; simp)
      refine ⟨f0 p, f1 p, by simp [evalLocal, hpar, hd], by simp [evalLocal, hpar, hd], ?_⟩
      obtain ⟨a1, a2, a3, a4⟩ := this
      exact ⟨a1, by rw [a2, h0], by rw [a3, h1], by rw [h0, h1, hv, a4]⟩
    cases g with
    | and n => simp [GateLike.interactive] at hi
    | xor =>
      obtain ⟨p, q, hpar, hv⟩ := e
      obtain ⟨p', q', hpar', h0⟩ := e0
      obtain ⟨p'', q'', hpar'', h1⟩ := e1
      rw [hpar] at hpar' hpar''; cases hpar'; cases hpar''
      obtain ⟨a1, a2, a3, a4⟩ := hr p (by rw [hpar]; simp)
      obtain ⟨b1, b2, b3, b4⟩ := hr q (by rw [hpar]; simp)
      refine ⟨(f0 p).xor (f0 q), (f1 p).xor (f1 q), by simp [evalLocal, hpar],
        by simp [evalLocal, hpar], ?_⟩
      refine ⟨by simp [Share.xor, a1, b1], by simp [Share.xor, a2, b2, h0],
        by simp [Share.xor, a3, b3, h1], ?_⟩
      rw [hv, ← a4, ← b4, h0, h1]
      simp only [Share.xor]
      cases (f0 p).pub <;> cases (f0 q).pub <;> cases maskOf init0 p <;> cases maskOf init0 q <;>
        cases maskOf init1 p <;> cases maskOf init1 q <;> rfl
    | inv =>
      obtain ⟨p, hpar, hv⟩ := e
      obtain ⟨p', hpar', h0⟩ := e0
      obtain ⟨p'', hpar'', h1⟩ := e1
      rw [hpar] at hpar' hpar''; cases hpar'; cases hpar''
      obtain ⟨a1, a2, a3, a4⟩ := hr p (by rw [hpar]; simp)
      refine ⟨(f0 p).not, (f1 p).not, by simp [evalLocal, hpar], by simp [evalLocal, hpar], ?_⟩
      refine ⟨by simp [Share.not, a1], by simp [Share.not, a2, h0], by simp [Share.not, a3, h1], ?_⟩
      rw [hv, ← a4, h0, h1]
      simp only [Share.not]
      cases (f0 p).pub <;> cases maskOf init0 p <;> cases maskOf init1 p <;> rfl
    | base b =>
      cases b with
      | input => simp [GateLike.asBase] at n1
      | constant x => exact absurd rfl (n2 x)
      | connectToMainFromSimd k => exact absurd rfl (n3 k)
      | _ => exact pass _ rfl e e0 e1 fun _ => rfl
  constructor
  · intro v g b hg hb _
    have hg' := asBase_eq hb
    subst hg'
    have e := hp v _ hg
    have e0 := hm0 v _ hg
    have e1 := hm1 v _ hg
    simp only [GateEq, MaskEq] at e e0 e1
    refine ⟨rfl, e0.symm, e1.symm, ?_⟩
    rw [e0, e1, e]
    simp [aby2, shareConstant]
  · intro v g b hg hb hs; rw [hns] at hs; cases hs
  · intro _
    refine ⟨xs0, xs1, rfl, rfl, ?_⟩
    intro c' i g hc' hidx gate hg hb
    rw [hc0] at hc'; cases hc'
    have hg' := asBase_eq hb
    subst hg'
    obtain ⟨c1, i1, e1, e2, e3⟩ := hp (0, g) _ hg
    rw [hc0] at e1; cases e1
    simp only at e2
    rw [hidx] at e2; cases e2
    obtain ⟨hlt, hget, -⟩ := List.findIdx?_eq_some_iff_getElem.1 hidx
    have hget' : c0.inputGates[i] = g := by simpa using hget
    have l0 := hin.len0
    have l1 := hin.len1
    obtain ⟨hl, hrec⟩ := reconstruct_getElem xs0 xs1 inp (by omega) hin.value
    have x0 : xs0[i]? = some (xs0[i]'(by omega)) := List.getElem?_eq_getElem (by omega)
    have x1 : xs1[i]? = some (xs1[i]'(by omega)) := List.getElem?_eq_getElem (by omega)
    obtain ⟨hpub, hval⟩ := hrec i _ _ x0 x1
    have m0 := congrArg (fun l => l[i]?) hin.mask0
    have m1 := congrArg (fun l => l[i]?) hin.mask1
    simp only [List.getElem?_map, x0, x1, Option.map_some, List.getElem?_eq_getElem hlt, hget',
      Option.some.injEq] at m0 m1
    rw [e3, Option.some.injEq] at hval
    refine ⟨_, _, _, _, x0, x1, rfl, rfl, hpub, m0, m1, ?_⟩
    rw [hval, m0, m1]
  · intro hs; rw [hns] at hs; cases hs
  · intro v g hg hi _ n1 n2 n3 f0 f1 hr
    exact hlocal v g hg hi n1 n2 n3 f0 f1 hr
  · intro v g hg _ hs; rw [hns] at hs; cases hs
  · intro v g hg _ _ hs; rw [hns] at hs; cases hs
  · intro v g k p hg hb _ x0 x1 h; exact absurd h (by simp)
  · intro k l hk gs hs hgs hhs f0 f1 h0 h1 hr _
    obtain ⟨s0, s1, d0, d1, hprod⟩ := hset k l hk
    have hl : l ∈ ls := (List.mem_filter.1 (List.mem_of_getElem? hk)).1
    have hint : intSimd m l = [] := by
      unfold intSimd
      rw [List.filter_eq_nil_iff.2 (by intro p _; simp [hns])]
      rfl
    have hsc : intScalar m l = intNodes l := by
      unfold intScalar intNodes
      rw [List.filter_eq_self.2 (by intro p _; simp [hns])]
    have hgate : ∀ v ∈ intScalar m l, m.gate? v = some (.and 2) := by
      intro v hv
      rw [hsc] at hv
      obtain ⟨g, hg, hi⟩ := ok.inter l hl v hv
      obtain ⟨n, rfl⟩ := interactive_and hi
      rw [hg, h2 v n hg]
    have hgs' : gs = List.replicate (intScalar m l).length (.and 2) := by
      rw [mapM_some_map m.gate? (fun _ => Gate.and 2) _ hgate, Option.some.injEq] at hgs
      rw [← hgs]; simp [List.map_const']
    obtain ⟨b0, b1, c0', c1', l0, l1, hx⟩ := computeDeltas_spec m (maskOf init0) (maskOf init1) val
      init0.sc init1.sc (fun _ => rfl) (fun _ => rfl) f0 f1 (intScalar m l) s0 s1 hprod
      (by
        intro v hv p q hpar
        have := hp v _ (hgate v hv)
        simp only [GateEq] at this
        rw [this.2, hpar]; simp) hr [] []
    simp only [List.nil_append] at c0' c1'
    refine ⟨padBytes b0, padBytes b1, [], [], evalInteractive ((intScalar m l).map init0.sc)
      (padBytes b0) (padBytes b1), evalInteractive ((intScalar m l).map init1.sc)
      (padBytes b1) (padBytes b0), [], [], ?_, ?_, ?_, ?_, ?_, ?_⟩
    · simp [aby2, computeMsg, hgs', d0, c0']
    · simp [aby2, computeMsg, hgs', d1, c1']
    · rw [evalInteractive_length _ _ _ (by rw [padBytes_length]; simp only [List.length_map]; omega)
        (by rw [padBytes_length]; simp only [List.length_map]; omega)]
      simp
    · rw [evalInteractive_length _ _ _ (by rw [padBytes_length]; simp only [List.length_map]; omega)
        (by rw [padBytes_length]; simp only [List.length_map]; omega)]
      simp
    · intro i v x0 x1 hv hx0 hx1
      have hi : i < (intScalar m l).length := (List.getElem?_eq_some_iff.1 hv).1
      have y0 : b0[i]? = some (b0[i]'(by omega)) := List.getElem?_eq_getElem (by omega)
      have y1 : b1[i]? = some (b1[i]'(by omega)) := List.getElem?_eq_getElem (by omega)
      have hxx := hx i v _ _ hv y0 y1
      obtain ⟨o, x, y, o1, o2, o3, rfl⟩ := evalInteractive_getElem _ _ _ _ _ hx0
      obtain ⟨o', x', y', p1, p2, p3, rfl⟩ := evalInteractive_getElem _ _ _ _ _ hx1
      rw [padBytes_getElem _ _ _ y0, Option.some.injEq] at o2 p3
      rw [padBytes_getElem _ _ _ y1, Option.some.injEq] at o3 p2
      rw [List.getElem?_map, hv, Option.map_some, Option.some.injEq] at o1 p1
      subst o1 p1 o2 o3 p2 p3
      refine ⟨Bool.xor_comm _ _, rfl, rfl, ?_⟩
      simp only
      exact hxx
    · simp only [aby2, Bool.false_eq_true, if_false]
      refine ⟨hint, ⟨b0, b1, rfl, rfl, l0, l1, ?_⟩, ?_, ?_⟩
      · apply List.ext_getElem
        · simp [l0, l1]
        · intro i h3 h4
          simp only [List.length_map] at h4
          have := hx i _ _ _ (List.getElem?_eq_getElem h4) (List.getElem?_eq_getElem (by omega))
            (List.getElem?_eq_getElem (by omega))
          simp only [List.getElem_zipWith, List.getElem_map, ← this]
          cases b0[i] <;> cases b1[i] <;> cases maskOf init0 (intScalar m l)[i] <;>
            cases maskOf init1 (intScalar m l)[i] <;> rfl
      · simp
      · simp

theorem reconstruct_of_rel (lam0 lam1 val : Node → Bool) : ∀ (gs : List Nat) (o0 o1 : List Share),
    o0.length = gs.length → o1.length = gs.length →
    (∀ (i : Nat) g x0 x1, gs[i]? = some g → o0[i]? = some x0 → o1[i]? = some x1 →
      RA lam0 lam1 val (0, g) x0 x1) →
    reconstruct o0 o1 = some (gs.map fun g => val (0, g)) ∧ o0.map (·.pub) = o1.map (·.pub)
  | [], [], [], _, _, _ => ⟨rfl, rfl⟩
  | g :: gs, x :: o0, y :: o1, h0, h1, h => by
    obtain ⟨r1, r2⟩ := reconstruct_of_rel lam0 lam1 val gs o0 o1 (by simpa using h0)
      (by simpa using h1) (fun i g x y a b c => h (i + 1) g x y (by simpa using a)
        (by simpa using b) (by simpa using c))
    obtain ⟨a1, a2, a3, a4⟩ := h 0 g x y rfl rfl rfl
    constructor
    · simp only [reconstruct, a1, if_true, r1, Option.map_some, List.map_cons]
      rw [← a4, ← a1, a2, a3]
    · simp [a1, r2]
  | [], _ :: _, _, h, _, _ => by simp at h
  | [], [], _ :: _, _, h, _ => by simp at h
  | _ :: _, [], _, h, _, _ => by simp at h
  | _ :: _, _ :: _, [], _, h, _ => by simp at h

theorem _root_.Verif.Proc.Exchange.mono {M O L : Type} {Q Q' : L → M → M → Prop} {o0 o1 : O} {ls : List L}
    {p0 p1 : Proc M O} (h : Exchange Q o0 o1 ls p0 p1) (hq : ∀ l a b, Q l a b → Q' l a b) :
    Exchange Q' o0 o1 ls p0 p1 := by
  induction h with
  | done => exact .done
  | round h1 _ ih => exact .round (hq _ _ _ h1) ih

/-- The two executions of C37 with what they open: the public part of each AND gate is its value masked by the
masks of both parties. -/
theorem aby2_exchange (m : Multi Gate) (rank : Node → Nat) (w : WF m rank) (hw : ExecWF m)
    (hns : ∀ i, isSimd m i = false) (h2 : ∀ v n, m.gate? v = some (.and n) → n = 2)
    (c0 : Base Gate) (hc0 : m.circs[0]? = some c0)
    (xs0 xs1 : List Share) (inp : List Bool) (setup0 setup1 : Nat → Nat → SetupData)
    (init0 init1 : Store Share (List Share)) (val : Node → Bool) (hp : PlainEval m inp val)
    (hm0 : ∀ v g, m.gate? v = some g → MaskEq m (maskOf init0) v g)
    (hm1 : ∀ v g, m.gate? v = some g → MaskEq m (maskOf init1) v g)
    (hin : InputShares c0 (maskOf init0) (maskOf init1) xs0 xs1 inp)
    (hset : ∀ ls, layers m = some ls → ∀ k l, (interactiveLayers m ls)[k]? = some l → ∃ s0 s1,
      setup0 k (intCount m l) = s0.reverse ∧ setup1 k (intCount m l) = s1.reverse ∧
      Products m (fun v => maskOf init0 v ^^ maskOf init1 v) (intScalar m l) s0 s1) :
    ∃ ls o0 o1, layers m = some ls ∧ LayersOk m ls ∧
      Exchange (Opened m fun v => val v ^^ maskOf init0 v ^^ maskOf init1 v) (.scalar o0) (.scalar o1)
        (interactiveLayers m ls)
        (execute aby2 m 0 (.scalar xs0) setup0 init0) (execute aby2 m 1 (.scalar xs1) setup1 init1) ∧
      o0.map (·.pub) = o1.map (·.pub) ∧ o0.length = c0.outputGates.length ∧
      o1.length = c0.outputGates.length ∧
      reconstruct o0 o1 = some (c0.outputGates.map fun g => val (0, g)) := by
  obtain ⟨it, ls, o0, o1, e1, e2, ok, hx, hout, hty⟩ := execute_spec_layers (pr := aby2) (setup0 := setup0)
    (setup1 := setup1) (init0 := init0) (init1 := init1) w hw
    (fun it ls e1 e2 ok => aby2_sound hc0 hns h2 hp hm0 hm1 hin ls ok
      (hset ls (by simp [layers, e1, e2]))) c0 hc0
    (inp0 := .scalar xs0) (inp1 := .scalar xs1) hin.len0.symm hin.len1.symm
  obtain ⟨l, rfl⟩ := hty.1 (hns 0)
  match o1, hout with
  | .scalar o1, hout =>
    obtain ⟨a1, a2, a3⟩ := hout
    obtain ⟨r1, r2⟩ := reconstruct_of_rel _ _ _ c0.outputGates l o1 a1 a2 a3
    exact ⟨ls, l, o1, by simp [layers, e1, e2], ok, hx, r2, a1, a2, r1⟩

/-- **C37.**  Two executors with ABY2 on a circuit (with any sub-circuits) of XOR, NOT, constant and
two-input AND gates.  If the masks of the gates are compatible with the local gates, the inputs are
shared with the masks of the input gates, and the setup provides, for each layer, shares of the
products of the masks of the operands, then under every schedule both parties finish, exchange one
message each per layer with AND gates, hold identical public parts of all outputs, and the outputs
reconstruct to the plaintext values. -/
theorem aby2_execute_correct (m : Multi Gate) (rank : Node → Nat) (w : WF m rank) (hw : ExecWF m)
    (hns : ∀ i, isSimd m i = false) (h2 : ∀ v n, m.gate? v = some (.and n) → n = 2)
    (c0 : Base Gate) (hc0 : m.circs[0]? = some c0)
    (xs0 xs1 : List Share) (inp : List Bool) (setup0 setup1 : Nat → Nat → SetupData)
    (init0 init1 : Store Share (List Share)) (val : Node → Bool) (hp : PlainEval m inp val)
    (hm0 : ∀ v g, m.gate? v = some g → MaskEq m (maskOf init0) v g)
    (hm1 : ∀ v g, m.gate? v = some g → MaskEq m (maskOf init1) v g)
    (hin : InputShares c0 (maskOf init0) (maskOf init1) xs0 xs1 inp)
    (hset : ∀ ls, layers m = some ls → ∀ k l, (interactiveLayers m ls)[k]? = some l → ∃ s0 s1,
      setup0 k (intCount m l) = s0.reverse ∧ setup1 k (intCount m l) = s1.reverse ∧
      Products m (fun v => maskOf init0 v ^^ maskOf init1 v) (intScalar m l) s0 s1) :
    ∃ ls o0 o1, LayersOk m ls ∧
      Exchange (fun l a b => MsgSize m l a ∧ MsgSize m l b) (.scalar o0) (.scalar o1)
        (interactiveLayers m ls)
        (execute aby2 m 0 (.scalar xs0) setup0 init0) (execute aby2 m 1 (.scalar xs1) setup1 init1) ∧
      Runs (execute aby2 m 0 (.scalar xs0) setup0 init0)
        (execute aby2 m 1 (.scalar xs1) setup1 init1) (.scalar o0) (.scalar o1) ∧
      o0.map (·.pub) = o1.map (·.pub) ∧ o0.length = c0.outputGates.length ∧
      o1.length = c0.outputGates.length ∧
      reconstruct o0 o1 = some (c0.outputGates.map fun g => val (0, g)) := by
  obtain ⟨ls, o0, o1, -, ok, hx, r⟩ := aby2_exchange m rank w hw hns h2 c0 hc0 xs0 xs1 inp setup0 setup1 init0
    init1 val hp hm0 hm1 hin hset
  refine ⟨ls, o0, o1, ok, hx.mono ?_, hx.runs, r⟩
  rintro l a b ⟨b0, b1, rfl, rfl, l0, l1, -⟩
  exact ⟨⟨by rw [padBytes_length, l0], rfl⟩, by rw [padBytes_length, l1], rfl⟩

end Verif.Aby2
