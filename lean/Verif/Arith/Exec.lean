import Verif.Arith.Props
import Verif.Exec.Generic
import Verif.Exec.Single

/-!
C72: execution of arithmetic circuits (crates/seec/src/protocols/arithmetic_gmw.rs with
crates/seec/src/executor.rs).
-/
set_option autoImplicit false

namespace Verif.Arith

open Gmw (BaseGate)
open Circuit Exec Proc

/-! ### Model -/

/-- arithmetic_gmw.rs:19-25 `ArithmeticGate`. -/
inductive AGate (w : Nat) where
  | base (g : BaseGate (BitVec w))
  | op (g : Gate)
deriving DecidableEq

/-- arithmetic_gmw.rs:137-161 `impl Gate<R> for ArithmeticGate<R>`. -/
instance (w : Nat) : GateLike (AGate w) where
  Plain := BitVec w
  interactive
    | .op .mul => true
    | _ => false
  asBase
    | .base b => some b
    | _ => none
  wrapBase := .base

/-- arithmetic_gmw.rs:55-77 `evaluate_non_interactive`. -/
def evalLocalGate {w : Nat} : AGate w → List (BitVec w) → Option (BitVec w)
  | .base b, xs => b.defaultEvaluate xs
  | .op g, xs => evalLocal g xs

/-- The gate for `computeMsg`, which panics on all gates but `mul` (arithmetic_gmw.rs:92). -/
def AGate.core {w : Nat} : AGate w → Gate
  | .op g => g
  | .base _ => .add

/-- arithmetic_gmw.rs:33-135 `impl Protocol for ArithmeticGmw`; `SIMD_SUPPORT` is the default
`false` of protocols/mod.rs, the simd methods panic there. -/
def arith (w : Nat) : Protocol (AGate w) (BitVec w) (List (BitVec w)) (Msg w) Unit (List (Triple w)) where
  shareConstant party _ val := if party = 0 then val else 0
  evalLocal _ := evalLocalGate
  computeMsg _ gates _ inputs mts := (computeMsg (gates.map AGate.core) inputs mts).map fun r => (r, mts)
  evalInteractive party _ _ own other mts := evaluateInteractive party own other mts
  simd := false
  shareConstantSimd _ _ _ _ := []
  evalLocalSimd _ _ _ := none
  computeMsgSimd _ _ _ _ _ := none
  evalInteractiveSimd _ _ _ _ _ _ := none
  get v k := v[k]?
  collect := id
  empty := []

/-! ### Specification -/

variable {w : Nat}

/-- The equation of a gate over the integers modulo `2^w`.  `mulF v x y` is the value of the
multiplication gate `v` with operands `x` and `y`. -/
def GateEq (m : Multi (AGate w)) (inp : List (BitVec w)) (mulF : Node → BitVec w → BitVec w → BitVec w)
    (val : Node → BitVec w) (v : Node) : AGate w → Prop
  | .base .input => ∃ c i, m.circs[0]? = some c ∧ c.inputGates.findIdx? (· = v.2) = some i ∧
      inp[i]? = some (val v)
  | .base (.constant b) => val v = b
  | .base (.connectToMainFromSimd _) => False
  | .base _ => ∃ p, m.parents v = [p] ∧ val v = val p
  | .op .add => ∃ p q, m.parents v = [p, q] ∧ val v = val p + val q
  | .op .sub => ∃ p q, m.parents v = [p, q] ∧ val v = val p - val q
  | .op .mul => ∃ p q, m.parents v = [p, q] ∧ val v = mulF v (val p) (val q)

/-- `val` solves all equations. -/
def Eval (m : Multi (AGate w)) (inp : List (BitVec w)) (mulF : Node → BitVec w → BitVec w → BitVec w)
    (val : Node → BitVec w) : Prop :=
  ∀ v g, m.gate? v = some g → GateEq m inp mulF val v g

/-- `val` are the plaintext values of all gates. -/
def PlainEval (m : Multi (AGate w)) (inp : List (BitVec w)) (val : Node → BitVec w) : Prop :=
  Eval m inp (fun _ x y => x * y) val

/-- What the code computes for a product with the (reconstructed) triple `t`: `x` is opened masked
with `a` and `y` masked with `c`. -/
def mulOut (t : Triple w) (x y : BitVec w) : BitVec w :=
  (x - t.a) * t.a + (y - t.c) * t.b + t.c + (x - t.a) * (y - t.c)

/-- The sum of the shares of a triple. -/
def Triple.sum (s t : Triple w) : Triple w := ⟨s.a + t.a, s.b + t.b, s.c + t.c⟩

/-- The layers of the circuit, as in `Exec.execute`. -/
def layers (m : Multi (AGate w)) : Option (List MLayer) := do
  let it ← MIter.new m
  MIter.collect m ((m.circs.map fun c => c.gates.length).sum + 1) it

/-- With the triples that the providers deliver for the multiplication gate `v`, the code computes
`mulF v`. -/
def Delivers (m : Multi (AGate w)) (setup0 setup1 : Nat → Nat → List (Triple w))
    (mulF : Node → BitVec w → BitVec w → BitVec w) : Prop :=
  ∀ ls, layers m = some ls → ∀ k l, (interactiveLayers m ls)[k]? = some l →
    ∀ (i : Nat) v, (intScalar m l)[i]? = some v → ∃ s t, (setup0 k (intCount m l))[i]? = some s ∧
      (setup1 k (intCount m l))[i]? = some t ∧ mulF v = mulOut (s.sum t)

/-- A message with one pair per multiplication of the layer. -/
def MsgSize (m : Multi (AGate w)) (l : MLayer) (msg : Msg w × Option Unit) : Prop :=
  msg.1.e.length = (intScalar m l).length ∧ msg.1.d.length = (intScalar m l).length ∧ msg.2 = none

/-! ### Proof -/

/-- The shares of the value. -/
def RS (val : Node → BitVec w) (v : Node) (x y : BitVec w) : Prop := x + y = val v

theorem interactive_mul {g : AGate w} (h : interactive g = true) : g = .op .mul := by
  cases g with
  | base b => simp [GateLike.interactive] at h
  | op g => cases g <;> simp [GateLike.interactive] at h ⊢

theorem asBase_eq {g : AGate w} {b : BaseGate (BitVec w)} (h : asBase g = some b) : g = .base b := by
  cases g <;> simp [GateLike.asBase] at h; rw [h]

theorem mul_layer_value (m : Multi (AGate w)) (f0 f1 : Node → BitVec w)
    (mulF : Node → BitVec w → BitVec w → BitVec w)
    (vs : List Node) (hv : ∀ v ∈ vs, ∃ p q, m.parents v = [p, q]) (m0 m1 : List (Triple w))
    (hm : ∀ (i : Nat) v, vs[i]? = some v → ∃ s t, m0[i]? = some s ∧ m1[i]? = some t ∧
      mulF v = mulOut (s.sum t)) :
    ∃ r0 r1, msgPairs (List.replicate vs.length .mul) m0
        (vs.map fun v => (m.parents v).map f0).flatten = some r0 ∧
      msgPairs (List.replicate vs.length .mul) m1
        (vs.map fun v => (m.parents v).map f1).flatten = some r1 ∧
      r0.length = vs.length ∧ r1.length = vs.length ∧ vs.length ≤ m0.length ∧ vs.length ≤ m1.length ∧
    let z0 := zipEval 0 (r0.map (·.1)) (r0.map (·.2)) (r1.map (·.1)) (r1.map (·.2)) (m0.take vs.length)
    let z1 := zipEval 1 (r1.map (·.1)) (r1.map (·.2)) (r0.map (·.1)) (r0.map (·.2)) (m1.take vs.length)
    z0.length = vs.length ∧ z1.length = vs.length ∧
      ∀ (i : Nat) v p q x y, vs[i]? = some v → m.parents v = [p, q] → z0[i]? = some x →
        z1[i]? = some y → x + y = mulF v (f0 p + f1 p) (f0 q + f1 q) := by
  induction vs generalizing m0 m1 with
  | nil => exact ⟨[], [], by simp [msgPairs], by simp [msgPairs], rfl, rfl, by simp, by simp,
      by simp [zipEval]⟩
  | cons v vs ih =>
    obtain ⟨p, q, hpq⟩ := hv v List.mem_cons_self
    obtain ⟨s, t, hs, ht, hst⟩ := hm 0 v rfl
    match m0, m1, hs, ht with
    | s' :: m0, t' :: m1, hs, ht =>
      simp only [List.getElem?_cons_zero, Option.some.injEq] at hs ht
      subst hs ht
      obtain ⟨r0, r1, e0, e1, l0, l1, k0, k1, z0, z1, hz⟩ := ih
        (fun u hu => hv u (List.mem_cons_of_mem _ hu)) m0 m1
        (fun i u hu => by simpa using hm (i + 1) u (by simpa using hu))
      refine ⟨(f0 p - s'.a, f0 q - s'.c) :: r0, (f1 p - t'.a, f1 q - t'.c) :: r1, ?_, ?_, by simp [l0],
        by simp [l1], by simp [k0], by simp [k1], ?_⟩
      · simp [List.replicate_succ, msgPairs, hpq, e0]
      · simp [List.replicate_succ, msgPairs, hpq, e1]
      · simp only [List.length_cons, List.take_succ_cons, List.map_cons, zipEval, z0, z1, true_and]
        intro i u p' q' x y hu hpar hx hy
        cases i with
        | zero =>
          simp only [List.getElem?_cons_zero, Option.some.injEq] at hu hx hy
          subst hu hx hy
          rw [hpq] at hpar
          cases hpar
          simp only [hst, Triple.sum, mulOut, if_true, one_ne_zero, if_false]
          ring
        | succ i => exact hz i u p' q' x y (by simpa using hu) hpar (by simpa using hx) (by simpa using hy)

theorem arith_sound {m : Multi (AGate w)} {xs0 xs1 inp : List (BitVec w)}
    {setup0 setup1 : Nat → Nat → List (Triple w)} {init0 init1 : Store (BitVec w) (List (BitVec w))}
    {mulF : Node → BitVec w → BitVec w → BitVec w} {val : Node → BitVec w} {c0 : Base (AGate w)}
    (hc0 : m.circs[0]? = some c0) (hns : ∀ i, isSimd m i = false)
    (hp : Eval m inp mulF val)
    (hl0 : xs0.length = c0.inputGates.length) (hl1 : xs1.length = c0.inputGates.length)
    (hin : reconstruct (xs0, xs1) = inp) (ls : List MLayer) (hls : layers m = some ls)
    (ok : LayersOk m ls) (hset : Delivers m setup0 setup1 mulF) :
    Sound (arith w) m (.scalar xs0) (.scalar xs1) setup0 setup1 init0 init1 (RS val)
      (fun _ _ _ => False) (fun l a b => MsgSize m l a ∧ MsgSize m l b) ls := by
  constructor
  · intro v g b hg hb _
    have hg' := asBase_eq hb
    subst hg'
    have e : val v = b := hp v _ hg
    have : ∀ b' : BitVec w, (if (0 : Nat) = 0 then b' else 0) + (if (1 : Nat) = 0 then b' else 0) = b' := by
      intro b'; simp
    exact (this b).trans e.symm
  · intro v g b hg hb hs; rw [hns] at hs; cases hs
  · intro _
    refine ⟨xs0, xs1, rfl, rfl, ?_⟩
    intro c' i g hc' hidx gate hg hb
    rw [hc0] at hc'; cases hc'
    have hg' := asBase_eq hb
    subst hg'
    obtain ⟨c1, i1, e1, e2, e3⟩ := hp (0, g) _ hg
    rw [hc0] at e1; cases e1
    simp only at e2
    rw [hidx] at e2; cases e2
    obtain ⟨hlt, -, -⟩ := List.findIdx?_eq_some_iff_getElem.1 hidx
    have x0 : xs0[i]? = some (xs0[i]'(by omega)) := List.getElem?_eq_getElem (by omega)
    have x1 : xs1[i]? = some (xs1[i]'(by omega)) := List.getElem?_eq_getElem (by omega)
    refine ⟨_, _, _, _, x0, x1, rfl, rfl, ?_⟩
    rw [← hin, reconstruct, List.getElem?_zipWith_eq_some] at e3
    obtain ⟨a, b, ha, hb', hab⟩ := e3
    rw [x0, Option.some.injEq] at ha
    rw [x1, Option.some.injEq] at hb'
    rw [RS, ha, hb', hab]
  · intro hs; rw [hns] at hs; cases hs
  · intro v g hg hi _ n1 n2 n3 f0 f1 hr
    have e := hp v g hg
    have pass : ∀ b, g = .base b → (∃ p, m.parents v = [p] ∧ val v = val p) →
        (∀ x : BitVec w, b.defaultEvaluate [x] = some x) →
        ∃ z0 z1, evalLocalGate g ((m.parents v).map f0) = some z0 ∧
          evalLocalGate g ((m.parents v).map f1) = some z1 ∧ RS val v z0 z1 := by
      rintro b rfl ⟨p, hpar, hv⟩ hd
      have := hr p (by rw [hpar]; simp)
      exact ⟨f0 p, f1 p, by simp [evalLocalGate, hpar, hd], by simp [evalLocalGate, hpar, hd],
        by rw [RS, hv]; exact this⟩
    cases g with
    | op g =>
      cases g with
      | mul => simp [GateLike.interactive] at hi
      | add =>
        obtain ⟨p, q, hpar, hv⟩ := e
        have h1 : f0 p + f1 p = val p := hr p (by rw [hpar]; simp)
        have h2 : f0 q + f1 q = val q := hr q (by rw [hpar]; simp)
        refine ⟨f0 p + f0 q, f1 p + f1 q, by simp [arith, evalLocalGate, evalLocal, hpar],
          by simp [arith, evalLocalGate, evalLocal, hpar], ?_⟩
        rw [RS, hv, ← h1, ← h2]; ring
      | sub =>
        obtain ⟨p, q, hpar, hv⟩ := e
        have h1 : f0 p + f1 p = val p := hr p (by rw [hpar]; simp)
        have h2 : f0 q + f1 q = val q := hr q (by rw [hpar]; simp)
        refine ⟨f0 p - f0 q, f1 p - f1 q, by simp [arith, evalLocalGate, evalLocal, hpar],
          by simp [arith, evalLocalGate, evalLocal, hpar], ?_⟩
        rw [RS, hv, ← h1, ← h2]; ring
    | base b =>
      cases b with
      | input => simp [GateLike.asBase] at n1
      | constant x => exact absurd rfl (n2 x)
      | connectToMainFromSimd k => exact absurd rfl (n3 k)
      | _ => exact pass _ rfl e fun _ => rfl
  · intro v g hg _ hs; rw [hns] at hs; cases hs
  · intro v g hg _ _ hs; rw [hns] at hs; cases hs
  · intro v g k p hg hb _ x0 x1 h; exact absurd h (by simp)
  · intro k l hk gs hs hgs hhs f0 f1 h0 h1 hr _
    have hl : l ∈ ls := (List.mem_filter.1 (List.mem_of_getElem? hk)).1
    have hint : intSimd m l = [] := by
      unfold intSimd
      rw [List.filter_eq_nil_iff.2 (by intro p _; simp [hns])]
      rfl
    have hsc : intScalar m l = intNodes l := by
      unfold intScalar intNodes
      rw [List.filter_eq_self.2 (by intro p _; simp [hns])]
    have hgate : ∀ v ∈ intScalar m l, m.gate? v = some (.op .mul) := by
      intro v hv
      rw [hsc] at hv
      obtain ⟨g, hg, hi⟩ := ok.inter l hl v hv
      rw [hg, interactive_mul hi]
    have hgs' : gs.map AGate.core = List.replicate (intScalar m l).length .mul := by
      rw [mapM_some_map m.gate? (fun _ => AGate.op .mul) _ hgate, Option.some.injEq] at hgs
      rw [← hgs]; simp [List.map_const', AGate.core]
    have hpar : ∀ v ∈ intScalar m l, ∃ p q, m.parents v = [p, q] ∧
        val v = mulF v (val p) (val q) := fun v hv => hp v _ (hgate v hv)
    obtain ⟨r0, r1, e0, e1, l0, l1, k0, k1, lz0, lz1, hz⟩ := mul_layer_value m f0 f1 mulF (intScalar m l)
      (fun v hv => by obtain ⟨p, q, h, -⟩ := hpar v hv; exact ⟨p, q, h⟩)
      (setup0 k (intCount m l)) (setup1 k (intCount m l)) (hset ls hls k l hk)
    generalize setup0 k (intCount m l) = m0 at *
    generalize setup1 k (intCount m l) = m1 at *
    have s0 : m0.length - (m0.length - (intScalar m l).length) = (intScalar m l).length := by omega
    have s1 : m1.length - (m1.length - (intScalar m l).length) = (intScalar m l).length := by omega
    refine ⟨⟨r0.map (·.2), r0.map (·.1)⟩, ⟨r1.map (·.2), r1.map (·.1)⟩, m0, m1, _, _,
      m0.drop (intScalar m l).length, m1.drop (intScalar m l).length, ?_, ?_, lz0, lz1, ?_, ?_⟩
    · simp [arith, computeMsg, hgs', e0]
    · simp [arith, computeMsg, hgs', e1]
    · intro i v x0 x1 hv hx0 hx1
      obtain ⟨p, q, hpq, hval⟩ := hpar v (List.mem_of_getElem? hv)
      have h1 : f0 p + f1 p = val p := hr v (List.mem_of_getElem? hv) p (by rw [hpq]; simp)
      have h2 : f0 q + f1 q = val q := hr v (List.mem_of_getElem? hv) q (by rw [hpq]; simp)
      rw [RS, hval, ← h1, ← h2]
      exact hz i v p q x0 x1 hv hpq hx0 hx1
    · simp only [arith, Bool.false_eq_true, if_false]
      refine ⟨hint, ⟨⟨by simp [l0], by simp [l0], rfl⟩, by simp [l1], by simp [l1], rfl⟩, ?_, ?_⟩
      · simp [evaluateInteractive, removeFirst, Gmw.splitOffLast, l0, k0, s0]
      · simp [evaluateInteractive, removeFirst, Gmw.splitOffLast, l1, k1, s1]

theorem reconstruct_of_rel (val : Node → BitVec w) : ∀ (gs : List Nat) (o0 o1 : List (BitVec w)),
    o0.length = gs.length → o1.length = gs.length →
    (∀ (i : Nat) g x0 x1, gs[i]? = some g → o0[i]? = some x0 → o1[i]? = some x1 →
      RS val (0, g) x0 x1) → reconstruct (o0, o1) = gs.map fun g => val (0, g)
  | [], [], [], _, _, _ => rfl
  | g :: gs, x :: o0, y :: o1, h0, h1, h => by
    have r1 := reconstruct_of_rel val gs o0 o1 (by simpa using h0)
      (by simpa using h1) (fun i g x y a b c => h (i + 1) g x y (by simpa using a)
        (by simpa using b) (by simpa using c))
    have a : x + y = val (0, g) := h 0 g x y rfl rfl rfl
    simp only [reconstruct, List.zipWith_cons_cons, List.map_cons, a] at r1 ⊢
    rw [r1]
  | [], _ :: _, _, h, _, _ => by simp at h
  | [], [], _ :: _, _, h, _ => by simp at h
  | _ :: _, [], _, h, _, _ => by simp at h
  | _ :: _, _ :: _, [], _, h, _ => by simp at h

/-! ### Theorems -/

/-- **C72, what is computed.**  Two executors with arithmetic GMW on a circuit of additions,
subtractions, multiplications and constants with any sub-circuits, with any triples.  Under every
schedule both parties finish, after one message each per layer with multiplications, and the outputs
reconstruct to the values of the circuit in which the multiplication gate `v` computes
`mulOut` of its triple. -/
theorem arith_execute_value (m : Multi (AGate w)) (rank : Node → Nat) (wf : WF m rank) (hw : ExecWF m)
    (hns : ∀ i, isSimd m i = false) (c0 : Base (AGate w)) (hc0 : m.circs[0]? = some c0)
    (xs0 xs1 inp : List (BitVec w)) (hl0 : xs0.length = c0.inputGates.length)
    (hl1 : xs1.length = c0.inputGates.length) (hin : reconstruct (xs0, xs1) = inp)
    (setup0 setup1 : Nat → Nat → List (Triple w)) (mulF : Node → BitVec w → BitVec w → BitVec w)
    (hset : Delivers m setup0 setup1 mulF) (init0 init1 : Store (BitVec w) (List (BitVec w)))
    (val : Node → BitVec w) (hp : Eval m inp mulF val) :
    ∃ ls o0 o1, LayersOk m ls ∧
      Exchange (fun l a b => MsgSize m l a ∧ MsgSize m l b) (.scalar o0) (.scalar o1)
        (interactiveLayers m ls)
        (execute (arith w) m 0 (.scalar xs0) setup0 init0)
        (execute (arith w) m 1 (.scalar xs1) setup1 init1) ∧
      Runs (execute (arith w) m 0 (.scalar xs0) setup0 init0)
        (execute (arith w) m 1 (.scalar xs1) setup1 init1) (.scalar o0) (.scalar o1) ∧
      o0.length = c0.outputGates.length ∧ o1.length = c0.outputGates.length ∧
      reconstruct (o0, o1) = c0.outputGates.map fun g => val (0, g) := by
  obtain ⟨ls, o0, o1, ok, hx, hout, hty⟩ := execute_spec' (pr := arith w) (setup0 := setup0)
    (setup1 := setup1) (init0 := init0) (init1 := init1) wf hw
    (fun it ls e1 e2 ok => arith_sound hc0 hns hp hl0 hl1 hin ls (by simp [layers, e1, e2]) ok hset)
    c0 hc0 (inp0 := .scalar xs0) (inp1 := .scalar xs1) hl0.symm hl1.symm
  obtain ⟨l, rfl⟩ := hty.1 (hns 0)
  match o1, hout with
  | .scalar o1, hout =>
    obtain ⟨a1, a2, a3⟩ := hout
    exact ⟨ls, l, o1, ok, hx, hx.runs, a1, a2, reconstruct_of_rel _ c0.outputGates l o1 a1 a2 a3⟩

/-- **C72, linear circuits.**  Without multiplications the outputs reconstruct to the plaintext
values, whatever the triple providers return. -/
theorem arith_execute_linear (m : Multi (AGate w)) (rank : Node → Nat) (wf : WF m rank) (hw : ExecWF m)
    (hns : ∀ i, isSimd m i = false) (hlin : ∀ v, m.gate? v ≠ some (.op .mul)) (c0 : Base (AGate w))
    (hc0 : m.circs[0]? = some c0) (xs0 xs1 inp : List (BitVec w))
    (hl0 : xs0.length = c0.inputGates.length) (hl1 : xs1.length = c0.inputGates.length)
    (hin : reconstruct (xs0, xs1) = inp) (setup0 setup1 : Nat → Nat → List (Triple w))
    (init0 init1 : Store (BitVec w) (List (BitVec w)))
    (val : Node → BitVec w) (hp : PlainEval m inp val) :
    ∃ o0 o1, Runs (execute (arith w) m 0 (.scalar xs0) setup0 init0)
        (execute (arith w) m 1 (.scalar xs1) setup1 init1) (.scalar o0) (.scalar o1) ∧
      reconstruct (o0, o1) = c0.outputGates.map fun g => val (0, g) := by
  obtain ⟨it, ls, h1, h3, ok⟩ := layers_ok_partial m rank wf
  obtain ⟨-, o0, o1, -, -, hr, -, -, hrec⟩ := arith_execute_value m rank wf hw hns c0 hc0 xs0 xs1 inp hl0 hl1
    hin setup0 setup1 (fun _ x y => x * y) (by
      intro ls' hls' k l hk i v hv
      simp only [layers, h1, h3, Option.bind_eq_bind, Option.bind_some, Option.some.injEq] at hls'
      subst hls'
      have hsc : intScalar m l = intNodes l := by
        unfold intScalar intNodes
        rw [List.filter_eq_self.2 (by intro p _; simp [hns])]
      rw [hsc] at hv
      obtain ⟨g, hg, hi⟩ := ok.inter l (List.mem_filter.1 (List.mem_of_getElem? hk)).1 v
        (List.mem_of_getElem? hv)
      rw [interactive_mul hi] at hg
      exact absurd hg (hlin v)) init0 init1 val hp
  exact ⟨o0, o1, hr, hrec⟩

/-- A pair of shares of a triple with which the code multiplies correctly: a valid triple with equal
components. -/
def EqualPair (s t : Triple w) : Prop :=
  ValidPair s t ∧ s.a + t.a = s.b + t.b ∧ s.b + t.b = s.c + t.c

theorem mulOut_equal {s t : Triple w} (h : EqualPair s t) : mulOut (s.sum t) = fun x y => x * y := by
  obtain ⟨h1, h2, h3⟩ := h
  funext x y
  simp only [ValidPair, h3, h2] at h1
  simp only [mulOut, Triple.sum, h2, h3]
  linear_combination (-1 : BitVec w) * h1

/-- **C72, with multiplications.**  The outputs reconstruct to the plaintext values if all triples are
valid and have equal components, as the zero triples of `InsecureMTProvider` do.  Missing: other valid
triples, for which it is false (`arith_execute_wrong`). -/
theorem arith_execute_correct_partial (m : Multi (AGate w)) (rank : Node → Nat) (wf : WF m rank)
    (hw : ExecWF m) (hns : ∀ i, isSimd m i = false) (c0 : Base (AGate w)) (hc0 : m.circs[0]? = some c0)
    (xs0 xs1 inp : List (BitVec w)) (hl0 : xs0.length = c0.inputGates.length)
    (hl1 : xs1.length = c0.inputGates.length) (hin : reconstruct (xs0, xs1) = inp)
    (setup0 setup1 : Nat → Nat → List (Triple w))
    (hset : ∀ k n, List.Forall₂ EqualPair (setup0 k n) (setup1 k n) ∧ n ≤ (setup0 k n).length)
    (init0 init1 : Store (BitVec w) (List (BitVec w)))
    (val : Node → BitVec w) (hp : PlainEval m inp val) :
    ∃ o0 o1, Runs (execute (arith w) m 0 (.scalar xs0) setup0 init0)
        (execute (arith w) m 1 (.scalar xs1) setup1 init1) (.scalar o0) (.scalar o1) ∧
      reconstruct (o0, o1) = c0.outputGates.map fun g => val (0, g) := by
  obtain ⟨-, o0, o1, -, -, hr, -, -, hrec⟩ := arith_execute_value m rank wf hw hns c0 hc0 xs0 xs1 inp hl0 hl1
    hin setup0 setup1 (fun _ x y => x * y) (by
      intro ls hls k l hk i v hv
      have hlt := (List.getElem?_eq_some_iff.1 hv).1
      obtain ⟨h1, h2⟩ := hset k (intCount m l)
      have hc : (intScalar m l).length = intCount m l := by
        rw [intCount_scalar hns]
        unfold intScalar intNodes
        rw [List.filter_eq_self.2 (by intro p _; simp [hns])]
      have e := h1.length_eq
      refine ⟨_, _, List.getElem?_eq_getElem (by omega), List.getElem?_eq_getElem (by omega), ?_⟩
      rw [mulOut_equal]
      exact (List.forall₂_iff_get.1 h1).2 i (by omega) (by omega)) init0 init1 val hp
  exact ⟨o0, o1, hr, hrec⟩

/-! ### Circuits built gate by gate -/

/-- The number of operands of a gate. -/
def AGate.arity : AGate w → Nat
  | .base .input | .base (.constant _) => 0
  | .base _ => 1
  | .op _ => 2

/-- Gates with their operands, in the order of the `add_wired_gate` calls: as many operands as the
gate needs, all added before, and no connections to other circuits. -/
def AOk (ops : List (AGate w × List Nat)) : Prop :=
  ∀ (i : Nat) g args, ops[i]? = some (g, args) →
    args.length = g.arity ∧ (∀ a ∈ args, a < i) ∧ isCross g = false

/-- Run one gate of a straight-line program: the values so far and the inputs left. -/
def opStep (mulF : Nat → BitVec w → BitVec w → BitVec w) (s : List (BitVec w) × List (BitVec w))
    (o : AGate w × List Nat) : List (BitVec w) × List (BitVec w) :=
  let x := s.1.getD (o.2.getD 0 0) 0
  let y := s.1.getD (o.2.getD 1 0) 0
  match o.1 with
  | .base .input => (s.1 ++ [s.2.headD 0], s.2.tail)
  | .base (.constant b) => (s.1 ++ [b], s.2)
  | .base _ => (s.1 ++ [x], s.2)
  | .op .add => (s.1 ++ [x + y], s.2)
  | .op .sub => (s.1 ++ [x - y], s.2)
  | .op .mul => (s.1 ++ [mulF s.1.length x y], s.2)

/-- The values of all gates of a straight-line program. -/
def evalOps (mulF : Nat → BitVec w → BitVec w → BitVec w) (ops : List (AGate w × List Nat))
    (inp : List (BitVec w)) : List (BitVec w) := (ops.foldl (opStep mulF) ([], inp)).1

/-- The values of its output gates. -/
def outputs (mulF : Nat → BitVec w → BitVec w → BitVec w) (ops : List (AGate w × List Nat))
    (inp : List (BitVec w)) : List (BitVec w) :=
  ((ops.zip (evalOps mulF ops inp)).filter fun p => p.1.1 = .base .output).map (·.2)

/-- The number of inputs. -/
def inputCount (ops : List (AGate w × List Nat)) : Nat := ops.countP fun o => o.1 = .base .input

theorem evalOps_spec (mulF : Nat → BitVec w → BitVec w → BitVec w) (ops : List (AGate w × List Nat))
    (h : AOk ops) (inp : List (BitVec w)) :
    (evalOps mulF ops inp).length = ops.length ∧
    (ops.foldl (opStep mulF) ([], inp)).2 = inp.drop (inputCount ops) ∧
    ∀ (i : Nat) g args, ops[i]? = some (g, args) →
      let val := fun j => (evalOps mulF ops inp).getD j 0
      match g with
      | .base .input => val i = inp.getD (inputCount (ops.take i)) 0
      | .base (.constant b) => val i = b
      | .base _ => val i = val (args.getD 0 0)
      | .op .add => val i = val (args.getD 0 0) + val (args.getD 1 0)
      | .op .sub => val i = val (args.getD 0 0) - val (args.getD 1 0)
      | .op .mul => val i = mulF i (val (args.getD 0 0)) (val (args.getD 1 0)) := by
  induction ops using List.reverseRecOn with
  | nil => exact ⟨rfl, by simp [inputCount], by intro i g args hi; simp at hi⟩
  | append_singleton ops o ih =>
    obtain ⟨g, args⟩ := o
    obtain ⟨l, r, v⟩ := ih (by
      intro i g a hi
      exact h i g a (by rw [List.getElem?_append_left (List.getElem?_eq_some_iff.1 hi).1]; exact hi))
    obtain ⟨h1, h2, h3⟩ := h ops.length g args (by simp)
    unfold evalOps at l v ⊢
    rw [List.foldl_append, List.foldl_cons, List.foldl_nil]
    generalize ops.foldl (opStep mulF) ([], inp) = s at l r v ⊢
    obtain ⟨vals, rest⟩ := s
    simp only at l r v
    obtain ⟨y, hy⟩ : ∃ y, (opStep mulF (vals, rest) (g, args)).1 = vals ++ [y] := by
      cases g with
      | base b => cases b <;> exact ⟨_, rfl⟩
      | op g => cases g <;> exact ⟨_, rfl⟩
    have hold : ∀ j < ops.length, (vals ++ [y]).getD j 0 = vals.getD j 0 := by
      intro j hj
      simp only [List.getD_eq_getElem?_getD]
      rw [List.getElem?_append_left (by omega)]
    have hnew : (vals ++ [y]).getD ops.length 0 = y := by
      simp [List.getD_eq_getElem?_getD, ← l]
    have hcount : inputCount (ops ++ [(g, args)]) = inputCount ops + if g = .base .input then 1 else 0 := by
      simp [inputCount, List.countP_append, List.countP_singleton]
    refine ⟨by rw [hy]; simp [l], ?_, ?_⟩
    · rw [hcount]
      cases g with
      | base b =>
        cases b <;> simp [opStep, r, List.tail_drop]
      | op g => cases g <;> simp [opStep, r]
    · intro i g' args' hi
      rw [hy]
      by_cases hlt : i < ops.length
      · rw [List.getElem?_append_left hlt] at hi
        obtain ⟨q1, q2, -⟩ := h i g' args' (by rw [List.getElem?_append_left hlt]; exact hi)
        have hv := v i g' args' hi
        have a0 : 0 < args'.length → args'.getD 0 0 < ops.length := by
          intro hl
          have := q2 (args'.getD 0 0) (by
            rw [List.getD_eq_getElem?_getD, List.getElem?_eq_getElem hl]; simp)
          omega
        have a1 : 1 < args'.length → args'.getD 1 0 < ops.length := by
          intro hl
          have := q2 (args'.getD 1 0) (by
            rw [List.getD_eq_getElem?_getD, List.getElem?_eq_getElem hl]; simp)
          omega
        rw [List.take_append_of_le_length (by omega)]
        cases g' with
        | base b =>
          cases b with
          | input => simpa only [hold i hlt] using hv
          | constant => simpa only [hold i hlt] using hv
          | _ =>
            simp only [AGate.arity] at q1
            simpa only [hold i hlt, hold _ (a0 (by omega))] using hv
        | op g =>
          simp only [AGate.arity] at q1
          cases g <;> simpa only [hold i hlt, hold _ (a0 (by omega)), hold _ (a1 (by omega))] using hv
      · have := (List.getElem?_eq_some_iff.1 hi).1
        have hi' : i = ops.length := by simp at this; omega
        subst hi'
        rw [List.getElem?_append_right (Nat.le_refl _)] at hi
        simp only [Nat.sub_self, List.getElem?_cons_zero, Option.some.injEq, Prod.mk.injEq] at hi
        obtain ⟨rfl, rfl⟩ := hi
        have a0 : 0 < args.length → args.getD 0 0 < ops.length := by
          intro hl
          exact h2 (args.getD 0 0) (by
            rw [List.getD_eq_getElem?_getD, List.getElem?_eq_getElem hl]; simp)
        have a1 : 1 < args.length → args.getD 1 0 < ops.length := by
          intro hl
          exact h2 (args.getD 1 0) (by
            rw [List.getD_eq_getElem?_getD, List.getElem?_eq_getElem hl]; simp)
        have hinj : ∀ z, vals ++ [z] = vals ++ [y] → y = z := by
          intro z hz; simpa using hz.symm
        cases g with
        | base b =>
          cases b with
          | input =>
            simp only [hnew]
            rw [hinj _ hy, List.take_left']
            · rw [r, List.headD_eq_head?_getD, List.head?_drop, List.getD_eq_getElem?_getD]
            · rfl
          | constant b => simp only [hnew]; exact hinj _ hy
          | _ =>
            simp only [AGate.arity] at h1
            simp only [hnew, hold _ (a0 (by omega))]; exact hinj _ hy
        | op g =>
          simp only [AGate.arity] at h1
          cases g with
          | mul =>
            simp only [hnew, hold _ (a0 (by omega)), hold _ (a1 (by omega))]
            rw [← l]; exact hinj _ hy
          | _ => simp only [hnew, hold _ (a0 (by omega)), hold _ (a1 (by omega))]; exact hinj _ hy

theorem positions_length {G : Type} [GateLike G] (p : G → Bool) (gs : List G) :
    (positions p gs).length = gs.countP p := by
  induction gs using List.reverseRecOn with
  | nil => rfl
  | append_singleton gs y ih =>
    rw [positions_append, List.length_append, ih, List.countP_append, List.countP_singleton]
    split <;> simp

theorem positions_find {G : Type} [GateLike G] (p : G → Bool) (gates : List G) (i : Nat) (g : G)
    (hg : gates[i]? = some g) (hp : p g = true) :
    (positions p gates).findIdx? (· = i) = some ((gates.take i).countP p) := by
  induction gates using List.reverseRecOn with
  | nil => simp at hg
  | append_singleton gs x ih =>
    rw [positions_append, List.findIdx?_append]
    by_cases hi : i < gs.length
    · rw [List.getElem?_append_left hi] at hg
      rw [ih hg, List.take_append_of_le_length (by omega)]
      rfl
    · have hi' : i = gs.length := by
        have := (List.getElem?_eq_some_iff.1 hg).1
        simp at this; omega
      subst hi'
      rw [List.getElem?_append_right (Nat.le_refl _)] at hg
      simp only [Nat.sub_self, List.getElem?_cons_zero, Option.some.injEq] at hg
      subst hg
      have hnone : (positions p gs).findIdx? (· = gs.length) = none := by
        rw [List.findIdx?_eq_none_iff]
        intro j hj
        simp only [positions, List.mem_filter, List.mem_range] at hj
        simp; omega
      rw [hnone]
      simp [hp, positions_length]

theorem positions_map {G : Type} [GateLike G] (p : G → Bool) (gs : List G) (vals : List (BitVec w))
    (hl : vals.length = gs.length) :
    (positions p gs).map (fun i => vals.getD i 0) = ((gs.zip vals).filter fun q => p q.1).map (·.2) := by
  induction gs using List.reverseRecOn generalizing vals with
  | nil => rfl
  | append_singleton gs x ih =>
    have hne : vals ≠ [] := by intro e; rw [e] at hl; simp at hl
    obtain ⟨vs, y, rfl⟩ : ∃ vs y, vals = vs ++ [y] := ⟨_, _, (List.dropLast_append_getLast hne).symm⟩
    have hl' : vs.length = gs.length := by simpa using hl
    rw [List.zip_append hl'.symm, List.filter_append, List.map_append, ← ih vs hl', positions_append,
      List.map_append]
    congr 1
    · apply List.map_congr_left
      intro i hi
      simp only [positions, List.mem_filter, List.mem_range] at hi
      simp only [List.getD_eq_getElem?_getD]
      rw [List.getElem?_append_left (by omega)]
    · cases hp : p x <;> simp [hp, ← hl']

theorem input_kind {c : Base (AGate w)} (h : BookOk c) :
    c.inputGates = positions (fun g => decide (g = .base .input)) c.gates := by
  rw [h.inputs]
  congr 1
  funext g
  cases g with
  | base b => cases b <;> simp [ofKind, GateLike.asBase]
  | op g => simp [ofKind, GateLike.asBase]

theorem output_kind {c : Base (AGate w)} (h : BookOk c) :
    c.outputGates = positions (fun g => decide (g = .base .output)) c.gates := by
  rw [h.outputs]
  congr 1
  funext g
  cases g with
  | base b => cases b <;> simp [ofKind, GateLike.asBase]
  | op g => simp [ofKind, GateLike.asBase]

/-- Construction succeeds, and the values of the program solve the equations of the circuit. -/
theorem arith_built (mulF : Nat → BitVec w → BitVec w → BitVec w) (ops : List (AGate w × List Nat))
    (h : AOk ops) (inp : List (BitVec w)) (hl : inp.length = inputCount ops) :
    ∃ c rank, buildG ops = some c ∧ SingleOk c rank ∧ c.simdSize = none ∧
      c.gates = ops.map (·.1) ∧ c.inputGates.length = inputCount ops ∧
      Eval (.ofBase c) inp (fun v => mulF v.2) (fun v => (evalOps mulF ops inp).getD v.2 0) ∧
      (c.outputGates.map fun g => (evalOps mulF ops inp).getD g 0) = outputs mulF ops inp := by
  obtain ⟨c, rank, hc, ok, hg, hs, hp⟩ := single_built ops (by
    intro i g args hi
    obtain ⟨h1, h2, h3⟩ := h i g args hi
    refine ⟨h2, ?_, h3⟩
    rw [← List.length_eq_zero_iff, h1]
    cases g with
    | base b => cases b <;> simp [AGate.arity, isSource, GateLike.asBase]
    | op g => simp [AGate.arity, isSource, GateLike.asBase])
  obtain ⟨l1, -, l3⟩ := evalOps_spec mulF ops h inp
  have hin : c.inputGates = positions (fun g => decide (g = .base .input)) (ops.map (·.1)) := by
    rw [input_kind ok.book, hg]
  have hcount : ∀ os : List (AGate w × List Nat),
      (os.map (·.1)).countP (fun g => decide (g = .base .input)) = inputCount os := by
    intro os; rw [inputCount, List.countP_map]; rfl
  refine ⟨c, rank, hc, ok, hs, hg, by rw [hin, positions_length, hcount], ?_, ?_⟩
  · intro v g hv
    obtain ⟨i, j⟩ := v
    obtain ⟨e, hj⟩ := single_gate c _ g hv
    simp only at e hj
    subst e
    rw [hg, List.getElem?_map, Option.map_eq_some_iff] at hj
    obtain ⟨⟨g', args⟩, hj, rfl⟩ := hj
    simp only
    have hval := l3 j g' args hj
    obtain ⟨q1, q2, q3⟩ := h j g' args hj
    have hpar : (Multi.ofBase c).parents (0, j) = args.map fun u => (0, u) := by
      rw [single_parents, hp j g' args hj]
    cases g' with
    | base b =>
      have pass : args.length = 1 → ∃ p, (Multi.ofBase c).parents (0, j) = [p] ∧
          p.2 = args.getD 0 0 := by
        intro hl
        match args, hl with
        | [a], _ => exact ⟨(0, a), by rw [hpar]; rfl, rfl⟩
      cases b with
      | input =>
        have hfind := positions_find (fun g => decide (g = AGate.base (w := w) .input)) (ops.map (·.1)) j
          (.base .input) (by rw [List.getElem?_map, hj]; rfl) (by simp)
        rw [← hin, ← List.map_take, hcount] at hfind
        refine ⟨c, _, rfl, hfind, ?_⟩
        have hlt : inputCount (ops.take j) < inp.length := by
          have := (List.findIdx?_eq_some_iff_getElem.1 hfind).1
          rw [hin, positions_length, hcount] at this
          omega
        simp only at hval
        simp only [hval, List.getD_eq_getElem?_getD, List.getElem?_eq_getElem hlt, Option.getD_some]
      | constant b => exact hval
      | connectToMainFromSimd k => simp [isCross, GateLike.asBase] at q3
      | _ =>
        obtain ⟨p, e1, e2⟩ := pass q1
        exact ⟨p, e1, by simp only [e2]; exact hval⟩
    | op g =>
      have pass : ∃ p q, (Multi.ofBase c).parents (0, j) = [p, q] ∧
          p.2 = args.getD 0 0 ∧ q.2 = args.getD 1 0 := by
        match args, q1 with
        | [a, b], _ => exact ⟨(0, a), (0, b), by rw [hpar]; rfl, rfl, rfl⟩
      obtain ⟨p, q, e1, e2, e3⟩ := pass
      cases g <;> exact ⟨p, q, e1, by simp only [e2, e3]; exact hval⟩
  · rw [output_kind ok.book, hg, positions_map _ _ _ (by simp [l1]), outputs]
    rw [List.zip_map_left, List.filter_map, List.map_map]
    rfl

theorem base_local (g : AGate w) (h : asBase g ≠ none) : interactive g = false := by
  cases g with
  | base b => rfl
  | op g => simp [GateLike.asBase] at h

/-- **C72 for circuits built gate by gate, linear.**  For every list of `add_wired_gate` calls without
multiplications, construction succeeds and the execution computes the straight-line program. -/
theorem arith_built_linear (ops : List (AGate w × List Nat)) (h : AOk ops)
    (hlin : ∀ o ∈ ops, o.1 ≠ .op .mul) (xs0 xs1 : List (BitVec w)) (hl0 : xs0.length = inputCount ops)
    (hl1 : xs1.length = inputCount ops) (setup0 setup1 : Nat → Nat → List (Triple w))
    (init0 init1 : Store (BitVec w) (List (BitVec w))) :
    ∃ c, buildG ops = some c ∧ ∃ o0 o1, Runs (execute (arith w) (.ofBase c) 0 (.scalar xs0) setup0 init0)
        (execute (arith w) (.ofBase c) 1 (.scalar xs1) setup1 init1) (.scalar o0) (.scalar o1) ∧
      reconstruct (o0, o1) = outputs (fun _ x y => x * y) ops (reconstruct (xs0, xs1)) := by
  obtain ⟨c, rank, hc, ok, hs, hg, hi, hp, ho⟩ := arith_built (fun _ x y => x * y) ops h
    (reconstruct (xs0, xs1)) (by simp [reconstruct, hl0, hl1])
  obtain ⟨o0, o1, hr, hrec⟩ := arith_execute_linear (.ofBase c) _ (single_wf ok)
    (single_exec ok hs base_local) (single_scalar hs) (by
      intro v hv
      obtain ⟨-, hj⟩ := single_gate c v _ hv
      rw [hg, List.getElem?_map, Option.map_eq_some_iff] at hj
      obtain ⟨o, hj, e⟩ := hj
      exact hlin o (List.mem_of_getElem? hj) e) c rfl xs0 xs1 _ (by rw [hi, hl0]) (by rw [hi, hl1]) rfl
    setup0 setup1 init0 init1 _ hp
  exact ⟨c, hc, o0, o1, hr, by rw [hrec, ← ho]⟩

/-- **C72 for circuits built gate by gate.**  With multiplications, for triples with equal components.
Missing: all other valid triples (`arith_execute_wrong`). -/
theorem arith_built_correct_partial (ops : List (AGate w × List Nat)) (h : AOk ops)
    (xs0 xs1 : List (BitVec w)) (hl0 : xs0.length = inputCount ops)
    (hl1 : xs1.length = inputCount ops) (setup0 setup1 : Nat → Nat → List (Triple w))
    (hset : ∀ k n, List.Forall₂ EqualPair (setup0 k n) (setup1 k n) ∧ n ≤ (setup0 k n).length)
    (init0 init1 : Store (BitVec w) (List (BitVec w))) :
    ∃ c, buildG ops = some c ∧ ∃ o0 o1, Runs (execute (arith w) (.ofBase c) 0 (.scalar xs0) setup0 init0)
        (execute (arith w) (.ofBase c) 1 (.scalar xs1) setup1 init1) (.scalar o0) (.scalar o1) ∧
      reconstruct (o0, o1) = outputs (fun _ x y => x * y) ops (reconstruct (xs0, xs1)) := by
  obtain ⟨c, rank, hc, ok, hs, hg, hi, hp, ho⟩ := arith_built (fun _ x y => x * y) ops h
    (reconstruct (xs0, xs1)) (by simp [reconstruct, hl0, hl1])
  obtain ⟨o0, o1, hr, hrec⟩ := arith_execute_correct_partial (.ofBase c) _ (single_wf ok)
    (single_exec ok hs base_local) (single_scalar hs) c rfl xs0 xs1 _ (by rw [hi, hl0]) (by rw [hi, hl1])
    rfl setup0 setup1 hset init0 init1 _ hp
  exact ⟨c, hc, o0, o1, hr, by rw [hrec, ← ho]⟩

end Verif.Arith
