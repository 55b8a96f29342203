import Verif.Tensor.Exec
import Verif.Aby2.Astra

/-!
C82: online evaluation of circuits of Boolean ABY2 with matrices.
-/
set_option autoImplicit false

namespace Verif.Tensor

open Gmw (BaseGate)
open Bitmat
open Circuit Exec Proc
open Aby2 (layers interactiveNodes Answers)

/-! ### Specification -/

/-- A value of the dimension of an input gate. -/
def HasDim : List Nat → PShare → Prop
  | [], .scalar _ => True
  | [r, c], .matrix m => IsMat r c m
  | _, _ => False

/-- The plaintext equation of a gate: XOR and AND gates for bits, products of matrices. -/
def GateEq (m : Multi TGate) (inp : List PShare) (val : Node → PShare) (v : Node) : TGate → Prop
  | .base .input dim => ∃ c i, m.circs[0]? = some c ∧ c.inputGates.findIdx? (· = v.2) = some i ∧
      inp[i]? = some (val v) ∧ HasDim dim (val v)
  | .base (.constant _) _ | .base (.connectToMainFromSimd _) _ => False
  | .base _ _ => ∃ p, m.parents v = [p] ∧ val v = val p
  | .op .inv => False
  | .op .xor => ∃ p q x y, m.parents v = [p, q] ∧ val p = .scalar x ∧ val q = .scalar y ∧
      val v = .scalar (x ^^ y)
  | .op .and2 => ∃ p q x y, m.parents v = [p, q] ∧ val p = .scalar x ∧ val q = .scalar y ∧
      val v = .scalar (x && y)
  | .op (.matMult r c) => ∃ p q x y z, m.parents v = [p, q] ∧ val p = .matrix x ∧
      val q = .matrix y ∧ val v = .matrix z ∧ IsMat r x.cols x ∧ IsMat x.cols c y ∧ IsMat r c z ∧
      0 < r ∧ 0 < x.cols ∧ 0 < c ∧
      ∀ i j, i < r → j < c → z.get i j = xorUpTo (fun t => x.get i t && y.get t j) x.cols

/-- `val` are the plaintext values of all gates. -/
def PlainEval (m : Multi TGate) (inp : List PShare) (val : Node → PShare) : Prop :=
  ∀ v g, m.gate? v = some g → GateEq m inp val v g

/-- The private part of each gate output of one party. -/
def maskOf (st : Store TShare (List TShare)) (v : Node) : PShare := (st.sc v).getPrivate

/-- The masks of one party are compatible with the gates. -/
def MaskEq (m : Multi TGate) (lam : Node → PShare) (v : Node) : TGate → Prop
  | .base .input dim => HasDim dim (lam v)
  | .base (.constant _) _ | .base (.connectToMainFromSimd _) _ | .op .inv => False
  | .base _ _ => ∃ p, m.parents v = [p] ∧ lam v = lam p
  | .op .and2 => ∃ b, lam v = .scalar b
  | .op (.matMult r c) => ∃ o, lam v = .matrix o ∧ IsMat r c o
  | .op .xor => ∃ p q a b, m.parents v = [p, q] ∧ lam p = .scalar a ∧ lam q = .scalar b ∧
      lam v = .scalar (a ^^ b)

/-- `e`, `e'` are shares of the product of the masks `lam0 ^ lam1` of the operands of the gate `v`. -/
def MaskProduct (m : Multi TGate) (lam0 lam1 : Node → PShare) (v : Node) (e e' : PShare) : Prop :=
  ∃ p q, m.parents v = [p, q] ∧
    ((m.gate? v = some (.op .and2) ∧ ∃ a a' b b' s s', lam0 p = .scalar a ∧ lam1 p = .scalar a' ∧
      lam0 q = .scalar b ∧ lam1 q = .scalar b' ∧ e = .scalar s ∧ e' = .scalar s' ∧
      (s ^^ s') = ((a ^^ a') && (b ^^ b'))) ∨
    (∃ r c, m.gate? v = some (.op (.matMult r c)) ∧ ∃ a a' b b' s s' : BitMatrix,
      lam0 p = .matrix a ∧ lam1 p = .matrix a' ∧ lam0 q = .matrix b ∧ lam1 q = .matrix b' ∧
      e = .matrix s ∧ e' = .matrix s' ∧ IsMat r c s ∧ IsMat r c s' ∧
      ∀ i j, i < r → j < c → (s.get i j ^^ s'.get i j) =
        xorUpTo (fun t => (a.get i t ^^ a'.get i t) && (b.get t j ^^ b'.get t j)) a.cols))

/-- Shares of the products of the masks, gate by gate. -/
inductive Products (m : Multi TGate) (lam0 lam1 : Node → PShare) :
    List Node → List PShare → List PShare → Prop
  | nil : Products m lam0 lam1 [] [] []
  | cons {v : Node} {vs : List Node} {a b : PShare} {s0 s1 : List PShare} :
      MaskProduct m lam0 lam1 v a b → Products m lam0 lam1 vs s0 s1 →
      Products m lam0 lam1 (v :: vs) (a :: s0) (b :: s1)

/-- `xs0`, `xs1` are shares of `inp` with the masks chosen in the setup. -/
structure InputShares (c : Base TGate) (lam0 lam1 : Node → PShare) (xs0 xs1 : List TShare)
    (inp : List PShare) : Prop where
  len0 : xs0.length = c.inputGates.length
  len1 : xs1.length = c.inputGates.length
  value : ∀ (i : Nat) x y z, xs0[i]? = some x → xs1[i]? = some y → inp[i]? = some z → Rec x y z
  mask0 : xs0.map (·.getPrivate) = c.inputGates.map fun g => lam0 (0, g)
  mask1 : xs1.map (·.getPrivate) = c.inputGates.map fun g => lam1 (0, g)

/-- The message of a layer: one value for each interactive gate. -/
def MsgSize (m : Multi TGate) (l : MLayer) (msg : List PShare × Option Unit) : Prop :=
  msg.1.length = (intScalar m l).length ∧ msg.2 = none

/-! ### Proof -/

/-- The relation between the shares of a gate. -/
def RA (lam0 lam1 val : Node → PShare) (v : Node) (x y : TShare) : Prop :=
  Rec x y (val v) ∧ x.getPrivate = lam0 v ∧ y.getPrivate = lam1 v

theorem rec_scalar {x y : TShare} {b : Bool} (h : Rec x y (.scalar b)) :
    ∃ p q q', x = .scalar p q ∧ y = .scalar p q' ∧ b = (p ^^ q ^^ q') := by
  cases x <;> cases y <;> simp only [Rec] at h
  obtain ⟨rfl, rfl⟩ := h
  exact ⟨_, _, _, rfl, rfl, rfl⟩

theorem rec_matrix {x y : TShare} {z : BitMatrix} (h : Rec x y (.matrix z)) :
    ∃ p q q', x = .matrix p q ∧ y = .matrix p q' ∧ IsMat z.rows z.cols z ∧ IsMat z.rows z.cols p ∧
      IsMat z.rows z.cols q ∧ IsMat z.rows z.cols q' := by
  cases x <;> cases y <;> simp only [Rec] at h
  obtain ⟨rfl, h1, h2, h3, h4, -⟩ := h
  exact ⟨_, _, _, rfl, rfl, h1, h2, h3, h4⟩

theorem priv_scalar {x : TShare} {b : Bool} (h : x.getPrivate = .scalar b) :
    ∃ p, x = .scalar p b := by
  cases x <;> simp [TShare.getPrivate] at h
  exact ⟨_, by rw [h]⟩

theorem priv_matrix {x : TShare} {b : BitMatrix} (h : x.getPrivate = .matrix b) :
    ∃ p, x = .matrix p b := by
  cases x <;> simp [TShare.getPrivate] at h
  exact ⟨_, by rw [h]⟩

theorem asBase_eq {g : TGate} {b : BaseGate PShare} (h : asBase g = some b) : ∃ d, g = .base b d := by
  cases g with
  | base b' d => simp only [GateLike.asBase, Option.some.injEq] at h; exact ⟨d, by rw [h]⟩
  | op g => simp [GateLike.asBase] at h

theorem isMat_unique {r c : Nat} {a b : BitMatrix} (ha : IsMat r c a) (hb : IsMat r c b)
    (h : ∀ i j, i < r → j < c → a.get i j = b.get i j) : a = b :=
  ext_get ha.2.2.1 hb.2.2.1 (ha.1.trans hb.1.symm) (ha.2.1.trans hb.2.1.symm) fun i j hi hj =>
    h i j (by rwa [ha.1] at hi) (by rwa [ha.2.1] at hj)

/-- One interactive gate. -/
theorem gate_item {m : Multi TGate} {inp : List PShare} {val lam0 lam1 : Node → PShare} {v : Node}
    {e e' : PShare} (hp : MaskProduct m lam0 lam1 v e e')
    (hv : ∀ g, m.gate? v = some g → GateEq m inp val v g ∧ MaskEq m lam0 v g ∧ MaskEq m lam1 v g)
    {f0 f1 : Node → TShare} (hr : ∀ u ∈ m.parents v, RA lam0 lam1 val u (f0 u) (f1 u))
    {o0 o1 : TShare} (h0 : o0.getPrivate = lam0 v) (h1 : o1.getPrivate = lam1 v) (d0 d1 : SetupData) :
    ∃ p q g m0 m1 r0 r1, m.parents v = [p, q] ∧ m.gate? v = some (.op g) ∧ g.inputSize = 2 ∧
      computeDeltaShare 0 g [f0 p, f0 q] (d0 ++ [e]) o0 = some (m0, d0) ∧
      computeDeltaShare 1 g [f1 p, f1 q] (d1 ++ [e']) o1 = some (m1, d1) ∧
      (m0.xor m1).bind o0.setPublic = some r0 ∧ (m1.xor m0).bind o1.setPublic = some r1 ∧
      RA lam0 lam1 val v r0 r1 := by
  obtain ⟨p, q, hpar, hcase⟩ := hp
  obtain ⟨rp, rp0, rp1⟩ := hr p (by rw [hpar]; simp)
  obtain ⟨rq, rq0, rq1⟩ := hr q (by rw [hpar]; simp)
  rcases hcase with ⟨hg, a, a', b, b', s, s', l1, l2, l3, l4, rfl, rfl, hs⟩ |
    ⟨r, c, hg, a, a', b, b', s, s', l1, l2, l3, l4, rfl, rfl, ms, ms', hs⟩
  · obtain ⟨k1, ⟨u0, k2⟩, u1, k3⟩ := hv _ hg
    obtain ⟨p', q', x, y, hpar', vp, vq, vv⟩ := k1
    rw [hpar] at hpar'; cases hpar'
    rw [l1] at rp0; rw [l2] at rp1; rw [l3] at rq0; rw [l4] at rq1
    obtain ⟨pa, ea⟩ := priv_scalar rp0
    obtain ⟨pa', ea'⟩ := priv_scalar rp1
    obtain ⟨pb, eb⟩ := priv_scalar rq0
    obtain ⟨pb', eb'⟩ := priv_scalar rq1
    rw [k2] at h0; rw [k3] at h1
    obtain ⟨po, eo⟩ := priv_scalar h0
    obtain ⟨po', eo'⟩ := priv_scalar h1
    obtain ⟨m0, m1, r0, r1, z, c1, c2, c3, c4, c5, c6, c7, c8⟩ := item_correct
      ⟨.and2, f0 p, f1 p, f0 q, f1 q, o0, o1, .scalar s, .scalar s', val p, val q⟩
      ⟨rp, rq, by simp only [ea, ea', eb, eb', eo, eo']; exact hs⟩ d0 d1
    refine ⟨p, q, .and2, m0, m1, r0, r1, hpar, hg, rfl, c1, c2, c3, c4, ?_, ?_, ?_⟩
    · rw [vp, vq] at c8
      cases z <;> simp only [GateValue] at c8
      rw [vv, ← c8]; exact c7
    · rw [← c5, k2]; exact h0
    · rw [← c6, k3]; exact h1
  · obtain ⟨k1, ⟨u0, k2, i0⟩, u1, k3, i1⟩ := hv _ hg
    obtain ⟨p', q', x, y, z', hpar', vp, vq, vv, mx, my, mz, hr0, hk0, hc0, hz⟩ := k1
    rw [hpar] at hpar'; cases hpar'
    rw [vp] at rp
    rw [vq] at rq
    rw [l1] at rp0; rw [l2] at rp1; rw [l3] at rq0; rw [l4] at rq1
    obtain ⟨pa, ea⟩ := priv_matrix rp0
    obtain ⟨pa', ea'⟩ := priv_matrix rp1
    obtain ⟨pb, eb⟩ := priv_matrix rq0
    obtain ⟨pb', eb'⟩ := priv_matrix rq1
    rw [k2] at h0; rw [k3] at h1
    obtain ⟨po, eo⟩ := priv_matrix h0
    obtain ⟨po', eo'⟩ := priv_matrix h1
    have da := rp
    have db := rq
    rw [ea, ea'] at da
    rw [eb, eb'] at db
    obtain ⟨-, -, -, da, -⟩ := da
    obtain ⟨-, -, -, db, -⟩ := db
    obtain ⟨m0, m1, r0, r1, z, c1, c2, c3, c4, c5, c6, c7, c8⟩ := item_correct
      ⟨.matMult r c, f0 p, f1 p, f0 q, f1 q, o0, o1, .matrix s, .matrix s', .matrix x, .matrix y⟩
      ⟨rp, rq, by
        simp only [ea, ea', eb, eb', eo, eo']
        refine ⟨by rw [da.1, mx.1], by rw [da.2.1, db.1, my.1], by rw [db.2.1, my.2.1],
          by rw [da.2.1]; exact hk0, i0, i1, ms, ms', hs⟩⟩ d0 d1
    refine ⟨p, q, .matMult r c, m0, m1, r0, r1, hpar, hg, rfl, c1, c2, c3, c4, ?_, ?_, ?_⟩
    · cases z <;> simp only [GateValue] at c8
      rename_i z
      obtain ⟨-, -, -, -, -, mz0, -⟩ := rec_matrix c7
      rw [c8.1, c8.2.1] at mz0
      have : z = z' := isMat_unique mz0 mz fun i j hi hj => by rw [c8.2.2 i j hi hj, hz i j hi hj]
      rw [vv, ← this]; exact c7
    · rw [← c5, k2]; exact h0
    · rw [← c6, k3]; exact h1

theorem layer_spec {m : Multi TGate} {inp : List PShare} {val lam0 lam1 : Node → PShare}
    {vs : List Node} {s0 s1 : List PShare} (hp : Products m lam0 lam1 vs s0 s1)
    (hv : ∀ v ∈ vs, ∀ g, m.gate? v = some g →
      GateEq m inp val v g ∧ MaskEq m lam0 v g ∧ MaskEq m lam1 v g)
    {f0 f1 : Node → TShare} (hr : ∀ v ∈ vs, ∀ u ∈ m.parents v, RA lam0 lam1 val u (f0 u) (f1 u))
    {i0 i1 : Node → TShare} (h0 : ∀ v, (i0 v).getPrivate = lam0 v)
    (h1 : ∀ v, (i1 v).getPrivate = lam1 v) (d0 d1 : SetupData) :
    ∃ (gs : List Gate) (m0 m1 : List PShare) (z0 z1 : List TShare), vs.mapM m.gate? = some (gs.map TGate.op) ∧
      computeMsg 0 (gs.zip (vs.map i0)) (vs.map fun v => (m.parents v).map f0).flatten
        (d0 ++ s0.reverse) = some (m0, d0) ∧
      computeMsg 1 (gs.zip (vs.map i1)) (vs.map fun v => (m.parents v).map f1).flatten
        (d1 ++ s1.reverse) = some (m1, d1) ∧
      evaluateInteractive (vs.map i0) m0 m1 = some z0 ∧
      evaluateInteractive (vs.map i1) m1 m0 = some z1 ∧
      m0.length = vs.length ∧ m1.length = vs.length ∧ z0.length = vs.length ∧
      z1.length = vs.length ∧
      ∀ (i : Nat) v x y, vs[i]? = some v → z0[i]? = some x → z1[i]? = some y →
        RA lam0 lam1 val v x y := by
  induction hp with
  | nil => exact ⟨[], [], [], [], [], rfl, by simp [computeMsg], by simp [computeMsg], rfl, rfl, rfl,
      rfl, rfl, rfl, by simp⟩
  | @cons v vs a b s0 s1 hprod _ ih =>
    obtain ⟨gs, m0, m1, z0, z1, e1, e2, e3, e4, e5, l1, l2, l3, l4, hz⟩ :=
      ih (fun w hw => hv w (List.mem_cons_of_mem _ hw)) (fun w hw => hr w (List.mem_cons_of_mem _ hw))
    obtain ⟨p, q, g, n0, n1, r0, r1, hpar, hg, hsz, c1, c2, c3, c4, c5⟩ := gate_item hprod
      (hv v List.mem_cons_self) (hr v List.mem_cons_self) (h0 v) (h1 v) (d0 ++ s0.reverse)
      (d1 ++ s1.reverse)
    refine ⟨g :: gs, n0 :: m0, n1 :: m1, r0 :: z0, r1 :: z1, ?_, ?_, ?_, ?_, ?_, by simp [l1],
      by simp [l2], by simp [l3], by simp [l4], ?_⟩
    · rw [List.mapM_cons, hg, e1]; rfl
    · simp only [List.map_cons, List.zip_cons_cons, List.flatten_cons, hpar, List.map_nil, computeMsg,
        hsz, List.reverse_cons, ← List.append_assoc, List.cons_append, List.nil_append,
        List.take_succ_cons, List.take_zero, List.drop_succ_cons, List.drop_zero, c1, e2,
        Option.bind_eq_bind, Option.bind_some]
    · simp only [List.map_cons, List.zip_cons_cons, List.flatten_cons, hpar, List.map_nil, computeMsg,
        hsz, List.reverse_cons, ← List.append_assoc, List.cons_append, List.nil_append,
        List.take_succ_cons, List.take_zero, List.drop_succ_cons, List.drop_zero, c2, e3,
        Option.bind_eq_bind, Option.bind_some]
    · simp only [List.map_cons, evaluateInteractive, Option.bind_eq_bind]
      rw [← Option.bind_assoc, c3]
      simp [e4]
    · simp only [List.map_cons, evaluateInteractive, Option.bind_eq_bind]
      rw [← Option.bind_assoc, c4]
      simp [e5]
    · intro i w x y hw hx hy
      cases i with
      | zero =>
        simp only [List.getElem?_cons_zero, Option.some.injEq] at hw hx hy
        subst hw hx hy; exact c5
      | succ i => exact hz i w x y (by simpa using hw) (by simpa using hx) (by simpa using hy)

theorem mapM_op (gs : List Gate) : (gs.map TGate.op).mapM TGate.op? = some gs := by
  induction gs with
  | nil => rfl
  | cons g gs ih => rw [List.map_cons, List.mapM_cons, ih]; rfl

theorem tensor_sound {m : Multi TGate} {xs0 xs1 : List TShare} {inp : List PShare}
    {setup0 setup1 : Nat → Nat → SetupData} {init0 init1 : Store TShare (List TShare)}
    {val : Node → PShare} {c0 : Base TGate} (hc0 : m.circs[0]? = some c0)
    (hns : ∀ i, isSimd m i = false) (hp : PlainEval m inp val)
    (hm0 : ∀ v g, m.gate? v = some g → MaskEq m (maskOf init0) v g)
    (hm1 : ∀ v g, m.gate? v = some g → MaskEq m (maskOf init1) v g)
    (hin : InputShares c0 (maskOf init0) (maskOf init1) xs0 xs1 inp)
    (ls : List MLayer)
    (hset : ∀ k l, (interactiveLayers m ls)[k]? = some l → ∃ s0 s1,
      setup0 k (intCount m l) = s0.reverse ∧ setup1 k (intCount m l) = s1.reverse ∧
      Products m (maskOf init0) (maskOf init1) (intScalar m l) s0 s1) :
    Sound tensorAby2 m (.scalar xs0) (.scalar xs1) setup0 setup1 init0 init1
      (RA (maskOf init0) (maskOf init1) val) (fun _ _ _ => False)
      (fun l a b => MsgSize m l a ∧ MsgSize m l b) ls := by
  constructor
  · intro v g b hg hb _
    obtain ⟨d, rfl⟩ := asBase_eq hb
    exact absurd (hp v _ hg) id
  · intro v g b hg hb hs; rw [hns] at hs; cases hs
  · intro _
    refine ⟨xs0, xs1, rfl, rfl, ?_⟩
    intro c' i g hc' hidx gate hg hb
    rw [hc0] at hc'; cases hc'
    obtain ⟨d, rfl⟩ := asBase_eq hb
    obtain ⟨c1, i1, e1, e2, e3, e4⟩ := hp (0, g) _ hg
    rw [hc0] at e1; cases e1
    simp only at e2
    rw [hidx] at e2; cases e2
    obtain ⟨hlt, hget, -⟩ := List.findIdx?_eq_some_iff_getElem.1 hidx
    have hget' : c0.inputGates[i] = g := by simpa using hget
    have l0 := hin.len0
    have l1 := hin.len1
    have x0 : xs0[i]? = some (xs0[i]'(by omega)) := List.getElem?_eq_getElem (by omega)
    have x1 : xs1[i]? = some (xs1[i]'(by omega)) := List.getElem?_eq_getElem (by omega)
    have m0 := congrArg (fun l => l[i]?) hin.mask0
    have m1 := congrArg (fun l => l[i]?) hin.mask1
    simp only [List.getElem?_map, x0, x1, Option.map_some, List.getElem?_eq_getElem hlt, hget',
      Option.some.injEq] at m0 m1
    exact ⟨_, _, _, _, x0, x1, rfl, rfl, hin.value i _ _ _ x0 x1 e3, m0, m1⟩
  · intro hs; rw [hns] at hs; cases hs
  · intro v g hg hi _ n1 n2 n3 f0 f1 hr
    have e := hp v g hg
    have e0 := hm0 v g hg
    have e1 := hm1 v g hg
    have pass : ∀ b d, g = .base b d → (∃ p, m.parents v = [p] ∧ val v = val p) →
        (∃ p, m.parents v = [p] ∧ maskOf init0 v = maskOf init0 p) →
        (∃ p, m.parents v = [p] ∧ maskOf init1 v = maskOf init1 p) →
        (∀ x : TShare, b.defaultEvaluate [x] = some x) →
        ∃ z0 z1, evalNode 0 g ((m.parents v).map f0) = some z0 ∧
          evalNode 1 g ((m.parents v).map f1) = some z1 ∧
          RA (maskOf init0) (maskOf init1) val v z0 z1 := by
      rintro b d rfl ⟨p, hpar, hv⟩ ⟨p', hp', h0⟩ ⟨p'', hp'', h1⟩ hd
      rw [hpar] at hp' hp''; cases hp'; cases hp''
      have := hr p (by rw [hpar]; simp)
      refine ⟨f0 p, f1 p, by simp [evalNode, hpar, hd], by simp [evalNode, hpar, hd], ?_⟩
      obtain ⟨a1, a2, a3⟩ := this
      exact ⟨by rw [hv]; exact a1, by rw [a2, h0], by rw [a3, h1]⟩
    cases g with
    | op g =>
      cases g with
      | and2 => simp [GateLike.interactive] at hi
      | matMult r c => simp [GateLike.interactive] at hi
      | inv => exact absurd e id
      | xor =>
        obtain ⟨p, q, x, y, hpar, vp, vq, vv⟩ := e
        obtain ⟨p', q', a, b, hpar', a1, a2, a3⟩ := e0
        obtain ⟨p'', q'', a', b', hpar'', b1, b2, b3⟩ := e1
        rw [hpar] at hpar' hpar''; cases hpar'; cases hpar''
        obtain ⟨r1, r2, r3⟩ := hr p (by rw [hpar]; simp)
        obtain ⟨t1, t2, t3⟩ := hr q (by rw [hpar]; simp)
        rw [vp] at r1
        rw [vq] at t1
        obtain ⟨u, u0, u1, ex, ey, rfl⟩ := rec_scalar r1
        obtain ⟨w, w0, w1, ez, ew, rfl⟩ := rec_scalar t1
        rw [ex, a1] at r2
        rw [ey, b1] at r3
        rw [ez, a2] at t2
        rw [ew, b2] at t3
        simp only [TShare.getPrivate, PShare.scalar.injEq] at r2 r3 t2 t3
        subst r2 r3 t2 t3
        refine ⟨.scalar (u ^^ w) (u0 ^^ w0), .scalar (u ^^ w) (u1 ^^ w1), ?_, ?_, ?_, ?_, ?_⟩
        · simp [tensorAby2, evalNode, evalLocal, hpar, ex, ez, TShare.xor]
        · simp [tensorAby2, evalNode, evalLocal, hpar, ey, ew, TShare.xor]
        · rw [vv]
          refine ⟨rfl, ?_⟩
          cases u <;> cases u0 <;> cases u1 <;> cases w <;> cases w0 <;> cases w1 <;> rfl
        · rw [a3]; rfl
        · rw [b3]; rfl
    | base b d =>
      cases b with
      | input => simp [GateLike.asBase] at n1
      | constant x => exact absurd rfl (n2 x)
      | connectToMainFromSimd k => exact absurd rfl (n3 k)
      | _ => exact pass _ _ rfl e e0 e1 fun _ => rfl
  · intro v g hg _ hs; rw [hns] at hs; cases hs
  · intro v g hg _ _ hs; rw [hns] at hs; cases hs
  · intro v g k p hg hb _ x0 x1 h; exact absurd h (by simp)
  · intro k l hk gs hs hgs hhs f0 f1 h0 h1 hr _
    obtain ⟨s0, s1, d0, d1, hprod⟩ := hset k l hk
    have hint : intSimd m l = [] := by
      unfold intSimd
      rw [List.filter_eq_nil_iff.2 (by intro p _; simp [hns])]
      rfl
    obtain ⟨gs', m0, m1, z0, z1, e1, e2, e3, e4, e5, l1, l2, l3, l4, hz⟩ :=
      layer_spec hprod (fun v _ g hg => ⟨hp v g hg, hm0 v g hg, hm1 v g hg⟩) hr (i0 := init0.sc)
        (i1 := init1.sc) (fun _ => rfl) (fun _ => rfl) [] []
    rw [hgs, Option.some.injEq] at e1
    subst e1
    simp only [List.nil_append] at e2 e3
    refine ⟨m0, m1, [], [], z0, z1, [], [], ?_, ?_, l3, l4, hz, ?_⟩
    · simp only [tensorAby2, mapM_op, d0, e2, Option.bind_eq_bind, Option.bind_some]
    · simp only [tensorAby2, mapM_op, d1, e3, Option.bind_eq_bind, Option.bind_some]
    · simp only [tensorAby2, Bool.false_eq_true, if_false]
      exact ⟨hint, ⟨⟨l1, rfl⟩, l2, rfl⟩, by simp [e4], by simp [e5]⟩

theorem reconstruct_of_rel (lam0 lam1 val : Node → PShare) : ∀ (gs : List Nat) (o0 o1 : List TShare),
    o0.length = gs.length → o1.length = gs.length →
    (∀ (i : Nat) g x0 x1, gs[i]? = some g → o0[i]? = some x0 → o1[i]? = some x1 →
      RA lam0 lam1 val (0, g) x0 x1) →
    reconstruct o0 o1 = some (gs.map fun g => val (0, g))
  | [], [], [], _, _, _ => rfl
  | g :: gs, x :: o0, y :: o1, h0, h1, h => by
    have r := reconstruct_of_rel lam0 lam1 val gs o0 o1 (by simpa using h0)
      (by simpa using h1) (fun i g x y a b c => h (i + 1) g x y (by simpa using a)
        (by simpa using b) (by simpa using c))
    have r' : (o0.zip o1).mapM (fun p => reconstructOne p.1 p.2) = _ := r
    rw [reconstruct, List.zip_cons_cons, List.mapM_cons, reconstructOne_rec (h 0 g x y rfl rfl rfl).1, r']
    rfl
  | [], _ :: _, _, h, _, _ => by simp at h
  | [], [], _ :: _, _, h, _ => by simp at h
  | _ :: _, [], _, h, _, _ => by simp at h
  | _ :: _, _ :: _, [], _, h, _ => by simp at h

/-- **C82, online phase.**  Two executors with ABY2 on a circuit (with any sub-circuits) of XOR and
AND gates for bits and of multiplications of matrices.  If the masks of the gates are compatible with
the gates, the inputs are shared with the masks of the input gates, and the setup provides, for each
layer, shares of the products of the masks of the operands, then under every schedule both parties
finish, exchange one message each per layer with interactive gates, and the outputs reconstruct to the
plaintext values. -/
theorem tensor_execute_correct (m : Multi TGate) (rank : Node → Nat) (w : WF m rank) (hw : ExecWF m)
    (hns : ∀ i, isSimd m i = false) (c0 : Base TGate) (hc0 : m.circs[0]? = some c0)
    (xs0 xs1 : List TShare) (inp : List PShare) (setup0 setup1 : Nat → Nat → SetupData)
    (init0 init1 : Store TShare (List TShare)) (val : Node → PShare) (hp : PlainEval m inp val)
    (hm0 : ∀ v g, m.gate? v = some g → MaskEq m (maskOf init0) v g)
    (hm1 : ∀ v g, m.gate? v = some g → MaskEq m (maskOf init1) v g)
    (hin : InputShares c0 (maskOf init0) (maskOf init1) xs0 xs1 inp)
    (hset : ∀ ls, layers m = some ls → ∀ k l, (interactiveLayers m ls)[k]? = some l → ∃ s0 s1,
      setup0 k (intCount m l) = s0.reverse ∧ setup1 k (intCount m l) = s1.reverse ∧
      Products m (maskOf init0) (maskOf init1) (intScalar m l) s0 s1) :
    ∃ ls o0 o1, LayersOk m ls ∧
      Exchange (fun l a b => MsgSize m l a ∧ MsgSize m l b) (.scalar o0) (.scalar o1)
        (interactiveLayers m ls)
        (execute tensorAby2 m 0 (.scalar xs0) setup0 init0)
        (execute tensorAby2 m 1 (.scalar xs1) setup1 init1) ∧
      Runs (execute tensorAby2 m 0 (.scalar xs0) setup0 init0)
        (execute tensorAby2 m 1 (.scalar xs1) setup1 init1) (.scalar o0) (.scalar o1) ∧
      reconstruct o0 o1 = some (c0.outputGates.map fun g => val (0, g)) := by
  obtain ⟨it, ls, o0, o1, e1, e2, ok, hx, hout, hty⟩ := execute_spec_layers (pr := tensorAby2)
    (setup0 := setup0) (setup1 := setup1) (init0 := init0) (init1 := init1) w hw
    (fun it ls e1 e2 ok => tensor_sound hc0 hns hp hm0 hm1 hin ls
      (hset ls (by simp [layers, e1, e2]))) c0 hc0
    (inp0 := .scalar xs0) (inp1 := .scalar xs1) hin.len0.symm hin.len1.symm
  obtain ⟨l, rfl⟩ := hty.1 (hns 0)
  match o1, hout with
  | .scalar o1, hout =>
    obtain ⟨a1, a2, a3⟩ := hout
    exact ⟨ls, l, o1, ok, hx, hx.runs, reconstruct_of_rel _ _ _ c0.outputGates l o1 a1 a2 a3⟩

/-! ### The setup data, layer by layer -/

theorem products_split {m : Multi TGate} {lam0 lam1 : Node → PShare} (a b : List Node)
    (s0 s1 : List PShare) (h : Products m lam0 lam1 (a ++ b) s0 s1) :
    ∃ a0 a1 b0 b1, s0 = a0 ++ b0 ∧ s1 = a1 ++ b1 ∧
      Products m lam0 lam1 a a0 a1 ∧ Products m lam0 lam1 b b0 b1 := by
  induction a generalizing s0 s1 with
  | nil => exact ⟨[], [], s0, s1, rfl, rfl, .nil, h⟩
  | cons v a ih =>
    cases h with
    | cons h1 h3 =>
      obtain ⟨a0, a1, b0, b1, rfl, rfl, h4, h5⟩ := ih _ _ h3
      exact ⟨_ :: a0, _ :: a1, b0, b1, rfl, rfl, .cons h1 h4, h5⟩

theorem products_length {m : Multi TGate} {lam0 lam1 : Node → PShare} {vs : List Node}
    {s0 s1 : List PShare} (h : Products m lam0 lam1 vs s0 s1) :
    s0.length = vs.length ∧ s1.length = vs.length := by
  induction h with
  | nil => exact ⟨rfl, rfl⟩
  | cons _ _ ih => simp [ih.1, ih.2]

theorem products_chunks {m : Multi TGate} {lam0 lam1 : Node → PShare} (xs : List (List Node))
    (s0 s1 : List PShare) (h : Products m lam0 lam1 xs.flatten s0 s1) :
    ∃ p0 p1 : List (List PShare), s0 = p0.flatten ∧ s1 = p1.flatten ∧
      p0.map (·.length) = xs.map (·.length) ∧ p1.map (·.length) = xs.map (·.length) ∧
      ∀ (k : Nat) vs, xs[k]? = some vs → ∃ a0 a1, p0[k]? = some a0 ∧ p1[k]? = some a1 ∧
        Products m lam0 lam1 vs a0 a1 := by
  induction xs generalizing s0 s1 with
  | nil =>
    cases h
    exact ⟨[], [], rfl, rfl, rfl, rfl, by simp⟩
  | cons x xs ih =>
    rw [List.flatten_cons] at h
    obtain ⟨a0, a1, b0, b1, rfl, rfl, h1, h2⟩ := products_split _ _ _ _ h
    obtain ⟨p0, p1, rfl, rfl, l0, l1, hk⟩ := ih _ _ h2
    obtain ⟨m0, m1⟩ := products_length h1
    refine ⟨a0 :: p0, a1 :: p1, by simp, by simp, by simp [l0, m0], by simp [l1, m1], ?_⟩
    intro k vs hv
    cases k with
    | zero => simp only [List.getElem?_cons_zero, Option.some.injEq] at hv; subst hv; exact ⟨a0, a1, rfl, rfl, h1⟩
    | succ k => exact hk k vs (by simpa using hv)

/-- Data for all interactive gates in iteration order is handed out layer by layer. -/
theorem answers_products {m : Multi TGate} (hns : ∀ i, isSimd m i = false) {ls : List MLayer}
    (hls : layers m = some ls) (ok : LayersOk m ls) {lam0 lam1 : Node → PShare} {s0 s1 : List PShare}
    (hp : Products m lam0 lam1 (interactiveNodes m ls) s0 s1) {setup0 setup1 : Nat → Nat → SetupData}
    (h0 : Answers m (Aby2.SetupData.fromRaw s0) setup0)
    (h1 : Answers m (Aby2.SetupData.fromRaw s1) setup1) :
    ∀ ls', layers m = some ls' → ∀ k l, (interactiveLayers m ls')[k]? = some l → ∃ s0 s1,
      setup0 k (intCount m l) = s0.reverse ∧ setup1 k (intCount m l) = s1.reverse ∧
      Products m lam0 lam1 (intScalar m l) s0 s1 := by
  intro ls' hls' k l hk
  rw [hls] at hls'; cases hls'
  rw [Aby2.interactiveNodes_eq m ls ok.local_ ok.inter, ← Aby2.interactiveLayers_flatMap m hns,
    List.flatMap_def] at hp
  obtain ⟨p0, p1, rfl, rfl, l0, l1, hch⟩ := products_chunks _ _ _ hp
  have hc : (interactiveLayers m ls).map (intCount m) =
      ((interactiveLayers m ls).map (intScalar m)).map (·.length) := by
    rw [List.map_map]
    exact List.map_congr_left fun l _ => Aby2.intCount_scalar m hns l
  have a0 := h0 ls hls k l hk
  have a1 := h1 ls hls k l hk
  rw [hc, ← l0, Aby2.requests_chunks] at a0
  rw [hc, ← l1, Aby2.requests_chunks] at a1
  obtain ⟨x0, x1, e0, e1, hx⟩ := hch k (intScalar m l) (by rw [List.getElem?_map, hk]; rfl)
  rw [List.getElem?_map, e0, Option.map_some, Option.some.injEq, Option.some.injEq] at a0
  rw [List.getElem?_map, e1, Option.map_some, Option.some.injEq, Option.some.injEq] at a1
  exact ⟨x0, x1, a0.symm, a1.symm, hx⟩

end Verif.Tensor
