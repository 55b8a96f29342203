import Verif.Exec.Joint
import Verif.Mixed.Props

/-!
Execution of circuits of the mixed protocol by both parties (C62).
-/
set_option autoImplicit false

namespace Verif.Mixed

open Circuit Proc Exec

/-- mixed_gmw.rs:658-697 `impl Gate<Mixed<R>> for MixedGate<R>`. -/
instance {w : Nat} : GateLike (Gate w) where
  Plain := Val w
  interactive := Gate.isInteractive
  asBase
    | .base b => some b
    | _ => none
  wrapBase := .base

/-- mixed_gmw.rs:360-641 `impl Protocol for MixedGmw`.  `SIMD_SUPPORT` is false; the SIMD functions have
the panicking default implementations of protocols/mod.rs.  The storage of a layer comes with what
`random()` delivers in that layer.  Of the other party's message the skipped field is not received. -/
def mixed (w : Nat) : Protocol (Gate w) (Val w) (List (Val w)) (Msg w) Unit ((Nat → BitVec w) × Setup w) where
  shareConstant p _ v := shareConstant p v
  evalLocal := evalLocal
  computeMsg _ gs _ xs t := (computeMsg gs xs t.1 t.2).map fun r => (r.1, (t.1, r.2))
  evalInteractive p gs _ own other t :=
    (evaluateInteractive p gs own other.sent t.2).map fun r => (r.1, (t.1, r.2))
  simd := false
  shareConstantSimd p _ v n := List.replicate n (shareConstant p v)
  evalLocalSimd _ _ _ := none
  computeMsgSimd _ _ _ _ _ := none
  evalInteractiveSimd _ _ _ _ _ _ := none
  get v k := v[k]?
  collect := id
  empty := []

/-! ### Specification -/

/-- How a gate's value is shared: XOR shared bit, additively shared ring element, XOR shared word
(`Select`), or not at all (`A2BBoolShareSnd`/`Rcv`). -/
inductive Ty where
  | bool | arith | word | half
deriving DecidableEq, Repr

/-- The kind of sharing of a plain value. -/
def Val.ty {w : Nat} : Val w → Ty
  | .bool _ => .bool
  | .arith _ => .arith

/-- The operands of a gate have the right kinds, and `ty v` is the kind of its result.  `Select` gates are
used as in `a2b`, on the two resharing gates of one operand. -/
def Typed {w : Nat} (m : Multi (Gate w)) (ty : Node → Ty) (v : Node) : Gate w → Prop
  | .base .input => ty v = .bool ∨ ty v = .arith
  | .base (.constant c) => ty v = c.ty
  | .base (.connectToMainFromSimd _) => False
  | .base _ => ∃ p, m.parents v = [p] ∧ ty v = ty p
  | .bool .and => ∃ p q, m.parents v = [p, q] ∧ ty p = .bool ∧ ty q = .bool ∧ ty v = .bool
  | .bool .xor => ∃ p q, m.parents v = [p, q] ∧ ty p = .bool ∧ ty q = .bool ∧ ty v = .bool
  | .bool .inv => ∃ p, m.parents v = [p] ∧ ty p = .bool ∧ ty v = .bool
  | .bool (.base _) => False
  | .arith _ => ∃ p q, m.parents v = [p, q] ∧ ty p = .arith ∧ ty q = .arith ∧ ty v = .arith
  | .conv .snd => ∃ p, m.parents v = [p] ∧ ty p = .arith ∧ ty v = .half
  | .conv .rcv => ∃ p, m.parents v = [p] ∧ ty p = .arith ∧ ty v = .half
  | .conv .select => ∃ s r p, m.parents v = [s, r] ∧ m.parents s = [p] ∧ m.parents r = [p] ∧
      ((m.gate? s = some (.conv .snd) ∧ m.gate? r = some (.conv .rcv)) ∨
        (m.gate? s = some (.conv .rcv) ∧ m.gate? r = some (.conv .snd))) ∧ ty v = .word
  | .conv (.selectBit i) => ∃ p, m.parents v = [p] ∧ ty p = .word ∧ i < w ∧ ty v = .bool
  | .conv .b2a => (m.parents v).length = w ∧ (∀ u ∈ m.parents v, ty u = .bool) ∧ ty v = .arith

/-- The plaintext equation of a gate.  `part p` is a summand of the ring element at `p`: the two `Select`
gates of `a2b` give it and its complement. -/
def MixedEq {w : Nat} (m : Multi (Gate w)) (inp : List (Val w)) (val : Node → Val w)
    (part : Node → BitVec w) (v : Node) : Gate w → Prop
  | .base .input => ∃ c i, m.circs[0]? = some c ∧ c.inputGates.findIdx? (· = v.2) = some i ∧
      inp[i]? = some (val v)
  | .base (.constant c) => val v = c
  | .base _ => ∃ p, m.parents v = [p] ∧ val v = val p
  | .bool .and => ∃ p q a b, m.parents v = [p, q] ∧ val p = .bool a ∧ val q = .bool b ∧
      val v = .bool (a && b)
  | .bool .xor => ∃ p q a b, m.parents v = [p, q] ∧ val p = .bool a ∧ val q = .bool b ∧
      val v = .bool (a ^^ b)
  | .bool .inv => ∃ p a, m.parents v = [p] ∧ val p = .bool a ∧ val v = .bool !a
  | .bool (.base _) => False
  | .arith .add => ∃ p q a b, m.parents v = [p, q] ∧ val p = .arith a ∧ val q = .arith b ∧
      val v = .arith (a + b)
  | .arith .sub => ∃ p q a b, m.parents v = [p, q] ∧ val p = .arith a ∧ val q = .arith b ∧
      val v = .arith (a - b)
  | .arith .mul => ∃ p q a b, m.parents v = [p, q] ∧ val p = .arith a ∧ val q = .arith b ∧
      val v = .arith (a * b)
  | .conv .snd => True
  | .conv .rcv => True
  | .conv .select => ∃ s r p x, m.parents v = [s, r] ∧ m.parents s = [p] ∧ val p = .arith x ∧
      val v = .arith (if m.gate? s = some (.conv .snd) then part p else x - part p)
  | .conv (.selectBit i) => ∃ p x, m.parents v = [p] ∧ val p = .arith x ∧ val v = .bool (x.getLsbD i)
  | .conv .b2a => ∃ bits, (m.parents v).map val = bits.map .bool ∧
      val v = .arith (BitVec.ofNat w (bitsVal bits))

/-- The number of gates of a kind in a layer. -/
def countG {w : Nat} (m : Multi (Gate w)) (l : MLayer) (g : Gate w) : Nat :=
  (intNodes l).countP fun v => m.gate? v = some g

/-- What the layers must satisfy: one `a2b` conversion per layer, no `B2A` gate behind it in the layer, the two
resharing gates of a conversion in the same layer. -/
structure LayersCond {w : Nat} (m : Multi (Gate w)) (ls : List MLayer) : Prop where
  order : ∀ l ∈ ls, (intNodes l).Pairwise fun a b => m.gate? a = some (.conv .rcv) →
    m.gate? b ≠ some (.conv .b2a) ∧ (m.gate? b = some (.conv .snd) → m.parents b = m.parents a)
  one : ∀ l ∈ ls, countG m l (.conv .snd) ≤ 1
  rcv : ∀ l ∈ ls, countG m l (.conv .rcv) ≤ countG m l (.conv .snd)
  pair : ∀ v, m.gate? v = some (.conv .select) → ∀ s r, m.parents v = [s, r] → ∀ l ∈ ls,
    s ∈ intNodes l ↔ r ∈ intNodes l

/-- What the setup for a layer with `n` interactive gates, `k` of them `B2A`, must satisfy. -/
structure SetupOk {w : Nat} (n k : Nat) (s0 s1 : Setup w) : Prop where
  bool : Gmw.Matching s0.bool s1.bool ∧ n ≤ s0.bool.length
  arith : List.Forall₂ GoodTriple s0.arith s1.arith ∧ n ≤ s0.arith.length
  len : k ≤ s0.sbBool.length ∧ k ≤ s1.sbBool.length
  bits : ∀ j < k, SharedBits (s0.sbBool.reverse.getD j 0) (s1.sbBool.reverse.getD j 0) s0.sbArith s1.sbArith

/-! ### Progress -/

/-- The shares have the form given by the kind. -/
def TyOk {w : Nat} : Ty → Val w → Val w → Prop
  | .bool, .bool _, .bool _ => True
  | .arith, .arith _, .arith _ => True
  | .word, .arith _, .arith _ => True
  | .half, .arith _, .arith _ => True
  | _, _, _ => False

theorem tyOk_bool {w : Nat} {x y : Val w} (h : TyOk .bool x y) : ∃ a b, x = .bool a ∧ y = .bool b := by
  cases x <;> cases y <;> simp_all [TyOk]

theorem tyOk_arith {w : Nat} {x y : Val w} {t : Ty} (ht : t ≠ .bool) (h : TyOk t x y) :
    ∃ a b, x = .arith a ∧ y = .arith b := by
  cases x <;> cases y <;> cases t <;> simp_all [TyOk]

/-- The value behind two shares. -/
def valOf {w : Nat} : Ty → Val w → Val w → Val w
  | _, .bool x, .bool y => .bool (x ^^ y)
  | .word, .arith x, .arith y => .arith (x ^^^ y)
  | _, .arith x, .arith y => .arith (x + y)
  | _, x, _ => x

/-- Shares of the input. -/
def InputShares {w : Nat} (xs0 xs1 inp : List (Val w)) : Prop :=
  xs0.length = inp.length ∧ xs1.length = inp.length ∧
  ∀ (i : Nat) (x : Val w), inp[i]? = some x → ∃ x0 x1, xs0[i]? = some x0 ∧ xs1[i]? = some x1 ∧
    combine x0 x1 = some x

theorem combine_ty {w : Nat} {x y z : Val w} (h : combine x y = some z) :
    TyOk z.ty x y ∧ valOf z.ty x y = z := by
  cases x <;> cases y <;> simp [combine] at h <;> subst h <;> simp [Val.ty, TyOk, valOf]

theorem mapM_arith2 {w : Nat} (a b : BitVec w) :
    [Val.arith a, .arith b].mapM Val.unwrapArith = some [a, b] := rfl

/-- The gate as a layer item. -/
def itemOf {w : Nat} (m : Multi (Gate w)) (F0 F1 : Node → Val w) (v : Node) : Item w :=
  match m.gate? v, (m.parents v).map F0, (m.parents v).map F1 with
  | some (.bool .and), [.bool x0, .bool y0], [.bool x1, .bool y1] => .and x0 y0 x1 y1
  | some (.arith .mul), [.arith x0, .arith y0], [.arith x1, .arith y1] => .mul x0 y0 x1 y1
  | some (.conv .snd), [.arith r0], [.arith r1] => .snd r0 r1
  | some (.conv .rcv), [.arith r0], [.arith r1] => .rcv r0 r1
  | some (.conv .b2a), xs0, xs1 =>
    .b2a (((xs0.mapM Val.unwrapBool)).getD []) ((xs1.mapM Val.unwrapBool).getD [])
  | _, _, _ => .snd 0 0

theorem bools_of {w : Nat} {us : List Node} {F0 F1 : Node → Val w}
    (h : ∀ u ∈ us, TyOk .bool (F0 u) (F1 u)) :
    ∃ b0 b1 : List Bool, us.map F0 = b0.map .bool ∧ us.map F1 = b1.map .bool ∧
      b0.length = us.length ∧ b1.length = us.length := by
  induction us with
  | nil => exact ⟨[], [], rfl, rfl, rfl, rfl⟩
  | cons u us ih =>
    obtain ⟨b0, b1, e0, e1, n0, n1⟩ := ih fun v hv => h v (List.mem_cons_of_mem _ hv)
    obtain ⟨a, b, h0, h1⟩ := tyOk_bool (h u List.mem_cons_self)
    exact ⟨a :: b0, b :: b1, by simp [h0, e0], by simp [h1, e1], by simp [n0], by simp [n1]⟩

/-- The item of an interactive gate with well-typed operands. -/
theorem itemOf_ok {w : Nat} {m : Multi (Gate w)} {ty : Node → Ty} {F0 F1 : Node → Val w} {v : Node}
    {g : Gate w} (hg : m.gate? v = some g) (hi : interactive g = true) (ht : Typed m ty v g)
    (hR : ∀ u ∈ m.parents v, TyOk (ty u) (F0 u) (F1 u)) :
    (itemOf m F0 F1 v).gate = g ∧ (itemOf m F0 F1 v).in0 = (m.parents v).map F0 ∧
      (itemOf m F0 F1 v).in1 = (m.parents v).map F1 ∧ (itemOf m F0 F1 v).Ok := by
  have two : ∀ p q, m.parents v = [p, q] → TyOk (ty p) (F0 p) (F1 p) ∧ TyOk (ty q) (F0 q) (F1 q) := by
    intro p q hp
    exact ⟨hR p (by simp [hp]), hR q (by simp [hp])⟩
  cases g with
  | base b => simp [interactive, Gate.isInteractive] at hi
  | bool g =>
    cases g with
    | and =>
      obtain ⟨p, q, hp, t1, t2, -⟩ := ht
      obtain ⟨h1, h2⟩ := two p q hp
      rw [t1] at h1
      rw [t2] at h2
      obtain ⟨a, b, e1, e2⟩ := tyOk_bool h1
      obtain ⟨c, d, e3, e4⟩ := tyOk_bool h2
      simp [itemOf, hg, hp, e1, e2, e3, e4, Item.gate, Item.in0, Item.in1, Item.swap, Item.Ok]
    | _ => simp [interactive, Gate.isInteractive, Gmw.BoolGate.isInteractive] at hi
  | arith g =>
    cases g with
    | mul =>
      obtain ⟨p, q, hp, t1, t2, -⟩ := ht
      obtain ⟨h1, h2⟩ := two p q hp
      rw [t1] at h1
      rw [t2] at h2
      obtain ⟨a, b, e1, e2⟩ := tyOk_arith (by decide) h1
      obtain ⟨c, d, e3, e4⟩ := tyOk_arith (by decide) h2
      simp [itemOf, hg, hp, e1, e2, e3, e4, Item.gate, Item.in0, Item.in1, Item.swap, Item.Ok]
    | _ => simp [interactive, Gate.isInteractive] at hi
  | conv g =>
    cases g with
    | snd =>
      obtain ⟨p, hp, t1, -⟩ := ht
      have h1 := hR p (by simp [hp])
      rw [t1] at h1
      obtain ⟨a, b, e1, e2⟩ := tyOk_arith (by decide) h1
      simp [itemOf, hg, hp, e1, e2, Item.gate, Item.in0, Item.in1, Item.swap, Item.Ok]
    | rcv =>
      obtain ⟨p, hp, t1, -⟩ := ht
      have h1 := hR p (by simp [hp])
      rw [t1] at h1
      obtain ⟨a, b, e1, e2⟩ := tyOk_arith (by decide) h1
      simp [itemOf, hg, hp, e1, e2, Item.gate, Item.in0, Item.in1, Item.swap, Item.Ok]
    | b2a =>
      obtain ⟨hl, hb, -⟩ := ht
      obtain ⟨b0, b1, e0, e1, n0, n1⟩ := bools_of (us := m.parents v) (F0 := F0) (F1 := F1)
        (fun u hu => by have := hR u hu; rwa [hb u hu] at this)
      have hio : itemOf m F0 F1 v = .b2a b0 b1 := by
        simp only [itemOf, hg, e0, e1, mapM_unwrapBool]
        rfl
      rw [hio]
      refine ⟨rfl, ?_, ?_, ?_, ?_⟩
      · rw [e0]; rfl
      · rw [e1]; rfl
      · rw [n0, hl]
      · rw [n1, hl]
    | _ => simp [interactive, Gate.isInteractive] at hi

theorem isSnd_iff {w : Nat} (it : Item w) : it.isSnd = decide (it.gate = .conv .snd) := by
  cases it <;> simp [Item.isSnd, Item.gate]
theorem isRcv_iff {w : Nat} (it : Item w) : it.isRcv = decide (it.gate = .conv .rcv) := by
  cases it <;> simp [Item.isRcv, Item.gate]
theorem isB2a_iff {w : Nat} (it : Item w) : it.isB2a = decide (it.gate = .conv .b2a) := by
  cases it <;> simp [Item.isB2a, Item.gate]

theorem reconstructs_map {w : Nat} {vs : List Node} {f : Node → Item w} {F0 F1 : Node → Val w}
    (h : Reconstructs (vs.map f) (vs.map F0) (vs.map F1)) : ∀ v ∈ vs, (f v).Good (F0 v) (F1 v) := by
  induction vs with
  | nil => simp
  | cons u vs ih =>
    intro v hv
    rcases List.mem_cons.1 hv with rfl | hv
    · exact h.1
    · exact ih h.2 v hv

theorem reconstructs_ok {w : Nat} {vs : List Node} {f : Node → Item w} {z0 z1 : List (Val w)}
    (h : Reconstructs (vs.map f) z0 z1) : z0.length = vs.length ∧ z1.length = vs.length ∧
    ∀ (i : Nat) v x0 x1, vs[i]? = some v → z0[i]? = some x0 → z1[i]? = some x1 → (f v).Good x0 x1 := by
  induction vs generalizing z0 z1 with
  | nil =>
    cases z0 with
    | nil =>
      cases z1 with
      | nil => simp
      | cons b z1 => simp [Reconstructs] at h
    | cons a z0 => cases z1 <;> simp [Reconstructs] at h
  | cons u vs ih =>
    cases z0 with
    | nil => simp [Reconstructs] at h
    | cons a z0 =>
      cases z1 with
      | nil => simp [Reconstructs] at h
      | cons b z1 =>
        obtain ⟨h1, h2⟩ := h
        obtain ⟨n0, n1, hi⟩ := ih h2
        refine ⟨by simp [n0], by simp [n1], ?_⟩
        intro i v x0 x1 hv h0 h1'
        cases i with
        | zero =>
          simp only [List.getElem?_cons_zero, Option.some.injEq] at hv h0 h1'
          subst hv h0 h1'
          exact h1
        | succ i => exact hi i v x0 x1 (by simpa using hv) (by simpa using h0) (by simpa using h1')

theorem outsAt_map {w : Nat} (p : Item w → Bool) (vs : List Node) (f : Node → Item w) (F : Node → Val w) :
    outsAt p (vs.map f) (vs.map F) = (vs.filter fun v => p (f v)).map F := by
  induction vs with
  | nil => rfl
  | cons u vs ih =>
    rw [List.map_cons, List.map_cons, outsAt, List.filter_cons, ih]
    by_cases h : p (f u) <;> simp [h]

/-- The kind of the result of an interactive gate. -/
theorem good_tyOk {w : Nat} {m : Multi (Gate w)} {ty : Node → Ty} {v : Node} {g : Gate w}
    (ht : Typed m ty v g) {it : Item w} (hit : it.gate = g) {x0 x1 : Val w} (h : it.Good x0 x1) :
    TyOk (ty v) x0 x1 := by
  subst hit
  cases it <;> simp only [Item.gate, Typed] at ht
  case and => obtain ⟨_, _, _, _, _, e⟩ := ht; rw [e]; cases x0 <;> cases x1 <;> simp_all [Item.Good, TyOk]
  case mul => obtain ⟨_, _, _, _, _, e⟩ := ht; rw [e]; cases x0 <;> cases x1 <;> simp_all [Item.Good, TyOk]
  case snd => obtain ⟨_, _, _, e⟩ := ht; rw [e]; cases x0 <;> cases x1 <;> simp_all [Item.Good, TyOk]
  case rcv => obtain ⟨_, _, _, e⟩ := ht; rw [e]; cases x0 <;> cases x1 <;> simp_all [Item.Good, TyOk]
  case b2a => obtain ⟨_, _, e⟩ := ht; rw [e]; cases x0 <;> cases x1 <;> simp_all [Item.Good, TyOk]

/-- What the layer theorem says about the outputs of the gates `vs`. -/
def LayerGood {w : Nat} (m : Multi (Gate w)) (vs : List Node) (F0 F1 : Node → Val w)
    (z0 z1 : List (Val w)) : Prop :=
  let items := vs.map (itemOf m F0 F1)
  Reconstructs items z0 z1 ∧ ∃ snd0 snd1 rcv0 rcv1 : List (BitVec w),
    outsAt Item.isSnd items z0 = snd0.map .arith ∧ outsAt Item.isSnd items z1 = snd1.map .arith ∧
    outsAt Item.isRcv items z0 = rcv0.map .arith ∧ outsAt Item.isRcv items z1 = rcv1.map .arith ∧
    List.zipWith (· ^^^ ·) snd0 rcv1 = (sndShares items).take (items.countP Item.isRcv) ∧
    List.zipWith (· ^^^ ·) snd1 rcv0 = (sndShares (items.map Item.swap)).take (items.countP Item.isRcv)

theorem mapM_gates {w : Nat} {m : Multi (Gate w)} {vs : List Node} {gs : List (Gate w)}
    (h : vs.mapM m.gate? = some gs) (f : Node → Gate w) (hf : ∀ v ∈ vs, m.gate? v = some (f v)) :
    gs = vs.map f := by
  induction vs generalizing gs with
  | nil => simp at h; simp [h]
  | cons v vs ih =>
    rw [List.mapM_cons, hf v List.mem_cons_self] at h
    simp only [Option.bind_eq_bind, Option.bind_some, Option.bind_eq_some_iff] at h
    obtain ⟨hs, h1, h2⟩ := h
    cases h2
    rw [ih h1 fun u hu => hf u (List.mem_cons_of_mem _ hu)]
    rfl

theorem layer_spec {w : Nat} (hw : 0 < w) {m : Multi (Gate w)} {ty : Node → Ty}
    (ht : ∀ v g, m.gate? v = some g → Typed m ty v g) {l : MLayer}
    (hint : ∀ v ∈ intNodes l, ∃ g, m.gate? v = some g ∧ interactive g = true)
    (horder : (intNodes l).Pairwise fun a b => m.gate? a = some (.conv .rcv) →
      m.gate? b ≠ some (.conv .b2a) ∧ (m.gate? b = some (.conv .snd) → m.parents b = m.parents a))
    (hrcv : countG m l (.conv .rcv) ≤ countG m l (.conv .snd))
    {F0 F1 : Node → Val w} (hR : ∀ v ∈ intNodes l, ∀ u ∈ m.parents v, TyOk (ty u) (F0 u) (F1 u))
    {t0 t1 : (Nat → BitVec w) × Setup w} {n : Nat} (hn : (intNodes l).length ≤ n)
    (hset : SetupOk n (countG m l (.conv .b2a)) t0.2 t1.2) {gs : List (Gate w)}
    (hgs : (intNodes l).mapM m.gate? = some gs) (init0 init1 : Node → Val w) :
    ∃ z0 z1 a0 a1, LayerEq (mixed w) m init0 init1 (intNodes l) gs t0 t1 F0 F1 z0 z1 a0 a1 ∧
      LayerGood m (intNodes l) F0 F1 z0 z1 := by
  have hio : ∀ v ∈ intNodes l, m.gate? v = some (itemOf m F0 F1 v).gate ∧
      (itemOf m F0 F1 v).in0 = (m.parents v).map F0 ∧
      (itemOf m F0 F1 v).in1 = (m.parents v).map F1 ∧ (itemOf m F0 F1 v).Ok := by
    intro v hv
    obtain ⟨g, hg, hi⟩ := hint v hv
    obtain ⟨h1, h2⟩ := itemOf_ok hg hi (ht v g hg) (hR v hv)
    exact ⟨by rw [h1]; exact hg, h2⟩
  have hgs' := mapM_gates hgs _ fun v hv => (hio v hv).1
  have hcount : ∀ (p : Item w → Bool) (g : Gate w), (∀ it, p it = decide (it.gate = g)) →
      ((intNodes l).map (itemOf m F0 F1)).countP p = countG m l g := by
    intro p g hp
    rw [List.countP_map, countG]
    apply List.countP_congr
    intro v hv
    simp [hp, (hio v hv).1]
  have c1 := hcount Item.isSnd (.conv .snd) isSnd_iff
  have c2 := hcount Item.isRcv (.conv .rcv) isRcv_iff
  have c3 := hcount Item.isB2a (.conv .b2a) isB2a_iff
  have hlen : ∀ p : Item w → Bool, ((intNodes l).map (itemOf m F0 F1)).countP p ≤ n := by
    intro p
    refine le_trans (List.countP_le_length) ?_
    simpa using hn
  have hro : RcvOk ((intNodes l).map (itemOf m F0 F1)) := by
    rw [RcvOk, List.pairwise_map]
    refine List.Pairwise.imp_of_mem ?_ horder
    intro a b ha hb hab r0 r1 he
    obtain ⟨ga, ia, ja, -⟩ := hio a ha
    obtain ⟨gb, ib, jb, -⟩ := hio b hb
    rw [he] at ga ia ja
    obtain ⟨h1, h2⟩ := hab ga
    refine ⟨?_, ?_⟩
    · rw [isB2a_iff, decide_eq_false_iff_not]
      intro hb'
      exact h1 (by rw [gb, hb'])
    · intro s0 s1 hs
      rw [hs] at gb ib jb
      have hpar := h2 gb
      rw [hpar, ← ia] at ib
      rw [hpar, ← ja] at jb
      simp only [Item.in0, Item.in1, Item.swap, List.cons.injEq, Val.arith.injEq, and_true] at ib jb
      exact ⟨ib, jb⟩
  obtain ⟨z0, z1, s0', s1', snd0, snd1, rcv0, rcv1, hrun, hrec, o1, o2, o3, o4, o5, o6, -⟩ :=
    mixed_layer_correct_partial hw ((intNodes l).map (itemOf m F0 F1))
      (by
        intro it hit
        obtain ⟨v, hv, rfl⟩ := List.mem_map.1 hit
        exact (hio v hv).2.2.2)
      hro (by rw [c1, c2]; exact hrcv) t0.1 t1.1 t0.2 t1.2 hset.bool.1 (le_trans (hlen _) hset.bool.2)
      hset.arith.1 (le_trans (hlen _) hset.arith.2) (by rw [c3]; exact hset.len.1)
      (by rw [c3]; exact hset.len.2) (by rw [c3]; exact hset.bits)
  have hin0 : ((intNodes l).map (itemOf m F0 F1)).flatMap Item.in0 =
      ((intNodes l).map fun v => (m.parents v).map F0).flatten := by
    rw [List.flatMap_map, List.flatMap_def]
    congr 1
    exact List.map_congr_left fun v hv => (hio v hv).2.1
  have hin1 : ((intNodes l).map (itemOf m F0 F1)).flatMap Item.in1 =
      ((intNodes l).map fun v => (m.parents v).map F1).flatten := by
    rw [List.flatMap_map, List.flatMap_def]
    congr 1
    exact List.map_congr_left fun v hv => (hio v hv).2.2.1
  have hgg : ((intNodes l).map (itemOf m F0 F1)).map Item.gate = gs := by
    rw [hgs', List.map_map]; rfl
  rw [hin0, hin1, hgg] at hrun
  simp only [runLayer, Option.bind_eq_bind, Option.bind_eq_some_iff, Option.some.injEq] at hrun
  obtain ⟨⟨a0, u0⟩, e0, ⟨a1, u1⟩, e1, r0, f0, r1, f1, hr⟩ := hrun
  simp only [Prod.mk.injEq] at hr
  obtain ⟨rfl, rfl⟩ := hr
  refine ⟨z0, z1, a0, a1, ⟨(t0.1, u0), (t1.1, u1), (t0.1, s0'), (t1.1, s1'), ?_, ?_, ?_, ?_⟩, hrec, snd0, snd1,
    rcv0, rcv1, o1, o2, o3, o4, o5, o6⟩
  · simp [mixed, e0]
  · simp [mixed, e1]
  · simp [mixed, f0]
  · simp [mixed, f1]

theorem layerEq_unique {G S V M MS T : Type} [GateLike G] {pr : Protocol G S V M MS T} {m : Multi G}
    {init0 init1 : Node → S} {vs : List Node} {gs : List G} {t0 t1 : T} {F0 F1 : Node → S}
    {z0 z1 y0 y1 : List S} {a0 a1 b0 b1 : M}
    (h : LayerEq pr m init0 init1 vs gs t0 t1 F0 F1 z0 z1 a0 a1)
    (h' : LayerEq pr m init0 init1 vs gs t0 t1 F0 F1 y0 y1 b0 b1) : z0 = y0 ∧ z1 = y1 := by
  obtain ⟨_, _, _, _, h1, h2, h3, h4⟩ := h
  obtain ⟨_, _, _, _, k1, k2, k3, k4⟩ := h'
  rw [h1] at k1
  cases k1
  rw [h2] at k2
  cases k2
  rw [h3] at k3
  cases k3
  rw [h4] at k4
  cases k4
  exact ⟨rfl, rfl⟩

/-- Messages of a layer are not restricted. -/
def anyMsg {w : Nat} (_ : MLayer) (_ _ : Msg w × Option Unit) : Prop := True

/-- The inputs have the kinds of the input gates. -/
def InputTyped {w : Nat} (m : Multi (Gate w)) (ty : Node → Ty) (inp : List (Val w)) : Prop :=
  ∀ c0 : Base (Gate w), m.circs[0]? = some c0 → c0.inputGates.length = inp.length ∧
    ∀ (i g : Nat) (x : Val w), c0.inputGates[i]? = some g → inp[i]? = some x → ty (0, g) = x.ty

theorem find_input {w : Nat} {m : Multi (Gate w)} (hw : ExecWF m) {ty : Node → Ty} {inp : List (Val w)}
    (hin : InputTyped m ty inp) {v : Node} (hg : m.gate? v = some (.base .input)) :
    ∃ (c : Base (Gate w)) (i : Nat) (x : Val w), v.1 = 0 ∧ m.circs[0]? = some c ∧
      c.inputGates.findIdx? (· = v.2) = some i ∧ inp[i]? = some x ∧ ty v = x.ty := by
  obtain ⟨h0, c, hc, hm⟩ := hw.inputs v _ hg rfl
  cases hf : c.inputGates.findIdx? (· = v.2) with
  | none =>
    rw [List.findIdx?_eq_none_iff] at hf
    simpa using hf v.2 hm
  | some i =>
    obtain ⟨hi, hp, -⟩ := List.findIdx?_eq_some_iff_getElem.1 hf
    have hp : c.inputGates[i] = v.2 := by simpa using hp
    obtain ⟨hl, ht⟩ := hin c hc
    have hx : inp[i]? = some inp[i] := List.getElem?_eq_getElem (by omega)
    refine ⟨c, i, inp[i], h0, hc, hf, hx, ?_⟩
    have := ht i v.2 _ (by rw [← hp]; exact List.getElem?_eq_getElem hi) hx
    rw [← this, ← h0]

/-- Local gates can be evaluated on well-typed operands. -/
theorem progress_local {w : Nat} {m : Multi (Gate w)} (hwf : ExecWF m) {ty : Node → Ty}
    (hty : ∀ v g, m.gate? v = some g → Typed m ty v g) {inp xs0 xs1 : List (Val w)}
    (hin : InputTyped m ty inp) (hsh : InputShares xs0 xs1 inp) (init0 init1 : Node → Val w) (v : Node)
    (g : Gate w) (hg : m.gate? v = some g) (hi : interactive g = false) (F0 F1 : Node → Val w)
    (hR : ∀ u ∈ m.parents v, TyOk (ty u) (F0 u) (F1 u)) :
    ∃ z0 z1, LocalEq (mixed w) m 0 xs0 init0 F0 v g z0 ∧ LocalEq (mixed w) m 1 xs1 init1 F1 v g z1 ∧
      TyOk (ty v) z0 z1 := by
  have ht := hty v g hg
  have two : ∀ p q, m.parents v = [p, q] → TyOk (ty p) (F0 p) (F1 p) ∧ TyOk (ty q) (F0 q) (F1 q) := by
    intro p q hp
    exact ⟨hR p (by simp [hp]), hR q (by simp [hp])⟩
  have one : ∀ p, m.parents v = [p] → TyOk (ty p) (F0 p) (F1 p) := by
    intro p hp
    exact hR p (by simp [hp])
  cases g with
  | base b =>
    have wire : (∃ p, m.parents v = [p] ∧ ty v = ty p) → ∃ z0 z1, (m.parents v).map F0 = [z0] ∧
        (m.parents v).map F1 = [z1] ∧ TyOk (ty v) z0 z1 := by
      rintro ⟨p, hp, e⟩
      exact ⟨F0 p, F1 p, by simp [hp], by simp [hp], by rw [e]; exact one p hp⟩
    cases b with
    | input =>
      obtain ⟨c, i, x, -, hc, hf, hx, e⟩ := find_input hwf hin hg
      obtain ⟨x0, x1, h0, h1, h2⟩ := hsh.2.2 i x hx
      refine ⟨x0, x1, ⟨c, i, x0, hc, hf, h0, rfl⟩, ⟨c, i, x1, hc, hf, h1, rfl⟩, ?_⟩
      rw [e]
      exact (combine_ty h2).1
    | constant c =>
      refine ⟨_, _, rfl, rfl, ?_⟩
      simp only [Typed] at ht
      rw [ht]
      cases c <;> simp [mixed, shareConstant, Val.ty, TyOk]
    | connectToMainFromSimd k => exact absurd ht (by simp [Typed])
    | output =>
      obtain ⟨z0, z1, e0, e1, e⟩ := wire ht
      exact ⟨z0, z1, by simp [LocalEq, asBase, mixed, evalLocal, Gmw.BaseGate.defaultEvaluate, e0],
        by simp [LocalEq, asBase, mixed, evalLocal, Gmw.BaseGate.defaultEvaluate, e1], e⟩
    | subCircuitInput =>
      obtain ⟨z0, z1, e0, e1, e⟩ := wire ht
      exact ⟨z0, z1, by simp [LocalEq, asBase, mixed, evalLocal, Gmw.BaseGate.defaultEvaluate, e0],
        by simp [LocalEq, asBase, mixed, evalLocal, Gmw.BaseGate.defaultEvaluate, e1], e⟩
    | subCircuitOutput =>
      obtain ⟨z0, z1, e0, e1, e⟩ := wire ht
      exact ⟨z0, z1, by simp [LocalEq, asBase, mixed, evalLocal, Gmw.BaseGate.defaultEvaluate, e0],
        by simp [LocalEq, asBase, mixed, evalLocal, Gmw.BaseGate.defaultEvaluate, e1], e⟩
    | connectToMain =>
      obtain ⟨z0, z1, e0, e1, e⟩ := wire ht
      exact ⟨z0, z1, by simp [LocalEq, asBase, mixed, evalLocal, Gmw.BaseGate.defaultEvaluate, e0],
        by simp [LocalEq, asBase, mixed, evalLocal, Gmw.BaseGate.defaultEvaluate, e1], e⟩
    | identity =>
      obtain ⟨z0, z1, e0, e1, e⟩ := wire ht
      exact ⟨z0, z1, by simp [LocalEq, asBase, mixed, evalLocal, Gmw.BaseGate.defaultEvaluate, e0],
        by simp [LocalEq, asBase, mixed, evalLocal, Gmw.BaseGate.defaultEvaluate, e1], e⟩
    | debug =>
      obtain ⟨z0, z1, e0, e1, e⟩ := wire ht
      exact ⟨z0, z1, by simp [LocalEq, asBase, mixed, evalLocal, Gmw.BaseGate.defaultEvaluate, e0],
        by simp [LocalEq, asBase, mixed, evalLocal, Gmw.BaseGate.defaultEvaluate, e1], e⟩
  | bool g =>
    cases g with
    | base b => exact absurd ht (by simp [Typed])
    | and => simp [interactive, Gate.isInteractive, Gmw.BoolGate.isInteractive] at hi
    | xor =>
      obtain ⟨p, q, hp, t1, t2, t3⟩ := ht
      obtain ⟨h1, h2⟩ := two p q hp
      rw [t1] at h1
      rw [t2] at h2
      obtain ⟨a, b, e1, e2⟩ := tyOk_bool h1
      obtain ⟨c, d, e3, e4⟩ := tyOk_bool h2
      exact ⟨.bool (a ^^ c), .bool (b ^^ d),
        by simp [LocalEq, asBase, mixed, evalLocal, hp, e1, e3, Val.unwrapBool, Gmw.evalLocal],
        by simp [LocalEq, asBase, mixed, evalLocal, hp, e2, e4, Val.unwrapBool, Gmw.evalLocal],
        by rw [t3]; trivial⟩
    | inv =>
      obtain ⟨p, hp, t1, t3⟩ := ht
      have h1 := one p hp
      rw [t1] at h1
      obtain ⟨a, b, e1, e2⟩ := tyOk_bool h1
      exact ⟨.bool (!a), .bool b,
        by simp [LocalEq, asBase, mixed, evalLocal, hp, e1, Val.unwrapBool, Gmw.evalLocal],
        by simp [LocalEq, asBase, mixed, evalLocal, hp, e2, Val.unwrapBool, Gmw.evalLocal],
        by rw [t3]; trivial⟩
  | arith g =>
    obtain ⟨p, q, hp, t1, t2, t3⟩ := ht
    obtain ⟨h1, h2⟩ := two p q hp
    rw [t1] at h1
    rw [t2] at h2
    obtain ⟨a, b, e1, e2⟩ := tyOk_arith (by decide) h1
    obtain ⟨c, d, e3, e4⟩ := tyOk_arith (by decide) h2
    cases g with
    | mul => simp [interactive, Gate.isInteractive] at hi
    | add =>
      exact ⟨.arith (a + c), .arith (b + d),
        by simp [LocalEq, asBase, mixed, evalLocal, hp, e1, e3, Val.unwrapArith, Arith.evalLocal],
        by simp [LocalEq, asBase, mixed, evalLocal, hp, e2, e4, Val.unwrapArith, Arith.evalLocal],
        by rw [t3]; trivial⟩
    | sub =>
      exact ⟨.arith (a - c), .arith (b - d),
        by simp [LocalEq, asBase, mixed, evalLocal, hp, e1, e3, Val.unwrapArith, Arith.evalLocal],
        by simp [LocalEq, asBase, mixed, evalLocal, hp, e2, e4, Val.unwrapArith, Arith.evalLocal],
        by rw [t3]; trivial⟩
  | conv g =>
    cases g with
    | select =>
      obtain ⟨s, r, p, hp, ps, pr, hsr, t3⟩ := ht
      obtain ⟨h1, h2⟩ := two s r hp
      have half : ∀ u, (m.gate? u = some (.conv .snd) ∨ m.gate? u = some (.conv .rcv)) → ty u = .half := by
        intro u hu
        rcases hu with hu | hu
        · obtain ⟨_, _, _, e⟩ := hty u _ hu; exact e
        · obtain ⟨_, _, _, e⟩ := hty u _ hu; exact e
      have ts : ty s = .half := half s (by rcases hsr with h | h <;> simp [h.1])
      have tr : ty r = .half := half r (by rcases hsr with h | h <;> simp [h.2])
      rw [ts] at h1
      rw [tr] at h2
      obtain ⟨a, b, e1, e2⟩ := tyOk_arith (by decide) h1
      obtain ⟨c, d, e3, e4⟩ := tyOk_arith (by decide) h2
      exact ⟨.arith a, .arith d, by simp [LocalEq, asBase, mixed, evalLocal, hp, e1],
        by simp [LocalEq, asBase, mixed, evalLocal, hp, e4], by rw [t3]; trivial⟩
    | selectBit i =>
      obtain ⟨p, hp, t1, hlt, t3⟩ := ht
      have h1 := one p hp
      rw [t1] at h1
      obtain ⟨a, b, e1, e2⟩ := tyOk_arith (by decide) h1
      exact ⟨.bool (a.getLsbD i), .bool (b.getLsbD i),
        by simp [LocalEq, asBase, mixed, evalLocal, hp, e1, getBit_eq _ _ hlt],
        by simp [LocalEq, asBase, mixed, evalLocal, hp, e2, getBit_eq _ _ hlt], by rw [t3]; trivial⟩
    | snd => simp [interactive, Gate.isInteractive] at hi
    | rcv => simp [interactive, Gate.isInteractive] at hi
    | b2a => simp [interactive, Gate.isInteractive] at hi

/-! ### Values -/

/-- The share of party 0 of a ring element. -/
def partOf {w : Nat} (F0 : Node → Val w) (p : Node) : BitVec w :=
  match F0 p with
  | .arith r => r
  | .bool _ => 0

/-- The gates of a layer have the right values. -/
theorem layer_values {w : Nat} {m : Multi (Gate w)} {ty : Node → Ty}
    (hty : ∀ v g, m.gate? v = some g → Typed m ty v g) {inp : List (Val w)} {F0 F1 : Node → Val w}
    {vs : List Node} {v : Node} (hv : v ∈ vs) {g : Gate w} (hg : m.gate? v = some g)
    (hi : interactive g = true) (hR : ∀ u ∈ m.parents v, TyOk (ty u) (F0 u) (F1 u))
    (h : LayerGood m vs F0 F1 (vs.map F0) (vs.map F1)) :
    MixedEq m inp (fun u => valOf (ty u) (F0 u) (F1 u)) (partOf F0) v g := by
  have hgood := reconstructs_map h.1 v hv
  have ht := hty v g hg
  obtain ⟨i1, i2, i3, -⟩ := itemOf_ok hg hi ht hR
  generalize itemOf m F0 F1 v = it at hgood i1 i2 i3
  have two : ∀ p q, m.parents v = [p, q] → TyOk (ty p) (F0 p) (F1 p) ∧ TyOk (ty q) (F0 q) (F1 q) := by
    intro p q hp
    exact ⟨hR p (by simp [hp]), hR q (by simp [hp])⟩
  cases it with
  | and x0 y0 x1 y1 =>
    subst i1
    obtain ⟨p, q, hp, t1, t2, t3⟩ := ht
    rw [hp] at i2 i3
    simp only [Item.in0, Item.in1, Item.swap, List.map_cons, List.map_nil, List.cons.injEq, and_true] at i2 i3
    obtain ⟨a, b, e0, e1⟩ : ∃ a b, F0 v = .bool a ∧ F1 v = .bool b := by
      revert hgood; cases F0 v <;> cases F1 v <;> simp [Item.Good]
    rw [e0, e1] at hgood
    refine ⟨p, q, x0 ^^ x1, y0 ^^ y1, hp, ?_, ?_, ?_⟩
    · simp [← i2.1, ← i3.1, valOf]
    · simp [← i2.2, ← i3.2, valOf]
    · simp only [e0, e1, valOf]
      rw [show (a ^^ b) = _ from hgood]
  | mul x0 y0 x1 y1 =>
    subst i1
    obtain ⟨p, q, hp, t1, t2, t3⟩ := ht
    rw [hp] at i2 i3
    simp only [Item.in0, Item.in1, Item.swap, List.map_cons, List.map_nil, List.cons.injEq, and_true] at i2 i3
    obtain ⟨a, b, e0, e1⟩ : ∃ a b, F0 v = .arith a ∧ F1 v = .arith b := by
      revert hgood; cases F0 v <;> cases F1 v <;> simp [Item.Good]
    rw [e0, e1] at hgood
    refine ⟨p, q, x0 + x1, y0 + y1, hp, ?_, ?_, ?_⟩
    · simp [← i2.1, ← i3.1, valOf, t1]
    · simp [← i2.2, ← i3.2, valOf, t2]
    · simp only [e0, e1, valOf, t3]
      rw [show a + b = _ from hgood]
  | snd r0 r1 => subst i1; trivial
  | rcv r0 r1 => subst i1; trivial
  | b2a x0 x1 =>
    subst i1
    obtain ⟨hl, hb, t3⟩ := ht
    obtain ⟨a, b, e0, e1⟩ : ∃ a b, F0 v = .arith a ∧ F1 v = .arith b := by
      revert hgood; cases F0 v <;> cases F1 v <;> simp [Item.Good]
    rw [e0, e1] at hgood
    simp only [Item.in0, Item.in1, Item.swap] at i2 i3
    refine ⟨Gmw.xorL x0 x1, ?_, ?_⟩
    · apply List.ext_getElem?
      intro i
      have j2 := congrArg (fun l => l[i]?) i2
      have j3 := congrArg (fun l => l[i]?) i3
      simp only [List.getElem?_map, Gmw.xorL, List.getElem?_zipWith] at j2 j3 ⊢
      cases hu : (m.parents v)[i]? with
      | none =>
        rw [hu] at j2 j3
        cases hx : x0[i]? with
        | none => simp
        | some x => simp [hx] at j2
      | some u =>
        rw [hu] at j2 j3
        cases hx : x0[i]? with
        | none => simp [hx] at j2
        | some x =>
          cases hy : x1[i]? with
          | none => simp [hy] at j3
          | some y =>
            rw [hx] at j2
            rw [hy] at j3
            simp only [Option.map_some, Option.some.injEq] at j2 j3
            simp [← j2, ← j3, valOf]
    · simp only [e0, e1, valOf, t3]
      rw [show a + b = _ from hgood]

theorem eq_singleton_of_count {α : Type} {l : List α} {p : α → Bool} {a : α} (ha : a ∈ l) (hp : p a = true)
    (hc : l.countP p ≤ 1) : l.filter p = [a] := by
  have hm : a ∈ l.filter p := List.mem_filter.2 ⟨ha, hp⟩
  rw [List.countP_eq_length_filter] at hc
  match hf : l.filter p, hm, hc with
  | [b], hm, _ => simp at hm; rw [hm]
  | b :: c :: t, _, hc => simp at hc

theorem sndShares_map {w : Nat} {m : Multi (Gate w)} (vs : List Node) (f : Node → Item w) :
    sndShares (vs.map f) = ((vs.filter fun v => (f v).isSnd).map fun v =>
      match f v with
      | .snd r0 _ => r0
      | _ => 0) := by
  induction vs with
  | nil => rfl
  | cons v vs ih =>
    rw [List.map_cons, List.filter_cons]
    cases hf : f v <;> simp [sndShares, Item.isSnd, ih, hf]

theorem singleton_arith {w : Nat} {x : Val w} {l : List (BitVec w)} (h : [x] = l.map .arith) :
    ∃ a, l = [a] ∧ x = .arith a := by
  match l, h with
  | [a], h =>
    simp only [List.map_cons, List.map_nil, List.cons.injEq, and_true] at h
    exact ⟨a, rfl, h⟩

/-- The two resharing gates of one operand in a layer with one conversion. -/
theorem layer_pair {w : Nat} {m : Multi (Gate w)} {ty : Node → Ty}
    (hty : ∀ v g, m.gate? v = some g → Typed m ty v g) {F0 F1 : Node → Val w} {l : MLayer}
    (hint : ∀ v ∈ intNodes l, ∃ g, m.gate? v = some g ∧ interactive g = true)
    (hR : ∀ v ∈ intNodes l, ∀ u ∈ m.parents v, TyOk (ty u) (F0 u) (F1 u))
    (hone : countG m l (.conv .snd) ≤ 1) (hrcv : countG m l (.conv .rcv) ≤ countG m l (.conv .snd))
    (h : LayerGood m (intNodes l) F0 F1 ((intNodes l).map F0) ((intNodes l).map F1))
    {s r p : Node} (hs : s ∈ intNodes l) (hr : r ∈ intNodes l) (gs : m.gate? s = some (.conv .snd))
    (gr : m.gate? r = some (.conv .rcv)) (ps : m.parents s = [p]) :
    ∃ a0 a1 b0 b1 r0 r1, F0 s = .arith a0 ∧ F1 s = .arith a1 ∧ F0 r = .arith b0 ∧ F1 r = .arith b1 ∧
      F0 p = .arith r0 ∧ F1 p = .arith r1 ∧ a0 ^^^ b1 = r0 ∧ a1 ^^^ b0 = r1 := by
  have hgate : ∀ v ∈ intNodes l, m.gate? v = some (itemOf m F0 F1 v).gate := by
    intro v hv
    obtain ⟨g, hg, hi⟩ := hint v hv
    rw [(itemOf_ok hg hi (hty v g hg) (hR v hv)).1]
    exact hg
  have hfil : ∀ (q : Item w → Bool) (g : Gate w), (∀ it, q it = decide (it.gate = g)) →
      ((intNodes l).filter fun v => q (itemOf m F0 F1 v)) =
        (intNodes l).filter fun v => m.gate? v = some g := by
    intro q g hq
    apply List.filter_congr
    intro v hv
    simp [hq, hgate v hv]
  have f1 : ((intNodes l).filter fun v => (itemOf m F0 F1 v).isSnd) = [s] := by
    rw [hfil _ _ isSnd_iff]
    exact eq_singleton_of_count hs (by simp [gs]) hone
  have f2 : ((intNodes l).filter fun v => (itemOf m F0 F1 v).isRcv) = [r] := by
    rw [hfil _ _ isRcv_iff]
    exact eq_singleton_of_count hr (by simp [gr]) (le_trans hrcv hone)
  have hcr : ((intNodes l).map (itemOf m F0 F1)).countP Item.isRcv = 1 := by
    rw [List.countP_map, List.countP_eq_length_filter]
    exact congrArg List.length f2
  obtain ⟨-, snd0, snd1, rcv0, rcv1, o1, o2, o3, o4, o5, o6⟩ := h
  rw [outsAt_map, f1] at o1 o2
  rw [outsAt_map, f2] at o3 o4
  have hrs := hR s hs p (by simp [ps])
  obtain ⟨p', hp', tp, -⟩ := hty s _ gs
  rw [ps] at hp'
  cases hp'
  rw [tp] at hrs
  obtain ⟨r0, r1, e0, e1⟩ := tyOk_arith (by decide) hrs
  have hits : itemOf m F0 F1 s = .snd r0 r1 := by
    simp [itemOf, gs, ps, e0, e1]
  have hsw : ((intNodes l).map (itemOf m F0 F1)).map Item.swap =
      (intNodes l).map fun v => (itemOf m F0 F1 v).swap := by
    rw [List.map_map]; rfl
  rw [hcr, sndShares_map (m := m), f1] at o5
  rw [hcr, hsw, sndShares_map (m := m)] at o6
  simp only [isSnd_swap, f1] at o6
  simp only [List.map_cons, List.map_nil, hits, Item.swap, List.take_succ_cons, List.take_zero] at o1 o2 o3 o4 o5 o6
  obtain ⟨a0, rfl, q1⟩ := singleton_arith o1
  obtain ⟨a1, rfl, q2⟩ := singleton_arith o2
  obtain ⟨b0, rfl, q3⟩ := singleton_arith o3
  obtain ⟨b1, rfl, q4⟩ := singleton_arith o4
  simp only [List.zipWith_cons_cons, List.zipWith_nil_left, List.cons.injEq, and_true] at o5 o6
  exact ⟨a0, a1, b0, b1, r0, r1, q1, q2, q3, q4, e0, e1, o5, o6⟩

/-- The local gates have the right values. -/
theorem local_values {w : Nat} {m : Multi (Gate w)} (hwf : ExecWF m) {ty : Node → Ty}
    (hty : ∀ v g, m.gate? v = some g → Typed m ty v g) {inp xs0 xs1 : List (Val w)}
    (hin : InputTyped m ty inp) (hsh : InputShares xs0 xs1 inp) {init0 init1 : Node → Val w} {v : Node}
    {g : Gate w} (hg : m.gate? v = some g) (hi : interactive g = false) {F0 F1 : Node → Val w}
    (hR : ∀ u ∈ m.parents v, TyOk (ty u) (F0 u) (F1 u))
    (hpair : ∀ s r p, (m.parents v = [s, r] ∨ m.parents v = [r, s]) → g = .conv .select →
      m.gate? s = some (.conv .snd) → m.gate? r = some (.conv .rcv) → m.parents s = [p] →
      ∃ a0 a1 b0 b1 r0 r1, F0 s = .arith a0 ∧ F1 s = .arith a1 ∧ F0 r = .arith b0 ∧ F1 r = .arith b1 ∧
      F0 p = .arith r0 ∧ F1 p = .arith r1 ∧ a0 ^^^ b1 = r0 ∧ a1 ^^^ b0 = r1)
    (h0 : LocalEq (mixed w) m 0 xs0 init0 F0 v g (F0 v)) (h1 : LocalEq (mixed w) m 1 xs1 init1 F1 v g (F1 v)) :
    MixedEq m inp (fun u => valOf (ty u) (F0 u) (F1 u)) (partOf F0) v g := by
  have ht := hty v g hg
  have two : ∀ p q, m.parents v = [p, q] → TyOk (ty p) (F0 p) (F1 p) ∧ TyOk (ty q) (F0 q) (F1 q) := by
    intro p q hp
    exact ⟨hR p (by simp [hp]), hR q (by simp [hp])⟩
  have one : ∀ p, m.parents v = [p] → TyOk (ty p) (F0 p) (F1 p) := by
    intro p hp
    exact hR p (by simp [hp])
  cases g with
  | base b =>
    have wire : (∃ p, m.parents v = [p] ∧ ty v = ty p) → some (F0 v) = ((m.parents v).map F0).head? →
        some (F1 v) = ((m.parents v).map F1).head? → ∃ p, m.parents v = [p] ∧
        valOf (ty v) (F0 v) (F1 v) = valOf (ty p) (F0 p) (F1 p) := by
      rintro ⟨p, hp, e⟩ e0 e1
      rw [hp] at e0 e1
      simp only [List.map_cons, List.head?_cons, Option.some.injEq] at e0 e1
      exact ⟨p, hp, by rw [e0, e1, e]⟩
    cases b with
    | input =>
      obtain ⟨c, i, x, -, hc, hf, hx, e⟩ := find_input hwf hin hg
      obtain ⟨x0, x1, k0, k1, k2⟩ := hsh.2.2 i x hx
      obtain ⟨c', i', y0, j1, j2, j3, j4⟩ := h0
      obtain ⟨c'', i'', y1, l1, l2, l3, l4⟩ := h1
      rw [hc] at j1 l1
      cases j1
      cases l1
      rw [hf] at j2 l2
      cases j2
      cases l2
      rw [k0] at j3
      rw [k1] at l3
      cases j3
      cases l3
      simp only [mixed, evalLocal, Gmw.BaseGate.defaultEvaluate, List.head?_cons, Option.some.injEq] at j4 l4
      refine ⟨c, i, hc, hf, ?_⟩
      beta_reduce
      rw [hx, ← j4, ← l4, e, (combine_ty k2).2]
    | constant c =>
      simp only [LocalEq, asBase, mixed] at h0 h1
      simp only [Typed] at ht
      show valOf (ty v) (F0 v) (F1 v) = c
      rw [h0, h1, ht]
      exact (combine_ty (mixed_local_correct.1 c)).2
    | connectToMainFromSimd k => exact absurd ht (by simp [Typed])
    | output =>
      simp only [LocalEq, asBase, mixed, evalLocal, Gmw.BaseGate.defaultEvaluate] at h0 h1
      exact wire ht h0.symm h1.symm
    | subCircuitInput =>
      simp only [LocalEq, asBase, mixed, evalLocal, Gmw.BaseGate.defaultEvaluate] at h0 h1
      exact wire ht h0.symm h1.symm
    | subCircuitOutput =>
      simp only [LocalEq, asBase, mixed, evalLocal, Gmw.BaseGate.defaultEvaluate] at h0 h1
      exact wire ht h0.symm h1.symm
    | connectToMain =>
      simp only [LocalEq, asBase, mixed, evalLocal, Gmw.BaseGate.defaultEvaluate] at h0 h1
      exact wire ht h0.symm h1.symm
    | identity =>
      simp only [LocalEq, asBase, mixed, evalLocal, Gmw.BaseGate.defaultEvaluate] at h0 h1
      exact wire ht h0.symm h1.symm
    | debug =>
      simp only [LocalEq, asBase, mixed, evalLocal, Gmw.BaseGate.defaultEvaluate] at h0 h1
      exact wire ht h0.symm h1.symm
  | bool g =>
    cases g with
    | base b => exact absurd ht (by simp [Typed])
    | and => simp [interactive, Gate.isInteractive, Gmw.BoolGate.isInteractive] at hi
    | xor =>
      obtain ⟨p, q, hp, t1, t2, t3⟩ := ht
      obtain ⟨k1, k2⟩ := two p q hp
      rw [t1] at k1
      rw [t2] at k2
      obtain ⟨a, b, e1, e2⟩ := tyOk_bool k1
      obtain ⟨c, d, e3, e4⟩ := tyOk_bool k2
      simp [LocalEq, asBase, mixed, evalLocal, hp, e1, e3, Val.unwrapBool, Gmw.evalLocal] at h0
      simp [LocalEq, asBase, mixed, evalLocal, hp, e2, e4, Val.unwrapBool, Gmw.evalLocal] at h1
      refine ⟨p, q, a ^^ b, c ^^ d, hp, by simp [e1, e2, valOf], by simp [e3, e4, valOf], ?_⟩
      simp only [← h0, ← h1, valOf, Val.bool.injEq]
      cases a <;> cases b <;> cases c <;> cases d <;> rfl
    | inv =>
      obtain ⟨p, hp, t1, t3⟩ := ht
      have k1 := one p hp
      rw [t1] at k1
      obtain ⟨a, b, e1, e2⟩ := tyOk_bool k1
      simp [LocalEq, asBase, mixed, evalLocal, hp, e1, Val.unwrapBool, Gmw.evalLocal] at h0
      simp [LocalEq, asBase, mixed, evalLocal, hp, e2, Val.unwrapBool, Gmw.evalLocal] at h1
      refine ⟨p, a ^^ b, hp, by simp [e1, e2, valOf], ?_⟩
      simp only [← h0, ← h1, valOf, Val.bool.injEq]
      cases a <;> cases b <;> rfl
  | arith g =>
    obtain ⟨p, q, hp, t1, t2, t3⟩ := ht
    obtain ⟨k1, k2⟩ := two p q hp
    rw [t1] at k1
    rw [t2] at k2
    obtain ⟨a, b, e1, e2⟩ := tyOk_arith (by decide) k1
    obtain ⟨c, d, e3, e4⟩ := tyOk_arith (by decide) k2
    cases g with
    | mul => simp [interactive, Gate.isInteractive] at hi
    | add =>
      simp [LocalEq, asBase, mixed, evalLocal, hp, e1, e3, Val.unwrapArith, Arith.evalLocal] at h0
      simp [LocalEq, asBase, mixed, evalLocal, hp, e2, e4, Val.unwrapArith, Arith.evalLocal] at h1
      refine ⟨p, q, a + b, c + d, hp, by simp [e1, e2, valOf, t1], by simp [e3, e4, valOf, t2], ?_⟩
      simp only [← h0, ← h1, valOf, t3, Val.arith.injEq]
      ring
    | sub =>
      simp [LocalEq, asBase, mixed, evalLocal, hp, e1, e3, Val.unwrapArith, Arith.evalLocal] at h0
      simp [LocalEq, asBase, mixed, evalLocal, hp, e2, e4, Val.unwrapArith, Arith.evalLocal] at h1
      refine ⟨p, q, a + b, c + d, hp, by simp [e1, e2, valOf, t1], by simp [e3, e4, valOf, t2], ?_⟩
      simp only [← h0, ← h1, valOf, t3, Val.arith.injEq]
      ring
  | conv g =>
    cases g with
    | select =>
      obtain ⟨s, r, p, hp, ps, pr, hsr, t3⟩ := ht
      simp [LocalEq, asBase, mixed, evalLocal, hp] at h0 h1
      rcases hsr with ⟨gs, gr⟩ | ⟨gs, gr⟩
      · obtain ⟨a0, a1, b0, b1, r0, r1, e1, e2, e3, e4, e5, e6, e7, e8⟩ := hpair s r p (.inl hp) rfl gs gr ps
        obtain ⟨p', hp', tp, -⟩ := hty s _ gs
        rw [ps] at hp'
        cases hp'
        refine ⟨s, r, p, r0 + r1, hp, ps, by simp [e5, e6, valOf, tp], ?_⟩
        simp [gs, ← h0, ← h1, e1, e4, valOf, t3, partOf, e5, e7]
      · obtain ⟨a0, a1, b0, b1, r0, r1, e1, e2, e3, e4, e5, e6, e7, e8⟩ := hpair r s p (.inr hp) rfl gr gs pr
        obtain ⟨p', hp', tp, -⟩ := hty s _ gs
        rw [ps] at hp'
        cases hp'
        refine ⟨s, r, p, r0 + r1, hp, ps, by simp [e5, e6, valOf, tp], ?_⟩
        simp only [gs, ← h0, ← h1, e3, e2, valOf, t3, partOf, e5]
        rw [if_neg (by simp), BitVec.xor_comm, e8]
        congr 1
        ring
    | selectBit i =>
      obtain ⟨p, hp, t1, hlt, t3⟩ := ht
      have k1 := one p hp
      rw [t1] at k1
      obtain ⟨a, b, e1, e2⟩ := tyOk_arith (by decide) k1
      simp [LocalEq, asBase, mixed, evalLocal, hp, e1, getBit_eq _ _ hlt] at h0
      simp [LocalEq, asBase, mixed, evalLocal, hp, e2, getBit_eq _ _ hlt] at h1
      refine ⟨p, a ^^^ b, hp, by simp [e1, e2, valOf, t1], ?_⟩
      simp [← h0, ← h1, valOf]
    | snd => simp [interactive, Gate.isInteractive] at hi
    | rcv => simp [interactive, Gate.isInteractive] at hi
    | b2a => simp [interactive, Gate.isInteractive] at hi

/-- **C62.** Both parties execute a circuit of the mixed protocol on shares of the input: they terminate under
every schedule, the values behind the shares of all gates satisfy the plaintext equations of the gates,
including the conversions, and the outputs are shares of the values of the output gates.

Missing: more than one `a2b` conversion in a layer and `B2A` gates behind a conversion in a layer
(`LayersCond`, see `two_a2b_in_one_layer` and `b2a_after_rcv_panics`); multiplications with triples other than
those of `GoodTriple` (C07); `B2A` gates beyond the first of a layer unless their shared bits agree with those
of the first (`second_b2a_wrong`). -/
theorem mixed_execute_correct_partial {w : Nat} (hw : 0 < w) (m : Multi (Gate w)) (rank : Node → Nat)
    (wf : WF m rank) (ew : ExecWF m) (hsc : ∀ i, isSimd m i = false) (ty : Node → Ty)
    (hty : ∀ v g, m.gate? v = some g → Typed m ty v g) (inp xs0 xs1 : List (Val w))
    (hin : InputTyped m ty inp) (hsh : InputShares xs0 xs1 inp)
    (setup0 setup1 : Nat → Nat → (Nat → BitVec w) × Setup w) (init0 init1 : Store (Val w) (List (Val w)))
    (hls : ∀ it ls, MIter.new m = some it →
      MIter.collect m ((m.circs.map fun c => c.gates.length).sum + 1) it = some ls →
      LayersCond m ls ∧ ∀ (k : Nat) (l : MLayer), (interactiveLayers m ls)[k]? = some l →
        SetupOk (intNodes l).length (countG m l (.conv .b2a)) (setup0 k (intCount m l)).2
          (setup1 k (intCount m l)).2)
    (c0 : Base (Gate w)) (hc0 : m.circs[0]? = some c0) :
    ∃ (o0 o1 : List (Val w)) (val : Node → Val w) (part : Node → BitVec w),
      Runs (execute (mixed w) m 0 (.scalar xs0) setup0 init0) (execute (mixed w) m 1 (.scalar xs1) setup1 init1)
        (.scalar o0) (.scalar o1) ∧
      (∀ v g, m.gate? v = some g → MixedEq m inp val part v g) ∧
      o0.length = c0.outputGates.length ∧ o1.length = c0.outputGates.length ∧
      ∀ (i g : Nat), c0.outputGates[i]? = some g → (ty (0, g) = .bool ∨ ty (0, g) = .arith) →
        ∃ x0 x1, o0[i]? = some x0 ∧ o1[i]? = some x1 ∧ combine x0 x1 = some (val (0, g)) := by
  obtain ⟨it, ls, e1, e2, ok⟩ := layers_ok_partial m rank wf
  obtain ⟨lc, hset⟩ := hls it ls e1 e2
  have hprog : Progress (mixed w) m xs0 xs1 setup0 setup1 init0.sc init1.sc anyMsg ls
      (fun v => TyOk (ty v)) := by
    refine ⟨?_, ?_⟩
    · intro v g hg hi F0 F1 hR
      exact progress_local ew hty hin hsh init0.sc init1.sc v g hg hi F0 F1 hR
    · intro k l hl gs hgs F0 F1 hR
      have hm := interactiveLayers_mem hl
      obtain ⟨z0, z1, a0, a1, he, hgood⟩ := layer_spec hw hty (ok.inter l hm) (lc.order l hm) (lc.rcv l hm) hR
        le_rfl (hset k l hl) hgs init0.sc init1.sc
      obtain ⟨n0, n1, hi⟩ := reconstructs_ok hgood.1
      refine ⟨z0, z1, a0, a1, he, trivial, n0, n1, ?_⟩
      intro i v x0 x1 hv h0 h1
      have hmv := List.mem_of_getElem? hv
      obtain ⟨g, hg, hgi⟩ := ok.inter l hm v hmv
      exact good_tyOk (hty v g hg) (itemOf_ok hg hgi (hty v g hg) (hR v hmv)).1 (hi i v x0 x1 hv h0 h1)
  obtain ⟨F0, F1, hj, hR⟩ := joint_exists ok hsc hprog
  have hpv : ∀ v g, m.gate? v = some g → ∀ u ∈ m.parents v, TyOk (ty u) (F0 u) (F1 u) := by
    intro v g hg u hu
    apply hR
    have hv := (ok.all v).2 (valid_of_gate hg)
    exact (ok.all u).1 (topo_closed ok.topo (by simp) v (by simpa using hv) u hu)
  have hlay : ∀ l ∈ ls, (intNodes l) ≠ [] → LayerGood m (intNodes l) F0 F1 ((intNodes l).map F0)
      ((intNodes l).map F1) := by
    intro l hl hne
    have hmem : l ∈ interactiveLayers m ls := by
      refine List.mem_filter.2 ⟨hl, ?_⟩
      rw [intCount_scalar hsc]
      simpa using hne
    obtain ⟨k, hk⟩ := List.mem_iff_getElem?.1 hmem
    obtain ⟨gs, hgs⟩ := mapM_some (f := m.gate?) (intNodes l) fun v hv => by
      obtain ⟨g, hg, -⟩ := ok.inter l hl v hv
      exact ⟨g, hg⟩
    have hRl : ∀ v ∈ intNodes l, ∀ u ∈ m.parents v, TyOk (ty u) (F0 u) (F1 u) := by
      intro v hv
      obtain ⟨g, hg, -⟩ := ok.inter l hl v hv
      exact hpv v g hg
    obtain ⟨a0, a1, he, -⟩ := hj.layer k l hk gs hgs
    obtain ⟨z0, z1, b0, b1, he', hgood⟩ := layer_spec hw hty (ok.inter l hl) (lc.order l hl) (lc.rcv l hl) hRl
      le_rfl (hset k l hk) hgs init0.sc init1.sc
    obtain ⟨rfl, rfl⟩ := layerEq_unique he he'
    exact hgood
  have hmem : ∀ v g, m.gate? v = some g → interactive g = true → ∃ l ∈ ls, v ∈ intNodes l := by
    intro v g hg hi
    obtain ⟨l, hl, hv⟩ := List.mem_flatMap.1 ((ok.all v).2 (valid_of_gate hg))
    rcases List.mem_append.1 hv with hv | hv
    · obtain ⟨g', hg', hi'⟩ := ok.local_ l hl v hv
      rw [hg] at hg'
      cases hg'
      rw [hi] at hi'
      cases hi'
    · exact ⟨l, hl, hv⟩
  have hRl : ∀ l ∈ ls, ∀ v ∈ intNodes l, ∀ u ∈ m.parents v, TyOk (ty u) (F0 u) (F1 u) := by
    intro l hl v hv
    obtain ⟨g, hg, -⟩ := ok.inter l hl v hv
    exact hpv v g hg
  obtain ⟨hil, -⟩ := hin c0 hc0
  have hx := execute_of_joint (V := List (Val w)) (MS := Unit) wf ew hsc rfl
    (by
      intro g hg
      cases g with
      | base b => rfl
      | _ => exact absurd rfl hg) e1 e2 hj c0 hc0 (by rw [hil, hsh.1]) (by rw [hil, hsh.2.1])
  refine ⟨_, _, fun u => valOf (ty u) (F0 u) (F1 u), partOf F0, hx.runs, ?_, by simp, by simp, ?_⟩
  · intro v g hg
    cases hi : interactive g with
    | true =>
      obtain ⟨l, hl, hv⟩ := hmem v g hg hi
      exact layer_values hty hv hg hi (hpv v g hg) (hlay l hl (List.ne_nil_of_mem hv))
    | false =>
      obtain ⟨h0, h1⟩ := hj.local_ v g hg hi
      refine local_values ew hty hin hsh hg hi (hpv v g hg) ?_ h0 h1
      intro s r p hp hgv gs gr ps
      subst hgv
      obtain ⟨l, hl, hs⟩ := hmem s _ gs rfl
      have hr : r ∈ intNodes l := by
        rcases hp with hp | hp
        · exact (lc.pair v hg s r hp l hl).1 hs
        · exact (lc.pair v hg r s hp l hl).2 hs
      exact layer_pair hty (ok.inter l hl) (hRl l hl) (lc.one l hl) (lc.rcv l hl)
        (hlay l hl (List.ne_nil_of_mem hs)) hs hr gs gr ps
  · intro i g hi ht
    refine ⟨F0 (0, g), F1 (0, g), by simp [hi], by simp [hi], ?_⟩
    have hv : m.Valid (0, g) := ew.outputsValid c0 hc0 g (List.mem_of_getElem? hi)
    have := hR (0, g) hv
    rcases ht with ht | ht
    · rw [ht] at this
      obtain ⟨a, b, e0, e1⟩ := tyOk_bool this
      simp [e0, e1, combine, valOf]
    · rw [ht] at this
      obtain ⟨a, b, e0, e1⟩ := tyOk_arith (by decide) this
      simp [e0, e1, combine, valOf, ht]

end Verif.Mixed
