import Verif.Exec.Generic
import Verif.Gmw.Props2

/-!
C08 for Boolean GMW: the instance of the executor, the plaintext meaning of circuits and the
correctness theorem.
-/
set_option autoImplicit false

namespace Verif.Exec

open Circuit Proc Gmw

/-- boolean_gmw.rs:48-266 `impl Protocol for BooleanGmw`. -/
def gmw : Protocol BoolGate Bool (List Bool) Msg SimdMsg (List Triple) where
  shareConstant p _ v := shareConstant p v
  evalLocal := evalLocal
  computeMsg _ gs _ xs t := (computeMsg gs xs t).map fun x => (x, t)
  evalInteractive p _ _ own other t := evaluateInteractive p own other t
  simd := true
  shareConstantSimd p _ v n := shareConstantSimd p v n
  evalLocalSimd := evalLocalSimd
  computeMsgSimd _ _ _ xs t := (computeMsgSimd xs t).map fun x => (x, t)
  evalInteractiveSimd p _ _ own other t := evaluateInteractiveSimd p own other t
  get v k := v[k]?
  collect := id
  empty := []

/-! ### Specification -/

/-- The plaintext equation of a gate in a scalar circuit. -/
def ScalarEq (m : Multi BoolGate) (inp : List Bool) (val : Node → Bool) (valV : Node → List Bool)
    (v : Node) : BoolGate → Prop
  | .base .input => ∃ c i, m.circs[0]? = some c ∧ c.inputGates.findIdx? (· = v.2) = some i ∧
      inp[i]? = some (val v)
  | .base (.constant b) => val v = b
  | .base (.connectToMainFromSimd k) => ∃ p, m.parents v = [p] ∧ (valV p)[k]? = some (val v)
  | .base _ => ∃ p, m.parents v = [p] ∧ val v = val p
  | .and => ∃ p q, m.parents v = [p, q] ∧ val v = (val p && val q)
  | .xor => ∃ p q, m.parents v = [p, q] ∧ val v = (val p ^^ val q)
  | .inv => ∃ p, m.parents v = [p] ∧ val v = !val p

/-- The plaintext equation of a gate in a simd circuit with `n` lanes. -/
def SimdEq (m : Multi BoolGate) (inp : List (List Bool)) (val : Node → Bool)
    (valV : Node → List Bool) (n : Nat) (v : Node) : BoolGate → Prop
  | .base .input => ∃ c i, m.circs[0]? = some c ∧ c.inputGates.findIdx? (· = v.2) = some i ∧
      inp[i]? = some (valV v)
  | .base (.constant b) => valV v = List.replicate n b
  | .base .subCircuitInput =>
      if isSimd m 0 then ∃ p, m.parents v = [p] ∧ valV v = valV p
      else valV v = (m.parents v).map val
  | .base (.connectToMainFromSimd _) => False
  | .base _ => ∃ p, m.parents v = [p] ∧ valV v = valV p
  | .and => ∃ p q, m.parents v = [p, q] ∧ valV v = andL (valV p) (valV q)
  | .xor => ∃ p q, m.parents v = [p, q] ∧ valV v = xorL (valV p) (valV q)
  | .inv => ∃ p, m.parents v = [p] ∧ valV v = (valV p).map (!·)

/-- The inputs of a scalar circuit. -/
def Input.scalars : Input Bool (List Bool) → List Bool
  | .scalar l => l
  | .simd _ => []

/-- The inputs of a simd circuit. -/
def Input.vectors : Input Bool (List Bool) → List (List Bool)
  | .scalar _ => []
  | .simd l => l

/-- `val`/`valV` are the plaintext values of all gates for the given input. -/
structure PlainEval (m : Multi BoolGate) (inp : Input Bool (List Bool)) (val : Node → Bool)
    (valV : Node → List Bool) : Prop where
  scalar : ∀ v g, m.gate? v = some g → isSimd m v.1 = false →
    ScalarEq m inp.scalars val valV v g
  simd : ∀ v g, m.gate? v = some g → isSimd m v.1 = true →
    SimdEq m inp.vectors val valV (lanes m v.1) v g
  /-- All values in a simd circuit have its number of lanes. -/
  lanes : ∀ v, m.Valid v → isSimd m v.1 = true → (valV v).length = lanes m v.1

/-- `a` and `b` are shares of `c`. -/
def Shares : Input Bool (List Bool) → Input Bool (List Bool) → Input Bool (List Bool) → Prop
  | .scalar a, .scalar b, .scalar c => a.length = c.length ∧ b.length = c.length ∧ xorL a b = c
  | .simd a, .simd b, .simd c => a.map List.length = c.map List.length ∧
      b.map List.length = c.map List.length ∧ List.zipWith xorL a b = c
  | _, _, _ => False

/-- The plaintext output of the main circuit. -/
def plainOutput (m : Multi BoolGate) (c : Base BoolGate) (val : Node → Bool)
    (valV : Node → List Bool) : Input Bool (List Bool) :=
  if isSimd m 0 then .simd (c.outputGates.map fun g => valV (0, g))
  else .scalar (c.outputGates.map fun g => val (0, g))

/-- The input has the type and length the main circuit expects. -/
def InputOk (m : Multi BoolGate) (c : Base BoolGate) : Input Bool (List Bool) → Prop
  | .scalar l => isSimd m 0 = false ∧ l.length = c.inputGates.length
  | .simd l => isSimd m 0 = true ∧ l.length = c.inputGates.length

/-- AND gates occur only in scalar circuits or only in simd circuits (see C05 for why). -/
def Unmixed (m : Multi BoolGate) : Prop :=
  (∀ v, m.gate? v = some .and → isSimd m v.1 = false) ∨
  (∀ v, m.gate? v = some .and → isSimd m v.1 = true)

/-- Rounding up to whole 64 bit words. -/
def words (n : Nat) : Nat := (n + 63) / 64 * 64

/-- The size of the message for a layer: one bit of `d` and `e` for every scalar AND gate, and one
for every lane of every simd AND gate, in whole words. -/
def MsgSize (m : Multi BoolGate) (l : MLayer) (msg : Msg × Option SimdMsg) : Prop :=
  msg.1.size = (intScalar m l).length ∧
  msg.1.d.length = words (intScalar m l).length ∧ msg.1.e.length = words (intScalar m l).length ∧
  ∃ b, msg.2 = some b ∧ b.simdSizes = (intSimd m l).map (fun v => Exec.lanes m v.1) ∧
    b.d.length = words (b.simdSizes.sum) ∧ b.e.length = words (b.simdSizes.sum)

/-! ### Proof -/

theorem padWords_length (l : List Bool) : (padWords l).length = words l.length := by
  simp only [padWords, List.length_append, List.length_replicate, words]
  omega

theorem computeMsg_size {n : Nat} {xs : List Bool} {mts : List Triple} {msg : Msg}
    (hx : xs.length = 2 * n) (hm : n ≤ mts.length)
    (h : computeMsg (List.replicate n .and) xs mts = some msg) :
    msg.size = n ∧ msg.d.length = words n ∧ msg.e.length = words n := by
  obtain ⟨r, hr, hl⟩ := computeMsgPairs_spec n mts.reverse xs hx (by simpa using hm)
  simp only [computeMsg, hr, Option.bind_eq_bind, Option.bind_some, Option.pure_def,
    Option.some.injEq] at h
  subst h
  simp [padWords_length, hl]

theorem computeMsgSimd_size {g : List (List Bool × List Bool)} {mts : List Triple} {msg : SimdMsg}
    (hg : ∀ p ∈ g, p.1.length = p.2.length)
    (h : computeMsgSimd (operandSeq g) mts = some msg) :
    msg.simdSizes = g.map (·.1.length) ∧ msg.d.length = words (msg.simdSizes.sum) ∧
      msg.e.length = words (msg.simdSizes.sum) := by
  have h1 : (g.map (·.1)).flatten.length = (g.map (·.1.length)).sum := by
    rw [List.length_flatten, List.map_map]; rfl
  have h2 : (g.map (·.2)).flatten.length = (g.map (·.1.length)).sum := by
    rw [List.length_flatten, List.map_map]
    congr 1
    exact List.map_congr_left fun p hp => (hg p hp).symm
  simp only [computeMsgSimd, chunkPairs_operandSeq g (fun p hp => (hg p hp).symm), Option.bind_eq_bind, Option.bind_some, Option.pure_def,
    Option.bind_eq_some_iff, Option.some.injEq] at h
  obtain ⟨⟨rest, used⟩, hs, rfl⟩ := h
  have hu : used.length = (g.map (·.1.length)).sum := by
    unfold splitOffLast at hs
    split at hs
    · simp only [Option.some.injEq, Prod.mk.injEq] at hs
      rw [← hs.2, List.length_drop, ← h2]; omega
    · cases hs
  simp [padWords_length, xorL, h1, h2, hu]

theorem xorL_getElem {a b c : List Bool} (h : xorL a b = c) {i : Nat} {x y : Bool}
    (hx : a[i]? = some x) (hy : b[i]? = some y) : c[i]? = some (x ^^ y) := by
  subst h; simp [xorL, List.getElem?_zipWith, hx, hy]

theorem scalar_operands (m : Multi BoolGate) (val : Node → Bool) (f0 f1 : Node → Bool)
    (vs : List Node)
    (hv : ∀ v ∈ vs, ∃ p q, m.parents v = [p, q] ∧ val v = (val p && val q))
    (hr : ∀ v ∈ vs, ∀ u ∈ m.parents v, (f0 u ^^ f1 u) = val u) :
    (vs.map fun v => (m.parents v).map f0).flatten.length = 2 * vs.length ∧
    (vs.map fun v => (m.parents v).map f1).flatten.length = 2 * vs.length ∧
    andPairs (xorL (vs.map fun v => (m.parents v).map f0).flatten
      (vs.map fun v => (m.parents v).map f1).flatten) = vs.map val := by
  induction vs with
  | nil => simp [xorL, andPairs]
  | cons v vs ih =>
    obtain ⟨i1, i2, i3⟩ := ih (fun w hw => hv w (List.mem_cons_of_mem _ hw))
      (fun w hw => hr w (List.mem_cons_of_mem _ hw))
    obtain ⟨p, q, hp, he⟩ := hv v List.mem_cons_self
    have hpq := hr v List.mem_cons_self
    rw [hp] at hpq
    have h1 := hpq p (by simp)
    have h2 := hpq q (by simp)
    simp only [List.map_cons, List.flatten_cons, hp, List.map_nil, List.length_append,
      List.length_cons, List.length_nil, i1, i2]
    refine ⟨by omega, by omega, ?_⟩
    simp only [xorL] at i3
    simp [xorL, andPairs, h1, h2, i3, he]

theorem simd_operands (m : Multi BoolGate) (valV : Node → List Bool) (f0 f1 : Node → List Bool)
    (n : Node → Nat) (vs : List Node)
    (hv : ∀ v ∈ vs, ∃ p q, m.parents v = [p, q] ∧ valV v = andL (valV p) (valV q) ∧
      (valV p).length = n v ∧ (valV q).length = n v)
    (hr : ∀ v ∈ vs, ∀ u ∈ m.parents v, (f0 u).length = (valV u).length ∧
      (f1 u).length = (valV u).length ∧ xorL (f0 u) (f1 u) = valV u) :
    ∃ g0 g1 : List (List Bool × List Bool),
      (vs.map fun v => (m.parents v).map f0).flatten = operandSeq g0 ∧
      (vs.map fun v => (m.parents v).map f1).flatten = operandSeq g1 ∧
      List.Forall₂ LanesOk g0 g1 ∧ g0.map (·.1.length) = vs.map n ∧
      List.zipWith (fun p q => andL (xorL p.1 q.1) (xorL p.2 q.2)) g0 g1 = vs.map valV := by
  induction vs with
  | nil => exact ⟨[], [], rfl, rfl, .nil, rfl, rfl⟩
  | cons v vs ih =>
    obtain ⟨g0, g1, e0, e1, hl, hn, hz⟩ := ih (fun w hw => hv w (List.mem_cons_of_mem _ hw))
      (fun w hw => hr w (List.mem_cons_of_mem _ hw))
    obtain ⟨p, q, hp, he, np, nq⟩ := hv v List.mem_cons_self
    have hpq := hr v List.mem_cons_self
    rw [hp] at hpq
    obtain ⟨a1, a2, a3⟩ := hpq p (by simp)
    obtain ⟨b1, b2, b3⟩ := hpq q (by simp)
    refine ⟨(f0 p, f0 q) :: g0, (f1 p, f1 q) :: g1, ?_, ?_, .cons ⟨?_, ?_, ?_⟩ hl, ?_, ?_⟩
    · simp only [List.map_cons, List.flatten_cons, hp, List.map_nil, e0]
      simp [operandSeq]
    · simp only [List.map_cons, List.flatten_cons, hp, List.map_nil, e1]
      simp [operandSeq]
    · simp only; omega
    · simp only; omega
    · simp only; omega
    · simp only [List.map_cons, hn]; rw [a1, np]
    · simp only [List.zipWith_cons_cons, List.map_cons, hz, a3, b3, he]

theorem intCount_eq (m : Multi BoolGate) (l : MLayer) :
    intCount m l = (intScalar m l).length + ((intSimd m l).map fun v => lanes m v.1).sum := by
  unfold intCount intScalar intSimd
  induction l with
  | nil => rfl
  | cons p l ih =>
    rw [List.map_cons, List.sum_cons, ih]
    by_cases h : isSimd m p.1 = true
    · simp only [List.filter_cons, h, Bool.not_true, Bool.false_eq_true, if_false, if_true,
        List.flatMap_cons, List.map_append, List.sum_append, List.map_map]
      have : (p.2.int.map ((fun v : Node => lanes m v.1) ∘ fun g => (p.1, g))).sum =
          lanes m p.1 * p.2.int.length := by
        simp [Function.comp_def, Nat.mul_comm]
      rw [this]; omega
    · have h' : isSimd m p.1 = false := by simpa using h
      have hl : lanes m p.1 = 1 := by
        unfold isSimd at h'
        unfold lanes
        cases hc : m.circs[p.1]? with
        | none => rfl
        | some c =>
          rw [hc] at h'
          simp only [Option.isSome_eq_false_iff, Option.isNone_iff_eq_none] at h'
          simp [h']
      simp only [List.filter_cons, h', Bool.not_false, if_true, Bool.false_eq_true, if_false,
        List.flatMap_cons, List.length_append, List.length_map, hl, one_mul]
      omega

theorem mapM_gates_and (m : Multi BoolGate) (vs : List Node) (gs : List BoolGate)
    (h : ∀ v ∈ vs, m.gate? v = some .and) (hg : vs.mapM m.gate? = some gs) :
    gs = List.replicate vs.length .and := by
  rw [mapM_some_map m.gate? (fun _ => BoolGate.and) vs h, Option.some.injEq] at hg
  rw [← hg]; simp [List.map_const']

theorem gate_and_of_interactive {g : BoolGate} (h : GateLike.interactive g = true) : g = .and := by
  cases g <;> first | rfl | simp [GateLike.interactive, BoolGate.isInteractive] at h

theorem forall₂_lanes {g0 g1 : List (List Bool × List Bool)} (h : List.Forall₂ LanesOk g0 g1) :
    (∀ p ∈ g0, p.1.length = p.2.length) ∧ (∀ p ∈ g1, p.1.length = p.2.length) ∧
      g1.map (·.1.length) = g0.map (·.1.length) := by
  induction h with
  | nil => simp
  | cons h _ ih =>
    obtain ⟨a, b, c⟩ := h
    obtain ⟨i, j, k⟩ := ih
    refine ⟨?_, ?_, ?_⟩
    · intro p hp
      rcases List.mem_cons.1 hp with rfl | hp
      · omega
      · exact i p hp
    · intro p hp
      rcases List.mem_cons.1 hp with rfl | hp
      · omega
      · exact j p hp
    · simp only [List.map_cons, k]; rw [b]

/-- The relation between the shares of a scalar gate. -/
def RB (val : Node → Bool) (v : Node) (x y : Bool) : Prop := (x ^^ y) = val v

/-- The relation between the shares of a simd gate. -/
def RBV (valV : Node → List Bool) (v : Node) (x y : List Bool) : Prop :=
  x.length = (valV v).length ∧ y.length = (valV v).length ∧ xorL x y = valV v

theorem gate_valid {m : Multi BoolGate} {v : Node} {g : BoolGate} (h : m.gate? v = some g) :
    m.Valid v := by
  unfold Multi.gate? at h
  cases hc : m.circs[v.1]? with
  | none => simp [hc] at h
  | some c =>
    simp only [hc, Option.bind_eq_bind, Option.bind_some] at h
    exact ⟨c, hc, (List.getElem?_eq_some_iff.1 h).1⟩

theorem gmw_sound {m : Multi BoolGate} {inp0 inp1 inp : Input Bool (List Bool)}
    {setup0 setup1 : Nat → Nat → List Triple} {init0 init1 : Store Bool (List Bool)}
    {val : Node → Bool} {valV : Node → List Bool} {c0 : Base BoolGate} (hc0 : m.circs[0]? = some c0)
    (hpv : ∀ v, ∀ u ∈ m.parents v, m.Valid u)
    (hw : ExecBase m) (hu : Unmixed m) (hi : InputOk m c0 inp) (hin : Shares inp0 inp1 inp)
    (hset : ∀ k n, Matching (setup0 k n) (setup1 k n) ∧ n ≤ (setup0 k n).length)
    (hp : PlainEval m inp val valV) (ls : List MLayer) (ok : LayersOk m ls) :
    Sound gmw m inp0 inp1 setup0 setup1 init0 init1 (RB val) (RBV valV)
      (fun l a b => MsgSize m l a ∧ MsgSize m l b) ls := by
  have toLocal : ∀ v g (b : BaseGate Bool), m.gate? v = some g → asBase g = some b → g = .base b := by
    intro v g b _ hb
    cases g <;> simp [GateLike.asBase] at hb
    rw [hb]
  constructor
  · -- constants
    intro v g b hg hb hs
    have hg' := toLocal v g _ hg hb
    subst hg'
    have := hp.scalar v _ hg hs
    simp only [ScalarEq] at this
    simp only [RB, gmw, shareConstant, this]
    simp
  · intro v g b hg hb hs
    have hg' := toLocal v g _ hg hb
    subst hg'
    have := hp.simd v _ hg hs
    simp only [SimdEq] at this
    refine ⟨?_, ?_, ?_⟩
    · simp [gmw, shareConstantSimd, this]
    · simp [gmw, shareConstantSimd, this]
    · rw [this]; exact constant_simd_correct b _
  · -- inputs
    intro hs
    match inp0, inp1, inp, hi, hin, hp with
    | .scalar a, .scalar b, .scalar c, hi, hin, hp =>
      refine ⟨a, b, rfl, rfl, ?_⟩
      intro c' i g hc' hidx gate hg hb
      rw [hc0] at hc'; cases hc'
      have hg' := toLocal _ gate _ hg hb
      subst hg'
      obtain ⟨c1, i1, e1, e2, e3⟩ := hp.scalar (0, g) _ hg hs
      rw [hc0] at e1; cases e1
      simp only [Input.scalars, Input.vectors] at e2 e3
      rw [hidx] at e2; cases e2
      obtain ⟨l1, l2, l3⟩ := hin
      have hlt : i < c.length := (List.getElem?_eq_some_iff.1 e3).1
      refine ⟨a[i]'(by omega), b[i]'(by omega), a[i]'(by omega), b[i]'(by omega),
        by simp, by simp, ?_, ?_, ?_⟩
      · simp [gmw, evalLocal, BaseGate.defaultEvaluate]
      · simp [gmw, evalLocal, BaseGate.defaultEvaluate]
      · have := xorL_getElem (i := i) l3 (x := a[i]'(by omega)) (y := b[i]'(by omega)) (by simp) (by simp)
        rw [e3] at this
        simpa [RB] using this.symm
    | .simd a, .simd b, .simd c, hi, hin, hp => rw [hi.1] at hs; exact absurd hs (by simp)
  · intro hs
    match inp0, inp1, inp, hi, hin, hp with
    | .scalar a, .scalar b, .scalar c, hi, hin, hp => rw [hi.1] at hs; exact absurd hs (by simp)
    | .simd a, .simd b, .simd c, hi, hin, hp =>
      refine ⟨a, b, rfl, rfl, ?_⟩
      intro c' i g hc' hidx gate hg hb
      rw [hc0] at hc'; cases hc'
      have hg' := toLocal _ gate _ hg hb
      subst hg'
      obtain ⟨c1, i1, e1, e2, e3⟩ := hp.simd (0, g) _ hg hs
      rw [hc0] at e1; cases e1
      simp only [Input.scalars, Input.vectors] at e2 e3
      rw [hidx] at e2; cases e2
      obtain ⟨l1, l2, l3⟩ := hin
      have hla : a.length = c.length := by simpa using congrArg List.length l1
      have hlb : b.length = c.length := by simpa using congrArg List.length l2
      have hlt : i < c.length := (List.getElem?_eq_some_iff.1 e3).1
      have hci : c[i] = valV (0, g) := by
        have := (List.getElem?_eq_some_iff.1 e3).2; exact this
      refine ⟨a[i]'(by omega), b[i]'(by omega), a[i]'(by omega), b[i]'(by omega),
        by simp, by simp, ?_, ?_, ?_, ?_, ?_⟩
      · simp [gmw, evalLocalSimd, BaseGate.defaultEvaluateSimd]
      · simp [gmw, evalLocalSimd, BaseGate.defaultEvaluateSimd]
      · have := congrArg (fun l => l[i]?) l1
        simp only [List.getElem?_map, List.getElem?_eq_getElem (show i < a.length by omega),
          List.getElem?_eq_getElem hlt, Option.map_some, Option.some.injEq] at this
        rw [this, hci]
      · have := congrArg (fun l => l[i]?) l2
        simp only [List.getElem?_map, List.getElem?_eq_getElem (show i < b.length by omega),
          List.getElem?_eq_getElem hlt, Option.map_some, Option.some.injEq] at this
        rw [this, hci]
      · have := congrArg (fun l => l[i]?) l3
        simp only [List.getElem?_zipWith, List.getElem?_eq_getElem (show i < a.length by omega),
          List.getElem?_eq_getElem (show i < b.length by omega), List.getElem?_eq_getElem hlt,
          Option.some.injEq] at this
        rw [this, hci]
  · -- local scalar gates
    intro v g hg hni hs n1 n2 n3 f0 f1 hr
    have heq := hp.scalar v g hg hs
    have key : ∀ y, plainLocal g (xorL ((m.parents v).map f0) ((m.parents v).map f1)) = some y →
        y = val v → ∃ z0 z1, gmw.evalLocal 0 g ((m.parents v).map f0) = some z0 ∧
          gmw.evalLocal 1 g ((m.parents v).map f1) = some z1 ∧ RB val v z0 z1 := by
      intro y hy hyv
      obtain ⟨z0, z1, e0, e1, hz⟩ := local_gate_correct g _ _ (by simp) y hy
      have hnc : ∀ p xs, evalLocalOrConst p g xs = evalLocal p g xs := by
        intro p xs
        cases g with
        | base b => cases b <;> first | rfl | exact absurd rfl (n2 _)
        | _ => rfl
      rw [hnc] at e0 e1
      exact ⟨z0, z1, e0, e1, by rw [RB, hz, hyv]⟩
    have one : ∀ p, m.parents v = [p] →
        xorL ((m.parents v).map f0) ((m.parents v).map f1) = [val p] := by
      intro p hpp
      have := hr p (by rw [hpp]; simp)
      rw [hpp]
      simpa [xorL, RB] using this
    have two : ∀ p q, m.parents v = [p, q] →
        xorL ((m.parents v).map f0) ((m.parents v).map f1) = [val p, val q] := by
      intro p q hpp
      have h1 := hr p (by rw [hpp]; simp)
      have h2 := hr q (by rw [hpp]; simp)
      rw [hpp]
      simp only [RB] at h1 h2
      simp [xorL, h1, h2]
    cases g with
    | and => exact absurd hni (by decide)
    | xor =>
      obtain ⟨p, q, e1, e2⟩ := heq
      exact key _ (by rw [two p q e1]; rfl) e2.symm
    | inv =>
      obtain ⟨p, e1, e2⟩ := heq
      exact key _ (by rw [one p e1]; rfl) e2.symm
    | base b =>
      cases b with
      | input => exact absurd rfl n1
      | constant x => exact absurd rfl (n2 x)
      | connectToMainFromSimd k => exact absurd rfl (n3 k)
      | _ =>
        obtain ⟨p, e1, e2⟩ := heq
        exact key _ (by rw [one p e1]; rfl) e2.symm
  · -- local simd gates
    intro v g hg hni hs n1 n2 n3 f0 f1 hr
    have heq := hp.simd v g hg hs
    have hlen := hp.lanes v (gate_valid hg) hs
    have hplen : ∀ u ∈ m.parents v, asBase g ≠ some .subCircuitInput → 
        (∀ k, asBase g ≠ some (.connectToMainFromSimd k)) →
        isSimd m u.1 = true := fun u hu h1 h2 => (hw.other v g hg h1 h2 u hu).trans hs
    have key : ∀ y, plainLocalSimd g (List.zipWith xorL ((m.parents v).map f0) ((m.parents v).map f1)) =
        some y → y = valV v → (∀ z, evalLocalSimd 0 g ((m.parents v).map f0) = some z →
          z.length = (valV v).length) → (∀ z, evalLocalSimd 1 g ((m.parents v).map f1) = some z →
          z.length = (valV v).length) →
        ∃ z0 z1, gmw.evalLocalSimd 0 g ((m.parents v).map f0) = some z0 ∧
          gmw.evalLocalSimd 1 g ((m.parents v).map f1) = some z1 ∧ RBV valV v z0 z1 := by
      intro y hy hyv hl0 hl1
      obtain ⟨z0, z1, e0, e1, hz⟩ := local_gate_simd_correct g _ _ (by simp) y hy
      exact ⟨z0, z1, e0, e1, hl0 _ e0, hl1 _ e1, by rw [hz, hyv]⟩
    have one : ∀ p, m.parents v = [p] →
        List.zipWith xorL ((m.parents v).map f0) ((m.parents v).map f1) = [valV p] ∧
        (f0 p).length = (valV p).length ∧ (f1 p).length = (valV p).length := by
      intro p hpp
      obtain ⟨h1, h2, h3⟩ := hr p (by rw [hpp]; simp)
      rw [hpp]
      exact ⟨by simp [h3], h1, h2⟩
    cases g with
    | and => exact absurd hni (by decide)
    | xor =>
      obtain ⟨p, q, e1, e2⟩ := heq
      obtain ⟨h1, h2, h3⟩ := hr p (by rw [e1]; simp)
      obtain ⟨k1, k2, k3⟩ := hr q (by rw [e1]; simp)
      refine key _ (by rw [e1]; simp only [List.map_cons, List.map_nil, List.zipWith_cons_cons,
          List.zipWith_nil_left, h3, k3]; rfl) e2.symm ?_ ?_
      · intro z hz
        rw [e1] at hz
        simp [evalLocalSimd] at hz
        rw [← hz, e2]; simp [xorL, h1, k1]
      · intro z hz
        rw [e1] at hz
        simp [evalLocalSimd] at hz
        rw [← hz, e2]; simp [xorL, h2, k2]
    | inv =>
      obtain ⟨p, e1, e2⟩ := heq
      obtain ⟨o1, o2, o3⟩ := one p e1
      refine key _ (by rw [o1]; rfl) e2.symm ?_ ?_
      · intro z hz
        rw [e1] at hz
        simp [evalLocalSimd] at hz
        rw [← hz, e2]; simp [o2]
      · intro z hz
        rw [e1] at hz
        simp [evalLocalSimd] at hz
        rw [← hz, e2]; simp [o3]
    | base b =>
      have fin : ∀ p, m.parents v = [p] → valV v = valV p →
          (∀ xs : List (List Bool), b.defaultEvaluateSimd xs = xs.head?) →
          (∀ x, plainLocalSimd (.base b) [x] = some x) →
          ∃ z0 z1, gmw.evalLocalSimd 0 (.base b) ((m.parents v).map f0) = some z0 ∧
          gmw.evalLocalSimd 1 (.base b) ((m.parents v).map f1) = some z1 ∧ RBV valV v z0 z1 := by
        intro p e1 e2 hd hpl
        obtain ⟨o1, o2, o3⟩ := one p e1
        refine key _ (by rw [o1]; exact hpl _) e2.symm ?_ ?_
        · intro z hz
          rw [e1] at hz
          simp [evalLocalSimd, hd] at hz
          rw [← hz, e2, o2]
        · intro z hz
          rw [e1] at hz
          simp [evalLocalSimd, hd] at hz
          rw [← hz, e2, o3]
      cases b with
      | input => exact absurd rfl n1
      | constant x => exact absurd rfl (n2 x)
      | connectToMainFromSimd k => exact heq.elim
      | subCircuitInput =>
        simp only [SimdEq, n3 rfl, if_true] at heq
        obtain ⟨p, e1, e2⟩ := heq
        exact fin p e1 e2 (fun _ => rfl) (fun _ => rfl)
      | _ =>
        obtain ⟨p, e1, e2⟩ := heq
        exact fin p e1 e2 (fun _ => rfl) (fun _ => rfl)
  · -- packing
    intro v g hg hb hm hs f0 f1 hr
    have hg' := toLocal _ g _ hg hb
    subst hg'
    have heq := hp.simd v _ hg hs
    simp only [SimdEq, hm, Bool.false_eq_true, if_false] at heq
    refine ⟨by simp [gmw, heq], by simp [gmw, heq], ?_⟩
    rw [heq]
    simp only [gmw, id]
    clear heq
    generalize m.parents v = us at hr
    induction us with
    | nil => rfl
    | cons u us ih =>
      have h1 := hr u List.mem_cons_self
      have := ih fun w hw => hr w (List.mem_cons_of_mem _ hw)
      simp only [RB] at h1
      simp only [xorL] at this
      simp [xorL, h1, this]
  · -- unpacking
    intro v g k p hg hb hpp x0 x1 hx
    have hg' := toLocal _ g _ hg hb
    subst hg'
    have hs := (hw.fromSimd v _ k hg hb).1
    obtain ⟨q, e1, e2⟩ := hp.scalar v _ hg hs
    rw [hpp] at e1
    simp only [List.cons.injEq, and_true] at e1
    subst e1
    obtain ⟨h1, h2, h3⟩ := hx
    have hlt := (List.getElem?_eq_some_iff.1 e2).1
    refine ⟨x0[k]'(by omega), x1[k]'(by omega), by simp [gmw], by simp [gmw], ?_⟩
    have := xorL_getElem (i := k) h3 (x := x0[k]'(by omega)) (y := x1[k]'(by omega)) (by simp) (by simp)
    rw [e2] at this
    simpa [RB] using this.symm
  · -- interactive layers
    intro k l hk gs hs hgs hhs f0 f1 h0 h1 hr hrv
    have hl : l ∈ ls := List.mem_of_mem_filter (List.mem_of_getElem? hk)
    have hand : ∀ v ∈ intNodes l, m.gate? v = some .and := by
      intro v hv
      obtain ⟨g, hg, hi⟩ := ok.inter l hl v hv
      rw [hg, gate_and_of_interactive hi]
    have msc : ∀ v ∈ intScalar m l, m.gate? v = some .and ∧ isSimd m v.1 = false := by
      intro v hv
      rw [intScalar_eq, List.mem_filter] at hv
      exact ⟨hand v hv.1, by simpa using hv.2⟩
    have msi : ∀ v ∈ intSimd m l, m.gate? v = some .and ∧ isSimd m v.1 = true := by
      intro v hv
      rw [intSimd_eq, List.mem_filter] at hv
      exact ⟨hand v hv.1, hv.2⟩
    have hgs' := mapM_gates_and m _ gs (fun v hv => (msc v hv).1) hgs
    obtain ⟨hmt, hle⟩ := hset k (intCount m l)
    obtain ⟨x0l, x1l, hx⟩ := scalar_operands m val f0 f1 (intScalar m l)
      (fun v hv => hp.scalar v _ (msc v hv).1 (msc v hv).2) hr
    obtain ⟨g0, g1, q0, q1, hlan, hn, hzz⟩ := simd_operands m valV h0 h1 (fun v => lanes m v.1)
      (intSimd m l) (fun v hv => by
        obtain ⟨p, q, e1, e2⟩ := hp.simd v _ (msi v hv).1 (msi v hv).2
        have hty : ∀ u ∈ m.parents v, (valV u).length = lanes m v.1 := by
          intro u hu
          have hus := hw.other v _ (msi v hv).1 (by simp [GateLike.asBase]) (by simp [GateLike.asBase]) u hu
          have hv' : m.Valid u := hpv v u hu
          have := hp.lanes u hv' (hus.trans (msi v hv).2)
          rw [this]
          -- the operands of an AND gate lie in its circuit or in a circuit with as many lanes
          exact hw.sameLanes v u .and (msi v hv).1 (by decide) hu
        exact ⟨p, q, e1, e2, hty p (by rw [e1]; simp), hty q (by rw [e1]; simp)⟩) hrv
    have hcnt := intCount_eq m l
    have hsum : (g0.map (·.1.length)).sum = ((intSimd m l).map fun v => lanes m v.1).sum := by rw [hn]
    have hunm : intScalar m l = [] ∨ intSimd m l = [] := by
      rcases hu with h | h
      · right
        rw [List.eq_nil_iff_forall_not_mem]
        intro v hv
        have := h v (msi v hv).1
        rw [(msi v hv).2] at this; simp at this
      · left
        rw [List.eq_nil_iff_forall_not_mem]
        intro v hv
        have := h v (msc v hv).1
        rw [(msc v hv).2] at this; simp at this
    have hnumx : (intScalar m l).length = 0 ∨ g0 = [] := by
      rcases hunm with h | h
      · left; simp [h]
      · right
        rw [h] at hn
        simpa using hn
    obtain ⟨z, w, r, hrun, lz0, lz1, hz, lw0, lw1, hwz, -, -⟩ := unmixed_layer_correct_partial
      (intScalar m l).length _ _ g0 g1 (setup0 k (intCount m l)) (setup1 k (intCount m l)) x0l x1l hlan
      hmt (by omega) hnumx
    -- unfold the joint run
    obtain ⟨z0, z1⟩ := z
    obtain ⟨w0, w1⟩ := w
    simp only [runLayer, layerMsg, layerEval, Option.bind_eq_bind, Option.pure_def,
      Option.bind_eq_some_iff, Option.some.injEq] at hrun
    obtain ⟨M0, ⟨A0, hA0, B0, hB0, rfl⟩, M1, ⟨A1, hA1, B1, hB1, rfl⟩, ⟨y0, v0, s0⟩,
      ⟨⟨u0, R0⟩, hE0, ⟨t0, R0'⟩, hW0, he0⟩, ⟨y1, v1, s1⟩, ⟨⟨u1, R1⟩, hE1, ⟨t1, R1'⟩, hW1, he1⟩,
      hfin⟩ := hrun
    simp only [Prod.mk.injEq] at he0 he1 hfin
    obtain ⟨rfl, rfl, rfl⟩ := he0
    obtain ⟨rfl, rfl, rfl⟩ := he1
    obtain ⟨⟨rfl, rfl⟩, ⟨rfl, rfl⟩, rfl⟩ := hfin
    dsimp only at hz hwz lw0 lw1 lz0 lz1
    have sz0 := computeMsg_size x0l (by omega) hA0
    have sz1 := computeMsg_size x1l (by have := hmt.length_eq; omega) hA1
    have hll := forall₂_lanes hlan
    have sv0 := computeMsgSimd_size hll.1 hB0
    have sv1 := computeMsgSimd_size hll.2.1 hB1
    have hg1 := hll.2.2
    refine ⟨A0, A1, setup0 k (intCount m l), setup1 k (intCount m l), u0, u1, R0, R1, ?_, ?_, lz0,
      lz1, ?_, ?_⟩
    rotate_left 3
    · simp only [gmw, if_true]
      refine ⟨B0, B1, setup0 k (intCount m l), setup1 k (intCount m l), t0, t1, R0', R1', ?_, ?_, hE0, hE1, hW0, hW1,
        ⟨⟨sz0.1, sz0.2.1, sz0.2.2, B0, rfl, by rw [sv0.1, hn], sv0.2⟩,
          ⟨sz1.1, sz1.2.1, sz1.2.2, B1, rfl, by rw [sv1.1, hg1, hn], sv1.2⟩⟩, ?_, ?_, ?_⟩
      · rw [q0, hB0]; rfl
      · rw [q1, hB1]; rfl
      · have := congrArg List.length lw0
        simp only [List.length_map] at this
        rw [this]; simpa using congrArg List.length hn
      · have := congrArg List.length lw1
        simp only [List.length_map] at this
        rw [this]; simpa using congrArg List.length hn
      · intro i v y0 y1 hv hy0 hy1
        have hvm := List.mem_of_getElem? hv
        have e1 := congrArg (fun l => l[i]?) hwz
        rw [hzz] at e1
        simp only [List.getElem?_zipWith, hy0, hy1, List.getElem?_map, hv, Option.map_some,
          Option.some.injEq] at e1
        have hlv := hp.lanes v (gate_valid (msi v hvm).1) (msi v hvm).2
        have e2 := congrArg (fun l => l[i]?) lw0
        have e3 := congrArg (fun l => l[i]?) lw1
        rw [hn] at e2 e3
        simp only [List.getElem?_map, hy0, hy1, hv, Option.map_some, Option.some.injEq] at e2 e3
        exact ⟨by rw [e2, hlv], by rw [e3, hlv], e1⟩
    · simp only [gmw, hgs']
      rw [hA0]; rfl
    · simp only [gmw, hgs']
      rw [hA1]; rfl
    · intro i v y0 y1 hv hy0 hy1
      rw [hx] at hz
      have := xorL_getElem hz hy0 hy1
      simp only [List.getElem?_map, hv, Option.map_some, Option.some.injEq] at this
      exact this.symm

end Verif.Exec
