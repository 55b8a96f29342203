import Verif.Gmw.Props
import Verif.Gmw.Layer

/-!
Properties C05, C06, C09 (Boolean GMW).
-/
set_option autoImplicit false

namespace Verif.Gmw

/-! ### C05: layers with scalar and SIMD gates -/

/-- The full claim of C05: a layer with both kinds of gates evaluates correctly. -/
def MixedLayerCorrect : Prop :=
  ∀ (n : Nat) (x0 x1 : List Bool) (g0 g1 : List (List Bool × List Bool)) (m0 m1 : List Triple),
    x0.length = 2 * n → x1.length = 2 * n → List.Forall₂ LanesOk g0 g1 → Matching m0 m1 →
    m0.length = n + (g0.map (·.1.length)).sum →
    ∃ z w r, runLayer n x0 x1 (operandSeq g0) (operandSeq g1) m0 m1 = some (z, w, r) ∧
      xorL z.1 z.2 = andPairs (xorL x0 x1) ∧
      List.zipWith xorL w.1 w.2 =
        List.zipWith (fun p q => andL (xorL p.1 q.1) (xorL p.2 q.2)) g0 g1

/-- C05 fails: with one scalar gate, one one-lane vector gate and two valid triples the vector
gate's result is wrong (false instead of true). -/
theorem mixed_layer_incorrect : ¬ MixedLayerCorrect := by
  intro h
  have h := h 1 [false, false] [false, false] [([true], [true])] [([false], [false])]
    [⟨true, true, true⟩, ⟨false, false, false⟩] [⟨false, false, false⟩, ⟨false, false, false⟩]
    rfl rfl (List.Forall₂.cons ⟨rfl, rfl, rfl⟩ List.Forall₂.nil)
    (List.Forall₂.cons (by decide) (List.Forall₂.cons (by decide) List.Forall₂.nil)) (by decide)
  obtain ⟨z, w, r, h1, h2, h3⟩ := h
  have e : runLayer 1 [false, false] [false, false] (operandSeq [([true], [true])])
      (operandSeq [([false], [false])])
      [⟨true, true, true⟩, ⟨false, false, false⟩] [⟨false, false, false⟩, ⟨false, false, false⟩]
      = some (([false], [false]), ([[false]], [[false]]), ([], [])) := by decide
  rw [e] at h1
  simp only [Option.some.injEq, Prod.mk.injEq] at h1
  obtain ⟨-, rfl, -⟩ := h1
  simp [xorL, andL] at h3

/-- C05, what holds: a layer whose interactive gates are all scalar or all SIMD evaluates
correctly.  Missing: layers with both kinds. -/
theorem unmixed_layer_correct_partial (n : Nat) (x0 x1 : List Bool)
    (g0 g1 : List (List Bool × List Bool)) (m0 m1 : List Triple)
    (h0 : x0.length = 2 * n) (h1 : x1.length = 2 * n) (hg : List.Forall₂ LanesOk g0 g1)
    (hm : Matching m0 m1) (hn : n + (g0.map (·.1.length)).sum ≤ m0.length)
    (hunmixed : n = 0 ∨ g0 = []) :
    ∃ z w r, runLayer n x0 x1 (operandSeq g0) (operandSeq g1) m0 m1 = some (z, w, r) ∧
      z.1.length = n ∧ z.2.length = n ∧
      xorL z.1 z.2 = andPairs (xorL x0 x1) ∧
      w.1.map List.length = g0.map (·.1.length) ∧ w.2.map List.length = g0.map (·.1.length) ∧
      List.zipWith xorL w.1 w.2 =
        List.zipWith (fun p q => andL (xorL p.1 q.1) (xorL p.2 q.2)) g0 g1 ∧
      Matching r.1 r.2 ∧ r.1.length = m0.length - (n + (g0.map (·.1.length)).sum) := by
  rcases hunmixed with rfl | rfl
  · obtain ⟨a0, a1, z0, z1, r0, r1, A0, A1, E0, E1, -, -, lz0, lz1, hx, hr0, hr1, hr⟩ :=
      and_layer_correct 0 x0 x1 m0 m1 h0 h1 hm (by omega)
    have hr0' : r0 = m0 := by simp [hr0]
    have hr1' : r1 = m1 := by simp [hr1]
    subst hr0' hr1'
    obtain ⟨b0, b1, w0, w1, s0, s1, B0, B1, F0, F1, l0, l1, hw, hs0, hs1, hs⟩ :=
      simd_and_layer_correct g0 g1 r0 r1 hg hm (by omega)
    refine ⟨(z0, z1), (w0, w1), (s0, s1), ?_, lz0, lz1, hx, l0, l1, hw, hs, ?_⟩
    · simp only [runLayer, layerMsg, layerEval, A0, A1, B0, B1, E0, E1, F0, F1, Option.pure_def,
        Option.bind_eq_bind, Option.bind_some]
    · simp only [hs0, List.length_take]; omega
  · cases hg
    simp only [List.map_nil, List.sum_nil, Nat.add_zero] at hn ⊢
    obtain ⟨a0, a1, z0, z1, r0, r1, A0, A1, E0, E1, -, -, lz0, lz1, hx, hr0, hr1, hr⟩ :=
      and_layer_correct n x0 x1 m0 m1 h0 h1 hm hn
    refine ⟨(z0, z1), ([], []), (r0, r1), ?_, lz0, lz1, hx, rfl, rfl, rfl, hr, ?_⟩
    · simp [runLayer, layerMsg, layerEval, A0, A1, E0, E1, operandSeq, computeMsgSimd,
        evaluateInteractiveSimd, chunkPairs, splitOffLast, cutSizes, padWords, xorL]
    · simp only [hr0, List.length_take]; omega

/-- C05: whenever a layer has a scalar gate and a vector lane, the same triple masks the first
scalar gate and the last lane, so the exclusive or of two sent bits is the exclusive or of
two unmasked wire shares. -/
theorem mixed_layer_reuses_mask (n : Nat) (x y : Bool) (xs : List Bool)
    (g : List (List Bool × List Bool)) (m : List Triple) (t : Triple) (u v : List Bool)
    (a b : Bool) (hx : xs.length = 2 * n) (hl : u.length = v.length)
    (hg : ∀ p ∈ g, p.2.length = p.1.length) (hm : n + (g.map (·.1.length)).sum + u.length ≤ m.length)
    (msg : LayerMsg)
    (h : layerMsg (n + 1) (x :: y :: xs) (operandSeq (g ++ [(u ++ [a], v ++ [b])])) (m ++ [t])
      = some msg) :
    ∃ (i : Nat) (d d' : Bool), msg.scalar.d[0]? = some d ∧ msg.simd.d[i]? = some d' ∧ (d ^^ d') = (x ^^ b) := by
  obtain ⟨r, hr, hrl⟩ := computeMsgPairs_spec n m.reverse xs hx (by simp; omega)
  have hc : chunkPairs (operandSeq (g ++ [(u ++ [a], v ++ [b])])) =
      some (g ++ [(u ++ [a], v ++ [b])]) := by
    apply chunkPairs_operandSeq
    intro p hp
    rcases List.mem_append.1 hp with hp | hp
    · exact hg p hp
    · simp at hp; subst hp; simp [hl]
  have hD : ((g ++ [(u ++ [a], v ++ [b])]).map (·.2)).flatten =
      ((g.map (·.2)).flatten ++ v) ++ [b] := by simp
  have hlen : ((g.map (·.2)).flatten).length = (g.map (·.1.length)).sum := by
    rw [List.length_flatten]
    congr 1
    rw [List.map_map]
    apply List.map_congr_left
    intro p hp
    exact hg p hp
  set D := (g.map (·.2)).flatten ++ v with hDdef
  have lD : D.length ≤ m.length := by rw [hDdef, List.length_append, hlen]; omega
  simp only [layerMsg, computeMsg, computeMsgSimd, hc, hD, List.replicate_succ, List.reverse_append,
    List.reverse_singleton, List.singleton_append, computeMsgPairs, hr, Option.pure_def,
    Option.bind_eq_bind, Option.bind_some, splitOffLast, List.length_append, List.length_singleton,
    List.length_cons] at h
  rw [if_pos (by omega)] at h
  simp only [Option.bind_some, Option.some.injEq] at h
  subst h
  have hdrop : (m ++ [t]).drop (m.length + (([] : List Triple).length + 1) -
      (D.length + (([] : List Bool).length + 1))) = m.drop (m.length - D.length) ++ [t] := by
    rw [show m.length + (([] : List Triple).length + 1) -
      (D.length + (([] : List Bool).length + 1)) = m.length - D.length by simp]
    rw [List.drop_append_of_le_length (by omega)]
  refine ⟨D.length, x ^^ t.a, b ^^ t.a, ?_, ?_, ?_⟩
  · simp [padWords, andComputeShares]
  · simp only [hdrop]
    have hlm : (m.drop (m.length - D.length)).length = D.length := by simp; omega
    simp only [padWords, List.map_append, List.map_cons, List.map_nil, xorL]
    generalize m.drop (m.length - D.length) = used at hlm
    rw [List.zipWith_append (by simp [hlm])]
    rw [List.append_assoc, List.getElem?_append_right (by simp [hlm])]
    simp [hlm]
  · cases x <;> cases b <;> cases t.a <;> rfl

/-- Non-vacuity: a layer with one scalar gate and one lane. -/
example : ∃ msg, layerMsg 1 [true, false] (operandSeq ([] ++ [([] ++ [true], [] ++ [false])]))
    ([⟨true, false, true⟩] ++ [⟨true, true, false⟩]) = some msg := ⟨_, rfl⟩

/-! ### C06: local gates -/

/-- Spec: plaintext meaning of a local gate. -/
def plainLocal : BoolGate → List Bool → Option Bool
  | .xor, [x, y] => some (x ^^ y)
  | .inv, [x] => some (!x)
  | .base (.constant v), _ => some v
  | .base (.connectToMainFromSimd _), _ => none
  | .base _, [x] => some x
  | _, _ => none

/-- C06: local evaluation on shares reconstructs to the plaintext meaning. -/
theorem local_gate_correct (g : BoolGate) (x0 x1 : List Bool) (hl : x0.length = x1.length)
    (v : Bool) (h : plainLocal g (xorL x0 x1) = some v) :
    ∃ z0 z1, evalLocalOrConst 0 g x0 = some z0 ∧ evalLocalOrConst 1 g x1 = some z1 ∧
      (z0 ^^ z1) = v := by
  match x0, x1, hl with
  | [], [], _ =>
    rcases g with (b | _ | _ | _)
    · cases b <;> simp_all [plainLocal, xorL, evalLocalOrConst, shareConstant]
    all_goals simp_all [plainLocal, xorL]
  | [a], [b], _ =>
    rcases g with (bg | _ | _ | _)
    · cases bg <;> simp_all [plainLocal, xorL, evalLocalOrConst, shareConstant, evalLocal,
        BaseGate.defaultEvaluate]
    · simp_all [plainLocal, xorL]
    · simp_all [plainLocal, xorL]
    · simp only [plainLocal, xorL, List.zipWith_cons_cons, List.zipWith_nil_left,
        Option.some.injEq] at h
      subst h
      refine ⟨!a, b, rfl, rfl, ?_⟩
      cases a <;> cases b <;> rfl
  | [a, b], [c, d], _ =>
    rcases g with (bg | _ | _ | _)
    · cases bg <;> simp_all [plainLocal, xorL, evalLocalOrConst, shareConstant]
    · simp_all [plainLocal, xorL]
    · simp only [plainLocal, xorL, List.zipWith_cons_cons, List.zipWith_nil_left,
        Option.some.injEq] at h
      subst h
      refine ⟨a ^^ b, c ^^ d, rfl, rfl, ?_⟩
      cases a <;> cases b <;> cases c <;> cases d <;> rfl
    · simp_all [plainLocal, xorL]
  | a :: b :: e :: x0, c :: d :: f :: x1, hl =>
    rcases g with (bg | _ | _ | _)
    · cases bg <;> simp_all [plainLocal, xorL, evalLocalOrConst, shareConstant]
    all_goals simp_all [plainLocal, xorL]

example : plainLocal .xor (xorL [true, false] [false, false]) = some true := rfl
example : plainLocal .inv (xorL [true] [false]) = some false := rfl

/-- Spec: lane-wise plaintext meaning of a local gate on vectors. -/
def plainLocalSimd : BoolGate → List (List Bool) → Option (List Bool)
  | .xor, [x, y] => some (xorL x y)
  | .inv, [x] => some (x.map (!·))
  | .base (.constant _), _ => none
  | .base _, [x] => some x
  | _, _ => none

theorem xorL_swap (a b c d : List Bool) :
    xorL (xorL a b) (xorL c d) = xorL (xorL a c) (xorL b d) := by
  induction a generalizing b c d with
  | nil => simp [xorL]
  | cons x a ih =>
    cases b with
    | nil => cases c <;> cases d <;> simp [xorL]
    | cons y b =>
      cases c with
      | nil => simp [xorL]
      | cons z c =>
        cases d with
        | nil => simp [xorL]
        | cons w d =>
          have := ih b c d
          simp only [xorL, List.zipWith_cons_cons] at this ⊢
          rw [this]; congr 1
          cases x <;> cases y <;> cases z <;> cases w <;> rfl

theorem xorL_map_not (a b : List Bool) : xorL (a.map (!·)) b = (xorL a b).map (!·) := by
  induction a generalizing b with
  | nil => simp [xorL]
  | cons x a ih =>
    cases b with
    | nil => simp [xorL]
    | cons y b =>
      have := ih b
      simp only [xorL, List.zipWith_cons_cons, List.map_cons] at this ⊢
      rw [this]; cases x <;> cases y <;> rfl

/-- C06 for vectors of any length: local SIMD evaluation reconstructs to the lane-wise meaning. -/
theorem local_gate_simd_correct (g : BoolGate) (x0 x1 : List (List Bool))
    (hl : x0.length = x1.length) (v : List Bool)
    (h : plainLocalSimd g (List.zipWith xorL x0 x1) = some v) :
    ∃ z0 z1, evalLocalSimd 0 g x0 = some z0 ∧ evalLocalSimd 1 g x1 = some z1 ∧
      xorL z0 z1 = v := by
  match x0, x1, hl with
  | [], [], _ =>
    rcases g with (b | _ | _ | _)
    · cases b <;> simp_all [plainLocalSimd]
    all_goals simp_all [plainLocalSimd]
  | [a], [b], _ =>
    rcases g with (bg | _ | _ | _)
    · cases bg <;> simp_all [plainLocalSimd, evalLocalSimd, BaseGate.defaultEvaluateSimd]
    · simp_all [plainLocalSimd]
    · simp_all [plainLocalSimd]
    · simp_all [plainLocalSimd, evalLocalSimd, xorL_map_not]
  | [a, b], [c, d], _ =>
    rcases g with (bg | _ | _ | _)
    · cases bg <;> simp_all [plainLocalSimd]
    · simp_all [plainLocalSimd]
    · simp only [plainLocalSimd, List.zipWith_cons_cons, List.zipWith_nil_left,
        Option.some.injEq] at h
      subst h
      exact ⟨xorL a b, xorL c d, rfl, rfl, xorL_swap a b c d⟩
    · simp_all [plainLocalSimd]
  | a :: b :: e :: x0, c :: d :: f :: x1, hl =>
    rcases g with (bg | _ | _ | _)
    · cases bg <;> simp_all [plainLocalSimd]
    all_goals simp_all [plainLocalSimd]

/-- C06: constants on vector wires of every length. -/
theorem constant_simd_correct (val : Bool) (len : Nat) :
    xorL (shareConstantSimd 0 val len) (shareConstantSimd 1 val len) = List.replicate len val := by
  induction len with
  | zero => rfl
  | succ n ih =>
    simp only [shareConstantSimd, xorL, List.replicate_succ, List.zipWith_cons_cons] at ih ⊢
    rw [ih]; simp [shareConstant]

/-! ### C09: perfect masking of messages -/

/-- The triples with given `(a,b)` and `c` parts. -/
def mkTriples (ab : List (Bool × Bool)) (cs : List Bool) : List Triple :=
  List.zipWith (fun p c => ⟨p.1, p.2, c⟩) ab cs

/-- Spec: consecutive pairs of a flat list. -/
def pairUp : List Bool → List (Bool × Bool)
  | x :: y :: r => (x, y) :: pairUp r
  | _ => []

theorem pairUp_length (n : Nat) (xs : List Bool) (hx : xs.length = 2 * n) :
    (pairUp xs).length = n := by
  induction n generalizing xs with
  | zero =>
    have : xs = [] := by simpa using hx
    subst this; rfl
  | succ n ih =>
    match xs, hx with
    | x :: y :: r, hx => simp [pairUp, ih r (by simp at hx; omega)]

/-- The exclusive or of two lists of bit pairs. -/
def xorP (x y : List (Bool × Bool)) : List (Bool × Bool) :=
  List.zipWith (fun p q => (p.1 ^^ q.1, p.2 ^^ q.2)) x y

theorem xorP_unique (x t m : List (Bool × Bool)) (hm : m.length = x.length)
    (ht : t.length = x.length) : xorP x m = t ↔ m = xorP x t := by
  induction x generalizing t m with
  | nil =>
    have : m = [] := by simpa using hm
    have : t = [] := by simpa using ht
    subst_vars; simp [xorP]
  | cons a x ih =>
    match m, hm, t, ht with
    | b :: m, hm, c :: t, ht =>
      have := ih t m (by simpa using hm) (by simpa using ht)
      simp only [xorP, List.zipWith_cons_cons, List.cons.injEq] at this ⊢
      rw [this]
      refine and_congr_left fun _ => ?_
      obtain ⟨a1, a2⟩ := a
      obtain ⟨b1, b2⟩ := b
      obtain ⟨c1, c2⟩ := c
      clear hm ht this
      cases a1 <;> cases a2 <;> cases b1 <;> cases b2 <;> cases c1 <;> cases c2 <;> decide

theorem computeMsgPairs_eq (n : Nat) (mts : List Triple) (xs : List Bool)
    (hx : xs.length = 2 * n) (hm : mts.length = n) :
    computeMsgPairs (List.replicate n .and) mts xs =
      some (xorP (pairUp xs) (mts.map fun t => (t.a, t.b))) := by
  induction n generalizing mts xs with
  | zero =>
    have : xs = [] := by simpa using hx
    have : mts = [] := by simpa using hm
    subst_vars
    simp [computeMsgPairs, pairUp, xorP]
  | succ n ih =>
    match xs, hx, mts, hm with
    | x :: y :: rest, hx, mt :: mts, hm =>
      have ih' := ih mts rest (by simp at hx; omega) (by simpa using hm)
      simp [List.replicate_succ, computeMsgPairs, ih', pairUp, xorP, andComputeShares]

theorem padWords_inj {a b : List Bool} (h : a.length = b.length) (e : padWords a = padWords b) :
    a = b := (List.append_inj e h).1

theorem mkTriples_ab (ab : List (Bool × Bool)) (cs : List Bool) (h : cs.length = ab.length) :
    (mkTriples ab cs).map (fun t => (t.a, t.b)) = ab := by
  induction ab generalizing cs with
  | nil => simp [mkTriples]
  | cons p ab ih =>
    match cs, h with
    | c :: cs, h =>
      have := ih cs (by simpa using h)
      simp only [mkTriples, List.zipWith_cons_cons, List.map_cons] at this ⊢
      rw [this]

theorem mkTriples_length (ab : List (Bool × Bool)) (cs : List Bool) (h : cs.length = ab.length) :
    (mkTriples ab cs).length = ab.length := by simp [mkTriples, h]

theorem zip_map_fst_snd (l : List (Bool × Bool)) (d e : List Bool) (hd : d.length = l.length)
    (he : e.length = l.length) : l.map (·.1) = d ∧ l.map (·.2) = e ↔ l = List.zip d e := by
  constructor
  · rintro ⟨rfl, rfl⟩
    have := List.zip_of_prod (l := l.map (·.1)) (l' := l.map (·.2)) (xs := l) rfl rfl
    exact this
  · rintro rfl
    constructor
    · exact List.map_fst_zip (by omega)
    · exact List.map_snd_zip (by omega)

/-- C09: in a layer of `n` AND gates, whatever the wire shares, the older triples and the `c`
parts, every message of the right size is produced by exactly one choice of the `a`, `b` parts
of the `n` triples used. -/
theorem and_message_masked (n : Nat) (xs : List Bool) (rest : List Triple) (cs d e : List Bool)
    (hx : xs.length = 2 * n) (hc : cs.length = n) (hd : d.length = n) (he : e.length = n) :
    ∃! ab : List (Bool × Bool), ab.length = n ∧
      computeMsg (List.replicate n .and) xs (rest ++ mkTriples ab cs) =
        some { size := n, d := padWords d, e := padWords e } := by
  have key : ∀ ab : List (Bool × Bool), ab.length = n →
      (computeMsg (List.replicate n .and) xs (rest ++ mkTriples ab cs) =
        some { size := n, d := padWords d, e := padWords e } ↔
        ab = (xorP (pairUp xs) (List.zip d e)).reverse) := by
    intro ab hab
    have lt : (mkTriples ab cs).length = n := by rw [mkTriples_length _ _ (by omega), hab]
    have hp : computeMsgPairs (List.replicate n .and) (rest ++ mkTriples ab cs).reverse xs =
        some (xorP (pairUp xs) ab.reverse) := by
      rw [← computeMsgPairs_take, List.reverse_append, List.take_left' (by simp [lt])]
      rw [computeMsgPairs_eq n _ xs hx (by simp [lt]), List.map_reverse,
        mkTriples_ab _ _ (by omega)]
    have lp := pairUp_length n xs hx
    have lr : (xorP (pairUp xs) ab.reverse).length = n := by simp [xorP, lp, hab]
    rw [computeMsg, hp]
    simp only [Option.pure_def, Option.bind_eq_bind, Option.bind_some, Option.some.injEq,
      Msg.mk.injEq, List.length_map, lr, true_and]
    rw [← List.reverse_eq_iff, ← xorP_unique _ _ _ (by simp [lp, hab]) (by simp [lp, hd, he]),
      ← zip_map_fst_snd _ _ _ (by omega) (by omega)]
    constructor
    · rintro ⟨h1, h2⟩
      exact ⟨padWords_inj (by simp [lr, hd]) h1, padWords_inj (by simp [lr, he]) h2⟩
    · rintro ⟨h1, h2⟩
      rw [h1, h2]; exact ⟨rfl, rfl⟩
  have hl : ((xorP (pairUp xs) (List.zip d e)).reverse).length = n := by
    simp [xorP, pairUp_length n xs hx, hd, he]
  exact ⟨_, ⟨hl, (key _ hl).2 rfl⟩, fun ab h => (key ab h.1).1 h.2⟩

theorem xorL_unique (x t m : List Bool) (hm : m.length = x.length) (ht : t.length = x.length) :
    xorL x m = t ↔ m = xorL x t := by
  induction x generalizing t m with
  | nil =>
    have : m = [] := by simpa using hm
    have : t = [] := by simpa using ht
    subst_vars; simp [xorL]
  | cons a x ih =>
    match m, hm, t, ht with
    | b :: m, hm, c :: t, ht =>
      have := ih t m (by simpa using hm) (by simpa using ht)
      simp only [xorL, List.zipWith_cons_cons, List.cons.injEq] at this ⊢
      rw [this]
      refine and_congr_left fun _ => ?_
      clear hm ht this
      cases a <;> cases b <;> cases c <;> decide

/-- C09 for SIMD layers of any lane lengths. -/
theorem simd_and_message_masked (g : List (List Bool × List Bool)) (rest : List Triple)
    (cs d e : List Bool) (hg : ∀ p ∈ g, p.2.length = p.1.length) (N : Nat)
    (hN : (g.map (·.1.length)).sum = N) (hc : cs.length = N) (hd : d.length = N)
    (he : e.length = N) :
    ∃! ab : List (Bool × Bool), ab.length = N ∧
      computeMsgSimd (operandSeq g) (rest ++ mkTriples ab cs) =
        some { d := padWords d, e := padWords e, simdSizes := g.map (·.1.length) } := by
  have lx : ((g.map (·.1)).flatten).length = N := by
    rw [List.length_flatten, List.map_map, ← hN]; rfl
  have ly : ((g.map (·.2)).flatten).length = N := by
    rw [List.length_flatten, List.map_map, ← hN]
    congr 1
    exact List.map_congr_left hg
  have key : ∀ ab : List (Bool × Bool), ab.length = N →
      (computeMsgSimd (operandSeq g) (rest ++ mkTriples ab cs) =
        some { d := padWords d, e := padWords e, simdSizes := g.map (·.1.length) } ↔
        ab = List.zip (xorL (g.map (·.2)).flatten d) (xorL (g.map (·.1)).flatten e)) := by
    intro ab hab
    have lt : (mkTriples ab cs).length = N := by rw [mkTriples_length _ _ (by omega), hab]
    have hmap := mkTriples_ab ab cs (by omega)
    have ha : (mkTriples ab cs).map (·.a) = ab.map (·.1) := by
      conv_rhs => rw [← hmap]
      simp
    have hb : (mkTriples ab cs).map (·.b) = ab.map (·.2) := by
      conv_rhs => rw [← hmap]
      simp
    rw [computeMsgSimd, chunkPairs_operandSeq g hg]
    have hs : splitOffLast (rest ++ mkTriples ab cs) N = some (rest, mkTriples ab cs) := by
      simp [splitOffLast, lt]
    simp only [Option.pure_def, Option.bind_eq_bind, Option.bind_some, ly, hs, Option.some.injEq,
      SimdMsg.mk.injEq, and_true, ha, hb]
    rw [← zip_map_fst_snd _ _ _ (by simp [xorL, ly, hd, hab]) (by simp [xorL, lx, he, hab]),
      ← xorL_unique _ _ _ (by simp [ly, hab]) (by simp [ly, hd]),
      ← xorL_unique _ _ _ (by simp [lx, hab]) (by simp [lx, he])]
    constructor
    · rintro ⟨h1, h2⟩
      exact ⟨padWords_inj (by simp [xorL, ly, hd, hab]) h1,
        padWords_inj (by simp [xorL, lx, he, hab]) h2⟩
    · rintro ⟨h1, h2⟩
      rw [h1, h2]; exact ⟨rfl, rfl⟩
  have hl : (List.zip (xorL (g.map (·.2)).flatten d) (xorL (g.map (·.1)).flatten e)).length = N := by
    simp [xorL, lx, ly, hd, he]
  exact ⟨_, ⟨hl, (key _ hl).2 rfl⟩, fun ab h => (key ab h.1).1 h.2⟩

end Verif.Gmw
