import Verif.Arith.Model
import Mathlib.Data.List.Forall2
import Mathlib.Tactic.Ring
import Mathlib.Tactic.LinearCombination

/-!
Properties C02 and C07 (arithmetic GMW), for every ring width.
-/
set_option autoImplicit false

namespace Verif.Arith

/-! ### C02: additive sharing -/

/-- C02: sharing followed by reconstruction returns the input. -/
theorem additive_sharing_roundtrip {w : Nat} (input rand : List (BitVec w))
    (h : rand.length = input.length) : reconstruct (share rand input) = input := by
  induction input generalizing rand with
  | nil => cases rand <;> simp_all [reconstruct, share]
  | cons x xs ih =>
    match rand, h with
    | r :: rs, h =>
      have := ih rs (by simpa using h)
      simp only [reconstruct, share, List.zipWith_cons_cons] at this ⊢
      rw [this]
      congr 1
      exact add_sub_cancel r x

theorem zipWith_sub_unique {w : Nat} (input s r : List (BitVec w)) (hs : s.length = input.length)
    (hr : r.length = input.length) :
    List.zipWith (fun r i => i - r) r input = s ↔ r = List.zipWith (fun i s => i - s) input s := by
  induction input generalizing s r with
  | nil => cases s <;> cases r <;> simp_all
  | cons x xs ih =>
    match s, hs, r, hr with
    | s :: ss, hs, r :: rs, hr =>
      have := ih ss rs (by simpa using hs) (by simpa using hr)
      simp only [List.zipWith_cons_cons, List.cons.injEq, this]
      refine and_congr_left fun _ => ?_
      constructor
      · rintro rfl; ring
      · rintro rfl; ring

/-- C02: either share alone is consistent with every plaintext, through exactly one generator
output. -/
theorem additive_sharing_hides {w : Nat} (input s : List (BitVec w))
    (h : s.length = input.length) :
    (∃! rand, rand.length = input.length ∧ (share rand input).1 = s) ∧
    (∃! rand, rand.length = input.length ∧ (share rand input).2 = s) := by
  constructor
  · exact ⟨s, ⟨h, rfl⟩, fun r hr => hr.2⟩
  · refine ⟨List.zipWith (fun i s => i - s) input s, ⟨by simp [h], ?_⟩, ?_⟩
    · exact (zipWith_sub_unique _ _ _ h (by simp [h])).2 rfl
    · rintro r ⟨hr, e⟩
      exact (zipWith_sub_unique _ _ _ h hr).1 e

example : reconstruct (share [200#8, 3#8] [7#8, 255#8]) = [7#8, 255#8] :=
  additive_sharing_roundtrip _ _ rfl

/-- C02: addition and subtraction act on shares. -/
theorem local_gate_homomorphic {w : Nat} (x0 y0 x1 y1 : BitVec w) :
    (∃ z0 z1, evalLocal .add [x0, y0] = some z0 ∧ evalLocal .add [x1, y1] = some z1 ∧
      z0 + z1 = (x0 + x1) + (y0 + y1)) ∧
    (∃ z0 z1, evalLocal .sub [x0, y0] = some z0 ∧ evalLocal .sub [x1, y1] = some z1 ∧
      z0 + z1 = (x0 + x1) - (y0 + y1)) :=
  ⟨⟨_, _, rfl, rfl, by ring⟩, ⟨_, _, rfl, rfl, by ring⟩⟩

/-! ### C07: multiplication layers -/

/-- Spec: a valid shared multiplication triple. -/
def ValidPair {w : Nat} (s t : Triple w) : Prop := (s.a + t.a) * (s.b + t.b) = s.c + t.c

/-- Spec: products of consecutive pairs. -/
def mulPairs {w : Nat} : List (BitVec w) → List (BitVec w)
  | x :: y :: r => (x * y) :: mulPairs r
  | _ => []

/-- The full claim of C07 for width `w`: with valid triples, a layer of multiplications
reconstructs to the products. -/
def MulLayerCorrect (w : Nat) : Prop :=
  ∀ (n : Nat) (x0 x1 : List (BitVec w)) (m0 m1 : List (Triple w)),
    x0.length = 2 * n → x1.length = 2 * n → List.Forall₂ ValidPair m0 m1 → m0.length = n →
    ∃ z r, runLayer n x0 x1 m0 m1 = some (z, r) ∧
      List.zipWith (· + ·) z.1 z.2 = mulPairs (List.zipWith (· + ·) x0 x1)

/-- The value one multiplication gate reconstructs to, in terms of the plain operands and the
plain triple. -/
theorem mul_gate_value {w : Nat} (x0 y0 x1 y1 : BitVec w) (s t : Triple w) :
    ∃ z0 z1, runLayer 1 [x0, y0] [x1, y1] [s] [t] = some (([z0], [z1]), ([], [])) ∧
      z0 + z1 = (x0 + x1) * (y0 + y1)
        + ((x0 + x1) * ((s.a + t.a) - (s.c + t.c)) + (y0 + y1) * ((s.b + t.b) - (s.a + t.a))
          + ((s.a + t.a) * (s.c + t.c) - (s.a + t.a) * (s.a + t.a)
             - (s.c + t.c) * (s.b + t.b) + (s.c + t.c))) := by
  refine ⟨((x0 - s.a) + (x1 - t.a)) * s.a + ((y0 - s.c) + (y1 - t.c)) * s.b + s.c
      + ((x0 - s.a) + (x1 - t.a)) * ((y0 - s.c) + (y1 - t.c)),
    ((x1 - t.a) + (x0 - s.a)) * t.a + ((y1 - t.c) + (y0 - s.c)) * t.b + t.c, ?_, ?_⟩
  · simp [runLayer, computeMsg, msgPairs, evaluateInteractive, removeFirst, Gmw.splitOffLast,
      zipEval]
  · ring

/-- C07 fails for every ring of at least one bit. -/
theorem mul_layer_incorrect {w : Nat} (hw : 0 < w) : ¬ MulLayerCorrect w := by
  intro h
  have hv : ValidPair (⟨1, 0, 0⟩ : Triple w) ⟨0, 0, 0⟩ := by simp [ValidPair]
  obtain ⟨z, r, h1, h2⟩ := h 1 [0, 0] [0, 0] [⟨1, 0, 0⟩] [⟨0, 0, 0⟩] rfl rfl
    (List.Forall₂.cons hv List.Forall₂.nil) rfl
  obtain ⟨z0, z1, e1, e2⟩ := mul_gate_value (w := w) 0 0 0 0 ⟨1, 0, 0⟩ ⟨0, 0, 0⟩
  rw [e1] at h1
  simp only [Option.some.injEq, Prod.mk.injEq] at h1
  obtain ⟨rfl, -⟩ := h1
  have h3 : z0 + z1 = 0 := by simpa [mulPairs] using h2
  rw [h3] at e2
  have : (0 : BitVec w) = 1 := by
    simp only [zero_add, add_zero, sub_zero, mul_zero, zero_mul, mul_one, zero_sub] at e2
    linear_combination -e2
  have h4 : w = 0 := by
    have := congrArg BitVec.toNat this
    simp at this
    omega
  omega

/-- Exactly which valid triples give correct products for all operands: those whose three
reconstructed components are equal. -/
theorem mul_gate_correct_iff {w : Nat} (s t : Triple w) (hv : ValidPair s t) :
    (∀ x0 y0 x1 y1 : BitVec w, ∃ z0 z1,
      runLayer 1 [x0, y0] [x1, y1] [s] [t] = some (([z0], [z1]), ([], [])) ∧
      z0 + z1 = (x0 + x1) * (y0 + y1)) ↔
    (s.a + t.a = s.b + t.b ∧ s.b + t.b = s.c + t.c) := by
  have hv : (s.a + t.a) * (s.b + t.b) = s.c + t.c := hv
  constructor
  · intro h
    have err : ∀ x y : BitVec w,
        x * ((s.a + t.a) - (s.c + t.c)) + y * ((s.b + t.b) - (s.a + t.a))
          + ((s.a + t.a) * (s.c + t.c) - (s.a + t.a) * (s.a + t.a)
             - (s.c + t.c) * (s.b + t.b) + (s.c + t.c)) = 0 := by
      intro x y
      obtain ⟨z0, z1, h1, h2⟩ := h x y 0 0
      obtain ⟨z0', z1', h3, h4⟩ := mul_gate_value x y 0 0 s t
      rw [h1] at h3
      simp only [Option.some.injEq, Prod.mk.injEq, List.cons.injEq, and_true] at h3
      obtain ⟨rfl, rfl⟩ := h3
      rw [h2] at h4
      linear_combination -h4
    have h00 := err 0 0
    have h10 := err 1 0
    have h01 := err 0 1
    constructor
    · linear_combination h00 - h01
    · linear_combination h10 - 2 * h00 + h01
  · rintro ⟨h1, h2⟩ x0 y0 x1 y1
    obtain ⟨z0, z1, h3, h4⟩ := mul_gate_value x0 y0 x1 y1 s t
    refine ⟨z0, z1, h3, ?_⟩
    rw [h4]
    have h5 : s.a + t.a = s.c + t.c := h1.trans h2
    rw [h2, h5] at hv
    rw [h5, h2]
    linear_combination (-1 : BitVec w) * hv

theorem zipEval_spec {w : Nat} (n : Nat) (m0 m1 : List (Triple w)) (x0 x1 : List (BitVec w))
    (h : List.Forall₂ (fun s t => ValidPair s t ∧
      s.a + t.a = s.b + t.b ∧ s.b + t.b = s.c + t.c) m0 m1)
    (hm : m0.length = n) (h0 : x0.length = 2 * n) (h1 : x1.length = 2 * n)
    (k0 k1 : List (Triple w)) :
    ∃ r0 r1, msgPairs (List.replicate n .mul) (m0 ++ k0) x0 = some r0 ∧
      msgPairs (List.replicate n .mul) (m1 ++ k1) x1 = some r1 ∧ r0.length = n ∧ r1.length = n ∧
    let z0 := zipEval 0 (r0.map (·.1)) (r0.map (·.2)) (r1.map (·.1)) (r1.map (·.2)) m0
    let z1 := zipEval 1 (r1.map (·.1)) (r1.map (·.2)) (r0.map (·.1)) (r0.map (·.2)) m1
    List.zipWith (· + ·) z0 z1 = mulPairs (List.zipWith (· + ·) x0 x1) ∧
      z0.length = n ∧ z1.length = n := by
  induction n generalizing m0 m1 x0 x1 with
  | zero =>
    have : x0 = [] := by simpa using h0
    have : x1 = [] := by simpa using h1
    subst_vars
    refine ⟨[], [], ?_, ?_, rfl, rfl, ?_⟩ <;> simp [msgPairs, zipEval, mulPairs]
  | succ n ih =>
    match x0, h0, x1, h1, m0, m1, h, hm with
    | a0 :: b0 :: x0, h0, a1 :: b1 :: x1, h1, s :: m0, t :: m1, .cons hst hmm, hm =>
      obtain ⟨r0, r1, e0, e1, l0, l1, i1, i2, i3⟩ := ih m0 m1 x0 x1 hmm (by simpa using hm)
        (by simp at h0; omega) (by simp at h1; omega)
      refine ⟨(a0 - s.a, b0 - s.c) :: r0, (a1 - t.a, b1 - t.c) :: r1, ?_, ?_, ?_, ?_, ?_, ?_, ?_⟩
      · simp [List.replicate_succ, msgPairs, e0]
      · simp [List.replicate_succ, msgPairs, e1]
      · simp [l0]
      · simp [l1]
      · simp only [List.map_cons, zipEval, List.zipWith_cons_cons, mulPairs, i1, if_true]
        congr 1
        have hv : (s.a + t.a) * (s.b + t.b) = s.c + t.c := hst.1
        obtain ⟨q1, q2⟩ := hst.2
        simp only [one_ne_zero, if_false]
        linear_combination ((a0 + a1) - (s.a + t.a) + (s.b + t.b)) * (q1 + q2)
          - (b0 + b1) * q1 - hv
      · simpa [zipEval] using i2
      · simpa [zipEval] using i3

/-- C07, what holds: layers of any size are correct, in gate order, and leave matching rests,
when every reconstructed triple has equal components (the all-zero triples of
`InsecureMTProvider` are the practical case).  Missing: all other valid triples, for which the
result is wrong (`mul_gate_correct_iff`). -/
theorem mul_layer_correct_partial {w : Nat} (n : Nat) (x0 x1 : List (BitVec w))
    (m0 m1 : List (Triple w)) (h0 : x0.length = 2 * n) (h1 : x1.length = 2 * n)
    (h : List.Forall₂ (fun s t => ValidPair s t ∧
      s.a + t.a = s.b + t.b ∧ s.b + t.b = s.c + t.c) m0 m1)
    (hn : n ≤ m0.length) :
    ∃ z, runLayer n x0 x1 m0 m1 = some (z, (m0.drop n, m1.drop n)) ∧
      z.1.length = n ∧ z.2.length = n ∧
      List.zipWith (· + ·) z.1 z.2 = mulPairs (List.zipWith (· + ·) x0 x1) := by
  have hl : m0.length = m1.length := h.length_eq
  obtain ⟨r0, r1, e0, e1, l0, l1, i1, i2, i3⟩ := zipEval_spec n (m0.take n) (m1.take n) x0 x1
    (List.forall₂_take n h) (by simp [hn]) h0 h1 (m0.drop n) (m1.drop n)
  rw [List.take_append_drop] at e0 e1
  refine ⟨(_, _), ?_, i2, i3, i1⟩
  have s0 : m0.length - (m0.length - n) = n := by omega
  have s1 : m1.length - (m1.length - n) = n := by omega
  have hn1 : n ≤ m1.length := by omega
  simp [runLayer, computeMsg, e0, e1, evaluateInteractive, removeFirst, Gmw.splitOffLast, l0, l1,
    hn, hn1, s0, s1]

/-- Non-vacuity: zero-reconstructing triples with nonzero shares. -/
example : List.Forall₂ (fun (s t : Triple 8) => ValidPair s t ∧
    s.a + t.a = s.b + t.b ∧ s.b + t.b = s.c + t.c)
    [⟨5, 7, 9⟩, ⟨0, 0, 0⟩] [⟨251, 249, 247⟩, ⟨0, 0, 0⟩] := by
  refine .cons ⟨?_, ?_, ?_⟩ (.cons ⟨?_, ?_, ?_⟩ .nil) <;> simp [ValidPair] <;> decide

end Verif.Arith
