import Verif.Gmw.Model
import Mathlib.Data.List.Forall2

set_option autoImplicit false

namespace Verif.Gmw

/-- Spec: two triples (one per party) are a valid shared multiplication triple. -/
def ValidPair (s t : Triple) : Prop :=
  ((s.a ^^ t.a) && (s.b ^^ t.b)) = (s.c ^^ t.c)

instance : DecidableRel ValidPair := fun s t => by unfold ValidPair; infer_instance

/-- Spec: the two parties' stores hold matching valid triples, position by position. -/
def Matching (m0 m1 : List Triple) : Prop := List.Forall₂ ValidPair m0 m1

/-- Spec: the conjunction of consecutive pairs of a flat list. -/
def andPairs : List Bool → List Bool
  | x :: y :: r => (x && y) :: andPairs r
  | _ => []

theorem xorL_length (x y : List Bool) : (xorL x y).length = min x.length y.length := by
  simp [xorL]

theorem xorL_cancel (x r : List Bool) (h : r.length = x.length) : xorL r (xorL x r) = x := by
  induction x generalizing r with
  | nil => cases r <;> simp_all [xorL]
  | cons a x ih =>
    cases r with
    | nil => simp at h
    | cons b r =>
      simp only [List.length_cons, Nat.add_right_cancel_iff] at h
      have := ih r h
      simp only [xorL, List.zipWith_cons_cons] at this ⊢
      rw [this]; cases a <;> cases b <;> rfl

theorem matching_take {m0 m1 : List Triple} (h : Matching m0 m1) (n : Nat) :
    Matching (m0.take n) (m1.take n) := List.forall₂_take n h

theorem matching_drop {m0 m1 : List Triple} (h : Matching m0 m1) (n : Nat) :
    Matching (m0.drop n) (m1.drop n) := List.forall₂_drop n h

theorem matching_reverse {m0 m1 : List Triple} (h : Matching m0 m1) :
    Matching m0.reverse m1.reverse := List.rel_reverse h

theorem matching_length {m0 m1 : List Triple} (h : Matching m0 m1) : m0.length = m1.length :=
  List.Forall₂.length_eq h

theorem matching_append {m0 m1 n0 n1 : List Triple} (h : Matching m0 m1) (h' : Matching n0 n1) :
    Matching (m0 ++ n0) (m1 ++ n1) := List.rel_append h h'

/-- One AND gate. -/
theorem and_gate {x0 y0 x1 y1 : Bool} {s t : Triple} (h : ValidPair s t) :
    let p0 := andComputeShares x0 y0 s
    let p1 := andComputeShares x1 y1 t
    (andEvaluate (p0.1, p1.1) (p0.2, p1.2) s 0 ^^ andEvaluate (p1.1, p0.1) (p1.2, p0.2) t 1)
      = ((x0 ^^ x1) && (y0 ^^ y1)) := by
  obtain ⟨a, b, c⟩ := s
  obtain ⟨a', b', c'⟩ := t
  simp only [ValidPair] at h
  revert h
  revert x0 y0 x1 y1 a b c a' b' c'
  decide

theorem computeMsgPairs_spec (n : Nat) (mts : List Triple) (xs : List Bool)
    (hx : xs.length = 2 * n) (hm : n ≤ mts.length) :
    ∃ r, computeMsgPairs (List.replicate n .and) mts xs = some r ∧ r.length = n := by
  induction n generalizing mts xs with
  | zero => exact ⟨[], by simp [computeMsgPairs], rfl⟩
  | succ n ih =>
    match xs, hx with
    | x :: y :: rest, hx =>
      match mts, hm with
      | mt :: mts, hm =>
        obtain ⟨r, hr, hl⟩ := ih mts rest (by simp at hx; omega) (by simp at hm; omega)
        refine ⟨andComputeShares x y mt :: r, ?_, by simp [hl]⟩
        simp [List.replicate_succ, computeMsgPairs, hr]

/-- Only the first `n` triples matter. -/
theorem computeMsgPairs_take (n : Nat) (mts : List Triple) (xs : List Bool) :
    computeMsgPairs (List.replicate n .and) (mts.take n) xs
      = computeMsgPairs (List.replicate n .and) mts xs := by
  induction n generalizing mts xs with
  | zero => simp [computeMsgPairs]
  | succ n ih =>
    match mts with
    | [] => simp
    | mt :: mts =>
      match xs with
      | [] => simp [List.replicate_succ, computeMsgPairs]
      | [x] => simp [List.replicate_succ, computeMsgPairs]
      | x :: y :: rest => simp [List.replicate_succ, computeMsgPairs, ih]

theorem zipEval_spec (n : Nat) (m0 m1 : List Triple) (x0 x1 : List Bool)
    (h : Matching m0 m1) (hm : m0.length = n) (h0 : x0.length = 2 * n) (h1 : x1.length = 2 * n)
    (r0 r1 : List (Bool × Bool))
    (e0 : computeMsgPairs (List.replicate n .and) m0 x0 = some r0)
    (e1 : computeMsgPairs (List.replicate n .and) m1 x1 = some r1)
    (jd0 je0 jd1 je1 : List Bool) :
    let z0 := zipEval 0 (r0.map (·.1) ++ jd0) (r0.map (·.2) ++ je0)
      (r1.map (·.1) ++ jd1) (r1.map (·.2) ++ je1) m0
    let z1 := zipEval 1 (r1.map (·.1) ++ jd1) (r1.map (·.2) ++ je1)
      (r0.map (·.1) ++ jd0) (r0.map (·.2) ++ je0) m1
    xorL z0 z1 = andPairs (xorL x0 x1) ∧ z0.length = n ∧ z1.length = n := by
  induction n generalizing m0 m1 x0 x1 r0 r1 with
  | zero =>
    have hx0 : x0 = [] := by simpa using h0
    have hx1 : x1 = [] := by simpa using h1
    have hm0 : m0 = [] := by simpa using hm
    have hm1 : m1 = [] := by
      have := matching_length h; rw [hm0] at this; simpa using this.symm
    subst hx0 hx1 hm0 hm1
    have z : ∀ p a b c d, zipEval p a b c d [] = [] := by
      intro p a b c d; cases a <;> cases b <;> cases c <;> cases d <;> simp [zipEval]
    simp [z, xorL, andPairs]
  | succ n ih =>
    match x0, h0 with
    | a0 :: b0 :: x0, h0 =>
    match x1, h1 with
    | a1 :: b1 :: x1, h1 =>
    cases h with
    | nil => simp at hm
    | @cons s t m0 m1 hst hmm =>
      simp only [List.replicate_succ, computeMsgPairs] at e0 e1
      have l0 : m0.length = n := by simpa using hm
      have l1 : m1.length = n := by rw [← matching_length hmm]; exact l0
      obtain ⟨q0, hq0, -⟩ := computeMsgPairs_spec n m0 x0 (by simp at h0; omega) (by omega)
      obtain ⟨q1, hq1, -⟩ := computeMsgPairs_spec n m1 x1 (by simp at h1; omega) (by omega)
      rw [hq0] at e0; rw [hq1] at e1
      simp only [Option.pure_def, Option.bind_eq_bind, Option.bind_some, Option.some.injEq] at e0 e1
      subst e0 e1
      have := ih m0 m1 x0 x1 hmm l0 (by simp at h0; omega) (by simp at h1; omega) q0 q1 hq0 hq1
      obtain ⟨i1, i2, i3⟩ := this
      simp only [List.map_cons, List.cons_append, zipEval, xorL, List.zipWith_cons_cons,
        andPairs, List.length_cons] at i1 i2 i3 ⊢
      refine ⟨?_, by omega, by omega⟩
      rw [i1, and_gate hst]

end Verif.Gmw
