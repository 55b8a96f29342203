import Verif.Gmw.Lemmas

set_option autoImplicit false

namespace Verif.Gmw

theorem fastOp_append_append (f : Bool → Bool → Bool) (x y j k : List Bool)
    (h : x.length = y.length) :
    fastOp f (x ++ j) (y ++ k) = List.zipWith f x y ++ fastOp f j k := by
  induction x generalizing y with
  | nil =>
    have : y = [] := by simpa using h.symm
    subst this; simp
  | cons a x ih =>
    cases y with
    | nil => simp at h
    | cons b y => simp [fastOp, ih y (by simpa using h)]

theorem fastOp_append_left (f : Bool → Bool → Bool) (x y j : List Bool)
    (h : x.length = y.length) :
    fastOp f (x ++ j) y = List.zipWith f x y ++ j := by
  have := fastOp_append_append f x y j [] h
  simp only [List.append_nil] at this
  rw [this]
  cases j <;> simp [fastOp]

theorem fastOp_append_right (f : Bool → Bool → Bool) (x y k : List Bool)
    (h : x.length = y.length) :
    fastOp f x (y ++ k) = List.zipWith f x y := by
  have := fastOp_append_append f x y [] k h
  simp only [List.append_nil] at this
  rw [this]
  cases k <;> simp [fastOp]

theorem cutSizes_append (ns : List Nat) (l junk : List Bool) (h : l.length = ns.sum) :
    cutSizes ns (l ++ junk) = cutSizes ns l := by
  induction ns generalizing l with
  | nil => simp [cutSizes]
  | cons n ns ih =>
    simp only [List.sum_cons] at h
    have h1 : n ≤ l.length := by omega
    have h2 : n ≤ (l ++ junk).length := by simp; omega
    simp only [cutSizes, h1, h2, if_true]
    rw [List.drop_append_of_le_length h1, List.take_append_of_le_length h1, ih]
    simp; omega

theorem cutSizes_isSome (ns : List Nat) (l : List Bool) (h : l.length = ns.sum) :
    ∃ out, cutSizes ns l = some out ∧ out.map List.length = ns ∧ out.flatten = l := by
  induction ns generalizing l with
  | nil => exact ⟨[], by simp [cutSizes], by simp, by simpa [eq_comm] using h⟩
  | cons n ns ih =>
    simp only [List.sum_cons] at h
    have h1 : n ≤ l.length := by omega
    obtain ⟨out, ho, hl, hf⟩ := ih (l.drop n) (by simp; omega)
    refine ⟨l.take n :: out, ?_, ?_, ?_⟩
    · simp [cutSizes, h1, ho]
    · simp [hl]; omega
    · simp [hf]

theorem cutSizes_flatten (ls : List (List Bool)) :
    cutSizes (ls.map List.length) ls.flatten = some ls := by
  induction ls with
  | nil => simp [cutSizes]
  | cons l ls ih => simp [cutSizes, ih]

theorem cutSizes_zipWith (f : Bool → Bool → Bool) (ns : List Nat) (x y : List Bool)
    (hx : x.length = ns.sum) (hy : y.length = ns.sum) (ox oy : List (List Bool))
    (ex : cutSizes ns x = some ox) (ey : cutSizes ns y = some oy) :
    cutSizes ns (List.zipWith f x y) = some (List.zipWith (List.zipWith f) ox oy) := by
  induction ns generalizing x y ox oy with
  | nil => simp [cutSizes] at ex ey ⊢; subst ex ey; simp
  | cons n ns ih =>
    simp only [List.sum_cons] at hx hy
    have h1 : n ≤ x.length := by omega
    have h2 : n ≤ y.length := by omega
    simp only [cutSizes, h1, h2, if_true] at ex ey
    obtain ⟨px, hpx, -⟩ := cutSizes_isSome ns (x.drop n) (by simp; omega)
    obtain ⟨py, hpy, -⟩ := cutSizes_isSome ns (y.drop n) (by simp; omega)
    simp only [hpx, hpy, Option.pure_def, Option.bind_eq_bind, Option.bind_some,
      Option.some.injEq] at ex ey
    subst ex ey
    have h3 : n ≤ (List.zipWith f x y).length := by simp; omega
    have := ih (x.drop n) (y.drop n) (by simp; omega) (by simp; omega) px py hpx hpy
    simp only [cutSizes, h3, if_true, List.drop_zipWith, List.take_zipWith, this]
    simp

/-- Pointwise correctness of the flat SIMD computation, one party's result. -/
def coreRes (party : Nat) (d e : List Bool) (used : List Triple) : List Bool :=
  List.zipWith xor
    (List.zipWith xor
      (List.zipWith xor
        (if party = 0 then List.zipWith and d e else List.replicate used.length false)
        (List.zipWith and d (used.map (·.b))))
      (List.zipWith and e (used.map (·.a))))
    (used.map (·.c))

theorem core_correct (u0 u1 : List Triple) (h : Matching u0 u1) (x0 y0 x1 y1 : List Bool)
    (hx0 : x0.length = u0.length) (hy0 : y0.length = u0.length)
    (hx1 : x1.length = u0.length) (hy1 : y1.length = u0.length) :
    let d0 := xorL y0 (u0.map (·.a)); let e0 := xorL x0 (u0.map (·.b))
    let d1 := xorL y1 (u1.map (·.a)); let e1 := xorL x1 (u1.map (·.b))
    xorL (coreRes 0 (xorL d0 d1) (xorL e0 e1) u0) (coreRes 1 (xorL d1 d0) (xorL e1 e0) u1)
      = andL (xorL x0 x1) (xorL y0 y1) := by
  induction h generalizing x0 y0 x1 y1 with
  | nil =>
    simp at hx0 hy0 hx1 hy1; subst hx0 hy0 hx1 hy1; simp [xorL, andL, coreRes]
  | @cons s t u0 u1 hst h ih =>
    match x0, y0, x1, y1 with
    | a0 :: x0, b0 :: y0, a1 :: x1, b1 :: y1 =>
      have := ih x0 y0 x1 y1 (by simpa using hx0) (by simpa using hy0) (by simpa using hx1)
        (by simpa using hy1)
      simp only [xorL, andL, coreRes, List.map_cons, List.zipWith_cons_cons, if_true,
        List.length_cons, List.replicate_succ, Nat.one_ne_zero, if_false] at this ⊢
      rw [this]
      congr 1
      clear hx0 hy0 hx1 hy1
      obtain ⟨a, b, c⟩ := s
      obtain ⟨a', b', c'⟩ := t
      simp only [ValidPair] at hst
      revert hst
      revert a0 b0 a1 b1 a b c a' b' c'
      decide
    | [], _, _, _ => simp at hx0
    | _ :: _, [], _, _ => simp at hy0
    | _ :: _, _ :: _, [], _ => simp at hx1
    | _ :: _, _ :: _, _ :: _, [] => simp at hy1

theorem fastOp_eq (f : Bool → Bool → Bool) (x y : List Bool) (h : x.length = y.length) :
    fastOp f x y = List.zipWith f x y := by
  have := fastOp_append_right f x y [] h
  simpa using this

theorem coreRes_length (party : Nat) (d e : List Bool) (used : List Triple)
    (hd : d.length = used.length) (he : e.length = used.length) :
    (coreRes party d e used).length = used.length := by
  unfold coreRes; split <;> simp [hd, he]

/-- Padding is irrelevant for the result. -/
theorem evaluateInteractiveSimd_eq (party : Nat) (dO eO dR eR : List Bool) (sizes : List Nat)
    (m : List Triple) (N : Nat) (hN : sizes.sum = N) (hn : N ≤ m.length)
    (h1 : dO.length = N) (h2 : eO.length = N) (h3 : dR.length = N) (h4 : eR.length = N)
    (z : List (List Bool))
    (hz : cutSizes sizes (coreRes party (xorL dO dR) (xorL eO eR) (m.drop (m.length - N))) = some z) :
    evaluateInteractiveSimd party ⟨padWords dO, padWords eO, sizes⟩ ⟨padWords dR, padWords eR, sizes⟩ m
      = some (z, m.take (m.length - N)) := by
  set used := m.drop (m.length - N) with hu
  have lu : used.length = N := by rw [hu, List.length_drop]; omega
  have ld : (xorL dO dR).length = N := by rw [xorL_length, h1, h3]; simp
  have le : (xorL eO eR).length = N := by rw [xorL_length, h2, h4]; simp
  have q1 : fastOp xor (padWords dO) (padWords dR) = xorL dO dR ++
      fastOp xor (List.replicate ((64 - dO.length % 64) % 64) false)
        (List.replicate ((64 - dR.length % 64) % 64) false) := by
    unfold padWords
    rw [fastOp_append_append _ _ _ _ _ (by omega)]; rfl
  have q2 : fastOp xor (padWords eO) (padWords eR) = xorL eO eR ++
      fastOp xor (List.replicate ((64 - eO.length % 64) % 64) false)
        (List.replicate ((64 - eR.length % 64) % 64) false) := by
    unfold padWords
    rw [fastOp_append_append _ _ _ _ _ (by omega)]; rfl
  simp only [evaluateInteractiveSimd, if_true, hN, splitOffLast, hn, Option.pure_def,
    Option.bind_eq_bind, Option.bind_some, q1, q2, ← hu]
  generalize fastOp xor (List.replicate ((64 - dO.length % 64) % 64) false)
        (List.replicate ((64 - dR.length % 64) % 64) false) = jd
  generalize fastOp xor (List.replicate ((64 - eO.length % 64) % 64) false)
        (List.replicate ((64 - eR.length % 64) % 64) false) = je
  have r1 : fastOp and (xorL dO dR ++ jd) (used.map (·.b)) =
      List.zipWith and (xorL dO dR) (used.map (·.b)) ++ jd :=
    fastOp_append_left _ _ _ _ (by simp [ld, lu])
  have r2 : fastOp and (xorL eO eR ++ je) (used.map (·.a)) =
      List.zipWith and (xorL eO eR) (used.map (·.a)) ++ je :=
    fastOp_append_left _ _ _ _ (by simp [le, lu])
  rw [r1, r2]
  by_cases hp : party = 0
  · simp only [hp, if_true]
    simp only [hp, coreRes, if_true] at hz
    rw [fastOp_append_append and _ _ _ _ (by omega),
      fastOp_append_append xor _ _ _ _ (by simp [ld, le, lu]),
      fastOp_append_append xor _ _ _ _ (by simp [ld, le, lu]),
      fastOp_append_left xor _ _ _ (by simp [ld, le, lu]),
      cutSizes_append _ _ _ (by simp [ld, le, lu, hN]), hz]
    rfl
  · simp only [hp, if_false]
    simp only [hp, coreRes, if_false, lu] at hz
    rw [fastOp_append_right xor (List.replicate N false) _ jd (by simp [ld, lu]),
      fastOp_append_right xor _ _ _ (by simp [ld, le, lu]),
      fastOp_eq xor _ _ (by simp [ld, le, lu]), hz]
    rfl

end Verif.Gmw
