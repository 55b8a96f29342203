import Verif.Gmw.SimdLemmas

/-!
Properties C01, C03, C04, C06, C09 (Boolean GMW).
-/
set_option autoImplicit false

namespace Verif.Gmw

/-! ### C01: XOR sharing -/

/-- C01: sharing and reconstructing is the identity for every generator output. -/
theorem xor_sharing_roundtrip (input rand : List Bool) (h : rand.length = input.length) :
    xorReconstruct (xorShare rand input) = input := by
  simp only [xorReconstruct, xorShare]
  exact xorL_cancel input rand h

/-- C01: any value of either share is consistent with every plaintext, through exactly one
generator output. -/
theorem xor_sharing_hides (input s : List Bool) (h : s.length = input.length) :
    (∃! rand : List Bool, rand.length = input.length ∧ (xorShare rand input).1 = s) ∧
    (∃! rand : List Bool, rand.length = input.length ∧ (xorShare rand input).2 = s) := by
  constructor
  · exact ⟨s, ⟨h, rfl⟩, fun r hr => hr.2⟩
  · refine ⟨xorL s input, ⟨by simp [xorL, h], ?_⟩, ?_⟩
    · simp only [xorShare]
      have := xorL_cancel s input h.symm
      have e : xorL input (xorL s input) = s := this
      exact e
    · rintro r ⟨hr, hs⟩
      simp only [xorShare] at hs
      subst hs
      have : xorL (xorL input r) input = xorL input (xorL r input) := by
        clear h
        induction input generalizing r with
        | nil => simp [xorL]
        | cons a t ih =>
          cases r with
          | nil => simp at hr
          | cons b r =>
            have := ih r (by simpa using hr)
            simp only [xorL, List.zipWith_cons_cons] at this ⊢
            rw [this]; cases a <;> cases b <;> rfl
      rw [this]
      exact (xorL_cancel r input hr.symm).symm

example : xorReconstruct (xorShare [true, false, true] [false, false, true]) = [false, false, true] :=
  xor_sharing_roundtrip _ _ rfl

/-! ### C03: a scalar AND layer -/

/-- C03: both parties run the exchange on a layer of `n` AND gates.  No step fails, the
reconstructed outputs are the conjunctions of the reconstructed inputs in gate order, and what
remains of the two stores is their common prefix, still matching. -/
theorem and_layer_correct (n : Nat) (x0 x1 : List Bool) (m0 m1 : List Triple)
    (h0 : x0.length = 2 * n) (h1 : x1.length = 2 * n)
    (hm : Matching m0 m1) (hn : n ≤ m0.length) :
    ∃ msg0 msg1 z0 z1 r0 r1,
      computeMsg (List.replicate n .and) x0 m0 = some msg0 ∧
      computeMsg (List.replicate n .and) x1 m1 = some msg1 ∧
      evaluateInteractive 0 msg0 msg1 m0 = some (z0, r0) ∧
      evaluateInteractive 1 msg1 msg0 m1 = some (z1, r1) ∧
      msg0.size = n ∧ msg1.size = n ∧ z0.length = n ∧ z1.length = n ∧
      xorL z0 z1 = andPairs (xorL x0 x1) ∧
      r0 = m0.take (m0.length - n) ∧ r1 = m1.take (m1.length - n) ∧ Matching r0 r1 := by
  have hl := matching_length hm
  obtain ⟨p0, e0, l0⟩ := computeMsgPairs_spec n m0.reverse x0 h0 (by simpa using hn)
  obtain ⟨p1, e1, l1⟩ := computeMsgPairs_spec n m1.reverse x1 h1 (by simp; omega)
  have f0 : (m0.drop (m0.length - n)).reverse = m0.reverse.take n := by
    rw [List.take_reverse]
  have f1 : (m1.drop (m1.length - n)).reverse = m1.reverse.take n := by
    rw [List.take_reverse]
  have hmt : Matching (m0.reverse.take n) (m1.reverse.take n) :=
    matching_take (matching_reverse hm) n
  have key := zipEval_spec n (m0.reverse.take n) (m1.reverse.take n) x0 x1 hmt (by simp; omega)
    h0 h1 p0 p1 (by rw [computeMsgPairs_take]; exact e0) (by rw [computeMsgPairs_take]; exact e1)
    (List.replicate ((64 - (p0.map (·.1)).length % 64) % 64) false)
    (List.replicate ((64 - (p0.map (·.2)).length % 64) % 64) false)
    (List.replicate ((64 - (p1.map (·.1)).length % 64) % 64) false)
    (List.replicate ((64 - (p1.map (·.2)).length % 64) % 64) false)
  obtain ⟨k1, k2, k3⟩ := key
  refine ⟨⟨p0.length, padWords (p0.map (·.1)), padWords (p0.map (·.2))⟩,
    ⟨p1.length, padWords (p1.map (·.1)), padWords (p1.map (·.2))⟩, _, _,
    m0.take (m0.length - n), m1.take (m1.length - n),
    ?_, ?_, ?_, ?_, ?_, ?_, k2, k3, k1, rfl, rfl, ?_⟩
  · simp [computeMsg, e0]
  · simp [computeMsg, e1]
  · simp [evaluateInteractive, l0, l1, splitOffLast, hn, f0, padWords]
  · simp [evaluateInteractive, l0, l1, splitOffLast, hl ▸ hn, f1, padWords]
  · simp [l0]
  · simp [l1]
  · rw [← hl]; exact matching_take hm _

/-- Non-vacuity: a layer of two gates with non-zero triples. -/
example : Matching [⟨true, false, true⟩, ⟨true, true, false⟩, ⟨true, false, false⟩]
    [⟨true, true, true⟩, ⟨false, true, false⟩, ⟨false, true, true⟩] := by
  repeat' first | apply List.Forall₂.cons | exact List.Forall₂.nil | decide

/-! ### C04: a SIMD AND layer -/

/-- Spec: per gate, the two operand vectors of both parties have one common length. -/
def LanesOk (p q : List Bool × List Bool) : Prop :=
  p.2.length = p.1.length ∧ q.1.length = p.1.length ∧ q.2.length = p.1.length

/-- The flat operand sequence given to the protocol: first and second operand of each gate. -/
def operandSeq (gs : List (List Bool × List Bool)) : List (List Bool) :=
  gs.flatMap fun g => [g.1, g.2]

theorem chunkPairs_operandSeq (gs : List (List Bool × List Bool))
    (h : ∀ g ∈ gs, g.2.length = g.1.length) : chunkPairs (operandSeq gs) = some gs := by
  induction gs with
  | nil => simp [operandSeq, chunkPairs]
  | cons g gs ih =>
    have := ih (fun g hg => h g (List.mem_cons_of_mem _ hg))
    simp only [operandSeq] at this
    have hg := h g List.mem_cons_self
    simp [operandSeq, chunkPairs, this, hg]

theorem flatten_zipWith_lengths (g0 g1 : List (List Bool × List Bool))
    (h : List.Forall₂ LanesOk g0 g1) :
    (g0.map (·.2)).map List.length = (g0.map (·.1)).map List.length ∧
    (g1.map (·.1)).map List.length = (g0.map (·.1)).map List.length ∧
    (g1.map (·.2)).map List.length = (g0.map (·.1)).map List.length := by
  induction h with
  | nil => simp
  | cons hpq h ih =>
    obtain ⟨i1, i2, i3⟩ := ih
    obtain ⟨a, b, c⟩ := hpq
    simp only [List.map_cons]
    exact ⟨by rw [i1, a], by rw [i2, b], by rw [i3, c]⟩

/-- C04: both parties run the SIMD exchange on a layer of vector AND gates.  No step fails, each
gate's reconstructed output is the lane-wise conjunction of its reconstructed operands, in gate
order and with the gate's own length, exactly the sum of the lengths is consumed, and the
remaining stores still match. -/
theorem simd_and_layer_correct (g0 g1 : List (List Bool × List Bool)) (m0 m1 : List Triple)
    (hg : List.Forall₂ LanesOk g0 g1) (hm : Matching m0 m1)
    (hn : (g0.map (·.1.length)).sum ≤ m0.length) :
    ∃ msg0 msg1 z0 z1 r0 r1,
      computeMsgSimd (operandSeq g0) m0 = some msg0 ∧
      computeMsgSimd (operandSeq g1) m1 = some msg1 ∧
      evaluateInteractiveSimd 0 msg0 msg1 m0 = some (z0, r0) ∧
      evaluateInteractiveSimd 1 msg1 msg0 m1 = some (z1, r1) ∧
      z0.map List.length = g0.map (·.1.length) ∧ z1.map List.length = g0.map (·.1.length) ∧
      List.zipWith xorL z0 z1 =
        List.zipWith (fun p q => andL (xorL p.1 q.1) (xorL p.2 q.2)) g0 g1 ∧
      r0 = m0.take (m0.length - (g0.map (·.1.length)).sum) ∧
      r1 = m1.take (m1.length - (g0.map (·.1.length)).sum) ∧ Matching r0 r1 := by
  have hl := matching_length hm
  obtain ⟨q1, q2, q3⟩ := flatten_zipWith_lengths g0 g1 hg
  set N := (g0.map (·.1.length)).sum with hN
  have hsz : (g0.map (·.1)).map List.length = g0.map (·.1.length) := by simp
  have s01 : (g0.map (·.1)).flatten.length = N := by rw [List.length_flatten, hsz]
  have s02 : (g0.map (·.2)).flatten.length = N := by rw [List.length_flatten, q1, hsz]
  have s11 : (g1.map (·.1)).flatten.length = N := by rw [List.length_flatten, q2, hsz]
  have s12 : (g1.map (·.2)).flatten.length = N := by rw [List.length_flatten, q3, hsz]
  have c0 : ∀ g ∈ g0, g.2.length = g.1.length := by
    clear hN s01 s02 s11 s12 q1 q2 q3 hsz
    clear hn N
    induction hg with
    | nil => simp
    | cons h _ ih =>
      intro g hg'
      rcases List.mem_cons.1 hg' with rfl | hg'
      · exact h.1
      · exact ih g hg'
  have c1 : ∀ g ∈ g1, g.2.length = g.1.length := by
    clear hN s01 s02 s11 s12 q1 q2 q3 hsz c0
    clear hn N
    induction hg with
    | nil => simp
    | cons h _ ih =>
      intro g hg'
      rcases List.mem_cons.1 hg' with rfl | hg'
      · rw [h.2.1, h.2.2]
      · exact ih g hg'
  set u0 := m0.drop (m0.length - N) with hu0
  set u1 := m1.drop (m1.length - N) with hu1
  have hu : Matching u0 u1 := by rw [hu0, hu1, ← hl]; exact matching_drop hm _
  have lu0 : u0.length = N := by rw [hu0, List.length_drop]; omega
  have lu1 : u1.length = N := by rw [← matching_length hu]; exact lu0
  set X0 := (g0.map (·.1)).flatten with hX0
  set Y0 := (g0.map (·.2)).flatten with hY0
  set X1 := (g1.map (·.1)).flatten with hX1
  set Y1 := (g1.map (·.2)).flatten with hY1
  set d0 := xorL Y0 (u0.map (·.a)) with hd0
  set e0 := xorL X0 (u0.map (·.b)) with he0
  set d1 := xorL Y1 (u1.map (·.a)) with hd1
  set e1 := xorL X1 (u1.map (·.b)) with he1
  have ld0 : d0.length = N := by rw [hd0, xorL_length, List.length_map, s02, lu0]; simp
  have le0 : e0.length = N := by rw [he0, xorL_length, List.length_map, s01, lu0]; simp
  have ld1 : d1.length = N := by rw [hd1, xorL_length, List.length_map, s12, lu1]; simp
  have le1 : e1.length = N := by rw [he1, xorL_length, List.length_map, s11, lu1]; simp
  have sz1 : g1.map (·.1.length) = g0.map (·.1.length) := by
    have : (g1.map (·.1)).map List.length = g1.map (·.1.length) := by simp
    rw [← this, q2, hsz]
  have hc := core_correct u0 u1 hu X0 Y0 X1 Y1 (by omega) (by omega) (by omega) (by omega)
  set k0 := coreRes 0 (xorL d0 d1) (xorL e0 e1) u0 with hk0
  set k1 := coreRes 1 (xorL d1 d0) (xorL e1 e0) u1 with hk1
  have ldd : (xorL d0 d1).length = N := by rw [xorL_length, ld0, ld1]; simp
  have lee : (xorL e0 e1).length = N := by rw [xorL_length, le0, le1]; simp
  have ldd' : (xorL d1 d0).length = N := by rw [xorL_length, ld0, ld1]; simp
  have lee' : (xorL e1 e0).length = N := by rw [xorL_length, le0, le1]; simp
  have lk0 : k0.length = N := by simp [hk0, coreRes, ldd, lee, lu0]
  have lk1 : k1.length = N := by simp [hk1, coreRes, ldd', lee', lu1]
  obtain ⟨z0, hz0, hz0l, -⟩ := cutSizes_isSome (g0.map (·.1.length)) k0 lk0
  obtain ⟨z1, hz1, hz1l, -⟩ := cutSizes_isSome (g0.map (·.1.length)) k1 lk1
  have hcut := cutSizes_zipWith xor (g0.map (·.1.length)) k0 k1 lk0 lk1 z0 z1 hz0 hz1
  have cX0 : cutSizes (g0.map (·.1.length)) X0 = some (g0.map (·.1)) := by
    rw [← hsz]; exact cutSizes_flatten _
  have cY0 : cutSizes (g0.map (·.1.length)) Y0 = some (g0.map (·.2)) := by
    rw [← hsz, ← q1]; exact cutSizes_flatten _
  have cX1 : cutSizes (g0.map (·.1.length)) X1 = some (g1.map (·.1)) := by
    rw [← hsz, ← q2]; exact cutSizes_flatten _
  have cY1 : cutSizes (g0.map (·.1.length)) Y1 = some (g1.map (·.2)) := by
    rw [← hsz, ← q3]; exact cutSizes_flatten _
  have cX := cutSizes_zipWith xor _ X0 X1 s01 s11 _ _ cX0 cX1
  have cY := cutSizes_zipWith xor _ Y0 Y1 s02 s12 _ _ cY0 cY1
  have cXY := cutSizes_zipWith and _ (List.zipWith xor X0 X1) (List.zipWith xor Y0 Y1)
    (by rw [List.length_zipWith, s01, s11]; simp [hN]) (by rw [List.length_zipWith, s02, s12]; simp [hN])
    _ _ cX cY
  have hfin : List.zipWith xorL z0 z1 =
      List.zipWith (fun p q => andL (xorL p.1 q.1) (xorL p.2 q.2)) g0 g1 := by
    have h1 : cutSizes (g0.map (·.1.length)) (xorL k0 k1) = _ := hcut
    rw [hc] at h1
    have h2 : cutSizes (g0.map (·.1.length)) (andL (xorL X0 X1) (xorL Y0 Y1)) = _ := cXY
    rw [h2] at h1
    have h3 := Option.some.inj h1
    have h4 : List.zipWith xorL z0 z1 = List.zipWith (List.zipWith xor) z0 z1 := rfl
    rw [h4, ← h3]
    clear * -
    induction g0 generalizing g1 with
    | nil => simp
    | cons a g0 ih =>
      cases g1 with
      | nil => simp
      | cons b g1 =>
        simp only [List.map_cons, List.zipWith_cons_cons, ih g1]
        rfl
  refine ⟨⟨padWords d0, padWords e0, g0.map (·.1.length)⟩, ⟨padWords d1, padWords e1, g1.map (·.1.length)⟩, z0, z1, m0.take (m0.length - N), m1.take (m1.length - N), ?_, ?_, ?_, ?_, hz0l, hz1l, hfin, rfl, rfl, ?_⟩
  · simp only [computeMsgSimd, chunkPairs_operandSeq g0 c0, Option.pure_def,
      Option.bind_eq_bind, Option.bind_some, splitOffLast, ← hY0, s02, hn, if_true, ← hu0, ← hX0, ← hd0, ← he0]
  · simp only [computeMsgSimd, chunkPairs_operandSeq g1 c1, Option.pure_def,
      Option.bind_eq_bind, Option.bind_some, splitOffLast, ← hY1, s12, hl ▸ hn, if_true, ← hu1,
      ← hX1, ← hd1, ← he1]
  · simp only [sz1]
    exact evaluateInteractiveSimd_eq 0 d0 e0 d1 e1 _ m0 N rfl hn ld0 le0 ld1 le1 z0 hz0
  · simp only [sz1]
    exact evaluateInteractiveSimd_eq 1 d1 e1 d0 e0 _ m1 N rfl (hl ▸ hn) ld1 le1 ld0 le0 z1 hz1
  · rw [← hl]; exact matching_take hm _

/-- Non-vacuity: two gates of different vector lengths. -/
example : List.Forall₂ LanesOk [([true, false], [true, true]), ([false], [true])]
    [([false, false], [true, false]), ([true], [true])] := by
  repeat' first | apply List.Forall₂.cons | exact List.Forall₂.nil | (refine ⟨rfl, rfl, rfl⟩)

end Verif.Gmw
