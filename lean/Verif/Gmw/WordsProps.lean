import Verif.Gmw.Words

/-!
C95: SIMD shares in words.  AND layers are correct whatever the position of the triples in their
words; XOR gates are correct only if both operands begin at the same position, which fails for the
results of two AND gates of a layer unless the number of lanes is a multiple of 64; and triples
which do not begin at a word leave the first lanes of a layer unmasked.
-/
set_option autoImplicit false

namespace Verif.Gmw

theorem flatten_fst_length (g : List (List Bool × List Bool)) :
    (g.map (·.1)).flatten.length = (g.map (·.1.length)).sum := by
  rw [List.length_flatten, List.map_map]; rfl

theorem flatten_snd_length (g : List (List Bool × List Bool))
    (h : ∀ p ∈ g, p.2.length = p.1.length) :
    (g.map (·.2)).flatten.length = (g.map (·.1.length)).sum := by
  rw [List.length_flatten, List.map_map]
  congr 1
  exact List.map_congr_left h

set_option maxHeartbeats 1000000 in
/-- A layer of SIMD AND gates with any numbers of lanes, for operands at any positions of their
words and triples which begin at the same position at both parties: both parties obtain shares of
the conjunctions.  The result of gate `i` begins at the position (the lanes of the gates before it)
modulo 64. -/
theorem words_and_layer_correct (g0 g1 : List (List Bool × List Bool)) (in0 in1 : List Raw)
    (m0 m1 : Mts) (h0 : in0.map Raw.live = operandSeq g0) (h1 : in1.map Raw.live = operandSeq g1)
    (hg : List.Forall₂ LanesOk g0 g1) (hm : Matching m0.ts m1.ts) (hh : m1.head = m0.head)
    (hn : (g0.map (·.1.length)).sum ≤ m0.ts.length) :
    ∃ a0 a1 z0 z1, computeMsgWords in0 m0 = some a0 ∧ computeMsgWords in1 m1 = some a1 ∧
      evaluateInteractiveWords 0 a0 a1 m0 = some (z0, ⟨m0.head,
        m0.ts.take (m0.ts.length - (g0.map (·.1.length)).sum)⟩) ∧
      evaluateInteractiveWords 1 a1 a0 m1 = some (z1, ⟨m1.head,
        m1.ts.take (m1.ts.length - (g0.map (·.1.length)).sum)⟩) ∧
      (∀ r ∈ z0, r.WF) ∧ (∀ r ∈ z1, r.WF) ∧
      z0.map Raw.head = offsets 0 (g0.map (·.1.length)) ∧
      z1.map Raw.head = offsets 0 (g0.map (·.1.length)) ∧
      z0.map (fun r => r.live.length) = g0.map (·.1.length) ∧
      z1.map (fun r => r.live.length) = g0.map (·.1.length) ∧
      a0.simdSizes = g0.map (·.1.length) ∧ a1.simdSizes = g0.map (·.1.length) ∧
      a0.d.length = (padWords (List.replicate (g0.map (·.1.length)).sum false)).length ∧
      a0.e.length = (padWords (List.replicate (g0.map (·.1.length)).sum false)).length ∧
      a1.d.length = (padWords (List.replicate (g0.map (·.1.length)).sum false)).length ∧
      a1.e.length = (padWords (List.replicate (g0.map (·.1.length)).sum false)).length ∧
      List.zipWith xorL (z0.map Raw.live) (z1.map Raw.live) =
        List.zipWith (fun p q => andL (xorL p.1 q.1) (xorL p.2 q.2)) g0 g1 := by
  generalize hN : (g0.map (·.1.length)).sum = N at *
  have hsizes : g1.map (·.1.length) = g0.map (·.1.length) := by
    clear h0 h1 hN hn
    induction hg with
    | nil => rfl
    | cons h _ ih => simp [ih, h.2.1]
  have hg0 : ∀ p ∈ g0, p.2.length = p.1.length := by
    clear h0 h1 hN hn hsizes
    induction hg with
    | nil => simp
    | cons h _ ih =>
      intro p hp
      rcases List.mem_cons.1 hp with rfl | hp
      · exact h.1
      · exact ih p hp
  have hg1 : ∀ p ∈ g1, p.2.length = p.1.length := by
    clear h0 h1 hN hn hsizes hg0
    induction hg with
    | nil => simp
    | cons h _ ih =>
      intro p hp
      rcases List.mem_cons.1 hp with rfl | hp
      · rw [h.2.2, h.2.1]
      · exact ih p hp
  have hl := hm.length_eq
  have le0 := (flatten_fst_length g0).trans hN
  have ld0 := (flatten_snd_length g0 hg0).trans hN
  have le1 : (g1.map (·.1)).flatten.length = N := by rw [flatten_fst_length, hsizes, hN]
  have ld1 : (g1.map (·.2)).flatten.length = N := by rw [flatten_snd_length g1 hg1, hsizes, hN]
  obtain ⟨a0, A0, sz0, dl0, el0, td0, te0⟩ := computeMsgWords_spec g0 in0 m0 N
    (by rw [h0]; exact chunkPairs_operandSeq g0 hg0) ld0 le0 hn
  obtain ⟨a1, A1, sz1, dl1, el1, td1, te1⟩ := computeMsgWords_spec g1 in1 m1 N
    (by rw [h1]; exact chunkPairs_operandSeq g1 hg1) ld1 le1 (by omega)
  have pl : (padWords (List.replicate N false)).length % 64 = 0 ∧
      N ≤ (padWords (List.replicate N false)).length := by
    simp only [padWords, List.length_append, List.length_replicate]; omega
  rw [hsizes] at sz1
  set h := (m0.head + (m0.ts.length - N)) % 64 with hhd
  set U0 := m0.ts.drop (m0.ts.length - N) with hU0
  have e1 : (m1.head + (m1.ts.length - N)) % 64 = h := by rw [hhd, hh, hl]
  set U1 := m1.ts.drop (m1.ts.length - N) with hU1
  rw [e1] at td1 te1
  have hU : Matching U0 U1 := by
    rw [hU0, hU1, hl]; exact matching_drop hm _
  have lU0 : U0.length = N := by rw [hU0]; simp; omega
  have lS0 : (shift h U0).length = N := by rw [shift_length, lU0]
  have lS1 : (shift h U1).length = N := by rw [shift_length, ← hU.length_eq, lU0]
  have core := core_correct (shift h U0) (shift h U1) (shift_matching hU) (g0.map (·.1)).flatten
    (g0.map (·.2)).flatten (g1.map (·.1)).flatten (g1.map (·.2)).flatten (by rw [le0, lS0])
    (by rw [ld0, lS0]) (by rw [le1, lS0]) (by rw [ld1, lS0])
  dsimp only at core
  rw [← td0, ← te0, ← td1, ← te1] at core
  have lt : (a0.d.take N).length = N ∧ (a0.e.take N).length = N ∧ (a1.d.take N).length = N ∧
      (a1.e.take N).length = N := by
    simp only [List.length_take]; omega
  have lc0 := coreRes_length 0 (xorL (a0.d.take N) (a1.d.take N)) (xorL (a0.e.take N) (a1.e.take N))
    (shift h U0) (by rw [xorL_length]; omega) (by rw [xorL_length]; omega)
  have lc1 := coreRes_length 1 (xorL (a1.d.take N) (a0.d.take N)) (xorL (a1.e.take N) (a0.e.take N))
    (shift h U1) (by rw [xorL_length]; omega) (by rw [xorL_length]; omega)
  obtain ⟨w0, c0, q0, -⟩ := cutSizes_isSome (g0.map (·.1.length)) _ (by rw [lc0, lS0, hN])
  obtain ⟨w1, c1, q1, -⟩ := cutSizes_isSome (g0.map (·.1.length)) _ (by rw [lc1, lS1, hN])
  have E0 := evaluateInteractiveWords_spec 0 a0 a1 m0 N (by rw [sz0, sz1]) (by rw [sz0, hN]) hn
    (by rw [dl0]; exact pl.1) (by rw [dl0, el0]) (by rw [dl0]; exact pl.2) (by rw [dl1]; exact pl.2)
    (by rw [el1]; exact pl.2) w0 (by rw [sz0]; exact c0)
  have E1 := evaluateInteractiveWords_spec 1 a1 a0 m1 N (by rw [sz0, sz1]) (by rw [sz1, hN])
    (by omega) (by rw [dl1]; exact pl.1) (by rw [dl1, el1]) (by rw [dl1]; exact pl.2)
    (by rw [dl0]; exact pl.2) (by rw [el0]; exact pl.2) w1 (by rw [sz1, e1]; exact c1)
  have zip := cutSizes_zipWith xor (g0.map (·.1.length)) _ _ (by rw [lc0, lS0, hN])
    (by rw [lc1, lS1, hN]) w0 w1 c0 c1
  have plc : ∀ (ns : List Nat) (w : List (List Bool)), ns.length = w.length →
      (List.zipWith place ns w).map Raw.head = ns ∧ (List.zipWith place ns w).map Raw.live = w ∧
      ∀ r ∈ List.zipWith place ns w, r.WF := by
    intro ns w
    induction ns generalizing w with
    | nil => intro h; cases w <;> simp_all
    | cons n ns ih =>
      intro h
      cases w with
      | nil => simp at h
      | cons x w =>
        obtain ⟨i1, i2, i3⟩ := ih w (by simpa using h)
        refine ⟨by simp [i1, place], by simp [i2, place_live], ?_⟩
        intro r hr
        rcases List.mem_cons.1 hr with rfl | hr
        · exact place_wf _ _
        · exact i3 r hr
  rw [sz0] at E0
  rw [sz1] at E1
  have p0 := plc (offsets 0 (g0.map (·.1.length))) w0
    (by rw [offsets_length, ← q0]; simp)
  have p1 := plc (offsets 0 (g0.map (·.1.length))) w1
    (by rw [offsets_length, ← q1]; simp)
  refine ⟨a0, a1, _, _, A0, A1, E0, E1, p0.2.2, p1.2.2, p0.1, p1.1, ?_, ?_, sz0, sz1, dl0, el0, dl1,
    el1, ?_⟩
  · have := congrArg (List.map List.length) p0.2.1
    rw [List.map_map, q0] at this; exact this
  · have := congrArg (List.map List.length) p1.2.1
    rw [List.map_map, q1] at this; exact this
  · rw [p0.2.1, p1.2.1]
    have cX0 : cutSizes (g0.map (·.1.length)) (g0.map (·.1)).flatten = some (g0.map (·.1)) := by
      have := cutSizes_flatten (g0.map (·.1)); rwa [List.map_map] at this
    have cY0 : cutSizes (g0.map (·.1.length)) (g0.map (·.2)).flatten = some (g0.map (·.2)) := by
      have := cutSizes_flatten (g0.map (·.2))
      rw [List.map_map] at this
      rw [← this]; congr 1
      exact List.map_congr_left fun p hp => (hg0 p hp).symm
    have cX1 : cutSizes (g0.map (·.1.length)) (g1.map (·.1)).flatten = some (g1.map (·.1)) := by
      have := cutSizes_flatten (g1.map (·.1)); rw [List.map_map] at this; rw [← hsizes]; exact this
    have cY1 : cutSizes (g0.map (·.1.length)) (g1.map (·.2)).flatten = some (g1.map (·.2)) := by
      have := cutSizes_flatten (g1.map (·.2))
      rw [List.map_map] at this
      rw [← this, ← hsizes]; congr 1
      exact List.map_congr_left fun p hp => (hg1 p hp).symm
    have cX := cutSizes_zipWith xor _ _ _ (le0.trans hN.symm) (le1.trans hN.symm) _ _ cX0 cX1
    have cY := cutSizes_zipWith xor _ _ _ (ld0.trans hN.symm) (ld1.trans hN.symm) _ _ cY0 cY1
    have cXY := cutSizes_zipWith and _ _ _ (by rw [List.length_zipWith, le0, le1, hN]; simp)
      (by rw [List.length_zipWith, ld0, ld1, hN]; simp) _ _ cX cY
    have k1 : cutSizes (g0.map (·.1.length)) (xorL _ _) = _ := zip
    rw [core] at k1
    have k2 : cutSizes (g0.map (·.1.length)) (andL (xorL (g0.map (·.1)).flatten (g1.map (·.1)).flatten)
      (xorL (g0.map (·.2)).flatten (g1.map (·.2)).flatten)) = _ := cXY
    rw [k2] at k1
    have k3 := Option.some.inj k1
    have k4 : List.zipWith xorL w0 w1 = List.zipWith (List.zipWith xor) w0 w1 := rfl
    rw [k4, ← k3]
    clear * -
    induction g0 generalizing g1 with
    | nil => simp
    | cons a g0 ih =>
      cases g1 with
      | nil => simp
      | cons b g1 =>
        simp only [List.map_cons, List.zipWith_cons_cons, ih g1]
        rfl

/-- A SIMD XOR gate whose operands begin at the same position computes the XOR of every lane; the
result begins there as well. -/
theorem words_xor_correct (x0 y0 x1 y1 : Raw) (hx0 : x0.WF) (hy0 : y0.WF) (hx1 : x1.WF)
    (hy1 : y1.WF) (e0 : y0.head = x0.head) (e1 : y1.head = x1.head) (l0 : y0.len = x0.len)
    (l1 : y1.len = x1.len) :
    ∃ z0 z1, evalLocalWords 0 .xor [x0, y0] = some z0 ∧ evalLocalWords 1 .xor [x1, y1] = some z1 ∧
      z0.head = x0.head ∧ z1.head = x1.head ∧
      z0.live = xorL x0.live y0.live ∧ z1.live = xorL x1.live y1.live := by
  refine ⟨_, _, rfl, rfl, rfl, rfl, ?_, ?_⟩
  · rw [fast_live (clone_wf _) hy0 (by rw [e0]; rfl) (by rw [clone_len hx0, l0]), clone_live]; rfl
  · rw [fast_live (clone_wf _) hy1 (by rw [e1]; rfl) (by rw [clone_len hx1, l1]), clone_live]; rfl

/-- If the second operand of a SIMD XOR gate begins at a later position of its word than the first
one, the first lanes of the result do not depend on it at all. -/
theorem words_xor_ignores (party : Nat) (x : Raw) (h : Nat) (l : List Bool) (hx : x.WF)
    (hh : x.head < h) (i : Nat) (hi : i < h - x.head) (hl : i < x.len) :
    ∃ z, evalLocalWords party .xor [x, place h l] = some z ∧ z.live[i]? = x.live[i]? := by
  refine ⟨_, rfl, ?_⟩
  have hcl := clone_live x
  have hc : ∀ k, (fastOp xor x.clone.raw (place h l).raw)[k]? = 
      if k < h then x.clone.raw[k]? else (fastOp xor x.clone.raw (place h l).raw)[k]? := by
    intro k
    split
    · rename_i hk
      have : ∀ (a b : List Bool) (k h : Nat), k < h →
          (fastOp xor a (List.replicate h false ++ b))[k]? = a[k]? := by
        intro a b k
        induction k generalizing a b with
        | zero =>
          intro h hk
          obtain ⟨h, rfl⟩ : ∃ h', h = h' + 1 := ⟨h - 1, by omega⟩
          cases a <;> simp [fastOp, List.replicate_succ]
        | succ k ih =>
          intro h hk
          obtain ⟨h, rfl⟩ : ∃ h', h = h' + 1 := ⟨h - 1, by omega⟩
          cases a with
          | nil => simp [fastOp, List.replicate_succ]
          | cons a as =>
            simp only [List.replicate_succ, List.cons_append, fastOp, List.getElem?_cons_succ]
            exact ih as b h (by omega)
      simp only [place, padWords, List.append_assoc]
      exact this _ _ k h hk
    · rfl
  have e : (x.clone.fast xor (place h l)).live[i]? =
      (fastOp xor x.clone.raw (place h l).raw)[x.head + i]? := by
    simp only [Raw.live, Raw.fast]
    rw [List.getElem?_take_of_lt (by rw [clone_len hx]; exact hl), List.getElem?_drop]
    rfl
  rw [e, hc, if_pos (by omega), ← hcl]
  simp only [Raw.live]
  rw [List.getElem?_take_of_lt (by rw [clone_len hx]; exact hl), List.getElem?_drop]
  rfl

/-- The lanes of a layer's operands at the positions before the first triple are sent in the clear:
the message bits are the bits of the sender's shares, whatever the triples are. -/
theorem words_message_unmasked (g : List (List Bool × List Bool)) (inputs : List Raw) (mts : Mts)
    (hin : inputs.map Raw.live = operandSeq g) (hg : ∀ p ∈ g, p.2.length = p.1.length)
    (hn : (g.map (·.1.length)).sum ≤ mts.ts.length) :
    ∃ msg, computeMsgWords inputs mts = some msg ∧
      ∀ i < (g.map (·.1.length)).sum,
        i < (mts.head + (mts.ts.length - (g.map (·.1.length)).sum)) % 64 →
        msg.d[i]? = (g.map (·.2)).flatten[i]? ∧ msg.e[i]? = (g.map (·.1)).flatten[i]? := by
  generalize hN : (g.map (·.1.length)).sum = N at *
  have le := (flatten_fst_length g).trans hN
  have ld := (flatten_snd_length g hg).trans hN
  obtain ⟨msg, hm, -, -, -, td, te⟩ := computeMsgWords_spec g inputs mts N
    (by rw [hin]; exact chunkPairs_operandSeq g hg) ld le hn
  refine ⟨msg, hm, fun i hi hh => ?_⟩
  have lu : (mts.ts.drop (mts.ts.length - N)).length = N := by simp; omega
  have hs : ∀ p : Triple → Bool, p ⟨false, false, false⟩ = false →
      ((shift ((mts.head + (mts.ts.length - N)) % 64) (mts.ts.drop (mts.ts.length - N))).map p)[i]? =
        some false := by
    intro p hp
    rw [← map_shift p hp, lu, List.getElem?_take_of_lt hi, List.getElem?_append_left (by simpa using hh)]
    simp [hh]
  have fin : ∀ (x l : List Bool) (p : Triple → Bool), p ⟨false, false, false⟩ = false →
      l.length = N → x.take N = xorL l ((shift ((mts.head + (mts.ts.length - N)) % 64)
        (mts.ts.drop (mts.ts.length - N))).map p) → x[i]? = l[i]? := by
    intro x l p hp hl hx
    have := congrArg (fun l => l[i]?) hx
    simp only [List.getElem?_take_of_lt hi, xorL, List.getElem?_zipWith, hs p hp] at this
    rw [this]
    cases hli : l[i]? <;> simp
  exact ⟨fin _ _ _ rfl ld td, fin _ _ _ rfl le te⟩

theorem fastOp_padWords (x y : List Bool) (h : x.length = y.length) :
    fastOp xor (padWords x) (padWords y) = padWords (xorL x y) := by
  unfold padWords
  rw [fastOp_append_append _ _ _ _ _ h, fastOp_eq _ _ _ (by simp [h])]
  congr 1
  simp [xorL, h]

/-- If the triples of the layer begin at a word, the message is the one of the list model, about
which `simd_and_message_masked` and the privacy theorems speak. -/
theorem words_message_aligned (g : List (List Bool × List Bool)) (inputs : List Raw) (mts : Mts)
    (hin : inputs.map Raw.live = operandSeq g) (hg : ∀ p ∈ g, p.2.length = p.1.length)
    (hn : (g.map (·.1.length)).sum ≤ mts.ts.length)
    (ha : (mts.head + (mts.ts.length - (g.map (·.1.length)).sum)) % 64 = 0) :
    computeMsgWords inputs mts = computeMsgSimd (operandSeq g) mts.ts := by
  have le := flatten_fst_length g
  have ld := flatten_snd_length g hg
  have lu : (mts.ts.drop (mts.ts.length - (g.map (·.1.length)).sum)).length =
    (g.map (·.1.length)).sum := by simp; omega
  simp only [computeMsgWords, computeMsgSimd, hin, chunkPairs_operandSeq g hg, Option.bind_eq_bind,
    Option.bind_some, ofBits, ld, hn, if_true, splitOffLast, Option.pure_def, Mts.slice, ha, Raw.fast,
    Mts.a, Mts.b, place, List.replicate_zero, List.nil_append]
  rw [fastOp_padWords _ _ (by rw [List.length_map, lu, ld]),
    fastOp_padWords _ _ (by rw [List.length_map, lu, le])]

/-! ### Examples -/

/-- Two AND gates with one lane each in one layer: the second result begins at position 1. -/
example : offsets 0 [1, 1] = [0, 1] := by decide

/-- Two AND gates with 64 lanes each: both results begin at position 0. -/
example : offsets 0 [64, 64] = [0, 0] := by decide

/-- The hypotheses of `words_and_layer_correct` are met. -/
example : ∃ (g0 g1 : List (List Bool × List Bool)) (in0 in1 : List Raw) (m0 m1 : Mts), in0.map Raw.live = operandSeq g0 ∧ in1.map Raw.live = operandSeq g1 ∧
    List.Forall₂ LanesOk g0 g1 ∧ Matching m0.ts m1.ts ∧ m1.head = m0.head ∧ m0.head = 5 ∧
    g0.length = 1 ∧ (g0.map (·.1.length)).sum ≤ m0.ts.length := by
  refine ⟨[([true], [false])], [([false], [true])], [place 3 [true], place 0 [false]],
    [place 3 [false], place 0 [true]], ⟨5, [⟨true, false, false⟩]⟩, ⟨5, [⟨false, true, true⟩]⟩,
    by decide, by decide, ?_, ?_, rfl, rfl, rfl, by decide⟩
  · exact .cons ⟨rfl, rfl, rfl⟩ .nil
  · exact .cons (by decide) .nil

/-- The XOR of the results of two AND gates with one lane, `1` and `1`, is `1`. -/
example : ((evalLocalWords 0 .xor [place 0 [true], place 1 [true]]).map Raw.live) = some [true] := by
  decide +kernel

/-- A layer with one lane and a store of two triples: the share is sent in the clear. -/
example : ∃ msg, computeMsgWords [ofBits [true], ofBits [true]]
    ⟨0, [⟨true, true, true⟩, ⟨true, true, true⟩]⟩ = some msg ∧ msg.d[0]? = some true ∧
      msg.e[0]? = some true := by
  refine ⟨_, rfl, ?_⟩
  decide +kernel

/-- A message whose numbers of lanes differ from the own ones, or a store with too few triples, makes the party panic. -/
theorem words_sizes_compared (party : Nat) (own other : SimdMsg) (m : Mts)
    (h : evaluateInteractiveWords party own other m ≠ none) :
    own.simdSizes = other.simdSizes ∧ own.simdSizes.sum ≤ m.ts.length := by
  unfold evaluateInteractiveWords at h
  by_cases hs : own.simdSizes = other.simdSizes
  · refine ⟨hs, ?_⟩
    by_contra hl
    simp only [if_pos hs, Mts.splitOffLast, if_neg hl, Option.bind_eq_bind, Option.bind_none] at h
    exact absurd rfl h
  · rw [if_neg hs] at h
    exact absurd rfl h

/-- With equal sizes and enough triples there is a result. -/
example : evaluateInteractiveWords 0 ⟨padWords [true], padWords [true], [1]⟩ ⟨padWords [true], padWords [true], [1]⟩
    ⟨0, [⟨true, true, true⟩]⟩ ≠ none := by
  decide +kernel

end Verif.Gmw
