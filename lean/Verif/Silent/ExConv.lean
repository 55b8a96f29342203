import Verif.Silent.QuasiCyclic
import Verif.Silent.Layout
import Verif.Mt.Provider

/-!
The expand convolute code, the default of the silent triple provider (C55):
zappot/src/silent_ot/ex_conv_code.rs, mod.rs:620-627, 702-709, seec mul_triple/boolean/silent_ot.rs.
-/
set_option autoImplicit false

namespace Verif.Silent

/-- ex_conv_code.rs:11-28, the fields used. -/
structure ExConvConf where
  requested : Nat
  parts : Nat
  sizePer : Nat
  n2 : Nat
  codeSize : Nat

/-- ex_conv_code.rs:31-56 `configure`.  `parts` is `get_reg_noise_weight(min_dist, 128)`, for
`ExConv7x24` 128 / -log2(0.8) = 397.6 rounded down and up to the multiple 400 of 8, for `ExConv21x24`
248. -/
def exConvConfigure (numOts parts : Nat) : ExConvConf :=
  let sizePer := nextMultipleOf ((numOts * 2 + parts - 1) / parts) 8
  { requested := numOts, parts, sizePer, n2 := sizePer * parts, codeSize := numOts * 2 }

/-- ex_conv_code.rs:60-64, pprf.rs:614-621. -/
def ExConvConf.pprf (c : ExConvConf) : Option Conf :=
  (Util.log2Ceil 64 c.sizePer).map fun d => ⟨c.parts, c.sizePer, d⟩

/-- mod.rs:620-627, 702-709: `dual_encode_block` works in place on the first `C.size` positions and
the whole vector of `n2` positions is returned. -/
def exConvCode (C : Code) (n2 : Nat) (h : C.size ≤ n2) : Code where
  size := n2
  E u x := if x < C.size then C.E u x else if x < n2 then u x else false
  add u v x := by
    split
    · exact C.add u v x
    · split <;> rfl
  loc u v huv x := by
    split
    · exact C.loc u v (fun y hy => huv y (by omega)) x
    · split
      · exact huv x ‹_›
      · rfl

theorem exConv_facts (numOts parts : Nat) (hn : 0 < numOts) (hp : 0 < parts) :
    let c := exConvConfigure numOts parts
    8 ∣ c.sizePer ∧ 8 ≤ c.sizePer ∧ c.codeSize ≤ c.n2 ∧ c.n2 = c.sizePer * parts ∧
      c.codeSize = 2 * numOts := by
  intro c
  have hsz : c.sizePer = ((numOts * 2 + parts - 1) / parts + 8 - 1) / 8 * 8 := rfl
  have h1 : 0 < (numOts * 2 + parts - 1) / parts := Nat.div_pos (by omega) hp
  have h2 : numOts * 2 ≤ parts * ((numOts * 2 + parts - 1) / parts) := by
    have := Nat.div_add_mod (numOts * 2 + parts - 1) parts
    have := Nat.mod_lt (numOts * 2 + parts - 1) hp
    omega
  have h3 : (numOts * 2 + parts - 1) / parts ≤ c.sizePer := by
    rw [hsz]
    generalize (numOts * 2 + parts - 1) / parts = q
    omega
  have h4 := Nat.mul_le_mul_left parts h3
  refine ⟨⟨_, by rw [hsz, Nat.mul_comm]⟩, by omega, ?_, rfl, ?_⟩
  · show numOts * 2 ≤ c.sizePer * parts
    rw [Nat.mul_comm c.sizePer]; omega
  · show numOts * 2 = _; omega

theorem exConv_pprf_ok (numOts parts : Nat) (hn : 0 < numOts) (hp : 0 < parts) (h8 : parts % 8 = 0)
    (hfit : (exConvConfigure numOts parts).n2 < 2 ^ 64) :
    ∃ c, (exConvConfigure numOts parts).pprf = some c ∧ c.Ok .interleaved ∧
      outSize .interleaved c = (exConvConfigure numOts parts).n2 ∧ c.pnt = parts ∧
      c.domain = (exConvConfigure numOts parts).sizePer := by
  obtain ⟨h1, h2, h3, h4, h5⟩ := exConv_facts numOts parts hn hp
  generalize hq : exConvConfigure numOts parts = q at *
  have hpp : q.parts = parts := by rw [← hq]; rfl
  have hle : q.sizePer ≤ q.sizePer * parts := Nat.le_mul_of_pos_right _ hp
  obtain ⟨d, e1, e2, e3⟩ := Util.log2Ceil_spec 64 q.sizePer (by omega) (by omega)
  have hd2 : 2 ≤ d := by
    by_contra h
    have : 2 ^ d ≤ 2 ^ 1 := Nat.pow_le_pow_right (by omega) (by omega)
    omega
  have hout : outSize .interleaved ⟨parts, q.sizePer, d⟩ = q.n2 := by
    show parts * q.sizePer = q.n2
    rw [h4, Nat.mul_comm]
  refine ⟨⟨parts, q.sizePer, d⟩, by rw [ExConvConf.pprf, e1, hpp]; rfl,
    ⟨hp, h8, hd2, ?_, e2, ?_, (fun h => by simp at h), by rw [hout]; exact hfit⟩, hout, rfl, rfl⟩
  · show q.sizePer % 2 = 0; obtain ⟨k, hk⟩ := h1; omega
  · show 0 < q.sizePer; omega

/-! ### Counting noise positions -/

theorem countP_mem_comm {α : Type} [DecidableEq α] (l m : List α) (hl : l.Nodup) (hm : m.Nodup) :
    l.countP (fun x => decide (x ∈ m)) = m.countP (fun x => decide (x ∈ l)) := by
  rw [List.countP_eq_length_filter, List.countP_eq_length_filter]
  apply List.Perm.length_eq
  rw [List.perm_ext_iff_of_nodup (hl.filter _) (hm.filter _)]
  intro a
  simp [and_comm]

theorem countP_range_ge (n k : Nat) (h : k ≤ n) :
    (List.range n).countP (fun t => decide (n - k ≤ t)) = k := by
  have e : List.range n = List.range (n - k) ++ (List.range k).map (n - k + ·) := by
    rw [← List.range_add]; congr 1; omega
  rw [e, List.countP_append]
  have h1 : (List.range (n - k)).countP (fun t => decide (n - k ≤ t)) = 0 := by
    rw [List.countP_eq_zero]
    intro t ht
    have := List.mem_range.1 ht
    simp; omega
  have h2 : ((List.range k).map (n - k + ·)).countP (fun t => decide (n - k ≤ t)) = k := by
    conv_rhs => rw [← List.length_range (n := k), ← List.length_map (n - k + ·)]
    rw [List.countP_eq_length]
    intro t ht
    obtain ⟨a, -, rfl⟩ := List.mem_map.1 ht
    simp
  rw [h1, h2, Nat.zero_add]

/-- Among the positions of the last eight trees exactly eight are noisy. -/
theorem noise_last_group (c : Conf) (ok : c.Ok .interleaved) (choices : Nat → List Bool)
    (hnd : (getPoints .interleaved c choices).Nodup)
    (hin : ∀ x ∈ getPoints .interleaved c choices, x < outSize .interleaved c) :
    ((List.range (outSize .interleaved c)).drop (outSize .interleaved c - 8 * c.domain)).countP
      (fun x => decide (x ∈ getPoints .interleaved c choices)) = 8 := by
  obtain ⟨h0, h8, -, -, -, hd, -, hmem⟩ := ok
  obtain ⟨m, hm⟩ : ∃ m, c.pnt = 8 * (m + 1) := ⟨c.pnt / 8 - 1, by omega⟩
  have hout : outSize .interleaved c = 8 * (m + 1) * c.domain := by rw [← hm]; rfl
  have hcut : outSize .interleaved c - 8 * c.domain = 8 * (m * c.domain) := by
    rw [hout, show 8 * (m + 1) * c.domain = 8 * (m * c.domain) + 8 * c.domain by ring]; omega
  rw [countP_mem_comm _ _ (List.nodup_range.sublist (List.drop_sublist _ _)) hnd]
  have hmemd : ∀ x, x ∈ (List.range (outSize .interleaved c)).drop (outSize .interleaved c - 8 * c.domain) ↔
      x < outSize .interleaved c ∧ 8 * (m * c.domain) ≤ x := by
    intro x
    rw [hcut, List.range_eq_range', List.drop_range', List.mem_range']
    constructor
    · rintro ⟨i, hi, rfl⟩; omega
    · rintro ⟨h1, h2⟩; exact ⟨x - 8 * (m * c.domain), by omega, by omega⟩
  refine Eq.trans ?_ (countP_range_ge c.pnt 8 (by omega))
  rw [getPoints, List.countP_map]
  apply List.countP_congr
  intro t ht
  have ht' := List.mem_range.1 ht
  have hx := hin _ (List.mem_map.2 ⟨t, ht, rfl⟩)
  simp only [Function.comp_apply, decide_eq_true_eq, hmemd]
  simp only [interleavePoint] at hx ⊢
  split at hx
  · omega
  · rename_i hlt
    rw [if_neg hlt]
    constructor
    · rintro ⟨-, h⟩
      by_contra hc
      have : t / 8 + 1 ≤ m := by omega
      have := Nat.mul_le_mul_right c.domain this
      rw [Nat.add_mul, Nat.one_mul] at this
      omega
    · intro h
      refine ⟨hx, ?_⟩
      have : m ≤ t / 8 := by omega
      have := Nat.mul_le_mul_right c.domain this
      omega

/-! ### The protocol -/

/-- C55, what the expand convolute code does give.  For every number of OTs, every in place code on
`2 * numOts` positions and every scheduling: both parties return `N2 ≥ 2 * numOts` OTs rather than
`numOts`, all of them matching; and the choice bits from `2 * numOts` on are the noise vector itself, so
that the choice bits of the last eight trees always contain exactly eight ones. -/
theorem exconv_silent_ot_partial (numOts parts : Nat) (hn : 0 < numOts) (hp : 0 < parts) (h8 : parts % 8 = 0)
    (hfit : (exConvConfigure numOts parts).n2 < 2 ^ 64) (C : Code) (hC : C.size = 2 * numOts)
    (P : Prf) (delta : Block) (seed : Nat → Block) (ots : Nat → Nat → Block × Block)
    (choices : Nat → List Bool) :
    ∃ c n2, (exConvConfigure numOts parts).pprf = some c ∧ n2 = (exConvConfigure numOts parts).n2 ∧
      2 * numOts ≤ n2 ∧
      ((∀ t < c.pnt, (choices t).length = c.depth) →
      (∀ x ∈ getPoints .interleaved c choices, x < n2) →
      ∀ order : List Nat, order.Perm ((List.range (c.pnt / 8)).map (8 * ·)) →
      ∃ msgs outS, sendExpand P .interleaved c seed delta ots order = some (msgs, outS) ∧
      ∀ taken, taken.Perm msgs → ∃ outR A, ∃ h : C.size ≤ n2,
        recvExpand P .interleaved c choices
          (fun t d => if (choices t).getD d false then (ots t d).2 else (ots t d).1) taken = some outR ∧
        recvPacked (exConvCode C n2 h) .lsb n2 n2 (getPoints .interleaved c choices) outR = some A ∧
        let sent := sendHash P.hash delta (sendCompress (exConvCode C n2 h) n2 outS)
        let bits := (recvHash P.hash A).2
        Mt.RotOk sent bits (recvHash P.hash A).1 ∧ sent.length = n2 ∧
        (∀ x, 2 * numOts ≤ x → x < n2 → bits[x]? = some (decide (x ∈ getPoints .interleaved c choices))) ∧
        (2 * numOts + 8 * c.domain ≤ n2 → (bits.drop (n2 - 8 * c.domain)).count true = 8)) := by
  obtain ⟨c, h1, ok, hout, hpnt, hdom⟩ := exConv_pprf_ok numOts parts hn hp h8 hfit
  obtain ⟨-, -, k1, -, k2⟩ := exConv_facts numOts parts hn hp
  have hle : 2 * numOts ≤ (exConvConfigure numOts parts).n2 := by rw [← k2]; exact k1
  refine ⟨c, _, h1, rfl, hle, fun hlen hin order horder => ?_⟩
  rw [← hout] at hin hle ⊢
  obtain ⟨msgs, outS, h2, -, hnd, h3⟩ :=
    pprf_expand P .interleaved c ok seed delta ots choices hlen hin order horder
  refine ⟨msgs, outS, h2, fun taken ht => ?_⟩
  obtain ⟨outR, r1, r2⟩ := h3 taken ht
  have hCs : C.size ≤ outSize .interleaved c := by omega
  obtain ⟨A, a1, a2, a3, a4, a5⟩ := compress_random_ot (exConvCode C _ hCs)
    P.hash delta (getPoints .interleaved c choices) outR outS (fun x _ => r2 x) _ hin .lsb
    (fun n h => by simp at h) (outSize .interleaved c)
  have hbit : ∀ x, 2 * numOts ≤ x → x < outSize .interleaved c →
      (recvHash P.hash A).2[x]? = some (decide (x ∈ getPoints .interleaved c choices)) := by
    intro x hx1 hx2
    obtain ⟨m0, m1, m, b, -, -, e3, -, e5⟩ := a5 x hx2
    rw [e3, e5]
    show some (if x < C.size then _ else if x < _ then _ else _) = _
    rw [if_neg (by omega), if_pos hx2]
  refine ⟨outR, A, hCs, r1, a1, ⟨by rw [a2, a4], ?_⟩, a2, hbit, fun hbig => ?_⟩
  · apply List.ext_getElem?
    intro i
    rw [List.getElem?_zipWith]
    by_cases hi : i < outSize .interleaved c
    · obtain ⟨m0, m1, m, b, e1, e2, e3, e4, -⟩ := a5 i hi
      rw [e1, e2, e3, e4]
    · rw [List.getElem?_eq_none (by rw [a3]; omega), List.getElem?_eq_none (l := sendHash _ _ _)
        (by rw [a2]; omega)]
  · have e : (recvHash P.hash A).2.drop (outSize .interleaved c - 8 * c.domain) =
        ((List.range (outSize .interleaved c)).drop (outSize .interleaved c - 8 * c.domain)).map
          fun x => decide (x ∈ getPoints .interleaved c choices) := by
      apply List.ext_getElem?
      intro i
      rw [List.getElem?_drop, List.getElem?_map, List.getElem?_drop]
      by_cases hi : outSize .interleaved c - 8 * c.domain + i < outSize .interleaved c
      · rw [hbit _ (by omega) hi, List.getElem?_range hi]; rfl
      · rw [List.getElem?_eq_none (by rw [a4]; omega), List.getElem?_eq_none (by simp; omega)]; rfl
    refine Eq.trans ?_ (noise_last_group c ok choices hnd hin)
    rw [e, List.count, List.countP_map]
    apply List.countP_congr
    intro x _
    simp

/-- The first request to a silent triple provider takes the last entries of the OT vectors. -/
theorem silent_first_request (bits : List Bool) (sendOts : List (Block × Block)) (recvOts : List Block)
    (hs : sendOts.length = bits.length) (hr : recvOts.length = bits.length) (n k : Nat)
    (hk : k ≤ bits.length) :
    ∃ gen p m, Mt.mtsFromRots bits sendOts recvOts = some gen ∧
      Mt.silentAll gen ⟨n, none, true⟩ [.request k] = some (p, [m]) ∧
      m.len = k ∧ m.a = bits.drop (bits.length - k) := by
  have hb : (sendOts.map fun m => xor (Mt.lsb m.1) (Mt.lsb m.2)).length = bits.length := by
    rw [List.length_map, hs]
  have hc := Mt.zipC_length hb (u := recvOts.map Mt.lsb) (by rw [List.length_map, hr])
    (v := sendOts.map fun m => Mt.lsb m.1) (by rw [List.length_map, hs])
  have hgen : Mt.mtsFromRots bits sendOts recvOts = some ⟨bits,
      (sendOts.map fun m => xor (Mt.lsb m.1) (Mt.lsb m.2)),
      Mt.zipC bits (sendOts.map fun m => xor (Mt.lsb m.1) (Mt.lsb m.2)) (recvOts.map Mt.lsb)
        (sendOts.map fun m => Mt.lsb m.1)⟩ := by
    unfold Mt.mtsFromRots Mt.MulTriples.fromRaw
    exact if_pos ⟨hb.symm, by rw [hb, hc]⟩
  generalize (sendOts.map fun m => xor (Mt.lsb m.1) (Mt.lsb m.2)) = b at *
  generalize Mt.zipC _ _ _ _ = c at *
  refine ⟨⟨bits, b, c⟩, ⟨n, some ⟨bits.take (bits.length - k), b.take (bits.length - k),
    c.take (bits.length - k)⟩, false⟩, ⟨bits.drop (bits.length - k), b.drop (bits.length - k),
    c.drop (bits.length - k)⟩, hgen, ?_, ?_, rfl⟩
  · simp [Mt.silentAll, Mt.silentProvide, Mt.silentPrecompute, Mt.MulTriples.splitOffLast,
      Mt.MulTriples.splitOff, Mt.MulTriples.len, hb, hc, hk]
  · simp [Mt.MulTriples.len]; omega

/-- C55 for the triples.  In every run of the silent provider with an expand convolute code, whatever the
code, seeds, base OTs, sampled choices and the OTs of the other direction: if the vector is longer than
`2 * numOts` by the leaves of eight trees, then the first request hands out raw noise; the last `8 * sizePer`
of the `a` shares contain exactly eight ones. -/
theorem silent_triples_biased (numOts parts : Nat) (hn : 0 < numOts) (hp : 0 < parts) (h8 : parts % 8 = 0)
    (hfit : (exConvConfigure numOts parts).n2 < 2 ^ 64)
    (hbig : 2 * numOts + 8 * (exConvConfigure numOts parts).sizePer ≤ (exConvConfigure numOts parts).n2)
    (C : Code) (hC : C.size = 2 * numOts)
    (P : Prf) (delta : Block) (seed : Nat → Block) (ots : Nat → Nat → Block × Block)
    (choices : Nat → List Bool) :
    ∃ c n2, (exConvConfigure numOts parts).pprf = some c ∧ n2 = (exConvConfigure numOts parts).n2 ∧
      ((∀ t < c.pnt, (choices t).length = c.depth) →
      (∀ x ∈ getPoints .interleaved c choices, x < n2) →
      ∀ order : List Nat, order.Perm ((List.range (c.pnt / 8)).map (8 * ·)) →
      ∃ msgs outS, sendExpand P .interleaved c seed delta ots order = some (msgs, outS) ∧
      ∀ taken, taken.Perm msgs → ∃ outR A, ∃ h : C.size ≤ n2,
        recvExpand P .interleaved c choices
          (fun t d => if (choices t).getD d false then (ots t d).2 else (ots t d).1) taken = some outR ∧
        recvPacked (exConvCode C n2 h) .lsb n2 n2 (getPoints .interleaved c choices) outR = some A ∧
        ∀ (otherSent : List (Block × Block)) (k : Nat), otherSent.length = n2 → k ≤ n2 →
          8 * c.domain ≤ k →
          ∃ gen p m, Mt.mtsFromRots (recvHash P.hash A).2 otherSent (recvHash P.hash A).1 = some gen ∧
            Mt.silentAll gen ⟨numOts, none, true⟩ [.request k] = some (p, [m]) ∧ m.len = k ∧
            (m.a.drop (k - 8 * c.domain)).count true = 8) := by
  obtain ⟨c, n2, h1, h2, h3, h4⟩ := exconv_silent_ot_partial numOts parts hn hp h8 hfit C hC P delta seed ots choices
  refine ⟨c, n2, h1, h2, fun hlen hin order horder => ?_⟩
  obtain ⟨msgs, outS, h5, h6⟩ := h4 hlen hin order horder
  refine ⟨msgs, outS, h5, fun taken ht => ?_⟩
  obtain ⟨outR, A, h, r1, r2, r3, r4, r5, r6⟩ := h6 taken ht
  refine ⟨outR, A, h, r1, r2, fun otherSent k ho hk hk8 => ?_⟩
  have hl : (recvHash P.hash A).2.length = n2 := by rw [← r3.1, r4]
  have hl1 : (recvHash P.hash A).1.length = n2 := by
    rw [r3.2, List.length_zipWith, hl, r4, Nat.min_self]
  have hdom : c.domain = (exConvConfigure numOts parts).sizePer := by
    unfold ExConvConf.pprf at h1
    obtain ⟨d, -, rfl⟩ := Option.map_eq_some_iff.1 h1
    rfl
  obtain ⟨gen, p, m, g1, g2, g3, g4⟩ := silent_first_request (recvHash P.hash A).2 otherSent
    (recvHash P.hash A).1 (by rw [ho, hl]) (by rw [hl, hl1]) numOts k (by rw [hl]; exact hk)
  refine ⟨gen, p, m, g1, g2, g3, ?_⟩
  rw [g4, hl, List.drop_drop, show n2 - k + (k - 8 * c.domain) = n2 - 8 * c.domain by omega]
  apply r6
  rw [hdom, h2]
  exact hbig

/-- The unit test of the repository (silent_ot.rs:175-194) asks for 100 triples with the default code, 400
trees: 3200 OTs come back, and all the triples are raw noise. -/
example : (exConvConfigure 100 400).n2 = 3200 ∧ (exConvConfigure 100 400).sizePer = 8 ∧
    (exConvConfigure 100 400).codeSize = 200 ∧
    2 * 100 + 8 * (exConvConfigure 100 400).sizePer ≤ (exConvConfigure 100 400).n2 := by decide

/-- The choices of the hypotheses exist: eight leaves per tree, any path. -/
example : let c : Conf := ⟨400, 8, 3⟩
    (exConvConfigure 100 400).pprf = some c ∧
    ∀ x ∈ getPoints .interleaved c (fun t => [t % 2 == 0, true, t % 3 == 0]), x < 3200 :=
  ⟨by decide +kernel, by decide +kernel⟩

end Verif.Silent
