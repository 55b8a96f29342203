import Verif.Silent.Sample

/-!
Silent OT with the Silver and the expand accumulate codes, from the base OTs to the result (C99):
zappot/src/silent_ot/silver_code.rs, ex_acc_code.rs, mod.rs:170-280, 352-507, 553-770, pprf.rs:79-84, 285-295, 640-661.
-/
set_option autoImplicit false

namespace Verif.Silent

/-- silver_code.rs:12-27 `SilverConf`, ex_acc_code.rs:12-28 `ExAccConf`, and which of them it is. -/
structure TruncConf where
  silver : Bool
  requested : Nat
  parts : Nat
  sizePer : Nat
  gap : Nat
  n2 : Nat
  codeSize : Nat

/-- silver_code.rs:30-54 `SilverConf::configure`; weights other than 5 and 11 panic.  `gap` is `code.gap()` of libOTe, `parts`
is `get_reg_noise_weight(0.2, sec_param)`.  The encoder works on all `N2` positions. -/
def silverConfigure (numOts weight gap parts : Nat) : Option TruncConf :=
  if weight = 5 ∨ weight = 11 then
    let sizePer := nextMultipleOf ((numOts * 2 + parts - 1) / parts) 8
    some { silver := true, requested := numOts, parts, sizePer, gap, n2 := sizePer * parts + gap
           codeSize := sizePer * parts + gap }
  else none

/-- ex_acc_code.rs:30-57 `ExAccConf::configure`.  `parts` is `get_reg_noise_weight(min_dist, sec_param)`. -/
def exAccConfigure (numOts parts : Nat) : TruncConf :=
  let sizePer := nextMultipleOf ((numOts * 2 + parts - 1) / parts) 8
  { silver := false, requested := numOts, parts, sizePer, gap := 0, n2 := sizePer * parts, codeSize := numOts * 2 }

/-- silver_code.rs:57-61, ex_acc_code.rs:60-64, pprf.rs:614-621: `PprfConfig` (`none`: `log2_ceil(0)`). -/
def TruncConf.pprf (q : TruncConf) : Option Conf :=
  (Util.log2Ceil 64 q.sizePer).map fun d => ⟨q.parts, q.sizePer, d⟩

/-- mod.rs:775-782 `base_ot_count`, pprf.rs:623-625. -/
def TruncConf.baseOtCount (q : TruncConf) (c : Conf) : Nat := c.depth * c.pnt + q.gap

/-- mod.rs:116-122 `Sender`: the base OTs of the trees (pprf.rs:82 `from_shape_vec`, a row for each tree) and of the gap. -/
structure TSender where
  conf : Conf
  ots : Nat → Nat → Block × Block
  gapOts : List (Block × Block)

/-- pprf.rs:82, 289: `from_shape_vec((pnt_count, depth), ..)`; positions outside (which panic) are not used. -/
def shaped {α : Type} (c : Conf) (l : List α) (dflt : α) (t d : Nat) : α :=
  if t < c.pnt ∧ d < c.depth then l.getD (t * c.depth + d) dflt else dflt

/-- mod.rs:199-223 `Sender::new_with_silent_base_ots` with pprf.rs:80-84. -/
def senderNew (q : TruncConf) (base : List (Block × Block)) : Option TSender := do
  let c ← q.pprf
  if q.baseOtCount c = base.length then
    let tree := base.take (q.baseOtCount c - q.gap)
    if c.depth * c.pnt = tree.length then
      some ⟨c, shaped c tree (0, 0), base.drop (q.baseOtCount c - q.gap)⟩
    else none
  else none

/-- mod.rs:62-70 `Receiver`. -/
structure TReceiver where
  conf : Conf
  ots : Nat → Nat → Block
  choices : Nat → List Bool
  gapOts : List Block
  gapChoices : List Bool
  points : List Nat

/-- mod.rs:391-421 `Receiver::new_with_silent_base_ots` with pprf.rs:286-295; the choice bits are `rows` for the trees and
`gapChoices`. -/
def receiverNew (q : TruncConf) (base : List Block) (rows : List (List Bool)) (gapChoices : List Bool) : Option TReceiver := do
  let c ← q.pprf
  let cut := q.baseOtCount c - q.gap
  if cut ≤ base.length then
    let tree := base.take cut
    if c.depth * c.pnt = tree.length ∧ c.depth * c.pnt = rows.flatten.length then
      some ⟨c, shaped c tree 0, fun t => rows.getD t [], base.drop cut, gapChoices,
        getPoints .interleaved c (fun t => rows.getD t []) ++ gapPoints (q.parts * q.sizePer) gapChoices⟩
    else none
  else none

/-- pprf.rs:648-657 `as_bit_vec`: the choices for the base OTs. -/
def asBitVec (rows : List (List Bool)) (gapChoices : List Bool) : List Bool := rows.flatten ++ gapChoices

/-- mod.rs:247-280 `correlated_silent_send`: the messages of the trees, the gap values, and the OTs.  The slice of mod.rs:614
panics if it is too long; Silver (mod.rs:600-608) encodes everything and truncates. -/
def correlatedSend (P : Prf) (q : TruncConf) (C : Code) (s : TSender) (seed : Nat → Block) (delta : Block) (order : List Nat) :
    Option (List Group × List Block × List Block) := do
  let (msgs, out) ← sendExpand P .interleaved s.conf seed delta s.ots order
  if q.codeSize ≤ outSize .interleaved s.conf + s.gapOts.length then
    some (msgs, (gapSend delta s.gapOts).2,
      sendCompress C q.requested (extendVec (outSize .interleaved s.conf) out (gapSend delta s.gapOts).1))
  else none

/-- mod.rs:448-507: the vector of the receiver before the compression. -/
def receiveVec (P : Prf) (r : TReceiver) (taken : List Group) (gapVals : List Block) : Option (Nat → Block) := do
  let out ← recvExpand P .interleaved r.conf r.choices r.ots taken
  some (extendVec (outSize .interleaved r.conf) out (gapRecv r.gapOts r.gapChoices gapVals))

/-- mod.rs:447-472 `correlated_silent_receive` with packed choice bits (mod.rs:655-714). -/
def receivePacked (P : Prf) (q : TruncConf) (C : Code) (r : TReceiver) (taken : List Group) (gapVals : List Block) :
    Option (List Block) := do
  let a ← receiveVec P r taken gapVals
  let len := outSize .interleaved r.conf + r.gapOts.length
  if q.codeSize ≤ len then recvPacked C .lsb q.requested len r.points a else none

/-- mod.rs:447-472 `correlated_silent_receive` with separate choice bits (mod.rs:725-752).  For Silver the OTs are truncated,
the choice bits are not. -/
def receiveUnpacked (P : Prf) (q : TruncConf) (C : Code) (r : TReceiver) (taken : List Group) (gapVals : List Block) :
    Option (List Block × List Bool) := do
  let a ← receiveVec P r taken gapVals
  let len := outSize .interleaved r.conf + r.gapOts.length
  if q.codeSize ≤ len then
    if r.points.all (fun x => decide (x < q.n2)) then
      let sb := r.points.foldl (fun (s : Nat → Bool) x => Function.update s x true) fun _ => false
      some (sendCompress C q.requested a, (List.range (if q.silver then q.n2 else q.requested)).map (C.E sb))
    else none
  else none

/-- mod.rs:226-246 `random_silent_send`, of the OTs. -/
def randomSend (P : Prf) (delta : Block) (b : List Block) : List (Block × Block) := sendHash P.hash delta b

/-! ### Specification -/

/-- A configuration of one of the codes for `numOts` OTs that fits into memory, and an additive map on its positions. -/
structure Configured (numOts : Nat) (q : TruncConf) (C : Code) : Prop where
  made : (∃ w gap parts, silverConfigure numOts w gap parts = some q ∧ 0 < parts ∧ parts % 8 = 0) ∨
    ∃ parts, q = exAccConfigure numOts parts ∧ 0 < parts ∧ parts % 8 = 0
  fits : q.n2 < 2 ^ 64
  size : C.size = q.codeSize

/-- What happens before the trees: the receiver samples its choice bits and a base OT is run for each of them. -/
structure Based (q : TruncConf) (base : List (Block × Block)) (recv : List Block) (rows : List (List Bool))
    (gapChoices : List Bool) : Prop where
  sampled : ∃ c k draws rest, q.pprf = some c ∧ draws ∈ Draws c.depth k ∧
    sampleChoiceBits .interleaved c q.n2 draws = some (rows, rest)
  gap : gapChoices.length = q.gap
  rot : Mt.RotOk base (asBitVec rows gapChoices) recv

/-! ### Proof -/

theorem configured_facts {numOts : Nat} (hn : 0 < numOts) {q : TruncConf} {C : Code} (h : Configured numOts q C) :
    q.requested = numOts ∧ q.sizePer = (exConvConfigure numOts q.parts).sizePer ∧ 0 < q.parts ∧ q.parts % 8 = 0 ∧
      q.n2 = q.sizePer * q.parts + q.gap ∧ q.codeSize ≤ q.n2 ∧ (q.silver = true → q.codeSize = q.n2) ∧ 2 * numOts ≤ q.n2 := by
  rcases h.made with ⟨w, gap, parts, h1, h2, h3⟩ | ⟨parts, rfl, h2, h3⟩
  · unfold silverConfigure at h1
    by_cases hw : w = 5 ∨ w = 11
    · rw [if_pos hw] at h1
      obtain rfl := Option.some.inj h1
      obtain ⟨-, -, k, k', k''⟩ := exConv_facts numOts parts hn h2
      refine ⟨rfl, rfl, h2, h3, rfl, le_refl _, fun _ => rfl, ?_⟩
      show 2 * numOts ≤ (exConvConfigure numOts parts).sizePer * parts + gap
      omega
    · rw [if_neg hw] at h1
      cases h1
  · obtain ⟨-, -, k, k', k''⟩ := exConv_facts numOts parts hn h2
    refine ⟨rfl, rfl, h2, h3, rfl, k, fun h => Bool.noConfusion (show false = true from h), ?_⟩
    show 2 * numOts ≤ (exConvConfigure numOts parts).n2
    omega

theorem configured_pprf {numOts : Nat} (hn : 0 < numOts) {q : TruncConf} {C : Code} (h : Configured numOts q C) :
    ∃ c, q.pprf = some c ∧ c.Ok .interleaved ∧ c.pnt = q.parts ∧ c.domain = q.sizePer ∧
      outSize .interleaved c + q.gap = q.n2 := by
  obtain ⟨-, h2, h3, h4, h5, -, -, -⟩ := configured_facts hn h
  have hfit : (exConvConfigure numOts q.parts).n2 < 2 ^ 64 := by
    show (exConvConfigure numOts q.parts).sizePer * q.parts < _
    rw [← h2]
    have := h.fits
    omega
  obtain ⟨c, k1, k2, k3, k4, k5⟩ := exConv_pprf_ok numOts q.parts hn h3 h4 hfit
  refine ⟨c, ?_, k2, k4, by rw [k5, h2], ?_⟩
  · rw [← k1]
    show (Util.log2Ceil 64 q.sizePer).map _ = (Util.log2Ceil 64 (exConvConfigure numOts q.parts).sizePer).map _
    rw [h2]
    rfl
  · rw [k3, h5]
    show (exConvConfigure numOts q.parts).sizePer * q.parts + q.gap = _
    rw [h2]

/-- Points below a modulus that includes the gap lie in the trees. -/
theorem points_in (c : Conf) (ok : c.Ok .interleaved) (choices : Nat → List Bool) (N : Nat) (hN : N < 2 ^ 64)
    (h : ∀ x ∈ getPoints .interleaved c choices, x < N) : ∀ x ∈ getPoints .interleaved c choices, x < outSize .interleaved c := by
  intro x hx
  have hlt := h x hx
  simp only [getPoints, List.mem_map, List.mem_range] at hx
  obtain ⟨t, ht, rfl⟩ := hx
  unfold interleavePoint at hlt ⊢
  dsimp only at hlt ⊢
  by_cases hd : c.domain ≤ activePath (choices t)
  · rw [if_pos hd] at hlt; omega
  · rw [if_neg hd]
    obtain ⟨m, hm⟩ : ∃ m, c.pnt = 8 * m := ⟨c.pnt / 8, by have := ok.mul8; omega⟩
    have h1 : (t / 8 + 1) * c.domain ≤ m * c.domain := Nat.mul_le_mul_right _ (by omega)
    rw [Nat.add_mul] at h1
    show _ < c.pnt * c.domain
    have e : c.pnt * c.domain = 8 * (m * c.domain) := by rw [hm]; ring
    omega

theorem flatten_uniform {α : Type} (n : Nat) (rows : List (List α)) (h : ∀ r ∈ rows, r.length = n) :
    rows.flatten.length = n * rows.length := by
  induction rows with
  | nil => simp
  | cons r rows ih =>
    rw [List.flatten_cons, List.length_append, h r List.mem_cons_self, ih fun r hr => h r (List.mem_cons_of_mem _ hr),
      List.length_cons, Nat.mul_add]
    omega

theorem flatten_get {α : Type} (n : Nat) (rows : List (List α)) (h : ∀ r ∈ rows, r.length = n) (t d : Nat) (hd : d < n) :
    rows.flatten[t * n + d]? = (rows[t]?).bind (·[d]?) := by
  induction rows generalizing t with
  | nil => simp
  | cons r rows ih =>
    have hr := h r List.mem_cons_self
    cases t with
    | zero =>
      rw [List.flatten_cons, List.getElem?_append_left (by omega)]
      simp
    | succ t =>
      have e : (t + 1) * n + d = r.length + (t * n + d) := by rw [Nat.add_mul, hr]; omega
      rw [List.flatten_cons, e, List.getElem?_append_right (by omega), Nat.add_sub_cancel_left,
        ih (fun r hr => h r (List.mem_cons_of_mem _ hr)) t]
      simp

/-- Both parties accept the base OTs, and those of the trees and of the gap correspond. -/
theorem based_new {numOts : Nat} (hn : 0 < numOts) {q : TruncConf} {C : Code} (hq : Configured numOts q C)
    {base : List (Block × Block)} {recv : List Block} {rows : List (List Bool)} {gapChoices : List Bool}
    (hb : Based q base recv rows gapChoices) :
    ∃ (c : Conf) (s : TSender) (r : TReceiver), senderNew q base = some s ∧ receiverNew q recv rows gapChoices = some r ∧
      c.Ok .interleaved ∧ outSize .interleaved c + q.gap = q.n2 ∧ s.conf = c ∧ r.conf = c ∧ base.length = q.baseOtCount c ∧
      (∀ t < c.pnt, (r.choices t).length = c.depth) ∧ (∀ x ∈ getPoints .interleaved c r.choices, x < outSize .interleaved c) ∧
      (r.ots = fun t d => if (r.choices t).getD d false then (s.ots t d).2 else (s.ots t d).1) ∧
      s.gapOts.length = q.gap ∧ r.gapChoices = gapChoices ∧ r.gapChoices.length = s.gapOts.length ∧
      r.gapOts = List.zipWith (fun (ot : Block × Block) (b : Bool) => if b then ot.2 else ot.1) s.gapOts r.gapChoices ∧
      r.points = getPoints .interleaved c r.choices ++ gapPoints (outSize .interleaved c) r.gapChoices := by
  obtain ⟨c, h1, ok, hpnt, hdom, hout⟩ := configured_pprf hn hq
  obtain ⟨⟨c', k, draws, rest, e, hdr, hsm⟩, hg, hrot, hrecv⟩ := hb
  rw [h1] at e
  obtain rfl := Option.some.inj e
  obtain ⟨hrl, hrd, hin⟩ := sample_accepted .interleaved c ok.mul8 q.n2 k draws hdr rows rest hsm
  have hrows : ∀ r ∈ rows, r.length = c.depth := by
    intro r hr
    obtain ⟨t, ht, rfl⟩ := List.mem_iff_getElem.1 hr
    have := hrd t (by omega)
    rwa [List.getD_eq_getElem?_getD, List.getElem?_eq_getElem ht, Option.getD_some] at this
  have hfl : rows.flatten.length = c.depth * c.pnt := by rw [flatten_uniform c.depth rows hrows, hrl]
  have hbl : base.length = c.depth * c.pnt + q.gap := by rw [hrot, asBitVec, List.length_append, hfl, hg]
  have hcut : q.baseOtCount c - q.gap = c.depth * c.pnt := Nat.add_sub_cancel _ _
  have hrcl : recv.length = c.depth * c.pnt + q.gap := by
    rw [hrecv, List.length_zipWith, ← hrot, Nat.min_self, hbl]
  refine ⟨c, ⟨c, shaped c (base.take (c.depth * c.pnt)) (0, 0), base.drop (c.depth * c.pnt)⟩,
    ⟨c, shaped c (recv.take (c.depth * c.pnt)) 0, fun t => rows.getD t [], recv.drop (c.depth * c.pnt),
      gapChoices, getPoints .interleaved c (fun t => rows.getD t []) ++ gapPoints (q.parts * q.sizePer) gapChoices⟩,
    ?_, ?_, ok, hout, rfl, rfl, hbl, hrd, points_in c ok _ q.n2 hq.fits hin, ?_, ?_, rfl, ?_, ?_, ?_⟩
  · simp only [senderNew, h1, Option.bind_eq_bind, Option.bind_some, hcut]
    rw [if_pos (show q.baseOtCount c = base.length from hbl.symm), if_pos (by rw [List.length_take]; omega)]
  · simp only [receiverNew, h1, Option.bind_eq_bind, Option.bind_some, hcut]
    rw [if_pos (by omega), if_pos ⟨by rw [List.length_take]; omega, hfl.symm⟩]
  · funext t d
    dsimp only [shaped]
    by_cases htd : t < c.pnt ∧ d < c.depth
    swap
    · rw [if_neg htd, if_neg htd]; simp
    rw [if_pos htd, if_pos htd]
    obtain ⟨ht, hd⟩ := htd
    have hlt : t * c.depth + d < c.depth * c.pnt := by
      have : (t + 1) * c.depth ≤ c.pnt * c.depth := Nat.mul_le_mul_right _ ht
      rw [Nat.add_mul, Nat.mul_comm c.pnt] at this
      omega
    obtain ⟨b, ebase⟩ : ∃ b, base[t * c.depth + d]? = some b := ⟨_, List.getElem?_eq_getElem (by omega)⟩
    have hch : (asBitVec rows gapChoices)[t * c.depth + d]? = some ((rows.getD t []).getD d false) := by
      rw [asBitVec, List.getElem?_append_left (by omega), flatten_get c.depth rows hrows t d hd]
      have ht' : t < rows.length := by omega
      have hl := hrows rows[t] (List.getElem_mem ht')
      have e : rows.getD t [] = rows[t] := by rw [List.getD_eq_getElem?_getD, List.getElem?_eq_getElem ht', Option.getD_some]
      rw [e, List.getElem?_eq_getElem ht', Option.bind_some, List.getD_eq_getElem?_getD,
        List.getElem?_eq_getElem (by omega), Option.getD_some]
    have er : recv[t * c.depth + d]? = some (if (rows.getD t []).getD d false then b.2 else b.1) := by
      rw [hrecv, List.getElem?_zipWith, ebase, hch]
    rw [List.getD_eq_getElem?_getD, List.getElem?_take_of_lt hlt, er, Option.getD_some,
      List.getD_eq_getElem?_getD (l := base.take _), List.getElem?_take_of_lt hlt, ebase, Option.getD_some]
  · show (base.drop (c.depth * c.pnt)).length = _
    rw [List.length_drop]; omega
  · show gapChoices.length = (base.drop (c.depth * c.pnt)).length
    rw [List.length_drop]; omega
  · show recv.drop (c.depth * c.pnt) = _
    dsimp only
    rw [hrecv, List.drop_zipWith, asBitVec, ← hfl, List.drop_left]
  · have : q.parts * q.sizePer = outSize .interleaved c := by
      show _ = c.pnt * c.domain
      rw [hpnt, hdom]
    dsimp only
    rw [this]

/-- The vectors before the compression. -/
theorem vectors {numOts : Nat} (hn : 0 < numOts) {q : TruncConf} {C : Code} (hq : Configured numOts q C)
    {base : List (Block × Block)} {recv : List Block} {rows : List (List Bool)} {gapChoices : List Bool}
    (hb : Based q base recv rows gapChoices) (P : Prf) (seed : Nat → Block) (delta : Block) (order : List Nat)
    (horder : order.Perm ((List.range (q.parts / 8)).map (8 * ·))) :
    ∃ s r msgs outS, senderNew q base = some s ∧ receiverNew q recv rows gapChoices = some r ∧
      sendExpand P .interleaved s.conf seed delta s.ots order = some (msgs, outS) ∧
      outSize .interleaved s.conf + s.gapOts.length = q.n2 ∧ outSize .interleaved r.conf + r.gapOts.length = q.n2 ∧
      (∀ x ∈ r.points, x < q.n2) ∧
      ∀ taken, taken.Perm msgs → ∃ a, receiveVec P r taken (gapSend delta s.gapOts).2 = some a ∧
        ∀ x < C.size, a x = if x ∈ r.points then
          extendVec (outSize .interleaved s.conf) outS (gapSend delta s.gapOts).1 x ^^^ delta
          else extendVec (outSize .interleaved s.conf) outS (gapSend delta s.gapOts).1 x := by
  obtain ⟨c, s, r, hs, hr, ok, hout, hsc, hrc, -, hlen, hin, hots, hgl, -, hgc, hgo, hpt⟩ := based_new hn hq hb
  have hpnt : c.pnt = q.parts := by
    obtain ⟨c', k1, -, k2, -, -⟩ := configured_pprf hn hq
    obtain ⟨c'', -, -, -, e1, -⟩ := hb.sampled
    have : q.pprf = some c := by
      simp only [senderNew, k1, Option.bind_eq_bind, Option.bind_some] at hs
      by_cases h1 : q.baseOtCount c' = base.length
      · rw [if_pos h1] at hs
        by_cases h2 : c'.depth * c'.pnt = (base.take (q.baseOtCount c' - q.gap)).length
        · rw [if_pos h2] at hs
          have := congrArg TSender.conf (Option.some.inj hs)
          rw [hsc] at this
          rw [k1]
          exact congrArg some this
        · rw [if_neg h2] at hs; cases hs
      · rw [if_neg h1] at hs; cases hs
    rw [k1] at this
    rw [← Option.some.inj this, k2]
  obtain ⟨msgs, outS, h1, -, -, h2⟩ := pprf_expand P .interleaved c ok seed delta s.ots r.choices hlen hin order (by rw [hpnt]; exact horder)
  have hrgl : r.gapOts.length = q.gap := by rw [hgo, List.length_zipWith, hgc, Nat.min_self, hgl]
  obtain ⟨-, -, -, -, -, hcs, -, -⟩ := configured_facts hn hq
  refine ⟨s, r, msgs, outS, hs, hr, by rw [hsc]; exact h1, by rw [hsc, hgl, hout], by rw [hrc, hrgl, hout], ?_, fun taken ht => ?_⟩
  · rw [hpt]
    intro x hx
    rcases List.mem_append.1 hx with h | h
    · have := hin x h; omega
    · obtain ⟨h1, h2⟩ := (gapPoints_mem _ _ _).1 h
      obtain ⟨h3, -⟩ := List.getElem?_eq_some_iff.1 h2
      omega
  · obtain ⟨outR, h3, h4⟩ := h2 taken ht
    have hg := gap_correct_partial delta s.gapOts r.gapChoices hgc
    simp only at hg
    refine ⟨extendVec (outSize .interleaved c) outR (gapRecv r.gapOts r.gapChoices (gapSend delta s.gapOts).2), ?_, ?_⟩
    · simp only [receiveVec, hrc, hots, h3, Option.bind_eq_bind, Option.bind_some]
    · rw [hgo, hg, hpt, hsc]
      have hCs : C.size ≤ outSize .interleaved c + s.gapOts.length := by rw [hq.size, hgl, hout]; exact hcs
      intro x hx
      simp only [extendVec, List.mem_append, gapPoints_mem]
      by_cases hlt : x < outSize .interleaved c
      · rw [if_pos hlt, if_pos hlt, h4]
        have : ¬ outSize .interleaved c ≤ x := by omega
        simp [this]
      · rw [if_neg hlt, if_neg hlt]
        have hnp : x ∉ getPoints .interleaved c r.choices := fun h => hlt (hin x h)
        obtain ⟨k, hk', rfl⟩ : ∃ k, k < s.gapOts.length ∧ x = outSize .interleaved c + k :=
          ⟨x - outSize .interleaved c, by omega, by omega⟩
        rw [Nat.add_sub_cancel_left]
        have e1 : (gapSend delta s.gapOts).1[k]? = some s.gapOts[k].1 := by
          simp [gapSend, List.getElem?_eq_getElem hk']
        have e2 : r.gapChoices[k]? = some (r.gapChoices[k]'(by omega)) := List.getElem?_eq_getElem (by omega)
        simp only [hnp, false_or, Nat.le_add_right, true_and, List.getD_eq_getElem?_getD,
          List.getElem?_zipWith, e1, e2, Option.getD_some, Option.some.injEq]

/-! ### Theorems -/

/-- **C99.**  Silent random OT with the Silver or an expand accumulate code, for every number of OTs, from the sampled choice
bits and the base OTs on: both parties accept the base OTs, and for every order in which the groups of trees are computed and
taken they return exactly as many matching random OTs as requested. -/
theorem trunc_silent_ot (numOts : Nat) (hn : 0 < numOts) (q : TruncConf) (C : Code) (hq : Configured numOts q C)
    (base : List (Block × Block)) (recv : List Block) (rows : List (List Bool)) (gapChoices : List Bool)
    (hb : Based q base recv rows gapChoices) (P : Prf) (seed : Nat → Block) (delta : Block) (order : List Nat)
    (horder : order.Perm ((List.range (q.parts / 8)).map (8 * ·))) :
    ∃ s r msgs gapVals b, senderNew q base = some s ∧ receiverNew q recv rows gapChoices = some r ∧
      correlatedSend P q C s seed delta order = some (msgs, gapVals, b) ∧
      ∀ taken, taken.Perm msgs → ∃ a, receivePacked P q C r taken gapVals = some a ∧
        (randomSend P delta b).length = numOts ∧
        Mt.RotOk (randomSend P delta b) (recvHash P.hash a).2 (recvHash P.hash a).1 := by
  obtain ⟨s, r, msgs, outS, hs, hr, he, hl1, hl2, hpt, hv⟩ := vectors hn hq hb P seed delta order horder
  obtain ⟨hreq, -, -, -, -, hcs, -, -⟩ := configured_facts hn hq
  refine ⟨s, r, msgs, (gapSend delta s.gapOts).2,
    sendCompress C q.requested (extendVec (outSize .interleaved s.conf) outS (gapSend delta s.gapOts).1), hs, hr, ?_, ?_⟩
  · simp only [correlatedSend, he, Option.bind_eq_bind, Option.bind_some]
    rw [if_pos (by rw [hl1]; exact hcs)]
  · intro taken ht
    obtain ⟨a, ha, hab⟩ := hv taken ht
    obtain ⟨A, a1, a2, a3, a4, a5⟩ := compress_random_ot C P.hash delta r.points a _ hab q.n2 hpt .lsb
      (fun n h => by simp at h) q.requested
    refine ⟨A, ?_, by rw [randomSend, a2, hreq], by rw [randomSend, a2, a4], ?_⟩
    · simp only [receivePacked, ha, Option.bind_eq_bind, Option.bind_some]
      rw [hl2, if_pos hcs, a1]
    · apply List.ext_getElem?
      intro i
      rw [List.getElem?_zipWith]
      by_cases hi : i < q.requested
      · obtain ⟨m0, m1, m, b, e1, e2, e3, e4, -⟩ := a5 i hi
        rw [randomSend, e1, e2, e3, e4]
      · rw [List.getElem?_eq_none (by rw [a3]; omega), List.getElem?_eq_none (l := randomSend _ _ _)
          (by rw [randomSend, a2]; omega)]

/-- **C99** for the correlated OTs with separate choice bits: the receiver gets `b[i] + c[i] * delta` for every requested OT.
It gets as many choice bits as OTs with the expand accumulate codes; with Silver it gets `N2` choice bits, more than twice
as many as OTs (the claim that both have the same length is false). -/
theorem trunc_correlated_partial (numOts : Nat) (hn : 0 < numOts) (q : TruncConf) (C : Code) (hq : Configured numOts q C)
    (base : List (Block × Block)) (recv : List Block) (rows : List (List Bool)) (gapChoices : List Bool)
    (hb : Based q base recv rows gapChoices) (P : Prf) (seed : Nat → Block) (delta : Block) (order : List Nat)
    (horder : order.Perm ((List.range (q.parts / 8)).map (8 * ·))) :
    ∃ s r msgs gapVals b, senderNew q base = some s ∧ receiverNew q recv rows gapChoices = some r ∧
      correlatedSend P q C s seed delta order = some (msgs, gapVals, b) ∧ b.length = numOts ∧
      ∀ taken, taken.Perm msgs → ∃ a cs, receiveUnpacked P q C r taken gapVals = some (a, cs) ∧ a.length = numOts ∧
        (q.silver = false → cs.length = numOts) ∧ (q.silver = true → 2 * numOts ≤ cs.length) ∧
        ∀ i < numOts, ∃ ai bi ci, a[i]? = some ai ∧ b[i]? = some bi ∧ cs[i]? = some ci ∧
          ai = bi ^^^ (if ci then delta else 0) := by
  obtain ⟨s, r, msgs, outS, hs, hr, he, hl1, hl2, hpt, hv⟩ := vectors hn hq hb P seed delta order horder
  obtain ⟨hreq, -, -, -, -, hcs, -, hbig⟩ := configured_facts hn hq
  refine ⟨s, r, msgs, (gapSend delta s.gapOts).2,
    sendCompress C q.requested (extendVec (outSize .interleaved s.conf) outS (gapSend delta s.gapOts).1), hs, hr, ?_,
    by simp [sendCompress, hreq], ?_⟩
  · simp only [correlatedSend, he, Option.bind_eq_bind, Option.bind_some]
    rw [if_pos (by rw [hl1]; exact hcs)]
  · intro taken ht
    obtain ⟨a, ha, hab⟩ := hv taken ht
    obtain ⟨A, cs, a1, a2, a3, a4, a5⟩ := compress_correlated C delta r.points a _ hab q.n2 hpt q.requested
    have hall : r.points.all (fun x => decide (x < q.n2)) = true := by simpa using hpt
    simp only [recvUnpacked, if_pos hall, Option.some.injEq, Prod.mk.injEq] at a1
    obtain ⟨rfl, rfl⟩ := a1
    refine ⟨sendCompress C q.requested a, (List.range (if q.silver then q.n2 else q.requested)).map (C.E (r.points.foldl
      (fun (s : Nat → Bool) x => Function.update s x true) fun _ => false)), ?_, by rw [a2, hreq], ?_, ?_, ?_⟩
    · simp only [receiveUnpacked, ha, Option.bind_eq_bind, Option.bind_some]
      rw [hl2, if_pos hcs, if_pos hall]
    · intro h; simp [h, hreq]
    · intro h; simp [h, hbig]
    · intro i hi
      obtain ⟨ai, bi, ci, e1, e2, e3, e4⟩ := a5 i (by omega)
      refine ⟨ai, bi, ci, e1, e2, ?_, e4⟩
      have hlt : i < (if q.silver = true then q.n2 else q.requested) := by
        split <;> omega
      rw [List.getElem?_map, List.getElem?_range hlt]
      rw [List.getElem?_map, List.getElem?_range (by omega)] at e3
      exact e3

/-! The hypotheses can be met: whatever the configuration, the sampling succeeds for some coins. -/

theorem sampleRows_all (os : List (List Bool → Bool)) (row : List Bool) (h : ∀ o ∈ os, o row = true) :
    sampleRows os (List.replicate os.length row) = some (List.replicate os.length row, []) := by
  induction os with
  | nil => rfl
  | cons o os ih =>
    simp only [List.length_cons, List.replicate_succ, sampleRows, sampleRow, h o List.mem_cons_self, if_true, Option.bind_some,
      ih fun o ho => h o (List.mem_cons_of_mem _ ho), Option.map_some]

theorem based_exists {numOts : Nat} (hn : 0 < numOts) {q : TruncConf} {C : Code} (hq : Configured numOts q C)
    (gapChoices : List Bool) (hg : gapChoices.length = q.gap) (ots : Nat → Block × Block) :
    ∃ base recv rows, Based q base recv rows gapChoices ∧ ∀ (i : Nat) (b : Block × Block), base[i]? = some b → b = ots i := by
  obtain ⟨c, h1, ok, hpnt, hdom, hout⟩ := configured_pprf hn hq
  have hm : nextMultipleOf c.pnt 8 = c.pnt := by have := ok.mul8; unfold nextMultipleOf; omega
  have hf : ∀ i < c.pnt, interleavePoint .interleaved c.pnt c.domain i 0 < q.n2 := fun i hi => by
    have := first_leaf .interleaved c ok (fun h => by cases h) i hi
    omega
  have hs : sampleChoiceBits .interleaved c q.n2 (List.replicate c.pnt (rowOf c.depth 0)) =
      some (List.replicate c.pnt (rowOf c.depth 0), []) := by
    unfold sampleChoiceBits
    dsimp only
    rw [hm, if_pos (by simpa using hf)]
    have := sampleRows_all ((List.range c.pnt).map (accepts .interleaved c q.n2)) (rowOf c.depth 0) (by
      intro o ho
      obtain ⟨i, hi, rfl⟩ := List.mem_map.1 ho
      rw [accepts, activePath_rowOf _ _ (Nat.two_pow_pos _)]
      exact decide_eq_true (hf i (List.mem_range.1 hi)))
    rwa [List.length_map, List.length_range] at this
  refine ⟨(List.range (asBitVec (List.replicate c.pnt (rowOf c.depth 0)) gapChoices).length).map ots, _,
    List.replicate c.pnt (rowOf c.depth 0), ⟨⟨c, c.pnt, _, [], h1, ⟨by simp, ?_⟩, hs⟩, hg, by simp, rfl⟩, ?_⟩
  · intro d hd
    rw [List.eq_of_mem_replicate hd]
    simp [rowOf]
  · intro i b hb
    rw [List.getElem?_map, Option.map_eq_some_iff] at hb
    obtain ⟨j, hj, rfl⟩ := hb
    obtain ⟨-, rfl⟩ := List.getElem?_eq_some_iff.1 hj
    simp

/-- The code that returns its positions. -/
def idCode (n : Nat) : Code where
  size := n
  E u x := if x < n then u x else false
  add u v x := by split <;> rfl
  loc u v h x := by split; exacts [h x ‹_›, rfl]

/-- 100 OTs with the Silver code of weight 5 (16 gap positions) and with an expand accumulate code; for Silver the receiver gets
at least 200 choice bits for its 100 correlated OTs. -/
example : ∃ q, silverConfigure 100 5 16 176 = some q ∧ q.n2 = 1424 ∧ Configured 100 q (idCode q.n2) ∧
    Configured 100 (exAccConfigure 100 176) (idCode 200) :=
  ⟨_, rfl, by decide, ⟨.inl ⟨5, 16, 176, rfl, by decide, by decide⟩, by decide, rfl⟩,
    ⟨.inr ⟨176, rfl, by decide, by decide⟩, by decide, rfl⟩⟩

/-- An unsupported weight panics. -/
example : silverConfigure 100 7 16 176 = none := by decide

end Verif.Silent
