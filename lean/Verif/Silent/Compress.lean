import Verif.Silent.Expand
import Batteries.Data.BitVec.Lemmas

/-!
From the expanded vectors to random OTs (C33, C35): zappot/src/silent_ot/mod.rs.

A vector of blocks is a function from positions (as in `Expand`).  The dual encoding is the same
linear map on each of the 128 bit slices.
-/
set_option autoImplicit false

namespace Verif.Silent

/-- The encoders (mod.rs:77-87).  `E` is the action on one bit slice, looking at the first `size`
positions; it is any additive map.  For the quasi cyclic code it is `reduce` of
quasi_cyclic_encode.rs:220-245, see `Modp`; the other codes are calls of libOTe. -/
structure Code where
  size : Nat
  E : (Nat → Bool) → Nat → Bool
  add : ∀ u v i, E (fun x => u x ^^ v x) i = (E u i ^^ E v i)
  loc : ∀ u v, (∀ x < size, u x = v x) → ∀ i, E u i = E v i

/-- mod.rs:595-630 `send_compress` (and the encoding part of `recv_compress`): entry `i` of the
encoded vector. -/
def Code.encode (C : Code) (v : Nat → Block) (i : Nat) : Block :=
  BitVec.ofFnLE fun r : Fin 128 => C.E (fun x => (v x).getLsbD r) i

/-- mod.rs:595-630 `send_compress`, returning `n` entries. -/
def sendCompress (C : Code) (n : Nat) (v : Nat → Block) : List Block :=
  (List.range n).map (C.encode v)

/-- `Block::all_ones() ^ Block::one()`. -/
def lsbMask : Block := BitVec.allOnes 128 ^^^ 1

/-- mod.rs:313-325 `Sender::hash`. -/
def sendHash (H : Block → Block) (delta : Block) (B : List Block) : List (Block × Block) :=
  let d := delta &&& lsbMask
  B.map fun b =>
    let masked := b &&& lsbMask
    (H masked, H (masked ^^^ d))

/-- mod.rs:510-522 `Receiver::hash`. -/
def recvHash (H : Block → Block) (A : List Block) : List Block × List Bool :=
  (A.map fun a => H (a &&& lsbMask), A.map fun a => a &&& 1 == 1)

/-- How the choice bits are stored in the vector before encoding. -/
inductive Packing
  | lsb
  | row0 (n2Blocks : Nat)

/-- mod.rs:655-680 storing the noise positions in the vector of `len` positions: in the least
significant bits (669-679), or for the quasi cyclic code by overwriting the first row of the
transposed matrix (664-668).  `none`: an index is out of range. -/
def pack (p : Packing) (len : Nat) (S : List Nat) (a : Nat → Block) : Option (Nat → Block) :=
  if S.all (fun x => decide (x < len)) then
    match p with
    | .lsb => some (S.foldl (fun a x => Function.update a x (a x ||| 1)) fun x => a x &&& lsbMask)
    | .row0 n2 =>
      let sb := S.foldl (fun (s : Nat → Bool) x => Function.update s x true) fun _ => false
      some fun x =>
        if x < 128 * n2 then BitVec.ofFnLE fun r : Fin 128 => if r.val = 0 then sb x else (a x).getLsbD r
        else a x
  else none

/-- mod.rs:632-714 `recv_compress` with packed choice bits. -/
def recvPacked (C : Code) (p : Packing) (n len : Nat) (S : List Nat) (a : Nat → Block) :
    Option (List Block) :=
  (pack p len S a).map (sendCompress C n)

/-- mod.rs:632-772 `recv_compress` with separate choice bits: the noise vector is encoded by the same
code. -/
def recvUnpacked (C : Code) (n len : Nat) (S : List Nat) (a : Nat → Block) :
    Option (List Block × List Bool) :=
  if S.all (fun x => decide (x < len)) then
    let sb := S.foldl (fun (s : Nat → Bool) x => Function.update s x true) fun _ => false
    some (sendCompress C n a, (List.range n).map (C.E sb))
  else none

/-! ### Correctness of compression and hashing -/

theorem noise_eq (S : List Nat) (s : Nat → Bool) (x : Nat) :
    S.foldl (fun (s : Nat → Bool) x => Function.update s x true) s x = (s x || decide (x ∈ S)) := by
  induction S generalizing s with
  | nil => simp
  | cons y S ih =>
    rw [List.foldl_cons, ih]
    by_cases h : x = y
    · subst h; simp
    · simp [Function.update_of_ne h, h]

theorem getLsbD_one (r : Nat) : (1 : Block).getLsbD r = decide (r = 0) := by
  rw [show (1 : Block) = 1#128 by rfl, BitVec.getLsbD_one]
  by_cases h : r = 0 <;> simp [h]

theorem packed_eq (S : List Nat) (a : Nat → Block) (x r : Nat) (hr : r < 128) :
    (S.foldl (fun a x => Function.update a x (a x ||| 1)) a x).getLsbD r =
      ((a x).getLsbD r || (decide (r = 0) && decide (x ∈ S))) := by
  induction S generalizing a with
  | nil => simp
  | cons y S ih =>
    rw [List.foldl_cons, ih]
    by_cases h : x = y
    · subst h
      rw [Function.update_self, BitVec.getLsbD_or, getLsbD_one]
      by_cases h0 : r = 0 <;> simp [h0]
    · simp [Function.update_of_ne h, h]

theorem getLsbD_lsbMask (r : Nat) (hr : r < 128) : lsbMask.getLsbD r = decide (r ≠ 0) := by
  rw [lsbMask, BitVec.getLsbD_xor, getLsbD_one, BitVec.getLsbD_allOnes]
  by_cases h : r = 0 <;> simp [h, hr]

/-- Both ways of packing: the first bit is the noise indicator, the others are unchanged. -/
theorem pack_bits (p : Packing) (len : Nat) (S : List Nat) (hS : ∀ x ∈ S, x < len) (a : Nat → Block) :
    ∃ a', pack p len S a = some a' ∧ ∀ x, (∀ n, p = .row0 n → x < 128 * n) → ∀ r < 128,
      (a' x).getLsbD r = if r = 0 then decide (x ∈ S) else (a x).getLsbD r := by
  have hall : S.all (fun x => decide (x < len)) = true := by
    simpa using hS
  cases p with
  | lsb =>
    refine ⟨_, if_pos hall, fun x _ r hr => ?_⟩
    rw [packed_eq _ _ _ _ hr, BitVec.getLsbD_and, getLsbD_lsbMask r hr]
    by_cases h : r = 0 <;> simp [h]
  | row0 n =>
    refine ⟨_, if_pos hall, fun x hx r hr => ?_⟩
    beta_reduce
    rw [if_pos (hx n rfl), BitVec.getLsbD_ofFnLE]
    simp only [hr, noise_eq, Bool.false_or]
    by_cases h : r = 0 <;> simp [h]

theorem Code.zero (C : Code) (i : Nat) : C.E (fun _ => false) i = false := by
  have := C.add (fun _ => false) (fun _ => false) i
  simpa using this

theorem Code.scale (C : Code) (b : Bool) (u : Nat → Bool) (i : Nat) :
    C.E (fun x => b && u x) i = (b && C.E u i) := by
  cases b
  · simpa using C.zero i
  · simp

theorem encode_bit (C : Code) (v : Nat → Block) (i r : Nat) (hr : r < 128) :
    (C.encode v i).getLsbD r = C.E (fun x => (v x).getLsbD r) i := by
  rw [Code.encode, BitVec.getLsbD_ofFnLE]
  simp [hr]

/-- Bit `r` of the encodings of two vectors that differ by `delta` at the positions `S`. -/
theorem encode_diff (C : Code) (S : List Nat) (delta : Block) (a b : Nat → Block)
    (hab : ∀ x < C.size, a x = if x ∈ S then b x ^^^ delta else b x) (i r : Nat) :
    C.E (fun x => (a x).getLsbD r) i =
      (C.E (fun x => (b x).getLsbD r) i ^^ (delta.getLsbD r && C.E (fun x => decide (x ∈ S)) i)) := by
  rw [← C.scale, ← C.add]
  apply C.loc
  intro x hx
  rw [hab x hx]
  by_cases h : x ∈ S <;> simp [h]

theorem lsb_eq (a : Block) : (a &&& 1 == 1) = a.getLsbD 0 := by
  have h : (a &&& 1 == 1) = true ↔ a.getLsbD 0 = true := by
    rw [beq_iff_eq]
    constructor
    · intro h
      have := congrArg (fun b : Block => b.getLsbD 0) h
      simpa [getLsbD_one] using this
    · intro h
      apply BitVec.eq_of_getLsbD_eq
      intro r hr
      rw [BitVec.getLsbD_and, getLsbD_one]
      by_cases h0 : r = 0
      · subst h0; simp [h]
      · simp [h0]
  cases h1 : (a &&& 1 == 1) <;> cases h2 : a.getLsbD 0 <;> simp_all

/-- C33.  For every code, every delta, every noise set and every number of OTs: if the vectors of
the parties differ by `delta` exactly at the noise positions, then hashing the encoded vectors gives
random OTs, in both ways of packing the choice bits.  The choice bits are the encoded noise. -/
theorem compress_random_ot (C : Code) (H : Block → Block) (delta : Block) (S : List Nat)
    (a b : Nat → Block) (hab : ∀ x < C.size, a x = if x ∈ S then b x ^^^ delta else b x)
    (len : Nat) (hS : ∀ x ∈ S, x < len) (p : Packing) (hp : ∀ n, p = .row0 n → C.size ≤ 128 * n)
    (n : Nat) :
    ∃ A, recvPacked C p n len S a = some A ∧
      (sendHash H delta (sendCompress C n b)).length = n ∧
      (recvHash H A).1.length = n ∧ (recvHash H A).2.length = n ∧
      ∀ i < n, ∃ m0 m1 m c,
        (sendHash H delta (sendCompress C n b))[i]? = some (m0, m1) ∧
        (recvHash H A).1[i]? = some m ∧ (recvHash H A).2[i]? = some c ∧
        m = (if c then m1 else m0) ∧ c = C.E (fun x => decide (x ∈ S)) i := by
  obtain ⟨a', h1, h2⟩ := pack_bits p len S hS a
  refine ⟨sendCompress C n a', by rw [recvPacked, h1]; rfl, by simp [sendHash, sendCompress],
    by simp [recvHash, sendCompress], by simp [recvHash, sendCompress], ?_⟩
  intro i hi
  have hbit : ∀ r < 128, (C.encode a' i).getLsbD r =
      if r = 0 then C.E (fun x => decide (x ∈ S)) i else
        ((C.encode b i).getLsbD r ^^ (delta.getLsbD r && C.E (fun x => decide (x ∈ S)) i)) := by
    intro r hr
    rw [encode_bit _ _ _ _ hr, encode_bit _ _ _ _ hr]
    split
    · apply C.loc
      intro x hx
      rw [h2 x (fun n hn => Nat.lt_of_lt_of_le hx (hp n hn)) r hr, if_pos ‹_›]
    · rw [← encode_diff C S delta a b hab]
      apply C.loc
      intro x hx
      rw [h2 x (fun n hn => Nat.lt_of_lt_of_le hx (hp n hn)) r hr, if_neg ‹_›]
  refine ⟨H (C.encode b i &&& lsbMask), H ((C.encode b i &&& lsbMask) ^^^ (delta &&& lsbMask)),
    H (C.encode a' i &&& lsbMask), C.encode a' i &&& 1 == 1, ?_, ?_, ?_, ?_, ?_⟩
  · simp [sendHash, sendCompress, List.getElem?_range hi]
  · simp [recvHash, sendCompress, List.getElem?_range hi]
  · simp [recvHash, sendCompress, List.getElem?_range hi]
  · rw [lsb_eq, hbit 0 (by omega), if_pos rfl]
    have key : C.encode a' i &&& lsbMask =
        if C.E (fun x => decide (x ∈ S)) i then (C.encode b i &&& lsbMask) ^^^ (delta &&& lsbMask)
        else C.encode b i &&& lsbMask := by
      apply BitVec.eq_of_getLsbD_eq
      intro r hr
      rw [BitVec.getLsbD_and, getLsbD_lsbMask r hr, hbit r hr]
      by_cases h0 : r = 0
      · subst h0
        cases hE : C.E (fun x => decide (x ∈ S)) i <;>
          simp only [Bool.false_eq_true, if_true, if_false, BitVec.getLsbD_xor, BitVec.getLsbD_and,
            getLsbD_lsbMask 0 hr] <;> simp
      · cases hE : C.E (fun x => decide (x ∈ S)) i <;>
          simp [BitVec.getLsbD_xor, BitVec.getLsbD_and, getLsbD_lsbMask r hr, h0]
    rw [key]
    split <;> rfl
  · rw [lsb_eq, hbit 0 (by omega), if_pos rfl]

/-- C33 for the correlated interface with separate choice bits: `a[i] = b[i] + c[i] * delta` as
documented. -/
theorem compress_correlated (C : Code) (delta : Block) (S : List Nat) (a b : Nat → Block)
    (hab : ∀ x < C.size, a x = if x ∈ S then b x ^^^ delta else b x)
    (len : Nat) (hS : ∀ x ∈ S, x < len) (n : Nat) :
    ∃ A cs, recvUnpacked C n len S a = some (A, cs) ∧ A.length = n ∧ cs.length = n ∧
      (sendCompress C n b).length = n ∧
      ∀ i < n, ∃ ai bi ci, A[i]? = some ai ∧ (sendCompress C n b)[i]? = some bi ∧ cs[i]? = some ci ∧
        ai = bi ^^^ (if ci then delta else 0) := by
  have hall : S.all (fun x => decide (x < len)) = true := by simpa using hS
  refine ⟨_, _, if_pos hall, by simp [sendCompress], by simp, by simp [sendCompress], ?_⟩
  intro i hi
  refine ⟨C.encode a i, C.encode b i,
    C.E (S.foldl (fun (s : Nat → Bool) x => Function.update s x true) fun _ => false) i,
    by simp [sendCompress, List.getElem?_range hi], by simp [sendCompress, List.getElem?_range hi],
    by simp [List.getElem?_range hi], ?_⟩
  have hn : (S.foldl (fun (s : Nat → Bool) x => Function.update s x true) fun _ => false) =
      fun x => decide (x ∈ S) := by
    funext x; rw [noise_eq]; simp
  rw [hn]
  apply BitVec.eq_of_getLsbD_eq
  intro r hr
  rw [BitVec.getLsbD_xor, encode_bit _ _ _ _ hr, encode_bit _ _ _ _ hr, encode_diff C S delta a b hab]
  split <;> simp_all

/-! ### The gap of the silver code -/

/-- mod.rs:282-311 `Sender::derandomize_gap`: the values appended to the vector and the message.  The
cipher is applied to a temporary (`gap_val.into()`), so `gap_val` is still zero when it is used. -/
def gapSend (delta : Block) (ots : List (Block × Block)) : List Block × List Block :=
  (ots.map (·.1), ots.map fun ot => (0 : Block) ^^^ (ot.1 ^^^ delta))

/-- mod.rs:474-508 `Receiver::derandomize_gap`: the values appended. -/
def gapRecv (ots : List Block) (choices : List Bool) (vals : List Block) : List Block :=
  ((ots.zip choices).zip vals).map fun ((ot, c), v) => if c then (0 : Block) ^^^ v else ot

/-- mod.rs:406-412 the noise positions of the gap. -/
def gapPoints (start : Nat) (choices : List Bool) : List Nat :=
  (choices.mapIdx fun k c => if c then [start + k] else []).flatten

theorem gapPoints_mem (start : Nat) (choices : List Bool) (x : Nat) :
    x ∈ gapPoints start choices ↔ start ≤ x ∧ choices[x - start]? = some true := by
  simp only [gapPoints, List.mem_flatten, List.mem_mapIdx]
  constructor
  · rintro ⟨l, ⟨k, hk, rfl⟩, hx⟩
    split at hx
    · rename_i hc
      rw [List.mem_singleton] at hx
      subst hx
      refine ⟨by omega, ?_⟩
      rw [Nat.add_sub_cancel_left, List.getElem?_eq_getElem hk, hc]
    · simp at hx
  · rintro ⟨h1, h2⟩
    obtain ⟨hk, h3⟩ := List.getElem?_eq_some_iff.1 h2
    exact ⟨[start + (x - start)], ⟨x - start, hk, by rw [if_pos h3]⟩, by simp; omega⟩

/-- C35, correctness: the receiver's gap value is the sender's plus choice times delta. -/
theorem gap_correct_partial (delta : Block) (ots : List (Block × Block)) (choices : List Bool)
    (hl : choices.length = ots.length) :
    let rots := List.zipWith (fun (ot : Block × Block) (c : Bool) => if c then ot.2 else ot.1) ots choices
    gapRecv rots choices (gapSend delta ots).2 =
      List.zipWith (fun (s : Block) (c : Bool) => if c then s ^^^ delta else s) (gapSend delta ots).1
        choices := by
  intro rots
  simp only [rots, gapRecv, gapSend]
  induction ots generalizing choices with
  | nil => simp
  | cons ot ots ih =>
    cases choices with
    | nil => simp at hl
    | cons c choices =>
      have := ih choices (by simpa using hl)
      simp only [List.map_cons, List.zipWith_cons_cons, List.zip_cons_cons] at this ⊢
      rw [this]
      cases c <;> simp

/-- C35, the hiding part fails: a receiver that chose 0 for one gap position computes `delta` from
its own OT string and the message, whatever the strings of the sender. -/
theorem gap_leaks_delta : ∃ attack : Block → Block → Block,
    ∀ (delta : Block) (ots : List (Block × Block)) (k : Nat) (ot0 ot1 : Block),
      ots[k]? = some (ot0, ot1) →
      ∃ v, (gapSend delta ots).2[k]? = some v ∧ attack ot0 v = delta := by
  refine ⟨fun ot v => ot ^^^ v, fun delta ots k ot0 ot1 h => ⟨ot0 ^^^ delta, ?_, ?_⟩⟩
  · simp [gapSend, h]
  · show ot0 ^^^ (ot0 ^^^ delta) = delta
    rw [← BitVec.xor_assoc, BitVec.xor_self, BitVec.zero_xor]

/-! ### The whole protocol -/

/-- mod.rs:296-310, 491-507 the expanded vector with the gap values appended. -/
def extendVec (size : Nat) (out : Nat → Block) (gap : List Block) : Nat → Block :=
  fun x => if x < size then out x else gap.getD (x - size) 0

/-- C31, C32, C33, C35 together, the silent random OT (mod.rs:229-280, 428-472).  For every
implemented output format, configuration, code, number of gap positions and choices accepted by
the sampling, and every scheduling of the tree groups: both parties finish with `n` OTs each, and each
message of the receiver is the sender's message chosen by the receiver's choice bit. -/
theorem silent_random_ot (P : Prf) (fmt : Format) (c : Conf) (ok : c.Ok fmt) (seed : Nat → Block)
    (delta : Block) (ots : Nat → Nat → Block × Block) (choices : Nat → List Bool)
    (hlen : ∀ t < c.pnt, (choices t).length = c.depth)
    (hin : ∀ x ∈ getPoints fmt c choices, x < outSize fmt c)
    (gapOts : List (Block × Block)) (gapChoices : List Bool) (hgap : gapChoices.length = gapOts.length)
    (C : Code) (hC : C.size ≤ outSize fmt c + gapOts.length) (p : Packing)
    (hp : ∀ n, p = .row0 n → C.size ≤ 128 * n) (n : Nat)
    (order : List Nat) (horder : order.Perm ((List.range (c.pnt / 8)).map (8 * ·))) :
    ∃ msgs outS, sendExpand P fmt c seed delta ots order = some (msgs, outS) ∧
      ∀ taken, taken.Perm msgs → ∃ outR A,
        recvExpand P fmt c choices
          (fun t d => if (choices t).getD d false then (ots t d).2 else (ots t d).1) taken = some outR ∧
        recvPacked C p n (outSize fmt c + gapOts.length)
          (getPoints fmt c choices ++ gapPoints (outSize fmt c) gapChoices)
          (extendVec (outSize fmt c) outR (gapRecv
            (List.zipWith (fun (ot : Block × Block) (b : Bool) => if b then ot.2 else ot.1) gapOts gapChoices)
            gapChoices (gapSend delta gapOts).2)) = some A ∧
        let sent := sendHash P.hash delta
          (sendCompress C n (extendVec (outSize fmt c) outS (gapSend delta gapOts).1))
        sent.length = n ∧ (recvHash P.hash A).1.length = n ∧ (recvHash P.hash A).2.length = n ∧
        ∀ i < n, ∃ m0 m1 m b, sent[i]? = some (m0, m1) ∧ (recvHash P.hash A).1[i]? = some m ∧
          (recvHash P.hash A).2[i]? = some b ∧ m = if b then m1 else m0 := by
  obtain ⟨msgs, outS, h1, -, -, h2⟩ := pprf_expand P fmt c ok seed delta ots choices hlen hin order horder
  refine ⟨msgs, outS, h1, fun taken ht => ?_⟩
  obtain ⟨outR, h3, h4⟩ := h2 taken ht
  have hg := gap_correct_partial delta gapOts gapChoices hgap
  simp only at hg
  rw [hg]
  have hab : ∀ x < C.size, extendVec (outSize fmt c) outR (List.zipWith
        (fun (s : Block) (c : Bool) => if c then s ^^^ delta else s) (gapSend delta gapOts).1 gapChoices) x =
      if x ∈ getPoints fmt c choices ++ gapPoints (outSize fmt c) gapChoices then
        extendVec (outSize fmt c) outS (gapSend delta gapOts).1 x ^^^ delta
      else extendVec (outSize fmt c) outS (gapSend delta gapOts).1 x := by
    intro x hx
    simp only [extendVec, List.mem_append, gapPoints_mem]
    by_cases hlt : x < outSize fmt c
    · rw [if_pos hlt, if_pos hlt, h4]
      have : ¬ outSize fmt c ≤ x := by omega
      simp [this]
    · rw [if_neg hlt, if_neg hlt]
      have hnp : x ∉ getPoints fmt c choices := fun h => hlt (hin x h)
      have hk : x - outSize fmt c < gapOts.length := by omega
      obtain ⟨k, hk', rfl⟩ : ∃ k, k < gapOts.length ∧ x = outSize fmt c + k :=
        ⟨x - outSize fmt c, hk, by omega⟩
      rw [Nat.add_sub_cancel_left]
      have e1 : (gapSend delta gapOts).1[k]? = some gapOts[k].1 := by
        simp [gapSend, List.getElem?_eq_getElem hk']
      have e2 : gapChoices[k]? = some gapChoices[k] := List.getElem?_eq_getElem (by omega)
      simp only [hnp, false_or, Nat.le_add_right, true_and, List.getD_eq_getElem?_getD,
        List.getElem?_zipWith, e1, e2, Option.getD_some, Option.some.injEq]
  have hS : ∀ x ∈ getPoints fmt c choices ++ gapPoints (outSize fmt c) gapChoices,
      x < outSize fmt c + gapOts.length := by
    intro x hx
    rcases List.mem_append.1 hx with h | h
    · have := hin x h; omega
    · obtain ⟨h1, h2⟩ := (gapPoints_mem _ _ _).1 h
      obtain ⟨h3, -⟩ := List.getElem?_eq_some_iff.1 h2
      omega
  obtain ⟨A, h5, h6, h7, h8, h9⟩ := compress_random_ot C P.hash delta _ _ _ hab _ hS p hp n
  refine ⟨outR, A, h3, h5, h6, h7, h8, fun i hi => ?_⟩
  obtain ⟨m0, m1, m, b, k1, k2, k3, k4, -⟩ := h9 i hi
  exact ⟨m0, m1, m, b, k1, k2, k3, k4⟩

end Verif.Silent
