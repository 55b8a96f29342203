import Verif.Ot.Ext

/-!
C28: OT extension for every history and arrival order.  C29: early close.  C30: correlated OT.
-/
set_option autoImplicit false

namespace Verif.Ot

/-- A sequence of `receive_random` calls of one receiver. -/
def receiveAll {σ B T : Type} (g : Prg σ) (H : List Bool → B) (st : ReceiverSt σ) :
    List (List Bool) → Option (List (List (ExtMsg T)) × List (List B) × ReceiverSt σ)
  | [] => some ([], [], st)
  | c :: cs => do
    let (m, o, st) ← receiveExt g H st c
    let (ms, os, st) ← receiveAll g H st cs
    pure (m :: ms, o :: os, st)

/-- A sequence of `send_random` calls of one sender, all reading from one channel. -/
def sendAll {σ B T : Type} (g : Prg σ) (H : List Bool → B) (st : SenderSt σ) :
    List Nat → List (Ev (ExtMsg T)) →
    Option (Except Err (List (List (B × B)) × SenderSt σ × List (Ev (ExtMsg T))))
  | [], evs => some (.ok ([], st, evs))
  | n :: ns, evs =>
    match sendExt g H st n evs with
    | none => none
    | some (.error e) => some (.error e)
    | some (.ok (p, st, evs)) =>
      match sendAll g H st ns evs with
      | none => none
      | some (.error e) => some (.error e)
      | some (.ok (ps, st, evs)) => some (.ok (p :: ps, st, evs))

/-- C28: starting from base OTs, for every sequence of batches (each of a size divisible by eight)
and every order in which the rows of each batch arrive, the sender finishes every batch with as many
pairs as asked for, and the receiver has at every index the element selected by its choice bit.  For
every generator and every hash. -/
theorem ot_ext_history {σ B T : Type} (g : Prg σ) (H : List Bool → B)
    (batches : List (List Bool)) (h8 : ∀ c ∈ batches, c.length % 8 = 0) (s : SenderSt σ)
    (r : ReceiverSt σ) (hs : Synced s r) (hpos : 0 < s.choices.length) :
    ∃ msgs recvs r', receiveAll (T := T) g H r batches = some (msgs, recvs, r') ∧
      ∀ arrived : List (List (ExtMsg T)), List.Forall₂ (fun a m => a.Perm m) arrived msgs →
        ∃ pairs s', sendAll g H s (batches.map List.length) (arrived.flatten.map .msg) =
            some (.ok (pairs, s', [])) ∧
          List.Forall₂ (fun p c => p.length = c.length) pairs batches ∧
          recvs = List.zipWith chosen pairs batches := by
  induction batches generalizing s r with
  | nil =>
    refine ⟨[], [], r, rfl, fun arrived ha => ?_⟩
    cases ha
    exact ⟨[], s, rfl, .nil, rfl⟩
  | cons c cs ih =>
    obtain ⟨msgs, recv, r1, e1, l1, hb⟩ := batch_general (T := T) g H hs hpos c (h8 c (by simp))
      c.length le_rfl (h8 c (by simp)) (by
        intro x
        rw [List.take_of_length_le]
        rw [g.length]; omega)
    -- the receiver's state does not depend on the arrival order
    obtain ⟨p0, s0, -, -, -, hsync0⟩ := hb msgs [] (List.Perm.refl _)
    obtain ⟨hsync0, hch0⟩ := hsync0 rfl
    obtain ⟨msgs', recvs, r2, e2, hrest⟩ := ih (fun x hx => h8 x (by simp [hx])) s0 r1 hsync0
      (hch0 ▸ hpos)
    refine ⟨msgs :: msgs', recv :: recvs, r2, by simp [receiveAll, e1, e2], ?_⟩
    intro arrived ha
    cases ha with
    | @cons a _ as _ ha has =>
      obtain ⟨p, s1, f1, f2, f3, f4⟩ := hb a (as.flatten.map .msg) ha
      obtain ⟨hsync, hch⟩ := f4 rfl
      -- the sender's state is determined by the receiver's
      have hs1 : s1 = s0 := by
        cases s1; cases s0
        simp only at hch hch0
        subst hch; subst hch0
        have a1 := hsync.2
        have a2 := hsync0.2
        simp only at a1 a2
        rw [a1, a2]
      subst hs1
      obtain ⟨ps, s2, g1, g2, g3⟩ := hrest as has
      refine ⟨p :: ps, s2, ?_, .cons f2 g2, ?_⟩
      · simp only [List.map_cons, sendAll, List.flatten_cons, List.map_append, f1, g1]
      · rw [List.zipWith_cons_cons, ← g3, ← List.take_of_length_le (l := recv) (i := c.length) (by omega),
          f3, List.take_length]

/-- Base OTs give synced states (ot_ext/mod.rs:76-83, 250-255: each key seeds a generator). -/
theorem synced_of_base {σ K : Type} (fromSeed : K → σ) (ks : List (K × K)) (choices : List Bool)
    (h : ks.length = choices.length) :
    Synced (⟨(chosen ks choices).map fromSeed, choices⟩ : SenderSt σ)
      ⟨ks.map fun k => (fromSeed k.1, fromSeed k.2)⟩ := by
  refine ⟨by simp [h], ?_⟩
  apply List.ext_getElem
  · simp [chosen]
  · intro i h1 h2
    simp only [chosen, List.getElem_map, List.getElem_zipWith]
    split <;> rfl

/-- Base OT and extension together (C26 and C28): the base OT is run in the reverse direction, its
outcome seeds the generators, and then any history of batches is correct in any arrival order. -/
theorem ot_ext_with_base {F G C S K σ B T : Type} [CommRing F] [AddCommGroup G] [Module F G]
    [DecidableEq C] (P : Params G C S K) (a : F) (seed : S) (delta : List Bool) (bs : List F)
    (hb : delta.length ≤ bs.length) (hpos : 0 < delta.length) {toS toR : List (BaseMsg G C S)}
    {rs : Except Err (List (K × K))} {rr : Except Err (List K)}
    (hS : sendRandom P a seed delta.length (true, true) (toS.map .msg) = (toR, rs))
    (hR : receiveRandom P delta bs true (toR.map .msg) = (toS, rr))
    (fromSeed : K → σ) (g : Prg σ) (H : List Bool → B)
    (batches : List (List Bool)) (h8 : ∀ c ∈ batches, c.length % 8 = 0) :
    ∃ ks kr, rs = .ok ks ∧ rr = .ok kr ∧
      ∃ msgs recvs r', receiveAll (T := T) g H ⟨ks.map fun k => (fromSeed k.1, fromSeed k.2)⟩ batches =
          some (msgs, recvs, r') ∧
        ∀ arrived : List (List (ExtMsg T)), List.Forall₂ (fun a m => a.Perm m) arrived msgs →
          ∃ pairs s', sendAll g H ⟨kr.map fromSeed, delta⟩ (batches.map List.length)
              (arrived.flatten.map .msg) = some (.ok (pairs, s', [])) ∧
            List.Forall₂ (fun p c => p.length = c.length) pairs batches ∧
            recvs = List.zipWith chosen pairs batches := by
  obtain ⟨ks, kr, e1, e2, l, hk⟩ := base_ot_correct P a seed delta bs hb hS hR
  refine ⟨ks, kr, e1, e2, ?_⟩
  have := synced_of_base fromSeed ks delta l
  rw [show chosen ks delta = kr from hk.symm] at this
  exact ot_ext_history g H batches h8 _ _ this hpos

/-- Two base OTs, one batch of eight, rows arriving in reverse. -/
example :
    let g : Prg Nat := ⟨fun s n => ((List.range (8 * n)).map fun i => (s * (i + 3)) % 5 < 2, s + 7),
      fun s n => by simp⟩
    let r : ReceiverSt Nat := ⟨[(1, 2), (3, 4)]⟩
    let s : SenderSt Nat := ⟨[2, 3], [true, false]⟩
    let c := [true, false, true, true, false, false, false, true]
    ((receiveExt (T := Unit) g id r c).bind fun (m, o, _) =>
      (sendExt g id s 8 (m.reverse.map .msg)).map fun x =>
        x.toOption.map fun y => decide (o = chosen y.1 c) && decide (y.1.length = 8)) =
      some (some true) := by decide +kernel

/-! ### C29 -/

theorem senderLoop_prefix {T : Type} (choices : List Bool) (total : Nat)
    (ms : List (Nat × List Bool)) (received : Nat) (ht : received + ms.length < total)
    (v : List (List Bool)) (hv : v.length = choices.length)
    (hi : ∀ m ∈ ms, m.1 < choices.length) :
    senderLoop (T := T) choices total received v
      (ms.map (fun m => Ev.msg (ExtMsg.uRow m.1 m.2))) = some (.ok (applyRows choices v ms, [])) := by
  induction ms generalizing received v with
  | nil => rfl
  | cons m ms ih =>
    have h1 : m.1 < choices.length := hi m (by simp)
    have h2 : m.1 < v.length := hv ▸ h1
    simp only [List.map_cons, senderLoop, List.getElem?_eq_getElem h1,
      List.getElem?_eq_getElem h2, List.length_cons] at ht ⊢
    rw [if_neg (by omega), ih (received + 1) (by omega) _ (by simp [hv])
      (fun x hx => hi x (by simp [hx]))]
    simp [applyRows, List.getElem?_eq_getElem h1, List.getElem?_eq_getElem h2]

/-- C29 does not hold, for any state, any count and any incomplete list of rows (even none at all):
if the channel closes early, `send_random` returns `Ok` with `count` OTs. -/
theorem early_close_not_reported {σ B T : Type} (g : Prg σ) (H : List Bool → B) (s : SenderSt σ)
    (hl : s.rngs.length = s.choices.length) (count : Nat) (h8 : count % 8 = 0)
    (ms : List (Nat × List Bool)) (hm : ms.length < s.choices.length)
    (hi : ∀ m ∈ ms, m.1 < s.choices.length) :
    ∃ pairs s', sendExt (T := T) g H s count
        (ms.map (fun m => Ev.msg (ExtMsg.uRow m.1 m.2))) = some (.ok (pairs, s', [])) ∧
      pairs.length = count := by
  have := senderLoop_prefix (T := T) s.choices s.choices.length ms 0 (by omega)
    ((s.rngs.map fun x => g.fill x (count / 8)).map (·.1)) (by simp [hl]) hi
  refine ⟨_, _, by unfold sendExt; rw [if_pos h8]; simp only [this]; rfl, by simp [transpose]⟩

/-- ... and those OTs are wrong in general: one base OT with choice bit 1, the row message missing. -/
theorem early_close_wrong_ots :
    ∃ (g : Prg Nat) (r : ReceiverSt Nat) (s : SenderSt Nat) (c : List Bool)
      (msgs : List (ExtMsg Unit)) (recv : List (List Bool)) (r' : ReceiverSt Nat)
      (pairs : List (List Bool × List Bool)) (s' : SenderSt Nat),
      Synced s r ∧ c.length = 8 ∧ receiveExt g id r c = some (msgs, recv, r') ∧
      sendExt (T := Unit) g id s 8 [] = some (.ok (pairs, s', [])) ∧ recv ≠ chosen pairs c := by
  refine ⟨⟨fun s n => (List.replicate (8 * n) (s == 1), s), fun s n => by simp⟩, ⟨[(0, 1)]⟩,
    ⟨[1], [true]⟩, List.replicate 8 false, _, _, _, _, _, ⟨rfl, rfl⟩, rfl, rfl, rfl, by decide⟩

/-- What holds of C29: as long as rows are missing, a broken channel and a message of another kind
are reported as errors. -/
theorem ext_sender_errors_partial {T : Type} (choices : List Bool) (total : Nat)
    (ms : List (Nat × List Bool)) (received : Nat) (ht : received + ms.length < total)
    (v : List (List Bool)) (hv : v.length = choices.length)
    (hi : ∀ m ∈ ms, m.1 < choices.length) (rest : List (Ev (ExtMsg T))) :
    senderLoop choices total received v
      (ms.map (fun m => Ev.msg (ExtMsg.uRow m.1 m.2)) ++ .recvError :: rest) =
        some (.error .receive) ∧
    (∀ bs, senderLoop choices total received v
      (ms.map (fun m => Ev.msg (ExtMsg.uRow m.1 m.2)) ++ .msg (.correlated bs) :: rest) =
        some (.error .wrongOrder)) ∧
    senderLoop choices total received v
      (ms.map (fun m => Ev.msg (ExtMsg.uRow m.1 m.2)) ++ .msg .baseOTChannel :: rest) =
        some (.error .wrongOrder) := by
  induction ms generalizing received v with
  | nil => exact ⟨rfl, fun _ => rfl, rfl⟩
  | cons m ms ih =>
    have h1 : m.1 < choices.length := hi m (by simp)
    have h2 : m.1 < v.length := hv ▸ h1
    simp only [List.map_cons, List.cons_append, senderLoop, List.getElem?_eq_getElem h1,
      List.getElem?_eq_getElem h2, List.length_cons] at ht ⊢
    have hne : ¬ received + 1 = total := by omega
    simp only [if_neg hne]
    exact ih (received + 1) (by omega) _ (by simp [hv]) (fun x hx => hi x (by simp [hx]))

/-! ### C30 -/

/-- zappot/src/util/block.rs `Block`. -/
abbrev Block := BitVec 128

/-- ot_ext/mod.rs:200-233 `send_correlated_bytes` after the random OTs: what the sender keeps and
what it sends.  `split_arr` of the little endian bytes (442-445) keeps the low bits; `none` is its
assertion `LEN ≤ 16`. -/
def sendCorr (len : Nat) (corr : Nat → BitVec (8 * len) → BitVec (8 * len))
    (pairs : List (Block × Block)) : Option (List (BitVec (8 * len)) × List (BitVec (8 * len))) :=
  if len ≤ 16 ∨ pairs = [] then
    some (pairs.map fun x => x.1.setWidth (8 * len),
      pairs.mapIdx fun i x => x.2.setWidth (8 * len) ^^^ corr i (x.1.setWidth (8 * len)))
  else none

/-- ot_ext/mod.rs:394-406 the zip of random OTs, received blocks and choices. -/
def zipCorr (len : Nat) : List Block → List (BitVec (8 * len)) → List Bool → List (BitVec (8 * len))
  | x :: xs, k :: ks, c :: cs =>
    (if c then x.setWidth (8 * len) ^^^ k else x.setWidth (8 * len)) :: zipCorr len xs ks cs
  | _, _, _ => []

/-- ot_ext/mod.rs:373-407 `receive_correlated_bytes` after the random OTs. -/
def receiveCorr (len : Nat) (rots : List Block) (choices : List Bool)
    (evs : List (Ev (ExtMsg (BitVec (8 * len))))) :
    Option (Except Err (List (BitVec (8 * len)))) :=
  match evs with
  | .msg (.correlated ks) :: _ =>
    if len ≤ 16 ∨ rots = [] then some (.ok (zipCorr len rots ks choices)) else none
  | .msg _ :: _ => some (.error .wrongOrder)
  | .recvError :: _ => some (.error .receive)
  | [] => some (.error .unexpectedTermination)

theorem zipCorr_get (len : Nat) (xs : List Block) (ks : List (BitVec (8 * len))) (cs : List Bool)
    (i : Nat) (h1 : i < xs.length) (h2 : i < ks.length) (h3 : i < cs.length) :
    (zipCorr len xs ks cs)[i]? =
      some (if cs[i] then xs[i].setWidth (8 * len) ^^^ ks[i] else xs[i].setWidth (8 * len)) := by
  induction xs generalizing ks cs i with
  | nil => simp at h1
  | cons x xs ih =>
    match ks, cs, h2, h3 with
    | k :: ks, c :: cs, h2, h3 =>
      cases i with
      | zero => rfl
      | succ i =>
        simp only [List.length_cons, Nat.add_lt_add_iff_right] at h1 h2 h3
        simpa [zipCorr] using ih ks cs i h1 h2 h3

theorem zipCorr_length (len : Nat) (xs : List Block) (ks : List (BitVec (8 * len))) (cs : List Bool) :
    (zipCorr len xs ks cs).length = min xs.length (min ks.length cs.length) := by
  induction xs generalizing ks cs with
  | nil => simp [zipCorr]
  | cons x xs ih =>
    match ks, cs with
    | [], _ => simp [zipCorr]
    | _ :: _, [] => simp [zipCorr]
    | k :: ks, c :: cs => simp [zipCorr, ih, Nat.succ_min_succ]

/-- C30, with the random OTs given: whatever the correlation function and the choices, the receiver
ends up with what the sender keeps where its choice is 0, and with the correlation function applied
to index and that value where it is 1.  The receiver may hold more random OTs than the sender (it
then gets as many results as the sender has). -/
theorem correlated_ot (len : Nat) (hlen : len ≤ 16)
    (corr : Nat → BitVec (8 * len) → BitVec (8 * len)) (pairs : List (Block × Block))
    (choices : List Bool) (rots : List Block)
    (hrot : rots.take pairs.length = chosen pairs (choices.take pairs.length))
    (hc : pairs.length ≤ choices.length) (hr : pairs.length ≤ rots.length)
    (rest : List (Ev (ExtMsg (BitVec (8 * len))))) :
    ∃ ret sent out, sendCorr len corr pairs = some (ret, sent) ∧
      receiveCorr len rots choices (.msg (.correlated sent) :: rest) = some (.ok out) ∧
      ret.length = pairs.length ∧
      out = List.zipWith (fun (x : Nat × BitVec (8 * len)) c => if c then corr x.1 x.2 else x.2)
        (ret.mapIdx fun i y => (i, y)) choices := by
  refine ⟨_, _, _, if_pos (.inl hlen), if_pos (.inl hlen), by simp, ?_⟩
  apply List.ext_getElem
  · simp [zipCorr_length]; omega
  · intro i h1 h2
    have hi : i < pairs.length := by simp [zipCorr_length] at h1; omega
    have hget := zipCorr_get len rots (pairs.mapIdx fun i x =>
      x.2.setWidth (8 * len) ^^^ corr i (x.1.setWidth (8 * len))) choices i (by omega)
      (by simpa using hi) (by omega)
    rw [List.getElem?_eq_getElem h1, Option.some.injEq] at hget
    rw [hget]
    have hx : rots[i] = if choices[i]'(by omega) then pairs[i].2 else pairs[i].1 := by
      have h3 : i < (rots.take pairs.length).length := by simp; omega
      have e : (rots.take pairs.length)[i] = rots[i] := List.getElem_take
      rw [← e]
      simp only [hrot, chosen, List.getElem_zipWith, List.getElem_take]
    simp only [List.getElem_mapIdx, List.getElem_zipWith, List.getElem_map, hx]
    cases choices[i]'(by omega) with
    | false => simp
    | true =>
      simp only [if_true]
      rw [← BitVec.xor_assoc, BitVec.xor_self, BitVec.zero_xor]

/-- C28 and C30 together, one batch: rows in any order, then the correlation message. -/
theorem correlated_ot_ext {σ : Type} (len : Nat) (hlen : len ≤ 16) (g : Prg σ)
    (H : List Bool → Block) {s : SenderSt σ} {r : ReceiverSt σ} (hs : Synced s r)
    (hpos : 0 < s.choices.length) (choices : List Bool) (h8 : choices.length % 8 = 0)
    (corr : Nat → BitVec (8 * len) → BitVec (8 * len)) :
    ∃ msgs rots r', receiveExt (T := BitVec (8 * len)) g H r choices = some (msgs, rots, r') ∧
      ∀ arrived : List (ExtMsg (BitVec (8 * len))), arrived.Perm msgs → ∃ pairs s' ret sent out,
        sendExt g H s choices.length (arrived.map .msg) = some (.ok (pairs, s', [])) ∧
        Synced s' r' ∧ sendCorr len corr pairs = some (ret, sent) ∧
        receiveCorr len rots choices [.msg (.correlated sent)] = some (.ok out) ∧
        ret.length = choices.length ∧
        out = List.zipWith (fun (x : Nat × BitVec (8 * len)) c => if c then corr x.1 x.2 else x.2)
          (ret.mapIdx fun i y => (i, y)) choices := by
  obtain ⟨msgs, rots, r', e1, l1, hb⟩ := batch_general (T := BitVec (8 * len)) g H hs hpos choices h8
    choices.length le_rfl h8 (by
      intro x; rw [List.take_of_length_le]; rw [g.length]; omega)
  refine ⟨msgs, rots, r', e1, fun arrived ha => ?_⟩
  obtain ⟨pairs, s', f1, f2, f3, f4⟩ := hb arrived [] ha
  obtain ⟨ret, sent, out, c1, c2, c3, c4⟩ := correlated_ot len hlen corr pairs choices rots
    (by rw [f2]; exact f3) (by omega) (by omega) []
  rw [List.append_nil] at f1
  exact ⟨pairs, s', ret, sent, out, f1, (f4 rfl).1, c1, c2, by omega, c4⟩

end Verif.Ot
