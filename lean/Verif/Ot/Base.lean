import Mathlib.Algebra.Module.Basic
import Mathlib.Data.ZMod.Basic

/-!
The Chou-Orlandi base OT (C26, C27), over any module `G` of a commutative ring of scalars `F`
(Ristretto points and scalars in the code), any hash functions and any seeds.
-/
set_option autoImplicit false

namespace Verif.Ot

/-- zappot/src/base_ot/mod.rs:23-28 `BaseOTMsg`; `C` is the type of commitments (`Output<DefaultRom>`),
`S` that of seeds (`Block`). -/
inductive BaseMsg (G C S : Type) where
  | first (A : G) (comm : C)
  | second (Bs : List G)
  | third (seed : S)
deriving Repr, DecidableEq

/-- What `receiver.recv()` can yield; the end of the list of events is `Ok(None)`, the channel has
been closed. -/
inductive Ev (M : Type) where
  | msg (m : M)
  | recvError
deriving Repr, DecidableEq

/-- zappot/src/traits.rs:11-25 `Error`. -/
inductive Err where
  | send | receive | wrongOrder | unexpectedTermination | protocolDeviation
deriving Repr, DecidableEq

/-- `receiver.recv().await.map_err(Error::Receive)?.ok_or(Error::UnexpectedTermination)?`. -/
def recv {M : Type} : List (Ev M) → Except Err (M × List (Ev M))
  | [] => .error .unexpectedTermination
  | .recvError :: _ => .error .receive
  | .msg m :: r => .ok (m, r)

/-- What is fixed for both parties: generator, commitment hash, key hash (`rom_hash_point`,
base_ot/mod.rs:163-170, of point, counter and seed). -/
structure Params (G C S K : Type) where
  base : G
  rom : S → C
  hash : G → Nat → S → K

section
variable {F G C S K : Type} [CommRing F] [AddCommGroup G] [Module F G] [DecidableEq C]

/-- base_ot/mod.rs:86-95 the sender's keys. -/
def sendKeys (P : Params G C S K) (a : F) (A : G) (seed : S) : Nat → List G → List (K × K)
  | _, [] => []
  | i, B :: Bs =>
    (P.hash (a • B) i seed, P.hash (a • B - a • A) i seed) :: sendKeys P a A seed (i + 1) Bs

/-- base_ot/mod.rs:47-97 `Sender::send_random`: `a` and `seed` are the sender's randomness, `sendOk`
says whether its two sends succeed.  Returns the messages sent and the result. -/
def sendRandom (P : Params G C S K) (a : F) (seed : S) (count : Nat) (sendOk : Bool × Bool)
    (incoming : List (Ev (BaseMsg G C S))) :
    List (BaseMsg G C S) × Except Err (List (K × K)) :=
  let A := a • P.base
  if sendOk.1 then
    match recv incoming with
    | .error e => ([.first A (P.rom seed)], .error e)
    | .ok (.second points, _) =>
      if count ≠ points.length then ([.first A (P.rom seed)], .error .unexpectedTermination)
      else if sendOk.2 then
        ([.first A (P.rom seed), .third seed], .ok (sendKeys P a A seed 0 points))
      else ([.first A (P.rom seed)], .error .send)
    | .ok (_, _) => ([.first A (P.rom seed)], .error .wrongOrder)
  else ([], .error .send)

/-- base_ot/mod.rs:126-134 the points sent back; `bs` are the receiver's random scalars. -/
def recvPoints (P : Params G C S K) (A : G) : List Bool → List F → List G
  | c :: cs, b :: bs => (if c then A + b • P.base else b • P.base) :: recvPoints P A cs bs
  | _, _ => []

/-- base_ot/mod.rs:151-158 the receiver's keys. -/
def recvKeys (P : Params G C S K) (A : G) (seed : S) : Nat → List F → List K
  | _, [] => []
  | i, b :: bs => P.hash (b • A) i seed :: recvKeys P A seed (i + 1) bs

/-- base_ot/mod.rs:104-160 `Receiver::receive_random`; one scalar is drawn per choice. -/
def receiveRandom (P : Params G C S K) (choices : List Bool) (bs : List F) (sendOk : Bool)
    (incoming : List (Ev (BaseMsg G C S))) : List (BaseMsg G C S) × Except Err (List K) :=
  match recv incoming with
  | .error e => ([], .error e)
  | .ok (.first A comm, rest) =>
    let bs := bs.take choices.length
    if sendOk then
      let sent := [BaseMsg.second (recvPoints P A choices bs)]
      match recv rest with
      | .error e => (sent, .error e)
      | .ok (.third seed, _) =>
        if comm ≠ P.rom seed then (sent, .error .protocolDeviation)
        else (sent, .ok (recvKeys P A seed 0 bs))
      | .ok (_, _) => (sent, .error .wrongOrder)
    else ([], .error .send)
  | .ok (_, _) => ([], .error .wrongOrder)

/-! ### C26 -/

theorem keys_agree (P : Params G C S K) (a : F) (seed : S) (choices : List Bool) (bs : List F)
    (h : bs.length = choices.length) (i : Nat) :
    recvKeys P (a • P.base) seed i bs =
      List.zipWith (fun (k : K × K) c => if c then k.2 else k.1)
        (sendKeys P a (a • P.base) seed i (recvPoints P (a • P.base) choices bs)) choices := by
  induction choices generalizing bs i with
  | nil => obtain rfl := List.length_eq_zero_iff.1 h; simp [recvPoints, sendKeys, recvKeys]
  | cons c cs ih =>
    match bs, h with
    | b :: bs, h =>
      simp only [List.length_cons, Nat.add_right_cancel_iff] at h
      simp only [recvPoints, sendKeys, recvKeys, List.zipWith_cons_cons]
      rw [ih bs h]
      congr 1
      cases c with
      | false => simp only [Bool.false_eq_true, if_false]; rw [smul_comm]
      | true =>
        simp only [if_true]
        rw [smul_add, add_sub_cancel_left, smul_comm]

theorem recvPoints_length (P : Params G C S K) (A : G) (choices : List Bool) (bs : List F)
    (h : bs.length = choices.length) : (recvPoints P A choices bs).length = choices.length := by
  induction choices generalizing bs with
  | nil => simp [recvPoints]
  | cons c cs ih =>
    match bs, h with
    | b :: bs, h => simp only [List.length_cons, Nat.add_right_cancel_iff] at h
                    simp [recvPoints, ih bs h]

theorem sendKeys_length (P : Params G C S K) (a : F) (A : G) (seed : S) (i : Nat) (Bs : List G) :
    (sendKeys P a A seed i Bs).length = Bs.length := by
  induction Bs generalizing i with
  | nil => rfl
  | cons B Bs ih => simp [sendKeys, ih]

/-- C26: whenever the two parties run against each other, i.e. each receives exactly what the other
one sent, over a working channel, with a count equal to the number of choices, both finish, the
sender has one pair of keys per choice, and the receiver's key is at every index the one selected by
its choice bit.  For every group, generator, scalars, seed, hash functions and choices. -/
theorem base_ot_correct (P : Params G C S K) (a : F) (seed : S) (choices : List Bool) (bs : List F)
    (hb : choices.length ≤ bs.length) {toS toR : List (BaseMsg G C S)}
    {rs : Except Err (List (K × K))} {rr : Except Err (List K)}
    (hS : sendRandom P a seed choices.length (true, true) (toS.map .msg) = (toR, rs))
    (hR : receiveRandom P choices bs true (toR.map .msg) = (toS, rr)) :
    ∃ ks kr, rs = .ok ks ∧ rr = .ok kr ∧ ks.length = choices.length ∧
      kr = List.zipWith (fun (k : K × K) c => if c then k.2 else k.1) ks choices := by
  have hlen : (bs.take choices.length).length = choices.length := by simp; omega
  -- the first message always goes out, hence the second
  have h1 : ∃ r, toR = .first (a • P.base) (P.rom seed) :: r := by
    have := congrArg Prod.fst hS
    simp only [sendRandom, if_true] at this
    rw [← this]
    split
    · exact ⟨_, rfl⟩
    · split
      · exact ⟨_, rfl⟩
      · exact ⟨_, rfl⟩
    · exact ⟨_, rfl⟩
  obtain ⟨r, rfl⟩ := h1
  have h2 : toS = [.second (recvPoints P (a • P.base) choices (bs.take choices.length))] := by
    have := congrArg Prod.fst hR
    simp only [receiveRandom, recv, List.map_cons, if_true] at this
    rw [← this]
    split <;> try rfl
    split <;> rfl
  subst h2
  simp only [sendRandom, if_true, recv, List.map_cons, List.map_nil,
    recvPoints_length P _ _ _ hlen, ne_eq, not_true, if_false, Prod.mk.injEq,
    List.cons.injEq, true_and] at hS
  obtain ⟨rfl, rfl⟩ := hS
  simp only [receiveRandom, recv, List.map_cons, List.map_nil, if_true, ne_eq, not_true, if_false,
    Prod.mk.injEq, true_and] at hR
  refine ⟨_, _, rfl, hR.symm, ?_, keys_agree P a seed choices _ hlen 0⟩
  rw [sendKeys_length, recvPoints_length P _ _ _ hlen]

/-- Such a run exists for all inputs. -/
theorem base_ot_runs (P : Params G C S K) (a : F) (seed : S) (choices : List Bool) (bs : List F)
    (hb : choices.length ≤ bs.length) :
    ∃ toS toR rs rr,
      sendRandom P a seed choices.length (true, true) (toS.map .msg) = (toR, rs) ∧
      receiveRandom P choices bs true (toR.map .msg) = (toS, rr) := by
  have hlen : (bs.take choices.length).length = choices.length := by simp; omega
  refine ⟨[.second (recvPoints P (a • P.base) choices (bs.take choices.length))],
    [.first (a • P.base) (P.rom seed), .third seed],
    .ok (sendKeys P a (a • P.base) seed 0
      (recvPoints P (a • P.base) choices (bs.take choices.length))),
    .ok (recvKeys P (a • P.base) seed 0 (bs.take choices.length)), ?_, ?_⟩
  · simp only [sendRandom, if_true, recv, List.map_cons, List.map_nil,
      recvPoints_length P _ _ _ hlen, ne_eq, not_true, if_false]
  · simp only [receiveRandom, recv, List.map_cons, List.map_nil, if_true, ne_eq, not_true, if_false]

/-! ### C27 -/

/-- C27, sender: it returns keys exactly if the first event on its channel is a `Second` message
with as many points as OTs were asked for (and its own sends went through); in every other case,
including a closed channel, the result is an error. -/
theorem sender_completes_iff (P : Params G C S K) (a : F) (seed : S) (count : Nat)
    (sendOk : Bool × Bool) (incoming : List (Ev (BaseMsg G C S))) :
    (∃ ks, (sendRandom P a seed count sendOk incoming).2 = .ok ks) ↔
      sendOk = (true, true) ∧ ∃ Bs rest, incoming = .msg (.second Bs) :: rest ∧ Bs.length = count := by
  obtain ⟨s1, s2⟩ := sendOk
  match incoming with
  | [] => cases s1 <;> simp [sendRandom, recv]
  | .recvError :: _ => cases s1 <;> simp [sendRandom, recv]
  | .msg (.first _ _) :: _ => cases s1 <;> simp [sendRandom, recv]
  | .msg (.third _) :: _ => cases s1 <;> simp [sendRandom, recv]
  | .msg (.second Bs) :: rest =>
    cases s1 with
    | false => simp [sendRandom]
    | true =>
      by_cases h : count = Bs.length
      · cases s2 <;> simp [sendRandom, recv, h]
      · have : ¬ Bs.length = count := fun e => h e.symm
        simp [sendRandom, recv, h, this]

/-- C27, receiver: it returns keys exactly if its first two events are a `First` message and a
`Third` message whose seed opens the commitment of the first; in every other case the result is an
error. -/
theorem receiver_completes_iff (P : Params G C S K) (choices : List Bool) (bs : List F)
    (sendOk : Bool) (incoming : List (Ev (BaseMsg G C S))) :
    (∃ ks, (receiveRandom P choices bs sendOk incoming).2 = .ok ks) ↔
      sendOk = true ∧ ∃ A comm seed rest,
        incoming = .msg (.first A comm) :: .msg (.third seed) :: rest ∧ comm = P.rom seed := by
  match incoming with
  | [] => simp [receiveRandom, recv]
  | .recvError :: _ => simp [receiveRandom, recv]
  | .msg (.second _) :: _ => simp [receiveRandom, recv]
  | .msg (.third _) :: _ => simp [receiveRandom, recv]
  | .msg (.first A comm) :: rest =>
    cases sendOk with
    | false => simp [receiveRandom, recv]
    | true =>
      match rest with
      | [] => simp [receiveRandom, recv]
      | .recvError :: _ => simp [receiveRandom, recv]
      | .msg (.first _ _) :: _ => simp [receiveRandom, recv]
      | .msg (.second _) :: _ => simp [receiveRandom, recv]
      | .msg (.third seed) :: r =>
        by_cases h : comm = P.rom seed
        · simp [receiveRandom, recv, h]
        · simp [receiveRandom, recv, h]

/-- C27: the kind of error distinguishes a peer that stopped, a broken channel, a message out of
turn and a wrong opening. -/
theorem receiver_error_kinds (P : Params G C S K) (choices : List Bool) (bs : List F) (A : G)
    (comm : C) (seed : S) (Bs : List G) (h : comm ≠ P.rom seed)
    (rest : List (Ev (BaseMsg G C S))) :
    (receiveRandom P choices bs true []).2 = .error .unexpectedTermination ∧
    (receiveRandom P choices bs true [.msg (.first A comm)]).2 = .error .unexpectedTermination ∧
    (receiveRandom P choices bs true (.recvError :: rest)).2 = .error .receive ∧
    (receiveRandom P choices bs true (.msg (.second Bs) :: rest)).2 = .error .wrongOrder ∧
    (receiveRandom P choices bs true (.msg (.first A comm) :: .msg (.third seed) :: rest)).2 =
      .error .protocolDeviation := by
  simp [receiveRandom, recv, h]

end

/-- A run over the integers modulo 7 with three choices. -/
example :
    let P : Params (ZMod 7) Nat Nat (Nat × Nat × Nat) := ⟨1, fun s => s + 1, fun g i s => (g.val, i, s)⟩
    sendRandom (F := ZMod 7) P 3 5 2 (true, true) [.msg (.second [2, 3 + 4])] =
      ([.first 3 6, .third 5], .ok [((6, 0, 5), (4, 0, 5)), ((0, 1, 5), (5, 1, 5))]) := by
  decide +kernel

end Verif.Ot
