import Verif.Aby2.Model

/-!
C36: ABY2 sharing.
-/
set_option autoImplicit false

namespace Verif.Aby2

/-! ### Histories of one party -/

/-- A call on the sharing state: sharing own bits, or turning received deltas into shares. -/
inductive Op where
  | share (bits : List Bool)
  | receive (deltas : List Bool)
deriving DecidableEq

/-- What a sequence of calls produced. -/
structure Trace where
  /-- The bits shared, over all calls in order. -/
  bits : List Bool := []
  /-- The own shares of these bits. -/
  own : List Share := []
  /-- The deltas to be sent to the other party. -/
  sent : List Bool := []
  /-- The deltas received. -/
  received : List Bool := []
  /-- The shares made from them. -/
  other : List Share := []
deriving DecidableEq

/-- Run a sequence of calls. -/
def run : DeltaSharing → List Op → Trace
  | _, [] => {}
  | s, .share bits :: ops =>
    let ((shs, ds), s) := s.share bits
    let t := run s ops
    { t with bits := bits ++ t.bits, own := shs ++ t.own, sent := ds ++ t.sent }
  | s, .receive ds :: ops =>
    let (shs, s) := s.toShare ds
    let t := run s ops
    { t with received := ds ++ t.received, other := shs ++ t.other }

/-! ### Proof -/

/-- Shares of `bits` drawn from position `p` and `q` of the two streams. -/
def ownShares (priv joint : Nat → Bool) : Nat → Nat → List Bool → List Share
  | _, _, [] => []
  | p, q, b :: bs => ⟨b ^^ priv p ^^ joint q, priv p⟩ :: ownShares priv joint (p + 1) (q + 1) bs

/-- Shares made from deltas from position `q`. -/
def otherShares (joint : Nat → Bool) : Nat → List Bool → List Share
  | _, [] => []
  | q, d :: ds => ⟨d, joint q⟩ :: otherShares joint (q + 1) ds

theorem share_spec (s : DeltaSharing) (bits : List Bool) :
    s.share bits = ((ownShares s.priv.stream s.localJoint.stream s.priv.pos s.localJoint.pos bits,
      (ownShares s.priv.stream s.localJoint.stream s.priv.pos s.localJoint.pos bits).map (·.pub)),
      { s with priv := { s.priv with pos := s.priv.pos + bits.length }
               localJoint := { s.localJoint with pos := s.localJoint.pos + bits.length } }) := by
  induction bits generalizing s with
  | nil => rfl
  | cons b bs ih =>
    simp only [DeltaSharing.share, Rng.gen, ih, ownShares, List.map_cons, List.length_cons]
    simp only [Nat.add_assoc, Nat.add_comm 1]

theorem toShare_spec (s : DeltaSharing) (ds : List Bool) :
    s.toShare ds = (otherShares s.remoteJoint.stream s.remoteJoint.pos ds,
      { s with remoteJoint := { s.remoteJoint with pos := s.remoteJoint.pos + ds.length } }) := by
  induction ds generalizing s with
  | nil => rfl
  | cons b bs ih =>
    simp only [DeltaSharing.toShare, Rng.gen, ih, otherShares, List.length_cons]
    simp only [Nat.add_assoc, Nat.add_comm 1]

theorem ownShares_append (priv joint : Nat → Bool) (p q : Nat) (a b : List Bool) :
    ownShares priv joint p q (a ++ b) =
      ownShares priv joint p q a ++ ownShares priv joint (p + a.length) (q + a.length) b := by
  induction a generalizing p q with
  | nil => rfl
  | cons x a ih =>
    simp only [List.cons_append, ownShares, ih, List.length_cons]
    simp only [Nat.add_assoc, Nat.add_comm 1]

theorem otherShares_append (joint : Nat → Bool) (q : Nat) (a b : List Bool) :
    otherShares joint q (a ++ b) =
      otherShares joint q a ++ otherShares joint (q + a.length) b := by
  induction a generalizing q with
  | nil => rfl
  | cons x a ih =>
    simp only [List.cons_append, otherShares, ih, List.length_cons]
    simp only [Nat.add_assoc, Nat.add_comm 1]

theorem run_spec (s : DeltaSharing) (ops : List Op) :
    (run s ops).own =
      ownShares s.priv.stream s.localJoint.stream s.priv.pos s.localJoint.pos (run s ops).bits ∧
    (run s ops).sent = (run s ops).own.map (·.pub) ∧
    (run s ops).other = otherShares s.remoteJoint.stream s.remoteJoint.pos (run s ops).received := by
  induction ops generalizing s with
  | nil => exact ⟨rfl, rfl, rfl⟩
  | cons op ops ih =>
    cases op with
    | share bits =>
      simp only [run, share_spec]
      obtain ⟨h1, h2, h3⟩ := ih { s with
        priv := { s.priv with pos := s.priv.pos + bits.length }
        localJoint := { s.localJoint with pos := s.localJoint.pos + bits.length } }
      refine ⟨?_, ?_, h3⟩
      · rw [h1, ownShares_append]
      · rw [h2, List.map_append]
    | receive ds =>
      simp only [run, toShare_spec]
      obtain ⟨h1, h2, h3⟩ := ih { s with
        remoteJoint := { s.remoteJoint with pos := s.remoteJoint.pos + ds.length } }
      refine ⟨h1, h2, ?_⟩
      rw [h3, otherShares_append]

theorem reconstruct_own (priv joint : Nat → Bool) (p q : Nat) (bits : List Bool) :
    reconstruct (ownShares priv joint p q bits)
      (otherShares joint q ((ownShares priv joint p q bits).map (·.pub))) = some bits ∧
    reconstruct (otherShares joint q ((ownShares priv joint p q bits).map (·.pub)))
      (ownShares priv joint p q bits) = some bits := by
  induction bits generalizing p q with
  | nil => exact ⟨rfl, rfl⟩
  | cons b bs ih =>
    obtain ⟨i1, i2⟩ := ih (p + 1) (q + 1)
    constructor
    · simp only [ownShares, List.map_cons, otherShares, reconstruct, if_true, i1, Option.map_some]
      cases b <;> cases priv p <;> cases joint q <;> rfl
    · simp only [ownShares, List.map_cons, otherShares, reconstruct, if_true, i2, Option.map_some]
      cases b <;> cases priv p <;> cases joint q <;> rfl

/-- **C36.**  Whatever sequences of calls the two parties make — each sharing own bits and receiving
the deltas of the other, in any order and in any batches —, if the deltas one party received are
those the other one sent, then the shares both hold reconstruct to the bits that were shared, in
either order of the arguments, and both hold the same public parts. -/
theorem sharing_lossless (priv0 priv1 joint : Seed) (map0 map1 : Nat → Option ShareType)
    (ops0 ops1 : List Op)
    (h01 : (run (.new 1 priv1 joint map1) ops1).received = (run (.new 0 priv0 joint map0) ops0).sent)
    (h10 : (run (.new 0 priv0 joint map0) ops0).received = (run (.new 1 priv1 joint map1) ops1).sent) :
    let t0 := run (.new 0 priv0 joint map0) ops0
    let t1 := run (.new 1 priv1 joint map1) ops1
    reconstruct t0.own t1.other = some t0.bits ∧ reconstruct t0.other t1.own = some t1.bits ∧
    t0.own.map (·.pub) = t1.other.map (·.pub) ∧ t0.other.map (·.pub) = t1.own.map (·.pub) ∧
    t0.own.length = t0.bits.length ∧ t1.own.length = t1.bits.length ∧
    t0.bits = (ops0.flatMap fun o => match o with | .share b => b | .receive _ => []) ∧
    t1.bits = (ops1.flatMap fun o => match o with | .share b => b | .receive _ => []) := by
  intro t0 t1
  obtain ⟨a1, a2, a3⟩ := run_spec (.new 0 priv0 joint map0) ops0
  obtain ⟨b1, b2, b3⟩ := run_spec (.new 1 priv1 joint map1) ops1
  have c0 : t1.other = otherShares (joint 0) 0 (t0.own.map (·.pub)) := by
    rw [← a2, ← h01]; exact b3
  have c1 : t0.other = otherShares (joint 1) 0 (t1.own.map (·.pub)) := by
    rw [← b2, ← h10]; exact a3
  have d0 : t0.own = ownShares (priv0 0) (joint 0) 0 0 t0.bits := a1
  have d1 : t1.own = ownShares (priv1 0) (joint 1) 0 0 t1.bits := b1
  have pubs : ∀ (j : Nat → Bool) q ds, (otherShares j q ds).map (·.pub) = ds := by
    intro j q ds
    induction ds generalizing q with
    | nil => rfl
    | cons d ds ih => simp [otherShares, ih]
  have lens : ∀ (p j : Nat → Bool) x y bs, (ownShares p j x y bs).length = bs.length := by
    intro p j x y bs
    induction bs generalizing x y with
    | nil => rfl
    | cons d ds ih => simp [ownShares, ih]
  have bits : ∀ s ops, (run s ops).bits =
      (ops.flatMap fun o => match o with | .share b => b | .receive _ => []) := by
    intro s ops
    induction ops generalizing s with
    | nil => rfl
    | cons o ops ih => cases o <;> simp [run, ih]
  refine ⟨?_, ?_, ?_, ?_, ?_, ?_, bits _ _, bits _ _⟩
  · rw [c0, d0]; exact (reconstruct_own _ _ _ _ _).1
  · rw [c1, d1]; exact (reconstruct_own _ _ _ _ _).2
  · rw [c0, pubs]
  · rw [c1, pubs]
  · rw [d0, lens]
  · rw [d1, lens]

/-- The hypotheses are met by an interleaved history with streams that are not constant. -/
example :
    let priv0 : Seed := fun s i => (s + i) % 3 = 0
    let priv1 : Seed := fun s i => (s + i) % 2 = 0
    let joint : Seed := fun s i => (2 * s + i) % 5 < 2
    ∃ ops0 ops1, ops0.length = 3 ∧ ops1.length = 3 ∧
    (run (.new 1 priv1 joint fun _ => none) ops1).received =
      (run (.new 0 priv0 joint fun _ => none) ops0).sent ∧
    (run (.new 0 priv0 joint fun _ => none) ops0).received =
      (run (.new 1 priv1 joint fun _ => none) ops1).sent ∧
    (run (.new 0 priv0 joint fun _ => none) ops0).bits = [true, false, true] ∧
    (run (.new 1 priv1 joint fun _ => none) ops1).bits = [true, true] := by
  refine ⟨[.share [true], .receive [false, true], .share [false, true]],
    [.share [true, true], .receive [true], .receive [true, true]], rfl, rfl, ?_⟩
  decide

/-- The generators of the two directions are different streams: what party 1 knows about the
masks of party 0's bits is not what it uses for its own bits. -/
theorem directions_separate (priv joint : Seed) (map : Nat → Option ShareType) (p : Nat)
    (hp : p < 2) : (DeltaSharing.new p priv joint map).localJoint.stream = joint p ∧
    (DeltaSharing.new p priv joint map).remoteJoint.stream = joint (1 - p) := by
  have : p = 0 ∨ p = 1 := by omega
  rcases this with rfl | rfl <;> exact ⟨rfl, rfl⟩

end Verif.Aby2
