import Mathlib.Algebra.BigOperators.Group.List.Basic

/-!
# Communication statistics

Model of `Statistics` (crates/seec-channel/src/util.rs:45-620).

The shared atomic counters (util.rs:48, 357-375) are natural numbers.  `fetch_add` wraps at `2^64`;
the model has no wrap around (a run would have to move 2^64 bytes between two phases).
Every atomic operation of the code is one step of the model, so that traffic of the background
tasks may happen between any two of them.
-/

set_option autoImplicit false

namespace Verif.Chan

/-- `Phase` (util.rs:129-140). -/
inductive Phase where
  | functionIndependentSetup | functionDependentSetup | ots | mts | online | unaccounted
  | custom (s : String)
deriving DecidableEq, Repr

/-- `CountPair` (util.rs:148-152). -/
structure Count where
  sent : Nat
  rcvd : Nat
deriving DecidableEq, Repr

/-- `AddAssign for CountPair` (util.rs:608-613). -/
def Count.add (a b : Count) : Count := ⟨a.sent + b.sent, a.rcvd + b.rcvd⟩

/-- `DivAssign<usize> for CountPair` (util.rs:615-620); callers guarantee a non-zero divisor. -/
def Count.div (a : Count) (n : Nat) : Count := ⟨a.sent / n, a.rcvd / n⟩

/-- `CountPair::default()`. -/
def Count.zero : Count := ⟨0, 0⟩

/-- The two pairs of counters the statistics may own (util.rs:100-101). -/
inductive Ch where
  | main | helper
deriving DecidableEq, Repr

/-- The two counters of a pair (util.rs:143-146). -/
inductive Dir where
  | send | recv
deriving DecidableEq, Repr

/-- `IndexMap<Phase, (CountPair, Duration)>` (util.rs:103): entries in insertion order. -/
abbrev Recorded := List (Phase × (Count × Nat))

/-- `entry(phase).or_default()` followed by `+=` on both components (util.rs:467-469, 484-485). -/
def addEntry : Recorded → Phase → Count → Nat → Recorded
  | [], p, c, d => [(p, (Count.zero.add c, 0 + d))]
  | (q, (c', d')) :: rest, p, c, d =>
    if q = p then (q, (c'.add c, d' + d)) :: rest else (q, (c', d')) :: addEntry rest p c d

/-- The statistics, its counters and the local variable (`unaccounted` at util.rs:475, `comm` at
465) of the operation in progress. -/
structure St where
  main : Count
  helper : Count
  /-- `helper.is_some()` -/
  hasHelper : Bool
  recorded : Recorded
  prevPhase : Option Phase
  asPrev : Bool
  acc : Count

/-- `Statistics::new` (util.rs:379-387) over fresh counters, then `with_helper` (391-398) and
`without_unaccounted` (410-413). -/
def St.new (hasHelper asPrev : Bool) : St :=
  { main := .zero, helper := .zero, hasHelper, recorded := [], prevPhase := none, asPrev,
    acc := .zero }

/-- The atomic steps. -/
inductive Step where
  /-- `Counter += n` by a channel (util.rs:223, 246, 265, 282, 306) -/
  | traffic (ch : Ch) (dir : Dir) (n : Nat)
  /-- `Counter::reset` (util.rs:366-368) into the local variable -/
  | swap (ch : Ch) (dir : Dir)
  /-- `entry(phase).or_default() += ..` (util.rs:466-469) -/
  | commit (phase : Phase) (elapsed : Nat)
  /-- the same under the phase chosen by `record_unaccounted` (util.rs:479-485) -/
  | commitUnaccounted
deriving DecidableEq, Repr

def Count.bump (c : Count) : Dir → Nat → Count
  | .send, n => ⟨c.sent + n, c.rcvd⟩
  | .recv, n => ⟨c.sent, c.rcvd + n⟩

def Count.get (c : Count) : Dir → Nat
  | .send => c.sent
  | .recv => c.rcvd

def Count.clear (c : Count) : Dir → Count
  | .send => ⟨0, c.rcvd⟩
  | .recv => ⟨c.sent, 0⟩

/-- The phase `record_unaccounted` books under (util.rs:480-483). -/
def St.unaccountedPhase (s : St) : Phase :=
  match s.asPrev, s.prevPhase with
  | true, some p => p
  | _, _ => .unaccounted

/-- One atomic step.  Note that nothing writes `prev_phase` (there is no assignment to it in the
crate). -/
def step (s : St) : Step → St
  | .traffic .main d n => { s with main := s.main.bump d n }
  | .traffic .helper d n => { s with helper := s.helper.bump d n }
  | .swap .main d => { s with acc := s.acc.bump d (s.main.get d), main := s.main.clear d }
  | .swap .helper d => { s with acc := s.acc.bump d (s.helper.get d), helper := s.helper.clear d }
  | .commit p e => { s with recorded := addEntry s.recorded p s.acc e, acc := .zero }
  | .commitUnaccounted =>
    { s with recorded := addEntry s.recorded s.unaccountedPhase s.acc 0, acc := .zero }

def runSteps (s : St) (l : List Step) : St := l.foldl step s

/-- `CounterPair::reset` (util.rs:599-606). -/
def resetSteps (ch : Ch) : List Step := [.swap ch .send, .swap ch .recv]

/-- `record_unaccounted` (util.rs:474-486). -/
def unaccountedSteps (hasHelper : Bool) : List Step :=
  resetSteps .main ++ (if hasHelper then resetSteps .helper else []) ++ [.commitUnaccounted]

/-- Traffic observed while something else happens: channel, direction, bytes. -/
structure Traffic where
  ch : Ch
  dir : Dir
  n : Nat
deriving DecidableEq, Repr

def Traffic.toStep (t : Traffic) : Step := .traffic t.ch t.dir t.n

/-- What the owner of the statistics does, together with the traffic that happens meanwhile. -/
inductive Item where
  /-- traffic outside of every phase -/
  | outside (t : Traffic)
  /-- `record` (`ch = main`, util.rs:436-441) or `record_helper` (445-454) of a future during which
  `body` is transferred (including the sleep, 464).  `completed = false`: the future was dropped
  before it finished, so that lines 465-469 are never reached. -/
  | record (ch : Ch) (phase : Phase) (body : List Traffic) (elapsed : Nat) (completed : Bool)
deriving DecidableEq, Repr

/-- The steps of one item, or `none` for the `expect` of `record_helper` (util.rs:449-452).
`record_for` is util.rs:456-472. -/
def itemSteps (hasHelper : Bool) : Item → Option (List Step)
  | .outside t => some [t.toStep]
  | .record ch p body e completed =>
    if ch = .helper ∧ hasHelper = false then none
    else some (unaccountedSteps hasHelper ++ body.map Traffic.toStep ++
      (if completed then resetSteps ch ++ [.commit p e] else []))

/-- A whole history followed by the `record_unaccounted` of `get` / `into_run_result`
(util.rs:489-507). -/
def historySteps (hasHelper : Bool) : List Item → Option (List Step)
  | [] => some (unaccountedSteps hasHelper)
  | i :: rest => do
    let a ← itemSteps hasHelper i
    let b ← historySteps hasHelper rest
    return a ++ b

/-- `into_run_result` (util.rs:495-507): the communication map (and the durations). -/
def runResult (hasHelper asPrev : Bool) (h : List Item) : Option Recorded :=
  (historySteps hasHelper h).map fun l => (runSteps (St.new hasHelper asPrev) l).recorded

/-- `IndexMap::get` on the result; a phase without entry counts as nothing. -/
def bytesOf (r : Recorded) (p : Phase) : Count :=
  match r with
  | [] => .zero
  | (q, (c, _)) :: rest => if q = p then c else bytesOf rest p

/-- `total_bytes_sent` / `total_bytes_recv` (util.rs:526-532). -/
def totalBytes (r : Recorded) : Count :=
  ⟨(r.map fun e => e.2.1.sent).sum, (r.map fun e => e.2.1.rcvd).sum⟩

/-! ## Specification -/

/-- Bytes of a list of traffic in one direction on the selected channels. -/
def bytes (sel : Ch → Bool) (d : Dir) (l : List Traffic) : Nat :=
  (l.map fun t => if sel t.ch ∧ t.dir = d then t.n else 0).sum

/-- The traffic of a list of steps. -/
def Step.traffic? : Step → Option Traffic
  | .traffic c d n => some ⟨c, d, n⟩
  | _ => none

/-- The traffic of one item. -/
def Item.traffic : Item → List Traffic
  | .outside t => [t]
  | .record _ _ body _ _ => body

/-! ## Conservation under every interleaving -/

theorem sum_addEntry_sent (r : Recorded) (p : Phase) (c : Count) (e : Nat) :
    ((addEntry r p c e).map fun x => x.2.1.sent).sum = (r.map fun x => x.2.1.sent).sum + c.sent := by
  induction r with
  | nil => simp [addEntry, Count.add, Count.zero]
  | cons x r ih =>
    obtain ⟨q, c', d'⟩ := x
    by_cases h : q = p
    · simp [addEntry, h, Count.add]; omega
    · simp [addEntry, h, ih]; omega

theorem sum_addEntry_rcvd (r : Recorded) (p : Phase) (c : Count) (e : Nat) :
    ((addEntry r p c e).map fun x => x.2.1.rcvd).sum = (r.map fun x => x.2.1.rcvd).sum + c.rcvd := by
  induction r with
  | nil => simp [addEntry, Count.add, Count.zero]
  | cons x r ih =>
    obtain ⟨q, c', d'⟩ := x
    by_cases h : q = p
    · simp [addEntry, h, Count.add]; omega
    · simp [addEntry, h, ih]; omega

/-- Bytes attributed plus bytes in flight. -/
def St.balance (s : St) (d : Dir) : Nat :=
  (totalBytes s.recorded).get d + s.acc.get d + s.main.get d + s.helper.get d

theorem balance_step (s : St) (x : Step) (d : Dir) :
    (step s x).balance d = s.balance d + bytes (fun _ => true) d x.traffic?.toList := by
  cases x with
  | traffic c e n =>
    cases c <;> cases e <;> cases d <;>
      simp [step, St.balance, Count.get, Count.bump, bytes, Step.traffic?] <;> omega
  | swap c e =>
    cases c <;> cases e <;> cases d <;>
      simp [step, St.balance, Count.get, Count.bump, Count.clear, bytes, Step.traffic?] <;> omega
  | commit p e =>
    cases d <;>
      simp [step, St.balance, Count.get, bytes, Step.traffic?, totalBytes, Count.zero,
        sum_addEntry_sent, sum_addEntry_rcvd]
  | commitUnaccounted =>
    cases d <;>
      simp [step, St.balance, Count.get, bytes, Step.traffic?, totalBytes, Count.zero,
        sum_addEntry_sent, sum_addEntry_rcvd]

theorem bytes_append (sel : Ch → Bool) (d : Dir) (a b : List Traffic) :
    bytes sel d (a ++ b) = bytes sel d a + bytes sel d b := by
  simp [bytes]

theorem bytes_nil (sel : Ch → Bool) (d : Dir) : bytes sel d [] = 0 := rfl

/-- Conservation: however the steps of the statistics interleave with the traffic of the channels,
the bytes attributed to phases, plus those in the local variable of an unfinished operation, plus
those in the counters, are exactly the bytes that passed through the counters. -/
theorem bytes_conserved (s : St) (l : List Step) (d : Dir) :
    (totalBytes (runSteps s l).recorded).get d + (runSteps s l).acc.get d +
        (runSteps s l).main.get d + (runSteps s l).helper.get d =
      (totalBytes s.recorded).get d + s.acc.get d + s.main.get d + s.helper.get d +
        bytes (fun _ => true) d (l.filterMap Step.traffic?) := by
  show (runSteps s l).balance d = s.balance d + _
  induction l generalizing s with
  | nil => simp [runSteps, bytes]
  | cons x l ih =>
    have := ih (step s x)
    rw [runSteps, List.foldl_cons, ← runSteps, this, balance_step]
    cases h : x.traffic? with
    | none => simp [h, bytes]
    | some t => simp [h, bytes]; omega


/-! ## Attribution -/

/-- The channels whose counters the statistics owns. -/
def tracked (hasHelper : Bool) : Ch → Bool
  | .main => true
  | .helper => hasHelper

/-- Bytes the completed recordings of phase `p` moved over the channel they record. -/
def ownBytes (p : Phase) (d : Dir) (h : List Item) : Nat :=
  (h.map fun i => match i with
    | .record ch q body _ true => if q = p then bytes (fun c => c = ch) d body else 0
    | _ => 0).sum

/-- All other bytes on tracked channels: traffic between the recordings, traffic on the other
channel during a recording, and the traffic of recordings that were dropped. -/
def otherBytes (hasHelper : Bool) (d : Dir) (h : List Item) : Nat :=
  (h.map fun i => match i with
    | .record ch _ body _ true => bytes (fun c => tracked hasHelper c && c ≠ ch) d body
    | .record _ _ body _ false => bytes (tracked hasHelper) d body
    | .outside t => bytes (tracked hasHelper) d [t]).sum

theorem bytesOf_addEntry (r : Recorded) (p q : Phase) (c : Count) (e : Nat) :
    bytesOf (addEntry r p c e) q = if q = p then (bytesOf r p).add c else bytesOf r q := by
  induction r with
  | nil =>
    by_cases h : p = q
    · simp [addEntry, bytesOf, h]
    · simp [addEntry, bytesOf, h, Ne.symm h]
  | cons x r ih =>
    obtain ⟨q', c', d'⟩ := x
    by_cases h : q' = p
    · subst h
      by_cases h2 : q' = q
      · subst h2; simp [addEntry, bytesOf]
      · simp [addEntry, bytesOf, h2, Ne.symm h2]
    · by_cases h2 : q' = q
      · subst h2; simp [addEntry, bytesOf, h]
      · simp only [addEntry, if_neg h, bytesOf, if_neg h2, ih]

theorem get_add (a b : Count) (d : Dir) : (a.add b).get d = a.get d + b.get d := by
  cases d <;> rfl

/-- What the next `record_unaccounted` will book. -/
def St.pending (s : St) : Count := if s.hasHelper then s.main.add s.helper else s.main

theorem run_unaccounted (s : St) (ha : s.acc = .zero) (hp : s.prevPhase = none) :
    runSteps s (unaccountedSteps s.hasHelper) =
      { s with
        main := .zero, helper := (if s.hasHelper then .zero else s.helper),
        recorded := addEntry s.recorded .unaccounted s.pending 0 } := by
  obtain ⟨⟨ms, mr⟩, ⟨hs, hr⟩, hh, rec, pp, ap, acc⟩ := s
  simp only at ha hp
  subst ha hp
  cases hh <;> cases ap <;>
    simp [runSteps, unaccountedSteps, resetSteps, step, St.pending, St.unaccountedPhase,
      Count.bump, Count.get, Count.clear, Count.zero, Count.add]

theorem run_traffic (s : St) (l : List Traffic) :
    runSteps s (l.map Traffic.toStep) =
      { s with
        main := s.main.add ⟨bytes (fun c => c = .main) .send l, bytes (fun c => c = .main) .recv l⟩,
        helper := s.helper.add
          ⟨bytes (fun c => c = .helper) .send l, bytes (fun c => c = .helper) .recv l⟩ } := by
  induction l generalizing s with
  | nil => simp [runSteps, bytes, Count.add]
  | cons t l ih =>
    obtain ⟨c, d, n⟩ := t
    have := ih (step s (Traffic.toStep ⟨c, d, n⟩))
    rw [List.map_cons, runSteps, List.foldl_cons, ← runSteps, this]
    cases c <;> cases d <;>
      simp [step, Traffic.toStep, Count.add, Count.bump, bytes] <;> omega

theorem runSteps_append (s : St) (a b : List Step) :
    runSteps s (a ++ b) = runSteps (runSteps s a) b := by
  simp [runSteps]

theorem bytes_tracked (hh : Bool) (d : Dir) (l : List Traffic) :
    bytes (tracked hh) d l = bytes (fun c => c = .main) d l +
      if hh then bytes (fun c => c = .helper) d l else 0 := by
  induction l with
  | nil => cases hh <;> simp [bytes]
  | cons t l ih =>
    obtain ⟨c, e, n⟩ := t
    simp only [bytes, List.map_cons, List.sum_cons] at ih ⊢
    rw [ih]
    cases hh <;> cases c <;> simp [tracked] <;> omega

theorem bytes_other_main (hh : Bool) (d : Dir) (l : List Traffic) :
    bytes (fun c => tracked hh c && c ≠ .main) d l =
      if hh then bytes (fun c => c = .helper) d l else 0 := by
  induction l with
  | nil => cases hh <;> simp [bytes]
  | cons t l ih =>
    obtain ⟨c, e, n⟩ := t
    simp only [bytes, List.map_cons, List.sum_cons] at ih ⊢
    rw [ih]
    cases hh <;> cases c <;> simp [tracked]

theorem bytes_other_helper (hh : Bool) (d : Dir) (l : List Traffic) :
    bytes (fun c => tracked hh c && c ≠ .helper) d l = bytes (fun c => c = .main) d l := by
  induction l with
  | nil => simp [bytes]
  | cons t l ih =>
    obtain ⟨c, e, n⟩ := t
    simp only [bytes, List.map_cons, List.sum_cons] at ih ⊢
    rw [ih]
    cases hh <;> cases c <;> simp [tracked]

theorem get_pair (a b : Nat) (f : Dir → Nat) (d : Dir) (ha : a = f .send) (hb : b = f .recv) :
    (Count.mk a b).get d = f d := by
  subst ha hb
  cases d <;> rfl

theorem attribution_aux (h : List Item) (s : St) (ha : s.acc = .zero) (hp : s.prevPhase = none)
    (l : List Step) (hl : historySteps s.hasHelper h = some l) (p : Phase) (d : Dir) :
    (bytesOf (runSteps s l).recorded p).get d = (bytesOf s.recorded p).get d + ownBytes p d h +
      if p = .unaccounted then s.pending.get d + otherBytes s.hasHelper d h else 0 := by
  induction h generalizing s l with
  | nil =>
    simp only [historySteps, Option.some.injEq] at hl
    subst hl
    rw [run_unaccounted s ha hp]
    simp only [bytesOf_addEntry, ownBytes, otherBytes, List.map_nil, List.sum_nil]
    by_cases h : p = .unaccounted
    · subst h; simp [get_add]
    · simp [h]
  | cons i h ih =>
    simp only [historySteps, Option.bind_eq_bind, Option.bind_eq_some_iff, Option.pure_def,
      Option.some.injEq] at hl
    obtain ⟨a, ha', b, hb, rfl⟩ := hl
    rw [runSteps_append]
    cases i with
    | outside t =>
      simp only [itemSteps, Option.some.injEq] at ha'
      subst ha'
      have hrun := run_traffic s [t]
      simp only [List.map_cons, List.map_nil] at hrun
      rw [hrun, ih _ (by exact ha) (by exact hp) b (by exact hb)]
      have ho : otherBytes s.hasHelper d (.outside t :: h) =
          bytes (tracked s.hasHelper) d [t] + otherBytes s.hasHelper d h := by
        simp [otherBytes]
      have hw : ownBytes p d (.outside t :: h) = ownBytes p d h := by simp [ownBytes]
      rw [ho, hw, bytes_tracked]
      by_cases hpu : p = .unaccounted
      · simp only [if_pos hpu, St.pending]
        cases hh : s.hasHelper <;> cases d <;> simp [Count.get, Count.add] <;> omega
      · simp only [if_neg hpu]
    | record ch q body e completed =>
      simp only [itemSteps] at ha'
      by_cases hno : ch = .helper ∧ s.hasHelper = false
      · simp [hno] at ha'
      rw [if_neg hno, Option.some.injEq] at ha'
      subst ha'
      rw [runSteps_append, runSteps_append, run_unaccounted s ha hp, run_traffic]
      cases completed with
      | false =>
        simp only [Bool.false_eq_true, if_false]
        rw [show ∀ s : St, runSteps s [] = s from fun _ => rfl]
        rw [ih _ (by exact ha) (by exact hp) b (by exact hb)]
        have ho : otherBytes s.hasHelper d (.record ch q body e false :: h) =
            bytes (tracked s.hasHelper) d body + otherBytes s.hasHelper d h := by
          simp [otherBytes]
        have hw : ownBytes p d (.record ch q body e false :: h) = ownBytes p d h := by
          simp [ownBytes]
        rw [ho, hw, bytes_tracked]
        simp only [bytesOf_addEntry]
        by_cases hpu : p = .unaccounted
        · subst hpu
          simp only [if_true, St.pending]
          cases hh : s.hasHelper <;> cases d <;> simp [Count.get, Count.add, Count.zero] <;> omega
        · simp only [if_neg hpu]
      | true =>
        simp only [if_true]
        have ho : otherBytes s.hasHelper d (.record ch q body e true :: h) =
            bytes (fun c => tracked s.hasHelper c && c ≠ ch) d body +
              otherBytes s.hasHelper d h := by
          simp [otherBytes]
        have hw : ownBytes p d (.record ch q body e true :: h) =
            (if p = q then bytes (fun c => c = ch) d body else 0) + ownBytes p d h := by
          simp [ownBytes, eq_comm]
        cases ch with
        | main =>
          have hrun : ∀ (m hl : Count) (hh ap : Bool) (r : Recorded) (pp : Option Phase),
              runSteps ⟨m, hl, hh, r, pp, ap, .zero⟩ (resetSteps .main ++ [.commit q e]) =
                ⟨.zero, hl, hh, addEntry r q m e, pp, ap, .zero⟩ := by
            intro m hl hh ap r pp
            simp [runSteps, resetSteps, step, Count.bump, Count.get, Count.clear, Count.zero]
          rw [ha, hrun, ih _ rfl (by exact hp) b (by exact hb), ho, hw, bytes_other_main]
          clear ho hw
          simp only [bytesOf_addEntry]
          by_cases hpu : p = .unaccounted <;> by_cases hq : p = q <;>
            by_cases hqu : q = .unaccounted <;> simp_all [St.pending] <;>
            cases hh : s.hasHelper <;> cases d <;>
            simp_all [Count.get, Count.add, Count.zero] <;> omega
        | helper =>
          have hh : s.hasHelper = true := by
            cases hx : s.hasHelper with
            | true => rfl
            | false => exact absurd ⟨rfl, hx⟩ hno
          have hrun : ∀ (m hl : Count) (hh ap : Bool) (r : Recorded) (pp : Option Phase),
              runSteps ⟨m, hl, hh, r, pp, ap, .zero⟩ (resetSteps .helper ++ [.commit q e]) =
                ⟨m, .zero, hh, addEntry r q hl e, pp, ap, .zero⟩ := by
            intro m hl hh ap r pp
            simp [runSteps, resetSteps, step, Count.bump, Count.get, Count.clear, Count.zero]
          rw [ha, hrun, ih _ rfl (by exact hp) b (by exact hb), ho, hw, bytes_other_helper]
          clear ho hw
          simp only [bytesOf_addEntry]
          by_cases hpu : p = .unaccounted <;> by_cases hq : p = q <;>
            by_cases hqu : q = .unaccounted <;> simp_all [St.pending] <;>
            cases d <;>
            simp_all [Count.get, Count.add, Count.zero] <;> omega

/-- Attribution: for every history, and whatever `without_unaccounted` was set to, the result
books under a phase exactly the bytes that the completed recordings of this phase moved over the
channel they record; everything else on tracked channels is booked as `Unaccounted`. -/
theorem attribution (hasHelper asPrev : Bool) (h : List Item) (r : Recorded)
    (hr : runResult hasHelper asPrev h = some r) (p : Phase) (d : Dir) :
    (bytesOf r p).get d =
      ownBytes p d h + if p = .unaccounted then otherBytes hasHelper d h else 0 := by
  simp only [runResult, Option.map_eq_some_iff] at hr
  obtain ⟨l, hl, rfl⟩ := hr
  rw [attribution_aux h (St.new hasHelper asPrev) rfl rfl l hl p d]
  cases d <;> cases hasHelper <;>
    simp [St.new, bytesOf, St.pending, Count.get, Count.zero, Count.add]

/-- The only panic: recording helper traffic without helper counters. -/
theorem run_result_panics_iff (hasHelper asPrev : Bool) (h : List Item) :
    runResult hasHelper asPrev h = none ↔
      hasHelper = false ∧ ∃ (p : Phase) (b : List Traffic) (e : Nat) (c : Bool),
        Item.record .helper p b e c ∈ h := by
  simp only [runResult, Option.map_eq_none_iff]
  induction h with
  | nil => simp [historySteps]
  | cons i h ih =>
    cases i with
    | outside t =>
      cases hh : historySteps hasHelper h with
      | none =>
        obtain ⟨a, p, b, e, c, hm⟩ := ih.mp hh
        constructor
        · intro _; exact ⟨a, p, b, e, c, List.mem_cons_of_mem _ hm⟩
        · intro _; simp [historySteps, itemSteps, hh]
      | some x =>
        have hn := mt ih.mpr (by simp [hh])
        simp only [historySteps, itemSteps, hh]
        constructor
        · intro hc; simp at hc
        · rintro ⟨a, p, b, e, c, hm⟩
          simp only [List.mem_cons, reduceCtorEq, false_or] at hm
          exact absurd ⟨a, p, b, e, c, hm⟩ hn
    | record ch q body e completed =>
      by_cases hno : ch = .helper ∧ hasHelper = false
      · obtain ⟨rfl, rfl⟩ := hno
        simp only [historySteps, itemSteps]
        constructor
        · intro _
          exact ⟨trivial, q, body, e, completed, List.mem_cons_self⟩
        · intro _; simp
      · simp only [historySteps, itemSteps, if_neg hno]
        constructor
        · intro hc
          simp only [Option.bind_eq_bind, Option.bind_some, Option.bind_eq_none_iff,
            Option.pure_def, reduceCtorEq, imp_false] at hc
          have : historySteps hasHelper h = none := by
            cases hx : historySteps hasHelper h with
            | none => rfl
            | some y => exact absurd hx (hc y)
          obtain ⟨a, p, b, e', c, hm⟩ := ih.mp this
          exact ⟨a, p, b, e', c, List.mem_cons_of_mem _ hm⟩
        · rintro ⟨a, p, b, e', c, hm⟩
          rcases List.mem_cons.mp hm with hm | hm
          · injection hm with h1
            exact absurd ⟨h1.symm, a⟩ hno
          · simp [ih.mpr ⟨a, p, b, e', c, hm⟩]

/-- The totals of the result are all the bytes on tracked channels (util.rs:526-532). -/
theorem run_result_total (hasHelper asPrev : Bool) (h : List Item) (r : Recorded)
    (hr : runResult hasHelper asPrev h = some r) (d : Dir) :
    (totalBytes r).get d = bytes (tracked hasHelper) d (h.flatMap Item.traffic) := by
  simp only [runResult, Option.map_eq_some_iff] at hr
  obtain ⟨l, hl, rfl⟩ := hr
  suffices H : ∀ (h : List Item) (s : St) (l : List Step), s.acc = .zero → s.prevPhase = none →
      historySteps s.hasHelper h = some l →
      (totalBytes (runSteps s l).recorded).get d = (totalBytes s.recorded).get d +
        s.pending.get d + bytes (tracked s.hasHelper) d (h.flatMap Item.traffic) by
    rw [H h (St.new hasHelper asPrev) l rfl rfl hl]
    cases d <;> cases hasHelper <;>
      simp [St.new, totalBytes, St.pending, Count.get, Count.zero, Count.add]
  clear hl l h
  have hadd : ∀ (r : Recorded) (p : Phase) (c : Count) (e : Nat),
      (totalBytes (addEntry r p c e)).get d = (totalBytes r).get d + c.get d := by
    intro r p c e
    cases d
    · exact sum_addEntry_sent r p c e
    · exact sum_addEntry_rcvd r p c e
  intro h
  induction h with
  | nil =>
    intro s l ha hp hl
    simp only [historySteps, Option.some.injEq] at hl
    subst hl
    rw [run_unaccounted s ha hp]
    simp [hadd, bytes]
  | cons i h ih =>
    intro s l ha hp hl
    simp only [historySteps, Option.bind_eq_bind, Option.bind_eq_some_iff, Option.pure_def,
      Option.some.injEq] at hl
    obtain ⟨a, ha', b, hb, rfl⟩ := hl
    rw [runSteps_append, List.flatMap_cons, bytes_append]
    cases i with
    | outside t =>
      simp only [itemSteps, Option.some.injEq] at ha'
      subst ha'
      have hrun := run_traffic s [t]
      simp only [List.map_cons, List.map_nil] at hrun
      rw [hrun, ih _ b (by exact ha) (by exact hp) (by exact hb)]
      simp only [Item.traffic, bytes_tracked s.hasHelper d [t], St.pending]
      cases hh : s.hasHelper <;> cases d <;> simp [Count.get, Count.add] <;> omega
    | record ch q body e completed =>
      simp only [itemSteps] at ha'
      by_cases hno : ch = .helper ∧ s.hasHelper = false
      · simp [hno] at ha'
      rw [if_neg hno, Option.some.injEq] at ha'
      subst ha'
      rw [runSteps_append, runSteps_append, run_unaccounted s ha hp, run_traffic]
      simp only [Item.traffic, bytes_tracked s.hasHelper d body]
      cases completed with
      | false =>
        simp only [Bool.false_eq_true, if_false]
        rw [show ∀ s : St, runSteps s [] = s from fun _ => rfl]
        rw [ih _ b (by exact ha) (by exact hp) (by exact hb)]
        simp only [hadd, St.pending]
        cases hh : s.hasHelper <;> cases d <;> simp [Count.get, Count.add, Count.zero] <;> omega
      | true =>
        simp only [if_true]
        cases ch with
        | main =>
          have hrun : ∀ (m hl : Count) (hh ap : Bool) (r : Recorded) (pp : Option Phase),
              runSteps ⟨m, hl, hh, r, pp, ap, .zero⟩ (resetSteps .main ++ [.commit q e]) =
                ⟨.zero, hl, hh, addEntry r q m e, pp, ap, .zero⟩ := by
            intro m hl hh ap r pp
            simp [runSteps, resetSteps, step, Count.bump, Count.get, Count.clear, Count.zero]
          rw [ha, hrun, ih _ b rfl (by exact hp) (by exact hb)]
          simp only [hadd, St.pending]
          cases hh : s.hasHelper <;> cases d <;> simp [Count.get, Count.add, Count.zero] <;> omega
        | helper =>
          have hh : s.hasHelper = true := by
            cases hx : s.hasHelper with
            | true => rfl
            | false => exact absurd ⟨rfl, hx⟩ hno
          have hrun : ∀ (m hl : Count) (hh ap : Bool) (r : Recorded) (pp : Option Phase),
              runSteps ⟨m, hl, hh, r, pp, ap, .zero⟩ (resetSteps .helper ++ [.commit q e]) =
                ⟨m, .zero, hh, addEntry r q hl e, pp, ap, .zero⟩ := by
            intro m hl hh ap r pp
            simp [runSteps, resetSteps, step, Count.bump, Count.get, Count.clear, Count.zero]
          rw [ha, hrun, ih _ b rfl (by exact hp) (by exact hb)]
          simp only [hadd, St.pending, hh]
          cases d <;> simp [Count.get, Count.add, Count.zero] <;> omega

/-! ## `without_unaccounted` -/

/-- What the documentation of `without_unaccounted(true)` promises (util.rs:407-409): traffic
outside the recordings goes to the phase recorded last, and to `Unaccounted` only before the first
phase.  (Stated for completed recordings.) -/
def documented (hasHelper : Bool) (p : Phase) (d : Dir) : Option Phase → List Item → Nat
  | _, [] => 0
  | prev, .outside t :: rest =>
    (if prev.getD .unaccounted = p then bytes (tracked hasHelper) d [t] else 0) +
      documented hasHelper p d prev rest
  | _, .record _ q body _ _ :: rest =>
    (if q = p then bytes (tracked hasHelper) d body else 0) + documented hasHelper p d (some q) rest

/-- The promise. -/
def WithoutUnaccountedPromise : Prop :=
  ∀ (hasHelper : Bool) (h : List Item) (r : Recorded),
    (∀ (c : Ch) (p : Phase) (b : List Traffic) (e : Nat), Item.record c p b e false ∉ h) →
    runResult hasHelper true h = some r →
    ∀ (p : Phase) (d : Dir), (bytesOf r p).get d = documented hasHelper p d none h

/-- A phase, ten more bytes sent, and another phase. -/
def lateTraffic : List Item :=
  [.record .main .mts [⟨.main, .send, 5⟩] 1 true, .outside ⟨.main, .send, 10⟩,
   .record .main .online [⟨.main, .send, 7⟩, ⟨.main, .recv, 3⟩] 1 true]

/-- The promise does not hold: the ten late bytes are booked as `Unaccounted` although a phase
precedes them, because `prev_phase` is never assigned. -/
theorem without_unaccounted_broken : ¬ WithoutUnaccountedPromise := by
  intro h
  have hr : runResult false true lateTraffic = some
      [(.unaccounted, (⟨10, 0⟩, 0)), (.mts, (⟨5, 0⟩, 1)), (.online, (⟨7, 3⟩, 1))] := by
    decide +kernel
  have := h false lateTraffic _ (by simp [lateTraffic]) hr .unaccounted .send
  revert this
  decide +kernel

/-- The option has no effect at all. -/
theorem without_unaccounted_ignored (hasHelper : Bool) (h : List Item) :
    runResult hasHelper true h = runResult hasHelper false h := by
  simp only [runResult]
  congr 1
  funext l
  suffices H : ∀ (l : List Step) (s : St), s.prevPhase = none →
      runSteps { s with asPrev := true } l = { runSteps { s with asPrev := false } l with asPrev := true } by
    have := H l (St.new hasHelper false) rfl
    have h2 := congrArg St.recorded this
    exact h2
  intro l
  induction l with
  | nil => intro s _; rfl
  | cons x l ih =>
    intro s hs
    have hstep : step { s with asPrev := true } x =
        { step { s with asPrev := false } x with asPrev := true } := by
      obtain ⟨m, hl, hh, r, pp, ap, acc⟩ := s
      simp only at hs
      subst hs
      cases x with
      | traffic c d n => cases c <;> rfl
      | swap c d => cases c <;> rfl
      | commit p e => rfl
      | commitUnaccounted => rfl
    have hprev : (step { s with asPrev := false } x).prevPhase = none := by
      cases x with
      | traffic c d n => cases c <;> exact hs
      | swap c d => cases c <;> exact hs
      | commit p e => exact hs
      | commitUnaccounted => exact hs
    have hid : ∀ s' : St, s'.asPrev = false → { s' with asPrev := false } = s' := by
      intro s' h'; obtain ⟨m, hl, hh, r, pp, ap, acc⟩ := s'; simp only at h'; subst h'; rfl
    have hf : (step { s with asPrev := false } x).asPrev = false := by
      cases x with
      | traffic c d n => cases c <;> rfl
      | swap c d => cases c <;> rfl
      | commit p e => rfl
      | commitUnaccounted => rfl
    have := ih (step { s with asPrev := false } x) hprev
    rw [hid _ hf] at this
    simp only [runSteps, List.foldl_cons] at this ⊢
    rw [hstep, this]

/-- A history with a helper that satisfies the hypotheses of `attribution`: helper traffic during
a recording of the main channel is booked as `Unaccounted`. -/
example : runResult true false
    [.outside ⟨.main, .send, 58⟩,
     .record .main .functionDependentSetup [⟨.main, .send, 75⟩, ⟨.helper, .recv, 9⟩] 4 true,
     .record .helper .mts [⟨.helper, .recv, 6⟩, ⟨.main, .send, 2⟩] 1 true,
     .record .main .mts [⟨.main, .recv, 11⟩] 2 false] =
    some [(.unaccounted, (⟨60, 20⟩, 0)), (.functionDependentSetup, (⟨75, 0⟩, 4)),
      (.mts, (⟨0, 6⟩, 1))] := by decide +kernel

/-! ## Averages -/

/-- `communication_bytes` of a `RunResult` (util.rs:115). -/
abbrev Comm := List (Phase × Count)

/-- `entry(k).or_default() += v` (util.rs:559). -/
def addComm : Comm → Phase → Count → Comm
  | [], p, c => [(p, Count.zero.add c)]
  | (q, c') :: rest, p, c => if q = p then (q, c'.add c) :: rest else (q, c') :: addComm rest p c

/-- `RunResult::mean` (util.rs:555-572), the communication part; the loop over the times is the
same.  The division by `data.len()` is never reached for empty data. -/
def mean (data : List Comm) : Comm :=
  let sum := data.foldl (fun res val => val.foldl (fun r e => addComm r e.1 e.2) res) []
  sum.map fun e => (e.1, e.2.div data.length)

/-- `IndexMap::get`. -/
def commOf : Comm → Phase → Option Count
  | [], _ => none
  | (q, c) :: rest, p => if q = p then some c else commOf rest p

theorem commOf_addComm (r : Comm) (p q : Phase) (c : Count) :
    commOf (addComm r p c) q =
      if q = p then some (((commOf r p).getD .zero).add c) else commOf r q := by
  induction r with
  | nil =>
    by_cases h : p = q
    · simp [addComm, commOf, h]
    · simp [addComm, commOf, h, Ne.symm h]
  | cons x r ih =>
    obtain ⟨q', c'⟩ := x
    by_cases h : q' = p
    · subst h
      by_cases h2 : q' = q
      · subst h2; simp [addComm, commOf]
      · simp [addComm, commOf, h2, Ne.symm h2]
    · by_cases h2 : q' = q
      · subst h2; simp [addComm, commOf, h]
      · simp only [addComm, if_neg h, commOf, if_neg h2, ih]

theorem commOf_foldl (val : Comm) (hn : (val.map (·.1)).Nodup) (r : Comm) (p : Phase) :
    commOf (val.foldl (fun r e => addComm r e.1 e.2) r) p =
      match commOf val p with
      | none => commOf r p
      | some c => some (((commOf r p).getD .zero).add c) := by
  induction val generalizing r with
  | nil => rfl
  | cons x val ih =>
    obtain ⟨q, c⟩ := x
    rw [List.map_cons, List.nodup_cons] at hn
    rw [List.foldl_cons, ih hn.2]
    have hnot : ∀ v : Comm, q ∉ v.map (·.1) → commOf v q = none := by
      intro v
      induction v with
      | nil => intro _; rfl
      | cons y v ihv =>
        intro hy
        simp only [List.map_cons, List.mem_cons, not_or] at hy
        simp only [commOf, if_neg (Ne.symm hy.1)]
        exact ihv hy.2
    by_cases h : q = p
    · subst h
      rw [hnot val hn.1]
      simp [commOf, commOf_addComm]
    · simp only [commOf, if_neg h]
      cases commOf val p <;> simp [commOf_addComm, Ne.symm h]

theorem commOf_map (r : Comm) (n : Nat) (p : Phase) :
    commOf (r.map fun e => (e.1, e.2.div n)) p = (commOf r p).map (·.div n) := by
  induction r with
  | nil => rfl
  | cons x r ih =>
    obtain ⟨q, c⟩ := x
    by_cases h : q = p <;> simp [commOf, h, ih]

/-- The mean of results (with distinct phases, as in every `IndexMap`) is, for every phase, the
sum over the results, a missing phase counting as nothing, divided by their number and rounded
down. -/
theorem mean_value (data : List Comm) (hn : ∀ v ∈ data, (v.map (·.1)).Nodup) (p : Phase) (d : Dir) :
    (((commOf (mean data) p).getD .zero).get d) =
      (data.map fun v => ((commOf v p).getD .zero).get d).sum / data.length := by
  have H : ∀ (data : List Comm) (r : Comm), (∀ v ∈ data, (v.map (·.1)).Nodup) →
      (((commOf (data.foldl (fun res val => val.foldl (fun r e => addComm r e.1 e.2) res) r) p).getD
        .zero).get d) = ((commOf r p).getD .zero).get d +
          (data.map fun v => ((commOf v p).getD .zero).get d).sum := by
    intro data
    induction data with
    | nil => intro r _; simp
    | cons v data ih =>
      intro r hn
      rw [List.foldl_cons, ih _ (fun w hw => hn w (List.mem_cons_of_mem _ hw)),
        commOf_foldl v (hn v List.mem_cons_self), List.map_cons, List.sum_cons]
      cases hv : commOf v p with
      | none => cases d <;> simp [Count.get, Count.zero]
      | some c => cases d <;> simp [Count.get, Count.add] <;> omega
  have hH := H data [] hn
  simp only [mean, commOf_map]
  have h0 : ((commOf ([] : Comm) p).getD .zero).get d = 0 := by cases d <;> rfl
  rw [h0, Nat.zero_add] at hH
  rw [← hH]
  cases commOf (data.foldl (fun res val => val.foldl (fun r e => addComm r e.1 e.2) res) []) p with
  | none => cases d <;> simp [Count.get, Count.zero]
  | some c => cases d <;> simp [Count.get, Count.div]

/-- Two results with different phases. -/
example : mean [[(.mts, ⟨10, 1⟩), (.online, ⟨3, 3⟩)], [(.online, ⟨4, 6⟩)]] =
    [(.mts, ⟨5, 0⟩), (.online, ⟨3, 4⟩)] := by decide +kernel

end Verif.Chan
