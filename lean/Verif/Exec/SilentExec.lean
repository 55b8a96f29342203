import Verif.Exec.Stored
import Verif.Silent.ExConv
import Verif.Exec.StoredWitness

/-!
C90: execution with triples from silent OT.
-/
set_option autoImplicit false

namespace Verif.Exec

open Circuit Proc Gmw

/-- boolean/silent_ot.rs:161-168 `request_mts` as the setup provider of an executor (executor.rs:342-346); `gen` is what
the run of the silent OT protocol gives this party. -/
def silentRequest (gen : Mt.MulTriples Bool) (p : Mt.Silent) (n : Nat) : Option (Mt.Silent × List Triple) :=
  match Mt.silentProvide gen p (.request n) with
  | some (p', [out]) => some (p', Mt.triples out)
  | _ => none

/-- boolean/silent_ot.rs:152-159 `precompute_mts` before the execution (bench.rs:264-273). -/
def silentAhead (gen : Mt.MulTriples Bool) (p : Mt.Silent) (n : Nat) : Option Mt.Silent :=
  (Mt.silentProvide gen p (.precompute n)).map (·.1)

/-- The triples the provider can still give out: those in store or, before the first use, those the protocol will
give. -/
def silentHeld (gen : Mt.MulTriples Bool) (p : Mt.Silent) : Mt.MulTriples Bool := p.stored.getD gen

/-- A provider before or after the protocol has run. -/
def SilentOk (p : Mt.Silent) : Prop := p.stored.isSome ∨ p.ready = true

/-- One request: answered with exactly the requested number if and only if that many are left. -/
theorem silentRequest_spec (gen : Mt.MulTriples Bool) (p : Mt.Silent) (hp : SilentOk p)
    (hw : (silentHeld gen p).WF) (n : Nat) :
    (∀ s r, (silentHeld gen p).splitOffLast n = some (s, r) →
      ∃ p', silentRequest gen p n = some (p', Mt.triples r) ∧ p'.stored = some s) ∧
    ((silentHeld gen p).rows.length < n → silentRequest gen p n = none) := by
  have hl := Mt.rows_length hw
  obtain ⟨num, st, rd⟩ := p
  cases st with
  | some m =>
    have hh : silentHeld gen ⟨num, some m, rd⟩ = m := rfl
    rw [hh] at hl ⊢
    constructor
    · intro s r h
      exact ⟨⟨num, some s, rd⟩, by simp [silentRequest, Mt.silentProvide, h], rfl⟩
    · intro h
      simp [silentRequest, Mt.silentProvide, Mt.splitOffLast_none (show ¬ n ≤ m.len by omega)]
  | none =>
    have hh : silentHeld gen ⟨num, none, rd⟩ = gen := rfl
    rw [hh] at hl ⊢
    have hr : rd = true := by
      rcases hp with hp | hp
      · simp at hp
      · exact hp
    subst hr
    constructor
    · intro s r h
      exact ⟨⟨num, some s, false⟩, by simp [silentRequest, Mt.silentProvide, Mt.silentPrecompute, h], rfl⟩
    · intro h
      simp [silentRequest, Mt.silentProvide, Mt.silentPrecompute, Mt.splitOffLast_none (show ¬ n ≤ gen.len by omega)]

/-- Two providers whose triples match serve all requests that fit. -/
theorem silent_serves {gen0 gen1 : Mt.MulTriples Bool} (ns : List Nat) {p0 p1 : Mt.Silent} (h0 : SilentOk p0)
    (h1 : SilentOk p1) (w0 : (silentHeld gen0 p0).WF) (w1 : (silentHeld gen1 p1).WF)
    (hv : List.Forall₂ Mt.Valid (silentHeld gen0 p0).rows (silentHeld gen1 p1).rows)
    (hl : ns.sum ≤ (silentHeld gen0 p0).rows.length) :
    ∃ q0 q1, Served (silentRequest gen0) (silentRequest gen1) p0 p1 ns q0 q1 ∧ SilentOk q0 ∧ SilentOk q1 ∧
      (silentHeld gen0 q0).WF ∧ (silentHeld gen1 q1).WF ∧
      List.Forall₂ Mt.Valid (silentHeld gen0 q0).rows (silentHeld gen1 q1).rows ∧
      (silentHeld gen0 q0).rows.length + ns.sum = (silentHeld gen0 p0).rows.length := by
  induction ns generalizing p0 p1 with
  | nil => exact ⟨p0, p1, .nil _ _, h0, h1, w0, w1, hv, rfl⟩
  | cons n ns ih =>
    simp only [List.sum_cons] at hl
    have hrl := Mt.rows_length w0
    have hn : (silentHeld gen0 p0).len ≥ n := by omega
    obtain ⟨s', r, t', q, e0, e1, a1, a2, a3, a4, a5, a6⟩ := Mt.removeFirst_rel Mt.Valid .boolean w0 w1 hv hn
    obtain ⟨s2, r2, f1, f2, f3, f4, f5, f6⟩ := Mt.removeFirst_split .boolean w0 hn
    rw [e0] at f1
    cases f1
    simp only [Mt.removeFirst] at e0 e1
    have hsum := f6.length_eq
    simp only [List.length_append] at hsum
    obtain ⟨p0', b1, b2⟩ := (silentRequest_spec gen0 p0 h0 w0 n).1 _ _ e0
    obtain ⟨p1', c1, c2⟩ := (silentRequest_spec gen1 p1 h1 w1 n).1 _ _ e1
    have k0 : silentHeld gen0 p0' = s' := by simp [silentHeld, b2]
    have k1 : silentHeld gen1 p1' = t' := by simp [silentHeld, c2]
    obtain ⟨q0, q1, g1, g2, g3, g4, g5, g6, g7⟩ := ih (p0 := p0') (p1 := p1') (.inl (by simp [b2]))
      (.inl (by simp [c2])) (k0 ▸ a1) (k1 ▸ a3) (by rw [k0, k1]; exact a6) (by rw [k0]; omega)
    refine ⟨q0, q1, .cons b1 c1 (Mt.triples_matching.2 a5) (by simp only [Mt.triples, List.length_map]; omega) g1,
      g2, g3, g4, g5, g6, ?_⟩
    rw [k0] at g7
    simp only [List.sum_cons]
    omega

theorem silent_left (gen : Mt.MulTriples Bool) (ns : List Nat) (p q : Mt.Silent) (hp : SilentOk p)
    (hw : (silentHeld gen p).WF) (h : stateAfter (silentRequest gen) p ns = some q) :
    (silentHeld gen q).rows.length + ns.sum = (silentHeld gen p).rows.length := by
  induction ns generalizing p with
  | nil => simp only [stateAfter, Option.some.injEq] at h; subst h; rfl
  | cons n ns ih =>
    obtain ⟨a, b⟩ := silentRequest_spec gen p hp hw n
    have hrl := Mt.rows_length hw
    by_cases hn : n ≤ (silentHeld gen p).rows.length
    · obtain ⟨s, r, f1, f2, f3, f4, f5, f6⟩ := Mt.removeFirst_split .boolean hw (n := n) (by omega)
      simp only [Mt.removeFirst] at f1
      obtain ⟨p', h1, h2⟩ := a s r f1
      simp only [stateAfter, h1, Option.bind_eq_bind, Option.bind_some] at h
      have k : silentHeld gen p' = s := by simp [silentHeld, h2]
      have := ih p' (.inl (by simp [h2])) (k ▸ f2) h
      have hsum := f6.length_eq
      simp only [List.length_append] at hsum
      rw [k] at this
      simp only [List.sum_cons]
      omega
    · simp only [stateAfter, b (by omega), Option.bind_eq_bind, Option.bind_none] at h
      cases h

/-! ### C90 -/

/-- The provider of a party at the start of an execution: as made by `SilentMtProvider::new_with_mult_type` for `num` OTs
(boolean/silent_ot.rs:49-84), with or without a call of `precompute_mts`. -/
def silentStart (num : Nat) (gen : Mt.MulTriples Bool) (ahead : Bool) : Option Mt.Silent :=
  if ahead then silentAhead gen ⟨num, none, true⟩ num else some ⟨num, none, true⟩

theorem silentStart_spec (num : Nat) (gen : Mt.MulTriples Bool) (ahead : Bool) :
    ∃ p, silentStart num gen ahead = some p ∧ SilentOk p ∧ silentHeld gen p = gen := by
  cases ahead with
  | false => exact ⟨_, rfl, .inr rfl, rfl⟩
  | true =>
    refine ⟨⟨num, some gen, false⟩, ?_, .inl rfl, rfl⟩
    simp [silentStart, silentAhead, Mt.silentProvide, Mt.silentPrecompute]

/-- **C90.**  Two executors with silent OT providers, where the runs of the protocol in the two directions give matching
random OTs (C53, C54).  If there are at least as many OTs as `interactive_count_times_simd` says, the parties return
shares of the plaintext output, whether or not `precompute_mts` was called and however the parties are scheduled,
and exactly that many triples are used.  Conditions on the circuit as in C08. -/
theorem gmw_silent_correct (m : Multi BoolGate) (rank : Node → Nat) (w : WF m rank)
    (hw : ExecWF m) (hu : Unmixed m)
    (hb : ∀ c ∈ m.circs, c.interactiveCount = c.gates.countP fun g => GateLike.interactive g)
    (c0 : Base BoolGate) (hc0 : m.circs[0]? = some c0)
    (inp0 inp1 inp : Input Bool (List Bool)) (hi : InputOk m c0 inp) (hin : Shares inp0 inp1 inp)
    (num k : Nat) (a0 a1 : List Bool) (send0 send1 : List (Mt.Block × Mt.Block)) (recv0 recv1 : List Mt.Block)
    (l0 : a0.length = k) (l1 : a1.length = k) (h01 : Mt.RotOk send0 a1 recv1) (h10 : Mt.RotOk send1 a0 recv0)
    (hk : countTimesSimd m ≤ k) (ahead : Bool)
    (init0 init1 : Store Bool (List Bool)) (val : Node → Bool) (valV : Node → List Bool)
    (hp : PlainEval m inp val valV) :
    ∃ gen0 gen1 p0 p1, Mt.mtsFromRots a0 send0 recv0 = some gen0 ∧ Mt.mtsFromRots a1 send1 recv1 = some gen1 ∧
      silentStart num gen0 ahead = some p0 ∧ silentStart num gen1 ahead = some p1 ∧
      ∃ o0 o1 q0 q1,
        Runs (executeP gmw m 0 inp0 (silentRequest gen0) p0 init0) (executeP gmw m 1 inp1 (silentRequest gen1) p1 init1)
          (o0, q0) (o1, q1) ∧
        Shares o0 o1 (plainOutput m c0 val valV) ∧
        (silentHeld gen0 q0).rows.length + countTimesSimd m = k ∧
        (silentHeld gen1 q1).rows.length + countTimesSimd m = k := by
  obtain ⟨gen0, gen1, e0, e1, -, -, w0, w1, hlen, hv⟩ := Mt.rot_triples_valid l0 l1 h01 h10
  obtain ⟨p0, s0, ok0, k0⟩ := silentStart_spec num gen0 ahead
  obtain ⟨p1, s1, ok1, k1⟩ := silentStart_spec num gen1 ahead
  obtain ⟨o0, o1, q0, q1, ⟨hq, hq'⟩, h2, h3⟩ := gmw_provider_correct m rank w hw hu c0 hc0 inp0 inp1 inp hi hin
    (silentRequest gen0) (silentRequest gen1) p0 p1
    (fun q0 q1 => (silentHeld gen0 q0).rows.length + countTimesSimd m = k ∧
      (silentHeld gen1 q1).rows.length + countTimesSimd m = k)
    (fun ls ok => by
      have hsum : (requestsOf m ls).sum = countTimesSimd m := by rw [requestsOf_sum, counts_total m ls ok hb]
      obtain ⟨q0, q1, g1, -, -, -, -, g6, g7⟩ := silent_serves (gen0 := gen0) (gen1 := gen1) (requestsOf m ls) ok0 ok1
        (by rw [k0]; exact w0) (by rw [k1]; exact w1) (by rw [k0, k1]; exact hv) (by rw [k0, hsum, hlen]; exact hk)
      rw [hsum, k0, hlen] at g7
      exact ⟨q0, q1, g1, g7, by rw [← g6.length_eq]; exact g7⟩)
    init0 init1 val valV hp
  exact ⟨gen0, gen1, p0, p1, e0, e1, s0, s1, o0, o1, q0, q1, h2, h3, hq, hq'⟩

/-- **C90 (too few OTs).**  A party with a silent OT provider returns a result only if the provider holds as many triples as
`interactive_count_times_simd` says, whatever the other party does and however the parties are scheduled.  No condition
on the triples themselves. -/
theorem gmw_silent_needs_triples (m : Multi BoolGate) (rank : Node → Nat) (w : WF m rank)
    (hb : ∀ c ∈ m.circs, c.interactiveCount = c.gates.countP fun g => GateLike.interactive g)
    (inp : Input Bool (List Bool)) (num : Nat) (gen : Mt.MulTriples Bool) (hg : gen.WF) (ahead : Bool) (p : Mt.Silent)
    (hp : silentStart num gen ahead = some p) (init : Store Bool (List Bool))
    (other : Proc (Msg × Option SimdMsg) (Input Bool (List Bool) × Mt.Silent)) :
    (∀ n c o q, Steps n ⟨executeP gmw m 0 inp (silentRequest gen) p init, other, [], []⟩ c → c.p0 = .done (o, q) →
      (silentHeld gen q).rows.length + countTimesSimd m = gen.rows.length) ∧
    (∀ n c o q, Steps n ⟨other, executeP gmw m 1 inp (silentRequest gen) p init, [], []⟩ c → c.p1 = .done (o, q) →
      (silentHeld gen q).rows.length + countTimesSimd m = gen.rows.length) := by
  obtain ⟨p', e, ok, hh⟩ := silentStart_spec num gen ahead
  rw [hp] at e
  cases e
  have key : ∀ party o q, Ends (executeP gmw m party inp (silentRequest gen) p init) (o, q) →
      (silentHeld gen q).rows.length + countTimesSimd m = gen.rows.length := by
    intro party o q h
    obtain ⟨ls, lok, hst⟩ := executeP_ends gmw m rank w party inp (silentRequest gen) p init o q h
    rw [← counts_total m ls lok hb, ← requestsOf_sum]
    have := silent_left gen _ p q ok (by rw [hh]; exact hg) hst
    rw [hh] at this
    exact this
  constructor
  · intro n c o q h hc
    exact key 0 o q ((Ends.of_steps h).1 _ (by rw [hc]; exact .done _))
  · intro n c o q h hc
    exact key 1 o q ((Ends.of_steps h).2 _ (by rw [hc]; exact .done _))

/-! ### With the two codes -/

/-- A run of silent OT with the quasi cyclic code in one direction (zappot silent_ot/mod.rs:226-248, 313-325, 428-446, 510-522): the
sender ends with `sent`, the receiver with `recv` and the choice bits `bits`.  Everything sampled, every order of the
trees and every order in which their messages arrive. -/
inductive QcRun (P : Silent.Prf) (numOts scaler : Nat) (checked : Bool) (mul : (Nat → Bool) → Nat → Bool)
    (hmul : ∀ u v k, mul (fun x => u x ^^ v x) k = (mul u k ^^ mul v k))
    (hsz : Silent.QcSizes (Silent.configure numOts scaler).nBlocks (Silent.configure numOts scaler).p) :
    List (Mt.Block × Mt.Block) → List Mt.Block → List Bool → Prop
  | mk (c : Silent.Conf) (delta : Silent.Block) (seed : Nat → Silent.Block) (ots : Nat → Nat → Silent.Block × Silent.Block)
      (choices : Nat → List Bool) (order : List Nat) (msgs taken : _) (outS outR : Nat → Silent.Block)
      (A : List Silent.Block) :
      (Silent.configure numOts scaler).pprf = some c →
      (∀ t < c.pnt, (choices t).length = c.depth) →
      (∀ x ∈ Silent.getPoints .transposed c choices, x < (Silent.configure numOts scaler).n2) →
      order.Perm ((List.range (c.pnt / 8)).map (8 * ·)) →
      Silent.sendExpand P .transposed c seed delta ots order = some (msgs, outS) →
      taken.Perm msgs →
      Silent.recvExpand P .transposed c choices
        (fun t d => if (choices t).getD d false then (ots t d).2 else (ots t d).1) taken = some outR →
      Silent.recvPacked (Silent.qcCode checked (Silent.configure numOts scaler).nBlocks
          (Silent.configure numOts scaler).n2Blocks (Silent.configure numOts scaler).p hsz mul hmul)
        (.row0 (Silent.configure numOts scaler).n2Blocks) numOts (Silent.configure numOts scaler).n2
        (Silent.getPoints .transposed c choices) outR = some A →
      QcRun P numOts scaler checked mul hmul hsz
        (Silent.sendHash P.hash delta (Silent.sendCompress (Silent.qcCode checked
          (Silent.configure numOts scaler).nBlocks (Silent.configure numOts scaler).n2Blocks
          (Silent.configure numOts scaler).p hsz mul hmul) numOts outS))
        (Silent.recvHash P.hash A).1 (Silent.recvHash P.hash A).2

theorem rotOk_of_index {send : List (Mt.Block × Mt.Block)} {recv : List Mt.Block} {bits : List Bool} {n : Nat}
    (h1 : send.length = n) (h2 : recv.length = n) (h3 : bits.length = n)
    (h : ∀ i < n, ∃ m0 m1 m b, send[i]? = some (m0, m1) ∧ recv[i]? = some m ∧ bits[i]? = some b ∧
      m = if b then m1 else m0) : Mt.RotOk send bits recv := by
  refine ⟨by omega, List.ext_getElem? fun i => ?_⟩
  rw [List.getElem?_zipWith]
  by_cases hi : i < n
  · obtain ⟨m0, m1, m, b, e1, e2, e3, e4⟩ := h i hi
    rw [e1, e2, e3, e4]
  · rw [List.getElem?_eq_none (by omega), List.getElem?_eq_none (l := send) (by omega)]

/-- A run gives the requested number of matching OTs. -/
theorem QcRun.rotOk {P : Silent.Prf} {numOts scaler : Nat} {checked : Bool} {mul : (Nat → Bool) → Nat → Bool}
    {hmul : ∀ u v k, mul (fun x => u x ^^ v x) k = (mul u k ^^ mul v k)}
    {hsz : Silent.QcSizes (Silent.configure numOts scaler).nBlocks (Silent.configure numOts scaler).p}
    (hs : 2 ≤ scaler) (hfit : (Silent.configure numOts scaler).n2 < 2 ^ 64)
    {send : List (Mt.Block × Mt.Block)} {recv : List Mt.Block} {bits : List Bool}
    (h : QcRun P numOts scaler checked mul hmul hsz send recv bits) :
    Mt.RotOk send bits recv ∧ bits.length = numOts := by
  cases h with
  | mk c delta seed ots choices order msgs taken outS outR A g1 g2 g3 g4 g5 g6 g7 g8 =>
    obtain ⟨c', e1, h⟩ := Silent.qc_silent_ot_partial numOts scaler hs hfit ((Silent.qc_sizes_iff numOts scaler hs).1 hsz)
      checked mul hmul P delta seed ots choices
    rw [g1] at e1
    cases e1
    obtain ⟨msgs', outS', e2, h⟩ := h g2 g3 order g4
    rw [g5] at e2
    cases e2
    obtain ⟨outR', A', e3, e4, l1, l2, l3, h⟩ := h taken g6
    rw [g7] at e3
    cases e3
    rw [g8] at e4
    cases e4
    exact ⟨rotOk_of_index l1 l2 l3 h, l3⟩

/-- Every choice of what is sampled and every order gives a run. -/
theorem QcRun.exists (P : Silent.Prf) (numOts scaler : Nat) (checked : Bool) (mul : (Nat → Bool) → Nat → Bool)
    (hmul : ∀ u v k, mul (fun x => u x ^^ v x) k = (mul u k ^^ mul v k))
    (hsz : Silent.QcSizes (Silent.configure numOts scaler).nBlocks (Silent.configure numOts scaler).p)
    (hs : 2 ≤ scaler) (hfit : (Silent.configure numOts scaler).n2 < 2 ^ 64)
    (delta : Silent.Block) (seed : Nat → Silent.Block) (ots : Nat → Nat → Silent.Block × Silent.Block)
    (choices : Nat → List Bool) :
    ∃ c, (Silent.configure numOts scaler).pprf = some c ∧
      ((∀ t < c.pnt, (choices t).length = c.depth) →
      (∀ x ∈ Silent.getPoints .transposed c choices, x < (Silent.configure numOts scaler).n2) →
      ∃ send recv bits, QcRun P numOts scaler checked mul hmul hsz send recv bits) := by
  obtain ⟨c, e1, h⟩ := Silent.qc_silent_ot_partial numOts scaler hs hfit ((Silent.qc_sizes_iff numOts scaler hs).1 hsz)
    checked mul hmul P delta seed ots choices
  refine ⟨c, e1, fun g2 g3 => ?_⟩
  obtain ⟨msgs, outS, e2, h⟩ := h g2 g3 _ (.refl _)
  obtain ⟨outR, A, e3, e4, -⟩ := h msgs (.refl _)
  exact ⟨_, _, _, .mk c delta seed ots choices _ msgs msgs outS outR A e1 g2 g3 (.refl _) e2 (.refl _) e3 e4⟩

/-- **C90 (quasi cyclic code), partial.**  Both parties make providers for `num` OTs with
`MultType::QuasiCyclic { scaler }`, for which the sizes work (C54), where `num` is at least the number of triples of the
circuit.  Whatever the parties sample and however the runs go, the execution computes the circuit. -/
theorem gmw_silent_quasi_cyclic_partial (m : Multi BoolGate) (rank : Node → Nat) (w : WF m rank)
    (hw : ExecWF m) (hu : Unmixed m)
    (hb : ∀ c ∈ m.circs, c.interactiveCount = c.gates.countP fun g => GateLike.interactive g)
    (c0 : Base BoolGate) (hc0 : m.circs[0]? = some c0)
    (inp0 inp1 inp : Input Bool (List Bool)) (hi : InputOk m c0 inp) (hin : Shares inp0 inp1 inp)
    (P : Silent.Prf) (num scaler : Nat) (checked : Bool) (mul mul' : (Nat → Bool) → Nat → Bool)
    (hmul : ∀ u v k, mul (fun x => u x ^^ v x) k = (mul u k ^^ mul v k))
    (hmul' : ∀ u v k, mul' (fun x => u x ^^ v x) k = (mul' u k ^^ mul' v k))
    (hs : 2 ≤ scaler) (hfit : (Silent.configure num scaler).n2 < 2 ^ 64)
    (hsz : Silent.QcSizes (Silent.configure num scaler).nBlocks (Silent.configure num scaler).p)
    (a0 a1 : List Bool) (send0 send1 : List (Mt.Block × Mt.Block)) (recv0 recv1 : List Mt.Block)
    (h01 : QcRun P num scaler checked mul hmul hsz send0 recv1 a1)
    (h10 : QcRun P num scaler checked mul' hmul' hsz send1 recv0 a0)
    (hk : countTimesSimd m ≤ num) (ahead : Bool)
    (init0 init1 : Store Bool (List Bool)) (val : Node → Bool) (valV : Node → List Bool)
    (hp : PlainEval m inp val valV) :
    ∃ gen0 gen1 p0 p1, Mt.mtsFromRots a0 send0 recv0 = some gen0 ∧ Mt.mtsFromRots a1 send1 recv1 = some gen1 ∧
      silentStart num gen0 ahead = some p0 ∧ silentStart num gen1 ahead = some p1 ∧
      ∃ o0 o1 q0 q1,
        Runs (executeP gmw m 0 inp0 (silentRequest gen0) p0 init0) (executeP gmw m 1 inp1 (silentRequest gen1) p1 init1)
          (o0, q0) (o1, q1) ∧
        Shares o0 o1 (plainOutput m c0 val valV) := by
  obtain ⟨r1, l1⟩ := h01.rotOk hs hfit
  obtain ⟨r0, l0⟩ := h10.rotOk hs hfit
  obtain ⟨gen0, gen1, p0, p1, e0, e1, s0, s1, o0, o1, q0, q1, h, h', -⟩ := gmw_silent_correct m rank w hw hu hb c0 hc0
    inp0 inp1 inp hi hin num num a0 a1 send0 send1 recv0 recv1 l0 l1 r1 r0 hk ahead init0 init1 val valV hp
  exact ⟨gen0, gen1, p0, p1, e0, e1, s0, s1, o0, o1, q0, q1, h, h'⟩

/-- A run of silent OT with the expand convolute code in one direction, with any in place code `C` (libOTe). -/
inductive ExConvRun (P : Silent.Prf) (numOts parts : Nat) (C : Silent.Code)
    (hC : C.size ≤ (Silent.exConvConfigure numOts parts).n2) :
    List (Mt.Block × Mt.Block) → List Mt.Block → List Bool → Prop
  | mk (c : Silent.Conf) (delta : Silent.Block) (seed : Nat → Silent.Block) (ots : Nat → Nat → Silent.Block × Silent.Block)
      (choices : Nat → List Bool) (order : List Nat) (msgs taken : _) (outS outR : Nat → Silent.Block)
      (A : List Silent.Block) :
      (Silent.exConvConfigure numOts parts).pprf = some c →
      (∀ t < c.pnt, (choices t).length = c.depth) →
      (∀ x ∈ Silent.getPoints .interleaved c choices, x < (Silent.exConvConfigure numOts parts).n2) →
      order.Perm ((List.range (c.pnt / 8)).map (8 * ·)) →
      Silent.sendExpand P .interleaved c seed delta ots order = some (msgs, outS) →
      taken.Perm msgs →
      Silent.recvExpand P .interleaved c choices
        (fun t d => if (choices t).getD d false then (ots t d).2 else (ots t d).1) taken = some outR →
      Silent.recvPacked (Silent.exConvCode C _ hC) .lsb (Silent.exConvConfigure numOts parts).n2
        (Silent.exConvConfigure numOts parts).n2 (Silent.getPoints .interleaved c choices) outR = some A →
      ExConvRun P numOts parts C hC
        (Silent.sendHash P.hash delta (Silent.sendCompress (Silent.exConvCode C _ hC)
          (Silent.exConvConfigure numOts parts).n2 outS))
        (Silent.recvHash P.hash A).1 (Silent.recvHash P.hash A).2

/-- **C90 (expand convolute code), partial.**  The same with the default code.  The execution computes the circuit
already when twice `num` is at least the number of triples, since the OTs are not truncated to `num`; their choice bits
are not all random (C55). -/
theorem gmw_silent_exconv_partial (m : Multi BoolGate) (rank : Node → Nat) (w : WF m rank)
    (hw : ExecWF m) (hu : Unmixed m)
    (hb : ∀ c ∈ m.circs, c.interactiveCount = c.gates.countP fun g => GateLike.interactive g)
    (c0 : Base BoolGate) (hc0 : m.circs[0]? = some c0)
    (inp0 inp1 inp : Input Bool (List Bool)) (hi : InputOk m c0 inp) (hin : Shares inp0 inp1 inp)
    (P : Silent.Prf) (num parts : Nat) (hn : 0 < num) (hpt : 0 < parts) (h8 : parts % 8 = 0)
    (hfit : (Silent.exConvConfigure num parts).n2 < 2 ^ 64) (C C' : Silent.Code) (hC : C.size = 2 * num)
    (hC' : C'.size = 2 * num)
    (hle : C.size ≤ (Silent.exConvConfigure num parts).n2) (hle' : C'.size ≤ (Silent.exConvConfigure num parts).n2)
    (a0 a1 : List Bool) (send0 send1 : List (Mt.Block × Mt.Block)) (recv0 recv1 : List Mt.Block)
    (h01 : ExConvRun P num parts C hle send0 recv1 a1) (h10 : ExConvRun P num parts C' hle' send1 recv0 a0)
    (hk : countTimesSimd m ≤ 2 * num) (ahead : Bool)
    (init0 init1 : Store Bool (List Bool)) (val : Node → Bool) (valV : Node → List Bool)
    (hp : PlainEval m inp val valV) :
    ∃ gen0 gen1 p0 p1, Mt.mtsFromRots a0 send0 recv0 = some gen0 ∧ Mt.mtsFromRots a1 send1 recv1 = some gen1 ∧
      silentStart num gen0 ahead = some p0 ∧ silentStart num gen1 ahead = some p1 ∧
      ∃ o0 o1 q0 q1,
        Runs (executeP gmw m 0 inp0 (silentRequest gen0) p0 init0) (executeP gmw m 1 inp1 (silentRequest gen1) p1 init1)
          (o0, q0) (o1, q1) ∧
        Shares o0 o1 (plainOutput m c0 val valV) := by
  have rot : ∀ (D : Silent.Code) (hD : D.size = 2 * num) (hl : D.size ≤ (Silent.exConvConfigure num parts).n2)
      (send : List (Mt.Block × Mt.Block)) (recv : List Mt.Block) (bits : List Bool),
      ExConvRun P num parts D hl send recv bits →
      Mt.RotOk send bits recv ∧ bits.length = (Silent.exConvConfigure num parts).n2 := by
    intro D hD hl send recv bits h
    cases h with
    | mk c delta seed ots choices order msgs taken outS outR A g1 g2 g3 g4 g5 g6 g7 g8 =>
      obtain ⟨c', n2, e1, hn2, -, h⟩ := Silent.exconv_silent_ot_partial num parts hn hpt h8 hfit D hD P delta seed ots choices
      rw [g1] at e1
      cases e1
      subst hn2
      obtain ⟨msgs', outS', e2, h⟩ := h g2 g3 order g4
      rw [g5] at e2
      cases e2
      obtain ⟨outR', A', hx, e3, e4, h, l, -⟩ := h taken g6
      rw [g7] at e3
      cases e3
      rw [g8] at e4
      cases e4
      exact ⟨h, by rw [← h.1, l]⟩
  obtain ⟨r1, l1⟩ := rot C hC hle _ _ _ h01
  obtain ⟨r0, l0⟩ := rot C' hC' hle' _ _ _ h10
  obtain ⟨gen0, gen1, p0, p1, e0, e1, s0, s1, o0, o1, q0, q1, h, h', -⟩ := gmw_silent_correct m rank w hw hu hb c0 hc0
    inp0 inp1 inp hi hin num _ a0 a1 send0 send1 recv0 recv1 l0 l1 r1 r0 (by omega) ahead init0 init1 val valV hp
  exact ⟨gen0, gen1, p0, p1, e0, e1, s0, s1, o0, o1, q0, q1, h, h'⟩

/-! ### Cases -/

theorem activePath_true (d : Nat) : Silent.activePath (List.replicate d true) = 0 := by
  have key : ∀ l : List Nat, (∀ x ∈ l, x = 0) → l.foldl (· ||| ·) 0 = 0 := by
    intro l
    induction l with
    | nil => intro _; rfl
    | cons x l ih =>
      intro h
      have hx := h x (by simp)
      subst hx
      exact ih fun y hy => h y (by simp [hy])
  apply key
  intro x hx
  obtain ⟨i, hi, rfl⟩ := List.mem_mapIdx.1 hx
  simp

/-- Runs exist for 1000 OTs, for every `P`, and give 1000 OTs. -/
theorem qcRun_thousand (P : Silent.Prf) (checked : Bool) (mul : (Nat → Bool) → Nat → Bool)
    (hmul : ∀ u v k, mul (fun x => u x ^^ v x) k = (mul u k ^^ mul v k))
    (delta : Silent.Block) (seed : Nat → Silent.Block) (ots : Nat → Nat → Silent.Block × Silent.Block) :
    (Silent.configure 1000 2).n2 < 2 ^ 64 ∧
    ∃ hsz : Silent.QcSizes (Silent.configure 1000 2).nBlocks (Silent.configure 1000 2).p,
      ∃ send recv bits, QcRun P 1000 2 checked mul hmul hsz send recv bits := by
  have hp : (Silent.configure 1000 2).p = 16411 := by
    rw [Silent.configure_p, max_eq_right (by omega), show 128 * 128 = 16384 by omega, Silent.nextPrime_16384]
  have hn2 : (Silent.configure 1000 2).n2 = 33792 := by
    have h := Silent.configure_n2 1000 2
    rw [hp] at h
    omega
  have hsz := (Silent.qc_sizes_iff 1000 2 (by omega)).2 (by rw [Silent.qc_blocks_iff, hp]; decide)
  have hfit : (Silent.configure 1000 2).n2 < 2 ^ 64 := by omega
  refine ⟨hfit, hsz, ?_⟩
  obtain ⟨c, e, -, -, hpnt, -⟩ := Silent.qc_pprf_ok 1000 2 (by omega) hfit
  obtain ⟨c', e', h⟩ := QcRun.exists P 1000 2 checked mul hmul hsz (by omega) hfit delta seed ots
    (fun _ => List.replicate c.depth true)
  rw [e] at e'
  cases e'
  refine h (fun t _ => by simp) fun x hx => ?_
  obtain ⟨t, ht, rfl⟩ := List.mem_map.1 hx
  have := List.mem_range.1 ht
  simp only [activePath_true, Silent.interleavePoint, hn2]
  omega

/-- Two parties with quasi cyclic providers for 1000 OTs compute `(x & y) ^ x` with a sub-circuit call. -/
example (P : Silent.Prf) (x y r s : Bool) (seed seed' : Nat → Silent.Block)
    (ots ots' : Nat → Nat → Silent.Block × Silent.Block) :
    ∃ a0 a1 send0 send1 recv0 recv1 gen0 gen1 p0 p1, Mt.mtsFromRots a0 send0 recv0 = some gen0 ∧
      Mt.mtsFromRots a1 send1 recv1 = some gen1 ∧
      silentStart 1000 gen0 true = some p0 ∧ silentStart 1000 gen1 true = some p1 ∧
      ∃ o0 o1 q0 q1,
        Runs (executeP gmw callCirc 0 (.scalar [r, s]) (silentRequest gen0) p0 noOutputs)
          (executeP gmw callCirc 1 (.scalar [r ^^ x, s ^^ y]) (silentRequest gen1) p1 noOutputs) (o0, q0) (o1, q1) ∧
        Shares o0 o1 (.scalar [(x && y) ^^ x]) := by
  obtain ⟨hfit, hsz, send0, recv1, a1, h01⟩ := qcRun_thousand P false (fun u => u) (fun _ _ _ => rfl) 5 seed ots
  obtain ⟨-, _, send1, recv0, a0, h10⟩ := qcRun_thousand P false (fun u => u) (fun _ _ _ => rfl) 9 seed' ots'
  exact ⟨a0, a1, send0, send1, recv0, recv1, gmw_silent_quasi_cyclic_partial callCirc callRank callCirc_wf
    callCirc_exec.1 callCirc_exec.2 callCirc_counts callMain rfl
    (.scalar [r, s]) (.scalar [r ^^ x, s ^^ y]) (.scalar [x, y]) ⟨rfl, rfl⟩ ⟨rfl, rfl, by simp [xorL]⟩
    P 1000 2 false (fun u => u) (fun u => u) (fun _ _ _ => rfl) (fun _ _ _ => rfl) (by omega) hfit hsz
    a0 a1 send0 send1 recv0 recv1 h01 h10 (by decide) true noOutputs noOutputs _ _ (callCirc_plain x y)⟩

/-- With one OT in each direction and two multiplications both parties panic after the first layer. -/
example : ∃ k, Steps k
    ⟨executeP gmw (.ofBase twoAnds) 0 (.scalar [true, true]) (silentRequest ⟨[true], [true], [false]⟩) ⟨1, none, true⟩
        noOutputs,
      executeP gmw (.ofBase twoAnds) 1 (.scalar [false, true]) (silentRequest ⟨[true], [true], [false]⟩) ⟨1, none, true⟩
        noOutputs, [], []⟩ ⟨.fail, .fail, [], []⟩ :=
  failBoth_steps 5 _ _ (by decide +kernel)

/-- `precompute_mts` for another number than configured panics, as does a second call. -/
example (gen : Mt.MulTriples Bool) : silentAhead gen ⟨8, none, true⟩ 9 = none ∧
    (silentAhead gen ⟨8, none, true⟩ 8).bind (silentAhead gen · 8) = none := by
  simp [silentAhead, Mt.silentProvide, Mt.silentPrecompute]

end Verif.Exec
