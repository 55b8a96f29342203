import Verif.Mt.Server

/-!
C102: the connections of the trusted triple servers.
-/
set_option autoImplicit false

namespace Verif.Mt

/-! ### Model -/

/-- What `receiver.recv().await` gives, trusted_provider.rs:118-128 and trusted_seed_provider.rs:141-151: a request, a message
of another kind, the end of the connection, or an error. -/
inductive Recv (ι : Type) where
  | request (r : Request ι)
  | illegal
  | closed
  | error
deriving DecidableEq, Repr

/-- The server: the shared map, the number of draws so far, and the connections whose task has ended. -/
structure Srv (ι κ St : Type) where
  held : ι → Option St
  draws : Nat
  ended : κ → Bool

/-- What happens on connection `conn`: what is received, and whether a reply can be sent. -/
structure Event (ι κ : Type) where
  conn : κ
  recv : Recv ι
  sendOk : Bool
deriving DecidableEq, Repr

/-- A request that was handled, with the reply and whether it was delivered. -/
structure Served (ι κ Rep : Type) where
  conn : κ
  req : Request ι
  rep : Rep
  delivered : Bool
deriving DecidableEq, Repr

variable {ι κ St Rep : Type} [DecidableEq ι] [DecidableEq κ]

/-- One iteration of the loop of trusted_provider.rs:115-130 (trusted_seed_provider.rs:138-153) `handle_conn`.  All connections
share the map (trusted_provider.rs:132-157, trusted_seed_provider.rs:156-181 `start`).  The map is changed before the reply is
sent; if sending fails, the error is logged and the loop goes on.  Only `Ok(None)` ends the loop. -/
def connStep (fresh : Nat → Nat → St × Rep) (second : St → Rep) (s : Srv ι κ St) (e : Event ι κ) :
    Srv ι κ St × List (Served ι κ Rep) :=
  if s.ended e.conn then (s, [])
  else match e.recv with
    | .request r =>
      let (held, draws, rep) := handle fresh second s.held s.draws r
      ({ s with held := held, draws := draws }, [⟨e.conn, r, rep, e.sendOk⟩])
    | .illegal => (s, [])
    | .closed => ({ s with ended := Function.update s.ended e.conn true }, [])
    | .error => (s, [])

/-- What happens on all connections, in the order in which it happens. -/
def connRun (fresh : Nat → Nat → St × Rep) (second : St → Rep) (s : Srv ι κ St) :
    List (Event ι κ) → Srv ι κ St × List (Served ι κ Rep)
  | [] => (s, [])
  | e :: es =>
    let (s, out) := connStep fresh second s e
    let (s, outs) := connRun fresh second s es
    (s, out ++ outs)

/-- trusted_provider.rs:133 `start`: an empty map, no connections. -/
def Srv.start : Srv ι κ St := ⟨fun _ => none, 0, fun _ => false⟩

/-! ### Specification -/

/-- What arrives on connection `c` before it is closed. -/
def onConn (c : κ) (es : List (Event ι κ)) : List (Event ι κ) :=
  (es.filter fun e => e.conn = c).takeWhile fun e => e.recv ≠ .closed

/-- The request of an event. -/
def reqOf (e : Event ι κ) : Option (Request ι) := match e.recv with
  | .request r => some r
  | _ => none

/-! ### Lemmas -/

theorem connRun_serve (fresh : Nat → Nat → St × Rep) (second : St → Rep) (es : List (Event ι κ)) (s : Srv ι κ St) :
    (connRun fresh second s es).2.map (fun x => (x.req, x.rep)) =
        (serve fresh second s.held s.draws ((connRun fresh second s es).2.map (·.req))).1 ∧
      (connRun fresh second s es).1.held =
        (serve fresh second s.held s.draws ((connRun fresh second s es).2.map (·.req))).2 := by
  induction es generalizing s with
  | nil => exact ⟨rfl, rfl⟩
  | cons e es ih =>
    simp only [connRun, connStep]
    split
    · exact ih s
    · cases e.recv with
      | request r =>
        obtain ⟨h1, h2⟩ := ih { s with held := (handle fresh second s.held s.draws r).1,
                                       draws := (handle fresh second s.held s.draws r).2.1 }
        simp only [List.cons_append, List.nil_append, List.map_cons, serve]
        exact ⟨by rw [← h1], h2⟩
      | illegal => exact ih s
      | closed => exact ih { s with ended := Function.update s.ended e.conn true }
      | error => exact ih s

theorem connRun_conn (fresh : Nat → Nat → St × Rep) (second : St → Rep) (c : κ) (es : List (Event ι κ)) (s : Srv ι κ St) :
    ((connRun fresh second s es).2.filter fun x => x.conn = c).map (fun x => (x.req, x.delivered)) =
        (if s.ended c then [] else (onConn c es).filterMap fun e => (reqOf e).map fun r => (r, e.sendOk)) ∧
      (connRun fresh second s es).1.ended c = (s.ended c || es.any fun e => e.conn = c ∧ e.recv = .closed) := by
  induction es generalizing s with
  | nil => simp [connRun, onConn]
  | cons e es ih =>
    simp only [connRun, connStep]
    by_cases hc : e.conn = c
    · subst hc
      by_cases hend : s.ended e.conn = true
      · have := ih s
        simp [hend] at this ⊢
        exact this
      · simp only [hend, if_false, Bool.false_eq_true]
        cases hr : e.recv with
        | request r =>
          have := ih { s with held := (handle fresh second s.held s.draws r).1,
                              draws := (handle fresh second s.held s.draws r).2.1 }
          simp only [hend, Bool.false_eq_true, if_false] at this
          simp [hr, onConn, reqOf] at this ⊢
          exact this
        | illegal =>
          have := ih s
          simp only [hend, Bool.false_eq_true, if_false] at this
          simp [hr, onConn, reqOf] at this ⊢
          exact this
        | closed =>
          have := ih { s with ended := Function.update s.ended e.conn true }
          simp [hr, onConn] at this ⊢
          exact this
        | error =>
          have := ih s
          simp only [hend, Bool.false_eq_true, if_false] at this
          simp [hr, onConn, reqOf] at this ⊢
          exact this
    · by_cases hend : s.ended e.conn = true
      · have := ih s
        simp [hend, onConn, hc] at this ⊢
        exact this
      · simp only [hend, if_false, Bool.false_eq_true]
        cases hr : e.recv with
        | request r =>
          have := ih { s with held := (handle fresh second s.held s.draws r).1,
                              draws := (handle fresh second s.held s.draws r).2.1 }
          simp [onConn, hc] at this ⊢
          exact this
        | illegal =>
          have := ih s
          simp [onConn, hc] at this ⊢
          exact this
        | closed =>
          have := ih { s with ended := Function.update s.ended e.conn true }
          have hu : Function.update s.ended e.conn true c = s.ended c := Function.update_of_ne (Ne.symm hc) _ _
          simp [onConn, hc, hu] at this ⊢
          exact this
        | error =>
          have := ih s
          simp [onConn, hc] at this ⊢
          exact this

/-! ### Property -/

/-- C102: on every connection the requests that arrive before it is closed are answered, in this order, whatever happens on other
connections, in spite of illegal messages, errors and replies that could not be sent; the task ends exactly when the peer closes
the connection; and the answers are those of a server that gets all these requests one after the other, so that `server_pairs`
(C21) and `seed_server_pairs` apply to them. -/
theorem connections_served (fresh : Nat → Nat → St × Rep) (second : St → Rep) (es : List (Event ι κ)) :
    ∃ s out, connRun fresh second Srv.start es = (s, out) ∧
      (∀ c, (out.filter fun x => x.conn = c).map (fun x => (x.req, x.delivered)) =
        (onConn c es).filterMap fun e => (reqOf e).map fun r => (r, e.sendOk)) ∧
      (∀ c, s.ended c = true ↔ ∃ e ∈ es, e.conn = c ∧ e.recv = .closed) ∧
      out.map (fun x => (x.req, x.rep)) = (serve fresh second (fun _ => none) 0 (out.map (·.req))).1 ∧
      s.held = (serve fresh second (fun _ => none) 0 (out.map (·.req))).2 := by
  refine ⟨_, _, rfl, fun c => ?_, fun c => ?_, ?_, ?_⟩
  · exact (connRun_conn fresh second c es Srv.start).1
  · rw [(connRun_conn fresh second c es Srv.start).2]
    simp [Srv.start]
  · exact (connRun_serve fresh second es Srv.start).1
  · exact (connRun_serve fresh second es Srv.start).2

/-- C102 for two parties: if exactly two requests for `i` arrive on open connections, for the same amount, they get matching
triples of this amount, whatever else happens on these and other connections. -/
theorem connections_two_clients {σ : Type} (g : Rng σ) (seed : Nat → σ) (es : List (Event ι κ)) (i : ι) (n : Nat)
    (h : ((connRun (freshPair g seed) id Srv.start es).2.map (·.req)).filter (fun r => r.id = i) = [⟨i, n⟩, ⟨i, n⟩]) :
    ∃ x y, (connRun (freshPair g seed) id Srv.start es).2.filter (fun x => x.req.id = i) = [x, y] ∧
      x.rep.rows.length = n ∧ y.rep.rows.length = n ∧ List.Forall₂ Valid x.rep.rows y.rep.rows ∧
      (connRun (freshPair g seed) id Srv.start es).1.held i = none := by
  obtain ⟨h1, h2⟩ := connRun_serve (freshPair g seed) id es Srv.start
  obtain ⟨m, m', e1, e2, e3, e4, e5⟩ := server_two_clients g seed _ i n h
  have h3 : ((connRun (freshPair g seed) id Srv.start es).2.filter (fun x => x.req.id = i)).map (fun x => (x.req, x.rep)) =
      [(⟨i, n⟩, m), (⟨i, n⟩, m')] := by
    rw [← e1, forId]
    show _ = List.filter _ (serve _ _ (Srv.start : Srv ι κ (MulTriples Bool)).held (Srv.start : Srv ι κ (MulTriples Bool)).draws _).1
    rw [← h1, List.filter_map]
    rfl
  obtain ⟨x, l, hf, hx, hl⟩ := List.map_eq_cons_iff.1 h3
  obtain ⟨y, l, rfl, hy, hl⟩ := List.map_eq_cons_iff.1 hl
  rw [List.map_eq_nil_iff] at hl
  subst hl
  simp only [Prod.mk.injEq] at hx hy
  obtain ⟨-, rfl⟩ := hx
  obtain ⟨-, rfl⟩ := hy
  exact ⟨x, y, hf, e2, e3, e4, by rw [h2]; exact e5⟩

/-- The hypothesis holds for two clients beside a third connection with an illegal message, an error and a lost reply. -/
example {σ : Type} (g : Rng σ) (seed : Nat → σ) :
    ((connRun (freshPair g seed) id Srv.start
      [⟨0, .request ⟨7, 2⟩, true⟩, ⟨2, .illegal, true⟩, ⟨2, .request ⟨9, 5⟩, false⟩, ⟨2, .error, true⟩, ⟨2, .closed, true⟩,
        ⟨2, .request ⟨7, 1⟩, true⟩, ⟨1, .request ⟨7, 2⟩, true⟩]).2.map (·.req)).filter (fun r => r.id = 7) =
      [⟨7, 2⟩, ⟨7, 2⟩] := by
  rfl

/-- The property fails if a reply gets lost: the entry for the id is removed before the reply is sent.  The second party asks
again on a new connection and gets the first half of new triples, the second half of which stays in the map; what the two
parties were sent does not match, for some generator, and nobody is told. -/
theorem lost_reply_mismatch : ∃ (g : Rng Nat) (seed : Nat → Nat) (m m' m'' : MulTriples Bool),
    (connRun (freshPair g seed) id Srv.start
      [⟨0, .request ⟨7, 1⟩, true⟩, ⟨1, .request ⟨7, 1⟩, false⟩, ⟨1, .closed, true⟩, ⟨2, .request ⟨7, 1⟩, true⟩]).2 =
      [⟨0, ⟨7, 1⟩, m, true⟩, ⟨1, ⟨7, 1⟩, m', false⟩, ⟨2, ⟨7, 1⟩, m'', true⟩] ∧
    List.Forall₂ Valid m.rows m'.rows ∧ ¬ List.Forall₂ Valid m.rows m''.rows ∧
    (connRun (freshPair g seed) id Srv.start
      [⟨0, .request ⟨7, 1⟩, true⟩, ⟨1, .request ⟨7, 1⟩, false⟩, ⟨1, .closed, true⟩, ⟨2, .request ⟨7, 1⟩, true⟩]).1.held 7 ≠
      none := by
  refine ⟨⟨fun s n => (List.replicate (64 * n) (s.testBit 0), s / 2), fun _ _ => by simp⟩, fun k => 16 * k,
    ⟨[false], [false], [false]⟩, ⟨[false], [false], [false]⟩, ⟨[false], [false], [true]⟩, ?_, ?_, ?_, ?_⟩ <;> decide +kernel

/-- While receiving fails, the task of a connection neither ends nor does anything, however often it fails. -/
theorem receive_errors_spin (fresh : Nat → Nat → St × Rep) (second : St → Rep) (s : Srv ι κ St) (c : κ) (b : Bool) (n : Nat) :
    connRun fresh second s (List.replicate n ⟨c, .error, b⟩) = (s, []) := by
  induction n with
  | zero => rfl
  | succ n ih =>
    simp only [List.replicate_succ, connRun, connStep]
    split <;> rw [ih] <;> rfl

end Verif.Mt
