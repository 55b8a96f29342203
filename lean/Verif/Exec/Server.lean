import Verif.Exec.PreprocProps
import Verif.Mt.Server

/-!
C86: execution with triples from a trusted server.  Model: two executors, the server, and other clients of the
server.
-/
set_option autoImplicit false

namespace Verif.Exec

open Circuit Proc Gmw

/-! ### Model -/

/-- The code of a party that talks to the other party and to a server. -/
inductive SProc (M T O : Type) where
  | done (o : O)
  | fail
  | send (m : M) (k : SProc M T O)
  | recv (k : M → SProc M T O)
  /-- `request_mts(n).await` -/
  | ask (n : Nat) (k : T → SProc M T O)

section
variable {G : Type} [GateLike G] {S V M MS T : Type}

/-- executor.rs:155-480 as `execLayers`, where the setup data of each layer is requested from a server
(executor.rs:342-346). -/
def execLayersV (pr : Protocol G S V M MS T) (m : Multi G) (party : Nat) (inp : Input S V) :
    List (MLayer × List Node) → Store S V → SProc (M × Option MS) T (Input S V)
  | [], st => match outputs m st with
    | some o => .done o
    | none => .fail
  | (l, fs) :: ls, st =>
    match evalNodes pr m party inp st (niOf l) with
    | none => .fail
    | some st =>
      if intCount m l = 0 then execLayersV pr m party inp ls st
      else .ask (intCount m l) fun t =>
        match computeMsgs pr m party st l t with
        | none => .fail
        | some (msg, t) =>
          .send msg (.recv fun other =>
            match finishLayer pr m party (free pr st fs) l msg other t with
            | none => .fail
            | some st => execLayersV pr m party inp ls st)

/-- executor.rs:124-493 as `execute`, with a server. -/
def executeV (pr : Protocol G S V M MS T) (m : Multi G) (party : Nat) (inp : Input S V) (st : Store S V) :
    SProc (M × Option MS) T (Input S V) :=
  match (do
    let c ← m.circs[0]?
    let len := match inp with
      | .scalar l => l.length
      | .simd l => l.length
    if c.inputGates.length = len then do
      let it ← MIter.new m
      let ls ← MIter.collect m ((m.circs.map fun c => c.gates.length).sum + 1) it
      freeable m (fun _ => none) ls
    else none) with
  | some ls => execLayersV pr m party inp ls st
  | none => .fail

end

/-- A trusted server (C21, C22): what it draws, how it answers the second of two requests, and what the client makes
of an answer (`none` is a panic). -/
structure Srv (St Rep T : Type) where
  fresh : Nat → Nat → St × Rep
  second : St → Rep
  expand : Nat → Rep → Option T

/-- The state of a party: it runs, or waits for the server with its request or the reply under way. -/
inductive Client (M T Rep O : Type) where
  | run (p : SProc M T O)
  | asked (n : Nat) (k : T → SProc M T O)
  | replied (n : Nat) (rep : Rep) (k : T → SProc M T O)

/-- Both parties, the messages between them, the map of the server and the number of its draws. -/
structure SConf (ι M T St Rep O : Type) where
  c0 : Client M T Rep O
  c1 : Client M T Rep O
  q01 : List M
  q10 : List M
  held : ι → Option St
  draws : Nat

variable {ι M T St Rep O : Type} [DecidableEq ι]

/-- The parties exchanged. -/
def SConf.swap (c : SConf ι M T St Rep O) : SConf ι M T St Rep O := ⟨c.c1, c.c0, c.q10, c.q01, c.held, c.draws⟩

/-- A step of party 0: it sends, receives, sends a request (trusted_provider.rs:60-66), gets the reply
(67-76); or the server handles its request (90-113, under the lock). -/
inductive SStep0 (srv : Srv St Rep T) (id : ι) : SConf ι M T St Rep O → SConf ι M T St Rep O → Prop
  | send (m : M) (k : SProc M T O) (c1 : Client M T Rep O) (a b : List M) (h : ι → Option St) (d : Nat) :
      SStep0 srv id ⟨.run (.send m k), c1, a, b, h, d⟩ ⟨.run k, c1, a ++ [m], b, h, d⟩
  | recv (m : M) (k : M → SProc M T O) (c1 : Client M T Rep O) (a b : List M) (h : ι → Option St) (d : Nat) :
      SStep0 srv id ⟨.run (.recv k), c1, a, m :: b, h, d⟩ ⟨.run (k m), c1, a, b, h, d⟩
  | ask (n : Nat) (k : T → SProc M T O) (c1 : Client M T Rep O) (a b : List M) (h : ι → Option St) (d : Nat) :
      SStep0 srv id ⟨.run (.ask n k), c1, a, b, h, d⟩ ⟨.asked n k, c1, a, b, h, d⟩
  | handle (n : Nat) (k : T → SProc M T O) (c1 : Client M T Rep O) (a b : List M) (h h' : ι → Option St)
      (d d' : Nat) (rep : Rep) : Mt.handle srv.fresh srv.second h d ⟨id, n⟩ = (h', d', rep) →
      SStep0 srv id ⟨.asked n k, c1, a, b, h, d⟩ ⟨.replied n rep k, c1, a, b, h', d'⟩
  | reply (n : Nat) (rep : Rep) (k : T → SProc M T O) (c1 : Client M T Rep O) (a b : List M)
      (h : ι → Option St) (d : Nat) :
      SStep0 srv id ⟨.replied n rep k, c1, a, b, h, d⟩
        ⟨.run (match srv.expand n rep with | some t => k t | none => .fail), c1, a, b, h, d⟩

/-- A step of one of the parties. -/
def SStep (srv : Srv St Rep T) (id : ι) (c c' : SConf ι M T St Rep O) : Prop :=
  SStep0 srv id c c' ∨ SStep0 srv id c.swap c'.swap

/-- `n` steps of the parties, in any order, between which the server handles requests of other clients, whose ids are
different. -/
inductive SSteps (srv : Srv St Rep T) (id : ι) (a : SConf ι M T St Rep O) : Nat → SConf ι M T St Rep O → Prop
  | refl : SSteps srv id a 0 a
  | own {n : Nat} {b c : SConf ι M T St Rep O} : SSteps srv id a n b → SStep srv id b c → SSteps srv id a (n + 1) c
  | other {n : Nat} {b : SConf ι M T St Rep O} {h : ι → Option St} {d : Nat} {rep : Rep} (r : Mt.Request ι) :
      SSteps srv id a n b → r.id ≠ id → Mt.handle srv.fresh srv.second b.held b.draws r = (h, d, rep) →
      SSteps srv id a n { b with held := h, draws := d }

/-! ### Specification -/

/-- Whatever the scheduler, the server and its other clients do, the two parties terminate, with results in the
given relation, and the server keeps nothing for them. -/
structure ServerRuns (srv : Srv St Rep T) (id : ι) (p0 p1 : SProc M T O) (R : O → O → Prop) : Prop where
  /-- There is no infinite schedule. -/
  bounded : ∃ N, ∀ held draws n c, held id = none → SSteps srv id ⟨.run p0, .run p1, [], [], held, draws⟩ n c → n ≤ N
  /-- If neither party can make a step, both have returned. -/
  stuck : ∀ held draws n c, held id = none → SSteps srv id ⟨.run p0, .run p1, [], [], held, draws⟩ n c →
    (∀ c', ¬ SStep srv id c c') →
    ∃ o0 o1, c.c0 = .run (.done o0) ∧ c.c1 = .run (.done o1) ∧ c.q01 = [] ∧ c.q10 = [] ∧ c.held id = none ∧ R o0 o1

/-! ### Runs with given answers -/

/-- The code of a party with the answers of the server. -/
def inst : SProc M T O → List T → Proc M (O × List T)
  | .done o, ts => .done (o, ts)
  | .fail, _ => .fail
  | .send m k, ts => .send m (inst k ts)
  | .recv k, ts => .recv fun x => inst (k x) ts
  | .ask _ k, ts => match ts with
    | [] => .fail
    | t :: ts => inst (k t) ts

/-- A provider with a list of answers. -/
def pop (ts : List T) (_ : Nat) : Option (List T × T) :=
  match ts with
  | [] => none
  | t :: ts => some (ts, t)

section
variable {G : Type} [GateLike G] {S V MS : Type}

theorem inst_layers (pr : Protocol G S V M MS T) (m : Multi G) (party : Nat) (inp : Input S V)
    (ls : List (MLayer × List Node)) (st : Store S V) (ts : List T) :
    inst (execLayersV pr m party inp ls st) ts = execLayersP pr m party inp pop ts ls st := by
  induction ls generalizing st ts with
  | nil =>
    unfold execLayersV execLayersP
    cases outputs m st <;> rfl
  | cons l ls ih =>
    obtain ⟨l, fs⟩ := l
    unfold execLayersV execLayersP
    cases evalNodes pr m party inp st (niOf l) with
    | none => rfl
    | some st =>
      dsimp only
      by_cases hz : intCount m l = 0
      · rw [if_pos hz, if_pos hz]; exact ih st ts
      · rw [if_neg hz, if_neg hz]
        cases ts with
        | nil => rfl
        | cons t ts =>
          simp only [inst, pop]
          cases computeMsgs pr m party st l t with
          | none => rfl
          | some r =>
            obtain ⟨msg, t'⟩ := r
            simp only [inst]
            congr 2
            funext other
            cases finishLayer pr m party (free pr st fs) l msg other t' with
            | none => rfl
            | some st => exact ih st ts

theorem inst_execute (pr : Protocol G S V M MS T) (m : Multi G) (party : Nat) (inp : Input S V) (st : Store S V)
    (ts : List T) : inst (executeV pr m party inp st) ts = executeP pr m party inp pop ts st := by
  unfold executeV executeP
  generalize (m.circs[0]? >>= fun c => _) = x
  cases x with
  | none => rfl
  | some ls => exact inst_layers pr m party inp ls st ts

end

/-! ### The course of a party -/

mutual
/-- The party is about to make the requests `ns`, with one exchange of messages after each; or it panics. -/
inductive PosAsk : List Nat → SProc M T O → Prop
  | done (o : O) : PosAsk [] (.done o)
  | fail (ns : List Nat) : PosAsk ns .fail
  | ask (n : Nat) (ns : List Nat) (k : T → SProc M T O) : (∀ t, PosSend ns (k t)) → PosAsk (n :: ns) (.ask n k)
/-- The party is about to send its message. -/
inductive PosSend : List Nat → SProc M T O → Prop
  | fail (ns : List Nat) : PosSend ns .fail
  | send (ns : List Nat) (m : M) (k : M → SProc M T O) : (∀ x, PosAsk ns (k x)) → PosSend ns (.send m (.recv k))
end

section
variable {G : Type} [GateLike G] {S V MS : Type}

theorem layers_pos (pr : Protocol G S V M MS T) (m : Multi G) (party : Nat) (inp : Input S V)
    (ls : List (MLayer × List Node)) (st : Store S V) :
    PosAsk (requestsOf m (ls.map (·.1))) (execLayersV pr m party inp ls st) := by
  induction ls generalizing st with
  | nil =>
    unfold execLayersV
    cases outputs m st with
    | none => exact .fail _
    | some o => exact .done o
  | cons l ls ih =>
    obtain ⟨l, fs⟩ := l
    unfold execLayersV
    cases evalNodes pr m party inp st (niOf l) with
    | none => exact .fail _
    | some st =>
      dsimp only
      by_cases hz : intCount m l = 0
      · rw [if_pos hz]
        have := ih st
        simpa [requestsOf, hz] using this
      · rw [if_neg hz]
        have he : requestsOf m (((l, fs) :: ls).map (·.1)) = intCount m l :: requestsOf m (ls.map (·.1)) := by
          simp [requestsOf, hz]
        rw [he]
        refine .ask _ _ _ fun t => ?_
        cases computeMsgs pr m party st l t with
        | none => exact .fail _
        | some r =>
          obtain ⟨msg, t'⟩ := r
          refine .send _ _ _ fun other => ?_
          cases finishLayer pr m party (free pr st fs) l msg other t' with
          | none => exact .fail _
          | some st => exact ih st

end

/-- The party is in the round `r`, at the step `off` of its five steps. -/
inductive At (srv : Srv St Rep T) (ns : List Nat) : Nat → Nat → Client M T Rep O → Prop
  | ask (r : Nat) (p : SProc M T O) : r ≤ ns.length → PosAsk (ns.drop r) p → At srv ns r 0 (.run p)
  | asked (r n : Nat) (k : T → SProc M T O) : ns[r]? = some n → (∀ t, PosSend (ns.drop (r + 1)) (k t)) →
      At srv ns r 1 (.asked n k)
  | replied (r n : Nat) (rep : Rep) (t : T) (k : T → SProc M T O) : ns[r]? = some n → srv.expand n rep = some t →
      (∀ t, PosSend (ns.drop (r + 1)) (k t)) → At srv ns r 2 (.replied n rep k)
  | send (r : Nat) (p : SProc M T O) : r < ns.length → PosSend (ns.drop (r + 1)) p → At srv ns r 3 (.run p)
  | recv (r : Nat) (k : M → SProc M T O) : r < ns.length → (∀ x, PosAsk (ns.drop (r + 1)) (k x)) →
      At srv ns r 4 (.run (.recv k))

theorem At.le {srv : Srv St Rep T} {ns : List Nat} {r off : Nat} {c : Client M T Rep O} (h : At srv ns r off c) :
    r ≤ ns.length ∧ off ≤ 4 := by
  cases h with
  | ask _ h _ => exact ⟨h, by omega⟩
  | asked _ _ h _ => exact ⟨Nat.le_of_lt (List.getElem?_eq_some_iff.1 h).1, by omega⟩
  | replied _ _ _ _ h _ _ => exact ⟨Nat.le_of_lt (List.getElem?_eq_some_iff.1 h).1, by omega⟩
  | send _ h _ => exact ⟨Nat.le_of_lt h, by omega⟩
  | recv _ h _ => exact ⟨Nat.le_of_lt h, by omega⟩

/-- The answers a party got so far, one per round. -/
def asks (r off : Nat) : Nat := r + if 2 ≤ off then 1 else 0

/-- The messages a party sent so far. -/
def sends (r off : Nat) : Nat := r + if off = 4 then 1 else 0

/-- What the server guarantees for two requests of the same amount. -/
structure SrvOk (srv : Srv St Rep T) (Good : Nat → T → T → Prop) : Prop where
  symm : ∀ n t t', Good n t t' → Good n t' t
  pair : ∀ d n, ∃ t t', srv.expand n (srv.fresh d n).2 = some t ∧
    srv.expand n (srv.second (srv.fresh d n).1) = some t' ∧ Good n t t'

/-- The answers match, round by round. -/
def Pairs (Good : Nat → T → T → Prop) (ns : List Nat) (l l' : List T) : Prop :=
  ∀ (j n : Nat) (t t' : T), ns[j]? = some n → l[j]? = some t → l'[j]? = some t' → Good n t t'

theorem Pairs.symm {srv : Srv St Rep T} {Good : Nat → T → T → Prop} (ok : SrvOk srv Good) {ns : List Nat}
    {l l' : List T} (h : Pairs Good ns l l') : Pairs Good ns l' l :=
  fun j n t t' h1 h2 h3 => ok.symm _ _ _ (h j n t' t h1 h3 h2)

theorem Pairs.snoc {Good : Nat → T → T → Prop} {ns : List Nat} {l l' : List T} (h : Pairs Good ns l l') (n : Nat) (t t' : T)
    (hn : ns[l.length]? = some n) (hl : l.length = l'.length) (hg : Good n t t') :
    Pairs Good ns (l ++ [t]) (l' ++ [t']) := by
  intro j n' x x' h1 h2 h3
  by_cases hj : j < l.length
  · rw [List.getElem?_append_left hj] at h2
    rw [List.getElem?_append_left (hl ▸ hj)] at h3
    exact h j n' x x' h1 h2 h3
  · have : j = l.length := by
      have := (List.getElem?_eq_some_iff.1 h2).1
      simp only [List.length_append, List.length_cons, List.length_nil] at this
      omega
    subst this
    rw [hn] at h1
    rw [List.getElem?_concat_length] at h2
    rw [hl, List.getElem?_concat_length] at h3
    cases h1; cases h2; cases h3
    exact hg

/-- The entry of the server for the parties, given their answers. -/
inductive Entry (srv : Srv St Rep T) (Good : Nat → T → T → Prop) (ns : List Nat) : Option St → List T → List T → Prop
  | even (l l' : List T) : l.length = l'.length → Pairs Good ns l l' → Entry srv Good ns none l l'
  | first (d n : Nat) (t : T) (l l' : List T) : l.length = l'.length → Pairs Good ns l l' → ns[l.length]? = some n →
      srv.expand n (srv.fresh d n).2 = some t → Entry srv Good ns (some (srv.fresh d n).1) (l ++ [t]) l'
  | second (d n : Nat) (t : T) (l l' : List T) : l.length = l'.length → Pairs Good ns l l' → ns[l.length]? = some n →
      srv.expand n (srv.fresh d n).2 = some t → Entry srv Good ns (some (srv.fresh d n).1) l (l' ++ [t])

theorem Entry.symm {srv : Srv St Rep T} {Good : Nat → T → T → Prop} (ok : SrvOk srv Good) {ns : List Nat}
    {o : Option St} {l l' : List T} (h : Entry srv Good ns o l l') : Entry srv Good ns o l' l := by
  cases h with
  | even _ _ h1 h2 => exact .even _ _ h1.symm (h2.symm ok)
  | first d n t a b h1 h2 h3 h4 => exact .second d n t _ _ h1.symm (h2.symm ok) (h1 ▸ h3) h4
  | second d n t a b h1 h2 h3 h4 => exact .first d n t _ _ h1.symm (h2.symm ok) (h1 ▸ h3) h4

/-- The invariant of all schedules. -/
structure Inv (srv : Srv St Rep T) (id : ι) (Good : Nat → T → T → Prop) (ns : List Nat) (n : Nat)
    (c : SConf ι M T St Rep O) (l0 l1 : List T) (r0 f0 r1 f1 : Nat) : Prop where
  at0 : At srv ns r0 f0 c.c0
  at1 : At srv ns r1 f1 c.c1
  len0 : l0.length = asks r0 f0
  len1 : l1.length = asks r1 f1
  queue01 : c.q01.length + r1 = sends r0 f0
  queue10 : c.q10.length + r0 = sends r1 f1
  count : n = 5 * r0 + f0 + (5 * r1 + f1)
  entry : Entry srv Good ns (c.held id) l0 l1

omit [DecidableEq ι] in
theorem Inv.swap {srv : Srv St Rep T} {id : ι} {Good : Nat → T → T → Prop} (ok : SrvOk srv Good) {ns : List Nat}
    {n : Nat} {c : SConf ι M T St Rep O} {l0 l1 : List T} {r0 f0 r1 f1 : Nat}
    (h : Inv srv id Good ns n c l0 l1 r0 f0 r1 f1) : Inv srv id Good ns n c.swap l1 l0 r1 f1 r0 f0 where
  at0 := h.at1
  at1 := h.at0
  len0 := h.len1
  len1 := h.len0
  queue01 := h.queue10
  queue10 := h.queue01
  count := by rw [h.count]; omega
  entry := h.entry.symm ok

/-- The rest of the code of a party with the answers to come. -/
def instC (srv : Srv St Rep T) : Client M T Rep O → List T → Proc M (O × List T)
  | .run p, ts => inst p ts
  | .asked n k, ts => inst (.ask n k) ts
  | .replied n rep k, ts => inst (match srv.expand n rep with | some t => k t | none => .fail) ts

/-- Both parties with the answers to come. -/
def conf (srv : Srv St Rep T) (c : SConf ι M T St Rep O) (ts0 ts1 : List T) : Conf M (O × List T) :=
  ⟨instC srv c.c0 ts0, instC srv c.c1 ts1, c.q01, c.q10⟩

/-- The parties exchanged. -/
def swapConf {A : Type} (c : Conf M A) : Conf M A := ⟨c.p1, c.p0, c.q10, c.q01⟩

theorem swap_step {A : Type} {c c' : Conf M A} (h : Proc.Step c c') : Proc.Step (swapConf c) (swapConf c') := by
  cases h with
  | send0 m k p1 a b => exact .send1 m k p1 b a
  | send1 m k p0 a b => exact .send0 m k p0 b a
  | recv0 m k p1 a b => exact .recv1 m k p1 b a
  | recv1 m k p0 a b => exact .recv0 m k p0 b a

theorem swap_steps {A : Type} {n : Nat} {c c' : Conf M A} (h : Proc.Steps n c c') :
    Proc.Steps n (swapConf c) (swapConf c') := by
  induction h with
  | refl => exact .refl _
  | cons s _ ih => exact .cons (swap_step s) ih

/-- A step of party 0 keeps the invariant and is a step with the answers, or none. -/
theorem step0 {srv : Srv St Rep T} {id : ι} {Good : Nat → T → T → Prop} (ok : SrvOk srv Good) {ns : List Nat}
    {n : Nat} {c c' : SConf ι M T St Rep O} {l0 l1 : List T} {r0 f0 r1 f1 : Nat}
    (h : Inv srv id Good ns n c l0 l1 r0 f0 r1 f1) (s : SStep0 srv id c c') :
    ∃ e0 r0' f0', Inv srv id Good ns (n + 1) c' (l0 ++ e0) l1 r0' f0' r1 f1 ∧
      ∀ ts0 ts1, ∃ k, Proc.Steps k (conf srv c (e0 ++ ts0) ts1) (conf srv c' ts0 ts1) := by
  obtain ⟨at0, at1, len0, len1, q01, q10, cnt, ent⟩ := h
  cases s with
  | send m k c1 a b hd d =>
    refine ⟨[], r0, 4, ?_, fun ts0 ts1 => ⟨1, .cons (.send0 m _ _ a b) (.refl _)⟩⟩
    simp only [List.append_nil]
    cases at0 with
    | ask _ _ hp =>
      generalize ns.drop r0 = rest at hp
      cases hp
    | send _ hr hp =>
      cases hp with
      | send _ _ k hk =>
        refine ⟨.recv r0 k hr hk, at1, ?_, len1, ?_, q10, by omega, ent⟩
        · simpa [asks] using len0
        · simp [sends] at q01 ⊢; omega
  | recv m k c1 a b hd d =>
    refine ⟨[], r0 + 1, 0, ?_, fun ts0 ts1 => ⟨1, .cons (.recv0 m _ _ a b) (.refl _)⟩⟩
    simp only [List.append_nil]
    cases at0 with
    | ask _ _ hp =>
      generalize ns.drop r0 = rest at hp
      cases hp
    | send _ hr hp => cases hp
    | recv _ hr hk =>
      refine ⟨.ask (r0 + 1) _ hr (hk m), at1, ?_, len1, ?_, ?_, by omega, ent⟩
      · simpa [asks] using len0
      · simpa [sends] using q01
      · simp only [List.length_cons] at q10 ⊢; omega
  | ask n' k c1 a b hd d =>
    refine ⟨[], r0, 1, ?_, fun ts0 ts1 => ⟨0, .refl _⟩⟩
    simp only [List.append_nil]
    cases at0 with
    | send _ hr hp => cases hp
    | ask _ hr hp =>
      generalize hn : ns.drop r0 = rest at hp
      cases hp with
      | ask _ ns' _ hk =>
        have h1 : ns[r0]? = some n' := by
          rw [← List.head?_drop, hn]; rfl
        have h2 : ns.drop (r0 + 1) = ns' := by
          rw [← List.tail_drop, hn]; rfl
        refine ⟨.asked r0 n' k h1 (h2 ▸ hk), at1, ?_, len1, ?_, q10, by omega, ent⟩
        · simpa [asks] using len0
        · simpa [sends] using q01
  | handle n' k c1 a b hd hd' d d' rep hh =>
    cases at0 with
    | asked _ _ hn hk =>
      have hl0 : l0.length = r0 := by simpa [asks] using len0
      -- the lead of party 0
      have hlead : l0.length ≤ l1.length := by
        rw [hl0, len1]
        have : r0 ≤ sends r1 f1 := by omega
        have : sends r1 f1 ≤ asks r1 f1 := by unfold sends asks; split <;> split <;> omega
        omega
      have key : ∃ t, srv.expand n' rep = some t ∧ Entry srv Good ns (hd' id) (l0 ++ [t]) l1 := by
        unfold Mt.handle at hh
        dsimp only at hh ent
        cases ho : hd id with
        | none =>
          rw [ho] at hh ent
          simp only [Prod.mk.injEq] at hh
          obtain ⟨rfl, -, rfl⟩ := hh
          obtain ⟨t, t', e1, e2, hg⟩ := ok.pair d n'
          cases ent with
          | even _ _ h1 h2 =>
            rw [Function.update_self]
            exact ⟨t, e1, .first d n' t l0 l1 h1 h2 (by rw [hl0]; exact hn) e1⟩
        | some st =>
          rw [ho] at hh ent
          simp only [Prod.mk.injEq] at hh
          obtain ⟨rfl, -, rfl⟩ := hh
          rw [Function.update_self]
          cases ent with
          | first d n t l l' h1 =>
            simp only [List.length_append, List.length_cons, List.length_nil] at hlead
            omega
          | second d n2 t l l' h1 h2 h3 h4 =>
            have hnn : n2 = n' := by
              rw [hl0, hn] at h3
              exact (Option.some.inj h3).symm
            subst hnn
            obtain ⟨x, t', e1, e2, hg⟩ := ok.pair d n2
            rw [h4] at e1
            cases e1
            exact ⟨t', e2, .even _ _ (by simp [h1]) (h2.snoc n2 t' t h3 h1 (ok.symm _ _ _ hg))⟩
      obtain ⟨t, ht, hent⟩ := key
      refine ⟨[t], r0, 2, ⟨.replied r0 n' rep t k hn ht hk, at1, ?_, len1, ?_, q10, by omega, hent⟩, ?_⟩
      · simp [asks, hl0]
      · simpa [sends] using q01
      · intro ts0 ts1
        refine ⟨0, ?_⟩
        simp only [conf, instC, inst, ht, List.singleton_append]
        exact .refl _
  | reply n' rep k c1 a b hd d =>
    refine ⟨[], r0, 3, ?_, fun ts0 ts1 => ⟨0, .refl _⟩⟩
    simp only [List.append_nil]
    cases at0 with
    | replied _ _ t _ hn ht hk =>
      rw [ht]
      refine ⟨.send r0 _ (List.getElem?_eq_some_iff.1 hn).1 (hk t), at1, ?_, len1, ?_, q10, by omega, ent⟩
      · simpa [asks] using len0
      · simpa [sends] using q01

omit [DecidableEq ι] in
theorem swap_swap (c : SConf ι M T St Rep O) : c.swap.swap = c := rfl

omit [DecidableEq ι] in
theorem conf_swap (srv : Srv St Rep T) (c : SConf ι M T St Rep O) (ts0 ts1 : List T) :
    swapConf (conf srv c.swap ts1 ts0) = conf srv c ts0 ts1 := rfl

/-- Every schedule is a schedule with the answers given. -/
theorem steps_inv {srv : Srv St Rep T} {id : ι} {Good : Nat → T → T → Prop} (ok : SrvOk srv Good) {ns : List Nat}
    {p0 p1 : SProc M T O} (h0 : PosAsk ns p0) (h1 : PosAsk ns p1) (held : ι → Option St) (draws : Nat)
    (hid : held id = none) {n : Nat} {c : SConf ι M T St Rep O}
    (h : SSteps srv id ⟨.run p0, .run p1, [], [], held, draws⟩ n c) :
    ∃ l0 l1 r0 f0 r1 f1, Inv srv id Good ns n c l0 l1 r0 f0 r1 f1 ∧
      ∀ ts0 ts1, ∃ k, Proc.Steps k ⟨inst p0 (l0 ++ ts0), inst p1 (l1 ++ ts1), [], []⟩ (conf srv c ts0 ts1) := by
  induction h with
  | refl =>
    refine ⟨[], [], 0, 0, 0, 0, ⟨.ask 0 p0 (by omega) h0, .ask 0 p1 (by omega) h1, rfl, rfl, rfl, rfl, rfl, ?_⟩,
      fun ts0 ts1 => ⟨0, .refl _⟩⟩
    simp only [hid]
    exact .even [] [] rfl (by intro j n t t' _ h; simp at h)
  | own _ s ih =>
    obtain ⟨l0, l1, r0, f0, r1, f1, inv, hs⟩ := ih
    rcases s with s | s
    · obtain ⟨e0, r0', f0', inv', hk⟩ := step0 ok inv s
      refine ⟨_, _, _, _, _, _, inv', fun ts0 ts1 => ?_⟩
      obtain ⟨k, hk⟩ := hk ts0 ts1
      obtain ⟨k', hk'⟩ := hs (e0 ++ ts0) ts1
      rw [List.append_assoc]
      exact ⟨_, hk'.trans hk⟩
    · obtain ⟨e1, r1', f1', inv', hk⟩ := step0 ok (inv.swap ok) s
      refine ⟨_, _, _, _, _, _, inv'.swap ok, fun ts0 ts1 => ?_⟩
      obtain ⟨k, hk⟩ := hk ts1 ts0
      have hk := swap_steps hk
      rw [conf_swap, conf_swap] at hk
      obtain ⟨k', hk'⟩ := hs ts0 (e1 ++ ts1)
      rw [List.append_assoc]
      exact ⟨_, hk'.trans hk⟩
  | @other n b hd d rep r _ hr hh ih =>
    obtain ⟨l0, l1, r0, f0, r1, f1, ⟨a1, a2, a3, a4, a5, a6, a7, a8⟩, hs⟩ := ih
    refine ⟨l0, l1, r0, f0, r1, f1, ⟨a1, a2, a3, a4, a5, a6, a7, ?_⟩, hs⟩
    have : hd id = b.held id := by
      unfold Mt.handle at hh
      cases ho : b.held r.id with
      | none =>
        rw [ho] at hh
        simp only [Prod.mk.injEq] at hh
        rw [← hh.1, Function.update_of_ne (Ne.symm hr)]
      | some st =>
        rw [ho] at hh
        simp only [Prod.mk.injEq] at hh
        rw [← hh.1, Function.update_of_ne (Ne.symm hr)]
    simp only [this]
    exact a8

/-- The answers can be completed. -/
theorem complete {srv : Srv St Rep T} {Good : Nat → T → T → Prop} (ok : SrvOk srv Good) {ns : List Nat}
    {o : Option St} {l0 l1 : List T} (h : Entry srv Good ns o l0 l1) (h0 : l0.length ≤ ns.length)
    (h1 : l1.length ≤ ns.length) :
    ∃ ts0 ts1, (l0 ++ ts0).length = ns.length ∧ (l1 ++ ts1).length = ns.length ∧
      Pairs Good ns (l0 ++ ts0) (l1 ++ ts1) := by
  -- from equal lengths
  have even : ∀ (j : Nat) (l l' : List T), l.length = l'.length → l.length + j = ns.length → Pairs Good ns l l' →
      ∃ ts0 ts1, (l ++ ts0).length = ns.length ∧ (l' ++ ts1).length = ns.length ∧
        Pairs Good ns (l ++ ts0) (l' ++ ts1) := by
    intro j
    induction j with
    | zero =>
      intro l l' hl hj hp
      exact ⟨[], [], by simpa using hj, by simpa [← hl] using hj, by simpa using hp⟩
    | succ j ih =>
      intro l l' hl hj hp
      have hlt : l.length < ns.length := by omega
      obtain ⟨t, t', -, -, hg⟩ := ok.pair 0 ns[l.length]
      obtain ⟨ts0, ts1, a, b, c⟩ := ih (l ++ [t]) (l' ++ [t']) (by simp [hl]) (by simp; omega)
        (hp.snoc _ t t' (List.getElem?_eq_getElem hlt) hl hg)
      exact ⟨t :: ts0, t' :: ts1, by simpa using a, by simpa using b, by simpa using c⟩
  cases h with
  | even _ _ hl hp => exact even (ns.length - l0.length) _ _ hl (by omega) hp
  | first d n t l l' hl hp hn ht =>
    obtain ⟨x, t', e1, e2, hg⟩ := ok.pair d n
    rw [ht] at e1
    cases e1
    simp only [List.length_append, List.length_cons, List.length_nil] at h0
    obtain ⟨ts0, ts1, a, b, c⟩ := even (ns.length - (l.length + 1)) (l ++ [t]) (l1 ++ [t']) (by simp [hl])
      (by simp; omega) (hp.snoc n t t' hn hl hg)
    exact ⟨ts0, t' :: ts1, a, by simpa using b, by simpa using c⟩
  | second d n t l l' hl hp hn ht =>
    obtain ⟨x, t', e1, e2, hg⟩ := ok.pair d n
    rw [ht] at e1
    cases e1
    simp only [List.length_append, List.length_cons, List.length_nil] at h1
    obtain ⟨ts0, ts1, a, b, c⟩ := even (ns.length - (l0.length + 1)) (l0 ++ [t']) (l' ++ [t]) (by simp [hl])
      (by simp; omega) (hp.snoc n t' t hn hl (ok.symm _ _ _ hg))
    exact ⟨t' :: ts0, ts1, by simpa using a, b, by simpa using c⟩

theorem asks_le {srv : Srv St Rep T} {ns : List Nat} {r off : Nat} {c : Client M T Rep O} (h : At srv ns r off c) :
    asks r off ≤ ns.length := by
  cases h with
  | ask _ h _ => simpa [asks] using h
  | asked _ _ h _ => have := (List.getElem?_eq_some_iff.1 h).1; simp [asks]; omega
  | replied _ _ _ _ h _ _ => have := (List.getElem?_eq_some_iff.1 h).1; simp [asks]; omega
  | send _ h _ => simp [asks]; omega
  | recv _ h _ => simp [asks]; omega

/-- **Lifting.**  If two parties that ask for `ns` return related results for all matching answers to `ns`, they do so with
the server. -/
theorem serverRuns {srv : Srv St Rep T} {id : ι} {Good : Nat → T → T → Prop} (ok : SrvOk srv Good) {ns : List Nat}
    {p0 p1 : SProc M T O} (h0 : PosAsk ns p0) (h1 : PosAsk ns p1) (R : O → O → Prop)
    (hruns : ∀ l0 l1 : List T, l0.length = ns.length → l1.length = ns.length → Pairs Good ns l0 l1 →
      ∃ o0 o1 q0 q1, Runs (inst p0 l0) (inst p1 l1) (o0, q0) (o1, q1) ∧ R o0 o1) :
    ServerRuns srv id p0 p1 R where
  bounded := by
    refine ⟨10 * ns.length + 8, fun held draws n c hid h => ?_⟩
    obtain ⟨l0, l1, r0, f0, r1, f1, inv, -⟩ := steps_inv ok h0 h1 held draws hid h
    have := inv.at0.le
    have := inv.at1.le
    have := inv.count
    omega
  stuck := by
    intro held draws n c hid h hst
    obtain ⟨l0, l1, r0, f0, r1, f1, inv, hs⟩ := steps_inv ok h0 h1 held draws hid h
    obtain ⟨ts0, ts1, e0, e1, hp⟩ := complete ok inv.entry (inv.len0 ▸ asks_le inv.at0) (inv.len1 ▸ asks_le inv.at1)
    obtain ⟨o0, o1, q0, q1, hr, hR⟩ := hruns _ _ e0 e1 hp
    obtain ⟨k, hk⟩ := hs ts0 ts1
    obtain ⟨at0, at1, len0, len1, q01, q10, cnt, ent⟩ := inv
    obtain ⟨c0, c1, a, b, hd, d⟩ := c
    -- what a party that cannot go on looks like
    have n0 : ∃ p, c0 = .run p ∧ ((∃ o, p = .done o) ∨ p = .fail ∨ (∃ k, p = .recv k) ∧ b = []) := by
      cases c0 with
      | asked n' k' =>
        exact absurd (Or.inl (.handle n' k' c1 a b hd _ d _ _ rfl)) (hst _)
      | replied n' rep k' => exact absurd (Or.inl (.reply n' rep k' c1 a b hd d)) (hst _)
      | run p =>
        refine ⟨p, rfl, ?_⟩
        cases p with
        | done o => exact .inl ⟨o, rfl⟩
        | fail => exact .inr (.inl rfl)
        | send m' k' => exact absurd (Or.inl (.send m' k' c1 a b hd d)) (hst _)
        | ask n' k' => exact absurd (Or.inl (.ask n' k' c1 a b hd d)) (hst _)
        | recv k' =>
          cases b with
          | nil => exact .inr (.inr ⟨⟨k', rfl⟩, rfl⟩)
          | cons m' b => exact absurd (Or.inl (.recv m' k' c1 a b hd d)) (hst _)
    have n1 : ∃ p, c1 = .run p ∧ ((∃ o, p = .done o) ∨ p = .fail ∨ (∃ k, p = .recv k) ∧ a = []) := by
      cases c1 with
      | asked n' k' =>
        exact absurd (Or.inr (.handle n' k' c0 b a hd _ d _ _ rfl)) (hst ⟨c0, _, a, b, _, _⟩)
      | replied n' rep k' => exact absurd (Or.inr (.reply n' rep k' c0 b a hd d)) (hst ⟨c0, _, a, b, _, _⟩)
      | run p =>
        refine ⟨p, rfl, ?_⟩
        cases p with
        | done o => exact .inl ⟨o, rfl⟩
        | fail => exact .inr (.inl rfl)
        | send m' k' => exact absurd (Or.inr (.send m' k' c0 b a hd d)) (hst ⟨c0, _, a, _, _, _⟩)
        | ask n' k' => exact absurd (Or.inr (.ask n' k' c0 b a hd d)) (hst ⟨c0, _, a, b, _, _⟩)
        | recv k' =>
          cases a with
          | nil => exact .inr (.inr ⟨⟨k', rfl⟩, rfl⟩)
          | cons m' a => exact absurd (Or.inr (.recv m' k' c0 b a hd d)) (hst ⟨c0, _, _, b, _, _⟩)
    obtain ⟨p, rfl, hp0⟩ := n0
    obtain ⟨p', rfl, hp1⟩ := n1
    have hfin := hr.stuck k _ hk (by
      intro c' hc'
      rcases hp0 with ⟨o, rfl⟩ | rfl | ⟨⟨k0, rfl⟩, rfl⟩ <;> rcases hp1 with ⟨o', rfl⟩ | rfl | ⟨⟨k1, rfl⟩, rfl⟩ <;>
        cases hc')
    simp only [conf, instC, Conf.mk.injEq] at hfin
    obtain ⟨g0, g1, rfl, rfl⟩ := hfin
    have d0 : p = .done o0 := by
      rcases hp0 with ⟨o, rfl⟩ | rfl | ⟨⟨k0, rfl⟩, -⟩
      · simp only [inst, Proc.done.injEq, Prod.mk.injEq] at g0
        rw [g0.1]
      · cases g0
      · cases g0
    have d1 : p' = .done o1 := by
      rcases hp1 with ⟨o, rfl⟩ | rfl | ⟨⟨k0, rfl⟩, -⟩
      · simp only [inst, Proc.done.injEq, Prod.mk.injEq] at g1
        rw [g1.1]
      · cases g1
      · cases g1
    subst d0
    subst d1
    refine ⟨o0, o1, rfl, rfl, rfl, rfl, ?_, hR⟩
    -- both parties made all requests
    have end_of : ∀ (r off : Nat) (o : O), At (Rep := Rep) srv ns r off (.run (.done o : SProc M T O)) →
        asks r off = ns.length := by
      intro r off o hat
      cases hat with
      | ask _ hle hpos =>
        generalize hn : ns.drop r = rest at hpos
        cases hpos with
        | done _ =>
          have := congrArg List.length hn
          simp only [List.length_drop, List.length_nil] at this
          simp [asks]; omega
      | send _ _ hpos => cases hpos
    rw [end_of _ _ _ at0] at len0
    rw [end_of _ _ _ at1] at len1
    show hd id = none
    have ent : Entry srv Good ns (hd id) l0 l1 := ent
    generalize hd id = o at ent ⊢
    cases ent with
    | even => rfl
    | first d n t l l' hl =>
      simp only [List.length_append, List.length_cons, List.length_nil] at len0
      omega
    | second d n t l l' hl =>
      simp only [List.length_append, List.length_cons, List.length_nil] at len1
      omega

/-! ### Execution -/

/-- Matching triples, enough for the request. -/
def GoodTriples (n : Nat) (t t' : List Triple) : Prop := Matching t t' ∧ n ≤ t.length

theorem pop_served {ns : List Nat} : ∀ {l0 l1 : List (List Triple)}, l0.length = ns.length → l1.length = ns.length →
    Pairs GoodTriples ns l0 l1 → Served pop pop l0 l1 ns [] [] := by
  induction ns with
  | nil =>
    intro l0 l1 h0 h1 _
    obtain rfl := List.length_eq_zero_iff.1 h0
    obtain rfl := List.length_eq_zero_iff.1 h1
    exact .nil _ _
  | cons n ns ih =>
    intro l0 l1 h0 h1 hp
    match l0, l1, h0, h1, hp with
    | t0 :: l0, t1 :: l1, h0, h1, hp =>
      have hg := hp 0 n t0 t1 rfl rfl rfl
      exact .cons (s0' := l0) (s1' := l1) rfl rfl hg.1 hg.2
        (ih (by simpa using h0) (by simpa using h1) fun j n' t t' a b c => hp (j + 1) n' t t' a b c)

/-- Execution with a server whose answers match. -/
theorem execute_server (m : Multi BoolGate) (rank : Node → Nat) (w : WF m rank)
    (hw : ExecWF m) (hu : Unmixed m) (c0 : Base BoolGate) (hc0 : m.circs[0]? = some c0)
    (inp0 inp1 inp : Input Bool (List Bool)) (hi : InputOk m c0 inp) (hin : Shares inp0 inp1 inp)
    (srv : Srv St Rep (List Triple)) (ok : SrvOk srv GoodTriples) (id : ι)
    (init0 init1 : Store Bool (List Bool)) (val : Node → Bool) (valV : Node → List Bool)
    (hp : PlainEval m inp val valV) :
    ServerRuns srv id (executeV gmw m 0 inp0 init0) (executeV gmw m 1 inp1 init1)
      (fun o0 o1 => Shares o0 o1 (plainOutput m c0 val valV)) := by
  obtain ⟨it, ls, e1, e2, okl⟩ := layers_ok_partial m rank w
  have pos : ∀ (party : Nat) (inp : Input Bool (List Bool)) (st : Store Bool (List Bool)),
      PosAsk (requestsOf m ls) (executeV gmw m party inp st) := by
    intro party inp st
    unfold executeV
    simp only [hc0, e1, e2, Option.bind_eq_bind, Option.bind_some]
    have key : PosAsk (requestsOf m ls) (match freeable m (fun _ => none) ls with
        | some ls => execLayersV gmw m party inp ls st
        | none => .fail) := by
      cases hfl : freeable m (fun _ => none) ls with
      | none => exact .fail _
      | some fl =>
        have := layers_pos gmw m party inp fl st
        rwa [freeable_fst ls _ _ hfl] at this
    cases inp with
    | scalar l =>
      by_cases h : c0.inputGates.length = l.length
      · simp only [h, if_true]; exact key
      · simp only [h, if_false]; exact .fail _
    | simd l =>
      by_cases h : c0.inputGates.length = l.length
      · simp only [h, if_true]; exact key
      · simp only [h, if_false]; exact .fail _
  refine serverRuns ok (pos 0 inp0 init0) (pos 1 inp1 init1) _ fun l0 l1 h0 h1 hpairs => ?_
  obtain ⟨it', ls', f1, f2, -, x0⟩ := executeP_eq gmw m rank w 0 inp0 pop
  obtain ⟨it'', ls'', g1, g2, -, x1⟩ := executeP_eq gmw m rank w 1 inp1 pop
  rw [e1] at f1 g1; cases f1; cases g1
  rw [e2] at f2 g2; cases f2; cases g2
  have hs := pop_served h0 h1 hpairs
  obtain ⟨setup0, setup1, a0, a1, hset⟩ := hs.answers
  obtain ⟨_, o0, o1, -, hx, -, hsh⟩ := gmw_execute_correct_partial m rank w hw hu c0 hc0 inp0 inp1 inp hi hin
    setup0 setup1 hset init0 init1 val valV hp
  refine ⟨o0, o1, [], [], ?_, hsh⟩
  rw [inst_execute, inst_execute, x0 l0 [] setup0 init0 hs.after.1 a0, x1 l1 [] setup1 init1 hs.after.2 a1]
  exact (mapProc_exchange (f := fun o => (o, [])) (g := fun o => (o, [])) hx).runs

/-- The server of trusted_provider.rs: the first client of a pair gets the second of the random triples, the other the
first; the client uses what it gets (trusted_provider.rs:67-76, boolean/mod.rs:141-145 `into_iter`). -/
def tripleServer {σ : Type} (g : Mt.Rng σ) (seed : Nat → σ) : Srv (Mt.MulTriples Bool) (Mt.MulTriples Bool) (List Triple) :=
  ⟨Mt.freshPair g seed, fun m => m, fun _ m => some (Mt.triples m)⟩

/-- The server of trusted_seed_provider.rs. -/
def seedServer {σ Seed : Type} (g : Mt.Rng σ) (fromSeed : Seed → σ) (seed1 seed2 : Nat → Seed) :
    Srv Seed (Mt.SeedMsg Seed) (List Triple) :=
  ⟨Mt.freshSeeds g fromSeed seed1 seed2, .seed,
    fun n rep => (Mt.clientExpand g fromSeed n rep).map Mt.triples⟩

theorem matching_symm {a b : List Triple} (h : Matching a b) : Matching b a := by
  unfold Matching at *
  refine h.flip.imp fun x y h => ?_
  simp only [ValidPair] at h ⊢
  rw [Bool.xor_comm y.a, Bool.xor_comm y.b, Bool.xor_comm y.c] at h
  exact h

theorem goodTriples_symm (n : Nat) (t t' : List Triple) (h : GoodTriples n t t') : GoodTriples n t' t :=
  ⟨matching_symm h.1, h.1.length_eq ▸ h.2⟩

theorem tripleServer_ok {σ : Type} (g : Mt.Rng σ) (seed : Nat → σ) : SrvOk (tripleServer g seed) GoodTriples where
  symm := goodTriples_symm
  pair d n := by
    obtain ⟨m1, m2, h, -, -, l1, l2, hv⟩ := Mt.randomPair_valid g (seed d) n
    refine ⟨_, _, rfl, rfl, ?_⟩
    simp only [tripleServer, Mt.freshPair, h, Option.getD_some]
    refine ⟨Mt.triples_matching.2 hv, ?_⟩
    simp [Mt.triples, l2]

theorem seedServer_ok {σ Seed : Type} (g : Mt.Rng σ) (fromSeed : Seed → σ) (seed1 seed2 : Nat → Seed) :
    SrvOk (seedServer g fromSeed seed1 seed2) GoodTriples where
  symm := goodTriples_symm
  pair d n := by
    obtain ⟨m, m', e1, e2, -, -, l1, l2, hv⟩ := Mt.seeds_expand_valid g fromSeed seed1 seed2 d n
    refine ⟨Mt.triples m, Mt.triples m', ?_, ?_, Mt.triples_matching.2 hv, ?_⟩
    · simp only [seedServer, e1, Option.map_some]
    · simp only [seedServer, e2, Option.map_some]
    · simp [Mt.triples, l1]

/-- **C86.**  Two executors that get their triples from a trusted server.  For every schedule of the parties and the
server, every behaviour of other clients of the server and every content of the map for other ids, the parties
terminate with shares of the plaintext output, nothing is under way, and the server keeps nothing for them.  Conditions
on the circuit as in C08. -/
theorem gmw_trusted_server (m : Multi BoolGate) (rank : Node → Nat) (w : WF m rank)
    (hw : ExecWF m) (hu : Unmixed m) (c0 : Base BoolGate) (hc0 : m.circs[0]? = some c0)
    (inp0 inp1 inp : Input Bool (List Bool)) (hi : InputOk m c0 inp) (hin : Shares inp0 inp1 inp)
    {σ : Type} (g : Mt.Rng σ) (seed : Nat → σ) (id : ι)
    (init0 init1 : Store Bool (List Bool)) (val : Node → Bool) (valV : Node → List Bool)
    (hp : PlainEval m inp val valV) :
    ServerRuns (tripleServer g seed) id (executeV gmw m 0 inp0 init0) (executeV gmw m 1 inp1 init1)
      (fun o0 o1 => Shares o0 o1 (plainOutput m c0 val valV)) :=
  execute_server m rank w hw hu c0 hc0 inp0 inp1 inp hi hin _ (tripleServer_ok g seed) id init0 init1 val valV hp

/-- **C86 (seed server).**  The same with the server that sends seeds. -/
theorem gmw_trusted_seed_server (m : Multi BoolGate) (rank : Node → Nat) (w : WF m rank)
    (hw : ExecWF m) (hu : Unmixed m) (c0 : Base BoolGate) (hc0 : m.circs[0]? = some c0)
    (inp0 inp1 inp : Input Bool (List Bool)) (hi : InputOk m c0 inp) (hin : Shares inp0 inp1 inp)
    {σ Seed : Type} (g : Mt.Rng σ) (fromSeed : Seed → σ) (seed1 seed2 : Nat → Seed) (id : ι)
    (init0 init1 : Store Bool (List Bool)) (val : Node → Bool) (valV : Node → List Bool)
    (hp : PlainEval m inp val valV) :
    ServerRuns (seedServer g fromSeed seed1 seed2) id (executeV gmw m 0 inp0 init0) (executeV gmw m 1 inp1 init1)
      (fun o0 o1 => Shares o0 o1 (plainOutput m c0 val valV)) :=
  execute_server m rank w hw hu c0 hc0 inp0 inp1 inp hi hin _ (seedServer_ok g fromSeed seed1 seed2) id init0 init1
    val valV hp

/-- The example of C12 with a server and any other clients. -/
example (x y r s : Bool) {σ : Type} (g : Mt.Rng σ) (seed : Nat → σ) :
    ServerRuns (tripleServer g seed) "session" (executeV gmw callCirc 0 (.scalar [r, s]) noOutputs)
      (executeV gmw callCirc 1 (.scalar [r ^^ x, s ^^ y]) noOutputs)
      (fun o0 o1 => Shares o0 o1 (.scalar [(x && y) ^^ x])) := by
  have h := gmw_trusted_server (ι := String) callCirc callRank callCirc_wf callCirc_exec.1
    callCirc_exec.2 callMain rfl (.scalar [r, s]) (.scalar [r ^^ x, s ^^ y]) (.scalar [x, y])
    ⟨rfl, rfl⟩ ⟨rfl, rfl, by simp [xorL]⟩ g seed "session" noOutputs noOutputs _ _ (callCirc_plain x y)
  exact h

/-- Ids have to be unique: a third request for the id between the requests of the parties gets the triples of the second
party, which then gets triples that do not match. -/
theorem shared_id_mismatch : ∃ (g : Mt.Rng Nat) (seed : Nat → Nat) (m m' m'' : Mt.MulTriples Bool),
    (Mt.serve (Mt.freshPair g seed) (fun m => m) (fun _ : Unit => none) 0 [⟨(), 1⟩, ⟨(), 1⟩, ⟨(), 1⟩]).1.map (·.2) =
      [m, m', m''] ∧ List.Forall₂ Mt.Valid m.rows m'.rows ∧ ¬ List.Forall₂ Mt.Valid m.rows m''.rows := by
  refine ⟨⟨fun s n => (List.replicate (64 * n) (s == 3 || s == 2), s + 1), fun _ _ => by simp⟩, fun k => 2 * k,
    ⟨[false], [true], [false]⟩, ⟨[false], [true], [false]⟩, ⟨[true], [false], [false]⟩, by decide +kernel, ?_, ?_⟩
  · exact .cons (by simp [Mt.Valid]) .nil
  · intro h
    cases h with
    | cons h _ => simp [Mt.Valid] at h

end Verif.Exec
