import Verif.Fuse.Witness
import Verif.Circuit.ConnectProps

/-!
C65: what the converter for FUSE modules builds for calls that are not inlined (`CallMode::CallCircuits`).
-/
set_option autoImplicit false

namespace Verif.Fuse

open Circuit Mixed
open Gmw (BaseGate)

variable {w : Nat}

/-! ### Specification -/

/-- A call: its node, the called circuit, the gates of its operands, and the gate of its result. -/
structure CallRec (w : Nat) where
  node : FNode
  circ : Base (Gate w)
  ops : List Nat
  gate : Nat

/-- The connections for calls of the circuits `k`, `k + 1`, ...: operands of the call to inputs of the called circuit, and the
output of the called circuit to the gate of the result. -/
def callConns (k : Nat) : List (CallRec w) → List Conn
  | [] => []
  | r :: rs =>
    ⟨r.ops.map fun g => (0, g), k, r.circ.scInputGates, fun t => ((r.circ.gates[t]?).map Gate.inputSize).getD 0, false⟩ ::
    ⟨r.circ.scOutputGates.map fun g => (k, g), 0, [r.gate], fun _ => 1, false⟩ :: callConns (k + 1) rs

/-- The wires of calls. -/
def callWires (k : Nat) : List (CallRec w) → List (Node × Node)
  | [] => []
  | r :: rs =>
    (r.ops.map fun g => (0, g)).zip (r.circ.scInputGates.map fun t => (k, t)) ++
    ((r.circ.scOutputGates.map fun g => (k, g)).zip [(0, r.gate)] ++ callWires (k + 1) rs)

/-- The called circuit is a circuit of the module other than the entry point, converted alone. -/
def Converted (cs : List (Option FCircuit)) (ep : String) (name : String) (c : Base (Gate w)) : Prop :=
  ∃ fc ns st, some fc ∈ cs ∧ fc.name = name ∧ name ≠ ep ∧ fc.nodes = some ns ∧
    addNodes .call false ns st {} [] = some (st, c)

/-! ### Lemmas: gates are only added -/

theorem pre_addGate (c : Base (Gate w)) (g : Gate w) : c.gates <+: (c.addGate g).1.gates := by
  rw [(addGate_gates c g).1]; exact List.prefix_append _ _

theorem pre_addWired {c c' : Base (Gate w)} {g : Gate w} {l : List Nat} {id : Nat}
    (e : c.addWiredGate g l = some (c', id)) : c.gates <+: c'.gates := by
  obtain ⟨-, -, rfl⟩ := addWiredGate_spec e
  exact pre_addGate c g

theorem pre_inlineGates {c : Base (Gate w)} (vs : List Nat) {s s' : Base (Gate w)}
    {m m' : Nat → Nat} (e : inlineGates c vs s m = some (s', m')) : s.gates <+: s'.gates := by
  induction vs generalizing s m with
  | nil =>
    simp only [inlineGates, Option.some.injEq, Prod.mk.injEq] at e
    rw [← e.1]
  | cons v vs ih =>
    simp only [inlineGates, Option.bind_eq_bind, Option.bind_eq_some_iff] at e
    obtain ⟨g, hg, s1, hs1, e⟩ := e
    obtain ⟨-, -, rfl⟩ := foldWires_spec _ _ _ _ hs1
    have h2 := ih e
    exact (pre_addGate s (conv g)).trans h2

theorem pre_wireInputs (l : List (Nat × Nat)) {s s' : Base (Gate w)} (e : wireInputs s l = some s') : s.gates <+: s'.gates := by
  induction l generalizing s with
  | nil =>
    simp only [wireInputs, Option.some.injEq] at e
    rw [← e]
  | cons p l ih =>
    simp only [wireInputs, Option.bind_eq_bind, Option.bind_eq_some_iff] at e
    obtain ⟨s1, hs1, e⟩ := e
    obtain ⟨-, -, hs1⟩ := addWire_spec hs1
    have := ih e
    rw [hs1] at this
    exact this

theorem pre_addSub {s c s' : Base (Gate w)} {ins outs : List Nat}
    (e : s.addSubCircuit c ins = some (s', outs)) : s.gates <+: s'.gates := by
  unfold Base.addSubCircuit at e
  split at e
  · simp only [Option.bind_eq_bind, Option.bind_eq_some_iff] at e
    obtain ⟨ids, -, ⟨s1, m⟩, h1, s2, h2, e⟩ := e
    have := (pre_inlineGates ids h1).trans (pre_wireInputs _ h2)
    split at e
    · simp only [Option.pure_def, Option.some.injEq, Prod.mk.injEq] at e
      rw [← e.1]; exact this
    · cases e
  · cases e

theorem pre_splitBits (l : List Nat) {s s' : Base (Gate w)} {a : Nat} {outs : List Nat}
    (e : splitBits s a l = some (s', outs)) : s.gates <+: s'.gates := by
  induction l generalizing s outs with
  | nil =>
    simp only [splitBits, Option.some.injEq, Prod.mk.injEq] at e
    rw [← e.1]
  | cons i l ih =>
    simp only [splitBits, Option.bind_eq_bind, Option.bind_eq_some_iff] at e
    obtain ⟨⟨s1, g⟩, h1, ⟨s2, gs⟩, h2, e⟩ := e
    simp only [Option.some.injEq, Prod.mk.injEq] at e
    obtain ⟨rfl, -⟩ := e
    exact (pre_addWired h1).trans (ih h2)

theorem pre_identities (l : List Nat) {s s' : Base (Gate w)} {outs : List Nat}
    (e : identities s l = some (s', outs)) : s.gates <+: s'.gates := by
  induction l generalizing s outs with
  | nil =>
    simp only [identities, Option.some.injEq, Prod.mk.injEq] at e
    rw [← e.1]
  | cons i l ih =>
    simp only [identities, Option.bind_eq_bind, Option.bind_eq_some_iff] at e
    obtain ⟨⟨s1, g⟩, h1, ⟨s2, gs⟩, h2, e⟩ := e
    simp only [Option.some.injEq, Prod.mk.injEq] at e
    obtain ⟨rfl, -⟩ := e
    exact (pre_addWired h1).trans (ih h2)

theorem pre_a2b {s s' : Base (Gate w)} {a : Nat} {outs : List Nat}
    (e : a2b s a = some (s', outs)) : s.gates <+: s'.gates := by
  simp only [a2b, Option.bind_eq_bind, Option.bind_eq_some_iff] at e
  obtain ⟨⟨s1, g1⟩, h1, ⟨s2, g2⟩, h2, ⟨s3, g3⟩, h3, ⟨s4, g4⟩, h4, ⟨s5, g5⟩, h5, ⟨s6, g6⟩, h6, e⟩ := e
  have k6 := (((pre_addWired h1).trans ((pre_addWired h2).trans ((pre_addWired h3).trans (pre_addWired h4)))).trans
    (pre_splitBits _ h5)).trans (pre_splitBits _ h6)
  simp only [depthOptimizedAdd] at e
  split at e
  · simp only [Option.bind_eq_bind, Option.bind_eq_some_iff] at e
    obtain ⟨c, hc, e⟩ := e
    exact k6.trans (pre_addSub e)
  · cases e

/-! ### Lemmas: calls -/

theorem oneToOne_congr (tc : Nat) {s s' : Nat → Nat} : ∀ (ids : List Nat) (ins : List Node), (∀ t ∈ ids, s t = s' t) →
    oneToOne tc s ids ins = oneToOne tc s' ids ins
  | [], _, _ => rfl
  | t :: ts, ins, h => by
    simp only [oneToOne, h t (by simp), oneToOne_congr tc ts _ fun x hx => h x (by simp [hx])]

theorem connect_congr (x : CrossConns) {ins : List Node} {c : Nat} {ids : List Nat} {s s' : Nat → Nat} {d : Bool}
    (h : ∀ t ∈ ids, s t = s' t) : x.connect ⟨ins, c, ids, s, d⟩ = x.connect ⟨ins, c, ids, s', d⟩ := by
  simp only [CrossConns.connect, oneToOne_congr c ids ins h]

theorem connectAll_append (cs cs' : List Conn) (x : CrossConns) :
    CrossConns.connectAll (cs ++ cs') x = CrossConns.connectAll cs x >>= CrossConns.connectAll cs' := by
  induction cs generalizing x with
  | nil => rfl
  | cons c cs ih =>
    simp only [List.cons_append, CrossConns.connectAll, Option.bind_eq_bind, Option.bind_assoc]
    cases x.connect c with
    | none => rfl
    | some y => exact ih y

/-- A node that is no call. -/
theorem node_other {st st' : FConv w} {bc bc' : Base (Gate w)} {n : FNode} {ins : List Nat} {id : Nat} (hop : n.op ≠ .call)
    (e : addNode .call true st bc n ins = some (st', bc', id)) : st' = st ∧ bc.gates <+: bc'.gates := by
  unfold addNode at e
  split at e
  · simp only [Option.bind_eq_bind, Option.bind_eq_some_iff, Option.some.injEq, Prod.mk.injEq] at e
    obtain ⟨g, -, ⟨bc1, i⟩, e1, rfl, rfl, -⟩ := e
    exact ⟨rfl, pre_addWired e1⟩
  · split at e
    · split at e
      · simp only [Option.bind_eq_bind, Option.bind_eq_some_iff, Option.some.injEq, Prod.mk.injEq] at e
        obtain ⟨⟨b1, s1⟩, h1, ⟨b2, s2⟩, h2, i, -, rfl, rfl, -⟩ := e
        exact ⟨rfl, (pre_a2b h1).trans (pre_identities _ h2)⟩
      · cases e
    · rename_i h; exact absurd h hop
    · cases e

/-- A call. -/
theorem node_call {st st' : FConv w} {bc bc' : Base (Gate w)} {n : FNode} {ins : List Nat} {id : Nat} (hop : n.op = .call)
    (e : addNode .call true st bc n ins = some (st', bc', id)) :
    ∃ name c, n.callee = some name ∧ st.scMap.lookup name = some c ∧ c.scOutputGates.length = 1 ∧ id = bc.gates.length ∧
      bc' = (bc.addGate (.base .subCircuitInput)).1 ∧ st'.scMap = st.scMap ∧ st'.circs = st.circs ++ [c] ∧
      CrossConns.connectAll (callConns st.circs.length [⟨n, c, ins, id⟩]) st.conns = some st'.conns := by
  unfold addNode at e
  rw [hop] at e
  simp only [PrimOp.oneToOne, Bool.false_eq_true, if_false, if_true, Option.bind_eq_bind, Option.bind_eq_some_iff] at e
  obtain ⟨name, h1, c, h2, st1, h3, x, h4, e⟩ := e
  simp only [connectSub, Option.bind_eq_bind, Option.bind_eq_some_iff, Option.some.injEq] at h3
  obtain ⟨y, h3, rfl⟩ := h3
  have hl : c.scOutputGates.length = 1 := by
    match c.scOutputGates, e with
    | [], e => simp [addScInputs] at e
    | [_], _ => rfl
    | a :: b :: l, e => simp [addScInputs] at e
  rw [hl] at h4 e
  simp only [addScInputs, Option.some.injEq, Prod.mk.injEq] at h4 e
  obtain ⟨rfl, rfl, rfl⟩ := e
  have hg := addGate_gates bc (.base .subCircuitInput)
  refine ⟨name, c, h1, h2, hl, hg.2.2.1, rfl, rfl, rfl, ?_⟩
  simp only [callConns, CrossConns.connectAll, Option.bind_eq_bind, h3, Option.bind_some]
  rw [connect_congr (s' := fun t => (((bc.addGate (.base .subCircuitInput)).1.gates[t]?).map Gate.inputSize).getD 0), h4]
  · rfl
  · intro t ht
    rw [List.mem_singleton] at ht
    subst ht
    rw [hg.1, hg.2.2.1]
    simp [Gate.inputSize]

theorem nodes_calls (ns : List FNode) {st st' : FConv w} {bc bc' : Base (Gate w)} {keys : List (Nat × Nat)}
    (hnew : ∀ n ∈ ns, keys.lookup n.id = none) (hnd : (ns.map FNode.id).Nodup)
    (e : addNodes .call true ns st bc keys = some (st', bc')) :
    bc.gates <+: bc'.gates ∧ ∃ (recs : List (CallRec w)) (K : Nat → Option Nat),
      (∀ i g, keys.lookup i = some g → K i = some g) ∧
      recs.map CallRec.node = ns.filter (fun n => n.op = .call) ∧
      st'.circs = st.circs ++ recs.map CallRec.circ ∧
      CrossConns.connectAll (callConns st.circs.length recs) st.conns = some st'.conns ∧
      ∀ r ∈ recs, (r.node.inputs.getD []).mapM K = some r.ops ∧ K r.node.id = some r.gate ∧
        bc'.gates[r.gate]? = some (.base .subCircuitInput) ∧ r.circ.scOutputGates.length = 1 ∧
        ∃ name, r.node.callee = some name ∧ st.scMap.lookup name = some r.circ := by
  induction ns generalizing st bc keys with
  | nil =>
    simp only [addNodes, Option.some.injEq, Prod.mk.injEq] at e
    obtain ⟨rfl, rfl⟩ := e
    exact ⟨List.prefix_rfl, [], fun i => keys.lookup i, fun _ _ h => h, rfl, by simp, rfl, by simp⟩
  | cons n ns ih =>
    simp only [addNodes, Option.bind_eq_bind, Option.bind_eq_some_iff] at e
    obtain ⟨ins, hins, ⟨st1, bc1, id⟩, h1, e⟩ := e
    have hn0 := hnew n (by simp)
    simp only [hn0, Option.isSome_none, Bool.false_eq_true, if_false] at e
    simp only [List.map_cons, List.nodup_cons] at hnd
    have hnew' : ∀ x ∈ ns, ((n.id, id) :: keys).lookup x.id = none := by
      intro x hx
      have hne : x.id ≠ n.id := fun h => hnd.1 (h ▸ List.mem_map_of_mem hx)
      rw [List.lookup_cons]
      simp only [beq_eq_false_iff_ne.2 hne]
      exact hnew x (by simp [hx])
    obtain ⟨hpre, recs, K, hK, hr1, hr2, hr3, hr4⟩ := ih hnew' hnd.2 e
    have hself : K n.id = some id := hK _ _ (by simp)
    have hK' : ∀ i g, keys.lookup i = some g → K i = some g := by
      intro i g h
      refine hK i g ?_
      by_cases hi : i = n.id
      · rw [hi, hn0] at h; cases h
      · rw [List.lookup_cons]
        simp only [beq_eq_false_iff_ne.2 hi]
        exact h
    by_cases hop : n.op = .call
    · obtain ⟨name, c, c1, c2, c3, rfl, rfl, c6, c7, c8⟩ := node_call hop h1
      have hg := addGate_gates bc (.base .subCircuitInput : Gate w)
      refine ⟨(pre_addGate bc _).trans hpre, ⟨n, c, ins, bc.gates.length⟩ :: recs, K, hK', ?_, ?_, ?_, ?_⟩
      · simp [hop, hr1]
      · rw [hr2, c7]; simp
      · have h : callConns st.circs.length (⟨n, c, ins, bc.gates.length⟩ :: recs) =
            callConns st.circs.length [⟨n, c, ins, bc.gates.length⟩] ++ callConns (st.circs.length + 1) recs := rfl
        rw [h, connectAll_append, c8]
        rw [c7] at hr3
        simpa using hr3
      · intro r hr
        rcases List.mem_cons.1 hr with rfl | hr
        · refine ⟨?_, hself, ?_, c3, name, c1, c2⟩
          · have hmono : ∀ (l : List Nat) (gs : List Nat), l.mapM (fun i => keys.lookup i) = some gs → l.mapM K = some gs := by
              intro l
              induction l with
              | nil => intro gs h; simpa using h
              | cons i l ihl =>
                intro gs h
                simp only [List.mapM_cons, Option.bind_eq_bind, Option.bind_eq_some_iff, Option.pure_def] at h ⊢
                obtain ⟨g, h1, gs', h2, h3⟩ := h
                exact ⟨g, hK' _ _ h1, gs', ihl _ h2, h3⟩
            exact hmono _ _ hins
          · have : (bc.addGate (.base .subCircuitInput : Gate w)).1.gates[bc.gates.length]? = some (.base .subCircuitInput) := by
              rw [hg.1]; simp
            rw [Exec.prefix_get hpre (List.getElem?_eq_some_iff.1 this).1]
            exact this
        · obtain ⟨a1, a2, a3, a4, a5⟩ := hr4 r hr
          rw [c6] at a5
          exact ⟨a1, a2, a3, a4, a5⟩
    · obtain ⟨rfl, hp⟩ := node_other hop h1
      exact ⟨hp.trans hpre, recs, K, hK', by simp [hop, hr1], hr2, hr3, hr4⟩

theorem subs_converted (ep : String) (cs all : List (Option FCircuit)) (hall : ∀ c ∈ cs, c ∈ all) {st st' : FConv w}
    (h0 : ∀ p ∈ st.scMap, Converted all ep p.1 p.2)
    (e : addSubs .call ep cs st = some (.ok st')) :
    st'.circs = st.circs ∧ st'.conns = st.conns ∧ ∀ p ∈ st'.scMap, Converted all ep p.1 p.2 := by
  induction cs generalizing st with
  | nil =>
    simp only [addSubs, Option.some.injEq, Except.ok.injEq] at e
    subst e
    exact ⟨rfl, rfl, h0⟩
  | cons c cs ih =>
    cases c with
    | none => simp [addSubs] at e
    | some c =>
      simp only [addSubs] at e
      split at e
      · exact ih (fun x hx => hall x (by simp [hx])) h0 e
      · rename_i hne
        simp only [addCircuit, Option.bind_eq_bind, Option.bind_eq_some_iff, Bool.false_eq_true, if_false, Option.some.injEq] at e
        obtain ⟨st1, ⟨ns, hns, ⟨st2, bc⟩, e1, rfl⟩, e⟩ := e
        obtain rfl := sub_states ns e1
        refine ih (st := { st2 with scMap := (c.name, bc) :: st2.scMap }) (fun x hx => hall x (by simp [hx])) ?_ e
        intro p hp
        rcases List.mem_cons.1 hp with rfl | hp
        · exact ⟨c, ns, _, hall _ (by simp), rfl, hne, hns, e1⟩
        · exact h0 p hp

theorem main_added (ep : String) (cs : List (Option FCircuit)) {st st' : FConv w} {fc : FCircuit}
    (hfc : ∃ a b, cs = a ++ some fc :: b ∧ ∀ c ∈ a, ∃ d : FCircuit, c = some d ∧ d.name ≠ ep) (hn : fc.name = ep)
    (e : addMain .call ep cs st = some (.ok st')) : addCircuit .call st fc true = some st' := by
  obtain ⟨a, b, rfl, ha⟩ := hfc
  induction a with
  | nil =>
    simp only [List.nil_append, addMain, if_pos hn, Option.map_eq_some_iff, Except.ok.injEq] at e
    obtain ⟨x, h, rfl⟩ := e
    exact h
  | cons c a ih =>
    obtain ⟨d, rfl, hd⟩ := ha c (by simp)
    simp only [List.cons_append, addMain, if_neg hd] at e
    exact ih (fun c hc => ha c (by simp [hc])) e

theorem callConns_wires (k : Nat) (recs : List (CallRec w)) : (callConns k recs).flatMap Conn.wires = callWires k recs := by
  induction recs generalizing k with
  | nil => rfl
  | cons r rs ih => simp [callConns, callWires, Conn.wires, ih]

/-! ### Theorems -/

/-- **C65**: what a module with connected calls is converted to.  `fc` is the first circuit with the name of the entry point and
its nodes have different ids.  There is one circuit for every call of the main circuit, in their order, which is the circuit
of the module of that name converted alone, with exactly one output.  The connections are those of `callConns`: from the
operands of the call, which are the gates (`K`) of its input nodes, to the inputs of the called circuit, and from its output
to the gate of the call, a sub-circuit input.  Missing: that an execution computes the value of the module; connections of
some calls are lost or panic (`call_loses_wire`, `call_twice_panics`). -/
theorem fuse_calls_connected_partial (m : FModule) (cs : List (Option FCircuit)) (hcs : m.circuits = some cs)
    (fc : FCircuit) (ns : List FNode) (hns : fc.nodes = some ns) (hn : fc.name = m.entryPoint.getD "main")
    (hfc : ∃ a b, cs = a ++ some fc :: b ∧ ∀ c ∈ a, ∃ d : FCircuit, c = some d ∧ d.name ≠ m.entryPoint.getD "main")
    (hid : (ns.map FNode.id).Nodup) (mc : Multi (Gate w)) (h : convertModule .call m = some (.ok mc)) :
    ∃ (main : Base (Gate w)) (recs : List (CallRec w)) (K : Nat → Option Nat) (x : CrossConns),
      mc = ⟨main :: recs.map CallRec.circ, x.outgoing, x.incoming⟩ ∧
      recs.map CallRec.node = ns.filter (fun n => n.op = .call) ∧
      CrossConns.connectAll (callConns 1 recs) {} = some x ∧
      ∀ r ∈ recs, (r.node.inputs.getD []).mapM K = some r.ops ∧ K r.node.id = some r.gate ∧
        main.gates[r.gate]? = some (.base .subCircuitInput) ∧ r.circ.scOutputGates.length = 1 ∧
        ∃ name, r.node.callee = some name ∧ Converted cs (m.entryPoint.getD "main") name r.circ := by
  simp only [convertModule, hcs] at h
  split at h
  · cases h
  · cases h
  · rename_i st1 h1
    split at h
    · cases h
    · cases h
    · rename_i st2 h2
      simp only [Option.some.injEq, Except.ok.injEq] at h
      obtain ⟨s1, s2, s3⟩ := subs_converted _ cs cs (fun _ h => h) (by simp) h1
      have hm := main_added _ cs hfc hn h2
      simp only [addCircuit, hns, Option.bind_eq_bind, Option.bind_some, Option.bind_eq_some_iff, if_true,
        Option.some.injEq] at hm
      obtain ⟨⟨st3, bc⟩, e, rfl⟩ := hm
      obtain ⟨-, recs, K, -, r1, r2, r3, r4⟩ := nodes_calls ns (by simp) hid e
      rw [s1] at r2
      rw [s1, s2] at r3
      refine ⟨bc, recs, K, st3.conns, ?_, r1, r3, ?_⟩
      · rw [← h, FConv.intoCircuit]
        simp only [r2]
        rfl
      · intro r hr
        obtain ⟨a1, a2, a3, a4, name, a5, a6⟩ := r4 r hr
        exact ⟨a1, a2, a3, a4, name, a5, s3 _ (lookup_mem a6)⟩

/-- **C65**: if moreover no range of operands lies strictly inside another one and no operand is repeated in a way the builder
does not support (the conditions of C51), the wires between the circuits are exactly those of the calls. -/
theorem fuse_calls_wires_partial (recs : List (CallRec w)) (x : CrossConns)
    (hx : CrossConns.connectAll (callConns 1 recs) {} = some x) (ok : ∀ c ∈ callConns 1 recs, c.Ok)
    (hsrc : (sourceRanges (callConns 1 recs)).Pairwise fun a b => ¬ Nested a b)
    (hdst : ((callWires 1 recs).map (·.2)).Nodup) (main : Base (Gate w)) :
    (∀ u, ((⟨main :: recs.map CallRec.circ, x.outgoing, x.incoming⟩ : Multi (Gate w)).outgoing u).Perm
      (((callWires 1 recs).filter fun c => c.1 = u).map (·.2))) ∧
    ∀ v, ((⟨main :: recs.map CallRec.circ, x.outgoing, x.incoming⟩ : Multi (Gate w)).incoming v).Perm
      (((callWires 1 recs).filter fun c => c.2 = v).map (·.1)) := by
  obtain ⟨y, h1, h2, h3⟩ := connect_calls_partial (callConns 1 recs) ok hsrc (by rw [callConns_wires]; exact hdst)
  rw [hx] at h1
  cases h1
  rw [callConns_wires] at h2 h3
  exact ⟨h2, h3⟩

/-! ### Cases and findings -/

/-- A sub-circuit with two inputs. -/
def andSub : FCircuit := ⟨"and", some [
  { id := 0, op := .input }, { id := 1, op := .input }, { id := 2, op := .and, inputs := some [0, 1] },
  { id := 3, op := .output, inputs := some [2] }]⟩

/-- Two calls, the second with the result of the first. -/
def twoCalls : FModule where
  circuits := some [some andSub, some ⟨"main", some [
    { id := 0, op := .input }, { id := 1, op := .input }, { id := 2, op := .input },
    { id := 3, op := .call, inputs := some [0, 1], callee := some "and" },
    { id := 4, op := .call, inputs := some [2, 3], callee := some "and" },
    { id := 5, op := .output, inputs := some [4] }]⟩]

/-- It is converted, with the wires of the calls. -/
example : ∃ mc : Multi (Gate 32), convertModule .call twoCalls = some (.ok mc) ∧ mc.circs.length = 3 ∧
    mc.incoming (1, 0) = [(0, 0)] ∧ mc.incoming (1, 1) = [(0, 1)] ∧ mc.incoming (0, 3) = [(1, 3)] ∧
    mc.incoming (2, 0) = [(0, 2)] ∧ mc.incoming (2, 1) = [(0, 3)] ∧ mc.incoming (0, 4) = [(2, 3)] ∧
    mc.outgoing (0, 3) = [(2, 1)] :=
  ⟨_, rfl, rfl, rfl, rfl, rfl, rfl, rfl, rfl, rfl⟩

/-- The hypotheses of `fuse_calls_connected_partial` hold for it. -/
example (mc : Multi (Gate 32)) (h : convertModule .call twoCalls = some (.ok mc)) :
    ∃ (main : Base (Gate 32)) (recs : List (CallRec 32)) (K : Nat → Option Nat) (x : CrossConns),
    mc = ⟨main :: recs.map CallRec.circ, x.outgoing, x.incoming⟩ ∧ recs.length = 2 ∧
    ∀ r ∈ recs, K r.node.id = some r.gate := by
  obtain ⟨main, recs, K, x, h1, h2, -, h3⟩ := fuse_calls_connected_partial twoCalls _ rfl _ _ rfl rfl
    ⟨[some andSub], [], rfl, by
      intro c hc
      rw [List.mem_singleton] at hc
      exact ⟨andSub, hc, by decide⟩⟩ (by decide) mc h
  refine ⟨main, recs, K, x, h1, ?_, fun r hr => (h3 r hr).2.1⟩
  have := congrArg List.length h2
  rw [List.length_map] at this
  rw [this]
  rfl

/-- The hypotheses of `fuse_calls_wires_partial` hold for its calls. -/
example : ∃ recs : List (CallRec 32), recs.length = 2 ∧ (∀ c ∈ callConns 1 recs, c.Ok) ∧
    (sourceRanges (callConns 1 recs)).Pairwise (fun a b => ¬ Nested a b) ∧ ((callWires 1 recs).map (·.2)).Nodup := by
  let c : Base (Gate 32) := { gates := [.base .subCircuitInput, .base .subCircuitInput, .bool .and, .base .subCircuitOutput],
                              scInputGates := [0, 1], scOutputGates := [3] }
  refine ⟨[⟨{ id := 3, op := .call }, c, [0, 1], 3⟩, ⟨{ id := 4, op := .call }, c, [2, 3], 4⟩], rfl, ?_, ?_, ?_⟩
  · intro x hx
    simp only [callConns, List.mem_cons, List.not_mem_nil, or_false] at hx
    rcases hx with rfl | rfl | rfl | rfl
    · exact ⟨by simp [c, Gate.inputSize], by simp [c], fun _ => by simp [Conn.runs, runs]⟩
    · exact ⟨by simp, by simp [c], fun _ => by simp [c, Conn.runs, runs]⟩
    · exact ⟨by simp [c, Gate.inputSize], by simp [c], fun _ => by simp [Conn.runs, runs]⟩
    · exact ⟨by simp, by simp [c], fun _ => by simp [c, Conn.runs, runs]⟩
  · simp [c, callConns, sourceRanges, Conn.ranged, consecutive, Conn.runs, runs, Nested]
  · simp [c, callWires]

/-- A call with the same operand twice. -/
def squareModule : FModule where
  circuits := some [some andSub, some ⟨"main", some [
    { id := 0, op := .input }, { id := 1, op := .call, inputs := some [0, 0], callee := some "and" },
    { id := 2, op := .output, inputs := some [1] }]⟩]

/-- **C65** finding: a call with the same operand twice panics unless calls are inlined. -/
theorem call_twice_panics (x : Bool) : evalModule payloadValue squareModule [.bool x] = some [(.bool x : Val 32)] ∧
    (convertModule .call squareModule : Option (Except String (Multi (Gate 32)))) = none ∧
    ∃ mc : Multi (Gate 32), convertModule .inline squareModule = some (.ok mc) := by
  refine ⟨?_, rfl, _, rfl⟩
  cases x <;> rfl

/-- A call with two inner inputs, then one with all four. -/
def nestedOperands : FModule where
  circuits := some [some andSub,
    some ⟨"and4", some [
      { id := 0, op := .input }, { id := 1, op := .input }, { id := 2, op := .input }, { id := 3, op := .input },
      { id := 4, op := .and, inputs := some [0, 1] }, { id := 5, op := .and, inputs := some [2, 3] },
      { id := 6, op := .and, inputs := some [4, 5] }, { id := 7, op := .output, inputs := some [6] }]⟩,
    some ⟨"main", some [
      { id := 0, op := .input }, { id := 1, op := .input }, { id := 2, op := .input }, { id := 3, op := .input },
      { id := 4, op := .call, inputs := some [1, 2], callee := some "and" },
      { id := 5, op := .call, inputs := some [0, 1, 2, 3], callee := some "and4" },
      { id := 6, op := .output, inputs := some [4] }, { id := 7, op := .output, inputs := some [5] }]⟩]

/-- **C65** finding: the conversion succeeds, but the last input of the main circuit is not connected to the second called
circuit, whose last input waits for it. -/
theorem call_loses_wire : ∃ mc : Multi (Gate 32), convertModule .call nestedOperands = some (.ok mc) ∧
    mc.circs.length = 3 ∧ mc.outgoing (0, 3) = [] ∧ mc.incoming (2, 3) = [(0, 3)] :=
  ⟨_, rfl, rfl, rfl, rfl⟩

end Verif.Fuse
