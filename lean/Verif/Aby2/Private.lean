import Verif.Aby2.Witness
import Verif.Exec.Private

/-!
C81: what a party sees of an ABY2 execution is independent of the other party's inputs.
-/
set_option autoImplicit false

namespace Verif.Aby2

open Gmw (BaseGate)
open Circuit Exec Proc

/-! ### Specification -/

/-- Inputs, masks and setup data of two executors that belong together (the hypotheses of C37). -/
structure RunOk (m : Multi Gate) (c0 : Base Gate) (xs0 xs1 : List Share) (inp : List Bool)
    (setup0 setup1 : Nat → Nat → SetupData) (init0 init1 : Store Share (List Share)) (val : Node → Bool) : Prop where
  plain : PlainEval m inp val
  mask0 : ∀ v g, m.gate? v = some g → MaskEq m (maskOf init0) v g
  mask1 : ∀ v g, m.gate? v = some g → MaskEq m (maskOf init1) v g
  inputs : InputShares c0 (maskOf init0) (maskOf init1) xs0 xs1 inp
  setup : ∀ ls, layers m = some ls → ∀ k l, (interactiveLayers m ls)[k]? = some l → ∃ s0 s1,
      setup0 k (intCount m l) = s0.reverse ∧ setup1 k (intCount m l) = s1.reverse ∧
      Products m (fun v => maskOf init0 v ^^ maskOf init1 v) (intScalar m l) s0 s1

/-- What party 0 sees of two runs with the same seeds and calls of its own, where party 1 has the private seed and the
calls of the pair `a` or `b`, is the same: the deltas party 1 sends for its inputs, and the messages in the online phase.
The parties share their inputs, derive their masks and get their setup data as in `astra_execute_correct`.  -/
def SameView0 (m : Multi Gate) (owner : Nat → Option InputBy) (os : List InputBy) (map0 map1 : Nat → Option ShareType)
    (joint priv0 : Seed) (ops0 : List Op) (a b : Seed × List Op) : Prop :=
  let t0 := run (.new 0 priv0 joint map0) ops0
  let t1 := run (.new 1 a.1 joint map1) a.2
  let t1' := run (.new 1 b.1 joint map1) b.2
  t1'.sent = t1.sent ∧
  ∃ st0 st1 st1' msg msg', helperGateOutputs m 0 priv0 joint owner = some st0 ∧
    helperGateOutputs m 1 a.1 joint owner = some st1 ∧
    helperGateOutputs m 1 b.1 joint owner = some st1' ∧
    helperSetup m priv0 a.1 joint owner = some msg ∧
    helperSetup m priv0 b.1 joint owner = some msg' ∧
    ∀ setup0 setup1 setup1', Answers m (astraSetup0 m priv0) setup0 → Answers m (astraSetup1 msg) setup1 →
      Answers m (astraSetup1 msg') setup1' → ∃ tr,
      Exec.Trace (execute aby2 m 0 (.scalar (merge os t0.own t0.other)) setup0 st0)
        (execute aby2 m 1 (.scalar (merge os t1.other t1.own)) setup1 st1) tr ∧
      Exec.Trace (execute aby2 m 0 (.scalar (merge os t0.own t0.other)) setup0 st0)
        (execute aby2 m 1 (.scalar (merge os t1'.other t1'.own)) setup1' st1') tr

/-- What party 1 sees of two runs with the same seeds and calls of its own, where party 0 has the private seed and the
calls of the pair `a` or `b`, is the same: the deltas party 0 sends, the helper's message, and the messages in the
online phase. -/
def SameView1 (m : Multi Gate) (owner : Nat → Option InputBy) (os : List InputBy) (map0 map1 : Nat → Option ShareType)
    (joint priv1 : Seed) (ops1 : List Op) (a b : Seed × List Op) : Prop :=
  let t1 := run (.new 1 priv1 joint map1) ops1
  let t0 := run (.new 0 a.1 joint map0) a.2
  let t0' := run (.new 0 b.1 joint map0) b.2
  t0'.sent = t0.sent ∧
  ∃ st1 st0 st0' msg, helperGateOutputs m 1 priv1 joint owner = some st1 ∧
    helperGateOutputs m 0 a.1 joint owner = some st0 ∧
    helperGateOutputs m 0 b.1 joint owner = some st0' ∧
    helperSetup m a.1 priv1 joint owner = some msg ∧
    helperSetup m b.1 priv1 joint owner = some msg ∧
    ∀ setup1 setup0 setup0', Answers m (astraSetup1 msg) setup1 → Answers m (astraSetup0 m a.1) setup0 →
      Answers m (astraSetup0 m b.1) setup0' → ∃ tr,
      Exec.Trace (execute aby2 m 0 (.scalar (merge os t0.own t0.other)) setup0 st0)
        (execute aby2 m 1 (.scalar (merge os t1.other t1.own)) setup1 st1) tr ∧
      Exec.Trace (execute aby2 m 0 (.scalar (merge os t0'.own t0'.other)) setup0' st0')
        (execute aby2 m 1 (.scalar (merge os t1.other t1.own)) setup1 st1) tr

/-! ### Messages and public parts -/

theorem padBytes_inj {a b : List Bool} (hl : a.length = b.length) (h : padBytes a = padBytes b) : a = b :=
  (List.append_inj h hl).1

theorem zip_xor_cancel {a b b' : List Bool} (h1 : b.length = a.length) (h2 : b'.length = a.length)
    (h : List.zipWith xor a b = List.zipWith xor a b') : b = b' := by
  induction a generalizing b b' with
  | nil => cases b <;> cases b' <;> simp_all
  | cons x a ih =>
    match b, b', h1, h2 with
    | y :: b, z :: b', h1, h2 =>
      simp only [List.zipWith_cons_cons, List.cons.injEq] at h
      simp only [List.length_cons, Nat.add_right_cancel_iff] at h1 h2
      rw [ih h1 h2 h.2]
      have := h.1
      revert this
      cases x <;> cases y <;> cases z <;> simp

theorem opened_unique {m : Multi Gate} {d d' : Node → Bool} {l : MLayer} {a b b' : Msg × Option Unit}
    (hd : ∀ v ∈ intScalar m l, d v = d' v) (h : Opened m d l a b) (h' : Opened m d' l a b') : b = b' := by
  obtain ⟨x, y, e1, rfl, l1, l2, e3⟩ := h
  obtain ⟨x', y', f1, rfl, k1, k2, f3⟩ := h'
  rw [e1, Prod.mk.injEq] at f1
  obtain rfl := padBytes_inj (l1.trans k1.symm) f1.1
  rw [List.map_congr_left hd, ← f3] at e3
  rw [zip_xor_cancel (by omega) (by omega) e3]

theorem opened_delta {m : Multi Gate} {d d' : Node → Bool} {l : MLayer} {a b : Msg × Option Unit}
    (h : Opened m d l a b) (h' : Opened m d' l a b) : ∀ v ∈ intScalar m l, d v = d' v := by
  obtain ⟨x, y, e1, e2, l1, l2, e3⟩ := h
  obtain ⟨x', y', f1, f2, k1, k2, f3⟩ := h'
  rw [e1, Prod.mk.injEq] at f1
  rw [e2, Prod.mk.injEq] at f2
  obtain rfl := padBytes_inj (l1.trans k1.symm) f1.1
  obtain rfl := padBytes_inj (l2.trans k2.symm) f2.1
  rw [e3] at f3
  intro v hv
  exact List.map_inj_left.1 f3 v hv

theorem opened_swap {m : Multi Gate} {d : Node → Bool} {l : MLayer} {a b : Msg × Option Unit}
    (h : Opened m d l a b) : Opened m d l b a := by
  obtain ⟨x, y, e1, e2, l1, l2, e3⟩ := h
  refine ⟨y, x, e2, e1, l2, l1, ?_⟩
  rw [← e3, List.zipWith_comm]
  congr
  funext p q
  exact Bool.xor_comm _ _

abbrev EProc := Proc (Msg × Option Unit) (Input Share (List Share))

theorem trace_opened {m : Multi Gate} {d d' : Node → Bool} {ls : List MLayer}
    (hd : ∀ l ∈ ls, ∀ v ∈ intScalar m l, d v = d' v) {p0 p1 p1' : EProc}
    {tr tr' : List ((Msg × Option Unit) × (Msg × Option Unit))} (h : Exec.Trace p0 p1 tr) (h' : Exec.Trace p0 p1' tr')
    (q : List.Forall₂ (fun l x => Opened m d l x.1 x.2) ls tr)
    (q' : List.Forall₂ (fun l x => Opened m d' l x.1 x.2) ls tr') : tr = tr' := by
  induction h generalizing p1' tr' ls with
  | done => cases h'; rfl
  | round h ih =>
    cases h' with
    | round h' =>
      cases q with
      | cons q1 q2 =>
        cases q' with
        | cons q1' q2' =>
          have := opened_unique (hd _ List.mem_cons_self) q1 q1'
          dsimp only at this
          subst this
          rw [ih (fun l hl => hd l (List.mem_cons_of_mem _ hl)) h' q2 q2']

theorem trace_delta {m : Multi Gate} {d d' : Node → Bool} {ls : List MLayer}
    {tr : List ((Msg × Option Unit) × (Msg × Option Unit))}
    (q : List.Forall₂ (fun l x => Opened m d l x.1 x.2) ls tr)
    (q' : List.Forall₂ (fun l x => Opened m d' l x.1 x.2) ls tr) : ∀ l ∈ ls, ∀ v ∈ intScalar m l, d v = d' v := by
  induction q with
  | nil => simp
  | cons q1 q2 ih =>
    cases q' with
    | cons q1' q2' =>
      intro l hl
      rcases List.mem_cons.1 hl with rfl | hl
      · exact opened_delta q1 q1'
      · exact ih q2' l hl

theorem opened_flip {m : Multi Gate} {d : Node → Bool} {ls : List MLayer}
    {tr : List ((Msg × Option Unit) × (Msg × Option Unit))}
    (q : List.Forall₂ (fun l x => Opened m d l x.1 x.2) ls tr) :
    List.Forall₂ (fun l x => Opened m d l x.1 x.2) ls (tr.map Prod.swap) := by
  induction q with
  | nil => exact .nil
  | cons q1 q2 ih => exact .cons (opened_swap q1) ih

/-- All AND gates are in the interactive layers. -/
theorem and_in_layers {m : Multi Gate} (hns : ∀ i, isSimd m i = false) {ls : List MLayer} (ok : LayersOk m ls)
    (v : Node) : (∃ l ∈ interactiveLayers m ls, v ∈ intScalar m l) ↔ ∃ n, m.gate? v = some (.and n) := by
  rw [← List.mem_flatMap, interactiveLayers_flatMap m hns, List.mem_flatMap]
  constructor
  · rintro ⟨l, hl, hv⟩
    obtain ⟨g, hg, hi⟩ := ok.inter l hl v hv
    obtain ⟨n, rfl⟩ := interactive_and hi
    exact ⟨n, hg⟩
  · rintro ⟨n, hg⟩
    have hval : m.Valid v := by
      simp only [Multi.gate?, Option.bind_eq_bind, Option.bind_eq_some_iff] at hg
      obtain ⟨c, hc, hg⟩ := hg
      exact ⟨c, hc, (List.getElem?_eq_some_iff.1 hg).1⟩
    obtain ⟨l, hl, hv⟩ := List.mem_flatMap.1 ((ok.all v).2 hval)
    rw [layerNodes, List.mem_append] at hv
    rcases hv with hv | hv
    · obtain ⟨g, hg', hi⟩ := ok.local_ l hl v hv
      rw [hg] at hg'; cases hg'
      simp [GateLike.interactive] at hi
    · exact ⟨l, hl, hv⟩

section
variable {m : Multi Gate} {rank : Node → Nat} (w : WF m rank) (hw : ExecWF m)
  (hns : ∀ i, isSimd m i = false) (h2 : ∀ v n, m.gate? v = some (.and n) → n = 2)
  {c0 : Base Gate} (hc0 : m.circs[0]? = some c0)
include w hw hns h2 hc0

theorem run_trace {xs0 xs1 : List Share} {inp : List Bool} {setup0 setup1 : Nat → Nat → SetupData}
    {init0 init1 : Store Share (List Share)} {val : Node → Bool}
    (h : RunOk m c0 xs0 xs1 inp setup0 setup1 init0 init1 val) :
    ∃ ls tr, layers m = some ls ∧ LayersOk m ls ∧
      Exec.Trace (execute aby2 m 0 (.scalar xs0) setup0 init0) (execute aby2 m 1 (.scalar xs1) setup1 init1) tr ∧
      List.Forall₂ (fun l x => Opened m (fun v => val v ^^ maskOf init0 v ^^ maskOf init1 v) l x.1 x.2)
        (interactiveLayers m ls) tr := by
  obtain ⟨ls, o0, o1, e, ok, hx, -⟩ := aby2_exchange m rank w hw hns h2 c0 hc0 xs0 xs1 inp setup0 setup1 init0 init1 val
    h.plain h.mask0 h.mask1 h.inputs h.setup
  obtain ⟨tr, h1, h3⟩ := exchange_trace hx
  exact ⟨ls, tr, e, ok, h1, h3⟩

/-- **C81 (online phase, party 0).**  Two runs with the same inputs, masks and setup data of party 0: the messages of both
parties are the same exactly if party 1's masks of the AND gates differ where the values of the gates do. -/
theorem aby2_same_view {xs0 xs1 xs1' : List Share} {inp inp' : List Bool} {setup0 setup1 setup1' : Nat → Nat → SetupData}
    {init0 init1 init1' : Store Share (List Share)} {val val' : Node → Bool}
    (h : RunOk m c0 xs0 xs1 inp setup0 setup1 init0 init1 val)
    (h' : RunOk m c0 xs0 xs1' inp' setup0 setup1' init0 init1' val') :
    (∃ tr, Exec.Trace (execute aby2 m 0 (.scalar xs0) setup0 init0) (execute aby2 m 1 (.scalar xs1) setup1 init1) tr ∧
      Exec.Trace (execute aby2 m 0 (.scalar xs0) setup0 init0) (execute aby2 m 1 (.scalar xs1') setup1' init1') tr) ↔
    ∀ v n, m.gate? v = some (.and n) → (maskOf init1' v ^^ maskOf init1 v) = (val' v ^^ val v) := by
  obtain ⟨ls, tr, e, ok, t1, t2⟩ := run_trace w hw hns h2 hc0 h
  obtain ⟨ls', tr', e', -, t1', t2'⟩ := run_trace w hw hns h2 hc0 h'
  rw [e] at e'; cases e'
  constructor
  · rintro ⟨tr2, g1, g2⟩
    rw [t1.unique g1] at t2
    rw [t1'.unique g2] at t2'
    have := trace_delta t2 t2'
    intro v n hv
    obtain ⟨l, hl, hvl⟩ := (and_in_layers hns ok v).2 ⟨n, hv⟩
    have := this l hl v hvl
    revert this
    cases val v <;> cases val' v <;> cases maskOf init0 v <;> cases maskOf init1 v <;> cases maskOf init1' v <;> simp
  · intro hd
    refine ⟨tr, t1, ?_⟩
    have := trace_opened (d := fun v => val v ^^ maskOf init0 v ^^ maskOf init1 v)
      (d' := fun v => val' v ^^ maskOf init0 v ^^ maskOf init1' v) (by
        intro l hl v hv
        obtain ⟨n, hn⟩ := (and_in_layers hns ok v).1 ⟨l, hl, hv⟩
        have := hd v n hn
        revert this
        cases val v <;> cases val' v <;> cases maskOf init0 v <;> cases maskOf init1 v <;> cases maskOf init1' v <;> simp)
      t1 t1' t2 t2'
    rw [this]; exact t1'

/-- **C81 (online phase, party 1).** -/
theorem aby2_same_view_other {xs0 xs0' xs1 : List Share} {inp inp' : List Bool}
    {setup0 setup0' setup1 : Nat → Nat → SetupData}
    {init0 init0' init1 : Store Share (List Share)} {val val' : Node → Bool}
    (h : RunOk m c0 xs0 xs1 inp setup0 setup1 init0 init1 val)
    (h' : RunOk m c0 xs0' xs1 inp' setup0' setup1 init0' init1 val') :
    (∃ tr, Exec.Trace (execute aby2 m 0 (.scalar xs0) setup0 init0) (execute aby2 m 1 (.scalar xs1) setup1 init1) tr ∧
      Exec.Trace (execute aby2 m 0 (.scalar xs0') setup0' init0') (execute aby2 m 1 (.scalar xs1) setup1 init1) tr) ↔
    ∀ v n, m.gate? v = some (.and n) → (maskOf init0' v ^^ maskOf init0 v) = (val' v ^^ val v) := by
  obtain ⟨ls, tr, e, ok, t1, t2⟩ := run_trace w hw hns h2 hc0 h
  obtain ⟨ls', tr', e', -, t1', t2'⟩ := run_trace w hw hns h2 hc0 h'
  rw [e] at e'; cases e'
  constructor
  · rintro ⟨tr2, g1, g2⟩
    rw [t1.unique g1] at t2
    rw [t1'.unique g2] at t2'
    have := trace_delta t2 t2'
    intro v n hv
    obtain ⟨l, hl, hvl⟩ := (and_in_layers hns ok v).2 ⟨n, hv⟩
    have := this l hl v hvl
    revert this
    cases val v <;> cases val' v <;> cases maskOf init0 v <;> cases maskOf init1 v <;> cases maskOf init0' v <;> simp
  · intro hd
    refine ⟨tr, t1, ?_⟩
    have := trace_opened (d := fun v => val v ^^ maskOf init0 v ^^ maskOf init1 v)
      (d' := fun v => val' v ^^ maskOf init0' v ^^ maskOf init1 v) (by
        intro l hl v hv
        obtain ⟨n, hn⟩ := (and_in_layers hns ok v).1 ⟨l, hl, hv⟩
        have := hd v n hn
        revert this
        cases val v <;> cases val' v <;> cases maskOf init0 v <;> cases maskOf init1 v <;> cases maskOf init0' v <;> simp)
      t1.swap t1'.swap (opened_flip t2) (opened_flip t2')
    have e := congrArg (List.map Prod.swap) this
    simp only [List.map_map, Prod.swap_swap_eq, List.map_id] at e
    rw [e]; exact t1'

end

/-! ### Masks and seeds -/

/-- The gates for which party `p` draws a mask from its private generator, in the order of the draws. -/
def privNodes (m : Multi Gate) (owner : Nat → Option InputBy) (p : Nat) (ls : List MLayer) : List Node :=
  (iterNodes ls).filter fun v => isDraw m v && !decide (owner v.2 = some (otherOwner p))

theorem isRemote_new (p : Nat) (hp : p < 2) (priv joint : Seed) (owner : Nat → Option InputBy) (v : Node) :
    isRemote (.new p priv joint fun i => (owner i).map (shareType p)) v =
      decide (owner v.2 = some (otherOwner p)) := by
  have : p = 0 ∨ p = 1 := by omega
  have ho : owner v.2 = none ∨ owner v.2 = some .p0 ∨ owner v.2 = some .p1 := by
    match owner v.2 with
    | none => simp
    | some .p0 => simp
    | some .p1 => simp
  rcases this with rfl | rfl <;> rcases ho with ho | ho | ho <;>
    simp [isRemote, DeltaSharing.new, otherOwner, ho, shareType]

/-- The mask of a gate in `privNodes` is the bit of the private generator at its position. -/
theorem mask_priv {m : Multi Gate} {owner : Nat → Option InputBy} {p : Nat} (hp : p < 2) {priv joint : Seed}
    {ls : List MLayer} {lam : Node → Bool} (hnd : (iterNodes ls).Nodup)
    (hd : ∀ a v b, iterNodes ls = a ++ v :: b → isDraw m v = true →
      lam v = drawn m (.new p priv joint fun i => (owner i).map (shareType p)) a v)
    {k : Nat} {v : Node} (hk : (privNodes m owner p ls)[k]? = some v) : lam v = priv 0 k := by
  have hv : v ∈ privNodes m owner p ls := List.mem_of_getElem? hk
  rw [privNodes, List.mem_filter, Bool.and_eq_true, Bool.not_eq_true'] at hv
  obtain ⟨hv, hdr, hno⟩ := hv
  obtain ⟨a, b, hab⟩ := List.append_of_mem hv
  rw [hd a v b hab hdr, drawn, isRemote_new p hp, hno]
  have e : a.countP (fun u => isDraw m u &&
      !isRemote (.new p priv joint fun i => (owner i).map (shareType p)) u) =
      (a.filter fun u => isDraw m u && !decide (owner u.2 = some (otherOwner p))).length := by
    rw [List.countP_eq_length_filter]
    congr 1
    apply List.filter_congr
    intro u _
    rw [isRemote_new p hp]
  simp only [Bool.false_eq_true, if_false]
  rw [e]
  simp only [DeltaSharing.new, Nat.zero_add]
  congr 1
  have hnd' : (privNodes m owner p ls).Nodup := hnd.filter _
  have hk' : (privNodes m owner p ls)[(a.filter fun u =>
      isDraw m u && !decide (owner u.2 = some (otherOwner p))).length]? = some v := by
    rw [privNodes, hab, List.filter_append, List.filter_cons]
    simp [hdr, hno]
  obtain ⟨h1, e1⟩ := List.getElem?_eq_some_iff.1 hk
  obtain ⟨h2, e2⟩ := List.getElem?_eq_some_iff.1 hk'
  exact (hnd'.getElem_inj_iff).1 (e2.trans e1.symm)

theorem run_indep (s s' : DeltaSharing) (ops : List Op) :
    (run s ops).bits = (run s' ops).bits ∧ (run s ops).received = (run s' ops).received := by
  induction ops generalizing s s' with
  | nil => exact ⟨rfl, rfl⟩
  | cons op ops ih =>
    cases op with
    | share bits =>
      simp only [run]
      exact ⟨by rw [(ih _ _).1], (ih _ _).2⟩
    | receive ds =>
      simp only [run]
      exact ⟨(ih _ _).1, by rw [(ih _ _).2]⟩

/-- Some function answers the requests. -/
theorem answers_exist {m : Multi Gate} (hns : ∀ i, isSimd m i = false) {ls : List MLayer}
    (hls : layers m = some ls) (ok : LayersOk m ls) {lam : Node → Bool} {s0 s1 : List (List Bool)}
    (hp : Products m lam (interactiveNodes m ls) s0 s1) :
    (∃ setup0, Answers m (SetupData.fromRaw s0) setup0) ∧ ∃ setup1, Answers m (SetupData.fromRaw s1) setup1 := by
  rw [interactiveNodes_eq m ls ok.local_ ok.inter, ← interactiveLayers_flatMap m hns,
    List.flatMap_def] at hp
  obtain ⟨p0, p1, rfl, rfl, l0, l1, hch⟩ := products_chunks _ _ _ hp
  have hc : (interactiveLayers m ls).map (intCount m) =
      ((interactiveLayers m ls).map (intScalar m)).map (·.length) := by
    rw [List.map_map]
    exact List.map_congr_left fun l _ => intCount_scalar m hns l
  constructor
  · refine ⟨fun k _ => ((p0[k]?).getD []).reverse, ?_⟩
    intro ls' hls' k l hk
    rw [hls] at hls'; cases hls'
    obtain ⟨x0, x1, e0, e1, hx⟩ := hch k (intScalar m l) (by rw [List.getElem?_map, hk]; rfl)
    rw [hc, ← l0, requests_chunks, List.getElem?_map, e0]
    simp [e0]
  · refine ⟨fun k _ => ((p1[k]?).getD []).reverse, ?_⟩
    intro ls' hls' k l hk
    rw [hls] at hls'; cases hls'
    obtain ⟨x0, x1, e0, e1, hx⟩ := hch k (intScalar m l) (by rw [List.getElem?_map, hk]; rfl)
    rw [hc, ← l1, requests_chunks, List.getElem?_map, e1]
    simp [e1]

theorem own_pub (priv joint : Nat → Bool) (p q : Nat) (bits : List Bool) (i : Nat) :
    ((ownShares priv joint p q bits).map (·.pub))[i]? =
      (bits[i]?).map fun b => b ^^ priv (p + i) ^^ joint (q + i) := by
  induction bits generalizing p q i with
  | nil => rfl
  | cons b bs ih =>
    cases i with
    | zero => simp [ownShares]
    | succ i =>
      simp only [ownShares, List.map_cons, List.getElem?_cons_succ, ih]
      rw [show p + 1 + i = p + (i + 1) by omega, show q + 1 + i = q + (i + 1) by omega]

section
variable {m : Multi Gate} {rank : Node → Nat} (w : WF m rank) (hw : ExecWF m)
  (hns : ∀ i, isSimd m i = false) (h2 : ∀ v n, m.gate? v = some (.and n) → n = 2)
  (hb : ∀ c ∈ m.circs, BookOk c) {c0 : Base Gate} (hc0 : m.circs[0]? = some c0)
  {owner : Nat → Option InputBy} {os : List InputBy} (ho : c0.inputGates.map owner = os.map some)
  {map0 map1 : Nat → Option ShareType}
include hb hc0 ho

include w hns h2 in
/-- The runs of `astra_execute_correct` are runs as above. -/
theorem astra_run (priv0 priv1 joint : Seed) {ops0 ops1 : List Op}
    (h01 : (run (.new 1 priv1 joint map1) ops1).received = (run (.new 0 priv0 joint map0) ops0).sent)
    (h10 : (run (.new 0 priv0 joint map0) ops0).received = (run (.new 1 priv1 joint map1) ops1).sent)
    (hl0 : os.count .p0 = (run (.new 0 priv0 joint map0) ops0).bits.length)
    (hl1 : os.count .p1 = (run (.new 1 priv1 joint map1) ops1).bits.length) {val : Node → Bool}
    (hp : PlainEval m (merge os (run (.new 0 priv0 joint map0) ops0).bits
      (run (.new 1 priv1 joint map1) ops1).bits) val) :
    let t0 := run (.new 0 priv0 joint map0) ops0
    let t1 := run (.new 1 priv1 joint map1) ops1
    ∃ ls st0 st1 msg rest, layers m = some ls ∧ LayersOk m ls ∧
      helperGateOutputs m 0 priv0 joint owner = some st0 ∧
      helperGateOutputs m 1 priv1 joint owner = some st1 ∧
      helperSetup m priv0 priv1 joint owner = some msg ∧
      Products m (fun v => maskOf st0 v ^^ maskOf st1 v) (interactiveNodes m ls)
        (astraSetup0 m priv0).reverse (astraSetup1 msg).reverse ∧
      iterNodes ls = (c0.constantGates ++ c0.inputGates).map (fun g => (0, g)) ++ rest ∧
      (∀ a v b, iterNodes ls = a ++ v :: b → isDraw m v = true →
        maskOf st0 v = drawn m (.new 0 priv0 joint fun i => (owner i).map (shareType 0)) a v ∧
        maskOf st1 v = drawn m (.new 1 priv1 joint fun i => (owner i).map (shareType 1)) a v) ∧
      ∀ setup0 setup1, Answers m (astraSetup0 m priv0) setup0 → Answers m (astraSetup1 msg) setup1 →
        RunOk m c0 (merge os t0.own t0.other) (merge os t1.other t1.own) (merge os t0.bits t1.bits) setup0 setup1
          st0 st1 val := by
  intro t0 t1
  have har : ∀ v g, m.gate? v = some g → Arity m v g := fun v g hg => arity_of_gateEq (hp v g hg)
  have hb0 : BookOk c0 := hb c0 (List.mem_of_getElem? hc0)
  obtain ⟨ls, st0, st1, msg, e1, ok, g0, g1, hh, hlen, hprod, hmask, hdraw⟩ :=
    helper_data m rank w hns har h2 (fun c hc => (hb c hc).interactives) priv0 priv1 joint owner
  obtain ⟨hgi, hgc⟩ := book_gates hb0
  obtain ⟨rest, hrest⟩ : ∃ rest, iterNodes ls =
      (c0.constantGates ++ c0.inputGates).map (fun g => (0, g)) ++ rest := by
    have e1' := e1
    simp only [layers, Option.bind_eq_bind, Option.bind_eq_some_iff] at e1'
    obtain ⟨it, h1, h3⟩ := e1'
    refine iter_prefix m c0 hc0 _ it ls h1 h3 ?_
    intro v hv
    rcases List.mem_append.1 hv with hv | hv
    · obtain ⟨b, hb⟩ := hgc v hv; exact ⟨_, hb, rfl⟩
    · exact ⟨_, hgi v hv, rfl⟩
  have hdraw' := hdraw
  rw [hrest] at hdraw'
  obtain ⟨m0, m1⟩ := inputs_masks hc0 hb0 priv0 priv1 joint owner (maskOf st0) (maskOf st1) rest
    hdraw' os ho
  obtain ⟨a1, a2, a3⟩ := run_spec (.new 0 priv0 joint map0) ops0
  obtain ⟨b1, b2, b3⟩ := run_spec (.new 1 priv1 joint map1) ops1
  have c1' : t1.other = otherShares (joint 0) 0 (t0.own.map (·.pub)) := by
    rw [← a2, ← h01]; exact b3
  have c0' : t0.other = otherShares (joint 1) 0 (t1.own.map (·.pub)) := by
    rw [← b2, ← h10]; exact a3
  have d0 : t0.own = ownShares (priv0 0) (joint 0) 0 0 t0.bits := a1
  have d1 : t1.own = ownShares (priv1 0) (joint 1) 0 0 t1.bits := b1
  obtain ⟨q1, q2, q3, q4, q5⟩ := merge_inputs (priv0 0) (priv1 0) (joint 0) (joint 1) os t0.bits
    t1.bits 0 0 hl0 hl1
  rw [← d0, ← d1, ← c0', ← c1'] at q3
  rw [← d0, ← d1, ← c0'] at q1 q4
  rw [← d0, ← d1, ← c1'] at q2 q5
  have hol : os.length = c0.inputGates.length := by
    have := congrArg List.length ho; simpa using this.symm
  refine ⟨ls, st0, st1, msg, rest, e1, ok, g0, g1, hh, hprod, hrest, hdraw, ?_⟩
  intro setup0 setup1 s0 s1
  exact ⟨hp, fun v g hg => (hmask v g hg).1, fun v g hg => (hmask v g hg).2,
    ⟨by rw [q1, hol], by rw [q2, hol], q3, by rw [q4, m0], by rw [q5, m1]⟩,
    answers_products hns e1 ok hprod
      (by rw [SetupData.fromRaw, List.reverse_reverse]; exact s0)
      (by rw [SetupData.fromRaw, List.reverse_reverse]; exact s1)⟩

/-- The private draws: first the own inputs, then the AND gates. -/
theorem privNodes_eq (hw : ExecWF m) {p : Nat} (hp : p < 2) {ls : List MLayer} (ok : LayersOk m ls) {rest : List Node}
    (hrest : iterNodes ls = (c0.constantGates ++ c0.inputGates).map (fun g => (0, g)) ++ rest)
    (hand : ∀ v n, m.gate? v = some (.and n) → owner v.2 ≠ some (otherOwner p)) :
    privNodes m owner p ls = (c0.inputGates.filter fun g => owner g = some (otherOwner (1 - p))).map (fun g => (0, g)) ++
      interactiveNodes m ls := by
  obtain ⟨hgi, hgc⟩ := book_gates (hb c0 (List.mem_of_getElem? hc0))
  have hgate : ∀ g, m.gate? (0, g) = c0.gates[g]? := by intro g; simp [Multi.gate?, hc0]
  have hnd : (iterNodes ls).Nodup := (iterNodes_perm ls).nodup_iff.2 ok.once
  have e1 : interactiveNodes m ls = rest.filter fun v => (m.gate? v).any interactive := by
    rw [interactiveNodes, hrest, List.filter_append]
    rw [List.filter_eq_nil_iff.2, List.nil_append]
    intro v hv
    obtain ⟨g, hg, rfl⟩ := List.mem_map.1 hv
    rcases List.mem_append.1 hg with hg | hg
    · obtain ⟨b, hb⟩ := hgc g hg
      simp [hgate, hb, GateLike.interactive]
    · simp [hgate, hgi g hg, GateLike.interactive]
  rw [e1, privNodes, hrest, List.filter_append, List.map_append, List.filter_append]
  congr 1
  · rw [List.filter_eq_nil_iff.2, List.nil_append, List.filter_map]
    · congr 1
      apply List.filter_congr
      intro g hg
      have hog : owner g = some .p0 ∨ owner g = some .p1 := by
        have : owner g ∈ os.map some := by rw [← ho]; exact List.mem_map_of_mem hg
        obtain ⟨o, -, h⟩ := List.mem_map.1 this
        rw [← h]; cases o <;> simp
      have : p = 0 ∨ p = 1 := by omega
      rcases this with rfl | rfl <;> rcases hog with h | h <;>
        simp [isDraw, hgate, hgi g hg, h, otherOwner]
    · intro v hv
      obtain ⟨g, hg, rfl⟩ := List.mem_map.1 hv
      obtain ⟨b, hb⟩ := hgc g hg
      simp [isDraw, hgate, hb]
  · apply List.filter_congr
    intro v hv
    cases hg : m.gate? v with
    | none => simp [isDraw, hg]
    | some g =>
      cases g with
      | and n => simp [isDraw, hg, GateLike.interactive, hand v n hg]
      | xor => simp [isDraw, hg, GateLike.interactive]
      | inv => simp [isDraw, hg, GateLike.interactive]
      | base b =>
        cases b with
        | input =>
          exfalso
          obtain ⟨h0, c, hc, hmem⟩ := hw.inputs v _ hg rfl
          rw [hc0] at hc; cases hc
          rw [hrest, List.nodup_append] at hnd
          refine hnd.2.2 v ?_ v hv rfl
          refine List.mem_map.2 ⟨v.2, List.mem_append_right _ hmem, ?_⟩
          rw [← h0]
        | _ => simp [isDraw, hg, GateLike.interactive]

end

/-! ### Seeds -/

theorem sent_iff {f f' joint : Nat → Bool} {bits bits' : List Bool} (hl : bits.length = bits'.length) :
    ((ownShares f' joint 0 0 bits').map (·.pub) = (ownShares f joint 0 0 bits).map (·.pub)) ↔
    ∀ k b b', bits[k]? = some b → bits'[k]? = some b' → (b' ^^ f' k) = (b ^^ f k) := by
  constructor
  · intro h k b b' hb hb'
    have := congrArg (·[k]?) h
    simp only [own_pub, hb, hb', Option.map_some, Option.some.injEq, Nat.zero_add] at this
    revert this
    cases b <;> cases b' <;> cases f k <;> cases f' k <;> cases joint k <;> simp
  · intro h
    apply List.ext_getElem?
    intro k
    rw [own_pub, own_pub]
    by_cases hk : k < bits.length
    · have := h k bits[k] (bits'[k]'(hl ▸ hk)) (List.getElem?_eq_getElem hk) (List.getElem?_eq_getElem (hl ▸ hk))
      rw [List.getElem?_eq_getElem hk, List.getElem?_eq_getElem (hl ▸ hk)]
      simp only [Option.map_some, Option.some.injEq, Nat.zero_add]
      rw [this]
    · rw [List.getElem?_eq_none (by omega), List.getElem?_eq_none (by omega)]; rfl

/-- The bits of a generator that make up for other inputs and other values of the AND gates. -/
def adjust (f : Nat → Bool) (bits bits' : List Bool) (vs : List Node) (val val' : Node → Bool) (k : Nat) : Bool :=
  if k < bits.length then f k ^^ (bits[k]?).getD false ^^ (bits'[k]?).getD false
  else match vs[k - bits.length]? with
    | some v => f k ^^ val v ^^ val' v
    | none => f k

theorem adjust_iff {f g : Nat → Bool} {bits bits' : List Bool} (hl : bits.length = bits'.length) {vs : List Node}
    {val val' : Node → Bool} :
    ((∀ k, bits.length + vs.length ≤ k → g k = f k) ∧
      (∀ k b b', bits[k]? = some b → bits'[k]? = some b' → (b' ^^ g k) = (b ^^ f k)) ∧
      ∀ k v, vs[k]? = some v → (g (bits.length + k) ^^ f (bits.length + k)) = (val' v ^^ val v)) ↔
    g = adjust f bits bits' vs val val' := by
  constructor
  · rintro ⟨h1, h2, h3⟩
    funext k
    by_cases hk : k < bits.length
    · have := h2 k bits[k] (bits'[k]'(hl ▸ hk)) (List.getElem?_eq_getElem hk) (List.getElem?_eq_getElem (hl ▸ hk))
      rw [adjust, if_pos hk, List.getElem?_eq_getElem hk, List.getElem?_eq_getElem (hl ▸ hk)]
      simp only [Option.getD_some]
      revert this
      generalize bits[k] = b
      generalize bits'[k]'(hl ▸ hk) = b'
      cases b <;> cases b' <;> cases f k <;> cases g k <;> simp
    · rw [adjust, if_neg hk]
      cases hv : vs[k - bits.length]? with
      | none => exact h1 k (by have := List.getElem?_eq_none_iff.1 hv; omega)
      | some v =>
        have := h3 _ v hv
        rw [show bits.length + (k - bits.length) = k by omega] at this
        dsimp only
        revert this
        cases val v <;> cases val' v <;> cases f k <;> cases g k <;> simp
  · rintro rfl
    refine ⟨?_, ?_, ?_⟩
    · intro k hk
      rw [adjust, if_neg (by omega), List.getElem?_eq_none (by omega)]
    · intro k b b' hb hb'
      rw [adjust, if_pos (List.getElem?_eq_some_iff.1 hb).1, hb, hb']
      cases b <;> cases b' <;> cases f k <;> rfl
    · intro k v hv
      rw [adjust, if_neg (by omega), show bits.length + k - bits.length = k by omega, hv]
      dsimp only
      cases val v <;> cases val' v <;> cases f (bits.length + k) <;> rfl

theorem priv_length {p : Nat} (hp : p < 2) {owner : Nat → Option InputBy} {os : List InputBy} {gs : List Nat}
    (ho : gs.map owner = os.map some) :
    (gs.filter fun g => owner g = some (otherOwner (1 - p))).length = os.count (otherOwner (1 - p)) := by
  have h := congrArg (List.countP fun o => decide (o = some (otherOwner (1 - p)))) ho
  rw [List.countP_map, List.countP_map] at h
  rw [← List.countP_eq_length_filter, List.count]
  refine h.trans (List.countP_congr fun o _ => ?_)
  simp

section
variable {m : Multi Gate} {rank : Node → Nat} (w : WF m rank) (hw : ExecWF m)
  (hns : ∀ i, isSimd m i = false) (h2 : ∀ v n, m.gate? v = some (.and n) → n = 2)
  (hb : ∀ c ∈ m.circs, BookOk c) {c0 : Base Gate} (hc0 : m.circs[0]? = some c0)
  {owner : Nat → Option InputBy} {os : List InputBy} (ho : c0.inputGates.map owner = os.map some)
  {map0 map1 : Nat → Option ShareType}
include w hw hns h2 hb hc0 ho

/-- **C81 (party 0's view).**  The parties run ABY2 with the helper as in `astra_execute_correct`.  Party 1 takes
other inputs (`ops1'` instead of `ops1`).  Among the seeds of party 1 that differ only in the private bits that
are used, there is exactly one with which party 0 sees the same: the same deltas for party 1's inputs and the
same messages in the online phase.  (Party 0 gets nothing from the helper.)  So the view of party 0 has
the same distribution for all inputs of party 1.

Partial: the AND gates must not have a gate id which `owner` assigns to party 0 (`and_mask_known_to_other_party`). -/
theorem aby2_inputs_hidden_partial (hand : ∀ v n, m.gate? v = some (.and n) → owner v.2 ≠ some .p0)
    (priv0 priv1 joint : Seed) {ops0 ops1 ops1' : List Op}
    (h01 : (run (.new 1 priv1 joint map1) ops1).received = (run (.new 0 priv0 joint map0) ops0).sent)
    (h10 : (run (.new 0 priv0 joint map0) ops0).received = (run (.new 1 priv1 joint map1) ops1).sent)
    (hl0 : os.count .p0 = (run (.new 0 priv0 joint map0) ops0).bits.length)
    (hl1 : os.count .p1 = (run (.new 1 priv1 joint map1) ops1).bits.length)
    (h01' : (run (.new 1 priv1 joint map1) ops1').received = (run (.new 0 priv0 joint map0) ops0).sent)
    (hl1' : os.count .p1 = (run (.new 1 priv1 joint map1) ops1').bits.length) {val val' : Node → Bool}
    (hp : PlainEval m (merge os (run (.new 0 priv0 joint map0) ops0).bits
      (run (.new 1 priv1 joint map1) ops1).bits) val)
    (hp' : PlainEval m (merge os (run (.new 0 priv0 joint map0) ops0).bits
      (run (.new 1 priv1 joint map1) ops1').bits) val') :
    ∃! f : Nat → Bool,
      (∀ k, os.count .p1 + interactiveCount m ≤ k → f k = priv1 0 k) ∧
      let priv1' : Seed := Function.update priv1 0 f
      SameView0 m owner os map0 map1 joint priv0 ops0 (priv1, ops1) (priv1', ops1') := by
  obtain ⟨ls, st0, st1, msg, rest, e1, ok, g0, g1, gm, hprod, hrest, hdraw, hrun⟩ :=
    astra_run (map0 := map0) (map1 := map1) w hns h2 hb hc0 ho priv0 priv1 joint h01 h10 hl0 hl1 hp
  have hnd : (iterNodes ls).Nodup := (iterNodes_perm ls).nodup_iff.2 ok.once
  have hpn := privNodes_eq hb hc0 ho hw (p := 1) (by omega) ok hrest hand
  have hlen : (c0.inputGates.filter fun g => owner g = some (otherOwner 0)).length = os.count .p1 :=
    priv_length (p := 1) (by omega) ho
  have hic := interactiveCount_eq m ls ok fun c hc => (hb c hc).interactives
  have hget : ∀ k v, (interactiveNodes m ls)[k]? = some v → (privNodes m owner 1 ls)[os.count .p1 + k]? = some v := by
    intro k v hv
    rw [hpn, List.getElem?_append_right (by simp [hlen])]
    simpa [hlen] using hv
  have hmem : ∀ v n, m.gate? v = some (.and n) → ∃ k : Nat, (interactiveNodes m ls)[k]? = some v := by
    intro v n hg
    obtain ⟨l, hl, hv⟩ := (and_in_layers hns ok v).2 ⟨n, hg⟩
    apply List.mem_iff_getElem?.1
    rw [interactiveNodes_eq m ls ok.local_ ok.inter, ← interactiveLayers_flatMap m hns]
    exact List.mem_flatMap.2 ⟨l, hl, hv⟩
  have hand' : ∀ (k : Nat) v, (interactiveNodes m ls)[k]? = some v → ∃ n, m.gate? v = some (.and n) := by
    intro k v hv
    have := List.mem_of_getElem? hv
    rw [interactiveNodes_eq m ls ok.local_ ok.inter, ← interactiveLayers_flatMap m hns, List.mem_flatMap] at this
    exact (and_in_layers hns ok v).1 this
  have hll : (run (.new 1 priv1 joint map1) ops1).bits.length = (run (.new 1 priv1 joint map1) ops1').bits.length := by
    omega
  have key : ∀ f : Nat → Bool, ((∀ k, os.count .p1 + interactiveCount m ≤ k → f k = priv1 0 k) ∧
      let priv1' : Seed := Function.update priv1 0 f
      SameView0 m owner os map0 map1 joint priv0 ops0 (priv1, ops1) (priv1', ops1')) ↔
      f = adjust (priv1 0) (run (.new 1 priv1 joint map1) ops1).bits (run (.new 1 priv1 joint map1) ops1').bits
        (interactiveNodes m ls) val val' := by
    intro f
    rw [← adjust_iff hll, ← hl1, ← hic]
    refine and_congr_right fun _ => ?_
    dsimp only [SameView0]
    obtain ⟨i1, i2⟩ := run_indep (.new 1 priv1 joint map1) (.new 1 (Function.update priv1 0 f) joint map1) ops1'
    obtain ⟨s1, s2, -⟩ := run_spec (.new 1 priv1 joint map1) ops1
    obtain ⟨s1', s2', -⟩ := run_spec (.new 1 (Function.update priv1 0 f) joint map1) ops1'
    rw [← i1] at s1'
    have hs : (run (.new 1 (Function.update priv1 0 f) joint map1) ops1').sent =
        (run (.new 1 priv1 joint map1) ops1).sent ↔
        ∀ k b b', (run (.new 1 priv1 joint map1) ops1).bits[k]? = some b →
          (run (.new 1 priv1 joint map1) ops1').bits[k]? = some b' → (b' ^^ f k) = (b ^^ priv1 0 k) := by
      rw [s2, s2', s1, s1']
      simp only [DeltaSharing.new, Function.update_self]
      exact sent_iff hll
    rw [hs]
    refine and_congr_right fun hs' => ?_
    have hsent := hs.2 hs'
    obtain ⟨ls', st0', st1', msg', rest', e1', -, g0', g1', gm', hprod', -, hdraw', hrun'⟩ :=
      astra_run (map0 := map0) (map1 := map1) (val := val') w hns h2 hb hc0 ho priv0 (Function.update priv1 0 f) joint
        (ops0 := ops0) (ops1 := ops1') (by rw [← i2, h01']) (by rw [hsent, h10]) hl0 (by rw [← i1]; exact hl1')
        (by rw [← i1]; exact hp')
    rw [e1] at e1'; cases e1'
    rw [g0] at g0'; cases g0'
    have hview : (∀ v n, m.gate? v = some (.and n) → (maskOf st1' v ^^ maskOf st1 v) = (val' v ^^ val v)) ↔
        ∀ k v, (interactiveNodes m ls)[k]? = some v →
          (f (os.count .p1 + k) ^^ priv1 0 (os.count .p1 + k)) = (val' v ^^ val v) := by
      have hm : ∀ (k : Nat) v, (interactiveNodes m ls)[k]? = some v →
          maskOf st1 v = priv1 0 (os.count .p1 + k) ∧ maskOf st1' v = f (os.count .p1 + k) := by
        intro k v hv
        refine ⟨mask_priv (p := 1) (by omega) hnd (fun a v b h h' => (hdraw a v b h h').2) (hget k v hv), ?_⟩
        have := mask_priv (p := 1) (by omega) hnd (fun a v b h h' => (hdraw' a v b h h').2) (hget k v hv)
        simpa using this
      constructor
      · intro h k v hv
        obtain ⟨n, hn⟩ := hand' k v hv
        rw [← h v n hn, (hm k v hv).1, (hm k v hv).2]
      · intro h v n hv
        obtain ⟨k, hk⟩ := hmem v n hv
        rw [← h k v hk, (hm k v hk).1, (hm k v hk).2]
    rw [← hview]
    constructor
    · rintro ⟨a0, a1, a1', am, am', b0, b1, b1', bm, bm', h⟩
      rw [g0] at b0; cases b0
      rw [g1] at b1; cases b1
      rw [g1'] at b1'; cases b1'
      rw [gm] at bm; cases bm
      rw [gm'] at bm'; cases bm'
      obtain ⟨⟨u0, hu0⟩, ⟨u1, hu1⟩⟩ := answers_exist hns e1 ok hprod
      obtain ⟨-, ⟨u1', hu1'⟩⟩ := answers_exist hns e1 ok hprod'
      simp only [SetupData.fromRaw, List.reverse_reverse] at hu0 hu1 hu1'
      exact (aby2_same_view w hw hns h2 hc0 (hrun u0 u1 hu0 hu1) (hrun' u0 u1' hu0 hu1')).1 (h u0 u1 u1' hu0 hu1 hu1')
    · intro h
      refine ⟨st0, st1, st1', msg, msg', g0, g1, g1', gm, gm', ?_⟩
      intro u0 u1 u1' hu0 hu1 hu1'
      exact (aby2_same_view w hw hns h2 hc0 (hrun u0 u1 hu0 hu1) (hrun' u0 u1' hu0 hu1')).2 h
  refine ⟨_, (key _).2 rfl, fun f hf => (key f).1 hf⟩

end

/-! ### Party 1's view -/

/-- The product of the values of the operands of a gate. -/
def prodOf (m : Multi Gate) (lam : Node → Bool) (v : Node) : Bool :=
  match m.parents v with
  | [p, q] => lam p && lam q
  | _ => false

theorem products_get {m : Multi Gate} {lam : Node → Bool} {vs : List Node} {s0 s1 : List (List Bool)}
    (h : Products m lam vs s0 s1) {i : Nat} {v : Node} (hi : vs[i]? = some v) :
    ∃ a b, s0[i]? = some [a] ∧ s1[i]? = some [b] ∧ (a ^^ b) = prodOf m lam v := by
  induction h generalizing i with
  | nil => simp at hi
  | @cons u p q vs a b s0 s1 hpar hab hrest ih =>
    cases i with
    | zero =>
      simp only [List.getElem?_cons_zero, Option.some.injEq] at hi
      subst hi
      exact ⟨a, b, rfl, rfl, by rw [hab, prodOf, hpar]⟩
    | succ i =>
      obtain ⟨a, b, h1, h2, h3⟩ := ih (by simpa using hi)
      exact ⟨a, b, by simpa using h1, by simpa using h2, h3⟩

/-- The helper's message, bit by bit. -/
theorem msg_get {m : Multi Gate} {lam : Node → Bool} {vs : List Node} {priv : Seed} {msg : List Bool}
    (hn : interactiveCount m = vs.length)
    (h : Products m lam vs (astraSetup0 m priv).reverse (astraSetup1 msg).reverse) {i : Nat} :
    msg[i]? = (vs[i]?).map fun v => priv 1 i ^^ prodOf m lam v := by
  cases hi : vs[i]? with
  | none =>
    have h1 := (products_length h).2
    simp only [astraSetup1, SetupData.fromRaw, List.reverse_reverse, List.length_map] at h1
    rw [List.getElem?_eq_none_iff] at hi
    rw [List.getElem?_eq_none (by omega), Option.map_none]
  | some v =>
    obtain ⟨a, b, h1, h2, h3⟩ := products_get h hi
    have hlt : i < interactiveCount m := by rw [hn]; exact (List.getElem?_eq_some_iff.1 hi).1
    simp only [astraSetup0, astraSetup1, SetupData.fromRaw, List.reverse_reverse, List.getElem?_map,
      List.getElem?_range hlt, Option.map_some, Option.some.injEq, List.cons.injEq, and_true] at h1 h2
    cases hm : msg[i]? with
    | none => rw [hm] at h2; simp at h2
    | some c =>
      rw [hm] at h2
      simp only [Option.map_some, Option.some.injEq, List.cons.injEq, and_true] at h2
      subst h1 h2
      rw [Option.map_some, ← h3]
      cases priv 1 i <;> cases c <;> rfl

section
variable {m : Multi Gate} {rank : Node → Nat} (w : WF m rank) (hw : ExecWF m)
  (hns : ∀ i, isSimd m i = false) (h2 : ∀ v n, m.gate? v = some (.and n) → n = 2)
  (hb : ∀ c ∈ m.circs, BookOk c) {c0 : Base Gate} (hc0 : m.circs[0]? = some c0)
  {owner : Nat → Option InputBy} {os : List InputBy} (ho : c0.inputGates.map owner = os.map some)
  {map0 map1 : Nat → Option ShareType}
include w hw hns h2 hb hc0 ho

/-- **C81 (party 1's view).**  The same for party 1, which also gets a message of the helper: for all other inputs of
party 0 there is exactly one choice of the bits used of its two private generators (the masks, and the generator it
shares with the helper) with which party 1 sees the same.

Partial: the AND gates must not have a gate id which `owner` assigns to party 1. -/
theorem aby2_inputs_hidden_other_partial (hand : ∀ v n, m.gate? v = some (.and n) → owner v.2 ≠ some .p1)
    (priv0 priv1 joint : Seed) {ops0 ops0' ops1 : List Op}
    (h01 : (run (.new 1 priv1 joint map1) ops1).received = (run (.new 0 priv0 joint map0) ops0).sent)
    (h10 : (run (.new 0 priv0 joint map0) ops0).received = (run (.new 1 priv1 joint map1) ops1).sent)
    (hl0 : os.count .p0 = (run (.new 0 priv0 joint map0) ops0).bits.length)
    (hl1 : os.count .p1 = (run (.new 1 priv1 joint map1) ops1).bits.length)
    (h10' : (run (.new 0 priv0 joint map0) ops0').received = (run (.new 1 priv1 joint map1) ops1).sent)
    (hl0' : os.count .p0 = (run (.new 0 priv0 joint map0) ops0').bits.length) {val val' : Node → Bool}
    (hp : PlainEval m (merge os (run (.new 0 priv0 joint map0) ops0).bits
      (run (.new 1 priv1 joint map1) ops1).bits) val)
    (hp' : PlainEval m (merge os (run (.new 0 priv0 joint map0) ops0').bits
      (run (.new 1 priv1 joint map1) ops1).bits) val') :
    ∃! fg : (Nat → Bool) × (Nat → Bool),
      (∀ k, os.count .p0 + interactiveCount m ≤ k → fg.1 k = priv0 0 k) ∧
      (∀ k, interactiveCount m ≤ k → fg.2 k = priv0 1 k) ∧
      SameView1 m owner os map0 map1 joint priv1 ops1 (priv0, ops0)
        (Function.update (Function.update priv0 0 fg.1) 1 fg.2, ops0') := by
  obtain ⟨ls, st0, st1, msg, rest, e1, ok, g0, g1, gm, hprod, hrest, hdraw, hrun⟩ :=
    astra_run (map0 := map0) (map1 := map1) w hns h2 hb hc0 ho priv0 priv1 joint h01 h10 hl0 hl1 hp
  have hnd : (iterNodes ls).Nodup := (iterNodes_perm ls).nodup_iff.2 ok.once
  have hpn := privNodes_eq hb hc0 ho hw (p := 0) (by omega) ok hrest hand
  have hlen : (c0.inputGates.filter fun g => owner g = some (otherOwner 1)).length = os.count .p0 :=
    priv_length (p := 0) (by omega) ho
  have hic := interactiveCount_eq m ls ok fun c hc => (hb c hc).interactives
  have hget : ∀ k v, (interactiveNodes m ls)[k]? = some v → (privNodes m owner 0 ls)[os.count .p0 + k]? = some v := by
    intro k v hv
    rw [hpn, List.getElem?_append_right (by simp [hlen])]
    simpa [hlen] using hv
  have hmem : ∀ v n, m.gate? v = some (.and n) → ∃ k : Nat, (interactiveNodes m ls)[k]? = some v := by
    intro v n hg
    obtain ⟨l, hl, hv⟩ := (and_in_layers hns ok v).2 ⟨n, hg⟩
    apply List.mem_iff_getElem?.1
    rw [interactiveNodes_eq m ls ok.local_ ok.inter, ← interactiveLayers_flatMap m hns]
    exact List.mem_flatMap.2 ⟨l, hl, hv⟩
  have hand' : ∀ (k : Nat) v, (interactiveNodes m ls)[k]? = some v → ∃ n, m.gate? v = some (.and n) := by
    intro k v hv
    have := List.mem_of_getElem? hv
    rw [interactiveNodes_eq m ls ok.local_ ok.inter, ← interactiveLayers_flatMap m hns, List.mem_flatMap] at this
    exact (and_in_layers hns ok v).1 this
  have hll : (run (.new 0 priv0 joint map0) ops0).bits.length = (run (.new 0 priv0 joint map0) ops0').bits.length := by
    omega
  let F := adjust (priv0 0) (run (.new 0 priv0 joint map0) ops0).bits (run (.new 0 priv0 joint map0) ops0').bits
    (interactiveNodes m ls) val val'
  have hst : ∀ f g, helperGateOutputs m 0 (Function.update (Function.update priv0 0 f) 1 g) joint owner =
      helperGateOutputs m 0 (Function.update priv0 0 f) joint owner := by
    intro f g
    simp [helperGateOutputs, DeltaSharing.new]
  obtain ⟨-, stF, -, -, -, -, gF, -⟩ := helper_data m rank w hns (fun v g hg => arity_of_gateEq (hp v g hg)) h2
    (fun c hc => (hb c hc).interactives) (Function.update priv0 0 F) priv1 joint owner
  let Gn : Nat → Bool := fun i => match (interactiveNodes m ls)[i]? with
    | some v => priv0 1 i ^^ prodOf m (fun v => maskOf st0 v ^^ maskOf st1 v) v ^^
        prodOf m (fun v => maskOf stF v ^^ maskOf st1 v) v
    | none => priv0 1 i
  have key : ∀ f g : Nat → Bool, ((∀ k, os.count .p0 + interactiveCount m ≤ k → f k = priv0 0 k) ∧
      (∀ k, interactiveCount m ≤ k → g k = priv0 1 k) ∧
      SameView1 m owner os map0 map1 joint priv1 ops1 (priv0, ops0)
        (Function.update (Function.update priv0 0 f) 1 g, ops0')) ↔ f = F ∧ g = Gn := by
    intro f g
    -- with the same deltas
    have main : (run (.new 0 (Function.update (Function.update priv0 0 f) 1 g) joint map0) ops0').sent =
        (run (.new 0 priv0 joint map0) ops0).sent → ∃ st0' msg',
        helperGateOutputs m 0 (Function.update priv0 0 f) joint owner = some st0' ∧
        helperSetup m (Function.update (Function.update priv0 0 f) 1 g) priv1 joint owner = some msg' ∧
        (∀ i : Nat, msg[i]? = ((interactiveNodes m ls)[i]?).map fun v =>
          priv0 1 i ^^ prodOf m (fun v => maskOf st0 v ^^ maskOf st1 v) v) ∧
        (∀ i : Nat, msg'[i]? = ((interactiveNodes m ls)[i]?).map fun v =>
          g i ^^ prodOf m (fun v => maskOf st0' v ^^ maskOf st1 v) v) ∧
        ((∀ v n, m.gate? v = some (.and n) → (maskOf st0' v ^^ maskOf st0 v) = (val' v ^^ val v)) ↔
          ∀ k v, (interactiveNodes m ls)[k]? = some v →
            (f (os.count .p0 + k) ^^ priv0 0 (os.count .p0 + k)) = (val' v ^^ val v)) ∧
        (msg' = msg → ((∀ setup1 setup0 setup0', Answers m (astraSetup1 msg) setup1 →
          Answers m (astraSetup0 m priv0) setup0 →
          Answers m (astraSetup0 m (Function.update (Function.update priv0 0 f) 1 g)) setup0' → ∃ tr,
          Exec.Trace (execute aby2 m 0 (.scalar (merge os (run (.new 0 priv0 joint map0) ops0).own
              (run (.new 0 priv0 joint map0) ops0).other)) setup0 st0)
            (execute aby2 m 1 (.scalar (merge os (run (.new 1 priv1 joint map1) ops1).other
              (run (.new 1 priv1 joint map1) ops1).own)) setup1 st1) tr ∧
          Exec.Trace (execute aby2 m 0 (.scalar (merge os
              (run (.new 0 (Function.update (Function.update priv0 0 f) 1 g) joint map0) ops0').own
              (run (.new 0 (Function.update (Function.update priv0 0 f) 1 g) joint map0) ops0').other)) setup0' st0')
            (execute aby2 m 1 (.scalar (merge os (run (.new 1 priv1 joint map1) ops1).other
              (run (.new 1 priv1 joint map1) ops1).own)) setup1 st1) tr) ↔
          ∀ v n, m.gate? v = some (.and n) → (maskOf st0' v ^^ maskOf st0 v) = (val' v ^^ val v))) := by
      intro hsent
      obtain ⟨i1, i2⟩ := run_indep (.new 0 priv0 joint map0)
        (.new 0 (Function.update (Function.update priv0 0 f) 1 g) joint map0) ops0'
      obtain ⟨ls', st0', st1', msg', rest', e1', -, g0', g1', gm', hprod', -, hdraw', hrun'⟩ :=
        astra_run (map0 := map0) (map1 := map1) (val := val') w hns h2 hb hc0 ho
          (Function.update (Function.update priv0 0 f) 1 g) priv1 joint
          (ops0 := ops0') (ops1 := ops1) (by rw [hsent, h01]) (by rw [← i2, h10']) (by rw [← i1]; exact hl0') hl1
          (by rw [← i1]; exact hp')
      rw [e1] at e1'; cases e1'
      rw [g1] at g1'; cases g1'
      rw [hst] at g0'
      refine ⟨st0', msg', g0', gm', fun i => msg_get hic hprod, ?_, ?_, ?_⟩
      · intro i
        rw [msg_get hic hprod']
        simp
      · have hm : ∀ (k : Nat) v, (interactiveNodes m ls)[k]? = some v →
            maskOf st0 v = priv0 0 (os.count .p0 + k) ∧ maskOf st0' v = f (os.count .p0 + k) := by
          intro k v hv
          refine ⟨mask_priv (p := 0) (by omega) hnd (fun a v b h h' => (hdraw a v b h h').1) (hget k v hv), ?_⟩
          have := mask_priv (p := 0) (by omega) hnd (fun a v b h h' => (hdraw' a v b h h').1) (hget k v hv)
          simpa using this
        constructor
        · intro h k v hv
          obtain ⟨n, hn⟩ := hand' k v hv
          rw [← h v n hn, (hm k v hv).1, (hm k v hv).2]
        · intro h v n hv
          obtain ⟨k, hk⟩ := hmem v n hv
          rw [← h k v hk, (hm k v hk).1, (hm k v hk).2]
      · rintro rfl
        constructor
        · intro h
          obtain ⟨⟨u0, hu0⟩, ⟨u1, hu1⟩⟩ := answers_exist hns e1 ok hprod
          obtain ⟨⟨u0', hu0'⟩, -⟩ := answers_exist hns e1 ok hprod'
          simp only [SetupData.fromRaw, List.reverse_reverse] at hu0 hu1 hu0'
          exact (aby2_same_view_other w hw hns h2 hc0 (hrun u0 u1 hu0 hu1) (hrun' u0' u1 hu0' hu1)).1
            (h u1 u0 u0' hu1 hu0 hu0')
        · intro h u1 u0 u0' hu1 hu0 hu0'
          exact (aby2_same_view_other w hw hns h2 hc0 (hrun u0 u1 hu0 hu1) (hrun' u0' u1 hu0' hu1)).2 h
    obtain ⟨i1, i2⟩ := run_indep (.new 0 priv0 joint map0)
      (.new 0 (Function.update (Function.update priv0 0 f) 1 g) joint map0) ops0'
    obtain ⟨s1, s2, -⟩ := run_spec (.new 0 priv0 joint map0) ops0
    obtain ⟨s1', s2', -⟩ := run_spec (.new 0 (Function.update (Function.update priv0 0 f) 1 g) joint map0) ops0'
    rw [← i1] at s1'
    have hs : (run (.new 0 (Function.update (Function.update priv0 0 f) 1 g) joint map0) ops0').sent =
        (run (.new 0 priv0 joint map0) ops0).sent ↔
        ∀ k b b', (run (.new 0 priv0 joint map0) ops0).bits[k]? = some b →
          (run (.new 0 priv0 joint map0) ops0').bits[k]? = some b' → (b' ^^ f k) = (b ^^ priv0 0 k) := by
      rw [s2, s2', s1, s1']
      simp only [DeltaSharing.new, Function.update_self, ne_eq, Nat.zero_ne_one, not_false_eq_true,
        Function.update_of_ne]
      exact sent_iff hll
    have hF := adjust_iff (f := priv0 0) (g := f) hll (vs := interactiveNodes m ls) (val := val) (val' := val')
    rw [← hl0, ← hic] at hF
    constructor
    · rintro ⟨hf, hg, hsent, a1, a0, a0', am, b1, b0, b0', bm, bm', h⟩
      obtain ⟨st0', msg', g0', gm', hmsg, hmsg', hv1, hv2⟩ := main hsent
      dsimp only at b1 b0 b0' bm bm' h
      rw [hst, g0'] at b0'
      rw [g1] at b1; cases b1
      rw [g0] at b0; cases b0
      cases b0'
      rw [gm] at bm; cases bm
      rw [gm'] at bm'; cases bm'
      have hf' : f = F := hF.1 ⟨hf, hs.1 hsent, hv1.1 ((hv2 rfl).1 h)⟩
      refine ⟨hf', ?_⟩
      rw [hf', gF] at g0'; cases g0'
      funext i
      have := (hmsg i).symm.trans (hmsg' i)
      show g i = match (interactiveNodes m ls)[i]? with
        | some v => priv0 1 i ^^ prodOf m (fun v => maskOf st0 v ^^ maskOf st1 v) v ^^
            prodOf m (fun v => maskOf stF v ^^ maskOf st1 v) v
        | none => priv0 1 i
      cases hi : (interactiveNodes m ls)[i]? with
      | none => exact hg i (by rw [hic]; exact List.getElem?_eq_none_iff.1 hi)
      | some v =>
        rw [hi] at this
        simp only [Option.map_some, Option.some.injEq] at this
        dsimp only
        rw [this]
        generalize prodOf m _ v = y
        cases g i <;> cases y <;> rfl
    · rintro ⟨hf', hg'⟩
      obtain ⟨hf, hs', hv⟩ := hF.2 hf'
      have hsent := hs.2 hs'
      obtain ⟨st0', msg', g0', gm', hmsg, hmsg', hv1, hv2⟩ := main hsent
      have g0F := g0'
      rw [hf', gF] at g0F
      have hmm : msg' = msg := by
        apply List.ext_getElem?
        intro i
        rw [hmsg, hmsg']
        cases hi : (interactiveNodes m ls)[i]? with
        | none => rfl
        | some v =>
          simp only [Option.map_some, Option.some.injEq, hg', Gn, hi]
          cases g0F
          generalize prodOf m (fun v => maskOf st0 v ^^ maskOf st1 v) v = x
          generalize prodOf m _ v = y
          cases priv0 1 i <;> cases x <;> cases y <;> rfl
      refine ⟨hf, ?_, hsent, st1, st0, st0', msg, g1, g0, by rw [hst]; exact g0', gm, by rw [← hmm]; exact gm', ?_⟩
      · intro k hk
        rw [hg']
        simp only [Gn]
        rw [List.getElem?_eq_none (by omega)]
      · exact (hv2 hmm).2 (hv1.2 hv)
  refine ⟨(F, Gn), (key F Gn).2 ⟨rfl, rfl⟩, ?_⟩
  rintro ⟨f, g⟩ h
  obtain ⟨rfl, rfl⟩ := (key f g).1 h
  rfl

end

/-! ### The hypotheses can hold -/

/-- The example circuit (an AND gate in a sub-circuit): party 0, with input `x`, cannot tell the inputs `y`, `z` of
party 1 from `y'`, `z'`. -/
example (priv0 priv1 joint : Seed) (x y z y' z' : Bool) :
    ∃! f : Nat → Bool, (∀ k, 3 ≤ k → f k = priv1 0 k) ∧
      SameView0 callCirc callOwner [.p0, .p1, .p1] (fun _ => none) (fun _ => none) joint priv0
        [.share [x], .receive [y ^^ priv1 0 0 ^^ joint 1 0, z ^^ priv1 0 1 ^^ joint 1 1]]
        (priv1, [.receive [x ^^ priv0 0 0 ^^ joint 0 0], .share [y, z]])
        (Function.update priv1 0 f, [.receive [x ^^ priv0 0 0 ^^ joint 0 0], .share [y', z']]) :=
  aby2_inputs_hidden_partial callCirc_wf callCirc_exec.2 callCirc_exec.1 callCirc_and callCirc_book (c0 := callMain) rfl
    (owner := callOwner) (os := [.p0, .p1, .p1]) rfl (by
      intro v n hv
      have := callCirc_gate hv
      simp at this
      rw [this.1]; decide) priv0 priv1 joint rfl rfl rfl rfl rfl rfl (callCirc_plain x y z) (callCirc_plain x y' z')

/-- Party 1, with input `y`, cannot tell the inputs `x`, `z` of party 0 from `x'`, `z'`. -/
example (priv0 priv1 joint : Seed) (x y z x' z' : Bool) :
    ∃! fg : (Nat → Bool) × (Nat → Bool), (∀ k, 3 ≤ k → fg.1 k = priv0 0 k) ∧ (∀ k, 1 ≤ k → fg.2 k = priv0 1 k) ∧
      SameView1 callCirc (fun i => if i = 1 then some .p1 else if i < 3 then some .p0 else none) [.p0, .p1, .p0]
        (fun _ => none) (fun _ => none) joint priv1
        [.receive [x ^^ priv0 0 0 ^^ joint 0 0, z ^^ priv0 0 1 ^^ joint 0 1], .share [y]]
        (priv0, [.share [x, z], .receive [y ^^ priv1 0 0 ^^ joint 1 0]])
        (Function.update (Function.update priv0 0 fg.1) 1 fg.2,
          [.share [x', z'], .receive [y ^^ priv1 0 0 ^^ joint 1 0]]) :=
  aby2_inputs_hidden_other_partial callCirc_wf callCirc_exec.2 callCirc_exec.1 callCirc_and callCirc_book
    (c0 := callMain) rfl (os := [.p0, .p1, .p0]) rfl (by
      intro v n hv
      have := callCirc_gate hv
      simp at this
      rw [this.1]; decide) priv0 priv1 joint rfl rfl rfl rfl rfl rfl (callCirc_plain x y z) (callCirc_plain x' y z')

/-- **Deviation (C81).**  With inputs 1 and 2 owned by party 1 the AND gate with id 2 of the sub-circuit gets a mask
party 1 knows, and party 1 reads the value `x & y` off the messages of the online phase, for all inputs and seeds. -/
theorem and_value_visible (priv0 priv1 joint : Seed) (x y z : Bool) :
    let t0 := run (.new 0 priv0 joint fun _ => none)
      [.share [x], .receive [y ^^ priv1 0 0 ^^ joint 1 0, z ^^ priv1 0 1 ^^ joint 1 1]]
    let t1 := run (.new 1 priv1 joint fun _ => none) [.receive [x ^^ priv0 0 0 ^^ joint 0 0], .share [y, z]]
    ∃ st0 st1 msg, helperGateOutputs callCirc 0 priv0 joint callOwner = some st0 ∧
      helperGateOutputs callCirc 1 priv1 joint callOwner = some st1 ∧
      helperSetup callCirc priv0 priv1 joint callOwner = some msg ∧
      (∃ setup0 setup1, Answers callCirc (astraSetup0 callCirc priv0) setup0 ∧
        Answers callCirc (astraSetup1 msg) setup1) ∧
      ∀ setup0 setup1, Answers callCirc (astraSetup0 callCirc priv0) setup0 →
        Answers callCirc (astraSetup1 msg) setup1 → ∃ a b,
        Exec.Trace (execute aby2 callCirc 0 (.scalar (merge [.p0, .p1, .p1] t0.own t0.other)) setup0 st0)
          (execute aby2 callCirc 1 (.scalar (merge [.p0, .p1, .p1] t1.other t1.own)) setup1 st1)
          [((padBytes [a], none), (padBytes [b], none))] ∧
        (a ^^ b ^^ priv1 0 2 ^^ joint 1 2) = (x && y) := by
  intro t0 t1
  obtain ⟨ls, st0, st1, msg, rest, e1, ok, g0, g1, gm, hprod, hrest, hdraw, hrun⟩ :=
    astra_run callCirc_wf callCirc_exec.1 callCirc_and callCirc_book (c0 := callMain) rfl
    (owner := callOwner) (os := [.p0, .p1, .p1]) rfl priv0 priv1 joint
    (map0 := fun _ => none) (map1 := fun _ => none)
    (ops0 := [.share [x], .receive [y ^^ priv1 0 0 ^^ joint 1 0, z ^^ priv1 0 1 ^^ joint 1 1]])
    (ops1 := [.receive [x ^^ priv0 0 0 ^^ joint 0 0], .share [y, z]]) rfl rfl rfl rfl (callCirc_plain x y z)
  obtain ⟨⟨u0, hu0⟩, ⟨u1, hu1⟩⟩ := answers_exist callCirc_exec.1 e1 ok hprod
  simp only [SetupData.fromRaw, List.reverse_reverse] at hu0 hu1
  refine ⟨st0, st1, msg, g0, g1, gm, ⟨u0, u1, hu0, hu1⟩, ?_⟩
  intro setup0 setup1 s0 s1
  obtain ⟨ls', tr, e1', -, ht, hq⟩ := run_trace callCirc_wf callCirc_exec.2 callCirc_exec.1 callCirc_and
    (c0 := callMain) rfl (hrun setup0 setup1 s0 s1)
  rw [callCirc_layers] at e1 e1'
  cases e1; cases e1'
  have h1 := hdraw [(0, 0), (0, 1), (0, 2), (1, 0), (1, 1)] (1, 2) [(1, 3), (0, 3), (0, 4), (0, 5)] rfl rfl
  have m0 : maskOf st0 (1, 2) = joint 1 2 := h1.1
  have m1 : maskOf st1 (1, 2) = priv1 0 2 := h1.2
  change List.Forall₂ _ ([[(1, ⟨[0, 1], [2]⟩)]] : List MLayer) tr at hq
  cases hq with
  | cons q1 q2 =>
    cases q2
    obtain ⟨p, q, f1, f2, l1, l2, f3⟩ := q1
    change p.length = 1 at l1
    change q.length = 1 at l2
    match p, q, l1, l2 with
    | [a], [b], _, _ =>
      refine ⟨a, b, ?_, ?_⟩
      · rw [← f1, ← f2]; exact ht
      · simp only [List.zipWith_cons_cons, List.zipWith_nil_left] at f3
        change [a ^^ b] = [callVal x y z (1, 2) ^^ maskOf st0 (1, 2) ^^ maskOf st1 (1, 2)] at f3
        rw [m0, m1, List.cons.injEq] at f3
        rw [f3.1]
        show ((x && y) ^^ _ ^^ _ ^^ _ ^^ _) = _
        cases x <;> cases y <;> cases priv1 0 2 <;> cases joint 1 2 <;> rfl

end Verif.Aby2
