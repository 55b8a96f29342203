import Verif.Fuse.Step

/-!
**C65**: import of FUSE modules.
-/
set_option autoImplicit false

namespace Verif.Fuse

open Circuit Mixed Adder Exec Proc
open Gmw (BoolGate BaseGate)

variable {w : Nat}

/-! ### Specification -/

/-- Every sub-circuit has a meaning on some input (list: last one first, as in `evalSub`).  The converter translates
all sub-circuits, also those which are not called. -/
def SubsRun (cst : FNode → Val w) : List FCircuit → Prop
  | [] => True
  | c :: earlier => (∃ ins outs, evalCircuit (evalSub cst earlier) cst c ins = some outs) ∧ SubsRun cst earlier

/-- The sub-circuits of a module, last one first. -/
def subsOf (m : FModule) : List FCircuit :=
  ((m.circuits.getD []).filterMap fun c => c.filter fun c => c.name ≠ m.entryPoint.getD "main").reverse

/-- No node has the operation `op`. -/
def Without (m : FModule) (op : PrimOp) : Prop :=
  ∀ cs, m.circuits = some cs → ∀ c, some c ∈ cs → ∀ ns, c.nodes = some ns → ∀ n ∈ ns, n.op ≠ op

/-- The two parties run `c` on shares of `ins` and get shares of `outs`, for all sharings of the input and all
correct setups. -/
def RunsTo (c : Base (Gate w)) (ins outs : List (Val w)) : Prop :=
  ∀ xs0 xs1, InputShares xs0 xs1 ins →
    ∀ (setup0 setup1 : Nat → Nat → (Nat → BitVec w) × Setup w), (∀ k n, SetupOk n n (setup0 k n).2 (setup1 k n).2) →
    ∀ (init0 init1 : Store (Val w) (List (Val w))), ∃ o0 o1,
      Runs (execute (mixed w) (.ofBase c) 0 (.scalar xs0) setup0 init0)
        (execute (mixed w) (.ofBase c) 1 (.scalar xs1) setup1 init1) (.scalar o0) (.scalar o1) ∧
      InputShares o0 o1 outs

/-! ### All circuits -/

theorem mapM_id {α : Type} {l : List (Option α)} {r : List α} (h : l.mapM id = some r) : l = r.map some := by
  induction l generalizing r with
  | nil => simp at h; subst h; rfl
  | cons x l ih =>
    rw [List.mapM_cons] at h
    simp only [Option.bind_eq_bind, Option.bind_eq_some_iff, Option.pure_def, Option.some.injEq, id] at h
    obtain ⟨b, hb, bs, hbs, rfl⟩ := h
    rw [List.map_cons, ← ih hbs, hb]

theorem subs_step {f : List Char} (hf : fileFor w = some f) {cst : FNode → Val w} (ep : String) (cs : List FCircuit)
    (hn : ∀ c ∈ cs, ∀ ns, c.nodes = some ns → ∀ n ∈ ns, NodeOk cst n ∧ (c.name ≠ ep → SubNodeOk n)) (done : List FCircuit) (st : FConv w)
    (env : EnvOk (evalSub cst done) st.scMap) (hr : SubsRun cst ((cs.filter fun c => c.name ≠ ep).reverse ++ done)) :
    ∃ sc, addSubs .inline ep (cs.map some) st = some (.ok { st with scMap := sc }) ∧
      EnvOk (evalSub cst ((cs.filter fun c => c.name ≠ ep).reverse ++ done)) sc := by
  induction cs generalizing done st with
  | nil => exact ⟨st.scMap, rfl, by simpa using env⟩
  | cons c cs ih =>
    by_cases hc : c.name = ep
    · rw [List.filter_cons_of_neg (by simp [hc])] at hr ⊢
      obtain ⟨sc, e, h⟩ := ih (fun c' h' => hn c' (by simp [h'])) done st env hr
      exact ⟨sc, by simpa [addSubs, hc] using e, h⟩
    · have e0 : ((c :: cs).filter fun c => c.name ≠ ep).reverse ++ done =
          (cs.filter fun c => c.name ≠ ep).reverse ++ (c :: done) := by
        rw [List.filter_cons_of_pos (by simp [hc])]
        simp
      rw [e0] at hr ⊢
      have hrc : SubsRun cst (c :: done) := by
        clear ih e0
        generalize (cs.filter fun c => c.name ≠ ep).reverse = l at hr
        induction l with
        | nil => exact hr
        | cons x l ih => exact ih hr.2
      obtain ⟨⟨ins, outs, he⟩, -⟩ := hrc
      have hnodes : ∃ ns, c.nodes = some ns := by
        simp only [evalCircuit, Option.bind_eq_bind, Option.bind_eq_some_iff] at he
        obtain ⟨ns, h, -⟩ := he
        exact ⟨ns, h⟩
      obtain ⟨ns, hns⟩ := hnodes
      obtain ⟨bc, e, hsub, hcomp⟩ := circuit_sub hf env hns
        (fun n h => ⟨(hn c (by simp) ns hns n h).1, (hn c (by simp) ns hns n h).2 hc⟩) he
      have env' : EnvOk (evalSub cst (c :: done)) ((c.name, bc) :: st.scMap) := by
        refine ⟨?_, ?_⟩
        · intro p hp
          rcases List.mem_cons.1 hp with rfl | hp
          · exact hsub
          · exact env.sub p hp
        · intro name ins outs hv
          simp only [evalSub] at hv
          rw [List.lookup_cons]
          by_cases hnm : c.name = name
          · rw [if_pos hnm] at hv
            exact ⟨bc, by simp [hnm], hcomp ins outs hv⟩
          · rw [if_neg hnm] at hv
            have : (name == c.name) = false := by simpa using fun h => hnm h.symm
            rw [this]
            exact env.val name ins outs hv
      obtain ⟨sc, e', h⟩ := ih (fun c' h' => hn c' (by simp [h'])) (c :: done) { st with scMap := (c.name, bc) :: st.scMap } env' hr
      refine ⟨sc, ?_, h⟩
      simp only [List.map_cons, addSubs, if_neg hc, addCircuit, hns, e, Option.bind_eq_bind, Option.bind_some]
      simpa using e'

theorem main_step {mode : CallMode} (ep : String) (cs : List FCircuit) (st : FConv w) {c : FCircuit}
    (hc : cs.find? (fun c => c.name = ep) = some c) : addMain mode ep (cs.map some) st = (addCircuit mode st c true).map .ok := by
  induction cs with
  | nil => simp at hc
  | cons x cs ih =>
    simp only [List.map_cons, addMain]
    by_cases hx : x.name = ep
    · rw [List.find?_cons_of_pos (by simp [hx]), Option.some.injEq] at hc
      rw [if_pos hx, hc]
    · rw [List.find?_cons_of_neg (by simp [hx])] at hc
      rw [if_neg hx]
      exact ih hc

/-- The converted module computes what the module means. -/
theorem convert_computes {f : List Char} (hf : fileFor w = some f) (cst : FNode → Val w) (m : FModule) (hs : Supported cst m)
    (hr : SubsRun cst (subsOf m)) (ins outs : List (Val w)) (he : evalModule cst m ins = some outs) :
    ∃ c, convertModule .inline m = some (.ok (.ofBase c)) ∧ Computes c ins outs := by
  simp only [evalModule, Option.bind_eq_bind, Option.bind_eq_some_iff] at he
  obtain ⟨cs0, hcs0, cs, hcs, main, hmain, he⟩ := he
  obtain rfl := mapM_id hcs
  have hsub : subsOf m = (cs.filter fun c => c.name ≠ m.entryPoint.getD "main").reverse := by
    simp only [subsOf, hcs0, Option.getD_some, List.filterMap_map]
    congr 1
    clear hmain hcs hcs0 he
    induction cs with
    | nil => rfl
    | cons c cs ih =>
      rw [List.filterMap_cons, List.filter_cons]
      by_cases hc : c.name = m.entryPoint.getD "main"
      · simp [Option.filter, hc] at ih ⊢
        exact ih
      · simp [Option.filter, hc] at ih ⊢
        exact ih
  rw [hsub] at hr
  have hn : ∀ c ∈ cs, ∀ ns, c.nodes = some ns → ∀ n ∈ ns, NodeOk cst n ∧ (c.name ≠ m.entryPoint.getD "main" → SubNodeOk n) :=
    fun c hc ns hns n hnn => hs _ hcs0 c (List.mem_map.2 ⟨c, hc, rfl⟩) ns hns n hnn
  obtain ⟨sc, e1, env⟩ := subs_step hf (m.entryPoint.getD "main") cs hn [] ({} : FConv w)
    ⟨by simp, by simp [evalSub]⟩ (by simpa using hr)
  rw [List.append_nil] at env
  have hnodes : ∃ ns, main.nodes = some ns := by
    simp only [evalCircuit, Option.bind_eq_bind, Option.bind_eq_some_iff] at he
    obtain ⟨ns, h, -⟩ := he
    exact ⟨ns, h⟩
  obtain ⟨ns, hns⟩ := hnodes
  obtain ⟨bc, e2, hcomp⟩ := circuit_main hf (st := { ({} : FConv w) with scMap := sc }) env hns
    (fun n h => (hn main (List.mem_of_find?_eq_some hmain) ns hns n h).1) he
  refine ⟨bc, ?_, hcomp⟩
  simp only [convertModule, hcs0, e1]
  rw [main_step _ cs _ hmain]
  simp only [addCircuit, hns, e2, Option.bind_eq_bind, Option.bind_some, if_true, Option.map_some, FConv.intoCircuit]
  rfl

/-- **C65** (partial: inlined calls; first outputs only; constants `true` and 1; no subtraction and no merge in
sub-circuits; one conversion per layer).  Converting a module and running the circuit gives what the module means. -/
theorem fuse_inline_correct_partial {f : List Char} (hf : fileFor w = some f) (cst : FNode → Val w) (m : FModule)
    (hs : Supported cst m) (hr : SubsRun cst (subsOf m)) (ins outs : List (Val w)) (he : evalModule cst m ins = some outs) :
    ∃ c, convertModule .inline m = some (.ok (.ofBase c)) ∧
      ((∃ d, IsDepth c d ∧ OneAtATime c d) → RunsTo c ins outs) := by
  obtain ⟨c, e, ⟨ty, ok, hlen, hty, hout⟩, hval⟩ := convert_computes hf cst m hs hr ins outs he
  refine ⟨c, e, ?_⟩
  intro ⟨d, hd, h1⟩ xs0 xs1 hsh setup0 setup1 hset init0 init1
  obtain ⟨o0, o1, val, part, hrun, hsol, l0, l1, hc⟩ := mixed_circuit_correct_partial (width_pos hf) ok d hd h1 ins xs0 xs1 hlen hty hsh
    setup0 setup1 hset init0 init1
  have hv := hval val part hsol
  refine ⟨o0, o1, hrun, by rw [l0, hout.length_eq], by rw [l1, hout.length_eq], ?_⟩
  intro i x hx
  have hi : i < outs.length := (List.getElem?_eq_some_iff.1 hx).1
  have hi' : i < c.outputGates.length := by rw [hout.length_eq]; exact hi
  have ht := (List.forall₂_iff_get.1 hout).2 i hi' hi
  simp only [List.get_eq_getElem] at ht
  have hg := List.getElem?_eq_getElem hi'
  obtain ⟨x0, x1, q0, q1, q2⟩ := hc i _ hg (by rw [ht.2]; cases outs[i] <;> simp [Val.ty])
  refine ⟨x0, x1, q0, q1, ?_⟩
  rw [q2, ← hx, ← hv, List.getElem?_map, hg]
  rfl

/-! ### Modules without conversions -/

/-- Gates other than conversions. -/
def plain : Gate w → Bool
  | .conv _ => false
  | _ => true

def Plain (c : Base (Gate w)) : Prop := ∀ g ∈ c.gates, plain g = true

theorem plain_addGate {c : Base (Gate w)} (h : Plain c) {g : Gate w} (hg : plain g = true) : Plain (c.addGate g).1 := by
  unfold Plain
  rw [(addGate_gates c g).1]
  intro x hx
  rcases List.mem_append.1 hx with hx | hx
  · exact h x hx
  · rw [List.mem_singleton.1 hx]; exact hg

theorem plain_wires {c : Base (Gate w)} (h : Plain c) {l : List Nat} {d : Nat} {c' : Base (Gate w)}
    (e : l.foldlM (fun (c : Base (Gate w)) s => c.addWire s d) c = some c') : Plain c' := by
  obtain ⟨-, -, rfl⟩ := foldWires_spec l d c c' e
  exact h

theorem plain_addWired {c c' : Base (Gate w)} (h : Plain c) {g : Gate w} (hg : plain g = true) {l : List Nat} {id : Nat}
    (e : c.addWiredGate g l = some (c', id)) : Plain c' := by
  obtain ⟨-, -, rfl⟩ := addWiredGate_spec e
  exact plain_addGate h hg

theorem plain_conv {g : Gate w} (h : plain g = true) : plain (conv g) = true := by
  cases g with
  | base b => cases b <;> simp [conv, asBase, wrapBase, plain]
  | _ => simpa [conv, asBase] using h

theorem plain_inlineGates {c : Base (Gate w)} (hc : Plain c) (vs : List Nat) {s s' : Base (Gate w)}
    {m m' : Nat → Nat} (h : Plain s) (e : inlineGates c vs s m = some (s', m')) : Plain s' := by
  induction vs generalizing s m with
  | nil =>
    simp only [inlineGates, Option.some.injEq, Prod.mk.injEq] at e
    rw [← e.1]; exact h
  | cons v vs ih =>
    simp only [inlineGates, Option.bind_eq_bind, Option.bind_eq_some_iff] at e
    obtain ⟨g, hg, s1, hs1, e⟩ := e
    exact ih (plain_wires (plain_addGate h (plain_conv (hc g (List.mem_of_getElem? hg)))) hs1) e

theorem plain_wireInputs (l : List (Nat × Nat)) {s s' : Base (Gate w)} (h : Plain s) (e : wireInputs s l = some s') : Plain s' := by
  induction l generalizing s with
  | nil =>
    simp only [wireInputs, Option.some.injEq] at e
    rw [← e]; exact h
  | cons p l ih =>
    simp only [wireInputs, Option.bind_eq_bind, Option.bind_eq_some_iff] at e
    obtain ⟨s1, hs1, e⟩ := e
    obtain ⟨-, -, hs1⟩ := addWire_spec hs1
    have h1 : Plain s1 := by rw [hs1]; exact h
    exact ih h1 e

theorem plain_addSub {s c s' : Base (Gate w)} (h : Plain s) (hc : Plain c) {ins outs : List Nat}
    (e : s.addSubCircuit c ins = some (s', outs)) : Plain s' := by
  unfold Base.addSubCircuit at e
  split at e
  · simp only [Option.bind_eq_bind, Option.bind_eq_some_iff] at e
    obtain ⟨ids, -, ⟨s1, m⟩, h1, s2, h2, e⟩ := e
    have := plain_wireInputs _ (plain_inlineGates hc ids h h1) h2
    split at e
    · simp only [Option.pure_def, Option.some.injEq, Prod.mk.injEq] at e
      rw [← e.1]; exact this
    · cases e
  · cases e

theorem plain_gateOf {n : FNode} (h1 : n.op ≠ .merge) {b : Bool} {g : Gate w} (e : gateOf b n = some g) : plain g = true := by
  unfold gateOf at e
  cases hop : n.op <;> simp only [hop] at e <;> first
    | exact absurd hop h1
    | (split at e <;> simp at e <;> subst e <;> rfl)
    | (simp at e; subst e; rfl)
    | (simp at e)

theorem plain_addNode {inMain : Bool} {st st' : FConv w} {bc bc' : Base (Gate w)} {n : FNode} {ins : List Nat} {id : Nat}
    (hsc : ∀ p ∈ st.scMap, Plain p.2) (h1 : n.op ≠ .merge) (h2 : n.op ≠ .split) (h : Plain bc)
    (e : addNode .inline inMain st bc n ins = some (st', bc', id)) : Plain bc' := by
  unfold addNode at e
  split at e
  · simp only [Option.bind_eq_bind, Option.bind_eq_some_iff, Option.some.injEq, Prod.mk.injEq] at e
    obtain ⟨g, hg, ⟨bc1, i⟩, e1, -, rfl, -⟩ := e
    exact plain_addWired h (plain_gateOf h1 hg) e1
  · split at e
    · rename_i hop; exact absurd hop h2
    · simp only [Option.bind_eq_bind, Option.bind_eq_some_iff, Option.some.injEq, Prod.mk.injEq] at e
      obtain ⟨name, -, c, hc, ⟨bc1, outs⟩, e1, o, -, -, rfl, -⟩ := e
      exact plain_addSub h (hsc _ (lookup_mem hc)) e1
    · cases e

theorem plain_addNodes {inMain : Bool} (ns : List FNode) {st st' : FConv w} {bc bc' : Base (Gate w)} {keys : List (Nat × Nat)}
    (hsc : ∀ p ∈ st.scMap, Plain p.2) (hn : ∀ n ∈ ns, n.op ≠ .merge ∧ n.op ≠ .split) (h : Plain bc)
    (e : addNodes .inline inMain ns st bc keys = some (st', bc')) : st' = st ∧ Plain bc' := by
  induction ns generalizing bc keys with
  | nil =>
    simp only [addNodes, Option.some.injEq, Prod.mk.injEq] at e
    rw [← e.1, ← e.2]; exact ⟨rfl, h⟩
  | cons n ns ih =>
    simp only [addNodes, Option.bind_eq_bind, Option.bind_eq_some_iff] at e
    obtain ⟨ins, -, ⟨st1, bc1, id⟩, h1, e⟩ := e
    have hb := plain_addNode hsc (hn n (by simp)).1 (hn n (by simp)).2 h h1
    obtain rfl := inline_state h1
    exact ih (fun x hx => hn x (by simp [hx])) hb e

theorem plain_empty : Plain ({} : Base (Gate w)) := by simp [Plain]

theorem plain_subs (ep : String) (cs : List (Option FCircuit)) {st st' : FConv w}
    (hn : ∀ c, some c ∈ cs → ∀ ns, c.nodes = some ns → ∀ n ∈ ns, n.op ≠ .merge ∧ n.op ≠ .split)
    (hsc : ∀ p ∈ st.scMap, Plain p.2) (e : addSubs .inline ep cs st = some (.ok st')) :
    (∀ p ∈ st'.scMap, Plain p.2) ∧ st'.circs = st.circs ∧ st'.conns = st.conns := by
  induction cs generalizing st with
  | nil =>
    simp only [addSubs, Option.some.injEq, Except.ok.injEq] at e
    subst e; exact ⟨hsc, rfl, rfl⟩
  | cons c cs ih =>
    cases c with
    | none => simp [addSubs] at e
    | some c =>
      simp only [addSubs] at e
      split at e
      · exact ih (fun c hc => hn c (by simp [hc])) hsc e
      · simp only [Option.bind_eq_bind, Option.bind_eq_some_iff, addCircuit] at e
        obtain ⟨st1, ⟨ns, hns, ⟨st2, bc⟩, e1, e2⟩, e⟩ := e
        obtain ⟨rfl, hb⟩ := plain_addNodes ns hsc (hn c (by simp) ns hns) plain_empty e1
        simp only [Bool.false_eq_true, if_false, Option.some.injEq] at e2
        subst e2
        have := ih (st := { st2 with scMap := (c.name, bc) :: st2.scMap }) (fun c hc => hn c (by simp [hc])) (by
          intro p hp
          rcases List.mem_cons.1 hp with rfl | hp
          · exact hb
          · exact hsc p hp) e
        exact this

theorem plain_main (ep : String) (cs : List (Option FCircuit)) {st st' : FConv w}
    (hn : ∀ c, some c ∈ cs → ∀ ns, c.nodes = some ns → ∀ n ∈ ns, n.op ≠ .merge ∧ n.op ≠ .split)
    (hsc : ∀ p ∈ st.scMap, Plain p.2) (hc : ∀ c ∈ st.circs, Plain c) (e : addMain .inline ep cs st = some (.ok st')) :
    ∀ c ∈ st'.circs, Plain c := by
  induction cs with
  | nil =>
    simp only [addMain, Option.some.injEq, Except.ok.injEq] at e
    subst e; exact hc
  | cons c cs ih =>
    cases c with
    | none => simp [addMain] at e
    | some c =>
      simp only [addMain] at e
      split at e
      · simp only [Option.map_eq_some_iff, Except.ok.injEq, exists_eq_right, addCircuit, Option.bind_eq_bind, Option.bind_eq_some_iff] at e
        obtain ⟨ns, hns, ⟨st2, bc⟩, e1, e2⟩ := e
        obtain ⟨rfl, hb⟩ := plain_addNodes ns hsc (hn c (by simp) ns hns) plain_empty e1
        simp only [if_true, Option.some.injEq] at e2
        subst e2
        intro c' hc'
        rcases List.mem_cons.1 hc' with rfl | h'
        · exact hb
        · exact hc c' (List.mem_of_mem_tail h')
      · exact ih (fun c hc => hn c (by simp [hc])) e

theorem plain_convert {m : FModule} {c : Base (Gate w)} (h1 : Without m .split) (h2 : Without m .merge)
    (e : convertModule .inline m = some (.ok (.ofBase c))) : Plain c := by
  unfold convertModule at e
  dsimp only at e
  split at e
  · cases e
  · rename_i cs hcs
    have hn : ∀ c, some c ∈ cs → ∀ ns, c.nodes = some ns → ∀ n ∈ ns, n.op ≠ .merge ∧ n.op ≠ .split :=
      fun c hc ns hns n hnn => ⟨h2 cs hcs c hc ns hns n hnn, h1 cs hcs c hc ns hns n hnn⟩
    split at e
    · cases e
    · cases e
    · rename_i st hst
      obtain ⟨hs, hcirc, -⟩ := plain_subs _ cs hn (by simp) hst
      split at e
      · cases e
      · cases e
      · rename_i st' hst'
        simp only [Option.some.injEq, Except.ok.injEq, FConv.intoCircuit, Multi.ofBase, Multi.mk.injEq] at e
        refine plain_main _ cs hn hs ?_ hst' c (by rw [e.1]; simp)
        rw [hcirc]
        intro c hc
        rw [List.mem_singleton.1 hc]
        simp [Plain]

/-- **C65** (partial: as above, no conversions).  No condition on the layers is left. -/
theorem fuse_inline_plain_partial {f : List Char} (hf : fileFor w = some f) (cst : FNode → Val w) (m : FModule)
    (hs : Supported cst m) (hr : SubsRun cst (subsOf m)) (h1 : Without m .split) (h2 : Without m .merge)
    (ins outs : List (Val w)) (he : evalModule cst m ins = some outs) :
    ∃ c, convertModule .inline m = some (.ok (.ofBase c)) ∧ RunsTo c ins outs := by
  obtain ⟨c, e, h⟩ := fuse_inline_correct_partial hf cst m hs hr ins outs he
  obtain ⟨c', e', ⟨ty, ok, -⟩, -⟩ := convert_computes hf cst m hs hr ins outs he
  have hcc : c' = c := by
    rw [e, Option.some.injEq, Except.ok.injEq] at e'
    simp only [Multi.ofBase, Multi.mk.injEq, List.cons.injEq, and_true] at e'
    exact e'.symm
  subst hcc
  refine ⟨c', e, h ?_⟩
  obtain ⟨rank, ok⟩ := ok.ok
  obtain ⟨d, hd⟩ := depth_exists ok
  have hp := plain_convert h1 h2 e
  have no : ∀ (i : Nat) (k : Mixed.Conv), c'.gates[i]? ≠ some (.conv k) := by
    intro i k hi
    have := hp _ (List.mem_of_getElem? hi)
    simp [plain] at this
  exact ⟨d, hd, ⟨fun i j hi => absurd hi (no i _), fun i j hi => absurd hi (no i _), fun i hi => absurd hi (no i _),
    fun i j hi => absurd hi (no i _)⟩⟩

end Verif.Fuse
