import Verif.Fuse.Nodes

/-!
One node, all nodes, all circuits.
-/
set_option autoImplicit false

namespace Verif.Fuse

open Circuit Mixed Adder Exec
open Gmw (BoolGate BaseGate)

variable {w : Nat}

/-- The registered sub-circuits compute what the evaluator says. -/
structure EnvOk (call : String → List (Val w) → Option (List (Val w))) (scMap : List (String × Base (Gate w))) : Prop where
  sub : ∀ p ∈ scMap, SubCirc p.2
  val : ∀ name ins outs, call name ins = some outs → ∃ c, scMap.lookup name = some c ∧ Computes (alone c) ins outs

section
variable {ins : List (Val w)} {s : EvalSt w} {bc : Base (Gate w)} {keys : List (Nat × Nat)} {ty : Nat → Ty}

theorem unwrap_all {xs : List (Val w)} {bits : List Bool} (h : xs.mapM Val.unwrapBool = some bits) : xs = bits.map Val.bool := by
  induction xs generalizing bits with
  | nil => simp at h; subst h; rfl
  | cons x xs ih =>
    rw [List.mapM_cons] at h
    simp only [Option.bind_eq_bind, Option.bind_eq_some_iff, Option.pure_def, Option.some.injEq] at h
    obtain ⟨b, hb, bs, hbs, rfl⟩ := h
    cases x with
    | bool c =>
      simp only [Val.unwrapBool, Option.some.injEq] at hb
      rw [List.map_cons, ← ih hbs, hb]
    | arith _ => simp [Val.unwrapBool] at hb

theorem Inv.split {f : List Char} (hf : fileFor w = some f) (h : Inv ins s bc keys ty) {g : Nat} {a : BitVec w}
    (hh : Holds ins bc ty g (.arith a)) :
    ∃ bc' ty' ids id x, ((a2b bc g).bind fun r => Fuse.identities r.1 r.2) = some (bc', ids) ∧ ids.head? = some id ∧
      Inv ins s bc' keys ty' ∧ ((bitsOf a).map Val.bool)[0]? = some x ∧ Holds ins bc' ty' id x := by
  obtain ⟨bc1, outs, ty1, e1, ok1, x1, len, hb, g0, g1, -, -, hr, -, -, hv⟩ := a2b_circuit hf h.ok g hh.1 hh.2.1
  obtain ⟨new, hnew⟩ := x1.1
  obtain ⟨inv1, gr1⟩ := h.grow ok1 x1 hnew.symm (by
    intro G hG
    obtain ⟨i, hi, rfl⟩ := List.mem_iff_getElem.1 hG
    have hget : bc1.gates[bc.gates.length + i]? = some new[i] := by
      rw [← hnew, List.getElem?_append_right (by omega)]
      simp [hi]
    match i, hi with
    | 0, hi => rw [show bc.gates.length + 0 = bc.gates.length from rfl, g0, Option.some.injEq] at hget; rw [← hget]; simp
    | 1, hi => rw [g1, Option.some.injEq] at hget; rw [← hget]; simp
    | i + 2, hi =>
      obtain ⟨-, -, -, h4, h5⟩ := hr _ _ (by omega) hget
      refine ⟨?_, h4⟩
      intro hc
      rw [hc] at h5
      simp [isSource, asBase] at h5)
  have hF : List.Forall₂ (Holds ins bc1 ty1) outs ((bitsOf a).map Val.bool) := by
    rw [List.forall₂_iff_get]
    have hlen : outs.length = ((bitsOf a).map (Val.bool (w := w))).length := by simp [bitsOf, len]
    refine ⟨hlen, ?_⟩
    intro i h1 h2
    simp only [List.get_eq_getElem]
    refine ⟨(hb _ (List.getElem_mem h1)).1, ?_, ?_⟩
    · rw [(hb _ (List.getElem_mem h1)).2, List.getElem_map]; rfl
    · intro m hm val part hs
      have := hv m hm.1 ins val part hs a (hh.2.2 m (hm.mono gr1) val part hs)
      have := congrArg (·[i]?) this
      simp only [List.getElem?_map, List.getElem?_eq_getElem h1, Option.map_some] at this
      rw [List.getElem_map]
      have h2' : i < (bitsOf a).length := by simpa using h2
      rw [List.getElem?_eq_getElem h2', Option.map_some, Option.some.injEq] at this
      exact this
  obtain ⟨bc2, ty2, ids, e2, inv2, -, hF2⟩ := inv1.identities hF
  have hpos := width_pos hf
  match ids, hx : (bitsOf a).map (Val.bool (w := w)), hF2 with
  | id :: ids, x :: xs, .cons h1 _ =>
    refine ⟨bc2, ty2, id :: ids, id, x, ?_, rfl, inv2, by simp, h1⟩
    simp [e1, e2]
  | [], [], _ =>
    have := congrArg List.length hx
    simp [bitsOf] at this
    omega

theorem Inv.call (h : Inv ins s bc keys ty) {c : Base (Gate w)} (hc : SubCirc c) {gs : List Nat} {xs outs : List (Val w)} {x : Val w}
    (hF : List.Forall₂ (Holds ins bc ty) gs xs) (hcomp : Computes (alone c) xs outs) (hx : outs[0]? = some x) :
    ∃ bc' ty' ids id, bc.addSubCircuit c gs = some (bc', ids) ∧ ids.head? = some id ∧
      Inv ins s bc' keys ty' ∧ Holds ins bc' ty' id x := by
  obtain ⟨tyc, okc, hlen, hkind, hout⟩ := hcomp.ok
  have hlen' : c.scInputGates.length = gs.length := by rw [hF.length_eq]; exact hlen
  obtain ⟨bc', mp, ty', new, e, ok', x', hnew, hsub, hmp, hsem⟩ := inline_ok h.ok okc hc gs (holds_lt hF) hlen' (by
    intro j v i hv hi
    have hl := (List.getElem?_eq_some_iff.1 hi).1
    have hl' : j < xs.length := by rw [← hF.length_eq]; exact hl
    have h1 := hkind j v xs[j] hv (List.getElem?_eq_getElem hl')
    rw [h1]
    have := (List.forall₂_iff_get.1 hF).2 j hl hl'
    simp only [List.get_eq_getElem] at this
    rw [List.getElem?_eq_getElem hl, Option.some.injEq] at hi
    rw [← hi]
    exact this.2.1.symm)
  obtain ⟨inv', gr⟩ := h.grow ok' x' hnew (by
    intro G hG
    have := hsub G hG
    constructor <;> · rintro rfl; simp [subGate, asBase] at this)
  have hval := hcomp.val
  have eo : (alone c).outputGates = c.scOutputGates := rfl
  rw [eo] at hval hout
  cases hso : c.scOutputGates with
  | nil =>
    rw [hso] at hout
    cases hout
    simp at hx
  | cons o os =>
    rw [hso] at hout
    cases hout with
    | cons h1 hout' =>
    rename_i y ys
    simp only [List.getElem?_cons_zero, Option.some.injEq] at hx
    subst hx
    refine ⟨bc', ty', _, mp o, e, by rw [hso]; rfl, inv', ?_⟩
    rw [alone_length] at h1
    refine ⟨(hmp o h1.1).1, (hmp o h1.1).2.trans h1.2, ?_⟩
    intro m hm val part hs
    obtain ⟨val', part', hs', hv'⟩ := hsem m hm.1 ins val part hs
    rw [holds_val hF (hm.mono gr) hs] at hs'
    have := hval val' part' hs'
    rw [hso, List.map_cons, List.cons.injEq] at this
    rw [← hv' o h1.1]
    exact this.1

/-- What `Inv.gate` needs to know about a gate. -/
structure GateFor (ins : List (Val w)) (gs : List Nat) (xs : List (Val w)) (G : Gate w) (y : Val w) : Prop where
  src : gs = [] ↔ isSource G = true
  cross : isCross G = false
  kind : G ≠ .base .input ∧ G ≠ .base .output
  typed : ∀ (m : Multi (Gate w)) (ty' : Node → Ty) (v : Node), m.parents v = gs.map (fun g => (0, g)) →
    gs.map (fun g => ty' (0, g)) = xs.map Val.ty → ty' v = y.ty → Typed m ty' v G
  value : ∀ (m : Multi (Gate w)) (val : Node → Val w) (part : Node → BitVec w) (v : Node), m.parents v = gs.map (fun g => (0, g)) →
    gs.map (fun g => val (0, g)) = xs → MixedEq m ins val part v G → val v = y

theorem op_and {call : String → List (Val w) → Option (List (Val w))} {cst : FNode → Val w} {n : FNode} (hop : n.op = .and)
    {gs : List Nat} {xs r : List (Val w)} (hl : gs.length = xs.length) (hr : evalOp call cst n xs = some r) :
    ∃ y, r = [y] ∧ GateFor ins gs xs (.bool .and) y := by
  obtain ⟨a, b, rfl, rfl⟩ : ∃ a b, xs = [.bool a, .bool b] ∧ r = [.bool (a && b)] := by
    simp only [evalOp, hop] at hr
    split at hr <;> first
      | exact ⟨_, _, rfl, (Option.some.inj hr).symm⟩
      | simp_all
  obtain ⟨p, q, rfl⟩ := List.length_eq_two.1 hl
  refine ⟨_, rfl, by simp [isSource, asBase], by simp [isCross, asBase], by simp, ?_, ?_⟩
  · intro m ty' v hp ht hv
    simp only [List.map_cons, List.map_nil, List.cons.injEq, and_true] at ht
    exact ⟨_, _, hp, ht.1, ht.2, hv⟩
  · intro m val part v hp hx ⟨p', q', a', b', hp', ha, hb, hv⟩
    rw [hp] at hp'
    simp only [List.map_cons, List.map_nil, List.cons.injEq, and_true] at hx hp'
    obtain ⟨rfl, rfl⟩ := hp'
    rw [hx.1] at ha; rw [hx.2] at hb
    cases ha; cases hb
    exact hv

theorem op_xor {call : String → List (Val w) → Option (List (Val w))} {cst : FNode → Val w} {n : FNode} (hop : n.op = .xor)
    {gs : List Nat} {xs r : List (Val w)} (hl : gs.length = xs.length) (hr : evalOp call cst n xs = some r) :
    ∃ y, r = [y] ∧ GateFor ins gs xs (.bool .xor) y := by
  obtain ⟨a, b, rfl, rfl⟩ : ∃ a b, xs = [.bool a, .bool b] ∧ r = [.bool (a ^^ b)] := by
    simp only [evalOp, hop] at hr
    split at hr <;> first
      | exact ⟨_, _, rfl, (Option.some.inj hr).symm⟩
      | simp_all
  obtain ⟨p, q, rfl⟩ := List.length_eq_two.1 hl
  refine ⟨_, rfl, by simp [isSource, asBase], by simp [isCross, asBase], by simp, ?_, ?_⟩
  · intro m ty' v hp ht hv
    simp only [List.map_cons, List.map_nil, List.cons.injEq, and_true] at ht
    exact ⟨_, _, hp, ht.1, ht.2, hv⟩
  · intro m val part v hp hx ⟨p', q', a', b', hp', ha, hb, hv⟩
    rw [hp] at hp'
    simp only [List.map_cons, List.map_nil, List.cons.injEq, and_true] at hx hp'
    obtain ⟨rfl, rfl⟩ := hp'
    rw [hx.1] at ha; rw [hx.2] at hb
    cases ha; cases hb
    exact hv

theorem op_add {call : String → List (Val w) → Option (List (Val w))} {cst : FNode → Val w} {n : FNode} (hop : n.op = .add)
    {gs : List Nat} {xs r : List (Val w)} (hl : gs.length = xs.length) (hr : evalOp call cst n xs = some r) :
    ∃ y, r = [y] ∧ GateFor ins gs xs (.arith .add) y := by
  obtain ⟨a, b, rfl, rfl⟩ : ∃ a b, xs = [.arith a, .arith b] ∧ r = [.arith (a + b)] := by
    simp only [evalOp, hop] at hr
    split at hr <;> simp_all
  obtain ⟨p, q, rfl⟩ := List.length_eq_two.1 hl
  refine ⟨_, rfl, by simp [isSource, asBase], by simp [isCross, asBase], by simp, ?_, ?_⟩
  · intro m ty' v hp ht hv
    simp only [List.map_cons, List.map_nil, List.cons.injEq, and_true] at ht
    exact ⟨_, _, hp, ht.1, ht.2, hv⟩
  · intro m val part v hp hx ⟨p', q', a', b', hp', ha, hb, hv⟩
    rw [hp] at hp'
    simp only [List.map_cons, List.map_nil, List.cons.injEq, and_true] at hx hp'
    obtain ⟨rfl, rfl⟩ := hp'
    rw [hx.1] at ha; rw [hx.2] at hb
    cases ha; cases hb
    exact hv

theorem op_mul {call : String → List (Val w) → Option (List (Val w))} {cst : FNode → Val w} {n : FNode} (hop : n.op = .mul)
    {gs : List Nat} {xs r : List (Val w)} (hl : gs.length = xs.length) (hr : evalOp call cst n xs = some r) :
    ∃ y, r = [y] ∧ GateFor ins gs xs (.arith .mul) y := by
  obtain ⟨a, b, rfl, rfl⟩ : ∃ a b, xs = [.arith a, .arith b] ∧ r = [.arith (a * b)] := by
    simp only [evalOp, hop] at hr
    split at hr <;> simp_all
  obtain ⟨p, q, rfl⟩ := List.length_eq_two.1 hl
  refine ⟨_, rfl, by simp [isSource, asBase], by simp [isCross, asBase], by simp, ?_, ?_⟩
  · intro m ty' v hp ht hv
    simp only [List.map_cons, List.map_nil, List.cons.injEq, and_true] at ht
    exact ⟨_, _, hp, ht.1, ht.2, hv⟩
  · intro m val part v hp hx ⟨p', q', a', b', hp', ha, hb, hv⟩
    rw [hp] at hp'
    simp only [List.map_cons, List.map_nil, List.cons.injEq, and_true] at hx hp'
    obtain ⟨rfl, rfl⟩ := hp'
    rw [hx.1] at ha; rw [hx.2] at hb
    cases ha; cases hb
    exact hv

theorem op_sub {call : String → List (Val w) → Option (List (Val w))} {cst : FNode → Val w} {n : FNode} (hop : n.op = .sub)
    {gs : List Nat} {xs r : List (Val w)} (hl : gs.length = xs.length) (hr : evalOp call cst n xs = some r) :
    ∃ y, r = [y] ∧ GateFor ins gs xs (.arith .sub) y := by
  obtain ⟨a, b, rfl, rfl⟩ : ∃ a b, xs = [.arith a, .arith b] ∧ r = [.arith (a - b)] := by
    simp only [evalOp, hop] at hr
    split at hr <;> simp_all
  obtain ⟨p, q, rfl⟩ := List.length_eq_two.1 hl
  refine ⟨_, rfl, by simp [isSource, asBase], by simp [isCross, asBase], by simp, ?_, ?_⟩
  · intro m ty' v hp ht hv
    simp only [List.map_cons, List.map_nil, List.cons.injEq, and_true] at ht
    exact ⟨_, _, hp, ht.1, ht.2, hv⟩
  · intro m val part v hp hx ⟨p', q', a', b', hp', ha, hb, hv⟩
    rw [hp] at hp'
    simp only [List.map_cons, List.map_nil, List.cons.injEq, and_true] at hx hp'
    obtain ⟨rfl, rfl⟩ := hp'
    rw [hx.1] at ha; rw [hx.2] at hb
    cases ha; cases hb
    exact hv

theorem op_not {call : String → List (Val w) → Option (List (Val w))} {cst : FNode → Val w} {n : FNode} (hop : n.op = .not)
    {gs : List Nat} {xs r : List (Val w)} (hl : gs.length = xs.length) (hr : evalOp call cst n xs = some r) :
    ∃ y, r = [y] ∧ GateFor ins gs xs (.bool .inv) y := by
  obtain ⟨a, rfl, rfl⟩ : ∃ a, xs = [.bool a] ∧ r = [.bool !a] := by
    simp only [evalOp, hop] at hr
    split at hr <;> simp_all
  obtain ⟨p, rfl⟩ := List.length_eq_one_iff.1 hl
  refine ⟨_, rfl, by simp [isSource, asBase], by simp [isCross, asBase], by simp, ?_, ?_⟩
  · intro m ty' v hp ht hv
    simp only [List.map_cons, List.map_nil, List.cons.injEq, and_true] at ht
    exact ⟨_, hp, ht, hv⟩
  · intro m val part v hp hx ⟨p', a', hp', ha, hv⟩
    rw [hp] at hp'
    simp only [List.map_cons, List.map_nil, List.cons.injEq, and_true] at hx hp'
    obtain rfl := hp'
    rw [hx] at ha
    cases ha
    exact hv

theorem op_constant {call : String → List (Val w) → Option (List (Val w))} {cst : FNode → Val w} {n : FNode} (hop : n.op = .constant)
    {gs : List Nat} {xs r : List (Val w)} (hl : gs.length = xs.length) (hr : evalOp call cst n xs = some r) :
    ∃ y, r = [y] ∧ y = cst n ∧ GateFor ins gs xs (.base (.constant (cst n))) y := by
  obtain ⟨rfl, rfl⟩ : xs = [] ∧ r = [cst n] := by
    simp only [evalOp, hop] at hr
    split at hr <;> simp_all
  obtain rfl := List.length_eq_zero_iff.1 hl
  refine ⟨_, rfl, rfl, by simp [isSource, asBase], by simp [isCross, asBase], by simp, ?_, ?_⟩
  · intro m ty' v hp ht hv
    exact hv
  · intro m val part v hp hx hv
    exact hv

theorem op_merge (hpos : 0 < w) {call : String → List (Val w) → Option (List (Val w))} {cst : FNode → Val w} {n : FNode} (hop : n.op = .merge)
    {gs : List Nat} {xs r : List (Val w)} (hl : gs.length = xs.length) (hr : evalOp call cst n xs = some r) :
    ∃ y, r = [y] ∧ GateFor ins gs xs (.conv .b2a) y := by
  simp only [evalOp, hop, Option.bind_eq_bind, Option.bind_eq_some_iff] at hr
  obtain ⟨bits, hb, hr⟩ := hr
  split at hr
  · rename_i hlen
    simp only [Option.some.injEq] at hr
    obtain rfl := hr
    have hxs := unwrap_all hb
    have hgl : gs.length = w := by rw [hl, hxs, List.length_map, hlen]
    refine ⟨_, rfl, ?_, by simp [isCross, asBase], by simp, ?_, ?_⟩
    · simp only [isSource, asBase]
      constructor
      · rintro rfl; simp at hgl; omega
      · intro h; simp at h
    · intro m ty' v hp ht hv
      refine ⟨by rw [hp, List.length_map, hgl], ?_, hv⟩
      intro u hu
      rw [hp] at hu
      obtain ⟨g, hg, rfl⟩ := List.mem_map.1 hu
      have : ty' (0, g) ∈ xs.map Val.ty := by rw [← ht]; exact List.mem_map.2 ⟨g, hg, rfl⟩
      rw [hxs] at this
      simp only [List.map_map, List.mem_map, Function.comp] at this
      obtain ⟨b, -, hb⟩ := this
      rw [← hb]; rfl
    · intro m val part v hp hx ⟨bits', hb', hv⟩
      rw [hp, List.map_map] at hb'
      have : bits' = bits := by
        have h1 : gs.map (fun g => val (0, g)) = bits'.map Val.bool := hb'
        rw [hx, hxs] at h1
        exact (List.map_injective_iff.2 (fun a b h => by cases h; rfl) h1).symm
      rw [hv, this]
  · cases hr

/-- One gate. -/
theorem one_step {st : FConv w} (h : Inv ins s bc keys ty) {n : FNode} {gs : List Nat} {xs : List (Val w)}
    (hF : List.Forall₂ (Holds ins bc ty) gs xs) {G : Gate w} {y : Val w} (hG : GateFor ins gs xs G y)
    (h1 : n.op.oneToOne = true) (h2 : gateOf true n = some G) :
    ∃ bc' ty' id, addNode .inline true st bc n gs = some (st, bc', id) ∧
      Inv ins { s with vals := (n.id, [y]) :: s.vals } bc' ((n.id, id) :: keys) ty' := by
  obtain ⟨bc', ty', e, inv', -, hh⟩ := h.gate hF G y hG.src hG.cross hG.kind hG.typed hG.value
  exact ⟨bc', ty', _, by simp [addNode, h1, h2, e], inv'.addKey (by simp) hh⟩

theorem op_step {f : List Char} (hf : fileFor w = some f) {call : String → List (Val w) → Option (List (Val w))} {cst : FNode → Val w}
    {st : FConv w} (env : EnvOk call st.scMap) (h : Inv ins s bc keys ty) {n : FNode} (hn : NodeOk cst n)
    {gs : List Nat} {xs r : List (Val w)} (hF : List.Forall₂ (Holds ins bc ty) gs xs) (hr : evalOp call cst n xs = some r) (hr0 : r ≠ []) :
    ∃ bc' ty' id, addNode .inline true st bc n gs = some (st, bc', id) ∧
      Inv ins { s with vals := (n.id, r) :: s.vals, outs := s.outs ++ if n.op = .output then r else [] } bc' ((n.id, id) :: keys) ty' := by
  have hl := hF.length_eq
  cases hop : n.op with
  | and =>
    obtain ⟨y, rfl, hG⟩ := op_and (ins := ins) hop hl hr
    simpa using one_step (st := st) h (n := n) hF hG (by simp [hop, PrimOp.oneToOne]) (by simp [gateOf, hop])
  | xor =>
    obtain ⟨y, rfl, hG⟩ := op_xor (ins := ins) hop hl hr
    simpa using one_step (st := st) h (n := n) hF hG (by simp [hop, PrimOp.oneToOne]) (by simp [gateOf, hop])
  | not =>
    obtain ⟨y, rfl, hG⟩ := op_not (ins := ins) hop hl hr
    simpa using one_step (st := st) h (n := n) hF hG (by simp [hop, PrimOp.oneToOne]) (by simp [gateOf, hop])
  | add =>
    obtain ⟨y, rfl, hG⟩ := op_add (ins := ins) hop hl hr
    simpa using one_step (st := st) h (n := n) hF hG (by simp [hop, PrimOp.oneToOne]) (by simp [gateOf, hop])
  | mul =>
    obtain ⟨y, rfl, hG⟩ := op_mul (ins := ins) hop hl hr
    simpa using one_step (st := st) h (n := n) hF hG (by simp [hop, PrimOp.oneToOne]) (by simp [gateOf, hop])
  | sub =>
    obtain ⟨y, rfl, hG⟩ := op_sub (ins := ins) hop hl hr
    simpa using one_step (st := st) h (n := n) hF hG (by simp [hop, PrimOp.oneToOne]) (by simp [gateOf, hop])
  | merge =>
    obtain ⟨y, rfl, hG⟩ := op_merge (ins := ins) (width_pos hf) hop hl hr
    simpa using one_step (st := st) h (n := n) hF hG (by simp [hop, PrimOp.oneToOne]) (by simp [gateOf, hop])
  | constant =>
    obtain ⟨y, rfl, -, hG⟩ := op_constant (ins := ins) hop hl hr
    have hg : gateOf true n = some (.base (.constant (cst n))) := by
      rcases hn.const hop with ⟨h1 | ⟨ts, h1⟩, h2⟩ | ⟨⟨ts, h1⟩, h2⟩ <;> simp [gateOf, hop, h1, h2]
    simpa using one_step (st := st) h (n := n) hF hG (by simp [hop, PrimOp.oneToOne]) hg
  | input => simp [evalOp, hop] at hr
  | other c => simp [evalOp, hop] at hr
  | output =>
    obtain ⟨x, rfl, rfl⟩ : ∃ x, xs = [x] ∧ r = [x] := by
      clear hF hl h
      simp only [evalOp, hop] at hr
      split at hr <;> first
        | exact ⟨_, rfl, (Option.some.inj hr).symm⟩
        | simp_all
    obtain ⟨p, rfl⟩ := List.length_eq_one_iff.1 hl
    obtain ⟨h1, -⟩ := List.forall₂_cons.1 hF
    obtain ⟨bc', ty', e, inv', hh⟩ := h.output h1
    refine ⟨bc', ty', bc.gates.length, by simp [addNode, hop, PrimOp.oneToOne, gateOf, e], ?_⟩
    simpa using inv'.addKey (id := n.id) (r := [x]) (by simp) hh
  | split =>
    obtain ⟨a, rfl, rfl⟩ : ∃ a, xs = [.arith a] ∧ r = (bitsOf a).map .bool := by
      simp only [evalOp, hop] at hr
      split at hr <;> simp_all
    obtain ⟨p, rfl⟩ := List.length_eq_one_iff.1 hl
    obtain ⟨h1, -⟩ := List.forall₂_cons.1 hF
    obtain ⟨bc', ty', ids, id, x, e, hid, inv', hx, hh⟩ := h.split hf h1
    simp only [Option.bind_eq_some_iff] at e
    obtain ⟨⟨bc1, sh⟩, e1, e2⟩ := e
    refine ⟨bc', ty', id, by simp [addNode, hop, PrimOp.oneToOne, e1, e2, hid], ?_⟩
    simpa using inv'.addKey (id := n.id) hx hh
  | call =>
    simp only [evalOp, hop, Option.bind_eq_bind, Option.bind_eq_some_iff] at hr
    obtain ⟨name, hname, hr⟩ := hr
    obtain ⟨c, hc, hcomp⟩ := env.val name xs _ hr
    obtain ⟨y, r, rfl⟩ := List.exists_cons_of_ne_nil hr0
    obtain ⟨bc', ty', ids, id, e, hid, inv', hh⟩ := h.call (env.sub _ (lookup_mem hc)) hF hcomp (x := y) (by simp)
    refine ⟨bc', ty', id, by simp [addNode, hop, PrimOp.oneToOne, hname, hc, e, hid], ?_⟩
    simpa using inv'.addKey (id := n.id) (r := y :: r) (by simp) hh

/-- One node. -/
theorem node_step {f : List Char} (hf : fileFor w = some f) {call : String → List (Val w) → Option (List (Val w))} {cst : FNode → Val w}
    {st : FConv w} (env : EnvOk call st.scMap) (h : Inv ins s bc keys ty) {n : FNode} (hn : NodeOk cst n) {s' : EvalSt w}
    (he : evalNode call cst s n = some s') :
    ∃ gs bc' ty' id, (n.inputs.getD []).mapM (fun i => keys.lookup i) = some gs ∧
      addNode .inline true st bc n gs = some (st, bc', id) ∧
      Inv ins s' bc' (if (keys.lookup n.id).isSome then keys else (n.id, id) :: keys) ty' := by
  simp only [evalNode, Option.bind_eq_bind, Option.bind_eq_some_iff] at he
  obtain ⟨xs, hops, he⟩ := he
  split at he
  · cases he
  rename_i hfresh
  obtain ⟨gs, hgs, hF⟩ := h.operands _ hn.first _ _ hops
  rw [h.known n.id]
  simp only [if_neg hfresh]
  refine ⟨gs, ?_⟩
  split at he
  · rename_i x rest hop hi
    cases hF
    simp only [Option.some.injEq] at he
    subst he
    obtain ⟨bc', ty', e, inv', hh⟩ := h.input hi
    exact ⟨bc', ty', _, hgs, by simp [addNode, hop, PrimOp.oneToOne, gateOf, e], inv'.addKey (by simp) hh⟩
  · cases he
  · simp only [Option.bind_eq_some_iff] at he
    obtain ⟨r, hr, he⟩ := he
    split at he
    · cases he
    · rename_i hr0
      simp only [Option.some.injEq] at he
      subst he
      obtain ⟨bc', ty', id, e, inv'⟩ := op_step hf env h hn hF hr hr0
      exact ⟨bc', ty', id, hgs, e, inv'⟩

/-- All nodes. -/
theorem nodes_step {f : List Char} (hf : fileFor w = some f) {call : String → List (Val w) → Option (List (Val w))} {cst : FNode → Val w}
    {st : FConv w} (env : EnvOk call st.scMap) (ns : List FNode) (hn : ∀ n ∈ ns, NodeOk cst n) {s s' : EvalSt w} {bc : Base (Gate w)}
    {keys : List (Nat × Nat)} {ty : Nat → Ty} (h : Inv ins s bc keys ty) (he : ns.foldlM (evalNode call cst) s = some s') :
    ∃ bc' keys' ty', addNodes .inline true ns st bc keys = some (st, bc') ∧ Inv ins s' bc' keys' ty' := by
  induction ns generalizing s bc keys ty with
  | nil =>
    simp only [List.foldlM_nil, Option.pure_def, Option.some.injEq] at he
    subst he
    exact ⟨bc, keys, ty, rfl, h⟩
  | cons n ns ih =>
    simp only [List.foldlM_cons, Option.bind_eq_bind, Option.bind_eq_some_iff] at he
    obtain ⟨s1, h1, he⟩ := he
    obtain ⟨gs, bc1, ty1, id, e1, e2, inv1⟩ := node_step hf env h (hn n (by simp)) h1
    obtain ⟨bc', keys', ty', e3, inv'⟩ := ih (fun x hx => hn x (by simp [hx])) inv1 he
    refine ⟨bc', keys', ty', ?_, inv'⟩
    simp [addNodes, e1, e2, e3]

theorem inv_empty : Inv ins { ins := ins } ({} : Base (Gate w)) [] (fun _ => .bool) :=
  ⟨mok_empty _, by simp, by simp, by simp, by simp, .nil⟩

theorem Inv.computes (h : Inv ins s bc keys ty) (he : s.ins = []) : Computes bc ins s.outs := by
  have hlen : bc.inputGates.length = ins.length := by
    have h1 := h.rest
    rw [he] at h1
    have h2 : ins.length ≤ bc.inputGates.length := List.drop_eq_nil_iff.1 h1.symm
    by_contra hne
    have h3 : ins.length < bc.inputGates.length := by omega
    obtain ⟨x, hx, -⟩ := h.types ins.length _ (List.getElem?_eq_getElem h3)
    simp at hx
  refine ⟨⟨ty, h.ok, hlen, ?_, h.outs.imp fun _ _ hh => ⟨hh.1, hh.2.1⟩⟩, ?_⟩
  · intro j g x hg hx
    obtain ⟨y, h1, h2⟩ := h.types j g hg
    rw [hx, Option.some.injEq] at h1
    rw [h1]; exact h2
  · intro val part hs
    refine holds_val h.outs ⟨within_self bc, ?_⟩ hs
    intro c hc
    simp only [Multi.ofBase, List.getElem?_cons_zero, Option.some.injEq] at hc
    rw [hc]

end

/-- A circuit, as main circuit. -/
theorem circuit_main {f : List Char} (hf : fileFor w = some f) {call : String → List (Val w) → Option (List (Val w))} {cst : FNode → Val w}
    {st : FConv w} (env : EnvOk call st.scMap) {c : FCircuit} {ns : List FNode} (hns : c.nodes = some ns) (hn : ∀ n ∈ ns, NodeOk cst n)
    {ins outs : List (Val w)} (he : evalCircuit call cst c ins = some outs) :
    ∃ bc, addNodes .inline true ns st {} [] = some (st, bc) ∧ Computes bc ins outs := by
  simp only [evalCircuit, hns, Option.bind_eq_bind, Option.bind_some, Option.bind_eq_some_iff] at he
  obtain ⟨s, h1, h2⟩ := he
  split at h2
  · rename_i hs
    simp only [Option.some.injEq] at h2
    subst h2
    obtain ⟨bc, keys, ty, e, inv⟩ := nodes_step hf env ns hn inv_empty h1
    exact ⟨bc, e, inv.computes hs⟩
  · cases h2

/-- A sub-circuit. -/
theorem circuit_sub {f : List Char} (hf : fileFor w = some f) {call : String → List (Val w) → Option (List (Val w))} {cst : FNode → Val w}
    {st : FConv w} (env : EnvOk call st.scMap) {c : FCircuit} {ns : List FNode} (hns : c.nodes = some ns)
    (hn : ∀ n ∈ ns, NodeOk cst n ∧ SubNodeOk n) {ins outs : List (Val w)} (he : evalCircuit call cst c ins = some outs) :
    ∃ bc, addNodes .inline false ns st {} [] = some (st, bc) ∧ SubCirc bc ∧
      ∀ ins outs, evalCircuit call cst c ins = some outs → Computes (alone bc) ins outs := by
  have key : ∀ ins outs, evalCircuit call cst c ins = some outs →
      ∃ bc, addNodes .inline false ns st {} [] = some (st, bc) ∧ SubCirc bc ∧ Computes (alone bc) ins outs := by
    intro ins outs he
    obtain ⟨bc, e, hc⟩ := circuit_main hf env hns (fun n h => (hn n h).1) he
    have ha := alone_addNodes hf ns st {} [] (fun p hp g hg => okGate_sub ((env.sub p hp).gates g hg))
    have h0 : alone ({} : Base (Gate w)) = {} := rfl
    rw [h0, e] at ha
    match hb : addNodes .inline false ns st {} [] with
    | none => rw [hb] at ha; cases ha
    | some (st', bc') =>
      obtain ⟨rfl, hsub⟩ := subCirc_addNodes hf ns env.sub (fun n h => (hn n h).2)
        ⟨by simp, rfl, rfl⟩ hb
      rw [hb] at ha
      simp only [Option.map_some, Option.some.injEq, Prod.mk.injEq, true_and] at ha
      exact ⟨bc', rfl, hsub, ha ▸ hc⟩
  obtain ⟨bc, e, hs, -⟩ := key ins outs he
  refine ⟨bc, e, hs, ?_⟩
  intro ins outs he
  obtain ⟨bc', e', -, hc⟩ := key ins outs he
  rw [e, Option.some.injEq, Prod.mk.injEq] at e'
  rw [e'.2]; exact hc

end Verif.Fuse
