import Verif.Fuse.Inline
import Verif.Macro.Props

/-!
The conversion of the nodes follows the reference evaluator.
-/
set_option autoImplicit false

namespace Verif.Fuse

open Circuit Mixed Adder Exec
open Gmw (BoolGate BaseGate)

variable {w : Nat}

/-- `m` contains the gates of `bc`, and the inputs of `bc` are its first inputs. -/
def Inside (bc : Base (Gate w)) (m : Multi (Gate w)) : Prop :=
  Within bc m ∧ ∀ c, m.circs[0]? = some c → bc.inputGates <+: c.inputGates

/-- Gate `g` of `bc` has the value `x` when the inputs are `ins`. -/
def Holds (ins : List (Val w)) (bc : Base (Gate w)) (ty : Nat → Ty) (g : Nat) (x : Val w) : Prop :=
  g < bc.gates.length ∧ ty g = x.ty ∧
    ∀ m, Inside bc m → ∀ val part, Solves m ins val part → val (0, g) = x

/-- The circuit was extended. -/
structure Grown (bc : Base (Gate w)) (ty : Nat → Ty) (bc' : Base (Gate w)) (ty' : Nat → Ty) : Prop where
  ext : Ext bc ty bc' ty'
  inputs : bc.inputGates <+: bc'.inputGates

theorem Grown.refl (bc : Base (Gate w)) (ty : Nat → Ty) : Grown bc ty bc ty := ⟨Ext.refl bc ty, List.prefix_rfl⟩

theorem Grown.trans {a b c : Base (Gate w)} {ta tb tc : Nat → Ty} (h : Grown a ta b tb) (h' : Grown b tb c tc) :
    Grown a ta c tc := ⟨h.ext.trans h'.ext, h.inputs.trans h'.inputs⟩

theorem Inside.mono {bc bc' : Base (Gate w)} {ty ty' : Nat → Ty} (h : Grown bc ty bc' ty') {m : Multi (Gate w)}
    (hm : Inside bc' m) : Inside bc m :=
  ⟨Within.mono h.ext hm.1, fun c hc => h.inputs.trans (hm.2 c hc)⟩

theorem Holds.mono {ins : List (Val w)} {bc bc' : Base (Gate w)} {ty ty' : Nat → Ty} (h : Grown bc ty bc' ty') {g : Nat} {x : Val w}
    (hh : Holds ins bc ty g x) : Holds ins bc' ty' g x :=
  ⟨Nat.lt_of_lt_of_le hh.1 h.ext.le, (h.ext.2 g hh.1).2.trans hh.2.1, fun m hm => hh.2.2 m (hm.mono h)⟩

/-- The state of the conversion corresponds to the state of the evaluator. -/
structure Inv (ins : List (Val w)) (s : EvalSt w) (bc : Base (Gate w)) (keys : List (Nat × Nat)) (ty : Nat → Ty) : Prop where
  ok : MOk bc ty
  rest : s.ins = ins.drop bc.inputGates.length
  types : ∀ (j g : Nat), bc.inputGates[j]? = some g → ∃ x, ins[j]? = some x ∧ ty g = x.ty
  known : ∀ id, (keys.lookup id).isSome = (s.vals.lookup id).isSome
  keys : ∀ id outs, s.vals.lookup id = some outs → ∃ g x, keys.lookup id = some g ∧ outs[0]? = some x ∧ Holds ins bc ty g x
  outs : List.Forall₂ (Holds ins bc ty) bc.outputGates s.outs

theorem isInput_iff (g : Gate w) :
    ofKind (fun | BaseGate.input => true | _ => false) g = true ↔ g = .base .input := by
  cases g with
  | base b => cases b <;> simp [ofKind, asBase]
  | _ => simp [ofKind, asBase]

/-- New gates which are neither inputs nor outputs. -/
theorem book_same {bc bc' : Base (Gate w)} (h : BookOk bc) (h' : BookOk bc') {new : List (Gate w)} (hg : bc'.gates = bc.gates ++ new)
    (hn : ∀ g ∈ new, g ≠ .base .input ∧ g ≠ .base .output) :
    bc'.inputGates = bc.inputGates ∧ bc'.outputGates = bc.outputGates := by
  rw [h.inputs, h.outputs, h'.inputs, h'.outputs, hg]
  constructor
  · apply Macro.positions_append_none
    intro g hx
    have := (hn g hx).1
    cases g with
    | base b => cases b <;> first | exact absurd rfl this | rfl
    | _ => rfl
  · apply Macro.positions_append_none
    intro g hx
    have := (hn g hx).2
    cases g with
    | base b => cases b <;> first | exact absurd rfl this | rfl
    | _ => rfl

theorem MOk.book {bc : Base (Gate w)} {ty : Nat → Ty} (h : MOk bc ty) : BookOk bc := by
  obtain ⟨rank, ok⟩ := h.ok
  exact ok.book

section
variable {ins : List (Val w)} {s : EvalSt w} {bc : Base (Gate w)} {keys : List (Nat × Nat)} {ty : Nat → Ty}

/-- The circuit grows by gates which are neither inputs nor outputs. -/
theorem Inv.grow (h : Inv ins s bc keys ty) {bc' : Base (Gate w)} {ty' : Nat → Ty} (ok' : MOk bc' ty') (hx : Ext bc ty bc' ty')
    {new : List (Gate w)} (hg : bc'.gates = bc.gates ++ new) (hn : ∀ g ∈ new, g ≠ .base .input ∧ g ≠ .base .output) :
    Inv ins s bc' keys ty' ∧ Grown bc ty bc' ty' := by
  obtain ⟨e1, e2⟩ := book_same (MOk.book h.ok) (MOk.book ok') hg hn
  have gr : Grown bc ty bc' ty' := ⟨hx, by rw [e1]⟩
  refine ⟨⟨ok', by rw [e1]; exact h.rest, ?_, h.known, ?_, ?_⟩, gr⟩
  · intro j g hj
    rw [e1] at hj
    obtain ⟨x, h1, h2⟩ := h.types j g hj
    have hlt : g < bc.gates.length := by
      have := (MOk.book h.ok).inputs
      have hm := List.mem_of_getElem? hj
      rw [this, mem_positions'] at hm
      obtain ⟨y, hy, -⟩ := hm
      exact (List.getElem?_eq_some_iff.1 hy).1
    exact ⟨x, h1, (hx.2 g hlt).2.trans h2⟩
  · intro id outs ho
    obtain ⟨g, x, h1, h2, h3⟩ := h.keys id outs ho
    exact ⟨g, x, h1, h2, h3.mono gr⟩
  · rw [e2]
    exact h.outs.imp fun _ _ hh => hh.mono gr

/-- A new node. -/
theorem Inv.addKey (h : Inv ins s bc keys ty) {id g : Nat} {r : List (Val w)} {x : Val w}
    (hr : r[0]? = some x) (hh : Holds ins bc ty g x) :
    Inv ins { s with vals := (id, r) :: s.vals } bc ((id, g) :: keys) ty := by
  refine ⟨h.ok, h.rest, h.types, ?_, ?_, h.outs⟩
  · intro i
    rw [List.lookup_cons, List.lookup_cons]
    cases hi : i == id with
    | true => rfl
    | false => exact h.known i
  · intro i outs ho
    rw [List.lookup_cons] at ho ⊢
    cases hi : i == id with
    | true =>
      rw [hi] at ho
      simp only [Option.some.injEq] at ho
      subst ho
      exact ⟨g, x, rfl, hr, hh⟩
    | false =>
      rw [hi] at ho
      exact h.keys i outs ho

/-- The operands. -/
theorem Inv.operands (h : Inv ins s bc keys ty) (offs : List Nat) (h0 : ∀ o ∈ offs, o = 0) (ids : List Nat) (xs : List (Val w))
    (he : operands s.vals offs ids = some xs) :
    ∃ gs, ids.mapM (fun i => keys.lookup i) = some gs ∧ List.Forall₂ (Holds ins bc ty) gs xs := by
  induction ids generalizing offs xs with
  | nil =>
    simp only [Fuse.operands, Option.some.injEq] at he
    subst he
    exact ⟨[], rfl, .nil⟩
  | cons i ids ih =>
    simp only [Fuse.operands, Option.bind_eq_bind, Option.bind_eq_some_iff, Option.some.injEq] at he
    obtain ⟨outs, ho, x, hx, xs', hxs, rfl⟩ := he
    have hz : offs.headD 0 = 0 := by
      cases offs with
      | nil => rfl
      | cons a _ => exact h0 a (by simp)
    rw [hz] at hx
    obtain ⟨g, y, h1, h2, h3⟩ := h.keys i outs ho
    rw [hx, Option.some.injEq] at h2
    subst h2
    obtain ⟨gs, e, hf⟩ := ih offs.tail (fun o ho => h0 o (List.mem_of_mem_tail ho)) xs' hxs
    refine ⟨g :: gs, ?_, .cons h3 hf⟩
    rw [List.mapM_cons, h1]
    simp [e]

theorem holds_val {gs : List Nat} {xs : List (Val w)} (hf : List.Forall₂ (Holds ins bc ty) gs xs) {m : Multi (Gate w)} (hm : Inside bc m)
    {val : Node → Val w} {part : Node → BitVec w} (hs : Solves m ins val part) : gs.map (fun g => val (0, g)) = xs := by
  induction hf with
  | nil => rfl
  | cons h _ ih => rw [List.map_cons, h.2.2 m hm val part hs, ih]

theorem holds_ty {gs : List Nat} {xs : List (Val w)} (hf : List.Forall₂ (Holds ins bc ty) gs xs) {bc' : Base (Gate w)} {ty' : Nat → Ty}
    (hx : Ext bc ty bc' ty') : gs.map ty' = xs.map Val.ty := by
  induction hf with
  | nil => rfl
  | cons h _ ih => rw [List.map_cons, List.map_cons, (hx.2 _ h.1).2, h.2.1, ih]

theorem holds_lt {gs : List Nat} {xs : List (Val w)} (hf : List.Forall₂ (Holds ins bc ty) gs xs) : ∀ g ∈ gs, g < bc.gates.length := by
  induction hf with
  | nil => simp
  | cons h _ ih =>
    intro g hg
    rcases List.mem_cons.1 hg with rfl | hg
    · exact h.1
    · exact ih g hg

/-- One gate which is neither input nor output. -/
theorem Inv.gate (h : Inv ins s bc keys ty) {gs : List Nat} {xs : List (Val w)} (hf : List.Forall₂ (Holds ins bc ty) gs xs)
    (G : Gate w) (y : Val w) (hsrc : gs = [] ↔ isSource G = true) (hk : isCross G = false) (hn : G ≠ .base .input ∧ G ≠ .base .output)
    (hT : ∀ (m : Multi (Gate w)) (ty' : Node → Ty) (v : Node), m.parents v = gs.map (fun g => (0, g)) →
      gs.map (fun g => ty' (0, g)) = xs.map Val.ty → ty' v = y.ty → Typed m ty' v G)
    (hV : ∀ (m : Multi (Gate w)) (val : Node → Val w) (part : Node → BitVec w) (v : Node), m.parents v = gs.map (fun g => (0, g)) →
      gs.map (fun g => val (0, g)) = xs → MixedEq m ins val part v G → val v = y) :
    ∃ bc' ty', bc.addWiredGate G gs = some (bc', bc.gates.length) ∧ Inv ins s bc' keys ty' ∧ Grown bc ty bc' ty' ∧
      Holds ins bc' ty' bc.gates.length y := by
  obtain ⟨bc', ty', e, ok', hx, hg, hp, ht⟩ := mok_addWired h.ok G gs y.ty (holds_lt hf) hsrc hk (by
    intro c' ty' hx hp ht
    exact hT _ _ _ (by rw [single_parents, hp]) (holds_ty hf hx) ht)
  obtain ⟨inv', gr⟩ := h.grow ok' hx hg (by intro g hgm; rw [List.mem_singleton.1 hgm]; exact hn)
  refine ⟨bc', ty', e, inv', gr, by rw [hg]; simp, ht, ?_⟩
  intro m hm val part hs
  have hl : bc.gates.length < bc'.gates.length := by rw [hg]; simp
  obtain ⟨q1, q2⟩ := hm.1 _ hl
  exact hV m val part _ (by rw [q2, hp]) (holds_val hf (hm.mono gr) hs) (hs _ G (by rw [q1, hg]; simp))

/-- An input gate. -/
theorem Inv.input (h : Inv ins s bc keys ty) {x : Val w} {rest : List (Val w)} (hi : s.ins = x :: rest) :
    ∃ bc' ty', bc.addWiredGate (.base .input) [] = some (bc', bc.gates.length) ∧
      Inv ins { s with ins := rest } bc' keys ty' ∧ Holds ins bc' ty' bc.gates.length x := by
  obtain ⟨bc', ty', e, ok', hx, hg, hp, ht⟩ := mok_addWired h.ok (.base .input) [] x.ty (by simp) (by simp [isSource, asBase])
    (by simp [isCross, asBase]) (by
      intro c' ty' hx hp ht
      simp only [Typed, ht]
      cases x <;> simp [Val.ty])
  have hin : bc'.inputGates = bc.inputGates ++ [bc.gates.length] := by
    rw [(MOk.book ok').inputs, hg, positions_append, ← (MOk.book h.ok).inputs]
    rfl
  have hout : bc'.outputGates = bc.outputGates := by
    rw [(MOk.book ok').outputs, hg, positions_append, ← (MOk.book h.ok).outputs]
    simp [ofKind, asBase]
  have gr : Grown bc ty bc' ty' := ⟨hx, by rw [hin]; exact List.prefix_append _ _⟩
  have hlt : ∀ g ∈ bc.inputGates, g < bc.gates.length := by
    intro g hm
    rw [(MOk.book h.ok).inputs, mem_positions'] at hm
    obtain ⟨y, hy, -⟩ := hm
    exact (List.getElem?_eq_some_iff.1 hy).1
  have hr := h.rest
  rw [hi] at hr
  have hxi : ins[bc.inputGates.length]? = some x := by
    have := congrArg (·[0]?) hr
    simpa using this.symm
  have hh : Holds ins bc' ty' bc.gates.length x := by
    refine ⟨by rw [hg]; simp, ht, ?_⟩
    intro m hm val part hs
    have hl : bc.gates.length < bc'.gates.length := by rw [hg]; simp
    obtain ⟨q1, q2⟩ := hm.1 _ hl
    obtain ⟨c, i, hc, hf, hv⟩ := hs (0, bc.gates.length) (.base .input) (by rw [q1, hg]; simp)
    obtain ⟨more, hmore⟩ := hm.2 c hc
    have : i = bc.inputGates.length := by
      rw [← hmore, hin, List.append_assoc, List.findIdx?_append] at hf
      have hnone : bc.inputGates.findIdx? (· = bc.gates.length) = none := by
        rw [List.findIdx?_eq_none_iff]
        intro g hg
        have := hlt g hg
        simp; omega
      simp only at hf
      rw [hnone] at hf
      simp [List.findIdx?_cons] at hf
      exact hf.symm
    rw [this, hxi, Option.some.injEq] at hv
    exact hv.symm
  refine ⟨bc', ty', e, ⟨ok', ?_, ?_, h.known, ?_, ?_⟩, hh⟩
  · rw [hin, List.length_append, List.length_singleton]
    have := congrArg List.tail hr
    simpa [List.tail_drop] using this
  · intro j g hj
    rw [hin] at hj
    by_cases hl : j < bc.inputGates.length
    · rw [List.getElem?_append_left hl] at hj
      obtain ⟨y, h1, h2⟩ := h.types j g hj
      exact ⟨y, h1, (hx.2 g (hlt g (List.mem_of_getElem? hj))).2.trans h2⟩
    · have := (List.getElem?_eq_some_iff.1 hj).1
      simp only [List.length_append, List.length_singleton] at this
      have hj' : j = bc.inputGates.length := by omega
      subst hj'
      simp only [List.getElem?_append_right (Nat.le_refl _), Nat.sub_self, List.getElem?_cons_zero, Option.some.injEq] at hj
      subst hj
      exact ⟨x, hxi, ht⟩
  · intro id outs ho
    obtain ⟨g, y, h1, h2, h3⟩ := h.keys id outs ho
    exact ⟨g, y, h1, h2, h3.mono gr⟩
  · rw [hout]
    exact h.outs.imp fun _ _ hh => hh.mono gr

/-- An output gate. -/
theorem Inv.output (h : Inv ins s bc keys ty) {g : Nat} {x : Val w} (hh : Holds ins bc ty g x) :
    ∃ bc' ty', bc.addWiredGate (.base .output) [g] = some (bc', bc.gates.length) ∧
      Inv ins { s with outs := s.outs ++ [x] } bc' keys ty' ∧ Holds ins bc' ty' bc.gates.length x := by
  obtain ⟨bc', ty', e, ok', hx, hg, hp, ht⟩ := mok_addWired h.ok (.base .output) [g] x.ty (by simpa using hh.1)
    (by simp [isSource, asBase]) (by simp [isCross, asBase]) (by
      intro c' ty' hx hp ht
      exact ⟨(0, g), by rw [single_parents, hp]; rfl, by simp only [ht, (hx.2 g hh.1).2, hh.2.1]⟩)
  have hin : bc'.inputGates = bc.inputGates := by
    rw [(MOk.book ok').inputs, hg, positions_append, ← (MOk.book h.ok).inputs]
    simp [ofKind, asBase]
  have hout : bc'.outputGates = bc.outputGates ++ [bc.gates.length] := by
    rw [(MOk.book ok').outputs, hg, positions_append, ← (MOk.book h.ok).outputs]
    rfl
  have gr : Grown bc ty bc' ty' := ⟨hx, by rw [hin]⟩
  have hh' : Holds ins bc' ty' bc.gates.length x := by
    refine ⟨by rw [hg]; simp, ht, ?_⟩
    intro m hm val part hs
    have hl : bc.gates.length < bc'.gates.length := by rw [hg]; simp
    obtain ⟨q1, q2⟩ := hm.1 _ hl
    obtain ⟨p, hpp, hv⟩ := hs (0, bc.gates.length) (.base .output) (by rw [q1, hg]; simp)
    rw [q2, hp] at hpp
    simp only [List.map_cons, List.map_nil, List.cons.injEq, and_true] at hpp
    rw [hv, ← hpp]
    exact hh.2.2 m (hm.mono gr) val part hs
  refine ⟨bc', ty', e, ⟨ok', by rw [hin]; exact h.rest, ?_, h.known, ?_, ?_⟩, hh'⟩
  · intro j g hj
    rw [hin] at hj
    obtain ⟨y, h1, h2⟩ := h.types j g hj
    have hlt : g < bc.gates.length := by
      have hm := List.mem_of_getElem? hj
      rw [(MOk.book h.ok).inputs, mem_positions'] at hm
      obtain ⟨y, hy, -⟩ := hm
      exact (List.getElem?_eq_some_iff.1 hy).1
    exact ⟨y, h1, (hx.2 g hlt).2.trans h2⟩
  · intro id outs ho
    obtain ⟨g, y, h1, h2, h3⟩ := h.keys id outs ho
    exact ⟨g, y, h1, h2, h3.mono gr⟩
  · rw [hout]
    exact List.rel_append (h.outs.imp fun _ _ hh => hh.mono gr) (.cons hh' .nil)

/-- Identities. -/
theorem Inv.identities (h : Inv ins s bc keys ty) {gs : List Nat} {xs : List (Val w)} (hf : List.Forall₂ (Holds ins bc ty) gs xs) :
    ∃ bc' ty' ids, identities bc gs = some (bc', ids) ∧ Inv ins s bc' keys ty' ∧ Grown bc ty bc' ty' ∧
      List.Forall₂ (Holds ins bc' ty') ids xs := by
  induction gs generalizing bc ty xs with
  | nil =>
    cases hf
    exact ⟨bc, ty, [], rfl, h, Grown.refl bc ty, .nil⟩
  | cons g gs ih =>
    cases hf with
    | cons hx hf =>
      rename_i x xs
      obtain ⟨bc1, ty1, e1, inv1, gr1, h1⟩ := h.gate (.cons hx .nil) (.base .identity) x (by simp [isSource, asBase])
        (by simp [isCross, asBase]) (by simp) (by
          intro m ty' v hp ht hv
          refine ⟨(0, g), hp, ?_⟩
          simp only [List.map_cons, List.map_nil, List.cons.injEq, and_true] at ht
          rw [hv, ht]) (by
          intro m val part v hp hx hv
          obtain ⟨p, hpp, hv⟩ := hv
          rw [hp] at hpp
          simp only [List.map_cons, List.map_nil, List.cons.injEq, and_true] at hpp hx
          rw [hv, ← hpp, hx])
      obtain ⟨bc2, ty2, ids, e2, inv2, gr2, h2⟩ := ih inv1 (hf.imp fun _ _ hh => hh.mono gr1)
      refine ⟨bc2, ty2, bc.gates.length :: ids, ?_, inv2, gr1.trans gr2, .cons (h1.mono gr2) h2⟩
      simp [Fuse.identities, e1, e2]

end

/-- The circuit computes `outs` on `ins`. -/
structure Computes (c : Base (Gate w)) (ins outs : List (Val w)) : Prop where
  ok : ∃ ty, MOk c ty ∧ c.inputGates.length = ins.length ∧
    (∀ (j g : Nat) (x : Val w), c.inputGates[j]? = some g → ins[j]? = some x → ty g = x.ty) ∧
    List.Forall₂ (fun g x => g < c.gates.length ∧ ty g = x.ty) c.outputGates outs
  val : ∀ val part, Solves (.ofBase c) ins val part → c.outputGates.map (fun g => val (0, g)) = outs

end Verif.Fuse
