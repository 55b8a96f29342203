import Verif.Cbc.Model
import Verif.Mail.Gates
import Verif.Mixed.A2b

/-!
Lemmas for C67: inlining a Bristol circuit into a Boolean circuit.
-/
set_option autoImplicit false

namespace Verif.Cbc

open Circuit Gmw Secret Exec Mail

/-- The number of AND gates of a description. -/
def andGates (b : Parse.Circuit) : Nat := b.gates.countP fun g => g.kind = .and

/-- A Bristol circuit loaded as sub-circuit as a list of gates. -/
theorem bristol_shape {b : Parse.Circuit} (ok : Parse.BristolOk b) :
    ∃ (c : Base BoolGate) (mid : List Macro.Op) (outs : List Nat),
      Parse.fromBristol b .subCircuit = .ok c ∧
      Macro.BuiltBy c (List.replicate b.totalInputs Macro.scIn ++ (mid ++ outs.map Macro.scOut)) ∧
      c.isMain = false ∧ outs.length = b.totalOutputs ∧
      (∀ (i : Nat) (o : Macro.Op), mid[i]? = some o → Mixed.isOp o.1 = true ∧
        o.2.length = Exec.arity o.1 ∧ ∀ a ∈ o.2, a < b.totalInputs + i) ∧
      (∀ o ∈ outs, o < b.totalInputs + mid.length) ∧
      (mid.map (·.1)).countP (· = .and) = andGates b ∧
      ∀ (val : Nat → Bool) (inp : List Bool), (∀ w < b.totalInputs, val w = inp.getD w false) →
        (∀ (i : Nat) (o : Macro.Op), mid[i]? = some o →
          val (b.totalInputs + i) = gateFn false o.1 (o.2.map val)) →
        outs.map val = b.eval inp := by
  obtain ⟨a1, a2, a3, a4, a5⟩ := Parse.bristol_ops ok
  obtain ⟨c, e1, e2⟩ := Parse.fromBristol_ops b .subCircuit ok.inputs ok.outputs (Parse.bristol_range ok)
  have hall : Parse.allOps b .subCircuit = List.replicate b.totalInputs Macro.scIn ++
      ((Parse.opsOf b.totalInputs (Parse.map0 b) b.gates).1 ++
        ((Parse.opsOf b.totalInputs (Parse.map0 b) b.gates).2.drop (b.header.wires - b.totalOutputs)).map Macro.scOut) := rfl
  obtain ⟨c', f1, f2, f3⟩ := Mixed.runOps_builtBy (Parse.allOps b .subCircuit) (by
    intro i o hi a ha
    rw [hall] at hi
    by_cases hlt : i < b.totalInputs
    · rw [List.getElem?_append_left (by simpa using hlt), List.getElem?_replicate, if_pos hlt] at hi
      cases hi
      simp at ha
    · rw [List.getElem?_append_right (by simp; omega), List.length_replicate] at hi
      by_cases hm : i - b.totalInputs < b.gates.length
      · rw [List.getElem?_append_left (by rw [a1]; exact hm)] at hi
        have := (a3 _ _ _ hi).2.1 a ha
        omega
      · rw [List.getElem?_append_right (by rw [a1]; omega), List.getElem?_map, Option.map_eq_some_iff] at hi
        obtain ⟨s, hs, rfl⟩ := hi
        have := a4 s (List.mem_of_getElem? hs)
        simp only [Macro.scOut, List.mem_singleton] at ha
        omega)
  rw [e2, Option.some.injEq] at f1
  subst f1
  refine ⟨c, (Parse.opsOf b.totalInputs (Parse.map0 b) b.gates).1,
    (Parse.opsOf b.totalInputs (Parse.map0 b) b.gates).2.drop (b.header.wires - b.totalOutputs), e1, ?_, f3, ?_, ?_, ?_, ?_, ?_⟩
  · rw [← hall]; exact f2
  · rw [List.length_drop, a2]
    have := ok.outputs
    omega
  · intro i o ho
    obtain ⟨q1, q2, -, k, q4⟩ := a3 i o.1 o.2 ho
    exact ⟨by rw [q4]; cases k <;> rfl, q1, q2⟩
  · intro o ho
    rw [a1]
    exact a4 o ho
  · have : ∀ (gs : List Parse.Gate) (n : Nat) (m : List Nat),
        ((Parse.opsOf n m gs).1.map (·.1)).countP (fun g => decide (g = .and)) =
          gs.countP fun g => decide (g.kind = .and) := by
      intro gs
      induction gs with
      | nil => intro n m; rfl
      | cons g gs ih =>
        intro n m
        simp only [Parse.opsOf, List.map_cons, List.countP_cons, ih]
        congr 1
        cases g.kind <;> rfl
    exact this _ _ _
  · intro val inp h1 h2
    exact a5 val inp h1 fun i g args hi => h2 i (g, args) hi

/-- The new wires lead from older to newer gates. -/
theorem inlineGates_order {c : Base BoolGate} (hr : ∀ e ∈ c.edges, e.1 < e.2) (vs : List Nat)
    (s s' : Base BoolGate) (m m' : Nat → Nat) (h : inlineGates c vs s m = some (s', m'))
    (hs : ∀ e ∈ s.edges, e.1 < e.2) (hm : ∀ u, m u < s.gates.length) :
    ∀ e ∈ s'.edges, e.1 < e.2 := by
  induction vs generalizing s m with
  | nil =>
    simp only [inlineGates, Option.some.injEq, Prod.mk.injEq] at h
    rw [← h.1]; exact hs
  | cons v vs ih =>
    simp only [inlineGates, Option.bind_eq_bind, Option.bind_eq_some_iff] at h
    obtain ⟨g, -, t, ht, h2⟩ := h
    obtain ⟨a1, a2, a3, -⟩ := addGate_gates s (conv g)
    obtain ⟨-, -, rfl⟩ := foldWires_spec _ _ _ _ ht
    rw [a3] at ht h2
    refine ih _ _ h2 ?_ ?_
    · intro e he
      simp only [a2, List.mem_append] at he
      rcases he with he | he
      · exact hs e he
      · simp only [List.mem_map] at he
        obtain ⟨x, ⟨u, hu, rfl⟩, rfl⟩ := he
        have hne : u ≠ v := by
          rintro rfl
          have := hr _ ((mem_parents c u u).1 hu)
          simp at this
        simp only [hne, if_false]
        exact hm u
    · intro u
      simp only [a1, List.length_append, List.length_singleton]
      by_cases hu : u = v
      · simp [hu]
      · simp only [hu, if_false]
        have := hm u
        omega

theorem addSub_order {s s' c : Base BoolGate} {inputs outs : List Nat} {rank : Nat → Nat}
    (w : SubOk c rank) (hr : ∀ e ∈ c.edges, e.1 < e.2) (hs : ∀ e ∈ s.edges, e.1 < e.2)
    (hE : EdgesIn s) (h0 : 0 < s.gates.length)
    (h : s.addSubCircuit c inputs = some (s', outs)) (hin : ∀ i ∈ inputs, i < s.gates.length) :
    ∀ e ∈ s'.edges, e.1 < e.2 := by
  unfold Base.addSubCircuit at h
  rw [if_pos ⟨w.notMain, w.noInputs⟩] at h
  simp only [Option.bind_eq_bind, Option.bind_eq_some_iff] at h
  obtain ⟨L, eL, ⟨t, m⟩, e, u, hu, h⟩ := h
  have hu' : u = s' := by
    split at h
    · simp only [Option.pure_def, Option.some.injEq, Prod.mk.injEq] at h; exact h.1
    · simp at h
  subst hu'
  have ho := inlineGates_order hr L s t _ m e hs (fun _ => h0)
  obtain ⟨L', eL', hnd, hall, htopo⟩ := iterIds_spec w
  rw [eL, Option.some.injEq] at eL'
  subst eL'
  obtain ⟨t', m', e', hc⟩ := inlineGates_spec s c hE L [] s (fun _ => 0) (by simpa using hnd)
    (fun v hv => (hall v).1 hv) (by simpa using htopo)
    ⟨by simp, by simp, hE, by simp, fun _ _ => rfl, by simp⟩
  rw [e, Option.some.injEq, Prod.mk.injEq] at e'
  obtain ⟨rfl, rfl⟩ := e'
  simp only [List.nil_append] at hc
  have hmv : ∀ v ∈ c.scInputGates, s.gates.length ≤ m v ∧ m v < t.gates.length := by
    intro v hv
    have hvl := w.bound v (by simp [hv])
    obtain ⟨j, hj⟩ := List.mem_iff_getElem?.1 ((hall v).2 hvl)
    have := (List.getElem?_eq_some_iff.1 hj).1
    rw [hc.map j v hj, hc.length]
    omega
  have hw := wireInputs_spec (inputs.zip (c.scInputGates.map m)) t (by
    rintro ⟨f, x⟩ hp
    obtain ⟨h1, h2⟩ := List.of_mem_zip hp
    simp only [List.mem_map] at h2
    obtain ⟨v, hv, rfl⟩ := h2
    have := hin f h1
    have := hmv v hv
    simp only; omega)
  simp only at hu
  rw [hw, Option.some.injEq] at hu
  subst hu
  intro x hx
  rcases List.mem_append.1 hx with hx | hx
  · exact ho x hx
  · obtain ⟨f, y⟩ := x
    obtain ⟨h1, h2⟩ := List.of_mem_zip hx
    simp only [List.mem_map] at h2
    obtain ⟨v, hv, rfl⟩ := h2
    have := hin f h1
    have := hmv v hv
    simp only; omega

/-- A sub-circuit of this shape can be inlined. -/
theorem shape_subOk {c : Base BoolGate} {mid : List Macro.Op} {outs : List Nat} {n : Nat}
    (hb : Macro.BuiltBy c (List.replicate n Macro.scIn ++ (mid ++ outs.map Macro.scOut)))
    (hm : c.isMain = false)
    (hmid : ∀ (i : Nat) (o : Macro.Op), mid[i]? = some o → Mixed.isOp o.1 = true ∧
      o.2.length = Exec.arity o.1 ∧ ∀ a ∈ o.2, a < n + i) : SubOk c id := by
  obtain ⟨l1, l2, l3, l4, l5⟩ := Mixed.shape_lists hb fun o ho => by
    obtain ⟨i, hi⟩ := List.mem_iff_getElem?.1 ho
    exact (hmid i o hi).1
  have ne : ∀ (i : Nat) (o : Macro.Op), mid[i]? = some o → o.2 ≠ [] := by
    intro i o ho h
    obtain ⟨h1, h2, -⟩ := hmid i o ho
    rw [h] at h2
    rcases Mixed.isOp_cases h1 with e | e | e <;> rw [e] at h2 <;> simp [Exec.arity] at h2
  refine ⟨hm, l1, ?_, ?_, ?_, ?_, ?_⟩
  · intro e he
    obtain ⟨h1, h2⟩ := hb.edges e he
    omega
  · intro e he
    exact (hb.edges e he).1
  · simp only [l2, l3, List.nil_append]
    exact List.nodup_range
  · intro g hg
    simp only [l2, l3, List.nil_append, List.mem_range] at hg
    omega
  · intro g hg
    simp only [l2, l3, List.nil_append, List.mem_range]
    rcases Mixed.shape_cases hb (List.getElem?_eq_getElem hg) with ⟨h1, -, h3⟩ | ⟨i, o, h1, h2, -, h4⟩ |
      ⟨j, o, h1, h2, -, h4⟩
    · simp [h1, h3]
    · have := ne i o h2
      simp only [h4, this, false_iff]; omega
    · simp only [h4, List.cons_ne_nil, false_iff]; omega

/-- Counting the copied gates. -/
theorem copied_count {s s' c : Base BoolGate} {m : Nat → Nat} (hpre : s.gates <+: s'.gates)
    (hnew : ∀ (v : Nat) (g : BoolGate), c.gates[v]? = some g →
      s.gates.length ≤ m v ∧ s'.gates[m v]? = some (conv g))
    (hinj : ∀ u v, u < c.gates.length → v < c.gates.length → m u = m v → u = v)
    (hlen : s'.gates.length = s.gates.length + c.gates.length) (p : BoolGate → Bool) :
    s'.gates.countP p = s.gates.countP p + (c.gates.map conv).countP p := by
  obtain ⟨gs, hgs⟩ := hpre
  rw [← hgs, List.countP_append]
  congr 1
  have hl : gs.length = c.gates.length := by
    rw [← hgs, List.length_append] at hlen; omega
  have hperm : ((List.range c.gates.length).map fun v => m v - s.gates.length).Perm
      (List.range c.gates.length) := by
    have hge : ∀ v < c.gates.length, s.gates.length ≤ m v ∧ m v < s'.gates.length := by
      intro v hv
      obtain ⟨h1, h2⟩ := hnew v _ (List.getElem?_eq_getElem hv)
      exact ⟨h1, (List.getElem?_eq_some_iff.1 h2).1⟩
    apply (List.subperm_of_subset ?_ ?_).perm_of_length_le (by simp)
    · apply List.Nodup.map_on _ List.nodup_range
      intro u hu v hv huv
      have hu' := List.mem_range.1 hu
      have hv' := List.mem_range.1 hv
      have := hge u hu'
      have := hge v hv'
      exact hinj u v hu' hv' (by omega)
    · intro x hx
      obtain ⟨v, hv, rfl⟩ := List.mem_map.1 hx
      have := hge v (List.mem_range.1 hv)
      rw [List.mem_range]; omega
  have e1 : gs = (List.range c.gates.length).map fun i => gs.getD i .and := by
    apply List.ext_getElem
    · simp [hl]
    · intro i h1 h2
      simp [List.getD_eq_getElem?_getD, h1]
  have e2 : c.gates.map conv = ((List.range c.gates.length).map fun v => m v - s.gates.length).map
      fun i => gs.getD i .and := by
    apply List.ext_getElem
    · simp
    · intro i h1 h2
      have hi : i < c.gates.length := by simpa using h1
      obtain ⟨h3, h4⟩ := hnew i _ (List.getElem?_eq_getElem hi)
      rw [← hgs, List.getElem?_append_right h3] at h4
      simp [List.getD_eq_getElem?_getD, h4]
  rw [e2, (hperm.map fun i => gs.getD i .and).countP_eq p, ← e1]

theorem gateVal_op {g : BoolGate} (hg : Mixed.isOp g = true) {x : Bool} {l : List Bool}
    (hl : l.length = Exec.arity g) (h : GateVal g x l.reverse) : x = gateFn false g l := by
  rw [← Mixed.comm_gate hg l hl]
  have hl' : l.reverse.length = Exec.arity g := by simpa using hl
  generalize l.reverse = r at h hl'
  rcases Mixed.isOp_cases hg with rfl | rfl | rfl
  · match r, hl' with
    | [a, b], _ => exact h
  · match r, hl' with
    | [a, b], _ => exact h
  · match r, hl' with
    | [a], _ => exact h

theorem conv_op {g : BoolGate} (h : Mixed.isOp g = true) : conv g = g ∧ quiet g = true ∧
    plainGate g = true := by
  rcases Mixed.isOp_cases h with rfl | rfl | rfl <;> exact ⟨rfl, rfl, rfl⟩

theorem prefix_at {α : Type} {a b : List α} (h : a <+: b) {i : Nat} (hi : i < a.length) :
    b[i]? = a[i]? := by
  obtain ⟨t, rfl⟩ := h
  exact List.getElem?_append_left hi

/-- Inlining a Bristol circuit succeeds, keeps the circuit well-formed, and the returned secrets
have the values of the outputs of the described function. -/
theorem inlined_made {b : Parse.Circuit} (ok : Parse.BristolOk b) {c : Base BoolGate} (hb : BaseOk c)
    (h0 : 0 < c.gates.length) {ins : List Sec} {Fs : List ((Node → Bool) → Bool)}
    (h : List.Forall₂ (Holds [c]) ins Fs) (hl : ins.length = b.totalInputs) :
    ∃ circ b' outs, Parse.fromBristol b .subCircuit = .ok circ ∧
      inlined [c] circ ins = some (b', outs) ∧ Made [c] b' (andGates b) ∧
      List.Forall₂ (Holds b') outs ((List.range b.totalOutputs).map fun (j : Nat) (val : Node → Bool) =>
        (b.eval (Fs.map (· val))).getD j false) := by
  obtain ⟨circ, mid, outs, e, hbuilt, hmain, lo, hmid, hout, hand, heval⟩ := bristol_shape ok
  have sub := shape_subOk hbuilt hmain hmid
  obtain ⟨l1, l2, l3, l4, l5⟩ := Mixed.shape_lists hbuilt fun o ho => by
    obtain ⟨i, hi⟩ := List.mem_iff_getElem?.1 ho
    exact (hmid i o hi).1
  have hE := baseOk_edges hb
  have hins : ∀ (j : Nat) (s : Sec), ins[j]? = some s → s.1 = 0 ∧ s.2 < c.gates.length ∧
      ∃ F, Fs[j]? = some F ∧ Holds [c] s F := by
    intro j s hs
    obtain ⟨hj, rfl⟩ := List.getElem?_eq_some_iff.1 hs
    have hj' : j < Fs.length := by rw [← h.length_eq]; exact hj
    have hh : Holds [c] ins[j] Fs[j] := (List.forall₂_iff_get.1 h).2 j hj hj'
    refine ⟨hh.2.1, ?_, Fs[j], List.getElem?_eq_getElem hj', hh⟩
    obtain ⟨d, hd, hlt⟩ := hh.1
    rw [hh.2.1] at hd
    rw [← Option.some.inj hd] at hlt
    exact hlt
  have hmem : ∀ i ∈ ins.map (·.2), i < c.gates.length := by
    intro i hi
    obtain ⟨s, hs, rfl⟩ := List.mem_map.1 hi
    obtain ⟨j, hj⟩ := List.mem_iff_getElem?.1 hs
    exact (hins j s hj).2.1
  obtain ⟨s', m, e', hpre, hold, hnew, hinp, hinj, hlen, hE', hsur, hbook, hsimd⟩ :=
    add_sub_circuit_structure c circ id hE sub (ins.map (·.2)) hmem (by rw [l3]; simp [hl])
  have hord := addSub_order sub (fun e he => (hbuilt.edges e he).1) (fun e he => (hb.edges e he).1) hE
    h0 e' hmem
  -- the copied gates
  have hcopy : ∀ v < circ.gates.length,
      (v < b.totalInputs ∧ s'.gates[m v]? = some (.base .identity) ∧
        ∃ a, ins[v]? = some a ∧ s'.parents (m v) = [a.2]) ∨
      (∃ i o, v = b.totalInputs + i ∧ mid[i]? = some o ∧ s'.gates[m v]? = some o.1 ∧
        s'.parents (m v) = (o.2.map m).reverse) ∨
      (∃ j o, v = b.totalInputs + mid.length + j ∧ outs[j]? = some o ∧
        s'.gates[m v]? = some (.base .identity) ∧ s'.parents (m v) = [m o]) := by
    intro v hv
    have hg := List.getElem?_eq_getElem hv
    obtain ⟨n1, n2, n3⟩ := hnew v _ hg
    rw [l3, List.mem_range] at n3
    rcases Mixed.shape_cases hbuilt hg with ⟨h1, h2, h3⟩ | ⟨i, o, h1, h2, h3, h4⟩ | ⟨j, o, h1, h2, h3, h4⟩
    · left
      have ha : ins[v]? = some (ins[v]'(by omega)) := List.getElem?_eq_getElem (by omega)
      refine ⟨h1, by rw [n2, h2]; rfl, _, ha, ?_⟩
      exact hinp v v _ (by rw [l3, List.getElem?_range h1]) (by rw [List.getElem?_map, ha]; rfl)
    · right; left
      refine ⟨i, o, h1, h2, ?_, ?_⟩
      · rw [n2, h3, (conv_op (hmid i o h2).1).1]
      · rw [n3 (by omega), h4]
    · right; right
      refine ⟨j, o, h1, h2, by rw [n2, h3]; rfl, ?_⟩
      rw [n3 (by omega), h4]
      rfl
  have hgate : ∀ (i : Nat) (g : BoolGate), c.gates.length ≤ i → s'.gates[i]? = some g →
      quiet g = true ∧ plainGate g = true ∧ (s'.parents i).length = Exec.arity g := by
    intro i g hi hg
    obtain ⟨v, hv, rfl⟩ := hsur i hi (List.getElem?_eq_some_iff.1 hg).1
    rcases hcopy v hv with ⟨-, h2, a, -, h3⟩ | ⟨i, o, h1, h2, h3, h4⟩ | ⟨j, o, h1, h2, h3, h4⟩
    · rw [h2, Option.some.injEq] at hg
      subst hg
      exact ⟨rfl, rfl, by rw [h3]; rfl⟩
    · rw [h3, Option.some.injEq] at hg
      subst hg
      obtain ⟨q1, q2, -⟩ := hmid i o h2
      obtain ⟨-, r1, r2⟩ := conv_op q1
      exact ⟨r1, r2, by rw [h4]; simpa using q2⟩
    · rw [h3, Option.some.injEq] at hg
      subst hg
      exact ⟨rfl, rfl, by rw [h4]; rfl⟩
  have hok' : BaseOk s' := by
    refine ⟨fun e he => ⟨hord e he, (hE' e he).2⟩, ?_, ?_, hbook hb.book⟩
    · intro i g hg
      by_cases hi : i < c.gates.length
      · rw [hold i hi]
        exact hb.arity i g (by rw [← prefix_at hpre hi]; exact hg)
      · exact (hgate i g (by omega) hg).2.2
    · intro i g hg
      by_cases hi : i < c.gates.length
      · exact hb.kinds i g (by rw [← prefix_at hpre hi]; exact hg)
      · exact (hgate i g (by omega) hg).2.1
  have hext : Extends [c] [s'] := by
    refine ⟨rfl, ?_⟩
    intro i d hd
    cases i with
    | zero =>
      cases hd
      exact ⟨s', rfl, hpre, hold, hsimd, fun _ => hok'⟩
    | succ i => simp at hd
  have hcount : s'.gates.countP (fun g => decide (g = .and)) =
      c.gates.countP (fun g => decide (g = .and)) + andGates b := by
    rw [copied_count hpre (fun v g hg => ⟨(hnew v g hg).1, (hnew v g hg).2.1⟩) hinj hlen, hbuilt.gates,
      ← hand]
    congr 1
    rw [List.map_append, List.map_append, List.map_append, List.map_append, List.countP_append,
      List.countP_append]
    have z : ∀ l : List BoolGate, (∀ g ∈ l, g = .base .identity) →
        l.countP (fun g => decide (g = .and)) = 0 := by
      intro l hl
      rw [List.countP_eq_zero]
      intro g hg
      rw [hl g hg]; simp
    have hconv : (mid.map (·.1)).map conv = mid.map (·.1) := by
      rw [List.map_map]
      apply List.map_congr_left
      intro o ho
      obtain ⟨i, hi⟩ := List.mem_iff_getElem?.1 ho
      exact (conv_op (hmid i o hi).1).1
    have z1 := z (((outs.map Macro.scOut).map (·.1)).map conv) (by
      intro g hg
      simp only [List.map_map, List.mem_map] at hg
      obtain ⟨x, -, rfl⟩ := hg
      rfl)
    have z2 := z (((List.replicate b.totalInputs Macro.scIn).map (·.1)).map conv) (by
      intro g hg
      simp only [List.map_replicate] at hg
      rw [List.eq_of_mem_replicate hg]
      rfl)
    rw [hconv, z1, z2]
    omega
  refine ⟨circ, [s'], (circ.scOutputGates.map m).map fun g => (0, g), e, ?_, ⟨?_, hext, ?_, ?_⟩, ?_⟩
  rotate_left
  · intro i d hd
    cases i with
    | zero => cases hd; exact hE'
    | succ i => simp at hd
  · simp only [andCount, List.map_cons, List.map_nil, List.sum_cons, List.sum_nil, hcount]
    omega
  · obtain ⟨gs, hgs⟩ := hpre
    refine ⟨c, s', gs, rfl, rfl, hgs.symm, ?_⟩
    intro g hg
    obtain ⟨i, hi⟩ := List.mem_iff_getElem?.1 hg
    refine (hgate (c.gates.length + i) g (by omega) ?_).1
    rw [← hgs, List.getElem?_append_right (by omega), Nat.add_sub_cancel_left]
    exact hi
  rotate_left
  · unfold inlined
    rw [if_pos (by
      intro s hs
      obtain ⟨j, hj⟩ := List.mem_iff_getElem?.1 hs
      exact (hins j s hj).1)]
    simp only [List.getElem?_cons_zero, Option.bind_eq_bind, Option.bind_some, e', Option.pure_def,
      List.set_cons_zero]
  · rw [l4, lo]
    rw [List.forall₂_iff_get]
    refine ⟨by simp, ?_⟩
    intro j hj hj'
    have hjo : j < b.totalOutputs := by simpa using hj'
    simp only [List.get_eq_getElem, List.getElem_map, List.getElem_range', List.getElem_range, Nat.one_mul]
    refine ⟨⟨s', rfl, ?_⟩, rfl, ?_⟩
    · have := (hnew (b.totalInputs + mid.length + j) _ (List.getElem?_eq_getElem (by omega))).2.1
      exact (List.getElem?_eq_some_iff.1 this).1
    · intro val hv
      have hval : ∀ v < circ.gates.length, ∀ g, s'.gates[m v]? = some g →
          GateVal g (val (0, m v)) ((s'.parents (m v)).map fun u => val (0, u)) :=
        fun v _ g hg => hv 0 s' rfl (m v) g hg
      have hvc := hext.consistent hv
      have hev := heval (fun u => val (0, m u)) (Fs.map (· val)) ?_ ?_
      · beta_reduce
        rw [← hev, List.getD_eq_getElem?_getD, List.getElem?_map]
        have hjj : j < outs.length := by omega
        rw [List.getElem?_eq_getElem hjj]
        have hv2 : b.totalInputs + mid.length + j < circ.gates.length := by omega
        rcases hcopy _ hv2 with ⟨h1, -⟩ | ⟨i, o, h1, h2, -⟩ | ⟨k, o, h1, h2, h3, h4⟩
        · omega
        · have := (List.getElem?_eq_some_iff.1 h2).1
          omega
        · have hk : k = j := by omega
          subst hk
          rw [List.getElem?_eq_getElem hjj, Option.some.injEq] at h2
          have := hval _ hv2 _ h3
          rw [h4] at this
          simp only [Option.map_some, Option.getD_some, h2]
          exact this
      · intro w hw
        rcases hcopy w (by omega) with ⟨h1, h2, a, h3, h4⟩ | ⟨i, o, h1, -⟩ | ⟨k, o, h1, -⟩
        · have := hval w (by omega) _ h2
          rw [h4] at this
          obtain ⟨q1, -, F, q3, q4⟩ := hins w a h3
          have hq := q4.2.2 val hvc
          rw [List.getD_eq_getElem?_getD, List.getElem?_map, q3]
          simp only [Option.map_some, Option.getD_some]
          rw [← hq]
          have : val (0, m w) = val (0, a.2) := this
          rw [this]
          congr 1
          exact Prod.ext q1.symm rfl
        · omega
        · omega
      · intro i o ho
        have hil := (List.getElem?_eq_some_iff.1 ho).1
        have hv2 : b.totalInputs + i < circ.gates.length := by omega
        rcases hcopy _ hv2 with ⟨h1, -⟩ | ⟨i', o', h1, h2, h3, h4⟩ | ⟨k, o', h1, h2, -⟩
        · omega
        · have hk : i' = i := by omega
          subst hk
          rw [ho, Option.some.injEq] at h2
          subst h2
          have := hval _ hv2 _ h3
          rw [h4, List.map_reverse, List.map_map] at this
          exact gateVal_op (hmid _ o ho).1 (by simpa using (hmid _ o ho).2.1) this
        · omega

end Verif.Cbc
