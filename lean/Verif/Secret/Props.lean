import Verif.Secret.Grow

/-!
C12: the operators on `Secret`s build the circuit they denote.

For every builder, every pair of secrets of one circuit and every operator: the call does not
panic, all existing gates keep their operands (and therefore their values), and in every
evaluation of the resulting circuits the returned secret has the value of the operator applied to
the values of the operands; `k` is the number of AND gates spent.
-/
set_option autoImplicit false

namespace Verif.Secret

open Circuit Gmw Exec

theorem valid2 {b : Builder} {s r : Sec} (hs : Valid b s) (hr : Valid b r) (h : s.1 = r.1) :
    ∃ c, b[s.1]? = some c ∧ ∀ a ∈ [s.2, r.2], a < c.gates.length := by
  obtain ⟨c, hc, h1⟩ := hs
  obtain ⟨d, hd, h2⟩ := hr
  rw [← h, hc] at hd
  cases hd
  exact ⟨c, hc, by simp [h1, h2]⟩

theorem valid1 {b : Builder} {s : Sec} (hs : Valid b s) :
    ∃ c, b[s.1]? = some c ∧ ∀ a ∈ [s.2], a < c.gates.length := by
  obtain ⟨c, hc, h1⟩ := hs
  exact ⟨c, hc, by simp [h1]⟩

/-- **C12**, `from_const`. -/
theorem fromConst_denotes {b : Builder} (hb : Ok b) (i : Nat) (hi : i < b.length) (v : Bool) :
    ∃ b' t, fromConst b i v = some (b', t) ∧ t.1 = i ∧ Denotes b b' t (fun _ => v) 0 := by
  unfold fromConst
  simp only [addGate_wired]
  refine onCirc_wired hb i (.base (.constant v)) [] ⟨b[i], by simp [hi], by simp⟩ rfl rfl _ ?_
  intro val x hx
  exact hx

/-- **C12**, `^`. -/
theorem bitXor_denotes {b : Builder} (hb : Ok b) {s r : Sec} (hs : Valid b s) (hr : Valid b r)
    (h : s.1 = r.1) : ∃ b' t, bitXor b s r = some (b', t) ∧ t.1 = s.1 ∧
      Denotes b b' t (fun val => val s ^^ val r) 0 := by
  unfold bitXor
  rw [if_pos h]
  refine onCirc_wired hb s.1 .xor [s.2, r.2] (valid2 hs hr h) rfl rfl _ ?_
  intro val x hx
  have e : ((s.1, r.2) : Node) = r := by rw [h]
  simpa [GateVal, e] using hx

/-- **C12**, `&`: one AND gate. -/
theorem bitAnd_denotes {b : Builder} (hb : Ok b) {s r : Sec} (hs : Valid b s) (hr : Valid b r)
    (h : s.1 = r.1) : ∃ b' t, bitAnd b s r = some (b', t) ∧ t.1 = s.1 ∧
      Denotes b b' t (fun val => val s && val r) 1 := by
  unfold bitAnd
  rw [if_pos h]
  refine onCirc_wired hb s.1 .and [s.2, r.2] (valid2 hs hr h) rfl rfl _ ?_
  intro val x hx
  have e : ((s.1, r.2) : Node) = r := by rw [h]
  simpa [GateVal, e] using hx

/-- **C12**, `!`. -/
theorem not_denotes {b : Builder} (hb : Ok b) {s : Sec} (hs : Valid b s) :
    ∃ b' t, not b s = some (b', t) ∧ t.1 = s.1 ∧ Denotes b b' t (fun val => !val s) 0 := by
  refine onCirc_wired hb s.1 .inv [s.2] (valid1 hs) rfl rfl _ ?_
  intro val x hx
  simpa [GateVal] using hx

/-- **C12**, `output`: the output gate carries the value. -/
theorem output_denotes {b : Builder} (hb : Ok b) {s : Sec} (hs : Valid b s) :
    ∃ b' t, output b s = some (b', t) ∧ t.1 = s.1 ∧ Denotes b b' t (fun val => val s) 0 := by
  refine onCirc_wired hb s.1 (.base .output) [s.2] (valid1 hs) rfl rfl _ ?_
  intro val x hx
  simpa [GateVal] using hx

/-- A constant followed by a binary gate: the two gates added under one lock are those of
`from_const` and of the operator. -/
theorem const_then (b : Builder) (s : Sec) (v : Bool) (g : BoolGate) :
    onCirc b s.1 (fun c => (c.addGate (.base (.constant v))).1.addWiredGate g
      [s.2, (c.addGate (.base (.constant v))).2]) =
    (fromConst b s.1 v).bind fun x => onCirc x.1 s.1 fun c => c.addWiredGate g [s.2, x.2.2] := by
  unfold fromConst onCirc
  cases h : b[s.1]? with
  | none => rfl
  | some c =>
    have hi := (List.getElem?_eq_some_iff.1 h).1
    simp [hi]

/-- **C12**, `^ bool`. -/
theorem bitXorConst_denotes {b : Builder} (hb : Ok b) {s : Sec} (hs : Valid b s) (v : Bool) :
    ∃ b' t, bitXorConst b s v = some (b', t) ∧ t.1 = s.1 ∧
      Denotes b b' t (fun val => val s ^^ v) 0 := by
  have hi : s.1 < b.length := by obtain ⟨c, hc, -⟩ := hs; exact (List.getElem?_eq_some_iff.1 hc).1
  obtain ⟨b1, t1, e1, h1, d1⟩ := fromConst_denotes hb s.1 hi v
  obtain ⟨b2, t2, e2, h2, d2⟩ := bitXor_denotes d1.ok (d1.ext.valid hs) d1.valid h1.symm
  refine ⟨b2, t2, ?_, h2, (d1.trans d2).congr ?_⟩
  · have := const_then b s v .xor
    rw [e1] at this
    rw [bitXor, if_pos h1.symm] at e2
    exact this.trans e2
  · intro val hval
    have := d1.value val (d2.ext.consistent hval)
    simp [this]

/-- **C12**, `& bool`. -/
theorem bitAndConst_denotes {b : Builder} (hb : Ok b) {s : Sec} (hs : Valid b s) (v : Bool) :
    ∃ b' t, bitAndConst b s v = some (b', t) ∧ t.1 = s.1 ∧
      Denotes b b' t (fun val => val s && v) 1 := by
  have hi : s.1 < b.length := by obtain ⟨c, hc, -⟩ := hs; exact (List.getElem?_eq_some_iff.1 hc).1
  obtain ⟨b1, t1, e1, h1, d1⟩ := fromConst_denotes hb s.1 hi v
  obtain ⟨b2, t2, e2, h2, d2⟩ := bitAnd_denotes d1.ok (d1.ext.valid hs) d1.valid h1.symm
  refine ⟨b2, t2, ?_, h2, (d1.trans d2).congr ?_⟩
  · have := const_then b s v .and
    rw [e1] at this
    rw [bitAnd, if_pos h1.symm] at e2
    exact this.trans e2
  · intro val hval
    have := d1.value val (d2.ext.consistent hval)
    simp [this]

/-- **C12**, `|`: one AND gate. -/
theorem bitOr_denotes {b : Builder} (hb : Ok b) {s r : Sec} (hs : Valid b s) (hr : Valid b r)
    (h : s.1 = r.1) : ∃ b' t, bitOr b s r = some (b', t) ∧ t.1 = s.1 ∧
      Denotes b b' t (fun val => val s || val r) 1 := by
  obtain ⟨b1, x, e1, h1, d1⟩ := bitXor_denotes hb hs hr h
  obtain ⟨b2, y, e2, h2, d2⟩ := bitAnd_denotes d1.ok (d1.ext.valid hs) (d1.ext.valid hr) h
  obtain ⟨b3, z, e3, h3, d3⟩ := bitXor_denotes d2.ok (d2.ext.valid d1.valid) d2.valid
    (h1.trans h2.symm)
  refine ⟨b3, z, by simp [bitOr, h, e1, e2, e3], h3.trans h1, ((d1.trans d2).trans d3).congr ?_⟩
  intro val hval
  have v2 := d2.value val (d3.ext.consistent hval)
  have v1 := d1.value val (d2.ext.consistent (d3.ext.consistent hval))
  rw [v1, v2]
  cases val s <;> cases val r <;> rfl

/-- **C12**, `|=`: one AND gate. -/
theorem bitOrAssign_denotes {b : Builder} (hb : Ok b) {s r : Sec} (hs : Valid b s) (hr : Valid b r)
    (h : s.1 = r.1) : ∃ b' t, bitOrAssign b s r = some (b', t) ∧ t.1 = s.1 ∧
      Denotes b b' t (fun val => val s || val r) 1 := by
  obtain ⟨b1, y, e1, h1, d1⟩ := bitAnd_denotes hb hs hr h
  obtain ⟨b2, x, e2, h2, d2⟩ := bitXor_denotes d1.ok (d1.ext.valid hr) d1.valid
    (h.symm.trans h1.symm)
  obtain ⟨b3, z, e3, h3, d3⟩ := bitXor_denotes d2.ok (d2.ext.valid (d1.ext.valid hs)) d2.valid
    (h.trans h2.symm)
  refine ⟨b3, z, by simp [bitOrAssign, e1, e2, e3], h3, ((d1.trans d2).trans d3).congr ?_⟩
  intro val hval
  have v2 := d2.value val (d3.ext.consistent hval)
  have v1 := d1.value val (d2.ext.consistent (d3.ext.consistent hval))
  rw [v2, v1]
  cases val s <;> cases val r <;> rfl

/-- **C12**, `| bool`. -/
theorem bitOrConst_denotes {b : Builder} (hb : Ok b) {s : Sec} (hs : Valid b s) (v : Bool) :
    ∃ b' t, bitOrConst b s v = some (b', t) ∧ t.1 = s.1 ∧
      Denotes b b' t (fun val => val s || v) 1 := by
  have hi : s.1 < b.length := by obtain ⟨c, hc, -⟩ := hs; exact (List.getElem?_eq_some_iff.1 hc).1
  obtain ⟨b1, t1, e1, h1, d1⟩ := fromConst_denotes hb s.1 hi v
  obtain ⟨b2, t2, e2, h2, d2⟩ := bitOr_denotes d1.ok (d1.ext.valid hs) d1.valid h1.symm
  refine ⟨b2, t2, ?_, h2, (d1.trans d2).congr ?_⟩
  · rw [bitOr, if_pos h1.symm] at e2
    simp only [bitOrConst, e1, Option.bind_eq_bind, Option.bind_some]
    exact e2
  · intro val hval
    have := d1.value val (d2.ext.consistent hval)
    simp [this]

/-- **C12**, `|= bool`. -/
theorem bitOrAssignConst_denotes {b : Builder} (hb : Ok b) {s : Sec} (hs : Valid b s) (v : Bool) :
    ∃ b' t, bitOrAssignConst b s v = some (b', t) ∧ t.1 = s.1 ∧
      Denotes b b' t (fun val => val s || v) 1 := by
  have hi : s.1 < b.length := by obtain ⟨c, hc, -⟩ := hs; exact (List.getElem?_eq_some_iff.1 hc).1
  obtain ⟨b1, t1, e1, h1, d1⟩ := fromConst_denotes hb s.1 hi v
  obtain ⟨b2, t2, e2, h2, d2⟩ := bitOrAssign_denotes d1.ok (d1.ext.valid hs) d1.valid h1.symm
  refine ⟨b2, t2, by simp [bitOrAssignConst, e1, e2], h2, (d1.trans d2).congr ?_⟩
  intro val hval
  have := d1.value val (d2.ext.consistent hval)
  simp [this]

/-- Secrets of different circuits are rejected. -/
theorem different_circuits_rejected (b : Builder) (s r : Sec) (h : s.1 ≠ r.1) :
    bitXor b s r = none ∧ bitAnd b s r = none ∧ bitOr b s r = none ∧ bitOrAssign b s r = none := by
  simp [bitXor, bitAnd, bitOr, bitOrAssign, h]

/-- The plaintext semantics used for C08 is the evaluation of a builder with one circuit. -/
theorem plainVal_consistent {c : Base BoolGate} (h : BaseOk c) (inp : List Bool) :
    Consistent [c] fun u => plainVal c inp u.2 := by
  intro i d hd v g hg
  cases i with
  | succ i => simp at hd
  | zero =>
    simp only [List.getElem?_cons_zero, Option.some.injEq] at hd
    subst hd
    have e := plainVal_eq h inp hg
    have ar := h.arity v g hg
    simp only
    rw [e]
    generalize hops : (c.parents v).map (plainVal c inp) = ops
    have hl : ops.length = arity g := by rw [← hops]; simpa using ar
    cases g with
    | base b =>
      cases b <;> simp only [arity] at hl <;> simp only [GateVal, gateFn]
      all_goals
        match ops, hl with
        | [a], _ => rfl
    | and => match ops, hl with | [a, b], _ => rfl
    | xor => match ops, hl with | [a, b], _ => rfl
    | inv => match ops, hl with | [a], _ => rfl

/-- Non-trivial instance: `(x | y) ^ true` over two inputs. -/
example : Ok [{}] ∧ ∃ b s r t u, input [{}] 0 >>= (fun p => input p.1 0 |>.map fun q => (p.2, q)) =
      some (s, (b, r)) ∧ Valid b s ∧ Valid b r ∧ s.1 = r.1 ∧ Ok b ∧
      bitOr b s r >>= (fun p => bitXorConst p.1 p.2 true) = some (t, u) ∧ u = (0, 6) ∧
      andCount t = 1 := by
  refine ⟨?_, _, _, _, _, _, rfl, ⟨_, rfl, by decide⟩, ⟨_, rfl, by decide⟩, rfl, ?_, rfl, rfl, rfl⟩
  · intro i c h e he
    cases i <;> simp at h
    subst h; simp at he
  · intro i c h e he
    cases i with
    | zero => rw [← Option.some.inj h] at he; exact absurd he List.not_mem_nil
    | succ i => cases h

end Verif.Secret
