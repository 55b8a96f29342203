import Verif.Secret.Model
import Verif.Exec.Built

/-!
Specification of what a sequence of gates appended to the builder denotes, and lemmas for C12.
-/
set_option autoImplicit false

namespace Verif.Secret

open Circuit Gmw Exec

/-! ### Specification -/

/-- The value `x` of a gate is right for the values `ops` of its operands.  Inputs of the circuit
and sub-circuit inputs are free. -/
def GateVal : BoolGate → Bool → List Bool → Prop
  | .base .input, _, _ | .base .subCircuitInput, _, _ | .base .connectToMain, _, _
  | .base (.connectToMainFromSimd _), _, _ => True
  | .base (.constant v), x, _ => x = v
  | .base _, x, ops => x = ops.headD false
  | .and, x, ops => x = (ops.getD 0 false && ops.getD 1 false)
  | .xor, x, ops => x = (ops.getD 0 false ^^ ops.getD 1 false)
  | .inv, x, ops => x = !ops.headD false

/-- `val` is an evaluation of all circuits of the builder. -/
def Consistent (b : Builder) (val : Node → Bool) : Prop :=
  ∀ (i : Nat) (c : Base BoolGate), b[i]? = some c → ∀ (v : Nat) (g : BoolGate),
    c.gates[v]? = some g → GateVal g (val (i, v)) ((c.parents v).map fun u => val (i, u))

/-- The gate exists. -/
def Valid (b : Builder) (s : Sec) : Prop := ∃ c, b[s.1]? = some c ∧ s.2 < c.gates.length

/-- All wires of all circuits connect existing gates (holds for every circuit built through the
API, `runCalls_spec`). -/
def Ok (b : Builder) : Prop := ∀ (i : Nat) (c : Base BoolGate), b[i]? = some c → EdgesIn c

/-- The number of interactive gates of all circuits. -/
def andCount (b : Builder) : Nat := (b.map fun c => c.gates.countP (· = .and)).sum

/-- `b'` arises from `b` by appending gates: the old gates and their operands are unchanged. -/
structure Extends (b b' : Builder) : Prop where
  length : b'.length = b.length
  circ : ∀ (i : Nat) (c : Base BoolGate), b[i]? = some c → ∃ c', b'[i]? = some c' ∧
    c.gates <+: c'.gates ∧ (∀ v < c.gates.length, c'.parents v = c.parents v) ∧
    c'.simdSize = c.simdSize ∧ (BaseOk c → BaseOk c')

/-- Going from `b` to `b'` appended gates, `k` of them interactive, of which `t` carries the value
`F` of the old ones. -/
structure Denotes (b b' : Builder) (t : Sec) (F : (Node → Bool) → Bool) (k : Nat) : Prop where
  ok : Ok b'
  ext : Extends b b'
  valid : Valid b' t
  /-- Every evaluation of the new builder gives `t` the value `F`. -/
  value : ∀ val, Consistent b' val → val t = F val
  /-- Every evaluation of the old builder extends to the new one. -/
  exist : ∀ val, Consistent b val → ∃ val', Consistent b' val' ∧ ∀ u, Valid b u → val' u = val u
  ands : andCount b' = andCount b + k

/-! ### Lemmas -/

theorem Extends.refl (b : Builder) : Extends b b :=
  ⟨rfl, fun _ c h => ⟨c, h, List.prefix_refl _, fun _ _ => rfl, rfl, id⟩⟩

theorem Extends.trans {a b c : Builder} (h : Extends a b) (h' : Extends b c) : Extends a c := by
  refine ⟨h'.length.trans h.length, ?_⟩
  intro i x hx
  obtain ⟨y, hy, p1, p2, p3, p4⟩ := h.circ i x hx
  obtain ⟨z, hz, q1, q2, q3, q4⟩ := h'.circ i y hy
  refine ⟨z, hz, p1.trans q1, ?_, q3.trans p3, fun hb => q4 (p4 hb)⟩
  intro v hv
  rw [q2 v (Nat.lt_of_lt_of_le hv p1.length_le), p2 v hv]

theorem Extends.valid {b b' : Builder} (h : Extends b b') {s : Sec} (hs : Valid b s) : Valid b' s := by
  obtain ⟨c, hc, hl⟩ := hs
  obtain ⟨c', hc', p, -⟩ := h.circ _ c hc
  exact ⟨c', hc', Nat.lt_of_lt_of_le hl p.length_le⟩

/-- Evaluations of the extended builder are evaluations of the old one. -/
theorem Extends.consistent {b b' : Builder} (h : Extends b b') {val : Node → Bool}
    (hv : Consistent b' val) : Consistent b val := by
  intro i c hc v g hg
  obtain ⟨c', hc', p, hp, -⟩ := h.circ i c hc
  have hl := (List.getElem?_eq_some_iff.1 hg).1
  have := hv i c' hc' v g (by
    obtain ⟨t, ht⟩ := p
    rw [← ht, List.getElem?_append_left hl]; exact hg)
  rwa [hp v hl] at this

theorem Denotes.trans {a b c : Builder} {s t : Sec} {F F' : (Node → Bool) → Bool} {k k' : Nat}
    (h : Denotes a b s F k) (h' : Denotes b c t F' k') : Denotes a c t F' (k + k') := by
  refine ⟨h'.ok, h.ext.trans h'.ext, h'.valid, h'.value, ?_, ?_⟩
  · intro val hval
    obtain ⟨v1, c1, e1⟩ := h.exist val hval
    obtain ⟨v2, c2, e2⟩ := h'.exist v1 c1
    exact ⟨v2, c2, fun u hu => (e2 u (h.ext.valid hu)).trans (e1 u hu)⟩
  · rw [h'.ands, h.ands]; omega

theorem Denotes.congr {a b : Builder} {s : Sec} {F F' : (Node → Bool) → Bool} {k : Nat}
    (h : Denotes a b s F k) (hF : ∀ val, Consistent b val → F val = F' val) : Denotes a b s F' k :=
  ⟨h.ok, h.ext, h.valid, fun val hv => (h.value val hv).trans (hF val hv), h.exist, h.ands⟩

/-- Adding one gate to one circuit. -/
theorem addWired_grow {c : Base BoolGate} (he : EdgesIn c) (g : BoolGate) (args : List Nat)
    (ha : ∀ a ∈ args, a < c.gates.length) :
    ∃ c', c.addWiredGate g args = some (c', c.gates.length) ∧ c'.gates = c.gates ++ [g] ∧
      EdgesIn c' ∧ (∀ v < c.gates.length, c'.parents v = c.parents v) ∧
      c'.parents c.gates.length = args ∧ c'.simdSize = c.simdSize ∧
      (BaseOk c → args.length = arity g → plainGate g = true → BaseOk c') := by
  obtain ⟨c', hc'⟩ := addWiredGate_some c g args ha
  have hrun : (Call.wired g args).run c = some c' := by simp [Call.run, hc']
  obtain ⟨-, -, e⟩ := addWiredGate_spec hc'
  obtain ⟨a1, a2, -, a4⟩ := addGate_gates c g
  have hgates : c'.gates = c.gates ++ [g] := by rw [e]; exact a1
  have hedges : c'.edges = c.edges ++ args.reverse.map fun s => (s, c.gates.length) := by rw [e]
  have hold : ∀ i < c.gates.length, c'.parents i = c.parents i := by
    intro i hi
    have := parents_append_other c (args.reverse.map fun s => (s, c.gates.length)) i (by
      intro x hx
      simp only [List.mem_map] at hx
      obtain ⟨y, -, rfl⟩ := hx
      simp only; omega)
    rw [← this]
    simp only [Base.parents, hedges]
  have hnew : c'.parents c.gates.length = args := by
    simp only [Base.parents, hedges, List.reverse_append, List.filter_append, List.map_append]
    have e2 : c.edges.reverse.filter (fun e => decide (e.2 = c.gates.length)) = [] := by
      rw [List.filter_eq_nil_iff]
      intro e hh
      have := he e (by simpa using hh)
      simp; omega
    rw [e2, ← List.map_reverse, List.reverse_reverse, List.filter_eq_self.2 (by simp)]
    simp [Function.comp_def]
  refine ⟨c', hc', hgates, (run_spec hrun he).1, hold, hnew, by rw [e]; exact a4, ?_⟩
  intro ok hlen hpl
  have split : ∀ (i : Nat) (x : BoolGate), c'.gates[i]? = some x →
      (i < c.gates.length ∧ c.gates[i]? = some x) ∨ (i = c.gates.length ∧ x = g) := by
    intro i x hx
    rw [hgates] at hx
    by_cases hi : i < c.gates.length
    · left; exact ⟨hi, by rwa [List.getElem?_append_left hi] at hx⟩
    · right
      have := (List.getElem?_eq_some_iff.1 hx).1
      have hi' : i = c.gates.length := by simp at this; omega
      subst hi'
      rw [List.getElem?_append_right (Nat.le_refl _)] at hx
      simp only [Nat.sub_self, List.getElem?_cons_zero, Option.some.injEq] at hx
      exact ⟨rfl, hx.symm⟩
  refine ⟨?_, ?_, ?_, bookOk_run hrun ok.book⟩
  · intro x hx
    rw [hedges, List.mem_append] at hx
    rw [hgates, List.length_append, List.length_singleton]
    rcases hx with hx | hx
    · have := ok.edges x hx; omega
    · simp only [List.mem_map, List.mem_reverse] at hx
      obtain ⟨y, hy, rfl⟩ := hx
      have := ha y hy
      simp only; omega
  · intro i x hx
    rcases split i x hx with ⟨hi, hx⟩ | ⟨rfl, rfl⟩
    · rw [hold i hi]; exact ok.arity i x hx
    · rw [hnew, hlen]
  · intro i x hx
    rcases split i x hx with ⟨hi, hx⟩ | ⟨rfl, rfl⟩
    · exact ok.kinds i x hx
    · exact hpl

/-- A value which is right for the gate. -/
def someVal (g : BoolGate) (ops : List Bool) : Bool :=
  match g with
  | .base (.constant v) => v
  | .base _ => ops.headD false
  | .and => ops.getD 0 false && ops.getD 1 false
  | .xor => ops.getD 0 false ^^ ops.getD 1 false
  | .inv => !ops.headD false

theorem someVal_ok (g : BoolGate) (ops : List Bool) : GateVal g (someVal g ops) ops := by
  cases g with
  | base b => cases b <;> simp [GateVal, someVal]
  | _ => simp [GateVal, someVal]

theorem andCount_set (b : Builder) (i : Nat) (c c' : Base BoolGate) (h : b[i]? = some c) (k : Nat)
    (hk : c'.gates.countP (· = .and) = c.gates.countP (· = .and) + k) :
    andCount (b.set i c') = andCount b + k := by
  unfold andCount
  induction b generalizing i with
  | nil => simp at h
  | cons x xs ih =>
    cases i with
    | zero =>
      simp only [List.getElem?_cons_zero, Option.some.injEq] at h
      subst h
      simp only [List.set_cons_zero, List.map_cons, List.sum_cons, hk]; omega
    | succ i =>
      simp only [List.getElem?_cons_succ] at h
      have := ih i h
      simp only [List.set_cons_succ, List.map_cons, List.sum_cons, this]; omega

/-- Appending one gate to a circuit of the builder. -/
theorem onCirc_wired {b : Builder} (hb : Ok b) (i : Nat) (g : BoolGate) (args : List Nat)
    (hv : ∃ c, b[i]? = some c ∧ ∀ a ∈ args, a < c.gates.length) (hlen : args.length = arity g)
    (hpl : plainGate g = true) (F : (Node → Bool) → Bool)
    (hF : ∀ val : Node → Bool, ∀ x, GateVal g x (args.map fun a => val (i, a)) → x = F val) :
    ∃ b' t, onCirc b i (fun c => c.addWiredGate g args) = some (b', t) ∧ t.1 = i ∧
      Denotes b b' t F (if g = .and then 1 else 0) := by
  obtain ⟨c, hc, ha⟩ := hv
  obtain ⟨c', hc', hg, he', hold, hnew, hs, hok⟩ := addWired_grow (hb i c hc) g args ha
  have hi : i < b.length := (List.getElem?_eq_some_iff.1 hc).1
  have hget : ∀ (j : Nat) (d : Base BoolGate), (b.set i c')[j]? = some d →
      (j = i ∧ d = c') ∨ (j ≠ i ∧ b[j]? = some d) := by
    intro j d hd
    by_cases hj : j = i
    · subst hj
      rw [List.getElem?_set_self hi] at hd
      left; exact ⟨rfl, (Option.some.inj hd).symm⟩
    · right
      rw [List.getElem?_set_ne (by omega)] at hd
      exact ⟨hj, hd⟩
  have hset : (b.set i c')[i]? = some c' := List.getElem?_set_self hi
  have hcons : ∀ val, Consistent (b.set i c') val →
      GateVal g (val (i, c.gates.length)) (args.map fun a => val (i, a)) := by
    intro val hval
    have := hval i c' hset c.gates.length g (by rw [hg]; simp)
    rwa [hnew] at this
  refine ⟨b.set i c', (i, c.gates.length), by simp [onCirc, hc, hc'], rfl, ?_, ?_, ?_, ?_, ?_, ?_⟩
  · intro j d hd
    rcases hget j d hd with ⟨rfl, rfl⟩ | ⟨-, hd⟩
    · exact he'
    · exact hb j d hd
  · refine ⟨by simp, ?_⟩
    intro j d hd
    by_cases hj : j = i
    · subst hj
      rw [hc] at hd
      cases hd
      exact ⟨c', hset, by rw [hg]; exact List.prefix_append _ _, hold, hs, fun h => hok h hlen hpl⟩
    · exact ⟨d, by rw [List.getElem?_set_ne (by omega)]; exact hd, List.prefix_refl _,
        fun _ _ => rfl, rfl, id⟩
  · exact ⟨c', hset, by rw [hg]; simp⟩
  · intro val hval
    exact hF val _ (hcons val hval)
  · intro val hval
    refine ⟨fun u => if u = (i, c.gates.length) then someVal g (args.map fun a => val (i, a))
      else val u, ?_, ?_⟩
    · intro j d hd v x hx
      rcases hget j d hd with ⟨rfl, rfl⟩ | ⟨hj, hd⟩
      · by_cases hlt : v < c.gates.length
        · have hpar : ∀ u ∈ c.parents v, u < c.gates.length := by
            intro u hu
            simp only [Base.parents, List.mem_map, List.mem_filter, List.mem_reverse] at hu
            obtain ⟨e, ⟨h1, -⟩, rfl⟩ := hu
            exact (hb j c hc e h1).1
          rw [hold v hlt]
          have hx' : c.gates[v]? = some x := by rwa [hg, List.getElem?_append_left hlt] at hx
          have := hval j c hc v x hx'
          beta_reduce
          rw [if_neg (by simp; omega)]
          convert this using 1
          apply List.map_congr_left
          intro u hu
          rw [if_neg (by have := hpar u hu; simp; omega)]
        · have h1 := (List.getElem?_eq_some_iff.1 hx).1
          have : v = c.gates.length := by rw [hg] at h1; simp at h1; omega
          subst this
          rw [hg, List.getElem?_append_right (Nat.le_refl _)] at hx
          simp only [Nat.sub_self, List.getElem?_cons_zero, Option.some.injEq] at hx
          subst hx
          beta_reduce
          rw [hnew, if_pos rfl]
          have : (args.map fun u => if ((j, u) : Node) = (j, c.gates.length) then
              someVal g (args.map fun a => val (j, a)) else val (j, u)) =
              args.map fun a => val (j, a) := by
            apply List.map_congr_left
            intro u hu
            rw [if_neg (by have := ha u hu; simp; omega)]
          rw [this]
          exact someVal_ok g _
      · have := hval j d hd v x hx
        beta_reduce
        rw [if_neg (by simp [hj])]
        convert this using 1
        apply List.map_congr_left
        intro u hu
        rw [if_neg (by simp [hj])]
    · rintro ⟨j, v⟩ ⟨d, hd, hl⟩
      beta_reduce
      rw [if_neg]
      intro e
      simp only [Prod.mk.injEq] at e
      obtain ⟨rfl, rfl⟩ := e
      simp only at hd hl
      rw [hc] at hd
      cases hd
      omega
  · apply andCount_set b i c c' hc
    rw [hg, List.countP_append, List.countP_singleton]
    simp

/-- `add_gate` is `add_wired_gate` without operands. -/
theorem addGate_wired (c : Base BoolGate) (g : BoolGate) :
    some (c.addGate g) = c.addWiredGate g [] := by
  simp [Base.addWiredGate]

end Verif.Secret
