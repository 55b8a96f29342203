import Verif.Global.Model
import Verif.Circuit.Build

/-!
C84: which circuit a thread gets.
-/
set_option autoImplicit false

namespace Verif.Global

open Circuit Gmw

variable {K S R : Type} [DecidableEq K]

/-! ### Threads on different parts of the state -/

theorem solo_congr {U : K → Prop} {t : Th K S R} (h : Uses U t) (g g' : K → S) (hg : ∀ k, U k → g k = g' k) :
    (solo t g).1 = (solo t g').1 ∧ ∀ k, U k → (solo t g).2 k = (solo t g').2 k := by
  induction h generalizing g g' with
  | ret r => exact ⟨rfl, hg⟩
  | fail => exact ⟨rfl, hg⟩
  | @act k upd next hk _ ih =>
    simp only [solo]
    rw [hg k hk]
    refine ih _ _ _ fun k' h' => ?_
    by_cases e : k' = k
    · subst e; simp
    · rw [Function.update_of_ne e, Function.update_of_ne e]; exact hg k' h'

/-- Threads whose actions are on different parts of the state do not notice each other. -/
theorem disjoint_threads {U : Nat → K → Prop} (hU : ∀ i j k, U i k → U j k → i = j) {c c' : Conf K S R}
    (h : Steps c c') (hu : ∀ i t, c.ths[i]? = some t → Uses (U i) t) (i : Nat) (t t' : Th K S R)
    (ht : c.ths[i]? = some t) (ht' : c'.ths[i]? = some t') :
    (solo t' c'.mem).1 = (solo t c.mem).1 ∧ ∀ k, U i k → (solo t' c'.mem).2 k = (solo t c.mem).2 k := by
  induction h generalizing t with
  | refl c => rw [ht] at ht'; cases ht'; exact ⟨rfl, fun _ _ => rfl⟩
  | @cons a b c hs _ ih =>
    cases hs with
    | act j k upd next hj =>
      have huj := hu j _ hj
      cases huj with
      | act hk hn =>
        have hlt : j < a.ths.length := (List.getElem?_eq_some_iff.1 hj).1
        have hu' : ∀ i t, (a.ths.set j (next (a.mem k)))[i]? = some t → Uses (U i) t := by
          intro i' t' h'
          rw [List.getElem?_set] at h'
          split at h'
          · rename_i e
            subst e
            cases h'
            exact hn _
          · exact hu i' t' h'
        by_cases e : j = i
        · subst e
          rw [hj] at ht
          cases ht
          have h1 : (a.ths.set j (next (a.mem k)))[j]? = some (next (a.mem k)) := by
            rw [List.getElem?_set]; simp [hlt]
          exact ih hu' _ h1 ht'
        · have h1 : (a.ths.set j (next (a.mem k)))[i]? = some t := by
            rw [List.getElem?_set, if_neg e]; exact ht
          obtain ⟨h2, h3⟩ := ih hu' _ h1 ht'
          obtain ⟨h4, h5⟩ := solo_congr (hu i t ht) (Function.update a.mem k (upd (a.mem k))) a.mem (by
            intro k' hk'
            refine Function.update_of_ne ?_ _ _
            rintro rfl
            exact e (hU j i _ hk hk'))
          exact ⟨h2.trans h4, fun k' hk' => (h3 k' hk').trans (h5 k' hk')⟩

/-! ### Sections that leave the builder as it was -/

/-- The builder is the same, apart from circuits that are not reachable any more. -/
def Ext (s s' : Bld) : Prop := s'.cur = s.cur ∧ ∃ e, s'.cells = s.cells ++ e

theorem Ext.refl (s : Bld) : Ext s s := ⟨rfl, [], by simp⟩

theorem Ext.trans {a b c : Bld} (h : Ext a b) (h' : Ext b c) : Ext a c := by
  obtain ⟨h1, e, h2⟩ := h
  obtain ⟨h3, f, h4⟩ := h'
  exact ⟨h3.trans h1, e ++ f, by rw [h4, h2, List.append_assoc]⟩

theorem Ext.get {s s' : Bld} (h : Ext s s') {i : Nat} {c : Base BoolGate} (hc : s.cells[i]? = some c) :
    s'.cells[i]? = some c := by
  obtain ⟨-, e, h⟩ := h
  rw [h, List.getElem?_append_left (List.getElem?_eq_some_iff.1 hc).1, hc]

theorem Ext.unused {s s' : Bld} (h : Ext s s') (hu : Unused s) : Unused s' := by
  unfold Unused at *
  rw [h.1]; exact h.get hu

/-- The thread uses the builder `k` only and ends with `Q`, if others only extend the builder. -/
def Safe (k : K) (Q : Option R → Bld → Prop) : Th K Bld R → Bld → Prop
  | .ret r, s => ∀ s', Ext s s' → Q (some r) s'
  | .fail, s => ∀ s', Ext s s' → Q none s'
  | .act k' upd next, s => k' = k ∧ ∀ s', Ext s s' → Safe k Q (next s') (upd s')

omit [DecidableEq K] in
theorem Safe.ext {k : K} {Q : Option R → Bld → Prop} {t : Th K Bld R} {s s' : Bld} (h : Safe k Q t s)
    (e : Ext s s') : Safe k Q t s' := by
  cases t with
  | ret r => exact fun s2 h2 => h s2 (e.trans h2)
  | fail => exact fun s2 h2 => h s2 (e.trans h2)
  | act k' upd next => exact ⟨h.1, fun s2 h2 => h.2 s2 (e.trans h2)⟩

theorem Safe.solo {k : K} {Q : Option R → Bld → Prop} {t : Th K Bld R} (g : K → Bld) (h : Safe k Q t (g k)) :
    Q (solo t g).1 ((solo t g).2 k) ∧ ∀ k', k' ≠ k → (solo t g).2 k' = g k' := by
  induction t generalizing g with
  | ret r => exact ⟨h _ (.refl _), fun _ _ => rfl⟩
  | fail => exact ⟨h _ (.refl _), fun _ _ => rfl⟩
  | act k' upd next ih =>
    obtain ⟨rfl, h⟩ := h
    simp only [Global.solo]
    obtain ⟨h1, h2⟩ := ih (g k') (Function.update g k' (upd (g k'))) (by
      rw [Function.update_self]; exact h _ (.refl _))
    exact ⟨h1, fun k2 h3 => by rw [h2 k2 h3, Function.update_of_ne h3]⟩

theorem ops_safe {k : K} {Q : Option R → Bld → Prop} (os : List Op) (vars : List Nat)
    (cont : List Nat → Th K Bld R) (P : Bld → Prop) (hP : ∀ s s', P s → Ext s s' → P s')
    (hset : ∀ s c, P s → P { s with cells := s.cells.set s.cur c }) (s : Bld) (hs : P s) (c : Base BoolGate)
    (hc : s.cells[s.cur]? = some c)
    (hcont : ∀ c' vars', build os (c, vars) = some (c', vars') → ∀ s', P s' → s'.cells[s'.cur]? = some c' →
      Safe k Q (cont vars') s')
    (hfail : build os (c, vars) = none → ∀ s, Q none s) : Safe k Q (ops k os vars cont) s := by
  induction os generalizing vars s c with
  | nil => exact hcont c vars rfl s hs hc
  | cons o os ih =>
    refine ⟨rfl, fun s1 e1 => ⟨rfl, fun s2 e2 => ?_⟩⟩
    have h1 := e1.get hc
    have hcur : s2.cur = s1.cur := e2.1
    have h2 : s2.cells[s1.cur]? = some c := e2.get (by rw [e1.1]; exact h1)
    have hP2 : P s2 := hP _ _ hs (e1.trans e2)
    simp only [h2, Option.bind_eq_bind, Option.bind_some]
    cases ha : o.apply vars c with
    | none =>
      intro s' _
      refine hfail ?_ s'
      simp [build, ha]
    | some r =>
      obtain ⟨c', i⟩ := r
      dsimp only
      have hlt : s1.cur < s2.cells.length := (List.getElem?_eq_some_iff.1 h2).1
      refine ih (vars ++ [i]) _ ?_ c' ?_ ?_ ?_
      · rw [← hcur]; exact hset s2 c' hP2
      · simp [hcur, hlt]
      · intro c2 v2 hb
        refine hcont c2 v2 ?_
        simp [build, ha, hb]
      · intro hb
        refine hfail ?_
        simp [build, ha, hb]

theorem take_safe {k : K} {Q : Option R → Bld → Prop} (cont : Base BoolGate → Th K Bld R) (s : Bld)
    (c : Base BoolGate) (hc : s.cells[s.cur]? = some c)
    (h : ∀ s1, Ext s s1 → ∀ s2, Ext ⟨s1.cells ++ [({} : Base BoolGate)], s1.cells.length⟩ s2 →
      Safe k Q (cont c) { s2 with cells := s2.cells.set s.cur {} }) : Safe k Q (take k cont) s := by
  refine ⟨rfl, fun s1 e1 => ⟨rfl, fun s2 e2 => ?_⟩⟩
  have h1 : s1.cells[s.cur]? = some c := e1.get hc
  have h2 : s2.cells[s1.cur]? = some c := by
    refine e2.get ?_
    dsimp only
    rw [e1.1, List.getElem?_append_left (List.getElem?_eq_some_iff.1 h1).1, h1]
  dsimp only
  rw [h2, e1.1]
  exact h s1 e1 s2 e2

theorem plain_safe (k : K) (os : List Op) (s : Bld) (hs : Unused s) :
    Safe k (fun r s' => r = circuitOf os ∧ (r ≠ none → Unused s')) (plainBuild k os) s := by
  refine ops_safe os [] _ (fun _ => True) (fun _ _ _ _ => trivial) (fun _ _ _ => trivial) s trivial {} hs ?_ ?_
  · intro c vars hb s1 _ hc
    refine take_safe _ s1 c hc fun s2 e2 s3 e3 s4 e4 => ⟨hb.symm, fun _ => ?_⟩
    refine e4.unused ?_
    have h2 := (List.getElem?_eq_some_iff.1 (e2.get hc)).1
    have h3 : s3.cells[s2.cells.length]? = some {} := e3.get (by simp)
    have h5 : s3.cur = s2.cells.length := e3.1
    unfold Unused
    simp only
    rw [List.getElem?_set, h5, if_neg (by omega), h3]
  · intro hb s'
    exact ⟨hb.symm, fun h => absurd rfl h⟩

theorem scoped_safe (k : K) (os : List Op) (s : Bld) :
    Safe k (fun r s' => r = circuitOf os ∧ (r ≠ none → Ext s s')) (scopedBuild k os) s := by
  refine ⟨rfl, fun s1 e1 => ?_⟩
  -- the circuits that were there are not touched
  let P : Bld → Prop := fun s2 => s.cells.length ≤ s2.cur ∧ ∃ e, s2.cells = s.cells ++ e
  obtain ⟨e1c, e, e1e⟩ := e1
  refine ops_safe os [] _ P ?_ ?_ _ ?_ {} (by simp) ?_ ?_
  · rintro a b ⟨h1, x, h2⟩ ⟨h3, y, h4⟩
    exact ⟨by rw [h3]; exact h1, x ++ y, by rw [h4, h2, List.append_assoc]⟩
  · rintro a c ⟨h1, x, h2⟩
    refine ⟨h1, x.set (a.cur - s.cells.length) c, ?_⟩
    simp only
    rw [h2, List.set_append, if_neg (by omega)]
  · exact ⟨by simp only; rw [e1e, List.length_append]; omega, e ++ [({} : Base BoolGate)], by simp only; rw [e1e, List.append_assoc]⟩
  · rintro c vars hb s2 ⟨hp1, x, hp2⟩ hc
    refine take_safe _ s2 c hc fun s3 e3 s4 e4 => ⟨rfl, fun s5 e5 s6 e6 => ⟨hb.symm, fun _ => ?_⟩⟩
    obtain ⟨e3c, y3, e3e⟩ := e3
    obtain ⟨e4c, y4, e4e⟩ := e4
    obtain ⟨e5c, y5, e5e⟩ := e5
    obtain ⟨e6c, y6, e6e⟩ := e6
    simp only at e4e e5e e6e e6c
    refine ⟨by rw [e6c, e1c], ?_⟩
    rw [e6e, e5e, e4e, e3e, hp2, List.append_assoc, List.append_assoc, List.append_assoc, List.append_assoc, List.set_append,
      if_neg (by omega), List.append_assoc]
    exact ⟨_, rfl⟩
  · intro hb s'
    exact ⟨hb.symm, fun h => absurd rfl h⟩

/-! The circuit of some operations -/

theorem lookup_range (n : Nat) (args : List Nat) (l : List Nat) :
    lookup (List.range n) args = some l ↔ l = args ∧ ∀ a ∈ args, a < n := by
  induction args generalizing l with
  | nil => simp [lookup, eq_comm]
  | cons a args ih =>
    have hc : lookup (List.range n) (a :: args) = some l ↔ ∃ x, (List.range n)[a]? = some x ∧ ∃ l',
        lookup (List.range n) args = some l' ∧ l = x :: l' := by
      simp only [lookup, List.mapM_cons, Option.bind_eq_bind, Option.bind_eq_some_iff, Option.pure_def, Option.some.injEq]
      simp only [eq_comm]
    rw [hc]
    constructor
    · rintro ⟨x, hx, l', hl', rfl⟩
      obtain ⟨hlt, e⟩ := List.getElem?_eq_some_iff.1 hx
      obtain ⟨rfl, h2⟩ := (ih l').1 hl'
      simp only [List.getElem_range] at e
      subst e
      simp only [List.length_range] at hlt
      exact ⟨rfl, by simpa using ⟨hlt, h2⟩⟩
    · rintro ⟨rfl, h⟩
      exact ⟨a, List.getElem?_range (h a List.mem_cons_self), args,
        (ih args).2 ⟨rfl, fun b hb => h b (List.mem_cons_of_mem _ hb)⟩, rfl⟩

theorem apply_wired (o : Op) (c : Base BoolGate) (vars : List Nat) :
    o.apply vars c = lookup vars o.what.2 >>= c.addWiredGate o.what.1 := by
  cases o <;> rfl

theorem build_spec (os : List Op) : ∀ (c : Base BoolGate), (∀ e ∈ c.edges, e.2 < c.gates.length) →
    (build os (c, List.range c.gates.length) ≠ none ↔
      ∀ (i : Nat) o, os[i]? = some o → ∀ a ∈ o.what.2, a < c.gates.length + i) ∧
    ∀ c' vars, build os (c, List.range c.gates.length) = some (c', vars) →
      c'.gates = c.gates ++ os.map (·.what.1) ∧ vars = List.range c'.gates.length ∧
      (∀ i < c.gates.length, c'.parents i = c.parents i) ∧
      ∀ (i : Nat) o, os[i]? = some o → c'.parents (c.gates.length + i) = o.what.2 := by
  induction os with
  | nil => intro c _; simp [build]
  | cons o os ih =>
    intro c hc
    by_cases ha : ∀ a ∈ o.what.2, a < c.gates.length
    · obtain ⟨c1, h1⟩ := addWiredGate_some c o.what.1 o.what.2 ha
      obtain ⟨-, -, e⟩ := addWiredGate_spec h1
      obtain ⟨k1, -, k3, -⟩ := addGate_gates c o.what.1
      have hg : c1.gates = c.gates ++ [o.what.1] := by rw [e]; exact k1
      have he : c1.edges = c.edges ++ o.what.2.reverse.map fun s => (s, c.gates.length) := by rw [e]
      have hlen : c1.gates.length = c.gates.length + 1 := by simp [hg]
      have hb : build (o :: os) (c, List.range c.gates.length) = build os (c1, List.range c1.gates.length) := by
        simp only [build, apply_wired, (lookup_range _ _ _).2 ⟨rfl, ha⟩, Option.bind_eq_bind, Option.bind_some, h1]
        rw [hlen, List.range_succ]
      obtain ⟨i1, i2⟩ := ih c1 (by
        intro x hx
        rw [he, List.mem_append, List.mem_map] at hx
        rcases hx with hx | ⟨s, -, rfl⟩
        · have := hc x hx; omega
        · simp [hlen])
      have old : ∀ i < c.gates.length, c1.parents i = c.parents i := by
        intro i hi
        rw [Base.parents, he, List.reverse_append, List.filter_append, List.filter_eq_nil_iff.2, List.nil_append]
        · rfl
        · intro x hx
          simp only [List.mem_reverse, List.mem_map] at hx
          obtain ⟨s, -, rfl⟩ := hx
          simp; omega
      have new : c1.parents c.gates.length = o.what.2 := by
        rw [Base.parents, he, List.reverse_append, List.filter_append, List.filter_eq_self.2,
          List.filter_eq_nil_iff.2, List.append_nil]
        · rw [← List.map_reverse, List.reverse_reverse, List.map_map]
          exact List.map_id _
        · intro x hx
          have := hc x (List.mem_reverse.1 hx)
          simp; omega
        · intro x hx
          simp only [List.mem_reverse, List.mem_map] at hx
          obtain ⟨s, -, rfl⟩ := hx
          simp
      rw [hb]
      refine ⟨i1.trans ⟨fun h i o' ho a hm => ?_, fun h i o' ho a hm => ?_⟩, fun c' vars h => ?_⟩
      · cases i with
        | zero =>
          simp only [List.getElem?_cons_zero, Option.some.injEq] at ho
          subst ho
          exact ha a hm
        | succ i => have := h i o' (by simpa using ho) a hm; omega
      · have := h (i + 1) o' (by simpa using ho) a hm; omega
      · obtain ⟨j1, j2, j3, j4⟩ := i2 c' vars h
        refine ⟨by rw [j1, hg]; simp, j2, fun i hi => ?_, fun i o' ho => ?_⟩
        · rw [j3 i (by omega), old i hi]
        · cases i with
          | zero =>
            simp only [List.getElem?_cons_zero, Option.some.injEq] at ho
            subst ho
            rw [Nat.add_zero, j3 _ (by omega), new]
          | succ i =>
            have := j4 i o' (by simpa using ho)
            rw [← this]
            congr 1
            omega
    · have hb : build (o :: os) (c, List.range c.gates.length) = none := by
        cases hl : lookup (List.range c.gates.length) o.what.2 with
        | none => simp [build, apply_wired, hl]
        | some l => exact absurd ((lookup_range _ _ _).1 hl).2 ha
      rw [hb]
      refine ⟨⟨fun h => absurd rfl h, fun h => ?_⟩, by simp⟩
      exact absurd (fun a hm => by simpa using h 0 o rfl a hm) ha

/-! ### Theorems -/

/-- **C84, the circuit of some operations.**  It exists if all operands are earlier secrets.  Its `i`-th gate is the one of
the `i`-th operation, whose operands it has in their order, and the secrets are the gates. -/
theorem circuitOf_spec (os : List Op) :
    (circuitOf os ≠ none ↔ ∀ (i : Nat) o, os[i]? = some o → ∀ a ∈ o.what.2, a < i) ∧
    ∀ c vars, circuitOf os = some (c, vars) →
      c.gates = os.map (·.what.1) ∧ vars = List.range os.length ∧
      ∀ (i : Nat) o, os[i]? = some o → c.parents i = o.what.2 := by
  obtain ⟨h1, h2⟩ := build_spec os ({} : Base BoolGate) (by simp)
  refine ⟨by simpa [circuitOf] using h1, fun c vars h => ?_⟩
  obtain ⟨a, b, -, d⟩ := h2 c vars h
  refine ⟨by simpa using a, by rw [b, a]; simp, fun i o ho => ?_⟩
  simpa using d i o ho

/-- **C84, one thread.**  A thread that builds a circuit alone gets the circuit of its operations, from the global
builder if it was unused, which then is unused again; or in a section between `install` and `install` of the
previous builder, after which the circuit under construction in the global builder and those of other
gate types are as before. -/
theorem thread_builds_own_circuit (k : K) (os : List Op) (g : K → Bld) :
    (Unused (g k) → (solo (plainBuild k os) g).1 = circuitOf os ∧
      (circuitOf os ≠ none → Unused ((solo (plainBuild k os) g).2 k))) ∧
    ((g k).cur < (g k).cells.length → (solo (scopedBuild k os) g).1 = circuitOf os ∧
      (circuitOf os ≠ none →
        ((solo (scopedBuild k os) g).2 k).cells[((solo (scopedBuild k os) g).2 k).cur]? =
          (g k).cells[(g k).cur]?)) ∧
    ∀ k', k' ≠ k → (Unused (g k) → (solo (plainBuild k os) g).2 k' = g k') ∧
      (solo (scopedBuild k os) g).2 k' = g k' := by
  refine ⟨fun h => ?_, fun h => ?_, fun k' hk => ⟨fun h => (plain_safe k os _ h).solo g |>.2 k' hk,
    (scoped_safe k os _).solo g |>.2 k' hk⟩⟩
  · obtain ⟨h1, h2⟩ := ((plain_safe k os _ h).solo g).1
    exact ⟨h1, fun hn => h2 (by rw [h1]; exact hn)⟩
  · obtain ⟨h1, h2⟩ := ((scoped_safe k os _).solo g).1
    refine ⟨h1, fun hn => ?_⟩
    have e := h2 (by rw [h1]; exact hn)
    rw [e.1, List.getElem?_eq_getElem h, e.get (List.getElem?_eq_getElem h)]

omit [DecidableEq K] in
theorem uses_ops {U : K → Prop} {k : K} (hk : U k) (os : List Op) (vars : List Nat) (cont : List Nat → Th K Bld R)
    (h : ∀ v, Uses U (cont v)) : Uses U (ops k os vars cont) := by
  induction os generalizing vars with
  | nil => exact h vars
  | cons o os ih =>
    refine .act hk fun s => .act hk fun s' => ?_
    split
    · exact ih _
    · exact .fail

omit [DecidableEq K] in
theorem uses_take {U : K → Prop} {k : K} (hk : U k) (cont : Base BoolGate → Th K Bld R)
    (h : ∀ v, Uses U (cont v)) : Uses U (take k cont) := by
  refine .act hk fun s => .act hk fun s' => ?_
  split
  · exact h _
  · exact .fail

omit [DecidableEq K] in
theorem uses_plain (k : K) (os : List Op) : Uses (· = k) (plainBuild k os) :=
  uses_ops (U := (· = k)) rfl os [] _ fun _ => uses_take (U := (· = k)) rfl _ fun _ => .ret _

omit [DecidableEq K] in
theorem uses_scoped (k : K) (os : List Op) : Uses (· = k) (scopedBuild k os) :=
  .act rfl fun _ => uses_ops (U := (· = k)) rfl os [] _ fun _ =>
    uses_take (U := (· = k)) rfl _ fun _ => .act rfl fun _ => .ret _

/-- A thread that builds one circuit. -/
structure Builder (K : Type) where
  key : K
  inSection : Bool
  ops : List Op

/-- Its code. -/
def Builder.thread (b : Builder K) : Th K Bld (Base BoolGate × List Nat) :=
  if b.inSection then scopedBuild b.key b.ops else plainBuild b.key b.ops

/-- **C84, threads with different gate types.**  Any number of threads build circuits at the same time, each for its own
gate type.  Whatever the scheduler does, a thread that returns has the circuit of its operations, and a thread
that panics would have panicked alone. -/
theorem concurrent_builders_partial (bs : List (Builder K)) (hk : (bs.map (·.key)).Nodup) (g : K → Bld)
    (hg : ∀ b ∈ bs, Unused (g b.key)) (c : Conf K Bld (Base BoolGate × List Nat))
    (h : Steps ⟨g, bs.map Builder.thread⟩ c) (i : Nat) (b : Builder K) (hb : bs[i]? = some b) :
    (∀ r, c.ths[i]? = some (.ret r) → circuitOf b.ops = some r) ∧
    (c.ths[i]? = some .fail → circuitOf b.ops = none) := by
  have ht : (bs.map Builder.thread)[i]? = some b.thread := by rw [List.getElem?_map, hb]; rfl
  have key : ∀ t, c.ths[i]? = some t → (solo t c.mem).1 = circuitOf b.ops := by
    intro t h'
    refine Eq.trans (disjoint_threads (U := fun i k => (bs[i]?).map (·.key) = some k) ?_ h ?_ i b.thread t ht h').1 ?_
    · intro i j k hi hj
      obtain ⟨x, hx, rfl⟩ := Option.map_eq_some_iff.1 hi
      obtain ⟨y, hy, hxy⟩ := Option.map_eq_some_iff.1 hj
      have hil := (List.getElem?_eq_some_iff.1 hx).1
      have hjl := (List.getElem?_eq_some_iff.1 hy).1
      have e : (bs.map (·.key))[i]? = (bs.map (·.key))[j]? := by
        rw [List.getElem?_map, List.getElem?_map, hx, hy]; simp [hxy]
      exact (List.getElem?_inj (by simpa using hil) hk).1 e
    · intro j t hj
      rw [List.getElem?_map] at hj
      obtain ⟨x, hx, rfl⟩ := Option.map_eq_some_iff.1 hj
      have hU : (fun k => (bs[j]?).map (·.key) = some k) = (· = x.key) := by
        funext k; simp [hx, eq_comm]
      rw [hU]
      unfold Builder.thread
      split
      · exact uses_scoped ..
      · exact uses_plain ..
    · have hu := hg b (List.mem_of_getElem? hb)
      obtain ⟨h1, h2, -⟩ := thread_builds_own_circuit b.key b.ops g
      unfold Builder.thread
      split
      · exact (h2 (List.getElem?_eq_some_iff.1 hu).1).1
      · exact (h1 hu).1
  exact ⟨fun r h' => (key _ h').symm, fun h' => (key _ h').symm⟩

/-- A run of a thread in which whole sections, of any gate type, run between its actions (tasks of one operating system
thread: a section contains no `await`). -/
inductive WithSections : (K → Bld) → Th K Bld R → (K → Bld) → Th K Bld R → Prop
  | refl (g : K → Bld) (t : Th K Bld R) : WithSections g t g t
  | act {g g' : K → Bld} {t' : Th K Bld R} (k : K) (upd : Bld → Bld) (next : Bld → Th K Bld R) :
      WithSections (Function.update g k (upd (g k))) (next (g k)) g' t' → WithSections g (.act k upd next) g' t'
  | inside {g g' : K → Bld} {t t' : Th K Bld R} (k : K) (os : List Op) : circuitOf os ≠ none →
      WithSections (solo (scopedBuild k os) g).2 t g' t' → WithSections g t g' t'

theorem Safe.withSections {k : K} {Q : Option R → Bld → Prop} {g g' : K → Bld} {t t' : Th K Bld R}
    (hw : WithSections g t g' t') (h : Safe k Q t (g k)) : Safe k Q t' (g' k) := by
  induction hw with
  | refl => exact h
  | @act g _ _ k' upd next _ ih =>
    obtain ⟨rfl, h⟩ := h
    exact ih (by rw [Function.update_self]; exact h _ (.refl _))
  | @inside g _ _ _ k' os hos _ ih =>
    refine ih (h.ext ?_)
    have h1 := (scoped_safe k' os (g k')).solo g
    by_cases e : k = k'
    · subst e
      exact h1.1.2 (by rw [h1.1.1]; exact hos)
    · rw [h1.2 k e]; exact .refl _

/-- **C84, tasks of one thread.**  While a user's circuit is under construction, setup providers run whole sections.
The user gets the circuit of their operations, and panics only where they would have panicked alone. -/
theorem sections_do_not_disturb (k : K) (os : List Op) (g g' : K → Bld) (hg : Unused (g k)) :
    (∀ r, WithSections g (plainBuild k os) g' (.ret r) → circuitOf os = some r) ∧
    (WithSections g (plainBuild k os) g' .fail → circuitOf os = none) := by
  refine ⟨fun r h => ?_, fun h => ?_⟩
  · exact ((plain_safe k os _ hg).withSections h _ (.refl _)).1.symm
  · exact ((plain_safe k os _ hg).withSections h _ (.refl _)).1.symm

end Verif.Global
