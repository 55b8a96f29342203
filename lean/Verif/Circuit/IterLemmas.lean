import Verif.Circuit.Model
import Mathlib.Data.List.Perm.Basic
import Mathlib.Data.List.Nodup
import Mathlib.Tactic.Linarith

set_option autoImplicit false

namespace Verif.Circuit

variable {G : Type}

/-- Number of edges into `v` whose source is not in `D`. -/
def cnt (c : Base G) (D : List Nat) (v : Nat) : Nat :=
  (c.edges.filter (fun e => e.2 = v ∧ e.1 ∉ D)).length

theorem parents_length (c : Base G) (v : Nat) : (c.parents v).length = cnt c [] v := by
  simp [Base.parents, cnt, List.filter_reverse]

theorem mem_parents (c : Base G) (u v : Nat) : u ∈ c.parents v ↔ (u, v) ∈ c.edges := by
  simp only [Base.parents, List.mem_map, List.mem_filter, List.mem_reverse, decide_eq_true_eq,
    Prod.exists]
  constructor
  · rintro ⟨a, b, ⟨h, rfl⟩, rfl⟩; exact h
  · intro h; exact ⟨u, v, ⟨h, rfl⟩, rfl⟩

theorem mem_children (c : Base G) (u v : Nat) : v ∈ c.children u ↔ (u, v) ∈ c.edges := by
  simp only [Base.children, List.mem_map, List.mem_filter, List.mem_reverse, decide_eq_true_eq,
    Prod.exists]
  constructor
  · rintro ⟨a, b, ⟨h, rfl⟩, rfl⟩; exact h
  · intro h; exact ⟨u, v, ⟨h, rfl⟩, rfl⟩

theorem cnt_eq_zero (c : Base G) (D : List Nat) (v : Nat) :
    cnt c D v = 0 ↔ ∀ u ∈ c.parents v, u ∈ D := by
  simp only [cnt, List.length_eq_zero_iff, List.filter_eq_nil_iff, decide_eq_true_eq, mem_parents]
  constructor
  · intro h u hu
    by_contra hn
    exact h (u, v) hu ⟨rfl, hn⟩
  · rintro h ⟨a, b⟩ hab ⟨rfl, hn⟩
    exact hn (h a hab)

theorem cnt_congr (c : Base G) (D D' : List Nat) (h : ∀ u, u ∈ D ↔ u ∈ D') : cnt c D = cnt c D' := by
  funext v
  simp only [cnt, h]

theorem count_children (c : Base G) (u v : Nat) :
    (c.children u).count v = (c.edges.filter (fun e => e.1 = u ∧ e.2 = v)).length := by
  unfold Base.children
  have : ∀ es : List (Nat × Nat),
      ((es.filter (fun e => decide (e.1 = u))).map (·.2)).count v
        = (es.filter (fun e => decide (e.1 = u ∧ e.2 = v))).length := by
    intro es
    induction es with
    | nil => rfl
    | cons e es ih =>
      obtain ⟨a, b⟩ := e
      by_cases h1 : a = u
      · by_cases h2 : b = v
        · simp [h1, h2, ih]
        · simp [h1, h2, ih]
      · simp [h1, ih]
  rw [this, List.filter_reverse, List.length_reverse]

theorem cnt_append (c : Base G) (D : List Nat) (u v : Nat) (hu : u ∉ D) :
    cnt c D v = cnt c (D ++ [u]) v + (c.children u).count v := by
  rw [count_children]
  unfold cnt
  induction c.edges with
  | nil => rfl
  | cons e es ih =>
    obtain ⟨a, b⟩ := e
    by_cases h1 : a = u
    · subst h1
      by_cases h2 : b = v
      · subst h2
        simp only [List.filter_cons, hu, not_false_eq_true, and_self, decide_true, if_true,
          List.mem_append, List.mem_singleton, or_true, not_true_eq_false, and_false, decide_false,
          Bool.false_eq_true, if_false, List.length_cons] at ih ⊢
        omega
      · simp only [List.filter_cons, h2, false_and, and_false, decide_false, Bool.false_eq_true,
          if_false] at ih ⊢
        exact ih
    · have e1 : (decide (b = v ∧ a ∉ D ++ [u])) = decide (b = v ∧ a ∉ D) := by
        simp [h1]
      simp only [List.filter_cons, h1, false_and, decide_false, Bool.false_eq_true, if_false, e1]
      by_cases h3 : (b = v ∧ a ∉ D)
      · simp only [h3, not_false_eq_true, and_self, decide_true, if_true, List.length_cons] at ih ⊢
        omega
      · simp only [h3, decide_false, Bool.false_eq_true, if_false] at ih ⊢
        exact ih

theorem relax_spec (vs : List Nat) (needed : Nat → Nat) (q : List Nat)
    (h : ∀ v, vs.count v ≤ needed v) :
    ∃ new, relax needed q vs = some (fun v => needed v - vs.count v, q ++ new) ∧ new.Nodup ∧
      ∀ v, v ∈ new ↔ v ∈ vs ∧ needed v = vs.count v := by
  induction vs generalizing needed q with
  | nil => exact ⟨[], by simp [relax], List.nodup_nil, by simp⟩
  | cons w vs ih =>
    have hw := h w
    rw [List.count_cons_self] at hw
    have hw0 : needed w ≠ 0 := by omega
    let needed' : Nat → Nat := fun u => if u = w then needed w - 1 else needed u
    have h' : ∀ v, vs.count v ≤ needed' v := by
      intro v
      by_cases hv : v = w
      · subst hv; simp [needed']; omega
      · have := h v
        rw [List.count_cons_of_ne (Ne.symm hv)] at this
        simpa [needed', hv] using this
    obtain ⟨new, h1, h2, h3⟩ := ih needed' (if needed w - 1 = 0 then q ++ [w] else q) h'
    have hfun : (fun v => needed' v - vs.count v) = fun v => needed v - (w :: vs).count v := by
      funext v
      by_cases hv : v = w
      · subst hv; simp [needed']; omega
      · rw [List.count_cons_of_ne (Ne.symm hv)]; simp [needed', hv]
    have hrun : relax needed q (w :: vs) =
        relax needed' (if needed w - 1 = 0 then q ++ [w] else q) vs := by
      simp only [relax, hw0, if_false]
      rfl
    rw [hfun] at h1
    by_cases hz : needed w - 1 = 0
    · simp only [hz, if_true] at h1 hrun
      refine ⟨w :: new, by rw [hrun, h1]; simp, ?_, ?_⟩
      · rw [List.nodup_cons]
        refine ⟨fun hm => ?_, h2⟩
        have := (h3 w).1 hm
        have h5 := List.count_pos_iff.2 this.1
        omega
      · intro v
        rw [List.mem_cons, h3]
        by_cases hv : v = w
        · subst hv
          simp only [List.mem_cons, true_or, true_and, List.count_cons_self, true_iff]
          omega
        · rw [List.count_cons_of_ne (Ne.symm hv)]
          simp [needed', hv]
    · simp only [hz, if_false] at h1 hrun
      refine ⟨new, by rw [hrun, h1], h2, ?_⟩
      intro v
      rw [h3]
      by_cases hv : v = w
      · subst hv
        simp only [List.mem_cons, true_or, true_and, List.count_cons_self, needed', if_true]
        constructor
        · rintro ⟨_, h⟩; omega
        · intro h
          refine ⟨?_, by omega⟩
          apply List.count_pos_iff.1
          omega
      · rw [List.count_cons_of_ne (Ne.symm hv)]
        simp [needed', hv]

/-- Invariant of the visiting loop: `D` are the gates whose children were relaxed, `R` the
interactive gates handed out but not relaxed, `Q` the queue. -/
structure Inv (c : Base G) (D R : List Nat) (needed : Nat → Nat) (Q : List Nat) : Prop where
  nodup : (D ++ R ++ Q).Nodup
  needed : needed = cnt c D
  ready : ∀ v, c.parents v ≠ [] → (v ∈ D ++ R ++ Q ↔ cnt c D v = 0)
  bound : ∀ v ∈ D ++ R ++ Q, v < c.gates.length

/-- All edges end at existing gates. -/
def EdgesOk (c : Base G) : Prop := ∀ e ∈ c.edges, e.1 < c.gates.length ∧ e.2 < c.gates.length

theorem parents_ne_nil_of_child (c : Base G) {u v : Nat} (h : v ∈ c.children u) :
    c.parents v ≠ [] := by
  have : u ∈ c.parents v := (mem_parents c u v).2 ((mem_children c u v).1 h)
  exact List.ne_nil_of_mem this

/-- Relaxing one gate `u` that was handed out. -/
theorem relax_inv (c : Base G) (hE : EdgesOk c) (D R Q : List Nat) (u : Nat) (needed : Nat → Nat)
    (h : Inv c D (u :: R) needed Q) :
    ∃ needed' new, relax needed Q (c.children u) = some (needed', Q ++ new) ∧
      Inv c (D ++ [u]) R needed' (Q ++ new) ∧ ∀ v ∈ new, c.parents v ≠ [] := by
  have hnd := h.nodup
  have huD : u ∉ D := by
    intro hu
    rw [List.append_assoc, List.nodup_append] at hnd
    exact hnd.2.2 u hu u (by simp) rfl
  have hle : ∀ v, (c.children u).count v ≤ needed v := by
    intro v
    rw [h.needed]
    have := cnt_append c D u v huD
    omega
  obtain ⟨new, h1, h2, h3⟩ := relax_spec (c.children u) needed Q hle
  refine ⟨_, new, h1, ?_, fun v hv => parents_ne_nil_of_child c ((h3 v).1 hv).1⟩
  have hnew : ∀ v ∈ new, cnt c D v ≠ 0 ∧ cnt c (D ++ [u]) v = 0 ∧ c.parents v ≠ [] := by
    intro v hv
    obtain ⟨hc, he⟩ := (h3 v).1 hv
    rw [h.needed] at he
    have := cnt_append c D u v huD
    have := List.count_pos_iff.2 hc
    exact ⟨by omega, by omega, parents_ne_nil_of_child c hc⟩
  have hfresh : ∀ v ∈ new, v ∉ D ++ (u :: R) ++ Q := by
    intro v hv hm
    obtain ⟨a, b, p⟩ := hnew v hv
    exact a ((h.ready v p).1 hm)
  constructor
  · have e : D ++ [u] ++ R ++ (Q ++ new) = (D ++ (u :: R) ++ Q) ++ new := by simp
    rw [e, List.nodup_append]
    exact ⟨hnd, h2, fun a ha b hb hab => hfresh b hb (hab ▸ ha)⟩
  · funext v
    rw [h.needed]
    have := cnt_append c D u v huD
    omega
  · intro v hp
    have hmem : v ∈ D ++ [u] ++ R ++ (Q ++ new) ↔ v ∈ D ++ (u :: R) ++ Q ∨ v ∈ new := by
      simp only [List.mem_append, List.mem_cons, List.not_mem_nil, or_false]; tauto
    rw [hmem, h.ready v hp]
    have ha := cnt_append c D u v huD
    constructor
    · rintro (h0 | hn)
      · omega
      · exact (hnew v hn).2.1
    · intro h0
      by_cases hc : cnt c D v = 0
      · exact Or.inl hc
      · right
        rw [h3]
        refine ⟨List.count_pos_iff.1 (by omega), ?_⟩
        rw [h.needed]; omega
  · intro v hv
    have hmem : v ∈ D ++ (u :: R) ++ Q ∨ v ∈ new := by
      simp only [List.mem_append, List.mem_cons, List.not_mem_nil, or_false] at hv ⊢; tauto
    rcases hmem with hm | hm
    · exact h.bound v hm
    · have := ((h3 v).1 hm).1
      exact (hE _ ((mem_children c u v).1 this)).2

theorem relaxAll_inv (c : Base G) (hE : EdgesOk c) (us D R Q : List Nat) (needed : Nat → Nat)
    (h : Inv c D (us ++ R) needed Q) :
    ∃ needed' new, relaxAll c needed Q us = some (needed', Q ++ new) ∧
      Inv c (D ++ us) R needed' (Q ++ new) ∧ ∀ v ∈ new, c.parents v ≠ [] := by
  induction us generalizing D Q needed with
  | nil => exact ⟨needed, [], by simp [relaxAll], by simpa using h, by simp⟩
  | cons u us ih =>
    obtain ⟨n1, new1, h1, i1, p1⟩ := relax_inv c hE D (us ++ R) Q u needed h
    obtain ⟨n2, new2, h2, i2, p2⟩ := ih (D ++ [u]) (Q ++ new1) n1 i1
    refine ⟨n2, new1 ++ new2, ?_, ?_, ?_⟩
    · simp [relaxAll, h1, h2]
    · simpa using i2
    · intro v hv
      rcases List.mem_append.1 hv with hv | hv
      · exact p1 v hv
      · exact p2 v hv

theorem nodup_bound_length (l : List Nat) (n : Nat) (h : l.Nodup) (hb : ∀ v ∈ l, v < n) :
    l.length ≤ n := by
  have := List.Subperm.length_le (List.subperm_of_subset h
    (fun v hv => List.mem_range.2 (hb v hv)))
  simpa using this

/-- Facts about the gates a visiting loop adds to its layer, given the gates `D` known before. -/
structure Added [GateLike G] (c : Base G) (D ni int : List Nat) : Prop where
  niOrder : ∀ l v r, ni = l ++ v :: r → ∀ u ∈ c.parents v, u ∈ D ++ l
  intOrder : ∀ v ∈ int, ∀ u ∈ c.parents v, u ∈ D ++ ni
  niGate : ∀ v ∈ ni, ∃ g, c.gates[v]? = some g ∧ interactive g = false
  intGate : ∀ v ∈ int, ∃ g, c.gates[v]? = some g ∧ interactive g = true

theorem visit_spec [GateLike G] (c : Base G) (hE : EdgesOk c) (fuel : Nat) (D R Q : List Nat)
    (needed : Nat → Nat) (layer : Layer) (h : Inv c D R needed Q)
    (hf : c.gates.length ≤ fuel + (D.length + R.length)) :
    ∃ needed' ni int, visit c fuel needed Q layer = some (needed', ⟨layer.ni ++ ni, layer.int ++ int⟩) ∧
      Inv c (D ++ ni) (R ++ int) needed' [] ∧ Added c D ni int ∧ (∀ v ∈ Q, v ∈ ni ++ int) ∧
      ∀ v ∈ ni ++ int, v ∈ Q ∨ c.parents v ≠ [] := by
  induction fuel generalizing D R Q needed layer with
  | zero =>
    have hl := nodup_bound_length _ _ h.nodup h.bound
    simp only [List.length_append] at hl
    have : Q = [] := List.length_eq_zero_iff.1 (by omega)
    subst this
    refine ⟨needed, [], [], by simp [visit], by simpa using h, ⟨?_, ?_, ?_, ?_⟩, by simp, by simp⟩ <;> simp
  | succ fuel ih =>
    match Q with
    | [] =>
      refine ⟨needed, [], [], by simp [visit], by simpa using h, ⟨?_, ?_, ?_, ?_⟩, by simp, by simp⟩ <;> simp
    | v :: Q =>
      have hv : v < c.gates.length := h.bound v (by simp)
      obtain ⟨g, hg⟩ : ∃ g, c.gates[v]? = some g := ⟨_, List.getElem?_eq_getElem hv⟩
      have hpar : ∀ u ∈ c.parents v, u ∈ D := by
        intro u hu
        exact (cnt_eq_zero c D v).1 ((h.ready v (List.ne_nil_of_mem hu)).1 (by simp)) u hu
      by_cases hi : interactive g = true
      · have h' : Inv c D (R ++ [v]) needed Q := by
          constructor
          · simpa using h.nodup
          · exact h.needed
          · intro w hw
            rw [← h.ready w hw]; simp
          · intro w hw; exact h.bound w (by simpa using hw)
        obtain ⟨n', ni, int, e, i, a, hq, hs⟩ := ih D (R ++ [v]) Q needed
          { layer with int := layer.int ++ [v] } h' (by simp; omega)
        refine ⟨n', ni, v :: int, ?_, ?_, ⟨a.niOrder, ?_, a.niGate, ?_⟩, ?_, ?_⟩
        · simp only [visit, hg, hi, if_true]
          rw [e]; simp
        · simpa using i
        · intro w hw u hu
          rcases List.mem_cons.1 hw with rfl | hw
          · exact List.mem_append_left _ (hpar u hu)
          · exact a.intOrder w hw u hu
        · intro w hw
          rcases List.mem_cons.1 hw with rfl | hw
          · exact ⟨g, hg, hi⟩
          · exact a.intGate w hw
        · intro w hw
          rcases List.mem_cons.1 hw with rfl | hw
          · simp
          · have := hq w hw
            simp only [List.mem_append, List.mem_cons] at this ⊢; tauto
        · intro w hw
          have := hs w
          simp only [List.mem_append, List.mem_cons] at this hw ⊢; tauto
      · have hi' : interactive g = false := by simpa using hi
        have h0 : Inv c D (v :: R) needed Q := by
          constructor
          · have := h.nodup
            refine (List.Perm.nodup_iff ?_).1 this
            simp only [List.append_assoc]
            apply List.Perm.append_left
            exact List.perm_middle
          · exact h.needed
          · intro w hw
            rw [← h.ready w hw]; simp only [List.mem_append, List.mem_cons]; tauto
          · intro w hw
            refine h.bound w ?_
            simp only [List.mem_append, List.mem_cons] at hw ⊢; tauto
        obtain ⟨n1, new, e1, i1, p1⟩ := relax_inv c hE D R Q v needed h0
        obtain ⟨n', ni, int, e, i, a, hq, hs⟩ := ih (D ++ [v]) R (Q ++ new) n1
          { layer with ni := layer.ni ++ [v] } i1 (by simp; omega)
        refine ⟨n', v :: ni, int, ?_, ?_, ⟨?_, ?_, ?_, a.intGate⟩, ?_, ?_⟩
        · simp only [visit, hg, hi', Bool.false_eq_true, if_false, e1, Option.bind_eq_bind,
            Option.bind_some]
          rw [e]; simp
        · simpa using i
        · intro l w r hl u hu
          match l with
          | [] =>
            simp only [List.nil_append, List.cons.injEq] at hl
            obtain ⟨rfl, -⟩ := hl
            simpa using hpar u hu
          | x :: l =>
            simp only [List.cons_append, List.cons.injEq] at hl
            obtain ⟨rfl, hl⟩ := hl
            have := a.niOrder l w r hl u hu
            simpa using this
        · intro w hw u hu
          have := a.intOrder w hw u hu
          simpa using this
        · intro w hw
          rcases List.mem_cons.1 hw with rfl | hw
          · exact ⟨g, hg, hi'⟩
          · exact a.niGate w hw
        · intro w hw
          rcases List.mem_cons.1 hw with rfl | hw
          · simp
          · have := hq w (by simp [hw])
            simp only [List.cons_append, List.mem_cons]
            exact Or.inr this
        · intro w hw
          simp only [List.cons_append, List.mem_cons] at hw
          rcases hw with rfl | hw
          · simp
          · rcases hs w hw with hw | hw
            · rcases List.mem_append.1 hw with hw | hw
              · simp [hw]
              · exact Or.inr (p1 w hw)
            · exact Or.inr hw

/-- One call of `BaseLayerIter::next`. -/
theorem next_spec [GateLike G] (c : Base G) (hE : EdgesOk c) (D : List Nat) (s : Iter)
    (h : Inv c D s.prev s.needed s.nextLayer) :
    ∃ ni int needed', Iter.next c s =
        some (if ni = [] ∧ int = [] then none else some ⟨ni, int⟩,
          ⟨needed', int, [], s.produced + (int.length + ni.length)⟩) ∧
      Inv c (D ++ s.prev ++ ni) int needed' [] ∧ Added c (D ++ s.prev) ni int ∧
      (∀ v ∈ s.nextLayer, v ∈ ni ++ int) ∧
      ∀ v ∈ ni ++ int, v ∈ s.nextLayer ∨ c.parents v ≠ [] := by
  obtain ⟨n1, new, e1, i1, p1⟩ := relaxAll_inv c hE s.prev D [] s.nextLayer s.needed (by simpa using h)
  obtain ⟨n2, ni, int, e2, i2, a, hq, hs⟩ := visit_spec c hE
    ((s.nextLayer ++ new).length + c.gates.length) (D ++ s.prev) [] (s.nextLayer ++ new) n1 ⟨[], []⟩
    i1 (by omega)
  refine ⟨ni, int, n2, ?_, by simpa using i2, a, fun v hv => hq v (by simp [hv]), ?_⟩
  swap
  · intro v hv
    rcases hs v hv with hv | hv
    · rcases List.mem_append.1 hv with hv | hv
      · exact Or.inl hv
      · exact Or.inr (p1 v hv)
    · exact Or.inr hv
  simp only [Iter.next, e1, Option.bind_eq_bind, Option.bind_some, e2, List.nil_append,
    Option.pure_def]
  by_cases he : ni = [] ∧ int = []
  · simp [he]
  · simp [he]

end Verif.Circuit
