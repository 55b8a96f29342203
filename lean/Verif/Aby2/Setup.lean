import Verif.Aby2.Circuit

/-!
The masks produced by `setup_gate_outputs` satisfy the hypotheses of C37.
-/
set_option autoImplicit false

namespace Verif.Aby2

open Gmw (BaseGate)
open Circuit Exec Proc

/-! ### The order of `Circuit::iter` -/

/-- Every node comes after its operands, given that those of `done` are available. -/
def OrdFrom (parents : Node → List Node) : List Node → List Node → Prop
  | _, [] => True
  | done, v :: vs => (∀ u ∈ parents v, u ∈ done) ∧ OrdFrom parents (done ++ [v]) vs

theorem ordFrom_mono {parents : Node → List Node} {d d' vs : List Node} (h : ∀ u ∈ d, u ∈ d')
    (ho : OrdFrom parents d vs) : OrdFrom parents d' vs := by
  induction vs generalizing d d' with
  | nil => trivial
  | cons v vs ih =>
    refine ⟨fun u hu => h u (ho.1 u hu), ih ?_ ho.2⟩
    intro u hu
    rcases List.mem_append.1 hu with hu | hu
    · exact List.mem_append_left _ (h u hu)
    · exact List.mem_append_right _ hu

theorem ordFrom_append {parents : Node → List Node} {d a b : List Node}
    (h1 : OrdFrom parents d a) (h2 : OrdFrom parents (d ++ a) b) : OrdFrom parents d (a ++ b) := by
  induction a generalizing d with
  | nil => simpa using h2
  | cons v a ih =>
    exact ⟨h1.1, ih h1.2 (by simpa using h2)⟩

theorem ordFrom_of_split {parents : Node → List Node} {d vs : List Node}
    (h : ∀ a v b, vs = a ++ v :: b → ∀ u ∈ parents v, u ∈ d ++ a) : OrdFrom parents d vs := by
  induction vs generalizing d with
  | nil => trivial
  | cons v vs ih =>
    refine ⟨fun u hu => by simpa using h [] v vs rfl u hu, ih ?_⟩
    intro a w b e u hu
    simpa using h (v :: a) w b (by simp [e]) u hu

theorem ordFrom_split {parents : Node → List Node} {d a b : List Node}
    (h : OrdFrom parents d (a ++ b)) : OrdFrom parents d a ∧ OrdFrom parents (d ++ a) b := by
  induction a generalizing d with
  | nil => exact ⟨trivial, by simpa using h⟩
  | cons v a ih =>
    obtain ⟨i1, i2⟩ := ih h.2
    exact ⟨⟨h.1, i1⟩, by simpa using i2⟩

theorem ordFrom_of_forall {parents : Node → List Node} {d vs : List Node}
    (h : ∀ v ∈ vs, ∀ u ∈ parents v, u ∈ d) : OrdFrom parents d vs := by
  induction vs generalizing d with
  | nil => trivial
  | cons v vs ih =>
    exact ⟨h v List.mem_cons_self, ih fun w hw u hu =>
      List.mem_append_left _ (h w (List.mem_cons_of_mem _ hw) u hu)⟩

/-- One layer in the order of `Circuit::iter`. -/
def iterLayer (l : MLayer) : List Node :=
  l.flatMap fun p => (p.2.ni ++ p.2.int).map fun g => (p.1, g)

theorem mem_iterLayer (l : MLayer) (v : Node) : v ∈ iterLayer l ↔ v ∈ niNodes l ++ intNodes l := by
  simp only [iterLayer, niNodes, intNodes, List.mem_append, List.mem_flatMap, List.mem_map]
  constructor
  · rintro ⟨p, hp, g, hg | hg, rfl⟩
    · left; exact ⟨p, hp, g, hg, rfl⟩
    · right; exact ⟨p, hp, g, hg, rfl⟩
  · rintro (⟨p, hp, g, hg, rfl⟩ | ⟨p, hp, g, hg, rfl⟩)
    · exact ⟨p, hp, g, .inl hg, rfl⟩
    · exact ⟨p, hp, g, .inr hg, rfl⟩

theorem iterLayer_perm (l : MLayer) : (iterLayer l).Perm (niNodes l ++ intNodes l) := by
  induction l with
  | nil => simp [iterLayer, niNodes, intNodes]
  | cons p l ih =>
    simp only [iterLayer, niNodes, intNodes, List.flatMap_cons, List.map_append] at ih ⊢
    have h1 := (List.Perm.refl (p.2.ni.map (fun g => (p.1, g)) ++ p.2.int.map fun g => (p.1, g))).append ih
    refine h1.trans ?_
    simp only [List.append_assoc]
    refine List.Perm.append_left _ ?_
    rw [← List.append_assoc, ← List.append_assoc]
    exact List.Perm.append_right _ List.perm_append_comm

theorem iterLayer_ord {parents : Node → List Node} (l : MLayer) (done : List Node)
    (hid : (l.map (·.1)).Nodup) (hni : OrdFrom parents done (niNodes l))
    (hint : ∀ v ∈ intNodes l, ∀ u ∈ parents v, u ∈ done ∨ (u ∈ niNodes l ∧ u.1 = v.1)) :
    OrdFrom parents done (iterLayer l) := by
  induction l generalizing done with
  | nil => trivial
  | cons p l ih =>
    have e1 : niNodes (p :: l) = p.2.ni.map (fun g => (p.1, g)) ++ niNodes l := by
      simp [niNodes]
    have e2 : intNodes (p :: l) = p.2.int.map (fun g => (p.1, g)) ++ intNodes l := by
      simp [intNodes]
    have e3 : iterLayer (p :: l) = p.2.ni.map (fun g => (p.1, g)) ++
        (p.2.int.map (fun g => (p.1, g)) ++ iterLayer l) := by
      simp [iterLayer]
    rw [e1] at hni
    obtain ⟨n1, n2⟩ := ordFrom_split hni
    rw [e3]
    have hother : ∀ u ∈ niNodes l, u.1 ≠ p.1 := by
      intro u hu he
      simp only [niNodes, List.mem_flatMap, List.mem_map] at hu
      obtain ⟨q, hq, g, -, rfl⟩ := hu
      simp only [List.map_cons, List.nodup_cons] at hid
      exact hid.1 (he ▸ List.mem_map_of_mem hq)
    refine ordFrom_append n1 (ordFrom_append (ordFrom_of_forall ?_) (ih _ ?_ ?_ ?_))
    · intro v hv u hu
      rcases hint v (by rw [e2]; exact List.mem_append_left _ hv) u hu with h | ⟨h, he⟩
      · exact List.mem_append_left _ h
      · rw [e1] at h
        rcases List.mem_append.1 h with h | h
        · exact List.mem_append_right _ h
        · obtain ⟨g, -, rfl⟩ := List.mem_map.1 hv
          exact absurd he (hother u h)
    · simp only [List.map_cons, List.nodup_cons] at hid; exact hid.2
    · exact ordFrom_mono (fun u hu => List.mem_append_left _ hu) n2
    · intro v hv u hu
      rcases hint v (by rw [e2]; exact List.mem_append_right _ hv) u hu with h | ⟨h, he⟩
      · left; simp [h]
      · rw [e1] at h
        rcases List.mem_append.1 h with h | h
        · left; simp [h]
        · right; exact ⟨h, he⟩

theorem iterNodes_ord {parents : Node → List Node} (ls : List MLayer) (done : List Node)
    (hid : ∀ l ∈ ls, (l.map (·.1)).Nodup)
    (ht : TopoFrom parents done (ls.map fun l => (niNodes l, intNodes l)))
    (hsame : ∀ l ∈ ls, ∀ v ∈ intNodes l, ∀ u ∈ parents v, u.1 = v.1) :
    OrdFrom parents done (iterNodes ls) := by
  induction ls generalizing done with
  | nil => trivial
  | cons l ls ih =>
    obtain ⟨t1, t2, t3⟩ := ht
    have e : iterNodes (l :: ls) = iterLayer l ++ iterNodes ls := by simp [iterNodes, iterLayer]
    rw [e]
    refine ordFrom_append (iterLayer_ord l done (hid l List.mem_cons_self)
      (ordFrom_of_split t1) ?_) ?_
    · intro v hv u hu
      rcases List.mem_append.1 (t2 v hv u hu) with h | h
      · exact .inl h
      · exact .inr ⟨h, hsame l List.mem_cons_self v hv u hu⟩
    · refine ordFrom_mono ?_ (ih _ (fun l' h => hid l' (List.mem_cons_of_mem _ h)) t3
        (fun l' h => hsame l' (List.mem_cons_of_mem _ h)))
      intro u hu
      rw [List.append_assoc] at hu
      rcases List.mem_append.1 hu with hu | hu
      · exact List.mem_append_left _ hu
      · exact List.mem_append_right _ ((mem_iterLayer l u).2 hu)

theorem iterNodes_perm (ls : List MLayer) : (iterNodes ls).Perm (ls.flatMap layerNodes) := by
  induction ls with
  | nil => exact .refl _
  | cons l ls ih =>
    have e : iterNodes (l :: ls) = iterLayer l ++ iterNodes ls := by simp [iterNodes, iterLayer]
    rw [e, List.flatMap_cons]
    exact (iterLayer_perm l).append ih

section Ids
variable {G : Type} [GateLike G]

theorem stepAll_ids (m : Multi G) (is : List Nat) (it it' : MIter) (l : MLayer)
    (h : stepAll m it is = some (l, it')) : (l.map (·.1)).Sublist is := by
  induction is generalizing it l it' with
  | nil => simp only [stepAll, Option.some.injEq, Prod.mk.injEq] at h; rw [← h.1]; simp
  | cons i is ih =>
    simp only [stepAll] at h
    split at h
    · exact (ih _ _ _ h).cons i
    · cases h
    · simp only [Option.bind_eq_bind, Option.bind_eq_some_iff, Option.pure_def] at h
      obtain ⟨⟨lay, s'⟩, -, ⟨ls, it2⟩, h2, h3⟩ := h
      have := ih _ _ _ h2
      split at h3
      · simp only [Option.some.injEq, Prod.mk.injEq] at h3
        rw [← h3.1, List.map_cons]
        exact this.cons_cons i
      · simp only [Option.some.injEq, Prod.mk.injEq] at h3
        rw [← h3.1]
        exact this.cons i

theorem collect_ids (m : Multi G) (fuel : Nat) (it : MIter) (ls : List MLayer)
    (h : MIter.collect m fuel it = some ls) : ∀ l ∈ ls, (l.map (·.1)).Nodup := by
  induction fuel generalizing it ls with
  | zero => simp [MIter.collect] at h
  | succ fuel ih =>
    simp only [MIter.collect, Option.bind_eq_bind, Option.bind_eq_some_iff] at h
    obtain ⟨⟨l, it'⟩, h1, h2⟩ := h
    cases l with
    | none => simp only [Option.pure_def, Option.some.injEq] at h2; subst h2; simp
    | some l =>
      simp only [Option.bind_eq_some_iff, Option.pure_def, Option.some.injEq] at h2
      obtain ⟨ls', h2, rfl⟩ := h2
      intro l' hl'
      rcases List.mem_cons.1 hl' with rfl | hl'
      · simp only [MIter.next, Option.bind_eq_bind, Option.bind_eq_some_iff, Option.pure_def,
          Option.some.injEq, Prod.mk.injEq] at h1
        obtain ⟨⟨l2, it2⟩, h3, it3, h4, h5, h6⟩ := h1
        split at h5
        · cases h5
        · simp only [Option.some.injEq] at h5
          subst h5
          exact List.nodup_range.sublist (stepAll_ids m _ _ _ _ h3)
      · exact ih _ _ h2 l' hl'

theorem relax_append (vs : List Nat) (needed needed' : Nat → Nat) (q q' : List Nat)
    (h : relax needed q vs = some (needed', q')) : ∃ r, q' = q ++ r := by
  induction vs generalizing needed q with
  | nil => simp only [relax, Option.some.injEq, Prod.mk.injEq] at h; exact ⟨[], by simp [h.2]⟩
  | cons v vs ih =>
    simp only [relax] at h
    split at h
    · cases h
    · obtain ⟨r, hr⟩ := ih _ _ h
      split at hr
      · exact ⟨v :: r, by simp [hr]⟩
      · exact ⟨r, hr⟩

theorem visit_mono (c : Base G) (fuel : Nat) (needed needed' : Nat → Nat) (q : List Nat)
    (layer lay : Layer) (h : visit c fuel needed q layer = some (needed', lay)) :
    ∃ r, lay.ni = layer.ni ++ r := by
  induction fuel generalizing needed q layer with
  | zero =>
    cases q with
    | nil => simp only [visit, Option.some.injEq, Prod.mk.injEq] at h; exact ⟨[], by simp [h.2]⟩
    | cons => simp [visit] at h
  | succ fuel ih =>
    cases q with
    | nil => simp only [visit, Option.some.injEq, Prod.mk.injEq] at h; exact ⟨[], by simp [h.2]⟩
    | cons v q =>
      simp only [visit] at h
      split at h
      · cases h
      · split at h
        · obtain ⟨r, hr⟩ := ih _ _ _ h
          exact ⟨r, hr⟩
        · simp only [Option.bind_eq_bind, Option.bind_eq_some_iff] at h
          obtain ⟨⟨n2, q2⟩, -, h⟩ := h
          obtain ⟨r, hr⟩ := ih _ _ _ h
          exact ⟨v :: r, by simp [hr]⟩

/-- Local gates at the front of the queue are visited in order. -/
theorem visit_prefix (c : Base G) (fuel : Nat) (needed needed' : Nat → Nat) (q q' : List Nat)
    (layer lay : Layer)
    (hq : ∀ v ∈ q, ∃ g, c.gates[v]? = some g ∧ interactive g = false)
    (h : visit c fuel needed (q ++ q') layer = some (needed', lay)) :
    ∃ r, lay.ni = layer.ni ++ q ++ r := by
  induction q generalizing fuel needed q' layer with
  | nil => simpa using visit_mono c fuel needed needed' q' layer lay h
  | cons v q ih =>
    cases fuel with
    | zero => simp [visit] at h
    | succ fuel =>
      obtain ⟨g, hg, hi⟩ := hq v List.mem_cons_self
      simp only [List.cons_append, visit, hg, hi, Bool.false_eq_true, if_false,
        Option.bind_eq_bind, Option.bind_eq_some_iff] at h
      obtain ⟨⟨n2, q2⟩, h1, h2⟩ := h
      obtain ⟨r, hr⟩ := relax_append _ _ _ _ _ h1
      simp only [hr, List.append_assoc] at h2
      obtain ⟨r', hr'⟩ := ih fuel n2 _ _ (fun w hw => hq w (List.mem_cons_of_mem _ hw)) h2
      exact ⟨r', by simp [hr']⟩

theorem stepAll_none (m : Multi G) (it : MIter) (is : List Nat) (h : ∀ i ∈ is, it i = none) :
    stepAll m it is = some ([], it) := by
  induction is with
  | nil => rfl
  | cons i is ih =>
    simp only [stepAll, h i List.mem_cons_self]
    exact ih fun j hj => h j (List.mem_cons_of_mem _ hj)

/-- The iteration starts with the constants and the inputs of the main circuit, in order. -/
theorem iter_prefix (m : Multi G) (c0 : Base G) (hc0 : m.circs[0]? = some c0) (fuel : Nat)
    (it : MIter) (ls : List MLayer) (hit : MIter.new m = some it)
    (hls : MIter.collect m (fuel + 1) it = some ls)
    (hq : ∀ v ∈ c0.constantGates ++ c0.inputGates, ∃ g, c0.gates[v]? = some g ∧
      interactive g = false) :
    ∃ rest, iterNodes ls = (c0.constantGates ++ c0.inputGates).map (fun g => (0, g)) ++ rest := by
  simp only [MIter.new, hc0, Option.bind_eq_bind, Option.bind_some, Option.pure_def,
    Option.some.injEq] at hit
  subst hit
  have hlen : 0 < m.circs.length := (List.getElem?_eq_some_iff.1 hc0).1
  obtain ⟨k, hk⟩ : ∃ k, m.circs.length = k + 1 := ⟨m.circs.length - 1, by omega⟩
  simp only [MIter.collect, MIter.next, Option.bind_eq_bind, Option.bind_eq_some_iff,
    Option.pure_def, Option.some.injEq] at hls
  obtain ⟨⟨l, it'⟩, ⟨⟨l1, it1⟩, h1, it2, h2, h3⟩, h4⟩ := hls
  rw [hk, List.range_succ_eq_map] at h1
  simp only [stepAll, if_true, hc0, Option.bind_eq_bind, Option.bind_eq_some_iff,
    Option.pure_def, Option.some.injEq] at h1
  obtain ⟨⟨lo, s'⟩, h5, ⟨ls2, it3⟩, h6, h7⟩ := h1
  rw [stepAll_none m _ _ (by
    intro i hi
    obtain ⟨j, -, rfl⟩ := List.mem_map.1 hi
    simp)] at h6
  simp only [Option.some.injEq, Prod.mk.injEq] at h6
  simp only [Iter.next, Option.bind_eq_bind, Option.bind_eq_some_iff, Iter.new, Iter.newUninit,
    relaxAll, Option.some.injEq, Option.pure_def] at h5
  obtain ⟨⟨n0, q0⟩, h8, ⟨n2, lay⟩, h9, h10⟩ := h5
  simp only [Prod.mk.injEq] at h8
  obtain ⟨rfl, rfl⟩ := h8
  have hv := visit_prefix c0 _ _ _ (c0.constantGates ++ c0.inputGates) [] ⟨[], []⟩ lay hq
    (by simpa using h9)
  obtain ⟨r, hr⟩ := hv
  simp only [List.nil_append] at hr
  simp only at h10
  split at h10
  · rename_i he
    rw [he.1] at hr
    obtain ⟨e1, e2⟩ : c0.constantGates = [] ∧ c0.inputGates = [] := by
      have := hr.symm
      simp only [List.append_eq_nil_iff] at this
      exact this.1
    exact ⟨iterNodes ls, by simp [e1, e2]⟩
  · simp only [Option.some.injEq, Prod.mk.injEq] at h10
    obtain ⟨rfl, rfl⟩ := h10
    simp only [Prod.mk.injEq] at h7
    obtain ⟨rfl, rfl⟩ := h7
    obtain ⟨rfl, rfl⟩ := h6
    simp only [List.cons_ne_nil, if_false, Prod.mk.injEq] at h3
    obtain ⟨rfl, rfl⟩ := h3
    simp only [Option.bind_eq_some_iff, Option.some.injEq] at h4
    obtain ⟨ls', -, rfl⟩ := h4
    refine ⟨(r ++ lay.int).map (fun g => (0, g)) ++ iterNodes ls', ?_⟩
    simp [iterNodes, hr]

end Ids

end Verif.Aby2
