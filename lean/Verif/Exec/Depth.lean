import Verif.Exec.Single

/-!
The layer of a gate is its multiplicative depth; the number of communication rounds (C63).
-/
set_option autoImplicit false

namespace Verif.Exec

open Circuit Proc GateLike

variable {G : Type} [GateLike G]

/-! ### Specification -/

/-- A gate that needs communication costs one round. -/
def cost (c : Base G) (v : Nat) : Nat :=
  match c.gates[v]? with
  | some g => if interactive g then 1 else 0
  | none => 0

def maxL (l : List Nat) : Nat := l.foldr max 0

/-- `d v` is the number of interactive gates on the longest path that ends before `v`. -/
def IsDepth (c : Base G) (d : Nat → Nat) : Prop :=
  ∀ v < c.gates.length, d v = maxL ((c.parents v).map fun u => d u + cost c u)

/-- The number of interactive gates on the longest path of the circuit. -/
def mulDepth (c : Base G) (d : Nat → Nat) : Nat :=
  maxL ((List.range c.gates.length).map fun v => d v + cost c v)

/-! ### Proof -/

theorem le_maxL {l : List Nat} {x : Nat} (h : x ∈ l) : x ≤ maxL l := by
  induction l with
  | nil => simp at h
  | cons y l ih =>
    simp only [maxL, List.foldr_cons] at ih ⊢
    rcases List.mem_cons.1 h with rfl | h
    · omega
    · have := ih h; omega

theorem maxL_mem {l : List Nat} (h : maxL l ≠ 0) : maxL l ∈ l := by
  induction l with
  | nil => simp [maxL] at h
  | cons y l ih =>
    simp only [maxL, List.foldr_cons] at ih h ⊢
    by_cases hy : l.foldr max 0 ≤ y
    · rw [Nat.max_eq_left hy]; simp
    · rw [Nat.max_eq_right (by omega)] at h ⊢
      exact List.mem_cons_of_mem _ (ih h)

theorem maxL_le {l : List Nat} {k : Nat} (h : ∀ x ∈ l, x ≤ k) : maxL l ≤ k := by
  by_cases h0 : maxL l = 0
  · omega
  · exact h _ (maxL_mem h0)

/-- What the iterator has done before layer `k`. -/
structure AtDepth (c : Base G) (d : Nat → Nat) (k : Nat) (D : List Nat) (s : Iter) : Prop where
  inv : Inv c D s.prev s.needed s.nextLayer
  src : ∀ v < c.gates.length, c.parents v = [] → v ∈ D ++ s.prev ++ s.nextLayer
  done : ∀ v ∈ D ++ s.prev, d v + cost c v ≤ k
  todo : ∀ v < c.gates.length, v ∉ D ++ s.prev → k ≤ d v

theorem atDepth_step {c : Base G} {rank : Nat → Nat} (ok : SingleOk c rank) {d : Nat → Nat} (hd : IsDepth c d)
    {k : Nat} {D : List Nat} {s : Iter} (h : AtDepth c d k D s) :
    ∃ ni int s', Iter.next c s = some (if ni = [] ∧ int = [] then none else some ⟨ni, int⟩, s') ∧
      (∀ v ∈ ni ++ int, d v = k) ∧ AtDepth c d (k + 1) (D ++ s.prev ++ ni) s' := by
  obtain ⟨ni, int, needed', e, inv, added, hq, hs⟩ := next_spec c ok.edges D s h.inv
  refine ⟨ni, int, _, e, ?_⟩
  have hnd : (D ++ s.prev ++ (ni ++ int)).Nodup := by simpa using inv.nodup
  have hlow : ∀ v ∈ ni ++ int, k ≤ d v := by
    intro v hv
    refine h.todo v (inv.bound v (by simp at hv ⊢; tauto)) ?_
    intro hv'
    exact (List.nodup_append.1 hnd).2.2 v hv' v hv rfl
  have hcost0 : ∀ v ∈ ni, cost c v = 0 := by
    intro v hv
    obtain ⟨g, hg, hi⟩ := added.niGate v hv
    simp [cost, hg, hi]
  have hcost1 : ∀ v ∈ int, cost c v = 1 := by
    intro v hv
    obtain ⟨g, hg, hi⟩ := added.intGate v hv
    simp [cost, hg, hi]
  have hbd : ∀ v ∈ ni ++ int, v < c.gates.length := fun v hv => inv.bound v (by simp at hv ⊢; tauto)
  have hni : ∀ l r, ni = l ++ r → ∀ v ∈ l, d v = k := by
    intro l
    induction l using List.reverseRecOn with
    | nil => simp
    | append_singleton l v ih =>
      intro r hr u hu
      have ih' := ih (v :: r) (by rw [hr]; simp)
      rcases List.mem_append.1 hu with hu | hu
      · exact ih' u hu
      · rw [List.mem_singleton] at hu
        subst hu
        have hm : u ∈ ni ++ int := by rw [hr]; simp
        refine le_antisymm ?_ (hlow u hm)
        rw [hd u (hbd u hm)]
        apply maxL_le
        intro x hx
        obtain ⟨p, hp, rfl⟩ := List.mem_map.1 hx
        have := added.niOrder l u r (by rw [hr]; simp) p hp
        rcases List.mem_append.1 this with hp' | hp'
        · exact h.done p hp'
        · rw [ih' p hp', hcost0 p (by rw [hr]; simp [hp'])]; omega
  have hni' : ∀ v ∈ ni, d v = k := hni ni [] (by simp)
  have hint : ∀ v ∈ int, d v = k := by
    intro v hv
    have hm : v ∈ ni ++ int := by simp [hv]
    refine le_antisymm ?_ (hlow v hm)
    rw [hd v (hbd v hm)]
    apply maxL_le
    intro x hx
    obtain ⟨p, hp, rfl⟩ := List.mem_map.1 hx
    rcases List.mem_append.1 (added.intOrder v hv p hp) with hp' | hp'
    · exact h.done p hp'
    · rw [hni' p hp', hcost0 p hp']; omega
  refine ⟨fun v hv => (List.mem_append.1 hv).elim (hni' v) (hint v), inv, ?_, ?_, ?_⟩
  · intro v hv hp
    have := h.src v hv hp
    simp only [List.append_nil, List.mem_append] at this ⊢
    rcases this with h1 | h1
    · exact Or.inl (Or.inl h1)
    · have := hq v h1
      simp only [List.mem_append] at this
      rcases this with h | h
      · exact Or.inl (Or.inr h)
      · exact Or.inr h
  · intro v hv
    simp only [List.mem_append] at hv
    rcases hv with (hv | hv) | hv
    · have := h.done v (by simpa using hv); omega
    · rw [hni' v hv, hcost0 v hv]; omega
    · rw [hint v hv, hcost1 v hv]
  · intro v
    induction hr : rank v using Nat.strong_induction_on generalizing v with
    | _ r ih =>
      subst hr
      intro hv hn
      simp only at hn
      have hpn : c.parents v ≠ [] := by
        intro hp
        have := h.src v hv hp
        simp only [List.mem_append] at this hn
        rcases this with h1 | h1
        · exact hn (Or.inl (Or.inl h1))
        · have := hq v h1
          simp only [List.mem_append] at this
          tauto
      have hc : cnt c (D ++ s.prev ++ ni) v ≠ 0 := by
        intro h0
        exact hn (by simpa using (inv.ready v hpn).2 h0)
      have : ∃ u ∈ c.parents v, u ∉ D ++ s.prev ++ ni := by
        by_contra hall
        push Not at hall
        exact hc ((cnt_eq_zero c _ _).2 hall)
      obtain ⟨u, hu, hun⟩ := this
      have hle : d u + cost c u ≤ d v := by
        rw [hd v hv]
        exact le_maxL (List.mem_map.2 ⟨u, hu, rfl⟩)
      by_cases hui : u ∈ int
      · rw [hint u hui, hcost1 u hui] at hle; exact hle
      · have hedge := edge_of_parent hu
        have := ih (rank u) (ok.rank _ hedge) u rfl (ok.edges _ hedge).1 (by
          simp only [List.mem_append] at hun ⊢
          tauto)
        omega

/-- The layers of a single circuit, from layer `k` on. -/
theorem collect_depth {c : Base G} {rank : Nat → Nat} (ok : SingleOk c rank) {d : Nat → Nat} (hd : IsDepth c d)
    (fuel : Nat) (k : Nat) (D : List Nat) (s : Iter) (it : MIter) (h0 : it 0 = some s)
    (h : AtDepth c d k D s) (ls : List MLayer) (he : MIter.collect (Multi.ofBase c) fuel it = some ls) :
    ∀ (j : Nat) (l : MLayer), ls[j]? = some l → ∀ v ∈ layerNodes l, v.1 = 0 ∧ d v.2 = k + j := by
  induction fuel generalizing k D s it ls with
  | zero => simp [MIter.collect] at he
  | succ fuel ih =>
    obtain ⟨ni, int, s', e, hk, h'⟩ := atDepth_step ok hd h
    have hnone : ∀ (fuel : Nat) (it : MIter) (ls : List MLayer), it 0 = none →
        MIter.collect (Multi.ofBase c) fuel it = some ls → ls = [] := by
      intro fuel it ls hi hl
      cases fuel with
      | zero => simp [MIter.collect] at hl
      | succ fuel =>
        simp [MIter.collect, MIter.next, Multi.ofBase, stepAll, hi, layerTargets, List.range_succ] at hl
        exact hl
    by_cases hz : ni = [] ∧ int = []
    · simp only [hz, and_self, if_true] at e
      have : ls = [] := by
        simp [MIter.collect, MIter.next, Multi.ofBase, stepAll, h0, layerTargets, List.range_succ, e] at he
        exact he
      subst this
      simp
    · simp only [hz, if_false] at e
      simp only [MIter.collect, MIter.next, Multi.ofBase, List.length_singleton, List.range_succ, List.range_zero,
        List.nil_append, stepAll, h0, List.getElem?_cons_zero, e, Option.bind_eq_bind, Option.bind_some,
        Option.pure_def] at he
      have ht : layerTargets (⟨[c], fun _ => [], fun _ => []⟩ : Multi G) [(0, ⟨ni, int⟩)] = [] := by
        simp [layerTargets]
      simp only [ht, List.foldlM_nil, Option.bind_some, reduceCtorEq, if_false, List.cons_ne_nil,
        Option.pure_def, Option.bind_eq_some_iff, Option.some.injEq] at he
      obtain ⟨ls', e2, rfl⟩ := he
      intro j l hl v hv
      cases j with
      | zero =>
        simp only [List.getElem?_cons_zero, Option.some.injEq] at hl
        subst hl
        simp only [layerNodes, niNodes, intNodes, List.flatMap_cons, List.flatMap_nil, List.append_nil,
          List.mem_append, List.mem_map] at hv
        rcases hv with ⟨x, hx, rfl⟩ | ⟨x, hx, rfl⟩
        · exact ⟨rfl, hk x (by simp [hx])⟩
        · exact ⟨rfl, hk x (by simp [hx])⟩
      | succ j =>
        simp only [List.getElem?_cons_succ] at hl
        by_cases hx : s'.isExhausted c = true
        · have := hnone fuel _ ls' (by simp [hx]) e2
          subst this
          simp at hl
        · have := ih (k + 1) _ s' _ (by simp [hx]) h' ls' e2 j l hl v hv
          omega

theorem atDepth_new {c : Base G} {rank : Nat → Nat} (ok : SingleOk c rank) (d : Nat → Nat) :
    AtDepth c d 0 [] (Iter.new c) := by
  have w := single_wf ok
  have hc0 : (Multi.ofBase c).circs[0]? = some c := by simp [Multi.ofBase]
  have hi0 : initial 0 c = c.constantGates ++ c.inputGates := by simp [initial]
  refine ⟨?_, ?_, by simp [Iter.new, Iter.newUninit], by simp⟩
  · have := inv_init c (initial 0 c) (w.initNodup 0 c hc0) (w.initBound 0 c hc0)
      (fun g hg => (w.initSource 0 c hc0 g hg).1)
    rw [hi0] at this
    exact this
  · intro v hv hp
    rcases w.sources 0 c hc0 v hv hp with h | h
    · rw [hi0] at h
      simpa [Iter.new, Iter.newUninit] using h
    · exact absurd rfl h

/-- Depths exist and are unique. -/
theorem depth_unique {c : Base G} {rank : Nat → Nat} (ok : SingleOk c rank) {d d' : Nat → Nat} (hd : IsDepth c d)
    (hd' : IsDepth c d') : ∀ v < c.gates.length, d v = d' v := by
  intro v
  induction hr : rank v using Nat.strong_induction_on generalizing v with
  | _ r ih =>
    subst hr
    intro hv
    rw [hd v hv, hd' v hv]
    congr 1
    apply List.map_congr_left
    intro u hu
    have := edge_of_parent hu
    rw [ih _ (ok.rank _ this) u rfl (ok.edges _ this).1]

/-- The depth by recursion on the rank. -/
def depthF (c : Base G) : Nat → Nat → Nat
  | 0, _ => 0
  | n + 1, v => maxL ((c.parents v).map fun u => depthF c n u + cost c u)

theorem depthF_stable {c : Base G} {rank : Nat → Nat} (ok : SingleOk c rank) (n : Nat) :
    ∀ v, rank v < n → ∀ n', rank v < n' → depthF c n v = depthF c n' v := by
  induction n with
  | zero => intro v h; omega
  | succ n ih =>
    intro v hv n' hn'
    cases n' with
    | zero => omega
    | succ n' =>
      simp only [depthF]
      congr 1
      apply List.map_congr_left
      intro u hu
      have := ok.rank _ (edge_of_parent hu)
      simp only at this
      rw [ih u (by omega) n' (by omega)]

theorem depth_exists {c : Base G} {rank : Nat → Nat} (ok : SingleOk c rank) : ∃ d, IsDepth c d := by
  refine ⟨fun v => depthF c (rank v + 1) v, ?_⟩
  intro v _
  simp only [depthF]
  congr 1
  apply List.map_congr_left
  intro u hu
  have := ok.rank _ (edge_of_parent hu)
  simp only at this
  rw [depthF_stable ok (rank v) u (by omega) (rank u + 1) (by omega)]
  rfl

/-- A gate at depth `k + 1` has an interactive gate at depth `k` before it. -/
theorem depth_chain {c : Base G} {rank : Nat → Nat} (ok : SingleOk c rank) {d : Nat → Nat} (hd : IsDepth c d) :
    ∀ v < c.gates.length, ∀ k, k < d v → ∃ u < c.gates.length, cost c u = 1 ∧ d u = k := by
  intro v
  induction hr : rank v using Nat.strong_induction_on generalizing v with
  | _ r ih =>
    subst hr
    intro hv k hk
    have hm : d v ∈ (c.parents v).map fun u => d u + cost c u := by
      have := hd v hv
      rw [this]
      exact maxL_mem (by omega)
    obtain ⟨u, hu, e⟩ := List.mem_map.1 hm
    have hedge := edge_of_parent hu
    by_cases hku : k < d u
    · exact ih _ (ok.rank _ hedge) u rfl (ok.edges _ hedge).1 k hku
    · have hc : cost c u = 0 ∨ cost c u = 1 := by
        unfold cost
        split
        · split <;> simp
        · simp
      rcases hc with hc | hc
      · omega
      · exact ⟨u, (ok.edges _ hedge).1, hc, by omega⟩

/-! ### Theorems -/

/-- **C63**: in a single circuit every gate is in the layer of its multiplicative depth. -/
theorem layer_is_depth {c : Base G} {rank : Nat → Nat} (ok : SingleOk c rank) (d : Nat → Nat) (hd : IsDepth c d) :
    ∃ it ls, MIter.new (Multi.ofBase c) = some it ∧
      MIter.collect (Multi.ofBase c) (c.gates.length + 1) it = some ls ∧
      LayersOk (Multi.ofBase c) ls ∧
      ∀ (k : Nat) (l : MLayer), ls[k]? = some l → ∀ v, v ∈ layerNodes l ↔
        v.1 = 0 ∧ v.2 < c.gates.length ∧ d v.2 = k := by
  obtain ⟨it, ls, e1, e2, ok'⟩ := layers_ok_partial (Multi.ofBase c) _ (single_wf ok)
  have e2' : MIter.collect (Multi.ofBase c) (c.gates.length + 1) it = some ls := by
    simpa [Multi.ofBase] using e2
  refine ⟨it, ls, e1, e2', ok', ?_⟩
  have hit : it 0 = some (Iter.new c) := by
    simp [MIter.new, Multi.ofBase] at e1
    simp [← e1]
  have key := collect_depth ok hd _ 0 [] _ it hit (atDepth_new ok d) ls e2'
  intro k l hl v
  constructor
  · intro hv
    obtain ⟨h1, h2⟩ := key k l hl v hv
    have hval := (ok'.all v).1 (List.mem_flatMap.2 ⟨l, List.mem_of_getElem? hl, hv⟩)
    obtain ⟨c', hc', hlt⟩ := hval
    obtain ⟨-, rfl⟩ := single_circ hc'
    exact ⟨h1, hlt, by omega⟩
  · rintro ⟨h1, h2, h3⟩
    have hval : (Multi.ofBase c).Valid v := ⟨c, by simp [Multi.ofBase, h1], h2⟩
    obtain ⟨l', hl', hv⟩ := List.mem_flatMap.1 ((ok'.all v).2 hval)
    obtain ⟨k', hk'⟩ := List.mem_iff_getElem?.1 hl'
    obtain ⟨-, h4⟩ := key k' l' hk' v hv
    have : k' = k := by omega
    subst this
    rw [hk'] at hl
    cases hl
    exact hv

theorem filter_initial {α : Type} (p : α → Bool) (l : List α) (n : Nat) (hn : n ≤ l.length)
    (h : ∀ (k : Nat) x, l[k]? = some x → (p x = true ↔ k < n)) : (l.filter p).length = n := by
  induction l generalizing n with
  | nil => simp at hn; simp [hn]
  | cons x l ih =>
    have h0 := h 0 x rfl
    cases n with
    | zero =>
      rw [List.filter_eq_nil_iff.2]
      · rfl
      · intro y hy
        obtain ⟨k, hk⟩ := List.mem_iff_getElem?.1 hy
        rw [h k y hk]
        omega
    | succ n =>
      rw [List.filter_cons, if_pos (h0.2 (by omega)), List.length_cons, ih n (by simpa using hn)]
      intro k y hk
      rw [h (k + 1) y (by simpa using hk)]
      omega

/-- **C63**, partial: the number of communication rounds of a single circuit is its multiplicative depth, which
no protocol with these gates can improve on.  Missing: circuits with sub-circuits, for which the claim is false
(`calls_cost_rounds`). -/
theorem rounds_eq_depth_partial {c : Base G} {rank : Nat → Nat} (ok : SingleOk c rank) (hs : c.simdSize = none)
    (d : Nat → Nat) (hd : IsDepth c d) :
    ∃ it ls, MIter.new (Multi.ofBase c) = some it ∧
      MIter.collect (Multi.ofBase c) (c.gates.length + 1) it = some ls ∧
      (interactiveLayers (Multi.ofBase c) ls).length = mulDepth c d := by
  obtain ⟨it, ls, e1, e2, ok', hl⟩ := layer_is_depth ok d hd
  refine ⟨it, ls, e1, e2, ?_⟩
  have hcost : ∀ v, cost c v = 0 ∨ cost c v = 1 := by
    intro v
    unfold cost
    split
    · split <;> simp
    · simp
  have hub : ∀ v < c.gates.length, d v + cost c v ≤ mulDepth c d := by
    intro v hv
    exact le_maxL (List.mem_map.2 ⟨v, List.mem_range.2 hv, rfl⟩)
  have hex : ∀ k < mulDepth c d, ∃ u < c.gates.length, cost c u = 1 ∧ d u = k := by
    intro k hk
    have hm : mulDepth c d ∈ (List.range c.gates.length).map fun v => d v + cost c v := maxL_mem (by unfold mulDepth at hk; omega)
    obtain ⟨v, hv, e⟩ := List.mem_map.1 hm
    have hv := List.mem_range.1 hv
    by_cases hkv : k < d v
    · exact depth_chain ok hd v hv k hkv
    · rcases hcost v with hc | hc
      · omega
      · exact ⟨v, hv, hc, by omega⟩
  have hmem : ∀ v < c.gates.length, ∃ l, ls[d v]? = some l ∧ ((0, v) : Node) ∈ layerNodes l := by
    intro v hv
    have hval : (Multi.ofBase c).Valid (0, v) := ⟨c, by simp [Multi.ofBase], hv⟩
    obtain ⟨l', hl', hv'⟩ := List.mem_flatMap.1 ((ok'.all (0, v)).2 hval)
    obtain ⟨k', hk'⟩ := List.mem_iff_getElem?.1 hl'
    obtain ⟨-, -, e⟩ := (hl k' l' hk' (0, v)).1 hv'
    simp only at e
    subst e
    exact ⟨l', hk', hv'⟩
  unfold interactiveLayers
  apply filter_initial
  · by_cases h0 : mulDepth c d = 0
    · omega
    · obtain ⟨u, hu, -, e⟩ := hex (mulDepth c d - 1) (by omega)
      obtain ⟨l, hl, -⟩ := hmem u hu
      have := (List.getElem?_eq_some_iff.1 hl).1
      omega
  · intro k l hkl
    rw [intCount_scalar (single_scalar hs)]
    have hlm := List.mem_of_getElem? hkl
    simp only [ne_eq, List.length_eq_zero_iff, decide_not, Bool.not_eq_eq_eq_not, Bool.not_true,
      decide_eq_false_iff_not]
    constructor
    · intro hne
      obtain ⟨v, hv⟩ := List.exists_mem_of_ne_nil _ hne
      obtain ⟨g, hg, hi⟩ := ok'.inter l hlm v hv
      obtain ⟨h1, h2⟩ := single_gate c v g hg
      obtain ⟨-, h3, h4⟩ := (hl k l hkl v).1 (List.mem_append.2 (Or.inr hv))
      have := hub v.2 h3
      have hc : cost c v.2 = 1 := by simp [cost, h2, hi]
      omega
    · intro hk
      obtain ⟨u, hu, hc, e⟩ := hex k hk
      have hul := (hl k l hkl (0, u)).2 ⟨rfl, hu, e⟩
      rcases List.mem_append.1 hul with h | h
      · obtain ⟨g, hg, hi⟩ := ok'.local_ l hlm _ h
        obtain ⟨-, h2⟩ := single_gate c _ g hg
        simp [cost, h2, hi] at hc
      · exact List.ne_nil_of_mem h

end Verif.Exec
