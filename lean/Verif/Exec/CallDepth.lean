import Mathlib.Data.Nat.Lattice
import Mathlib.Algebra.Order.BigOperators.Group.Finset
import Verif.Exec.DepthProps

/-!
C63: the layer of a gate in circuits with sub-circuits.
-/
set_option autoImplicit false

namespace Verif.Exec

open Circuit Proc Gmw GateLike

variable {G : Type} [GateLike G]

/-! ### Specification -/

/-- The depth of gates when a connection between circuits costs a round: `d v` is the length of the longest path that ends
before `v`, where interactive gates count one if followed inside their circuit, and every connection to another circuit counts
one.  Constants of a sub-circuit are reached with its first connected input, in `e i`. -/
structure IsCallDepth (m : Multi G) (d : Node → Nat) (e : Nat → Nat) : Prop where
  main : e 0 = 0
  entry : ∀ u v, u ∈ m.incoming v → v.1 ≠ 0 → e v.1 ≤ d u + 1
  least : ∀ (i : Nat) (c : Base G), m.circs[i]? = some c → i ≠ 0 → initial i c ≠ [] → ∃ u v, u ∈ m.incoming v ∧ v.1 = i ∧ e i = d u + 1
  source : ∀ (v : Node) (c : Base G), m.circs[v.1]? = some c → v.2 ∈ initial v.1 c → d v = e v.1
  cross : ∀ u v, u ∈ m.incoming v → d v = d u + 1
  inside : ∀ (v : Node) (c : Base G), m.circs[v.1]? = some c → v.2 < c.gates.length → c.parents v.2 ≠ [] →
    d v = maxL ((c.parents v.2).map fun u => d (v.1, u) + costM m (v.1, u))

/-! ### Lemmas -/

theorem fold_push {m : Multi G} (ts : List Node) : ∀ {it it' : MIter}, ts.foldlM (pushTarget m) it = some it' →
    ∀ j s', it' j = some s' →
      (∃ s, it j = some s ∧ ∀ g ∈ s'.nextLayer, g ∈ s.nextLayer ∨ (j, g) ∈ ts) ∨
      (it j = none ∧ (∃ x, (j, x) ∈ ts) ∧
        ∃ c, m.circs[j]? = some c ∧ ∀ g ∈ s'.nextLayer, g ∈ c.constantGates ∨ (j, g) ∈ ts) := by
  induction ts with
  | nil =>
    intro it it' h j s' hj
    simp only [List.foldlM_nil, Option.pure_def, Option.some.injEq] at h
    subst h
    exact .inl ⟨s', hj, fun g hg => .inl hg⟩
  | cons t ts ih =>
    intro it it' h j s' hj
    simp only [List.foldlM_cons, Option.bind_eq_bind, Option.bind_eq_some_iff] at h
    obtain ⟨it1, h1, h2⟩ := h
    have h1' : ∃ s, (match it t.1 with
        | some s => some s
        | none => (m.circs[t.1]?).map Iter.newUninit) = some s ∧
        it1 = fun j => if j = t.1 then some { s with nextLayer := s.nextLayer ++ [t.2] } else it j := by
      unfold pushTarget at h1
      cases hi : it t.1 with
      | some s =>
        simp only [hi, Option.bind_eq_bind, Option.bind_some, Option.pure_def, Option.some.injEq] at h1
        exact ⟨s, rfl, h1.symm⟩
      | none =>
        simp only [hi, Option.bind_eq_bind, Option.bind_eq_some_iff, Option.pure_def, Option.some.injEq] at h1
        obtain ⟨s, hs, h1⟩ := h1
        exact ⟨s, hs, h1.symm⟩
    obtain ⟨s, hs, rfl⟩ := h1'
    have := ih h2 j s' hj
    by_cases hjt : j = t.1
    · subst hjt
      simp only [if_true, Option.some.injEq, reduceCtorEq, false_and, or_false] at this
      obtain ⟨s1, rfl, hg⟩ := this
      cases hi : it t.1 with
      | some s0 =>
        rw [hi] at hs
        cases hs
        left
        refine ⟨s, rfl, fun g hg' => ?_⟩
        rcases hg g hg' with h | h
        · rcases List.mem_append.1 h with h | h
          · exact .inl h
          · rw [List.mem_singleton] at h
            subst h
            exact .inr (List.mem_cons_self ..)
        · exact .inr (List.mem_cons_of_mem _ h)
      | none =>
        rw [hi] at hs
        simp only [Option.map_eq_some_iff] at hs
        obtain ⟨c, hc, rfl⟩ := hs
        right
        refine ⟨rfl, ⟨t.2, List.mem_cons_self ..⟩, c, hc, fun g hg' => ?_⟩
        rcases hg g hg' with h | h
        · rcases List.mem_append.1 h with h | h
          · exact .inl h
          · rw [List.mem_singleton] at h
            subst h
            exact .inr (List.mem_cons_self ..)
        · exact .inr (List.mem_cons_of_mem _ h)
    · simp only [hjt, if_false] at this
      rcases this with ⟨s1, e1, hg⟩ | ⟨e1, ⟨x, hx⟩, c, hc, hg⟩
      · exact .inl ⟨s1, e1, fun g h => (hg g h).imp_right (List.mem_cons_of_mem _)⟩
      · exact .inr ⟨e1, ⟨x, List.mem_cons_of_mem _ hx⟩, c, hc, fun g h => (hg g h).imp_right (List.mem_cons_of_mem _)⟩

/-- More about one round. -/
theorem round_more {m : Multi G} {rank : Node → Nat} (w : WF m rank) (D R : Nat → List Nat) (it it' : MIter)
    (h : Good m it D R) (l : MLayer) (hn : MIter.next m it = some (if l = [] then none else some l, it')) :
    (∀ i g, g ∈ N it i → (i, g) ∈ layerNodes l) ∧
    (∀ i c, m.circs[i]? = some c → ∀ g ∈ N it' i, c.parents g = []) ∧
    (∀ i s, it' i = some s → it i ≠ none ∨ ∃ u x, u ∈ layerNodes l ∧ u ∈ m.incoming (i, x)) := by
  obtain ⟨ni, int, it1, e, hout, hidle, hact⟩ := stepAll_spec w D (List.range m.circs.length)
    List.nodup_range it (by
      intro i hi s hs
      have hi' : i < m.circs.length := by simpa using hi
      refine ⟨m.circs[i], by simp [hi'], ?_⟩
      have := h.act i m.circs[i] s (by simp [hi']) hs
      rw [this.2.1]; exact this.1)
  simp only [MIter.next, e, Option.bind_eq_bind, Option.bind_some, Option.bind_eq_some_iff, Option.pure_def,
    Option.some.injEq, Prod.mk.injEq] at hn
  obtain ⟨it2, hf, hl, rfl⟩ := hn
  have hl' : mkLayer ni int (List.range m.circs.length) = l := by
    by_cases h1 : mkLayer ni int (List.range m.circs.length) = [] <;> by_cases h2 : l = [] <;> simp_all
  rw [hl'] at hf
  have hmem : ∀ i c, m.circs[i]? = some c → i ∈ List.range m.circs.length := by
    intro i c hc
    obtain ⟨hlt, -⟩ := List.getElem?_eq_some_iff.1 hc
    simpa using hlt
  have hN1 : ∀ i s, it1 i = some s → s.nextLayer = [] ∧ it i ≠ none := by
    intro i s hs
    cases hc : m.circs[i]? with
    | none =>
      have : i ∉ List.range m.circs.length := by simpa using hc
      rw [(hout i this).1, (h.oob i hc).1] at hs
      cases hs
    | some c =>
      cases hi : it i with
      | none => rw [(hidle i (hmem i c hc) hi).1] at hs; cases hs
      | some s0 =>
        obtain ⟨s', h1, h2⟩ := hact i (hmem i c hc) s0 c hi hc
        rw [h1] at hs
        split at hs
        · cases hs
        · cases hs
          exact ⟨h2.next, by simp⟩
  have hT : ∀ t ∈ layerTargets m l, ∃ u, u ∈ layerNodes l ∧ u ∈ m.incoming t := by
    intro t ht
    simp only [layerTargets, List.mem_flatMap] at ht
    obtain ⟨⟨i, la⟩, h1, g, h2, h3⟩ := ht
    refine ⟨(i, g), ?_, ?_⟩
    · rw [layerNodes, List.mem_append, niNodes, intNodes, List.mem_flatMap, List.mem_flatMap]
      rcases List.mem_append.1 h2 with h2 | h2
      · exact .inl ⟨(i, la), h1, List.mem_map.2 ⟨g, h2, rfl⟩⟩
      · exact .inr ⟨(i, la), h1, List.mem_map.2 ⟨g, h2, rfl⟩⟩
    · have := w.consistent (i, g) t
      exact List.count_pos_iff.1 (by rw [← this]; exact List.count_pos_iff.2 h3)
  refine ⟨?_, ?_, ?_⟩
  · intro i g hg
    unfold N at hg
    cases hi : it i with
    | none => rw [hi] at hg; cases hg
    | some s =>
      rw [hi] at hg
      cases hc : m.circs[i]? with
      | none => rw [(h.oob i hc).1] at hi; cases hi
      | some c =>
        obtain ⟨s', h1, h2⟩ := hact i (hmem i c hc) s c hi hc
        have := h2.takes g hg
        rw [← hl', layerNodes, niNodes_mkLayer, intNodes_mkLayer, List.mem_append, mem_nodesOf, mem_nodesOf]
        rcases List.mem_append.1 this with h | h
        · exact .inl ⟨hmem i c hc, h⟩
        · exact .inr ⟨hmem i c hc, h⟩
  · intro i c hc g hg
    unfold N at hg
    have key : ∀ g, (i, g) ∈ layerTargets m l → c.parents g = [] := by
      intro g hg
      obtain ⟨u, -, hu⟩ := hT _ hg
      exact w.crossSource (i, g) c (List.ne_nil_of_mem hu) hc
    cases hi : it2 i with
    | none => rw [hi] at hg; cases hg
    | some s =>
      rw [hi] at hg
      rcases fold_push _ hf i s hi with ⟨s1, e1, h1⟩ | ⟨e1, -, c', hc', h1⟩
      · rcases h1 g hg with h1 | h1
        · rw [(hN1 i s1 e1).1] at h1; cases h1
        · exact key g h1
      · rcases h1 g hg with h1 | h1
        · rw [hc] at hc'
          cases hc'
          exact (w.initSource i c hc g (List.mem_append_left _ h1)).1
        · exact key g h1
  · intro i s hi
    rcases fold_push _ hf i s hi with ⟨s1, e1, -⟩ | ⟨e1, ⟨x, hx⟩, -⟩
    · exact .inl (hN1 i s1 e1).2
    · obtain ⟨u, h1, h2⟩ := hT _ hx
      exact .inr ⟨u, x, h1, h2⟩

/-- What the iterator has done before layer `k`. -/
structure AtCallDepth (m : Multi G) (d : Node → Nat) (e : Nat → Nat) (k : Nat) (D R : Nat → List Nat) (it : MIter) : Prop where
  good : Good m it D R
  cross : Cross m it D R
  done : ∀ u : Node, u.2 ∈ D u.1 ++ R u.1 → d u + 1 ≤ k
  todo : ∀ v : Node, m.Valid v → v.2 ∉ D v.1 ++ R v.1 → k ≤ d v
  act : ∀ i s, it i = some s → e i ≤ k

theorem costM_le (m : Multi G) (v : Node) : costM m v ≤ 1 := by
  unfold costM
  split
  · split <;> omega
  · omega

theorem callDepth_step {m : Multi G} {rank : Node → Nat} (w : WF m rank) {d : Node → Nat} {e : Nat → Nat}
    (hd : IsCallDepth m d e) {k : Nat} {D R : Nat → List Nat} {it : MIter} (h : AtCallDepth m d e k D R it) :
    ∃ (l : MLayer) (D' R' : Nat → List Nat) (it' : MIter), MIter.next m it = some (if l = [] then none else some l, it') ∧
      (∀ v, m.Valid v → (v ∈ layerNodes l ↔ d v = k)) ∧ (∀ v ∈ layerNodes l, m.Valid v) ∧
      AtCallDepth m d e (k + 1) D' R' it' := by
  obtain ⟨ni, int, it', e1, g', x', -, -, hf⟩ := round_spec w D R it h.good h.cross
  set l := mkLayer ni int (List.range m.circs.length) with hl
  obtain ⟨rA, rB, rC⟩ := round_more w D R it it' h.good l e1
  have hmem : ∀ v : Node, v ∈ layerNodes l ↔ v.2 ∈ ni v.1 ++ int v.1 := by
    intro v
    rw [layerNodes, hl, niNodes_mkLayer, intNodes_mkLayer, List.mem_append, mem_nodesOf, mem_nodesOf, List.mem_append]
    constructor
    · tauto
    · intro hv
      have : v.1 ∈ List.range m.circs.length := by
        by_contra hlt
        obtain ⟨a, b⟩ := (hf v.1).2.1 (by simpa using hlt)
        rw [a, b] at hv
        simp at hv
      tauto
  have hval : ∀ v ∈ layerNodes l, m.Valid v := by
    intro v hv
    rw [hmem] at hv
    cases hc : m.circs[v.1]? with
    | none => obtain ⟨a, b⟩ := (hf v.1).2.1 hc; rw [a, b] at hv; simp at hv
    | some c => exact ⟨c, hc, (hf v.1).2.2.2.1 c hc v.2 hv⟩
  have hDR : ∀ i, (D i ++ R i).Nodup := by
    intro i
    cases hc : m.circs[i]? with
    | none => simp [(h.good.oob i hc).2]
    | some c =>
      cases hi : it i with
      | none =>
        rcases h.good.idle i c hc hi with ⟨_, a, b⟩ | ⟨a, _⟩
        · simp [a, b]
        · exact a
      | some s => exact ((h.good.act i c s hc hi).1.nodup.of_append_left)
  have hnew : ∀ v : Node, v.2 ∈ ni v.1 ++ int v.1 → v.2 ∉ D v.1 ++ R v.1 := by
    intro v hv hv'
    have := (hf v.1).2.2.1 (hDR v.1)
    rw [List.append_assoc] at this
    exact List.disjoint_of_nodup_append this hv' hv
  have hlow : ∀ v : Node, v.2 ∈ ni v.1 ++ int v.1 → k ≤ d v := fun v hv => h.todo v (hval v ((hmem v).2 hv)) (hnew v hv)
  have hcost0 : ∀ v : Node, v.2 ∈ ni v.1 → costM m v = 0 := by
    intro v hv
    obtain ⟨c, hc, -⟩ := hval v ((hmem v).2 (List.mem_append_left _ hv))
    obtain ⟨g, hg, hi⟩ := ((hf v.1).1 c hc).niGate v.2 hv
    simp [costM, Multi.gate?, hc, hg, hi]
  have hcost1 : ∀ v : Node, v.2 ∈ int v.1 → costM m v = 1 := by
    intro v hv
    obtain ⟨c, hc, -⟩ := hval v ((hmem v).2 (List.mem_append_right _ hv))
    obtain ⟨g, hg, hi⟩ := ((hf v.1).1 c hc).intGate v.2 hv
    simp [costM, Multi.gate?, hc, hg, hi]
  -- a gate without operands in its circuit
  have hsrc : ∀ (v : Node) (c : Base G), m.circs[v.1]? = some c → v.2 ∈ ni v.1 ++ int v.1 → c.parents v.2 = [] → d v ≤ k := by
    intro v c hc hv hp
    obtain ⟨c', hc', hlt⟩ := hval v ((hmem v).2 hv)
    rw [hc] at hc'
    cases hc'
    have hN : v.2 ∈ N it v.1 := by
      rcases (hf v.1).2.2.2.2 v.2 hv with h1 | ⟨c', hc', h1⟩
      · exact h1
      · rw [hc] at hc'
        cases hc'
        exact absurd hp h1
    rcases w.sources v.1 c hc v.2 hlt hp with h1 | h1
    · rw [hd.source v c hc h1]
      unfold N at hN
      cases hi : it v.1 with
      | none => rw [hi] at hN; cases hN
      | some s => exact h.act v.1 s hi
    · obtain ⟨u, hu⟩ := List.exists_mem_of_ne_nil _ h1
      rw [hd.cross u v hu]
      exact h.done u ((h.cross u v hu).2 (List.mem_append_right _ hN))
  have hupD : ∀ u : Node, u.2 ∈ D u.1 ++ R u.1 → d u + costM m u ≤ k := by
    intro u hu
    have := h.done u hu
    have := costM_le m u
    omega
  have hni : ∀ i p r, ni i = p ++ r → ∀ g ∈ p, d (i, g) = k := by
    intro i p
    induction p using List.reverseRecOn with
    | nil => simp
    | append_singleton p g0 ih =>
      intro r hr g hg
      have ih' := ih (g0 :: r) (by rw [hr]; simp)
      rcases List.mem_append.1 hg with hg | hg
      · exact ih' g hg
      · rw [List.mem_singleton] at hg
        subst hg
        have hm : g ∈ ni i ++ int i := by rw [hr]; simp
        refine le_antisymm ?_ (hlow (i, g) hm)
        obtain ⟨c, hc, hlt⟩ := hval (i, g) ((hmem _).2 hm)
        by_cases hp : c.parents g = []
        · exact hsrc (i, g) c hc hm hp
        · rw [hd.inside (i, g) c hc hlt hp]
          apply maxL_le
          intro x hx
          obtain ⟨q, hq, rfl⟩ := List.mem_map.1 hx
          rcases List.mem_append.1 (((hf i).1 c hc).niOrder p g r (by rw [hr]; simp) q hq) with hq' | hq'
          · exact hupD (i, q) hq'
          · show d (i, q) + costM m (i, q) ≤ k
            rw [ih' q hq', hcost0 (i, q) (by rw [hr]; simp [hq'])]
            omega
  have hni' : ∀ v : Node, v.2 ∈ ni v.1 → d v = k := fun v hv => hni v.1 (ni v.1) [] (by simp) v.2 hv
  have hint : ∀ v : Node, v.2 ∈ int v.1 → d v = k := by
    intro v hv
    have hm : v.2 ∈ ni v.1 ++ int v.1 := List.mem_append_right _ hv
    refine le_antisymm ?_ (hlow v hm)
    obtain ⟨c, hc, hlt⟩ := hval v ((hmem _).2 hm)
    by_cases hp : c.parents v.2 = []
    · exact hsrc v c hc hm hp
    · rw [hd.inside v c hc hlt hp]
      apply maxL_le
      intro x hx
      obtain ⟨q, hq, rfl⟩ := List.mem_map.1 hx
      rcases List.mem_append.1 (((hf v.1).1 c hc).intOrder v.2 hv q hq) with hq' | hq'
      · exact hupD (v.1, q) hq'
      · rw [hni' (v.1, q) hq', hcost0 (v.1, q) hq']
        omega
  have heq : ∀ v ∈ layerNodes l, d v = k := by
    intro v hv
    rw [hmem] at hv
    exact (List.mem_append.1 hv).elim (hni' v) (hint v)
  have htodo : ∀ v : Node, m.Valid v → v.2 ∉ D v.1 ++ R v.1 ++ ni v.1 ++ int v.1 → k + 1 ≤ d v := by
    intro v
    induction hr : rank v using Nat.strong_induction_on generalizing v with
    | _ r ih =>
      subst hr
      rintro ⟨c, hc, hlt⟩ hn
      have hn0 : v.2 ∉ D v.1 ++ R v.1 := fun h => hn (by simp at h ⊢; tauto)
      have hn1 : v ∉ layerNodes l := fun h => hn (by rw [hmem] at h; simp at h ⊢; tauto)
      by_cases hp : c.parents v.2 = []
      · rcases w.sources v.1 c hc v.2 hlt hp with h1 | h1
        · rw [hd.source v c hc h1]
          cases hi : it v.1 with
          | some s =>
            exfalso
            rcases List.mem_append.1 ((h.good.act v.1 c s hc hi).2.2.2 v.2 h1) with h2 | h2
            · exact hn0 h2
            · exact hn1 (rA v.1 v.2 (by simpa [N, hi] using h2))
          | none =>
            rcases h.good.idle v.1 c hc hi with ⟨h0, a, b⟩ | ⟨-, -, hall⟩
            · obtain ⟨u, x, hu, hx, he⟩ := hd.least v.1 c hc h0 (List.ne_nil_of_mem h1)
              rw [he]
              have : k ≤ d u := by
                refine h.todo u (w.validFrom u x hu) (fun hu' => ?_)
                have := (h.cross u x hu).1 hu'
                rw [hx, a, b] at this
                simp [N, hi] at this
              omega
            · exact absurd (hall v.2 hlt) hn0
        · obtain ⟨u, hu⟩ := List.exists_mem_of_ne_nil _ h1
          rw [hd.cross u v hu]
          have : k ≤ d u := by
            refine h.todo u (w.validFrom u v hu) (fun hu' => ?_)
            rcases List.mem_append.1 ((h.cross u v hu).1 hu') with h2 | h2
            · exact hn0 h2
            · exact hn1 (rA v.1 v.2 h2)
          omega
      · -- some operand is missing
        have hex : ∃ q ∈ c.parents v.2, q ∉ D v.1 ++ R v.1 ++ ni v.1 := by
          by_contra hall
          push Not at hall
          cases hi : it' v.1 with
          | some s =>
            have inv := (g'.act v.1 c s hc hi).1
            have := (inv.ready v.2 hp).2 ((cnt_eq_zero c _ _).2 hall)
            rcases List.mem_append.1 this with h2 | h2
            · exact hn h2
            · exact hp (rB v.1 c hc v.2 (by simpa [N, hi] using h2))
          | none =>
            rcases g'.idle v.1 c hc hi with ⟨h0, a, b⟩ | ⟨-, -, hall'⟩
            · obtain ⟨q, hq⟩ := List.exists_mem_of_ne_nil _ hp
              have := hall q hq
              rw [a] at this
              simp at this
            · exact hn (hall' v.2 hlt)
        obtain ⟨q, hq, hqn⟩ := hex
        have hle : d (v.1, q) + costM m (v.1, q) ≤ d v := by
          rw [hd.inside v c hc hlt hp]
          exact le_maxL (List.mem_map.2 ⟨q, hq, rfl⟩)
        by_cases hqi : q ∈ int v.1
        · rw [hint (v.1, q) hqi, hcost1 (v.1, q) hqi] at hle
          exact hle
        · have hedge := edge_of_parent hq
          have := ih _ (w.rankIn v.1 c hc (q, v.2) hedge) (v.1, q) rfl ⟨c, hc, (w.edges v.1 c hc (q, v.2) hedge).1⟩ (by
            simp only [List.mem_append] at hqn ⊢
            tauto)
          omega
  refine ⟨l, _, _, it', e1, fun v hv => ⟨heq v, fun hk => ?_⟩, hval, g', x', ?_, ?_, ?_⟩
  · by_contra hn
    have : v.2 ∉ D v.1 ++ R v.1 := fun h' => by have := h.done v h'; omega
    have := htodo v hv (by
      rw [hmem] at hn
      simp only [List.mem_append] at hn this ⊢
      tauto)
    omega
  · intro u hu
    simp only [List.mem_append] at hu
    rcases hu with ((hu | hu) | hu) | hu
    · have := h.done u (List.mem_append_left _ hu); omega
    · have := h.done u (List.mem_append_right _ hu); omega
    · rw [hni' u hu]
    · rw [hint u hu]
  · exact fun v hv hn => htodo v hv hn
  · intro i s hi
    rcases rC i s hi with h1 | ⟨u, x, h1, h2⟩
    · obtain ⟨s0, hs0⟩ := Option.ne_none_iff_exists'.1 h1
      have := h.act i s0 hs0
      omega
    · by_cases h0 : i = 0
      · rw [h0, hd.main]; omega
      · have := hd.entry u (i, x) h2 h0
        rw [heq u h1] at this
        exact this

theorem collect_callDepth {m : Multi G} {rank : Node → Nat} (w : WF m rank) {d : Node → Nat} {e : Nat → Nat}
    (hd : IsCallDepth m d e) (fuel : Nat) : ∀ (k : Nat) (D R : Nat → List Nat) (it : MIter),
    AtCallDepth m d e k D R it → ∀ ls, MIter.collect m fuel it = some ls →
    ∀ (j : Nat) (l : MLayer), ls[j]? = some l → ∀ v, v ∈ layerNodes l ↔ m.Valid v ∧ d v = k + j := by
  induction fuel with
  | zero => intro k D R it h ls hc; cases hc
  | succ fuel ih =>
    intro k D R it h ls hc j l hj v
    obtain ⟨l0, D', R', it', e1, h1, h2, h3⟩ := callDepth_step w hd h
    rw [MIter.collect, e1] at hc
    by_cases hl0 : l0 = []
    · simp only [hl0, if_true, Option.bind_eq_bind, Option.bind_some, Option.pure_def, Option.some.injEq] at hc
      subst hc
      simp at hj
    · simp only [hl0, if_false, Option.bind_eq_bind, Option.bind_some, Option.bind_eq_some_iff, Option.pure_def,
        Option.some.injEq] at hc
      obtain ⟨ls', hc', rfl⟩ := hc
      cases j with
      | zero =>
        simp only [List.getElem?_cons_zero, Option.some.injEq] at hj
        subst hj
        exact ⟨fun hv => ⟨h2 v hv, (h1 v (h2 v hv)).1 hv⟩, fun hv => (h1 v hv.1).2 hv.2⟩
      | succ j =>
        rw [List.getElem?_cons_succ] at hj
        rw [ih (k + 1) D' R' it' h3 ls' hc' j l hj v]
        constructor <;> rintro ⟨a, b⟩ <;> exact ⟨a, by omega⟩

/-! ### Theorems -/

/-- **C63** for circuits with sub-circuits: every gate is in the layer of its depth if connections between circuits count
one. -/
theorem layer_is_call_depth (m : Multi G) (rank : Node → Nat) (w : WF m rank) (d : Node → Nat) (e : Nat → Nat)
    (hd : IsCallDepth m d e) :
    ∃ it ls, MIter.new m = some it ∧
      MIter.collect m ((m.circs.map fun c => c.gates.length).sum + 1) it = some ls ∧
      ∀ (k : Nat) (l : MLayer), ls[k]? = some l → ∀ v, v ∈ layerNodes l ↔ m.Valid v ∧ d v = k := by
  obtain ⟨it, ls, e1, e2, -⟩ := layers_ok_partial m rank w
  refine ⟨it, ls, e1, e2, ?_⟩
  obtain ⟨it', e1', g, x⟩ := good_new w
  rw [e1] at e1'
  cases e1'
  have h0 : AtCallDepth m d e 0 (fun _ => []) (fun _ => []) it := by
    refine ⟨g, x, by simp, by simp, ?_⟩
    intro i s hs
    simp only [MIter.new, Option.bind_eq_bind, Option.bind_eq_some_iff, Option.pure_def, Option.some.injEq] at e1
    obtain ⟨c, -, rfl⟩ := e1
    by_cases hi : i = 0
    · rw [hi, hd.main]
    · simp [hi] at hs
  have := collect_callDepth w hd _ 0 _ _ it h0 ls e2
  simpa using this

/-- Rounds until `v`, for paths of at most `n` steps, if the constants of circuit `i` are reached in round `e i`. -/
def callDepthN (m : Multi G) (e : Nat → Nat) : Nat → Node → Nat
  | 0, _ => 0
  | n + 1, v => max ((m.circs[v.1]?).elim 0 fun c => if v.2 ∈ initial v.1 c then e v.1 else 0) (max
    (maxL (((m.circs[v.1]?).elim [] fun c => c.parents v.2).map fun u => callDepthN m e n (v.1, u) + costM m (v.1, u)))
    (maxL ((m.incoming v).map fun u => callDepthN m e n u + 1)))

theorem callDepthN_stable {m : Multi G} {rank : Node → Nat} (w : WF m rank) (e : Nat → Nat) :
    ∀ n v, rank v < n → callDepthN m e n v = callDepthN m e (rank v + 1) v := by
  have key : ∀ n k v, rank v < n → rank v < k → callDepthN m e n v = callDepthN m e k v := by
    intro n
    induction n with
    | zero => intro k v h; omega
    | succ n ih =>
      intro k v h1 h2
      cases k with
      | zero => omega
      | succ k =>
        rw [callDepthN, callDepthN]
        congr 3
        · apply List.map_congr_left
          intro u hu
          cases hc : m.circs[v.1]? with
          | none => rw [hc] at hu; cases hu
          | some c =>
            rw [hc] at hu
            have := w.rankIn v.1 c hc (u, v.2) (edge_of_parent hu)
            have : rank (v.1, u) < rank v := this
            rw [ih k (v.1, u) (by omega) (by omega)]
        · apply List.map_congr_left
          intro u hu
          have := w.rankCross u v hu
          rw [ih k u (by omega) (by omega)]
  exact fun n v h => key n _ v h (by omega)

theorem callDepthN_mono {m : Multi G} {e e' : Nat → Nat} (h : ∀ i, e i ≤ e' i) :
    ∀ n v, callDepthN m e n v ≤ callDepthN m e' n v := by
  intro n
  induction n with
  | zero => intro v; rfl
  | succ n ih =>
    intro v
    rw [callDepthN, callDepthN]
    have hm : ∀ {A : Type} (l : List A) (f g : A → Nat), (∀ a, f a ≤ g a) → maxL (l.map f) ≤ maxL (l.map g) := by
      intro A l f g hfg
      apply maxL_le
      intro y hy
      obtain ⟨a, ha, rfl⟩ := List.mem_map.1 hy
      exact (hfg a).trans (le_maxL (List.mem_map.2 ⟨a, ha, rfl⟩))
    refine max_le_max ?_ (max_le_max (hm _ _ _ fun a => Nat.add_le_add_right (ih _) _)
      (hm _ _ _ fun a => Nat.add_le_add_right (ih _) _))
    cases m.circs[v.1]? with
    | none => exact Nat.le_refl _
    | some c =>
      simp only [Option.elim_some]
      split
      · exact h _
      · exact Nat.le_refl _

/-- The round in which circuit `i` is entered, if constants are reached as in `e`. -/
noncomputable def enter (m : Multi G) (rank : Node → Nat) (e : Nat → Nat) (i : Nat) : Nat :=
  if i = 0 then 0 else sInf {k | ∃ u v, u ∈ m.incoming v ∧ v.1 = i ∧ k = callDepthN m e (rank u + 1) u + 1}

theorem enter_le {m : Multi G} {rank : Node → Nat} {e : Nat → Nat} {u v : Node} (h : u ∈ m.incoming v) :
    enter m rank e v.1 ≤ callDepthN m e (rank u + 1) u + 1 := by
  unfold enter
  split
  · exact Nat.zero_le _
  · exact Nat.sInf_le (show _ ∈ {k | ∃ u v', u ∈ m.incoming v' ∧ v'.1 = v.1 ∧ k = callDepthN m e (rank u + 1) u + 1} from
      ⟨u, v, h, rfl, rfl⟩)

/-- Repeated. -/
noncomputable def enterN (m : Multi G) (rank : Node → Nat) : Nat → Nat → Nat
  | 0, _ => 0
  | n + 1, i => enter m rank (enterN m rank n) i

theorem enter_mono {m : Multi G} {rank : Node → Nat} {e e' : Nat → Nat} (h : ∀ i, e i ≤ e' i) (i : Nat) :
    enter m rank e i ≤ enter m rank e' i := by
  unfold enter
  split
  · exact Nat.le_refl _
  · by_cases hn : {k | ∃ u v, u ∈ m.incoming v ∧ v.1 = i ∧ k = callDepthN m e' (rank u + 1) u + 1}.Nonempty
    · obtain ⟨u, v, h1, h2, h3⟩ := Nat.sInf_mem hn
      rw [h3]
      refine Nat.le_trans ?_ (Nat.add_le_add_right (callDepthN_mono h _ _) _)
      exact Nat.sInf_le (show _ ∈ {k | ∃ u v, u ∈ m.incoming v ∧ v.1 = i ∧ k = callDepthN m e (rank u + 1) u + 1} from
        ⟨u, v, h1, h2, rfl⟩)
    · have : {k | ∃ u v, u ∈ m.incoming v ∧ v.1 = i ∧ k = callDepthN m e (rank u + 1) u + 1} = ∅ := by
        rw [Set.eq_empty_iff_forall_notMem]
        rintro k ⟨u, v, h1, h2, -⟩
        exact hn ⟨_, u, v, h1, h2, rfl⟩
      rw [this, Nat.sInf_empty]
      exact Nat.zero_le _

theorem enterN_mono {m : Multi G} {rank : Node → Nat} : ∀ n i, enterN m rank n i ≤ enterN m rank (n + 1) i := by
  intro n
  induction n with
  | zero => exact fun i => Nat.zero_le _
  | succ n ih => exact fun i => enter_mono ih i

theorem callDepthN_bound {m : Multi G} {rank : Node → Nat} (w : WF m rank) {e : Nat → Nat}
    (he : ∀ (i : Nat) (c : Base G), m.circs[i]? = some c → ∀ g ∈ initial i c, e i ≤ rank (i, g)) :
    ∀ n v, callDepthN m e n v ≤ rank v := by
  intro n
  induction n with
  | zero => exact fun _ => Nat.zero_le _
  | succ n ih =>
    intro v
    rw [callDepthN]
    refine max_le ?_ (max_le (maxL_le ?_) (maxL_le ?_))
    · cases hc : m.circs[v.1]? with
      | none => exact Nat.zero_le _
      | some c =>
        simp only [Option.elim_some]
        split
        case isTrue h => exact he v.1 c hc v.2 h
        case isFalse => exact Nat.zero_le _
    · intro y hy
      obtain ⟨u, hu, rfl⟩ := List.mem_map.1 hy
      cases hc : m.circs[v.1]? with
      | none => rw [hc] at hu; cases hu
      | some c =>
        rw [hc] at hu
        have h1 : rank (v.1, u) < rank v := w.rankIn v.1 c hc (u, v.2) (edge_of_parent hu)
        have h2 := ih (v.1, u)
        have h3 := costM_le m (v.1, u)
        omega
    · intro y hy
      obtain ⟨u, hu, rfl⟩ := List.mem_map.1 hy
      have h1 := w.rankCross u v hu
      have h2 := ih u
      omega

theorem enterN_init {m : Multi G} {rank : Node → Nat} (w : WF m rank) (n : Nat) :
    ∀ (i : Nat) (c : Base G), m.circs[i]? = some c → ∀ g ∈ initial i c, enterN m rank n i ≤ rank (i, g) := by
  induction n with
  | zero => exact fun _ _ _ _ _ => Nat.zero_le _
  | succ n ih =>
    intro i c hc g hg
    rw [enterN, enter]
    split
    · exact Nat.zero_le _
    · next h0 =>
      obtain ⟨x, u, hu, hr⟩ := w.constReach i c hc h0 g hg
      have h1 : sInf {k | ∃ u v, u ∈ m.incoming v ∧ v.1 = i ∧
          k = callDepthN m (enterN m rank n) (rank u + 1) u + 1} ≤ _ := Nat.sInf_le ⟨u, (i, x), hu, rfl, rfl⟩
      have h2 := callDepthN_bound w ih (rank u + 1) u
      omega

theorem enterN_bound {m : Multi G} {rank : Node → Nat} (w : WF m rank) (i : Nat) : ∃ b, ∀ n, enterN m rank n i ≤ b := by
  by_cases h : ∃ u v, u ∈ m.incoming v ∧ v.1 = i
  · obtain ⟨u, v, h1, h2⟩ := h
    refine ⟨rank u + 1, fun n => ?_⟩
    cases n with
    | zero => exact Nat.zero_le _
    | succ n =>
      subst h2
      exact (enter_le h1).trans (Nat.add_le_add_right (callDepthN_bound w (enterN_init w n) _ _) _)
  · refine ⟨0, fun n => ?_⟩
    cases n with
    | zero => exact Nat.zero_le _
    | succ n =>
      rw [enterN, enter]
      split
      · exact Nat.zero_le _
      · rw [show {k | ∃ u v, u ∈ m.incoming v ∧ v.1 = i ∧ k = callDepthN m (enterN m rank n) (rank u + 1) u + 1} = ∅ by
          rw [Set.eq_empty_iff_forall_notMem]
          rintro k ⟨u, v, h1, h2, -⟩
          exact h ⟨u, v, h1, h2⟩, Nat.sInf_empty]

theorem enterN_fixed {m : Multi G} {rank : Node → Nat} (w : WF m rank) :
    ∃ n, ∀ i, enterN m rank (n + 1) i = enterN m rank n i := by
  choose b hb using fun i => enterN_bound w i
  let f : Nat → Nat := fun n => ∑ i ∈ Finset.range m.circs.length, enterN m rank n i
  have hbound : ∀ n, f n ≤ ∑ i ∈ Finset.range m.circs.length, b i := fun n => Finset.sum_le_sum fun i _ => hb i n
  have hmono : ∀ n, f n ≤ f (n + 1) := fun n => Finset.sum_le_sum fun i _ => enterN_mono n i
  have hex : ∃ n, f n = f (n + 1) := by
    by_contra hne
    have hlt : ∀ n, f n < f (n + 1) := fun n => lt_of_le_of_ne (hmono n) fun h => hne ⟨n, h⟩
    have hge : ∀ n, n ≤ f n := by
      intro n
      induction n with
      | zero => exact Nat.zero_le _
      | succ n ih => have := hlt n; omega
    have h1 := hbound ((∑ i ∈ Finset.range m.circs.length, b i) + 1)
    have h2 := hge ((∑ i ∈ Finset.range m.circs.length, b i) + 1)
    omega
  obtain ⟨n, hn⟩ := hex
  refine ⟨n, fun i => ?_⟩
  by_cases hi : i < m.circs.length
  · exact ((Finset.sum_eq_sum_iff_of_le fun i _ => enterN_mono n i).1 hn i (Finset.mem_range.2 hi)).symm
  · have h0 : ∀ k, enterN m rank k i = 0 := by
      intro k
      cases k with
      | zero => rfl
      | succ k =>
        rw [enterN, enter]
        split
        · rfl
        · rw [show {k' | ∃ u v, u ∈ m.incoming v ∧ v.1 = i ∧ k' = callDepthN m (enterN m rank k) (rank u + 1) u + 1} = ∅ by
            rw [Set.eq_empty_iff_forall_notMem]
            rintro _ ⟨u, v, h1, rfl, -⟩
            obtain ⟨c, hc, -⟩ := w.validTo u v h1
            exact hi (List.getElem?_eq_some_iff.1 hc).1, Nat.sInf_empty]
    rw [h0, h0]

/-- The depth exists for every well-formed circuit. -/
theorem callDepth_exists {m : Multi G} {rank : Node → Nat} (w : WF m rank) : ∃ d e, IsCallDepth m d e := by
  obtain ⟨n, hn⟩ := enterN_fixed w
  let e := enterN m rank n
  have he : ∀ i, i ≠ 0 → e i =
      sInf {k | ∃ u v, u ∈ m.incoming v ∧ v.1 = i ∧ k = callDepthN m e (rank u + 1) u + 1} := by
    intro i hi
    have h1 : e i = enter m rank e i := (hn i).symm
    rw [h1, enter, if_neg hi]
  refine ⟨fun v => callDepthN m e (rank v + 1) v, e, ?_, ?_, ?_, ?_, ?_, ?_⟩
  · have h1 : e 0 = enter m rank e 0 := (hn 0).symm
    rw [h1, enter, if_pos rfl]
  · intro u v hu h0
    rw [he v.1 h0]
    exact Nat.sInf_le ⟨u, v, hu, rfl, rfl⟩
  · intro i c hc h0 hi
    obtain ⟨g, hg⟩ := List.exists_mem_of_ne_nil _ hi
    obtain ⟨x, u, hu, -⟩ := w.constReach i c hc h0 g hg
    obtain ⟨u', v', h1, h2, h3⟩ := Nat.sInf_mem (s := {k | ∃ u v, u ∈ m.incoming v ∧ v.1 = i ∧
      k = callDepthN m e (rank u + 1) u + 1}) ⟨_, u, (i, x), hu, rfl, rfl⟩
    exact ⟨u', v', h1, h2, by rw [he i h0]; exact h3⟩
  · intro v c hc hv
    obtain ⟨h1, h2⟩ := w.initSource v.1 c hc v.2 hv
    simp only [callDepthN, hc, Option.elim_some, h1, show m.incoming v = [] from h2, if_pos hv]
    simp [maxL]
  · intro u v hu
    obtain ⟨c, hc, -⟩ := w.validTo u v hu
    have h1 := w.crossSource v c (List.ne_nil_of_mem hu) hc
    have h2 : m.incoming v = [u] := by
      match hm : m.incoming v, w.single v, hu with
      | [u'], _, hu => rw [List.mem_singleton.1 hu]
      | _ :: _ :: _, h, _ => simp at h
      | [], _, hu => cases hu
    have h3 : v.2 ∉ initial v.1 c := by
      intro h
      have := (w.initSource v.1 c hc v.2 h).2
      rw [show m.incoming (v.1, v.2) = [u] from h2] at this
      cases this
    rw [callDepthN, hc, Option.elim_some, Option.elim_some, h1, h2, if_neg h3]
    have := w.rankCross u v hu
    rw [List.map_cons, List.map_nil, callDepthN_stable w e (rank v) u this]
    simp [maxL]
  · intro v c hc hlt hp
    have h2 : m.incoming v = [] := by
      by_contra hne
      exact hp (w.crossSource v c hne hc)
    have h3 : v.2 ∉ initial v.1 c := fun h => hp (w.initSource v.1 c hc v.2 h).1
    rw [callDepthN, hc, Option.elim_some, Option.elim_some, h2, if_neg h3]
    have : ∀ u ∈ c.parents v.2, callDepthN m e (rank v) (v.1, u) = callDepthN m e (rank (v.1, u) + 1) (v.1, u) := fun u hu =>
      callDepthN_stable w e _ _ (w.rankIn v.1 c hc (u, v.2) (edge_of_parent hu))
    rw [show maxL (List.map (fun u => callDepthN m e (rank v) u + 1) []) = 0 from rfl, Nat.max_zero, Nat.zero_max]
    congr 1
    apply List.map_congr_left
    intro u hu
    rw [this u hu]

theorem filter_bounded {α : Type} (p : α → Bool) (l : List α) (n : Nat)
    (h : ∀ (k : Nat) x, l[k]? = some x → p x = true → k < n) : (l.filter p).length ≤ n := by
  induction l generalizing n with
  | nil => simp
  | cons x l ih =>
    cases n with
    | zero =>
      rw [List.filter_eq_nil_iff.2]
      · simp
      · intro y hy hp
        obtain ⟨k, hk⟩ := List.mem_iff_getElem?.1 hy
        exact absurd (h k y hk hp) (by omega)
    | succ n =>
      have := ih n (fun k y hk hp => by
        have := h (k + 1) y (by simpa using hk) hp
        omega)
      rw [List.filter_cons]
      split
      · simpa using this
      · omega

theorem intCount_nil {m : Multi G} {l : MLayer} (h : intNodes l = []) : intCount m l = 0 := by
  induction l with
  | nil => rfl
  | cons q l ih =>
    rw [intNodes, List.flatMap_cons, List.append_eq_nil_iff, List.map_eq_nil_iff] at h
    have := ih h.2
    simp only [intCount, List.map_cons, List.sum_cons] at this ⊢
    rw [this, h.1]
    simp

/-- **C63** for circuits with sub-circuits, partial: if no path has more than `n` interactive gates (`md` is at least the
multiplicative depth) and no path to an interactive gate has more than `b` connections between circuits (`x` is at least
their number), there are at most `n + b` rounds.  Paths to the constants of a sub-circuit begin with a connection to it, since
they are evaluated only when the circuit is entered.  The bound `n` is false (`calls_cost_rounds`), as is `n + b` for paths that
begin with constants (`constants_cost_rounds`). -/
theorem rounds_bounded_partial (m : Multi G) (rank : Node → Nat) (w : WF m rank) (md x : Node → Nat) (n b : Nat)
    (hmd : ∀ v, m.Valid v → ∀ u ∈ m.parents v, md u + costM m u ≤ md v)
    (hx : ∀ v, m.Valid v → ∀ u ∈ m.parents v, (x u + if u ∈ m.incoming v then 1 else 0) ≤ x v)
    (hk : ∀ (i : Nat) (c : Base G), m.circs[i]? = some c → i ≠ 0 → ∀ g ∈ c.constantGates,
      ∃ y, ∃ u ∈ m.incoming (i, y), rank u < rank (i, g) ∧ md u + costM m u ≤ md (i, g) ∧ x u + 1 ≤ x (i, g))
    (hn : ∀ v, m.Valid v → md v + costM m v ≤ n) (hb : ∀ v, m.Valid v → costM m v = 1 → x v ≤ b) :
    ∃ it ls, MIter.new m = some it ∧
      MIter.collect m ((m.circs.map fun c => c.gates.length).sum + 1) it = some ls ∧
      (interactiveLayers m ls).length ≤ n + b := by
  obtain ⟨d, e, hd⟩ := callDepth_exists w
  obtain ⟨it, ls, e1, e2, hl⟩ := layer_is_call_depth m rank w d _ hd
  obtain ⟨it', ls', e1', e2', ok⟩ := layers_ok_partial m rank w
  rw [e1] at e1'
  cases e1'
  rw [e2] at e2'
  cases e2'
  refine ⟨it, ls, e1, e2, ?_⟩
  have hle : ∀ v, m.Valid v → d v ≤ md v + x v := by
    intro v
    induction hr : rank v using Nat.strong_induction_on generalizing v with
    | _ r ih =>
      subst hr
      rintro ⟨c, hc, hlt⟩
      have hval : m.Valid v := ⟨c, hc, hlt⟩
      have up : ∀ u ∈ m.parents v, md u + costM m u ≤ md v ∧ (x u + if u ∈ m.incoming v then 1 else 0) ≤ x v :=
        fun u hu => ⟨hmd v hval u hu, hx v hval u hu⟩
      by_cases hp : c.parents v.2 = []
      · rcases w.sources v.1 c hc v.2 hlt hp with h1 | h1
        · rw [hd.source v c hc h1]
          by_cases h0 : v.1 = 0
          · rw [h0, hd.main]; omega
          · have h2 : v.2 ∈ c.constantGates := by simpa [initial, h0] using h1
            obtain ⟨y, u, hu, hr, h3, h4⟩ := hk v.1 c hc h0 v.2 h2
            have h5 := hd.entry u (v.1, y) hu h0
            have h6 := ih _ hr u rfl (w.validFrom u _ hu)
            have h7 : md u + costM m u ≤ md v := h3
            have h8 : x u + 1 ≤ x v := h4
            have h9 : e v.1 ≤ d u + 1 := h5
            omega
        · obtain ⟨u, hu⟩ := List.exists_mem_of_ne_nil _ h1
          rw [hd.cross u v hu]
          have h2 := up u (List.mem_append_right _ hu)
          rw [if_pos hu] at h2
          have := ih _ (w.rankCross u v hu) u rfl (w.validFrom u v hu)
          omega
      · rw [hd.inside v c hc hlt hp]
        apply maxL_le
        intro y hy
        obtain ⟨u, hu, rfl⟩ := List.mem_map.1 hy
        have hedge := edge_of_parent hu
        have h2 := up (v.1, u) (by
          rw [Multi.parents, hc]
          exact List.mem_append_left _ (List.mem_map.2 ⟨u, hu, rfl⟩))
        have := ih _ (w.rankIn v.1 c hc (u, v.2) hedge) (v.1, u) rfl ⟨c, hc, (w.edges v.1 c hc (u, v.2) hedge).1⟩
        omega
  unfold interactiveLayers
  apply filter_bounded
  intro k l hkl hp
  simp only [ne_eq, decide_not, Bool.not_eq_eq_eq_not, Bool.not_true, decide_eq_false_iff_not] at hp
  have hne : intNodes l ≠ [] := by
    intro h0
    apply hp
    exact intCount_nil h0
  obtain ⟨v, hv⟩ := List.exists_mem_of_ne_nil _ hne
  obtain ⟨hval, he⟩ := (hl k l hkl v).1 (List.mem_append_right _ hv)
  obtain ⟨g, hg, hi⟩ := ok.inter l (List.mem_of_getElem? hkl) v hv
  have hc : costM m v = 1 := by simp [costM, hg, hi]
  have h1 := hle v hval
  have h2 := hn v hval
  have h3 := hb v hval hc
  omega

/-- The hypotheses hold for `roundCirc`; the bound is the number of rounds. -/
example : ∃ it ls, MIter.new roundCirc = some it ∧ MIter.collect roundCirc 11 it = some ls ∧
    (interactiveLayers roundCirc ls).length ≤ 1 + 1 := by
  refine rounds_bounded_partial roundCirc callRank roundCirc_wf
    (fun v => if v = (0, 2) ∨ v = (0, 4) ∨ v = (0, 5) ∨ v = (1, 3) then 1 else 0)
    (fun v => if v = (0, 2) ∨ v = (0, 5) then 2 else if v.1 = 1 then 1 else 0) 1 1 ?_ ?_ ?_ ?_ ?_
  case refine_3 =>
    intro i c hc h0
    rcases roundCirc_circ hc with ⟨rfl, rfl⟩ | ⟨rfl, rfl⟩
    · exact absurd rfl h0
    · exact fun g hg => nomatch hg
  all_goals
    rintro ⟨i, j⟩ ⟨c, hc, hj⟩
    rcases roundCirc_circ hc with ⟨h0, rfl⟩ | ⟨h0, rfl⟩ <;> simp only at h0 hj <;> subst h0
    · have hj : j < 6 := hj
      interval_cases j <;> decide
    · have hj : j < 4 := hj
      interval_cases j <;> decide

/-! ### Constants in sub-circuits -/

/-- `output(call(x & y))` with `call(z) = z ^ (true & true)`. -/
def lateMain : Base BoolGate :=
  { gates := [.base .input, .base .input, .and, .base .subCircuitInput, .base .output]
    edges := [(1, 2), (0, 2), (3, 4)], interactiveCount := 1, inputGates := [0, 1], outputGates := [4]
    scInputGates := [3] }

def lateSub : Base BoolGate :=
  { gates := [.base .subCircuitInput, .base (.constant true), .base (.constant true), .and, .xor, .base .subCircuitOutput]
    edges := [(2, 3), (1, 3), (3, 4), (0, 4), (4, 5)], interactiveCount := 1, constantGates := [1, 2]
    scInputGates := [0], scOutputGates := [5] }

def lateConns : List (Node × Node) := [((0, 2), (1, 0)), ((1, 5), (0, 3))]

def lateCirc : Multi BoolGate := .ofConns [lateMain, lateSub] lateConns

def lateRank (v : Node) : Nat := if v.1 = 1 then v.2 + 3 else if v.2 ≤ 2 then v.2 else v.2 + 7

theorem lateCirc_circ {i : Nat} {c : Base BoolGate} (h : lateCirc.circs[i]? = some c) :
    (i = 0 ∧ c = lateMain) ∨ (i = 1 ∧ c = lateSub) := by
  match i, h with
  | 0, h => left; simp [lateCirc, Multi.ofConns] at h; exact ⟨rfl, h.symm⟩
  | 1, h => right; simp [lateCirc, Multi.ofConns] at h; exact ⟨rfl, h.symm⟩
  | i + 2, h => simp [lateCirc, Multi.ofConns] at h

theorem lateCirc_in {u v : Node} (h : u ∈ lateCirc.incoming v) :
    (u = (0, 2) ∧ v = (1, 0)) ∨ (u = (1, 5) ∧ v = (0, 3)) := by
  have : (u, v) ∈ lateConns := mem_incoming.1 h
  simpa [lateConns] using this

/-- The example satisfies `WF`. -/
theorem lateCirc_wf : WF lateCirc lateRank := by
  refine ⟨by decide, ?_, ?_, ?_, ofConns_consistent _ _, ?_, ?_, ?_, ?_, ?_, ?_, ?_, ?_, ?_⟩
  · intro i c h; rcases lateCirc_circ h with ⟨rfl, rfl⟩ | ⟨rfl, rfl⟩ <;> decide
  · intro i c h; rcases lateCirc_circ h with ⟨rfl, rfl⟩ | ⟨rfl, rfl⟩ <;> decide
  · intro u v h; rcases lateCirc_in h with ⟨rfl, rfl⟩ | ⟨rfl, rfl⟩ <;> decide
  · intro u v h
    rcases lateCirc_in h with ⟨rfl, rfl⟩ | ⟨rfl, rfl⟩
    · exact ⟨lateMain, rfl, by decide⟩
    · exact ⟨lateSub, rfl, by decide⟩
  · intro u v h
    rcases lateCirc_in h with ⟨rfl, rfl⟩ | ⟨rfl, rfl⟩
    · exact ⟨lateSub, rfl, by decide⟩
    · exact ⟨lateMain, rfl, by decide⟩
  · intro v
    by_cases h : v = (1, 0) ∨ v = (0, 3)
    · rcases h with rfl | rfl <;> decide
    · have : lateCirc.incoming v = [] := by
        rw [List.eq_nil_iff_forall_not_mem]
        intro u hu
        have := lateCirc_in hu
        tauto
      simp [this]
  · intro v c hne hc
    obtain ⟨u, hu⟩ := List.exists_mem_of_ne_nil _ hne
    rcases lateCirc_in hu with ⟨rfl, rfl⟩ | ⟨rfl, rfl⟩ <;>
      rcases lateCirc_circ hc with ⟨h0, rfl⟩ | ⟨h0, rfl⟩ <;> first | decide | simp at h0
  · intro i c h; rcases lateCirc_circ h with ⟨rfl, rfl⟩ | ⟨rfl, rfl⟩ <;> decide
  · intro i c h; rcases lateCirc_circ h with ⟨rfl, rfl⟩ | ⟨rfl, rfl⟩ <;> decide
  · intro i c h; rcases lateCirc_circ h with ⟨rfl, rfl⟩ | ⟨rfl, rfl⟩ <;> decide
  · intro i c h; rcases lateCirc_circ h with ⟨rfl, rfl⟩ | ⟨rfl, rfl⟩ <;> decide
  · intro i c h hi g hg
    rcases lateCirc_circ h with ⟨rfl, rfl⟩ | ⟨rfl, rfl⟩
    · exact absurd rfl hi
    · refine ⟨0, (0, 2), by decide, ?_⟩
      have : g = 1 ∨ g = 2 := by simpa [initial, lateSub] using hg
      rcases this with rfl | rfl <;> decide

/-- The depth exists with constants in sub-circuits, the hypothesis of `layer_is_call_depth` holds. -/
example : ∃ d e, IsCallDepth lateCirc d e := callDepth_exists lateCirc_wf

/-- **C63** with constants in sub-circuits: no path has two AND gates, and none has a connection before an AND gate, but there
are two rounds: the constants of a sub-circuit wait until it is entered. -/
theorem constants_cost_rounds : ∃ (m : Multi BoolGate) (rank : Node → Nat) (md x : Node → Nat), WF m rank ∧
    (∀ v, m.Valid v → md v = maxL ((m.parents v).map fun u => md u + costM m u)) ∧
    (∀ v, m.Valid v → x v = maxL ((m.parents v).map fun u => x u + if u ∈ m.incoming v then 1 else 0)) ∧
    (∀ v, m.Valid v → md v + costM m v ≤ 1) ∧ (∀ v, m.Valid v → costM m v = 1 → x v = 0) ∧
    ∃ it ls, MIter.new m = some it ∧
      MIter.collect m ((m.circs.map fun c => c.gates.length).sum + 1) it = some ls ∧
      (interactiveLayers m ls).length = 2 := by
  refine ⟨lateCirc, lateRank, fun v => if v.1 = 0 then [0, 0, 0, 1, 1].getD v.2 0 else [1, 0, 0, 0, 1, 1].getD v.2 0,
    fun v => if v.1 = 0 then [0, 0, 0, 2, 2].getD v.2 0 else [1, 0, 0, 0, 1, 1].getD v.2 0, lateCirc_wf, ?_, ?_, ?_, ?_, ?_⟩
  case refine_5 => exact ⟨_, _, rfl, rfl, by decide⟩
  all_goals
    rintro ⟨i, j⟩ ⟨c, hc, hj⟩
    rcases lateCirc_circ hc with ⟨h0, rfl⟩ | ⟨h0, rfl⟩ <;> simp only at h0 hj <;> subst h0
    · have hj : j < 5 := hj
      interval_cases j <;> decide
    · have hj : j < 6 := hj
      interval_cases j <;> decide

/-- With the paths to its constants counted from the connection, the bound holds. -/
example : ∃ it ls, MIter.new lateCirc = some it ∧ MIter.collect lateCirc 12 it = some ls ∧
    (interactiveLayers lateCirc ls).length ≤ 2 + 1 := by
  refine rounds_bounded_partial lateCirc lateRank lateCirc_wf
    (fun v => if v.1 = 0 then [0, 0, 0, 2, 2].getD v.2 0 else [1, 1, 1, 1, 2, 2].getD v.2 0)
    (fun v => if v.1 = 0 then [0, 0, 0, 2, 2].getD v.2 0 else 1) 2 1 ?_ ?_ ?_ ?_ ?_
  case refine_3 =>
    intro i c hc h0 g hg
    rcases lateCirc_circ hc with ⟨rfl, rfl⟩ | ⟨rfl, rfl⟩
    · exact absurd rfl h0
    · refine ⟨0, (0, 2), by decide, ?_⟩
      have : g = 1 ∨ g = 2 := by simpa [lateSub] using hg
      rcases this with rfl | rfl <;> decide
  all_goals
    rintro ⟨i, j⟩ ⟨c, hc, hj⟩
    rcases lateCirc_circ hc with ⟨h0, rfl⟩ | ⟨h0, rfl⟩ <;> simp only at h0 hj <;> subst h0
    · have hj : j < 5 := hj
      interval_cases j <;> decide
    · have hj : j < 6 := hj
      interval_cases j <;> decide

end Verif.Exec
