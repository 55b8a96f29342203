import Verif.Circuit.MultiLemmas
import Mathlib.Data.List.Nodup
import Mathlib.Data.Finset.Card
import Mathlib.Data.Finset.Range

set_option autoImplicit false

namespace Verif.Circuit

variable {G : Type}

/-- A gate is marked before exactly those of its sub-circuit inputs it feeds. -/
def Cross (m : Multi G) (it : MIter) (D R : Nat → List Nat) : Prop :=
  ∀ u v : Node, u ∈ m.incoming v →
    (u.2 ∈ D u.1 ++ R u.1 ↔ v.2 ∈ D v.1 ++ R v.1 ++ N it v.1)

theorem full_of_length (l : List Nat) (n : Nat) (h : l.Nodup) (hb : ∀ v ∈ l, v < n)
    (hl : l.length = n) : ∀ g < n, g ∈ l := by
  intro g hg
  have hs : l.toFinset ⊆ Finset.range n := by
    intro x hx; simpa using hb x (by simpa using hx)
  have hc : l.toFinset.card = (Finset.range n).card := by
    rw [List.toFinset_card_of_nodup h]; simp [hl]
  have := Finset.eq_of_subset_of_card_le hs (le_of_eq hc.symm)
  have hm : g ∈ l.toFinset := by rw [this]; simpa using hg
  simpa using hm

/-- The nodes of per-circuit gate lists. -/
def nodesOf (f : Nat → List Nat) (is : List Nat) : List Node :=
  is.flatMap fun i => (f i).map fun g => (i, g)

theorem mem_nodesOf (f : Nat → List Nat) (is : List Nat) (v : Node) :
    v ∈ nodesOf f is ↔ v.1 ∈ is ∧ v.2 ∈ f v.1 := by
  obtain ⟨i, g⟩ := v
  simp only [nodesOf, List.mem_flatMap, List.mem_map, Prod.mk.injEq]
  constructor
  · rintro ⟨j, hj, x, hx, rfl, rfl⟩; exact ⟨hj, hx⟩
  · rintro ⟨hi, hg⟩; exact ⟨i, hi, g, hg, rfl, rfl⟩

theorem nodup_nodesOf (f : Nat → List Nat) (is : List Nat) (his : is.Nodup)
    (h : ∀ i ∈ is, (f i).Nodup) : (nodesOf f is).Nodup := by
  unfold nodesOf
  rw [List.nodup_flatMap]
  refine ⟨fun i hi => (h i hi).map (fun a b e => by simpa using e), ?_⟩
  refine his.imp ?_
  intro a b hab
  simp only [Function.onFun, List.disjoint_left, List.mem_map]
  rintro _ ⟨x, _, rfl⟩ ⟨y, _, hy⟩
  simp only [Prod.mk.injEq] at hy
  exact hab hy.1.symm

theorem niNodes_mkLayer (ni int : Nat → List Nat) (is : List Nat) :
    niNodes (mkLayer ni int is) = nodesOf ni is := by
  induction is with
  | nil => rfl
  | cons i is ih =>
    simp only [niNodes, mkLayer, nodesOf] at ih ⊢
    by_cases h : ni i = [] ∧ int i = []
    · simp [h, ih]
    · simp [h, ih]

theorem intNodes_mkLayer (ni int : Nat → List Nat) (is : List Nat) :
    intNodes (mkLayer ni int is) = nodesOf int is := by
  induction is with
  | nil => rfl
  | cons i is ih =>
    simp only [intNodes, mkLayer, nodesOf] at ih ⊢
    by_cases h : ni i = [] ∧ int i = []
    · simp [h, ih]
    · simp [h, ih]

theorem nodesOf_split (f : Nat → List Nat) (is : List Nat) (a b : List Node) (v : Node)
    (h : nodesOf f is = a ++ v :: b) :
    ∃ l r, f v.1 = l ++ v.2 :: r ∧ ∀ x ∈ l, (v.1, x) ∈ a := by
  induction is generalizing a with
  | nil => simp [nodesOf] at h
  | cons i is ih =>
    have hcons : nodesOf f (i :: is) = (f i).map (fun g => (i, g)) ++ nodesOf f is := by
      simp [nodesOf]
    rw [hcons] at h
    rcases List.append_eq_append_iff.1 h with ⟨t, ht, ht2⟩ | ⟨t, ht, ht2⟩
    · obtain ⟨l, r, h1, h2⟩ := ih t ht2
      exact ⟨l, r, h1, fun x hx => by rw [ht]; exact List.mem_append_right _ (h2 x hx)⟩
    · cases t with
      | nil =>
        simp only [List.append_nil, List.nil_append] at ht ht2
        obtain ⟨l, r, h1, h2⟩ := ih [] (by simpa using ht2.symm)
        exact ⟨l, r, h1, fun x hx => absurd (h2 x hx) (by simp)⟩
      | cons w t =>
        simp only [List.cons_append, List.cons.injEq] at ht2
        obtain ⟨rfl, -⟩ := ht2
        obtain ⟨l, r', hl, hla, hr⟩ := List.map_eq_append_iff.1 ht
        obtain ⟨g, r, hr', hg, -⟩ := List.map_eq_cons_iff.1 hr
        subst hr'
        subst hla
        subst hg
        exact ⟨l, r, hl, fun x hx => List.mem_map.2 ⟨x, hx, rfl⟩⟩

theorem mem_layerTargets (m : Multi G) (l : MLayer) (v : Node) :
    v ∈ layerTargets m l ↔ ∃ u ∈ niNodes l ++ intNodes l, v ∈ m.outgoing u := by
  simp only [layerTargets, niNodes, intNodes, List.mem_flatMap, List.mem_append, List.mem_map]
  constructor
  · rintro ⟨⟨i, l'⟩, hl, g, hg | hg, hv⟩
    · exact ⟨(i, g), Or.inl ⟨_, hl, g, hg, rfl⟩, hv⟩
    · exact ⟨(i, g), Or.inr ⟨_, hl, g, hg, rfl⟩, hv⟩
  · rintro ⟨u, ⟨p, hp, g, hg, rfl⟩ | ⟨p, hp, g, hg, rfl⟩, hv⟩
    · exact ⟨p, hp, g, Or.inl hg, hv⟩
    · exact ⟨p, hp, g, Or.inr hg, hv⟩

theorem WF.mem_outgoing {m : Multi G} {rank : Node → Nat} (w : WF m rank) (u v : Node) :
    v ∈ m.outgoing u ↔ u ∈ m.incoming v := by
  rw [← List.count_pos_iff, ← List.count_pos_iff, w.consistent]

theorem WF.incoming_unique {m : Multi G} {rank : Node → Nat} (w : WF m rank) {u u' v : Node}
    (h : u ∈ m.incoming v) (h' : u' ∈ m.incoming v) : u = u' := by
  have hs := w.single v
  generalize m.incoming v = l at h h' hs
  match l, hs with
  | [], _ => simp at h
  | [x], _ => simp at h h'; rw [h, h']
  | x :: y :: t, hs => simp at hs

theorem WF.outgoing_nodup {m : Multi G} {rank : Node → Nat} (w : WF m rank) (u : Node) :
    (m.outgoing u).Nodup := by
  rw [List.nodup_iff_count_le_one]
  intro v
  rw [w.consistent]
  exact le_trans List.count_le_length (w.single v)

/-- One round of the iterator. -/
theorem round_spec [GateLike G] {m : Multi G} {rank : Node → Nat} (w : WF m rank)
    (D R : Nat → List Nat) (it : MIter) (h : Good m it D R) (hx : Cross m it D R) :
    ∃ (ni int : Nat → List Nat) (it' : MIter),
      let l := mkLayer ni int (List.range m.circs.length)
      MIter.next m it = some (if l = [] then none else some l, it') ∧
      Good m it' (fun i => D i ++ R i ++ ni i) int ∧
      Cross m it' (fun i => D i ++ R i ++ ni i) int ∧
      (l = [] → ∀ j x, m.incoming (j, x) ≠ [] → x ∉ N it' j) ∧
      (l = [] → ∀ i s, it' i = some s → s.nextLayer = []) ∧
      (∀ i, (∀ c, m.circs[i]? = some c → Added c (D i ++ R i) (ni i) (int i)) ∧
        (m.circs[i]? = none → ni i = [] ∧ int i = []) ∧
        ((D i ++ R i).Nodup → (D i ++ R i ++ ni i ++ int i).Nodup) ∧
        (∀ c, m.circs[i]? = some c → ∀ g ∈ ni i ++ int i, g < c.gates.length) ∧
        (∀ g ∈ ni i ++ int i, g ∈ N it i ∨ ∃ c, m.circs[i]? = some c ∧ c.parents g ≠ [])) := by
  obtain ⟨ni, int, it1, e, hout, hidle, hact⟩ := stepAll_spec w D (List.range m.circs.length)
    List.nodup_range it (by
      intro i hi s hs
      have hi' : i < m.circs.length := by simpa using hi
      refine ⟨m.circs[i], by simp [hi'], ?_⟩
      have := h.act i m.circs[i] s (by simp [hi']) hs
      rw [this.2.1]; exact this.1)
  -- uniform description per circuit
  have hmem : ∀ i c, m.circs[i]? = some c → i ∈ List.range m.circs.length := by
    intro i c hc
    obtain ⟨hlt, -⟩ := List.getElem?_eq_some_iff.1 hc
    simpa using hlt
  have hoob : ∀ i, m.circs[i]? = none → it1 i = none ∧ ni i = [] ∧ int i = [] := by
    intro i hc
    have : i ∉ List.range m.circs.length := by
      simpa using hc
    obtain ⟨h1, h2⟩ := hout i this
    exact ⟨h1.trans (h.oob i hc).1, h2⟩
  have hcase : ∀ i c, m.circs[i]? = some c →
      (it i = none ∧ it1 i = none ∧ ni i = [] ∧ int i = []) ∨
      ∃ s s', it i = some s ∧ it1 i = (if s'.isExhausted c then none else some s') ∧
        Step c (D i) s (ni i) (int i) s' := by
    intro i c hc
    cases hi : it i with
    | none => exact Or.inl ⟨rfl, hidle i (hmem i c hc) hi⟩
    | some s =>
      obtain ⟨s', h1, h2⟩ := hact i (hmem i c hc) s c hi hc
      exact Or.inr ⟨s, s', rfl, h1, h2⟩
  have hN1 : ∀ i, N it1 i = [] := by
    intro i
    cases hc : m.circs[i]? with
    | none => simp [N, (hoob i hc).1]
    | some c =>
      rcases hcase i c hc with ⟨_, h1, _⟩ | ⟨s, s', _, h1, hs⟩
      · simp [N, h1]
      · by_cases hex : s'.isExhausted c = true
        · simp [N, h1, hex]
        · simp [N, h1, hex, hs.next]
  have hfacts : ∀ i, (∀ c, m.circs[i]? = some c → Added c (D i ++ R i) (ni i) (int i)) ∧
        (m.circs[i]? = none → ni i = [] ∧ int i = []) ∧
        ((D i ++ R i).Nodup → (D i ++ R i ++ ni i ++ int i).Nodup) ∧
        (∀ c, m.circs[i]? = some c → ∀ g ∈ ni i ++ int i, g < c.gates.length) ∧
        (∀ g ∈ ni i ++ int i, g ∈ N it i ∨ ∃ c, m.circs[i]? = some c ∧ c.parents g ≠ []) := by
    intro i
    cases hc : m.circs[i]? with
    | none =>
      obtain ⟨_, h1, h2⟩ := hoob i hc
      refine ⟨by simp, fun _ => ⟨h1, h2⟩, by simp [h1, h2], by simp, by simp [h1, h2]⟩
    | some c =>
      rcases hcase i c hc with ⟨_, h1, h2, h3⟩ | ⟨s, s', hi, h1, hs⟩
      · refine ⟨?_, by simp, by simp [h2, h3], by simp [h2, h3], by simp [h2, h3]⟩
        intro c' _
        rw [h2, h3]
        constructor <;> simp
      · have ha := h.act i c s hc hi
        have hinv := hs.inv
        rw [ha.2.1] at hinv
        refine ⟨?_, by simp, ?_, ?_, ?_⟩
        · intro c' hc'; cases hc'
          have := hs.added; rw [ha.2.1] at this; exact this
        · intro _; simpa using hinv.nodup
        · intro c' hc' g hg; cases hc'
          apply hinv.bound
          simp only [List.mem_append] at hg ⊢; tauto
        · intro g hg
          rcases hs.from_ g hg with h' | h'
          · left; simpa [N, hi] using h'
          · right; exact ⟨c, rfl, h'⟩
  have hgood1 : Good m it1 (fun i => D i ++ R i ++ ni i) int := by
    constructor
    · intro i hc
      obtain ⟨h1, h2, h3⟩ := hoob i hc
      obtain ⟨-, h4, h5⟩ := h.oob i hc
      simp [h1, h2, h3, h4, h5]
    · intro i c s1 hc hs1
      rcases hcase i c hc with ⟨_, h1, _⟩ | ⟨s, s', hi, h1, hs⟩
      · rw [h1] at hs1; exact absurd hs1 (by simp)
      · have ha := h.act i c s hc hi
        by_cases hex : s'.isExhausted c = true
        · rw [h1] at hs1; simp [hex] at hs1
        · rw [h1] at hs1; simp only [hex, if_false, Option.some.injEq, Bool.false_eq_true] at hs1
          subst hs1
          have hinv := hs.inv
          rw [ha.2.1] at hinv
          refine ⟨by rw [hs.next]; exact hinv, hs.prev, ?_, ?_⟩
          · rw [hs.produced, ha.2.2.1]; simp only [List.length_append]; omega
          · intro g hg
            have := ha.2.2.2 g hg
            have ht := hs.takes g
            simp only [List.mem_append] at this ht ⊢
            tauto
    · intro i c hc hs1
      rcases hcase i c hc with ⟨hi, h1, h2, h3⟩ | ⟨s, s', hi, h1, hs⟩
      · have := h.idle i c hc hi
        simp only [h2, h3, List.append_nil]
        rcases this with ⟨a, b, d⟩ | this
        · left; simp [a, b, d]
        · right; exact this
      · have ha := h.act i c s hc hi
        by_cases hex : s'.isExhausted c = true
        · right
          have hinv := hs.inv
          rw [ha.2.1] at hinv
          have hnd : (D i ++ R i ++ ni i ++ int i).Nodup := by simpa using hinv.nodup
          have hbd : ∀ g ∈ D i ++ R i ++ ni i ++ int i, g < c.gates.length := by
            intro g hg; exact hinv.bound g (by simpa using hg)
          refine ⟨hnd, hbd, full_of_length _ _ hnd hbd ?_⟩
          simp only [Iter.isExhausted, decide_eq_true_eq] at hex
          rw [← hex, hs.produced, ha.2.2.1]; simp only [List.length_append]; omega
        · rw [h1] at hs1; simp [hex] at hs1
  -- sub-circuit inputs: marked now iff they were queued before
  have hmark : ∀ v : Node, m.incoming v ≠ [] →
      (v.2 ∈ (D v.1 ++ R v.1 ++ ni v.1) ++ int v.1 ↔ v.2 ∈ D v.1 ++ R v.1 ++ N it v.1) := by
    intro v hv
    obtain ⟨u, hu⟩ := List.exists_mem_of_ne_nil _ hv
    obtain ⟨c, hc, -⟩ := w.validTo u v hu
    have hp := w.crossSource v c hv hc
    have hnew : v.2 ∈ ni v.1 ++ int v.1 ↔ v.2 ∈ N it v.1 := by
      constructor
      · intro hm
        rcases (hfacts v.1).2.2.2.2 v.2 hm with h' | ⟨c', hc', h'⟩
        · exact h'
        · rw [hc] at hc'; cases hc'; exact absurd hp h'
      · intro hm
        rcases hcase v.1 c hc with ⟨hi, _⟩ | ⟨s, s', hi, h1, hs⟩
        · simp [N, hi] at hm
        · exact hs.takes v.2 (by simpa [N, hi] using hm)
    rw [List.append_assoc, List.mem_append, hnew, List.mem_append (t := N it v.1)]
  set l := mkLayer ni int (List.range m.circs.length) with hl
  have hnodes : ∀ u : Node, u ∈ niNodes l ++ intNodes l ↔ u.2 ∈ ni u.1 ++ int u.1 := by
    intro u
    rw [hl, niNodes_mkLayer, intNodes_mkLayer, List.mem_append, mem_nodesOf, mem_nodesOf,
      List.mem_append]
    by_cases hlt : u.1 ∈ List.range m.circs.length
    · simp [hlt]
    · have hc : m.circs[u.1]? = none := by simpa using hlt
      obtain ⟨-, h2, h3⟩ := hoob u.1 hc
      simp [h2, h3]
  have hT : ∀ v, v ∈ layerTargets m l ↔ ∃ u ∈ m.incoming v, u.2 ∈ ni u.1 ++ int u.1 := by
    intro v
    rw [mem_layerTargets]
    constructor
    · rintro ⟨u, hu, hv⟩; exact ⟨u, (w.mem_outgoing u v).1 hv, (hnodes u).1 hu⟩
    · rintro ⟨u, hu, hm⟩; exact ⟨u, (hnodes u).2 hm, (w.mem_outgoing u v).2 hu⟩
  -- marking state of `D ++ R`
  have hDR : ∀ i, (D i ++ R i).Nodup := by
    intro i
    cases hc : m.circs[i]? with
    | none => simp [(h.oob i hc).2]
    | some c =>
      cases hi : it i with
      | none =>
        rcases h.idle i c hc hi with ⟨_, a, b⟩ | ⟨a, _⟩
        · simp [a, b]
        · exact a
      | some s => exact ((h.act i c s hc hi).1.nodup.of_append_left)
  have hTnd : (layerTargets m l).Nodup := by
    have hX : (niNodes l ++ intNodes l).Nodup := by
      rw [hl, niNodes_mkLayer, intNodes_mkLayer, List.nodup_append]
      have hall : ∀ i, (ni i ++ int i).Nodup := by
        intro i
        have := (hfacts i).2.2.1 (hDR i)
        rw [List.append_assoc] at this
        exact this.of_append_right
      refine ⟨nodup_nodesOf _ _ List.nodup_range (fun i _ => (hall i).of_append_left),
        nodup_nodesOf _ _ List.nodup_range (fun i _ => (hall i).of_append_right), ?_⟩
      intro a ha b hb hab
      subst hab
      rw [mem_nodesOf] at ha hb
      exact (List.disjoint_of_nodup_append (hall a.1)) ha.2 hb.2
    have : ∀ l' : MLayer, (niNodes l' ++ intNodes l').Nodup → (layerTargets m l').Nodup := by
      intro l'
      have hperm : (layerTargets m l').Perm ((niNodes l' ++ intNodes l').flatMap m.outgoing) := by
        induction l' with
        | nil => simp [layerTargets, niNodes, intNodes]
        | cons p l' ih =>
          obtain ⟨i, lay⟩ := p
          have e1 : layerTargets m ((i, lay) :: l') =
              (lay.ni.flatMap (fun g => m.outgoing (i, g)) ++
                lay.int.flatMap (fun g => m.outgoing (i, g))) ++ layerTargets m l' := by
            simp [layerTargets]
          have e2 : niNodes ((i, lay) :: l') = lay.ni.map (fun g => (i, g)) ++ niNodes l' := by
            simp [niNodes]
          have e3 : intNodes ((i, lay) :: l') = lay.int.map (fun g => (i, g)) ++ intNodes l' := by
            simp [intNodes]
          rw [e1, e2, e3]
          simp only [List.flatMap_append, List.flatMap_map] at ih ⊢
          rw [List.append_assoc, List.append_assoc]
          refine List.Perm.append_left _ ?_
          refine (List.Perm.append_left _ ih).trans ?_
          rw [← List.append_assoc, ← List.append_assoc]
          exact List.Perm.append_right _ List.perm_append_comm
      intro hnd
      rw [hperm.nodup_iff, List.nodup_flatMap]
      refine ⟨fun u _ => w.outgoing_nodup u, ?_⟩
      refine hnd.imp ?_
      intro a b hab
      simp only [Function.onFun, List.disjoint_left]
      intro v hva hvb
      exact hab (w.incoming_unique ((w.mem_outgoing a v).1 hva) ((w.mem_outgoing b v).1 hvb))
    exact this l hX
  obtain ⟨it2, e2, g2, n2⟩ := pushAll_spec w (fun i => D i ++ R i ++ ni i) int (layerTargets m l)
    hTnd it1 hgood1 (by
      intro t ht hnil
      obtain ⟨u, hu, -⟩ := (hT t).1 ht
      rw [hnil] at hu; simp at hu) (by
      intro t ht hm
      obtain ⟨u, hu, hnew⟩ := (hT t).1 ht
      rw [hN1, List.append_nil, hmark t (by intro hnil; rw [hnil] at hu; simp at hu),
        ← hx u t hu] at hm
      have hnd := (hfacts u.1).2.2.1 (hDR u.1)
      rw [List.append_assoc] at hnd
      exact (List.disjoint_of_nodup_append hnd) hm hnew)
  refine ⟨ni, int, it2, ?_, g2, ?_, ?_, ?_, hfacts⟩
  · simp [MIter.next, e, ← hl, e2]
  · intro u v hu
    have hv : m.incoming v ≠ [] := by intro hnil; rw [hnil] at hu; simp at hu
    have h1 := hx u v hu
    have h2 := hmark v hv
    have h3 := n2 v.1 v.2 hv
    have h4 : v ∈ layerTargets m l ↔ u.2 ∈ ni u.1 ++ int u.1 := by
      rw [hT]
      constructor
      · rintro ⟨u', hu', hm⟩; rw [w.incoming_unique hu hu']; exact hm
      · intro hm; exact ⟨u, hu, hm⟩
    rw [hN1] at h3
    simp only [List.mem_append, List.not_mem_nil, false_or] at h1 h2 h3 h4 ⊢
    rw [h3, show ((v.1, v.2) : Node) = v from rfl, h4, h2, ← h1, or_assoc]
  · intro hnil j x hjx
    rw [n2 j x hjx, hN1, hl, hnil]
    simp [layerTargets]
  · intro hnil i s hs
    rw [hl, hnil] at e2
    simp only [layerTargets, List.flatMap_nil, List.foldlM_nil, Option.pure_def,
      Option.some.injEq] at e2
    have := hN1 i
    rw [e2] at this
    simpa [N, hs] using this

/-- All nodes. -/
def allNodes (m : Multi G) : List Node :=
  nodesOf (fun i => match m.circs[i]? with
    | some c => List.range c.gates.length
    | none => []) (List.range m.circs.length)

theorem mem_allNodes (m : Multi G) (v : Node) : v ∈ allNodes m ↔ m.Valid v := by
  rw [allNodes, mem_nodesOf, Multi.Valid]
  constructor
  · rintro ⟨h1, h2⟩
    cases hc : m.circs[v.1]? with
    | none => rw [hc] at h2; simp at h2
    | some c => rw [hc] at h2; exact ⟨c, rfl, by simpa using h2⟩
  · rintro ⟨c, hc, hg⟩
    obtain ⟨hlt, -⟩ := List.getElem?_eq_some_iff.1 hc
    rw [hc]
    exact ⟨by simpa using hlt, by simpa using hg⟩

theorem length_le_allNodes (m : Multi G) (l : List Node) (hn : l.Nodup) (hv : ∀ v ∈ l, m.Valid v) :
    l.length ≤ (allNodes m).length :=
  (hn.subperm fun v h => (mem_allNodes m v).2 (hv v h)).length_le

/-- At the end every gate was produced. -/
theorem complete_of_stuck [GateLike G] {m : Multi G} {rank : Node → Nat} (w : WF m rank)
    (D : Nat → List Nat) (it : MIter) (h : Good m it D fun _ => []) (hx : Cross m it D fun _ => [])
    (hN : ∀ i s, it i = some s → s.nextLayer = []) :
    ∀ v, m.Valid v → v.2 ∈ D v.1 := by
  have hN' : ∀ i, N it i = [] := by
    intro i
    cases hi : it i with
    | none => simp [N, hi]
    | some s => simp [N, hi, hN i s hi]
  intro v
  induction hr : rank v using Nat.strong_induction_on generalizing v with
  | _ r ih =>
    subst hr
    rintro ⟨c, hc, hg⟩
    have hcross : ∀ u ∈ m.incoming v, v.2 ∈ D v.1 := by
      intro u hu
      have h1 := ih (rank u) (w.rankCross u v hu) u rfl (w.validFrom u v hu)
      have h2 := (hx u v hu).1 (List.mem_append_left _ h1)
      simpa [hN'] using h2
    have hpar : ∀ x ∈ c.parents v.2, x ∈ D v.1 := by
      intro x hx'
      rw [mem_parents] at hx'
      exact ih (rank (v.1, x)) (w.rankIn v.1 c hc _ hx') (v.1, x) rfl
        ⟨c, hc, (w.edges v.1 c hc _ hx').1⟩
    by_cases hp : c.parents v.2 = []
    · rcases w.sources v.1 c hc v.2 hg hp with hini | hin
      · cases hi : it v.1 with
        | some s =>
          have := (h.act v.1 c s hc hi).2.2.2 v.2 hini
          simpa [hN v.1 s hi] using this
        | none =>
          rcases h.idle v.1 c hc hi with ⟨h0, hD, -⟩ | ⟨-, -, hall⟩
          · obtain ⟨y, u, hu, hlt⟩ := w.constReach v.1 c hc h0 v.2 hini
            have h1 := ih (rank u) hlt u rfl (w.validFrom u _ hu)
            have h2 := (hx u _ hu).1 (List.mem_append_left _ h1)
            simp [hN', hD] at h2
          · simpa using hall v.2 hg
      · obtain ⟨u, hu⟩ := List.exists_mem_of_ne_nil _ hin
        exact hcross u hu
    · cases hi : it v.1 with
      | some s =>
        have hinv := (h.act v.1 c s hc hi).1
        have := (hinv.ready v.2 hp).2 ((cnt_eq_zero c _ _).2 hpar)
        simpa [hN v.1 s hi] using this
      | none =>
        rcases h.idle v.1 c hc hi with ⟨h0, hD, -⟩ | ⟨-, -, hall⟩
        · obtain ⟨x, hx'⟩ := List.exists_mem_of_ne_nil _ hp
          have := hpar x hx'
          rw [hD] at this; simp at this
        · simpa using hall v.2 hg

theorem mkLayer_eq_nil (ni int : Nat → List Nat) (is : List Nat) (h : mkLayer ni int is = []) :
    ∀ i ∈ is, ni i = [] ∧ int i = [] := by
  intro i hi
  have := List.filterMap_eq_nil_iff.1 h i hi
  by_contra hne
  simp [hne] at this

theorem mkLayer_ne_nil (ni int : Nat → List Nat) (is : List Nat) (h : mkLayer ni int is ≠ []) :
    0 < (nodesOf ni is ++ nodesOf int is).length := by
  rw [List.length_pos_iff]
  intro hnil
  apply h
  rw [mkLayer, List.filterMap_eq_nil_iff]
  intro i hi
  simp only [List.append_eq_nil_iff, nodesOf, List.flatMap_eq_nil_iff, List.map_eq_nil_iff] at hnil
  simp [hnil.1 i hi, hnil.2 i hi]

/-- The gates of a layer, local ones first. -/
def layerNodes (l : MLayer) : List Node := niNodes l ++ intNodes l

theorem collect_spec [GateLike G] {m : Multi G} {rank : Node → Nat} (w : WF m rank)
    (fuel : Nat) (D R : Nat → List Nat) (it : MIter) (h : Good m it D R) (hx : Cross m it D R)
    (done : List Node) (hd : ∀ u, u ∈ done ↔ u.2 ∈ D u.1 ++ R u.1) (hnd : done.Nodup)
    (hv : ∀ u ∈ done, m.Valid u) (hf : (allNodes m).length < fuel + done.length) :
    ∃ ls, MIter.collect m fuel it = some ls ∧
      (done ++ ls.flatMap layerNodes).Nodup ∧
      (∀ v, v ∈ done ++ ls.flatMap layerNodes ↔ m.Valid v) ∧
      TopoFrom m.parents done (ls.map fun l => (niNodes l, intNodes l)) ∧
      (∀ l ∈ ls, ∀ v ∈ niNodes l, ∃ g, m.gate? v = some g ∧ interactive g = false) ∧
      (∀ l ∈ ls, ∀ v ∈ intNodes l, ∃ g, m.gate? v = some g ∧ interactive g = true) ∧
      ∀ l ∈ ls, layerNodes l ≠ [] := by
  induction fuel generalizing D R it done with
  | zero =>
    have := length_le_allNodes m done hnd hv
    omega
  | succ fuel ih =>
    obtain ⟨ni, int, it', e, g', x', hstuck1, hstuck2, hf'⟩ := round_spec w D R it h hx
    set l := mkLayer ni int (List.range m.circs.length) with hl
    by_cases hnil : l = []
    · refine ⟨[], ?_, ?_, ?_, trivial, by simp, by simp, by simp⟩
      · simp [MIter.collect, e, hnil]
      · simpa using hnd
      · intro v
        simp only [List.flatMap_nil, List.append_nil]
        refine ⟨hv v, fun hval => ?_⟩
        have hz : ∀ i, ni i = [] ∧ int i = [] := by
          intro i
          by_cases hi : i ∈ List.range m.circs.length
          · exact mkLayer_eq_nil ni int _ hnil i hi
          · exact (hf' i).2.1 (by simpa using hi)
        have hint : int = fun _ => [] := funext fun i => (hz i).2
        have hD : (fun i => D i ++ R i ++ ni i) = fun i => D i ++ R i :=
          funext fun i => by simp [(hz i).1]
        rw [hint, hD] at g' x'
        exact (hd v).2 (complete_of_stuck w _ it' g' x' (hstuck2 hnil) v hval)
    · have hni : niNodes l = nodesOf ni (List.range m.circs.length) := by
        rw [hl, niNodes_mkLayer]
      have hint : intNodes l = nodesOf int (List.range m.circs.length) := by
        rw [hl, intNodes_mkLayer]
      have mni : ∀ u : Node, u ∈ niNodes l ↔ u.2 ∈ ni u.1 := by
        intro u
        rw [hni, mem_nodesOf]
        refine ⟨fun h => h.2, fun h' => ⟨?_, h'⟩⟩
        by_contra hlt
        rw [((hf' u.1).2.1 (by simpa using hlt)).1] at h'
        simp at h'
      have mint : ∀ u : Node, u ∈ intNodes l ↔ u.2 ∈ int u.1 := by
        intro u
        rw [hint, mem_nodesOf]
        refine ⟨fun h => h.2, fun h' => ⟨?_, h'⟩⟩
        by_contra hlt
        rw [((hf' u.1).2.1 (by simpa using hlt)).2] at h'
        simp at h'
      have hDR : ∀ i, (D i ++ R i).Nodup := by
        intro i
        cases hc : m.circs[i]? with
        | none => simp [(h.oob i hc).2]
        | some c =>
          cases hi : it i with
          | none =>
            rcases h.idle i c hc hi with ⟨_, a, b⟩ | ⟨a, _⟩
            · simp [a, b]
            · exact a
          | some s => exact ((h.act i c s hc hi).1.nodup.of_append_left)
      have hall : ∀ i, (D i ++ R i ++ (ni i ++ int i)).Nodup := by
        intro i
        have := (hf' i).2.2.1 (hDR i)
        rwa [List.append_assoc] at this
      have hni_int : ∀ i, (ni i ++ int i).Nodup := fun i => (hall i).of_append_right
      have hlay : (layerNodes l).Nodup := by
        rw [layerNodes, hni, hint, List.nodup_append]
        refine ⟨nodup_nodesOf _ _ List.nodup_range (fun i _ => (hni_int i).of_append_left),
          nodup_nodesOf _ _ List.nodup_range (fun i _ => (hni_int i).of_append_right), ?_⟩
        intro a ha b hb hab
        subst hab
        rw [mem_nodesOf] at ha hb
        exact (List.disjoint_of_nodup_append (hni_int a.1)) ha.2 hb.2
      have hnd' : (done ++ layerNodes l).Nodup := by
        rw [List.nodup_append]
        refine ⟨hnd, hlay, ?_⟩
        intro a ha b hb hab
        subst hab
        rw [hd] at ha
        rw [layerNodes, List.mem_append, mni, mint, ← List.mem_append] at hb
        exact (List.disjoint_of_nodup_append (hall a.1)) ha hb
      have hv' : ∀ u ∈ done ++ layerNodes l, m.Valid u := by
        intro u hu
        rcases List.mem_append.1 hu with hu | hu
        · exact hv u hu
        · rw [layerNodes, List.mem_append, mni, mint, ← List.mem_append] at hu
          cases hc : m.circs[u.1]? with
          | none => obtain ⟨a, b⟩ := (hf' u.1).2.1 hc; rw [a, b] at hu; simp at hu
          | some c => exact ⟨c, hc, (hf' u.1).2.2.2.1 c hc u.2 hu⟩
      have hd' : ∀ u, u ∈ done ++ layerNodes l ↔
          u.2 ∈ (fun i => D i ++ R i ++ ni i) u.1 ++ int u.1 := by
        intro u
        simp only [layerNodes, List.mem_append, hd, mni, mint, or_assoc]
      have hpos := mkLayer_ne_nil ni int _ hnil
      rw [← hni, ← hint] at hpos
      obtain ⟨ls, e1, n1, c1, t1, gn1, gi1, ne1⟩ := ih _ _ it' g' x' (done ++ layerNodes l) hd' hnd'
        hv' (by
          have : 0 < (layerNodes l).length := hpos
          simp only [List.length_append]; omega)
      have hassoc : done ++ (l :: ls).flatMap layerNodes =
          done ++ layerNodes l ++ ls.flatMap layerNodes := by simp
      refine ⟨l :: ls, ?_, ?_, ?_, ?_, ?_, ?_, ?_⟩
      · simp [MIter.collect, e, hnil, e1]
      · rw [hassoc]; exact n1
      · rw [hassoc]; exact c1
      · have hpar : ∀ v : Node, v.2 ∈ ni v.1 ++ int v.1 → ∀ u ∈ m.incoming v, u ∈ done := by
          intro v hm u hu
          have hne : m.incoming v ≠ [] := by intro h0; rw [h0] at hu; simp at hu
          rcases (hf' v.1).2.2.2.2 v.2 hm with h1 | ⟨c, hc, h1⟩
          · rw [hd]; exact (hx u v hu).2 (List.mem_append_right _ h1)
          · exact absurd (w.crossSource v c hne hc) h1
        refine ⟨?_, ?_, ?_⟩
        · intro a v b hs u hu
          have hvm : v ∈ niNodes l := by rw [hs]; simp
          rw [mni] at hvm
          rw [hni] at hs
          obtain ⟨p, r, hp1, hp2⟩ := nodesOf_split ni _ a b v hs
          rw [Multi.parents, List.mem_append] at hu
          rcases hu with hu | hu
          · cases hc : m.circs[v.1]? with
            | none => rw [hc] at hu; simp at hu
            | some c =>
              rw [hc] at hu
              obtain ⟨x, hx1, rfl⟩ := List.mem_map.1 hu
              have := ((hf' v.1).1 c hc).niOrder p v.2 r hp1 x hx1
              rcases List.mem_append.1 this with h1 | h1
              · exact List.mem_append_left _ ((hd _).2 h1)
              · exact List.mem_append_right _ (hp2 x h1)
          · exact List.mem_append_left _ (hpar v (List.mem_append_left _ hvm) u hu)
        · intro v hvm u hu
          rw [mint] at hvm
          rw [Multi.parents, List.mem_append] at hu
          rcases hu with hu | hu
          · cases hc : m.circs[v.1]? with
            | none => rw [hc] at hu; simp at hu
            | some c =>
              rw [hc] at hu
              obtain ⟨x, hx1, rfl⟩ := List.mem_map.1 hu
              have := ((hf' v.1).1 c hc).intOrder v.2 hvm x hx1
              rcases List.mem_append.1 this with h1 | h1
              · exact List.mem_append_left _ ((hd _).2 h1)
              · exact List.mem_append_right _ ((mni _).2 h1)
          · exact List.mem_append_left _ (hpar v (List.mem_append_right _ hvm) u hu)
        · have : done ++ niNodes l ++ intNodes l = done ++ layerNodes l := by
            simp [layerNodes]
          show TopoFrom m.parents (done ++ niNodes l ++ intNodes l) _
          rw [this]; exact t1
      · intro l' hl' v hvm
        rcases List.mem_cons.1 hl' with rfl | hl'
        · rw [mni] at hvm
          cases hc : m.circs[v.1]? with
          | none => rw [((hf' v.1).2.1 hc).1] at hvm; simp at hvm
          | some c =>
            obtain ⟨g, h1, h2⟩ := ((hf' v.1).1 c hc).niGate v.2 hvm
            exact ⟨g, by simp [Multi.gate?, hc, h1], h2⟩
        · exact gn1 l' hl' v hvm
      · intro l' hl' v hvm
        rcases List.mem_cons.1 hl' with rfl | hl'
        · rw [mint] at hvm
          cases hc : m.circs[v.1]? with
          | none => rw [((hf' v.1).2.1 hc).2] at hvm; simp at hvm
          | some c =>
            obtain ⟨g, h1, h2⟩ := ((hf' v.1).1 c hc).intGate v.2 hvm
            exact ⟨g, by simp [Multi.gate?, hc, h1], h2⟩
        · exact gi1 l' hl' v hvm
      · intro l' hl'
        rcases List.mem_cons.1 hl' with rfl | hl'
        · exact List.ne_nil_of_length_pos hpos
        · exact ne1 l' hl'

theorem good_new {m : Multi G} {rank : Node → Nat} (w : WF m rank) :
    ∃ it, MIter.new m = some it ∧ Good m it (fun _ => []) (fun _ => []) ∧
      Cross m it (fun _ => []) (fun _ => []) := by
  obtain ⟨c0, hc0⟩ : ∃ c, m.circs[0]? = some c := ⟨m.circs[0]'w.nonempty, by simp [w.nonempty]⟩
  have hi0 : initial 0 c0 = c0.constantGates ++ c0.inputGates := by simp [initial]
  refine ⟨fun i => if i = 0 then some (Iter.new c0) else none, by simp [MIter.new, hc0], ?_, ?_⟩
  · constructor
    · intro i hi
      have : i ≠ 0 := by rintro rfl; rw [hc0] at hi; simp at hi
      simp [this]
    · intro i c s hc hs
      by_cases hi : i = 0
      · subst hi
        rw [hc0] at hc; cases hc
        simp only [if_true, Option.some.injEq] at hs
        subst hs
        refine ⟨?_, rfl, rfl, ?_⟩
        · have := inv_init c0 (initial 0 c0) (w.initNodup 0 c0 hc0) (w.initBound 0 c0 hc0)
            (fun g hg => (w.initSource 0 c0 hc0 g hg).1)
          rw [hi0] at this; exact this
        · intro g hg; rw [hi0] at hg; simpa [Iter.new, Iter.newUninit] using hg
      · simp [hi] at hs
    · intro i c hc hs
      left
      refine ⟨?_, rfl, rfl⟩
      rintro rfl
      simp at hs
  · intro u v hu
    simp only [List.append_nil, List.nil_append, List.not_mem_nil, false_iff]
    intro hm
    by_cases hi : v.1 = 0
    · have hin : v.2 ∈ initial 0 c0 := by
        rw [hi0]; simpa [N, hi, Iter.new, Iter.newUninit] using hm
      have := (w.initSource 0 c0 hc0 v.2 hin).2
      rw [← hi] at this
      rw [show ((v.1, v.2) : Node) = v from rfl] at this
      rw [this] at hu; simp at hu
    · simp [N, hi] at hm

end Verif.Circuit
