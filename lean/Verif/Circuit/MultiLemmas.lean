import Verif.Circuit.IterLemmas
import Verif.Circuit.Spec
import Mathlib.Data.List.Count

set_option autoImplicit false

namespace Verif.Circuit

variable {G : Type}

theorem WF.edgesOk {m : Multi G} {rank : Node → Nat} (w : WF m rank) {i : Nat} {c : Base G}
    (h : m.circs[i]? = some c) : EdgesOk c := fun e he => w.edges i c h e he

/-- Queue of circuit `i`. -/
def N (it : MIter) (i : Nat) : List Nat :=
  match it i with
  | some s => s.nextLayer
  | none => []

/-- State invariant without the cross connections. -/
structure Good (m : Multi G) (it : MIter) (D R : Nat → List Nat) : Prop where
  oob : ∀ i : Nat, m.circs[i]? = none → it i = none ∧ D i = [] ∧ R i = []
  act : ∀ (i : Nat) (c : Base G) (s : Iter), m.circs[i]? = some c → it i = some s →
    Inv c (D i) (R i) s.needed s.nextLayer ∧ s.prev = R i ∧
    s.produced = (D i).length + (R i).length ∧
    ∀ g ∈ initial i c, g ∈ D i ++ R i ++ s.nextLayer
  idle : ∀ (i : Nat) (c : Base G), m.circs[i]? = some c → it i = none →
    (i ≠ 0 ∧ D i = [] ∧ R i = []) ∨
    ((D i ++ R i).Nodup ∧ (∀ g ∈ D i ++ R i, g < c.gates.length) ∧
      ∀ g < c.gates.length, g ∈ D i ++ R i)

theorem inv_init (c : Base G) (l : List Nat) (hn : l.Nodup) (hb : ∀ g ∈ l, g < c.gates.length)
    (hp : ∀ g ∈ l, c.parents g = []) : Inv c [] [] (fun v => (c.parents v).length) l := by
  constructor
  · simpa using hn
  · funext v; exact parents_length c v
  · intro v hv
    constructor
    · intro hm
      exact absurd (hp v (by simpa using hm)) hv
    · intro h0
      have := (cnt_eq_zero c [] v).1 h0
      obtain ⟨u, hu⟩ := List.exists_mem_of_ne_nil _ hv
      simpa using this u hu
  · intro v hv; exact hb v (by simpa using hv)

theorem inv_push (c : Base G) (D R Q : List Nat) (needed : Nat → Nat) (g : Nat)
    (h : Inv c D R needed Q) (hg : g < c.gates.length) (hp : c.parents g = [])
    (hn : g ∉ D ++ R ++ Q) : Inv c D R needed (Q ++ [g]) := by
  constructor
  · rw [← List.append_assoc, List.nodup_append]
    refine ⟨h.nodup, by simp, ?_⟩
    intro a ha b hb hab
    simp only [List.mem_singleton] at hb
    subst hb hab
    exact hn ha
  · exact h.needed
  · intro v hv
    rw [← h.ready v hv]
    have : v ≠ g := by rintro rfl; exact hv hp
    simp [this]
  · intro v hv
    rw [← List.append_assoc, List.mem_append] at hv
    rcases hv with hv | hv
    · exact h.bound v hv
    · simp only [List.mem_singleton] at hv; subst hv; exact hg

theorem pushTarget_spec {m : Multi G} {rank : Node → Nat} (w : WF m rank) (it : MIter)
    (D R : Nat → List Nat) (h : Good m it D R) (i g : Nat) (c : Base G)
    (hc : m.circs[i]? = some c) (hg : g < c.gates.length) (hp : c.parents g = [])
    (hin : m.incoming (i, g) ≠ []) (hn : g ∉ D i ++ R i ++ N it i) :
    ∃ it', pushTarget m it (i, g) = some it' ∧ Good m it' D R ∧
      ∀ j x, m.incoming (j, x) ≠ [] → (x ∈ N it' j ↔ x ∈ N it j ∨ (j, x) = (i, g)) := by
  have hni : g ∉ initial i c := fun hm => hin ((w.initSource i c hc g hm).2)
  cases hi : it i with
  | some s =>
    obtain ⟨hinv, hprev, hprod, hinit⟩ := h.act i c s hc hi
    have hnl : N it i = s.nextLayer := by simp [N, hi]
    rw [hnl] at hn
    refine ⟨fun j => if j = i then some { s with nextLayer := s.nextLayer ++ [g] } else it j,
      by simp only [pushTarget, hi, Option.bind_eq_bind, Option.bind_some,
      Option.pure_def], ⟨?_, ?_, ?_⟩, ?_⟩
    · intro j hj
      have := h.oob j hj
      have hne : j ≠ i := by rintro rfl; rw [hc] at hj; exact absurd hj (by simp)
      simpa [hne] using this
    · intro j c' s' hc' hs'
      by_cases hji : j = i
      · subst hji
        simp only [if_true, Option.some.injEq] at hs'
        rw [hc] at hc'; cases hc'
        subst hs'
        refine ⟨inv_push c _ _ _ _ g hinv hg hp hn, hprev, hprod, ?_⟩
        intro x hx
        have := hinit x hx
        simp only [List.mem_append] at this ⊢; tauto
      · simp only [hji, if_false] at hs'
        exact h.act j c' s' hc' hs'
    · intro j c' hc' hs'
      by_cases hji : j = i
      · subst hji; simp at hs'
      · simp only [hji, if_false] at hs'
        exact h.idle j c' hc' hs'
    · intro j x _
      by_cases hji : j = i
      · subst hji
        simp [N, hi]
      · simp [N, hji]
  | none =>
    rcases h.idle i c hc hi with ⟨hi0, hD, hR⟩ | ⟨-, -, hall⟩
    · have hcg : ∀ x, x ∈ c.constantGates ↔ x ∈ initial i c := by
        intro x; simp [initial, hi0]
      have hinit0 : initial i c = c.constantGates := by simp [initial, hi0]
      refine ⟨fun j => if j = i then
          some { Iter.newUninit c with nextLayer := (Iter.newUninit c).nextLayer ++ [g] } else it j,
        by simp only [pushTarget, hi, hc, Option.map_some, Option.bind_eq_bind,
        Option.bind_some, Option.pure_def], ⟨?_, ?_, ?_⟩, ?_⟩
      · intro j hj
        have := h.oob j hj
        have hne : j ≠ i := by rintro rfl; rw [hc] at hj; exact absurd hj (by simp)
        simpa [hne] using this
      · intro j c' s' hc' hs'
        by_cases hji : j = i
        · subst hji
          simp only [if_true, Option.some.injEq] at hs'
          rw [hc] at hc'; cases hc'
          subst hs'
          have base : Inv c [] [] (fun v => (c.parents v).length) c.constantGates := by
            apply inv_init
            · rw [← hinit0]; exact w.initNodup j c hc
            · intro x hx; exact w.initBound j c hc x ((hcg x).1 hx)
            · intro x hx; exact (w.initSource j c hc x ((hcg x).1 hx)).1
          refine ⟨?_, by simp [Iter.newUninit, hR], by simp [Iter.newUninit, hD, hR], ?_⟩
          · rw [hD, hR]
            refine inv_push c [] [] _ _ g base hg hp ?_
            simp only [List.nil_append]
            exact fun hm => hni ((hcg g).1 hm)
          · intro x hx
            rw [hinit0] at hx
            simp [Iter.newUninit, hx]
        · simp only [hji, if_false] at hs'
          exact h.act j c' s' hc' hs'
      · intro j c' hc' hs'
        by_cases hji : j = i
        · subst hji; simp at hs'
        · simp only [hji, if_false] at hs'
          exact h.idle j c' hc' hs'
      · intro j x hx
        by_cases hji : j = i
        · subst hji
          have hxc : x ∉ c.constantGates := by
            rw [hcg]
            intro hm
            exact hx ((w.initSource j c hc x hm).2)
          simp [N, hi, Iter.newUninit, hxc]
        · simp [N, hji]
    · exact absurd (List.mem_append_left _ (hall g hg)) hn

theorem pushAll_spec {m : Multi G} {rank : Node → Nat} (w : WF m rank) (D R : Nat → List Nat)
    (T : List Node) (hT : T.Nodup) (it : MIter) (h : Good m it D R)
    (hin : ∀ t ∈ T, m.incoming t ≠ [])
    (hn : ∀ t ∈ T, t.2 ∉ D t.1 ++ R t.1 ++ N it t.1) :
    ∃ it', T.foldlM (pushTarget m) it = some it' ∧ Good m it' D R ∧
      ∀ j x, m.incoming (j, x) ≠ [] → (x ∈ N it' j ↔ x ∈ N it j ∨ (j, x) ∈ T) := by
  induction T generalizing it with
  | nil => exact ⟨it, rfl, h, by simp⟩
  | cons t T ih =>
    obtain ⟨i, g⟩ := t
    have hin0 := hin (i, g) List.mem_cons_self
    obtain ⟨u, hu⟩ := List.exists_mem_of_ne_nil _ hin0
    obtain ⟨c, hc, hg⟩ := w.validTo u _ hu
    have hp := w.crossSource (i, g) c hin0 hc
    obtain ⟨it1, e1, g1, n1⟩ := pushTarget_spec w it D R h i g c hc hg hp hin0
      (hn (i, g) List.mem_cons_self)
    rw [List.nodup_cons] at hT
    obtain ⟨it2, e2, g2, n2⟩ := ih hT.2 it1 g1 (fun t ht => hin t (List.mem_cons_of_mem _ ht)) (by
      intro t ht hm
      have h0 := hn t (List.mem_cons_of_mem _ ht)
      have hne : t ≠ (i, g) := by rintro rfl; exact hT.1 ht
      have := n1 t.1 t.2 (hin t (List.mem_cons_of_mem _ ht))
      simp only [List.mem_append] at hm h0
      rw [this] at hm
      have hne' : (t.1, t.2) ≠ (i, g) := hne
      tauto)
    refine ⟨it2, ?_, g2, ?_⟩
    · simp [List.foldlM_cons, e1, e2]
    · intro j x hx
      rw [n2 j x hx, n1 j x hx, List.mem_cons]
      tauto

/-- What a round does to circuit `i`. -/
structure Step [GateLike G] (c : Base G) (D : List Nat) (s : Iter) (ni int : List Nat)
    (s' : Iter) : Prop where
  inv : Inv c (D ++ s.prev ++ ni) int s'.needed []
  prev : s'.prev = int
  next : s'.nextLayer = []
  produced : s'.produced = s.produced + (int.length + ni.length)
  added : Added c (D ++ s.prev) ni int
  takes : ∀ v ∈ s.nextLayer, v ∈ ni ++ int
  from_ : ∀ v ∈ ni ++ int, v ∈ s.nextLayer ∨ c.parents v ≠ []

/-- The layer of a round. -/
def mkLayer (ni int : Nat → List Nat) (is : List Nat) : MLayer :=
  is.filterMap fun i => if ni i = [] ∧ int i = [] then none else some (i, ⟨ni i, int i⟩)

theorem stepAll_spec [GateLike G] {m : Multi G} {rank : Node → Nat} (w : WF m rank)
    (D : Nat → List Nat) (is : List Nat) (his : is.Nodup) (it : MIter)
    (h : ∀ i ∈ is, ∀ s, it i = some s →
      ∃ c : Base G, m.circs[i]? = some c ∧ Inv c (D i) s.prev s.needed s.nextLayer) :
    ∃ (ni int : Nat → List Nat) (it' : MIter),
      stepAll m it is = some (mkLayer ni int is, it') ∧
      (∀ i, i ∉ is → it' i = it i ∧ ni i = [] ∧ int i = []) ∧
      (∀ i ∈ is, it i = none → it' i = none ∧ ni i = [] ∧ int i = []) ∧
      (∀ i ∈ is, ∀ s c, it i = some s → m.circs[i]? = some c →
        ∃ s', it' i = (if s'.isExhausted c then none else some s') ∧
          Step c (D i) s (ni i) (int i) s') := by
  induction is generalizing it with
  | nil => exact ⟨fun _ => [], fun _ => [], it, rfl, by simp, by simp, by simp⟩
  | cons i is ih =>
    rw [List.nodup_cons] at his
    cases hi : it i with
    | none =>
      obtain ⟨ni, int, it', e, h1, h2, h3⟩ := ih his.2 it
        (fun j hj s hs => h j (List.mem_cons_of_mem _ hj) s hs)
      have hii := h1 i his.1
      refine ⟨ni, int, it', ?_, ?_, ?_, ?_⟩
      · simp [stepAll, hi, e, mkLayer, hii.2]
      · intro j hj
        exact h1 j (fun hm => hj (List.mem_cons_of_mem _ hm))
      · intro j hj hjn
        rcases List.mem_cons.1 hj with rfl | hj'
        · exact ⟨hii.1.trans hi, hii.2⟩
        · exact h2 j hj' hjn
      · intro j hj s c hs hc
        rcases List.mem_cons.1 hj with rfl | hj'
        · rw [hi] at hs; exact absurd hs (by simp)
        · exact h3 j hj' s c hs hc
    | some s =>
      obtain ⟨c, hc, hinv⟩ := h i List.mem_cons_self s hi
      obtain ⟨ni0, int0, needed', e0, inv0, a0, t0, f0⟩ := next_spec c (w.edgesOk hc) (D i) s hinv
      let s' : Iter := ⟨needed', int0, [], s.produced + (int0.length + ni0.length)⟩
      let it1 : MIter := fun j => if j = i then (if s'.isExhausted c then none else some s') else it j
      obtain ⟨ni, int, it', e, h1, h2, h3⟩ := ih his.2 it1 (by
        intro j hj s1 hs1
        have hne : j ≠ i := by rintro rfl; exact his.1 hj
        simp only [it1, hne, if_false] at hs1
        exact h j (List.mem_cons_of_mem _ hj) s1 hs1)
      have hii := h1 i his.1
      refine ⟨fun j => if j = i then ni0 else ni j, fun j => if j = i then int0 else int j, it',
        ?_, ?_, ?_, ?_⟩
      · have hmk : mkLayer (fun j => if j = i then ni0 else ni j)
            (fun j => if j = i then int0 else int j) is = mkLayer ni int is := by
          apply List.filterMap_congr
          intro j hj
          have hne : j ≠ i := by rintro rfl; exact his.1 hj
          simp [hne]
        simp only [stepAll, hi, hc, e0, Option.bind_eq_bind, Option.bind_some]
        have e' : stepAll m (fun j => if j = i then (if Iter.isExhausted c
            ⟨needed', int0, [], s.produced + (int0.length + ni0.length)⟩ then none else
            some ⟨needed', int0, [], s.produced + (int0.length + ni0.length)⟩) else it j) is
            = some (mkLayer ni int is, it') := e
        rw [e']
        simp only [Option.bind_some, Option.pure_def, Option.some.injEq]
        by_cases he : ni0 = [] ∧ int0 = []
        · obtain ⟨rfl, rfl⟩ := he
          simp only [and_self, if_true]
          congr 1
          rw [← hmk]
          simp [mkLayer]
        · simp only [he, if_false]
          congr 1
          rw [← hmk]
          simp [mkLayer, he]
      · intro j hj
        have hne : j ≠ i := by rintro rfl; exact hj List.mem_cons_self
        have := h1 j (fun hm => hj (List.mem_cons_of_mem _ hm))
        simpa [hne, it1] using this
      · intro j hj hjn
        rcases List.mem_cons.1 hj with rfl | hj'
        · rw [hi] at hjn; exact absurd hjn (by simp)
        · have hne : j ≠ i := fun e => his.1 (e ▸ hj')
          have := h2 j hj' (by simpa [it1, hne] using hjn)
          simpa [hne] using this
      · intro j hj s1 c1 hs1 hc1
        rcases List.mem_cons.1 hj with rfl | hj'
        · rw [hi] at hs1; cases hs1
          rw [hc] at hc1; cases hc1
          refine ⟨s', ?_, ?_⟩
          · rw [hii.1]; simp [it1]
          · simp only [if_true]
            exact ⟨inv0, rfl, rfl, rfl, a0, t0, f0⟩
        · have hne : j ≠ i := fun e => his.1 (e ▸ hj')
          have := h3 j hj' s1 c1 (by simpa [it1, hne] using hs1) hc1
          simpa [hne] using this

end Verif.Circuit
