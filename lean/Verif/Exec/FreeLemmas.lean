import Verif.Exec.Model
import Verif.Circuit.CollectLemmas

/-!
The freeing counters never underflow and a gate is freed only after its last consumer inside its
circuit.
-/
set_option autoImplicit false

namespace Verif.Exec

open Circuit

variable {G : Type} [GateLike G]

theorem inParents_sub (m : Multi G) (v u : Node) (h : u ∈ inParents m v) : u ∈ m.parents v := by
  unfold inParents at h
  unfold Multi.parents
  exact List.mem_append_left _ h

theorem inParents_fst (m : Multi G) (v u : Node) (h : u ∈ inParents m v) : u.1 = v.1 := by
  unfold inParents at h
  cases hc : m.circs[v.1]? with
  | none => rw [hc] at h; simp at h
  | some c => rw [hc] at h; obtain ⟨x, -, rfl⟩ := List.mem_map.1 h; rfl

theorem inChildren_fst (m : Multi G) (v u : Node) (h : u ∈ inChildren m v) : u.1 = v.1 := by
  unfold inChildren at h
  cases hc : m.circs[v.1]? with
  | none => rw [hc] at h; simp at h
  | some c => rw [hc] at h; obtain ⟨x, -, rfl⟩ := List.mem_map.1 h; rfl

theorem mem_inChildren (m : Multi G) (u v : Node) : v ∈ inChildren m u ↔ u ∈ inParents m v := by
  by_cases h : u.1 = v.1
  · unfold inChildren inParents
    rw [h]
    cases m.circs[v.1]? with
    | none => simp
    | some c =>
      simp only [List.mem_map]
      constructor
      · rintro ⟨x, hx, e⟩
        refine ⟨u.2, ?_, Prod.ext h.symm rfl⟩
        rw [mem_parents]
        rw [mem_children] at hx
        rw [← e]; exact hx
      · rintro ⟨x, hx, e⟩
        refine ⟨v.2, ?_, rfl⟩
        rw [mem_children]
        rw [mem_parents] at hx
        rw [← e]; exact hx
  · constructor
    · intro h'; exact absurd (inChildren_fst m u v h').symm h
    · intro h'; exact absurd (inParents_fst m v u h') h

theorem count_in (m : Multi G) (u v : Node) :
    (inChildren m u).count v = (inParents m v).count u := by
  by_cases h : u.1 = v.1
  · unfold inChildren inParents
    obtain ⟨i, g⟩ := u
    obtain ⟨j, x⟩ := v
    simp only at h
    subst h
    cases m.circs[i]? with
    | none => simp
    | some c =>
      simp only
      have inj : Function.Injective (fun y : Nat => ((i, y) : Node)) := fun a b e => by simpa using e
      rw [List.count_map_of_injective _ _ inj x, List.count_map_of_injective _ _ inj g]
      rw [count_children]
      unfold Base.parents
      rw [List.count, List.countP_map, List.countP_filter, List.countP_reverse,
        List.countP_eq_length_filter]
      congr 1
      apply List.filter_congr
      intro e _
      simp [Function.comp, beq_eq_decide]
  · rw [List.count_eq_zero.2, List.count_eq_zero.2]
    · exact fun h' => h (inParents_fst m v u h')
    · exact fun h' => h (inChildren_fst m u v h').symm

/-- Consumers inside the circuit that are still to come. -/
def pending (m : Multi G) (done : List Node) (u : Node) : Nat :=
  ((inChildren m u).filter fun w => w ∉ done).length

theorem pending_cons (m : Multi G) (done : List Node) (u v : Node) (hv : v ∉ done) :
    pending m done u = pending m (done ++ [v]) u + (inParents m v).count u := by
  rw [← count_in, pending, pending]
  induction inChildren m u with
  | nil => simp
  | cons w ws ih =>
    by_cases hw : w = v
    · subst hw
      simp only [List.filter_cons, hv, not_false_eq_true, decide_true, if_true, List.length_cons,
        show w ∈ done ++ [w] from by simp, not_true_eq_false, decide_false,
        Bool.false_eq_true, if_false, List.count_cons_self]
      omega
    · have : (w ∈ done ++ [v]) ↔ w ∈ done := by simp [hw]
      simp only [List.filter_cons, this, List.count_cons_of_ne hw]
      by_cases hd : w ∈ done
      · simp only [hd, not_true_eq_false, decide_false, Bool.false_eq_true, if_false]; omega
      · simp only [hd, not_false_eq_true, decide_true, if_true, List.length_cons]; omega

theorem pending_eq_zero (m : Multi G) (done : List Node) (u : Node) :
    pending m done u = 0 ↔ ∀ w ∈ inChildren m u, w ∈ done := by
  simp [pending, List.filter_eq_nil_iff]

/-- The counters are right after the gates `done`. -/
def LeftOk (m : Multi G) (done : List Node) (left : Left) : Prop :=
  ∀ u, isSimd m u.1 = true → left u = if u ∈ done then some (pending m done u) else none

/-- The gates listed have no consumers left inside their circuit. -/
def FreeOk (m : Multi G) (done fs : List Node) : Prop :=
  ∀ u ∈ fs, isSimd m u.1 = true ∧ u ∈ done ∧ inChildren m u ≠ [] ∧ ∀ w ∈ inChildren m u, w ∈ done

theorem leftDec_spec (ps : List Node) (left : Left) (fs : List Node)
    (h : ∀ p ∈ ps, ∃ k, left p = some k ∧ ps.count p ≤ k) :
    ∃ left' fs', leftDec left fs ps = some (left', fs') ∧
      (∀ u, left' u = (left u).map (· - ps.count u)) ∧
      ∀ u ∈ fs', u ∈ fs ∨ (u ∈ ps ∧ left' u = some 0) := by
  induction ps generalizing left fs with
  | nil => exact ⟨left, fs, rfl, by simp, by simp⟩
  | cons p ps ih =>
    obtain ⟨k, hk, hle⟩ := h p List.mem_cons_self
    rw [List.count_cons_self] at hle
    obtain ⟨k, rfl⟩ : ∃ k', k = k' + 1 := ⟨k - 1, by omega⟩
    obtain ⟨left', fs', e, h1, h2⟩ := ih (fun u => if u = p then some k else left u)
      (if k = 0 then fs ++ [p] else fs) (by
        intro q hq
        by_cases hqp : q = p
        · subst hqp; exact ⟨k, by simp, by omega⟩
        · obtain ⟨j, hj, hj'⟩ := h q (List.mem_cons_of_mem _ hq)
          refine ⟨j, by simp [hqp, hj], ?_⟩
          rwa [List.count_cons_of_ne (Ne.symm hqp)] at hj')
    refine ⟨left', fs', ?_, ?_, ?_⟩
    · simp only [leftDec, hk]; exact e
    · intro u
      rw [h1 u]
      by_cases hup : u = p
      · subst hup; simp [hk, List.count_cons_self]
      · simp [hup, List.count_cons_of_ne (Ne.symm hup)]
    · intro u hu
      rcases h2 u hu with h' | ⟨h', h0⟩
      · by_cases hk0 : k = 0
        · simp only [hk0, if_true, List.mem_append, List.mem_singleton] at h'
          rcases h' with h' | rfl
          · exact Or.inl h'
          · refine Or.inr ⟨List.mem_cons_self, ?_⟩
            rw [h1]; simp [hk0]
        · simp only [hk0, if_false] at h'; exact Or.inl h'
      · exact Or.inr ⟨List.mem_cons_of_mem _ h', h0⟩

theorem isSimd_inParents (m : Multi G) {u v : Node} (h : u ∈ inParents m v) :
    isSimd m u.1 = isSimd m v.1 := by rw [inParents_fst m v u h]

theorem freeOk_mono {m : Multi G} {done done' fs : List Node} (h : FreeOk m done fs)
    (hs : ∀ u ∈ done, u ∈ done') : FreeOk m done' fs := fun u hu =>
  ⟨(h u hu).1, hs _ (h u hu).2.1, (h u hu).2.2.1, fun w hw => hs w ((h u hu).2.2.2 w hw)⟩

/-- Decrementing for a gate `v` that comes after its operands. -/
theorem dec_step {m : Multi G} {done : List Node} {left : Left} {fs : List Node} (v : Node)
    (hs : isSimd m v.1 = true) (hv : v ∉ done)
    (hl : ∀ u, isSimd m u.1 = true → u ≠ v → left u = if u ∈ done then some (pending m done u) else none)
    (hf : FreeOk m done fs) (hp : ∀ u ∈ inParents m v, u ∈ done) :
    ∃ left' fs', leftDec left fs (inParents m v) = some (left', fs') ∧
      (∀ u, isSimd m u.1 = true → u ≠ v →
        left' u = if u ∈ done then some (pending m (done ++ [v]) u) else none) ∧
      left' v = left v ∧ FreeOk m (done ++ [v]) fs' := by
  have hvp : v ∉ inParents m v := fun h => hv (hp v h)
  obtain ⟨left', fs', e, h1, h2⟩ := leftDec_spec (inParents m v) left fs (by
    intro p hpv
    have hpd := hp p hpv
    have hne : p ≠ v := by rintro rfl; exact hv hpd
    refine ⟨_, by rw [hl p (by rw [isSimd_inParents m hpv]; exact hs) hne, if_pos hpd], ?_⟩
    have := pending_cons m done p v hv
    omega)
  have h1' : ∀ u, isSimd m u.1 = true → u ≠ v →
        left' u = if u ∈ done then some (pending m (done ++ [v]) u) else none := by
    intro u hu hne
    rw [h1, hl u hu hne]
    by_cases hd : u ∈ done
    · simp only [hd, if_true, Option.map_some, Option.some.injEq]
      have := pending_cons m done u v hv
      omega
    · simp [hd]
  refine ⟨left', fs', e, h1', ?_, ?_⟩
  · rw [h1, List.count_eq_zero.2 hvp]; simp
  · intro u hu
    rcases h2 u hu with h' | ⟨h', h0⟩
    · exact freeOk_mono hf (fun _ h => List.mem_append_left _ h) u h'
    · have hud := hp u h'
      have hne : u ≠ v := by rintro rfl; exact hv hud
      have husim : isSimd m u.1 = true := by rw [isSimd_inParents m h']; exact hs
      have := h1' u husim hne
      rw [if_pos hud, h0, Option.some.injEq] at this
      refine ⟨husim, List.mem_append_left _ hud, ?_, (pending_eq_zero m _ u).1 this.symm⟩
      exact List.ne_nil_of_mem ((mem_inChildren m u v).2 h')

/-- No consumer of `v` precedes it. -/
def Closed (m : Multi G) (done : List Node) : Prop := ∀ w ∈ done, ∀ u ∈ inParents m w, u ∈ done

theorem pending_fresh {m : Multi G} {done : List Node} (hc : Closed m done) {v : Node}
    (hv : v ∉ done) (hvv : v ∉ inParents m v) :
    pending m (done ++ [v]) v = (inChildren m v).length := by
  unfold pending
  rw [List.filter_eq_self.2]
  intro w hw
  have hw' := (mem_inChildren m v w).1 hw
  have h1 : w ∉ done := fun hd => hv (hc w hd v hw')
  have h2 : w ≠ v := by rintro rfl; exact hvv hw'
  simp [h1, h2]

/-- Skipping a gate of a scalar circuit. -/
theorem leftOk_skip {m : Multi G} {done : List Node} {left : Left} (h : LeftOk m done left)
    (v : Node) (hs : isSimd m v.1 = false) : LeftOk m (done ++ [v]) left := by
  intro u hu
  have hne : u ≠ v := by rintro rfl; rw [hu] at hs; simp at hs
  rw [h u hu]
  have : (u ∈ done ++ [v]) ↔ u ∈ done := by simp [hne]
  simp only [this]
  split
  · congr 1
    unfold pending
    congr 1
    apply List.filter_congr
    intro w hw
    have hw' := inChildren_fst m u w hw
    have : w ≠ v := by rintro rfl; rw [hw', hu] at hs; simp at hs
    simp [this]
  · rfl

theorem leftNi_spec {m : Multi G} (vs : List Node) (done : List Node) (left : Left) (fs : List Node)
    (hn : (done ++ vs).Nodup) (hl : LeftOk m done left) (hf : FreeOk m done fs)
    (hc : Closed m done)
    (ho : ∀ a v b, vs = a ++ v :: b → ∀ u ∈ inParents m v, u ∈ done ++ a) :
    ∃ left' fs', leftNi m left fs (vs.filter fun v => isSimd m v.1) = some (left', fs') ∧
      LeftOk m (done ++ vs) left' ∧ FreeOk m (done ++ vs) fs' ∧ Closed m (done ++ vs) := by
  induction vs generalizing done left fs with
  | nil => exact ⟨left, fs, rfl, by simpa using hl, by simpa using hf, by simpa using hc⟩
  | cons v vs ih =>
    have hvd : v ∉ done := by
      intro h
      exact (List.disjoint_of_nodup_append hn) h List.mem_cons_self
    have hp : ∀ u ∈ inParents m v, u ∈ done := by
      intro u hu; simpa using ho [] v vs rfl u hu
    have hvv : v ∉ inParents m v := fun h => hvd (hp v h)
    have hassoc : done ++ v :: vs = done ++ [v] ++ vs := by simp
    have hc' : Closed m (done ++ [v]) := by
      intro w hw u hu
      rcases List.mem_append.1 hw with hw | hw
      · exact List.mem_append_left _ (hc w hw u hu)
      · simp only [List.mem_singleton] at hw; subst hw
        exact List.mem_append_left _ (hp u hu)
    have ho' : ∀ a w b, vs = a ++ w :: b → ∀ u ∈ inParents m w, u ∈ done ++ [v] ++ a := by
      intro a w b e u hu
      have := ho (v :: a) w b (by simp [e]) u hu
      simpa using this
    rw [hassoc] at hn ⊢
    by_cases hs : isSimd m v.1 = true
    · have hleft : leftInsert m left v = fun u => if u = v then some (inChildren m v).length else left u := by
        have : left v = none := by rw [hl v hs, if_neg hvd]
        simp [leftInsert, this]
      obtain ⟨l1, f1, e1, g1, g2, g3⟩ := dec_step (left := leftInsert m left v) (fs := fs) v hs hvd (by
        intro u hu hne
        rw [hleft]; simp only [hne, if_false]; exact hl u hu) hf hp
      have hl1 : LeftOk m (done ++ [v]) l1 := by
        intro u hu
        by_cases hne : u = v
        · subst hne
          rw [g2, hleft, if_pos (List.mem_append_right _ List.mem_cons_self), pending_fresh hc hvd hvv]
          simp
        · rw [g1 u hu hne]
          simp [hne]
      obtain ⟨l2, f2, e2, r1, r2, r3⟩ := ih (done ++ [v]) l1 f1 hn hl1 g3 hc' ho'
      refine ⟨l2, f2, ?_, r1, r2, r3⟩
      simp only [List.filter_cons, hs, if_true, leftNi, e1, Option.bind_eq_bind, Option.bind_some]
      exact e2
    · have hs' : isSimd m v.1 = false := by simpa using hs
      obtain ⟨l2, f2, e2, r1, r2, r3⟩ := ih (done ++ [v]) left fs hn (leftOk_skip hl v hs')
        (freeOk_mono hf fun _ h => List.mem_append_left _ h) hc' ho'
      refine ⟨l2, f2, ?_, r1, r2, r3⟩
      simpa [List.filter_cons, hs'] using e2

/-- During the interactive gates of a layer the gates themselves have no entries yet. -/
def LeftInt (m : Multi G) (done vs : List Node) (left : Left) : Prop :=
  ∀ u, isSimd m u.1 = true → left u = if u ∈ done then some (pending m (done ++ vs) u) else none

theorem leftInt_spec {m : Multi G} (ws : List Node) (done vs : List Node) (left : Left)
    (fs : List Node) (hn : (done ++ vs ++ ws).Nodup) (hl : LeftInt m done vs left)
    (hf : FreeOk m (done ++ vs) fs) (hs : ∀ v ∈ ws, isSimd m v.1 = true)
    (ho : ∀ v ∈ ws, ∀ u ∈ inParents m v, u ∈ done) :
    ∃ left' fs', leftInt m left fs ws = some (left', fs') ∧
      LeftInt m done (vs ++ ws) left' ∧ FreeOk m (done ++ vs ++ ws) fs' := by
  induction ws generalizing vs left fs with
  | nil => exact ⟨left, fs, rfl, by simpa using hl, by simpa using hf⟩
  | cons v ws ih =>
    have hvd : v ∉ done ++ vs := by
      intro h
      exact (List.disjoint_of_nodup_append hn) h List.mem_cons_self
    have hp : ∀ u ∈ inParents m v, u ∈ done := ho v List.mem_cons_self
    have hvs := hs v List.mem_cons_self
    obtain ⟨l1, f1, e1, g1, g2⟩ := leftDec_spec (inParents m v) left fs (by
      intro p hpv
      refine ⟨_, by rw [hl p (by rw [isSimd_inParents m hpv]; exact hvs), if_pos (hp p hpv)], ?_⟩
      have := pending_cons m (done ++ vs) p v hvd
      omega)
    have hassoc : done ++ vs ++ v :: ws = done ++ (vs ++ [v]) ++ ws := by simp
    have hl1 : LeftInt m done (vs ++ [v]) l1 := by
      intro u hu
      rw [g1, hl u hu]
      by_cases hd : u ∈ done
      · simp only [hd, if_true, Option.map_some, Option.some.injEq]
        have := pending_cons m (done ++ vs) u v hvd
        rw [← List.append_assoc]
        omega
      · simp [hd]
    have hf1 : FreeOk m (done ++ (vs ++ [v])) f1 := by
      intro u hu
      rcases g2 u hu with h' | ⟨h', h0⟩
      · exact freeOk_mono hf (fun x h => by rw [← List.append_assoc]; exact List.mem_append_left _ h) u h'
      · have husim : isSimd m u.1 = true := by rw [isSimd_inParents m h']; exact hvs
        have := hl1 u husim
        rw [if_pos (hp u h'), h0, Option.some.injEq] at this
        exact ⟨husim, List.mem_append_left _ (hp u h'),
          List.ne_nil_of_mem ((mem_inChildren m u v).2 h'), (pending_eq_zero m _ u).1 this.symm⟩
    rw [hassoc] at hn ⊢
    obtain ⟨l2, f2, e2, r1, r2⟩ := ih (vs ++ [v]) l1 f1 hn hl1 hf1
      (fun v h => hs v (List.mem_cons_of_mem _ h)) (fun v h => ho v (List.mem_cons_of_mem _ h))
    refine ⟨l2, f2, ?_, by simpa using r1, r2⟩
    simp only [leftInt, e1, Option.bind_eq_bind, Option.bind_some]
    exact e2

theorem foldl_leftInsert {m : Multi G} (ws : List Node) (left : Left)
    (hn : ws.Nodup) (hnone : ∀ v ∈ ws, left v = none) (u : Node) :
    ws.foldl (leftInsert m) left u = if u ∈ ws then some (inChildren m u).length else left u := by
  induction ws generalizing left with
  | nil => simp
  | cons v ws ih =>
    rw [List.nodup_cons] at hn
    have h1 : leftInsert m left v = fun u => if u = v then some (inChildren m v).length else left u := by
      simp [leftInsert, hnone v List.mem_cons_self]
    rw [List.foldl_cons, ih _ hn.2 (by
      intro w hw
      have : w ≠ v := by rintro rfl; exact hn.1 hw
      rw [h1]; simp [this, hnone w (List.mem_cons_of_mem _ hw)]), h1]
    by_cases huv : u = v
    · subst huv; simp [hn.1]
    · simp [huv]

theorem intSimd_eq (m : Multi G) (l : MLayer) :
    intSimd m l = (intNodes l).filter fun v => isSimd m v.1 := by
  unfold intSimd intNodes
  induction l with
  | nil => rfl
  | cons p l ih =>
    by_cases h : isSimd m p.1 = true
    · simp only [List.filter_cons, h, if_true, List.flatMap_cons, List.filter_append, ih]
      congr 1
      symm
      rw [List.filter_eq_self]
      intro v hv
      obtain ⟨x, -, rfl⟩ := List.mem_map.1 hv
      exact h
    · simp only [List.filter_cons, h, if_false, List.flatMap_cons, List.filter_append, ih,
        Bool.false_eq_true]
      symm
      rw [List.append_left_eq_self, List.filter_eq_nil_iff]
      intro v hv
      obtain ⟨x, -, rfl⟩ := List.mem_map.1 hv
      exact h

theorem intScalar_eq (m : Multi G) (l : MLayer) :
    intScalar m l = (intNodes l).filter fun v => !isSimd m v.1 := by
  unfold intScalar intNodes
  induction l with
  | nil => rfl
  | cons p l ih =>
    by_cases h : isSimd m p.1 = true
    · simp only [List.filter_cons, h, Bool.not_true, Bool.false_eq_true, if_false,
        List.flatMap_cons, List.filter_append, ih]
      symm
      rw [List.append_left_eq_self, List.filter_eq_nil_iff]
      intro v hv
      obtain ⟨x, -, rfl⟩ := List.mem_map.1 hv
      simp [h]
    · have h' : isSimd m p.1 = false := by simpa using h
      simp only [List.filter_cons, h', Bool.not_false, if_true, List.flatMap_cons,
        List.filter_append, ih]
      congr 1
      symm
      rw [List.filter_eq_self]
      intro v hv
      obtain ⟨x, -, rfl⟩ := List.mem_map.1 hv
      simp [h']

/-- What the freeable lists satisfy: in each layer only gates all of whose consumers inside the
circuit have been visited. -/
def FreeLayers (m : Multi G) : List Node → List (MLayer × List Node) → Prop
  | _, [] => True
  | done, (l, fs) :: ls =>
    FreeOk m (done ++ niNodes l ++ intNodes l) fs ∧
    FreeLayers m (done ++ niNodes l ++ intNodes l) ls

theorem pending_congr (m : Multi G) (a b : List Node) (u : Node)
    (h : ∀ w ∈ inChildren m u, w ∈ a ↔ w ∈ b) : pending m a u = pending m b u := by
  unfold pending
  congr 1
  apply List.filter_congr
  intro w hw
  simp [h w hw]

theorem freeable_spec {m : Multi G} (ls : List MLayer) (done : List Node) (left : Left)
    (hn : (done ++ ls.flatMap layerNodes).Nodup) (hl : LeftOk m done left) (hc : Closed m done)
    (ht : TopoFrom m.parents done (ls.map fun l => (niNodes l, intNodes l))) :
    ∃ fs, freeable m left ls = some fs ∧ fs.map (·.1) = ls ∧ FreeLayers m done fs := by
  induction ls generalizing done left with
  | nil => exact ⟨[], rfl, rfl, trivial⟩
  | cons l ls ih =>
    obtain ⟨t1, t2, t3⟩ := ht
    have e0 : done ++ (l :: ls).flatMap layerNodes =
        done ++ niNodes l ++ intNodes l ++ ls.flatMap layerNodes := by simp [layerNodes]
    rw [e0] at hn
    have hn1 : (done ++ niNodes l ++ intNodes l).Nodup := hn.of_append_left
    obtain ⟨l1, f1, e1, a1, a2, a3⟩ := leftNi_spec (niNodes l) done left [] hn1.of_append_left hl
      (by intro u hu; simp at hu) hc
      (fun a v b e u hu => t1 a v b e u (inParents_sub m v u hu))
    have hint := intSimd_eq m l
    have hsub : ∀ v ∈ intSimd m l, v ∈ intNodes l ∧ isSimd m v.1 = true := by
      intro v hv; rw [hint, List.mem_filter] at hv; exact hv
    have hnd2 : (intSimd m l).Nodup := by
      rw [hint]; exact List.Nodup.filter _ hn1.of_append_right
    have hdisj : ∀ v ∈ intNodes l, v ∉ done ++ niNodes l := fun v hv h =>
      (List.disjoint_of_nodup_append hn1) h hv
    obtain ⟨l2, f2, e2, b1, b2⟩ := leftInt_spec (intSimd m l) (done ++ niNodes l) [] l1 f1 (by
        rw [List.append_nil, List.nodup_append]
        refine ⟨hn1.of_append_left, hnd2, ?_⟩
        intro a ha b hb hab
        subst hab
        exact hdisj a (hsub a hb).1 ha) (by
        intro u hu; rw [List.append_nil]; exact a1 u hu) (by rw [List.append_nil]; exact a2)
      (fun v hv => (hsub v hv).2)
      (fun v hv u hu => t2 v (hsub v hv).1 u (inParents_sub m v u hu))
    rw [List.nil_append] at b1
    have hchild : ∀ u, isSimd m u.1 = true → ∀ w ∈ inChildren m u,
        (w ∈ done ++ niNodes l ++ intSimd m l ↔ w ∈ done ++ niNodes l ++ intNodes l) := by
      intro u hu w hw
      have : isSimd m w.1 = true := by rw [inChildren_fst m u w hw]; exact hu
      rw [hint]
      simp [List.mem_append, List.mem_filter, this]
    have hl3 : LeftOk m (done ++ niNodes l ++ intNodes l) ((intSimd m l).foldl (leftInsert m) l2) := by
      intro u hu
      rw [foldl_leftInsert _ _ hnd2 (by
        intro v hv
        rw [b1 v (hsub v hv).2, if_neg (hdisj v (hsub v hv).1)])]
      have hui : u ∈ intSimd m l ↔ u ∈ intNodes l := by rw [hint]; simp [List.mem_filter, hu]
      by_cases hin : u ∈ intNodes l
      · rw [if_pos (hui.2 hin), if_pos (List.mem_append_right _ hin)]
        congr 1
        symm
        unfold pending
        rw [List.filter_eq_self.2]
        intro w hw
        have hw' := (mem_inChildren m u w).1 hw
        have : w ∉ done ++ niNodes l ++ intNodes l := by
          intro hm
          rcases List.mem_append.1 hm with hm | hm
          · exact hdisj u hin (a3 w hm u hw')
          · exact hdisj u hin (t2 w hm u (inParents_sub m w u hw'))
        simpa using this
      · rw [if_neg (fun h => hin (hui.1 h)), b1 u hu]
        have : (u ∈ done ++ niNodes l ++ intNodes l) ↔ u ∈ done ++ niNodes l := by
          simp [List.mem_append, hin]
        simp only [this]
        split
        · congr 1
          exact pending_congr m _ _ u (hchild u hu)
        · rfl
    have hc3 : Closed m (done ++ niNodes l ++ intNodes l) := by
      intro w hw u hu
      rcases List.mem_append.1 hw with hw | hw
      · exact List.mem_append_left _ (a3 w hw u hu)
      · exact List.mem_append_left _ (t2 w hw u (inParents_sub m w u hu))
    obtain ⟨fs, e3, c1, c2⟩ := ih _ _ hn hl3 hc3 t3
    refine ⟨(l, f2) :: fs, ?_, by simp [c1], ?_, c2⟩
    · have e1' : leftNi m left [] ((niOf l).filter fun v => isSimd m v.1) = some (l1, f1) := e1
      simp [freeable, e1', e2, e3]
    · intro u hu
      have hb := b2 u hu
      rw [List.append_nil] at hb
      refine ⟨hb.1, ?_, hb.2.2.1, fun w hw => (hchild u hb.1 w hw).1 (hb.2.2.2 w hw)⟩
      have := hb.2.1
      rw [hint] at this
      simp only [List.mem_append, List.mem_filter] at this ⊢
      tauto

end Verif.Exec
