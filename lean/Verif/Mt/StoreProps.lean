import Verif.Mt.Store

/-!
C24: triple stores hand out each triple once.
-/
set_option autoImplicit false

namespace Verif.Mt
variable {α β : Type}

/-- C24, for both kinds of store and every sequence of calls: the calls run through exactly when
none asks for more than is stored (otherwise the program panics, it never answers short); every
piece has exactly the size asked for; the pieces handed out together with what remains are exactly
the triples put in, with multiplicity. -/
theorem store_history (k : Kind) (ops : List (Op α)) (s : MulTriples α) (hs : s.WF)
    (ho : OpsWF ops) :
    (Enough s.rows.length ops ↔ (run k s ops).isSome) ∧
    ∀ outs rest, run k s ops = some (outs, rest) →
      rest.WF ∧ outs.map (fun o => o.rows.length) = asked ops ∧
      (outs.flatMap MulTriples.rows ++ rest.rows).Perm (s.rows ++ putIn ops) := by
  induction ops generalizing s with
  | nil =>
    refine ⟨by simp [Enough, run], ?_⟩
    rintro outs rest h
    simp only [run, Option.some.injEq, Prod.mk.injEq] at h
    obtain ⟨rfl, rfl⟩ := h
    exact ⟨hs, by simp [asked], by simp [putIn]⟩
  | cons op ops ih =>
    have ho' : OpsWF ops := fun m hm => ho m (List.mem_cons_of_mem _ hm)
    have take : ∀ n, (∀ (s' r : MulTriples α), step k s op = some (s', [r]) → s'.WF → r.WF →
        r.rows.length = n → s'.rows.length = s.rows.length - n →
        (r.rows ++ s'.rows).Perm s.rows → putIn (op :: ops) = putIn ops →
        asked (op :: ops) = n :: asked ops →
        (Enough s.rows.length (op :: ops) ↔ n ≤ s.rows.length ∧ Enough (s.rows.length - n) ops) →
        n ≤ s.rows.length →
        (Enough s.rows.length (op :: ops) ↔ (run k s (op :: ops)).isSome) ∧
        ∀ outs rest, run k s (op :: ops) = some (outs, rest) →
          rest.WF ∧ outs.map (fun o => o.rows.length) = asked (op :: ops) ∧
          (outs.flatMap MulTriples.rows ++ rest.rows).Perm (s.rows ++ putIn (op :: ops))) := by
      intro n s' r h1 h2 h3 h4 h5 h6 hp ha he hn
      obtain ⟨i1, i2⟩ := ih s' h2 ho'
      rw [h5] at i1
      constructor
      · rw [he]
        simp only [hn, true_and, i1, run, h1, Option.bind_eq_bind, Option.bind_some]
        cases run k s' ops <;> simp
      · intro outs rest h
        simp only [run, h1, Option.bind_eq_bind, Option.bind_some] at h
        cases hr : run k s' ops with
        | none => simp [hr] at h
        | some p =>
          obtain ⟨os, r'⟩ := p
          simp only [hr, Option.bind_some, Option.pure_def, Option.some.injEq,
            Prod.mk.injEq] at h
          obtain ⟨rfl, rfl⟩ := h
          obtain ⟨j1, j2, j3⟩ := i2 os r' hr
          refine ⟨j1, by simp [ha, h4, j2], ?_⟩
          rw [hp]
          simp only [List.singleton_append, List.flatMap_cons, List.append_assoc]
          exact (j3.append_left r.rows).trans (by
            rw [← List.append_assoc]; exact h6.append_right _)
    have hl := rows_length hs
    cases op with
    | append m =>
      have hm : m.WF := ho m (by simp)
      obtain ⟨i1, i2⟩ := ih (s.append m) (append_wf hs hm) ho'
      rw [append_rows hs, List.length_append] at i1
      constructor
      · simp only [Enough, i1, run, step, Option.bind_eq_bind, Option.bind_some]
        cases run k (s.append m) ops <;> simp
      · intro outs rest h
        simp only [run, step, Option.bind_eq_bind, Option.bind_some] at h
        cases hr : run k (s.append m) ops with
        | none => simp [hr] at h
        | some p =>
          obtain ⟨os, r'⟩ := p
          simp only [hr, Option.bind_some, Option.pure_def, Option.some.injEq,
            Prod.mk.injEq, List.nil_append] at h
          obtain ⟨rfl, rfl⟩ := h
          obtain ⟨j1, j2, j3⟩ := i2 os r' hr
          refine ⟨j1, by simp [asked, j2], ?_⟩
          rw [append_rows hs] at j3
          simpa [putIn, List.append_assoc] using j3
    | splitOffLast n =>
      by_cases hn : n ≤ s.len
      · obtain ⟨s', r, h1, h2, h3, h4, h5, h6⟩ := removeFirst_split .boolean hs hn
        refine take n s' r ?_ h2 h3 h4 h5 h6 rfl rfl Iff.rfl (by omega)
        simp only [removeFirst] at h1
        simp [step, h1]
      · have : ¬ n ≤ s.rows.length := by omega
        constructor
        · simp [Enough, this, run, step, splitOffLast_none hn]
        · intro outs rest h; simp [run, step, splitOffLast_none hn] at h
    | removeFirst n =>
      by_cases hn : n ≤ s.len
      · obtain ⟨s', r, h1, h2, h3, h4, h5, h6⟩ := removeFirst_split k hs hn
        exact take n s' r (by simp [step, h1]) h2 h3 h4 h5 h6 rfl rfl Iff.rfl (by omega)
      · have : ¬ n ≤ s.rows.length := by omega
        constructor
        · simp [Enough, this, run, step, removeFirst_none k hn]
        · intro outs rest h; simp [run, step, removeFirst_none k hn] at h

theorem rel_len {R : α × α × α → β × β × β → Prop} {s : MulTriples α} {t : MulTriples β}
    (hs : s.WF) (ht : t.WF) (h : List.Forall₂ R s.rows t.rows) : s.len = t.len := by
  rw [← rows_length hs, ← rows_length ht]; exact h.length_eq

theorem removeFirst_rel (R : α × α × α → β × β × β → Prop) (k : Kind) {s : MulTriples α}
    {t : MulTriples β} (hs : s.WF) (ht : t.WF) (h : List.Forall₂ R s.rows t.rows) {n : Nat}
    (hn : n ≤ s.len) :
    ∃ s' r t' q, removeFirst k s n = some (s', r) ∧ removeFirst k t n = some (t', q) ∧
      s'.WF ∧ r.WF ∧ t'.WF ∧ q.WF ∧ List.Forall₂ R r.rows q.rows ∧
      List.Forall₂ R s'.rows t'.rows := by
  have hl := rel_len hs ht h
  obtain ⟨s', r, h1, h2, h3, h4, h5⟩ := removeFirst_rows k hs hn
  obtain ⟨t', q, g1, g2, g3, g4, g5⟩ := removeFirst_rows k ht (hl ▸ hn)
  refine ⟨s', r, t', q, h1, g1, h2, h3, g2, g3, ?_⟩
  cases k with
  | boolean =>
    obtain ⟨a1, a2⟩ := h4 rfl
    obtain ⟨b1, b2⟩ := g4 rfl
    rw [a1, a2, b1, b2, hl]
    exact ⟨List.forall₂_drop _ h, List.forall₂_take _ h⟩
  | arithmetic =>
    obtain ⟨a1, a2⟩ := h5 rfl
    obtain ⟨b1, b2⟩ := g5 rfl
    rw [a1, a2, b1, b2]
    exact ⟨List.forall₂_take _ h, List.forall₂_drop _ h⟩

/-- C24, two parties: performing the same calls on two stores whose triples are pairwise related
(`R` is any relation, for instance being a valid multiplication triple) panics on both sides or on
neither, and all pieces handed out and the two remaining stores are again pairwise related. -/
theorem store_pairwise (R : α × α × α → β × β × β → Prop) (k : Kind)
    {ops : List (Op α)} {ops' : List (Op β)} (h : List.Forall₂ (SameOp R) ops ops')
    (s : MulTriples α) (t : MulTriples β) (hs : s.WF) (ht : t.WF)
    (hst : List.Forall₂ R s.rows t.rows) :
    (run k s ops = none ∧ run k t ops' = none) ∨
    ∃ outs rest outs' rest', run k s ops = some (outs, rest) ∧ run k t ops' = some (outs', rest') ∧
      List.Forall₂ (fun x y => List.Forall₂ R x.rows y.rows) outs outs' ∧
      List.Forall₂ R rest.rows rest'.rows := by
  induction h generalizing s t with
  | nil => exact .inr ⟨[], s, [], t, rfl, rfl, .nil, hst⟩
  | @cons op op' ops ops' h1 _ ih =>
    have take : ∀ n, (removeFirst k s n = none ∧ removeFirst k t n = none) ∨
        ∃ s' r t' q, removeFirst k s n = some (s', r) ∧ removeFirst k t n = some (t', q) ∧
          s'.WF ∧ r.WF ∧ t'.WF ∧ q.WF ∧ List.Forall₂ R r.rows q.rows ∧
          List.Forall₂ R s'.rows t'.rows := by
      intro n
      by_cases hn : n ≤ s.len
      · exact .inr (removeFirst_rel R k hs ht hst hn)
      · exact .inl ⟨removeFirst_none k hn, removeFirst_none k (rel_len hs ht hst ▸ hn)⟩
    have takeL : ∀ n, (s.splitOffLast n = none ∧ t.splitOffLast n = none) ∨
        ∃ s' r t' q, s.splitOffLast n = some (s', r) ∧ t.splitOffLast n = some (t', q) ∧
          s'.WF ∧ r.WF ∧ t'.WF ∧ q.WF ∧ List.Forall₂ R r.rows q.rows ∧
          List.Forall₂ R s'.rows t'.rows := by
      intro n
      by_cases hn : n ≤ s.len
      · exact .inr (removeFirst_rel R .boolean hs ht hst hn)
      · exact .inl ⟨splitOffLast_none hn, splitOffLast_none (rel_len hs ht hst ▸ hn)⟩
    cases h1 with
    | append hm hm' hmm =>
      rename_i m m'
      rcases ih (s.append m) (t.append m') (append_wf hs hm) (append_wf ht hm')
        (by rw [append_rows hs, append_rows ht]; exact List.rel_append hst hmm) with
        ⟨e1, e2⟩ | ⟨o, r, o', r', e1, e2, e3, e4⟩
      · exact .inl ⟨by simp [run, step, e1], by simp [run, step, e2]⟩
      · exact .inr ⟨o, r, o', r', by simp [run, step, e1], by simp [run, step, e2], e3, e4⟩
    | splitOffLast n =>
      rcases takeL n with ⟨e1, e2⟩ | ⟨s', r, t', q, e1, e2, w1, w2, w3, w4, e3, e4⟩
      · exact .inl ⟨by simp [run, step, e1], by simp [run, step, e2]⟩
      · rcases ih s' t' w1 w3 e4 with ⟨f1, f2⟩ | ⟨o, r1, o', r1', f1, f2, f3, f4⟩
        · exact .inl ⟨by simp [run, step, e1, f1], by simp [run, step, e2, f2]⟩
        · exact .inr ⟨r :: o, r1, q :: o', r1', by simp [run, step, e1, f1],
            by simp [run, step, e2, f2], .cons e3 f3, f4⟩
    | removeFirst n =>
      rcases take n with ⟨e1, e2⟩ | ⟨s', r, t', q, e1, e2, w1, w2, w3, w4, e3, e4⟩
      · exact .inl ⟨by simp [run, step, e1], by simp [run, step, e2]⟩
      · rcases ih s' t' w1 w3 e4 with ⟨f1, f2⟩ | ⟨o, r1, o', r1', f1, f2, f3, f4⟩
        · exact .inl ⟨by simp [run, step, e1, f1], by simp [run, step, e2, f2]⟩
        · exact .inr ⟨r :: o, r1, q :: o', r1', by simp [run, step, e1, f1],
            by simp [run, step, e2, f2], .cons e3 f3, f4⟩

/-- A history with an append, both ways of taking, and something left. -/
example : run .boolean ⟨[1, 2, 3], [4, 5, 6], [7, 8, 9]⟩
    [.splitOffLast 1, .append ⟨[10], [11], [12]⟩, .removeFirst 2] =
    some ([⟨[3], [6], [9]⟩, ⟨[2, 10], [5, 11], [8, 12]⟩], ⟨[1], [4], [7]⟩) := by decide

example : run .arithmetic ⟨[1, 2, 3], [4, 5, 6], [7, 8, 9]⟩
    [.splitOffLast 1, .append ⟨[10], [11], [12]⟩, .removeFirst 2] =
    some ([⟨[3], [6], [9]⟩, ⟨[1, 2], [4, 5], [7, 8]⟩], ⟨[10], [11], [12]⟩) := by decide

/-- Asking for too much is a panic. -/
example : run .arithmetic ⟨[1, 2], [4, 5], [7, 8]⟩ [.removeFirst 3] = none := by decide

end Verif.Mt
