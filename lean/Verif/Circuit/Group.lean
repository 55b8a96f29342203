import Verif.Circuit.RangeProps

/-!
C16: grouping gates into consecutive ranges (builder.rs `group_gates_iter`).
-/
set_option autoImplicit false

namespace Verif.Circuit

/-! ### Model -/

/-- builder.rs:75-80 `successor`. -/
def successor (g : Node) : Node := (g.1, g.2 + 1)

/-- builder.rs:392-425 the key function of `group_by`, with `curr_range_start` as state: each gate
is paired with its successor in the list, the last one with nothing; `mem::replace` returns the old
start. -/
def groupKeys : Node → List Node → List (Node × Node)
  | _, [] => []
  | s, [g] => [(s, g)]
  | s, g :: n :: r =>
    if successor g = n then (s, g) :: groupKeys s (n :: r) else (s, g) :: groupKeys n (n :: r)

/-- itertools `group_by`: adjacent elements with equal keys form a group. -/
def groupAdj : List (Node × Node) → List (Node × List Node)
  | [] => []
  | (k, g) :: r =>
    match groupAdj r with
    | (k', gs) :: rest => if k = k' then (k, g :: gs) :: rest else (k, [g]) :: (k', gs) :: rest
    | [] => [(k, [g])]

/-- builder.rs:392-425 `group_gates_iter`. -/
def groupGates (gs : List Node) : Option (List (Node × List Node)) :=
  match gs with
  | [] => none
  | g :: _ => some (groupAdj (groupKeys g gs))

/-! ### Specification -/

/-- The gates of a range. -/
def GRange.members (r : GRange) : List Node := (List.range' r.lo (r.hi + 1 - r.lo)).map fun k => (r.circ, k)

def GRange.first (r : GRange) : Node := (r.circ, r.lo)

/-- `rs` splits `gs` into maximal runs of consecutive gates. -/
structure IsRuns (rs : List GRange) (gs : List Node) : Prop where
  le : ∀ r ∈ rs, r.lo ≤ r.hi
  flat : rs.flatMap GRange.members = gs
  maximal : rs.IsChain fun a b => ¬ (b.circ = a.circ ∧ b.lo = a.hi + 1)

/-- The maximal runs of a list. -/
def runs : List Node → List GRange
  | [] => []
  | g :: r =>
    match runs r with
    | s :: rest =>
      if s.circ = g.1 ∧ s.lo = g.2 + 1 then ⟨g.1, g.2, s.hi⟩ :: rest else ⟨g.1, g.2, g.2⟩ :: s :: rest
    | [] => [⟨g.1, g.2, g.2⟩]

theorem members_single (c l : Nat) : GRange.members ⟨c, l, l⟩ = [(c, l)] := by
  simp [GRange.members]

theorem members_cons {c l h : Nat} (hl : l < h) :
    GRange.members ⟨c, l, h⟩ = (c, l) :: GRange.members ⟨c, l + 1, h⟩ := by
  simp only [GRange.members]
  have : h + 1 - l = (h + 1 - (l + 1)) + 1 := by omega
  rw [this, List.range'_succ]
  simp

theorem runs_isRuns (gs : List Node) : IsRuns (runs gs) gs := by
  induction gs with
  | nil => exact ⟨by simp [runs], rfl, List.IsChain.nil⟩
  | cons g r ih =>
    unfold runs
    cases hr : runs r with
    | nil =>
      rw [hr] at ih
      refine ⟨by simp, ?_, List.IsChain.singleton _⟩
      have : r = [] := by rw [← ih.flat]; rfl
      simp [members_single, this]
    | cons s rest =>
      rw [hr] at ih
      have hs := ih.le s List.mem_cons_self
      dsimp only
      split
      · rename_i h
        refine ⟨?_, ?_, ?_⟩
        · intro x hx
          rcases List.mem_cons.1 hx with rfl | hx
          · simp only; omega
          · exact ih.le x (List.mem_cons_of_mem _ hx)
        · rw [← ih.flat, List.flatMap_cons, List.flatMap_cons, members_cons (by omega)]
          obtain ⟨sc, sl, sh⟩ := s
          simp only at h
          rw [h.1, h.2]
          rfl
        · have := ih.maximal
          cases rest with
          | nil => exact List.IsChain.singleton _
          | cons t rest =>
            rw [List.isChain_cons_cons] at this ⊢
            refine ⟨?_, this.2⟩
            rw [← h.1]
            exact this.1
      · rename_i h
        refine ⟨?_, ?_, ?_⟩
        · intro x hx
          rcases List.mem_cons.1 hx with rfl | hx
          · exact Nat.le_refl _
          · exact ih.le x hx
        · rw [List.flatMap_cons, ih.flat, members_single]
          rfl
        · rw [List.isChain_cons_cons]
          exact ⟨h, ih.maximal⟩

/-! ### Lemmas -/

def keysFrom : List Node → List (Node × Node)
  | [] => []
  | x :: xs => groupKeys x (x :: xs)

theorem groupKeys_run {c l h : Nat} (hl : l ≤ h) (s : Node) (rest : List Node)
    (hr : ∀ x ∈ rest.head?, x ≠ (c, h + 1)) :
    groupKeys s (GRange.members ⟨c, l, h⟩ ++ rest) =
      (GRange.members ⟨c, l, h⟩).map (fun g => (s, g)) ++ keysFrom rest := by
  induction n : h - l generalizing l with
  | zero =>
    have : l = h := by omega
    subst this
    rw [members_single]
    cases rest with
    | nil => simp [groupKeys, keysFrom]
    | cons x xs =>
      have : successor (c, l) ≠ x := fun e => hr x (by simp) e.symm
      simp [groupKeys, keysFrom, this]
  | succ n ih =>
    have hlt : l < h := by omega
    have ih := ih (l := l + 1) (by omega) (by omega)
    rw [members_cons hlt, List.map_cons, List.cons_append, List.cons_append, ← ih]
    have hne : ∃ t, GRange.members ⟨c, l + 1, h⟩ = (c, l + 1) :: t := by
      by_cases e : l + 1 = h
      · rw [e, members_single]; exact ⟨_, rfl⟩
      · rw [members_cons (by omega)]; exact ⟨_, rfl⟩
    obtain ⟨t, ht⟩ := hne
    rw [ht, List.cons_append, groupKeys, if_pos (show successor (c, l) = (c, l + 1) from rfl)]

theorem groupAdj_cons (k g : Node) (r : List (Node × Node)) :
    groupAdj ((k, g) :: r) =
      match groupAdj r with
      | (k', gs) :: rest => if k = k' then (k, g :: gs) :: rest else (k, [g]) :: (k', gs) :: rest
      | [] => [(k, [g])] := rfl

theorem groupAdj_run (k : Node) (gs : List Node) (hg : gs ≠ []) (rest : List (Node × Node))
    (hr : ∀ x ∈ (groupAdj rest).head?, x.1 ≠ k) :
    groupAdj (gs.map (fun g => (k, g)) ++ rest) = (k, gs) :: groupAdj rest := by
  induction gs with
  | nil => exact absurd rfl hg
  | cons g gs ih =>
    cases gs with
    | nil =>
      simp only [List.map_cons, List.map_nil, List.cons_append, List.nil_append]
      rw [groupAdj_cons]
      cases h : groupAdj rest with
      | nil => simp
      | cons x xs =>
        have : k ≠ x.1 := fun e => hr x (by simp [h]) e.symm
        simp [this]
    | cons g' gs =>
      rw [List.map_cons, List.cons_append, groupAdj_cons]
      rw [ih (by simp)]
      simp

theorem groupAdj_head (k g : Node) (r : List (Node × Node)) :
    ∃ gs rest, groupAdj ((k, g) :: r) = (k, g :: gs) :: rest := by
  rw [groupAdj_cons]
  cases groupAdj r with
  | nil => exact ⟨_, _, rfl⟩
  | cons x xs =>
    by_cases h : k = x.1
    · exact ⟨x.2, xs, by simp [h]⟩
    · exact ⟨[], x :: xs, by simp [h]⟩

theorem groupKeys_head (s g : Node) (r : List Node) : ∃ t, groupKeys s (g :: r) = (s, g) :: t := by
  cases r with
  | nil => exact ⟨_, rfl⟩
  | cons n r =>
    unfold groupKeys
    split
    · exact ⟨_, rfl⟩
    · exact ⟨_, rfl⟩

theorem members_ne {r : GRange} (h : r.lo ≤ r.hi) : ∃ t, r.members = r.first :: t := by
  obtain ⟨c, l, hi⟩ := r
  simp only at h
  by_cases e : l = hi
  · subst e; rw [members_single]; exact ⟨_, rfl⟩
  · rw [members_cons (by omega)]; exact ⟨_, rfl⟩

theorem group_runs (rs : List GRange) (hle : ∀ r ∈ rs, r.lo ≤ r.hi)
    (hm : rs.IsChain fun a b => ¬ (b.circ = a.circ ∧ b.lo = a.hi + 1))
    (hd : rs.IsChain fun a b => a.first ≠ b.first) :
    ∀ x xs, rs.flatMap GRange.members = x :: xs →
      groupAdj (groupKeys x (x :: xs)) = rs.map fun r => (r.first, r.members) := by
  induction rs with
  | nil => intro x xs h; simp at h
  | cons r rs ih =>
    intro x xs h
    have hr := hle r List.mem_cons_self
    obtain ⟨t, ht⟩ := members_ne hr
    have hx : x = r.first := by
      rw [List.flatMap_cons, ht] at h
      exact (List.cons.inj h).1.symm
    rw [← h, List.flatMap_cons, hx]
    obtain ⟨c, l, hi⟩ := r
    have hle' : ∀ r ∈ rs, r.lo ≤ r.hi := fun r hr => hle r (List.mem_cons_of_mem _ hr)
    cases rs with
    | nil =>
      rw [groupKeys_run (hr) _ _ (by simp)]
      simp only [List.flatMap_nil, keysFrom]
      rw [groupAdj_run _ _ (by rw [ht]; simp) _ (by simp [groupAdj])]
      rfl
    | cons r' rs =>
      rw [List.isChain_cons_cons] at hm hd
      obtain ⟨t', ht'⟩ := members_ne (hle' r' List.mem_cons_self)
      have hfl : (r' :: rs).flatMap GRange.members = r'.first :: (t' ++ rs.flatMap GRange.members) := by
        rw [List.flatMap_cons, ht']; rfl
      rw [hfl]
      rw [groupKeys_run hr]
      · simp only [keysFrom]
        rw [groupAdj_run _ _ (by rw [ht]; simp)]
        · rw [ih hle' hm.2 hd.2 _ _ hfl]
          rfl
        · intro y hy
          obtain ⟨u, hu⟩ := groupKeys_head r'.first r'.first (t' ++ rs.flatMap GRange.members)
          obtain ⟨gs, rest, e⟩ := groupAdj_head r'.first r'.first u
          rw [hu, e] at hy
          simp only [List.head?_cons, Option.mem_def, Option.some.injEq] at hy
          subst hy
          exact fun e => hd.1 e.symm
      · intro y hy
        simp only [List.head?_cons, Option.mem_def, Option.some.injEq] at hy
        subst hy
        intro e
        exact hm.1 ⟨congrArg Prod.fst e, congrArg Prod.snd e⟩

/-! ### Theorems -/

/-- C16, restricted: if no two adjacent runs start at the same gate, the groups are exactly the
maximal runs, each with its first gate as key. -/
theorem group_gates_partial (gs : List Node) (hgs : gs ≠ []) (rs : List GRange) (h : IsRuns rs gs)
    (hd : rs.IsChain fun a b => a.first ≠ b.first) :
    groupGates gs = some (rs.map fun r => (r.first, r.members)) := by
  cases gs with
  | nil => exact absurd rfl hgs
  | cons g gs => exact congrArg some (group_runs rs h.le h.maximal hd g gs h.flat)

theorem groupAdj_flat (l : List (Node × Node)) : (groupAdj l).flatMap (·.2) = l.map (·.2) := by
  induction l with
  | nil => rfl
  | cons x l ih =>
    rw [groupAdj_cons]
    cases h : groupAdj l with
    | nil => rw [h] at ih; simp [← ih]
    | cons y ys =>
      rw [h] at ih
      by_cases e : x.1 = y.1 <;> simp [e, ← ih]

theorem groupKeys_gates (s : Node) (gs : List Node) : (groupKeys s gs).map (·.2) = gs := by
  induction gs generalizing s with
  | nil => rfl
  | cons g gs ih =>
    cases gs with
    | nil => rfl
    | cons n r =>
      unfold groupKeys
      split <;> simp [ih]

/-- C16, the part that always holds: the groups concatenate to the sequence. -/
theorem group_gates_flatten (gs : List Node) (groups : List (Node × List Node))
    (h : groupGates gs = some groups) : groups.flatMap (·.2) = gs := by
  cases gs with
  | nil => cases h
  | cons g gs =>
    cases h
    rw [groupAdj_flat, groupKeys_gates]

/-- The claim C16 is false in general: a gate used twice in a row forms one group, which is not a
run of consecutive gates. -/
theorem group_gates_merges_duplicates (g : Node) : groupGates [g, g] = some [(g, [g, g])] := by
  have : successor g ≠ g := by
    intro h
    have := congrArg Prod.snd h
    simp [successor] at this
  simp [groupGates, groupKeys, groupAdj, this]

/-- Runs in two circuits. -/
example : groupGates [(0, 3), (0, 4), (0, 9), (1, 10), (1, 11), (0, 3)] =
      some [((0, 3), [(0, 3), (0, 4)]), ((0, 9), [(0, 9)]), ((1, 10), [(1, 10), (1, 11)]),
        ((0, 3), [(0, 3)])] ∧
    (runs [(0, 3), (0, 4), (0, 9), (1, 10), (1, 11), (0, 3)]).IsChain
      (fun a b => a.first ≠ b.first) := by
  refine ⟨rfl, ?_⟩
  simp [runs, GRange.first]

end Verif.Circuit
