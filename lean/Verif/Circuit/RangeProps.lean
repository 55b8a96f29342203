import Verif.Circuit.Ranges

/-!
C15: looking up range connections.
-/
set_option autoImplicit false

namespace Verif.Circuit

/-- C15, restricted: if no range is inserted after one that lies strictly inside it, every accepted
sequence of insertions is looked up exactly: a gate is connected to its images under the ranges
containing it, each as often as inserted. -/
theorem range_lookup_correct_partial (cs : List (GRange × GRange)) (m : RangeMap)
    (hm : RangeMap.insertAll cs (fun _ => []) = some m)
    (hn : cs.Pairwise fun a b => ¬ a.1.Inside b.1) (g : Node) :
    (m.gates g).Perm (imagesOf cs g) := by
  have hh : Holds m cs := by simpa using insertAll_holds Holds.empty hm
  have hf := insertAll_flat Holds.empty (fun i x hx => by simp at hx) hm (by simpa using hn)
  refine List.Perm.trans ?_ (images_of_contents hh g)
  unfold RangeMap.gates
  rw [mapped_eq (hh.sorted _) (hf _), ← gates_of_contents]
  exact List.Perm.flatMap_right _ (List.reverse_perm _)

/-- Without any restriction a lookup never invents or duplicates a connection. -/
theorem range_lookup_sound (cs : List (GRange × GRange)) (m : RangeMap)
    (hm : RangeMap.insertAll cs (fun _ => []) = some m) (g : Node) :
    (m.gates g).Subperm (imagesOf cs g) := by
  have hh : Holds m cs := by simpa using insertAll_holds Holds.empty hm
  refine List.Subperm.trans ?_ (images_of_contents hh g).subperm
  rw [← gates_of_contents]
  unfold RangeMap.gates
  have h : (m.mapped g).Subperm
      ((m g.1).filter fun e => decide (e.1.1 ≤ g.2) && decide (g.2 ≤ e.1.2)) := by
    have h1 : (m.mapped g).Sublist (((m g.1).reverse).filter
        fun e => decide (e.1.1 ≤ g.2) && decide (g.2 ≤ e.1.2)) := by
      unfold RangeMap.mapped
      have hs : (((m g.1).takeWhile fun e => decide (e.1.1 ≤ g.2)).reverse.takeWhile
          fun e => decide (e.1.1 ≤ g.2) && decide (g.2 ≤ e.1.2)).Sublist (m g.1).reverse :=
        (List.takeWhile_sublist _).trans (List.takeWhile_sublist _).reverse
      have := hs.filter fun e => decide (e.1.1 ≤ g.2) && decide (g.2 ≤ e.1.2)
      rwa [List.filter_eq_self.2] at this
      intro a ha
      have := List.mem_takeWhile_imp ha
      exact this
    exact h1.subperm.trans ((List.reverse_perm _).filter _).subperm
  obtain ⟨l, hl, hs⟩ := h
  exact ⟨_, hl.flatMap_right _, hs.flatMap _⟩

/-- Insertion of a well-formed range fails only if it lies inside an earlier range with a smaller
start, as documented. -/
theorem insert_fails_only_inside (cs : List (GRange × GRange)) (m : RangeMap)
    (hm : RangeMap.insertAll cs (fun _ => []) = some m) (src dst : GRange) (hle : src.lo ≤ src.hi)
    (h : m.insert src dst = none) :
    ∃ c ∈ cs, c.1.circ = src.circ ∧ c.1.lo < src.lo ∧ src.hi ≤ c.1.hi := by
  have hh : Holds m cs := by simpa using insertAll_holds Holds.empty hm
  obtain ⟨e, he, h1, h2⟩ := insert_none hle h
  obtain ⟨c, hc, hcc, hck⟩ := hh.keys _ e he
  rw [← hck] at h1 h2
  exact ⟨c, hc, hcc, h1, h2⟩

/-- Regression test of the repository: overlapping ranges with equal and different starts. -/
example : ∃ m, RangeMap.insertAll
      [(⟨0, 8, 167⟩, ⟨1, 0, 159⟩), (⟨1, 280, 339⟩, ⟨2, 0, 59⟩), (⟨0, 8, 87⟩, ⟨3, 0, 79⟩),
        (⟨0, 96, 175⟩, ⟨3, 80, 159⟩)] (fun _ => []) = some m ∧
    m.gates (0, 87) = [(1, 79), (3, 79)] ∧ m.gates (0, 100) = [(3, 84), (1, 92)] ∧
    (List.Pairwise (fun a b : GRange × GRange => ¬ a.1.Inside b.1)
      [(⟨0, 8, 167⟩, ⟨1, 0, 159⟩), (⟨1, 280, 339⟩, ⟨2, 0, 59⟩), (⟨0, 8, 87⟩, ⟨3, 0, 79⟩),
        (⟨0, 96, 175⟩, ⟨3, 80, 159⟩)]) := by
  refine ⟨_, rfl, rfl, rfl, ?_⟩
  simp [GRange.Inside]

/-- The claim C15 is false without the restriction: connecting gates 20 to 25 first and gates 0
to 50 afterwards is accepted, but the connection of gate 30 is lost. -/
theorem range_lookup_loses_connection : ∃ m, RangeMap.insertAll
      [(⟨0, 20, 25⟩, ⟨1, 0, 5⟩), (⟨0, 0, 50⟩, ⟨2, 0, 50⟩)] (fun _ => []) = some m ∧
    m.gates (0, 30) = [] ∧
    imagesOf [(⟨0, 20, 25⟩, ⟨1, 0, 5⟩), (⟨0, 0, 50⟩, ⟨2, 0, 50⟩)] (0, 30) = [(2, 30)] :=
  ⟨_, rfl, rfl, rfl⟩

end Verif.Circuit
