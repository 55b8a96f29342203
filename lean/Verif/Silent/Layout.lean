import Verif.Silent.Compress

/-!
Where the leaves end up (C32), and cases that meet the hypotheses of the silent OT theorems.
-/
set_option autoImplicit false

namespace Verif.Silent

/-- Specification: leaf `p` of the GGM tree of the given depth, walking down from the seed along the
bits of `p`, most significant bit first. -/
def ggmLeaf (P : Prf) (depth : Nat) (seed : Block) (p : Nat) : Block :=
  (List.range depth).foldl (fun s k => P.F (p / 2 ^ (depth - 1 - k) % 2) s) seed

theorem sendLevel_ggm (P : Prf) (seed : Block) (depth p : Nat) :
    sendLevel P seed depth p = ggmLeaf P depth seed p := by
  induction depth generalizing p with
  | zero => rfl
  | succ d ih =>
    show P.F (p % 2) (sendLevel P seed d (p / 2)) = _
    have e : ggmLeaf P (d + 1) seed p = (List.range d ++ [d]).foldl
        (fun s k => P.F (p / 2 ^ (d + 1 - 1 - k) % 2) s) seed := by rw [ggmLeaf, List.range_succ]
    rw [ih, e, List.foldl_append]
    show _ = P.F (p / 2 ^ (d + 1 - 1 - d) % 2) _
    rw [show d + 1 - 1 - d = 0 by omega, Nat.pow_zero, Nat.div_one]
    congr 1
    unfold ggmLeaf
    have : ∀ (l : List Nat) (s : Block), (∀ k ∈ l, k < d) →
        l.foldl (fun s k => P.F (p / 2 / 2 ^ (d - 1 - k) % 2) s) s =
        l.foldl (fun s k => P.F (p / 2 ^ (d + 1 - 1 - k) % 2) s) s := by
      intro l
      induction l with
      | nil => intros; rfl
      | cons k l ihl =>
        intro s hk
        rw [List.foldl_cons, List.foldl_cons, ihl _ fun k' h => hk k' (List.mem_cons_of_mem _ h)]
        have := hk k (List.mem_cons_self ..)
        rw [Nat.div_div_eq_div_mul, ← Nat.pow_succ', show (d - 1 - k).succ = d + 1 - 1 - k by omega]
    exact this _ _ fun k hk => List.mem_range.1 hk

/-- C32.  For every configuration and scheduling of the groups, the position computed by
`interleave_point` for leaf `p` of tree `t` holds exactly that leaf of that tree, and every position of
the output is the position of one leaf. -/
theorem pprf_layout (P : Prf) (fmt : Format) (c : Conf) (ok : c.Ok fmt) (seed : Nat → Block)
    (delta : Block) (ots : Nat → Nat → Block × Block)
    (order : List Nat) (horder : order.Perm ((List.range (c.pnt / 8)).map (8 * ·))) :
    ∃ msgs outS, sendExpand P fmt c seed delta ots order = some (msgs, outS) ∧
      (∀ t < c.pnt, ∀ p, interleavePoint fmt c.pnt c.domain t p < outSize fmt c →
        outS (interleavePoint fmt c.pnt c.domain t p) = ggmLeaf P c.depth (seed t) p) ∧
      (∀ x < outSize fmt c, ∃ t p, t < c.pnt ∧ p < 2 ^ c.depth ∧
        interleavePoint fmt c.pnt c.domain t p = x ∧
        ∀ t' p', t' < c.pnt → interleavePoint fmt c.pnt c.domain t' p' = x → t' = t ∧ p' = p) := by
  have hL : order = (order.map (· / 8)).map (8 * ·) := by
    rw [List.map_map]
    conv_lhs => rw [← List.map_id order]
    apply List.map_congr_left
    intro g hg
    obtain ⟨q, -, rfl⟩ := List.mem_map.1 (horder.subset hg)
    simp
  have hLp : (order.map (· / 8)).Perm (List.range (c.pnt / 8)) := by
    have := horder.map (· / 8)
    rw [List.map_map] at this
    refine this.trans (List.Perm.of_eq ?_)
    conv_rhs => rw [← List.map_id (List.range (c.pnt / 8))]
    apply List.map_congr_left
    intro q _; simp
  generalize order.map (· / 8) = L at hL hLp
  subst hL
  have hLm : ∀ q, q ∈ L ↔ q < c.pnt / 8 := fun q => by rw [hLp.mem_iff, List.mem_range]
  obtain ⟨outS, hs1, hs2⟩ := sendExpand_spec P fmt c ok seed delta ots L (fun q h => (hLm q).1 h)
    ([], fun _ => 0)
  refine ⟨_, outS, hs1, fun t ht p hx => ?_, fun x hx => ?_⟩
  · have hd := (interleavePoint_decode fmt c ok _ t p ht hx).1 rfl
    rw [hs2, hd, if_pos ⟨hx, (hLm _).2 (by show t / 8 < _; have := ok.mul8; omega)⟩, sendLevel_ggm]
  · obtain ⟨ht, hw⟩ := writes_complete fmt c ok x hx
    have hq : (decode fmt c x).1 / 8 < c.pnt / 8 := by have := ok.mul8; omega
    have hp := (writes_sound fmt c ok _ hq _ hw).2.1
    refine ⟨(decode fmt c x).1, (decode fmt c x).2, ht, Nat.lt_of_lt_of_le hp (lastWidth_facts fmt c ok).2,
      (interleavePoint_decode fmt c ok x _ _ ht hx).2 rfl, fun t' p' ht' e => ?_⟩
    have := (interleavePoint_decode fmt c ok x t' p' ht' hx).1 e
    rw [this]
    exact ⟨rfl, rfl⟩

/-- Configurations meeting `Conf.Ok`, with choices of the right length whose points are in range. -/
example : let c : Conf := ⟨16, 10, 4⟩
    let choices : Nat → List Bool := fun t => [true, t % 2 == 0, false, t % 3 == 0]
    c.Ok .interleaved ∧ c.Ok .transposed ∧ (∀ t, (choices t).length = c.depth) ∧
    (∀ x ∈ getPoints .interleaved c choices, x < outSize .interleaved c) ∧
    (∀ x ∈ getPoints .transposed c choices, x < outSize .transposed c) := by
  refine ⟨⟨by decide, by decide, by decide, by decide, by decide, by decide, by decide, by decide⟩,
    ⟨by decide, by decide, by decide, by decide, by decide, by decide, by decide, by decide⟩,
    fun _ => rfl, by decide, by decide⟩

/-- A code that is not the identity: each output bit is the xor of two neighbouring inputs. -/
example : ∃ C : Code, C.size = 160 ∧ C.E (fun x => x == 3) 2 = true ∧ C.E (fun x => x == 3) 3 = true :=
  ⟨⟨160, fun u i => (decide (i + 1 < 160)) && (u i ^^ u (i + 1)),
    fun u v i => by
      beta_reduce
      cases decide (i + 1 < 160) <;> cases u i <;> cases v i <;> cases u (i + 1) <;> cases v (i + 1) <;> rfl,
    fun u v h i => by
      by_cases hi : i + 1 < 160
      · rw [h i (by omega), h (i + 1) hi]
      · simp [hi]⟩, rfl, by decide, by decide⟩

/-- The gap messages on a concrete case: one position per choice. -/
example : gapRecv [5, 9] [false, true] (gapSend 3 [(5, 6), (8, 9)]).2 = [5, 8 ^^^ 3] := by decide

end Verif.Silent
