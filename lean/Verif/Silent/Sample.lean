import Verif.Silent.QcEncode
import Verif.Silent.ExConv
import Mathlib.Data.Set.Card
import Mathlib.Algebra.BigOperators.Group.List.Basic

/-!
Sampling the noise positions of the silent OT (C97): zappot/src/silent_ot/pprf.rs:569-611, mod.rs:525-539.
-/
set_option autoImplicit false

namespace Verif.Silent

/-- pprf.rs:594-605: the row of choice bits of one tree is drawn again until it is accepted.  `draws` are the rows
the generator delivers, each of one coin per level; `none` if they are used up.  The row and the draws left. -/
def sampleRow (ok : List Bool → Bool) : List (List Bool) → Option (List Bool × List (List Bool))
  | [] => none
  | d :: ds => if ok d then some (d, ds) else sampleRow ok ds

/-- pprf.rs:577: one row after the other. -/
def sampleRows : List (List Bool → Bool) → List (List Bool) → Option (List (List Bool) × List (List Bool))
  | [], ds => some ([], ds)
  | o :: os, ds => (sampleRow o ds).bind fun r => (sampleRows os r.2).map fun rs => (r.1 :: rs.1, rs.2)

/-- pprf.rs:600-602: the position of the noise lies below the modulus. -/
def accepts (fmt : Format) (c : Conf) (modulus i : Nat) (row : List Bool) : Bool :=
  decide (interleavePoint fmt c.pnt c.domain i (activePath row) < modulus)

/-- pprf.rs:569-611 `sample_choice_bits` for the two formats in use.  `none`: the assertion of line 593 fails, or there
are not enough draws. -/
def sampleChoiceBits (fmt : Format) (c : Conf) (modulus : Nat) (draws : List (List Bool)) :
    Option (List (List Bool) × List (List Bool)) :=
  let n := nextMultipleOf c.pnt 8
  if (List.range n).all fun i => decide (interleavePoint fmt c.pnt c.domain i 0 < modulus) then
    sampleRows ((List.range n).map (accepts fmt c modulus)) draws
  else none

/-! ### Specification -/

/-- What a generator may deliver as its first `k` draws of `depth` coins. -/
def Draws (depth k : Nat) : Set (List (List Bool)) := {ds | ds.length = k ∧ ∀ d ∈ ds, d.length = depth}

/-- Leaves that may be chosen in the trees: their positions in the output are below the modulus. -/
def Leaves (fmt : Format) (c : Conf) (modulus : Nat) (ps : List Nat) : Prop :=
  ps.length = nextMultipleOf c.pnt 8 ∧
  ∀ i p, ps[i]? = some p → p < 2 ^ c.depth ∧ interleavePoint fmt c.pnt c.domain i p < modulus

/-! ### Lists of all words -/

/-- All words of `k` letters. -/
def words {α : Type} (A : List α) : Nat → List (List α)
  | 0 => [[]]
  | k + 1 => A.flatMap fun a => (words A k).map (a :: ·)

theorem mem_words {α : Type} (A : List α) (k : Nat) (l : List α) :
    l ∈ words A k ↔ l.length = k ∧ ∀ a ∈ l, a ∈ A := by
  induction k generalizing l with
  | zero =>
    simp only [words, List.mem_singleton]
    constructor
    · rintro rfl; simp
    · intro h; exact List.length_eq_zero_iff.1 h.1
  | succ k ih =>
    simp only [words, List.mem_flatMap, List.mem_map]
    constructor
    · rintro ⟨a, ha, l', hl', rfl⟩
      obtain ⟨h1, h2⟩ := (ih l').1 hl'
      refine ⟨by simp [h1], fun b hb => ?_⟩
      rcases List.mem_cons.1 hb with rfl | hb
      · exact ha
      · exact h2 b hb
    · rintro ⟨h1, h2⟩
      cases l with
      | nil => simp at h1
      | cons a l =>
        exact ⟨a, h2 a List.mem_cons_self, l, (ih l).2 ⟨by simpa using h1, fun b hb => h2 b (List.mem_cons_of_mem _ hb)⟩, rfl⟩

theorem nodup_words {α : Type} (A : List α) (hA : A.Nodup) (k : Nat) : (words A k).Nodup := by
  induction k with
  | zero => simp [words]
  | succ k ih =>
    rw [words, List.nodup_flatMap]
    refine ⟨fun a _ => ih.map fun x y h => (List.cons.inj h).2, ?_⟩
    refine hA.imp fun {a b} hab => ?_
    intro l h1 h2
    obtain ⟨x, -, rfl⟩ := List.mem_map.1 h1
    obtain ⟨y, -, h⟩ := List.mem_map.1 h2
    exact hab (List.cons.inj h).1.symm

theorem length_words {α : Type} (A : List α) (k : Nat) : (words A k).length = A.length ^ k := by
  induction k with
  | zero => rfl
  | succ k ih => simp [words, List.length_flatMap, ih, Nat.pow_succ, Nat.mul_comm]

theorem countP_words {α : Type} (A : List α) (k : Nat) (p : List α → Bool) :
    (words A (k + 1)).countP p = (A.map fun a => (words A k).countP fun l => p (a :: l)).sum := by
  rw [words, List.countP_flatMap]
  congr 1
  apply List.map_congr_left
  intro a _
  simp only [Function.comp_apply, List.countP_map]
  rfl

theorem sum_split {α : Type} [DecidableEq α] (A : List α) (hA : A.Nodup) (o : α → Bool) (x : α) (hx : x ∈ A)
    (ho : o x = true) (c e : Nat) :
    (A.map fun a => if o a then (if a = x then c else 0) else e).sum = c + A.countP (fun a => !o a) * e := by
  have h0 : ∀ B : List α, x ∉ B →
      (B.map fun a => if o a then (if a = x then c else 0) else e).sum = B.countP (fun a => !o a) * e := by
    intro B hB
    induction B with
    | nil => simp
    | cons b B ih =>
      have hb : b ≠ x := fun h => hB (h ▸ List.mem_cons_self)
      have := ih fun h => hB (List.mem_cons_of_mem _ h)
      rw [List.map_cons, List.sum_cons, this, List.countP_cons]
      by_cases h : o b = true
      · simp [h, hb]
      · simp [h]; ring
  induction A with
  | nil => simp at hx
  | cons b B ih =>
    rw [List.map_cons, List.sum_cons, List.countP_cons]
    have hn := List.nodup_cons.1 hA
    by_cases hb : b = x
    · subst hb
      rw [h0 B hn.1]
      simp [ho]
    · have hx' : x ∈ B := (List.mem_cons.1 hx).resolve_left fun h => hb h.symm
      rw [ih hn.2 hx']
      by_cases h : o b = true
      · simp [h, hb]
      · simp [h]; ring

/-! ### Counting the draws -/

theorem sampleRows_cons (o : List Bool → Bool) (os : List (List Bool → Bool)) (d : List Bool) (ds : List (List Bool)) :
    sampleRows (o :: os) (d :: ds) =
      if o d then (sampleRows os ds).map fun rs => (d :: rs.1, rs.2) else sampleRows (o :: os) ds := by
  by_cases h : o d = true
  · rw [sampleRows, sampleRow, if_pos h, if_pos h, Option.bind_some]
  · rw [sampleRows, sampleRow, if_neg h, if_neg h, sampleRows]

theorem count_sampleRows (A : List (List Bool)) (hA : A.Nodup) (k : Nat) (os : List (List Bool → Bool))
    (xs ys : List (List Bool)) (hx : List.Forall₂ (fun o x => o x = true ∧ x ∈ A) os xs)
    (hy : List.Forall₂ (fun o y => o y = true ∧ y ∈ A) os ys) :
    (words A k).countP (fun ds => decide (sampleRows os ds = some (xs, []))) =
      (words A k).countP (fun ds => decide (sampleRows os ds = some (ys, []))) := by
  induction k generalizing os xs ys with
  | zero =>
    cases hx with
    | nil => cases hy; rfl
    | cons h1 h2 =>
      cases hy
      simp [words, sampleRows, sampleRow]
  | succ k ih =>
    cases hx with
    | nil => cases hy; rfl
    | @cons o x os xs h1 h2 =>
      cases hy with
      | @cons _ y _ ys g1 g2 =>
        have key : ∀ (z : List Bool) (zs : List (List Bool)), o z = true → z ∈ A →
            (words A (k + 1)).countP (fun ds => decide (sampleRows (o :: os) ds = some (z :: zs, []))) =
              (words A k).countP (fun ds => decide (sampleRows os ds = some (zs, []))) +
                A.countP (fun a => !o a) *
                  (words A k).countP (fun ds => decide (sampleRows (o :: os) ds = some (z :: zs, []))) := by
          intro z zs hz hzA
          rw [countP_words, ← sum_split A hA o z hzA hz]
          congr 1
          apply List.map_congr_left
          intro a _
          by_cases h : o a = true
          · rw [if_pos h]
            by_cases haz : a = z
            · subst haz
              rw [if_pos rfl]
              congr 1
              funext ds
              rw [sampleRows_cons, if_pos h]
              cases sampleRows os ds with
              | none => simp
              | some r => obtain ⟨r1, r2⟩ := r; simp
            · rw [if_neg haz, List.countP_eq_zero]
              intro ds _
              rw [sampleRows_cons, if_pos h]
              cases sampleRows os ds with
              | none => simp
              | some r => obtain ⟨r1, r2⟩ := r; simp [haz]
          · rw [if_neg h]
            congr 1
            funext ds
            rw [sampleRows_cons, if_neg h]
        rw [key x xs h1.1 h1.2, key y ys g1.1 g1.2, ih os xs ys h2 g2,
          ih (o :: os) (x :: xs) (y :: ys) (.cons h1 h2) (.cons g1 g2)]

theorem count_rejected (A : List (List Bool)) (k : Nat) (o : List Bool → Bool) :
    (words A k).countP (fun ds => decide (sampleRow o ds = none)) = A.countP (fun a => !o a) ^ k := by
  induction k with
  | zero => simp [words, sampleRow]
  | succ k ih =>
    rw [countP_words, Nat.pow_succ, Nat.mul_comm, ← ih]
    generalize hc : (words A k).countP (fun ds => decide (sampleRow o ds = none)) = n
    have : ∀ B : List (List Bool), (B.map fun a => (words A k).countP fun l => decide (sampleRow o (a :: l) = none)).sum =
        B.countP (fun a => !o a) * n := by
      intro B
      induction B with
      | nil => simp
      | cons b B ihB =>
        rw [List.map_cons, List.sum_cons, ihB, List.countP_cons]
        by_cases h : o b = true
        · simp [sampleRow, h]
        · have e : (words A k).countP (fun l => decide (sampleRow o (b :: l) = none)) = n := by
            rw [← hc]; congr 1; funext l; rw [sampleRow, if_neg h]
          rw [e]
          simp [h]
          ring
    exact this A

/-- The words are what a generator may deliver. -/
theorem ncard_draws (depth k : Nat) (p : List (List Bool) → Bool) :
    {ds ∈ Draws depth k | p ds = true}.ncard = (words (words [false, true] depth) k).countP p := by
  have hn : (words (words [false, true] depth) k).Nodup := nodup_words _ (nodup_words _ (by decide) _) _
  have : {ds ∈ Draws depth k | p ds = true} = ((words (words [false, true] depth) k).filter p).toFinset := by
    ext ds
    simp only [Draws, Set.mem_setOf_eq, List.coe_toFinset, List.mem_filter, mem_words]
    constructor
    · rintro ⟨⟨h1, h2⟩, h3⟩
      exact ⟨⟨h1, fun d hd => ⟨h2 d hd, fun b _ => by cases b <;> simp⟩⟩, h3⟩
    · rintro ⟨⟨h1, h2⟩, h3⟩
      exact ⟨⟨h1, fun d hd => (h2 d hd).1⟩, h3⟩
  rw [this, Set.ncard_coe_finset, List.toFinset_card_of_nodup (hn.filter _), List.countP_eq_length_filter]

/-! ### Rows and leaves -/

/-- The row that leads to leaf `p`. -/
def rowOf (depth p : Nat) : List Bool := (List.range depth).map fun i => !p.testBit (depth - 1 - i)

theorem activePath_rowOf (depth p : Nat) (hp : p < 2 ^ depth) : activePath (rowOf depth p) = p := by
  have hl : (rowOf depth p).length = depth := by simp [rowOf]
  apply Nat.eq_of_testBit_eq
  intro j
  by_cases hj : j < depth
  · rw [activePath_testBit _ _ (by omega)]
    have e : depth - 1 - ((rowOf depth p).length - 1 - j) = j := by omega
    rw [show (rowOf depth p)[(rowOf depth p).length - 1 - j] = !p.testBit (depth - 1 - ((rowOf depth p).length - 1 - j)) by
      simp only [rowOf, List.getElem_map, List.getElem_range], e, Bool.not_not]
  · have h1 := activePath_lt (rowOf depth p)
    rw [hl] at h1
    have h2 : 2 ^ depth ≤ 2 ^ j := Nat.pow_le_pow_right (by decide) (by omega)
    rw [Nat.testBit_lt_two_pow (by omega), Nat.testBit_lt_two_pow (by omega)]

theorem rowOf_activePath (x : List Bool) : rowOf x.length (activePath x) = x := by
  apply List.ext_getElem
  · simp [rowOf]
  · intro i h1 h2
    simp only [rowOf, List.getElem_map, List.getElem_range]
    rw [activePath_testBit _ _ (by omega), Bool.not_not]
    congr 1; omega

theorem sampleRow_mem (o : List Bool → Bool) (ds : List (List Bool)) (r : List Bool) (rest : List (List Bool))
    (h : sampleRow o ds = some (r, rest)) : o r = true ∧ r ∈ ds ∧ ∀ d ∈ rest, d ∈ ds := by
  induction ds with
  | nil => simp [sampleRow] at h
  | cons d ds ih =>
    rw [sampleRow] at h
    by_cases hd : o d = true
    · simp only [hd, if_true, Option.some.injEq, Prod.mk.injEq] at h
      obtain ⟨rfl, rfl⟩ := h
      exact ⟨hd, List.mem_cons_self, fun d hd => List.mem_cons_of_mem _ hd⟩
    · rw [if_neg hd] at h
      obtain ⟨h1, h2, h3⟩ := ih h
      exact ⟨h1, List.mem_cons_of_mem _ h2, fun d hd => List.mem_cons_of_mem _ (h3 d hd)⟩

theorem sampleRows_forall (os : List (List Bool → Bool)) (ds rs rest : List (List Bool))
    (h : sampleRows os ds = some (rs, rest)) : List.Forall₂ (fun o r => o r = true ∧ r ∈ ds) os rs ∧ ∀ d ∈ rest, d ∈ ds := by
  induction os generalizing ds rs with
  | nil =>
    simp only [sampleRows, Option.some.injEq, Prod.mk.injEq] at h
    obtain ⟨rfl, rfl⟩ := h
    exact ⟨.nil, fun d hd => hd⟩
  | cons o os ih =>
    simp only [sampleRows, Option.bind_eq_some_iff, Option.map_eq_some_iff, Prod.mk.injEq] at h
    obtain ⟨r, h1, q, h2, rfl, rfl⟩ := h
    obtain ⟨k1, k2, k3⟩ := sampleRow_mem o ds r.1 r.2 h1
    obtain ⟨j1, j2⟩ := ih r.2 q.1 h2
    exact ⟨.cons ⟨k1, k2⟩ (j1.imp fun o x hx => ⟨hx.1, k3 _ hx.2⟩), fun d hd => k3 _ (j2 d hd)⟩

theorem forall₂_accepts (n : Nat) (f : Nat → List Bool → Bool) (xs : List (List Bool)) (Q : List Bool → Prop) :
    List.Forall₂ (fun (o : List Bool → Bool) x => o x = true ∧ Q x) ((List.range n).map f) xs ↔
      xs.length = n ∧ ∀ i x, xs[i]? = some x → f i x = true ∧ Q x := by
  rw [List.forall₂_iff_get]
  simp only [List.length_map, List.length_range, List.get_eq_getElem, List.getElem_map, List.getElem_range]
  constructor
  · rintro ⟨h1, h2⟩
    refine ⟨h1.symm, fun i x hx => ?_⟩
    obtain ⟨hi, rfl⟩ := List.getElem?_eq_some_iff.1 hx
    exact h2 i (by omega) hi
  · rintro ⟨h1, h2⟩
    exact ⟨h1.symm, fun i _ hi => h2 i _ (List.getElem?_eq_getElem hi)⟩

/-! ### The theorems -/

/-- C97, what is sampled.  Whatever the generator delivers, the choice bits sampled have one row per tree, each with a bit for every
level, and the positions `get_points` reports lie below the modulus.  They meet the conditions of `pprf_expand` and the theorems about silent OT. -/
theorem sample_accepted (fmt : Format) (c : Conf) (h8 : c.pnt % 8 = 0) (modulus k : Nat) (ds : List (List Bool)) (hds : ds ∈ Draws c.depth k)
    (rows rest : List (List Bool)) (h : sampleChoiceBits fmt c modulus ds = some (rows, rest)) :
    rows.length = c.pnt ∧ (∀ t < c.pnt, (rows.getD t []).length = c.depth) ∧
      ∀ x ∈ getPoints fmt c (fun t => rows.getD t []), x < modulus := by
  have hn : nextMultipleOf c.pnt 8 = c.pnt := by unfold nextMultipleOf; omega
  unfold sampleChoiceBits at h
  dsimp only at h
  rw [hn] at h
  by_cases ha : ((List.range c.pnt).all fun i => decide (interleavePoint fmt c.pnt c.domain i 0 < modulus)) = true
  · rw [if_pos ha] at h
    obtain ⟨h1, -⟩ := sampleRows_forall _ _ _ _ h
    obtain ⟨h2, h3⟩ := (forall₂_accepts c.pnt (accepts fmt c modulus) rows (· ∈ ds)).1 h1
    have hrow : ∀ t < c.pnt, accepts fmt c modulus t (rows.getD t []) = true ∧ rows.getD t [] ∈ ds := by
      intro t ht
      have hlt : t < rows.length := by omega
      rw [List.getD_eq_getElem _ _ hlt]
      exact h3 t _ (List.getElem?_eq_getElem hlt)
    refine ⟨h2, fun t ht => hds.2 _ (hrow t ht).2, fun x hx => ?_⟩
    obtain ⟨t, ht, rfl⟩ := List.mem_map.1 hx
    exact of_decide_eq_true (hrow t (List.mem_range.1 ht)).1
  · rw [if_neg ha] at h
    cases h

/-- C97, the noise is uniform.  For any two families of leaves that may be chosen, one in every tree, exactly as many of the equally likely sequences of
`k` draws make the sampling stop after the last of them with the first family as with the second: given the number of draws, each tree's noise is uniform over
the leaves with an output position below the modulus, and the trees are independent. -/
theorem sample_uniform (fmt : Format) (c : Conf) (modulus k : Nat) (ps qs : List Nat) (hp : Leaves fmt c modulus ps) (hq : Leaves fmt c modulus qs) :
    {ds ∈ Draws c.depth k | ∃ rows, sampleChoiceBits fmt c modulus ds = some (rows, []) ∧ rows.map activePath = ps}.ncard =
      {ds ∈ Draws c.depth k | ∃ rows, sampleChoiceBits fmt c modulus ds = some (rows, []) ∧ rows.map activePath = qs}.ncard := by
  by_cases ha : ((List.range (nextMultipleOf c.pnt 8)).all fun i => decide (interleavePoint fmt c.pnt c.domain i 0 < modulus)) = true
  · set os := (List.range (nextMultipleOf c.pnt 8)).map (accepts fmt c modulus) with hos
    have hs : ∀ ds, sampleChoiceBits fmt c modulus ds = sampleRows os ds := by
      intro ds; unfold sampleChoiceBits; dsimp only; rw [if_pos ha]
    have key : ∀ ps, Leaves fmt c modulus ps →
        {ds ∈ Draws c.depth k | ∃ rows, sampleChoiceBits fmt c modulus ds = some (rows, []) ∧ rows.map activePath = ps} =
          {ds ∈ Draws c.depth k | decide (sampleRows os ds = some (ps.map (rowOf c.depth), [])) = true} ∧
        List.Forall₂ (fun o x => o x = true ∧ x ∈ words [false, true] c.depth) os (ps.map (rowOf c.depth)) := by
      intro ps hp
      constructor
      · ext ds
        simp only [Set.mem_setOf_eq, decide_eq_true_eq]
        refine and_congr_right fun hds => ?_
        constructor
        · rintro ⟨rows, h1, rfl⟩
          rw [hs] at h1
          rw [h1]
          obtain ⟨h2, -⟩ := sampleRows_forall _ _ _ _ h1
          obtain ⟨-, h3⟩ := (forall₂_accepts _ (accepts fmt c modulus) rows (· ∈ ds)).1 h2
          rw [List.map_map]
          congr 2
          conv_lhs => rw [← List.map_id rows]
          apply List.map_congr_left
          intro x hx
          obtain ⟨i, hi⟩ := List.getElem?_of_mem hx
          have hl := hds.2 _ (h3 i x hi).2
          rw [Function.comp_apply, ← hl, rowOf_activePath]
          rfl
        · intro h1
          refine ⟨ps.map (rowOf c.depth), by rw [hs]; exact h1, ?_⟩
          rw [List.map_map]
          conv_rhs => rw [← List.map_id ps]
          apply List.map_congr_left
          intro p hpm
          obtain ⟨i, hi⟩ := List.getElem?_of_mem hpm
          exact activePath_rowOf _ _ (hp.2 i p hi).1
      · rw [hos, forall₂_accepts]
        refine ⟨by simpa using hp.1, fun i x hx => ?_⟩
        rw [List.getElem?_map, Option.map_eq_some_iff] at hx
        obtain ⟨p, hpi, rfl⟩ := hx
        obtain ⟨h1, h2⟩ := hp.2 i p hpi
        refine ⟨by rw [accepts, activePath_rowOf _ _ h1]; exact decide_eq_true h2, ?_⟩
        rw [mem_words]
        exact ⟨by simp [rowOf], fun b _ => by cases b <;> simp⟩
    rw [(key ps hp).1, (key qs hq).1, ncard_draws, ncard_draws]
    exact count_sampleRows _ (nodup_words _ (by decide) _) k os _ _ (key ps hp).2 (key qs hq).2
  · have hs : ∀ ds, sampleChoiceBits fmt c modulus ds = none := by
      intro ds; unfold sampleChoiceBits; dsimp only; rw [if_neg ha]
    simp only [hs, reduceCtorEq, false_and, exists_false]

/-- C97, the loop ends.  Of the `2^(depth * k)` equally likely sequences of `k` draws, those that do not give a row for tree `i` are a `k`-th power of a number less than `2^depth`,
the number of leaves that are rejected: the assertion of line 593 makes sure that there is one that is not. -/
theorem sample_terminates (fmt : Format) (c : Conf) (modulus i k : Nat) (h : interleavePoint fmt c.pnt c.domain i 0 < modulus) :
    (Draws c.depth k).ncard = (2 ^ c.depth) ^ k ∧
    ∃ r, r < 2 ^ c.depth ∧ {ds ∈ Draws c.depth k | sampleRow (accepts fmt c modulus i) ds = none}.ncard = r ^ k := by
  constructor
  · have := ncard_draws c.depth k fun _ => true
    simpa [length_words] using this
  · refine ⟨(words [false, true] c.depth).countP (fun a => !accepts fmt c modulus i a), ?_, ?_⟩
    · have hl : (words [false, true] c.depth).length = 2 ^ c.depth := by rw [length_words]; rfl
      rw [← hl]
      apply Nat.lt_of_le_of_ne List.countP_le_length
      intro he
      rw [List.countP_eq_length] at he
      have := he (rowOf c.depth 0) (by
        rw [mem_words]
        exact ⟨by simp [rowOf], fun b _ => by cases b <;> simp⟩)
      rw [accepts, activePath_rowOf _ _ (Nat.two_pow_pos _), decide_eq_true h] at this
      cases this
    · have h1 := ncard_draws c.depth k fun ds => decide (sampleRow (accepts fmt c modulus i) ds = none)
      simp only [decide_eq_true_eq] at h1
      rw [h1, count_rejected]

/-- The first leaf of every tree has a position below the size of the output, so that the assertion of line 593 holds. -/
theorem first_leaf (fmt : Format) (c : Conf) (ok : c.Ok fmt) (hd : fmt = .transposed → 16 ≤ c.domain) (i : Nat) (hi : i < c.pnt) :
    interleavePoint fmt c.pnt c.domain i 0 < outSize fmt c := by
  obtain ⟨h0, h8, -, -, -, hdp, -, -⟩ := ok
  obtain ⟨m, hm⟩ : ∃ m, c.pnt = 8 * m := ⟨c.pnt / 8, by omega⟩
  cases fmt with
  | interleaved =>
    simp only [interleavePoint, outSize]
    rw [if_neg (by omega), hm]
    have h1 : (i / 8 + 1) * c.domain ≤ m * c.domain := Nat.mul_le_mul_right _ (by omega)
    rw [Nat.add_mul] at h1
    have e : 8 * m * c.domain = 8 * (m * c.domain) := by ring
    omega
  | transposed =>
    have := hd rfl
    simp only [interleavePoint, outSize, Nat.zero_mod, Nat.zero_div, Nat.zero_mul, Nat.mul_zero, Nat.add_zero]
    have h1 : 8 * m * 16 ≤ 8 * m * c.domain := Nat.mul_le_mul_left _ this
    rw [hm]
    omega

/-- C97, no position is spared: every position of the output belongs to a leaf of one tree, and there is a family of leaves that may be
chosen with the noise of that tree there. -/
theorem sample_covers (fmt : Format) (c : Conf) (ok : c.Ok fmt) (hd : fmt = .transposed → 16 ≤ c.domain) (x : Nat) (hx : x < outSize fmt c) :
    ∃ t p ps, t < c.pnt ∧ Leaves fmt c (outSize fmt c) ps ∧ ps[t]? = some p ∧ interleavePoint fmt c.pnt c.domain t p = x ∧
      ∀ t' p', t' < c.pnt → interleavePoint fmt c.pnt c.domain t' p' = x → t' = t ∧ p' = p := by
  obtain ⟨h1, h2⟩ := writes_complete fmt c ok x hx
  obtain ⟨-, h3, -, -⟩ := writes_sound fmt c ok ((decode fmt c x).1 / 8) (by have := ok.mul8; omega) _ h2
  obtain ⟨-, hle⟩ := lastWidth_facts fmt c ok
  have hip := (interleavePoint_decode fmt c ok x _ (decode fmt c x).2 h1 hx).2 rfl
  have hn : nextMultipleOf c.pnt 8 = c.pnt := by have := ok.mul8; unfold nextMultipleOf; omega
  refine ⟨(decode fmt c x).1, (decode fmt c x).2, (List.range c.pnt).map fun i => if i = (decode fmt c x).1 then (decode fmt c x).2 else 0,
    h1, ⟨by simp [hn], ?_⟩, ?_, hip, ?_⟩
  · intro i p hp
    rw [List.getElem?_map, Option.map_eq_some_iff] at hp
    obtain ⟨j, hj, rfl⟩ := hp
    have hji : j = i ∧ i < c.pnt := by
      obtain ⟨h, h'⟩ := List.getElem?_eq_some_iff.1 hj
      simp only [List.getElem_range] at h'
      simp only [List.length_range] at h
      omega
    obtain ⟨rfl, hi⟩ := hji
    by_cases h : j = (decode fmt c x).1
    · subst h
      rw [if_pos rfl]
      exact ⟨Nat.lt_of_lt_of_le h3 hle, by rw [hip]; exact hx⟩
    · rw [if_neg h]
      exact ⟨Nat.two_pow_pos _, first_leaf fmt c ok hd j hi⟩
  · rw [List.getElem?_map, List.getElem?_range h1]
    simp
  · intro t' p' ht' h
    have := (interleavePoint_decode fmt c ok x t' p' ht' hx).1 h
    rw [this]
    exact ⟨rfl, rfl⟩

/-- C97 for the quasi cyclic code: with `N2` as modulus the assertion holds, the loops end, and what is sampled meets the conditions of
`qc_silent_ot_partial` and `Fft.qc_encoder_silent_ot_partial`. -/
theorem qc_sample (numOts scaler : Nat) (hs : 2 ≤ scaler) (hfit : (configure numOts scaler).n2 < 2 ^ 64) :
    ∃ c, (configure numOts scaler).pprf = some c ∧
      (∀ i < c.pnt, interleavePoint .transposed c.pnt c.domain i 0 < (configure numOts scaler).n2) ∧
      ∀ k, ∀ ds ∈ Draws c.depth k, ∀ rows rest, sampleChoiceBits .transposed c (configure numOts scaler).n2 ds = some (rows, rest) →
        rows.length = c.pnt ∧ (∀ t < c.pnt, (rows.getD t []).length = c.depth) ∧
        ∀ x ∈ getPoints .transposed c (fun t => rows.getD t []), x < (configure numOts scaler).n2 := by
  obtain ⟨c, h1, ok, hout, hpnt, hdom⟩ := qc_pprf_ok numOts scaler hs hfit
  obtain ⟨-, -, -, -, -, h6, -⟩ := configure_facts numOts scaler hs
  refine ⟨c, h1, fun i hi => ?_, fun k ds hds rows rest h => sample_accepted .transposed c ok.mul8 _ k ds hds rows rest h⟩
  rw [← hout]
  exact first_leaf .transposed c ok (fun _ => by rw [hdom]; omega) i hi

/-- C97 for the expand convolute code. -/
theorem exconv_sample (numOts parts : Nat) (hn : 0 < numOts) (hp : 0 < parts) (h8 : parts % 8 = 0)
    (hfit : (exConvConfigure numOts parts).n2 < 2 ^ 64) :
    ∃ c, (exConvConfigure numOts parts).pprf = some c ∧
      (∀ i < c.pnt, interleavePoint .interleaved c.pnt c.domain i 0 < (exConvConfigure numOts parts).n2) ∧
      ∀ k, ∀ ds ∈ Draws c.depth k, ∀ rows rest, sampleChoiceBits .interleaved c (exConvConfigure numOts parts).n2 ds = some (rows, rest) →
        rows.length = c.pnt ∧ (∀ t < c.pnt, (rows.getD t []).length = c.depth) ∧
        ∀ x ∈ getPoints .interleaved c (fun t => rows.getD t []), x < (exConvConfigure numOts parts).n2 := by
  obtain ⟨c, h1, ok, hout, -, -⟩ := exConv_pprf_ok numOts parts hn hp h8 hfit
  refine ⟨c, h1, fun i hi => ?_, fun k ds hds rows rest h => sample_accepted .interleaved c ok.mul8 _ k ds hds rows rest h⟩
  rw [← hout]
  exact first_leaf .interleaved c ok (fun h => by cases h) i hi

/-- Eight trees with six leaves each: a draw is rejected, and the families of leaves that may be chosen are those below six. -/
example : let c : Conf := ⟨8, 6, 3⟩
    let row := [true, false, true]
    let ds := List.replicate 7 row ++ [[false, false, true], row]
    c.Ok .interleaved ∧ ds ∈ Draws c.depth 9 ∧
    sampleChoiceBits .interleaved c 48 ds = some (List.replicate 8 row, []) ∧
    getPoints .interleaved c (fun t => (List.replicate 8 row).getD t []) = [16, 17, 18, 19, 20, 21, 22, 23] ∧
    Leaves .interleaved c 48 [0, 1, 2, 3, 4, 5, 0, 0] := by
  refine ⟨⟨by decide, by decide, by decide, by decide, by decide, by decide, by decide, by decide⟩, ⟨by decide, by decide⟩,
    by decide +kernel, by decide +kernel, by decide, ?_⟩
  intro i p h
  have hi : i < 8 := by
    obtain ⟨h, -⟩ := List.getElem?_eq_some_iff.1 h
    simpa using h
  interval_cases i <;> simp at h <;> subst h <;> decide

end Verif.Silent
