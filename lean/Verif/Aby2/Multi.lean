import Verif.Aby2.Circuit

/-!
C38: AND gates with many inputs.
-/
set_option autoImplicit false

namespace Verif.Aby2

/-! ### Specification -/

/-- The subsets of size at least two, in the order of `powerset`. -/
def highSets {α : Type} (l : List α) : List (List α) := (powerset l).drop (l.length + 1)

/-- `s0`, `s1` are shares of the products of the masks over all sets of at least two operands
(aby2.rs:361-402 `setup_data_circ`). -/
def ProductShares (masks s0 s1 : List Bool) : Prop :=
  s0.length = (highSets masks).length ∧ s1.length = (highSets masks).length ∧
  ∀ (i : Nat) a b s, s0[i]? = some a → s1[i]? = some b → (highSets masks)[i]? = some s →
    (a ^^ b) = s.all id

/-- The combined masks of the operands. -/
def masksOf (xs0 xs1 : List Share) : List Bool := List.zipWith (fun x y => x.priv ^^ y.priv) xs0 xs1

/-- The values of the operands. -/
def valuesOf (xs0 xs1 : List Share) : List Bool :=
  List.zipWith (fun x y => x.pub ^^ x.priv ^^ y.priv) xs0 xs1

/-- An AND gate with `n` operands is evaluated correctly, whatever the operands, masks and shares
of the mask products: the public part both parties obtain, together with the masks of the output,
gives the conjunction. -/
def AndCorrect (n : Nat) : Prop :=
  ∀ (xs0 xs1 : List Share) (s0 s1 : List Bool) (o0 o1 : Share) (r0 r1 : SetupData),
    xs0.length = n → xs1.length = n → xs0.map (·.pub) = xs1.map (·.pub) →
    ProductShares (masksOf xs0 xs1) s0 s1 →
    ∃ d0 d1, computeDeltaShare 0 (.and n) xs0 (r0 ++ [s0]) o0 = some (d0, r0) ∧
      computeDeltaShare 1 (.and n) xs1 (r1 ++ [s1]) o1 = some (d1, r1) ∧
      ((d0 ^^ d1) ^^ o0.priv ^^ o1.priv) = (valuesOf xs0 xs1).all id

/-! ### The negative part -/

theorem combos_one {α : Type} (l : List α) : combos 1 l = l.map fun x => [x] := by
  induction l with
  | nil => rfl
  | cons x l ih => simp [combos, ih]

theorem powerset_split {α : Type} (l : List α) (h : 1 ≤ l.length) :
    powerset l = [] :: l.map (fun x => [x]) ++
      (List.range' 2 (l.length - 1)).flatMap fun k => combos k l := by
  unfold powerset
  have : List.range (l.length + 1) = 0 :: 1 :: List.range' 2 (l.length - 1) := by
    rw [List.range_eq_range']
    obtain ⟨k, hk⟩ : ∃ k, l.length = k + 1 := ⟨l.length - 1, by omega⟩
    rw [hk]
    simp [List.range'_succ]
  rw [this]
  simp [combos, combos_one]

theorem highSets_length {α : Type} (l : List α) (h : 1 ≤ l.length) :
    (powerset l).length = (highSets l).length + l.length + 1 := by
  rw [highSets, List.length_drop, powerset_split l h]
  simp; omega

theorem combos_map {α β : Type} (f : α → β) (k : Nat) (l : List α) :
    combos k (l.map f) = (combos k l).map (List.map f) := by
  induction l generalizing k with
  | nil => cases k <;> rfl
  | cons x l ih => cases k with
    | zero => rfl
    | succ k => simp [combos, ih, List.map_map, Function.comp_def]

theorem powerset_map {α β : Type} (f : α → β) (l : List α) :
    powerset (l.map f) = (powerset l).map (List.map f) := by
  simp [powerset, combos_map, List.map_flatMap]

theorem powerset_length {α β : Type} (a : List α) (b : List β) (h : a.length = b.length) :
    (powerset a).length = (powerset b).length := by
  have e : a.map (fun _ => ()) = b.map fun _ => () := by
    rw [List.map_const', List.map_const', h]
  have h1 : (powerset a).length = (powerset (a.map fun _ => ())).length := by
    rw [powerset_map, List.length_map]
  have h2 : (powerset b).length = (powerset (b.map fun _ => ())).length := by
    rw [powerset_map, List.length_map]
  rw [h1, h2, e]

theorem computeDeltaShare_many (party n : Nat) (hn : n ≠ 2) (inputs : List Share) (s : List Bool)
    (r : SetupData) (out : Share) (mp : Bool) (ps : List Bool)
    (hps : (powerset (inputs.take n)).map (fun s => s.foldl (fun acc a => acc && a.pub) true) =
      ps ++ [mp])
    (hl : ps.length = (s.reverse ++ (inputs.take n).reverse.map (·.priv)).length) :
    computeDeltaShare party (.and n) inputs (r ++ [s]) out =
      some ((decide (party = 1) && mp) ^^
        (ps.zip (s.reverse ++ (inputs.take n).reverse.map (·.priv))).foldl
          (fun acc p => acc && p.1 && p.2) true ^^ out.priv, r) := by
  rw [computeDeltaShare, pop_concat]
  simp only [Option.bind_eq_bind, Option.bind_some]
  rw [hps, pop_concat]
  simp only [Option.bind_some]
  rw [if_pos hl]; rfl

theorem foldAnd_false {l : List (Bool × Bool)} (a b : Bool) (i : Nat) (h : l[i]? = some (a, b))
    (hab : (a && b) = false) (acc : Bool) :
    l.foldl (fun acc p => acc && p.1 && p.2) acc = false := by
  have key : ∀ (l : List (Bool × Bool)), l.foldl (fun acc p => acc && p.1 && p.2) false = false := by
    intro l
    induction l with
    | nil => rfl
    | cons p l ih => simpa using ih
  induction l generalizing i acc with
  | nil => simp at h
  | cons p l ih =>
    cases i with
    | zero =>
      simp only [List.getElem?_cons_zero, Option.some.injEq] at h
      subst h
      rw [List.foldl_cons]
      have : (acc && a && b) = false := by rw [Bool.and_assoc, hab, Bool.and_false]
      simp only [this, key]
    | succ i => rw [List.foldl_cons]; exact ih i (by simpa using h) _

/-- Every AND gate with three or more operands is evaluated incorrectly for some inputs: all
operands true, with public parts false. -/
theorem and_many_wrong (n : Nat) (hn : 3 ≤ n) : ¬ AndCorrect n := by
  intro h
  let xs0 : List Share := List.replicate n ⟨false, true⟩
  let xs1 : List Share := List.replicate n ⟨false, false⟩
  have hm : masksOf xs0 xs1 = List.replicate n true := by simp [masksOf, xs0, xs1]
  have hlen := highSets_length (List.replicate n true) (by simp; omega)
  simp only [List.length_replicate] at hlen
  let s0 : List Bool := List.replicate (highSets (List.replicate n true)).length true
  let s1 : List Bool := List.replicate (highSets (List.replicate n true)).length false
  obtain ⟨d0, d1, e0, e1, e⟩ := h xs0 xs1 s0 s1 ⟨false, false⟩ ⟨false, false⟩ [] [] (by simp [xs0])
    (by simp [xs1]) (by simp [xs0, xs1]) (by
      rw [hm]
      refine ⟨by simp [s0], by simp [s1], ?_⟩
      intro i a b s ha hb hs
      have ha' : a = true := by
        have := List.mem_of_getElem? ha; simp only [s0, List.mem_replicate] at this; exact this.2
      have hb' : b = false := by
        have := List.mem_of_getElem? hb; simp only [s1, List.mem_replicate] at this; exact this.2
      subst ha' hb'
      rw [show (true ^^ false) = true from rfl]
      symm
      rw [List.all_eq_true]
      intro x hx
      have hmem : s ∈ powerset (List.replicate n true) :=
        List.mem_of_mem_drop (List.mem_of_getElem? hs)
      have hall : ∀ (k : Nat) (l : List Bool), (∀ x ∈ l, x = true) → ∀ s ∈ combos k l, ∀ x ∈ s, x = true := by
        intro k l
        induction l generalizing k with
        | nil => intro _ s hs x hx; cases k <;> simp [combos] at hs; subst hs; simp at hx
        | cons y l ih =>
          intro hl s hs x hx
          cases k with
          | zero => simp [combos] at hs; subst hs; simp at hx
          | succ k =>
            simp only [combos, List.mem_append, List.mem_map] at hs
            rcases hs with ⟨t, ht, rfl⟩ | hs
            · rcases List.mem_cons.1 hx with rfl | hx
              · exact hl _ List.mem_cons_self
              · exact ih k (fun z hz => hl z (List.mem_cons_of_mem _ hz)) t ht x hx
            · exact ih _ (fun z hz => hl z (List.mem_cons_of_mem _ hz)) s hs x hx
      simp only [powerset, List.mem_flatMap] at hmem
      obtain ⟨k, -, hk⟩ := hmem
      simpa using hall k _ (by simp) s hk x hx)
  have hv : (valuesOf xs0 xs1).all id = true := by
    simp [valuesOf, xs0, xs1]
  rw [hv] at e
  -- the products of the public parts
  have hpub : ∀ p : Bool, (powerset (List.take n (List.replicate n (Share.mk false p)))).map
      (fun s => s.foldl (fun acc a => acc && a.pub) true) =
      (true :: List.replicate ((powerset (List.replicate n true)).length - 2) false) ++ [false] := by
    intro p
    have hne : ∀ (k : Nat) (l : List Share), (∀ x ∈ l, x.pub = false) → 1 ≤ k → ∀ s ∈ combos k l,
        s.foldl (fun acc a => acc && a.pub) true = false := by
      intro k l hl hk
      have hfold : ∀ (s : List Share), s.foldl (fun acc a => acc && a.pub) false = false := by
        intro s; induction s with
        | nil => rfl
        | cons x s ih => simpa using ih
      induction l generalizing k with
      | nil => intro s hs; cases k <;> simp [combos] at hs hk
      | cons y l ih =>
        intro s hs
        cases k with
        | zero => omega
        | succ k =>
          simp only [combos, List.mem_append, List.mem_map] at hs
          rcases hs with ⟨t, -, rfl⟩ | hs
          · simp [hl y List.mem_cons_self, hfold]
          · exact ih (k + 1) (fun z hz => hl z (List.mem_cons_of_mem _ hz)) (by omega) s hs
    have hr : List.take n (List.replicate n (Share.mk false p)) = List.replicate n ⟨false, p⟩ := by
      simp
    rw [hr]
    have hl2 := powerset_length (List.replicate n (Share.mk false p)) (List.replicate n true) (by simp)
    have hsp : powerset (List.replicate n (Share.mk false p)) =
        [] :: (powerset (List.replicate n (Share.mk false p))).tail := by
      rw [powerset_split _ (by simp; omega)]; simp
    have htail : ∀ s ∈ (powerset (List.replicate n (Share.mk false p))).tail,
        s.foldl (fun acc a => acc && a.pub) true = false := by
      intro s hs
      have h' : ∃ k, 1 ≤ k ∧ s ∈ combos k (List.replicate n (Share.mk false p)) := by
        rw [powerset_split _ (by simp; omega)] at hs
        simp only [List.cons_append, List.tail_cons, List.mem_append, List.mem_flatMap] at hs
        rcases hs with hs | ⟨k, hk, hs⟩
        · exact ⟨1, le_refl _, by rw [combos_one]; exact hs⟩
        · exact ⟨k, by rw [List.mem_range'] at hk; omega, hs⟩
      obtain ⟨k, hk, hs⟩ := h'
      exact hne k _ (by simp) hk s hs
    rw [hsp, List.map_cons, List.foldl_nil]
    have : ((powerset (List.replicate n (Share.mk false p))).tail).map
        (fun s => s.foldl (fun acc a => acc && a.pub) true) =
        List.replicate ((powerset (List.replicate n true)).length - 1) false := by
      rw [List.map_congr_left htail, List.map_const', List.length_tail, hl2]
    rw [this, List.cons_append]
    congr 1
    rw [← List.replicate_succ']
    congr 1; omega
  have hcomp : ∀ (party : Nat) (p : Bool) (s : List Bool),
      s.length = (highSets (List.replicate n true)).length →
      computeDeltaShare party (.and n) (List.replicate n ⟨false, p⟩) ([] ++ [s]) ⟨false, false⟩ =
        some (false, []) := by
    intro party p s hs
    rw [computeDeltaShare_many party n (by omega) _ s [] _ false _ (hpub p) (by
      simp [hs]; omega)]
    have hz : (((true :: List.replicate ((powerset (List.replicate n true)).length - 2) false)).zip
        (s.reverse ++ ((List.replicate n (Share.mk false p)).take n).reverse.map (·.priv)))[1]? =
        some (false, ((s.reverse ++ ((List.replicate n (Share.mk false p)).take n).reverse.map
          (·.priv))[1]?).getD false) := by
      rw [List.getElem?_zip_eq_some]
      constructor
      · rw [List.getElem?_cons_succ, List.getElem?_replicate, if_pos (by omega)]
      · have : 1 < (s.reverse ++ ((List.replicate n (Share.mk false p)).take n).reverse.map
          (·.priv)).length := by simp; omega
        rw [List.getElem?_eq_getElem this]; rfl
    rw [foldAnd_false _ _ 1 hz (by simp)]
    simp
  rw [hcomp 0 true s0 (by simp [s0])] at e0
  rw [hcomp 1 false s1 (by simp [s1])] at e1
  simp only [Option.some.injEq, Prod.mk.injEq] at e0 e1
  rw [← e0.1, ← e1.1] at e
  simp at e

/-! ### The positive part -/

theorem and_two_correct : AndCorrect 2 := by
  intro xs0 xs1 s0 s1 o0 o1 r0 r1 l0 l1 hp hs
  match xs0, xs1, l0, l1 with
  | [a, b], [c, d], _, _ =>
    obtain ⟨h0, h1, hx⟩ := hs
    have hh : highSets (masksOf [a, b] [c, d]) = [[a.priv ^^ c.priv, b.priv ^^ d.priv]] := rfl
    rw [hh] at h0 h1 hx
    match s0, s1, h0, h1 with
    | [s], [t], _, _ =>
      have hst := hx 0 s t _ rfl rfl rfl
      refine ⟨_, _, computeDeltaShare_two 0 a b o0 r0 s, computeDeltaShare_two 1 c d o1 r1 t, ?_⟩
      simp only [List.map_cons, List.map_nil, List.cons.injEq, and_true] at hp
      obtain ⟨p1, p2⟩ := hp
      have := and_share c.pub d.pub s t a.priv c.priv b.priv d.priv o0.priv o1.priv (by
        rw [hst]; simp)
      rw [p1, p2]
      simp only [valuesOf, List.zipWith_cons_cons, List.zipWith_nil_right, List.all_cons, id,
        List.all_nil, Bool.and_true, p1, p2]
      rw [← this]
      simp

theorem and_one_correct : AndCorrect 1 := by
  intro xs0 xs1 s0 s1 o0 o1 r0 r1 l0 l1 hp hs
  match xs0, xs1, l0, l1 with
  | [a], [c], _, _ =>
    obtain ⟨h0, h1, -⟩ := hs
    have hh : highSets (masksOf [a] [c]) = [] := rfl
    rw [hh] at h0 h1
    obtain rfl : s0 = [] := List.length_eq_zero_iff.1 h0
    obtain rfl : s1 = [] := List.length_eq_zero_iff.1 h1
    refine ⟨_, _, computeDeltaShare_many 0 1 (by omega) [a] [] r0 o0 a.pub [true] rfl rfl,
      computeDeltaShare_many 1 1 (by omega) [c] [] r1 o1 c.pub [true] rfl rfl, ?_⟩
    simp only [List.map_cons, List.map_nil, List.cons.injEq, and_true] at hp
    simp [valuesOf, hp]
    cases c.pub <;> cases a.priv <;> cases c.priv <;> cases o0.priv <;> cases o1.priv <;> rfl

theorem and_zero_correct : AndCorrect 0 := by
  intro xs0 xs1 s0 s1 o0 o1 r0 r1 l0 l1 hp hs
  match xs0, xs1, l0, l1 with
  | [], [], _, _ =>
    obtain ⟨h0, h1, -⟩ := hs
    have hh : highSets (masksOf [] []) = [] := rfl
    rw [hh] at h0 h1
    obtain rfl : s0 = [] := List.length_eq_zero_iff.1 h0
    obtain rfl : s1 = [] := List.length_eq_zero_iff.1 h1
    refine ⟨_, _, computeDeltaShare_many 0 0 (by omega) [] [] r0 o0 true [] rfl rfl,
      computeDeltaShare_many 1 0 (by omega) [] [] r1 o1 true [] rfl rfl, ?_⟩
    cases o0.priv <;> cases o1.priv <;> rfl

/-- **C38.**  AND gates are evaluated correctly exactly up to two operands: the claim fails for all
larger gates, because aby2.rs:297-300 combines the terms with AND instead of XOR. -/
theorem and_correct_iff_partial (n : Nat) : AndCorrect n ↔ n ≤ 2 := by
  constructor
  · intro h
    by_contra hn
    exact and_many_wrong n (by omega) h
  · intro h
    have : n = 0 ∨ n = 1 ∨ n = 2 := by omega
    rcases this with rfl | rfl | rfl
    · exact and_zero_correct
    · exact and_one_correct
    · exact and_two_correct

/-- Operands that satisfy the hypotheses of `AndCorrect 3`, with masks that are not trivial. -/
example : ProductShares (masksOf [⟨true, true⟩, ⟨false, true⟩, ⟨true, false⟩]
      [⟨true, false⟩, ⟨false, false⟩, ⟨true, true⟩])
    [true, false, true, true] [false, true, false, false] := by
  refine ⟨rfl, rfl, ?_⟩
  intro i a b s ha hb hs
  match i, ha, hb, hs with
  | 0, ha, hb, hs => cases ha; cases hb; cases hs; rfl
  | 1, ha, hb, hs => cases ha; cases hb; cases hs; rfl
  | 2, ha, hb, hs => cases ha; cases hb; cases hs; rfl
  | 3, ha, hb, hs => cases ha; cases hb; cases hs; rfl
  | i + 4, ha, hb, hs => cases ha

end Verif.Aby2
