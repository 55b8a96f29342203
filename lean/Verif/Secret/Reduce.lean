import Mathlib.Data.Nat.Log
import Verif.Secret.Props

/-!
C11: `low_depth_reduce`.
-/
set_option autoImplicit false

namespace Verif.Secret

open Circuit Gmw Exec

/-! ### Specification -/

/-- The expression computed by a reduction. -/
inductive Tree (α : Type) where
  | leaf (a : α)
  | node (l r : Tree α)
deriving DecidableEq, Repr

namespace Tree
variable {α β : Type}

/-- The operands, from left to right. -/
def leaves : Tree α → List α
  | leaf a => [a]
  | node l r => l.leaves ++ r.leaves

/-- The number of operations on the longest path. -/
def depth : Tree α → Nat
  | leaf _ => 0
  | node l r => max l.depth r.depth + 1

/-- The value of the expression. -/
def eval (op : α → α → α) : Tree α → α
  | leaf a => a
  | node l r => op (l.eval op) (r.eval op)

end Tree

variable {α β σ : Type}

/-- What the caller knows about the operation `f`: `P s x a` says that in state `s` the element `x`
stands for the value `a`; `I k s` that `k` operations have been performed. -/
structure Performs (f : α → α → σ → Option (α × σ)) (op : β → β → β) (P : σ → α → β → Prop)
    (I : Nat → σ → Prop) : Prop where
  step : ∀ s k x y a b, P s x a → P s y b → I k s → ∃ z s', f x y s = some (z, s') ∧
    P s' z (op a b) ∧ I (k + 1) s' ∧ ∀ w c, P s w c → P s' w c

/-! ### Proof -/

/-- The trees standing in the buffer after some passes: what they are made of, and their depth. -/
structure Level (d : Nat) (ts : List (Tree β)) : Prop where
  le : ∀ t ∈ ts, t.depth ≤ d
  first : ∀ t, ts.head? = some t → t.depth = d

def passT : List (Tree β) → List (Tree β)
  | x :: y :: rest => .node x y :: passT rest
  | l => l

theorem passT_length (ts : List (Tree β)) : (passT ts).length = (ts.length + 1) / 2 := by
  induction ts using passT.induct with
  | case1 x y rest ih => simp [passT, ih]; omega
  | case2 l h =>
    match l, h with
    | [], _ => simp [passT]
    | [x], _ => simp [passT]
    | x :: y :: r, h => exact absurd rfl (h x y r)

theorem passT_leaves (ts : List (Tree β)) :
    (passT ts).flatMap Tree.leaves = ts.flatMap Tree.leaves := by
  induction ts using passT.induct with
  | case1 x y rest ih => simp [passT, Tree.leaves, ih]
  | case2 l h =>
    match l, h with
    | [], _ => rfl
    | [x], _ => rfl
    | x :: y :: r, h => exact absurd rfl (h x y r)

theorem passT_le (d : Nat) (ts : List (Tree β)) (h : ∀ t ∈ ts, t.depth ≤ d) :
    ∀ t ∈ passT ts, t.depth ≤ d + 1 := by
  induction ts using passT.induct with
  | case1 x y rest ih =>
    intro t ht
    simp only [passT, List.mem_cons] at ht
    rcases ht with rfl | ht
    · have h1 := h x (by simp)
      have h2 := h y (by simp)
      simp only [Tree.depth]; omega
    · exact ih (fun t ht => h t (by simp [ht])) t ht
  | case2 l hl =>
    match l, hl with
    | [], _ => intro t ht; simp [passT] at ht
    | [x], _ =>
      intro t ht
      have := h t (by simpa [passT] using ht)
      omega
    | x :: y :: r, hl => exact absurd rfl (hl x y r)

theorem passT_level (d : Nat) (ts : List (Tree β)) (h : Level d ts) (hl : 1 < ts.length) :
    Level (d + 1) (passT ts) := by
  refine ⟨passT_le d ts h.le, ?_⟩
  match ts, hl with
  | x :: y :: r, _ =>
    intro t ht
    simp only [passT, List.head?_cons, Option.some.injEq] at ht
    subst ht
    have h1 := h.first x rfl
    have h2 := h.le y (by simp)
    simp only [Tree.depth]; omega

theorem pass_spec {f : α → α → σ → Option (α × σ)} {op : β → β → β} {P : σ → α → β → Prop}
    {I : Nat → σ → Prop} (hf : Performs f op P I) (ts : List (Tree β)) (xs : List α) (s : σ)
    (k : Nat) (hx : List.Forall₂ (fun x t => P s x (t.eval op)) xs ts) (hI : I k s) :
    ∃ ys s', pass f xs s = some (ys, s') ∧
      List.Forall₂ (fun x t => P s' x (t.eval op)) ys (passT ts) ∧
      I (k + (ts.length - (passT ts).length)) s' ∧ ∀ w c, P s w c → P s' w c := by
  induction ts using passT.induct generalizing xs s k with
  | case1 t u rest ih =>
    cases hx with
    | @cons x _ xs' _ h1 hx =>
      cases hx with
      | @cons y _ xs'' _ h2 hx =>
        obtain ⟨z, s1, e1, p1, i1, m1⟩ := hf.step s k x y _ _ h1 h2 hI
        obtain ⟨ys, s2, e2, p2, i2, m2⟩ := ih xs'' s1 (k + 1)
          (hx.imp fun a b hab => m1 _ _ hab) i1
        refine ⟨z :: ys, s2, by simp [pass, e1, e2], ?_, ?_, fun w c h => m2 w c (m1 w c h)⟩
        · simp only [passT]
          exact .cons (m2 _ _ p1) p2
        · have := passT_length rest
          simp only [passT, List.length_cons]
          convert i2 using 1
          omega
  | case2 l h =>
    match l, h with
    | [], _ =>
      cases hx
      exact ⟨[], s, rfl, .nil, by simpa [passT] using hI, fun _ _ h => h⟩
    | [t], _ =>
      cases hx with
      | @cons x _ xs' _ h1 hx =>
        cases hx
        exact ⟨[x], s, rfl, .cons h1 .nil, by simpa [passT] using hI, fun _ _ h => h⟩
    | x :: y :: r, h => exact absurd rfl (h x y r)

theorem reduceLoop_spec {f : α → α → σ → Option (α × σ)} {op : β → β → β} {P : σ → α → β → Prop}
    {I : Nat → σ → Prop} (hf : Performs f op P I) (fuel : Nat) (ts : List (Tree β)) (xs : List α)
    (s : σ) (k d : Nat) (hx : List.Forall₂ (fun x t => P s x (t.eval op)) xs ts) (hI : I k s)
    (hfuel : ts.length < fuel) (hne : ts ≠ []) (hl : Level d ts) :
    ∃ (x : α) (s' : σ) (t : Tree β), reduceLoop f fuel xs s = some ([x], s') ∧ P s' x (t.eval op) ∧
      t.leaves = ts.flatMap Tree.leaves ∧ t.depth = d + Nat.clog 2 ts.length ∧
      I (k + (ts.length - 1)) s' ∧ ∀ w c, P s w c → P s' w c := by
  induction fuel generalizing ts xs s k d with
  | zero => omega
  | succ fuel ih =>
    have hlen := hx.length_eq
    by_cases h1 : ts.length ≤ 1
    · match ts, hne, h1 with
      | [t], _, _ =>
        cases hx with
        | @cons x _ xs' _ p hx =>
          cases hx
          refine ⟨x, s, t, by simp [reduceLoop], p, by simp, ?_, by simpa using hI,
            fun _ _ h => h⟩
          simp [hl.first t rfl]
    · obtain ⟨ys, s1, e1, p1, i1, m1⟩ := pass_spec hf ts xs s k hx hI
      have hpl := passT_length ts
      obtain ⟨x, s2, t, e2, p2, l2, d2, i2, m2⟩ := ih (passT ts) ys s1 _ (d + 1) p1 i1 (by omega)
        (by intro h; rw [h] at hpl; simp at hpl; omega) (passT_level d ts hl (by omega))
      refine ⟨x, s2, t, ?_, p2, by rw [l2, passT_leaves], ?_, ?_, fun w c h => m2 w c (m1 w c h)⟩
      · have : ¬ xs.length ≤ 1 := by omega
        simp [reduceLoop, this, e1, e2]
      · rw [d2, hpl]
        have : Nat.clog 2 ts.length = Nat.clog 2 ((ts.length + 1) / 2) + 1 := by
          rw [Nat.clog_of_two_le (by omega) (by omega)]
          rfl
        omega
      · convert i2 using 1
        omega

theorem foldl_assoc (op : β → β → β) (h : ∀ a b c, op (op a b) c = op a (op b c)) (x y : β)
    (l : List β) : l.foldl op (op x y) = op x (l.foldl op y) := by
  induction l generalizing y with
  | nil => rfl
  | cons z l ih => simp only [List.foldl_cons]; rw [← ih, h]

theorem Tree.leaves_ne (t : Tree β) : t.leaves ≠ [] := by
  induction t with
  | leaf a => simp [leaves]
  | node l r ihl _ => simp [leaves, ihl]

theorem Tree.eval_assoc (op : β → β → β) (h : ∀ a b c, op (op a b) c = op a (op b c)) (t : Tree β) :
    ∀ x xs, t.leaves = x :: xs → t.eval op = xs.foldl op x := by
  induction t with
  | leaf a =>
    intro x xs e
    simp only [leaves, List.cons.injEq] at e
    obtain ⟨rfl, rfl⟩ := e
    rfl
  | node l r ihl ihr =>
    intro x xs e
    obtain ⟨a, as, ha⟩ := List.exists_cons_of_ne_nil l.leaves_ne
    obtain ⟨c, cs, hc⟩ := List.exists_cons_of_ne_nil r.leaves_ne
    simp only [leaves, ha, hc, List.cons_append, List.cons.injEq] at e
    obtain ⟨rfl, rfl⟩ := e
    simp only [eval, ihl _ _ ha, ihr _ _ hc, List.foldl_append, List.foldl_cons]
    exact (foldl_assoc op h _ _ _).symm

/-! ### Theorems -/

/-- **C11.** `low_depth_reduce` on `n` elements, for every operation `f` (which may change the
state and does not panic): it returns nothing exactly on the empty sequence, without performing an
operation; otherwise the result stands for an expression whose operands are the given elements in
order and whose depth is exactly the ceiling of `log2 n`, using exactly `n - 1` operations; if the
operation is associative the value is that of folding from left to right. -/
theorem low_depth_reduce_correct {f : α → α → σ → Option (α × σ)} {op : β → β → β}
    {P : σ → α → β → Prop} {I : Nat → σ → Prop} (hf : Performs f op P I) (xs : List α)
    (bs : List β) (s : σ) (hx : List.Forall₂ (P s) xs bs) (hI : I 0 s) :
    (xs = [] → lowDepthReduce f xs s = some (none, s)) ∧
    (xs ≠ [] → ∃ (x : α) (s' : σ) (t : Tree β), lowDepthReduce f xs s = some (some x, s') ∧ P s' x (t.eval op) ∧
      t.leaves = bs ∧ t.depth = Nat.clog 2 xs.length ∧ I (xs.length - 1) s' ∧
      (∀ w c, P s w c → P s' w c) ∧
      ((∀ a b c, op (op a b) c = op a (op b c)) → ∀ c cs, bs = c :: cs →
        P s' x (cs.foldl op c))) := by
  constructor
  · rintro rfl
    rfl
  · intro hne
    have hlen := hx.length_eq
    obtain ⟨x, s', t, e, p, l, d, i, m⟩ := reduceLoop_spec hf (xs.length + 1) (bs.map Tree.leaf) xs s
      0 0 (by rw [List.forall₂_map_right_iff]; exact hx) hI (by simp; omega)
      (by
        intro h
        rw [List.map_eq_nil_iff] at h
        subst h
        exact hne (List.length_eq_zero_iff.1 hlen))
      ⟨by simp +contextual [Tree.depth], by
        intro t ht
        simp only [List.head?_map, Option.map_eq_some_iff] at ht
        obtain ⟨a, -, rfl⟩ := ht
        rfl⟩
    have hl : t.leaves = bs := by
      rw [l]
      clear l
      induction bs with
      | nil => rfl
      | cons b bs ih => simp [Tree.leaves, List.flatMap_map]
    refine ⟨x, s', t, by simp [lowDepthReduce, e], p, hl, by simpa [hlen] using d,
      by simpa [hlen] using i, m, ?_⟩
    intro ha c cs hb
    rw [← t.eval_assoc op ha c cs (hl.trans hb)]
    exact p

/-- The pure operation counting its calls: the hypotheses of the theorem are met for every `op`. -/
theorem performs_pure (op : β → β → β) :
    Performs (fun x y (k : Nat) => some (op x y, k + 1)) op (fun _ x a => x = a) (fun k s => s = k) :=
  ⟨by rintro s k x y a b rfl rfl rfl; exact ⟨_, _, rfl, rfl, rfl, fun _ _ h => h⟩⟩

/-- **C11** for a pure operation. -/
theorem low_depth_reduce_pure (op : β → β → β) (h : ∀ a b c, op (op a b) c = op a (op b c)) (x : β)
    (xs : List β) : lowDepthReduce (fun x y (k : Nat) => some (op x y, k + 1)) (x :: xs) 0 =
      some (some (xs.foldl op x), xs.length) := by
  obtain ⟨-, h2⟩ := low_depth_reduce_correct (performs_pure op) (x :: xs) (x :: xs) 0
    (by rw [List.forall₂_eq_eq_eq]) rfl
  obtain ⟨z, s', t, e, -, -, -, i, -, a⟩ := h2 (by simp)
  rw [e, a h x xs rfl]
  simp only [List.length_cons, Nat.add_sub_cancel] at i
  rw [i]

/-- The shape on five elements. -/
example : lowDepthReduce (fun x y (k : Nat) => some (Tree.node x y, k + 1))
      [.leaf 1, .leaf 2, .leaf 3, .leaf 4, .leaf 5] 0 =
    some (some (.node (.node (.node (.leaf 1) (.leaf 2)) (.node (.leaf 3) (.leaf 4))) (.leaf 5)), 4) := by
  decide

/-- The AND of secrets, in the form needed by `low_depth_reduce`. -/
theorem performs_and (b : Builder) (i : Nat) :
    Performs (fun x y s => (bitAnd s x y).map Prod.swap) (fun F G val => F val && G val)
      (fun s x F => Ok s ∧ Extends b s ∧ Valid s x ∧ x.1 = i ∧
        ∀ val, Consistent s val → val x = F val)
      (fun k s => Ok s ∧ Extends b s ∧ andCount s = andCount b + k ∧
        ∀ val, Consistent b val → ∃ val', Consistent s val' ∧ ∀ u, Valid b u → val' u = val u) := by
  constructor
  rintro s k x y F G ⟨hs, he, hx, hxi, vx⟩ ⟨-, -, hy, hyi, vy⟩ ⟨-, -, hI, hE⟩
  obtain ⟨s', z, e, hz, d⟩ := bitAnd_denotes hs hx hy (hxi.trans hyi.symm)
  refine ⟨z, s', by simp [e], ⟨d.ok, he.trans d.ext, d.valid, hz.trans hxi, ?_⟩,
    ⟨d.ok, he.trans d.ext, ?_, ?_⟩, ?_⟩
  · intro val hval
    rw [d.value val hval, vx val (d.ext.consistent hval), vy val (d.ext.consistent hval)]
  · rw [d.ands, hI]; omega
  · intro val hval
    obtain ⟨v1, c1, e1⟩ := hE val hval
    obtain ⟨v2, c2, e2⟩ := d.exist v1 c1
    exact ⟨v2, c2, fun u hu => (e2 u (he.valid hu)).trans (e1 u hu)⟩
  · rintro w H ⟨-, he', hw, hwi, vw⟩
    exact ⟨d.ok, he.trans d.ext, d.ext.valid hw, hwi, fun val hval => vw val (d.ext.consistent hval)⟩

/-- **C11/C12** together, the documented use `low_depth_reduce(inputs, BitAnd::bitand)`: for any
number of secrets of one circuit the result is their conjunction, computed with `n - 1` AND gates
of an expression of depth `⌈log2 n⌉`; nothing that existed before changes. -/
theorem and_reduce_denotes {b : Builder} (hb : Ok b) (i : Nat) (x : Sec) (xs : List Sec)
    (hv : ∀ s ∈ x :: xs, Valid b s ∧ s.1 = i) :
    ∃ b' t, lowDepthReduce (fun x y s => (bitAnd s x y).map Prod.swap) (x :: xs) b = some (some t, b') ∧
      Denotes b b' t (fun val => (x :: xs).all val) xs.length := by
  obtain ⟨-, h2⟩ := low_depth_reduce_correct (performs_and b i) (x :: xs)
    ((x :: xs).map fun s val => val s) b (by
      rw [List.forall₂_map_right_iff]
      apply List.forall₂_same.2
      intro s hs
      exact ⟨hb, .refl b, (hv s hs).1, (hv s hs).2, fun _ _ => rfl⟩)
    ⟨hb, .refl b, rfl, fun val h => ⟨val, h, fun _ _ => rfl⟩⟩
  obtain ⟨t, b', tr, e, -, -, -, ⟨i1, i2, i3, i4⟩, -, a⟩ := h2 (by simp)
  obtain ⟨p1, p2, p3, p4, p5⟩ := a (by intro F G H; funext val; exact Bool.and_assoc _ _ _) _ _ rfl
  refine ⟨b', t, e, p1, p2, p3, ?_, i4, by simpa using i3⟩
  intro val hval
  rw [p5 val hval]
  have : ∀ (l : List Sec) (F : (Node → Bool) → Bool),
      (l.map fun s (val : Node → Bool) => val s).foldl (fun F G val => F val && G val) F val =
        (F val && l.all val) := by
    intro l
    induction l with
    | nil => intro F; simp
    | cons y l ih => intro F; simp only [List.map_cons, List.foldl_cons, ih, List.all_cons, Bool.and_assoc]
  rw [this]; rfl

end Verif.Secret
