import Verif.Mail.Lemmas

/-!
Lemmas for C66: the comparison at a position, the search in one mail, the chain of keywords.
-/
set_option autoImplicit false

namespace Verif.Mail

open Circuit Gmw Secret Exec

/-- The secrets of a text: eight existing gates of the main circuit per character. -/
def Text (b : Builder) (t : List (List Sec)) : Prop :=
  ∀ row ∈ t, row.length = 8 ∧ ∀ s ∈ row, Valid b s ∧ s.1 = 0

theorem Text.mono {b b' : Builder} {k : Nat} (h : Made b b' k) {t : List (List Sec)}
    (ht : Text b t) : Text b' t :=
  fun row hr => ⟨(ht row hr).1, fun s hs => ⟨h.ext.valid ((ht row hr).2 s hs).1, ((ht row hr).2 s hs).2⟩⟩

/-- The compared bits of a text. -/
def six (val : Node → Bool) (t : List (List Sec)) : List (List Bool) :=
  t.map fun row => (row.take 6).map val

theorem six_length {b : Builder} {t : List (List Sec)} (ht : Text b t) (val : Node → Bool) :
    ∀ x ∈ six val t, x.length = 6 := by
  intro x hx
  simp only [six, List.mem_map] at hx
  obtain ⟨row, hr, rfl⟩ := hx
  simp [(ht row hr).1]

theorem split_length {b : Builder} {t : List (List Sec)} (ht : Text b t) :
    (t.flatMap fun c => c.take 6).length = 6 * t.length := by
  induction t with
  | nil => rfl
  | cons row t ih =>
    rw [List.flatMap_cons, List.length_append, ih fun r hr => ht r (List.mem_cons_of_mem _ hr)]
    simp [(ht row List.mem_cons_self).1]; omega

theorem flatten_inj {α : Type} (n : Nat) (l l' : List (List α)) (hl : ∀ x ∈ l, x.length = n)
    (hl' : ∀ x ∈ l', x.length = n) (h : l.length = l'.length) (e : l.flatten = l'.flatten) :
    l = l' := by
  induction l generalizing l' with
  | nil =>
    cases l' with
    | nil => rfl
    | cons => simp at h
  | cons x l ih =>
    cases l' with
    | nil => simp at h
    | cons y l' =>
      rw [List.flatten_cons, List.flatten_cons] at e
      have := List.append_inj e ((hl x List.mem_cons_self).trans (hl' y List.mem_cons_self).symm)
      rw [this.1, ih l' (fun z hz => hl z (List.mem_cons_of_mem _ hz))
        (fun z hz => hl' z (List.mem_cons_of_mem _ hz)) (by simpa using h) this.2]

theorem all_eq (val : Node → Bool) (xs ys : List Sec) (h : xs.length = ys.length) :
    ((xs.zip ys).map fun p val => !(val p.1 ^^ val p.2)).all (fun F : (Node → Bool) → Bool => F val) =
      decide (xs.map val = ys.map val) := by
  induction xs generalizing ys with
  | nil =>
    cases ys with
    | nil => rfl
    | cons => simp at h
  | cons x xs ih =>
    cases ys with
    | nil => simp at h
    | cons y ys =>
      simp only [List.zip_cons_cons, List.map_cons, List.all_cons]
      rw [ih ys (by simpa using h)]
      simp only [List.cons.injEq, Bool.decide_and]
      cases val x <;> cases val y <;> simp

theorem forall2_map {α β γ : Type} {R : β → γ → Prop} {f : α → γ} {xs : List α} {ys : List β}
    (h : List.Forall₂ (fun a y => R y (f a)) xs ys) : List.Forall₂ R ys (xs.map f) := by
  induction h with
  | nil => exact .nil
  | cons h _ ih => exact .cons h ih

theorem forall2_pair {α β : Type} {R : α → β → Prop} {xs : List α} {ys : List β}
    (h : List.Forall₂ R xs ys) :
    ∃ l : List (α × β), l.map (·.1) = xs ∧ l.map (·.2) = ys ∧ ∀ p ∈ l, R p.1 p.2 := by
  induction h with
  | nil => exact ⟨[], rfl, rfl, by simp⟩
  | @cons a y _ _ h _ ih =>
    obtain ⟨l, l1, l2, l3⟩ := ih
    refine ⟨(a, y) :: l, by simp [l1], by simp [l2], ?_⟩
    intro q hq
    rcases List.mem_cons.1 hq with rfl | hq
    · exact h
    · exact l3 q hq

theorem sum_const {α : Type} (xs : List α) (k : Nat) : (xs.map fun _ => k).sum = xs.length * k := by
  induction xs with
  | nil => simp
  | cons x xs ih => rw [List.map_cons, List.sum_cons, ih, List.length_cons, Nat.succ_mul]; omega

theorem xorInplace_made (b : Builder) (h0 : 0 < b.length) (hb : Ok b) (xs ys : List Sec)
    (hl : xs.length = ys.length) (hx : ∀ s ∈ xs, Valid b s ∧ s.1 = 0)
    (hy : ∀ s ∈ ys, Valid b s ∧ s.1 = 0) :
    ∃ b' rs, xorInplace b xs ys = some (b', rs) ∧ Made b b' 0 ∧
      List.Forall₂ (Holds b') rs ((xs.zip ys).map fun p val => val p.1 ^^ val p.2) := by
  obtain ⟨b', rs, e, m, h⟩ := mapB_made (f := fun b (p : Sec × Sec) => bitXor b p.1 p.2)
    (Pre := fun b p => (Valid b p.1 ∧ p.1.1 = 0) ∧ (Valid b p.2 ∧ p.2.1 = 0))
    (Post := fun b p t => Holds b t fun val => val p.1 ^^ val p.2) (k := fun _ => 0)
    (fun b b' n a m h => ⟨⟨m.ext.valid h.1.1, h.1.2⟩, m.ext.valid h.2.1, h.2.2⟩)
    (fun b b' n a y m h => h.mono m)
    (fun b p h0 hb h => xor_made hb (holds_self h.1.1 h.1.2) (holds_self h.2.1 h.2.2))
    (xs.zip ys) b h0 hb (by
      rintro ⟨s, r⟩ hp
      have := List.of_mem_zip hp
      exact ⟨hx s this.1, hy r this.2⟩)
  refine ⟨b', rs, by simp [xorInplace, hl, e], ?_, forall2_map h⟩
  convert m using 1
  simp

theorem comparison_made (b : Builder) (h0 : 0 < b.length) (hb : Ok b) (kw t : List (List Sec))
    (hk : Text b kw) (ht : Text b t) (pos : Nat) (hpos : pos + kw.length ≤ t.length) :
    ∃ b' rs Fs, comparison b kw t pos = some (b', rs) ∧ Made b b' 0 ∧
      List.Forall₂ (Holds b') rs Fs ∧ rs.length = 6 * kw.length ∧
      ∀ val, Fs.all (fun F : (Node → Bool) → Bool => F val) =
        decide (six val kw = ((six val t).drop pos).take kw.length) := by
  have hs : Text b ((t.drop pos).take kw.length) :=
    fun row hr => ht row (List.mem_of_mem_drop (List.mem_of_mem_take hr))
  have hsl : ((t.drop pos).take kw.length).length = kw.length := by
    rw [List.length_take, List.length_drop]; omega
  have hmem : ∀ (t : List (List Sec)), Text b t → ∀ s ∈ t.flatMap (fun c => c.take 6),
      Valid b s ∧ s.1 = 0 := by
    intro t ht s hs
    simp only [List.mem_flatMap] at hs
    obtain ⟨row, hr, h⟩ := hs
    exact (ht row hr).2 s (List.mem_of_mem_take h)
  have hlen : (kw.flatMap fun c => c.take 6).length =
      (((t.drop pos).take kw.length).flatMap fun c => c.take 6).length := by
    rw [split_length hk, split_length hs, hsl]
  obtain ⟨b1, r1, e1, m1, h1⟩ := xorInplace_made b h0 hb _ _ hlen (hmem _ hk) (hmem _ hs)
  generalize hz : (kw.flatMap fun c => c.take 6).zip
    (((t.drop pos).take kw.length).flatMap fun c => c.take 6) = z at h1
  have hpair : ∃ l : List (Sec × (Sec × Sec)), l.map (·.1) = r1 ∧ l.map (·.2) = z ∧
      ∀ p ∈ l, Holds b1 p.1 fun val => val p.2.1 ^^ val p.2.2 := by
    rw [List.forall₂_map_right_iff] at h1
    exact forall2_pair h1
  obtain ⟨b2, r2, e2, m2, h2⟩ : ∃ b2 r2, mapB (fun b s => Secret.not b s) b1 r1 = some (b2, r2) ∧
      Made b1 b2 0 ∧ List.Forall₂ (Holds b2) r2 (z.map fun p val => !(val p.1 ^^ val p.2)) := by
    obtain ⟨l, rfl, rfl, hl⟩ := hpair
    obtain ⟨b2, r2, e, m, h⟩ := mapB_made (f := fun b (p : Sec × (Sec × Sec)) => Secret.not b p.1)
      (Pre := fun b p => Holds b p.1 fun val => val p.2.1 ^^ val p.2.2)
      (Post := fun b p t => Holds b t fun val => !(val p.2.1 ^^ val p.2.2)) (k := fun _ => 0)
      (fun b b' n a m h => h.mono m) (fun b b' n a y m h => h.mono m)
      (fun b p h0 hb h => not_made hb h) l b1 m1.pos m1.ok hl
    refine ⟨b2, r2, ?_, by convert m using 1; simp, ?_⟩
    · have : ∀ (l : List (Sec × (Sec × Sec))) (b : Builder),
          mapB (fun b s => Secret.not b s) b (l.map (·.1)) =
            mapB (fun b (p : Sec × (Sec × Sec)) => Secret.not b p.1) b l := by
        intro l
        induction l with
        | nil => intro b; rfl
        | cons x l ih => intro b; simp only [List.map_cons, mapB, ih]
      rw [this, e]
    · have := forall2_map h
      rw [List.map_map]
      exact this
  refine ⟨b2, r2, _, ?_, m1.trans m2, h2, ?_, ?_⟩
  · simp only [comparison, hpos, if_true, e1, Option.bind_eq_bind, Option.bind_some]
    exact e2
  · rw [h2.length_eq, List.length_map, ← hz, List.length_zip, ← hlen, Nat.min_self, split_length hk]
  · intro val
    rw [← hz, all_eq val _ _ hlen]
    have e : ∀ t : List (List Sec), (t.flatMap fun c => c.take 6).map val = (six val t).flatten := by
      intro t
      rw [six, List.map_flatMap, List.flatMap_def]
    rw [e, e]
    have e3 : six val ((t.drop pos).take kw.length) = ((six val t).drop pos).take kw.length := by
      rw [six, six, List.map_take, List.map_drop]
    rw [← e3]
    congr 1
    apply propext
    constructor
    · exact flatten_inj 6 _ _ (six_length hk val) (six_length hs val) (by
      rw [six, six, List.length_map, List.length_map, hsl])
    · exact fun h => by rw [h]

theorem infix_iff {α : Type} (w t : List α) (h : w.length ≤ t.length) :
    w <:+: t ↔ ∃ k < t.length - w.length + 1, w = (t.drop k).take w.length := by
  constructor
  · rintro ⟨a, c, rfl⟩
    refine ⟨a.length, by simp; omega, ?_⟩
    simp [List.append_assoc]
  · rintro ⟨k, -, e⟩
    rw [e]
    exact (List.take_prefix _ _).isInfix.trans (List.drop_suffix _ _).isInfix

/-- The number of AND gates of the search for a keyword of `m` characters in a text of `n`. -/
def searchCost (m n : Nat) : Nat :=
  if m ≤ n then (n - m + 1) * (6 * m - 1) + (n - m) else 0

theorem search_made (b : Builder) (h0 : 0 < b.length) (hb : Ok b) (kw t : List (List Sec))
    (hk : Text b kw) (ht : Text b t) (hne : kw ≠ []) (hl : kw.length ≤ t.length) :
    ∃ b' r, search b kw t = some (b', r) ∧ Made b b' (searchCost kw.length t.length) ∧
      Holds b' r fun val => decide (six val kw <:+: six val t) := by
  have hkl : 0 < kw.length := List.length_pos_iff.2 hne
  obtain ⟨b1, rs, e1, m1, h1⟩ := mapB_made (f := fun b k => comparison b kw t k)
    (Pre := fun b k => Text b kw ∧ Text b t ∧ k + kw.length ≤ t.length)
    (Post := fun b k rs => rs.length = 6 * kw.length ∧ ∃ Fs, List.Forall₂ (Holds b) rs Fs ∧
      ∀ val, Fs.all (fun F : (Node → Bool) → Bool => F val) =
        decide (six val kw = ((six val t).drop k).take kw.length)) (k := fun _ => 0)
    (fun b b' n a m h => ⟨h.1.mono m, h.2.1.mono m, h.2.2⟩)
    (fun b b' n a y m h => by
      obtain ⟨h1, Fs, h2, h3⟩ := h
      exact ⟨h1, Fs, h2.imp fun _ _ h => h.mono m, h3⟩)
    (fun b k h0 hb h => by
      obtain ⟨b', rs, Fs, a1, a2, a3, a4, a5⟩ := comparison_made b h0 hb kw t h.1 h.2.1 k h.2.2
      exact ⟨b', rs, a1, a2, a4, Fs, a3, a5⟩)
    (List.range (t.length - kw.length + 1)) b h0 hb (by
      intro k hk'
      have := List.mem_range.1 hk'
      exact ⟨hk, ht, by omega⟩)
  -- keep the positions beside the results
  obtain ⟨l, l2, l1, l3⟩ := forall2_pair h1
  obtain ⟨b2, bits, e2, m2, h2⟩ := mapB_made
    (f := fun b (p : Nat × List Sec) => reduceExpect bitAnd b p.2)
    (Pre := fun b p => p.2.length = 6 * kw.length ∧ ∃ Fs, List.Forall₂ (Holds b) p.2 Fs ∧
        ∀ val, Fs.all (fun F : (Node → Bool) → Bool => F val) =
          decide (six val kw = ((six val t).drop p.1).take kw.length))
    (Post := fun b p r => Holds b r fun val =>
      decide (six val kw = ((six val t).drop p.1).take kw.length))
    (k := fun _ => 6 * kw.length - 1)
    (fun b b' n a m h => by
      obtain ⟨h1, Fs, h2, h3⟩ := h
      exact ⟨h1, Fs, h2.imp fun _ _ h => h.mono m, h3⟩)
    (fun b b' n a y m h => h.mono m)
    (fun b p h0 hb h => by
      obtain ⟨h1, Fs, h2, h3⟩ := h
      obtain ⟨b', r, a1, a2, a3⟩ := and_reduce_made b h0 hb p.2 Fs h2 (by
        intro e; rw [e, List.length_nil] at h1; omega)
      exact ⟨b', r, a1, by rw [h1] at a2; exact a2, a3.congr h3⟩)
    l b1 m1.pos m1.ok l3
  have e2' : mapB (fun b r => reduceExpect bitAnd b r) b1 rs = some (b2, bits) := by
    rw [← l1, ← e2]
    have : ∀ (l : List (Nat × List Sec)) (b : Builder),
        mapB (fun b r => reduceExpect bitAnd b r) b (l.map (·.2)) =
          mapB (fun b (p : Nat × List Sec) => reduceExpect bitAnd b p.2) b l := by
      intro l
      induction l with
      | nil => intro b; rfl
      | cons x l ih => intro b; simp only [List.map_cons, mapB, ih]
    exact this l b1
  have h2' := forall2_map h2
  have hll : l.length = t.length - kw.length + 1 := by
    have := congrArg List.length l2
    simpa using this
  have hbl : bits.length = t.length - kw.length + 1 := by rw [← h2.length_eq, hll]
  obtain ⟨b3, r, e3, m3, h3⟩ := or_reduce_made b2 m2.pos m2.ok bits _ h2' (by
    intro e; rw [e] at hbl; simp at hbl)
  refine ⟨b3, r, ?_, ?_, h3.congr ?_⟩
  · simp only [search, hl, if_true, e1, e2', Option.bind_eq_bind, Option.bind_some]
    exact e3
  · have := (m1.trans m2).trans m3
    convert this using 1
    rw [searchCost, if_pos hl, hbl]
    rw [sum_const, sum_const, hll, List.length_range]
    simp
  · intro val
    have hw : (six val kw).length = kw.length := by simp [six]
    have hw' : (six val t).length = t.length := by simp [six]
    rw [Bool.eq_iff_iff, decide_eq_true_iff, infix_iff _ _ (by omega), hw, hw']
    simp only [List.any_map, List.any_eq_true, Function.comp_apply, decide_eq_true_eq]
    constructor
    · rintro ⟨p, hp, h⟩
      have : p.1 ∈ l.map (·.1) := List.mem_map_of_mem hp
      rw [l2] at this
      exact ⟨p.1, List.mem_range.1 this, h⟩
    · rintro ⟨k, hk', h⟩
      have : k ∈ l.map (·.1) := by rw [l2]; exact List.mem_range.2 hk'
      obtain ⟨p, hp, rfl⟩ := List.mem_map.1 this
      exact ⟨p, hp, h⟩

theorem chaining_made (b : Builder) (hb : Ok b) (prev new o n : Sec)
    (F G H K : (Node → Bool) → Bool) (hp : Holds b prev F) (hn : Holds b new G) (ho : Holds b o H)
    (hk : Holds b n K) : ∃ b' r, chaining b prev new o n = some (b', r) ∧ Made b b' 1 ∧
      Holds b' r fun val =>
        if H val then F val || (G val ^^ K val) else F val && (G val ^^ K val) := by
  obtain ⟨b1, x, e1, m1, h1⟩ := xor_made hb hp ho
  obtain ⟨b2, y, e2, m2, h2⟩ := xor_made m1.ok (hn.mono m1) (hk.mono m1)
  obtain ⟨b3, z, e3, m3, h3⟩ := xor_made m2.ok h2 ((ho.mono m1).mono m2)
  obtain ⟨b4, u, e4, m4, h4⟩ := and_made m3.ok ((h1.mono m2).mono m3) h3
  obtain ⟨b5, v, e5, m5, h5⟩ := xor_made m4.ok h4 ((((ho.mono m1).mono m2).mono m3).mono m4)
  refine ⟨b5, v, by simp [chaining, e1, e2, e3, e4, e5], ?_, h5.congr ?_⟩
  · exact (((m1.trans m2).trans m3).trans m4).trans m5
  · intro val
    cases F val <;> cases G val <;> cases H val <;> cases K val <;> rfl

theorem perMail_made (b : Builder) (h0 : 0 < b.length) (hb : Ok b) (kw t : List (List Sec))
    (hk : Text b kw) (ht : Text b t) (hne : kw ≠ []) :
    ∃ b' r, perMail b kw t = some (b', r) ∧ Made b b' (searchCost kw.length t.length) ∧
      Holds b' r fun val => decide (six val kw <:+: six val t) := by
  obtain ⟨b1, r1, e1, m1, h1⟩ := const_made h0 hb false
  by_cases hl : kw.length ≤ t.length
  · obtain ⟨b2, r2, e2, m2, h2⟩ := search_made b1 m1.pos m1.ok kw t (hk.mono m1) (ht.mono m1) hne hl
    refine ⟨b2, r2, by simp [perMail, e1, hl, e2], ?_, h2⟩
    have := m1.trans m2
    rwa [Nat.zero_add] at this
  · refine ⟨b1, r1, by simp [perMail, e1, hl], by rw [searchCost, if_neg hl]; exact m1,
      h1.congr ?_⟩
    intro val
    symm
    rw [decide_eq_false_iff_not]
    intro h
    have := h.length_le
    simp [six] at this
    omega

end Verif.Mail
