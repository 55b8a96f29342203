import Verif.AVec.Lemmas

/-!
What a program using `AlignedVec` may observe.
-/
set_option autoImplicit false

namespace Verif.AVec

variable {V : Type}

/-- A vector for its user: the values and the capacity that was asked for. -/
structure AbsV (V : Type) where
  vals : List V
  room : Nat

/-- The vectors of a program, `none` for those dropped or never created. -/
abbrev Abs (V : Type) := List (Option (AbsV V))

/-- Operations that create a vector; the other ones are on the vector `x`, the `i`-th of `a`. -/
def SpecOn (P : Par) (a : Abs V) (i : Nat) (x : AbsV V) (o : Out V) (a' : Abs V) : Op V → Prop
  | .clone _ => (o = .done ∧ a' = a ++ [some ⟨x.vals, x.vals.length⟩]) ∨
      (o = .panic ∧ P.AllocFails ∧ a' = a ++ [none])
  | .push _ y => (o = .done ∧ a' = a.set i (some ⟨x.vals ++ [y], x.room⟩)) ∨
      (o = .panic ∧ P.AllocFails ∧ x.room ≤ x.vals.length ∧ a' = a)
  | .pop _ => o = .popped x.vals.getLast? ∧ a' = a.set i (some ⟨x.vals.dropLast, x.room⟩)
  | .truncate _ n => o = .done ∧ a' = a.set i (some ⟨x.vals.take n, x.room⟩)
  | .clear _ => o = .done ∧ a' = a.set i (some ⟨[], x.room⟩)
  | .reserve _ n => (o = .done ∧ a' = a.set i (some ⟨x.vals, max x.room (x.vals.length + n)⟩)) ∨
      (o = .panic ∧ P.AllocFails ∧ x.room < x.vals.length + n ∧ a' = a)
  | .resize _ n y =>
      (o = .done ∧ a' = a.set i (some
        ⟨x.vals.take n ++ List.replicate (n - x.vals.length) y, x.room⟩)) ∨
      (o = .panic ∧ ((P.AllocFails ∧ x.room < n) ∨ P.CloneFails) ∧ ∃ k < n - x.vals.length,
        a' = a.set i (some ⟨x.vals ++ List.replicate k y, x.room⟩))
  | .read _ => o = .vals x.vals ∧ a' = a
  | .set _ j y => (j < x.vals.length ∧ o = .done ∧ a' = a.set i (some ⟨x.vals.set j y, x.room⟩)) ∨
      (x.vals.length ≤ j ∧ o = .panic ∧ a' = a)
  | .capacity _ => ∃ c, o = .num c ∧ x.room ≤ c ∧ x.vals.length ≤ c ∧ a' = a
  | .drop _ => o = .done ∧ a' = a.set i none
  | _ => False

/-- One operation with outcome `o` may take `a` to `a'`. -/
def Spec (P : Par) (a : Abs V) (op : Op V) (o : Out V) (a' : Abs V) : Prop :=
  match op.target with
  | some i =>
    match (a[i]?).join with
    | some x => SpecOn P a i x o a' op
    | none => o = .bad ∧ a' = a
  | none =>
    match op with
    | .new => o = .done ∧ a' = a ++ [some ⟨[], 0⟩]
    | .withCapacity n => (o = .done ∧ a' = a ++ [some ⟨[], n⟩]) ∨
      (o = .panic ∧ (P.AllocFails ∨ ¬ P.layoutOk (n * P.sizeT) = true) ∧ a' = a ++ [none])
    | .fromSlice xs => (o = .done ∧ a' = a ++ [some ⟨xs, xs.length⟩]) ∨
      (o = .panic ∧ (P.AllocFails ∨ P.CloneFails) ∧ a' = a ++ [none])
    | _ => False

def SpecRun (P : Par) : Abs V → List (Op V) → List (Out V) → Abs V → Prop
  | a, [], [], a' => a' = a
  | a, op :: ops, o :: os, a' => ∃ b, Spec P a op o b ∧ SpecRun P b ops os a'
  | _, _, _, _ => False

/-- The elements an operation asks room for. -/
def Op.asks : Op V → Nat
  | .push _ _ => 1
  | .reserve _ n => n
  | .resize _ n _ => n
  | .fromSlice xs => xs.length
  | _ => 0

def asked (ops : List (Op V)) : Nat := (ops.map Op.asks).sum

def Op.isClone : Op V → Bool
  | .clone _ => true
  | _ => false

/-- The elements in the vectors of the program, by identity. -/
def St.held (s : St V) : List Nat :=
  s.vecs.flatMap fun o => match o with
    | none => []
    | some v => ((asSlice s.h v).getD []).map (·.1)

/-! ### The memory of a program -/

def sumCnt (x : Nat) : List (AV × List (Tok V)) → Nat
  | [] => 0
  | c :: cs => cnt x c.2 + sumCnt x cs

structure MInv (P : Par) (h : Hp V) (cs : List (AV × List (Tok V))) : Prop where
  heap : HOk h
  own : ∀ (i : Nat) c, cs[i]? = some c → Owned P h c.1 c.2
  disj : ∀ (i j : Nat) c d (b : Nat), cs[i]? = some c → cs[j]? = some d → c.1.blk = some b →
    d.1.blk = some b → i = j
  live : ∀ b, h.blocks b ≠ none → ∃ (i : Nat) (c : AV × List (Tok V)), cs[i]? = some c ∧
    c.1.blk = some b
  led : P.glue = true → ∀ x, sumCnt x cs + h.dropped.count x + h.given.count x =
    if x < h.fresh then 1 else 0

theorem sumCnt_set (x : Nat) (cs : List (AV × List (Tok V))) (i : Nat) (c d : AV × List (Tok V))
    (h : cs[i]? = some c) : sumCnt x (cs.set i d) + cnt x c.2 = sumCnt x cs + cnt x d.2 := by
  induction cs generalizing i with
  | nil => simp at h
  | cons e cs ih =>
    cases i with
    | zero => simp at h; subst h; simp [sumCnt]; omega
    | succ i => simp at h; have := ih i h; simp [sumCnt]; omega

theorem sumCnt_append (x : Nat) (cs ds : List (AV × List (Tok V))) :
    sumCnt x (cs ++ ds) = sumCnt x cs + sumCnt x ds := by
  induction cs with
  | nil => simp [sumCnt]
  | cons e cs ih => simp [sumCnt, ih]; omega

theorem sumCnt_le (x : Nat) (cs : List (AV × List (Tok V))) (i : Nat) (c : AV × List (Tok V))
    (h : cs[i]? = some c) : cnt x c.2 ≤ sumCnt x cs := by
  have := sumCnt_set x cs i c (av0, []) h
  simp [cnt] at this
  simp only [cnt]
  omega

theorem MInv.good {P : Par} {h : Hp V} {cs : List (AV × List (Tok V))} (m : MInv P h cs) {i : Nat}
    {c : AV × List (Tok V)} (hi : cs[i]? = some c) : Good P ⟨h, c.1, c.2, []⟩ := by
  refine ⟨m.heap, m.own i c hi, fun hg x => ?_⟩
  have h1 := m.led hg x
  have h2 := sumCnt_le x cs i c hi
  simp only [Cfg.total, cnt, List.map_nil, List.count_nil] at h2 ⊢
  omega

theorem MInv.update {P : Par} {h h' : Hp V} {cs : List (AV × List (Tok V))} (m : MInv P h cs)
    {i : Nat} {c d : AV × List (Tok V)} (hi : cs[i]? = some c)
    (p : Post P ⟨h, c.1, c.2, []⟩ ⟨h', d.1, d.2, []⟩) : MInv P h' (cs.set i d) := by
  have hil : i < cs.length := by
    rcases Nat.lt_or_ge i cs.length with h1 | h1
    · exact h1
    · rw [List.getElem?_eq_none h1] at hi; cases hi
  have hother : ∀ (j : Nat) e (b : Nat), j ≠ i → cs[j]? = some e → e.1.blk = some b →
      some b ≠ c.1.blk ∧ some b ≠ d.1.blk := by
    intro j e b hj he hb
    have h1 : some b ≠ c.1.blk := fun h' => hj (m.disj j i e c b he hi hb h'.symm)
    refine ⟨h1, fun h2 => ?_⟩
    have hlt := ((m.own j e he).block b hb).1
    rcases p.fresh with hf | hf | ⟨b', hf, hl⟩
    · exact h1 (h2.trans hf)
    · simp only at hf; rw [hf] at h2; cases h2
    · simp only at hf hl; rw [hf] at h2; cases h2; omega
  refine ⟨p.heap, ?_, ?_, ?_, ?_⟩
  · intro j e he
    by_cases hj : j = i
    · subst hj
      rw [List.getElem?_set_self hil] at he
      cases he
      exact p.own
    · rw [List.getElem?_set_ne (Ne.symm hj)] at he
      have o := m.own j e he
      refine ⟨o.len, o.le, o.empty, fun b hb => ?_⟩
      obtain ⟨h1, h2, B, hB, r⟩ := o.block b hb
      have ⟨n1, n2⟩ := hother j e b hj he hb
      have := p.mono
      have hs := p.same b n1 n2
      simp only at this hs
      exact ⟨by omega, h2, B, by rw [hs, hB], r⟩
  · intro j k e f b he hf hb hb'
    by_cases hj : j = i <;> by_cases hk : k = i
    · rw [hj, hk]
    · subst hj
      rw [List.getElem?_set_self hil] at he
      rw [List.getElem?_set_ne (Ne.symm hk)] at hf
      cases he
      exact absurd hb.symm (hother k f b hk hf hb').2
    · subst hk
      rw [List.getElem?_set_self hil] at hf
      rw [List.getElem?_set_ne (Ne.symm hj)] at he
      cases hf
      exact absurd hb'.symm (hother j e b hj he hb).2
    · rw [List.getElem?_set_ne (Ne.symm hj)] at he
      rw [List.getElem?_set_ne (Ne.symm hk)] at hf
      exact m.disj j k e f b he hf hb hb'
  · intro b hb
    by_cases h1 : some b = d.1.blk
    · exact ⟨i, d, List.getElem?_set_self hil, h1.symm⟩
    · by_cases h2 : some b = c.1.blk
      · exact absurd (p.freed b h2 h1) hb
      · have hs := p.same b h2 h1
        simp only at hs
        rw [hs] at hb
        obtain ⟨j, e, he, hbe⟩ := m.live b hb
        have hj : j ≠ i := by
          rintro rfl
          rw [hi] at he; cases he
          exact h2 hbe.symm
        exact ⟨j, e, by rw [List.getElem?_set_ne (Ne.symm hj)]; exact he, hbe⟩
  · intro hg x
    have h1 := m.led hg x
    have h2 := p.led hg x
    have h3 := sumCnt_set x cs i c d hi
    have h4 := p.made
    simp only [Cfg.total, cnt, List.map_nil, List.count_nil] at h2 h3 h4
    split at h1 <;> split at h2 <;> split <;> omega

theorem MInv.append {P : Par} {h : Hp V} {cs : List (AV × List (Tok V))} (m : MInv P h cs) :
    MInv P h (cs ++ [(av0, [])]) := by
  have hlast : ∀ (j : Nat) e, (cs ++ [((av0, []) : AV × List (Tok V))])[j]? = some e →
      cs[j]? = some e ∨ e = (av0, []) := by
    intro j e he
    rcases Nat.lt_or_ge j cs.length with h1 | h1
    · rw [List.getElem?_append_left h1] at he; exact .inl he
    · rw [List.getElem?_append_right h1] at he
      have := List.mem_of_getElem? he
      simp at this
      exact .inr this
  refine ⟨m.heap, ?_, ?_, ?_, ?_⟩
  · intro j e he
    rcases hlast j e he with h1 | h1
    · exact m.own j e h1
    · subst h1; exact ⟨rfl, Nat.le_refl _, fun _ => rfl, by simp⟩
  · intro j k e f b he hf hb hb'
    rcases hlast j e he with h1 | h1
    · rcases hlast k f hf with h2 | h2
      · exact m.disj j k e f b h1 h2 hb hb'
      · subst h2; simp at hb'
    · subst h1; simp at hb
  · intro b hb
    obtain ⟨j, e, he, hbe⟩ := m.live b hb
    refine ⟨j, e, ?_, hbe⟩
    rw [List.getElem?_append_left]
    · exact he
    · rcases Nat.lt_or_ge j cs.length with h1 | h1
      · exact h1
      · rw [List.getElem?_eq_none h1] at he; cases he
  · intro hg x
    have := m.led hg x
    rw [sumCnt_append]
    simpa [sumCnt, cnt] using this

/-! ### The vectors of a program -/

/-- Handle, memory and abstract vector. -/
def Rel (o : Option AV) (c : AV × List (Tok V)) (x : Option (AbsV V)) : Prop :=
  match o with
  | none => c = (av0, []) ∧ x = none
  | some v => c.1 = v ∧ ∃ r ≤ v.cap, x = some ⟨c.2.map (·.2), r⟩

/-- `asked` bounds the lengths so far. -/
structure SInv (P : Par) (s : St V) (cs : List (AV × List (Tok V))) (a : Abs V) (n : Nat) : Prop where
  mem : MInv P s.h cs
  lc : cs.length = s.vecs.length
  la : a.length = s.vecs.length
  rel : ∀ (i : Nat) (o : Option AV), s.vecs[i]? = some o →
    ∃ c x, cs[i]? = some c ∧ a[i]? = some x ∧ Rel o c x
  short : ∀ (i : Nat) c, cs[i]? = some c → c.2.length ≤ n

theorem SInv.update {P : Par} {s : St V} {cs : List (AV × List (Tok V))} {a : Abs V} {n n' : Nat}
    (I : SInv P s cs a n) {i : Nat} {c d : AV × List (Tok V)} {h' : Hp V} {o : Option AV}
    {x : Option (AbsV V)} (hi : cs[i]? = some c)
    (p : Post P ⟨s.h, c.1, c.2, []⟩ ⟨h', d.1, d.2, []⟩) (hr : Rel o d x) (hn : n ≤ n')
    (hd : d.2.length ≤ n') :
    SInv P ⟨h', s.vecs.set i o⟩ (cs.set i d) (a.set i x) n' := by
  have hil : i < cs.length := by
    rcases Nat.lt_or_ge i cs.length with h1 | h1
    · exact h1
    · rw [List.getElem?_eq_none h1] at hi; cases hi
  have := I.lc
  have := I.la
  refine ⟨I.mem.update hi p, by simp [I.lc], by simp [I.la], ?_, ?_⟩
  · intro j q hq
    by_cases hj : j = i
    · subst hj
      rw [List.getElem?_set_self (by omega)] at hq
      cases hq
      exact ⟨d, x, List.getElem?_set_self hil, List.getElem?_set_self (by omega), hr⟩
    · rw [List.getElem?_set_ne (Ne.symm hj)] at hq
      rw [List.getElem?_set_ne (Ne.symm hj), List.getElem?_set_ne (Ne.symm hj)]
      exact I.rel j q hq
  · intro j e he
    by_cases hj : j = i
    · subst hj
      rw [List.getElem?_set_self hil] at he
      cases he
      exact hd
    · rw [List.getElem?_set_ne (Ne.symm hj)] at he
      exact Nat.le_trans (I.short j e he) hn

theorem SInv.append {P : Par} {s : St V} {cs : List (AV × List (Tok V))} {a : Abs V} {n n' : Nat}
    (I : SInv P s cs a n) {d : AV × List (Tok V)} {h' : Hp V} {o : Option AV} {x : Option (AbsV V)}
    (p : Post P ⟨s.h, av0, [], []⟩ ⟨h', d.1, d.2, []⟩) (hr : Rel o d x) (hn : n ≤ n')
    (hd : d.2.length ≤ n') :
    SInv P ⟨h', s.vecs ++ [o]⟩ (cs ++ [d]) (a ++ [x]) n' := by
  have hlc := I.lc
  have hla := I.la
  have m : MInv P h' (cs ++ [d]) := by
    have := I.mem.append.update (i := cs.length) (c := (av0, [])) (d := d)
      List.getElem?_concat_length p
    simpa using this
  refine ⟨m, by simp [I.lc], by simp [I.la], ?_, ?_⟩
  · intro j q hq
    rcases Nat.lt_or_ge j s.vecs.length with hj | hj
    · rw [List.getElem?_append_left hj] at hq
      rw [List.getElem?_append_left (by omega), List.getElem?_append_left (by omega)]
      exact I.rel j q hq
    · have hj' : j = s.vecs.length := by
        rcases Nat.lt_or_ge j (s.vecs.length + 1) with h1 | h1
        · omega
        · rw [List.getElem?_eq_none (by simpa using h1)] at hq; cases hq
      subst hj'
      rw [List.getElem?_concat_length] at hq
      cases hq
      refine ⟨d, x, ?_, ?_, hr⟩
      · rw [← hlc]; exact List.getElem?_concat_length
      · rw [← hla]; exact List.getElem?_concat_length
  · intro j e he
    rcases Nat.lt_or_ge j cs.length with hj | hj
    · rw [List.getElem?_append_left hj] at he
      exact Nat.le_trans (I.short j e he) hn
    · rw [List.getElem?_append_right hj] at he
      have := List.mem_of_getElem? he
      simp at this
      subst this
      exact hd

end Verif.AVec
