import Verif.AVec.Model
import Mathlib.Data.List.Basic

/-!
Each function of `AlignedVec` keeps its memory and its elements in order.
-/
set_option autoImplicit false

namespace Verif.AVec

variable {V : Type}

/-- Sizes fit the platform and the allocator honours the alignment. -/
structure Par.Ok (P : Par) : Prop where
  size : P.sizeT ≠ 0
  align : P.alignT ≤ P.align
  align' : P.align ≠ 0
  addr : ∀ k s a, P.alloc k s P.align = some a → P.align ∣ a

/-- A vector, its elements, and elements held on the stack. -/
structure Cfg (V : Type) where
  h : Hp V
  v : AV
  ts : List (Tok V)
  ex : List (Tok V)

def cnt (x : Nat) (ts : List (Tok V)) : Nat := (ts.map (·.1)).count x

/-- How often `x` is accounted for. -/
def Cfg.total (c : Cfg V) (x : Nat) : Nat :=
  cnt x c.ts + cnt x c.ex + c.h.dropped.count x + c.h.given.count x

structure Owned (P : Par) (h : Hp V) (v : AV) (ts : List (Tok V)) : Prop where
  len : ts.length = v.len
  le : v.len ≤ v.cap
  empty : v.blk = none → v.cap = 0
  block : ∀ b, v.blk = some b → b < h.allocs ∧ v.cap ≠ 0 ∧ ∃ B, h.blocks b = some B ∧
    B.size = v.cap * P.sizeT ∧ B.align = P.align ∧ P.align ∣ B.addr ∧ P.layoutOk B.size = true ∧
    B.cells.length = v.cap ∧ ∀ i < ts.length, B.cells[i]? = some ts[i]?

def HOk (h : Hp V) : Prop := ∀ c, h.allocs ≤ c → h.blocks c = none

structure Good (P : Par) (c : Cfg V) : Prop where
  heap : HOk c.h
  own : Owned P c.h c.v c.ts
  led : P.glue = true → ∀ x, c.total x ≤ if x < c.h.fresh then 1 else 0

structure Post (P : Par) (c d : Cfg V) : Prop where
  heap : HOk d.h
  own : Owned P d.h d.v d.ts
  mono : c.h.allocs ≤ d.h.allocs
  same : ∀ b, some b ≠ c.v.blk → some b ≠ d.v.blk → d.h.blocks b = c.h.blocks b
  freed : ∀ b, some b = c.v.blk → some b ≠ d.v.blk → d.h.blocks b = none
  fresh : d.v.blk = c.v.blk ∨ d.v.blk = none ∨ ∃ b, d.v.blk = some b ∧ c.h.allocs ≤ b
  made : c.h.fresh ≤ d.h.fresh
  led : P.glue = true → ∀ x, d.total x =
    c.total x + if c.h.fresh ≤ x ∧ x < d.h.fresh then 1 else 0

theorem Post.good {P : Par} {c d : Cfg V} (hc : Good P c) (h : Post P c d) : Good P d := by
  refine ⟨h.heap, h.own, fun hg x => ?_⟩
  have h1 := h.led hg x
  have h2 := hc.led hg x
  have := h.made
  split at h2 <;> split at h1 <;> split <;> omega

theorem Post.refl {P : Par} {c : Cfg V} (hc : Good P c) : Post P c c := by
  refine ⟨hc.heap, hc.own, Nat.le_refl _, fun _ _ _ => rfl, fun _ h h' => absurd h h', .inl rfl,
    Nat.le_refl _, fun _ x => ?_⟩
  rw [if_neg (by omega)]; simp

theorem Post.trans {P : Par} {c d e : Cfg V} (hc : Good P c) (h : Post P c d) (k : Post P d e) :
    Post P c e := by
  refine ⟨k.heap, k.own, Nat.le_trans h.mono k.mono, ?_, ?_, ?_, Nat.le_trans h.made k.made, ?_⟩
  · intro b hb hb'
    by_cases hd : some b = d.v.blk
    · rw [k.freed b hd hb']
      rcases h.fresh with hf | hf | ⟨b', hf, hl⟩
      · exact absurd (hd.trans hf) hb
      · rw [hf] at hd; cases hd
      · rw [hf] at hd; cases hd
        exact (hc.heap _ hl).symm
    · rw [k.same b hd hb', h.same b hb hd]
  · intro b hb hb'
    by_cases hd : some b = d.v.blk
    · exact k.freed b hd hb'
    · rw [k.same b hd hb', h.freed b hb hd]
  · rcases k.fresh with hf | hf | ⟨b, hf, hl⟩
    · rw [hf]; exact h.fresh
    · exact .inr (.inl hf)
    · exact .inr (.inr ⟨b, hf, Nat.le_trans h.mono hl⟩)
  · intro hg x
    have h1 := h.led hg x
    have h2 := k.led hg x
    have := h.made
    have := k.made
    split at h1 <;> split at h2 <;> split <;> omega

/-- Only the bookkeeping of elements changes. -/
theorem Post.of_book {P : Par} {c : Cfg V} (hc : Good P c) (h : Hp V) (ex : List (Tok V))
    (hb : h.blocks = c.h.blocks) (ha : h.allocs = c.h.allocs) (hf : c.h.fresh ≤ h.fresh)
    (hl : P.glue = true → ∀ x, (⟨h, c.v, c.ts, ex⟩ : Cfg V).total x =
      c.total x + if c.h.fresh ≤ x ∧ x < h.fresh then 1 else 0) :
    Post P c ⟨h, c.v, c.ts, ex⟩ := by
  refine ⟨?_, ⟨hc.own.len, hc.own.le, hc.own.empty, ?_⟩, by simp [ha], ?_, fun _ h h' => absurd h h',
    .inl rfl, hf, hl⟩
  · intro b; simp only [hb, ha]; exact hc.heap b
  · simp only [hb, ha]; exact hc.own.block
  · intro b _ _; simp only [hb]

theorem mk_spec {P : Par} {h : Hp V} {v : AV} {ts ex : List (Tok V)} (hc : Good P ⟨h, v, ts, ex⟩)
    (x : V) : Post P ⟨h, v, ts, ex⟩ ⟨(h.mk_ x).1, v, ts, (h.mk_ x).2 :: ex⟩ ∧ (h.mk_ x).2.2 = x := by
  refine ⟨Post.of_book hc _ _ rfl rfl (Nat.le_succ _) fun _ y => ?_, rfl⟩
  have hiff : (h.fresh ≤ y ∧ y < h.fresh + 1) ↔ h.fresh = y := by omega
  simp only [Cfg.total, Hp.mk_, cnt, List.map_cons, List.count_cons, beq_iff_eq, hiff]
  omega

theorem dropTok_spec {P : Par} {h : Hp V} {v : AV} {ts ex : List (Tok V)} {t : Tok V}
    (hc : Good P ⟨h, v, ts, t :: ex⟩) :
    ∃ h', h.dropTok P t = some h' ∧ Post P ⟨h, v, ts, t :: ex⟩ ⟨h', v, ts, ex⟩ := by
  unfold Hp.dropTok
  by_cases hg : P.glue = true
  · rw [if_pos hg]
    have hx := hc.led hg t.1
    have h1 : 1 ≤ cnt t.1 (t :: ex) := by simp [cnt]
    have hn : ¬ (t.1 ∈ h.dropped ∨ t.1 ∈ h.given) := by
      simp only [Cfg.total] at hx
      intro hm
      have : 1 ≤ h.dropped.count t.1 + h.given.count t.1 := by
        rcases hm with hm | hm <;> have := List.count_pos_iff.2 hm <;> omega
      split at hx <;> omega
    rw [if_neg hn]
    refine ⟨_, rfl, Post.of_book hc _ _ rfl rfl (Nat.le_refl _) fun _ y => ?_⟩
    simp only [Cfg.total, cnt, List.map_cons, List.count_cons, beq_iff_eq]
    split <;> split <;> omega
  · rw [if_neg hg]
    exact ⟨_, rfl, Post.of_book hc _ _ rfl rfl (Nat.le_refl _) fun hg' => absurd hg' hg⟩

theorem dropAll_spec {P : Par} (us : List (Tok V)) {h : Hp V} {v : AV} {ts ex : List (Tok V)}
    (hc : Good P ⟨h, v, ts, us ++ ex⟩) :
    ∃ h', h.dropAll P us = some h' ∧ Post P ⟨h, v, ts, us ++ ex⟩ ⟨h', v, ts, ex⟩ := by
  induction us generalizing h with
  | nil => exact ⟨h, rfl, Post.refl hc⟩
  | cons u us ih =>
    obtain ⟨h1, e1, p1⟩ := dropTok_spec (P := P) (h := h) (v := v) (ts := ts) (t := u)
      (ex := us ++ ex) hc
    obtain ⟨h2, e2, p2⟩ := ih (p1.good hc)
    exact ⟨h2, by rw [Hp.dropAll, e1]; exact e2, p1.trans hc p2⟩

/-- The allocator may run out of memory. -/
def Par.AllocFails (P : Par) : Prop := ∃ k s, P.alloc k s P.align = none

/-- `T::clone` may panic. -/
def Par.CloneFails (P : Par) : Prop := ∃ k, P.clonePanics k = true

theorem cloneTok_spec {P : Par} {h : Hp V} {v : AV} {ts ex : List (Tok V)}
    (hc : Good P ⟨h, v, ts, ex⟩) (x : V) :
    (∃ h', h.cloneTok P x = (h', none) ∧ P.CloneFails ∧ Post P ⟨h, v, ts, ex⟩ ⟨h', v, ts, ex⟩) ∨
    ∃ h' t, h.cloneTok P x = (h', some t) ∧ t.2 = x ∧
      Post P ⟨h, v, ts, ex⟩ ⟨h', v, ts, t :: ex⟩ := by
  unfold Hp.cloneTok
  split
  · rename_i hcl
    refine .inl ⟨_, rfl, ⟨_, hcl⟩, Post.of_book hc _ _ rfl rfl (Nat.le_refl _) fun _ y => ?_⟩
    rw [if_neg (by simp only; omega)]; simp [Cfg.total]
  · refine .inr ⟨_, _, rfl, rfl, Post.of_book hc _ _ rfl rfl (Nat.le_succ _) fun _ y => ?_⟩
    have hiff : (h.fresh ≤ y ∧ y < h.fresh + 1) ↔ h.fresh = y := by omega
    simp only [Cfg.total, cnt, List.map_cons, List.count_cons, beq_iff_eq, hiff]
    omega

theorem Owned.blk {P : Par} {h : Hp V} {v : AV} {ts : List (Tok V)} (o : Owned P h v ts)
    (hc : v.cap ≠ 0) : ∃ b, v.blk = some b := by
  match e : v.blk with
  | none => exact absurd (o.empty e) hc
  | some b => exact ⟨b, rfl⟩

theorem read_spec {P : Par} {h : Hp V} {v : AV} {ts : List (Tok V)} (o : Owned P h v ts) (i : Nat)
    (hi : i < ts.length) : h.read v.blk i = some ts[i] := by
  have hl := o.len
  have hle := o.le
  obtain ⟨b, hb⟩ := o.blk (by omega)
  obtain ⟨_, _, B, hB, _, _, _, _, _, hcells⟩ := o.block b hb
  have := hcells i hi
  rw [List.getElem?_eq_getElem hi] at this
  simp only [Hp.read, hb, hB, this, bind, Option.bind]

theorem readN_spec {P : Par} {h : Hp V} {v : AV} {ts : List (Tok V)} (o : Owned P h v ts)
    (n i : Nat) (hi : i + n ≤ ts.length) :
    h.readN v.blk i n = some ((ts.drop i).take n) := by
  induction n generalizing i with
  | zero => simp [Hp.readN]
  | succ n ih =>
    rw [Hp.readN, read_spec o i (by omega), ih (i + 1) (by omega)]
    simp only [bind, Option.bind, pure]
    rw [List.drop_eq_getElem_cons (by omega : i < ts.length), List.take_succ_cons]

/-- Writing a cell of the own block. -/
theorem write_spec {P : Par} {h : Hp V} {v : AV} {ts ex : List (Tok V)} {t : Tok V}
    (hc : Good P ⟨h, v, ts, t :: ex⟩) (hl : v.len < v.cap) :
    ∃ h', h.write v.blk v.len t = some h' ∧
      Post P ⟨h, v, ts, t :: ex⟩ ⟨h', { v with len := v.len + 1 }, ts ++ [t], ex⟩ := by
  have o : Owned P h v ts := hc.own
  have hlen := o.len
  obtain ⟨b, hb⟩ := o.blk (by omega)
  obtain ⟨hba, hcap, B, hB, hs, ha, had, hlo, hcl, hcells⟩ := o.block b hb
  simp only [Hp.write, hb, hB, bind, Option.bind]
  rw [if_pos (by omega)]
  refine ⟨_, rfl, ?_, ⟨by simp [hlen], by simp only; omega, by simp, ?_⟩, Nat.le_refl _, ?_, ?_,
    .inl hb.symm, Nat.le_refl _, ?_⟩
  · intro c hcc
    have h1 := hc.heap c hcc
    simp only at h1 hcc ⊢
    rw [if_neg (by omega), h1]
  · intro b' hb'
    simp only [Option.some.injEq] at hb'
    subst hb'
    refine ⟨hba, hcap, _, if_pos rfl, hs, ha, had, hlo, by simp [hcl], ?_⟩
    intro i hi
    simp only [List.length_append, List.length_singleton] at hi
    by_cases h' : i = v.len
    · subst h'
      rw [List.getElem?_set_self (by omega), ← hlen, List.getElem?_concat_length]
    · rw [List.getElem?_set_ne (Ne.symm h'), hcells i (by omega),
        List.getElem?_append_left (by omega)]
  · intro c h1 _
    simp only [hb, ne_eq, Option.some.injEq] at h1
    simp only [if_neg h1]
  · intro c h1 h2; exact absurd (h1.trans hb) h2
  · intro _ x
    simp only [Cfg.total, cnt, List.map_append, List.map_cons, List.map_nil, List.count_append,
      List.count_cons, List.count_nil, beq_iff_eq]
    rw [if_neg (by omega : ¬ (h.fresh ≤ x ∧ x < h.fresh))]
    omega

/-- Overwriting an element; the old one is held. -/
theorem overwrite_spec {P : Par} {h : Hp V} {v : AV} {ts ex : List (Tok V)} {t : Tok V}
    (hc : Good P ⟨h, v, ts, t :: ex⟩) (i : Nat) (hi : i < ts.length) :
    ∃ h', h.write v.blk i t = some h' ∧ h'.dropped = h.dropped ∧ h'.given = h.given ∧
      Post P ⟨h, v, ts, t :: ex⟩ ⟨h', v, ts.set i t, ts[i] :: ex⟩ := by
  have o : Owned P h v ts := hc.own
  have hlen := o.len
  have hle := o.le
  obtain ⟨b, hb⟩ := o.blk (by omega)
  obtain ⟨hba, hcap, B, hB, hs, ha, had, hlo, hcl, hcells⟩ := o.block b hb
  simp only [Hp.write, hb, hB, bind, Option.bind]
  rw [if_pos (by omega)]
  refine ⟨_, rfl, rfl, rfl, ?_, ⟨by simp [hlen], o.le, by simp [hb], ?_⟩, Nat.le_refl _, ?_, ?_,
    .inl rfl, Nat.le_refl _, ?_⟩
  · intro c hcc
    have h1 := hc.heap c hcc
    simp only at h1 hcc ⊢
    rw [if_neg (by omega), h1]
  · intro b' hb'
    simp only [hb, Option.some.injEq] at hb'
    subst hb'
    refine ⟨hba, hcap, _, if_pos rfl, hs, ha, had, hlo, by simp [hcl], ?_⟩
    intro j hj
    simp only [List.length_set] at hj
    by_cases h' : j = i
    · subst h'
      rw [List.getElem?_set_self (by omega), List.getElem?_set_self hi]
    · rw [List.getElem?_set_ne (Ne.symm h'), hcells j hj, List.getElem?_set_ne (Ne.symm h')]
  · intro c h1 _
    simp only [hb, ne_eq, Option.some.injEq] at h1
    simp only [if_neg h1]
  · intro c h1 h2; exact absurd h1 h2
  · intro _ x
    have key : cnt x (ts.set i t) + cnt x [ts[i]] = cnt x ts + cnt x [t] := by
      have h1 : ts.set i t = ts.take i ++ t :: ts.drop (i + 1) := List.set_eq_take_append_cons_drop.trans (by simp [hi])
      have h2 : ts = ts.take i ++ ts[i] :: ts.drop (i + 1) := by simp
      rw [h1]
      conv_rhs => rw [h2]
      simp only [cnt, List.map_append, List.map_cons, List.map_nil, List.count_append,
        List.count_cons, List.count_nil]
      omega
    simp only [cnt, List.map_cons, List.map_nil, List.count_cons, List.count_nil, beq_iff_eq] at key
    simp only [Cfg.total, cnt, List.map_cons, List.count_cons, beq_iff_eq]
    rw [if_neg (by omega : ¬ (h.fresh ≤ x ∧ x < h.fresh))]
    omega

/-- The length is lowered, the elements behind it are held. -/
theorem shrink_spec {P : Par} {h : Hp V} {v : AV} {ts ex : List (Tok V)}
    (hc : Good P ⟨h, v, ts, ex⟩) (n : Nat) (hn : n ≤ v.len) :
    Post P ⟨h, v, ts, ex⟩ ⟨h, { v with len := n }, ts.take n, ts.drop n ++ ex⟩ := by
  have o : Owned P h v ts := hc.own
  have hlen := o.len
  have hle := o.le
  refine ⟨hc.heap, ⟨by simp [hlen]; omega, by simp only; omega, o.empty, ?_⟩, Nat.le_refl _,
    fun _ _ _ => rfl, fun _ h1 h2 => absurd h1 h2, .inl rfl, Nat.le_refl _, ?_⟩
  · intro b hb
    obtain ⟨hba, hcap, B, hB, hs, ha, had, hlo, hcl, hcells⟩ := o.block b hb
    refine ⟨hba, hcap, B, hB, hs, ha, had, hlo, hcl, ?_⟩
    intro i hi
    simp only [List.length_take] at hi
    rw [hcells i (by omega), List.getElem?_take_of_lt (by omega)]
  · intro _ x
    have key : cnt x (ts.take n) + cnt x (ts.drop n) = cnt x ts := by
      conv_rhs => rw [← List.take_append_drop n ts]
      simp only [cnt, List.map_append, List.count_append]
    simp only [Cfg.total]
    rw [if_neg (by omega : ¬ (h.fresh ≤ x ∧ x < h.fresh))]
    simp only [cnt, List.map_append, List.count_append] at key ⊢
    omega

theorem truncate_spec {P : Par} {h : Hp V} {v : AV} {ts ex : List (Tok V)}
    (hc : Good P ⟨h, v, ts, ex⟩) (n : Nat) :
    ∃ h' v', truncate P h v n = some (h', v') ∧ v'.cap = v.cap ∧
      Post P ⟨h, v, ts, ex⟩ ⟨h', v', ts.take n, ex⟩ := by
  have o : Owned P h v ts := hc.own
  have hlen := o.len
  unfold truncate
  by_cases hn : n > v.len
  · rw [if_pos hn, List.take_of_length_le (by omega)]
    exact ⟨h, v, rfl, rfl, Post.refl hc⟩
  · rw [if_neg hn, readN_spec o _ _ (by omega), List.take_of_length_le (by simp; omega)]
    have p := shrink_spec hc n (by omega)
    obtain ⟨h', e, p'⟩ := dropAll_spec _ (p.good hc)
    refine ⟨h', { v with len := n }, ?_, rfl, p.trans hc p'⟩
    simp [e]

theorem nextPow2_ge (n : Nat) : n ≤ nextPow2 n := by
  unfold nextPow2
  split
  · omega
  · have := Nat.lt_log2_self (n := n - 1)
    omega

theorem nextPow2_pos (n : Nat) : 0 < nextPow2 n := by
  unfold nextPow2; split
  · omega
  · exact Nat.two_pow_pos _

theorem nextPow2_le (n : Nat) (h : 1 ≤ n) : nextPow2 n ≤ 2 * n := by
  unfold nextPow2
  split
  · omega
  · have := Nat.log2_self_le (n := n - 1) (by omega)
    rw [Nat.pow_succ]
    omega

/-- A new block takes over. -/
theorem grow_none {P : Par} {h : Hp V} {v : AV} {ts ex : List (Tok V)}
    (hc : Good P ⟨h, v, ts, ex⟩) :
    Post P ⟨h, v, ts, ex⟩ ⟨{ h with allocs := h.allocs + 1 }, v, ts, ex⟩ := by
  have o : Owned P h v ts := hc.own
  refine ⟨?_, ⟨o.len, o.le, o.empty, ?_⟩, Nat.le_succ _,
    fun _ _ _ => rfl, fun _ h1 h2 => absurd h1 h2, .inl rfl, Nat.le_refl _, ?_⟩
  · intro c hcc; exact hc.heap c (Nat.le_trans (Nat.le_succ _) hcc)
  · intro b hb
    obtain ⟨hba, r⟩ := o.block b hb
    exact ⟨Nat.lt_succ_of_lt hba, r⟩
  · intro _ x
    rw [if_neg (by simp only; omega)]; simp [Cfg.total]

theorem allocate_spec {P : Par} (hP : P.Ok) {h : Hp V} {v : AV} {ts ex : List (Tok V)}
    (hc : Good P ⟨h, v, ts, ex⟩) (hv : v.cap = 0) (cap : Nat) (hcap : cap ≠ 0)
    (hl : P.layoutOk (cap * P.sizeT) = true) :
    (∃ h', h.allocate P (cap * P.sizeT) cap = (h', none) ∧ P.AllocFails ∧
      Post P ⟨h, v, ts, ex⟩ ⟨h', v, ts, ex⟩) ∨
    ∃ h' b, h.allocate P (cap * P.sizeT) cap = (h', some b) ∧
      Post P ⟨h, v, ts, ex⟩ ⟨h', { v with blk := some b, cap := cap }, ts, ex⟩ := by
  have o : Owned P h v ts := hc.own
  have hlen := o.len
  have hle := o.le
  have hts : ts = [] := List.eq_nil_of_length_eq_zero (by omega)
  unfold Hp.allocate
  match e : P.alloc h.allocs (cap * P.sizeT) P.align with
  | none => exact .inl ⟨_, rfl, ⟨_, _, e⟩, grow_none hc⟩
  | some a =>
    refine .inr ⟨_, _, rfl, ?_, ⟨o.len, by simp only; omega, by simp, ?_⟩, Nat.le_succ _, ?_, ?_, ?_,
      Nat.le_refl _, ?_⟩
    · intro c hcc
      simp only at hcc ⊢
      rw [if_neg (by omega)]
      exact hc.heap c (by simp only; omega)
    · intro b hb
      simp only [Option.some.injEq] at hb
      subst hb
      refine ⟨Nat.lt_succ_self _, hcap, _, if_pos rfl, rfl, rfl, hP.addr _ _ _ e, hl, by simp, ?_⟩
      subst hts
      intro i hi; simp at hi
    · intro b _ hb
      simp only [ne_eq, Option.some.injEq] at hb
      simp only [if_neg hb]
    · intro b hb _
      exact absurd hv (o.block b hb.symm).2.1
    · exact .inr (.inr ⟨_, rfl, Nat.le_refl _⟩)
    · intro _ x
      rw [if_neg (by simp only; omega)]; simp [Cfg.total]

theorem reallocate_spec {P : Par} (hP : P.Ok) {h : Hp V} {v : AV} {ts ex : List (Tok V)}
    (hc : Good P ⟨h, v, ts, ex⟩) (hv : v.cap ≠ 0) (cap : Nat) (hcap : v.cap ≤ cap)
    (hl : P.layoutOk (cap * P.sizeT) = true) :
    (∃ h', h.reallocate P v.blk (v.cap * P.sizeT) (cap * P.sizeT) cap = some (h', none) ∧
      P.AllocFails ∧ Post P ⟨h, v, ts, ex⟩ ⟨h', v, ts, ex⟩) ∨
    ∃ h' b, h.reallocate P v.blk (v.cap * P.sizeT) (cap * P.sizeT) cap = some (h', some b) ∧
      Post P ⟨h, v, ts, ex⟩ ⟨h', { v with blk := some b, cap := cap }, ts, ex⟩ := by
  have o : Owned P h v ts := hc.own
  have hlen := o.len
  have hle := o.le
  obtain ⟨b, hb⟩ := o.blk hv
  obtain ⟨hba, _, B, hB, hs, ha, had, hlo, hcl, hcells⟩ := o.block b hb
  simp only [Hp.reallocate, hb, hB, bind, Option.bind]
  rw [if_neg (by simp [hs, ha, hl])]
  match e : P.alloc h.allocs (cap * P.sizeT) P.align with
  | none => exact .inl ⟨_, rfl, ⟨_, _, e⟩, grow_none hc⟩
  | some a =>
    refine .inr ⟨_, _, rfl, ?_, ⟨o.len, by simp only; omega, by simp, ?_⟩, Nat.le_succ _, ?_, ?_, ?_,
      Nat.le_refl _, ?_⟩
    · intro c hcc
      simp only at hcc ⊢
      rw [if_neg (by omega), if_neg (by omega)]
      exact hc.heap c (by simp only; omega)
    · intro b hb
      simp only [Option.some.injEq] at hb
      subst hb
      refine ⟨Nat.lt_succ_self _, by simp only; omega, _, if_pos rfl, rfl, rfl, hP.addr _ _ _ e, hl,
        by simp only [List.length_append, List.length_take, List.length_replicate, hcl]; omega, ?_⟩
      intro i hi
      replace hi : i < ts.length := hi
      rw [List.getElem?_append_left (by simp only [List.length_take]; omega), List.getElem?_take_of_lt (by omega)]
      exact hcells i hi
    · intro c h1 h2
      simp only [hb, ne_eq, Option.some.injEq] at h1 h2
      simp only [if_neg h1, if_neg h2]
    · intro c h1 h2
      simp only [hb, ne_eq, Option.some.injEq] at h1 h2
      simp only [if_neg h2, if_pos h1]
    · exact .inr (.inr ⟨_, rfl, Nat.le_refl _⟩)
    · intro _ x
      rw [if_neg (by simp only; omega)]; simp [Cfg.total]

/-- The request stays below what `realloc` accepts. -/
def Par.Small (P : Par) (n : Nat) : Prop := 2 * n * P.sizeT + P.align ≤ 2 ^ (P.w - 1)

theorem Par.Small.lt {P : Par} (hP : P.Ok) {n : Nat} (h : P.Small n) : n < 2 ^ P.w := by
  unfold Par.Small at h
  have h1 : n ≤ 2 * n * P.sizeT := by
    have : 1 ≤ P.sizeT := Nat.pos_of_ne_zero hP.size
    calc n ≤ 2 * n * 1 := by omega
      _ ≤ 2 * n * P.sizeT := Nat.mul_le_mul_left _ this
  have h2 : 2 ^ (P.w - 1) ≤ 2 ^ P.w := Nat.pow_le_pow_right (by omega) (by omega)
  rcases Nat.eq_zero_or_pos n with hn | hn
  · subst hn; exact Nat.two_pow_pos _
  · have : n < 2 * n * P.sizeT := by
      have : 1 ≤ P.sizeT := Nat.pos_of_ne_zero hP.size
      calc n < 2 * n * 1 := by omega
        _ ≤ 2 * n * P.sizeT := Nat.mul_le_mul_left _ this
    omega

theorem reserve_spec {P : Par} (hP : P.Ok) {h : Hp V} {v : AV} {ts ex : List (Tok V)}
    (hc : Good P ⟨h, v, ts, ex⟩) (n : Nat) (hn : P.Small (v.len + n)) :
    ∃ h' v' ok, reserve P h v n = some (h', v', ok) ∧ v'.len = v.len ∧ v.cap ≤ v'.cap ∧
      (ok = true → v.len + n ≤ v'.cap) ∧ (v.len + n ≤ v.cap → ok = true) ∧
      (ok = false → P.AllocFails) ∧ Post P ⟨h, v, ts, ex⟩ ⟨h', v', ts, ex⟩ := by
  have hlt := hn.lt hP
  unfold reserve
  rw [if_neg (by omega)]
  simp only [Nat.mod_eq_of_lt hlt]
  by_cases h1 : v.len + n ≤ v.cap
  · rw [if_pos h1]
    exact ⟨h, v, true, rfl, rfl, Nat.le_refl _, fun _ => h1, fun _ => rfl, by simp,
      Post.refl hc⟩
  · rw [if_neg h1]
    have hle : v.len + n ≤ nextPow2 (v.len + n) := nextPow2_ge _
    have hpos := nextPow2_pos (v.len + n)
    have hle2 : nextPow2 (v.len + n) ≤ 2 * (v.len + n) := nextPow2_le _ (by omega)
    have hmul : nextPow2 (v.len + n) * P.sizeT ≤ 2 * (v.len + n) * P.sizeT :=
      Nat.mul_le_mul_right _ hle2
    generalize nextPow2 (v.len + n) = k at hle hpos hle2 hmul ⊢
    have hl : P.layoutOk (k * P.sizeT) = true := by
      unfold Par.layoutOk; unfold Par.Small at hn
      exact decide_eq_true (by omega)
    have hw : 2 ^ (P.w - 1) ≤ 2 ^ P.w := Nat.pow_le_pow_right (by omega) (by omega)
    have hk : k ≤ k * P.sizeT := Nat.le_mul_of_pos_right _ (Nat.pos_of_ne_zero hP.size)
    have hlt' : k * P.sizeT < 2 ^ P.w := by
      have := hP.size
      have := hP.align'
      unfold Par.Small at hn
      omega
    rw [if_neg (by omega), if_neg (by omega), if_neg (by omega)]
    by_cases h5 : v.cap = 0
    · rw [if_pos h5, if_neg (by simp [hl])]
      rcases allocate_spec hP hc h5 k (by omega) hl with ⟨h', e, hf, p⟩ | ⟨h', b, e, p⟩
      · rw [e]
        exact ⟨h', v, false, rfl, rfl, Nat.le_refl _, by simp, fun h' => absurd h' h1, fun _ => hf, p⟩
      · rw [e]
        exact ⟨h', _, true, rfl, rfl, by simp only; omega, fun _ => hle, fun _ => rfl, by simp, p⟩
    · rw [if_neg h5]
      have o : Owned P h v ts := hc.own
      obtain ⟨b0, hb0⟩ := o.blk h5
      obtain ⟨_, _, B, _, hsz, _, _, hlo, _⟩ := o.block b0 hb0
      rw [hsz] at hlo
      rw [if_neg (by simp [hlo])]
      rcases reallocate_spec hP hc h5 k (by omega) hl with ⟨h', e, hf, p⟩ | ⟨h', b, e, p⟩
      · rw [e]
        exact ⟨h', v, false, rfl, rfl, Nat.le_refl _, by simp, fun h' => absurd h' h1, fun _ => hf, p⟩
      · rw [e]
        exact ⟨h', _, true, rfl, rfl, by simp only; omega, fun _ => hle, fun _ => rfl, by simp, p⟩

theorem push_spec {P : Par} (hP : P.Ok) {h : Hp V} {v : AV} {ts ex : List (Tok V)} {t : Tok V}
    (hc : Good P ⟨h, v, ts, t :: ex⟩) (hn : P.Small (v.len + 1)) :
    ∃ h' v' ok, push P h v t = some (h', v', ok) ∧ v.cap ≤ v'.cap ∧ (v.len < v.cap → ok = true) ∧
      (ok = false → P.AllocFails) ∧ Post P ⟨h, v, ts, t :: ex⟩ ⟨h', v', if ok then ts ++ [t] else ts, ex⟩ := by
  obtain ⟨h1, v1, ok, e1, hl, hcap, hok, hok', hfail, p1⟩ := reserve_spec hP hc 1 hn
  simp only [push, e1, bind, Option.bind]
  cases ok with
  | true =>
    obtain ⟨h2, e2, p2⟩ := write_spec (p1.good hc) (by have := hok rfl; omega)
    simp only [if_true, e2]
    exact ⟨h2, _, true, rfl, hcap, fun _ => rfl, by simp, p1.trans hc p2⟩
  | false =>
    obtain ⟨h2, e2, p2⟩ := dropTok_spec (p1.good hc)
    simp only [e2]
    exact ⟨h2, v1, false, rfl, hcap, fun h' => hok' h', hfail, p1.trans hc p2⟩

theorem extendLoop_spec {P : Par} (n : Nat) {h : Hp V} {v : AV} {ts ex : List (Tok V)} {t : Tok V}
    (hc : Good P ⟨h, v, ts, t :: ex⟩) (hn : n ≠ 0) (hcap : v.len + n ≤ v.cap) :
    ∃ h' v' ok us, extendLoop P n h v t = some (h', v', ok) ∧ v'.cap = v.cap ∧
      (∀ u ∈ us, u.2 = t.2) ∧ (ok = false → us.length < n ∧ P.CloneFails) ∧ (ok = true → us.length = n) ∧
      Post P ⟨h, v, ts, t :: ex⟩ ⟨h', v', ts ++ us, ex⟩ := by
  induction n generalizing h v ts with
  | zero => exact absurd rfl hn
  | succ n ih =>
    cases n with
    | zero =>
      obtain ⟨h2, e2, p2⟩ := write_spec hc (by omega)
      refine ⟨h2, { v with len := v.len + 1 }, true, [t], ?_, rfl, by simp, by simp, by simp, p2⟩
      simp [extendLoop, e2]
    | succ n =>
      rcases cloneTok_spec hc t.2 with ⟨h1, e1, hf, p1⟩ | ⟨h1, c, e1, hcv, p1⟩
      · obtain ⟨h2, e2, p2⟩ := dropTok_spec (p1.good hc)
        refine ⟨h2, v, false, [], ?_, rfl, by simp, fun _ => ⟨by simp, hf⟩, by simp, ?_⟩
        · simp [extendLoop, e1, e2]
        · simpa using p1.trans hc p2
      · obtain ⟨h2, e2, p2⟩ := write_spec (p1.good hc) (by omega)
        have p12 := p1.trans hc p2
        obtain ⟨h3, v3, ok, us, e3, hc3, hu, hul, hok, p3⟩ :=
          ih (p12.good hc) (by omega) (by simp only; omega)
        refine ⟨h3, v3, ok, c :: us, ?_, hc3, ?_, fun h' => ⟨by simpa using (hul h').1, (hul h').2⟩,
          fun h' => by simp [hok h'], ?_⟩
        · simp [extendLoop, e1, e2, e3]
        · intro u hu'
          rcases List.mem_cons.1 hu' with rfl | hu'
          · exact hcv
          · exact hu u hu'
        · have := p12.trans hc p3
          simpa using this

theorem resize_spec {P : Par} (hP : P.Ok) {h : Hp V} {v : AV} {ts ex : List (Tok V)} {t : Tok V}
    (hc : Good P ⟨h, v, ts, t :: ex⟩) (n : Nat) (hn : P.Small (v.len + n)) :
    ∃ h' v' ok us, resize P h v n t = some (h', v', ok) ∧ v.cap ≤ v'.cap ∧
      (∀ u ∈ us, u.2 = t.2) ∧ (ok = true → us.length = n - ts.length) ∧
      (ok = false → us.length < n - ts.length ∧ ((¬ n ≤ v.cap ∧ P.AllocFails) ∨ P.CloneFails)) ∧
      Post P ⟨h, v, ts, t :: ex⟩ ⟨h', v', if n ≤ ts.length then ts.take n else ts ++ us, ex⟩ := by
  have o : Owned P h v ts := hc.own
  have hlen := o.len
  unfold resize
  by_cases hgt : n > v.len
  · rw [if_pos hgt]
    have hs : P.Small (v.len + (n - v.len)) := by
      unfold Par.Small at hn ⊢
      refine Nat.le_trans (Nat.add_le_add_right (Nat.mul_le_mul_right _ ?_) _) hn
      omega
    obtain ⟨h1, v1, ok, e1, hl, hcap, hok, hok', hfail, p1⟩ := reserve_spec hP hc _ hs
    have hcond : ¬ n ≤ ts.length := by omega
    simp only [if_neg hcond, e1, bind, Option.bind]
    cases ok with
    | true =>
      have := hok rfl
      obtain ⟨h2, v2, ok, us, e2, hc2, hu, hul, hok2, p2⟩ :=
        extendLoop_spec (n - v.len) (p1.good hc) (by omega) (by omega)
      refine ⟨h2, v2, ok, us, e2, by omega, hu, fun h' => by
        rw [hok2 h', hlen], fun h' => ⟨by have := (hul h').1; omega, .inr (hul h').2⟩,
        p1.trans hc p2⟩
    | false =>
      obtain ⟨h2, e2, p2⟩ := dropTok_spec (p1.good hc)
      refine ⟨h2, v1, false, [], by simp [e2], hcap, by simp, by simp,
        fun _ => ⟨by simp; omega, .inl ⟨fun h' => ?_, hfail rfl⟩⟩, ?_⟩
      · exact absurd (hok' (by omega)) (by simp)
      simpa using p1.trans hc p2
  · have hcond : n ≤ ts.length := by omega
    simp only [if_neg hgt, if_pos hcond]
    obtain ⟨h1, v1, e1, hcap, p1⟩ := truncate_spec hc n
    obtain ⟨h2, e2, p2⟩ := dropTok_spec (p1.good hc)
    refine ⟨h2, v1, true, [], by simp [e1, e2], by omega, by simp, fun _ => by simp; omega,
      by simp, p1.trans hc p2⟩

theorem pop_spec {P : Par} {h : Hp V} {v : AV} {ts ex : List (Tok V)}
    (hc : Good P ⟨h, v, ts, ex⟩) :
    (ts = [] ∧ pop h v = some (v, none)) ∨
    ∃ us t, ts = us ++ [t] ∧ pop h v = some ({ v with len := v.len - 1 }, some t) ∧
      Post P ⟨h, v, ts, ex⟩ ⟨h, { v with len := v.len - 1 }, us, t :: ex⟩ := by
  have o : Owned P h v ts := hc.own
  have hlen := o.len
  unfold pop
  by_cases h0 : v.len = 0
  · rw [if_pos h0]; exact .inl ⟨List.eq_nil_of_length_eq_zero (by omega), rfl⟩
  · rw [if_neg h0, read_spec o (v.len - 1) (by omega)]
    have hd : ts.drop (v.len - 1) = [ts[v.len - 1]] := by
      rw [List.drop_eq_getElem_cons (by omega), List.drop_eq_nil_of_le (by omega)]
    refine .inr ⟨ts.take (v.len - 1), ts[v.len - 1], ?_, rfl, ?_⟩
    · rw [← hd, List.take_append_drop]
    · have p := shrink_spec hc (v.len - 1) (by omega)
      rwa [hd] at p

theorem popLoop_spec {P : Par} (n : Nat) {h : Hp V} {v : AV} {ts ex : List (Tok V)}
    (hc : Good P ⟨h, v, ts, ex⟩) (hn : v.len = n) :
    ∃ h' v', popLoop P n h v = some (h', v') ∧ v'.cap = v.cap ∧
      Post P ⟨h, v, ts, ex⟩ ⟨h', v', [], ex⟩ := by
  induction n generalizing h v ts with
  | zero =>
    have o : Owned P h v ts := hc.own
    have : ts = [] := List.eq_nil_of_length_eq_zero (by have := o.len; omega)
    subst this
    exact ⟨h, v, rfl, rfl, Post.refl hc⟩
  | succ n ih =>
    rcases pop_spec hc with ⟨hts, _⟩ | ⟨us, t, hts, e, p⟩
    · have o : Owned P h v ts := hc.own
      have := o.len
      subst hts; simp at this; omega
    · obtain ⟨h1, e1, p1⟩ := dropTok_spec (p.good hc)
      have p01 := p.trans hc p1
      obtain ⟨h2, v2, e2, hcap, p2⟩ := ih (p01.good hc) (by simp only; omega)
      exact ⟨h2, v2, by simp [popLoop, e, e1, e2], hcap, p01.trans hc p2⟩

/-- The vector that owns nothing. -/
abbrev av0 : AV := ⟨none, 0, 0⟩

theorem drop_spec {P : Par} (hP : P.Ok) {h : Hp V} {v : AV} {ts ex : List (Tok V)}
    (hc : Good P ⟨h, v, ts, ex⟩) :
    ∃ h', drop P h v = some h' ∧ Post P ⟨h, v, ts, ex⟩ ⟨h', av0, [], ex⟩ := by
  unfold drop
  by_cases h0 : v.cap ≠ 0 ∧ P.sizeT ≠ 0
  · rw [if_pos h0]
    obtain ⟨h1, v1, e1, hcap, p1⟩ := popLoop_spec v.len hc rfl
    have o1 : Owned P h1 v1 [] := p1.own
    have g1 := p1.good hc
    obtain ⟨b, hb⟩ := o1.blk (by omega)
    obtain ⟨hba, _, B, hB, hs, ha, had, hlo, hcl, hcells⟩ := o1.block b hb
    refine ⟨{ h1 with blocks := fun c => if c = b then none else h1.blocks c }, ?_, p1.trans hc ?_⟩
    · simp [e1, Hp.deallocate, hb, hB, hs, ha]
    · refine ⟨?_, ⟨rfl, Nat.le_refl _, fun _ => rfl, by simp⟩, Nat.le_refl _, ?_, ?_,
        .inr (.inl rfl), Nat.le_refl _, ?_⟩
      · intro c hcc
        simp only at hcc ⊢
        rw [if_neg (by omega)]; exact g1.heap c hcc
      · intro c h1' _
        simp only [hb, ne_eq, Option.some.injEq] at h1'
        simp only [if_neg h1']
      · intro c h1' _
        simp only [hb, Option.some.injEq] at h1'
        simp only [if_pos h1']
      · intro _ x
        rw [if_neg (by simp only; omega)]; simp [Cfg.total]
  · rw [if_neg h0]
    have o : Owned P h v ts := hc.own
    have hv : v.cap = 0 := by have := hP.size; omega
    have hts : ts = [] := List.eq_nil_of_length_eq_zero (by have := o.len; have := o.le; omega)
    have hb : v.blk = none := by
      match e : v.blk with
      | none => rfl
      | some b => exact absurd hv (o.block b e).2.1
    subst hts
    refine ⟨h, rfl, hc.heap, ⟨rfl, Nat.le_refl _, fun _ => rfl, by simp⟩, Nat.le_refl _,
      fun _ _ _ => rfl, ?_, .inr (.inl rfl), Nat.le_refl _, ?_⟩
    · intro c h1; simp only [hb] at h1; cases h1
    · intro _ x
      rw [if_neg (by simp only; omega)]; simp [Cfg.total]

theorem withCapacity_spec {P : Par} (hP : P.Ok) {h : Hp V} {ex : List (Tok V)}
    (hc : Good P ⟨h, av0, [], ex⟩) (n : Nat) :
    (∃ h', withCapacity P h n = (h', none) ∧ (P.AllocFails ∨ ¬ P.layoutOk (n * P.sizeT) = true) ∧
      Post P ⟨h, av0, [], ex⟩ ⟨h', av0, [], ex⟩) ∨
    ∃ h' v, withCapacity P h n = (h', some v) ∧ v.cap = n ∧
      Post P ⟨h, av0, [], ex⟩ ⟨h', v, [], ex⟩ := by
  have hs := hP.size
  have ha := hP.align
  unfold withCapacity
  rw [if_neg (by omega)]
  by_cases h0 : n = 0
  · rw [if_pos h0, new, if_neg (by omega)]
    exact .inr ⟨h, _, rfl, h0.symm, Post.refl hc⟩
  rw [if_neg h0]
  by_cases h1 : 2 ^ P.w ≤ n * P.sizeT
  · rw [if_pos h1]
    refine .inl ⟨h, rfl, .inr ?_, Post.refl hc⟩
    have hw : 2 ^ (P.w - 1) ≤ 2 ^ P.w := Nat.pow_le_pow_right (by omega) (by omega)
    have := hP.align'
    simp only [Par.layoutOk, decide_eq_true_eq]
    omega
  rw [if_neg h1]
  by_cases h2 : ¬ P.layoutOk (n * P.sizeT) = true
  · rw [if_pos h2]; exact .inl ⟨h, rfl, .inr h2, Post.refl hc⟩
  rw [if_neg h2]
  rcases allocate_spec hP hc rfl n h0 (by simpa using h2) with ⟨h', e, hf, p⟩ | ⟨h', b, e, p⟩
  · rw [e]; exact .inl ⟨h', rfl, .inl hf, p⟩
  · rw [e]; exact .inr ⟨h', _, rfl, rfl, p⟩

theorem fromLoop_spec {P : Par} (hP : P.Ok) (xs : List V) {h : Hp V} {v : AV}
    {ts ex : List (Tok V)} (hc : Good P ⟨h, v, ts, ex⟩) (hn : P.Small (v.len + xs.length))
    (hcap : v.len + xs.length ≤ v.cap) :
    ∃ h' v' ok us, fromLoop P xs h v = some (h', v', ok) ∧ v.cap ≤ v'.cap ∧
      (ok = true → us.map (·.2) = xs) ∧ (ok = false → P.CloneFails) ∧
      Post P ⟨h, v, ts, ex⟩ ⟨h', v', ts ++ us, ex⟩ := by
  induction xs generalizing h v ts with
  | nil => exact ⟨h, v, true, [], rfl, Nat.le_refl _, fun _ => rfl, by simp,
      by simpa using Post.refl hc⟩
  | cons x xs ih =>
    simp only [List.length_cons] at hn hcap
    rcases cloneTok_spec hc x with ⟨h1, e1, hf, p1⟩ | ⟨h1, c, e1, hcv, p1⟩
    · exact ⟨h1, v, false, [], by simp [fromLoop, e1], Nat.le_refl _, by simp, fun _ => hf,
        by simpa using p1⟩
    · have hs : P.Small (v.len + 1) := by
        unfold Par.Small at hn ⊢
        refine Nat.le_trans (Nat.add_le_add_right (Nat.mul_le_mul_right _ ?_) _) hn
        omega
      obtain ⟨h2, v2, ok, e2, hc2, hok, -, p2⟩ := push_spec hP (p1.good hc) hs
      have hok := hok (by omega)
      subst hok
      simp only [if_true] at p2
      have p12 := p1.trans hc p2
      have o : Owned P h v ts := hc.own
      have o2 : Owned P h2 v2 (ts ++ [c]) := p2.own
      have hl := o.len
      have hl2 := o2.len
      simp only [List.length_append, List.length_singleton] at hl2
      have hv2 : v2.len = v.len + 1 := by omega
      obtain ⟨h3, v3, ok, us, e3, hc3, hu, hf, p3⟩ := ih (p12.good hc)
        (by rw [hv2]; simpa [Nat.add_assoc, Nat.add_comm 1] using hn) (by omega)
      refine ⟨h3, v3, ok, c :: us, by simp [fromLoop, e1, e2, e3], by omega, fun h' => ?_, hf, ?_⟩
      · simp [hu h', hcv]
      · simpa using p12.trans hc p3

theorem fromSlice_spec {P : Par} (hP : P.Ok) (xs : List V) {h : Hp V} {ex : List (Tok V)}
    (hc : Good P ⟨h, av0, [], ex⟩) (hn : P.Small xs.length) :
    (∃ h', fromSlice P h xs = some (h', none) ∧ (P.AllocFails ∨ P.CloneFails) ∧
      Post P ⟨h, av0, [], ex⟩ ⟨h', av0, [], ex⟩) ∨
    ∃ h' v us, fromSlice P h xs = some (h', some v) ∧ us.map (·.2) = xs ∧
      Post P ⟨h, av0, [], ex⟩ ⟨h', v, us, ex⟩ := by
  unfold fromSlice
  have hlo : P.layoutOk (xs.length * P.sizeT) = true := by
    unfold Par.Small at hn
    simp only [Par.layoutOk, decide_eq_true_eq]
    refine Nat.le_trans (Nat.add_le_add_right (Nat.mul_le_mul_right _ ?_) _) hn
    omega
  rcases withCapacity_spec hP hc xs.length with ⟨h1, e1, hf, p1⟩ | ⟨h1, v1, e1, hcap, p1⟩
  · rw [e1]; exact .inl ⟨h1, rfl, .inl (hf.resolve_right fun h' => h' hlo), p1⟩
  · rw [e1]
    have o1 : Owned P h1 v1 [] := p1.own
    have hl := o1.len
    simp only [List.length_nil] at hl
    obtain ⟨h2, v2, ok, us, e2, hc2, hu, hf, p2⟩ := fromLoop_spec hP xs (p1.good hc)
      (by rw [← hl]; simpa using hn) (by omega)
    have p12 := p1.trans hc p2
    cases ok with
    | true =>
      refine .inr ⟨h2, v2, us, by simp [e2], hu rfl, by simpa using p12⟩
    | false =>
      obtain ⟨h3, e3, p3⟩ := drop_spec hP (p12.good hc)
      refine .inl ⟨h3, by simp [e2, e3], .inr (hf rfl), p12.trans hc p3⟩

theorem setAt_spec {P : Par} {h : Hp V} {v : AV} {ts ex : List (Tok V)} {t : Tok V}
    (hc : Good P ⟨h, v, ts, t :: ex⟩) (i : Nat) :
    ∃ h', setAt P h v i t = some (h', decide (i < ts.length)) ∧
      Post P ⟨h, v, ts, t :: ex⟩ ⟨h', v, ts.set i t, ex⟩ := by
  have o : Owned P h v ts := hc.own
  have hlen := o.len
  unfold setAt
  by_cases hi : i < v.len
  · rw [if_pos hi, read_spec o i (by omega)]
    obtain ⟨h1, e1, hd1, hg1, p1⟩ := overwrite_spec hc i (by omega)
    obtain ⟨h2, e2, p2⟩ := dropTok_spec (p1.good hc)
    -- dropping and writing commute
    have hcomm : (h.dropTok P ts[i] >>= fun h => h.write v.blk i t) = some h2 := by
      rw [← e2]
      simp only [Hp.write, bind, Option.bind] at e1 ⊢
      match hb : v.blk with
      | none => rw [hb] at e1; simp at e1
      | some b =>
        rw [hb] at e1
        simp only at e1 ⊢
        match hB : h.blocks b with
        | none => rw [hB] at e1; simp at e1
        | some B =>
          rw [hB] at e1
          simp only at e1
          split at e1
          · rename_i hlt
            cases e1
            unfold Hp.dropTok
            by_cases hg : P.glue = true
            · by_cases hm : ts[i].1 ∈ h.dropped ∨ ts[i].1 ∈ h.given
              · simp [hg, hm]
              · simp [hg, hm, hB, hlt]
            · simp [hg, hB, hlt]
          · cases e1
    refine ⟨h2, ?_, p1.trans hc p2⟩
    match hd : h.dropTok P ts[i] with
    | none => rw [hd] at hcomm; simp at hcomm
    | some h' =>
      rw [hd] at hcomm
      simp only [bind, Option.bind] at hcomm ⊢
      rw [hd]
      simp only [hcomm]
      simp [hlen, hi]
  · rw [if_neg hi]
    obtain ⟨h2, e2, p2⟩ := dropTok_spec hc
    refine ⟨h2, ?_, ?_⟩
    · simp [e2, hlen, hi]
    · rwa [List.set_eq_of_length_le (by omega)]

/-- Copying the cells of another vector. -/
theorem copy_spec {P : Par} (hg : P.glue = false) {us : List (Tok V)} {src : AV} {v0 v : AV} (n : Nat)
    {h0 h : Hp V} {ex : List (Tok V)}
    (hc : Good P ⟨h, v, [], ex⟩) (o : Owned P h0 src us) (hn : n ≤ us.length) (hcap : n ≤ v.cap)
    (hne : v.blk = none ∨ v.blk ≠ src.blk) (p : Post P ⟨h0, v0, [], ex⟩ ⟨h, v, [], ex⟩)
    (h0c : v0 = av0) :
    ∃ h', h.copy src.blk v.blk n = some h' ∧
      Post P ⟨h, v, [], ex⟩ ⟨h', { v with len := n }, us.take n, ex⟩ := by
  induction n with
  | zero =>
    refine ⟨h, rfl, ?_⟩
    have ov : Owned P h v [] := hc.own
    have hl := ov.len
    simp only [List.length_nil] at hl
    have : ({ v with len := 0 } : AV) = v := by cases v; simp_all
    rw [this]; exact Post.refl hc
  | succ n ih =>
    obtain ⟨h1, e1, p1⟩ := ih (by omega) (by omega)
    have g1 := p1.good hc
    have hcv : v.cap ≠ 0 := by omega
    have ov : Owned P h v [] := hc.own
    obtain ⟨b, hb⟩ := ov.blk hcv
    have hle := o.le
    have hlen := o.len
    obtain ⟨b', hb'⟩ := o.blk (by omega)
    have hne' : b' ≠ b := by
      rintro rfl
      rcases hne with h | h
      · rw [h] at hb; cases hb
      · exact h (hb.trans hb'.symm)
    -- the source is still there
    have os : Owned P h1 src us := by
      refine ⟨o.len, o.le, o.empty, ?_⟩
      intro c hcb
      obtain ⟨x1, x2, B, x3, x4⟩ := o.block c hcb
      have hcc : b' = c := by rw [hb'] at hcb; exact Option.some.inj hcb
      subst hcc
      have hm := p.mono
      have hm1 := p1.mono
      simp only at hm hm1
      refine ⟨by omega, x2, B, ?_, x4⟩
      have s1 := p1.same b' (by simp only [hb, ne_eq, Option.some.injEq]; exact hne')
        (by simp only [hb, ne_eq, Option.some.injEq]; exact hne')
      have s0 := p.same b' (by simp [h0c]) (by simp only [hb, ne_eq, Option.some.injEq]; exact hne')
      simp only at s1 s0
      rw [s1, s0, x3]
    have hr := read_spec os n (by omega)
    have g1' : Good P ⟨h1, { v with len := n }, us.take n, us[n] :: ex⟩ :=
      ⟨g1.heap, g1.own, fun h' => by rw [hg] at h'; cases h'⟩
    obtain ⟨h2, e2, p2⟩ := write_spec g1' (by simp only; omega)
    refine ⟨h2, ?_, p1.trans hc ?_⟩
    · simp only [Hp.copy, e1, bind, Option.bind, hr]
      exact e2
    · have ht : us.take (n + 1) = us.take n ++ [us[n]] := (List.take_append_getElem (by omega)).symm
      rw [ht]
      exact ⟨p2.heap, p2.own, p2.mono, p2.same, p2.freed, p2.fresh, p2.made,
        fun h' => by rw [hg] at h'; cases h'⟩

theorem clone_spec {P : Par} (hP : P.Ok) (hg : P.glue = false) {h : Hp V} {src : AV}
    {us ex : List (Tok V)} (hc : Good P ⟨h, av0, [], ex⟩) (o : Owned P h src us) :
    (∃ h', clone P h src = some (h', none) ∧ P.AllocFails ∧ Post P ⟨h, av0, [], ex⟩ ⟨h', av0, [], ex⟩) ∨
    ∃ h' v, clone P h src = some (h', some v) ∧
      Post P ⟨h, av0, [], ex⟩ ⟨h', v, us, ex⟩ := by
  unfold clone
  rcases withCapacity_spec hP hc src.len with ⟨h1, e1, hf, p1⟩ | ⟨h1, v1, e1, hcap, p1⟩
  · rw [e1]
    refine .inl ⟨h1, rfl, ?_, p1⟩
    rcases hf with hf | hf
    · exact hf
    exfalso
    by_cases h0 : src.len = 0
    · rw [h0] at e1
      have := hP.size
      have := hP.align
      simp only [withCapacity, new] at e1
      rw [if_neg (by omega), if_pos trivial, if_neg (by omega)] at e1
      simp at e1
    · have hle := o.le
      obtain ⟨b, hb⟩ := o.blk (by omega)
      obtain ⟨_, _, B, _, hsz, _, _, hlo, _⟩ := o.block b hb
      rw [hsz] at hlo
      simp only [Par.layoutOk, decide_eq_true_eq] at hlo hf
      have := Nat.mul_le_mul_right P.sizeT hle
      omega
  · rw [e1]
    have hlen := o.len
    have hne : v1.blk = none ∨ v1.blk ≠ src.blk := by
      match hb : v1.blk with
      | none => exact .inl rfl
      | some b =>
        refine .inr fun he => ?_
        have hlt := (o.block b he.symm).1
        rcases p1.fresh with hf | hf | ⟨b', hf, hl⟩
        · simp only [hb] at hf; cases hf
        · simp only [hb] at hf; cases hf
        · simp only [hb, Option.some.injEq] at hf hl
          omega
    obtain ⟨h2, e2, p2⟩ := copy_spec hg src.len (p1.good hc) o (by omega) (by omega) hne p1 rfl
    rw [List.take_of_length_le (by omega)] at p2
    refine .inr ⟨h2, _, ?_, p1.trans hc p2⟩
    simp [e2]

end Verif.AVec
