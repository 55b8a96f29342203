import Verif.AVec.Spec
import Mathlib.Data.List.Nodup

/-!
Programs using `AlignedVec`: C60.
-/
set_option autoImplicit false

namespace Verif.AVec

variable {V : Type}

theorem set_same {α : Type} (a : List α) (i : Nat) (x : α) (h : a[i]? = some x) : a.set i x = a := by
  apply List.ext_getElem?
  intro j
  by_cases hj : j = i
  · subst hj
    rw [List.getElem?_set_self', h]; rfl
  · rw [List.getElem?_set_ne (Ne.symm hj)]

theorem all_eq_replicate {us : List (Tok V)} {y : V} (h : ∀ u ∈ us, u.2 = y) :
    us.map (·.2) = List.replicate us.length y := by
  induction us with
  | nil => rfl
  | cons u us ih =>
    simp only [List.map_cons, List.length_cons, List.replicate_succ]
    rw [h u (by simp), ih fun w hw => h w (by simp [hw])]

theorem good0 {P : Par} {h : Hp V} {cs : List (AV × List (Tok V))} (m : MInv P h cs) :
    Good P ⟨h, av0, [], []⟩ :=
  m.append.good (i := cs.length) (c := (av0, [])) List.getElem?_concat_length

theorem Par.Small.mono {P : Par} {m n : Nat} (h : P.Small n) (hm : m ≤ n) : P.Small m := by
  unfold Par.Small at h ⊢
  refine Nat.le_trans (Nat.add_le_add_right (Nat.mul_le_mul_right _ ?_) _) h
  omega

theorem step_spec {P : Par} (hP : P.Ok) {s : St V} {cs : List (AV × List (Tok V))} {a : Abs V}
    {n : Nat} (I : SInv P s cs a n) (op : Op V) (hc : P.glue = true → op.isClone = false)
    (hs : P.Small (n + op.asks)) :
    ∃ s' o a' cs', step P s op = some (s', o) ∧ Spec P a op o a' ∧
      SInv P s' cs' a' (n + op.asks) := by
  match ht : op.target with
  | none =>
    have g := good0 I.mem
    cases op with
    | new =>
      have h1 := hP.size
      have h2 := hP.align
      have e : new P = some av0 := by rw [new, if_neg (by omega)]
      refine ⟨⟨s.h, s.vecs ++ [some av0]⟩, .done, a ++ [some ⟨[], 0⟩], _, ?_, ⟨rfl, rfl⟩,
        I.append (d := (av0, [])) (Post.refl g) ⟨rfl, 0, Nat.le_refl _, rfl⟩ (by omega) (by simp)⟩
      simp [step, Op.target, St.add, e]
    | withCapacity k =>
      rcases withCapacity_spec hP g k with ⟨h', e, hf, p⟩ | ⟨h', v, e, hcap, p⟩
      · refine ⟨⟨h', s.vecs ++ [none]⟩, .panic, a ++ [none], _, ?_, .inr ⟨rfl, hf, rfl⟩,
          I.append (d := (av0, [])) p ⟨rfl, rfl⟩ (by omega) (by simp)⟩
        simp [step, Op.target, St.add, e]
      · refine ⟨⟨h', s.vecs ++ [some v]⟩, .done, a ++ [some ⟨[], k⟩], _, ?_, .inl ⟨rfl, rfl⟩,
          I.append (d := (v, [])) p ⟨rfl, k, by omega, rfl⟩ (by omega) (by simp)⟩
        simp [step, Op.target, St.add, e]
    | fromSlice xs =>
      rcases fromSlice_spec hP xs g (hs.mono (by simp [Op.asks])) with
        ⟨h', e, hf, p⟩ | ⟨h', v, us, e, hu, p⟩
      · refine ⟨⟨h', s.vecs ++ [none]⟩, .panic, a ++ [none], _, ?_, .inr ⟨rfl, hf, rfl⟩,
          I.append (d := (av0, [])) p ⟨rfl, rfl⟩ (by omega) (by simp)⟩
        simp [step, Op.target, St.add, e]
      · have o : Owned P h' v us := p.own
        have hl : us.length = xs.length := by rw [← hu]; simp
        refine ⟨⟨h', s.vecs ++ [some v]⟩, .done, a ++ [some ⟨xs, xs.length⟩], _, ?_,
          .inl ⟨rfl, rfl⟩, I.append (d := (v, us)) p
            ⟨rfl, xs.length, by have := o.len; have := o.le; omega, by simp [hu]⟩ (by omega)
            (by simp [Op.asks, hl])⟩
        simp [step, Op.target, St.add, e]
    | clone _ => cases ht
    | push _ _ => cases ht
    | pop _ => cases ht
    | truncate _ _ => cases ht
    | clear _ => cases ht
    | reserve _ _ => cases ht
    | resize _ _ _ => cases ht
    | read _ => cases ht
    | set _ _ _ => cases ht
    | capacity _ => cases ht
    | drop _ => cases ht
  | some i =>
    match hv : s.vecs[i]? with
    | none =>
      have hlt : s.vecs.length ≤ i := by
        rcases Nat.lt_or_ge i s.vecs.length with h1 | h1
        · rw [List.getElem?_eq_getElem h1] at hv; cases hv
        · exact h1
      refine ⟨s, .bad, a, cs, by simp [step, ht, St.get, hv], ?_, ⟨I.mem, I.lc, I.la, I.rel,
        fun i c h => Nat.le_trans (I.short i c h) (by omega)⟩⟩
      simp [Spec, ht, List.getElem?_eq_none (show a.length ≤ i by rw [I.la]; exact hlt)]
    | some none =>
      obtain ⟨c, x, _, hx, _, rfl⟩ := I.rel i none hv
      refine ⟨s, .bad, a, cs, by simp [step, ht, St.get, hv], ?_, ⟨I.mem, I.lc, I.la, I.rel,
        fun i c h => Nat.le_trans (I.short i c h) (by omega)⟩⟩
      simp [Spec, ht, hx]
    | some (some v) =>
      obtain ⟨⟨v', ts⟩, x, hci, hx, hv', r, hr, rfl⟩ := I.rel i (some v) hv
      simp only at hv' hr hx
      subst hv'
      have g := I.mem.good hci
      simp only at g
      have o : Owned P s.h v' ts := g.own
      have hlen := o.len
      have hshort := I.short i _ hci
      simp only at hshort
      have hstep : step P s op = s.onVec P i v' op := by simp [step, ht, St.get, hv]
      rw [hstep]
      have hspec : ∀ out a', SpecOn P a i ⟨ts.map (·.2), r⟩ out a' op → Spec P a op out a' := by
        intro out a' h
        unfold Spec
        rw [ht]
        simp only [hx, Option.join_some]
        exact h
      have hsame : a.set i (some ⟨ts.map (·.2), r⟩) = a := set_same _ _ _ hx
      cases op with
      | clone j =>
        have hg : P.glue = false := by
          cases h : P.glue with
          | false => rfl
          | true => exact absurd (hc h) (by simp [Op.isClone])
        rcases clone_spec hP hg (good0 I.mem) o with ⟨h', e, hf, p⟩ | ⟨h', w, e, p⟩
        · refine ⟨⟨h', s.vecs ++ [none]⟩, .panic, a ++ [none], _, ?_,
            hspec _ _ (.inr ⟨rfl, hf, rfl⟩),
            I.append (d := (av0, [])) p ⟨rfl, rfl⟩ (by omega) (by simp)⟩
          simp [St.onVec, e, St.add]
        · have ow : Owned P h' w ts := p.own
          refine ⟨⟨h', s.vecs ++ [some w]⟩, .done, a ++ [some ⟨ts.map (·.2), ts.length⟩], _, ?_,
            hspec _ _ (.inl ⟨rfl, by simp⟩),
            I.append (d := (w, ts)) p ⟨rfl, ts.length, by have := ow.len; have := ow.le; omega, rfl⟩
              (by omega) (by simp only; omega)⟩
          simp [St.onVec, e, St.add]
      | push j y =>
        have p0 := mk_spec g y
        obtain ⟨h', w, ok, e, hcap, hok, hf, p⟩ := push_spec hP (p0.1.good g)
          (hs.mono (by simp only [Op.asks]; omega))
        have p' := p0.1.trans g p
        cases ok with
        | true =>
          simp only [if_true] at p'
          refine ⟨⟨h', s.vecs.set i (some w)⟩, .done, _, _, by simp [St.onVec, e, St.put],
            hspec _ _ (.inl ⟨rfl, rfl⟩), I.update (d := (w, _)) hci p'
              ⟨rfl, r, by omega, by simp [p0.2]⟩ (by omega) (by simp [Op.asks]; omega)⟩
        | false =>
          simp only [Bool.false_eq_true, if_false] at p'
          refine ⟨⟨h', s.vecs.set i (some w)⟩, .panic, a.set i (some ⟨ts.map (·.2), r⟩), _,
            by simp [St.onVec, e, St.put],
            hspec _ _ (.inr ⟨rfl, hf rfl, ?_, hsame⟩), I.update (d := (w, _)) hci p'
              ⟨rfl, r, by omega, rfl⟩ (by omega) (by simp [Op.asks]; omega)⟩
          simp only [List.length_map]
          rcases Nat.lt_or_ge v'.len v'.cap with h1 | h1
          · exact absurd (hok h1) (by simp)
          · omega
      | pop j =>
        rcases pop_spec g with ⟨hts, e⟩ | ⟨us, t, hts, e, p⟩
        · subst hts
          refine ⟨⟨s.h, s.vecs.set i (some v')⟩, .popped none, _, _, by simp [St.onVec, e, St.put],
            hspec _ _ ⟨rfl, rfl⟩, I.update (d := (v', [])) hci (Post.refl g)
              ⟨rfl, r, hr, by simp⟩ (by omega) (by simp)⟩
        · have p2 : Post P ⟨s.h, { v' with len := v'.len - 1 }, us, [t]⟩
              ⟨{ s.h with given := t.1 :: s.h.given }, { v' with len := v'.len - 1 }, us, []⟩ := by
            refine Post.of_book (p.good g) _ _ rfl rfl (Nat.le_refl _) fun _ y => ?_
            simp only [Cfg.total, cnt, List.map_cons, List.map_nil, List.count_cons, List.count_nil,
              beq_iff_eq]
            rw [if_neg (by omega : ¬ (s.h.fresh ≤ y ∧ y < s.h.fresh))]
            omega
          have p' := p.trans g p2
          refine ⟨⟨_, s.vecs.set i (some { v' with len := v'.len - 1 })⟩, .popped (some t.2), _, _,
            by simp [St.onVec, e, St.put], hspec _ _ ⟨?_, rfl⟩,
            I.update (d := (_, us)) hci p' ⟨rfl, r, hr, ?_⟩ (by omega) ?_⟩
          · simp [hts]
          · simp [hts]
          · subst hts; simp at hshort ⊢; omega
      | truncate j k =>
        obtain ⟨h', w, e, hcap, p⟩ := truncate_spec g k
        refine ⟨⟨h', s.vecs.set i (some w)⟩, .done, _, _, by simp [St.onVec, e, St.put],
          hspec _ _ ⟨rfl, rfl⟩, I.update (d := (w, _)) hci p ⟨rfl, r, by omega, by simp⟩ (by omega)
            (by simp; omega)⟩
      | clear j =>
        obtain ⟨h', w, e, hcap, p⟩ := truncate_spec g 0
        refine ⟨⟨h', s.vecs.set i (some w)⟩, .done, _, _, by simp [St.onVec, clear, e, St.put],
          hspec _ _ ⟨rfl, rfl⟩, I.update (d := (w, _)) hci p ⟨rfl, r, by omega, by simp⟩ (by omega)
            (by simp)⟩
      | reserve j k =>
        obtain ⟨h', w, ok, e, hl, hcap, hok, hok', hf, p⟩ := reserve_spec hP g k
          (hs.mono (by simp only [Op.asks]; omega))
        cases ok with
        | true =>
          refine ⟨⟨h', s.vecs.set i (some w)⟩, .done, _, _, by simp [St.onVec, e, St.put],
            hspec _ _ (.inl ⟨rfl, rfl⟩), I.update (d := (w, _)) hci p
              ⟨rfl, _, ?_, rfl⟩ (by omega) (by simp only; omega)⟩
          have := hok rfl
          simp only [List.length_map]
          omega
        | false =>
          refine ⟨⟨h', s.vecs.set i (some w)⟩, .panic, a.set i (some ⟨ts.map (·.2), r⟩), _,
            by simp [St.onVec, e, St.put],
            hspec _ _ (.inr ⟨rfl, hf rfl, ?_, hsame⟩), I.update (d := (w, _)) hci p
              ⟨rfl, r, by omega, rfl⟩ (by omega) (by simp only; omega)⟩
          simp only [List.length_map]
          rcases Nat.lt_or_ge v'.cap (v'.len + k) with h1 | h1
          · omega
          · exact absurd (hok' h1) (by simp)
      | resize j k y =>
        have p0 := mk_spec g y
        obtain ⟨h', w, ok, us, e, hcap, hu, hok, hf, p⟩ := resize_spec hP (p0.1.good g) k
          (hs.mono (by simp only [Op.asks]; omega))
        have p' := p0.1.trans g p
        rw [p0.2] at hu
        have hus := all_eq_replicate hu
        generalize hT : (if k ≤ ts.length then ts.take k else ts ++ us) = T at p'
        cases ok with
        | true =>
          have hul := hok rfl
          refine ⟨⟨h', s.vecs.set i (some w)⟩, .done, _, _, by simp [St.onVec, e, St.put],
            hspec _ _ (.inl ⟨rfl, rfl⟩), I.update (d := (w, T)) hci p'
              ⟨rfl, r, by omega, ?_⟩ (by omega) ?_⟩
          · simp only [List.length_map, Option.some.injEq, AbsV.mk.injEq, and_true]
            rw [← hT]
            split
            · rename_i hk
              rw [show k - ts.length = 0 by omega]; simp
            · rename_i hk
              rw [List.take_of_length_le (by simp; omega), List.map_append, hus, hul]
          · simp only [Op.asks]
            rw [← hT]
            split
            · simp; omega
            · simp; omega
        | false =>
          obtain ⟨hul, hf⟩ := hf rfl
          refine ⟨⟨h', s.vecs.set i (some w)⟩, .panic,
            a.set i (some ⟨ts.map (·.2) ++ List.replicate us.length y, r⟩), _,
            by simp [St.onVec, e, St.put],
            hspec _ _ (.inr ⟨rfl, ?_, us.length, by simpa using hul, rfl⟩),
            I.update (d := (w, T)) hci p' ⟨rfl, r, by omega, ?_⟩ (by omega) ?_⟩
          · rcases hf with ⟨h1, h2⟩ | hf
            · exact .inl ⟨h2, by simp only; omega⟩
            · exact .inr hf
          · simp only
            rw [← hT, if_neg (by omega), List.map_append, hus]
          · simp only [Op.asks]
            rw [← hT, if_neg (by omega)]
            simp; omega
      | read j =>
        have e : asSlice s.h v' = some ts := by
          rw [asSlice, readN_spec o _ _ (by omega), ← hlen]; simp
        refine ⟨s, .vals (ts.map (·.2)), a, cs, by simp [St.onVec, e], hspec _ _ ⟨rfl, rfl⟩,
          ⟨I.mem, I.lc, I.la, I.rel, fun i c h => Nat.le_trans (I.short i c h) (by omega)⟩⟩
      | set j k y =>
        have p0 := mk_spec g y
        obtain ⟨h', e, p⟩ := setAt_spec (p0.1.good g) k
        have p' := p0.1.trans g p
        by_cases hk : k < ts.length
        · refine ⟨⟨h', s.vecs.set i (some v')⟩, .done, _, _, by simp [St.onVec, e, St.put, hk],
            hspec _ _ (.inl ⟨by simpa using hk, rfl, rfl⟩), I.update (d := (v', _)) hci p'
              ⟨rfl, r, hr, by simp [p0.2]⟩ (by omega) (by simp; omega)⟩
        · rw [List.set_eq_of_length_le (by omega)] at p'
          refine ⟨⟨h', s.vecs.set i (some v')⟩, .panic, a.set i (some ⟨ts.map (·.2), r⟩), _,
            by simp [St.onVec, e, St.put, hk],
            hspec _ _ (.inr ⟨by simpa using hk, rfl, hsame⟩), I.update (d := (v', _)) hci p'
              ⟨rfl, r, hr, rfl⟩ (by omega) (by simp; omega)⟩
      | capacity j =>
        refine ⟨s, .num v'.cap, a, cs, by simp [St.onVec], hspec _ _ ⟨_, rfl, hr, ?_, rfl⟩,
          ⟨I.mem, I.lc, I.la, I.rel, fun i c h => Nat.le_trans (I.short i c h) (by omega)⟩⟩
        simp only [List.length_map]
        have := o.le
        omega
      | drop j =>
        obtain ⟨h', e, p⟩ := drop_spec hP g
        refine ⟨⟨h', s.vecs.set i none⟩, .done, _, _, by simp [St.onVec, e],
          hspec _ _ ⟨rfl, rfl⟩, I.update (d := (av0, [])) hci p ⟨rfl, rfl⟩ (by omega) (by simp)⟩
      | new => cases ht
      | withCapacity _ => cases ht
      | fromSlice _ => cases ht

theorem run_spec {P : Par} (hP : P.Ok) (ops : List (Op V)) {s : St V}
    {cs : List (AV × List (Tok V))} {a : Abs V} {n : Nat} (I : SInv P s cs a n)
    (hc : P.glue = true → ∀ op ∈ ops, op.isClone = false) (hs : P.Small (n + asked ops)) :
    ∃ s' os a' cs' n', run P ops s = some (s', os) ∧ SpecRun P a ops os a' ∧ SInv P s' cs' a' n' := by
  induction ops generalizing s cs a n with
  | nil => exact ⟨s, [], a, cs, n, rfl, rfl, I⟩
  | cons op ops ih =>
    have hask : asked (op :: ops) = op.asks + asked ops := by simp [asked]
    obtain ⟨s1, o, a1, cs1, e1, h1, I1⟩ := step_spec hP I op (fun hg => hc hg op (by simp))
      (hs.mono (by omega))
    obtain ⟨s2, os, a2, cs2, n2, e2, h2, I2⟩ := ih I1 (fun hg x hx => hc hg x (by simp [hx]))
      (by rw [hask, ← Nat.add_assoc] at hs; exact hs)
    exact ⟨s2, o :: os, a2, cs2, n2, by simp [run, e1, e2], ⟨a1, h1, h2⟩, I2⟩

theorem sinv_init (P : Par) : SInv P ({} : St V) [] [] 0 :=
  ⟨⟨fun _ _ => rfl, by simp, by simp, by simp, by simp [sumCnt]⟩, rfl, rfl, by simp, by simp⟩

theorem SInv.asSlice {P : Par} {s : St V} {cs : List (AV × List (Tok V))} {a : Abs V} {n : Nat}
    (I : SInv P s cs a n) (i : Nat) (v : AV) (h : s.vecs[i]? = some (some v)) :
    ∃ ts, cs[i]? = some (v, ts) ∧ Owned P s.h v ts ∧ asSlice s.h v = some ts := by
  obtain ⟨⟨v', ts⟩, x, hci, _, hv', _⟩ := I.rel i _ h
  simp only at hv'
  subst hv'
  have o := I.mem.own i _ hci
  refine ⟨ts, hci, o, ?_⟩
  have := o.len
  simp only at this
  rw [AVec.asSlice, readN_spec o _ _ (by simp only; omega), ← this]; simp

theorem SInv.held_count {P : Par} {s : St V} {cs : List (AV × List (Tok V))} {a : Abs V} {n : Nat}
    (I : SInv P s cs a n) (x : Nat) : s.held.count x = sumCnt x cs := by
  have key : ∀ (vs : List (Option AV)) (ds : List (AV × List (Tok V))), ds.length = vs.length →
      (∀ (i : Nat) (o : Option AV), vs[i]? = some o → ∃ c : AV × List (Tok V), ds[i]? = some c ∧
        match o with
        | none => c.2 = []
        | some v => AVec.asSlice s.h v = some c.2) →
      (vs.flatMap fun o => match o with
        | none => []
        | some v => ((AVec.asSlice s.h v).getD []).map (·.1)).count x = sumCnt x ds := by
    intro vs
    induction vs with
    | nil => intro ds hl _; cases ds <;> simp_all [sumCnt]
    | cons v vs ih =>
      intro ds hl hrel
      cases ds with
      | nil => simp at hl
      | cons d ds =>
        have h0 := hrel 0 v rfl
        obtain ⟨c, hcd, hm⟩ := h0
        simp only [List.getElem?_cons_zero, Option.some.injEq] at hcd
        subst hcd
        have := ih ds (by simpa using hl) fun i o ho => hrel (i + 1) o ho
        rw [List.flatMap_cons, List.count_append, this, sumCnt]
        cases v with
        | none => simp only at hm; simp [hm, cnt]
        | some v => simp only at hm; simp [hm, cnt]
  refine key s.vecs cs I.lc fun i o ho => ?_
  cases o with
  | none =>
    obtain ⟨c, y, hci, _, h1, _⟩ := I.rel i none ho
    exact ⟨c, hci, by simp [h1]⟩
  | some v =>
    obtain ⟨ts, hci, _, he⟩ := I.asSlice i v ho
    exact ⟨_, hci, he⟩

/-- C60.  No program reaches undefined behaviour; what it observes is what a list would give, panics
only occur for lack of memory, in `T::clone`, or for an index out of range; every element created is at any time in
exactly one place: in a vector, dropped, or handed out; and every block of memory belongs to exactly
one vector and is aligned.
Missing: `clone` when dropping an element has an effect, and requests beyond a quarter of the address space
(see `clone_double_drop`, `reserve_undefined_behaviour`, `reserve_wraps`). -/
theorem aligned_vec_partial (P : Par) (hP : P.Ok) (ops : List (Op V))
    (hs : P.Small (asked ops)) (hc : P.glue = true → ∀ op ∈ ops, op.isClone = false) :
    ∃ s os a, run P ops {} = some (s, os) ∧ SpecRun P [] ops os a ∧
      (P.glue = true → (s.held ++ s.h.dropped ++ s.h.given).Perm (List.range s.h.fresh)) ∧
      (∀ b, s.h.blocks b ≠ none →
        ∃ (i : Nat) (v : AV), s.vecs[i]? = some (some v) ∧ v.blk = some b ∧
          ∀ (j : Nat) (u : AV), s.vecs[j]? = some (some u) → u.blk = some b → j = i) ∧
      (∀ (i : Nat) (v : AV), s.vecs[i]? = some (some v) → v.cap ≠ 0 →
        ∃ p, asPtr P s.h v = some p ∧ P.align ∣ p) := by
  obtain ⟨s, os, a, cs, n, e, h, I⟩ := run_spec hP ops (sinv_init P) hc (by simpa using hs)
  refine ⟨s, os, a, e, h, ?_, ?_, ?_⟩
  · intro hg
    rw [List.perm_iff_count]
    intro x
    have := I.mem.led hg x
    rw [List.count_append, List.count_append, I.held_count, this]
    split
    · rename_i hx
      exact (List.count_eq_one_of_mem List.nodup_range (by simpa using hx)).symm
    · rename_i hx
      exact (List.count_eq_zero_of_not_mem (by simpa using hx)).symm
  · intro b hb
    obtain ⟨i, c, hci, hcb⟩ := I.mem.live b hb
    have hil : i < s.vecs.length := by
      rw [← I.lc]
      rcases Nat.lt_or_ge i cs.length with h1 | h1
      · exact h1
      · rw [List.getElem?_eq_none h1] at hci; cases hci
    have hv : s.vecs[i]? = some s.vecs[i] := List.getElem?_eq_getElem hil
    obtain ⟨c', x, hci', _, hr⟩ := I.rel i _ hv
    rw [hci] at hci'; cases hci'
    match ho : s.vecs[i] with
    | none =>
      rw [ho] at hr
      obtain ⟨h1, _⟩ := hr
      rw [h1] at hcb; cases hcb
    | some v =>
      rw [ho] at hr hv
      have hcv : c.1 = v := hr.1
      refine ⟨i, v, hv, hcv ▸ hcb, fun j u hj hu => ?_⟩
      obtain ⟨ts, hcj, _, _⟩ := I.asSlice j u hj
      exact (I.mem.disj i j c _ b hci hcj hcb hu).symm
  · intro i v hv hcap
    obtain ⟨ts, hci, o, _⟩ := I.asSlice i v hv
    obtain ⟨b, hb⟩ := o.blk hcap
    obtain ⟨_, _, B, hB, _, _, hd, _⟩ := o.block b hb
    exact ⟨B.addr, by simp [asPtr, hb, hB], hd⟩

/-- C60.  When a program has dropped its vectors, every element that was created has been dropped or
handed out exactly once and all memory is free. -/
theorem aligned_vec_no_leak (P : Par) (hP : P.Ok) (ops : List (Op V)) (hs : P.Small (asked ops))
    (hc : P.glue = true → ∀ op ∈ ops, op.isClone = false) (s : St V) (os : List (Out V))
    (hr : run P ops {} = some (s, os)) (hd : ∀ o ∈ s.vecs, o = none) :
    (P.glue = true → ∀ x < s.h.fresh, (s.h.dropped ++ s.h.given).count x = 1) ∧
    ∀ b, s.h.blocks b = none := by
  obtain ⟨s', os', a, e, _, h1, h2, _⟩ := aligned_vec_partial P hP ops hs hc
  rw [hr] at e
  cases e
  constructor
  · intro hg x hx
    have hp := h1 hg
    have hh : s.held = [] := by
      unfold St.held
      rw [List.flatMap_eq_nil_iff]
      intro o ho
      rw [hd o ho]
    rw [hh, List.nil_append] at hp
    rw [hp.count_eq]
    exact List.count_eq_one_of_mem List.nodup_range (by simpa using hx)
  · intro b
    by_contra hb
    obtain ⟨i, v, hv, _⟩ := h2 b hb
    cases hd _ (List.mem_of_getElem? hv)

/-! ### Witnesses -/

/-- 64 bit, `AlignedVec<Box<_>, U32>`, release build. -/
def exPar : Par where
  w := 64
  sizeT := 8
  alignT := 8
  align := 32
  debug := false
  glue := true
  alloc k _ a := some (a * (k + 1))
  clonePanics _ := false

theorem exPar_ok : exPar.Ok :=
  ⟨by decide, by decide, by decide, fun k s a h => by simp only [exPar, Option.some.injEq] at h; exact ⟨k + 1, h.symm⟩⟩

/-- A program with growth, shrinking, replacement and drop. -/
def exOps : List (Op Nat) :=
  [.new, .push 0 5, .push 0 6, .fromSlice [1, 2, 3], .resize 0 5 9, .pop 0, .set 0 1 7, .truncate 1 1,
   .read 0, .read 1, .drop 1, .drop 0]

example : exPar.Small (asked exOps) ∧ (exPar.glue = true → ∀ op ∈ exOps, op.isClone = false) := by
  refine ⟨?_, fun _ => by decide⟩
  unfold Par.Small
  decide +kernel

example : (run exPar exOps {}).map (fun r => (r.2.length, r.1.h.fresh, r.1.h.dropped, r.1.h.given)) =
    some (12, 9, [0, 8, 6, 7, 2, 4, 3, 1], [5]) := by decide +kernel

/-- Cloning copies the elements bit by bit, so that dropping both vectors drops them twice
(lib.rs:229-239). -/
theorem clone_double_drop : exPar.Ok ∧ exPar.Small (asked ([.new, .push 0 5, .clone 0, .drop 0,
      .drop 1] : List (Op Nat))) ∧
    run exPar ([.new, .push 0 5, .clone 0, .drop 0, .drop 1] : List (Op Nat)) {} = none := by
  refine ⟨exPar_ok, ?_, ?_⟩
  · unfold Par.Small; decide +kernel
  · decide +kernel

/-- `AlignedVec<u8, U32>`. -/
def exPar8 : Par := { exPar with sizeT := 1, alignT := 1, glue := false }

/-- `reserve` on a vector that has memory calls `realloc` without checking the new size against
`isize::MAX` (lib.rs:126-131). -/
theorem reserve_undefined_behaviour :
    exPar8.Ok ∧ run exPar8 ([.fromSlice [1], .reserve 0 (2 ^ 63 - 1)] : List (Op Nat)) {} = none := by
  refine ⟨⟨by decide, by decide, by decide, fun k s a h => by simp only [exPar8, exPar, Option.some.injEq] at h; exact ⟨k + 1, h.symm⟩⟩, ?_⟩
  decide +kernel

/-- In release builds `len + additional` wraps: `reserve` returns although the capacity is not there
(lib.rs:110). -/
theorem reserve_wraps (P : Par) (h : Hp V) (v : AV) (n : Nat) (hd : P.debug = false)
    (hw : 2 ^ P.w ≤ v.len + n) (hw' : v.len + n - 2 ^ P.w ≤ v.cap) (hl : v.len < 2 ^ P.w)
    (hn : n < 2 ^ P.w) : reserve P h v n = some (h, v, true) := by
  unfold reserve
  rw [if_neg (by simp [hd])]
  have : (v.len + n) % 2 ^ P.w = v.len + n - 2 ^ P.w := by
    rw [Nat.mod_eq_sub_mod hw, Nat.mod_eq_of_lt (by omega)]
  simp only [this]
  rw [if_pos hw']

example : reserve exPar8 ({} : Hp Nat) ⟨some 0, 1, 1⟩ (2 ^ 64 - 1) = some ({}, ⟨some 0, 1, 1⟩, true) :=
  reserve_wraps exPar8 _ _ _ rfl (by decide) (by decide) (by decide) (by decide)

/-- The pointer of an empty vector is aligned for `T` only (lib.rs:27). -/
theorem empty_unaligned : (new exPar8).map (asPtr exPar8 ({} : Hp Nat)) = some (some 1) ∧
    ¬ exPar8.align ∣ 1 := by decide

theorem reserve_len {P : Par} {h h' : Hp V} {v v' : AV} {n : Nat} {ok : Bool} (e : reserve P h v n = some (h', v', ok)) :
    v'.len = v.len := by
  unfold reserve at e
  dsimp only at e
  repeat' split at e
  all_goals first | cases e <;> rfl | cases e

/-- C60 without the conditions on sizes: if building a vector from a slice does not panic, no element is missing. -/
theorem from_slice_complete {P : Par} {h h' : Hp V} {xs : List V} {v' : AV} (e : fromSlice P h xs = some (h', some v')) :
    v'.len = xs.length := by
  have hloop : ∀ (xs : List V) {h h' : Hp V} {v v' : AV}, fromLoop P xs h v = some (h', v', true) →
      v'.len = v.len + xs.length := by
    intro xs
    induction xs with
    | nil => intro h h' v v' e; cases e; rfl
    | cons x xs ih =>
      intro h h' v v' e
      rw [fromLoop] at e
      cases hc : h.cloneTok P x with
      | mk h1 o =>
        rw [hc] at e
        cases o with
        | none => cases e
        | some t =>
          simp only [Option.bind_eq_bind, Option.bind_eq_some_iff] at e
          obtain ⟨⟨h2, v2, ok⟩, e1, e2⟩ := e
          cases ok with
          | false => cases e2
          | true =>
            have := ih e2
            rw [this, List.length_cons]
            unfold push at e1
            simp only [Option.bind_eq_bind, Option.bind_eq_some_iff] at e1
            obtain ⟨⟨h3, v3, ok⟩, e1, e3⟩ := e1
            have hl := reserve_len e1
            cases ok with
            | false =>
              simp only [Bool.false_eq_true, if_false, Option.bind_eq_some_iff, Option.pure_def, Option.some.injEq,
                Prod.mk.injEq, and_false, exists_false] at e3
            | true =>
              simp only [if_true, Option.bind_eq_some_iff, Option.pure_def, Option.some.injEq, Prod.mk.injEq] at e3
              obtain ⟨-, -, -, rfl, -⟩ := e3
              simp only [hl]
              omega
  unfold fromSlice at e
  cases hw : withCapacity P h xs.length with
  | mk h1 o =>
    rw [hw] at e
    cases o with
    | none => cases e
    | some v =>
      simp only [Option.bind_eq_bind, Option.bind_eq_some_iff] at e
      obtain ⟨⟨h2, v2, ok⟩, e1, e2⟩ := e
      cases ok with
      | false =>
        simp only [Bool.false_eq_true, if_false, Option.bind_eq_some_iff, Option.pure_def, Option.some.injEq,
          Prod.mk.injEq, reduceCtorEq, and_false, exists_false] at e2
      | true =>
        cases e2
        rw [hloop xs e1]
        have : v.len = 0 := by
          unfold withCapacity new at hw
          repeat' split at hw
          all_goals simp only [Prod.mk.injEq, reduceCtorEq, and_false, Option.some.injEq] at hw
          all_goals rw [← hw.2]
        omega

example : (fromSlice exPar8 ({} : Hp Nat) [1, 2, 3]).map (fun r => r.2.map (·.len)) = some (some 3) := by decide +kernel

end Verif.AVec
