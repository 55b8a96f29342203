import Verif.Aby2.TwoPartyLemmas
import Verif.Aby2.Witness
import Mathlib.Data.List.Forall2

/-!
C71: the setup of ABY2 by the two parties alone.
-/
set_option autoImplicit false

namespace Verif.Aby2

open Gmw (BoolGate Triple Matching)
open Circuit Exec Proc Secret Mail

/-! ### Specification -/

/-- The list without repetitions, in the order of the first occurrences. -/
def firstUses (l : List Node) : List Node := l.foldl addNew []

/-- The operands of the gate `v`, sorted by their first use as an operand of the gates `vs`. -/
def sortedOperands (m : Multi Gate) (vs : List Node) (v : Node) : List Node :=
  (m.parents v).mergeSort fun p q =>
    decide ((firstUses (vs.flatMap m.parents)).idxOf p ≤ (firstUses (vs.flatMap m.parents)).idxOf q)

/-! ### The loop -/

/-- The secrets `t` are the products for the gate `v`. -/
def GateOk (m : Multi Gate) (s : SetupBuild Node) (v : Node) (t : List Sec) : Prop :=
  ∃ xs : List Sec, (m.parents v).map s.map = xs.map some ∧
    (highSets (xs.mergeSort secLe)).map s.cache = t.map some

theorem map_some_mono {α β : Type} {f g : α → Option β} (h : ∀ a x, f a = some x → g a = some x)
    {l : List α} {xs : List β} (e : l.map f = xs.map some) : l.map g = xs.map some := by
  induction l generalizing xs with
  | nil => exact e
  | cons a l ih =>
    cases xs with
    | nil => simp at e
    | cons x xs =>
      simp only [List.map_cons, List.cons.injEq] at e ⊢
      exact ⟨h a x e.1, ih e.2⟩

theorem GateOk.mono {m : Multi Gate} {s s' : SetupBuild Node} (h : BLe s s') {v : Node}
    {t : List Sec} (hg : GateOk m s v t) : GateOk m s' v t := by
  obtain ⟨xs, e1, e2⟩ := hg
  exact ⟨xs, map_some_mono h.map e1, map_some_mono h.cache e2⟩

theorem mem_of_map_some {α β : Type} {f : α → Option β} {l : List α} {xs : List β}
    (e : l.map f = xs.map some) {x : β} (hx : x ∈ xs) : ∃ a ∈ l, f a = some x := by
  have : some x ∈ l.map f := by rw [e]; exact List.mem_map_of_mem hx
  obtain ⟨a, ha, h⟩ := List.mem_map.1 this
  exact ⟨a, ha, h⟩

theorem setupGate_step {m : Multi Gate} {v : Node} {n : Nat} (hg : m.gate? v = some (.and n))
    (hn : (m.parents v).length = n) {s : SetupBuild Node} {c : Base BoolGate} (h : BInv s c) :
    ∃ s' c' t, setupGate m some s v = some (s', t) ∧ BInv s' c' ∧ BLe s s' ∧
      s'.inputs = (m.parents v).foldl addNew s.inputs ∧ GateOk m s' v t := by
  obtain ⟨s1, c1, xs, e1, h1, l1, i1, m1⟩ := operands_step (m.parents v) h
  have hlen : xs.length = n := by
    have := congrArg List.length m1
    simp only [List.length_map] at this
    omega
  have hlen' : (xs.mergeSort secLe).length = n := by rw [List.length_mergeSort, hlen]
  obtain ⟨s2, c2, ys, e2, h2, l2, i2, m2⟩ := dataSets_step (highSets (xs.mergeSort secLe)) [] h1
    (by
      intro set hset x hx
      have hx' : x ∈ xs := (List.mergeSort_perm xs secLe).mem_iff.1 ((mem_highSets hset).mem hx)
      obtain ⟨p, -, hp⟩ := mem_of_map_some m1 hx'
      exact (h1.secret hp).2.2.2)
    (by
      intro a set b e
      have := highSets_closed _ a set b e
      simpa using this)
    (by simp)
  refine ⟨s2, c2, ys, ?_, h2, l1.trans l2, i2.trans i1, xs, map_some_mono l2.map m1, m2⟩
  simp only [setupGate, hg, e1, Option.bind_eq_bind, Option.bind_some, setupDataCirc]
  rw [List.take_of_length_le (by omega)]
  have : (powerset (xs.mergeSort secLe)).drop (n + 1) = highSets (xs.mergeSort secLe) := by
    rw [highSets, hlen']
  rw [this, e2]

theorem setupGates_step {m : Multi Gate} (vs : List Node)
    (hv : ∀ v ∈ vs, m.gate? v = some (.and (m.parents v).length)) {s : SetupBuild Node}
    {c : Base BoolGate} (h : BInv s c) :
    ∃ s' c' ts, mapSt (setupGate m some) s vs = some (s', ts) ∧ BInv s' c' ∧ BLe s s' ∧
      s'.inputs = (vs.flatMap m.parents).foldl addNew s.inputs ∧
      List.Forall₂ (GateOk m s') vs ts := by
  induction vs generalizing s c with
  | nil => exact ⟨s, c, [], rfl, h, .refl s, rfl, .nil⟩
  | cons v vs ih =>
    obtain ⟨s1, c1, t, e1, h1, l1, i1, g1⟩ := setupGate_step (hv v List.mem_cons_self) rfl h
    obtain ⟨s2, c2, ts, e2, h2, l2, i2, g2⟩ := ih (fun w hw => hv w (List.mem_cons_of_mem _ hw)) h1
    refine ⟨s2, c2, t :: ts, by simp [mapSt, e1, e2], h2, l1.trans l2, ?_, .cons (g1.mono l2) g2⟩
    rw [i2, i1, List.flatMap_cons, List.foldl_append]

/-! ### The outputs -/

theorem outputs_nested (ts : List (List Sec)) (Fss : List (List ((Node → Bool) → Bool)))
    (c : Base BoolGate) (hc : BaseOk c) (h : List.Forall₂ (List.Forall₂ (Holds [c])) ts Fss) :
    ∃ c' outs n, mapB (fun b t => mapB (fun b x => output b x) b t) [c] ts = some ([c'], outs) ∧
      BaseOk c' ∧ c'.simdSize = c.simdSize ∧ Extends [c] [c'] ∧
      c'.gates = c.gates ++ List.replicate n (.base .output) ∧
      List.Forall₂ (List.Forall₂ (Holds [c'])) outs Fss ∧
      ∀ t ∈ outs, ∀ x ∈ t, c'.gates[x.2]? = some (.base .output) := by
  induction ts generalizing Fss c with
  | nil =>
    cases h
    exact ⟨c, [], 0, rfl, hc, rfl, .refl _, by simp, .nil, by simp⟩
  | cons t ts ih =>
    cases h with
    | @cons _ Fs _ Fss ht hts =>
    obtain ⟨c1, e1, ok1, s1, g1, -, f1⟩ := outputs_made t Fs c hc ht
    have hx1 := Cbc.outputs_ext t c c1 _ hc (by
      intro r hr
      obtain ⟨i, hi, rfl⟩ := List.mem_iff_getElem.1 hr
      have := List.forall₂_iff_get.1 ht
      exact (this.2 i hi (by rw [← this.1]; exact hi)).1) e1
    obtain ⟨c2, outs, n, e2, ok2, s2, x2, g2, f2, o2⟩ := ih Fss c1 ok1
      (hts.imp fun _ _ h => h.imp fun _ _ h => holds_ext hx1 h)
    refine ⟨c2, _ :: outs, t.length + n, ?_, ok2, s2.trans s1, hx1.trans x2, ?_,
      .cons (f1.imp fun _ _ h => holds_ext x2 h) f2, ?_⟩
    · simp only [mapB, e1, Option.bind_eq_bind, Option.bind_some, e2, Option.pure_def]
    · rw [g2, g1, List.append_assoc, List.replicate_append_replicate]
    · intro u hu x hx
      rcases List.mem_cons.1 hu with rfl | hu
      · simp only [List.mem_map, List.mem_range] at hx
        obtain ⟨i, hi, rfl⟩ := hx
        rw [g2, g1, List.append_assoc, List.replicate_append_replicate,
          List.getElem?_append_right (by omega), Nat.add_sub_cancel_left, List.getElem?_replicate,
          if_pos (by omega)]
      · exact o2 u hu x hx

/-! ### The circuit -/

theorem new_inv : BInv (SetupBuild.new Node) ({} : Base _) := by
  refine ⟨rfl, ⟨?_, ?_, ?_, ⟨rfl, rfl, rfl, rfl, rfl⟩⟩, rfl, ?_, .nil, rfl, ?_, ?_⟩
  · intro e he; simp at he
  · intro i g hg; simp at hg
  · intro i g hg; simp at hg
  · intro g hg; simp at hg
  · intro p; rfl
  · intro set x h; cases h

theorem plainVal_input {c : Base BoolGate} (h : BaseOk c) (inp : List Bool) (k i : Nat)
    (hi : (inIds c)[k]? = some i) : plainVal c inp i = inp.getD k false := by
  have hg := mem_inIds (List.mem_of_getElem? hi)
  rw [plainVal_eq h inp hg]
  have hf := positions_findIdx (fun g => g = .base .input) c.gates i _ hg (by simp)
  have hk : inputIdx c i = k := by
    have hf' : (inIds c).findIdx? (· = i) = some (inputIdx c i) := hf
    rw [List.findIdx?_eq_some_iff_getElem] at hf'
    obtain ⟨h1, h2, -⟩ := hf'
    obtain ⟨h3, h4⟩ := List.getElem?_eq_some_iff.1 hi
    have h2' : (inIds c)[inputIdx c i] = i := by simpa using h2
    have hnd : (inIds c).Nodup := (inIds_sorted c).imp fun h => Nat.ne_of_lt h
    exact (hnd.getElem_inj_iff).1 (h2'.trans h4.symm)
  rw [hk]
  rfl

theorem highSets_map {α β : Type} (f : α → β) (l : List α) :
    highSets (l.map f) = (highSets l).map (List.map f) := by
  rw [highSets, highSets, powerset_map, List.length_map, List.map_drop]

theorem holds_vals {b : Builder} {val : Node → Bool} (hv : Consistent b val) {ts : List Sec}
    {Fs : List ((Node → Bool) → Bool)} (h : List.Forall₂ (Holds b) ts Fs) :
    ts.map val = Fs.map (· val) := by
  induction h with
  | nil => rfl
  | cons h _ ih => rw [List.map_cons, List.map_cons, ih, h.2.2 val hv]

theorem sets_holds {s : SetupBuild Node} {c : Base BoolGate} (h : BInv s c) {sets : List (List Sec)}
    {t : List Sec} (e : sets.map s.cache = t.map some) :
    List.Forall₂ (Holds [c]) t (sets.map fun set val => set.all val) := by
  induction sets generalizing t with
  | nil =>
    have : t = [] := by simpa using e.symm
    subst this
    exact .nil
  | cons set sets ih =>
    cases t with
    | nil => simp at e
    | cons x t =>
      simp only [List.map_cons, List.cons.injEq] at e
      exact .cons (h.cache set x e.1) (ih e.2)

/-- The secrets of the sorted operands. -/
theorem sorted_secrets {s : SetupBuild Node} {c : Base BoolGate} (h : BInv s c) {ps : List Node}
    {xs : List Sec} (e : ps.map s.map = xs.map some) :
    xs.mergeSort secLe = (ps.mergeSort fun p q => decide (s.inputs.idxOf p ≤ s.inputs.idxOf q)).map
      fun p => (0, (inIds c).getD (s.inputs.idxOf p) 0) := by
  have hin : ∀ p ∈ ps, p ∈ s.inputs := by
    intro p hp
    have : s.map p ∈ xs.map some := by rw [← e]; exact List.mem_map_of_mem hp
    obtain ⟨x, -, hx⟩ := List.mem_map.1 this
    exact (h.secret hx.symm).1
  have hxs : xs = ps.map fun p => (0, (inIds c).getD (s.inputs.idxOf p) 0) := by
    have : xs.map some = (ps.map fun p => ((0, (inIds c).getD (s.inputs.idxOf p) 0) : Sec)).map some := by
      rw [← e, List.map_map]
      apply List.map_congr_left
      intro p hp
      rw [h.map p, if_pos (hin p hp)]
      rfl
    exact (List.map_inj_right (f := some) (fun _ _ h => Option.some.inj h)).1 this
  rw [hxs]
  symm
  apply List.map_mergeSort
  intro p hp q hq
  have lp : s.inputs.idxOf p < (inIds c).length := by
    rw [h.len]; exact List.idxOf_lt_length_iff.2 (hin p hp)
  have lq : s.inputs.idxOf q < (inIds c).length := by
    rw [h.len]; exact List.idxOf_lt_length_iff.2 (hin q hq)
  have hs := List.pairwise_iff_getElem.1 (inIds_sorted c)
  simp only [secLe, Nat.lt_irrefl, decide_false, decide_true, Bool.true_and, Bool.false_or,
    getD_lt _ _ lp, getD_lt _ _ lq, decide_eq_decide]
  rcases Nat.lt_trichotomy (s.inputs.idxOf p) (s.inputs.idxOf q) with hlt | heq | hgt
  · have := hs _ _ lp lq hlt; omega
  · simp [heq]
  · have := hs _ _ lq lp hgt; omega

theorem setup_circuit (m : Multi Gate) (vs : List Node)
    (hv : ∀ v ∈ vs, m.gate? v = some (.and (m.parents v).length)) :
    ∃ c outs, buildSetup m some vs = some (c, firstUses (vs.flatMap m.parents), outs) ∧ BaseOk c ∧
      c.simdSize = none ∧ c.inputGates.length = (firstUses (vs.flatMap m.parents)).length ∧
      (∀ t ∈ outs, ∀ x ∈ t, c.gates[x.2]? = some (.base .output)) ∧
      ∀ lam : Node → Bool, List.Forall₂ (fun v t =>
        t.map (fun x => plainVal c ((firstUses (vs.flatMap m.parents)).map lam) x.2) =
          (highSets (sortedOperands m vs v)).map fun set => set.all lam) vs outs := by
  obtain ⟨s, c, ts, e, h, -, hi, hg⟩ := setupGates_step vs hv new_inv
  have hi' : s.inputs = firstUses (vs.flatMap m.parents) := hi
  -- the values of the products
  have hF : ∃ Fss : List (List ((Node → Bool) → Bool)),
      List.Forall₂ (List.Forall₂ (Holds [c])) ts Fss ∧
      List.Forall₂ (fun v Fs => Fs = (highSets (sortedOperands m vs v)).map fun set val =>
        set.all fun p => val (0, (inIds c).getD (s.inputs.idxOf p) 0)) vs Fss := by
    have : ∀ ws ts, List.Forall₂ (GateOk m s) ws ts → ∃ Fss : List (List ((Node → Bool) → Bool)),
        List.Forall₂ (List.Forall₂ (Holds [c])) ts Fss ∧
        List.Forall₂ (fun v Fs => Fs = (highSets (sortedOperands m vs v)).map fun set val =>
          set.all fun p => val (0, (inIds c).getD (s.inputs.idxOf p) 0)) ws Fss := by
      intro ws ts hg
      induction hg with
      | nil => exact ⟨[], .nil, .nil⟩
      | @cons v t ws ts h1 _ ih =>
        obtain ⟨Fss, a1, a2⟩ := ih
        obtain ⟨xs, b1, b2⟩ := h1
        refine ⟨_ :: Fss, .cons (sets_holds h b2) a1, .cons ?_ a2⟩
        rw [sorted_secrets h b1, highSets_map, List.map_map, sortedOperands, ← hi']
        apply List.map_congr_left
        intro set _
        funext val
        simp only [Function.comp_apply, List.all_map]
        rfl
    exact this vs ts hg
  obtain ⟨Fss, hF1, hF2⟩ := hF
  obtain ⟨c', outs, n, e2, ok2, s2, x2, g2, f2, o2⟩ := outputs_nested ts Fss c h.ok hF1
  have hids : inIds c' = inIds c := by
    simp only [inIds, g2]
    exact Cbc.positions_quiet _ _ _ fun g hg => by simp [(List.mem_replicate.1 hg).2]
  refine ⟨c', outs, ?_, ok2, s2.trans h.simd, ?_, o2, ?_⟩
  · simp only [buildSetup, e, Option.bind_eq_bind, Option.bind_some, h.b, e2, Option.pure_def, hi',
      List.getElem?_cons_zero]
  · rw [input_pos c' ok2.book, ← hi']
    show (inIds c').length = _
    rw [hids, h.len]
  · intro lam
    have hcons := plainVal_consistent ok2 ((firstUses (vs.flatMap m.parents)).map lam)
    have hval : ∀ p ∈ s.inputs, plainVal c' ((firstUses (vs.flatMap m.parents)).map lam)
        ((inIds c).getD (s.inputs.idxOf p) 0) = lam p := by
      intro p hp
      have hl := List.idxOf_lt_length_iff.2 hp
      have hl' : s.inputs.idxOf p < (inIds c).length := by rw [h.len]; exact hl
      rw [plainVal_input ok2 _ (s.inputs.idxOf p) _ (by
        rw [hids, getD_lt _ _ hl', List.getElem?_eq_getElem hl']), ← hi',
        List.getD_eq_getElem?_getD, List.getElem?_map, List.getElem?_eq_getElem hl]
      simp
    have hops : ∀ v ∈ vs, ∀ p ∈ m.parents v, p ∈ s.inputs := by
      intro v hv p hp
      rw [hi']
      have : ∀ (l acc : List Node) (p : Node), p ∈ l ∨ p ∈ acc → p ∈ l.foldl addNew acc := by
        intro l
        induction l with
        | nil => intro acc p h; simpa using h
        | cons a l ih =>
          intro acc p h
          rw [List.foldl_cons]
          apply ih
          rcases h with h | h
          · rcases List.mem_cons.1 h with rfl | h
            · right; unfold addNew; split <;> simp_all
            · exact .inl h
          · right; unfold addNew; split <;> simp_all
      exact this _ [] p (.inl (List.mem_flatMap.2 ⟨v, hv, hp⟩))
    have : ∀ ws Fss, (∀ v ∈ ws, v ∈ vs) → List.Forall₂ (fun v Fs => Fs =
        (highSets (sortedOperands m vs v)).map fun set (val : Node → Bool) =>
          set.all fun p => val (0, (inIds c).getD (s.inputs.idxOf p) 0)) ws Fss → ∀ outs,
        List.Forall₂ (List.Forall₂ (Holds [c'])) outs Fss → List.Forall₂ (fun v t =>
        t.map (fun x => plainVal c' ((firstUses (vs.flatMap m.parents)).map lam) x.2) =
          (highSets (sortedOperands m vs v)).map fun set => set.all lam) ws outs := by
      intro ws Fss hws hf
      induction hf with
      | nil => intro outs ho; cases ho; exact .nil
      | @cons v Fs ws Fss h1 _ ih =>
        intro outs ho
        cases ho with
        | @cons t _ ts' _ h2 h3 =>
        refine .cons ?_ (ih (fun w hw => hws w (List.mem_cons_of_mem _ hw)) _ h3)
        have := holds_vals hcons h2
        rw [this, h1, List.map_map]
        apply List.map_congr_left
        intro set hset
        simp only [Function.comp_apply]
        rw [Bool.eq_iff_iff, List.all_eq_true, List.all_eq_true]
        have hmem : ∀ p ∈ set, p ∈ s.inputs := by
          intro p hp
          have := (mem_highSets hset).mem hp
          rw [sortedOperands, (List.mergeSort_perm _ _).mem_iff] at this
          exact hops v (hws v List.mem_cons_self) p this
        constructor
        · intro ha p hp
          rw [← hval p (hmem p hp)]; exact ha p hp
        · intro ha p hp
          rw [hval p (hmem p hp)]; exact ha p hp
    exact this vs Fss (fun _ h => h) hF2 outs f2

/-! ### The execution -/

theorem exchange_andThen {M O P L : Type} {Q : L → M → M → Prop} {o0 o1 : O} {ls : List L}
    {p0 p1 : Proc M O} (h : Exchange Q o0 o1 ls p0 p1) {f g : O → Option P} {r0 r1 : P}
    (h0 : f o0 = some r0) (h1 : g o1 = some r1) :
    Exchange Q r0 r1 ls (p0.andThen f) (p1.andThen g) := by
  induction h with
  | done => simp only [Proc.andThen, h0, h1]; exact .done
  | round hq _ ih => exact .round hq ih

theorem read_one {c : Base BoolGate} (h : BaseOk c) {inp o0 o1 : List Bool}
    (ho : Gmw.xorL o0 o1 = plainFn c inp) {i : Nat} (hi : c.gates[i]? = some (.base .output)) :
    ∃ k a b, c.outputGates.findIdx? (· = i) = some k ∧ o0[k]? = some a ∧ o1[k]? = some b ∧
      (a ^^ b) = plainVal c inp i := by
  have hf := positions_findIdx (fun g => g = .base .output) c.gates i _ hi (by simp)
  rw [← output_pos c h.book] at hf
  refine ⟨(c.gates.take i).countP (fun g => decide (g = .base .output)), ?_⟩
  generalize (c.gates.take i).countP (fun g => decide (g = .base .output)) = k at hf
  have hk := List.findIdx?_eq_some_iff_getElem.1 hf
  obtain ⟨k1, k2, -⟩ := hk
  have k2' : c.outputGates[k] = i := by simpa using k2
  have e : (plainFn c inp)[k]? = some (plainVal c inp i) := by
    rw [plainFn, ← output_pos c h.book, List.getElem?_map, List.getElem?_eq_getElem k1, k2']
    rfl
  rw [← ho, Gmw.xorL, List.getElem?_zipWith_eq_some] at e
  obtain ⟨a, b, ha, hb, hab⟩ := e
  exact ⟨a, b, hf, ha, hb, hab⟩

theorem read_list {c : Base BoolGate} (h : BaseOk c) {inp o0 o1 : List Bool}
    (ho : Gmw.xorL o0 o1 = plainFn c inp) (t : List Sec)
    (ht : ∀ x ∈ t, c.gates[x.2]? = some (.base .output)) :
    ∃ r0 r1 : List Bool,
      (t.mapM fun x => do let k ← c.outputGates.findIdx? (· = x.2); o0[k]?) = some r0 ∧
      (t.mapM fun x => do let k ← c.outputGates.findIdx? (· = x.2); o1[k]?) = some r1 ∧
      r0.length = t.length ∧ r1.length = t.length ∧
      Gmw.xorL r0 r1 = t.map fun x => plainVal c inp x.2 := by
  induction t with
  | nil => exact ⟨[], [], rfl, rfl, rfl, rfl, rfl⟩
  | cons x t ih =>
    obtain ⟨r0, r1, e0, e1, l0, l1, hx⟩ := ih fun y hy => ht y (List.mem_cons_of_mem _ hy)
    obtain ⟨k, a, b, hk, ha, hb, hab⟩ := read_one h ho (ht x List.mem_cons_self)
    refine ⟨a :: r0, b :: r1, ?_, ?_, by simp [l0], by simp [l1], ?_⟩
    · rw [List.mapM_cons, e0]; simp [hk, ha]
    · rw [List.mapM_cons, e1]; simp [hk, hb]
    · simp only [Gmw.xorL, List.zipWith_cons_cons, List.map_cons, hab] at hx ⊢
      rw [hx]

theorem productShares_of_xor {masks r0 r1 : List Bool} (l0 : r0.length = (highSets masks).length)
    (l1 : r1.length = (highSets masks).length)
    (h : Gmw.xorL r0 r1 = (highSets masks).map fun s => s.all id) : ProductShares masks r0 r1 := by
  refine ⟨l0, l1, ?_⟩
  intro i a b s ha hb hs
  have e : (Gmw.xorL r0 r1)[i]? = some (a ^^ b) := by
    rw [Gmw.xorL, List.getElem?_zipWith_eq_some]
    exact ⟨a, b, ha, hb, rfl⟩
  rw [h, List.getElem?_map, hs] at e
  simpa using e.symm

/-- Shares of the products of the masks of the operands `ops v`, gate by gate. -/
def AllProducts (lam : Node → Bool) (ops : Node → List Node) (vs : List Node)
    (s0 s1 : List (List Bool)) : Prop :=
  s0.length = vs.length ∧ s1.length = vs.length ∧
  ∀ (k : Nat) v a b, vs[k]? = some v → s0[k]? = some a → s1[k]? = some b →
    ProductShares ((ops v).map lam) a b

theorem read_all {c : Base BoolGate} (h : BaseOk c) {inp o0 o1 : List Bool}
    (ho : Gmw.xorL o0 o1 = plainFn c inp) (lam : Node → Bool) (ops : Node → List Node)
    (vs : List Node) (outs : List (List Sec))
    (ht : ∀ t ∈ outs, ∀ x ∈ t, c.gates[x.2]? = some (.base .output))
    (hv : List.Forall₂ (fun v t => t.map (fun x => plainVal c inp x.2) =
      (highSets (ops v)).map fun set => set.all lam) vs outs) :
    ∃ s0 s1, readOutputs c outs o0 = some s0 ∧ readOutputs c outs o1 = some s1 ∧
      AllProducts lam ops vs s0 s1 := by
  induction hv with
  | nil => exact ⟨[], [], rfl, rfl, rfl, rfl, by simp⟩
  | @cons v t vs outs h1 _ ih =>
    obtain ⟨s0, s1, e0, e1, l0, l1, hp⟩ := ih fun u hu => ht u (List.mem_cons_of_mem _ hu)
    obtain ⟨r0, r1, f0, f1, k0, k1, hx⟩ := read_list h ho t (ht t List.mem_cons_self)
    have hlen := congrArg List.length h1
    simp only [List.length_map] at hlen
    refine ⟨r0 :: s0, r1 :: s1, ?_, ?_, by simp [l0], by simp [l1], ?_⟩
    · unfold readOutputs at e0 ⊢
      rw [List.mapM_cons, f0, e0]; rfl
    · unfold readOutputs at e1 ⊢
      rw [List.mapM_cons, f1, e1]; rfl
    · intro k w a b hw ha hb
      cases k with
      | zero =>
        simp only [List.getElem?_cons_zero, Option.some.injEq] at hw ha hb
        subst hw ha hb
        apply productShares_of_xor
        · rw [highSets_map, List.length_map, k0, hlen]
        · rw [highSets_map, List.length_map, k1, hlen]
        · rw [hx, h1, highSets_map, List.map_map]
          apply List.map_congr_left
          intro set _
          simp [List.all_map]
      | succ k => exact hp k w a b (by simpa using hw) (by simpa using ha) (by simpa using hb)

/-- **C71, the setup data.**  The two parties run `AbySetupProvider::setup` on any circuit whose
interactive gates are AND gates with as many operands as their arity, with any gate outputs that are
set at the operands, and with matching multiplication triples.  Under every schedule both finish, and
for every AND gate they hold shares of the products of the combined masks, over all sets of at least
two operands.  The operands are in the order of their first use, not in that of the gate. -/
theorem aby_setup_products (m : Multi Gate) (ls : List MLayer) (hls : layers m = some ls)
    (hv : ∀ v ∈ interactiveNodes m ls, m.gate? v = some (.and (m.parents v).length))
    (st0 st1 : Store Share (List Share))
    (h0 : ∀ v ∈ interactiveNodes m ls, ∀ p ∈ m.parents v, st0.get m p = some (st0.sc p))
    (h1 : ∀ v ∈ interactiveNodes m ls, ∀ p ∈ m.parents v, st1.get m p = some (st1.sc p))
    (triples0 triples1 : Nat → Nat → List Triple)
    (hset : ∀ k n, Matching (triples0 k n) (triples1 k n) ∧ n ≤ (triples0 k n).length)
    (init0 init1 : Store Bool (List Bool)) :
    ∃ s0 s1, Runs (abySetup m 0 st0 triples0 init0) (abySetup m 1 st1 triples1 init1)
        (.fromRaw s0) (.fromRaw s1) ∧
      AllProducts (fun v => maskOf st0 v ^^ maskOf st1 v) (sortedOperands m (interactiveNodes m ls))
        (interactiveNodes m ls) s0 s1 := by
  obtain ⟨c, outs, e, ok, hs, hlen, hout, hval⟩ := setup_circuit m _ hv
  have b0 := buildSetup_map m (mask := some) (mask' := fun p => (st0.get m p).map Share.priv)
    (maskOf st0) (interactiveNodes m ls) (fun v hv p hp => by simp [h0 v hv p hp, maskOf])
  have b1 := buildSetup_map m (mask := some) (mask' := fun p => (st1.get m p).map Share.priv)
    (maskOf st1) (interactiveNodes m ls) (fun v hv p hp => by simp [h1 v hv p hp, maskOf])
  rw [e] at b0 b1
  simp only [Option.map_some] at b0 b1
  generalize hfu : firstUses ((interactiveNodes m ls).flatMap m.parents) = fu at *
  obtain ⟨ls', o0, o1, -, hx, -, hxor⟩ := gmw_scalar_circuit_correct c ok hs (fu.map (maskOf st0))
    (fu.map (maskOf st1)) (fu.map fun v => maskOf st0 v ^^ maskOf st1 v) (by simp) (by simp)
    (by simp [Gmw.xorL, List.zipWith_map, List.zipWith_self]) (by simp [hlen]) triples0 triples1 hset
    init0 init1
  obtain ⟨s0, s1, r0, r1, hp⟩ := read_all ok hxor (fun v => maskOf st0 v ^^ maskOf st1 v)
    (sortedOperands m (interactiveNodes m ls)) _ outs hout (hval _)
  refine ⟨s0, s1, ?_, hp⟩
  simp only [abySetup, hls, Option.bind_eq_bind, Option.bind_some, b0, b1]
  exact (exchange_andThen hx (by simp [r0]) (by simp [r1])).runs

/-! ### Two operands -/

theorem sorted_two {m : Multi Gate} {vs : List Node} {v p q : Node} (h : m.parents v = [p, q]) :
    sortedOperands m vs v = [p, q] ∨ sortedOperands m vs v = [q, p] := by
  have hp := List.mergeSort_perm [p, q] fun p q =>
    decide ((firstUses (vs.flatMap m.parents)).idxOf p ≤ (firstUses (vs.flatMap m.parents)).idxOf q)
  rw [sortedOperands, h]
  generalize List.mergeSort [p, q] _ = l at hp
  have hl := hp.length_eq
  match l, hl with
  | [a, b], _ =>
    have ha : a ∈ [p, q] := hp.mem_iff.1 List.mem_cons_self
    simp only [List.mem_cons, List.not_mem_nil, or_false] at ha
    rcases ha with rfl | rfl
    · left
      have := List.perm_singleton.1 (List.Perm.cons_inv hp)
      rw [this]
    · right
      have := List.perm_singleton.1 (List.Perm.cons_inv (hp.trans (List.Perm.swap _ _ _)))
      rw [this]

/-- With two operands the order does not matter. -/
theorem allProducts_two {m : Multi Gate} {lam : Node → Bool} {vs : List Node} :
    ∀ (ws : List Node) (s0 s1 : List (List Bool)), (∀ v ∈ ws, ∃ p q, m.parents v = [p, q]) →
      AllProducts lam (sortedOperands m vs) ws s0 s1 → Products m lam ws s0 s1 := by
  intro ws
  induction ws with
  | nil =>
    intro s0 s1 _ h
    have e0 := List.eq_nil_of_length_eq_zero h.1
    have e1 := List.eq_nil_of_length_eq_zero h.2.1
    subst e0 e1
    exact .nil
  | cons w ws ih =>
    intro s0 s1 hv h
    match s0, s1, h with
    | [], _, h => exact absurd h.1 (by simp)
    | _ :: _, [], h => exact absurd h.2.1 (by simp)
    | a :: s0, b :: s1, ⟨l0, l1, hk⟩ =>
      obtain ⟨p, q, hpq⟩ := hv w List.mem_cons_self
      obtain ⟨k0, k1, k2⟩ := hk 0 w a b rfl rfl rfl
      have hrest := ih s0 s1 (fun v hv' => hv v (List.mem_cons_of_mem _ hv'))
        ⟨by simpa using l0, by simpa using l1, fun k v a b h1 h2 h3 => hk (k + 1) v a b (by simpa using h1)
          (by simpa using h2) (by simpa using h3)⟩
      have hhs : ∀ x y : Bool, highSets [x, y] = [[x, y]] := fun _ _ => rfl
      rcases sorted_two (vs := vs) hpq with hso | hso
      · rw [hso, List.map_cons, List.map_cons, List.map_nil, hhs] at k0 k1 k2
        match a, b, k0, k1 with
        | [a], [b], _, _ =>
          refine .cons hpq ?_ hrest
          simpa using k2 0 a b _ rfl rfl rfl
      · rw [hso, List.map_cons, List.map_cons, List.map_nil, hhs] at k0 k1 k2
        match a, b, k0, k1 with
        | [a], [b], _, _ =>
          refine .cons hpq ?_ hrest
          have := k2 0 a b _ rfl rfl rfl
          rw [this, Bool.and_comm]
          simp

/-! ### The masks are set -/

theorem put_set {m : Multi Gate} {st st' : Store Share (List Share)} {v : Node} {x : Share}
    (h : st.put m v x = some st') {u : Node} (hu : st.set u = true) : st'.set u = true := by
  unfold Store.put at h
  split at h
  · cases h
  · cases h; simp only; split <;> simp_all

theorem setupNode_set {m : Multi Gate} {s s' : DeltaSharing} {st st' : Store Share (List Share)}
    {v : Node} (h : setupNode m s st v = some (s', st')) :
    (∀ u, st.set u = true → st'.set u = true) ∧ ∀ p ∈ m.parents v, st'.set p = true := by
  simp only [setupNode, Option.bind_eq_bind, Option.bind_eq_some_iff] at h
  obtain ⟨g, -, xs, hxs, h⟩ := h
  have hmono : ∀ u, st.set u = true → st'.set u = true := by
    intro u hu
    revert h
    cases hm : s.map v.2 with
    | none =>
      simp only [Option.bind_eq_some_iff]
      rintro ⟨⟨o, r⟩, -, st1, h1, h2⟩
      cases h2
      exact put_set h1 hu
    | some k =>
      cases k <;>
      · simp only [Option.bind_eq_some_iff]
        rintro ⟨⟨o, r⟩, -, st1, h1, h2⟩
        cases h2
        exact put_set h1 hu
  refine ⟨hmono, fun p hp => hmono p ?_⟩
  have hget : ∀ (us : List Node) (xs : List Share), us.mapM (st.get m) = some xs →
      ∀ p ∈ us, st.set p = true := by
    intro us
    induction us with
    | nil => intro _ _ p hp; simp at hp
    | cons u us ih =>
      intro xs hxs p hp
      rw [List.mapM_cons] at hxs
      simp only [Option.bind_eq_bind, Option.bind_eq_some_iff] at hxs
      obtain ⟨x, hx, ys, hys, -⟩ := hxs
      rcases List.mem_cons.1 hp with rfl | hp
      · unfold Store.get at hx
        split at hx
        · cases hx
        · split at hx
          · assumption
          · cases hx
      · exact ih ys hys p hp
  exact hget _ xs hxs p hp

theorem setupNodes_set {m : Multi Gate} (vs : List Node) {s s' : DeltaSharing}
    {st st' : Store Share (List Share)} (h : setupNodes m s st vs = some (s', st')) :
    (∀ u, st.set u = true → st'.set u = true) ∧ ∀ v ∈ vs, ∀ p ∈ m.parents v, st'.set p = true := by
  induction vs generalizing s st with
  | nil => cases h; exact ⟨fun _ h => h, by simp⟩
  | cons v vs ih =>
    simp only [setupNodes, Option.bind_eq_bind, Option.bind_eq_some_iff] at h
    obtain ⟨⟨s1, st1⟩, h1, h2⟩ := h
    obtain ⟨a1, a2⟩ := setupNode_set h1
    obtain ⟨b1, b2⟩ := ih h2
    refine ⟨fun u hu => b1 u (a1 u hu), ?_⟩
    intro w hw p hp
    rcases List.mem_cons.1 hw with rfl | hw
    · exact b1 p (a2 p hp)
    · exact b2 w hw p hp

theorem helperGateOutputs_get {m : Multi Gate} (hns : ∀ i, isSimd m i = false) {party : Nat}
    {priv joint : Seed} {owner : Nat → Option InputBy} {st : Store Share (List Share)}
    (h : helperGateOutputs m party priv joint owner = some st) {ls : List MLayer}
    (hls : layers m = some ls) :
    ∀ v ∈ interactiveNodes m ls, ∀ p ∈ m.parents v, st.get m p = some (st.sc p) := by
  intro v hv p hp
  simp only [helperGateOutputs, Option.map_eq_some_iff] at h
  obtain ⟨⟨s', st'⟩, h, rfl⟩ := h
  simp only [setupGateOutputs, hls, Option.bind_eq_bind, Option.bind_some] at h
  split at h
  · have := (setupNodes_set _ h).2 v (List.mem_of_mem_filter hv) p hp
    simp [Store.get, hns, this]
  · cases h

/-! ### The whole protocol -/

/-- **C71.**  Two parties run ABY2 without a helper on a circuit of XOR, NOT, constant and two-input
AND gates with sub-circuits.  They share their inputs as in C36, derive their masks with
`setup_gate_outputs`, and run `AbySetupProvider::setup` with matching multiplication triples.  The
setup finishes under every schedule.  If the calls of `request_setup_output` return its result layer
by layer, then the execution finishes under every schedule too, and the outputs reconstruct to the
plaintext values of the circuit on the inputs. -/
theorem aby2_two_party_correct (m : Multi Gate) (rank : Node → Nat) (w : WF m rank) (hw : ExecWF m)
    (hns : ∀ i, isSimd m i = false) (h2 : ∀ v n, m.gate? v = some (.and n) → n = 2)
    (hb : ∀ c ∈ m.circs, BookOk c) (c0 : Base Gate) (hc0 : m.circs[0]? = some c0)
    (priv0 priv1 joint : Seed) (owner : Nat → Option InputBy) (os : List InputBy)
    (ho : c0.inputGates.map owner = os.map some) (map0 map1 : Nat → Option ShareType)
    (ops0 ops1 : List Op)
    (h01 : (run (.new 1 priv1 joint map1) ops1).received = (run (.new 0 priv0 joint map0) ops0).sent)
    (h10 : (run (.new 0 priv0 joint map0) ops0).received = (run (.new 1 priv1 joint map1) ops1).sent)
    (hl0 : os.count .p0 = (run (.new 0 priv0 joint map0) ops0).bits.length)
    (hl1 : os.count .p1 = (run (.new 1 priv1 joint map1) ops1).bits.length) (val : Node → Bool)
    (hp : PlainEval m (merge os (run (.new 0 priv0 joint map0) ops0).bits
      (run (.new 1 priv1 joint map1) ops1).bits) val)
    (triples0 triples1 : Nat → Nat → List Triple)
    (hset : ∀ k n, Matching (triples0 k n) (triples1 k n) ∧ n ≤ (triples0 k n).length)
    (init0 init1 : Store Bool (List Bool)) :
    let t0 := run (.new 0 priv0 joint map0) ops0
    let t1 := run (.new 1 priv1 joint map1) ops1
    ∃ st0 st1 d0 d1, helperGateOutputs m 0 priv0 joint owner = some st0 ∧
      helperGateOutputs m 1 priv1 joint owner = some st1 ∧
      Runs (abySetup m 0 st0 triples0 init0) (abySetup m 1 st1 triples1 init1) d0 d1 ∧
      d0.length = interactiveCount m ∧ d1.length = interactiveCount m ∧
      ∀ setup0 setup1, Answers m d0 setup0 → Answers m d1 setup1 →
        ∃ o0 o1, Runs (execute aby2 m 0 (.scalar (merge os t0.own t0.other)) setup0 st0)
            (execute aby2 m 1 (.scalar (merge os t1.other t1.own)) setup1 st1)
            (.scalar o0) (.scalar o1) ∧
          reconstruct o0 o1 = some (c0.outputGates.map fun g => val (0, g)) := by
  intro t0 t1
  have har : ∀ v g, m.gate? v = some g → Arity m v g := fun v g hg => arity_of_gateEq (hp v g hg)
  have hb0 : BookOk c0 := hb c0 (List.mem_of_getElem? hc0)
  obtain ⟨ls, st0, st1, msg, e1, ok, g0, g1, -, -, -, hmask, hdraw⟩ :=
    helper_data m rank w hns har h2 (fun c hc => (hb c hc).interactives) priv0 priv1 joint owner
  have hand : ∀ v ∈ interactiveNodes m ls, m.gate? v = some (.and 2) ∧ (m.parents v).length = 2 := by
    intro v hv
    simp only [interactiveNodes, List.mem_filter] at hv
    obtain ⟨g, hg, hi⟩ : ∃ g, m.gate? v = some g ∧ interactive g = true := by
      cases hg : m.gate? v with
      | none => rw [hg] at hv; simp at hv
      | some g => rw [hg] at hv; exact ⟨g, rfl, by simpa using hv.2⟩
    obtain ⟨n, rfl⟩ := interactive_and hi
    have hn := h2 v n hg
    subst hn
    exact ⟨hg, har v _ hg⟩
  obtain ⟨s0, s1, hrun, hall⟩ := aby_setup_products m ls e1
    (fun v hv => by rw [(hand v hv).1, (hand v hv).2]) st0 st1
    (helperGateOutputs_get hns g0 e1) (helperGateOutputs_get hns g1 e1) triples0 triples1 hset init0
    init1
  have hprod : Products m (fun v => maskOf st0 v ^^ maskOf st1 v) (interactiveNodes m ls) s0 s1 :=
    allProducts_two _ s0 s1 (fun v hv => List.length_eq_two.1 (hand v hv).2) hall
  obtain ⟨hgi, hgc⟩ := book_gates hb0
  obtain ⟨rest, hrest⟩ : ∃ rest, iterNodes ls =
      (c0.constantGates ++ c0.inputGates).map (fun g => (0, g)) ++ rest := by
    have e1' := e1
    simp only [layers, Option.bind_eq_bind, Option.bind_eq_some_iff] at e1'
    obtain ⟨it, h1, h3⟩ := e1'
    refine iter_prefix m c0 hc0 _ it ls h1 h3 ?_
    intro v hv
    rcases List.mem_append.1 hv with hv | hv
    · obtain ⟨b, hb⟩ := hgc v hv; exact ⟨_, hb, rfl⟩
    · exact ⟨_, hgi v hv, rfl⟩
  rw [hrest] at hdraw
  obtain ⟨m0, m1⟩ := inputs_masks hc0 hb0 priv0 priv1 joint owner (maskOf st0) (maskOf st1) rest
    hdraw os ho
  obtain ⟨a1, a2, a3⟩ := run_spec (.new 0 priv0 joint map0) ops0
  obtain ⟨b1, b2, b3⟩ := run_spec (.new 1 priv1 joint map1) ops1
  have c1' : t1.other = otherShares (joint 0) 0 (t0.own.map (·.pub)) := by
    rw [← a2, ← h01]; exact b3
  have c0' : t0.other = otherShares (joint 1) 0 (t1.own.map (·.pub)) := by
    rw [← b2, ← h10]; exact a3
  have d0 : t0.own = ownShares (priv0 0) (joint 0) 0 0 t0.bits := a1
  have d1 : t1.own = ownShares (priv1 0) (joint 1) 0 0 t1.bits := b1
  obtain ⟨q1, q2, q3, q4, q5⟩ := merge_inputs (priv0 0) (priv1 0) (joint 0) (joint 1) os t0.bits
    t1.bits 0 0 hl0 hl1
  rw [← d0, ← d1, ← c0', ← c1'] at q3
  rw [← d0, ← d1, ← c0'] at q1 q4
  rw [← d0, ← d1, ← c1'] at q2 q5
  have hol : os.length = c0.inputGates.length := by
    have := congrArg List.length ho; simpa using this.symm
  have hcount := interactiveCount_eq m ls ok fun c hc => (hb c hc).interactives
  refine ⟨st0, st1, .fromRaw s0, .fromRaw s1, g0, g1, hrun,
    by rw [hcount, SetupData.fromRaw, List.length_reverse, hall.1],
    by rw [hcount, SetupData.fromRaw, List.length_reverse, hall.2.1], ?_⟩
  intro setup0 setup1 u0 u1
  have hin : InputShares c0 (maskOf st0) (maskOf st1) (merge os t0.own t0.other)
      (merge os t1.other t1.own) (merge os t0.bits t1.bits) :=
    ⟨by rw [q1, hol], by rw [q2, hol], q3, by rw [q4, m0], by rw [q5, m1]⟩
  obtain ⟨-, o0, o1, -, -, hr, -, -, -, hrec⟩ := aby2_execute_correct m rank w hw hns h2 c0 hc0 _ _ _
    setup0 setup1 st0 st1 val hp (fun v g hg => (hmask v g hg).1) (fun v g hg => (hmask v g hg).2) hin
    (answers_products hns e1 ok hprod u0 u1)
  exact ⟨o0, o1, hr, hrec⟩

/-! ### Examples -/

/-- Triples for the examples. -/
def exTriples (party k n : Nat) : List Triple :=
  .replicate n (if (party + k) % 2 = 0 then ⟨true, true, true⟩ else ⟨false, false, false⟩)

theorem exTriples_ok (k n : Nat) :
    Matching (exTriples 0 k n) (exTriples 1 k n) ∧ n ≤ (exTriples 0 k n).length := by
  constructor
  · have h : k % 2 = 0 ∨ k % 2 = 1 := by omega
    unfold exTriples
    induction n with
    | zero => exact .nil
    | succ n ih =>
      rw [List.replicate_succ, List.replicate_succ]
      refine .cons ?_ ih
      rcases h with h | h
      · rw [if_pos (by omega), if_neg (by omega)]; decide
      · rw [if_neg (by omega), if_pos (by omega)]; decide
  · simp [exTriples]

/-- All hypotheses hold together for the circuit with a sub-circuit of C39: with any seeds the
parties compute `(x & y) ^ z`. -/
example (priv0 priv1 joint : Seed) (x y z : Bool) (init0 init1 : Store Bool (List Bool)) :
    ∃ st0 st1 d0 d1 setup0 setup1 xs0 xs1 o0 o1,
      helperGateOutputs callCirc 0 priv0 joint callOwner = some st0 ∧
      helperGateOutputs callCirc 1 priv1 joint callOwner = some st1 ∧
      Runs (abySetup callCirc 0 st0 (exTriples 0) init0) (abySetup callCirc 1 st1 (exTriples 1) init1)
        d0 d1 ∧
      Runs (execute aby2 callCirc 0 (.scalar xs0) setup0 st0)
        (execute aby2 callCirc 1 (.scalar xs1) setup1 st1) (.scalar o0) (.scalar o1) ∧
      reconstruct xs0 xs1 = some [x, y, z] ∧ reconstruct o0 o1 = some [(x && y) ^^ z] := by
  let ops0 : List Op := [.share [x], .receive [y ^^ priv1 0 0 ^^ joint 1 0, z ^^ priv1 0 1 ^^ joint 1 1]]
  let ops1 : List Op := [.receive [x ^^ priv0 0 0 ^^ joint 0 0], .share [y, z]]
  obtain ⟨st0, st1, d0, d1, g0, g1, hs, l0, l1, h⟩ := aby2_two_party_correct callCirc callRank callCirc_wf
    callCirc_exec.2 callCirc_exec.1 callCirc_and callCirc_book callMain rfl priv0 priv1 joint callOwner
    [.p0, .p1, .p1] rfl (fun _ => none) (fun _ => none) ops0 ops1 rfl rfl rfl rfl (callVal x y z)
    (callCirc_plain x y z) (exTriples 0) (exTriples 1) exTriples_ok init0 init1
  have answers : ∀ d : SetupData, d.length = interactiveCount callCirc →
      Answers callCirc d fun _ _ => d := by
    intro d hl ls hls k l hk
    rw [callCirc_layers, Option.some.injEq] at hls; subst hls
    match k, hk, d, hl with
    | 0, hk, [b], _ => rfl
    | k + 1, hk, _, _ => cases hk
  obtain ⟨o0, o1, hr, hrec⟩ := h _ _ (answers d0 l0) (answers d1 l1)
  refine ⟨st0, st1, d0, d1, _, _, _, _, o0, o1, g0, g1, hs, hr, ?_, hrec⟩
  simp [run, DeltaSharing.share, DeltaSharing.toShare, DeltaSharing.new, Rng.gen, merge, reconstruct,
    ops0, ops1]
  cases x <;> cases y <;> cases z <;> cases priv0 0 0 <;> cases priv1 0 0 <;> cases priv1 0 1 <;>
    cases joint 0 0 <;> cases joint 1 0 <;> cases joint 1 1 <;> decide

/-- The inputs `a`, `b`, `c` and the gates `AND(a, b, c)` and `AND(c, a, b)`. -/
def orderBase : Base Gate where
  gates := [.base .input, .base .input, .base .input, .and 3, .and 3]
  edges := [(0, 3), (1, 3), (2, 3), (2, 4), (0, 4), (1, 4)]
  inputGates := [0, 1, 2]
  isMain := true

def orderCirc : Multi Gate := .ofBase orderBase

/-- Party 0 has the masks one for `a` and `b` and zero otherwise. -/
def orderStore : Store Share (List Share) :=
  ⟨fun v => ⟨false, decide (v = (0, 0) ∨ v = (0, 1))⟩, fun _ => [], fun _ => true⟩

/-- Party 1 has masks zero. -/
def orderStore1 : Store Share (List Share) := ⟨fun _ => .zero, fun _ => [], fun _ => true⟩

theorem orderCirc_layers : layers orderCirc = some [[(0, ⟨[0, 1, 2], [4, 3]⟩)]] := rfl

theorem orderCirc_sorted : sortedOperands orderCirc [(0, 4), (0, 3)] (0, 3) = [(0, 1), (0, 0), (0, 2)] := by
  have e1 : orderCirc.parents (0, 3) = [(0, 2), (0, 1), (0, 0)] := rfl
  have e2 : firstUses (([(0, 4), (0, 3)] : List Node).flatMap orderCirc.parents) =
      [(0, 1), (0, 0), (0, 2)] := by decide +kernel
  rw [sortedOperands, e1, e2]
  generalize h : (fun p q : Node => decide (List.idxOf p [(0, 1), (0, 0), (0, 2)] ≤
    List.idxOf q [(0, 1), (0, 0), (0, 2)])) = le
  have h1 : le (0, 2) (0, 1) = false := by rw [← h]; decide
  have h2 : le (0, 1) (0, 0) = true := by rw [← h]; decide
  have h3 : le (0, 2) (0, 0) = false := by rw [← h]; decide
  simp [List.mergeSort, List.MergeSort.Internal.splitInTwo, List.cons_merge_cons, h1, h2, h3]

/-- For gates with three operands the order matters: the data for the gate `(0, 3)` are not shares of
the products of its operands in its own order, which is the order in which the evaluation uses them.
("TODO does this impact correctness??", aby2.rs:747.) -/
theorem aby_setup_order_wrong (triples0 triples1 : Nat → Nat → List Triple)
    (hset : ∀ k n, Matching (triples0 k n) (triples1 k n) ∧ n ≤ (triples0 k n).length)
    (init0 init1 : Store Bool (List Bool)) :
    ∃ d0 d1 e0 e1, Runs (abySetup orderCirc 0 orderStore triples0 init0)
        (abySetup orderCirc 1 orderStore1 triples1 init1) (.fromRaw [d0, e0]) (.fromRaw [d1, e1]) ∧
      interactiveNodes orderCirc [[(0, ⟨[0, 1, 2], [4, 3]⟩)]] = [(0, 4), (0, 3)] ∧
      ¬ ProductShares ((orderCirc.parents (0, 3)).map fun v => maskOf orderStore v ^^ maskOf orderStore1 v)
        e0 e1 := by
  have hi : interactiveNodes orderCirc [[(0, ⟨[0, 1, 2], [4, 3]⟩)]] = [(0, 4), (0, 3)] := rfl
  have h := aby_setup_products orderCirc _ orderCirc_layers
    (by rw [hi]; decide +kernel) orderStore orderStore1 (by rw [hi]; decide +kernel)
    (by rw [hi]; decide +kernel) triples0 triples1 hset init0 init1
  rw [hi] at h
  obtain ⟨s0, s1, hr, l0, l1, hp⟩ := h
  match s0, s1, l0, l1 with
  | [d0, e0], [d1, e1], _, _ =>
    refine ⟨d0, d1, e0, e1, hr, hi, ?_⟩
    intro hw
    have hg := hp 1 (0, 3) e0 e1 rfl rfl rfl
    rw [orderCirc_sorted] at hg
    obtain ⟨g0, g1, g2⟩ := hg
    have k0 : e0.length = 4 := g0
    have k1 : e1.length = 4 := g1
    have hx := g2 0 e0[0] e1[0] [true, true] (List.getElem?_eq_getElem _) (List.getElem?_eq_getElem _) rfl
    have hy := hw.2.2 0 e0[0] e1[0] [false, true] (List.getElem?_eq_getElem _)
      (List.getElem?_eq_getElem _) rfl
    rw [hx] at hy
    cases hy

end Verif.Aby2
