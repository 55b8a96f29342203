import Verif.Cbc.Inline

/-!
Lemmas for C67: the loop over the blocks.
-/
set_option autoImplicit false

namespace Verif.Cbc

open Circuit Gmw Secret Exec Mail

/-- The secrets exist in the main circuit and have the values `G` in every evaluation. -/
def HoldsL (b : Builder) (ts : List Sec) (G : (Node → Bool) → List Bool) : Prop :=
  (∀ t ∈ ts, Valid b t ∧ t.1 = 0) ∧ ∀ val, Consistent b val → ts.map val = G val

theorem holdsL_self {b : Builder} {ts : List Sec} (h : ∀ t ∈ ts, Valid b t ∧ t.1 = 0) :
    HoldsL b ts fun val => ts.map val := ⟨h, fun _ _ => rfl⟩

theorem HoldsL.append {b : Builder} {ts us : List Sec} {F G : (Node → Bool) → List Bool}
    (h : HoldsL b ts F) (h' : HoldsL b us G) : HoldsL b (ts ++ us) fun val => F val ++ G val := by
  refine ⟨?_, fun val hv => by rw [List.map_append, h.2 val hv, h'.2 val hv]⟩
  intro t ht
  rcases List.mem_append.1 ht with ht | ht
  · exact h.1 t ht
  · exact h'.1 t ht

theorem HoldsL.ext {b b' : Builder} (e : Extends b b') {ts : List Sec} {F : (Node → Bool) → List Bool}
    (h : HoldsL b ts F) : HoldsL b' ts F :=
  ⟨fun t ht => ⟨e.valid (h.1 t ht).1, (h.1 t ht).2⟩, fun val hv => h.2 val (e.consistent hv)⟩

theorem HoldsL.forall₂ {b : Builder} {ts : List Sec} {G : (Node → Bool) → List Bool}
    (h : HoldsL b ts G) : List.Forall₂ (Holds b) ts
      ((List.range ts.length).map fun (j : Nat) (val : Node → Bool) => (G val).getD j false) := by
  rw [List.forall₂_iff_get]
  refine ⟨by simp, ?_⟩
  intro j hj hj'
  simp only [List.get_eq_getElem, List.getElem_map, List.getElem_range]
  obtain ⟨h1, h2⟩ := h.1 _ (List.getElem_mem hj)
  refine ⟨h1, h2, ?_⟩
  intro val hv
  beta_reduce
  rw [← h.2 val hv, List.getD_eq_getElem?_getD]
  simp [hj]

theorem holdsL_of {b : Builder} {ts : List Sec} {Fs : List ((Node → Bool) → Bool)}
    (h : List.Forall₂ (Holds b) ts Fs) : HoldsL b ts fun val => Fs.map (· val) := by
  refine ⟨?_, ?_⟩
  · induction h with
    | nil => simp
    | cons h _ ih =>
      intro t ht
      rcases List.mem_cons.1 ht with rfl | ht
      · exact ⟨h.1, h.2.1⟩
      · exact ih t ht
  · intro val hv
    induction h with
    | nil => rfl
    | cons h _ ih =>
      beta_reduce at ih ⊢
      rw [List.map_cons, List.map_cons, ih, h.2.2 val hv]

/-- Position-wise XOR of two lists of secrets. -/
theorem xor_all {b : Builder} (h0 : 0 < b.length) (hb : Ok b) {xs ys : List Sec}
    {F G : (Node → Bool) → List Bool} (hx : HoldsL b xs F) (hy : HoldsL b ys G)
    (hl : xs.length = ys.length) :
    ∃ b' zs, mapB (fun b (p : Sec × Sec) => bitXor b p.1 p.2) b (xs.zip ys) = some (b', zs) ∧
      Made b b' 0 ∧ zs.length = xs.length ∧ HoldsL b' zs fun val => xorL (F val) (G val) := by
  have main : ∀ (ps : List (Sec × Sec)) (b : Builder), 0 < b.length → Ok b →
      (∀ p ∈ ps, (Valid b p.1 ∧ p.1.1 = 0) ∧ Valid b p.2 ∧ p.2.1 = 0) →
      ∃ b' zs, mapB (fun b (p : Sec × Sec) => bitXor b p.1 p.2) b ps = some (b', zs) ∧
        Made b b' 0 ∧ zs.length = ps.length ∧ HoldsL b' zs fun val => ps.map fun p => val p.1 ^^ val p.2 := by
    intro ps
    induction ps with
    | nil => intro b h0 hb _; exact ⟨b, [], rfl, .refl h0 hb, rfl, by simp, fun _ _ => rfl⟩
    | cons p ps ih =>
      intro b h0 hb hp
      obtain ⟨⟨p1, p2⟩, p3, p4⟩ := hp p List.mem_cons_self
      obtain ⟨b1, t, e1, m1, t1⟩ := xor_made hb (holds_self p1 p2) (holds_self p3 p4)
      obtain ⟨b2, zs, e2, m2, l2, t2⟩ := ih b1 m1.pos m1.ok (by
        intro q hq
        obtain ⟨⟨q1, q2⟩, q3, q4⟩ := hp q (List.mem_cons_of_mem _ hq)
        exact ⟨⟨m1.ext.valid q1, q2⟩, m1.ext.valid q3, q4⟩)
      refine ⟨b2, t :: zs, by simp [mapB, e1, e2], m1.trans m2, by simp [l2], ?_, ?_⟩
      · intro u hu
        rcases List.mem_cons.1 hu with rfl | hu
        · exact ⟨(t1.mono m2).1, (t1.mono m2).2.1⟩
        · exact t2.1 u hu
      · intro val hv
        beta_reduce
        rw [List.map_cons, List.map_cons, t2.2 val hv, (t1.mono m2).2.2 val hv]
  obtain ⟨b', zs, e, m, l, h1, h2⟩ := main (xs.zip ys) b h0 hb (by
    rintro ⟨p, q⟩ hp
    obtain ⟨h1, h2⟩ := List.of_mem_zip hp
    exact ⟨hx.1 p h1, hy.1 q h2⟩)
  refine ⟨b', zs, e, m, by rw [l, List.length_zip, ← hl, Nat.min_self], h1, ?_⟩
  intro val hv
  rw [h2 val hv]
  beta_reduce
  rw [← hx.2 val (m.ext.consistent hv), ← hy.2 val (m.ext.consistent hv), xorL,
    List.zipWith_map, List.zip, List.map_zipWith]

/-- The output gates in the order of their creation. -/
def outIds (c : Base BoolGate) : List Nat := positions (fun g => g = .base .output) c.gates

theorem positions_quiet (p : BoolGate → Bool) (A B : List BoolGate) (h : ∀ g ∈ B, p g = false) :
    positions p (A ++ B) = positions p A := by
  induction B using List.reverseRecOn with
  | nil => simp
  | append_singleton B x ih =>
    rw [← List.append_assoc, positions_append, ih fun g hg => h g (by simp [hg]),
      h x (by simp)]
    simp

theorem positions_all (p : BoolGate → Bool) (A : List BoolGate) (x : BoolGate) (n : Nat)
    (h : p x = true) : positions p (A ++ List.replicate n x) =
      positions p A ++ (List.range n).map fun i => A.length + i := by
  induction n with
  | zero => simp
  | succ n ih =>
    rw [List.replicate_succ', ← List.append_assoc, positions_append, ih, List.range_succ,
      List.map_append, h]
    simp

/-- One step: gates were appended, among them output gates with the values `G` and no inputs. -/
structure Step (c c' : Base BoolGate) (k : Nat) (ids : List Nat) (G : (Node → Bool) → List Bool) :
    Prop where
  ok : BaseOk c'
  ext : Extends [c] [c']
  ands : andCount [c'] = andCount [c] + k
  outs : outIds c' = outIds c ++ ids
  holds : HoldsL [c'] (ids.map fun i => (0, i)) G
  inputs : ∃ gs, c'.gates = c.gates ++ gs ∧ ∀ g ∈ gs, g ≠ .base .input

theorem single_ok {c : Base BoolGate} (h : BaseOk c) : Ok [c] := by
  intro i d hd
  cases i with
  | zero => rw [← Option.some.inj hd]; exact baseOk_edges h
  | succ i => simp at hd

theorem outputs_ext (rs : List Sec) (c c' : Base BoolGate) (o : List Sec) (hc : BaseOk c)
    (hr : ∀ r ∈ rs, Valid [c] r) (e : mapB (fun b s => output b s) [c] rs = some ([c'], o)) :
    Extends [c] [c'] := by
  induction rs generalizing c o with
  | nil =>
    simp only [mapB, Option.some.injEq, Prod.mk.injEq, List.cons.injEq, and_true] at e
    rw [← e.1]; exact .refl _
  | cons r rs ih =>
    obtain ⟨b1, t1, e1, h1, d1⟩ := output_denotes (single_ok hc) (hr r List.mem_cons_self)
    have hl := d1.ext.length
    obtain ⟨c1, hc1, -, -, -, hbok⟩ := d1.ext.circ 0 c rfl
    have hb1 : b1 = [c1] := by
      match b1, hl, hc1 with
      | [x], _, hx => rw [Option.some.inj hx]
    subst hb1
    simp only [mapB, e1, Option.bind_eq_bind, Option.bind_some, Option.bind_eq_some_iff,
      Option.pure_def, Option.some.injEq, Prod.mk.injEq] at e
    obtain ⟨⟨b2, o2⟩, e2, h3, -⟩ := e
    simp only at h3
    subst h3
    exact d1.ext.trans (ih c1 o2 (hbok hc)
      (fun r hr' => d1.ext.valid (hr r (List.mem_cons_of_mem _ hr'))) e2)

/-- One block. -/
theorem chunk_step {file : List Char} {b : Parse.Circuit} (hfile : Parse.circuit file = some b)
    (ok : Parse.BristolOk b) {bs : Nat} (hin : b.totalInputs = bs + bs) (hout : b.totalOutputs = bs)
    {c : Base BoolGate} (hc : BaseOk c) (h0 : 0 < c.gates.length) {key chunk chain : List Sec}
    {K D C : (Node → Bool) → List Bool} (hk : HoldsL [c] key K) (hd : HoldsL [c] chunk D)
    (hch : HoldsL [c] chain C) (lk : key.length = bs) (ld : chunk.length = bs) (lc : chain.length = bs) :
    ∃ c' out ids, cbcChunk file [c] key chunk chain = some ([c'], out) ∧ out.length = bs ∧
      Step c c' (andGates b) ids (fun val => b.eval (xorL (D val) (C val) ++ K val)) ∧
      HoldsL [c'] out fun val => b.eval (xorL (D val) (C val) ++ K val) := by
  obtain ⟨b1, inp, e1, m1, l1, h1⟩ := xor_all (by simp) (single_ok hc) hd hch (ld.trans lc.symm)
  obtain ⟨c1, gs1, rfl, ok1, s1, g1, q1⟩ := made_single hc m1
  have hcat := (h1.append (hk.ext m1.ext)).forall₂
  obtain ⟨circ, b2, out, e2, e3, m2, h2⟩ := inlined_made ok ok1
    (by rw [g1]; simp; omega) hcat (by simp [l1, lk, ld, hin])
  obtain ⟨c2, gs2, rfl, ok2, s2, g2, q2⟩ := made_single ok1 m2
  obtain ⟨c3, e4, ok3, s3, g3, a3, h3⟩ := outputs_made out _ c2 ok2 h2
  have lo : out.length = bs := by rw [h2.length_eq]; simp [hout]
  have hx3 := outputs_ext out c2 c3 _ ok2 (fun r hr => ((holdsL_of h2).1 r hr).1) e4
  have hx : Extends [c] [c3] := (m1.ext.trans m2.ext).trans hx3
  have hfun : ∀ val, Consistent [c1] val →
      ((List.range b.totalOutputs).map fun (j : Nat) (val : Node → Bool) => (b.eval
        (((List.range (inp ++ key).length).map fun (j : Nat) (val : Node → Bool) =>
          (xorL (D val) (C val) ++ K val).getD j false).map (· val))).getD j false).map (· val) =
        b.eval (xorL (D val) (C val) ++ K val) := by
    intro val hv
    have hlen : (xorL (D val) (C val) ++ K val).length = (inp ++ key).length := by
      have := congrArg List.length ((h1.append (hk.ext m1.ext)).2 val hv)
      rw [List.length_map] at this
      exact this.symm
    have harg : ((List.range (inp ++ key).length).map fun (j : Nat) (val : Node → Bool) =>
          (xorL (D val) (C val) ++ K val).getD j false).map (· val) = xorL (D val) (C val) ++ K val := by
      rw [List.map_map, ← hlen]
      apply List.ext_getElem
      · simp
      · intro i h1 h2
        simp only [List.getElem_map, List.getElem_range, Function.comp_apply]
        rw [List.getD_eq_getElem?_getD, List.getElem?_eq_getElem h2]
        rfl
    rw [List.map_map]
    simp only [Function.comp_def, harg]
    have hel : (b.eval (xorL (D val) (C val) ++ K val)).length = b.totalOutputs := by
      simp [Parse.Circuit.eval]
    apply List.ext_getElem
    · simp [hel]
    · intro i h1 h2
      simp only [List.getElem_map, List.getElem_range]
      rw [List.getD_eq_getElem?_getD, List.getElem?_eq_getElem h2]
      rfl
  have fin : ∀ (ts : List Sec), List.Forall₂ (Holds [c3]) ts
      ((List.range b.totalOutputs).map fun (j : Nat) (val : Node → Bool) => (b.eval
        (((List.range (inp ++ key).length).map fun (j : Nat) (val : Node → Bool) =>
          (xorL (D val) (C val) ++ K val).getD j false).map (· val))).getD j false) →
      HoldsL [c3] ts fun val => b.eval (xorL (D val) (C val) ++ K val) := by
    intro ts h
    have := holdsL_of h
    exact ⟨this.1, fun val hv => (this.2 val hv).trans
      (hfun val (m2.ext.consistent (hx3.consistent hv)))⟩
  refine ⟨c3, out, (List.range out.length).map fun i => c2.gates.length + i, ?_, lo, ⟨ok3, hx, ?_, ?_, ?_, ?_⟩, ?_⟩
  · have hcc : cipherCirc file = some circ := by simp [cipherCirc, hfile, e2]
    simp only [cbcChunk, cipher, e1, Option.bind_eq_bind, Option.bind_some, hcc, e3, lo, lc, if_true, e4,
      Option.pure_def]
  · rw [a3, m2.ands, m1.ands, Nat.add_zero]
  · unfold outIds
    have hq : ∀ gs : List BoolGate, (∀ g ∈ gs, quiet g = true) →
        ∀ g ∈ gs, decide (g = BoolGate.base .output) = false := by
      intro gs h g hg
      have := h g hg
      rw [decide_eq_false_iff_not]
      rintro rfl
      simp [quiet] at this
    rw [g3, positions_all _ _ _ _ (by simp), g2, positions_quiet _ _ _ (hq _ q2), g1,
      positions_quiet _ _ _ (hq _ q1)]
  · have := fin _ h3
    rw [List.map_map]
    exact this
  · refine ⟨gs1 ++ (gs2 ++ List.replicate out.length (.base .output)), by rw [g3, g2, g1]; simp, ?_⟩
    intro g hg
    rintro rfl
    simp only [List.mem_append] at hg
    rcases hg with hg | hg | hg
    · have := q1 _ hg; simp [quiet] at this
    · have := q2 _ hg; simp [quiet] at this
    · have := List.eq_of_mem_replicate hg; simp at this
  · apply fin
    exact h2.imp fun t F h => ⟨hx3.valid h.1, h.2.1, fun val hv => h.2.2 val (hx3.consistent hv)⟩

/-! ### The mode of operation -/

/-- Cipher block chaining: the ciphertexts of the blocks. -/
def cbc (E : List Bool → List Bool → List Bool) (key : List Bool) :
    List Bool → List (List Bool) → List (List Bool)
  | _, [] => []
  | prev, d :: ds => E (xorL d prev) key :: cbc E key (E (xorL d prev) key) ds

/-- All blocks. -/
theorem chunks_step {file : List Char} {b : Parse.Circuit} (hfile : Parse.circuit file = some b)
    (ok : Parse.BristolOk b) {bs : Nat} (hin : b.totalInputs = bs + bs) (hout : b.totalOutputs = bs)
    {key : List Sec} (lk : key.length = bs) (chunks : List (List Sec)) {c : Base BoolGate}
    (hc : BaseOk c) (h0 : 0 < c.gates.length) {chain : List Sec} {C : (Node → Bool) → List Bool}
    (hk : ∀ t ∈ key, Valid [c] t ∧ t.1 = 0)
    (hd : ∀ ch ∈ chunks, ch.length = bs ∧ ∀ t ∈ ch, Valid [c] t ∧ t.1 = 0)
    (hch : HoldsL [c] chain C) (lc : chain.length = bs) :
    ∃ c' fin ids, cbcChunks file key [c] chain chunks = some ([c'], fin) ∧
      Step c c' (chunks.length * andGates b) ids fun val =>
        (cbc (fun x k => b.eval (x ++ k)) (key.map val) (C val) (chunks.map (List.map val))).flatten := by
  induction chunks generalizing c chain C with
  | nil =>
    refine ⟨c, chain, [], rfl, hc, .refl _, by simp, by simp, ⟨by simp, fun _ _ => rfl⟩, [], by simp,
      by simp⟩
  | cons ch chunks ih =>
    obtain ⟨ld, hd1⟩ := hd ch List.mem_cons_self
    obtain ⟨c1, out, ids1, e1, lo, st1, ho⟩ := chunk_step hfile ok hin hout hc h0 (holdsL_self hk)
      (holdsL_self hd1) hch lk ld lc
    obtain ⟨gs1, g1, i1⟩ := st1.inputs
    obtain ⟨c2, fin, ids2, e2, st2⟩ := ih st1.ok (by rw [g1]; simp; omega)
      (fun t ht => ⟨st1.ext.valid (hk t ht).1, (hk t ht).2⟩)
      (fun x hx => by
        obtain ⟨q1, q2⟩ := hd x (List.mem_cons_of_mem _ hx)
        exact ⟨q1, fun t ht => ⟨st1.ext.valid (q2 t ht).1, (q2 t ht).2⟩⟩) ho lo
    obtain ⟨gs2, g2, i2⟩ := st2.inputs
    refine ⟨c2, fin, ids1 ++ ids2, by simp [cbcChunks, e1, e2], st2.ok, st1.ext.trans st2.ext, ?_, ?_,
      ?_, gs1 ++ gs2, by rw [g2, g1]; simp, ?_⟩
    · rw [st2.ands, st1.ands, List.length_cons, Nat.add_mul, Nat.one_mul]; omega
    · rw [st2.outs, st1.outs, List.append_assoc]
    · rw [List.map_append]
      exact (st1.holds.ext st2.ext).append st2.holds
    · intro g hg
      rcases List.mem_append.1 hg with hg | hg
      · exact i1 g hg
      · exact i2 g hg

end Verif.Cbc
