import Verif.Tensor.SetupCirc
import Verif.Exec.Static

/-!
C82: Boolean ABY2 with matrices by two parties, from the inputs to the outputs.
-/
set_option autoImplicit false

namespace Verif.Tensor

open Gmw (BoolGate BaseGate Triple Matching)
open Bitmat
open Circuit Exec Proc Secret Mail
open Aby2 (layers interactiveNodes iterNodes mapSt inIds exchange_andThen read_list readOutputs merge
  InputBy ShareType shareType Answers interactiveCount)

/-! ### Shares of the products -/

theorem data_length {r c : Nat} {m : BitMatrix} (h : IsMat r c m) : m.data.length = r * c := by
  have : m.rows * m.cols = m.data.length := h.2.2.1
  rw [← this, h.1, h.2.1]

/-- The masks fit the gate, and shares of the outputs of its setup circuit are shares of the product. -/
def GateFits (m : Multi TGate) (lam0 lam1 : Node → PShare) (v : Node) (g : TGate) : Prop :=
  ∃ g', g = .op g' ∧ Fits g' ((m.parents v).map fun p => (lam0 p).flatten.length) ∧
    (∀ u ∈ m.parents v, (lam1 u).flatten.length = (lam0 u).flatten.length) ∧
    ∀ out r0 r1, setupDataCirc g' ((m.parents v).map fun p =>
          List.zipWith xor (lam0 p).flatten (lam1 p).flatten) = some out →
        r0.length = out.length → r1.length = out.length → Gmw.xorL r0 r1 = out →
        ∃ e e', evalShare (m.gate? v) r0 = some e ∧ evalShare (m.gate? v) r1 = some e' ∧
          MaskProduct m lam0 lam1 v e e'

/-- The masks of the operands of a gate have the dimensions the gate needs. -/
theorem gate_fits {m : Multi TGate} {inp : List PShare} {val lam0 lam1 : Node → PShare} {v : Node}
    {g : TGate} (hg : m.gate? v = some g) (h : GateEq m inp val v g) (hi : interactive g = true)
    (hs0 : ∀ u ∈ m.parents v, Shape (val u) (lam0 u)) (hs1 : ∀ u ∈ m.parents v, Shape (val u) (lam1 u)) :
    GateFits m lam0 lam1 v g := by
  cases g with
  | base b d => simp [GateLike.interactive] at hi
  | op g =>
    refine ⟨g, rfl, ?_⟩
    cases g with
    | xor => simp [GateLike.interactive] at hi
    | inv => exact absurd h id
    | and2 =>
      obtain ⟨p, q, x, y, hpq, vp, vq, -⟩ := h
      have mem : p ∈ m.parents v ∧ q ∈ m.parents v := by simp [hpq]
      have a1 := hs0 p mem.1
      have a2 := hs1 p mem.1
      have b1 := hs0 q mem.2
      have b2 := hs1 q mem.2
      rw [vp] at a1 a2
      rw [vq] at b1 b2
      obtain ⟨a, ha⟩ := shape_scalar a1
      obtain ⟨a', ha'⟩ := shape_scalar a2
      obtain ⟨b, hb⟩ := shape_scalar b1
      obtain ⟨b', hb'⟩ := shape_scalar b2
      refine ⟨by simp [hpq, ha, hb, PShare.flatten, Fits], ?_, ?_⟩
      · intro u hu
        rw [hpq] at hu
        simp only [List.mem_cons, List.not_mem_nil, or_false] at hu
        rcases hu with rfl | rfl
        · rw [ha, ha']; rfl
        · rw [hb, hb']; rfl
      · intro out r0 r1 ho l0 l1 hx
        have ho' : out = [(a ^^ a') && (b ^^ b')] := by
          simpa [hpq, ha, ha', hb, hb', PShare.flatten, setupDataCirc] using ho.symm
        subst ho'
        match r0, r1, l0, l1 with
        | [s], [s'], _, _ =>
          refine ⟨.scalar s, .scalar s', by rw [hg]; rfl, by rw [hg]; rfl, p, q, hpq,
            .inl ⟨hg, a, a', b, b', s, s', ha, ha', hb, hb', rfl, rfl, ?_⟩⟩
          simpa [Gmw.xorL] using hx
    | matMult r c =>
      obtain ⟨p, q, x, y, z, hpq, vp, vq, -, mx, my, mz, hr, hk, hc, -⟩ := h
      have mem : p ∈ m.parents v ∧ q ∈ m.parents v := by simp [hpq]
      have a1 := hs0 p mem.1
      have a2 := hs1 p mem.1
      have b1 := hs0 q mem.2
      have b2 := hs1 q mem.2
      rw [vp] at a1 a2
      rw [vq] at b1 b2
      obtain ⟨a, ha, ia⟩ := shape_matrix a1
      obtain ⟨a', ha', ia'⟩ := shape_matrix a2
      obtain ⟨b, hb, ib⟩ := shape_matrix b1
      obtain ⟨b', hb', ib'⟩ := shape_matrix b2
      rw [mx.1] at ia ia'
      rw [my.1, my.2.1] at ib ib'
      have hac : a.cols = x.cols := ia.2.1
      rw [← hac] at ia ia' ib ib' hk
      refine ⟨?_, ?_, ?_⟩
      · rw [hpq]
        simp only [List.map_cons, List.map_nil, ha, hb, PShare.flatten, Fits]
        exact ⟨a.cols, hr, hk, hc, data_length ia, data_length ib⟩
      · intro u hu
        rw [hpq] at hu
        simp only [List.mem_cons, List.not_mem_nil, or_false] at hu
        rcases hu with rfl | rfl
        · simp only [ha, ha', PShare.flatten]; rw [data_length ia, data_length ia']
        · simp only [hb, hb', PShare.flatten]; rw [data_length ib, data_length ib']
      · intro out r0 r1 ho l0 l1 hx
        rw [hpq] at ho
        simp only [List.map_cons, List.map_nil, ha, ha', hb, hb'] at ho
        have hlen : out.length = r * c := by
          obtain ⟨o, h1, h2, -⟩ := setup_matmult_correct
            (List.zipWith xor a.data a'.data) (List.zipWith xor b.data b'.data) r a.cols c hr hk hc
            (by rw [List.length_zipWith, data_length ia, data_length ia', Nat.min_self])
            (by rw [List.length_zipWith, data_length ib, data_length ib', Nat.min_self])
          have : some o = some out := by rw [← h1, ← ho]; rfl
          rw [← Option.some.inj this]; exact h2
        have h8 : 8 ∣ r * c := mz.2.2.2
        have hev : ∀ l : List Bool, l.length = out.length →
            evalShare (m.gate? v) l = some (.matrix ⟨r, c, l⟩) ∧ IsMat r c ⟨r, c, l⟩ := by
          intro l hl
          have hl' : l.length = r * c := hl.trans hlen
          refine ⟨?_, rfl, rfl, by simp [BitMatrix.Valid, hl'], h8⟩
          rw [hg]
          simp only [evalShare, fromBits]
          rw [if_pos ⟨by rw [hl']; exact Nat.mod_eq_zero_of_dvd h8, hl'⟩]
          rfl
        obtain ⟨e0, i0⟩ := hev r0 l0
        obtain ⟨e1, i1⟩ := hev r1 l1
        refine ⟨_, _, e0, e1, p, q, hpq, .inr ⟨r, c, hg, a, a', b, b', _, _, ha, ha', hb, hb', rfl, rfl,
          i0, i1, ?_⟩⟩
        exact setup_products ia ia' ib ib' i0 i1 hr hk hc ho hx

/-- The outputs of the setup circuit, gate by gate. -/
theorem read_products {m : Multi TGate} {lam0 lam1 : Node → PShare} {c : Base BoolGate} (h : BaseOk c)
    {inp o0 o1 : List Bool} (ho : Gmw.xorL o0 o1 = plainFn c inp) {vs : List Node}
    {outs : List (List Sec)} (ht : ∀ t ∈ outs, ∀ x ∈ t, c.gates[x.2]? = some (.base .output))
    (hv : List.Forall₂ (fun v t => ∀ r0 r1, r0.length = t.length → r1.length = t.length →
      (Gmw.xorL r0 r1 = t.map fun x : Sec => plainVal c inp x.2) →
      ∃ e e', evalShare (m.gate? v) r0 = some e ∧ evalShare (m.gate? v) r1 = some e' ∧
        MaskProduct m lam0 lam1 v e e') vs outs) :
    ∃ b0 b1 s0 s1, readOutputs c outs o0 = some b0 ∧ readOutputs c outs o1 = some b1 ∧
      ((vs.zip b0).mapM fun p => evalShare (m.gate? p.1) p.2) = some s0 ∧
      ((vs.zip b1).mapM fun p => evalShare (m.gate? p.1) p.2) = some s1 ∧
      Products m lam0 lam1 vs s0 s1 := by
  induction hv with
  | nil => exact ⟨[], [], [], [], rfl, rfl, rfl, rfl, .nil⟩
  | @cons v t vs outs h1 _ ih =>
    obtain ⟨b0, b1, s0, s1, e0, e1, f0, f1, hp⟩ := ih fun u hu => ht u (List.mem_cons_of_mem _ hu)
    obtain ⟨r0, r1, g0, g1, k0, k1, hx⟩ := read_list h ho t (ht t List.mem_cons_self)
    obtain ⟨e, e', q0, q1, hm⟩ := h1 r0 r1 k0 k1 hx
    refine ⟨r0 :: b0, r1 :: b1, e :: s0, e' :: s1, ?_, ?_, ?_, ?_, .cons hm hp⟩
    · unfold readOutputs at e0 ⊢
      rw [List.mapM_cons, g0, e0]; rfl
    · unfold readOutputs at e1 ⊢
      rw [List.mapM_cons, g1, e1]; rfl
    · rw [List.zip_cons_cons, List.mapM_cons, q0, f0]; rfl
    · rw [List.zip_cons_cons, List.mapM_cons, q1, f1]; rfl

theorem getD_xor (a b : List Bool) (h : b.length = a.length) :
    ((List.range a.length).map fun i => a.getD i false ^^ b.getD i false) = List.zipWith xor a b := by
  refine List.ext_getElem? fun i => ?_
  by_cases hi : i < a.length
  · have hi' : i < b.length := by omega
    simp [hi, hi', List.getElem?_zipWith]
  · rw [List.getElem?_eq_none (by simp; omega), List.getElem?_eq_none (by simp; omega)]

theorem getD_self (a : List Bool) : ((List.range a.length).map fun i => a.getD i false) = a := by
  refine List.ext_getElem? fun i => ?_
  by_cases hi : i < a.length
  · simp [hi]
  · rw [List.getElem?_eq_none (by simp; omega), List.getElem?_eq_none (by omega)]

/-- **C82, the setup data.**  Two parties with masks that have the dimensions of the values run
`AbySetupProvider::setup` with matching multiplication triples.  Under every schedule both finish, and
for every AND gate and every product of matrices they hold shares of the product of the combined
masks of the operands. -/
theorem tensor_setup_products (m : Multi TGate) (rank : Node → Nat) (w : WF m rank) (ls : List MLayer)
    (hls : layers m = some ls) (inp : List PShare) (val : Node → PShare) (hp : PlainEval m inp val)
    (st0 st1 : Store TShare (List TShare))
    (h0 : ∀ v g, m.gate? v = some g → Shape (val v) (maskOf st0 v) ∧ st0.get m v = some (st0.sc v))
    (h1 : ∀ v g, m.gate? v = some g → Shape (val v) (maskOf st1 v) ∧ st1.get m v = some (st1.sc v))
    (triples0 triples1 : Nat → Nat → List Triple)
    (hset : ∀ k n, Matching (triples0 k n) (triples1 k n) ∧ n ≤ (triples0 k n).length)
    (init0 init1 : Store Bool (List Bool)) :
    ∃ s0 s1, Runs (tensorSetup m 0 st0 triples0 init0) (tensorSetup m 1 st1 triples1 init1)
        (Aby2.SetupData.fromRaw s0) (Aby2.SetupData.fromRaw s1) ∧
      Products m (maskOf st0) (maskOf st1) (interactiveNodes m ls) s0 s1 := by
  -- the operands exist
  have hpar : ∀ v g, m.gate? v = some g → ∀ u ∈ m.parents v, ∃ g', m.gate? u = some g' := by
    intro v g hg u hu
    exact (gate_valid m u).1 (parents_valid w v u hu)
  have hint : ∀ v ∈ interactiveNodes m ls, ∃ g, m.gate? v = some g ∧ interactive g = true := by
    intro v hv
    simp only [interactiveNodes, List.mem_filter] at hv
    cases hg : m.gate? v with
    | none => rw [hg] at hv; simp at hv
    | some g => rw [hg] at hv; exact ⟨g, rfl, by simpa using hv.2⟩
  have hfit : ∀ v ∈ interactiveNodes m ls, ∃ g, m.gate? v = some g ∧
      GateFits m (maskOf st0) (maskOf st1) v g := by
    intro v hv
    obtain ⟨g, hg, hi⟩ := hint v hv
    exact ⟨g, hg, gate_fits hg (hp v g hg) hi
      (fun u hu => by obtain ⟨g', hg'⟩ := hpar v g hg u hu; exact (h0 u g' hg').1)
      (fun u hu => by obtain ⟨g', hg'⟩ := hpar v g hg u hu; exact (h1 u g' hg').1)⟩
  have hpar' : ∀ v ∈ interactiveNodes m ls, ∀ u ∈ m.parents v, ∃ g', m.gate? u = some g' := by
    intro v hv u hu
    obtain ⟨g, hg, -⟩ := hint v hv
    exact hpar v g hg u hu
  have hlen : ∀ v ∈ interactiveNodes m ls, ∀ u ∈ m.parents v,
      (maskOf st1 u).flatten.length = (maskOf st0 u).flatten.length := by
    intro v hv
    obtain ⟨g, hg, g', -, -, h, -⟩ := hfit v hv
    exact h
  obtain ⟨c, inputs, outs, e, ok, hs, hil, hout, hval⟩ := setup_circuit m
    (fun p => (maskOf st0 p).flatten.length) (interactiveNodes m ls) (by
      intro v hv
      obtain ⟨g, hg, g', rfl, hf, -⟩ := hfit v hv
      exact ⟨g', hg, hf⟩)
  let lam0 : Node × Nat → Bool := fun p => (maskOf st0 p.1).flatten.getD p.2 false
  let lam1 : Node × Nat → Bool := fun p => (maskOf st1 p.1).flatten.getD p.2 false
  have b0 := buildSetup_map m (mask := names fun p => (maskOf st0 p).flatten.length)
    (mask' := fun p => (st0.get m p).map fun s => s.getPrivate.flatten) lam0 (interactiveNodes m ls)
    (by
      intro v hv u hu
      obtain ⟨g', hg'⟩ := hpar' v hv u hu
      rw [(h0 u g' hg').2]
      simp only [names, Option.map_some, List.map_map, Option.some.injEq]
      exact (getD_self _).symm)
  have b1 := buildSetup_map m (mask := names fun p => (maskOf st0 p).flatten.length)
    (mask' := fun p => (st1.get m p).map fun s => s.getPrivate.flatten) lam1 (interactiveNodes m ls)
    (by
      intro v hv u hu
      obtain ⟨g', hg'⟩ := hpar' v hv u hu
      rw [(h1 u g' hg').2]
      simp only [names, Option.map_some, List.map_map, Option.some.injEq, ← hlen v hv u hu]
      exact (getD_self _).symm)
  rw [e] at b0 b1
  simp only [Option.map_some] at b0 b1
  obtain ⟨ls', o0, o1, -, hx, -, hxor⟩ := gmw_scalar_circuit_correct c ok hs (inputs.map lam0)
    (inputs.map lam1) (inputs.map fun p => lam0 p ^^ lam1 p) (by simp) (by simp)
    (by simp [Gmw.xorL, List.zipWith_map, List.zipWith_self]) (by simp [hil]) triples0 triples1 hset
    init0 init1
  have hv : List.Forall₂ (fun v t => ∀ r0 r1, r0.length = t.length → r1.length = t.length →
      (Gmw.xorL r0 r1 = t.map fun x : Sec => plainVal c (inputs.map fun p => lam0 p ^^ lam1 p) x.2) →
      ∃ e e', evalShare (m.gate? v) r0 = some e ∧ evalShare (m.gate? v) r1 = some e' ∧
        MaskProduct m (maskOf st0) (maskOf st1) v e e') (interactiveNodes m ls) outs := by
    have hval := hval fun p => lam0 p ^^ lam1 p
    rw [List.forall₂_iff_get] at hval ⊢
    refine ⟨hval.1, fun i hi hi' => ?_⟩
    obtain ⟨g1, hg1, hd⟩ := hval.2 i hi hi'
    have hmem : (interactiveNodes m ls).get ⟨i, hi⟩ ∈ interactiveNodes m ls := List.get_mem ..
    generalize (interactiveNodes m ls).get ⟨i, hi⟩ = v at *
    generalize outs.get ⟨i, hi'⟩ = t at *
    obtain ⟨g, hg, g', rfl, -, hl, hk⟩ := hfit v hmem
    rw [hg1] at hg
    have eg : g1 = g' := by injection hg with hg; injection hg
    subst eg
    intro r0 r1 l0 l1 hx
    refine hk _ r0 r1 (?_ : _ = some (t.map fun x : Sec =>
      plainVal c (inputs.map fun p => lam0 p ^^ lam1 p) x.2)) (by simpa using l0) (by simpa using l1) hx
    rw [← hd]
    congr 1
    apply List.map_congr_left
    intro p hp
    exact (getD_xor _ _ (hl p hp)).symm
  obtain ⟨r0, r1, s0, s1, e0, e1, f0, f1, hprod⟩ := read_products ok hxor hout hv
  refine ⟨s0, s1, ?_, hprod⟩
  simp only [tensorSetup, hls, b0, b1]
  refine (exchange_andThen hx ?_ ?_).runs
  · simp only [e0, Option.bind_eq_bind, Option.bind_some]
    rw [f0]; rfl
  · simp only [e1, Option.bind_eq_bind, Option.bind_some]
    rw [f1]; rfl

/-! ### The inputs of both parties -/

theorem rec_symm {a b : TShare} {z : PShare} (h : Rec a b z) : Rec b a z := by
  cases a <;> cases b <;> cases z <;> simp only [Rec] at h ⊢
  · obtain ⟨rfl, rfl⟩ := h
    exact ⟨rfl, by rename_i p q q'; cases p <;> cases q <;> cases q' <;> rfl⟩
  · obtain ⟨rfl, h1, h2, h3, h4, h5⟩ := h
    refine ⟨rfl, h1, h2, h4, h3, fun i j hi hj => ?_⟩
    rw [h5 i j hi hj, Bool.xor_assoc, Bool.xor_assoc]
    congr 1
    exact Bool.xor_comm _ _

theorem merge_map {α β : Type} (f : α → β) (os : List InputBy) (a b : List α) :
    (merge os a b).map f = merge os (a.map f) (b.map f) := by
  induction os generalizing a b with
  | nil => rfl
  | cons o os ih =>
    cases o with
    | p0 => cases a with
      | nil => rfl
      | cons x a => simp only [merge, List.map_cons, ih]
    | p1 => cases b with
      | nil => rfl
      | cons x b => simp only [merge, List.map_cons, ih]

theorem merge_length {α : Type} (os : List InputBy) (a b : List α) (h0 : os.count .p0 = a.length)
    (h1 : os.count .p1 = b.length) : (merge os a b).length = os.length := by
  induction os generalizing a b with
  | nil => rfl
  | cons o os ih =>
    cases o with
    | p0 => cases a with
      | nil => simp at h0
      | cons x a => simp only [merge, List.length_cons]; rw [ih a b (by simpa using h0) (by simpa using h1)]
    | p1 => cases b with
      | nil => simp at h1
      | cons x b => simp only [merge, List.length_cons]; rw [ih a b (by simpa using h0) (by simpa using h1)]

/-- Shares of two lists, in the order of the input gates. -/
theorem merge_rec (os : List InputBy) {a0 a1 b0 b1 : List TShare} {x y : List PShare}
    (h0 : os.count .p0 = x.length) (h1 : os.count .p1 = y.length)
    (la0 : a0.length = x.length) (la1 : a1.length = x.length) (lb0 : b0.length = y.length)
    (lb1 : b1.length = y.length)
    (ha : ∀ (i : Nat) s t z, a0[i]? = some s → a1[i]? = some t → x[i]? = some z → Rec s t z)
    (hb : ∀ (i : Nat) s t z, b0[i]? = some s → b1[i]? = some t → y[i]? = some z → Rec s t z) :
    ∀ (i : Nat) s t z, (merge os a0 b0)[i]? = some s → (merge os a1 b1)[i]? = some t →
      (merge os x y)[i]? = some z → Rec s t z := by
  induction os generalizing a0 a1 b0 b1 x y with
  | nil => intro i s t z h; simp [merge] at h
  | cons o os ih =>
    cases o with
    | p0 =>
      match x, a0, a1, la0, la1 with
      | [], _, _, _, _ => simp at h0
      | u :: x, s0 :: a0, s1 :: a1, la0, la1 =>
        have ih := ih (a0 := a0) (a1 := a1) (b0 := b0) (b1 := b1) (x := x) (y := y)
          (by simpa using h0) (by simpa using h1) (by simpa using la0) (by simpa using la1) lb0 lb1
          (fun i s t z e1 e2 e3 => ha (i + 1) s t z (by simpa using e1) (by simpa using e2) (by simpa using e3)) hb
        intro i s t z e1 e2 e3
        cases i with
        | zero =>
          simp only [merge, List.getElem?_cons_zero] at e1 e2 e3
          exact ha 0 s t z (by simpa using e1) (by simpa using e2) (by simpa using e3)
        | succ i =>
          simp only [merge, List.getElem?_cons_succ] at e1 e2 e3
          exact ih i s t z e1 e2 e3
    | p1 =>
      match y, b0, b1, lb0, lb1 with
      | [], _, _, _, _ => simp at h1
      | u :: y, s0 :: b0, s1 :: b1, lb0, lb1 =>
        have ih := ih (a0 := a0) (a1 := a1) (b0 := b0) (b1 := b1) (x := x) (y := y)
          (by simpa using h0) (by simpa using h1) la0 la1 (by simpa using lb0) (by simpa using lb1) ha
          (fun i s t z e1 e2 e3 => hb (i + 1) s t z (by simpa using e1) (by simpa using e2) (by simpa using e3))
        intro i s t z e1 e2 e3
        cases i with
        | zero =>
          simp only [merge, List.getElem?_cons_zero] at e1 e2 e3
          exact hb 0 s t z (by simpa using e1) (by simpa using e2) (by simpa using e3)
        | succ i =>
          simp only [merge, List.getElem?_cons_succ] at e1 e2 e3
          exact ih i s t z e1 e2 e3

theorem hasDim_sharable {d : List Nat} {x : PShare} (h : HasDim d x) : Sharable x := by
  match d, x, h with
  | [], .scalar _, _ => exact trivial
  | [r, c], .matrix m, h =>
    have h' : IsMat r c m := h
    have := h'
    rw [← h'.1, ← h'.2.1] at this
    exact this

theorem mem_merge {α : Type} (os : List InputBy) (a b : List α) (h0 : os.count .p0 = a.length)
    (h1 : os.count .p1 = b.length) (x : α) (hx : x ∈ a ∨ x ∈ b) : x ∈ merge os a b := by
  induction os generalizing a b with
  | nil =>
    have ea : a = [] := List.length_eq_zero_iff.1 (by simpa using h0.symm)
    have eb : b = [] := List.length_eq_zero_iff.1 (by simpa using h1.symm)
    subst ea eb; simp at hx
  | cons o os ih =>
    cases o with
    | p0 => cases a with
      | nil => simp at h0
      | cons y a =>
        simp only [merge, List.mem_cons] at hx ⊢
        rcases hx with (rfl | hx) | hx
        · exact .inl rfl
        · exact .inr (ih a b (by simpa using h0) (by simpa using h1) (.inl hx))
        · exact .inr (ih a b (by simpa using h0) (by simpa using h1) (.inr hx))
    | p1 => cases b with
      | nil => simp at h1
      | cons y b =>
        simp only [merge, List.mem_cons] at hx ⊢
        rcases hx with hx | (rfl | hx)
        · exact .inr (ih a b (by simpa using h0) (by simpa using h1) (.inl hx))
        · exact .inl rfl
        · exact .inr (ih a b (by simpa using h0) (by simpa using h1) (.inr hx))

/-- The input gates, and that there are no constants. -/
theorem book_gates {m : Multi TGate} {c : Base TGate} (hc : m.circs[0]? = some c) (hb : BookOk c)
    {inp : List PShare} {val : Node → PShare} (hp : PlainEval m inp val) :
    (∀ g ∈ c.inputGates, ∃ d, c.gates[g]? = some (.base .input d)) ∧ c.constantGates = [] := by
  have hgate : ∀ g, m.gate? (0, g) = c.gates[g]? := by intro g; simp [Multi.gate?, hc]
  constructor
  · intro g hg
    rw [hb.inputs] at hg
    obtain ⟨x, h1, h2⟩ := Aby2.mem_positions hg
    rw [h1]
    cases x with
    | base b d => cases b <;> simp [ofKind, GateLike.asBase] at h2 ⊢
    | op g => simp [ofKind, GateLike.asBase] at h2
  · rw [List.eq_nil_iff_forall_not_mem]
    intro g hg
    rw [hb.constants] at hg
    obtain ⟨x, h1, h2⟩ := Aby2.mem_positions hg
    have := hp (0, g) x (by rw [hgate, h1])
    cases x with
    | base b d => cases b <;> simp [ofKind, GateLike.asBase] at h2; exact this
    | op g => simp [ofKind, GateLike.asBase] at h2

theorem inputs_nodup {G : Type} [GateLike G] {c : Base G} (hb : BookOk c) : c.inputGates.Nodup := by
  rw [hb.inputs]
  exact List.Nodup.filter _ List.nodup_range

/-- The plaintext values of the input gates are the inputs. -/
theorem input_values {m : Multi TGate} {c : Base TGate} (hc : m.circs[0]? = some c) (hb : BookOk c)
    {inp : List PShare} {val : Node → PShare} (hp : PlainEval m inp val)
    (hl : inp.length = c.inputGates.length) : (c.inputGates.map fun g => val (0, g)) = inp := by
  have hgate : ∀ g, m.gate? (0, g) = c.gates[g]? := by intro g; simp [Multi.gate?, hc]
  refine List.ext_getElem? fun i => ?_
  by_cases hi : i < c.inputGates.length
  · obtain ⟨d, hd⟩ := (book_gates hc hb hp).1 _ (List.getElem_mem hi)
    obtain ⟨c', j, hc', hj, hv, -⟩ := hp (0, c.inputGates[i]) _ (by rw [hgate, hd])
    rw [hc] at hc'; cases hc'
    rw [List.findIdx?_eq_some_iff_getElem] at hj
    obtain ⟨h1, h2, -⟩ := hj
    have h2' : c.inputGates[j] = c.inputGates[i] := by simpa using h2
    have : j = i := ((inputs_nodup hb).getElem_inj_iff).1 h2'
    subst this
    rw [List.getElem?_map, List.getElem?_eq_getElem hi, hv]
    rfl
  · rw [List.getElem?_eq_none (by simp; omega), List.getElem?_eq_none (by omega)]

/-- The masks of one party's inputs and of the other party's. -/
theorem party_masks {σ : Type} (gen : Gen σ) (m : Multi TGate) (rank : Node → Nat) (w : WF m rank)
    (hns : ∀ i, isSimd m i = false) (c0 : Base TGate) (hc0 : m.circs[0]? = some c0) (hb0 : BookOk c0)
    (os : List InputBy) (owner : Nat → Option InputBy) (ho : c0.inputGates.map owner = os.map some)
    (x0 x1 : List PShare) (hl0 : os.count .p0 = x0.length) (hl1 : os.count .p1 = x1.length)
    (val : Node → PShare) (hp : PlainEval m (merge os x0 x1) val) (ls : List MLayer)
    (hls : layers m = some ls) (ok : LayersOk m ls) (party : Nat) (s : Sharing σ)
    (hs : s.map = fun i => (owner i).map (shareType party)) :
    ∃ st, setupGateOutputs gen m s = some st ∧
      (∀ v g, m.gate? v = some g → MaskEq m (maskOf st) v g ∧ Shape (val v) (maskOf st v)) ∧
      (∀ v, m.Valid v → st.get m v = some (st.sc v)) ∧
      (c0.inputGates.map fun g => maskOf st (0, g)) =
        merge os (drawAll gen x0 (genOf party s .p0)) (drawAll gen x1 (genOf party s .p1)) := by
  obtain ⟨st, e1, e2, e3, e4⟩ := setup_masks gen m rank w hns hp ls hls ok s
  refine ⟨st, e1, e2, e3, ?_⟩
  have hgate : ∀ g, m.gate? (0, g) = c0.gates[g]? := by intro g; simp [Multi.gate?, hc0]
  obtain ⟨hgi, hgc⟩ := book_gates hc0 hb0 hp
  have hol : os.length = c0.inputGates.length := by
    have := congrArg List.length ho; simpa using this.symm
  obtain ⟨rest, hrest⟩ : ∃ rest, iterNodes ls = c0.inputGates.map (fun g => (0, g)) ++ rest := by
    have e1' := hls
    simp only [layers, Option.bind_eq_bind, Option.bind_eq_some_iff] at e1'
    obtain ⟨it, h1, h3⟩ := e1'
    have := Aby2.iter_prefix m c0 hc0 _ it ls h1 h3 (by
      intro v hv
      rw [hgc, List.nil_append] at hv
      obtain ⟨d, hd⟩ := hgi v hv
      exact ⟨_, hd, rfl⟩)
    rwa [hgc, List.nil_append] at this
  obtain ⟨s', st', f1, f2⟩ := e4 _ _ hrest
  have hmask := setupNodes_inputs (val := val) party c0.inputGates os x0 x1 (by
      intro g hg
      obtain ⟨d, hd⟩ := hgi g hg
      have hd' : m.gate? (0, g) = some (.base .input d) := by rw [hgate, hd]
      obtain ⟨_, _, -, -, -, h⟩ := hp (0, g) _ hd'
      exact ⟨d, hd', h⟩) (inputs_nodup hb0) (by
      rw [hs]
      have := congrArg (List.map (Option.map (shareType party))) ho
      simpa [List.map_map, Function.comp_def] using this)
    (input_values hc0 hb0 hp (by rw [merge_length os x0 x1 hl0 hl1, hol])) hl0 hl1 f1
  rw [← hmask]
  apply List.map_congr_left
  intro g hg
  simp only [maskOf]
  rw [f2 (0, g) (List.mem_map.2 ⟨g, hg, rfl⟩)]

/-! ### The whole protocol -/

/-- **C82.**  Two parties run Boolean ABY2 with matrices on a circuit of XOR gates, AND gates and
products of matrices, with sub-circuits.  Each shares its inputs with one call of `share_tensor`, and
the other party reads the message with `plain_delta_to_share_tensor`.  Both derive their masks with
`setup_gate_outputs` and run `AbySetupProvider::setup` with matching multiplication triples, which
finishes under every schedule.  If the calls of `request_setup_output` return its result layer by
layer, then the execution finishes under every schedule too, and the outputs reconstruct to the
plaintext values of the circuit. -/
theorem tensor_two_party_correct {σ : Type} (gen : Gen σ) (m : Multi TGate) (rank : Node → Nat)
    (w : WF m rank) (hw : ExecWF m) (hns : ∀ i, isSimd m i = false) (hb : ∀ c ∈ m.circs, BookOk c)
    (c0 : Base TGate) (hc0 : m.circs[0]? = some c0) (p0 p1 j0 j1 : σ)
    (owner : Nat → Option InputBy) (os : List InputBy) (ho : c0.inputGates.map owner = os.map some)
    (x0 x1 : List PShare) (hl0 : os.count .p0 = x0.length) (hl1 : os.count .p1 = x1.length)
    (val : Node → PShare) (hp : PlainEval m (merge os x0 x1) val)
    (triples0 triples1 : Nat → Nat → List Triple)
    (hset : ∀ k n, Matching (triples0 k n) (triples1 k n) ∧ n ≤ (triples0 k n).length)
    (init0 init1 : Store Bool (List Bool)) :
    ∃ own0 own1 msg0 msg1 other0 other1 st0 st1 d0 d1,
      shareTensor gen x0 p0 j0 = some (own0, msg0) ∧ shareTensor gen x1 p1 j1 = some (own1, msg1) ∧
      plainDeltaToShare gen msg1 j1 = some other0 ∧ plainDeltaToShare gen msg0 j0 = some other1 ∧
      setupGateOutputs gen m ⟨p0, j1, fun i => (owner i).map (shareType 0)⟩ = some st0 ∧
      setupGateOutputs gen m ⟨p1, j0, fun i => (owner i).map (shareType 1)⟩ = some st1 ∧
      Runs (tensorSetup m 0 st0 triples0 init0) (tensorSetup m 1 st1 triples1 init1) d0 d1 ∧
      d0.length = interactiveCount m ∧ d1.length = interactiveCount m ∧
      ∀ setup0 setup1, Answers m d0 setup0 → Answers m d1 setup1 →
        ∃ o0 o1, Runs (execute tensorAby2 m 0 (.scalar (merge os own0 other0)) setup0 st0)
            (execute tensorAby2 m 1 (.scalar (merge os other1 own1)) setup1 st1)
            (.scalar o0) (.scalar o1) ∧
          reconstruct o0 o1 = some (c0.outputGates.map fun g => val (0, g)) := by
  have hb0 : BookOk c0 := hb c0 (List.mem_of_getElem? hc0)
  have hol : os.length = c0.inputGates.length := by
    have := congrArg List.length ho; simpa using this.symm
  have hgate : ∀ g, m.gate? (0, g) = c0.gates[g]? := by intro g; simp [Multi.gate?, hc0]
  obtain ⟨hgi, -⟩ := book_gates hc0 hb0 hp
  have hvals := input_values hc0 hb0 hp (by rw [merge_length os x0 x1 hl0 hl1, hol])
  have hsh : ∀ x, x ∈ x0 ∨ x ∈ x1 → Sharable x := by
    intro x hx
    have hx' := mem_merge os x0 x1 hl0 hl1 x hx
    rw [← hvals, List.mem_map] at hx'
    obtain ⟨g, hg, rfl⟩ := hx'
    obtain ⟨d, hd⟩ := hgi g hg
    obtain ⟨_, _, -, -, -, h⟩ := hp (0, g) _ (by rw [hgate, hd])
    exact hasDim_sharable h
  obtain ⟨own0, other1, msg0, a1, a2, a3, a4, a5, -⟩ :=
    share_tensor_correct gen x0 (fun x hx => hsh x (.inl hx)) p0 j0
  obtain ⟨own1, other0, msg1, b1, b2, b3, b4, b5, -⟩ :=
    share_tensor_correct gen x1 (fun x hx => hsh x (.inr hx)) p1 j1
  obtain ⟨a6, a7⟩ := share_masks gen x0 p0 j0 own0 other1 msg0 a1 a2
  obtain ⟨b6, b7⟩ := share_masks gen x1 p1 j1 own1 other0 msg1 b1 b2
  obtain ⟨it, ls, e1, e2, ok⟩ := layers_ok_partial m rank w
  have hls : layers m = some ls := by simp [layers, e1, e2]
  obtain ⟨st0, g0, g1, g2, g3⟩ := party_masks gen m rank w hns c0 hc0 hb0 os owner ho x0 x1 hl0 hl1
    val hp ls hls ok 0 ⟨p0, j1, fun i => (owner i).map (shareType 0)⟩ rfl
  obtain ⟨st1, k0, k1, k2, k3⟩ := party_masks gen m rank w hns c0 hc0 hb0 os owner ho x0 x1 hl0 hl1
    val hp ls hls ok 1 ⟨p1, j0, fun i => (owner i).map (shareType 1)⟩ rfl
  obtain ⟨s0, s1, hrun, hprod⟩ := tensor_setup_products m rank w ls hls _ val hp st0 st1
    (fun v g hg => ⟨(g1 v g hg).2, g2 v ((gate_valid m v).2 ⟨g, hg⟩)⟩)
    (fun v g hg => ⟨(k1 v g hg).2, k2 v ((gate_valid m v).2 ⟨g, hg⟩)⟩) triples0 triples1 hset init0 init1
  have hcount := Aby2.interactiveCount_eq m ls ok fun c hc => (hb c hc).interactives
  obtain ⟨q0, q1⟩ := products_length hprod
  refine ⟨own0, own1, msg0, msg1, other0, other1, st0, st1, _, _, a1, b1, b2, a2, g0, k0, hrun,
    by rw [hcount, Aby2.SetupData.fromRaw, List.length_reverse, q0],
    by rw [hcount, Aby2.SetupData.fromRaw, List.length_reverse, q1], ?_⟩
  intro setup0 setup1 u0 u1
  have hin : InputShares c0 (maskOf st0) (maskOf st1) (merge os own0 other0) (merge os other1 own1)
      (merge os x0 x1) := by
    refine ⟨?_, ?_, ?_, ?_, ?_⟩
    · rw [merge_length _ _ _ (by rw [a3, hl0]) (by rw [b4, hl1]), hol]
    · rw [merge_length _ _ _ (by rw [a4, hl0]) (by rw [b3, hl1]), hol]
    · exact merge_rec os hl0 hl1 a3 a4 b4 b3 a5
        (fun i s t z e1 e2 e3 => rec_symm (b5 i t s z e2 e1 e3))
    · rw [merge_map, a6, b7, g3]; rfl
    · rw [merge_map, a7, b6, k3]; rfl
  obtain ⟨-, o0, o1, -, -, hr, hrec⟩ := tensor_execute_correct m rank w hw hns c0 hc0 _ _ _
    setup0 setup1 st0 st1 val hp (fun v g hg => (g1 v g hg).1) (fun v g hg => (k1 v g hg).1) hin
    (answers_products hns hls ok hprod u0 u1)
  exact ⟨o0, o1, hr, hrec⟩

end Verif.Tensor
