import Verif.Aby2.Masks
import Verif.Aby2.Sharing
import Verif.Circuit.Build

/-!
C39: setup with the ASTRA helper, and ABY2 from the seeds to the reconstructed outputs.
-/
set_option autoImplicit false

namespace Verif.Aby2

open Gmw (BaseGate)
open Circuit Exec Proc

/-! ### Specification -/

/-- Put the lists of the two parties' inputs together in the order of the input gates. -/
def merge {α : Type} : List InputBy → List α → List α → List α
  | .p0 :: os, a :: as, bs => a :: merge os as bs
  | .p1 :: os, as, b :: bs => b :: merge os as bs
  | _, _, _ => []

/-- The setup function of a party answers the requests of the executor, which come in the order of
the layers, from the data `d`. -/
def Answers {G α : Type} [GateLike G] (m : Multi G) (d : List α) (setup : Nat → Nat → List α) : Prop :=
  ∀ ls, layers m = some ls → ∀ k l, (interactiveLayers m ls)[k]? = some l →
    (requests d ((interactiveLayers m ls).map (intCount m)))[k]? = some (some (setup k (intCount m l)))

/-! ### The AND gates in order -/

theorem interactiveNodes_eq {G : Type} [GateLike G] (m : Multi G) (ls : List MLayer)
    (hl : ∀ l ∈ ls, ∀ v ∈ niNodes l, ∃ g, m.gate? v = some g ∧ interactive g = false)
    (hi : ∀ l ∈ ls, ∀ v ∈ intNodes l, ∃ g, m.gate? v = some g ∧ interactive g = true) :
    interactiveNodes m ls = ls.flatMap intNodes := by
  induction ls with
  | nil => rfl
  | cons l ls ih =>
    have e : iterNodes (l :: ls) = iterLayer l ++ iterNodes ls := by simp [iterNodes, iterLayer]
    have ih' := ih (fun l' h => hl l' (List.mem_cons_of_mem _ h))
      (fun l' h => hi l' (List.mem_cons_of_mem _ h))
    rw [interactiveNodes] at ih' ⊢
    rw [e, List.filter_append, ih', List.flatMap_cons]
    congr 1
    have h1 := hl l List.mem_cons_self
    have h2 := hi l List.mem_cons_self
    clear hl hi ih ih' e
    induction l with
    | nil => rfl
    | cons p l ih =>
      have e1 : niNodes (p :: l) = p.2.ni.map (fun g => (p.1, g)) ++ niNodes l := by
        simp [niNodes]
      have e2 : intNodes (p :: l) = p.2.int.map (fun g => (p.1, g)) ++ intNodes l := by
        simp [intNodes]
      have e3 : iterLayer (p :: l) = p.2.ni.map (fun g => (p.1, g)) ++
          (p.2.int.map (fun g => (p.1, g)) ++ iterLayer l) := by
        simp [iterLayer]
      rw [e1] at h1
      rw [e2] at h2
      rw [e3, e2, List.filter_append, List.filter_append,
        ih (fun v hv => h1 v (List.mem_append_right _ hv))
          (fun v hv => h2 v (List.mem_append_right _ hv)),
        List.filter_eq_nil_iff.2, List.filter_eq_self.2, List.nil_append]
      · intro v hv
        obtain ⟨g, hg, hgi⟩ := h2 v (List.mem_append_left _ hv)
        simp [hg, hgi]
      · intro v hv
        obtain ⟨g, hg, hgi⟩ := h1 v (List.mem_append_left _ hv)
        simp [hg, hgi]

theorem intCount_scalar {G : Type} (m : Multi G) (hns : ∀ i, isSimd m i = false) (l : MLayer) :
    intCount m l = (intScalar m l).length := by
  have hl : ∀ i, lanes m i = 1 := by
    intro i
    have := hns i
    unfold isSimd at this
    unfold lanes
    cases hc : m.circs[i]? with
    | none => rfl
    | some c =>
      rw [hc] at this
      cases hs : c.simdSize with
      | none => simp [hs]
      | some k => simp [hs] at this
  simp only [intCount, intScalar, hl, Nat.one_mul, hns, Bool.not_false, List.filter_true,
    List.length_flatMap, List.length_map]

theorem intScalar_eq {G : Type} (m : Multi G) (hns : ∀ i, isSimd m i = false) (l : MLayer) :
    intScalar m l = intNodes l := by
  unfold intScalar intNodes
  rw [List.filter_eq_self.2 (by intro p _; simp [hns])]

theorem interactiveLayers_flatMap {G : Type} (m : Multi G) (hns : ∀ i, isSimd m i = false)
    (ls : List MLayer) : (interactiveLayers m ls).flatMap (intScalar m) = ls.flatMap intNodes := by
  induction ls with
  | nil => rfl
  | cons l ls ih =>
    unfold interactiveLayers at ih ⊢
    rw [List.filter_cons]
    split
    · rw [List.flatMap_cons, ih, List.flatMap_cons, intScalar_eq m hns]
    · rename_i h
      have h0 : (intScalar m l).length = 0 := by
        rw [← intCount_scalar m hns]; simpa using h
      rw [intScalar_eq m hns] at h0
      rw [ih, List.flatMap_cons, List.length_eq_zero_iff.1 h0, List.nil_append]

theorem products_split {m : Multi Gate} {lam : Node → Bool} (a b : List Node) (s0 s1 : List (List Bool))
    (h : Products m lam (a ++ b) s0 s1) : ∃ a0 a1 b0 b1, s0 = a0 ++ b0 ∧ s1 = a1 ++ b1 ∧
      Products m lam a a0 a1 ∧ Products m lam b b0 b1 := by
  induction a generalizing s0 s1 with
  | nil => exact ⟨[], [], s0, s1, rfl, rfl, .nil, h⟩
  | cons v a ih =>
    cases h with
    | cons h1 h2 h3 =>
      obtain ⟨a0, a1, b0, b1, rfl, rfl, h4, h5⟩ := ih _ _ h3
      exact ⟨_ :: a0, _ :: a1, b0, b1, rfl, rfl, .cons h1 h2 h4, h5⟩

theorem products_length {m : Multi Gate} {lam : Node → Bool} {vs : List Node}
    {s0 s1 : List (List Bool)} (h : Products m lam vs s0 s1) :
    s0.length = vs.length ∧ s1.length = vs.length := by
  induction h with
  | nil => exact ⟨rfl, rfl⟩
  | cons _ _ _ ih => simp [ih.1, ih.2]

theorem products_chunks {m : Multi Gate} {lam : Node → Bool} (xs : List (List Node))
    (s0 s1 : List (List Bool)) (h : Products m lam xs.flatten s0 s1) :
    ∃ p0 p1 : List (List (List Bool)), s0 = p0.flatten ∧ s1 = p1.flatten ∧
      p0.map (·.length) = xs.map (·.length) ∧ p1.map (·.length) = xs.map (·.length) ∧
      ∀ (k : Nat) vs, xs[k]? = some vs → ∃ a0 a1, p0[k]? = some a0 ∧ p1[k]? = some a1 ∧
        Products m lam vs a0 a1 := by
  induction xs generalizing s0 s1 with
  | nil =>
    cases h
    exact ⟨[], [], rfl, rfl, rfl, rfl, by simp⟩
  | cons x xs ih =>
    rw [List.flatten_cons] at h
    obtain ⟨a0, a1, b0, b1, rfl, rfl, h1, h2⟩ := products_split _ _ _ _ h
    obtain ⟨p0, p1, rfl, rfl, l0, l1, hk⟩ := ih _ _ h2
    obtain ⟨m0, m1⟩ := products_length h1
    refine ⟨a0 :: p0, a1 :: p1, by simp, by simp, by simp [l0, m0], by simp [l1, m1], ?_⟩
    intro k vs hv
    cases k with
    | zero => simp only [List.getElem?_cons_zero, Option.some.injEq] at hv; subst hv; exact ⟨a0, a1, rfl, rfl, h1⟩
    | succ k => exact hk k vs (by simpa using hv)

theorem requests_chunks {α : Type} (p : List (List α)) :
    requests (SetupData.fromRaw p.flatten) (p.map (·.length)) = p.map fun a => some a.reverse := by
  induction p with
  | nil => rfl
  | cons a p ih =>
    have : SetupData.splitOffLast (SetupData.fromRaw (a :: p).flatten) a.length =
        some (SetupData.fromRaw p.flatten, a.reverse) := by
      simp only [SetupData.splitOffLast, SetupData.fromRaw, List.flatten_cons, List.reverse_append,
        List.length_append, List.length_reverse]
      rw [if_pos (by omega)]
      have e : p.flatten.length + a.length - a.length = p.flatten.reverse.length := by simp
      rw [e, List.take_left, List.drop_left]
    simp only [List.map_cons, requests, this, ih]

/-- Data for all AND gates in iteration order is handed out layer by layer as C37 requires. -/
theorem answers_products {m : Multi Gate} (hns : ∀ i, isSimd m i = false) {ls : List MLayer}
    (hls : layers m = some ls) (ok : LayersOk m ls) {lam : Node → Bool} {s0 s1 : List (List Bool)}
    (hp : Products m lam (interactiveNodes m ls) s0 s1) {setup0 setup1 : Nat → Nat → SetupData}
    (h0 : Answers m (SetupData.fromRaw s0) setup0) (h1 : Answers m (SetupData.fromRaw s1) setup1) :
    ∀ ls', layers m = some ls' → ∀ k l, (interactiveLayers m ls')[k]? = some l → ∃ s0 s1,
      setup0 k (intCount m l) = s0.reverse ∧ setup1 k (intCount m l) = s1.reverse ∧
      Products m lam (intScalar m l) s0 s1 := by
  intro ls' hls' k l hk
  rw [hls] at hls'; cases hls'
  rw [interactiveNodes_eq m ls ok.local_ ok.inter, ← interactiveLayers_flatMap m hns,
    List.flatMap_def] at hp
  obtain ⟨p0, p1, rfl, rfl, l0, l1, hch⟩ := products_chunks _ _ _ hp
  have hc : (interactiveLayers m ls).map (intCount m) =
      ((interactiveLayers m ls).map (intScalar m)).map (·.length) := by
    rw [List.map_map]
    exact List.map_congr_left fun l _ => intCount_scalar m hns l
  have a0 := h0 ls hls k l hk
  have a1 := h1 ls hls k l hk
  rw [hc, ← l0, requests_chunks] at a0
  rw [hc, ← l1, requests_chunks] at a1
  obtain ⟨x0, x1, e0, e1, hx⟩ := hch k (intScalar m l) (by rw [List.getElem?_map, hk]; rfl)
  rw [List.getElem?_map, e0, Option.map_some, Option.some.injEq, Option.some.injEq] at a0
  rw [List.getElem?_map, e1, Option.map_some, Option.some.injEq, Option.some.injEq] at a1
  exact ⟨x0, x1, a0.symm, a1.symm, hx⟩

/-! ### The helper -/

theorem helperProducts_spec (m : Multi Gate) (lam : Node → Bool) (f : Nat → Bool) (vs : List Node)
    (h : ∀ v ∈ vs, m.gate? v = some (.and 2) ∧ (m.parents v).length = 2) (pos : Nat) :
    ∃ msg, helperProducts m lam ⟨f, pos⟩ vs = some msg ∧
      Products m lam vs ((List.range' pos vs.length).map fun i => [f i]) (msg.map fun b => [b]) := by
  induction vs generalizing pos with
  | nil => exact ⟨[], rfl, .nil⟩
  | cons v vs ih =>
    obtain ⟨hg, hl⟩ := h v List.mem_cons_self
    obtain ⟨msg, e, hp⟩ := ih (fun w hw => h w (List.mem_cons_of_mem _ hw)) (pos + 1)
    obtain ⟨p, q, hpq⟩ : ∃ p q, m.parents v = [p, q] := by
      match hh : m.parents v, hl with
      | [p, q], _ => exact ⟨p, q, rfl⟩
    refine ⟨((lam p && lam q) ^^ f pos) :: msg, ?_, ?_⟩
    · simp only [helperProducts, hg, hpq, Option.bind_eq_bind, Option.bind_some,
        List.getElem?_cons_zero, List.getElem?_cons_succ, Rng.gen]
      rw [e]; rfl
    · rw [List.length_cons, List.range'_succ, List.map_cons, List.map_cons]
      refine .cons hpq ?_ hp
      cases f pos <;> simp

theorem interactiveCount_eq {G : Type} [GateLike G] (m : Multi G) (ls : List MLayer) (ok : LayersOk m ls)
    (hb : ∀ c ∈ m.circs, c.interactiveCount = c.gates.countP fun g => interactive g) :
    interactiveCount m = (interactiveNodes m ls).length := by
  have hperm : (iterNodes ls).Perm (allNodes m) := by
    refine (iterNodes_perm ls).trans ?_
    rw [List.perm_ext_iff_of_nodup ok.once]
    · intro v; rw [ok.all, mem_allNodes]
    · refine nodup_nodesOf _ _ List.nodup_range ?_
      intro i _
      split
      · exact List.nodup_range
      · exact List.nodup_nil
  rw [interactiveNodes, ← List.countP_eq_length_filter, hperm.countP_eq, allNodes, nodesOf,
    List.countP_flatMap, interactiveCount]
  congr 1
  apply List.ext_getElem
  · simp
  · intro i h1 h2
    simp only [List.getElem_map, List.getElem_range, Function.comp_apply]
    have hi : i < m.circs.length := by simpa using h1
    rw [List.getElem?_eq_getElem hi, hb _ (List.getElem_mem hi), List.countP_map]
    have : m.circs[i].gates = (List.range m.circs[i].gates.length).map
        fun g => (m.circs[i].gates[g]?).getD (wrapBase .input) := by
      apply List.ext_getElem
      · simp
      · intro j a b; simp only [List.getElem_map, List.getElem_range, List.getElem?_eq_getElem a, Option.getD_some]
    conv_lhs => rw [this]
    rw [List.countP_map]
    apply List.countP_congr
    intro g hg
    have hg' : g < m.circs[i].gates.length := by simpa using hg
    simp [Multi.gate?, List.getElem?_eq_getElem hi, List.getElem?_eq_getElem hg']

/-- The masks the two parties of a run with the helper hold, and the helper's message. -/
theorem helper_data (m : Multi Gate) (rank : Node → Nat) (w : WF m rank)
    (hns : ∀ i, isSimd m i = false) (har : ∀ v g, m.gate? v = some g → Arity m v g)
    (h2 : ∀ v n, m.gate? v = some (.and n) → n = 2)
    (hb : ∀ c ∈ m.circs, c.interactiveCount = c.gates.countP fun g => interactive g)
    (priv0 priv1 joint : Seed) (owner : Nat → Option InputBy) :
    ∃ ls st0 st1 msg, layers m = some ls ∧ LayersOk m ls ∧
      helperGateOutputs m 0 priv0 joint owner = some st0 ∧
      helperGateOutputs m 1 priv1 joint owner = some st1 ∧
      helperSetup m priv0 priv1 joint owner = some msg ∧
      msg.length = interactiveCount m ∧
      Products m (fun v => maskOf st0 v ^^ maskOf st1 v) (interactiveNodes m ls)
        (astraSetup0 m priv0).reverse (astraSetup1 msg).reverse ∧
      (∀ v g, m.gate? v = some g → MaskEq m (maskOf st0) v g ∧ MaskEq m (maskOf st1) v g) ∧
      (∀ a v b, iterNodes ls = a ++ v :: b → isDraw m v = true →
        maskOf st0 v = drawn m (.new 0 priv0 joint fun i => (owner i).map (shareType 0)) a v ∧
        maskOf st1 v = drawn m (.new 1 priv1 joint fun i => (owner i).map (shareType 1)) a v) := by
  have h2' : ∀ v n, m.gate? v = some (.and n) → 2 ≤ n := fun v n h => by rw [h2 v n h]
  obtain ⟨ls, s0, st0, e1, ok, -, e2, e3, e4⟩ := setup_masks m rank w hns har h2'
    (.new 0 priv0 joint fun i => (owner i).map (shareType 0))
  obtain ⟨ls', s1, st1, e1', -, -, f2, f3, f4⟩ := setup_masks m rank w hns har h2'
    (.new 1 priv1 joint fun i => (owner i).map (shareType 1))
  rw [e1] at e1'; cases e1'
  have g0 : helperGateOutputs m 0 priv0 joint owner = some st0 := by simp [helperGateOutputs, e2]
  have g1 : helperGateOutputs m 1 priv1 joint owner = some st1 := by simp [helperGateOutputs, f2]
  obtain ⟨msg, k1, k2⟩ := helperProducts_spec m (fun v => (st0.sc v).priv ^^ (st1.sc v).priv)
    (priv0 1) (interactiveNodes m ls) (by
      intro v hv
      simp only [interactiveNodes, List.mem_filter] at hv
      obtain ⟨g, hg, hi⟩ : ∃ g, m.gate? v = some g ∧ interactive g = true := by
        cases hg : m.gate? v with
        | none => rw [hg] at hv; simp at hv
        | some g => rw [hg] at hv; exact ⟨g, rfl, by simpa using hv.2⟩
      obtain ⟨n, rfl⟩ := interactive_and hi
      have hn := h2 v n hg
      subst hn
      exact ⟨hg, har v _ hg⟩) 0
  have hlen := (products_length k2).2
  refine ⟨ls, st0, st1, msg, e1, ok, g0, g1, ?_, ?_, ?_, fun v g h => ⟨e3 v g h, f3 v g h⟩,
    fun a v b h hd => ⟨e4 a v b h hd, f4 a v b h hd⟩⟩
  · simp [helperSetup, g0, g1, e1, k1]
  · rw [interactiveCount_eq m ls ok hb]; simpa using hlen
  · simp only [astraSetup0, astraSetup1, SetupData.fromRaw, List.reverse_reverse]
    rw [interactiveCount_eq m ls ok hb, List.range_eq_range']
    exact k2

/-- **C39.**  For every circuit of XOR, NOT and two-input AND gates and all seeds: the helper does
not panic, its message has one bit for each AND gate, and the data of the two parties contain, for
each AND gate in the order of iteration, one bit each, which XOR to the product of the (combined)
masks of the two operands, for the masks the parties themselves derive in `setup_gate_outputs`. -/
theorem astra_products (m : Multi Gate) (rank : Node → Nat) (w : WF m rank)
    (hns : ∀ i, isSimd m i = false) (har : ∀ v g, m.gate? v = some g → Arity m v g)
    (h2 : ∀ v n, m.gate? v = some (.and n) → n = 2)
    (hb : ∀ c ∈ m.circs, c.interactiveCount = c.gates.countP fun g => interactive g)
    (priv0 priv1 joint : Seed) (owner : Nat → Option InputBy) :
    ∃ ls st0 st1 msg, layers m = some ls ∧
      (interactiveNodes m ls).Nodup ∧
      (∀ v, v ∈ interactiveNodes m ls ↔ m.gate? v = some (.and 2)) ∧
      helperGateOutputs m 0 priv0 joint owner = some st0 ∧
      helperGateOutputs m 1 priv1 joint owner = some st1 ∧
      helperSetup m priv0 priv1 joint owner = some msg ∧
      msg.length = (interactiveNodes m ls).length ∧
      ∀ (i : Nat) v, (interactiveNodes m ls)[i]? = some v → ∃ p q a b, m.parents v = [p, q] ∧
        (astraSetup0 m priv0).reverse[i]? = some [a] ∧ (astraSetup1 msg).reverse[i]? = some [b] ∧
        (a ^^ b) = (((st0.sc p).priv ^^ (st1.sc p).priv) && ((st0.sc q).priv ^^ (st1.sc q).priv)) := by
  obtain ⟨ls, st0, st1, msg, e1, ok, g0, g1, h, hlen, hp, -, -⟩ := helper_data m rank w hns har h2 hb
    priv0 priv1 joint owner
  refine ⟨ls, st0, st1, msg, e1, ?_, ?_, g0, g1, h, ?_, ?_⟩
  · exact ((iterNodes_perm ls).nodup_iff.2 ok.once).filter _
  · intro v
    rw [interactiveNodes, List.mem_filter, (iterNodes_perm ls).mem_iff, ok.all]
    constructor
    · rintro ⟨-, hv⟩
      obtain ⟨g, hg, hi⟩ : ∃ g, m.gate? v = some g ∧ interactive g = true := by
        cases hg : m.gate? v with
        | none => rw [hg] at hv; simp at hv
        | some g => rw [hg] at hv; exact ⟨g, rfl, by simpa using hv⟩
      obtain ⟨n, rfl⟩ := interactive_and hi
      rw [hg, h2 v n hg]
    · intro hg
      refine ⟨?_, by simp [hg, GateLike.interactive]⟩
      simp only [Multi.gate?, Option.bind_eq_bind, Option.bind_eq_some_iff] at hg
      obtain ⟨c, hc, hg⟩ := hg
      exact ⟨c, hc, (List.getElem?_eq_some_iff.1 hg).1⟩
  · rw [hlen, interactiveCount_eq m ls ok hb]
  · generalize (astraSetup0 m priv0).reverse = s0 at hp
    generalize (astraSetup1 msg).reverse = s1 at hp
    generalize interactiveNodes m ls = vs at hp
    clear h hlen e1 ok
    induction hp with
    | nil => simp
    | @cons v p q vs a b s0 s1 hpar hab hrest ih =>
      intro i u hu
      cases i with
      | zero =>
        simp only [List.getElem?_cons_zero, Option.some.injEq] at hu
        subst hu
        exact ⟨p, q, a, b, hpar, rfl, rfl, hab⟩
      | succ i => exact ih i u (by simpa using hu)

/-! ### Inputs -/

/-- The masks of the inputs with the given owners, from positions `i` and `j`. -/
def inputMasks (f0 f1 : Nat → Bool) : List InputBy → Nat → Nat → List Bool
  | [], _, _ => []
  | .p0 :: os, i, j => f0 i :: inputMasks f0 f1 os (i + 1) j
  | .p1 :: os, i, j => f1 j :: inputMasks f0 f1 os i (j + 1)

theorem merge_inputs (priv0 priv1 j0 j1 : Nat → Bool) (os : List InputBy) (b0 b1 : List Bool)
    (i j : Nat) (h0 : os.count .p0 = b0.length) (h1 : os.count .p1 = b1.length) :
    let o0 := ownShares priv0 j0 i i b0
    let o1 := ownShares priv1 j1 j j b1
    let x0 := merge os o0 (otherShares j1 j (o1.map (·.pub)))
    let x1 := merge os (otherShares j0 i (o0.map (·.pub))) o1
    x0.length = os.length ∧ x1.length = os.length ∧ reconstruct x0 x1 = some (merge os b0 b1) ∧
      x0.map (·.priv) = inputMasks priv0 j1 os i j ∧ x1.map (·.priv) = inputMasks j0 priv1 os i j := by
  induction os generalizing b0 b1 i j with
  | nil => simp [merge, inputMasks, reconstruct]
  | cons o os ih =>
    cases o with
    | p0 =>
      cases b0 with
      | nil => simp at h0
      | cons b b0 =>
        obtain ⟨i1, i2, i3, i4, i5⟩ := ih b0 b1 (i + 1) j (by simpa using h0) (by simpa using h1)
        simp only [ownShares, List.map_cons, otherShares, merge, List.length_cons, inputMasks,
          reconstruct, if_true]
        refine ⟨by rw [i1], by rw [i2], ?_, by rw [i4], by rw [i5]⟩
        rw [i3]
        simp only [Option.map_some, Option.some.injEq, List.cons.injEq, and_true]
        cases b <;> cases priv0 i <;> cases j0 i <;> rfl
    | p1 =>
      cases b1 with
      | nil => simp at h1
      | cons b b1 =>
        obtain ⟨i1, i2, i3, i4, i5⟩ := ih b0 b1 i (j + 1) (by simpa using h0) (by simpa using h1)
        simp only [ownShares, List.map_cons, otherShares, merge, List.length_cons, inputMasks,
          reconstruct, if_true]
        refine ⟨by rw [i1], by rw [i2], ?_, by rw [i4], by rw [i5]⟩
        rw [i3]
        simp only [Option.map_some, Option.some.injEq, List.cons.injEq, and_true]
        cases b <;> cases priv1 j <;> cases j1 j <;> rfl

theorem mem_positions {G : Type} {p : G → Bool} {gs : List G} {i : Nat} (h : i ∈ positions p gs) :
    ∃ g, gs[i]? = some g ∧ p g = true := by
  simp only [positions, List.mem_filter] at h
  cases hg : gs[i]? with
  | none => rw [hg] at h; simp at h
  | some g => rw [hg] at h; exact ⟨g, rfl, by simpa using h.2⟩

theorem book_gates {c : Base Gate} (hb : BookOk c) :
    (∀ g ∈ c.inputGates, c.gates[g]? = some (.base .input)) ∧
    (∀ g ∈ c.constantGates, ∃ b, c.gates[g]? = some (.base (.constant b))) := by
  constructor
  · intro g hg
    rw [hb.inputs] at hg
    obtain ⟨x, h1, h2⟩ := mem_positions hg
    rw [h1]
    cases x with
    | base b => cases b <;> simp [ofKind, GateLike.asBase] at h2 ⊢
    | _ => simp [ofKind, GateLike.asBase] at h2
  · intro g hg
    rw [hb.constants] at hg
    obtain ⟨x, h1, h2⟩ := mem_positions hg
    rw [h1]
    cases x with
    | base b => cases b <;> simp [ofKind, GateLike.asBase] at h2 ⊢
    | _ => simp [ofKind, GateLike.asBase] at h2

/-- The masks of the input gates. -/
theorem inputs_masks {m : Multi Gate} {c0 : Base Gate} (hc0 : m.circs[0]? = some c0) (hb : BookOk c0)
    (priv0 priv1 joint : Seed) (owner : Nat → Option InputBy) (lam0 lam1 : Node → Bool)
    (rest : List Node)
    (hd : ∀ a v b, (c0.constantGates ++ c0.inputGates).map (fun g => ((0 : Nat), g)) ++ rest =
        a ++ v :: b → isDraw m v = true →
        lam0 v = drawn m (.new 0 priv0 joint fun i => (owner i).map (shareType 0)) a v ∧
        lam1 v = drawn m (.new 1 priv1 joint fun i => (owner i).map (shareType 1)) a v)
    (os : List InputBy) (ho : c0.inputGates.map owner = os.map some) :
    c0.inputGates.map (fun g => lam0 (0, g)) = inputMasks (priv0 0) (joint 1) os 0 0 ∧
    c0.inputGates.map (fun g => lam1 (0, g)) = inputMasks (joint 0) (priv1 0) os 0 0 := by
  obtain ⟨hin, hconst⟩ := book_gates hb
  have hgate : ∀ g, m.gate? (0, g) = c0.gates[g]? := by intro g; simp [Multi.gate?, hc0]
  have hdin : ∀ g ∈ c0.inputGates, isDraw m (0, g) = true := by
    intro g hg; simp [isDraw, hgate, hin g hg]
  have hdc : ∀ g ∈ c0.constantGates, isDraw m (0, g) = false := by
    intro g hg; obtain ⟨b, hb⟩ := hconst g hg; simp [isDraw, hgate, hb]
  -- generalise over a prefix of the inputs
  have main : ∀ (ys pre : List Nat) (os : List InputBy) (i j : Nat), c0.inputGates = pre ++ ys →
      ys.map owner = os.map some → pre.countP (fun g => owner g = some .p0) = i →
      pre.countP (fun g => owner g = some .p1) = j →
      (∀ g ∈ pre, owner g = some .p0 ∨ owner g = some .p1) →
      ys.map (fun g => lam0 (0, g)) = inputMasks (priv0 0) (joint 1) os i j ∧
      ys.map (fun g => lam1 (0, g)) = inputMasks (joint 0) (priv1 0) os i j := by
    intro ys
    induction ys with
    | nil =>
      intro pre os i j _ h _ _ _
      have : os = [] := by simpa using h.symm
      subst this; exact ⟨rfl, rfl⟩
    | cons g ys ih =>
      intro pre os i j hpre hos hi hj hall
      cases os with
      | nil => simp at hos
      | cons o os =>
        simp only [List.map_cons, List.cons.injEq] at hos
        obtain ⟨hog, hos⟩ := hos
        have hg : g ∈ c0.inputGates := by rw [hpre]; simp
        obtain ⟨d0, d1⟩ := hd ((c0.constantGates ++ pre).map fun g => ((0 : Nat), g)) (0, g)
          (ys.map (fun g => ((0 : Nat), g)) ++ rest) (by rw [hpre]; simp) (hdin g hg)
        have cnt : ∀ (q : Node → Bool) (q' : Nat → Bool),
            (∀ x ∈ pre, (isDraw m (0, x) && q (0, x)) = q' x) →
            ((c0.constantGates ++ pre).map fun g => ((0 : Nat), g)).countP
              (fun u => isDraw m u && q u) = pre.countP q' := by
          intro q q' hq
          rw [List.countP_map, List.countP_append]
          have : c0.constantGates.countP ((fun u => isDraw m u && q u) ∘ fun g => ((0 : Nat), g)) = 0 := by
            rw [List.countP_eq_zero]
            intro x hx; simp [hdc x hx]
          rw [this, Nat.zero_add]
          apply List.countP_congr
          intro x hx
          rw [← hq x hx]; rfl
        have hprein : ∀ x ∈ pre, isDraw m (0, x) = true := fun x hx =>
          hdin x (by rw [hpre]; simp [hx])
        obtain ⟨i1, i2⟩ := ih (pre ++ [g]) os (i + if o = .p0 then 1 else 0)
          (j + if o = .p1 then 1 else 0) (by rw [hpre]; simp) hos
          (by rw [List.countP_append, hi, List.countP_singleton, hog]; cases o <;> simp)
          (by rw [List.countP_append, hj, List.countP_singleton, hog]; cases o <;> simp)
          (by
            intro x hx
            rcases List.mem_append.1 hx with hx | hx
            · exact hall x hx
            · rw [List.mem_singleton] at hx; rw [hx, hog]; cases o <;> simp)
        unfold drawn at d0 d1
        rw [cnt _ (fun x => decide (owner x = some .p1)) (by
            intro x hx
            rcases hall x hx with h | h <;>
              simp [hprein x hx, isRemote, DeltaSharing.new, h, shareType]),
          cnt _ (fun x => decide (owner x = some .p0)) (by
            intro x hx
            rcases hall x hx with h | h <;>
              simp [hprein x hx, isRemote, DeltaSharing.new, h, shareType]), hi, hj] at d0
        rw [cnt _ (fun x => decide (owner x = some .p0)) (by
            intro x hx
            rcases hall x hx with h | h <;>
              simp [hprein x hx, isRemote, DeltaSharing.new, h, shareType]),
          cnt _ (fun x => decide (owner x = some .p1)) (by
            intro x hx
            rcases hall x hx with h | h <;>
              simp [hprein x hx, isRemote, DeltaSharing.new, h, shareType]), hi, hj] at d1
        cases o with
        | p0 =>
          simp [isRemote, DeltaSharing.new, hog, shareType] at d0 d1
          simp only [List.map_cons, inputMasks]
          simp at i1 i2
          rw [i1, i2, d0, d1]
          exact ⟨rfl, rfl⟩
        | p1 =>
          simp [isRemote, DeltaSharing.new, hog, shareType] at d0 d1
          simp only [List.map_cons, inputMasks]
          simp at i1 i2
          rw [i1, i2, d0, d1]
          exact ⟨rfl, rfl⟩
  exact main c0.inputGates [] os 0 0 rfl ho rfl rfl (by simp)

/-- **C37 and C39 together.**  Two parties and a helper run ABY2 on a circuit of XOR, NOT, constant
and two-input AND gates with sub-circuits.  `owner` says (by gate id) which party provides an input.
The parties share their inputs by any calls of `share` and `plain_delta_to_share`, as in C36, derive
their masks with `setup_gate_outputs` from the seeds, and take the data for the AND gates from the
seed shared with the helper and from the helper's message.  Then the setup of all three succeeds,
and under every schedule the execution finishes and the outputs reconstruct to the plaintext values
of the circuit on the inputs. -/
theorem astra_execute_correct (m : Multi Gate) (rank : Node → Nat) (w : WF m rank) (hw : ExecWF m)
    (hns : ∀ i, isSimd m i = false) (h2 : ∀ v n, m.gate? v = some (.and n) → n = 2)
    (hb : ∀ c ∈ m.circs, BookOk c) (c0 : Base Gate) (hc0 : m.circs[0]? = some c0)
    (priv0 priv1 joint : Seed) (owner : Nat → Option InputBy) (os : List InputBy)
    (ho : c0.inputGates.map owner = os.map some) (map0 map1 : Nat → Option ShareType)
    (ops0 ops1 : List Op)
    (h01 : (run (.new 1 priv1 joint map1) ops1).received = (run (.new 0 priv0 joint map0) ops0).sent)
    (h10 : (run (.new 0 priv0 joint map0) ops0).received = (run (.new 1 priv1 joint map1) ops1).sent)
    (hl0 : os.count .p0 = (run (.new 0 priv0 joint map0) ops0).bits.length)
    (hl1 : os.count .p1 = (run (.new 1 priv1 joint map1) ops1).bits.length) (val : Node → Bool)
    (hp : PlainEval m (merge os (run (.new 0 priv0 joint map0) ops0).bits
      (run (.new 1 priv1 joint map1) ops1).bits) val) :
    let t0 := run (.new 0 priv0 joint map0) ops0
    let t1 := run (.new 1 priv1 joint map1) ops1
    ∃ st0 st1 msg, helperGateOutputs m 0 priv0 joint owner = some st0 ∧
      helperGateOutputs m 1 priv1 joint owner = some st1 ∧
      helperSetup m priv0 priv1 joint owner = some msg ∧
      ∀ setup0 setup1, Answers m (astraSetup0 m priv0) setup0 → Answers m (astraSetup1 msg) setup1 →
        ∃ o0 o1, Runs (execute aby2 m 0 (.scalar (merge os t0.own t0.other)) setup0 st0)
            (execute aby2 m 1 (.scalar (merge os t1.other t1.own)) setup1 st1)
            (.scalar o0) (.scalar o1) ∧
          reconstruct o0 o1 = some (c0.outputGates.map fun g => val (0, g)) := by
  intro t0 t1
  have har : ∀ v g, m.gate? v = some g → Arity m v g := fun v g hg => arity_of_gateEq (hp v g hg)
  have hb0 : BookOk c0 := hb c0 (List.mem_of_getElem? hc0)
  obtain ⟨ls, st0, st1, msg, e1, ok, g0, g1, hh, hlen, hprod, hmask, hdraw⟩ :=
    helper_data m rank w hns har h2 (fun c hc => (hb c hc).interactives) priv0 priv1 joint owner
  obtain ⟨hgi, hgc⟩ := book_gates hb0
  obtain ⟨rest, hrest⟩ : ∃ rest, iterNodes ls =
      (c0.constantGates ++ c0.inputGates).map (fun g => (0, g)) ++ rest := by
    simp only [layers, Option.bind_eq_bind, Option.bind_eq_some_iff] at e1
    obtain ⟨it, h1, h3⟩ := e1
    refine iter_prefix m c0 hc0 _ it ls h1 h3 ?_
    intro v hv
    rcases List.mem_append.1 hv with hv | hv
    · obtain ⟨b, hb⟩ := hgc v hv; exact ⟨_, hb, rfl⟩
    · exact ⟨_, hgi v hv, rfl⟩
  rw [hrest] at hdraw
  obtain ⟨m0, m1⟩ := inputs_masks hc0 hb0 priv0 priv1 joint owner (maskOf st0) (maskOf st1) rest
    hdraw os ho
  obtain ⟨a1, a2, a3⟩ := run_spec (.new 0 priv0 joint map0) ops0
  obtain ⟨b1, b2, b3⟩ := run_spec (.new 1 priv1 joint map1) ops1
  have c1' : t1.other = otherShares (joint 0) 0 (t0.own.map (·.pub)) := by
    rw [← a2, ← h01]; exact b3
  have c0' : t0.other = otherShares (joint 1) 0 (t1.own.map (·.pub)) := by
    rw [← b2, ← h10]; exact a3
  have d0 : t0.own = ownShares (priv0 0) (joint 0) 0 0 t0.bits := a1
  have d1 : t1.own = ownShares (priv1 0) (joint 1) 0 0 t1.bits := b1
  obtain ⟨q1, q2, q3, q4, q5⟩ := merge_inputs (priv0 0) (priv1 0) (joint 0) (joint 1) os t0.bits
    t1.bits 0 0 hl0 hl1
  rw [← d0, ← d1, ← c0', ← c1'] at q3
  rw [← d0, ← d1, ← c0'] at q1 q4
  rw [← d0, ← d1, ← c1'] at q2 q5
  have hol : os.length = c0.inputGates.length := by
    have := congrArg List.length ho; simpa using this.symm
  refine ⟨st0, st1, msg, g0, g1, hh, ?_⟩
  intro setup0 setup1 s0 s1
  have hin : InputShares c0 (maskOf st0) (maskOf st1) (merge os t0.own t0.other)
      (merge os t1.other t1.own) (merge os t0.bits t1.bits) :=
    ⟨by rw [q1, hol], by rw [q2, hol], q3, by rw [q4, m0], by rw [q5, m1]⟩
  obtain ⟨-, o0, o1, -, -, hr, -, -, -, hrec⟩ := aby2_execute_correct m rank w hw hns h2 c0 hc0 _ _ _
    setup0 setup1 st0 st1 val hp (fun v g hg => (hmask v g hg).1) (fun v g hg => (hmask v g hg).2) hin
    (answers_products hns e1 ok hprod
      (by rw [SetupData.fromRaw, List.reverse_reverse]; exact s0)
      (by rw [SetupData.fromRaw, List.reverse_reverse]; exact s1))
  exact ⟨o0, o1, hr, hrec⟩

end Verif.Aby2
