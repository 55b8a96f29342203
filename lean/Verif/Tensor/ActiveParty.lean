import Verif.Tensor.ActiveInputs
import Verif.Tensor.TwoParty

/-!
C101: the masks that `setup_gate_outputs` draws are those of `tensor_inputs_hidden`.
-/
set_option autoImplicit false

namespace Verif.Tensor

open Gmw (BaseGate)
open Bitmat
open Circuit Exec Proc
open Aby2 (pop merge InputBy ShareType layers iterNodes)

/-! ### Specification -/

/-- Inputs of the kinds of the input gates of a party. -/
def InputsFor (m : Multi TGate) (gs : List Nat) (xs : List PShare) : Prop :=
  List.Forall₂ (fun g x => ∃ d, m.gate? (0, g) = some (.base .input d) ∧ HasDim d x) gs xs

/-- What a party draws from its private generator: a value for each of its inputs, then a mask for each interactive gate. -/
def Tapes (m : Multi TGate) (ls : List MLayer) (xs : List PShare) : Set (List PShare) :=
  {t | ∃ p ∈ Shapes xs, ∃ x, FitL (LayerMasks m) m ls x ∧ t = p ++ x.flatten}

/-- The number of interactive gates before the `k`-th layer that has any. -/
def gatesBefore (m : Multi TGate) (ls : List MLayer) (k : Nat) : Nat :=
  (((interactiveLayers m ls).take k).flatMap (intScalar m)).length

/-! ### What is drawn -/

/-- The gates that draw from the private generator. -/
def drawsPriv (m : Multi TGate) (map : Nat → Option ShareType) (v : Node) : Bool :=
  decide (map v.2 ≠ some .remote) && match m.gate? v with
    | some (.base .input _) | some (.op .and2) | some (.op (.matMult _ _)) => true
    | _ => false

/-- What fits a gate that draws. -/
def DrawFits (m : Multi TGate) (v : Node) (q : PShare) : Prop :=
  ∃ g, m.gate? v = some g ∧ match g with
    | .base .input d => HasDim d q
    | .op g => MaskFor g q
    | _ => False

theorem setupNode_tape {m : Multi TGate} {s s' : Sharing (List PShare)} {st st' : Store TShare (List TShare)} {v : Node}
    (h : setupNode tape m s st v = some (s', st')) :
    s'.map = s.map ∧ st'.set = (fun u => if u = v then true else st.set u) ∧
    (drawsPriv m s.map v = false → s'.priv = s.priv) ∧
    (drawsPriv m s.map v = true → ∀ q T, s.priv = q :: T → DrawFits m v q → s'.priv = T ∧ st'.sc v = hidden q) := by
  have hput : ∀ {o : TShare} {st1 : Store TShare (List TShare)}, st.put m v o = some st1 →
      st1.set = fun u => if u = v then true else st.set u := by
    intro o st1 h
    unfold Store.put at h
    split at h
    · cases h
    · cases h; rfl
  rw [setupNode_select] at h
  split at h
  · rename_i hrem
    simp only [Option.bind_eq_bind, Option.bind_eq_some_iff, Option.pure_def, Option.some.injEq, Prod.mk.injEq] at h
    obtain ⟨g, -, xs, -, ⟨o, r⟩, -, st1, h1, rfl, rfl⟩ := h
    refine ⟨rfl, hput h1, fun _ => rfl, fun hd => ?_⟩
    simp [drawsPriv, hrem] at hd
  · rename_i hrem
    simp only [Option.bind_eq_bind, Option.bind_eq_some_iff, Option.pure_def, Option.some.injEq, Prod.mk.injEq] at h
    obtain ⟨g, hg, xs, -, ⟨o, r⟩, ho, st1, h1, rfl, rfl⟩ := h
    refine ⟨rfl, hput h1, fun hd => ?_, fun hd q T hp hf => ?_⟩
    · simp only [drawsPriv, ne_eq, hrem, not_false_eq_true, decide_true, Bool.true_and, hg] at hd
      show r = s.priv
      cases g with
      | base b d =>
        cases b <;> simp only [reduceCtorEq] at hd <;>
          simp only [setupOutputShare, Option.bind_eq_bind, Option.bind_eq_some_iff, Option.some.injEq, Prod.mk.injEq,
            reduceCtorEq] at ho
        all_goals
          obtain ⟨a, -, -, rfl⟩ := ho
          rfl
      | op g =>
        cases g <;> simp only [reduceCtorEq] at hd
        · simp only [setupOutputShare, setupOutput] at ho
          split at ho
          · cases ho; rfl
          · cases ho
        · cases ho
    · rw [(put_other h1).2]
      show r = T ∧ o = hidden q
      obtain ⟨g', hg', hf⟩ := hf
      rw [hg] at hg'
      cases hg'
      rw [hp] at ho
      cases g with
      | base b d =>
        cases b <;> simp only at hf
        match d, q, hf with
        | [], .scalar b, _ =>
          simp only [setupOutputShare, tape, Option.some.injEq, Prod.mk.injEq] at ho
          exact ⟨ho.2.symm, ho.1.symm⟩
        | [a, b], .matrix z, hz =>
          have hz' : IsMat a b z := hz
          rw [setupOutputShare, tape_random hz'] at ho
          simp only [Option.bind_eq_bind, Option.bind_some, Option.some.injEq, Prod.mk.injEq] at ho
          exact ⟨ho.2.symm, ho.1.symm⟩
      | op g =>
        cases g with
        | xor => simp [drawsPriv, hg] at hd
        | inv => simp [drawsPriv, hg] at hd
        | and2 =>
          cases q <;> simp only [MaskFor] at hf
          simp only [setupOutputShare, setupOutput, tape, Option.some.injEq, Prod.mk.injEq] at ho
          exact ⟨ho.2.symm, ho.1.symm⟩
        | matMult a b =>
          cases q <;> simp only [MaskFor] at hf
          simp only [setupOutputShare, setupOutput, tape_random hf] at ho
          split at ho
          · split at ho
            · simp only [Option.bind_eq_bind, Option.bind_some, Option.some.injEq, Prod.mk.injEq] at ho
              exact ⟨ho.2.symm, ho.1.symm⟩
            · cases ho
          · cases ho

theorem setupNodes_tape {m : Multi TGate} : ∀ (vs : List Node) {s s' : Sharing (List PShare)}
    {st st' : Store TShare (List TShare)}, setupNodes tape m s st vs = some (s', st') → vs.Nodup →
    ∀ {D T : List PShare}, s.priv = D ++ T → List.Forall₂ (DrawFits m) (vs.filter (drawsPriv m s.map)) D →
    (vs.filter (drawsPriv m s.map)).map st'.sc = D.map hidden ∧
    st'.set = fun u => if u ∈ vs then true else st.set u := by
  intro vs
  induction vs with
  | nil => intro s s' st st' h _ D T _ hD; cases h; cases hD; exact ⟨rfl, by simp⟩
  | cons v vs ih =>
    intro s s' st st' h hn D T hp hD
    rw [List.nodup_cons] at hn
    simp only [setupNodes, Option.bind_eq_bind, Option.bind_eq_some_iff] at h
    obtain ⟨⟨s1, st1⟩, h1, h2⟩ := h
    obtain ⟨a1, a2, a3, a4⟩ := setupNode_tape h1
    have hset : ∀ (f : Node → Bool), (f = fun u => if u ∈ vs then true else st1.set u) →
        f = fun u => if u ∈ v :: vs then true else st.set u := by
      rintro f rfl
      funext u
      rw [a2]
      by_cases hu : u ∈ vs
      · simp [hu]
      · by_cases hv : u = v <;> simp [hu, hv]
    cases hd : drawsPriv m s.map v with
    | false =>
      rw [List.filter_cons_of_neg (by simp [hd])] at hD ⊢
      have := ih h2 hn.2 (D := D) (T := T) (by rw [a3 hd, hp]) (by rw [a1]; exact hD)
      rw [a1] at this
      exact ⟨this.1, hset _ this.2⟩
    | true =>
      rw [List.filter_cons_of_pos hd] at hD ⊢
      cases hD with
      | @cons _ q _ D hq hD =>
        obtain ⟨b1, b2⟩ := a4 hd q (D ++ T) (by rw [hp]; rfl) hq
        have := ih h2 hn.2 (D := D) (T := T) b1 (by rw [a1]; exact hD)
        rw [a1] at this
        refine ⟨?_, hset _ this.2⟩
        rw [List.map_cons, List.map_cons, this.1, setupNodes_other vs h2 v hn.1, b2]

/-! ### Lists -/

theorem split_masks {A : Type} (f : Node → TShare) (V : A → List Node) : ∀ (Ls : List A) (x : List (List PShare)),
    List.Forall₂ (fun l a => (V l).length = a.length) Ls x → (Ls.flatMap V).map f = x.flatten.map hidden →
    ∀ k l, Ls[k]? = some l → (V l).map f = (x.getD k []).map hidden := by
  intro Ls
  induction Ls with
  | nil => intro x _ _ k l h; simp at h
  | cons l0 Ls ih =>
    intro x hx h k l hk
    cases hx with
    | @cons _ a _ x h0 ht =>
      rw [List.flatMap_cons, List.flatten_cons, List.map_append, List.map_append] at h
      obtain ⟨h1, h2⟩ := List.append_inj h (by simpa using h0)
      cases k with
      | zero => simp only [List.getElem?_cons_zero, Option.some.injEq] at hk; subst hk; simpa using h1
      | succ k => simpa using ih x ht h2 k l (by simpa using hk)

theorem int_flat {m : Multi TGate} (hns : ∀ i, isSimd m i = false) : ∀ ls : List MLayer,
    (interactiveLayers m ls).flatMap (intScalar m) = ls.flatMap intNodes := by
  have hsc : ∀ l, intScalar m l = intNodes l := by
    intro l
    simp only [intScalar, intNodes]
    rw [List.filter_eq_self.2 (by intro p _; simp [hns])]
  intro ls
  induction ls with
  | nil => rfl
  | cons l ls ih =>
    by_cases hc : intCount m l ≠ 0
    · simp only [interactiveLayers, List.filter_cons, decide_eq_true hc, if_true, List.flatMap_cons, hsc]
      rw [← ih]; rfl
    · have : intNodes l = [] := by
        exact intNodes_nil hns (by omega)
      simp only [interactiveLayers, List.filter_cons, decide_eq_false hc, List.flatMap_cons, this, List.nil_append]
      exact ih

theorem share_append : ∀ (xs : List PShare) {p : List PShare}, p ∈ Shapes xs → ∀ (t j : List PShare),
    shareTensor tape xs (p ++ t) j = shareTensor tape xs p j := by
  intro xs
  induction xs with
  | nil => intro p hp t j; cases hp; rfl
  | cons x xs ih =>
    intro p hp t j
    cases hp with
    | @cons _ q _ p hq hp =>
      cases x <;> cases q <;> simp only [SameShape] at hq
      · simp only [shareTensor, tape, List.cons_append] at ih ⊢
        rw [ih hp]
      · simp only [shareTensor, List.cons_append, tape_random hq, Option.bind_eq_bind, Option.bind_some, ih hp]

theorem dim_shape {d : List Nat} {x q : PShare} (hx : HasDim d x) : SameShape x q ↔ HasDim d q := by
  match d, x, hx with
  | [], .scalar _, _ => cases q <;> simp [SameShape, HasDim]
  | [r, c], .matrix z, hz =>
    have hz' : IsMat r c z := hz
    cases q <;> simp [SameShape, HasDim, hz'.1, hz'.2.1]

theorem inputs_fit {m : Multi TGate} {gs : List Nat} {xs : List PShare} (h : InputsFor m gs xs) : ∀ {p : List PShare},
    p ∈ Shapes xs → List.Forall₂ (DrawFits m) (gs.map fun g => (0, g)) p := by
  induction h with
  | nil => intro p hp; cases hp; exact .nil
  | cons h _ ih =>
    intro p hp
    cases hp with
    | cons hq hp =>
      obtain ⟨d, hd, hx⟩ := h
      exact .cons ⟨_, hd, (dim_shape hx).1 hq⟩ (ih hp)

theorem inputs_shape {m : Multi TGate} {gs : List Nat} {xs ys : List PShare} (h : InputsFor m gs xs)
    (h' : InputsFor m gs ys) : List.Forall₂ SameShape xs ys ∧ ∀ x ∈ xs, Sharable x := by
  induction h generalizing ys with
  | nil => cases h'; exact ⟨.nil, by simp⟩
  | cons h _ ih =>
    cases h' with
    | cons h0 ht =>
      obtain ⟨d, hd, hx⟩ := h
      obtain ⟨d', hd', hy⟩ := h0
      rw [hd] at hd'
      cases hd'
      obtain ⟨i1, i2⟩ := ih ht
      refine ⟨.cons ((dim_shape hx).2 hy) i1, fun x hx' => ?_⟩
      rcases List.mem_cons.1 hx' with rfl | hx'
      · exact hasDim_sharable hx
      · exact i2 x hx'

theorem masks_fit {m : Multi TGate} : ∀ {Ls : List MLayer} {x : List (List PShare)},
    List.Forall₂ (fun l a => a ∈ LayerMasks m l) Ls x → List.Forall₂ (DrawFits m) (Ls.flatMap (intScalar m)) x.flatten := by
  intro Ls
  induction Ls with
  | nil => intro x h; cases h; exact .nil
  | cons l Ls ih =>
    intro x h
    cases h with
    | cons h0 ht =>
      rw [List.flatMap_cons, List.flatten_cons]
      refine List.rel_append (h0.imp ?_) (ih ht)
      rintro v o ⟨g, hg, hm⟩
      exact ⟨_, hg, hm⟩

/-- The prepared gate outputs of a party with the tape `p ++ x.flatten` hold the masks `x`. -/
theorem setup_holds (m : Multi TGate) (rank : Node → Nat) (w : WF m rank) (hns : ∀ i, isSimd m i = false)
    {inp : List PShare} {val : Node → PShare} (hp : PlainEval m inp val) (c0 : Base TGate) (hc0 : m.circs[0]? = some c0)
    (hb0 : BookOk c0) (hin : ∀ v d, m.gate? v = some (.base .input d) → v.1 = 0) (map : Nat → Option ShareType)
    (hand : ∀ v g, m.gate? v = some g → interactive g = true → map v.2 ≠ some .remote) {ls : List MLayer}
    (hls : layers m = some ls) (xs : List PShare)
    (hxs : InputsFor m (c0.inputGates.filter fun g => map g ≠ some .remote) xs) (p : List PShare) (hpx : p ∈ Shapes xs)
    (x : List (List PShare)) (hx : FitL (LayerMasks m) m ls x) (jr : List PShare) :
    ∃ st, setupGateOutputs tape m ⟨p ++ x.flatten, jr, map⟩ = some st ∧
      st.set = (fun u => decide (u ∈ iterNodes ls)) ∧ HoldsMasks m ls (fun x => x.map hidden) [] x st := by
  obtain ⟨it, ls', e1, e2, ok⟩ := layers_ok_partial m rank w
  have : ls = ls' := by simpa [layers, e1, e2] using hls.symm
  subst this
  obtain ⟨st, f1, -, -, -⟩ := setup_masks tape m rank w hns hp ls hls ok ⟨p ++ x.flatten, jr, map⟩
  refine ⟨st, f1, ?_⟩
  obtain ⟨hgi, hgc⟩ := book_gates hc0 hb0 hp
  obtain ⟨rest, hrest⟩ : ∃ rest, iterNodes ls = c0.inputGates.map (fun g => (0, g)) ++ rest := by
    have := Aby2.iter_prefix m c0 hc0 _ it ls e1 e2 (by
      intro v hv
      rw [hgc, List.nil_append] at hv
      obtain ⟨d, hd⟩ := hgi v hv
      exact ⟨_, hd, rfl⟩)
    rwa [hgc, List.nil_append] at this
  have hnd : (iterNodes ls).Nodup := (Aby2.iterNodes_perm ls).nodup_iff.2 ok.once
  have hgate : ∀ g, m.gate? (0, g) = c0.gates[g]? := by intro g; simp [Multi.gate?, hc0]
  -- the gates that draw are the own inputs and the interactive gates
  have hint : Aby2.interactiveNodes m ls = ls.flatMap intNodes := Aby2.interactiveNodes_eq m ls ok.local_ ok.inter
  have hdraw : (iterNodes ls).filter (drawsPriv m map) =
      (c0.inputGates.filter fun g => map g ≠ some .remote).map (fun g => (0, g)) ++
        (interactiveLayers m ls).flatMap (intScalar m) := by
    rw [int_flat hns, ← hint, Aby2.interactiveNodes, hrest, List.filter_append, List.filter_append]
    have h1 : (c0.inputGates.map fun g => ((0, g) : Node)).filter (fun v => (m.gate? v).any fun g => interactive g) = [] := by
      rw [List.filter_eq_nil_iff]
      intro v hv
      rw [List.mem_map] at hv
      obtain ⟨g, hg, rfl⟩ := hv
      obtain ⟨d, hd⟩ := hgi g hg
      rw [hgate, hd]
      simp [GateLike.interactive]
    rw [h1, List.nil_append]
    congr 1
    · rw [List.filter_map]
      congr 1
      apply List.filter_congr
      intro g hg
      obtain ⟨d, hd⟩ := hgi g hg
      simp [drawsPriv, hgate, hd]
    · apply List.filter_congr
      intro v hv
      have hv' : v ∈ iterNodes ls := by rw [hrest]; exact List.mem_append_right _ hv
      obtain ⟨g, hg⟩ := (gate_valid m v).1 ((ok.all v).1 ((Aby2.iterNodes_perm ls).mem_iff.1 hv'))
      have hno : ∀ d, g ≠ .base .input d := by
        rintro d rfl
        have h0 := hin v d hg
        have hg' := hg
        rw [show v = (0, v.2) from Prod.ext h0 rfl, hgate] at hg'
        have hm : v.2 ∈ c0.inputGates := by
          rw [hb0.inputs]
          exact (mem_positions' _ _ _).2 ⟨_, hg', rfl⟩
        rw [hrest, List.nodup_append'] at hnd
        exact hnd.2.2 (List.mem_map.2 ⟨v.2, hm, (Prod.ext h0 rfl : v = (0, v.2)).symm⟩) hv
      have hi := hand v g hg
      cases g with
      | base b d =>
        cases b <;> first | exact absurd rfl (hno d) | simp [drawsPriv, hg, GateLike.interactive]
      | op g =>
        cases g with
        | xor => simp [drawsPriv, hg, GateLike.interactive]
        | inv => simp [drawsPriv, hg, GateLike.interactive]
        | and2 => simp [drawsPriv, hg, GateLike.interactive, hi rfl]
        | matMult => simp [drawsPriv, hg, GateLike.interactive, hi rfl]
  have f1' := f1
  simp only [setupGateOutputs, hls, Option.bind_eq_bind, Option.bind_some] at f1'
  split at f1'
  swap
  · cases f1'
  simp only [Option.map_eq_some_iff] at f1'
  obtain ⟨⟨s', st'⟩, g1, rfl⟩ := f1'
  have hfit : List.Forall₂ (DrawFits m) ((iterNodes ls).filter (drawsPriv m map)) (p ++ x.flatten) := by
    rw [hdraw]
    exact List.rel_append (inputs_fit hxs hpx) (masks_fit hx)
  obtain ⟨h1, h2⟩ := setupNodes_tape (iterNodes ls) g1 hnd (D := p ++ x.flatten) (T := []) (by simp) hfit
  simp only at h1
  rw [hdraw, List.map_append, List.map_append] at h1
  have hlen : (c0.inputGates.filter fun g => map g ≠ some .remote).length = p.length := by
    have := (inputs_fit hxs hpx).length_eq
    simpa using this
  obtain ⟨-, h3⟩ := List.append_inj h1 (by simpa using hlen)
  refine ⟨?_, split_masks st'.sc (intScalar m) _ x (hx.imp fun l a ha => List.Forall₂.length_eq ha) h3⟩
  rw [h2]
  funext u
  by_cases hu : u ∈ iterNodes ls <;> simp [hu, emptyStore]

/-! ### Property -/

theorem tapes_inj {m : Multi TGate} {xs : List PShare} {Ls : List MLayer} {p p' : List PShare} {x x' : List (List PShare)}
    (hp : p ∈ Shapes xs) (hp' : p' ∈ Shapes xs) (hx : List.Forall₂ (fun l a => a ∈ LayerMasks m l) Ls x)
    (hx' : List.Forall₂ (fun l a => a ∈ LayerMasks m l) Ls x') (h : p ++ x.flatten = p' ++ x'.flatten) : p = p' ∧ x = x' := by
  obtain ⟨h1, h2⟩ := List.append_inj h (by rw [← List.Forall₂.length_eq hp, ← List.Forall₂.length_eq hp'])
  refine ⟨h1, ?_⟩
  clear h h1
  induction hx generalizing x' with
  | nil => cases hx'; rfl
  | cons h0 _ ih =>
    cases hx' with
    | cons h0' ht' =>
      rw [List.flatten_cons, List.flatten_cons] at h2
      obtain ⟨a, b⟩ := List.append_inj h2 (by rw [← List.Forall₂.length_eq h0, ← List.Forall₂.length_eq h0'])
      rw [a, ih ht' b]

theorem pre_length {m : Multi TGate} {ls : List MLayer} {a : List (List PShare)} (h : FitPre (LayerMasks m) m ls a) :
    a.flatten.length = gatesBefore m ls a.length := by
  have : ∀ {Ls : List MLayer} {a : List (List PShare)}, List.Forall₂ (fun l a => a ∈ LayerMasks m l) Ls a →
      a.flatten.length = (Ls.flatMap (intScalar m)).length := by
    intro Ls a h
    induction h with
    | nil => rfl
    | cons h0 _ ih => rw [List.flatten_cons, List.flatMap_cons, List.length_append, List.length_append, ih, List.Forall₂.length_eq h0]
  exact this h

theorem take_tape {m : Multi TGate} {xs : List PShare} {ls : List MLayer} {p : List PShare} {x : List (List PShare)}
    (hp : p ∈ Shapes xs) (hx : FitL (LayerMasks m) m ls x) (k : Nat) :
    (p ++ x.flatten).take (xs.length + gatesBefore m ls k) = p ++ (x.take k).flatten := by
  rw [List.Forall₂.length_eq hp, List.take_length_add_append]
  congr 1
  have : ∀ {Ls : List MLayer} {x : List (List PShare)}, List.Forall₂ (fun l a => a ∈ LayerMasks m l) Ls x → ∀ k,
      x.flatten.take ((Ls.take k).flatMap (intScalar m)).length = (x.take k).flatten := by
    intro Ls x h
    induction h with
    | nil => intro k; simp
    | cons h0 _ ih =>
      intro k
      cases k with
      | zero => simp
      | succ k =>
        rw [List.take_succ_cons, List.take_succ_cons, List.flatMap_cons, List.flatten_cons, List.flatten_cons,
          List.length_append, List.Forall₂.length_eq h0, List.take_length_add_append, ih]
  exact this hx k

/-- C101: an honest party whose private generator delivers the tape `t` shares its inputs (`xs` or `ys`), prepares the gate
outputs, and executes the circuit; the peer knows the joint generators (`j` for the inputs of the honest party, `jr` for its
own), answers with any values, and follows any strategy.  The setup data of a layer may depend on what was drawn for the
inputs and for the gates of earlier layers.  To every tape `t` for `xs` belongs exactly one tape `Φ t` for `ys` such that the
peer is sent the same values for the inputs, receives the same messages, and the honest party returns an output in both cases
or in none.

Partial: no interactive gate, in whatever circuit, may have a gate id that the map assigns to the peer; otherwise the claim
is false (`tensor_mask_known_to_other_party`). -/
theorem tensor_party_hidden_partial (m : Multi TGate) (rank : Node → Nat) (w : WF m rank) (hns : ∀ i, isSimd m i = false)
    {inp : List PShare} {val : Node → PShare} (hp : PlainEval m inp val) (c0 : Base TGate) (hc0 : m.circs[0]? = some c0)
    (hb0 : BookOk c0) (hin : ∀ v d, m.gate? v = some (.base .input d) → v.1 = 0) (party : Nat) (os : List InputBy)
    (map : Nat → Option ShareType) (hand : ∀ v g, m.gate? v = some g → interactive g = true → map v.2 ≠ some .remote)
    (xs ys : List PShare) (hxs : InputsFor m (c0.inputGates.filter fun g => map g ≠ some .remote) xs)
    (hys : InputsFor m (c0.inputGates.filter fun g => map g ≠ some .remote) ys) (j jr : List PShare) (hj : j ∈ Shapes xs)
    (answer : List PShare → List PShare) (ha : ∀ d, ∀ y ∈ answer d, Sharable y)
    (adv : List PShare → List (List PShare × Option Unit) → Option (List PShare × Option Unit))
    (su su' : List PShare → SetupData) (hsu : ∀ a b, a.length = b.length → List.Forall₂ SameDims (su a) (su' b)) :
    ∃ ls, layers m = some ls ∧ ∃ Φ : List PShare → List PShare, Set.BijOn Φ (Tapes m ls xs) (Tapes m ls xs) ∧
      ∀ t ∈ Tapes m ls xs, ∃ own own' sent st st' seen returns,
        shareTensor tape xs t j = some (own, sent) ∧ shareTensor tape ys (Φ t) j = some (own', sent) ∧
        setupGateOutputs tape m ⟨t, jr, map⟩ = some st ∧ setupGateOutputs tape m ⟨Φ t, jr, map⟩ = some st' ∧
        Sees m party (inputShares tape os party own (answer sent) jr)
          (fun k _ => su (t.take (xs.length + gatesBefore m ls k))) st (adv sent) seen returns ∧
        Sees m party (inputShares tape os party own' (answer sent) jr)
          (fun k _ => su' ((Φ t).take (xs.length + gatesBefore m ls k))) st' (adv sent) seen returns := by
  obtain ⟨hxy, hx⟩ := inputs_shape hxs hys
  obtain ⟨-, hy⟩ := inputs_shape hys hxs
  obtain ⟨it, ls, e1, e2, ok⟩ := layers_ok_partial m rank w
  have hls : layers m = some ls := by simp [layers, e1, e2]
  have hnc : ∀ v c d, m.gate? v ≠ some (.base (.constant c) d) := fun v c d h => hp v _ h
  obtain ⟨ls', l1, h⟩ := tensor_inputs_hidden m rank w hns hnc party os xs ys hx hy hxy j hj
    (fun u => decide (u ∈ iterNodes ls)) (fun v g hg _ => by
      simp only [decide_eq_true_eq]
      rw [(Aby2.iterNodes_perm ls).mem_iff, ok.all]
      exact (gate_valid m v).2 ⟨g, hg⟩) tape jr answer ha adv
  rw [hls] at l1
  cases l1
  let N : List PShare → List PShare := fun p => if p.length = xs.length then p else xs
  have hN : ∀ p, (N p).length = xs.length := by
    intro p
    show (if p.length = xs.length then p else xs).length = _
    split
    · assumption
    · rfl
  have hNs : ∀ p ∈ Shapes xs, N p = p := fun p hp => if_pos (List.Forall₂.length_eq hp).symm
  obtain ⟨Φ, hΦ, h⟩ := h (fun p a => su (N p ++ a.flatten)) (fun p a => su' (N p ++ a.flatten))
    (fun p p' a b ha hb hl => hsu _ _ (by
      rw [List.length_append, List.length_append, hN, hN, pre_length ha, pre_length hb, hl]))
  refine ⟨ls, hls, ?_⟩
  let T : List PShare × List (List PShare) → List PShare := fun q => q.1 ++ q.2.flatten
  have hT : Set.BijOn T (Shapes xs ×ˢ {x | FitL (LayerMasks m) m ls x}) (Tapes m ls xs) := by
    refine ⟨?_, ?_, ?_⟩
    · rintro ⟨p, x⟩ ⟨h1, h2⟩; exact ⟨p, h1, x, h2, rfl⟩
    · rintro ⟨p, x⟩ ⟨h1, h2⟩ ⟨p', x'⟩ ⟨h1', h2'⟩ he
      obtain ⟨a, b⟩ := tapes_inj h1 h1' h2 h2' he
      exact Prod.ext a b
    · rintro t ⟨p, h1, x, h2, rfl⟩; exact ⟨(p, x), ⟨h1, h2⟩, rfl⟩
  let I := Function.invFunOn T (Shapes xs ×ˢ {x | FitL (LayerMasks m) m ls x})
  have hI : ∀ q ∈ Shapes xs ×ˢ {x | FitL (LayerMasks m) m ls x}, I (T q) = q := fun q hq =>
    hT.injOn (Function.invFunOn_mem ⟨q, hq, rfl⟩) hq (Function.invFunOn_eq ⟨q, hq, rfl⟩)
  have hIb : Set.BijOn I (Tapes m ls xs) (Shapes xs ×ˢ {x | FitL (LayerMasks m) m ls x}) := by
    refine Set.InvOn.bijOn (f' := T) ⟨?_, fun q hq => hI q hq⟩ ?_ hT.mapsTo
    · intro t ht
      obtain ⟨q, hq, rfl⟩ := hT.surjOn ht
      rw [hI q hq]
    · intro t ht
      obtain ⟨q, hq, rfl⟩ := hT.surjOn ht
      rw [hI q hq]; exact hq
  refine ⟨T ∘ Φ ∘ I, (hT.comp hΦ).comp hIb, ?_⟩
  rintro t ⟨p, hpx, x, hfx, rfl⟩
  have hq : (p, x) ∈ Shapes xs ×ˢ {x | FitL (LayerMasks m) m ls x} := ⟨hpx, hfx⟩
  have hTq : (T ∘ Φ ∘ I) (p ++ x.flatten) = T (Φ (p, x)) := by
    show T (Φ (I (T (p, x)))) = _
    rw [hI _ hq]
  obtain ⟨hp', hx'⟩ := hΦ.mapsTo hq
  have hse := shapes_eq hxy
  obtain ⟨own, own', sent, o1, o2, o3⟩ := h p hpx x hfx
  obtain ⟨st, s1, s2, s3⟩ := setup_holds m rank w hns hp c0 hc0 hb0 hin map hand hls xs hxs p hpx x hfx jr
  obtain ⟨st', s1', s2', s3'⟩ := setup_holds m rank w hns hp c0 hc0 hb0 hin map hand hls xs hxs _ hp' _ hx' jr
  obtain ⟨seen, returns, r1, r2⟩ := o3 st st' s2 s2' s3 s3'
  have d1 : ∀ (f : List PShare → SetupData) (p : List PShare) (x : List (List PShare)), p ∈ Shapes xs →
      FitL (LayerMasks m) m ls x →
      (fun k (_ : Nat) => f ((p ++ x.flatten).take (xs.length + gatesBefore m ls k))) =
        histData (fun a => f (N p ++ a.flatten)) x := by
    intro f p x h1 h2
    funext k n
    rw [take_tape h1 h2, histData, hNs p h1]
  refine ⟨own, own', sent, st, st', seen, returns, ?_, ?_, s1, ?_, ?_, ?_⟩
  · rw [share_append xs hpx, o1]
  · rw [hTq, share_append ys (hse ▸ hp'), o2]
  · rw [hTq]; exact s1'
  · rw [d1 su p x hpx hfx]; exact r1
  · rw [hTq]
    have := d1 su' _ _ hp' hx'
    simp only [T]
    rw [this]
    exact r2

/-- Setup data for `exCirc`, which depends on what was drawn before. -/
def exDrawn (u : Bool) (d : List PShare) : SetupData :=
  if d.length = 2 then [.scalar (u ^^ decide (d = [.scalar true])), .matrix (mat8 u)] else [.matrix (mat8 u)]

/-- The hypotheses of `tensor_party_hidden_partial` hold together for `exCirc`: inputs 0 and 2 are those of party 0, inputs 1
and 3 those of the peer. -/
example (adv : List PShare → List (List PShare × Option Unit) → Option (List PShare × Option Unit)) (u v x y k : Bool)
    (jr : List PShare) (react : List PShare → Bool) (a b : BitMatrix) (ha : IsMat 2 4 a) (hb : IsMat 4 4 b) :
    ∃ ls, layers exCirc = some ls ∧ ∃ Φ : List PShare → List PShare,
      ∀ t ∈ Tapes exCirc ls [.matrix (mat8 u), .scalar x], ∃ own own' sent seen returns st st',
        shareTensor tape [.matrix (mat8 u), .scalar x] t [.matrix (mat8 k), .scalar k] = some (own, sent) ∧
        shareTensor tape [.matrix (mat8 v), .scalar y] (Φ t) [.matrix (mat8 k), .scalar k] = some (own', sent) ∧
        Sees exCirc 0 (inputShares tape [.p0, .p1, .p0, .p1] 0 own [.matrix (mat16 (react sent)), .scalar (react sent)] jr)
          (fun j _ => exDrawn u (t.take (2 + gatesBefore exCirc ls j))) st (adv sent) seen returns ∧
        Sees exCirc 0 (inputShares tape [.p0, .p1, .p0, .p1] 0 own' [.matrix (mat16 (react sent)), .scalar (react sent)] jr)
          (fun j _ => exDrawn v ((Φ t).take (2 + gatesBefore exCirc ls j))) st' (adv sent) seen returns := by
  obtain ⟨ls, h1, Φ, -, h2⟩ := tensor_party_hidden_partial exCirc _ (single_wf exBase_ok) (fun i => by
      cases i <;> simp [isSimd, exCirc, exBase, Multi.ofBase]) (exCirc_plain ha hb x y) exBase rfl exBase_ok.book
    (fun v d h => (single_gate exBase _ _ h).1) 0 [.p0, .p1, .p0, .p1]
    (fun i => if i = 1 ∨ i = 3 then some .remote else if i = 0 ∨ i = 2 then some .local_ else none)
    (by
      intro v g h hi
      obtain ⟨-, h⟩ := single_gate exBase _ _ h
      by_cases hv : v.2 = 1 ∨ v.2 = 3
      · rcases hv with hv | hv <;> rw [hv] at h <;> cases h <;> cases hi
      · simp only [hv, if_false]
        split <;> simp)
    [.matrix (mat8 u), .scalar x] [.matrix (mat8 v), .scalar y]
    (.cons ⟨_, rfl, mat8_is u⟩ (.cons ⟨_, rfl, trivial⟩ .nil)) (.cons ⟨_, rfl, mat8_is v⟩ (.cons ⟨_, rfl, trivial⟩ .nil))
    [.matrix (mat8 k), .scalar k] jr (.cons (mat8_is k) (.cons trivial .nil))
    (fun d => [.matrix (mat16 (react d)), .scalar (react d)]) (fun d z hz => by
      simp only [List.mem_cons, List.not_mem_nil, or_false] at hz
      rcases hz with rfl | rfl
      · exact mat16_is _
      · trivial) adv (exDrawn u) (exDrawn v) (by
      intro a b hl
      unfold exDrawn
      rw [hl]
      split
      · exact .cons trivial (.cons ⟨_, _, mat8_is _, mat8_is _⟩ .nil)
      · exact .cons ⟨_, _, mat8_is _, mat8_is _⟩ .nil)
  refine ⟨ls, h1, Φ, fun t ht => ?_⟩
  obtain ⟨own, own', sent, st, st', seen, returns, a1, a2, -, -, a3, a4⟩ := h2 t ht
  exact ⟨own, own', sent, seen, returns, st, st', a1, a2, a3, a4⟩

/-! ### Where it fails -/

/-- `t = call(x, y); output(t ^ z)` with `call` being an AND. -/
def callMain : Base TGate :=
  { gates := [.base .input [], .base .input [], .base .input [], .base .subCircuitInput [], .op .xor, .base .output []]
    edges := [(2, 4), (3, 4), (4, 5)], inputGates := [0, 1, 2], outputGates := [5]
    scInputGates := [3] }

def callSub : Base TGate :=
  { gates := [.base .subCircuitInput [], .base .subCircuitInput [], .op .and2, .base .subCircuitOutput []]
    edges := [(1, 2), (0, 2), (2, 3)], interactiveCount := 1
    scInputGates := [0, 1], scOutputGates := [3] }

def callCirc : Multi TGate :=
  .ofConns [callMain, callSub] [((0, 0), (1, 0)), ((0, 1), (1, 1)), ((1, 3), (0, 3))]

/-- C101 fails: the AND gate is gate 2 of the sub-circuit while input 2 of the main circuit is one of the peer.  The mask the
honest party uses for the AND gate then comes from the generator which it has in common with the peer, whatever its private
generator delivers; what it sends for the gate is no longer masked. -/
theorem tensor_mask_known_to_other_party (p q a b : Bool) (priv joint : List PShare) :
    ∃ st, setupGateOutputs tape callCirc ⟨.scalar p :: .scalar q :: priv, .scalar a :: .scalar b :: joint,
        fun i => if i = 2 then some .remote else if i < 2 then some .local_ else none⟩ = some st ∧
      callCirc.gate? (1, 2) = some (.op .and2) ∧ st.sc (1, 2) = hidden (.scalar b) := by
  refine ⟨_, rfl, rfl, rfl⟩

end Verif.Tensor
