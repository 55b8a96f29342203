import Verif.Tensor.Active
import Verif.Tensor.Masks

/-!
C100: the inputs of a party of Boolean ABY2 with matrices, from their sharing on, against a peer that does whatever it likes.
-/
set_option autoImplicit false

namespace Verif.Tensor

open Gmw (BaseGate)
open Bitmat
open Circuit Exec Proc
open Aby2 (pop merge InputBy)

/-! ### Specification -/

/-- tensor_aby2.rs:777-834: a party has shared its inputs, sent `sent`, and got the answer `answer` of the peer, from which it
computes its shares of the inputs of the peer; `j` is the generator it has in common with the peer for these. -/
def inputShares {σ : Type} (gen : Gen σ) (os : List InputBy) (party : Nat) (own : List TShare) (answer : List PShare) (j : σ) :
    Option (List TShare) :=
  (plainDeltaToShare gen answer j).map fun other => if party = 0 then merge os own other else merge os other own

/-- An execution with these input shares against the strategy `adv`: what the peer receives and whether there is an output. -/
def Sees (m : Multi TGate) (party : Nat) (inputs : Option (List TShare)) (setup : Nat → Nat → SetupData)
    (s : Store TShare (List TShare)) (adv : List (List PShare × Option Unit) → Option (List PShare × Option Unit))
    (seen : List (List PShare × Option Unit)) (returns : Bool) : Prop :=
  match inputs with
  | none => seen = [] ∧ returns = false
  | some xs => ∃ o, interact adv [] (execute tensorAby2 m party (.scalar xs) setup s) = (seen, o) ∧ o.isSome = returns

/-! ### Lemmas -/

theorem share_public {σ : Type} (gen : Gen σ) : ∀ (xs : List PShare) (p j : σ) {s0 : List TShare} {ms : List PShare},
    shareTensor gen xs p j = some (s0, ms) → s0.map TShare.getPublic = ms := by
  intro xs
  induction xs with
  | nil => intro p j s0 ms h; cases h; rfl
  | cons x xs ih =>
    intro p j s0 ms h
    cases x with
    | vec v => cases h
    | scalar b =>
      simp only [shareTensor, Option.bind_eq_bind, Option.bind_eq_some_iff, Option.some.injEq, Prod.mk.injEq] at h
      obtain ⟨⟨s, m⟩, h, rfl, rfl⟩ := h
      simp [TShare.getPublic, ih _ _ h]
    | matrix m =>
      simp only [shareTensor, Option.bind_eq_bind, Option.bind_eq_some_iff, Option.some.injEq, Prod.mk.injEq] at h
      obtain ⟨⟨_, _⟩, -, ⟨_, _⟩, -, _, -, _, -, ⟨s, m⟩, h, rfl, rfl⟩ := h
      simp [TShare.getPublic, ih _ _ h]

theorem answer_kind {σ : Type} (gen : Gen σ) : ∀ (ds : List PShare) (j : σ) {sh : List TShare}, (∀ d ∈ ds, Sharable d) →
    plainDeltaToShare gen ds j = some sh → List.Forall₂ SameKind sh sh := by
  intro ds
  induction ds with
  | nil => intro j sh _ h; cases h; exact .nil
  | cons d ds ih =>
    intro j sh hd h
    cases d with
    | vec v => cases h
    | scalar b =>
      simp only [plainDeltaToShare, Option.bind_eq_bind, Option.bind_eq_some_iff, Option.some.injEq] at h
      obtain ⟨s, h, rfl⟩ := h
      exact .cons trivial (ih _ (fun d hd' => hd d (by simp [hd'])) h)
    | matrix m =>
      simp only [plainDeltaToShare, Option.bind_eq_bind, Option.bind_eq_some_iff, Option.some.injEq] at h
      obtain ⟨⟨q, j'⟩, hq, s, h, rfl⟩ := h
      have hm : IsMat m.rows m.cols m := hd (.matrix m) (by simp)
      obtain ⟨e1, e2⟩ := random_some gen j hm.2.2.2
      rw [e1] at hq
      have hq' : (gen.mat j m.rows m.cols).1 = q := congrArg Prod.fst (Option.some.inj hq)
      rw [hq'] at e2
      exact .cons ⟨⟨_, _, hm, hm⟩, _, _, e2, e2⟩ (ih _ (fun d hd' => hd d (by simp [hd'])) h)

theorem merge_rel {R : TShare → TShare → Prop} : ∀ (os : List InputBy) {as as' bs bs' : List TShare},
    List.Forall₂ R as as' → List.Forall₂ R bs bs' → List.Forall₂ R (merge os as bs) (merge os as' bs') := by
  intro os
  induction os with
  | nil => intro as as' bs bs' _ _; simp [merge]
  | cons o os ih =>
    intro as as' bs bs' ha hb
    cases o with
    | p0 =>
      cases ha with
      | nil => simp [merge]
      | cons h t => simpa [merge] using ⟨h, ih t hb⟩
    | p1 =>
      cases hb with
      | nil => simp [merge]
      | cons h t => simpa [merge] using ⟨h, ih ha t⟩

/-- Shares with the same public parts and private parts of the same kinds. -/
theorem own_kind {xs ys : List PShare} (hxy : List.Forall₂ SameShape xs ys) : ∀ {s s' : List TShare} {ms p p' : List PShare},
    s.map TShare.getPublic = ms → s'.map TShare.getPublic = ms → s.map TShare.getPrivate = p →
    s'.map TShare.getPrivate = p' → List.Forall₂ SameShape xs ms → List.Forall₂ SameShape xs p →
    List.Forall₂ SameShape ys p' → List.Forall₂ SameKind s s' := by
  induction hxy with
  | nil =>
    intro s s' ms p p' h1 h2 _ _ hm _ _
    cases hm
    rw [List.map_eq_nil_iff] at h1 h2
    rw [h1, h2]
    exact .nil
  | @cons x y xs ys h _ ih =>
    intro s s' ms p p' h1 h2 h3 h4 hm hp hp'
    cases hm with
    | @cons _ d _ ms hd hm =>
    cases hp with
    | @cons _ a _ p ha hp =>
    cases hp' with
    | @cons _ b _ p' hb hp' =>
    cases s with
    | nil => simp at h1
    | cons t s =>
    cases s' with
    | nil => simp at h2
    | cons t' s' =>
    simp only [List.map_cons, List.cons.injEq] at h1 h2 h3 h4
    refine .cons ?_ (ih h1.2 h2.2 h3.2 h4.2 hm hp hp')
    obtain ⟨rfl, -⟩ := h3
    obtain ⟨rfl, -⟩ := h4
    obtain ⟨h1, -⟩ := h1
    obtain ⟨h2, -⟩ := h2
    cases x <;> cases y <;> simp only [SameShape] at h <;> cases d <;> simp only [SameShape] at hd <;>
      cases t <;> simp only [TShare.getPublic, reduceCtorEq] at h1 <;>
      cases t' <;> simp only [TShare.getPublic, reduceCtorEq] at h2
    · trivial
    · cases h1
      cases h2
      simp only [TShare.getPrivate, SameShape] at ha hb
      rw [h.1, h.2.1] at hb
      exact ⟨⟨_, _, hd, hd⟩, _, _, ha, hb⟩

theorem shapes_eq {xs ys : List PShare} (h : List.Forall₂ SameShape xs ys) : Shapes xs = Shapes ys := by
  ext p
  simp only [Shapes, Set.mem_setOf_eq]
  induction h generalizing p with
  | nil => rfl
  | @cons x y xs ys h _ ih =>
    have : ∀ q, SameShape x q ↔ SameShape y q := by
      intro q
      cases x <;> cases y <;> simp only [SameShape] at h <;> cases q <;> simp only [SameShape]
      rw [h.1, h.2.1]
    cases p with
    | nil => simp
    | cons q p => rw [List.forall₂_cons, List.forall₂_cons, this, ih]

/-! ### Property -/

/-- C100: an honest party with inputs `xs` or `ys` of the same kinds and dimensions.  The peer knows the joint generator (`j`
for the inputs of the honest party); it answers the shared inputs by `answer`, which may depend on what it was sent, and
follows any strategy in the execution.  The setup data may depend on all masks of the honest party (`su` and `su'`).  To every
choice of the private random values, for the inputs and the gates, in the first case belongs exactly one in the second such
that the peer is sent the same values for the inputs, receives the same messages, and the honest party returns an output in
both cases or in none. -/
theorem tensor_inputs_hidden (m : Multi TGate) (rank : Node → Nat) (w : WF m rank) (hns : ∀ i, isSimd m i = false)
    (hnc : ∀ v c d, m.gate? v ≠ some (.base (.constant c) d)) (party : Nat) (os : List InputBy)
    (xs ys : List PShare) (hx : ∀ x ∈ xs, Sharable x) (hy : ∀ y ∈ ys, Sharable y) (hxy : List.Forall₂ SameShape xs ys)
    (j : List PShare) (hj : j ∈ Shapes xs) (set : Node → Bool)
    (hset : ∀ v g, m.gate? v = some g → interactive g = true → set v = true)
    {σ : Type} (gen : Gen σ) (jo : σ) (answer : List PShare → List PShare) (ha : ∀ d, ∀ y ∈ answer d, Sharable y)
    (adv : List PShare → List (List PShare × Option Unit) → Option (List PShare × Option Unit)) :
    ∃ ls, Aby2.layers m = some ls ∧
      ∀ su su' : List PShare → List (List PShare) → SetupData,
      (∀ p p' a b, FitPre (LayerMasks m) m ls a → FitPre (LayerMasks m) m ls b → a.length = b.length →
        List.Forall₂ SameDims (su p a) (su' p' b)) →
      ∃ Φ : List PShare × List (List PShare) → List PShare × List (List PShare),
        Set.BijOn Φ (Shapes xs ×ˢ {x | FitL (LayerMasks m) m ls x}) (Shapes xs ×ˢ {x | FitL (LayerMasks m) m ls x}) ∧
        ∀ p ∈ Shapes xs, ∀ x, FitL (LayerMasks m) m ls x → ∃ own own' sent,
          shareTensor tape xs p j = some (own, sent) ∧ shareTensor tape ys (Φ (p, x)).1 j = some (own', sent) ∧
          ∀ s s' : Store TShare (List TShare), s.set = set → s'.set = set →
            HoldsMasks m ls (fun x => x.map hidden) [] x s → HoldsMasks m ls (fun x => x.map hidden) [] (Φ (p, x)).2 s' →
            ∃ seen returns,
              Sees m party (inputShares gen os party own (answer sent) jo) (histData (su p) x) s (adv sent) seen returns ∧
              Sees m party (inputShares gen os party own' (answer sent) jo) (histData (su' (Φ (p, x)).1) (Φ (p, x)).2) s'
                (adv sent) seen returns := by
  obtain ⟨it, ls, e1, e2, -⟩ := layers_ok_partial m rank w
  have hls : Aby2.layers m = some ls := by simp [Aby2.layers, e1, e2]
  refine ⟨ls, hls, fun su su' hsu => ?_⟩
  have hse := shapes_eq hxy
  obtain ⟨ks, k1, k2⟩ := share_masked xs hx j hj
  obtain ⟨ks', k1', k2'⟩ := share_masked ys hy j (hse ▸ hj)
  have k1s : List.Forall₂ SameShape xs ks' := by
    have : ks' ∈ Shapes xs := by rw [hse]; exact k1'
    exact this
  let φ : List PShare → List PShare := fun p => List.zipWith maskBy ks' (List.zipWith maskBy ks p)
  have bij : ∀ {ks : List PShare}, List.Forall₂ SameShape xs ks →
      Set.BijOn (List.zipWith maskBy ks) (Shapes xs) (Shapes xs) := fun {ks} h =>
    Set.InvOn.bijOn (f' := List.zipWith maskBy ks)
      ⟨fun _ ho => (shapes_masks h ho).2, fun _ ho => (shapes_masks h ho).2⟩
      (fun _ ho => (shapes_masks h ho).1) (fun _ ho => (shapes_masks h ho).1)
  have hφ : Set.BijOn φ (Shapes xs) (Shapes xs) := (bij k1s).comp (bij k1)
  have key : ∀ p, ∃ f : List (List PShare) → List (List PShare), p ∈ Shapes xs →
      Set.BijOn f {x | FitL (LayerMasks m) m ls x} {x | FitL (LayerMasks m) m ls x} ∧
      ∃ own own' sent, shareTensor tape xs p j = some (own, sent) ∧ shareTensor tape ys (φ p) j = some (own', sent) ∧
        ∀ x, FitL (LayerMasks m) m ls x → ∀ s s' : Store TShare (List TShare), s.set = set → s'.set = set →
          HoldsMasks m ls (fun x => x.map hidden) [] x s → HoldsMasks m ls (fun x => x.map hidden) [] (f x) s' →
          ∃ seen returns,
            Sees m party (inputShares gen os party own (answer sent) jo) (histData (su p) x) s (adv sent) seen returns ∧
            Sees m party (inputShares gen os party own' (answer sent) jo) (histData (su' (φ p)) (f x)) s'
              (adv sent) seen returns := by
    intro p
    by_cases hp : p ∈ Shapes xs
    swap
    · exact ⟨id, fun h => absurd h hp⟩
    obtain ⟨own, o1, o2⟩ := k2 p hp
    have hφp := hφ.mapsTo hp
    obtain ⟨own', o1', o2'⟩ := k2' (φ p) (hse ▸ hφp)
    have hsent : List.zipWith maskBy ks' (φ p) = List.zipWith maskBy ks p :=
      (shapes_masks k1s (shapes_masks k1 hp).1).2
    rw [hsent] at o1'
    have hφy : φ p ∈ Shapes ys := hse ▸ hφp
    have hown : List.Forall₂ SameKind own own' :=
      own_kind hxy (share_public _ _ _ _ o1) (share_public _ _ _ _ o1') o2 o2' (shapes_masks k1 hp).1 hp hφy
    cases hi : plainDeltaToShare gen (answer (List.zipWith maskBy ks p)) jo with
    | none =>
      refine ⟨id, fun _ => ⟨Set.bijOn_id _, own, own', _, o1, o1', fun x _ s s' _ _ _ _ => ⟨[], false, ?_, ?_⟩⟩⟩ <;>
        simp [Sees, inputShares, hi]
    | some other =>
      have hother := answer_kind gen _ jo (ha _) hi
      have hin : List.Forall₂ SameKind (if party = 0 then merge os own other else merge os other own)
          (if party = 0 then merge os own' other else merge os other own') := by
        split
        · exact merge_rel os hown hother
        · exact merge_rel os hother hown
      obtain ⟨ls', l1, h⟩ := tensor_active_private m rank w hns hnc party _ _ hin set hset
      rw [hls] at l1
      cases l1
      obtain ⟨f, f1, f2⟩ := h (su p) (su' (φ p)) (fun a b => hsu p (φ p) a b) (adv (List.zipWith maskBy ks p))
      refine ⟨f, fun _ => ⟨f1, own, own', _, o1, o1', fun x hx s s' hs hs' hm hm' => ?_⟩⟩
      obtain ⟨seen, o, o', g1, g2, g3⟩ := f2 x hx s s' hs hs' hm hm'
      refine ⟨seen, o.isSome, ?_, ?_⟩
      · simp only [Sees, inputShares, hi, Option.map_some]
        exact ⟨o, g1, rfl⟩
      · simp only [Sees, inputShares, hi, Option.map_some]
        exact ⟨o', g2, g3.symm⟩
  choose f hf using key
  refine ⟨fun q => (φ q.1, f q.1 q.2), ⟨?_, ?_, ?_⟩, fun p hp x hx => ?_⟩
  · rintro ⟨p, x⟩ ⟨hp, hx⟩
    exact ⟨hφ.mapsTo hp, (hf p hp).1.mapsTo hx⟩
  · rintro ⟨p, x⟩ ⟨hp, hx⟩ ⟨p', x'⟩ ⟨hp', hx'⟩ he
    simp only [Prod.mk.injEq] at he
    obtain ⟨h1, h2⟩ := he
    have := hφ.injOn hp hp' h1
    subst this
    have : x = x' := (hf p hp).1.injOn hx hx' h2
    rw [this]
  · rintro ⟨p, x⟩ ⟨hp, hx⟩
    obtain ⟨p0, hp0, rfl⟩ := hφ.surjOn hp
    obtain ⟨x0, hx0, rfl⟩ := (hf p0 hp0).1.surjOn hx
    exact ⟨(p0, x0), ⟨hp0, hx0⟩, rfl⟩
  · obtain ⟨-, own, own', sent, h1, h2, h3⟩ := hf p hp
    exact ⟨own, own', sent, h1, h2, fun s s' => h3 x hx s s'⟩

/-! ### An example -/

/-- The hypotheses of `tensor_inputs_hidden` hold together for `exCirc`: party 0 has the first matrix and the first bit; the
answer of the peer depends on what it was sent. -/
example (adv : List PShare → List (List PShare × Option Unit) → Option (List PShare × Option Unit)) (u v x y c k : Bool)
    {σ : Type} (gen : Gen σ) (jo : σ) (react : List PShare → Bool) :
    ∃ Φ : List PShare × List (List PShare) → List PShare × List (List PShare),
      ∀ p ∈ Shapes [.matrix (mat8 u), .scalar x], ∃ own own' sent,
        shareTensor tape [.matrix (mat8 u), .scalar x] p [.matrix (mat8 k), .scalar k] = some (own, sent) ∧
        shareTensor tape [.matrix (mat8 v), .scalar y] (Φ (p, exMasks (mat8 c) (mat8 k) c)).1
          [.matrix (mat8 k), .scalar k] = some (own', sent) ∧
        ∃ s s' seen returns,
          Sees exCirc 0 (inputShares gen [.p0, .p1, .p0, .p1] 0 own [.matrix (mat16 (react sent)), .scalar (react sent)] jo)
            (histData (exSetup u x) (exMasks (mat8 c) (mat8 k) c)) s (adv sent) seen returns ∧
          Sees exCirc 0 (inputShares gen [.p0, .p1, .p0, .p1] 0 own' [.matrix (mat16 (react sent)), .scalar (react sent)] jo)
            (histData (exSetup v y) (Φ (p, exMasks (mat8 c) (mat8 k) c)).2) s' (adv sent) seen returns := by
  have hsh : ∀ u x : Bool, ∀ z ∈ [PShare.matrix (mat8 u), .scalar x], Sharable z := by
    intro u x z hz
    simp only [List.mem_cons, List.not_mem_nil, or_false] at hz
    rcases hz with rfl | rfl
    · exact mat8_is u
    · trivial
  obtain ⟨ls, h1, h2⟩ := tensor_inputs_hidden exCirc _ (single_wf exBase_ok) (fun i => by
      cases i <;> simp [isSimd, exCirc, exBase, Multi.ofBase]) (fun v c d h => by
      obtain ⟨-, h⟩ := single_gate exBase _ _ h
      have := List.mem_of_getElem? h
      simp [exBase] at this) 0 [.p0, .p1, .p0, .p1] [.matrix (mat8 u), .scalar x] [.matrix (mat8 v), .scalar y]
    (hsh u x) (hsh v y) (.cons (mat8_is v) (.cons trivial .nil)) [.matrix (mat8 k), .scalar k]
    (.cons (mat8_is k) (.cons trivial .nil)) (fun _ => true) (fun _ _ _ _ => rfl) gen jo
    (fun d => [.matrix (mat16 (react d)), .scalar (react d)]) (fun d z hz => by
      simp only [List.mem_cons, List.not_mem_nil, or_false] at hz
      rcases hz with rfl | rfl
      · exact mat16_is _
      · trivial) adv
  obtain ⟨Φ, hΦ, h3⟩ := h2 (fun _ => exSetup u x) (fun _ => exSetup v y) (fun _ _ a b _ _ hl => by
    unfold exSetup
    rw [hl]
    split
    · exact .cons trivial (.cons ⟨_, _, mat8_is _, mat8_is _⟩ .nil)
    · exact .cons ⟨_, _, mat8_is _, mat8_is _⟩ .nil)
  have hfit : FitL (LayerMasks exCirc) exCirc ls (exMasks (mat8 c) (mat8 k) c) := by
    have e := Option.some.inj (h1.symm.trans exCirc_layers)
    subst e
    have e : interactiveLayers exCirc [[(0, ⟨[0, 1, 2, 3], [4, 6]⟩)], [(0, ⟨[7, 9], [5]⟩)], [(0, ⟨[8], []⟩)]] =
      [[(0, ⟨[0, 1, 2, 3], [4, 6]⟩)], [(0, ⟨[7, 9], [5]⟩)]] := by decide +kernel
    rw [FitL, e]
    exact .cons (.cons ⟨_, rfl, mat8_is c⟩ (.cons ⟨_, rfl, trivial⟩ .nil)) (.cons (.cons ⟨_, rfl, mat8_is k⟩ .nil) .nil)
  refine ⟨Φ, fun p hp => ?_⟩
  obtain ⟨own, own', sent, o1, o2, o3⟩ := h3 p hp _ hfit
  obtain ⟨s, e1, e2⟩ := masks_storable exCirc _ (single_wf exBase_ok) h1 (fun _ => true) _ hfit
  obtain ⟨s', e1', e2'⟩ := masks_storable exCirc _ (single_wf exBase_ok) h1 (fun _ => true) _
    (hΦ.mapsTo (x := (p, exMasks (mat8 c) (mat8 k) c)) ⟨hp, hfit⟩).2
  exact ⟨own, own', sent, o1, o2, s, s', o3 s s' e1 e1' e2 e2'⟩

end Verif.Tensor
