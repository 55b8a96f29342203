import Verif.Exec.Active

/-!
C89: how many messages `Executor::execute` exchanges, and when it returns an output, against an arbitrary peer.
-/
set_option autoImplicit false

namespace Verif.Exec

open Circuit Proc Gmw

/-! ### Specification -/

/-- An output for every output gate of the main circuit. -/
def OutputOk {S V : Type} {G : Type} [GateLike G] (m : Multi G) (c : Base G) : Input S V → Prop
  | .scalar l => isSimd m 0 = false ∧ l.length = c.outputGates.length
  | .simd l => isSimd m 0 = true ∧ l.length = c.outputGates.length

/-- The peer answers the `i`-th message with some message of the size of the `i`-th layer with AND gates. -/
def AnswersSized (m : Multi BoolGate) (ls : List MLayer)
    (adv : List (Msg × Option SimdMsg) → Option (Msg × Option SimdMsg)) : Prop :=
  ∀ (i : Nat) (l : MLayer) (seen : List (Msg × Option SimdMsg)), (interactiveLayers m ls)[i]? = some l →
    seen.length = i + 1 → ∃ r, adv seen = some r ∧ MsgSize m l r

/-! ### Proof -/

section Generic

variable {G : Type} [GateLike G] {S V M MS T : Type}

theorem freeable_layers (m : Multi G) (ls : List MLayer) : ∀ (left : Left) (fl : List (MLayer × List Node)),
    freeable m left ls = some fl → fl.map (·.1) = ls := by
  induction ls with
  | nil => intro left fl h; simp [freeable] at h; simp [← h]
  | cons l ls ih =>
    intro left fl h
    simp only [freeable, Option.bind_eq_bind, Option.pure_def, Option.bind_eq_some_iff, Option.some.injEq,
      Prod.exists] at h
    obtain ⟨_, _, _, _, _, _, rest, h, rfl⟩ := h
    simp [ih _ _ h]

theorem interact_layers (pr : Protocol G S V M MS T) (m : Multi G) (party : Nat) (inp : Input S V)
    (setup : Nat → Nat → T) (adv : List (M × Option MS) → Option (M × Option MS)) (fl : List (MLayer × List Node)) :
    ∀ (k : Nat) (st : Store S V) (sent seen : List (M × Option MS)) (o : Option (Input S V)),
      interact adv sent (execLayers pr m party inp setup k fl st) = (seen, o) →
      ∃ more, seen = sent ++ more ∧ more.length ≤ (interactiveLayers m (fl.map (·.1))).length ∧
        (∀ i, 1 ≤ i → i < more.length → (adv (sent ++ more.take i)).isSome) ∧
        (∀ x, o = some x → more.length = (interactiveLayers m (fl.map (·.1))).length ∧
          (∀ i, 1 ≤ i → i ≤ more.length → (adv (sent ++ more.take i)).isSome) ∧
          ∃ c, m.circs[0]? = some c ∧ OutputOk m c x) := by
  induction fl with
  | nil =>
    intro k st sent seen o h
    simp only [execLayers] at h
    have fin : ∀ x, outputs m st = some x → ∃ c, m.circs[0]? = some c ∧ OutputOk m c x := by
      intro x hx
      have len : ∀ {A B : Type} (f : A → Option B) (l : List A) (r : List B), l.mapM f = some r → r.length = l.length := by
        intro A B f l
        induction l with
        | nil => intro r h; simp at h; simp [h]
        | cons a l ih =>
          intro r h
          simp only [List.mapM_cons, Option.bind_eq_bind, Option.pure_def, Option.bind_eq_some_iff, Option.some.injEq] at h
          obtain ⟨_, _, r', h, rfl⟩ := h
          simp [ih r' h]
      unfold outputs at hx
      simp only [Option.bind_eq_bind, Option.pure_def, Option.bind_eq_some_iff] at hx
      obtain ⟨c, hc, hx⟩ := hx
      refine ⟨c, hc, ?_⟩
      cases hs : isSimd m 0
      · simp only [hs, Bool.false_eq_true, if_false, Option.bind_eq_some_iff, Option.some.injEq] at hx
        obtain ⟨xs, h1, rfl⟩ := hx
        exact ⟨hs, len _ _ _ h1⟩
      · simp only [hs, if_true, Option.bind_eq_some_iff, Option.some.injEq] at hx
        obtain ⟨xs, h1, rfl⟩ := hx
        exact ⟨hs, len _ _ _ h1⟩
    cases ho : outputs m st with
    | none =>
      rw [ho] at h; cases h
      exact ⟨[], by simp, by simp, by intro i h1 h2; simp at h2, by simp⟩
    | some x =>
      rw [ho] at h; cases h
      refine ⟨[], by simp, by simp, by intro i h1 h2; simp at h2, ?_⟩
      intro y hy
      cases hy
      exact ⟨by simp [interactiveLayers], by intro i h1 h2; simp at h2; omega, fin x ho⟩
  | cons f fl ih =>
    obtain ⟨l, fs⟩ := f
    intro k st sent seen o h
    have stop : ∀ (q : List (M × Option MS)) , (sent, (none : Option (Input S V))) = (seen, o) →
        ∃ more, seen = sent ++ more ∧ more.length ≤ (interactiveLayers m (((l, fs) :: fl).map (·.1))).length ∧
        (∀ i, 1 ≤ i → i < more.length → (adv (sent ++ more.take i)).isSome) ∧
        (∀ x, o = some x → more.length = (interactiveLayers m (((l, fs) :: fl).map (·.1))).length ∧
          (∀ i, 1 ≤ i → i ≤ more.length → (adv (sent ++ more.take i)).isSome) ∧
          ∃ c, m.circs[0]? = some c ∧ OutputOk m c x) := by
      intro _ h
      cases h
      exact ⟨[], by simp, by simp, by intro i h1 h2; simp at h2, by simp⟩
    simp only [execLayers] at h
    cases hev : evalNodes pr m party inp st (niOf l) with
    | none => rw [hev] at h; exact stop [] h
    | some s1 =>
      rw [hev] at h
      by_cases h0 : intCount m l = 0
      · simp only [h0, if_true] at h
        have hil : interactiveLayers m (((l, fs) :: fl).map (·.1)) = interactiveLayers m (fl.map (·.1)) := by
          simp [interactiveLayers, h0]
        rw [hil]
        exact ih k s1 sent seen o h
      · simp only [h0, if_false] at h
        have hil : interactiveLayers m (((l, fs) :: fl).map (·.1)) = l :: interactiveLayers m (fl.map (·.1)) := by
          simp [interactiveLayers, h0]
        rw [hil] at stop ⊢
        cases hc : computeMsgs pr m party s1 l (setup k (intCount m l)) with
        | none => rw [hc] at h; exact stop [] h
        | some r =>
          obtain ⟨msg, t⟩ := r
          rw [hc] at h
          simp only [interact] at h
          have one : (sent ++ [msg], (none : Option (Input S V))) = (seen, o) →
              ∃ more, seen = sent ++ more ∧ more.length ≤ (l :: interactiveLayers m (fl.map (·.1))).length ∧
              (∀ i, 1 ≤ i → i < more.length → (adv (sent ++ more.take i)).isSome) ∧
              (∀ x, o = some x → more.length = (l :: interactiveLayers m (fl.map (·.1))).length ∧
                (∀ i, 1 ≤ i → i ≤ more.length → (adv (sent ++ more.take i)).isSome) ∧
                ∃ c, m.circs[0]? = some c ∧ OutputOk m c x) := by
            intro h
            cases h
            exact ⟨[msg], rfl, by simp, by intro i h1 h2; simp at h2; omega, by simp⟩
          cases ha : adv (sent ++ [msg]) with
          | none => rw [ha] at h; exact one h
          | some r =>
            rw [ha] at h
            dsimp only at h
            cases hf : finishLayer pr m party (free pr s1 fs) l msg r t with
            | none => rw [hf] at h; exact one h
            | some s2 =>
              rw [hf] at h
              obtain ⟨more, e, h1, h2, h3⟩ := ih (k + 1) s2 (sent ++ [msg]) seen o h
              have step : ∀ (P : Nat → Prop), (∀ i, 1 ≤ i → P i → (adv (sent ++ [msg] ++ more.take i)).isSome) →
                  ∀ i, 1 ≤ i → (2 ≤ i → P (i - 1)) → (adv (sent ++ (msg :: more).take i)).isSome := by
                intro P hP i hi hp
                match i, hi with
                | 1, _ => simp [ha]
                | i + 2, _ =>
                  have := hP (i + 1) (by omega) (hp (by omega))
                  simpa using this
              refine ⟨msg :: more, by simp [e], by simp [h1], ?_, ?_⟩
              · intro i hi hl
                exact step (fun i => i < more.length) h2 i hi (by simp at hl; omega)
              · intro x hx
                obtain ⟨a, b, c⟩ := h3 x hx
                exact ⟨by simp [a], fun i hi hl => step (fun i => i ≤ more.length) b i hi (by simp at hl; omega), c⟩

end Generic

/-- Messages of the same sizes. -/
def MsgAlike (a b : Msg × Option SimdMsg) : Prop :=
  a.1.size = b.1.size ∧ a.1.d.length = b.1.d.length ∧ a.1.e.length = b.1.e.length ∧
  OptRel (fun x y => x.simdSizes = y.simdSizes ∧ x.d.length = y.d.length ∧ x.e.length = y.e.length) a.2 b.2

theorem msgSize_alike {m : Multi BoolGate} {l : MLayer} {a b : Msg × Option SimdMsg} (ha : MsgSize m l a)
    (hb : MsgSize m l b) : MsgAlike a b := by
  obtain ⟨a1, a2, a3, x, a4, a5, a6, a7⟩ := ha
  obtain ⟨b1, b2, b3, y, b4, b5, b6, b7⟩ := hb
  refine ⟨by omega, by omega, by omega, ?_⟩
  rw [a4, b4]
  exact ⟨by rw [a5, b5], by rw [a6, b6, a5, b5], by rw [a7, b7, a5, b5]⟩

variable {m : Multi BoolGate} {st st' : Store Bool (List Bool)}

theorem pairs_alike (gs : List BoolGate) : ∀ (t : List Triple) (xs ys : List Bool), xs.length = ys.length →
    OptRel (fun a b => a.length = b.length) (computeMsgPairs gs t xs) (computeMsgPairs gs t ys) := by
  induction gs with
  | nil => intro t xs ys _; simp [computeMsgPairs, OptRel]
  | cons g gs ih =>
    intro t xs ys h
    cases t with
    | nil => simp [computeMsgPairs, OptRel]
    | cons a t =>
      match xs, ys, h with
      | [], [], _ => cases g <;> simp [computeMsgPairs, OptRel]
      | [_], [_], _ => cases g <;> simp [computeMsgPairs, OptRel]
      | x0 :: x1 :: xs, y0 :: y1 :: ys, h =>
        cases g with
        | and =>
          simp only [computeMsgPairs, Option.bind_eq_bind, Option.pure_def]
          exact (ih t xs ys (by simpa using h)).bind fun a b hab => by simp [OptRel, hab]
        | _ => simp [computeMsgPairs, OptRel]

theorem msgs_alike (h : Alike st st') (party : Nat) (l : MLayer) (t : List Triple) :
    OptRel (fun x y => MsgAlike x.1 y.1 ∧ x.2 = t ∧ y.2 = t) (computeMsgs gmw m party st l t)
      (computeMsgs gmw m party st' l t) := by
  unfold computeMsgs
  simp only [gmw, if_true, Option.bind_eq_bind, Option.pure_def]
  refine OptRel.bind_eq fun gs => ?_
  refine (mapM_rel (R := List.Forall₂ fun _ _ => True) (f := fun v => (m.parents v).mapM (st.get m))
    (g := fun v => (m.parents v).mapM (st'.get m)) (fun v => gets_alike h (m.parents v)) (intScalar m l)).bind ?_
  intro xs ys hxy
  have hp := pairs_alike gs t.reverse _ _ (forall_flatten hxy).length_eq
  simp only [computeMsg, Option.bind_eq_bind, Option.pure_def, Option.map_bind]
  refine OptRel.bind (R := fun (x y : Msg × List Triple) => x.1.size = y.1.size ∧ x.1.d.length = y.1.d.length ∧
    x.1.e.length = y.1.e.length ∧ x.2 = t ∧ y.2 = t) ?_ ?_
  · refine hp.bind fun a b hab => ?_
    simp [OptRel, padWords_length, hab]
  · rintro ⟨a, _⟩ ⟨b, _⟩ ⟨s1, s2, s3, rfl, rfl⟩
    refine OptRel.bind_eq fun hs => ?_
    refine (mapM_rel (R := List.Forall₂ SameLen) (f := fun v => (m.parents v).mapM (st.getSimd m))
      (g := fun v => (m.parents v).mapM (st'.getSimd m)) (fun v => getsSimd_alike h (m.parents v)) (intSimd m l)).bind ?_
    intro us vs huv
    have hc := chunk_alike (forall_flatten huv)
    unfold computeMsgSimd
    simp only [Option.bind_eq_bind, Option.pure_def, Option.map_bind, Option.bind_assoc]
    refine hc.bind fun p q hpq => ?_
    have e1 : (p.map (·.1)).flatten.length = (q.map (·.1)).flatten.length :=
      flat_len (List.forall₂_map_left_iff.2 (List.forall₂_map_right_iff.2 (hpq.imp fun _ _ h => h.1)))
    have e2 : (p.map (·.2)).flatten.length = (q.map (·.2)).flatten.length :=
      flat_len (List.forall₂_map_left_iff.2 (List.forall₂_map_right_iff.2 (hpq.imp fun _ _ h => h.2)))
    have hsz : p.map (·.1.length) = q.map (·.1.length) := by
      clear hc e1 e2
      induction hpq with
      | nil => rfl
      | cons h _ ih => simp only [List.map_cons, List.cons.injEq]; exact ⟨h.1, ih⟩
    simp only [Function.comp_apply, Option.map_bind, Option.bind_assoc, e2]
    refine OptRel.bind_eq fun u => ?_
    refine ⟨⟨s1, s2, s3, hsz, ?_, ?_⟩, rfl, rfl⟩
    · simp only [padWords_length, xorL_length, e2]
    · simp only [padWords_length, xorL_length, e1]

theorem zipEval_len' (party : Nat) : ∀ (a b c d a' b' c' d' : List Bool) (t : List Triple), a.length = a'.length →
    b.length = b'.length → c.length = c'.length → d.length = d'.length →
    (zipEval party a b c d t).length = (zipEval party a' b' c' d' t).length := by
  intro a
  induction a with
  | nil => intro b c d a' b' c' d' t h; cases a' <;> simp_all [zipEval]
  | cons x a ih =>
    intro b c d a' b' c' d' t h1 h2 h3 h4
    match a', h1, b, b', h2, c, c', h3, d, d', h4, t with
    | _ :: a', h1, [], [], _, _, _, _, _, _, _, _ => simp [zipEval]
    | _ :: a', h1, _ :: b, _ :: b', h2, [], [], _, _, _, _, _ => simp [zipEval]
    | _ :: a', h1, _ :: b, _ :: b', h2, _ :: c, _ :: c', h3, [], [], _, _ => simp [zipEval]
    | _ :: a', h1, _ :: b, _ :: b', h2, _ :: c, _ :: c', h3, _ :: d, _ :: d', h4, [] => simp [zipEval]
    | _ :: a', h1, _ :: b, _ :: b', h2, _ :: c, _ :: c', h3, _ :: d, _ :: d', h4, _ :: t =>
      simp only [zipEval, List.length_cons]
      rw [ih b c d a' b' c' d' t (by simpa using h1) (by simpa using h2) (by simpa using h3) (by simpa using h4)]

theorem finish_sized (h : Alike st st') (party : Nat) (l : MLayer) {own own' other other' : Msg × Option SimdMsg}
    (ho : MsgAlike own own') (hr : MsgAlike other other') (t : List Triple) :
    OptRel Alike (finishLayer gmw m party st l own other t) (finishLayer gmw m party st' l own' other' t) := by
  unfold finishLayer
  simp only [Option.bind_eq_bind]
  refine OptRel.bind_eq fun gs => ?_
  obtain ⟨o1, o2, o3, o4⟩ := ho
  obtain ⟨r1, r2, r3, r4⟩ := hr
  refine OptRel.bind (R := fun (x y : List Bool × List Triple) => x.1.length = y.1.length ∧ x.2 = y.2) ?_ ?_
  · simp only [gmw, evaluateInteractive, o1, r1, Option.bind_eq_bind, Option.pure_def]
    split
    · refine OptRel.bind_eq fun u => ⟨?_, rfl⟩
      exact zipEval_len' _ _ _ _ _ _ _ _ _ _ o2 o3 r2 r3
    · trivial
  rintro ⟨zs, u⟩ ⟨zs', _⟩ ⟨hz, rfl⟩
  cases hown : own.2 with
  | none =>
    cases hown' : own'.2 with
    | some _ => rw [hown, hown'] at o4; exact o4.elim
    | none =>
      cases hoth : other.2 with
      | none =>
        cases hoth' : other'.2 with
        | none => exact putAll_alike _ h hz
        | some _ => rw [hoth, hoth'] at r4; exact r4.elim
      | some _ =>
        cases hoth' : other'.2 with
        | none => rw [hoth, hoth'] at r4; exact r4.elim
        | some _ => trivial
  | some a =>
    cases hown' : own'.2 with
    | none => rw [hown, hown'] at o4; exact o4.elim
    | some a' =>
      cases hoth : other.2 with
      | none =>
        cases hoth' : other'.2 with
        | none => trivial
        | some _ => rw [hoth, hoth'] at r4; exact r4.elim
      | some b =>
        cases hoth' : other'.2 with
        | none => rw [hoth, hoth'] at r4; exact r4.elim
        | some b' =>
          rw [hown, hown'] at o4
          rw [hoth, hoth'] at r4
          obtain ⟨p1, p2, p3⟩ := o4
          obtain ⟨q1, q2, q3⟩ := r4
          refine OptRel.bind_eq fun hs => ?_
          refine OptRel.bind (R := fun (x y : List (List Bool) × List Triple) => List.Forall₂ SameLen x.1 y.1) ?_ ?_
          · simp only [gmw, evaluateInteractiveSimd, p1, q1, Option.bind_eq_bind, Option.pure_def]
            split
            · refine OptRel.bind_eq fun u => ?_
              refine OptRel.bind (cut_alike _ ?_) fun a b hab => hab
              simp only [fastOp_length]
              split
              · simp only [fastOp_length, p2]
              · rfl
            · trivial
          · intro x y hxy
            exact (putAll_alike _ h hz).bind fun s s' hss => putAllSimd_alike _ hss hxy

theorem layers_sized {party : Nat} {inp : Input Bool (List Bool)} {su : Nat → Nat → List Triple}
    (hs : SameShape inp inp) (adv : List (Msg × Option SimdMsg) → Option (Msg × Option SimdMsg))
    (fl : List (MLayer × List Node)) :
    ∀ (k : Nat) (st st' : Store Bool (List Bool)) (sent : List (Msg × Option SimdMsg))
      (p : Proc (Msg × Option SimdMsg) (Input Bool (List Bool)))
      (tr : List ((Msg × Option SimdMsg) × (Msg × Option SimdMsg))), Alike st st' →
      Trace p (execLayers gmw m party inp su k fl st) tr →
      List.Forall₂ (fun l x => MsgSize m l x.1) (interactiveLayers m (fl.map (·.1))) tr →
      (∀ (i : Nat) (l : MLayer) (seen : List (Msg × Option SimdMsg)),
        (interactiveLayers m (fl.map (·.1)))[i]? = some l → seen.length = sent.length + i + 1 →
        ∃ r, adv seen = some r ∧ MsgSize m l r) →
      ∃ x, (interact adv sent (execLayers gmw m party inp su k fl st')).2 = some x := by
  induction fl with
  | nil =>
    intro k st st' sent p tr h ht _ _
    simp only [execLayers] at ht ⊢
    have := outputs_alike (m := m) h
    cases h1 : outputs m st with
    | none => rw [h1] at ht; exact absurd rfl ht.not_fail
    | some a =>
      cases h2 : outputs m st' with
      | none => rw [h1, h2] at this; exact this.elim
      | some b => exact ⟨b, rfl⟩
  | cons f fl ih =>
    obtain ⟨l, fs⟩ := f
    intro k st st' sent p tr h ht hsz hadv
    simp only [execLayers] at ht ⊢
    have hev := evalNodes_alike (m := m) (party := party) hs (niOf l) h
    cases h1 : evalNodes gmw m party inp st (niOf l) with
    | none => rw [h1] at ht; exact absurd rfl ht.not_fail
    | some s1 =>
      cases h2 : evalNodes gmw m party inp st' (niOf l) with
      | none => rw [h1, h2] at hev; exact hev.elim
      | some s1' =>
        rw [h1] at ht
        rw [h1, h2] at hev
        replace hev : Alike s1 s1' := hev
        by_cases h0 : intCount m l = 0
        · simp only [h0, if_true] at ht ⊢
          have hil : interactiveLayers m (((l, fs) :: fl).map (·.1)) = interactiveLayers m (fl.map (·.1)) := by
            simp [interactiveLayers, h0]
          rw [hil] at hsz hadv
          exact ih k s1 s1' sent p tr hev ht hsz hadv
        · simp only [h0, if_false] at ht ⊢
          have hil : interactiveLayers m (((l, fs) :: fl).map (·.1)) = l :: interactiveLayers m (fl.map (·.1)) := by
            simp [interactiveLayers, h0]
          rw [hil] at hsz hadv
          have hm := msgs_alike (m := m) hev party l (su k (intCount m l))
          cases c1 : computeMsgs gmw m party s1 l (su k (intCount m l)) with
          | none => rw [c1] at ht; exact absurd rfl ht.not_fail
          | some w =>
            cases c2 : computeMsgs gmw m party s1' l (su k (intCount m l)) with
            | none => rw [c1, c2] at hm; exact hm.elim
            | some w' =>
              rw [c1] at ht
              rw [c1, c2] at hm
              obtain ⟨msg, t⟩ := w
              obtain ⟨msg', t'⟩ := w'
              obtain ⟨e1, e2, e3⟩ := hm
              dsimp only at e1 e2 e3 ht ⊢
              subst e2 e3
              cases ht with
              | round ht =>
                cases hsz with
                | cons hmz hsz =>
                  rename_i m0 k0 tr
                  obtain ⟨r, hr, hrs⟩ := hadv 0 l (sent ++ [msg']) (by simp) (by simp)
                  have hf := finish_sized (m := m) (free_alike hev fs) party l e1 (msgSize_alike hmz hrs)
                    (su k (intCount m l))
                  simp only [interact, hr]
                  cases f1 : finishLayer gmw m party (free gmw s1 fs) l msg m0 (su k (intCount m l)) with
                  | none => simp only [f1] at ht; exact absurd rfl ht.not_fail
                  | some s2 =>
                    cases f2 : finishLayer gmw m party (free gmw s1' fs) l msg' r (su k (intCount m l)) with
                    | none => dsimp only at hf; rw [f1, f2] at hf; exact hf.elim
                    | some s2' =>
                      dsimp only at hf
                      rw [f1, f2] at hf
                      simp only [f1] at ht
                      refine ih (k + 1) s2 s2' (sent ++ [msg']) _ _ hf ht hsz ?_
                      intro i l' seen hi hl
                      refine hadv (i + 1) l' seen (by simpa using hi) ?_
                      simp at hl
                      omega

/-- The share that is all zero. -/
def zeroShare : Input Bool (List Bool) → Input Bool (List Bool)
  | .scalar l => .scalar (l.map fun _ => false)
  | .simd l => .simd (l.map fun x => x.map fun _ => false)

theorem xorL_zero (l : List Bool) : xorL l (l.map fun _ => false) = l := by
  induction l with
  | nil => rfl
  | cons x l ih => simp only [xorL, List.map_cons, List.zipWith_cons_cons, List.cons.injEq] at ih ⊢; exact ⟨by simp, ih⟩

theorem zero_xorL (l : List Bool) : xorL (l.map fun _ => false) l = l := by
  induction l with
  | nil => rfl
  | cons x l ih => simp only [xorL, List.map_cons, List.zipWith_cons_cons, List.cons.injEq] at ih ⊢; exact ⟨by simp, ih⟩

theorem zero_shares (inp : Input Bool (List Bool)) : Shares inp (zeroShare inp) inp ∧ Shares (zeroShare inp) inp inp := by
  cases inp with
  | scalar l => exact ⟨⟨rfl, by simp, xorL_zero l⟩, ⟨by simp, rfl, zero_xorL l⟩⟩
  | simd l =>
    refine ⟨⟨rfl, by simp, ?_⟩, ⟨by simp, rfl, ?_⟩⟩
    · induction l with
      | nil => rfl
      | cons x l ih => simp only [List.map_cons, List.zipWith_cons_cons, xorL_zero, ih]
    · induction l with
      | nil => rfl
      | cons x l ih => simp only [List.map_cons, List.zipWith_cons_cons, zero_xorL, ih]

/-! ### Theorems -/

/-- **C89**, any protocol, any circuit, any peer.  The party sends at most one message for every layer with interactive
gates, and the next one only after an answer to the last.  It returns an output only if it has sent exactly one message for every
such layer and the peer has answered each of them: with fewer answers, because the connection is lost, there is never
an output.  An output has one value for every output gate. -/
theorem execute_messages {G : Type} [GateLike G] {S V M MS T : Type} (pr : Protocol G S V M MS T) (m : Multi G)
    (party : Nat) (inp : Input S V) (setup : Nat → Nat → T) (init : Store S V)
    (adv : List (M × Option MS) → Option (M × Option MS)) (seen : List (M × Option MS)) (o : Option (Input S V))
    (h : interact adv [] (execute pr m party inp setup init) = (seen, o))
    (it : MIter) (ls : List MLayer) (e1 : MIter.new m = some it)
    (e2 : MIter.collect m ((m.circs.map fun c => c.gates.length).sum + 1) it = some ls) :
    seen.length ≤ (interactiveLayers m ls).length ∧
    (∀ i, 1 ≤ i → i < seen.length → (adv (seen.take i)).isSome) ∧
    ∀ x, o = some x → seen.length = (interactiveLayers m ls).length ∧
      (∀ i, 1 ≤ i → i ≤ seen.length → (adv (seen.take i)).isSome) ∧
      ∃ c, m.circs[0]? = some c ∧ OutputOk m c x := by
  have nothing : ([], (none : Option (Input S V))) = (seen, o) →
      seen.length ≤ (interactiveLayers m ls).length ∧
      (∀ i, 1 ≤ i → i < seen.length → (adv (seen.take i)).isSome) ∧
      ∀ x, o = some x → seen.length = (interactiveLayers m ls).length ∧
        (∀ i, 1 ≤ i → i ≤ seen.length → (adv (seen.take i)).isSome) ∧
        ∃ c, m.circs[0]? = some c ∧ OutputOk m c x := by
    intro h
    cases h
    exact ⟨by simp, by intro i h1 h2; simp at h2, by simp⟩
  cases hc : m.circs[0]? with
  | none => rw [show execute pr m party inp setup init = .fail by simp [execute, hc]] at h; rw [← hc]; exact nothing h
  | some c =>
    by_cases hl : InputLen c inp
    · cases e3 : freeable m (fun _ => none) ls with
      | none =>
        have : execute pr m party inp setup init = .fail := by
          cases inp <;> simp only [InputLen] at hl <;> simp [execute, hc, hl, e1, e2, e3]
        rw [this] at h; rw [← hc]; exact nothing h
      | some fl =>
        have : execute pr m party inp setup init = execLayers pr m party inp setup 0 fl init := by
          cases inp <;> simp only [InputLen] at hl <;> simp [execute, hc, hl, e1, e2, e3]
        rw [this] at h
        obtain ⟨more, f1, f2, f3, f4⟩ := interact_layers pr m party inp setup adv fl 0 init [] seen o h
        rw [freeable_layers m ls _ fl e3] at f2 f4
        simp only [List.nil_append] at f1 f3 f4
        subst f1
        rw [← hc]
        exact ⟨f2, f3, f4⟩
    · have : execute pr m party inp setup init = .fail := by
        cases inp <;> simp only [InputLen] at hl <;> simp [execute, hc, hl]
      rw [this] at h; rw [← hc]; exact nothing h

/-- **C89**, Boolean GMW: a peer that answers with messages of the right sizes, whatever their contents, cannot prevent the output.
Partial: conditions of C08 on circuits with sub-circuits (see `gmw_execute_correct_partial`). -/
theorem gmw_answered_partial (m : Multi BoolGate) (rank : Node → Nat) (w : WF m rank)
    (hw : ExecWF m) (hu : Unmixed m) (c0 : Base BoolGate) (hc0 : m.circs[0]? = some c0)
    (inp : Input Bool (List Bool)) (hi : InputOk m c0 inp)
    (val : Node → Bool) (valV : Node → List Bool) (hp : PlainEval m inp val valV) :
    ∃ it ls, MIter.new m = some it ∧
      MIter.collect m ((m.circs.map fun c => c.gates.length).sum + 1) it = some ls ∧
      ∀ (party : Nat), party < 2 → ∀ (setup : Nat → Nat → List Triple), (∀ k n, n ≤ (setup k n).length) →
      ∀ (init : Store Bool (List Bool)) (adv : List (Msg × Option SimdMsg) → Option (Msg × Option SimdMsg)),
        AnswersSized m ls adv →
        ∃ x, (interact adv [] (execute gmw m party inp setup init)).2 = some x ∧ OutputOk m c0 x := by
  obtain ⟨it, ls, e1, e2, ok⟩ := layers_ok_partial m rank w
  refine ⟨it, ls, e1, e2, fun party hparty setup hlen init adv hadv => ?_⟩
  obtain ⟨fl, hfl, hexe⟩ := execute_unfold c0 hc0 e1 e2 ok
  obtain ⟨z0, z1⟩ := zero_shares inp
  have hself : SameShape inp inp := by cases inp <;> rfl
  have fin : ∀ x, (interact adv [] (execute gmw m party inp setup init)).2 = some x →
      ∃ x, (interact adv [] (execute gmw m party inp setup init)).2 = some x ∧ OutputOk m c0 x := by
    intro x hx
    obtain ⟨-, -, h⟩ := execute_messages gmw m party inp setup init adv _ _ rfl it ls e1 e2
    obtain ⟨-, -, c, hc, hok⟩ := h x hx
    rw [hc0] at hc; cases hc
    exact ⟨x, hx, hok⟩
  have hsz : ∀ (i : Nat) (l : MLayer) (seen : List (Msg × Option SimdMsg)),
        (interactiveLayers m (fl.map (·.1)))[i]? = some l → seen.length = ([] : List (Msg × Option SimdMsg)).length + i + 1 →
        ∃ r, adv seen = some r ∧ MsgSize m l r := by
    intro i l seen h1 h2
    rw [hfl] at h1
    exact hadv i l seen h1 (by simpa using h2)
  have hparty : party = 0 ∨ party = 1 := by omega
  rcases hparty with rfl | rfl
  · obtain ⟨l0, l1⟩ := shares_inputLen hi z0
    obtain ⟨it', ls', o0, o1, f1, f2, -, hx, -⟩ := execute_spec_layers (pr := gmw) (setup0 := setup)
      (setup1 := partnerSetup setup []) (init0 := init) (init1 := init) w hw
      (fun _ ls _ _ ok => gmw_sound hc0 (parents_valid w) hw.base hu hi z0
        (fun k n => ⟨(partnerSetup_matching setup [] k n).1, hlen k n⟩) hp ls ok) c0 hc0 l0 l1
    rw [e1] at f1; cases f1
    rw [e2] at f2; cases f2
    obtain ⟨tr, t1, t2⟩ := exchange_trace hx
    have t1 := t1.swap
    rw [hexe 0 inp _ _ l0] at t1
    obtain ⟨x, hx⟩ := layers_sized (m := m) (party := 0) hself adv fl 0 init init [] _ _ ⟨rfl, fun _ => rfl⟩ t1 (by
      rw [hfl]
      clear * - t2
      generalize interactiveLayers m ls = q at t2 ⊢
      induction t2 with
      | nil => exact .nil
      | cons h _ ih => exact .cons h.2 ih) hsz
    rw [← hexe 0 inp _ _ l0] at hx
    exact fin x hx
  · obtain ⟨l0, l1⟩ := shares_inputLen hi z1
    obtain ⟨it', ls', o0, o1, f1, f2, -, hx, -⟩ := execute_spec_layers (pr := gmw) (setup0 := partnerSetup setup [])
      (setup1 := setup) (init0 := init) (init1 := init) w hw
      (fun _ ls _ _ ok => gmw_sound hc0 (parents_valid w) hw.base hu hi z1
        (fun k n => ⟨(partnerSetup_matching setup [] k n).2, by rw [partnerSetup_length]; exact hlen k n⟩) hp ls ok)
      c0 hc0 l0 l1
    rw [e1] at f1; cases f1
    rw [e2] at f2; cases f2
    obtain ⟨tr, t1, t2⟩ := exchange_trace hx
    rw [hexe 1 inp _ _ l1] at t1
    obtain ⟨x, hx⟩ := layers_sized (m := m) (party := 1) hself adv fl 0 init init [] _ _ ⟨rfl, fun _ => rfl⟩ t1 (by
      rw [hfl]
      exact t2.imp fun _ _ h => h.1) hsz
    rw [← hexe 1 inp _ _ l1] at hx
    exact fin x hx

/-- **C88** and **C89** for every circuit of one part, without simd: no further condition on the circuit. -/
theorem gmw_circuit_active (c : Base BoolGate) (h : BaseOk c) (hs : c.simdSize = none) :
    ∃ it ls, MIter.new (.ofBase c) = some it ∧
      MIter.collect (.ofBase c) (((Multi.ofBase c).circs.map fun c => c.gates.length).sum + 1) it = some ls ∧
      ∀ (party : Nat), party < 2 → ∀ (a b : List Bool), a.length = c.inputGates.length → b.length = c.inputGates.length →
      ∀ (init : Store Bool (List Bool)) (other : Nat → Nat → List Triple), (∀ k n, (other k n).length = n) →
      ∀ (adv : List (Msg × Option SimdMsg) → Option (Msg × Option SimdMsg)),
        (∃ f : List (List (Bool × Bool)) → List (List (Bool × Bool)),
          Set.BijOn f {x | Fit (.ofBase c) ls x} {x | Fit (.ofBase c) ls x} ∧
          ∀ masks, Fit (.ofBase c) ls masks →
            ∃ (seen : List (Msg × Option SimdMsg)) (o o' : Option (Input Bool (List Bool))),
            interact adv [] (execute gmw (.ofBase c) party (.scalar a) (partnerSetup other masks) init) = (seen, o) ∧
            interact adv [] (execute gmw (.ofBase c) party (.scalar b) (partnerSetup other (f masks)) init) = (seen, o') ∧
            o.isSome = o'.isSome) ∧
        (AnswersSized (.ofBase c) ls adv → ∀ masks, ∃ x : List Bool, x.length = c.outputGates.length ∧
          (interact adv [] (execute gmw (.ofBase c) party (.scalar a) (partnerSetup other masks) init)).2 =
            some (.scalar x)) := by
  have hns : isSimd (Multi.ofBase c) 0 = false := by simp [isSimd, Multi.ofBase, hs]
  have wf := baseOk_wf c h
  have ex := baseOk_exec c h (by simp [hs]) (by simp [hs])
  have hc0 : (Multi.ofBase c).circs[0]? = some c := by simp [Multi.ofBase]
  obtain ⟨it, ls, e1, e2, -⟩ := layers_ok_partial (Multi.ofBase c) _ wf
  refine ⟨it, ls, e1, e2, fun party hparty a b ha hb init other ho adv => ⟨?_, fun hadv masks => ?_⟩⟩
  · obtain ⟨_, _, f1, f2, p⟩ := gmw_active_private (Multi.ofBase c) _ wf (base_unmixed c) party (.scalar a) (.scalar b)
      (ha.trans hb.symm) init
    rw [e1] at f1; cases f1
    rw [e2] at f2; cases f2
    exact p other ho adv
  · obtain ⟨_, _, f1, f2, p⟩ := gmw_answered_partial (Multi.ofBase c) _ wf ex (base_unmixed c) c hc0 (.scalar a)
      ⟨hns, ha⟩ _ _ (base_plain_scalar c h hs a ha)
    rw [e1] at f1; cases f1
    rw [e2] at f2; cases f2
    obtain ⟨x, h1, h2⟩ := p party hparty (partnerSetup other masks)
      (fun k n => by rw [partnerSetup_length, ho]) init adv hadv
    cases x with
    | scalar x => exact ⟨x, h2.2, h1⟩
    | simd x => exact absurd (h2.1.symm.trans hns) (by simp)

/-! ### Cases -/

/-- The bits of a scalar output. -/
def bitsOf : Input Bool (List Bool) → List Bool
  | .scalar l => l
  | .simd l => l.flatten

/-- A peer that sends the bits `de` for the only AND gate of `callCirc`. -/
def oneAnswer (d e : Bool) : List (Msg × Option SimdMsg) → Option (Msg × Option SimdMsg)
  | [_] => some (⟨1, padWords [d], padWords [e]⟩, some ⟨[], [], []⟩)
  | _ => none

/-- The circuit with a sub-circuit call, one AND gate: the peer gets one message; an answer gives an output and its
bits decide which; a closed connection or an answer of the wrong size gives none. -/
example :
    (((interact (oneAnswer true false) [] (execute gmw callCirc 0 (.scalar [true, true])
      (partnerSetup (fun _ n => List.replicate n ⟨true, true, true⟩) [[(true, false)]]) noOutputs)).2.map bitsOf) ≠
    ((interact (oneAnswer false false) [] (execute gmw callCirc 0 (.scalar [true, true])
      (partnerSetup (fun _ n => List.replicate n ⟨true, true, true⟩) [[(true, false)]]) noOutputs)).2.map bitsOf)) ∧
    (interact (oneAnswer true false) [] (execute gmw callCirc 0 (.scalar [true, true])
      (partnerSetup (fun _ n => List.replicate n ⟨true, true, true⟩) [[(true, false)]]) noOutputs)).2.isSome = true ∧
    (interact (oneAnswer true false) [] (execute gmw callCirc 0 (.scalar [true, true])
      (partnerSetup (fun _ n => List.replicate n ⟨true, true, true⟩) [[(true, false)]]) noOutputs)).1.length = 1 ∧
    (interact (fun _ => none) [] (execute gmw callCirc 0 (.scalar [true, true])
      (partnerSetup (fun _ n => List.replicate n ⟨true, true, true⟩) [[(true, false)]]) noOutputs)).2.isSome = false ∧
    (interact (fun _ => some (⟨2, padWords [true], padWords [true]⟩, some ⟨[], [], []⟩)) []
      (execute gmw callCirc 0 (.scalar [true, true])
      (partnerSetup (fun _ n => List.replicate n ⟨true, true, true⟩) [[(true, false)]]) noOutputs)).2.isSome = false := by
  decide +kernel

/-- The hypotheses of `gmw_active_private` and `gmw_answered_partial` hold for it, and `oneAnswer` has the right size. -/
example (x y x' y' : Bool) : ∃ it ls, MIter.new callCirc = some it ∧
    MIter.collect callCirc ((callCirc.circs.map fun c => c.gates.length).sum + 1) it = some ls ∧
    Fit callCirc ls [[(true, false)]] ∧
    (∃ f, Set.BijOn f {x | Fit callCirc ls x} {x | Fit callCirc ls x} ∧ ∃ seen o o',
      interact (oneAnswer true true) [] (execute gmw callCirc 0 (.scalar [x, y])
        (partnerSetup (fun _ n => List.replicate n ⟨true, true, false⟩) [[(true, false)]]) noOutputs) = (seen, o) ∧
      interact (oneAnswer true true) [] (execute gmw callCirc 0 (.scalar [x', y'])
        (partnerSetup (fun _ n => List.replicate n ⟨true, true, false⟩) (f [[(true, false)]])) noOutputs) = (seen, o') ∧
      o.isSome = o'.isSome) ∧
    AnswersSized callCirc ls (oneAnswer true true) := by
  obtain ⟨it, ls, e1, e2, h⟩ := gmw_active_private callCirc callRank callCirc_wf callCirc_exec.2 0 (.scalar [x, y])
    (.scalar [x', y']) rfl noOutputs
  have hls : ((MIter.new callCirc).bind fun it =>
      MIter.collect callCirc ((callCirc.circs.map fun c => c.gates.length).sum + 1) it).any
      (fun ls => (interactiveLayers callCirc ls).map (intCount callCirc) = [1] ∧
        (interactiveLayers callCirc ls).map (fun l => (intScalar callCirc l).length) = [1] ∧
        (interactiveLayers callCirc ls).map (fun l => (intSimd callCirc l).length) = [0]) = true := by decide +kernel
  rw [e1, Option.bind_some, e2] at hls
  simp only [Option.any_some, decide_eq_true_eq] at hls
  obtain ⟨h1, h2, h3⟩ := hls
  have hf : Fit callCirc ls [[(true, false)]] := by rw [Fit, h1]; rfl
  obtain ⟨f, f1, f2⟩ := h (fun _ n => List.replicate n ⟨true, true, false⟩) (fun _ n => by simp) (oneAnswer true true)
  refine ⟨it, ls, e1, e2, hf, ⟨f, f1, f2 _ hf⟩, ?_⟩
  intro i l seen hi hl
  have i1 : (1 : Nat) = (intScalar callCirc l).length ∧ i = 0 := by
    have := congrArg (fun y : List Nat => y[i]?) h2
    simp only [List.getElem?_map, hi, Option.map_some] at this
    cases i with
    | zero => simpa using this.symm
    | succ i => simp at this
  have i2 : intSimd callCirc l = [] := by
    have := congrArg (fun y : List Nat => y[i]?) h3
    rw [i1.2] at this hi
    simp only [List.getElem?_map, hi, Option.map_some, i1.2, List.getElem?_cons_zero, Option.some.injEq,
      List.length_eq_zero_iff] at this
    exact this
  rw [i1.2] at hl
  match seen, hl with
  | [q], _ =>
    refine ⟨_, rfl, i1.1, ?_, ?_, ⟨[], [], []⟩, rfl, by simp [i2], rfl, rfl⟩ <;> (rw [← i1.1]; rfl)

end Verif.Exec
