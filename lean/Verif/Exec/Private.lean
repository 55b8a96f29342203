import Verif.Exec.Static
import Verif.Exec.Base
import Verif.Exec.Witness
import Mathlib.Data.Set.Finite.List
import Mathlib.Data.Set.Finite.Lattice

/-!
C77: what a party sees of an execution with Boolean GMW is independent of the other party's shares.
-/
set_option autoImplicit false

namespace Verif.Exec

open Circuit Proc Gmw

/-! ### Specification -/

/-- The messages of the two parties, round by round, of a run in which they send before they receive.
By `Exchange.runs` this is the course of every schedule. -/
inductive Trace {M O : Type} : Proc M O → Proc M O → List (M × M) → Prop
  | done (a b : O) : Trace (.done a) (.done b) []
  | round {m0 m1 : M} {k0 k1 : M → Proc M O} {tr : List (M × M)} : Trace (k0 m1) (k1 m0) tr →
      Trace (.send m0 (.recv k0)) (.send m1 (.recv k1)) ((m0, m1) :: tr)

/-- The triple that belongs to the other party's triple `t` and has the factors `ab`. -/
def partner (t : Triple) (ab : Bool × Bool) : Triple :=
  ⟨ab.1, ab.2, ((t.a ^^ ab.1) && (t.b ^^ ab.2)) ^^ t.c⟩

/-- The triples of a party whose factors are `masks`, one list for each request. -/
def partnerSetup (other : Nat → Nat → List Triple) (masks : List (List (Bool × Bool))) (k n : Nat) :
    List Triple :=
  (other k n).mapIdx fun i t => partner t ((masks.getD k []).getD i (false, false))

/-- One pair of bits for each triple requested for the layers `ls`. -/
def Fit (m : Multi BoolGate) (ls : List MLayer) (x : List (List (Bool × Bool))) : Prop :=
  x.map List.length = (interactiveLayers m ls).map (intCount m)

/-- The message for a layer whose bits `d`, `e` are given in pairs, first those of the scalar gates. -/
def layerMsg (m : Multi BoolGate) (l : MLayer) (de : List (Bool × Bool)) : Msg × Option SimdMsg :=
  let n := (intScalar m l).length
  (⟨n, padWords ((de.take n).map (·.1)), padWords ((de.take n).map (·.2))⟩,
    some ⟨padWords ((de.drop n).map (·.1)), padWords ((de.drop n).map (·.2)),
      (intSimd m l).map fun v => lanes m v.1⟩)

/-- The messages with these bits. -/
def viewMsgs (m : Multi BoolGate) (ls : List MLayer) (view : List (List (Bool × Bool))) :
    List (Msg × Option SimdMsg) :=
  List.zipWith (layerMsg m) (interactiveLayers m ls) view

/-! ### Proof -/

theorem Trace.unique {M O : Type} {p0 p1 : Proc M O} {tr tr' : List (M × M)} (h : Trace p0 p1 tr)
    (h' : Trace p0 p1 tr') : tr = tr' := by
  induction h generalizing tr' with
  | done => cases h'; rfl
  | round _ ih => cases h' with
    | round h' => rw [ih h']

theorem Trace.not_fail {M O : Type} {p0 p1 : Proc M O} {tr : List (M × M)} (h : Trace p0 p1 tr) : p1 ≠ .fail := by
  cases h <;> simp

theorem Trace.swap {M O : Type} {p0 p1 : Proc M O} {tr : List (M × M)} (h : Trace p0 p1 tr) :
    Trace p1 p0 (tr.map Prod.swap) := by
  induction h with
  | done => exact .done _ _
  | round _ ih => exact .round ih

theorem exchange_trace {M O L : Type} {Q : L → M → M → Prop} {o0 o1 : O} {ls : List L} {p0 p1 : Proc M O}
    (h : Exchange Q o0 o1 ls p0 p1) : ∃ tr, Trace p0 p1 tr ∧ List.Forall₂ (fun l x => Q l x.1 x.2) ls tr := by
  induction h with
  | done => exact ⟨[], .done _ _, .nil⟩
  | round hq _ ih =>
    obtain ⟨tr, h1, h2⟩ := ih
    exact ⟨_, .round h1, .cons hq h2⟩

theorem padWords_inj {a b : List Bool} (hl : a.length = b.length) (h : padWords a = padWords b) : a = b :=
  (List.append_inj h hl).1

def maskBits (t : Triple) : Bool × Bool := (t.a, t.b)

theorem pairs_length (gs : List BoolGate) : ∀ (t : List Triple) (xs : List Bool) (r : List (Bool × Bool)),
    computeMsgPairs gs t xs = some r → r.length ≤ t.length := by
  induction gs with
  | nil => intro t xs r h; simp [computeMsgPairs] at h; simp [h]
  | cons g gs ih =>
    intro t xs r h
    cases t with
    | nil => simp [computeMsgPairs] at h; simp [h]
    | cons mt t =>
      unfold computeMsgPairs at h
      split at h
      · rename_i x y rest
        simp only [Option.bind_eq_bind, Option.pure_def, Option.bind_eq_some_iff, Option.some.injEq] at h
        obtain ⟨r', h1, rfl⟩ := h
        have := ih _ _ _ h1
        simp only [List.length_cons]; omega
      · cases h

theorem pairs_inj (gs : List BoolGate) : ∀ (t t' : List Triple) (xs : List Bool) (r : List (Bool × Bool)),
    computeMsgPairs gs t xs = some r → computeMsgPairs gs t' xs = some r → r.length = t.length →
    t.length = t'.length → t.map maskBits = t'.map maskBits := by
  induction gs with
  | nil =>
    intro t t' xs r h h' hr hl
    simp [computeMsgPairs] at h
    subst h
    cases t <;> cases t' <;> simp_all
  | cons g gs ih =>
    intro t t' xs r h h' hr hl
    cases t with
    | nil => cases t' <;> simp_all
    | cons mt t =>
      cases t' with
      | nil => simp at hl
      | cons mt' t' =>
        unfold computeMsgPairs at h h'
        split at h
        · rename_i x y rest
          simp only [Option.bind_eq_bind, Option.pure_def, Option.bind_eq_some_iff, Option.some.injEq] at h h'
          obtain ⟨r1, h1, rfl⟩ := h
          obtain ⟨r2, h2, h3⟩ := h'
          simp only [List.cons.injEq, andComputeShares, Prod.mk.injEq] at h3
          obtain ⟨⟨e1, e2⟩, rfl⟩ := h3
          simp only [List.length_cons, Nat.add_right_cancel_iff] at hr hl
          simp only [List.map_cons, ih _ _ _ _ h1 h2 hr hl, List.cons.injEq, and_true, maskBits, Prod.mk.injEq]
          constructor
          · revert e1; cases mt.a <;> cases mt'.a <;> cases x <;> simp
          · revert e2; cases mt.b <;> cases mt'.b <;> cases y <;> simp
        · cases h

theorem chunkPairs_lengths : ∀ (xs : List (List Bool)) (prs : List (List Bool × List Bool)),
    chunkPairs xs = some prs → ∀ p ∈ prs, p.1.length = p.2.length
  | [], prs, h => by simp [chunkPairs] at h; simp [h]
  | [x], prs, h => by simp [chunkPairs] at h
  | x :: y :: rest, prs, h => by
    unfold chunkPairs at h
    split at h
    · rename_i hxy
      simp only [Option.bind_eq_bind, Option.pure_def, Option.bind_eq_some_iff, Option.some.injEq] at h
      obtain ⟨r, h1, rfl⟩ := h
      intro p hp
      rcases List.mem_cons.1 hp with rfl | hp
      · exact hxy
      · exact chunkPairs_lengths rest r h1 p hp
    · cases h

theorem computeMsgSimd_parts {ys : List (List Bool)} {t : List Triple} {msg : SimdMsg}
    (h : computeMsgSimd ys t = some msg) :
    ∃ prs, chunkPairs ys = some prs ∧ msg.simdSizes = prs.map (·.1.length) ∧
      (prs.map (·.1)).flatten.length = msg.simdSizes.sum ∧ (prs.map (·.2)).flatten.length = msg.simdSizes.sum ∧
      msg.simdSizes.sum ≤ t.length ∧
      msg.d = padWords (xorL (prs.map (·.2)).flatten ((t.drop (t.length - msg.simdSizes.sum)).map (·.a))) ∧
      msg.e = padWords (xorL (prs.map (·.1)).flatten ((t.drop (t.length - msg.simdSizes.sum)).map (·.b))) := by
  simp only [computeMsgSimd, Option.bind_eq_bind, Option.pure_def, Option.bind_eq_some_iff, Option.some.injEq] at h
  obtain ⟨prs, hp, ⟨rest, used⟩, hs, rfl⟩ := h
  have hlen := chunkPairs_lengths _ _ hp
  have l1 : (prs.map (·.1)).flatten.length = (prs.map (·.1.length)).sum := by
    rw [List.length_flatten, List.map_map]; rfl
  have l2 : (prs.map (·.2)).flatten.length = (prs.map (·.1.length)).sum := by
    rw [List.length_flatten, List.map_map]
    congr 1
    exact List.map_congr_left fun p hp => (hlen p hp).symm
  rw [l2, splitOffLast] at hs
  split at hs
  · rename_i hle
    simp only [Option.some.injEq, Prod.mk.injEq] at hs
    refine ⟨prs, hp, rfl, l1, l2, hle, ?_, ?_⟩
    · rw [hs.2]
    · rw [hs.2]
  · cases hs

theorem computeMsgs_parts {m : Multi BoolGate} {party : Nat} {st : Store Bool (List Bool)} {l : MLayer}
    {t u : List Triple} {msg : Msg × Option SimdMsg} (h : computeMsgs gmw m party st l t = some (msg, u)) :
    ∃ gs xs ys r sm, (intScalar m l).mapM m.gate? = some gs ∧
      (intScalar m l).mapM (fun v => (m.parents v).mapM (st.get m)) = some xs ∧
      (intSimd m l).mapM (fun v => (m.parents v).mapM (st.getSimd m)) = some ys ∧
      computeMsgPairs gs t.reverse xs.flatten = some r ∧
      msg.1 = ⟨r.length, padWords (r.map (·.1)), padWords (r.map (·.2))⟩ ∧
      computeMsgSimd ys.flatten t = some sm ∧ msg.2 = some sm ∧ u = t := by
  unfold computeMsgs at h
  simp only [gmw, if_true, Option.bind_eq_bind, Option.pure_def, Option.bind_eq_some_iff, Option.some.injEq,
    Option.map_eq_some_iff, computeMsg, Prod.mk.injEq, Prod.exists] at h
  obtain ⟨gs, h1, xs, h2, a, b, ⟨x, ⟨r, h3, h4⟩, rfl, rfl⟩, hs, h5, ys, h6, c, d, ⟨sm, h7, rfl, rfl⟩, h8, h9⟩ := h
  subst h4 h9
  refine ⟨gs, xs, ys, r, sm, h1, h2, h6, h3, ?_, h7, ?_, rfl⟩
  · rw [← h8]; simp
  · rw [← h8]

theorem msg_shape {m : Multi BoolGate} {party : Nat} {st : Store Bool (List Bool)} {l : MLayer}
    {t u : List Triple} {msg : Msg × Option SimdMsg} (h : computeMsgs gmw m party st l t = some (msg, u))
    (hs : MsgSize m l msg) : ∃ de, de.length = intCount m l ∧ msg = layerMsg m l de := by
  obtain ⟨gs, xs, ys, r, sm, -, -, -, -, h1, h2, h3, -⟩ := computeMsgs_parts h
  obtain ⟨s1, -, -, b, hb, s2, -, -⟩ := hs
  rw [h3] at hb
  cases hb
  obtain ⟨prs, -, -, p1, p2, p3, p4, p5⟩ := computeMsgSimd_parts h2
  have hr : r.length = (intScalar m l).length := by rw [← s1, h1]
  generalize hD : xorL (prs.map (·.2)).flatten ((t.drop (t.length - sm.simdSizes.sum)).map (·.a)) = D at p4
  generalize hE : xorL (prs.map (·.1)).flatten ((t.drop (t.length - sm.simdSizes.sum)).map (·.b)) = E at p5
  have lD : D.length = sm.simdSizes.sum := by rw [← hD, xorL_length, p2]; simp; omega
  have lE : E.length = sm.simdSizes.sum := by rw [← hE, xorL_length, p1]; simp; omega
  refine ⟨r ++ D.zip E, ?_, ?_⟩
  · rw [List.length_append, List.length_zip, lD, lE, hr, intCount_eq, s2]; simp
  · unfold layerMsg
    simp only [← hr, List.take_left', List.drop_left']
    rw [show ((D.zip E).map (·.1)) = D from by rw [List.map_fst_zip]; omega,
      show ((D.zip E).map (·.2)) = E from by rw [List.map_snd_zip]; omega, ← s2, ← p4, ← p5, ← h1, ← h3]

theorem msg_masks {m : Multi BoolGate} {party : Nat} {st : Store Bool (List Bool)} {l : MLayer}
    {t t' u u' : List Triple} {msg : Msg × Option SimdMsg} (h : computeMsgs gmw m party st l t = some (msg, u))
    (h' : computeMsgs gmw m party st l t' = some (msg, u')) (hs : MsgSize m l msg)
    (hl : t.length = intCount m l) (hl' : t'.length = intCount m l)
    (hu : intScalar m l = [] ∨ intSimd m l = []) : t.map maskBits = t'.map maskBits := by
  obtain ⟨gs, xs, ys, r, sm, a1, a2, a3, a4, a5, a6, a7, -⟩ := computeMsgs_parts h
  obtain ⟨gs', xs', ys', r', sm', b1, b2, b3, b4, b5, b6, b7, -⟩ := computeMsgs_parts h'
  rw [a1] at b1; cases b1
  rw [a2] at b2; cases b2
  rw [a3] at b3; cases b3
  rw [a7] at b7; cases b7
  obtain ⟨s1, -, -, b, hb, s2, -, -⟩ := hs
  rw [a7] at hb; cases hb
  rcases hu with hu | hu
  · obtain ⟨prs, p0, -, p1, p2, p3, p4, p5⟩ := computeMsgSimd_parts a6
    obtain ⟨prs', q0, -, -, -, -, q4, q5⟩ := computeMsgSimd_parts b6
    rw [p0] at q0; cases q0
    have hsum : sm.simdSizes.sum = intCount m l := by rw [intCount_eq, hu, s2]; simp
    rw [hsum] at p1 p2
    rw [hsum, hl, Nat.sub_self, List.drop_zero] at p4 p5
    rw [hsum, hl', Nat.sub_self, List.drop_zero] at q4 q5
    have e1 := padWords_inj (by simp [xorL_length, hl, hl']) (p4.symm.trans q4)
    have e2 := padWords_inj (by simp [xorL_length, hl, hl']) (p5.symm.trans q5)
    have canc : ∀ (x a a' : List Bool), x.length = a.length → a.length = a'.length → xorL x a = xorL x a' → a = a' := by
      intro x
      induction x with
      | nil => intro a a' h1 h2 _; cases a <;> cases a' <;> simp_all
      | cons x xs ih =>
        intro a a' h1 h2 h3
        cases a with
        | nil => simp at h1
        | cons y ys =>
          cases a' with
          | nil => simp at h2
          | cons z zs =>
            simp only [xorL, List.zipWith_cons_cons, List.cons.injEq] at h3
            simp only [List.length_cons, Nat.add_right_cancel_iff] at h1 h2
            rw [ih ys zs h1 h2 h3.2]
            have := h3.1
            revert this
            cases x <;> cases y <;> cases z <;> simp
    have f1 := canc _ _ _ (by rw [p2, List.length_map, hl]) (by simp [hl, hl']) e1
    have f2 := canc _ _ _ (by rw [p1, List.length_map, hl]) (by simp [hl, hl']) e2
    have key : ∀ s : List Triple, s.map maskBits = (s.map (·.a)).zip (s.map (·.b)) := by
      intro s; rw [List.zip_map']; rfl
    rw [key, key, f1, f2]
  · have hn : (intScalar m l).length = intCount m l := by rw [intCount_eq, hu]; simp
    have hr : r.length = intCount m l := by rw [← hn, ← s1, a5]
    have e := a5.symm.trans b5
    simp only [Msg.mk.injEq] at e
    have hr' : r' = r := by
      have d1 := padWords_inj (by simp [e.1]) e.2.1
      have d2 := padWords_inj (by simp [e.1]) e.2.2
      have key : ∀ s : List (Bool × Bool), s = (s.map (·.1)).zip (s.map (·.2)) := by
        intro s; rw [List.zip_map']; simp
      rw [key r, key r', d1, d2]
    subst hr'
    have := pairs_inj gs _ _ _ _ a4 b4 (by simp [hr, hl]) (by simp [hl, hl'])
    simpa using congrArg List.reverse this

theorem trace_masks {m : Multi BoolGate} {party : Nat} {inp : Input Bool (List Bool)}
    {s s' : Nat → Nat → List Triple} (hl : ∀ k n, (s k n).length = n) (hl' : ∀ k n, (s' k n).length = n)
    (hdet : ∀ k n, (s k n).map maskBits = (s' k n).map maskBits → s k n = s' k n)
    (fl : List (MLayer × List Node)) (hu : ∀ l ∈ fl.map (·.1), intScalar m l = [] ∨ intSimd m l = []) :
    ∀ (k : Nat) (st : Store Bool (List Bool)) (p : Proc (Msg × Option SimdMsg) (Input Bool (List Bool)))
      (tr tr' : List ((Msg × Option SimdMsg) × (Msg × Option SimdMsg))),
      Trace p (execLayers gmw m party inp s k fl st) tr → Trace p (execLayers gmw m party inp s' k fl st) tr' →
      List.Forall₂ (fun l x => MsgSize m l x.2) (interactiveLayers m (fl.map (·.1))) tr →
      tr.map (·.2) = tr'.map (·.2) →
      ∀ (i : Nat) (l : MLayer), (interactiveLayers m (fl.map (·.1)))[i]? = some l →
        s (k + i) (intCount m l) = s' (k + i) (intCount m l) := by
  induction fl with
  | nil => intro k st p tr tr' _ _ _ _ i l hi; simp [interactiveLayers] at hi
  | cons f fl ih =>
    obtain ⟨l, fs⟩ := f
    have ih := ih fun l h => hu l (List.mem_cons_of_mem _ h)
    intro k st p tr tr' ht ht' hsz he i l' hi
    simp only [execLayers] at ht ht'
    cases hev : evalNodes gmw m party inp st (niOf l) with
    | none => rw [hev] at ht; cases ht
    | some st1 =>
      rw [hev] at ht ht'
      by_cases h0 : intCount m l = 0
      · simp only [h0, if_true] at ht ht'
        have hil : interactiveLayers m (((l, fs) :: fl).map (·.1)) = interactiveLayers m (fl.map (·.1)) := by
          simp [interactiveLayers, h0]
        rw [hil] at hsz hi
        exact ih k st1 p tr tr' ht ht' hsz he i l' hi
      · simp only [h0, if_false] at ht ht'
        have hil : interactiveLayers m (((l, fs) :: fl).map (·.1)) = l :: interactiveLayers m (fl.map (·.1)) := by
          simp [interactiveLayers, h0]
        rw [hil] at hsz hi
        cases hc : computeMsgs gmw m party st1 l (s k (intCount m l)) with
        | none => rw [hc] at ht; cases ht
        | some r =>
          obtain ⟨msg, u⟩ := r
          rw [hc] at ht
          cases hc' : computeMsgs gmw m party st1 l (s' k (intCount m l)) with
          | none => rw [hc'] at ht'; cases ht'
          | some r' =>
            obtain ⟨msg', u'⟩ := r'
            rw [hc'] at ht'
            cases ht with
            | round ht =>
              cases ht' with
              | round ht' =>
                simp only [List.map_cons, List.cons.injEq] at he
                obtain ⟨rfl, he⟩ := he
                cases hsz with
                | cons hm hsz =>
                  have hms := hdet _ _ (msg_masks hc hc' hm (hl _ _) (hl' _ _) (hu l (by simp)))
                  rw [hms] at hc
                  rw [hc'] at hc
                  simp only [Option.some.injEq, Prod.mk.injEq, true_and] at hc
                  rename_i m0 k0 tr tr'
                  rw [← hc] at ht
                  cases hf : finishLayer gmw m party (free gmw st1 fs) l msg m0 u' with
                  | none => simp only [hf] at ht; exact absurd rfl ht.not_fail
                  | some st2 =>
                    simp only [hf] at ht ht'
                    cases i with
                    | zero => simp only [List.getElem?_cons_zero, Option.some.injEq] at hi; subst hi; exact hms
                    | succ i =>
                      have := ih (k + 1) st2 _ _ _ ht ht' hsz he i l' (by simpa using hi)
                      rw [show k + (i + 1) = k + 1 + i by omega]
                      exact this

theorem trace_shape {m : Multi BoolGate} {party : Nat} {inp : Input Bool (List Bool)}
    {s : Nat → Nat → List Triple} (fl : List (MLayer × List Node)) :
    ∀ (k : Nat) (st : Store Bool (List Bool)) (p : Proc (Msg × Option SimdMsg) (Input Bool (List Bool)))
      (tr : List ((Msg × Option SimdMsg) × (Msg × Option SimdMsg))),
      Trace p (execLayers gmw m party inp s k fl st) tr →
      List.Forall₂ (fun l x => MsgSize m l x.2) (interactiveLayers m (fl.map (·.1))) tr →
      ∃ view, Fit m (fl.map (·.1)) view ∧ tr.map (·.2) = viewMsgs m (fl.map (·.1)) view := by
  induction fl with
  | nil => intro k st p tr _ h; cases h; exact ⟨[], rfl, rfl⟩
  | cons f fl ih =>
    obtain ⟨l, fs⟩ := f
    intro k st p tr ht hsz
    simp only [execLayers] at ht
    cases hev : evalNodes gmw m party inp st (niOf l) with
    | none => rw [hev] at ht; cases ht
    | some st1 =>
      rw [hev] at ht
      by_cases h0 : intCount m l = 0
      · simp only [h0, if_true] at ht
        have hil : interactiveLayers m (((l, fs) :: fl).map (·.1)) = interactiveLayers m (fl.map (·.1)) := by
          simp [interactiveLayers, h0]
        rw [hil] at hsz
        unfold Fit viewMsgs
        rw [hil]
        exact ih k st1 p tr ht hsz
      · simp only [h0, if_false] at ht
        have hil : interactiveLayers m (((l, fs) :: fl).map (·.1)) = l :: interactiveLayers m (fl.map (·.1)) := by
          simp [interactiveLayers, h0]
        rw [hil] at hsz
        cases hc : computeMsgs gmw m party st1 l (s k (intCount m l)) with
        | none => rw [hc] at ht; cases ht
        | some r =>
          obtain ⟨msg, u⟩ := r
          rw [hc] at ht
          cases ht with
          | round ht =>
            cases hsz with
            | cons hm hsz =>
              rename_i m0 k0 tr
              cases hf : finishLayer gmw m party (free gmw st1 fs) l msg m0 u with
              | none => simp only [hf] at ht; exact absurd rfl ht.not_fail
              | some st2 =>
                simp only [hf] at ht
                obtain ⟨view, v1, v2⟩ := ih (k + 1) st2 _ _ ht hsz
                obtain ⟨de, d1, d2⟩ := msg_shape hc hm
                refine ⟨de :: view, ?_, ?_⟩
                · unfold Fit at v1 ⊢; rw [hil]; simp [d1, v1]
                · unfold viewMsgs at v2 ⊢; rw [hil]; simp [d2, v2]

theorem finite_lengths {α : Type} [Finite α] (ns : List Nat) :
    {x : List (List α) | x.map List.length = ns}.Finite := by
  induction ns with
  | nil => exact (Set.finite_singleton []).subset fun x hx => by simpa using hx
  | cons n ns ih =>
    refine (Set.Finite.image2 List.cons (List.finite_length_eq α n) ih).subset ?_
    intro x hx
    cases x with
    | nil => cases hx
    | cons a x =>
      simp only [Set.mem_ofPred_eq, List.map_cons, List.cons.injEq] at hx
      exact ⟨a, hx.1, x, hx.2, rfl⟩

/-- An injective map from lists of given lengths to such lists is onto. -/
theorem unique_view {α β : Type} [Finite α] (ns : List Nat) (T : List (List α) → β → Prop)
    (msgs : List (List α) → β)
    (hrun : ∀ x, x.map List.length = ns → ∃ v, v.map List.length = ns ∧ T x (msgs v))
    (hinj : ∀ x x' b, x.map List.length = ns → x'.map List.length = ns → T x b → T x' b → x = x') :
    ∀ v, v.map List.length = ns → ∃! x, x.map List.length = ns ∧ T x (msgs v) := by
  let X := {x : List (List α) // x.map List.length = ns}
  have hfin : Finite X := (finite_lengths ns).to_subtype
  choose f hf1 hf2 using hrun
  let F : X → X := fun x => ⟨f x.1 x.2, hf1 x.1 x.2⟩
  have hF : Function.Injective F := by
    intro x y h
    have h' : f x.1 x.2 = f y.1 y.2 := congrArg Subtype.val h
    exact Subtype.ext (hinj x.1 y.1 _ x.2 y.2 (hf2 x.1 x.2) (h' ▸ hf2 y.1 y.2))
  intro v hv
  obtain ⟨x, hx⟩ := (Finite.injective_iff_surjective.1 hF) ⟨v, hv⟩
  have hx' : f x.1 x.2 = v := congrArg Subtype.val hx
  refine ⟨x.1, ⟨x.2, hx' ▸ hf2 x.1 x.2⟩, fun y hy => ?_⟩
  exact hinj y x.1 _ hy.1 x.2 hy.2 (hx' ▸ hf2 x.1 x.2)

section
variable (other : Nat → Nat → List Triple) (masks : List (List (Bool × Bool)))

theorem partnerSetup_length (k n : Nat) : (partnerSetup other masks k n).length = (other k n).length := by
  simp [partnerSetup]

theorem partnerSetup_matching (k n : Nat) : Matching (other k n) (partnerSetup other masks k n) ∧
    Matching (partnerSetup other masks k n) (other k n) := by
  have key : ∀ (t : List Triple) (f : Nat → Triple → Bool × Bool),
      Matching t (t.mapIdx fun i x => partner x (f i x)) ∧ Matching (t.mapIdx fun i x => partner x (f i x)) t := by
    intro t
    induction t with
    | nil => intro f; exact ⟨.nil, .nil⟩
    | cons x t ih =>
      intro f
      rw [List.mapIdx_cons]
      obtain ⟨h1, h2⟩ := ih fun i => f (i + 1)
      refine ⟨.cons ?_ h1, .cons ?_ h2⟩
      · simp only [ValidPair, partner]
        cases x.a <;> cases x.b <;> cases x.c <;> cases (f 0 x).1 <;> cases (f 0 x).2 <;> rfl
      · simp only [ValidPair, partner]
        cases x.a <;> cases x.b <;> cases x.c <;> cases (f 0 x).1 <;> cases (f 0 x).2 <;> rfl
  exact key _ _

theorem partnerSetup_det (masks' : List (List (Bool × Bool))) (k n : Nat)
    (h : (partnerSetup other masks k n).map maskBits = (partnerSetup other masks' k n).map maskBits) :
    partnerSetup other masks k n = partnerSetup other masks' k n := by
  apply List.ext_getElem
  · simp [partnerSetup]
  · intro i h1 h2
    have hi : i < (other k n).length := by simpa [partnerSetup] using h1
    have e := congrArg (fun l : List (Bool × Bool) => l[i]?) h
    simp only [partnerSetup, List.getElem?_map, List.getElem?_mapIdx, List.getElem?_eq_getElem hi, Option.map_some,
      Option.some.injEq, partner, maskBits] at e
    simp only [partnerSetup, List.getElem_mapIdx]
    rw [Prod.mk.eta, Prod.mk.eta] at e
    rw [e]

theorem partnerSetup_bits (hl : ∀ k n, (other k n).length = n) {k n : Nat} {x : List (Bool × Bool)}
    (hk : masks[k]? = some x) (hx : x.length = n) : (partnerSetup other masks k n).map maskBits = x := by
  apply List.ext_getElem
  · simp [partnerSetup, hl, hx]
  · intro i h1 h2
    simp [partnerSetup, partner, maskBits, List.getD_eq_getElem?_getD, hk, List.getElem?_eq_getElem h2]

end

theorem fit_get {m : Multi BoolGate} {ls : List MLayer} {x : List (List (Bool × Bool))} (h : Fit m ls x) {i : Nat} {l : MLayer}
    (hi : (interactiveLayers m ls)[i]? = some l) : ∃ a, x[i]? = some a ∧ a.length = intCount m l := by
  have e := congrArg (fun y : List Nat => y[i]?) h
  simp only [List.getElem?_map, hi, Option.map_some, Option.map_eq_some_iff] at e
  exact e

theorem masks_eq {m : Multi BoolGate} {ls : List MLayer} {other : Nat → Nat → List Triple}
    (hl : ∀ k n, (other k n).length = n) {x y : List (List (Bool × Bool))} (hx : Fit m ls x) (hy : Fit m ls y)
    (h : ∀ (i : Nat) (l : MLayer), (interactiveLayers m ls)[i]? = some l →
      partnerSetup other x (0 + i) (intCount m l) = partnerSetup other y (0 + i) (intCount m l)) : x = y := by
  have lx : x.length = (interactiveLayers m ls).length := by simpa using congrArg List.length hx
  have ly : y.length = (interactiveLayers m ls).length := by simpa using congrArg List.length hy
  apply List.ext_getElem?
  intro i
  cases hi : (interactiveLayers m ls)[i]? with
  | none =>
    have := List.getElem?_eq_none_iff.1 hi
    rw [List.getElem?_eq_none (by omega), List.getElem?_eq_none (by omega)]
  | some l =>
    obtain ⟨a, ha, la⟩ := fit_get hx hi
    obtain ⟨b, hb, lb⟩ := fit_get hy hi
    have e := h i l hi
    rw [Nat.zero_add] at e
    have e1 := partnerSetup_bits other x hl ha la
    have e2 := partnerSetup_bits other y hl hb lb
    rw [ha, hb, ← e1, ← e2, e]

theorem unmixed_layers {m : Multi BoolGate} (hu : Unmixed m) {ls : List MLayer} (ok : LayersOk m ls) :
    ∀ l ∈ ls, intScalar m l = [] ∨ intSimd m l = [] := by
  intro l hl
  have hand : ∀ v ∈ intNodes l, m.gate? v = some .and := by
    intro v hv
    obtain ⟨g, hg, hi⟩ := ok.inter l hl v hv
    rw [hg, gate_and_of_interactive hi]
  rcases hu with hu | hu
  · right
    rw [List.eq_nil_iff_forall_not_mem]
    intro v hv
    have := hu v (hand v (mem_intSimd hv).1)
    rw [(mem_intSimd hv).2] at this; cases this
  · left
    rw [List.eq_nil_iff_forall_not_mem]
    intro v hv
    have := hu v (hand v (mem_intScalar hv).1)
    rw [(mem_intScalar hv).2] at this; cases this

theorem execute_unfold {m : Multi BoolGate} (c0 : Base BoolGate)
    (hc0 : m.circs[0]? = some c0) {it : MIter} {ls : List MLayer} (e1 : MIter.new m = some it)
    (e2 : MIter.collect m ((m.circs.map fun c => c.gates.length).sum + 1) it = some ls) (ok : LayersOk m ls) :
    ∃ fl : List (MLayer × List Node), fl.map (·.1) = ls ∧ ∀ (party : Nat) (inp : Input Bool (List Bool))
      (setup : Nat → Nat → List Triple) (init : Store Bool (List Bool)), InputLen c0 inp →
      execute gmw m party inp setup init = execLayers gmw m party inp setup 0 fl init := by
  obtain ⟨fl, e3, hfl, hfree⟩ := freeable_spec (m := m) ls [] (fun _ => none)
    (by simpa using ok.once) (by intro u _; simp) (by intro w hw; simp at hw) ok.topo
  refine ⟨fl, hfl, fun party inp setup init hl => ?_⟩
  cases inp <;> simp only [InputLen] at hl <;> simp [execute, hc0, hl, e1, e2, e3]

theorem shares_inputLen {m : Multi BoolGate} {c0 : Base BoolGate} {inp0 inp1 inp : Input Bool (List Bool)}
    (hi : InputOk m c0 inp) (hin : Shares inp0 inp1 inp) : InputLen c0 inp0 ∧ InputLen c0 inp1 := by
  match inp0, inp1, inp, hi, hin with
  | .scalar a, .scalar b, .scalar c, hi, hin =>
    exact ⟨(hin.1.trans hi.2).symm, (hin.2.1.trans hi.2).symm⟩
  | .simd a, .simd b, .simd c, hi, hin =>
    have h1 : a.length = c.length := by simpa using congrArg List.length hin.1
    have h2 : b.length = c.length := by simpa using congrArg List.length hin.2.1
    exact ⟨(h1.trans hi.2).symm, (h2.trans hi.2).symm⟩

/-- **C77.**  Boolean GMW with fixed shares of both parties and fixed triples of party 0.  Whatever messages of
the sizes given by the layers party 0 receives, there is exactly one choice of the factors of party 1's triples that leads to them;
and every choice leads to some.  With uniformly random factors the messages party 0 receives are therefore uniformly
distributed, whatever party 1's share is.  The second half is the same with the parties exchanged.
Partial: conditions of C08 (see `gmw_execute_correct_partial`); with scalar and simd AND gates in one layer the claim is
false, since masks are reused (`mixed_layer_reuses_mask`). -/
theorem gmw_view_uniform_partial (m : Multi BoolGate) (rank : Node → Nat) (w : WF m rank)
    (hw : ExecWF m) (hu : Unmixed m) (c0 : Base BoolGate) (hc0 : m.circs[0]? = some c0)
    (inp0 inp1 inp : Input Bool (List Bool)) (hi : InputOk m c0 inp) (hin : Shares inp0 inp1 inp)
    (init0 init1 : Store Bool (List Bool)) (val : Node → Bool) (valV : Node → List Bool)
    (hp : PlainEval m inp val valV) :
    ∃ it ls, MIter.new m = some it ∧
      MIter.collect m ((m.circs.map fun c => c.gates.length).sum + 1) it = some ls ∧
      (∀ setup0 : Nat → Nat → List Triple, (∀ k n, (setup0 k n).length = n) →
        (∀ masks, Fit m ls masks → ∃ tr view, Fit m ls view ∧
          Trace (execute gmw m 0 inp0 setup0 init0) (execute gmw m 1 inp1 (partnerSetup setup0 masks) init1) tr ∧
          tr.map (·.2) = viewMsgs m ls view) ∧
        ∀ view, Fit m ls view → ∃! masks, Fit m ls masks ∧ ∃ tr,
          Trace (execute gmw m 0 inp0 setup0 init0) (execute gmw m 1 inp1 (partnerSetup setup0 masks) init1) tr ∧
          tr.map (·.2) = viewMsgs m ls view) ∧
      (∀ setup1 : Nat → Nat → List Triple, (∀ k n, (setup1 k n).length = n) →
        (∀ masks, Fit m ls masks → ∃ tr view, Fit m ls view ∧
          Trace (execute gmw m 0 inp0 (partnerSetup setup1 masks) init0) (execute gmw m 1 inp1 setup1 init1) tr ∧
          tr.map (·.1) = viewMsgs m ls view) ∧
        ∀ view, Fit m ls view → ∃! masks, Fit m ls masks ∧ ∃ tr,
          Trace (execute gmw m 0 inp0 (partnerSetup setup1 masks) init0) (execute gmw m 1 inp1 setup1 init1) tr ∧
          tr.map (·.1) = viewMsgs m ls view) := by
  obtain ⟨l0, l1⟩ := shares_inputLen hi hin
  obtain ⟨it, ls, e1, e2, ok⟩ := layers_ok_partial m rank w
  obtain ⟨fl, hfl, hexe⟩ := execute_unfold c0 hc0 e1 e2 ok
  have hum := unmixed_layers hu ok
  rw [← hfl] at hum
  have trace : ∀ setup0 setup1 : Nat → Nat → List Triple,
      (∀ k n, Matching (setup0 k n) (setup1 k n) ∧ n ≤ (setup0 k n).length) →
      ∃ tr, Trace (execute gmw m 0 inp0 setup0 init0) (execute gmw m 1 inp1 setup1 init1) tr ∧
        List.Forall₂ (fun l x => MsgSize m l x.1 ∧ MsgSize m l x.2) (interactiveLayers m ls) tr := by
    intro setup0 setup1 hset
    obtain ⟨it', ls', o0, o1, f1, f2, -, hx, -⟩ := execute_spec_layers (pr := gmw) (setup0 := setup0)
      (setup1 := setup1) (init0 := init0) (init1 := init1) w hw
      (fun _ ls _ _ ok => gmw_sound hc0 (parents_valid w) hw.base hu hi hin hset hp ls ok) c0 hc0 l0 l1
    rw [e1] at f1; cases f1
    rw [e2] at f2; cases f2
    exact exchange_trace hx
  have swapped : ∀ tr : List ((Msg × Option SimdMsg) × (Msg × Option SimdMsg)),
      (tr.map Prod.swap).map (·.2) = tr.map (·.1) := by
    intro tr; rw [List.map_map]; rfl
  have swapF : ∀ {a : List MLayer} {tr : List ((Msg × Option SimdMsg) × (Msg × Option SimdMsg))},
      List.Forall₂ (fun l x => MsgSize m l x.1) a tr →
      List.Forall₂ (fun l x => MsgSize m l x.2) a (tr.map Prod.swap) := by
    intro a tr h
    induction h with
    | nil => exact .nil
    | cons h _ ih => exact .cons h ih
  refine ⟨it, ls, e1, e2, fun setup0 hlen => ?_, fun setup1 hlen => ?_⟩
  · have hrun : ∀ masks, Fit m ls masks → ∃ tr view, Fit m ls view ∧
        Trace (execute gmw m 0 inp0 setup0 init0) (execute gmw m 1 inp1 (partnerSetup setup0 masks) init1) tr ∧
        tr.map (·.2) = viewMsgs m ls view := by
      intro masks _
      obtain ⟨tr, h1, h2⟩ := trace setup0 (partnerSetup setup0 masks)
        fun k n => ⟨(partnerSetup_matching setup0 masks k n).1, by rw [hlen]⟩
      have h1' := h1
      rw [hexe 1 inp1 _ _ l1] at h1'
      obtain ⟨view, v1, v2⟩ := trace_shape fl 0 init1 _ tr h1' (by rw [hfl]; exact h2.imp fun _ _ h => h.2)
      rw [hfl] at v1 v2
      exact ⟨tr, view, v1, h1, v2⟩
    refine ⟨hrun, ?_⟩
    refine unique_view _ (fun masks b => ∃ tr, Trace (execute gmw m 0 inp0 setup0 init0)
        (execute gmw m 1 inp1 (partnerSetup setup0 masks) init1) tr ∧ tr.map (·.2) = b) (viewMsgs m ls) ?_ ?_
    · intro x hx
      obtain ⟨tr, view, h1, h2, h3⟩ := hrun x hx
      exact ⟨view, h1, tr, h2, h3⟩
    · rintro x y b hx hy ⟨tr, h1, h2⟩ ⟨tr', h3, h4⟩
      obtain ⟨tr0, t1, t2⟩ := trace setup0 (partnerSetup setup0 x)
        fun k n => ⟨(partnerSetup_matching setup0 x k n).1, by rw [hlen]⟩
      rw [t1.unique h1] at t2
      rw [hexe 1 inp1 _ _ l1] at h1 h3
      refine masks_eq hlen hx hy ?_
      rw [← hfl]
      exact trace_masks (fun k n => by rw [partnerSetup_length, hlen]) (fun k n => by rw [partnerSetup_length, hlen])
        (fun k n => partnerSetup_det setup0 x y k n) fl hum 0 init1 _ tr tr' h1 h3
        (by rw [hfl]; exact t2.imp fun _ _ h => h.2) (h2.trans h4.symm)
  · have hrun : ∀ masks, Fit m ls masks → ∃ tr view, Fit m ls view ∧
        Trace (execute gmw m 0 inp0 (partnerSetup setup1 masks) init0) (execute gmw m 1 inp1 setup1 init1) tr ∧
        tr.map (·.1) = viewMsgs m ls view := by
      intro masks _
      obtain ⟨tr, h1, h2⟩ := trace (partnerSetup setup1 masks) setup1
        fun k n => ⟨(partnerSetup_matching setup1 masks k n).2, by rw [partnerSetup_length, hlen]⟩
      have h1' := h1.swap
      rw [hexe 0 inp0 _ _ l0] at h1'
      obtain ⟨view, v1, v2⟩ := trace_shape fl 0 init0 _ _ h1' (by rw [hfl]; exact swapF (h2.imp fun _ _ h => h.1))
      rw [hfl] at v1 v2
      rw [swapped] at v2
      exact ⟨tr, view, v1, h1, v2⟩
    refine ⟨hrun, ?_⟩
    refine unique_view _ (fun masks b => ∃ tr, Trace (execute gmw m 0 inp0 (partnerSetup setup1 masks) init0)
        (execute gmw m 1 inp1 setup1 init1) tr ∧ tr.map (·.1) = b) (viewMsgs m ls) ?_ ?_
    · intro x hx
      obtain ⟨tr, view, h1, h2, h3⟩ := hrun x hx
      exact ⟨view, h1, tr, h2, h3⟩
    · rintro x y b hx hy ⟨tr, h1, h2⟩ ⟨tr', h3, h4⟩
      obtain ⟨tr0, t1, t2⟩ := trace (partnerSetup setup1 x) setup1
        fun k n => ⟨(partnerSetup_matching setup1 x k n).2, by rw [partnerSetup_length, hlen]⟩
      rw [t1.unique h1] at t2
      have h1 := h1.swap
      have h3 := h3.swap
      rw [hexe 0 inp0 _ _ l0] at h1 h3
      refine masks_eq hlen hx hy ?_
      rw [← hfl]
      exact trace_masks (fun k n => by rw [partnerSetup_length, hlen]) (fun k n => by rw [partnerSetup_length, hlen])
        (fun k n => partnerSetup_det setup1 x y k n) fl hum 0 init0 _ _ _ h1 h3
        (by rw [hfl]; exact swapF (t2.imp fun _ _ h => h.1)) (by rw [swapped, swapped]; exact h2.trans h4.symm)

/-- What a party receives determines what it sends. -/
theorem Trace.eq_of_received {M O : Type} {p0 p1 p1' : Proc M O} {tr tr' : List (M × M)} (h : Trace p0 p1 tr)
    (h' : Trace p0 p1' tr') (he : tr.map (·.2) = tr'.map (·.2)) : tr = tr' := by
  induction h generalizing p1' tr' with
  | done a b => cases h'; rfl
  | round _ ih =>
    cases h' with
    | round h2 =>
      simp only [List.map_cons, List.cons.injEq] at he
      obtain ⟨rfl, he⟩ := he
      rw [ih h2 he]

theorem Trace.eq_of_sent {M O : Type} {p0 p0' p1 : Proc M O} {tr tr' : List (M × M)} (h : Trace p0 p1 tr)
    (h' : Trace p0' p1 tr') (he : tr.map (·.1) = tr'.map (·.1)) : tr = tr' := by
  have := h.swap.eq_of_received h'.swap (by simpa [List.map_map, Function.comp_def] using he)
  have e := congrArg (List.map Prod.swap) this
  simpa [List.map_map, Function.comp_def] using e

/-- **C77**, consequence: two secrets that give party 0 the same share cannot be told apart.  Each choice of party
1's factors in the first execution corresponds to exactly one choice in the second for which all messages
of both parties are the same. -/
theorem gmw_view_independent_partial (m : Multi BoolGate) (rank : Node → Nat) (w : WF m rank)
    (hw : ExecWF m) (hu : Unmixed m) (c0 : Base BoolGate) (hc0 : m.circs[0]? = some c0)
    (inp0 inp1 inp inp1' inp' : Input Bool (List Bool)) (hi : InputOk m c0 inp) (hin : Shares inp0 inp1 inp)
    (hi' : InputOk m c0 inp') (hin' : Shares inp0 inp1' inp')
    (init0 init1 : Store Bool (List Bool)) (val val' : Node → Bool) (valV valV' : Node → List Bool)
    (hp : PlainEval m inp val valV) (hp' : PlainEval m inp' val' valV') :
    ∃ it ls, MIter.new m = some it ∧
      MIter.collect m ((m.circs.map fun c => c.gates.length).sum + 1) it = some ls ∧
      ∀ setup0 : Nat → Nat → List Triple, (∀ k n, (setup0 k n).length = n) →
        ∀ masks, Fit m ls masks → ∃! masks', Fit m ls masks' ∧ ∃ tr,
          Trace (execute gmw m 0 inp0 setup0 init0) (execute gmw m 1 inp1 (partnerSetup setup0 masks) init1) tr ∧
          Trace (execute gmw m 0 inp0 setup0 init0) (execute gmw m 1 inp1' (partnerSetup setup0 masks') init1) tr := by
  obtain ⟨it, ls, e1, e2, h, -⟩ := gmw_view_uniform_partial m rank w hw hu c0 hc0 inp0 inp1 inp hi hin init0 init1
    val valV hp
  obtain ⟨it', ls', e1', e2', h', -⟩ := gmw_view_uniform_partial m rank w hw hu c0 hc0 inp0 inp1' inp' hi' hin'
    init0 init1 val' valV' hp'
  rw [e1] at e1'; cases e1'
  rw [e2] at e2'; cases e2'
  refine ⟨it, ls, e1, e2, fun setup0 hlen masks hm => ?_⟩
  obtain ⟨tr, view, f1, f2, f3⟩ := (h setup0 hlen).1 masks hm
  obtain ⟨masks', ⟨g1, tr', g2, g3⟩, gu⟩ := (h' setup0 hlen).2 view f1
  have := f2.eq_of_received g2 (f3.trans g3.symm)
  subst this
  refine ⟨masks', ⟨g1, tr, f2, g2⟩, ?_⟩
  rintro y ⟨y1, tr2, y2, y3⟩
  rw [y2.unique f2] at y3
  exact gu y ⟨y1, tr, y3, f3⟩

/-- The same for party 1: two secrets that give it the same share. -/
theorem gmw_view_independent_other_partial (m : Multi BoolGate) (rank : Node → Nat) (w : WF m rank)
    (hw : ExecWF m) (hu : Unmixed m) (c0 : Base BoolGate) (hc0 : m.circs[0]? = some c0)
    (inp0 inp1 inp inp0' inp' : Input Bool (List Bool)) (hi : InputOk m c0 inp) (hin : Shares inp0 inp1 inp)
    (hi' : InputOk m c0 inp') (hin' : Shares inp0' inp1 inp')
    (init0 init1 : Store Bool (List Bool)) (val val' : Node → Bool) (valV valV' : Node → List Bool)
    (hp : PlainEval m inp val valV) (hp' : PlainEval m inp' val' valV') :
    ∃ it ls, MIter.new m = some it ∧
      MIter.collect m ((m.circs.map fun c => c.gates.length).sum + 1) it = some ls ∧
      ∀ setup1 : Nat → Nat → List Triple, (∀ k n, (setup1 k n).length = n) →
        ∀ masks, Fit m ls masks → ∃! masks', Fit m ls masks' ∧ ∃ tr,
          Trace (execute gmw m 0 inp0 (partnerSetup setup1 masks) init0) (execute gmw m 1 inp1 setup1 init1) tr ∧
          Trace (execute gmw m 0 inp0' (partnerSetup setup1 masks') init0) (execute gmw m 1 inp1 setup1 init1) tr := by
  obtain ⟨it, ls, e1, e2, -, h⟩ := gmw_view_uniform_partial m rank w hw hu c0 hc0 inp0 inp1 inp hi hin init0 init1
    val valV hp
  obtain ⟨it', ls', e1', e2', -, h'⟩ := gmw_view_uniform_partial m rank w hw hu c0 hc0 inp0' inp1 inp' hi' hin'
    init0 init1 val' valV' hp'
  rw [e1] at e1'; cases e1'
  rw [e2] at e2'; cases e2'
  refine ⟨it, ls, e1, e2, fun setup1 hlen masks hm => ?_⟩
  obtain ⟨tr, view, f1, f2, f3⟩ := (h setup1 hlen).1 masks hm
  obtain ⟨masks', ⟨g1, tr', g2, g3⟩, gu⟩ := (h' setup1 hlen).2 view f1
  have := f2.eq_of_sent g2 (f3.trans g3.symm)
  subst this
  refine ⟨masks', ⟨g1, tr, f2, g2⟩, ?_⟩
  rintro y ⟨y1, tr2, y2, y3⟩
  rw [y2.unique f2] at y3
  exact gu y ⟨y1, tr, y3, f3⟩

/-- **C77** for every circuit of one part, without simd: no further condition on the circuit or the secrets. -/
theorem gmw_circuit_private (c : Base BoolGate) (h : BaseOk c) (hs : c.simdSize = none) :
    ∃ it ls, MIter.new (.ofBase c) = some it ∧
      MIter.collect (.ofBase c) (((Multi.ofBase c).circs.map fun c => c.gates.length).sum + 1) it = some ls ∧
      ∀ (a b b' : List Bool), a.length = c.inputGates.length → b.length = c.inputGates.length →
        b'.length = c.inputGates.length → ∀ (init0 init1 : Store Bool (List Bool)),
        (∀ setup0 : Nat → Nat → List Triple, (∀ k n, (setup0 k n).length = n) →
          (∀ view, Fit (.ofBase c) ls view → ∃! masks, Fit (.ofBase c) ls masks ∧ ∃ tr,
            Trace (execute gmw (.ofBase c) 0 (.scalar a) setup0 init0)
              (execute gmw (.ofBase c) 1 (.scalar b) (partnerSetup setup0 masks) init1) tr ∧
            tr.map (·.2) = viewMsgs (.ofBase c) ls view) ∧
          ∀ masks, Fit (.ofBase c) ls masks → ∃! masks', Fit (.ofBase c) ls masks' ∧ ∃ tr,
            Trace (execute gmw (.ofBase c) 0 (.scalar a) setup0 init0)
              (execute gmw (.ofBase c) 1 (.scalar b) (partnerSetup setup0 masks) init1) tr ∧
            Trace (execute gmw (.ofBase c) 0 (.scalar a) setup0 init0)
              (execute gmw (.ofBase c) 1 (.scalar b') (partnerSetup setup0 masks') init1) tr) ∧
        (∀ setup1 : Nat → Nat → List Triple, (∀ k n, (setup1 k n).length = n) →
          (∀ view, Fit (.ofBase c) ls view → ∃! masks, Fit (.ofBase c) ls masks ∧ ∃ tr,
            Trace (execute gmw (.ofBase c) 0 (.scalar b) (partnerSetup setup1 masks) init0)
              (execute gmw (.ofBase c) 1 (.scalar a) setup1 init1) tr ∧
            tr.map (·.1) = viewMsgs (.ofBase c) ls view) ∧
          ∀ masks, Fit (.ofBase c) ls masks → ∃! masks', Fit (.ofBase c) ls masks' ∧ ∃ tr,
            Trace (execute gmw (.ofBase c) 0 (.scalar b) (partnerSetup setup1 masks) init0)
              (execute gmw (.ofBase c) 1 (.scalar a) setup1 init1) tr ∧
            Trace (execute gmw (.ofBase c) 0 (.scalar b') (partnerSetup setup1 masks') init0)
              (execute gmw (.ofBase c) 1 (.scalar a) setup1 init1) tr) := by
  have hns : isSimd (Multi.ofBase c) 0 = false := by simp [isSimd, Multi.ofBase, hs]
  have wf := baseOk_wf c h
  have ex := baseOk_exec c h (by simp [hs]) (by simp [hs])
  obtain ⟨it, ls, e1, e2, -⟩ := layers_ok_partial (Multi.ofBase c) _ wf
  refine ⟨it, ls, e1, e2, fun a b b' ha hb hb' init0 init1 => ?_⟩
  have len : ∀ x y : List Bool, x.length = c.inputGates.length → y.length = c.inputGates.length →
      (xorL x y).length = c.inputGates.length := by
    intro x y hx hy; simp [xorL, hx, hy]
  have sh : ∀ x y : List Bool, x.length = c.inputGates.length → y.length = c.inputGates.length →
      Shares (.scalar x) (.scalar y) (.scalar (xorL x y)) := by
    intro x y hx hy; exact ⟨by rw [len x y hx hy, hx], by rw [len x y hx hy, hy], rfl⟩
  have pl : ∀ x y : List Bool, x.length = c.inputGates.length → y.length = c.inputGates.length →
      PlainEval (Multi.ofBase c) (.scalar (xorL x y)) (baseVal c (xorL x y)) (fun _ => []) :=
    fun x y hx hy => base_plain_scalar c h hs _ (len x y hx hy)
  have hc0 : (Multi.ofBase c).circs[0]? = some c := by simp [Multi.ofBase]
  obtain ⟨_, _, f1, f2, u0, -⟩ := gmw_view_uniform_partial (Multi.ofBase c) _ wf ex (base_unmixed c) c hc0
    (.scalar a) (.scalar b) (.scalar (xorL a b)) ⟨hns, len a b ha hb⟩ (sh a b ha hb) init0 init1 _ _ (pl a b ha hb)
  rw [e1] at f1; cases f1
  rw [e2] at f2; cases f2
  obtain ⟨_, _, f1, f2, -, u1⟩ := gmw_view_uniform_partial (Multi.ofBase c) _ wf ex (base_unmixed c) c hc0
    (.scalar b) (.scalar a) (.scalar (xorL b a)) ⟨hns, len b a hb ha⟩ (sh b a hb ha) init0 init1 _ _ (pl b a hb ha)
  rw [e1] at f1; cases f1
  rw [e2] at f2; cases f2
  obtain ⟨_, _, f1, f2, i0⟩ := gmw_view_independent_partial (Multi.ofBase c) _ wf ex (base_unmixed c) c hc0
    (.scalar a) (.scalar b) (.scalar (xorL a b)) (.scalar b') (.scalar (xorL a b')) ⟨hns, len a b ha hb⟩ (sh a b ha hb) ⟨hns, len a b' ha hb'⟩ (sh a b' ha hb')
    init0 init1 _ _ _ _ (pl a b ha hb) (pl a b' ha hb')
  rw [e1] at f1; cases f1
  rw [e2] at f2; cases f2
  obtain ⟨_, _, f1, f2, i1⟩ := gmw_view_independent_other_partial (Multi.ofBase c) _ wf ex (base_unmixed c) c hc0
    (.scalar b) (.scalar a) (.scalar (xorL b a)) (.scalar b') (.scalar (xorL b' a)) ⟨hns, len b a hb ha⟩ (sh b a hb ha) ⟨hns, len b' a hb' ha⟩ (sh b' a hb' ha)
    init0 init1 _ _ _ _ (pl b a hb ha) (pl b' a hb' ha)
  rw [e1] at f1; cases f1
  rw [e2] at f2; cases f2
  exact ⟨fun s0 hl => ⟨(u0 s0 hl).2, i0 s0 hl⟩, fun s1 hl => ⟨(u1 s1 hl).2, i1 s1 hl⟩⟩

/-! ### Cases -/

/-- The circuit with a sub-circuit call has one layer with one AND gate: a view is one pair of bits.  Party 0 holds the
shares `r`, `s`; the secrets `x`, `y` and `x'`, `y'` are indistinguishable. -/
example (x y x' y' r s : Bool) : ∃ it ls, MIter.new callCirc = some it ∧
    MIter.collect callCirc ((callCirc.circs.map fun c => c.gates.length).sum + 1) it = some ls ∧
    Fit callCirc ls [[(true, false)]] ∧
    ∃! masks', Fit callCirc ls masks' ∧ ∃ tr,
      Trace (execute gmw callCirc 0 (.scalar [r, s]) (fun _ n => List.replicate n ⟨true, true, false⟩) noOutputs)
        (execute gmw callCirc 1 (.scalar [r ^^ x, s ^^ y])
          (partnerSetup (fun _ n => List.replicate n ⟨true, true, false⟩) [[(true, false)]]) noOutputs) tr ∧
      Trace (execute gmw callCirc 0 (.scalar [r, s]) (fun _ n => List.replicate n ⟨true, true, false⟩) noOutputs)
        (execute gmw callCirc 1 (.scalar [r ^^ x', s ^^ y'])
          (partnerSetup (fun _ n => List.replicate n ⟨true, true, false⟩) masks') noOutputs) tr := by
  obtain ⟨it, ls, e1, e2, h⟩ := gmw_view_independent_partial callCirc callRank callCirc_wf callCirc_exec.1
    callCirc_exec.2 callMain rfl (.scalar [r, s]) (.scalar [r ^^ x, s ^^ y]) (.scalar [x, y])
    (.scalar [r ^^ x', s ^^ y']) (.scalar [x', y']) ⟨rfl, rfl⟩ ⟨rfl, rfl, by simp [xorL]⟩ ⟨rfl, rfl⟩
    ⟨rfl, rfl, by simp [xorL]⟩ noOutputs noOutputs _ _ _ _ (callCirc_plain x y) (callCirc_plain x' y')
  have hf : Fit callCirc ls [[(true, false)]] := by
    have hls : ((MIter.new callCirc).bind fun it =>
        MIter.collect callCirc ((callCirc.circs.map fun c => c.gates.length).sum + 1) it).any
        (fun ls => (interactiveLayers callCirc ls).map (intCount callCirc) = [1]) = true := by decide +kernel
    rw [e1, Option.bind_some, e2] at hls
    simp only [Option.any_some, decide_eq_true_eq] at hls
    rw [Fit, hls]; rfl
  exact ⟨it, ls, e1, e2, hf, h _ (fun _ n => by simp) _ hf⟩

end Verif.Exec
