import Verif.Exec.Private
import Mathlib.Data.Set.Function

/-!
C88, C89: `Executor::execute` against a peer that does whatever it likes.

The peer answers every message with an arbitrary message or closes the connection
(executor.rs:413-420: `sender.send(..).await.ok().unwrap()`, `receiver.recv().await.ok().unwrap().unwrap()`; a closed
channel is a panic).
-/
set_option autoImplicit false

namespace Verif.Exec

open Circuit Proc Gmw

/-! ### Specification -/

/-- The party `p` against a peer with strategy `adv`: after the messages `sent` it sends `adv sent`, or closes the
connection if this is `none`.  The result is all that the peer receives and what the party returns, `none` if it panics.
Randomness and the own secrets of the peer are part of `adv`. -/
def interact {M O : Type} (adv : List M → Option M) : List M → Proc M O → List M × Option O
  | sent, .done o => (sent, some o)
  | sent, .fail => (sent, none)
  | sent, .send m k => interact adv (sent ++ [m]) k
  | sent, .recv k =>
    match adv sent with
    | none => (sent, none)
    | some r => interact adv sent (k r)

/-- Inputs of the same kind and lengths. -/
def SameShape : Input Bool (List Bool) → Input Bool (List Bool) → Prop
  | .scalar a, .scalar b => a.length = b.length
  | .simd a, .simd b => a.map List.length = b.map List.length
  | _, _ => False

/-! ### Proof -/

/-- Both undefined, or both defined and related. -/
def OptRel {A B : Type} (R : A → B → Prop) : Option A → Option B → Prop
  | none, none => True
  | some a, some b => R a b
  | _, _ => False

theorem OptRel.bind {A B C D : Type} {R : A → B → Prop} {Q : C → D → Prop} {a : Option A} {b : Option B}
    {f : A → Option C} {g : B → Option D} (h : OptRel R a b) (hf : ∀ x y, R x y → OptRel Q (f x) (g y)) :
    OptRel Q (a.bind f) (b.bind g) := by
  cases a <;> cases b <;> simp_all [OptRel]

theorem OptRel.refl {A : Type} (a : Option A) : OptRel (· = ·) a a := by cases a <;> simp [OptRel]

theorem OptRel.bind_eq {A C D : Type} {Q : C → D → Prop} {a : Option A} {f : A → Option C} {g : A → Option D}
    (hf : ∀ x, OptRel Q (f x) (g x)) : OptRel Q (a.bind f) (a.bind g) := by
  cases a <;> simp_all [OptRel]

/-- The same entries are set and those of simd circuits have the same lengths. -/
structure Alike (st st' : Store Bool (List Bool)) : Prop where
  set : st.set = st'.set
  len : ∀ v, (st.ve v).length = (st'.ve v).length

variable {m : Multi BoolGate} {st st' : Store Bool (List Bool)}

def SameLen (a b : List Bool) : Prop := a.length = b.length

theorem get_alike (h : Alike st st') (v : Node) : OptRel (fun _ _ => True) (st.get m v) (st'.get m v) := by
  unfold Store.get
  rw [h.set]
  split
  · trivial
  · split <;> simp [OptRel]

theorem getSimd_alike (h : Alike st st') (v : Node) : OptRel SameLen (st.getSimd m v) (st'.getSimd m v) := by
  unfold Store.getSimd
  rw [h.set]
  split
  · split
    · exact h.len v
    · trivial
  · trivial

theorem put_alike (h : Alike st st') (v : Node) (a b : Bool) : OptRel Alike (st.put m v a) (st'.put m v b) := by
  unfold Store.put
  split
  · trivial
  · exact ⟨by simp [h.set], h.len⟩

theorem putSimd_alike (h : Alike st st') (v : Node) {a b : List Bool} (hl : SameLen a b) :
    OptRel Alike (st.putSimd m v a) (st'.putSimd m v b) := by
  unfold Store.putSimd
  split
  · refine ⟨by simp [h.set], fun u => ?_⟩
    dsimp only
    split
    · exact hl
    · exact h.len u
  · trivial

theorem mapM_rel {A B C : Type} {R : B → C → Prop} {f : A → Option B} {g : A → Option C}
    (h : ∀ a, OptRel R (f a) (g a)) (l : List A) : OptRel (List.Forall₂ R) (l.mapM f) (l.mapM g) := by
  induction l with
  | nil => exact .nil
  | cons a l ih =>
    simp only [List.mapM_cons, Option.bind_eq_bind, Option.pure_def]
    refine (h a).bind fun x y hxy => ih.bind fun xs ys hx => ?_
    exact .cons hxy hx

theorem gets_alike (h : Alike st st') (l : List Node) :
    OptRel (List.Forall₂ fun _ _ => True) (l.mapM (st.get m)) (l.mapM (st'.get m)) := mapM_rel (get_alike h) l

theorem getsSimd_alike (h : Alike st st') (l : List Node) :
    OptRel (List.Forall₂ SameLen) (l.mapM (st.getSimd m)) (l.mapM (st'.getSimd m)) := mapM_rel (getSimd_alike h) l

theorem evalLocal_alike (party : Nat) (g : BoolGate) {xs ys : List Bool} (h : List.Forall₂ (fun _ _ => True) xs ys) :
    OptRel (fun _ _ => True) (evalLocal party g xs) (evalLocal party g ys) := by
  cases g with
  | base b =>
    cases b <;> cases h <;> simp [evalLocal, BaseGate.defaultEvaluate, OptRel]
  | and => trivial
  | xor =>
    cases h with
    | nil => trivial
    | cons _ h => cases h <;> simp [evalLocal, OptRel]
  | inv => cases h <;> simp [evalLocal, OptRel]

theorem evalLocalSimd_alike (party : Nat) (g : BoolGate) {xs ys : List (List Bool)} (h : List.Forall₂ SameLen xs ys) :
    OptRel SameLen (evalLocalSimd party g xs) (evalLocalSimd party g ys) := by
  cases g with
  | base b =>
    cases b <;> cases h <;> simp_all [evalLocalSimd, BaseGate.defaultEvaluateSimd, OptRel]
  | and => trivial
  | xor =>
    cases h with
    | nil => trivial
    | cons h0 h =>
      cases h with
      | nil => simp [evalLocalSimd, OptRel]
      | cons h1 h => simp_all [evalLocalSimd, OptRel, SameLen, xorL]
  | inv =>
    cases h with
    | nil => trivial
    | cons h0 h =>
      simp only [evalLocalSimd, OptRel, SameLen, List.getElem?_cons_zero, Option.bind_eq_bind, Option.bind_some,
        Option.pure_def] at h0 ⊢
      split <;> simp [h0]

theorem getElem_rel {A B : Type} {R : A → B → Prop} {xs : List A} {ys : List B} (h : List.Forall₂ R xs ys) (i : Nat) :
    OptRel R xs[i]? ys[i]? := by
  induction h generalizing i with
  | nil => trivial
  | cons h _ ih => cases i with
    | zero => exact h
    | succ i => simpa using ih i

theorem forall_true {A B : Type} : ∀ {xs : List A} {ys : List B}, xs.length = ys.length →
    List.Forall₂ (fun _ _ => True) xs ys
  | [], [], _ => .nil
  | _ :: _, _ :: _, h => .cons trivial (forall_true (by simpa using h))

theorem forall_len : ∀ {xs ys : List (List Bool)}, xs.map List.length = ys.map List.length →
    List.Forall₂ SameLen xs ys
  | [], [], _ => .nil
  | _ :: _, _ :: _, h => by
    simp only [List.map_cons, List.cons.injEq] at h
    exact .cons h.1 (forall_len h.2)

theorem evalNode_alike {party : Nat} {inp inp' : Input Bool (List Bool)} (hs : SameShape inp inp')
    (h : Alike st st') (v : Node) :
    OptRel Alike (evalNode gmw m party inp st v) (evalNode gmw m party inp' st' v) := by
  unfold evalNode
  simp only [Option.bind_eq_bind]
  refine OptRel.bind_eq fun g => ?_
  have def1 : OptRel Alike
      (if isSimd m v.1 = true then ((m.parents v).mapM (st.getSimd m)).bind fun xs =>
          (gmw.evalLocalSimd party g xs).bind fun o => st.putSimd m v o
        else ((m.parents v).mapM (st.get m)).bind fun xs => (gmw.evalLocal party g xs).bind fun o => st.put m v o)
      (if isSimd m v.1 = true then ((m.parents v).mapM (st'.getSimd m)).bind fun xs =>
          (gmw.evalLocalSimd party g xs).bind fun o => st'.putSimd m v o
        else ((m.parents v).mapM (st'.get m)).bind fun xs => (gmw.evalLocal party g xs).bind fun o => st'.put m v o) := by
    split
    · exact (getsSimd_alike h _).bind fun xs ys hx => (evalLocalSimd_alike party g hx).bind fun a b hab =>
        putSimd_alike h v hab
    · exact (gets_alike h _).bind fun xs ys hx => (evalLocal_alike party g hx).bind fun a b _ => put_alike h v a b
  cases hg : asBase g with
  | none => exact def1
  | some b =>
    cases b with
    | input =>
      dsimp only
      split
      · refine OptRel.bind_eq fun c => OptRel.bind_eq fun idx => ?_
        match hm : isSimd m 0, inp, inp', hs with
        | true, .simd xs, .simd ys, hs =>
          exact (getElem_rel (forall_len hs) idx).bind fun x y hxy =>
            (evalLocalSimd_alike party g (.cons hxy .nil)).bind fun a b hab => putSimd_alike h v hab
        | false, .scalar xs, .scalar ys, hs =>
          exact (getElem_rel (forall_true hs) idx).bind fun x y hxy =>
            (evalLocal_alike party g (.cons trivial .nil)).bind fun a b _ => put_alike h v a b
        | true, .scalar xs, .scalar ys, hs => trivial
        | false, .simd xs, .simd ys, hs => trivial
      · trivial
    | subCircuitInput =>
      dsimp only
      cases isSimd m 0 <;> cases isSimd m v.1
      · exact (gets_alike h _).bind fun xs ys hx => (evalLocal_alike party g hx).bind fun a b _ => put_alike h v a b
      · exact (gets_alike h _).bind fun xs ys hx => putSimd_alike h v hx.length_eq
      · trivial
      · exact (getsSimd_alike h _).bind fun xs ys hx => (evalLocalSimd_alike party g hx).bind fun a b hab =>
          putSimd_alike h v hab
    | connectToMainFromSimd sel =>
      dsimp only
      refine OptRel.bind_eq fun p => (getSimd_alike h p).bind fun x y hxy => ?_
      exact (getElem_rel (forall_true hxy) sel).bind fun a b _ => put_alike h v a b
    | constant val =>
      dsimp only
      split
      · exact putSimd_alike h v rfl
      · exact put_alike h v _ _
    | _ => exact def1

theorem evalNodes_alike {party : Nat} {inp inp' : Input Bool (List Bool)} (hs : SameShape inp inp')
    (vs : List Node) : ∀ {st st' : Store Bool (List Bool)}, Alike st st' →
    OptRel Alike (evalNodes gmw m party inp st vs) (evalNodes gmw m party inp' st' vs) := by
  induction vs with
  | nil => intro st st' h; exact h
  | cons v vs ih =>
    intro st st' h
    simp only [evalNodes, Option.bind_eq_bind]
    exact (evalNode_alike hs h v).bind fun a b hab => ih hab

theorem putAll_alike (vs : List Node) : ∀ {st st' : Store Bool (List Bool)} {xs ys : List Bool}, Alike st st' →
    xs.length = ys.length → OptRel Alike (putAll m st vs xs) (putAll m st' vs ys) := by
  induction vs with
  | nil => intro st st' xs ys h _; exact h
  | cons v vs ih =>
    intro st st' xs ys h hl
    match xs, ys, hl with
    | [], [], _ => exact h
    | x :: xs, y :: ys, hl =>
      simp only [putAll, Option.bind_eq_bind]
      exact (put_alike h v x y).bind fun a b hab => ih hab (by simpa using hl)

theorem putAllSimd_alike (vs : List Node) : ∀ {st st' : Store Bool (List Bool)} {xs ys : List (List Bool)},
    Alike st st' → List.Forall₂ SameLen xs ys → OptRel Alike (putAllSimd m st vs xs) (putAllSimd m st' vs ys) := by
  induction vs with
  | nil => intro st st' xs ys h _; exact h
  | cons v vs ih =>
    intro st st' xs ys h hl
    cases hl with
    | nil => exact h
    | cons h0 hl =>
      simp only [putAllSimd, Option.bind_eq_bind]
      exact (putSimd_alike h v h0).bind fun a b hab => ih hab hl

theorem free_alike (h : Alike st st') (fs : List Node) : Alike (free gmw st fs) (free gmw st' fs) := by
  refine ⟨h.set, fun v => ?_⟩
  simp only [free]
  split
  · rfl
  · exact h.len v

theorem zipEval_len (party : Nat) : ∀ (a b c d : List Bool) (t t' : List Triple), t.length = t'.length →
    (zipEval party a b c d t).length = (zipEval party a b c d t').length
  | [], _, _, _, _, _, _ => by simp [zipEval]
  | _ :: _, [], _, _, _, _, _ => by simp [zipEval]
  | _ :: _, _ :: _, [], _, _, _, _ => by simp [zipEval]
  | _ :: _, _ :: _, _ :: _, [], _, _, _ => by simp [zipEval]
  | _ :: _, _ :: _, _ :: _, _ :: _, [], [], _ => by simp [zipEval]
  | _ :: a, _ :: b, _ :: c, _ :: d, _ :: t, _ :: t', h => by
    simp only [zipEval, List.length_cons, zipEval_len party a b c d t t' (by simpa using h)]

theorem split_alike {t t' : List Triple} (h : t.length = t'.length) (n : Nat) :
    OptRel (fun x y => x.1.length = y.1.length ∧ x.2.length = y.2.length) (splitOffLast t n) (splitOffLast t' n) := by
  unfold splitOffLast
  rw [h]
  split
  · simp [OptRel, h]
  · trivial

theorem evalInt_alike (party : Nat) (own other : Msg) {t t' : List Triple} (h : t.length = t'.length) :
    OptRel (fun x y => x.1.length = y.1.length ∧ x.2.length = y.2.length)
      (evaluateInteractive party own other t) (evaluateInteractive party own other t') := by
  unfold evaluateInteractive
  split
  · simp only [Option.bind_eq_bind, Option.pure_def]
    exact (split_alike h _).bind fun x y hxy => ⟨zipEval_len _ _ _ _ _ _ _ (by simpa using hxy.2), hxy.1⟩
  · trivial

theorem fastOp_length (f : Bool → Bool → Bool) : ∀ x y : List Bool, (fastOp f x y).length = x.length
  | [], [] => rfl
  | [], _ :: _ => rfl
  | _ :: _, [] => rfl
  | _ :: xs, _ :: ys => by simp [fastOp, fastOp_length f xs ys]

theorem cut_alike : ∀ (ns : List Nat) {x y : List Bool}, x.length = y.length →
    OptRel (List.Forall₂ SameLen) (cutSizes ns x) (cutSizes ns y)
  | [], _, _, _ => .nil
  | n :: ns, x, y, h => by
    simp only [cutSizes, h, Option.bind_eq_bind, Option.pure_def]
    split
    · refine (cut_alike ns (by simp [h])).bind fun a b hab => .cons (by simp [SameLen, h]) hab
    · trivial

theorem evalIntSimd_alike (party : Nat) (own other : SimdMsg) {t t' : List Triple} (h : t.length = t'.length) :
    OptRel (fun x y => List.Forall₂ SameLen x.1 y.1) (evaluateInteractiveSimd party own other t)
      (evaluateInteractiveSimd party own other t') := by
  unfold evaluateInteractiveSimd
  split
  · simp only [Option.bind_eq_bind, Option.pure_def]
    refine (split_alike h _).bind fun x y _ => ?_
    refine (cut_alike _ ?_).bind fun a b hab => hab
    simp only [fastOp_length]
  · trivial

theorem finish_alike (h : Alike st st') (party : Nat) (l : MLayer) (own other : Msg × Option SimdMsg)
    {t t' : List Triple} (ht : t.length = t'.length) :
    OptRel Alike (finishLayer gmw m party st l own other t) (finishLayer gmw m party st' l own other t') := by
  unfold finishLayer
  simp only [Option.bind_eq_bind]
  refine OptRel.bind_eq fun gs => (evalInt_alike party own.1 other.1 ht).bind fun x y hxy => ?_
  cases own.2 with
  | none =>
    cases other.2 with
    | none => exact putAll_alike _ h hxy.1
    | some r => trivial
  | some o =>
    cases other.2 with
    | none => trivial
    | some r =>
      refine OptRel.bind_eq fun hs => (evalIntSimd_alike party o r hxy.2).bind fun a b hab => ?_
      exact (putAll_alike _ h hxy.1).bind fun s s' hss => putAllSimd_alike _ hss hab

theorem outputs_alike (h : Alike st st') : OptRel (fun _ _ => True) (outputs m st) (outputs m st') := by
  unfold outputs
  simp only [Option.bind_eq_bind, Option.pure_def]
  refine OptRel.bind_eq fun c => ?_
  split
  · exact (mapM_rel (fun g => getSimd_alike h (0, g)) _).bind fun _ _ _ => trivial
  · exact (mapM_rel (fun g => get_alike h (0, g)) _).bind fun _ _ _ => trivial

/-! The masks that give the same message -/

/-- Exclusive or of pairs. -/
def xorP (x y : List (Bool × Bool)) : List (Bool × Bool) := List.zipWith (fun p q => (p.1 ^^ q.1, p.2 ^^ q.2)) x y

theorem xorP_length {x y : List (Bool × Bool)} (h : x.length = y.length) : (xorP x y).length = y.length := by
  simp [xorP, h]

theorem xorP_twice : ∀ {x y : List (Bool × Bool)}, x.length = y.length → xorP (xorP x y) y = x
  | [], [], _ => rfl
  | p :: x, q :: y, h => by
    have := xorP_twice (x := x) (y := y) (by simpa using h)
    simp_all [xorP]

theorem pairs_delta (gs : List BoolGate) : ∀ (n : Nat) (xs ys : List Bool), xs.length = ys.length →
    ∃ δ : List (Bool × Bool), δ.length = n ∧ ∀ t t' : List Triple, t.length = n → t'.length = n →
      t'.map maskBits = xorP (t.map maskBits) δ → computeMsgPairs gs t xs = computeMsgPairs gs t' ys := by
  induction gs with
  | nil => intro n xs ys _; exact ⟨List.replicate n (false, false), by simp, fun t t' _ _ _ => by simp [computeMsgPairs]⟩
  | cons g gs ih =>
    intro n xs ys h
    cases n with
    | zero =>
      refine ⟨[], rfl, fun t t' h1 h2 _ => ?_⟩
      rw [List.length_eq_zero_iff] at h1 h2
      simp [h1, h2, computeMsgPairs]
    | succ n =>
      have short : (xs.length < 2) → ∀ t t' : List Triple, t.length = n + 1 → t'.length = n + 1 →
          computeMsgPairs (g :: gs) t xs = computeMsgPairs (g :: gs) t' ys := by
        intro hx t t' h1 h2
        match t, t', h1, h2, xs, ys, h, hx with
        | a :: t, b :: t', _, _, [], [], _, _ => cases g <;> simp [computeMsgPairs]
        | a :: t, b :: t', _, _, [x], [y], _, _ => cases g <;> simp [computeMsgPairs]
      by_cases hx : xs.length < 2
      · exact ⟨List.replicate (n + 1) (false, false), by simp, fun t t' h1 h2 _ => short hx t t' h1 h2⟩
      · match xs, ys, h, hx with
        | x0 :: x1 :: xs, y0 :: y1 :: ys, h, _ =>
          obtain ⟨δ, d1, d2⟩ := ih n xs ys (by simpa using h)
          refine ⟨(x0 ^^ y0, x1 ^^ y1) :: δ, by simp [d1], fun t t' h1 h2 h3 => ?_⟩
          match t, t', h1, h2 with
          | a :: t, b :: t', h1, h2 =>
            simp only [List.map_cons, xorP, List.zipWith_cons_cons, List.cons.injEq] at h3
            have hr := d2 t t' (by simpa using h1) (by simpa using h2) h3.2
            cases g with
            | and =>
              simp only [computeMsgPairs, hr, andComputeShares]
              have e := h3.1
              simp only [maskBits, Prod.mk.injEq] at e
              have e1 : (x0 ^^ a.a) = (y0 ^^ b.a) := by rw [e.1]; cases x0 <;> cases y0 <;> simp
              have e2 : (x1 ^^ a.b) = (y1 ^^ b.b) := by rw [e.2]; cases x1 <;> cases y1 <;> simp
              rw [e1, e2]
            | _ => simp [computeMsgPairs]
        | [], _, h, hx => simp at hx
        | [_], _, h, hx => simp at hx

theorem chunk_alike : ∀ {xs ys : List (List Bool)}, List.Forall₂ SameLen xs ys →
    OptRel (List.Forall₂ fun p q => SameLen p.1 q.1 ∧ SameLen p.2 q.2) (chunkPairs xs) (chunkPairs ys)
  | [], [], _ => .nil
  | [x], [y], _ => trivial
  | x0 :: x1 :: xs, y0 :: y1 :: ys, .cons h0 (.cons h1 h) => by
    unfold SameLen at h0 h1
    simp only [chunkPairs, h0, h1, Option.bind_eq_bind, Option.pure_def]
    split
    · exact (chunk_alike h).bind fun a b hab => .cons ⟨h0, h1⟩ hab
    · trivial

theorem flat_len {xs ys : List (List Bool)} (h : List.Forall₂ SameLen xs ys) : xs.flatten.length = ys.flatten.length := by
  induction h with
  | nil => rfl
  | cons h _ ih => unfold SameLen at h; simp only [List.flatten_cons, List.length_append, h, ih]

theorem xorL_shift : ∀ (a b x : List Bool), a.length = b.length → x.length = a.length →
    xorL a x = xorL b (xorL x (xorL a b))
  | [], [], [], _, _ => rfl
  | p :: a, q :: b, r :: x, h1, h2 => by
    have := xorL_shift a b x (by simpa using h1) (by simpa using h2)
    simp only [xorL, List.zipWith_cons_cons, List.cons.injEq] at this ⊢
    refine ⟨?_, this⟩
    cases p <;> cases q <;> cases r <;> rfl

theorem simd_delta {xs ys : List (List Bool)} (h : List.Forall₂ SameLen xs ys) (n : Nat) :
    ∃ δ : List (Bool × Bool), δ.length = n ∧ ∀ t t' : List Triple, t.length = n → t'.length = n →
      t'.map maskBits = xorP (t.map maskBits) δ → computeMsgSimd xs t = computeMsgSimd ys t' := by
  have hc := chunk_alike h
  cases hx : chunkPairs xs with
  | none =>
    cases hy : chunkPairs ys with
    | none =>
      exact ⟨List.replicate n (false, false), by simp, fun t t' _ _ _ => by simp [computeMsgSimd, hx, hy]⟩
    | some q => rw [hx, hy] at hc; exact hc.elim
  | some p =>
    cases hy : chunkPairs ys with
    | none => rw [hx, hy] at hc; exact hc.elim
    | some q =>
      rw [hx, hy] at hc
      replace hc : List.Forall₂ (fun p q => SameLen p.1 q.1 ∧ SameLen p.2 q.2) p q := hc
      have hsz : p.map (·.1.length) = q.map (·.1.length) := by
        clear hx hy
        induction hc with
        | nil => rfl
        | cons h _ ih => simp only [List.map_cons, List.cons.injEq]; exact ⟨h.1, ih⟩
      have e1 : (p.map (·.1)).flatten.length = (q.map (·.1)).flatten.length :=
        flat_len (List.forall₂_map_left_iff.2 (List.forall₂_map_right_iff.2 (hc.imp fun _ _ h => h.1)))
      have e2 : (p.map (·.2)).flatten.length = (q.map (·.2)).flatten.length :=
        flat_len (List.forall₂_map_left_iff.2 (List.forall₂_map_right_iff.2 (hc.imp fun _ _ h => h.2)))
      have e3 : (p.map (·.1)).flatten.length = (p.map (·.2)).flatten.length := by
        have := chunkPairs_lengths xs p hx
        clear hx hsz e1 e2 hc
        induction p with
        | nil => rfl
        | cons a p ih =>
          simp only [List.map_cons, List.flatten_cons, List.length_append, this a (by simp)]
          rw [ih fun b hb => this b (List.mem_cons_of_mem _ hb)]
      generalize hE : (p.map (·.1)).flatten = E at e1 e3
      generalize hD : (p.map (·.2)).flatten = D at e2 e3
      generalize hE' : (q.map (·.1)).flatten = E' at e1
      generalize hD' : (q.map (·.2)).flatten = D' at e2
      by_cases hn : D.length ≤ n
      · refine ⟨List.replicate (n - D.length) (false, false) ++ (xorL D D').zip (xorL E E'), ?_, ?_⟩
        · simp [xorL, ← e2, ← e1, e3]; omega
        · intro t t' h1 h2 h3
          have hdrop : (t'.drop (n - D.length)).map maskBits =
              xorP ((t.drop (n - D.length)).map maskBits) ((xorL D D').zip (xorL E E')) := by
            rw [List.map_drop, h3, xorP, List.drop_zipWith, List.map_drop, List.drop_left' (by simp)]
            rfl
          have ha : (t'.drop (n - D.length)).map (·.a) = xorL ((t.drop (n - D.length)).map (·.a)) (xorL D D') := by
            have := congrArg (List.map Prod.fst) hdrop
            rw [List.map_map] at this
            refine this.trans ?_
            generalize t.drop (n - D.length) = s
            have : (xorL E E').length = (xorL D D').length := by simp [xorL, ← e1, ← e2, e3]
            generalize xorL E E' = e, xorL D D' = d at this
            clear * - this
            induction s generalizing d e with
            | nil => rfl
            | cons s ss ih =>
              match d, e, this with
              | [], [], _ => rfl
              | d :: ds, e :: es, h =>
                have := ih es ds (by simpa using h)
                simp_all [xorP, xorL, maskBits]
          have hb : (t'.drop (n - D.length)).map (·.b) = xorL ((t.drop (n - D.length)).map (·.b)) (xorL E E') := by
            have := congrArg (List.map Prod.snd) hdrop
            rw [List.map_map] at this
            refine this.trans ?_
            generalize t.drop (n - D.length) = s
            have : (xorL E E').length = (xorL D D').length := by simp [xorL, ← e1, ← e2, e3]
            generalize xorL E E' = e, xorL D D' = d at this
            clear * - this
            induction s generalizing d e with
            | nil => rfl
            | cons s ss ih =>
              match d, e, this with
              | [], [], _ => rfl
              | d :: ds, e :: es, h =>
                have := ih es ds (by simpa using h)
                simp_all [xorP, xorL, maskBits]
          simp only [computeMsgSimd, hx, hy, hE, hD, hE', hD', hsz, splitOffLast, h1, h2, ← e2, hn, if_true,
            Option.bind_eq_bind, Option.bind_some, Option.pure_def, ha, hb]
          rw [xorL_shift D D' _ e2 (by simp; omega), xorL_shift E E' _ e1 (by simp; omega)]
      · refine ⟨List.replicate n (false, false), by simp, fun t t' h1 h2 _ => ?_⟩
        simp only [computeMsgSimd, hx, hy, hE, hD, hE', hD', splitOffLast, h1, h2, ← e2, hn, if_false,
          Option.bind_eq_bind, Option.bind_some, Option.bind_none]

theorem forall_flatten {A B : Type} {R : A → B → Prop} {xs : List (List A)} {ys : List (List B)}
    (h : List.Forall₂ (List.Forall₂ R) xs ys) : List.Forall₂ R xs.flatten ys.flatten := by
  induction h with
  | nil => exact .nil
  | cons h _ ih => exact List.rel_append h ih

theorem msgs_delta (h : Alike st st') (party : Nat) (l : MLayer) (hu : intScalar m l = [] ∨ intSimd m l = [])
    (n : Nat) : ∃ δ : List (Bool × Bool), δ.length = n ∧ ∀ t t' : List Triple, t.length = n → t'.length = n →
      t'.map maskBits = xorP (t.map maskBits) δ →
      OptRel (fun x y => x.1 = y.1 ∧ x.2 = t ∧ y.2 = t') (computeMsgs gmw m party st l t)
        (computeMsgs gmw m party st' l t') := by
  rcases hu with hu | hu
  · have hg := mapM_rel (R := List.Forall₂ SameLen) (f := fun v => (m.parents v).mapM (st.getSimd m))
      (g := fun v => (m.parents v).mapM (st'.getSimd m)) (fun v => getsSimd_alike h (m.parents v)) (intSimd m l)
    cases hy : (intSimd m l).mapM (fun v => (m.parents v).mapM (st.getSimd m)) with
    | none =>
      refine ⟨List.replicate n (false, false), by simp, fun t t' _ _ _ => ?_⟩
      cases hy' : (intSimd m l).mapM (fun v => (m.parents v).mapM (st'.getSimd m)) with
      | none =>
        simp only [computeMsgs, hu, List.mapM_nil, gmw, Option.bind_eq_bind, Option.pure_def, Option.bind_some,
          computeMsg, computeMsgPairs, List.flatten_nil, Option.map_some, if_true, hy, hy', Option.bind_none]
        exact OptRel.bind_eq fun _ => trivial
      | some b => rw [hy, hy'] at hg; exact hg.elim
    | some a =>
      cases hy' : (intSimd m l).mapM (fun v => (m.parents v).mapM (st'.getSimd m)) with
      | none => rw [hy, hy'] at hg; exact hg.elim
      | some b =>
        rw [hy, hy'] at hg
        obtain ⟨δ, d1, d2⟩ := simd_delta (forall_flatten hg) n
        refine ⟨δ, d1, fun t t' h1 h2 h3 => ?_⟩
        simp only [computeMsgs, hu, List.mapM_nil, gmw, Option.bind_eq_bind, Option.pure_def, Option.bind_some,
          computeMsg, computeMsgPairs, List.flatten_nil, Option.map_some, if_true, hy, hy', d2 t t' h1 h2 h3]
        refine OptRel.bind_eq fun _ => ?_
        cases computeMsgSimd b.flatten t' <;> simp [OptRel]
  · have hg := mapM_rel (R := List.Forall₂ fun _ _ => True) (f := fun v => (m.parents v).mapM (st.get m))
      (g := fun v => (m.parents v).mapM (st'.get m)) (fun v => gets_alike h (m.parents v)) (intScalar m l)
    cases hgs : (intScalar m l).mapM m.gate? with
    | none =>
      refine ⟨List.replicate n (false, false), by simp, fun t t' _ _ _ => ?_⟩
      simp only [computeMsgs, hgs, Option.bind_eq_bind, Option.bind_none]
      trivial
    | some gs =>
      cases hy : (intScalar m l).mapM (fun v => (m.parents v).mapM (st.get m)) with
      | none =>
        refine ⟨List.replicate n (false, false), by simp, fun t t' _ _ _ => ?_⟩
        cases hy' : (intScalar m l).mapM (fun v => (m.parents v).mapM (st'.get m)) with
        | none =>
          simp only [computeMsgs, hgs, hy, hy', Option.bind_eq_bind, Option.bind_none, Option.bind_some]
          trivial
        | some b => rw [hy, hy'] at hg; exact hg.elim
      | some a =>
        cases hy' : (intScalar m l).mapM (fun v => (m.parents v).mapM (st'.get m)) with
        | none => rw [hy, hy'] at hg; exact hg.elim
        | some b =>
          rw [hy, hy'] at hg
          obtain ⟨δ, d1, d2⟩ := pairs_delta gs n _ _ (forall_flatten hg).length_eq
          refine ⟨δ.reverse, by simp [d1], fun t t' h1 h2 h3 => ?_⟩
          have e := d2 t.reverse t'.reverse (by simp [h1]) (by simp [h2]) (by
            rw [List.map_reverse, h3, xorP, List.reverse_zipWith (by simp [h1, d1]), List.reverse_reverse,
              List.map_reverse]; rfl)
          simp only [computeMsgs, hgs, hu, List.mapM_nil, gmw, Option.bind_eq_bind, Option.pure_def, Option.bind_some,
            computeMsg, computeMsgSimd, chunkPairs, List.flatten_nil, Option.map_some, if_true, hy, hy', e]
          cases computeMsgPairs gs t'.reverse b.flatten <;> simp [OptRel, splitOffLast, xorL]

/-! Several layers -/

theorem interact_fail {M O : Type} (adv : List M → Option M) (sent : List M) :
    interact adv sent (.fail : Proc M O) = (sent, none) := rfl

/-- What the party does depends only on the triples of the requests that are still to come. -/
theorem execLayers_congr {party : Nat} {inp : Input Bool (List Bool)} {s s' : Nat → Nat → List Triple}
    (fl : List (MLayer × List Node)) : ∀ (k : Nat) (st : Store Bool (List Bool)),
    (∀ i n, k ≤ i → s i n = s' i n) →
    execLayers gmw m party inp s k fl st = execLayers gmw m party inp s' k fl st := by
  induction fl with
  | nil => intro k st _; simp [execLayers]
  | cons f fl ih =>
    obtain ⟨l, fs⟩ := f
    intro k st h
    simp only [execLayers]
    cases evalNodes gmw m party inp st (niOf l) with
    | none => rfl
    | some st1 =>
      dsimp only
      split
      · exact ih k st1 h
      · rw [h k _ (le_refl k)]
        cases computeMsgs gmw m party st1 l (s' k (intCount m l)) with
        | none => rfl
        | some r =>
          dsimp only
          congr 2
          funext other
          cases finishLayer gmw m party (free gmw st1 fs) l r.1 other r.2 with
          | none => rfl
          | some st2 => exact ih (k + 1) st2 fun i n hi => h i n (by omega)

/-- Masks for the requests from `k` on. -/
def tailSetup (other : Nat → Nat → List Triple) (k : Nat) (masks : List (List (Bool × Bool))) (i n : Nat) : List Triple :=
  partnerSetup (fun _ n => other i n) masks (i - k) n

variable {other : Nat → Nat → List Triple}

theorem tailSetup_bits (ho : ∀ k n, (other k n).length = n) {k n : Nat}
    {x : List (Bool × Bool)} (masks : List (List (Bool × Bool))) (hx : x.length = n) :
    (tailSetup other k (x :: masks) k n).map maskBits = x := by
  unfold tailSetup
  rw [Nat.sub_self]
  exact partnerSetup_bits (fun _ n => other k n) (x :: masks) (fun _ n => ho k n) rfl hx

theorem tailSetup_head (k n : Nat) (x : List (Bool × Bool)) (masks : List (List (Bool × Bool))) :
    tailSetup other k (x :: masks) k n = tailSetup other k [x] k n := by
  simp [tailSetup, partnerSetup]

theorem tailSetup_tail (k i n : Nat) (x : List (Bool × Bool)) (masks : List (List (Bool × Bool))) (h : k + 1 ≤ i) :
    tailSetup other k (x :: masks) i n = tailSetup other (k + 1) masks i n := by
  obtain ⟨j, rfl⟩ := Nat.exists_eq_add_of_le h
  simp only [tailSetup, partnerSetup]
  rw [show k + 1 + j - k = j + 1 by omega, show k + 1 + j - (k + 1) = j by omega]
  simp

/-- The same course for two executions. -/
def SameCourse {M O : Type} (r r' : List M × Option O) : Prop := r.1 = r'.1 ∧ r.2.isSome = r'.2.isSome

theorem fit_cons {l : MLayer} {fl : List MLayer} (h0 : intCount m l ≠ 0) (x : List (List (Bool × Bool))) :
    Fit m (l :: fl) x ↔ ∃ a r, x = a :: r ∧ a.length = intCount m l ∧ Fit m fl r := by
  unfold Fit
  have : interactiveLayers m (l :: fl) = l :: interactiveLayers m fl := by simp [interactiveLayers, h0]
  rw [this]
  cases x with
  | nil => simp
  | cons a r => simp

theorem fit_skip {l : MLayer} {fl : List MLayer} (h0 : intCount m l = 0) (x : List (List (Bool × Bool))) :
    Fit m (l :: fl) x ↔ Fit m fl x := by
  unfold Fit
  have : interactiveLayers m (l :: fl) = interactiveLayers m fl := by simp [interactiveLayers, h0]
  rw [this]

theorem layers_active {party : Nat} {inp inp' : Input Bool (List Bool)} (hs : SameShape inp inp')
    (ho : ∀ k n, (other k n).length = n) (adv : List (Msg × Option SimdMsg) → Option (Msg × Option SimdMsg))
    (fl : List (MLayer × List Node)) (hu : ∀ l ∈ fl.map (·.1), intScalar m l = [] ∨ intSimd m l = []) :
    ∀ (k : Nat) (st st' : Store Bool (List Bool)) (sent : List (Msg × Option SimdMsg)), Alike st st' →
    ∃ f : List (List (Bool × Bool)) → List (List (Bool × Bool)),
      Set.BijOn f {x | Fit m (fl.map (·.1)) x} {x | Fit m (fl.map (·.1)) x} ∧
      ∀ x, Fit m (fl.map (·.1)) x →
        SameCourse (interact adv sent (execLayers gmw m party inp (tailSetup other k x) k fl st))
          (interact adv sent (execLayers gmw m party inp' (tailSetup other k (f x)) k fl st')) := by
  induction fl with
  | nil =>
    intro k st st' sent h
    refine ⟨id, Set.bijOn_id _, fun x _ => ?_⟩
    simp only [execLayers]
    have := outputs_alike (m := m) h
    cases h1 : outputs m st <;> cases h2 : outputs m st' <;> rw [h1, h2] at this
    · exact ⟨rfl, rfl⟩
    · exact this.elim
    · exact this.elim
    · exact ⟨rfl, rfl⟩
  | cons f fl ih =>
    obtain ⟨l, fs⟩ := f
    have ih := ih fun l h => hu l (List.mem_cons_of_mem _ h)
    intro k st st' sent h
    have hev := evalNodes_alike (m := m) (party := party) hs (niOf l) h
    cases h1 : evalNodes gmw m party inp st (niOf l) with
    | none =>
      cases h2 : evalNodes gmw m party inp' st' (niOf l) with
      | none =>
        refine ⟨id, Set.bijOn_id _, fun x _ => ?_⟩
        simp only [execLayers, h1, h2]
        exact ⟨rfl, rfl⟩
      | some _ => rw [h1, h2] at hev; exact hev.elim
    | some s1 =>
      cases h2 : evalNodes gmw m party inp' st' (niOf l) with
      | none => rw [h1, h2] at hev; exact hev.elim
      | some s1' =>
        rw [h1, h2] at hev
        replace hev : Alike s1 s1' := hev
        by_cases h0 : intCount m l = 0
        · simp only [execLayers, h1, h2, h0, if_true, List.map_cons, fit_skip h0]
          exact ih k s1 s1' sent hev
        · simp only [List.map_cons]
          obtain ⟨δ, d1, d2⟩ := msgs_delta hev party l (hu l (by simp)) (intCount m l)
          have step : ∀ a : List (Bool × Bool), ∃ g : List (List (Bool × Bool)) → List (List (Bool × Bool)),
              Set.BijOn g {x | Fit m (fl.map (·.1)) x} {x | Fit m (fl.map (·.1)) x} ∧
              (a.length = intCount m l → ∀ r, Fit m (fl.map (·.1)) r →
                SameCourse (interact adv sent (execLayers gmw m party inp (tailSetup other k (a :: r)) k ((l, fs) :: fl) st))
                  (interact adv sent
                    (execLayers gmw m party inp' (tailSetup other k (xorP a δ :: g r)) k ((l, fs) :: fl) st'))) := by
            intro a
            by_cases ha : a.length = intCount m l
            swap
            · exact ⟨id, Set.bijOn_id _, fun h => absurd h ha⟩
            have hx : (xorP a δ).length = intCount m l := by rw [xorP_length (by omega), d1]
            have len : ∀ b : List (Bool × Bool), (tailSetup other k [b] k (intCount m l)).length = intCount m l := by
              intro b; simp only [tailSetup, partnerSetup_length, ho]
            have hrel := d2 (tailSetup other k [a] k (intCount m l)) (tailSetup other k [xorP a δ] k (intCount m l))
              (len a) (len _) (by rw [tailSetup_bits ho [] ha, tailSetup_bits ho [] hx])
            have cong : ∀ (y : Input Bool (List Bool)) (b : List (Bool × Bool)) (r : List (List (Bool × Bool)))
                (s : Store Bool (List Bool)), execLayers gmw m party y (tailSetup other k (b :: r)) (k + 1) fl s =
                  execLayers gmw m party y (tailSetup other (k + 1) r) (k + 1) fl s :=
              fun y b r s => execLayers_congr fl (k + 1) s fun i n hi => tailSetup_tail k i n b r hi
            simp only [execLayers, h1, h2, h0, if_false, tailSetup_head (other := other) k (intCount m l) a,
              tailSetup_head (other := other) k (intCount m l) (xorP a δ), cong]
            cases c1 : computeMsgs gmw m party s1 l (tailSetup other k [a] k (intCount m l)) with
            | none =>
              cases c2 : computeMsgs gmw m party s1' l (tailSetup other k [xorP a δ] k (intCount m l)) with
              | none => exact ⟨id, Set.bijOn_id _, fun _ _ _ => ⟨rfl, rfl⟩⟩
              | some _ => rw [c1, c2] at hrel; exact hrel.elim
            | some w =>
              cases c2 : computeMsgs gmw m party s1' l (tailSetup other k [xorP a δ] k (intCount m l)) with
              | none => rw [c1, c2] at hrel; exact hrel.elim
              | some w' =>
                rw [c1, c2] at hrel
                obtain ⟨msg, t⟩ := w
                obtain ⟨msg', t'⟩ := w'
                obtain ⟨e1, e2, e3⟩ := hrel
                dsimp only at e1 e2 e3
                subst e1 e2 e3
                simp only [interact]
                cases hadv : adv (sent ++ [msg]) with
                | none => exact ⟨id, Set.bijOn_id _, fun _ _ _ => ⟨rfl, rfl⟩⟩
                | some r =>
                  dsimp only
                  have hf := finish_alike (m := m) (free_alike hev fs) party l msg r
                    (t := tailSetup other k [a] k (intCount m l))
                    (t' := tailSetup other k [xorP a δ] k (intCount m l)) (by rw [len, len])
                  cases f1 : finishLayer gmw m party (free gmw s1 fs) l msg r (tailSetup other k [a] k (intCount m l)) with
                  | none =>
                    cases f2 : finishLayer gmw m party (free gmw s1' fs) l msg r
                        (tailSetup other k [xorP a δ] k (intCount m l)) with
                    | none => exact ⟨id, Set.bijOn_id _, fun _ _ _ => ⟨rfl, rfl⟩⟩
                    | some _ => rw [f1, f2] at hf; exact hf.elim
                  | some s2 =>
                    cases f2 : finishLayer gmw m party (free gmw s1' fs) l msg r
                        (tailSetup other k [xorP a δ] k (intCount m l)) with
                    | none => rw [f1, f2] at hf; exact hf.elim
                    | some s2' =>
                      rw [f1, f2] at hf
                      obtain ⟨g, g1, g2⟩ := ih (k + 1) s2 s2' (sent ++ [msg]) hf
                      exact ⟨g, g1, fun _ r hr => g2 r hr⟩
          choose g g1 g2 using step
          let F : List (List (Bool × Bool)) → List (List (Bool × Bool)) := fun x =>
            match x with
            | [] => []
            | a :: r => xorP a δ :: g a r
          refine ⟨F, ⟨?_, ?_, ?_⟩, ?_⟩
          · intro x hx
            obtain ⟨a, r, rfl, ha, hr⟩ := (fit_cons h0 x).1 hx
            exact (fit_cons h0 _).2 ⟨xorP a δ, g a r, rfl, by rw [xorP_length (by omega), d1], (g1 a).mapsTo hr⟩
          · intro x hx y hy hxy
            obtain ⟨a, r, rfl, ha, hr⟩ := (fit_cons h0 x).1 hx
            obtain ⟨b, q, rfl, hb, hq⟩ := (fit_cons h0 y).1 hy
            simp only [F, List.cons.injEq] at hxy
            have hab : a = b := by
              rw [← xorP_twice (x := a) (y := δ) (by omega), hxy.1, xorP_twice (by omega)]
            subst hab
            rw [(g1 a).injOn hr hq hxy.2]
          · intro y hy
            obtain ⟨b, q, rfl, hb, hq⟩ := (fit_cons h0 y).1 hy
            obtain ⟨r, hr, rfl⟩ := (g1 (xorP b δ)).surjOn hq
            refine ⟨xorP b δ :: r, (fit_cons h0 _).2 ⟨_, _, rfl, by rw [xorP_length (by omega), d1], hr⟩, ?_⟩
            simp only [F, xorP_twice (x := b) (y := δ) (by omega)]
          · intro x hx
            obtain ⟨a, r, rfl, ha, hr⟩ := (fit_cons h0 x).1 hx
            exact g2 a ha r hr

/-! ### Theorems -/

/-- **C88.**  Boolean GMW of an honest party with input shares `inp` or `inp'` of the same lengths, against a
peer that holds the triples `other` and follows any strategy `adv`, malformed messages and closing the connection included.
To every choice of the factors of the honest party's triples in the first case belongs exactly one in the second such that
the peer receives the same messages and the honest party returns an output in both cases or in none.  With uniformly random
factors all that the peer sees is therefore distributed in the same way for `inp` and `inp'`. -/
theorem gmw_active_private (m : Multi BoolGate) (rank : Node → Nat) (w : WF m rank) (hu : Unmixed m)
    (party : Nat) (inp inp' : Input Bool (List Bool)) (hs : SameShape inp inp') (init : Store Bool (List Bool)) :
    ∃ it ls, MIter.new m = some it ∧
      MIter.collect m ((m.circs.map fun c => c.gates.length).sum + 1) it = some ls ∧
      ∀ (other : Nat → Nat → List Triple), (∀ k n, (other k n).length = n) →
      ∀ (adv : List (Msg × Option SimdMsg) → Option (Msg × Option SimdMsg)),
      ∃ f : List (List (Bool × Bool)) → List (List (Bool × Bool)),
        Set.BijOn f {x | Fit m ls x} {x | Fit m ls x} ∧
        ∀ masks, Fit m ls masks → ∃ (seen : List (Msg × Option SimdMsg)) (o o' : Option (Input Bool (List Bool))),
          interact adv [] (execute gmw m party inp (partnerSetup other masks) init) = (seen, o) ∧
          interact adv [] (execute gmw m party inp' (partnerSetup other (f masks)) init) = (seen, o') ∧
          o.isSome = o'.isSome := by
  obtain ⟨it, ls, e1, e2, ok⟩ := layers_ok_partial m rank w
  refine ⟨it, ls, e1, e2, fun other ho adv => ?_⟩
  obtain ⟨fl, e3, hfl, hfree⟩ := freeable_spec (m := m) ls [] (fun _ => none)
    (by simpa using ok.once) (by intro u _; simp) (by intro w hw; simp at hw) ok.topo
  have hum := unmixed_layers hu ok
  rw [← hfl] at hum
  have tail : ∀ x, tailSetup other 0 x = partnerSetup other x := by
    intro x; funext i n; simp [tailSetup, partnerSetup]
  cases hc : m.circs[0]? with
  | none =>
    refine ⟨id, Set.bijOn_id _, fun x _ => ⟨[], none, none, ?_, ?_, rfl⟩⟩ <;> simp [execute, hc, interact]
  | some c =>
    have hiff : InputLen c inp ↔ InputLen c inp' := by
      match inp, inp', hs with
      | .scalar a, .scalar b, hs => simp only [SameShape] at hs; simp only [InputLen, hs]
      | .simd a, .simd b, hs =>
        have : a.length = b.length := by simpa using congrArg List.length hs
        simp only [InputLen, this]
    have yes : ∀ (y : Input Bool (List Bool)) (su : Nat → Nat → List Triple), InputLen c y →
        execute gmw m party y su init = execLayers gmw m party y su 0 fl init := by
      intro y su hy
      cases y <;> simp only [InputLen] at hy <;> simp [execute, hc, hy, e1, e2, e3]
    have no : ∀ (y : Input Bool (List Bool)) (su : Nat → Nat → List Triple), ¬ InputLen c y →
        execute gmw m party y su init = .fail := by
      intro y su hy
      cases y <;> simp only [InputLen] at hy <;> simp [execute, hc, hy]
    by_cases hl : InputLen c inp
    · obtain ⟨f, f1, f2⟩ := layers_active (party := party) hs ho adv fl hum 0 init init [] ⟨rfl, fun _ => rfl⟩
      rw [hfl] at f1 f2
      refine ⟨f, f1, fun x hx => ?_⟩
      have := f2 x hx
      rw [tail, tail] at this
      refine ⟨(interact adv [] (execLayers gmw m party inp (partnerSetup other x) 0 fl init)).1, _, _, ?_, ?_, this.2⟩
      · rw [yes _ _ hl]
      · rw [yes _ _ (hiff.1 hl), this.1]
    · refine ⟨id, Set.bijOn_id _, fun x _ => ⟨[], none, none, ?_, ?_, rfl⟩⟩
      · rw [no _ _ hl]; rfl
      · rw [no _ _ fun h => hl (hiff.2 h)]; rfl

end Verif.Exec
