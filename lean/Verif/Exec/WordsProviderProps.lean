import Verif.Exec.WordsProvider

/-!
C95: executions on SIMD shares in words with the OT based triple provider.
-/
set_option autoImplicit false

namespace Verif.Exec

open Circuit Proc Gmw

/-! ### Leak -/

/-- `output(x & y)` with `n` lanes. -/
def oneAnd (n : Nat) : Base BoolGate :=
  { gates := [.base .input, .base .input, .and, .base .output]
    edges := [(0, 2), (1, 2), (2, 3)]
    simdSize := some n, interactiveCount := 1, inputGates := [0, 1], outputGates := [3] }

theorem oneAnd_first {σ : Type} (n : Nat) (hn : n ≠ 0) (x y : Raw) (req : σ → Nat → Option (σ × Mts)) (s s' : σ) (t : Mts)
    (hr : req s n = some (s', t)) (msg : SimdMsg)
    (hm : computeMsgWords [y.clone, x.clone] t = some msg) :
    ∃ k, executeP wgmw (.ofBase (oneAnd n)) 0 (.simd [x, y]) req s noRaw =
      .send (⟨0, [], []⟩, some msg) k := by
  obtain ⟨fs, ls, hfl⟩ : ∃ fs ls, (do
      let it ← MIter.new (Multi.ofBase (oneAnd n))
      let ls ← MIter.collect (Multi.ofBase (oneAnd n)) 5 it
      freeable (Multi.ofBase (oneAnd n)) (fun _ => none) ls) = some (([(0, ⟨[0, 1], [2]⟩)], fs) :: ls) := ⟨_, _, rfl⟩
  have he : executeP wgmw (.ofBase (oneAnd n)) 0 (.simd [x, y]) req s noRaw =
      execLayersP wgmw (.ofBase (oneAnd n)) 0 (.simd [x, y]) req s (([(0, ⟨[0, 1], [2]⟩)], fs) :: ls) noRaw := by
    unfold executeP
    have hcirc : (Multi.ofBase (oneAnd n)).circs[0]? = some (oneAnd n) := rfl
    have hs : (List.map (fun c => c.gates.length) (Multi.ofBase (oneAnd n)).circs).sum + 1 = 5 := rfl
    simp only [hcirc, hs, Option.bind_eq_bind, Option.bind_some]
    simp only [Option.bind_eq_bind] at hfl
    rw [hfl]
    rfl
  rw [he]
  obtain ⟨st, hst, h0, h1⟩ : ∃ st, evalNodes wgmw (.ofBase (oneAnd n)) 0 (.simd [x, y]) noRaw (niOf [(0, ⟨[0, 1], [2]⟩)]) = some st ∧
     st.getSimd (.ofBase (oneAnd n)) (0, 0) = some x.clone ∧ st.getSimd (.ofBase (oneAnd n)) (0, 1) = some y.clone := ⟨_, rfl, rfl, rfl⟩
  have hp : (Multi.ofBase (oneAnd n)).parents (0, 2) = [(0, 1), (0, 0)] := rfl
  have hc : computeMsgs wgmw (.ofBase (oneAnd n)) 0 st [(0, ⟨[0, 1], [2]⟩)] t = some ((⟨0, [], []⟩, some msg), t) := by
    have i0 : intScalar (Multi.ofBase (oneAnd n)) [(0, ⟨[0, 1], [2]⟩)] = [] := rfl
    have i1 : intSimd (Multi.ofBase (oneAnd n)) [(0, ⟨[0, 1], [2]⟩)] = [(0, 2)] := rfl
    have g2 : (Multi.ofBase (oneAnd n)).gate? (0, 2) = some .and := rfl
    simp only [computeMsgs, i0, i1, List.mapM_nil, List.mapM_cons, wgmw, Option.bind_eq_bind, Option.pure_def, Option.bind_some,
          computeMsg, computeMsgPairs, List.flatten_nil, Option.map_some, if_true, hp, h0, h1, g2, List.flatten_cons,
          List.append_nil, hm]
    rfl
  have hn' : intCount (Multi.ofBase (oneAnd n)) [(0, ⟨[0, 1], [2]⟩)] = n := by
    simp [intCount, lanes, Multi.ofBase, oneAnd]
  simp only [execLayersP, hst, hn', hr, hc, if_neg hn]
  exact ⟨_, rfl⟩

/-- C95 fails with the OT based provider for a circuit with one AND gate of `n` lanes, if `n` is not a multiple
of 8, with precomputed triples (`pre`) and without: the share of the first lane is sent in the clear.
Whatever the triples are, the peer sees different messages for two different shares. -/
theorem ot_provider_leak (n : Nat) (hn : n % 8 ≠ 0) (pre : Bool)
    (gen gen' : Nat → Nat → List Triple) (hg : ∀ k n, (gen k n).length = Mt.nextMultipleOf8 n)
    (hg' : ∀ k n, (gen' k n).length = Mt.nextMultipleOf8 n)
    (adv : List (Msg × Option SimdMsg) → Option (Msg × Option SimdMsg)) (x y x' y' : List Bool)
    (lx : x.length = n) (ly : y.length = n) (lx' : x'.length = n) (ly' : y'.length = n)
    (hd : x[0]? ≠ x'[0]?) :
    (interact adv [] (executeP wgmw (.ofBase (oneAnd n)) 0 (.simd [ofBits x, ofBits y]) (requestWords gen)
      (if pre then WProvider.precompute gen {} n else {}) noRaw)).1 ≠
    (interact adv [] (executeP wgmw (.ofBase (oneAnd n)) 0 (.simd [ofBits x', ofBits y']) (requestWords gen')
      (if pre then WProvider.precompute gen' {} n else {}) noRaw)).1 := by
  have first : ∀ (x y : List Bool) (gen : Nat → Nat → List Triple), (∀ k n, (gen k n).length = Mt.nextMultipleOf8 n) →
      x.length = n → y.length = n →
      ∃ msg more, (interact adv [] (executeP wgmw (.ofBase (oneAnd n)) 0 (.simd [ofBits x, ofBits y]) (requestWords gen)
        (if pre then WProvider.precompute gen {} n else {}) noRaw)).1 = (⟨0, [], []⟩, some msg) :: more ∧
        msg.d[0]? = x[0]? := by
    intro x y gen hg lx ly
    have h8 := Mt.nextMultipleOf8_spec n
    obtain ⟨s', t, hr, hlen, hpos⟩ : ∃ s' t, requestWords gen (if pre then WProvider.precompute gen {} n else {}) n = some (s', t) ∧
        n ≤ t.ts.length ∧ 0 < (t.head + (t.ts.length - n)) % 64 := by
      cases pre with
      | true =>
        have hle : n ≤ (gen 0 n).length := by rw [hg]; exact h8.1
        refine ⟨⟨some ⟨0, (gen 0 n).take ((gen 0 n).length - n)⟩, 1⟩, ⟨(0 + ((gen 0 n).length - n)) % 64, (gen 0 n).drop ((gen 0 n).length - n)⟩, ?_, ?_, ?_⟩
        · simp only [if_true, WProvider.precompute, requestWords, hle, splitOffLast_some (m := ⟨0, gen 0 n⟩) hle, Option.map_some]
        · simp; omega
        · simp only [List.length_drop, hg]; omega
      | false =>
        refine ⟨⟨none, 1⟩, ⟨0, gen 0 n⟩, ?_, ?_, ?_⟩
        · simp only [Bool.false_eq_true, if_false, requestWords]
        · simp only [hg]; exact h8.1
        · simp only [hg]; omega
    obtain ⟨msg, hm, hb⟩ := words_message_unmasked [(y, x)] [(ofBits y).clone, (ofBits x).clone] t
      (by simp [clone_live, ofBits_live, operandSeq]) (by simp [lx, ly]) (by simpa [ly] using hlen)
    obtain ⟨k, hk⟩ := oneAnd_first n (by omega) (ofBits x) (ofBits y) (requestWords gen) _ s' t hr msg hm
    obtain ⟨more, hmore⟩ := interact_prefix adv k [(⟨0, [], []⟩, some msg)]
    refine ⟨msg, more, ?_, ?_⟩
    · rw [hk]
      simp only [interact, List.nil_append, hmore, List.singleton_append]
    · have := (hb 0 (by simp [ly]; omega) (by simpa [ly] using hpos)).1
      simpa using this
  obtain ⟨m1, r1, e1, b1⟩ := first x y gen hg lx ly
  obtain ⟨m2, r2, e2, b2⟩ := first x' y' gen' hg' lx' ly'
  intro e
  rw [e1, e2] at e
  simp only [List.cons.injEq, Prod.mk.injEq, Option.some.injEq, true_and] at e
  rw [e.1, b2] at b1
  exact hd b1.symm

/-! ### Correctness -/

/-- Both providers serve the requests with matching triples that begin at the same position, enough for
each request. -/
inductive ServedW {σ : Type} (req0 req1 : σ → Nat → Option (σ × Mts)) : σ → σ → List Nat → σ → σ → Prop
  | nil (s0 s1 : σ) : ServedW req0 req1 s0 s1 [] s0 s1
  | cons {s0 s1 s0' s1' q0 q1 : σ} {n : Nat} {ns : List Nat} {t0 t1 : Mts} :
      req0 s0 n = some (s0', t0) → req1 s1 n = some (s1', t1) → Matching t0.ts t1.ts → n ≤ t0.ts.length →
      t1.head = t0.head → ServedW req0 req1 s0' s1' ns q0 q1 → ServedW req0 req1 s0 s1 (n :: ns) q0 q1

theorem ServedW.after {σ : Type} {req0 req1 : σ → Nat → Option (σ × Mts)} {s0 s1 q0 q1 : σ} {ns : List Nat}
    (h : ServedW req0 req1 s0 s1 ns q0 q1) :
    stateAfter req0 s0 ns = some q0 ∧ stateAfter req1 s1 ns = some q1 := by
  induction h with
  | nil => exact ⟨rfl, rfl⟩
  | cons h0 h1 _ _ _ _ ih => exact ⟨by simp [stateAfter, h0, ih.1], by simp [stateAfter, h1, ih.2]⟩

theorem zero_matching (k n : Nat) : Matching (zeroTriples k n) (zeroTriples k n) := by
  unfold zeroTriples
  induction n with
  | zero => exact .nil
  | succ n ih => exact .cons (by simp [ValidPair]) ih

theorem ServedW.answers {σ : Type} {req0 req1 : σ → Nat → Option (σ × Mts)} {s0 s1 q0 q1 : σ} {ns : List Nat}
    (h : ServedW req0 req1 s0 s1 ns q0 q1) :
    ∃ setup0 setup1, Answers req0 s0 ns setup0 ∧ Answers req1 s1 ns setup1 ∧
      ∀ k n, Matching (setup0 k n).ts (setup1 k n).ts ∧ n ≤ (setup0 k n).ts.length ∧
        (setup1 k n).head = (setup0 k n).head := by
  induction h with
  | nil =>
    refine ⟨fun k n => ⟨0, zeroTriples k n⟩, fun k n => ⟨0, zeroTriples k n⟩, ?_, ?_, ?_⟩
    · intro k n s' q t _ hk; simp at hk
    · intro k n s' q t _ hk; simp at hk
    · intro k n; exact ⟨zero_matching k n, by simp [zeroTriples], rfl⟩
  | @cons s0 s1 s0' s1' q0 q1 n ns t0 t1 h0 h1 hm hl hh _ ih =>
    obtain ⟨f0, f1, a0, a1, hf⟩ := ih
    refine ⟨fun k i => match k with | 0 => if i = n then t0 else ⟨0, zeroTriples 0 i⟩ | k + 1 => f0 k i,
      fun k i => match k with | 0 => if i = n then t1 else ⟨0, zeroTriples 0 i⟩ | k + 1 => f1 k i, ?_, ?_, ?_⟩
    · intro k i s' q t hs hk hr
      cases k with
      | zero =>
        simp only [List.take_zero, stateAfter, Option.some.injEq] at hs
        subst hs
        simp only [List.getElem?_cons_zero, Option.some.injEq] at hk
        subst hk
        rw [h0] at hr
        cases hr
        simp
      | succ k =>
        simp only [List.take_succ_cons, stateAfter, h0, Option.bind_eq_bind, Option.bind_some] at hs
        exact a0 k i s' q t hs (by simpa using hk) hr
    · intro k i s' q t hs hk hr
      cases k with
      | zero =>
        simp only [List.take_zero, stateAfter, Option.some.injEq] at hs
        subst hs
        simp only [List.getElem?_cons_zero, Option.some.injEq] at hk
        subst hk
        rw [h1] at hr
        cases hr
        simp
      | succ k =>
        simp only [List.take_succ_cons, stateAfter, h1, Option.bind_eq_bind, Option.bind_some] at hs
        exact a1 k i s' q t hs (by simpa using hk) hr
    · intro k i
      cases k with
      | zero =>
        by_cases h : i = n
        · subst h; simpa using ⟨hm, hl, hh⟩
        · simp only [h, if_false]; refine ⟨zero_matching 0 i, by simp [zeroTriples], trivial⟩
      | succ k => exact hf k i

/-- The providers of the two parties hold matching triples at the same position. -/
def WPairOk (p0 p1 : WProvider) : Prop := p0.computed = p1.computed ∧
  ((p0.stored = none ∧ p1.stored = none) ∨ ∃ b0 b1, p0.stored = some b0 ∧ p1.stored = some b1 ∧
    b1.head = b0.head ∧ Matching b0.ts b1.ts)

/-- What `compute_mts` of the two parties guarantees (C19). -/
def WGenOk (gen0 gen1 : Nat → Nat → List Triple) : Prop :=
  ∀ k n, (gen0 k n).length = Mt.nextMultipleOf8 n ∧ Matching (gen0 k n) (gen1 k n)

theorem matching_length {a b : List Triple} (h : Matching a b) : b.length = a.length := (List.Forall₂.length_eq h).symm

theorem requestWords_pair {gen0 gen1 : Nat → Nat → List Triple} (hg : WGenOk gen0 gen1) {p0 p1 : WProvider}
    (hp : WPairOk p0 p1) (n : Nat) :
    ∃ q0 t0 q1 t1, requestWords gen0 p0 n = some (q0, t0) ∧ requestWords gen1 p1 n = some (q1, t1) ∧
      WPairOk q0 q1 ∧ Matching t0.ts t1.ts ∧ n ≤ t0.ts.length ∧ t1.head = t0.head := by
  obtain ⟨s0, c0⟩ := p0
  obtain ⟨s1, c1⟩ := p1
  obtain ⟨hc, hp⟩ := hp
  simp only at hc hp
  subst hc
  rcases hp with ⟨rfl, rfl⟩ | ⟨b0, b1, rfl, rfl, hh, hm⟩
  · exact ⟨_, _, _, _, rfl, rfl, ⟨rfl, .inl ⟨rfl, rfl⟩⟩, (hg c0 n).2,
      by rw [(hg c0 n).1]; exact (Mt.nextMultipleOf8_spec n).1, rfl⟩
  · have hl := matching_length hm
    by_cases h : n ≤ b0.ts.length
    · have h' : n ≤ b1.ts.length := by omega
      refine ⟨⟨some ⟨b0.head, b0.ts.take (b0.ts.length - n)⟩, c0⟩,
        ⟨(b0.head + (b0.ts.length - n)) % 64, b0.ts.drop (b0.ts.length - n)⟩,
        ⟨some ⟨b1.head, b1.ts.take (b1.ts.length - n)⟩, c0⟩,
        ⟨(b1.head + (b1.ts.length - n)) % 64, b1.ts.drop (b1.ts.length - n)⟩, by simp [requestWords, h, splitOffLast_some h],
        by simp [requestWords, h', splitOffLast_some h'], ⟨rfl, .inr ⟨_, _, rfl, rfl, hh, ?_⟩⟩, ?_, ?_, ?_⟩
      · simp only [hl]; exact List.forall₂_take _ hm
      · simp only [hl]; exact List.forall₂_drop _ hm
      · simp; omega
      · simp [hh, hl]
    · have h' : ¬ n ≤ b1.ts.length := by omega
      refine ⟨⟨some ⟨0, []⟩, c0 + 1⟩, ⟨b0.head, b0.ts ++ gen0 c0 (n - b0.ts.length)⟩,
        ⟨some ⟨0, []⟩, c0 + 1⟩, ⟨b1.head, b1.ts ++ gen1 c0 (n - b1.ts.length)⟩,
        by simp only [requestWords, h, if_false], by simp only [requestWords, h', if_false],
        ⟨rfl, .inr ⟨⟨0, []⟩, ⟨0, []⟩, rfl, rfl, rfl, List.Forall₂.nil⟩⟩, ?_, ?_, hh⟩
      · simp only [hl]
        exact matching_append hm (hg c0 _).2
      · simp only [List.length_append, (hg c0 _).1]
        have := (Mt.nextMultipleOf8_spec (n - b0.ts.length)).1
        omega

theorem wprovider_serves {gen0 gen1 : Nat → Nat → List Triple} (hg : WGenOk gen0 gen1) (ns : List Nat) :
    ∀ {p0 p1 : WProvider}, WPairOk p0 p1 →
    ∃ q0 q1, ServedW (requestWords gen0) (requestWords gen1) p0 p1 ns q0 q1 ∧ WPairOk q0 q1 := by
  induction ns with
  | nil => intro p0 p1 hp; exact ⟨p0, p1, .nil _ _, hp⟩
  | cons n ns ih =>
    intro p0 p1 hp
    obtain ⟨q0, t0, q1, t1, h0, h1, hq, hm, hl, hh⟩ := requestWords_pair hg hp n
    obtain ⟨r0, r1, hs, hr⟩ := ih hq
    exact ⟨r0, r1, .cons h0 h1 hm hl hh hs, hr⟩

/-- C95 (correctness with the OT based provider).  Two executors on SIMD shares in words, all lanes multiples
of 64, with OT based providers that are new, have precomputed any number of triples or have served other
executions: they return shares of the plaintext output, and the providers can be used again. -/
theorem gmw_words_provider_correct_partial (m : Multi BoolGate) (rank : Node → Nat) (w : WF m rank)
    (hw : ExecWF m) (hu : Unmixed m) (c0 : Base BoolGate) (hc0 : m.circs[0]? = some c0)
    (inp0 inp1 : Input Bool Raw) (inp : Input Bool (List Bool)) (hi : InputOk m c0 inp)
    (hin : Shares inp0.lives inp1.lives inp) (gen0 gen1 : Nat → Nat → List Triple) (hg : WGenOk gen0 gen1)
    (p0 p1 : WProvider) (hpp : WPairOk p0 p1)
    (init0 init1 : Store Bool Raw) (val : Node → Bool) (valV : Node → List Bool)
    (hp : PlainEval m inp val valV) (hl : WordLanes m)
    (hx : ∀ v, m.gate? v = some .xor → isSimd m v.1 = true → ∀ u ∈ m.parents v,
      lanes m u.1 = lanes m v.1)
    (hi0 : InputHeads c0 (fun _ => 0) inp0) (hi1 : InputHeads c0 (fun _ => 0) inp1) :
    ∃ o0 o1 q0 q1, WPairOk q0 q1 ∧
      Runs (executeP wgmw m 0 inp0 (requestWords gen0) p0 init0)
        (executeP wgmw m 1 inp1 (requestWords gen1) p1 init1) (o0, q0) (o1, q1) ∧
      Shares o0.lives o1.lives (plainOutput m c0 val valV) := by
  obtain ⟨it, ls, e1, e2, ok, h0⟩ := executeP_eq wgmw m rank w 0 inp0 (requestWords gen0)
  obtain ⟨it', ls', e1', e2', -, h1⟩ := executeP_eq wgmw m rank w 1 inp1 (requestWords gen1)
  rw [e1] at e1'; cases e1'
  rw [e2] at e2'; cases e2'
  obtain ⟨q0, q1, hs, hq⟩ := wprovider_serves hg (requestsOf m ls) hpp
  obtain ⟨setup0, setup1, a0, a1, hset⟩ := hs.answers
  obtain ⟨_, o0, o1, -, hxc, -, hsh⟩ := gmw_words_correct_partial m rank w hw hu c0 hc0 inp0 inp1 inp hi
    hin setup0 setup1 hset init0 init1 val valV hp (fun _ => 0) (fun _ ls _ _ => headsOk_zero hl hx ls)
    hi0 hi1
  refine ⟨o0, o1, q0, q1, hq, ?_, hsh⟩
  rw [h0 p0 q0 setup0 init0 hs.after.1 a0, h1 p1 q1 setup1 init1 hs.after.2 a1]
  exact (mapProc_exchange (f := fun o => (o, q0)) (g := fun o => (o, q1)) hxc).runs

/-! ### Privacy -/

section
variable {α : Type}

/-- A list cut into pieces of the given lengths, beginning at its end. -/
def cutEnd (l : List α) : List Nat → List (List α)
  | [] => []
  | n :: ns => l.drop (l.length - n) :: cutEnd (l.take (l.length - n)) ns

def joinEnd : List (List α) → List α
  | [] => []
  | x :: xs => joinEnd xs ++ x

theorem joinEnd_length (xs : List (List α)) : (joinEnd xs).length = (xs.map List.length).sum := by
  induction xs with
  | nil => rfl
  | cons x xs ih => simp [joinEnd, ih]; omega

theorem cutEnd_lengths (ns : List Nat) : ∀ l : List α, ns.sum ≤ l.length → (cutEnd l ns).map List.length = ns := by
  induction ns with
  | nil => intro l _; rfl
  | cons n ns ih =>
    intro l h
    simp only [List.sum_cons] at h
    simp only [cutEnd, List.map_cons, List.length_drop]
    rw [ih _ (by simp; omega)]
    congr 1
    omega

theorem cutEnd_joinEnd (xs : List (List α)) : cutEnd (joinEnd xs) (xs.map List.length) = xs := by
  induction xs with
  | nil => rfl
  | cons x xs ih =>
    have h : (joinEnd xs ++ x).length - x.length = (joinEnd xs).length := by simp
    simp only [joinEnd, List.map_cons, cutEnd, h, List.drop_left, List.take_left]
    rw [ih]

theorem cutEnd_joinEnd' {xs : List (List α)} {ns : List Nat} (h : xs.map List.length = ns) :
    cutEnd (joinEnd xs) ns = xs := by
  subst h; exact cutEnd_joinEnd xs

theorem joinEnd_cutEnd (ns : List Nat) : ∀ l : List α, l.length = ns.sum → joinEnd (cutEnd l ns) = l := by
  induction ns with
  | nil => intro l h; simp only [List.sum_nil, List.length_eq_zero_iff] at h; subst h; rfl
  | cons n ns ih =>
    intro l h
    simp only [List.sum_cons] at h
    simp only [cutEnd, joinEnd]
    rw [ih _ (by simp; omega), List.take_append_drop]

theorem cutEnd_get (ns : List Nat) : ∀ (l : List α), ns.sum ≤ l.length → ∀ k n : Nat, ns[k]? = some n →
    (cutEnd l ns)[k]? = some ((l.drop (l.length - (ns.take (k + 1)).sum)).take n) := by
  induction ns with
  | nil => intro l _ k n h; simp at h
  | cons i ns ih =>
    intro l h k n hk
    simp only [List.sum_cons] at h
    cases k with
    | zero =>
      simp only [List.getElem?_cons_zero, Option.some.injEq] at hk
      subst hk
      simp only [cutEnd, List.getElem?_cons_zero, List.take_succ_cons, List.take_zero, List.sum_cons, List.sum_nil,
        Nat.add_zero, Option.some.injEq]
      rw [List.take_of_length_le (by simp; omega)]
    | succ k =>
      simp only [List.getElem?_cons_succ] at hk
      simp only [cutEnd, List.getElem?_cons_succ]
      rw [ih _ (by simp; omega) k n hk]
      have hik : n ≤ (ns.take (k + 1)).sum := by
        have hm : n ∈ ns.take (k + 1) := by
          rw [List.mem_take_iff_getElem]
          obtain ⟨hlt, rfl⟩ := List.getElem?_eq_some_iff.1 hk
          exact ⟨k, by omega, rfl⟩
        exact List.single_le_sum (by simp) _ hm
      have hle : (ns.take (k + 1)).sum ≤ ns.sum := by
        have := congrArg List.sum (List.take_append_drop (k + 1) ns)
        simp only [List.sum_append] at this
        omega
      simp only [List.length_take, List.take_succ_cons, List.sum_cons, Option.some.injEq]
      have e : min (l.length - i) l.length - (ns.take (k + 1)).sum = l.length - (i + (ns.take (k + 1)).sum) := by omega
      rw [e, List.drop_take, List.take_take]
      congr 1
      omega

end

theorem answers_of_answersTo {σ T : Type} (req : σ → Nat → Option (σ × T)) (setup : Nat → Nat → T) (ns : List Nat) :
    ∀ (s : σ) (out : List T), answersTo req s ns = some out →
      (∀ (k n : Nat) (t : T), ns[k]? = some n → out[k]? = some t → setup k n = t) → Answers req s ns setup := by
  intro s out h hs k n s' q t h1 h2 h3
  refine hs k n t h2 ?_
  clear hs
  induction ns generalizing s out k with
  | nil => simp at h2
  | cons i ns ih =>
    simp only [answersTo, Option.bind_eq_bind, Option.bind_eq_some_iff, Option.pure_def, Option.some.injEq,
      Prod.exists] at h
    obtain ⟨s1, t1, hr, ts, hts, rfl⟩ := h
    cases k with
    | zero =>
      simp only [List.take_zero, stateAfter, Option.some.injEq] at h1
      subst h1
      simp only [List.getElem?_cons_zero, Option.some.injEq] at h2
      subst h2
      rw [hr] at h3
      cases h3
      rfl
    | succ k =>
      simp only [List.take_succ_cons, stateAfter, hr, Option.bind_eq_bind, Option.bind_some] at h1
      simpa using ih s1 ts hts k h1 (by simpa using h2)

theorem interact_mapProc {M A B : Type} (adv : List M → Option M) (f : A → B) (p : Proc M A) :
    ∀ sent, interact adv sent (mapProc f p) = ((interact adv sent p).1, (interact adv sent p).2.map f) := by
  induction p with
  | done o => intro sent; rfl
  | fail => intro sent; rfl
  | send m k ih => intro sent; simp only [mapProc, interact, ih]
  | recv k ih =>
    intro sent
    simp only [mapProc, interact]
    cases adv sent with
    | none => rfl
    | some r => exact ih r sent

theorem mapIdx_partner (t : List Triple) (x : List (Bool × Bool)) (h : x.length = t.length) :
    (t.mapIdx fun i t => partner t (x.getD i (false, false))) = List.zipWith partner t x := by
  apply List.ext_getElem
  · simp [h]
  · intro i h1 h2
    simp only [List.length_mapIdx] at h1
    simp [List.getD_eq_getElem?_getD, List.getElem?_eq_getElem (h ▸ h1 : i < x.length)]

/-- C95 (privacy with the OT based provider).  All AND gates are in simd circuits whose lanes are multiples of 64,
and the provider has precomputed as many triples as the circuit needs (C75): the peer holds the triples `other`, the
party triples that match them with factors `masks`.  Against every strategy `adv` of the peer, for any two inputs of the
party the messages are the same for masks that correspond under a bijection; so if the masks are uniformly
distributed (C19), what the peer sees does not depend on the input.  For other numbers of lanes: `ot_provider_leak`. -/
theorem gmw_words_buffer_private (m : Multi BoolGate) (rank : Node → Nat) (w : WF m rank)
    (hsimd : ∀ v, m.gate? v = some .and → isSimd m v.1 = true)
    (hb : ∀ c ∈ m.circs, c.interactiveCount = c.gates.countP fun g => GateLike.interactive g)
    (party : Nat) (hl : WordLanes m) (hk : WordPacks m) (inp inp' : Input Bool Raw)
    (hs : SameShapeW inp inp') (init : Store Bool Raw) (hinit : ∀ v, (init.ve v).WF ∧ (init.ve v).len % 64 = 0)
    (gen : Nat → Nat → List Triple) (c : Nat) (other : List Triple) (ho : other.length = countTimesSimd m)
    (adv : List (Msg × Option SimdMsg) → Option (Msg × Option SimdMsg)) :
    ∃ f : List (Bool × Bool) → List (Bool × Bool),
      Set.BijOn f {x | x.length = countTimesSimd m} {x | x.length = countTimesSimd m} ∧
      ∀ masks, masks.length = countTimesSimd m →
        ∃ (seen : List (Msg × Option SimdMsg)) (o o' : Option (Input Bool Raw × WProvider)),
          interact adv [] (executeP wgmw m party inp (requestWords gen)
            ⟨some ⟨0, List.zipWith partner other masks⟩, c⟩ init) = (seen, o) ∧
          interact adv [] (executeP wgmw m party inp' (requestWords gen)
            ⟨some ⟨0, List.zipWith partner other (f masks)⟩, c⟩ init) = (seen, o') ∧
          o.isSome = o'.isSome := by
  obtain ⟨it, ls, e1, e2, h⟩ := gmw_words_active_private m rank w (.inr hsimd) party hl hk inp inp' hs init hinit
  obtain ⟨it1, ls1, a1, a2, ok, h0⟩ := executeP_eq wgmw m rank w party inp (requestWords gen)
  rw [e1] at a1; cases a1
  rw [e2] at a2; cases a2
  obtain ⟨it2, ls2, b1, b2, -, h1⟩ := executeP_eq wgmw m rank w party inp' (requestWords gen)
  rw [e1] at b1; cases b1
  rw [e2] at b2; cases b2
  have hsum : (requestsOf m ls).sum = countTimesSimd m := by
    rw [requestsOf_sum, counts_total m ls ok hb]
  have hfit : ∀ x, Fit m ls x ↔ x.map List.length = requestsOf m ls := by
    intro x
    unfold Fit requestsOf interactiveLayers
    rw [List.filter_map]
    rfl
  have h64 : ∀ n ∈ requestsOf m ls, n % 64 = 0 := by
    intro n hn
    unfold requestsOf at hn
    obtain ⟨hn, -⟩ := List.mem_filter.1 hn
    obtain ⟨l, hl', rfl⟩ := List.mem_map.1 hn
    apply intCount_word hl
    rw [List.eq_nil_iff_forall_not_mem]
    intro v hv
    obtain ⟨g, hg, hi⟩ := ok.inter l hl' v (mem_intScalar hv).1
    have := hsimd v (by rw [hg, gate_and_of_interactive hi])
    rw [(mem_intScalar hv).2] at this; cases this
  have hsub : ∀ k, (requestsOf m ls).sum - ((requestsOf m ls).take k).sum = ((requestsOf m ls).drop k).sum := by
    intro k
    have := congrArg List.sum (List.take_append_drop k (requestsOf m ls))
    simp only [List.sum_append] at this
    omega
  have hdrop : ∀ k, ((requestsOf m ls).drop k).sum % 64 = 0 := by
    intro k
    have : ∀ l : List Nat, (∀ n ∈ l, n % 64 = 0) → l.sum % 64 = 0 := by
      intro l
      induction l with
      | nil => intro _; rfl
      | cons n l ih =>
        intro h
        have a := h n List.mem_cons_self
        have b := ih fun i hi => h i (List.mem_cons_of_mem _ hi)
        simp only [List.sum_cons]; omega
    exact this _ fun n hn => h64 n (List.mem_of_mem_drop hn)
  generalize hns : requestsOf m ls = ns at *
  let pieces : Nat → Nat → List Triple := fun k n =>
    if ns[k]? = some n then (cutEnd other ns).getD k [] else zeroTriples 0 n
  have hol : ns.sum ≤ other.length := by omega
  have hpl : ∀ k n, (pieces k n).length = n := by
    intro k n
    by_cases hk : ns[k]? = some n
    · have e := congrArg (fun l : List Nat => l[k]?) (cutEnd_lengths ns other hol)
      simp only [List.getElem?_map, hk, Option.map_eq_some_iff] at e
      obtain ⟨x, hx, hxl⟩ := e
      simp only [pieces, hk, if_true, List.getD_eq_getElem?_getD, hx, Option.getD_some, hxl]
    · simp [pieces, hk, zeroTriples]
  obtain ⟨f, f1, f2⟩ := h pieces hpl adv
  have run : ∀ (y : Input Bool Raw) (hy : ∀ (s q : WProvider) (setup : Nat → Nat → Mts) (st : Store Bool Raw),
      stateAfter (requestWords gen) s ns = some q → Answers (requestWords gen) s ns setup →
        executeP wgmw m party y (requestWords gen) s st = mapProc (fun o => (o, q)) (execute wgmw m party y setup st))
      (masks : List (Bool × Bool)), masks.length = countTimesSimd m →
      ∃ q, executeP wgmw m party y (requestWords gen) ⟨some ⟨0, List.zipWith partner other masks⟩, c⟩ init =
        mapProc (fun o => (o, q)) (execute wgmw m party y (wordSetup 0 pieces (cutEnd masks ns)) init) := by
    intro y hy masks hm
    have hzl : (List.zipWith partner other masks).length = ns.sum := by simp [ho, hm, hsum]
    obtain ⟨out, g1, g2, g3, g4⟩ := buffer_answers gen ns ⟨0, List.zipWith partner other masks⟩ c (by simp only [hzl]; omega)
    refine ⟨_, hy _ _ _ init g3 (answers_of_answersTo _ _ ns _ out g1 ?_)⟩
    intro k n t hk ht
    rw [g4 k n hk] at ht
    cases ht
    have c1 := cutEnd_get ns other hol k n hk
    have c2 := cutEnd_get ns masks (by omega) k n hk
    have len : ∀ {β : Type} (l : List β), l.length = ns.sum →
        ((l.drop (l.length - (ns.take (k + 1)).sum)).take n).length = n := by
      intro β l hl
      have hik : n ≤ (ns.take (k + 1)).sum := by
        have hm : n ∈ ns.take (k + 1) := by
          rw [List.mem_take_iff_getElem]
          obtain ⟨hlt, rfl⟩ := List.getElem?_eq_some_iff.1 hk
          exact ⟨k, by omega, rfl⟩
        exact List.single_le_sum (by simp) _ hm
      have hle : (ns.take (k + 1)).sum ≤ ns.sum := by
        have := congrArg List.sum (List.take_append_drop (k + 1) ns)
        simp only [List.sum_append] at this
        omega
      simp only [List.length_take, List.length_drop]
      omega
    simp only [wordSetup, Mts.mk.injEq]
    constructor
    · rw [hzl, hsub, Nat.zero_add, hdrop]
    · unfold partnerSetup
      simp only [pieces, hk, if_true, List.getD_eq_getElem?_getD, c1, c2, Option.getD_some]
      have := mapIdx_partner ((other.drop (other.length - (ns.take (k + 1)).sum)).take n)
        ((masks.drop (masks.length - (ns.take (k + 1)).sum)).take n) (by rw [len _ (by omega), len _ (by omega)])
      simp only [List.getD_eq_getElem?_getD] at this
      rw [this, ← List.take_zipWith, hzl, ho, hm, hsum, ← List.drop_zipWith]
  have cut : ∀ x : List (Bool × Bool), x.length = countTimesSimd m → Fit m ls (cutEnd x ns) := by
    intro x hx
    rw [hfit]
    exact cutEnd_lengths ns x (by omega)
  refine ⟨fun x => joinEnd (f (cutEnd x ns)), ⟨?_, ?_, ?_⟩, ?_⟩
  · intro x hx
    simp only [Set.mem_setOf_eq] at hx ⊢
    have := f1.mapsTo (cut x hx)
    rw [joinEnd_length, (hfit _).1 this, hsum]
  · intro x hx y hy hxy
    simp only [Set.mem_setOf_eq] at hx hy
    have ex := (hfit _).1 (f1.mapsTo (cut x hx))
    have ey := (hfit _).1 (f1.mapsTo (cut y hy))
    have e := congrArg (fun l => cutEnd l ns) hxy
    simp only at e
    rw [cutEnd_joinEnd' ex, cutEnd_joinEnd' ey] at e
    have := f1.injOn (cut x hx) (cut y hy) e
    rw [← joinEnd_cutEnd ns x (by omega), this, joinEnd_cutEnd ns y (by omega)]
  · intro y hy
    simp only [Set.mem_setOf_eq] at hy
    obtain ⟨x, hx, hxy⟩ := f1.surjOn (cut y hy)
    have hx' := (hfit _).1 hx
    refine ⟨joinEnd x, by simp only [Set.mem_setOf_eq]; rw [joinEnd_length, hx', hsum], ?_⟩
    simp only
    rw [← hx', cutEnd_joinEnd, hxy, joinEnd_cutEnd ns y (by omega)]
  · intro masks hm
    obtain ⟨seen, o, o', r0, r1, r2⟩ := f2 _ (cut masks hm)
    have hfm := (hfit _).1 (f1.mapsTo (cut masks hm))
    obtain ⟨q0, k0⟩ := run inp h0 masks hm
    obtain ⟨q1, k1⟩ := run inp' h1 (joinEnd (f (cutEnd masks ns))) (by rw [joinEnd_length, hfm, hsum])
    have ec : cutEnd (joinEnd (f (cutEnd masks ns))) ns = f (cutEnd masks ns) := cutEnd_joinEnd' hfm
    rw [ec] at k1
    refine ⟨seen, o.map fun x => (x, q0), o'.map fun x => (x, q1), ?_, ?_, by simpa using r2⟩
    · rw [k0, interact_mapProc, r0]
    · rw [k1, interact_mapProc, r1]

/-- The hypotheses of `gmw_words_buffer_private` about the circuit hold for one AND gate with 64 lanes (for the others see the
example after `words_leak`; it is the same circuit), which needs 64 triples. -/
example : oneAnd 64 = oneAnd64 ∧ (∀ v, (Multi.ofBase (oneAnd 64)).gate? v = some .and → isSimd (.ofBase (oneAnd 64)) v.1 = true) ∧
    (∀ c ∈ (Multi.ofBase (oneAnd 64)).circs, c.interactiveCount = c.gates.countP fun g => GateLike.interactive g) ∧
    countTimesSimd (.ofBase (oneAnd 64)) = 64 := by
  refine ⟨rfl, ?_, by decide, by decide⟩
  rintro ⟨i, j⟩ h
  cases i with
  | zero => rfl
  | succ i => simp [Multi.gate?, Multi.ofBase] at h

/-- New providers are a pair, and so are providers after precomputing. -/
example (gen0 gen1 : Nat → Nat → List Triple) (hg : WGenOk gen0 gen1) (n : Nat) :
    WPairOk {} {} ∧ WPairOk (WProvider.precompute gen0 {} n) (WProvider.precompute gen1 {} n) :=
  ⟨⟨rfl, .inl ⟨rfl, rfl⟩⟩, rfl, .inr ⟨_, _, rfl, rfl, rfl, (hg 0 n).2⟩⟩

/-- Generators of the required kind exist. -/
example : WGenOk (fun k n => zeroTriples k (Mt.nextMultipleOf8 n)) (fun k n => zeroTriples k (Mt.nextMultipleOf8 n)) :=
  fun k n => ⟨by simp [zeroTriples], zero_matching k _⟩

end Verif.Exec
