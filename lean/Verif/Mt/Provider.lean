import Verif.Mt.StoreProps

/-!
Boolean triple generation from random OTs (C19) and the OT based provider (C20).
-/
set_option autoImplicit false

namespace Verif.Mt

/-- zappot/src/util/block.rs `Block`, 128 bits. -/
abbrev Block := BitVec 128

/-- zappot/src/util/block.rs:47-49 `Block::lsb`. -/
def lsb (x : Block) : Bool := x &&& 1#128 == 1#128

/-- `Integer::next_multiple_of(&n, &8)`, boolean/ot_ext.rs:84: num-integer computes
`m = n mod 8` and returns `n` if it is zero and `n + (8 - m)` otherwise. -/
def nextMultipleOf8 (n : Nat) : Nat := if n % 8 = 0 then n else n + (8 - n % 8)

/-- boolean/ot_ext.rs:120-126 the map computing `c`. -/
def zipC : List Bool → List Bool → List Bool → List Bool → List Bool
  | a :: as, b :: bs, u :: us, v :: vs => xor (xor (a && b) u) v :: zipC as bs us vs
  | _, _, _, _ => []

/-- boolean/ot_ext.rs:106-128 (identical in silent_ot.rs:105-125): one party's triples from its
random choices `a`, the message pairs it has as OT sender and the messages it has as OT
receiver. -/
def mtsFromRots (a : List Bool) (sendOts : List (Block × Block)) (recvOts : List Block) :
    Option (MulTriples Bool) :=
  let b := sendOts.map fun m => xor (lsb m.1) (lsb m.2)
  let v := sendOts.map fun m => lsb m.1
  let u := recvOts.map lsb
  MulTriples.fromRaw a b (zipC a b u v)

/-! ### Specification -/

/-- A pair of shared triples is valid, the rows being `(a, b, c)`. -/
def Valid (s t : Bool × Bool × Bool) : Prop :=
  (xor s.1 t.1 && xor s.2.1 t.2.1) = xor s.2.2 t.2.2

instance : DecidableRel Valid := fun s t => by unfold Valid; infer_instance

/-- What random OT gives: the receiver has, index by index, the sender's message selected by its
choice bit. -/
def RotOk (send : List (Block × Block)) (choice : List Bool) (recv : List Block) : Prop :=
  send.length = choice.length ∧
    recv = List.zipWith (fun (m : Block × Block) c => if c then m.2 else m.1) send choice

/-- The triples of a store as `Verif.Gmw.Triple`s, the form the protocol consumes. -/
def triples (m : MulTriples Bool) : List Gmw.Triple := m.rows.map fun r => ⟨r.1, r.2.1, r.2.2⟩

theorem triples_matching {m0 m1 : MulTriples Bool} :
    Gmw.Matching (triples m0) (triples m1) ↔ List.Forall₂ Valid m0.rows m1.rows := by
  unfold Gmw.Matching triples
  rw [List.forall₂_map_left_iff, List.forall₂_map_right_iff]
  constructor
  · exact fun h => h.imp fun a b hab => by
      obtain ⟨a1, a2, a3⟩ := a; obtain ⟨b1, b2, b3⟩ := b
      revert hab; simp only [Gmw.ValidPair, Valid]; revert a1 a2 a3 b1 b2 b3; decide
  · exact fun h => h.imp fun a b hab => by
      obtain ⟨a1, a2, a3⟩ := a; obtain ⟨b1, b2, b3⟩ := b
      revert hab; simp only [Gmw.ValidPair, Valid]; revert a1 a2 a3 b1 b2 b3; decide

/-! ### C19 -/

theorem nextMultipleOf8_spec (n : Nat) :
    n ≤ nextMultipleOf8 n ∧ 8 ∣ nextMultipleOf8 n ∧ nextMultipleOf8 n < n + 8 := by
  unfold nextMultipleOf8
  split <;> refine ⟨?_, ?_, ?_⟩ <;> omega

theorem zipC_length {a b u v : List Bool} (hb : b.length = a.length) (hu : u.length = a.length)
    (hv : v.length = a.length) : (zipC a b u v).length = a.length := by
  induction a generalizing b u v with
  | nil => simp [zipC]
  | cons x a ih =>
    match b, u, v, hb, hu, hv with
    | y :: b, p :: u, q :: v, hb, hu, hv =>
      simp only [List.length_cons, Nat.add_right_cancel_iff] at hb hu hv
      simp [zipC, ih hb hu hv]

theorem lsb_ite (c : Bool) (x y : Block) :
    lsb (if c then y else x) = xor (lsb x) (c && xor (lsb x) (lsb y)) := by
  cases c <;> simp

/-- C19: two parties that combine the two directions of random OT as the provider does both get a
store with as many triples as there were OTs, and the triples are valid index by index.  For every
choice vector and every OT output. -/
theorem rot_triples_valid {n : Nat} {a0 a1 : List Bool} {send0 send1 : List (Block × Block)}
    {recv0 recv1 : List Block} (h0 : a0.length = n) (h1 : a1.length = n)
    (h01 : RotOk send0 a1 recv1) (h10 : RotOk send1 a0 recv0) :
    ∃ m0 m1, mtsFromRots a0 send0 recv0 = some m0 ∧ mtsFromRots a1 send1 recv1 = some m1 ∧
      m0.a = a0 ∧ m1.a = a1 ∧ m0.WF ∧ m1.WF ∧ m0.rows.length = n ∧
      List.Forall₂ Valid m0.rows m1.rows := by
  obtain ⟨l0, rfl⟩ := h01
  obtain ⟨l1, rfl⟩ := h10
  rw [h1] at l0; rw [h0] at l1
  have z0 : (zipC a0 (send0.map fun m => xor (lsb m.1) (lsb m.2))
      ((List.zipWith (fun (m : Block × Block) c => if c then m.2 else m.1) send1 a0).map lsb)
      (send0.map fun m => lsb m.1)).length = n := by
    rw [zipC_length] <;> simp [h0, l0, l1]
  have z1 : (zipC a1 (send1.map fun m => xor (lsb m.1) (lsb m.2))
      ((List.zipWith (fun (m : Block × Block) c => if c then m.2 else m.1) send0 a1).map lsb)
      (send1.map fun m => lsb m.1)).length = n := by
    rw [zipC_length] <;> simp [h1, l0, l1]
  refine ⟨_, _, if_pos ⟨by simp [h0, l0], by rw [z0]; simp [l0]⟩,
    if_pos ⟨by simp [h1, l1], by rw [z1]; simp [l1]⟩, rfl, rfl, ?_, ?_, ?_, ?_⟩
  · exact ⟨by simp [h0, l0], by rw [z0, h0]⟩
  · exact ⟨by simp [h1, l1], by rw [z1, h1]⟩
  · rw [MulTriples.rows, List.length_zip, List.length_zip, z0]; simp [h0, l0]
  · simp only [MulTriples.rows]
    clear z0 z1
    induction n generalizing a0 a1 send0 send1 with
    | zero =>
      obtain rfl := List.length_eq_zero_iff.1 h0
      obtain rfl := List.length_eq_zero_iff.1 h1
      simp
    | succ n ih =>
      match a0, a1, send0, send1, h0, h1, l0, l1 with
      | x0 :: a0, x1 :: a1, ⟨p0, q0⟩ :: send0, ⟨p1, q1⟩ :: send1, h0, h1, l0, l1 =>
        simp only [List.length_cons, Nat.add_right_cancel_iff] at h0 h1 l0 l1
        simp only [List.map_cons, List.zipWith_cons_cons, zipC, List.zip_cons_cons]
        refine .cons ?_ (ih h0 h1 l0 l1)
        simp only [Valid, lsb_ite]
        generalize lsb p0 = u, lsb q0 = v, lsb p1 = u', lsb q1 = v'
        revert x0 x1 u v u' v'; decide

/-- The pair of OT outputs is possible for every choice: one index, both choices set. -/
example : RotOk [(3#128, 4#128)] [true] [4#128] := by simp [RotOk]

/-! ### C20: the provider -/

/-- boolean/ot_ext.rs:31-44 the state of `OtMTProvider` that matters here: the precomputed triples
and, to name its outputs, how often `compute_mts` ran. -/
structure Provider where
  stored : Option (MulTriples Bool) := none
  computed : Nat := 0
deriving DecidableEq, Repr

inductive Call where
  | precompute (amount : Nat)
  | request (amount : Nat)
deriving DecidableEq, Repr

/-- What one call yields besides the new state: the triples returned (empty for `precompute_mts`)
and the output of `compute_mts` if it ran. -/
structure Yield where
  returned : List (MulTriples Bool)
  generated : List (MulTriples Bool)
deriving DecidableEq, Repr

/-- boolean/ot_ext.rs:144-162 `precompute_mts` and `request_mts`; `gen k n` is the result of the
`k`-th run of `compute_mts` (78-129), called with `n`. -/
def provide (gen : Nat → Nat → MulTriples Bool) (p : Provider) : Call → Option (Provider × Yield)
  | .precompute n =>
    let mts := gen p.computed n
    some (⟨some mts, p.computed + 1⟩, ⟨[], [mts]⟩)
  | .request n =>
    match p.stored with
    | some mts =>
      if mts.len ≥ n then
        (mts.splitOffLast n).map fun (rest, out) => (⟨some rest, p.computed⟩, ⟨[out], []⟩)
      else
        let more := gen p.computed (n - mts.len)
        some (⟨some .empty, p.computed + 1⟩, ⟨[mts.append more], [more]⟩)
    | none =>
      let mts := gen p.computed n
      some (⟨none, p.computed + 1⟩, ⟨[mts], [mts]⟩)

/-- A sequence of calls: final state, everything returned, everything generated. -/
def provideAll (gen : Nat → Nat → MulTriples Bool) (p : Provider) : List Call →
    Option (Provider × Yield)
  | [] => some (p, ⟨[], []⟩)
  | c :: cs => do
    let (p', y) ← provide gen p c
    let (q, ys) ← provideAll gen p' cs
    pure (q, ⟨y.returned ++ ys.returned, y.generated ++ ys.generated⟩)

/-- The amounts of the requests in a sequence of calls. -/
def requested : List Call → List Nat
  | [] => []
  | .precompute _ :: cs => requested cs
  | .request n :: cs => n :: requested cs

/-- What `compute_mts` guarantees about lengths (C19). -/
def GenOk (gen : Nat → Nat → MulTriples Bool) : Prop :=
  ∀ k n, (gen k n).WF ∧ (gen k n).rows.length = nextMultipleOf8 n

def Provider.held (p : Provider) : List (Bool × Bool × Bool) :=
  match p.stored with
  | some m => m.rows
  | none => []

def Provider.Ok (p : Provider) : Prop := ∀ m, p.stored = some m → m.WF

theorem empty_wf : (MulTriples.empty : MulTriples Bool).WF := by simp [MulTriples.WF, MulTriples.empty]

/-- One call: it succeeds, a request returns `n` to `n + 7` triples and exactly `n` if the buffer
holds that many; what it returns and keeps was in the buffer or freshly generated. -/
theorem provide_ok {gen : Nat → Nat → MulTriples Bool} (hg : GenOk gen) {p : Provider} (hp : p.Ok)
    (c : Call) :
    ∃ q y, provide gen p c = some (q, y) ∧ q.Ok ∧
      List.Forall₂ (fun (o : MulTriples Bool) n => n ≤ o.rows.length ∧ o.rows.length < n + 8 ∧
        (n ≤ p.held.length → p.stored ≠ none → o.rows.length = n)) y.returned (requested [c]) ∧
      ∃ lost, (y.returned.flatMap MulTriples.rows ++ q.held ++ lost).Perm
        (p.held ++ y.generated.flatMap MulTriples.rows) := by
  cases c with
  | precompute n =>
    refine ⟨_, _, rfl, ?_, by simp [requested], p.held, ?_⟩
    · intro m hm
      simp only [Option.some.injEq] at hm
      exact hm ▸ (hg _ _).1
    · simpa [Provider.held] using List.perm_append_comm
  | request n =>
    match hs : p.stored with
    | none =>
      refine ⟨⟨none, p.computed + 1⟩, ⟨[gen p.computed n], [gen p.computed n]⟩,
        by simp [provide, hs], by simp [Provider.Ok], ?_, [], ?_⟩
      · obtain ⟨w, l⟩ := hg p.computed n
        obtain ⟨s1, _, s3⟩ := nextMultipleOf8_spec n
        simp only [requested]
        exact .cons ⟨by omega, by omega, fun _ h => absurd rfl h⟩ .nil
      · simp [Provider.held, hs]
    | some m =>
      have hw := hp m hs
      have hl := rows_length hw
      by_cases hn : m.len ≥ n
      · obtain ⟨s, r, h1, h2, h3, h4, h5, h6⟩ := removeFirst_split .boolean hw hn
        simp only [removeFirst] at h1
        refine ⟨⟨some s, p.computed⟩, ⟨[r], []⟩, by simp [provide, hs, hn, h1], ?_, ?_, [], ?_⟩
        · intro m' hm'
          simp only [Option.some.injEq] at hm'
          exact hm' ▸ h2
        · simp only [requested]
          exact .cons ⟨by omega, by omega, fun _ _ => h4⟩ .nil
        · simpa [Provider.held, hs] using h6
      · obtain ⟨w, l⟩ := hg p.computed (n - m.len)
        obtain ⟨s1, _, s3⟩ := nextMultipleOf8_spec (n - m.len)
        refine ⟨⟨some .empty, p.computed + 1⟩,
          ⟨[m.append (gen p.computed (n - m.len))], [gen p.computed (n - m.len)]⟩,
          by simp [provide, hs, hn], ?_, ?_, [], ?_⟩
        · intro m' hm'
          simp only [Option.some.injEq] at hm'
          exact hm' ▸ empty_wf
        · simp only [requested]
          refine .cons ?_ .nil
          rw [append_rows hw]
          simp only [List.length_append, l, Provider.held, hs]
          refine ⟨by omega, by omega, fun h => ?_⟩
          omega
        · simp only [Provider.held, hs, List.flatMap_cons, List.flatMap_nil, append_rows hw]
          simp [MulTriples.empty, MulTriples.rows]

/-- C20, one party, any sequence of calls from a fresh provider: no call panics, the `i`-th request
gets at least as many triples as asked for and fewer than eight more, and the triples returned over
the whole history are a sub-multiset of the triples generated, so that none is returned twice. -/
theorem provider_history {gen : Nat → Nat → MulTriples Bool} (hg : GenOk gen) (calls : List Call) :
    ∃ q y, provideAll gen {} calls = some (q, y) ∧
      List.Forall₂ (fun (o : MulTriples Bool) n => n ≤ o.rows.length ∧ o.rows.length < n + 8)
        y.returned (requested calls) ∧
      (y.returned.flatMap MulTriples.rows).Subperm (y.generated.flatMap MulTriples.rows) := by
  suffices h : ∀ (p : Provider), p.Ok → ∃ q y, provideAll gen p calls = some (q, y) ∧
      List.Forall₂ (fun (o : MulTriples Bool) n => n ≤ o.rows.length ∧ o.rows.length < n + 8)
        y.returned (requested calls) ∧
      ∃ lost, (y.returned.flatMap MulTriples.rows ++ q.held ++ lost).Perm
        (p.held ++ y.generated.flatMap MulTriples.rows) by
    obtain ⟨q, y, h1, h2, lost, h3⟩ := h {} (by simp [Provider.Ok])
    refine ⟨q, y, h1, h2, ?_⟩
    simp only [Provider.held, List.nil_append] at h3
    exact (((List.sublist_append_left _ _).trans (List.sublist_append_left _ _)).subperm).trans
      h3.subperm
  induction calls with
  | nil => exact fun p hp => ⟨p, ⟨[], []⟩, rfl, .nil, [], by simp⟩
  | cons c cs ih =>
    intro p hp
    obtain ⟨p', y, h1, h2, h3, lost, h4⟩ := provide_ok hg hp c
    obtain ⟨q, ys, g1, g2, lost', g3⟩ := ih p' h2
    refine ⟨q, ⟨y.returned ++ ys.returned, y.generated ++ ys.generated⟩,
      by simp [provideAll, h1, g1], ?_, lost ++ lost', ?_⟩
    · have : requested (c :: cs) = requested [c] ++ requested cs := by cases c <;> simp [requested]
      rw [this]
      exact List.rel_append (h3.imp fun _ _ h => ⟨h.1, h.2.1⟩) g2
    · simp only [List.flatMap_append]
      -- counting argument
      rw [List.perm_iff_count] at h4 g3 ⊢
      intro x
      have e1 := h4 x
      have e2 := g3 x
      simp only [List.count_append] at e1 e2 ⊢
      omega

/-- C20: when a precomputed buffer holds enough, a request returns exactly the amount asked for and
does not generate anything. -/
theorem buffered_request_exact {gen : Nat → Nat → MulTriples Bool} {p : Provider}
    {m : MulTriples Bool} (hs : p.stored = some m) (hw : m.WF) {n : Nat} (hn : n ≤ m.rows.length) :
    ∃ q out, provide gen p (.request n) = some (q, ⟨[out], []⟩) ∧ out.rows.length = n ∧
      (out.rows ++ q.held).Perm m.rows := by
  have hn' : m.len ≥ n := by rw [← rows_length hw]; exact hn
  obtain ⟨s, r, h1, h2, h3, h4, h5, h6⟩ := removeFirst_split .boolean hw hn'
  simp only [removeFirst] at h1
  exact ⟨⟨some s, p.computed⟩, r, by simp [provide, hs, hn', h1], h4,
    by simpa [Provider.held] using h6⟩

/-- The two parties' states. -/
def PairOk (p0 p1 : Provider) : Prop :=
  p0.computed = p1.computed ∧
  ((p0.stored = none ∧ p1.stored = none) ∨ ∃ m0 m1, p0.stored = some m0 ∧ p1.stored = some m1 ∧
    m0.WF ∧ m1.WF ∧ List.Forall₂ Valid m0.rows m1.rows)

theorem provide_pair {gen0 gen1 : Nat → Nat → MulTriples Bool}
    (hg : ∀ k n, (gen0 k n).WF ∧ (gen1 k n).WF ∧
      List.Forall₂ Valid (gen0 k n).rows (gen1 k n).rows)
    {p0 p1 : Provider} (hp : PairOk p0 p1) (c : Call) :
    ∃ q0 y0 q1 y1, provide gen0 p0 c = some (q0, y0) ∧ provide gen1 p1 c = some (q1, y1) ∧
      PairOk q0 q1 ∧
      List.Forall₂ (fun o0 o1 => List.Forall₂ Valid o0.rows o1.rows) y0.returned y1.returned := by
  obtain ⟨hc, hp⟩ := hp
  cases c with
  | precompute n =>
    obtain ⟨w0, w1, hv⟩ := hg p0.computed n
    exact ⟨_, _, _, _, rfl, rfl, ⟨by simp [hc], .inr ⟨_, _, rfl, rfl, w0, hc ▸ w1, hc ▸ hv⟩⟩, .nil⟩
  | request n =>
    rcases hp with ⟨s0, s1⟩ | ⟨m0, m1, s0, s1, w0, w1, hv⟩
    · obtain ⟨w0, w1, hv⟩ := hg p0.computed n
      exact ⟨⟨none, p0.computed + 1⟩, ⟨[gen0 p0.computed n], [gen0 p0.computed n]⟩,
        ⟨none, p1.computed + 1⟩, ⟨[gen1 p1.computed n], [gen1 p1.computed n]⟩,
        by simp [provide, s0], by simp [provide, s1], ⟨by simp [hc], .inl ⟨rfl, rfl⟩⟩,
        .cons (hc ▸ hv) .nil⟩
    · have hl := rel_len w0 w1 hv
      by_cases hn : m0.len ≥ n
      · obtain ⟨s', r, t', q, h1, h2, a1, a2, a3, a4, a5, a6⟩ :=
          removeFirst_rel Valid .boolean w0 w1 hv hn
        simp only [removeFirst] at h1 h2
        exact ⟨⟨some s', p0.computed⟩, ⟨[r], []⟩, ⟨some t', p1.computed⟩, ⟨[q], []⟩,
          by simp [provide, s0, hn, h1], by simp [provide, s1, hl ▸ hn, h2],
          ⟨hc, .inr ⟨s', t', rfl, rfl, a1, a3, a6⟩⟩, .cons a5 .nil⟩
      · obtain ⟨v0, v1, hv'⟩ := hg p0.computed (n - m0.len)
        refine ⟨⟨some .empty, p0.computed + 1⟩,
          ⟨[m0.append (gen0 p0.computed (n - m0.len))], [gen0 p0.computed (n - m0.len)]⟩,
          ⟨some .empty, p1.computed + 1⟩,
          ⟨[m1.append (gen1 p1.computed (n - m1.len))], [gen1 p1.computed (n - m1.len)]⟩,
          by simp [provide, s0, hn], by simp [provide, s1, hl ▸ hn],
          ⟨by simp [hc], .inr ⟨_, _, rfl, rfl, empty_wf, empty_wf, ?_⟩⟩, .cons ?_ .nil⟩
        · simp [MulTriples.rows, MulTriples.empty]
        · rw [append_rows w0, append_rows w1]
          exact List.rel_append hv (by rw [← hc, ← hl]; exact hv')

/-- C20, two parties making the same calls: whatever the sequence, every request gives them
matching valid triples. -/
theorem provider_pair {gen0 gen1 : Nat → Nat → MulTriples Bool}
    (hg : ∀ k n, (gen0 k n).WF ∧ (gen1 k n).WF ∧
      List.Forall₂ Valid (gen0 k n).rows (gen1 k n).rows) (calls : List Call) :
    ∃ q0 y0 q1 y1, provideAll gen0 {} calls = some (q0, y0) ∧
      provideAll gen1 {} calls = some (q1, y1) ∧
      List.Forall₂ (fun o0 o1 => List.Forall₂ Valid o0.rows o1.rows) y0.returned y1.returned := by
  suffices h : ∀ p0 p1, PairOk p0 p1 → ∃ q0 y0 q1 y1, provideAll gen0 p0 calls = some (q0, y0) ∧
      provideAll gen1 p1 calls = some (q1, y1) ∧
      List.Forall₂ (fun o0 o1 => List.Forall₂ Valid o0.rows o1.rows) y0.returned y1.returned from
    h {} {} ⟨rfl, .inl ⟨rfl, rfl⟩⟩
  induction calls with
  | nil => exact fun p0 p1 _ => ⟨p0, ⟨[], []⟩, p1, ⟨[], []⟩, rfl, rfl, .nil⟩
  | cons c cs ih =>
    intro p0 p1 hp
    obtain ⟨q0, y0, q1, y1, h1, h2, h3, h4⟩ := provide_pair hg hp c
    obtain ⟨r0, z0, r1, z1, g1, g2, g3⟩ := ih q0 q1 h3
    exact ⟨r0, ⟨y0.returned ++ z0.returned, y0.generated ++ z0.generated⟩,
      r1, ⟨y1.returned ++ z1.returned, y1.generated ++ z1.generated⟩,
      by simp [provideAll, h1, g1], by simp [provideAll, h2, g2], List.rel_append h4 g3⟩

/-- A history in which the buffer is used, runs short and is refilled: precompute 4 (makes 8), ask
for 3 and 7, ask again. -/
example :
    (provideAll (fun k n => ⟨List.replicate (nextMultipleOf8 n) (k == 0),
        List.replicate (nextMultipleOf8 n) true, List.replicate (nextMultipleOf8 n) (k == 1)⟩) {}
      [.precompute 4, .request 3, .request 7, .request 2]).map
      (fun r => (r.2.returned.map (·.rows.length), r.1.computed)) = some ([3, 13, 8], 3) := by
  decide +kernel

/-! ### The insecure provider for tests -/

/-- boolean/insecure_provider.rs:31-42: `gen n` is `gen_mts` (44-46), which draws from a generator
that is seeded with the constant 42, hence depends on the amount only. -/
def insecureRequest (gen : Nat → MulTriples Bool) (stored : Option (MulTriples Bool)) (n : Nat) :
    Option (Option (MulTriples Bool) × MulTriples Bool) :=
  match stored with
  | none => some (none, gen n)
  | some mts =>
    if mts.len ≥ n then (mts.splitOffLast n).map fun (rest, out) => (some rest, out)
    else some (some mts, gen n)

theorem valid_refl (l : List (Bool × Bool × Bool)) : List.Forall₂ Valid l l := by
  induction l with
  | nil => exact .nil
  | cons x l ih => exact .cons (by simp [Valid]) ih

/-- The test provider: both parties hold the same, unrelated, random vectors, which as shares are
valid triples of zero; `gen` may be anything. -/
theorem insecure_request_valid (gen : Nat → MulTriples Bool) (stored : Option (MulTriples Bool))
    (n : Nat) {r : Option (MulTriples Bool) × MulTriples Bool}
    (_h : insecureRequest gen stored n = some r) : List.Forall₂ Valid r.2.rows r.2.rows :=
  valid_refl _

/-- The test provider does hand out the same triples for every request that is not served from
precomputed ones. -/
theorem insecure_provider_repeats (gen : Nat → MulTriples Bool) (n : Nat) :
    (insecureRequest gen none n).bind (fun r => insecureRequest gen r.1 n) =
      insecureRequest gen none n := by
  simp [insecureRequest]

/-! ### The silent OT provider -/

/-- boolean/silent_ot.rs:19-27 `SilentMtProvider`: the stored triples, and the silent OT instance as
long as it has not run. -/
structure Silent where
  configured : Nat
  stored : Option (MulTriples Bool) := none
  ready : Bool := true
deriving DecidableEq, Repr

/-- boolean/silent_ot.rs:86-126 the inherent `precompute_mts` (panics when called twice) and
152-158 the trait method, which first compares the amount; `gen` is the result of the protocol
run. -/
def silentPrecompute (gen : MulTriples Bool) (p : Silent) : Option Silent :=
  if p.ready then some ⟨p.configured, some gen, false⟩ else none

/-- One call of the `MTProvider` implementation, boolean/silent_ot.rs:152-169. -/
def silentProvide (gen : MulTriples Bool) (p : Silent) : Call → Option (Silent × List (MulTriples Bool))
  | .precompute n => if n = p.configured then (silentPrecompute gen p).map (·, []) else none
  | .request n => do
    let p' ← if p.stored.isSome then some p else silentPrecompute gen p
    let mts ← p'.stored
    let (rest, out) ← mts.splitOffLast n
    pure (⟨p'.configured, some rest, p'.ready⟩, [out])

def silentAll (gen : MulTriples Bool) (p : Silent) : List Call →
    Option (Silent × List (MulTriples Bool))
  | [] => some (p, [])
  | c :: cs => do
    let (p', y) ← silentProvide gen p c
    let (q, ys) ← silentAll gen p' cs
    pure (q, y ++ ys)

/-- Requests to a silent OT provider with triples in store: exact sizes out of the one batch, and
the program panics as soon as more is asked for in total than was configured. -/
theorem silent_requests {gen m : MulTriples Bool} (hw : m.WF) (ns : List Nat) (n : Nat) :
    (ns.sum ≤ m.rows.length ↔ (silentAll gen ⟨n, some m, false⟩ (ns.map .request)).isSome) ∧
    ∀ q outs, silentAll gen ⟨n, some m, false⟩ (ns.map .request) = some (q, outs) →
      outs.map (fun o => o.rows.length) = ns ∧
      ∃ rest, (outs.flatMap MulTriples.rows ++ rest).Perm m.rows := by
  induction ns generalizing m with
  | nil =>
    refine ⟨by simp [silentAll], fun q outs h => ?_⟩
    simp only [List.map_nil, silentAll, Option.some.injEq, Prod.mk.injEq] at h
    obtain ⟨rfl, rfl⟩ := h
    exact ⟨rfl, m.rows, by simp⟩
  | cons k ns ih =>
    have hl := rows_length hw
    by_cases hk : k ≤ m.len
    · obtain ⟨s, r, h1, h2, h3, h4, h5, h6⟩ := removeFirst_split .boolean hw hk
      simp only [removeFirst] at h1
      obtain ⟨i1, i2⟩ := ih h2
      constructor
      · have : (k :: ns).sum ≤ m.rows.length ↔ ns.sum ≤ s.rows.length := by
          simp only [List.sum_cons]; omega
        rw [this, i1]
        simp only [List.map_cons, silentAll, silentProvide, Option.isSome_some, if_true,
          Option.bind_eq_bind, Option.bind_some, h1, Option.pure_def]
        cases silentAll gen ⟨n, some s, false⟩ (ns.map .request) <;> simp
      · intro q outs h
        simp only [List.map_cons, silentAll, silentProvide, Option.isSome_some, if_true,
          Option.bind_eq_bind, Option.bind_some, h1, Option.pure_def] at h
        cases hr : silentAll gen ⟨n, some s, false⟩ (ns.map .request) with
        | none => simp [hr] at h
        | some p =>
          obtain ⟨q', os⟩ := p
          simp only [hr, Option.bind_some, Option.some.injEq, Prod.mk.injEq] at h
          obtain ⟨rfl, rfl⟩ := h
          obtain ⟨j1, rest, j2⟩ := i2 q' os hr
          refine ⟨by simp [h4, j1], rest, ?_⟩
          simp only [List.singleton_append, List.flatMap_cons, List.append_assoc]
          exact (j2.append_left r.rows).trans h6
    · constructor
      · have : ¬ (k :: ns).sum ≤ m.rows.length := by simp only [List.sum_cons]; omega
        rw [iff_false_left this]
        simp [silentAll, silentProvide, splitOffLast_none hk]
      · intro q outs h
        simp [silentAll, silentProvide, splitOffLast_none hk] at h

/-- The first use runs the protocol, by an explicit call with the configured amount or by the first
request; a second explicit call panics. -/
theorem silent_first_use (gen : MulTriples Bool) (n : Nat) (ns : List Nat) (k : Nat) :
    silentAll gen ⟨n, none, true⟩ (.precompute n :: (k :: ns).map .request) =
      silentAll gen ⟨n, some gen, false⟩ ((k :: ns).map .request) ∧
    silentAll gen ⟨n, none, true⟩ ((k :: ns).map .request) =
      silentAll gen ⟨n, some gen, false⟩ ((k :: ns).map .request) ∧
    silentProvide gen ⟨n, some gen, false⟩ (.precompute n) = none := by
  refine ⟨?_, ?_, ?_⟩
  · simp only [silentAll, silentProvide, silentPrecompute, if_true, Option.map_some,
      Option.bind_eq_bind, Option.bind_some, List.nil_append, Option.pure_def]
    generalize silentAll gen ⟨n, some gen, false⟩ ((k :: ns).map .request) = o
    cases o <;> rfl
  · simp [silentAll, silentProvide, silentPrecompute]
  · simp [silentProvide, silentPrecompute]

end Verif.Mt
