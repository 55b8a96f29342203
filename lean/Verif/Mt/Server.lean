import Mathlib.Algebra.Group.Nat.Even
import Verif.Mt.Provider

/-!
The trusted triple servers: pairing of requests (C21) and seed-compressed triples (C22).
-/
set_option autoImplicit false

namespace Verif.Mt

/-- A random generator filling 64 bit words: `fill s n` is the content of `n` words (64 bits each,
least significant first) and the generator afterwards.  Any function will do. -/
structure Rng (σ : Type) where
  fill : σ → Nat → List Bool × σ
  length : ∀ s n, (fill s n).1.length = 64 * n

/-- utils.rs:83-95 `rand_bitvec`: `div_ceil(size, 64)` words are filled, then truncated. -/
def randBitvec {σ : Type} (g : Rng σ) (s : σ) (size : Nat) : List Bool × σ :=
  let (w, s') := g.fill s ((size + 63) / 64)
  (w.take size, s')

/-- utils.rs:76-81 `rand_bitvecs`: `n` vectors one after the other. -/
def randBitvecs {σ : Type} (g : Rng σ) (s : σ) (size : Nat) : Nat → List (List Bool) × σ
  | 0 => ([], s)
  | n + 1 =>
    let (v, s') := randBitvec g s size
    let (vs, s'') := randBitvecs g s' size n
    (v :: vs, s'')

/-- Bitwise operators on `BitVec`s of equal length. -/
def xorV (x y : List Bool) : List Bool := List.zipWith xor x y
def andV (x y : List Bool) : List Bool := List.zipWith and x y

/-- boolean/mod.rs:176-182 `compute_c`, `compute_c_owned`: `&` binds tighter than `^`. -/
def computeC (m : MulTriples Bool) (a b : List Bool) : List Bool :=
  xorV (andV (xorV a m.a) (xorV b m.b)) m.c

/-- boolean/mod.rs:63-66 `random`. -/
def random {σ : Type} (g : Rng σ) (s : σ) (size : Nat) : Option (MulTriples Bool) :=
  match (randBitvecs g s size 3).1 with
  | [a, b, c] => MulTriples.fromRaw a b c
  | _ => none

/-- boolean/mod.rs:69-72 `random_with_fixed_c`. -/
def randomWithFixedC {σ : Type} (g : Rng σ) (s : σ) (c : List Bool) : Option (MulTriples Bool) :=
  match (randBitvecs g s c.length 2).1 with
  | [a, b] => MulTriples.fromRaw a b c
  | _ => none

/-- boolean/mod.rs:53-60 `random_pair`. -/
def randomPair {σ : Type} (g : Rng σ) (s : σ) (size : Nat) :
    Option (MulTriples Bool × MulTriples Bool) :=
  match (randBitvecs g s size 5).1 with
  | [a1, a2, b1, b2, c1] => do
    let m1 ← MulTriples.fromRaw a1 b1 c1
    let m2 ← MulTriples.fromRaw a2 b2 (computeC m1 a2 b2)
    pure (m1, m2)
  | _ => none

/-! ### Lemmas on random vectors -/

theorem randBitvec_length {σ : Type} (g : Rng σ) (s : σ) (n : Nat) :
    (randBitvec g s n).1.length = n := by
  simp only [randBitvec, List.length_take, g.length]; omega

theorem computeC_length {m : MulTriples Bool} {a b : List Bool} {n : Nat} (ha : a.length = n)
    (hb : b.length = n) (h1 : m.a.length = n) (h2 : m.b.length = n) (h3 : m.c.length = n) :
    (computeC m a b).length = n := by
  simp [computeC, xorV, andV, ha, hb, h1, h2, h3]

theorem computeC_valid (n : Nat) (x y z a b : List Bool) (hx : x.length = n) (hy : y.length = n)
    (hz : z.length = n) (ha : a.length = n) (hb : b.length = n) :
    List.Forall₂ Valid (MulTriples.mk x y z).rows
      (MulTriples.mk a b (computeC ⟨x, y, z⟩ a b)).rows := by
  induction n generalizing x y z a b with
  | zero =>
    obtain rfl := List.length_eq_zero_iff.1 hx
    obtain rfl := List.length_eq_zero_iff.1 ha
    simp [MulTriples.rows]
  | succ n ih =>
    match x, y, z, a, b, hx, hy, hz, ha, hb with
    | p :: x, q :: y, r :: z, s :: a, t :: b, hx, hy, hz, ha, hb =>
      simp only [List.length_cons, Nat.add_right_cancel_iff] at hx hy hz ha hb
      have := ih x y z a b hx hy hz ha hb
      simp only [MulTriples.rows, computeC, xorV, andV, List.zipWith_cons_cons,
        List.zip_cons_cons] at this ⊢
      refine .cons ?_ this
      simp only [Valid]
      revert p q r s t; decide

/-- `random_pair` never panics and gives valid triples of the given number, whatever the
generator. -/
theorem randomPair_valid {σ : Type} (g : Rng σ) (s : σ) (n : Nat) :
    ∃ m1 m2, randomPair g s n = some (m1, m2) ∧ m1.WF ∧ m2.WF ∧ m1.rows.length = n ∧
      m2.rows.length = n ∧ List.Forall₂ Valid m2.rows m1.rows := by
  have hr : ∃ a1 a2 b1 b2 c1, (randBitvecs g s n 5).1 = [a1, a2, b1, b2, c1] ∧ a1.length = n ∧
      a2.length = n ∧ b1.length = n ∧ b2.length = n ∧ c1.length = n :=
    ⟨_, _, _, _, _, rfl, randBitvec_length g _ n, randBitvec_length g _ n, randBitvec_length g _ n,
      randBitvec_length g _ n, randBitvec_length g _ n⟩
  obtain ⟨a1, a2, b1, b2, c1, e, h1, h2, h3, h4, h5⟩ := hr
  have hc := computeC_length (m := ⟨a1, b1, c1⟩) h2 h4 h1 h3 h5
  have w1 : (MulTriples.mk a1 b1 c1).WF := ⟨by simp [h1, h3], by simp [h1, h5]⟩
  have w2 : (MulTriples.mk a2 b2 (computeC ⟨a1, b1, c1⟩ a2 b2)).WF :=
    ⟨by simp [h2, h4], by rw [hc, h2]⟩
  refine ⟨⟨a1, b1, c1⟩, ⟨a2, b2, computeC ⟨a1, b1, c1⟩ a2 b2⟩, ?_, w1, w2,
    by rw [rows_length w1]; exact h1, by rw [rows_length w2]; exact h2, ?_⟩
  · simp [randomPair, e, MulTriples.fromRaw, h1, h2, h3, h4, h5, hc]
  · have := computeC_valid n a1 b1 c1 a2 b2 h1 h3 h5 h2 h4
    exact this.flip.imp fun x y h => by
      simp only [Valid] at h ⊢
      rw [Bool.xor_comm x.1, Bool.xor_comm x.2.1, Bool.xor_comm x.2.2]; exact h

/-! ### The server -/

/-- `Message::RequestTriples`, trusted_provider.rs:35-40. -/
structure Request (ι : Type) where
  id : ι
  amount : Nat
deriving DecidableEq, Repr

/-- trusted_provider.rs:90-113 and trusted_seed_provider.rs:108-137 `handle_request`, which differ
only in what is stored and sent.  `held` is the shared hash map; the mutex is taken for the whole
handling of one request, so requests on different connections are handled one after the other, in
any order.  `fresh k n` is the result of drawing new triples (or seeds) for `n`, the `k`-th time:
what is stored and what is sent to the first client; `second` makes the answer to the second
client from what was stored. -/
def handle {ι St Rep : Type} [DecidableEq ι] (fresh : Nat → Nat → St × Rep) (second : St → Rep)
    (held : ι → Option St) (k : Nat) (r : Request ι) : (ι → Option St) × Nat × Rep :=
  match held r.id with
  | none => (Function.update held r.id (some (fresh k r.amount).1), k + 1, (fresh k r.amount).2)
  | some s => (Function.update held r.id none, k, second s)

/-- The requests in the order in which the lock was obtained, each with its reply; and the map at
the end. -/
def serve {ι St Rep : Type} [DecidableEq ι] (fresh : Nat → Nat → St × Rep) (second : St → Rep)
    (held : ι → Option St) (k : Nat) : List (Request ι) →
    List (Request ι × Rep) × (ι → Option St)
  | [] => ([], held)
  | r :: rs =>
    let (held', k', rep) := handle fresh second held k r
    let (out, h) := serve fresh second held' k' rs
    ((r, rep) :: out, h)

/-! ### Specification -/

/-- The requests for `i` with their replies. -/
def forId {ι Rep : Type} [DecidableEq ι] (i : ι) (out : List (Request ι × Rep)) :
    List (Request ι × Rep) := out.filter fun x => x.1.id = i

/-- The list is made of consecutive pairs that satisfy `P`; a single last element satisfies
`Q`. -/
def Paired {α : Type} (Q : α → Prop) (P : α → α → Prop) : List α → Prop
  | [] => True
  | [x] => Q x
  | x :: y :: l => Q x ∧ P x y ∧ Paired Q P l

/-- Pairing, for any server of this shape. -/
theorem serve_paired {ι St Rep : Type} [DecidableEq ι] (fresh : Nat → Nat → St × Rep)
    (second : St → Rep) (Q : Request ι × Rep → Prop) (P : Request ι × Rep → Request ι × Rep → Prop)
    (hQ : ∀ k (r : Request ι), Q (r, (fresh k r.amount).2))
    (hP : ∀ k (r r' : Request ι), P (r, (fresh k r.amount).2) (r', second (fresh k r.amount).1))
    (i : ι) (rs : List (Request ι)) :
    Paired Q P (forId i (serve fresh second (fun _ => none) 0 rs).1) ∧
    ((serve fresh second (fun _ => none) 0 rs).2 i = none ↔
      Even (rs.filter fun r => r.id = i).length) := by
  suffices h : ∀ (held : ι → Option St) (k : Nat),
      (held i = none → Paired Q P (forId i (serve fresh second held k rs).1) ∧
        ((serve fresh second held k rs).2 i = none ↔
          Even (rs.filter fun r => r.id = i).length)) ∧
      (∀ s, held i = some s →
        (forId i (serve fresh second held k rs).1 = [] ∨
          ∃ r l, forId i (serve fresh second held k rs).1 = (r, second s) :: l ∧
            Paired Q P l) ∧
        ((serve fresh second held k rs).2 i = none ↔
          ¬ Even (rs.filter fun r => r.id = i).length)) from
    (h (fun _ => none) 0).1 rfl
  induction rs with
  | nil =>
    intro held k
    refine ⟨fun h => ?_, fun s h => ?_⟩
    · simp [serve, forId, Paired, h]
    · simp [serve, forId, h]
  | cons r rs ih =>
    intro held k
    by_cases hi : r.id = i
    · subst hi
      refine ⟨fun h => ?_, fun s h => ?_⟩
      · obtain ⟨-, h2⟩ := ih (Function.update held r.id (some (fresh k r.amount).1)) (k + 1)
        obtain ⟨h3, h4⟩ := h2 (fresh k r.amount).1 (by simp)
        constructor
        · simp only [serve, handle, h, forId, List.filter_cons, decide_true, if_true]
          rcases h3 with h3 | ⟨r', l, h3, h5⟩
          · rw [forId] at h3
            rw [h3]; exact hQ k r
          · rw [forId] at h3
            rw [h3]; exact ⟨hQ k r, hP k r r', h5⟩
        · simp only [serve, handle, h, List.filter_cons, decide_true, if_true, List.length_cons]
          rw [h4, Nat.even_add_one]
      · obtain ⟨h1, -⟩ := ih (Function.update held r.id none) k
        obtain ⟨h3, h4⟩ := h1 (by simp)
        constructor
        · right
          simp only [serve, handle, h, forId, List.filter_cons, decide_true, if_true]
          exact ⟨r, _, rfl, h3⟩
        · simp only [serve, handle, h, List.filter_cons, decide_true, if_true, List.length_cons]
          rw [h4, Nat.even_add_one, not_not]
    · have hu : ∀ o, Function.update held r.id o i = held i :=
        fun o => Function.update_of_ne (Ne.symm hi) _ _
      have key : ∃ held' k' rep, handle fresh second held k r = (held', k', rep) ∧
          held' i = held i := by
        unfold handle
        cases held r.id with
        | none => exact ⟨_, _, _, rfl, hu _⟩
        | some s => exact ⟨_, _, _, rfl, hu _⟩
      obtain ⟨held', k', rep, e, e'⟩ := key
      have := ih held' k'
      rw [e'] at this
      simpa [serve, e, forId, List.filter_cons, hi] using this

/-! ### C21: triples sent in full -/

/-- trusted_provider.rs:96-101: the `k`-th `random_pair`, whose generator is in state `seed k`. -/
def freshPair {σ : Type} (g : Rng σ) (seed : Nat → σ) (k n : Nat) :
    MulTriples Bool × MulTriples Bool :=
  (randomPair g (seed k) n).getD (.empty, .empty)

/-- C21: for every list of requests over any ids and amounts, in whatever order the server handles
them, the requests for one id are served in consecutive pairs: the first of a pair gets as many
triples as it asked for, the second gets the matching ones; and the server holds nothing for an id
exactly when all its requests are paired up. -/
theorem server_pairs {ι σ : Type} [DecidableEq ι] (g : Rng σ) (seed : Nat → σ)
    (rs : List (Request ι)) (i : ι) :
    Paired (fun x : Request ι × MulTriples Bool => x.2.WF ∧ x.2.rows.length = x.1.amount)
      (fun x y => y.2.WF ∧ List.Forall₂ Valid x.2.rows y.2.rows)
      (forId i (serve (freshPair g seed) id (fun _ => none) 0 rs).1) ∧
    ((serve (freshPair g seed) id (fun _ => none) 0 rs).2 i = none ↔
      Even (rs.filter fun r => r.id = i).length) := by
  refine serve_paired _ _ _ _ ?_ ?_ i rs
  · intro k r
    obtain ⟨m1, m2, h, w1, w2, l1, l2, hv⟩ := randomPair_valid g (seed k) r.amount
    simp only [freshPair, h, Option.getD_some]
    exact ⟨w2, l2⟩
  · intro k r r'
    obtain ⟨m1, m2, h, w1, w2, l1, l2, hv⟩ := randomPair_valid g (seed k) r.amount
    simp only [freshPair, h, Option.getD_some]
    exact ⟨w1, hv⟩

/-- `server_pairs` for the intended use: if the two parties send exactly one request each under an
id, with the same amount, then in every interleaving with requests for other ids both get that many
triples, they match, and the server keeps nothing for the id. -/
theorem server_two_clients {ι σ : Type} [DecidableEq ι] (g : Rng σ) (seed : Nat → σ)
    (rs : List (Request ι)) (i : ι) (n : Nat)
    (h : rs.filter (fun r => r.id = i) = [⟨i, n⟩, ⟨i, n⟩]) :
    ∃ m m', forId i (serve (freshPair g seed) id (fun _ => none) 0 rs).1 =
        [(⟨i, n⟩, m), (⟨i, n⟩, m')] ∧ m.rows.length = n ∧ m'.rows.length = n ∧
      List.Forall₂ Valid m.rows m'.rows ∧
      (serve (freshPair g seed) id (fun _ => none) 0 rs).2 i = none := by
  obtain ⟨hp, he⟩ := server_pairs g seed rs i
  have hm : ∀ (held : ι → Option (MulTriples Bool)) k,
      (forId i (serve (freshPair g seed) id held k rs).1).map (·.1) =
        rs.filter (fun r => r.id = i) := by
    clear h hp he
    induction rs with
    | nil => intro held k; simp [serve, forId]
    | cons r rs ih =>
      intro held k
      by_cases hi : r.id = i
      · simp only [serve, forId, List.filter_cons, hi, decide_true, if_true, List.map_cons]
        rw [← ih]; rfl
      · simp only [serve, forId, List.filter_cons, hi, decide_false]
        rw [if_neg (by simp), if_neg (by simp), ← ih]; rfl
  have := hm (fun _ => none) 0
  rw [h] at this
  match hl : forId i (serve (freshPair g seed) id (fun _ => none) 0 rs).1, this with
  | [(r, m), (r', m')], this =>
    simp only [List.map_cons, List.map_nil, List.cons.injEq, and_true] at this
    obtain ⟨rfl, rfl⟩ := this
    rw [hl] at hp
    obtain ⟨⟨_, l1⟩, ⟨_, hv⟩, _⟩ := hp
    exact ⟨m, m', rfl, l1, hv.length_eq ▸ l1, hv, he.2 (by rw [h]; exact ⟨1, rfl⟩)⟩

/-- The amount of the second request is not looked at: it gets the number of triples of the first
request. -/
theorem second_amount_ignored {σ : Type} (g : Rng σ) (seed : Nat → σ) (n n' : Nat) :
    ((serve (freshPair g seed) id (fun _ : Unit => none) 0 [⟨(), n⟩, ⟨(), n'⟩]).1.map
      (fun x => x.2.rows.length)) = [n, n] := by
  obtain ⟨m1, m2, h, w1, w2, l1, l2, hv⟩ := randomPair_valid g (seed 0) n
  simp [serve, handle, freshPair, h, l1, l2]

/-- Two sessions interleaved. -/
example : (serve (freshPair ⟨fun s n => (List.replicate (64 * n) (s == 1), s + 1),
      fun _ _ => by simp⟩ (fun k => k)) id (fun _ : Nat => none) 0
      [⟨7, 2⟩, ⟨9, 1⟩, ⟨7, 2⟩, ⟨9, 1⟩]).1.map (fun x => (x.1.id, x.2)) =
    [(7, ⟨[true, true], [false, false], [false, false]⟩), (9, ⟨[false], [false], [false]⟩),
     (7, ⟨[false, false], [false, false], [false, false]⟩), (9, ⟨[true], [false], [false]⟩)] := by
  decide +kernel

/-! ### C22: seeds -/

/-- trusted_seed_provider.rs:38-43 the replies. -/
inductive SeedMsg (Seed : Type) where
  | seed (s : Seed)
  | seedAndC (s : Seed) (c : List Bool)
deriving DecidableEq, Repr

/-- trusted_seed_provider.rs:116-131: seeds `seed1 k`, `seed2 k` are drawn; `seed1` is stored. -/
def freshSeeds {σ Seed : Type} (g : Rng σ) (fromSeed : Seed → σ) (seed1 seed2 : Nat → Seed)
    (k n : Nat) : Seed × SeedMsg Seed :=
  let c := match random g (fromSeed (seed1 k)) n, (randBitvecs g (fromSeed (seed2 k)) n 2).1 with
    | some mts, [a, b] => computeC mts a b
    | _, _ => []
  (seed1 k, .seedAndC (seed2 k) c)

/-- trusted_seed_provider.rs:69-96 the client's side of `request_mts(amount)`. -/
def clientExpand {σ Seed : Type} (g : Rng σ) (fromSeed : Seed → σ) (amount : Nat) :
    SeedMsg Seed → Option (MulTriples Bool)
  | .seed s => random g (fromSeed s) amount
  | .seedAndC s c => randomWithFixedC g (fromSeed s) c

/-- C22: for every generator, every pair of seeds and every amount, the two clients of a session
expand the replies of the seed server without panic to matching valid triples of that amount. -/
theorem seeds_expand_valid {σ Seed : Type} (g : Rng σ) (fromSeed : Seed → σ)
    (seed1 seed2 : Nat → Seed) (k n : Nat) :
    ∃ m m', clientExpand g fromSeed n (freshSeeds g fromSeed seed1 seed2 k n).2 = some m ∧
      clientExpand g fromSeed n (.seed (freshSeeds g fromSeed seed1 seed2 k n).1) = some m' ∧
      m.WF ∧ m'.WF ∧ m.rows.length = n ∧ m'.rows.length = n ∧
      List.Forall₂ Valid m.rows m'.rows := by
  have h3 : ∃ a b c, (randBitvecs g (fromSeed (seed1 k)) n 3).1 = [a, b, c] ∧ a.length = n ∧
      b.length = n ∧ c.length = n :=
    ⟨_, _, _, rfl, randBitvec_length g _ n, randBitvec_length g _ n, randBitvec_length g _ n⟩
  have h2 : ∃ a b, (randBitvecs g (fromSeed (seed2 k)) n 2).1 = [a, b] ∧ a.length = n ∧
      b.length = n :=
    ⟨_, _, rfl, randBitvec_length g _ n, randBitvec_length g _ n⟩
  obtain ⟨x, y, z, e3, hx, hy, hz⟩ := h3
  obtain ⟨a, b, e2, ha, hb⟩ := h2
  have hc := computeC_length (m := ⟨x, y, z⟩) ha hb hx hy hz
  have er : random g (fromSeed (seed1 k)) n = some ⟨x, y, z⟩ := by
    simp [random, e3, MulTriples.fromRaw, hx, hy, hz]
  have w1 : (MulTriples.mk x y z).WF := ⟨by simp [hx, hy], by simp [hx, hz]⟩
  have w2 : (MulTriples.mk a b (computeC ⟨x, y, z⟩ a b)).WF := ⟨by simp [ha, hb], by rw [hc, ha]⟩
  refine ⟨⟨a, b, computeC ⟨x, y, z⟩ a b⟩, ⟨x, y, z⟩, ?_, ?_, w2, w1,
    by rw [rows_length w2]; exact ha, by rw [rows_length w1]; exact hx, ?_⟩
  · simp [freshSeeds, clientExpand, er, e2, randomWithFixedC, hc, MulTriples.fromRaw, ha, hb]
  · simp [freshSeeds, clientExpand, er]
  · have := computeC_valid n x y z a b hx hy hz ha hb
    exact this.flip.imp fun x y h => by
      simp only [Valid] at h ⊢
      rw [Bool.xor_comm x.1, Bool.xor_comm x.2.1, Bool.xor_comm x.2.2]; exact h

/-- C21 and C22 for the seed server: in every interleaving the requests for an id are served in
consecutive pairs, and if the two clients of a pair asked for the same amount, what they expand is
matching and of that amount. -/
theorem seed_server_pairs {ι σ Seed : Type} [DecidableEq ι] (g : Rng σ) (fromSeed : Seed → σ)
    (seed1 seed2 : Nat → Seed) (rs : List (Request ι)) (i : ι) :
    Paired (fun x : Request ι × SeedMsg Seed => ∃ m,
        clientExpand g fromSeed x.1.amount x.2 = some m ∧ m.rows.length = x.1.amount)
      (fun x y => x.1.amount = y.1.amount → ∃ m m',
        clientExpand g fromSeed x.1.amount x.2 = some m ∧
        clientExpand g fromSeed y.1.amount y.2 = some m' ∧ List.Forall₂ Valid m.rows m'.rows)
      (forId i (serve (freshSeeds g fromSeed seed1 seed2) .seed (fun _ => none) 0 rs).1) ∧
    ((serve (freshSeeds g fromSeed seed1 seed2) .seed (fun _ => none) 0 rs).2 i = none ↔
      Even (rs.filter fun r => r.id = i).length) := by
  refine serve_paired _ _ _ _ ?_ ?_ i rs
  · intro k r
    obtain ⟨m, m', e1, e2, w1, w2, l1, l2, hv⟩ :=
      seeds_expand_valid g fromSeed seed1 seed2 k r.amount
    exact ⟨m, e1, l1⟩
  · intro k r r' hr
    obtain ⟨m, m', e1, e2, w1, w2, l1, l2, hv⟩ :=
      seeds_expand_valid g fromSeed seed1 seed2 k r.amount
    exact ⟨m, m', e1, hr ▸ e2, hv⟩

/-- With different amounts the two clients of a seed session end up with different numbers of
triples. -/
theorem seed_second_amount_mismatch {σ Seed : Type} (g : Rng σ) (fromSeed : Seed → σ)
    (seed1 seed2 : Nat → Seed) (n n' : Nat) :
    ((serve (freshSeeds g fromSeed seed1 seed2) .seed (fun _ : Unit => none) 0
      [⟨(), n⟩, ⟨(), n'⟩]).1.map
        (fun x => (clientExpand g fromSeed x.1.amount x.2).map (fun m => m.rows.length))) =
      [some n, some n'] := by
  obtain ⟨m, m', e1, e2, w1, w2, l1, l2, hv⟩ := seeds_expand_valid g fromSeed seed1 seed2 0 n
  obtain ⟨q, q', f1, f2, v1, v2, k1, k2, hv'⟩ := seeds_expand_valid g fromSeed seed1 seed2 0 n'
  have h0 : (freshSeeds g fromSeed seed1 seed2 0 n).1 =
      (freshSeeds g fromSeed seed1 seed2 0 n').1 := rfl
  simp only [serve, handle, Function.update_self, List.map_cons, List.map_nil, e1, Option.map_some,
    l1, h0, f2, k2]

end Verif.Mt
