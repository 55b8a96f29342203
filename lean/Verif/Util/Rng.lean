import Verif.Util.Convert

/-!
`AesRng` and `AesHash` (C61): zappot/src/util/aes_rng.rs, zappot/src/util/aes_hash.rs, on top of `BlockRng`
of rand_core 0.6.

The block cipher under a key is an arbitrary function on 16 byte blocks, given as little endian integers.  The
host is little endian.  The counter wraps (a build with overflow checks panics after `2 ^ 128` blocks).
-/
set_option autoImplicit false

namespace Verif.Util

abbrev Byte := BitVec 8
/-- zappot `Block`, `GenericArray<u8, U16>` by its little endian value. -/
abbrev Blk := BitVec (8 * 16)
abbrev Word := BitVec (8 * 4)

/-! ### Model -/

/-- aes_rng.rs:88-93; `enc` is the cipher with its key. -/
structure AesCore where
  enc : Blk → Blk
  state : Blk

/-- aes_rng.rs:107-122 `generate`: eight counters are encrypted in the memory of the results. -/
def AesCore.generate (c : AesCore) : AesCore × List Word :=
  let blocks := (List.range 8).map fun i => c.enc (c.state + BitVec.ofNat _ i)
  let mem : List Byte := blocks.flatMap (toLeBytes 16)
  ({ c with state := c.state + 8 },
    (List.range 32).map fun i => fromLeBytes 4 ((mem.drop (4 * i)).take 4))

/-- rand_core `BlockRng`. -/
structure BRng where
  core : AesCore
  results : List Word
  index : Nat

/-- aes_rng.rs:125-137 `from_seed`, aes_rng.rs:52-55, rand_core `BlockRng::new`: nothing is generated
yet.  `aes` is the cipher for a key. -/
def fromSeed (aes : Blk → Blk → Blk) (seed : Blk) : BRng :=
  ⟨⟨aes seed, 0⟩, List.replicate 32 0, 32⟩

/-- rand_core `BlockRng::generate_and_set`. -/
def BRng.genSet (r : BRng) (i : Nat) : BRng :=
  ⟨r.core.generate.1, r.core.generate.2, i⟩

/-- rand_core `BlockRng::next_u32`. -/
def BRng.nextU32 (r : BRng) : Option (BRng × Word) := do
  let r := if r.index ≥ r.results.length then r.genSet 0 else r
  let w ← r.results[r.index]?
  pure ({ r with index := r.index + 1 }, w)

/-- rand_core `read_u64`. -/
def readU64 (ws : List Word) (i : Nat) : Option (BitVec (8 * 8)) := do
  let x ← ws[i]?
  let y ← ws[i + 1]?
  pure ((y.setWidth _ <<< 32) ||| x.setWidth _)

/-- rand_core `BlockRng::next_u64`. -/
def BRng.nextU64 (r : BRng) : Option (BRng × BitVec (8 * 8)) :=
  let len := r.results.length
  if r.index < len - 1 then do
    let v ← readU64 r.results r.index
    pure ({ r with index := r.index + 2 }, v)
  else if r.index ≥ len then do
    let r := r.genSet 2
    let v ← readU64 r.results 0
    pure (r, v)
  else do
    let x ← r.results[len - 1]?
    let r := r.genSet 1
    let y ← r.results[0]?
    pure (r, (y.setWidth _ <<< 32) ||| x.setWidth _)

/-- rand_core `fill_via_u32_chunks`: words used, and the bytes. -/
def fillChunks (src : List Word) (n : Nat) : Nat × List Byte :=
  let byteLen := min (src.length * 4) n
  let chunks := (byteLen + 3) / 4
  (chunks, ((src.take chunks).flatMap (toLeBytes 4)).take byteLen)

/-- rand_core `BlockRng::fill_bytes` for `n` bytes; the loop needs at most `n` rounds. -/
def BRng.fillLoop : Nat → BRng → Nat → Option (BRng × List Byte)
  | 0, r, n => if n = 0 then some (r, []) else none
  | f + 1, r, n =>
    if n = 0 then some (r, [])
    else do
      let r := if r.index ≥ r.results.length then r.genSet 0 else r
      let (used, bs) := fillChunks (r.results.drop r.index) n
      let (r, rest) ← BRng.fillLoop f { r with index := r.index + used } (n - bs.length)
      pure (r, bs ++ rest)

def BRng.fillBytes (r : BRng) (n : Nat) : Option (BRng × List Byte) := r.fillLoop n n

/-- block.rs:84-88: `rng.gen::<u128>()`, two `u64`, the low half first. -/
def BRng.genBlock (r : BRng) : Option (BRng × Blk) := do
  let (r, x) ← r.nextU64
  let (r, y) ← r.nextU64
  pure (r, (y.setWidth _ <<< 64) ||| x.setWidth _)

/-- aes_rng.rs:73-78 `fork`: the generator and the new one. -/
def BRng.fork (aes : Blk → Blk → Blk) (r : BRng) : Option (BRng × BRng) := do
  let (r, seed) ← r.genBlock
  pure (r, fromSeed aes seed)

/-- rand_core `SeedableRng::from_rng` (aes_rng.rs:56-59): the seed is filled with bytes. -/
def BRng.fromRng (aes : Blk → Blk → Blk) (r : BRng) : Option (BRng × BRng) := do
  let (r, bs) ← r.fillBytes 16
  pure (r, fromSeed aes (fromLeBytes 16 bs))

/-- Requests to a generator. -/
inductive Req where
  | u32
  | u64
  | bytes (n : Nat)
  | block

/-- The answer as bytes. -/
def BRng.ask (r : BRng) : Req → Option (BRng × List Byte)
  | .u32 => r.nextU32.map fun p => (p.1, toLeBytes 4 p.2)
  | .u64 => r.nextU64.map fun p => (p.1, toLeBytes 8 p.2)
  | .bytes n => r.fillBytes n
  | .block => r.genBlock.map fun p => (p.1, toLeBytes 16 p.2)

def BRng.askAll : List Req → BRng → Option (BRng × List (List Byte))
  | [], r => some (r, [])
  | q :: qs, r => do
    let (r, b) ← r.ask q
    let (r, bs) ← BRng.askAll qs r
    pure (r, b :: bs)

/-- aes_hash.rs:26-30 `cr_hash_block`. -/
def crHashBlock (enc : Blk → Blk) (x : Blk) : Blk := x ^^^ enc x

/-- aes_hash.rs:36-45 `cr_hash_blocks`. -/
def crHashBlocks (enc : Blk → Blk) (xs : List Blk) : List Blk :=
  List.zipWith (fun e x => e ^^^ x) (xs.map enc) xs

/-- aes_hash.rs:47-55 `cr_hash_slice_mut`: the blocks are read as bytes in memory. -/
def crHashSliceMut (enc : Blk → Blk) (xs : List Blk) : List Blk :=
  let encrypted := xs.map fun x => enc (fromLeBytes 16 (toLeBytes 16 x))
  List.zipWith (fun x e => x ^^^ e) xs encrypted

/-! ### Specification -/

/-- Byte `b` of the counter mode key stream. -/
def ksByte (enc : Blk → Blk) (b : Nat) : Byte :=
  (toLeBytes 16 (enc (BitVec.ofNat _ (b / 16)))).getD (b % 16) 0

/-- `n` bytes of the key stream from byte `p`. -/
def ks (enc : Blk → Blk) (p n : Nat) : List Byte := (List.range n).map fun i => ksByte enc (p + i)

/-- Bytes returned for a request. -/
def Req.size : Req → Nat
  | .u32 => 4
  | .u64 => 8
  | .bytes n => n
  | .block => 16

/-- Every answer is the part of the key stream at the current word; an answer uses up whole words. -/
def streamAnswers (enc : Blk → Blk) : Nat → List Req → List (List Byte)
  | _, [] => []
  | p, q :: qs => ks enc (4 * p) q.size :: streamAnswers enc (p + (q.size + 3) / 4) qs

/-! ### Proofs -/

theorem ks_length (enc : Blk → Blk) (p n : Nat) : (ks enc p n).length = n := by simp [ks]

theorem ks_add (enc : Blk → Blk) (p m n : Nat) : ks enc p (m + n) = ks enc p m ++ ks enc (p + m) n := by
  simp only [ks, List.range_add, List.map_append, List.map_map]
  congr 1
  apply List.map_congr_left
  intro i _
  simp [Nat.add_assoc]

theorem ks_drop (enc : Blk → Blk) (p k n : Nat) : (ks enc p n).drop k = ks enc (p + k) (n - k) := by
  rcases Nat.le_total k n with h | h
  · obtain ⟨m, rfl⟩ := Nat.exists_eq_add_of_le h
    rw [ks_add, List.drop_left' (by simp [ks_length])]; simp
  · rw [List.drop_eq_nil_of_le (by simp [ks_length, h]), Nat.sub_eq_zero_of_le h]; rfl

theorem ks_take (enc : Blk → Blk) (p k n : Nat) : (ks enc p n).take k = ks enc p (min k n) := by
  rcases Nat.le_total k n with h | h
  · obtain ⟨m, rfl⟩ := Nat.exists_eq_add_of_le h
    rw [ks_add, List.take_left' (by simp [ks_length]), Nat.min_eq_left h]
  · rw [List.take_of_length_le (by simp [ks_length, h]), Nat.min_eq_right h]

theorem ks_block (enc : Blk → Blk) (s : Nat) :
    ks enc (16 * s) 16 = toLeBytes 16 (enc (BitVec.ofNat _ s)) := by
  apply List.ext_getElem?
  intro i
  rcases Nat.lt_or_ge i 16 with h | h
  · rw [List.getElem?_eq_getElem (by simpa [ks_length] using h),
      List.getElem?_eq_getElem (by simpa [toLeBytes_length] using h)]
    simp only [ks, List.getElem_map, List.getElem_range, ksByte]
    rw [show (16 * s + i) / 16 = s by omega, show (16 * s + i) % 16 = i by omega,
      List.getD_eq_getElem?_getD, List.getElem?_eq_getElem (by simpa [toLeBytes_length] using h)]
    rfl
  · rw [List.getElem?_eq_none (by simpa [ks_length] using h),
      List.getElem?_eq_none (by simpa [toLeBytes_length] using h)]

theorem mem_eq (enc : Blk → Blk) (s n : Nat) :
    ((List.range n).map fun i => enc (BitVec.ofNat _ s + BitVec.ofNat _ i)).flatMap (toLeBytes 16) =
      ks enc (16 * s) (16 * n) := by
  induction n with
  | zero => rfl
  | succ n ih =>
    rw [List.range_succ, List.map_append, List.flatMap_append, ih, show 16 * (n + 1) = 16 * n + 16 from rfl, ks_add,
      show 16 * s + 16 * n = 16 * (s + n) by omega, ks_block]
    simp [BitVec.ofNat_add]

/-- Word `i` of the key stream. -/
def ksWord (enc : Blk → Blk) (i : Nat) : Word := fromLeBytes 4 (ks enc (4 * i) 4)

theorem ksWord_bytes (enc : Blk → Blk) (i : Nat) : toLeBytes 4 (ksWord enc i) = ks enc (4 * i) 4 :=
  le_bytes_roundtrip' 4 _ (by simp [ks_length])

theorem generate_words (enc : Blk → Blk) (s : Nat) :
    (AesCore.generate ⟨enc, BitVec.ofNat _ s⟩).2 = (List.range 32).map fun i => ksWord enc (4 * s + i) := by
  simp only [AesCore.generate]
  rw [mem_eq]
  apply List.map_congr_left
  intro i hi
  simp only [List.mem_range] at hi
  rw [ks_drop, ks_take, ksWord, Nat.min_eq_left (by omega), Nat.mul_add, ← Nat.mul_assoc]

/-- The generator is at word `p` of the key stream. -/
structure At (enc : Blk → Blk) (r : BRng) (p : Nat) : Prop where
  len : r.results.length = 32
  le : r.index ≤ 32
  pos : ∃ c, p + 32 = 32 * c + r.index ∧ r.core = ⟨enc, BitVec.ofNat _ (8 * c)⟩ ∧
    (r.index < 32 → r.results = (List.range 32).map fun i => ksWord enc (p - r.index + i))

theorem at_init (aes : Blk → Blk → Blk) (seed : Blk) : At (aes seed) (fromSeed aes seed) 0 :=
  ⟨by simp [fromSeed], by simp [fromSeed], 0, by simp [fromSeed], rfl, by simp [fromSeed]⟩

theorem at_gen {enc : Blk → Blk} {r : BRng} {p : Nat} (h : At enc r p) (hi : r.index = 32) (i : Nat)
    (hle : i ≤ 32) : At enc (r.genSet i) (p + i) ∧ (r.genSet i).index = i ∧
      (r.genSet i).results = (List.range 32).map fun j => ksWord enc (p + j) := by
  obtain ⟨c, hp, hc, _⟩ := h.pos
  have hpc : p = 32 * c := by omega
  have hres : (r.genSet i).results = (List.range 32).map fun j => ksWord enc (p + j) := by
    simp only [BRng.genSet, hc]
    rw [generate_words, hpc, ← Nat.mul_assoc]
  refine ⟨⟨by rw [hres]; simp, hle, c + 1, ?_, ?_, fun _ => ?_⟩, rfl, hres⟩
  · simp only [BRng.genSet]; omega
  · simp only [BRng.genSet, hc, AesCore.generate, AesCore.mk.injEq, true_and]
    rw [show 8 * (c + 1) = 8 * c + 8 from rfl, BitVec.ofNat_add]; rfl
  · rw [hres]; simp [BRng.genSet]

/-- After the check of `next_u32` and `fill_bytes`. -/
theorem at_fresh {enc : Blk → Blk} {r : BRng} {p : Nat} (h : At enc r p) :
    ∃ r', (if r.index ≥ r.results.length then r.genSet 0 else r) = r' ∧ At enc r' p ∧ r'.index < 32 := by
  rw [h.len]
  by_cases hi : r.index ≥ 32
  · rw [if_pos hi]
    have := at_gen h (by have := h.le; omega) 0 (by omega)
    exact ⟨_, rfl, this.1, by rw [this.2.1]; omega⟩
  · rw [if_neg hi]
    exact ⟨_, rfl, h, by omega⟩

theorem at_word {enc : Blk → Blk} {r : BRng} {p : Nat} (h : At enc r p) (hi : r.index < 32) (j : Nat)
    (hj : r.index + j < 32) : r.results[r.index + j]? = some (ksWord enc (p + j)) := by
  obtain ⟨c, hp, _, hr⟩ := h.pos
  rw [hr hi, List.getElem?_map, List.getElem?_range hj, Option.map_some,
    show p - r.index + (r.index + j) = p + j by omega]

theorem at_advance {enc : Blk → Blk} {r : BRng} {p : Nat} (h : At enc r p) (hi : r.index < 32) (j : Nat)
    (hj : r.index + j ≤ 32) : At enc { r with index := r.index + j } (p + j) := by
  obtain ⟨c, hp, hc, hr⟩ := h.pos
  refine ⟨h.len, hj, c, by simp only; omega, hc, fun _ => ?_⟩
  rw [hr hi]
  simp only
  rw [show p + j - (r.index + j) = p - r.index by omega]

theorem nextU32_spec {enc : Blk → Blk} {r : BRng} {p : Nat} (h : At enc r p) :
    ∃ r', r.nextU32 = some (r', ksWord enc p) ∧ At enc r' (p + 1) := by
  obtain ⟨r', e, h', hi⟩ := at_fresh h
  refine ⟨{ r' with index := r'.index + 1 }, ?_, at_advance h' hi 1 (by omega)⟩
  have := at_word h' hi 0 (by omega)
  simp only [Nat.add_zero] at this
  simp only [BRng.nextU32, e, this, bind, Option.bind, pure]

theorem u64_bytes (x y : Word) :
    toLeBytes 8 ((y.setWidth _ <<< 32) ||| x.setWidth _) = toLeBytes 4 x ++ toLeBytes 4 y := by
  apply List.ext_getElem
  · simp [toLeBytes_length]
  intro i h1 h2
  rw [toLeBytes_length] at h1
  apply BitVec.eq_of_getLsbD_eq
  intro k hk
  simp only [toLeBytes, List.getElem_map, List.getElem_range, List.getElem_append, List.length_map,
    List.length_range]
  split
  · rename_i hi
    simp only [BitVec.getLsbD_setWidth, BitVec.getLsbD_ushiftRight, BitVec.getLsbD_or,
      BitVec.getLsbD_shiftLeft]
    simp [hk, show 8 * i + k < 64 by omega, show 8 * i + k < 32 by omega]
  · rename_i hi
    simp only [BitVec.getLsbD_setWidth, BitVec.getLsbD_ushiftRight, BitVec.getLsbD_or,
      BitVec.getLsbD_shiftLeft]
    have hx : x.getLsbD (8 * i + k) = false := BitVec.getLsbD_of_ge _ _ (by omega)
    simp [hk, show 8 * i + k < 64 by omega, show ¬ 8 * i + k < 32 by omega, hx,
      show 8 * i + k - 32 = 8 * (i - 4) + k by omega, show 8 * (i - 4) + k < 64 by omega]

theorem nextU64_spec {enc : Blk → Blk} {r : BRng} {p : Nat} (h : At enc r p) :
    ∃ r' v, r.nextU64 = some (r', v) ∧ toLeBytes 8 v = ks enc (4 * p) 8 ∧ At enc r' (p + 2) := by
  have hb : ∀ v, v = ((ksWord enc (p + 1)).setWidth (8 * 8) <<< 32) ||| (ksWord enc p).setWidth (8 * 8) →
      toLeBytes 8 v = ks enc (4 * p) 8 := by
    rintro v rfl
    rw [u64_bytes, ksWord_bytes, ksWord_bytes, show 4 * (p + 1) = 4 * p + 4 by omega, ← ks_add]
  unfold BRng.nextU64
  simp only [h.len]
  by_cases h1 : r.index < 32 - 1
  · rw [if_pos h1]
    have w0 := at_word h (by omega) 0 (by omega)
    have w1 := at_word h (by omega) 1 (by omega)
    simp only [Nat.add_zero] at w0
    refine ⟨{ r with index := r.index + 2 }, _, ?_, hb _ rfl, at_advance h (by omega) 2 (by omega)⟩
    simp [readU64, w0, w1]
  · rw [if_neg h1]
    by_cases h2 : r.index ≥ 32
    · rw [if_pos h2]
      obtain ⟨a, b, c⟩ := at_gen h (by have := h.le; omega) 2 (by omega)
      refine ⟨r.genSet 2, _, ?_, hb _ rfl, a⟩
      have e0 : (r.genSet 2).results[0]? = some (ksWord enc p) := by rw [c]; simp
      have e1 : (r.genSet 2).results[0 + 1]? = some (ksWord enc (p + 1)) := by rw [c]; simp
      simp only [readU64, e0, e1, bind, Option.bind, pure]
    · rw [if_neg h2]
      have hi : r.index = 31 := by omega
      have w0 := at_word h (by omega) 0 (by omega)
      simp only [Nat.add_zero, hi] at w0
      have h' := at_advance h (by omega) 1 (by omega)
      have hcore : ({ r with index := r.index + 1 } : BRng).genSet 1 = r.genSet 1 := rfl
      obtain ⟨a, b, c⟩ := at_gen h' (by simp [hi]) 1 (by omega)
      rw [hcore] at a b c
      have e1 : (r.genSet 1).results[0]? = some (ksWord enc (p + 1)) := by rw [c]; simp
      refine ⟨r.genSet 1, _, ?_, hb _ rfl, a⟩
      simp only [Nat.add_one_sub_one, w0, e1, bind, Option.bind, pure]

theorem words_bytes (enc : Blk → Blk) (p m : Nat) :
    ((List.range m).map fun i => ksWord enc (p + i)).flatMap (toLeBytes 4) = ks enc (4 * p) (4 * m) := by
  induction m with
  | zero => rfl
  | succ m ih =>
    rw [List.range_succ, List.map_append, List.flatMap_append, ih, show 4 * (m + 1) = 4 * m + 4 from rfl, ks_add,
      show 4 * p + 4 * m = 4 * (p + m) by omega, ← ksWord_bytes]
    simp

theorem fillLoop_spec {enc : Blk → Blk} (f : Nat) {r : BRng} {p n : Nat} (h : At enc r p) (hf : n ≤ f) :
    ∃ r', BRng.fillLoop f r n = some (r', ks enc (4 * p) n) ∧ At enc r' (p + (n + 3) / 4) := by
  induction f generalizing r p n with
  | zero =>
    have : n = 0 := by omega
    subst this
    exact ⟨r, rfl, h⟩
  | succ f ih =>
    unfold BRng.fillLoop
    by_cases hn : n = 0
    · subst hn; exact ⟨r, rfl, h⟩
    rw [if_neg hn]
    obtain ⟨r', e, h', hi⟩ := at_fresh h
    simp only [e]
    -- the words left in the buffer
    have hdrop : r'.results.drop r'.index = (List.range (32 - r'.index)).map fun i => ksWord enc (p + i) := by
      apply List.ext_getElem?
      intro j
      rw [List.getElem?_drop]
      rcases Nat.lt_or_ge (r'.index + j) 32 with hj | hj
      · rw [at_word h' hi j hj, List.getElem?_map, List.getElem?_range (by omega)]; rfl
      · rw [List.getElem?_eq_none (by rw [h'.len]; exact hj), List.getElem?_eq_none (by simp; omega)]
    generalize hm : 32 - r'.index = m at hdrop
    have hbs : fillChunks (r'.results.drop r'.index) n =
        ((min (m * 4) n + 3) / 4, ks enc (4 * p) (min (m * 4) n)) := by
      rw [hdrop]
      unfold fillChunks
      simp only [List.length_map, List.length_range, Prod.mk.injEq, true_and]
      rw [← List.map_take, List.take_range, words_bytes, ks_take]
      congr 1
      omega
    rw [hbs]
    simp only [ks_length]
    rcases Nat.le_total n (m * 4) with hle | hle
    · rw [Nat.min_eq_right hle]
      have h2 := at_advance h' hi ((n + 3) / 4) (by omega)
      obtain ⟨r2, e2, h3⟩ := ih h2 (show n - n ≤ f by omega)
      have h30 : (n - n + 3) / 4 = 0 := by omega
      rw [h30, Nat.add_zero] at h3
      refine ⟨r2, ?_, h3⟩
      rw [Nat.sub_self] at e2 ⊢
      simp only [e2, bind, Option.bind, pure]
      simp [ks]
    · rw [Nat.min_eq_left hle, show (m * 4 + 3) / 4 = m by omega]
      have h2 := at_advance h' hi m (by omega)
      obtain ⟨r2, e2, h3⟩ := ih h2 (show n - m * 4 ≤ f by omega)
      refine ⟨r2, ?_, ?_⟩
      · simp only [e2, bind, Option.bind, pure]
        have : 4 * (p + m) = 4 * p + m * 4 := by omega
        rw [this, ← ks_add, Nat.add_sub_cancel' hle]
      · have : p + m + (n - m * 4 + 3) / 4 = p + (n + 3) / 4 := by omega
        rw [this] at h3
        exact h3

theorem u128_bytes (x y : BitVec (8 * 8)) :
    toLeBytes 16 ((y.setWidth _ <<< 64) ||| x.setWidth _) = toLeBytes 8 x ++ toLeBytes 8 y := by
  apply List.ext_getElem
  · simp [toLeBytes_length]
  intro i h1 h2
  rw [toLeBytes_length] at h1
  apply BitVec.eq_of_getLsbD_eq
  intro k hk
  simp only [toLeBytes, List.getElem_map, List.getElem_range, List.getElem_append, List.length_map,
    List.length_range]
  split
  · rename_i hi
    simp only [BitVec.getLsbD_setWidth, BitVec.getLsbD_ushiftRight, BitVec.getLsbD_or,
      BitVec.getLsbD_shiftLeft]
    simp [hk, show 8 * i + k < 128 by omega, show 8 * i + k < 64 by omega]
  · rename_i hi
    simp only [BitVec.getLsbD_setWidth, BitVec.getLsbD_ushiftRight, BitVec.getLsbD_or,
      BitVec.getLsbD_shiftLeft]
    have hx : x.getLsbD (8 * i + k) = false := BitVec.getLsbD_of_ge _ _ (by omega)
    simp [hk, show 8 * i + k < 128 by omega, show ¬ 8 * i + k < 64 by omega, hx,
      show 8 * i + k - 64 = 8 * (i - 8) + k by omega, show 8 * (i - 8) + k < 128 by omega]

theorem genBlock_spec {enc : Blk → Blk} {r : BRng} {p : Nat} (h : At enc r p) :
    ∃ r' v, r.genBlock = some (r', v) ∧ toLeBytes 16 v = ks enc (4 * p) 16 ∧ At enc r' (p + 4) := by
  obtain ⟨r1, x, e1, hx, h1⟩ := nextU64_spec h
  obtain ⟨r2, y, e2, hy, h2⟩ := nextU64_spec h1
  refine ⟨r2, (y.setWidth _ <<< 64) ||| x.setWidth _,
    by simp only [BRng.genBlock, e1, e2, bind, Option.bind, pure], ?_, h2⟩
  rw [u128_bytes, hx, hy, show 4 * (p + 2) = 4 * p + 8 by omega, ← ks_add]

theorem ask_spec {enc : Blk → Blk} {r : BRng} {p : Nat} (h : At enc r p) (q : Req) :
    ∃ r', r.ask q = some (r', ks enc (4 * p) q.size) ∧ At enc r' (p + (q.size + 3) / 4) := by
  cases q with
  | u32 =>
    obtain ⟨r', e, h'⟩ := nextU32_spec h
    exact ⟨r', by simp [BRng.ask, e, Req.size, ksWord_bytes], h'⟩
  | u64 =>
    obtain ⟨r', v, e, hv, h'⟩ := nextU64_spec h
    exact ⟨r', by simp [BRng.ask, e, Req.size, hv], h'⟩
  | bytes n => exact fillLoop_spec n h (Nat.le_refl _)
  | block =>
    obtain ⟨r', v, e, hv, h'⟩ := genBlock_spec h
    exact ⟨r', by simp [BRng.ask, e, Req.size, hv], h'⟩

theorem askAll_spec {enc : Blk → Blk} (qs : List Req) {r : BRng} {p : Nat} (h : At enc r p) :
    ∃ r', BRng.askAll qs r = some (r', streamAnswers enc p qs) ∧
      At enc r' (p + (qs.map fun q => (q.size + 3) / 4).sum) := by
  induction qs generalizing r p with
  | nil => exact ⟨r, rfl, h⟩
  | cons q qs ih =>
    obtain ⟨r1, e1, h1⟩ := ask_spec h q
    obtain ⟨r2, e2, h2⟩ := ih h1
    refine ⟨r2, by simp only [BRng.askAll, e1, e2, bind, Option.bind, pure, streamAnswers], ?_⟩
    rw [List.map_cons, List.sum_cons, ← Nat.add_assoc]
    exact h2

/-- C61.  Whatever is asked of an `AesRng`, it answers with consecutive parts of the AES counter mode key
stream of its seed; every request starts at a word boundary. -/
theorem aes_rng_stream (aes : Blk → Blk → Blk) (seed : Blk) (qs : List Req) :
    ∃ r, BRng.askAll qs (fromSeed aes seed) = some (r, streamAnswers (aes seed) 0 qs) := by
  obtain ⟨r, e, _⟩ := askAll_spec qs (at_init aes seed)
  exact ⟨r, e⟩

theorem streamAnswers_flatten (enc : Blk → Blk) (qs : List Req) (p : Nat)
    (h : ∀ q ∈ qs, 4 ∣ q.size) :
    (streamAnswers enc p qs).flatten = ks enc (4 * p) (qs.map Req.size).sum := by
  induction qs generalizing p with
  | nil => rfl
  | cons q qs ih =>
    obtain ⟨k, hk⟩ := h q (by simp)
    rw [streamAnswers, List.flatten_cons, ih _ fun q' hq => h q' (by simp [hq]), List.map_cons,
      List.sum_cons, ks_add, show 4 * (p + (q.size + 3) / 4) = 4 * p + q.size by omega]

/-- C61.  Two sequences of requests for whole words give the same bytes if they ask for equally many. -/
theorem aes_rng_chunking (aes : Blk → Blk → Blk) (seed : Blk) (qs qs' : List Req)
    (h : ∀ q ∈ qs, 4 ∣ q.size) (h' : ∀ q ∈ qs', 4 ∣ q.size)
    (hs : (qs.map Req.size).sum = (qs'.map Req.size).sum) :
    ∃ r r' bs bs', BRng.askAll qs (fromSeed aes seed) = some (r, bs) ∧
      BRng.askAll qs' (fromSeed aes seed) = some (r', bs') ∧ bs.flatten = bs'.flatten := by
  obtain ⟨r, e⟩ := aes_rng_stream aes seed qs
  obtain ⟨r', e'⟩ := aes_rng_stream aes seed qs'
  refine ⟨r, r', _, _, e, e', ?_⟩
  rw [streamAnswers_flatten _ _ _ h, streamAnswers_flatten _ _ _ h', hs]

example : ∀ q ∈ [Req.u64, .bytes 300, .u32, .block], 4 ∣ q.size := by
  simp [Req.size]

/-- Requests for other numbers of bytes lose the rest of a word: one byte and then three bytes are not
the four bytes asked for at once. -/
theorem aes_rng_chunking_bytes :
    ∃ aes seed r r' bs bs', BRng.askAll [.bytes 1, .bytes 3] (fromSeed aes seed) = some (r, bs) ∧
      BRng.askAll [.bytes 4] (fromSeed aes seed) = some (r', bs') ∧ bs.flatten ≠ bs'.flatten := by
  obtain ⟨r, e⟩ := aes_rng_stream (fun _ _ => BitVec.ofNat _ 0x0706050403020100) 0 [.bytes 1, .bytes 3]
  obtain ⟨r', e'⟩ := aes_rng_stream (fun _ _ => BitVec.ofNat _ 0x0706050403020100) 0 [.bytes 4]
  refine ⟨_, _, r, r', _, _, e, e', ?_⟩
  decide +kernel

/-- C61.  `fork` after any requests: the seed of the new generator is the next block of the stream, and the generator
continues behind it. -/
theorem aes_rng_fork (aes : Blk → Blk → Blk) (seed : Blk) (qs qs' : List Req) (p : Nat)
    (hp : p = (qs.map fun q => (q.size + 3) / 4).sum) :
    ∃ r r1 r2, BRng.askAll qs (fromSeed aes seed) = some (r, streamAnswers (aes seed) 0 qs) ∧
      r.fork aes = some (r1, fromSeed aes (fromLeBytes 16 (ks (aes seed) (4 * p) 16))) ∧
      BRng.askAll qs' r1 = some (r2, streamAnswers (aes seed) (p + 4) qs') := by
  obtain ⟨r, e, h⟩ := askAll_spec qs (at_init aes seed)
  rw [Nat.zero_add, ← hp] at h
  obtain ⟨r1, v, e1, hv, h1⟩ := genBlock_spec h
  obtain ⟨r2, e2, _⟩ := askAll_spec qs' h1
  refine ⟨r, r1, r2, e, ?_, e2⟩
  simp only [BRng.fork, e1, bind, Option.bind, pure]
  rw [← hv, le_bytes_roundtrip]

/-- C61.  `from_rng` takes the same seed as `fork`. -/
theorem aes_rng_from_rng (aes : Blk → Blk → Blk) (seed : Blk) (qs : List Req) (r : BRng)
    (bs : List (List Byte)) (h : BRng.askAll qs (fromSeed aes seed) = some (r, bs)) :
    (r.fromRng aes).map (·.2) = (r.fork aes).map (·.2) := by
  obtain ⟨r', e, ha⟩ := askAll_spec qs (at_init aes seed)
  rw [h] at e
  cases e
  obtain ⟨r1, v, e1, hv, _⟩ := genBlock_spec ha
  obtain ⟨r2, e2, _⟩ := fillLoop_spec 16 (n := 16) ha (Nat.le_refl _)
  simp only [BRng.fork, BRng.fromRng, e1, bind, Option.bind, pure, BRng.fillBytes, e2, Option.map_some]
  rw [← hv, le_bytes_roundtrip]

/-- C61.  Distinct positions of the stream belong to distinct counters up to `2 ^ 128` blocks: the stream
does not repeat a cipher input. -/
theorem aes_rng_counters (i j : Nat) (hi : i / 16 < 2 ^ 128) (hj : j / 16 < 2 ^ 128)
    (h : BitVec.ofNat (8 * 16) (i / 16) = BitVec.ofNat (8 * 16) (j / 16)) : i / 16 = j / 16 := by
  have := congrArg BitVec.toNat h
  simp only [BitVec.toNat_ofNat] at this
  rwa [Nat.mod_eq_of_lt hi, Nat.mod_eq_of_lt hj] at this

/-- C61.  The three forms of the correlation robust hash agree. -/
theorem cr_hash_agree (enc : Blk → Blk) (xs : List Blk) :
    crHashBlocks enc xs = xs.map (fun x => x ^^^ enc x) ∧
    crHashSliceMut enc xs = xs.map (fun x => x ^^^ enc x) ∧
    xs.map (crHashBlock enc) = xs.map (fun x => x ^^^ enc x) := by
  refine ⟨?_, ?_, rfl⟩
  · induction xs with
    | nil => rfl
    | cons x xs ih =>
      simp only [crHashBlocks, List.map_cons, List.zipWith_cons_cons] at ih ⊢
      rw [ih, BitVec.xor_comm]
  · induction xs with
    | nil => rfl
    | cons x xs ih =>
      simp only [crHashSliceMut, List.map_cons, List.zipWith_cons_cons, le_bytes_roundtrip] at ih ⊢
      rw [ih]

end Verif.Util
