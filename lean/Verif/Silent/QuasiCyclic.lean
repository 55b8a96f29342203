import Verif.Silent.Modp
import Verif.Util.Convert
import Mathlib.Data.Nat.Prime.Infinite
import Mathlib.Tactic.NormNum.Prime
import Mathlib.Tactic.NormNum.Ineq
import Mathlib.Tactic.IntervalCases

/-!
The quasi cyclic code as an encoder, its configuration, and the silent OT built on it (C33, C34, C54):
zappot/src/silent_ot/quasi_cyclic_encode.rs.
-/
set_option autoImplicit false

namespace Verif.Silent

/-- C34 for odd `p`, in particular for the primes of the configuration: it is enough that the input
has at most `p` blocks. -/
theorem modp_odd_partial (checked : Bool) (dest inp : List Block) (p : Nat) (hodd : p % 2 = 1)
    (hd : (p + 127) / 128 ≤ dest.length) (hi : (p + 127) / 128 ≤ inp.length) (hp : inp.length ≤ p) :
    ∃ d, modp checked dest inp p = some d ∧ d.length = dest.length ∧ ∀ j, bitOf d j =
      (decide (j < p) &&
        parity ((List.range (128 * inp.length)).filter fun n => decide (n % p = j)) (bitOf inp)) := by
  apply modp_spec_partial checked dest inp p (by omega) hd hi
  intro i h0 hlt hmod
  have hc : Nat.Coprime 128 p := by
    rw [show (128 : Nat) = 2 ^ 7 by rfl]
    apply Nat.Coprime.pow_left
    rw [Nat.coprime_two_left]
    exact Nat.odd_iff.2 hodd
  have hdvd : 128 ∣ i := hc.dvd_of_dvd_mul_right (Nat.dvd_of_mod_eq_zero hmod)
  have : 128 ≤ i := Nat.le_of_dvd h0 hdvd
  have h2 : 128 * p ≤ i * p := Nat.mul_le_mul_right _ this
  omega

/-- C34 does not extend to every `p`: with overflow checks a multiple of 128 panics, without them bits
are added twice. -/
theorem modp_aligned_wrong :
    modp true [0, 0] [0, 0, 0, 1] 256 = none ∧
    ∃ d, modp false [0, 0] [0, 0, 0, 1] 256 = some d ∧ bitOf d 0 = true ∧
      parity ((List.range (128 * 4)).filter fun n => decide (n % 256 = 0)) (bitOf [0, 0, 0, 1]) = false := by
  refine ⟨by decide +kernel, ?_⟩
  have h : ((modp false [0, 0] [0, 0, 0, 1] 256).any fun d => bitOf d 0) = true := by decide +kernel
  obtain ⟨d, h1, h2⟩ := (Option.any_eq_true _ _).1 h
  exact ⟨d, h1, h2, by decide +kernel⟩

/-! ### The encoder -/

/-- quasi_cyclic_encode.rs:220-245 `MultAddReducer::reduce` into a zeroed row of `nBlocks` blocks
(40, 63).  `mul` stands for the sum of the products with the fixed polynomials, computed by the external
crate `bitpolymul` (222-235). -/
def qcReduce (checked : Bool) (nBlocks p : Nat) (mul : (Nat → Bool) → Nat → Bool) (b128 : List Block) :
    Option (List Block) :=
  let temp := ofBits (2 * nBlocks) fun k =>
    mul (bitOf b128) k ^^ (decide (k < 128 * nBlocks) && bitOf b128 k)
  modp checked (List.replicate nBlocks 0) temp p

theorem parity_xor (l : List Nat) (f g : Nat → Bool) :
    parity l (fun n => f n ^^ g n) = (parity l f ^^ parity l g) := by
  induction l with
  | nil => rfl
  | cons a l ih =>
    show ((f a ^^ g a) ^^ parity l _) = ((f a ^^ parity l f) ^^ (g a ^^ parity l g))
    rw [ih]
    cases f a <;> cases g a <;> cases parity l f <;> cases parity l g <;> rfl

/-- The size conditions under which `reduce` gets through. -/
structure QcSizes (nBlocks p : Nat) : Prop where
  odd : p % 2 = 1
  fits : (p + 127) / 128 ≤ nBlocks
  small : 2 * nBlocks ≤ p

theorem qcReduce_spec (checked : Bool) (nBlocks p : Nat) (hs : QcSizes nBlocks p)
    (mul : (Nat → Bool) → Nat → Bool) (b128 : List Block) :
    ∃ d, qcReduce checked nBlocks p mul b128 = some d ∧ d.length = nBlocks ∧ ∀ j, bitOf d j =
      (decide (j < p) && parity ((List.range (128 * (2 * nBlocks))).filter fun n => decide (n % p = j))
        fun k => decide (k < 128 * (2 * nBlocks)) &&
          (mul (bitOf b128) k ^^ (decide (k < 128 * nBlocks) && bitOf b128 k))) := by
  obtain ⟨d, h1, h2, h3⟩ := modp_odd_partial checked (List.replicate nBlocks 0)
    (ofBits (2 * nBlocks) fun k => mul (bitOf b128) k ^^ (decide (k < 128 * nBlocks) && bitOf b128 k)) p
    hs.odd (by rw [List.length_replicate]; exact hs.fits)
    (by have := hs.fits; simp only [ofBits, List.length_map, List.length_range]; omega)
    (by have := hs.small; simp only [ofBits, List.length_map, List.length_range]; omega)
  refine ⟨d, h1, by rw [h2, List.length_replicate], fun j => ?_⟩
  rw [h3 j]
  have hl : ∀ f : Nat → Bool, (ofBits (2 * nBlocks) f).length = 2 * nBlocks := by intro f; simp [ofBits]
  rw [hl]
  congr 2
  funext k
  exact ofBits_bit _ _ _

theorem qcReduce_none (checked : Bool) (nBlocks p : Nat) (h : nBlocks < (p + 127) / 128)
    (mul : (Nat → Bool) → Nat → Bool) (b128 : List Block) :
    qcReduce checked nBlocks p mul b128 = none := by
  simp only [qcReduce, modp]
  rw [if_pos]
  simp only [List.length_replicate]
  omega

/-- The quasi cyclic encoder on bit slices of `n2Blocks` blocks, for any additive multiplication that
looks at no more than the slice. -/
def qcCode (checked : Bool) (nBlocks n2Blocks p : Nat) (hs : QcSizes nBlocks p)
    (mul : (Nat → Bool) → Nat → Bool)
    (hmul : ∀ u v k, mul (fun x => u x ^^ v x) k = (mul u k ^^ mul v k)) : Code where
  size := 128 * n2Blocks
  E u i := bitOf ((qcReduce checked nBlocks p mul (ofBits n2Blocks u)).getD []) i
  add := by
    intro u v i
    obtain ⟨d1, h1, -, k1⟩ := qcReduce_spec checked nBlocks p hs mul (ofBits n2Blocks fun x => u x ^^ v x)
    obtain ⟨d2, h2, -, k2⟩ := qcReduce_spec checked nBlocks p hs mul (ofBits n2Blocks u)
    obtain ⟨d3, h3, -, k3⟩ := qcReduce_spec checked nBlocks p hs mul (ofBits n2Blocks v)
    rw [h1, h2, h3, Option.getD_some, Option.getD_some, Option.getD_some, k1, k2, k3]
    have e : bitOf (ofBits n2Blocks fun x => u x ^^ v x) =
        fun x => bitOf (ofBits n2Blocks u) x ^^ bitOf (ofBits n2Blocks v) x := by
      funext x
      rw [ofBits_bit, ofBits_bit, ofBits_bit]
      cases decide (x < 128 * n2Blocks) <;> simp
    rw [e, ← Bool.and_xor_distrib_left, ← parity_xor]
    congr 2
    funext k
    rw [hmul, ← Bool.and_xor_distrib_left]
    congr 1
    beta_reduce
    generalize mul _ k = a
    generalize mul _ k = b
    generalize bitOf _ k = c
    generalize bitOf _ k = d
    cases decide (k < 128 * nBlocks) <;> cases a <;> cases b <;> cases c <;> cases d <;> rfl
  loc := by
    intro u v h i
    have : ofBits n2Blocks u = ofBits n2Blocks v := by
      unfold ofBits
      apply List.map_congr_left
      intro b hb
      have := List.mem_range.1 hb
      congr 1
      funext r
      exact h _ (by omega)
    rw [this]

/-! ### Configuration -/

theorem exists_prime_gt (n : Nat) : ∃ p, n < p ∧ p.Prime := by
  obtain ⟨p, h1, h2⟩ := Nat.exists_infinite_primes (n + 1)
  exact ⟨p, h1, h2⟩

/-- `num_prime::nt_funcs::next_prime`: the least prime above `n`. -/
@[irreducible] def nextPrime (n : Nat) : Nat := Nat.find (exists_prime_gt n)

/-- quasi_cyclic_encode.rs:111-129. -/
structure QcConf where
  p : Nat
  requested : Nat
  n : Nat
  n2 : Nat
  scaler : Nat
  sizePer : Nat
  parts : Nat

/-- `Integer::next_multiple_of`. -/
def nextMultipleOf (a b : Nat) : Nat := (a + b - 1) / b * b

/-- quasi_cyclic_encode.rs:135-151 `configure`.  `get_reg_noise_weight(0.2, 128)` (mod.rs:872-877) is a
computation with floats: 128 / -log2(0.6) = 173.69, rounded down to 173 and up to a multiple of 8, that is
176. -/
def configure (numOts scaler : Nat) : QcConf :=
  let p := nextPrime (max numOts (128 * 128))
  let parts := 176
  let ss := (p * scaler + parts - 1) / parts
  let sizePer := nextMultipleOf ss 8
  let n2 := sizePer * parts
  { p, parts, sizePer, n2, n := n2 / scaler, scaler, requested := numOts }

/-- quasi_cyclic_encode.rs:153-159. -/
def QcConf.nBlocks (c : QcConf) : Nat := c.n / 128
def QcConf.n2Blocks (c : QcConf) : Nat := c.n2 / 128

/-- quasi_cyclic_encode.rs:193-197, pprf.rs:614-621. -/
def QcConf.pprf (c : QcConf) : Option Conf :=
  (Util.log2Ceil 64 c.sizePer).map fun d => ⟨c.parts, c.sizePer, d⟩

theorem nextPrime_spec (n : Nat) : n < nextPrime n ∧ (nextPrime n).Prime ∧
    ∀ q, n < q → q.Prime → nextPrime n ≤ q := by
  unfold nextPrime
  exact ⟨(Nat.find_spec (exists_prime_gt n)).1, (Nat.find_spec (exists_prime_gt n)).2,
    fun q h1 h2 => Nat.find_min' (exists_prime_gt n) ⟨h1, h2⟩⟩

theorem configure_p (numOts scaler : Nat) :
    (configure numOts scaler).p = nextPrime (max numOts (128 * 128)) := rfl

theorem configure_n2 (numOts scaler : Nat) : (configure numOts scaler).n2 =
    (((configure numOts scaler).p * scaler + 175) / 176 + 7) / 8 * 8 * 176 := by
  simp only [configure, nextMultipleOf]
  generalize nextPrime _ * scaler = a
  omega

theorem configure_n (numOts scaler : Nat) :
    (configure numOts scaler).n = (configure numOts scaler).n2 / scaler := rfl

theorem configure_nBlocks (numOts scaler p : Nat) (h : (configure numOts scaler).p = p) :
    (configure numOts scaler).nBlocks = ((p * scaler + 175) / 176 + 7) / 8 * 8 * 176 / scaler / 128 := by
  unfold QcConf.nBlocks
  rw [configure_n, configure_n2, h]

theorem configure_facts (numOts scaler : Nat) (hs : 2 ≤ scaler) :
    let c := configure numOts scaler
    numOts < c.p ∧ c.p % 2 = 1 ∧ 16384 < c.p ∧ c.n2 % 128 = 0 ∧ 8 ∣ c.sizePer ∧ 186 ≤ c.sizePer ∧
      c.p * scaler ≤ c.n2 ∧ c.n2 < c.p * scaler + 1408 ∧ c.n = c.n2 / scaler := by
  intro c
  obtain ⟨h1, h2, -⟩ := nextPrime_spec (max numOts (128 * 128))
  have hp : c.p = nextPrime (max numOts (128 * 128)) := rfl
  rw [← hp] at h1 h2
  have hodd : c.p % 2 = 1 := by
    rcases h2.eq_two_or_odd with h | h
    · omega
    · exact h
  have hn2' : c.n2 = ((c.p * scaler + 175) / 176 + 7) / 8 * 8 * 176 := configure_n2 _ _
  have hn2 : c.n2 = c.sizePer * 176 := rfl
  have hsz : c.sizePer = ((c.p * scaler + 175) / 176 + 7) / 8 * 8 := by omega
  have hmul : c.p * 2 ≤ c.p * scaler := Nat.mul_le_mul_left _ hs
  refine ⟨by omega, hodd, by omega, by omega, ⟨_, by rw [hsz, Nat.mul_comm]⟩, by omega, by omega, by omega, rfl⟩

/-- The configuration is one the expansion works with, for every number of OTs and scaling factor for
which the sizes fit into a machine word. -/
theorem qc_pprf_ok (numOts scaler : Nat) (hs : 2 ≤ scaler)
    (hfit : (configure numOts scaler).n2 < 2 ^ 64) :
    ∃ c, (configure numOts scaler).pprf = some c ∧ c.Ok .transposed ∧
      outSize .transposed c = (configure numOts scaler).n2 ∧ c.pnt = 176 ∧
      c.domain = (configure numOts scaler).sizePer := by
  obtain ⟨h1, h2, h3, h4, h5, h6, h7, h8, h9⟩ := configure_facts numOts scaler hs
  set q := configure numOts scaler with hq
  have hn2 : q.n2 = q.sizePer * 176 := rfl
  obtain ⟨d, e1, e2, e3⟩ := Util.log2Ceil_spec 64 q.sizePer (by omega) (by omega)
  have hout : outSize .transposed ⟨q.parts, q.sizePer, d⟩ = q.n2 := by
    show 128 * ((176 * q.sizePer + 127) / 128) = q.n2
    omega
  have hd4 : 4 ≤ d := by
    by_contra h
    have : 2 ^ d ≤ 2 ^ 3 := Nat.pow_le_pow_right (by omega) (by omega)
    omega
  refine ⟨⟨q.parts, q.sizePer, d⟩, by rw [QcConf.pprf, e1]; rfl, ⟨?_, ?_, ?_, ?_, e2, ?_, ?_, ?_⟩,
    hout, rfl, rfl⟩
  · show 0 < 176; decide
  · show 176 % 8 = 0; decide
  · show 2 ≤ d; omega
  · show q.sizePer % 2 = 0; obtain ⟨k, hk⟩ := h5; omega
  · show 0 < q.sizePer; omega
  · intro _; exact hd4
  · rw [hout]; exact hfit

/-- When the reduction works for a configuration. -/
theorem qc_sizes_iff (numOts scaler : Nat) (hs : 2 ≤ scaler) :
    QcSizes (configure numOts scaler).nBlocks (configure numOts scaler).p ↔
      ((configure numOts scaler).p + 127) / 128 ≤ (configure numOts scaler).nBlocks := by
  obtain ⟨h1, h2, h3, h4, h5, h6, h7, h8, h9⟩ := configure_facts numOts scaler hs
  refine ⟨fun h => h.fits, fun h => ⟨h2, h, ?_⟩⟩
  unfold QcConf.nBlocks
  rw [h9]
  set q := configure numOts scaler
  have : q.n2 / scaler ≤ q.p + 704 := by
    rw [← Nat.lt_succ_iff, Nat.div_lt_iff_lt_mul (by omega), Nat.succ_mul, Nat.add_mul]
    have : 704 * 2 ≤ 704 * scaler := Nat.mul_le_mul_left _ hs
    omega
  omega

/-- C54, partial: the quasi cyclic silent OT works for every number of OTs for which the blocks of the
dense vector hold the prime.  For all seeds, base OTs, choices accepted by the sampling (`idx < N2`,
pprf.rs:591-606), any additive polynomial multiplication and any scheduling, both parties end up with the
requested number of random OTs. -/
theorem qc_silent_ot_partial (numOts scaler : Nat) (hs : 2 ≤ scaler)
    (hfit : (configure numOts scaler).n2 < 2 ^ 64)
    (hblocks : ((configure numOts scaler).p + 127) / 128 ≤ (configure numOts scaler).nBlocks)
    (checked : Bool) (mul : (Nat → Bool) → Nat → Bool)
    (hmul : ∀ u v k, mul (fun x => u x ^^ v x) k = (mul u k ^^ mul v k))
    (P : Prf) (delta : Block) (seed : Nat → Block) (ots : Nat → Nat → Block × Block)
    (choices : Nat → List Bool) :
    ∃ c, (configure numOts scaler).pprf = some c ∧
      ((∀ t < c.pnt, (choices t).length = c.depth) →
      (∀ x ∈ getPoints .transposed c choices, x < (configure numOts scaler).n2) →
      ∀ order : List Nat, order.Perm ((List.range (c.pnt / 8)).map (8 * ·)) →
      ∃ msgs outS, sendExpand P .transposed c seed delta ots order = some (msgs, outS) ∧
      ∀ taken, taken.Perm msgs → ∃ outR A,
        recvExpand P .transposed c choices
          (fun t d => if (choices t).getD d false then (ots t d).2 else (ots t d).1) taken = some outR ∧
        let C := qcCode checked (configure numOts scaler).nBlocks (configure numOts scaler).n2Blocks
          (configure numOts scaler).p ((qc_sizes_iff numOts scaler hs).2 hblocks) mul hmul
        recvPacked C (.row0 (configure numOts scaler).n2Blocks) numOts (configure numOts scaler).n2
          (getPoints .transposed c choices) outR = some A ∧
        let sent := sendHash P.hash delta (sendCompress C numOts outS)
        sent.length = numOts ∧ (recvHash P.hash A).1.length = numOts ∧
        (recvHash P.hash A).2.length = numOts ∧
        ∀ i < numOts, ∃ m0 m1 m b, sent[i]? = some (m0, m1) ∧ (recvHash P.hash A).1[i]? = some m ∧
          (recvHash P.hash A).2[i]? = some b ∧ m = if b then m1 else m0) := by
  obtain ⟨c, h1, ok, hout, -, -⟩ := qc_pprf_ok numOts scaler hs hfit
  obtain ⟨-, -, -, h4, -⟩ := configure_facts numOts scaler hs
  refine ⟨c, h1, fun hlen hin order horder => ?_⟩
  rw [← hout] at hin
  obtain ⟨msgs, outS, h2, -, -, h3⟩ :=
    pprf_expand P .transposed c ok seed delta ots choices hlen hin order horder
  refine ⟨msgs, outS, h2, fun taken ht => ?_⟩
  obtain ⟨outR, k1, k2⟩ := h3 taken ht
  rw [hout] at hin
  obtain ⟨A, a1, a2, a3, a4, a5⟩ := compress_random_ot
    (qcCode checked (configure numOts scaler).nBlocks (configure numOts scaler).n2Blocks
      (configure numOts scaler).p ((qc_sizes_iff numOts scaler hs).2 hblocks) mul hmul)
    P.hash delta (getPoints .transposed c choices) outR outS (fun x _ => k2 x)
    (configure numOts scaler).n2 hin (.row0 (configure numOts scaler).n2Blocks)
    (by intro n hn; cases hn; exact Nat.le_refl _) numOts
  refine ⟨outR, A, k1, a1, a2, a3, a4, fun i hi => ?_⟩
  obtain ⟨m0, m1, m, b, e1, e2, e3, e4, -⟩ := a5 i hi
  exact ⟨m0, m1, m, b, e1, e2, e3, e4⟩

/-- The condition in closed form for the usual scaling factor 2, in terms of the prime: it fails exactly
when `⌈p / 704⌉` is odd and `p` is among the last 64 numbers before the next multiple of 704. -/
theorem qc_blocks_iff (numOts : Nat) :
    ((configure numOts 2).p + 127) / 128 ≤ (configure numOts 2).nBlocks ↔
      ¬ (((configure numOts 2).p + 703) / 704 % 2 = 1 ∧
        704 * (((configure numOts 2).p + 703) / 704) < (configure numOts 2).p + 64) := by
  unfold QcConf.nBlocks
  rw [configure_n, configure_n2]
  generalize (configure numOts 2).p = p
  have hm : ((p * 2 + 175) / 176 + 7) / 8 = (p + 703) / 704 := by omega
  rw [hm]
  have h1 := Nat.div_add_mod (p + 703) 704
  have h2 := Nat.mod_lt (p + 703) (show 704 > 0 by decide)
  generalize (p + 703) / 704 = m at *
  generalize (p + 703) % 704 = r at *
  clear hm
  omega

theorem nextPrime_17598 : nextPrime 17598 = 17599 := by
  obtain ⟨h1, -, h3⟩ := nextPrime_spec 17598
  have := h3 17599 (by norm_num) (by norm_num)
  omega

/-- C54 fails for some numbers of OTs: asking for 17598 OTs with the usual scaling factor gives the prime
17599 and a dense vector of 137 whole blocks, and the encoder panics on every input. -/
theorem qc_configure_panics :
    (configure 17598 2).p = 17599 ∧ (configure 17598 2).nBlocks = 137 ∧
    ∀ checked mul b128,
      qcReduce checked (configure 17598 2).nBlocks (configure 17598 2).p mul b128 = none := by
  have hp : (configure 17598 2).p = 17599 := by
    rw [configure_p, max_eq_left (by omega), nextPrime_17598]
  have hn : (configure 17598 2).nBlocks = 137 := by
    rw [configure_nBlocks 17598 2 17599 hp]
  refine ⟨hp, hn, fun checked mul b128 => ?_⟩
  rw [hp, hn]
  exact qcReduce_none _ _ _ (by norm_num) _ _

theorem nextPrime_16384 : nextPrime 16384 = 16411 := by
  obtain ⟨h1, h2, h3⟩ := nextPrime_spec 16384
  have hle := h3 16411 (by norm_num) (by norm_num)
  generalize nextPrime 16384 = p at *
  by_contra hne
  have hlt : p < 16411 := by omega
  have hodd : p % 2 = 1 := by rcases h2.eq_two_or_odd with h | h <;> omega
  obtain ⟨k, hk, rfl⟩ : ∃ k, k < 13 ∧ p = 16385 + 2 * k := ⟨(p - 16385) / 2, by omega, by omega⟩
  clear h1 h3 hle hne hlt hodd
  interval_cases k <;> norm_num at h2

/-- The hypotheses of `qc_silent_ot_partial` are met by the default minimum size. -/
example : (configure 1000 2).p = 16411 ∧
    ((configure 1000 2).p + 127) / 128 ≤ (configure 1000 2).nBlocks ∧ (configure 1000 2).n2 < 2 ^ 64 := by
  have hp : (configure 1000 2).p = 16411 := by
    rw [configure_p, max_eq_right (by omega), show 128 * 128 = 16384 by omega, nextPrime_16384]
  refine ⟨hp, ?_, ?_⟩
  · rw [qc_blocks_iff, hp]; decide
  · have h := configure_n2 1000 2
    rw [hp] at h
    omega

end Verif.Silent
