import Verif.Mixed.Model
import Mathlib.Tactic.Ring
import Mathlib.Tactic.LinearCombination
import Mathlib.Algebra.BigOperators.Group.List.Basic
import Mathlib.Data.List.GetD

/-!
Bits and words: recomposition of a ring element from its bits (C52) and the value of a `B2A` gate (C41).
-/
set_option autoImplicit false

namespace Verif.Mixed

/-- Spec: the integer with the given bits, least significant first. -/
def bitsVal : List Bool → Nat
  | [] => 0
  | b :: bs => (if b then 1 else 0) + 2 * bitsVal bs

/-- A bit as a ring element. -/
def bitR {w : Nat} (b : Bool) : BitVec w := if b then 1 else 0

theorem bitR_xor {w : Nat} (p q : Bool) :
    (bitR (p ^^ q) : BitVec w) = bitR p + bitR q - 2 * bitR p * bitR q := by
  have h1 : (bitR true : BitVec w) = 1 := rfl
  have h0 : (bitR false : BitVec w) = 0 := rfl
  cases p <;> cases q <;> simp only [Bool.xor_self, Bool.xor_true, Bool.xor_false, Bool.not_true,
    Bool.not_false, h0, h1] <;> ring

theorem getBit_eq {w : Nat} (v : BitVec w) (i : Nat) (h : i < w) :
    Util.getBit v i = some (v.getLsbD i) := by
  rw [Util.getBit_spec v i h, ← BitVec.testBit_toNat, Nat.testBit_eq_decide_div_mod_eq]

theorem sum_bits_mod {w : Nat} (v : BitVec w) (n : Nat) :
    ((List.range n).map fun i => (2 : BitVec w) ^ i * bitR (v.getLsbD i)).sum
      = ((v.toNat % 2 ^ n : Nat) : BitVec w) := by
  induction n with
  | zero => simp [Nat.mod_one]
  | succ n ih =>
    rw [List.range_succ, List.map_append, List.sum_append, ih]
    have h := Nat.mod_pow_succ (x := v.toNat) (b := 2) (k := n)
    rw [h]
    have hb : (bitR (v.getLsbD n) : BitVec w) = ((v.toNat / 2 ^ n % 2 : Nat) : BitVec w) := by
      rw [← BitVec.testBit_toNat, Nat.testBit_eq_decide_div_mod_eq, bitR]
      rcases Nat.mod_two_eq_zero_or_one (v.toNat / 2 ^ n) with h | h <;> simp [h]
    simp only [List.map_cons, List.map_nil, List.sum_cons, List.sum_nil, add_zero, hb]
    push_cast
    rfl

/-- C52: a ring element is the sum of its bits (as delivered by `get_bit`) times powers of two. -/
theorem bits_recompose {w : Nat} (v : BitVec w) :
    ∃ bits : List Bool, (List.range w).mapM (fun i => Util.getBit v i) = some bits ∧
      bits.length = w ∧
      (bits.zipIdx.map fun p => (2 : BitVec w) ^ p.2 * (if p.1 then 1 else 0)).sum = v ∧
      bitsVal bits = v.toNat := by
  have hl : ∀ n ≤ w, (List.range n).mapM (fun i => Util.getBit v i)
      = some ((List.range n).map fun i => v.getLsbD i) := by
    intro n hn
    induction n with
    | zero => simp
    | succ n ih =>
      rw [List.range_succ, List.mapM_append, ih (by omega)]
      simp [getBit_eq v n (by omega)]
  refine ⟨(List.range w).map fun i => v.getLsbD i, hl w le_rfl, by simp, ?_, ?_⟩
  · have : (((List.range w).map fun i => v.getLsbD i).zipIdx.map
        fun p => (2 : BitVec w) ^ p.2 * (if p.1 then 1 else 0))
        = (List.range w).map fun i => (2 : BitVec w) ^ i * bitR (v.getLsbD i) := by
      apply List.ext_getElem
      · simp
      · intro i h1 h2
        simp [bitR]
    rw [this, sum_bits_mod, Nat.mod_eq_of_lt v.isLt]
    apply BitVec.eq_of_toNat_eq
    simp
  · have h : ∀ n k, bitsVal ((List.range' k n).map fun i => v.getLsbD i)
        = v.toNat / 2 ^ k % 2 ^ n := by
      intro n
      induction n with
      | zero => intro k; simp [bitsVal, Nat.mod_one]
      | succ n ih =>
        intro k
        rw [List.range'_succ, List.map_cons, bitsVal, ih, ← BitVec.testBit_toNat,
          Nat.testBit_eq_decide_div_mod_eq]
        have e1 : v.toNat / 2 ^ k % 2 ^ (n + 1)
            = v.toNat / 2 ^ k % 2 + 2 * (v.toNat / 2 ^ k / 2 % 2 ^ n) := by
          rw [Nat.pow_succ', Nat.mod_mul]
        have e2 : v.toNat / 2 ^ (k + 1) = v.toNat / 2 ^ k / 2 := by
          rw [Nat.pow_succ, Nat.div_div_eq_div_mul]
        rw [e1, e2]
        rcases Nat.mod_two_eq_zero_or_one (v.toNat / 2 ^ k) with h | h <;> simp [h]
    rw [List.range_eq_range', h w 0]
    simp [Nat.mod_eq_of_lt v.isLt]

theorem foldr_bitsVal (bits : List Bool) :
    bits.foldr (fun b acc => b.toNat + 2 * acc) 0 = bitsVal bits := by
  induction bits with
  | nil => rfl
  | cons b bs ih => rw [List.foldr_cons, ih, bitsVal]; cases b <;> rfl

theorem wordOf_eq (w : Nat) (bits : List Bool) : wordOf w bits = BitVec.ofNat w (bitsVal bits) := by
  rw [wordOf, foldr_bitsVal]

theorem bitsVal_lt (bits : List Bool) : bitsVal bits < 2 ^ bits.length := by
  induction bits with
  | nil => simp [bitsVal]
  | cons b bs ih =>
    rw [bitsVal, List.length_cons, Nat.pow_succ]
    split <;> omega

theorem bitsVal_testBit (bits : List Bool) (i : Nat) :
    (bitsVal bits).testBit i = bits.getD i false := by
  induction bits generalizing i with
  | nil => simp [bitsVal]
  | cons b bs ih =>
    cases i with
    | zero => cases b <;> simp [bitsVal, Nat.testBit_zero]
    | succ i =>
      rw [Nat.testBit_succ, bitsVal]
      have : ((if b then 1 else 0) + 2 * bitsVal bs) / 2 = bitsVal bs := by split <;> omega
      rw [this, ih]
      simp

theorem wordOf_getLsbD (w : Nat) (bits : List Bool) (i : Nat) (h : i < w) :
    (wordOf w bits).getLsbD i = bits.getD i false := by
  rw [wordOf_eq, BitVec.getLsbD_ofNat, bitsVal_testBit]
  simp [h]

/-- XORing bit by bit. -/
theorem wordOf_xor (w : Nat) (x y : List Bool) (h : x.length = w) (h' : y.length = w) :
    wordOf w x ^^^ wordOf w y = wordOf w (Gmw.xorL x y) := by
  apply BitVec.eq_of_getLsbD_eq
  intro i hi
  rw [BitVec.getLsbD_xor, wordOf_getLsbD _ _ _ hi, wordOf_getLsbD _ _ _ hi,
    wordOf_getLsbD _ _ _ hi]
  simp only [Gmw.xorL, List.getD_eq_getElem?_getD, List.getElem?_zipWith]
  rw [List.getElem?_eq_getElem (by omega), List.getElem?_eq_getElem (by omega)]
  simp

/-- The arithmetic share of the `i`-th shared bit a `B2A` gate uses. -/
def sbAt {w : Nat} (sb : List (BitVec w)) (i : Nat) : BitVec w := sb.reverse.getD i 0

theorem b2aEval_eq {w : Nat} (party : Nat) (t : BitVec w) (sb : List (BitVec w)) (hw : 0 < w)
    (h : w ≤ sb.length) :
    b2aEval party t sb = some (((List.range w).map fun i =>
      2 ^ i * ((if party = 0 then bitR (t.getLsbD i) + sbAt sb i else sbAt sb i)
        - 2 * bitR (t.getLsbD i) * sbAt sb i)).sum) := by
  have hr : (sb.drop (sb.length - w)).reverse = (List.range w).map (sbAt sb) := by
    apply List.ext_getElem
    · simp; omega
    · intro i h1 h2
      simp only [List.length_map, List.length_range] at h2
      have e : sb.length - w + (w - 1 - i) = sb.length - 1 - i := by omega
      have e' : sb.length - (sb.length - w) = w := by omega
      simp [sbAt, List.getD_eq_getElem?_getD, List.getElem?_reverse (show i < sb.length by omega),
        e, e', List.getElem?_eq_getElem (show sb.length - 1 - i < sb.length by omega)]
  rw [b2aEval, if_neg (by omega), hr]
  have hm : ∀ (n k : Nat), k + n ≤ w →
      ((((List.range' k n).map (sbAt sb)).zipIdx k).mapM fun p => b2aTerm party t p.2 p.1)
      = some ((List.range' k n).map fun i =>
        2 ^ i * ((if party = 0 then bitR (t.getLsbD i) + sbAt sb i else sbAt sb i)
        - 2 * bitR (t.getLsbD i) * sbAt sb i)) := by
    intro n
    induction n with
    | zero => intro k _; simp
    | succ n ih =>
      intro k hk
      rw [List.range'_succ, List.map_cons, List.zipIdx_cons, List.mapM_cons, ih (k + 1) (by omega)]
      simp [b2aTerm, getBit_eq t k (by omega), bitR]
  have := hm w 0 (by omega)
  rw [← List.range_eq_range'] at this
  rw [this]
  simp [List.sum_eq_foldl]

/-- Spec: the Boolean words `r0`, `r1` and the last arithmetic shared bits of the two parties describe
the same bits: bit `i` of the word is the `i`-th arithmetic bit counted from the end. -/
def SharedBits {w : Nat} (r0 r1 : BitVec w) (a0 a1 : List (BitVec w)) : Prop :=
  w ≤ a0.length ∧ w ≤ a1.length ∧
  ∀ i < w, a0.reverse.getD i 0 + a1.reverse.getD i 0 = if (r0 ^^^ r1).getLsbD i then 1 else 0

instance {w : Nat} (r0 r1 : BitVec w) (a0 a1 : List (BitVec w)) : Decidable (SharedBits r0 r1 a0 a1) := by
  unfold SharedBits; infer_instance

theorem list_sum_add {w : Nat} (l : List Nat) (f g : Nat → BitVec w) :
    (l.map f).sum + (l.map g).sum = (l.map fun i => f i + g i).sum := by
  induction l with
  | nil => simp
  | cons a l ih => simp only [List.map_cons, List.sum_cons, ← ih]; ring

/-- The two outputs of a `B2A` gate add up to the XOR of the two words behind the opened value. -/
theorem b2a_value {w : Nat} (hw : 0 < w) (x0 x1 r0 r1 : BitVec w) (a0 a1 : List (BitVec w))
    (h : SharedBits r0 r1 a0 a1) :
    ∃ z0 z1, b2aEval 0 ((x0 ^^^ r0) ^^^ (x1 ^^^ r1)) a0 = some z0 ∧
      b2aEval 1 ((x1 ^^^ r1) ^^^ (x0 ^^^ r0)) a1 = some z1 ∧ z0 + z1 = x0 ^^^ x1 := by
  obtain ⟨h0, h1, h⟩ := h
  refine ⟨_, _, b2aEval_eq 0 _ a0 hw h0, b2aEval_eq 1 _ a1 hw h1, ?_⟩
  rw [list_sum_add]
  have : (List.range w).map (fun i =>
      2 ^ i * ((if (0 : Nat) = 0 then bitR (((x0 ^^^ r0) ^^^ (x1 ^^^ r1)).getLsbD i) + sbAt a0 i
          else sbAt a0 i)
        - 2 * bitR (((x0 ^^^ r0) ^^^ (x1 ^^^ r1)).getLsbD i) * sbAt a0 i) +
      2 ^ i * ((if 1 = 0 then bitR (((x1 ^^^ r1) ^^^ (x0 ^^^ r0)).getLsbD i) + sbAt a1 i
          else sbAt a1 i)
        - 2 * bitR (((x1 ^^^ r1) ^^^ (x0 ^^^ r0)).getLsbD i) * sbAt a1 i))
      = (List.range w).map (fun i => (2 : BitVec w) ^ i * bitR ((x0 ^^^ x1).getLsbD i)) := by
    apply List.map_congr_left
    intro i hi
    have hs := h i (List.mem_range.1 hi)
    have hs : sbAt a0 i + sbAt a1 i = bitR ((r0 ^^^ r1).getLsbD i) := hs
    simp only [BitVec.getLsbD_xor] at hs ⊢
    simp only [if_true, one_ne_zero, if_false]
    have hc : ((x1.getLsbD i ^^ r1.getLsbD i) ^^ (x0.getLsbD i ^^ r0.getLsbD i))
        = ((x0.getLsbD i ^^ r0.getLsbD i) ^^ (x1.getLsbD i ^^ r1.getLsbD i)) := Bool.xor_comm _ _
    rw [hc]
    have hb : (bitR (x0.getLsbD i ^^ x1.getLsbD i) : BitVec w)
        = bitR ((x0.getLsbD i ^^ r0.getLsbD i) ^^ (x1.getLsbD i ^^ r1.getLsbD i))
          + bitR (r0.getLsbD i ^^ r1.getLsbD i)
          - 2 * bitR ((x0.getLsbD i ^^ r0.getLsbD i) ^^ (x1.getLsbD i ^^ r1.getLsbD i))
            * bitR (r0.getLsbD i ^^ r1.getLsbD i) := by
      rw [← bitR_xor]
      congr 1
      cases x0.getLsbD i <;> cases x1.getLsbD i <;> cases r0.getLsbD i <;> cases r1.getLsbD i <;> rfl
    rw [hb, ← hs]
    ring
  rw [this, sum_bits_mod, Nat.mod_eq_of_lt (x0 ^^^ x1).isLt]
  apply BitVec.eq_of_toNat_eq
  simp

end Verif.Mixed
