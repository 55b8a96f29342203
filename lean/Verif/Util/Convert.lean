import Mathlib.Data.Nat.Bitwise
import Mathlib.Tactic.Ring

/-!
Blocks, ring elements, logarithms (C50): zappot/src/util/block.rs, zappot/src/util/mod.rs and the `Ring`
trait of seec/src/protocols/mod.rs.
-/
set_option autoImplicit false

namespace Verif.Util

/-- `to_le_bytes` of an `n` byte integer (block.rs:57-59 for 16 bytes). -/
def toLeBytes (n : Nat) (v : BitVec (8 * n)) : List (BitVec 8) :=
  (List.range n).map fun i => (v >>> (8 * i)).setWidth 8

/-- `from_le_bytes` (block.rs:62-66). -/
def fromLeBytes (n : Nat) (bytes : List (BitVec 8)) : BitVec (8 * n) :=
  bytes.foldr (fun b acc => b.setWidth _ ||| (acc <<< 8)) 0

/-- protocols/mod.rs:414-418 `Ring::from_block` for an integer of `n ≤ 16` bytes; `none` is the slice
panic. -/
def fromBlock (n : Nat) (b : BitVec (8 * 16)) : Option (BitVec (8 * n)) :=
  if n ≤ 16 then some (fromLeBytes n ((toLeBytes 16 b).take n)) else none

/-- protocols/mod.rs:382-385 `Ring::get_bit`; `none`: shifting by the width or more overflows. -/
def getBit {w : Nat} (v : BitVec w) (idx : Nat) : Option Bool :=
  if idx < w then some (v &&& (1#w <<< idx) != 0#w) else none

/-- block.rs:148-155 `From<Block> for (u64, u64)`. -/
def blockHalves (b : BitVec (8 * 16)) : BitVec (8 * 8) × BitVec (8 * 8) :=
  (fromLeBytes 8 ((toLeBytes 16 b).take 8), fromLeBytes 8 ((toLeBytes 16 b).drop 8))

/-- `usize::leading_zeros` on `w` bits. -/
def leadingZeros (w v : Nat) : Nat := ((List.range w).reverse.takeWhile fun i => !v.testBit i).length

/-- util/mod.rs:9-12 with `usize::BITS = w`; `none` is the assertion. -/
def log2Floor (w v : Nat) : Option Nat := if 0 < v then some (w - leadingZeros w v - 1) else none

/-- util/mod.rs:15-22. -/
def log2Ceil (w v : Nat) : Option Nat := do
  let f ← log2Floor w v
  pure (if v > 1 <<< f then f + 1 else f)

/-! ### Bytes -/

theorem toLeBytes_length (n : Nat) (v : BitVec (8 * n)) : (toLeBytes n v).length = n := by
  simp [toLeBytes]

theorem fromLeBytes_bit (n : Nat) (bytes : List (BitVec 8)) (j : Nat) (hj : j < 8 * n) :
    (fromLeBytes n bytes).getLsbD j = (bytes.getD (j / 8) 0).getLsbD (j % 8) := by
  induction bytes generalizing j with
  | nil => simp [fromLeBytes]
  | cons b bytes ih =>
    have e : fromLeBytes n (b :: bytes) = b.setWidth _ ||| (fromLeBytes n bytes <<< 8) := rfl
    rw [e, BitVec.getLsbD_or, BitVec.getLsbD_setWidth, BitVec.getLsbD_shiftLeft]
    by_cases h : j < 8
    · rw [Nat.div_eq_of_lt h, Nat.mod_eq_of_lt h]
      simp [h, hj]
    · have e1 : j / 8 = (j - 8) / 8 + 1 := by omega
      have e2 : j % 8 = (j - 8) % 8 := by omega
      rw [ih (j - 8) (by omega), e1, e2, List.getD_cons_succ]
      have : b.getLsbD j = false := BitVec.getLsbD_of_ge b j (by omega)
      simp [this, hj, h]

theorem toLeBytes_bit (n : Nat) (v : BitVec (8 * n)) (k r : Nat) (hk : k < n) (hr : r < 8) :
    ((toLeBytes n v).getD k 0).getLsbD r = v.getLsbD (8 * k + r) := by
  simp [toLeBytes, List.getD_eq_getElem?_getD, List.getElem?_range hk, hr]

/-- C50: bytes and back is the identity, for every width. -/
theorem le_bytes_roundtrip (n : Nat) (v : BitVec (8 * n)) : fromLeBytes n (toLeBytes n v) = v := by
  apply BitVec.eq_of_getLsbD_eq
  intro j hj
  rw [fromLeBytes_bit n _ j hj, toLeBytes_bit n v _ _ (by omega) (by omega), Nat.div_add_mod]

/-- C50: the other way round, for byte lists of the right length. -/
theorem le_bytes_roundtrip' (n : Nat) (bytes : List (BitVec 8)) (h : bytes.length = n) :
    toLeBytes n (fromLeBytes n bytes) = bytes := by
  apply List.ext_getElem (by rw [toLeBytes_length, h])
  intro k h1 h2
  apply BitVec.eq_of_getLsbD_eq
  intro r hr
  have := toLeBytes_bit n (fromLeBytes n bytes) k r (by omega) hr
  rw [List.getD_eq_getElem?_getD, List.getElem?_eq_getElem h1, Option.getD_some] at this
  rw [this, fromLeBytes_bit n _ _ (by omega), show (8 * k + r) / 8 = k by omega,
    show (8 * k + r) % 8 = r by omega, List.getD_eq_getElem?_getD, List.getElem?_eq_getElem h2,
    Option.getD_some]

/-- C50: a byte list is the binary number with the first byte lowest. -/
theorem le_bytes_value (n : Nat) (v : BitVec (8 * n)) (k : Nat) (hk : k < n) :
    ((toLeBytes n v).getD k 0).toNat = v.toNat / 256 ^ k % 256 := by
  simp [toLeBytes, List.getD_eq_getElem?_getD, List.getElem?_range hk, Nat.shiftRight_eq_div_pow,
    Nat.pow_mul]

/-- C50: `from_block` takes exactly the low bits of the block, for every ring the macro
instantiates (1, 2, 4, 8 or 16 bytes). -/
theorem fromBlock_spec (n : Nat) (hn : n ≤ 16) (b : BitVec (8 * 16)) :
    fromBlock n b = some (BitVec.ofNat (8 * n) (b.toNat % 2 ^ (8 * n))) := by
  rw [fromBlock, if_pos hn]
  congr 1
  apply BitVec.eq_of_getLsbD_eq
  intro j hj
  rw [fromLeBytes_bit n _ j hj]
  have e : (List.take n (toLeBytes 16 b)).getD (j / 8) 0 = (toLeBytes 16 b).getD (j / 8) 0 := by
    rw [List.getD_eq_getElem?_getD, List.getD_eq_getElem?_getD, List.getElem?_take, if_pos (by omega)]
  rw [e, toLeBytes_bit 16 b _ _ (by omega) (by omega), Nat.div_add_mod]
  simp [BitVec.getLsbD_ofNat, hj, Nat.testBit_mod_two_pow, BitVec.getLsbD]

/-- C50: the two halves of a block. -/
theorem blockHalves_spec (b : BitVec (8 * 16)) :
    (blockHalves b).1.toNat = b.toNat % 2 ^ 64 ∧ (blockHalves b).2.toNat = b.toNat / 2 ^ 64 := by
  constructor
  · apply Nat.eq_of_testBit_eq
    intro j
    by_cases hj : j < 64
    · have h := fromLeBytes_bit 8 ((toLeBytes 16 b).take 8) j hj
      have e : (List.take 8 (toLeBytes 16 b)).getD (j / 8) 0 = (toLeBytes 16 b).getD (j / 8) 0 := by
        rw [List.getD_eq_getElem?_getD, List.getD_eq_getElem?_getD, List.getElem?_take,
          if_pos (by omega)]
      rw [e, toLeBytes_bit 16 b _ _ (by omega) (by omega), Nat.div_add_mod] at h
      rw [Nat.testBit_mod_two_pow]
      simp only [hj, decide_true, Bool.true_and]
      exact h
    · rw [Nat.testBit_mod_two_pow]
      simp only [hj, decide_false, Bool.false_and]
      exact BitVec.getLsbD_of_ge (blockHalves b).1 j (by omega)
  · apply Nat.eq_of_testBit_eq
    intro j
    rw [Nat.testBit_div_two_pow]
    by_cases hj : j < 64
    · have h := fromLeBytes_bit 8 ((toLeBytes 16 b).drop 8) j hj
      have e : (List.drop 8 (toLeBytes 16 b)).getD (j / 8) 0 = (toLeBytes 16 b).getD (j / 8 + 8) 0 := by
        rw [List.getD_eq_getElem?_getD, List.getD_eq_getElem?_getD, List.getElem?_drop, Nat.add_comm]
      rw [e, toLeBytes_bit 16 b _ _ (by omega) (by omega),
        show 8 * (j / 8 + 8) + j % 8 = j + 64 by omega] at h
      exact h
    · have h1 : (blockHalves b).2.getLsbD j = false := BitVec.getLsbD_of_ge (blockHalves b).2 j (by omega)
      have h2 : b.getLsbD (j + 64) = false := BitVec.getLsbD_of_ge b (j + 64) (by omega)
      exact h1.trans h2.symm

/-- C50: `get_bit` reads the binary digit. -/
theorem getBit_spec {w : Nat} (v : BitVec w) (idx : Nat) (h : idx < w) :
    getBit v idx = some (decide (v.toNat / 2 ^ idx % 2 = 1)) := by
  rw [getBit, if_pos h]
  congr 1
  rw [← Nat.testBit_eq_decide_div_mod_eq, ← BitVec.getLsbD]
  cases hb : v.getLsbD idx
  · rw [bne_eq_false_iff_eq]
    apply BitVec.eq_of_getLsbD_eq
    intro j hj
    by_cases e : j = idx
    · subst e; simp [hb]
    · simp only [BitVec.getLsbD_and, BitVec.getLsbD_shiftLeft, BitVec.getLsbD_one, BitVec.getLsbD_zero]
      have : ¬ (j - idx = 0 ∧ ¬ j < idx) := by omega
      by_cases h1 : j < idx
      · simp [h1]
      · have h2 : j - idx ≠ 0 := by omega
        simp [h2]
  · rw [bne_iff_ne]
    intro e
    have := congrArg (fun x : BitVec w => x.getLsbD idx) e
    simp [h] at this
    rw [BitVec.getLsbD_eq_getElem h, this] at hb
    cases hb

/-! ### Logarithms -/

theorem leadingZeros_spec (w v : Nat) (h0 : 0 < v) (hv : v < 2 ^ w) :
    leadingZeros w v < w ∧ 2 ^ (w - leadingZeros w v - 1) ≤ v ∧ v < 2 ^ (w - leadingZeros w v) := by
  induction w with
  | zero => simp at hv; omega
  | succ w ih =>
    have e : leadingZeros (w + 1) v = if v.testBit w then 0 else leadingZeros w v + 1 := by
      simp only [leadingZeros, List.range_succ, List.reverse_append, List.reverse_cons, List.reverse_nil,
        List.nil_append, List.singleton_append, List.takeWhile_cons]
      cases v.testBit w <;> simp
    by_cases h : v < 2 ^ w
    · obtain ⟨h1, h2, h3⟩ := ih h
      have hb : v.testBit w = false := Nat.testBit_lt_two_pow h
      rw [e, hb]
      simp only [Bool.false_eq_true, if_false]
      refine ⟨by omega, ?_, ?_⟩
      · rwa [show w + 1 - (leadingZeros w v + 1) - 1 = w - leadingZeros w v - 1 by omega]
      · rwa [show w + 1 - (leadingZeros w v + 1) = w - leadingZeros w v by omega]
    · have hb : v.testBit w = true := by
        rw [Nat.testBit_eq_decide_div_mod_eq, decide_eq_true_eq]
        have h1 : v / 2 ^ w < 2 := by
          apply Nat.div_lt_of_lt_mul; rwa [← Nat.pow_succ]
        have h2 : 1 ≤ v / 2 ^ w := (Nat.one_le_div_iff (Nat.two_pow_pos w)).2 (by omega)
        omega
      rw [e, hb]
      simp only [if_true]
      refine ⟨by omega, ?_, hv⟩
      simp only [Nat.sub_zero, Nat.add_sub_cancel]
      omega

/-- C50: `log2_floor` brackets its argument, for every word size and every argument that fits. -/
theorem log2Floor_spec (w v : Nat) (h0 : 0 < v) (hv : v < 2 ^ w) :
    ∃ k, log2Floor w v = some k ∧ k < w ∧ 2 ^ k ≤ v ∧ v < 2 ^ (k + 1) := by
  obtain ⟨h1, h2, h3⟩ := leadingZeros_spec w v h0 hv
  refine ⟨_, if_pos h0, by omega, h2, ?_⟩
  rwa [show w - leadingZeros w v - 1 + 1 = w - leadingZeros w v by omega]

/-- C50: `log2_ceil` is the least exponent whose power is at least the argument. -/
theorem log2Ceil_spec (w v : Nat) (h0 : 0 < v) (hv : v < 2 ^ w) :
    ∃ k, log2Ceil w v = some k ∧ v ≤ 2 ^ k ∧ ∀ j, v ≤ 2 ^ j → k ≤ j := by
  obtain ⟨f, h1, h2, h3, h4⟩ := log2Floor_spec w v h0 hv
  refine ⟨if v > 1 <<< f then f + 1 else f, by simp [log2Ceil, h1], ?_⟩
  rw [Nat.one_shiftLeft]
  split
  · refine ⟨by omega, fun j hj => ?_⟩
    by_contra hlt
    have : 2 ^ j ≤ 2 ^ f := Nat.pow_le_pow_right (by omega) (by omega)
    omega
  · refine ⟨by omega, fun j hj => ?_⟩
    by_contra hlt
    have : 2 ^ j < 2 ^ f := Nat.pow_lt_pow_right (by omega) (by omega)
    omega

theorem log2_zero_panics (w : Nat) : log2Floor w 0 = none ∧ log2Ceil w 0 = none := ⟨rfl, rfl⟩

example : log2Floor 64 (2 ^ 24 + 42) = some 24 ∧ log2Ceil 64 (2 ^ 24 + 42) = some 25 ∧
    log2Ceil 64 (2 ^ 24) = some 24 := by decide +kernel

example : toLeBytes 4 0x01020304#32 = [4#8, 3#8, 2#8, 1#8] := by decide +kernel

example : fromBlock 2 0x0102030405060708#128 = some 0x0708#16 := by decide +kernel

end Verif.Util
