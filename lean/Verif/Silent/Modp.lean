import Verif.Silent.Compress

/-!
Reduction modulo `x^p - 1` and the quasi cyclic code (C34, C33): zappot/src/silent_ot/quasi_cyclic_encode.rs.
-/
set_option autoImplicit false

namespace Verif.Silent

/-- Bit `k` of a slice of blocks (`BitSlice<_, Lsb0>` view); bits outside are false. -/
def bitOf (l : List Block) (k : Nat) : Bool := (l.getD (k / 128) 0).getLsbD (k % 128)

/-- The slice of `n` blocks with the given bits. -/
def ofBits (n : Nat) (f : Nat → Bool) : List Block :=
  (List.range n).map fun i => BitVec.ofFnLE fun r : Fin 128 => f (128 * i + r)

/-- quasi_cyclic_encode.rs:287-302 `bit_shift_xor`.  `checked` says whether overflow checks are
compiled in: shifting a `u128` by 128 panics then, otherwise the shift amount is taken modulo 128. -/
def bitShiftXor (checked : Bool) (dest inp : List Block) (shift : Nat) : Option (List Block) :=
  if 127 < shift ∨ inp = [] then none
  else if checked ∧ shift = 0 ∧ 0 < min dest.length (inp.length - 1) then none
  else
    let dest := dest.mapIdx fun i d =>
      if i < inp.length - 1 then
        d ^^^ ((inp.getD i 0 >>> shift) ||| (inp.getD (i + 1) 0 <<< ((128 - shift) % 128)))
      else d
    some (if dest.length ≥ inp.length then
      dest.modify (inp.length - 1) (· ^^^ (inp.getD (inp.length - 1) 0 >>> shift)) else dest)

/-- quasi_cyclic_encode.rs:247-285 `modp`.  The byte operations (256-260, 273-284) are written on
bits.  `none` is a panic. -/
def modp (checked : Bool) (dest inp : List Block) (p : Nat) : Option (List Block) :=
  let pBlocks := (p + 127) / 128
  let pBytes := (p + 7) / 8
  if p = 0 ∨ dest.length < pBlocks ∨ inp.length < pBlocks then none
  else do
    let count := (inp.length * 128 + p - 1) / p
    let dest0 := ofBits dest.length fun k => if k < 8 * pBytes then bitOf inp k else bitOf dest k
    let dest1 ← (List.range' 1 (count - 1)).foldlM (fun d i =>
      let beginBlock := i * p / 128
      let endBlock := (min (i * p + p) (inp.length * 128) + 127) / 128
      if inp.length < endBlock then none
      else bitShiftXor checked d ((inp.take endBlock).drop beginBlock) (i * p % 128)) dest0
    some (ofBits dest.length fun k =>
      if p % 8 ≠ 0 ∧ k / 8 = p / 8 then bitOf dest1 k && decide (k % 8 < p % 8)
      else if 8 * pBytes ≤ k then false
      else bitOf dest1 k)

/-- XOR of `f` over a list of indices. -/
def parity (l : List Nat) (f : Nat → Bool) : Bool := l.foldr (fun n b => f n ^^ b) false

/-! ### Bits -/

theorem ofBits_bit (n : Nat) (f : Nat → Bool) (k : Nat) :
    bitOf (ofBits n f) k = (decide (k < 128 * n) && f k) := by
  unfold bitOf ofBits
  by_cases h : k < 128 * n
  · have h1 : k / 128 < n := by omega
    rw [List.getD_eq_getElem?_getD, List.getElem?_map, List.getElem?_range h1, Option.map_some,
      Option.getD_some, BitVec.getLsbD_ofFnLE]
    have h2 : k % 128 < 128 := Nat.mod_lt _ (by omega)
    simp only [h2, dif_pos, Nat.div_add_mod, h, decide_true, Bool.true_and]
  · have h1 : ¬ k / 128 < n := by omega
    rw [List.getD_eq_getElem?_getD, List.getElem?_map, List.getElem?_eq_none (by simp; omega)]
    simp [h]

theorem bitOf_ge (l : List Block) (k : Nat) (h : 128 * l.length ≤ k) : bitOf l k = false := by
  unfold bitOf
  rw [List.getD_eq_getElem?_getD, List.getElem?_eq_none (by omega)]
  simp

theorem bitOf_slice (l : List Block) (a b k : Nat) :
    bitOf ((l.take b).drop a) k = (decide (128 * a + k < 128 * b) && bitOf l (128 * a + k)) := by
  unfold bitOf
  rw [List.getD_eq_getElem?_getD, List.getD_eq_getElem?_getD, List.getElem?_drop, List.getElem?_take]
  have e1 : (128 * a + k) / 128 = a + k / 128 := by omega
  have e2 : (128 * a + k) % 128 = k % 128 := by omega
  rw [e1, e2]
  by_cases h : a + k / 128 < b
  · have : 128 * a + k < 128 * b := by omega
    simp [h, this]
  · have : ¬ 128 * a + k < 128 * b := by omega
    simp [h, this]

theorem bitShiftXor_spec (checked : Bool) (dest inp : List Block) (s : Nat) (h0 : 0 < s) (hs : s < 128)
    (hi : inp ≠ []) :
    ∃ d, bitShiftXor checked dest inp s = some d ∧ d.length = dest.length ∧
      ∀ k < 128 * dest.length, bitOf d k = (bitOf dest k ^^ bitOf inp (k + s)) := by
  have hlen : 0 < inp.length := List.length_pos_iff.2 hi
  refine ⟨_, by
    rw [bitShiftXor, if_neg (by rintro (h | h) <;> [omega; exact hi h]), if_neg (by omega)], ?_, ?_⟩
  · split <;> simp
  · intro k hk
    have hk1 : k / 128 < dest.length := by omega
    rw [Nat.mod_eq_of_lt (show 128 - s < 128 by omega)]
    set d1 := dest.mapIdx fun i d =>
      if i < inp.length - 1 then
        d ^^^ ((inp.getD i 0 >>> s) ||| (inp.getD (i + 1) 0 <<< (128 - s)))
      else d with hd1
    have hl1 : d1.length = dest.length := by rw [hd1]; simp
    have hb1 : d1[k / 128]? = some (if k / 128 < inp.length - 1 then
        dest[k / 128] ^^^ ((inp.getD (k / 128) 0 >>> s) ||| (inp.getD (k / 128 + 1) 0 <<< (128 - s)))
        else dest[k / 128]) := by
      rw [hd1, List.getElem?_mapIdx, List.getElem?_eq_getElem hk1]; rfl
    have hdk : bitOf dest k = dest[k / 128].getLsbD (k % 128) := by
      unfold bitOf
      rw [List.getD_eq_getElem?_getD, List.getElem?_eq_getElem hk1, Option.getD_some]
    have hr : k % 128 < 128 := Nat.mod_lt _ (by omega)
    have hin : bitOf inp (k + s) = if k % 128 + s < 128 then (inp.getD (k / 128) 0).getLsbD (s + k % 128)
        else (inp.getD (k / 128 + 1) 0).getLsbD (k % 128 - (128 - s)) := by
      unfold bitOf
      split
      · rw [show (k + s) / 128 = k / 128 by omega, show (k + s) % 128 = s + k % 128 by omega]
      · rw [show (k + s) / 128 = k / 128 + 1 by omega,
          show (k + s) % 128 = k % 128 - (128 - s) by omega]
    by_cases hlast : dest.length ≥ inp.length ∧ k / 128 = inp.length - 1
    · rw [if_pos (by omega)]
      have : bitOf (d1.modify (inp.length - 1) (· ^^^ (inp.getD (inp.length - 1) 0 >>> s))) k =
          (dest[k / 128] ^^^ (inp.getD (inp.length - 1) 0 >>> s)).getLsbD (k % 128) := by
        conv_lhs => unfold bitOf
        rw [List.getD_eq_getElem?_getD, List.getElem?_modify, hb1, if_neg (by omega)]
        simp only [if_pos hlast.2.symm]
        rfl
      rw [this, BitVec.getLsbD_xor, BitVec.getLsbD_ushiftRight, hdk, hin, ← hlast.2]
      congr 1
      split
      · rfl
      · rw [BitVec.getLsbD_of_ge _ _ (by omega)]
        rw [List.getD_eq_getElem?_getD, List.getElem?_eq_none (by omega)]
        simp
    · have hd : bitOf (if d1.length ≥ inp.length then
          d1.modify (inp.length - 1) (· ^^^ (inp.getD (inp.length - 1) 0 >>> s)) else d1) k =
          bitOf d1 k := by
        split
        · unfold bitOf
          have hne : ¬ inp.length - 1 = k / 128 := by omega
          rw [List.getD_eq_getElem?_getD, List.getElem?_modify]
          simp only [if_neg hne, id_map']
          rw [← List.getD_eq_getElem?_getD]
        · rfl
      rw [hd, hdk, hin]
      unfold bitOf
      rw [List.getD_eq_getElem?_getD, hb1, Option.getD_some]
      by_cases hlt : k / 128 < inp.length - 1
      · rw [if_pos hlt, BitVec.getLsbD_xor, BitVec.getLsbD_or, BitVec.getLsbD_ushiftRight,
          BitVec.getLsbD_shiftLeft]
        congr 1
        split
        · rename_i h
          have : k % 128 < 128 - s := by omega
          simp [this]
        · rename_i h
          have : ¬ k % 128 < 128 - s := by omega
          rw [BitVec.getLsbD_of_ge _ (s + k % 128) (by omega)]
          simp [this, hr]
      · rw [if_neg hlt]
        have : inp.length ≤ k / 128 := by omega
        rw [List.getD_eq_getElem?_getD, List.getD_eq_getElem?_getD, List.getElem?_eq_none this,
          List.getElem?_eq_none (by omega)]
        simp

/-! ### The reduction -/

theorem parity_append (l l' : List Nat) (f : Nat → Bool) :
    parity (l ++ l') f = (parity l f ^^ parity l' f) := by
  induction l with
  | nil => simp [parity]
  | cons a l ih =>
    show (f a ^^ parity (l ++ l') f) = ((f a ^^ parity l f) ^^ parity l' f)
    rw [ih, Bool.xor_assoc]

theorem parity_false (l : List Nat) (f : Nat → Bool) (h : ∀ n ∈ l, f n = false) : parity l f = false := by
  induction l with
  | nil => rfl
  | cons a l ih =>
    show (f a ^^ parity l f) = false
    rw [h a (List.mem_cons_self ..), ih fun n hn => h n (List.mem_cons_of_mem _ hn)]; rfl

theorem range_filter_residue (p j : Nat) (hj : j < p) (m : Nat) :
    (List.range (m * p)).filter (fun n => decide (n % p = j)) = (List.range m).map (fun i => i * p + j) := by
  induction m with
  | zero => simp
  | succ m ih =>
    rw [Nat.succ_mul, List.range_add, List.filter_append, ih, List.range_succ, List.map_append]
    congr 1
    rw [List.filter_map]
    have : ((fun n => decide (n % p = j)) ∘ fun x => m * p + x) = fun x => decide (x % p = j) := by
      funext x
      simp only [Function.comp, Nat.mul_comm m p, Nat.mul_add_mod]
    rw [this]
    have h2 : (List.range p).filter (fun x => decide (x % p = j)) = [j] := by
      have h3 : (List.range p).filter (fun x => decide (x % p = j)) =
          (List.range p).filter (fun x => x == j) := by
        apply List.filter_congr
        intro x hx
        rw [Nat.mod_eq_of_lt (List.mem_range.1 hx)]
        rfl
      rw [h3, List.filter_beq, List.count_range]
      simp [hj]
    rw [h2]; rfl

theorem parity_residue (inp : List Block) (p j : Nat) (hj : j < p) (m : Nat)
    (hm : 128 * inp.length ≤ m * p) :
    parity ((List.range (128 * inp.length)).filter fun n => decide (n % p = j)) (bitOf inp) =
      parity (List.range m) fun i => bitOf inp (i * p + j) := by
  have h1 : parity ((List.range (m * p)).filter fun n => decide (n % p = j)) (bitOf inp) =
      parity ((List.range (128 * inp.length)).filter fun n => decide (n % p = j)) (bitOf inp) := by
    obtain ⟨e, he⟩ : ∃ e, m * p = 128 * inp.length + e := ⟨m * p - 128 * inp.length, by omega⟩
    rw [he, List.range_add, List.filter_append, parity_append]
    rw [parity_false (List.filter _ (List.map _ _))]
    · simp
    · intro n hn
      obtain ⟨hn, -⟩ := List.mem_filter.1 hn
      obtain ⟨x, -, rfl⟩ := List.mem_map.1 hn
      exact bitOf_ge _ _ (by omega)
  rw [← h1, range_filter_residue p j hj, parity, List.foldr_map]
  rfl

/-- C34.  For every input, every `p` for which no multiple below the input length is a multiple of
128, and every destination long enough: `modp` succeeds, and bit `j` of the result is the XOR of all
input bits whose index is `j` modulo `p` for `j < p`, and zero from `p` on. -/
theorem modp_spec_partial (checked : Bool) (dest inp : List Block) (p : Nat) (hp : 0 < p)
    (hd : (p + 127) / 128 ≤ dest.length) (hi : (p + 127) / 128 ≤ inp.length)
    (hshift : ∀ i, 0 < i → i * p < 128 * inp.length → i * p % 128 ≠ 0) :
    ∃ d, modp checked dest inp p = some d ∧ d.length = dest.length ∧ ∀ j, bitOf d j =
      (decide (j < p) &&
        parity ((List.range (128 * inp.length)).filter fun n => decide (n % p = j)) (bitOf inp)) := by
  set count := (inp.length * 128 + p - 1) / p with hcount
  have hc1 : inp.length * 128 ≤ count * p := by
    have := Nat.div_add_mod (inp.length * 128 + p - 1) p
    have h2 := Nat.mod_lt (inp.length * 128 + p - 1) hp
    rw [← hcount, Nat.mul_comm] at this
    omega
  have hc2 : ∀ i < count, i * p < inp.length * 128 := by
    intro i h
    have h3 : (i + 1) * p ≤ count * p := Nat.mul_le_mul_right _ h
    have := Nat.div_mul_le_self (inp.length * 128 + p - 1) p
    rw [← hcount] at this
    rw [Nat.succ_mul] at h3
    omega
  have hcpos : 0 < count := by
    rcases Nat.eq_zero_or_pos count with h | h
    · rw [h] at hc1; omega
    · exact h
  -- the loop
  have loop : ∀ m, m ≤ count - 1 → ∀ d0 : List Block, d0.length = dest.length →
      ∃ d, (List.range' 1 m).foldlM (fun d i =>
        let beginBlock := i * p / 128
        let endBlock := (min (i * p + p) (inp.length * 128) + 127) / 128
        if inp.length < endBlock then none
        else bitShiftXor checked d ((inp.take endBlock).drop beginBlock) (i * p % 128)) d0 = some d ∧
        d.length = dest.length ∧
        ∀ j < p, bitOf d j = (bitOf d0 j ^^ parity ((List.range' 1 m)) fun i => bitOf inp (i * p + j)) := by
    intro m
    induction m with
    | zero => intro _ d0 h0; exact ⟨d0, rfl, h0, by intro j _; simp [parity]⟩
    | succ m ih =>
      intro hm d0 h0
      obtain ⟨d, h1, h2, h3⟩ := ih (by omega) d0 h0
      have hb := hc2 (1 + m) (by omega)
      set b := (1 + m) * p with hbdef
      have hbe : b / 128 < (min (b + p) (inp.length * 128) + 127) / 128 := by omega
      obtain ⟨d', h4, h5, h6⟩ := bitShiftXor_spec checked d
        ((inp.take ((min (b + p) (inp.length * 128) + 127) / 128)).drop (b / 128)) (b % 128)
        (by have := hshift (1 + m) (by omega) (by rw [← hbdef]; omega); rw [← hbdef] at this; omega)
        (Nat.mod_lt _ (by omega))
        (by
          intro h
          have := congrArg List.length h
          simp at this
          omega)
      refine ⟨d', ?_, by rw [h5, h2], ?_⟩
      · rw [List.range'_1_concat, List.foldlM_append, h1]
        simp only [Option.bind_eq_bind, Option.bind_some, List.foldlM_cons, List.foldlM_nil]
        rw [← hbdef, if_neg (by omega), h4]
        rfl
      · intro j hj
        rw [h6 j (by omega), h3 j hj, List.range'_1_concat, parity_append, bitOf_slice]
        rw [show 128 * (b / 128) + (j + b % 128) = b + j by omega]
        have : parity [1 + m] (fun i => bitOf inp (i * p + j)) = bitOf inp (b + j) := by
          simp [parity, hbdef]
        rw [this, Bool.xor_assoc]
        congr 2
        by_cases h : b + j < 128 * inp.length
        · have : b + j < 128 * ((min (b + p) (inp.length * 128) + 127) / 128) := by omega
          simp [this]
        · rw [bitOf_ge inp _ (by omega)]; simp
  obtain ⟨d, h1, h2, h3⟩ := loop (count - 1) (Nat.le_refl _)
    (ofBits dest.length fun k => if k < 8 * ((p + 7) / 8) then bitOf inp k else bitOf dest k)
    (by simp [ofBits])
  refine ⟨ofBits dest.length fun k =>
      if p % 8 ≠ 0 ∧ k / 8 = p / 8 then bitOf d k && decide (k % 8 < p % 8)
      else if 8 * ((p + 7) / 8) ≤ k then false
      else bitOf d k, ?_, ?_, ?_⟩
  · simp only [modp]
    rw [if_neg (by omega), ← hcount, h1]
    rfl
  · simp [ofBits]
  · intro j
    rw [ofBits_bit]
    by_cases hj : j < p
    · rw [parity_residue inp p j hj count (by omega)]
      have hfin : bitOf d j = parity (List.range count) fun i => bitOf inp (i * p + j) := by
        rw [h3 j hj, ofBits_bit, if_pos (by omega)]
        have e : List.range count = 0 :: List.range' 1 (count - 1) := by
          rw [List.range_eq_range', show count = (count - 1) + 1 by omega, List.range'_succ]
          simp
        rw [e]
        show _ = (bitOf inp (0 * p + j) ^^ _)
        have : j < 128 * dest.length := by omega
        simp [this]
        rfl
      rw [← hfin]
      have h128 : j < 128 * dest.length := by omega
      simp only [h128, hj, decide_true, Bool.true_and]
      split
      · rename_i h
        have : j % 8 < p % 8 := by omega
        simp [this]
      · rw [if_neg (by omega)]
    · simp only [hj, decide_false, Bool.false_and, Bool.and_eq_false_imp]
      intro _
      split
      · rename_i h
        have : ¬ j % 8 < p % 8 := by omega
        simp [this]
      · rw [if_pos (by omega)]

end Verif.Silent
