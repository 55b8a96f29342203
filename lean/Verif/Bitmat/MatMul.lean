import Verif.Bitmat.Transpose
import Mathlib.Data.List.Induction

/-!
Multiplication of bit matrices.
-/
set_option autoImplicit false

namespace Verif.Bitmat

/-- Specification: the sum over GF(2) of the first `n` values. -/
def xorUpTo (f : Nat → Bool) : Nat → Bool
  | 0 => false
  | n + 1 => xor (xorUpTo f n) (f n)

theorem xorUpTo_congr {f g : Nat → Bool} {n : Nat} (h : ∀ t, t < n → f t = g t) :
    xorUpTo f n = xorUpTo g n := by
  induction n with
  | zero => rfl
  | succ n ih => rw [xorUpTo, xorUpTo, ih fun t ht => h t (by omega), h n (by omega)]

theorem reduceXor_eq (z : List Bool) (hz : z ≠ []) :
    reduceXor z = some (xorUpTo (fun t => (z[t]?).getD false) z.length) := by
  induction z using List.reverseRecOn with
  | nil => exact absurd rfl hz
  | append_singleton l x ih =>
    rw [List.length_append, List.length_singleton, xorUpTo]
    have e : xorUpTo (fun t => ((l ++ [x])[t]?).getD false) l.length =
        xorUpTo (fun t => (l[t]?).getD false) l.length :=
      xorUpTo_congr fun t ht => by beta_reduce; rw [List.getElem?_append_left ht]
    rw [e]
    cases l with
    | nil => simp [reduceXor, xorUpTo]
    | cons a l =>
      have := ih (by simp)
      simp only [reduceXor, Option.some.injEq] at this
      simp only [List.cons_append, reduceXor, List.foldl_append, List.foldl_cons, List.foldl_nil, this]
      simp

theorem dotp_eq (l r : List Bool) (n : Nat) (hl : l.length = n) (hr : r.length = n) (hn : 0 < n) :
    dotp l r = some (xorUpTo (fun t => (l[t]?).getD false && (r[t]?).getD false) n) := by
  rw [dotp, reduceXor_eq]
  · congr 1
    rw [List.length_zipWith, hl, hr, Nat.min_self]
    refine xorUpTo_congr fun t ht => ?_
    rw [List.getElem?_zipWith, List.getElem?_eq_getElem (by omega : t < l.length),
      List.getElem?_eq_getElem (by omega : t < r.length)]
    rfl
  · intro h
    have := congrArg List.length h
    simp [hl, hr] at this
    omega

theorem flatten_range_length {α : Type} (f : Nat → Nat → α) (N L : Nat) :
    ((List.range N).map fun i => (List.range L).map fun j => f i j).flatten.length = N * L := by
  induction N with
  | zero => simp
  | succ N ih => rw [List.range_succ]; simp only [List.map_append, List.flatten_append,
      List.length_append, ih]; simp; ring

theorem flatten_range_get {α : Type} (f : Nat → Nat → α) (N L i j : Nat) (hi : i < N) (hj : j < L) :
    ((List.range N).map fun i => (List.range L).map fun j => f i j).flatten[i * L + j]? =
      some (f i j) := by
  induction N with
  | zero => omega
  | succ N ih =>
    rw [List.range_succ]
    simp only [List.map_append, List.flatten_append]
    rcases Nat.lt_succ_iff_lt_or_eq.mp hi with h | h
    · rw [List.getElem?_append_left (by rw [flatten_range_length]; exact idx_lt h hj)]
      exact ih h
    · subst h
      rw [List.getElem?_append_right (by rw [flatten_range_length]; omega), flatten_range_length]
      simp [hj]

theorem mapM_map_some {α β : Type} (l : List α) (f : α → Option β) (g : α → β)
    (h : ∀ x ∈ l, f x = some (g x)) : l.mapM f = some (l.map g) := by
  induction l with
  | nil => rfl
  | cons a l ih =>
    rw [List.mapM_cons, h a (by simp), ih fun x hx => h x (by simp [hx])]
    rfl

/-- The rows that the iterator returns: as many as fit into the storage. -/
theorem iterRows_eq (m : BitMatrix) (hc : 0 < m.cols) :
    iterRows m = some ((List.range (m.data.length / m.cols)).map fun i =>
      (m.data.drop (i * m.cols)).take m.cols) := by
  rw [iterRows, if_neg (by omega)]
  refine mapM_some_range _ _ _ fun i hi => ?_
  rw [row, if_pos]
  exact (Nat.le_div_iff_mul_le hc).mp hi

theorem row_length {m : BitMatrix} (hc : 0 < m.cols) {i : Nat} (hi : i < m.data.length / m.cols) :
    ((m.data.drop (i * m.cols)).take m.cols).length = m.cols := by
  have := (Nat.le_div_iff_mul_le hc).mp hi
  rw [Nat.succ_mul] at this
  rw [List.length_take, List.length_drop]; omega

theorem row_get {m : BitMatrix} {i t : Nat} (ht : t < m.cols) :
    (((m.data.drop (i * m.cols)).take m.cols)[t]?).getD false = m.get i t := by
  rw [List.getElem?_take_of_lt ht, List.getElem?_drop]; rfl

/-- The specification of the product. -/
def IsProduct (a b m : BitMatrix) : Prop :=
  m.rows = a.rows ∧ m.cols = b.cols ∧
  ∀ i j, i < a.rows → j < b.cols →
    m.get i j = xorUpTo (fun t => a.get i t && b.get t j) a.cols

/-- C44: `mat_mul` gives the product over GF(2): the left operand may have padding after its rows,
the right one must fill its storage.  The result has the product followed by padding.  Without
columns in the left operand there is no result. -/
theorem mat_mul_correct_partial (bits : Nat) (a b : BitMatrix) (hb : b.Valid)
    (ha : a.rows * a.cols ≤ a.data.length) (hd : a.cols = b.rows) (hc : 0 < a.cols) :
    ∃ m : BitMatrix, matMul bits a b = some m ∧ IsProduct a b m ∧
      m.data.length =
        (padWords bits (List.replicate (a.data.length / a.cols * b.cols) false)).length := by
  obtain ⟨bt, h1, h2, h3, h4, h5⟩ := transpose_correct b hb
  have hbtc : 0 < bt.cols := by omega
  have hbtl : bt.data.length / bt.cols = b.cols := by
    have h4' : bt.rows * bt.cols = bt.data.length := h4
    rw [← h4', h2, Nat.mul_div_cancel _ hbtc]
  have hrs : ((List.range (a.data.length / a.cols)).map fun i =>
        (a.data.drop (i * a.cols)).take a.cols).mapM (fun l =>
      ((List.range (bt.data.length / bt.cols)).map fun i =>
        (bt.data.drop (i * bt.cols)).take bt.cols).mapM fun r => dotp l r)
      = some ((List.range (a.data.length / a.cols)).map fun i =>
          (List.range b.cols).map fun j =>
            xorUpTo (fun t => a.get i t && bt.get j t) a.cols) := by
    rw [mapM_map_some _ _ (fun l => ((List.range b.cols).map fun j =>
      xorUpTo (fun t => (l[t]?).getD false && bt.get j t) a.cols))]
    · congr 1
      rw [List.map_map]
      refine List.map_congr_left fun i hi => ?_
      refine List.map_congr_left fun j hj => ?_
      refine xorUpTo_congr fun t ht => ?_
      beta_reduce
      rw [row_get ht]
    · intro l hl
      obtain ⟨i, hi, rfl⟩ := List.mem_map.mp hl
      rw [hbtl, mapM_map_some _ _ (fun r => xorUpTo (fun t =>
        ((List.take a.cols (List.drop (i * a.cols) a.data))[t]?).getD false && (r[t]?).getD false)
          a.cols)]
      · congr 1
        rw [List.map_map]
        refine List.map_congr_left fun j hj => ?_
        refine xorUpTo_congr fun t ht => ?_
        rw [row_get (m := bt) (by omega)]
      · intro r hr
        obtain ⟨j, hj, rfl⟩ := List.mem_map.mp hr
        refine dotp_eq _ _ _ (row_length hc (List.mem_range.mp hi)) ?_ hc
        rw [row_length hbtc (by rw [hbtl]; exact List.mem_range.mp hj)]; omega
  refine ⟨⟨a.rows, bt.rows, padWords bits ((List.range (a.data.length / a.cols)).map fun i =>
          (List.range b.cols).map fun j =>
            xorUpTo (fun t => a.get i t && bt.get j t) a.cols).flatten⟩, ?_, ⟨rfl, h2, ?_⟩, ?_⟩
  · rw [matMul, if_pos hd, h1]
    simp only [Option.bind_eq_bind, Option.bind_some]
    rw [iterRows_eq a hc, iterRows_eq bt hbtc]
    simp only [Option.bind_some]
    rw [hrs]
    rfl
  · intro i j hi hj
    have hi' : i < a.data.length / a.cols :=
      lt_of_lt_of_le hi ((Nat.le_div_iff_mul_le hc).mpr ha)
    show ((padWords bits _)[i * bt.rows + j]?).getD false = _
    rw [h2, padWords, List.getElem?_append_left (by
      rw [flatten_range_length]; exact idx_lt hi' hj), flatten_range_get _ _ _ _ _ hi' hj]
    refine xorUpTo_congr fun t ht => ?_
    beta_reduce
    rw [h5 t j (by omega) hj]
  · simp only [padWords, List.length_append, flatten_range_length, List.length_replicate]

theorem padWords_length_eq_iff (bits : Nat) (hb : 0 < bits) (l : List Bool) :
    (padWords bits l).length = l.length ↔ bits ∣ l.length := by
  rw [padWords, List.length_append, List.length_replicate]
  have hm := Nat.mod_lt l.length hb
  constructor
  · intro h
    refine Nat.dvd_of_mod_eq_zero ?_
    by_contra hne
    rw [Nat.mod_eq_of_lt (by omega)] at h
    omega
  · intro h
    rw [Nat.mod_eq_zero_of_dvd h]; simp

/-- C44: the product of two matrices that fill their storage fills its storage, and can so be used
as either operand of a further multiplication, exactly if the number of its elements is a multiple
of the word size. -/
theorem mat_mul_valid_iff (bits : Nat) (hbits : 0 < bits) (a b : BitMatrix) (ha : a.Valid)
    (hb : b.Valid) (hd : a.cols = b.rows) (hc : 0 < a.cols) :
    ∃ m : BitMatrix, matMul bits a b = some m ∧ IsProduct a b m ∧
      (m.Valid ↔ bits ∣ a.rows * b.cols) := by
  have ha' : a.rows * a.cols = a.data.length := ha
  obtain ⟨m, h1, h2, h3⟩ := mat_mul_correct_partial bits a b hb (by omega) hd hc
  refine ⟨m, h1, h2, ?_⟩
  rw [← ha', Nat.mul_div_cancel _ hc] at h3
  have h4 := padWords_length_eq_iff bits hbits (List.replicate (a.rows * b.cols) false)
  rw [List.length_replicate] at h4
  rw [BitMatrix.Valid, h2.1, h2.2.1, h3, ← h4]
  exact eq_comm

/-- C44: three factors: with products that fill words the chain gives the product of all three. -/
theorem mat_mul_chain (bits : Nat) (hbits : 0 < bits) (a b c : BitMatrix) (ha : a.Valid)
    (hb : b.Valid) (hcv : c.Valid) (hab : a.cols = b.rows) (hbc : b.cols = c.rows)
    (h1 : 0 < a.cols) (h2 : 0 < b.cols) (hfill : bits ∣ b.rows * c.cols) :
    (∃ m n : BitMatrix, matMul bits a b = some m ∧ matMul bits m c = some n ∧
      IsProduct a b m ∧ IsProduct m c n) ∧
    (∃ m n : BitMatrix, matMul bits b c = some m ∧ matMul bits a m = some n ∧
      IsProduct b c m ∧ IsProduct a m n) := by
  constructor
  · have ha' : a.rows * a.cols = a.data.length := ha
    obtain ⟨m, g1, g2, g3⟩ := mat_mul_correct_partial bits a b hb (by omega) hab h1
    have hlen : m.rows * m.cols ≤ m.data.length := by
      rw [g3, g2.1, g2.2.1, ← ha', Nat.mul_div_cancel _ h1, padWords, List.length_append,
        List.length_replicate]
      omega
    obtain ⟨n, k1, k2, _⟩ := mat_mul_correct_partial bits m c hcv hlen (by rw [g2.2.1]; exact hbc)
      (by rw [g2.2.1]; exact h2)
    exact ⟨m, n, g1, k1, g2, k2⟩
  · obtain ⟨m, g1, g2, g3⟩ := mat_mul_valid_iff bits hbits b c hb hcv hbc h2
    have ha' : a.rows * a.cols = a.data.length := ha
    obtain ⟨n, k1, k2, _⟩ := mat_mul_correct_partial bits a m (g3.mpr hfill) (by omega)
      (by rw [g2.1]; exact hab) h1
    exact ⟨m, n, g1, k1, g2, k2⟩

/-- C44: a product that does not fill a word is refused as right operand. -/
theorem mat_mul_right_operand_panics (bits : Nat) (hbits : 0 < bits) (a b c : BitMatrix)
    (ha : a.Valid) (hb : b.Valid) (hd : a.cols = b.rows) (hc : 0 < a.cols)
    (hfill : ¬ bits ∣ a.rows * b.cols) :
    ∃ m : BitMatrix, matMul bits a b = some m ∧ matMul bits c m = none ∧ transpose m = none := by
  obtain ⟨m, h1, h2, h3⟩ := mat_mul_valid_iff bits hbits a b ha hb hd hc
  have ht : transpose m = none := transpose_invalid m fun h => hfill (h3.mp h)
  refine ⟨m, h1, ?_, ht⟩
  rw [matMul]
  split
  · rw [ht]; rfl
  · rfl

/-- C44: as left operand such a product gives rows that do not belong to the matrix: the storage of
the result is larger than its dimensions.  8 bit words, (1x8 * 8x1) * 1x8. -/
theorem mat_mul_left_operand_extra_rows :
    ∃ (a b c m n : BitMatrix), a.Valid ∧ b.Valid ∧ c.Valid ∧ matMul 8 a b = some m ∧
      matMul 8 m c = some n ∧ n.rows = 1 ∧ n.cols = 8 ∧ n.data.length = 64 :=
  ⟨⟨1, 8, List.replicate 8 true⟩, ⟨8, 1, List.replicate 8 true⟩, ⟨1, 8, List.replicate 8 true⟩,
    ⟨1, 1, List.replicate 8 false⟩, ⟨1, 8, List.replicate 64 false⟩, rfl, rfl, rfl,
    by decide +kernel, by decide +kernel, rfl, rfl, rfl⟩

/-- C44: the product over an empty inner dimension, the zero matrix, has no result. -/
theorem mat_mul_empty_inner (bits : Nat) (a b : BitMatrix) (hc : a.cols = 0) :
    matMul bits a b = none := by
  rw [matMul]
  split
  · cases transpose b with
    | none => rfl
    | some bt => simp [iterRows, hc]
  · rfl

/-- C44: the identity matrix is neutral. -/
theorem identity_get (bits n : Nat) (m : BitMatrix) (h : identity bits n = some m) :
    m.Valid ∧ m.rows = n ∧ m.cols = n ∧
      ∀ i j, i < n → j < n → m.get i j = decide (i = j) := by
  rw [identity] at h
  split at h
  · injection h with h
    subst h
    refine ⟨by simp [BitMatrix.Valid], rfl, rfl, fun i j hi hj => ?_⟩
    have hlt := idx_lt hi hj
    simp only [BitMatrix.get, List.getElem?_map, List.getElem?_range hlt, Option.map_some,
      Option.getD_some]
    congr 1
    refine propext ⟨fun h => ?_, fun h => ?_⟩
    · by_contra hne
      obtain ⟨q, hq⟩ := Nat.dvd_of_mod_eq_zero h
      -- i * n + j = (n + 1) * q with q ≤ i and j = q + (q - i) n
      have e : i * n + j = q * n + q := by rw [hq]; ring
      by_cases hqn : q < n
      · have := idx_inj hj hqn e; omega
      · have : n * n ≤ q * n := Nat.mul_le_mul_right _ (by omega)
        omega
    · subst h
      rw [show i * n + i = (n + 1) * i by ring]; exact Nat.mul_mod_right _ _
  · exact absurd h (by simp)

theorem xorUpTo_delta (f : Nat → Bool) (i n : Nat) (hi : i < n) :
    xorUpTo (fun t => decide (i = t) && f t) n = f i := by
  have h0 : ∀ k, k ≤ i → xorUpTo (fun t => decide (i = t) && f t) k = false := by
    intro k
    induction k with
    | zero => intro _; rfl
    | succ k ih => intro hk; rw [xorUpTo, ih (by omega)]; simp; omega
  have h1 : ∀ d, xorUpTo (fun t => decide (i = t) && f t) (i + 1 + d) = f i := by
    intro d
    induction d with
    | zero => rw [Nat.add_zero, xorUpTo, h0 i le_rfl]; simp
    | succ d ih => 
      rw [← Nat.add_assoc, xorUpTo, ih, decide_eq_false (by omega)]; simp
  obtain ⟨d, rfl⟩ : ∃ d, n = i + 1 + d := ⟨n - (i + 1), by omega⟩
  exact h1 d

theorem identity_mul (bits n : Nat) (e b : BitMatrix) (he : identity bits n = some e)
    (hb : b.Valid) (hd : b.rows = n) (hn : 0 < n) :
    ∃ m : BitMatrix, matMul bits e b = some m ∧ m.rows = b.rows ∧ m.cols = b.cols ∧
      ∀ i j, i < b.rows → j < b.cols → m.get i j = b.get i j := by
  obtain ⟨h1, h2, h3, h4⟩ := identity_get bits n e he
  have h1' : e.rows * e.cols = e.data.length := h1
  obtain ⟨m, g1, g2, _⟩ := mat_mul_correct_partial bits e b hb (by omega) (by omega) (by omega)
  refine ⟨m, g1, by rw [g2.1]; omega, g2.2.1, fun i j hi hj => ?_⟩
  rw [g2.2.2 i j (by omega) hj, h3, ← xorUpTo_delta (fun t => b.get t j) i n (by omega)]
  refine xorUpTo_congr fun t ht => ?_
  rw [h4 i t (by omega) ht]

/-- Element-wise operations. -/
theorem matXor_get (a b : BitMatrix) (ha : a.Valid) (hb : b.Valid) (hr : a.rows = b.rows)
    (hc : a.cols = b.cols) :
    ∃ m : BitMatrix, matXor a b = some m ∧ m.Valid ∧ m.rows = a.rows ∧ m.cols = a.cols ∧
      ∀ i j, i < a.rows → j < a.cols → m.get i j = xor (a.get i j) (b.get i j) := by
  have ha' : a.rows * a.cols = a.data.length := ha
  have hb' : b.rows * b.cols = b.data.length := hb
  have hl : a.data.length = b.data.length := by rw [← ha', ← hb', hr, hc]
  refine ⟨⟨a.rows, a.cols, List.zipWith xor a.data b.data ++ a.data.drop b.data.length⟩,
    by rw [matXor, if_pos ⟨hr, hc⟩], ?_, rfl, rfl, fun i j hi hj => ?_⟩
  · simp [BitMatrix.Valid, ha', hl]
  · have hlt : i * a.cols + j < a.data.length := by rw [← ha']; exact idx_lt hi hj
    simp only [BitMatrix.get]
    rw [List.getElem?_append_left (by simp; omega), List.getElem?_zipWith, ← hc,
      List.getElem?_eq_getElem hlt, List.getElem?_eq_getElem (by omega : i * a.cols + j < b.data.length)]
    rfl

theorem matNot_get (a : BitMatrix) (ha : a.Valid) :
    (matNot a).Valid ∧ ∀ i j, i < a.rows → j < a.cols → (matNot a).get i j = !(a.get i j) := by
  have ha' : a.rows * a.cols = a.data.length := ha
  refine ⟨by simp [BitMatrix.Valid, matNot, ha'], fun i j hi hj => ?_⟩
  have hlt : i * a.cols + j < a.data.length := by rw [← ha']; exact idx_lt hi hj
  simp only [BitMatrix.get, matNot]
  rw [List.getElem?_map, List.getElem?_eq_getElem hlt]
  rfl

/-- Example: a 2x4 times a 4x4 matrix in 8 bit words. -/
example : BitMatrix.Valid ⟨2, 4, [true, false, true, true, false, false, true, false]⟩ ∧
    matMul 8 ⟨2, 4, [true, false, true, true, false, false, true, false]⟩
      ⟨4, 4, [true, true, false, false, false, true, true, false,
        true, false, true, true, false, false, true, true]⟩ =
    some ⟨2, 4, [false, true, false, false, true, false, true, true]⟩ :=
  ⟨rfl, by decide +kernel⟩

end Verif.Bitmat
