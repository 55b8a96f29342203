import Verif.Bitmat.Model
import Mathlib.Tactic.Ring
import Mathlib.Tactic.IntervalCases

/-!
Transposition: the element at `(i, j)` moves to `(j, i)`, in the simple implementation and in the
blocked one, whose accesses all stay in bounds.
-/
set_option autoImplicit false

namespace Verif.Bitmat

/-- Specification: `output` is the transposed `rows` x `cols` matrix of `input`. -/
def IsTranspose (input output : List Bool) (rows cols : Nat) : Prop :=
  output.length = input.length ∧
  ∀ i j, i < rows → j < cols → output[j * rows + i]? = input[i * cols + j]?

/-! ### The simple implementation -/

theorem idx_lt {i j r c : Nat} (hi : i < r) (hj : j < c) : i * c + j < r * c := by
  have : (i + 1) * c ≤ r * c := Nat.mul_le_mul_right _ hi
  have e : (i + 1) * c = i * c + c := by ring
  omega

theorem idx_inj {i j i' j' c : Nat} (hj : j < c) (hj' : j' < c) (h : i * c + j = i' * c + j') :
    i = i' ∧ j = j' := by
  have h1 : (i * c + j) / c = i := by
    rw [Nat.mul_comm, Nat.mul_add_div (by omega), Nat.div_eq_of_lt hj]; omega
  have h2 : (i' * c + j') / c = i' := by
    rw [Nat.mul_comm, Nat.mul_add_div (by omega), Nat.div_eq_of_lt hj']; omega
  have : i = i' := by rw [← h1, ← h2, h]
  subst this; omega

/-- The inner loop over a row. -/
theorem simple_row (input : List Bool) (rows cols row : Nat) (hl : rows * cols = input.length)
    (hr : row < rows) (n : Nat) (hn : n ≤ cols) (out : List Bool)
    (ho : out.length = rows * cols) :
    ∃ out' : List Bool, (List.range n).foldlM (fun out col => do
        let bit ← input[row * cols + col]?
        if col * rows + row < rows * cols then some (out.set (col * rows + row) bit) else none) out
        = some out' ∧ out'.length = rows * cols ∧
      (∀ j, j < n → out'[j * rows + row]? = input[row * cols + j]?) ∧
      (∀ k : Nat, (∀ j, j < n → k ≠ j * rows + row) → out'[k]? = out[k]?) := by
  induction n with
  | zero => exact ⟨out, rfl, ho, by omega, fun k _ => rfl⟩
  | succ n ih =>
    obtain ⟨o, h1, h2, h3, h4⟩ := ih (by omega)
    have hb : row * cols + n < input.length := by rw [← hl]; exact idx_lt hr (by omega)
    have ht : n * rows + row < rows * cols := by
      have := idx_lt (i := n) (j := row) (r := cols) (c := rows) (by omega) hr
      rwa [Nat.mul_comm rows cols]
    rw [List.range_succ, List.foldlM_append]
    refine ⟨o.set (n * rows + row) (input[row * cols + n]'hb), ?_, by simpa using h2, ?_, ?_⟩
    · rw [h1]
      simp [List.foldlM, hb, ht]
    · intro j hj
      rcases Nat.lt_succ_iff_lt_or_eq.mp hj with h | h
      · rw [List.getElem?_set_ne, h3 j h]
        intro he
        have := (idx_inj hr hr he).1
        omega
      · subst h
        rw [List.getElem?_set_self (by omega), List.getElem?_eq_getElem hb]
    · intro k hk
      rw [List.getElem?_set_ne (hk n (by omega)).symm]
      exact h4 k fun j hj => hk j (by omega)

/-- C43 (simple implementation): every element moves to its transposed place. -/
theorem simple_transpose_correct (input : List Bool) (rows cols : Nat)
    (hl : rows * cols = input.length) :
    ∃ out : List Bool, simpleTranspose input rows cols = some out ∧
      IsTranspose input out rows cols := by
  have key : ∀ n, n ≤ rows → ∃ out : List Bool,
      (List.range n).foldlM (fun out row =>
        (List.range cols).foldlM (fun out col => do
          let bit ← input[row * cols + col]?
          if col * rows + row < rows * cols then some (out.set (col * rows + row) bit) else none)
          out) (List.replicate (rows * cols) false) = some out ∧ out.length = rows * cols ∧
      ∀ i j, i < n → j < cols → out[j * rows + i]? = input[i * cols + j]? := by
    intro n
    induction n with
    | zero => exact fun _ => ⟨_, rfl, by simp, by omega⟩
    | succ n ih =>
      intro hn
      obtain ⟨o, h1, h2, h3⟩ := ih (by omega)
      obtain ⟨o', g1, g2, g3, g4⟩ := simple_row input rows cols n hl (by omega) cols le_rfl o h2
      refine ⟨o', ?_, g2, ?_⟩
      · rw [List.range_succ, List.foldlM_append, h1]
        simpa [List.foldlM] using g1
      · intro i j hi hj
        rcases Nat.lt_succ_iff_lt_or_eq.mp hi with h | h
        · rw [g4 _ fun j' hj' he => ?_]
          · exact h3 i j h hj
          · have := (idx_inj (by omega) (by omega) he).2
            omega
        · subst h; exact g3 j hj
  obtain ⟨o, h1, h2, h3⟩ := key rows le_rfl
  refine ⟨o, ?_, by omega, h3⟩
  rw [simpleTranspose, if_pos hl]
  exact h1

/-- The specification determines the result. -/
theorem IsTranspose.unique {input o o' : List Bool} {rows cols : Nat}
    (hl : rows * cols = input.length)
    (h : IsTranspose input o rows cols) (h' : IsTranspose input o' rows cols) : o = o' := by
  refine List.ext_getElem? fun k => ?_
  by_cases hk : k < rows * cols
  · have hr : 0 < rows := Nat.pos_of_ne_zero (by rintro rfl; simp at hk)
    have hi : k % rows < rows := Nat.mod_lt _ hr
    have hj : k / rows < cols := by
      rw [Nat.div_lt_iff_lt_mul hr]; rwa [Nat.mul_comm cols rows]
    have e : k / rows * rows + k % rows = k := by rw [Nat.mul_comm]; exact Nat.div_add_mod k rows
    have a := h.2 _ _ hi hj
    have b := h'.2 _ _ hi hj
    rw [e] at a b
    rw [a, b]
  · rw [List.getElem?_eq_none (by have := h.1; omega), List.getElem?_eq_none (by have := h'.1; omega)]

/-- Transposing back. -/
theorem IsTranspose.symm {input o : List Bool} {rows cols : Nat}
    (h : IsTranspose input o rows cols) : IsTranspose o input cols rows :=
  ⟨h.1.symm, fun i j hi hj => (h.2 j i hj hi).symm⟩

/-! ### The blocked implementation -/

/-- The bit that belongs at output position `j`. -/
def want (input : List Bool) (R C j : Nat) : Bool :=
  (input[(j % (8 * R)) * (8 * C) + j / (8 * R)]?).getD false

/-- The bytes in `D` of the output are final. -/
def Done (input : List Bool) (R C : Nat) (D : Nat → Prop) (out : Nat → Bool) : Prop :=
  ∀ j, D (j / 8) → out j = want input R C j

theorem write_done {input : List Bool} {R C n : Nat} {D : Nat → Prop} {out : Nat → Bool}
    {y q : Nat} {h : Byte} (hd : Done input R C D out) (hq : q < R) (hb : y * R + q < n)
    (hh : ∀ k, k < 8 → h k = (input[(8 * q + k) * (8 * C) + y]?).getD false) :
    ∃ out' : Nat → Bool, writeByte n out (y * R + q) h = some out' ∧
      Done input R C (fun b => D b ∨ b = y * R + q) out' := by
  refine ⟨_, by rw [writeByte, if_pos hb], fun j hj => ?_⟩
  by_cases e : j / 8 = y * R + q
  · simp only [e, if_true]
    rw [hh _ (Nat.mod_lt _ (by omega)), want]
    have ej : j = y * (8 * R) + (8 * q + j % 8) := by
      have := Nat.div_add_mod j 8
      rw [e] at this
      have e2 : 8 * (y * R + q) = y * (8 * R) + 8 * q := by ring
      omega
    have hk : 8 * q + j % 8 < 8 * R := by have := Nat.mod_lt j (show 8 > 0 by omega); omega
    have e3 : j % (8 * R) = 8 * q + j % 8 := by
      conv_lhs => rw [ej]
      rw [Nat.mul_comm y, Nat.mul_add_mod, Nat.mod_eq_of_lt hk]
    have e4 : j / (8 * R) = y := by
      conv_lhs => rw [ej]
      rw [Nat.mul_comm y, Nat.mul_add_div (by omega), Nat.div_eq_of_lt hk]; omega
    rw [e3, e4]
  · simp only [e, if_false]
    exact hd j (by rcases hj with h | h; exacts [h, absurd h e])

theorem done_mono {input : List Bool} {R C : Nat} {D D' : Nat → Prop} {out : Nat → Bool}
    (h : Done input R C D out) (hs : ∀ b, D' b → D b) : Done input R C D' out :=
  fun j hj => h j (hs _ hj)

/-- After `s` shifts the top bit of a byte is its bit `7 - s`. -/
theorem slli_iter (v : Vec) (s : Nat) (hs : s ≤ 7) (k : Nat) :
    (slli^[s] v) (8 * k + 7) = v (8 * k + 7 - s) := by
  have key : ∀ s t, s + t ≤ 7 → (slli^[s] v) (8 * k + 7 - t) = v (8 * k + 7 - t - s) := by
    intro s
    induction s with
    | zero => intro t _; rfl
    | succ s ih =>
      intro t ht
      rw [Function.iterate_succ_apply', slli, if_neg (by omega)]
      have := ih (t + 1) (by omega)
      rw [show 8 * k + 7 - t - 1 = 8 * k + 7 - (t + 1) by omega, this]
      congr 1; omega
  simpa using key s 0 (by omega)

theorem outIdx_eq (R x y : Nat) : outIdx (8 * R) x y = y * R + x / 8 := by
  rw [outIdx, show y * (8 * R) = 8 * (y * R) by ring, Nat.mul_div_cancel_left _ (by omega)]

theorem inpIdx_eq (C x y : Nat) : inpIdx (8 * C) x y = x * C + y / 8 := by
  rw [inpIdx, show x * (8 * C) = 8 * (x * C) by ring, Nat.mul_div_cancel_left _ (by omega)]

/-- The counting down of the bit index, with the number of shifts made so far. -/
def countdown : Nat → List Nat
  | 0 => []
  | m + 1 => m :: countdown m

theorem countdown_eight : countdown 8 = [7, 6, 5, 4, 3, 2, 1, 0] := rfl

/-- The bytes written for one group of eight columns of the main part. -/
theorem flushMain_done {input : List Bool} {R C n : Nat} {Q K : Nat}
    (hQ : 2 * Q + 1 < R) (hK : K < C) (hn : n = 8 * R * C) (v0 : Vec)
    (hv : ∀ k b, k < 16 → b < 8 → v0 (8 * k + b) =
      (input[(16 * Q + k) * (8 * C) + (8 * K + b)]?).getD false) :
    ∀ m, m ≤ 8 → ∀ (D : Nat → Prop) (out : Nat → Bool), Done input R C D out →
      ∃ out' : Nat → Bool,
        flushMain (8 * R) n (16 * Q) (8 * K) (countdown m) (slli^[8 - m] v0) out = some out' ∧
        Done input R C (fun b => D b ∨ ∃ i q, i < m ∧ q < 2 ∧ b = (8 * K + i) * R + (2 * Q + q))
          out' := by
  intro m
  induction m with
  | zero =>
    intro _ D out hd
    exact ⟨out, rfl, done_mono hd (by rintro b (h | ⟨i, q, h, _⟩); exacts [h, by omega])⟩
  | succ m ih =>
    intro hm D out hd
    have hbnd : ∀ q, q < R → (8 * K + m) * R + q < n := by
      intro q hq
      have := idx_lt (i := 8 * K + m) (j := q) (r := 8 * C) (c := R) (by omega) hq
      rw [hn]
      have e : 8 * R * C = 8 * C * R := by ring
      omega
    have hbit : ∀ k, k < 16 → (slli^[8 - (m + 1)] v0) (8 * k + 7) =
        (input[(16 * Q + k) * (8 * C) + (8 * K + m)]?).getD false := by
      intro k hk
      rw [slli_iter _ _ (by omega), show 8 * k + 7 - (8 - (m + 1)) = 8 * k + m by omega]
      exact hv k m hk (by omega)
    obtain ⟨o1, w1, d1⟩ := write_done (y := 8 * K + m) (q := 2 * Q) hd (by omega)
      (hbnd _ (by omega)) (h := maskLow (slli^[8 - (m + 1)] v0)) (fun k hk => by
        rw [maskLow, hbit k (by omega)]
        congr 3; ring)
    obtain ⟨o2, w2, d2⟩ := write_done (y := 8 * K + m) (q := 2 * Q + 1) d1 (by omega)
      (hbnd _ (by omega)) (h := maskHigh (slli^[8 - (m + 1)] v0)) (fun k hk => by
        rw [maskHigh, hbit (k + 8) (by omega)]
        congr 3; ring)
    obtain ⟨o3, w3, d3⟩ := ih (by omega) _ o2 d2
    refine ⟨o3, ?_, done_mono d3 ?_⟩
    · rw [countdown, flushMain, outIdx_eq, show 16 * Q / 8 = 2 * Q by omega, w1]
      show (writeByte n o1 ((8 * K + m) * R + (2 * Q) + 1) _ >>= _) = _
      rw [Nat.add_assoc, w2]
      show flushMain _ _ _ _ _ (slli (slli^[8 - (m + 1)] v0)) o2 = _
      rw [← Function.iterate_succ_apply' slli, show (8 - (m + 1)).succ = 8 - m by omega]
      exact w3
    · rintro b (h | ⟨i, q, hi, hq, e⟩)
      · exact Or.inl (Or.inl (Or.inl h))
      · rcases Nat.lt_succ_iff_lt_or_eq.mp hi with h | h
        · exact Or.inr ⟨i, q, h, hq, e⟩
        · subst h
          interval_cases q
          · exact Or.inl (Or.inl (Or.inr e))
          · exact Or.inl (Or.inr e)

theorem mapM_some_range {α : Type} (n : Nat) (f : Nat → Option α) (g : Nat → α)
    (h : ∀ k, k < n → f k = some (g k)) :
    (List.range n).mapM f = some ((List.range n).map g) := by
  induction n with
  | zero => rfl
  | succ n ih =>
    rw [List.range_succ, List.mapM_append, ih fun k hk => h k (by omega), List.map_append]
    simp [h n (by omega)]

theorem readByte_eq {input : List Bool} {b n : Nat} (hl : input.length = 8 * n) (hb : b < n) :
    readByte input b = some fun k => (input[8 * b + k]?).getD false := by
  rw [readByte, if_pos (by omega)]

theorem ofBytes_range (n : Nat) (g : Nat → Byte) (k b : Nat) (hk : k < n) (hb : b < 8) :
    ofBytes ((List.range n).map g) (8 * k + b) = g k b := by
  rw [ofBytes, show (8 * k + b) / 8 = k by omega, show (8 * k + b) % 8 = b by omega]
  simp [hk]

/-- The bytes of the columns below `c` and the rows of the bytes below `q`. -/
def Region (R c q b : Nat) : Prop := ∃ y p, y < c ∧ p < q ∧ b = y * R + p

theorem colLoop_done {input : List Bool} {R C n Q : Nat} (hl : input.length = 8 * n)
    (hQ : 2 * Q + 1 < R) (hn : n = 8 * R * C) :
    ∀ (d K : Nat), K + d = C → ∀ (D : Nat → Prop) (out : Nat → Bool), Done input R C D out →
      ∃ out' : Nat → Bool, colLoop input (8 * R) (8 * C) n (16 * Q) (8 * K) out = some out' ∧
        Done input R C (fun b => D b ∨
          ∃ y q, 8 * K ≤ y ∧ y < 8 * C ∧ q < 2 ∧ b = y * R + (2 * Q + q)) out' := by
  intro d
  induction d with
  | zero =>
    intro K hK D out hd
    refine ⟨out, ?_, done_mono hd ?_⟩
    · rw [colLoop, if_neg (by omega)]
    · rintro b (h | ⟨y, q, h1, h2, _⟩)
      · exact h
      · omega
  | succ d ih =>
    intro K hK D out hd
    have hin : ∀ k, k < 16 → (16 * Q + k) * C + K < n := by
      intro k hk
      have := idx_lt (i := 16 * Q + k) (j := K) (r := 8 * R) (c := C) (by omega) (by omega)
      rw [hn]; exact this
    have hread : (List.range 16).mapM (fun k => readByte input (inpIdx (8 * C) (16 * Q + k) (8 * K)))
        = some ((List.range 16).map fun k => fun b =>
          (input[8 * ((16 * Q + k) * C + K) + b]?).getD false) := by
      refine mapM_some_range _ _ _ fun k hk => ?_
      rw [inpIdx_eq, show 8 * K / 8 = K by omega, readByte_eq hl (hin k hk)]
    obtain ⟨o1, w1, d1⟩ := flushMain_done (input := input) hQ (show K < C by omega) hn
      (ofBytes ((List.range 16).map fun k => fun b =>
          (input[8 * ((16 * Q + k) * C + K) + b]?).getD false)) (fun k b hk hb => by
        rw [ofBytes_range _ _ _ _ hk hb]
        congr 2; ring) 8 le_rfl D out hd
    obtain ⟨o2, w2, d2⟩ := ih (K + 1) (by omega) _ o1 d1
    refine ⟨o2, ?_, done_mono d2 ?_⟩
    · rw [colLoop, if_pos (by omega), hread]
      show (flushMain _ _ _ _ _ _ _ >>= _) = _
      rw [← countdown_eight]
      have w1' := w1
      simp only [Nat.sub_self, Function.iterate_zero, id_eq] at w1'
      rw [w1']
      exact w2
    · rintro b (h | ⟨y, q, h1, h2, h3, e⟩)
      · exact Or.inl (Or.inl h)
      · by_cases hy : y < 8 * (K + 1)
        · refine Or.inl (Or.inr ⟨y - 8 * K, q, by omega, h3, ?_⟩)
          rw [show 8 * K + (y - 8 * K) = y by omega]; exact e
        · exact Or.inr ⟨y, q, by omega, h2, h3, e⟩

theorem rowLoop_done {input : List Bool} {R C n : Nat} (hl : input.length = 8 * n)
    (hn : n = 8 * R * C) (hR : 2 ≤ R) :
    ∀ (d Q : Nat), Q + d = R / 2 → ∀ (out : Nat → Bool),
      Done input R C (Region R (8 * C) (2 * Q)) out →
      ∃ out' : Nat → Bool,
        rowLoop input (8 * R) (8 * C) n (16 * Q) out = some (16 * (R / 2), out') ∧
        Done input R C (Region R (8 * C) (2 * (R / 2))) out' := by
  intro d
  induction d with
  | zero =>
    intro Q hQ out hd
    refine ⟨out, ?_, ?_⟩
    · rw [rowLoop, if_neg (by omega), show 16 * Q = 16 * (R / 2) by omega]
    · rw [← hQ]; exact hd
  | succ d ih =>
    intro Q hQ out hd
    obtain ⟨o1, w1, d1⟩ := colLoop_done hl (show 2 * Q + 1 < R by omega) hn C 0 (by omega) _ out hd
    have d1' : Done input R C (Region R (8 * C) (2 * (Q + 1))) o1 := by
      refine done_mono d1 ?_
      rintro b ⟨y, p, hy, hp, e⟩
      by_cases h : p < 2 * Q
      · exact Or.inl ⟨y, p, hy, h, e⟩
      · exact Or.inr ⟨y, p - 2 * Q, by omega, hy, by omega, by
          rw [show 2 * Q + (p - 2 * Q) = p by omega]; exact e⟩
    obtain ⟨o2, w2, d2⟩ := ih (Q + 1) (by omega) o1 d1'
    refine ⟨o2, ?_, d2⟩
    rw [rowLoop, if_pos (by omega)]
    simp only [Nat.mul_zero] at w1
    rw [w1]
    exact w2

/-- The remainder: a pair of blocks. -/
theorem flushPair_done {input : List Bool} {R C n P K : Nat}
    (hP : P < R) (hK : K + 1 < C) (hn : n = 8 * R * C) (v0 : Vec)
    (hv : ∀ h k b, h < 2 → k < 8 → b < 8 → v0 (8 * (k + 8 * h) + b) =
      (input[(8 * P + k) * (8 * C) + (8 * (K + h) + b)]?).getD false) :
    ∀ m, m ≤ 8 → ∀ (D : Nat → Prop) (out : Nat → Bool), Done input R C D out →
      ∃ (v' : Vec) (out' : Nat → Bool),
        flushPair (8 * R) n (8 * P) (8 * K) (countdown m) (slli^[8 - m] v0) out = some (v', out') ∧
        Done input R C (fun b => D b ∨ ∃ i h, i < m ∧ h < 2 ∧ b = (8 * (K + h) + i) * R + P)
          out' := by
  intro m
  induction m with
  | zero =>
    intro _ D out hd
    exact ⟨_, out, rfl, done_mono hd (by rintro b (h | ⟨i, q, h, _⟩); exacts [h, by omega])⟩
  | succ m ih =>
    intro hm D out hd
    have hbnd : ∀ h, h < 2 → (8 * (K + h) + m) * R + P < n := by
      intro h hh
      have := idx_lt (i := 8 * (K + h) + m) (j := P) (r := 8 * C) (c := R) (by omega) hP
      rw [hn]
      have e : 8 * R * C = 8 * C * R := by ring
      omega
    have hbit : ∀ h k, h < 2 → k < 8 → (slli^[8 - (m + 1)] v0) (8 * (k + 8 * h) + 7) =
        (input[(8 * P + k) * (8 * C) + (8 * (K + h) + m)]?).getD false := by
      intro h k hh hk
      rw [slli_iter _ _ (by omega),
        show 8 * (k + 8 * h) + 7 - (8 - (m + 1)) = 8 * (k + 8 * h) + m by omega]
      exact hv h k m hh hk (by omega)
    obtain ⟨o1, w1, d1⟩ := write_done (y := 8 * (K + 0) + m) (q := P) hd hP
      (hbnd 0 (by omega)) (h := maskLow (slli^[8 - (m + 1)] v0)) (fun k hk => by
        rw [maskLow]
        exact hbit 0 k (by omega) hk)
    obtain ⟨o2, w2, d2⟩ := write_done (y := 8 * (K + 1) + m) (q := P) d1 hP
      (hbnd 1 (by omega)) (h := maskHigh (slli^[8 - (m + 1)] v0)) (fun k hk => by
        rw [maskHigh]
        exact hbit 1 k (by omega) hk)
    obtain ⟨v3, o3, w3, d3⟩ := ih (by omega) _ o2 d2
    refine ⟨v3, o3, ?_, done_mono d3 ?_⟩
    · rw [countdown, flushPair, outIdx_eq, outIdx_eq, show 8 * P / 8 = P by omega]
      have w1' : writeByte n out ((8 * K + m) * R + P) (maskLow (slli^[8 - (m + 1)] v0)) = some o1 := w1
      rw [w1']
      show (writeByte n o1 ((8 * K + m + 8) * R + P) _ >>= _) = _
      rw [show 8 * K + m + 8 = 8 * (K + 1) + m by omega, w2]
      show flushPair _ _ _ _ _ (slli (slli^[8 - (m + 1)] v0)) o2 = _
      rw [← Function.iterate_succ_apply' slli, show (8 - (m + 1)).succ = 8 - m by omega]
      exact w3
    · rintro b (h | ⟨i, h, hi, hh, e⟩)
      · exact Or.inl (Or.inl (Or.inl h))
      · rcases Nat.lt_succ_iff_lt_or_eq.mp hi with h' | h'
        · exact Or.inr ⟨i, h, h', hh, e⟩
        · subst h'
          interval_cases h
          · exact Or.inl (Or.inl (Or.inr e))
          · exact Or.inl (Or.inr e)

theorem ofBytes_append_lo (n : Nat) (g g' : Nat → Byte) (m k b : Nat) (hk : k < n) (hb : b < 8) :
    ofBytes ((List.range n).map g ++ (List.range m).map g') (8 * k + b) = g k b := by
  rw [ofBytes, show (8 * k + b) / 8 = k by omega, show (8 * k + b) % 8 = b by omega,
    List.getElem?_append_left (by simpa using hk)]
  simp [hk]

theorem ofBytes_append_hi (n : Nat) (g g' : Nat → Byte) (m k b : Nat) (hk : k < m) (hb : b < 8) :
    ofBytes ((List.range n).map g ++ (List.range m).map g') (8 * (k + n) + b) = g' k b := by
  rw [ofBytes, show (8 * (k + n) + b) / 8 = k + n by omega,
    show (8 * (k + n) + b) % 8 = b by omega,
    List.getElem?_append_right (by simp)]
  simp [hk]

theorem pairLoop_done {input : List Bool} {R C n P : Nat} (hl : input.length = 8 * n)
    (hP : P < R) (hn : n = 8 * R * C) (hC : 2 ≤ C) :
    ∀ (d K : Nat), K + d = C / 2 → ∀ (D : Nat → Prop) (tmp : Vec) (out : Nat → Bool),
      Done input R C D out →
      ∃ (tmp' : Vec) (out' : Nat → Bool),
        pairLoop input (8 * R) (8 * C) n (8 * P) (16 * K) tmp out =
          some (16 * (C / 2), tmp', out') ∧
        Done input R C (fun b => D b ∨ ∃ y, 16 * K ≤ y ∧ y < 16 * (C / 2) ∧ b = y * R + P) out' := by
  intro d
  induction d with
  | zero =>
    intro K hK D tmp out hd
    refine ⟨tmp, out, ?_, done_mono hd ?_⟩
    · rw [pairLoop, if_neg (by omega), show 16 * K = 16 * (C / 2) by omega]
    · rintro b (h | ⟨y, h1, h2, _⟩)
      · exact h
      · omega
  | succ d ih =>
    intro K hK D tmp out hd
    have hin : ∀ h k, h < 2 → k < 8 → (8 * P + k) * C + (2 * K + h) < n := by
      intro h k hh hk
      have := idx_lt (i := 8 * P + k) (j := 2 * K + h) (r := 8 * R) (c := C) (by omega) (by omega)
      rw [hn]; exact this
    have hread : ∀ h, h < 2 →
        (List.range 8).mapM (fun k => readByte input (inpIdx (8 * C) (8 * P + k) (16 * K) + h))
        = some ((List.range 8).map fun k => fun b =>
          (input[8 * ((8 * P + k) * C + (2 * K + h)) + b]?).getD false) := by
      intro h hh
      refine mapM_some_range _ _ _ fun k hk => ?_
      rw [inpIdx_eq, show 16 * K / 8 = 2 * K by omega, Nat.add_assoc, readByte_eq hl (hin h k hh hk)]
    obtain ⟨v1, o1, w1, d1⟩ := flushPair_done (input := input) hP (show 2 * K + 1 < C by omega) hn
      (ofBytes (((List.range 8).map fun k => fun b =>
          (input[8 * ((8 * P + k) * C + (2 * K + 0)) + b]?).getD false) ++
        ((List.range 8).map fun k => fun b =>
          (input[8 * ((8 * P + k) * C + (2 * K + 1)) + b]?).getD false)))
      (fun h k b hh hk hb => by
        interval_cases h
        · rw [show k + 8 * 0 = k by omega, ofBytes_append_lo _ _ _ _ _ _ hk hb]
          congr 2; ring
        · rw [Nat.mul_one, ofBytes_append_hi _ _ _ _ _ _ hk hb]
          congr 2; ring) 8 le_rfl D out hd
    obtain ⟨v2, o2, w2, d2⟩ := ih (K + 1) (by omega) _ v1 o1 d1
    refine ⟨v2, o2, ?_, done_mono d2 ?_⟩
    · rw [pairLoop, if_pos (by omega)]
      have r0 := hread 0 (by omega)
      simp only [Nat.add_zero] at r0
      rw [r0, hread 1 (by omega)]
      show (flushPair _ _ _ _ _ _ _ >>= _) = _
      rw [← countdown_eight]
      have w1' := w1
      simp only [Nat.sub_self, Function.iterate_zero, id_eq, Nat.add_zero] at w1'
      rw [show 8 * (2 * K) = 16 * K by ring] at w1'
      rw [w1']
      exact w2
    · rintro b (h | ⟨y, h1, h2, e⟩)
      · exact Or.inl (Or.inl h)
      · by_cases hy : y < 16 * (K + 1)
        · refine Or.inl (Or.inr ⟨(y - 16 * K) % 8, (y - 16 * K) / 8, by omega, by omega, ?_⟩)
          rw [e]; congr 2; omega
        · exact Or.inr ⟨y, by omega, h2, e⟩

theorem flushLast_done {input : List Bool} {R C n P K : Nat}
    (hP : P < R) (hK : K < C) (hn : n = 8 * R * C) (v0 : Vec)
    (hv : ∀ k b, k < 8 → b < 8 → v0 (8 * k + b) =
      (input[(8 * P + k) * (8 * C) + (8 * K + b)]?).getD false) :
    ∀ m, m ≤ 8 → ∀ (D : Nat → Prop) (out : Nat → Bool), Done input R C D out →
      ∃ out' : Nat → Bool,
        flushLast (8 * R) n (8 * P) (8 * K) (countdown m) (slli^[8 - m] v0) out = some out' ∧
        Done input R C (fun b => D b ∨ ∃ i, i < m ∧ b = (8 * K + i) * R + P) out' := by
  intro m
  induction m with
  | zero =>
    intro _ D out hd
    exact ⟨out, rfl, done_mono hd (by rintro b (h | ⟨i, h, _⟩); exacts [h, by omega])⟩
  | succ m ih =>
    intro hm D out hd
    have hbnd : (8 * K + m) * R + P < n := by
      have := idx_lt (i := 8 * K + m) (j := P) (r := 8 * C) (c := R) (by omega) hP
      rw [hn]
      have e : 8 * R * C = 8 * C * R := by ring
      omega
    obtain ⟨o1, w1, d1⟩ := write_done (y := 8 * K + m) (q := P) hd hP
      hbnd (h := maskLow (slli^[8 - (m + 1)] v0)) (fun k hk => by
        rw [maskLow, slli_iter _ _ (by omega), show 8 * k + 7 - (8 - (m + 1)) = 8 * k + m by omega]
        exact hv k m hk (by omega))
    obtain ⟨o3, w3, d3⟩ := ih (by omega) _ o1 d1
    refine ⟨o3, ?_, done_mono d3 ?_⟩
    · rw [countdown, flushLast, outIdx_eq, show 8 * P / 8 = P by omega, w1]
      show flushLast _ _ _ _ _ (slli (slli^[8 - (m + 1)] v0)) o1 = _
      rw [← Function.iterate_succ_apply' slli, show (8 - (m + 1)).succ = 8 - m by omega]
      exact w3
    · rintro b (h | ⟨i, hi, e⟩)
      · exact Or.inl (Or.inl h)
      · rcases Nat.lt_succ_iff_lt_or_eq.mp hi with h' | h'
        · exact Or.inr ⟨i, h', e⟩
        · subst h'; exact Or.inl (Or.inr e)

/-- C43 (blocked implementation): for every accepted dimension all unchecked accesses are in bounds
and every element moves to its transposed place. -/
theorem block_transpose_correct (input : List Bool) (rows cols : Nat)
    (hr8 : rows % 8 = 0) (hc8 : cols % 8 = 0) (hr : 16 ≤ rows) (hc : 16 ≤ cols)
    (hl : rows * cols = input.length) :
    ∃ out : List Bool, blockTranspose input rows cols = some out ∧
      IsTranspose input out rows cols := by
  obtain ⟨R, rfl⟩ : ∃ R, rows = 8 * R := ⟨rows / 8, by omega⟩
  obtain ⟨C, rfl⟩ : ∃ C, cols = 8 * C := ⟨cols / 8, by omega⟩
  have hn : input.length / 8 = 8 * R * C := by
    rw [← hl, show 8 * R * (8 * C) = 8 * (8 * R * C) by ring, Nat.mul_div_cancel_left _ (by omega)]
  have hl' : input.length = 8 * (input.length / 8) := by
    rw [hn, ← hl]; ring
  generalize hN : input.length / 8 = n at hn hl'
  obtain ⟨o1, w1, d1⟩ := rowLoop_done (C := C) hl' hn (show 2 ≤ R by omega) (R / 2) 0 (by omega)
    (fun _ => false) (by rintro j ⟨y, p, _, hp, _⟩; omega)
  -- from a final output to the claim
  have fin : ∀ o : Nat → Bool, Done input R C (Region R (8 * C) R) o →
      IsTranspose input ((List.range input.length).map o) (8 * R) (8 * C) := by
    intro o ho
    refine ⟨by simp, fun i j hi hj => ?_⟩
    have hlt : j * (8 * R) + i < input.length := by
      rw [← hl, Nat.mul_comm (8 * R)]; exact idx_lt hj hi
    have hlt' : i * (8 * C) + j < input.length := by rw [← hl]; exact idx_lt hi hj
    have e8 : (j * (8 * R) + i) / 8 = j * R + i / 8 := by
      rw [show j * (8 * R) + i = 8 * (j * R) + i by ring, Nat.mul_add_div (by omega)]
    have := ho (j * (8 * R) + i) ⟨j, i / 8, hj, by omega, e8⟩
    rw [List.getElem?_map, List.getElem?_range hlt, Option.map_some, this, want,
      Nat.mul_comm j (8 * R), Nat.mul_add_mod, Nat.mod_eq_of_lt hi, Nat.mul_add_div (by omega),
      Nat.div_eq_of_lt hi, Nat.add_zero, List.getElem?_eq_getElem hlt']
    rfl
  have hguard : 8 * R % 8 = 0 ∧ 8 * C % 8 = 0 ∧ 16 ≤ 8 * C ∧ 16 ≤ 8 * R ∧
      8 * C * (8 * R) = input.length := ⟨hr8, hc8, hc, hr, by rw [← hl]; ring⟩
  simp only [Nat.mul_zero] at w1
  by_cases hev : R % 2 = 0
  · -- no remainder
    refine ⟨_, ?_, fin o1 (done_mono d1 (by
      rintro b ⟨y, p, hy, hp, e⟩; exact ⟨y, p, hy, by omega, e⟩))⟩
    rw [blockTranspose, if_pos hguard]
    simp only [hN]
    rw [w1]
    simp [show 16 * (R / 2) = 8 * R by omega]
  · obtain ⟨v2, o2, w2, d2⟩ := pairLoop_done hl' (show R - 1 < R by omega) hn (show 2 ≤ C by omega)
      (C / 2) 0 (by omega) _ (fun _ => false) o1 d1
    have hrr : 16 * (R / 2) = 8 * (R - 1) := by omega
    simp only [Nat.mul_zero] at w2
    by_cases hce : C % 2 = 0
    · refine ⟨_, ?_, fin o2 (done_mono d2 ?_)⟩
      · rw [blockTranspose, if_pos hguard]
        simp only [hN]
        rw [w1, hrr]
        simp only [Option.bind_eq_bind, Option.bind_some]
        rw [if_neg (by omega), if_pos (by omega), w2]
        simp [show 16 * (C / 2) = 8 * C by omega]
      · rintro b ⟨y, p, hy, hp, e⟩
        by_cases h : p < 2 * (R / 2)
        · exact Or.inl ⟨y, p, hy, h, e⟩
        · exact Or.inr ⟨y, by omega, by omega, by rw [e, show p = R - 1 by omega]⟩
    · have hin : ∀ k, k < 8 → (8 * (R - 1) + k) * C + (C - 1) < n := by
        intro k hk
        have := idx_lt (i := 8 * (R - 1) + k) (j := C - 1) (r := 8 * R) (c := C) (by omega) (by omega)
        rw [hn]; exact this
      have hread : (List.range 8).mapM
          (fun k => readByte input (inpIdx (8 * C) (8 * (R - 1) + k) (8 * (C - 1))))
          = some ((List.range 8).map fun k => fun b =>
            (input[8 * ((8 * (R - 1) + k) * C + (C - 1)) + b]?).getD false) := by
        refine mapM_some_range _ _ _ fun k hk => ?_
        rw [inpIdx_eq, show 8 * (C - 1) / 8 = C - 1 by omega, readByte_eq hl' (hin k hk)]
      obtain ⟨o3, w3, d3⟩ := flushLast_done (input := input) (K := C - 1)
        (show R - 1 < R by omega) (by omega) hn
        (fun j => if j < 64 then ofBytes ((List.range 8).map fun k => fun b =>
            (input[8 * ((8 * (R - 1) + k) * C + (C - 1)) + b]?).getD false) j else v2 j)
        (fun k b hk hb => by
          simp only [show 8 * k + b < 64 by omega, if_true]
          rw [ofBytes_range _ _ _ _ hk hb]
          congr 2; ring) 8 le_rfl _ o2 d2
      refine ⟨_, ?_, fin o3 (done_mono d3 ?_)⟩
      · rw [blockTranspose, if_pos hguard]
        simp only [hN]
        rw [w1, hrr]
        simp only [Option.bind_eq_bind, Option.bind_some]
        rw [if_neg (by omega), if_pos (by omega), w2]
        simp only [Option.bind_some]
        rw [if_neg (by omega), show 16 * (C / 2) = 8 * (C - 1) by omega, hread]
        simp only [Option.bind_some]
        rw [← countdown_eight]
        have w3' := w3
        simp only [Nat.sub_self, Function.iterate_zero, id_eq] at w3'
        rw [w3']
        rfl
      · rintro b ⟨y, p, hy, hp, e⟩
        by_cases h : p < 2 * (R / 2)
        · exact Or.inl (Or.inl ⟨y, p, hy, h, e⟩)
        · have hp' : p = R - 1 := by omega
          by_cases h' : y < 16 * (C / 2)
          · exact Or.inl (Or.inr ⟨y, by omega, h', by rw [e, hp']⟩)
          · exact Or.inr ⟨y - 8 * (C - 1), by omega, by
              rw [show 8 * (C - 1) + (y - 8 * (C - 1)) = y by omega, e, hp']⟩

/-- C43: the two implementations agree wherever the blocked one accepts the dimensions. -/
theorem block_eq_simple (input : List Bool) (rows cols : Nat)
    (hr8 : rows % 8 = 0) (hc8 : cols % 8 = 0) (hr : 16 ≤ rows) (hc : 16 ≤ cols) :
    blockTranspose input rows cols = simpleTranspose input rows cols := by
  by_cases hl : rows * cols = input.length
  · obtain ⟨o, h1, h2⟩ := block_transpose_correct input rows cols hr8 hc8 hr hc hl
    obtain ⟨o', h1', h2'⟩ := simple_transpose_correct input rows cols hl
    rw [h1, h1', h2.unique hl h2']
  · rw [blockTranspose, simpleTranspose, if_neg (by rw [Nat.mul_comm cols]; tauto), if_neg hl]

/-! ### Matrices -/

/-- The storage holds exactly the matrix. -/
def BitMatrix.Valid (m : BitMatrix) : Prop := m.rows * m.cols = m.data.length

/-- The element in row `i` and column `j`. -/
def BitMatrix.get (m : BitMatrix) (i j : Nat) : Bool := (m.data[i * m.cols + j]?).getD false

/-- C43: `BitMatrixView::transpose` of a matrix that fills its storage swaps the dimensions and moves
element `(i, j)` to `(j, i)`. -/
theorem transpose_correct (m : BitMatrix) (hv : m.Valid) :
    ∃ t : BitMatrix, transpose m = some t ∧ t.rows = m.cols ∧ t.cols = m.rows ∧ t.Valid ∧
      ∀ i j, i < m.rows → j < m.cols → t.get j i = m.get i j := by
  have h : ∃ d : List Bool, (if m.rows % 8 = 0 ∧ m.cols % 8 = 0 ∧ 16 ≤ m.rows ∧ 16 ≤ m.cols then
      blockTranspose m.data m.rows m.cols
    else simpleTranspose m.data m.rows m.cols) = some d ∧ IsTranspose m.data d m.rows m.cols := by
    split
    · rename_i h
      exact block_transpose_correct _ _ _ h.1 h.2.1 h.2.2.1 h.2.2.2 hv
    · exact simple_transpose_correct _ _ _ hv
  obtain ⟨d, h1, h2⟩ := h
  refine ⟨⟨m.cols, m.rows, d⟩, by rw [transpose, h1]; rfl, rfl, rfl, ?_, ?_⟩
  · show m.cols * m.rows = d.length
    rw [h2.1, ← hv, Nat.mul_comm]
  · intro i j hi hj
    show (d[j * m.rows + i]?).getD false = (m.data[i * m.cols + j]?).getD false
    rw [h2.2 i j hi hj]

theorem ext_get {a b : BitMatrix} (ha : a.Valid) (hb : b.Valid) (hr : a.rows = b.rows)
    (hc : a.cols = b.cols) (h : ∀ i j, i < a.rows → j < a.cols → a.get i j = b.get i j) : a = b := by
  obtain ⟨r, c, da⟩ := a
  obtain ⟨r', c', db⟩ := b
  simp only at hr hc
  subst hr hc
  have ha' : r * c = da.length := ha
  have hb' : r * c = db.length := hb
  congr 1
  refine List.ext_getElem? fun k => ?_
  by_cases hk : k < r * c
  · have hc : 0 < c := Nat.pos_of_ne_zero (by rintro rfl; simp at hk)
    have hi : k / c < r := by rwa [Nat.div_lt_iff_lt_mul hc]
    have := h (k / c) (k % c) hi (Nat.mod_lt _ hc)
    simp only [BitMatrix.get] at this
    rw [Nat.mul_comm, Nat.div_add_mod, List.getElem?_eq_getElem (by omega),
      List.getElem?_eq_getElem (by omega)] at this
    rw [List.getElem?_eq_getElem (by omega), List.getElem?_eq_getElem (by omega)]
    exact congrArg some this
  · rw [List.getElem?_eq_none (by omega), List.getElem?_eq_none (by omega)]

/-- C43: transposing twice gives the matrix back. -/
theorem transpose_transpose (m : BitMatrix) (hv : m.Valid) :
    (transpose m).bind transpose = some m := by
  obtain ⟨t, h1, h2, h3, h4, h5⟩ := transpose_correct m hv
  obtain ⟨u, g1, g2, g3, g4, g5⟩ := transpose_correct t h4
  rw [h1, Option.bind_some, g1]
  congr 1
  refine ext_get g4 hv (by omega) (by omega) fun i j hi hj => ?_
  rw [g5 j i (by omega) (by omega), h5 i j (by omega) (by omega)]

/-- A matrix whose storage does not match its dimensions is refused. -/
theorem transpose_invalid (m : BitMatrix) (hv : ¬ m.Valid) : transpose m = none := by
  have hv' : ¬ m.rows * m.cols = m.data.length := hv
  rw [transpose, blockTranspose, simpleTranspose, if_neg (show ¬ (_ ∧ _ ∧ _ ∧ _ ∧ _) by
    rw [Nat.mul_comm m.cols]; tauto), if_neg hv']
  simp

/-- Dimensions with both remainders: 24 x 24. -/
example : BitMatrix.Valid ⟨24, 24, (List.range 576).map fun i => decide (i % 5 = 0)⟩ := by
  simp [BitMatrix.Valid]

example : transpose ⟨2, 4, [true, false, false, false, true, true, false, false]⟩ =
    some ⟨4, 2, [true, true, false, true, false, false, false, false]⟩ := by decide +kernel

end Verif.Bitmat
