import Verif.Tensor.Props
import Mathlib.Algebra.BigOperators.Group.List.Basic

/-!
The setup of matrix multiplication gates: the Boolean circuit that computes the product of the masks.
-/
set_option autoImplicit false

namespace Verif.Tensor

open Bitmat

theorem strided_eq {α : Type} (d : α) (b : List α) (k c kk : Nat) (hk : k < c) (hb : b.length = kk * c) :
    strided (b.drop k) c = (List.range kk).map fun i => (b[i * c + k]?).getD d := by
  have hlen : ((b.drop k).length + c - 1) / c = kk := by
    rw [List.length_drop, hb]
    rcases Nat.eq_zero_or_pos kk with h | h
    · subst h
      simp only [Nat.zero_mul, Nat.zero_sub, Nat.zero_add]
      exact Nat.div_eq_of_lt (by omega)
    · have h1 : c ≤ kk * c := Nat.le_mul_of_pos_left _ h
      rw [show kk * c - k + c - 1 = c * kk + (c - 1 - k) by rw [Nat.mul_comm c kk]; omega,
        Nat.mul_add_div (by omega), Nat.div_eq_of_lt (by omega)]
      omega
  rw [strided, hlen]
  have : ∀ n, n ≤ kk → (List.range n).filterMap (fun i => (b.drop k)[i * c]?) =
      (List.range n).map fun i => (b[i * c + k]?).getD d := by
    intro n
    induction n with
    | zero => intro _; rfl
    | succ n ih =>
      intro hn
      have hlt : n * c + k < b.length := by rw [hb]; exact idx_lt (by omega) hk
      rw [List.range_succ, List.filterMap_append, ih (by omega), List.map_append]
      congr 1
      have hd : (b.drop k)[n * c]? = some b[n * c + k] := by
        rw [List.getElem?_drop, Nat.add_comm k, List.getElem?_eq_getElem hlt]
      simp only [List.filterMap_cons, hd, List.filterMap_nil, List.map_cons, List.map_nil,
        List.getElem?_eq_getElem hlt, Option.getD_some]
  exact this kk le_rfl

theorem chunk_flatten {α : Type} (f : Nat → Nat → α) (N L i : Nat) (hi : i < N) :
    ((((List.range N).map fun i => (List.range L).map fun j => f i j).flatten.drop (i * L)).take L)
      = (List.range L).map fun j => f i j := by
  refine List.ext_getElem? fun j => ?_
  by_cases hj : j < L
  · rw [List.getElem?_take_of_lt hj, List.getElem?_drop, flatten_range_get _ _ _ _ _ hi hj]
    simp [hj]
  · rw [List.getElem?_eq_none (by rw [List.length_take]; omega),
      List.getElem?_eq_none (by simp; omega)]

theorem chunksExact_flatten {α : Type} (f : Nat → Nat → α) (N L : Nat) (hL : 0 < L) :
    chunksExact ((List.range N).map fun i => (List.range L).map fun j => f i j).flatten L =
      (List.range N).map fun i => (List.range L).map fun j => f i j := by
  rw [chunksExact, flatten_range_length, Nat.mul_div_cancel _ hL]
  exact List.map_congr_left fun i hi => chunk_flatten f N L i (List.mem_range.mp hi)

/-- A list as the rows of a matrix. -/
theorem as_rows {α : Type} (d : α) (a : List α) (r k : Nat) (ha : a.length = r * k) :
    a = ((List.range r).map fun i => (List.range k).map fun j =>
      (a[i * k + j]?).getD d).flatten := by
  refine List.ext_getElem? fun p => ?_
  by_cases hp : p < r * k
  · have hk : 0 < k := Nat.pos_of_ne_zero (by rintro rfl; simp at hp)
    have hi : p / k < r := by rwa [Nat.div_lt_iff_lt_mul hk]
    have e : p / k * k + p % k = p := by rw [Nat.mul_comm]; exact Nat.div_add_mod p k
    have := flatten_range_get (fun i j => (a[i * k + j]?).getD d) r k (p / k) (p % k) hi
      (Nat.mod_lt _ hk)
    rw [e] at this
    rw [this, List.getElem?_eq_getElem (by omega)]; rfl
  · rw [List.getElem?_eq_none (by omega),
      List.getElem?_eq_none (by rw [flatten_range_length]; omega)]

theorem flatMap_replicate_get {α : Type} (f : Nat → α) (r c p : Nat) (hp : p < r * c) :
    (((List.range r).map f).flatMap fun x => List.replicate c x)[p]? = some (f (p / c)) := by
  have hc : 0 < c := Nat.pos_of_ne_zero (by rintro rfl; simp at hp)
  have hi : p / c < r := by rwa [Nat.div_lt_iff_lt_mul hc]
  have e : p / c * c + p % c = p := by rw [Nat.mul_comm]; exact Nat.div_add_mod p c
  have h := flatten_range_get (fun i _ => f i) r c (p / c) (p % c) hi (Nat.mod_lt _ hc)
  rw [e] at h
  rw [← h, List.flatMap, List.map_map]
  congr 2
  refine List.map_congr_left fun i _ => ?_
  rw [List.map_const', List.length_range]
  rfl

theorem zipCycle_eq {α : Type} (F G : Nat → α) (r c : Nat) (hc : 0 < c) :
    zipCycle (((List.range r).map F).flatMap fun x => List.replicate c x) ((List.range c).map G) =
      (List.range (r * c)).map fun p => (F (p / c), G (p % c)) := by
  have hne : ¬ ((List.range c).map G).isEmpty = true := by
    rw [List.isEmpty_iff]
    intro h
    have := congrArg List.length h
    simp at this; omega
  have hlen : (((List.range r).map F).flatMap fun x => List.replicate c x).length = r * c := by
    rw [List.length_flatMap, List.map_map]
    simp only [Function.comp_def, List.length_replicate]
    rw [List.map_const', List.length_range, List.sum_replicate]
    rfl
  rw [zipCycle, if_neg hne, hlen]
  have : ∀ n, n ≤ r * c → (List.range n).filterMap (fun i => do
        let x ← (((List.range r).map F).flatMap fun x => List.replicate c x)[i]?
        let y ← ((List.range c).map G)[i % ((List.range c).map G).length]?
        some (x, y)) = (List.range n).map fun p => (F (p / c), G (p % c)) := by
    intro n
    induction n with
    | zero => intro _; rfl
    | succ n ih =>
      intro hn
      rw [List.range_succ, List.filterMap_append, ih (by omega), List.map_append]
      congr 1
      have hm : n % c < c := Nat.mod_lt _ hc
      simp only [List.filterMap_cons, List.filterMap_nil, List.map_cons, List.map_nil,
        flatMap_replicate_get F r c n (by omega), List.length_map, List.length_range]
      simp [hm]
  exact this _ le_rfl

/-- The rows and columns whose products are the entries of the product. -/
theorem matPairs_eq {α : Type} (d : α) (a b : List α) (rows k cols : Nat) (hr : 0 < rows) (hk : 0 < k)
    (hc : 0 < cols) (ha : a.length = rows * k) (hb : b.length = k * cols) :
    matPairs rows cols a b = some ((List.range (rows * cols)).map fun p =>
      ((List.range k).map fun t => (a[p / cols * k + t]?).getD d,
        (List.range k).map fun t => (b[t * cols + p % cols]?).getD d)) := by
  have hak : a.length / rows = k := by rw [ha, Nat.mul_div_cancel_left _ hr]
  have hbk : b.length / cols = k := by rw [hb, Nat.mul_div_cancel _ hc]
  have hbt : ((List.range cols).flatMap fun k => strided (b.drop k) cols) =
      ((List.range cols).map fun j => (List.range k).map fun t =>
        (b[t * cols + j]?).getD d).flatten := by
    rw [List.flatMap]
    congr 1
    exact List.map_congr_left fun j hj => strided_eq d b j cols k (List.mem_range.mp hj) hb
  have hal : chunksExact a k = (List.range rows).map fun i => (List.range k).map fun t =>
      (a[i * k + t]?).getD d := by
    conv_lhs => rw [as_rows d a rows k ha]
    exact chunksExact_flatten _ _ _ hk
  simp only [matPairs, hak, hbk, hbt]
  rw [if_neg (by omega), if_neg (by omega), hal, chunksExact_flatten _ _ _ hk,
    zipCycle_eq _ _ _ _ hc]

/-- C40 (setup): for operands of `rows * k` and `k * cols` values the setup circuit of a matrix
multiplication computes the matrix product, row by row. -/
theorem setup_matmult_correct (a b : List Bool) (rows k cols : Nat) (hr : 0 < rows) (hk : 0 < k)
    (hc : 0 < cols) (ha : a.length = rows * k) (hb : b.length = k * cols) :
    ∃ out : List Bool, setupDataCirc (.matMult rows cols) [a, b] = some out ∧
      out.length = rows * cols ∧
      ∀ i j, i < rows → j < cols → out[i * cols + j]? =
        some (xorUpTo (fun t => (a[i * k + t]?).getD false && (b[t * cols + j]?).getD false) k) := by
  have key : setupDataCirc (.matMult rows cols) [a, b] =
      some ((List.range (rows * cols)).map fun p =>
        xorUpTo (fun t => (a[p / cols * k + t]?).getD false &&
          (b[t * cols + p % cols]?).getD false) k) := by
    simp only [setupDataCirc, matPairs_eq false a b rows k cols hr hk hc ha hb, Option.bind_eq_bind,
      Option.bind_some]
    rw [mapM_map_some _ _ (fun p : List Bool × List Bool =>
        xorUpTo (fun t => (p.1[t]?).getD false && (p.2[t]?).getD false) k)]
    · congr 1
      rw [List.map_map]
      refine List.map_congr_left fun p hp => xorUpTo_congr fun t ht => ?_
      simp [ht]
    · intro x hx
      obtain ⟨p, hp, rfl⟩ := List.mem_map.mp hx
      exact dotp_eq _ _ _ (by simp) (by simp) hk
  refine ⟨_, key, by simp, fun i j hi hj => ?_⟩
  rw [List.getElem?_map, List.getElem?_range (idx_lt hi hj), Option.map_some,
    show (i * cols + j) / cols = i by
      rw [Nat.mul_comm, Nat.mul_add_div hc, Nat.div_eq_of_lt hj]; omega,
    show (i * cols + j) % cols = j by rw [Nat.mul_comm, Nat.mul_add_mod, Nat.mod_eq_of_lt hj]]

/-- C40 (setup): XOR shares of the outputs of the setup circuit on the masks of the operands are what
a matrix multiplication gate needs (`Item.Ok`). -/
theorem setup_products {rows cols : Nat} {a a' b b' e e' : BitMatrix} {out : List Bool}
    (ha : IsMat rows a.cols a) (ha' : IsMat rows a.cols a') (hb : IsMat a.cols cols b)
    (hb' : IsMat a.cols cols b') (he : IsMat rows cols e) (he' : IsMat rows cols e')
    (hr : 0 < rows) (hk : 0 < a.cols) (hc : 0 < cols)
    (hout : setupDataCirc (.matMult rows cols)
      [List.zipWith xor (PShare.matrix a).flatten (PShare.matrix a').flatten,
        List.zipWith xor (PShare.matrix b).flatten (PShare.matrix b').flatten] = some out)
    (hs : List.zipWith xor e.data e'.data = out) :
    ∀ i j, i < rows → j < cols → (e.get i j ^^ e'.get i j) =
      xorUpTo (fun t => (a.get i t ^^ a'.get i t) && (b.get t j ^^ b'.get t j)) a.cols := by
  have len : ∀ {r c : Nat} {m : BitMatrix}, IsMat r c m → m.data.length = r * c := by
    intro r c m h
    have : m.rows * m.cols = m.data.length := h.2.2.1
    rw [← this, h.1, h.2.1]
  have gx : ∀ {r c : Nat} {m m' : BitMatrix}, IsMat r c m → IsMat r c m' → ∀ i j, i < r → j < c →
      (List.zipWith xor m.data m'.data)[i * c + j]? = some (m.get i j ^^ m'.get i j) := by
    intro r c m m' h h' i j hi hj
    have hlt := idx_lt hi hj
    have h1 : i * c + j < m.data.length := by rw [len h]; exact hlt
    have h2 : i * c + j < m'.data.length := by rw [len h']; exact hlt
    rw [List.getElem?_zipWith, List.getElem?_eq_getElem h1, List.getElem?_eq_getElem h2]
    simp only [BitMatrix.get, h.2.1, h'.2.1, List.getElem?_eq_getElem h1,
      List.getElem?_eq_getElem h2]
    rfl
  obtain ⟨o, h1, h2, h3⟩ := setup_matmult_correct
    (List.zipWith xor a.data a'.data) (List.zipWith xor b.data b'.data) rows a.cols cols hr hk hc
    (by rw [List.length_zipWith, len ha, len ha', Nat.min_self])
    (by rw [List.length_zipWith, len hb, len hb', Nat.min_self])
  have ho : o = out := by
    have : some o = some out := by rw [← h1, ← hout]; rfl
    injection this
  intro i j hi hj
  have h4 := h3 i j hi hj
  rw [ho, ← hs, gx he he' i j hi hj] at h4
  injection h4 with h4
  rw [h4]
  refine xorUpTo_congr fun t ht => ?_
  rw [gx ha ha' i t hi ht, gx hb hb' t j ht hj]
  rfl

/-- A layer with an AND gate and the product of a 2x4 and a 4x4 matrix meets the hypotheses of
`tensor_layer_correct_partial`. -/
def exMat (r c k : Nat) : BitMatrix := ⟨r, c, (List.range (r * c)).map fun i => decide (i % k = 0)⟩

theorem exMat_isMat (r c k : Nat) (h : 8 ∣ r * c) : IsMat r c (exMat r c k) :=
  ⟨rfl, rfl, by simp [BitMatrix.Valid, exMat], h⟩

instance decMat (r c : Nat) (P : Nat → Nat → Prop) [∀ i j, Decidable (P i j)] :
    Decidable (∀ i j, i < r → j < c → P i j) :=
  decidable_of_iff (∀ i, i < r → ∀ j, j < c → P i j)
    ⟨fun h i j hi hj => h i hi j hj, fun h i hi j hj => h i j hi hj⟩

theorem exItems_ok : ∀ it ∈ ([
    ⟨.and2, .scalar true false, .scalar true true, .scalar false true, .scalar false true,
      .scalar false true, .scalar false false, .scalar true, .scalar true,
      .scalar false, .scalar false⟩,
    ⟨.matMult 2 4, .matrix (exMat 2 4 2) (exMat 2 4 3), .matrix (exMat 2 4 2) (exMat 2 4 5),
      .matrix (exMat 4 4 3) (exMat 4 4 2), .matrix (exMat 4 4 3) (exMat 4 4 7),
      .matrix ⟨0, 0, []⟩ (exMat 2 4 4), .matrix ⟨0, 0, []⟩ (exMat 2 4 6),
      .matrix ⟨2, 4, [false, false, false, false, false, true, true, true]⟩,
      .matrix ⟨2, 4, [true, false, false, false, false, true, true, false]⟩,
      .matrix ⟨2, 4, [true, false, true, true, true, true, false, false]⟩,
      .matrix ⟨4, 4, [true, false, true, true, true, false, false, true, true, true, true, false,
        false, false, false, true]⟩⟩] : List Item), it.Ok := by
  intro it hit
  simp only [List.mem_cons, List.not_mem_nil, or_false] at hit
  rcases hit with rfl | rfl
  · exact ⟨⟨rfl, rfl⟩, ⟨rfl, rfl⟩, rfl⟩
  · refine ⟨⟨rfl, ⟨rfl, rfl, rfl, by decide⟩, exMat_isMat _ _ _ (by decide),
      exMat_isMat _ _ _ (by decide), exMat_isMat _ _ _ (by decide), by decide +kernel⟩,
      ⟨rfl, ⟨rfl, rfl, rfl, by decide⟩, exMat_isMat _ _ _ (by decide),
      exMat_isMat _ _ _ (by decide), exMat_isMat _ _ _ (by decide), by decide +kernel⟩,
      rfl, rfl, rfl, by decide, exMat_isMat _ _ _ (by decide), exMat_isMat _ _ _ (by decide),
      ⟨rfl, rfl, rfl, by decide⟩, ⟨rfl, rfl, rfl, by decide⟩, by decide +kernel⟩

end Verif.Tensor
