import Mathlib.Data.BitVec
import Mathlib.Tactic.Ring
import Mathlib.Tactic.LinearCombination
import Verif.Mt.Provider
import Verif.Ot.ExtProps

/-!
Arithmetic triples from correlated OT (C23), and the Boolean provider on top of the OT extension.

`R` is `BitVec w`; `R::BITS = w`.
-/
set_option autoImplicit false

namespace Verif.Mt

open Verif.Ot (Prg SenderSt ReceiverSt Synced chosen ExtMsg Ev)

/-! ### The code -/

/-- arithmetic/ot_ext.rs:81-88 the correlation function (the block is truncated by `from_block` and
zero extended by `Block::from`).  The slice index never is out of range in the code, as `a` has
`amount` elements. -/
def correlation {w : Nat} (a : List (BitVec w)) (idx : Nat) (x : Block) : Block :=
  (a.getD (idx / w) 0 * 2#w ^ (idx % w) + x.setWidth w).setWidth 128

/-- arithmetic/ot_ext.rs:99 the bits of the little endian bytes of a slice. -/
def choiceBits {w : Nat} (b : List (BitVec w)) : List Bool :=
  b.flatMap fun x => (List.range w).map x.getLsbD

/-- arithmetic/ot_ext.rs:110-119 `reduce`, with `chunks_exact(R::BITS)`. -/
def reduceOts (w : Nat) (op : BitVec w → BitVec w → BitVec w) (ots : List Block) : List (BitVec w) :=
  (List.range (ots.length / w)).map fun k =>
    ((ots.drop (k * w)).take w).foldl (fun acc x => op acc (x.setWidth w)) 0

/-- arithmetic/ot_ext.rs:124-126. -/
def zipArith {w : Nat} : List (BitVec w) → List (BitVec w) → List (BitVec w) → List (BitVec w) →
    List (BitVec w)
  | a :: as, b :: bs, u :: us, v :: vs => (a * b + u + v) :: zipArith as bs us vs
  | _, _, _, _ => []

/-- arithmetic/ot_ext.rs:121-132 one party's triples from its samples and its OT results. -/
def arithMts {w : Nat} (a b : List (BitVec w)) (sendOts recvOts : List Block) :
    MulTriples (BitVec w) :=
  ⟨a, b, zipArith a b (reduceOts w (· - ·) sendOts) (reduceOts w (· + ·) recvOts)⟩

/-- arithmetic/ot_ext.rs:62-63: the number of OTs, and of elements of `a` and `b` (74-75). -/
def otAmount (w n : Nat) : Nat := nextMultipleOf8 (n * w)

/-- One direction of correlated OT with `LEN = 16` (`send_correlated`/`receive_correlated`): rows
delivered in order, then the correlation message.  `none` if one of the two does not succeed. -/
def corrRun {σ : Type} (g : Prg σ) (H : List Bool → Block) (s : SenderSt σ) (r : ReceiverSt σ)
    (count : Nat) (choices : List Bool) (corr : Nat → Block → Block) :
    Option (List Block × List Block × SenderSt σ × ReceiverSt σ) := do
  let (msgs, rots, r') ← Ot.receiveExt (T := BitVec (8 * 16)) g H r choices
  match ← Ot.sendExt g H s count (msgs.map .msg) with
  | .ok (pairs, s', _) =>
    let (ret, sent) ← Ot.sendCorr 16 corr pairs
    match ← Ot.receiveCorr 16 rots choices [.msg (.correlated sent)] with
    | .ok out => some (ret, out, s', r')
    | .error _ => none
  | .error _ => none

/-- The OT states of one party. -/
structure OtParty (σ : Type) where
  sender : SenderSt σ
  receiver : ReceiverSt σ

/-- arithmetic/ot_ext.rs:59-133 `compute_mts` of both parties, with their samples `a`, `b`. -/
def computeMts {σ : Type} {w : Nat} (g : Prg σ) (H : List Bool → Block) (p0 p1 : OtParty σ) (n : Nat)
    (a0 b0 a1 b1 : List (BitVec w)) :
    Option (MulTriples (BitVec w) × MulTriples (BitVec w) × OtParty σ × OtParty σ) := do
  let (send0, recv1, s0, r1) ← corrRun g H p0.sender p1.receiver (otAmount w n) (choiceBits b1)
    (correlation a0)
  let (send1, recv0, s1, r0) ← corrRun g H p1.sender p0.receiver (otAmount w n) (choiceBits b0)
    (correlation a1)
  pure (arithMts a0 b0 send0 recv0, arithMts a1 b1 send1 recv1, ⟨s0, r0⟩, ⟨s1, r1⟩)

/-- arithmetic/ot_ext.rs:157-167 `request_mts` when something is stored and it is long enough
(release build: in debug builds the assertion in `len` already fails if the columns differ). -/
def requestStored {w : Nat} (stored : MulTriples (BitVec w)) (amount : Nat) :
    Option (MulTriples (BitVec w) × MulTriples (BitVec w)) :=
  if amount ≤ stored.a.length then stored.splitOffLast amount else none

/-! ### Specification -/

def ArithValid {w : Nat} (s t : BitVec w × BitVec w × BitVec w) : Prop :=
  (s.1 + t.1) * (s.2.1 + t.2.1) = s.2.2 + t.2.2

instance {w : Nat} (s t : BitVec w × BitVec w × BitVec w) : Decidable (ArithValid s t) := by
  unfold ArithValid; infer_instance

/-- What correlated OT provides (the conclusion of `Ot.correlated_ot_ext`). -/
def CorrOk (corr : Nat → Block → Block) (choices : List Bool) (ret out : List Block) : Prop :=
  out = List.zipWith (fun (x : Nat × Block) c => if c then corr x.1 x.2 else x.2)
    (ret.mapIdx fun i y => (i, y)) choices

/-! ### Lemmas -/

theorem chunk_eq (l : List Block) (p w : Nat) (h : p + w ≤ l.length) :
    (l.drop p).take w = (List.range w).map fun j => l.getD (p + j) 0 := by
  apply List.ext_getElem
  · simp; omega
  · intro i h1 h2
    simp only [List.length_map, List.length_range] at h2
    simp [List.getElem?_eq_getElem (show p + i < l.length by omega)]

theorem foldl_sub {w : Nat} (f : Nat → BitVec w) (k : Nat) :
    (List.range k).foldl (fun acc j => acc - f j) 0 =
      - (List.range k).foldl (fun acc j => acc + f j) 0 := by
  induction k with
  | zero => simp
  | succ k ih => rw [List.range_succ, List.foldl_append, List.foldl_append, ih]; simp; ring

theorem foldl_choice {w : Nat} (a b : BitVec w) (f : Nat → BitVec w) (k : Nat) (hk : k ≤ w) :
    (List.range k).foldl (fun acc j => acc + if b.getLsbD j then a * 2#w ^ j + f j else f j) 0 =
      (List.range k).foldl (fun acc j => acc + f j) 0 + a * BitVec.ofNat w (b.toNat % 2 ^ k) := by
  induction k with
  | zero => simp [Nat.mod_one]
  | succ k ih =>
    rw [List.range_succ, List.foldl_append, List.foldl_append, ih (by omega), Nat.mod_pow_succ,
      ← Nat.toNat_testBit]
    simp only [List.foldl_cons, List.foldl_nil, BitVec.getLsbD]
    rw [BitVec.ofNat_add]
    by_cases hb : b.toNat.testBit k = true
    · have : BitVec.ofNat w (2 ^ k * (b.toNat.testBit k).toNat) = 2#w ^ k := by
        rw [hb, Bool.toNat_true, Nat.mul_one]
        exact Nat.cast_pow (α := BitVec w) 2 k
      rw [this, if_pos hb]; ring
    · have : BitVec.ofNat w (2 ^ k * (b.toNat.testBit k).toNat) = 0 := by
        simp [hb]
      rw [this, if_neg hb]; ring

theorem foldl_choice_full {w : Nat} (a b : BitVec w) (f : Nat → BitVec w) :
    (List.range w).foldl (fun acc j => acc + if b.getLsbD j then a * 2#w ^ j + f j else f j) 0 =
      (List.range w).foldl (fun acc j => acc + f j) 0 + a * b := by
  rw [foldl_choice a b f w le_rfl, Nat.mod_eq_of_lt b.isLt]
  simp

theorem choiceBits_length {w : Nat} (b : List (BitVec w)) : (choiceBits b).length = b.length * w := by
  induction b with
  | nil => simp [choiceBits]
  | cons x b ih =>
    simp only [choiceBits, List.flatMap_cons, List.length_append, List.length_map, List.length_range,
      List.length_cons] at ih ⊢
    rw [ih]; ring

theorem choiceBits_get {w : Nat} (b : List (BitVec w)) (k j : Nat) (hk : k < b.length) (hj : j < w) :
    (choiceBits b)[k * w + j]? = some (b[k].getLsbD j) := by
  induction b generalizing k with
  | nil => simp at hk
  | cons x b ih =>
    simp only [choiceBits, List.flatMap_cons]
    cases k with
    | zero =>
      rw [List.getElem?_append_left (by simpa using hj)]
      simp [hj]
    | succ k =>
      rw [List.getElem?_append_right (by
        simp only [List.length_map, List.length_range, Nat.add_mul, Nat.one_mul]; omega)]
      simp only [List.length_map, List.length_range]
      rw [show (k + 1) * w + j - w = k * w + j by
        rw [Nat.add_mul, Nat.one_mul]; omega]
      simpa [choiceBits] using ih k (by simpa using hk)

/-- The two reductions of one direction of correlated OT. -/
theorem reduce_pair {w n : Nat} (hw : 0 < w) (hw' : w ≤ 128) (a b : List (BitVec w))
    (hn : n ≤ b.length)
    (ret out : List Block) (hret : ret.length = n * w)
    (hok : CorrOk (correlation a) (choiceBits b) ret out) :
    (reduceOts w (· - ·) ret).length = n ∧ (reduceOts w (· + ·) out).length = n ∧
    ∀ k (h1 : k < (reduceOts w (· - ·) ret).length) (h2 : k < (reduceOts w (· + ·) out).length)
      (h3 : k < a.length) (h4 : k < b.length),
      (reduceOts w (· - ·) ret)[k] + (reduceOts w (· + ·) out)[k] = a[k] * b[k] := by
  have hnw : n * w ≤ b.length * w := Nat.mul_le_mul_right w hn
  have hout : out.length = n * w := by
    rw [hok]; simp [hret, choiceBits_length]; omega
  have l1 : ret.length / w = n := by rw [hret]; exact Nat.mul_div_cancel n hw
  have l2 : out.length / w = n := by rw [hout]; exact Nat.mul_div_cancel n hw
  refine ⟨by simp [reduceOts, l1], by simp [reduceOts, l2], ?_⟩
  intro k h1 h2 h3 h4
  have hk : k < n := by simpa [reduceOts, l1] using h1
  have hkw : k * w + w ≤ n * w := by
    have := Nat.mul_le_mul_right w (show k + 1 ≤ n from hk)
    rw [Nat.add_mul, Nat.one_mul] at this; exact this
  simp only [reduceOts, List.getElem_map, List.getElem_range]
  rw [chunk_eq ret (k * w) w (by omega), chunk_eq out (k * w) w (by omega), List.foldl_map,
    List.foldl_map, foldl_sub (fun j => (ret.getD (k * w + j) 0).setWidth w)]
  have hchunk : (List.range w).foldl (fun acc j => acc + (out.getD (k * w + j) 0).setWidth w) 0 =
      (List.range w).foldl (fun acc j => acc + if b[k].getLsbD j then
        a[k] * 2#w ^ j + (ret.getD (k * w + j) 0).setWidth w
        else (ret.getD (k * w + j) 0).setWidth w) 0 := by
    apply List.foldl_ext
    intro acc j hj
    rw [List.mem_range] at hj
    have hlt : k * w + j < n * w := by omega
    have hc := choiceBits_get b k j h4 hj
    have ho : out.getD (k * w + j) 0 = if b[k].getLsbD j then
        correlation a (k * w + j) (ret.getD (k * w + j) 0) else ret.getD (k * w + j) 0 := by
      have e : out[k * w + j]? = some (if b[k].getLsbD j then
        correlation a (k * w + j) (ret.getD (k * w + j) 0) else ret.getD (k * w + j) 0) := by
        rw [hok, List.getElem?_zipWith, List.getElem?_mapIdx, hc,
          List.getElem?_eq_getElem (show k * w + j < ret.length by omega)]
        simp [List.getElem?_eq_getElem (show k * w + j < ret.length by omega)]
      rw [List.getD_eq_getElem?_getD, e]; rfl
    rw [ho]
    cases b[k].getLsbD j with
    | false => simp
    | true =>
      simp only [if_true, correlation]
      have d1 : (k * w + j) / w = k := by
        rw [Nat.mul_comm, Nat.mul_add_div hw, Nat.div_eq_of_lt hj, Nat.add_zero]
      have d2 : (k * w + j) % w = j := by
        rw [Nat.mul_comm, Nat.mul_add_mod, Nat.mod_eq_of_lt hj]
      rw [d1, d2, BitVec.setWidth_setWidth_of_le _ hw', List.getD_eq_getElem?_getD (l := a),
        List.getElem?_eq_getElem h3]
      simp
  rw [hchunk, foldl_choice_full]
  ring

theorem zipArith_length {w n : Nat} {a b u v : List (BitVec w)} (ha : n ≤ a.length)
    (hb : n ≤ b.length) (hu : u.length = n) (hv : v.length = n) :
    (zipArith a b u v).length = n := by
  induction n generalizing a b u v with
  | zero =>
    obtain rfl := List.length_eq_zero_iff.1 hu
    cases a <;> cases b <;> simp [zipArith]
  | succ n ih =>
    match a, b, u, v, ha, hb, hu, hv with
    | x :: a, y :: b, p :: u, q :: v, ha, hb, hu, hv =>
      simp only [List.length_cons, Nat.add_le_add_iff_right, Nat.add_right_cancel_iff] at ha hb hu hv
      simp [zipArith, ih ha hb hu hv]

theorem zipArith_get {w : Nat} (a b u v : List (BitVec w)) (k : Nat) (h1 : k < a.length)
    (h2 : k < b.length) (h3 : k < u.length) (h4 : k < v.length) :
    (zipArith a b u v)[k]? = some (a[k] * b[k] + u[k] + v[k]) := by
  induction a generalizing b u v k with
  | nil => simp at h1
  | cons x a ih =>
    match b, u, v, h2, h3, h4 with
    | y :: b, p :: u, q :: v, h2, h3, h4 =>
      cases k with
      | zero => simp [zipArith]
      | succ k =>
        simp only [List.length_cons, Nat.add_lt_add_iff_right] at h1 h2 h3 h4
        simpa [zipArith] using ih b u v k h1 h2 h3 h4

/-- From correlated OTs in both directions, the parties hold `n` triples that are valid index by
index (the iterator stops at the shortest column). -/
theorem arith_triples_valid {w n : Nat} (hw : 0 < w) (hw' : w ≤ 128) (a0 b0 a1 b1 : List (BitVec w))
    (la0 : n ≤ a0.length) (lb0 : n ≤ b0.length) (la1 : n ≤ a1.length) (lb1 : n ≤ b1.length)
    (send0 recv0 send1 recv1 : List Block) (ls0 : send0.length = n * w) (ls1 : send1.length = n * w)
    (h01 : CorrOk (correlation a0) (choiceBits b1) send0 recv1)
    (h10 : CorrOk (correlation a1) (choiceBits b0) send1 recv0) :
    (arithMts a0 b0 send0 recv0).c.length = n ∧ (arithMts a1 b1 send1 recv1).c.length = n ∧
    (arithMts a0 b0 send0 recv0).rows.length = n ∧
    List.Forall₂ ArithValid (arithMts a0 b0 send0 recv0).rows (arithMts a1 b1 send1 recv1).rows := by
  obtain ⟨u0, v1, e01⟩ := reduce_pair hw hw' a0 b1 lb1 send0 recv1 ls0 h01
  obtain ⟨u1, v0, e10⟩ := reduce_pair hw hw' a1 b0 lb0 send1 recv0 ls1 h10
  have c0 := zipArith_length la0 lb0 u0 v0
  have c1 := zipArith_length la1 lb1 u1 v1
  have r0 : (arithMts a0 b0 send0 recv0).rows.length = n := by
    simp [arithMts, MulTriples.rows, c0]; omega
  have r1 : (arithMts a1 b1 send1 recv1).rows.length = n := by
    simp [arithMts, MulTriples.rows, c1]; omega
  refine ⟨c0, c1, r0, ?_⟩
  rw [List.forall₂_iff_get]
  refine ⟨by omega, ?_⟩
  intro k h h'
  have hk : k < n := by omega
  have g0 := zipArith_get a0 b0 _ _ k (by omega) (by omega) (u0 ▸ hk) (v0 ▸ hk)
  have g1 := zipArith_get a1 b1 _ _ k (by omega) (by omega) (u1 ▸ hk) (v1 ▸ hk)
  have q01 := e01 k (u0 ▸ hk) (v1 ▸ hk) (by omega) (by omega)
  have q10 := e10 k (u1 ▸ hk) (v0 ▸ hk) (by omega) (by omega)
  rw [List.getElem?_eq_getElem (c0 ▸ hk), Option.some.injEq] at g0
  rw [List.getElem?_eq_getElem (c1 ▸ hk), Option.some.injEq] at g1
  simp only [List.get_eq_getElem, MulTriples.rows, arithMts, List.getElem_zip, ArithValid, g0, g1]
  have : ∀ x0 y0 x1 y1 p q r s : BitVec w, p + q = x0 * y1 → r + s = x1 * y0 →
      (x0 + x1) * (y0 + y1) = x0 * y0 + p + s + (x1 * y1 + r + q) := by
    intro x0 y0 x1 y1 p q r s h1 h2
    linear_combination -h1 - h2
  exact this _ _ _ _ _ _ _ _ q01 q10

/-! ### C23 -/

theorem corrRun_ok {σ : Type} (g : Prg σ) (H : List Bool → Block) {s : SenderSt σ} {r : ReceiverSt σ}
    (hs : Synced s r) (hpos : 0 < s.choices.length) (choices : List Bool)
    (h8 : choices.length % 8 = 0) (count : Nat) (hc : count ≤ choices.length) (hc8 : count % 8 = 0)
    (hpre : ∀ x, (g.fill x (count / 8)).1 = (g.fill x (choices.length / 8)).1.take count)
    (corr : Nat → Block → Block) :
    ∃ ret out s' r', corrRun g H s r count choices corr = some (ret, out, s', r') ∧
      ret.length = count ∧ CorrOk corr choices ret out ∧
      (count = choices.length → Synced s' r' ∧ s'.choices = s.choices) := by
  obtain ⟨msgs, rots, r', e1, l1, hb⟩ := Ot.batch_general (T := BitVec (8 * 16)) g H hs hpos choices
    h8 count hc hc8 hpre
  obtain ⟨pairs, s', f1, f2, f3, f4⟩ := hb msgs [] (List.Perm.refl _)
  obtain ⟨ret, sent, out, c1, c2, c3, c4⟩ := Ot.correlated_ot 16 (by decide) corr pairs choices rots
    (by rw [f2]; exact f3) (by omega) (by omega) []
  rw [List.append_nil] at f1
  refine ⟨ret, out, s', r', ?_, by omega, c4, f4⟩
  have f1' : Ot.sendExt g H s count (msgs.map .msg) = some (.ok (pairs, s', [])) := f1
  simp only [corrRun, e1, Option.bind_eq_bind, Option.bind_some, f1']
  rw [show Ot.sendCorr 16 corr pairs = some (ret, sent) from c1]
  simp only [Option.bind_some]
  rw [show Ot.receiveCorr 16 rots choices [.msg (.correlated sent)] = some (.ok out) from c2]
  rfl

theorem otAmount_eq {w n : Nat} (hw : w % 8 = 0) : otAmount w n = n * w := by
  unfold otAmount nextMultipleOf8
  rw [if_pos (by rw [Nat.mul_mod, hw]; simp)]

/-- What holds of C23: the first call of `compute_mts` (a request without precomputation) for `n`
triples of a ring of width 8, 16, ..., 128, when the generators are prefix consistent (`hpre`, needed
because the receiving side asks for `w` times as many OTs as the sending side), gives both parties
stores whose iterators yield `n` triples, valid index by index.  Missing: stores whose columns have
equal length, precomputation, and later calls, see `precompute_then_request_panics` and
`second_request_invalid`. -/
theorem arith_request_valid_partial {σ : Type} {w : Nat} (hw : 0 < w) (hw' : w ≤ 128) (h8 : w % 8 = 0)
    (g : Prg σ) (H : List Bool → Block)
    (hpre : ∀ x m n, m ≤ n → (g.fill x m).1 = (g.fill x n).1.take (8 * m))
    (p0 p1 : OtParty σ) (h01 : Synced p0.sender p1.receiver) (h10 : Synced p1.sender p0.receiver)
    (q0 : 0 < p0.sender.choices.length) (q1 : 0 < p1.sender.choices.length)
    (n : Nat) (a0 b0 a1 b1 : List (BitVec w))
    (la0 : a0.length = otAmount w n) (lb0 : b0.length = otAmount w n)
    (la1 : a1.length = otAmount w n) (lb1 : b1.length = otAmount w n) :
    ∃ m0 m1 p0' p1', computeMts g H p0 p1 n a0 b0 a1 b1 = some (m0, m1, p0', p1') ∧
      m0.a = a0 ∧ m0.b = b0 ∧ m0.c.length = n ∧ m1.a = a1 ∧ m1.b = b1 ∧ m1.c.length = n ∧
      m0.rows.length = n ∧ List.Forall₂ ArithValid m0.rows m1.rows := by
  have hw1 : 1 ≤ w := hw
  rw [otAmount_eq h8] at *
  have hle : n ≤ n * w := Nat.le_mul_of_pos_right n hw
  have hmod : (n * w) % 8 = 0 := by rw [Nat.mul_mod, h8]; simp
  have hmod2 : (n * w * w) % 8 = 0 := by rw [Nat.mul_mod, h8]; simp
  have hnw : n * w ≤ n * w * w := Nat.le_mul_of_pos_right _ hw
  have hp : ∀ x, (g.fill x (n * w / 8)).1 = (g.fill x (n * w * w / 8)).1.take (n * w) := by
    intro x
    rw [hpre x (n * w / 8) (n * w * w / 8) (Nat.div_le_div_right hnw)]
    congr 1
    omega
  obtain ⟨s0, o1, x0, y1, e1, k1, ok1, -⟩ := corrRun_ok g H h01 q0 (choiceBits b1)
    (by rw [choiceBits_length, lb1]; exact hmod2) (n * w) (by rw [choiceBits_length, lb1]; exact hnw)
    hmod (by rw [choiceBits_length, lb1]; exact hp) (correlation a0)
  obtain ⟨s1, o0, x1, y0, e2, k2, ok2, -⟩ := corrRun_ok g H h10 q1 (choiceBits b0)
    (by rw [choiceBits_length, lb0]; exact hmod2) (n * w) (by rw [choiceBits_length, lb0]; exact hnw)
    hmod (by rw [choiceBits_length, lb0]; exact hp) (correlation a1)
  obtain ⟨v1, v2, v3, v4⟩ := arith_triples_valid hw hw' a0 b0 a1 b1 (by omega) (by omega) (by omega)
    (by omega) s0 o0 s1 o1 k1 k2 ok1 ok2
  refine ⟨arithMts a0 b0 s0 o0, arithMts a1 b1 s1 o1, ⟨x0, y0⟩, ⟨x1, y1⟩, ?_, rfl, rfl, v1, rfl, rfl,
    v2, v3, v4⟩
  simp only [computeMts, otAmount_eq h8, e1, e2, Option.bind_eq_bind, Option.bind_some]
  rfl

/-- C23 does not hold: after `precompute_mts(n)` every request for at most `n` triples panics, for
every ring of at least eight bits and every `n > 0` (also when nothing is requested), because the
columns `a` and `b` are `w` times as long as `c`. -/
theorem precompute_then_request_panics {w n : Nat} (hw : 8 ≤ w) (hn : 0 < n)
    (stored : MulTriples (BitVec w)) (la : stored.a.length = otAmount w n)
    (lc : stored.c.length = n) (amount : Nat) (ha : amount ≤ n) :
    requestStored stored amount = none := by
  have h1 : n * w ≤ otAmount w n := (nextMultipleOf8_spec (n * w)).1
  have h2 : n * 8 ≤ n * w := Nat.mul_le_mul_left n hw
  have hc : ¬ stored.a.length - amount ≤ stored.c.length := by omega
  unfold requestStored
  simp only [MulTriples.splitOffLast, MulTriples.len, MulTriples.splitOff]
  repeat' split
  all_goals simp
  all_goals omega

/-- A generator with a position as state. -/
def posPrg : Prg Nat :=
  ⟨fun s n => ((List.range (8 * n)).map fun i => (s + i) / 64 % 2 == 1, s + 8 * n),
    fun s n => by simp⟩

theorem posPrg_prefix (x m n : Nat) (h : m ≤ n) :
    (posPrg.fill x m).1 = (posPrg.fill x n).1.take (8 * m) := by
  simp only [posPrg]
  rw [← List.map_take, List.take_range, Nat.min_eq_left (by omega)]

/-- One base OT in each direction, both generators equal. -/
def startParty : OtParty Nat := ⟨⟨[0], [true]⟩, ⟨[(0, 0)]⟩⟩

def startHash (c : List Bool) : Block := if c == [true] then 1#128 else 0#128

theorem start_synced : Synced startParty.sender startParty.receiver := ⟨rfl, rfl⟩

/-- C23 does not hold for a second request either: two requests of one triple of a `u8`, with OT
states as they are after correct base OTs and a prefix consistent generator; the triple of the second
request is not valid, because the generators of the two sides of the OT have moved different
distances. -/
theorem second_request_check :
    ((computeMts posPrg startHash startParty startParty 1 (List.replicate 8 1#8)
        (List.replicate 8 0#8) (List.replicate 8 1#8) (List.replicate 8 0#8)).any
      fun (m0, m1, p0, p1) => (m0.rows.zip m1.rows).all (fun x => decide (ArithValid x.1 x.2)) &&
        decide (m0.rows.length = m1.rows.length) &&
        (computeMts posPrg startHash p0 p1 1 (List.replicate 8 1#8)
          (List.replicate 8 0#8) (List.replicate 8 1#8) (List.replicate 8 0#8)).any
        fun (k0, k1, _) => decide (k0.rows.length = 1) &&
          !((k0.rows.zip k1.rows).all (fun x => decide (ArithValid x.1 x.2)))) = true := by
  decide +kernel

theorem second_request_invalid :
    ∃ (a b : List (BitVec 8)) (m0 m1 k0 k1 : MulTriples (BitVec 8)) (p0 p1 p0' p1' : OtParty Nat),
      a.length = otAmount 8 1 ∧ b.length = otAmount 8 1 ∧
      computeMts posPrg startHash startParty startParty 1 a b a b = some (m0, m1, p0, p1) ∧
      List.Forall₂ ArithValid m0.rows m1.rows ∧
      computeMts posPrg startHash p0 p1 1 a b a b = some (k0, k1, p0', p1') ∧
      k0.rows.length = 1 ∧ ¬ List.Forall₂ ArithValid k0.rows k1.rows := by
  have h := second_request_check
  rw [Option.any_eq_true] at h
  obtain ⟨⟨m0, m1, p0, p1⟩, e1, h⟩ := h
  simp only [Bool.and_eq_true, decide_eq_true_eq] at h
  obtain ⟨⟨h1, h2⟩, h3⟩ := h
  rw [Option.any_eq_true] at h3
  obtain ⟨⟨k0, k1, p0', p1'⟩, e2, h3⟩ := h3
  simp only [Bool.and_eq_true, decide_eq_true_eq, Bool.not_eq_true'] at h3
  refine ⟨_, _, m0, m1, k0, k1, p0, p1, p0', p1', rfl, rfl, e1, ?_, e2, h3.1, ?_⟩
  · rw [List.forall₂_iff_zip]
    refine ⟨h2, fun {a b} hab => ?_⟩
    exact of_decide_eq_true (List.all_eq_true.1 h1 _ hab)
  · intro hv
    have : (k0.rows.zip k1.rows).all (fun x => decide (ArithValid x.1 x.2)) = true := by
      rw [List.all_eq_true]
      rintro ⟨a, b⟩ hab
      exact decide_eq_true ((List.forall₂_iff_zip.1 hv).2 hab)
    rw [this] at h3
    exact absurd h3.2 (by decide)

/-! ### Boolean triples on top of the OT extension -/

/-- One direction of random OT, rows delivered in order. -/
def rotRun {σ : Type} (g : Prg σ) (H : List Bool → Block) (s : SenderSt σ) (r : ReceiverSt σ)
    (count : Nat) (choices : List Bool) :
    Option (List (Block × Block) × List Block × SenderSt σ × ReceiverSt σ) := do
  let (msgs, rots, r') ← Ot.receiveExt (T := Unit) g H r choices
  match ← Ot.sendExt g H s count (msgs.map .msg) with
  | .ok (pairs, s', _) => some (pairs, rots, s', r')
  | .error _ => none

/-- boolean/ot_ext.rs:79-128 `compute_mts` of both parties, with their samples `a`. -/
def boolMts {σ : Type} (g : Prg σ) (H : List Bool → Block) (p0 p1 : OtParty σ) (n : Nat)
    (a0 a1 : List Bool) : Option (MulTriples Bool × MulTriples Bool × OtParty σ × OtParty σ) := do
  let (send0, recv1, s0, r1) ← rotRun g H p0.sender p1.receiver (nextMultipleOf8 n) a1
  let (send1, recv0, s1, r0) ← rotRun g H p1.sender p0.receiver (nextMultipleOf8 n) a0
  let m0 ← mtsFromRots a0 send0 recv0
  let m1 ← mtsFromRots a1 send1 recv1
  pure (m0, m1, ⟨s0, r0⟩, ⟨s1, r1⟩)

/-- Any number of calls; for each the amount and the samples of the two parties. -/
def boolMtsAll {σ : Type} (g : Prg σ) (H : List Bool → Block) (p0 p1 : OtParty σ) :
    List (Nat × List Bool × List Bool) →
    Option (List (MulTriples Bool × MulTriples Bool) × OtParty σ × OtParty σ)
  | [] => some ([], p0, p1)
  | (n, a0, a1) :: cs => do
    let (m0, m1, p0, p1) ← boolMts g H p0 p1 n a0 a1
    let (ms, p0, p1) ← boolMtsAll g H p0 p1 cs
    pure ((m0, m1) :: ms, p0, p1)

theorem rotRun_ok {σ : Type} (g : Prg σ) (H : List Bool → Block) {s : SenderSt σ} {r : ReceiverSt σ}
    (hs : Synced s r) (hpos : 0 < s.choices.length) (choices : List Bool)
    (h8 : choices.length % 8 = 0) :
    ∃ pairs rots s' r', rotRun g H s r choices.length choices = some (pairs, rots, s', r') ∧
      RotOk pairs choices rots ∧ Synced s' r' ∧ s'.choices = s.choices := by
  obtain ⟨msgs, rots, r', e1, l1, hb⟩ := Ot.batch_general (T := Unit) g H hs hpos choices
    h8 choices.length le_rfl h8 (by intro x; rw [List.take_of_length_le]; rw [g.length]; omega)
  obtain ⟨pairs, s', f1, f2, f3, f4⟩ := hb msgs [] (List.Perm.refl _)
  rw [List.append_nil] at f1
  refine ⟨pairs, rots, s', r', ?_, ⟨f2, ?_⟩, (f4 rfl).1, (f4 rfl).2⟩
  · simp only [rotRun, e1, Option.bind_eq_bind, Option.bind_some, f1]
  · rw [List.take_of_length_le (by omega), List.take_length] at f3; exact f3

/-- C19 on top of C28: any number of calls of the OT based Boolean provider, starting from correct
base OTs, gives both parties for every call at least as many triples as asked for, valid index by
index. -/
theorem boolean_ot_history {σ : Type} (g : Prg σ) (H : List Bool → Block) (p0 p1 : OtParty σ)
    (h01 : Synced p0.sender p1.receiver) (h10 : Synced p1.sender p0.receiver)
    (q0 : 0 < p0.sender.choices.length) (q1 : 0 < p1.sender.choices.length)
    (calls : List (Nat × List Bool × List Bool))
    (hc : ∀ c ∈ calls, c.2.1.length = nextMultipleOf8 c.1 ∧ c.2.2.length = nextMultipleOf8 c.1) :
    ∃ ms p0' p1', boolMtsAll g H p0 p1 calls = some (ms, p0', p1') ∧
      List.Forall₂ (fun (m : MulTriples Bool × MulTriples Bool) c =>
        m.1.WF ∧ m.2.WF ∧ m.1.a = c.2.1 ∧ m.2.a = c.2.2 ∧ c.1 ≤ m.1.rows.length ∧
        List.Forall₂ Valid m.1.rows m.2.rows) ms calls := by
  induction calls generalizing p0 p1 with
  | nil => exact ⟨[], p0, p1, rfl, .nil⟩
  | cons c cs ih =>
    obtain ⟨n, a0, a1⟩ := c
    obtain ⟨l0, l1⟩ := hc (n, a0, a1) (by simp)
    simp only at l0 l1
    obtain ⟨hle, h8, -⟩ := nextMultipleOf8_spec n
    obtain ⟨s0, o1, x0, y1, e1, k1, c1, d1⟩ := rotRun_ok g H h01 q0 a1 (by rw [l1]; omega)
    obtain ⟨s1, o0, x1, y0, e2, k2, c2, d2⟩ := rotRun_ok g H h10 q1 a0 (by rw [l0]; omega)
    obtain ⟨m0, m1, f0, f1, g0, g1, w0, w1, len, hv⟩ := rot_triples_valid l0 l1 k1 k2
    obtain ⟨ms, p0', p1', r1, r2⟩ := ih ⟨x0, y0⟩ ⟨x1, y1⟩ c1 c2 (d1 ▸ q0) (d2 ▸ q1)
      (fun c h => hc c (by simp [h]))
    refine ⟨(m0, m1) :: ms, p0', p1', ?_, .cons ⟨w0, w1, g0, g1, by show n ≤ m0.rows.length; omega, hv⟩ r2⟩
    rw [l1] at e1; rw [l0] at e2
    simp only [boolMtsAll, boolMts, e1, e2, f0, f1, r1, Option.bind_eq_bind, Option.bind_some,
      Option.pure_def]

/-- The hypotheses can be met: the state after base OTs, two calls for one and nine triples. -/
example : Synced startParty.sender startParty.receiver ∧ 0 < startParty.sender.choices.length ∧
    ∀ c ∈ [(1, List.replicate 8 true, List.replicate 8 false),
        (9, List.replicate 16 true, List.replicate 16 true)],
      c.2.1.length = nextMultipleOf8 c.1 ∧ c.2.2.length = nextMultipleOf8 c.1 := by
  refine ⟨start_synced, by decide, by decide⟩

/-- Those of the arithmetic theorem too. -/
example : (∀ x m n, m ≤ n → (posPrg.fill x m).1 = (posPrg.fill x n).1.take (8 * m)) ∧
    Synced startParty.sender startParty.receiver ∧ otAmount 16 2 = 32 :=
  ⟨posPrg_prefix, start_synced, by decide⟩

end Verif.Mt
