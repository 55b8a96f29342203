import Mathlib.Tactic.Ring
import Verif.Mixed.Layer
import Verif.Adder.Props

/-!
Conversions (C41, C42), what goes wrong with several of them, and share storages (C57).
-/
set_option autoImplicit false

namespace Verif.Mixed

/-! ### Local gates -/

/-- Both shares of a value. -/
def combine {w : Nat} : Val w → Val w → Option (Val w)
  | .bool x, .bool y => some (.bool (x ^^ y))
  | .arith x, .arith y => some (.arith (x + y))
  | _, _ => none

/-- C41, constants and local gates: evaluated by both parties on their shares, they yield shares of
the result on the shared values. -/
theorem mixed_local_correct {w : Nat} :
    (∀ v : Val w, combine (shareConstant 0 v) (shareConstant 1 v) = some v) ∧
    (∀ x0 x1 y0 y1 : Bool, ∃ z0 z1,
      evalLocal (w := w) 0 (.bool .xor) [.bool x0, .bool y0] = some z0 ∧
      evalLocal (w := w) 1 (.bool .xor) [.bool x1, .bool y1] = some z1 ∧
      combine z0 z1 = some (.bool ((x0 ^^ x1) ^^ (y0 ^^ y1)))) ∧
    (∀ x0 x1 : Bool, ∃ z0 z1,
      evalLocal (w := w) 0 (.bool .inv) [.bool x0] = some z0 ∧
      evalLocal (w := w) 1 (.bool .inv) [.bool x1] = some z1 ∧
      combine z0 z1 = some (.bool (!(x0 ^^ x1)))) ∧
    (∀ x0 x1 y0 y1 : BitVec w, ∃ z0 z1,
      evalLocal 0 (.arith .add) [.arith x0, .arith y0] = some z0 ∧
      evalLocal 1 (.arith .add) [.arith x1, .arith y1] = some z1 ∧
      combine z0 z1 = some (.arith ((x0 + x1) + (y0 + y1)))) ∧
    (∀ x0 x1 y0 y1 : BitVec w, ∃ z0 z1,
      evalLocal 0 (.arith .sub) [.arith x0, .arith y0] = some z0 ∧
      evalLocal 1 (.arith .sub) [.arith x1, .arith y1] = some z1 ∧
      combine z0 z1 = some (.arith ((x0 + x1) - (y0 + y1)))) ∧
    (∀ (g : Gmw.BaseGate (Val w)) (x0 x1 v : Val w), (∀ c, g ≠ .constant c) →
      (∀ k, g ≠ .connectToMainFromSimd k) → combine x0 x1 = some v →
      ∃ z0 z1, evalLocal 0 (.base g) [x0] = some z0 ∧ evalLocal 1 (.base g) [x1] = some z1 ∧
        combine z0 z1 = some v) := by
  refine ⟨?_, ?_, ?_, ?_, ?_, ?_⟩
  · intro v
    cases v with
    | bool b => simp [combine, shareConstant, Gmw.shareConstant]
    | arith a => simp [combine, shareConstant]
  · intro x0 x1 y0 y1
    refine ⟨_, _, rfl, rfl, ?_⟩
    cases x0 <;> cases x1 <;> cases y0 <;> cases y1 <;> rfl
  · intro x0 x1
    refine ⟨_, _, rfl, rfl, ?_⟩
    cases x0 <;> cases x1 <;> rfl
  · intro x0 x1 y0 y1
    refine ⟨_, _, rfl, rfl, ?_⟩
    simp only [combine, Option.some.injEq, Val.arith.injEq]
    ring
  · intro x0 x1 y0 y1
    refine ⟨_, _, rfl, rfl, ?_⟩
    simp only [combine, Option.some.injEq, Val.arith.injEq]
    ring
  · intro g x0 x1 v hg hg' h
    cases g with
    | constant c => exact absurd rfl (hg c)
    | connectToMainFromSimd k => exact absurd rfl (hg' k)
    | _ => exact ⟨x0, x1, rfl, rfl, h⟩

/-! ### Arithmetic to Boolean conversion -/

/-- mixed_gmw.rs:761-769 (`a2b`): the inputs of the addition circuit at one party, from the outputs of
the `A2BBoolShareSnd` and the `A2BBoolShareRcv` gate. -/
def a2bInputs {w : Nat} (party : Nat) (snd rcv : BitVec w) : Option (List (Val w)) := do
  let sw0 ← evalLocal party (.conv .select) [.arith snd, .arith rcv]
  let sw1 ← evalLocal party (.conv .select) [.arith rcv, .arith snd]
  let b0 ← (List.range w).mapM fun i => evalLocal party (.conv (.selectBit i)) [sw0]
  let b1 ← (List.range w).mapM fun i => evalLocal party (.conv (.selectBit i)) [sw1]
  some (b0 ++ b1)

theorem selectBits {w : Nat} (party : Nat) (v : BitVec w) :
    (List.range w).mapM (fun i => evalLocal party (.conv (.selectBit i)) [.arith v])
      = some ((Adder.bitsOf v).map .bool) := by
  have : ∀ n ≤ w, (List.range n).mapM (fun i => evalLocal party (.conv (.selectBit i)) [.arith v])
      = some (((List.range n).map fun i => v.getLsbD i).map .bool) := by
    intro n hn
    induction n with
    | zero => rfl
    | succ n ih =>
      rw [List.range_succ, List.mapM_append, ih (by omega)]
      simp [evalLocal, getBit_eq v n (by omega)]
  exact this w le_rfl

theorem a2bInputs_eq {w : Nat} (party : Nat) (snd rcv : BitVec w) :
    a2bInputs party snd rcv = some ((if party = 0 then Adder.bitsOf snd ++ Adder.bitsOf rcv
      else Adder.bitsOf rcv ++ Adder.bitsOf snd).map .bool) := by
  by_cases h : party = 0
  · simp [a2bInputs, evalLocal, h]
    have := selectBits (w := w) 0
    simp only [evalLocal] at this
    simp [this]
  · simp [a2bInputs, evalLocal, h]
    have := selectBits (w := w) party
    simp only [evalLocal] at this
    simp [this]

theorem bitsOf_xor {w : Nat} (x y : BitVec w) :
    Gmw.xorL (Adder.bitsOf x) (Adder.bitsOf y) = Adder.bitsOf (x ^^^ y) := by
  apply List.ext_getElem
  · simp [Gmw.xorL, Adder.bitsOf]
  · intro i h1 h2
    simp [Gmw.xorL, Adder.bitsOf]

/-- C42: when the resharing gates delivered XOR shares of the arithmetic shares `r0`, `r1` of the two
parties, `a2b` feeds the addition circuit with XOR shares of the bits of `r0` and of `r1`, and executing the
circuit gives XOR shares of the bits of the plain value `r0 + r1`. -/
theorem a2b_correct {w : Nat} (s : List Char) (hf : Adder.fileFor w = some s)
    (r0 r1 snd0 rcv0 snd1 rcv1 : BitVec w) (h0 : snd0 ^^^ rcv1 = r0) (h1 : snd1 ^^^ rcv0 = r1)
    (setup0 setup1 : Nat → Nat → List Gmw.Triple)
    (hset : ∀ k n, Gmw.Matching (setup0 k n) (setup1 k n) ∧ n ≤ (setup0 k n).length)
    (init0 init1 : Exec.Store Bool (List Bool)) :
    ∃ x0 x1 c o0 o1, a2bInputs 0 snd0 rcv0 = some (x0.map .bool) ∧
      a2bInputs 1 snd1 rcv1 = some (x1.map .bool) ∧
      Gmw.xorL x0 x1 = Adder.bitsOf r0 ++ Adder.bitsOf r1 ∧
      (Parse.circuit s).map (fun b => Parse.fromBristol b .circuit) = some (.ok c) ∧
      Proc.Runs (Exec.execute Exec.gmw (.ofBase c) 0 (.scalar x0) setup0 init0)
        (Exec.execute Exec.gmw (.ofBase c) 1 (.scalar x1) setup1 init1) (.scalar o0) (.scalar o1) ∧
      Gmw.xorL o0 o1 = Adder.bitsOf (r0 + r1) := by
  have hx : Gmw.xorL (Adder.bitsOf snd0 ++ Adder.bitsOf rcv0) (Adder.bitsOf rcv1 ++ Adder.bitsOf snd1)
      = Adder.bitsOf r0 ++ Adder.bitsOf r1 := by
    rw [← h0, ← h1, ← bitsOf_xor, ← bitsOf_xor]
    simp only [Gmw.xorL]
    rw [List.zipWith_append (by simp [Adder.bitsOf])]
    congr 1
    rw [List.zipWith_comm_of_comm Bool.xor_comm]
  obtain ⟨c, o0, o1, e1, e2, e3⟩ := Adder.adder_executes w s hf r0 r1
    (Adder.bitsOf snd0 ++ Adder.bitsOf rcv0) (Adder.bitsOf rcv1 ++ Adder.bitsOf snd1)
    (by simp [Adder.bitsOf]; omega) (by simp [Adder.bitsOf]; omega) hx setup0 setup1 hset init0 init1
  exact ⟨_, _, c, o0, o1, by rw [a2bInputs_eq]; rfl, by rw [a2bInputs_eq]; rfl, hx, e1, e2, e3⟩

/-- Non-vacuity of `mixed_layer_correct_partial`: one of each kind of gate, non-zero shared bits. -/
def exLayer : List (Item 2) :=
  [.and true false true true, .b2a [true, false] [true, true], .rcv 1 2, .snd 1 2, .mul 1 2 3 2]

def exSetup0 : Setup 2 := ⟨[⟨true, true, false⟩], [⟨1, 1, 1⟩], [3, 2], [0, 0, 2, 3]⟩
def exSetup1 : Setup 2 := ⟨[⟨false, false, true⟩], [⟨0, 0, 0⟩], [0, 3], [0, 0, 2, 2]⟩

example : (∀ it ∈ exLayer, it.Ok) ∧ RcvOk exLayer ∧
    exLayer.countP Item.isRcv ≤ exLayer.countP Item.isSnd ∧
    Gmw.Matching exSetup0.bool exSetup1.bool ∧ List.Forall₂ GoodTriple exSetup0.arith exSetup1.arith ∧
    ∀ k < exLayer.countP Item.isB2a, SharedBits (exSetup0.sbBool.reverse.getD k 0)
      (exSetup1.sbBool.reverse.getD k 0) exSetup0.sbArith exSetup1.sbArith := by
  refine ⟨?_, ?_, by decide, ?_, ?_, ?_⟩
  · simp [exLayer, Item.Ok]
  · simp [exLayer, RcvOk, Item.isRcv, Item.isSnd, Item.isB2a]
  · exact .cons (by decide) .nil
  · exact .cons ⟨by unfold Arith.ValidPair; decide, by decide, by decide⟩ .nil
  · decide

/-! ### Several conversions -/

/-- C41: the value of a `B2A` gate masked with the Boolean words `v0`, `v1` when the last arithmetic shared
bits belong to the words `u0`, `u1`: the difference of the two masks is XORed onto the result. -/
theorem b2a_wrong_bits {w : Nat} (hw : 0 < w) (x0 x1 u0 u1 v0 v1 : BitVec w) (a0 a1 : List (BitVec w))
    (h : SharedBits u0 u1 a0 a1) :
    ∃ z0 z1, b2aEval 0 ((x0 ^^^ v0) ^^^ (x1 ^^^ v1)) a0 = some z0 ∧
      b2aEval 1 ((x1 ^^^ v1) ^^^ (x0 ^^^ v0)) a1 = some z1 ∧
      z0 + z1 = (x0 ^^^ x1) ^^^ ((u0 ^^^ u1) ^^^ (v0 ^^^ v1)) := by
  obtain ⟨z0, z1, e0, e1, e2⟩ := b2a_value hw (x0 ^^^ v0 ^^^ u0) (x1 ^^^ v1 ^^^ u1) u0 u1 a0 a1 h
  have c : ∀ a u : BitVec w, (a ^^^ u) ^^^ u = a := by
    intro a u; rw [BitVec.xor_assoc, BitVec.xor_self, BitVec.xor_zero]
  rw [c, c] at e0 e1
  refine ⟨z0, z1, e0, e1, ?_⟩
  rw [e2]
  apply BitVec.eq_of_getLsbD_eq
  intro i hi
  simp only [BitVec.getLsbD_xor]
  cases x0.getLsbD i <;> cases x1.getLsbD i <;> cases u0.getLsbD i <;> cases u1.getLsbD i <;>
    cases v0.getLsbD i <;> cases v1.getLsbD i <;> rfl

/-- Spec: the shared bits of a setup agree word by word: the `k`-th Boolean word from the end belongs to
the `k`-th group of `w` arithmetic bits from the end. -/
def AllShared {w : Nat} (s0 s1 : Setup w) : Prop :=
  s0.sbBool.length = s1.sbBool.length ∧ s0.sbArith.length = w * s0.sbBool.length ∧
  s1.sbArith.length = w * s1.sbBool.length ∧
  ∀ k < s0.sbBool.length, SharedBits (s0.sbBool.reverse.getD k 0) (s1.sbBool.reverse.getD k 0)
    (s0.sbArith.take (s0.sbArith.length - k * w)) (s1.sbArith.take (s1.sbArith.length - k * w))

instance {w : Nat} (s0 s1 : Setup w) : Decidable (AllShared s0 s1) := by
  unfold AllShared; infer_instance

/-- The full claim of C41 for layers of `B2A` gates. -/
def B2aCorrect (w : Nat) : Prop :=
  ∀ (l : List (Item w)) (rand0 rand1 : Nat → BitVec w) (s0 s1 : Setup w),
    (∀ it ∈ l, it.Ok ∧ it.isB2a = true) → AllShared s0 s1 → l.length ≤ s0.sbBool.length →
    Gmw.Matching s0.bool s1.bool → List.Forall₂ GoodTriple s0.arith s1.arith →
    ∃ z0 z1 s0' s1', runLayer (l.map Item.gate) (l.flatMap Item.in0) (l.flatMap Item.in1) rand0 rand1
      s0 s1 = some ((z0, s0'), (z1, s1')) ∧ Reconstructs l z0 z1

/-- C41 fails: with consistent shared bits the second `B2A` gate of a layer is wrong, because the
arithmetic shared bits of the first are used again. -/
theorem second_b2a_wrong : ¬ B2aCorrect 2 := by
  intro h
  obtain ⟨z0, z1, s0', s1', e, hr⟩ := h
    [.b2a [false, false] [false, false], .b2a [false, false] [false, false]] (fun _ => 0) (fun _ => 0)
    ⟨[], [], [1, 0], [0, 1, 0, 0]⟩ ⟨[], [], [0, 0], [0, 0, 0, 0]⟩
    (by simp [Item.Ok, Item.isB2a]) (by decide) (by decide) .nil .nil
  have : runLayer [.conv .b2a, .conv .b2a]
      [.bool false, .bool false, .bool false, .bool false]
      [.bool false, .bool false, .bool false, .bool false] (fun _ => 0) (fun _ => 0)
      (⟨[], [], [1, 0], [0, 1, 0, 0]⟩ : Setup 2) ⟨[], [], [0, 0], [0, 0, 0, 0]⟩
      = some (([.arith 0, .arith 1], ⟨[], [], [], [0, 1, 0, 0]⟩),
          ([.arith 0, .arith 0], ⟨[], [], [], [0, 0, 0, 0]⟩)) := by decide +kernel
  have e' := e.symm.trans this
  simp only [Option.some.injEq, Prod.mk.injEq] at e'
  obtain ⟨⟨rfl, -⟩, rfl, -⟩ := e'
  have := hr.2.1
  simp only [Item.Good] at this
  revert this
  decide

/-- The arithmetic shared bits survive a layer while the Boolean ones are consumed, so a `B2A` gate in a
later layer has the same defect. -/
theorem b2a_bits_not_consumed {w : Nat} (gates : List (Gate w)) (x0 x1 : List (Val w))
    (rand0 rand1 : Nat → BitVec w) (s0 s1 : Setup w) (r0 r1 : List (Val w) × Setup w)
    (h : runLayer gates x0 x1 rand0 rand1 s0 s1 = some (r0, r1)) :
    r0.2.sbArith = s0.sbArith ∧ r1.2.sbArith = s1.sbArith := by
  simp only [runLayer, computeMsg, evaluateInteractive, Option.bind_eq_bind, Option.bind_eq_some_iff,
    Option.some.injEq] at h
  obtain ⟨⟨m0, t0⟩, ⟨_, _, _, _, _, _, c0, _, h0⟩, ⟨m1, t1⟩, ⟨_, _, _, _, _, _, c1, _, h1⟩, ⟨p0, q0⟩,
    ⟨⟨_, _⟩, _, ⟨_, _⟩, _, _, _, h2⟩, ⟨p1, q1⟩, ⟨⟨_, _⟩, _, ⟨_, _⟩, _, _, _, h3⟩, h4⟩ := h
  simp only [Prod.mk.injEq] at h0 h1 h2 h3 h4
  obtain ⟨⟨rfl, rfl⟩, rfl, rfl⟩ := h4
  obtain ⟨-, rfl⟩ := h0
  obtain ⟨-, rfl⟩ := h1
  obtain ⟨-, rfl⟩ := h2
  obtain ⟨-, rfl⟩ := h3
  exact ⟨rfl, rfl⟩

/-- The interactive layer of `a2b` calls for values with the given arithmetic shares, in the order in
which the iterator visits the gates (mixed_gmw.rs:757-759, successors are visited last added first). -/
def a2bLayer {w : Nat} (vs : List (BitVec w × BitVec w)) : List (Item w) :=
  vs.flatMap fun v => [.rcv v.1 v.2, .snd v.1 v.2]

/-- The full claim of C42 for the interactive layer of `a2b` calls: the `k`-th pair of gates reshares the
shares of the `k`-th value. -/
def A2bCorrect (w : Nat) : Prop :=
  ∀ (vs : List (BitVec w × BitVec w)) (rand0 rand1 : Nat → BitVec w) (s0 s1 : Setup w),
    ∃ z0 z1 s0' s1' snd0 snd1 rcv0 rcv1,
      runLayer ((a2bLayer vs).map Item.gate) ((a2bLayer vs).flatMap Item.in0)
        ((a2bLayer vs).flatMap Item.in1) rand0 rand1 s0 s1 = some ((z0, s0'), (z1, s1')) ∧
      outsAt Item.isSnd (a2bLayer vs) z0 = snd0.map .arith ∧
      outsAt Item.isSnd (a2bLayer vs) z1 = snd1.map .arith ∧
      outsAt Item.isRcv (a2bLayer vs) z0 = rcv0.map .arith ∧
      outsAt Item.isRcv (a2bLayer vs) z1 = rcv1.map .arith ∧
      List.zipWith (· ^^^ ·) snd0 rcv1 = vs.map (·.1) ∧
      List.zipWith (· ^^^ ·) snd1 rcv0 = vs.map (·.2)

/-- Every value twice. -/
def twice {α : Type} (l : List α) : List α := l.flatMap fun v => [v, v]

theorem convMsg_pairs {w : Nat} (n : Nat) (xs : List (BitVec w)) (rand : Nat → BitVec w)
    (sb : List (BitVec w)) (h : n ≤ xs.length) :
    convMsg ((List.replicate n [Conv.rcv, Conv.snd]).flatten) (xs.map .arith) rand sb
      = some ⟨[], (List.range n).map rand,
          List.zipWith (· ^^^ ·) (xs.take n) ((List.range n).map rand), sb⟩ := by
  induction n generalizing xs rand with
  | zero => simp [convMsg]
  | succ n ih =>
    cases xs with
    | nil => simp at h
    | cons x xs =>
      rw [List.replicate_succ, List.flatten_cons, List.map_cons]
      simp only [List.cons_append, List.nil_append, convMsg]
      rw [ih xs _ (by simpa using h)]
      simp [List.range_succ_eq_map, Function.comp_def]

/-- What a layer of `a2b` calls really computes: the `k`-th pair of gates reshares the
`k / 2`-th value. -/
theorem a2b_layer_value {w : Nat} (hw : 0 < w) (vs : List (BitVec w × BitVec w)) (rand0 rand1 : Nat → BitVec w)
    (s0 s1 : Setup w) :
    ∃ z0 z1 s0' s1' snd0 snd1 rcv0 rcv1,
      runLayer ((a2bLayer vs).map Item.gate) ((a2bLayer vs).flatMap Item.in0)
        ((a2bLayer vs).flatMap Item.in1) rand0 rand1 s0 s1 = some ((z0, s0'), (z1, s1')) ∧
      outsAt Item.isSnd (a2bLayer vs) z0 = snd0.map .arith ∧
      outsAt Item.isSnd (a2bLayer vs) z1 = snd1.map .arith ∧
      outsAt Item.isRcv (a2bLayer vs) z0 = rcv0.map .arith ∧
      outsAt Item.isRcv (a2bLayer vs) z1 = rcv1.map .arith ∧
      List.zipWith (· ^^^ ·) snd0 rcv1 = (twice (vs.map (·.1))).take vs.length ∧
      List.zipWith (· ^^^ ·) snd1 rcv0 = (twice (vs.map (·.2))).take vs.length := by
  have hsw : (a2bLayer vs).map Item.swap = a2bLayer (vs.map Prod.swap) := by
    simp only [a2bLayer, List.map_flatMap, List.flatMap_map]
    rfl
  have facts : ∀ vs : List (BitVec w × BitVec w), (∀ it ∈ a2bLayer vs, it.Ok) ∧
      (a2bLayer vs).countP Item.isAnd = 0 ∧ (a2bLayer vs).countP Item.isMul = 0 ∧
      (a2bLayer vs).countP Item.isB2a = 0 ∧ (a2bLayer vs).countP Item.isSnd = vs.length ∧
      (a2bLayer vs).countP Item.isRcv = vs.length ∧ bools (a2bLayer vs) = [] ∧
      ariths (a2bLayer vs) = [] ∧ convs (a2bLayer vs) = (twice (vs.map (·.1))).map .arith ∧
      cgates (a2bLayer vs) = (List.replicate vs.length [Conv.rcv, Conv.snd]).flatten ∧
      andVals (a2bLayer vs) = [] ∧ mulVals (a2bLayer vs) = [] ∧ b2aWords (a2bLayer vs) = [] := by
    intro vs
    induction vs with
    | nil => simp [a2bLayer, bools, ariths, convs, cgates, andVals, mulVals, b2aWords, twice]
    | cons v vs ih =>
      obtain ⟨i1, i2, i3, i4, i5, i6, i7, i8, i9, i10, i11, i12, i13⟩ := ih
      have e : a2bLayer (v :: vs) = .rcv v.1 v.2 :: .snd v.1 v.2 :: a2bLayer vs := rfl
      have e' : twice ((v :: vs).map (·.1)) = v.1 :: v.1 :: twice (vs.map (·.1)) := rfl
      rw [e, e']
      refine ⟨?_, ?_, ?_, ?_, ?_, ?_, ?_, ?_, ?_, ?_, ?_, ?_, ?_⟩
      · intro it hit
        rcases List.mem_cons.1 hit with rfl | hit
        · trivial
        · rcases List.mem_cons.1 hit with rfl | hit
          · trivial
          · exact i1 it hit
      · simp [List.countP_cons, Item.isAnd, i2]
      · simp [List.countP_cons, Item.isMul, i3]
      · simp [List.countP_cons, Item.isB2a, i4]
      · simp [List.countP_cons, Item.isSnd, i5]
      · simp [List.countP_cons, Item.isRcv, i6]
      · simpa [bools] using i7
      · simpa [ariths] using i8
      · simp [convs, i9]
      · simp [cgates, i10, List.replicate_succ]
      · simpa [andVals] using i11
      · simpa [mulVals] using i12
      · simpa [b2aWords] using i13
  obtain ⟨f1, f2, f3, f4, f5, f6, f7, f8, f9, f10, f11, f12, f13⟩ := facts vs
  obtain ⟨k1, k2, k3, k4, k5, k6, k7, k8, k9, k10, k11, k12, k13⟩ := facts (vs.map Prod.swap)
  have ht : ∀ l : List (BitVec w), l.length ≤ (twice l).length := by
    intro l
    induction l with
    | nil => simp
    | cons a l ih => simp only [twice, List.flatMap_cons] at ih ⊢; simp; omega
  have sp0 := split_ok (a2bLayer vs) f1
  have sp1 := split_ok (a2bLayer (vs.map Prod.swap)) k1
  have g1 : (a2bLayer (vs.map Prod.swap)).map Item.gate = (a2bLayer vs).map Item.gate := by
    rw [← hsw, List.map_map]
    exact List.map_congr_left fun it _ => gate_swap it
  have i1 : (a2bLayer (vs.map Prod.swap)).flatMap Item.in0 = (a2bLayer vs).flatMap Item.in1 := by
    rw [← hsw, List.flatMap_map]; rfl
  rw [f7, f8, f9, f10, f2, f3] at sp0
  rw [g1, i1, k7, k8, k9, k10, k2, k3, List.length_map] at sp1
  have c0 := convMsg_pairs vs.length (twice (vs.map (·.1))) rand0 s0.sbBool
    (by simpa using ht (vs.map (·.1)))
  have hm2 : (vs.map Prod.swap).map (·.1) = vs.map (·.2) := by rw [List.map_map]; rfl
  rw [hm2] at sp1
  have c1 := convMsg_pairs vs.length (twice (vs.map (·.2))) rand1 s1.sbBool
    (by simpa using ht (vs.map (·.2)))
  have hl1 : vs.length ≤ (twice (vs.map (·.1))).length := by simpa using ht (vs.map (·.1))
  have hl2 : vs.length ≤ (twice (vs.map (·.2))).length := by simpa using ht (vs.map (·.2))
  have b2 : b2aWords ((a2bLayer vs).map Item.swap) = [] := by rw [hsw]; exact k13
  obtain ⟨z0, z1, e0, e1, -, e3, e4, e5, e6⟩ := evalGates_ok hw (a2bLayer vs) f1 s0.sbArith s1.sbArith
    [] [] [] []
    (List.zipWith (· ^^^ ·) ((twice (vs.map (·.1))).take vs.length) ((List.range vs.length).map rand0))
    (List.zipWith (· ^^^ ·) ((twice (vs.map (·.2))).take vs.length) ((List.range vs.length).map rand1))
    ((List.range vs.length).map rand1) ((List.range vs.length).map rand0) [] []
    (by rw [f11]; rfl) (by rw [f2]; rfl) (by rw [f2]; rfl) (by rw [f12]; rfl) (by rw [f3]; rfl)
    (by rw [f3]; rfl) (by simp [f5]; omega) (by simp [f5]; omega) (by simp [f6]) (by simp [f6])
    (by simp [f4]) (by simp [f4]) (by simp [f4])
  rw [f13, b2] at e0 e1
  have xx : ∀ (xs rs : List (BitVec w)), xs.length = rs.length → List.zipWith (· ^^^ ·)
      (List.zipWith (· ^^^ ·) xs rs) rs = xs := by
    intro xs
    induction xs with
    | nil => intro rs _; simp
    | cons x xs ih =>
      intro rs h
      cases rs with
      | nil => simp at h
      | cons r rs => simp [ih rs (by simpa using h), BitVec.xor_assoc]
  refine ⟨z0, z1, s0, s1, _, _, (List.range vs.length).map rand1, (List.range vs.length).map rand0, ?_,
    e3, e4, ?_, ?_, xx _ _ (by simp; omega), xx _ _ (by simp; omega)⟩
  · have gm : ∀ m : List Gmw.Triple, Gmw.computeMsg (List.replicate 0 .and) [] m = some ⟨0, [], []⟩ := by
      intro m; simp [Gmw.computeMsg, Gmw.computeMsgPairs, Gmw.padWords]
    have am : ∀ m : List (Arith.Triple w),
        Arith.computeMsg (List.replicate 0 .mul) ([] : List (BitVec w)) m = some ⟨[], []⟩ := by
      intro m; simp [Arith.computeMsg, Arith.msgPairs]
    have ge : ∀ (p : Nat) (m : List Gmw.Triple),
        Gmw.evaluateInteractive p ⟨0, [], []⟩ ⟨0, [], []⟩ m = some ([], m) := by
      intro p m; simp [Gmw.evaluateInteractive, Gmw.splitOffLast, Gmw.zipEval]
    have ae : ∀ (p : Nat) (m : List (Arith.Triple w)),
        Arith.evaluateInteractive p ⟨[], []⟩ ⟨[], []⟩ m = some ([], m) := by
      intro p m
      simp [Arith.evaluateInteractive, Arith.removeFirst, Gmw.splitOffLast, Arith.zipEval]
    have zw : ∀ m : List (BitVec w), List.zipWith (· ^^^ ·) ([] : List (BitVec w)) m = [] :=
      fun _ => rfl
    rw [zw] at e0 e1
    simp only [runLayer, computeMsg, evaluateInteractive, sp0, sp1, gm, am, c0, c1, Msg.sent,
      Option.bind_eq_bind, Option.bind_some, ge, ae, e0, e1]
  · rw [e5, f6]; simp
  · rw [e6, f6]; simp

/-- C42 fails: with two `a2b` calls in one layer the second one converts the first value again. -/
theorem two_a2b_in_one_layer {w : Nat} (hw : 0 < w) : ¬ A2bCorrect w := by
  intro h
  obtain ⟨z0, z1, s0', s1', p0, p1, q0, q1, e, h1, h2, h3, h4, h5, h6⟩ :=
    h [(0, 0), (1, 1)] (fun _ => 0) (fun _ => 0) ⟨[], [], [], []⟩ ⟨[], [], [], []⟩
  obtain ⟨z0', z1', t0', t1', p0', p1', q0', q1', e', h1', h2', h3', h4', h5', h6'⟩ :=
    a2b_layer_value hw [(0, 0), (1, 1)] (fun _ => 0) (fun _ => 0) ⟨[], [], [], []⟩ ⟨[], [], [], []⟩
  rw [e] at e'
  simp only [Option.some.injEq, Prod.mk.injEq] at e'
  obtain ⟨⟨rfl, -⟩, rfl, -⟩ := e'
  have inj : Function.Injective (Val.arith : BitVec w → Val w) := fun a b hab => by cases hab; rfl
  have a1 := List.map_injective_iff.2 inj (h1.symm.trans h1')
  have a2 := List.map_injective_iff.2 inj (h4.symm.trans h4')
  rw [← a1, ← a2, h5] at h5'
  simp [twice] at h5'
  omega

/-- A `B2A` gate after an `A2BBoolShareRcv` gate takes the unused input of the latter and panics. -/
theorem b2a_after_rcv_panics {w : Nat} (hw : 0 < w) (r0 r1 : BitVec w) (x0 x1 : List Bool)
    (h : (Item.b2a x0 x1 : Item w).Ok) (rand : Nat → BitVec w) (st : Setup w) :
    let l : List (Item w) := [.rcv r0 r1, .snd r0 r1, .b2a x0 x1]
    computeMsg (l.map Item.gate) (l.flatMap Item.in0) rand st = none := by
  intro l
  have hok : ∀ it ∈ l, it.Ok := by
    intro it hit
    simp only [l, List.mem_cons, List.not_mem_nil, or_false] at hit
    rcases hit with rfl | rfl | rfl
    · trivial
    · trivial
    · exact h
  have sp := split_ok l hok
  obtain ⟨n, rfl⟩ : ∃ n, w = n + 1 := ⟨w - 1, by omega⟩
  simp only [computeMsg, sp, Option.bind_eq_bind, Option.bind_some]
  have : convMsg (cgates l) (convs l) rand st.sbBool = none := by
    simp [l, cgates, convs, convMsg, List.take_succ_cons, Val.unwrapBool]
  rw [this]
  simp

/-! ### Share storages -/

/-- Spec: the shares of a sequence all live in the same domain. -/
def Homogeneous {w : Nat} (xs : List (Val w)) : Prop :=
  (∃ bs : List Bool, xs = bs.map .bool) ∨ ∃ rs : List (BitVec w), xs = rs.map .arith

theorem foldlM_bool {w : Nat} (xs : List (Val w)) (acc : List Bool) :
    xs.foldlM Storage.tryPush (.bool acc : Storage w) = (xs.mapM Val.unwrapBool).map fun bs =>
      .bool (acc ++ bs) := by
  induction xs generalizing acc with
  | nil => simp
  | cons x xs ih =>
    rw [List.foldlM_cons, List.mapM_cons]
    cases x with
    | arith r => simp [Storage.tryPush, Val.unwrapBool]
    | bool b =>
      simp only [Storage.tryPush, Val.unwrapBool, Option.bind_eq_bind, Option.bind_some]
      rw [ih]
      cases xs.mapM Val.unwrapBool <;> simp

theorem foldlM_arith {w : Nat} (xs : List (Val w)) (acc : List (BitVec w)) :
    xs.foldlM Storage.tryPush (.arith acc : Storage w) = (xs.mapM Val.unwrapArith).map fun bs =>
      .arith (acc ++ bs) := by
  induction xs generalizing acc with
  | nil => simp
  | cons x xs ih =>
    rw [List.foldlM_cons, List.mapM_cons]
    cases x with
    | bool r => simp [Storage.tryPush, Val.unwrapArith]
    | arith b =>
      simp only [Storage.tryPush, Val.unwrapArith, Option.bind_eq_bind, Option.bind_some]
      rw [ih]
      cases xs.mapM Val.unwrapArith <;> simp

theorem mapM_bool_iff {w : Nat} (xs : List (Val w)) (bs : List Bool) :
    xs.mapM Val.unwrapBool = some bs ↔ xs = bs.map .bool := by
  constructor
  · intro h
    induction xs generalizing bs with
    | nil => simp at h; simp [h]
    | cons x xs ih =>
      cases x with
      | arith r => simp [Val.unwrapBool] at h
      | bool b =>
        rw [List.mapM_cons] at h
        simp only [Val.unwrapBool, Option.bind_eq_bind, Option.bind_some, Option.bind_eq_some_iff] at h
        obtain ⟨cs, h1, h2⟩ := h
        cases h2
        rw [ih cs h1]; rfl
  · rintro rfl
    exact mapM_unwrapBool bs

theorem mapM_arith_iff {w : Nat} (xs : List (Val w)) (bs : List (BitVec w)) :
    xs.mapM Val.unwrapArith = some bs ↔ xs = bs.map .arith := by
  constructor
  · intro h
    induction xs generalizing bs with
    | nil => simp at h; simp [h]
    | cons x xs ih =>
      cases x with
      | bool r => simp [Val.unwrapArith] at h
      | arith b =>
        rw [List.mapM_cons] at h
        simp only [Val.unwrapArith, Option.bind_eq_bind, Option.bind_some, Option.bind_eq_some_iff] at h
        obtain ⟨cs, h1, h2⟩ := h
        cases h2
        rw [ih cs h1]; rfl
  · rintro rfl
    induction bs with
    | nil => rfl
    | cons b bs ih => rw [List.map_cons, List.mapM_cons, ih]; rfl

/-- C57, what holds of collecting: a sequence of shares of one domain is stored as it is; any other
sequence panics. -/
theorem from_iter_iff_partial {w : Nat} (xs : List (Val w)) :
    (Homogeneous xs → ∃ s, Storage.fromIter xs = some s ∧ s.toList = xs) ∧
    (¬ Homogeneous xs → Storage.fromIter xs = none) := by
  cases xs with
  | nil => exact ⟨fun _ => ⟨_, rfl, rfl⟩, fun h => absurd (Or.inl ⟨[], rfl⟩) h⟩
  | cons x xs =>
    cases x with
    | bool b =>
      simp only [Storage.fromIter, foldlM_bool]
      rcases h : xs.mapM Val.unwrapBool with _ | bs
      · refine ⟨?_, fun _ => rfl⟩
        rintro (⟨cs, hc⟩ | ⟨rs, hr⟩)
        · cases cs with
          | nil => simp at hc
          | cons c cs =>
            simp only [List.map_cons, List.cons.injEq] at hc
            rw [(mapM_bool_iff xs cs).2 hc.2] at h
            cases h
        · cases rs <;> simp at hr
      · have hx := (mapM_bool_iff xs bs).1 h
        refine ⟨fun _ => ⟨_, rfl, by simp [Storage.toList, hx]⟩, fun hn => ?_⟩
        exact absurd (Or.inl ⟨b :: bs, by simp [hx]⟩) hn
    | arith b =>
      simp only [Storage.fromIter, foldlM_arith]
      rcases h : xs.mapM Val.unwrapArith with _ | bs
      · refine ⟨?_, fun _ => rfl⟩
        rintro (⟨rs, hr⟩ | ⟨cs, hc⟩)
        · cases rs <;> simp at hr
        · cases cs with
          | nil => simp at hc
          | cons c cs =>
            simp only [List.map_cons, List.cons.injEq] at hc
            rw [(mapM_arith_iff xs cs).2 hc.2] at h
            cases h
      · have hx := (mapM_arith_iff xs bs).1 h
        refine ⟨fun _ => ⟨_, rfl, by simp [Storage.toList, hx]⟩, fun hn => ?_⟩
        exact absurd (Or.inr ⟨b :: bs, by simp [hx]⟩) hn

/-- C57: extending a storage by any sequence of shares appends it. -/
theorem extend_appends {w : Nat} (s : Storage w) (xs : List (Val w)) :
    ∃ s', s.extend xs = some s' ∧ s'.toList = s.toList ++ xs := by
  induction xs generalizing s with
  | nil => exact ⟨s, by cases s <;> simp [Storage.extend], by simp⟩
  | cons x xs ih =>
    cases s with
    | mixed v => exact ⟨_, by rw [Storage.extend], rfl⟩
    | bool b =>
      cases x with
      | bool y =>
        obtain ⟨s', h1, h2⟩ := ih (.bool (b ++ [y]))
        exact ⟨s', by rw [Storage.extend, h1], by rw [h2]; simp [Storage.toList]⟩
      | arith y =>
        obtain ⟨s', h1, h2⟩ := ih (.mixed ((Storage.bool b : Storage w).toList ++ [.arith y]))
        exact ⟨s', by rw [Storage.extend]; simpa [Storage.asMixed, Storage.tryPush] using h1,
          by rw [h2]; simp [Storage.toList]⟩
    | arith a =>
      cases x with
      | arith y =>
        obtain ⟨s', h1, h2⟩ := ih (.arith (a ++ [y]))
        exact ⟨s', by rw [Storage.extend, h1], by rw [h2]; simp [Storage.toList]⟩
      | bool y =>
        obtain ⟨s', h1, h2⟩ := ih (.mixed ((Storage.arith a : Storage w).toList ++ [.bool y]))
        exact ⟨s', by rw [Storage.extend]; simpa [Storage.asMixed, Storage.tryPush] using h1,
          by rw [h2]; simp [Storage.toList]⟩

/-- C57: a share that was set is read back and the other positions keep their shares. -/
theorem set_get {w : Nat} (s s' : Storage w) (i : Nat) (x : Val w) (h : s.set i x = some s') :
    s'.get i = some x ∧ ∀ j, j ≠ i → s'.get j = s.get j := by
  cases s <;> cases x <;> simp only [Storage.set] at h <;> try cases h
  all_goals split at h
  all_goals first
    | cases h
    | skip
  all_goals rename_i hi
  all_goals refine ⟨by simp [Storage.get, Storage.toList, hi], fun j hj => ?_⟩
  all_goals simp [Storage.get, Storage.toList, List.getElem?_set, Ne.symm hj]

/-- C57: a repeated share is at every position below the length and at no other. -/
theorem repeat_get {w : Nat} (x : Val w) (n i : Nat) : (Storage.repeat x n).get i = if i < n then some x else none := by
  cases x <;> simp [Storage.repeat, Storage.get, Storage.toList] <;> split <;> simp_all

/-- The storages made for the gates of a circuit (mixed_gmw.rs:628-641) take shares of both domains. -/
theorem mixed_storage_set {w : Nat} (v : List (Val w)) (i : Nat) (hi : i < v.length) (x : Val w) :
    ∃ s', (Storage.mixed v).set i x = some s' ∧ s'.toList = v.set i x :=
  ⟨.mixed (v.set i x), by simp [Storage.set, hi], rfl⟩

/-- C57 fails for outputs of both domains: collecting them panics. -/
theorem mixed_outputs_panic : Storage.fromIter [Val.bool true, Val.arith (3 : BitVec 8)] = none := by
  decide

end Verif.Mixed
