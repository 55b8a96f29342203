import Verif.Mixed.Bits
import Verif.Gmw.Props
import Verif.Arith.Props

/-!
Interactive layers of the mixed protocol (C41, C42): AND gates, multiplications and conversions in any
interleaving.
-/
set_option autoImplicit false

namespace Verif.Mixed

/-- Spec: an interactive gate of a layer with the input shares of the two parties. -/
inductive Item (w : Nat) where
  | and (x0 y0 x1 y1 : Bool)
  | mul (x0 y0 x1 y1 : BitVec w)
  | snd (r0 r1 : BitVec w)
  | rcv (r0 r1 : BitVec w)
  | b2a (x0 x1 : List Bool)
deriving DecidableEq, Repr

def Item.gate {w : Nat} : Item w → Gate w
  | .and .. => .bool .and
  | .mul .. => .arith .mul
  | .snd .. => .conv .snd
  | .rcv .. => .conv .rcv
  | .b2a .. => .conv .b2a

/-- The input shares of party 0. -/
def Item.in0 {w : Nat} : Item w → List (Val w)
  | .and x0 y0 _ _ => [.bool x0, .bool y0]
  | .mul x0 y0 _ _ => [.arith x0, .arith y0]
  | .snd r0 _ => [.arith r0]
  | .rcv r0 _ => [.arith r0]
  | .b2a x0 _ => x0.map .bool

/-- The same gate seen by the other party. -/
def Item.swap {w : Nat} : Item w → Item w
  | .and x0 y0 x1 y1 => .and x1 y1 x0 y0
  | .mul x0 y0 x1 y1 => .mul x1 y1 x0 y0
  | .snd r0 r1 => .snd r1 r0
  | .rcv r0 r1 => .rcv r1 r0
  | .b2a x0 x1 => .b2a x1 x0

/-- The input shares of party 1. -/
def Item.in1 {w : Nat} (it : Item w) : List (Val w) := it.swap.in0

/-- A `B2A` gate has `w` inputs. -/
def Item.Ok {w : Nat} : Item w → Prop
  | .b2a x0 x1 => x0.length = w ∧ x1.length = w
  | _ => True

def Item.isSnd {w : Nat} : Item w → Bool
  | .snd .. => true
  | _ => false
def Item.isRcv {w : Nat} : Item w → Bool
  | .rcv .. => true
  | _ => false
def Item.isB2a {w : Nat} : Item w → Bool
  | .b2a .. => true
  | _ => false
def Item.isAnd {w : Nat} : Item w → Bool
  | .and .. => true
  | _ => false
def Item.isMul {w : Nat} : Item w → Bool
  | .mul .. => true
  | _ => false

/-- Spec: what the two outputs of a gate have to satisfy.  For the resharing gates see
`reshared`. -/
def Item.Good {w : Nat} : Item w → Val w → Val w → Prop
  | .and x0 y0 x1 y1, .bool a, .bool b => (a ^^ b) = ((x0 ^^ x1) && (y0 ^^ y1))
  | .mul x0 y0 x1 y1, .arith a, .arith b => a + b = (x0 + x1) * (y0 + y1)
  | .b2a x0 x1, .arith a, .arith b => a + b = BitVec.ofNat w (bitsVal (Gmw.xorL x0 x1))
  | .snd _ _, .arith _, .arith _ => True
  | .rcv _ _, .arith _, .arith _ => True
  | _, _, _ => False

/-- Spec: gate by gate. -/
def Reconstructs {w : Nat} : List (Item w) → List (Val w) → List (Val w) → Prop
  | [], [], [] => True
  | it :: l, a :: z0, b :: z1 => it.Good a b ∧ Reconstructs l z0 z1
  | _, _, _ => False

/-- The outputs of the gates of one kind. -/
def outsAt {w : Nat} (p : Item w → Bool) : List (Item w) → List (Val w) → List (Val w)
  | it :: l, z :: zs => if p it then z :: outsAt p l zs else outsAt p l zs
  | _, _ => []

/-- The shares of party 0 that the `A2BBoolShareSnd` gates reshare. -/
def sndShares {w : Nat} : List (Item w) → List (BitVec w)
  | [] => []
  | .snd r0 _ :: l => r0 :: sndShares l
  | _ :: l => sndShares l

/-- The words of party 0 at the `B2A` gates. -/
def b2aWords {w : Nat} : List (Item w) → List (BitVec w)
  | [] => []
  | .b2a x0 _ :: l => wordOf w x0 :: b2aWords l
  | _ :: l => b2aWords l

def bools {w : Nat} : List (Item w) → List Bool
  | [] => []
  | .and x0 y0 _ _ :: l => x0 :: y0 :: bools l
  | _ :: l => bools l

def ariths {w : Nat} : List (Item w) → List (BitVec w)
  | [] => []
  | .mul x0 y0 _ _ :: l => x0 :: y0 :: ariths l
  | _ :: l => ariths l

def convs {w : Nat} : List (Item w) → List (Val w)
  | [] => []
  | .snd r0 _ :: l => .arith r0 :: convs l
  | .rcv r0 _ :: l => .arith r0 :: convs l
  | .b2a x0 _ :: l => x0.map .bool ++ convs l
  | _ :: l => convs l

def cgates {w : Nat} : List (Item w) → List Conv
  | [] => []
  | .snd _ _ :: l => .snd :: cgates l
  | .rcv _ _ :: l => .rcv :: cgates l
  | .b2a _ _ :: l => .b2a :: cgates l
  | _ :: l => cgates l

theorem mapM_unwrapBool {w : Nat} (l : List Bool) :
    (l.map (Val.bool : Bool → Val w)).mapM Val.unwrapBool = some l := by
  induction l with
  | nil => rfl
  | cons b l ih => rw [List.map_cons, List.mapM_cons, ih]; rfl

theorem swap_swap {w : Nat} (it : Item w) : it.swap.swap = it := by cases it <;> rfl

theorem gate_swap {w : Nat} (it : Item w) : it.swap.gate = it.gate := by cases it <;> rfl

theorem ok_swap {w : Nat} {it : Item w} (h : it.Ok) : it.swap.Ok := by
  cases it <;> first | trivial | exact ⟨h.2, h.1⟩

/-- The split of a layer. -/
theorem split_ok {w : Nat} (l : List (Item w)) (h : ∀ it ∈ l, it.Ok) :
    split (l.map Item.gate) (l.flatMap Item.in0)
      = some ⟨bools l, ariths l, convs l, List.replicate (l.countP Item.isAnd) .and,
        List.replicate (l.countP Item.isMul) .mul, cgates l⟩ := by
  induction l with
  | nil => rfl
  | cons it l ih =>
    have ih := ih fun x hx => h x (List.mem_cons_of_mem _ hx)
    have hit := h it List.mem_cons_self
    rw [List.map_cons, List.flatMap_cons]
    cases it with
    | and x0 y0 x1 y1 =>
      simp [Item.gate, Item.in0, split, Gmw.BoolGate.inputSize, Val.unwrapBool, ih, bools, ariths,
        convs, cgates, List.countP_cons, Item.isAnd, Item.isMul, List.replicate_succ]
    | mul x0 y0 x1 y1 =>
      simp [Item.gate, Item.in0, split, Val.unwrapArith, ih, bools, ariths,
        convs, cgates, List.countP_cons, Item.isAnd, Item.isMul, List.replicate_succ]
    | snd r0 r1 =>
      simp [Item.gate, Item.in0, split, Gate.inputSize, ih, bools, ariths,
        convs, cgates, List.countP_cons, Item.isAnd, Item.isMul]
    | rcv r0 r1 =>
      simp [Item.gate, Item.in0, split, Gate.inputSize, ih, bools, ariths,
        convs, cgates, List.countP_cons, Item.isAnd, Item.isMul]
    | b2a x0 x1 =>
      have hl : (x0.map (Val.bool : Bool → Val w)).length = w := by simpa using hit.1
      simp only [Item.gate, Item.in0, split, Gate.inputSize]
      rw [List.drop_left' hl, List.take_left' hl, ih]
      simp [bools, ariths, convs, cgates, List.countP_cons, Item.isAnd, Item.isMul]

/-- Spec: after an `A2BBoolShareRcv` gate no `B2A` gate comes in the layer and no `A2BBoolShareSnd` gate with
other shares.  The iterator visits the two gates of an `a2b` call in the order `Rcv`, `Snd`. -/
def RcvOk {w : Nat} (l : List (Item w)) : Prop :=
  l.Pairwise fun a b => ∀ r0 r1, a = .rcv r0 r1 →
    b.isB2a = false ∧ ∀ s0 s1, b = .snd s0 s1 → s0 = r0 ∧ s1 = r1

/-- The conversion part of the message of party 0; `L` is the stack of Boolean shared bits, top
first, and `left` are inputs that `Rcv` gates have not used. -/
theorem convMsg_left {w : Nat} (l : List (Item w)) (h : ∀ it ∈ l, it.Ok) (hr : RcvOk l)
    (rand : Nat → BitVec w) (L : List (BitVec w)) (hL : l.countP Item.isB2a ≤ L.length)
    (left : List (BitVec w)) (hb : left ≠ [] → ∀ b ∈ l, b.isB2a = false)
    (hs : ∀ x ∈ left, ∀ s0 s1, Item.snd s0 s1 ∈ l → s0 = x) :
    convMsg (cgates l) (left.map .arith ++ convs l) rand L.reverse
      = some ⟨List.zipWith (· ^^^ ·) (b2aWords l) L,
          (List.range (l.countP Item.isSnd)).map rand,
          List.zipWith (· ^^^ ·) (sndShares l) ((List.range (l.countP Item.isSnd)).map rand),
          (L.drop (l.countP Item.isB2a)).reverse⟩ := by
  induction l generalizing rand L left with
  | nil => simp [cgates, convMsg, b2aWords, sndShares]
  | cons it l ih =>
    have hr' := List.pairwise_cons.1 hr
    have ih := ih (fun x hx => h x (List.mem_cons_of_mem _ hx)) hr'.2
    have hit := h it List.mem_cons_self
    have hb' : left ≠ [] → ∀ b ∈ l, b.isB2a = false := fun hn b hm => hb hn b (List.mem_cons_of_mem _ hm)
    have hs' : ∀ x ∈ left, ∀ s0 s1, Item.snd s0 s1 ∈ l → s0 = x :=
      fun x hx s0 s1 hm => hs x hx s0 s1 (List.mem_cons_of_mem _ hm)
    cases it with
    | and x0 y0 x1 y1 =>
      simpa [cgates, convs, b2aWords, sndShares, List.countP_cons, Item.isB2a, Item.isSnd] using
        ih rand L (by simpa [List.countP_cons, Item.isB2a] using hL) left hb' hs'
    | mul x0 y0 x1 y1 =>
      simpa [cgates, convs, b2aWords, sndShares, List.countP_cons, Item.isB2a, Item.isSnd] using
        ih rand L (by simpa [List.countP_cons, Item.isB2a] using hL) left hb' hs'
    | snd r0 r1 =>
      have hL' : l.countP Item.isB2a ≤ L.length := by simpa [List.countP_cons, Item.isB2a] using hL
      cases left with
      | nil =>
        have := ih (fun n => rand (n + 1)) L hL' [] (by simp) (by simp)
        simp only [List.map_nil, List.nil_append] at this
        simp only [cgates, convs, List.map_nil, List.nil_append, convMsg, this]
        simp [b2aWords, sndShares, List.countP_cons, Item.isB2a, Item.isSnd, List.range_succ_eq_map,
          Function.comp_def]
      | cons x left =>
        have hx : r0 = x := hs x List.mem_cons_self r0 r1 List.mem_cons_self
        subst hx
        have := ih (fun n => rand (n + 1)) L hL' (left ++ [r0]) (fun _ => hb' (by simp))
          (by
            intro y hy s0 s1 hm
            rcases List.mem_append.1 hy with hy | hy
            · exact hs' y (List.mem_cons_of_mem _ hy) s0 s1 hm
            · rw [List.mem_singleton.1 hy]
              exact hs' r0 List.mem_cons_self s0 s1 hm)
        simp only [List.map_append, List.map_cons, List.map_nil, List.append_assoc, List.cons_append,
          List.nil_append] at this
        simp only [cgates, convs, List.map_cons, List.cons_append, convMsg, this]
        simp [b2aWords, sndShares, List.countP_cons, Item.isB2a, Item.isSnd, List.range_succ_eq_map,
          Function.comp_def]
    | rcv r0 r1 =>
      have hL' : l.countP Item.isB2a ≤ L.length := by simpa [List.countP_cons, Item.isB2a] using hL
      have := ih rand L hL' (left ++ [r0]) (fun _ b hm => (hr'.1 b hm r0 r1 rfl).1)
        (by
          intro y hy s0 s1 hm
          rcases List.mem_append.1 hy with hy | hy
          · exact hs' y hy s0 s1 hm
          · rw [List.mem_singleton.1 hy]
            exact ((hr'.1 _ hm r0 r1 rfl).2 s0 s1 rfl).1)
      simp only [List.map_append, List.map_cons, List.map_nil, List.append_assoc, List.cons_append,
        List.nil_append] at this
      simp only [cgates, convs, convMsg, this]
      simp [b2aWords, sndShares, List.countP_cons, Item.isB2a, Item.isSnd]
    | b2a x0 x1 =>
      have hn : left = [] := by
        by_contra hn
        exact absurd (hb hn _ List.mem_cons_self) (by simp [Item.isB2a])
      subst hn
      cases L with
      | nil => simp [List.countP_cons, Item.isB2a] at hL
      | cons s L =>
        have := ih rand L (by simpa [List.countP_cons, Item.isB2a] using hL) [] hb' hs'
        have hl : (x0.map (Val.bool : Bool → Val w)).length = w := by simpa using hit.1
        simp only [List.map_nil, List.nil_append] at this
        simp only [cgates, convs, List.map_nil, List.nil_append, convMsg]
        rw [List.drop_left' hl, List.take_left' hl, mapM_unwrapBool]
        simp [this, b2aWords, sndShares, List.countP_cons, Item.isB2a, Item.isSnd]

theorem convMsg_ok {w : Nat} (l : List (Item w)) (h : ∀ it ∈ l, it.Ok) (hr : RcvOk l)
    (rand : Nat → BitVec w) (L : List (BitVec w)) (hL : l.countP Item.isB2a ≤ L.length) :
    convMsg (cgates l) (convs l) rand L.reverse
      = some ⟨List.zipWith (· ^^^ ·) (b2aWords l) L,
          (List.range (l.countP Item.isSnd)).map rand,
          List.zipWith (· ^^^ ·) (sndShares l) ((List.range (l.countP Item.isSnd)).map rand),
          (L.drop (l.countP Item.isB2a)).reverse⟩ := by
  simpa using convMsg_left l h hr rand L hL [] (by simp) (by simp)

/-- The conjunctions of a layer. -/
def andVals {w : Nat} : List (Item w) → List Bool
  | [] => []
  | .and x0 y0 x1 y1 :: l => ((x0 ^^ x1) && (y0 ^^ y1)) :: andVals l
  | _ :: l => andVals l

/-- The products of a layer. -/
def mulVals {w : Nat} : List (Item w) → List (BitVec w)
  | [] => []
  | .mul x0 y0 x1 y1 :: l => ((x0 + x1) * (y0 + y1)) :: mulVals l
  | _ :: l => mulVals l

theorem andPairs_bools {w : Nat} (l : List (Item w)) :
    Gmw.andPairs (Gmw.xorL (bools l) (bools (l.map Item.swap))) = andVals l ∧
      (bools l).length = 2 * l.countP Item.isAnd := by
  induction l with
  | nil => exact ⟨rfl, rfl⟩
  | cons it l ih =>
    obtain ⟨i1, i2⟩ := ih
    cases it <;> simp_all [bools, Item.swap, andVals, Gmw.xorL, Gmw.andPairs, List.countP_cons,
      Item.isAnd] <;> omega

theorem mulPairs_ariths {w : Nat} (l : List (Item w)) :
    Arith.mulPairs (List.zipWith (· + ·) (ariths l) (ariths (l.map Item.swap))) = mulVals l ∧
      (ariths l).length = 2 * l.countP Item.isMul := by
  induction l with
  | nil => exact ⟨rfl, rfl⟩
  | cons it l ih =>
    obtain ⟨i1, i2⟩ := ih
    cases it <;> simp_all [ariths, Item.swap, mulVals, Arith.mulPairs, List.countP_cons,
      Item.isMul] <;> omega

theorem countP_swap {w : Nat} (l : List (Item w)) (p : Item w → Bool) (hp : ∀ it, p it.swap = p it) :
    (l.map Item.swap).countP p = l.countP p := by
  rw [List.countP_map]
  congr 1
  funext it
  exact hp it

theorem isSnd_swap {w : Nat} (it : Item w) : it.swap.isSnd = it.isSnd := by cases it <;> rfl
theorem isRcv_swap {w : Nat} (it : Item w) : it.swap.isRcv = it.isRcv := by cases it <;> rfl
theorem isB2a_swap {w : Nat} (it : Item w) : it.swap.isB2a = it.isB2a := by cases it <;> rfl
theorem isAnd_swap {w : Nat} (it : Item w) : it.swap.isAnd = it.isAnd := by cases it <;> rfl
theorem isMul_swap {w : Nat} (it : Item w) : it.swap.isMul = it.isMul := by cases it <;> rfl

theorem rcvOk_swap {w : Nat} {l : List (Item w)} (h : RcvOk l) : RcvOk (l.map Item.swap) := by
  unfold RcvOk at h ⊢
  rw [List.pairwise_map]
  refine h.imp fun {a b} hab r0 r1 he => ?_
  have ha : a = .rcv r1 r0 := by rw [← swap_swap a, he]; rfl
  obtain ⟨h1, h2⟩ := hab r1 r0 ha
  refine ⟨by rw [isB2a_swap]; exact h1, fun s0 s1 hb => ?_⟩
  have hb' : b = .snd s1 s0 := by rw [← swap_swap b, hb]; rfl
  exact (h2 s1 s0 hb').symm

theorem evalGates_ok {w : Nat} (hw : 0 < w) (l : List (Item w)) (h : ∀ it ∈ l, it.Ok)
    (a0 a1 : List (BitVec w)) (b0 b1 : List Bool) (m0 m1 own0 own1 oth0 oth1 L0 L1 : List (BitVec w))
    (hb : Gmw.xorL b0 b1 = andVals l) (hb0 : b0.length = l.countP Item.isAnd)
    (hb1 : b1.length = l.countP Item.isAnd)
    (hm : List.zipWith (· + ·) m0 m1 = mulVals l) (hm0 : m0.length = l.countP Item.isMul)
    (hm1 : m1.length = l.countP Item.isMul)
    (ho0 : own0.length = l.countP Item.isSnd) (ho1 : own1.length = l.countP Item.isSnd)
    (ht0 : l.countP Item.isRcv ≤ oth0.length) (ht1 : l.countP Item.isRcv ≤ oth1.length)
    (hL0 : l.countP Item.isB2a ≤ L0.length) (hL1 : l.countP Item.isB2a ≤ L1.length)
    (hs : ∀ k < l.countP Item.isB2a, SharedBits (L0.getD k 0) (L1.getD k 0) a0 a1) :
    ∃ z0 z1,
      evalGates 0 a0 (l.map Item.gate) ⟨b0, m0, own0, oth0, List.zipWith (· ^^^ ·) (b2aWords l) L0,
        List.zipWith (· ^^^ ·) (b2aWords (l.map Item.swap)) L1⟩ = some z0 ∧
      evalGates 1 a1 (l.map Item.gate) ⟨b1, m1, own1, oth1,
        List.zipWith (· ^^^ ·) (b2aWords (l.map Item.swap)) L1,
        List.zipWith (· ^^^ ·) (b2aWords l) L0⟩ = some z1 ∧
      Reconstructs l z0 z1 ∧
      outsAt Item.isSnd l z0 = own0.map .arith ∧ outsAt Item.isSnd l z1 = own1.map .arith ∧
      outsAt Item.isRcv l z0 = (oth0.take (l.countP Item.isRcv)).map .arith ∧
      outsAt Item.isRcv l z1 = (oth1.take (l.countP Item.isRcv)).map .arith := by
  induction l generalizing b0 b1 m0 m1 own0 own1 oth0 oth1 L0 L1 with
  | nil =>
    simp only [List.countP_nil, List.length_eq_zero_iff] at ho0 ho1
    subst ho0 ho1
    refine ⟨[], [], rfl, rfl, trivial, rfl, rfl, by simp [outsAt], by simp [outsAt]⟩
  | cons it l ih =>
    have ih := ih fun x hx => h x (List.mem_cons_of_mem _ hx)
    have hit := h it List.mem_cons_self
    cases it with
    | and x0 y0 x1 y1 =>
      simp only [List.countP_cons, Item.isAnd, Item.isMul, Item.isSnd, Item.isRcv, Item.isB2a,
        if_true, Bool.false_eq_true, if_false, add_zero, andVals, mulVals] at *
      match b0, b1, hb0, hb1 with
      | p :: b0, q :: b1, hb0, hb1 =>
        simp only [Gmw.xorL, List.zipWith_cons_cons, List.cons.injEq] at hb
        obtain ⟨z0, z1, e0, e1, hr, s0, s1, t0, t1⟩ := ih b0 b1 m0 m1 own0 own1 oth0 oth1 L0 L1
          hb.2 (by simpa using hb0) (by simpa using hb1) hm hm0 hm1 ho0 ho1 ht0 ht1 hL0 hL1 hs
        refine ⟨.bool p :: z0, .bool q :: z1, ?_, ?_, ⟨hb.1, hr⟩, ?_, ?_, ?_, ?_⟩
        · simp [Item.gate, evalGates, b2aWords, Item.swap, e0]
        · simp [Item.gate, evalGates, b2aWords, Item.swap, e1]
        · simp [outsAt, Item.isSnd, s0]
        · simp [outsAt, Item.isSnd, s1]
        · simp [outsAt, Item.isRcv, t0]
        · simp [outsAt, Item.isRcv, t1]
    | mul x0 y0 x1 y1 =>
      simp only [List.countP_cons, Item.isAnd, Item.isMul, Item.isSnd, Item.isRcv, Item.isB2a,
        if_true, Bool.false_eq_true, if_false, add_zero, andVals, mulVals] at *
      match m0, m1, hm0, hm1 with
      | p :: m0, q :: m1, hm0, hm1 =>
        simp only [List.zipWith_cons_cons, List.cons.injEq] at hm
        obtain ⟨z0, z1, e0, e1, hr, s0, s1, t0, t1⟩ := ih b0 b1 m0 m1 own0 own1 oth0 oth1 L0 L1
          hb hb0 hb1 hm.2 (by simpa using hm0) (by simpa using hm1) ho0 ho1 ht0 ht1 hL0 hL1 hs
        refine ⟨.arith p :: z0, .arith q :: z1, ?_, ?_, ⟨hm.1, hr⟩, ?_, ?_, ?_, ?_⟩
        · simp [Item.gate, evalGates, b2aWords, Item.swap, e0]
        · simp [Item.gate, evalGates, b2aWords, Item.swap, e1]
        · simp [outsAt, Item.isSnd, s0]
        · simp [outsAt, Item.isSnd, s1]
        · simp [outsAt, Item.isRcv, t0]
        · simp [outsAt, Item.isRcv, t1]
    | snd r0 r1 =>
      simp only [List.countP_cons, Item.isAnd, Item.isMul, Item.isSnd, Item.isRcv, Item.isB2a,
        if_true, Bool.false_eq_true, if_false, add_zero, andVals, mulVals] at *
      match own0, own1, ho0, ho1 with
      | p :: own0, q :: own1, ho0, ho1 =>
        obtain ⟨z0, z1, e0, e1, hr, s0, s1, t0, t1⟩ := ih b0 b1 m0 m1 own0 own1 oth0 oth1 L0 L1
          hb hb0 hb1 hm hm0 hm1 (by simpa using ho0) (by simpa using ho1) ht0 ht1 hL0 hL1 hs
        refine ⟨.arith p :: z0, .arith q :: z1, ?_, ?_, ⟨trivial, hr⟩, ?_, ?_, ?_, ?_⟩
        · simp [Item.gate, evalGates, b2aWords, Item.swap, e0]
        · simp [Item.gate, evalGates, b2aWords, Item.swap, e1]
        · simp [outsAt, Item.isSnd, s0]
        · simp [outsAt, Item.isSnd, s1]
        · simp [outsAt, Item.isRcv, t0]
        · simp [outsAt, Item.isRcv, t1]
    | rcv r0 r1 =>
      simp only [List.countP_cons, Item.isAnd, Item.isMul, Item.isSnd, Item.isRcv, Item.isB2a,
        if_true, Bool.false_eq_true, if_false, add_zero, andVals, mulVals] at *
      match oth0, oth1, ht0, ht1 with
      | p :: oth0, q :: oth1, ht0, ht1 =>
        obtain ⟨z0, z1, e0, e1, hr, s0, s1, t0, t1⟩ := ih b0 b1 m0 m1 own0 own1 oth0 oth1 L0 L1
          hb hb0 hb1 hm hm0 hm1 ho0 ho1 (by simpa using ht0) (by simpa using ht1) hL0 hL1 hs
        refine ⟨.arith p :: z0, .arith q :: z1, ?_, ?_, ⟨trivial, hr⟩, ?_, ?_, ?_, ?_⟩
        · simp [Item.gate, evalGates, b2aWords, Item.swap, e0]
        · simp [Item.gate, evalGates, b2aWords, Item.swap, e1]
        · simp [outsAt, Item.isSnd, s0]
        · simp [outsAt, Item.isSnd, s1]
        · simp [outsAt, Item.isRcv, t0]
        · simp [outsAt, Item.isRcv, t1]
    | b2a x0 x1 =>
      simp only [List.countP_cons, Item.isAnd, Item.isMul, Item.isSnd, Item.isRcv, Item.isB2a,
        if_true, Bool.false_eq_true, if_false, add_zero, andVals, mulVals] at *
      match L0, L1, hL0, hL1 with
      | u :: L0, v :: L1, hL0, hL1 =>
        obtain ⟨z0, z1, e0, e1, hr, s0, s1, t0, t1⟩ := ih b0 b1 m0 m1 own0 own1 oth0 oth1 L0 L1
          hb hb0 hb1 hm hm0 hm1 ho0 ho1 ht0 ht1 (by simpa using hL0) (by simpa using hL1)
          (fun k hk => by simpa using hs (k + 1) (by omega))
        obtain ⟨p, q, f0, f1, f2⟩ := b2a_value hw (wordOf w x0) (wordOf w x1) u v a0 a1
          (by simpa using hs 0 (by omega))
        refine ⟨.arith p :: z0, .arith q :: z1, ?_, ?_, ⟨?_, hr⟩, ?_, ?_, ?_, ?_⟩
        · simp [Item.gate, evalGates, b2aWords, Item.swap, e0, f0]
        · simp [Item.gate, evalGates, b2aWords, Item.swap, e1, f1]
        · rw [Item.Good, f2, wordOf_xor w x0 x1 hit.1 hit.2, wordOf_eq]
        · simp [outsAt, Item.isSnd, s0]
        · simp [outsAt, Item.isSnd, s1]
        · simp [outsAt, Item.isRcv, t0]
        · simp [outsAt, Item.isRcv, t1]

/-- Spec: arithmetic triples for which multiplication is right (see C07). -/
def GoodTriple {w : Nat} (s t : Arith.Triple w) : Prop :=
  Arith.ValidPair s t ∧ s.a + t.a = s.b + t.b ∧ s.b + t.b = s.c + t.c

/-- C41 and C42, what holds: a layer of AND gates, multiplications, `B2A`, `A2BBoolShareSnd` and
`A2BBoolShareRcv` gates in any interleaving in which a `Rcv` gate is followed by no `B2A` gate and only by `Snd`
gates for the same value.
Every gate reconstructs to its value; the outputs of a `Snd` gate at one party and of the `Rcv` gate of
the same rank at the other one are XOR shares of the arithmetic share of the former.

Missing: other orders (`two_a2b_in_one_layer`, `b2a_after_rcv_panics`); `B2A` gates whose
Boolean shared bits are not matched by the last arithmetic shared bits, i.e. all but the first `B2A` gate
executed with a given setup (`second_b2a_wrong`); multiplications with other triples (C07). -/
theorem mixed_layer_correct_partial {w : Nat} (hw : 0 < w) (l : List (Item w)) (h : ∀ it ∈ l, it.Ok)
    (hr : RcvOk l) (hc : l.countP Item.isRcv ≤ l.countP Item.isSnd)
    (rand0 rand1 : Nat → BitVec w) (s0 s1 : Setup w)
    (hb : Gmw.Matching s0.bool s1.bool) (hbn : l.countP Item.isAnd ≤ s0.bool.length)
    (ha : List.Forall₂ GoodTriple s0.arith s1.arith) (han : l.countP Item.isMul ≤ s0.arith.length)
    (hl0 : l.countP Item.isB2a ≤ s0.sbBool.length) (hl1 : l.countP Item.isB2a ≤ s1.sbBool.length)
    (hs : ∀ k < l.countP Item.isB2a, SharedBits (s0.sbBool.reverse.getD k 0)
      (s1.sbBool.reverse.getD k 0) s0.sbArith s1.sbArith) :
    ∃ z0 z1 s0' s1' snd0 snd1 rcv0 rcv1,
      runLayer (l.map Item.gate) (l.flatMap Item.in0) (l.flatMap Item.in1) rand0 rand1 s0 s1
        = some ((z0, s0'), (z1, s1')) ∧
      Reconstructs l z0 z1 ∧
      outsAt Item.isSnd l z0 = snd0.map .arith ∧ outsAt Item.isSnd l z1 = snd1.map .arith ∧
      outsAt Item.isRcv l z0 = rcv0.map .arith ∧ outsAt Item.isRcv l z1 = rcv1.map .arith ∧
      List.zipWith (· ^^^ ·) snd0 rcv1 = (sndShares l).take (l.countP Item.isRcv) ∧
      List.zipWith (· ^^^ ·) snd1 rcv0
        = (sndShares (l.map Item.swap)).take (l.countP Item.isRcv) ∧
      Gmw.Matching s0'.bool s1'.bool ∧
      s0'.bool = s0.bool.take (s0.bool.length - l.countP Item.isAnd) ∧
      s0'.arith = s0.arith.drop (l.countP Item.isMul) ∧
      s1'.arith = s1.arith.drop (l.countP Item.isMul) ∧
      s0'.sbBool = s0.sbBool.take (s0.sbBool.length - l.countP Item.isB2a) ∧
      s1'.sbBool = s1.sbBool.take (s1.sbBool.length - l.countP Item.isB2a) ∧
      s0'.sbArith = s0.sbArith ∧ s1'.sbArith = s1.sbArith := by
  have h' : ∀ it ∈ l.map Item.swap, it.Ok := by
    intro it hit
    obtain ⟨a, ha, rfl⟩ := List.mem_map.1 hit
    exact ok_swap (h a ha)
  have cs := countP_swap l Item.isSnd isSnd_swap
  have cb := countP_swap l Item.isB2a isB2a_swap
  have ca := countP_swap l Item.isAnd isAnd_swap
  have cm := countP_swap l Item.isMul isMul_swap
  have g1 : (l.map Item.swap).map Item.gate = l.map Item.gate := by
    rw [List.map_map]
    exact List.map_congr_left fun it _ => gate_swap it
  have i1 : (l.map Item.swap).flatMap Item.in0 = l.flatMap Item.in1 := by
    rw [List.flatMap_map]; rfl
  have sp0 := split_ok l h
  have sp1 := split_ok (l.map Item.swap) h'
  rw [g1, i1, ca, cm] at sp1
  obtain ⟨v0, v1⟩ := andPairs_bools l
  obtain ⟨-, v2⟩ := andPairs_bools (l.map Item.swap)
  obtain ⟨n0, n1⟩ := mulPairs_ariths l
  obtain ⟨-, n2⟩ := mulPairs_ariths (l.map Item.swap)
  rw [ca] at v2
  rw [cm] at n2
  obtain ⟨bm0, bm1, bz0, bz1, br0, br1, b1, b2, b3, b4, -, -, b5, b6, b7, b8, b9, b10⟩ :=
    Gmw.and_layer_correct (l.countP Item.isAnd) _ _ s0.bool s1.bool v1 v2 hb hbn
  obtain ⟨⟨az0, az1⟩, a1, a2, a3, a4⟩ := Arith.mul_layer_correct_partial (l.countP Item.isMul) _ _
    s0.arith s1.arith n1 n2 ha han
  simp only [Arith.runLayer, Option.bind_eq_bind, Option.bind_eq_some_iff, Option.pure_def,
    Option.some.injEq] at a1
  obtain ⟨am0, a5, am1, a6, ⟨p0, q0⟩, a7, ⟨p1, q1⟩, a8, a9⟩ := a1
  simp only [Prod.mk.injEq] at a9
  obtain ⟨⟨rfl, rfl⟩, rfl, rfl⟩ := a9
  have c0 := convMsg_ok l h hr rand0 s0.sbBool.reverse (by simpa using hl0)
  have c1 := convMsg_ok (l.map Item.swap) h' (rcvOk_swap hr) rand1 s1.sbBool.reverse
    (by rw [cb]; simpa using hl1)
  rw [List.reverse_reverse] at c0 c1
  rw [cs, cb] at c1
  have hss : (sndShares l).length = l.countP Item.isSnd ∧
      (sndShares (l.map Item.swap)).length = l.countP Item.isSnd := by
    clear * -
    induction l with
    | nil => exact ⟨rfl, rfl⟩
    | cons it l ih =>
      cases it <;> simp_all [sndShares, Item.swap, List.countP_cons, Item.isSnd]
  obtain ⟨z0, z1, e0, e1, e2, e3, e4, e5, e6⟩ := evalGates_ok hw l h s0.sbArith s1.sbArith bz0 bz1 p0 p1
    (List.zipWith (· ^^^ ·) (sndShares l) ((List.range (l.countP Item.isSnd)).map rand0))
    (List.zipWith (· ^^^ ·) (sndShares (l.map Item.swap))
      ((List.range (l.countP Item.isSnd)).map rand1))
    ((List.range (l.countP Item.isSnd)).map rand1) ((List.range (l.countP Item.isSnd)).map rand0)
    s0.sbBool.reverse s1.sbBool.reverse (by rw [b7, v0]) b5 b6 (by rw [a4, n0]) a2 a3
    (by simp [hss.1]) (by simp [hss.2]) (by simpa using hc) (by simpa using hc)
    (by simpa using hl0) (by simpa using hl1) hs
  have xx : ∀ (xs rs : List (BitVec w)) (n : Nat), List.zipWith (· ^^^ ·)
      (List.zipWith (· ^^^ ·) xs rs) (rs.take n) = (xs.take rs.length).take n := by
    intro xs
    induction xs with
    | nil => intro rs n; simp
    | cons x xs ih =>
      intro rs n
      cases rs with
      | nil => simp
      | cons r rs =>
        cases n with
        | zero => simp
        | succ n => simp [ih, BitVec.xor_assoc]
  have dr : ∀ (L : List (BitVec w)) (n : Nat), (L.reverse.drop n).reverse = L.take (L.length - n) := by
    intro L n
    rw [List.drop_reverse, List.reverse_reverse]
  refine ⟨z0, z1, ⟨br0, _, (s0.sbBool.reverse.drop (l.countP Item.isB2a)).reverse, s0.sbArith⟩,
    ⟨br1, _, (s1.sbBool.reverse.drop (l.countP Item.isB2a)).reverse, s1.sbArith⟩, _, _, _, _, ?_, e2, e3,
    e4, e5, e6, ?_, ?_, b10, b8, rfl, rfl, dr _ _, dr _ _, rfl, rfl⟩
  · simp only [runLayer, computeMsg, evaluateInteractive, sp0, sp1, b1, b2, a5, a6, c0, c1, Msg.sent,
      Option.bind_eq_bind, Option.bind_some, b3, b4, a7, a8, e0, e1]
  · rw [xx]; congr 1; rw [List.take_of_length_le (by simp [hss.1])]
  · rw [xx]; congr 1; rw [List.take_of_length_le (by simp [hss.2])]

end Verif.Mixed
