import Verif.Mixed.Private
import Verif.Mixed.Sharing
import Verif.Exec.InputsHidden

/-!
C98: the inputs of a party of the mixed protocol, from their sharing on, against a peer that does whatever it likes.
-/
set_option autoImplicit false

namespace Verif.Mixed

open Circuit Proc Exec Gmw

variable {w : Nat}

/-! ### Specification -/

/-- Two inputs of the same kind and length. -/
def SameInput : Storage w → Storage w → Prop
  | .bool a, .bool b => a.length = b.length
  | .arith a, .arith b => a.length = b.length
  | _, _ => False

/-- What the generators of the sharing deliver for `n` values. -/
def Tapes (w n : Nat) : Set (List Bool × List (BitVec w)) := {t | t.1.length = n ∧ t.2.length = n}

/-- The kinds of the inputs of the execution only depend on the kinds of the own shares. -/
def FixedKinds (lay : List (Val w) → List (Val w) → List (Val w)) : Prop :=
  ∀ a a' b, List.Forall₂ SameKind a a' → List.Forall₂ SameKind (lay a b) (lay a' b)

/-! ### Lemmas -/

/-- A permutation of tapes that leads to the same second share. -/
def shift : Storage w → Storage w → List Bool × List (BitVec w) → List Bool × List (BitVec w)
  | .bool a, .bool b, t => (xorL t.1 (xorL a b), t.2)
  | .arith a, .arith b, t => (t.1, List.zipWith (· + ·) t.2 (List.zipWith (· - ·) b a))
  | _, _, t => t

theorem add_sub_lists : ∀ r a b : List (BitVec w), r.length = a.length → a.length = b.length →
    List.zipWith (· + ·) (List.zipWith (· + ·) r (List.zipWith (· - ·) b a)) (List.zipWith (· - ·) a b) = r
  | [], [], [], _, _ => rfl
  | x :: r, y :: a, z :: b, h, h' => by
    simp only [List.zipWith_cons_cons]
    rw [add_sub_lists r a b (by simpa using h) (by simpa using h')]
    congr 1
    ring

theorem sub_shift : ∀ r a b : List (BitVec w), r.length = a.length → a.length = b.length →
    List.zipWith (fun r i => i - r) (List.zipWith (· + ·) r (List.zipWith (· - ·) b a)) b = List.zipWith (fun r i => i - r) r a
  | [], [], [], _, _ => rfl
  | x :: r, y :: a, z :: b, h, h' => by
    simp only [List.zipWith_cons_cons]
    rw [sub_shift r a b (by simpa using h) (by simpa using h')]
    congr 1
    ring

theorem shift_tapes {s t : Storage w} (h : SameInput s t) {r : List Bool × List (BitVec w)} (hr : r ∈ Tapes w s.toList.length) :
    shift s t r ∈ Tapes w s.toList.length := by
  obtain ⟨h1, h2⟩ := hr
  match s, t, h with
  | .bool a, .bool b, h =>
    simp only [SameInput] at h
    simp only [Storage.toList, List.length_map] at h1 h2 ⊢
    exact ⟨by simp [shift, xorL, h1, h], h2⟩
  | .arith a, .arith b, h =>
    simp only [SameInput] at h
    simp only [Storage.toList, List.length_map] at h1 h2 ⊢
    exact ⟨h1, by simp [shift, h2, h]⟩

theorem shift_back {s t : Storage w} (h : SameInput s t) {r : List Bool × List (BitVec w)} (hr : r ∈ Tapes w s.toList.length) :
    shift t s (shift s t r) = r := by
  obtain ⟨h1, h2⟩ := hr
  match s, t, h with
  | .bool a, .bool b, h =>
    simp only [SameInput] at h
    simp only [Storage.toList, List.length_map] at h1
    have e : xorL b a = xorL a b := by simp only [xorL]; exact List.zipWith_comm_of_comm (fun x y => Bool.xor_comm x y)
    simp only [shift, e]
    rw [xorL_twice _ _ (by simp [xorL, h1, h])]
  | .arith a, .arith b, h =>
    simp only [SameInput] at h
    simp only [Storage.toList, List.length_map] at h2
    simp only [shift]
    rw [add_sub_lists _ _ _ h2 h]

theorem same_input_symm {s t : Storage w} (h : SameInput s t) : SameInput t s ∧ t.toList.length = s.toList.length := by
  match s, t, h with
  | .bool a, .bool b, h => exact ⟨h.symm, by simpa [Storage.toList, SameInput] using h.symm⟩
  | .arith a, .arith b, h => exact ⟨h.symm, by simpa [Storage.toList, SameInput] using h.symm⟩

theorem forall2_map {α : Type} (f : α → Val w) (hf : ∀ x y, SameKind (f x) (f y)) : ∀ a b : List α, a.length = b.length →
    List.Forall₂ SameKind (a.map f) (b.map f)
  | [], [], _ => .nil
  | x :: a, y :: b, h => .cons (hf x y) (forall2_map f hf a b (by simpa using h))

theorem shift_share {s t : Storage w} (h : SameInput s t) {r : List Bool × List (BitVec w)} (hr : r ∈ Tapes w s.toList.length) :
    ∃ own own' sent, share r.1 r.2 s = some (own, sent) ∧ share (shift s t r).1 (shift s t r).2 t = some (own', sent) ∧
      List.Forall₂ SameKind own.toList own'.toList := by
  have hr' := shift_tapes h hr
  obtain ⟨h1, h2⟩ := hr
  obtain ⟨h3, h4⟩ := hr'
  match s, t, h with
  | .bool a, .bool b, h =>
    simp only [SameInput] at h
    simp only [Storage.toList, List.length_map] at h1 h3
    refine ⟨_, .bool (shift (.bool a) (.bool b) r).1, _, rfl, ?_, forall2_map (α := Bool) .bool (fun _ _ => trivial) r.1
      (shift (.bool a) (.bool b) r).1 (by rw [h1, h3])⟩
    have := sent_shift a b r.1 h h1
    simp only [sentShare, xorShare] at this
    simp only [share, shift, xorShare, this]
  | .arith a, .arith b, h =>
    simp only [SameInput] at h
    simp only [Storage.toList, List.length_map] at h2 h4
    refine ⟨_, .arith (shift (.arith a) (.arith b) r).2, _, rfl, ?_, forall2_map (α := BitVec w) .arith (fun _ _ => trivial) r.2
      (shift (.arith a) (.arith b) r).2 (by rw [h2, h4])⟩
    simp only [share, shift, Arith.share, sub_shift r.2 a b h2 h]

/-! ### Theorem -/

/-- **C98.**  A party of the mixed protocol has the inputs `s` or `t` of the same kind and length, shares them (C64), sends
one share, and gets the peer's shares of the peer's inputs, which the peer may choose depending on what it was sent; the
inputs of the execution are made of both (`lay`).  In the execution the peer follows any strategy.  To every choice of what
the generators of the sharing deliver and of the masks in the first case belongs exactly one in the second such that the peer
gets the same share, receives the same messages, and the honest party returns an output in both cases or in none.  Missing:
multiplications (`mixed_mul_leaks`). -/
theorem mixed_inputs_hidden_partial (m : Multi (Gate w)) (rank : Node → Nat) (wf : WF m rank)
    (hsc : ∀ i, isSimd m i = false) (hmul : ∀ v, m.gate? v ≠ some (.arith .mul)) (party : Nat)
    (s t : Storage w) (hin : SameInput s t) (lay : List (Val w) → List (Val w) → List (Val w)) (hlay : FixedKinds lay)
    (answer : Storage w → Option (List (Val w)))
    (init : Store (Val w) (List (Val w)))
    (hset : ∀ v, init.set v = false) (sb : Nat → Nat) (rand : Nat → Nat → BitVec w)
    (mk : Nat → Masks w → (Nat → BitVec w) × Setup w) (hmk : FromMasks sb rand mk) :
    ∃ it ls, MIter.new m = some it ∧
      MIter.collect m ((m.circs.map fun c => c.gates.length).sum + 1) it = some ls ∧
      ∀ adv : Storage w → List (Msg w) → Option (Msg w × Option Unit),
      ∃ Φ : (List Bool × List (BitVec w)) × List (Masks w) → (List Bool × List (BitVec w)) × List (Masks w),
        Set.BijOn Φ (Tapes w s.toList.length ×ˢ {x | FitX (masksOf w sb) m ls x})
          (Tapes w s.toList.length ×ˢ {x | FitX (masksOf w sb) m ls x}) ∧
        ∀ r x, r ∈ Tapes w s.toList.length → FitX (masksOf w sb) m ls x → ∃ own own' sent,
          share r.1 r.2 s = some (own, sent) ∧ share (Φ (r, x)).1.1 (Φ (r, x)).1.2 t = some (own', sent) ∧
          ∀ got, answer sent = some got → ∃ (seen : List (Msg w)) (o o' : Option (Input (Val w) (List (Val w)))),
            observe sentOf (adv sent) (execute (mixed w) m party (.scalar (lay own.toList got))
              (maskSetup mk ⟨[], []⟩ x) init) = (seen, o) ∧
            observe sentOf (adv sent) (execute (mixed w) m party (.scalar (lay own'.toList got))
              (maskSetup mk ⟨[], []⟩ (Φ (r, x)).2) init) = (seen, o') ∧
            o.isSome = o'.isSome := by
  obtain ⟨it, ls, e1, e2, -⟩ := layers_ok_partial m rank wf
  refine ⟨it, ls, e1, e2, fun adv => ?_⟩
  have key : ∀ r : List Bool × List (BitVec w), ∃ f : List (Masks w) → List (Masks w),
      Set.BijOn f {x | FitX (masksOf w sb) m ls x} {x | FitX (masksOf w sb) m ls x} ∧
      ∀ x, r ∈ Tapes w s.toList.length → FitX (masksOf w sb) m ls x → ∃ own own' sent,
          share r.1 r.2 s = some (own, sent) ∧ share (shift s t r).1 (shift s t r).2 t = some (own', sent) ∧
          ∀ got, answer sent = some got → ∃ (seen : List (Msg w)) (o o' : Option (Input (Val w) (List (Val w)))),
            observe sentOf (adv sent) (execute (mixed w) m party (.scalar (lay own.toList got))
              (maskSetup mk ⟨[], []⟩ x) init) = (seen, o) ∧
            observe sentOf (adv sent) (execute (mixed w) m party (.scalar (lay own'.toList got))
              (maskSetup mk ⟨[], []⟩ (f x)) init) = (seen, o') ∧
            o.isSome = o'.isSome := by
    intro r
    by_cases h : r ∈ Tapes w s.toList.length
    · obtain ⟨own, own', sent, s1, s2, hk⟩ := shift_share hin h
      cases ha : answer sent with
      | none =>
        exact ⟨id, Set.bijOn_id _, fun _ _ _ => ⟨own, own', sent, s1, s2, fun _ h => by rw [ha] at h; cases h⟩⟩
      | some got =>
        obtain ⟨it', ls', d1, d2, h3⟩ := mixed_active_private_partial m rank wf hsc hmul party (lay own.toList got)
          (lay own'.toList got) (hlay _ _ _ hk) init hset sb rand mk hmk
        rw [e1] at d1; cases d1
        rw [e2] at d2; cases d2
        obtain ⟨f, f1, f2⟩ := h3 (adv sent)
        refine ⟨f, f1, fun x _ hx => ⟨own, own', sent, s1, s2, fun got' hg => ?_⟩⟩
        rw [ha] at hg; cases hg
        exact f2 x hx
    · exact ⟨id, Set.bijOn_id _, fun _ h' => absurd h' h⟩
  choose f f1 f2 using key
  obtain ⟨hin', hlen⟩ := same_input_symm hin
  refine ⟨fun p => (shift s t p.1, f p.1 p.2), ⟨?_, ?_, ?_⟩, ?_⟩
  · rintro ⟨r, x⟩ ⟨h1, h2⟩
    exact ⟨shift_tapes hin h1, (f1 r).mapsTo h2⟩
  · rintro ⟨r, x⟩ ⟨h1, h2⟩ ⟨r', x'⟩ ⟨h1', h2'⟩ h
    simp only [Prod.mk.injEq] at h
    have hrr : r = r' := by
      have b1 : shift t s (shift s t r) = r := shift_back hin h1
      have b2 : shift t s (shift s t r') = r' := shift_back hin h1'
      rw [← b1, h.1, b2]
    subst hrr
    exact Prod.ext rfl ((f1 r).injOn h2 h2' h.2)
  · rintro ⟨r, x⟩ ⟨h1, h2⟩
    have h1' : r ∈ Tapes w t.toList.length := by rw [hlen]; exact h1
    obtain ⟨y, hy, rfl⟩ := (f1 (shift t s r)).surjOn h2
    refine ⟨(shift t s r, y), ⟨?_, hy⟩, ?_⟩
    · have := shift_tapes hin' h1'
      rw [hlen] at this
      exact this
    · simp only [shift_back hin' h1']
  · intro r x h hx
    exact f2 r x h hx

/-! ### Cases -/

theorem append_fixed : FixedKinds (w := w) fun a b => a ++ b := by
  intro a a' b h
  refine List.rel_append h ?_
  induction b with
  | nil => exact .nil
  | cons x b ih => exact .cons (by cases x <;> trivial) ih

/-- A party with the bit `x` or `y` and one bit of the peer, in a circuit with an AND gate and conversions. -/
example (x y : Bool) : ∃ it ls, MIter.new (.ofBase privCirc) = some it ∧
    MIter.collect (.ofBase privCirc) ((((Multi.ofBase privCirc).circs.map fun c => c.gates.length)).sum + 1) it = some ls ∧
    ∃ Φ : (List Bool × List (BitVec 1)) × List (Masks 1) → (List Bool × List (BitVec 1)) × List (Masks 1),
      ∀ r z, r ∈ Tapes 1 1 → FitX (masksOf 1 fun n => n) (.ofBase privCirc) ls z → ∃ own own' sent,
        share r.1 r.2 (.bool [x]) = some (own, sent) ∧ share (Φ (r, z)).1.1 (Φ (r, z)).1.2 (.bool [y]) = some (own', sent) := by
  obtain ⟨it, ls, e1, e2, h⟩ := mixed_inputs_hidden_partial (Multi.ofBase privCirc) _ (single_wf privCirc_ok)
    (single_scalar rfl) (by
      intro v hv
      obtain ⟨-, hv⟩ := single_gate privCirc v _ hv
      have hi : v.2 < 6 := (List.getElem?_eq_some_iff.1 hv).1
      obtain ⟨u, v⟩ := v
      simp only at hv hi
      interval_cases v <;> simp [privCirc] at hv) 0 (.bool [x]) (.bool [y]) rfl (fun a b => a ++ b) append_fixed
    (fun _ => some [.bool true]) privInit (fun _ => rfl) (fun n => n) _ privSetup privSetup_ok
  obtain ⟨Φ, -, h⟩ := h fun _ => privPeer
  exact ⟨it, ls, e1, e2, Φ, fun r z hr hz => by
    obtain ⟨own, own', sent, h1, h2, -⟩ := h r z hr hz
    exact ⟨own, own', sent, h1, h2⟩⟩

end Verif.Mixed
