import Verif.Mixed.A2bProps
import Verif.Gmw.Props
import Verif.Arith.Props

/-!
Sharing of mixed storages (C64).
-/
set_option autoImplicit false

namespace Verif.Mixed

open Circuit Proc Exec Adder

variable {w : Nat}

/-! ### Model -/

/-- mixed_gmw.rs:731-739 `MixedSharing::share`, with the values the two generators deliver; `todo!()` for the
`Mixed` variant. -/
def share (brand : List Bool) (arand : List (BitVec w)) : Storage w → Option (Storage w × Storage w)
  | .bool b => some (.bool (Gmw.xorShare brand b).1, .bool (Gmw.xorShare brand b).2)
  | .arith a => some (.arith (Arith.share arand a).1, .arith (Arith.share arand a).2)
  | .mixed _ => none

/-- mixed_gmw.rs:741-753 `MixedSharing::reconstruct`; `todo!()` unless both are Boolean or both arithmetic. -/
def reconstruct : Storage w → Storage w → Option (Storage w)
  | .bool a, .bool b => some (.bool (Gmw.xorReconstruct (a, b)))
  | .arith a, .arith b => some (.arith (Arith.reconstruct (a, b)))
  | _, _ => none

/-! ### Theorems -/

/-- **C64**: sharing and reconstructing a Boolean or arithmetic storage gives it back.  Partial: the `Mixed` variant
panics (`mixed_storage_not_shared`). -/
theorem mixed_sharing_roundtrip_partial (s : Storage w) (hs : ∀ v, s ≠ .mixed v) (brand : List Bool) (arand : List (BitVec w))
    (hb : brand.length = s.toList.length) (ha : arand.length = s.toList.length) :
    ∃ s0 s1, share brand arand s = some (s0, s1) ∧ reconstruct s0 s1 = some s := by
  cases s with
  | bool b =>
    refine ⟨_, _, rfl, ?_⟩
    simp only [reconstruct]
    rw [Gmw.xor_sharing_roundtrip b brand (by simpa [Storage.toList] using hb)]
  | arith a =>
    refine ⟨_, _, rfl, ?_⟩
    simp only [reconstruct]
    rw [Arith.additive_sharing_roundtrip a arand (by simpa [Storage.toList] using ha)]
  | mixed v => exact absurd rfl (hs v)

example : ∀ v, (.arith [3, 4] : Storage 8) ≠ .mixed v := by intro v h; cases h

/-- C64 fails for the `Mixed` variant, which `FromIterator` makes of an empty sequence: an execution without outputs
cannot be reconstructed. -/
theorem mixed_storage_not_shared (brand : List Bool) (arand : List (BitVec w)) (v : List (Val w)) :
    share brand arand (.mixed v) = none ∧
      ((Storage.fromIter []).bind fun s0 => (Storage.fromIter []).bind fun s1 => reconstruct s0 s1) = (none : Option (Storage w)) :=
  ⟨rfl, rfl⟩

theorem fromIter_bool (b : Bool) (bs : List Bool) :
    Storage.fromIter ((b :: bs).map (Val.bool (w := w))) = some (.bool (b :: bs)) := by
  simp only [List.map_cons, Storage.fromIter, foldlM_bool, (mapM_bool_iff _ bs).2 rfl]
  rfl

theorem fromIter_arith (b : BitVec w) (bs : List (BitVec w)) :
    Storage.fromIter ((b :: bs).map Val.arith) = some (.arith (b :: bs)) := by
  simp only [List.map_cons, Storage.fromIter, foldlM_arith, (mapM_arith_iff _ bs).2 rfl]
  rfl

/-- **C64**: the Boolean outputs of two executors are collected and reconstruct to the values they combine to. -/
theorem reconstruct_bools (o0 o1 : List (Val w)) (bs : List Bool) (hne : bs ≠ []) (h0 : o0.length = bs.length)
    (h1 : o1.length = bs.length)
    (h : ∀ (i : Nat) (b : Bool), bs[i]? = some b → ∃ y0 y1, o0[i]? = some y0 ∧ o1[i]? = some y1 ∧ combine y0 y1 = some (.bool b)) :
    ∃ s0 s1, Storage.fromIter o0 = some s0 ∧ Storage.fromIter o1 = some s1 ∧ reconstruct s0 s1 = some (.bool bs) := by
  have key : ∃ a0 a1 : List Bool, o0 = a0.map .bool ∧ o1 = a1.map .bool ∧ Gmw.xorL a0 a1 = bs := by
    clear hne
    induction bs generalizing o0 o1 with
    | nil => exact ⟨[], [], by simpa using h0, by simpa using h1, rfl⟩
    | cons b bs ih =>
      cases o0 with
      | nil => simp at h0
      | cons y0 o0 =>
        cases o1 with
        | nil => simp at h1
        | cons y1 o1 =>
          obtain ⟨a0, a1, e0, e1, e2⟩ := ih o0 o1 (by simpa using h0) (by simpa using h1) fun i b hb => by
            simpa using h (i + 1) b (by simpa using hb)
          obtain ⟨z0, z1, f0, f1, f2⟩ := h 0 b rfl
          simp only [List.getElem?_cons_zero, Option.some.injEq] at f0 f1
          subst f0 f1
          cases y0 <;> cases y1 <;> simp [combine] at f2
          rename_i u0 u1
          refine ⟨u0 :: a0, u1 :: a1, by simp [e0], by simp [e1], ?_⟩
          rw [← e2, ← f2]
          rfl
  obtain ⟨a0, a1, rfl, rfl, rfl⟩ := key
  cases a0 with
  | nil => exact absurd rfl hne
  | cons x a0 =>
    cases a1 with
    | nil => exact absurd rfl hne
    | cons y a1 => exact ⟨_, _, fromIter_bool x a0, fromIter_bool y a1, rfl⟩

/-- **C64**: the same for arithmetic outputs. -/
theorem reconstruct_ariths (o0 o1 : List (Val w)) (rs : List (BitVec w)) (hne : rs ≠ []) (h0 : o0.length = rs.length)
    (h1 : o1.length = rs.length)
    (h : ∀ (i : Nat) (r : BitVec w), rs[i]? = some r →
      ∃ y0 y1, o0[i]? = some y0 ∧ o1[i]? = some y1 ∧ combine y0 y1 = some (.arith r)) :
    ∃ s0 s1, Storage.fromIter o0 = some s0 ∧ Storage.fromIter o1 = some s1 ∧ reconstruct s0 s1 = some (.arith rs) := by
  have key : ∃ a0 a1 : List (BitVec w), o0 = a0.map .arith ∧ o1 = a1.map .arith ∧ Arith.reconstruct (a0, a1) = rs := by
    clear hne
    induction rs generalizing o0 o1 with
    | nil => exact ⟨[], [], by simpa using h0, by simpa using h1, rfl⟩
    | cons b bs ih =>
      cases o0 with
      | nil => simp at h0
      | cons y0 o0 =>
        cases o1 with
        | nil => simp at h1
        | cons y1 o1 =>
          obtain ⟨a0, a1, e0, e1, e2⟩ := ih o0 o1 (by simpa using h0) (by simpa using h1) fun i b hb => by
            simpa using h (i + 1) b (by simpa using hb)
          obtain ⟨z0, z1, f0, f1, f2⟩ := h 0 b rfl
          simp only [List.getElem?_cons_zero, Option.some.injEq] at f0 f1
          subst f0 f1
          cases y0 <;> cases y1 <;> simp [combine] at f2
          rename_i u0 u1
          refine ⟨u0 :: a0, u1 :: a1, by simp [e0], by simp [e1], ?_⟩
          rw [← e2, ← f2]
          rfl
  obtain ⟨a0, a1, rfl, rfl, rfl⟩ := key
  cases a0 with
  | nil => exact absurd rfl hne
  | cons x a0 =>
    cases a1 with
    | nil => exact absurd rfl hne
    | cons y a1 => exact ⟨_, _, fromIter_arith x a0, fromIter_arith y a1, rfl⟩

/-- **C64**, together with `a2b_executes`: share a ring element, run the conversion, collect and reconstruct: the bits of
the ring element. -/
theorem a2b_end_to_end {s : List Char} (hf : fileFor w = some s) (x : BitVec w) (brand : List Bool) (r : BitVec w)
    (setup0 setup1 : Nat → Nat → (Nat → BitVec w) × Setup w) (hset : ∀ k n, SetupOk n n (setup0 k n).2 (setup1 k n).2)
    (init0 init1 : Store (Val w) (List (Val w))) :
    ∃ (c : Base (Gate w)) (i0 i1 : Storage w) (o0 o1 : List (Val w)) (s0 s1 : Storage w), bitsProgram w = some c ∧
      share brand [r] (.arith [x]) = some (i0, i1) ∧
      Runs (execute (mixed w) (.ofBase c) 0 (.scalar i0.toList) setup0 init0)
        (execute (mixed w) (.ofBase c) 1 (.scalar i1.toList) setup1 init1) (.scalar o0) (.scalar o1) ∧
      Storage.fromIter o0 = some s0 ∧ Storage.fromIter o1 = some s1 ∧ reconstruct s0 s1 = some (.bool (bitsOf x)) := by
  obtain ⟨c, o0, o1, e, hr, n0, n1, ho⟩ := a2b_executes hf x r (x - r) (by rw [BitVec.add_comm, BitVec.sub_add_cancel])
    setup0 setup1 hset init0 init1
  have hpos := width_pos hf
  obtain ⟨s0, s1, f0, f1, f2⟩ := reconstruct_bools o0 o1 (bitsOf x) (fun h => by
      have := congrArg List.length h
      rw [bitsOf_length] at this
      simp at this
      omega) (by rw [n0, bitsOf_length]) (by rw [n1, bitsOf_length]) (by
    intro i b hb
    have hi := (List.getElem?_eq_some_iff.1 hb).1
    rw [bitsOf_length] at hi
    obtain ⟨y0, y1, g0, g1, g2⟩ := ho i hi
    refine ⟨y0, y1, g0, g1, ?_⟩
    simp only [bitsOf, List.getElem?_map, List.getElem?_range hi, Option.map_some, Option.some.injEq] at hb
    rw [g2, hb])
  exact ⟨c, _, _, o0, o1, s0, s1, e, rfl, hr, f0, f1, f2⟩

end Verif.Mixed
