import Verif.Adder.Certs

/-!
The stored adder circuits add (C52).
-/
set_option autoImplicit false

namespace Verif.Adder

open Gmw Exec Circuit Proc

/-- mixed_gmw.rs:789-795: the file used for ring elements of `w` bits; other widths panic. -/
def fileFor (w : Nat) : Option (List Char) :=
  match w with
  | 8 => some (text file8)
  | 16 => some (text file16)
  | 32 => some (text file32)
  | 64 => some (text file64)
  | _ => none

/-- C52: the file chosen for a width is accepted by the parser and describes addition modulo
`2 ^ w`, for all operands. -/
theorem adder_file_correct (w : Nat) (s : List Char) (h : fileFor w = some s) :
    ∃ b, Parse.circuit s = some b ∧ Parse.BristolOk b ∧ b.totalInputs = 2 * w ∧ b.totalOutputs = w ∧
      ∀ x y : BitVec w, b.eval (bitsOf x ++ bitsOf y) = bitsOf (x + y) := by
  unfold fileFor at h
  split at h <;> cases h
  · exact checkFile_sound 8 _ file8_ok
  · exact checkFile_sound 16 _ file16_ok
  · exact checkFile_sound 32 _ file32_ok
  · exact checkFile_sound 64 _ file64_ok

/-- C52: the circuit the file is converted to is usable as a sub-circuit and adds. -/
theorem adder_sub_circuit (w : Nat) (s : List Char) (h : fileFor w = some s) :
    ∃ c, (Parse.circuit s).map (fun b => Parse.fromBristol b .subCircuit) = some (.ok c) ∧
      BookOk c ∧ c.simdSize = none ∧ scInputs c = List.range (2 * w) ∧ (scOutputs c).length = w ∧
      ∀ x y : BitVec w, plainFn (alone c) (bitsOf x ++ bitsOf y) = bitsOf (x + y) := by
  obtain ⟨b, h1, h2, h3, h4, h5⟩ := adder_file_correct w s h
  obtain ⟨c, c1, c2, c3, c4, c5, c6⟩ := Parse.from_bristol_sub_circuit b h2
  refine ⟨c, by rw [h1, Option.map_some, c1], c2, c3, by rw [c4, h3], by rw [c5, h4], ?_⟩
  intro x y
  rw [c6 _ (by simp [bitsOf, h3]; omega), h5]

/-- C52: loaded as a main circuit and executed by two parties on XOR shares of the bits of `x` and `y`, the
file gives XOR shares of the bits of `x + y`. -/
theorem adder_executes (w : Nat) (s : List Char) (h : fileFor w = some s) (x y : BitVec w)
    (x0 x1 : List Bool) (h0 : x0.length = 2 * w) (h1 : x1.length = 2 * w)
    (hx : xorL x0 x1 = bitsOf x ++ bitsOf y) (setup0 setup1 : Nat → Nat → List Triple)
    (hset : ∀ k n, Matching (setup0 k n) (setup1 k n) ∧ n ≤ (setup0 k n).length)
    (init0 init1 : Store Bool (List Bool)) :
    ∃ c o0 o1, (Parse.circuit s).map (fun b => Parse.fromBristol b .circuit) = some (.ok c) ∧
      Runs (execute gmw (.ofBase c) 0 (.scalar x0) setup0 init0)
        (execute gmw (.ofBase c) 1 (.scalar x1) setup1 init1) (.scalar o0) (.scalar o1) ∧
      xorL o0 o1 = bitsOf (x + y) := by
  obtain ⟨b, b1, b2, b3, b4, b5⟩ := adder_file_correct w s h
  obtain ⟨c, e, hok, hsimd, hin, -, hfn⟩ := Parse.from_bristol_correct b b2
  have hl : (xorL x0 x1).length = b.totalInputs := by simp [xorL, h0, h1, b3]
  obtain ⟨ls, o0, o1, -, -, hr, ho⟩ := gmw_scalar_circuit_correct c hok hsimd x0 x1 (xorL x0 x1)
    (by rw [hl, b3, h0]) (by rw [hl, b3, h1]) rfl (by rw [hl, hin]) setup0 setup1 hset init0 init1
  refine ⟨c, o0, o1, by rw [b1, Option.map_some, e], hr, ?_⟩
  rw [ho, hfn _ hl, hx, b5]

/-- There is no file for `u128`. -/
theorem no_adder_128 : fileFor 128 = none := rfl

/-- Non-vacuity: the file for bytes on 200 + 100 = 44 (mod 256). -/
example : ∃ b, Parse.circuit (text file8) = some b ∧ b.eval
    (bitsOf (200 : BitVec 8) ++ bitsOf (100 : BitVec 8)) = bitsOf (44 : BitVec 8) := by
  obtain ⟨b, h1, -, -, -, h5⟩ := adder_file_correct 8 _ rfl
  exact ⟨b, h1, h5 200 100⟩

end Verif.Adder
