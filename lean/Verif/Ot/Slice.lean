import Verif.Ot.ExtProps
import Verif.Bitmat.Model

/-!
C96: functions that take a bit slice and use the words of a copy of it: `receive_random` of the OT extension and
`BitMatrix::from_bits`.  A copy (`to_bitvec`) keeps the position of the first bit in its word (see `Gmw/Words.lean`), so
the words begin with that many bits that do not belong to the slice; they are zero.
-/
set_option autoImplicit false

namespace Verif.Ot

/-- zappot/src/ot_ext/mod.rs:312-330 the work on one row, with the bits `raw` of the words of the choices and the
number of bytes of a row. -/
def receiverRowRaw {σ : Type} (g : Prg σ) (bytes : Nat) (raw : List Bool) (p : σ × σ) :
    List Bool × List Bool × (σ × σ) :=
  let (t, s0) := g.fill p.1 bytes
  let (w, s1) := g.fill p.2 bytes
  (t, xorInto w (xorInto t raw), (s0, s1))

/-- zappot/src/ot_ext/mod.rs:279-353 `receive_random` of a slice whose first bit has index `h` in its word: lines
304 and 308 take the words of a copy.  `pad` are the bits of the last word after the slice. -/
def receiveSlice {σ B T : Type} (g : Prg σ) (H : List Bool → B) (st : ReceiverSt σ) (h : Nat) (pad : List Bool)
    (choices : List Bool) : Option (List (ExtMsg T) × List B × ReceiverSt σ) :=
  if choices.length % 8 = 0 then
    let raw := List.replicate h false ++ choices ++ pad
    let rows := st.rngs.map (receiverRowRaw g (choices.length / 8) raw)
    some (rows.mapIdx (fun i r => .uRow i r.2.1),
      (transpose (rows.map (·.1)) choices.length).map H, ⟨rows.map (·.2.2)⟩)
  else none

/-! ### Specification -/

/-- The choices moved by `h` places, with zeros in front. -/
def moved (h : Nat) (choices : List Bool) : List Bool :=
  (List.replicate h false ++ choices).take choices.length

/-! ### Proof -/

theorem moved_length (h : Nat) (choices : List Bool) : (moved h choices).length = choices.length := by
  simp [moved]

theorem xorInto_length' (v u : List Bool) : (xorInto v u).length = v.length := by
  induction v generalizing u with
  | nil => cases u <;> rfl
  | cons x v ih => cases u with
    | nil => rfl
    | cons y u => simp [xorInto, ih]

theorem xorInto_take (v u : List Bool) : xorInto v u = xorInto v (u.take v.length) := by
  induction v generalizing u with
  | nil => cases u <;> rfl
  | cons x v ih => cases u with
    | nil => rfl
    | cons y u => simp only [xorInto, List.length_cons, List.take_succ_cons]; rw [← ih]

theorem receiveSlice_eq {σ B T : Type} (g : Prg σ) (H : List Bool → B) (st : ReceiverSt σ) (h : Nat) (pad choices : List Bool) :
    receiveSlice (T := T) g H st h pad choices = receiveExt g H st (moved h choices) := by
  unfold receiveSlice receiveExt
  rw [moved_length]
  by_cases h8 : choices.length % 8 = 0
  · have hrow : receiverRowRaw g (choices.length / 8) (List.replicate h false ++ choices ++ pad) =
        receiverRow g (moved h choices) := by
      funext p
      simp only [receiverRowRaw, receiverRow, moved_length]
      rw [xorInto_take (g.fill p.1 (choices.length / 8)).1]
      have : (g.fill p.1 (choices.length / 8)).1.length = choices.length := by
        rw [g.length]; omega
      rw [this, List.take_append_of_le_length (by simp)]
      rfl
    rw [if_pos h8, if_pos h8]
    simp only [hrow]
  · rw [if_neg h8, if_neg h8]

/-! ### Theorems -/

/-- C96, OT extension: with choices in a slice that begins at position `h` of its word, the receiver gets the messages
for the choices moved by `h` places, for every order of arrival of the rows; what follows the slice in its last word
does not matter. -/
theorem slice_receive {σ B T : Type} (g : Prg σ) (H : List Bool → B) {s : SenderSt σ}
    {r : ReceiverSt σ} (hs : Synced s r) (hpos : 0 < s.choices.length) (h : Nat) (pad choices : List Bool)
    (h8 : choices.length % 8 = 0) :
    ∃ msgs recv r', receiveSlice (T := T) g H r h pad choices = some (msgs, recv, r') ∧
      recv.length = choices.length ∧
      ∀ (arrived : List (ExtMsg T)), arrived.Perm msgs →
        ∃ pairs s', sendExt g H s choices.length (arrived.map .msg) = some (.ok (pairs, s', [])) ∧
          pairs.length = choices.length ∧ recv = chosen pairs (moved h choices) ∧ Synced s' r' := by
  have hl := moved_length h choices
  obtain ⟨msgs, recv, r', e1, l1, hb⟩ := batch_general (T := T) g H hs hpos (moved h choices) (by omega)
    choices.length (by omega) h8 (by intro x; rw [List.take_of_length_le]; · rw [hl]
                                     · rw [g.length]; omega)
  refine ⟨msgs, recv, r', by rw [receiveSlice_eq, e1], by omega, fun arrived ha => ?_⟩
  obtain ⟨pairs, s', f1, f2, f3, f4⟩ := hb arrived [] ha
  rw [List.append_nil] at f1
  refine ⟨pairs, s', f1, f2, ?_, (f4 hl.symm).1⟩
  rw [List.take_of_length_le (by omega), List.take_of_length_le (by omega)] at f3
  exact f3

/-- If the slice begins at a word the receiver gets the messages it chose. -/
theorem slice_receive_aligned (choices : List Bool) : moved 0 choices = choices := by simp [moved]

/-- C96 fails for slices that begin elsewhere: at every place where the choice is not the one `h` places before, the
receiver gets the message it did not choose. -/
theorem slice_receive_wrong {σ B T : Type} (g : Prg σ) (H : List Bool → B) {s : SenderSt σ}
    {r : ReceiverSt σ} (hs : Synced s r) (hpos : 0 < s.choices.length) (h : Nat) (pad choices : List Bool)
    (h8 : choices.length % 8 = 0) (j : Nat) (c : Bool) (hj : choices[j]? = some c)
    (hne : (moved h choices)[j]? = some !c) :
    ∃ msgs recv r', receiveSlice (T := T) g H r h pad choices = some (msgs, recv, r') ∧
      ∀ (arrived : List (ExtMsg T)), arrived.Perm msgs →
        ∃ pairs s' x, sendExt g H s choices.length (arrived.map .msg) = some (.ok (pairs, s', [])) ∧
          pairs[j]? = some x ∧ recv[j]? = some (if c then x.1 else x.2) := by
  obtain ⟨msgs, recv, r', e1, -, hb⟩ := slice_receive (T := T) g H hs hpos h pad choices h8
  refine ⟨msgs, recv, r', e1, fun arrived ha => ?_⟩
  obtain ⟨pairs, s', f1, f2, f3, -⟩ := hb arrived ha
  have hjl : j < pairs.length := by
    rw [f2]; exact (List.getElem?_eq_some_iff.1 hj).1
  refine ⟨pairs, s', pairs[j], f1, by simp [hjl], ?_⟩
  rw [f3, chosen, List.getElem?_zipWith, hne, List.getElem?_eq_getElem hjl]
  cases c <;> simp

/-- The first choice of a slice that does not begin at a word is taken as 0. -/
example : (moved 3 [true, false, true, true, false, false, true, false])[0]? = some !true ∧
    moved 3 [true, false, true, true, false, false, true, false] =
      [false, false, false, true, false, true, true, false] := by decide

end Verif.Ot

namespace Verif.Bitmat

/-- seec-bitmatrix/src/lib.rs:181-190 `from_bits` of a slice whose first bit has index `h` in its word of `bits`
bits: line 188 takes the words of a copy. -/
def fromSlice (bits h : Nat) (l : List Bool) (rows cols : Nat) : Option BitMatrix :=
  if l.length % bits = 0 ∧ l.length = rows * cols then
    some ⟨rows, cols, padWords bits (List.replicate h false ++ l)⟩
  else none

/-- C96, bit matrices: entry `i` of the matrix made of a slice is entry `i - h` of the slice; the matrix has more
data than entries unless the slice begins at a word. -/
theorem fromSlice_spec (bits h : Nat) (hb : h < bits) (l : List Bool) (rows cols : Nat) (h1 : l.length % bits = 0)
    (h2 : l.length = rows * cols) :
    ∃ m, fromSlice bits h l rows cols = some m ∧ m.rows = rows ∧ m.cols = cols ∧
      (∀ i, i < rows * cols → m.data[i]? = if i < h then some false else l[i - h]?) ∧
      m.data.length = rows * cols + (if h = 0 then 0 else bits) := by
  have hp : 0 < bits := by omega
  have hlen : (List.replicate h false ++ l).length % bits = h := by
    rw [List.length_append, List.length_replicate, Nat.add_mod, h1, Nat.add_zero, Nat.mod_mod, Nat.mod_eq_of_lt hb]
  refine ⟨_, if_pos ⟨h1, h2⟩, rfl, rfl, ?_, ?_⟩
  · intro i hi
    simp only [padWords]
    rw [List.getElem?_append_left (by simp; omega)]
    by_cases hih : i < h
    · rw [List.getElem?_append_left (by simpa using hih)]; simp [hih]
    · rw [List.getElem?_append_right (by simp; omega)]; simp [hih]
  · simp only [padWords]
    rw [hlen]
    simp only [List.length_append, List.length_replicate]
    by_cases h0 : h = 0
    · subst h0; simp [h2]
    · rw [Nat.mod_eq_of_lt (by omega), if_neg h0]; omega

/-- If the slice begins at a word, the matrix is the one of the list model. -/
theorem fromSlice_aligned (bits : Nat) (l : List Bool) (rows cols : Nat) :
    fromSlice bits 0 l rows cols = fromBits bits l rows cols := by
  unfold fromSlice fromBits
  by_cases h : l.length % bits = 0 ∧ l.length = rows * cols
  · rw [if_pos h, if_pos h]
    simp [padWords, h.1]
  · rw [if_neg h, if_neg h]

/-- C96 fails for `from_bits`: a slice of 16 bits that begins at position 1 of a byte gives a matrix whose first entry
is not that of the slice, and which has a third row. -/
theorem fromSlice_wrong : ∃ m, fromSlice 8 1 (List.replicate 16 true) 2 8 = some m ∧
    row m 0 = some [false, true, true, true, true, true, true, true] ∧ (row m 2).isSome := by
  refine ⟨_, rfl, ?_, ?_⟩ <;> decide

end Verif.Bitmat
