import Verif.Cbc.Props

/-!
C67: the order of the bits of data, key and initialisation vector.
-/
set_option autoImplicit false

namespace Verif.Cbc

open Mail

/-- The bits of bytes, most significant bit of every byte first. -/
def msbBits (bytes : List Byte) : List Bool :=
  bytes.flatMap fun x => (List.range 8).map fun k => x.getLsbD (7 - k)

/-- PKCS#7 padding to multiples of 16 bytes. -/
def pkcs7 (data : List Byte) : List Byte :=
  data ++ List.replicate (16 - data.length % 16) (BitVec.ofNat 8 (16 - data.length % 16))

/-! ### Lemmas -/

theorem wordOf_bit (c : List Byte) (i : Nat) (hi : i < 64) :
    (wordOf c).getLsbD i = (bitsOf c).getD i false := by
  induction c generalizing i with
  | nil => simp [wordOf, bitsOf]
  | cons x c ih =>
    have hw : wordOf (x :: c) = x.setWidth 64 ||| (wordOf c <<< 8) := rfl
    have hb : bitsOf (x :: c) = byteBits x ++ bitsOf c := by simp [bitsOf_eq]
    rw [hw, hb]
    by_cases h : i < 8
    · rw [getD_left _ _ _ (by simp [byteBits]; exact h)]
      simp [byteBits, List.getD_eq_getElem?_getD, h, hi]
    · rw [getD_right _ _ _ (by simp [byteBits]; omega)]
      have hl : (byteBits x).length = 8 := by simp [byteBits]
      rw [hl, ← ih (i - 8) (by omega)]
      have : x.getLsbD i = false := BitVec.getLsbD_of_ge _ _ (by omega)
      rw [BitVec.getLsbD_or, BitVec.getLsbD_setWidth, BitVec.getLsbD_shiftLeft, this]
      simp [h, hi]

theorem word_bits (c : List Byte) (h : c.length = 8) :
    ((List.range 64).map fun k => (wordOf c).getLsbD k) = bitsOf c := by
  apply List.ext_getElem
  · simp [bitsOf_length, h]
  · intro i h1 h2
    have hi : i < 64 := by simpa using h1
    simp only [List.getElem_map, List.getElem_range]
    rw [wordOf_bit c i hi, List.getD_eq_getElem?_getD, List.getElem?_eq_getElem h2]
    rfl

theorem msb_reverse (c : List Byte) : (bitsOf c).reverse = msbBits c.reverse := by
  induction c with
  | nil => rfl
  | cons x c ih =>
    have hb : bitsOf (x :: c) = byteBits x ++ bitsOf c := by simp [bitsOf_eq]
    have hm : ∀ a b : List Byte, msbBits (a ++ b) = msbBits a ++ msbBits b := by
      intro a b; simp [msbBits]
    rw [hb, List.reverse_append, ih, List.reverse_cons, hm]
    simp [msbBits, byteBits, List.range_succ]

theorem word_bits_reverse (c : List Byte) (h : c.length = 8) :
    ((List.range 64).map fun k => (wordOf c).reverse.getLsbD k) = msbBits c.reverse := by
  rw [← msb_reverse, ← word_bits c h]
  apply List.ext_getElem
  · simp
  · intro i h1 h2
    have hi : i < 64 := by simpa using h1
    simp only [List.getElem_map, List.getElem_range, List.getElem_reverse, List.length_map,
      List.length_range]
    rw [BitVec.getLsbD_reverse, BitVec.getMsbD]
    simp [hi]

theorem bits_of_reversed (data : List Byte) : bitsOf (data.map BitVec.reverse) = msbBits data := by
  rw [bitsOf_eq, msbBits, List.flatMap_map]
  congr 1
  funext x
  apply List.map_congr_left
  intro k hk
  have := List.mem_range.1 hk
  rw [BitVec.getLsbD_reverse, BitVec.getMsbD]
  simp [this]

theorem chunksOf_join {α : Type} (n k : Nat) (l : List α) (h : l.length = k * n) :
    (chunksOf n k l).flatten = l := by
  induction k generalizing l with
  | zero => simp at h; simp [h, chunksOf]
  | succ k ih =>
    rw [Nat.add_mul, Nat.one_mul] at h
    rw [chunksOf, List.flatten_cons, ih (l.drop n) (by simp; omega), List.take_append_drop]

theorem bitsOf_flatten (cs : List (List Byte)) : cs.flatMap bitsOf = bitsOf cs.flatten := by
  induction cs with
  | nil => rfl
  | cons c cs ih => rw [List.flatMap_cons, ih, List.flatten_cons, bitsOf_append]

/-! ### Theorems -/

/-- The data is padded according to PKCS#7 and given to the circuit byte by byte with the most
significant bit first; the number of bits is a multiple of the block size. -/
theorem data_encoding (data : List Byte) :
    encodeData data = msbBits (pkcs7 data) ∧ (encodeData data).length % 128 = 0 ∧
      data <+: pkcs7 data ∧ data.length < (pkcs7 data).length := by
  have hl : (pkcs7 data).length = data.length + (16 - data.length % 16) := by simp [pkcs7]
  have hml : ∀ bs : List Byte, (msbBits bs).length = bs.length * 8 := by
    intro bs
    induction bs with
    | nil => rfl
    | cons x bs ih =>
      have : msbBits (x :: bs) = ((List.range 8).map fun k => x.getLsbD (7 - k)) ++ msbBits bs := by
        simp [msbBits]
      rw [this, List.length_append, ih]
      simp; omega
  have e : encodeData data = msbBits (pkcs7 data) := by
    change wordBits ((chunksExact 8 ((pkcs7 data).map BitVec.reverse)).map wordOf) = _
    generalize hd : (pkcs7 data).map BitVec.reverse = d
    have hdl : d.length = d.length / 8 * 8 := by
      rw [← hd, List.length_map, hl]; omega
    rw [← bits_of_reversed, hd]
    rw [wordBits, List.flatMap_map, chunksExact]
    have hm := chunksOf_mem 8 (d.length / 8) d (by omega)
    have : ∀ cs : List (List Byte), (∀ ch ∈ cs, ch.length = 8) →
        cs.flatMap (fun a => (List.range 64).map fun k => (wordOf a).getLsbD k) = cs.flatMap bitsOf := by
      intro cs
      induction cs with
      | nil => intro _; rfl
      | cons c cs ih =>
        intro h
        rw [List.flatMap_cons, List.flatMap_cons, ih fun x hx => h x (List.mem_cons_of_mem _ hx),
          word_bits c (h c List.mem_cons_self)]
    rw [this _ fun ch hch => (hm ch hch).1, bitsOf_flatten, chunksOf_join 8 _ d hdl]
  refine ⟨e, ?_, ⟨_, rfl⟩, by rw [hl]; omega⟩
  rw [e, hml, hl]; omega

/-- Key and initialisation vector are given to the circuit with the bytes of each half reversed. -/
theorem key_encoding (key : List Byte) (h : key.length = 16) :
    encodeKey key = msbBits ((key.take 8).reverse ++ (key.drop 8).reverse) := by
  have hm : ∀ a b : List Byte, msbBits (a ++ b) = msbBits a ++ msbBits b := by
    intro a b; simp [msbBits]
  have hc : chunksExact 8 key = [key.take 8, key.drop 8] := by
    have : key.drop 8 = (key.drop 8).take 8 := by
      rw [List.take_of_length_le (by simp; omega)]
    rw [chunksExact, h, this]
    rfl
  rw [hm, encodeKey, hc, wordBits]
  simp only [List.map_cons, List.map_nil, List.flatMap_cons, List.flatMap_nil, List.append_nil]
  rw [word_bits_reverse _ (by simp; omega), word_bits_reverse _ (by simp; omega)]

theorem msb_inj (a b : List Byte) (h : msbBits a = msbBits b) (hl : a.length = b.length) : a = b := by
  induction a generalizing b with
  | nil => exact (List.length_eq_zero_iff.1 hl.symm).symm
  | cons x a ih =>
    cases b with
    | nil => simp at hl
    | cons y b =>
      have e : ∀ (z : Byte) (l : List Byte), msbBits (z :: l) =
          ((List.range 8).map fun k => z.getLsbD (7 - k)) ++ msbBits l := by
        intro z l; simp [msbBits]
      rw [e, e] at h
      obtain ⟨h1, h2⟩ := List.append_inj h (by simp)
      rw [ih b h2 (by simpa using hl)]
      congr 1
      apply BitVec.eq_of_getLsbD_eq
      intro i hi
      have := congrArg (fun l => l.getD (7 - i) false) h1
      have h7 : 7 - i < 8 := by omega
      have h8 : 7 - (7 - i) = i := by omega
      simpa [List.getD_eq_getElem?_getD, h7, h8] using this

/-- The key is given to the circuit in the order used for the data only if both of its halves are
palindromes: for any other key (and likewise any other initialisation vector) the example encrypts
under a different one. -/
theorem key_encoding_wrong (key : List Byte) (h : key.length = 16) :
    encodeKey key = msbBits key ↔
      (key.take 8).reverse = key.take 8 ∧ (key.drop 8).reverse = key.drop 8 := by
  rw [key_encoding key h]
  constructor
  · intro e
    have := msb_inj _ _ e (by simp; omega)
    rw [← List.take_append_drop 8 key] at this
    have h2 := List.append_inj this (by simp)
    simpa using h2
  · rintro ⟨h1, h2⟩
    rw [h1, h2, List.take_append_drop]

/-- The default key of the example is not of this form. -/
theorem default_key_wrong :
    encodeKey [0x00, 0x11, 0x22, 0x33, 0x44, 0x55, 0x66, 0x77, 0x88, 0x99, 0xaa, 0xbb, 0xcc, 0xdd, 0xee, 0xff] ≠
      msbBits [0x00, 0x11, 0x22, 0x33, 0x44, 0x55, 0x66, 0x77, 0x88, 0x99, 0xaa, 0xbb, 0xcc, 0xdd, 0xee, 0xff] := by
  rw [Ne, key_encoding_wrong _ rfl]
  decide

example : (encodeData [1, 2, 3]).take 24 = msbBits [1, 2, 3] := by decide +kernel

end Verif.Cbc
