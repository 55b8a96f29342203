import Mathlib.Data.Nat.Bitwise
import Mathlib.Logic.Function.Basic

/-!
The puncturable PRF of silent OT (C31): zappot/src/silent_ot/pprf.rs.

The code works on eight trees at a time, `[Block; 8]` holding the same node of the eight trees; all
operations are component wise, so here one tree is treated at a time (group and arrival order come
in at the end).  A slice of a level is a function on the indices below its length.
-/
set_option autoImplicit false

namespace Verif.Silent

abbrev Block := BitVec 128

/-- What the expansion uses: `F k x` is `AES(k, x) ^ x` with the fixed key number `k`
(pprf.rs:664-678 and the `^=` after each encryption), `hash` is `FIXED_KEY_HASH.cr_hash_block`.  Any
functions will do. -/
structure Prf where
  F : Nat → Block → Block
  hash : Block → Block

/-- Running xor of `f 0, ..., f (n - 1)`. -/
def xorSum (f : Nat → Block) : Nat → Block
  | 0 => 0
  | n + 1 => xorSum f n ^^^ f n

/-- pprf.rs:155-195 (411-451): the next level; child `i` comes from parent `i / 2` with key
`i % 2`. -/
def children (P : Prf) (level : Nat → Block) : Nat → Block := fun i => P.F (i % 2) (level (i / 2))

/-- The sum of the left (`k = 0`) or right (`k = 1`) children of a level of the given width. -/
def childSum (level : Nat → Block) (width k : Nat) : Block :=
  xorSum (fun i => if i % 2 = k then level i else 0) width

/-- pprf.rs:691-696 `get_active_path`. -/
def activePath (choices : List Bool) : Nat :=
  (choices.mapIdx fun i cb => (1 ^^^ cb.toNat) <<< (choices.length - i - 1)).foldl (· ||| ·) 0

/-- pprf.rs:742-747 `TreeGrp`, the part belonging to one tree: `sums[k]` and `last_ots`. -/
structure TreeMsg where
  sums : Nat → List Block
  last : Nat → Block

/-- Level `d` of the sender's tree, pprf.rs:137-196. -/
def sendLevel (P : Prf) (seed : Block) : Nat → Nat → Block
  | 0 => fun _ => seed
  | d + 1 => children P (sendLevel P seed d)

/-- pprf.rs:198-256 what the sender sends for one tree: the sums of left and right children of every
level but the last, masked by the OT strings, and the four strings of the last level. -/
def treeMsg (P : Prf) (depth width : Nat) (seed delta : Block) (ots : Nat → Block × Block) : TreeMsg :=
  { sums := fun k => (List.range (depth - 1)).map fun d =>
      childSum (sendLevel P seed (d + 1)) (2 ^ (d + 1)) k ^^^ (if k = 0 then (ots d).1 else (ots d).2)
    last := fun i =>
      let sum k := childSum (sendLevel P seed depth) width k
      let (ot0, ot1) := ots (depth - 1)
      match i with
      | 0 => sum 0 ^^^ P.hash ot0
      | 1 => sum 1 ^^^ delta ^^^ P.hash (ot0 ^^^ BitVec.allOnes 128)
      | 2 => sum 1 ^^^ P.hash ot1
      | _ => sum 0 ^^^ delta ^^^ P.hash (ot1 ^^^ BitVec.allOnes 128) }

/-- pprf.rs:130-266 the sender's work on one tree.  `width` is the length of the last level, which
is `2 ^ depth`, or `domain` in the interleaved format (145-153, 755-766).  `ots d` are the two base
OT strings of level `d`.  `none` is a panic: `depth - 1` underflows, or the loop writing two children
at a time leaves an odd slice. -/
def sendTree (P : Prf) (depth width : Nat) (seed delta : Block) (ots : Nat → Block × Block) :
    Option (TreeMsg × (Nat → Block)) :=
  if 0 < depth ∧ width % 2 = 0 then
    some (treeMsg P depth width seed delta ots, sendLevel P seed depth)
  else none

/-- pprf.rs:377-385 level 1 at the receiver; `c` is the first choice bit (`not_ai`). -/
def recvLevel1 (c : Nat) (ot s : Block) : Nat → Block := fun i => if i = c then ot ^^^ s else 0

/-- pprf.rs:389-469: from level `d` to level `d + 1` below the last, the inactive child is
corrected. -/
def recvStep (P : Prf) (depth point : Nat) (msg : TreeMsg) (ot : Nat → Block) (d : Nat)
    (level : Nat → Block) : Nat → Block :=
  let raw := children P level
  let active := point >>> (depth - 1 - d)
  let inactive := active ^^^ 1
  let notAi := inactive &&& 1
  Function.update raw inactive
    (raw inactive ^^^ (msg.sums notAi).getD d 0 ^^^ childSum raw (2 ^ (d + 1)) notAi ^^^ ot d)

/-- Level `d + 1` of the receiver's tree for `d + 1 < depth`. -/
def recvLevel (P : Prf) (depth point c0 : Nat) (msg : TreeMsg) (ot : Nat → Block) :
    Nat → Nat → Block
  | 0 => recvLevel1 c0 (ot 0) ((msg.sums c0).getD 0 0)
  | d + 1 => recvStep P depth point msg ot (d + 1) (recvLevel P depth point c0 msg ot d)

/-- pprf.rs:470-526 the last level. -/
def recvLast (P : Prf) (depth width point : Nat) (msg : TreeMsg) (ot : Nat → Block)
    (level : Nat → Block) : Nat → Block :=
  let raw := children P level
  let inactive := point ^^^ 1
  let notAi := inactive &&& 1
  let o0 := msg.last (2 * notAi) ^^^ P.hash (ot (depth - 1))
  let o1 := msg.last (2 * notAi + 1) ^^^ P.hash (ot (depth - 1) ^^^ BitVec.allOnes 128)
  let inactiveSum := childSum raw width notAi ^^^ raw inactive
  let activeSum := childSum raw width (notAi ^^^ 1) ^^^ raw point
  Function.update (Function.update raw inactive (o0 ^^^ inactiveSum)) point (o1 ^^^ activeSum)

/-- pprf.rs:374-533 the receiver's work on one tree, with its choice bits and OT strings for the
levels.  `none` is a panic: for depth 1 the sums are empty, an odd last level, or the active or
inactive child outside of it. -/
def recvTree (P : Prf) (depth width : Nat) (choices : List Bool) (ot : Nat → Block) (msg : TreeMsg) :
    Option (Nat → Block) :=
  let point := activePath choices
  if 2 ≤ depth ∧ width % 2 = 0 ∧ point < width ∧ point ^^^ 1 < width then
    some (recvLast P depth width point msg ot
      (recvLevel P depth point ((choices.getD 0 false).toNat) msg ot (depth - 2)))
  else none

/-! ### The active path -/

theorem foldl_or_testBit (l : List Nat) (x j : Nat) :
    (l.foldl (· ||| ·) x).testBit j = (x.testBit j || l.any fun y => y.testBit j) := by
  induction l generalizing x with
  | nil => simp
  | cons y l ih => simp [ih, Nat.testBit_or, Bool.or_assoc]

theorem bit_shift_testBit (c : Bool) (s j : Nat) :
    ((1 ^^^ c.toNat) <<< s).testBit j = (decide (j = s) && !c) := by
  cases c
  · simp only [Bool.toNat_false, Nat.xor_zero, Bool.not_false, Bool.and_true]
    rw [Nat.shiftLeft_eq, Nat.one_mul, Nat.testBit_two_pow]
    exact decide_eq_decide.2 eq_comm
  · simp

theorem activePath_testBit (cs : List Bool) (j : Nat) (hj : j < cs.length) :
    (activePath cs).testBit j = !cs[cs.length - 1 - j] := by
  unfold activePath
  rw [foldl_or_testBit]
  simp only [Nat.zero_testBit, Bool.false_or]
  rw [Bool.eq_iff_iff, List.any_eq_true]
  constructor
  · rintro ⟨y, hy, ht⟩
    rw [List.mem_mapIdx] at hy
    obtain ⟨i, hi, rfl⟩ := hy
    rw [bit_shift_testBit] at ht
    simp only [Bool.and_eq_true, decide_eq_true_eq] at ht
    have : cs.length - 1 - j = i := by omega
    simp only [this]
    exact ht.2
  · intro h
    refine ⟨_, List.mem_mapIdx.2 ⟨cs.length - 1 - j, by omega, rfl⟩, ?_⟩
    rw [bit_shift_testBit]
    simp only [Bool.and_eq_true, decide_eq_true_eq]
    exact ⟨by omega, h⟩

theorem activePath_lt (cs : List Bool) : activePath cs < 2 ^ cs.length := by
  apply Nat.lt_pow_two_of_testBit
  intro j hj
  unfold activePath
  rw [foldl_or_testBit]
  simp only [Nat.zero_testBit, Bool.false_or]
  rw [Bool.eq_false_iff]
  intro h
  rw [List.any_eq_true] at h
  obtain ⟨y, hy, ht⟩ := h
  rw [List.mem_mapIdx] at hy
  obtain ⟨i, hi, rfl⟩ := hy
  rw [bit_shift_testBit] at ht
  simp only [Bool.and_eq_true, decide_eq_true_eq] at ht
  omega

/-! ### Sums -/

theorem xor_left_inj' {a b c : Block} (h : a ^^^ c = b ^^^ c) : a = b := by
  have : a ^^^ c ^^^ c = b ^^^ c ^^^ c := by rw [h]
  simpa [BitVec.xor_assoc] using this

theorem xor_cancel_right (a b : Block) : a ^^^ b ^^^ b = a := by
  rw [BitVec.xor_assoc, BitVec.xor_self, BitVec.xor_zero]

/-- Two sums that agree but for one place. -/
theorem xorSum_except (f g : Nat → Block) (n p : Nat) (hp : p < n)
    (h : ∀ i < n, i ≠ p → f i = g i) : xorSum f n ^^^ f p = xorSum g n ^^^ g p := by
  have hc : ∀ n, (∀ i < n, f i = g i) → xorSum f n = xorSum g n := by
    intro n
    induction n with
    | zero => intro _; rfl
    | succ n ih =>
      intro h; rw [xorSum, xorSum, ih (fun i hi => h i (by omega)), h n (by omega)]
  induction n with
  | zero => omega
  | succ n ih =>
    rw [xorSum, xorSum]
    by_cases hn : p = n
    · subst hn
      rw [xor_cancel_right, xor_cancel_right]
      exact hc p fun i hi => h i (by omega) (by omega)
    · have := ih (by omega) fun i hi => h i (by omega)
      rw [BitVec.xor_assoc, BitVec.xor_assoc, BitVec.xor_comm (f n), BitVec.xor_comm (g n),
        ← BitVec.xor_assoc, ← BitVec.xor_assoc, this, h n (by omega) (by omega)]

/-- Sums of children of one side, for levels that agree outside one pair of siblings. -/
theorem childSum_except (f g : Nat → Block) (width k p : Nat) (hp : p < width) (hk : p % 2 = k)
    (h : ∀ i < width, i / 2 ≠ p / 2 → f i = g i) :
    childSum f width k ^^^ f p = childSum g width k ^^^ g p := by
  have := xorSum_except (fun i => if i % 2 = k then f i else 0) (fun i => if i % 2 = k then g i else 0)
    width p hp (by
      intro i hi hne
      beta_reduce
      split
      · rename_i hik
        exact h i hi (by omega)
      · rfl)
  simpa [childSum, hk] using this

/-! ### One tree -/

theorem xor_one_eq (n : Nat) : n ^^^ 1 = if n % 2 = 0 then n + 1 else n - 1 := by
  split
  · exact Nat.xor_one_of_even (Nat.even_iff.2 (by omega))
  · exact Nat.xor_one_of_odd (Nat.odd_iff.2 (by omega))

theorem xor_one_facts (n : Nat) :
    (n ^^^ 1) / 2 = n / 2 ∧ (n ^^^ 1) % 2 = 1 - n % 2 ∧ n ^^^ 1 ≠ n ∧ (n ^^^ 1) &&& 1 = 1 - n % 2 := by
  rw [Nat.and_one_is_mod, xor_one_eq]
  split <;> refine ⟨?_, ?_, ?_, ?_⟩ <;> omega

/-- The node of the active path on level `d`. -/
def pathAt (depth point d : Nat) : Nat := point >>> (depth - d)

theorem pathAt_facts (cs : List Bool) (depth : Nat) (hl : cs.length = depth) (d : Nat)
    (hd : d < depth) :
    pathAt depth (activePath cs) (d + 1) / 2 = pathAt depth (activePath cs) d ∧
    pathAt depth (activePath cs) (d + 1) % 2 = 1 - (cs.getD d false).toNat ∧
    pathAt depth (activePath cs) (d + 1) < 2 ^ (d + 1) := by
  subst hl
  refine ⟨?_, ?_, ?_⟩
  · unfold pathAt
    rw [show cs.length - d = cs.length - (d + 1) + 1 by omega, Nat.shiftRight_succ]
  · have h := activePath_testBit cs (cs.length - (d + 1)) (by omega)
    have e : cs.length - 1 - (cs.length - (d + 1)) = d := by omega
    simp only [e] at h
    unfold pathAt
    rw [List.getD_eq_getElem?_getD, List.getElem?_eq_getElem hd, Option.getD_some,
      Nat.shiftRight_eq_div_pow, ← Nat.toNat_testBit, h]
    cases cs[d] <;> rfl
  · unfold pathAt
    rw [Nat.shiftRight_eq_div_pow]
    apply Nat.div_lt_of_lt_mul
    rw [← Nat.pow_add]
    have := activePath_lt cs
    rwa [show cs.length - (d + 1) + (d + 1) = cs.length by omega]

theorem xor_rearrange (r m s o t u : Block) (h1 : s ^^^ r = t ^^^ u) (h2 : m ^^^ o = t) :
    r ^^^ m ^^^ s ^^^ o = u := by
  have e : r ^^^ m ^^^ s ^^^ o = (s ^^^ r) ^^^ (m ^^^ o) := by ac_rfl
  rw [e, h1, h2, BitVec.xor_comm t u, xor_cancel_right]

/-- Below the last level the receiver's tree agrees with the sender's outside the active path. -/
theorem recvLevel_ok (P : Prf) (depth point : Nat) (c : Nat → Bool) (seed : Block)
    (ot : Nat → Block) (msg : TreeMsg)
    (hpath : ∀ d < depth, pathAt depth point (d + 1) / 2 = pathAt depth point d ∧
      pathAt depth point (d + 1) % 2 = 1 - (c d).toNat ∧ pathAt depth point (d + 1) < 2 ^ (d + 1))
    (hsum : ∀ d < depth - 1, (msg.sums (c d).toNat).getD d 0 ^^^ ot d =
      childSum (sendLevel P seed (d + 1)) (2 ^ (d + 1)) (c d).toNat) :
    ∀ d, d + 2 ≤ depth → ∀ i < 2 ^ (d + 1), i ≠ pathAt depth point (d + 1) →
      recvLevel P depth point (c 0).toNat msg ot d i = sendLevel P seed (d + 1) i := by
  intro d
  induction d with
  | zero =>
    intro hd i hi hne
    obtain ⟨-, h2, h3⟩ := hpath 0 (by omega)
    have hs := hsum 0 (by omega)
    have hi0 : i = (c 0).toNat := by
      cases hb : c 0 <;> rw [hb] at h2 <;> simp at h2 h3 hi hne ⊢ <;> omega
    simp only [recvLevel, recvLevel1]
    rw [if_pos hi0, BitVec.xor_comm, hs, hi0]
    cases hb : c 0 <;> simp [childSum, xorSum]
  | succ d ih =>
    intro hd i hi hne
    have ih := ih (by omega)
    obtain ⟨h1, h2, h3⟩ := hpath (d + 1) (by omega)
    have hs := hsum (d + 1) (by omega)
    have hsh : point >>> (depth - 1 - (d + 1)) = pathAt depth point (d + 2) := by
      unfold pathAt; congr 1; omega
    simp only [recvLevel, recvStep, hsh]
    simp only [Nat.add_assoc, Nat.reduceAdd] at h1 h2 h3 hs hi hne ⊢
    generalize pathAt depth point (d + 2) = a at h1 h2 h3 hne ⊢
    obtain ⟨x1, x2, x3, x4⟩ := xor_one_facts a
    have hna : (a ^^^ 1) &&& 1 = (c (d + 1)).toNat := by
      rw [x4, h2]; cases c (d + 1) <;> simp
    -- children of correct parents are correct
    have hraw : ∀ j < 2 ^ (d + 2), j / 2 ≠ a / 2 →
        children P (recvLevel P depth point (c 0).toNat msg ot d) j = sendLevel P seed (d + 2) j := by
      intro j hj hja
      simp only [children, sendLevel]
      rw [ih (j / 2) (by rw [Nat.pow_succ] at hj; omega) (by rw [← h1]; exact hja)]
      rfl
    by_cases hj : i = a ^^^ 1
    · subst hj
      rw [Function.update_self]
      have he := childSum_except _ (sendLevel P seed (d + 2)) (2 ^ (d + 2)) ((a ^^^ 1) &&& 1)
        (a ^^^ 1) hi (by rw [x2, x4]) (fun j hj hne => hraw j hj (by rw [← x1]; exact hne))
      rw [hna] at he ⊢
      exact xor_rearrange _ _ _ _ _ _ he hs
    · rw [Function.update_of_ne hj]
      apply hraw i hi
      intro hh
      have : i = a ∨ i = a ^^^ 1 := by rw [xor_one_eq]; split <;> omega
      rcases this with h | h
      · exact hne h
      · exact hj h

theorem xor_rearrange_last (m h s r t u e : Block) (h1 : s ^^^ r = t ^^^ u) (h2 : m = t ^^^ e ^^^ h) :
    (m ^^^ h) ^^^ (s ^^^ r) = u ^^^ e := by
  rw [h2, xor_cancel_right, h1]
  have : t ^^^ e ^^^ (t ^^^ u) = u ^^^ e ^^^ (t ^^^ t) := by ac_rfl
  rw [this, BitVec.xor_self, BitVec.xor_zero]

/-- C31 for one tree: for every depth of at least two, every even width of the last level that holds
the point, every seed, every OT strings and all choices, both parties get through, and the receiver's
leaves are the sender's but for the point, where they differ by `delta`. -/
theorem pprf_tree (P : Prf) (depth width : Nat) (hdepth : 2 ≤ depth) (hw : width % 2 = 0)
    (hw2 : width ≤ 2 ^ depth) (seed delta : Block) (ots : Nat → Block × Block) (choices : List Bool)
    (hc : choices.length = depth) (hp : activePath choices < width) :
    ∃ msg leaves out, sendTree P depth width seed delta ots = some (msg, leaves) ∧
      recvTree P depth width choices
        (fun d => if choices.getD d false then (ots d).2 else (ots d).1) msg = some out ∧
      ∀ i < width, out i = if i = activePath choices then leaves i ^^^ delta else leaves i := by
  have hpath := pathAt_facts choices depth hc
  have hpx : activePath choices ^^^ 1 < width := by rw [xor_one_eq]; split <;> omega
  refine ⟨_, _, _, if_pos ⟨by omega, hw⟩, if_pos ⟨hdepth, hw, hp, hpx⟩, ?_⟩
  have hpd : pathAt depth (activePath choices) depth = activePath choices := by simp [pathAt]
  generalize activePath choices = point at *
  generalize hcd : (fun d => choices.getD d false) = c
  have hc' : ∀ d, choices.getD d false = c d := fun d => by rw [← hcd]
  simp only [hc'] at hpath ⊢
  generalize hmsg : treeMsg P depth width seed delta ots = msg
  intro i hi
  have hlev := recvLevel_ok P depth point c seed (fun d => if c d then (ots d).2 else (ots d).1) msg
    hpath (by
      intro d hd
      rw [← hmsg]
      simp only [treeMsg, List.getD_eq_getElem?_getD, List.getElem?_map, List.getElem?_range hd,
        Option.map_some, Option.getD_some]
      cases c d <;> simp [xor_cancel_right]) (depth - 2) (by omega)
  rw [show depth - 2 + 1 = depth - 1 by omega] at hlev
  obtain ⟨h1, h2, h3⟩ := hpath (depth - 1) (by omega)
  rw [show depth - 1 + 1 = depth by omega, hpd] at h1 h2
  obtain ⟨x1, x2, x3, x4⟩ := xor_one_facts point
  have hna : (point ^^^ 1) &&& 1 = (c (depth - 1)).toNat := by
    rw [x4, h2]; cases c (depth - 1) <;> simp
  have hna' : (c (depth - 1)).toNat ^^^ 1 = point % 2 := by
    rw [h2]; cases c (depth - 1) <;> simp
  have hraw : ∀ j < width, j / 2 ≠ point / 2 →
      children P (recvLevel P depth point (c 0).toNat msg
        (fun d => if c d then (ots d).2 else (ots d).1) (depth - 2)) j = sendLevel P seed depth j := by
    intro j hj hja
    have hs : sendLevel P seed depth = children P (sendLevel P seed (depth - 1)) := by
      conv_lhs => rw [show depth = depth - 1 + 1 by omega]
      rfl
    rw [hs]
    simp only [children]
    rw [hlev (j / 2) (by
      have : 2 ^ depth = 2 * 2 ^ (depth - 1) := by
        conv_lhs => rw [show depth = depth - 1 + 1 by omega, Nat.pow_succ]
        omega
      omega) (by rw [← h1]; exact hja)]
  simp only [recvLast, hna, hna']
  generalize children P (recvLevel P depth point (c 0).toNat msg
    (fun d => if c d then (ots d).2 else (ots d).1) (depth - 2)) = raw at hraw ⊢
  by_cases hi1 : i = point
  · subst hi1
    rw [Function.update_self, if_pos rfl]
    have he := childSum_except raw (sendLevel P seed depth) width (i % 2) i hi rfl hraw
    apply xor_rearrange_last _ _ _ _ _ _ _ he
    rw [← hmsg, h2]
    cases c (depth - 1) <;> simp [treeMsg]
  · rw [Function.update_of_ne hi1, if_neg hi1]
    by_cases hi2 : i = point ^^^ 1
    · subst hi2
      rw [Function.update_self]
      have he := childSum_except raw (sendLevel P seed depth) width (c (depth - 1)).toNat
        (point ^^^ 1) hi (by rw [← hna, x4, x2]) (fun j hj hne => hraw j hj (by rw [← x1]; exact hne))
      have := xor_rearrange_last (msg.last (2 * (c (depth - 1)).toNat))
        (P.hash (if c (depth - 1) then (ots (depth - 1)).2 else (ots (depth - 1)).1)) _ _ _ _ 0 he (by
          rw [← hmsg]
          cases c (depth - 1) <;> simp [treeMsg])
      simpa using this
    · rw [Function.update_of_ne hi2]
      apply hraw i hi
      intro hh
      have : i = point ∨ i = point ^^^ 1 := by rw [xor_one_eq]; split <;> omega
      rcases this with h | h
      · exact hi1 h
      · exact hi2 h

end Verif.Silent
