import Verif.Gmw.Props2

/-!
SIMD shares on the level of the words of a `BitVec<usize>`.

A bit vector of the crate `bitvec` (1.0.1) consists of words, the index of its first live bit in
the first word (`head`) and its length.  A vector which is copied from a slice (`to_bitvec`,
`from_bitslice`, `clone`, `split_off`) keeps the head of the slice; the method `force_align` of the
crate, which would move the bits to the start of the first word, is never called in SEEC.  The
methods of `BitVecExt` (crates/seec/src/utils.rs:97-131) work on the words and know nothing of
heads.  `Gmw/Model.lean` takes bit vectors as lists, as if all heads were zero; here the functions
of boolean_gmw.rs are modelled with heads.
-/
set_option autoImplicit false

namespace Verif.Gmw

/-- `BitVec<usize>`: the bits of its words (`as_raw_slice`), the index of the first live bit, the
number of live bits. -/
structure Raw where
  raw : List Bool
  head : Nat
  len : Nat
deriving DecidableEq, Repr

/-- The contents of the vector. -/
def Raw.live (r : Raw) : List Bool := (r.raw.drop r.head).take r.len

/-- `BitVec::new` followed by pushes, `extend_from_bitslice`, `collect` or `repeat`: the bits begin
at the first bit of the first word.  Dead bits are zero (for `repeat(true, _)` they are not
specified, no theorem depends on them). -/
def ofBits (l : List Bool) : Raw := ⟨padWords l, 0, l.length⟩

/-- `BitVec::from_bitslice` of a slice whose first bit has index `h` in its word: the words of the
slice are copied, dead bits at both ends are masked, the head is kept. -/
def place (h : Nat) (l : List Bool) : Raw := ⟨padWords (List.replicate h false ++ l), h, l.length⟩

/-- `BitVec::clone`. -/
def Raw.clone (r : Raw) : Raw := place r.head r.live

/-- `r[i..j].to_bitvec()`. -/
def Raw.sliceVec (r : Raw) (i j : Nat) : Raw := place ((r.head + i) % 64) ((r.live.take j).drop i)

/-- `BitVec::from_vec` of the given words. -/
def Raw.fromVec (ws : List Bool) : Raw := ⟨ws, 0, ws.length⟩

/-- crates/seec/src/utils.rs:112-131 `fast_bit_xor_mut`, `fast_bit_and_mut`: the raw words are
zipped. -/
def Raw.fast (f : Bool → Bool → Bool) (x y : Raw) : Raw := ⟨fastOp f x.raw y.raw, x.head, x.len⟩

/-- `!bitvec`, on the words. -/
def Raw.not (r : Raw) : Raw := ⟨r.raw.map (!·), r.head, r.len⟩

/-- mul_triple/boolean/mod.rs:27-38 `MulTriples`, `MulTriplesSlice`: the three vectors are created,
extended and split together and have the same head. -/
structure Mts where
  head : Nat
  ts : List Triple
deriving DecidableEq, Repr

/-- mod.rs:120-122, 165-167 `a()`, followed by `to_bitvec` (boolean_gmw.rs:164) or of triples which
were split off (252). -/
def Mts.a (m : Mts) : Raw := place m.head (m.ts.map (·.a))
/-- `b()`. -/
def Mts.b (m : Mts) : Raw := place m.head (m.ts.map (·.b))
/-- `c()`. -/
def Mts.c (m : Mts) : Raw := place m.head (m.ts.map (·.c))

/-- mod.rs:108-118 `slice(i..)`. -/
def Mts.slice (m : Mts) (i : Nat) : Mts := ⟨(m.head + i) % 64, m.ts.drop i⟩

/-- mod.rs:221-227 `split_off_last` with the `split_off` of the crate, which is `from_bitslice` of
the rest. -/
def Mts.splitOffLast (m : Mts) (count : Nat) : Option (Mts × Mts) :=
  if count ≤ m.ts.length then
    some (⟨m.head, m.ts.take (m.ts.length - count)⟩, m.slice (m.ts.length - count))
  else none

/-- boolean_gmw.rs:88-111 `evaluate_non_interactive_simd`. -/
def evalLocalWords (party : Nat) (g : BoolGate) (inputs : List Raw) : Option Raw :=
  match g with
  | .base b => (b.defaultEvaluateSimd inputs).map Raw.clone
  | .and => none
  | .xor => do
      let x ← inputs[0]?
      let y ← inputs[1]?
      pure (x.clone.fast xor y)
  | .inv => do
      let x ← inputs[0]?
      pure (if party = 0 then x.clone.not else x.clone)

/-- boolean_gmw.rs:143-175 `compute_msg_simd`. -/
def computeMsgWords (inputs : List Raw) (mts : Mts) : Option SimdMsg := do
  let prs ← chunkPairs (inputs.map Raw.live)
  let e := ofBits (prs.map (·.1)).flatten
  let d := ofBits (prs.map (·.2)).flatten
  if d.len ≤ mts.ts.length then
    let s := mts.slice (mts.ts.length - d.len)
    some { d := (d.fast xor s.a).raw
           e := (e.fast xor s.b).raw
           simdSizes := prs.map (·.1.length) }
  else none

/-- boolean_gmw.rs:256-264: the pieces of the result, each copied with the head it has in it. -/
def cutWords (res : Raw) : List Nat → Nat → Option (List Raw)
  | [], _ => some []
  | n :: ns, i =>
    if i + n ≤ res.len then (cutWords res ns (i + n)).map (res.sliceVec i (i + n) :: ·) else none

/-- boolean_gmw.rs:210-265 `evaluate_interactive_simd`. -/
def evaluateInteractiveWords (party : Nat) (own other : SimdMsg) (mts : Mts) :
    Option (List Raw × Mts) :=
  if own.simdSizes = other.simdSizes then do
    let total := own.simdSizes.sum
    let (rest, used) ← mts.splitOffLast total
    let d := (Raw.fromVec own.d).fast xor (Raw.fromVec other.d)
    let e := (Raw.fromVec own.e).fast xor (Raw.fromVec other.e)
    let res0 := if party = 0 then d.clone.fast and e else ofBits (List.replicate total false)
    let res1 := res0.fast xor (d.fast and used.b)
    let res2 := res1.fast xor (e.fast and used.a)
    let res := res2.fast xor used.c
    let out ← cutWords res own.simdSizes 0
    pure (out, rest)
  else none

/-! ### Lemmas -/

/-- The live bits lie in the words. -/
def Raw.WF (r : Raw) : Prop := r.head + r.len ≤ r.raw.length

theorem Raw.WF.live_length {r : Raw} (h : r.WF) : r.live.length = r.len := by
  unfold Raw.WF at h
  simp [Raw.live]; omega

theorem place_wf (h : Nat) (l : List Bool) : (place h l).WF := by
  simp only [Raw.WF, place, padWords, List.length_append, List.length_replicate]; omega

theorem place_live (h : Nat) (l : List Bool) : (place h l).live = l := by
  simp only [Raw.live, place, padWords, List.append_assoc]
  rw [List.drop_append_of_le_length (by simp)]
  simp

theorem ofBits_eq (l : List Bool) : ofBits l = place 0 l := by simp [ofBits, place]

theorem ofBits_wf (l : List Bool) : (ofBits l).WF := by rw [ofBits_eq]; exact place_wf _ _

theorem ofBits_live (l : List Bool) : (ofBits l).live = l := by rw [ofBits_eq]; exact place_live _ _

theorem fastOp_length (f : Bool → Bool → Bool) (x y : List Bool) :
    (fastOp f x y).length = x.length := by
  induction x generalizing y with
  | nil => cases y <;> simp [fastOp]
  | cons a x ih => cases y <;> simp [fastOp, ih]

theorem fastOp_take (f : Bool → Bool → Bool) (n : Nat) (x y : List Bool) (hx : n ≤ x.length)
    (hy : n ≤ y.length) :
    (fastOp f x y).take n = List.zipWith f (x.take n) (y.take n) := by
  induction n generalizing x y with
  | zero => simp
  | succ n ih =>
    match x, y with
    | a :: x, b :: y =>
      simp only [fastOp, List.take_succ_cons, List.zipWith_cons_cons]
      rw [ih x y (by simpa using hx) (by simpa using hy)]
    | [], _ => simp at hx
    | _ :: _, [] => simp at hy

theorem fastOp_drop (f : Bool → Bool → Bool) (n : Nat) (x y : List Bool) :
    (fastOp f x y).drop n = fastOp f (x.drop n) (y.drop n) := by
  induction n generalizing x y with
  | zero => simp
  | succ n ih =>
    match x, y with
    | a :: x, b :: y => simp only [fastOp, List.drop_succ_cons, ih]
    | [], [] => simp [fastOp]
    | [], b :: y => cases hy : y.drop n <;> simp [fastOp, hy]
    | _ :: x, [] => cases hx : x.drop n <;> simp [fastOp, hx]

theorem fast_wf {f : Bool → Bool → Bool} {x y : Raw} (hx : x.WF) : (x.fast f y).WF := by
  simpa [Raw.WF, Raw.fast, fastOp_length] using hx

/-- With equal heads and lengths the operation on words is the operation on the contents. -/
theorem fast_live {f : Bool → Bool → Bool} {x y : Raw} (hx : x.WF) (hy : y.WF)
    (hh : y.head = x.head) (hl : y.len = x.len) :
    (x.fast f y).live = List.zipWith f x.live y.live := by
  unfold Raw.WF at hx hy
  simp only [Raw.live, Raw.fast, fastOp_drop]
  rw [fastOp_take _ _ _ _ (by simp; omega) (by simp; omega), hh, hl]

theorem clone_wf (r : Raw) : r.clone.WF := place_wf _ _

theorem clone_live (r : Raw) : r.clone.live = r.live := place_live _ _

theorem clone_len {r : Raw} (h : r.WF) : r.clone.len = r.len := by
  simp [Raw.clone, place, h.live_length]

theorem not_wf {r : Raw} (h : r.WF) : r.not.WF := by simpa [Raw.WF, Raw.not] using h

theorem not_live (r : Raw) : r.not.live = r.live.map (!·) := by
  simp [Raw.live, Raw.not]

/-- The triples as the positions of the words see them: `h` zeros first. -/
def shift (h : Nat) (ts : List Triple) : List Triple :=
  (List.replicate h (⟨false, false, false⟩ : Triple) ++ ts).take ts.length

theorem shift_length (h : Nat) (ts : List Triple) : (shift h ts).length = ts.length := by
  simp [shift]

theorem forall₂_take {α β : Type} {R : α → β → Prop} {x : List α} {y : List β}
    (h : List.Forall₂ R x y) (n : Nat) : List.Forall₂ R (x.take n) (y.take n) := by
  induction h generalizing n with
  | nil => simp
  | cons h _ ih =>
    cases n with
    | zero => simp
    | succ n => exact .cons h (ih n)

theorem shift_matching {h : Nat} {m0 m1 : List Triple} (hm : Matching m0 m1) :
    Matching (shift h m0) (shift h m1) := by
  have hl := hm.length_eq
  have : Matching (List.replicate h ⟨false, false, false⟩ ++ m0)
      (List.replicate h ⟨false, false, false⟩ ++ m1) := by
    induction h with
    | zero => simpa using hm
    | succ h ih => exact .cons (by decide) ih
  unfold shift
  rw [← hl]
  exact forall₂_take this _

theorem place_take (h n : Nat) (l : List Bool) (hn : n ≤ l.length) :
    (place h l).raw.take n = (List.replicate h false ++ l).take n := by
  simp only [place, padWords]
  rw [List.take_append_of_le_length (by simp; omega)]

theorem place_raw_length (h : Nat) (l : List Bool) : l.length ≤ (place h l).raw.length := by
  simp [place, padWords]; omega

theorem map_shift (p : Triple → Bool) (hp : p ⟨false, false, false⟩ = false) (h : Nat)
    (ts : List Triple) :
    (List.replicate h false ++ ts.map p).take ts.length = (shift h ts).map p := by
  simp [shift, List.map_take, hp]

/-- Positions in the words of the pieces. -/
def offsets : Nat → List Nat → List Nat
  | _, [] => []
  | i, n :: ns => i % 64 :: offsets (i + n) ns

theorem offsets_length (i : Nat) (ns : List Nat) : (offsets i ns).length = ns.length := by
  induction ns generalizing i with
  | nil => rfl
  | cons n ns ih => simp [offsets, ih]

theorem cutWords_spec (res : Raw) (hr : res.WF) (h0 : res.head = 0) (ns : List Nat) (i : Nat)
    (hi : i + ns.sum ≤ res.len) (out : List (List Bool))
    (ho : cutSizes ns (res.live.drop i) = some out) :
    cutWords res ns i = some (List.zipWith place (offsets i ns) out) := by
  induction ns generalizing i out with
  | nil => simp only [cutSizes, Option.some.injEq] at ho; subst ho; simp [cutWords, offsets]
  | cons n ns ih =>
    simp only [List.sum_cons] at hi
    have hl := hr.live_length
    have h1 : n ≤ (res.live.drop i).length := by simp [hl]; omega
    simp only [cutSizes, h1, if_true, Option.bind_eq_bind, Option.pure_def,
      Option.bind_eq_some_iff, Option.some.injEq] at ho
    obtain ⟨r, hr', rfl⟩ := ho
    rw [List.drop_drop] at hr'
    simp only [cutWords, show i + n ≤ res.len by omega, if_true, ih (i + n) (by omega) r hr',
      Option.map_some, offsets, List.zipWith_cons_cons, Raw.sliceVec, h0, Nat.zero_add,
      Option.some.injEq, List.cons.injEq, and_true]
    rw [List.drop_take]
    simp

theorem cutSizes_take (ns : List Nat) (l : List Bool) (h : ns.sum ≤ l.length) :
    cutSizes ns l = cutSizes ns (l.take ns.sum) := by
  conv_lhs => rw [← List.take_append_drop ns.sum l]
  exact cutSizes_append ns _ _ (by simp; omega)

theorem computeMsgWords_spec (prs : List (List Bool × List Bool)) (inputs : List Raw) (mts : Mts)
    (n : Nat) (hin : chunkPairs (inputs.map Raw.live) = some prs)
    (hd : (prs.map (·.2)).flatten.length = n) (he : (prs.map (·.1)).flatten.length = n)
    (hn : n ≤ mts.ts.length) :
    ∃ msg, computeMsgWords inputs mts = some msg ∧ msg.simdSizes = prs.map (·.1.length) ∧
      msg.d.length = (padWords (List.replicate n false)).length ∧
      msg.e.length = (padWords (List.replicate n false)).length ∧
      msg.d.take n = xorL (prs.map (·.2)).flatten
        ((shift ((mts.head + (mts.ts.length - n)) % 64)
          (mts.ts.drop (mts.ts.length - n))).map (·.a)) ∧
      msg.e.take n = xorL (prs.map (·.1)).flatten
        ((shift ((mts.head + (mts.ts.length - n)) % 64)
          (mts.ts.drop (mts.ts.length - n))).map (·.b)) := by
  have lu : (mts.ts.drop (mts.ts.length - n)).length = n := by simp; omega
  have part : ∀ (l : List Bool) (p : Triple → Bool), p ⟨false, false, false⟩ = false →
      l.length = n → ∀ h : Nat,
      (fastOp xor (padWords l) (place h ((mts.ts.drop (mts.ts.length - n)).map p)).raw).take n =
        xorL l ((shift h (mts.ts.drop (mts.ts.length - n))).map p) := by
    intro l p hp hl h
    have h1 : ((mts.ts.drop (mts.ts.length - n)).map p).length = n := by simp; omega
    rw [fastOp_take _ _ _ _ (by simp [padWords]; omega)
      (by have := place_raw_length h ((mts.ts.drop (mts.ts.length - n)).map p); omega),
      place_take _ _ _ (by omega)]
    have e1 : (padWords l).take n = l := by
      rw [padWords, List.take_append_of_le_length (by omega), ← hl, List.take_length]
    have e2 := map_shift p hp h (mts.ts.drop (mts.ts.length - n))
    rw [lu] at e2
    rw [e1, e2]; rfl
  refine ⟨{ d := fastOp xor (padWords (prs.map (·.2)).flatten)
              (place ((mts.head + (mts.ts.length - n)) % 64)
                ((mts.ts.drop (mts.ts.length - n)).map (·.a))).raw
            e := fastOp xor (padWords (prs.map (·.1)).flatten)
              (place ((mts.head + (mts.ts.length - n)) % 64)
                ((mts.ts.drop (mts.ts.length - n)).map (·.b))).raw
            simdSizes := prs.map (·.1.length) }, ?_, rfl, ?_, ?_, ?_, ?_⟩
  · simp only [computeMsgWords, hin, Option.bind_eq_bind, Option.bind_some, ofBits, hd, hn, if_true]
    rfl
  · simp [fastOp_length, padWords, hd]
  · simp [fastOp_length, padWords, he]
  · exact part _ _ rfl hd _
  · exact part _ _ rfl he _

theorem evaluateInteractiveWords_spec (party : Nat) (own other : SimdMsg) (mts : Mts) (n : Nat)
    (hsz : own.simdSizes = other.simdSizes) (hN : own.simdSizes.sum = n) (hn : n ≤ mts.ts.length)
    (l1 : own.d.length % 64 = 0)
    (l2 : own.e.length = own.d.length)
    (l3 : n ≤ own.d.length) (l4 : n ≤ other.d.length) (l5 : n ≤ other.e.length)
    (out : List (List Bool))
    (ho : cutSizes own.simdSizes (coreRes party (xorL (own.d.take n) (other.d.take n))
      (xorL (own.e.take n) (other.e.take n))
      (shift ((mts.head + (mts.ts.length - n)) % 64) (mts.ts.drop (mts.ts.length - n)))) = some out) :
    evaluateInteractiveWords party own other mts =
      some (List.zipWith place (offsets 0 own.simdSizes) out,
        ⟨mts.head, mts.ts.take (mts.ts.length - n)⟩) := by
  set U := mts.ts.drop (mts.ts.length - n) with hU
  set h := (mts.head + (mts.ts.length - n)) % 64 with hh
  have lu : U.length = n := by rw [hU]; simp; omega
  set D := fastOp xor own.d other.d with hD
  set E := fastOp xor own.e other.e with hE
  have lD : D.length = own.d.length := fastOp_length _ _ _
  have lE : E.length = own.d.length := by rw [hE, fastOp_length, l2]
  have tD : D.take n = xorL (own.d.take n) (other.d.take n) := fastOp_take _ _ _ _ l3 l4
  have tE : E.take n = xorL (own.e.take n) (other.e.take n) :=
    fastOp_take _ _ _ _ (by omega) l5
  have tU : ∀ p : Triple → Bool, p ⟨false, false, false⟩ = false →
      n ≤ (place h (U.map p)).raw.length ∧
      (place h (U.map p)).raw.take n = (shift h U).map p := by
    intro p hp
    have := place_raw_length h (U.map p)
    simp only [List.length_map, lu] at this
    refine ⟨this, ?_⟩
    rw [place_take _ _ _ (by simp [lu])]
    have := map_shift p hp h U
    rwa [lu] at this
  set R0 : Raw := if party = 0 then (Raw.clone ⟨D, 0, own.d.length⟩).fast and ⟨E, 0, own.e.length⟩
    else ofBits (List.replicate n false) with hR0
  have clD : (Raw.clone ⟨D, 0, own.d.length⟩).raw = D := by
    have e : Raw.live ⟨D, 0, own.d.length⟩ = D := by simp [Raw.live, ← lD]
    have e2 : (64 - D.length % 64) % 64 = 0 := by omega
    simp only [Raw.clone, e, place, List.replicate_zero, List.nil_append, padWords, e2,
      List.append_nil]
  have R0h : R0.head = 0 := by
    rw [hR0]; split <;> simp [Raw.fast, Raw.clone, place, ofBits]
  have R0w : R0.WF := by
    rw [hR0]; split
    · exact fast_wf (clone_wf _)
    · exact ofBits_wf _
  have R0n : n ≤ R0.raw.length := by
    rw [hR0]; split
    · simp only [Raw.fast, fastOp_length, clD]; omega
    · simp [ofBits, padWords]
  have R0l : n ≤ R0.len := by
    rw [hR0]; split
    · simp only [Raw.fast, Raw.clone, place, Raw.live]; simp; omega
    · simp [ofBits]
  have R0t : R0.raw.take n = if party = 0 then List.zipWith and (D.take n) (E.take n)
      else List.replicate (shift h U).length false := by
    rw [hR0]; split
    · simp only [Raw.fast, clD]
      exact fastOp_take _ _ _ _ (by omega) (by omega)
    · simp only [ofBits, padWords]
      rw [List.take_append_of_le_length (by simp), shift_length, lu]; simp
  set res : Raw := ((R0.fast xor (Raw.fast and ⟨D, 0, own.d.length⟩ (place h (U.map (·.b))))).fast
    xor (Raw.fast and ⟨E, 0, own.e.length⟩ (place h (U.map (·.a))))).fast xor
      (place h (U.map (·.c))) with hres
  have resw : res.WF := fast_wf (fast_wf (fast_wf R0w))
  have resh : res.head = 0 := R0h
  have resl : n ≤ res.len := R0l
  have rest : res.raw.take n = coreRes party (D.take n) (E.take n) (shift h U) := by
    rw [hres]
    simp only [Raw.fast]
    rw [fastOp_take _ _ _ _ (by simpa [fastOp_length] using R0n) (tU _ rfl).1,
      fastOp_take _ _ _ _ (by simpa [fastOp_length] using R0n) (by simp [fastOp_length]; omega),
      fastOp_take _ _ _ _ R0n (by simp [fastOp_length]; omega),
      fastOp_take _ _ _ _ (by omega) (tU _ rfl).1, fastOp_take _ _ _ _ (by omega) (tU _ rfl).1,
      R0t, (tU _ rfl).2, (tU _ rfl).2, (tU _ rfl).2]
    rfl
  have livet : res.live.take n = res.raw.take n := by
    simp only [Raw.live, resh, List.drop_zero, List.take_take]
    congr 1; omega
  have hcut := cutSizes_take own.simdSizes res.live (by rw [hN, resw.live_length]; exact resl)
  rw [hN, livet, rest, tD, tE, ho] at hcut
  have hw := cutWords_spec res resw resh own.simdSizes 0 (by omega) out (by simpa using hcut)
  simp only [evaluateInteractiveWords, hsz.symm, if_true, hN, Mts.splitOffLast, hn, Mts.slice,
    Option.bind_eq_bind, Option.bind_some, Option.pure_def]
  have : (cutWords res own.simdSizes 0) = some (List.zipWith place (offsets 0 own.simdSizes) out) := hw
  simp only [hres, hR0] at this
  simp only [Raw.fromVec, Mts.a, Mts.b, Mts.c]
  rw [show (Raw.fast xor ⟨own.d, 0, own.d.length⟩ ⟨other.d, 0, other.d.length⟩) =
    ⟨D, 0, own.d.length⟩ from rfl, show (Raw.fast xor ⟨own.e, 0, own.e.length⟩
    ⟨other.e, 0, other.e.length⟩) = ⟨E, 0, own.e.length⟩ from rfl, this]
  rfl

end Verif.Gmw
