import Mathlib.Data.List.Forall2
import Mathlib.Data.List.Perm.Basic
import Verif.Gmw.Lemmas

/-!
Triple stores (C24): `MulTriples` of the Boolean and of the arithmetic protocols keep the three
components in three separate vectors.  The vectors are modelled separately, because the
arithmetic OT provider builds values in which their lengths differ (C23).
-/
set_option autoImplicit false

namespace Verif.Mt

/-- mul_triple/boolean/mod.rs:27-31 (`α = Bool`) and mul_triple/arithmetic/mod.rs:12-17
(`α` a ring element) `MulTriples`. -/
structure MulTriples (α : Type) where
  a : List α
  b : List α
  c : List α
deriving DecidableEq, Repr

namespace MulTriples
variable {α : Type}

/-- `Default`. -/
def empty : MulTriples α := ⟨[], [], []⟩

/-- boolean/mod.rs:85-87, arithmetic/mod.rs:79-81 `len`. -/
def len (m : MulTriples α) : Nat := m.a.length

/-- boolean/mod.rs:95-97, 138-146, arithmetic/mod.rs:46-56 `iter`: zips the components. -/
def rows (m : MulTriples α) : List (α × α × α) := m.a.zip (m.b.zip m.c)

/-- boolean/mod.rs:78-82 `from_raw`, asserts equal lengths. -/
def fromRaw (a b c : List α) : Option (MulTriples α) :=
  if a.length = b.length ∧ b.length = c.length then some ⟨a, b, c⟩ else none

/-- `Vec::split_off` / `BitVec::split_off`: panics beyond the end.  (stays, split off). -/
def splitOff (l : List α) (i : Nat) : Option (List α × List α) :=
  if i ≤ l.length then some (l.take i, l.drop i) else none

/-- boolean/mod.rs:222-228, arithmetic/mod.rs:89-95 `split_off_last`, (stays, returned). -/
def splitOffLast (m : MulTriples α) (count : Nat) : Option (MulTriples α × MulTriples α) :=
  if count ≤ m.len then do
    let (a0, a1) ← splitOff m.a (m.len - count)
    let (b0, b1) ← splitOff m.b (m.len - count)
    let (c0, c1) ← splitOff m.c (m.len - count)
    pure (⟨a0, b0, c0⟩, ⟨a1, b1, c1⟩)
  else none

/-- boolean/mod.rs:230-234, arithmetic/mod.rs:97-101 `append`; also `extend_from_mts`
(boolean/mod.rs:129-133, arithmetic/mod.rs:58-62). -/
def append (m o : MulTriples α) : MulTriples α := ⟨m.a ++ o.a, m.b ++ o.b, m.c ++ o.c⟩

end MulTriples

/-- Which of the two `remove_first` implementations a store uses. -/
inductive Kind where
  /-- boolean/mod.rs:236-243: `remove_first` is `split_off_last`. -/
  | boolean
  /-- protocols/mod.rs:262-265: the default of the trait, used by the arithmetic store. -/
  | arithmetic
deriving DecidableEq, Repr

/-- `SetupStorage::remove_first`, (stays, returned). -/
def removeFirst {α : Type} (k : Kind) (m : MulTriples α) (count : Nat) :
    Option (MulTriples α × MulTriples α) :=
  match k with
  | .boolean => m.splitOffLast count
  | .arithmetic =>
    if count ≤ m.len then (m.splitOffLast (m.len - count)).map fun (first, last) => (last, first)
    else none

/-- One call on a store. -/
inductive Op (α : Type) where
  | append (m : MulTriples α)
  | splitOffLast (count : Nat)
  | removeFirst (count : Nat)
deriving Repr

/-- One call; `none` is a panic, the second component is what the call returned. -/
def step {α : Type} (k : Kind) (s : MulTriples α) : Op α → Option (MulTriples α × List (MulTriples α))
  | .append m => some (s.append m, [])
  | .splitOffLast n => (s.splitOffLast n).map fun (r, o) => (r, [o])
  | .removeFirst n => (removeFirst k s n).map fun (r, o) => (r, [o])

/-- A sequence of calls, with everything handed out in order and the store at the end. -/
def run {α : Type} (k : Kind) (s : MulTriples α) : List (Op α) →
    Option (List (MulTriples α) × MulTriples α)
  | [] => some ([], s)
  | op :: ops => do
    let (s', o) ← step k s op
    let (os, r) ← run k s' ops
    pure (o ++ os, r)

/-! ### Specification -/

/-- A store whose three vectors have equal length, as `from_raw` enforces. -/
def MulTriples.WF {α : Type} (m : MulTriples α) : Prop :=
  m.b.length = m.a.length ∧ m.c.length = m.a.length

instance {α : Type} (m : MulTriples α) : Decidable m.WF := by unfold MulTriples.WF; infer_instance

/-- Holding `n` triples, no call of the sequence asks for more than there are. -/
def Enough {α : Type} : Nat → List (Op α) → Prop
  | _, [] => True
  | n, .append m :: ops => Enough (n + m.rows.length) ops
  | n, .splitOffLast k :: ops => k ≤ n ∧ Enough (n - k) ops
  | n, .removeFirst k :: ops => k ≤ n ∧ Enough (n - k) ops

/-- The triples put in by a sequence of calls. -/
def putIn {α : Type} : List (Op α) → List (α × α × α)
  | [] => []
  | .append m :: ops => m.rows ++ putIn ops
  | _ :: ops => putIn ops

/-- The sizes asked for. -/
def asked {α : Type} : List (Op α) → List Nat
  | [] => []
  | .append _ :: ops => asked ops
  | .splitOffLast k :: ops => k :: asked ops
  | .removeFirst k :: ops => k :: asked ops

/-- All appended pieces are well formed. -/
def OpsWF {α : Type} (ops : List (Op α)) : Prop := ∀ m, Op.append m ∈ ops → m.WF

/-- The same call on the two parties' stores; appended triples are related by `R`. -/
inductive SameOp {α β : Type} (R : α × α × α → β × β × β → Prop) : Op α → Op β → Prop
  | append {m : MulTriples α} {m' : MulTriples β} (hm : m.WF) (hm' : m'.WF)
      (h : List.Forall₂ R m.rows m'.rows) : SameOp R (.append m) (.append m')
  | splitOffLast (n : Nat) : SameOp R (.splitOffLast n) (.splitOffLast n)
  | removeFirst (n : Nat) : SameOp R (.removeFirst n) (.removeFirst n)

/-! ### Lemmas -/
section
variable {α : Type}

theorem rows_length {m : MulTriples α} (h : m.WF) : m.rows.length = m.len := by
  obtain ⟨h1, h2⟩ := h
  simp [MulTriples.rows, MulTriples.len]; omega

theorem splitOffLast_rows {m : MulTriples α} (h : m.WF) {n : Nat} (hn : n ≤ m.len) :
    ∃ s r, m.splitOffLast n = some (s, r) ∧ s.WF ∧ r.WF ∧ s.rows = m.rows.take (m.len - n) ∧
      r.rows = m.rows.drop (m.len - n) := by
  obtain ⟨h1, h2⟩ := h
  refine ⟨⟨m.a.take (m.len - n), m.b.take (m.len - n), m.c.take (m.len - n)⟩,
    ⟨m.a.drop (m.len - n), m.b.drop (m.len - n), m.c.drop (m.len - n)⟩, ?_, ?_, ?_, ?_, ?_⟩
  · have ha : m.len - n ≤ m.a.length := by simp [MulTriples.len]
    simp [MulTriples.splitOffLast, hn, MulTriples.splitOff, h1, h2, ha]
  · simp [MulTriples.WF, h1, h2]
  · simp [MulTriples.WF, h1, h2]
  · simp [MulTriples.rows, List.zip, List.take_zipWith]
  · simp [MulTriples.rows, List.zip, List.drop_zipWith]

theorem splitOffLast_none {m : MulTriples α} {n : Nat} (hn : ¬ n ≤ m.len) :
    m.splitOffLast n = none := by simp [MulTriples.splitOffLast, hn]

theorem append_wf {m o : MulTriples α} (hm : m.WF) (ho : o.WF) : (m.append o).WF := by
  obtain ⟨h1, h2⟩ := hm
  obtain ⟨h3, h4⟩ := ho
  simp [MulTriples.WF, MulTriples.append]; omega

theorem append_rows {m o : MulTriples α} (hm : m.WF) :
    (m.append o).rows = m.rows ++ o.rows := by
  obtain ⟨h1, h2⟩ := hm
  simp only [MulTriples.rows, MulTriples.append]
  rw [List.zip_append (by omega), List.zip_append (by simp; omega)]

/-- `remove_first` on well-formed stores: what stays and what is returned. -/
theorem removeFirst_rows (k : Kind) {m : MulTriples α} (h : m.WF) {n : Nat} (hn : n ≤ m.len) :
    ∃ s r, removeFirst k m n = some (s, r) ∧ s.WF ∧ r.WF ∧
      (k = .boolean → s.rows = m.rows.take (m.len - n) ∧ r.rows = m.rows.drop (m.len - n)) ∧
      (k = .arithmetic → s.rows = m.rows.drop n ∧ r.rows = m.rows.take n) := by
  cases k with
  | boolean =>
    obtain ⟨s, r, h1, h2, h3, h4, h5⟩ := splitOffLast_rows h hn
    exact ⟨s, r, h1, h2, h3, fun _ => ⟨h4, h5⟩, fun h => by cases h⟩
  | arithmetic =>
    obtain ⟨s, r, h1, h2, h3, h4, h5⟩ := splitOffLast_rows h (n := m.len - n) (by omega)
    refine ⟨r, s, by simp [removeFirst, hn, h1], h3, h2, (fun h => by cases h), fun _ => ?_⟩
    rw [h4, h5]
    have : m.len - (m.len - n) = n := by omega
    rw [this]; exact ⟨rfl, rfl⟩

theorem removeFirst_none (k : Kind) {m : MulTriples α} {n : Nat} (hn : ¬ n ≤ m.len) :
    removeFirst k m n = none := by
  cases k
  · exact splitOffLast_none hn
  · simp [removeFirst, hn]

/-- Both ways of taking a piece split the content and agree on the sizes. -/
theorem removeFirst_split (k : Kind) {m : MulTriples α} (h : m.WF) {n : Nat} (hn : n ≤ m.len) :
    ∃ s r, removeFirst k m n = some (s, r) ∧ s.WF ∧ r.WF ∧ r.rows.length = n ∧
      s.rows.length = m.rows.length - n ∧ (r.rows ++ s.rows).Perm m.rows := by
  obtain ⟨s, r, h1, h2, h3, h4, h5⟩ := removeFirst_rows k h hn
  have hl := rows_length h
  cases k with
  | boolean =>
    obtain ⟨e1, e2⟩ := h4 rfl
    refine ⟨s, r, h1, h2, h3, by simp [e2]; omega, by simp [e1]; omega, ?_⟩
    rw [e1, e2]
    exact List.perm_append_comm.trans (by rw [List.take_append_drop])
  | arithmetic =>
    obtain ⟨e1, e2⟩ := h5 rfl
    refine ⟨s, r, h1, h2, h3, by simp [e2]; omega, by simp [e1], ?_⟩
    rw [e1, e2, List.take_append_drop]

end
end Verif.Mt
