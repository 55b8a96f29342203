import Verif.Aby2.Model
import Mathlib.Tactic.Ring

/-!
C103: the share storage of ABY2 (crates/seec/src/protocols/aby2.rs:459-550), two bit vectors used as a vector of shares, and its
setup data as a queue (aby2.rs:552-585, protocols/mod.rs:262-265).
-/
set_option autoImplicit false

namespace Verif.Aby2

/-! ### Model -/

/-- aby2.rs:54-58 `ShareVec`. -/
structure SVec where
  pub : List Bool
  priv : List Bool
deriving DecidableEq, Repr

/-- aby2.rs:467-470 `len`, with debug assertions or without. -/
def SVec.len (debug : Bool) (s : SVec) : Option Nat :=
  if debug && s.priv.length != s.pub.length then none else some s.priv.length

/-- aby2.rs:472-477 `repeat`. -/
def SVec.repeat (x : Share) (n : Nat) : SVec := ⟨.replicate n x.pub, .replicate n x.priv⟩

/-- `BitSlice::set` panics out of bounds. -/
def bitSet (l : List Bool) (i : Nat) (b : Bool) : Option (List Bool) := if i < l.length then some (l.set i b) else none

/-- aby2.rs:479-482 `set`. -/
def SVec.set (s : SVec) (i : Nat) (x : Share) : Option SVec := do
  let p ← bitSet s.pub i x.pub
  let q ← bitSet s.priv i x.priv
  some ⟨p, q⟩

/-- aby2.rs:484-489 `get`. -/
def SVec.get (s : SVec) (i : Nat) : Option Share := do
  let p ← s.pub[i]?
  let q ← s.priv[i]?
  some ⟨p, q⟩

/-- aby2.rs:512-516 `next` of `ShareIter`, until it returns `None`. -/
def iterate : List Bool → List Bool → List Share
  | p :: ps, q :: qs => ⟨p, q⟩ :: iterate ps qs
  | _, _ => []

/-- aby2.rs:501-506 `into_iter`. -/
def SVec.iter (s : SVec) : List Share := iterate s.pub s.priv

/-- aby2.rs:517-519 `size_hint`, which `ExactSizeIterator::len` returns. -/
def SVec.sizeHint (s : SVec) : Nat := s.pub.length

/-- aby2.rs:525-531 `from_iter`: `unzip` extends both vectors by every element. -/
def SVec.fromIter (xs : List Share) : SVec := xs.foldl (fun s x => ⟨s.pub ++ [x.pub], s.priv ++ [x.priv]⟩) ⟨[], []⟩

/-- aby2.rs:535-540 `extend`. -/
def SVec.extend (s : SVec) : List Share → SVec
  | [] => s
  | x :: xs => SVec.extend ⟨s.pub ++ [x.pub], s.priv ++ [x.priv]⟩ xs

/-- aby2.rs:546-549 `not`. -/
def SVec.not (s : SVec) : SVec := ⟨s.pub.map (!·), s.priv⟩

/-- Operations that change a storage. -/
inductive SOp where
  | set (i : Nat) (x : Share)
  | extend (xs : List Share)
  | not
  | collect

/-- A sequence of operations; `none` where it panics. -/
def SVec.run : List SOp → SVec → Option SVec
  | [], s => some s
  | .set i x :: ops, s => (s.set i x).bind (SVec.run ops)
  | .extend xs :: ops, s => SVec.run ops (s.extend xs)
  | .not :: ops, s => SVec.run ops s.not
  | .collect :: ops, s => SVec.run ops (.fromIter s.iter)

/-- aby2.rs:582-584 `append`. -/
def setupAppend {α : Type} (l r : List α) : List α := l ++ r

/-- Requests of the sizes `ns` (tensor_aby2.rs:648-652 and aby2.rs:796-802, 574-578), each popped from its end as
`compute_delta_share` does (aby2.rs:268-271): the setup data in the order in which gates use it, and what stays. -/
def useSetup {α : Type} : List Nat → List α → Option (List α × List α)
  | [], l => some ([], l)
  | n :: ns, l => do
    let (l, r) ← SetupData.splitOffLast l n
    let (u, l) ← useSetup ns l
    some (r.reverse ++ u, l)

/-! ### Specification -/

/-- The same on a vector of shares. -/
def specRun : List SOp → List Share → Option (List Share)
  | [], l => some l
  | .set i x :: ops, l => if i < l.length then specRun ops (l.set i x) else none
  | .extend xs :: ops, l => specRun ops (l ++ xs)
  | .not :: ops, l => specRun ops (l.map Share.not)
  | .collect :: ops, l => specRun ops l

/-! ### Lemmas -/

/-- The storage of a vector of shares. -/
def SVec.of (l : List Share) : SVec := ⟨l.map (·.pub), l.map (·.priv)⟩

theorem extend_of (xs : List Share) : ∀ l : List Share, (SVec.of l).extend xs = SVec.of (l ++ xs) := by
  induction xs with
  | nil => intro l; simp [SVec.extend]
  | cons x xs ih =>
    intro l
    have := ih (l ++ [x])
    simp only [SVec.of, List.map_append, List.map_cons, List.map_nil, List.append_assoc, List.cons_append,
      List.nil_append] at this ⊢
    rw [SVec.extend, this]

theorem fromIter_of (xs : List Share) : SVec.fromIter xs = SVec.of xs := by
  have : ∀ (xs l : List Share), xs.foldl (fun (s : SVec) x => ⟨s.pub ++ [x.pub], s.priv ++ [x.priv]⟩) (SVec.of l) =
      SVec.of (l ++ xs) := by
    intro xs
    induction xs with
    | nil => intro l; simp
    | cons x xs ih =>
      intro l
      have := ih (l ++ [x])
      simp only [List.append_assoc, List.cons_append, List.nil_append] at this
      rw [List.foldl_cons, ← this]
      simp [SVec.of]
  exact this xs []

theorem iter_of (l : List Share) : (SVec.of l).iter = l := by
  induction l with
  | nil => rfl
  | cons x l ih =>
    simp only [SVec.of, SVec.iter, List.map_cons, iterate, List.cons.injEq, true_and]
    exact ih

theorem set_of (l : List Share) (i : Nat) (x : Share) :
    (SVec.of l).set i x = if i < l.length then some (SVec.of (l.set i x)) else none := by
  unfold SVec.set bitSet SVec.of
  by_cases h : i < l.length <;> simp [h, List.map_set]

theorem run_of (ops : List SOp) : ∀ l, SVec.run ops (SVec.of l) = (specRun ops l).map SVec.of := by
  induction ops with
  | nil => intro l; rfl
  | cons op ops ih =>
    intro l
    cases op with
    | set i x =>
      rw [SVec.run, specRun, set_of]
      split
      · rw [Option.bind_some, ih]
      · rfl
    | extend xs => rw [SVec.run, specRun, extend_of, ih]
    | not =>
      rw [SVec.run, specRun, ← ih]
      congr 1
      simp [SVec.not, SVec.of, Share.not, Function.comp_def]
    | collect => rw [SVec.run, specRun, iter_of, fromIter_of, ih]

/-! ### Theorems -/

/-- **C103.**  A storage that is collected from shares or a repeated one and changed by any operations behaves like the vector
of these shares: it panics where that would, the assertion of `len` never fails, and `get`, `into_iter` and its announced
length agree with the vector. -/
theorem share_vec_correct (s : SVec) (l : List Share) (hs : s = .fromIter l ∨ ∃ x n, s = .repeat x n ∧ l = .replicate n x)
    (ops : List SOp) :
    (s.run ops).isSome = (specRun ops l).isSome ∧
    ∀ s' l', s.run ops = some s' → specRun ops l = some l' →
      s'.iter = l' ∧ s'.sizeHint = l'.length ∧ (∀ debug, s'.len debug = some l'.length) ∧ ∀ i, s'.get i = l'[i]? := by
  have h : s = SVec.of l := by
    rcases hs with rfl | ⟨x, n, rfl, rfl⟩
    · exact fromIter_of l
    · simp [SVec.repeat, SVec.of]
  rw [h, run_of]
  refine ⟨by simp, fun s' l' h1 h2 => ?_⟩
  rw [h2] at h1
  cases h1
  refine ⟨iter_of l', by simp [SVec.sizeHint, SVec.of], fun debug => by simp [SVec.len, SVec.of], fun i => ?_⟩
  simp only [SVec.get, SVec.of, List.getElem?_map]
  cases l'[i]? <;> rfl

/-- The conditions are met by a program with all operations, and one of them can fail. -/
example : specRun [.set 1 ⟨true, true⟩, .not, .extend [⟨true, false⟩], .collect] [⟨false, true⟩, ⟨false, false⟩] =
    some [⟨true, true⟩, ⟨false, true⟩, ⟨true, false⟩] ∧ specRun [.set 2 ⟨true, true⟩] [⟨false, true⟩, ⟨false, false⟩] = none := by
  decide

/-- `ShareVec::new` (aby2.rs:461-463) accepts bit vectors of different lengths.  Then the iterator announces another number of
shares than it returns, and `len` fails in debug builds or is that of the private bits. -/
theorem share_vec_new_unequal (p q : List Bool) (h : p.length ≠ q.length) :
    (SVec.mk p q).len true = none ∧ (SVec.mk p q).len false = some q.length ∧
    (SVec.mk p q).iter.length = min p.length q.length ∧ (SVec.mk p q).sizeHint = p.length := by
  have hit : ∀ p q : List Bool, (iterate p q).length = min p.length q.length := by
    intro p
    induction p with
    | nil => intro q; simp [iterate]
    | cons a p ih =>
      intro q
      cases q with
      | nil => simp [iterate]
      | cons b q => simp only [iterate, List.length_cons, ih]; omega
  refine ⟨?_, rfl, hit p q, rfl⟩
  have h' : q.length ≠ p.length := fun h1 => h h1.symm
  simp [SVec.len, h']

/-- Setup data in topological order (`from_raw`) is used in this order, whatever the sizes of the requests; a request panics
exactly if there is less left. -/
theorem setup_used_in_order {α : Type} (l : List α) (ns : List Nat) :
    useSetup ns (SetupData.fromRaw l) =
      if ns.sum ≤ l.length then some (l.take ns.sum, SetupData.fromRaw (l.drop ns.sum)) else none := by
  unfold SetupData.fromRaw
  induction ns generalizing l with
  | nil => simp [useSetup]
  | cons n ns ih =>
    rw [useSetup, SetupData.splitOffLast, List.length_reverse]
    by_cases h : n ≤ l.length
    · rw [if_pos h]
      have e1 : l.reverse.take (l.length - n) = (l.drop n).reverse := by
        rw [List.reverse_drop]
      have e2 : (l.reverse.drop (l.length - n)).reverse = l.take n := by
        rw [List.reverse_drop, List.reverse_reverse, List.length_reverse]
        congr 1
        omega
      simp only [Option.bind_eq_bind, Option.bind_some, e1, ih]
      rw [List.length_drop, List.sum_cons]
      by_cases h2 : ns.sum ≤ l.length - n
      · rw [if_pos h2, if_pos (by omega)]
        simp only [Option.bind_some, e2, Option.some.injEq, Prod.mk.injEq, List.drop_drop, and_true]
        rw [List.take_add]
      · rw [if_neg h2, if_neg (by omega)]
        rfl
    · rw [if_neg h, List.sum_cons, if_neg (by omega)]
      rfl

/-- Setup data appended to unused one is used first: `append` does not extend the queue at its end. -/
theorem setup_append_used_first {α : Type} (l r : List α) :
    useSetup [(l ++ r).length] (setupAppend (SetupData.fromRaw l) (SetupData.fromRaw r)) = some (r ++ l, []) := by
  have := setup_used_in_order (r ++ l) [(l ++ r).length]
  unfold setupAppend SetupData.fromRaw at *
  rw [List.reverse_append] at this
  rw [this]
  have e : [(l ++ r).length].sum = (r ++ l).length := by simp [Nat.add_comm]
  rw [e, if_pos (Nat.le_refl _), List.take_length, List.drop_length]
  rfl

example : useSetup [1, 2] (SetupData.fromRaw [10, 11, 12, 13]) = some ([10, 11, 12], [13]) ∧
    useSetup [2, 3] (SetupData.fromRaw [10, 11, 12, 13]) = none := by decide

end Verif.Aby2
