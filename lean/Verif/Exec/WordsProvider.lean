import Verif.Exec.WordsPrivate
import Verif.Exec.PreprocProps

/-!
C95: where the triples of the OT based provider begin in their words, and what follows for executions.
-/
set_option autoImplicit false

namespace Verif.Exec

open Circuit Proc Gmw

/-- mul_triple/boolean/ot_ext.rs:22-29 `OtMTProvider`: the precomputed triples with their position in
words, and how often `compute_mts` ran (to name its outputs). -/
structure WProvider where
  stored : Option Mts := none
  computed : Nat := 0
deriving DecidableEq, Repr

/-- ot_ext.rs:147-151 `precompute_mts`.  `gen k n` are the triples of the `k`-th run of `compute_mts`,
called with `n`; its vectors are new and begin at a word (82-128). -/
def WProvider.precompute (gen : Nat → Nat → List Triple) (p : WProvider) (n : Nat) : WProvider :=
  ⟨some ⟨0, gen p.computed n⟩, p.computed + 1⟩

/-- ot_ext.rs:153-165 `request_mts`, with the positions of the triples: `split_off_last` keeps them
(mul_triple/boolean/mod.rs:221-227), `extend_from_mts` appends to the vectors (mod.rs:133-137), and
`mem::take` leaves new empty vectors. -/
def requestWords (gen : Nat → Nat → List Triple) (p : WProvider) (n : Nat) : Option (WProvider × Mts) :=
  match p.stored with
  | some m =>
    if n ≤ m.ts.length then
      (m.splitOffLast n).map fun x => (⟨some x.1, p.computed⟩, x.2)
    else
      some (⟨some ⟨0, []⟩, p.computed + 1⟩, ⟨m.head, m.ts ++ gen p.computed (n - m.ts.length)⟩)
  | none => some (⟨none, p.computed + 1⟩, ⟨0, gen p.computed n⟩)

/-- The answers of a provider to a sequence of requests. -/
def answersTo {σ T : Type} (req : σ → Nat → Option (σ × T)) : σ → List Nat → Option (List T)
  | _, [] => some []
  | s, n :: ns => do
    let (s', t) ← req s n
    let ts ← answersTo req s' ns
    pure (t :: ts)

/-! ### Where the answers begin -/

theorem splitOffLast_some {m : Mts} {n : Nat} (h : n ≤ m.ts.length) : m.splitOffLast n =
    some (⟨m.head, m.ts.take (m.ts.length - n)⟩, ⟨(m.head + (m.ts.length - n)) % 64, m.ts.drop (m.ts.length - n)⟩) := by
  simp [Mts.splitOffLast, h, Mts.slice]

theorem buffer_answers (gen : Nat → Nat → List Triple) (ns : List Nat) :
    ∀ (b : Mts) (c : Nat), ns.sum ≤ b.ts.length →
    ∃ out : List Mts, answersTo (requestWords gen) ⟨some b, c⟩ ns = some out ∧ out.length = ns.length ∧
      stateAfter (requestWords gen) ⟨some b, c⟩ ns = some ⟨some ⟨b.head, b.ts.take (b.ts.length - ns.sum)⟩, c⟩ ∧
      ∀ k n : Nat, ns[k]? = some n → out[k]? = some (Mts.mk
        ((b.head + (b.ts.length - (ns.take (k + 1)).sum)) % 64)
          ((b.ts.drop (b.ts.length - (ns.take (k + 1)).sum)).take n)) := by
  induction ns with
  | nil => intro b c _; exact ⟨[], rfl, rfl, by simp [stateAfter], by simp⟩
  | cons n ns ih =>
    intro b c h
    simp only [List.sum_cons] at h
    have hn : n ≤ b.ts.length := by omega
    obtain ⟨out, h1, h2, h3, h4⟩ := ih ⟨b.head, b.ts.take (b.ts.length - n)⟩ c (by simp; omega)
    have hr : requestWords gen ⟨some b, c⟩ n = some (⟨some ⟨b.head, b.ts.take (b.ts.length - n)⟩, c⟩,
        ⟨(b.head + (b.ts.length - n)) % 64, b.ts.drop (b.ts.length - n)⟩) := by
      simp [requestWords, hn, splitOffLast_some hn]
    refine ⟨⟨(b.head + (b.ts.length - n)) % 64, b.ts.drop (b.ts.length - n)⟩ :: out, ?_, ?_, ?_, ?_⟩
    · simp only [answersTo, hr, h1, Option.bind_eq_bind, Option.bind_some, Option.pure_def]
    · simp [h2]
    · simp only [stateAfter, hr, h3, Option.bind_eq_bind, Option.bind_some, List.length_take, List.take_take,
        List.sum_cons, Option.some.injEq, WProvider.mk.injEq, and_true]
      congr 2
      omega
    · intro k i hk
      cases k with
      | zero =>
        simp only [List.getElem?_cons_zero, Option.some.injEq] at hk
        subst hk
        have : (b.ts.drop (b.ts.length - n)).take n = b.ts.drop (b.ts.length - n) :=
          List.take_of_length_le (by simp; omega)
        simp [this]
      | succ k =>
        simp only [List.getElem?_cons_succ] at hk ⊢
        rw [h4 k i hk]
        have hle : ∀ j, (ns.take j).sum ≤ ns.sum := by
          intro j
          have := congrArg List.sum (List.take_append_drop j ns)
          simp only [List.sum_append] at this
          omega
        have h1' := hle (k + 1)
        have hik : i ≤ (ns.take (k + 1)).sum := by
          have hm : i ∈ ns.take (k + 1) := by
            rw [List.mem_take_iff_getElem]
            obtain ⟨hlt, rfl⟩ := List.getElem?_eq_some_iff.1 hk
            exact ⟨k, by omega, rfl⟩
          exact List.single_le_sum (by simp) _ hm
        simp only [List.length_take, List.take_succ_cons, List.sum_cons, Option.some.injEq, Mts.mk.injEq]
        have e : min (b.ts.length - n) b.ts.length - (ns.take (k + 1)).sum =
            b.ts.length - (n + (ns.take (k + 1)).sum) := by omega
        rw [e]
        refine ⟨rfl, ?_⟩
        rw [List.drop_take, List.take_take]
        congr 1
        omega

/-- The triples for the `k`-th request after `precompute_mts`, if the buffer suffices, begin at the
position that the number of triples left in the buffer gives. -/
theorem ot_provider_heads (gen : Nat → Nat → List Triple) (p : WProvider) (a : Nat) (ns : List Nat)
    (hg : ∀ k n, (gen k n).length = Mt.nextMultipleOf8 n) (hs : ns.sum ≤ a) :
    ∃ out, answersTo (requestWords gen) (p.precompute gen a) ns = some out ∧ out.length = ns.length ∧
      ∀ (k n : Nat) (t : Mts), ns[k]? = some n → out[k]? = some t → t.ts.length = n ∧
        t.head = (Mt.nextMultipleOf8 a - (ns.take (k + 1)).sum) % 64 := by
  have ha := Mt.nextMultipleOf8_spec a
  obtain ⟨out, h1, h2, -, h4⟩ := buffer_answers gen ns ⟨0, gen p.computed a⟩ (p.computed + 1)
    (by simp only [hg]; omega)
  refine ⟨out, h1, h2, fun k n t hk ht => ?_⟩
  rw [h4 k n hk] at ht
  cases ht
  have hik : n ≤ (ns.take (k + 1)).sum := by
    have hm : n ∈ ns.take (k + 1) := by
      rw [List.mem_take_iff_getElem]
      obtain ⟨hlt, rfl⟩ := List.getElem?_eq_some_iff.1 hk
      exact ⟨k, by omega, rfl⟩
    exact List.single_le_sum (by simp) _ hm
  have hle : (ns.take (k + 1)).sum ≤ ns.sum := by
    have := congrArg List.sum (List.take_append_drop (k + 1) ns)
    simp only [List.sum_append] at this
    omega
  refine ⟨?_, by simp [hg]⟩
  simp only [List.length_take, List.length_drop, hg]
  omega

theorem suffix_mod (ns : List Nat) : (∀ k, k < ns.length → (ns.drop (k + 1)).sum % 64 = 0) ↔
    ∀ n ∈ ns.tail, n % 64 = 0 := by
  induction ns with
  | nil => simp
  | cons n ns ih =>
    cases ns with
    | nil => simp
    | cons i ns =>
      simp only [List.tail_cons] at ih ⊢
      constructor
      · intro h
        have h' := ih.1 fun k hk => by simpa using h (k + 1) (by simp at hk ⊢; omega)
        have h0 := h 0 (by simp)
        have h1 := h 1 (by simp)
        simp only [List.drop_succ_cons, List.drop_zero, List.sum_cons] at h0 h1
        intro j hj
        rcases List.mem_cons.1 hj with rfl | hj
        · omega
        · exact h' j hj
      · intro h
        have h' := ih.2 fun j hj => h j (List.mem_cons_of_mem _ hj)
        have hi := h i List.mem_cons_self
        intro k hk
        cases k with
        | zero =>
          have := h' 0 (by simp)
          simp only [List.drop_succ_cons, List.drop_zero, List.sum_cons] at this ⊢
          omega
        | succ k =>
          have := h' k (by simp at hk ⊢; omega)
          simpa using this

/-- If the provider precomputes as many triples as the layers `ns` of the circuit need (C75), the triples of
every layer begin at a word exactly if the total is a multiple of 8 and the number for every layer after the first
is a multiple of 64. -/
theorem ot_provider_aligned_iff (gen : Nat → Nat → List Triple) (p : WProvider) (ns : List Nat)
    (hne : ns ≠ []) (hg : ∀ k n, (gen k n).length = Mt.nextMultipleOf8 n) :
    ∃ out, answersTo (requestWords gen) (p.precompute gen ns.sum) ns = some out ∧
      ((∀ t ∈ out, t.head = 0) ↔ ns.sum % 8 = 0 ∧ ∀ n ∈ ns.tail, n % 64 = 0) := by
  obtain ⟨out, h1, h2, h3⟩ := ot_provider_heads gen p ns.sum ns hg (Nat.le_refl _)
  refine ⟨out, h1, ?_⟩
  have ha := Mt.nextMultipleOf8_spec ns.sum
  have hsum : ∀ k, (ns.take k).sum + (ns.drop k).sum = ns.sum := by
    intro k
    have := congrArg List.sum (List.take_append_drop k ns)
    simpa only [List.sum_append] using this
  have hpad : (∀ t ∈ out, t.head = 0) ↔ ∀ k, k < ns.length →
      (Mt.nextMultipleOf8 ns.sum - ns.sum + (ns.drop (k + 1)).sum) % 64 = 0 := by
    constructor
    · intro h k hk
      have ho : k < out.length := by omega
      have := h3 k ns[k] out[k] (by simp [hk]) (by simp [ho])
      rw [h _ (List.getElem_mem ho)] at this
      have hs := hsum (k + 1)
      have e : Mt.nextMultipleOf8 ns.sum - (ns.take (k + 1)).sum =
        Mt.nextMultipleOf8 ns.sum - ns.sum + (ns.drop (k + 1)).sum := by omega
      rw [← e]; exact this.2.symm
    · intro h t ht
      obtain ⟨k, ho, rfl⟩ := List.mem_iff_getElem.1 ht
      have hk : k < ns.length := by omega
      have := h3 k ns[k] out[k] (by simp [hk]) (by simp [ho])
      have hs := hsum (k + 1)
      have e : Mt.nextMultipleOf8 ns.sum - (ns.take (k + 1)).sum =
        Mt.nextMultipleOf8 ns.sum - ns.sum + (ns.drop (k + 1)).sum := by omega
      rw [this.2, e]; exact h k hk
  rw [hpad, ← suffix_mod]
  have hl : 0 < ns.length := List.length_pos_iff.2 hne
  constructor
  · intro h
    have h0 := h (ns.length - 1) (by omega)
    rw [List.drop_of_length_le (by omega)] at h0
    simp only [List.sum_nil, Nat.add_zero] at h0
    have hp : Mt.nextMultipleOf8 ns.sum = ns.sum := by omega
    refine ⟨by omega, fun k hk => ?_⟩
    have := h k hk
    omega
  · intro h k hk
    have := h.2 k hk
    have hp : Mt.nextMultipleOf8 ns.sum = ns.sum := by omega
    omega

/-- Two layers of 64 lanes are aligned, two layers of 32 lanes or one layer of one lane are not. -/
example (gen : Nat → Nat → List Triple) (hg : ∀ k n, (gen k n).length = Mt.nextMultipleOf8 n) :
    (∃ out, answersTo (requestWords gen) (WProvider.precompute gen {} 128) [64, 64] = some out ∧ ∀ t ∈ out, t.head = 0) ∧
    (∃ out, answersTo (requestWords gen) (WProvider.precompute gen {} 64) [32, 32] = some out ∧ ¬ ∀ t ∈ out, t.head = 0) ∧
    (∃ out, answersTo (requestWords gen) (WProvider.precompute gen {} 1) [1] = some out ∧ ¬ ∀ t ∈ out, t.head = 0) := by
  refine ⟨?_, ?_, ?_⟩
  · obtain ⟨o, h1, h2⟩ := ot_provider_aligned_iff gen {} [64, 64] (by simp) hg
    exact ⟨o, h1, h2.2 (by decide)⟩
  · obtain ⟨o, h1, h2⟩ := ot_provider_aligned_iff gen {} [32, 32] (by simp) hg
    exact ⟨o, h1, fun h => absurd (h2.1 h) (by decide)⟩
  · obtain ⟨o, h1, h2⟩ := ot_provider_aligned_iff gen {} [1] (by simp) hg
    exact ⟨o, h1, fun h => absurd (h2.1 h) (by decide)⟩

end Verif.Exec
