import Mathlib.Data.List.Basic
import Mathlib.Data.List.Dedup
import Verif.Circuit.Model

/-!
C48: finishing a builder (builder.rs `into_circuit`).
-/
set_option autoImplicit false

namespace Verif.Circuit

/-! ### Model -/

variable {C : Type}

/-- The state of the loop in `into_circuit`: the contents of the shared circuits by address, the
result vector, the two hash maps. -/
structure Take (C : Type) where
  heap : Nat → C
  circuits : List C := []
  unwrapped : Nat → Option Nat := fun _ => none
  circMap : Nat → Option Nat := fun _ => none

/-- builder.rs:346-365, one iteration for the circuit with index `idx` and address `p`.  `mem::take`
leaves `default` in the shared circuit. -/
def Take.step (dflt : C) (s : Take C) (idx p : Nat) : Take C :=
  match s.unwrapped p with
  | some d => { s with circMap := fun i => if i = idx then some d else s.circMap i }
  | none =>
    let d := s.circuits.length
    { heap := fun q => if q = p then dflt else s.heap q
      circuits := s.circuits ++ [s.heap p]
      unwrapped := fun q => if q = p then some d else s.unwrapped q
      circMap := fun i => if i = idx then some d else s.circMap i }

def takeLoop (dflt : C) : Nat → List Nat → Take C → Take C
  | _, [], s => s
  | idx, p :: ps, s => takeLoop dflt (idx + 1) ps (s.step dflt idx p)

/-- builder.rs:340-373 `into_circuit`: `ptrs` are the addresses of the pushed circuits. -/
def intoCircuit (dflt : C) (heap : Nat → C) (ptrs : List Nat) : List C × (Nat → Option Nat) :=
  let s := takeLoop dflt 0 ptrs { heap }
  (s.circuits, s.circMap)

/-- dyn_layers.rs `get_circ`: `&self.circuits[self.circ_map[&id]]`. -/
def getCirc (r : List C × (Nat → Option Nat)) (i : Nat) : Option C := r.2 i >>= fun d => r.1[d]?

/-! ### Lemmas -/

structure TakeInv (heap0 : Nat → C) (done : List Nat) (s : Take C) : Prop where
  heap : ∀ p, p ∉ done → s.heap p = heap0 p
  seen : ∀ p, (∃ d, s.unwrapped p = some d) ↔ p ∈ done
  stored : ∀ (p d : Nat), s.unwrapped p = some d → s.circuits[d]? = some (heap0 p)
  mapped : ∀ (i p : Nat), done[i]? = some p → s.circMap i = s.unwrapped p
  others : ∀ i, done.length ≤ i → s.circMap i = none
  length : s.circuits.length = done.dedup.length

theorem dedup_length_append (l : List Nat) (p : Nat) :
    (l ++ [p]).dedup.length = if p ∈ l then l.dedup.length else l.dedup.length + 1 := by
  have h : (l ++ [p]).dedup.Perm (p :: l).dedup := (List.perm_append_comm (l₁ := l) (l₂ := [p])).dedup
  rw [h.length_eq]
  split
  · rename_i h; rw [List.dedup_cons_of_mem h]
  · rename_i h; rw [List.dedup_cons_of_notMem h]; rfl

theorem take_step {dflt : C} {heap0 : Nat → C} {done : List Nat} {s : Take C} (h : TakeInv heap0 done s)
    (p : Nat) : TakeInv heap0 (done ++ [p]) (s.step dflt done.length p) := by
  have hmap : ∀ (f : Nat → Option Nat) (d : Option Nat), (∀ q, q ∈ done → f q = s.unwrapped q) →
      f p = d → ∀ (i q : Nat), (done ++ [p])[i]? = some q →
        (if i = done.length then d else s.circMap i) = f q := by
    intro f d hf hp i q hi
    by_cases e : i = done.length
    · subst e
      simp only [List.getElem?_concat_length, Option.some.injEq] at hi
      subst hi
      simp [hp]
    · have hlt : i < done.length := by
        have := (List.getElem?_eq_some_iff.1 hi).1
        simp at this; omega
      rw [List.getElem?_append_left hlt] at hi
      rw [if_neg e, h.mapped i q hi, hf q (List.mem_of_getElem? hi)]
  unfold Take.step
  cases hp : s.unwrapped p with
  | some d =>
    have hmem : p ∈ done := (h.seen p).1 ⟨d, hp⟩
    refine ⟨?_, ?_, h.stored, ?_, ?_, ?_⟩
    · intro q hq; exact h.heap q fun hq' => hq (List.mem_append_left _ hq')
    · intro q
      rw [h.seen, List.mem_append, List.mem_singleton]
      constructor
      · exact .inl
      · rintro (hq | rfl)
        · exact hq
        · exact hmem
    · exact hmap s.unwrapped (some d) (fun _ _ => rfl) hp
    · intro i hi
      simp only [List.length_append, List.length_singleton] at hi
      simp only
      rw [if_neg (by omega)]
      exact h.others i (by omega)
    · rw [dedup_length_append, if_pos hmem]; exact h.length
  | none =>
    have hmem : p ∉ done := fun hm => by
      obtain ⟨d, hd⟩ := (h.seen p).2 hm
      rw [hp] at hd; cases hd
    refine ⟨?_, ?_, ?_, ?_, ?_, ?_⟩
    · intro q hq
      simp only [List.mem_append, List.mem_singleton, not_or] at hq
      simp only
      rw [if_neg hq.2]
      exact h.heap q hq.1
    · intro q
      simp only [List.mem_append, List.mem_singleton]
      by_cases e : q = p
      · simp [e]
      · simp only [e, if_false, or_false]; exact h.seen q
    · intro q d hq
      simp only at hq ⊢
      by_cases e : q = p
      · subst e
        simp only [if_true, Option.some.injEq] at hq
        subst hq
        simp [h.heap q hmem]
      · rw [if_neg e] at hq
        have := h.stored q d hq
        rw [List.getElem?_append_left (List.getElem?_eq_some_iff.1 this).1]
        exact this
    · refine hmap (fun q => if q = p then some s.circuits.length else s.unwrapped q) _ ?_ (by simp)
      intro q hq
      rw [if_neg]
      rintro rfl
      exact hmem hq
    · intro i hi
      simp only [List.length_append, List.length_singleton] at hi
      simp only
      rw [if_neg (by omega)]
      exact h.others i (by omega)
    · rw [dedup_length_append, if_neg hmem]
      simp [h.length]

theorem takeLoop_inv {dflt : C} {heap0 : Nat → C} (ps done : List Nat) {s : Take C}
    (h : TakeInv heap0 done s) : TakeInv heap0 (done ++ ps) (takeLoop dflt done.length ps s) := by
  induction ps generalizing done s with
  | nil => simpa [takeLoop] using h
  | cons p ps ih =>
    have := ih (done ++ [p]) (take_step (dflt := dflt) h p)
    simpa [takeLoop] using this

/-! ### Theorem -/

/-- C48.  After finishing a builder with circuits at the addresses `ptrs`, sub-circuit id `i` is the
circuit that was pushed as the `i`-th, ids beyond are unknown, and each distinct shared circuit is
stored once. -/
theorem into_circuit_keeps_table (dflt : C) (heap : Nat → C) (ptrs : List Nat) :
    (∀ i, getCirc (intoCircuit dflt heap ptrs) i = (ptrs[i]?).map heap) ∧
      (intoCircuit dflt heap ptrs).1.length = ptrs.dedup.length := by
  have h := takeLoop_inv (dflt := dflt) (heap0 := heap) ptrs [] (s := { heap })
    ⟨fun _ _ => rfl, by simp, by simp, by simp, by simp, rfl⟩
  simp only [List.nil_append, List.length_nil] at h
  refine ⟨fun i => ?_, h.length⟩
  unfold getCirc intoCircuit
  simp only
  cases hi : ptrs[i]? with
  | none =>
    rw [h.others i (List.getElem?_eq_none_iff.1 hi)]; rfl
  | some p =>
    obtain ⟨d, hd⟩ := (h.seen p).2 (List.mem_of_getElem? hi)
    rw [h.mapped i p hi, hd]
    exact h.stored p d hd

/-- A main circuit, two distinct sub-circuits, one of them pushed three times. -/
example : (intoCircuit 0 (fun p => p + 100) [7, 5, 6, 5, 5]).1 = [107, 105, 106] ∧
    (List.range 6).map (getCirc (intoCircuit 0 (fun p => p + 100) [7, 5, 6, 5, 5])) =
      [some 107, some 105, some 106, some 105, some 105, none] := ⟨rfl, rfl⟩

end Verif.Circuit
