import Verif.Proc.Model
import Mathlib.Tactic.Common

set_option autoImplicit false

namespace Verif.Proc

variable {M O : Type}

theorem Steps.trans {n k : Nat} {a b c : Conf M O} (h : Steps n a b) (h' : Steps k b c) :
    Steps (n + k) a c := by
  induction h with
  | refl => simpa using h'
  | cons s _ ih =>
    have := Steps.cons s (ih h')
    rwa [Nat.add_right_comm] at this

/-- Two different steps from the same configuration commute. -/
theorem Step.diamond {a b c : Conf M O} (h : Step a b) (h' : Step a c) :
    b = c ∨ ∃ d, Step b d ∧ Step c d := by
  cases h with
  | send0 m k p1 x y =>
    cases h' with
    | send0 => left; rfl
    | send1 m' k' => exact Or.inr ⟨_, .send1 _ _ _ _ _, .send0 _ _ _ _ _⟩
    | recv1 m' k' _ x => exact Or.inr ⟨_, .recv1 _ _ _ _ _, .send0 _ _ _ _ _⟩
  | send1 m k p0 x y =>
    cases h' with
    | send0 => exact Or.inr ⟨_, .send0 _ _ _ _ _, .send1 _ _ _ _ _⟩
    | send1 => left; rfl
    | recv0 => exact Or.inr ⟨_, .recv0 _ _ _ _ _, .send1 _ _ _ _ _⟩
  | recv0 m k p1 x y =>
    cases h' with
    | send1 => exact Or.inr ⟨_, .send1 _ _ _ _ _, .recv0 _ _ _ _ _⟩
    | recv0 => left; rfl
    | recv1 => exact Or.inr ⟨_, .recv1 _ _ _ _ _, .recv0 _ _ _ _ _⟩
  | recv1 m k p0 x y =>
    cases h' with
    | send0 => exact Or.inr ⟨_, .send0 _ _ _ _ _, .recv1 _ _ _ _ _⟩
    | recv0 => exact Or.inr ⟨_, .recv0 _ _ _ _ _, .recv1 _ _ _ _ _⟩
    | recv1 => left; rfl

theorem final_no_step {o0 o1 : O} {c : Conf M O} : ¬ Step ⟨.done o0, .done o1, [], []⟩ c := by
  intro h; cases h

/-- One step in another direction can still be completed, in one step less. -/
theorem Steps.swap {n : Nat} {a b f : Conf M O} (hf : ∀ c, ¬ Step f c) (h : Steps n a f)
    (s : Step a b) : ∃ k, n = k + 1 ∧ Steps k b f := by
  induction h generalizing b with
  | refl => exact absurd s (hf _)
  | @cons n a a' c s' t ih =>
    rcases s'.diamond s with rfl | ⟨d, h1, h2⟩
    · exact ⟨n, rfl, t⟩
    · obtain ⟨k, rfl, hk⟩ := ih hf h1
      exact ⟨k + 1, rfl, .cons h2 hk⟩

theorem Steps.rest {n k : Nat} {a b f : Conf M O} (hf : ∀ c, ¬ Step f c) (h : Steps n a f)
    (s : Steps k a b) : ∃ r, n = k + r ∧ Steps r b f := by
  induction s generalizing n with
  | refl => exact ⟨n, by simp, h⟩
  | cons s _ ih =>
    obtain ⟨j, rfl, hj⟩ := h.swap hf s
    obtain ⟨r, rfl, hr⟩ := ih hj
    exact ⟨r, by omega, hr⟩

/-- It suffices to exhibit one schedule that completes. -/
theorem Runs.of_steps {n : Nat} {p0 p1 : Proc M O} {o0 o1 : O}
    (h : Steps n ⟨p0, p1, [], []⟩ ⟨.done o0, .done o1, [], []⟩) : Runs p0 p1 o0 o1 := by
  refine ⟨?_, ⟨n, ?_⟩, ?_⟩
  · intro k c hk
    obtain ⟨r, -, hr⟩ := h.rest (fun _ => final_no_step) hk
    exact ⟨r, hr⟩
  · intro k c hk
    obtain ⟨r, rfl, -⟩ := h.rest (fun _ => final_no_step) hk
    omega
  · intro k c hk hst
    obtain ⟨r, -, hr⟩ := h.rest (fun _ => final_no_step) hk
    cases hr with
    | refl => rfl
    | cons s _ => exact absurd s (hst _)

theorem Runs.done (o0 o1 : O) : Runs (M := M) (.done o0) (.done o1) o0 o1 :=
  Runs.of_steps (.refl _)

theorem Runs.steps {p0 p1 : Proc M O} {o0 o1 : O} (h : Runs p0 p1 o0 o1) :
    ∃ n, Steps n ⟨p0, p1, [], []⟩ ⟨.done o0, .done o1, [], []⟩ :=
  h.reaches 0 _ (.refl _)

/-- Both send, then both receive. -/
theorem Runs.exchange {m0 m1 : M} {k0 k1 : M → Proc M O} {o0 o1 : O}
    (h : Runs (k0 m1) (k1 m0) o0 o1) :
    Runs (.send m0 (.recv k0)) (.send m1 (.recv k1)) o0 o1 := by
  obtain ⟨n, hn⟩ := h.steps
  exact Runs.of_steps (.cons (.send0 _ _ _ _ _) (.cons (.send1 _ _ _ _ _)
    (.cons (.recv0 _ _ _ _ _) (.cons (.recv1 _ _ _ _ _) hn))))

/-- Party 0 sends. -/
theorem Runs.send01 {m : M} {p0 : Proc M O} {k1 : M → Proc M O} {o0 o1 : O}
    (h : Runs p0 (k1 m) o0 o1) : Runs (.send m p0) (.recv k1) o0 o1 := by
  obtain ⟨n, hn⟩ := h.steps
  exact Runs.of_steps (.cons (.send0 _ _ _ _ _) (.cons (.recv1 _ _ _ _ _) hn))

/-- Party 1 sends. -/
theorem Runs.send10 {m : M} {p1 : Proc M O} {k0 : M → Proc M O} {o0 o1 : O}
    (h : Runs (k0 m) p1 o0 o1) : Runs (.recv k0) (.send m p1) o0 o1 := by
  obtain ⟨n, hn⟩ := h.steps
  exact Runs.of_steps (.cons (.send1 _ _ _ _ _) (.cons (.recv0 _ _ _ _ _) hn))

theorem Exchange.runs {L : Type} {Q : L → M → M → Prop} {o0 o1 : O} {ls : List L}
    {p0 p1 : Proc M O} (h : Exchange Q o0 o1 ls p0 p1) : Runs p0 p1 o0 o1 := by
  induction h with
  | done => exact Runs.done _ _
  | round _ _ ih => exact Runs.exchange ih

/-- The results are unique. -/
theorem Runs.unique {p0 p1 : Proc M O} {o0 o1 o0' o1' : O} (h : Runs p0 p1 o0 o1)
    (h' : Runs p0 p1 o0' o1') : o0 = o0' ∧ o1 = o1' := by
  obtain ⟨n, hn⟩ := h.steps
  have := h'.stuck n _ hn (fun _ => final_no_step)
  simp only [Conf.mk.injEq, Proc.done.injEq] at this
  exact ⟨this.1, this.2.1⟩

end Verif.Proc
