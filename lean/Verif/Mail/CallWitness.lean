import Verif.Mail.CallProps
import Verif.Exec.StaticProps

/-!
C78: queries that meet the hypotheses, and queries for which the claim fails.
-/
set_option autoImplicit false

namespace Verif.Mail

open Circuit Gmw Macro Exec Proc

/-- Two keywords of two characters and two mails of three and two characters meet the hypotheses; the query is
"the first keyword or not the second". -/
example : let m : List Byte := [6]; let ks : List (List Byte) := [[1, 2], [3, 4]]; let ts : List (List Byte) := [[0, 1, 2], [3, 4]]
    2 * ks.length - 1 ≤ 8 * m.length ∧ (∀ k ∈ ks, k.length = 2) ∧ (∀ t ∈ ts, 2 ≤ 1 * t.length) ∧ Fresh start ∧
    ts.map (query m ks) = [true, false] := by
  refine ⟨by decide, by decide, by decide, start_fresh, by decide⟩

/-- A shorter keyword after a longer one: building the circuit panics. -/
theorem privmail_calls_shorter_keyword_panics :
    ∃ prog inp, privMailSc [0] [[1, 2], [1]] [[1, 2]] 1 = some (prog, inp) ∧
      (runMail prog start []).isNone = true := by
  refine ⟨_, _, rfl, ?_⟩
  decide +kernel

/-- A longer keyword after a shorter one: the circuit is built, but both parties fail when they execute it. -/
theorem privmail_calls_longer_keyword_fails :
    ∃ prog inp s, privMailSc [0] [[1], [1, 2]] [[1, 2]] 1 = some (prog, inp) ∧
      (runMail prog start []).map Prod.fst = some s ∧
      ∃ k, Steps k ⟨execute gmw (finished s) 0 (.scalar inp) zeroTriples noOutputs,
        execute gmw (finished s) 1 (.scalar (inp.map fun _ => false)) zeroTriples noOutputs, [], []⟩
          ⟨.fail, .fail, [], []⟩ := by
  have h : ((privMailSc [0] [[1], [1, 2]] [[1, 2]] 1).any fun p => ((runMail p.1 start []).map Prod.fst).any fun s =>
      failBoth 40 (execute gmw (finished s) 0 (.scalar p.2) zeroTriples noOutputs)
        (execute gmw (finished s) 1 (.scalar (p.2.map fun _ => false)) zeroTriples noOutputs)) = true := by
    decide +kernel
  rw [Option.any_eq_true] at h
  obtain ⟨⟨prog, inp⟩, h1, h⟩ := h
  rw [Option.any_eq_true] at h
  obtain ⟨s, h2, h⟩ := h
  exact ⟨prog, inp, s, h1, h2, failBoth_steps 40 _ _ h⟩

/-- A mail shorter than the keyword: the circuit is built, but both parties fail when they execute it (the wire
that `or_sc` returns is connected to a gate which does not exist, and its successors are never evaluated).  The
result of the query, "not the keyword", is true. -/
theorem privmail_calls_short_mail_fails :
    ∃ prog inp s, privMailSc [1] [[1, 2]] [[1]] 1 = some (prog, inp) ∧
      (runMail prog start []).map Prod.fst = some s ∧ query [1] [[1, 2]] [1] = true ∧
      ∃ k, Steps k ⟨execute gmw (finished s) 0 (.scalar inp) zeroTriples noOutputs,
        execute gmw (finished s) 1 (.scalar (inp.map fun _ => false)) zeroTriples noOutputs, [], []⟩
          ⟨.fail, .fail, [], []⟩ := by
  have h : ((privMailSc [1] [[1, 2]] [[1]] 1).any fun p => ((runMail p.1 start []).map Prod.fst).any fun s =>
      failBoth 40 (execute gmw (finished s) 0 (.scalar p.2) zeroTriples noOutputs)
        (execute gmw (finished s) 1 (.scalar (p.2.map fun _ => false)) zeroTriples noOutputs)) = true := by
    decide +kernel
  rw [Option.any_eq_true] at h
  obtain ⟨⟨prog, inp⟩, h1, h⟩ := h
  rw [Option.any_eq_true] at h
  obtain ⟨s, h2, h⟩ := h
  exact ⟨prog, inp, s, h1, h2, by decide, failBoth_steps 40 _ _ h⟩

/-- A query without keywords panics. -/
theorem privmail_calls_no_keywords (m : List Byte) (ts : List (List Byte)) (dup : Nat) :
    privMailSc m [] ts dup = none := by
  simp [privMailSc, mailProg, W.inputs, W.texts]

/-- An empty keyword panics, as soon as there is a mail. -/
theorem privmail_calls_empty_keyword (m t : List Byte) (ks ts : List (List Byte)) (dup : Nat) :
    privMailSc m ([] :: ks) (t :: ts) dup = none := by
  simp only [privMailSc, mailProg, W.inputs, W.texts, List.map_cons, Option.bind_eq_bind]
  split
  · simp [W.keywordLoop, W.mailLoop, W.search, windowsOf, chars]
  · rfl

end Verif.Mail
