import Verif.Macro.Props
import Verif.Cbc.CallModel
import Verif.Cbc.Inline

/-!
Lemmas for C70: a loaded Bristol circuit as the circuit of a function.
-/
set_option autoImplicit false

namespace Verif.Cbc

open Circuit Gmw Macro

theorem addScInputs_run (n : Nat) (c : Base BoolGate) :
    Parse.runOps c (List.replicate n scIn) = some (Macro.addScInputs n c).1 := by
  induction n generalizing c with
  | zero => rfl
  | succ n ih =>
    rw [List.replicate_succ, Parse.runOps_cons]
    have h1 : c.addWiredGate (.base .subCircuitInput) [] = some (c.addGate (.base .subCircuitInput)) := by
      simp [Base.addWiredGate]
    have h2 : c.addScInputGate (.base .subCircuitInput) = c.addGate (.base .subCircuitInput) := rfl
    rw [h1, Option.bind_some, ih, Macro.addScInputs, h2]

theorem withInputs_run (sizes : List Nat) (c : Base BoolGate) :
    Parse.runOps c (List.replicate sizes.sum scIn) = some (withInputs sizes c).1 := by
  induction sizes generalizing c with
  | nil => rfl
  | cons n ns ih =>
    rw [List.sum_cons, List.replicate_add, Parse.runOps_append, addScInputs_run, Option.bind_some, ih]
    rfl

theorem addOps_run (ops : List Op) {c c' : Base BoolGate} {pre : List Op} {vars : List Nat} (h : BuiltBy c pre)
    (hok : ∀ (i : Nat) (o : Op), ops[i]? = some o → ∀ a ∈ o.2, a < pre.length + i)
    (e : addOps ops (List.range pre.length) c = some (c', vars)) : Parse.runOps c ops = some c' := by
  induction ops generalizing c pre with
  | nil => simp only [addOps, Option.some.injEq, Prod.mk.injEq] at e; rw [← e.1]; rfl
  | cons o ops ih =>
    have h0 := hok 0 o rfl
    obtain ⟨c1, e1, hb⟩ := h.wired o (by simpa using h0)
    obtain ⟨g, args⟩ := o
    simp only [addOps, lookup_range _ _ (by simpa using h0), Option.bind_eq_bind, Option.bind_some, e1] at e
    rw [← List.range_succ] at e
    rw [Parse.runOps_cons, e1, Option.bind_some]
    refine ih hb ?_ (by simpa using e)
    intro i x hx a ha
    have := hok (i + 1) x (by simpa using hx) a ha
    simp only [List.length_append, List.length_singleton]; omega

theorem addOutputs_run (ret : List Nat) {c c' : Base BoolGate} {ids : List Nat}
    (e : Macro.addOutputs ret c = some (c', ids)) : Parse.runOps c (ret.map scOut) = some c' := by
  induction ret generalizing c ids with
  | nil => simp only [Macro.addOutputs, Option.some.injEq, Prod.mk.injEq] at e; rw [← e.1]; rfl
  | cons a ret ih =>
    simp only [Macro.addOutputs, Option.bind_eq_bind, Option.bind_eq_some_iff] at e
    obtain ⟨⟨c1, i1⟩, e1, ⟨c2, i2⟩, e2, e3⟩ := e
    simp only [Option.pure_def, Option.some.injEq, Prod.mk.injEq] at e3
    obtain ⟨rfl, -⟩ := e3
    have e1' : c.addWiredGate (scOut a).1 (scOut a).2 = some (c1, i1) := e1
    rw [List.map_cons, Parse.runOps_cons, e1', Option.bind_some]
    exact ih e2

theorem trace_run (sizes : List Nat) (b : Body) (h : BodyOk sizes.sum b) :
    ∃ c, trace sizes b = some (c, List.range' (sizes.sum + b.ops.length) b.ret.length) ∧
      Parse.runOps {} (bodyOps sizes.sum b) = some c := by
  obtain ⟨c, e, -⟩ := trace_spec sizes b h
  refine ⟨c, e, ?_⟩
  obtain ⟨e1, h1⟩ := withInputs_spec sizes builtBy_empty
  unfold trace at e
  simp only [Option.bind_eq_bind, Option.bind_eq_some_iff] at e
  obtain ⟨⟨c2, vars⟩, e2, ret, e3, e4⟩ := e
  have hv : (withInputs sizes {}).2.flatten = List.range sizes.sum := by
    rw [e1]; simp [List.range_eq_range']
  rw [hv] at e2
  have hok : ∀ (i : Nat) (o : Op), b.ops[i]? = some o → ∀ a ∈ o.2, a < ([] ++ List.replicate sizes.sum scIn).length + i := by
    intro i o ho a ha
    simpa using (h.ops i o ho).2.2 a ha
  have e2' : addOps b.ops (List.range ([] ++ List.replicate sizes.sum scIn).length) (withInputs sizes {}).1 = some (c2, vars) := by
    simpa using e2
  obtain ⟨c2', f2, -⟩ := addOps_spec b.ops h1 hok
  rw [f2, Option.some.injEq, Prod.mk.injEq] at e2'
  obtain ⟨rfl, rfl⟩ := e2'
  have r2 := addOps_run b.ops h1 hok f2
  simp only [List.nil_append, List.length_replicate] at e3
  rw [lookup_range _ _ h.ret, Option.some.injEq] at e3
  subst e3
  unfold bodyOps
  rw [Parse.runOps_append, Parse.runOps_append, withInputs_run, Option.bind_some, r2, Option.bind_some]
  exact addOutputs_run _ e4

/-- The cipher as the body of a function. -/
def cipherBody (b : Parse.Circuit) : Body :=
  ⟨(Parse.opsOf b.totalInputs (Parse.map0 b) b.gates).1,
   (Parse.opsOf b.totalInputs (Parse.map0 b) b.gates).2.drop (b.header.wires - b.totalOutputs), false⟩

theorem cipherBody_ok {b : Parse.Circuit} (ok : Parse.BristolOk b) : BodyOk b.totalInputs (cipherBody b) := by
  obtain ⟨a1, -, a3, a4, -⟩ := Parse.bristol_ops ok
  refine ⟨?_, ?_⟩
  · intro i o ho
    obtain ⟨q1, q2, -, k, q4⟩ := a3 i o.1 o.2 ho
    exact ⟨by rw [q4]; cases k <;> rfl, q1, q2⟩
  · intro a ha
    have := a4 a ha
    simp only [cipherBody, a1]
    exact this

theorem cipherBody_ret {b : Parse.Circuit} (ok : Parse.BristolOk b) : (cipherBody b).ret.length = b.totalOutputs := by
  obtain ⟨-, a2, -⟩ := Parse.bristol_ops ok
  simp only [cipherBody, List.length_drop, a2]
  have := ok.outputs
  omega

theorem cipherBody_eval {b : Parse.Circuit} (ok : Parse.BristolOk b) (inp : List Bool)
    (h : inp.length = b.totalInputs) : (cipherBody b).eval inp = b.eval inp := by
  obtain ⟨a1, -, a3, -, a5⟩ := Parse.bristol_ops ok
  refine a5 (fun a => (evalOps inp (cipherBody b).ops).getD a false) inp ?_ ?_
  · intro w hw
    exact evalOps_prefix _ _ _ (by omega)
  · intro i g args hi
    obtain ⟨-, q2, -⟩ := a3 i g args hi
    rw [← h]
    exact evalOps_get inp (cipherBody b).ops i (g, args) hi (by simpa [h] using q2)

/-- Loading the file and tracing the body give the same circuit. -/
theorem cipherCirc_trace {file : List Char} {b : Parse.Circuit} (hfile : Parse.circuit file = some b)
    (ok : Parse.BristolOk b) (sizes : List Nat) (hs : sizes.sum = b.totalInputs) :
    ∃ c, cipherCirc file = some c ∧ trace sizes (cipherBody b) =
      some (c, List.range' (b.totalInputs + (cipherBody b).ops.length) b.totalOutputs) := by
  obtain ⟨c, e1, e2⟩ := Parse.fromBristol_ops b .subCircuit ok.inputs ok.outputs (Parse.bristol_range ok)
  have hb := cipherBody_ok ok
  rw [← hs] at hb
  obtain ⟨c', f1, f2⟩ := trace_run sizes (cipherBody b) hb
  have hops : bodyOps sizes.sum (cipherBody b) = Parse.allOps b .subCircuit := by
    rw [hs, bodyOps, List.append_assoc]
    rfl
  rw [hops, e2, Option.some.injEq] at f2
  subst f2
  refine ⟨c, by simp [cipherCirc, hfile, e1], ?_⟩
  rw [f1, hs, cipherBody_ret ok]

end Verif.Cbc
