import Mathlib.Data.List.Induction
import Verif.Macro.Model

/-!
C59: what the traced circuits look like and compute.
-/
set_option autoImplicit false

namespace Verif.Macro

open Circuit Gmw Exec

/-! ### Specification -/

/-- The values after some operators, appended to those before. -/
def evalOps (env : List Bool) (ops : List Op) : List Bool :=
  ops.foldl (fun env o => env ++ [gateFn false o.1 (o.2.map fun a => env.getD a false)]) env

/-- The function computed by a body. -/
def Body.eval (b : Body) (args : List Bool) : List Bool :=
  b.ret.map fun a => (evalOps args b.ops).getD a false

/-- Gates that `Secret` operators create. -/
def operator : BoolGate → Bool
  | .and | .xor | .inv | .base (.constant _) => true
  | _ => false

/-- An operator with operands among the first `n` variables. -/
def OpOk (n : Nat) (o : Op) : Prop :=
  operator o.1 = true ∧ o.2.length = arity o.1 ∧ ∀ a ∈ o.2, a < n

/-- A body for `n` argument bits. -/
structure BodyOk (n : Nat) (b : Body) : Prop where
  ops : ∀ (i : Nat) (o : Op), b.ops[i]? = some o → OpOk (n + i) o
  ret : ∀ a ∈ b.ret, a < n + b.ops.length

/-! ### Built circuits -/

/-- The circuit consists of the given gates, added in this order. -/
structure BuiltBy (c : Base BoolGate) (ops : List Op) : Prop where
  gates : c.gates = ops.map (·.1)
  parents : ∀ (i : Nat) (o : Op), ops[i]? = some o → c.parents i = o.2
  edges : ∀ e ∈ c.edges, e.1 < e.2 ∧ e.2 < c.gates.length
  book : BookOk c
  scBook : ScBookOk c
  simd : c.simdSize = none

theorem BuiltBy.length {c : Base BoolGate} {ops : List Op} (h : BuiltBy c ops) :
    c.gates.length = ops.length := by rw [h.gates]; simp

theorem builtBy_empty : BuiltBy {} [] :=
  ⟨rfl, by simp, by simp, ⟨rfl, rfl, rfl, rfl, rfl⟩, rfl, rfl⟩

theorem snoc_cases {α : Type} {l : List α} {x y : α} {i : Nat} (h : (l ++ [x])[i]? = some y) :
    (i < l.length ∧ l[i]? = some y) ∨ (i = l.length ∧ y = x) := by
  by_cases hi : i < l.length
  · left; exact ⟨hi, by rwa [List.getElem?_append_left hi] at h⟩
  · right
    have := (List.getElem?_eq_some_iff.1 h).1
    have hi' : i = l.length := by simp at this; omega
    subst hi'
    rw [List.getElem?_append_right (Nat.le_refl _)] at h
    simp only [Nat.sub_self, List.getElem?_cons_zero, Option.some.injEq] at h
    exact ⟨rfl, h.symm⟩

theorem BuiltBy.wired {c : Base BoolGate} {ops : List Op} (h : BuiltBy c ops) (o : Op)
    (ho : ∀ a ∈ o.2, a < ops.length) :
    ∃ c', c.addWiredGate o.1 o.2 = some (c', ops.length) ∧ BuiltBy c' (ops ++ [o]) := by
  obtain ⟨g, args⟩ := o
  have hlen := h.length
  obtain ⟨c', hc'⟩ := addWiredGate_some c g args (by rw [hlen]; exact ho)
  have hrun : (Call.wired g args).run c = some c' := by simp [Call.run, hc']
  obtain ⟨-, -, e⟩ := addWiredGate_spec hc'
  obtain ⟨a1, a2, -, a4⟩ := addGate_gates c g
  have hgates : c'.gates = c.gates ++ [g] := by rw [e]; exact a1
  have hedges : c'.edges = c.edges ++ args.reverse.map fun s => (s, c.gates.length) := by rw [e]
  refine ⟨c', by rw [hlen] at hc'; exact hc', ?_, ?_, ?_, bookOk_run hrun h.book,
    scBookOk_run hrun h.scBook (by simp), ?_⟩
  · rw [hgates, h.gates]; simp
  · intro i x hx
    rcases snoc_cases hx with ⟨hi, hx⟩ | ⟨rfl, rfl⟩
    · have := parents_append_other c (args.reverse.map fun s => (s, c.gates.length)) i (by
        intro x hx
        simp only [List.mem_map] at hx
        obtain ⟨y, -, rfl⟩ := hx
        simp only; omega)
      rw [← h.parents i x hx, ← this]
      simp only [Base.parents, hedges]
    · have hold : ((c.edges.reverse).filter fun x => x.2 = ops.length) = [] := by
        rw [List.filter_eq_nil_iff]
        intro x hx
        have := (h.edges x (by simpa using hx)).2
        simp only [decide_eq_true_eq]; omega
      have hnew : ((args.map fun s => (s, c.gates.length)).filter fun x => x.2 = ops.length) =
          args.map fun s => (s, c.gates.length) := by
        rw [List.filter_eq_self]
        intro x hx
        obtain ⟨y, -, rfl⟩ := List.mem_map.1 hx
        simp [hlen]
      simp only [Base.parents, hedges, List.reverse_append, ← List.map_reverse, List.reverse_reverse,
        List.filter_append, hold, hnew, List.append_nil, List.map_map]
      exact List.map_id _
  · intro x hx
    rw [hedges, List.mem_append] at hx
    rw [hgates, List.length_append, List.length_singleton]
    rcases hx with hx | hx
    · have := h.edges x hx; omega
    · simp only [List.mem_map, List.mem_reverse] at hx
      obtain ⟨y, hy, rfl⟩ := hx
      have := ho y hy
      simp only; omega
  · rw [e]; simp only; rw [a4]; exact h.simd

theorem BuiltBy.gate {c : Base BoolGate} {ops : List Op} (h : BuiltBy c ops) (g : BoolGate) :
    (c.addGate g).2 = ops.length ∧ BuiltBy (c.addGate g).1 (ops ++ [(g, [])]) := by
  obtain ⟨c', e, hb⟩ := h.wired (g, []) (by simp)
  have : c.addWiredGate g [] = some (c.addGate g) := by simp [Base.addWiredGate]
  rw [this, Option.some.injEq] at e
  rw [e]
  exact ⟨rfl, hb⟩

/-- A sub-circuit input. -/
abbrev scIn : Op := (.base .subCircuitInput, [])

/-- A sub-circuit output. -/
abbrev scOut (a : Nat) : Op := (.base .subCircuitOutput, [a])

theorem addScInputs_spec (n : Nat) {c : Base BoolGate} {ops : List Op} (h : BuiltBy c ops) :
    (addScInputs n c).2 = List.range' ops.length n ∧
      BuiltBy (addScInputs n c).1 (ops ++ List.replicate n scIn) := by
  induction n generalizing c ops with
  | zero => simpa [addScInputs] using h
  | succ n ih =>
    obtain ⟨e, hb⟩ := h.gate (.base .subCircuitInput)
    have ha : c.addScInputGate (.base .subCircuitInput) = c.addGate (.base .subCircuitInput) := rfl
    obtain ⟨e2, hb2⟩ := ih hb
    simp only [addScInputs, ha, e, e2]
    refine ⟨by simp [List.range'_succ], ?_⟩
    rw [List.replicate_succ, ← List.singleton_append, ← List.append_assoc]
    exact hb2

theorem withInputs_spec (sizes : List Nat) {c : Base BoolGate} {ops : List Op} (h : BuiltBy c ops) :
    (withInputs sizes c).2.flatten = List.range' ops.length sizes.sum ∧
      BuiltBy (withInputs sizes c).1 (ops ++ List.replicate sizes.sum scIn) := by
  induction sizes generalizing c ops with
  | nil => simpa [withInputs] using h
  | cons n ns ih =>
    obtain ⟨e, hb⟩ := addScInputs_spec n h
    obtain ⟨e2, hb2⟩ := ih hb
    simp only [withInputs, e, e2, List.flatten_cons, List.sum_cons]
    refine ⟨?_, ?_⟩
    · rw [List.length_append, List.length_replicate, List.range'_append_1]
    · rw [List.replicate_add, ← List.append_assoc]; exact hb2

theorem lookup_range (n : Nat) (as : List Nat) (h : ∀ a ∈ as, a < n) :
    lookup (List.range n) as = some as := by
  induction as with
  | nil => rfl
  | cons a as ih =>
    have h1 := h a List.mem_cons_self
    simp [lookup, ih fun b hb => h b (List.mem_cons_of_mem _ hb), h1]

theorem addOps_spec (ops : List Op) {c : Base BoolGate} {pre : List Op} (h : BuiltBy c pre)
    (hok : ∀ (i : Nat) (o : Op), ops[i]? = some o → ∀ a ∈ o.2, a < pre.length + i) :
    ∃ c', addOps ops (List.range pre.length) c = some (c', List.range (pre.length + ops.length)) ∧
      BuiltBy c' (pre ++ ops) := by
  induction ops generalizing c pre with
  | nil => exact ⟨c, by simp [addOps], by simpa using h⟩
  | cons o ops ih =>
    have h0 := hok 0 o rfl
    obtain ⟨c1, e1, hb⟩ := h.wired o (by simpa using h0)
    obtain ⟨c2, e2, hb2⟩ := ih hb (by
      intro i x hx a ha
      have := hok (i + 1) x (by simpa using hx) a ha
      simp only [List.length_append, List.length_singleton]; omega)
    refine ⟨c2, ?_, by simpa using hb2⟩
    obtain ⟨g, args⟩ := o
    simp only [addOps, lookup_range _ _ (by simpa using h0), Option.bind_eq_bind, Option.bind_some, e1]
    rw [← List.range_succ]
    simp only [List.length_append, List.length_singleton] at e2
    rw [e2]
    simp only [List.length_cons]
    congr 3; omega

theorem addOutputs_spec (ret : List Nat) {c : Base BoolGate} {pre : List Op} (h : BuiltBy c pre)
    (hok : ∀ a ∈ ret, a < pre.length) :
    ∃ c', addOutputs ret c = some (c', List.range' pre.length ret.length) ∧
      BuiltBy c' (pre ++ ret.map scOut) := by
  induction ret generalizing c pre with
  | nil => exact ⟨c, rfl, by simpa using h⟩
  | cons a ret ih =>
    obtain ⟨c1, e1, hb⟩ := h.wired (scOut a) (by simpa using hok a List.mem_cons_self)
    obtain ⟨c2, e2, hb2⟩ := ih hb (by
      intro x hx
      have := hok x (List.mem_cons_of_mem _ hx)
      simp only [List.length_append, List.length_singleton]; omega)
    refine ⟨c2, ?_, by simpa using hb2⟩
    simp only [addOutputs, e1, Option.bind_eq_bind, Option.bind_some, e2]
    simp [List.range'_succ]

/-- The gates of the circuit of a body. -/
def bodyOps (n : Nat) (b : Body) : List Op := List.replicate n scIn ++ b.ops ++ b.ret.map scOut

theorem trace_spec (sizes : List Nat) (b : Body) (h : BodyOk sizes.sum b) :
    ∃ c, trace sizes b = some (c, List.range' (sizes.sum + b.ops.length) b.ret.length) ∧
      BuiltBy c (bodyOps sizes.sum b) := by
  obtain ⟨e1, h1⟩ := withInputs_spec sizes builtBy_empty
  obtain ⟨c2, e2, h2⟩ := addOps_spec b.ops h1 (by
    intro i o ho a ha
    simpa using (h.ops i o ho).2.2 a ha)
  obtain ⟨c3, e3, h3⟩ := addOutputs_spec b.ret h2 (by simpa using h.ret)
  simp only [List.nil_append, List.length_replicate, List.length_append, List.length_nil] at e1 e2 e3 h3
  refine ⟨c3, ?_, h3⟩
  have e1' : (withInputs sizes {}).2.flatten = List.range sizes.sum := by
    rw [e1, List.range_eq_range']
  simp only [trace, e1', e2, Option.bind_eq_bind, Option.bind_some,
    lookup_range _ _ h.ret, e3]

/-! ### What they compute -/

theorem evalOps_length (env : List Bool) (ops : List Op) :
    (evalOps env ops).length = env.length + ops.length := by
  unfold evalOps
  induction ops generalizing env with
  | nil => simp
  | cons o ops ih => simp only [List.foldl_cons, ih, List.length_append,
      List.length_cons, List.length_nil]; omega

theorem evalOps_prefix (env : List Bool) (ops : List Op) (i : Nat) (hi : i < env.length) :
    (evalOps env ops).getD i false = env.getD i false := by
  unfold evalOps
  induction ops generalizing env with
  | nil => rfl
  | cons o ops ih =>
    rw [List.foldl_cons, ih _ (by simp; omega)]
    simp only [List.getD_eq_getElem?_getD, List.getElem?_append_left hi]

theorem evalOps_get (env : List Bool) (ops : List Op) (i : Nat) (o : Op) (ho : ops[i]? = some o)
    (ha : ∀ a ∈ o.2, a < env.length + i) :
    (evalOps env ops).getD (env.length + i) false =
      gateFn false o.1 (o.2.map fun a => (evalOps env ops).getD a false) := by
  induction ops generalizing env i with
  | nil => simp at ho
  | cons o' ops ih =>
    have hstep : evalOps env (o' :: ops) = evalOps (env ++ [gateFn false o'.1
      (o'.2.map fun a => env.getD a false)]) ops := rfl
    cases i with
    | zero =>
      simp only [List.getElem?_cons_zero, Option.some.injEq] at ho
      subst ho
      have hmap : (o'.2.map fun a => (evalOps env (o' :: ops)).getD a false) =
          o'.2.map fun a => env.getD a false := by
        apply List.map_congr_left
        intro a h
        exact evalOps_prefix env _ a (by simpa using ha a h)
      rw [hmap, hstep, evalOps_prefix _ _ _ (by simp)]
      simp [List.getD_eq_getElem?_getD]
    | succ i =>
      rw [hstep]
      have := ih (env ++ [gateFn false o'.1 (o'.2.map fun a => env.getD a false)]) i
        (by simpa using ho) (by
          intro a h
          have := ha a h
          simp only [List.length_append, List.length_singleton]; omega)
      simp only [List.length_append, List.length_singleton] at this
      rw [← this]
      congr 1; omega

theorem bodyOps_get {n : Nat} {b : Body} (i : Nat) (o : Op) (h : (bodyOps n b)[i]? = some o) :
    (i < n ∧ o = scIn) ∨ (n ≤ i ∧ i < n + b.ops.length ∧ b.ops[i - n]? = some o) ∨
      (n + b.ops.length ≤ i ∧ ∃ a, b.ret[i - (n + b.ops.length)]? = some a ∧ o = scOut a) := by
  unfold bodyOps at h
  by_cases h1 : i < n
  · left
    rw [List.append_assoc, List.getElem?_append_left (by simpa using h1), List.getElem?_replicate,
      if_pos h1] at h
    exact ⟨h1, (Option.some.inj h).symm⟩
  · by_cases h2 : i < n + b.ops.length
    · right; left
      rw [List.append_assoc, List.getElem?_append_right (by simp; omega), List.length_replicate,
        List.getElem?_append_left (by omega)] at h
      exact ⟨by omega, h2, h⟩
    · right; right
      rw [List.getElem?_append_right (by simp; omega), List.getElem?_map,
        Option.map_eq_some_iff] at h
      obtain ⟨a, ha, rfl⟩ := h
      refine ⟨by omega, a, ?_, rfl⟩
      simpa using ha

theorem bodyOps_length (n : Nat) (b : Body) :
    (bodyOps n b).length = n + b.ops.length + b.ret.length := by simp [bodyOps]; omega

theorem operator_cases {g : BoolGate} (h : operator g = true) :
    g = .and ∨ g = .xor ∨ g = .inv ∨ ∃ b, g = .base (.constant b) := by
  cases g with
  | base b => cases b <;> simp [operator] at h ⊢
  | _ => simp

/-- The positions of the gates of one kind, if they are a block at the end. -/
theorem positions_last {G : Type} [GateLike G] (p : G → Bool) (a b : List G) (ha : ∀ x ∈ a, p x = false)
    (hb : ∀ x ∈ b, p x = true) : positions p (a ++ b) = List.range' a.length b.length := by
  induction b using List.reverseRecOn with
  | nil =>
    rw [List.append_nil]
    unfold positions
    simp only [List.length_nil, List.range'_zero, List.filter_eq_nil_iff, List.mem_range]
    intro i hi
    rw [List.getElem?_eq_getElem hi]
    simp [ha _ (List.getElem_mem hi)]
  | append_singleton b x ih =>
    rw [← List.append_assoc, positions_append, ih fun y hy => hb y (by simp [hy]),
      if_pos (hb x (by simp)), List.length_append, List.length_append, List.length_singleton,
      List.range'_concat]
    simp

theorem positions_first {G : Type} [GateLike G] (p : G → Bool) (a b : List G) (ha : ∀ x ∈ a, p x = true)
    (hb : ∀ x ∈ b, p x = false) : positions p (a ++ b) = List.range a.length := by
  induction b using List.reverseRecOn with
  | nil =>
    rw [List.append_nil]
    unfold positions
    rw [List.filter_eq_self]
    intro i hi
    have hi := List.mem_range.1 hi
    rw [List.getElem?_eq_getElem hi]
    simp [ha _ (List.getElem_mem hi)]
  | append_singleton b x ih =>
    rw [← List.append_assoc, positions_append, ih fun y hy => hb y (by simp [hy]),
      if_neg (by simp [hb x (by simp)]), List.append_nil]

section

variable {n : Nat} {b : Body} {c : Base BoolGate}

theorem body_scInputs (ok : BodyOk n b) (h : BuiltBy c (bodyOps n b)) :
    scInputs c = List.range n ∧ c.scInputGates = List.range n := by
  have hg : c.gates = (List.replicate n scIn).map (·.1) ++ (b.ops ++ b.ret.map scOut).map (·.1) := by
    rw [h.gates, bodyOps, List.append_assoc, List.map_append]
  have hops : ∀ o ∈ b.ops, operator o.1 = true := by
    intro o ho
    obtain ⟨i, hi⟩ := List.mem_iff_getElem?.1 ho
    exact (ok.ops i o hi).1
  refine ⟨?_, ?_⟩
  · unfold scInputs
    rw [hg, positions_first]
    · simp
    · intro x hx
      simp only [List.map_replicate] at hx
      rw [List.eq_of_mem_replicate hx]; rfl
    · intro x hx
      simp only [List.map_append, List.mem_append, List.mem_map] at hx
      rcases hx with ⟨o, ho, rfl⟩ | ⟨o, ⟨a, -, rfl⟩, rfl⟩
      · rcases operator_cases (hops o ho) with h | h | h | ⟨v, h⟩ <;> rw [h] <;> rfl
      · rfl
  · rw [h.scBook, hg, positions_first]
    · simp
    · intro x hx
      simp only [List.map_replicate] at hx
      rw [List.eq_of_mem_replicate hx]; rfl
    · intro x hx
      simp only [List.map_append, List.mem_append, List.mem_map] at hx
      rcases hx with ⟨o, ho, rfl⟩ | ⟨o, ⟨a, -, rfl⟩, rfl⟩
      · rcases operator_cases (hops o ho) with h | h | h | ⟨v, h⟩ <;> rw [h] <;> rfl
      · rfl

theorem body_scOutputs (ok : BodyOk n b) (h : BuiltBy c (bodyOps n b)) :
    scOutputs c = List.range' (n + b.ops.length) b.ret.length := by
  have hops : ∀ o ∈ b.ops, operator o.1 = true := by
    intro o ho
    obtain ⟨i, hi⟩ := List.mem_iff_getElem?.1 ho
    exact (ok.ops i o hi).1
  unfold scOutputs
  rw [h.gates, bodyOps, List.map_append, positions_last]
  · simp
  · intro x hx
    simp only [List.map_append, List.mem_append, List.map_replicate, List.mem_map] at hx
    rcases hx with hx | ⟨o, ho, rfl⟩
    · rw [List.eq_of_mem_replicate hx]; rfl
    · rcases operator_cases (hops o ho) with h | h | h | ⟨v, h⟩ <;> rw [h] <;> rfl
  · intro x hx
    simp only [List.mem_map] at hx
    obtain ⟨o, ⟨a, -, rfl⟩, rfl⟩ := hx
    rfl

/-- The traced circuit computes the body. -/
theorem body_eval (ok : BodyOk n b) (h : BuiltBy c (bodyOps n b)) (inp : List Bool)
    (hl : inp.length = n) : plainFn (alone c) inp = b.eval inp := by
  have hag : (alone c).gates = (bodyOps n b).map fun o => aloneGate o.1 := by
    simp [alone, h.gates]
  have hedge : ∀ e ∈ (alone c).edges, e.1 < e.2 := fun e he => (h.edges e he).1
  have hval : ∀ (i : Nat) (o : Op), (bodyOps n b)[i]? = some o →
      plainVal (alone c) inp i = gateFn (inp.getD (inputIdx (alone c) i) false) (aloneGate o.1)
        (o.2.map (plainVal (alone c) inp)) := by
    intro i o ho
    rw [← h.parents i o ho]
    refine plainVal_eq_of_edges hedge inp ?_
    rw [hag, List.getElem?_map, ho]; rfl
  have hlen := bodyOps_length n b
  -- inputs
  have hin : ∀ i < n, plainVal (alone c) inp i = inp.getD i false := by
    intro i hi
    have ho : (bodyOps n b)[i]? = some scIn := by
      unfold bodyOps
      rw [List.append_assoc, List.getElem?_append_left (by simpa using hi), List.getElem?_replicate,
        if_pos hi]
    rw [hval i scIn ho]
    have hidx : inputIdx (alone c) i = i := by
      unfold inputIdx
      rw [hag, bodyOps, List.append_assoc, List.map_append, List.take_append_of_le_length (by
        simp; omega), List.map_replicate, List.take_replicate, List.countP_replicate]
      simp [aloneGate]; omega
    rw [hidx]; rfl
  have hmid : ∀ i < n + b.ops.length, plainVal (alone c) inp i = (evalOps inp b.ops).getD i false := by
    intro i
    induction i using Nat.strongRecOn with
    | ind i ih =>
      intro hi
      by_cases h1 : i < n
      · rw [hin i h1, evalOps_prefix _ _ _ (by omega)]
      · obtain ⟨o, ho⟩ : ∃ o, b.ops[i - n]? = some o :=
          ⟨b.ops[i - n]'(by omega), List.getElem?_eq_getElem (by omega)⟩
        have hbo : (bodyOps n b)[i]? = some o := by
          unfold bodyOps
          rw [List.append_assoc, List.getElem?_append_right (by simp; omega), List.length_replicate,
            List.getElem?_append_left (by omega)]
          exact ho
        obtain ⟨k1, k2, k3⟩ := ok.ops (i - n) o ho
        have e := evalOps_get inp b.ops (i - n) o ho (by
          intro a ha
          have := k3 a ha
          omega)
        rw [show inp.length + (i - n) = i by omega] at e
        rw [e, hval i o hbo]
        have hm : o.2.map (plainVal (alone c) inp) = o.2.map fun a => (evalOps inp b.ops).getD a false := by
          apply List.map_congr_left
          intro a ha
          have := k3 a ha
          exact ih a (by omega) (by omega)
        rw [hm]
        rcases operator_cases k1 with h | h | h | ⟨v, h⟩ <;> rw [h] at k2 ⊢
        · obtain ⟨x, y, hxy⟩ := two_of_length k2
          rw [hxy]; rfl
        · obtain ⟨x, y, hxy⟩ := two_of_length k2
          rw [hxy]; rfl
        · obtain ⟨x, hx⟩ := one_of_length k2
          rw [hx]; rfl
        · rfl
  have hpos : positions (fun g => g = .base .output) (alone c).gates =
      List.range' (n + b.ops.length) b.ret.length := by
    rw [hag, bodyOps, List.map_append, positions_last]
    · simp
    · intro x hx
      simp only [List.map_append, List.mem_append, List.map_replicate, List.mem_map] at hx
      rcases hx with hx | ⟨o, ho, rfl⟩
      · rw [List.eq_of_mem_replicate hx]; rfl
      · obtain ⟨i, hi⟩ := List.mem_iff_getElem?.1 ho
        rcases operator_cases (ok.ops i o hi).1 with h | h | h | ⟨v, h⟩ <;> rw [h] <;> rfl
    · intro x hx
      simp only [List.mem_map] at hx
      obtain ⟨o, ⟨a, -, rfl⟩, rfl⟩ := hx
      rfl
  unfold plainFn Body.eval
  rw [hpos]
  apply List.ext_getElem
  · simp
  · intro i hi hi'
    simp only [List.length_map, List.length_range'] at hi hi'
    simp only [List.getElem_map, List.getElem_range', Nat.one_mul]
    have ho : (bodyOps n b)[n + b.ops.length + i]? = some (scOut b.ret[i]) := by
      unfold bodyOps
      rw [List.getElem?_append_right (by simp), List.getElem?_map]
      simp [hi']
    rw [hval _ _ ho, ← hmid _ (ok.ret _ (List.getElem_mem hi'))]
    rfl

end

end Verif.Macro
