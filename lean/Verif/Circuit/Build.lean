import Verif.Circuit.Model

/-!
Circuits built through the construction calls of `BaseCircuit`: C13 (operand order) and C49
(bookkeeping).
-/
set_option autoImplicit false

namespace Verif.Circuit

open Gmw (BaseGate)

/-- The construction calls of base_circuit.rs:113-144, 200-213. -/
inductive Call (G : Type) where
  /-- `add_gate` -/
  | gate (g : G)
  /-- `add_sc_input_gate` -/
  | scInput (g : G)
  /-- `add_wire` -/
  | wire (src dst : Nat)
  /-- `add_wired_gate` -/
  | wired (g : G) (from_ : List Nat)

variable {G : Type} [GateLike G]

/-- Perform one call. -/
def Call.run (c : Base G) : Call G → Option (Base G)
  | .gate g => some (c.addGate g).1
  | .scInput g => some (c.addScInputGate g).1
  | .wire s d => c.addWire s d
  | .wired g f => (c.addWiredGate g f).map (·.1)

/-- Perform a sequence of calls; `none` if one of them panics. -/
def runCalls (c : Base G) : List (Call G) → Option (Base G)
  | [] => some c
  | k :: ks => (k.run c).bind fun c => runCalls c ks

/-- The positions of the gates satisfying `p`, in order. -/
def positions (p : G → Bool) (gates : List G) : List Nat :=
  (List.range gates.length).filter fun i => (gates[i]?).any p

/-- The gate is of the base kind selected by `p`. -/
def ofKind (p : BaseGate (GateLike.Plain G) → Bool) (g : G) : Bool := (asBase g).any p

/-! ### Lemmas -/

theorem positions_append (p : G → Bool) (gates : List G) (g : G) :
    positions p (gates ++ [g]) =
      positions p gates ++ if p g then [gates.length] else [] := by
  unfold positions
  rw [List.length_append, List.length_singleton, List.range_succ, List.filter_append]
  congr 1
  · apply List.filter_congr
    intro i hi
    rw [List.getElem?_append_left (List.mem_range.1 hi)]
  · by_cases h : p g <;> simp [List.filter_cons, h]

theorem addGate_gates (c : Base G) (g : G) : (c.addGate g).1.gates = c.gates ++ [g] ∧
    (c.addGate g).1.edges = c.edges ∧ (c.addGate g).2 = c.gates.length ∧
    (c.addGate g).1.simdSize = c.simdSize := by
  unfold Base.addGate
  refine ⟨?_, ?_, rfl, ?_⟩ <;>
  · dsimp only
    split <;> (cases asBase g with
      | none => rfl
      | some b => cases b <;> rfl)

theorem addWire_spec {c c' : Base G} {s d : Nat} (h : c.addWire s d = some c') :
    s < c.gates.length ∧ d < c.gates.length ∧ c' = { c with edges := c.edges ++ [(s, d)] } := by
  unfold Base.addWire at h
  split at h
  · simp only [Option.some.injEq] at h
    rename_i hh
    exact ⟨hh.1, hh.2, h.symm⟩
  · cases h

theorem foldWires_spec (l : List Nat) (d : Nat) (c c' : Base G)
    (h : l.foldlM (fun c s => Base.addWire c s d) c = some c') :
    (∀ s ∈ l, s < c.gates.length) ∧ (l ≠ [] → d < c.gates.length) ∧
      c' = { c with edges := c.edges ++ l.map fun s => (s, d) } := by
  induction l generalizing c with
  | nil =>
    simp only [List.foldlM_nil, Option.pure_def, Option.some.injEq] at h
    subst h; simp
  | cons s l ih =>
    simp only [List.foldlM_cons, Option.bind_eq_bind, Option.bind_eq_some_iff] at h
    obtain ⟨c1, h1, h2⟩ := h
    obtain ⟨a1, a2, rfl⟩ := addWire_spec h1
    obtain ⟨b1, -, rfl⟩ := ih _ h2
    simp only at b1
    refine ⟨?_, fun _ => a2, ?_⟩
    · intro x hx
      rcases List.mem_cons.1 hx with rfl | hx
      · exact a1
      · exact b1 x hx
    · simp

theorem addWiredGate_spec {c c' : Base G} {g : G} {f : List Nat} {id : Nat}
    (h : c.addWiredGate g f = some (c', id)) :
    id = c.gates.length ∧ (∀ s ∈ f, s < c.gates.length + 1) ∧
      c' = { (c.addGate g).1 with edges := c.edges ++ f.reverse.map fun s => (s, id) } := by
  obtain ⟨h1, h2, h3, -⟩ := addGate_gates c g
  simp only [Base.addWiredGate, Option.bind_eq_bind, Option.bind_eq_some_iff, Option.pure_def,
    Option.some.injEq, Prod.mk.injEq] at h
  obtain ⟨c1, e1, e2, e3⟩ := h
  obtain ⟨a1, a2, a3⟩ := foldWires_spec _ _ _ _ e1
  subst e2
  rw [h1] at a1
  rw [h3] at e3 a3
  subst e3
  refine ⟨rfl, ?_, ?_⟩
  · intro s hs
    simpa using a1 s (by simpa using hs)
  · rw [a3, h2]

/-- A wired gate can be added if the operands exist. -/
theorem addWiredGate_some (c : Base G) (g : G) (f : List Nat) (hf : ∀ s ∈ f, s < c.gates.length) :
    ∃ c', c.addWiredGate g f = some (c', c.gates.length) := by
  obtain ⟨h1, h2, h3, -⟩ := addGate_gates c g
  have : ∀ (l : List Nat) (c : Base G) (d : Nat), (∀ s ∈ l, s < c.gates.length) → d < c.gates.length →
      ∃ c', l.foldlM (fun c s => Base.addWire c s d) c = some c' := by
    intro l
    induction l with
    | nil => intro c d _ _; exact ⟨c, rfl⟩
    | cons s l ih =>
      intro c d hl hd
      have hs : c.addWire s d = some { c with edges := c.edges ++ [(s, d)] } := by
        simp [Base.addWire, hl s List.mem_cons_self, hd]
      obtain ⟨c', hc'⟩ := ih { c with edges := c.edges ++ [(s, d)] } d
        (fun x hx => hl x (List.mem_cons_of_mem _ hx)) hd
      exact ⟨c', by simp [List.foldlM_cons, hs, hc']⟩
  obtain ⟨c', hc'⟩ := this f.reverse (c.addGate g).1 (c.addGate g).2
    (by intro s hs; rw [h1]; have := hf s (by simpa using hs); simp; omega) (by rw [h1, h3]; simp)
  refine ⟨c', ?_⟩
  rw [h3] at hc'
  simp only [Base.addWiredGate, Option.bind_eq_bind, Option.bind_some, Option.pure_def, h3, hc']

/-- All wires end at existing gates. -/
def EdgesIn (c : Base G) : Prop := ∀ e ∈ c.edges, e.1 < c.gates.length ∧ e.2 < c.gates.length

theorem addScInputGate_gates (c : Base G) (g : G) :
    (c.addScInputGate g).1.gates = c.gates ++ [g] ∧ (c.addScInputGate g).1.edges = c.edges ∧
    (c.addScInputGate g).2 = c.gates.length := by
  obtain ⟨h1, h2, h3, -⟩ := addGate_gates c g
  unfold Base.addScInputGate
  cases hb : asBase g with
  | none => simp [hb, h1, h2, h3]
  | some b => cases b <;> simp [hb, h1, h2, h3]

/-- What a call does to gates and wires. -/
theorem run_spec {c c' : Base G} {k : Call G} (h : k.run c = some c') (he : EdgesIn c) :
    EdgesIn c' ∧ (∃ gs, c'.gates = c.gates ++ gs) ∧ ∃ es, c'.edges = c.edges ++ es ∧
      ∀ e ∈ es, e.2 < c.gates.length → k = .wire e.1 e.2 := by
  have grow : ∀ (g : G) (e : Nat × Nat), e ∈ c.edges →
      e.1 < (c.gates ++ [g]).length ∧ e.2 < (c.gates ++ [g]).length := by
    intro g e hh
    have := he e hh
    simp; omega
  cases k with
  | gate g =>
    obtain ⟨h1, h2, -⟩ := addGate_gates c g
    simp only [Call.run, Option.some.injEq] at h
    subst h
    refine ⟨?_, ⟨[g], h1⟩, [], by simp [h2], by simp⟩
    intro e hh
    rw [h2] at hh; rw [h1]
    exact grow g e hh
  | scInput g =>
    obtain ⟨h1, h2, -⟩ := addScInputGate_gates c g
    simp only [Call.run, Option.some.injEq] at h
    subst h
    refine ⟨?_, ⟨[g], h1⟩, [], by simp [h2], by simp⟩
    intro e hh
    rw [h2] at hh; rw [h1]
    exact grow g e hh
  | wire s d =>
    obtain ⟨a1, a2, rfl⟩ := addWire_spec h
    refine ⟨?_, ⟨[], by simp⟩, [(s, d)], rfl, by simp⟩
    intro e hh
    rcases List.mem_append.1 hh with hh | hh
    · exact he e hh
    · simp only [List.mem_singleton] at hh
      subst hh
      exact ⟨a1, a2⟩
  | wired g f =>
    simp only [Call.run, Option.map_eq_some_iff] at h
    obtain ⟨⟨c1, id⟩, h1, rfl⟩ := h
    obtain ⟨rfl, hf, rfl⟩ := addWiredGate_spec h1
    obtain ⟨h1, h2, -⟩ := addGate_gates c g
    refine ⟨?_, ⟨[g], h1⟩, _, rfl, ?_⟩
    · intro e hh
      simp only [h1]
      rcases List.mem_append.1 hh with hh | hh
      · exact grow g e hh
      · simp only [List.mem_map, List.mem_reverse] at hh
        obtain ⟨s, hs, rfl⟩ := hh
        have := hf s hs
        simp; omega
    · intro e hh hlt
      simp only [List.mem_map] at hh
      obtain ⟨s, hs, rfl⟩ := hh
      simp at hlt

theorem runCalls_spec {c c' : Base G} {ks : List (Call G)} (h : runCalls c ks = some c')
    (he : EdgesIn c) :
    EdgesIn c' ∧ (∃ gs, c'.gates = c.gates ++ gs) ∧ ∃ es, c'.edges = c.edges ++ es ∧
      ∀ e ∈ es, e.2 < c.gates.length → .wire e.1 e.2 ∈ ks := by
  induction ks generalizing c with
  | nil =>
    simp only [runCalls, Option.some.injEq] at h
    subst h
    exact ⟨he, ⟨[], by simp⟩, [], by simp, by simp⟩
  | cons k ks ih =>
    simp only [runCalls, Option.bind_eq_some_iff] at h
    obtain ⟨c1, h1, h2⟩ := h
    obtain ⟨he1, ⟨gs, hg⟩, es, hes, hk⟩ := run_spec h1 he
    obtain ⟨he2, ⟨gs', hg'⟩, es', hes', hk'⟩ := ih h2 he1
    refine ⟨he2, ⟨gs ++ gs', by rw [hg', hg, List.append_assoc]⟩, es ++ es',
      by rw [hes', hes, List.append_assoc], ?_⟩
    intro e hh hlt
    rcases List.mem_append.1 hh with hh | hh
    · exact List.mem_cons.2 (Or.inl (hk e hh hlt).symm)
    · exact List.mem_cons_of_mem _ (hk' e hh (by rw [hg]; simp; omega))

theorem parents_append_other (c : Base G) (es : List (Nat × Nat)) (v : Nat)
    (h : ∀ e ∈ es, e.2 ≠ v) :
    ({ c with edges := c.edges ++ es } : Base G).parents v = c.parents v := by
  simp only [Base.parents, List.reverse_append, List.filter_append]
  have : es.reverse.filter (fun e => decide (e.2 = v)) = [] := by
    rw [List.filter_eq_nil_iff]
    intro e he
    simpa using h e (by simpa using he)
  rw [this]; rfl

/-! ### Bookkeeping -/

/-- The lists of a circuit agree with its gates, except for sub-circuit inputs. -/
structure BookOk (c : Base G) : Prop where
  inputs : c.inputGates = positions (ofKind fun | .input => true | _ => false) c.gates
  outputs : c.outputGates = positions (ofKind fun | .output => true | _ => false) c.gates
  constants : c.constantGates = positions (ofKind fun | .constant _ => true | _ => false) c.gates
  scOutputs : c.scOutputGates =
    positions (ofKind fun | .subCircuitOutput => true | _ => false) c.gates
  interactives : c.interactiveCount = c.gates.countP fun g => interactive g

/-- The list of sub-circuit inputs agrees with the gates. -/
def ScBookOk (c : Base G) : Prop := c.scInputGates = positions (ofKind fun
  | .subCircuitInput | .connectToMain | .connectToMainFromSimd _ => true
  | _ => false) c.gates

theorem bookOk_addGate {c : Base G} (h : BookOk c) (g : G) : BookOk (c.addGate g).1 := by
  obtain ⟨h1, h2, h3, h4, h5⟩ := h
  obtain ⟨e1, -, -⟩ := addGate_gates c g
  constructor
  all_goals rw [e1]
  case interactives =>
    simp only [Base.addGate, List.countP_append, List.countP_singleton, ← h5]
    cases asBase g with
    | none => by_cases hi : interactive g = true <;> simp [hi]
    | some b => cases b <;> by_cases hi : interactive g = true <;> simp [hi]
  all_goals
    rw [positions_append, ofKind]
    simp only [← h1, ← h2, ← h3, ← h4, Base.addGate]
    split <;> (cases asBase g with
      | none => simp
      | some b => cases b <;> simp)

theorem scBookOk_addGate {c : Base G} (h : ScBookOk c) (g : G) : ScBookOk (c.addGate g).1 := by
  obtain ⟨e1, -, -⟩ := addGate_gates c g
  unfold ScBookOk at *
  rw [e1, positions_append, ofKind]
  simp only [← h, Base.addGate]
  split <;> (cases asBase g with
    | none => simp
    | some b => cases b <;> simp)

theorem bookOk_run {c c' : Base G} {k : Call G} (h : k.run c = some c') (hb : BookOk c) :
    BookOk c' := by
  cases k with
  | gate g =>
    simp only [Call.run, Option.some.injEq] at h
    subst h
    exact bookOk_addGate hb g
  | scInput g =>
    have := bookOk_addGate hb g
    simp only [Call.run, Option.some.injEq, Base.addScInputGate] at h
    cases hg : asBase g with
    | none => simp only [hg] at h; subst h; exact ⟨this.1, this.2, this.3, this.4, this.5⟩
    | some b =>
      cases b <;> simp only [hg] at h <;> subst h <;>
        exact ⟨this.1, this.2, this.3, this.4, this.5⟩
  | wire s d =>
    obtain ⟨-, -, rfl⟩ := addWire_spec h
    exact ⟨hb.1, hb.2, hb.3, hb.4, hb.5⟩
  | wired g f =>
    simp only [Call.run, Option.map_eq_some_iff] at h
    obtain ⟨⟨c1, id⟩, h1, rfl⟩ := h
    obtain ⟨-, -, rfl⟩ := addWiredGate_spec h1
    have := bookOk_addGate hb g
    exact ⟨this.1, this.2, this.3, this.4, this.5⟩

theorem scBookOk_run {c c' : Base G} {k : Call G} (h : k.run c = some c') (hb : ScBookOk c)
    (hk : ∀ g, k = .scInput g → asBase g = some .subCircuitInput) : ScBookOk c' := by
  cases k with
  | gate g =>
    simp only [Call.run, Option.some.injEq] at h
    subst h
    exact scBookOk_addGate hb g
  | scInput g =>
    have := scBookOk_addGate hb g
    simp only [Call.run, Option.some.injEq, Base.addScInputGate, hk g rfl] at h
    subst h
    exact this
  | wire s d =>
    obtain ⟨-, -, rfl⟩ := addWire_spec h
    exact hb
  | wired g f =>
    simp only [Call.run, Option.map_eq_some_iff] at h
    obtain ⟨⟨c1, id⟩, h1, rfl⟩ := h
    obtain ⟨-, -, rfl⟩ := addWiredGate_spec h1
    exact scBookOk_addGate hb g

end Verif.Circuit
