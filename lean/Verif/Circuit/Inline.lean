import Verif.Circuit.Build
import Verif.Circuit.CollectLemmas

/-!
C14: `BaseCircuit::iter` and `BaseCircuit::add_sub_circuit` (model and lemmas).
-/
set_option autoImplicit false

namespace Verif.Circuit

open Gmw (BaseGate BoolGate)

variable {G : Type} [GateLike G]

/-! ### Model -/

/-- Run a `BaseLayerIter` until it returns `None`.  `none`: a panic, or more than `fuel` layers. -/
def Iter.collect (c : Base G) : Nat → Iter → Option (List Layer)
  | 0, _ => none
  | fuel + 1, s => do
    let (l, s) ← s.next c
    match l with
    | none => pure []
    | some l => do
      let ls ← Iter.collect c fuel s
      pure (l :: ls)

/-- base_circuit.rs:191-195 `iter`, the gate ids: local gates of a layer, then interactive ones
(base_circuit.rs:684-691). -/
def Base.iterIds (c : Base G) : Option (List Nat) := do
  let ls ← Iter.collect c (c.gates.length + 1) ((Iter.new c).visitScInputs c)
  pure (ls.flatMap fun l => l.ni ++ l.int)

/-- base_circuit.rs:233-238: sub-circuit inputs and outputs become identities. -/
def conv (g : G) : G :=
  match asBase g with
  | some .subCircuitInput | some .subCircuitOutput => wrapBase .identity
  | _ => g

/-- base_circuit.rs:229-245: copy the gates.  `m` is `gate_id_map`. -/
def inlineGates (c : Base G) : List Nat → Base G → (Nat → Nat) → Option (Base G × (Nat → Nat))
  | [], s, m => some (s, m)
  | v :: vs, s, m => do
    let g ← c.gates[v]?
    let (s, id) := s.addGate (conv g)
    let m := fun u => if u = v then id else m u
    let s ← ((c.parents v).map m).foldlM (fun s p => s.addWire p id) s
    inlineGates c vs s m

/-- base_circuit.rs:246-250: connect the inputs. -/
def wireInputs (s : Base G) : List (Nat × Nat) → Option (Base G)
  | [] => some s
  | (f, t) :: r => do
    let s ← s.addWire f t
    wireInputs s r

/-- base_circuit.rs:219-261 `add_sub_circuit`. -/
def Base.addSubCircuit (s c : Base G) (inputs : List Nat) : Option (Base G × List Nat) :=
  if c.isMain = false ∧ c.inputGates = [] then do
    let ids ← c.iterIds
    let (s, m) ← inlineGates c ids s (fun _ => 0)
    let s ← wireInputs s (inputs.zip (c.scInputGates.map m))
    if c.scInputGates.length ≤ inputs.length then
      pure (s, c.scOutputGates.map m)
    else none
  else none

/-! ### Iteration of a sub-circuit -/

/-- A circuit that can be inlined: not a main circuit, wires connect existing gates without
cycle, and the gates without operands are the constants and the sub-circuit inputs. -/
structure SubOk (c : Base G) (rank : Nat → Nat) : Prop where
  notMain : c.isMain = false
  noInputs : c.inputGates = []
  edges : EdgesIn c
  rank : ∀ e ∈ c.edges, rank e.1 < rank e.2
  nodup : (c.constantGates ++ c.scInputGates).Nodup
  bound : ∀ g ∈ c.constantGates ++ c.scInputGates, g < c.gates.length
  sources : ∀ g < c.gates.length, c.parents g = [] ↔ g ∈ c.constantGates ++ c.scInputGates

theorem iter_collect_spec {c : Base G} {rank : Nat → Nat} (w : SubOk c rank) (fuel : Nat) (D : List Nat)
    (s : Iter) (h : Inv c D s.prev s.needed s.nextLayer)
    (hsrc : ∀ g ∈ c.constantGates ++ c.scInputGates, g ∈ D ++ s.prev ++ s.nextLayer)
    (htopo : ∀ a v b, D ++ s.prev = a ++ v :: b → ∀ u ∈ c.parents v, u ∈ a)
    (hf : c.gates.length < fuel + (D ++ s.prev).length) :
    ∃ ls : List Layer, Iter.collect c fuel s = some ls ∧
      let L := D ++ s.prev ++ ls.flatMap fun l => l.ni ++ l.int
      L.Nodup ∧ (∀ g, g ∈ L ↔ g < c.gates.length) ∧
      ∀ a v b, L = a ++ v :: b → ∀ u ∈ c.parents v, u ∈ a := by
  have hE : EdgesOk c := w.edges
  induction fuel generalizing D s with
  | zero =>
    have := nodup_bound_length _ _ h.nodup h.bound
    simp only [List.length_append] at this hf
    omega
  | succ fuel ih =>
    obtain ⟨ni, int, needed', e, inv, added, hq, -⟩ := next_spec c hE D s h
    by_cases hz : ni = [] ∧ int = []
    · obtain ⟨rfl, rfl⟩ := hz
      have hnext : s.nextLayer = [] := by
        rw [List.eq_nil_iff_forall_not_mem]
        intro v hv
        simpa using hq v hv
      refine ⟨[], by simp [Iter.collect, e], ?_⟩
      simp only [List.flatMap_nil, List.append_nil]
      have hall : ∀ g < c.gates.length, g ∈ D ++ s.prev := by
        intro g
        induction hr : rank g using Nat.strong_induction_on generalizing g with
        | _ r ih2 =>
          subst hr
          intro hg
          by_cases hp : c.parents g = []
          · have := hsrc g ((w.sources g hg).1 hp)
            simpa [hnext] using this
          · have hpar : ∀ u ∈ c.parents g, u ∈ D ++ s.prev := by
              intro u hu
              rw [mem_parents] at hu
              exact ih2 _ (w.rank _ hu) u rfl (w.edges _ hu).1
            have := (inv.ready g hp).2 ((cnt_eq_zero c _ _).2 (by simpa using hpar))
            simpa using this
      refine ⟨?_, ?_, htopo⟩
      · have := h.nodup
        rw [hnext] at this
        simpa using this
      · intro g
        constructor
        · intro hg
          exact h.bound g (by rw [hnext]; simpa using hg)
        · exact hall g
    · have hne : 0 < ni.length + int.length := by
        rcases Nat.eq_zero_or_pos (ni.length + int.length) with h0 | h0
        · exact absurd ⟨List.length_eq_zero_iff.1 (by omega), List.length_eq_zero_iff.1 (by omega)⟩ hz
        · exact h0
      obtain ⟨ls, e2, hL⟩ := ih (D ++ s.prev ++ ni)
        ⟨needed', int, [], s.produced + (int.length + ni.length)⟩ inv (by
          intro g hg
          have := hsrc g hg
          simp only [List.mem_append, List.append_nil] at this ⊢
          rcases this with h | h
          · exact Or.inl (Or.inl h)
          · have := hq g h
            simp only [List.mem_append] at this
            rcases this with h | h
            · exact Or.inl (Or.inr h)
            · exact Or.inr h)
        (by
          intro a v b hab u hu
          simp only at hab
          rw [List.append_assoc, List.append_eq_append_iff] at hab
          rcases hab with ⟨x, h1, h2⟩ | ⟨x, h1, h2⟩
          · subst h1
            rw [List.append_eq_append_iff] at h2
            rcases h2 with ⟨y, h3, h4⟩ | ⟨y, h3, h4⟩
            · have := added.intOrder v (by rw [h4]; simp) u hu
              subst h3
              simp only [List.mem_append] at this ⊢
              rcases this with h | h
              · exact Or.inl h
              · exact Or.inr (Or.inl h)
            · cases y with
              | nil =>
                simp only [List.nil_append] at h4
                have := added.intOrder v (by rw [← h4]; simp) u hu
                simp only [List.append_nil] at h3
                rwa [h3] at this
              | cons z y =>
                simp only [List.cons_append, List.cons.injEq] at h4
                obtain ⟨rfl, -⟩ := h4
                exact added.niOrder x v y h3 u hu
          · cases x with
            | nil =>
              simp only [List.nil_append] at h2
              simp only [List.append_nil] at h1
              subst h1
              cases ni with
              | nil =>
                simp only [List.nil_append] at h2
                have := added.intOrder v (by rw [← h2]; simp) u hu
                simpa using this
              | cons z zs =>
                simp only [List.cons_append, List.cons.injEq] at h2
                obtain ⟨rfl, -⟩ := h2
                have := added.niOrder [] v zs rfl u hu
                simpa using this
            | cons z x =>
              simp only [List.cons_append, List.cons.injEq] at h2
              obtain ⟨rfl, -⟩ := h2
              exact htopo a v x h1 u hu)
        (by simp only [List.length_append] at hf ⊢; omega)
      refine ⟨⟨ni, int⟩ :: ls, by simp [Iter.collect, e, hz, e2], ?_⟩
      simpa only [List.flatMap_cons, List.append_assoc] using hL

/-- Iterating a sub-circuit yields all gates once, operands first. -/
theorem iterIds_spec {c : Base G} {rank : Nat → Nat} (w : SubOk c rank) :
    ∃ L, c.iterIds = some L ∧ L.Nodup ∧ (∀ g, g ∈ L ↔ g < c.gates.length) ∧
      ∀ a v b, L = a ++ v :: b → ∀ u ∈ c.parents v, u ∈ a := by
  obtain ⟨ls, e, h1, h2, h3⟩ := iter_collect_spec w (c.gates.length + 1) []
    ((Iter.new c).visitScInputs c)
    (by
      simp only [Iter.visitScInputs, Iter.new, Iter.newUninit, w.noInputs, List.append_nil]
      exact inv_init c _ w.nodup w.bound fun g hg => (w.sources g (w.bound g hg)).2 hg)
    (by
      intro g hg
      simpa [Iter.visitScInputs, Iter.new, Iter.newUninit, w.noInputs] using hg)
    (by
      intro a v b hab
      simp [Iter.visitScInputs, Iter.new, Iter.newUninit] at hab)
    (by omega)
  simp only [Iter.visitScInputs, Iter.new, Iter.newUninit, List.nil_append] at e h1 h2 h3
  exact ⟨_, by
    simp only [Base.iterIds, Iter.visitScInputs, Iter.new, Iter.newUninit, e, Option.bind_eq_bind,
      Option.bind_some, Option.pure_def], h1, h2, h3⟩

end Verif.Circuit
