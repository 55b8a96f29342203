import Verif.Circuit.Inline
import Verif.Arith.Model

/-!
C14: inlining a sub-circuit.
-/
set_option autoImplicit false

namespace Verif.Circuit

open Gmw (BaseGate BoolGate)

variable {G : Type} [GateLike G]

/-! ### Specification -/

/-- A semantics of gates: `sem g x ops` says that `x` is the value of the gate for operand values
`ops`.  Identity-like gates pass their operand on. -/
structure Semantics (G β : Type) [GateLike G] where
  sem : G → β → List β → Prop
  identity : ∀ x y, sem (wrapBase .identity) x [y] ↔ x = y
  scOutput : ∀ g, asBase g = some .subCircuitOutput → ∀ x y, sem g x [y] ↔ x = y

/-- `val` assigns values to the gates of a circuit in accordance with its gates. -/
def Evaluates {β : Type} (S : Semantics G β) (c : Base G) (val : Nat → β) : Prop :=
  ∀ (v : Nat) (g : G), c.gates[v]? = some g → S.sem g (val v) ((c.parents v).map val)

/-- `val` assigns values to the gates of a sub-circuit whose inputs have the values `ins`. -/
structure EvaluatesSub {β : Type} (S : Semantics G β) (c : Base G) (ins : List β) (val : Nat → β) :
    Prop where
  gates : ∀ (v : Nat) (g : G), c.gates[v]? = some g → asBase g ≠ some .subCircuitInput →
    S.sem g (val v) ((c.parents v).map val)
  inputs : c.scInputGates.map val = ins.take c.scInputGates.length

/-! ### Structure of the result -/

/-- The copied part of the circuit, `m` maps gate ids. -/
structure Copied (s c s' : Base G) (m : Nat → Nat) (done : List Nat) : Prop where
  gates : s'.gates = s.gates ++ done.filterMap fun v => (c.gates[v]?).map conv
  length : s'.gates.length = s.gates.length + done.length
  edges : EdgesIn s'
  map : ∀ (j : Nat) (v : Nat), done[j]? = some v → m v = s.gates.length + j
  old : ∀ v < s.gates.length, s'.parents v = s.parents v
  new : ∀ v ∈ done, s'.parents (m v) = ((c.parents v).map m).reverse

theorem getElem?_of_mem_split {α : Type} (a : List α) (v : α) (b : List α) :
    (a ++ v :: b)[a.length]? = some v := by simp

theorem inlineGates_spec (s c : Base G) (hs : EdgesIn s) (rest done : List Nat) (t : Base G)
    (m : Nat → Nat) (hnd : (done ++ rest).Nodup) (hv : ∀ v ∈ rest, v < c.gates.length)
    (htopo : ∀ a v b, done ++ rest = a ++ v :: b → ∀ u ∈ c.parents v, u ∈ a)
    (h : Copied s c t m done) :
    ∃ s' m', inlineGates c rest t m = some (s', m') ∧ Copied s c s' m' (done ++ rest) := by
  induction rest generalizing done t m with
  | nil => exact ⟨t, m, rfl, by simpa using h⟩
  | cons v rest ih =>
    have hvl := hv v List.mem_cons_self
    obtain ⟨g, hg⟩ : ∃ g, c.gates[v]? = some g := ⟨_, List.getElem?_eq_getElem hvl⟩
    obtain ⟨a1, a2, a3, -⟩ := addGate_gates t (conv g)
    have hvd : v ∉ done := by
      intro hc
      rw [List.nodup_append] at hnd
      exact hnd.2.2 v hc v (by simp) rfl
    have hpar : ∀ u ∈ c.parents v, u ∈ done := htopo done v rest rfl
    let m1 : Nat → Nat := fun u => if u = v then t.gates.length else m u
    have hm1 : ∀ u ∈ done, m1 u = m u := by
      intro u hu
      have : u ≠ v := by rintro rfl; exact hvd hu
      simp [m1, this]
    have hlt : ∀ u ∈ done, m u < t.gates.length := by
      intro u hu
      obtain ⟨j, hj⟩ := List.mem_iff_getElem?.1 hu
      rw [h.map j u hj, h.length]
      have := (List.getElem?_eq_some_iff.1 hj).1
      omega
    have hpm : (c.parents v).map m1 = (c.parents v).map m :=
      List.map_congr_left fun u hu => hm1 u (hpar u hu)
    obtain ⟨t2, ht2⟩ : ∃ t2, ((c.parents v).map m1).foldlM
        (fun s p => s.addWire p t.gates.length) (t.addGate (conv g)).1 = some t2 := by
      rw [hpm]
      have : ∀ (l : List Nat) (x : Base G), x.gates.length = t.gates.length + 1 →
          (∀ u ∈ l, u < t.gates.length) →
          ∃ t2, l.foldlM (fun s p => Base.addWire s p t.gates.length) x = some t2 := by
        intro l
        induction l with
        | nil => intro x _ _; exact ⟨x, rfl⟩
        | cons p l ih2 =>
          intro x hx hl
          have hp := hl p List.mem_cons_self
          obtain ⟨t2, h2⟩ := ih2 { x with edges := x.edges ++ [(p, t.gates.length)] } hx
            (fun u hu => hl u (List.mem_cons_of_mem _ hu))
          refine ⟨t2, ?_⟩
          have : x.addWire p t.gates.length =
              some { x with edges := x.edges ++ [(p, t.gates.length)] } := by
            simp [Base.addWire, hx]; omega
          simp [List.foldlM_cons, this, h2]
      apply this _ _ (by rw [a1]; simp)
      intro u hu
      simp only [List.mem_map] at hu
      obtain ⟨x, hx, rfl⟩ := hu
      exact hlt x (hpar x hx)
    obtain ⟨b1, -, b3⟩ := foldWires_spec _ _ _ _ ht2
    have hgates : t2.gates = t.gates ++ [conv g] := by rw [b3]; exact a1
    have hedges : t2.edges = t.edges ++ ((c.parents v).map m).map fun s => (s, t.gates.length) := by
      rw [b3, hpm, a2]
    have hold : ∀ x < t.gates.length, t2.parents x = t.parents x := by
      intro x hx
      have := parents_append_other t (((c.parents v).map m).map fun s => (s, t.gates.length)) x (by
        intro e he
        simp only [List.mem_map] at he
        obtain ⟨y, -, rfl⟩ := he
        simp only; omega)
      rw [← this]
      simp only [Base.parents, hedges]
    have hnew : t2.parents t.gates.length = ((c.parents v).map m).reverse := by
      simp only [Base.parents, hedges, List.reverse_append, List.filter_append, List.map_append]
      have e2 : t.edges.reverse.filter (fun e => decide (e.2 = t.gates.length)) = [] := by
        rw [List.filter_eq_nil_iff]
        intro e hh
        have := h.edges e (by simpa using hh)
        simp; omega
      rw [e2, ← List.map_reverse, List.filter_eq_self.2 (by simp)]
      simp [Function.comp_def]
    obtain ⟨s', m', e', hc'⟩ := ih (done ++ [v]) t2 m1 (by simpa using hnd)
      (fun x hx => hv x (List.mem_cons_of_mem _ hx)) (by simpa using htopo) (by
        refine ⟨?_, ?_, ?_, ?_, ?_, ?_⟩
        · rw [hgates, h.gates, List.filterMap_append]
          simp [hg]
        · rw [hgates]; simp [h.length]; omega
        · intro e he
          rw [hgates]
          rw [hedges, List.mem_append] at he
          simp only [List.length_append, List.length_singleton]
          rcases he with he | he
          · have := h.edges e he; omega
          · simp only [List.mem_map] at he
            obtain ⟨y, ⟨x, hx, rfl⟩, rfl⟩ := he
            have := hlt x (hpar x hx)
            simp only; omega
        · intro j u hj
          by_cases hjl : j < done.length
          · rw [List.getElem?_append_left hjl] at hj
            rw [hm1 u (List.mem_iff_getElem?.2 ⟨j, hj⟩)]
            exact h.map j u hj
          · have := (List.getElem?_eq_some_iff.1 hj).1
            simp only [List.length_append, List.length_singleton] at this
            have hj' : j = done.length := by omega
            subst hj'
            simp only [List.getElem?_append_right (Nat.le_refl _), Nat.sub_self,
              List.getElem?_cons_zero, Option.some.injEq] at hj
            subst hj
            simp [m1, h.length]
        · intro x hx
          rw [hold x (by rw [h.length]; omega), h.old x hx]
        · intro x hx
          have hmp : ∀ y, (∀ u ∈ c.parents y, u ∈ done) → (c.parents y).map m1 = (c.parents y).map m :=
            fun y hy => List.map_congr_left fun u hu => hm1 u (hy u hu)
          rcases List.mem_append.1 hx with hx | hx
          · rw [hm1 x hx, hold _ (hlt x hx), h.new x hx]
            have : ∀ u ∈ c.parents x, u ∈ done := by
              intro u hu
              obtain ⟨a, b, hab⟩ := List.append_of_mem hx
              have := htopo a x (b ++ v :: rest) (by rw [hab]; simp) u hu
              rw [hab]; exact List.mem_append_left _ this
            rw [hmp x this]
          · simp only [List.mem_singleton] at hx
            subst hx
            have : m1 x = t.gates.length := by simp [m1]
            rw [this, hnew, hmp x hpar])
    refine ⟨s', m', ?_, by simpa using hc'⟩
    simp only [inlineGates, hg, Option.bind_eq_bind, Option.bind_some, a3]
    rw [ht2]
    exact e'

theorem wireInputs_spec (ps : List (Nat × Nat)) (s : Base G)
    (h : ∀ p ∈ ps, p.1 < s.gates.length ∧ p.2 < s.gates.length) :
    wireInputs s ps = some { s with edges := s.edges ++ ps } := by
  induction ps generalizing s with
  | nil => simp [wireInputs]
  | cons p ps ih =>
    obtain ⟨f, t⟩ := p
    have hp := h (f, t) List.mem_cons_self
    have : s.addWire f t = some { s with edges := s.edges ++ [(f, t)] } := by
      simp [Base.addWire, hp.1, hp.2]
    simp only [wireInputs, this, Option.bind_eq_bind, Option.bind_some]
    rw [ih { s with edges := s.edges ++ [(f, t)] } (fun q hq => h q (List.mem_cons_of_mem _ hq))]
    simp

theorem inlineGates_book {c : Base G} {vs : List Nat} {s s' : Base G} {m m' : Nat → Nat}
    (h : inlineGates c vs s m = some (s', m')) : (BookOk s → BookOk s') ∧ s'.simdSize = s.simdSize := by
  induction vs generalizing s m with
  | nil =>
    simp only [inlineGates, Option.some.injEq, Prod.mk.injEq] at h
    rw [h.1]
    exact ⟨id, rfl⟩
  | cons v vs ih =>
    simp only [inlineGates, Option.bind_eq_bind, Option.bind_eq_some_iff] at h
    obtain ⟨g, -, t, ht, h2⟩ := h
    obtain ⟨i1, i2⟩ := ih h2
    obtain ⟨-, -, rfl⟩ := foldWires_spec _ _ _ _ ht
    refine ⟨fun hb => i1 ?_, ?_⟩
    · have := bookOk_addGate hb (conv g)
      exact ⟨this.1, this.2, this.3, this.4, this.5⟩
    · rw [i2]
      exact (addGate_gates s (conv g)).2.2.2

/-! ### Theorems -/

/-- What `add_sub_circuit` builds, exactly: existing gates keep their operands, every gate of the
sub-circuit is copied (inputs and outputs as identities) with its operands **in reverse order**,
and the given gates become the operands of the sub-circuit inputs. -/
theorem add_sub_circuit_structure (s c : Base G) (rank : Nat → Nat) (hs : EdgesIn s) (w : SubOk c rank)
    (inputs : List Nat) (hin : ∀ i ∈ inputs, i < s.gates.length)
    (hlen : c.scInputGates.length ≤ inputs.length) :
    ∃ s' m, s.addSubCircuit c inputs = some (s', c.scOutputGates.map m) ∧
      s.gates <+: s'.gates ∧ (∀ v < s.gates.length, s'.parents v = s.parents v) ∧
      (∀ (v : Nat) (g : G), c.gates[v]? = some g →
        s.gates.length ≤ m v ∧ s'.gates[m v]? = some (conv g) ∧
        (v ∉ c.scInputGates → s'.parents (m v) = ((c.parents v).map m).reverse)) ∧
      (∀ (j v i : Nat), c.scInputGates[j]? = some v → inputs[j]? = some i → s'.parents (m v) = [i]) ∧
      (∀ u v, u < c.gates.length → v < c.gates.length → m u = m v → u = v) ∧
      s'.gates.length = s.gates.length + c.gates.length ∧ EdgesIn s' ∧
      (∀ i, s.gates.length ≤ i → i < s'.gates.length → ∃ v < c.gates.length, m v = i) ∧
      (BookOk s → BookOk s') ∧ s'.simdSize = s.simdSize := by
  obtain ⟨L, eL, hnd, hall, htopo⟩ := iterIds_spec w
  obtain ⟨t, m, e, hc⟩ := inlineGates_spec s c hs L [] s (fun _ => 0) (by simpa using hnd)
    (fun v hv => (hall v).1 hv) (by simpa using htopo)
    ⟨by simp, by simp, hs, by simp, fun _ _ => rfl, by simp⟩
  simp only [List.nil_append] at hc
  have hidx : ∀ v < c.gates.length, ∃ j, L[j]? = some v ∧ m v = s.gates.length + j := by
    intro v hv
    obtain ⟨j, hj⟩ := List.mem_iff_getElem?.1 ((hall v).2 hv)
    exact ⟨j, hj, hc.map j v hj⟩
  have hmlt : ∀ v < c.gates.length, m v < t.gates.length := by
    intro v hv
    obtain ⟨j, hj, e⟩ := hidx v hv
    rw [e, hc.length]
    have := (List.getElem?_eq_some_iff.1 hj).1
    omega
  have hinj : ∀ u v, u < c.gates.length → v < c.gates.length → m u = m v → u = v := by
    intro u v hu hv huv
    obtain ⟨j, hj, e1⟩ := hidx u hu
    obtain ⟨k, hk, e2⟩ := hidx v hv
    have : j = k := by omega
    subst this
    rw [hj] at hk
    exact Option.some.inj hk
  have hbnd : ∀ v ∈ c.scInputGates, v < c.gates.length := fun v hv => w.bound v (by simp [hv])
  have hwire := wireInputs_spec (inputs.zip (c.scInputGates.map m)) t (by
    rintro ⟨f, x⟩ hp
    obtain ⟨h1, h2⟩ := List.of_mem_zip hp
    simp only [List.mem_map] at h2
    obtain ⟨v, hv, rfl⟩ := h2
    refine ⟨?_, hmlt v (hbnd v hv)⟩
    have := hin f h1
    rw [hc.length]; simp only; omega)
  have hL : L.length = c.gates.length := by
    have h1 := nodup_bound_length L _ hnd fun v hv => (hall v).1 hv
    have h2 := List.Subperm.length_le (List.subperm_of_subset List.nodup_range
      (fun v hv => (hall v).2 (List.mem_range.1 hv)))
    simp only [List.length_range] at h2
    omega
  have hpz : ∀ (l : List (Nat × Nat)) v, (∀ e ∈ l, e.2 ≠ v) →
      ({ t with edges := t.edges ++ l } : Base G).parents v = t.parents v :=
    fun l v h => parents_append_other t l v h
  refine ⟨{ t with edges := t.edges ++ inputs.zip (c.scInputGates.map m) }, m, ?_, ?_, ?_, ?_, ?_, hinj,
    by simp [hc.length, hL], ?_, ?_, ?_, (inlineGates_book e).2⟩
  · simp only [Base.addSubCircuit, w.notMain, w.noInputs, and_self, if_true, eL, Option.bind_eq_bind,
      Option.bind_some, e, hwire, hlen, Option.pure_def]
  · simp only [hc.gates]; exact List.prefix_append _ _
  · intro v hv
    rw [hpz _ _ ?_, hc.old v hv]
    rintro ⟨f, x⟩ hp hx
    obtain ⟨-, h2⟩ := List.of_mem_zip hp
    simp only [List.mem_map] at h2
    obtain ⟨u, hu, rfl⟩ := h2
    obtain ⟨j, -, e⟩ := hidx u (hbnd u hu)
    simp only at hx
    omega
  · intro v g hg
    have hv := (List.getElem?_eq_some_iff.1 hg).1
    obtain ⟨j, hj, e⟩ := hidx v hv
    refine ⟨by omega, ?_, ?_⟩
    · simp only [hc.gates]
      have hgs : ∀ l : List Nat, (∀ v ∈ l, v < c.gates.length) → ∀ (j v : Nat) , l[j]? = some v →
          ∀ g, c.gates[v]? = some g →
          (l.filterMap fun v => (c.gates[v]?).map conv)[j]? = some (conv g) := by
        intro l
        induction l with
        | nil => intro _ j v h; simp at h
        | cons x l ih =>
          intro hl j v hjv g hg
          have hx := hl x List.mem_cons_self
          rw [List.filterMap_cons, List.getElem?_eq_getElem hx, Option.map_some]
          cases j with
          | zero =>
            simp only [List.getElem?_cons_zero, Option.some.injEq] at hjv
            subst hjv
            rw [List.getElem?_eq_getElem hx, Option.some.injEq] at hg
            simp [hg]
          | succ j =>
            simp only [List.getElem?_cons_succ] at hjv ⊢
            exact ih (fun v hv => hl v (List.mem_cons_of_mem _ hv)) j v hjv g hg
      rw [e, List.getElem?_append_right (by omega)]
      rw [Nat.add_sub_cancel_left]
      exact hgs L (fun v hv => (hall v).1 hv) j v hj g hg
    · intro hni
      rw [hpz _ _ ?_, hc.new v ((hall v).2 hv)]
      rintro ⟨f, x⟩ hp hx
      obtain ⟨-, h2⟩ := List.of_mem_zip hp
      simp only [List.mem_map] at h2
      obtain ⟨u, hu, rfl⟩ := h2
      exact hni (hinj u v (hbnd u hu) hv hx ▸ hu)
  · intro j v i hj hi
    have hv : v ∈ c.scInputGates := List.mem_iff_getElem?.2 ⟨j, hj⟩
    have hvl := hbnd v hv
    have hp0 : t.parents (m v) = [] := by
      rw [hc.new v ((hall v).2 hvl), (w.sources v hvl).2 (by simp [hv])]
      rfl
    have hnodup : c.scInputGates.Nodup := (List.nodup_append.1 w.nodup).2.1
    simp only [Base.parents] at hp0 ⊢
    rw [List.reverse_append, List.filter_append, List.map_append, hp0, List.append_nil]
    have gen : ∀ (sc ins : List Nat), sc.Nodup → (∀ v ∈ sc, v < c.gates.length) →
        ∀ (j v i : Nat), sc[j]? = some v → ins[j]? = some i →
        (ins.zip (sc.map m)).filter (fun e => decide (e.2 = m v)) = [(i, m v)] := by
      intro sc
      induction sc with
      | nil => intro ins _ _ j v i h; simp at h
      | cons x sc ih =>
        intro ins hn hb j v i hj hi
        cases ins with
        | nil => simp at hi
        | cons y ins =>
          rw [List.nodup_cons] at hn
          simp only [List.map_cons, List.zip_cons_cons, List.filter_cons]
          cases j with
          | zero =>
            simp only [List.getElem?_cons_zero, Option.some.injEq] at hj hi
            subst hj hi
            simp only [decide_true, if_true, List.cons.injEq, true_and]
            rw [List.filter_eq_nil_iff]
            rintro ⟨f, z⟩ hp
            obtain ⟨-, h2⟩ := List.of_mem_zip hp
            simp only [List.mem_map] at h2
            obtain ⟨u, hu, rfl⟩ := h2
            simp only [decide_eq_true_eq]
            intro hmm
            have := hinj u x (hb u (by simp [hu])) (hb x (by simp)) hmm
            subst this
            exact hn.1 hu
          | succ j =>
            simp only [List.getElem?_cons_succ] at hj hi
            have hvm : v ∈ sc := List.mem_iff_getElem?.2 ⟨j, hj⟩
            have : m x ≠ m v := by
              intro hmm
              have := hinj x v (hb x (by simp)) (hb v (by simp [hvm])) hmm
              subst this
              exact hn.1 hvm
            rw [if_neg (by simpa using this)]
            exact ih ins hn.2 (fun v hv => hb v (by simp [hv])) j v i hj hi
    have := gen c.scInputGates inputs hnodup hbnd j v i hj hi
    rw [List.filter_reverse, this]
    rfl
  · intro x hx
    rcases List.mem_append.1 hx with hx | hx
    · exact hc.edges x hx
    · obtain ⟨h1, h2⟩ := List.of_mem_zip (show (x.1, x.2) ∈ _ from hx)
      simp only [List.mem_map] at h2
      obtain ⟨u, hu, e⟩ := h2
      have := hin x.1 h1
      refine ⟨?_, by rw [← e]; exact hmlt u (hbnd u hu)⟩
      simp only [hc.length]; omega
  · intro i h1 h2
    simp only [hc.length] at h2
    have hj : i - s.gates.length < L.length := by omega
    refine ⟨L[i - s.gates.length], (hall _).1 (List.getElem_mem hj), ?_⟩
    rw [hc.map (i - s.gates.length) _ (List.getElem?_eq_getElem hj)]
    omega
  · intro hb
    have := (inlineGates_book e).1 hb
    exact ⟨this.1, this.2, this.3, this.4, this.5⟩

/-- **C14**, partial: inlining a sub-circuit preserves its function for gates whose result does
not depend on the order of their operands (all Boolean gates): in every evaluation of the
resulting circuit the copied gates form an evaluation of the sub-circuit on the values of the
given gates, and the returned gates carry its outputs.  Missing: gates for which the order
matters, where the claim is false (`inlined_sub_swaps_operands`). -/
theorem add_sub_circuit_correct_partial {β : Type} (S : Semantics G β)
    (hcomm : ∀ g x ops, S.sem g x ops.reverse ↔ S.sem g x ops)
    (s c : Base G) (rank : Nat → Nat) (hs : EdgesIn s) (w : SubOk c rank)
    (hkind : ∀ (v : Nat) (g : G), c.gates[v]? = some g →
      (v ∈ c.scInputGates ↔ asBase g = some .subCircuitInput))
    (hout : ∀ (v : Nat) (g : G), c.gates[v]? = some g → asBase g = some .subCircuitOutput →
      ∃ u, c.parents v = [u])
    (inputs : List Nat) (hin : ∀ i ∈ inputs, i < s.gates.length)
    (hlen : c.scInputGates.length ≤ inputs.length) :
    ∃ s' outs, s.addSubCircuit c inputs = some (s', outs) ∧ EdgesIn s' ∧
      s.gates <+: s'.gates ∧ (∀ v < s.gates.length, s'.parents v = s.parents v) ∧
      ∀ val, Evaluates S s' val → Evaluates S s val ∧
        ∃ sub, EvaluatesSub S c (inputs.map val) sub ∧ outs.map val = c.scOutputGates.map sub := by
  obtain ⟨s', m, e, hpre, hold, hnew, hsc, hinj, -, hE, -⟩ :=
    add_sub_circuit_structure s c rank hs w inputs hin hlen
  refine ⟨s', _, e, hE, hpre, hold, ?_⟩
  intro val hval
  refine ⟨?_, fun v => val (m v), ⟨?_, ?_⟩, by simp⟩
  · intro v g hg
    have hl := (List.getElem?_eq_some_iff.1 hg).1
    have := hval v g (by
      obtain ⟨x, hx⟩ := hpre
      rw [← hx, List.getElem?_append_left hl]; exact hg)
    rwa [hold v hl] at this
  · intro v g hg hne
    obtain ⟨-, h1, h2⟩ := hnew v g hg
    have h3 := h2 (fun hm => hne ((hkind v g hg).1 hm))
    have h4 := hval (m v) _ h1
    rw [h3, List.map_reverse, hcomm, List.map_map] at h4
    by_cases ho : asBase g = some .subCircuitOutput
    · obtain ⟨u, hu⟩ := hout v g hg ho
      rw [hu] at h4 ⊢
      have hcv : conv g = wrapBase .identity := by simp [conv, ho]
      rw [hcv] at h4
      exact (S.scOutput g ho _ _).2 ((S.identity _ _).1 h4)
    · have hcv : conv g = g := by
        unfold conv
        split
        · exact absurd ‹_› hne
        · exact absurd ‹_› ho
        · rfl
      rw [hcv] at h4
      exact h4
  · apply List.ext_getElem?
    intro j
    rw [List.getElem?_map, ← List.map_take, List.getElem?_map]
    cases hj : c.scInputGates[j]? with
    | none =>
      have : c.scInputGates.length ≤ j := List.getElem?_eq_none_iff.1 hj
      rw [List.getElem?_eq_none (by simp; omega)]; rfl
    | some v =>
      have hjl := (List.getElem?_eq_some_iff.1 hj).1
      obtain ⟨i, hi⟩ : ∃ i, inputs[j]? = some i := ⟨_, List.getElem?_eq_getElem (by omega)⟩
      rw [List.getElem?_take_of_lt hjl, hi]
      have hv : v ∈ c.scInputGates := List.mem_iff_getElem?.2 ⟨j, hj⟩
      obtain ⟨g, hg⟩ : ∃ g, c.gates[v]? = some g :=
        ⟨_, List.getElem?_eq_getElem (w.bound v (by simp [hv]))⟩
      have h4 := hval (m v) _ (hnew v g hg).2.1
      have hcv : conv g = wrapBase .identity := by simp [conv, (hkind v g hg).1 hv]
      rw [hsc j v i hj hi, hcv] at h4
      simp only [List.map_cons, List.map_nil] at h4
      rw [Option.map_some, Option.map_some, (S.identity _ _).1 h4]


/-! ### Boolean gates -/

/-- The Boolean functions of the gates. -/
def boolSem : Semantics BoolGate Bool where
  sem g x ops :=
    match g, ops with
    | .and, [a, b] => x = (a && b)
    | .xor, [a, b] => x = (a ^^ b)
    | .inv, [a] => x = !a
    | .base (.constant v), [] => x = v
    | .base .input, [] => True
    | .base (.constant _), _ | .base .input, _ => False
    | .base .subCircuitInput, [] => True
    | .base _, [a] => x = a
    | _, _ => False
  identity := by intro x y; rfl
  scOutput := by
    intro g hg x y
    cases g with
    | base b =>
      have : b = .subCircuitOutput := by simpa [asBase] using hg
      subst this; rfl
    | _ => simp [asBase] at hg

theorem boolSem_comm (g : BoolGate) (x : Bool) (ops : List Bool) :
    boolSem.sem g x ops.reverse ↔ boolSem.sem g x ops := by
  match ops with
  | [] => rfl
  | [a] => rfl
  | [a, b] =>
    cases g with
    | base k => cases k <;> rfl
    | and => simp [boolSem, Bool.and_comm]
    | xor => simp [boolSem, Bool.xor_comm]
    | inv => rfl
  | a :: b :: c :: r =>
    have h : 3 ≤ (a :: b :: c :: r).reverse.length := by simp
    generalize (a :: b :: c :: r).reverse = l at h
    match l, h with
    | x :: y :: z :: l, _ => cases g with
      | base k => cases k <;> rfl
      | _ => rfl

deriving instance DecidableEq for Base

/-- A one-bit multiplexer as sub-circuit. -/
def muxCirc : Base BoolGate where
  gates := [.base .subCircuitInput, .base .subCircuitInput, .base .subCircuitInput, .xor, .and, .xor,
    .base .subCircuitOutput]
  edges := [(2, 3), (1, 3), (3, 4), (0, 4), (2, 5), (4, 5), (5, 6)]
  interactiveCount := 1
  scOutputGates := [6]
  scInputGates := [0, 1, 2]

def threeInputs : Base BoolGate where
  gates := [.base .input, .base .input, .base .input]
  inputGates := [0, 1, 2]

/-- The hypotheses of `add_sub_circuit_correct_partial` are met by the multiplexer, which can be
inlined twice. -/
example : runCalls ({} : Base BoolGate) [.scInput (.base .subCircuitInput),
      .scInput (.base .subCircuitInput), .scInput (.base .subCircuitInput),
      .wired .xor [1, 2], .wired .and [0, 3], .wired .xor [4, 2],
      .wired (.base .subCircuitOutput) [5]] = some muxCirc ∧ SubOk muxCirc id ∧
    EdgesIn threeInputs ∧
    ((threeInputs.addSubCircuit muxCirc [0, 1, 2]).bind
      fun r => r.1.addSubCircuit muxCirc [9, 1, 0]).map (·.2) = some [16] := by
  refine ⟨by decide +kernel, ⟨rfl, rfl, ?_, ?_, ?_, ?_, ?_⟩, ?_, by decide +kernel⟩ <;>
    first | (unfold EdgesIn; decide +kernel) | decide +kernel

/-! ### The order matters for subtraction -/

/-- arithmetic_gmw.rs:16-31 `ArithmeticGate` with its base gates. -/
inductive ArithGate where
  | base (g : BaseGate (BitVec 8))
  | op (g : Arith.Gate)
deriving DecidableEq, Repr

/-- arithmetic_gmw.rs `impl Gate for ArithmeticGate`. -/
instance : GateLike ArithGate where
  Plain := BitVec 8
  interactive
    | .op .mul => true
    | _ => false
  asBase
    | .base b => some b
    | _ => none
  wrapBase := .base

/-- The functions of the arithmetic gates on `u8`. -/
def arithSem : Semantics ArithGate (BitVec 8) where
  sem g x ops :=
    match g, ops with
    | .op .sub, [a, b] => x = a - b
    | .op .add, [a, b] => x = a + b
    | .op .mul, [a, b] => x = a * b
    | .base (.constant v), [] => x = v
    | .base .input, [] => True
    | .base (.constant _), _ | .base .input, _ => False
    | .base _, [a] => x = a
    | _, _ => False
  identity := by intro x y; rfl
  scOutput := by
    intro g hg x y
    cases g with
    | base b =>
      have : b = .subCircuitOutput := by simpa [asBase] using hg
      subst this; rfl
    | op _ => simp [asBase] at hg

/-- A sub-circuit computing the difference of its two inputs. -/
def subCirc : Base ArithGate where
  gates := [.base .subCircuitInput, .base .subCircuitInput, .op .sub, .base .subCircuitOutput]
  edges := [(1, 2), (0, 2), (2, 3)]
  scOutputGates := [3]
  scInputGates := [0, 1]

def twoInputs : Base ArithGate where
  gates := [.base .input, .base .input]
  inputGates := [0, 1]

/-- The circuit `add_sub_circuit` makes of them. -/
def inlinedSub : Base ArithGate where
  gates := [.base .input, .base .input, .base .identity, .base .identity, .op .sub, .base .identity]
  edges := [(2, 4), (3, 4), (4, 5), (0, 2), (1, 3)]
  inputGates := [0, 1]

/-- The claim C14 fails for subtraction: the inlined circuit computes `y - x` instead of `x - y`. -/
theorem inlined_sub_swaps_operands :
    runCalls {} [.scInput (.base .subCircuitInput), .scInput (.base .subCircuitInput),
      .wired (.op .sub) [0, 1], .wired (.base .subCircuitOutput) [2]] = some subCirc ∧
    SubOk subCirc id ∧
    runCalls {} [.gate (.base .input), .gate (.base .input)] = some twoInputs ∧
    twoInputs.addSubCircuit subCirc [0, 1] = some (inlinedSub, [5]) ∧
    (∀ ins sub, EvaluatesSub arithSem subCirc ins sub → ∀ x y, ins = [x, y] → sub 3 = x - y) ∧
    (∀ val, Evaluates arithSem inlinedSub val → val 5 = val 1 - val 0) ∧
    (∃ val, Evaluates arithSem inlinedSub val ∧ val 0 = 5 ∧ val 1 = 3) := by
  refine ⟨by decide +kernel, ⟨rfl, rfl, ?_, ?_, ?_, ?_, ?_⟩, by decide +kernel, by decide +kernel, ?_, ?_, ?_⟩
  · unfold EdgesIn; decide +kernel
  · decide +kernel
  · decide +kernel
  · decide +kernel
  · decide +kernel
  · rintro ins sub h x y rfl
    have h3 : sub 3 = sub 2 := h.gates 3 _ rfl (by simp [asBase])
    have h2 : sub 2 = sub 0 - sub 1 := h.gates 2 _ rfl (by simp [asBase])
    have hi : [sub 0, sub 1] = [x, y] := h.inputs
    simp only [List.cons.injEq, and_true] at hi
    rw [h3, h2, hi.1, hi.2]
  · intro val h
    have h5 : val 5 = val 4 := h 5 _ rfl
    have h4 : val 4 = val 3 - val 2 := h 4 _ rfl
    have h3 : val 3 = val 1 := h 3 _ rfl
    have h2 : val 2 = val 0 := h 2 _ rfl
    show val 5 = _
    rw [h5, h4, h3, h2]
  · refine ⟨fun v => [5, 3, 5, 3, 254, 254].getD v 0, ?_, rfl, rfl⟩
    intro v g hg
    have hv : v < 6 := (List.getElem?_eq_some_iff.1 hg).1
    match v, hv with
    | 0, _ => cases hg; trivial
    | 1, _ => cases hg; trivial
    | 2, _ => cases hg; rfl
    | 3, _ => cases hg; rfl
    | 4, _ => cases hg; rfl
    | 5, _ => cases hg; rfl

end Verif.Circuit
