import Verif.Fuse.Alone
import Verif.Mixed.A2bProps

/-!
Inlining a sub-circuit of the mixed protocol.
-/
set_option autoImplicit false

namespace Verif.Fuse

open Circuit Mixed Adder Exec
open Gmw (BoolGate BaseGate)

variable {w : Nat}

theorem alone_get (c : Base (Gate w)) (v : Nat) : (alone c).gates[v]? = (c.gates[v]?).map aloneGate := by
  simp [alone]

theorem alone_parents (c : Base (Gate w)) (v : Nat) : (alone c).parents v = c.parents v := rfl

theorem alone_length (c : Base (Gate w)) : (alone c).gates.length = c.gates.length := by simp [alone]

theorem alone_input {g : Gate w} (h : subGate g = true) : aloneGate g = .base .input ↔ g = .base .subCircuitInput := by
  cases g with
  | base b => cases b <;> simp [subGate] at h <;> simp [aloneGate]
  | _ => simp [aloneGate]

theorem alone_asBase {g : Gate w} : asBase (aloneGate g) = some .input ↔ aloneGate g = .base .input := by
  generalize aloneGate g = x
  cases x <;> simp [asBase]

/-- The sub-circuit inputs are known to the book-keeping. -/
theorem mem_scInputs {c : Base (Gate w)} (hb : BookOk (alone c)) (sub : ∀ g ∈ c.gates, subGate g = true) {v : Nat} {g : Gate w}
    (hg : c.gates[v]? = some g) : v ∈ c.scInputGates ↔ g = .base .subCircuitInput := by
  have h := hb.inputs
  change c.scInputGates = _ at h
  rw [h, mem_positions']
  simp only [alone_get, hg, Option.map_some, Option.some.injEq, exists_eq_left']
  rw [← alone_input (sub g (List.mem_of_getElem? hg))]
  cases aloneGate g with
  | base b => cases b <;> simp [ofKind, asBase]
  | _ => simp [ofKind, asBase]

theorem alone_subOk {c : Base (Gate w)} {rank : Nat → Nat} (h : SingleOk (alone c) rank) (hc : SubCirc c) :
    SubOk c rank ∧
    (∀ (v : Nat) (g : Gate w), c.gates[v]? = some g → (v ∈ c.scInputGates ↔ asBase g = some .subCircuitInput)) ∧
    (∀ (v : Nat) (g : Gate w), c.gates[v]? = some g → v ∉ c.scInputGates →
      (c.parents v = [] ↔ isSource g = true) ∧ isCross g = false) := by
  have sub : ∀ g ∈ c.gates, subGate g = true := fun g hg => okGate_sub (hc.gates g hg)
  have wf := single_wf h
  have hin : initial 0 (alone c) = c.constantGates ++ c.scInputGates := by
    simp [initial, alone]
  have hsrc : ∀ (v : Nat) (g : Gate w), c.gates[v]? = some g → (c.parents v = [] ↔ isSource (aloneGate g) = true) := by
    intro v g hg
    exact h.sources v _ (by rw [alone_get, hg]; rfl)
  refine ⟨⟨hc.notMain, hc.noInputs, ?_, h.rank, ?_, ?_, ?_⟩, ?_, ?_⟩
  · intro e he
    have := h.edges e he
    rwa [alone_length] at this
  · have := wf.initNodup 0 (alone c) (by simp [Multi.ofBase])
    rw [hin] at this
    exact this
  · intro g hg
    have := (mem_initial h.book g).1 (by rw [hin]; exact hg)
    obtain ⟨x, hx, -⟩ := this
    rw [← alone_length]
    exact (List.getElem?_eq_some_iff.1 hx).1
  · intro g hg
    rw [hsrc g _ (List.getElem?_eq_getElem hg)]
    have := mem_initial h.book g
    rw [hin, alone_get, List.getElem?_eq_getElem hg] at this
    simp only [Option.map_some, Option.some.injEq, exists_eq_left', List.mem_append] at this
    rw [← this, List.mem_append]
  · intro v g hg
    rw [mem_scInputs h.book sub hg]
    cases g <;> simp [asBase]
  · intro v g hg hv
    rw [mem_scInputs h.book sub hg] at hv
    rw [hsrc v g hg]
    have := sub g (List.mem_of_getElem? hg)
    cases g with
    | base b => cases b <;> simp [subGate] at this <;> simp_all [aloneGate, isSource, isCross, asBase]
    | _ => simp [aloneGate, isSource, isCross, asBase]

/-- The summand `a2b` works with. -/
def toA : Val w → BitVec w
  | .arith x => x
  | .bool _ => 0

/-- Inlining a supported sub-circuit gives a well-formed circuit, and the copied gates have the values of the
sub-circuit run on the values of the operands. -/
theorem inline_ok {s c : Base (Gate w)} {ty tyc : Nat → Ty} (h : MOk s ty) (hc : MOk (alone c) tyc) (sc : SubCirc c)
    (inputs : List Nat) (hin : ∀ i ∈ inputs, i < s.gates.length) (hlen : c.scInputGates.length = inputs.length)
    (hty : ∀ (j v i : Nat), c.scInputGates[j]? = some v → inputs[j]? = some i → tyc v = ty i) :
    ∃ s' mp ty' new, s.addSubCircuit c inputs = some (s', c.scOutputGates.map mp) ∧ MOk s' ty' ∧ Ext s ty s' ty' ∧
      s'.gates = s.gates ++ new ∧ (∀ g ∈ new, subGate g = true) ∧
      (∀ v < c.gates.length, mp v < s'.gates.length ∧ ty' (mp v) = tyc v) ∧
      ∀ m, Within s' m → ∀ inp val part, Solves m inp val part →
        ∃ val' part', Solves (.ofBase (alone c)) (inputs.map fun i => val (0, i)) val' part' ∧
          ∀ v < c.gates.length, val' (0, v) = val (0, mp v) := by
  obtain ⟨rank, ok⟩ := h.ok
  obtain ⟨rc, okc⟩ := hc.ok
  obtain ⟨so, hkind, hsrc⟩ := alone_subOk okc sc
  have sub : ∀ g ∈ c.gates, subGate g = true := fun g hg => okGate_sub (sc.gates g hg)
  obtain ⟨s', mp, rank', e, ok', hsimd, hpre, hold, hnew, hinp, hinj, hsur⟩ := single_addSub ok so rfl hkind hsrc inputs hin
    (Nat.le_of_eq hlen)
  have hinv : ∃ inv : Nat → Nat, ∀ v < c.gates.length, inv (mp v) = v := by
    classical
    refine ⟨fun i => if h : ∃ v < c.gates.length, mp v = i then h.choose else 0, ?_⟩
    intro v hv
    have h : ∃ x < c.gates.length, mp x = mp v := ⟨v, hv, rfl⟩
    simp only [h, dif_pos]
    exact hinj _ _ h.choose_spec.1 hv h.choose_spec.2
  obtain ⟨inv, hinv⟩ := hinv
  have hge : ∀ v < c.gates.length, s.gates.length ≤ mp v ∧ mp v < s'.gates.length := fun v hv => by
    obtain ⟨h1, h2, -⟩ := hnew v _ (List.getElem?_eq_getElem hv)
    exact ⟨h1, (List.getElem?_eq_some_iff.1 h2).1⟩
  generalize hty' : (fun i => if i < s.gates.length then ty i else tyc (inv i)) = ty'
  have tnew : ∀ v < c.gates.length, ty' (mp v) = tyc v := by
    intro v hv
    rw [← hty']
    simp only [Nat.not_lt.2 (hge v hv).1, if_false, hinv v hv]
  have told : ∀ i < s.gates.length, ty' i = ty i := by
    intro i hi
    rw [← hty']
    exact if_pos hi
  have hext : Ext s ty s' ty' := ⟨hpre, fun i hi => ⟨hold i hi, told i hi⟩⟩
  have pl : ∀ x, x < c.gates.length → ∀ u ∈ c.parents x, u < c.gates.length := fun x hx u hu =>
    (so.edges _ (edge_of_parent hu)).1
  have convEq : ∀ g : Gate w, subGate g = true → g ≠ .base .subCircuitInput → g ≠ .base .subCircuitOutput →
      conv g = g ∧ aloneGate g = g := by
    intro g hg h1 h2
    cases g with
    | base b => cases b <;> first | exact absurd rfl h1 | exact absurd rfl h2 | exact ⟨rfl, rfl⟩
    | _ => exact ⟨rfl, rfl⟩
  -- operands of a copied gate
  have par1 : ∀ x g, c.gates[x]? = some g → g ≠ .base .subCircuitInput → ∀ p, (Multi.ofBase (alone c)).parents (0, x) = [p] →
      ∃ u, p = (0, u) ∧ u < c.gates.length ∧ s'.parents (mp x) = [mp u] := by
    intro x g hg hne p hp
    have hn := (hnew x g hg).2.2 (fun hm => hne ((mem_scInputs okc.book sub hg).1 hm))
    rw [single_parents, alone_parents] at hp
    have hx := (List.getElem?_eq_some_iff.1 hg).1
    match hc : c.parents x, hp with
    | [u], hp =>
      simp only [List.map_cons, List.map_nil, List.cons.injEq, and_true] at hp
      refine ⟨u, hp.symm, pl x hx u (by simp [hc]), ?_⟩
      rw [hn, hc]; rfl
  have par2 : ∀ x g, c.gates[x]? = some g → g ≠ .base .subCircuitInput → ∀ p q,
      (Multi.ofBase (alone c)).parents (0, x) = [p, q] →
      ∃ u v, p = (0, u) ∧ q = (0, v) ∧ u < c.gates.length ∧ v < c.gates.length ∧ s'.parents (mp x) = [mp v, mp u] := by
    intro x g hg hne p q hp
    have hn := (hnew x g hg).2.2 (fun hm => hne ((mem_scInputs okc.book sub hg).1 hm))
    rw [single_parents, alone_parents] at hp
    have hx := (List.getElem?_eq_some_iff.1 hg).1
    match hc : c.parents x, hp with
    | [u, v], hp =>
      simp only [List.map_cons, List.map_nil, List.cons.injEq, and_true] at hp
      refine ⟨u, v, hp.1.symm, hp.2.symm, pl x hx u (by simp [hc]), pl x hx v (by simp [hc]), ?_⟩
      rw [hn, hc]; rfl
  -- gates
  have gconv : ∀ (x : Nat) (k : Mixed.Conv), (Multi.ofBase (alone c)).gate? (0, x) = some (.conv k) →
      c.gates[x]? = some (.conv k) ∧ s'.gates[mp x]? = some (.conv k) := by
    intro x k hk
    rw [single_gate', alone_get, Option.map_eq_some_iff] at hk
    obtain ⟨g, hg, hgk⟩ := hk
    have : g = .conv k := by
      cases g with
      | base b => cases b <;> simp [aloneGate] at hgk
      | _ => simp [aloneGate] at hgk <;> simp [hgk]
    subst this
    exact ⟨hg, (hnew x _ hg).2.1⟩
  have gconv' : ∀ (x : Nat) (k : Mixed.Conv), x < c.gates.length → s'.gates[mp x]? = some (.conv k) →
      (Multi.ofBase (alone c)).gate? (0, x) = some (.conv k) := by
    intro x k hx hk
    have hg := List.getElem?_eq_getElem hx
    have := (hnew x _ hg).2.1
    rw [hk, Option.some.injEq] at this
    rw [single_gate', alone_get, hg]
    generalize c.gates[x] = g at this
    cases g with
    | base b => cases b <;> simp [conv, asBase, wrapBase] at this
    | _ => simp [conv, asBase] at this <;> simp [aloneGate, this]
  obtain ⟨new, hnews⟩ := hpre
  refine ⟨s', mp, ty', new, e, ⟨⟨rank', ok'⟩, hsimd.trans h.simd, ?_⟩, hext, hnews.symm, ?_, fun v hv => ⟨(hge v hv).2, tnew v hv⟩, ?_⟩
  · -- kinds
    intro i g hg
    by_cases hi : i < s.gates.length
    · rw [prefix_get hext.1 hi] at hg
      exact typed_ext ok.edges hext hi (h.typed i g hg)
    · obtain ⟨x, hx, rfl⟩ := hsur i (by omega) (List.getElem?_eq_some_iff.1 hg).1
      have hg0 := List.getElem?_eq_getElem hx
      generalize hgx : c.gates[x] = g0 at hg0
      obtain ⟨-, n2, -⟩ := hnew x g0 hg0
      rw [n2, Option.some.injEq] at hg
      subst hg
      have ht := hc.typed x (aloneGate g0) (by rw [alone_get, hg0]; rfl)
      have hsg := sub g0 (List.mem_of_getElem? hg0)
      by_cases hi1 : g0 = .base .subCircuitInput
      · have hm := (mem_scInputs okc.book sub hg0).2 hi1
        subst hi1
        obtain ⟨j, hj⟩ := List.mem_iff_getElem?.1 hm
        have hjl := (List.getElem?_eq_some_iff.1 hj).1
        have hij : inputs[j]? = some (inputs[j]'(by omega)) := List.getElem?_eq_getElem (by omega)
        refine ⟨(0, inputs[j]'(by omega)), by rw [single_parents, hinp j x _ hj hij]; rfl, ?_⟩
        simp only [tnew x hx, told _ (hin _ (List.mem_of_getElem? hij))]
        exact hty j x _ hj hij
      · have one : ∀ p, (Multi.ofBase (alone c)).parents (0, x) = [p] → ∃ u, p = (0, u) ∧ u < c.gates.length ∧
            (Multi.ofBase s').parents (0, mp x) = [(0, mp u)] ∧ ty' (mp u) = tyc p.2 := by
          intro p hp
          obtain ⟨u, rfl, h1, h2⟩ := par1 x g0 hg0 hi1 p hp
          exact ⟨u, rfl, h1, by rw [single_parents, h2]; rfl, tnew u h1⟩
        have two : ∀ p q, (Multi.ofBase (alone c)).parents (0, x) = [p, q] → ∃ u v, p = (0, u) ∧ q = (0, v) ∧ u < c.gates.length ∧
            v < c.gates.length ∧
            (Multi.ofBase s').parents (0, mp x) = [(0, mp v), (0, mp u)] ∧ ty' (mp u) = tyc p.2 ∧ ty' (mp v) = tyc q.2 := by
          intro p q hp
          obtain ⟨u, v, rfl, rfl, h1, h2, h3⟩ := par2 x g0 hg0 hi1 p q hp
          exact ⟨u, v, rfl, rfl, h1, h2, by rw [single_parents, h3]; rfl, tnew u h1, tnew v h2⟩
        have tx := tnew x hx
        by_cases hi2 : g0 = .base .subCircuitOutput
        · subst hi2
          obtain ⟨p, hp, t⟩ := ht
          obtain ⟨u, -, -, h2, h3⟩ := one p hp
          exact ⟨_, h2, by simp only [tx, h3]; exact t⟩
        · obtain ⟨c1, c2⟩ := convEq g0 hsg hi1 hi2
          rw [c2] at ht
          rw [c1]
          have hok := okGate_comm (sc.gates g0 (List.mem_of_getElem? hg0))
          cases g0 with
          | base b =>
            cases b with
            | input => simp [subGate] at hsg
            | constant k =>
              simp only [Typed] at ht ⊢
              rw [tx]; exact ht
            | connectToMainFromSimd n => simp [subGate] at hsg
            | _ =>
              obtain ⟨p, hp, t⟩ := ht
              obtain ⟨u, -, -, h2, h3⟩ := one p hp
              exact ⟨_, h2, by simp only [tx, h3]; exact t⟩
          | bool b =>
            cases b with
            | base b => exact absurd ht (by simp [Typed])
            | inv =>
              obtain ⟨p, hp, t, t'⟩ := ht
              obtain ⟨u, -, -, h2, h3⟩ := one p hp
              exact ⟨_, h2, by simp only [h3]; exact t, by simp only [tx]; exact t'⟩
            | _ =>
              obtain ⟨p, q, hp, t1, t2, t'⟩ := ht
              obtain ⟨u, v, -, -, -, -, h2, h3, h4⟩ := two p q hp
              exact ⟨_, _, h2, by simp only [h4]; exact t2, by simp only [h3]; exact t1, by simp only [tx]; exact t'⟩
          | arith b =>
            obtain ⟨p, q, hp, t1, t2, t'⟩ := ht
            obtain ⟨u, v, -, -, -, -, h2, h3, h4⟩ := two p q hp
            exact ⟨_, _, h2, by simp only [h4]; exact t2, by simp only [h3]; exact t1, by simp only [tx]; exact t'⟩
          | conv b =>
            cases b with
            | b2a => exact absurd rfl hok.2
            | select =>
              obtain ⟨a, r, p, hp, ha, hr, hor, t'⟩ := ht
              obtain ⟨u, v, rfl, rfl, hu, hv, h2, -, -⟩ := two a r hp
              have hgu : ∃ k, c.gates[u]? = some (.conv k) := by
                rcases hor with ⟨k1, k2⟩ | ⟨k1, k2⟩
                · exact ⟨_, (gconv u _ k1).1⟩
                · exact ⟨_, (gconv u _ k1).1⟩
              have hgv : ∃ k, c.gates[v]? = some (.conv k) := by
                rcases hor with ⟨k1, k2⟩ | ⟨k1, k2⟩
                · exact ⟨_, (gconv v _ k2).1⟩
                · exact ⟨_, (gconv v _ k2).1⟩
              obtain ⟨ku, hgu⟩ := hgu
              obtain ⟨kv, hgv⟩ := hgv
              obtain ⟨y, rfl, hy, py⟩ := par1 u _ hgu (by simp) p ha
              obtain ⟨z, hz, -, pz⟩ := par1 v _ hgv (by simp) _ hr
              cases hz
              refine ⟨_, _, (0, mp y), h2, by rw [single_parents, pz]; rfl, by rw [single_parents, py]; rfl, ?_, by simp only [tx]; exact t'⟩
              rcases hor with ⟨k1, k2⟩ | ⟨k1, k2⟩
              · right
                exact ⟨by rw [single_gate']; exact (gconv v _ k2).2, by rw [single_gate']; exact (gconv u _ k1).2⟩
              · left
                exact ⟨by rw [single_gate']; exact (gconv v _ k2).2, by rw [single_gate']; exact (gconv u _ k1).2⟩
            | selectBit i =>
              obtain ⟨p, hp, t, hi, t'⟩ := ht
              obtain ⟨u, -, -, h2, h3⟩ := one p hp
              exact ⟨_, h2, by simp only [h3]; exact t, hi, by simp only [tx]; exact t'⟩
            | _ =>
              obtain ⟨p, hp, t, t'⟩ := ht
              obtain ⟨u, -, -, h2, h3⟩ := one p hp
              exact ⟨_, h2, by simp only [h3]; exact t, by simp only [tx]; exact t'⟩
  · -- new gates
    intro g hg
    obtain ⟨j, hj⟩ := List.mem_iff_getElem?.1 hg
    have hjl := (List.getElem?_eq_some_iff.1 hj).1
    have hg' : s'.gates[s.gates.length + j]? = some g := by
      rw [← hnews, List.getElem?_append_right (by omega)]
      simpa using hj
    obtain ⟨x, hx, hxe⟩ := hsur (s.gates.length + j) (by omega) (List.getElem?_eq_some_iff.1 hg').1
    have hg0 := List.getElem?_eq_getElem hx
    rw [← hxe, (hnew x _ hg0).2.1, Option.some.injEq] at hg'
    rw [← hg']
    exact (conv_sub (sub _ (List.getElem_mem hx))).1
  · -- values
    intro m hm inp val part hs
    have sv : ∀ x g, c.gates[x]? = some g → MixedEq m inp val part (0, mp x) (conv g) ∧
        m.parents (0, mp x) = (s'.parents (mp x)).map fun u => (0, u) := by
      intro x g hg
      have hx := (List.getElem?_eq_some_iff.1 hg).1
      obtain ⟨q1, q2⟩ := hm (mp x) (hge x hx).2
      exact ⟨hs (0, mp x) _ (by rw [q1]; exact (hnew x g hg).2.1), q2⟩
    refine ⟨fun v => val (0, mp v.2), fun v => toA (val (0, mp v.2)) - part (0, mp v.2), ?_, fun v _ => rfl⟩
    intro v g hg
    obtain ⟨h0, hgx⟩ := single_gate _ v g hg
    obtain ⟨i, x⟩ := v
    simp only at h0 hgx
    subst h0
    rw [alone_get, Option.map_eq_some_iff] at hgx
    obtain ⟨g0, hg0, rfl⟩ := hgx
    have hx := (List.getElem?_eq_some_iff.1 hg0).1
    obtain ⟨hq, hpm⟩ := sv x g0 hg0
    have ht := hc.typed x (aloneGate g0) (by rw [alone_get, hg0]; rfl)
    have hsg := sub g0 (List.mem_of_getElem? hg0)
    by_cases hi1 : g0 = .base .subCircuitInput
    · have hmem := (mem_scInputs okc.book sub hg0).2 hi1
      subst hi1
      obtain ⟨j, hj, hjm⟩ : ∃ j, c.scInputGates.findIdx? (· = x) = some j ∧ c.scInputGates[j]? = some x := by
        have := List.findIdx?_isSome (xs := c.scInputGates) (p := (· = x))
        have hsome : (c.scInputGates.findIdx? (· = x)).isSome = true := by
          rw [this, List.any_eq_true]
          exact ⟨x, hmem, by simp⟩
        obtain ⟨j, hj⟩ := Option.isSome_iff_exists.1 hsome
        refine ⟨j, hj, ?_⟩
        rw [List.findIdx?_eq_some_iff_getElem] at hj
        obtain ⟨h1, h2, -⟩ := hj
        rw [List.getElem?_eq_getElem h1]
        simpa using h2
      have hjl := (List.getElem?_eq_some_iff.1 hjm).1
      have hij : inputs[j]? = some (inputs[j]'(by omega)) := List.getElem?_eq_getElem (by omega)
      refine ⟨alone c, j, by simp [Multi.ofBase], hj, ?_⟩
      obtain ⟨p, hp, hv⟩ := hq
      rw [hpm, hinp j x _ hjm hij] at hp
      simp only [List.map_cons, List.map_nil, List.cons.injEq, and_true] at hp
      rw [List.getElem?_map, hij, Option.map_some, hp]
      simp only [hv]
    · have one : ∀ p, (Multi.ofBase (alone c)).parents (0, x) = [p] → m.parents (0, mp x) = [(0, mp p.2)] := by
        intro p hp
        obtain ⟨u, rfl, -, h2⟩ := par1 x g0 hg0 hi1 p hp
        rw [hpm, h2]; rfl
      have two : ∀ p q, (Multi.ofBase (alone c)).parents (0, x) = [p, q] →
          m.parents (0, mp x) = [(0, mp q.2), (0, mp p.2)] := by
        intro p q hp
        obtain ⟨u, v, rfl, rfl, -, -, h3⟩ := par2 x g0 hg0 hi1 p q hp
        rw [hpm, h3]; rfl
      by_cases hi2 : g0 = .base .subCircuitOutput
      · subst hi2
        obtain ⟨p, hp, -⟩ := ht
        obtain ⟨q, hq1, hv⟩ := hq
        rw [one p hp] at hq1
        cases hq1
        exact ⟨p, hp, hv⟩
      · obtain ⟨c1, c2⟩ := convEq g0 hsg hi1 hi2
        rw [c1] at hq
        rw [c2] at ht ⊢
        have hok := okGate_comm (sc.gates g0 (List.mem_of_getElem? hg0))
        cases g0 with
        | base b =>
          cases b with
          | input => simp [subGate] at hsg
          | constant k => exact hq
          | connectToMainFromSimd n => simp [subGate] at hsg
          | _ =>
            obtain ⟨p, hp, -⟩ := ht
            obtain ⟨q, hq1, hv⟩ := hq
            rw [one p hp] at hq1
            cases hq1
            exact ⟨p, hp, hv⟩
        | bool b =>
          cases b with
          | base b => exact absurd ht (by simp [Typed])
          | inv =>
            obtain ⟨p, hp, -⟩ := ht
            obtain ⟨q, a, hq1, ha, hv⟩ := hq
            rw [one p hp] at hq1
            cases hq1
            exact ⟨p, a, hp, ha, hv⟩
          | and =>
            obtain ⟨p, q, hp, -⟩ := ht
            obtain ⟨p', q', a, b, hq1, ha, hb, hv⟩ := hq
            rw [two p q hp] at hq1
            cases hq1
            exact ⟨p, q, b, a, hp, hb, ha, by simp only [hv, Bool.and_comm]⟩
          | xor =>
            obtain ⟨p, q, hp, -⟩ := ht
            obtain ⟨p', q', a, b, hq1, ha, hb, hv⟩ := hq
            rw [two p q hp] at hq1
            cases hq1
            exact ⟨p, q, b, a, hp, hb, ha, by simp only [hv, Bool.xor_comm]⟩
        | arith b =>
          cases b with
          | sub => exact absurd rfl hok.1
          | add =>
            obtain ⟨p, q, hp, -⟩ := ht
            obtain ⟨p', q', a, b, hq1, ha, hb, hv⟩ := hq
            rw [two p q hp] at hq1
            cases hq1
            exact ⟨p, q, b, a, hp, hb, ha, by simp only [hv, BitVec.add_comm]⟩
          | mul =>
            obtain ⟨p, q, hp, -⟩ := ht
            obtain ⟨p', q', a, b, hq1, ha, hb, hv⟩ := hq
            rw [two p q hp] at hq1
            cases hq1
            exact ⟨p, q, b, a, hp, hb, ha, by simp only [hv, BitVec.mul_comm]⟩
        | conv b =>
          cases b with
          | b2a => exact absurd rfl hok.2
          | snd => trivial
          | rcv => trivial
          | selectBit i =>
            obtain ⟨p, hp, -⟩ := ht
            obtain ⟨q, a, hq1, ha, hv⟩ := hq
            rw [one p hp] at hq1
            cases hq1
            exact ⟨p, a, hp, ha, hv⟩
          | select =>
            obtain ⟨a, r, p, hp, ha, hr, hor, -⟩ := ht
            obtain ⟨a', r', p', y, hq1, hq2, hy, hv⟩ := hq
            have hab := two a r hp
            rw [hab] at hq1
            simp only [List.cons.injEq, and_true] at hq1
            obtain ⟨rfl, rfl⟩ := hq1
            obtain ⟨u, v, rfl, rfl, hu, hv', -⟩ := par2 x _ hg0 hi1 a r hp
            simp only at hq2 hv
            have gu : ∃ k, c.gates[u]? = some (.conv k) := by
              rcases hor with ⟨k1, k2⟩ | ⟨k1, k2⟩
              · exact ⟨_, (gconv u _ k1).1⟩
              · exact ⟨_, (gconv u _ k1).1⟩
            have gv : ∃ k, c.gates[v]? = some (.conv k) := by
              rcases hor with ⟨k1, k2⟩ | ⟨k1, k2⟩
              · exact ⟨_, (gconv v _ k2).1⟩
              · exact ⟨_, (gconv v _ k2).1⟩
            obtain ⟨ku, hgu⟩ := gu
            obtain ⟨kv, hgv⟩ := gv
            obtain ⟨z, rfl, hz, pz⟩ := par1 v _ hgv (by simp) _ hr
            rw [(sv v _ hgv).2, pz] at hq2
            simp only [List.map_cons, List.map_nil, List.cons.injEq, and_true] at hq2
            subst hq2
            refine ⟨(0, u), (0, v), (0, z), y, hp, ha, hy, ?_⟩
            simp only [hv, hy, toA]
            have mg : m.gate? (0, mp v) = s'.gates[mp v]? := (hm (mp v) (hge v hv').2).1
            rcases hor with ⟨k1, k2⟩ | ⟨k1, k2⟩
            · rw [if_pos k1, mg, (gconv v _ k2).2, if_neg (by simp)]
            · have n1 : (Multi.ofBase (alone c)).gate? (0, u) ≠ some (.conv .snd) := by rw [k1]; simp
              rw [if_neg n1, mg, (gconv v _ k2).2, if_pos rfl]
              congr 1
              generalize part (0, mp z) = q
              rw [BitVec.sub_eq_add_neg y (y - q), BitVec.neg_sub, BitVec.add_comm (-y) q, ← BitVec.sub_eq_add_neg, BitVec.add_comm,
                BitVec.sub_add_cancel]

end Verif.Fuse
