import Verif.Mixed.A2b

/-!
Executing mixed circuits built with `a2b` (C62).
-/
set_option autoImplicit false

namespace Verif.Mixed

open Circuit Proc Exec Adder
open Gmw (BoolGate BaseGate)

variable {w : Nat}

/-! ### Specification -/

/-- Conversions are done one at a time: at each multiplicative depth `d` there is at most one pair of resharing
gates, both on the same operand, and no `B2A` gate at the depth of such a pair. -/
structure OneAtATime (c : Base (Gate w)) (d : Nat → Nat) : Prop where
  snd : ∀ i j : Nat, c.gates[i]? = some (.conv .snd) → c.gates[j]? = some (.conv .snd) → d i = d j → i = j
  rcv : ∀ i j : Nat, c.gates[i]? = some (.conv .rcv) → c.gates[j]? = some (.conv .rcv) → d i = d j → i = j
  pair : ∀ i : Nat, c.gates[i]? = some (.conv .rcv) → ∃ j : Nat, c.gates[j]? = some (.conv .snd) ∧ c.parents j = c.parents i
  b2a : ∀ i j : Nat, c.gates[i]? = some (.conv .rcv) → c.gates[j]? = some (.conv .b2a) → d i ≠ d j

/-! ### Layers -/

theorem countP_le_one {α : Type} (p : α → Bool) (l : List α) (hn : l.Nodup)
    (h : ∀ a ∈ l, ∀ b ∈ l, p a = true → p b = true → a = b) : l.countP p ≤ 1 := by
  induction l with
  | nil => simp
  | cons x l ih =>
    rw [List.nodup_cons] at hn
    rw [List.countP_cons]
    by_cases hx : p x = true
    · have : l.countP p = 0 := by
        rw [List.countP_eq_zero]
        intro a ha hp
        have := h a (by simp [ha]) x (by simp) hp hx
        exact hn.1 (this ▸ ha)
      rw [this, if_pos hx]
    · rw [if_neg hx]
      exact ih hn.2 fun a ha b hb => h a (by simp [ha]) b (by simp [hb])

/-- The condition on layers follows from the condition on depths. -/
theorem layersCond_of_depth {c : Base (Gate w)} {ty : Nat → Ty} (h : MOk c ty) {d : Nat → Nat} (hd : IsDepth c d)
    (hc : OneAtATime c d) {it : MIter} {ls : List MLayer} (e1 : MIter.new (Multi.ofBase c) = some it)
    (e2 : MIter.collect (Multi.ofBase c) (c.gates.length + 1) it = some ls) : LayersCond (Multi.ofBase c) ls := by
  obtain ⟨rank, ok⟩ := h.ok
  obtain ⟨it', ls', f1, f2, lo, hl⟩ := layer_is_depth ok d hd
  rw [e1, Option.some.injEq] at f1
  subst f1
  rw [e2, Option.some.injEq] at f2
  subst f2
  have hint : ∀ (k : Nat) (l : MLayer), ls[k]? = some l → ∀ v ∈ intNodes l, v.1 = 0 ∧ d v.2 = k := by
    intro k l hk v hv
    obtain ⟨a, -, b⟩ := (hl k l hk v).1 (List.mem_append_right _ hv)
    exact ⟨a, b⟩
  have hin : ∀ (k : Nat) (l : MLayer), ls[k]? = some l → ∀ (i : Nat) (g : Gate w), c.gates[i]? = some g → interactive g = true →
      d i = k → ((0, i) : Node) ∈ intNodes l := by
    intro k l hk i g hg hi hdi
    have := (hl k l hk (0, i)).2 ⟨rfl, (List.getElem?_eq_some_iff.1 hg).1, hdi⟩
    rcases List.mem_append.1 this with hm | hm
    · obtain ⟨g', hg', hf⟩ := lo.local_ l (List.mem_of_getElem? hk) _ hm
      rw [single_gate', hg] at hg'
      cases hg'
      rw [hi] at hf
      cases hf
    · exact hm
  have hnd : ∀ l ∈ ls, (intNodes l).Nodup := by
    intro l hl
    have := lo.once
    rw [List.nodup_flatMap] at this
    exact (List.nodup_append.1 (this.1 l hl)).2.1
  have hsamed : ∀ i j : Nat, i < c.gates.length → j < c.gates.length → c.parents i = c.parents j → d i = d j := by
    intro i j hi hj e
    rw [hd i hi, hd j hj, e]
  refine ⟨?_, ?_, ?_, ?_⟩
  · intro l hl
    obtain ⟨k, hk⟩ := List.mem_iff_getElem?.1 hl
    rw [List.pairwise_iff_forall_sublist]
    intro a b hab ha
    have ma : a ∈ intNodes l := hab.subset (by simp)
    have mb : b ∈ intNodes l := hab.subset (by simp)
    obtain ⟨za, da⟩ := hint k l hk a ma
    obtain ⟨zb, db⟩ := hint k l hk b mb
    obtain ⟨i, a⟩ := a
    obtain ⟨j, b⟩ := b
    simp only at za zb da db
    subst za zb
    rw [single_gate'] at ha
    refine ⟨?_, ?_⟩
    · intro hb
      rw [single_gate'] at hb
      exact hc.b2a a b ha hb (by omega)
    · intro hb
      rw [single_gate'] at hb
      obtain ⟨j, hj, hp⟩ := hc.pair a ha
      have hlj := (List.getElem?_eq_some_iff.1 hj).1
      have hla := (List.getElem?_eq_some_iff.1 ha).1
      have := hc.snd j b hj hb (by rw [hsamed j a hlj hla hp]; omega)
      subst this
      rw [single_parents, single_parents, hp]
  · intro l hl
    obtain ⟨k, hk⟩ := List.mem_iff_getElem?.1 hl
    apply countP_le_one _ _ (hnd l hl)
    intro a ha b hb ga gb
    obtain ⟨za, da⟩ := hint k l hk a ha
    obtain ⟨zb, db⟩ := hint k l hk b hb
    obtain ⟨i, a⟩ := a
    obtain ⟨j, b⟩ := b
    simp only at za zb da db
    subst za zb
    simp only [decide_eq_true_eq, single_gate'] at ga gb
    rw [hc.snd a b ga gb (by omega)]
  · intro l hl
    obtain ⟨k, hk⟩ := List.mem_iff_getElem?.1 hl
    have h1 : countG (Multi.ofBase c) l (.conv .rcv) ≤ 1 := by
      apply countP_le_one _ _ (hnd l hl)
      intro a ha b hb ga gb
      obtain ⟨za, da⟩ := hint k l hk a ha
      obtain ⟨zb, db⟩ := hint k l hk b hb
      obtain ⟨i, a⟩ := a
      obtain ⟨j, b⟩ := b
      simp only at za zb da db
      subst za zb
      simp only [decide_eq_true_eq, single_gate'] at ga gb
      rw [hc.rcv a b ga gb (by omega)]
    by_cases h0 : countG (Multi.ofBase c) l (.conv .rcv) = 0
    · omega
    · have hpos : 0 < countG (Multi.ofBase c) l (.conv .rcv) := by omega
      unfold countG at hpos
      rw [List.countP_pos_iff] at hpos
      obtain ⟨a, ha, ga⟩ := hpos
      obtain ⟨za, da⟩ := hint k l hk a ha
      obtain ⟨i, a⟩ := a
      simp only at za da
      subst za
      simp only [decide_eq_true_eq, single_gate'] at ga
      obtain ⟨j, hj, hp⟩ := hc.pair a ga
      have hlj := (List.getElem?_eq_some_iff.1 hj).1
      have hla := (List.getElem?_eq_some_iff.1 ga).1
      have hm := hin k l hk j _ hj rfl (by rw [hsamed j a hlj hla hp]; exact da)
      have : 0 < countG (Multi.ofBase c) l (.conv .snd) := by
        unfold countG
        rw [List.countP_pos_iff]
        exact ⟨_, hm, by simp [single_gate', hj]⟩
      omega
  · intro v hv s r hp l hl
    obtain ⟨k, hk⟩ := List.mem_iff_getElem?.1 hl
    obtain ⟨h0, hg⟩ := single_gate c v _ hv
    obtain ⟨i, v⟩ := v
    simp only at h0 hg
    subst h0
    obtain ⟨s', r', p, e, es, er, hsr, -⟩ := h.typed v _ hg
    rw [hp] at e
    simp only [List.cons.injEq, and_true] at e
    obtain ⟨rfl, rfl⟩ := e
    have hmem : ∀ u ∈ ([s, r] : List Node), ∃ x : Nat, u = (0, x) ∧ x < c.gates.length := by
      intro u hu
      rw [← hp, single_parents, List.mem_map] at hu
      obtain ⟨x, hx, rfl⟩ := hu
      exact ⟨x, rfl, (ok.edges _ (edge_of_parent hx)).1⟩
    obtain ⟨x, rfl, hx⟩ := hmem s (by simp)
    obtain ⟨y, rfl, hy⟩ := hmem r (by simp)
    have hpar : c.parents x = c.parents y := by
      rw [single_parents] at es er
      have := es.trans er.symm
      exact List.map_injective_iff.2 (fun a b h => by simpa using h) this
    have hdxy := hsamed x y hx hy hpar
    have hgx : ∃ g : Gate w, c.gates[x]? = some g ∧ interactive g = true := by
      rcases hsr with ⟨a, -⟩ | ⟨a, -⟩ <;> rw [single_gate'] at a <;> exact ⟨_, a, rfl⟩
    have hgy : ∃ g : Gate w, c.gates[y]? = some g ∧ interactive g = true := by
      rcases hsr with ⟨-, a⟩ | ⟨-, a⟩ <;> rw [single_gate'] at a <;> exact ⟨_, a, rfl⟩
    obtain ⟨gx, hgx, ix⟩ := hgx
    obtain ⟨gy, hgy, iy⟩ := hgy
    constructor
    · intro hm
      exact hin k l hk y gy hgy iy (by rw [← hdxy]; exact (hint k l hk _ hm).2)
    · intro hm
      exact hin k l hk x gx hgx ix (by rw [hdxy]; exact (hint k l hk _ hm).2)

theorem SetupOk.mono {n k k' : Nat} {s0 s1 : Setup w} (h : SetupOk n k s0 s1) (hk : k' ≤ k) : SetupOk n k' s0 s1 :=
  ⟨h.bool, h.arith, ⟨by have := h.len.1; omega, by have := h.len.2; omega⟩, fun j hj => h.bits j (by omega)⟩

/-! ### Theorems -/

/-- **C62** for single circuits: if conversions are done one at a time and the setup delivers correct material, the
run terminates and the outputs combine to the plaintext values.  Partial: conversions at the same depth give
wrong results (C42, `two_a2b_in_one_layer`). -/
theorem mixed_circuit_correct_partial (hw : 0 < w) {c : Base (Gate w)} {ty : Nat → Ty} (h : MOk c ty) (d : Nat → Nat)
    (hd : IsDepth c d) (hc : OneAtATime c d) (inp xs0 xs1 : List (Val w))
    (hin : c.inputGates.length = inp.length)
    (hty : ∀ (i g : Nat) (x : Val w), c.inputGates[i]? = some g → inp[i]? = some x → ty g = x.ty)
    (hsh : InputShares xs0 xs1 inp)
    (setup0 setup1 : Nat → Nat → (Nat → BitVec w) × Setup w) (hset : ∀ k n, SetupOk n n (setup0 k n).2 (setup1 k n).2)
    (init0 init1 : Store (Val w) (List (Val w))) :
    ∃ (o0 o1 : List (Val w)) (val : Node → Val w) (part : Node → BitVec w),
      Runs (execute (mixed w) (.ofBase c) 0 (.scalar xs0) setup0 init0)
        (execute (mixed w) (.ofBase c) 1 (.scalar xs1) setup1 init1) (.scalar o0) (.scalar o1) ∧
      Solves (.ofBase c) inp val part ∧
      o0.length = c.outputGates.length ∧ o1.length = c.outputGates.length ∧
      ∀ (i g : Nat), c.outputGates[i]? = some g → (ty g = .bool ∨ ty g = .arith) →
        ∃ x0 x1, o0[i]? = some x0 ∧ o1[i]? = some x1 ∧ combine x0 x1 = some (val (0, g)) := by
  obtain ⟨rank, ok⟩ := h.ok
  have hsc := single_scalar (c := c) h.simd
  refine mixed_execute_correct_partial hw (.ofBase c) _ (single_wf ok)
    (single_exec ok h.simd (by intro g hg; cases g <;> simp [asBase] at hg <;> rfl)) hsc
    (fun v => ty v.2) ?_ inp xs0 xs1 ?_ hsh setup0 setup1 init0 init1 ?_ c (by simp [Multi.ofBase])
  · intro v g hg
    obtain ⟨h0, hg⟩ := single_gate c v g hg
    obtain ⟨i, v⟩ := v
    simp only at h0 hg
    subst h0
    exact h.typed v g hg
  · intro c0 hc0
    obtain ⟨-, rfl⟩ := single_circ hc0
    exact ⟨hin, hty⟩
  · intro it ls e1 e2
    have e2' : MIter.collect (Multi.ofBase c) (c.gates.length + 1) it = some ls := by simpa [Multi.ofBase] using e2
    refine ⟨layersCond_of_depth h hd hc e1 e2', ?_⟩
    intro k l _
    rw [intCount_scalar hsc]
    exact (hset k _).mono List.countP_le_length

/-- mixed_gmw.rs:317-355 `InsecureMixedSetup::request_mts`: both parties get the same Boolean triples `bt` and words
`words` (constant seed), and zeros. -/
def insecureSetup (bt : Nat → List Gmw.Triple) (words : Nat → List (BitVec w)) (n : Nat) : Setup w :=
  ⟨bt n, List.replicate n ⟨0, 0, 0⟩, words n, List.replicate (n * w) 0⟩

/-- The setup used in the tests delivers correct material. -/
theorem insecure_setup_ok (bt : Nat → List Gmw.Triple) (words : Nat → List (BitVec w)) (hb : ∀ n, (bt n).length = n)
    (hwd : ∀ n, (words n).length = n) (n : Nat) : SetupOk n n (insecureSetup bt words n) (insecureSetup bt words n) := by
  refine ⟨⟨?_, by simp [insecureSetup, hb]⟩, ⟨?_, by simp [insecureSetup]⟩, by simp [insecureSetup, hwd], ?_⟩
  · simp only [insecureSetup, Gmw.Matching]
    generalize bt n = l
    induction l with
    | nil => exact .nil
    | cons x l ih => exact .cons (by simp [Gmw.ValidPair]) ih
  · simp only [insecureSetup]
    induction n with
    | zero => exact .nil
    | succ n ih => exact .cons (by simp [GoodTriple, Arith.ValidPair]) ih
  · intro j hj
    have : w ≤ n * w := Nat.le_mul_of_pos_left w (by omega)
    refine ⟨by simpa [insecureSetup] using this, by simpa [insecureSetup] using this, ?_⟩
    intro i hi
    simp [insecureSetup, List.getD_eq_getElem?_getD, List.getElem?_replicate]
    split <;> rfl

/-! ### Programs -/

/-- Every gate of `a2b` after the resharing gates is deeper than them. -/
theorem a2b_deeper {c : Base (Gate w)} {rank : Nat → Nat} (ok : SingleOk c rank) {d : Nat → Nat} (hd : IsDepth c d) (n n' : Nat)
    (hn' : n' ≤ c.gates.length) (hs : c.gates[n]? = some (.conv .snd)) (hr : c.gates[n + 1]? = some (.conv .rcv))
    (hp : c.parents n = c.parents (n + 1))
    (hin : ∀ i, n + 2 ≤ i → i < n' → c.parents i ≠ [] ∧ ∀ u ∈ c.parents i, n ≤ u ∧ u < n') :
    ∀ i, n + 2 ≤ i → i < n' → d (n + 1) < d i := by
  have hn := (List.getElem?_eq_some_iff.1 hs).1
  have hn1 := (List.getElem?_eq_some_iff.1 hr).1
  have hdd : d n = d (n + 1) := by rw [hd n hn, hd (n + 1) hn1, hp]
  have key : ∀ (r i : Nat), rank i = r → n + 2 ≤ i → i < n' → d (n + 1) < d i := by
    intro r
    induction r using Nat.strongRecOn with
    | ind r ih =>
      intro i hri hi hi'
      obtain ⟨hne, hpar⟩ := hin i hi hi'
      obtain ⟨u, hu⟩ := List.exists_mem_of_ne_nil _ hne
      obtain ⟨h1, h2⟩ := hpar u hu
      have hle : d u + cost c u ≤ d i := by
        rw [hd i (by omega)]
        exact le_maxL (List.mem_map.2 ⟨u, hu, rfl⟩)
      by_cases hu2 : n + 2 ≤ u
      · have := ih (rank u) (by rw [← hri]; exact ok.rank _ (edge_of_parent hu)) u rfl hu2 h2
        omega
      · have hc : cost c u = 1 := by
          rcases (by omega : u = n ∨ u = n + 1) with rfl | rfl
          · simp [cost, hs, interactive, Gate.isInteractive]
          · simp [cost, hr, interactive, Gate.isInteractive]
        rcases (by omega : u = n ∨ u = n + 1) with rfl | rfl <;> omega
  exact fun i => key (rank i) i rfl

/-- One output gate per operand, in order. -/
def addOuts (bc : Base (Gate w)) (os : List Nat) : Option (Base (Gate w)) :=
  os.foldlM (fun bc o => (bc.addWiredGate (.base .output) [o]).map (·.1)) bc

theorem addOuts_ok {ty : Nat → Ty} {c : Base (Gate w)} (h : MOk c ty) (os : List Nat) (ho : ∀ o ∈ os, o < c.gates.length) :
    ∃ c' ty', addOuts c os = some c' ∧ MOk c' ty' ∧ Ext c ty c' ty' ∧
      c'.gates = c.gates ++ List.replicate os.length (.base .output) ∧
      ∀ (j o : Nat), os[j]? = some o → c'.parents (c.gates.length + j) = [o] ∧ ty' (c.gates.length + j) = ty o := by
  induction os generalizing c ty with
  | nil => exact ⟨c, ty, rfl, h, Ext.refl c ty, by simp, by simp⟩
  | cons o os ih =>
    have hol := ho o (by simp)
    obtain ⟨c1, ty1, e1, ok1, x1, g1, p1, t1⟩ := mok_addWired h (.base .output) [o] (ty o) (by simpa using hol)
      (by simp [isSource, asBase]) (by simp [isCross, asBase]) (by
        intro c' ty' hx hp ht
        exact ⟨(0, o), by rw [single_parents, hp]; rfl, by simp only [ht]; exact (hx.2 o hol).2.symm⟩)
    have ln : c1.gates.length = c.gates.length + 1 := by rw [g1]; simp
    obtain ⟨c2, ty2, e2, ok2, x2, g2, p2⟩ := ih ok1 fun a ha => by have := ho a (by simp [ha]); omega
    refine ⟨c2, ty2, ?_, ok2, x1.trans x2, ?_, ?_⟩
    · simp only [addOuts, List.foldlM_cons, e1]
      exact e2
    · rw [g2, g1, List.append_assoc]
      rfl
    · intro j a hj
      cases j with
      | zero =>
        simp only [List.getElem?_cons_zero, Option.some.injEq] at hj
        obtain ⟨q1, q2⟩ := x2.2 c.gates.length (by omega)
        rw [Nat.add_zero, q1, q2, p1, t1, hj]
        exact ⟨rfl, rfl⟩
      | succ j =>
        rw [List.getElem?_cons_succ] at hj
        obtain ⟨q1, q2⟩ := p2 j a hj
        rw [ln, Nat.add_assoc, Nat.add_comm 1 j] at q1 q2
        exact ⟨q1, q2.trans (x1.2 a (ho a (by simp [List.mem_of_getElem? hj]))).2⟩

theorem mok_empty (ty : Nat → Ty) : MOk ({} : Base (Gate w)) ty :=
  ⟨⟨id, single_empty⟩, rfl, by intro i g hg; simp at hg⟩

/-- A program: a ring element as input, converted to bits. -/
def bitsProgram (w : Nat) : Option (Base (Gate w)) := do
  let (bc, a) ← ({} : Base (Gate w)).addWiredGate (.base .input) []
  let (bc, bits) ← a2b bc a
  addOuts bc bits

/-- A program: a ring element as input, converted to bits and back. -/
def backProgram (w : Nat) : Option (Base (Gate w)) := do
  let (bc, a) ← ({} : Base (Gate w)).addWiredGate (.base .input) []
  let (bc, bits) ← a2b bc a
  let (bc, y) ← bc.addWiredGate (.conv .b2a) bits
  addOuts bc [y]

theorem input_first (w : Nat) : ∃ (c : Base (Gate w)) (ty : Nat → Ty),
    ({} : Base (Gate w)).addWiredGate (.base .input) [] = some (c, 0) ∧ MOk c ty ∧ c.gates = [.base .input] ∧ ty 0 = .arith := by
  obtain ⟨c, ty, e, ok, -, g, -, t⟩ := mok_addWired (w := w) (mok_empty fun _ => .arith) (.base .input) [] .arith (by simp)
    (by simp [isSource, asBase]) (by simp [isCross, asBase]) (by
      intro c' ty' hx hp ht
      exact .inr ht)
  exact ⟨c, ty, e, ok, g, t⟩

/-- The first gate of a program with one input has the value of the input. -/
theorem input_value {c : Base (Gate w)} {val : Node → Val w} {part : Node → BitVec w} {x : Val w}
    (hs : Solves (.ofBase c) [x] val part) (h0 : c.gates[0]? = some (.base .input)) : val (0, 0) = x := by
  obtain ⟨c', i, -, -, hi⟩ := hs (0, 0) (.base .input) (by rw [single_gate', h0])
  cases i with
  | zero => simpa using hi.symm
  | succ i => simp at hi

theorem bitsVal_bitsOf (x : BitVec w) : BitVec.ofNat w (bitsVal (bitsOf x)) = x := by
  apply BitVec.eq_of_getLsbD_eq
  intro i hi
  rw [BitVec.getLsbD_ofNat, bitsVal_testBit]
  simp [hi, bitsOf, List.getD_eq_getElem?_getD]

theorem not_input {g : Gate w} (h : isSource g = false) : g ≠ .base .input := by
  rintro rfl
  simp [isSource, asBase] at h

section
variable {s : List Char} (hf : fileFor w = some s)
include hf

theorem width_pos : 0 < w := by
  unfold fileFor at hf
  split at hf <;> first | omega | cases hf

/-- **C62**: the bits of a shared ring element.  For every width with an adder file and all inputs, sharings and random
values, the parties' outputs are XOR shares of the bits of the input. -/
theorem a2b_executes (x x0 x1 : BitVec w) (hx : x0 + x1 = x)
    (setup0 setup1 : Nat → Nat → (Nat → BitVec w) × Setup w) (hset : ∀ k n, SetupOk n n (setup0 k n).2 (setup1 k n).2)
    (init0 init1 : Store (Val w) (List (Val w))) :
    ∃ (c : Base (Gate w)) (o0 o1 : List (Val w)), bitsProgram w = some c ∧
      Runs (execute (mixed w) (.ofBase c) 0 (.scalar [.arith x0]) setup0 init0)
        (execute (mixed w) (.ofBase c) 1 (.scalar [.arith x1]) setup1 init1) (.scalar o0) (.scalar o1) ∧
      o0.length = w ∧ o1.length = w ∧ ∀ i < w, ∃ y0 y1, o0[i]? = some y0 ∧ o1[i]? = some y1 ∧
        combine y0 y1 = some (.bool (x.getLsbD i)) := by
  obtain ⟨c1, ty1, e1, ok1, g1, t1⟩ := input_first w
  have ln1 : c1.gates.length = 1 := by rw [g1]; rfl
  obtain ⟨c2, outs, ty2, e2, ok2, x2, l2, b2, gs, gr, ps, pr, hno, hpar, hlow, hval⟩ := a2b_circuit hf ok1 0 (by omega) t1
  obtain ⟨c3, ty3, e3, ok3, x3, g3, p3⟩ := addOuts_ok ok2 outs fun o ho => (b2 o ho).1
  rw [ln1] at gs gr ps pr hno hpar hlow
  obtain ⟨rank, sok⟩ := ok3.ok
  obtain ⟨d, hd⟩ := depth_exists sok
  have h0 : c3.gates[0]? = some (.base .input) := (x2.trans x3).gate (by rw [g1]; rfl)
  have hgate : ∀ (i : Nat) (g : Gate w), 3 ≤ i → c3.gates[i]? = some g →
      g ≠ .conv .snd ∧ g ≠ .conv .rcv ∧ g ≠ .conv .b2a ∧ g ≠ .base .input := by
    intro i g hi hg
    by_cases hl : i < c2.gates.length
    · rw [prefix_get x3.1 hl] at hg
      obtain ⟨a, b, c, -, d⟩ := hno i g hi hg
      exact ⟨a, b, c, not_input d⟩
    · rw [g3, List.getElem?_append_right (by omega)] at hg
      have := List.eq_of_mem_replicate (List.mem_of_getElem? hg)
      subst this
      simp
  have gs3 := x3.gate gs
  have gr3 := x3.gate gr
  have uniq : ∀ (i : Nat) (g : Gate w), c3.gates[i]? = some g → (g = .conv .snd → i = 1) ∧ (g = .conv .rcv → i = 2) ∧
      g ≠ .conv .b2a ∧ (g = .base .input → i = 0) := by
    intro i g hg
    by_cases hi : 3 ≤ i
    · obtain ⟨a, b, c, d⟩ := hgate i g hi hg
      exact ⟨fun h => absurd h a, fun h => absurd h b, c, fun h => absurd h d⟩
    · rcases (by omega : i = 0 ∨ i = 1 ∨ i = 2) with rfl | rfl | rfl
      · rw [h0] at hg; cases hg; simp
      · rw [gs3] at hg; cases hg; simp
      · rw [gr3] at hg; cases hg; simp
  have hone : OneAtATime c3 d := by
    refine ⟨?_, ?_, ?_, ?_⟩
    · intro i j hi hj _
      rw [(uniq i _ hi).1 rfl, (uniq j _ hj).1 rfl]
    · intro i j hi hj _
      rw [(uniq i _ hi).2.1 rfl, (uniq j _ hj).2.1 rfl]
    · intro i hi
      have := (uniq i _ hi).2.1 rfl
      subst this
      refine ⟨1, gs3, ?_⟩
      have l3 := (List.getElem?_eq_some_iff.1 gr).1
      rw [(x3.2 1 (by omega)).1, (x3.2 2 l3).1, ps, pr]
    · intro i j _ hj
      exact absurd rfl (uniq j _ hj).2.2.1
  have hinp : c3.inputGates = [0] := by
    rw [sok.book.inputs]
    obtain ⟨rest, hr⟩ : ∃ rest, c3.gates = [.base .input] ++ rest := by
      cases hc : c3.gates with
      | nil => rw [hc] at h0; simp at h0
      | cons a rest => rw [hc] at h0; simp at h0; exact ⟨rest, by rw [h0]; rfl⟩
    rw [hr, Macro.positions_first]
    · rfl
    · simp [ofKind, asBase]
    · intro g hg
      obtain ⟨i, hi⟩ := List.mem_iff_getElem?.1 hg
      have := uniq (i + 1) g (by rw [hr]; simpa using hi)
      have hne : g ≠ .base .input := fun h => by simpa using this.2.2.2 h
      cases g with
      | base b => cases b <;> first | exact absurd rfl hne | rfl
      | _ => rfl
  have hout : c3.outputGates = List.range' c2.gates.length w := by
    rw [sok.book.outputs, g3, Macro.positions_last]
    · simp [l2]
    · intro g hg
      obtain ⟨i, hi⟩ := List.mem_iff_getElem?.1 hg
      have hne : g ≠ .base .output := by
        by_cases h3 : 3 ≤ i
        · exact (hno i g h3 hi).2.2.2.1
        · have hi' := x3.gate hi
          rcases (by omega : i = 0 ∨ i = 1 ∨ i = 2) with rfl | rfl | rfl
          · rw [h0] at hi'; cases hi'; simp
          · rw [gs3] at hi'; cases hi'; simp
          · rw [gr3] at hi'; cases hi'; simp
      cases g with
      | base b => cases b <;> first | exact absurd rfl hne | rfl
      | _ => rfl
    · intro g hg
      rw [List.eq_of_mem_replicate hg]; rfl
  have hl1 : 0 < c1.gates.length := by omega
  obtain ⟨o0, o1, val, part, hr, hs, n0, n1, ho⟩ := mixed_circuit_correct_partial (width_pos hf) ok3 d hd hone [.arith x] [.arith x0] [.arith x1]
    (by simp [hinp]) (by
      intro i g y hi hy
      rw [hinp] at hi
      cases i with
      | zero =>
        simp only [List.getElem?_cons_zero, Option.some.injEq] at hi hy
        subst hi hy
        rw [((x2.trans x3).2 0 hl1).2, t1]; rfl
      | succ i => simp at hi)
    ⟨rfl, rfl, by
      intro i y hy
      cases i with
      | zero =>
        simp only [List.getElem?_cons_zero, Option.some.injEq] at hy
        subst hy
        exact ⟨_, _, rfl, rfl, by simp [combine, hx]⟩
      | succ i => simp at hy⟩ setup0 setup1 hset init0 init1
  rw [hout, List.length_range'] at n0 n1
  refine ⟨c3, o0, o1, ?_, hr, n0, n1, ?_⟩
  · simp [bitsProgram, e1, e2, e3]
  · intro i hi
    have hbits := hval (.ofBase c3) (Within.mono x3 (within_self c3)) _ val part hs x (input_value hs h0)
    obtain ⟨q1, q2⟩ := p3 i (outs[i]'(by omega)) (List.getElem?_eq_getElem (by omega))
    have hob := b2 (outs[i]'(by omega)) (List.getElem_mem _)
    obtain ⟨y0, y1, f0, f1, f2⟩ := ho i (c2.gates.length + i) (by rw [hout, List.getElem?_range' hi]; simp) (.inl (by rw [q2, hob.2]))
    refine ⟨y0, y1, f0, f1, ?_⟩
    rw [f2]
    have hgo : (Multi.ofBase c3).gate? (0, c2.gates.length + i) = some (.base .output) := by
      rw [single_gate', g3, List.getElem?_append_right (by omega), List.getElem?_replicate, if_pos (by omega)]
    obtain ⟨p, hp, hv⟩ := hs _ _ hgo
    rw [single_parents, q1] at hp
    simp only [List.map_cons, List.map_nil, List.cons.injEq, and_true] at hp
    rw [hv, ← hp]
    have := congrArg (fun l => l[i]?) hbits
    simp only [List.getElem?_map, List.getElem?_eq_getElem (show i < outs.length by omega), Option.map_some, bitsOf,
      List.getElem?_range hi, Option.some.injEq] at this
    rw [this]

/-- **C62**: converting to bits and back gives the ring element again. -/
theorem a2b_b2a_executes (x x0 x1 : BitVec w) (hx : x0 + x1 = x)
    (setup0 setup1 : Nat → Nat → (Nat → BitVec w) × Setup w) (hset : ∀ k n, SetupOk n n (setup0 k n).2 (setup1 k n).2)
    (init0 init1 : Store (Val w) (List (Val w))) :
    ∃ (c : Base (Gate w)) (y0 y1 : BitVec w), backProgram w = some c ∧
      Runs (execute (mixed w) (.ofBase c) 0 (.scalar [.arith x0]) setup0 init0)
        (execute (mixed w) (.ofBase c) 1 (.scalar [.arith x1]) setup1 init1) (.scalar [.arith y0]) (.scalar [.arith y1]) ∧
      y0 + y1 = x := by
  obtain ⟨c1, ty1, e1, ok1, g1, t1⟩ := input_first w
  have ln1 : c1.gates.length = 1 := by rw [g1]; rfl
  have wpos := width_pos hf
  obtain ⟨c2, outs, ty2, e2, ok2, x2, l2, b2, gs, gr, ps, pr, hno, hpar, hlow, hval⟩ := a2b_circuit hf ok1 0 (by omega) t1
  have hne : outs ≠ [] := fun h => by rw [h] at l2; simp at l2; omega
  obtain ⟨c3, ty3, e3, ok3, x3, g3, p3, t3⟩ := mok_addWired ok2 (.conv .b2a) outs .arith (fun o ho => (b2 o ho).1)
    (by simp [hne, isSource, asBase]) (by simp [isCross, asBase]) (by
      intro c' ty' hxe hp ht
      refine ⟨by rw [single_parents, hp]; simpa using l2, ?_, ht⟩
      intro u hu
      rw [single_parents, hp, List.mem_map] at hu
      obtain ⟨o, ho, rfl⟩ := hu
      obtain ⟨q1, q2⟩ := b2 o ho
      simp only [(hxe.2 o q1).2, q2])
  have ln3 : c3.gates.length = c2.gates.length + 1 := by rw [g3]; simp
  obtain ⟨c4, ty4, e4, ok4, x4, g4, p4⟩ := addOuts_ok ok3 [c2.gates.length] (by simp; omega)
  rw [ln1] at gs gr ps pr hno hpar hlow
  obtain ⟨rank, sok⟩ := ok4.ok
  obtain ⟨d, hd⟩ := depth_exists sok
  have x24 := x3.trans x4
  have l3 := (List.getElem?_eq_some_iff.1 gr).1
  have h0 : c4.gates[0]? = some (.base .input) := (x2.trans x24).gate (by rw [g1]; rfl)
  have gs4 := x24.gate gs
  have gr4 := x24.gate gr
  have gb4 : c4.gates[c2.gates.length]? = some (.conv .b2a) := x4.gate (by rw [g3]; simp)
  have go4 : c4.gates[c2.gates.length + 1]? = some (.base .output) := by rw [g4, ← ln3]; simp
  have len4 : c4.gates.length = c2.gates.length + 2 := by rw [g4]; simp [ln3]
  have uniq : ∀ (i : Nat) (g : Gate w), c4.gates[i]? = some g → (g = .conv .snd → i = 1) ∧ (g = .conv .rcv → i = 2) ∧
      (g = .conv .b2a → i = c2.gates.length) ∧ (g = .base .input → i = 0) ∧ (g = .base .output → i = c2.gates.length + 1) := by
    intro i g hg
    have hil := (List.getElem?_eq_some_iff.1 hg).1
    by_cases hi : 3 ≤ i
    · by_cases hl : i < c2.gates.length
      · rw [prefix_get x24.1 hl] at hg
        obtain ⟨a, b, c, e, d⟩ := hno i g hi hg
        have d := not_input d
        exact ⟨fun h => absurd h a, fun h => absurd h b, fun h => absurd h c, fun h => absurd h d, fun h => absurd h e⟩
      · rcases (by omega : i = c2.gates.length ∨ i = c2.gates.length + 1) with rfl | rfl
        · rw [gb4] at hg; cases hg; simp
        · rw [go4] at hg; cases hg; simp
    · rcases (by omega : i = 0 ∨ i = 1 ∨ i = 2) with rfl | rfl | rfl
      · rw [h0] at hg; cases hg; simp
      · rw [gs4] at hg; cases hg; simp
      · rw [gr4] at hg; cases hg; simp
  have hps : c4.parents 1 = [0] := by rw [(x24.2 1 (by omega)).1, ps]
  have hpr : c4.parents 2 = [0] := by rw [(x24.2 2 l3).1, pr]
  have hpb : c4.parents c2.gates.length = outs := by rw [(x4.2 _ (by omega)).1, p3]
  have hdeep := a2b_deeper sok hd 1 c2.gates.length x24.le gs4 gr4 (by rw [hps, hpr]) (by
    intro i hi hi'
    have hi3 : 1 + 2 ≤ i := hi
    rw [(x24.2 i hi').1]
    obtain ⟨rank2, sok2⟩ := ok2.ok
    obtain ⟨g, hg⟩ : ∃ g, c2.gates[i]? = some g := ⟨_, List.getElem?_eq_getElem hi'⟩
    refine ⟨?_, ?_⟩
    · intro hp
      have hsrc := (sok2.sources i g hg).1 hp
      rw [(hno i g hi3 hg).2.2.2.2] at hsrc
      cases hsrc
    · intro u hu
      exact ⟨hpar i hi3 hi' u hu, (sok2.edges _ (edge_of_parent hu)).1⟩)
  have hone : OneAtATime c4 d := by
    refine ⟨?_, ?_, ?_, ?_⟩
    · intro i j hi hj _
      rw [(uniq i _ hi).1 rfl, (uniq j _ hj).1 rfl]
    · intro i j hi hj _
      rw [(uniq i _ hi).2.1 rfl, (uniq j _ hj).2.1 rfl]
    · intro i hi
      have := (uniq i _ hi).2.1 rfl
      subst this
      exact ⟨1, gs4, by rw [hps, hpr]⟩
    · intro i j hi hj
      rw [(uniq i _ hi).2.1 rfl, (uniq j _ hj).2.2.1 rfl]
      obtain ⟨o, ho⟩ := List.exists_mem_of_ne_nil _ hne
      have h1 := hdeep o (hlow o ho) (b2 o ho).1
      have h2 : d o + cost c4 o ≤ d c2.gates.length := by
        rw [hd c2.gates.length (by omega), hpb]
        exact le_maxL (List.mem_map.2 ⟨o, ho, rfl⟩)
      have : d (1 + 1) = d 2 := rfl
      omega
  have hinp : c4.inputGates = [0] := by
    rw [sok.book.inputs]
    obtain ⟨rest, hr⟩ : ∃ rest, c4.gates = [.base .input] ++ rest := by
      cases hc : c4.gates with
      | nil => rw [hc] at h0; simp at h0
      | cons a rest => rw [hc] at h0; simp at h0; exact ⟨rest, by rw [h0]; rfl⟩
    rw [hr, Macro.positions_first]
    · rfl
    · simp [ofKind, asBase]
    · intro g hg
      obtain ⟨i, hi⟩ := List.mem_iff_getElem?.1 hg
      have := uniq (i + 1) g (by rw [hr]; simpa using hi)
      have hne : g ≠ .base .input := fun h => by simpa using this.2.2.2.1 h
      cases g with
      | base b => cases b <;> first | exact absurd rfl hne | rfl
      | _ => rfl
  have hout : c4.outputGates = [c2.gates.length + 1] := by
    rw [sok.book.outputs, g4, Macro.positions_last]
    · simp [ln3]
    · intro g hg
      obtain ⟨i, hi⟩ := List.mem_iff_getElem?.1 hg
      have hil := (List.getElem?_eq_some_iff.1 hi).1
      have hne : g ≠ .base .output := fun h => by
        have := (uniq i g (x4.gate hi)).2.2.2.2 h
        omega
      cases g with
      | base b => cases b <;> first | exact absurd rfl hne | rfl
      | _ => rfl
    · intro g hg
      rw [List.eq_of_mem_replicate hg]; rfl
  have hl1 : 0 < c1.gates.length := by omega
  obtain ⟨o0, o1, val, part, hr, hs, n0, n1, ho⟩ := mixed_circuit_correct_partial wpos ok4 d hd hone [.arith x] [.arith x0] [.arith x1]
    (by simp [hinp]) (by
      intro i g y hi hy
      rw [hinp] at hi
      cases i with
      | zero =>
        simp only [List.getElem?_cons_zero, Option.some.injEq] at hi hy
        subst hi hy
        rw [((x2.trans x24).2 0 hl1).2, t1]; rfl
      | succ i => simp at hi)
    ⟨rfl, rfl, by
      intro i y hy
      cases i with
      | zero =>
        simp only [List.getElem?_cons_zero, Option.some.injEq] at hy
        subst hy
        exact ⟨_, _, rfl, rfl, by simp [combine, hx]⟩
      | succ i => simp at hy⟩ setup0 setup1 hset init0 init1
  rw [hout, List.length_singleton] at n0 n1
  have hbits := hval (.ofBase c4) (Within.mono x24 (within_self c4)) _ val part hs x (input_value hs h0)
  have hvb : val (0, c2.gates.length) = .arith x := by
    obtain ⟨bits, hb, hv⟩ := hs (0, c2.gates.length) (.conv .b2a) (by rw [single_gate', gb4])
    rw [single_parents, hpb, List.map_map] at hb
    have : (bitsOf x).map (Val.bool (w := w)) = bits.map .bool := hbits.symm.trans hb
    have hinj : Function.Injective (Val.bool (w := w)) := fun a b h => by cases h; rfl
    have hbe := List.map_injective_iff.2 hinj this
    rw [hv, ← hbe, bitsVal_bitsOf]
  obtain ⟨q1, q2⟩ := p4 0 c2.gates.length rfl
  rw [ln3, Nat.add_zero] at q1 q2
  obtain ⟨y0, y1, f0, f1, f2⟩ := ho 0 (c2.gates.length + 1) (by rw [hout]; rfl) (.inr (by rw [q2, t3]))
  obtain ⟨p, hp, hv⟩ := hs (0, c2.gates.length + 1) (.base .output) (by rw [single_gate', go4])
  rw [single_parents, q1] at hp
  simp only [List.map_cons, List.map_nil, List.cons.injEq, and_true] at hp
  rw [hv, ← hp, hvb] at f2
  obtain ⟨u0, rfl⟩ : ∃ u, o0 = [u] := List.length_eq_one_iff.1 n0
  obtain ⟨u1, rfl⟩ : ∃ u, o1 = [u] := List.length_eq_one_iff.1 n1
  simp only [List.getElem?_cons_zero, Option.some.injEq] at f0 f1
  subst f0 f1
  cases u0 <;> cases u1 <;> simp [combine] at f2
  rename_i z0 z1
  refine ⟨c4, z0, z1, ?_, hr, f2⟩
  simp [backProgram, e1, e2, e3, e4]

end

/-- Both theorems apply to the widths of `u8` to `u64` with the setup of the tests. -/
example (bt : Nat → List Gmw.Triple) (words : Nat → List (BitVec 32)) (hb : ∀ n, (bt n).length = n)
    (hwd : ∀ n, (words n).length = n) (rand0 rand1 : Nat → Nat → BitVec 32) (init : Store (Val 32) (List (Val 32))) :
    ∃ (c : Base (Gate 32)) (y0 y1 : BitVec 32), backProgram 32 = some c ∧
      Runs (execute (mixed 32) (.ofBase c) 0 (.scalar [.arith 7]) (fun k n => (rand0 k, insecureSetup bt words n)) init)
        (execute (mixed 32) (.ofBase c) 1 (.scalar [.arith 35]) (fun k n => (rand1 k, insecureSetup bt words n)) init)
        (.scalar [.arith y0]) (.scalar [.arith y1]) ∧
      y0 + y1 = 42 :=
  a2b_b2a_executes (s := text file32) rfl 42 7 35 (by decide) _ _ (fun _ n => insecure_setup_ok bt words hb hwd n) init init

end Verif.Mixed
