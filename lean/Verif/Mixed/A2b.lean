import Verif.Exec.Depth
import Verif.Mixed.Exec
import Verif.Macro.Trace
import Verif.Adder.Props

/-!
Building mixed circuits: `add_wired_gate`, `a2b` and `depth_optimized_add` (C62).
-/
set_option autoImplicit false

namespace Verif.Mixed

open Circuit Proc Exec Adder
open Gmw (BoolGate BaseGate)

variable {w : Nat}

/-! ### Model -/

/-- Base gates of the Boolean protocol as base gates of the mixed protocol. -/
def liftB : BaseGate Bool → BaseGate (Val w)
  | .input => .input
  | .output => .output
  | .subCircuitInput => .subCircuitInput
  | .subCircuitOutput => .subCircuitOutput
  | .connectToMain => .connectToMain
  | .connectToMainFromSimd n => .connectToMainFromSimd n
  | .constant b => .constant (.bool b)
  | .debug => .debug
  | .identity => .identity

/-- mixed_gmw.rs:700-714 `From<&bristol::Gate>` and `From<BaseGate>` for `MixedGate`: the gates `from_bristol`
creates, which is generic in the gate type, for the mixed protocol. -/
def liftGate : BoolGate → Gate w
  | .base b => .base (liftB b)
  | g => .bool g

/-- The circuit with the gates replaced; see `lift_addWiredGate`. -/
def liftBase (c : Base BoolGate) : Base (Gate w) :=
  { gates := c.gates.map liftGate, edges := c.edges, isMain := c.isMain, simdSize := c.simdSize,
    interactiveCount := c.interactiveCount, inputGates := c.inputGates, outputGates := c.outputGates,
    constantGates := c.constantGates, scOutputGates := c.scOutputGates, scInputGates := c.scInputGates }

/-- mixed_gmw.rs:788-800: the cached adder circuit.  `none`: no file for the width, or an `expect` fails. -/
def adderCircuit (w : Nat) : Option (Base (Gate w)) :=
  match (fileFor w).bind Parse.circuit with
  | none => none
  | some b =>
    match Parse.fromBristol b .subCircuit with
    | .ok c => some (liftBase c)
    | _ => none

/-- mixed_gmw.rs:773-802 `depth_optimized_add`. -/
def depthOptimizedAdd (bc : Base (Gate w)) (a b : List Nat) : Option (Base (Gate w) × List Nat) :=
  if a.length = w ∧ b.length = w then do
    let adder ← adderCircuit w
    bc.addSubCircuit adder (a ++ b)
  else none

/-- mixed_gmw.rs:762-766: the closure `split`. -/
def splitBits (bc : Base (Gate w)) (a : Nat) : List Nat → Option (Base (Gate w) × List Nat)
  | [] => some (bc, [])
  | idx :: rest => do
    let (bc, g) ← bc.addWiredGate (.conv (.selectBit idx)) [a]
    let (bc, gs) ← splitBits bc a rest
    some (bc, g :: gs)

/-- mixed_gmw.rs:756-771 `a2b`. -/
def a2b (bc : Base (Gate w)) (a : Nat) : Option (Base (Gate w) × List Nat) := do
  let (bc, a2b0) ← bc.addWiredGate (.conv .snd) [a]
  let (bc, a2b1) ← bc.addWiredGate (.conv .rcv) [a]
  let (bc, sw0) ← bc.addWiredGate (.conv .select) [a2b0, a2b1]
  let (bc, sw1) ← bc.addWiredGate (.conv .select) [a2b1, a2b0]
  let (bc, s0) ← splitBits bc sw0 (List.range w)
  let (bc, s1) ← splitBits bc sw1 (List.range w)
  depthOptimizedAdd bc s0 s1

theorem lift_addGate (c : Base BoolGate) (g : BoolGate) :
    ((liftBase c).addGate (liftGate g : Gate w)) = (liftBase (c.addGate g).1, (c.addGate g).2) := by
  cases g with
  | base b => cases b <;> simp [Base.addGate, liftBase, liftGate, liftB, asBase, interactive, Gate.isInteractive,
      BoolGate.isInteractive]
  | _ => simp [Base.addGate, liftBase, liftGate, asBase, interactive, Gate.isInteractive, BoolGate.isInteractive]

/-- Creating the gates of the mixed protocol and replacing the gates afterwards give the same circuit. -/
theorem lift_addWiredGate (c : Base BoolGate) (g : BoolGate) (args : List Nat) :
    ((liftBase c).addWiredGate (liftGate g : Gate w) args) =
      (c.addWiredGate g args).map fun r => (liftBase r.1, r.2) := by
  have key : ∀ (l : List Nat) (id : Nat) (c : Base BoolGate),
      l.foldlM (fun (c : Base (Gate w)) s => c.addWire s id) (liftBase c) =
        (l.foldlM (fun (c : Base BoolGate) s => c.addWire s id) c).map liftBase := by
    intro l id
    induction l with
    | nil => intro c; simp
    | cons s l ih =>
      intro c
      have h1 : (liftBase c : Base (Gate w)).addWire s id = (c.addWire s id).map liftBase := by
        unfold Base.addWire
        have : (liftBase c : Base (Gate w)).gates.length = c.gates.length := by simp [liftBase]
        rw [this]
        split <;> simp [liftBase]
      rw [List.foldlM_cons, List.foldlM_cons, h1]
      cases h : c.addWire s id with
      | none => simp
      | some c' => simpa using ih c'
  unfold Base.addWiredGate
  rw [lift_addGate]
  simp only
  rw [key]
  generalize args.reverse.foldlM (fun (x : Base BoolGate) s => x.addWire s (c.addGate g).2) (c.addGate g).1 = r
  cases r <;> rfl

/-! ### Specification -/

/-- A mixed circuit that can be executed: no cycles, exactly inputs and constants have no operands, and operands
have the right kinds. -/
structure MOk (c : Base (Gate w)) (ty : Nat → Ty) : Prop where
  ok : ∃ rank, SingleOk c rank
  simd : c.simdSize = none
  typed : ∀ (i : Nat) (g : Gate w), c.gates[i]? = some g → Typed (Multi.ofBase c) (fun v => ty v.2) (0, i) g

/-- The circuit was extended: old gates, operands and kinds are unchanged. -/
def Ext (c : Base (Gate w)) (ty : Nat → Ty) (c' : Base (Gate w)) (ty' : Nat → Ty) : Prop :=
  c.gates <+: c'.gates ∧ ∀ i < c.gates.length, c'.parents i = c.parents i ∧ ty' i = ty i

/-- `m` contains the gates of `c` as the first gates of its main circuit. -/
def Within (c : Base (Gate w)) (m : Multi (Gate w)) : Prop :=
  ∀ i < c.gates.length, m.gate? (0, i) = c.gates[i]? ∧ m.parents (0, i) = (c.parents i).map fun u => (0, u)

/-- The values satisfy the equations of all gates. -/
def Solves (m : Multi (Gate w)) (inp : List (Val w)) (val : Node → Val w) (part : Node → BitVec w) : Prop :=
  ∀ v g, m.gate? v = some g → MixedEq m inp val part v g

/-! ### Extension -/

theorem Ext.refl (c : Base (Gate w)) (ty : Nat → Ty) : Ext c ty c ty := ⟨List.prefix_rfl, fun _ _ => ⟨rfl, rfl⟩⟩

theorem Ext.le {c c' : Base (Gate w)} {ty ty' : Nat → Ty} (h : Ext c ty c' ty') : c.gates.length ≤ c'.gates.length :=
  h.1.length_le

theorem Ext.trans {c c' c'' : Base (Gate w)} {ty ty' ty'' : Nat → Ty} (h : Ext c ty c' ty') (h' : Ext c' ty' c'' ty'') :
    Ext c ty c'' ty'' := by
  refine ⟨h.1.trans h'.1, fun i hi => ?_⟩
  obtain ⟨a, b⟩ := h.2 i hi
  obtain ⟨a', b'⟩ := h'.2 i (Nat.lt_of_lt_of_le hi h.le)
  exact ⟨a'.trans a, b'.trans b⟩

theorem Ext.gate {c c' : Base (Gate w)} {ty ty' : Nat → Ty} (h : Ext c ty c' ty') {i : Nat} {g : Gate w}
    (hg : c.gates[i]? = some g) : c'.gates[i]? = some g := by
  rw [prefix_get h.1 (List.getElem?_eq_some_iff.1 hg).1]
  exact hg

theorem Within.mono {c c' : Base (Gate w)} {ty ty' : Nat → Ty} {m : Multi (Gate w)} (h : Ext c ty c' ty')
    (hw : Within c' m) : Within c m := by
  intro i hi
  obtain ⟨a, b⟩ := hw i (Nat.lt_of_lt_of_le hi h.le)
  exact ⟨a.trans (prefix_get h.1 hi), by rw [b, (h.2 i hi).1]⟩

theorem within_self (c : Base (Gate w)) : Within c (Multi.ofBase c) :=
  fun i _ => ⟨single_gate' c i, single_parents c i⟩

theorem typed_congr {m m' : Multi (Gate w)} {ty ty' : Node → Ty} {v : Node} {g : Gate w}
    (hp : m'.parents v = m.parents v) (hv : ty' v = ty v)
    (hu : ∀ u ∈ m.parents v, ty' u = ty u ∧ m'.gate? u = m.gate? u ∧ m'.parents u = m.parents u)
    (h : Typed m ty v g) : Typed m' ty' v g := by
  have one : ∀ p, m.parents v = [p] → ty' p = ty p := fun p e => (hu p (by simp [e])).1
  have two : ∀ p q, m.parents v = [p, q] → ty' p = ty p ∧ ty' q = ty q := fun p q e =>
    ⟨(hu p (by simp [e])).1, (hu q (by simp [e])).1⟩
  cases g with
  | base b =>
    cases b with
    | input => simpa only [Typed, hv] using h
    | constant c => simpa only [Typed, hv] using h
    | connectToMainFromSimd n => exact h
    | _ =>
      obtain ⟨p, e, t⟩ := h
      exact ⟨p, by rw [hp, e], by rw [hv, t, one p e]⟩
  | bool g =>
    cases g with
    | and | xor =>
      obtain ⟨p, q, e, t1, t2, t3⟩ := h
      obtain ⟨a, b⟩ := two p q e
      exact ⟨p, q, by rw [hp, e], by rw [a, t1], by rw [b, t2], by rw [hv, t3]⟩
    | inv =>
      obtain ⟨p, e, t1, t3⟩ := h
      exact ⟨p, by rw [hp, e], by rw [one p e, t1], by rw [hv, t3]⟩
    | base b => exact h
  | arith g =>
    obtain ⟨p, q, e, t1, t2, t3⟩ := h
    obtain ⟨a, b⟩ := two p q e
    exact ⟨p, q, by rw [hp, e], by rw [a, t1], by rw [b, t2], by rw [hv, t3]⟩
  | conv g =>
    cases g with
    | snd | rcv =>
      obtain ⟨p, e, t1, t3⟩ := h
      exact ⟨p, by rw [hp, e], by rw [one p e, t1], by rw [hv, t3]⟩
    | selectBit i =>
      obtain ⟨p, e, t1, t2, t3⟩ := h
      exact ⟨p, by rw [hp, e], by rw [one p e, t1], t2, by rw [hv, t3]⟩
    | select =>
      obtain ⟨s, r, p, e, e1, e2, hsr, t⟩ := h
      obtain ⟨-, g1, q1⟩ := hu s (by simp [e])
      obtain ⟨-, g2, q2⟩ := hu r (by simp [e])
      exact ⟨s, r, p, by rw [hp, e], by rw [q1, e1], by rw [q2, e2], by rw [g1, g2]; exact hsr, by rw [hv, t]⟩
    | b2a =>
      obtain ⟨e, t1, t2⟩ := h
      exact ⟨by rw [hp, e], fun u h => by rw [hp] at h; rw [(hu u h).1, t1 u h], by rw [hv, t2]⟩

theorem typed_ext {c c' : Base (Gate w)} {ty ty' : Nat → Ty} (hE : EdgesIn c) (h : Ext c ty c' ty') {i : Nat} {g : Gate w}
    (hi : i < c.gates.length) (ht : Typed (Multi.ofBase c) (fun v => ty v.2) (0, i) g) :
    Typed (Multi.ofBase c') (fun v => ty' v.2) (0, i) g := by
  refine typed_congr ?_ ?_ ?_ ht
  · rw [single_parents, single_parents, (h.2 i hi).1]
  · exact (h.2 i hi).2
  · intro u hu
    rw [single_parents, List.mem_map] at hu
    obtain ⟨x, hx, rfl⟩ := hu
    have hlt : x < c.gates.length := (hE _ (edge_of_parent hx)).1
    refine ⟨(h.2 x hlt).2, ?_, ?_⟩
    · rw [single_gate', single_gate', prefix_get h.1 hlt]
    · rw [single_parents, single_parents, (h.2 x hlt).1]

/-- Adding one gate whose operands have the right kinds. -/
theorem mok_addWired {c : Base (Gate w)} {ty : Nat → Ty} (h : MOk c ty) (g : Gate w) (args : List Nat) (t : Ty)
    (ha : ∀ a ∈ args, a < c.gates.length) (hsrc : args = [] ↔ isSource g = true) (hk : isCross g = false)
    (hT : ∀ (c' : Base (Gate w)) (ty' : Nat → Ty), Ext c ty c' ty' → c'.parents c.gates.length = args →
      ty' c.gates.length = t → Typed (Multi.ofBase c') (fun v => ty' v.2) (0, c.gates.length) g) :
    ∃ c' ty', c.addWiredGate g args = some (c', c.gates.length) ∧ MOk c' ty' ∧ Ext c ty c' ty' ∧
      c'.gates = c.gates ++ [g] ∧ c'.parents c.gates.length = args ∧ ty' c.gates.length = t := by
  obtain ⟨rank, ok⟩ := h.ok
  obtain ⟨c', rank', e, ok', hg, hs, hold, hnew⟩ := single_addWired ok g args ha hsrc hk
  have hext : Ext c ty c' (fun i => if i < c.gates.length then ty i else t) :=
    ⟨⟨[g], hg.symm⟩, fun i hi => ⟨hold i hi, if_pos hi⟩⟩
  refine ⟨c', fun i => if i < c.gates.length then ty i else t, e, ⟨⟨rank', ok'⟩, hs.trans h.simd, ?_⟩, hext, hg, hnew, by simp⟩
  intro i x hx
  rw [hg] at hx
  rcases Macro.snoc_cases hx with ⟨hi, hx⟩ | ⟨rfl, rfl⟩
  · exact typed_ext ok.edges hext hi (h.typed i x hx)
  · exact hT c' _ hext hnew (by simp)

/-! ### Splitting a word into bits -/

theorem splitBits_ok {ty : Nat → Ty} {c : Base (Gate w)} (h : MOk c ty) (a : Nat) (ha : a < c.gates.length) (hta : ty a = .word)
    (idxs : List Nat) (hi : ∀ i ∈ idxs, i < w) :
    ∃ c' ids ty', splitBits c a idxs = some (c', ids) ∧ MOk c' ty' ∧ Ext c ty c' ty' ∧
      ids.length = idxs.length ∧ (∀ o ∈ ids, o < c'.gates.length ∧ ty' o = .bool) ∧
      c'.gates = c.gates ++ idxs.map (fun i => .conv (.selectBit i)) ∧
      (∀ i, c.gates.length ≤ i → i < c'.gates.length → c'.parents i = [a]) ∧ (∀ o ∈ ids, c.gates.length ≤ o) ∧
      ∀ m, Within c' m → ∀ inp val part, Solves m inp val part → ∀ x, val (0, a) = .arith x →
        ids.map (fun o => val (0, o)) = idxs.map fun i => .bool (x.getLsbD i) := by
  induction idxs generalizing c ty with
  | nil => exact ⟨c, [], ty, rfl, h, Ext.refl c ty, rfl, by simp, by simp, by intro i h1 h2; omega, by simp, by simp⟩
  | cons i idxs ih =>
    obtain ⟨c1, ty1, e1, ok1, x1, g1, p1, t1⟩ := mok_addWired h (.conv (.selectBit i)) [a] .bool (by simpa using ha)
      (by simp [isSource, asBase]) (by simp [isCross, asBase]) (by
        intro c' ty' hx hp ht
        exact ⟨(0, a), by rw [single_parents, hp]; rfl, by rw [← hta]; exact (hx.2 a ha).2, hi i (by simp), ht⟩)
    obtain ⟨c2, ids, ty2, e2, ok2, x2, l2, b2, g2, r2, w2, v2⟩ := ih ok1 (Nat.lt_of_lt_of_le ha x1.le) (by rw [(x1.2 a ha).2, hta])
      (fun j hj => hi j (by simp [hj]))
    have hlt : c.gates.length < c1.gates.length := by rw [g1]; simp
    refine ⟨c2, c.gates.length :: ids, ty2, ?_, ok2, x1.trans x2, by simp [l2], ?_, ?_, ?_, ?_, ?_⟩
    · simp [splitBits, e1, e2]
    · intro o ho
      rcases List.mem_cons.1 ho with rfl | ho
      · exact ⟨Nat.lt_of_lt_of_le hlt x2.le, by rw [(x2.2 _ hlt).2, t1]⟩
      · exact b2 o ho
    · rw [g2, g1]; simp
    · intro j h1 h2
      by_cases hj : j < c1.gates.length
      · have : j = c.gates.length := by rw [g1] at hj; simp at hj; omega
        subst this
        rw [(x2.2 _ hlt).1, p1]
      · exact r2 j (by omega) h2
    · intro o ho
      rcases List.mem_cons.1 ho with rfl | ho
      · exact Nat.le_refl _
      · exact Nat.le_trans x1.le (w2 o ho)
    · intro m hm inp val part hs x hx
      rw [List.map_cons, List.map_cons, v2 m hm inp val part hs x hx]
      congr 1
      obtain ⟨q1, q2⟩ := Within.mono x2 hm c.gates.length hlt
      have hg : m.gate? (0, c.gates.length) = some (.conv (.selectBit i)) := by rw [q1, g1]; simp
      obtain ⟨p, y, hp, hy, hv⟩ := hs _ _ hg
      rw [q2, p1] at hp
      simp only [List.map_cons, List.map_nil, List.cons.injEq, and_true] at hp
      rw [← hp, hx] at hy
      cases hy
      exact hv

/-! ### The adder -/

theorem runOps_builtBy (ops : List Macro.Op) (h : ∀ (i : Nat) (o : Macro.Op), ops[i]? = some o → ∀ a ∈ o.2, a < i) :
    ∃ c, Parse.runOps {} ops = some c ∧ Macro.BuiltBy c ops ∧ c.isMain = false := by
  induction ops using List.reverseRecOn with
  | nil => exact ⟨{}, rfl, Macro.builtBy_empty, rfl⟩
  | append_singleton ops o ih =>
    obtain ⟨c, e, hb, hm⟩ := ih fun i o hi => h i o (by
      rw [List.getElem?_append_left (List.getElem?_eq_some_iff.1 hi).1]; exact hi)
    obtain ⟨c', e', hb'⟩ := hb.wired o (h ops.length o (by simp))
    refine ⟨c', ?_, hb', ?_⟩
    · rw [Parse.runOps_append, e]
      rw [Option.bind_some, Parse.runOps_cons, e']
      rfl
    · obtain ⟨-, -, hc⟩ := addWiredGate_spec e'
      rw [hc]
      simp only
      rw [← hm]
      cases hg : asBase o.1 with
      | none => by_cases hi : interactive o.1 = true <;> simp [Base.addGate, hg, hi]
      | some b => cases b <;> by_cases hi : interactive o.1 = true <;> simp [Base.addGate, hg, hi]

/-- The operators of a Bristol circuit. -/
def isOp : BoolGate → Bool
  | .and | .xor | .inv => true
  | .base _ => false

/-- The adder as a list of gates: `2 * w` inputs, operators, `w` outputs; any values satisfying the equations of
the operators add. -/
theorem adder_ops {s : List Char} (hf : fileFor w = some s) :
    ∃ (c : Base BoolGate) (mid : List Macro.Op) (outs : List Nat), adderCircuit w = some (liftBase c) ∧
      Macro.BuiltBy c (List.replicate (2 * w) Macro.scIn ++ (mid ++ outs.map Macro.scOut)) ∧ c.isMain = false ∧
      outs.length = w ∧
      (∀ (i : Nat) (o : Macro.Op), mid[i]? = some o → isOp o.1 = true ∧ o.2.length = Exec.arity o.1 ∧
        ∀ a ∈ o.2, a < 2 * w + i) ∧
      (∀ o ∈ outs, o < 2 * w + mid.length) ∧
      ∀ (val : Nat → Bool) (x y : BitVec w), (List.range (2 * w)).map val = bitsOf x ++ bitsOf y →
        (∀ (i : Nat) (o : Macro.Op), mid[i]? = some o → val (2 * w + i) = gateFn false o.1 (o.2.map val)) →
        outs.map val = bitsOf (x + y) := by
  obtain ⟨b, h1, ok, h3, h4, h5⟩ := adder_file_correct w s hf
  obtain ⟨a1, a2, a3, a4, a5⟩ := Parse.bristol_ops ok
  obtain ⟨c, e1, e2⟩ := Parse.fromBristol_ops b .subCircuit ok.inputs ok.outputs (Parse.bristol_range ok)
  have hall : Parse.allOps b .subCircuit = List.replicate (2 * w) Macro.scIn ++
      ((Parse.opsOf b.totalInputs (Parse.map0 b) b.gates).1 ++
        ((Parse.opsOf b.totalInputs (Parse.map0 b) b.gates).2.drop (b.header.wires - b.totalOutputs)).map Macro.scOut) := by
    rw [← h3]; rfl
  obtain ⟨c', f1, f2, f3⟩ := runOps_builtBy (Parse.allOps b .subCircuit) (by
    intro i o hi a ha
    rw [hall] at hi
    by_cases hlt : i < 2 * w
    · rw [List.getElem?_append_left (by simpa using hlt), List.getElem?_replicate, if_pos hlt] at hi
      cases hi
      simp at ha
    · rw [List.getElem?_append_right (by simp; omega), List.length_replicate] at hi
      by_cases hm : i - 2 * w < b.gates.length
      · rw [List.getElem?_append_left (by rw [a1]; exact hm)] at hi
        have := (a3 _ _ _ hi).2.1 a ha
        omega
      · rw [List.getElem?_append_right (by rw [a1]; omega), List.getElem?_map, Option.map_eq_some_iff] at hi
        obtain ⟨s, hs, rfl⟩ := hi
        have := a4 s (List.mem_of_getElem? hs)
        simp only [Macro.scOut, List.mem_singleton] at ha
        omega)
  rw [e2, Option.some.injEq] at f1
  subst f1
  refine ⟨c, (Parse.opsOf b.totalInputs (Parse.map0 b) b.gates).1,
    (Parse.opsOf b.totalInputs (Parse.map0 b) b.gates).2.drop (b.header.wires - b.totalOutputs), ?_, ?_, f3, ?_, ?_, ?_, ?_⟩
  rotate_left
  · rw [← hall]; exact f2
  · rw [List.length_drop, a2]
    have := ok.outputs
    omega
  · intro i o ho
    obtain ⟨q1, q2, -, k, q4⟩ := a3 i o.1 o.2 ho
    refine ⟨by rw [q4]; cases k <;> rfl, q1, fun a ha => by have := q2 a ha; omega⟩
  · intro o ho
    rw [a1, ← h3]
    exact a4 o ho
  · intro val x y hin hmid
    rw [← h5 x y]
    apply a5
    · intro i hi
      rw [h3] at hi
      rw [← hin, List.getD_eq_getElem?_getD, List.getElem?_map, List.getElem?_range hi]
      rfl
    · intro i g args hi
      rw [h3]
      exact hmid i (g, args) hi
  · unfold adderCircuit
    rw [hf, Option.bind_some, h1]
    simp only [e1]

/-- The value of a Boolean gate. -/
def toB : Val w → Bool
  | .bool b => b
  | .arith _ => false

theorem bitsOf_length (x : BitVec w) : (bitsOf x).length = w := by simp [bitsOf]

theorem positions_false {G : Type} [GateLike G] (p : G → Bool) (l : List G) (h : ∀ g ∈ l, p g = false) :
    positions p l = [] := by
  unfold positions
  rw [List.filter_eq_nil_iff]
  intro i hi
  have hi := List.mem_range.1 hi
  rw [List.getElem?_eq_getElem hi]
  simp [h _ (List.getElem_mem hi)]

section
variable {c : Base BoolGate} {mid : List Macro.Op} {outs : List Nat} {n : Nat}

theorem shape_cases (hb : Macro.BuiltBy c (List.replicate n Macro.scIn ++ (mid ++ outs.map Macro.scOut))) {v : Nat}
    {g : BoolGate} (hg : c.gates[v]? = some g) :
    (v < n ∧ g = .base .subCircuitInput ∧ c.parents v = []) ∨
    (∃ i o, v = n + i ∧ mid[i]? = some o ∧ g = o.1 ∧ c.parents v = o.2) ∨
    (∃ j o, v = n + mid.length + j ∧ outs[j]? = some o ∧ g = .base .subCircuitOutput ∧ c.parents v = [o]) := by
  rw [hb.gates, List.getElem?_map, Option.map_eq_some_iff] at hg
  obtain ⟨o, ho, rfl⟩ := hg
  rw [hb.parents v o ho]
  by_cases h1 : v < n
  · rw [List.getElem?_append_left (by simpa using h1), List.getElem?_replicate, if_pos h1] at ho
    cases ho
    exact .inl ⟨h1, rfl, rfl⟩
  · rw [List.getElem?_append_right (by simp; omega), List.length_replicate] at ho
    by_cases h2 : v - n < mid.length
    · rw [List.getElem?_append_left h2] at ho
      exact .inr (.inl ⟨v - n, o, by omega, ho, rfl, rfl⟩)
    · rw [List.getElem?_append_right (by omega), List.getElem?_map, Option.map_eq_some_iff] at ho
      obtain ⟨x, hx, rfl⟩ := ho
      exact .inr (.inr ⟨v - n - mid.length, x, by omega, hx, rfl, rfl⟩)

theorem isOp_cases {g : BoolGate} (h : isOp g = true) : g = .and ∨ g = .xor ∨ g = .inv := by
  cases g <;> simp_all [isOp]

theorem shape_lists (hb : Macro.BuiltBy c (List.replicate n Macro.scIn ++ (mid ++ outs.map Macro.scOut)))
    (hmid : ∀ o ∈ mid, isOp o.1 = true) :
    c.inputGates = [] ∧ c.constantGates = [] ∧ c.scInputGates = List.range n ∧
      c.scOutputGates = List.range' (n + mid.length) outs.length ∧ c.gates.length = n + mid.length + outs.length := by
  have hg : c.gates = List.replicate n (.base .subCircuitInput) ++
      (mid.map (·.1) ++ List.replicate outs.length (.base .subCircuitOutput)) := by
    rw [hb.gates, List.map_append, List.map_append, List.map_replicate, List.map_map]
    congr 2
    rw [List.eq_replicate_iff]
    refine ⟨by simp, ?_⟩
    intro x hx
    obtain ⟨s, -, rfl⟩ := List.mem_map.1 hx
    rfl
  have hop : ∀ g ∈ mid.map (·.1), asBase g = none := by
    intro g hg
    obtain ⟨o, ho, rfl⟩ := List.mem_map.1 hg
    rcases isOp_cases (hmid o ho) with h | h | h <;> rw [h] <;> rfl
  have hnone : ∀ (p : BoolGate → Bool), (∀ g, asBase g = none → p g = false) → p (.base .subCircuitInput) = false →
      p (.base .subCircuitOutput) = false → positions p c.gates = [] := by
    intro p h0 h1 h2
    apply positions_false
    intro g hm
    rw [hg, List.mem_append, List.mem_append] at hm
    rcases hm with hm | hm | hm
    · rw [List.eq_of_mem_replicate hm]; exact h1
    · exact h0 g (hop g hm)
    · rw [List.eq_of_mem_replicate hm]; exact h2
  refine ⟨?_, ?_, ?_, ?_, ?_⟩
  · rw [hb.book.inputs]
    exact hnone _ (fun g h => by simp [ofKind, h]) rfl rfl
  · rw [hb.book.constants]
    exact hnone _ (fun g h => by simp [ofKind, h]) rfl rfl
  · have := hb.scBook
    unfold ScBookOk at this
    rw [this, hg]
    refine Parse.positions_front _ _ _ _ ?_ rfl
    intro x hx
    rcases List.mem_append.1 hx with hx | hx
    · simp [ofKind, hop x hx]
    · rw [List.eq_of_mem_replicate hx]; rfl
  · rw [hb.book.scOutputs, hg, ← List.append_assoc, Parse.positions_block _ _ _ _ ?_ rfl]
    · simp
    · intro x hx
      rcases List.mem_append.1 hx with hx | hx
      · rw [List.eq_of_mem_replicate hx]; rfl
      · simp [ofKind, hop x hx]
  · rw [hg]; simp; omega

theorem lift_get (v : Nat) : (liftBase c : Base (Gate w)).gates[v]? = (c.gates[v]?).map liftGate := by
  simp [liftBase]

theorem lift_parents (v : Nat) : (liftBase c : Base (Gate w)).parents v = c.parents v := rfl

theorem shape_sub (hb : Macro.BuiltBy c (List.replicate n Macro.scIn ++ (mid ++ outs.map Macro.scOut)))
    (hm : c.isMain = false)
    (hmid : ∀ (i : Nat) (o : Macro.Op), mid[i]? = some o → isOp o.1 = true ∧ o.2.length = Exec.arity o.1 ∧
        ∀ a ∈ o.2, a < n + i) :
    SubOk (liftBase c : Base (Gate w)) id ∧
    (∀ (v : Nat) (g : Gate w), (liftBase c : Base (Gate w)).gates[v]? = some g →
      (v ∈ (liftBase c : Base (Gate w)).scInputGates ↔ asBase g = some .subCircuitInput)) ∧
    (∀ (v : Nat) (g : Gate w), (liftBase c : Base (Gate w)).gates[v]? = some g →
      v ∉ (liftBase c : Base (Gate w)).scInputGates →
      ((liftBase c : Base (Gate w)).parents v = [] ↔ isSource g = true) ∧ isCross g = false) := by
  obtain ⟨l1, l2, l3, l4, l5⟩ := shape_lists hb fun o ho => by
    obtain ⟨i, hi⟩ := List.mem_iff_getElem?.1 ho
    exact (hmid i o hi).1
  have ne : ∀ (i : Nat) (o : Macro.Op), mid[i]? = some o → o.2 ≠ [] := by
    intro i o ho h
    obtain ⟨h1, h2, -⟩ := hmid i o ho
    rw [h] at h2
    rcases isOp_cases h1 with e | e | e <;> rw [e] at h2 <;> simp [Exec.arity] at h2
  refine ⟨⟨hm, l1, ?_, ?_, ?_, ?_, ?_⟩, ?_, ?_⟩
  · intro e he
    obtain ⟨h1, h2⟩ := hb.edges e he
    simp only [liftBase, List.length_map]
    omega
  · intro e he
    exact (hb.edges e he).1
  · simp only [liftBase, l2, l3, List.nil_append]
    exact List.nodup_range
  · intro g hg
    simp only [liftBase, l2, l3, List.nil_append, List.mem_range, List.length_map] at hg ⊢
    omega
  · intro g hg
    simp only [liftBase, List.length_map] at hg
    simp only [lift_parents]
    simp only [liftBase, l2, l3, List.nil_append, List.mem_range]
    rcases shape_cases hb (List.getElem?_eq_getElem hg) with ⟨h1, -, h3⟩ | ⟨i, o, h1, h2, -, h4⟩ | ⟨j, o, h1, h2, -, h4⟩
    · simp [h1, h3]
    · have := ne i o h2
      simp only [h4, this, false_iff]; omega
    · simp only [h4, List.cons_ne_nil, false_iff]; omega
  · intro v g hg
    rw [lift_get, Option.map_eq_some_iff] at hg
    obtain ⟨g0, hg, rfl⟩ := hg
    simp only [liftBase, l3, List.mem_range]
    rcases shape_cases hb hg with ⟨h1, h2, h3⟩ | ⟨i, o, h1, h2, h3, h4⟩ | ⟨j, o, h1, h2, h3, h4⟩
    · simp [h1, h2, liftGate, liftB, asBase]
    · rcases isOp_cases (hmid i o h2).1 with e | e | e <;> rw [h3, e] <;> simp [liftGate, asBase] <;> omega
    · rw [h3]; simp [liftGate, liftB, asBase]; omega
  · intro v g hg hv
    rw [lift_get, Option.map_eq_some_iff] at hg
    obtain ⟨g0, hg, rfl⟩ := hg
    simp only [liftBase, l3, List.mem_range] at hv
    rw [lift_parents]
    rcases shape_cases hb hg with ⟨h1, h2, h3⟩ | ⟨i, o, h1, h2, h3, h4⟩ | ⟨j, o, h1, h2, h3, h4⟩
    · omega
    · have := ne i o h2
      rcases isOp_cases (hmid i o h2).1 with e | e | e <;> rw [h3, e] <;>
        simp [liftGate, asBase, isSource, isCross, h4, this]
    · rw [h3]; simp [liftGate, liftB, asBase, isSource, isCross, h4]

end

theorem comm_gate {g : BoolGate} (h : isOp g = true) (l : List Bool) (hl : l.length = Exec.arity g) :
    gateFn false g l.reverse = gateFn false g l := by
  rcases isOp_cases h with rfl | rfl | rfl
  · match l, hl with
    | [a, b], _ => simp [gateFn, Bool.and_comm]
  · match l, hl with
    | [a, b], _ => simp [gateFn, Bool.xor_comm]
  · match l, hl with
    | [a], _ => simp [gateFn]

/-- The operators in the mixed circuit compute what they compute in the Bristol circuit. -/
theorem op_value {m : Multi (Gate w)} {inp : List (Val w)} {val : Node → Val w} {part : Node → BitVec w} {v : Node}
    {g : BoolGate} (hg : isOp g = true) (h : MixedEq m inp val part v (liftGate g)) :
    val v = .bool (gateFn false g ((m.parents v).map fun u => toB (val u))) := by
  rcases isOp_cases hg with rfl | rfl | rfl
  · obtain ⟨p, q, a, b, hp, ha, hb, hv⟩ := h
    simp [hp, ha, hb, hv, gateFn, toB]
  · obtain ⟨p, q, a, b, hp, ha, hb, hv⟩ := h
    simp [hp, ha, hb, hv, gateFn, toB]
  · obtain ⟨p, a, hp, ha, hv⟩ := h
    simp [hp, ha, hv, gateFn, toB]

/-- `depth_optimized_add` succeeds and adds. -/
theorem depthOptimizedAdd_ok {s : List Char} (hf : fileFor w = some s) {bc : Base (Gate w)} {ty : Nat → Ty} (h : MOk bc ty)
    (as bs : List Nat) (la : as.length = w) (lb : bs.length = w)
    (hin : ∀ i ∈ as ++ bs, i < bc.gates.length ∧ ty i = .bool) :
    ∃ bc' outs ty', depthOptimizedAdd bc as bs = some (bc', outs) ∧ MOk bc' ty' ∧ Ext bc ty bc' ty' ∧
      outs.length = w ∧ (∀ o ∈ outs, o < bc'.gates.length ∧ ty' o = .bool) ∧
      (∀ (i : Nat) (g : Gate w), bc.gates.length ≤ i → bc'.gates[i]? = some g →
        g = .base .identity ∨ ∃ b : BoolGate, g = .bool b) ∧
      (∀ i, bc.gates.length ≤ i → i < bc'.gates.length → ∀ u ∈ bc'.parents i, bc.gates.length ≤ u ∨ u ∈ as ++ bs) ∧
      (∀ o ∈ outs, bc.gates.length ≤ o) ∧
      ∀ m, Within bc' m → ∀ inp val part, Solves m inp val part → ∀ x y : BitVec w,
        as.map (fun o => val (0, o)) = (bitsOf x).map .bool → bs.map (fun o => val (0, o)) = (bitsOf y).map .bool →
        outs.map (fun o => val (0, o)) = (bitsOf (x + y)).map .bool := by
  obtain ⟨c, mid, outs, ea, hb, hmain, lo, hmid, hout, hadd⟩ := adder_ops hf
  obtain ⟨sub, hkind, hsrc⟩ := shape_sub (w := w) hb hmain hmid
  obtain ⟨l1, l2, l3, l4, l5⟩ := shape_lists hb fun o ho => by
    obtain ⟨i, hi⟩ := List.mem_iff_getElem?.1 ho
    exact (hmid i o hi).1
  obtain ⟨rank, ok⟩ := h.ok
  have hsci : (liftBase c : Base (Gate w)).scInputGates = List.range (2 * w) := l3
  obtain ⟨s', mp, rank', e, ok', hsimd, hpre, hold, hnew, hinp, hinj, hsur⟩ := single_addSub ok sub rfl hkind hsrc (as ++ bs)
    (fun i hi => (hin i hi).1) (by rw [hsci]; simp [la, lb]; omega)
  have hll : (liftBase c : Base (Gate w)).gates.length = c.gates.length := by simp [liftBase]
  have hsco : (liftBase c : Base (Gate w)).scOutputGates = List.range' (2 * w + mid.length) outs.length := l4
  have hext : Ext bc ty s' (fun i => if i < bc.gates.length then ty i else .bool) :=
    ⟨hpre, fun i hi => ⟨hold i hi, if_pos hi⟩⟩
  have hinl : (as ++ bs).length = 2 * w := by simp [la, lb]; omega
  -- the copied gates
  have hgate : ∀ (v : Nat) (g : BoolGate), c.gates[v]? = some g → bc.gates.length ≤ mp v ∧ mp v < s'.gates.length ∧
      ((v < 2 * w ∧ s'.gates[mp v]? = some (.base .identity) ∧ ∃ a, (as ++ bs)[v]? = some a ∧ s'.parents (mp v) = [a]) ∨
      (∃ i o, v = 2 * w + i ∧ mid[i]? = some o ∧ s'.gates[mp v]? = some (liftGate o.1) ∧
        s'.parents (mp v) = (o.2.map mp).reverse) ∨
      (∃ j o, v = 2 * w + mid.length + j ∧ outs[j]? = some o ∧ s'.gates[mp v]? = some (.base .identity) ∧
        s'.parents (mp v) = [mp o])) := by
    intro v g hg
    obtain ⟨n1, n2, n3⟩ := hnew v (liftGate g) (by rw [lift_get, hg]; rfl)
    refine ⟨n1, (List.getElem?_eq_some_iff.1 n2).1, ?_⟩
    rw [hsci, List.mem_range, lift_parents] at n3
    rcases shape_cases hb hg with ⟨h1, rfl, h3⟩ | ⟨i, o, h1, h2, rfl, h4⟩ | ⟨j, o, h1, h2, rfl, h4⟩
    · left
      have ha : (as ++ bs)[v]? = some ((as ++ bs)[v]'(by omega)) := List.getElem?_eq_getElem (by omega)
      exact ⟨h1, n2, _, ha, hinp v v _ (by rw [hsci, List.getElem?_range h1]) ha⟩
    · right; left
      refine ⟨i, o, h1, h2, ?_, ?_⟩
      · rw [n2]
        rcases isOp_cases (hmid i o h2).1 with e | e | e <;> rw [e] <;> rfl
      · rw [n3 (by omega), h4]
    · right; right
      refine ⟨j, o, h1, h2, n2, ?_⟩
      rw [n3 (by omega), h4]
      rfl
  have hty : ∀ u, bc.gates.length ≤ mp u → (fun i => if i < bc.gates.length then ty i else Ty.bool) (mp u) = .bool := by
    intro u hu
    exact if_neg (by omega)
  have hcg : ∀ v, v < 2 * w + mid.length + outs.length → ∃ g, c.gates[v]? = some g := fun v hv =>
    ⟨_, List.getElem?_eq_getElem (by omega)⟩
  have hge : ∀ v, v < 2 * w + mid.length + outs.length → bc.gates.length ≤ mp v := fun v hv => by
    obtain ⟨g, hg⟩ := hcg v hv
    exact (hgate v g hg).1
  refine ⟨s', (List.range' (2 * w + mid.length) outs.length).map mp,
    fun i => if i < bc.gates.length then ty i else .bool, ?_, ⟨⟨rank', ok'⟩, hsimd.trans h.simd, ?_⟩, hext, ?_, ?_, ?_, ?_, ?_, ?_⟩
  · unfold depthOptimizedAdd
    rw [if_pos ⟨la, lb⟩, ea, Option.bind_eq_bind, Option.bind_some, e, hsco]
  · intro i g hg
    by_cases hi : i < bc.gates.length
    · rw [prefix_get hpre hi] at hg
      exact typed_ext ok.edges hext hi (h.typed i g hg)
    · obtain ⟨v, hv, rfl⟩ := hsur i (by omega) (List.getElem?_eq_some_iff.1 hg).1
      rw [hll] at hv
      obtain ⟨g0, hg0⟩ := hcg v (by omega)
      obtain ⟨n1, -, n2⟩ := hgate v g0 hg0
      rcases n2 with ⟨h1, h2, a, ha, h3⟩ | ⟨i, o, h1, h2, h3, h4⟩ | ⟨j, o, h1, h2, h3, h4⟩
      · rw [h2, Option.some.injEq] at hg
        subst hg
        obtain ⟨q1, q2⟩ := hin a (List.mem_of_getElem? ha)
        exact ⟨(0, a), by rw [single_parents, h3]; rfl, by rw [hty v n1]; simp [q1, q2]⟩
      · rw [h3, Option.some.injEq] at hg
        subst hg
        obtain ⟨q1, q2, q3⟩ := hmid i o h2
        have hil := (List.getElem?_eq_some_iff.1 h2).1
        have hb' : ∀ a ∈ o.2, (fun i => if i < bc.gates.length then ty i else Ty.bool) (mp a) = .bool := fun a ha =>
          hty a (hge a (by have := q3 a ha; omega))
        obtain ⟨g, args⟩ := o
        simp only at q1 q2 q3 h4 hb' ⊢
        rcases isOp_cases q1 with rfl | rfl | rfl
        · match args, q2 with
          | [a, b], _ =>
            exact ⟨(0, mp b), (0, mp a), by rw [single_parents, h4]; rfl, hb' b (by simp), hb' a (by simp), hty v n1⟩
        · match args, q2 with
          | [a, b], _ =>
            exact ⟨(0, mp b), (0, mp a), by rw [single_parents, h4]; rfl, hb' b (by simp), hb' a (by simp), hty v n1⟩
        · match args, q2 with
          | [a], _ => exact ⟨(0, mp a), by rw [single_parents, h4]; rfl, hb' a (by simp), hty v n1⟩
      · rw [h3, Option.some.injEq] at hg
        subst hg
        have := hout o (List.mem_of_getElem? h2)
        exact ⟨(0, mp o), by rw [single_parents, h4]; rfl, by rw [hty v n1, hty o (hge o (by omega))]⟩
  · simp [lo]
  · intro o ho
    obtain ⟨v, hv, rfl⟩ := List.mem_map.1 ho
    rw [List.mem_range'_1] at hv
    obtain ⟨g0, hg0⟩ := hcg v (by omega)
    obtain ⟨n1, n2, -⟩ := hgate v g0 hg0
    exact ⟨n2, hty v n1⟩
  · intro i g hi hg
    obtain ⟨v, hv, rfl⟩ := hsur i hi (List.getElem?_eq_some_iff.1 hg).1
    rw [hll] at hv
    obtain ⟨g0, hg0⟩ := hcg v (by omega)
    obtain ⟨n1, -, n2⟩ := hgate v g0 hg0
    rcases n2 with ⟨h1, h2, a, ha, h3⟩ | ⟨i, o, h1, h2, h3, h4⟩ | ⟨j, o, h1, h2, h3, h4⟩
    · rw [h2] at hg; cases hg; exact .inl rfl
    · rw [h3, Option.some.injEq] at hg
      subst hg
      rcases isOp_cases (hmid i o h2).1 with e | e | e <;> rw [e] <;> exact .inr ⟨_, rfl⟩
    · rw [h3] at hg; cases hg; exact .inl rfl
  · intro i hi hi' u hu
    obtain ⟨v, hv, rfl⟩ := hsur i hi hi'
    rw [hll] at hv
    obtain ⟨g0, hg0⟩ := hcg v (by omega)
    obtain ⟨n1, -, n2⟩ := hgate v g0 hg0
    rcases n2 with ⟨h1, h2, a, ha, h3⟩ | ⟨i, o, h1, h2, h3, h4⟩ | ⟨j, o, h1, h2, h3, h4⟩
    · rw [h3, List.mem_singleton] at hu
      rw [hu]
      exact .inr (List.mem_of_getElem? ha)
    · rw [h4, List.mem_reverse, List.mem_map] at hu
      obtain ⟨y, hy, rfl⟩ := hu
      have := (hmid i o h2).2.2 y hy
      have := (List.getElem?_eq_some_iff.1 h2).1
      exact .inl (hge y (by omega))
    · rw [h4, List.mem_singleton] at hu
      rw [hu]
      have := hout o (List.mem_of_getElem? h2)
      exact .inl (hge o (by omega))
  · intro o ho
    obtain ⟨v, hv, rfl⟩ := List.mem_map.1 ho
    rw [List.mem_range'_1] at hv
    exact hge v (by omega)
  · intro m hm inp val part hs x y hx hy
    have hall : (as ++ bs).map (fun o => val (0, o)) = (bitsOf x ++ bitsOf y).map .bool := by
      rw [List.map_append, List.map_append, hx, hy]
    have hbits : ∀ v < 2 * w, val (0, mp v) = .bool ((bitsOf x ++ bitsOf y).getD v false) := by
      intro v hv
      obtain ⟨g0, hg0⟩ := hcg v (by omega)
      obtain ⟨n1, n2, n3⟩ := hgate v g0 hg0
      obtain ⟨h1, h2, a, ha, h3⟩ | ⟨i, o, h1, -⟩ | ⟨j, o, h1, -⟩ := n3
      · obtain ⟨q1, q2⟩ := hm (mp v) n2
        obtain ⟨p, hp, hv'⟩ := hs (0, mp v) _ (by rw [q1, h2])
        rw [q2, h3] at hp
        simp only [List.map_cons, List.map_nil, List.cons.injEq, and_true] at hp
        rw [hv', ← hp]
        have := congrArg (fun l => l[v]?) hall
        simp only [List.getElem?_map, ha, Option.map_some] at this
        rw [List.getElem?_eq_getElem (by simp [bitsOf_length]; omega)] at this
        simp only [Option.map_some, Option.some.injEq] at this
        rw [this, List.getD_eq_getElem?_getD, List.getElem?_eq_getElem (by simp [bitsOf_length]; omega)]
        rfl
      · omega
      · omega
    have hops : ∀ (i : Nat) (o : Macro.Op), mid[i]? = some o →
        val (0, mp (2 * w + i)) = .bool (gateFn false o.1 (o.2.map fun u => toB (val (0, mp u)))) := by
      intro i o ho
      have hil := (List.getElem?_eq_some_iff.1 ho).1
      obtain ⟨g0, hg0⟩ := hcg (2 * w + i) (by omega)
      obtain ⟨n1, n2, n3⟩ := hgate _ g0 hg0
      obtain ⟨h1, -⟩ | ⟨i', o', h1, h2, h3, h4⟩ | ⟨j, o', h1, -⟩ := n3
      · omega
      · have : i' = i := by omega
        subst this
        rw [ho, Option.some.injEq] at h2
        subst h2
        obtain ⟨q1, q2⟩ := hm _ n2
        have hv := op_value (hmid i' o ho).1 (hs (0, mp (2 * w + i')) _ (by rw [q1, h3]))
        rw [hv, q2, h4, List.map_reverse, List.map_reverse, comm_gate (hmid i' o ho).1]
        · rw [List.map_map, List.map_map]; rfl
        · simp [(hmid i' o ho).2.1]
      · omega
    have hbool : ∀ v < 2 * w + mid.length, ∃ b, val (0, mp v) = .bool b := by
      intro v hv
      by_cases h1 : v < 2 * w
      · exact ⟨_, hbits v h1⟩
      · have := hops (v - 2 * w) _ (List.getElem?_eq_getElem (by omega))
        rw [show 2 * w + (v - 2 * w) = v by omega] at this
        exact ⟨_, this⟩
    have key := hadd (fun v => toB (val (0, mp v))) x y ?_ ?_
    · rw [← key, List.map_map, List.map_map]
      apply List.ext_getElem
      · simp
      · intro j hj hj'
        simp only [List.length_map, List.length_range'] at hj
        simp only [List.getElem_map, List.getElem_range', Nat.one_mul, Function.comp_apply]
        obtain ⟨g0, hg0⟩ := hcg (2 * w + mid.length + j) (by omega)
        obtain ⟨n1, n2, n3⟩ := hgate _ g0 hg0
        obtain ⟨h1, -⟩ | ⟨i', o', h1, h2, -⟩ | ⟨j', o', h1, h2, h3, h4⟩ := n3
        · omega
        · have := (List.getElem?_eq_some_iff.1 h2).1; omega
        · have : j' = j := by omega
          subst this
          rw [List.getElem?_eq_getElem hj, Option.some.injEq] at h2
          obtain ⟨q1, q2⟩ := hm _ n2
          obtain ⟨p, hp, hv'⟩ := hs _ _ (by rw [q1, h3])
          rw [q2, h4] at hp
          simp only [List.map_cons, List.map_nil, List.cons.injEq, and_true] at hp
          rw [hv', ← hp, h2]
          obtain ⟨b, hb⟩ := hbool o' (hout o' (by rw [← h2]; exact List.getElem_mem hj))
          rw [hb]; rfl
    · apply List.ext_getElem
      · simp [bitsOf_length]; omega
      · intro v hv hv'
        simp only [List.length_map, List.length_range] at hv
        simp only [List.getElem_map, List.getElem_range, hbits v hv, toB]
        rw [List.getD_eq_getElem?_getD, List.getElem?_eq_getElem hv']
        rfl
    · intro i o ho
      simp only [hops i o ho, toB]

/-! ### a2b -/

/-- **C62**: `a2b` succeeds on a well-formed circuit, gives one, and the returned gates carry the bits of the
operand in every circuit that contains the gates, for every choice of the random part. -/
theorem a2b_circuit {s : List Char} (hf : fileFor w = some s) {bc : Base (Gate w)} {ty : Nat → Ty} (h : MOk bc ty)
    (a : Nat) (ha : a < bc.gates.length) (hta : ty a = .arith) :
    ∃ bc' outs ty', a2b bc a = some (bc', outs) ∧ MOk bc' ty' ∧ Ext bc ty bc' ty' ∧
      outs.length = w ∧ (∀ o ∈ outs, o < bc'.gates.length ∧ ty' o = .bool) ∧
      bc'.gates[bc.gates.length]? = some (.conv .snd) ∧ bc'.gates[bc.gates.length + 1]? = some (.conv .rcv) ∧
      bc'.parents bc.gates.length = [a] ∧ bc'.parents (bc.gates.length + 1) = [a] ∧
      (∀ (i : Nat) (g : Gate w), bc.gates.length + 2 ≤ i → bc'.gates[i]? = some g →
        g ≠ .conv .snd ∧ g ≠ .conv .rcv ∧ g ≠ .conv .b2a ∧ g ≠ .base .output ∧ isSource g = false) ∧
      (∀ i, bc.gates.length + 2 ≤ i → i < bc'.gates.length → ∀ u ∈ bc'.parents i, bc.gates.length ≤ u) ∧
      (∀ o ∈ outs, bc.gates.length + 2 ≤ o) ∧
      ∀ m, Within bc' m → ∀ inp val part, Solves m inp val part → ∀ x : BitVec w, val (0, a) = .arith x →
        outs.map (fun o => val (0, o)) = (bitsOf x).map .bool := by
  have src1 : ∀ (g : Conv) (l : List Nat), l ≠ [] → (l = [] ↔ isSource (.conv g : Gate w) = true) := by
    intro g l hl; simp [hl, isSource, asBase]
  have cr : ∀ g : Conv, isCross (.conv g : Gate w) = false := fun g => by simp [isCross, asBase]
  obtain ⟨c1, ty1, e1, ok1, x1, g1, p1, t1⟩ := mok_addWired h (.conv .snd) [a] .half (by simpa using ha) (src1 _ _ (by simp)) (cr _)
    (by intro c' ty' hx hp ht
        exact ⟨(0, a), by rw [single_parents, hp]; rfl, by rw [← hta]; exact (hx.2 a ha).2, ht⟩)
  have ln1 : c1.gates.length = bc.gates.length + 1 := by rw [g1]; simp
  obtain ⟨c2, ty2, e2, ok2, x2, g2, p2, t2⟩ := mok_addWired ok1 (.conv .rcv) [a] .half (by simp; omega) (src1 _ _ (by simp)) (cr _)
    (by intro c' ty' hx hp ht
        exact ⟨(0, a), by rw [single_parents, hp]; rfl, by rw [← hta]; exact ((x1.trans hx).2 a ha).2, ht⟩)
  have ln2 : c2.gates.length = bc.gates.length + 2 := by rw [g2]; simp [ln1]
  rw [ln1] at e2 p2 t2
  have G1 : c2.gates[bc.gates.length]? = some (.conv .snd) := x2.gate (by rw [g1]; simp)
  have G2 : c2.gates[bc.gates.length + 1]? = some (.conv .rcv) := by rw [g2, ← ln1]; simp
  have P1 : c2.parents bc.gates.length = [a] := by rw [(x2.2 _ (by omega)).1, p1]
  obtain ⟨c3, ty3, e3, ok3, x3, g3, p3, t3⟩ := mok_addWired ok2 (.conv .select) [bc.gates.length, bc.gates.length + 1] .word
    (by simp; omega) (src1 _ _ (by simp)) (cr _)
    (by intro c' ty' hx hp ht
        refine ⟨(0, bc.gates.length), (0, bc.gates.length + 1), (0, a), by rw [single_parents, hp]; rfl, ?_, ?_, .inl ⟨?_, ?_⟩, ht⟩
        · rw [single_parents, (hx.2 _ (by omega)).1, P1]; rfl
        · rw [single_parents, (hx.2 _ (by omega)).1, p2]; rfl
        · rw [single_gate', hx.gate G1]
        · rw [single_gate', hx.gate G2])
  have ln3 : c3.gates.length = bc.gates.length + 3 := by rw [g3]; simp [ln2]
  rw [ln2] at e3 p3 t3
  obtain ⟨c4, ty4, e4, ok4, x4, g4, p4, t4⟩ := mok_addWired ok3 (.conv .select) [bc.gates.length + 1, bc.gates.length] .word
    (by simp; omega) (src1 _ _ (by simp)) (cr _)
    (by intro c' ty' hx hp ht
        have hx' := x3.trans hx
        refine ⟨(0, bc.gates.length + 1), (0, bc.gates.length), (0, a), by rw [single_parents, hp]; rfl, ?_, ?_, .inr ⟨?_, ?_⟩, ht⟩
        · rw [single_parents, (hx'.2 _ (by omega)).1, p2]; rfl
        · rw [single_parents, (hx'.2 _ (by omega)).1, P1]; rfl
        · rw [single_gate', hx'.gate G2]
        · rw [single_gate', hx'.gate G1])
  have ln4 : c4.gates.length = bc.gates.length + 4 := by rw [g4]; simp [ln3]
  rw [ln3] at e4 p4 t4
  obtain ⟨c5, s0, ty5, e5, ok5, x5, l5, b5, g5, r5, w5, v5⟩ := splitBits_ok ok4 (bc.gates.length + 2) (by omega)
    (by rw [(x4.2 _ (by omega)).2, t3]) (List.range w) (by simp)
  obtain ⟨c6, s1, ty6, e6, ok6, x6, l6, b6, g6, r6, w6, v6⟩ := splitBits_ok ok5 (bc.gates.length + 3)
    (by have := x5.le; omega) (by rw [(x5.2 _ (by omega)).2, t4]) (List.range w) (by simp)
  rw [List.length_range] at l5 l6
  obtain ⟨c7, outs, ty7, e7, ok7, x7, l7, b7, k7, r7, n7, v7⟩ := depthOptimizedAdd_ok hf ok6 s0 s1 l5 l6 (by
    intro i hi
    rcases List.mem_append.1 hi with hi | hi
    · obtain ⟨q1, q2⟩ := b5 i hi
      exact ⟨Nat.lt_of_lt_of_le q1 x6.le, by rw [(x6.2 i q1).2, q2]⟩
    · exact b6 i hi)
  have x57 := (x5.trans x6).trans x7
  have x27 := (x3.trans x4).trans x57
  refine ⟨c7, outs, ty7, ?_, ok7, (x1.trans x2).trans x27, l7, b7, x27.gate G1, x27.gate G2, ?_, ?_, ?_, ?_, ?_, ?_⟩
  · simp [a2b, e1, e2, e3, e4, e5, e6, e7]
  · rw [(x27.2 _ (by omega)).1, P1]
  · rw [(x27.2 _ (by omega)).1, p2]
  · intro i g hi hg
    by_cases h6 : i < c6.gates.length
    · rw [prefix_get x7.1 h6, g6, g5, g4, g3] at hg
      have : g ∈ [(.conv .select : Gate w)] ++ ([(.conv .select : Gate w)] ++ ((List.range w).map (fun i => (.conv (.selectBit i) : Gate w)) ++
          (List.range w).map (fun i => (.conv (.selectBit i) : Gate w)))) := by
        rw [List.append_assoc, List.append_assoc, List.append_assoc, List.getElem?_append_right (by omega)] at hg
        exact List.mem_of_getElem? hg
      simp only [List.mem_append, List.mem_singleton, List.mem_map] at this
      rcases this with rfl | rfl | ⟨j, -, rfl⟩ | ⟨j, -, rfl⟩ <;> simp [isSource, asBase]
    · rcases k7 i g (by omega) hg with rfl | ⟨b, rfl⟩ <;> simp [isSource, asBase]
  · intro i hi hi' u hu
    have hl5 := x5.le
    have hl6 := x6.le
    by_cases h6 : i < c6.gates.length
    · rw [(x7.2 i h6).1] at hu
      by_cases h5 : i < c5.gates.length
      · rw [(x6.2 i h5).1] at hu
        by_cases h4 : i < c4.gates.length
        · rw [(x5.2 i h4).1] at hu
          rcases (by omega : i = bc.gates.length + 2 ∨ i = bc.gates.length + 3) with rfl | rfl
          · rw [(x4.2 _ (by omega)).1, p3] at hu
            simp at hu; omega
          · rw [p4] at hu
            simp at hu; omega
        · rw [r5 i (by omega) h5, List.mem_singleton] at hu
          omega
      · rw [r6 i (by omega) h6, List.mem_singleton] at hu
        omega
    · rcases r7 i (by omega) hi' u hu with h | h
      · omega
      · rcases List.mem_append.1 h with h | h
        · have := w5 u h; omega
        · have := w6 u h; omega
  · intro o ho
    have hl5 := x5.le
    have hl6 := x6.le
    have := n7 o ho
    omega
  · intro m hm inp val part hs x hx
    have hm6 := Within.mono x7 hm
    have hm5 := Within.mono x6 hm6
    have hm4 := Within.mono x5 hm5
    have hm3 := Within.mono x4 hm4
    have hm2 := Within.mono x3 hm3
    have sel : ∀ (k s r : Nat) (y : BitVec w), m.gate? (0, k) = some (.conv .select) → m.parents (0, k) = [(0, s), (0, r)] →
        m.parents (0, s) = [(0, a)] →
        (if m.gate? (0, s) = some (.conv .snd) then part (0, a) else x - part (0, a)) = y → val (0, k) = .arith y := by
      intro k s r y hg hp hps hy
      obtain ⟨s', r', p, x', e1, e2, e3, e4⟩ := hs _ _ hg
      rw [hp] at e1
      simp only [List.cons.injEq, and_true] at e1
      rw [← e1.1, hps] at e2
      simp only [List.cons.injEq, and_true] at e2
      rw [← e2, hx] at e3
      cases e3
      rw [e4, ← e1.1, ← e2, hy]
    obtain ⟨q1, q2⟩ := hm2 bc.gates.length (by omega)
    obtain ⟨r1, r2⟩ := hm2 (bc.gates.length + 1) (by omega)
    have V2 : val (0, bc.gates.length + 2) = .arith (part (0, a)) := by
      obtain ⟨u1, u2⟩ := hm3 (bc.gates.length + 2) (by omega)
      refine sel _ bc.gates.length (bc.gates.length + 1) _ ?_ ?_ ?_ ?_
      · rw [u1, g3, ← ln2]; simp
      · rw [u2, p3]; rfl
      · rw [q2, P1]; rfl
      · rw [q1, G1]; simp
    have V3 : val (0, bc.gates.length + 3) = .arith (x - part (0, a)) := by
      obtain ⟨u1, u2⟩ := hm4 (bc.gates.length + 3) (by omega)
      refine sel _ (bc.gates.length + 1) bc.gates.length _ ?_ ?_ ?_ ?_
      · rw [u1, g4, ← ln3]; simp
      · rw [u2, p4]; rfl
      · rw [r2, p2]; rfl
      · rw [r1, G2]; simp
    have := v7 m hm inp val part hs (part (0, a)) (x - part (0, a))
      (by rw [v5 m hm5 inp val part hs _ V2]; simp [bitsOf]) (by rw [v6 m hm6 inp val part hs _ V3]; simp [bitsOf])
    rw [this]
    congr 2
    rw [BitVec.add_comm, BitVec.sub_add_cancel]

end Verif.Mixed
