import Verif.Parse.Props
import Verif.Exec.Calls
import Verif.Exec.Built

/-!
C17: conversion of a parsed Bristol description into a circuit.
-/
set_option autoImplicit false

namespace Verif.Parse

open Verif.Circuit Verif.Exec Verif.Gmw Verif.Proc

/-! ### Model -/

/-- The result of a Rust function that can return an error or panic. -/
inductive Res (α : Type) where
  | ok (a : α)
  | error
  | panic

def Res.bind {α β : Type} : Res α → (α → Res β) → Res β
  | .ok a, f => f a
  | .error, _ => .error
  | .panic, _ => .panic

/-- base_circuit.rs:313-317 `Load`. -/
inductive Load where
  | circuit
  | subCircuit

/-- base_circuit.rs:336-342. -/
def Load.input : Load → BoolGate
  | .circuit => .base .input
  | .subCircuit => .base .subCircuitInput

def Load.output : Load → BoolGate
  | .circuit => .base .output
  | .subCircuit => .base .subCircuitOutput

/-- boolean_gmw.rs:302-310 `From<&bristol::Gate> for BooleanGate`. -/
def toGate : Kind → BoolGate
  | .and => .and
  | .xor => .xor
  | .inv => .inv

/-- bristol.rs:44-50. -/
def Circuit.totalInputs (b : Circuit) : Nat := b.header.inputWires.sum
def Circuit.totalOutputs (b : Circuit) : Nat := b.header.outputWires.sum

/-- base_circuit.rs:343-346: the input gates; `k` wires are already mapped, `n` remain. -/
def addInputs (g : BoolGate) : Nat → Nat → Base BoolGate → List Nat → Base BoolGate × List Nat
  | _, 0, c, map => (c, map)
  | k, n + 1, c, map =>
    let r := c.addGate g
    addInputs g (k + 1) n r.1 (map.set k r.2)

/-- base_circuit.rs:350-355. -/
def setOuts (id : Nat) : List Nat → List Nat → Option (List Nat)
  | [], map => some map
  | w :: ws, map => if w < map.length then setOuts id ws (map.set w id) else none

/-- base_circuit.rs:356-361. -/
def addIns (map : List Nat) (id : Nat) : List Nat → Base BoolGate → Res (Base BoolGate)
  | [], c => .ok c
  | w :: ws, c =>
    match map[w]? with
    | none => .error
    | some s =>
      match c.addWire s id with
      | none => .panic
      | some c => addIns map id ws c

/-- base_circuit.rs:347-362: one gate. -/
def convGate (g : Gate) (c : Base BoolGate) (map : List Nat) : Res (Base BoolGate × List Nat) :=
  let r := c.addGate (toGate g.kind)
  match setOuts r.2 g.outputWires map with
  | none => .error
  | some map => (addIns map r.2 g.inputWires r.1).bind fun c => .ok (c, map)

/-- base_circuit.rs:347-362: the loop over the gates. -/
def convGates : List Gate → Base BoolGate → List Nat → Res (Base BoolGate × List Nat)
  | [], c, map => .ok (c, map)
  | g :: gs, c, map => (convGate g c map).bind fun r => convGates gs r.1 r.2

/-- base_circuit.rs:365-368: the output gates. -/
def addOutputs (g : BoolGate) : List Nat → Base BoolGate → Res (Base BoolGate)
  | [], c => .ok c
  | s :: ss, c =>
    let r := c.addGate g
    match r.1.addWire s r.2 with
    | none => .panic
    | some c => addOutputs g ss c

/-- base_circuit.rs:326-371 `from_bristol`.  The number of gates is assumed to fit the index type. -/
def fromBristol (b : Circuit) (load : Load) : Res (Base BoolGate) :=
  if b.header.wires < b.totalInputs then .panic
  else
    let r := addInputs load.input 0 b.totalInputs {} (List.replicate b.header.wires 0)
    (convGates b.gates r.1 r.2).bind fun r =>
      if b.header.wires < b.totalOutputs then .panic
      else addOutputs load.output (r.2.drop (b.header.wires - b.totalOutputs)) r.1

/-! ### Specification -/

/-- The function of a gate. -/
def Kind.fn : Kind → List Bool → Bool
  | .and, [a, b] => a && b
  | .xor, [a, b] => a ^^ b
  | .inv, [a] => !a
  | _, _ => false

def Kind.arity : Kind → Nat
  | .inv => 1
  | _ => 2

/-- The wires after executing one line of the file. -/
def Gate.run (g : Gate) (env : Nat → Bool) : Nat → Bool := fun w =>
  if w ∈ g.outputWires then g.kind.fn (g.inputWires.map env) else env w

/-- The function described by a file: the lines are executed in order, starting with the inputs on
the first wires; the outputs are the last wires. -/
def Circuit.eval (b : Circuit) (inp : List Bool) : List Bool :=
  (List.range' (b.header.wires - b.totalOutputs) b.totalOutputs).map
    (b.gates.foldl (fun env g => g.run env) fun w => inp.getD w false)

/-- Well-formed descriptions: wire numbers in range, gates have the right number of inputs, and a
wire is an input or was written by an earlier line when it is read. -/
structure BristolOk (b : Circuit) : Prop where
  inputs : b.totalInputs ≤ b.header.wires
  outputs : b.totalOutputs ≤ b.header.wires
  arity : ∀ g ∈ b.gates, g.inputWires.length = g.kind.arity
  outs : ∀ g ∈ b.gates, ∀ w ∈ g.outputWires, w < b.header.wires
  ins : ∀ (i : Nat) (g : Gate), b.gates[i]? = some g → ∀ w ∈ g.inputWires, w ∉ g.outputWires ∧
    (w < b.totalInputs ∨ ∃ g' ∈ b.gates.take i, w ∈ g'.outputWires)
  written : ∀ w, b.header.wires - b.totalOutputs ≤ w → w < b.header.wires →
    w < b.totalInputs ∨ ∃ g' ∈ b.gates, w ∈ g'.outputWires

/-! ### The conversion as a list of `add_wired_gate` calls -/

def setAll (id : Nat) (ws map : List Nat) : List Nat := ws.foldl (fun m w => m.set w id) map

theorem setAll_length (id : Nat) (ws map : List Nat) : (setAll id ws map).length = map.length := by
  unfold setAll
  induction ws generalizing map with
  | nil => rfl
  | cons w ws ih => rw [List.foldl_cons, ih]; simp

theorem setAll_get (id : Nat) (ws map : List Nat) (w : Nat) (hw : w < map.length) :
    (setAll id ws map).getD w 0 = if w ∈ ws then id else map.getD w 0 := by
  unfold setAll
  induction ws generalizing map with
  | nil => simp
  | cons v ws ih =>
    rw [List.foldl_cons, ih _ (by simpa using hw)]
    by_cases h : w ∈ ws
    · simp [h]
    · by_cases hv : w = v
      · subst hv
        simp [h, List.getD_eq_getElem?_getD, hw]
      · have : ¬ v = w := fun e => hv e.symm
        simp [h, hv, List.getD_eq_getElem?_getD, List.getElem?_set, this]

theorem setAll_le (id n : Nat) (ws map : List Nat) (hid : id ≤ n) (h : ∀ s ∈ map, s ≤ n) :
    ∀ s ∈ setAll id ws map, s ≤ n := by
  unfold setAll
  induction ws generalizing map with
  | nil => exact h
  | cons w ws ih =>
    rw [List.foldl_cons]
    refine ih _ ?_
    intro s hs
    rcases List.mem_or_eq_of_mem_set hs with hs | rfl
    · exact h s hs
    · exact hid

theorem setOuts_ok (id : Nat) (ws map : List Nat) (h : ∀ w ∈ ws, w < map.length) :
    setOuts id ws map = some (setAll id ws map) := by
  induction ws generalizing map with
  | nil => rfl
  | cons w ws ih =>
    rw [setOuts, if_pos (h w List.mem_cons_self),
      ih _ (by intro v hv; simpa using h v (List.mem_cons_of_mem _ hv))]
    rfl

theorem setOuts_none (id : Nat) (ws map : List Nat) (h : ∃ w ∈ ws, map.length ≤ w) :
    setOuts id ws map = none := by
  induction ws generalizing map with
  | nil => obtain ⟨w, hw, -⟩ := h; simp at hw
  | cons w ws ih =>
    rw [setOuts]
    split
    · obtain ⟨v, hv, hle⟩ := h
      rcases List.mem_cons.1 hv with rfl | hv
      · omega
      · exact ih _ ⟨v, hv, by simpa using hle⟩
    · rfl

theorem addIns_ok (map : List Nat) (id : Nat) (ws : List Nat) (c : Base BoolGate)
    (h : ∀ w ∈ ws, w < map.length) (hm : ∀ s ∈ map, s < c.gates.length) (hid : id < c.gates.length) :
    ∃ c', addIns map id ws c = .ok c' ∧
      (ws.map fun w => map.getD w 0).foldlM (fun c s => Base.addWire c s id) c = some c' := by
  induction ws generalizing c with
  | nil => exact ⟨c, rfl, rfl⟩
  | cons w ws ih =>
    have hw := h w List.mem_cons_self
    have e0 : map[w]? = some (map.getD w 0) := by
      rw [List.getElem?_eq_getElem hw]; simp [List.getD_eq_getElem?_getD, hw]
    have hlt : map.getD w 0 < c.gates.length := by
      refine hm _ ?_
      exact List.mem_of_getElem? e0
    have e1 : c.addWire (map.getD w 0) id = some { c with edges := c.edges ++ [(map.getD w 0, id)] } := by
      rw [Base.addWire, if_pos ⟨hlt, hid⟩]
    obtain ⟨c', h1, h2⟩ := ih { c with edges := c.edges ++ [(map.getD w 0, id)] }
      (fun v hv => h v (List.mem_cons_of_mem _ hv)) hm hid
    refine ⟨c', ?_, ?_⟩
    · rw [addIns, e0]
      simp only
      rw [e1]
      exact h1
    · rw [List.map_cons, List.foldlM_cons, e1]
      exact h2

theorem addIns_error (map : List Nat) (id : Nat) (ws : List Nat) (c : Base BoolGate)
    (h : ∃ w ∈ ws, map.length ≤ w) (hm : ∀ s ∈ map, s < c.gates.length) (hid : id < c.gates.length) :
    addIns map id ws c = .error := by
  induction ws generalizing c with
  | nil => obtain ⟨w, hw, -⟩ := h; simp at hw
  | cons w ws ih =>
    rw [addIns]
    cases e : map[w]? with
    | none => rfl
    | some s =>
      have hs : s < c.gates.length := hm s (List.mem_of_getElem? e)
      have e1 : c.addWire s id = some { c with edges := c.edges ++ [(s, id)] } := by
        rw [Base.addWire, if_pos ⟨hs, hid⟩]
      simp only
      rw [e1]
      obtain ⟨v, hv, hle⟩ := h
      rcases List.mem_cons.1 hv with rfl | hv
      · rw [List.getElem?_eq_none hle] at e; cases e
      · exact ih _ ⟨v, hv, hle⟩ hm hid

/-- The calls made for the gates, and the final wire map. -/
def opsOf : Nat → List Nat → List Gate → List (BoolGate × List Nat) × List Nat
  | _, map, [] => ([], map)
  | n, map, g :: gs =>
    let map' := setAll n g.outputWires map
    let r := opsOf (n + 1) map' gs
    ((toGate g.kind, (g.inputWires.map fun w => map'.getD w 0).reverse) :: r.1, r.2)

/-- Perform `add_wired_gate` calls. -/
def runOps (c : Base BoolGate) (ops : List (BoolGate × List Nat)) : Option (Base BoolGate) :=
  runCalls c (ops.map fun o => .wired o.1 o.2)

theorem runOps_cons (c : Base BoolGate) (o : BoolGate × List Nat) (ops : List (BoolGate × List Nat)) :
    runOps c (o :: ops) = (c.addWiredGate o.1 o.2).bind fun r => runOps r.1 ops := by
  simp only [runOps, List.map_cons, runCalls, Call.run]
  cases c.addWiredGate o.1 o.2 <;> rfl

theorem runOps_append (c : Base BoolGate) (a b : List (BoolGate × List Nat)) :
    runOps c (a ++ b) = (runOps c a).bind fun c => runOps c b := by
  simp only [runOps, List.map_append, runCalls_append]

theorem convGates_ok (gs : List Gate) (c : Base BoolGate) (map : List Nat)
    (hr : ∀ g ∈ gs, ∀ w ∈ g.inputWires ++ g.outputWires, w < map.length)
    (hm : ∀ s ∈ map, s ≤ c.gates.length) :
    ∃ c', convGates gs c map = .ok (c', (opsOf c.gates.length map gs).2) ∧
      runOps c (opsOf c.gates.length map gs).1 = some c' ∧
      c'.gates.length = c.gates.length + gs.length ∧
      (opsOf c.gates.length map gs).2.length = map.length ∧
      (gs ≠ [] ∨ (∀ s ∈ map, s < c.gates.length) → ∀ s ∈ (opsOf c.gates.length map gs).2, s < c'.gates.length) := by
  induction gs generalizing c map with
  | nil => exact ⟨c, rfl, rfl, rfl, rfl, fun h => h.resolve_left (fun h => h rfl)⟩
  | cons g gs ih =>
    obtain ⟨a1, a2, a3, -⟩ := addGate_gates c (toGate g.kind)
    have hlen : (c.addGate (toGate g.kind)).1.gates.length = c.gates.length + 1 := by rw [a1]; simp
    have hg := hr g List.mem_cons_self
    have hm' := setAll_le c.gates.length c.gates.length g.outputWires map (Nat.le_refl _) hm
    obtain ⟨c1, e1, e2⟩ := addIns_ok (setAll c.gates.length g.outputWires map) c.gates.length
      g.inputWires (c.addGate (toGate g.kind)).1
      (by intro w hw; rw [setAll_length]; exact hg w (by simp [hw]))
      (by intro s hs; have := hm' s hs; omega) (by omega)
    have hc1 : c1.gates.length = c.gates.length + 1 := by
      obtain ⟨-, -, rfl⟩ := foldWires_spec _ _ _ _ e2
      exact hlen
    obtain ⟨c2, f1, f2, f3, f4, f5⟩ := ih c1 (setAll c.gates.length g.outputWires map)
      (by intro g' hg' w hw; rw [setAll_length]; exact hr g' (List.mem_cons_of_mem _ hg') w hw)
      (by intro s hs; have := hm' s hs; omega)
    rw [hc1] at f1 f2 f3 f4 f5
    refine ⟨c2, ?_, ?_, ?_, ?_, ?_⟩
    · rw [convGates, convGate]
      simp only [a3]
      rw [setOuts_ok _ _ _ (by intro w hw; exact hg w (by simp [hw]))]
      simp only [e1, Res.bind]
      exact f1
    · simp only [opsOf]
      rw [runOps_cons]
      have : c.addWiredGate (toGate g.kind)
          (g.inputWires.map fun w => (setAll c.gates.length g.outputWires map).getD w 0).reverse =
          some (c1, c.gates.length) := by
        simp only [Base.addWiredGate, List.reverse_reverse, a3]
        rw [e2]; rfl
      rw [this]
      exact f2
    · rw [f3, List.length_cons]; omega
    · simp only [opsOf]; rw [f4, setAll_length]
    · intro _
      simp only [opsOf]
      exact f5 (.inr fun s hs => by have := hm' s hs; omega)

theorem convGates_error (gs : List Gate) (c : Base BoolGate) (map : List Nat)
    (hr : ∃ g ∈ gs, ∃ w ∈ g.inputWires ++ g.outputWires, map.length ≤ w)
    (hm : ∀ s ∈ map, s ≤ c.gates.length) : convGates gs c map = .error := by
  induction gs generalizing c map with
  | nil => obtain ⟨g, hg, -⟩ := hr; simp at hg
  | cons g gs ih =>
    obtain ⟨a1, a2, a3, -⟩ := addGate_gates c (toGate g.kind)
    have hlen : (c.addGate (toGate g.kind)).1.gates.length = c.gates.length + 1 := by rw [a1]; simp
    have hm' := setAll_le c.gates.length c.gates.length g.outputWires map (Nat.le_refl _) hm
    rw [convGates, convGate]
    simp only [a3]
    by_cases h1 : ∃ w ∈ g.outputWires, map.length ≤ w
    · rw [setOuts_none _ _ _ h1]; rfl
    · have h1' : ∀ w ∈ g.outputWires, w < map.length := fun w hw => by
        by_contra h; exact h1 ⟨w, hw, by omega⟩
      rw [setOuts_ok _ _ _ h1']
      simp only
      by_cases h2 : ∃ w ∈ g.inputWires, map.length ≤ w
      · rw [addIns_error _ _ _ _ (by simpa [setAll_length] using h2)
          (by intro s hs; have := hm' s hs; omega) (by omega)]
        rfl
      · have h2' : ∀ w ∈ g.inputWires, w < map.length := fun w hw => by
          by_contra h; exact h2 ⟨w, hw, by omega⟩
        obtain ⟨c1, e1, e2⟩ := addIns_ok (setAll c.gates.length g.outputWires map) c.gates.length
          g.inputWires (c.addGate (toGate g.kind)).1
          (by intro w hw; rw [setAll_length]; exact h2' w hw)
          (by intro s hs; have := hm' s hs; omega) (by omega)
        have hc1 : c1.gates.length = c.gates.length + 1 := by
          obtain ⟨-, -, rfl⟩ := foldWires_spec _ _ _ _ e2
          exact hlen
        rw [e1]
        simp only [Res.bind]
        refine ih c1 _ ?_ (by intro s hs; have := hm' s hs; omega)
        obtain ⟨g', hg', w, hw, hle⟩ := hr
        rcases List.mem_cons.1 hg' with rfl | hg'
        · exfalso
          rcases List.mem_append.1 hw with hw | hw
          · exact h2 ⟨w, hw, hle⟩
          · exact h1 ⟨w, hw, hle⟩
        · exact ⟨g', hg', w, hw, by rw [setAll_length]; exact hle⟩

theorem addOutputs_ok (g : BoolGate) (ss : List Nat) (c : Base BoolGate)
    (h : ∀ s ∈ ss, s ≤ c.gates.length) : ∃ c', addOutputs g ss c = .ok c' ∧
      runOps c (ss.map fun s => (g, [s])) = some c' := by
  induction ss generalizing c with
  | nil => exact ⟨c, rfl, rfl⟩
  | cons s ss ih =>
    obtain ⟨a1, a2, a3, -⟩ := addGate_gates c g
    have hlen : (c.addGate g).1.gates.length = c.gates.length + 1 := by rw [a1]; simp
    have hs := h s List.mem_cons_self
    have e1 : (c.addGate g).1.addWire s c.gates.length =
        some { (c.addGate g).1 with edges := (c.addGate g).1.edges ++ [(s, c.gates.length)] } := by
      rw [Base.addWire, if_pos ⟨by omega, by omega⟩]
    obtain ⟨c', f1, f2⟩ := ih { (c.addGate g).1 with edges := (c.addGate g).1.edges ++ [(s, c.gates.length)] }
      (by intro t ht; have := h t (List.mem_cons_of_mem _ ht); simp only; omega)
    refine ⟨c', ?_, ?_⟩
    · rw [addOutputs]
      simp only [a3]
      rw [e1]
      exact f1
    · rw [List.map_cons, runOps_cons]
      have : c.addWiredGate g [s] =
          some ({ (c.addGate g).1 with edges := (c.addGate g).1.edges ++ [(s, c.gates.length)] },
            c.gates.length) := by
        simp only [Base.addWiredGate, List.reverse_singleton, a3, List.foldlM_cons, e1, List.foldlM_nil]
        rfl
      rw [this]
      exact f2

theorem addInputs_ok (g : BoolGate) (k n : Nat) (c : Base BoolGate) (hk : c.gates.length = k) :
    ∀ (rest : Nat), n ≤ rest →
    ∃ c', addInputs g k n c (List.range k ++ List.replicate rest 0) =
        (c', List.range (k + n) ++ List.replicate (rest - n) 0) ∧
      runOps c (List.replicate n (g, [])) = some c' ∧ c'.gates.length = k + n := by
  induction n generalizing k c with
  | zero => intro rest _; exact ⟨c, rfl, rfl, hk⟩
  | succ n ih =>
    intro rest hrest
    obtain ⟨rest, rfl⟩ : ∃ r, rest = r + 1 := ⟨rest - 1, by omega⟩
    obtain ⟨a1, a2, a3, -⟩ := addGate_gates c g
    have hlen : (c.addGate g).1.gates.length = k + 1 := by rw [a1]; simp [hk]
    obtain ⟨c', f1, f2, f3⟩ := ih (k + 1) (c.addGate g).1 hlen rest (by omega)
    refine ⟨c', ?_, ?_, by omega⟩
    · rw [addInputs]
      simp only [a3, hk]
      have : (List.range k ++ List.replicate (rest + 1) 0).set k k =
          List.range (k + 1) ++ List.replicate rest 0 := by
        rw [List.set_append_right _ _ (by simp)]
        simp [List.replicate_succ, List.range_succ]
      rw [this, f1]
      have h1 : k + 1 + n = k + (n + 1) := by omega
      have h2 : rest + 1 - (n + 1) = rest - n := by omega
      rw [h1, h2]
    · rw [List.replicate_succ, runOps_cons]
      have : c.addWiredGate g [] = some ((c.addGate g).1, c.gates.length) := by
        simp only [Base.addWiredGate, List.reverse_nil, a3, List.foldlM_nil]
        rfl
      rw [this]
      exact f2

/-- The wire map after the input gates. -/
def map0 (b : Circuit) : List Nat :=
  List.range b.totalInputs ++ List.replicate (b.header.wires - b.totalInputs) 0

/-- All calls of the conversion. -/
def allOps (b : Circuit) (load : Load) : List (BoolGate × List Nat) :=
  List.replicate b.totalInputs (load.input, []) ++ ((opsOf b.totalInputs (map0 b) b.gates).1 ++
    ((opsOf b.totalInputs (map0 b) b.gates).2.drop (b.header.wires - b.totalOutputs)).map
      fun s => (load.output, [s]))

theorem map0_length {b : Circuit} (h : b.totalInputs ≤ b.header.wires) :
    (map0 b).length = b.header.wires := by simp [map0]; omega

theorem map0_le (b : Circuit) : ∀ s ∈ map0 b, s ≤ b.totalInputs := by
  intro s hs
  rcases List.mem_append.1 hs with hs | hs
  · have := List.mem_range.1 hs; omega
  · have := List.eq_of_mem_replicate hs; omega

theorem fromBristol_ops (b : Circuit) (load : Load) (hi : b.totalInputs ≤ b.header.wires)
    (ho : b.totalOutputs ≤ b.header.wires)
    (hr : ∀ g ∈ b.gates, ∀ w ∈ g.inputWires ++ g.outputWires, w < b.header.wires) :
    ∃ c, fromBristol b load = .ok c ∧ runOps {} (allOps b load) = some c := by
  obtain ⟨c1, e1, e2, e3⟩ := addInputs_ok load.input 0 b.totalInputs {} rfl b.header.wires hi
  simp only [List.range_zero, List.nil_append, Nat.zero_add] at e1 e3
  obtain ⟨c2, f1, f2, f3, f4, f5⟩ := convGates_ok b.gates c1 (map0 b)
    (by rw [map0_length hi]; exact hr) (by rw [e3]; exact map0_le b)
  rw [e3] at f1 f2 f3 f4 f5
  obtain ⟨c3, g1, g2⟩ := addOutputs_ok load.output
    ((opsOf b.totalInputs (map0 b) b.gates).2.drop (b.header.wires - b.totalOutputs)) c2 (by
      intro s hs
      have hs := List.mem_of_mem_drop hs
      by_cases hg : b.gates = []
      · rw [hg] at hs f3
        have := map0_le b s hs
        simp at f3; omega
      · exact Nat.le_of_lt (f5 (.inl hg) s hs))
  refine ⟨c3, ?_, ?_⟩
  · rw [fromBristol, if_neg (by omega)]
    simp only [e1]
    change (convGates b.gates c1 (map0 b)).bind _ = _
    rw [f1]
    simp only [Res.bind]
    rw [if_neg (by omega)]
    exact g1
  · rw [allOps, runOps_append, e2]
    simp only [Option.bind_some]
    rw [runOps_append, f2]
    exact g2

/-! ### Values -/

theorem toGate_fn (k : Kind) (x : Bool) (l : List Bool) (h : l.length = k.arity) :
    gateFn x (toGate k) l.reverse = k.fn l := by
  match k, l, h with
  | .and, [a, b], _ => simp [gateFn, toGate, Kind.fn, Bool.and_comm]
  | .xor, [a, b], _ => simp [gateFn, toGate, Kind.fn, Bool.xor_comm]
  | .inv, [a], _ => rfl

theorem opsOf_spec (gs : List Gate) (n : Nat) (map : List Nat) (A : Nat → Prop)
    (har : ∀ g ∈ gs, g.inputWires.length = g.kind.arity)
    (hout : ∀ g ∈ gs, ∀ w ∈ g.outputWires, w < map.length)
    (hA : ∀ w, A w → w < map.length ∧ map.getD w 0 < n)
    (hin : ∀ (i : Nat) (g : Gate), gs[i]? = some g → ∀ w ∈ g.inputWires, w ∉ g.outputWires ∧
      (A w ∨ ∃ g' ∈ gs.take i, w ∈ g'.outputWires)) :
    (opsOf n map gs).1.length = gs.length ∧ (opsOf n map gs).2.length = map.length ∧
    (∀ (i : Nat) g args, (opsOf n map gs).1[i]? = some (g, args) →
      args.length = Exec.arity g ∧ (∀ a ∈ args, a < n + i) ∧ plainGate g = true ∧ (∃ k, g = toGate k)) ∧
    (∀ w, (A w ∨ ∃ g ∈ gs, w ∈ g.outputWires) → (opsOf n map gs).2.getD w 0 < n + gs.length) ∧
    ∀ (val : Nat → Bool) (env : Nat → Bool), (∀ w, A w → val (map.getD w 0) = env w) →
      (∀ (i : Nat) g args, (opsOf n map gs).1[i]? = some (g, args) →
        val (n + i) = gateFn false g (args.map val)) →
      ∀ w, (A w ∨ ∃ g ∈ gs, w ∈ g.outputWires) →
        val ((opsOf n map gs).2.getD w 0) = gs.foldl (fun env g => g.run env) env w := by
  induction gs generalizing n map A with
  | nil =>
    refine ⟨rfl, rfl, ?_, ?_, ?_⟩
    · intro i g a h; simp [opsOf] at h
    · intro w h
      rcases h with h | ⟨g, hg, -⟩
      · exact (hA w h).2
      · simp at hg
    · intro val env hv _ w h
      rcases h with h | ⟨g, hg, -⟩
      · exact hv w h
      · simp at hg
  | cons g gs ih =>
    have hlen := setAll_length n g.outputWires map
    have hg := hin 0 g rfl
    simp only [List.take_zero, List.not_mem_nil, false_and, exists_false, or_false] at hg
    have hget : ∀ w ∈ g.inputWires,
        (setAll n g.outputWires map).getD w 0 = map.getD w 0 ∧ map.getD w 0 < n := by
      intro w hw
      obtain ⟨h1, h2⟩ := hg w hw
      rw [setAll_get _ _ _ _ (hA w h2).1, if_neg h1]
      exact ⟨rfl, (hA w h2).2⟩
    obtain ⟨i1, i2, i3, i4, i5⟩ := ih (n + 1) (setAll n g.outputWires map)
      (fun w => A w ∨ w ∈ g.outputWires)
      (fun g' h => har g' (List.mem_cons_of_mem _ h))
      (fun g' h => by rw [hlen]; exact hout g' (List.mem_cons_of_mem _ h))
      (by
        intro w hw
        have hwl : w < map.length := hw.elim (fun h => (hA w h).1) (hout g List.mem_cons_self w)
        rw [hlen, setAll_get _ _ _ _ hwl]
        refine ⟨hwl, ?_⟩
        split
        · omega
        · rename_i hn
          have := (hA w (hw.resolve_right hn)).2
          omega)
      (by
        intro i g' hi w hw
        obtain ⟨h1, h2⟩ := hin (i + 1) g' (by simpa using hi) w hw
        refine ⟨h1, ?_⟩
        rcases h2 with h2 | ⟨g'', h2, h3⟩
        · exact .inl (.inl h2)
        · rw [List.take_succ_cons, List.mem_cons] at h2
          rcases h2 with rfl | h2
          · exact .inl (.inr h3)
          · exact .inr ⟨g'', h2, h3⟩)
    have hcov : ∀ w, (A w ∨ ∃ g' ∈ g :: gs, w ∈ g'.outputWires) →
        (A w ∨ w ∈ g.outputWires) ∨ ∃ g' ∈ gs, w ∈ g'.outputWires := by
      intro w hw
      rcases hw with hw | ⟨g', hg', hw⟩
      · exact .inl (.inl hw)
      · rcases List.mem_cons.1 hg' with rfl | hg'
        · exact .inl (.inr hw)
        · exact .inr ⟨g', hg', hw⟩
    simp only [opsOf]
    refine ⟨by simp [i1], by rw [i2, hlen], ?_, ?_, ?_⟩
    · intro i g' args h
      cases i with
      | zero =>
        simp only [List.getElem?_cons_zero, Option.some.injEq, Prod.mk.injEq] at h
        obtain ⟨rfl, rfl⟩ := h
        have ha := har g List.mem_cons_self
        refine ⟨?_, ?_, ?_, _, rfl⟩
        · rw [List.length_reverse, List.length_map, ha]
          cases g.kind <;> rfl
        · intro a ha
          simp only [List.mem_reverse, List.mem_map] at ha
          obtain ⟨w, hw, rfl⟩ := ha
          rw [(hget w hw).1]
          have := (hget w hw).2
          omega
        · cases g.kind <;> rfl
      | succ i =>
        simp only [List.getElem?_cons_succ] at h
        obtain ⟨j1, j2, j3, j4⟩ := i3 i g' args h
        exact ⟨j1, fun a ha => by have := j2 a ha; omega, j3, j4⟩
    · intro w hw
      have := i4 w (hcov w hw)
      rw [List.length_cons]
      omega
    · intro val env hv hval w hw
      rw [List.foldl_cons]
      refine i5 val (g.run env) ?_ ?_ w (hcov w hw)
      · intro v hvA
        have hvl : v < map.length := hvA.elim (fun h => (hA v h).1) (hout g List.mem_cons_self v)
        rw [setAll_get _ _ _ _ hvl, Gate.run]
        split
        · have h0 := hval 0 _ _ rfl
          rw [Nat.add_zero, List.map_reverse,
            toGate_fn _ _ _ (by simp [har g List.mem_cons_self]), List.map_map] at h0
          rw [h0]
          congr 1
          apply List.map_congr_left
          intro u hu
          simp only [Function.comp_apply]
          rw [(hget u hu).1]
          exact hv u (hg u hu).2
        · rename_i hn
          exact hv v (hvA.resolve_right hn)
      · intro i g' args h
        have := hval (i + 1) g' args (by simpa using h)
        rw [← this]
        congr 1; omega

theorem bristol_range {b : Circuit} (ok : BristolOk b) :
    ∀ g ∈ b.gates, ∀ w ∈ g.inputWires ++ g.outputWires, w < b.header.wires := by
  intro g hg w hw
  rcases List.mem_append.1 hw with hw | hw
  · obtain ⟨i, hi⟩ := List.getElem?_of_mem hg
    rcases (ok.ins i g hi w hw).2 with h | ⟨g', h1, h2⟩
    · exact Nat.lt_of_lt_of_le h ok.inputs
    · exact ok.outs g' (List.mem_of_mem_take h1) w h2
  · exact ok.outs g hg w hw

theorem map0_get {b : Circuit} {w : Nat} (h : w < b.totalInputs) : (map0 b).getD w 0 = w := by
  unfold map0
  rw [List.getD_eq_getElem?_getD, List.getElem?_append_left (by simpa using h)]
  simp [h]

/-- What `opsOf_spec` says about a well-formed description. -/
theorem bristol_ops {b : Circuit} (ok : BristolOk b) :
    (opsOf b.totalInputs (map0 b) b.gates).1.length = b.gates.length ∧
    (opsOf b.totalInputs (map0 b) b.gates).2.length = b.header.wires ∧
    (∀ (i : Nat) g args, (opsOf b.totalInputs (map0 b) b.gates).1[i]? = some (g, args) →
      args.length = Exec.arity g ∧ (∀ a ∈ args, a < b.totalInputs + i) ∧ plainGate g = true ∧
        ∃ k, g = toGate k) ∧
    (∀ s ∈ (opsOf b.totalInputs (map0 b) b.gates).2.drop (b.header.wires - b.totalOutputs),
      s < b.totalInputs + b.gates.length) ∧
    ∀ (val : Nat → Bool) (inp : List Bool), (∀ w < b.totalInputs, val w = inp.getD w false) →
      (∀ (i : Nat) g args, (opsOf b.totalInputs (map0 b) b.gates).1[i]? = some (g, args) →
        val (b.totalInputs + i) = gateFn false g (args.map val)) →
      ((opsOf b.totalInputs (map0 b) b.gates).2.drop (b.header.wires - b.totalOutputs)).map val =
        b.eval inp := by
  have hl := map0_length ok.inputs
  obtain ⟨h1, h2, h3, h4, h5⟩ := opsOf_spec b.gates b.totalInputs (map0 b) (fun w => w < b.totalInputs)
    ok.arity (by rw [hl]; exact ok.outs)
    (by intro w hw; rw [hl, map0_get hw]; exact ⟨Nat.lt_of_lt_of_le hw ok.inputs, hw⟩) ok.ins
  rw [hl] at h2
  have hd : (opsOf b.totalInputs (map0 b) b.gates).2.drop (b.header.wires - b.totalOutputs) =
      (List.range' (b.header.wires - b.totalOutputs) b.totalOutputs).map
        fun w => (opsOf b.totalInputs (map0 b) b.gates).2.getD w 0 := by
    apply List.ext_getElem
    · simp [h2]
      have := ok.outputs
      omega
    · intro i hi hi'
      simp only [List.length_map, List.length_range'] at hi'
      simp only [List.getElem_drop, List.getElem_map, List.getElem_range', Nat.one_mul]
      rw [List.getD_eq_getElem?_getD, List.getElem?_eq_getElem]
      rfl
  refine ⟨h1, h2, h3, ?_, ?_⟩
  · intro s hs
    rw [hd, List.mem_map] at hs
    obtain ⟨w, hw, rfl⟩ := hs
    rw [List.mem_range'_1] at hw
    have := ok.outputs
    exact h4 w (ok.written w hw.1 (by omega))
  · intro val inp hv hval
    rw [hd, List.map_map, Circuit.eval]
    apply List.map_congr_left
    intro w hw
    rw [List.mem_range'_1] at hw
    have := ok.outputs
    exact h5 val (fun w => inp.getD w false) (fun w hw => by rw [map0_get hw]; exact hv w hw) hval w
      (ok.written w hw.1 (by omega))

theorem allOps_typed {b : Circuit} (ok : BristolOk b) : WellTyped (allOps b .circuit) := by
  obtain ⟨h1, h2, h3, h4, -⟩ := bristol_ops ok
  intro i g args h
  unfold allOps at h
  by_cases hi : i < b.totalInputs
  · rw [List.getElem?_append_left (by simpa using hi), List.getElem?_replicate, if_pos hi] at h
    cases h
    exact ⟨rfl, by simp, rfl⟩
  · rw [List.getElem?_append_right (by simp; omega), List.length_replicate] at h
    by_cases hi' : i - b.totalInputs < b.gates.length
    · rw [List.getElem?_append_left (by rw [h1]; exact hi')] at h
      obtain ⟨j1, j2, j3, -⟩ := h3 _ _ _ h
      exact ⟨j1, fun a ha => by have := j2 a ha; omega, j3⟩
    · rw [List.getElem?_append_right (by rw [h1]; omega), List.getElem?_map,
        Option.map_eq_some_iff] at h
      obtain ⟨s, hs, e⟩ := h
      cases e
      have := h4 s (List.mem_of_getElem? hs)
      refine ⟨rfl, ?_, rfl⟩
      intro a ha
      rw [List.mem_singleton] at ha
      omega

/-! ### Theorems -/

theorem countP_inputs (b : Circuit) (j : Nat) (hj : j < b.totalInputs) (rest : List BoolGate) :
    ((List.replicate b.totalInputs (BoolGate.base .input) ++ rest).take j).countP
      (fun g => decide (g = BoolGate.base .input)) = j := by
  rw [List.take_append_of_le_length (by simp; omega), List.take_replicate,
    Nat.min_eq_left (by omega), List.countP_replicate]
  simp

/-- Positions of the gates that satisfy `p` in three consecutive blocks, the last of which
satisfies it entirely. -/
theorem positions_block (p : BoolGate → Bool) (a : List BoolGate) (g : BoolGate) (n : Nat)
    (ha : ∀ x ∈ a, p x = false) (hg : p g = true) :
    positions p (a ++ List.replicate n g) = List.range' a.length n := by
  induction n with
  | zero =>
    simp only [List.replicate_zero, List.append_nil, List.range'_zero]
    unfold positions
    rw [List.filter_eq_nil_iff]
    intro i hi
    have hi := List.mem_range.1 hi
    rw [List.getElem?_eq_getElem hi]
    simp [ha _ (List.getElem_mem hi)]
  | succ n ih =>
    rw [List.replicate_succ', ← List.append_assoc, positions_append, ih, if_pos hg]
    simp [List.range'_concat]

theorem positions_front (p : BoolGate → Bool) (a : List BoolGate) (g : BoolGate) (n : Nat)
    (ha : ∀ x ∈ a, p x = false) (hg : p g = true) :
    positions p (List.replicate n g ++ a) = List.range n := by
  induction a using List.reverseRecOn with
  | nil =>
    rw [List.append_nil]
    have := positions_block p [] g n (by simp) hg
    simpa [List.range_eq_range'] using this
  | append_singleton a x ih =>
    rw [← List.append_assoc, positions_append, ih (fun y hy => ha y (by simp [hy])),
      if_neg (by simp [ha x (by simp)])]
    simp

theorem allOps_gates {b : Circuit} (ok : BristolOk b) (load : Load) :
    ∃ mid : List BoolGate, mid.length = b.gates.length ∧ (∀ g ∈ mid, ∃ k, g = toGate k) ∧
      (allOps b load).map (·.1) = List.replicate b.totalInputs load.input ++
        (mid ++ List.replicate b.totalOutputs load.output) := by
  obtain ⟨h1, h2, h3, -⟩ := bristol_ops ok
  refine ⟨(opsOf b.totalInputs (map0 b) b.gates).1.map (·.1), by simp [h1], ?_, ?_⟩
  · intro g hg
    obtain ⟨⟨g', args⟩, hx, rfl⟩ := List.mem_map.1 hg
    obtain ⟨i, hi⟩ := List.getElem?_of_mem hx
    exact (h3 i g' args hi).2.2.2
  · unfold allOps
    rw [List.map_append, List.map_append, List.map_replicate, List.map_map]
    congr 2
    rw [List.eq_replicate_iff]
    refine ⟨?_, ?_⟩
    · rw [List.length_map, List.length_drop, h2]
      have := ok.outputs
      omega
    · intro x hx
      obtain ⟨s, -, rfl⟩ := List.mem_map.1 hx
      rfl

/-- C17: a well-formed Bristol description is converted into a circuit that computes the function
described. -/
theorem from_bristol_correct (b : Circuit) (ok : BristolOk b) :
    ∃ c, fromBristol b .circuit = .ok c ∧ BaseOk c ∧ c.simdSize = none ∧
      c.inputGates.length = b.totalInputs ∧ c.outputGates.length = b.totalOutputs ∧
      ∀ inp : List Bool, inp.length = b.totalInputs → plainFn c inp = b.eval inp := by
  obtain ⟨c, e1, e2⟩ := fromBristol_ops b .circuit ok.inputs ok.outputs (bristol_range ok)
  obtain ⟨c', e3, hok, hgates, hsimd, hpar⟩ := built_ok _ (allOps_typed ok)
  have hcc : c' = c := by
    have : runOps {} (allOps b .circuit) = some c' := e3
    rw [e2] at this
    exact (Option.some.inj this).symm
  subst hcc
  obtain ⟨mid, m1, m2, m3⟩ := allOps_gates ok .circuit
  rw [m3] at hgates
  have hin : positions (fun g => decide (g = .base .input)) c'.gates = List.range b.totalInputs := by
    rw [hgates]
    refine positions_front _ _ _ _ ?_ (by simp [Load.input])
    intro x hx
    rcases List.mem_append.1 hx with hx | hx
    · obtain ⟨k, rfl⟩ := m2 x hx
      cases k <;> rfl
    · rw [List.eq_of_mem_replicate hx]; rfl
  have hout : positions (fun g => decide (g = .base .output)) c'.gates =
      List.range' (b.totalInputs + b.gates.length) b.totalOutputs := by
    rw [hgates, ← List.append_assoc]
    rw [positions_block _ _ _ _ ?_ (by simp [Load.output])]
    · simp [m1]
    · intro x hx
      rcases List.mem_append.1 hx with hx | hx
      · rw [List.eq_of_mem_replicate hx]; rfl
      · obtain ⟨k, rfl⟩ := m2 x hx
        cases k <;> rfl
  refine ⟨c', e1, hok, hsimd, ?_, ?_, ?_⟩
  · rw [input_pos c' hok.book, hin]; simp
  · rw [output_pos c' hok.book, hout]; simp
  · intro inp hinp
    obtain ⟨h1, h2, h3, h4, h5⟩ := bristol_ops ok
    have hval : ∀ (i : Nat) g args, (allOps b .circuit)[i]? = some (g, args) →
        plainVal c' inp i = gateFn (inp.getD (inputIdx c' i) false) g (args.map (plainVal c' inp)) := by
      intro i g args hi
      rw [← hpar i g args hi]
      refine plainVal_eq hok inp ?_
      rw [hgates, ← m3, List.getElem?_map, hi]; rfl
    have hev := h5 (plainVal c' inp) inp ?_ ?_
    · rw [← hev, plainFn, hout]
      apply List.ext_getElem
      · simp [h2]
        have := ok.outputs
        omega
      · intro i hi hi'
        simp only [List.length_map, List.length_range', List.length_drop] at hi hi'
        simp only [List.getElem_map, List.getElem_range', Nat.one_mul]
        have hi2 : i < ((opsOf b.totalInputs (map0 b) b.gates).2.drop
          (b.header.wires - b.totalOutputs)).length := by simpa using hi'
        have := hval (b.totalInputs + b.gates.length + i) (.base .output) [((opsOf b.totalInputs (map0 b) b.gates).2.drop
          (b.header.wires - b.totalOutputs))[i]] (by
            unfold allOps
            rw [List.getElem?_append_right (by simp; omega), List.length_replicate,
              List.getElem?_append_right (by rw [h1]; omega), List.getElem?_map, h1]
            have e : b.totalInputs + b.gates.length + i - b.totalInputs - b.gates.length = i := by omega
            rw [e, List.getElem?_eq_getElem hi2]
            rfl)
        rw [this]
        rfl
    · intro w hw
      have := hval w (.base .input) [] (by
        unfold allOps
        rw [List.getElem?_append_left (by simpa using hw), List.getElem?_replicate, if_pos hw]
        rfl)
      rw [this]
      simp only [gateFn, inputIdx]
      rw [hgates]
      rw [show Load.input .circuit = BoolGate.base .input from rfl, countP_inputs b w hw]
    · intro i g args hi
      have := hval (b.totalInputs + i) g args (by
        unfold allOps
        rw [List.getElem?_append_right (by simp), List.length_replicate, Nat.add_sub_cancel_left,
          List.getElem?_append_left (List.getElem?_eq_some_iff.1 hi).1]
        exact hi)
      rw [this]
      obtain ⟨-, -, -, k, rfl⟩ := h3 i g args hi
      generalize args.map (plainVal c' inp) = l
      cases k <;> rcases l with _ | ⟨a, _ | ⟨b, _ | _⟩⟩ <;> rfl

/-- The edges made by a list of `add_wired_gate` calls. -/
def edgesOf : Nat → List (BoolGate × List Nat) → List (Nat × Nat)
  | _, [] => []
  | n, (_, args) :: ops => args.reverse.map (fun s => (s, n)) ++ edgesOf (n + 1) ops

theorem runOps_shape (ops : List (BoolGate × List Nat)) (c c' : Base BoolGate)
    (h : runOps c ops = some c') (hb : BookOk c) : c'.gates = c.gates ++ ops.map (·.1) ∧
      c'.edges = c.edges ++ edgesOf c.gates.length ops ∧ c'.simdSize = c.simdSize ∧ BookOk c' := by
  induction ops generalizing c with
  | nil => cases h; simp [edgesOf, hb]
  | cons o ops ih =>
    obtain ⟨g, args⟩ := o
    rw [runOps_cons, Option.bind_eq_some_iff] at h
    obtain ⟨⟨c1, id⟩, e1, e2⟩ := h
    have hb1 : BookOk c1 := bookOk_run (k := .wired g args) (by simp [Call.run, e1]) hb
    obtain ⟨rfl, -, e⟩ := addWiredGate_spec e1
    obtain ⟨a1, a2, -, a4⟩ := addGate_gates c g
    obtain ⟨f1, f2, f3, f4⟩ := ih c1 e2 hb1
    have l1 : c1.gates = c.gates ++ [g] := by rw [e]; exact a1
    have l2 : c1.edges = c.edges ++ args.reverse.map fun s => (s, c.gates.length) := by rw [e]
    have l3 : c1.simdSize = c.simdSize := by rw [e]; exact a4
    refine ⟨?_, ?_, f3.trans l3, f4⟩
    · rw [f1, l1]; simp
    · rw [f2, l2, l1, List.length_append, List.length_singleton, List.append_assoc]; rfl

theorem plainVals_congr {c d : Base BoolGate} (hg : c.gates = d.gates) (he : c.edges = d.edges)
    (inp : List Bool) (n : Nat) : plainVals c inp n = plainVals d inp n := by
  induction n with
  | zero => rfl
  | succ n ih => simp only [plainVals, ih, hg, inputIdx, Base.parents, he]

theorem plainFn_congr {c d : Base BoolGate} (hg : c.gates = d.gates) (he : c.edges = d.edges)
    (inp : List Bool) : plainFn c inp = plainFn d inp := by
  unfold plainFn
  rw [hg]
  apply List.map_congr_left
  intro i _
  unfold plainVal
  rw [plainVals_congr hg he, hg]

/-- C17 for `Load::SubCircuit`: the circuit has its inputs first and, called as a sub-circuit
(see C51), computes the function described. -/
theorem from_bristol_sub_circuit (b : Circuit) (ok : BristolOk b) :
    ∃ c, fromBristol b .subCircuit = .ok c ∧ BookOk c ∧ c.simdSize = none ∧
      scInputs c = List.range b.totalInputs ∧ (scOutputs c).length = b.totalOutputs ∧
      ∀ inp : List Bool, inp.length = b.totalInputs → plainFn (alone c) inp = b.eval inp := by
  have hb0 : BookOk ({} : Base BoolGate) := ⟨rfl, rfl, rfl, rfl, rfl⟩
  obtain ⟨c, e1, e2⟩ := fromBristol_ops b .subCircuit ok.inputs ok.outputs (bristol_range ok)
  obtain ⟨d, d1, d2⟩ := fromBristol_ops b .circuit ok.inputs ok.outputs (bristol_range ok)
  obtain ⟨d', d1', -, -, -, -, hfn⟩ := from_bristol_correct b ok
  rw [d1] at d1'
  cases d1'
  obtain ⟨c1, c2, c3, c4⟩ := runOps_shape _ _ _ e2 hb0
  obtain ⟨f1, f2, -, -⟩ := runOps_shape _ _ _ d2 hb0
  simp only [List.nil_append, List.length_nil] at c1 c2 f1 f2
  obtain ⟨mid, m1, m2, m3⟩ := allOps_gates ok .subCircuit
  refine ⟨c, e1, c4, c3, ?_, ?_, ?_⟩
  · rw [scInputs, c1, m3]
    refine positions_front _ _ _ _ ?_ (by simp [Load.input])
    intro x hx
    rcases List.mem_append.1 hx with hx | hx
    · obtain ⟨k, rfl⟩ := m2 x hx
      cases k <;> rfl
    · rw [List.eq_of_mem_replicate hx]; rfl
  · rw [scOutputs, c1, m3, ← List.append_assoc, positions_block _ _ _ _ ?_ (by simp [Load.output])]
    · simp
    · intro x hx
      rcases List.mem_append.1 hx with hx | hx
      · rw [List.eq_of_mem_replicate hx]; rfl
      · obtain ⟨k, rfl⟩ := m2 x hx
        cases k <;> rfl
  · intro inp hinp
    rw [← hfn inp hinp]
    refine plainFn_congr ?_ ?_ inp
    · simp only [alone]
      rw [c1, f1]
      unfold allOps
      simp only [List.map_append, List.map_replicate, List.map_map]
      congr 2
      obtain ⟨-, -, h3, -⟩ := bristol_ops ok
      apply List.map_congr_left
      intro x hx
      obtain ⟨i, hi⟩ := List.getElem?_of_mem hx
      obtain ⟨-, -, -, k, hk⟩ := h3 i x.1 x.2 hi
      simp only [Function.comp_apply, hk]
      cases k <;> rfl
    · simp only [alone]
      rw [c2, f2]
      have : ∀ (n : Nat) (a b : List (BoolGate × List Nat)), a.map (·.2) = b.map (·.2) →
          edgesOf n a = edgesOf n b := by
        intro n a
        induction a generalizing n with
        | nil =>
          intro b h
          cases b with
          | nil => rfl
          | cons y b => simp at h
        | cons x a ih =>
          intro b h
          cases b with
          | nil => simp at h
          | cons y b =>
            simp only [List.map_cons, List.cons.injEq] at h
            simp only [edgesOf]
            rw [h.1, ih _ b h.2]
      apply this
      unfold allOps
      simp only [List.map_append, List.map_replicate, List.map_map]
      rfl

/-- A description that refers to a wire beyond the declared number is rejected with an error. -/
theorem from_bristol_rejects (b : Circuit) (load : Load) (hi : b.totalInputs ≤ b.header.wires)
    (h : ∃ g ∈ b.gates, ∃ w ∈ g.inputWires ++ g.outputWires, b.header.wires ≤ w) :
    fromBristol b load = .error := by
  obtain ⟨c1, e1, e2, e3⟩ := addInputs_ok load.input 0 b.totalInputs {} rfl b.header.wires hi
  simp only [List.range_zero, List.nil_append, Nat.zero_add] at e1 e3
  rw [fromBristol, if_neg (by omega)]
  simp only [e1]
  change (convGates b.gates c1 (map0 b)).bind _ = _
  rw [convGates_error _ _ _ (by rw [map0_length hi]; exact h) (by rw [e3]; exact map0_le b)]
  rfl

/-- From the text of a file to the result of the protocol: any way of writing a well-formed
description in "Bristol fashion" is parsed and converted, and executing the circuit gives shares of
the value of the described function. -/
theorem bristol_file_executes (b : Circuit) (ok : BristolOk b) (s : List Char)
    (hs : Spells (fashionToks b) s) (hn : Fits (fashionToks b)) (hg : b.header.gates = b.gates.length)
    (x y : List Bool) (hx : x.length = b.totalInputs) (hy : y.length = b.totalInputs)
    (setup0 setup1 : Nat → Nat → List Triple)
    (hset : ∀ k n, Matching (setup0 k n) (setup1 k n) ∧ n ≤ (setup0 k n).length)
    (init0 init1 : Store Bool (List Bool)) :
    ∃ c o0 o1, (circuit s).map (fun b => fromBristol b .circuit) = some (.ok c) ∧
      Runs (execute gmw (.ofBase c) 0 (.scalar x) setup0 init0)
        (execute gmw (.ofBase c) 1 (.scalar y) setup1 init1) (.scalar o0) (.scalar o1) ∧
      xorL o0 o1 = b.eval (xorL x y) := by
  obtain ⟨c, e, hok, hsimd, hin, -, hfn⟩ := from_bristol_correct b ok
  have hl : (xorL x y).length = b.totalInputs := by simp [xorL, hx, hy]
  obtain ⟨ls, o0, o1, -, -, hr, ho⟩ := gmw_scalar_circuit_correct c hok hsimd x y (xorL x y)
    (by rw [hl, hx]) (by rw [hl, hy]) rfl (by rw [hl, hin]) setup0 setup1 hset init0 init1
  refine ⟨c, o0, o1, ?_, hr, ?_⟩
  · rw [fashion_round_trip b s hs hn hg, Option.map_some, e]
  · rw [ho, hfn _ hl]

/-- A description with gates out of wire order and a gate with two output wires. -/
def sample : Circuit := ⟨⟨4, 8, [2, 1], [2]⟩,
  [⟨.xor, [0, 1], [5]⟩, ⟨.inv, [2], [3, 4]⟩, ⟨.and, [5, 4], [7]⟩, ⟨.xor, [7, 3], [6]⟩]⟩

theorem sample_ok : BristolOk sample := by
  refine ⟨by decide, by decide, by decide, by decide, ?_, ?_⟩
  · intro i g h
    have hi : i < 4 := (List.getElem?_eq_some_iff.1 h).1
    interval_cases i <;> simp [sample] at h <;> subst h <;> decide
  · intro w h1 h2
    have h1 : 6 ≤ w := h1
    have h2 : w < 8 := h2
    interval_cases w <;> decide

example : BristolOk sample ∧ ∀ x y z : Bool, sample.eval [x, y, z] =
    [((x ^^ y) && !z) ^^ !z, (x ^^ y) && !z] := by
  refine ⟨sample_ok, ?_⟩
  intro x y z; cases x <;> cases y <;> cases z <;> rfl

/-- Reading a wire that was not written before: the converted circuit reads gate 0 instead of
failing. -/
theorem unwritten_wire_reads_gate_zero : ∃ c,
    fromBristol ⟨⟨1, 4, [1], [1]⟩, [⟨.inv, [2], [3]⟩]⟩ .circuit = .ok c ∧
      plainFn c [true] = [false] ∧ plainFn c [false] = [true] := ⟨_, rfl, by decide +kernel, by decide +kernel⟩

end Verif.Parse
