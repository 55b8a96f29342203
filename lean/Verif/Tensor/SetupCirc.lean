import Verif.Tensor.Masks
import Verif.Aby2.TwoPartyProps

/-!
Lemmas for C82: what the setup circuit of Boolean ABY2 with matrices computes.
-/
set_option autoImplicit false

namespace Verif.Tensor

open Gmw (BoolGate Triple Matching)
open Bitmat
open Circuit Exec Proc Secret Mail
open Aby2 (layers interactiveNodes mapSt mapSt_map inIds mem_inIds holds_ext input_ext quiet_ne
  outputs_nested plainVal_input holds_vals exchange_andThen read_list readOutputs mem_of_map_some
  map_some_mono)

/-! ### The circuit does not depend on the masks -/

/-- Replace the inputs. -/
def SetupBuild.mapI {α β : Type} (f : α → β) (s : SetupBuild α) : SetupBuild β :=
  ⟨s.b, s.inputs.map f, s.map⟩

theorem operand_map {α β : Type} {mask : Node → Option (List α)} {mask' : Node → Option (List β)}
    (f : α → β) (s : SetupBuild α) (p : Node) (h : mask' p = (mask p).map (List.map f)) :
    operand mask' (s.mapI f) p = (operand mask s p).map fun r => (r.1.mapI f, r.2) := by
  unfold operand
  have e : (s.mapI f).map p = s.map p := rfl
  rw [e]
  cases s.map p with
  | some x => rfl
  | none =>
    have e : (s.mapI f).b = s.b := rfl
    simp only [e, Option.bind_eq_bind, h]
    cases mask p with
    | none => rfl
    | some bits =>
      simp only [Option.map_some, Option.bind_some, List.length_map]
      cases inputs s.b bits.length with
      | none => rfl
      | some r => simp [SetupBuild.mapI]

theorem setupGate_map {α β : Type} (m : Multi TGate) {mask : Node → Option (List α)}
    {mask' : Node → Option (List β)} (f : α → β) (v : Node)
    (h : ∀ p ∈ m.parents v, mask' p = (mask p).map (List.map f)) (s : SetupBuild α) :
    setupGate m mask' (s.mapI f) v = (setupGate m mask s v).map fun r => (r.1.mapI f, r.2) := by
  unfold setupGate
  cases (m.gate? v).bind TGate.op? with
  | none => rfl
  | some g =>
    simp only [Option.bind_eq_bind, Option.bind_some]
    rw [mapSt_map (F := operand mask) (·.mapI f) _ (fun p hp s => operand_map f s p (h p hp))]
    cases mapSt (operand mask) s (m.parents v) with
    | none => rfl
    | some r =>
      simp only [Option.map_some, Option.bind_some]
      have e : (r.1.mapI f).b = r.1.b := rfl
      rw [e]
      cases setupCirc r.1.b g r.2 with
      | none => rfl
      | some r' => rfl

theorem buildSetup_map {α β : Type} (m : Multi TGate) {mask : Node → Option (List α)}
    {mask' : Node → Option (List β)} (f : α → β) (vs : List Node)
    (h : ∀ v ∈ vs, ∀ p ∈ m.parents v, mask' p = (mask p).map (List.map f)) :
    buildSetup m mask' vs = (buildSetup m mask vs).map fun r => (r.1, r.2.1.map f, r.2.2) := by
  unfold buildSetup
  have e : SetupBuild.new β = (SetupBuild.new α).mapI f := rfl
  rw [e, mapSt_map (F := setupGate m mask) (·.mapI f) _ (fun v hv s => setupGate_map m f v (h v hv) s)]
  cases mapSt (setupGate m mask) (SetupBuild.new α) vs with
  | none => rfl
  | some r =>
    simp only [Option.map_some, Option.bind_eq_bind, Option.bind_some]
    have e : (r.1.mapI f).b = r.1.b := rfl
    rw [e]
    cases mapB (fun b t => mapB (fun b x => output b x) b t) r.1.b r.2 with
    | none => rfl
    | some r' =>
      simp only [Option.bind_some]
      cases r'.1[0]? with
      | none => rfl
      | some c => rfl

/-! ### The circuit of one gate -/

theorem dotFrom_made (l : List (Sec × Sec)) (b : Builder) (h0 : 0 < b.length) (hb : Ok b) (acc : Sec)
    (F : (Node → Bool) → Bool) (hacc : Holds b acc F)
    (hl : ∀ p ∈ l, (Holds b p.1 fun val => val p.1) ∧ Holds b p.2 fun val => val p.2) :
    ∃ b' t k, dotFrom b acc l = some (b', t) ∧ Made b b' k ∧
      Holds b' t fun val => (l.map fun p => val p.1 && val p.2).foldl xor (F val) := by
  induction l generalizing b acc F with
  | nil => exact ⟨b, acc, 0, rfl, .refl h0 hb, hacc⟩
  | cons p l ih =>
    obtain ⟨x, y⟩ := p
    obtain ⟨hx, hy⟩ := hl (x, y) List.mem_cons_self
    obtain ⟨b1, t, e1, m1, ht⟩ := and_made hb hx hy
    obtain ⟨b2, u, e2, m2, hu⟩ := xor_made m1.ok (hacc.mono m1) ht
    obtain ⟨b3, r, k, e3, m3, hr⟩ := ih b2 m2.pos m2.ok u _ hu fun p hp =>
      ⟨((hl p (List.mem_cons_of_mem _ hp)).1.mono m1).mono m2,
        ((hl p (List.mem_cons_of_mem _ hp)).2.mono m1).mono m2⟩
    refine ⟨b3, r, _, ?_, (m1.trans m2).trans m3, hr.congr ?_⟩
    · simp only [dotFrom, e1, e2, e3, Option.bind_eq_bind, Option.bind_some]
    · intro val; rfl

theorem dot_made (row col : List Sec) (b : Builder) (h0 : 0 < b.length) (hb : Ok b)
    (hne : row.zip col ≠ [])
    (hl : ∀ p ∈ row.zip col, (Holds b p.1 fun val => val p.1) ∧ Holds b p.2 fun val => val p.2) :
    ∃ b' t k F, dot b row col = some (b', t) ∧ Made b b' k ∧ Holds b' t F ∧
      ∀ val : Node → Bool, reduceXor (List.zipWith (· && ·) (row.map val) (col.map val)) = some (F val) := by
  have hz : ∀ val : Node → Bool, List.zipWith (· && ·) (row.map val) (col.map val) =
      (row.zip col).map fun p => val p.1 && val p.2 := by
    intro val
    rw [List.zipWith_map, List.zip, List.map_zipWith]
  cases hc : row.zip col with
  | nil => exact absurd hc hne
  | cons p l =>
    obtain ⟨x, y⟩ := p
    rw [hc] at hl
    obtain ⟨hx, hy⟩ := hl (x, y) List.mem_cons_self
    obtain ⟨b1, t, e1, m1, ht⟩ := and_made hb hx hy
    obtain ⟨b2, r, k, e2, m2, hr⟩ := dotFrom_made l b1 m1.pos m1.ok t _ ht fun p hp =>
      ⟨(hl p (List.mem_cons_of_mem _ hp)).1.mono m1, (hl p (List.mem_cons_of_mem _ hp)).2.mono m1⟩
    refine ⟨b2, r, _, _, ?_, m1.trans m2, hr, ?_⟩
    · simp only [dot, hc, e1, e2, Option.bind_eq_bind, Option.bind_some]
    · intro val
      rw [hz, hc]
      rfl

/-- The numbers of values of the operands fit the gate. -/
def Fits : Gate → List Nat → Prop
  | .and2, [a, b] => a = 1 ∧ b = 1
  | .matMult r c, [a, b] => ∃ k, 0 < r ∧ 0 < k ∧ 0 < c ∧ a = r * k ∧ b = k * c
  | _, _ => False

theorem matPairs_map {α β : Type} (f : α → β) (d : α) (a b : List α) (rows k cols : Nat)
    (hr : 0 < rows) (hk : 0 < k) (hc : 0 < cols) (ha : a.length = rows * k) (hb : b.length = k * cols) :
    matPairs rows cols (a.map f) (b.map f) =
      (matPairs rows cols a b).map (List.map fun p => (p.1.map f, p.2.map f)) := by
  rw [matPairs_eq (f d) (a.map f) (b.map f) rows k cols hr hk hc (by simpa using ha) (by simpa using hb),
    matPairs_eq d a b rows k cols hr hk hc ha hb, Option.map_some, List.map_map]
  congr 1
  apply List.map_congr_left
  intro p _
  simp only [Function.comp_apply, List.map_map, Prod.mk.injEq]
  constructor <;>
  · apply List.map_congr_left
    intro t _
    simp only [Function.comp_apply, List.getElem?_map, Option.getD_map]

theorem setupCirc_made (g : Gate) (xss : List (List Sec)) (b : Builder) (h0 : 0 < b.length) (hb : Ok b)
    (hf : Fits g (xss.map (·.length))) (hx : ∀ xs ∈ xss, ∀ x ∈ xs, Holds b x fun val => val x) :
    ∃ b' ts k Fs, setupCirc b g xss = some (b', ts) ∧ Made b b' k ∧ List.Forall₂ (Holds b') ts Fs ∧
      ∀ val : Node → Bool, setupDataCirc g (xss.map (·.map val)) = some (Fs.map (· val)) := by
  cases g with
  | xor => simp [Fits] at hf
  | inv => simp [Fits] at hf
  | and2 =>
    match xss, hf, hx with
    | [[x], [y]], hf, hx =>
      obtain ⟨b1, t, e1, m1, ht⟩ := and_made hb (hx [x] (by simp) x (by simp)) (hx [y] (by simp) y (by simp))
      exact ⟨b1, [t], 1, _, by simp [setupCirc, e1], m1, .cons ht .nil, fun val => rfl⟩
    | [[], _], hf, _ => simp [Fits] at hf
    | [[_], []], hf, _ => simp [Fits] at hf
    | [[_], _ :: _ :: _], hf, _ => simp [Fits] at hf
    | [_ :: _ :: _, _], hf, _ => simp [Fits] at hf
    | [], hf, _ => simp [Fits] at hf
    | [_], hf, _ => simp [Fits] at hf
    | _ :: _ :: _ :: _, hf, _ => simp [Fits] at hf
  | matMult rows cols =>
    match xss, hf, hx with
    | [], hf, _ => simp [Fits] at hf
    | [_], hf, _ => simp [Fits] at hf
    | _ :: _ :: _ :: _, hf, _ => simp [Fits] at hf
    | [a, c], hf, hx =>
      obtain ⟨k, hr, hk, hc, ha, hcl⟩ := hf
      dsimp only at ha hcl
      have hps := matPairs_eq ((0, 0) : Sec) a c rows k cols hr hk hc ha hcl
      have hmap := fun val : Node → Bool => matPairs_map val ((0, 0) : Sec) a c rows k cols hr hk hc ha hcl
      rw [hps] at hmap
      generalize hP : ((List.range (rows * cols)).map fun p =>
        ((List.range k).map fun t => (a[p / cols * k + t]?).getD ((0, 0) : Sec),
          (List.range k).map fun t => (c[t * cols + p % cols]?).getD ((0, 0) : Sec))) = ps at hps hmap
      have hpre : ∀ p ∈ ps, p.1.zip p.2 ≠ [] ∧ ∀ q ∈ p.1.zip p.2,
          (Holds b q.1 fun val => val q.1) ∧ Holds b q.2 fun val => val q.2 := by
        intro p hp
        rw [← hP] at hp
        obtain ⟨i, hi, rfl⟩ := List.mem_map.1 hp
        rw [List.mem_range] at hi
        have h1 : i / cols < rows := by rwa [Nat.div_lt_iff_lt_mul hc]
        have h2 : i % cols < cols := Nat.mod_lt _ hc
        constructor
        · intro h
          have := congrArg List.length h
          simp at this
          omega
        · intro q hq
          obtain ⟨hq1, hq2⟩ := List.of_mem_zip (by simpa using hq : (q.1, q.2) ∈ _)
          obtain ⟨t, ht, e1⟩ := List.mem_map.1 hq1
          obtain ⟨u, hu, e2⟩ := List.mem_map.1 hq2
          rw [List.mem_range] at ht hu
          have l1 : i / cols * k + t < a.length := by rw [ha]; exact idx_lt h1 ht
          have l2 : u * cols + i % cols < c.length := by
            rw [hcl]; exact idx_lt hu h2
          rw [List.getElem?_eq_getElem l1, Option.getD_some] at e1
          rw [List.getElem?_eq_getElem l2, Option.getD_some] at e2
          exact ⟨hx a (by simp) _ (e1 ▸ List.getElem_mem l1), hx c (by simp) _ (e2 ▸ List.getElem_mem l2)⟩
      have key : ∀ (ps : List (List Sec × List Sec)) (b : Builder), 0 < b.length → Ok b →
          (∀ p ∈ ps, p.1.zip p.2 ≠ [] ∧ ∀ q ∈ p.1.zip p.2,
            (Holds b q.1 fun val => val q.1) ∧ Holds b q.2 fun val => val q.2) →
          ∃ b' ts k Fs, mapB (fun b p => dot b p.1 p.2) b ps = some (b', ts) ∧ Made b b' k ∧
            List.Forall₂ (Holds b') ts Fs ∧ ∀ val : Node → Bool,
            (ps.map fun p => (p.1.map val, p.2.map val)).mapM (fun p =>
              reduceXor (List.zipWith (· && ·) p.1 p.2)) = some (Fs.map (· val)) := by
        intro ps
        induction ps with
        | nil => intro b h0 hb _; exact ⟨b, [], 0, [], rfl, .refl h0 hb, .nil, fun _ => rfl⟩
        | cons p ps ih =>
          intro b h0 hb hp
          obtain ⟨q1, q2⟩ := hp p List.mem_cons_self
          obtain ⟨b1, t, k1, F, e1, m1, ht, hv⟩ := dot_made p.1 p.2 b h0 hb q1 q2
          obtain ⟨b2, ts, k2, Fs, e2, m2, hts, hvs⟩ := ih b1 m1.pos m1.ok fun q hq =>
            ⟨(hp q (List.mem_cons_of_mem _ hq)).1, fun r hr =>
              ⟨((hp q (List.mem_cons_of_mem _ hq)).2 r hr).1.mono m1,
                ((hp q (List.mem_cons_of_mem _ hq)).2 r hr).2.mono m1⟩⟩
          refine ⟨b2, t :: ts, _, F :: Fs, ?_, m1.trans m2, .cons (ht.mono m2) hts, ?_⟩
          · simp only [mapB, e1, e2, Option.bind_eq_bind, Option.bind_some, Option.pure_def]
          · intro val
            rw [List.map_cons, List.mapM_cons, hv val, hvs val]
            rfl
      obtain ⟨b', ts, k', Fs, e, hm, hts, hv⟩ := key ps b h0 hb hpre
      refine ⟨b', ts, k', Fs, ?_, hm, hts, ?_⟩
      · simp only [setupCirc, hps, Option.bind_eq_bind, Option.bind_some, e]
      · intro val
        simp only [setupDataCirc, List.map_cons, List.map_nil, hmap val, Option.bind_eq_bind,
          Option.bind_some, Option.map_some]
        exact hv val

/-! ### Invariant of the loop -/

/-- Names for the values of the masks. -/
def names (n : Node → Nat) (p : Node) : Option (List (Node × Nat)) :=
  some ((List.range (n p)).map fun i => (p, i))

/-- The loop invariant. -/
structure TInv (n : Node → Nat) (s : SetupBuild (Node × Nat)) (c : Base BoolGate) : Prop where
  b : s.b = [c]
  ok : BaseOk c
  simd : c.simdSize = none
  len : (inIds c).length = s.inputs.length
  mapLen : ∀ p xs, s.map p = some xs → xs.length = n p
  map : ∀ p xs, s.map p = some xs → ∀ (i : Nat) x, xs[i]? = some x → x.1 = 0 ∧
    ∃ k : Nat, (inIds c)[k]? = some x.2 ∧ s.inputs[k]? = some (p, i)

/-- What later states keep. -/
structure TLe (s s' : SetupBuild (Node × Nat)) : Prop where
  ext : Extends s.b s'.b
  map : ∀ p x, s.map p = some x → s'.map p = some x

theorem TLe.refl (s : SetupBuild (Node × Nat)) : TLe s s := ⟨.refl _, fun _ _ h => h⟩

theorem TLe.trans {a b c : SetupBuild (Node × Nat)} (h : TLe a b) (h' : TLe b c) : TLe a c :=
  ⟨h.ext.trans h'.ext, fun p x e => h'.map p x (h.map p x e)⟩

theorem TInv.holds {n : Node → Nat} {s : SetupBuild (Node × Nat)} {c : Base BoolGate} (h : TInv n s c)
    {p : Node} {xs : List Sec} (e : s.map p = some xs) : ∀ x ∈ xs, Holds [c] x fun val => val x := by
  intro x hx
  obtain ⟨i, hi⟩ := List.getElem?_of_mem hx
  obtain ⟨h0, k, hk, -⟩ := h.map p xs e i x hi
  have hg := mem_inIds (List.mem_of_getElem? hk)
  exact holds_self ⟨c, by rw [h0]; rfl, (List.getElem?_eq_some_iff.1 hg).1⟩ h0

theorem inputs_ext {c : Base BoolGate} (h : BaseOk c) (n : Nat) : Extends [c] [addInputs c n] := by
  induction n generalizing c with
  | zero => exact .refl _
  | succ n ih => exact (input_ext h).trans (ih (addInputs_ok h 1).1)

theorem inIds_inputs (c : Base BoolGate) (n : Nat) :
    inIds (addInputs c n) = inIds c ++ (List.range n).map (c.gates.length + ·) := by
  induction n with
  | zero => simp [addInputs]
  | succ n ih =>
    have e : (addInputs c (n + 1)).gates = (addInputs c n).gates ++ [.base .input] := by
      rw [addInputs_gates, addInputs_gates, List.replicate_succ', List.append_assoc]
    have hl : (addInputs c n).gates.length = c.gates.length + n := by simp [addInputs_gates]
    have : inIds (addInputs c (n + 1)) = inIds (addInputs c n) ++ [c.gates.length + n] := by
      simp only [inIds, e, positions_append, decide_true, if_true, hl]
    rw [this, ih, List.range_succ, List.map_append, List.append_assoc]
    rfl

theorem operand_step {n : Node → Nat} {s : SetupBuild (Node × Nat)} {c : Base BoolGate}
    (h : TInv n s c) (p : Node) :
    ∃ s' c' xs, operand (names n) s p = some (s', xs) ∧ TInv n s' c' ∧ TLe s s' ∧
      s'.map p = some xs := by
  cases e : s.map p with
  | some xs => exact ⟨s, c, xs, by simp [operand, e], h, .refl s, e⟩
  | none =>
    obtain ⟨ok1, s1⟩ := addInputs_ok h.ok (n p)
    have hids := inIds_inputs c (n p)
    generalize hxs : (List.range (n p)).map (fun i => ((0, c.gates.length + i) : Sec)) = xs
    generalize hs' : (⟨[addInputs c (n p)], s.inputs ++ (List.range (n p)).map fun i => (p, i),
      fun q => if q = p then some xs else s.map q⟩ : SetupBuild (Node × Nat)) = s'
    refine ⟨s', addInputs c (n p), xs, ?_, ?_, ?_, ?_⟩
    · simp [operand, e, names, h.b, inputs_eq, hxs, hs']
    · subst hs'
      refine ⟨rfl, ok1, s1.trans h.simd, by simp [hids, h.len], ?_, ?_⟩
      · intro q ys hq
        simp only at hq
        by_cases hqp : q = p
        · rw [if_pos hqp, Option.some.injEq] at hq
          rw [← hq, ← hxs, hqp]; simp
        · rw [if_neg hqp] at hq; exact h.mapLen q ys hq
      · intro q ys hq i x hx
        simp only at hq
        by_cases hqp : q = p
        · rw [if_pos hqp, Option.some.injEq] at hq
          subst hqp
          rw [← hq, ← hxs, List.getElem?_map, Option.map_eq_some_iff] at hx
          obtain ⟨j, hj, rfl⟩ := hx
          obtain ⟨hi, hj'⟩ := List.getElem?_eq_some_iff.1 hj
          simp only [List.getElem_range] at hj'
          subst hj'
          rw [List.length_range] at hi
          refine ⟨rfl, (inIds c).length + i, ?_, ?_⟩
          · rw [hids, List.getElem?_append_right (by omega), Nat.add_sub_cancel_left,
              List.getElem?_map, List.getElem?_range hi]
            rfl
          · rw [h.len]
            simp only
            rw [List.getElem?_append_right (by omega), Nat.add_sub_cancel_left,
              List.getElem?_map, List.getElem?_range hi]
            rfl
        · rw [if_neg hqp] at hq
          obtain ⟨a1, k, a2, a3⟩ := h.map q ys hq i x hx
          refine ⟨a1, k, ?_, ?_⟩
          · rw [hids, List.getElem?_append_left (List.getElem?_eq_some_iff.1 a2).1]; exact a2
          · simp only
            rw [List.getElem?_append_left (List.getElem?_eq_some_iff.1 a3).1]; exact a3
    · subst hs'
      refine ⟨by rw [h.b]; exact inputs_ext h.ok _, ?_⟩
      intro q x hq
      have : q ≠ p := by rintro rfl; rw [e] at hq; cases hq
      simpa [this] using hq
    · subst hs'; simp

theorem operands_step {n : Node → Nat} (ps : List Node) {s : SetupBuild (Node × Nat)}
    {c : Base BoolGate} (h : TInv n s c) :
    ∃ s' c' xss, mapSt (operand (names n)) s ps = some (s', xss) ∧ TInv n s' c' ∧ TLe s s' ∧
      ps.map s'.map = xss.map some := by
  induction ps generalizing s c with
  | nil => exact ⟨s, c, [], rfl, h, .refl s, rfl⟩
  | cons p ps ih =>
    obtain ⟨s1, c1, x, e1, h1, l1, m1⟩ := operand_step h p
    obtain ⟨s2, c2, xs, e2, h2, l2, m2⟩ := ih h1
    refine ⟨s2, c2, x :: xs, by simp [mapSt, e1, e2], h2, l1.trans l2, ?_⟩
    simp [m2, l2.map p x m1]

/-- The secrets `t` carry the products for the gate `v`. -/
def GateOk (m : Multi TGate) (s : SetupBuild (Node × Nat)) (v : Node) (t : List Sec) : Prop :=
  ∃ g, ∃ xss : List (List Sec), ∃ Fs : List ((Node → Bool) → Bool), m.gate? v = some (.op g) ∧ (m.parents v).map s.map = xss.map some ∧
    List.Forall₂ (Holds s.b) t Fs ∧
    ∀ val : Node → Bool, setupDataCirc g (xss.map (·.map val)) = some (Fs.map (· val))

theorem GateOk.mono {m : Multi TGate} {s s' : SetupBuild (Node × Nat)} (h : TLe s s') {v : Node}
    {t : List Sec} (hg : GateOk m s v t) : GateOk m s' v t := by
  obtain ⟨g, xss, Fs, e1, e2, e3, e4⟩ := hg
  exact ⟨g, xss, Fs, e1, map_some_mono h.map e2, e3.imp fun _ _ h' => holds_ext h.ext h', e4⟩

theorem setupGate_step {n : Node → Nat} {m : Multi TGate} {v : Node} {g : Gate}
    (hg : m.gate? v = some (.op g)) (hn : Fits g ((m.parents v).map n))
    {s : SetupBuild (Node × Nat)} {c : Base BoolGate} (h : TInv n s c) :
    ∃ s' c' t, setupGate m (names n) s v = some (s', t) ∧ TInv n s' c' ∧ TLe s s' ∧
      GateOk m s' v t := by
  obtain ⟨s1, c1, xss, e1, h1, l1, m1⟩ := operands_step (m.parents v) h
  have hlen : xss.map (·.length) = (m.parents v).map n := by
    have : ∀ (ps : List Node) (xss : List (List Sec)), ps.map s1.map = xss.map some →
        xss.map (·.length) = ps.map n := by
      intro ps
      induction ps with
      | nil => intro xss e; have : xss = [] := by simpa using e.symm
               subst this; rfl
      | cons p ps ih =>
        intro xss e
        cases xss with
        | nil => simp at e
        | cons x xss =>
          simp only [List.map_cons, List.cons.injEq] at e ⊢
          exact ⟨h1.mapLen p x e.1, ih xss e.2⟩
    exact this _ _ m1
  obtain ⟨b2, ts, k, Fs, e2, hm, hts, hv⟩ := setupCirc_made g xss [c1] (by simp) (Cbc.single_ok h1.ok)
    (by rw [hlen]; exact hn) (by
      intro xs hxs
      obtain ⟨p, -, hp⟩ := mem_of_map_some m1 hxs
      exact h1.holds hp)
  obtain ⟨c', gs, rfl, ok', s', hgs, hq⟩ := made_single h1.ok hm
  have hids : inIds c' = inIds c1 := by
    simp only [inIds, hgs]
    exact Cbc.positions_quiet _ _ _ fun g hg => by simpa using (quiet_ne (hq g hg)).1
  have hle : TLe s1 { s1 with b := [c'] } := ⟨by rw [h1.b]; exact hm.ext, fun _ _ h => h⟩
  refine ⟨{ s1 with b := [c'] }, c', ts, ?_, ⟨rfl, ok', s'.trans h1.simd, ?_, h1.mapLen, ?_⟩,
    l1.trans hle, g, xss, Fs, hg, m1, hts, hv⟩
  · simp [setupGate, hg, TGate.op?, e1, h1.b, e2]
  · rw [hids]; exact h1.len
  · rw [hids]; exact h1.map

theorem setupGates_step {n : Node → Nat} {m : Multi TGate} (vs : List Node)
    (hv : ∀ v ∈ vs, ∃ g, m.gate? v = some (.op g) ∧ Fits g ((m.parents v).map n))
    {s : SetupBuild (Node × Nat)} {c : Base BoolGate} (h : TInv n s c) :
    ∃ s' c' ts, mapSt (setupGate m (names n)) s vs = some (s', ts) ∧ TInv n s' c' ∧ TLe s s' ∧
      List.Forall₂ (GateOk m s') vs ts := by
  induction vs generalizing s c with
  | nil => exact ⟨s, c, [], rfl, h, .refl s, .nil⟩
  | cons v vs ih =>
    obtain ⟨g, hg, hf⟩ := hv v List.mem_cons_self
    obtain ⟨s1, c1, t, e1, h1, l1, g1⟩ := setupGate_step hg hf h
    obtain ⟨s2, c2, ts, e2, h2, l2, g2⟩ := ih (fun w hw => hv w (List.mem_cons_of_mem _ hw)) h1
    exact ⟨s2, c2, t :: ts, by simp [mapSt, e1, e2], h2, l1.trans l2, .cons (g1.mono l2) g2⟩

theorem new_inv (n : Node → Nat) : TInv n (SetupBuild.new (Node × Nat)) ({} : Base _) := by
  refine ⟨rfl, ⟨?_, ?_, ?_, ⟨rfl, rfl, rfl, rfl, rfl⟩⟩, rfl, rfl, ?_, ?_⟩
  · intro e he; simp at he
  · intro i g hg; simp at hg
  · intro i g hg; simp at hg
  · intro p xs h; cases h
  · intro p xs h; cases h

/-- The setup circuit computes the products of the masks. -/
theorem setup_circuit (m : Multi TGate) (n : Node → Nat) (vs : List Node)
    (hv : ∀ v ∈ vs, ∃ g, m.gate? v = some (.op g) ∧ Fits g ((m.parents v).map n)) :
    ∃ c inputs outs, buildSetup m (names n) vs = some (c, inputs, outs) ∧ BaseOk c ∧
      c.simdSize = none ∧ c.inputGates.length = inputs.length ∧
      (∀ t ∈ outs, ∀ x ∈ t, c.gates[x.2]? = some (.base .output)) ∧
      ∀ lam : Node × Nat → Bool, List.Forall₂ (fun v t => ∃ g, m.gate? v = some (.op g) ∧
        setupDataCirc g ((m.parents v).map fun p => (List.range (n p)).map fun i => lam (p, i)) =
          some (t.map fun x => plainVal c (inputs.map lam) x.2)) vs outs := by
  obtain ⟨s, c, ts, e, h, -, hg⟩ := setupGates_step vs hv (new_inv n)
  -- the values of the products
  obtain ⟨Fss, hF1, hF2⟩ : ∃ Fss : List (List ((Node → Bool) → Bool)),
      List.Forall₂ (List.Forall₂ (Holds [c])) ts Fss ∧
      List.Forall₂ (fun v Fs => ∃ g, ∃ xss : List (List Sec), m.gate? v = some (.op g) ∧
        (m.parents v).map s.map = xss.map some ∧
        ∀ val : Node → Bool, setupDataCirc g (xss.map (·.map val)) = some (Fs.map (· val))) vs Fss := by
    clear e hv
    induction hg with
    | nil => exact ⟨[], .nil, .nil⟩
    | @cons v t ws ts h1 _ ih =>
      obtain ⟨Fss, a1, a2⟩ := ih
      obtain ⟨g, xss, Fs, b1, b2, b3, b4⟩ := h1
      rw [h.b] at b3
      exact ⟨Fs :: Fss, .cons b3 a1, .cons ⟨g, xss, b1, b2, b4⟩ a2⟩
  obtain ⟨c', outs, k, e2, ok2, s2, x2, g2, f2, o2⟩ := outputs_nested ts Fss c h.ok hF1
  have hids : inIds c' = inIds c := by
    simp only [inIds, g2]
    exact Cbc.positions_quiet _ _ _ fun g hg => by simp [(List.mem_replicate.1 hg).2]
  refine ⟨c', s.inputs, outs, ?_, ok2, s2.trans h.simd, ?_, o2, ?_⟩
  · simp only [buildSetup, e, Option.bind_eq_bind, Option.bind_some, h.b, e2, Option.pure_def,
      List.getElem?_cons_zero]
  · rw [input_pos c' ok2.book]
    show (inIds c').length = _
    rw [hids, h.len]
  · intro lam
    have hcons := plainVal_consistent ok2 (s.inputs.map lam)
    have hval : ∀ p xs, s.map p = some xs →
        xs.map (fun x => plainVal c' (s.inputs.map lam) x.2) =
          (List.range (n p)).map fun i => lam (p, i) := by
      intro p xs hp
      refine List.ext_getElem? fun i => ?_
      have hl := h.mapLen p xs hp
      by_cases hi : i < n p
      · have hi' : i < xs.length := by omega
        obtain ⟨h0, k, hk, hin⟩ := h.map p xs hp i xs[i] (List.getElem?_eq_getElem hi')
        rw [List.getElem?_map, List.getElem?_map, List.getElem?_eq_getElem hi', List.getElem?_range hi]
        simp only [Option.map_some, Option.some.injEq]
        rw [plainVal_input ok2 _ k _ (by rw [hids]; exact hk), List.getD_eq_getElem?_getD,
          List.getElem?_map, hin]
        rfl
      · rw [List.getElem?_eq_none (by simp; omega), List.getElem?_eq_none (by simp; omega)]
    have hops : ∀ (ps : List Node) (xss : List (List Sec)), ps.map s.map = xss.map some →
        xss.map (·.map fun x : Sec => plainVal c' (s.inputs.map lam) x.2) =
          ps.map fun p => (List.range (n p)).map fun i => lam (p, i) := by
      intro ps
      induction ps with
      | nil => intro xss e; have : xss = [] := by simpa using e.symm
               subst this; rfl
      | cons p ps ih =>
        intro xss e
        cases xss with
        | nil => simp at e
        | cons x xss =>
          simp only [List.map_cons, List.cons.injEq] at e ⊢
          exact ⟨hval p x e.1, ih xss e.2⟩
    clear e hv hg hF1 e2 o2
    induction hF2 generalizing outs with
    | nil => cases f2; exact .nil
    | @cons v Fs ws Fss h1 _ ih =>
      cases f2 with
      | @cons t _ ts' _ h2 h3 =>
        refine .cons ?_ (ih _ h3)
        obtain ⟨g, xss, a1, a2, a3⟩ := h1
        refine ⟨g, a1, ?_⟩
        have := a3 fun x : Node => plainVal c' (s.inputs.map lam) x.2
        rw [← hops _ _ a2, this]
        congr 1
        exact (holds_vals hcons h2).symm

end Verif.Tensor
