import Verif.Mail.Loop

/-!
Lemmas for C66: input and output gates.
-/
set_option autoImplicit false

namespace Verif.Mail

open Circuit Gmw Secret Exec

/-- `n` more input gates. -/
def addInputs (c : Base BoolGate) : Nat → Base BoolGate
  | 0 => c
  | n + 1 => addInputs (c.addGate (.base .input)).1 n

/-- The secrets of `n` characters whose gates start at `g`. -/
def rows (g n : Nat) : List (List Sec) :=
  (List.range n).map fun k => (List.range 8).map fun i => (0, g + 8 * k + i)

/-- The secrets of texts of the lengths `ns` whose gates start at `g`. -/
def rowsAt (g : Nat) : List Nat → List (List (List Sec))
  | [] => []
  | n :: ns => rows g n :: rowsAt (g + 8 * n) ns

theorem addInputs_add (c : Base BoolGate) (m n : Nat) :
    addInputs (addInputs c m) n = addInputs c (m + n) := by
  induction m generalizing c with
  | zero => simp [addInputs]
  | succ m ih => rw [Nat.succ_add]; exact ih _

theorem addInputs_gates (c : Base BoolGate) (n : Nat) :
    (addInputs c n).gates = c.gates ++ List.replicate n (.base .input) := by
  induction n generalizing c with
  | zero => simp [addInputs]
  | succ n ih =>
    rw [addInputs, ih, (addGate_gates c _).1, List.append_assoc]
    congr 1

theorem addInputs_ok {c : Base BoolGate} (h : BaseOk c) (n : Nat) :
    BaseOk (addInputs c n) ∧ (addInputs c n).simdSize = c.simdSize := by
  induction n generalizing c with
  | zero => exact ⟨h, rfl⟩
  | succ n ih =>
    have he : EdgesIn c := fun e he => by have := h.edges e he; omega
    obtain ⟨c', e, -, -, -, -, hs, hok⟩ := addWired_grow he (.base .input) [] (by simp)
    rw [← addGate_wired] at e
    have e1 := Option.some.inj e
    have e2 : (c.addGate (.base .input)).1 = c' := by rw [e1]
    rw [addInputs, e2]
    have := ih (hok h rfl rfl)
    exact ⟨this.1, this.2.trans hs⟩

theorem baseOk_edges {c : Base BoolGate} (h : BaseOk c) : EdgesIn c :=
  fun e he => by have := h.edges e he; omega

theorem input_one (c : Base BoolGate) :
    input [c] 0 = some ([addInputs c 1], (0, c.gates.length)) := by
  simp only [input, onCirc, List.getElem?_cons_zero, Option.bind_eq_bind, Option.bind_some,
    (addGate_gates c _).2.2.1, Option.pure_def, List.set_cons_zero, addInputs]

theorem inputs_eq (c : Base BoolGate) (n : Nat) :
    inputs [c] n = some ([addInputs c n], (List.range n).map fun i => (0, c.gates.length + i)) := by
  have : ∀ (xs : List Nat) (c : Base BoolGate), mapB (fun b (_ : Nat) => input b 0) [c] xs =
      some ([addInputs c xs.length], (List.range xs.length).map fun i => (0, c.gates.length + i)) := by
    intro xs
    induction xs with
    | nil => intro c; rfl
    | cons x xs ih =>
      intro c
      have hg : (addInputs c 1).gates.length = c.gates.length + 1 := by simp [addInputs_gates]
      simp only [mapB, input_one, Option.bind_eq_bind, Option.bind_some, ih, addInputs_add,
        List.length_cons, Option.pure_def, hg, Nat.add_comm 1]
      rw [List.range_succ_eq_map, List.map_cons, List.map_map]
      congr 3
      apply List.map_congr_left
      intro i _
      simp only [Function.comp_apply, Prod.mk.injEq, true_and]
      omega
  have h := this (List.range n) c
  rwa [List.length_range] at h

theorem char_inputs_eq (c : Base BoolGate) (n : Nat) :
    mapB (fun b (_ : Nat) => inputs b 8) [c] (List.range n) =
      some ([addInputs c (8 * n)], rows c.gates.length n) := by
  have : ∀ (xs : List Nat) (c : Base BoolGate), mapB (fun b (_ : Nat) => inputs b 8) [c] xs =
      some ([addInputs c (8 * xs.length)], rows c.gates.length xs.length) := by
    intro xs
    induction xs with
    | nil => intro c; rfl
    | cons x xs ih =>
      intro c
      have hg : (addInputs c 8).gates.length = c.gates.length + 8 := by simp [addInputs_gates]
      simp only [mapB, inputs_eq, Option.bind_eq_bind, Option.bind_some, ih, addInputs_add,
        List.length_cons, Option.pure_def, hg]
      congr 2
      · congr 1; congr 1; omega
      · rw [rows, rows, List.range_succ_eq_map (n := xs.length), List.map_cons, List.map_map]
        congr 1
        apply List.map_congr_left
        intro k _
        simp only [Function.comp_apply]
        apply List.map_congr_left
        intro i _
        simp only [Prod.mk.injEq, true_and]
        omega
  have h := this (List.range n) c
  rwa [List.length_range] at h

theorem bytesToInput_eq (c : Base BoolGate) (d : List Byte) (dup : Nat) :
    bytesToInput [c] d dup = some ([addInputs c (8 * (List.replicate dup d).flatten.length)],
      bitsOf (List.replicate dup d).flatten, rows c.gates.length (List.replicate dup d).flatten.length) := by
  simp only [bytesToInput, char_inputs_eq, Option.bind_eq_bind, Option.bind_some, Option.pure_def]

theorem texts_eq (dup : Nat) (ds : List (List Byte)) (c : Base BoolGate) :
    ∃ ks, mapB (fun b d => bytesToInput b d dup) [c] ds =
        some ([addInputs c (8 * (ds.map fun d => (List.replicate dup d).flatten.length).sum)], ks) ∧
      ks.map (·.1) = ds.map (fun d => bitsOf (List.replicate dup d).flatten) ∧
      ks.map (·.2) = rowsAt c.gates.length (ds.map fun d => (List.replicate dup d).flatten.length) := by
  induction ds generalizing c with
  | nil => exact ⟨[], rfl, rfl, rfl⟩
  | cons d ds ih =>
    generalize hn : (List.replicate dup d).flatten.length = n
    obtain ⟨ks, e, h1, h2⟩ := ih (addInputs c (8 * n))
    refine ⟨(bitsOf (List.replicate dup d).flatten, rows c.gates.length n) :: ks, ?_, ?_, ?_⟩
    · simp only [mapB, bytesToInput_eq, Option.bind_eq_bind, Option.bind_some, hn, e,
        Option.pure_def, addInputs_add, List.map_cons, List.sum_cons]
      congr 4
      omega
    · simp [h1]
    · simp only [List.map_cons, h2, rowsAt, hn]
      congr 2
      simp [addInputs_gates]

/-! ### Values of the inputs -/

/-- The bits of a byte. -/
def byteBits (x : Byte) : List Bool := (List.range 8).map fun k => x.getLsbD k

theorem bitsOf_eq (bs : List Byte) : bitsOf bs = bs.flatMap byteBits := rfl

theorem bitsOf_length (bs : List Byte) : (bitsOf bs).length = 8 * bs.length := by
  induction bs with
  | nil => rfl
  | cons x bs ih =>
    rw [bitsOf_eq, List.flatMap_cons, List.length_append, ← bitsOf_eq, ih]
    simp [byteBits]; omega

theorem bitsOf_append (a b : List Byte) : bitsOf (a ++ b) = bitsOf a ++ bitsOf b := by
  simp [bitsOf_eq]

theorem getD_left {α : Type} (a b : List α) (d : α) {i : Nat} (h : i < a.length) :
    (a ++ b).getD i d = a.getD i d := by
  simp only [List.getD_eq_getElem?_getD, List.getElem?_append_left h]

theorem getD_right {α : Type} (a b : List α) (d : α) {i : Nat} (h : a.length ≤ i) :
    (a ++ b).getD i d = b.getD (i - a.length) d := by
  simp only [List.getD_eq_getElem?_getD, List.getElem?_append_right h]

theorem rows_val (val : Node → Bool) (bs : List Byte) (g : Nat)
    (h : ∀ i < 8 * bs.length, val (0, g + i) = (bitsOf bs).getD i false) :
    (rows g bs.length).map (List.map val) = bs.map byteBits := by
  induction bs generalizing g with
  | nil => rfl
  | cons x bs ih =>
    rw [rows, List.length_cons, List.range_succ_eq_map (n := bs.length), List.map_cons, List.map_cons,
      List.map_cons]
    have hb : bitsOf (x :: bs) = byteBits x ++ bitsOf bs := by simp [bitsOf_eq]
    congr 1
    · rw [byteBits, List.map_map]
      apply List.map_congr_left
      intro i hi
      have hi' := List.mem_range.1 hi
      simp only [Function.comp_apply, Nat.mul_zero, Nat.add_zero]
      rw [h i (by simp; omega), hb, getD_left _ _ _ (by simp [byteBits]; exact hi'), byteBits]
      simp [List.getD_eq_getElem?_getD, hi']
    · rw [← ih (g + 8) (fun i hi => ?_)]
      · rw [rows, List.map_map, List.map_map, List.map_map]
        apply List.map_congr_left
        intro k _
        simp only [Function.comp_apply, List.map_map]
        apply List.map_congr_left
        intro i _
        simp only [Function.comp_apply]
        congr 2; omega
      · have := h (8 + i) (by simp; omega)
        rw [← Nat.add_assoc] at this
        rw [this, hb, getD_right _ _ _ (by simp [byteBits])]
        simp [byteBits]

theorem rowsAt_val (val : Node → Bool) (ds : List (List Byte)) (g : Nat)
    (h : ∀ i < 8 * (ds.map List.length).sum,
      val (0, g + i) = ((ds.map bitsOf).flatten).getD i false) :
    (rowsAt g (ds.map List.length)).map (List.map (List.map val)) = ds.map (List.map byteBits) := by
  induction ds generalizing g with
  | nil => rfl
  | cons d ds ih =>
    simp only [List.map_cons, rowsAt, List.sum_cons, List.flatten_cons] at h ⊢
    congr 1
    · apply rows_val
      intro i hi
      rw [h i (by omega), getD_left _ _ _ (by rw [bitsOf_length]; exact hi)]
    · apply ih
      intro i hi
      have := h (8 * d.length + i) (by omega)
      rw [← Nat.add_assoc] at this
      rw [this, getD_right _ _ _ (by rw [bitsOf_length]; omega), bitsOf_length]
      congr 1; omega

theorem rows_mem {g n : Nat} {row : List Sec} (h : row ∈ rows g n) :
    row.length = 8 ∧ ∀ s ∈ row, s.1 = 0 ∧ g ≤ s.2 ∧ s.2 < g + 8 * n := by
  simp only [rows, List.mem_map, List.mem_range] at h
  obtain ⟨k, hk, rfl⟩ := h
  refine ⟨by simp, ?_⟩
  intro s hs
  simp only [List.mem_map, List.mem_range] at hs
  obtain ⟨i, hi, rfl⟩ := hs
  refine ⟨rfl, by simp only; omega, by simp only; omega⟩

theorem rowsAt_mem {ns : List Nat} {g : Nat} {t : List (List Sec)} (h : t ∈ rowsAt g ns) :
    ∀ row ∈ t, row.length = 8 ∧ ∀ s ∈ row, s.1 = 0 ∧ g ≤ s.2 ∧ s.2 < g + 8 * ns.sum := by
  induction ns generalizing g with
  | nil => simp [rowsAt] at h
  | cons n ns ih =>
    simp only [rowsAt, List.mem_cons] at h
    intro row hr
    rw [List.sum_cons]
    rcases h with rfl | h
    · obtain ⟨h1, h2⟩ := rows_mem hr
      exact ⟨h1, fun s hs => by have := h2 s hs; omega⟩
    · obtain ⟨h1, h2⟩ := ih h row hr
      exact ⟨h1, fun s hs => by have := h2 s hs; omega⟩

theorem rowsAt_lengths (g : Nat) (ns : List Nat) : (rowsAt g ns).map List.length = ns := by
  induction ns generalizing g with
  | nil => rfl
  | cons n ns ih => simp [rowsAt, ih, rows]

theorem rowsAt_length (g : Nat) (ns : List Nat) : (rowsAt g ns).length = ns.length := by
  have := congrArg List.length (rowsAt_lengths g ns)
  simpa using this

/-! ### Output gates -/

theorem outputs_made (rs : List Sec) (Fs : List ((Node → Bool) → Bool)) (c : Base BoolGate)
    (hc : BaseOk c) (h : List.Forall₂ (Holds [c]) rs Fs) :
    ∃ c', mapB (fun b s => output b s) [c] rs =
        some ([c'], (List.range rs.length).map fun i => (0, c.gates.length + i)) ∧
      BaseOk c' ∧ c'.simdSize = c.simdSize ∧
      c'.gates = c.gates ++ List.replicate rs.length (.base .output) ∧
      andCount [c'] = andCount [c] ∧
      List.Forall₂ (Holds [c']) ((List.range rs.length).map fun i => (0, c.gates.length + i)) Fs := by
  induction rs generalizing c Fs with
  | nil =>
    cases h
    exact ⟨c, rfl, hc, rfl, by simp, rfl, .nil⟩
  | cons r rs ih =>
    cases h with
    | @cons _ F _ Fs h hs =>
    have hok : Ok [c] := by
      intro i d hd
      cases i with
      | zero => rw [← Option.some.inj hd]; exact baseOk_edges hc
      | succ i => simp at hd
    obtain ⟨b1, t1, e1, h1, d1⟩ := output_denotes hok h.1
    have hrun := e1
    rw [output, h.2.1] at e1
    simp only [onCirc, List.getElem?_cons_zero, Option.bind_eq_bind, Option.bind_some,
      Option.bind_eq_some_iff, Option.pure_def, Option.some.injEq, Prod.mk.injEq,
      List.set_cons_zero] at e1
    obtain ⟨⟨c1, id⟩, hw, rfl, rfl⟩ := e1
    obtain ⟨hg, hid⟩ := addWired_gates hw
    subst hid
    obtain ⟨c1', hc1', -, -, hsimd, hbok⟩ := d1.ext.circ 0 c rfl
    have : c1' = c1 := by simpa using hc1'.symm
    subst this
    have hmono : ∀ {t : Sec} {G : (Node → Bool) → Bool}, Holds [c] t G → Holds [c1'] t G :=
      fun hG => ⟨d1.ext.valid hG.1, hG.2.1, fun val hv => hG.2.2 val (d1.ext.consistent hv)⟩
    obtain ⟨c2, e2, ok2, s2, g2, a2, f2⟩ := ih Fs c1' (hbok hc) (hs.imp fun _ _ h => hmono h)
    have hlen : c1'.gates.length = c.gates.length + 1 := by simp [hg]
    have hmap : (List.range (rs.length + 1)).map (fun i => ((0, c.gates.length + i) : Sec)) =
        (0, c.gates.length) :: (List.range rs.length).map fun i => ((0, c1'.gates.length + i) : Sec) := by
      rw [List.range_succ_eq_map, List.map_cons, List.map_map, hlen]
      congr 1
      apply List.map_congr_left
      intro i _
      simp only [Function.comp_apply, Prod.mk.injEq, true_and]
      omega
    refine ⟨c2, ?_, ok2, s2.trans hsimd, ?_, ?_, ?_⟩
    · simp only [mapB, hrun, Option.bind_eq_bind, Option.bind_some, e2, Option.pure_def,
        List.length_cons, hmap]
    · rw [g2, hg, List.append_assoc]; congr 1
    · rw [a2, d1.ands, Nat.add_zero]
    · rw [List.length_cons, hmap]
      refine .cons ?_ f2
      -- the first output keeps its value
      have ho : Holds [c1'] (0, c.gates.length) F :=
        ⟨d1.valid, rfl, fun val hv => (d1.value val hv).trans (h.2.2 val (d1.ext.consistent hv))⟩
      have : ∀ (rs : List Sec) (c c' : Base BoolGate) (Fs : List ((Node → Bool) → Bool)) (o : List Sec),
          BaseOk c → List.Forall₂ (Holds [c]) rs Fs →
          mapB (fun b s => output b s) [c] rs = some ([c'], o) →
          ∀ t G, Holds [c] t G → Holds [c'] t G := by
        intro rs
        induction rs with
        | nil =>
          intro c c' Fs o _ _ e t G hG
          simp only [mapB, Option.some.injEq, Prod.mk.injEq, List.cons.injEq, and_true] at e
          rw [← e.1]; exact hG
        | cons r rs ih =>
          intro c c' Fs o hc hh e t G hG
          cases hh with
          | @cons _ F _ Fs h hs =>
          have hok : Ok [c] := by
            intro i d hd
            cases i with
            | zero => rw [← Option.some.inj hd]; exact baseOk_edges hc
            | succ i => simp at hd
          obtain ⟨b1, t1, e1, h1, d1⟩ := output_denotes hok h.1
          have hl := d1.ext.length
          obtain ⟨c1, hc1, -, -, -, hbok⟩ := d1.ext.circ 0 c rfl
          have hb1 : b1 = [c1] := by
            match b1, hl, hc1 with
            | [x], _, hx => rw [Option.some.inj hx]
          subst hb1
          have hmono : ∀ {t : Sec} {G : (Node → Bool) → Bool}, Holds [c] t G → Holds [c1] t G :=
            fun hG => ⟨d1.ext.valid hG.1, hG.2.1, fun val hv => hG.2.2 val (d1.ext.consistent hv)⟩
          simp only [mapB, e1, Option.bind_eq_bind, Option.bind_some, Option.bind_eq_some_iff,
            Option.pure_def, Option.some.injEq, Prod.mk.injEq] at e
          obtain ⟨⟨b2, o2⟩, e2, h3, -⟩ := e
          simp only at h3
          subst h3
          exact ih c1 c' Fs o2 (hbok hc) (hs.imp fun _ _ h => hmono h) e2 t G (hmono hG)
      exact this rs c1' c2 Fs _ (hbok hc) (hs.imp fun _ _ h => hmono h) e2 _ _ ho

theorem positions_io (A : List BoolGate) (m : Nat) (h : ∀ g ∈ A, g ≠ .base .output) :
    positions (fun g => g = .base .output) (A ++ List.replicate m (.base .output)) =
      (List.range m).map fun i => A.length + i := by
  induction m with
  | zero =>
    simp only [List.replicate_zero, List.append_nil, List.range_zero, List.map_nil]
    rw [positions, List.filter_eq_nil_iff]
    intro i hi
    have := List.mem_range.1 hi
    simp [List.getElem?_eq_getElem this, h _ (List.getElem_mem this)]
  | succ m ih =>
    rw [List.replicate_succ', ← List.append_assoc, positions_append, ih, List.range_succ,
      List.map_append]
    simp

theorem made_single {c : Base BoolGate} (hc : BaseOk c) {b : Builder} {k : Nat}
    (h : Made [c] b k) : ∃ c' gs, b = [c'] ∧ BaseOk c' ∧ c'.simdSize = c.simdSize ∧
      c'.gates = c.gates ++ gs ∧ ∀ g ∈ gs, quiet g = true := by
  obtain ⟨x, y, gs, h1, h2, h3, h4⟩ := h.adds
  have hl := h.ext.length
  obtain ⟨c1, hc1, -, -, hs, hbok⟩ := h.ext.circ 0 c rfl
  match b, hl, hc1, h2 with
  | [z], _, hc1, h2 =>
    have e1 := Option.some.inj hc1
    have e2 := Option.some.inj h2
    have e3 := Option.some.inj h1
    subst e1 e2 e3
    exact ⟨z, gs, rfl, hbok hc, hs, h3, h4⟩

end Verif.Mail
