import Verif.Aby2.TwoParty
import Verif.Aby2.Multi
import Verif.Cbc.Loop

/-!
Lemmas for C71: what the setup circuit of ABY2 computes.
-/
set_option autoImplicit false

namespace Verif.Aby2

open Gmw (BoolGate)
open Circuit Exec Proc Secret Mail

/-! ### The circuit does not depend on the masks -/

/-- Replace the inputs. -/
def SetupBuild.mapI {α β : Type} (f : α → β) (s : SetupBuild α) : SetupBuild β :=
  ⟨s.b, s.inputs.map f, s.map, s.cache⟩

theorem mapSt_map {σ τ α β : Type} {F : σ → α → Option (σ × β)} {F' : τ → α → Option (τ × β)}
    (g : σ → τ) (xs : List α)
    (h : ∀ x ∈ xs, ∀ s, F' (g s) x = (F s x).map fun r => (g r.1, r.2)) (s : σ) :
    mapSt F' (g s) xs = (mapSt F s xs).map fun r => (g r.1, r.2) := by
  induction xs generalizing s with
  | nil => rfl
  | cons x xs ih =>
    have ih := ih fun y hy => h y (List.mem_cons_of_mem _ hy)
    simp only [mapSt, h x List.mem_cons_self s, Option.bind_eq_bind]
    cases F s x with
    | none => rfl
    | some r =>
      simp only [Option.map_some, Option.bind_some, ih]
      cases mapSt F r.1 xs with
      | none => rfl
      | some r' => rfl

theorem operand_map {α β : Type} {mask : Node → Option α} {mask' : Node → Option β} (f : α → β)
    (s : SetupBuild α) (p : Node) (h : mask' p = (mask p).map f) :
    operand mask' (s.mapI f) p = (operand mask s p).map fun r => (r.1.mapI f, r.2) := by
  unfold operand
  have e : (s.mapI f).map p = s.map p := rfl
  rw [e]
  cases s.map p with
  | some x => rfl
  | none =>
    have e : (s.mapI f).b = s.b := rfl
    simp only [e, Option.bind_eq_bind]
    cases input s.b 0 with
    | none => rfl
    | some r =>
      simp only [Option.bind_some, h]
      cases mask p with
      | none => rfl
      | some v => simp [SetupBuild.mapI]

theorem dataSet_map {α β : Type} (f : α → β) (s : SetupBuild α) (set : List Sec) :
    dataSet (s.mapI f) set = (dataSet s set).map fun r => (r.1.mapI f, r.2) := by
  unfold dataSet
  have e : (s.mapI f).cache = s.cache := rfl
  have e' : (s.mapI f).b = s.b := rfl
  rw [e, e']
  cases s.cache set with
  | some x => rfl
  | none =>
    simp only [Option.bind_eq_bind]
    cases newProduct s.b s.cache set with
    | none => rfl
    | some r => rfl

theorem setupGate_map {α β : Type} (m : Multi Gate) {mask : Node → Option α}
    {mask' : Node → Option β} (f : α → β) (v : Node)
    (h : ∀ p ∈ m.parents v, mask' p = (mask p).map f) (s : SetupBuild α) :
    setupGate m mask' (s.mapI f) v = (setupGate m mask s v).map fun r => (r.1.mapI f, r.2) := by
  unfold setupGate
  cases m.gate? v with
  | none => rfl
  | some g =>
    simp only [Option.bind_eq_bind, Option.bind_some]
    rw [mapSt_map (F := operand mask) (·.mapI f) _ (fun p hp s => operand_map f s p (h p hp))]
    cases mapSt (operand mask) s (m.parents v) with
    | none => rfl
    | some r =>
      simp only [Option.map_some, Option.bind_some]
      cases g with
      | and n => exact mapSt_map (·.mapI f) _ (fun p _ s => dataSet_map f s p) _
      | base _ => rfl
      | xor => rfl
      | inv => rfl

theorem buildSetup_map {α β : Type} (m : Multi Gate) {mask : Node → Option α}
    {mask' : Node → Option β} (f : α → β) (vs : List Node)
    (h : ∀ v ∈ vs, ∀ p ∈ m.parents v, mask' p = (mask p).map f) :
    buildSetup m mask' vs = (buildSetup m mask vs).map fun r => (r.1, r.2.1.map f, r.2.2) := by
  unfold buildSetup
  have e : SetupBuild.new β = (SetupBuild.new α).mapI f := rfl
  rw [e, mapSt_map (F := setupGate m mask) (·.mapI f) _ (fun v hv s => setupGate_map m f v (h v hv) s)]
  cases mapSt (setupGate m mask) (SetupBuild.new α) vs with
  | none => rfl
  | some r =>
    simp only [Option.map_some, Option.bind_eq_bind, Option.bind_some]
    have e : (r.1.mapI f).b = r.1.b := rfl
    rw [e]
    cases mapB (fun b t => mapB (fun b x => output b x) b t) r.1.b r.2 with
    | none => rfl
    | some r' =>
      simp only [Option.bind_some]
      cases r'.1[0]? with
      | none => rfl
      | some c => rfl

/-! ### Invariant of the loop -/

/-- The input gates in the order of their creation. -/
def inIds (c : Base BoolGate) : List Nat := positions (fun g => g = .base .input) c.gates

/-- The loop invariant; the inputs are represented by the operands they are the masks of. -/
structure BInv (s : SetupBuild Node) (c : Base BoolGate) : Prop where
  b : s.b = [c]
  ok : BaseOk c
  simd : c.simdSize = none
  noOut : ∀ g ∈ c.gates, g ≠ .base .output
  nodup : s.inputs.Nodup
  len : (inIds c).length = s.inputs.length
  map : ∀ p, s.map p =
    if p ∈ s.inputs then some (0, (inIds c).getD (s.inputs.idxOf p) 0) else none
  cache : ∀ set x, s.cache set = some x → Holds [c] x fun val => set.all val

/-- What later states keep. -/
structure BLe (s s' : SetupBuild Node) : Prop where
  ext : Extends s.b s'.b
  map : ∀ p x, s.map p = some x → s'.map p = some x
  cache : ∀ set x, s.cache set = some x → s'.cache set = some x

theorem BLe.refl (s : SetupBuild Node) : BLe s s := ⟨.refl _, fun _ _ h => h, fun _ _ h => h⟩

theorem BLe.trans {a b c : SetupBuild Node} (h : BLe a b) (h' : BLe b c) : BLe a c :=
  ⟨h.ext.trans h'.ext, fun p x e => h'.map p x (h.map p x e), fun p x e => h'.cache p x (h.cache p x e)⟩

theorem holds_ext {b b' : Builder} (h : Extends b b') {t : Sec} {F : (Node → Bool) → Bool}
    (ht : Holds b t F) : Holds b' t F :=
  ⟨h.valid ht.1, ht.2.1, fun val hv => ht.2.2 val (h.consistent hv)⟩

theorem mem_inIds {c : Base BoolGate} {i : Nat} (h : i ∈ inIds c) :
    c.gates[i]? = some (.base .input) := by
  simp only [inIds, positions, List.mem_filter, List.mem_range] at h
  obtain ⟨h1, h2⟩ := h
  rw [List.getElem?_eq_getElem h1] at h2 ⊢
  simpa using h2

theorem inIds_sorted (c : Base BoolGate) : (inIds c).Pairwise (· < ·) :=
  List.Pairwise.filter _ List.pairwise_lt_range

theorem BInv.secret {s : SetupBuild Node} {c : Base BoolGate} (h : BInv s c) {p : Node} {x : Sec}
    (e : s.map p = some x) : p ∈ s.inputs ∧ x.1 = 0 ∧
      (inIds c)[s.inputs.idxOf p]? = some x.2 ∧ Holds [c] x fun val => val x := by
  rw [h.map p] at e
  by_cases hp : p ∈ s.inputs
  · rw [if_pos hp, Option.some.injEq] at e
    have hl : s.inputs.idxOf p < (inIds c).length := by
      rw [h.len]; exact List.idxOf_lt_length_iff.2 hp
    have hx : (inIds c)[s.inputs.idxOf p]? = some x.2 := by
      rw [← e, List.getD_eq_getElem?_getD, List.getElem?_eq_getElem hl]; rfl
    refine ⟨hp, by rw [← e], hx, ?_⟩
    have hg := mem_inIds (List.mem_of_getElem? hx)
    refine holds_self ⟨c, by rw [← e]; rfl, (List.getElem?_eq_some_iff.1 hg).1⟩ (by rw [← e])
  · rw [if_neg hp] at e; cases e

/-- Append an operand unless it is there. -/
def addNew (l : List Node) (p : Node) : List Node := if p ∈ l then l else l ++ [p]

theorem input_ext {c : Base BoolGate} (h : BaseOk c) : Extends [c] [addInputs c 1] := by
  obtain ⟨c', e, hg, -, hp, -, hs, hok⟩ := addWired_grow (baseOk_edges h) (.base .input) [] (by simp)
  rw [← addGate_wired] at e
  have e2 : addInputs c 1 = c' := by
    have e1 := Option.some.inj e
    show (c.addGate (.base .input)).1 = c'
    rw [e1]
  rw [e2]
  refine ⟨rfl, ?_⟩
  intro i d hd
  cases i with
  | zero =>
    have : c = d := Option.some.inj hd
    subst this
    exact ⟨c', rfl, ⟨_, hg.symm⟩, hp, hs, fun h => hok h rfl rfl⟩
  | succ i => simp at hd

theorem operand_step {s : SetupBuild Node} {c : Base BoolGate} (h : BInv s c) (p : Node) :
    ∃ s' c' x, operand some s p = some (s', x) ∧ BInv s' c' ∧ BLe s s' ∧
      s'.inputs = addNew s.inputs p ∧ s'.map p = some x := by
  by_cases hp : p ∈ s.inputs
  · have e := h.map p
    rw [if_pos hp] at e
    exact ⟨s, c, _, by simp [operand, e], h, .refl s, by simp [addNew, hp], e⟩
  · have e := h.map p
    rw [if_neg hp] at e
    obtain ⟨ok1, s1⟩ := addInputs_ok h.ok 1
    have hg : (addInputs c 1).gates = c.gates ++ [.base .input] := by rw [addInputs_gates]; rfl
    have hids : inIds (addInputs c 1) = inIds c ++ [c.gates.length] := by
      simp only [inIds, hg, positions_append, decide_true, if_true]
    have hext := input_ext h.ok
    generalize hs' : ({ s with b := [addInputs c 1], inputs := s.inputs ++ [p]
                               map := fun q => if q = p then some (0, c.gates.length) else s.map q } :
      SetupBuild Node) = s'
    have hle : BLe s s' := by
      subst hs'
      refine ⟨by rw [h.b]; exact hext, ?_, fun _ _ h => h⟩
      intro q x hq
      have : q ≠ p := by rintro rfl; rw [e] at hq; cases hq
      simpa [this] using hq
    refine ⟨s', addInputs c 1, (0, c.gates.length), ?_, ?_, hle, ?_, ?_⟩
    · simp [operand, e, h.b, input_one, ← hs']
    · subst hs'
      refine ⟨rfl, ok1, s1.trans h.simd, ?_, ?_, ?_, ?_, ?_⟩
      · intro g hg'
        rw [hg] at hg'
        rcases List.mem_append.1 hg' with h' | h'
        · exact h.noOut g h'
        · rw [List.mem_singleton.1 h']; simp
      · rw [List.nodup_append]
        refine ⟨h.nodup, by simp, ?_⟩
        intro a ha b hb
        rw [List.mem_singleton.1 hb]
        rintro rfl
        exact hp ha
      · simp [hids, h.len]
      · intro q
        simp only [hids, List.idxOf_append, List.mem_append, List.mem_singleton]
        by_cases hq : q = p
        · subst hq
          simp [hp, ← h.len]
        · have hm := h.map q
          simp only [hq, or_false, if_false, hm]
          by_cases hq' : q ∈ s.inputs
          · have hl : s.inputs.idxOf q < (inIds c).length := by
              rw [h.len]; exact List.idxOf_lt_length_iff.2 hq'
            simp [hq', List.getElem?_append_left hl]
          · simp [hq']
      · intro set x hx
        exact holds_ext hext (h.cache set x hx)
    · subst hs'; simp [addNew, hp]
    · subst hs'; simp

theorem operands_step (ps : List Node) {s : SetupBuild Node} {c : Base BoolGate} (h : BInv s c) :
    ∃ s' c' xs, mapSt (operand some) s ps = some (s', xs) ∧ BInv s' c' ∧ BLe s s' ∧
      s'.inputs = ps.foldl addNew s.inputs ∧ ps.map s'.map = xs.map some := by
  induction ps generalizing s c with
  | nil => exact ⟨s, c, [], rfl, h, .refl s, rfl, rfl⟩
  | cons p ps ih =>
    obtain ⟨s1, c1, x, e1, h1, l1, i1, m1⟩ := operand_step h p
    obtain ⟨s2, c2, xs, e2, h2, l2, i2, m2⟩ := ih h1
    refine ⟨s2, c2, x :: xs, by simp [mapSt, e1, e2], h2, l1.trans l2, ?_, ?_⟩
    · rw [i2, i1]; rfl
    · simp [m2, l2.map p x m1]

/-! ### Products -/

theorem quiet_ne {g : BoolGate} (h : quiet g = true) : g ≠ .base .input ∧ g ≠ .base .output := by
  constructor <;> rintro rfl <;> simp [quiet] at h

/-- The set was given a new AND gate with the right value. -/
theorem dataSet_new {s : SetupBuild Node} {c : Base BoolGate} (h : BInv s c) {set : List Sec}
    {a r : Sec} {F G : (Node → Bool) → Bool} (hc : s.cache set = none)
    (ha : Holds [c] a F) (hr : Holds [c] r G) (hFG : ∀ val, (F val && G val) = set.all val)
    (hd : dataSet s set = (bitAnd s.b a r).map fun y =>
      ({ s with b := y.1, cache := fun t => if t = set then some y.2 else s.cache t }, y.2)) :
    ∃ s' c' x, dataSet s set = some (s', x) ∧ BInv s' c' ∧ BLe s s' ∧
      s'.inputs = s.inputs ∧ s'.cache set = some x := by
  obtain ⟨b', t, e, hm, ht⟩ := and_made (Cbc.single_ok h.ok) ha hr
  obtain ⟨c', gs, rfl, ok', s', hg, hq⟩ := made_single h.ok hm
  rw [h.b, e, Option.map_some] at hd
  have hids : inIds c' = inIds c := by
    simp only [inIds, hg]
    exact Cbc.positions_quiet _ _ _ fun g hg => by simpa using (quiet_ne (hq g hg)).1
  refine ⟨_, c', t, hd, ⟨rfl, ok', s'.trans h.simd, ?_, h.nodup, ?_, ?_, ?_⟩, ⟨?_, fun _ _ h => h, ?_⟩,
    rfl, by simp⟩
  · intro g hg'
    rw [hg] at hg'
    rcases List.mem_append.1 hg' with h' | h'
    · exact h.noOut g h'
    · exact (quiet_ne (hq g h')).2
  · rw [hids]; exact h.len
  · rw [hids]; exact h.map
  · intro u x hx
    simp only at hx
    by_cases hu : u = set
    · rw [if_pos hu, Option.some.injEq] at hx
      subst hu
      rw [← hx]
      exact ht.congr hFG
    · rw [if_neg hu] at hx
      exact (h.cache u x hx).mono hm
  · rw [h.b]; exact hm.ext
  · intro u x hx
    have : u ≠ set := by rintro rfl; rw [hc] at hx; cases hx
    simpa [this] using hx

theorem dataSet_step {s : SetupBuild Node} {c : Base BoolGate} (h : BInv s c) (set : List Sec)
    (hx : ∀ x ∈ set, Holds [c] x fun val => val x) (h2 : 2 ≤ set.length)
    (h3 : 3 ≤ set.length → ∃ y, s.cache set.dropLast = some y) :
    ∃ s' c' x, dataSet s set = some (s', x) ∧ BInv s' c' ∧ BLe s s' ∧
      s'.inputs = s.inputs ∧ s'.cache set = some x := by
  cases hc : s.cache set with
  | some x => exact ⟨s, c, x, by simp [dataSet, hc], h, .refl s, rfl, hc⟩
  | none =>
    match set, hx, h2, h3, hc with
    | [a, r], hx, h2, h3, hc =>
      refine dataSet_new h hc (hx a (by simp)) (hx r (by simp)) (by intro val; simp) ?_
      simp only [dataSet, hc, newProduct]
      cases bitAnd s.b a r <;> rfl
    | a :: r :: x :: l, hx, h2, h3, hc =>
      obtain ⟨y, hy⟩ := h3 (by simp)
      obtain ⟨z, hz⟩ : ∃ z, (a :: r :: x :: l).getLast? = some z :=
        ⟨_, List.getLast?_eq_some_getLast (by simp)⟩
      have hsplit : (a :: r :: x :: l) = (a :: r :: x :: l).dropLast ++ [z] := by
        rw [List.getLast?_eq_some_getLast (by simp)] at hz
        rw [← Option.some.inj hz]
        exact (List.dropLast_append_getLast (by simp)).symm
      refine dataSet_new (r := y) h hc (hx z (List.mem_of_getLast? hz)) (h.cache _ y hy) ?_ ?_
      · intro val
        conv_rhs => rw [hsplit]
        rw [List.all_append, Bool.and_comm]
        simp
      · have hl : 2 ≤ (a :: r :: x :: l).dropLast.length := by simp
        simp only [dataSet, hc, newProduct, if_pos hl, hy, hz, Option.bind_eq_bind, Option.bind_some]
        cases bitAnd s.b z y <;> rfl

/-- Every long set comes after its initial part. -/
def Closed (sets : List (List Sec)) : Prop :=
  ∀ a set b, sets = a ++ set :: b → 2 ≤ set.length ∧ (3 ≤ set.length → set.dropLast ∈ a)

theorem dataSets_step (sets done : List (List Sec)) {s : SetupBuild Node} {c : Base BoolGate}
    (h : BInv s c) (hx : ∀ set ∈ sets, ∀ x ∈ set, Holds [c] x fun val => val x)
    (hcl : ∀ a set b, sets = a ++ set :: b → 2 ≤ set.length ∧
      (3 ≤ set.length → set.dropLast ∈ done ++ a))
    (hdone : ∀ set ∈ done, ∃ y, s.cache set = some y) :
    ∃ s' c' xs, mapSt dataSet s sets = some (s', xs) ∧ BInv s' c' ∧ BLe s s' ∧
      s'.inputs = s.inputs ∧ sets.map s'.cache = xs.map some := by
  induction sets generalizing s c done with
  | nil => exact ⟨s, c, [], rfl, h, .refl s, rfl, rfl⟩
  | cons set sets ih =>
    obtain ⟨c2, c3⟩ := hcl [] set sets rfl
    obtain ⟨s1, c1, x, e1, h1, l1, i1, m1⟩ := dataSet_step h set (hx set List.mem_cons_self) c2
      (fun h => hdone _ (by simpa using c3 h))
    have hext : Extends [c] [c1] := by have := l1.ext; rwa [h.b, h1.b] at this
    obtain ⟨s2, c2, xs, e2, h2, l2, i2, m2⟩ := ih (done ++ [set]) h1
      (fun t ht y hy => holds_ext hext (hx t (List.mem_cons_of_mem _ ht) y hy))
      (fun a t b e => by
        have := hcl (set :: a) t b (by rw [e]; rfl)
        simpa using this)
      (by
        intro t ht
        rcases List.mem_append.1 ht with ht | ht
        · obtain ⟨y, hy⟩ := hdone t ht
          exact ⟨y, l1.cache t y hy⟩
        · rw [List.mem_singleton.1 ht]; exact ⟨x, m1⟩)
    refine ⟨s2, c2, x :: xs, by simp [mapSt, e1, e2], h2, l1.trans l2, i2.trans i1, ?_⟩
    simp [m2, l2.cache set x m1]

/-! ### The sets of operands -/

theorem combos_mem {α : Type} {k : Nat} {l t : List α} (h : t ∈ combos k l) :
    t.length = k ∧ t.Sublist l := by
  induction l generalizing k t with
  | nil =>
    cases k with
    | zero => simp [combos] at h; subst h; simp
    | succ k => simp [combos] at h
  | cons x xs ih =>
    cases k with
    | zero => simp [combos] at h; subst h; simp
    | succ k =>
      simp only [combos, List.mem_append, List.mem_map] at h
      rcases h with ⟨u, hu, rfl⟩ | h
      · obtain ⟨h1, h2⟩ := ih hu
        exact ⟨by simp [h1], h2.cons_cons x⟩
      · obtain ⟨h1, h2⟩ := ih h
        exact ⟨h1, h2.cons x⟩

theorem combos_of_sublist {α : Type} {l t : List α} (h : t.Sublist l) : t ∈ combos t.length l := by
  induction h with
  | slnil => simp [combos]
  | @cons t l x h ih =>
    cases t with
    | nil => simp [combos]
    | cons y t => simp only [List.length_cons, combos, List.mem_append]; exact .inr ih
  | @cons_cons t l x h ih =>
    simp only [List.length_cons, combos, List.mem_append, List.mem_map]
    exact .inl ⟨t, ih, rfl⟩

theorem highSets_eq {α : Type} (l : List α) (h : 1 ≤ l.length) :
    highSets l = (List.range (l.length - 1)).flatMap fun k => combos (k + 2) l := by
  have hd : (powerset l).drop (l.length + 1) = highSets l := rfl
  obtain ⟨n, hn⟩ : ∃ n, l.length = n + 1 := ⟨l.length - 1, by omega⟩
  have : powerset l = (combos 0 l ++ combos 1 l) ++
      (List.range (l.length - 1)).flatMap fun k => combos (k + 2) l := by
    unfold powerset
    rw [hn, List.range_succ_eq_map, List.flatMap_cons, List.range_succ_eq_map, List.map_cons,
      List.flatMap_cons, List.append_assoc, Nat.add_sub_cancel, List.map_map, List.flatMap_map]
    rfl
  rw [← hd, this, List.drop_left' (by simp [combos, combos_one])]

theorem flatMap_split {α β : Type} (f : α → List β) (xs : List α) (a : List β) (t : β) (b : List β)
    (h : xs.flatMap f = a ++ t :: b) : ∃ ys x zs c d, xs = ys ++ x :: zs ∧ f x = c ++ t :: d ∧
      a = ys.flatMap f ++ c := by
  induction xs generalizing a with
  | nil => simp at h
  | cons x xs ih =>
    rw [List.flatMap_cons] at h
    rcases List.append_eq_append_iff.1 h with ⟨u, h1, h2⟩ | ⟨u, h1, h2⟩
    · obtain ⟨ys, y, zs, c, d, e1, e2, e3⟩ := ih u h2
      refine ⟨x :: ys, y, zs, c, d, by rw [e1]; rfl, e2, ?_⟩
      rw [h1, e3, List.flatMap_cons, List.append_assoc]
    · cases u with
      | nil =>
        obtain ⟨ys, y, zs, c, d, e1, e2, e3⟩ := ih [] (by simpa using h2.symm)
        refine ⟨x :: ys, y, zs, c, d, by rw [e1]; rfl, e2, ?_⟩
        rw [List.append_nil] at h1
        rw [List.flatMap_cons, List.append_assoc, ← e3, List.append_nil, h1]
      | cons w u =>
        simp only [List.cons_append, List.cons.injEq] at h2
        obtain ⟨rfl, -⟩ := h2
        exact ⟨[], x, xs, a, u, rfl, h1, by simp⟩

theorem highSets_closed (l : List Sec) : Closed (highSets l) := by
  intro a set b e
  by_cases hl : 1 ≤ l.length
  · rw [highSets_eq l hl] at e
    obtain ⟨ys, k, zs, c, d, e1, e2, e3⟩ := flatMap_split _ _ _ _ _ e
    have hm : set ∈ combos (k + 2) l := by rw [e2]; simp
    obtain ⟨h1, h2⟩ := combos_mem hm
    refine ⟨by omega, ?_⟩
    intro h3
    have hd : set.dropLast ∈ combos (k + 1) l := by
      have := combos_of_sublist ((List.dropLast_sublist set).trans h2)
      rwa [List.length_dropLast, h1] at this
    rw [e3]
    apply List.mem_append_left
    rw [List.mem_flatMap]
    refine ⟨k - 1, ?_, by rwa [show k - 1 + 2 = k + 1 by omega]⟩
    have hk : ys = List.range k := by
      have hlen : ys.length = k := by
        have := congrArg (·[ys.length]?) e1
        simp only [List.getElem?_append_right (Nat.le_refl _), Nat.sub_self,
          List.getElem?_cons_zero] at this
        have h' := List.getElem?_eq_some_iff.1 this
        obtain ⟨h', h''⟩ := h'
        simpa using h''
      have := congrArg (List.take k) e1
      rw [List.take_left' hlen, List.take_range] at this
      have hk' : k < l.length - 1 := by
        have := congrArg List.length e1
        simp at this; omega
      rw [← this, Nat.min_eq_left (by omega)]
    rw [hk, List.mem_range]
    omega
  · have : l = [] := List.length_eq_zero_iff.1 (by omega)
    subst this
    have : highSets ([] : List Sec) = [] := rfl
    rw [this] at e
    simp at e

theorem mem_highSets {α : Type} {l t : List α} (h : t ∈ highSets l) : t.Sublist l := by
  have := List.mem_of_mem_drop h
  simp only [powerset, List.mem_flatMap] at this
  obtain ⟨k, -, hk⟩ := this
  exact (combos_mem hk).2

end Verif.Aby2
