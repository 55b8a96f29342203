import Mathlib.Data.List.Perm.Subperm
import Mathlib.Data.List.TakeWhile
import Mathlib.Data.List.Flatten
import Verif.Circuit.Model

/-!
Range connections between circuits (circuit_connections.rs).
-/
set_option autoImplicit false

namespace Verif.Circuit

/-! ### Model -/

/-- `RangeInclusive<SubCircuitGate>`.  Simplification: both ends are in the same circuit, which
holds for every range the builder makes (builder.rs:171-187). -/
structure GRange where
  circ : Nat
  lo : Nat
  hi : Nat
deriving DecidableEq, Repr

def GRange.key (r : GRange) : Nat × Nat := (r.lo, r.hi)

/-- utils.rs:52-63 order of `RangeInclusiveStartWrapper`: by start, then by end. -/
def keyLe (a b : Nat × Nat) : Bool := a.1 < b.1 || (a.1 == b.1 && a.2 ≤ b.2)

/-- One `BTreeMap<FromRange, ToRanges>`: entries in key order. -/
abbrev BMap := List ((Nat × Nat) × List GRange)

/-- `bmap.entry(k).or_default().push(to)`. -/
def bpush (k : Nat × Nat) (dst : GRange) : BMap → BMap
  | [] => [(k, [dst])]
  | e :: m =>
    if e.1 = k then (e.1, e.2 ++ [dst]) :: m
    else if keyLe k e.1 then (k, [dst]) :: e :: m
    else e :: bpush k dst m

/-- circuit_connections.rs:43-45 `RangeSubCircuitConnections`: a map per circuit. -/
abbrev RangeMap := Nat → BMap

/-- circuit_connections.rs:165-180: the greatest stored key not above the new one contains it. -/
def conflict (b : BMap) (src : GRange) : Bool :=
  match (b.takeWhile fun e => keyLe e.1 src.key).getLast? with
  | some e => decide (e.1.1 < src.lo) && decide (src.hi ≤ e.1.2)
  | none => false

/-- circuit_connections.rs:155-183 `insert`, `none` for a failed assert. -/
def RangeMap.insert (m : RangeMap) (src dst : GRange) : Option RangeMap :=
  if src.lo ≤ src.hi ∧ conflict (m src.circ) src = false then
    some fun i => if i = src.circ then bpush src.key dst (m src.circ) else m i
  else none

/-- circuit_connections.rs:187-212 `get_mapped_ranges`: from the last key starting at or before
the gate backwards, while the ranges contain the gate. -/
def RangeMap.mapped (m : RangeMap) (g : Node) : BMap :=
  ((m g.1).takeWhile fun e => decide (e.1.1 ≤ g.2)).reverse.takeWhile
    fun e => decide (e.1.1 ≤ g.2) && decide (g.2 ≤ e.1.2)

/-- circuit_connections.rs:109-126 and 130-146, `parent_gates` and `outgoing_gates`: the gate at
the same offset of each mapped range. -/
def RangeMap.gates (m : RangeMap) (g : Node) : List Node :=
  (m.mapped g).flatMap fun e => e.2.map fun t => (t.circ, t.lo + (g.2 - e.1.1))

/-- A sequence of insertions into the empty map. -/
def RangeMap.insertAll : List (GRange × GRange) → RangeMap → Option RangeMap
  | [], m => some m
  | (f, t) :: r, m => m.insert f t >>= RangeMap.insertAll r

/-! ### Specification -/

/-- Gate `g` lies in the range. -/
def GRange.Has (r : GRange) (g : Node) : Prop := r.circ = g.1 ∧ r.lo ≤ g.2 ∧ g.2 ≤ r.hi

instance (r : GRange) (g : Node) : Decidable (r.Has g) := by unfold GRange.Has; infer_instance

/-- The gate that range connection `c` connects `g` to. -/
def image (c : GRange × GRange) (g : Node) : Node := (c.2.circ, c.2.lo + (g.2 - c.1.lo))

/-- The gates a list of range connections connects `g` to. -/
def imagesOf (cs : List (GRange × GRange)) (g : Node) : List Node :=
  (cs.filter fun c => c.1.Has g).map fun c => image c g

/-- `a` lies strictly inside `b`. -/
def GRange.Inside (a b : GRange) : Prop := a.circ = b.circ ∧ b.lo < a.lo ∧ a.hi < b.hi

/-! ### Lemmas -/

theorem takeWhile_eq_filter {α : Type} (p : α → Bool) (l : List α)
    (h : l.Pairwise fun x y => p y = true → p x = true) : l.takeWhile p = l.filter p := by
  induction l with
  | nil => rfl
  | cons x l ih =>
    rw [List.pairwise_cons] at h
    by_cases hx : p x = true
    · simp [hx, ih h.2]
    · have : l.filter p = [] := by
        rw [List.filter_eq_nil_iff]
        intro y hy hp
        exact hx (h.1 y hy hp)
      simp [hx, this]

def keyLt (a b : Nat × Nat) : Prop := a.1 < b.1 ∨ (a.1 = b.1 ∧ a.2 < b.2)

theorem keyLe_iff {a b : Nat × Nat} : keyLe a b = true ↔ keyLt a b ∨ a = b := by
  obtain ⟨a1, a2⟩ := a
  obtain ⟨b1, b2⟩ := b
  simp only [keyLe, keyLt, Bool.or_eq_true, decide_eq_true_eq, Bool.and_eq_true, beq_iff_eq,
    Prod.mk.injEq]
  omega

/-- Strictly increasing keys. -/
def Sorted (b : BMap) : Prop := b.Pairwise fun x y => keyLt x.1 y.1

/-- No stored range lies strictly inside another. -/
def Flat (b : BMap) : Prop := ∀ x ∈ b, ∀ y ∈ b, ¬ (x.1.1 < y.1.1 ∧ y.1.2 < x.1.2)

/-- Keys and targets of a map. -/
def contents (b : BMap) : List ((Nat × Nat) × GRange) := b.flatMap fun e => e.2.map fun t => (e.1, t)

theorem bpush_contents (k : Nat × Nat) (t : GRange) (b : BMap) :
    (contents (bpush k t b)).Perm (contents b ++ [(k, t)]) := by
  induction b with
  | nil => simp [bpush, contents]
  | cons e b ih =>
    unfold bpush
    split
    · rename_i h
      subst h
      simp only [contents, List.flatMap_cons, List.map_append, List.map_cons, List.map_nil,
        List.append_assoc]
      exact List.Perm.append_left _ List.perm_append_comm
    · split
      · simp only [contents, List.flatMap_cons, List.map_cons, List.map_nil]
        exact List.perm_append_comm
      · simp only [contents, List.flatMap_cons, List.append_assoc] at ih ⊢
        exact List.Perm.append_left _ ih

theorem bpush_keys {k : Nat × Nat} {t : GRange} {b : BMap} {e : (Nat × Nat) × List GRange}
    (h : e ∈ bpush k t b) : e.1 = k ∨ ∃ e' ∈ b, e'.1 = e.1 := by
  induction b with
  | nil => simp [bpush] at h; left; rw [h]
  | cons x b ih =>
    unfold bpush at h
    split at h
    · rename_i hx
      rcases List.mem_cons.1 h with rfl | h
      · exact .inl hx
      · exact .inr ⟨e, List.mem_cons_of_mem _ h, rfl⟩
    · split at h
      · rcases List.mem_cons.1 h with rfl | h
        · exact .inl rfl
        · exact .inr ⟨e, h, rfl⟩
      · rcases List.mem_cons.1 h with rfl | h
        · exact .inr ⟨_, List.mem_cons_self, rfl⟩
        · rcases ih h with h | ⟨e', h, h'⟩
          · exact .inl h
          · exact .inr ⟨e', List.mem_cons_of_mem _ h, h'⟩

theorem keyLt_trans {a b c : Nat × Nat} (h1 : keyLt a b) (h2 : keyLt b c) : keyLt a c := by
  unfold keyLt at *; omega

theorem keyLt_of_not_le {a b : Nat × Nat} (h : ¬ keyLe a b = true) : keyLt b a := by
  rw [keyLe_iff] at h
  obtain ⟨a1, a2⟩ := a
  obtain ⟨b1, b2⟩ := b
  simp only [keyLt, Prod.mk.injEq, not_or] at *
  omega

theorem bpush_sorted {k : Nat × Nat} {t : GRange} {b : BMap} (h : Sorted b) : Sorted (bpush k t b) := by
  induction b with
  | nil => simp [bpush, Sorted]
  | cons x b ih =>
    unfold Sorted at h
    rw [List.pairwise_cons] at h
    unfold bpush
    split
    · exact List.pairwise_cons.2 ⟨h.1, h.2⟩
    · rename_i hne
      split
      · rename_i hle
        have hlt : keyLt k x.1 := (keyLe_iff.1 hle).resolve_right (fun h => hne h.symm)
        refine List.pairwise_cons.2 ⟨fun y hy => ?_, List.pairwise_cons.2 h⟩
        rcases List.mem_cons.1 hy with rfl | hy
        · exact hlt
        · exact keyLt_trans hlt (h.1 y hy)
      · rename_i hle
        have hlt := keyLt_of_not_le hle
        refine List.pairwise_cons.2 ⟨fun y hy => ?_, ih h.2⟩
        rcases bpush_keys hy with e | ⟨e', he', e⟩
        · rw [e]; exact hlt
        · rw [← e]; exact h.1 e' he'

theorem takeWhile_le {b : BMap} (h : Sorted b) (k : Nat × Nat) :
    (b.takeWhile fun e => keyLe e.1 k) = b.filter fun e => keyLe e.1 k := by
  apply takeWhile_eq_filter
  refine List.Pairwise.imp ?_ h
  intro x y hxy hy
  rw [keyLe_iff] at hy ⊢
  left
  rcases hy with hy | hy
  · exact keyLt_trans hxy hy
  · rw [← hy]; exact hxy

/-- In a sorted list the last element satisfying a property is above all others. -/
theorem getLast_max {l : BMap} (h : Sorted l) {q : (Nat × Nat) × List GRange} (hq : l.getLast? = some q)
    {e : (Nat × Nat) × List GRange} (he : e ∈ l) : e = q ∨ keyLt e.1 q.1 := by
  obtain ⟨i, hi, rfl⟩ := List.getElem_of_mem he
  rw [List.getLast?_eq_getElem?] at hq
  obtain ⟨hl, rfl⟩ := List.getElem?_eq_some_iff.1 hq
  by_cases hii : i = l.length - 1
  · left; simp [hii]
  · right; exact List.pairwise_iff_getElem.1 h i (l.length - 1) hi hl (by omega)

theorem getLast_exists {l : BMap} {e : (Nat × Nat) × List GRange} (he : e ∈ l) :
    ∃ q, l.getLast? = some q := by
  cases h : l.getLast? with
  | none => rw [List.getLast?_eq_none_iff] at h; subst h; simp at he
  | some q => exact ⟨q, rfl⟩

/-- A range strictly inside a stored one is rejected. -/
theorem insert_rejects_inside {m : RangeMap} {src dst : GRange} (hs : Sorted (m src.circ))
    (hf : Flat (m src.circ)) {e : (Nat × Nat) × List GRange} (he : e ∈ m src.circ)
    (h1 : e.1.1 < src.lo) (h2 : src.hi < e.1.2) : m.insert src dst = none := by
  have hk : keyLe e.1 src.key = true := keyLe_iff.2 (.inl (.inl h1))
  have hmem : e ∈ (m src.circ).filter fun e => keyLe e.1 src.key := List.mem_filter.2 ⟨he, hk⟩
  obtain ⟨q, hq⟩ := getLast_exists hmem
  have hsf : Sorted ((m src.circ).filter fun e => keyLe e.1 src.key) := hs.sublist List.filter_sublist
  have hqm : q ∈ (m src.circ).filter fun e => keyLe e.1 src.key := List.mem_of_getLast? hq
  obtain ⟨hqm, hqk⟩ := List.mem_filter.1 hqm
  have hcond : q.1.1 < src.lo ∧ src.hi ≤ q.1.2 := by
    rcases getLast_max hsf hq hmem with rfl | hlt
    · exact ⟨h1, Nat.le_of_lt h2⟩
    · have hnn := hf e he q hqm
      rw [keyLe_iff] at hqk
      simp only [keyLt, GRange.key] at hlt hqk
      rcases hqk with hqk | hqk
      · omega
      · rw [hqk] at hlt hnn ⊢
        simp only at hlt hnn ⊢
        omega
  unfold RangeMap.insert
  rw [if_neg]
  rintro ⟨-, h⟩
  simp [conflict, takeWhile_le hs, hq, hcond.1] at h
  omega

/-- A rejected well-formed range lies inside a stored one. -/
theorem insert_none {m : RangeMap} {src dst : GRange} (hle : src.lo ≤ src.hi)
    (h : m.insert src dst = none) :
    ∃ e ∈ m src.circ, e.1.1 < src.lo ∧ src.hi ≤ e.1.2 := by
  unfold RangeMap.insert at h
  split at h
  · cases h
  · rename_i hok
    cases hq : ((m src.circ).takeWhile fun e => keyLe e.1 src.key).getLast? with
    | none => simp [conflict, hq, hle] at hok
    | some e =>
      simp only [conflict, hq, hle, true_and, Bool.not_eq_false, Bool.and_eq_true,
        decide_eq_true_eq] at hok
      exact ⟨e, (List.takeWhile_sublist _).subset (List.mem_of_getLast? hq), hok⟩

theorem insert_some {m m' : RangeMap} {src dst : GRange} (h : m.insert src dst = some m') :
    src.lo ≤ src.hi ∧ m' = fun i => if i = src.circ then bpush src.key dst (m src.circ) else m i := by
  unfold RangeMap.insert at h
  split at h
  · rename_i hle
    exact ⟨hle.1, (Option.some.inj h).symm⟩
  · cases h

/-- What a map holds after the insertions `cs`. -/
structure Holds (m : RangeMap) (cs : List (GRange × GRange)) : Prop where
  sorted : ∀ i, Sorted (m i)
  contents : ∀ i, (contents (m i)).Perm ((cs.filter fun c => c.1.circ = i).map fun c => (c.1.key, c.2))
  keys : ∀ i, ∀ e ∈ m i, ∃ c ∈ cs, c.1.circ = i ∧ c.1.key = e.1

theorem Holds.empty : Holds (fun _ => []) [] :=
  ⟨fun _ => List.Pairwise.nil, fun _ => List.Perm.refl _, fun _ _ h => by simp at h⟩

theorem Holds.insert {m m' : RangeMap} {cs : List (GRange × GRange)} {src dst : GRange} (h : Holds m cs)
    (hi : m.insert src dst = some m') : Holds m' (cs ++ [(src, dst)]) := by
  obtain ⟨-, rfl⟩ := insert_some hi
  refine ⟨fun i => ?_, fun i => ?_, fun i e he => ?_⟩
  · beta_reduce
    split
    · exact bpush_sorted (h.sorted _)
    · exact h.sorted i
  · beta_reduce
    by_cases hc : i = src.circ
    · subst hc
      simp only [if_true, List.filter_append, List.map_append]
      refine (bpush_contents _ _ _).trans ((h.contents _).append ?_)
      simp
    · have : ¬ src.circ = i := fun e => hc e.symm
      simp only [hc, if_false, List.filter_append, List.map_append]
      simp only [this, decide_false, Bool.false_eq_true, not_false_eq_true, List.filter_cons_of_neg,
        List.filter_nil, List.map_nil, List.append_nil]
      exact h.contents i
  · beta_reduce at he
    split at he
    · rename_i hc
      subst hc
      rcases bpush_keys he with hk | ⟨e', he', hk⟩
      · exact ⟨(src, dst), by simp, rfl, hk.symm⟩
      · obtain ⟨c, hc, h1, h2⟩ := h.keys _ e' he'
        exact ⟨c, List.mem_append_left _ hc, h1, h2.trans hk⟩
    · obtain ⟨c, hc, h1, h2⟩ := h.keys _ e he
      exact ⟨c, List.mem_append_left _ hc, h1, h2⟩

theorem insertAll_holds {m m' : RangeMap} {cs ds : List (GRange × GRange)} (h : Holds m cs)
    (hi : m.insertAll ds = some m') : Holds m' (cs ++ ds) := by
  induction ds generalizing m cs with
  | nil => cases hi; simpa using h
  | cons d ds ih =>
    obtain ⟨f, t⟩ := d
    simp only [RangeMap.insertAll, Option.bind_eq_bind, Option.bind_eq_some_iff] at hi
    obtain ⟨m1, h1, h2⟩ := hi
    simpa using ih (h.insert h1) h2

theorem insertAll_flat {m m' : RangeMap} {cs ds : List (GRange × GRange)} (h : Holds m cs)
    (hf : ∀ i, Flat (m i)) (hi : m.insertAll ds = some m')
    (hn : (cs ++ ds).Pairwise fun a b => ¬ a.1.Inside b.1) : ∀ i, Flat (m' i) := by
  induction ds generalizing m cs with
  | nil => cases hi; exact hf
  | cons d ds ih =>
    obtain ⟨f, t⟩ := d
    simp only [RangeMap.insertAll, Option.bind_eq_bind, Option.bind_eq_some_iff] at hi
    obtain ⟨m1, h1, h2⟩ := hi
    refine ih (h.insert h1) ?_ h2 (by simpa using hn)
    have hmem : ∀ c ∈ cs, ¬ c.1.Inside f := fun c hc =>
      (List.pairwise_append.1 hn).2.2 c hc (f, t) List.mem_cons_self
    intro i
    have e := (insert_some h1).2
    by_cases hc : i = f.circ
    · subst hc
      intro x hx y hy hxy
      rw [e] at hx hy
      simp only [if_true] at hx hy
      rcases bpush_keys hx with kx | ⟨x', hx', kx⟩ <;> rcases bpush_keys hy with ky | ⟨y', hy', ky⟩
      · rw [kx, ky] at hxy; simp [GRange.key] at hxy
      · obtain ⟨c, hcm, hcc, hck⟩ := h.keys _ y' hy'
        refine hmem c hcm ⟨hcc, ?_, ?_⟩
        · have := hxy.1
          rw [kx, ← ky, ← hck] at this
          exact this
        · have := hxy.2
          rw [kx, ← ky, ← hck] at this
          exact this
      · have := insert_rejects_inside (dst := t) (h.sorted f.circ) (hf f.circ) hx'
          (by have := hxy.1; rw [ky, ← kx] at this; exact this)
          (by have := hxy.2; rw [ky, ← kx] at this; exact this)
        rw [h1] at this
        cases this
      · exact hf _ x' hx' y' hy' (by rw [kx, ky]; exact hxy)
    · have : m1 i = m i := by rw [e]; simp [hc]
      rw [this]; exact hf i

theorem mapped_eq {m : RangeMap} {g : Node} (hs : Sorted (m g.1)) (hf : Flat (m g.1)) :
    m.mapped g = ((m g.1).filter fun e => decide (e.1.1 ≤ g.2) && decide (g.2 ≤ e.1.2)).reverse := by
  unfold RangeMap.mapped
  rw [takeWhile_eq_filter (l := m g.1), takeWhile_eq_filter, ← List.filter_reverse, ← List.filter_reverse,
    List.filter_filter]
  · congr 1
    funext e
    by_cases h1 : e.1.1 ≤ g.2 <;> simp [h1]
  · rw [List.pairwise_reverse]
    refine List.Pairwise.imp_of_mem ?_ (hs.sublist List.filter_sublist)
    intro y x hy hx hlt hyp
    have hnn := hf y (List.mem_filter.1 hy).1 x (List.mem_filter.1 hx).1
    have hxl := (List.mem_filter.1 hx).2
    simp only [Bool.and_eq_true, decide_eq_true_eq, keyLt] at *
    omega
  · refine List.Pairwise.imp ?_ hs
    intro x y hxy hy
    simp only [keyLt, decide_eq_true_eq] at *
    omega

theorem gates_of_contents (b : BMap) (g : Nat) :
    (b.filter fun e => decide (e.1.1 ≤ g) && decide (g ≤ e.1.2)).flatMap
        (fun e => e.2.map fun t => (t.circ, t.lo + (g - e.1.1))) =
      ((contents b).filter fun c => decide (c.1.1 ≤ g) && decide (g ≤ c.1.2)).map
        (fun c => (c.2.circ, c.2.lo + (g - c.1.1))) := by
  induction b with
  | nil => rfl
  | cons e b ih =>
    have hc : contents (e :: b) = (e.2.map fun t => (e.1, t)) ++ contents b := rfl
    rw [hc, List.filter_append, List.map_append, ← ih]
    by_cases h : (decide (e.1.1 ≤ g) && decide (g ≤ e.1.2)) = true
    · rw [List.filter_cons, if_pos h, List.flatMap_cons]
      congr 1
      rw [List.filter_eq_self.2]
      · simp
      · intro c hc
        obtain ⟨t, -, rfl⟩ := List.mem_map.1 hc
        exact h
    · have : ((e.2.map fun t => (e.1, t)).filter fun c : (Nat × Nat) × GRange =>
          decide (c.1.1 ≤ g) && decide (g ≤ c.1.2)) = [] := by
        rw [List.filter_eq_nil_iff]
        intro c hc
        obtain ⟨t, -, rfl⟩ := List.mem_map.1 hc
        exact h
      rw [List.filter_cons, if_neg h, this]
      rfl

theorem images_of_contents {m : RangeMap} {cs : List (GRange × GRange)} (h : Holds m cs) (g : Node) :
    (((contents (m g.1)).filter fun c => decide (c.1.1 ≤ g.2) && decide (g.2 ≤ c.1.2)).map
        (fun c => (c.2.circ, c.2.lo + (g.2 - c.1.1)))).Perm (imagesOf cs g) := by
  refine (((h.contents g.1).filter _).map _).trans ?_
  rw [List.filter_map, List.map_map, List.filter_filter]
  unfold imagesOf
  refine List.Perm.of_eq ?_
  have : (fun c : GRange × GRange =>
      (((fun c : (Nat × Nat) × GRange => decide (c.1.1 ≤ g.2) && decide (g.2 ≤ c.1.2)) ∘
        fun c : GRange × GRange => (c.1.key, c.2)) c && decide (c.1.circ = g.1))) =
      fun c => decide (c.1.Has g) := by
    funext c
    simp only [Function.comp, GRange.key, GRange.Has]
    by_cases h1 : c.1.circ = g.1 <;> by_cases h2 : c.1.lo ≤ g.2 <;> by_cases h3 : g.2 ≤ c.1.hi <;>
      simp [h1, h2, h3]
  rw [this]
  rfl

end Verif.Circuit
