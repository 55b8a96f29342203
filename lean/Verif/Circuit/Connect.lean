import Mathlib.Data.List.Zip
import Verif.Circuit.Group
import Verif.Circuit.Conns

/-!
C51 (connections): calls of sub-circuits through the builder.
-/
set_option autoImplicit false

namespace Verif.Circuit

/-! ### Model -/

/-- circuit_connections.rs:16-19 `CrossCircuitConnections`; the one-to-one maps as a list of
connections, see `Multi.ofConns`. -/
structure CrossConns where
  conns : List (Node × Node) := []
  out : RangeMap := fun _ => []
  inc : RangeMap := fun _ => []

/-- circuit_connections.rs:57-66 `outgoing_gates`. -/
def CrossConns.outgoing (x : CrossConns) (u : Node) : List Node :=
  (x.conns.filter fun c => c.1 = u).map (·.2) ++ x.out.gates u

/-- circuit_connections.rs:48-56 `parent_gates`. -/
def CrossConns.incoming (x : CrossConns) (v : Node) : List Node :=
  (x.conns.filter fun c => c.2 = v).map (·.1) ++ x.inc.gates v

/-- builder.rs:147-150: the target gates are consecutive. -/
def consecutive (ids : List Nat) : Bool := (ids.zip ids.tail).all fun p => p.1 + 1 == p.2

/-- builder.rs:160-195, the loop over the groups.  `ids` are the target gates not connected so far.
`none` when slicing `to_gate_ids` panics or an assert fails. -/
def connectRanges (tc : Nat) : List (Node × List Node) → List Nat → CrossConns → Option CrossConns
  | [], _, x => some x
  | (f, grp) :: r, ids, x =>
    if grp.length ≤ ids.length then do
      let l ← grp.getLast?
      let t0 ← (ids.take grp.length).head?
      let t1 ← (ids.take grp.length).getLast?
      if l.2 - f.2 = t1 - t0 then do
        let o ← x.out.insert ⟨f.1, f.2, l.2⟩ ⟨tc, t0, t1⟩
        let i ← x.inc.insert ⟨tc, t0, t1⟩ ⟨f.1, f.2, l.2⟩
        connectRanges tc r (ids.drop grp.length) { x with out := o, inc := i }
      else none
    else none

/-- builder.rs:202-214: each target gate takes as many sources as it has inputs. -/
def oneToOne (tc : Nat) (size : Nat → Nat) : List Nat → List Node → List (Node × Node)
  | [], _ => []
  | t :: ts, ins => (ins.take (size t)).map (fun u => (u, (tc, t))) ++ oneToOne tc size ts (ins.drop (size t))

/-- A call of `connect_sub_circuit_gates`: sources, target circuit and gates, and the number of
inputs of each target gate; or (`direct`) a call of `connect_circuits` between different circuits. -/
structure Conn where
  inputs : List Node
  circ : Nat
  ids : List Nat
  size : Nat → Nat
  direct : Bool

/-- builder.rs:132-217 `connect_sub_circuit_gates`; if `direct`, builder.rs:245-285 `connect_circuits`, which
stores the single wires in `one_to_one` (there the targets are sub-circuit inputs, which have one input). -/
def CrossConns.connect (x : CrossConns) (c : Conn) : Option CrossConns :=
  match groupGates c.inputs with
  | none => some x
  | some groups =>
    if !c.direct && (consecutive c.ids && !c.ids.isEmpty) then connectRanges c.circ groups c.ids x
    else some { x with conns := x.conns ++ oneToOne c.circ c.size c.ids c.inputs }

/-- A sequence of calls. -/
def CrossConns.connectAll : List Conn → CrossConns → Option CrossConns
  | [], x => some x
  | c :: cs, x => x.connect c >>= CrossConns.connectAll cs

/-! ### Specification -/

/-- The wires a call asks for: the i-th source goes to the i-th target. -/
def Conn.wires (c : Conn) : List (Node × Node) := c.inputs.zip (c.ids.map fun t => (c.circ, t))

/-- The runs of consecutive sources of a call. -/
def Conn.runs (c : Conn) : List GRange := Verif.Circuit.runs c.inputs

/-- The call is stored as ranges. -/
def Conn.ranged (c : Conn) : Bool := !c.direct && (consecutive c.ids && !c.ids.isEmpty)

/-- A range and a later one overlap in a way the range maps do not support. -/
def Nested (a b : GRange) : Prop :=
  a.circ = b.circ ∧ ((b.lo < a.lo ∧ a.hi < b.hi) ∨ (a.lo < b.lo ∧ b.hi ≤ a.hi))

/-! ### Lemmas -/

def rangeWires (c : GRange × GRange) : List (Node × Node) := c.1.members.zip c.2.members

theorem mem_members {r : GRange} {g : Node} : g ∈ r.members ↔ r.Has g := by
  obtain ⟨c, l, h⟩ := r
  obtain ⟨gc, gi⟩ := g
  simp only [GRange.members, List.mem_map, List.mem_range'_1, Prod.mk.injEq, GRange.Has]
  constructor
  · rintro ⟨k, hk, rfl, rfl⟩; exact ⟨rfl, by omega, by omega⟩
  · rintro ⟨rfl, h1, h2⟩; exact ⟨gi, by omega, rfl, rfl⟩

theorem range_zip_filter (l l' : Nat) (n : Nat) (c c' : Nat) (u : Node) :
    (((((List.range' l n).map fun k => (c, k)).zip ((List.range' l' n).map fun k => (c', k))).filter
      fun p => decide (p.1 = u)).map (·.2)) =
      if c = u.1 ∧ l ≤ u.2 ∧ u.2 < l + n then [(c', l' + (u.2 - l))] else [] := by
  obtain ⟨uc, ui⟩ := u
  induction n generalizing l l' with
  | zero =>
    have : ¬ (c = uc ∧ l ≤ ui ∧ ui < l + 0) := by omega
    simp
  | succ n ih =>
    simp only [List.range'_succ, List.map_cons, List.zip_cons_cons, List.filter_cons]
    by_cases h : (c, l) = (uc, ui)
    · have h' := h
      simp only [Prod.mk.injEq] at h'
      obtain ⟨rfl, rfl⟩ := h'
      simp only [decide_true, if_true, List.map_cons, ih]
      have h1 : ¬ (c = c ∧ l + 1 ≤ l ∧ l < l + 1 + n) := by omega
      have h2 : c = c ∧ l ≤ l ∧ l < l + (n + 1) := ⟨rfl, by omega, by omega⟩
      simp
    · simp only [h, decide_false, Bool.false_eq_true, if_false, ih]
      have hne : ¬ (c = uc ∧ l = ui) := by simpa using h
      by_cases h2 : c = uc ∧ l + 1 ≤ ui ∧ ui < l + 1 + n
      · rw [if_pos h2, if_pos ⟨h2.1, by omega, by omega⟩]
        have : l' + 1 + (ui - (l + 1)) = l' + (ui - l) := by omega
        rw [this]
      · rw [if_neg h2, if_neg]
        rintro ⟨rfl, h3, h4⟩
        exact h2 ⟨rfl, by omega, by omega⟩

/-- Equal spans. -/
def SameSpan (c : GRange × GRange) : Prop :=
  c.1.lo ≤ c.1.hi ∧ c.2.lo ≤ c.2.hi ∧ c.1.hi + 1 - c.1.lo = c.2.hi + 1 - c.2.lo

theorem rangeWires_fst {c : GRange × GRange} (h : SameSpan c) (u : Node) :
    ((rangeWires c).filter fun p => decide (p.1 = u)).map (·.2) = imagesOf [c] u := by
  obtain ⟨⟨c1, l1, h1⟩, ⟨c2, l2, h2⟩⟩ := c
  simp only [SameSpan] at h
  unfold rangeWires GRange.members
  simp only
  rw [← h.2.2, range_zip_filter]
  simp only [imagesOf, List.filter_cons, List.filter_nil, GRange.Has, decide_eq_true_eq]
  have : (c1 = u.1 ∧ l1 ≤ u.2 ∧ u.2 < l1 + (h1 + 1 - l1)) ↔ (c1 = u.1 ∧ l1 ≤ u.2 ∧ u.2 ≤ h1) := by
    omega
  simp only [this]
  by_cases hc : c1 = u.1 ∧ l1 ≤ u.2 ∧ u.2 ≤ h1 <;> simp [image, hc]

theorem rangeWires_swap (c : GRange × GRange) :
    (rangeWires c).map Prod.swap = rangeWires c.swap := by
  simp only [rangeWires, List.zip_swap, Prod.fst_swap, Prod.snd_swap]

theorem rangeWires_snd {c : GRange × GRange} (h : SameSpan c) (v : Node) :
    ((rangeWires c).filter fun p => decide (p.2 = v)).map (·.1) = imagesOf [c.swap] v := by
  have h' : SameSpan c.swap := ⟨h.2.1, h.1, h.2.2.symm⟩
  rw [← rangeWires_fst h', ← rangeWires_swap, List.filter_map, List.map_map]
  rfl

theorem imagesOf_append (a b : List (GRange × GRange)) (g : Node) :
    imagesOf (a ++ b) g = imagesOf a g ++ imagesOf b g := by
  simp [imagesOf]

theorem rangesWires_fst {cs : List (GRange × GRange)} (h : ∀ c ∈ cs, SameSpan c) (u : Node) :
    ((cs.flatMap rangeWires).filter fun p => decide (p.1 = u)).map (·.2) = imagesOf cs u := by
  induction cs with
  | nil => rfl
  | cons c cs ih =>
    rw [List.flatMap_cons, List.filter_append, List.map_append, rangeWires_fst (h c List.mem_cons_self),
      ih fun c hc => h c (List.mem_cons_of_mem _ hc)]
    exact (imagesOf_append [c] cs u).symm

theorem rangesWires_snd {cs : List (GRange × GRange)} (h : ∀ c ∈ cs, SameSpan c) (v : Node) :
    ((cs.flatMap rangeWires).filter fun p => decide (p.2 = v)).map (·.1) =
      imagesOf (cs.map Prod.swap) v := by
  induction cs with
  | nil => rfl
  | cons c cs ih =>
    rw [List.flatMap_cons, List.filter_append, List.map_append, rangeWires_snd (h c List.mem_cons_self),
      ih fun c hc => h c (List.mem_cons_of_mem _ hc)]
    exact (imagesOf_append [c.swap] (cs.map Prod.swap) v).symm

theorem insertAll_append (a b : List (GRange × GRange)) (m : RangeMap) :
    RangeMap.insertAll (a ++ b) m = RangeMap.insertAll a m >>= RangeMap.insertAll b := by
  induction a generalizing m with
  | nil => rfl
  | cons c a ih =>
    obtain ⟨f, t⟩ := c
    simp only [List.cons_append, RangeMap.insertAll, Option.bind_eq_bind]
    cases m.insert f t with
    | none => rfl
    | some m' => exact ih m'

/-- Insertion succeeds when no range lies inside an earlier one. -/
theorem insertAll_succeeds (cs : List (GRange × GRange)) (hle : ∀ c ∈ cs, c.1.lo ≤ c.1.hi)
    (hp : cs.Pairwise fun a b => ¬ (a.1.circ = b.1.circ ∧ a.1.lo < b.1.lo ∧ b.1.hi ≤ a.1.hi)) :
    ∃ m, RangeMap.insertAll cs (fun _ => []) = some m := by
  induction cs using List.reverseRecOn with
  | nil => exact ⟨_, rfl⟩
  | append_singleton cs c ih =>
    rw [List.pairwise_append] at hp
    obtain ⟨m, hm⟩ := ih (fun c hc => hle c (List.mem_append_left _ hc)) hp.1
    rw [insertAll_append, hm]
    cases h : m.insert c.1 c.2 with
    | none =>
      obtain ⟨d, hd, h1, h2, h3⟩ := insert_fails_only_inside cs m hm c.1 c.2
        (hle c (by simp)) h
      exact absurd ⟨h1, h2, h3⟩ (hp.2.2 d hd c (by simp))
    | some m' => exact ⟨m', by simp [RangeMap.insertAll, h]⟩

/-- The state of the builder after the one-to-one connections `conns` and ranges `rs`. -/
structure Built (x : CrossConns) (conns : List (Node × Node)) (rs : List (GRange × GRange)) : Prop where
  conns : x.conns = conns
  out : RangeMap.insertAll rs (fun _ => []) = some x.out
  inc : RangeMap.insertAll (rs.map Prod.swap) (fun _ => []) = some x.inc

/-- Ranges made of runs of sources and consecutive targets. -/
def pairRanges (tc : Nat) : List GRange → List Nat → List (GRange × GRange)
  | r :: rs, t :: ts =>
    (r, ⟨tc, t, t + (r.hi - r.lo)⟩) :: pairRanges tc rs ((t :: ts).drop (r.hi + 1 - r.lo))
  | _, _ => []

theorem consecutive_cons {a b : Nat} {l : List Nat} :
    consecutive (a :: b :: l) = true ↔ a + 1 = b ∧ consecutive (b :: l) = true := by
  simp [consecutive]

theorem consecutive_eq {t : Nat} {ts : List Nat} (h : consecutive (t :: ts) = true) :
    t :: ts = List.range' t (ts.length + 1) := by
  induction ts generalizing t with
  | nil => rfl
  | cons b ts ih =>
    rw [consecutive_cons] at h
    rw [List.length_cons, List.range'_succ, ← h.1] 
    rw [← h.1] at h
    rw [ih h.2]
  
theorem consecutive_range' (t n : Nat) : consecutive (List.range' t n) = true := by
  induction n generalizing t with
  | zero => rfl
  | succ n ih =>
    cases n with
    | zero => rfl
    | succ n =>
      rw [List.range'_succ, List.range'_succ, consecutive_cons]
      exact ⟨rfl, by have := ih (t + 1); rwa [List.range'_succ] at this⟩

theorem members_length (r : GRange) : r.members.length = r.hi + 1 - r.lo := by
  simp [GRange.members]

theorem connectRanges_spec (tc : Nat) (rs : List GRange) (hle : ∀ r ∈ rs, r.lo ≤ r.hi) :
    ∀ (t n : Nat) (x : CrossConns) (conns : List (Node × Node)) (old : List (GRange × GRange)),
      (rs.flatMap GRange.members).length ≤ n → Built x conns old →
      (∃ m, RangeMap.insertAll (old ++ pairRanges tc rs (List.range' t n)) (fun _ => []) = some m) →
      (∃ m, RangeMap.insertAll ((old ++ pairRanges tc rs (List.range' t n)).map Prod.swap)
        (fun _ => []) = some m) →
      ∃ x', connectRanges tc (rs.map fun r => (r.first, r.members)) (List.range' t n) x = some x' ∧
        Built x' conns (old ++ pairRanges tc rs (List.range' t n)) ∧
        (pairRanges tc rs (List.range' t n)).flatMap rangeWires =
          (rs.flatMap GRange.members).zip ((List.range' t n).map fun t => (tc, t)) ∧
        ∀ c ∈ pairRanges tc rs (List.range' t n), SameSpan c := by
  induction rs with
  | nil =>
    intro t n x conns old _ hb _ _
    refine ⟨x, rfl, ?_, ?_, ?_⟩
    · simpa [pairRanges] using hb
    · simp [pairRanges]
    · intro c hc; simp [pairRanges] at hc
  | cons r rs ih =>
    intro t n x conns old hn hb ho hi
    have hr := hle r List.mem_cons_self
    have hlen := members_length r
    rw [List.flatMap_cons, List.length_append, hlen] at hn
    obtain ⟨k, rfl⟩ : ∃ k, n = k + 1 := ⟨n - 1, by omega⟩
    have hpr : pairRanges tc (r :: rs) (List.range' t (k + 1)) =
        (r, ⟨tc, t, t + (r.hi - r.lo)⟩) ::
          pairRanges tc rs (List.range' (t + (r.hi + 1 - r.lo)) (k + 1 - (r.hi + 1 - r.lo))) := by
      rw [List.range'_succ, pairRanges, ← List.range'_succ, List.drop_range']
      simp
    rw [hpr] at ho hi ⊢
    have hassoc : ∀ (c : GRange × GRange) l, old ++ c :: l = (old ++ [c]) ++ l := by
      intro c l; simp
    rw [hassoc] at ho hi ⊢
    -- the first insertion succeeds
    obtain ⟨o, ho1⟩ : ∃ o, RangeMap.insertAll (old ++ [(r, ⟨tc, t, t + (r.hi - r.lo)⟩)])
        (fun _ => []) = some o := by
      obtain ⟨m, hm⟩ := ho
      rw [insertAll_append] at hm
      cases h : RangeMap.insertAll (old ++ [(r, ⟨tc, t, t + (r.hi - r.lo)⟩)]) (fun _ => []) with
      | none => rw [h] at hm; cases hm
      | some o => exact ⟨o, rfl⟩
    obtain ⟨i, hi1⟩ : ∃ o, RangeMap.insertAll ((old ++ [((r, ⟨tc, t, t + (r.hi - r.lo)⟩) : GRange × GRange)]).map Prod.swap)
        (fun _ => []) = some o := by
      obtain ⟨m, hm⟩ := hi
      rw [List.map_append, insertAll_append] at hm
      cases h : RangeMap.insertAll ((old ++ [((r, ⟨tc, t, t + (r.hi - r.lo)⟩) : GRange × GRange)]).map Prod.swap)
        (fun _ => []) with
      | none => rw [h] at hm; cases hm
      | some o => exact ⟨o, rfl⟩
    have ho2 : RangeMap.insert x.out r (⟨tc, t, t + (r.hi - r.lo)⟩ : GRange) = some o := by
      rw [insertAll_append, hb.out] at ho1
      simpa [RangeMap.insertAll] using ho1
    have hi2 : RangeMap.insert x.inc (⟨tc, t, t + (r.hi - r.lo)⟩ : GRange) r = some i := by
      rw [List.map_append, insertAll_append, hb.inc] at hi1
      simpa [RangeMap.insertAll] using hi1
    obtain ⟨x', e, hb', hw, hs⟩ := ih (fun r hr => hle r (List.mem_cons_of_mem _ hr))
      (t + (r.hi + 1 - r.lo)) (k + 1 - (r.hi + 1 - r.lo)) { x with out := o, inc := i } conns _
      (by omega) ⟨hb.conns, ho1, hi1⟩ ho hi
    refine ⟨x', ?_, hb', ?_, ?_⟩
    · rw [List.map_cons, connectRanges, if_pos (by simp only [hlen, List.length_range']; omega)]
      have hlast : r.members.getLast? = some (r.circ, r.hi) := by
        rw [GRange.members, List.getLast?_map, List.getLast?_range']
        have : ¬ r.hi + 1 - r.lo = 0 := by omega
        simp only [this, if_false, Option.map_some]
        congr 2; omega
      have htake : (List.range' t (k + 1)).take r.members.length = List.range' t (r.hi + 1 - r.lo) := by
        have : k + 1 = (r.hi + 1 - r.lo) + (k + 1 - (r.hi + 1 - r.lo)) := by omega
        rw [hlen, this, ← List.range'_append_1, List.take_left' (by simp)]
      have hhead : (List.range' t (r.hi + 1 - r.lo)).head? = some t := by
        have : r.hi + 1 - r.lo = (r.hi - r.lo) + 1 := by omega
        rw [this, List.range'_succ]; rfl
      have hlast2 : (List.range' t (r.hi + 1 - r.lo)).getLast? = some (t + (r.hi - r.lo)) := by
        rw [List.getLast?_range']
        have : ¬ r.hi + 1 - r.lo = 0 := by omega
        simp only [this, if_false]
        congr 1; omega
      have hdrop : (List.range' t (k + 1)).drop r.members.length =
          List.range' (t + (r.hi + 1 - r.lo)) (k + 1 - (r.hi + 1 - r.lo)) := by
        rw [hlen, List.drop_range']; simp
      simp only [hlast, htake, hhead, hlast2, Option.bind_eq_bind, Option.bind_some, GRange.first]
      rw [if_pos (by omega)]
      simp only [ho2, hi2, Option.bind_some, hdrop]
      exact e
    · rw [List.flatMap_cons, hw, List.flatMap_cons]
      have hsplit : (List.range' t (k + 1)).map (fun t => (tc, t)) =
          (GRange.members ⟨tc, t, t + (r.hi - r.lo)⟩) ++
          (List.range' (t + (r.hi + 1 - r.lo)) (k + 1 - (r.hi + 1 - r.lo))).map fun t => (tc, t) := by
        simp only [GRange.members]
        rw [← List.map_append]
        have h1 : t + (r.hi - r.lo) + 1 - t = r.hi + 1 - r.lo := by omega
        rw [h1, List.range'_append_1]
        congr 2; omega
      rw [hsplit, List.zip_append]
      · rfl
      · rw [members_length, members_length]; simp only; omega
    · intro c hc
      rcases List.mem_cons.1 hc with rfl | hc
      · refine ⟨hr, ?_, ?_⟩
        · simp
        · simp only; omega
      · exact hs c hc

theorem oneToOne_eq (tc : Nat) (size : Nat → Nat) (ids : List Nat) (hs : ∀ t ∈ ids, size t = 1)
    (ins : List Node) : oneToOne tc size ids ins = ins.zip (ids.map fun t => (tc, t)) := by
  induction ids generalizing ins with
  | nil => simp [oneToOne]
  | cons t ts ih =>
    rw [oneToOne, hs t List.mem_cons_self, ih fun t ht => hs t (List.mem_cons_of_mem _ ht)]
    cases ins with
    | nil => simp
    | cons a ins => simp

/-- The ranges a call stores. -/
def Conn.pairs (c : Conn) : List (GRange × GRange) :=
  if c.ranged then pairRanges c.circ c.runs c.ids else []

/-- The one-to-one connections a call stores. -/
def Conn.singles (c : Conn) : List (Node × Node) := if c.ranged then [] else c.wires

/-- The conditions on one call. -/
structure Conn.Ok (c : Conn) : Prop where
  /-- Targets are sub-circuit inputs. -/
  size : ∀ t ∈ c.ids, c.size t = 1
  /-- There are enough targets. -/
  len : c.inputs.length ≤ c.ids.length
  /-- No two adjacent runs of sources start with the same gate, see
  `group_gates_merges_duplicates`. -/
  heads : c.ranged = true → c.runs.IsChain fun a b => a.first ≠ b.first

theorem connect_spec {x : CrossConns} {conns : List (Node × Node)} {old : List (GRange × GRange)}
    (hb : Built x conns old) (c : Conn) (ok : c.Ok)
    (ho : ∃ m, RangeMap.insertAll (old ++ c.pairs) (fun _ => []) = some m)
    (hi : ∃ m, RangeMap.insertAll ((old ++ c.pairs).map Prod.swap) (fun _ => []) = some m) :
    ∃ x', x.connect c = some x' ∧ Built x' (conns ++ c.singles) (old ++ c.pairs) ∧
      c.pairs.flatMap rangeWires ++ c.singles = c.wires ∧ ∀ p ∈ c.pairs, SameSpan p := by
  have hruns := runs_isRuns c.inputs
  by_cases hin : c.inputs = []
  · have hr : c.runs = [] := by simp [Conn.runs, hin, runs]
    have hp : c.pairs = [] := by
      unfold Conn.pairs; rw [hr]; split
      · cases c.ids <;> rfl
      · rfl
    have hw : c.wires = [] := by simp [Conn.wires, hin]
    have hs : c.singles = [] := by unfold Conn.singles; rw [hw]; split <;> rfl
    refine ⟨x, ?_, ?_, ?_, ?_⟩
    · simp [CrossConns.connect, hin, groupGates]
    · simpa [hs, hp] using hb
    · simp [hp, hs, hw]
    · simp [hp]
  · by_cases hr : c.ranged = true
    · have hg := group_gates_partial c.inputs hin c.runs hruns (ok.heads hr)
      have hp : c.pairs = pairRanges c.circ c.runs c.ids := by simp [Conn.pairs, hr]
      have hs : c.singles = [] := by simp [Conn.singles, hr]
      rw [hp] at ho hi ⊢
      unfold Conn.ranged at hr
      have hids : ∃ t n, c.ids = List.range' t n := by
        simp only [Bool.and_eq_true, Bool.not_eq_true'] at hr
        cases h : c.ids with
        | nil => rw [h] at hr; simp at hr
        | cons t ts =>
          rw [h] at hr
          exact ⟨t, _, consecutive_eq hr.2.1⟩
      obtain ⟨t, n, hids⟩ := hids
      rw [hids] at ho hi ⊢
      obtain ⟨x', e, hb', hw, hss⟩ := connectRanges_spec c.circ c.runs hruns.le t n x conns old
        (by
          have := ok.len
          rw [hids, List.length_range'] at this
          unfold Conn.runs
          rw [hruns.flat]; exact this) hb ho hi
      refine ⟨x', ?_, by simpa [hs] using hb', ?_, hss⟩
      · unfold CrossConns.connect
        rw [hg]
        simp only
        rw [if_pos hr, hids]
        exact e
      · rw [hw, hs, List.append_nil]
        unfold Conn.wires Conn.runs
        rw [hruns.flat, hids]
    · have hs : c.singles = c.wires := by simp [Conn.singles, hr]
      have hp : c.pairs = [] := by simp [Conn.pairs, hr]
      rw [hp, hs]
      obtain ⟨g, gs, hg⟩ : ∃ g gs, c.inputs = g :: gs := by
        cases h : c.inputs with
        | nil => exact absurd h hin
        | cons g gs => exact ⟨g, gs, rfl⟩
      have hgg : groupGates c.inputs = some (groupAdj (groupKeys g c.inputs)) := by
        rw [hg]; rfl
      refine ⟨{ x with conns := x.conns ++ oneToOne c.circ c.size c.ids c.inputs }, ?_, ?_, ?_, ?_⟩
      · unfold CrossConns.connect
        rw [hgg]
        simp only
        unfold Conn.ranged at hr
        rw [if_neg hr]
      · refine ⟨?_, by simpa using hb.out, by simpa using hb.inc⟩
        simp only [hb.conns, oneToOne_eq _ _ _ ok.size]
        rfl
      · simp
      · simp

theorem connectAll_spec {x : CrossConns} {conns : List (Node × Node)} {old : List (GRange × GRange)}
    (hb : Built x conns old) (hold : ∀ p ∈ old, SameSpan p) (cs : List Conn) (ok : ∀ c ∈ cs, c.Ok)
    (ho : ∃ m, RangeMap.insertAll (old ++ cs.flatMap Conn.pairs) (fun _ => []) = some m)
    (hi : ∃ m, RangeMap.insertAll ((old ++ cs.flatMap Conn.pairs).map Prod.swap) (fun _ => []) = some m) :
    ∃ x', CrossConns.connectAll cs x = some x' ∧
      Built x' (conns ++ cs.flatMap Conn.singles) (old ++ cs.flatMap Conn.pairs) ∧
      (cs.flatMap Conn.singles ++ (cs.flatMap Conn.pairs).flatMap rangeWires).Perm
        (cs.flatMap Conn.wires) ∧
      ∀ p ∈ old ++ cs.flatMap Conn.pairs, SameSpan p := by
  induction cs generalizing x conns old with
  | nil => exact ⟨x, rfl, by simpa using hb, by simp, by simpa using hold⟩
  | cons c cs ih =>
    rw [List.flatMap_cons, ← List.append_assoc] at ho hi
    obtain ⟨x1, e1, hb1, hw1, hs1⟩ := connect_spec hb c (ok c List.mem_cons_self)
      (by
        obtain ⟨m, hm⟩ := ho
        rw [insertAll_append] at hm
        cases h : RangeMap.insertAll (old ++ c.pairs) (fun _ => []) with
        | none => rw [h] at hm; cases hm
        | some o => exact ⟨o, rfl⟩)
      (by
        obtain ⟨m, hm⟩ := hi
        rw [List.map_append, insertAll_append] at hm
        cases h : RangeMap.insertAll ((old ++ c.pairs).map Prod.swap) (fun _ => []) with
        | none => rw [h] at hm; cases hm
        | some o => exact ⟨o, rfl⟩)
    obtain ⟨x', e, hb', hw, hs⟩ := ih hb1
      (by
        intro p hp
        rcases List.mem_append.1 hp with hp | hp
        · exact hold p hp
        · exact hs1 p hp) (fun c hc => ok c (List.mem_cons_of_mem _ hc)) ho hi
    refine ⟨x', ?_, ?_, ?_, ?_⟩
    · simp [CrossConns.connectAll, e1, e]
    · simpa [List.flatMap_cons] using hb'
    · rw [List.flatMap_cons, List.flatMap_cons, List.flatMap_cons, List.flatMap_append]
      have h1 : (c.singles ++ cs.flatMap Conn.singles ++
          (c.pairs.flatMap rangeWires ++ (cs.flatMap Conn.pairs).flatMap rangeWires)).Perm
          ((c.pairs.flatMap rangeWires ++ c.singles) ++
            (cs.flatMap Conn.singles ++ (cs.flatMap Conn.pairs).flatMap rangeWires)) := by
        rw [List.perm_iff_count]
        intro a
        simp only [List.count_append]
        omega
      refine h1.trans ?_
      rw [hw1]
      exact List.Perm.append_left _ hw
    · simpa [List.flatMap_cons] using hs

end Verif.Circuit
