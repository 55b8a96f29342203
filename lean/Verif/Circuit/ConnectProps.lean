import Verif.Circuit.Connect

/-!
C51 (connections): what calls through the builder connect.
-/
set_option autoImplicit false

namespace Verif.Circuit

/-! ### Lemmas -/

theorem pairRanges_wires (tc : Nat) (rs : List GRange) (hle : ∀ r ∈ rs, r.lo ≤ r.hi) :
    ∀ (t n : Nat), (rs.flatMap GRange.members).length ≤ n →
      (pairRanges tc rs (List.range' t n)).flatMap rangeWires =
          (rs.flatMap GRange.members).zip ((List.range' t n).map fun t => (tc, t)) ∧
        ∀ c ∈ pairRanges tc rs (List.range' t n), SameSpan c := by
  induction rs with
  | nil =>
    intro t n _
    exact ⟨by simp [pairRanges], by intro c hc; simp [pairRanges] at hc⟩
  | cons r rs ih =>
    intro t n hn
    have hr := hle r List.mem_cons_self
    have hlen := members_length r
    rw [List.flatMap_cons, List.length_append, hlen] at hn
    obtain ⟨k, rfl⟩ : ∃ k, n = k + 1 := ⟨n - 1, by omega⟩
    have hpr : pairRanges tc (r :: rs) (List.range' t (k + 1)) =
        (r, ⟨tc, t, t + (r.hi - r.lo)⟩) ::
          pairRanges tc rs (List.range' (t + (r.hi + 1 - r.lo)) (k + 1 - (r.hi + 1 - r.lo))) := by
      rw [List.range'_succ, pairRanges, ← List.range'_succ, List.drop_range']
      simp
    rw [hpr]
    obtain ⟨hw, hs⟩ := ih (fun r hr => hle r (List.mem_cons_of_mem _ hr))
      (t + (r.hi + 1 - r.lo)) (k + 1 - (r.hi + 1 - r.lo)) (by omega)
    refine ⟨?_, ?_⟩
    · rw [List.flatMap_cons, hw, List.flatMap_cons]
      have hsplit : (List.range' t (k + 1)).map (fun t => (tc, t)) =
          (GRange.members ⟨tc, t, t + (r.hi - r.lo)⟩) ++
          (List.range' (t + (r.hi + 1 - r.lo)) (k + 1 - (r.hi + 1 - r.lo))).map fun t => (tc, t) := by
        simp only [GRange.members]
        rw [← List.map_append]
        have h1 : t + (r.hi - r.lo) + 1 - t = r.hi + 1 - r.lo := by omega
        rw [h1, List.range'_append_1]
        congr 2; omega
      rw [hsplit, List.zip_append]
      · rfl
      · rw [members_length, members_length]; simp only; omega
    · intro c hc
      rcases List.mem_cons.1 hc with rfl | hc
      · refine ⟨hr, ?_, ?_⟩
        · simp
        · simp only; omega
      · exact hs c hc

theorem ranged_ids {c : Conn} (hr : c.ranged = true) : ∃ t n, c.ids = List.range' t n := by
  unfold Conn.ranged at hr
  simp only [Bool.and_eq_true, Bool.not_eq_true'] at hr
  cases h : c.ids with
  | nil => rw [h] at hr; simp at hr
  | cons t ts =>
    rw [h] at hr
    exact ⟨t, _, consecutive_eq hr.2.1⟩

theorem pairs_wires {c : Conn} (ok : c.Ok) :
    c.pairs.flatMap rangeWires ++ c.singles = c.wires ∧ ∀ p ∈ c.pairs, SameSpan p := by
  unfold Conn.pairs Conn.singles
  by_cases hr : c.ranged = true
  · obtain ⟨t, n, hids⟩ := ranged_ids hr
    have hruns := runs_isRuns c.inputs
    have hl := ok.len
    rw [hids, List.length_range'] at hl
    have := pairRanges_wires c.circ c.runs hruns.le t n (by unfold Conn.runs; rw [hruns.flat]; exact hl)
    rw [if_pos hr, if_pos hr, hids]
    refine ⟨?_, this.2⟩
    rw [this.1, List.append_nil]
    unfold Conn.wires Conn.runs
    rw [hruns.flat, hids]
  · rw [if_neg hr, if_neg hr]
    simp

theorem pairRanges_fst (tc : Nat) (rs : List GRange) (ids : List Nat) :
    ((pairRanges tc rs ids).map Prod.fst).Sublist rs := by
  induction rs generalizing ids with
  | nil => simp [pairRanges]
  | cons r rs ih =>
    cases ids with
    | nil => simp [pairRanges]
    | cons t ts => exact (ih _).cons_cons _

/-- The source ranges of a sequence of calls. -/
def sourceRanges (cs : List Conn) : List GRange := cs.flatMap fun c => if c.ranged then c.runs else []

theorem pairs_sources (cs : List Conn) :
    ((cs.flatMap Conn.pairs).map Prod.fst).Sublist (sourceRanges cs) := by
  induction cs with
  | nil => simp
  | cons c cs ih =>
    simp only [sourceRanges, List.flatMap_cons, List.map_append]
    refine List.Sublist.append ?_ ih
    unfold Conn.pairs
    split
    · exact pairRanges_fst _ _ _
    · simp

theorem rangeWires_targets {p : GRange × GRange} (h : SameSpan p) :
    (rangeWires p).map Prod.snd = p.2.members := by
  unfold rangeWires
  rw [List.map_snd_zip]
  rw [members_length, members_length, h.2.2]

theorem pairs_perm {cs : List Conn} (ok : ∀ c ∈ cs, c.Ok) :
    (cs.flatMap Conn.singles ++ (cs.flatMap Conn.pairs).flatMap rangeWires).Perm
        (cs.flatMap Conn.wires) ∧ ∀ p ∈ cs.flatMap Conn.pairs, SameSpan p := by
  induction cs with
  | nil => simp
  | cons c cs ih =>
    have ih := ih fun c hc => ok c (List.mem_cons_of_mem _ hc)
    obtain ⟨h1, h2⟩ := pairs_wires (ok c List.mem_cons_self)
    refine ⟨?_, ?_⟩
    · rw [List.flatMap_cons, List.flatMap_cons, List.flatMap_cons, List.flatMap_append]
      have hp : (c.singles ++ cs.flatMap Conn.singles ++
          (c.pairs.flatMap rangeWires ++ (cs.flatMap Conn.pairs).flatMap rangeWires)).Perm
          ((c.pairs.flatMap rangeWires ++ c.singles) ++
            (cs.flatMap Conn.singles ++ (cs.flatMap Conn.pairs).flatMap rangeWires)) := by
        rw [List.perm_iff_count]
        intro a
        simp only [List.count_append]
        omega
      refine hp.trans ?_
      rw [h1]
      exact List.Perm.append_left _ ih.1
    · intro p hp
      rw [List.flatMap_cons] at hp
      rcases List.mem_append.1 hp with hp | hp
      · exact h2 p hp
      · exact ih.2 p hp

/-! ### Theorems -/

/-- C51, connections: a sequence of calls, in which no source range lies strictly inside another
and every target is connected once, is accepted, and afterwards the stored connections are exactly
the requested wires: the i-th source of a call is connected to the i-th input of the callee. -/
theorem connect_calls_partial (cs : List Conn) (ok : ∀ c ∈ cs, c.Ok)
    (hsrc : (sourceRanges cs).Pairwise fun a b => ¬ Nested a b)
    (hdst : ((cs.flatMap Conn.wires).map (·.2)).Nodup) :
    ∃ x, CrossConns.connectAll cs {} = some x ∧
      (∀ u, (x.outgoing u).Perm (((cs.flatMap Conn.wires).filter fun w => w.1 = u).map (·.2))) ∧
      (∀ v, (x.incoming v).Perm (((cs.flatMap Conn.wires).filter fun w => w.2 = v).map (·.1))) := by
  obtain ⟨hperm, hspan⟩ := pairs_perm ok
  have hs : (cs.flatMap Conn.pairs).Pairwise fun a b => ¬ Nested a.1 b.1 := by
    rw [← List.pairwise_map (f := Prod.fst) (R := fun a b => ¬ Nested a b)]
    exact hsrc.sublist (pairs_sources cs)
  have hd : (cs.flatMap Conn.pairs).Pairwise fun a b => ∀ g, a.2.Has g → b.2.Has g → False := by
    have h1 : (((cs.flatMap Conn.pairs).flatMap rangeWires).map (·.2)).Nodup := by
      have h2 : ((cs.flatMap Conn.singles ++ (cs.flatMap Conn.pairs).flatMap rangeWires).map (·.2)).Nodup :=
        ((hperm.map _).nodup_iff).2 hdst
      rw [List.map_append] at h2
      exact (List.nodup_append.1 h2).2.1
    revert h1 hspan
    generalize cs.flatMap Conn.pairs = ps
    intro hspan h1
    induction ps with
    | nil => exact List.Pairwise.nil
    | cons p ps ih =>
      rw [List.flatMap_cons, List.map_append, List.nodup_append] at h1
      refine List.pairwise_cons.2 ⟨?_, ih (fun q hq => hspan q (List.mem_cons_of_mem _ hq)) h1.2.1⟩
      intro q hq g hpg hqg
      have hp := rangeWires_targets (hspan p List.mem_cons_self)
      have hq' := rangeWires_targets (hspan q (List.mem_cons_of_mem _ hq))
      have m1 : g ∈ (rangeWires p).map (·.2) := by rw [hp]; exact mem_members.2 hpg
      have m2 : g ∈ (ps.flatMap rangeWires).map (·.2) := by
        rw [List.map_flatMap]
        refine List.mem_flatMap.2 ⟨q, hq, ?_⟩
        rw [hq']; exact mem_members.2 hqg
      exact h1.2.2 g m1 g m2 rfl
  have ho := insertAll_succeeds (cs.flatMap Conn.pairs) (fun c hc => (hspan c hc).1)
    (hs.imp fun h h' => h ⟨h'.1, .inr h'.2⟩)
  have hi := insertAll_succeeds ((cs.flatMap Conn.pairs).map Prod.swap)
    (by
      intro c hc
      obtain ⟨d, hd, rfl⟩ := List.mem_map.1 hc
      exact (hspan d hd).2.1)
    (by
      rw [List.pairwise_map]
      refine List.Pairwise.imp_of_mem ?_ hd
      intro a b ha hb h h'
      have h1 := (hspan b hb).2.1
      simp only [Prod.fst_swap] at h'
      exact h (b.2.circ, b.2.lo) ⟨h'.1, by simp only; omega, by simp only; omega⟩ ⟨rfl, Nat.le_refl _, h1⟩)
  obtain ⟨x, e, hb, -, -⟩ := connectAll_spec (x := {}) (conns := []) (old := [])
    ⟨rfl, rfl, rfl⟩ (by simp) cs ok (by simpa using ho) (by simpa using hi)
  simp only [List.nil_append] at hb
  refine ⟨x, e, fun u => ?_, fun v => ?_⟩
  · have h1 := range_lookup_correct_partial _ _ hb.out
      (hs.imp fun h h' => h ⟨h'.1, .inl h'.2⟩) u
    unfold CrossConns.outgoing
    rw [hb.conns]
    refine (List.Perm.append_left _ h1).trans ?_
    rw [← rangesWires_fst hspan, ← List.map_append, ← List.filter_append]
    exact (hperm.filter _).map _
  · have h1 := range_lookup_correct_partial _ _ hb.inc
      (by
        rw [List.pairwise_map]
        refine List.Pairwise.imp_of_mem ?_ hd
        intro a b ha hb h h'
        have h1 := (hspan a ha).2.1
        obtain ⟨h2, h3, h4⟩ := h'
        simp only [Prod.fst_swap] at h2 h3 h4
        exact h (a.2.circ, a.2.lo) ⟨rfl, Nat.le_refl _, h1⟩
          ⟨h2.symm, by simp only; omega, by simp only; omega⟩) v
    unfold CrossConns.incoming
    rw [hb.conns]
    refine (List.Perm.append_left _ h1).trans ?_
    rw [← rangesWires_snd hspan, ← List.map_append, ← List.filter_append]
    exact (hperm.filter _).map _

/-- Three calls, one with scattered targets. -/
example : ∃ cs : List Conn, (∀ c ∈ cs, c.Ok) ∧ (sourceRanges cs).Pairwise (fun a b => ¬ Nested a b) ∧
    ((cs.flatMap Conn.wires).map (·.2)).Nodup ∧ cs.length = 3 ∧ (sourceRanges cs).length = 3 := by
  refine ⟨[⟨[(0, 0), (0, 1), (0, 2)], 1, [0, 1, 2], fun _ => 1, false⟩,
    ⟨[(0, 1), (0, 2), (0, 3), (1, 7)], 2, [4, 5, 6, 7], fun _ => 1, false⟩,
    ⟨[(0, 1), (0, 1)], 3, [0, 2], fun _ => 1, false⟩], ?_, ?_, ?_, rfl, rfl⟩
  · intro c hc
    simp only [List.mem_cons, List.not_mem_nil, or_false] at hc
    rcases hc with rfl | rfl | rfl
    · exact ⟨fun _ _ => rfl, by simp, fun _ => by simp [Conn.runs, runs]⟩
    · exact ⟨fun _ _ => rfl, by simp, fun _ => by simp [Conn.runs, runs, GRange.first]⟩
    · exact ⟨fun _ _ => rfl, by simp, fun h => by simp [Conn.ranged, consecutive] at h⟩
  · simp [sourceRanges, Conn.ranged, consecutive, Conn.runs, runs, Nested]
  · simp [Conn.wires]

/-- A sub-circuit called on a part of the inputs and another one called on all of them afterwards:
both calls are accepted, but the wire from gate 3 to the second callee is lost. -/
theorem connect_calls_loses_wire : ∃ x,
    CrossConns.connectAll [⟨[(0, 1), (0, 2)], 1, [0, 1], fun _ => 1, false⟩,
      ⟨[(0, 0), (0, 1), (0, 2), (0, 3)], 2, [0, 1, 2, 3], fun _ => 1, false⟩] {} = some x ∧
    x.outgoing (0, 3) = [] ∧ x.incoming (2, 3) = [(0, 3)] :=
  ⟨_, rfl, rfl, rfl⟩

/-- In the other order the builder panics. -/
theorem connect_calls_panics :
    CrossConns.connectAll [⟨[(0, 0), (0, 1), (0, 2), (0, 3)], 1, [0, 1, 2, 3], fun _ => 1, false⟩,
      ⟨[(0, 1), (0, 2)], 2, [0, 1], fun _ => 1, false⟩] {} = none := rfl

/-- Passing the same wire to two neighbouring inputs panics. -/
theorem connect_duplicate_panics : CrossConns.connectAll [⟨[(0, 5), (0, 5)], 1, [0, 1], fun _ => 1, false⟩] {} = none :=
  rfl

end Verif.Circuit
