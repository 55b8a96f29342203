import Verif.Macro.Run

/-!
C59: the circuits and connections of a program are a program in the sense of C51.
-/
set_option autoImplicit false

namespace Verif.Macro

open Circuit Gmw Exec

/-! ### Specification -/

/-- The runs of consecutive wires passed in the calls. -/
def argRuns (cs : List CallRec) : List GRange :=
  cs.flatMap fun r => runs (r.args.flatten.map fun g => ((0 : Nat), g))

/-- The restrictions of the connection maps (C15, C16, C51): no run of arguments lies strictly inside
another or contains a later one, and adjacent runs start with different wires. -/
structure ArgsOk (cs : List CallRec) : Prop where
  nested : (argRuns cs).Pairwise fun a b => ¬ Nested a b
  heads : ∀ r ∈ cs, (runs (r.args.flatten.map fun g => ((0 : Nat), g))).IsChain
    fun a b => a.first ≠ b.first

/-! ### Connections -/

theorem mem_connsFrom {F : Fns} {k : Nat} {cs : List CallRec} {c : Conn} :
    c ∈ connsFrom F k cs ↔ ∃ (i : Nat) (r : CallRec), cs[i]? = some r ∧ c ∈ r.conns F (k + i) := by
  induction cs generalizing k with
  | nil => simp [connsFrom]
  | cons r cs ih =>
    rw [connsFrom, List.mem_append, ih]
    constructor
    · rintro (h | ⟨i, r', h1, h2⟩)
      · exact ⟨0, r, rfl, h⟩
      · exact ⟨i + 1, r', h1, by rw [show k + (i + 1) = k + 1 + i by omega]; exact h2⟩
    · rintro ⟨i, r', h1, h2⟩
      cases i with
      | zero => simp only [List.getElem?_cons_zero, Option.some.injEq] at h1; subst h1; exact .inl h2
      | succ i => exact .inr ⟨i, r', h1, by rw [show k + 1 + i = k + (i + 1) by omega]; exact h2⟩

/-- The wires of a program. -/
abbrev wiresOf (F : Fns) (k : Nat) (cs : List CallRec) : List (Node × Node) :=
  (connsFrom F k cs).flatMap Conn.wires

theorem mem_wiresOf {F : Fns} {k : Nat} {cs : List CallRec} {w : Node × Node} :
    w ∈ wiresOf F k cs ↔ ∃ (i : Nat) (r : CallRec), cs[i]? = some r ∧
      ((∃ j a : Nat, r.args.flatten[j]? = some a ∧ w = ((0, a), (k + i, j))) ∨
       (∃ j : Nat, j < (r.body F).ret.length ∧
        w = ((k + i, r.sizes.sum + (r.body F).ops.length + j), (0, r.pos + j)))) := by
  unfold wiresOf
  rw [List.mem_flatMap]
  constructor
  · rintro ⟨c, hc, hw⟩
    obtain ⟨i, r, hr, hc⟩ := mem_connsFrom.1 hc
    refine ⟨i, r, hr, ?_⟩
    simp only [CallRec.conns, List.mem_cons, List.not_mem_nil, or_false] at hc
    rcases hc with rfl | rfl
    · left
      obtain ⟨j, hj⟩ := List.mem_iff_getElem?.1 hw
      simp only [Conn.wires] at hj
      rw [List.getElem?_zip_eq_some] at hj
      obtain ⟨h1, h2⟩ := hj
      rw [List.getElem?_map, Option.map_eq_some_iff] at h1 h2
      obtain ⟨a, ha, e1⟩ := h1
      obtain ⟨b, hb, e2⟩ := h2
      have : b = j := by
        have := List.getElem?_eq_some_iff.1 hb
        obtain ⟨_, h⟩ := this
        simpa using h.symm
      exact ⟨j, a, ha, by rw [← this, Prod.ext_iff]; exact ⟨e1.symm, e2.symm⟩⟩
    · right
      obtain ⟨j, hj⟩ := List.mem_iff_getElem?.1 hw
      simp only [Conn.wires] at hj
      rw [List.getElem?_zip_eq_some] at hj
      obtain ⟨h1, h2⟩ := hj
      rw [List.getElem?_map, Option.map_eq_some_iff] at h1 h2
      obtain ⟨a, ha, e1⟩ := h1
      obtain ⟨b, hb, e2⟩ := h2
      obtain ⟨hl, h⟩ := List.getElem?_eq_some_iff.1 ha
      obtain ⟨hl', h'⟩ := List.getElem?_eq_some_iff.1 hb
      rw [List.length_range'] at hl
      rw [List.getElem_range', Nat.one_mul] at h h'
      subst h h'
      exact ⟨j, hl, by rw [Prod.ext_iff]; exact ⟨e1.symm, e2.symm⟩⟩
  · rintro ⟨i, r, hr, ⟨j, a, ha, rfl⟩ | ⟨j, hj, rfl⟩⟩
    · refine ⟨_, mem_connsFrom.2 ⟨i, r, hr, List.mem_cons_self⟩, ?_⟩
      refine List.mem_iff_getElem?.2 ⟨j, ?_⟩
      simp only [Conn.wires]
      rw [List.getElem?_zip_eq_some]
      have hl := (List.getElem?_eq_some_iff.1 ha).1
      rw [flatten_length] at hl
      exact ⟨by rw [List.getElem?_map, ha]; rfl,
        by rw [List.getElem?_map, List.getElem?_range (n := r.sizes.sum) hl]; rfl⟩
    · refine ⟨_, mem_connsFrom.2 ⟨i, r, hr, List.mem_cons_of_mem _ List.mem_cons_self⟩, ?_⟩
      refine List.mem_iff_getElem?.2 ⟨j, ?_⟩
      simp only [Conn.wires]
      rw [List.getElem?_zip_eq_some]
      refine ⟨?_, ?_⟩
      · rw [List.getElem?_map, List.getElem?_range' hj]; simp
      · rw [List.getElem?_map, List.getElem?_range' hj]; simp

theorem runs_range' (c lo n : Nat) :
    runs ((List.range' lo (n + 1)).map fun g => (c, g)) = [⟨c, lo, lo + n⟩] := by
  induction n generalizing lo with
  | zero => simp [runs]
  | succ n ih =>
    rw [List.range'_succ, List.map_cons, runs, ih (lo + 1)]
    simp only [and_self, if_true]
    congr 2; omega

theorem ranged_range' (ins : List Node) (c lo n : Nat) (size : Nat → Nat) (d : Bool) :
    Conn.ranged ⟨ins, c, List.range' lo n, size, d⟩ = (!d && decide (0 < n)) := by
  cases n with
  | zero => rfl
  | succ n =>
    simp only [Conn.ranged, consecutive_range']
    rfl

theorem runs_circ (gs : List Node) (c : Nat) (h : ∀ g ∈ gs, g.1 = c) : ∀ r ∈ runs gs, r.circ = c := by
  intro r hr
  have hi := runs_isRuns gs
  have hle := hi.le r hr
  have : (r.circ, r.lo) ∈ gs := by
    rw [← hi.flat, List.mem_flatMap]
    exact ⟨r, hr, mem_members.2 ⟨rfl, Nat.le_refl _, hle⟩⟩
  exact h _ this

theorem sourceRanges_append (a b : List Conn) :
    sourceRanges (a ++ b) = sourceRanges a ++ sourceRanges b := by simp [sourceRanges]

theorem conns_sources (F : Fns) (k : Nat) (r : CallRec) :
    ∃ o, sourceRanges (r.conns F k) = runs (r.args.flatten.map fun g => ((0 : Nat), g)) ++ o ∧
      o.length ≤ 1 ∧ ∀ x ∈ o, x.circ = k := by
  simp only [sourceRanges, CallRec.conns, List.flatMap_cons, List.flatMap_nil, List.append_nil,
    List.range_eq_range', ranged_range', Conn.runs, Bool.not_false, Bool.true_and, Bool.and_eq_true, decide_eq_true_eq]
  refine ⟨_, congrArg₂ _ ?_ rfl, ?_, ?_⟩
  · split
    · rfl
    · rename_i h
      have : r.args.flatten = [] := by
        apply List.eq_nil_of_length_eq_zero
        rw [flatten_length]
        simp only [CallRec.sizes] at h
        omega
      rw [this]; rfl
  · split
    · rename_i h
      obtain ⟨n, hn⟩ : ∃ n, (r.body F).ret.length = n + 1 := ⟨(r.body F).ret.length - 1, by omega⟩
      rw [hn, runs_range']; simp
    · simp
  · split
    · refine runs_circ _ k ?_
      intro g hg
      simp only [List.mem_map] at hg
      obtain ⟨_, -, rfl⟩ := hg
      rfl
    · simp

theorem sources_from (F : Fns) (k : Nat) (cs : List CallRec) :
    ∀ x ∈ sourceRanges (connsFrom F k cs), x ∈ argRuns cs ∨ k ≤ x.circ := by
  induction cs generalizing k with
  | nil => simp [connsFrom, sourceRanges]
  | cons r cs ih =>
    intro x hx
    obtain ⟨o, e, -, ho⟩ := conns_sources F k r
    rw [connsFrom, sourceRanges_append, e, List.append_assoc, List.mem_append, List.mem_append] at hx
    simp only [argRuns, List.flatMap_cons, List.mem_append]
    rcases hx with hx | hx | hx
    · exact .inl (.inl hx)
    · exact .inr (by rw [ho x hx])
    · rcases ih (k + 1) x hx with h | h
      · exact .inl (.inr h)
      · exact .inr (by omega)

theorem argRuns_circ (cs : List CallRec) : ∀ x ∈ argRuns cs, x.circ = 0 := by
  intro x hx
  obtain ⟨r, -, hx⟩ := List.mem_flatMap.1 hx
  refine runs_circ _ 0 ?_ x hx
  intro g hg
  simp only [List.mem_map] at hg
  obtain ⟨_, -, rfl⟩ := hg
  rfl

theorem sources_ok (F : Fns) (k : Nat) (hk : 0 < k) (cs : List CallRec)
    (h : (argRuns cs).Pairwise fun a b => ¬ Nested a b) :
    (sourceRanges (connsFrom F k cs)).Pairwise fun a b => ¬ Nested a b := by
  induction cs generalizing k with
  | nil => simp [connsFrom, sourceRanges]
  | cons r cs ih =>
    obtain ⟨o, e, ho1, ho⟩ := conns_sources F k r
    simp only [argRuns, List.flatMap_cons] at h
    rw [List.pairwise_append] at h
    obtain ⟨h1, h2, h3⟩ := h
    have hin : ∀ a ∈ runs (r.args.flatten.map fun g => ((0 : Nat), g)), a.circ = 0 := by
      intro a ha
      exact argRuns_circ [r] a (by simpa [argRuns] using ha)
    rw [connsFrom, sourceRanges_append, e, List.append_assoc, List.pairwise_append, List.pairwise_append]
    refine ⟨h1, ⟨?_, ih (k + 1) (by omega) h2, ?_⟩, ?_⟩
    · match o, ho1 with
      | [], _ => exact List.Pairwise.nil
      | [x], _ => exact List.pairwise_singleton _ _
    · intro a ha b hb hn
      have := ho a ha
      rcases sources_from F (k + 1) cs b hb with h | h
      · have := argRuns_circ cs b h
        have := hn.1
        omega
      · have := hn.1
        omega
    · intro a ha b hb hn
      have h0 := hin a ha
      have hc := hn.1
      rcases List.mem_append.1 hb with hb | hb
      · have := ho b hb
        omega
      · rcases sources_from F (k + 1) cs b hb with h | h
        · exact h3 a ha b h hn
        · omega

theorem conns_ok (F : Fns) (k : Nat) (cs : List CallRec) (h : ArgsOk cs) :
    ∀ c ∈ connsFrom F k cs, c.Ok := by
  intro c hc
  obtain ⟨i, r, hr, hc⟩ := mem_connsFrom.1 hc
  simp only [CallRec.conns, List.mem_cons, List.not_mem_nil, or_false] at hc
  rcases hc with rfl | rfl
  · refine ⟨fun _ _ => rfl, ?_, fun _ => ?_⟩
    · simp [CallRec.sizes, Function.comp_def]
    · exact h.heads r (List.mem_of_getElem? hr)
  · refine ⟨fun _ _ => rfl, by simp, fun hr' => ?_⟩
    rw [ranged_range'] at hr'
    simp only [Bool.and_eq_true, decide_eq_true_eq] at hr'
    obtain ⟨n, hn⟩ : ∃ n, (r.body F).ret.length = n + 1 := ⟨(r.body F).ret.length - 1, by omega⟩
    simp only [Conn.runs]
    rw [hn, runs_range']
    exact List.IsChain.singleton _

/-! ### Positions -/

structure CallOk (F : Fns) (n total : Nat) (r : CallRec) : Prop where
  body : BodyOk r.sizes.sum (r.body F)
  some_arg : r.args.flatten ≠ []
  args : ∀ a ∈ r.args.flatten, a < r.pos
  pos : n ≤ r.pos
  fits : r.pos + (r.body F).ret.length ≤ n + total

theorem mainOps_cons (F : Fns) (st : Stmt) (prog : List Stmt) :
    mainOps F (st :: prog) = st.ops F ++ mainOps F prog := rfl

theorem calls_cons (F : Fns) (n : Nat) (st : Stmt) (prog : List Stmt) :
    calls F n (st :: prog) = calls F n [st] ++ calls F (n + (st.ops F).length) prog := by
  have := calls_append F n [st] prog
  simpa [mainOps] using this

theorem calls_ok (F : Fns) (n : Nat) (prog : List Stmt) (h : ProgramOk F n prog) :
    ∀ r ∈ calls F n prog, CallOk F n (mainOps F prog).length r := by
  induction prog generalizing n with
  | nil => simp [calls]
  | cons st prog ih =>
    intro r hr
    rw [calls_cons, List.mem_append] at hr
    rw [mainOps_cons, List.length_append]
    rcases hr with hr | hr
    · cases st with
      | call f args =>
        simp only [calls, List.mem_singleton] at hr
        subst hr
        obtain ⟨h1, h2, h3⟩ := h.1
        refine ⟨h3, h1, h2, Nat.le_refl _, ?_⟩
        simp only [CallRec.body, CallRec.sizes, Stmt.ops, List.length_replicate]
        omega
      | _ => simp [calls] at hr
    · obtain ⟨h1, h2, h3, h4, h5⟩ := ih _ h.2 r hr
      exact ⟨h1, h2, h3, by omega, by omega⟩

/-- The gates returned by calls are sub-circuit inputs, and those are all. -/
theorem main_inputs (F : Fns) (n : Nat) (prog : List Stmt) (h : ProgramOk F n prog) (j : Nat)
    (o : Op) (ho : (mainOps F prog)[j]? = some o) :
    o.1 = .base .subCircuitInput ↔ ∃ (k : Nat) (r : CallRec), (calls F n prog)[k]? = some r ∧ r.pos ≤ n + j ∧
      n + j < r.pos + (r.body F).ret.length := by
  induction prog generalizing n j with
  | nil => simp [mainOps] at ho
  | cons st prog ih =>
    rw [mainOps_cons] at ho
    have hrest : ∀ (k : Nat) (r : CallRec), (calls F (n + (st.ops F).length) prog)[k]? = some r →
        n + (st.ops F).length ≤ r.pos := fun k r hr =>
      (calls_ok F _ prog h.2 r (List.mem_of_getElem? hr)).pos
    by_cases hj : j < (st.ops F).length
    · rw [List.getElem?_append_left hj] at ho
      cases st with
      | call f args =>
        simp only [Stmt.ops, List.length_replicate] at hj
        simp only [Stmt.ops, List.getElem?_replicate, hj, if_true, Option.some.injEq] at ho
        subst ho
        simp only [true_iff]
        refine ⟨0, ⟨f, args, n⟩, by rw [calls_cons]; rfl, by simp only; omega, ?_⟩
        simp only [CallRec.body, CallRec.sizes]; omega
      | input =>
        have hj0 : j = 0 := by simpa [Stmt.ops] using hj
        subst hj0
        simp only [Stmt.ops, List.getElem?_cons_zero, Option.some.injEq] at ho
        subst ho
        simp only [reduceCtorEq, BoolGate.base.injEq, false_iff]
        rintro ⟨k, r, hr, h1, h2⟩
        rw [calls_cons] at hr
        have := hrest k r (by simpa [calls] using hr)
        simp only [Stmt.ops, List.length_singleton] at this
        omega
      | op g args =>
        have hj0 : j = 0 := by simpa [Stmt.ops] using hj
        subst hj0
        simp only [Stmt.ops, List.getElem?_cons_zero, Option.some.injEq] at ho
        subst ho
        constructor
        · intro e
          have e : g = .base .subCircuitInput := e
          have := h.1.1
          rw [e] at this
          cases this
        · rintro ⟨k, r, hr, h1, h2⟩
          rw [calls_cons] at hr
          have := hrest k r (by simpa [calls] using hr)
          simp only [Stmt.ops, List.length_singleton] at this
          omega
      | output a =>
        have hj0 : j = 0 := by simpa [Stmt.ops] using hj
        subst hj0
        simp only [Stmt.ops, List.getElem?_cons_zero, Option.some.injEq] at ho
        subst ho
        simp only [reduceCtorEq, BoolGate.base.injEq, false_iff]
        rintro ⟨k, r, hr, h1, h2⟩
        rw [calls_cons] at hr
        have := hrest k r (by simpa [calls] using hr)
        simp only [Stmt.ops, List.length_singleton] at this
        omega
    · rw [List.getElem?_append_right (by omega)] at ho
      have e := ih (n + (st.ops F).length) h.2 (j - (st.ops F).length) ho
      rw [e, calls_cons]
      constructor
      · rintro ⟨k, r, hr, h1, h2⟩
        refine ⟨(calls F n [st]).length + k, r, ?_, by omega, by omega⟩
        rw [List.getElem?_append_right (by omega)]
        simpa using hr
      · rintro ⟨k, r, hr, h1, h2⟩
        by_cases hk : k < (calls F n [st]).length
        · rw [List.getElem?_append_left hk] at hr
          cases st with
          | call f args =>
            simp only [calls, List.length_singleton] at hk
            have hk0 : k = 0 := by omega
            subst hk0
            simp only [calls, List.getElem?_cons_zero, Option.some.injEq] at hr
            subst hr
            simp only [CallRec.body, CallRec.sizes] at h2
            simp only [Stmt.ops, List.length_replicate] at hj
            omega
          | _ => simp [calls] at hk
        · rw [List.getElem?_append_right (by omega)] at hr
          exact ⟨_, r, hr, by omega, by omega⟩

/-- The gates of the main circuit. -/
theorem main_gates (F : Fns) (n : Nat) (prog : List Stmt) (h : ProgramOk F n prog) (j : Nat)
    (o : Op) (ho : (mainOps F prog)[j]? = some o) :
    (o.1 = .base .subCircuitInput ∧ o.2 = []) ∨ (o.2.length = arity o.1 ∧ (∀ a ∈ o.2, a < n + j) ∧
      (operator o.1 = true ∨ o.1 = .base .input ∨ o.1 = .base .output)) := by
  induction prog generalizing n j with
  | nil => simp [mainOps] at ho
  | cons st prog ih =>
    rw [mainOps_cons] at ho
    by_cases hj : j < (st.ops F).length
    · rw [List.getElem?_append_left hj] at ho
      cases st with
      | call f args =>
        simp only [Stmt.ops, List.length_replicate] at hj
        simp only [Stmt.ops, List.getElem?_replicate, hj, if_true, Option.some.injEq] at ho
        subst ho
        exact .inl ⟨rfl, rfl⟩
      | input =>
        have hj0 : j = 0 := by simpa [Stmt.ops] using hj
        subst hj0
        simp only [Stmt.ops, List.getElem?_cons_zero, Option.some.injEq] at ho
        subst ho
        exact .inr ⟨rfl, by simp, .inr (.inl rfl)⟩
      | op g args =>
        have hj0 : j = 0 := by simpa [Stmt.ops] using hj
        subst hj0
        simp only [Stmt.ops, List.getElem?_cons_zero, Option.some.injEq] at ho
        subst ho
        obtain ⟨h1, h2, h3⟩ := h.1
        exact .inr ⟨h2, h3, .inl h1⟩
      | output a =>
        have hj0 : j = 0 := by simpa [Stmt.ops] using hj
        subst hj0
        simp only [Stmt.ops, List.getElem?_cons_zero, Option.some.injEq] at ho
        subst ho
        refine .inr ⟨rfl, ?_, .inr (.inr rfl)⟩
        intro x hx
        rw [List.mem_singleton.1 hx]
        exact h.1
    · rw [List.getElem?_append_right (by omega)] at ho
      rcases ih _ h.2 _ ho with h1 | ⟨h1, h2, h3⟩
      · exact .inl h1
      · refine .inr ⟨h1, ?_, h3⟩
        intro a ha
        have := h2 a ha
        omega

theorem wires_targets (F : Fns) (k : Nat) (r : CallRec) :
    ((r.conns F k).flatMap Conn.wires).map (·.2) =
      (List.range r.sizes.sum).map (fun t => (k, t)) ++
        (List.range' r.pos (r.body F).ret.length).map fun t => ((0 : Nat), t) := by
  simp only [CallRec.conns, List.flatMap_cons, List.flatMap_nil, List.append_nil, List.map_append, Conn.wires]
  rw [List.map_snd_zip, List.map_snd_zip]
  · simp
  · simp [CallRec.sizes, Function.comp_def]

theorem once_from (F : Fns) (k n : Nat) (hk : 0 < k) (prog : List Stmt) :
    ((wiresOf F k (calls F n prog)).map (·.2)).Nodup ∧
      ∀ v ∈ (wiresOf F k (calls F n prog)).map (·.2), (v.1 = 0 ∧ n ≤ v.2) ∨ k ≤ v.1 := by
  induction prog generalizing n k with
  | nil => simp [calls, connsFrom, wiresOf]
  | cons st prog ih =>
    rw [calls_cons]
    cases st with
    | call f args =>
      simp only [calls, List.singleton_append]
      obtain ⟨i1, i2⟩ := ih (k + 1) (n + (Stmt.ops F (.call f args)).length) (by omega)
      generalize hr : (⟨f, args, n⟩ : CallRec) = r
      have hrp : r.pos = n := by rw [← hr]
      have hlen : (Stmt.ops F (.call f args)).length = (r.body F).ret.length := by
        rw [← hr]; simp [Stmt.ops, CallRec.body, CallRec.sizes]
      rw [hlen] at i1 i2
      have hw : (wiresOf F k (r :: calls F (n + (Stmt.ops F (.call f args)).length) prog)).map (·.2) =
          (List.range r.sizes.sum).map (fun t => (k, t)) ++
          (List.range' r.pos (r.body F).ret.length).map (fun t => ((0 : Nat), t)) ++
          (wiresOf F (k + 1) (calls F (n + (r.body F).ret.length) prog)).map (·.2) := by
        rw [hlen]
        simp only [wiresOf, connsFrom, List.flatMap_append, List.map_append]
        rw [← List.map_append, ← List.flatMap_append] 
        simp only [List.flatMap_append, List.map_append]
        rw [← wires_targets]
      rw [hw]
      refine ⟨?_, ?_⟩
      · rw [List.nodup_append, List.nodup_append]
        refine ⟨⟨?_, ?_, ?_⟩, i1, ?_⟩
        · exact (List.nodup_range).map fun a b h => by simpa using h
        · exact (List.nodup_range').map fun a b h => by simpa using h
        · intro a ha b hb e
          simp only [List.mem_map] at ha hb
          obtain ⟨_, -, rfl⟩ := ha
          obtain ⟨_, -, rfl⟩ := hb
          simp only [Prod.mk.injEq] at e
          omega
        · intro a ha b hb e
          subst e
          have := i2 a hb
          rw [List.mem_append] at ha
          simp only [List.mem_map, List.mem_range, List.mem_range'_1] at ha
          rcases ha with ⟨x, hx, rfl⟩ | ⟨x, hx, rfl⟩
          · simp only at this; omega
          · simp only at this; omega
      · intro v hv
        rw [List.mem_append, List.mem_append] at hv
        rcases hv with (hv | hv) | hv
        · simp only [List.mem_map] at hv
          obtain ⟨_, -, rfl⟩ := hv
          exact .inr (Nat.le_refl _)
        · simp only [List.mem_map, List.mem_range'_1] at hv
          obtain ⟨x, hx, rfl⟩ := hv
          exact .inl ⟨rfl, by simp only; omega⟩
        · have := i2 v hv
          omega
    | input =>
      obtain ⟨i1, i2⟩ := ih k (n + 1) hk
      refine ⟨by simpa [calls, Stmt.ops] using i1, ?_⟩
      intro v hv
      have := i2 v (by simpa [calls, Stmt.ops] using hv)
      omega
    | op g args =>
      obtain ⟨i1, i2⟩ := ih k (n + 1) hk
      refine ⟨by simpa [calls, Stmt.ops] using i1, ?_⟩
      intro v hv
      have := i2 v (by simpa [calls, Stmt.ops] using hv)
      omega
    | output a =>
      obtain ⟨i1, i2⟩ := ih k (n + 1) hk
      refine ⟨by simpa [calls, Stmt.ops] using i1, ?_⟩
      intro v hv
      have := i2 v (by simpa [calls, Stmt.ops] using hv)
      omega

/-! ### The program -/

/-- The circuits of a program. -/
structure Table (F : Fns) (prog : List Stmt) (circs : List (Base BoolGate)) : Prop where
  main : ∃ c, circs[0]? = some c ∧ BuiltBy c (mainOps F prog)
  length : circs.length = (calls F 0 prog).length + 1
  callee : ∀ (k : Nat) (r : CallRec), (calls F 0 prog)[k]? = some r →
    ∃ c, circs[k + 1]? = some c ∧ BuiltBy c (bodyOps r.sizes.sum (r.body F))

/-- A bound for the sizes of the circuits. -/
def bound (circs : List (Base BoolGate)) : Nat := (circs.map fun c => c.gates.length).sum + 2

theorem le_bound {circs : List (Base BoolGate)} {i : Nat} {c : Base BoolGate} (h : circs[i]? = some c) :
    c.gates.length + 2 ≤ bound circs := by
  have : ∀ l : List (Base BoolGate), c ∈ l → c.gates.length ≤ (l.map fun c => c.gates.length).sum := by
    intro l
    induction l with
    | nil => simp
    | cons d l ih =>
      intro hc
      rw [List.map_cons, List.sum_cons]
      rcases List.mem_cons.1 hc with rfl | hc
      · omega
      · have := ih hc; omega
  have := this circs (List.mem_of_getElem? h)
  unfold bound; omega

def progRank (F : Fns) (prog : List Stmt) (circs : List (Base BoolGate)) (v : Node) : Nat :=
  if v.1 = 0 then v.2 * bound circs
  else ((((calls F 0 prog)[v.1 - 1]?).map CallRec.pos).getD 0 - 1) * bound circs + 1 + v.2

theorem table_cases {F : Fns} {prog : List Stmt} {circs : List (Base BoolGate)} (t : Table F prog circs)
    {i : Nat} {c : Base BoolGate} (h : circs[i]? = some c) :
    (i = 0 ∧ BuiltBy c (mainOps F prog)) ∨ ∃ (k : Nat) (r : CallRec), i = k + 1 ∧
      (calls F 0 prog)[k]? = some r ∧ BuiltBy c (bodyOps r.sizes.sum (r.body F)) := by
  have hi := (List.getElem?_eq_some_iff.1 h).1
  rw [t.length] at hi
  cases i with
  | zero =>
    obtain ⟨c', hc', hb⟩ := t.main
    rw [h, Option.some.injEq] at hc'
    subst hc'
    exact .inl ⟨rfl, hb⟩
  | succ k =>
    obtain ⟨c', hc', hb⟩ := t.callee k _ (List.getElem?_eq_getElem (by omega))
    rw [h, Option.some.injEq] at hc'
    subst hc'
    exact .inr ⟨k, _, rfl, List.getElem?_eq_getElem (by omega), hb⟩

theorem progOk_of_table {F : Fns} {prog : List Stmt} {circs : List (Base BoolGate)}
    (ok : ProgramOk F 0 prog) (t : Table F prog circs) :
    ProgOk circs (wiresOf F 1 (calls F 0 prog)) (progRank F prog circs) := by
  have hok := calls_ok F 0 prog ok
  have hbuilt : ∀ (i : Nat) (c : Base BoolGate), circs[i]? = some c → ∃ ops, BuiltBy c ops := by
    intro i c h
    rcases table_cases t h with ⟨-, hb⟩ | ⟨_, _, -, -, hb⟩ <;> exact ⟨_, hb⟩
  have hB : 0 < bound circs := by unfold bound; omega
  have hrank0 : ∀ j, progRank F prog circs (0, j) = j * bound circs := fun j => rfl
  have hrank : ∀ (k : Nat) (r : CallRec) (j : Nat), (calls F 0 prog)[k]? = some r →
      progRank F prog circs (k + 1, j) = (r.pos - 1) * bound circs + 1 + j := by
    intro k r j hr
    simp [progRank, hr]
  have hop : ∀ {r : CallRec}, r ∈ calls F 0 prog → ∀ (i : Nat) (o : Op), (r.body F).ops[i]? = some o →
      OpOk (r.sizes.sum + i) o := fun hr i o ho => (hok _ hr).body.ops i o ho
  constructor
  case nonempty => rw [t.length]; omega
  case scalar => intro i c h; obtain ⟨_, hb⟩ := hbuilt i c h; exact hb.simd
  case edges => intro i c h; obtain ⟨_, hb⟩ := hbuilt i c h; exact hb.edges
  case book => intro i c h; obtain ⟨_, hb⟩ := hbuilt i c h; exact hb.book
  case arity =>
    intro i c j g h hg
    rcases table_cases t h with ⟨-, hb⟩ | ⟨k, r, -, hr, hb⟩
    · rw [hb.gates, List.getElem?_map, Option.map_eq_some_iff] at hg
      obtain ⟨o, ho, rfl⟩ := hg
      rw [hb.parents j o ho]
      rcases main_gates F 0 prog ok j o ho with ⟨h1, h2⟩ | ⟨h1, -, h3⟩
      · rw [h1, h2]; rfl
      · rw [if_neg, h1]
        rintro e
        rw [e] at h3
        simp [operator] at h3
    · have hr' := List.mem_of_getElem? hr
      rw [hb.gates, List.getElem?_map, Option.map_eq_some_iff] at hg
      obtain ⟨o, ho, rfl⟩ := hg
      rw [hb.parents j o ho]
      rcases bodyOps_get j o ho with ⟨-, rfl⟩ | ⟨-, -, h1⟩ | ⟨-, a, -, rfl⟩
      · rfl
      · obtain ⟨h2, h3, -⟩ := hop hr' _ o h1
        rw [if_neg, h3]
        rintro e
        rw [e] at h2
        simp [operator] at h2
      · rfl
  case kinds =>
    intro i c j g h hg
    rcases table_cases t h with ⟨rfl, hb⟩ | ⟨k, r, -, hr, hb⟩
    · rw [hb.gates, List.getElem?_map, Option.map_eq_some_iff] at hg
      obtain ⟨o, ho, rfl⟩ := hg
      refine ⟨?_, ?_, fun h => absurd rfl h⟩
      · intro e
        rcases main_gates F 0 prog ok j o ho with ⟨h1, h2⟩ | ⟨-, -, h3⟩
        · rw [e] at h1; cases h1
        · rw [e] at h3; simp [operator] at h3
      · intro k e
        rcases main_gates F 0 prog ok j o ho with ⟨h1, h2⟩ | ⟨-, -, h3⟩
        · rw [e] at h1; cases h1
        · rw [e] at h3; simp [operator] at h3
    · have hr' := List.mem_of_getElem? hr
      rw [hb.gates, List.getElem?_map, Option.map_eq_some_iff] at hg
      obtain ⟨o, ho, rfl⟩ := hg
      rcases bodyOps_get j o ho with ⟨-, rfl⟩ | ⟨-, -, h1⟩ | ⟨-, a, -, rfl⟩
      · simp
      · obtain ⟨h2, -, -⟩ := hop hr' _ o h1
        rcases operator_cases h2 with h | h | h | ⟨v, h⟩ <;> rw [h] <;> simp
      · simp
  case src =>
    intro w hw
    obtain ⟨k, r, hr, ⟨j, a, ha, rfl⟩ | ⟨j, hj, rfl⟩⟩ := mem_wiresOf.1 hw
    · obtain ⟨c, hc, hb⟩ := t.main
      refine ⟨c, hc, ?_⟩
      have h := hok r (List.mem_of_getElem? hr)
      have := h.args a (List.mem_of_getElem? ha)
      have := h.fits
      rw [hb.length]; simp only; omega
    · obtain ⟨c, hc, hb⟩ := t.callee k r hr
      refine ⟨c, by rw [Nat.add_comm]; exact hc, ?_⟩
      rw [hb.length, bodyOps_length]; simp only; omega
  case dst =>
    intro w hw
    obtain ⟨k, r, hr, ⟨j, a, ha, rfl⟩ | ⟨j, hj, rfl⟩⟩ := mem_wiresOf.1 hw
    · obtain ⟨c, hc, hb⟩ := t.callee k r hr
      refine ⟨c, by rw [Nat.add_comm]; exact hc, ?_⟩
      have hl := (List.getElem?_eq_some_iff.1 ha).1
      rw [flatten_length] at hl
      rw [hb.gates, bodyOps, List.append_assoc, List.map_append, List.getElem?_append_left (by
        simp only [List.map_replicate, List.length_replicate, CallRec.sizes]; exact hl), List.map_replicate,
        List.getElem?_replicate]
      exact if_pos hl
    · obtain ⟨c, hc, hb⟩ := t.main
      refine ⟨c, hc, ?_⟩
      have h := hok r (List.mem_of_getElem? hr)
      have hlt : r.pos + j < (mainOps F prog).length := by have := h.fits; omega
      obtain ⟨o, ho⟩ : ∃ o, (mainOps F prog)[r.pos + j]? = some o := ⟨_, List.getElem?_eq_getElem hlt⟩
      have := (main_inputs F 0 prog ok (r.pos + j) o ho).2 ⟨k, r, hr, by omega, by omega⟩
      rw [hb.gates, List.getElem?_map, ho, ← this]; rfl
  case all =>
    intro i c j h hg
    rcases table_cases t h with ⟨rfl, hb⟩ | ⟨k, r, rfl, hr, hb⟩
    · rw [hb.gates, List.getElem?_map, Option.map_eq_some_iff] at hg
      obtain ⟨o, ho, ho'⟩ := hg
      obtain ⟨k, r, hr, h1, h2⟩ := (main_inputs F 0 prog ok j o ho).1 ho'
      refine ⟨_, mem_wiresOf.2 ⟨k, r, hr, .inr ⟨j - r.pos, by omega, rfl⟩⟩, ?_⟩
      simp only [Prod.mk.injEq, true_and]; omega
    · have hr' := List.mem_of_getElem? hr
      rw [hb.gates, List.getElem?_map, Option.map_eq_some_iff] at hg
      obtain ⟨o, ho, ho'⟩ := hg
      rcases bodyOps_get j o ho with ⟨hj, rfl⟩ | ⟨-, -, h1⟩ | ⟨-, a, -, rfl⟩
      · have hj' : j < r.args.flatten.length := by rw [flatten_length]; exact hj
        refine ⟨_, mem_wiresOf.2 ⟨k, r, hr, .inl ⟨j, _, List.getElem?_eq_getElem hj', rfl⟩⟩, ?_⟩
        simp only [Prod.mk.injEq, and_true]; omega
      · obtain ⟨h2, -, -⟩ := hop hr' _ o h1
        rw [ho'] at h2; cases h2
      · cases ho'
  case once => exact (once_from F 1 0 (by omega) prog).1
  case rankIn =>
    intro i c h e he
    rcases table_cases t h with ⟨rfl, hb⟩ | ⟨k, r, rfl, hr, hb⟩
    · rw [hrank0, hrank0]
      exact Nat.mul_lt_mul_of_pos_right (hb.edges e he).1 hB
    · rw [hrank k r _ hr, hrank k r _ hr]
      have := (hb.edges e he).1
      omega
  case rankWire =>
    intro w hw
    obtain ⟨k, r, hr, ⟨j, a, ha, rfl⟩ | ⟨j, hj, rfl⟩⟩ := mem_wiresOf.1 hw
    · simp only
      rw [hrank0, Nat.add_comm 1 k, hrank k r _ hr]
      have := (hok r (List.mem_of_getElem? hr)).args a (List.mem_of_getElem? ha)
      have : a * bound circs ≤ (r.pos - 1) * bound circs := Nat.mul_le_mul_right _ (by omega)
      omega
    · simp only
      rw [hrank0, Nat.add_comm 1 k, hrank k r _ hr]
      obtain ⟨c, hc, hb⟩ := t.callee k r hr
      have h1 := le_bound hc
      rw [hb.length, bodyOps_length] at h1
      have hpos : 0 < r.pos := by
        have h := hok r (List.mem_of_getElem? hr)
        cases hf : r.args.flatten with
        | nil => exact absurd hf h.some_arg
        | cons a as =>
          have := h.args a (by rw [hf]; exact List.mem_cons_self)
          omega
      obtain ⟨p, hp⟩ : ∃ p, r.pos = p + 1 := ⟨r.pos - 1, by omega⟩
      have h2 : (r.pos - 1) * bound circs + bound circs ≤ (r.pos + j) * bound circs := by
        rw [← Nat.succ_mul]
        exact Nat.mul_le_mul_right _ (by omega)
      omega
  case constants =>
    intro i c j b h hi hg
    rcases table_cases t h with ⟨rfl, hb⟩ | ⟨k, r, rfl, hr, hb⟩
    · exact absurd rfl hi
    · have hc := hok r (List.mem_of_getElem? hr)
      cases hf : r.args.flatten with
      | nil => exact absurd hf hc.some_arg
      | cons a as =>
        have ha := hc.args a (by rw [hf]; exact List.mem_cons_self)
        refine ⟨_, mem_wiresOf.2 ⟨k, r, hr, .inl ⟨0, a, by rw [hf]; rfl, rfl⟩⟩, by simp only; omega, ?_⟩
        simp only
        rw [hrank0, hrank k r _ hr]
        have : a * bound circs ≤ (r.pos - 1) * bound circs := Nat.mul_le_mul_right _ (by omega)
        omega

end Verif.Macro
