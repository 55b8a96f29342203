import Verif.Mail.CallBody
import Verif.Mail.Loop
import Verif.Macro.Props

/-!
Lemmas for C78: the statements of the program, its calls and what it computes.
-/
set_option autoImplicit false

namespace Verif.Mail

open Circuit Gmw Macro Exec

/-- The statements so far are fine, and these are their calls. -/
structure WOk (w : W) (cs : List CallRec) : Prop where
  len : (mainOps mailFns w.stmts).length = w.n
  ok : ProgramOk mailFns 0 w.stmts
  calls : Macro.calls mailFns 0 w.stmts = cs

/-- The variables of the plain program when all inputs were read. -/
structure Ran (inp : List Bool) (w : W) (env : List Bool) : Prop where
  run : w.stmts.foldl (Plain.step mailFns) ⟨[], [], inp⟩ = ⟨env, [], []⟩
  len : env.length = w.n
  inputs : ∃ t, env = inp ++ t

/-- The variable has the value `v`. -/
def Var (env : List Bool) (x : Nat) (v : Bool) : Prop := x < env.length ∧ env.getD x false = v

theorem Var.mono {env env' : List Bool} (h : env <+: env') {x : Nat} {v : Bool} (hx : Var env x v) :
    Var env' x v := by
  obtain ⟨t, rfl⟩ := h
  refine ⟨by have := hx.1; simp; omega, ?_⟩
  rw [← hx.2]
  simp only [List.getD_eq_getElem?_getD, List.getElem?_append_left hx.1]

theorem WOk.op {w : W} {cs : List CallRec} (h : WOk w cs) (g : BoolGate) (as : List Nat) (hg : operator g = true)
    (hl : as.length = arity g) (ha : ∀ a ∈ as, a < w.n) : WOk (w.op g as).1 cs := by
  refine ⟨?_, ?_, ?_⟩
  · simp only [W.op, mainOps_append, List.length_append, h.len]
    simp [mainOps, Stmt.ops]
  · simp only [W.op, programOk_append, h.len, Nat.zero_add]
    exact ⟨h.ok, ⟨hg, hl, ha⟩, trivial⟩
  · simp only [W.op, calls_append, h.calls]
    simp [Macro.calls]

theorem Ran.op {inp : List Bool} {w : W} {env : List Bool} (h : Ran inp w env) (g : BoolGate) (as : List Nat) :
    Ran inp (w.op g as).1 (env ++ [gateFn false g (as.map fun a => env.getD a false)]) := by
  refine ⟨?_, ?_, ?_⟩
  · simp only [W.op, List.foldl_append, h.run, List.foldl_cons, List.foldl_nil, Plain.step]
  · simp [W.op, h.len]
  · obtain ⟨t, e⟩ := h.inputs
    exact ⟨t ++ [gateFn false g (as.map fun a => env.getD a false)], by rw [e, List.append_assoc]⟩

theorem WOk.call {w : W} {cs : List CallRec} (h : WOk w cs) (f : Nat) (args : List (List Nat))
    (hne : args.flatten ≠ []) (ha : ∀ a ∈ args.flatten, a < w.n)
    (hb : BodyOk (args.map List.length).sum (mailFns f (args.map List.length)))
    (hr : (mailFns f (args.map List.length)).ret.length = 1) :
    WOk (w.call f args).1 (cs ++ [⟨f, args, w.n⟩]) := by
  refine ⟨?_, ?_, ?_⟩
  · simp only [W.call, mainOps_append, List.length_append, h.len]
    simp [mainOps, Stmt.ops, hr]
  · simp only [W.call, programOk_append, h.len, Nat.zero_add]
    exact ⟨h.ok, ⟨hne, ha, hb⟩, trivial⟩
  · simp only [W.call, calls_append, h.calls, h.len]
    simp [Macro.calls]

theorem Ran.call {inp : List Bool} {w : W} {env : List Bool} (h : Ran inp w env) (f : Nat) (args : List (List Nat))
    (v : Bool) (hv : (mailFns f (args.map List.length)).eval (args.flatten.map fun a => env.getD a false) = [v]) :
    Ran inp (w.call f args).1 (env ++ [v]) := by
  refine ⟨?_, ?_, ?_⟩
  · simp only [W.call, List.foldl_append, h.run, List.foldl_cons, List.foldl_nil, Plain.step, hv]
  · simp [W.call, h.len]
  · obtain ⟨t, e⟩ := h.inputs
    exact ⟨t ++ [v], by rw [e, List.append_assoc]⟩

theorem lows_congr {a b : List Bool} {g h n : Nat}
    (e : ∀ x < 8 * n, a.getD (g + x) false = b.getD (h + x) false) : lows a g n = lows b h n := by
  simp only [lows, chars, List.map_map]
  apply List.map_congr_left
  intro k hk
  have hk := List.mem_range.1 hk
  have ht : ∀ s, (List.range' s 8).take 6 = (List.range 6).map fun i => s + i := by
    intro s
    rw [List.range_eq_range']
    rfl
  simp only [Function.comp_apply, ht, List.map_map]
  apply List.map_congr_left
  intro i hi
  have hi := List.mem_range.1 hi
  simp only [Function.comp_apply]
  rw [Nat.add_assoc, Nat.add_assoc]
  exact e _ (by omega)

theorem lows_window (inp : List Bool) (t len i n : Nat) (h : i + n ≤ len) :
    ((lows inp t len).drop i).take n = lows inp (t + 8 * i) n ∧
      ((chars t len).drop i).take n = chars (t + 8 * i) n := by
  have : ((chars t len).drop i).take n = chars (t + 8 * i) n := by
    simp only [chars, ← List.map_drop, ← List.map_take]
    have e : ((List.range len).drop i).take n = (List.range n).map fun k => i + k := by
      apply List.ext_getElem
      · simp; omega
      · intro k _ _
        simp
    rw [e, List.map_map]
    apply List.map_congr_left
    intro k _
    simp only [Function.comp_apply]
    congr 1; omega
  refine ⟨?_, this⟩
  simp only [lows, ← List.map_drop, ← List.map_take, this]

theorem lows_prefix {inp env : List Bool} (h : ∃ t, env = inp ++ t) {g n : Nat} (hg : g + 8 * n ≤ inp.length) :
    lows env g n = lows inp g n := by
  obtain ⟨t, rfl⟩ := h
  apply lows_congr
  intro x hx
  simp only [List.getD_eq_getElem?_getD]
  rw [List.getElem?_append_left (by omega)]

/-- The calls of the comparisons number `i` to `i + m - 1`, when `p` gates exist. -/
def compCalls (n ks t : Nat) : Nat → Nat → Nat → List CallRec
  | _, _, 0 => []
  | p, i, m + 1 => ⟨0, [List.range' ks (8 * n), List.range' (t + 8 * i) (8 * n)], p⟩ ::
      compCalls n ks t (p + 1) (i + 1) m

theorem comparisons_spec (N n ks t : Nat) (hn : 0 < n) (hk : ks + 8 * n ≤ N) (m : Nat) (i : Nat)
    (ht : ∀ j, j < m → t + 8 * (i + j) + 8 * n ≤ N) (w : W) (cs : List CallRec) (hw : WOk w cs) (hN : N ≤ w.n) :
    ∃ w', w.comparisons (chars ks n) ((List.range' i m).map fun j => chars (t + 8 * j) n) =
        (w', List.range' w.n m) ∧ w'.n = w.n + m ∧ WOk w' (cs ++ compCalls n ks t w.n i m) ∧
      ∀ inp env : List Bool, inp.length = N → Ran inp w env →
        Ran inp w' (env ++ (List.range' i m).map fun j => decide (lows inp ks n = lows inp (t + 8 * j) n)) := by
  induction m generalizing i w cs with
  | zero =>
    refine ⟨w, rfl, rfl, by simpa [compCalls] using hw, ?_⟩
    intro inp env _ hr
    simpa using hr
  | succ m ih =>
    have hsz : (([(chars ks n).flatten, (chars (t + 8 * i) n).flatten] : List (List Nat)).map List.length) =
        [8 * n, 8 * n] := by simp [chars_flatten]
    obtain ⟨c1, c2, c3⟩ := comparisonBody_spec n hn
    have ht0 := ht 0 (by omega)
    have hw1 := hw.call 0 [(chars ks n).flatten, (chars (t + 8 * i) n).flatten]
      (by simp [chars_flatten]; omega)
      (by
        intro a ha
        simp only [List.flatten_cons, List.flatten_nil, List.append_nil, List.mem_append, chars_flatten,
          List.mem_range'_1] at ha
        simp only [Nat.add_zero] at ht0
        omega)
      (by rw [hsz]; simpa [mailFns] using c1) (by rw [hsz]; exact c2)
    obtain ⟨w', e1, e2, e3, e4⟩ := ih (i + 1) (fun j hj => by have := ht (j + 1) (by omega); omega) _ _ hw1
      (by simp only [W.call]; omega)
    refine ⟨w', ?_, ?_, ?_, ?_⟩
    · rw [List.range'_succ, List.map_cons, W.comparisons]
      simp only [e1]
      rw [List.range'_succ]
      rfl
    · rw [e2]; simp only [W.call]; omega
    · simp only [chars_flatten, List.append_assoc, List.singleton_append] at e3
      exact e3
    · intro inp env hl hr
      have hv : (mailFns 0 [8 * n, 8 * n]).eval
          (([(chars ks n).flatten, (chars (t + 8 * i) n).flatten] : List (List Nat)).flatten.map fun a =>
            env.getD a false) = [decide (lows inp ks n = lows inp (t + 8 * i) n)] := by
        have hX : (([(chars ks n).flatten, (chars (t + 8 * i) n).flatten] : List (List Nat)).flatten.map fun a =>
            env.getD a false) = (List.range' ks (8 * n)).map (fun a => env.getD a false) ++
              (List.range' (t + 8 * i) (8 * n)).map fun a => env.getD a false := by
          simp [chars_flatten]
        rw [hX]
        have := c3 ((List.range' ks (8 * n)).map (fun a => env.getD a false) ++
              (List.range' (t + 8 * i) (8 * n)).map fun a => env.getD a false) (by simp)
        refine this.trans ?_
        have f1 : lows ((List.range' ks (8 * n)).map (fun a => env.getD a false) ++
              (List.range' (t + 8 * i) (8 * n)).map fun a => env.getD a false) 0 n = lows env ks n := by
          apply lows_congr
          intro x hx
          simp only [List.getD_eq_getElem?_getD, Nat.zero_add]
          rw [List.getElem?_append_left (by simpa using hx), List.getElem?_map, List.getElem?_range' hx]
          simp
        have f2 : lows ((List.range' ks (8 * n)).map (fun a => env.getD a false) ++
              (List.range' (t + 8 * i) (8 * n)).map fun a => env.getD a false) (8 * n) n =
            lows env (t + 8 * i) n := by
          apply lows_congr
          intro x hx
          simp only [List.getD_eq_getElem?_getD]
          rw [List.getElem?_append_right (by simp), List.getElem?_map]
          simp only [List.length_map, List.length_range', Nat.add_sub_cancel_left, List.getElem?_range' hx]
          simp
        rw [f1, f2, lows_prefix hr.inputs (by omega), lows_prefix hr.inputs (by simp only [Nat.add_zero] at ht0; omega)]
      have := e4 inp _ hl (hr.call 0 _ _ (by rw [hsz]; exact hv))
      rw [List.range'_succ, List.map_cons]
      simpa using this

/-- The calls of one search. -/
def searchCalls (n ks t m p : Nat) : List CallRec :=
  compCalls n ks t p 0 m ++ [⟨1, [List.range' p m], p + m⟩]

theorem any_decide {P : Nat → Prop} [DecidablePred P] (m : Nat) :
    (((List.range' 0 m).map fun j => decide (P j)).any id) = decide (∃ j < m, P j) := by
  rw [Bool.eq_iff_iff, List.any_eq_true, decide_eq_true_eq]
  constructor
  · rintro ⟨x, hx, h⟩
    obtain ⟨j, hj, rfl⟩ := List.mem_map.1 hx
    rw [List.mem_range'_1] at hj
    exact ⟨j, by omega, by simpa using h⟩
  · rintro ⟨j, hj, h⟩
    exact ⟨true, List.mem_map.2 ⟨j, by rw [List.mem_range'_1]; omega, by simpa using h⟩, rfl⟩

theorem search_spec (N n ks t len : Nat) (hn : 0 < n) (hl : n ≤ len) (hk : ks + 8 * n ≤ N) (ht : t + 8 * len ≤ N)
    (w : W) (cs : List CallRec) (hw : WOk w cs) (hN : N ≤ w.n) :
    ∃ w', w.search (chars ks n) (chars t len) = some (w', w.n + (len + 1 - n)) ∧
      w'.n = w.n + (len + 1 - n) + 1 ∧ WOk w' (cs ++ searchCalls n ks t (len + 1 - n) w.n) ∧
      ∀ inp env : List Bool, inp.length = N → Ran inp w env → ∃ env', Ran inp w' env' ∧ env <+: env' ∧
        Var env' (w.n + (len + 1 - n)) (decide (lows inp ks n <:+: lows inp t len)) := by
  have hws : windowsOf (chars ks n).length (chars t len) =
      some ((List.range' 0 (len + 1 - n)).map fun j => chars (t + 8 * j) n) := by
    rw [windowsOf, chars_length, chars_length, if_neg (by omega), List.range_eq_range']
    congr 1
    apply List.map_congr_left
    intro i hi
    rw [List.mem_range'_1] at hi
    exact (lows_window [] t len i n (by omega)).2
  generalize hm : len + 1 - n = m at hws
  obtain ⟨w1, e1, e2, e3, e4⟩ := comparisons_spec N n ks t hn hk m 0 (fun j hj => by omega) w cs hw hN
  obtain ⟨o1, o2, o3⟩ := orBody_spec m (by omega)
  have hsz : (([List.range' w.n m] : List (List Nat)).map List.length) = [m] := by simp
  have h1 := e3.call 1 [List.range' w.n m] (by simp; omega)
    (by intro a ha; simp at ha; omega) (by rw [hsz]; simpa [mailFns] using o1) (by rw [hsz]; exact o2)
  refine ⟨(w1.call 1 [List.range' w.n m]).1, ?_, ?_, ?_, ?_⟩
  · simp only [W.search, hws, Option.bind_eq_bind, Option.bind_some, e1, W.call, e2, Option.pure_def]
  · simp only [W.call, e2]
  · rw [e2] at h1
    rw [searchCalls, ← List.append_assoc]
    exact h1
  · intro inp env hi hr
    have hr1 := e4 inp env hi hr
    generalize hX : (List.range' 0 m).map (fun j => decide (lows inp ks n = lows inp (t + 8 * j) n)) = X at hr1
    have lX : X.length = m := by rw [← hX]; simp
    have hv : (mailFns 1 [m]).eval (([List.range' w.n m] : List (List Nat)).flatten.map fun a =>
        (env ++ X).getD a false) = [X.any id] := by
      have : (([List.range' w.n m] : List (List Nat)).flatten.map fun a => (env ++ X).getD a false) = X := by
        apply List.ext_getElem
        · simp [lX]
        · intro i h1 h2
          simp only [List.flatten_cons, List.flatten_nil, List.append_nil, List.getElem_map, List.getElem_range',
            Nat.one_mul, List.getD_eq_getElem?_getD]
          rw [List.getElem?_append_right (by rw [hr.len]; omega), hr.len, Nat.add_sub_cancel_left,
            List.getElem?_eq_getElem h2]
          rfl
      rw [this]
      exact o3 X lX
    have hr2 := hr1.call 1 [List.range' w.n m] _ (by rw [hsz]; exact hv)
    refine ⟨_, hr2, ⟨X ++ [X.any id], by rw [List.append_assoc]⟩, ?_, ?_⟩
    · simp [hr.len, lX]
    · rw [getD_snoc_eq _ _ _ (by simp [hr.len, lX]), ← hX, any_decide]
      congr 1
      apply propext
      have h2 := infix_iff (lows inp ks n) (lows inp t len) (by rw [(lows_len _ _ _).1, (lows_len _ _ _).1]; exact hl)
      rw [h2, (lows_len _ _ _).1, (lows_len _ _ _).1]
      constructor
      · rintro ⟨j, hj, e⟩
        exact ⟨j, by omega, by rw [(lows_window inp t len j n (by omega)).1]; exact e⟩
      · rintro ⟨j, hj, e⟩
        exact ⟨j, by omega, by rw [(lows_window inp t len j n (by omega)).1] at e; exact e⟩

end Verif.Mail
