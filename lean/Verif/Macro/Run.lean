import Mathlib.Data.List.Dedup
import Verif.Macro.Trace

/-!
C59: the state of the global builder while a program runs.
-/
set_option autoImplicit false

namespace Verif.Macro

open Circuit Gmw Exec

/-! ### Specification -/

/-- Gates a statement adds to the main circuit. -/
def Stmt.ops (F : Fns) : Stmt → List Op
  | .input => [(.base .input, [])]
  | .op g args => [(g, args)]
  | .call f args => List.replicate (F f (args.map List.length)).ret.length scIn
  | .output a => [(.base .output, [a])]

/-- The gates of the main circuit. -/
def mainOps (F : Fns) (prog : List Stmt) : List Op := prog.flatMap (Stmt.ops F)

/-- A call, with the number of gates of the main circuit at that time. -/
structure CallRec where
  f : Nat
  args : List (List Nat)
  pos : Nat

def CallRec.sizes (r : CallRec) : List Nat := r.args.map List.length

def CallRec.key (r : CallRec) : Nat × List Nat := (r.f, r.sizes)

def CallRec.body (F : Fns) (r : CallRec) : Body := F r.f r.sizes

/-- The calls of a program that starts with `n` gates in the main circuit. -/
def calls (F : Fns) : Nat → List Stmt → List CallRec
  | _, [] => []
  | n, .call f args :: r => ⟨f, args, n⟩ :: calls F (n + (Stmt.ops F (.call f args)).length) r
  | n, .input :: r => calls F (n + 1) r
  | n, .op _ _ :: r => calls F (n + 1) r
  | n, .output _ :: r => calls F (n + 1) r

/-- The operands of a statement exist and its gates are wired completely.  A call passes at least one
secret. -/
def StmtOk (F : Fns) (n : Nat) : Stmt → Prop
  | .input => True
  | .op g args => OpOk n (g, args)
  | .call f args => args.flatten ≠ [] ∧ (∀ a ∈ args.flatten, a < n) ∧
      BodyOk (args.map List.length).sum (F f (args.map List.length))
  | .output a => a < n

def ProgramOk (F : Fns) : Nat → List Stmt → Prop
  | _, [] => True
  | n, st :: r => StmtOk F n st ∧ ProgramOk F (n + (st.ops F).length) r

/-! ### Lemmas -/

/-- The two connections of a call with sub-circuit id `k`. -/
def CallRec.conns (F : Fns) (k : Nat) (r : CallRec) : List Conn :=
  [⟨r.args.flatten.map fun g => (0, g), k, List.range r.sizes.sum, fun _ => 1, false⟩,
   ⟨(List.range' (r.sizes.sum + (r.body F).ops.length) (r.body F).ret.length).map fun g => (k, g), 0,
    List.range' r.pos (r.body F).ret.length, fun _ => 1,
      (r.body F).single⟩]

def connsFrom (F : Fns) : Nat → List CallRec → List Conn
  | _, [] => []
  | k, r :: rs => r.conns F k ++ connsFrom F (k + 1) rs

theorem connsFrom_append (F : Fns) (k : Nat) (a b : List CallRec) :
    connsFrom F k (a ++ b) = connsFrom F k a ++ connsFrom F (k + a.length) b := by
  induction a generalizing k with
  | nil => rfl
  | cons r a ih =>
    simp only [List.cons_append, connsFrom, ih, List.append_assoc, List.length_cons]
    rw [show k + 1 + a.length = k + (a.length + 1) by omega]

theorem mainOps_append (F : Fns) (a b : List Stmt) : mainOps F (a ++ b) = mainOps F a ++ mainOps F b := by
  simp [mainOps]

theorem calls_append (F : Fns) (n : Nat) (a b : List Stmt) :
    calls F n (a ++ b) = calls F n a ++ calls F (n + (mainOps F a).length) b := by
  induction a generalizing n with
  | nil => rfl
  | cons st a ih =>
    have hl : (mainOps F (st :: a)).length = (st.ops F).length + (mainOps F a).length := by
      simp [mainOps]
    rw [hl, ← Nat.add_assoc]
    cases st <;> simp [calls, ih, Stmt.ops]

theorem programOk_append (F : Fns) (n : Nat) (a b : List Stmt) :
    ProgramOk F n (a ++ b) ↔ ProgramOk F n a ∧ ProgramOk F (n + (mainOps F a).length) b := by
  induction a generalizing n with
  | nil => simp [ProgramOk, mainOps]
  | cons st a ih =>
    have hl : (mainOps F (st :: a)).length = (st.ops F).length + (mainOps F a).length := by
      simp [mainOps]
    rw [List.cons_append, ProgramOk, ProgramOk, ih, hl, ← Nat.add_assoc, and_assoc]

theorem connectAll_append (a b : List Conn) (x : CrossConns) :
    CrossConns.connectAll (a ++ b) x = CrossConns.connectAll a x >>= CrossConns.connectAll b := by
  induction a generalizing x with
  | nil => rfl
  | cons c a ih =>
    simp only [List.cons_append, CrossConns.connectAll]
    cases x.connect c with
    | none => rfl
    | some y => exact ih y

theorem run_append (F : Fns) (a b : List Stmt) (s : St) (vars : List Nat) :
    run F (a ++ b) s vars = run F a s vars >>= fun p => run F b p.1 p.2 := by
  induction a generalizing s vars with
  | nil => rfl
  | cons st a ih =>
    simp only [List.cons_append, run]
    cases step F s vars st with
    | none => rfl
    | some p => exact ih p.1 p.2

/-- The state after the statements `done`. -/
structure Inv (F : Fns) (p0 : Nat) (done : List Stmt) (s : St) : Prop where
  main : ∃ c, s.heap[p0]? = some c ∧ BuiltBy c (mainOps F done)
  ptrs : s.ptrs = p0 :: (calls F 0 done).map fun r => ((s.cache r.f r.sizes).getD (0, [])).1
  cached : ∀ r ∈ calls F 0 done, ∃ e, s.cache r.f r.sizes = some e
  entry : ∀ (f : Nat) (k : List Nat) (p : Nat) (ret : List Nat), s.cache f k = some (p, ret) →
    p0 < p ∧ (∃ c, s.heap[p]? = some c ∧ BuiltBy c (bodyOps k.sum (F f k))) ∧
      ret = List.range' (k.sum + (F f k).ops.length) (F f k).ret.length ∧ BodyOk k.sum (F f k)
  inj : ∀ (f f' : Nat) (k k' : List Nat) (p : Nat) (ret ret' : List Nat), s.cache f k = some (p, ret) →
    s.cache f' k' = some (p, ret') → f = f' ∧ k = k'
  conns : CrossConns.connectAll (connsFrom F 1 (calls F 0 done)) {} = some s.conns
  busy : s.busy = false
  registered : ∀ (f : Nat) (k : List Nat) (e : Nat × List Nat), s.cache f k = some e → f ∈ s.caches

theorem inv_start (F : Fns) (s : St) (h : Fresh s) : ∃ p0, Inv F p0 [] s := by
  obtain ⟨hp, h1, h2⟩ := h.main
  refine ⟨hp.length, ⟨⟨{}, by simp [h1], builtBy_empty⟩, by simp [h2, calls], by simp [calls], ?_, ?_, ?_,
    h.busy, ?_⟩⟩
  · intro f k p ret e; rw [h.cache] at e; cases e
  · intro f f' k k' p ret ret' e; rw [h.cache] at e; cases e
  · rw [h.conns]; rfl
  · intro f k e he; rw [h.cache] at he; cases he

variable {F : Fns} {p0 : Nat} {done : List Stmt} {s : St}

theorem inv_length (h : Inv F p0 done s) : ∃ c, s.circ 0 = some c ∧ BuiltBy c (mainOps F done) ∧
    p0 < s.heap.length := by
  obtain ⟨c, hc, hb⟩ := h.main
  refine ⟨c, by simp [St.circ, h.ptrs, hc], hb, (List.getElem?_eq_some_iff.1 hc).1⟩

/-- Replacing the main circuit. -/
theorem inv_setMain (h : Inv F p0 done s) {done' : List Stmt} {c : Base BoolGate}
    (hb : BuiltBy c (mainOps F done')) (hcalls : calls F 0 done' = calls F 0 done) :
    ∃ s', s.setCirc 0 c = some s' ∧ Inv F p0 done' s' := by
  obtain ⟨-, -, -, hlt⟩ := inv_length h
  refine ⟨{ s with heap := s.heap.set p0 c }, by simp [St.setCirc, h.ptrs], ⟨?_, ?_, ?_, ?_, h.inj, ?_,
    h.busy, h.registered⟩⟩
  · exact ⟨c, by simp [hlt], hb⟩
  · rw [hcalls]; exact h.ptrs
  · rw [hcalls]; exact h.cached
  · intro f k p ret e
    obtain ⟨h1, ⟨c', h2, h3⟩, h4⟩ := h.entry f k p ret e
    refine ⟨h1, ⟨c', ?_, h3⟩, h4⟩
    simp only
    rw [List.getElem?_set_ne (by omega)]
    exact h2
  · rw [hcalls]; exact h.conns

theorem mapM_lookup (n : Nat) (args : List (List Nat)) (h : ∀ a ∈ args.flatten, a < n) :
    args.mapM (lookup (List.range n)) = some args := by
  induction args with
  | nil => rfl
  | cons a as ih =>
    rw [List.mapM_cons, lookup_range n a fun x hx => h x (by simp [hx]),
      ih fun x hx => h x (by simp only [List.flatten_cons, List.mem_append]; exact .inr hx)]
    rfl

theorem flatten_length (args : List (List Nat)) : args.flatten.length = (args.map List.length).sum :=
  List.length_flatten

theorem step_call (h : Inv F p0 done s) (f : Nat) (args : List (List Nat))
    (hok : StmtOk F (mainOps F done).length (.call f args))
    (hc : ∃ y, CrossConns.connectAll (connsFrom F 1 (calls F 0 (done ++ [.call f args]))) {} = some y) :
    ∃ s', step F s (List.range (mainOps F done).length) (.call f args) =
        some (s', List.range (mainOps F (done ++ [.call f args])).length) ∧
      Inv F p0 (done ++ [.call f args]) s' := by
  obtain ⟨-, hlt, hbody⟩ := hok
  obtain ⟨c0, hc0, hb0, hp0⟩ := inv_length h
  have hcalls : calls F 0 (done ++ [.call f args]) =
      calls F 0 done ++ [⟨f, args, (mainOps F done).length⟩] := by
    rw [calls_append]; simp [calls]
  generalize hr : (⟨f, args, (mainOps F done).length⟩ : CallRec) = r at hcalls
  have hrf : r.f = f := by rw [← hr]
  have hra : r.args = args := by rw [← hr]
  have hrs : r.sizes = args.map List.length := by rw [← hr]; rfl
  have hrp : r.pos = (mainOps F done).length := by rw [← hr]
  have hrb : r.body F = F f (args.map List.length) := by rw [← hr]; rfl
  -- the callee
  have henter : ∃ (s1 : St) (p : Nat) (c : Base BoolGate), St.enter F { s with busy := true, caches := f :: s.caches } f
        (args.map List.length) = some (s1, (calls F 0 done).length + 1,
        List.range' ((args.map List.length).sum + (F f (args.map List.length)).ops.length)
          (F f (args.map List.length)).ret.length) ∧
      s1.heap[p]? = some c ∧ BuiltBy c (bodyOps (args.map List.length).sum (F f (args.map List.length))) ∧
      s1.ptrs = s.ptrs ++ [p] ∧ s1.conns = s.conns ∧ s1.caches = f :: s.caches ∧
      (∀ (q : Nat) (c : Base BoolGate), s.heap[q]? = some c → s1.heap[q]? = some c) ∧
      s1.cache f (args.map List.length) =
        some (p, List.range' ((args.map List.length).sum + (F f (args.map List.length)).ops.length)
          (F f (args.map List.length)).ret.length) ∧
      (∀ g k e, s.cache g k = some e → s1.cache g k = some e) ∧
      (∀ g k e, s1.cache g k = some e → ¬ (g = f ∧ k = args.map List.length) → s.cache g k = some e) ∧
      p0 < p ∧ (∀ g k q ret, s1.cache g k = some (q, ret) → q = p → g = f ∧ k = args.map List.length) := by
    have hlen : s.ptrs.length = (calls F 0 done).length + 1 := by rw [h.ptrs]; simp
    unfold St.enter
    cases hce : s.cache f (args.map List.length) with
    | some e =>
      obtain ⟨p, ret⟩ := e
      obtain ⟨h1, ⟨c, h2, h3⟩, h4, -⟩ := h.entry f _ p ret hce
      refine ⟨{ s with busy := true, caches := f :: s.caches, ptrs := s.ptrs ++ [p] }, p, c, ?_, h2, h3, rfl,
        rfl, rfl, fun _ _ h => h, ?_, fun _ _ _ h => h, fun _ _ _ h _ => h, h1, ?_⟩
      · simp only [hce, hlen, h4]
      · simp only [hce, h4]
      · intro g k q ret' hq hqp
        subst hqp
        exact h.inj g f k _ q ret' ret hq hce
    | none =>
      obtain ⟨c, e, hb⟩ := trace_spec (args.map List.length) _ hbody
      refine ⟨{ s with
        busy := true, caches := f :: s.caches,
        heap := s.heap ++ [c], ptrs := s.ptrs ++ [s.heap.length],
        cache := fun g k => if g = f ∧ k = args.map List.length then some (s.heap.length,
          List.range' ((args.map List.length).sum + (F f (args.map List.length)).ops.length)
            (F f (args.map List.length)).ret.length) else s.cache g k },
        s.heap.length, c, ?_, ?_, hb, rfl, rfl, rfl, ?_, ?_, ?_, ?_, hp0, ?_⟩
      · simp only [hce, e, Option.bind_eq_bind, Option.bind_some, hlen]; rfl
      · simp
      · intro q c' hq
        simp only
        rw [List.getElem?_append_left (List.getElem?_eq_some_iff.1 hq).1]
        exact hq
      · simp
      · intro g k e' he'
        simp only
        rw [if_neg]
        · exact he'
        · rintro ⟨rfl, rfl⟩; rw [hce] at he'; cases he'
      · intro g k e' he' hne
        simp only at he'
        rw [if_neg hne] at he'
        exact he'
      · intro g k q ret' hq hqp
        simp only at hq
        by_cases hne : g = f ∧ k = args.map List.length
        · exact hne
        · rw [if_neg hne] at hq
          obtain ⟨-, ⟨c', h2, -⟩, -⟩ := h.entry g k q ret' hq
          have := (List.getElem?_eq_some_iff.1 h2).1
          omega
  obtain ⟨s1, p, c, e1, hcp, hcb, hptrs, hcs, hcaches, hheap, hcache, hkeep, hnew, hpp, hinj⟩ := henter
  -- the connections
  obtain ⟨y, hy⟩ := hc
  rw [hcalls, connsFrom_append, connectAll_append, h.conns, Option.bind_eq_bind, Option.bind_some] at hy
  simp only [connsFrom, List.append_nil, CallRec.conns, CrossConns.connectAll] at hy
  obtain ⟨y1, hy1, y2, hy2, hy3⟩ : ∃ y1, s.conns.connect ⟨r.args.flatten.map fun g => (0, g),
      1 + (calls F 0 done).length, List.range r.sizes.sum, fun _ => 1, false⟩ = some y1 ∧ ∃ y2, y1.connect
      ⟨(List.range' (r.sizes.sum + (r.body F).ops.length) (r.body F).ret.length).map fun g =>
        (1 + (calls F 0 done).length, g), 0, List.range' r.pos (r.body F).ret.length, fun _ => 1,
      (r.body F).single⟩ = some y2 ∧
      y2 = y := by
    match h1 : s.conns.connect ⟨r.args.flatten.map fun g => (0, g),
      1 + (calls F 0 done).length, List.range r.sizes.sum, fun _ => 1, false⟩ with
    | none => rw [h1] at hy; cases hy
    | some y1 =>
      rw [h1] at hy
      simp only [Option.bind_eq_bind, Option.bind_some] at hy
      match h2 : y1.connect
        ⟨(List.range' (r.sizes.sum + (r.body F).ops.length) (r.body F).ret.length).map fun g =>
          (1 + (calls F 0 done).length, g), 0, List.range' r.pos (r.body F).ret.length, fun _ => 1,
      (r.body F).single⟩ with
      | none => rw [h2] at hy; cases hy
      | some y2 =>
        rw [h2] at hy
        simp only [Option.bind_some, Option.some.injEq] at hy
        exact ⟨y1, rfl, y2, h2, hy⟩
  subst hy3
  have hk : 1 + (calls F 0 done).length = (calls F 0 done).length + 1 := Nat.add_comm _ _
  rw [hk] at hy1 hy2
  -- the outputs in the main circuit
  obtain ⟨a1, a2⟩ := addScInputs_spec (F f (args.map List.length)).ret.length hb0
  have hmain : mainOps F (done ++ [.call f args]) =
      mainOps F done ++ List.replicate (F f (args.map List.length)).ret.length scIn := by
    rw [mainOps_append]; simp [mainOps, Stmt.ops]
  have hp0' : p0 < s1.heap.length := by
    obtain ⟨c', hc', -⟩ := h.main
    exact (List.getElem?_eq_some_iff.1 (hheap p0 c' hc')).1
  have hcirc : s1.circ ((calls F 0 done).length + 1) = some c := by
    have : s1.ptrs[(calls F 0 done).length + 1]? = some p := by
      rw [hptrs, List.getElem?_append_right (by rw [h.ptrs]; simp), h.ptrs]
      simp
    simp [St.circ, this, hcp]
  have hcirc0 : s1.circ 0 = some c0 := by
    have h0 : s1.ptrs[0]? = some p0 := by rw [hptrs, h.ptrs]; rfl
    obtain ⟨c', hc', -⟩ := h.main
    have h1 := hheap p0 c' hc'
    have : s.circ 0 = some c' := by simp [St.circ, h.ptrs, hc']
    rw [this] at hc0
    rw [← hc0]
    simp [St.circ, h0, h1]
  refine ⟨{ s1 with
    heap := s1.heap.set p0 (addScInputs (F f (args.map List.length)).ret.length c0).1,
    conns := y2, busy := false }, ?_, ?_⟩
  · simp only [step, mapM_lookup _ _ hlt, Option.bind_eq_bind, Option.bind_some, St.call, h.busy,
      Bool.false_eq_true, if_false, e1, hcirc, (body_scInputs hbody hcb).2]
    rw [hra, hrs] at hy1
    have hy1' : s1.conns.connect ⟨args.flatten.map fun g => (0, g), (calls F 0 done).length + 1,
      List.range (args.map List.length).sum, fun _ => 1, false⟩ = some y1 := by rw [hcs]; exact hy1
    rw [hy1', Option.bind_some]
    have hcirc0' : St.circ { s1 with conns := y1, busy := false } 0 = some c0 := hcirc0
    rw [hrs, hrb, hrp] at hy2
    have h0 : s1.ptrs[0]? = some p0 := by rw [hptrs, h.ptrs]; rfl
    simp only [St.connectToMain, hcirc0', Option.bind_eq_bind, Option.bind_some, List.length_range', St.setCirc,
      h0, a1, Option.pure_def, hy2]
    congr 2
    rw [hmain, List.length_append, List.length_replicate, List.range_eq_range', List.range_eq_range']
    have := List.range'_append_1 (s := 0) (m := (mainOps F done).length)
      (n := (F f (args.map List.length)).ret.length)
    rw [Nat.zero_add] at this
    exact this
  · constructor
    case main => exact ⟨_, by simp only; rw [List.getElem?_set_self hp0'], by rw [hmain]; exact a2⟩
    case ptrs =>
      simp only [hptrs, h.ptrs, hcalls, List.map_append, List.map_cons, List.map_nil, List.cons_append]
      congr 2
      · apply List.map_congr_left
        intro r' hr'
        obtain ⟨e, he⟩ := h.cached r' hr'
        rw [he, hkeep _ _ _ he]
      · rw [hrf, hrs, hcache]; rfl
    case cached =>
      intro r' hr'
      rw [hcalls, List.mem_append, List.mem_singleton] at hr'
      rcases hr' with hr' | rfl
      · obtain ⟨e, he⟩ := h.cached r' hr'
        exact ⟨e, hkeep _ _ _ he⟩
      · rw [hrf, hrs]; exact ⟨_, hcache⟩
    case entry =>
      intro g k q ret e
      simp only at e
      by_cases hne : g = f ∧ k = args.map List.length
      · obtain ⟨rfl, rfl⟩ := hne
        rw [hcache, Option.some.injEq, Prod.mk.injEq] at e
        obtain ⟨rfl, rfl⟩ := e
        exact ⟨hpp, ⟨c, by simp only; rw [List.getElem?_set_ne (by omega)]; exact hcp, hcb⟩, rfl, hbody⟩
      · obtain ⟨h1, ⟨c', h2, h3⟩, h4⟩ := h.entry g k q ret (hnew g k _ e hne)
        exact ⟨h1, ⟨c', by simp only; rw [List.getElem?_set_ne (by omega)]; exact hheap q c' h2, h3⟩, h4⟩
    case inj =>
      intro g g' k k' q ret ret' e e'
      simp only at e e'
      by_cases hne : g = f ∧ k = args.map List.length
      · have hq : q = p := by
          rw [hne.1, hne.2, hcache, Option.some.injEq, Prod.mk.injEq] at e
          exact e.1.symm
        have := hinj g' k' q ret' e' hq
        exact ⟨hne.1.trans this.1.symm, hne.2.trans this.2.symm⟩
      · by_cases hne' : g' = f ∧ k' = args.map List.length
        · have hq : q = p := by
            rw [hne'.1, hne'.2, hcache, Option.some.injEq, Prod.mk.injEq] at e'
            exact e'.1.symm
          exact absurd (hinj g k q ret e hq) hne
        · exact h.inj g g' k k' q ret ret' (hnew _ _ _ e hne) (hnew _ _ _ e' hne')
    case conns =>
      rw [hcalls, connsFrom_append, connectAll_append, h.conns, Option.bind_eq_bind, Option.bind_some]
      simp only [connsFrom, List.append_nil, CallRec.conns, CrossConns.connectAll, hk, hy1,
        Option.bind_eq_bind, Option.bind_some, hy2]
    case busy => rfl
    case registered =>
      intro g k e he
      simp only [hcaches, List.mem_cons]
      by_cases hne : g = f ∧ k = args.map List.length
      · exact .inl hne.1
      · exact .inr (h.registered g k e (hnew g k e he hne))

theorem step_spec (h : Inv F p0 done s) (st : Stmt) (hok : StmtOk F (mainOps F done).length st)
    (hc : ∃ y, CrossConns.connectAll (connsFrom F 1 (calls F 0 (done ++ [st]))) {} = some y) :
    ∃ s', step F s (List.range (mainOps F done).length) st =
        some (s', List.range (mainOps F (done ++ [st])).length) ∧ Inv F p0 (done ++ [st]) s' := by
  obtain ⟨c0, hc0, hb0, -⟩ := inv_length h
  cases st with
  | call f args => exact step_call h f args hok hc
  | input =>
    obtain ⟨e, hb⟩ := hb0.gate (.base .input)
    have hm : mainOps F (done ++ [.input]) = mainOps F done ++ [(.base .input, [])] := by
      rw [mainOps_append]; rfl
    obtain ⟨s', hs', hi⟩ := inv_setMain (done' := done ++ [.input]) h (by rw [hm]; exact hb)
      (by rw [calls_append]; simp [calls])
    refine ⟨s', ?_, hi⟩
    simp only [step, hc0, Option.bind_eq_bind, Option.bind_some, hs', e, hm, List.length_append,
      List.length_singleton, List.range_succ]
    rfl
  | op g args =>
    obtain ⟨c', e, hb⟩ := hb0.wired (g, args) hok.2.2
    have hm : mainOps F (done ++ [.op g args]) = mainOps F done ++ [(g, args)] := by
      rw [mainOps_append]; rfl
    obtain ⟨s', hs', hi⟩ := inv_setMain (done' := done ++ [.op g args]) h (by rw [hm]; exact hb)
      (by rw [calls_append]; simp [calls])
    refine ⟨s', ?_, hi⟩
    simp only [step, hc0, lookup_range _ _ hok.2.2, Option.bind_eq_bind, Option.bind_some, hs', e, hm,
      List.length_append, List.length_singleton, List.range_succ]
    rfl
  | output a =>
    have ha : ∀ x ∈ [a], x < (mainOps F done).length := by
      intro x hx; rw [List.mem_singleton.1 hx]; exact hok
    obtain ⟨c', e, hb⟩ := hb0.wired (.base .output, [a]) ha
    have hm : mainOps F (done ++ [.output a]) = mainOps F done ++ [(.base .output, [a])] := by
      rw [mainOps_append]; rfl
    obtain ⟨s', hs', hi⟩ := inv_setMain (done' := done ++ [.output a]) h (by rw [hm]; exact hb)
      (by rw [calls_append]; simp [calls])
    refine ⟨s', ?_, hi⟩
    simp only [step, hc0, lookup_range _ _ ha, Option.bind_eq_bind, Option.bind_some, hs', e, hm,
      List.length_append, List.length_singleton, List.range_succ]
    rfl

theorem run_spec (rest : List Stmt) (h : Inv F p0 done s)
    (hok : ProgramOk F (mainOps F done).length rest)
    (hc : ∃ y, CrossConns.connectAll (connsFrom F 1 (calls F 0 (done ++ rest))) {} = some y) :
    ∃ s', run F rest s (List.range (mainOps F done).length) =
        some (s', List.range (mainOps F (done ++ rest)).length) ∧ Inv F p0 (done ++ rest) s' := by
  induction rest generalizing done s with
  | nil => exact ⟨s, by simp [run], by simpa using h⟩
  | cons st rest ih =>
    have hsplit : done ++ st :: rest = (done ++ [st]) ++ rest := by simp
    obtain ⟨s1, e1, h1⟩ := step_spec h st hok.1 (by
      obtain ⟨y, hy⟩ := hc
      rw [hsplit, calls_append, connsFrom_append, connectAll_append] at hy
      match h2 : CrossConns.connectAll (connsFrom F 1 (calls F 0 (done ++ [st]))) {} with
      | none => rw [h2] at hy; cases hy
      | some z => exact ⟨z, rfl⟩)
    obtain ⟨s2, e2, h2⟩ := ih h1 (by
      rw [mainOps_append, List.length_append]
      simpa [mainOps] using hok.2) (by rw [← hsplit]; exact hc)
    rw [hsplit]
    exact ⟨s2, by simp only [run, e1, Option.bind_eq_bind, Option.bind_some, e2], h2⟩

end Verif.Macro
