import Verif.Macro.Wires

/-!
C59: programs with functions annotated with `#[sub_circuit]`.
-/
set_option autoImplicit false

namespace Verif.Macro

open Circuit Gmw Exec Proc

/-! ### Specification -/

/-- The state of the plain program: its variables, the outputs so far and the inputs not read. -/
structure Plain where
  env : List Bool
  outs : List Bool
  rest : List Bool

/-- The plain program: a call runs the body of the function. -/
def Plain.step (F : Fns) (p : Plain) : Stmt → Plain
  | .input => { p with env := p.env ++ [p.rest.headD false], rest := p.rest.tail }
  | .op g args => { p with env := p.env ++ [gateFn false g (args.map fun a => p.env.getD a false)] }
  | .call f args => { p with
      env := p.env ++ (F f (args.map List.length)).eval (args.flatten.map fun a => p.env.getD a false) }
  | .output a => { p with env := p.env ++ [p.env.getD a false], outs := p.outs ++ [p.env.getD a false] }

/-- The outputs of the plain program. -/
def plainRun (F : Fns) (prog : List Stmt) (inp : List Bool) : List Bool :=
  (prog.foldl (Plain.step F) ⟨[], [], inp⟩).outs

def Stmt.isInput : Stmt → Bool
  | .input => true
  | _ => false

/-! ### Lemmas -/

theorem range_map_getD (n a : Nat) (f : Nat → Bool) (h : a < n) :
    ((List.range n).map f).getD a false = f a := by
  rw [List.getD_eq_getElem?_getD, List.getElem?_map, List.getElem?_range h]; rfl

def isIn (g : BoolGate) : Bool := g = .base .input
def isOut (g : BoolGate) : Bool := g = .base .output

theorem positions_count {G : Type} [GateLike G] (p : G → Bool) (gs : List G) :
    (positions p gs).length = gs.countP p := by
  induction gs using List.reverseRecOn with
  | nil => rfl
  | append_singleton gs g ih =>
    rw [positions_append, List.length_append, ih, List.countP_append]
    cases h : p g <;> simp [h]

theorem positions_append_none {G : Type} [GateLike G] (p : G → Bool) (a b : List G)
    (h : ∀ x ∈ b, p x = false) : positions p (a ++ b) = positions p a := by
  induction b using List.reverseRecOn with
  | nil => simp
  | append_singleton b x ih =>
    rw [← List.append_assoc, positions_append, ih fun y hy => h y (by simp [hy]), h x (by simp)]
    simp

section

variable {F : Fns} {prog : List Stmt} {circs : List (Base BoolGate)} {inp : List Bool} {val : Node → Bool}

/-- The values of the circuit are those of the plain program. -/
theorem plain_values (ok : ProgramOk F 0 prog) (t : Table F prog circs)
    (hv : ProgVal circs (wiresOf F 1 (calls F 0 prog)) inp val) (done rest : List Stmt)
    (hp : prog = done ++ rest) :
    done.foldl (Plain.step F) ⟨[], [], inp⟩ =
      ⟨(List.range (mainOps F done).length).map fun j => val (0, j),
       (positions isOut ((mainOps F done).map (·.1))).map fun j => val (0, j),
       inp.drop (((mainOps F done).map (·.1)).countP isIn)⟩ := by
  induction done using List.reverseRecOn generalizing rest with
  | nil => simp [mainOps, positions]
  | append_singleton done st ih =>
    have ih := ih (st :: rest) (by rw [hp]; simp)
    rw [List.foldl_append, ih, List.foldl_cons, List.foldl_nil]
    obtain ⟨c0, hc0, hb0⟩ := t.main
    have hok : StmtOk F (mainOps F done).length st := by
      have := ok
      rw [hp, List.append_assoc, programOk_append] at this
      have := this.2
      rw [Nat.zero_add, List.singleton_append] at this
      exact this.1
    have hm : mainOps F (done ++ [st]) = mainOps F done ++ st.ops F := by
      rw [mainOps_append]; simp [mainOps]
    have hall : mainOps F prog = mainOps F done ++ (st.ops F ++ mainOps F rest) := by
      rw [hp, mainOps_append, hm, List.append_assoc]
    have hgate : ∀ (o : Op), (st.ops F)[0]? = some o → o.1 ≠ .base .subCircuitInput →
        val (0, (mainOps F done).length) =
          gateFn (inp.getD (((mainOps F done).map (·.1)).countP isIn) false) o.1
            (o.2.map fun u => val (0, u)) := by
      intro o ho hne
      have h1 : (mainOps F prog)[(mainOps F done).length]? = some o := by
        rw [hall, List.getElem?_append_right (Nat.le_refl _), Nat.sub_self,
          List.getElem?_append_left (List.getElem?_eq_some_iff.1 ho).1, ho]
      have h2 := hv.main c0 (mainOps F done).length o.1 hc0 (by rw [hb0.gates, List.getElem?_map, h1]; rfl) hne
      rw [hb0.parents _ o h1] at h2
      rw [h2]
      congr 2
      unfold inputIdx
      rw [hb0.gates, hall, List.map_append, List.take_append_of_le_length (by simp), List.take_of_length_le (by simp)]
      rfl
    cases st with
    | input =>
      have h := hgate _ rfl (by simp)
      simp only [Plain.step, hm, Stmt.ops, List.length_append, List.length_singleton, List.range_succ,
        List.map_append, List.map_cons, List.map_nil, positions_append, List.countP_append]
      congr 1
      · congr 1
        simp only [List.cons.injEq, and_true]
        rw [h]
        simp [gateFn, List.headD_eq_head?_getD, List.head?_drop, List.getD_eq_getElem?_getD]
      · simp [isOut]
      · simp [isIn, List.tail_drop]
    | op g args =>
      have hne : g ≠ .base .subCircuitInput := by
        rintro rfl
        exact absurd hok.1 (by simp [operator])
      have hni : isIn g = false := by
        rcases operator_cases hok.1 with h | h | h | ⟨v, h⟩ <;> simp only at h <;> rw [h] <;> rfl
      have hno : isOut g = false := by
        rcases operator_cases hok.1 with h | h | h | ⟨v, h⟩ <;> simp only at h <;> rw [h] <;> rfl
      have h := hgate _ rfl hne
      simp only [Plain.step, hm, Stmt.ops, List.length_append, List.length_singleton, List.range_succ,
        List.map_append, List.map_cons, List.map_nil, positions_append, List.countP_append]
      congr 1
      · congr 1
        simp only [List.cons.injEq, and_true]
        rw [h]
        have hmap : (args.map fun a => ((List.range (mainOps F done).length).map fun j => val (0, j)).getD a false) =
            args.map fun u => val (0, u) := by
          apply List.map_congr_left
          intro a ha
          exact range_map_getD _ _ _ (hok.2.2 a ha)
        rw [hmap]
        simp only
        rcases operator_cases hok.1 with h | h | h | ⟨v, h⟩ <;> simp only at h <;> subst h
        · obtain ⟨x, y, hxy⟩ := two_of_length hok.2.1
          simp only at hxy
          rw [hxy]; rfl
        · obtain ⟨x, y, hxy⟩ := two_of_length hok.2.1
          simp only at hxy
          rw [hxy]; rfl
        · obtain ⟨x, hx⟩ := one_of_length hok.2.1
          simp only at hx
          rw [hx]; rfl
        · rfl
      · simp [hno]
      · simp [hni]
    | output a =>
      have h := hgate _ rfl (by simp)
      have ha : a < (mainOps F done).length := hok
      have hval : val (0, (mainOps F done).length) = val (0, a) := by rw [h]; rfl
      simp only [Plain.step, hm, Stmt.ops, List.length_append, List.length_singleton, List.range_succ,
        List.map_append, List.map_cons, List.map_nil, positions_append, List.countP_append,
        range_map_getD _ _ _ ha]
      congr 1
      · rw [hval]
      · simp [isOut, hval]
    | call f args =>
      generalize hr : (⟨f, args, (mainOps F done).length⟩ : CallRec) = r
      have hrp : r.pos = (mainOps F done).length := by rw [← hr]
      have hra : r.args = args := by rw [← hr]
      have hrs : r.sizes = args.map List.length := by rw [← hr]; rfl
      have hrb : r.body F = F f (args.map List.length) := by rw [← hr]; rfl
      have hcalls : (calls F 0 prog)[(calls F 0 done).length]? = some r := by
        rw [hp, List.append_assoc, calls_append, List.getElem?_append_right (Nat.le_refl _), Nat.sub_self,
          List.singleton_append, Nat.zero_add]
        simp [calls, hr]
      obtain ⟨c, hc, hb⟩ := t.callee _ r hcalls
      have hbody : BodyOk r.sizes.sum (r.body F) := (calls_ok F 0 prog ok r (List.mem_of_getElem? hcalls)).body
      have hcal := hv.callee ((calls F 0 done).length + 1) c (r.args.flatten.map fun a => (0, a)) hc (by omega)
        (by
          rw [(body_scInputs hbody hb).1, List.length_map, flatten_length, List.length_range]; rfl)
        (by
          intro k s j hs hj
          rw [(body_scInputs hbody hb).1] at hj
          obtain ⟨hk, hj⟩ := List.getElem?_eq_some_iff.1 hj
          rw [List.getElem_range] at hj
          subst hj
          rw [List.getElem?_map, Option.map_eq_some_iff] at hs
          obtain ⟨a, ha, rfl⟩ := hs
          exact mem_wiresOf.2 ⟨_, r, hcalls, .inl ⟨k, a, ha, by rw [Nat.add_comm]⟩⟩)
      rw [body_scOutputs hbody hb, body_eval hbody hb _ (by
        rw [List.length_map, List.length_map, flatten_length]; rfl), List.map_map] at hcal
      have hout : (List.range' (mainOps F done).length (r.body F).ret.length).map (fun j => val (0, j)) =
          (List.range' (r.sizes.sum + (r.body F).ops.length) (r.body F).ret.length).map
            fun g => val ((calls F 0 done).length + 1, g) := by
        apply List.ext_getElem
        · simp
        · intro i hi hi'
          simp only [List.length_map, List.length_range'] at hi
          simp only [List.getElem_map, List.getElem_range', Nat.one_mul]
          have hw : (((calls F 0 done).length + 1, r.sizes.sum + (r.body F).ops.length + i),
              (0, (mainOps F done).length + i)) ∈ wiresOf F 1 (calls F 0 prog) :=
            mem_wiresOf.2 ⟨_, r, hcalls, .inr ⟨i, hi, by rw [Nat.add_comm 1, hrp]⟩⟩
          exact hv.wire _ hw
      have hlen : (Stmt.ops F (.call f args)).length = (r.body F).ret.length := by
        rw [hrb]; simp [Stmt.ops]
      have hfst : ∀ x ∈ (Stmt.ops F (.call f args)).map (·.1), x = .base .subCircuitInput := by
        intro x hx
        simp only [Stmt.ops, List.map_replicate] at hx
        exact List.eq_of_mem_replicate hx
      simp only [Plain.step, hm, List.map_append, List.length_append]
      congr 1
      · have : List.range ((mainOps F done).length + (Stmt.ops F (.call f args)).length) =
            List.range (mainOps F done).length ++ List.range' (mainOps F done).length (r.body F).ret.length := by
          rw [hlen, List.range_eq_range', List.range_eq_range']
          have := List.range'_append_1 (s := 0) (m := (mainOps F done).length) (n := (r.body F).ret.length)
          rw [Nat.zero_add] at this
          exact this.symm
        rw [this, List.map_append, hout, hcal, hrb, hra]
        congr 2
        apply List.map_congr_left
        intro a ha
        exact range_map_getD _ _ _ (hok.2.1 a ha)
      · rw [positions_append_none]
        intro x hx
        rw [hfst x hx]; rfl
      · congr 1
        have h0 : ((Stmt.ops F (.call f args)).map (·.1)).countP isIn = 0 := by
          rw [List.countP_eq_zero]
          intro x hx
          rw [hfst x hx]; simp [isIn]
        rw [List.countP_append, h0, Nat.add_zero]

end

theorem input_count (F : Fns) (n : Nat) (prog : List Stmt) (h : ProgramOk F n prog) :
    ((mainOps F prog).map (·.1)).countP isIn = prog.countP Stmt.isInput := by
  induction prog generalizing n with
  | nil => rfl
  | cons st prog ih =>
    rw [mainOps_cons, List.map_append, List.countP_append, ih _ h.2, List.countP_cons, Nat.add_comm]
    congr 1
    cases st with
    | input => rfl
    | op g args =>
      rcases operator_cases h.1.1 with e | e | e | ⟨v, e⟩ <;> simp only at e <;> subst e <;> rfl
    | call f args =>
      simp only [Stmt.ops, List.map_replicate, List.countP_replicate]
      rfl
    | output a => rfl

/-- The table of a finished program. -/
theorem table_of_inv {F : Fns} {p0 : Nat} {prog : List Stmt} {s : St} (h : Inv F p0 prog s) :
    Table F prog (s.ptrs.map s.mem) := by
  have hmem : ∀ {p : Nat} {c : Base BoolGate}, s.heap[p]? = some c → s.mem p = c := by
    intro p c hc; simp [St.mem, hc]
  obtain ⟨c, hc, hb⟩ := h.main
  refine ⟨⟨c, ?_, hb⟩, ?_, ?_⟩
  · rw [h.ptrs, List.map_cons, List.getElem?_cons_zero, hmem hc]
  · rw [h.ptrs]; simp
  · intro k r hr
    obtain ⟨⟨p, ret⟩, he⟩ := h.cached r (List.mem_of_getElem? hr)
    obtain ⟨-, ⟨c, hc, hb⟩, -⟩ := h.entry _ _ _ _ he
    refine ⟨c, ?_, hb⟩
    rw [h.ptrs, List.map_cons, List.getElem?_cons_succ, List.getElem?_map, List.getElem?_map, hr]
    simp [he, hmem hc]

theorem dedup_map_length {α β : Type} [DecidableEq α] [DecidableEq β] (f : α → β) (l : List α)
    (h : ∀ x ∈ l, ∀ y ∈ l, f x = f y → x = y) : (l.map f).dedup.length = l.dedup.length := by
  induction l with
  | nil => rfl
  | cons x l ih =>
    have ih := ih fun a ha b hb => h a (List.mem_cons_of_mem _ ha) b (List.mem_cons_of_mem _ hb)
    by_cases hx : x ∈ l
    · rw [List.map_cons, List.dedup_cons_of_mem hx, List.dedup_cons_of_mem (List.mem_map_of_mem hx), ih]
    · have hfx : f x ∉ l.map f := by
        intro hm
        obtain ⟨y, hy, e⟩ := List.mem_map.1 hm
        have := h y (List.mem_cons_of_mem _ hy) x List.mem_cons_self e
        exact hx (this ▸ hy)
      rw [List.map_cons, List.dedup_cons_of_notMem hx, List.dedup_cons_of_notMem hfx, List.length_cons,
        List.length_cons, ih]

theorem ptrs_dedup {F : Fns} {p0 : Nat} {prog : List Stmt} {s : St} (h : Inv F p0 prog s) :
    s.ptrs.dedup.length = ((calls F 0 prog).map CallRec.key).dedup.length + 1 := by
  have hne : p0 ∉ (calls F 0 prog).map fun r => ((s.cache r.f r.sizes).getD (0, [])).1 := by
    intro hm
    obtain ⟨r, hr, e⟩ := List.mem_map.1 hm
    obtain ⟨⟨p, ret⟩, he⟩ := h.cached r hr
    have := (h.entry _ _ _ _ he).1
    rw [he] at e
    simp only [Option.getD_some] at e
    omega
  rw [h.ptrs, List.dedup_cons_of_notMem hne, List.length_cons]
  congr 1
  have : ((calls F 0 prog).map fun r => ((s.cache r.f r.sizes).getD (0, [])).1) =
      ((calls F 0 prog).map CallRec.key).map fun k => ((s.cache k.1 k.2).getD (0, [])).1 := by
    rw [List.map_map]; rfl
  rw [this]
  apply dedup_map_length
  intro x hx y hy e
  obtain ⟨r, hr, rfl⟩ := List.mem_map.1 hx
  obtain ⟨r', hr', rfl⟩ := List.mem_map.1 hy
  obtain ⟨⟨p, ret⟩, he⟩ := h.cached r hr
  obtain ⟨⟨p', ret'⟩, he'⟩ := h.cached r' hr'
  simp only [CallRec.key, he, he', Option.getD_some] at e
  subst e
  obtain ⟨h1, h2⟩ := h.inj _ _ _ _ _ _ _ he he'
  simp [CallRec.key, h1, h2]

/-- The finished circuit of a program computes what the plain program does. -/
theorem correct_of_inv {F : Fns} {prog : List Stmt} (ok : ProgramOk F 0 prog) (hargs : ArgsOk (calls F 0 prog))
    {p0 : Nat} {s' : St} (hinv : Inv F p0 prog s') (inp a b : List Bool) (hinp : inp.length = prog.countP Stmt.isInput)
    (ha : a.length = inp.length) (hb : b.length = inp.length) (hab : xorL a b = inp)
    (setup0 setup1 : Nat → Nat → List Triple)
    (hset : ∀ k n, Matching (setup0 k n) (setup1 k n) ∧ n ≤ (setup0 k n).length)
    (init0 init1 : Store Bool (List Bool)) (m : Multi BoolGate)
    (hm : ∀ i, m.circs[i]? = getCirc (intoCircuit {} s'.mem s'.ptrs) i)
    (ho : m.outgoing = s'.conns.outgoing) (hi : m.incoming = s'.conns.incoming) :
    ∃ o0 o1, Runs (execute gmw m 0 (.scalar a) setup0 init0) (execute gmw m 1 (.scalar b) setup1 init1)
        (.scalar o0) (.scalar o1) ∧ xorL o0 o1 = plainRun F prog inp := by
  have hcs := conns_ok F 1 _ hargs
  have hsrc := sources_ok F 1 (by omega) _ hargs.nested
  have t := table_of_inv hinv
  have pok := progOk_of_table ok t
  obtain ⟨c0, hc0, hb0⟩ := t.main
  have hget : getCirc (intoCircuit {} s'.mem s'.ptrs) 0 = some c0 := by
    rw [(into_circuit_keeps_table _ _ _).1, ← hc0, List.getElem?_map]
  have hl : inp.length = c0.inputGates.length := by
    rw [hb0.book.inputs, positions_count, hinp, ← input_count F 0 prog ok, hb0.gates]
    apply List.countP_congr
    intro g _
    cases g with
    | base g => cases g <;> simp [isIn, ofKind, asBase, GateLike.asBase]
    | _ => simp [isIn, ofKind, asBase, GateLike.asBase]
  obtain ⟨y, hy, hall⟩ := calls_correct_partial {} s'.mem s'.ptrs (connsFrom F 1 (calls F 0 prog))
    (progRank F prog _) pok hcs hsrc c0 hget a b inp ha hb hab hl setup0 setup1 hset init0 init1
  have hys : y = s'.conns := by
    have := hinv.conns
    rw [hy, Option.some.injEq] at this
    exact this
  subst hys
  obtain ⟨val, o0, o1, hv, hr, he, -⟩ := hall m hm ho hi
  refine ⟨o0, o1, hr, ?_⟩
  have hp := plain_values ok t hv prog [] (by simp)
  rw [he, plainRun, hp, hb0.book.outputs, hb0.gates]
  congr 1
  unfold positions
  apply List.filter_congr
  intro i _
  cases ((mainOps F prog).map (·.1))[i]? with
  | none => rfl
  | some g =>
    cases g with
    | base g => cases g <;> simp [isOut, ofKind, asBase, GateLike.asBase]
    | _ => simp [isOut, ofKind, asBase, GateLike.asBase]

/-! ### Theorems -/

/-- C59.  A program of `Secret` operators and calls of `#[sub_circuit]` functions, started with a fresh
global builder: it does not panic, and the finished circuit, executed with GMW, outputs what the plain
program computes, in which every call runs the body of the function.  The wires passed in calls have to
respect the restrictions of the connection maps (`ArgsOk`). -/
theorem sub_circuit_program_correct_partial (F : Fns) (prog : List Stmt) (ok : ProgramOk F 0 prog)
    (hargs : ArgsOk (calls F 0 prog)) (s : St) (hs : Fresh s) :
    ∃ s' vars, run F prog s [] = some (s', vars) ∧
      ∀ (inp a b : List Bool), inp.length = prog.countP Stmt.isInput → a.length = inp.length →
      b.length = inp.length → xorL a b = inp →
      ∀ (setup0 setup1 : Nat → Nat → List Triple),
      (∀ k n, Matching (setup0 k n) (setup1 k n) ∧ n ≤ (setup0 k n).length) →
      ∀ (init0 init1 : Store Bool (List Bool)) (m : Multi BoolGate),
      (∀ i, m.circs[i]? = getCirc (intoCircuit {} s'.mem s'.ptrs) i) →
      m.outgoing = s'.conns.outgoing → m.incoming = s'.conns.incoming →
      ∃ o0 o1, Runs (execute gmw m 0 (.scalar a) setup0 init0) (execute gmw m 1 (.scalar b) setup1 init1)
          (.scalar o0) (.scalar o1) ∧ xorL o0 o1 = plainRun F prog inp := by
  obtain ⟨p0, h0⟩ := inv_start F s hs
  obtain ⟨x, hx, -, -⟩ := connect_calls_partial _ (conns_ok F 1 _ hargs)
    (sources_ok F 1 (by omega) _ hargs.nested) (once_from F 1 0 (by omega) prog).1
  obtain ⟨s', hrun, hinv⟩ := run_spec (done := []) prog h0 (by simpa [mainOps] using ok)
    ⟨x, by simpa using hx⟩
  simp only [List.nil_append] at hinv
  refine ⟨s', _, by simpa [mainOps] using hrun, ?_⟩
  intro inp a b hinp ha hb hab setup0 setup1 hset init0 init1 m hm ho hi
  exact correct_of_inv ok hargs hinv inp a b hinp ha hb hab setup0 setup1 hset init0 init1 m hm ho hi

/-- C59, sharing: calls of the same function with arguments of the same lengths share one circuit;
the finished circuit stores the main circuit and one circuit for each distinct pair of function and
argument lengths. -/
theorem sub_circuit_sharing (F : Fns) (prog : List Stmt) (ok : ProgramOk F 0 prog)
    (hargs : ArgsOk (calls F 0 prog)) (s : St) (hs : Fresh s) :
    ∃ s' vars, run F prog s [] = some (s', vars) ∧
      (intoCircuit {} s'.mem s'.ptrs).1.length = ((calls F 0 prog).map CallRec.key).dedup.length + 1 := by
  obtain ⟨p0, h0⟩ := inv_start F s hs
  obtain ⟨x, hx, -, -⟩ := connect_calls_partial _ (conns_ok F 1 _ hargs)
    (sources_ok F 1 (by omega) _ hargs.nested) (once_from F 1 0 (by omega) prog).1
  obtain ⟨s', hrun, hinv⟩ := run_spec (done := []) prog h0 (by simpa [mainOps] using ok)
    ⟨x, by simpa using hx⟩
  simp only [List.nil_append] at hinv
  exact ⟨s', _, by simpa [mainOps] using hrun,
    by rw [(into_circuit_keeps_table _ _ _).2, ptrs_dedup hinv]⟩

/-- C59, several programs: after `global_into_circuit` the next program starts with a fresh builder
and without cached circuits. -/
theorem sub_circuit_reset (F : Fns) (prog : List Stmt) (ok : ProgramOk F 0 prog)
    (hargs : ArgsOk (calls F 0 prog)) (s : St) (hs : Fresh s) :
    ∃ s' vars, run F prog s [] = some (s', vars) ∧ Fresh s'.globalIntoCircuit := by
  obtain ⟨p0, h0⟩ := inv_start F s hs
  obtain ⟨x, hx, -, -⟩ := connect_calls_partial _ (conns_ok F 1 _ hargs)
    (sources_ok F 1 (by omega) _ hargs.nested) (once_from F 1 0 (by omega) prog).1
  obtain ⟨s', hrun, hinv⟩ := run_spec (done := []) prog h0 (by simpa [mainOps] using ok)
    ⟨x, by simpa using hx⟩
  simp only [List.nil_append] at hinv
  refine ⟨s', _, by simpa [mainOps] using hrun, ⟨taken s', rfl, ?_⟩, rfl, ?_, hinv.busy⟩
  · simp [St.globalIntoCircuit, taken]
  · intro f k
    simp only [St.globalIntoCircuit]
    by_cases h : f ∈ s'.caches
    · rw [if_pos h]
    · rw [if_neg h]
      cases he : s'.cache f k with
      | none => rfl
      | some e => exact absurd (hinv.registered f k e he) h

end Verif.Macro
