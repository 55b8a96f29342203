import Verif.Cbc.CallSim

/-!
Lemmas for C70: what the program computes and which wires its calls take.
-/
set_option autoImplicit false

namespace Verif.Cbc

open Circuit Gmw Macro

/-- Encrypt one block: `n` gates exist, the data starts at `d`, the chaining state at `c`. -/
def xorStmts (bs d c : Nat) : List Stmt := (List.range bs).map fun l => .op .xor [d + l, c + l]

def outStmts (bs n : Nat) : List Stmt := (List.range bs).map fun l => .output (n + l)

def blockStmts (bs n d c : Nat) : List Stmt :=
  xorStmts bs d c ++ ([.call 0 [List.range' n bs, List.range' 0 bs]] ++ outStmts bs (n + bs))

def blocks (bs : Nat) : Nat → Nat → Nat → Nat → List Stmt
  | 0, _, _, _ => []
  | k + 1, n, d, c => blockStmts bs n d c ++ blocks bs k (n + bs + bs + bs) (d + bs) (n + bs)

def inStmts (n : Nat) : List Stmt := List.replicate n .input

def encProg (bs k : Nat) : List Stmt :=
  inStmts bs ++ inStmts bs ++ inStmts (k * bs) ++ blocks bs k (bs + bs + k * bs) (bs + bs) bs

/-! ### The plain program -/

def seg (env : List Bool) (lo n : Nat) : List Bool := (List.range' lo n).map fun i => env.getD i false

theorem seg_length (env : List Bool) (lo n : Nat) : (seg env lo n).length = n := by simp [seg]

theorem seg_left (A B : List Bool) (lo n : Nat) (h : lo + n ≤ A.length) : seg (A ++ B) lo n = seg A lo n := by
  apply List.map_congr_left
  intro i hi
  rw [List.mem_range'_1] at hi
  simp only [List.getD_eq_getElem?_getD]
  rw [List.getElem?_append_left (by omega)]

theorem seg_mid (A B : List Bool) (lo n : Nat) (h1 : A.length = lo) (h2 : B.length = n) :
    seg (A ++ B) lo n = B := by
  apply List.ext_getElem
  · simp [seg, h2]
  · intro i hi hi'
    simp only [seg, List.getElem_map, List.getElem_range', Nat.one_mul, List.getD_eq_getElem?_getD]
    rw [List.getElem?_append_right (by omega), h1, Nat.add_sub_cancel_left, List.getElem?_eq_getElem hi']
    rfl

theorem seg_add (env : List Bool) (lo m n : Nat) : seg env lo (m + n) = seg env lo m ++ seg env (lo + m) n := by
  unfold seg
  rw [← List.range'_append_1, List.map_append]

theorem seg_xor (env : List Bool) (d c n : Nat) :
    ((List.range n).map fun i => (env.getD (d + i) false ^^ env.getD (c + i) false)) =
      xorL (seg env d n) (seg env c n) := by
  apply List.ext_getElem
  · simp [xorL, seg]
  · intro i _ _
    simp [xorL, seg]

theorem fold_inputs (F : Fns) (m : Nat) (p : Plain) (h : m ≤ p.rest.length) :
    (inStmts m).foldl (Plain.step F) p = ⟨p.env ++ p.rest.take m, p.outs, p.rest.drop m⟩ := by
  induction m generalizing p with
  | zero => simp [inStmts]
  | succ m ih =>
    obtain ⟨env, outs, rest⟩ := p
    cases rest with
    | nil => simp at h
    | cons x r =>
      have := ih ⟨env ++ [x], outs, r⟩ (by simpa using h)
      unfold inStmts at this ⊢
      rw [List.replicate_succ, List.foldl_cons]
      simp only [Plain.step, List.headD_cons, List.tail_cons]
      rw [this]
      simp

theorem fold_xors (F : Fns) (d c : Nat) (l : List Nat) (p : Plain)
    (h : ∀ i ∈ l, d + i < p.env.length ∧ c + i < p.env.length) :
    (l.map fun i => Stmt.op .xor [d + i, c + i]).foldl (Plain.step F) p =
      { p with env := p.env ++ l.map fun i => (p.env.getD (d + i) false ^^ p.env.getD (c + i) false) } := by
  induction l generalizing p with
  | nil => simp
  | cons i l ih =>
    obtain ⟨env, outs, rest⟩ := p
    rw [List.map_cons, List.foldl_cons, ih]
    · simp only [Plain.step, List.map_cons, List.append_assoc, List.singleton_append, Plain.mk.injEq, and_true,
        List.append_cancel_left_eq, List.cons.injEq]
      refine ⟨rfl, ?_⟩
      apply List.map_congr_left
      intro j hj
      obtain ⟨h1, h2⟩ := h j (List.mem_cons_of_mem _ hj)
      simp only at h1 h2
      simp only [List.getD_eq_getElem?_getD]
      rw [List.getElem?_append_left h1, List.getElem?_append_left h2]
    · intro j hj
      obtain ⟨h1, h2⟩ := h j (List.mem_cons_of_mem _ hj)
      simp only at h1 h2
      simp only [Plain.step, List.length_append, List.length_singleton]
      omega

theorem fold_outs (F : Fns) (n : Nat) (l : List Nat) (p : Plain) (h : ∀ i ∈ l, n + i < p.env.length) :
    (l.map fun i => Stmt.output (n + i)).foldl (Plain.step F) p =
      { p with
        env := p.env ++ l.map fun i => p.env.getD (n + i) false
        outs := p.outs ++ l.map fun i => p.env.getD (n + i) false } := by
  induction l generalizing p with
  | nil => simp
  | cons i l ih =>
    obtain ⟨env, outs, rest⟩ := p
    have hm : ∀ x : Bool, (l.map fun j => (env ++ [x]).getD (n + j) false) = l.map fun j => env.getD (n + j) false := by
      intro x
      apply List.map_congr_left
      intro j hj
      have := h j (List.mem_cons_of_mem _ hj)
      simp only at this
      simp only [List.getD_eq_getElem?_getD]
      rw [List.getElem?_append_left this]
    rw [List.map_cons, List.foldl_cons, ih]
    · simp only [Plain.step, List.map_cons, List.append_assoc, List.singleton_append, Plain.mk.injEq, and_true, hm]
    · intro j hj
      have := h j (List.mem_cons_of_mem _ hj)
      simp only at this
      simp only [Plain.step, List.length_append, List.length_singleton]
      omega

section

variable {b : Parse.Circuit} {bs : Nat}

theorem eval_length (ok : Parse.BristolOk b) (hin : b.totalInputs = bs + bs) (hout : b.totalOutputs = bs)
    (x k : List Bool) (hx : x.length = bs) (hk : k.length = bs) : (b.eval (x ++ k)).length = bs := by
  rw [← cipherBody_eval ok (x ++ k) (by simp [hx, hk, hin]), Body.eval, List.length_map, cipherBody_ret ok, hout]

theorem fold_block (ok : Parse.BristolOk b) (hin : b.totalInputs = bs + bs) (hout : b.totalOutputs = bs)
    (p : Plain) (n d c : Nat) (hn : p.env.length = n) (hd : d + bs ≤ n) (hc : c + bs ≤ n) (hk : bs ≤ n) :
    (blockStmts bs n d c).foldl (Plain.step fun _ _ => cipherBody b) p =
      { p with
        env := p.env ++ xorL (seg p.env d bs) (seg p.env c bs) ++
            b.eval (xorL (seg p.env d bs) (seg p.env c bs) ++ seg p.env 0 bs) ++
          b.eval (xorL (seg p.env d bs) (seg p.env c bs) ++ seg p.env 0 bs)
        outs := p.outs ++ b.eval (xorL (seg p.env d bs) (seg p.env c bs) ++ seg p.env 0 bs) } := by
  obtain ⟨env, outs, rest⟩ := p
  simp only at hn
  rw [blockStmts, List.foldl_append, xorStmts, fold_xors _ _ _ _ _ (by
    intro i hi
    have := List.mem_range.1 hi
    simp only; omega), List.foldl_append, List.foldl_cons, List.foldl_nil]
  simp only [seg_xor]
  generalize hX : xorL (seg env d bs) (seg env c bs) = X
  have lX : X.length = bs := by rw [← hX]; simp [xorL, seg_length]
  have hargs : (([List.range' n bs, List.range' 0 bs] : List (List Nat)).flatten.map fun a =>
      (env ++ X).getD a false) = X ++ seg env 0 bs := by
    simp only [List.flatten_cons, List.flatten_nil, List.append_nil, List.map_append]
    have h1 := seg_mid env X n bs hn lX
    have h2 := seg_left env X 0 bs (by omega)
    unfold seg at h1 h2 ⊢
    rw [h1, h2]
  simp only [Plain.step, hargs]
  rw [cipherBody_eval ok _ (by simp [lX, seg_length, hin])]
  generalize hC : b.eval (X ++ seg env 0 bs) = C
  have lC : C.length = bs := by rw [← hC]; exact eval_length ok hin hout _ _ lX (seg_length _ _ _)
  rw [outStmts, fold_outs _ _ _ _ (by
    intro i hi
    have := List.mem_range.1 hi
    simp only [List.length_append, lX, lC, hn]; omega)]
  have ho : ((List.range bs).map fun i => (env ++ X ++ C).getD (n + bs + i) false) = C := by
    have := seg_mid (env ++ X) C (n + bs) bs (by simp [hn, lX]) lC
    unfold seg at this
    rw [List.range'_eq_map_range, List.map_map] at this
    exact this
  simp only [ho]

theorem fold_blocks (ok : Parse.BristolOk b) (hin : b.totalInputs = bs + bs) (hout : b.totalOutputs = bs)
    (k : Nat) (p : Plain) (n d c : Nat) (hn : p.env.length = n) (hd : d + k * bs ≤ n) (hc : c + bs ≤ n) (hk : bs ≤ n)
    (ds : List (List Bool)) (hl : ds.length = k) (hds : ∀ x ∈ ds, x.length = bs)
    (hval : seg p.env d (k * bs) = ds.flatten) :
    ((blocks bs k n d c).foldl (Plain.step fun _ _ => cipherBody b) p).outs =
      p.outs ++ (cbc (fun x k => b.eval (x ++ k)) (seg p.env 0 bs) (seg p.env c bs) ds).flatten := by
  induction k generalizing p n d c ds with
  | zero =>
    have : ds = [] := List.length_eq_zero_iff.1 hl
    subst this
    simp [blocks, cbc]
  | succ k ih =>
    cases ds with
    | nil => simp at hl
    | cons x ds =>
      have hx := hds x List.mem_cons_self
      rw [Nat.add_mul, Nat.one_mul] at hd hval
      rw [Nat.add_comm (k * bs), seg_add, List.flatten_cons] at hval
      obtain ⟨hv1, hv2⟩ := List.append_inj hval (by rw [seg_length, hx])
      rw [blocks, List.foldl_append, fold_block ok hin hout p n d c hn (by omega) hc hk, hv1, cbc]
      generalize hX : xorL x (seg p.env c bs) = X
      have lX : X.length = bs := by rw [← hX]; simp [xorL, seg_length, hx]
      generalize hC : b.eval (X ++ seg p.env 0 bs) = C
      have lC : C.length = bs := by rw [← hC]; exact eval_length ok hin hout _ _ lX (seg_length _ _ _)
      rw [ih (ds := ds)]
      · have e1 : seg (p.env ++ X ++ C ++ C) 0 bs = seg p.env 0 bs := by
          rw [List.append_assoc, List.append_assoc, seg_left p.env _ 0 bs (by omega)]
        have e2 : seg (p.env ++ X ++ C ++ C) (n + bs) bs = C := by
          rw [seg_left _ C _ _ (by simp [lX, lC, hn]; omega), seg_mid _ C _ _ (by simp [lX, hn]) lC]
        simp only [e1, e2]
        rw [List.flatten_cons, List.append_assoc]
      · simp [lX, lC, hn]; omega
      · omega
      · omega
      · omega
      · simpa using hl
      · exact fun y hy => hds y (List.mem_cons_of_mem _ hy)
      · simp only [List.append_assoc]
        rw [seg_left p.env _ _ _ (by omega)]
        exact hv2

theorem flatten_len (d : List (List Bool)) (hd : ∀ x ∈ d, x.length = bs) : d.flatten.length = d.length * bs := by
  induction d with
  | nil => simp
  | cons x d ih =>
    rw [List.flatten_cons, List.length_append, hd x List.mem_cons_self,
      ih fun y hy => hd y (List.mem_cons_of_mem _ hy), List.length_cons, Nat.add_mul, Nat.one_mul]
    omega

theorem plain_enc (ok : Parse.BristolOk b) (hin : b.totalInputs = bs + bs) (hout : b.totalOutputs = bs)
    (k iv : List Bool) (d : List (List Bool)) (hk : k.length = bs) (hiv : iv.length = bs)
    (hd : ∀ x ∈ d, x.length = bs) :
    plainRun (fun _ _ => cipherBody b) (encProg bs d.length) (k ++ iv ++ d.flatten) =
      (cbc (fun x k => b.eval (x ++ k)) k iv d).flatten := by
  have lfl := flatten_len d hd
  rw [plainRun, encProg]
  have hi : inStmts bs ++ inStmts bs ++ inStmts (d.length * bs) = inStmts (bs + bs + d.length * bs) := by
    simp [inStmts, List.replicate_append_replicate]
  rw [hi, List.foldl_append, fold_inputs _ _ _ (by simp [hk, hiv, lfl]; omega)]
  rw [List.take_of_length_le (by simp [hk, hiv, lfl]; omega), List.nil_append]
  rw [fold_blocks ok hin hout d.length _ _ _ _ (by simp [hk, hiv, lfl]; omega) (by omega) (by omega) (by omega) d rfl hd]
  · simp only [List.nil_append]
    congr 2
    · rw [List.append_assoc, seg_left _ _ _ _ (by omega)]
      exact seg_mid [] k 0 bs rfl hk
    · rw [seg_left _ _ _ _ (by simp [hk, hiv])]
      exact seg_mid _ _ _ _ hk hiv
  · exact seg_mid _ _ _ _ (by simp [hk, hiv]) lfl

end

/-! ### Wires -/

theorem runs_append (c lo n : Nat) (rest : List Node) (r : GRange) (rs : List GRange) (h : runs rest = r :: rs)
    (hne : ¬ (r.circ = c ∧ r.lo = lo + n + 1)) :
    runs (((List.range' lo (n + 1)).map fun g => (c, g)) ++ rest) = ⟨c, lo, lo + n⟩ :: r :: rs := by
  induction n generalizing lo with
  | zero =>
    simp only [List.range'_succ, List.range'_zero, List.map_cons, List.map_nil, List.singleton_append, runs, h]
    rw [if_neg (by simpa using hne)]
    rfl
  | succ n ih =>
    rw [List.range'_succ, List.map_cons, List.cons_append, runs, ih (lo + 1) (by
      rw [show lo + 1 + n + 1 = lo + (n + 1) + 1 by omega]; exact hne)]
    simp only [and_self, if_true]
    congr 2; omega

def blockCalls (bs : Nat) : Nat → Nat → List CallRec
  | 0, _ => []
  | k + 1, n => ⟨0, [List.range' n bs, List.range' 0 bs], n + bs⟩ :: blockCalls bs k (n + bs + bs + bs)

section

variable {b : Parse.Circuit} {bs : Nat}

theorem calls_gates (F : Fns) (n : Nat) (sts : List Stmt) (h : ∀ st ∈ sts, isCall st = false) : calls F n sts = [] := by
  induction sts generalizing n with
  | nil => rfl
  | cons st sts ih =>
    have := ih (n + 1) fun x hx => h x (List.mem_cons_of_mem _ hx)
    cases st with
    | call f args => simp [isCall] at h
    | _ => simp [calls, this]

theorem mainOps_gates (F : Fns) (sts : List Stmt) (h : ∀ st ∈ sts, isCall st = false) :
    (mainOps F sts).length = sts.length := by
  induction sts with
  | nil => rfl
  | cons st sts ih =>
    have := ih fun x hx => h x (List.mem_cons_of_mem _ hx)
    rw [mainOps] at this ⊢
    rw [List.flatMap_cons, List.length_append, this, List.length_cons, Nat.add_comm]
    congr 1
    cases st with
    | call f args => simp [isCall] at h
    | _ => rfl

theorem xorStmts_gates (d c : Nat) : ∀ st ∈ xorStmts bs d c, isCall st = false := by
  intro st hst
  obtain ⟨_, -, rfl⟩ := List.mem_map.1 hst
  rfl

theorem outStmts_gates (n : Nat) : ∀ st ∈ outStmts bs n, isCall st = false := by
  intro st hst
  obtain ⟨_, -, rfl⟩ := List.mem_map.1 hst
  rfl

theorem inStmts_gates (n : Nat) : ∀ st ∈ inStmts n, isCall st = false := by
  intro st hst
  rw [List.eq_of_mem_replicate hst]
  rfl

theorem mainOps_xor (F : Fns) (d c : Nat) : (mainOps F (xorStmts bs d c)).length = bs := by
  rw [mainOps_gates _ _ (xorStmts_gates d c)]; simp [xorStmts]

theorem mainOps_out (F : Fns) (n : Nat) : (mainOps F (outStmts bs n)).length = bs := by
  rw [mainOps_gates _ _ (outStmts_gates n)]; simp [outStmts]

theorem mainOps_in (F : Fns) (n : Nat) : (mainOps F (inStmts n)).length = n := by
  rw [mainOps_gates _ _ (inStmts_gates n)]; simp [inStmts]

theorem mainOps_call (ok : Parse.BristolOk b) (hout : b.totalOutputs = bs) (args : List (List Nat)) :
    (mainOps (fun _ _ => cipherBody b) [.call 0 args]).length = bs := by
  simp [mainOps, Stmt.ops, cipherBody_ret ok, hout]

theorem mainOps_block (ok : Parse.BristolOk b) (hout : b.totalOutputs = bs) (n d c : Nat) :
    (mainOps (fun _ _ => cipherBody b) (blockStmts bs n d c)).length = bs + bs + bs := by
  rw [blockStmts, mainOps_append, mainOps_append, List.length_append, List.length_append, mainOps_xor,
    mainOps_out, mainOps_call ok hout]
  omega

theorem calls_blocks (ok : Parse.BristolOk b) (hout : b.totalOutputs = bs) (k n d c : Nat) :
    calls (fun _ _ => cipherBody b) n (blocks bs k n d c) = blockCalls bs k n := by
  induction k generalizing n d c with
  | zero => rfl
  | succ k ih =>
    rw [blocks, calls_append, mainOps_block ok hout, show n + (bs + bs + bs) = n + bs + bs + bs by omega, ih,
      blockStmts, calls_append, calls_gates _ _ _ (xorStmts_gates d c), mainOps_xor, calls_append,
      calls_gates _ _ _ (outStmts_gates _)]
    simp [calls, blockCalls]

theorem calls_enc (ok : Parse.BristolOk b) (hout : b.totalOutputs = bs) (k : Nat) :
    calls (fun _ _ => cipherBody b) 0 (encProg bs k) = blockCalls bs k (bs + bs + k * bs) := by
  have hi : inStmts bs ++ inStmts bs ++ inStmts (k * bs) = inStmts (bs + bs + k * bs) := by
    simp [inStmts, List.replicate_append_replicate]
  rw [encProg, hi, calls_append, calls_gates _ _ _ (inStmts_gates _), mainOps_in, Nat.zero_add,
    calls_blocks ok hout, List.nil_append]

theorem call_runs (hbs : 0 < bs) (n : Nat) (p : Nat) :
    runs ((CallRec.args ⟨0, [List.range' n bs, List.range' 0 bs], p⟩).flatten.map fun g => ((0 : Nat), g)) =
      [⟨0, n, n + (bs - 1)⟩, ⟨0, 0, bs - 1⟩] := by
  obtain ⟨m, rfl⟩ : ∃ m, bs = m + 1 := ⟨bs - 1, by omega⟩
  simp only [List.flatten_cons, List.flatten_nil, List.append_nil, List.map_append, Nat.add_sub_cancel]
  have h0 := runs_range' 0 0 m
  rw [Nat.zero_add] at h0
  exact runs_append 0 n m _ _ _ h0 (by simp)

theorem argRuns_blocks (hbs : 0 < bs) (k n : Nat) :
    ∀ x ∈ argRuns (blockCalls bs k n), x = ⟨0, 0, bs - 1⟩ ∨ (n ≤ x.lo ∧ x.hi = x.lo + (bs - 1)) := by
  induction k generalizing n with
  | zero => simp [blockCalls, argRuns]
  | succ k ih =>
    intro x hx
    rw [blockCalls, argRuns, List.flatMap_cons, call_runs hbs, List.mem_append] at hx
    rcases hx with hx | hx
    · simp only [List.mem_cons, List.not_mem_nil, or_false] at hx
      rcases hx with rfl | rfl
      · exact .inr ⟨Nat.le_refl _, rfl⟩
      · exact .inl rfl
    · rcases ih _ x hx with h | h
      · exact .inl h
      · exact .inr ⟨by omega, h.2⟩

theorem argsOk_blocks (hbs : 0 < bs) (k n : Nat) (hn : bs ≤ n) : ArgsOk (blockCalls bs k n) := by
  refine ⟨?_, ?_⟩
  · induction k generalizing n with
    | zero => simp [blockCalls, argRuns]
    | succ k ih =>
      rw [blockCalls, argRuns, List.flatMap_cons, call_runs hbs, List.pairwise_append]
      refine ⟨?_, ih _ (by omega), ?_⟩
      · simp [Nested]
      · intro x hx y hy
        have hy := argRuns_blocks hbs k _ y hy
        simp only [List.mem_cons, List.not_mem_nil, or_false] at hx
        rcases hx with rfl | rfl
        · rcases hy with rfl | ⟨h1, h2⟩
          · simp only [Nested]; omega
          · simp only [Nested]; omega
        · rcases hy with rfl | ⟨h1, h2⟩
          · simp only [Nested]; omega
          · simp only [Nested]; omega
  · induction k generalizing n with
    | zero => simp [blockCalls]
    | succ k ih =>
      intro r hr
      rw [blockCalls, List.mem_cons] at hr
      rcases hr with rfl | hr
      · rw [call_runs hbs]
        simp [GRange.first]
        omega
      · exact ih _ (by omega) r hr

theorem gates_ok (F : Fns) (n : Nat) (sts : List Stmt) (hc : ∀ st ∈ sts, isCall st = false)
    (h : ∀ st ∈ sts, ∀ m, n ≤ m → StmtOk F m st) : ProgramOk F n sts := by
  induction sts generalizing n with
  | nil => trivial
  | cons st sts ih =>
    exact ⟨h st List.mem_cons_self n (Nat.le_refl _), ih _ (fun x hx => hc x (List.mem_cons_of_mem _ hx))
      fun x hx m hm => h x (List.mem_cons_of_mem _ hx) m (by omega)⟩

theorem xors_ok (F : Fns) (n d c : Nat) (hd : d + bs ≤ n) (hc : c + bs ≤ n) : ProgramOk F n (xorStmts bs d c) := by
  refine gates_ok F n _ (xorStmts_gates d c) ?_
  intro st hst m hm
  obtain ⟨i, hi, rfl⟩ := List.mem_map.1 hst
  have := List.mem_range.1 hi
  refine ⟨rfl, rfl, ?_⟩
  intro a ha
  simp only [List.mem_cons, List.not_mem_nil, or_false] at ha
  rcases ha with rfl | rfl <;> omega

theorem outs_ok (F : Fns) (n m : Nat) (h : n + bs ≤ m) : ProgramOk F m (outStmts bs n) := by
  refine gates_ok F m _ (outStmts_gates n) ?_
  intro st hst k hk
  obtain ⟨i, hi, rfl⟩ := List.mem_map.1 hst
  have := List.mem_range.1 hi
  show n + i < k
  omega

theorem call_ok (hbs : 0 < bs) (ok : Parse.BristolOk b) (hin : b.totalInputs = bs + bs) (n m : Nat) (h : n + bs ≤ m) :
    StmtOk (fun _ _ => cipherBody b) m (.call 0 [List.range' n bs, List.range' 0 bs]) := by
  refine ⟨?_, ?_, ?_⟩
  · simp; omega
  · intro a ha
    simp only [List.flatten_cons, List.flatten_nil, List.append_nil, List.mem_append, List.mem_range'_1] at ha
    omega
  · have := cipherBody_ok ok
    rw [hin] at this
    simpa using this

theorem blocks_ok (hbs : 0 < bs) (ok : Parse.BristolOk b) (hin : b.totalInputs = bs + bs)
    (hout : b.totalOutputs = bs) (k n d c : Nat) (hd : d + k * bs ≤ n) (hc : c + bs ≤ n) :
    ProgramOk (fun _ _ => cipherBody b) n (blocks bs k n d c) := by
  induction k generalizing n d c with
  | zero => trivial
  | succ k ih =>
    rw [Nat.add_mul, Nat.one_mul] at hd
    rw [blocks, programOk_append, mainOps_block ok hout, blockStmts, programOk_append, mainOps_xor,
      programOk_append, mainOps_call ok hout]
    refine ⟨⟨xors_ok _ _ _ _ (by omega) hc, ⟨call_ok hbs ok hin n _ (Nat.le_refl _), trivial⟩,
      outs_ok _ _ _ (Nat.le_refl _)⟩, ?_⟩
    rw [show n + (bs + bs + bs) = n + bs + bs + bs by omega]
    exact ih _ _ _ (by omega) (by omega)

theorem ins_ok (F : Fns) (n m : Nat) : ProgramOk F n (inStmts m) := by
  refine gates_ok F n _ (inStmts_gates m) ?_
  intro st hst k _
  rw [List.eq_of_mem_replicate hst]
  trivial

theorem enc_ok (hbs : 0 < bs) (ok : Parse.BristolOk b) (hin : b.totalInputs = bs + bs)
    (hout : b.totalOutputs = bs) (k : Nat) : ProgramOk (fun _ _ => cipherBody b) 0 (encProg bs k) := by
  have hi : inStmts bs ++ inStmts bs ++ inStmts (k * bs) = inStmts (bs + bs + k * bs) := by
    simp [inStmts, List.replicate_append_replicate]
  rw [encProg, hi, programOk_append, mainOps_in, Nat.zero_add]
  exact ⟨ins_ok _ _ _, blocks_ok hbs ok hin hout k _ _ _ (Nat.le_refl _) (by omega)⟩

end

end Verif.Cbc
