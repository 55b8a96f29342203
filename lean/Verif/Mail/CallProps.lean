import Verif.Mail.CallWires
import Verif.Mail.Props
import Verif.Macro.Witness
import Mathlib.Data.List.Perm.Basic
import Mathlib.Data.List.Dedup

/-!
C78: the PrivMail example with `#[sub_circuit]` functions answers the query.
-/
set_option autoImplicit false

namespace Verif.Mail

open Circuit Gmw Macro Exec Proc

/-! ### Inputs and outputs -/

/-- Texts of these lengths, one after the other. -/
def startsAt (g : Nat) : List Nat → List (Nat × Nat)
  | [] => []
  | n :: ns => (g, n) :: startsAt (g + 8 * n) ns

theorem texts_spec (w : W) (ns : List Nat) :
    w.texts ns = (⟨w.n + 8 * ns.sum, w.stmts ++ List.replicate (8 * ns.sum) .input⟩, textsOf (startsAt w.n ns)) := by
  induction ns generalizing w with
  | nil => simp [W.texts, startsAt, textsOf]
  | cons n ns ih =>
    rw [W.texts]
    simp only [W.inputs, ih, startsAt, textsOf, List.map_cons, List.sum_cons, Nat.mul_add, List.append_assoc,
      List.replicate_append_replicate, Nat.add_assoc]

theorem startsAt_mem {g : Nat} {ns : List Nat} {p : Nat × Nat} (h : p ∈ startsAt g ns) :
    g ≤ p.1 ∧ p.1 + 8 * p.2 ≤ g + 8 * ns.sum ∧ p.2 ∈ ns := by
  induction ns generalizing g with
  | nil => simp [startsAt] at h
  | cons n ns ih =>
    rw [List.sum_cons]
    rcases List.mem_cons.1 h with rfl | h
    · exact ⟨Nat.le_refl _, by simp only; omega, List.mem_cons_self⟩
    · obtain ⟨h1, h2, h3⟩ := ih h
      exact ⟨by omega, by omega, List.mem_cons_of_mem _ h3⟩

theorem startsAt_append (g : Nat) (a b : List Nat) :
    startsAt g (a ++ b) = startsAt g a ++ startsAt (g + 8 * a.sum) b := by
  induction a generalizing g with
  | nil => simp [startsAt]
  | cons n a ih => simp [startsAt, ih, Nat.mul_add, Nat.add_assoc]

theorem startsAt_snd (g : Nat) (ns : List Nat) : (startsAt g ns).map (·.2) = ns := by
  induction ns generalizing g with
  | nil => rfl
  | cons n ns ih => simp [startsAt, ih]

theorem inputs_ok (N : Nat) : WOk ⟨N, List.replicate N .input⟩ [] ∧
    ∀ inp : List Bool, inp.length = N → Ran inp ⟨N, List.replicate N .input⟩ inp := by
  refine ⟨⟨Cbc.mainOps_in mailFns N, Cbc.ins_ok mailFns 0 N, Cbc.calls_gates _ _ _ (Cbc.inStmts_gates N)⟩, ?_⟩
  intro inp h
  refine ⟨?_, h, [], by simp⟩
  have := Cbc.fold_inputs mailFns N ⟨[], [], inp⟩ (Nat.le_of_eq h.symm)
  rw [Cbc.inStmts] at this
  rw [this]
  simp [← h]

theorem fold_outs (rs : List Nat) (p : Plain) (vs : List Bool) (h : List.Forall₂ (Var p.env) rs vs) :
    ((rs.map Stmt.output).foldl (Plain.step mailFns) p).outs = p.outs ++ vs := by
  induction rs generalizing p vs with
  | nil => cases h; simp
  | cons r rs ih =>
    cases h with
    | cons h hs =>
      rw [List.map_cons, List.foldl_cons, ih _ _ (hs.imp fun _ _ hv => hv.mono (by
        exact List.prefix_append _ _))]
      simp only [Plain.step, h.2, List.append_assoc, List.singleton_append]

/-! ### The number of inputs -/

def ins (w : W) : Nat := w.stmts.countP Stmt.isInput

theorem ins_op (w : W) (g : BoolGate) (as : List Nat) : ins (w.op g as).1 = ins w := by
  simp [ins, W.op, Stmt.isInput]

theorem ins_call (w : W) (f : Nat) (as : List (List Nat)) : ins (w.call f as).1 = ins w := by
  simp [ins, W.call, Stmt.isInput]

theorem ins_comparisons (kw : List (List Nat)) (ts : List (List (List Nat))) (w : W) :
    ins (w.comparisons kw ts).1 = ins w := by
  induction ts generalizing w with
  | nil => rfl
  | cons t ts ih => rw [W.comparisons]; simp only [ih, ins_call]

theorem ins_search {w w' : W} {kw t : List (List Nat)} {r : Nat} (e : w.search kw t = some (w', r)) : ins w' = ins w := by
  simp only [W.search, Option.bind_eq_bind, Option.bind_eq_some_iff] at e
  obtain ⟨ws, -, e⟩ := e
  simp only [Option.pure_def, Option.some.injEq] at e
  have h := ins_call (w.comparisons kw ws).1 1 [(w.comparisons kw ws).2]
  rw [e] at h
  rw [h, ins_comparisons]

theorem ins_chaining (w : W) (p r o n : Nat) : ins (w.chaining p r o n).1 = ins w := by
  simp only [W.chaining, ins_op]

theorem ins_mailLoop (modifier : List Nat) (j : Nat) (kw : List (List Nat)) (ts : List (List (List Nat))) (w w' : W)
    (rs rs' : List Nat) (i : Nat) (e : W.mailLoop modifier j kw w rs i ts = some (w', rs')) : ins w' = ins w := by
  induction ts generalizing w rs i with
  | nil =>
    simp only [W.mailLoop, Option.some.injEq, Prod.mk.injEq] at e
    rw [e.1]
  | cons t ts ih =>
    simp only [W.mailLoop, Option.bind_eq_bind, Option.bind_eq_some_iff] at e
    obtain ⟨⟨w1, r⟩, e1, e⟩ := e
    split at e
    · obtain ⟨m, -, e⟩ := Option.bind_eq_some_iff.1 e
      rw [ih _ _ _ e, ins_op, ins_search e1]
    · obtain ⟨_, -, e⟩ := Option.bind_eq_some_iff.1 e
      obtain ⟨_, -, e⟩ := Option.bind_eq_some_iff.1 e
      obtain ⟨_, -, e⟩ := Option.bind_eq_some_iff.1 e
      rw [ih _ _ _ e, ins_chaining, ins_search e1]

theorem ins_keywordLoop (modifier : List Nat) (ts : List (List (List Nat))) (kws : List (List (List Nat))) (w w' : W)
    (rs rs' : List Nat) (j : Nat) (e : W.keywordLoop modifier ts w rs j kws = some (w', rs')) : ins w' = ins w := by
  induction kws generalizing w rs j with
  | nil =>
    simp only [W.keywordLoop, Option.some.injEq, Prod.mk.injEq] at e
    rw [e.1]
  | cons t kws ih =>
    simp only [W.keywordLoop, Option.bind_eq_bind, Option.bind_eq_some_iff] at e
    obtain ⟨⟨w1, r⟩, e1, e⟩ := e
    rw [ih _ _ _ e, ins_mailLoop _ _ _ _ _ _ _ _ _ e1]

/-! ### The texts in the input -/

theorem lows_cons (inp : List Bool) (n : Nat) :
    lows inp 0 (n + 1) = ((List.range' 0 6).map fun x => inp.getD x false) :: lows inp 8 n := by
  rw [lows, chars, List.range_succ_eq_map, List.map_cons, List.map_cons, List.map_map, lows, chars]
  congr 1
  rw [List.map_map, List.map_map]
  apply List.map_congr_left
  intro k _
  simp only [Function.comp_apply]
  rw [show 0 + 8 * Nat.succ k = 8 + 8 * k by omega]

theorem lows_bitsOf (bs : List Byte) : lows (bitsOf bs) 0 bs.length = (bs.map byteBits).map (List.take 6) := by
  induction bs with
  | nil => rfl
  | cons x bs ih =>
    have hb : bitsOf (x :: bs) = byteBits x ++ bitsOf bs := by simp [bitsOf_eq]
    rw [List.length_cons, lows_cons, List.map_cons, List.map_cons, ← ih, hb]
    congr 1
    apply lows_congr
    intro y _
    rw [getD_right _ _ _ (by simp [byteBits])]
    simp [byteBits]

theorem lows_text (A B : List Bool) (bs : List Byte) :
    lows (A ++ bitsOf bs ++ B) A.length bs.length = (bs.map byteBits).map (List.take 6) := by
  rw [← lows_bitsOf]
  apply lows_congr
  intro x hx
  rw [List.append_assoc, getD_right _ _ _ (by omega), Nat.add_sub_cancel_left, Nat.zero_add,
    getD_left _ _ _ (by rw [bitsOf_length]; exact hx)]

theorem lows_texts (A B : List Bool) (D : List (List Byte)) :
    (startsAt A.length (D.map List.length)).map (fun p => lows (A ++ (D.map bitsOf).flatten ++ B) p.1 p.2) =
      D.map fun d => (d.map byteBits).map (List.take 6) := by
  induction D generalizing A with
  | nil => rfl
  | cons d D ih =>
    simp only [List.map_cons, startsAt, List.flatten_cons]
    have h1 := lows_text A ((D.map bitsOf).flatten ++ B) d
    have h2 := ih (A ++ bitsOf d)
    rw [List.length_append, bitsOf_length] at h2
    simp only [List.append_assoc] at h1 h2 ⊢
    rw [h1, h2]

theorem bits_length (D : List (List Byte)) : (D.map bitsOf).flatten.length = 8 * (D.map List.length).sum := by
  induction D with
  | nil => rfl
  | cons d D ih =>
    simp only [List.map_cons, List.flatten_cons, List.length_append, List.sum_cons, ih, bitsOf_length]
    omega

/-! ### The program -/

theorem prog_spec (nm n : Nat) (kl tl : List Nat) (hn : 0 < n) (hk0 : kl ≠ []) (hkn : ∀ x ∈ kl, x = n)
    (htn : ∀ x ∈ tl, n ≤ x) (hmod : 2 * kl.length - 1 ≤ 8 * nm) :
    ∃ prog, mailProg nm kl tl = some prog ∧ ProgramOk mailFns 0 prog ∧ ArgsOk (calls mailFns 0 prog) ∧
      prog.countP Stmt.isInput = 8 * nm + 8 * kl.sum + 8 * tl.sum ∧
      calls mailFns 0 prog = allCalls n (8 * nm + 8 * kl.sum + 8 * tl.sum) 0 ((startsAt (8 * nm) kl).map (·.1))
        (startsAt (8 * nm + 8 * kl.sum) tl) ∧
      ∀ (M : List Byte) (K T : List (List Byte)), M.length = nm → K.map List.length = kl → T.map List.length = tl →
        plainRun mailFns prog (bitsOf M ++ (K.map bitsOf).flatten ++ (T.map bitsOf).flatten) = T.map (query M K) := by
  generalize hN : 8 * nm + 8 * kl.sum + 8 * tl.sum = N
  generalize hkss : (startsAt (8 * nm) kl).map (·.1) = kss
  generalize htg : startsAt (8 * nm + 8 * kl.sum) tl = tg
  obtain ⟨wo, wr⟩ := inputs_ok N
  have hmodl : (List.range' 0 (8 * nm)).length = 8 * nm := List.length_range'
  have hkl : kss.length = kl.length := by
    rw [← hkss, List.length_map]
    have := congrArg List.length (startsAt_snd (8 * nm) kl)
    simpa using this
  have hkN : ∀ ks ∈ kss, ks + 8 * n ≤ N := by
    intro ks hks
    rw [← hkss] at hks
    obtain ⟨p, hp, rfl⟩ := List.mem_map.1 hks
    obtain ⟨-, h2, h3⟩ := startsAt_mem hp
    rw [hkn _ h3] at h2
    omega
  have htN : ∀ p ∈ tg, n ≤ p.2 ∧ p.1 + 8 * p.2 ≤ N := by
    intro p hp
    rw [← htg] at hp
    obtain ⟨-, h2, h3⟩ := startsAt_mem hp
    exact ⟨htn _ h3, by omega⟩
  obtain ⟨w', rs, e1, o1, b1, d1⟩ := keyword_loop_sc N n hn (List.range' 0 (8 * nm))
    (by intro x hx; rw [List.mem_range'_1] at hx; omega) tg htN kss
    (by intro h; rw [h] at hkl; exact hk0 (List.length_eq_zero_iff.1 hkl.symm)) hkN (by rw [hkl, hmodl]; exact hmod) _ _ wo
    (Nat.le_refl _)
  rw [List.nil_append] at o1
  have hout : ∀ st ∈ rs.map Stmt.output, Cbc.isCall st = false := by
    intro st hst
    obtain ⟨_, -, rfl⟩ := List.mem_map.1 hst
    rfl
  have hcalls : calls mailFns 0 (w'.stmts ++ rs.map .output) = allCalls n N 0 kss tg := by
    rw [calls_append, o1.calls, Cbc.calls_gates _ _ _ hout, List.append_nil]
  refine ⟨w'.stmts ++ rs.map .output, ?_, ?_, ?_, ?_, hcalls, ?_⟩
  · have hkc : textsOf (startsAt (8 * nm) kl) = kss.map fun ks => chars ks n := by
      rw [← hkss, textsOf, List.map_map]
      apply List.map_congr_left
      intro p hp
      rw [hkn _ (startsAt_mem hp).2.2]
      rfl
    have hlen : (textsOf (startsAt (8 * nm) kl)).length = kl.length := by rw [hkc, List.length_map, hkl]
    have hpos := List.length_pos_iff.2 hk0
    have hst : List.replicate (8 * nm) Stmt.input ++ List.replicate (8 * kl.sum) Stmt.input ++
        List.replicate (8 * tl.sum) Stmt.input = List.replicate N Stmt.input := by
      rw [List.replicate_append_replicate, List.replicate_append_replicate, hN]
    simp only [mailProg, W.inputs, texts_spec, chars_flatten, Nat.zero_add, List.nil_append, hlen, hmodl, hkc, htg, hst, hN]
    rw [if_pos (by rw [List.length_map, hkl]; exact ⟨by omega, hmod⟩)]
    simp only [e1, Option.bind_eq_bind, Option.bind_some, Option.pure_def]
  · rw [programOk_append, o1.len, Nat.zero_add]
    refine ⟨o1.ok, Cbc.gates_ok _ _ _ hout ?_⟩
    intro st hst m hm
    obtain ⟨r, hr, rfl⟩ := List.mem_map.1 hst
    have := b1 r hr
    show r < m
    omega
  · rw [hcalls]
    obtain ⟨kp, l, rfl⟩ : ∃ kp l, kl = kp ++ [l] := by
      rcases List.eq_nil_or_concat kl with h | ⟨a, b, h⟩
      · exact absurd h hk0
      · exact ⟨a, b, by simpa using h⟩
    obtain rfl : l = n := hkn l (by simp)
    have hsplit : kss = (startsAt (8 * nm) kp).map (·.1) ++ [8 * nm + 8 * kp.sum] := by
      rw [← hkss, startsAt_append, List.map_append]
      rfl
    have hsum : (kp ++ [l]).sum = kp.sum + l := by simp
    rw [hsum] at htg hN
    rw [hsplit]
    refine all_argsOk (N := N) hn _ ?_ tg htN ?_ ?_ N (Nat.le_refl _)
    · intro k hk
      obtain ⟨p, hp, rfl⟩ := List.mem_map.1 hk
      obtain ⟨-, h2, h3⟩ := startsAt_mem hp
      rw [hkn p.2 (by simp [h3])] at h2
      exact h2
    · intro x hx
      rw [← htg] at hx
      cases tl with
      | nil => simp [startsAt] at hx
      | cons a tl =>
        simp only [startsAt, List.head?_cons, Option.some.injEq] at hx
        rw [← hx]
        simp only
        omega
    · intro x hx
      rw [← htg] at hx
      cases tl with
      | nil => simp [startsAt] at hx
      | cons a tl =>
        have := (startsAt_mem (by simpa [startsAt] using hx)).1
        have := htn a List.mem_cons_self
        omega
  · have h := ins_keywordLoop _ _ _ _ _ _ _ _ e1
    have h2 : (rs.map Stmt.output).countP Stmt.isInput = 0 := by
      rw [List.countP_eq_zero]
      intro st hst
      obtain ⟨_, -, rfl⟩ := List.mem_map.1 hst
      simp [Stmt.isInput]
    rw [List.countP_append, h2]
    unfold ins at h
    rw [h]
    simp [List.countP_replicate, Stmt.isInput]
  · intro M K T hM hK hT
    generalize hX : bitsOf M ++ (K.map bitsOf).flatten ++ (T.map bitsOf).flatten = X
    have lX : X.length = N := by
      rw [← hX, List.length_append, List.length_append, bitsOf_length, bits_length, bits_length, hM, hK, hT, hN]
    obtain ⟨env, r1, v1⟩ := d1 X X lX (wr X lX)
    rw [plainRun, List.foldl_append, fold_outs _ _ _ (by rw [r1.run]; exact v1), r1.run, List.nil_append]
    have hmodv : (List.range' 0 (8 * nm)).map (fun x => X.getD x false) = bitsOf M := by
      apply List.ext_getElem
      · simp [bitsOf_length, hM]
      · intro i h1 h2
        simp only [List.getElem_map, List.getElem_range', Nat.one_mul, Nat.zero_add]
        rw [← hX, List.append_assoc, getD_left _ _ _ h2, List.getD_eq_getElem?_getD, List.getElem?_eq_getElem h2]
        rfl
    have hkv := lows_texts (bitsOf M) (T.map bitsOf).flatten K
    have htv := lows_texts (bitsOf M ++ (K.map bitsOf).flatten) [] T
    rw [List.length_append, bitsOf_length, bits_length, hM, hK, hT, List.append_nil, htg, hX] at htv
    rw [bitsOf_length, hM, hK, hX] at hkv
    have hkv' : kss.map (fun ks => lows X ks n) = K.map fun d => (d.map byteBits).map (List.take 6) := by
      rw [← hkv, ← hkss, List.map_map]
      apply List.map_congr_left
      intro p hp
      rw [hkn _ (startsAt_mem hp).2.2]
      rfl
    rw [hmodv]
    have e1 : ∀ p : Nat × Nat, (kss.map fun ks => decide (lows X ks n <:+: lows X p.1 p.2)) =
        K.map fun d => decide ((d.map byteBits).map (List.take 6) <:+: lows X p.1 p.2) := by
      intro p
      have := congrArg (List.map fun l => decide (l <:+: lows X p.1 p.2)) hkv'
      simpa only [List.map_map, Function.comp_def] using this
    simp only [e1]
    have e2 := congrArg (List.map fun l => answer (fun i => (bitsOf M).getD i false)
      (K.map fun d => decide ((d.map byteBits).map (List.take 6) <:+: l))) htv
    simp only [List.map_map, Function.comp_def] at e2
    refine (by simpa only [List.map_map, Function.comp_def] using e2 : _ = _).trans ?_
    apply List.map_congr_left
    intro t _
    rw [query]
    congr 1
    · funext i; exact getD_bitsOf M i
    · apply List.map_congr_left
      intro k _
      have := six_found k t
      simpa only [List.map_map, Function.comp_def] using this

/-! ### Distinct circuits -/

theorem keys_comps (n ks t m p i : Nat) (x : Nat × List Nat) :
    x ∈ (compCalls n ks t p i m).map CallRec.key ↔ 0 < m ∧ x = (0, [8 * n, 8 * n]) := by
  induction m generalizing p i with
  | zero => simp [compCalls]
  | succ m ih =>
    rw [compCalls, List.map_cons, List.mem_cons, ih]
    have : CallRec.key ⟨0, [List.range' ks (8 * n), List.range' (t + 8 * i) (8 * n)], p⟩ = (0, [8 * n, 8 * n]) := by
      simp [CallRec.key, CallRec.sizes]
    rw [this]
    constructor
    · rintro (h | h)
      · exact ⟨by omega, h⟩
      · exact ⟨by omega, h.2⟩
    · exact fun h => .inl h.2

theorem keys_loop (n ks e : Nat) (tg : List (Nat × Nat)) (h : ∀ x ∈ tg, n ≤ x.2) (p : Nat) (x : Nat × List Nat) :
    x ∈ (loopCalls n ks e p tg).map CallRec.key ↔
      ∃ t ∈ tg, x = (0, [8 * n, 8 * n]) ∨ x = (1, [t.2 + 1 - n]) := by
  induction tg generalizing p with
  | nil => simp [loopCalls]
  | cons t tg ih =>
    have h0 := h t List.mem_cons_self
    rw [loopCalls, searchCalls, List.map_append, List.map_append, List.mem_append, List.mem_append, keys_comps,
      ih fun y hy => h y (List.mem_cons_of_mem _ hy)]
    simp only [List.mem_cons, exists_eq_or_imp, List.map_cons, List.map_nil, List.not_mem_nil, or_false]
    have : CallRec.key ⟨1, [List.range' p (t.2 + 1 - n)], p + (t.2 + 1 - n)⟩ = (1, [t.2 + 1 - n]) := by
      simp [CallRec.key, CallRec.sizes]
    rw [this]
    have : 0 < t.2 + 1 - n := by omega
    simp only [this, true_and]

theorem keys_all (n : Nat) (kss : List Nat) (tg : List (Nat × Nat)) (h : ∀ x ∈ tg, n ≤ x.2) (p j : Nat)
    (x : Nat × List Nat) :
    x ∈ (allCalls n p j kss tg).map CallRec.key ↔
      kss ≠ [] ∧ ∃ t ∈ tg, x = (0, [8 * n, 8 * n]) ∨ x = (1, [t.2 + 1 - n]) := by
  induction kss generalizing p j with
  | nil => simp [allCalls]
  | cons k kss ih =>
    rw [allCalls, List.map_append, List.mem_append, keys_loop n k _ tg h, ih]
    simp only [ne_eq, reduceCtorEq, not_false_eq_true, true_and]
    exact ⟨fun h => h.elim id fun h => h.2, .inl⟩

theorem keys_dedup (n : Nat) (kss : List Nat) (hk : kss ≠ []) (tg : List (Nat × Nat)) (ht : tg ≠ [])
    (h : ∀ x ∈ tg, n ≤ x.2) (p : Nat) :
    ((allCalls n p 0 kss tg).map CallRec.key).dedup.length = (tg.map (·.2)).dedup.length + 1 := by
  have hinj : Function.Injective fun l : Nat => ((1 : Nat), [l]) := by
    intro a b e
    simpa using e
  have hn1 : (((tg.map (·.2)).dedup.map fun l => l + 1 - n)).Nodup := by
    apply List.Nodup.map_on _ (List.nodup_dedup _)
    intro a ha b hb e
    rw [List.mem_dedup] at ha hb
    obtain ⟨x, hx, rfl⟩ := List.mem_map.1 ha
    obtain ⟨y, hy, rfl⟩ := List.mem_map.1 hb
    have := h x hx
    have := h y hy
    omega
  have hnd : ((((0 : Nat), [8 * n, 8 * n]) :: (((tg.map (·.2)).dedup.map fun l => l + 1 - n).map
      fun l => ((1 : Nat), [l])))).Nodup := by
    rw [List.nodup_cons]
    refine ⟨by simp, hn1.map hinj⟩
  have := ((List.perm_ext_iff_of_nodup (List.nodup_dedup _) hnd).2 (fun x => by
    rw [List.mem_dedup, keys_all n kss tg h]
    simp only [List.mem_cons, List.mem_map, List.mem_dedup, exists_exists_and_eq_and]
    constructor
    · rintro ⟨-, t, htg, h | h⟩
      · exact .inl h
      · exact .inr ⟨t, htg, h.symm⟩
    · rintro (h | ⟨t, htg, h⟩)
      · obtain ⟨y, hy⟩ := List.exists_mem_of_ne_nil tg ht
        exact ⟨hk, y, hy, .inl h⟩
      · exact ⟨hk, t, htg, .inr h.symm⟩)).length_eq
    (l₁ := ((allCalls n p 0 kss tg).map CallRec.key).dedup)
  rw [this]
  simp

/-- Without empty calls, `runMail` is `run`. -/
theorem runMail_eq (n : Nat) (prog : List Stmt) (h : ProgramOk mailFns n prog) (s : St) (vars : List Nat) :
    runMail prog s vars = run mailFns prog s vars := by
  induction prog generalizing n s vars with
  | nil => rfl
  | cons st r ih =>
    obtain ⟨h1, h2⟩ := h
    have : stepMail s vars st = step mailFns s vars st := by
      rw [stepMail]
      intro e
      subst e
      exact h1.1 rfl
    rw [runMail, run, this]
    exact congrArg _ (funext fun p => ih _ h2 p.1 p.2)

/-! ### Theorems -/

/-- **C78.**  Two parties hold shares of a modifier chain, of at least one keyword and of any number of
mails (each mail repeated `dup` times), and both run `priv_mail_search` of the variant with sub-circuits,
starting with a fresh global builder, and execute the resulting circuit: both build the same circuit, and the
outputs, one per mail in order, are shares of the result of the query for that mail.  All keywords need to
have the same length, and no mail may be shorter. -/
theorem privmail_calls_correct_partial (m0 m1 : List Byte) (k0 k1 t0 t1 : List (List Byte)) (dup n : Nat)
    (hm : m1.length = m0.length) (hk : k1.map List.length = k0.map List.length)
    (ht : t1.map List.length = t0.map List.length)
    (hk0 : k0 ≠ []) (hmod : 2 * k0.length - 1 ≤ 8 * m0.length)
    (hn : 0 < n) (hkn : ∀ k ∈ k0, k.length = n) (htn : ∀ t ∈ t0, n ≤ dup * t.length)
    (s : St) (hs : Fresh s) :
    ∃ prog in0 in1 s' vars,
      privMailSc m0 k0 t0 dup = some (prog, in0) ∧ privMailSc m1 k1 t1 dup = some (prog, in1) ∧
      runMail prog s [] = some (s', vars) ∧
      ∀ (setup0 setup1 : Nat → Nat → List Triple),
      (∀ k n, Matching (setup0 k n) (setup1 k n) ∧ n ≤ (setup0 k n).length) →
      ∀ (init0 init1 : Store Bool (List Bool)) (m : Multi BoolGate),
      (∀ i, m.circs[i]? = getCirc (intoCircuit {} s'.mem s'.ptrs) i) →
      m.outgoing = s'.conns.outgoing → m.incoming = s'.conns.incoming →
      ∃ o0 o1, Runs (execute gmw m 0 (.scalar in0) setup0 init0) (execute gmw m 1 (.scalar in1) setup1 init1)
          (.scalar o0) (.scalar o1) ∧
        xorL o0 o1 = (List.zipWith xorBytes t0 t1).map fun t =>
          query (xorBytes m0 m1) (List.zipWith xorBytes k0 k1) (List.replicate dup t).flatten := by
  generalize hT0 : t0.map (fun t => (List.replicate dup t).flatten) = T0
  generalize hT1 : t1.map (fun t => (List.replicate dup t).flatten) = T1
  have hT : T1.map List.length = T0.map List.length := by
    rw [← hT0, ← hT1, dup_lengths, dup_lengths, ht]
  obtain ⟨prog, e, ok, args, hcount, -, hplain⟩ := prog_spec m0.length n (k0.map List.length) (T0.map List.length) hn
    (by simpa using hk0)
    (by
      intro x hx
      obtain ⟨k, hk', rfl⟩ := List.mem_map.1 hx
      exact hkn k hk')
    (by
      intro x hx
      rw [← hT0, dup_lengths, List.map_map] at hx
      obtain ⟨t, ht', rfl⟩ := List.mem_map.1 hx
      exact htn t ht')
    (by simpa using hmod)
  obtain ⟨s', vars, hrun, hexec⟩ := sub_circuit_program_correct_partial mailFns prog ok args s hs
  have hl0 : (t0.map fun t => (List.replicate dup t).flatten.length) = T0.map List.length := by
    rw [← hT0, List.map_map]; rfl
  have hl1 : (t1.map fun t => (List.replicate dup t).flatten.length) = T0.map List.length := by
    rw [← hT, ← hT1, List.map_map]; rfl
  refine ⟨prog, mailInput m0 k0 t0 dup, mailInput m1 k1 t1 dup, s', vars, ?_, ?_, (runMail_eq 0 prog ok s []).trans hrun, ?_⟩
  · simp only [privMailSc, hl0, e, Option.bind_eq_bind, Option.bind_some, Option.pure_def]
  · simp only [privMailSc, hl1, hm, hk, e, Option.bind_eq_bind, Option.bind_some, Option.pure_def]
  · intro setup0 setup1 hset init0 init1 m h1 h2 h3
    have l0 : (mailInput m0 k0 t0 dup).length = prog.countP Stmt.isInput := by
      rw [hcount, mailInput, hT0, List.length_append, List.length_append, bitsOf_length, bits_length, bits_length]
    have l1 : (mailInput m1 k1 t1 dup).length = prog.countP Stmt.isInput := by
      rw [hcount, mailInput, hT1, List.length_append, List.length_append, bitsOf_length, bits_length, bits_length, hT, hm, hk]
    have lx : (xorL (mailInput m0 k0 t0 dup) (mailInput m1 k1 t1 dup)).length = prog.countP Stmt.isInput := by
      simp [xorL, l0, l1]
    have hx : xorL (mailInput m0 k0 t0 dup) (mailInput m1 k1 t1 dup) = bitsOf (xorBytes m0 m1) ++
        ((List.zipWith xorBytes k0 k1).map bitsOf).flatten ++ ((List.zipWith xorBytes T0 T1).map bitsOf).flatten := by
      rw [← bitsOf_xor m0 m1 hm.symm, ← flatten_xor k0 k1 hk.symm, ← flatten_xor T0 T1 hT.symm, mailInput, mailInput, hT0,
        hT1]
      unfold xorL
      rw [List.zipWith_append (by simp only [List.length_append, bitsOf_length, bits_length, hm, hk]),
        List.zipWith_append (by simp only [bitsOf_length, hm])]
    obtain ⟨o0, o1, hr, ho⟩ := hexec (xorL (mailInput m0 k0 t0 dup) (mailInput m1 k1 t1 dup)) _ _ lx (l0.trans lx.symm)
      (l1.trans lx.symm) rfl setup0 setup1 hset init0 init1 m h1 h2 h3
    refine ⟨o0, o1, hr, ?_⟩
    rw [ho, hx, hplain _ _ _ (xorBytes_length m0 m1 hm.symm) (zip_lengths k0 k1 hk.symm)
      (zip_lengths T0 T1 hT.symm), ← hT0, ← hT1, dups_xor dup t0 t1 ht.symm, List.map_map]
    rfl

/-- C78, sharing: the finished circuit stores the main circuit, one comparison and one disjunction per distinct
length of a mail, whatever the number of keywords and mails. -/
theorem privmail_calls_sharing (m : List Byte) (ks ts : List (List Byte)) (dup n : Nat)
    (hk0 : ks ≠ []) (ht0 : ts ≠ []) (hmod : 2 * ks.length - 1 ≤ 8 * m.length)
    (hn : 0 < n) (hkn : ∀ k ∈ ks, k.length = n) (htn : ∀ t ∈ ts, n ≤ dup * t.length) (s : St) (hs : Fresh s) :
    ∃ prog inp s' vars, privMailSc m ks ts dup = some (prog, inp) ∧ runMail prog s [] = some (s', vars) ∧
      (intoCircuit {} s'.mem s'.ptrs).1.length = (ts.map List.length).dedup.length + 2 := by
  have hl : (ts.map fun t => (List.replicate dup t).flatten.length) = (ts.map List.length).map (dup * ·) := by
    rw [← dup_lengths, List.map_map]; rfl
  obtain ⟨prog, e, ok, args, -, hc, -⟩ := prog_spec m.length n (ks.map List.length)
    (ts.map fun t => (List.replicate dup t).flatten.length) hn
    (by simpa using hk0)
    (by
      intro x hx
      obtain ⟨k, hk', rfl⟩ := List.mem_map.1 hx
      exact hkn k hk')
    (by
      intro x hx
      rw [hl, List.map_map] at hx
      obtain ⟨t, ht', rfl⟩ := List.mem_map.1 hx
      exact htn t ht')
    (by simpa using hmod)
  obtain ⟨s', vars, hrun, hlen⟩ := sub_circuit_sharing mailFns prog ok args s hs
  refine ⟨prog, mailInput m ks ts dup, s', vars, ?_, (runMail_eq 0 prog ok s []).trans hrun, ?_⟩
  · simp only [privMailSc, e, Option.bind_eq_bind, Option.bind_some, Option.pure_def]
  · rw [hlen, hc, keys_dedup]
    · rw [startsAt_snd, hl]
      obtain ⟨t, ht'⟩ := List.exists_mem_of_ne_nil ts ht0
      have hdup : 0 < dup := by
        rcases Nat.eq_zero_or_pos dup with h | h
        · have := htn t ht'
          rw [h] at this
          omega
        · exact h
      have : Function.Injective (dup * ·) := fun a b e => Nat.eq_of_mul_eq_mul_left hdup e
      rw [List.dedup_map_of_injective this, List.length_map]
    · intro h
      have := congrArg List.length (startsAt_snd (8 * m.length) (ks.map List.length))
      have h2 := congrArg List.length h
      simp only [List.length_map, List.length_nil] at this h2
      rw [h2] at this
      exact hk0 (List.length_eq_zero_iff.1 this.symm)
    · intro h
      have := startsAt_snd (8 * m.length + 8 * (ks.map List.length).sum)
        (ts.map fun t => (List.replicate dup t).flatten.length)
      rw [h] at this
      exact ht0 (List.map_eq_nil_iff.1 this.symm)
    · intro x hx
      have := (startsAt_mem hx).2.2
      rw [hl, List.map_map] at this
      obtain ⟨t, ht', e'⟩ := List.mem_map.1 this
      rw [← e']
      exact htn t ht'

end Verif.Mail
