import Verif.Cbc.CallProg

/-!
C70: the AES-CBC example with the cipher as a shared sub-circuit.
-/
set_option autoImplicit false

namespace Verif.Cbc

open Circuit Gmw Macro Exec Proc

section

variable {b : Parse.Circuit} {bs p0 : Nat} {file : List Char}

theorem zip_range (d c n : Nat) (F : Fns) :
    (((List.range' d n).zip (List.range' c n)).map fun p => ((BoolGate.xor, [p.1, p.2]) : Op)) =
      mainOps F (xorStmts n d c) := by
  apply List.ext_getElem
  · rw [mainOps_xor]; simp
  · intro i h1 h2
    simp only [mainOps, xorStmts, List.flatMap_map, Stmt.ops, List.flatMap_singleton']
    simp [← List.map_eq_flatMap]

theorem out_ops (n m : Nat) (F : Fns) :
    ((List.range' n m).map fun a => ((BoolGate.base .output, [a]) : Op)) = mainOps F (outStmts m n) := by
  apply List.ext_getElem
  · rw [mainOps_out]; simp
  · intro i h1 h2
    simp only [mainOps, outStmts, List.flatMap_map, Stmt.ops]
    simp [← List.map_eq_flatMap]

theorem in_ops (n : Nat) (F : Fns) :
    List.replicate n ((BoolGate.base .input, []) : Op) = mainOps F (inStmts n) := by
  induction n with
  | zero => rfl
  | succ n ih =>
    rw [List.replicate_succ, ih]
    simp [mainOps, inStmts, List.replicate_succ, Stmt.ops]

theorem sim_chunk (hbs : 0 < bs) (hfile : Parse.circuit file = some b) (ok : Parse.BristolOk b)
    (hin : b.totalInputs = bs + bs) (hout : b.totalOutputs = bs) {done : List Stmt} {s : Sc}
    (h : Sim b bs p0 done s) (n d c : Nat) (hn : (mainOps (fun _ _ => cipherBody b) done).length = n)
    (hd : d + bs ≤ n) (hc : c + bs ≤ n) (hcon : Connects b (done ++ blockStmts bs n d c)) :
    ∃ s', s.chunk file (List.range' 0 bs) (List.range' d bs) (List.range' c bs) =
        some (s', List.range' (n + bs) bs) ∧ Sim b bs p0 (done ++ blockStmts bs n d c) s' := by
  rw [blockStmts, ← List.append_assoc, ← List.append_assoc] at hcon
  obtain ⟨s1, e1, h1⟩ := sim_gates (xorStmts bs d c) h (xorStmts_gates d c)
    (by rw [hn]; exact xors_ok _ _ _ _ hd hc) hcon.prefix.prefix
  have hn1 : (mainOps (fun _ _ => cipherBody b) (done ++ xorStmts bs d c)).length = n + bs := by
    rw [mainOps_append, List.length_append, hn, mainOps_xor]
  rw [hn, show (xorStmts bs d c).length = bs by simp [xorStmts]] at e1
  obtain ⟨s2, e2, h2⟩ := sim_cipher hfile ok hin hout h1 (List.range' n bs) (List.range' 0 bs) (by simp) (by simp)
    (by rw [hn1]; exact call_ok hbs ok hin n _ (Nat.le_refl _)) hcon.prefix
  have hn2 : (mainOps (fun _ _ => cipherBody b) (done ++ xorStmts bs d c ++
      [.call 0 [List.range' n bs, List.range' 0 bs]])).length = n + bs + bs := by
    rw [mainOps_append, List.length_append, hn1, mainOps_call ok hout]
  obtain ⟨s3, e3, h3⟩ := sim_gates (outStmts bs (n + bs)) h2 (outStmts_gates _)
    (by rw [hn2]; exact outs_ok _ _ _ (Nat.le_refl _)) hcon
  refine ⟨s3, ?_, by rw [blockStmts, ← List.append_assoc, ← List.append_assoc]; exact h3⟩
  rw [hn1] at e2
  unfold Sc.chunk
  rw [zip_range d c bs (fun _ _ => cipherBody b), e1]
  simp only [Option.bind_eq_bind, Option.bind_some, e2, List.length_range', if_true,
    out_ops _ _ (fun _ _ => cipherBody b), e3, Option.pure_def]

theorem sim_chunks (hbs : 0 < bs) (hfile : Parse.circuit file = some b) (ok : Parse.BristolOk b)
    (hin : b.totalInputs = bs + bs) (hout : b.totalOutputs = bs) (k : Nat) {done : List Stmt} {s : Sc}
    (h : Sim b bs p0 done s) (n d c : Nat) (hn : (mainOps (fun _ _ => cipherBody b) done).length = n)
    (hd : d + k * bs ≤ n) (hc : c + bs ≤ n) (hcon : Connects b (done ++ blocks bs k n d c)) :
    ∃ s' l, Sc.chunks file (List.range' 0 bs) s (List.range' c bs) (chunksOf bs k (List.range' d (k * bs))) =
        some (s', l) ∧ Sim b bs p0 (done ++ blocks bs k n d c) s' := by
  induction k generalizing done s n d c with
  | zero => exact ⟨s, _, rfl, by simpa [blocks] using h⟩
  | succ k ih =>
    rw [Nat.add_mul, Nat.one_mul] at hd
    rw [blocks, ← List.append_assoc] at hcon
    obtain ⟨s1, e1, h1⟩ := sim_chunk hbs hfile ok hin hout h n d c hn (by omega) hc hcon.prefix
    obtain ⟨s2, l, e2, h2⟩ := ih h1 (n + bs + bs + bs) (d + bs) (n + bs)
      (by rw [mainOps_append, List.length_append, hn, mainOps_block ok hout]; omega) (by omega) (by omega) hcon
    refine ⟨s2, l, ?_, by rw [blocks, ← List.append_assoc]; exact h2⟩
    have hsplit : List.range' d ((k + 1) * bs) = List.range' d bs ++ List.range' (d + bs) (k * bs) := by
      rw [List.range'_append_1, Nat.add_mul, Nat.one_mul, Nat.add_comm]
    rw [chunksOf, hsplit, List.take_left' (by simp), List.drop_left' (by simp)]
    simp only [Sc.chunks, e1, Option.bind_eq_bind, Option.bind_some, e2]

theorem count_inputs (bs k : Nat) : (encProg bs k).countP Stmt.isInput = bs + bs + k * bs := by
  have h0 : ∀ k n d c, (blocks bs k n d c).countP Stmt.isInput = 0 := by
    intro k
    induction k with
    | zero => intro n d c; rfl
    | succ k ih =>
      intro n d c
      rw [blocks, List.countP_append, ih, blockStmts, List.countP_append, List.countP_append]
      have h1 : (xorStmts bs d c).countP Stmt.isInput = 0 := by
        rw [List.countP_eq_zero]
        intro st hst
        obtain ⟨_, -, rfl⟩ := List.mem_map.1 hst
        simp [Stmt.isInput]
      have h2 : (outStmts bs (n + bs)).countP Stmt.isInput = 0 := by
        rw [List.countP_eq_zero]
        intro st hst
        obtain ⟨_, -, rfl⟩ := List.mem_map.1 hst
        simp [Stmt.isInput]
      rw [h1, h2]
      rfl
  have hi : ∀ m, (inStmts m).countP Stmt.isInput = m := by
    intro m
    rw [inStmts, List.countP_replicate]
    rfl
  rw [encProg, List.countP_append, List.countP_append, List.countP_append, h0, hi, hi]
  rfl

/-- Nothing was built so far. -/
structure Start (s : Sc) : Prop where
  fresh : Fresh s.st
  aes : s.aes = none

theorem sim_start (b : Parse.Circuit) (bs : Nat) {s : Sc} (h : Start s) : ∃ p0, Sim b bs p0 [] s := by
  obtain ⟨p0, hi⟩ := inv_start (fun _ _ => cipherBody b) s.st h.fresh
  exact ⟨p0, s.st, hi, rfl, rfl, rfl, by rw [h.aes, h.fresh.cache]; rfl⟩

theorem enc_connects (hbs : 0 < bs) (ok : Parse.BristolOk b) (hout : b.totalOutputs = bs) (k : Nat) :
    Connects b (encProg bs k) := by
  have hargs : ArgsOk (calls (fun _ _ => cipherBody b) 0 (encProg bs k)) := by
    rw [calls_enc ok hout]; exact argsOk_blocks hbs _ _ (by omega)
  obtain ⟨x, hx, -, -⟩ := connect_calls_partial _ (conns_ok _ 1 _ hargs)
    (sources_ok _ 1 (by omega) _ hargs.nested) (once_from (fun _ _ => cipherBody b) 1 0 (by omega) (encProg bs k)).1
  exact ⟨x, hx⟩

theorem sim_enc (hbs : 0 < bs) (hfile : Parse.circuit file = some b) (ok : Parse.BristolOk b)
    (hin : b.totalInputs = bs + bs) (hout : b.totalOutputs = bs) (k : Nat) {s : Sc} (h : Start s) :
    ∃ p0 s', s.buildEnc file bs (k * bs) = some s' ∧ Sim b bs p0 (encProg bs k) s' := by
  obtain ⟨p0, h0⟩ := sim_start b bs h
  have hcon := enc_connects hbs ok hout k
  have hcon' := hcon
  rw [encProg] at hcon
  obtain ⟨s1, e1, h1⟩ := sim_gates (inStmts bs) h0 (inStmts_gates _) (ins_ok _ _ _)
    (by simpa using hcon.prefix.prefix.prefix)
  rw [List.nil_append] at h1
  obtain ⟨s2, e2, h2⟩ := sim_gates (inStmts bs) h1 (inStmts_gates _) (ins_ok _ _ _) hcon.prefix.prefix
  obtain ⟨s3, e3, h3⟩ := sim_gates (inStmts (k * bs)) h2 (inStmts_gates _) (ins_ok _ _ _) hcon.prefix
  have hl2 : (mainOps (fun _ _ => cipherBody b) (inStmts bs ++ inStmts bs)).length = bs + bs := by
    rw [mainOps_append, List.length_append, mainOps_in]
  have hl3 : (mainOps (fun _ _ => cipherBody b) (inStmts bs ++ inStmts bs ++ inStmts (k * bs))).length =
      bs + bs + k * bs := by
    rw [mainOps_append, List.length_append, hl2, mainOps_in]
  have hlen : ∀ m, (inStmts m).length = m := by intro m; simp [inStmts]
  rw [mainOps_in, hlen] at e2
  rw [hl2, hlen] at e3
  rw [show (mainOps (fun _ _ => cipherBody b) []).length = 0 from rfl, hlen] at e1
  obtain ⟨s4, l, e4, h4⟩ := sim_chunks hbs hfile ok hin hout k h3 _ (bs + bs) bs hl3 (Nat.le_refl _) (by omega) hcon
  refine ⟨p0, s4, ?_, h4⟩
  have hq : chunksExact bs (List.range' (bs + bs) (k * bs)) = chunksOf bs k (List.range' (bs + bs) (k * bs)) := by
    rw [chunksExact, List.length_range', Nat.mul_div_cancel _ hbs]
  rw [Sc.buildEnc, if_pos (Nat.mul_mod_left _ _)]
  simp only [Sc.inputs, in_ops _ (fun _ _ => cipherBody b), e1, e2, e3, Option.bind_eq_bind, Option.bind_some, hq,
    e4, Option.pure_def]

theorem key_blocks (k n : Nat) : ((blockCalls bs (k + 1) n).map CallRec.key).dedup.length = 1 := by
  have : ∀ k n, ∀ x ∈ (blockCalls bs k n).map CallRec.key, x = (0, [bs, bs]) := by
    intro k
    induction k with
    | zero => intro n x hx; simp [blockCalls] at hx
    | succ k ih =>
      intro n x hx
      rw [blockCalls, List.map_cons, List.mem_cons] at hx
      rcases hx with rfl | hx
      · simp [CallRec.key, CallRec.sizes]
      · exact ih _ x hx
  have hall := this (k + 1) n
  have hlen : (blockCalls bs (k + 1) n).map CallRec.key ≠ [] := by simp [blockCalls]
  generalize (blockCalls bs (k + 1) n).map CallRec.key = l at hall hlen
  have hnd := List.nodup_dedup l
  have hmem : ∀ x ∈ l.dedup, x = (0, [bs, bs]) := fun x hx => hall x (List.mem_dedup.1 hx)
  have hne : l.dedup ≠ [] := by
    obtain ⟨y, hy⟩ := List.exists_mem_of_ne_nil l hlen
    intro he
    have := List.mem_dedup.2 hy
    rw [he] at this
    cases this
  generalize l.dedup = m at hnd hmem hne
  match m, hnd, hmem, hne with
  | [x], _, _, _ => rfl
  | x :: y :: r, hnd, hmem, _ =>
    have h1 := hmem x (by simp)
    have h2 := hmem y (by simp)
    rw [h1, h2] at hnd
    simp at hnd

end

/-! ### Theorems -/

/-- **C70.** The variant with a sub-circuit encrypts like the inlined one: for any block cipher
circuit, any number of blocks and any shares, the program does not panic, and the finished circuit, executed by both
parties, outputs shares of the ciphertext blocks of cipher block chaining. -/
theorem aes_cbc_calls_correct (file : List Char) (b : Parse.Circuit) (hfile : Parse.circuit file = some b)
    (ok : Parse.BristolOk b) (bs : Nat) (hbs : 0 < bs) (hin : b.totalInputs = bs + bs)
    (hout : b.totalOutputs = bs) (s : Sc) (hs : Start s)
    (k0 k1 iv0 iv1 : List Bool) (d0 d1 : List (List Bool))
    (hk0 : k0.length = bs) (hk1 : k1.length = bs) (hi0 : iv0.length = bs) (hi1 : iv1.length = bs)
    (hd : d1.length = d0.length) (hd0 : ∀ x ∈ d0, x.length = bs) (hd1 : ∀ x ∈ d1, x.length = bs)
    (setup0 setup1 : Nat → Nat → List Triple)
    (hset : ∀ k n, Matching (setup0 k n) (setup1 k n) ∧ n ≤ (setup0 k n).length)
    (init0 init1 : Store Bool (List Bool)) :
    ∃ s', s.buildEnc file bs (d0.length * bs) = some s' ∧
      ∀ (m : Multi BoolGate),
      (∀ i, m.circs[i]? = getCirc (intoCircuit {} s'.st.mem s'.st.ptrs) i) →
      m.outgoing = s'.st.conns.outgoing → m.incoming = s'.st.conns.incoming →
      ∃ o0 o1, Runs (execute gmw m 0 (.scalar (k0 ++ iv0 ++ d0.flatten)) setup0 init0)
          (execute gmw m 1 (.scalar (k1 ++ iv1 ++ d1.flatten)) setup1 init1)
          (.scalar o0) (.scalar o1) ∧
        xorL o0 o1 = (cbc (fun x k => b.eval (x ++ k)) (xorL k0 k1) (xorL iv0 iv1)
          (List.zipWith xorL d0 d1)).flatten := by
  obtain ⟨p0, s', e, t, hinv, hr⟩ := sim_enc hbs hfile ok hin hout d0.length hs
  have hargs : ArgsOk (calls (fun _ _ => cipherBody b) 0 (encProg bs d0.length)) := by
    rw [calls_enc ok hout]; exact argsOk_blocks hbs _ _ (by omega)
  refine ⟨s', e, ?_⟩
  intro m hm ho hi
  have hmem : s'.st.mem = t.mem := by funext p; simp [St.mem, hr.heap]
  rw [hmem, hr.ptrs] at hm
  rw [hr.conns] at ho hi
  have hx : xorL (k0 ++ iv0 ++ d0.flatten) (k1 ++ iv1 ++ d1.flatten) =
      xorL k0 k1 ++ xorL iv0 iv1 ++ (List.zipWith xorL d0 d1).flatten := by
    unfold xorL
    rw [List.zipWith_append (by simp [hk0, hk1, hi0, hi1]), List.zipWith_append (by simp [hk0, hk1])]
    congr 1
    clear hm ho hi hr hinv e hargs
    induction d0 generalizing d1 with
    | nil =>
      have : d1 = [] := List.length_eq_zero_iff.1 hd
      subst this
      rfl
    | cons x d0 ih =>
      cases d1 with
      | nil => simp at hd
      | cons y d1 =>
        simp only [List.flatten_cons, List.zipWith_cons_cons]
        rw [List.zipWith_append (by rw [hd0 x List.mem_cons_self, hd1 y List.mem_cons_self]),
          ih d1 (by simpa using hd) (fun z hz => hd0 z (List.mem_cons_of_mem _ hz))
            (fun z hz => hd1 z (List.mem_cons_of_mem _ hz))]
  have hdx : ∀ x ∈ List.zipWith xorL d0 d1, x.length = bs := by
    intro x hx'
    obtain ⟨i, hi, rfl⟩ := List.getElem_of_mem hx'
    simp only [List.length_zipWith] at hi
    rw [List.getElem_zipWith, xorL, List.length_zipWith, hd0 _ (List.getElem_mem _),
      hd1 _ (List.getElem_mem _), Nat.min_self]
  have hdl : (List.zipWith xorL d0 d1).length = d0.length := by simp [hd]
  have l0 : (k0 ++ iv0 ++ d0.flatten).length = bs + bs + d0.length * bs := by
    simp only [List.length_append, hk0, hi0, flatten_len d0 hd0]
  have l1 : (k1 ++ iv1 ++ d1.flatten).length = bs + bs + d0.length * bs := by
    simp only [List.length_append, hk1, hi1, flatten_len d1 hd1, hd]
  have lx : (xorL (k0 ++ iv0 ++ d0.flatten) (k1 ++ iv1 ++ d1.flatten)).length = bs + bs + d0.length * bs := by
    simp only [xorL, List.length_zipWith, l0, l1, Nat.min_self]
  obtain ⟨o0, o1, h1, h2⟩ := correct_of_inv (enc_ok hbs ok hin hout d0.length) hargs hinv _ _ _
    (lx.trans (count_inputs bs d0.length).symm) (l0.trans lx.symm) (l1.trans lx.symm) rfl setup0 setup1 hset
    init0 init1 m hm ho hi
  refine ⟨o0, o1, h1, ?_⟩
  rw [h2, hx]
  have := plain_enc ok hin hout (xorL k0 k1) (xorL iv0 iv1) (List.zipWith xorL d0 d1) (by simp [xorL, hk0, hk1])
    (by simp [xorL, hi0, hi1]) hdx
  rw [hdl] at this
  exact this

/-- C70, sharing: whatever the number of blocks, the finished circuit stores the cipher once, next to the main circuit. -/
theorem aes_cbc_calls_sharing (file : List Char) (b : Parse.Circuit) (hfile : Parse.circuit file = some b)
    (ok : Parse.BristolOk b) (bs : Nat) (hbs : 0 < bs) (hin : b.totalInputs = bs + bs)
    (hout : b.totalOutputs = bs) (s : Sc) (hs : Start s) (k : Nat) (hk : 0 < k) :
    ∃ s', s.buildEnc file bs (k * bs) = some s' ∧
      (intoCircuit {} s'.st.mem s'.st.ptrs).1.length = 2 ∧ s'.st.ptrs.length = k + 1 := by
  obtain ⟨p0, s', e, t, hinv, hr⟩ := sim_enc hbs hfile ok hin hout k hs
  refine ⟨s', e, ?_, ?_⟩
  · have hmem : s'.st.mem = t.mem := by funext p; simp [St.mem, hr.heap]
    obtain ⟨k, rfl⟩ : ∃ j, k = j + 1 := ⟨k - 1, by omega⟩
    rw [(into_circuit_keeps_table _ _ _).2, hr.ptrs, ptrs_dedup hinv, calls_enc ok hout, key_blocks]
  · rw [hr.ptrs, hinv.ptrs, calls_enc ok hout]
    have : ∀ k n, (blockCalls bs k n).length = k := by
      intro k
      induction k with
      | zero => intro n; rfl
      | succ k ih => intro n; simp [blockCalls, ih]
    simp [this]

/-! ### A second circuit -/

/-- The static was emptied. -/
structure Stale (p : Nat) (s : Sc) : Prop where
  aes : s.aes = some p
  empty : s.st.heap[p]? = some {}
  main : ∃ q, s.st.ptrs = [q] ∧ q ≠ p

theorem stale_gate {p : Nat} {s s' : Sc} {o : Op} {id : Nat} (h : Stale p s) (e : s.gate o = some (s', id)) :
    Stale p s' := by
  obtain ⟨q, hq, hne⟩ := h.main
  simp only [Sc.gate, Option.bind_eq_bind, Option.bind_eq_some_iff, St.setCirc, hq] at e
  obtain ⟨c, -, ⟨c', i⟩, -, st, ⟨q', hq', e2⟩, e3⟩ := e
  simp only [List.getElem?_cons_zero, Option.some.injEq] at hq'
  subst hq'
  simp only [Option.pure_def, Option.some.injEq] at e2
  subst e2
  simp only [Option.pure_def, Option.some.injEq, Prod.mk.injEq] at e3
  obtain ⟨rfl, -⟩ := e3
  refine ⟨h.aes, ?_, q, rfl, hne⟩
  simp only
  rw [List.getElem?_set_ne hne]
  exact h.empty

theorem stale_gates {p : Nat} (ops : List Op) {s s' : Sc} {ids : List Nat} (h : Stale p s)
    (e : mapS Sc.gate s ops = some (s', ids)) : Stale p s' ∧ ids.length = ops.length := by
  induction ops generalizing s ids with
  | nil =>
    simp only [mapS, Option.some.injEq, Prod.mk.injEq] at e
    obtain ⟨rfl, rfl⟩ := e
    exact ⟨h, rfl⟩
  | cons o ops ih =>
    simp only [mapS, Option.bind_eq_bind, Option.bind_eq_some_iff] at e
    obtain ⟨⟨s1, y⟩, e1, ⟨s2, ys⟩, e2, e3⟩ := e
    simp only [Option.pure_def, Option.some.injEq, Prod.mk.injEq] at e3
    obtain ⟨rfl, rfl⟩ := e3
    obtain ⟨h1, h2⟩ := ih (stale_gate h e1) e2
    exact ⟨h1, by simp [h2]⟩

theorem stale_cipher {p : Nat} {s s' : Sc} {file : List Char} {key chunk ids : List Nat} (h : Stale p s)
    (e : s.cipher file key chunk = some (s', ids)) : ids = [] := by
  obtain ⟨q, hq, hne⟩ := h.main
  simp only [Sc.cipher, Sc.circuit, h.aes, Option.bind_eq_bind, Option.bind_some, Option.bind_eq_some_iff, hq] at e
  obtain ⟨c, hc, x, -, ⟨st, is⟩, e2, e3⟩ := e
  have : c = {} := by
    simp [St.circ, h.empty] at hc
    exact hc.symm
  subst this
  simp only [Option.pure_def, Option.some.injEq, Prod.mk.injEq] at e3
  obtain ⟨-, rfl⟩ := e3
  simp only [St.connectToMain, Option.bind_eq_bind, Option.bind_eq_some_iff] at e2
  obtain ⟨c', -, st', -, x', -, e4⟩ := e2
  simp only [Option.pure_def, Option.some.injEq, Prod.mk.injEq] at e4
  exact e4.2.symm

/-- C70, negative: once a circuit was finished with `global_into_circuit`, the static `AES_CIRC` is empty, and building a
second circuit in the same process panics. -/
theorem aes_cbc_calls_second_build_panics (file : List Char) (b : Parse.Circuit)
    (hfile : Parse.circuit file = some b) (ok : Parse.BristolOk b) (bs : Nat) (hbs : 0 < bs)
    (hin : b.totalInputs = bs + bs) (hout : b.totalOutputs = bs) (s : Sc) (hs : Start s) (k l : Nat) (hk : 0 < k)
    (hl : 0 < l) :
    ∃ s', s.buildEnc file bs (k * bs) = some s' ∧ s'.globalIntoCircuit.buildEnc file bs (l * bs) = none := by
  obtain ⟨p0, s', e, t, hinv, hr⟩ := sim_enc hbs hfile ok hin hout k hs
  refine ⟨s', e, ?_⟩
  obtain ⟨p, hst⟩ : ∃ p, Stale p s'.globalIntoCircuit := by
    obtain ⟨k, rfl⟩ : ∃ j, k = j + 1 := ⟨k - 1, by omega⟩
    have hmem : (⟨0, [List.range' (bs + bs + (k + 1) * bs) bs, List.range' 0 bs], bs + bs + (k + 1) * bs + bs⟩ : CallRec) ∈
        calls (fun _ _ => cipherBody b) 0 (encProg bs (k + 1)) := by
      rw [calls_enc ok hout, blockCalls]; exact List.mem_cons_self
    obtain ⟨⟨p, ret⟩, he⟩ := hinv.cached _ hmem
    have hin' : p ∈ t.ptrs := by
      rw [hinv.ptrs]
      refine List.mem_cons_of_mem _ (List.mem_map.2 ⟨_, hmem, ?_⟩)
      rw [he]; rfl
    simp only [CallRec.sizes, List.map_cons, List.map_nil, List.length_range'] at he
    obtain ⟨-, ⟨c, hc, -⟩, -⟩ := hinv.entry _ _ _ _ he
    have hlt := (List.getElem?_eq_some_iff.1 hc).1
    refine ⟨p, ?_, ?_, s'.st.heap.length, rfl, ?_⟩
    · simp [Sc.globalIntoCircuit, hr.aes, he]
    · simp only [Sc.globalIntoCircuit, St.globalIntoCircuit, taken, hr.heap, hr.ptrs]
      rw [List.getElem?_append_left (by simpa using hlt), List.getElem?_map, List.getElem?_range hlt]
      simp [hin']
    · rw [hr.heap]; omega
  generalize s'.globalIntoCircuit = u at hst
  cases hres : u.buildEnc file bs (l * bs) with
  | none => rfl
  | some v =>
    exfalso
    rw [Sc.buildEnc, if_pos (Nat.mul_mod_left _ _)] at hres
    simp only [Option.bind_eq_bind, Option.bind_eq_some_iff, Sc.inputs] at hres
    obtain ⟨⟨u1, key⟩, e1, ⟨u2, iv⟩, e2, ⟨u3, dat⟩, e3, ⟨u4, ch⟩, e4, -⟩ := hres
    obtain ⟨h1, -⟩ := stale_gates _ hst e1
    obtain ⟨h2, hiv⟩ := stale_gates _ h1 e2
    obtain ⟨h3, hdat⟩ := stale_gates _ h2 e3
    rw [List.length_replicate] at hdat hiv
    obtain ⟨j, rfl⟩ : ∃ j, l = j + 1 := ⟨l - 1, by omega⟩
    rw [chunksExact, hdat, Nat.mul_div_cancel _ hbs, chunksOf] at e4
    simp only [Sc.chunks, Sc.chunk, Option.bind_eq_bind, Option.bind_eq_some_iff] at e4
    obtain ⟨⟨u5, w⟩, ⟨⟨u6, x⟩, e5, ⟨u7, y⟩, e6, e7⟩, -⟩ := e4
    obtain ⟨h6, -⟩ := stale_gates _ h3 e5
    have := stale_cipher h6 e6
    subst this
    rw [if_neg (by simp only [List.length_nil]; omega)] at e7
    cases e7

/-- The state of the program when it starts. -/
def scStart : Sc := ⟨⟨[{}], [0], {}, [], fun _ _ => none, false⟩, none⟩

/-- The hypotheses are met (those on `toy` were shown above): three blocks, four circuits, two of them stored. -/
example : Start scStart ∧
    ((scStart.buildEnc toyFile 2 6).map fun s => (s.st.ptrs, s.st.heap.map fun c => c.gates.length)) =
      some ([0, 1, 1, 1], [28, 9]) := by
  refine ⟨⟨⟨⟨[], rfl, rfl⟩, rfl, fun _ _ => rfl, rfl⟩, rfl⟩, by decide +kernel⟩

end Verif.Cbc
