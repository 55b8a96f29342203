import Verif.Cbc.Loop

/-!
C67: the AES-CBC example encrypts in cipher block chaining mode, for any block cipher circuit.
-/
set_option autoImplicit false

namespace Verif.Cbc

open Circuit Gmw Secret Exec Mail Proc

/-! ### Chunks -/

theorem chunksOf_map {α β : Type} (f : α → β) (n k : Nat) (l : List α) :
    (chunksOf n k l).map (List.map f) = chunksOf n k (l.map f) := by
  induction k generalizing l with
  | zero => rfl
  | succ k ih => simp [chunksOf, ih, List.map_take, List.map_drop]

theorem chunksOf_flatten {α : Type} (n : Nat) (d : List (List α)) (h : ∀ x ∈ d, x.length = n) :
    chunksOf n d.length d.flatten = d := by
  induction d with
  | nil => rfl
  | cons x d ih =>
    have hx := h x List.mem_cons_self
    simp only [List.length_cons, chunksOf, List.flatten_cons]
    rw [List.take_left' hx, List.drop_left' hx, ih fun y hy => h y (List.mem_cons_of_mem _ hy)]

theorem chunksOf_mem {α : Type} (n k : Nat) (l : List α) (h : k * n ≤ l.length) :
    ∀ ch ∈ chunksOf n k l, ch.length = n ∧ ∀ t ∈ ch, t ∈ l := by
  induction k generalizing l with
  | zero => simp [chunksOf]
  | succ k ih =>
    rw [Nat.add_mul, Nat.one_mul] at h
    intro ch hch
    simp only [chunksOf, List.mem_cons] at hch
    rcases hch with rfl | hch
    · exact ⟨by simp; omega, fun t ht => List.mem_of_mem_take ht⟩
    · obtain ⟨h1, h2⟩ := ih (l.drop n) (by simp; omega) ch hch
      exact ⟨h1, fun t ht => List.mem_of_mem_drop (h2 t ht)⟩

theorem chunksOf_length {α : Type} (n k : Nat) (l : List α) : (chunksOf n k l).length = k := by
  induction k generalizing l with
  | zero => rfl
  | succ k ih => simp [chunksOf, ih]

/-! ### The circuit -/

theorem positions_countP (p : BoolGate → Bool) (gs : List BoolGate) :
    (positions p gs).length = gs.countP p := by
  induction gs using List.reverseRecOn with
  | nil => rfl
  | append_singleton gs y ih =>
    rw [positions_append, List.length_append, ih, List.countP_append, List.countP_singleton]
    split <;> simp

/-- What `build_enc_circuit` builds. -/
theorem enc_built {file : List Char} {b : Parse.Circuit} (hfile : Parse.circuit file = some b)
    (ok : Parse.BristolOk b) {bs : Nat} (hbs : 0 < bs) (hin : b.totalInputs = bs + bs)
    (hout : b.totalOutputs = bs) (n : Nat) :
    ∃ c, buildEnc file bs [({} : Base _)] (n * bs) = some [c] ∧ BaseOk c ∧ c.simdSize = none ∧
      c.inputGates.length = bs + bs + n * bs ∧
      c.gates.countP (· = .and) = n * andGates b ∧
      ∀ (k iv : List Bool) (d : List (List Bool)), k.length = bs → iv.length = bs → d.length = n →
        (∀ x ∈ d, x.length = bs) →
        plainFn c (k ++ iv ++ d.flatten) = (cbc (fun x k => b.eval (x ++ k)) k iv d).flatten := by
  generalize hN : bs + bs + n * bs = N
  have ok0 : BaseOk ({} : Base BoolGate) := by
    refine ⟨?_, ?_, ?_, ⟨rfl, rfl, rfl, rfl, rfl⟩⟩
    · intro e he; simp at he
    · intro i g hg; simp at hg
    · intro i g hg; simp at hg
  obtain ⟨ok1, s1⟩ := addInputs_ok ok0 N
  have e0 : inputs [({} : Base BoolGate)] bs = some ([addInputs ({} : Base _) bs],
      (List.range bs).map fun i => (0, i)) := by
    rw [inputs_eq]
    simp
  have hg : ∀ m, (addInputs ({} : Base BoolGate) m).gates.length = m := by
    intro m; rw [addInputs_gates]; simp
  have e1 : inputs [addInputs ({} : Base BoolGate) bs] bs =
      some ([addInputs ({} : Base _) (bs + bs)], (List.range bs).map fun i => (0, bs + i)) := by
    rw [inputs_eq, addInputs_add, hg]
  have e2 : inputs [addInputs ({} : Base BoolGate) (bs + bs)] (n * bs) =
      some ([addInputs ({} : Base _) N], (List.range (n * bs)).map fun i => (0, bs + bs + i)) := by
    rw [inputs_eq, addInputs_add, hg, hN]
  have g1 : (addInputs ({} : Base BoolGate) N).gates = List.replicate N (.base .input) := by
    rw [addInputs_gates]; rfl
  generalize addInputs ({} : Base BoolGate) N = c1 at ok1 s1 e2 g1
  have hval : ∀ s : Sec, s.1 = 0 → s.2 < N → Valid [c1] s ∧ s.1 = 0 := by
    intro s h1 h2
    exact ⟨⟨c1, by rw [h1]; rfl, by rw [g1]; simpa using h2⟩, h1⟩
  generalize hkey : ((List.range bs).map fun i => ((0, i) : Sec)) = key at e0
  generalize hiv : ((List.range bs).map fun i => ((0, bs + i) : Sec)) = iv' at e1
  generalize hdat : ((List.range (n * bs)).map fun i => ((0, bs + bs + i) : Sec)) = dat at e2
  have hk : ∀ t ∈ key, Valid [c1] t ∧ t.1 = 0 := by
    intro t ht
    rw [← hkey] at ht
    obtain ⟨i, hi, rfl⟩ := List.mem_map.1 ht
    have := List.mem_range.1 hi
    exact hval _ rfl (by simp only; omega)
  have hv : ∀ t ∈ iv', Valid [c1] t ∧ t.1 = 0 := by
    intro t ht
    rw [← hiv] at ht
    obtain ⟨i, hi, rfl⟩ := List.mem_map.1 ht
    have := List.mem_range.1 hi
    exact hval _ rfl (by simp only; omega)
  have hdv : ∀ t ∈ dat, Valid [c1] t ∧ t.1 = 0 := by
    intro t ht
    rw [← hdat] at ht
    obtain ⟨i, hi, rfl⟩ := List.mem_map.1 ht
    have := List.mem_range.1 hi
    exact hval _ rfl (by simp only; omega)
  have ldat : dat.length = n * bs := by rw [← hdat]; simp
  have hq : dat.length / bs = n := by rw [ldat]; exact Nat.mul_div_cancel _ hbs
  obtain ⟨c, fin, ids, e3, st⟩ := chunks_step hfile ok hin hout (key := key) (by rw [← hkey]; simp)
    (chunksExact bs dat) ok1 (by rw [g1]; simp; omega) hk
    (by
      intro ch hch
      rw [chunksExact, hq] at hch
      obtain ⟨q1, q2⟩ := chunksOf_mem bs n dat (by omega) ch hch
      exact ⟨q1, fun t ht => hdv t (q2 t ht)⟩)
    (holdsL_self hv) (by rw [← hiv]; simp)
  obtain ⟨gs, hgs, hni⟩ := st.inputs
  have hsimd : c.simdSize = none := by
    obtain ⟨c', hc', -, -, h, -⟩ := st.ext.circ 0 c1 rfl
    rw [Option.some.inj hc', h, s1]
  have hz : gs.countP (fun g => decide (g = .base .input)) = 0 := by
    rw [List.countP_eq_zero]
    intro g hg
    simpa using hni g hg
  refine ⟨c, ?_, st.ok, hsimd, ?_, ?_, ?_⟩
  · rw [buildEnc, if_pos (Nat.mul_mod_left _ _)]
    simp only [e0, e1, e2, e3, Option.bind_eq_bind, Option.bind_some, Option.pure_def]
  · rw [input_pos c st.ok.book, positions_countP, hgs, List.countP_append, hz, g1]
    simp [List.countP_replicate]
  · have h := st.ands
    rw [chunksExact, hq, chunksOf_length] at h
    have z : andCount [c1] = 0 := by
      simp only [andCount, List.map_cons, List.map_nil, List.sum_cons, List.sum_nil, g1]
      simp [List.countP_replicate]
    rw [z] at h
    simpa [andCount] using h
  · intro k iv d lk liv ld hd
    generalize hinp : k ++ iv ++ d.flatten = inp
    have hcons := plainVal_consistent st.ok inp
    generalize hvv : (fun u : Node => plainVal c inp u.2) = val at hcons
    have hvi : ∀ i < N, val (0, i) = inp.getD i false := by
      intro i hi
      rw [← hvv]
      have hgi : c.gates[i]? = some (.base .input) := by
        rw [hgs, g1, List.getElem?_append_left (by simpa using hi)]
        simp [hi]
      beta_reduce
      rw [plainVal_eq st.ok inp hgi]
      have : inputIdx c i = i := by
        unfold inputIdx
        rw [hgs, g1, List.take_append_of_le_length (by simp; omega), List.take_replicate,
          List.countP_replicate, if_pos (by simp)]
        omega
      rw [this]
      rfl
    have lfl : d.flatten.length = n * bs := by
      have : ∀ d : List (List Bool), (∀ x ∈ d, x.length = bs) → d.flatten.length = d.length * bs := by
        intro d
        induction d with
        | nil => intro _; simp
        | cons x d ih =>
          intro h
          rw [List.flatten_cons, List.length_append, h x List.mem_cons_self,
            ih fun y hy => h y (List.mem_cons_of_mem _ hy), List.length_cons, Nat.add_mul, Nat.one_mul]
          omega
      rw [this d hd, ld]
    have seg : ∀ (A B C : List Bool) (m : Nat), inp = A ++ B ++ C → A.length + m ≤ N → B.length = m →
        ((List.range m).map fun i => val (0, A.length + i)) = B := by
      intro A B C m h h1 h2
      apply List.ext_getElem
      · simp [h2]
      · intro i hi hi'
        have : i < m := by simpa using hi
        simp only [List.getElem_map, List.getElem_range]
        rw [hvi _ (by omega), h, List.append_assoc, getD_right _ _ _ (by omega),
          Nat.add_sub_cancel_left, getD_left _ _ _ hi', List.getD_eq_getElem?_getD,
          List.getElem?_eq_getElem hi']
        rfl
    have v1 : key.map val = k := by
      rw [← hkey, List.map_map]
      have := seg [] k (iv ++ d.flatten) bs (by rw [← hinp]; simp) (by simp; omega) lk
      simpa [Function.comp_def] using this
    have v2 : iv'.map val = iv := by
      rw [← hiv, List.map_map]
      have := seg k iv d.flatten bs hinp.symm (by omega) liv
      rw [lk] at this
      exact this
    have v3 : dat.map val = d.flatten := by
      rw [← hdat, List.map_map]
      have := seg (k ++ iv) d.flatten [] (n * bs) (by rw [← hinp]; simp) (by simp; omega) lfl
      rw [List.length_append, lk, liv] at this
      exact this
    have h := st.holds.2 val hcons
    beta_reduce at h
    rw [v1, v2, chunksExact, hq, chunksOf_map, v3, ← ld, chunksOf_flatten bs d hd] at h
    rw [← h, plainFn]
    have ho : positions (fun g => decide (g = .base .output)) c.gates = ids := by
      have := st.outs
      unfold outIds at this
      rw [this, g1]
      have : positions (fun g => decide (g = .base .output)) (List.replicate N (BoolGate.base .input)) = [] := by
        rw [positions, List.filter_eq_nil_iff]
        intro i hi
        have hi := List.mem_range.1 hi
        rw [List.getElem?_eq_getElem hi]
        simp
      rw [this, List.nil_append]
    rw [ho, List.map_map, ← hvv]
    rfl

/-! ### Theorems -/

/-- **C67.** The circuit is a file of any block cipher with blocks and keys of `bs` bits, given by
the function `b.eval`.  Two parties hold shares of a key, of an initialisation vector and of any
number of blocks, build the circuit for that number of blocks and execute it: the outputs are
shares of the ciphertext blocks of cipher block chaining.  One multiplication triple is used per
AND gate of the file and block. -/
theorem aes_cbc_correct (file : List Char) (b : Parse.Circuit) (hfile : Parse.circuit file = some b)
    (ok : Parse.BristolOk b) (bs : Nat) (hbs : 0 < bs) (hin : b.totalInputs = bs + bs)
    (hout : b.totalOutputs = bs)
    (k0 k1 iv0 iv1 : List Bool) (d0 d1 : List (List Bool))
    (hk0 : k0.length = bs) (hk1 : k1.length = bs) (hi0 : iv0.length = bs) (hi1 : iv1.length = bs)
    (hd : d1.length = d0.length) (hd0 : ∀ x ∈ d0, x.length = bs) (hd1 : ∀ x ∈ d1, x.length = bs)
    (setup0 setup1 : Nat → Nat → List Triple)
    (hset : ∀ k n, Matching (setup0 k n) (setup1 k n) ∧ n ≤ (setup0 k n).length)
    (init0 init1 : Store Bool (List Bool)) :
    ∃ c, buildEnc file bs [({} : Base _)] (d0.length * bs) = some [c] ∧
      c.gates.countP (· = .and) = d0.length * b.gates.countP (fun g => g.kind = .and) ∧
      ∃ o0 o1, Runs (execute gmw (.ofBase c) 0 (.scalar (k0 ++ iv0 ++ d0.flatten)) setup0 init0)
          (execute gmw (.ofBase c) 1 (.scalar (k1 ++ iv1 ++ d1.flatten)) setup1 init1)
          (.scalar o0) (.scalar o1) ∧
        xorL o0 o1 = (cbc (fun x k => b.eval (x ++ k)) (xorL k0 k1) (xorL iv0 iv1)
          (List.zipWith xorL d0 d1)).flatten := by
  obtain ⟨c, e, okc, hs, hil, hand, hplain⟩ := enc_built hfile ok hbs hin hout d0.length
  have hfl : ∀ d : List (List Bool), (∀ x ∈ d, x.length = bs) → d.flatten.length = d.length * bs := by
    intro d
    induction d with
    | nil => intro _; simp
    | cons x d ih =>
      intro h
      rw [List.flatten_cons, List.length_append, h x List.mem_cons_self,
        ih fun y hy => h y (List.mem_cons_of_mem _ hy), List.length_cons, Nat.add_mul, Nat.one_mul]
      omega
  have hx : xorL (k0 ++ iv0 ++ d0.flatten) (k1 ++ iv1 ++ d1.flatten) =
      xorL k0 k1 ++ xorL iv0 iv1 ++ (List.zipWith xorL d0 d1).flatten := by
    unfold xorL
    rw [List.zipWith_append (by simp [hk0, hk1, hi0, hi1]), List.zipWith_append (by simp [hk0, hk1])]
    congr 1
    clear hplain e hand hil
    induction d0 generalizing d1 with
    | nil =>
      have : d1 = [] := List.length_eq_zero_iff.1 hd
      subst this
      rfl
    | cons x d0 ih =>
      cases d1 with
      | nil => simp at hd
      | cons y d1 =>
        simp only [List.flatten_cons, List.zipWith_cons_cons]
        rw [List.zipWith_append (by rw [hd0 x List.mem_cons_self, hd1 y List.mem_cons_self]),
          ih d1 (by simpa using hd) (fun z hz => hd0 z (List.mem_cons_of_mem _ hz))
            (fun z hz => hd1 z (List.mem_cons_of_mem _ hz))]
  have l0 : (k0 ++ iv0 ++ d0.flatten).length = c.inputGates.length := by
    simp only [List.length_append, hk0, hi0, hfl d0 hd0, hil]
  have l1 : (k1 ++ iv1 ++ d1.flatten).length = c.inputGates.length := by
    simp only [List.length_append, hk1, hi1, hfl d1 hd1, hil, hd]
  have lx : (xorL (k0 ++ iv0 ++ d0.flatten) (k1 ++ iv1 ++ d1.flatten)).length = c.inputGates.length := by
    simp only [xorL, List.length_zipWith, l0, l1, Nat.min_self]
  obtain ⟨ls, o0, o1, -, -, hr, ho⟩ := gmw_scalar_circuit_correct c okc hs _ _ _
    (l0.trans lx.symm) (l1.trans lx.symm) rfl lx setup0 setup1 hset init0 init1
  refine ⟨c, e, hand, o0, o1, hr, ?_⟩
  rw [ho, hx, hplain _ _ _ (by simp [xorL, hk0, hk1]) (by simp [xorL, hi0, hi1]) (by simp [hd])]
  intro x hx'
  obtain ⟨i, hi, rfl⟩ := List.getElem_of_mem hx'
  simp only [List.length_zipWith] at hi
  rw [List.getElem_zipWith, xorL, List.length_zipWith, hd0 _ (List.getElem_mem _),
    hd1 _ (List.getElem_mem _), Nat.min_self]

/-- Decryption in cipher block chaining mode. -/
def cbcDec (D : List Bool → List Bool → List Bool) (key : List Bool) :
    List Bool → List (List Bool) → List (List Bool)
  | _, [] => []
  | prev, x :: xs => xorL (D x key) prev :: cbcDec D key x xs

/-- The mode specified is the standard one: whoever can invert the block cipher decrypts. -/
theorem cbc_decrypts (E D : List Bool → List Bool → List Bool) (key : List Bool) (bs : Nat)
    (hE : ∀ x, x.length = bs → (E x key).length = bs ∧ D (E x key) key = x)
    (iv : List Bool) (hiv : iv.length = bs) (d : List (List Bool)) (hd : ∀ x ∈ d, x.length = bs) :
    cbcDec D key iv (cbc E key iv d) = d := by
  induction d generalizing iv with
  | nil => rfl
  | cons x d ih =>
    have hx := hd x List.mem_cons_self
    have hl : (xorL x iv).length = bs := by simp [xorL, hx, hiv]
    obtain ⟨h1, h2⟩ := hE _ hl
    simp only [cbc, cbcDec, h2]
    rw [ih _ h1 fun y hy => hd y (List.mem_cons_of_mem _ hy)]
    congr 1
    apply List.ext_getElem
    · simp [xorL, hx, hiv]
    · intro i h1 h2
      simp [xorL]

/-- Data that is not a whole number of blocks is refused. -/
theorem aes_cbc_partial_block (file : List Char) (bs : Nat) (b : Builder) (n : Nat)
    (h : n % bs ≠ 0) : buildEnc file bs b n = none := by
  rw [buildEnc, if_neg h]

/-- A toy block cipher with blocks of two bits: swap the bits of the block and combine them with
the key, using one AND. -/
def toy : Parse.Circuit := ⟨⟨3, 7, [2, 2], [2]⟩,
  [⟨.and, [0, 2], [4]⟩, ⟨.xor, [1, 2], [5]⟩, ⟨.xor, [0, 3], [6]⟩]⟩

def toyFile : List Char := "3 7\n2 2 2\n1 2\n\n2 1 0 2 4 AND\n2 1 1 2 5 XOR\n2 1 0 3 6 XOR\n".toList

/-- The hypotheses of `aes_cbc_correct` are met, and the result depends on the chaining. -/
example : Parse.circuit toyFile = some toy ∧ Parse.BristolOk toy ∧ toy.totalInputs = 2 + 2 ∧
    toy.totalOutputs = 2 ∧
    cbc (fun x k => toy.eval (x ++ k)) [true, false] [false, true] [[true, true], [true, true]] =
      [[true, true], [true, false]] := by
  refine ⟨by decide +kernel, ⟨by decide, by decide, by decide, by decide, ?_, ?_⟩, by decide, by decide,
    by decide +kernel⟩
  · intro i g h
    have hi : i < 3 := (List.getElem?_eq_some_iff.1 h).1
    interval_cases i <;> simp [toy] at h <;> subst h <;> decide
  · intro w h1 h2
    have h1 : 5 ≤ w := h1
    have h2 : w < 7 := h2
    interval_cases w <;> decide

end Verif.Cbc
