import Verif.Mail.Gates

/-!
C66: the PrivMail example finds exactly the mails that satisfy the query.
-/
set_option autoImplicit false

namespace Verif.Mail

open Circuit Gmw Secret Exec Proc

/-! ### Specification -/

/-- The PrivMail encoding of a character: the six low bits of a byte. -/
def low6 (x : Byte) : BitVec 6 := x.setWidth 6

/-- The keyword occurs in the text. -/
def found (keyword text : List Byte) : Bool := decide (keyword.map low6 <:+: text.map low6)

/-- Bit `i` of the modifier chain, least significant bits first. -/
def chainBit (m : List Byte) (i : Nat) : Bool := (m.getD (i / 8) 0).getLsbD (i % 8)

/-- The bytes shared by `a` and `b`. -/
def xorBytes (a b : List Byte) : List Byte := List.zipWith (· ^^^ ·) a b

/-- The result of the query for one mail. -/
def query (modifier : List Byte) (keywords : List (List Byte)) (mail : List Byte) : Bool :=
  answer (chainBit modifier) (keywords.map fun k => found k mail)

/-! ### Proof -/

theorem getD_bitsOf (m : List Byte) (i : Nat) : (bitsOf m).getD i false = chainBit m i := by
  induction m generalizing i with
  | nil => simp [bitsOf, chainBit]
  | cons x m ih =>
    have hb : bitsOf (x :: m) = byteBits x ++ bitsOf m := by simp [bitsOf_eq]
    rw [hb]
    by_cases h : i < 8
    · rw [getD_left _ _ _ (by simp [byteBits]; exact h), chainBit, Nat.div_eq_of_lt h,
        Nat.mod_eq_of_lt h]
      simp [byteBits, List.getD_eq_getElem?_getD, h]
    · rw [getD_right _ _ _ (by simp [byteBits]; omega)]
      have hl : (byteBits x).length = 8 := by simp [byteBits]
      rw [hl, ih, chainBit, chainBit]
      have e1 : i / 8 = (i - 8) / 8 + 1 := by omega
      have e2 : (i - 8) % 8 = i % 8 := by omega
      rw [e1, e2, List.getD_cons_succ]

theorem map_infix_iff {α β : Type} {f : α → β} (hf : ∀ x y, f x = f y → x = y) (w t : List α) :
    w.map f <:+: t.map f ↔ w <:+: t := by
  constructor
  · rintro ⟨a, c, e⟩
    obtain ⟨l1, l2, rfl, h1, -⟩ := List.map_eq_append_iff.1 e.symm
    obtain ⟨l3, l4, rfl, -, h4⟩ := List.map_eq_append_iff.1 h1
    have : l4 = w := by
      clear h1 e
      induction w generalizing l4 with
      | nil => simpa using h4
      | cons x w ih =>
        cases l4 with
        | nil => simp at h4
        | cons y l4 =>
          simp only [List.map_cons, List.cons.injEq] at h4
          rw [hf _ _ h4.1, ih l4 h4.2]
    subst this
    exact ⟨l3, l2, rfl⟩
  · rintro ⟨a, c, rfl⟩
    exact ⟨a.map f, c.map f, by simp⟩

theorem six_found (kw t : List Byte) :
    decide ((kw.map byteBits).map (List.take 6) <:+: (t.map byteBits).map (List.take 6)) =
      found kw t := by
  have e : ∀ t : List Byte, (t.map byteBits).map (List.take 6) =
      (t.map low6).map fun y => (List.range 6).map fun k => y.getLsbD k := by
    intro t
    rw [List.map_map, List.map_map]
    apply List.map_congr_left
    intro x _
    have : (List.range 8).take 6 = List.range 6 := rfl
    simp only [Function.comp_apply, byteBits, ← List.map_take, this]
    apply List.map_congr_left
    intro k hk
    have := List.mem_range.1 hk
    simp [low6, this]
  rw [e, e, found]
  congr 1
  apply propext
  apply map_infix_iff
  intro x y h
  apply BitVec.eq_of_getLsbD_eq
  intro i hi
  have := congrArg (fun l => l.getD i false) h
  simpa [List.getD_eq_getElem?_getD, hi] using this

theorem six_of_val {val : Node → Bool} {t : List (List Sec)} {bs : List Byte}
    (h : t.map (List.map val) = bs.map byteBits) :
    six val t = (bs.map byteBits).map (List.take 6) := by
  rw [← h, six, List.map_map]
  apply List.map_congr_left
  intro row _
  simp [List.map_take]

/-- What the search builds, from the lengths of the modifier chain, the keywords and the mails. -/
theorem search_built (nm : Nat) (kl tl : List Nat) (hk0 : kl ≠ []) (hne : ∀ n ∈ kl, n ≠ 0)
    (hmod : 2 * kl.length - 1 ≤ 8 * nm) :
    ∃ b rs c outs,
      keywordLoop (rows 0 nm).flatten (rowsAt (8 * nm + 8 * kl.sum) tl)
        [addInputs ({} : Base _) (8 * nm + 8 * kl.sum + 8 * tl.sum)] [] 0
        (rowsAt (8 * nm) kl) = some (b, rs) ∧
      mapB (fun b s => output b s) b rs = some ([c], outs) ∧
      BaseOk c ∧ c.simdSize = none ∧ c.inputGates.length = 8 * nm + 8 * kl.sum + 8 * tl.sum ∧
      c.gates.countP (· = .and) = cost kl tl ∧
      outs.map (·.2) = c.outputGates ∧
      ∀ (M : List Byte) (K T : List (List Byte)), M.length = nm → K.map List.length = kl →
        T.map List.length = tl →
        plainFn c (bitsOf M ++ (K.map bitsOf).flatten ++ (T.map bitsOf).flatten) =
          T.map fun t => query M K t := by
  generalize hN : 8 * nm + 8 * kl.sum + 8 * tl.sum = N
  have ok0 : BaseOk ({} : Base BoolGate) := by
    refine ⟨?_, ?_, ?_, ⟨rfl, rfl, rfl, rfl, rfl⟩⟩
    · intro e he; simp at he
    · intro i g hg; simp at hg
    · intro i g hg; simp at hg
  obtain ⟨ok1, s1⟩ := addInputs_ok ok0 N
  generalize hc1 : addInputs ({} : Base BoolGate) N = c1 at ok1 s1
  have g1 : c1.gates = List.replicate N (.base .input) := by rw [← hc1, addInputs_gates]; rfl
  have hval : ∀ s : Sec, s.1 = 0 → s.2 < N → Valid [c1] s := by
    intro s h1 h2
    exact ⟨c1, by rw [h1]; rfl, by rw [g1]; simpa using h2⟩
  have hok1 : Ok [c1] := by
    intro i d hd
    cases i with
    | zero => rw [← Option.some.inj hd]; exact baseOk_edges ok1
    | succ i => simp at hd
  have hflat : (rows 0 nm).flatten.length = 8 * nm := by
    have : ∀ (xs : List (List Sec)), (∀ r ∈ xs, r.length = 8) → xs.flatten.length = 8 * xs.length := by
      intro xs
      induction xs with
      | nil => intro _; rfl
      | cons x xs ih =>
        intro h
        rw [List.flatten_cons, List.length_append, h x List.mem_cons_self,
          ih fun r hr => h r (List.mem_cons_of_mem _ hr), List.length_cons]
        omega
    rw [this _ fun r hr => (rows_mem hr).1]
    simp [rows]
  have hkl := rowsAt_length (8 * nm) kl
  obtain ⟨b, rs, e1, m1, h1⟩ := keyword_loop (rows 0 nm).flatten (rowsAt (8 * nm + 8 * kl.sum) tl)
    (rowsAt (8 * nm) kl) (by intro e; rw [e] at hkl; exact hk0 (List.length_eq_zero_iff.1 hkl.symm))
    (by
      intro kw hkw e
      have : kw.length ∈ (rowsAt (8 * nm) kl).map List.length := List.mem_map_of_mem hkw
      rw [rowsAt_lengths] at this
      exact hne _ this (by rw [e]; rfl))
    (by rw [hflat, hkl]; exact hmod) [c1] (by simp) hok1
    (by
      intro s hs
      obtain ⟨row, hr, hs⟩ := List.mem_flatten.1 hs
      have := (rows_mem hr).2 s hs
      exact ⟨hval s this.1 (by omega), this.1⟩)
    (by
      intro kw hkw row hr
      obtain ⟨a1, a2⟩ := rowsAt_mem hkw row hr
      exact ⟨a1, fun s hs => by have := a2 s hs; exact ⟨hval s this.1 (by omega), this.1⟩⟩)
    (by
      intro kw hkw row hr
      obtain ⟨a1, a2⟩ := rowsAt_mem hkw row hr
      exact ⟨a1, fun s hs => by have := a2 s hs; exact ⟨hval s this.1 (by omega), this.1⟩⟩)
  rw [rowsAt_lengths, rowsAt_lengths] at m1
  obtain ⟨c2, gs, rfl, ok2, s2, g2, q2⟩ := made_single ok1 m1
  obtain ⟨c, e3, ok3, s3, g3, a3, f3⟩ := outputs_made rs _ c2 ok2 h1
  have hgc : c.gates = (List.replicate N (.base .input) ++ gs) ++
      List.replicate rs.length (.base .output) := by rw [g3, g2, g1]
  have hnoout : ∀ g ∈ List.replicate N (BoolGate.base .input) ++ gs, g ≠ .base .output := by
    intro g hg
    rcases List.mem_append.1 hg with hg | hg
    · rw [(List.mem_replicate.1 hg).2]; simp
    · intro e
      have := q2 g hg
      rw [e] at this
      simp [quiet] at this
  have hpos : positions (fun g => g = .base .output) c.gates =
      (List.range rs.length).map fun i => c2.gates.length + i := by
    rw [hgc, positions_io _ _ hnoout, g2, g1]
  have hl2 : c2.gates.length = N + gs.length := by rw [g2, g1]; simp
  refine ⟨[c2], rs, c, _, e1, e3, ok3, s3.trans (s2.trans s1), ?_, ?_, ?_, ?_⟩
  · rw [input_pos c ok3.book]
    have : ∀ gs : List BoolGate, (positions (fun g => g = .base .input) gs).length =
        gs.countP (fun g => g = .base .input) := by
      intro gs
      induction gs using List.reverseRecOn with
      | nil => rfl
      | append_singleton gs y ih =>
        rw [positions_append, List.length_append, ih, List.countP_append, List.countP_singleton]
        split <;> simp
    rw [this, hgc, List.countP_append, List.countP_append]
    have z1 : gs.countP (fun g => decide (g = .base .input)) = 0 := by
      rw [List.countP_eq_zero]
      intro g hg
      have := q2 g hg
      intro e
      rw [decide_eq_true_eq] at e
      rw [e] at this
      simp [quiet] at this
    rw [z1]
    simp [List.countP_replicate]
  · have h := a3.trans m1.ands
    have z : andCount [c1] = 0 := by
      simp only [andCount, List.map_cons, List.map_nil, List.sum_cons, List.sum_nil, g1]
      simp [List.countP_replicate]
    rw [z] at h
    simpa [andCount] using h
  · rw [output_pos c ok3.book, hpos, List.map_map]
    rfl
  · intro M K T hM hK hT
    generalize hinp : bitsOf M ++ (K.map bitsOf).flatten ++ (T.map bitsOf).flatten = inp
    have hfl : ∀ D : List (List Byte), (D.map bitsOf).flatten.length = 8 * (D.map List.length).sum := by
      intro D
      induction D with
      | nil => rfl
      | cons d D ih =>
        simp only [List.map_cons, List.flatten_cons, List.length_append, List.sum_cons, ih,
          bitsOf_length]
        omega
    have hin : ∀ i < N, plainVal c inp i = inp.getD i false := by
      intro i hi
      have hgi : c.gates[i]? = some (.base .input) := by
        rw [hgc, List.append_assoc, List.getElem?_append_left (by simpa using hi)]
        simp [hi]
      rw [plainVal_eq ok3 inp hgi]
      have : inputIdx c i = i := by
        unfold inputIdx
        rw [hgc, List.append_assoc, List.take_append_of_le_length (by simp; omega),
          List.take_replicate, List.countP_replicate, if_pos (by simp)]
        omega
      rw [this]
      rfl
    have hcons := plainVal_consistent ok3 inp
    generalize hv : (fun u : Node => plainVal c inp u.2) = val at hcons
    have hvi : ∀ i < N, val (0, i) = inp.getD i false := by
      intro i hi
      rw [← hv]
      exact hin i hi
    have vM : (rows 0 nm).map (List.map val) = M.map byteBits := by
      rw [← hM]
      apply rows_val
      intro i hi
      rw [Nat.zero_add, hvi i (by omega), ← hinp, List.append_assoc,
        getD_left _ _ _ (by rw [bitsOf_length]; exact hi)]
    have vK : (rowsAt (8 * nm) kl).map (List.map (List.map val)) = K.map (List.map byteBits) := by
      rw [← hK]
      apply rowsAt_val
      intro i hi
      rw [hK] at hi
      rw [hvi _ (by omega), ← hinp, List.append_assoc,
        getD_right _ _ _ (by rw [bitsOf_length]; omega),
        getD_left _ _ _ (by rw [bitsOf_length, hfl, hK]; omega), bitsOf_length]
      congr 1; omega
    have vT : (rowsAt (8 * nm + 8 * kl.sum) tl).map (List.map (List.map val)) =
        T.map (List.map byteBits) := by
      rw [← hT]
      apply rowsAt_val
      intro i hi
      rw [hT] at hi
      rw [hvi _ (by omega), ← hinp,
        getD_right _ _ _ (by rw [List.length_append, bitsOf_length, hfl, hK]; omega),
        List.length_append, bitsOf_length, hfl, hK]
      congr 1; omega
    have vmod : (rows 0 nm).flatten.map val = bitsOf M := by
      rw [List.map_flatten, vM, bitsOf_eq, List.flatMap_def]
    -- the outputs
    have hout : plainFn c inp = ((rowsAt (8 * nm + 8 * kl.sum) tl).map fun t =>
        answer (fun i => ((rows 0 nm).flatten.map val).getD i false)
          ((rowsAt (8 * nm) kl).map fun kw => decide (six val kw <:+: six val t))) := by
      rw [plainFn, hpos, List.map_map]
      have : ∀ (os : List Sec) (Fs : List ((Node → Bool) → Bool)), List.Forall₂ (Holds [c]) os Fs →
          os.map val = Fs.map (· val) := by
        intro os Fs h
        induction h with
        | nil => rfl
        | cons h _ ih => rw [List.map_cons, List.map_cons, ih, h.2.2 val hcons]
      have h := this _ _ f3
      rw [List.map_map, List.map_map] at h
      rw [← hv] at h ⊢
      exact h
    rw [hout, vmod]
    have hmapeq : ∀ (ts : List (List (List Sec))) (T : List (List Byte)),
        ts.map (List.map (List.map val)) = T.map (List.map byteBits) →
        ∀ {β : Type} (g : List (List Bool) → β), ts.map (fun t => g (six val t)) =
          T.map fun t => g ((t.map byteBits).map (List.take 6)) := by
      intro ts
      induction ts with
      | nil =>
        intro T h β g
        have : T = [] := by simpa using h.symm
        subst this
        rfl
      | cons t ts ih =>
        intro T h β g
        cases T with
        | nil => simp at h
        | cons u T =>
          simp only [List.map_cons, List.cons.injEq] at h
          rw [List.map_cons, List.map_cons, ih T h.2 g, six_of_val h.1]
    have e1 : ∀ x : List (List Bool), ((rowsAt (8 * nm) kl).map fun kw => decide (six val kw <:+: x)) =
        K.map fun k => decide ((k.map byteBits).map (List.take 6) <:+: x) :=
      fun x => hmapeq _ K vK fun y => decide (y <:+: x)
    simp only [e1]
    rw [hmapeq _ T vT fun x => answer (fun i => (bitsOf M).getD i false)
      (K.map fun k => decide ((k.map byteBits).map (List.take 6) <:+: x))]
    apply List.map_congr_left
    intro t _
    rw [query]
    congr 1
    · funext i; exact getD_bitsOf M i
    · apply List.map_congr_left
      intro k _
      exact six_found k t

/-- The builder and the output gates depend only on the lengths, the input is the concatenation. -/
theorem privMailSearch_eq (m : List Byte) (ks ts : List (List Byte)) (dup : Nat) (hk : ks ≠ [])
    (hm : 2 * ks.length - 1 ≤ 8 * m.length) {b : Builder} {rs outs : List Sec} {c : Base BoolGate}
    (e1 : keywordLoop (rows 0 m.length).flatten
      (rowsAt (8 * m.length + 8 * (ks.map List.length).sum)
        ((ts.map fun t => (List.replicate dup t).flatten).map List.length))
      [addInputs ({} : Base _) (8 * m.length + 8 * (ks.map List.length).sum +
        8 * ((ts.map fun t => (List.replicate dup t).flatten).map List.length).sum)] [] 0
      (rowsAt (8 * m.length) (ks.map List.length)) = some (b, rs))
    (e2 : mapB (fun b s => output b s) b rs = some ([c], outs)) :
    privMailSearch [({} : Base _)] m ks ts dup = some ([c],
      bitsOf m ++ (ks.map bitsOf).flatten ++
        ((ts.map fun t => (List.replicate dup t).flatten).map bitsOf).flatten, outs) := by
  have hone : ∀ d : List Byte, (List.replicate 1 d).flatten = d := by intro d; simp
  have hb := bytesToInput_eq ({} : Base _) m 1
  rw [hone] at hb
  obtain ⟨ks', f1, k1, k2⟩ := texts_eq 1 ks (addInputs ({} : Base _) (8 * m.length))
  simp only [hone] at f1 k1 k2
  obtain ⟨ts', f2, t1, t2⟩ := texts_eq dup ts (addInputs ({} : Base _)
    (8 * m.length + 8 * (ks.map fun d => d.length).sum))
  have hflat : (rows 0 m.length).flatten.length = 8 * m.length := by
    have : ∀ (xs : List (List Sec)), (∀ r ∈ xs, r.length = 8) → xs.flatten.length = 8 * xs.length := by
      intro xs
      induction xs with
      | nil => intro _; rfl
      | cons x xs ih =>
        intro h
        rw [List.flatten_cons, List.length_append, h x List.mem_cons_self,
          ih fun r hr => h r (List.mem_cons_of_mem _ hr), List.length_cons]
        omega
    rw [this _ fun r hr => (rows_mem hr).1]
    simp [rows]
  have hkl := List.length_pos_iff.2 hk
  have hg0 : ({} : Base BoolGate).gates.length = 0 := rfl
  have hg1 : ∀ n, (addInputs ({} : Base BoolGate) n).gates.length = n := by
    intro n; rw [addInputs_gates]; simp
  rw [hg0] at hb
  rw [hg1] at k2 t2
  have hcond : 1 ≤ 2 * ks.length ∧ 2 * ks.length - 1 ≤ (rows 0 m.length).flatten.length := by
    rw [hflat]; exact ⟨by omega, hm⟩
  simp only [privMailSearch, hb, Option.bind_eq_bind, Option.bind_some, f1, hcond, and_self, if_true,
    addInputs_add, f2, k1, k2, t1, t2, Option.pure_def]
  rw [List.map_map] at e1
  have e1' := e1
  simp only [Function.comp_def] at e1'
  have hlen : (fun d : List Byte => d.length) = List.length := rfl
  simp only [hlen, e1', Option.bind_some, e2, List.map_map, Function.comp_def]

theorem bitsOf_xor (a b : List Byte) (h : a.length = b.length) :
    xorL (bitsOf a) (bitsOf b) = bitsOf (xorBytes a b) := by
  induction a generalizing b with
  | nil =>
    cases b with
    | nil => rfl
    | cons => simp at h
  | cons x a ih =>
    cases b with
    | nil => simp at h
    | cons y b =>
      have e : ∀ (z : Byte) (l : List Byte), bitsOf (z :: l) = byteBits z ++ bitsOf l := by
        intro z l; simp [bitsOf_eq]
      have hx : xorBytes (x :: a) (y :: b) = (x ^^^ y) :: xorBytes a b := rfl
      rw [e, e, hx, e, ← ih b (by simpa using h), xorL, xorL,
        List.zipWith_append (by simp [byteBits])]
      congr 1
      simp only [byteBits, List.zipWith_map, List.zipWith_self]
      apply List.map_congr_left
      intro i _
      simp

theorem flatten_xor (a b : List (List Byte)) (h : a.map List.length = b.map List.length) :
    xorL (a.map bitsOf).flatten (b.map bitsOf).flatten =
      ((List.zipWith xorBytes a b).map bitsOf).flatten := by
  induction a generalizing b with
  | nil =>
    cases b with
    | nil => rfl
    | cons => simp at h
  | cons x a ih =>
    cases b with
    | nil => simp at h
    | cons y b =>
      simp only [List.map_cons, List.cons.injEq] at h
      simp only [List.map_cons, List.flatten_cons, List.zipWith_cons_cons]
      rw [← ih b h.2, ← bitsOf_xor x y h.1, xorL, xorL, xorL,
        List.zipWith_append (by rw [bitsOf_length, bitsOf_length, h.1])]

theorem xorBytes_length (a b : List Byte) (h : a.length = b.length) :
    (xorBytes a b).length = a.length := by simp [xorBytes, h]

theorem zip_lengths (a b : List (List Byte)) (h : a.map List.length = b.map List.length) :
    (List.zipWith xorBytes a b).map List.length = a.map List.length := by
  induction a generalizing b with
  | nil => simp
  | cons x a ih =>
    cases b with
    | nil => simp at h
    | cons y b =>
      simp only [List.map_cons, List.cons.injEq] at h
      simp only [List.map_cons, List.zipWith_cons_cons, ih b h.2, xorBytes_length x y h.1]

theorem dup_xor (dup : Nat) (a b : List Byte) (h : a.length = b.length) :
    xorBytes (List.replicate dup a).flatten (List.replicate dup b).flatten =
      (List.replicate dup (xorBytes a b)).flatten := by
  induction dup with
  | zero => rfl
  | succ n ih =>
    simp only [List.replicate_succ, List.flatten_cons]
    rw [← ih, xorBytes, List.zipWith_append h]
    rfl

theorem dups_xor (dup : Nat) (a b : List (List Byte)) (h : a.map List.length = b.map List.length) :
    List.zipWith xorBytes (a.map fun t => (List.replicate dup t).flatten)
        (b.map fun t => (List.replicate dup t).flatten) =
      (List.zipWith xorBytes a b).map fun t => (List.replicate dup t).flatten := by
  induction a generalizing b with
  | nil => simp
  | cons x a ih =>
    cases b with
    | nil => simp
    | cons y b =>
      simp only [List.map_cons, List.cons.injEq] at h
      simp only [List.map_cons, List.zipWith_cons_cons, ih b h.2, dup_xor dup x y h.1]

theorem dup_lengths (dup : Nat) (a : List (List Byte)) :
    (a.map fun t => (List.replicate dup t).flatten).map List.length =
      (a.map List.length).map (dup * ·) := by
  rw [List.map_map, List.map_map]
  apply List.map_congr_left
  intro t _
  simp [List.length_flatten]

/-! ### Theorems -/

/-- **C66.** Two parties hold shares of a modifier chain, of at least one non-empty keyword and of
any number of mails (each mail repeated `dup` times), and both run `priv_mail_search` and execute
the resulting circuit: both build the same circuit, and the outputs, one per mail in order, are
shares of the result of the query for that mail.  The number of multiplication triples is `cost`. -/
theorem privmail_search_correct (m0 m1 : List Byte) (k0 k1 t0 t1 : List (List Byte)) (dup : Nat)
    (hm : m1.length = m0.length) (hk : k1.map List.length = k0.map List.length)
    (ht : t1.map List.length = t0.map List.length)
    (hk0 : k0 ≠ []) (hne : ∀ k ∈ k0, k ≠ []) (hmod : 2 * k0.length - 1 ≤ 8 * m0.length)
    (setup0 setup1 : Nat → Nat → List Triple)
    (hset : ∀ k n, Matching (setup0 k n) (setup1 k n) ∧ n ≤ (setup0 k n).length)
    (init0 init1 : Store Bool (List Bool)) :
    ∃ c in0 in1 outs,
      privMailSearch [({} : Base _)] m0 k0 t0 dup = some ([c], in0, outs) ∧
      privMailSearch [({} : Base _)] m1 k1 t1 dup = some ([c], in1, outs) ∧
      outs.map (·.2) = c.outputGates ∧
      c.gates.countP (· = .and) = cost (k0.map List.length) ((t0.map List.length).map (dup * ·)) ∧
      ∃ o0 o1, Runs (execute gmw (.ofBase c) 0 (.scalar in0) setup0 init0)
          (execute gmw (.ofBase c) 1 (.scalar in1) setup1 init1) (.scalar o0) (.scalar o1) ∧
        xorL o0 o1 = (List.zipWith xorBytes t0 t1).map fun t =>
          query (xorBytes m0 m1) (List.zipWith xorBytes k0 k1) (List.replicate dup t).flatten := by
  generalize hT0 : t0.map (fun t => (List.replicate dup t).flatten) = T0
  generalize hT1 : t1.map (fun t => (List.replicate dup t).flatten) = T1
  have hT : T1.map List.length = T0.map List.length := by
    rw [← hT0, ← hT1, dup_lengths, dup_lengths, ht]
  obtain ⟨b, rs, c, outs, e1, e2, ok, hs, hin, hcost, hout, hplain⟩ := search_built m0.length
    (k0.map List.length) (T0.map List.length) (by simpa using hk0)
    (by
      intro n hn
      obtain ⟨k, hk', rfl⟩ := List.mem_map.1 hn
      have := hne k hk'
      simpa using this)
    (by simpa using hmod)
  have p0 := privMailSearch_eq m0 k0 t0 dup hk0 hmod (by rw [hT0]; exact e1) e2
  have hkl : k1.length = k0.length := by simpa using congrArg List.length hk
  have p1 := privMailSearch_eq m1 k1 t1 dup
    (by intro e; rw [e] at hkl; exact hk0 (List.length_eq_zero_iff.1 hkl.symm))
    (by rw [hkl, hm]; exact hmod) (by rw [hT1, hm, hk, hT]; exact e1) e2
  rw [hT0] at p0
  rw [hT1] at p1
  have hfl : ∀ D : List (List Byte), (D.map bitsOf).flatten.length = 8 * (D.map List.length).sum := by
    intro D
    induction D with
    | nil => rfl
    | cons d D ih =>
      simp only [List.map_cons, List.flatten_cons, List.length_append, List.sum_cons, ih,
        bitsOf_length]
      omega
  generalize hi0 : bitsOf m0 ++ (k0.map bitsOf).flatten ++ (T0.map bitsOf).flatten = in0 at p0
  generalize hi1 : bitsOf m1 ++ (k1.map bitsOf).flatten ++ (T1.map bitsOf).flatten = in1 at p1
  have l0 : in0.length = c.inputGates.length := by
    rw [← hi0, hin]; simp only [List.length_append, bitsOf_length, hfl]
  have l1 : in1.length = c.inputGates.length := by
    rw [← hi1, hin]; simp only [List.length_append, bitsOf_length, hfl, hm, hk, hT]
  have hx : xorL in0 in1 = bitsOf (xorBytes m0 m1) ++
      ((List.zipWith xorBytes k0 k1).map bitsOf).flatten ++
      ((List.zipWith xorBytes T0 T1).map bitsOf).flatten := by
    rw [← bitsOf_xor m0 m1 hm.symm, ← flatten_xor k0 k1 hk.symm, ← flatten_xor T0 T1 hT.symm, ← hi0,
      ← hi1]
    unfold xorL
    rw [List.zipWith_append (by simp only [List.length_append, bitsOf_length, hfl, hm, hk]),
      List.zipWith_append (by simp only [bitsOf_length, hm])]
  have lx : (xorL in0 in1).length = c.inputGates.length := by simp [xorL, l0, l1]
  obtain ⟨ls, o0, o1, -, -, hr, ho⟩ := gmw_scalar_circuit_correct c ok hs in0 in1 (xorL in0 in1)
    (l0.trans lx.symm) (l1.trans lx.symm) rfl lx setup0 setup1 hset init0 init1
  refine ⟨c, in0, in1, outs, p0, p1, hout, ?_, o0, o1, hr, ?_⟩
  · rw [hcost, ← hT0, dup_lengths]
  · rw [ho, hx, hplain _ _ _ (xorBytes_length m0 m1 hm.symm) (zip_lengths k0 k1 hk.symm)
      (zip_lengths T0 T1 hT.symm), ← hT0, ← hT1, dups_xor dup t0 t1 ht.symm, List.map_map]
    rfl

/-- What the chain means: the first modifier negates, then OR or AND with a negatable result. -/
theorem query_two (m : List Byte) (k k' : List Byte) (t : List Byte) :
    query m [k] t = (found k t ^^ chainBit m 0) ∧
    query m [k, k'] t =
      if chainBit m 1 then (found k t ^^ chainBit m 0) || (found k' t ^^ chainBit m 2)
      else (found k t ^^ chainBit m 0) && (found k' t ^^ chainBit m 2) := ⟨rfl, rfl⟩

/-- A query without keywords panics. -/
theorem privmail_no_keywords (m : List Byte) (ts : List (List Byte)) (dup : Nat) :
    privMailSearch [({} : Base _)] m [] ts dup = none := by
  simp only [privMailSearch, bytesToInput_eq, Option.bind_eq_bind, Option.bind_some, mapB,
    List.length_nil]
  simp

theorem search_empty (b : Builder) (t : List (List Sec)) : search b [] t = none := by
  unfold search
  rw [if_pos (by simp)]
  simp only [Option.bind_eq_bind]
  rw [Option.bind_eq_none_iff]
  rintro ⟨b1, per⟩ h1
  rw [Option.bind_eq_none_iff]
  rintro ⟨b2, bits⟩ h2
  exfalso
  rw [List.range_succ_eq_map, mapB] at h1
  simp only [comparison, List.flatMap_nil, List.length_nil, Nat.zero_add, Nat.zero_le, if_true,
    List.drop_zero, List.take_zero, xorInplace, List.zip_nil_left, mapB, Option.bind_eq_bind,
    Option.bind_some, Option.bind_eq_some_iff, Option.pure_def, Option.some.injEq,
    Prod.mk.injEq] at h1
  obtain ⟨⟨b3, ys⟩, -, -, rfl⟩ := h1
  simp [mapB, reduceExpect, lowDepthReduce, reduceLoop] at h2

/-- An empty keyword panics as soon as there is a mail. -/
theorem privmail_empty_keyword (m : List Byte) (ks ts : List (List Byte)) (dup : Nat)
    (hk : [] ∈ ks) (ht : ts ≠ []) :
    privMailSearch [({} : Base _)] m ks ts dup = none := by
  have hone : ∀ d : List Byte, (List.replicate 1 d).flatten = d := by intro d; simp
  have hb := bytesToInput_eq ({} : Base _) m 1
  rw [hone] at hb
  obtain ⟨ks', f1, k1, k2⟩ := texts_eq 1 ks (addInputs ({} : Base _) (8 * m.length))
  simp only [hone] at f1 k1 k2
  simp only [privMailSearch, hb, Option.bind_eq_bind, Option.bind_some, f1]
  split
  · obtain ⟨ts', f2, t1, t2⟩ := texts_eq dup ts (addInputs (addInputs ({} : Base _)
      (8 * m.length)) (8 * (ks.map fun d => d.length).sum))
    have hmem : [] ∈ ks'.map (·.2) := by
      rw [k2]
      have : ∀ (ks : List (List Byte)) (g : Nat), [] ∈ ks →
          [] ∈ rowsAt g (ks.map fun d => d.length) := by
        intro ks
        induction ks with
        | nil => intro g h; simp at h
        | cons k ks ih =>
          intro g h
          rcases List.mem_cons.1 h with h | h
          · subst h
            simp [rowsAt, rows]
          · exact List.mem_cons_of_mem _ (ih _ h)
      exact this ks _ hk
    have hts : ts'.map (·.2) ≠ [] := by
      intro e
      rw [t2] at e
      have := congrArg List.length e
      rw [rowsAt_length] at this
      exact ht (by simpa using this)
    have hloop : ∀ (kws : List (List (List Sec))) (mod : List Sec) (targets : List (List (List Sec)))
        (b : Builder) (rs : List Sec) (j : Nat), [] ∈ kws → targets ≠ [] →
        keywordLoop mod targets b rs j kws = none := by
      intro kws mod targets
      induction kws with
      | nil => intro b rs j h; simp at h
      | cons kw kws ih =>
        intro b rs j h hne
        simp only [keywordLoop, Option.bind_eq_bind]
        rw [Option.bind_eq_none_iff]
        rintro ⟨b', rs'⟩ hl
        rcases List.mem_cons.1 h with h | h
        · subst h
          exfalso
          cases targets with
          | nil => simp at hne
          | cons t ts =>
            simp only [mailLoop, perMail, List.length_nil, Nat.zero_le, if_true, search_empty,
              Option.bind_eq_bind, Option.bind_eq_some_iff] at hl
            obtain ⟨x, ⟨y, -, hy⟩, -⟩ := hl
            simp at hy
        · exact ih b' rs' (j + 1) h hne
    rw [f2]
    simp only [Option.bind_some, hloop _ _ _ _ _ _ hmem hts, Option.bind_none]
  · rfl

/-- Non-trivial case: searching "ab" or not "c" in three mails; the hypotheses are met. -/
example : ([[1, 2], [3]] : List (List Byte)) ≠ [] ∧ (∀ k ∈ ([[1, 2], [3]] : List (List Byte)), k ≠ []) ∧
    2 * ([[1, 2], [3]] : List (List Byte)).length - 1 ≤ 8 * ([6] : List Byte).length ∧
    ([[1, 2, 3], [3, 3], [9, 0xc1, 0x42]] : List (List Byte)).map (query [6] [[1, 2], [3]]) =
      [true, false, true] ∧
    ([[1, 2, 3], [3, 3], [9, 1, 2], []] : List (List Byte)).map (query [4] [[1, 2], [3]]) =
      [false, false, true, false] := by decide

end Verif.Mail
