import Verif.Mt.Storage

/-!
C79: triples written to a file by an OT based provider and read back, with and without the looping of
the benchmark mode.  The file is the list of batches in it, as in `Storage`.
-/
set_option autoImplicit false

namespace Verif.Mt
variable {α β : Type}

/-- storage.rs:81-88: the batches written by the loop of `store_mts` with an `OtMTProvider`, `gen` as in
`provide`. -/
def storeLoop (gen : Nat → Nat → MulTriples Bool) (batch : Nat) : Nat → Provider →
    Option (Provider × List (MulTriples Bool))
  | 0, p => some (p, [])
  | k + 1, p => do
    let (p', y) ← provide gen p (.request batch)
    let (q, file) ← storeLoop gen batch k p'
    pure (q, y.returned ++ file)

/-- storage.rs:74-90 `store_mts` of a file created by `create`, the provider moved in; `none` is the division
by zero for batch size 0. -/
def storeProvider (gen : Nat → Nat → MulTriples Bool) (p : Provider) (count batch : Nat) :
    Option (List (MulTriples Bool)) :=
  if batch = 0 then none else (storeLoop gen batch ((count + batch - 1) / batch) p).map (·.2)

/-- storage.rs:111-137 `precompute_mts` with `insecure_loop_file`: at the end of the file reading starts over
at its beginning (`whole`).  An empty file is an error (flag `false`).  The outer `none` stands for more than
`fuel` batches being read. -/
def readLoop (whole : List (MulTriples α)) (amount : Nat) : Nat → Nat → List (MulTriples α) → MulTriples α →
    Option (List (MulTriples α) × MulTriples α × Bool)
  | 0, added, rest, stored => if amount ≤ added then some (rest, stored, true) else none
  | fuel + 1, added, rest, stored =>
    if amount ≤ added then some (rest, stored, true)
    else match rest, whole with
      | b :: bs, _ => readLoop whole amount fuel (added + b.len) bs (stored.append b)
      | [], b :: bs => readLoop whole amount fuel (added + b.len) bs (stored.append b)
      | [], [] => some ([], stored, false)

/-- storage.rs:111-145 the two calls with `insecure_loop_file`, as `storageCall`. -/
def loopCall (k : Kind) (whole : List (MulTriples α)) (s : Storage α) : Call →
    Option (Storage α × List (Option (MulTriples α)))
  | .precompute n => do
    let (f, st, _) ← readLoop whole n n 0 s.file s.stored
    pure (⟨f, st⟩, [])
  | .request n =>
    match (if s.stored.len < n then readLoop whole (n - s.stored.len) n 0 s.file s.stored
      else some (s.file, s.stored, true)) with
    | none => none
    | some (f, st, true) => (removeFirst k st n).map fun (rest, out) => (⟨f, rest⟩, [some out])
    | some (f, st, false) => some (⟨f, st⟩, [none])

/-! ### Specification -/

/-- The triples not yet handed out. -/
def Storage.left (s : Storage α) : List (α × α × α) := s.stored.rows ++ content s.file

/-! ### Writing -/

theorem request_pair_wf {gen0 gen1 : Nat → Nat → MulTriples Bool}
    (hg : ∀ k n, (gen0 k n).WF ∧ (gen1 k n).WF ∧ List.Forall₂ Valid (gen0 k n).rows (gen1 k n).rows ∧
      (gen0 k n).rows.length = nextMultipleOf8 n)
    {p0 p1 : Provider} (hp : PairOk p0 p1) (n : Nat) :
    ∃ q0 g0 q1 g1 b0 b1, provide gen0 p0 (.request n) = some (q0, ⟨[b0], g0⟩) ∧
      provide gen1 p1 (.request n) = some (q1, ⟨[b1], g1⟩) ∧ PairOk q0 q1 ∧ b0.WF ∧ b1.WF ∧
      List.Forall₂ Valid b0.rows b1.rows ∧ n ≤ b0.rows.length := by
  obtain ⟨hc, hp⟩ := hp
  rcases hp with ⟨s0, s1⟩ | ⟨m0, m1, s0, s1, w0, w1, hv⟩
  · obtain ⟨w0, w1, hv, hl⟩ := hg p0.computed n
    exact ⟨⟨none, p0.computed + 1⟩, [gen0 p0.computed n], ⟨none, p1.computed + 1⟩, [gen1 p1.computed n],
      gen0 p0.computed n, gen1 p1.computed n, by simp [provide, s0], by simp [provide, s1],
      ⟨by simp [hc], .inl ⟨rfl, rfl⟩⟩, w0, hc ▸ w1, hc ▸ hv, by rw [hl]; exact (nextMultipleOf8_spec n).1⟩
  · have hl := rel_len w0 w1 hv
    by_cases hn : m0.len ≥ n
    · obtain ⟨s', r, t', q, h1, h2, a1, a2, a3, a4, a5, a6⟩ := removeFirst_rel Valid .boolean w0 w1 hv hn
      obtain ⟨s2, r2, f1, f2, f3, f4, f5, f6⟩ := removeFirst_split .boolean w0 hn
      rw [h1] at f1
      cases f1
      simp only [removeFirst] at h1 h2
      exact ⟨⟨some s', p0.computed⟩, [], ⟨some t', p1.computed⟩, [], r, q,
        by simp [provide, s0, hn, h1], by simp [provide, s1, hl ▸ hn, h2],
        ⟨hc, .inr ⟨s', t', rfl, rfl, a1, a3, a6⟩⟩, a2, a4, a5, by omega⟩
    · obtain ⟨v0, v1, hv', hl'⟩ := hg p0.computed (n - m0.len)
      refine ⟨⟨some .empty, p0.computed + 1⟩, _, ⟨some .empty, p1.computed + 1⟩, _,
        m0.append (gen0 p0.computed (n - m0.len)), m1.append (gen1 p1.computed (n - m1.len)),
        by simp [provide, s0, hn]; rfl, by simp [provide, s1, hl ▸ hn]; rfl,
        ⟨by simp [hc], .inr ⟨_, _, rfl, rfl, empty_wf, empty_wf, ?_⟩⟩, append_wf w0 v0, ?_, ?_, ?_⟩
      · simp [MulTriples.rows, MulTriples.empty]
      · rw [← hc, ← hl]; exact append_wf w1 v1
      · rw [append_rows w0, append_rows w1]
        exact List.rel_append hv (by rw [← hc, ← hl]; exact hv')
      · rw [append_rows w0, List.length_append, hl', rows_length w0]
        have := (nextMultipleOf8_spec (n - m0.len)).1
        omega

theorem storeLoop_pair {gen0 gen1 : Nat → Nat → MulTriples Bool}
    (hg : ∀ k n, (gen0 k n).WF ∧ (gen1 k n).WF ∧ List.Forall₂ Valid (gen0 k n).rows (gen1 k n).rows ∧
      (gen0 k n).rows.length = nextMultipleOf8 n)
    (batch k : Nat) {p0 p1 : Provider} (hp : PairOk p0 p1) :
    ∃ q0 f0 q1 f1, storeLoop gen0 batch k p0 = some (q0, f0) ∧ storeLoop gen1 batch k p1 = some (q1, f1) ∧
      List.Forall₂ (fun b b' => b.WF ∧ b'.WF ∧ List.Forall₂ Valid b.rows b'.rows) f0 f1 ∧
      (∀ b ∈ f0, batch ≤ b.rows.length) ∧ f0.length = k := by
  induction k generalizing p0 p1 with
  | zero => exact ⟨p0, [], p1, [], rfl, rfl, .nil, by simp, rfl⟩
  | succ k ih =>
    obtain ⟨q0, g0, q1, g1, b0, b1, e0, e1, hq, w0, w1, hv, hl⟩ := request_pair_wf hg hp batch
    obtain ⟨r0, f0, r1, f1, h0, h1, h2, h3, h4⟩ := ih hq
    refine ⟨r0, b0 :: f0, r1, b1 :: f1, by simp [storeLoop, e0, h0], by simp [storeLoop, e1, h1],
      .cons ⟨w0, w1, hv⟩ h2, ?_, by simp [h4]⟩
    intro b hb
    rcases List.mem_cons.1 hb with rfl | hb
    · exact hl
    · exact h3 b hb

theorem content_length_ge {batch : Nat} {f : List (MulTriples α)} (h : ∀ b ∈ f, batch ≤ b.rows.length) :
    batch * f.length ≤ (content f).length := by
  induction f with
  | nil => simp
  | cons b f ih =>
    have h1 := h b (by simp)
    have h2 := ih fun b hb => h b (by simp [hb])
    simp only [content, List.flatMap_cons, List.length_append, List.length_cons] at h2 ⊢
    rw [Nat.mul_succ]
    omega

/-- Two parties with providers in step store `count` triples each in batches of the same size: they get
matching files with at least `count` triples, no batch of them empty. -/
theorem store_pair {gen0 gen1 : Nat → Nat → MulTriples Bool}
    (hg : ∀ k n, (gen0 k n).WF ∧ (gen1 k n).WF ∧ List.Forall₂ Valid (gen0 k n).rows (gen1 k n).rows ∧
      (gen0 k n).rows.length = nextMultipleOf8 n)
    {p0 p1 : Provider} (hp : PairOk p0 p1) (count batch : Nat) (hb : 0 < batch) :
    ∃ f0 f1, storeProvider gen0 p0 count batch = some f0 ∧ storeProvider gen1 p1 count batch = some f1 ∧
      Storage.Rel Valid ⟨f0, .empty⟩ ⟨f1, .empty⟩ ∧ count ≤ (content f0).length ∧
      (∀ b ∈ f0, 0 < b.rows.length) ∧ (0 < count → f0 ≠ []) := by
  obtain ⟨q0, f0, q1, f1, h0, h1, h2, h3, h4⟩ := storeLoop_pair hg batch ((count + batch - 1) / batch) hp
  have hd := Nat.div_add_mod (count + batch - 1) batch
  have hm := Nat.mod_lt (count + batch - 1) hb
  refine ⟨f0, f1, by simp [storeProvider, h0]; omega, by simp [storeProvider, h1]; omega,
    ⟨h2, empty_wf, empty_wf, by simp [MulTriples.rows, MulTriples.empty]⟩, ?_,
    fun b hb' => Nat.lt_of_lt_of_le hb (h3 b hb'), ?_⟩
  · have := content_length_ge h3
    rw [h4] at this
    omega
  · rintro hc rfl
    simp only [List.length_nil] at h4
    rw [← h4] at hd
    omega

/-! ### Reading with looping -/

theorem readLoop_rel (R : α × α × α → β × β × β → Prop) (amount : Nat)
    {whole : List (MulTriples α)} {whole' : List (MulTriples β)}
    (hw : List.Forall₂ (fun b b' => b.WF ∧ b'.WF ∧ List.Forall₂ R b.rows b'.rows) whole whole')
    (hne : whole ≠ []) (hpos : ∀ b ∈ whole, 0 < b.len) (fuel : Nat)
    {file : List (MulTriples α)} {file' : List (MulTriples β)} (hsub : ∀ b ∈ file, b ∈ whole)
    (h : List.Forall₂ (fun b b' => b.WF ∧ b'.WF ∧ List.Forall₂ R b.rows b'.rows) file file')
    (added : Nat) (hfuel : amount ≤ added + fuel) (s : MulTriples α) (t : MulTriples β) (hs : s.WF) (ht : t.WF)
    (hst : List.Forall₂ R s.rows t.rows) :
    ∃ f s' f' t', readLoop whole amount fuel added file s = some (f, s', true) ∧
      readLoop whole' amount fuel added file' t = some (f', t', true) ∧ Storage.Rel R ⟨f, s'⟩ ⟨f', t'⟩ ∧
      (∀ b ∈ f, b ∈ whole) ∧ (amount ≤ added ∧ s' = s ∨ s.len + amount ≤ s'.len + added) := by
  induction fuel generalizing file file' added s t with
  | zero =>
    have ha : amount ≤ added := by omega
    exact ⟨file, s, file', t, by simp [readLoop, ha], by simp [readLoop, ha], ⟨h, hs, ht, hst⟩, hsub, .inl ⟨ha, rfl⟩⟩
  | succ fuel ih =>
    by_cases ha : amount ≤ added
    · exact ⟨file, s, file', t, by simp [readLoop, ha], by simp [readLoop, ha], ⟨h, hs, ht, hst⟩, hsub, .inl ⟨ha, rfl⟩⟩
    · have step : ∀ (b : MulTriples α) (bs : List (MulTriples α)) (b' : MulTriples β) (bs' : List (MulTriples β)),
          (∀ x ∈ b :: bs, x ∈ whole) →
          (b.WF ∧ b'.WF ∧ List.Forall₂ R b.rows b'.rows) →
          List.Forall₂ (fun b b' => b.WF ∧ b'.WF ∧ List.Forall₂ R b.rows b'.rows) bs bs' →
          ∃ f s' f' t', readLoop whole amount fuel (added + b.len) bs (s.append b) = some (f, s', true) ∧
            readLoop whole' amount fuel (added + b'.len) bs' (t.append b') = some (f', t', true) ∧
            Storage.Rel R ⟨f, s'⟩ ⟨f', t'⟩ ∧ (∀ b ∈ f, b ∈ whole) ∧
            s.len + amount ≤ s'.len + added := by
        intro b bs b' bs' hm ⟨w, w', hr⟩ hbs
        have hlt := hpos b (hm b (by simp))
        obtain ⟨f, s', f', t', h1, h2, h3, h4, h5⟩ := ih (fun x hx => hm x (by simp [hx])) hbs (added + b.len) (by omega)
          (s.append b) (t.append b') (append_wf hs w) (append_wf ht w')
          (by rw [append_rows hs, append_rows ht]; exact List.rel_append hst hr)
        have hl : (s.append b).len = s.len + b.len := by
          rw [← rows_length (append_wf hs w), append_rows hs, List.length_append, rows_length hs, rows_length w]
        refine ⟨f, s', f', t', h1, by rw [← rel_len w w' hr]; exact h2, h3, h4, ?_⟩
        rcases h5 with ⟨h5, rfl⟩ | h5 <;> omega
      cases h with
      | cons hb hbs =>
        obtain ⟨f, s', f', t', h1, h2, h3, h4, h5⟩ := step _ _ _ _ hsub hb hbs
        exact ⟨f, s', f', t', by simp [readLoop, ha, h1], by simp [readLoop, ha, h2], h3, h4, .inr h5⟩
      | nil =>
        cases hw with
        | nil => exact absurd rfl hne
        | cons hb hbs =>
          obtain ⟨f, s', f', t', h1, h2, h3, h4, h5⟩ := step _ _ _ _ (fun x hx => hx) hb hbs
          exact ⟨f, s', f', t', by simp [readLoop, ha, h1], by simp [readLoop, ha, h2], h3, h4, .inr h5⟩

/-- Two storages in step read a looped file: every request is answered with exactly the number of triples
asked for, and they match. -/
theorem loop_pair (R : α × α × α → β × β × β → Prop) (k : Kind)
    {whole : List (MulTriples α)} {whole' : List (MulTriples β)}
    (hw : List.Forall₂ (fun b b' => b.WF ∧ b'.WF ∧ List.Forall₂ R b.rows b'.rows) whole whole')
    (hne : whole ≠ []) (hpos : ∀ b ∈ whole, 0 < b.len) (s : Storage α) (t : Storage β)
    (hst : s.Rel R t) (hsub : ∀ b ∈ s.file, b ∈ whole) (c : Call) :
    ∃ s' o t' o', loopCall k whole s c = some (s', o) ∧ loopCall k whole' t c = some (t', o') ∧
      s'.Rel R t' ∧ (∀ b ∈ s'.file, b ∈ whole) ∧
      match c with
      | .precompute _ => o = [] ∧ o' = []
      | .request n => ∃ m m', o = [some m] ∧ o' = [some m'] ∧ m.rows.length = n ∧ List.Forall₂ R m.rows m'.rows := by
  obtain ⟨hf, hs, ht, hst⟩ := hst
  cases c with
  | precompute n =>
    obtain ⟨f, s', f', t', h1, h2, h3, h4, -⟩ := readLoop_rel R n hw hne hpos n hsub hf 0 (by omega) _ _ hs ht hst
    exact ⟨⟨f, s'⟩, [], ⟨f', t'⟩, [], by simp [loopCall, h1], by simp [loopCall, h2], h3, h4, rfl, rfl⟩
  | request n =>
    have hl := rel_len hs ht hst
    have load : ∃ f s' f' t',
        (if s.stored.len < n then readLoop whole (n - s.stored.len) n 0 s.file s.stored
          else some (s.file, s.stored, true)) = some (f, s', true) ∧
        (if t.stored.len < n then readLoop whole' (n - t.stored.len) n 0 t.file t.stored
          else some (t.file, t.stored, true)) = some (f', t', true) ∧ Storage.Rel R ⟨f, s'⟩ ⟨f', t'⟩ ∧
        (∀ b ∈ f, b ∈ whole) ∧ n ≤ s'.len := by
      by_cases hn : s.stored.len < n
      · obtain ⟨f, s', f', t', h1, h2, h3, h4, h5⟩ :=
          readLoop_rel R (n - s.stored.len) hw hne hpos n hsub hf 0 (by omega) _ _ hs ht hst
        refine ⟨f, s', f', t', by simp [hn, h1], by simp [← hl, hn, h2], h3, h4, ?_⟩
        rcases h5 with ⟨h5, -⟩ | h5 <;> omega
      · exact ⟨s.file, s.stored, t.file, t.stored, by simp [hn], by simp [← hl, hn], ⟨hf, hs, ht, hst⟩, hsub, by omega⟩
    obtain ⟨f, s', f', t', h1, h2, ⟨r1, r2, r3, r4⟩, h4, h5⟩ := load
    obtain ⟨s'', r, t'', q, g1, g2, w1, w2, w3, w4, g3, g4⟩ := removeFirst_rel R k r2 r3 r4 h5
    obtain ⟨s2, r2', f1, f2, f3, f4', f5, f6⟩ := removeFirst_split k r2 h5
    rw [g1] at f1
    cases f1
    exact ⟨⟨f, s''⟩, [some r], ⟨f', t''⟩, [some q], by simp only [loopCall, h1, g1, Option.map_some],
      by simp only [loopCall, h2, g2, Option.map_some],
      ⟨r1, w1, w3, g4⟩, h4, r, q, rfl, rfl, f4', g3⟩

end Verif.Mt
