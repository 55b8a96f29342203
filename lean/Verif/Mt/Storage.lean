import Verif.Mt.Provider

/-!
Triples kept in a file (C25).  The file is modelled as the list of batches in it; that bincode
reads back what it wrote is assumed.
-/
set_option autoImplicit false

namespace Verif.Mt
variable {α β : Type}

/-- storage.rs:72-90 `store_mts`: `div_ceil(count, batch)` requests of `batch` triples each, every
answer is written as one batch; `answer k` is the provider's answer to the `k`-th request.  `none`
is the division by zero for an empty batch size. -/
def storeMts (count batch : Nat) (answer : Nat → MulTriples α) : Option (List (MulTriples α)) :=
  if batch = 0 then none
  else some ((List.range ((count + batch - 1) / batch)).map answer)

/-- storage.rs:20-26 `MTStorage`: the batches not yet read, and `stored_mts`. -/
structure Storage (α : Type) where
  file : List (MulTriples α)
  stored : MulTriples α := .empty
deriving DecidableEq, Repr

/-- storage.rs:110-137 `precompute_mts` (without the `bench-api` looping): reads batches until
`amount` were added.  The flag is `false` if reading failed; batches read before stay added. -/
def readBatches (amount : Nat) : Nat → List (MulTriples α) → MulTriples α →
    List (MulTriples α) × MulTriples α × Bool
  | added, [], stored => ([], stored, amount ≤ added)
  | added, b :: bs, stored =>
    if amount ≤ added then (b :: bs, stored, true)
    else readBatches amount (added + b.len) bs (stored.append b)

/-- storage.rs:110-145 the two calls.  The result of a request is `none` for an error; a panic is
the outer `none`. -/
def storageCall (k : Kind) (s : Storage α) : Call → Option (Storage α × List (Option (MulTriples α)))
  | .precompute n =>
    let (f, st, _) := readBatches n 0 s.file s.stored
    some (⟨f, st⟩, [])
  | .request n =>
    let (f, st, ok) :=
      if s.stored.len < n then readBatches (n - s.stored.len) 0 s.file s.stored
      else (s.file, s.stored, true)
    if ok then (removeFirst k st n).map fun (rest, out) => (⟨f, rest⟩, [some out])
    else some (⟨f, st⟩, [none])

def storageCalls (k : Kind) (s : Storage α) : List Call →
    Option (Storage α × List (Option (MulTriples α)))
  | [] => some (s, [])
  | c :: cs => do
    let (s', o) ← storageCall k s c
    let (s'', os) ← storageCalls k s' cs
    pure (s'', o ++ os)

/-! ### Specification -/

/-- All triples of a list of batches in order. -/
def content (bs : List (MulTriples α)) : List (α × α × α) := bs.flatMap MulTriples.rows

/-- What `left` triples allow to answer to a list of calls: a request succeeds if and only if there
are enough left, and then uses up what it asked for. -/
def answers (left : Nat) : List Call → List (Option Nat)
  | [] => []
  | .precompute _ :: cs => answers left cs
  | .request n :: cs => if n ≤ left then some n :: answers (left - n) cs else none :: answers left cs

/-- The answers to a list of calls in generation order: each request takes the next triples. -/
def segments {γ : Type} (l : List γ) : List Call → List (Option (List γ))
  | [] => []
  | .precompute _ :: cs => segments l cs
  | .request n :: cs =>
    if n ≤ l.length then some (l.take n) :: segments (l.drop n) cs else none :: segments l cs

/-- The triples handed out. -/
def handedOut (outs : List (Option (MulTriples α))) : List (α × α × α) :=
  outs.flatMap fun o => match o with
    | some m => m.rows
    | none => []

/-! ### Lemmas -/

theorem readBatches_spec (amount : Nat) (file : List (MulTriples α)) (added : Nat)
    (stored : MulTriples α) (hf : ∀ b ∈ file, b.WF) (hs : stored.WF) :
    ∃ f st ok, readBatches amount added file stored = (f, st, ok) ∧ (∀ b ∈ f, b.WF) ∧ st.WF ∧
      st.rows ++ content f = stored.rows ++ content file ∧
      (ok = true ↔ amount ≤ added + (content file).length) ∧
      (ok = true → stored.rows.length + amount ≤ added + st.rows.length) := by
  induction file generalizing added stored with
  | nil =>
    refine ⟨[], stored, decide (amount ≤ added), rfl, by simp, hs, rfl, by simp [content], ?_⟩
    intro h; simp only [decide_eq_true_eq] at h; omega
  | cons b bs ih =>
    by_cases h : amount ≤ added
    · refine ⟨b :: bs, stored, true, by simp [readBatches, h], hf, hs, rfl, by simp; omega, ?_⟩
      intro _; omega
    · have hb := hf b (by simp)
      obtain ⟨f, st, ok, h1, h2, h3, h4, h5, h6⟩ :=
        ih (added + b.len) (stored.append b) (fun x hx => hf x (by simp [hx])) (append_wf hs hb)
      refine ⟨f, st, ok, by simp [readBatches, h, h1], h2, h3, ?_, ?_, ?_⟩
      · rw [h4, append_rows hs]; simp [content]
      · rw [h5, ← rows_length hb]; simp [content]; omega
      · intro hok
        have := h6 hok
        rw [append_rows hs, List.length_append, rows_length hb] at this
        omega

/-- What one request does. -/
theorem request_spec (k : Kind) (s : Storage α) (hf : ∀ b ∈ s.file, b.WF) (hs : s.stored.WF)
    (n : Nat) :
    ∃ s' o, storageCall k s (.request n) = some (s', [o]) ∧ (∀ b ∈ s'.file, b.WF) ∧ s'.stored.WF ∧
      ((n ≤ (s.stored.rows ++ content s.file).length ∧ ∃ m, o = some m ∧ m.rows.length = n ∧
          (m.rows ++ (s'.stored.rows ++ content s'.file)).Perm (s.stored.rows ++ content s.file) ∧
          (k = .arithmetic → m.rows = (s.stored.rows ++ content s.file).take n ∧
            s'.stored.rows ++ content s'.file = (s.stored.rows ++ content s.file).drop n)) ∨
       (¬ n ≤ (s.stored.rows ++ content s.file).length ∧ o = none ∧
          s'.stored.rows ++ content s'.file = s.stored.rows ++ content s.file)) := by
  have hl := rows_length hs
  have load : ∃ f st ok, (if s.stored.len < n then
        readBatches (n - s.stored.len) 0 s.file s.stored else (s.file, s.stored, true)) = (f, st, ok) ∧
      (∀ b ∈ f, b.WF) ∧ st.WF ∧ st.rows ++ content f = s.stored.rows ++ content s.file ∧
      (ok = true ↔ n ≤ (s.stored.rows ++ content s.file).length) ∧
      (ok = true → n ≤ st.rows.length) := by
    by_cases h : s.stored.len < n
    · obtain ⟨f, st, ok, h1, h2, h3, h4, h5, h6⟩ :=
        readBatches_spec (n - s.stored.len) s.file 0 s.stored hf hs
      refine ⟨f, st, ok, by simp [h, h1], h2, h3, h4, ?_, fun hok => ?_⟩
      · rw [h5, List.length_append]; omega
      · have := h6 hok; omega
    · refine ⟨s.file, s.stored, true, by simp [h], hf, hs, rfl, ?_, fun _ => by omega⟩
      simp only [List.length_append, true_iff]; omega
  obtain ⟨f, st, ok, h1, h2, h3, h4, h5, h6⟩ := load
  cases ok with
  | false =>
    refine ⟨⟨f, st⟩, none, by simp [storageCall, h1], h2, h3, .inr ⟨?_, rfl, h4⟩⟩
    intro hc; exact absurd (h5.2 hc) (by simp)
  | true =>
    have hn : n ≤ st.len := by rw [← rows_length h3]; exact h6 rfl
    obtain ⟨r, o, g1, g2, g3, g4, g5, g6⟩ := removeFirst_split k h3 hn
    refine ⟨⟨f, r⟩, some o, by simp [storageCall, h1, g1], h2, g2,
      .inl ⟨h5.1 rfl, o, rfl, g4, ?_, ?_⟩⟩
    · rw [← h4, ← List.append_assoc]; exact g6.append_right _
    · rintro rfl
      obtain ⟨r', o', e1, _, _, _, e2⟩ := removeFirst_rows .arithmetic h3 hn
      rw [g1] at e1
      simp only [Option.some.injEq, Prod.mk.injEq] at e1
      obtain ⟨rfl, rfl⟩ := e1
      obtain ⟨e3, e4⟩ := e2 rfl
      have hn' : n ≤ st.rows.length := h6 rfl
      rw [← h4, e3, e4, List.take_append_of_le_length hn', List.drop_append_of_le_length hn']
      exact ⟨rfl, rfl⟩

theorem precompute_spec (k : Kind) (s : Storage α) (hf : ∀ b ∈ s.file, b.WF) (hs : s.stored.WF)
    (n : Nat) :
    ∃ s', storageCall k s (.precompute n) = some (s', []) ∧ (∀ b ∈ s'.file, b.WF) ∧
      s'.stored.WF ∧ s'.stored.rows ++ content s'.file = s.stored.rows ++ content s.file := by
  obtain ⟨f, st, ok, h1, h2, h3, h4, h5, h6⟩ := readBatches_spec n s.file 0 s.stored hf hs
  exact ⟨⟨f, st⟩, by simp [storageCall, h1], h2, h3, h4⟩

/-! ### C25 -/

/-- C25 for both kinds of triples, any batches and any sequence of calls: nothing panics, a request
succeeds if and only if enough triples are left and then returns exactly the number asked for, and
what was handed out together with what is left are the stored triples, none skipped or repeated. -/
theorem storage_conserves (k : Kind) (calls : List Call) (s : Storage α)
    (hf : ∀ b ∈ s.file, b.WF) (hs : s.stored.WF) :
    ∃ s' outs, storageCalls k s calls = some (s', outs) ∧
      outs.map (Option.map fun m => m.rows.length) =
        answers (s.stored.rows ++ content s.file).length calls ∧
      (handedOut outs ++ (s'.stored.rows ++ content s'.file)).Perm
        (s.stored.rows ++ content s.file) := by
  induction calls generalizing s with
  | nil => exact ⟨s, [], rfl, rfl, by simp [handedOut]⟩
  | cons c cs ih =>
    cases c with
    | precompute n =>
      obtain ⟨s1, h1, h2, h3, h4⟩ := precompute_spec k s hf hs n
      obtain ⟨s', outs, g1, g2, g3⟩ := ih s1 h2 h3
      rw [h4] at g2 g3
      exact ⟨s', outs, by simp [storageCalls, h1, g1], g2, g3⟩
    | request n =>
      obtain ⟨s1, o, h1, h2, h3, h4⟩ := request_spec k s hf hs n
      obtain ⟨s', outs, g1, g2, g3⟩ := ih s1 h2 h3
      refine ⟨s', o :: outs, by simp [storageCalls, h1, g1], ?_, ?_⟩
      · rcases h4 with ⟨hn, m, rfl, hm, hp, -⟩ | ⟨hn, rfl, he⟩
        · have := hp.length_eq
          rw [List.length_append, hm] at this
          simp only [List.map_cons, Option.map_some, hm, answers, hn, if_true, g2]
          rw [show (s1.stored.rows ++ content s1.file).length =
            (s.stored.rows ++ content s.file).length - n by omega]
        · simp only [List.map_cons, Option.map_none, answers, hn, if_false, g2, he]
      · rcases h4 with ⟨hn, m, rfl, hm, hp, -⟩ | ⟨hn, rfl, he⟩
        · simp only [handedOut, List.flatMap_cons, List.append_assoc] at g3 ⊢
          exact (g3.append_left m.rows).trans hp
        · rw [he] at g3
          simpa [handedOut] using g3

/-- C25 for stores that use the default `remove_first` (the arithmetic triples): the requests get
the stored triples in generation order, one segment after the other, independently of how they were
cut into batches. -/
theorem storage_in_order (calls : List Call) (s : Storage α)
    (hf : ∀ b ∈ s.file, b.WF) (hs : s.stored.WF) :
    ∃ s' outs, storageCalls .arithmetic s calls = some (s', outs) ∧
      outs.map (Option.map MulTriples.rows) = segments (s.stored.rows ++ content s.file) calls := by
  induction calls generalizing s with
  | nil => exact ⟨s, [], rfl, rfl⟩
  | cons c cs ih =>
    cases c with
    | precompute n =>
      obtain ⟨s1, h1, h2, h3, h4⟩ := precompute_spec .arithmetic s hf hs n
      obtain ⟨s', outs, g1, g2⟩ := ih s1 h2 h3
      exact ⟨s', outs, by simp [storageCalls, h1, g1], by rw [g2, h4]; rfl⟩
    | request n =>
      obtain ⟨s1, o, h1, h2, h3, h4⟩ := request_spec .arithmetic s hf hs n
      obtain ⟨s', outs, g1, g2⟩ := ih s1 h2 h3
      refine ⟨s', o :: outs, by simp [storageCalls, h1, g1], ?_⟩
      rcases h4 with ⟨hn, m, rfl, hm, -, ho⟩ | ⟨hn, rfl, he⟩
      · obtain ⟨e1, e2⟩ := ho rfl
        simp only [List.map_cons, Option.map_some, segments, hn, if_true, g2, e1, e2]
      · simp only [List.map_cons, Option.map_none, segments, hn, if_false, g2, he]

/-- Two storages in step: related batches of the same sizes. -/
def Storage.Rel (R : α × α × α → β × β × β → Prop) (s : Storage α) (t : Storage β) : Prop :=
  List.Forall₂ (fun b b' => b.WF ∧ b'.WF ∧ List.Forall₂ R b.rows b'.rows) s.file t.file ∧
  s.stored.WF ∧ t.stored.WF ∧ List.Forall₂ R s.stored.rows t.stored.rows

theorem readBatches_rel (R : α × α × α → β × β × β → Prop) (amount : Nat)
    {file : List (MulTriples α)} {file' : List (MulTriples β)}
    (h : List.Forall₂ (fun b b' => b.WF ∧ b'.WF ∧ List.Forall₂ R b.rows b'.rows) file file')
    (added : Nat) (s : MulTriples α) (t : MulTriples β) (hs : s.WF) (ht : t.WF)
    (hst : List.Forall₂ R s.rows t.rows) :
    ∃ f s' ok f' t', readBatches amount added file s = (f, s', ok) ∧
      readBatches amount added file' t = (f', t', ok) ∧ Storage.Rel R ⟨f, s'⟩ ⟨f', t'⟩ := by
  induction h generalizing added s t with
  | nil => exact ⟨[], s, _, [], t, rfl, rfl, .nil, hs, ht, hst⟩
  | @cons b b' bs bs' hb hbs ih =>
    obtain ⟨w, w', hr⟩ := hb
    by_cases h : amount ≤ added
    · exact ⟨b :: bs, s, true, b' :: bs', t, by simp [readBatches, h], by simp [readBatches, h],
        .cons ⟨w, w', hr⟩ hbs, hs, ht, hst⟩
    · obtain ⟨f, s', ok, f', t', h1, h2, h3⟩ := ih (added + b.len) (s.append b) (t.append b')
        (append_wf hs w) (append_wf ht w')
        (by rw [append_rows hs, append_rows ht]; exact List.rel_append hst hr)
      exact ⟨f, s', ok, f', t', by simp [readBatches, h, h1],
        by simp [readBatches, h, ← rel_len w w' hr, h2], h3⟩

/-- C25, two parties with pairwise related batches (as written by two providers in step) making the
same calls: every request succeeds for both or fails for both, and what they get is pairwise
related.  For both kinds of triples and every relation, e.g. validity. -/
theorem storage_pairwise (R : α × α × α → β × β × β → Prop) (k : Kind) (calls : List Call)
    (s : Storage α) (t : Storage β) (h : s.Rel R t) :
    ∃ s' o t' o', storageCalls k s calls = some (s', o) ∧ storageCalls k t calls = some (t', o') ∧
      s'.Rel R t' ∧ List.Forall₂ (fun x y => Option.Rel (fun m m' : MulTriples _ =>
        List.Forall₂ R m.rows m'.rows) x y) o o' := by
  induction calls generalizing s t with
  | nil => exact ⟨s, [], t, [], rfl, rfl, h, .nil⟩
  | cons c cs ih =>
    obtain ⟨hf, hs, ht, hst⟩ := h
    have one : ∃ s1 o t1 o', storageCall k s c = some (s1, o) ∧
        storageCall k t c = some (t1, o') ∧ s1.Rel R t1 ∧
        List.Forall₂ (fun x y => Option.Rel (fun m m' : MulTriples _ =>
          List.Forall₂ R m.rows m'.rows) x y) o o' := by
      cases c with
      | precompute n =>
        obtain ⟨f, s', ok, f', t', h1, h2, h3⟩ := readBatches_rel R n hf 0 _ _ hs ht hst
        exact ⟨⟨f, s'⟩, [], ⟨f', t'⟩, [], by simp [storageCall, h1], by simp [storageCall, h2],
          h3, .nil⟩
      | request n =>
        have hl := rel_len hs ht hst
        have load : ∃ f s' ok f' t',
            (if s.stored.len < n then readBatches (n - s.stored.len) 0 s.file s.stored
              else (s.file, s.stored, true)) = (f, s', ok) ∧
            (if t.stored.len < n then readBatches (n - t.stored.len) 0 t.file t.stored
              else (t.file, t.stored, true)) = (f', t', ok) ∧ Storage.Rel R ⟨f, s'⟩ ⟨f', t'⟩ ∧
            (ok = true → n ≤ s'.len) := by
          by_cases hn : s.stored.len < n
          · obtain ⟨f, s', ok, f', t', h1, h2, h3⟩ :=
              readBatches_rel R (n - s.stored.len) hf 0 _ _ hs ht hst
            refine ⟨f, s', ok, f', t', by simp [hn, h1], by simp [← hl, hn, h2], h3, fun hok => ?_⟩
            have hwf : ∀ b ∈ s.file, b.WF := by
              intro b hb
              obtain ⟨i, hi, rfl⟩ := List.mem_iff_getElem.1 hb
              exact (List.Forall₂.get hf hi (hf.length_eq ▸ hi)).1
            obtain ⟨_, _, _, e1, _, e3, _, _, e6⟩ :=
              readBatches_spec (n - s.stored.len) s.file 0 s.stored hwf hs
            rw [h1] at e1
            simp only [Prod.mk.injEq] at e1
            obtain ⟨rfl, rfl, rfl⟩ := e1
            have := e6 hok
            rw [rows_length hs, rows_length e3] at this
            omega
          · exact ⟨s.file, s.stored, true, t.file, t.stored, by simp [hn], by simp [← hl, hn],
              ⟨hf, hs, ht, hst⟩, fun _ => by omega⟩
        obtain ⟨f, s', ok, f', t', h1, h2, ⟨r1, r2, r3, r4⟩, h4⟩ := load
        cases ok with
        | false =>
          exact ⟨⟨f, s'⟩, [none], ⟨f', t'⟩, [none], by simp [storageCall, h1],
            by simp [storageCall, h2], ⟨r1, r2, r3, r4⟩, .cons .none .nil⟩
        | true =>
          obtain ⟨s'', r, t'', q, g1, g2, w1, w2, w3, w4, g3, g4⟩ :=
            removeFirst_rel R k r2 r3 r4 (h4 rfl)
          exact ⟨⟨f, s''⟩, [some r], ⟨f', t''⟩, [some q], by simp [storageCall, h1, g1],
            by simp [storageCall, h2, g2], ⟨r1, w1, w3, g4⟩, .cons (.some g3) .nil⟩
    obtain ⟨s1, o, t1, o', h1, h2, h3, h4⟩ := one
    obtain ⟨s', os, t', os', g1, g2, g3, g4⟩ := ih s1 t1 h3
    exact ⟨s', o ++ os, t', o' ++ os', by simp [storageCalls, h1, g1],
      by simp [storageCalls, h2, g2], g3, List.rel_append h4 g4⟩

/-- Storing `count` triples writes at least that many, in the order of the provider's answers. -/
theorem store_mts_content (count batch : Nat) (answer : Nat → MulTriples α) (hb : 0 < batch)
    (ha : ∀ k, (answer k).WF ∧ batch ≤ (answer k).rows.length) :
    ∃ n file, storeMts count batch answer = some file ∧ file = (List.range n).map answer ∧
      (∀ b ∈ file, b.WF) ∧ count ≤ (content file).length := by
  refine ⟨_, _, if_neg (by omega), rfl, ?_, ?_⟩
  · intro b hb
    obtain ⟨i, -, rfl⟩ := List.mem_map.1 hb
    exact (ha i).1
  · have key : ∀ n, batch * n ≤ (content ((List.range n).map answer)).length := by
      intro n
      induction n with
      | zero => simp
      | succ n ih =>
        rw [List.range_succ, List.map_append]
        simp only [content, List.flatMap_append, List.map_cons, List.map_nil, List.flatMap_cons,
          List.flatMap_nil, List.append_nil, List.length_append] at ih ⊢
        have := (ha n).2
        rw [Nat.mul_succ]; omega
    refine Nat.le_trans ?_ (key _)
    have := Nat.div_add_mod (count + batch - 1) batch
    have := Nat.mod_lt (count + batch - 1) hb
    omega

/-- C25 fails for the Boolean triples as far as the order goes: `remove_first` takes from the end.
Two batches, one request over both: the last triples are handed out and the first ones stay. -/
theorem boolean_storage_out_of_order :
    ∃ (file : List (MulTriples Bool)) (calls : List Call) (s' : Storage Bool)
      (outs : List (Option (MulTriples Bool))),
      (∀ b ∈ file, b.WF) ∧ storageCalls .boolean ⟨file, .empty⟩ calls = some (s', outs) ∧
      outs.map (Option.map MulTriples.rows) ≠ segments (content file) calls :=
  ⟨[⟨[true, false], [true, false], [true, false]⟩, ⟨[false, false], [true, true], [false, false]⟩],
    [.request 3], ⟨[], ⟨[true], [true], [true]⟩⟩,
    [some ⟨[false, false, false], [false, true, true], [false, false, false]⟩],
    by decide, by decide, by decide⟩

/-- Hence the order matters between the parties: two files with the same valid triples, cut into
batches differently, get out of step for Boolean triples. -/
theorem boolean_batch_sizes_matter :
    ∃ (f0 f1 : List (MulTriples Bool)) (calls : List Call) (s0 s1 : Storage Bool)
      (m0 m1 : MulTriples Bool),
      List.Forall₂ Valid (content f0) (content f1) ∧
      storageCalls .boolean ⟨f0, .empty⟩ calls = some (s0, [some m0]) ∧
      storageCalls .boolean ⟨f1, .empty⟩ calls = some (s1, [some m1]) ∧
      ¬ List.Forall₂ Valid m0.rows m1.rows :=
  ⟨[⟨[true, true], [true, false], [false, false]⟩],
   [⟨[false], [true], [false]⟩, ⟨[false], [false], [false]⟩], [.request 1],
   ⟨[], ⟨[true], [true], [false]⟩⟩, ⟨[⟨[false], [false], [false]⟩], .empty⟩,
   ⟨[true], [false], [false]⟩, ⟨[false], [true], [false]⟩,
   by decide, by decide, by decide, by decide⟩

/-- A load over several batches, with a request that cannot be met in between. -/
example : storageCalls .arithmetic (α := Nat) ⟨[⟨[1, 2], [3, 4], [5, 6]⟩, ⟨[7], [8], [9]⟩], .empty⟩
    [.precompute 1, .request 1, .request 5, .request 2] =
    some (⟨[], .empty⟩, [some ⟨[1], [3], [5]⟩, none, some ⟨[2, 7], [4, 8], [6, 9]⟩]) := by rfl

end Verif.Mt
