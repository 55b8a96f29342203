import Verif.Exec.Words

/-!
C95: two executors on SIMD shares in words.
-/
set_option autoImplicit false

namespace Verif.Exec

open Circuit Proc Gmw

theorem shares_of_outRel {m : Multi BoolGate} {c0 : Base BoolGate} {val : Node → Bool}
    {valV : Node → List Bool} {o0 o1 : Input Bool (List Bool)}
    (hout : OutRel c0 (RB val) (RBV valV) o0 o1) (hty : isSimd m 0 = false ↔ ∃ l, o0 = .scalar l) :
    Shares o0 o1 (plainOutput m c0 val valV) := by
  match o0, o1, hout, hty with
  | .scalar a, .scalar b, hout, hty =>
    have hs : isSimd m 0 = false := hty.2 ⟨a, rfl⟩
    obtain ⟨l0, l1, hr⟩ := hout
    simp only [plainOutput, hs, Bool.false_eq_true, if_false, Shares, List.length_map]
    refine ⟨l0, l1, ?_⟩
    apply List.ext_getElem
    · simp [xorL, l0, l1]
    · intro i h1 h2
      simp only [xorL, List.getElem_zipWith, List.getElem_map]
      simp only [List.length_map] at h2
      exact hr i _ _ _ (by simp [h2]) (by simp [l0, h2]) (by simp [l1, h2])
  | .simd a, .simd b, hout, hty =>
    have hs : isSimd m 0 = true := by
      cases h : isSimd m 0 with
      | true => rfl
      | false => obtain ⟨l, hl⟩ := hty.1 h; cases hl
    obtain ⟨l0, l1, hr⟩ := hout
    simp only [plainOutput, hs, if_true, Shares]
    have hr' : ∀ i (h : i < c0.outputGates.length),
        RBV valV (0, c0.outputGates[i]) (a[i]'(by omega)) (b[i]'(by omega)) := fun i h =>
      hr i _ _ _ (by simp [h]) (by simp [l0, h]) (by simp [l1, h])
    refine ⟨?_, ?_, ?_⟩
    · apply List.ext_getElem
      · simp [l0]
      · intro i h1 h2
        simp only [List.length_map] at h2
        simp only [List.getElem_map]
        exact (hr' i h2).1
    · apply List.ext_getElem
      · simp [l1]
      · intro i h1 h2
        simp only [List.length_map] at h2
        simp only [List.getElem_map]
        exact (hr' i h2).2.1
    · apply List.ext_getElem
      · simp [l0, l1]
      · intro i h1 h2
        simp only [List.length_map] at h2
        simp only [List.getElem_zipWith, List.getElem_map]
        exact (hr' i h2).2.2

theorem outRel_lives {c0 : Base BoolGate} {val : Node → Bool} {hd : Node → Nat}
    {valV : Node → List Bool} {o0 o1 : Input Bool Raw}
    (hout : OutRel c0 (RB val) (RW hd valV) o0 o1) :
    OutRel c0 (RB val) (RBV valV) o0.lives o1.lives := by
  match o0, o1, hout with
  | .scalar a, .scalar b, hout => exact hout
  | .simd a, .simd b, hout =>
    obtain ⟨l0, l1, hr⟩ := hout
    refine ⟨by simpa using l0, by simpa using l1, ?_⟩
    intro i g x y hg hx hy
    simp only [List.getElem?_map, Option.map_eq_some_iff] at hx hy
    obtain ⟨x, hx, rfl⟩ := hx
    obtain ⟨y, hy, rfl⟩ := hy
    exact (hr i g x y hg hx hy).2.2.2.2

/-- C95.  Two executors with Boolean GMW on shares of the input whose SIMD vectors are kept in
words, and triples that begin at the same (arbitrary) position of their words at both parties: they
return shares of the plaintext output, provided that there are positions `hd` for the values of the
gates which agree with the layers the circuit is executed in (`HeadsOk`), in particular that the
operands of every XOR gate begin at the same position.  Restrictions as for
`gmw_execute_correct_partial`; without `HeadsOk` the claim is false (`words_execute_wrong`). -/
theorem gmw_words_correct_partial (m : Multi BoolGate) (rank : Node → Nat) (w : WF m rank)
    (hw : ExecWF m) (hu : Unmixed m) (c0 : Base BoolGate) (hc0 : m.circs[0]? = some c0)
    (inp0 inp1 : Input Bool Raw) (inp : Input Bool (List Bool)) (hi : InputOk m c0 inp)
    (hin : Shares inp0.lives inp1.lives inp) (setup0 setup1 : Nat → Nat → Mts)
    (hset : ∀ k n, Matching (setup0 k n).ts (setup1 k n).ts ∧ n ≤ (setup0 k n).ts.length ∧
      (setup1 k n).head = (setup0 k n).head)
    (init0 init1 : Store Bool Raw) (val : Node → Bool) (valV : Node → List Bool)
    (hp : PlainEval m inp val valV) (hd : Node → Nat)
    (hh : ∀ it ls, MIter.new m = some it →
      MIter.collect m ((m.circs.map fun c => c.gates.length).sum + 1) it = some ls → HeadsOk m hd ls)
    (hi0 : InputHeads c0 hd inp0) (hi1 : InputHeads c0 hd inp1) :
    ∃ ls o0 o1, LayersOk m ls ∧
      Exchange (fun l a b => MsgSize m l a ∧ MsgSize m l b) o0 o1 (interactiveLayers m ls)
        (execute wgmw m 0 inp0 setup0 init0) (execute wgmw m 1 inp1 setup1 init1) ∧
      Runs (execute wgmw m 0 inp0 setup0 init0) (execute wgmw m 1 inp1 setup1 init1) o0 o1 ∧
      Shares o0.lives o1.lives (plainOutput m c0 val valV) := by
  have hpv : ∀ v, ∀ u ∈ m.parents v, m.Valid u := by
    intro v u hu
    unfold Multi.parents at hu
    rcases List.mem_append.1 hu with h | h
    · cases hc : m.circs[v.1]? with
      | none => simp [hc] at h
      | some c =>
        simp only [hc, List.mem_map] at h
        obtain ⟨x, hx, rfl⟩ := h
        simp only [Base.parents, List.mem_map, List.mem_filter, List.mem_reverse] at hx
        obtain ⟨e, ⟨he, -⟩, rfl⟩ := hx
        exact ⟨c, hc, (w.edges v.1 c hc e he).1⟩
    · exact w.validFrom u v h
  have hl : InputLen c0 inp0 ∧ InputLen c0 inp1 := by
    match inp0, inp1, inp, hi, hin with
    | .scalar a, .scalar b, .scalar c, hi, hin =>
      exact ⟨(hin.1.trans hi.2).symm, (hin.2.1.trans hi.2).symm⟩
    | .simd a, .simd b, .simd c, hi, hin =>
      have h1 : a.length = c.length := by simpa using congrArg List.length hin.1
      have h2 : b.length = c.length := by simpa using congrArg List.length hin.2.1
      exact ⟨(h1.trans hi.2).symm, (h2.trans hi.2).symm⟩
  obtain ⟨ls, o0, o1, ok, hx, hout, hty⟩ := execute_spec' (pr := wgmw) (setup0 := setup0)
    (setup1 := setup1) (init0 := init0) (init1 := init1) w hw
    (fun it ls e1 e2 ok => wgmw_sound hc0 hpv hw.base hu hi hin hset hp ls ok hd (hh it ls e1 e2)
      hi0 hi1) c0 hc0 hl.1 hl.2
  refine ⟨ls, o0, o1, ok, hx, hx.runs, shares_of_outRel (outRel_lives hout) ?_⟩
  rw [hty]
  constructor
  · rintro ⟨l, rfl⟩; exact ⟨l, rfl⟩
  · rintro ⟨l, hl⟩
    match o0, hl with
    | .scalar a, _ => exact ⟨a, rfl⟩

/-- Every simd circuit has a multiple of 64 lanes. -/
def WordLanes (m : Multi BoolGate) : Prop := ∀ i, isSimd m i = true → lanes m i % 64 = 0

theorem offsets_zero (ns : List Nat) (h : ∀ n ∈ ns, n % 64 = 0) :
    ∀ i, i % 64 = 0 → offsets i ns = ns.map fun _ => 0 := by
  induction ns with
  | nil => intro i _; rfl
  | cons n ns ih =>
    intro i hi
    have := h n List.mem_cons_self
    simp only [offsets, List.map_cons, hi]
    rw [ih (fun k hk => h k (List.mem_cons_of_mem _ hk)) (i + n) (by omega)]

theorem headsOk_zero {m : Multi BoolGate} (hl : WordLanes m)
    (hx : ∀ v, m.gate? v = some .xor → isSimd m v.1 = true → ∀ u ∈ m.parents v,
      lanes m u.1 = lanes m v.1) (ls : List MLayer) : HeadsOk m (fun _ => 0) ls := by
  refine ⟨fun _ _ _ _ => rfl, fun _ _ _ _ => rfl, fun _ _ _ _ _ _ _ _ _ _ => rfl, hx, ?_⟩
  intro l _
  rw [offsets_zero _ _ 0 rfl, List.map_map]
  · rfl
  · intro n hn
    obtain ⟨v, hv, rfl⟩ := List.mem_map.1 hn
    rw [intSimd_eq, List.mem_filter] at hv
    exact hl _ hv.2

/-- C95.  With a multiple of 64 lanes in every simd circuit and input vectors that begin at a word,
executions are correct. -/
theorem gmw_words_aligned_partial (m : Multi BoolGate) (rank : Node → Nat) (w : WF m rank)
    (hw : ExecWF m) (hu : Unmixed m) (c0 : Base BoolGate) (hc0 : m.circs[0]? = some c0)
    (inp0 inp1 : Input Bool Raw) (inp : Input Bool (List Bool)) (hi : InputOk m c0 inp)
    (hin : Shares inp0.lives inp1.lives inp) (setup0 setup1 : Nat → Nat → Mts)
    (hset : ∀ k n, Matching (setup0 k n).ts (setup1 k n).ts ∧ n ≤ (setup0 k n).ts.length ∧
      (setup1 k n).head = (setup0 k n).head)
    (init0 init1 : Store Bool Raw) (val : Node → Bool) (valV : Node → List Bool)
    (hp : PlainEval m inp val valV) (hl : WordLanes m)
    (hx : ∀ v, m.gate? v = some .xor → isSimd m v.1 = true → ∀ u ∈ m.parents v,
      lanes m u.1 = lanes m v.1)
    (hi0 : InputHeads c0 (fun _ => 0) inp0) (hi1 : InputHeads c0 (fun _ => 0) inp1) :
    ∃ o0 o1,
      Runs (execute wgmw m 0 inp0 setup0 init0) (execute wgmw m 1 inp1 setup1 init1) o0 o1 ∧
      Shares o0.lives o1.lives (plainOutput m c0 val valV) := by
  obtain ⟨_, o0, o1, -, -, hr, hs⟩ := gmw_words_correct_partial m rank w hw hu c0 hc0 inp0 inp1 inp hi
    hin setup0 setup1 hset init0 init1 val valV hp (fun _ => 0) (fun _ ls _ _ => headsOk_zero hl hx ls)
    hi0 hi1
  exact ⟨o0, o1, hr, hs⟩

end Verif.Exec
