import Verif.Parse.Convert
import Verif.Exec.PreprocProps

/-!
From a Bristol file to the result, the way the benchmarking harness runs it (`seec/src/bench.rs:228-300`):
parse and convert the file, precompute the layers, ask the precomputed circuit for the number of triples,
generate them by OT, execute.  Sub-channels (C68) and statistics (C45) are treated separately.
-/

set_option autoImplicit false

namespace Verif.Parse

open Verif.Circuit Verif.Exec Proc Gmw

/-- The number of AND lines of a file. -/
def Circuit.andCount (b : Circuit) : Nat := b.gates.countP fun g => match g.kind with
  | .and => true
  | _ => false

theorem opsOf_fst (gs : List Gate) (n : Nat) (map : List Nat) :
    (opsOf n map gs).1.map (·.1) = gs.map fun g => toGate g.kind := by
  induction gs generalizing n map with
  | nil => rfl
  | cons g gs ih => simp only [opsOf, List.map_cons, ih]

/-- **C75 (Bristol files).**  Any way of writing a well-formed description with at least one line is parsed,
converted and precomputed; as many triples as there are AND lines are generated by OT (rounded up to a multiple
of eight); executing generates no more and returns shares of the function described. -/
theorem bristol_file_precomputed (b : Circuit) (ok : BristolOk b) (s : List Char)
    (hs : Spells (fashionToks b) s) (hn : Fits (fashionToks b)) (hg : b.header.gates = b.gates.length)
    (hne : b.gates ≠ [])
    (x y : List Bool) (hx : x.length = b.totalInputs) (hy : y.length = b.totalInputs)
    {τ : Type} (g : Ot.Prg τ) (H : List Bool → Ot.Block) (p0 p1 : Mt.OtParty τ)
    (h01 : Ot.Synced p0.sender p1.receiver) (h10 : Ot.Synced p1.sender p0.receiver)
    (k0 : 0 < p0.sender.choices.length) (k1 : 0 < p1.sender.choices.length) (a0 a1 : List Bool)
    (l0 : a0.length = Mt.nextMultipleOf8 b.andCount) (l1 : a1.length = Mt.nextMultipleOf8 b.andCount)
    (init0 init1 : Store Bool (List Bool)) :
    ∃ c t m0 m1 p0' p1', (circuit s).map (fun b => fromBristol b .circuit) = some (.ok c) ∧
      precomputeCirc (.ofBase c) [0] = some t ∧ t.countTimesSimd = some b.andCount ∧
      Mt.boolMts g H p0 p1 b.andCount a0 a1 = some (m0, m1, p0', p1') ∧
      ∀ gen0 gen1 : Nat → Nat → Mt.MulTriples Bool, gen0 0 b.andCount = m0 → gen1 0 b.andCount = m1 →
        ∃ s0 s1, Mt.provide gen0 {} (.precompute b.andCount) = some (s0, ⟨[], [m0]⟩) ∧
          Mt.provide gen1 {} (.precompute b.andCount) = some (s1, ⟨[], [m1]⟩) ∧
          ∃ o0 o1 q0 q1, (UsedUp b.andCount q0 ∧ UsedUp b.andCount q1) ∧
            Runs (executeStaticP gmw t 0 (.scalar x) (requestMts gen0) s0 init0)
              (executeStaticP gmw t 1 (.scalar y) (requestMts gen1) s1 init1) (.scalar o0, q0) (.scalar o1, q1) ∧
            xorL o0 o1 = b.eval (xorL x y) := by
  obtain ⟨c, e, hok, hsimd, hin, -, hfn⟩ := from_bristol_correct b ok
  have hl : (xorL x y).length = b.totalInputs := by simp [xorL, hx, hy]
  have hgates : c.gates ≠ [] ∧ c.interactiveCount = b.andCount := by
    obtain ⟨c', e1, e2⟩ := fromBristol_ops b .circuit ok.inputs ok.outputs (bristol_range ok)
    rw [e] at e1; cases e1
    obtain ⟨f1, -⟩ := runOps_shape _ _ _ e2 ⟨rfl, rfl, rfl, rfl, rfl⟩
    have f1 : c.gates = List.replicate b.totalInputs (.base .input) ++ (b.gates.map (fun g => toGate g.kind) ++
        ((opsOf b.totalInputs (map0 b) b.gates).2.drop (b.header.wires - b.totalOutputs)).map
          fun _ => .base .output) := by
      rw [f1, ← opsOf_fst b.gates b.totalInputs (map0 b)]
      simp [allOps, Load.input, Load.output, Function.comp_def]
    constructor
    · rw [f1]
      cases hb : b.gates with
      | nil => exact absurd hb hne
      | cons a l => simp
    · rw [hok.book.interactives, f1, List.countP_append, List.countP_append, List.countP_replicate, List.countP_map,
        List.countP_map, Circuit.andCount]
      have h0 : GateLike.interactive (BoolGate.base BaseGate.input) = false := rfl
      rw [h0, if_neg (by simp), Nat.zero_add]
      have h1 : ∀ l : List Nat, l.countP ((fun g : BoolGate => GateLike.interactive g) ∘
          fun _ => .base .output) = 0 := by
        intro l
        rw [List.countP_eq_zero]
        intro a _ h
        cases h
      rw [h1, Nat.add_zero]
      apply List.countP_congr
      intro a _
      simp only [Function.comp_apply]
      cases a.kind <;> rfl
  obtain ⟨hcg, hcount⟩ := hgates
  have hm : countTimesSimd (Multi.ofBase c) = b.andCount := by
    simp [countTimesSimd, Multi.ofBase, hsimd, hcount]
  have hns : isSimd (Multi.ofBase c) 0 = false := by simp [isSimd, Multi.ofBase, hsimd]
  obtain ⟨it, ls, -, -, h⟩ := gmw_precomputed_static_partial (Multi.ofBase c) _ (baseOk_wf c hok)
    (baseOk_exec c hok (by simp [hsimd]) (by simp [hsimd])).base (base_unmixed c) [0] (single_cmap c)
    (fun i c' hc => by obtain ⟨-, rfl⟩ := single_circ hc; exact hcg)
    (by intro d hd; simp only [Multi.ofBase, List.mem_singleton] at hd; subst hd; exact hok.book.interactives)
    c (by simp [Multi.ofBase]) (.scalar x) (.scalar y) (.scalar (xorL x y)) ⟨hns, by rw [hl, hin]⟩
    ⟨by rw [hl, hx], by rw [hl, hy], rfl⟩ g H p0 p1 h01 h10 k0 k1 a0 a1 (by rw [hm, l0]) (by rw [hm, l1]) init0 init1
    _ _ (base_plain_scalar c hok hsimd _ (by rw [hl, hin]))
  obtain ⟨t, n, m0, m1, p0', p1', f1, f2, f3, f4, f5⟩ := h (single_first _) (single_same _)
  rw [hm] at f3
  subst f3
  refine ⟨c, t, m0, m1, p0', p1', ?_, f1, f2, f4, fun gen0 gen1 g0 g1 => ?_⟩
  · rw [fashion_round_trip b s hs hn hg, Option.map_some, e]
  obtain ⟨s0, s1, r0, r1, o0, o1, q0, q1, hq, hr, hsh⟩ := f5 gen0 gen1 g0 g1
  refine ⟨s0, s1, r0, r1, ?_⟩
  simp only [plainOutput, hns, Bool.false_eq_true, if_false] at hsh
  match o0, o1, hsh with
  | .scalar o0, .scalar o1, hsh =>
    refine ⟨o0, o1, q0, q1, hq, hr, ?_⟩
    rw [hsh.2.2, ← hfn _ hl, plainFn, output_pos c hok.book]
    rfl

/-! ### Cases -/

theorem numeral_exists (n : Nat) : ∃ ds : List Char, (∀ c ∈ ds, c.isDigit = true) ∧ ds ≠ [] ∧ numeral ds = n := by
  have dig : ∀ d < 10, (Char.ofNat (48 + d)).isDigit = true ∧ (Char.ofNat (48 + d)).toNat - 48 = d := by decide
  induction n using Nat.strong_induction_on with
  | _ n ih =>
    by_cases h : n < 10
    · refine ⟨[Char.ofNat (48 + n)], ?_, by simp, ?_⟩
      · simp only [List.mem_singleton, forall_eq]
        exact (dig n h).1
      · simp only [numeral, List.foldl_cons, List.foldl_nil, (dig n h).2]
        omega
    · obtain ⟨ds, h1, h2, h3⟩ := ih (n / 10) (by omega)
      have hd : n % 10 < 10 := by omega
      refine ⟨ds ++ [Char.ofNat (48 + n % 10)], ?_, by simp, ?_⟩
      · intro c hc
        rcases List.mem_append.1 hc with hc | hc
        · exact h1 c hc
        · rw [List.mem_singleton.1 hc]; exact (dig _ hd).1
      · unfold numeral at h3 ⊢
        rw [List.foldl_append, h3]
        simp only [List.foldl_cons, List.foldl_nil, (dig _ hd).2]
        omega

/-- Every sequence of tokens can be written, so the theorems about files apply to every description whose
numbers fit. -/
theorem spells_exists (ts : List Tok) : ∃ s, Spells ts s ∧ ∀ c ∈ s.head?, c.isDigit = false := by
  have ws : ∀ c ∈ [' '], isWs c = true := by decide
  induction ts with
  | nil => exact ⟨[], .nil (by simp), by simp⟩
  | cons t ts ih =>
    obtain ⟨s, hs, hd⟩ := ih
    cases t with
    | num n =>
      obtain ⟨ds, h1, h2, h3⟩ := numeral_exists n
      refine ⟨[' '] ++ (ds ++ s), .num ws h1 h2 h3 hd hs, ?_⟩
      simp only [List.cons_append, List.head?_cons, Option.mem_some_iff, forall_eq']
      decide
    | word k =>
      refine ⟨[' '] ++ (keyword k ++ s), .word ws hs, ?_⟩
      simp only [List.cons_append, List.head?_cons, Option.mem_some_iff, forall_eq']
      decide

/-- The hypotheses of `bristol_file_precomputed` hold of a file for `sample`, which has an AND line and a gate
with two output wires, and of freshly set up OT parties. -/
example : ∃ s, Spells (fashionToks sample) s ∧ Fits (fashionToks sample) ∧ BristolOk sample ∧ sample.andCount = 1 ∧
    ∀ x y r s' t u : Bool, ∃ c tc m0 m1 o0 o1 q0 q1,
      (circuit s).map (fun b => fromBristol b .circuit) = some (.ok c) ∧
      precomputeCirc (.ofBase c) [0] = some tc ∧
      UsedUp 1 q0 ∧
      Runs (executeStaticP gmw tc 0 (.scalar [r, s', t]) (requestMts fun _ _ => m0) ⟨some m0, 1⟩ noOutputs)
        (executeStaticP gmw tc 1 (.scalar [r ^^ x, s' ^^ y, t ^^ u]) (requestMts fun _ _ => m1) ⟨some m1, 1⟩ noOutputs)
        (.scalar o0, q0) (.scalar o1, q1) ∧
      xorL o0 o1 = [((x ^^ y) && !u) ^^ !u, (x ^^ y) && !u] := by
  obtain ⟨s, hs, -⟩ := spells_exists (fashionToks sample)
  have hf : Fits (fashionToks sample) := by
    simp [fashionToks, listToks, gateToks, sample, Fits]
  refine ⟨s, hs, hf, sample_ok, by decide, fun x y r s' t u => ?_⟩
  obtain ⟨c, tc, m0, m1, p0', p1', h1, h2, -, -, h⟩ := bristol_file_precomputed sample sample_ok s hs hf rfl (by decide)
    [r, s', t] [r ^^ x, s' ^^ y, t ^^ u] rfl rfl Mt.posPrg (fun _ => 0) Mt.startParty Mt.startParty Mt.start_synced
    Mt.start_synced (by decide) (by decide) (List.replicate 8 true) (List.replicate 8 false) (by decide) (by decide)
    noOutputs noOutputs
  obtain ⟨s0, s1, f0, f1, o0, o1, q0, q1, hq, hr, hx⟩ := h (fun _ _ => m0) (fun _ _ => m1) rfl rfl
  cases f0
  cases f1
  refine ⟨c, tc, m0, m1, o0, o1, q0, q1, h1, h2, hq.1, hr, hx.trans ?_⟩
  have he : ∀ x y r s' t u : Bool, sample.eval (xorL [r, s', t] [r ^^ x, s' ^^ y, t ^^ u]) =
      [((x ^^ y) && !u) ^^ !u, (x ^^ y) && !u] := by decide +kernel
  exact he x y r s' t u

end Verif.Parse
