import Verif.Tensor.TwoParty
import Verif.Exec.Single

/-!
C82: an example, and circuits for which the setup panics.
-/
set_option autoImplicit false

namespace Verif.Tensor

open Gmw (BoolGate BaseGate Triple Matching)
open Bitmat
open Circuit Exec Proc
open Aby2 (layers merge InputBy ShareType shareType Answers interactiveCount exTriples exTriples_ok)

/-- The product of two matrices. -/
def prodMat (r c : Nat) (a b : BitMatrix) : BitMatrix :=
  ⟨r, c, (List.range (r * c)).map fun p => xorUpTo (fun t => a.get (p / c) t && b.get t (p % c)) a.cols⟩

theorem prodMat_isMat {r c : Nat} (h : 8 ∣ r * c) (a b : BitMatrix) : IsMat r c (prodMat r c a b) :=
  ⟨rfl, rfl, by simp [BitMatrix.Valid, prodMat], h⟩

theorem prodMat_get {r c : Nat} (a b : BitMatrix) (i j : Nat) (hi : i < r) (hj : j < c) :
    (prodMat r c a b).get i j = xorUpTo (fun t => a.get i t && b.get t j) a.cols := by
  have hc : 0 < c := by omega
  simp only [BitMatrix.get, prodMat]
  rw [List.getElem?_map, List.getElem?_range (idx_lt hi hj), Option.map_some, Option.getD_some,
    show (i * c + j) / c = i by rw [Nat.mul_comm, Nat.mul_add_div hc, Nat.div_eq_of_lt hj]; omega,
    show (i * c + j) % c = j by rw [Nat.mul_comm, Nat.mul_add_mod, Nat.mod_eq_of_lt hj]]

/-- Inputs `a` (2x4), `b` (4x4), `x`, `y`; outputs `(a b) b` and `(x & y) ^ x`. -/
def exBase : Base TGate where
  gates := [.base .input [2, 4], .base .input [4, 4], .base .input [], .base .input [],
    .op (.matMult 2 4), .op (.matMult 2 4), .op .and2, .op .xor, .base .output [2, 4], .base .output []]
  edges := [(1, 4), (0, 4), (1, 5), (4, 5), (3, 6), (2, 6), (2, 7), (6, 7), (5, 8), (7, 9)]
  inputGates := [0, 1, 2, 3]
  outputGates := [8, 9]
  interactiveCount := 3
  isMain := true

def exCirc : Multi TGate := .ofBase exBase

theorem exBase_ok : SingleOk exBase id := by
  refine ⟨by unfold EdgesIn; decide, by decide, ?_, ?_, ?_⟩
  · intro i g hg
    match i, hg with
    | 0, hg => cases hg; decide
    | 1, hg => cases hg; decide
    | 2, hg => cases hg; decide
    | 3, hg => cases hg; decide
    | 4, hg => cases hg; decide
    | 5, hg => cases hg; decide
    | 6, hg => cases hg; decide
    | 7, hg => cases hg; decide
    | 8, hg => cases hg; decide
    | 9, hg => cases hg; decide
    | i + 10, hg => simp [exBase] at hg
  · intro i g hg
    match i, hg with
    | 0, hg => cases hg; decide
    | 1, hg => cases hg; decide
    | 2, hg => cases hg; decide
    | 3, hg => cases hg; decide
    | 4, hg => cases hg; decide
    | 5, hg => cases hg; decide
    | 6, hg => cases hg; decide
    | 7, hg => cases hg; decide
    | 8, hg => cases hg; decide
    | 9, hg => cases hg; decide
    | i + 10, hg => simp [exBase] at hg
  · constructor <;> decide

/-- The plaintext values. -/
def exVal (a b : BitMatrix) (x y : Bool) (v : Node) : PShare :=
  match v.2 with
  | 0 => .matrix a
  | 1 => .matrix b
  | 2 => .scalar x
  | 3 => .scalar y
  | 4 => .matrix (prodMat 2 4 a b)
  | 5 | 8 => .matrix (prodMat 2 4 (prodMat 2 4 a b) b)
  | 6 => .scalar (x && y)
  | _ => .scalar ((x && y) ^^ x)

theorem exCirc_plain {a b : BitMatrix} (ha : IsMat 2 4 a) (hb : IsMat 4 4 b) (x y : Bool) :
    PlainEval exCirc [.matrix a, .matrix b, .scalar x, .scalar y] (exVal a b x y) := by
  have h8 : 8 ∣ 2 * 4 := by decide
  rintro ⟨i, j⟩ g hg
  obtain ⟨h1, h2⟩ := single_gate exBase _ g hg
  simp only at h1 h2
  subst h1
  match j, h2 with
  | 0, h2 => cases h2; exact ⟨exBase, 0, rfl, rfl, rfl, ha⟩
  | 1, h2 => cases h2; exact ⟨exBase, 1, rfl, rfl, rfl, hb⟩
  | 2, h2 => cases h2; exact ⟨exBase, 2, rfl, rfl, rfl, trivial⟩
  | 3, h2 => cases h2; exact ⟨exBase, 3, rfl, rfl, rfl, trivial⟩
  | 4, h2 =>
    cases h2
    have e : a.cols = 4 := ha.2.1
    exact ⟨(0, 0), (0, 1), a, b, _, rfl, rfl, rfl, rfl, by rw [e]; exact ha, by rw [e]; exact hb,
      prodMat_isMat h8 a b, by decide, by omega, by decide, fun i j hi hj => prodMat_get a b i j hi hj⟩
  | 5, h2 =>
    cases h2
    exact ⟨(0, 4), (0, 1), prodMat 2 4 a b, b, _, rfl, rfl, rfl, rfl, prodMat_isMat h8 a b, hb,
      prodMat_isMat h8 _ b, by decide, Nat.succ_pos 3, by decide, fun i j hi hj => prodMat_get _ b i j hi hj⟩
  | 6, h2 => cases h2; exact ⟨(0, 2), (0, 3), x, y, rfl, rfl, rfl, rfl⟩
  | 7, h2 => cases h2; exact ⟨(0, 6), (0, 2), _, x, rfl, rfl, rfl, rfl⟩
  | 8, h2 => cases h2; exact ⟨(0, 5), rfl, rfl⟩
  | 9, h2 => cases h2; exact ⟨(0, 7), rfl, rfl⟩
  | j + 10, h2 => simp [exBase] at h2

theorem exCirc_layers : layers exCirc = some
    [[(0, ⟨[0, 1, 2, 3], [4, 6]⟩)], [(0, ⟨[7, 9], [5]⟩)], [(0, ⟨[8], []⟩)]] := by decide +kernel

/-- All hypotheses of `tensor_two_party_correct` hold together: with any generators and any seeds,
party 0 with the inputs `a` and `x` and party 1 with the inputs `b` and `y` compute `(a b) b` and
`(x & y) ^ x`. -/
example {σ : Type} (gen : Gen σ) (p0 p1 j0 j1 : σ) (a b : BitMatrix) (ha : IsMat 2 4 a)
    (hb : IsMat 4 4 b) (x y : Bool) (init0 init1 : Store Bool (List Bool)) :
    ∃ st0 st1 d0 d1 setup0 setup1 xs0 xs1 o0 o1,
      Runs (tensorSetup exCirc 0 st0 (exTriples 0) init0) (tensorSetup exCirc 1 st1 (exTriples 1) init1)
        d0 d1 ∧
      Runs (execute tensorAby2 exCirc 0 (.scalar xs0) setup0 st0)
        (execute tensorAby2 exCirc 1 (.scalar xs1) setup1 st1) (.scalar o0) (.scalar o1) ∧
      reconstruct o0 o1 =
        some [.matrix (prodMat 2 4 (prodMat 2 4 a b) b), .scalar ((x && y) ^^ x)] := by
  obtain ⟨own0, own1, msg0, msg1, other0, other1, st0, st1, d0, d1, -, -, -, -, -, -, hs, l0, l1, h⟩ :=
    tensor_two_party_correct gen exCirc _ (single_wf exBase_ok)
      (single_exec exBase_ok rfl (by
        intro g hg
        cases g with
        | base b d => rfl
        | op g => simp [GateLike.asBase] at hg))
      (by intro i; cases i <;> simp [isSimd, exCirc, Multi.ofBase, exBase])
      (by
        intro c hc
        simp only [exCirc, Multi.ofBase, List.mem_singleton] at hc
        rw [hc]
        exact exBase_ok.book)
      exBase rfl p0 p1 j0 j1
      (fun i => if i = 0 ∨ i = 2 then some .p0 else if i = 1 ∨ i = 3 then some .p1 else none)
      [.p0, .p1, .p0, .p1] rfl [.matrix a, .scalar x] [.matrix b, .scalar y] rfl rfl
      (exVal a b x y) (exCirc_plain ha hb x y) (exTriples 0) (exTriples 1) exTriples_ok init0 init1
  have answers : ∀ d : SetupData, d.length = interactiveCount exCirc →
      Answers exCirc d fun k _ => if k = 0 then d.drop 1 else d.take 1 := by
    intro d hl ls hls k l hk
    rw [exCirc_layers, Option.some.injEq] at hls; subst hls
    match k, hk, d, hl with
    | 0, hk, [u, v, w], _ => rfl
    | 1, hk, [u, v, w], _ => rfl
    | k + 2, hk, _, _ => cases hk
  obtain ⟨o0, o1, hr, hrec⟩ := h _ _ (answers d0 l0) (answers d1 l1)
  exact ⟨st0, st1, d0, d1, _, _, _, _, o0, o1, hs, hr, hrec⟩

/-! ### Circuits for which the setup panics -/

/-- A circuit with the sum of two 4x4 matrices. -/
def matXorBase : Base TGate where
  gates := [.base .input [4, 4], .base .input [4, 4], .op .xor, .base .output [4, 4]]
  edges := [(1, 2), (0, 2), (2, 3)]
  inputGates := [0, 1]
  outputGates := [3]
  isMain := true

/-- The sum of two matrices can be evaluated (C40), but the setup of any circuit with it panics
("non-scalar input to scalar gate", tensor_aby2.rs:390-395), whatever the generators. -/
theorem tensor_xor_matrix_setup_panics {σ : Type} (gen : Gen σ) (s : Sharing σ) :
    setupGateOutputs gen (.ofBase matXorBase) s = none := by
  have hl : layers (.ofBase matXorBase) = some [[(0, ⟨[0, 1, 2, 3], []⟩)]] := by decide +kernel
  have hn : Aby2.iterNodes [[(0, ⟨[0, 1, 2, 3], []⟩)]] = [(0, 0), (0, 1), (0, 2), (0, 3)] := rfl
  cases h : setupGateOutputs gen (.ofBase matXorBase) s with
  | none => rfl
  | some st =>
    exfalso
    unfold setupGateOutputs at h
    rw [hl] at h
    simp only [Option.bind_eq_bind, Option.bind_some, hn] at h
    rw [if_pos (by decide)] at h
    simp only [Option.map_eq_some_iff, setupNodes, Option.bind_eq_bind, Option.bind_eq_some_iff] at h
    obtain ⟨-, ⟨⟨s1, st1⟩, h1, ⟨s2, st2⟩, h2, ⟨s3, st3⟩, h3, -⟩, -⟩ := h
    -- the masks of the inputs are matrices
    have inp : ∀ {v : Node} {s s' : Sharing σ} {st st' : Store TShare (List TShare)},
        (Multi.ofBase matXorBase).gate? v = some (.base .input [4, 4]) →
        setupNode gen (.ofBase matXorBase) s st v = some (s', st') →
        ∃ p q, st'.sc v = .matrix p q := by
      intro v s s' st st' hg hv
      rw [setupNode_select] at hv
      have hr : ∀ t, gen.random t 4 4 = some (gen.mat t 4 4) := fun t => (random_some gen t (by decide)).1
      split at hv
      · simp only [hg, setupOutputShare, hr, Option.bind_eq_bind, Option.bind_some,
          Option.bind_eq_some_iff, Option.pure_def, Option.some.injEq, Prod.mk.injEq] at hv
        obtain ⟨xs, -, st1, hput, -, rfl⟩ := hv
        exact ⟨_, _, (put_other hput).2⟩
      · simp only [hg, setupOutputShare, hr, Option.bind_eq_bind, Option.bind_some,
          Option.bind_eq_some_iff, Option.pure_def, Option.some.injEq, Prod.mk.injEq] at hv
        obtain ⟨xs, -, st1, hput, -, rfl⟩ := hv
        exact ⟨_, _, (put_other hput).2⟩
    obtain ⟨p, q, e0⟩ := inp rfl h1
    have e0' : st2.sc (0, 0) = .matrix p q := by rw [setupNode_other h2 _ (by decide), e0]
    have hpar : (Multi.ofBase matXorBase).parents (0, 2) = [(0, 0), (0, 1)] := rfl
    have bad : ∀ xs t, (([(0, 0), (0, 1)] : List Node).mapM (st2.get (.ofBase matXorBase))) = some xs →
        setupOutputShare gen (.op .xor) xs t = none := by
      intro xs t hxs
      rw [List.mapM_cons] at hxs
      simp only [Option.bind_eq_bind, Option.bind_eq_some_iff] at hxs
      obtain ⟨x, hx, ys, -, hxs⟩ := hxs
      have : x = .matrix p q := by
        unfold Store.get at hx
        split at hx
        · cases hx
        · split at hx
          · rw [← e0']; exact (Option.some.inj hx).symm
          · cases hx
      subst this
      cases hxs
      cases ys with
      | nil => rfl
      | cons y ys => simp [setupOutputShare, setupOutput]
    have hgate : (Multi.ofBase matXorBase).gate? (0, 2) = some (.op .xor) := rfl
    rw [setupNode_select, hpar, hgate] at h3
    split at h3
    · simp only [Option.bind_eq_bind, Option.bind_some, Option.bind_eq_some_iff] at h3
      obtain ⟨xs, hxs, o, ho, -⟩ := h3
      rw [bad xs _ hxs] at ho
      cases ho
    · simp only [Option.bind_eq_bind, Option.bind_some, Option.bind_eq_some_iff] at h3
      obtain ⟨xs, hxs, o, ho, -⟩ := h3
      rw [bad xs _ hxs] at ho
      cases ho

/-- A circuit with one constant. -/
def constBase (x : PShare) : Base TGate where
  gates := [.base (.constant x) [], .base .output []]
  edges := [(0, 1)]
  constantGates := [0]
  outputGates := [1]
  isMain := true

/-- The setup of a circuit with a constant panics (`todo!()`, tensor_aby2.rs:370). -/
theorem tensor_constant_setup_panics {σ : Type} (gen : Gen σ) (x : PShare) (s : Sharing σ) :
    setupGateOutputs gen (.ofBase (constBase x)) s = none := by
  have hl : layers (.ofBase (constBase x)) = some [[(0, ⟨[0, 1], []⟩)]] := by rfl
  have hn : Aby2.iterNodes [[(0, ⟨[0, 1], []⟩)]] = [(0, 0), (0, 1)] := rfl
  have hgate : (Multi.ofBase (constBase x)).gate? (0, 0) = some (.base (.constant x) []) := rfl
  have hpar : (Multi.ofBase (constBase x)).parents (0, 0) = [] := rfl
  unfold setupGateOutputs
  rw [hl]
  simp only [Option.bind_eq_bind, Option.bind_some, hn]
  rw [if_pos (by rfl)]
  simp only [setupNodes, setupNode_select, hgate, hpar]
  split <;> simp [setupOutputShare]

/-- A circuit whose input is a 3x3 matrix. -/
def oddBase : Base TGate where
  gates := [.base .input [3, 3], .base .output [3, 3]]
  edges := [(0, 1)]
  inputGates := [0]
  outputGates := [1]
  isMain := true

/-- The setup of a circuit with a 3x3 matrix panics: the matrix does not fill its bytes. -/
theorem tensor_odd_setup_panics {σ : Type} (gen : Gen σ) (s : Sharing σ) :
    setupGateOutputs gen (.ofBase oddBase) s = none := by
  have hl : layers (.ofBase oddBase) = some [[(0, ⟨[0, 1], []⟩)]] := by rfl
  have hn : Aby2.iterNodes [[(0, ⟨[0, 1], []⟩)]] = [(0, 0), (0, 1)] := rfl
  have hgate : (Multi.ofBase oddBase).gate? (0, 0) = some (.base .input [3, 3]) := rfl
  have hpar : (Multi.ofBase oddBase).parents (0, 0) = [] := rfl
  have hr : ∀ t, gen.random t 3 3 = none := fun t => by rw [Gen.random, if_neg (by decide)]
  unfold setupGateOutputs
  rw [hl]
  simp only [Option.bind_eq_bind, Option.bind_some, hn]
  rw [if_pos (by rfl)]
  simp only [setupNodes, setupNode_select, hgate, hpar]
  split <;> simp [setupOutputShare, hr]

end Verif.Tensor
