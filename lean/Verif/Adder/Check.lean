import Verif.Parse.Convert
import Mathlib.Data.List.GetD

/-!
Certificates for adder circuits: a wire of a carry look-ahead adder carries a propagate or generate bit
of a span of positions, an intermediate conjunction, or a sum bit.  `annotate` infers this for every gate
of a Bristol description; `check_sound` shows that a description accepted by `check` adds.
-/
set_option autoImplicit false

namespace Verif.Adder

open Parse (Kind Circuit BristolOk)

/-- Generate bit of positions `lo .. lo + n`. -/
def gen (a b : Nat → Bool) (lo : Nat) : Nat → Bool
  | 0 => a lo && b lo
  | n + 1 => (a (lo + n + 1) && b (lo + n + 1)) ^^ ((a (lo + n + 1) ^^ b (lo + n + 1)) && gen a b lo n)

/-- Propagate bit of positions `lo .. lo + n`. -/
def prop (a b : Nat → Bool) (lo : Nat) : Nat → Bool
  | 0 => a lo ^^ b lo
  | n + 1 => (a (lo + n + 1) ^^ b (lo + n + 1)) && prop a b lo n

theorem prop_join (a b : Nat → Bool) (lo n k : Nat) :
    prop a b lo (n + 1 + k) = (prop a b (lo + n + 1) k && prop a b lo n) := by
  induction k with
  | zero => rfl
  | succ k ih =>
    have e : lo + n + 1 + k + 1 = lo + (n + 1 + k) + 1 := by omega
    rw [← Nat.add_assoc, prop, ih, prop, e, Bool.and_assoc]

theorem gen_join (a b : Nat → Bool) (lo n k : Nat) :
    gen a b lo (n + 1 + k) = (gen a b (lo + n + 1) k ^^ (prop a b (lo + n + 1) k && gen a b lo n)) := by
  induction k with
  | zero => rfl
  | succ k ih =>
    have e : lo + n + 1 + k + 1 = lo + (n + 1 + k) + 1 := by omega
    rw [← Nat.add_assoc, gen, ih, gen, prop, e]
    generalize a (lo + (n + 1 + k) + 1) = p
    generalize b (lo + (n + 1 + k) + 1) = q
    generalize gen a b (lo + n + 1) k = r
    generalize prop a b (lo + n + 1) k = s
    generalize gen a b lo n = t
    revert p q r s t
    decide

/-- What a wire carries. -/
inductive Ann where
  | a (i : Nat)
  | b (i : Nat)
  | p (lo n : Nat)
  | g (lo n : Nat)
  | pg (lo n k : Nat)
  | s (i : Nat)
deriving DecidableEq, Repr

def Ann.sem (a b : Nat → Bool) : Ann → Bool
  | .a i => a i
  | .b i => b i
  | .p lo n => prop a b lo n
  | .g lo n => gen a b lo n
  | .pg lo n k => prop a b (lo + n + 1) k && gen a b lo n
  | .s 0 => a 0 ^^ b 0
  | .s (i + 1) => (a (i + 1) ^^ b (i + 1)) ^^ gen a b 0 i

/-- What a gate computes from annotated operands, in this order. -/
def infer1 : Kind → Ann → Ann → Option Ann
  | .xor, .a i, .b j => if i = j then some (.p i 0) else none
  | .and, .a i, .b j => if i = j then some (.g i 0) else none
  | .and, .p m k, .p lo n => if m = lo + n + 1 then some (.p lo (n + 1 + k)) else none
  | .and, .p m k, .g lo n => if m = lo + n + 1 then some (.pg lo n k) else none
  | .xor, .g m k, .pg lo n k' => if m = lo + n + 1 ∧ k = k' then some (.g lo (n + 1 + k)) else none
  | .xor, .p i 0, .g 0 n => if i = n + 1 then some (.s i) else none
  | _, _, _ => none

def infer (k : Kind) (x y : Ann) : Option Ann :=
  match infer1 k x y with
  | some r => some r
  | none => infer1 k y x

theorem infer1_sound (a b : Nat → Bool) (k : Kind) (x y r : Ann) (h : infer1 k x y = some r) :
    r.sem a b = k.fn [x.sem a b, y.sem a b] := by
  unfold infer1 at h
  split at h <;> try split at h
  all_goals first | cases h | skip
  all_goals try (simp only [Option.some.injEq] at h; subst h)
  all_goals simp only [Ann.sem, Kind.fn]
  all_goals rename_i hc
  · subst hc; rfl
  · subst hc; rfl
  · subst hc; exact prop_join a b _ _ _
  · subst hc; rfl
  · obtain ⟨rfl, rfl⟩ := hc; exact gen_join a b _ _ _
  · subst hc; rfl

theorem infer_sound (a b : Nat → Bool) (k : Kind) (x y r : Ann) (h : infer k x y = some r) :
    r.sem a b = k.fn [x.sem a b, y.sem a b] := by
  unfold infer at h
  split at h
  · rename_i r' e
    cases h
    exact infer1_sound a b k x y _ e
  · rw [infer1_sound a b k y x r h]
    cases k
    · exact Bool.and_comm _ _
    · exact Bool.xor_comm _ _
    · rfl

abbrev Env := List (Nat × Ann)

/-- Annotates the outputs of the gates in file order; fails if an operand is not annotated. -/
def annotate : List Parse.Gate → Env → Option Env
  | [], env => some env
  | ⟨k, [x, y], [o]⟩ :: gs, env =>
    match env.lookup x, env.lookup y with
    | some ax, some ay =>
      match infer k ax ay with
      | some r => annotate gs ((o, r) :: env)
      | none => none
    | _, _ => none
  | _ :: _, _ => none

def inputEnv (w : Nat) : Env :=
  ((List.range w).map fun i => (i, Ann.a i)) ++ (List.range w).map fun i => (w + i, Ann.b i)

/-- The environment describes the values on the wires. -/
def Describes (a b : Nat → Bool) (env : Env) (val : Nat → Bool) : Prop :=
  ∀ w r, env.lookup w = some r → val w = r.sem a b

theorem annotate_sound (a b : Nat → Bool) (gs : List Parse.Gate) (env env' : Env) (val : Nat → Bool)
    (h : annotate gs env = some env') (hd : Describes a b env val) :
    Describes a b env' (gs.foldl (fun v g => g.run v) val) := by
  induction gs generalizing env val with
  | nil => cases h; exact hd
  | cons g gs ih =>
    rw [annotate.eq_def] at h
    split at h
    · rename_i e; cases e
    · rename_i k x y o gs' e
      cases e
      split at h
      · rename_i ax ay hx hy
        split at h
        · rename_i r hr
          refine ih _ _ h ?_
          intro w r' hw
          simp only [Parse.Gate.run, List.mem_singleton]
          rw [List.lookup_cons] at hw
          by_cases e : w = o
          · subst e
            simp only [beq_self_eq_true, Option.some.injEq] at hw
            subst hw
            rw [if_pos rfl, infer_sound a b k ax ay r hr]
            simp [hd x ax hx, hd y ay hy]
          · have : (w == o) = false := by simpa using e
            rw [this] at hw
            rw [if_neg e]
            exact hd w r' hw
        · cases h
      · cases h
    · cases h

/-- A boolean test for `BristolOk`; `known` are the wires written so far. -/
def orderOk (inputs : Nat) : List Parse.Gate → List Nat → Bool
  | [], _ => true
  | g :: gs, known =>
    g.inputWires.all (fun w => !g.outputWires.contains w && (decide (w < inputs) || known.contains w)) &&
      orderOk inputs gs (g.outputWires ++ known)

def bristolCheck (b : Circuit) : Bool :=
  decide (b.totalInputs ≤ b.header.wires) && decide (b.totalOutputs ≤ b.header.wires) &&
  b.gates.all (fun g => g.inputWires.length == g.kind.arity &&
    g.outputWires.all fun w => decide (w < b.header.wires)) &&
  orderOk b.totalInputs b.gates [] &&
  (List.range' (b.header.wires - b.totalOutputs) b.totalOutputs).all fun w =>
    decide (w < b.totalInputs) || b.gates.any fun g => g.outputWires.contains w

theorem orderOk_sound (inputs : Nat) (gs : List Parse.Gate) (known : List Nat)
    (h : orderOk inputs gs known = true) (i : Nat) (g : Parse.Gate) (hg : gs[i]? = some g) (w : Nat)
    (hw : w ∈ g.inputWires) : w ∉ g.outputWires ∧
      (w < inputs ∨ w ∈ known ∨ ∃ g' ∈ gs.take i, w ∈ g'.outputWires) := by
  induction gs generalizing known i with
  | nil => simp at hg
  | cons g0 gs ih =>
    rw [orderOk, Bool.and_eq_true, List.all_eq_true] at h
    cases i with
    | zero =>
      simp only [List.getElem?_cons_zero, Option.some.injEq] at hg
      subst hg
      have := h.1 w hw
      simp only [Bool.and_eq_true, Bool.not_eq_true', Bool.or_eq_true, decide_eq_true_eq,
        List.contains_eq_mem, decide_eq_false_iff_not] at this
      exact ⟨this.1, this.2.elim Or.inl fun h => Or.inr (Or.inl h)⟩
    | succ i =>
      rw [List.getElem?_cons_succ] at hg
      obtain ⟨h1, h2⟩ := ih _ h.2 i hg
      refine ⟨h1, ?_⟩
      rcases h2 with h2 | h2 | ⟨g', h2, h3⟩
      · exact Or.inl h2
      · rcases List.mem_append.1 h2 with h2 | h2
        · exact Or.inr (Or.inr ⟨g0, by simp, h2⟩)
        · exact Or.inr (Or.inl h2)
      · exact Or.inr (Or.inr ⟨g', by simp [h2], h3⟩)

theorem bristolCheck_sound (b : Circuit) (h : bristolCheck b = true) : BristolOk b := by
  simp only [bristolCheck, Bool.and_eq_true, decide_eq_true_eq, List.all_eq_true, beq_iff_eq,
    Bool.or_eq_true, List.any_eq_true, List.contains_eq_mem] at h
  obtain ⟨⟨⟨⟨h1, h2⟩, h3⟩, h4⟩, h5⟩ := h
  refine ⟨h1, h2, fun g hg => (h3 g hg).1, fun g hg w hw => (h3 g hg).2 w hw, ?_, ?_⟩
  · intro i g hg w hw
    obtain ⟨q1, q2⟩ := orderOk_sound _ _ _ h4 i g hg w hw
    exact ⟨q1, q2.imp_right fun q => q.resolve_left (by simp)⟩
  · intro w w1 w2
    exact h5 w (by rw [List.mem_range'_1]; omega)

/-- The description is that of an adder of `w` bit integers. -/
def check (w : Nat) (b : Circuit) : Bool :=
  bristolCheck b && decide (b.totalInputs = 2 * w) && decide (b.totalOutputs = w) &&
  match annotate b.gates (inputEnv w) with
  | none => false
  | some env => (List.range w).all fun i =>
    match env.lookup (b.header.wires - w + i) with
    | some (.s j) => decide (j = i)
    | some (.p 0 0) => decide (i = 0)
    | _ => false

/-- The bits of a ring element, least significant first. -/
def bitsOf {w : Nat} (v : BitVec w) : List Bool := (List.range w).map fun i => v.getLsbD i

theorem inputEnv_describes {w : Nat} (x y : BitVec w) :
    Describes (fun i => x.getLsbD i) (fun i => y.getLsbD i) (inputEnv w)
      fun i => (bitsOf x ++ bitsOf y).getD i false := by
  intro i r h
  have key : ∀ (l : List Nat) (f : Nat → Nat) (k : Nat → Ann) (i : Nat) (r : Ann),
      (l.map fun j => (f j, k j)).lookup i = some r → ∃ j ∈ l, f j = i ∧ k j = r := by
    intro l f k i r h
    induction l with
    | nil => simp at h
    | cons j l ih =>
      rw [List.map_cons, List.lookup_cons] at h
      split at h
      · rename_i e
        exact ⟨j, by simp, (by simpa using e : i = f j).symm, by simpa using h⟩
      · obtain ⟨j', h1, h2⟩ := ih h
        exact ⟨j', by simp [h1], h2⟩
  rw [inputEnv, List.lookup_append] at h
  have hx : (bitsOf x).length = w := by simp [bitsOf]
  rcases h1 : ((List.range w).map fun i => (i, Ann.a i)).lookup i with _ | r'
  · rw [h1, Option.none_or] at h
    obtain ⟨j, hj, rfl, rfl⟩ := key _ _ _ _ _ h
    have hj := List.mem_range.1 hj
    simp only [Ann.sem]
    rw [List.getD_append_right _ _ _ _ (by omega), hx]
    simp [bitsOf, List.getD_eq_getElem?_getD, hj]
  · rw [h1, Option.some_or, Option.some.injEq] at h
    subst h
    obtain ⟨j, hj, rfl, rfl⟩ := key _ (fun i => i) _ _ _ h1
    have hj := List.mem_range.1 hj
    simp only [Ann.sem]
    rw [List.getD_append _ _ _ _ (by omega)]
    simp [bitsOf, List.getD_eq_getElem?_getD, hj]

theorem gen_carry {w : Nat} (x y : BitVec w) (n : Nat) :
    gen (fun i => x.getLsbD i) (fun i => y.getLsbD i) 0 n = BitVec.carry (n + 1) x y false := by
  induction n with
  | zero =>
    rw [BitVec.carry_succ, BitVec.carry_zero, gen, Bool.atLeastTwo]
    cases x.getLsbD 0 <;> cases y.getLsbD 0 <;> rfl
  | succ n ih =>
    rw [BitVec.carry_succ, gen, ih, Bool.atLeastTwo]
    simp only [Nat.zero_add]
    cases x.getLsbD (n + 1) <;> cases y.getLsbD (n + 1) <;> cases BitVec.carry (n + 1) x y false <;> rfl

theorem sem_sum {w : Nat} (x y : BitVec w) (i : Nat) (hi : i < w) :
    (Ann.s i).sem (fun i => x.getLsbD i) (fun i => y.getLsbD i) = (x + y).getLsbD i := by
  rw [BitVec.getLsbD_add hi]
  cases i with
  | zero => simp [Ann.sem, BitVec.carry_zero]
  | succ i => simp only [Ann.sem, gen_carry, Bool.xor_assoc]

/-- A description accepted by `check` adds, for all operands. -/
theorem check_sound (w : Nat) (b : Circuit) (h : check w b = true) :
    BristolOk b ∧ b.totalInputs = 2 * w ∧ b.totalOutputs = w ∧
      ∀ x y : BitVec w, b.eval (bitsOf x ++ bitsOf y) = bitsOf (x + y) := by
  simp only [check, Bool.and_eq_true, decide_eq_true_eq] at h
  obtain ⟨⟨⟨h1, h2⟩, h3⟩, h4⟩ := h
  have hok := bristolCheck_sound b h1
  refine ⟨hok, h2, h3, ?_⟩
  intro x y
  split at h4
  · cases h4
  · rename_i env he
    have hd := annotate_sound _ _ b.gates _ env _ he (inputEnv_describes x y)
    rw [Circuit.eval, h3]
    unfold bitsOf at hd ⊢
    apply List.ext_getElem
    · simp
    · intro i i1 i2
      simp only [List.length_map, List.length_range] at i2
      rw [List.all_eq_true] at h4
      have h5 := h4 i (List.mem_range.2 i2)
      simp only [List.getElem_map, List.getElem_range', List.getElem_range, Nat.one_mul]
      rw [← sem_sum x y i i2]
      split at h5
      · rename_i j e
        simp only [decide_eq_true_eq] at h5
        subst h5
        exact hd _ _ e
      · rename_i e
        simp only [decide_eq_true_eq] at h5
        subst h5
        exact hd _ (.p 0 0) e
      · cases h5

/-- Reading the text of a file and testing it. -/
def checkFile (w : Nat) (s : List Char) : Bool :=
  match Parse.circuit s with
  | some b => check w b
  | none => false

theorem checkFile_sound (w : Nat) (s : List Char) (h : checkFile w s = true) :
    ∃ b, Parse.circuit s = some b ∧ BristolOk b ∧ b.totalInputs = 2 * w ∧ b.totalOutputs = w ∧
      ∀ x y : BitVec w, b.eval (bitsOf x ++ bitsOf y) = bitsOf (x + y) := by
  unfold checkFile at h
  split at h
  · rename_i b e
    exact ⟨b, e, check_sound w b h⟩
  · cases h

end Verif.Adder
