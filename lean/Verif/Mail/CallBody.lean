import Verif.Mail.CallModel
import Verif.Mail.Search
import Verif.Macro.Trace

/-!
Lemmas for C78: what the functions compute.
-/
set_option autoImplicit false

namespace Verif.Mail

open Circuit Gmw Macro Exec

structure RecOk (n : Nat) (s : Rec) : Prop where
  args : s.args = n
  ops : ∀ (i : Nat) (o : Op), s.ops[i]? = some o → OpOk (n + i) o

/-- The variable exists and has the value `G`. -/
def RHolds (n : Nat) (s : Rec) (x : Nat) (G : List Bool → Bool) : Prop :=
  x < n + s.ops.length ∧ ∀ inp : List Bool, inp.length = n → (evalOps inp s.ops).getD x false = G inp

theorem evalOps_snoc (env : List Bool) (ops : List Op) (o : Op) :
    evalOps env (ops ++ [o]) =
      evalOps env ops ++ [gateFn false o.1 (o.2.map fun a => (evalOps env ops).getD a false)] := by
  simp [evalOps, List.foldl_append]

theorem getD_snoc_lt (l : List Bool) (v : Bool) (x : Nat) (h : x < l.length) :
    (l ++ [v]).getD x false = l.getD x false := by
  simp only [List.getD_eq_getElem?_getD, List.getElem?_append_left h]

theorem getD_snoc_eq (l : List Bool) (v : Bool) (x : Nat) (h : x = l.length) : (l ++ [v]).getD x false = v := by
  subst h
  simp [List.getD_eq_getElem?_getD]

theorem Rec.op_spec {n : Nat} {s : Rec} (h : RecOk n s) (g : BoolGate) (as : List Nat) (hg : operator g = true)
    (hl : as.length = arity g) (ha : ∀ a ∈ as, a < n + s.ops.length) :
    RecOk n (s.op g as).2 ∧
    RHolds n (s.op g as).2 (s.op g as).1
      (fun inp => gateFn false g (as.map fun a => (evalOps inp s.ops).getD a false)) ∧
    ∀ x G, RHolds n s x G → RHolds n (s.op g as).2 x G := by
  refine ⟨⟨h.args, ?_⟩, ⟨?_, ?_⟩, ?_⟩
  · intro i o ho
    rcases snoc_cases (by simpa [Rec.op] using ho) with ⟨-, h1⟩ | ⟨h1, h2⟩
    · exact h.ops i o h1
    · subst h1 h2
      exact ⟨hg, hl, ha⟩
  · simp only [Rec.op, h.args, List.length_append, List.length_singleton]; omega
  · intro inp hi
    simp only [Rec.op]
    rw [evalOps_snoc, getD_snoc_eq _ _ _ (by rw [evalOps_length, h.args, hi])]
  · intro x G hx
    refine ⟨?_, ?_⟩
    · have := hx.1
      simp only [Rec.op, List.length_append, List.length_singleton]; omega
    · intro inp hi
      simp only [Rec.op]
      rw [evalOps_snoc, getD_snoc_lt _ _ _ (by rw [evalOps_length, hi]; exact hx.1)]
      exact hx.2 inp hi

theorem RHolds.congr {n : Nat} {s : Rec} {x : Nat} {G H : List Bool → Bool} (h : RHolds n s x G)
    (e : ∀ inp : List Bool, inp.length = n → G inp = H inp) : RHolds n s x H :=
  ⟨h.1, fun inp hi => (h.2 inp hi).trans (e inp hi)⟩

theorem Rec.xor_spec {n : Nat} {s : Rec} (h : RecOk n s) {x y : Nat} {G H : List Bool → Bool}
    (hx : RHolds n s x G) (hy : RHolds n s y H) :
    RecOk n (s.op .xor [x, y]).2 ∧ RHolds n (s.op .xor [x, y]).2 (s.op .xor [x, y]).1 (fun inp => G inp ^^ H inp) ∧
    ∀ z K, RHolds n s z K → RHolds n (s.op .xor [x, y]).2 z K := by
  obtain ⟨a, b, c⟩ := Rec.op_spec h .xor [x, y] rfl rfl (by
    intro z hz
    simp only [List.mem_cons, List.not_mem_nil, or_false] at hz
    rcases hz with rfl | rfl
    · exact hx.1
    · exact hy.1)
  refine ⟨a, b.congr fun inp hi => ?_, c⟩
  simp only [List.map_cons, List.map_nil, hx.2 inp hi, hy.2 inp hi]
  rfl

theorem Rec.and_spec {n : Nat} {s : Rec} (h : RecOk n s) {x y : Nat} {G H : List Bool → Bool}
    (hx : RHolds n s x G) (hy : RHolds n s y H) :
    RecOk n (s.op .and [x, y]).2 ∧ RHolds n (s.op .and [x, y]).2 (s.op .and [x, y]).1 (fun inp => G inp && H inp) ∧
    ∀ z K, RHolds n s z K → RHolds n (s.op .and [x, y]).2 z K := by
  obtain ⟨a, b, c⟩ := Rec.op_spec h .and [x, y] rfl rfl (by
    intro z hz
    simp only [List.mem_cons, List.not_mem_nil, or_false] at hz
    rcases hz with rfl | rfl
    · exact hx.1
    · exact hy.1)
  refine ⟨a, b.congr fun inp hi => ?_, c⟩
  simp only [List.map_cons, List.map_nil, hx.2 inp hi, hy.2 inp hi]
  rfl

theorem Rec.inv_spec {n : Nat} {s : Rec} (h : RecOk n s) {x : Nat} {G : List Bool → Bool} (hx : RHolds n s x G) :
    RecOk n (s.op .inv [x]).2 ∧ RHolds n (s.op .inv [x]).2 (s.op .inv [x]).1 (fun inp => !G inp) ∧
    ∀ z K, RHolds n s z K → RHolds n (s.op .inv [x]).2 z K := by
  obtain ⟨a, b, c⟩ := Rec.op_spec h .inv [x] rfl rfl (by
    intro z hz
    simp only [List.mem_cons, List.not_mem_nil, or_false] at hz
    subst hz
    exact hx.1)
  refine ⟨a, b.congr fun inp hi => ?_, c⟩
  simp only [List.map_cons, List.map_nil, hx.2 inp hi]
  rfl

theorem Rec.or_spec {n : Nat} {s : Rec} (h : RecOk n s) {x y : Nat} {G H : List Bool → Bool}
    (hx : RHolds n s x G) (hy : RHolds n s y H) :
    RecOk n (s.or x y).2 ∧ RHolds n (s.or x y).2 (s.or x y).1 (fun inp => G inp || H inp) ∧
    ∀ z K, RHolds n s z K → RHolds n (s.or x y).2 z K := by
  obtain ⟨a1, b1, c1⟩ := Rec.xor_spec h hx hy
  obtain ⟨a2, b2, c2⟩ := Rec.and_spec a1 (c1 _ _ hx) (c1 _ _ hy)
  obtain ⟨a3, b3, c3⟩ := Rec.xor_spec a2 (c2 _ _ b1) b2
  refine ⟨a3, b3.congr fun inp _ => ?_, fun z K hz => c3 _ _ (c2 _ _ (c1 _ _ hz))⟩
  cases G inp <;> cases H inp <;> rfl

theorem Rec.xnors_spec {n : Nat} (ps : List (Nat × Nat)) {s : Rec} (h : RecOk n s)
    (hp : ∀ p ∈ ps, p.1 < n ∧ p.2 < n) :
    RecOk n (s.xnors ps).2 ∧
    List.Forall₂ (RHolds n (s.xnors ps).2) (s.xnors ps).1
      (ps.map fun p (inp : List Bool) => !(inp.getD p.1 false ^^ inp.getD p.2 false)) ∧
    ∀ z K, RHolds n s z K → RHolds n (s.xnors ps).2 z K := by
  induction ps generalizing s with
  | nil => exact ⟨h, .nil, fun _ _ h => h⟩
  | cons p ps ih =>
    obtain ⟨k, t⟩ := p
    have hin : ∀ x < n, RHolds n s x fun inp => inp.getD x false := by
      intro x hx
      refine ⟨by omega, fun inp hi => evalOps_prefix _ _ _ (by omega)⟩
    have hkt := hp (k, t) List.mem_cons_self
    obtain ⟨a1, b1, c1⟩ := Rec.xor_spec h (hin k hkt.1) (hin t hkt.2)
    obtain ⟨a2, b2, c2⟩ := Rec.inv_spec a1 b1
    obtain ⟨a3, b3, c3⟩ := ih a2 fun q hq => hp q (List.mem_cons_of_mem _ hq)
    refine ⟨a3, .cons (c3 _ _ b2) b3, fun z K hz => c3 _ _ (c2 _ _ (c1 _ _ hz))⟩

theorem fold_and (Gs : List (List Bool → Bool)) (G : List Bool → Bool) (inp : List Bool) :
    Gs.foldl (fun a b (i : List Bool) => a i && b i) G inp = (G :: Gs).all fun K => K inp := by
  induction Gs generalizing G with
  | nil => simp
  | cons H Gs ih => rw [List.foldl_cons, ih]; simp [Bool.and_assoc]

theorem fold_or (Gs : List (List Bool → Bool)) (G : List Bool → Bool) (inp : List Bool) :
    Gs.foldl (fun a b (i : List Bool) => a i || b i) G inp = (G :: Gs).any fun K => K inp := by
  induction Gs generalizing G with
  | nil => simp
  | cons H Gs ih => rw [List.foldl_cons, ih]; simp [Bool.or_assoc]

theorem reduce_and {n : Nat} {s : Rec} (h : RecOk n s) {xs : List Nat} {Gs : List (List Bool → Bool)}
    (hx : List.Forall₂ (RHolds n s) xs Gs) (hne : xs ≠ []) :
    ∃ r s', Secret.lowDepthReduce (fun x y (s : Rec) => some (s.op .and [x, y])) xs s = some (some r, s') ∧
      RecOk n s' ∧ RHolds n s' r fun inp => Gs.all fun G => G inp := by
  have hf : Secret.Performs (fun x y (s : Rec) => some (s.op .and [x, y])) (fun a b (i : List Bool) => a i && b i)
      (RHolds n) (fun _ s => RecOk n s) := by
    refine ⟨?_⟩
    intro s k x y a b hx hy hs
    obtain ⟨q1, q2, q3⟩ := Rec.and_spec hs hx hy
    exact ⟨_, _, rfl, q2, q1, q3⟩
  obtain ⟨x, s', t, e, -, -, -, i, -, f⟩ := (Secret.low_depth_reduce_correct hf xs Gs s hx h).2 hne
  cases Gs with
  | nil => cases hx; exact absurd rfl hne
  | cons G Gs =>
    refine ⟨x, s', e, i, ?_⟩
    refine (f (fun a b c => by funext i; simp [Bool.and_assoc]) G Gs rfl).congr fun inp _ => ?_
    exact fold_and Gs G inp

theorem reduce_or {n : Nat} {s : Rec} (h : RecOk n s) {xs : List Nat} {Gs : List (List Bool → Bool)}
    (hx : List.Forall₂ (RHolds n s) xs Gs) (hne : xs ≠ []) :
    ∃ r s', Secret.lowDepthReduce (fun x y (s : Rec) => some (s.or x y)) xs s = some (some r, s') ∧
      RecOk n s' ∧ RHolds n s' r fun inp => Gs.any fun G => G inp := by
  have hf : Secret.Performs (fun x y (s : Rec) => some (s.or x y)) (fun a b (i : List Bool) => a i || b i)
      (RHolds n) (fun _ s => RecOk n s) := by
    refine ⟨?_⟩
    intro s k x y a b hx hy hs
    obtain ⟨q1, q2, q3⟩ := Rec.or_spec hs hx hy
    exact ⟨_, _, rfl, q2, q1, q3⟩
  obtain ⟨x, s', t, e, -, -, -, i, -, f⟩ := (Secret.low_depth_reduce_correct hf xs Gs s hx h).2 hne
  cases Gs with
  | nil => cases hx; exact absurd rfl hne
  | cons G Gs =>
    refine ⟨x, s', e, i, ?_⟩
    refine (f (fun a b c => by funext i; simp [Bool.or_assoc]) G Gs rfl).congr fun inp _ => ?_
    exact fold_or Gs G inp

/-! ### The functions -/

theorem orBody_spec (n : Nat) (hn : 0 < n) :
    BodyOk n (orBody n) ∧ (orBody n).ret.length = 1 ∧
      ∀ inp : List Bool, inp.length = n → (orBody n).eval inp = [inp.any id] := by
  have h0 : RecOk n ⟨n, []⟩ := ⟨rfl, by simp⟩
  have hx : List.Forall₂ (RHolds n ⟨n, []⟩) (List.range n) ((List.range n).map fun i inp => inp.getD i false) := by
    rw [List.forall₂_map_right_iff, List.forall₂_same]
    intro i hi
    have := List.mem_range.1 hi
    exact ⟨by simpa using this, fun inp _ => rfl⟩
  obtain ⟨r, s, e, h1, h2⟩ := reduce_or h0 hx (by simp; omega)
  have hb : orBody n = ⟨s.ops, [r], true⟩ := by unfold orBody; rw [e]
  rw [hb]
  refine ⟨⟨h1.ops, by intro a ha; rw [List.mem_singleton.1 ha]; exact h2.1⟩, rfl, ?_⟩
  intro inp hi
  simp only [Body.eval, List.map_cons, List.map_nil, h2.2 inp hi, List.any_map]
  congr 1
  rw [Bool.eq_iff_iff, List.any_eq_true, List.any_eq_true]
  constructor
  · rintro ⟨i, hi', h⟩
    have := List.mem_range.1 hi'
    simp only [Function.comp_apply, List.getD_eq_getElem?_getD,
      List.getElem?_eq_getElem (show i < inp.length by omega), Option.getD_some] at h
    exact ⟨_, List.getElem_mem _, h⟩
  · rintro ⟨x, hx, h⟩
    obtain ⟨i, hi', rfl⟩ := List.mem_iff_getElem.1 hx
    refine ⟨i, List.mem_range.2 (by omega), ?_⟩
    simpa [List.getD_eq_getElem?_getD, List.getElem?_eq_getElem hi'] using h

theorem chars_length (g n : Nat) : (chars g n).length = n := by simp [chars]

theorem chars_flatten (g n : Nat) : (chars g n).flatten = List.range' g (8 * n) := by
  induction n generalizing g with
  | zero => rfl
  | succ n ih =>
    have : chars g (n + 1) = List.range' g 8 :: chars (g + 8) n := by
      rw [chars, List.range_succ_eq_map, List.map_cons, List.map_map, chars]
      congr 1
      apply List.map_congr_left
      intro k _
      simp only [Function.comp_apply]
      congr 1; omega
    rw [this, List.flatten_cons, ih, show 8 * (n + 1) = 8 + 8 * n by omega, List.range'_append_1]

theorem splitChars_mem {g n x : Nat} (h : x ∈ splitChars (chars g n)) : g ≤ x ∧ x < g + 8 * n := by
  simp only [splitChars, List.mem_flatMap] at h
  obtain ⟨c, hc, hx⟩ := h
  have : x ∈ (chars g n).flatten := List.mem_flatten.2 ⟨c, hc, List.mem_of_mem_take hx⟩
  rw [chars_flatten, List.mem_range'_1] at this
  exact this

theorem splitChars_length (g n : Nat) : (splitChars (chars g n)).length = 6 * n := by
  induction n generalizing g with
  | zero => rfl
  | succ n ih =>
    have : chars g (n + 1) = List.range' g 8 :: chars (g + 8) n := by
      rw [chars, List.range_succ_eq_map, List.map_cons, List.map_map, chars]
      congr 1
      apply List.map_congr_left
      intro k _
      simp only [Function.comp_apply]
      congr 1; omega
    have ih' := ih (g + 8)
    unfold splitChars at ih' ⊢
    rw [this, List.flatMap_cons, List.length_append, ih']
    simp; omega

/-- The low bits of the characters of a text of `n` characters whose bits start at `g`. -/
def lows (inp : List Bool) (g n : Nat) : List (List Bool) :=
  (chars g n).map fun c => (c.take 6).map fun x => inp.getD x false

theorem lows_flatten (inp : List Bool) (g n : Nat) :
    (lows inp g n).flatten = (splitChars (chars g n)).map fun x => inp.getD x false := by
  simp [lows, splitChars, List.flatMap_def, List.map_flatten, Function.comp_def]

theorem lows_len (inp : List Bool) (g n : Nat) : (lows inp g n).length = n ∧ ∀ x ∈ lows inp g n, x.length = 6 := by
  refine ⟨by simp [lows, chars], ?_⟩
  intro x hx
  simp only [lows, chars, List.map_map, List.mem_map, Function.comp_apply] at hx
  obtain ⟨k, -, rfl⟩ := hx
  simp

theorem all_pairs (inp : List Bool) (xs ys : List Nat) (h : xs.length = ys.length) :
    ((xs.zip ys).map fun p (inp : List Bool) => !(inp.getD p.1 false ^^ inp.getD p.2 false)).all (fun G => G inp) =
      decide (xs.map (fun x => inp.getD x false) = ys.map fun x => inp.getD x false) := by
  induction xs generalizing ys with
  | nil =>
    cases ys with
    | nil => rfl
    | cons => simp at h
  | cons x xs ih =>
    cases ys with
    | nil => simp at h
    | cons y ys =>
      simp only [List.zip_cons_cons, List.map_cons, List.all_cons]
      rw [ih ys (by simpa using h)]
      simp only [List.cons.injEq, Bool.decide_and]
      cases inp.getD x false <;> cases inp.getD y false <;> simp

theorem comparisonBody_spec (n : Nat) (hn : 0 < n) :
    BodyOk (8 * n + 8 * n) (comparisonBody (8 * n) (8 * n)) ∧ (comparisonBody (8 * n) (8 * n)).ret.length = 1 ∧
      ∀ inp : List Bool, inp.length = 8 * n + 8 * n →
        (comparisonBody (8 * n) (8 * n)).eval inp = [decide (lows inp 0 n = lows inp (8 * n) n)] := by
  have h0 : RecOk (8 * n + 8 * n) ⟨8 * n + 8 * n, []⟩ := ⟨rfl, by simp⟩
  have hd : 8 * n / 8 = n := by omega
  obtain ⟨a1, b1, -⟩ := Rec.xnors_spec
    ((splitChars (chars 0 n)).zip (splitChars (chars (8 * n) n))) h0 (by
      rintro ⟨x, y⟩ hp
      have := List.of_mem_zip hp
      have h1 := splitChars_mem this.1
      have h2 := splitChars_mem this.2
      simp only; omega)
  generalize hz : (splitChars (chars 0 n)).zip (splitChars (chars (8 * n) n)) = z at a1 b1
  have hlen : (splitChars (chars 0 n)).length = (splitChars (chars (8 * n) n)).length := by
    rw [splitChars_length, splitChars_length]
  have hne : (Rec.xnors ⟨8 * n + 8 * n, []⟩ z).1 ≠ [] := by
    intro e
    have := b1.length_eq
    rw [e, List.length_map, ← hz, List.length_zip, ← hlen, splitChars_length] at this
    simp at this
    omega
  obtain ⟨r, s, e, h1, h2⟩ := reduce_and a1 b1 hne
  have hb : comparisonBody (8 * n) (8 * n) = ⟨s.ops, [r], true⟩ := by
    unfold comparisonBody
    rw [hd, hz]
    simp only [e]
  rw [hb]
  refine ⟨⟨h1.ops, by intro a ha; rw [List.mem_singleton.1 ha]; exact h2.1⟩, rfl, ?_⟩
  intro inp hi
  simp only [Body.eval, List.map_cons, List.map_nil, h2.2 inp hi]
  congr 1
  rw [← hz, all_pairs inp _ _ hlen, ← lows_flatten, ← lows_flatten]
  congr 1
  apply propext
  constructor
  · exact flatten_inj 6 _ _ (lows_len _ _ _).2 (lows_len _ _ _).2 (by rw [(lows_len _ _ _).1, (lows_len _ _ _).1])
  · exact fun h => by rw [h]

end Verif.Mail
