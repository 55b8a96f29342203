import Verif.Mail.Model

/-!
Lemmas for C66: what the pieces of the search circuit compute.
-/
set_option autoImplicit false

namespace Verif.Mail

open Circuit Gmw Secret Exec

/-- Gates other than inputs, outputs and connections. -/
def quiet : BoolGate → Bool
  | .base (.constant _) | .base .identity | .and | .xor | .inv => true
  | _ => false

/-- Going from `b` to `b'` appended gates satisfying `p` to the main circuit. -/
def Adds (p : BoolGate → Prop) (b b' : Builder) : Prop :=
  ∃ c c' gs, b[0]? = some c ∧ b'[0]? = some c' ∧ c'.gates = c.gates ++ gs ∧ ∀ g ∈ gs, p g

/-- Going from `b` to `b'` appended gates to the main circuit, `k` of them interactive, none of
them inputs or outputs. -/
structure Made (b b' : Builder) (k : Nat) : Prop where
  ok : Ok b'
  ext : Extends b b'
  ands : andCount b' = andCount b + k
  adds : Adds (fun g => quiet g = true) b b'

/-- The secret exists in the main circuit and has the value `F` in every evaluation. -/
def Holds (b : Builder) (t : Sec) (F : (Node → Bool) → Bool) : Prop :=
  Valid b t ∧ t.1 = 0 ∧ ∀ val, Consistent b val → val t = F val

theorem Adds.trans {p : BoolGate → Prop} {a b c : Builder} (h : Adds p a b) (h' : Adds p b c) :
    Adds p a c := by
  obtain ⟨x, y, gs, h1, h2, h3, h4⟩ := h
  obtain ⟨y', z, gs', h1', h2', h3', h4'⟩ := h'
  rw [h2] at h1'
  cases h1'
  refine ⟨x, z, gs ++ gs', h1, h2', by rw [h3', h3, List.append_assoc], ?_⟩
  intro g hg
  rcases List.mem_append.1 hg with hg | hg
  · exact h4 g hg
  · exact h4' g hg

theorem Adds.refl {p : BoolGate → Prop} {b : Builder} (h : 0 < b.length) : Adds p b b :=
  ⟨b[0], b[0], [], by simp [h], by simp [h], by simp, by simp⟩

theorem Made.refl {b : Builder} (h : 0 < b.length) (hb : Ok b) : Made b b 0 :=
  ⟨hb, .refl b, rfl, .refl h⟩

theorem Made.trans {a b c : Builder} {k l : Nat} (h : Made a b k) (h' : Made b c l) :
    Made a c (k + l) :=
  ⟨h'.ok, h.ext.trans h'.ext, by rw [h'.ands, h.ands]; omega, h.adds.trans h'.adds⟩

theorem Made.pos {b b' : Builder} {k : Nat} (h : Made b b' k) : 0 < b'.length := by
  obtain ⟨-, c, -, -, h, -⟩ := h.adds
  exact (List.getElem?_eq_some_iff.1 h).1

theorem Holds.mono {b b' : Builder} {k : Nat} (h : Made b b' k) {t : Sec} {F : (Node → Bool) → Bool}
    (ht : Holds b t F) : Holds b' t F :=
  ⟨h.ext.valid ht.1, ht.2.1, fun val hv => ht.2.2 val (h.ext.consistent hv)⟩

theorem Holds.congr {b : Builder} {t : Sec} {F G : (Node → Bool) → Bool} (ht : Holds b t F)
    (h : ∀ val, F val = G val) : Holds b t G :=
  ⟨ht.1, ht.2.1, fun val hv => (ht.2.2 val hv).trans (h val)⟩

theorem holds_self {b : Builder} {t : Sec} (h : Valid b t) (h0 : t.1 = 0) :
    Holds b t fun val => val t := ⟨h, h0, fun _ _ => rfl⟩

theorem addWired_gates {c c' : Base BoolGate} {g : BoolGate} {args : List Nat} {id : Nat}
    (h : c.addWiredGate g args = some (c', id)) : c'.gates = c.gates ++ [g] ∧ id = c.gates.length := by
  obtain ⟨h2, -, e⟩ := addWiredGate_spec h
  exact ⟨by rw [e]; exact (addGate_gates c g).1, h2⟩

theorem onCirc_adds {b b' : Builder} {g : BoolGate} {args : List Nat} {t : Sec}
    {p : BoolGate → Prop} (hp : p g)
    (h : onCirc b 0 (fun c => c.addWiredGate g args) = some (b', t)) : Adds p b b' := by
  simp only [onCirc, Option.bind_eq_bind, Option.bind_eq_some_iff, Option.pure_def,
    Option.some.injEq, Prod.mk.injEq] at h
  obtain ⟨c, hc, ⟨c', id⟩, h1, rfl, -⟩ := h
  refine ⟨c, c', [g], hc, ?_, (addWired_gates h1).1, by simpa using hp⟩
  exact List.getElem?_set_self (List.getElem?_eq_some_iff.1 hc).1

theorem xor_made {b : Builder} (hb : Ok b) {s r : Sec} {F G : (Node → Bool) → Bool}
    (hs : Holds b s F) (hr : Holds b r G) :
    ∃ b' t, bitXor b s r = some (b', t) ∧ Made b b' 0 ∧ Holds b' t fun val => F val ^^ G val := by
  obtain ⟨b', t, e, h1, d⟩ := bitXor_denotes hb hs.1 hr.1 (hs.2.1.trans hr.2.1.symm)
  refine ⟨b', t, e, ⟨d.ok, d.ext, d.ands, ?_⟩, d.valid, h1.trans hs.2.1, ?_⟩
  · rw [bitXor, if_pos (hs.2.1.trans hr.2.1.symm), hs.2.1] at e
    exact onCirc_adds rfl e
  · intro val hv
    rw [d.value val hv, hs.2.2 val (d.ext.consistent hv), hr.2.2 val (d.ext.consistent hv)]

theorem and_made {b : Builder} (hb : Ok b) {s r : Sec} {F G : (Node → Bool) → Bool}
    (hs : Holds b s F) (hr : Holds b r G) :
    ∃ b' t, bitAnd b s r = some (b', t) ∧ Made b b' 1 ∧ Holds b' t fun val => F val && G val := by
  obtain ⟨b', t, e, h1, d⟩ := bitAnd_denotes hb hs.1 hr.1 (hs.2.1.trans hr.2.1.symm)
  refine ⟨b', t, e, ⟨d.ok, d.ext, d.ands, ?_⟩, d.valid, h1.trans hs.2.1, ?_⟩
  · rw [bitAnd, if_pos (hs.2.1.trans hr.2.1.symm), hs.2.1] at e
    exact onCirc_adds rfl e
  · intro val hv
    rw [d.value val hv, hs.2.2 val (d.ext.consistent hv), hr.2.2 val (d.ext.consistent hv)]

theorem or_made {b : Builder} (hb : Ok b) {s r : Sec} {F G : (Node → Bool) → Bool}
    (hs : Holds b s F) (hr : Holds b r G) :
    ∃ b' t, bitOr b s r = some (b', t) ∧ Made b b' 1 ∧ Holds b' t fun val => F val || G val := by
  obtain ⟨b1, x, e1, m1, h1⟩ := xor_made hb hs hr
  obtain ⟨b2, y, e2, m2, h2⟩ := and_made m1.ok (hs.mono m1) (hr.mono m1)
  obtain ⟨b3, z, e3, m3, h3⟩ := xor_made m2.ok (h1.mono m2) h2
  refine ⟨b3, z, ?_, (m1.trans m2).trans m3, h3.congr ?_⟩
  · simp [bitOr, hs.2.1.trans hr.2.1.symm, e1, e2, e3]
  · intro val
    cases F val <;> cases G val <;> rfl

theorem not_made {b : Builder} (hb : Ok b) {s : Sec} {F : (Node → Bool) → Bool}
    (hs : Holds b s F) :
    ∃ b' t, Secret.not b s = some (b', t) ∧ Made b b' 0 ∧ Holds b' t fun val => !F val := by
  obtain ⟨b', t, e, h1, d⟩ := not_denotes hb hs.1
  refine ⟨b', t, e, ⟨d.ok, d.ext, d.ands, ?_⟩, d.valid, h1.trans hs.2.1, ?_⟩
  · rw [Secret.not, hs.2.1] at e
    exact onCirc_adds rfl e
  · intro val hv
    rw [d.value val hv, hs.2.2 val (d.ext.consistent hv)]

theorem const_made {b : Builder} (h0 : 0 < b.length) (hb : Ok b) (v : Bool) :
    ∃ b' t, fromConst b 0 v = some (b', t) ∧ Made b b' 0 ∧ Holds b' t fun _ => v := by
  obtain ⟨b', t, e, h1, d⟩ := fromConst_denotes hb 0 h0 v
  refine ⟨b', t, e, ⟨d.ok, d.ext, d.ands, ?_⟩, d.valid, h1, d.value⟩
  simp only [fromConst, addGate_wired] at e
  exact onCirc_adds rfl e

/-- `map(f).collect()` where `f` appends gates. -/
theorem mapB_made {α β : Type} {f : Builder → α → Option (Builder × β)}
    {Pre : Builder → α → Prop} {Post : Builder → α → β → Prop} {k : α → Nat}
    (hpre : ∀ b b' n a, Made b b' n → Pre b a → Pre b' a)
    (hpost : ∀ b b' n a y, Made b b' n → Post b a y → Post b' a y)
    (hf : ∀ b a, 0 < b.length → Ok b → Pre b a →
      ∃ b' y, f b a = some (b', y) ∧ Made b b' (k a) ∧ Post b' a y)
    (xs : List α) (b : Builder) (h0 : 0 < b.length) (hb : Ok b) (hx : ∀ a ∈ xs, Pre b a) :
    ∃ b' ys, mapB f b xs = some (b', ys) ∧ Made b b' (xs.map k).sum ∧
      List.Forall₂ (Post b') xs ys := by
  induction xs generalizing b with
  | nil => exact ⟨b, [], rfl, .refl h0 hb, .nil⟩
  | cons x xs ih =>
    obtain ⟨b1, y, e1, m1, p1⟩ := hf b x h0 hb (hx x List.mem_cons_self)
    obtain ⟨b2, ys, e2, m2, p2⟩ := ih b1 m1.pos m1.ok
      (fun a ha => hpre _ _ _ _ m1 (hx a (List.mem_cons_of_mem _ ha)))
    refine ⟨b2, y :: ys, by simp [mapB, e1, e2], ?_, .cons (hpost _ _ _ _ _ m2 p1) p2⟩
    rw [List.map_cons, List.sum_cons]
    exact m1.trans m2

/-- A reduction with an operation that appends gates. -/
theorem reduce_made {op : Builder → Sec → Sec → Option (Builder × Sec)} {o : Bool → Bool → Bool}
    (ho : ∀ a b c, o (o a b) c = o a (o b c))
    (hop : ∀ (b : Builder), Ok b → ∀ (s r : Sec) (F G : (Node → Bool) → Bool), Holds b s F →
      Holds b r G → ∃ b' t, op b s r = some (b', t) ∧ Made b b' 1 ∧
        Holds b' t fun val => o (F val) (G val))
    (b : Builder) (h0 : 0 < b.length) (hb : Ok b) (x : Sec) (xs : List Sec)
    (F : (Node → Bool) → Bool) (Fs : List ((Node → Bool) → Bool))
    (hx : List.Forall₂ (Holds b) (x :: xs) (F :: Fs)) :
    ∃ b' t, reduceExpect op b (x :: xs) = some (b', t) ∧ Made b b' xs.length ∧
      Holds b' t fun val => (Fs.map (· val)).foldl o (F val) := by
  have perf : Performs (fun x y s => (op s x y).map Prod.swap)
      (fun F G (val : Node → Bool) => o (F val) (G val))
      (fun s x F => Ok s ∧ Holds s x F) (fun k s => Made b s k) := by
    constructor
    rintro s k x y F G ⟨hs, hx⟩ ⟨-, hy⟩ hI
    obtain ⟨s', z, e, m, hz⟩ := hop s hs x y F G hx hy
    refine ⟨z, s', by simp [e], ⟨m.ok, hz⟩, hI.trans m, ?_⟩
    rintro w H ⟨-, hw⟩
    exact ⟨m.ok, hw.mono m⟩
  obtain ⟨-, h2⟩ := low_depth_reduce_correct perf (x :: xs) (F :: Fs) b
    (hx.imp fun _ _ h => ⟨hb, h⟩) (.refl h0 hb)
  obtain ⟨t, b', tr, e, -, -, -, hm, -, a⟩ := h2 (by simp)
  obtain ⟨-, ht⟩ := a (by intro F G H; funext val; exact ho _ _ _) F Fs rfl
  refine ⟨b', t, by simp [reduceExpect, e], by simpa using hm, ht.congr ?_⟩
  intro val
  have : ∀ (Fs : List ((Node → Bool) → Bool)) (F : (Node → Bool) → Bool),
      Fs.foldl (fun F G (val : Node → Bool) => o (F val) (G val)) F val =
        (Fs.map (· val)).foldl o (F val) := by
    intro Fs
    induction Fs with
    | nil => intro F; rfl
    | cons G Fs ih => intro F; simp only [List.foldl_cons, List.map_cons, ih]
  exact this Fs F

theorem foldl_and (l : List Bool) (a : Bool) : l.foldl (· && ·) a = (a && l.all id) := by
  induction l generalizing a with
  | nil => simp
  | cons x l ih => simp [ih, Bool.and_assoc]

theorem foldl_or (l : List Bool) (a : Bool) : l.foldl (· || ·) a = (a || l.any id) := by
  induction l generalizing a with
  | nil => simp
  | cons x l ih => simp [ih, Bool.or_assoc]

theorem and_reduce_made (b : Builder) (h0 : 0 < b.length) (hb : Ok b) (xs : List Sec)
    (Fs : List ((Node → Bool) → Bool)) (hx : List.Forall₂ (Holds b) xs Fs) (hne : xs ≠ []) :
    ∃ b' t, reduceExpect bitAnd b xs = some (b', t) ∧ Made b b' (xs.length - 1) ∧
      Holds b' t fun val => Fs.all (· val) := by
  cases hx with
  | nil => simp at hne
  | cons h hs =>
    obtain ⟨b', t, e, m, ht⟩ := reduce_made Bool.and_assoc
      (fun b hb s r F G hs hr => and_made hb hs hr) b h0 hb _ _ _ _ (.cons h hs)
    refine ⟨b', t, e, by simpa using m, ht.congr ?_⟩
    intro val
    rw [foldl_and]
    simp [List.all_map, Function.comp_def]

theorem or_reduce_made (b : Builder) (h0 : 0 < b.length) (hb : Ok b) (xs : List Sec)
    (Fs : List ((Node → Bool) → Bool)) (hx : List.Forall₂ (Holds b) xs Fs) (hne : xs ≠ []) :
    ∃ b' t, reduceExpect bitOr b xs = some (b', t) ∧ Made b b' (xs.length - 1) ∧
      Holds b' t fun val => Fs.any (· val) := by
  cases hx with
  | nil => simp at hne
  | cons h hs =>
    obtain ⟨b', t, e, m, ht⟩ := reduce_made Bool.or_assoc
      (fun b hb s r F G hs hr => or_made hb hs hr) b h0 hb _ _ _ _ (.cons h hs)
    refine ⟨b', t, e, by simpa using m, ht.congr ?_⟩
    intro val
    rw [foldl_or]
    simp [List.any_map, Function.comp_def]

end Verif.Mail
