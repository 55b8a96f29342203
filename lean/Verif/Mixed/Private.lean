import Verif.Exec.ActiveScalar
import Verif.Mixed.Exec

/-!
C98: the mixed protocol of an honest party against an arbitrary peer.
-/
set_option autoImplicit false

namespace Verif.Mixed

open Circuit Proc Exec

/-! ### Specification -/

/-- What masks the messages of a layer: the factors of the Boolean triples and the Boolean shares of the shared bits. -/
structure Masks (w : Nat) where
  bits : List (Bool × Bool)
  words : List (BitVec w)

/-- The choices of masks for a layer of `n` gates: `n` triples and `sb n` words of shared bits. -/
def masksOf (w : Nat) (sb : Nat → Nat) (n : Nat) : Set (Masks w) := {x | x.bits.length = n ∧ x.words.length = sb n}

/-- What the peer receives of a message. -/
def sentOf {w : Nat} (a : Msg w × Option Unit) : Msg w := a.1.sent

/-- Both are shares of bits or both are shares of ring elements. -/
def SameKind {w : Nat} : Val w → Val w → Prop
  | .bool _, .bool _ => True
  | .arith _, .arith _ => True
  | _, _ => False

/-- Setup data made from masks: the factors and the words are the masks, what `random()` delivers and the number of
arithmetic shares of bits do not depend on them.  The rest (the products of the triples, the arithmetic triples, the
arithmetic shares of the bits) may depend on them in any way, as it does when it fits to what the peer holds. -/
structure FromMasks {w : Nat} (sb : Nat → Nat) (rand : Nat → Nat → BitVec w)
    (mk : Nat → Masks w → (Nat → BitVec w) × Setup w) : Prop where
  bits : ∀ k x, (mk k x).2.bool.map maskBits = x.bits
  words : ∀ k x, (mk k x).2.sbBool = x.words
  rand : ∀ k x, (mk k x).1 = rand k
  arith : ∀ k n x y, x ∈ masksOf w sb n → y ∈ masksOf w sb n → (mk k x).2.sbArith.length = (mk k y).2.sbArith.length

/-! ### Proof -/

section
variable {w : Nat}

theorem bools_rel {xs ys : List (Val w)} (h : List.Forall₂ SameKind xs ys) :
    OptRel (fun a b => a.length = b.length) (xs.mapM Val.unwrapBool) (ys.mapM Val.unwrapBool) := by
  induction h with
  | nil => rfl
  | @cons x y xs ys hxy _ ih =>
    simp only [List.mapM_cons, Option.bind_eq_bind, Option.pure_def]
    cases x <;> cases y <;> simp only [SameKind] at hxy
    · simp only [Val.unwrapBool, Option.bind_some]
      exact ih.bind fun a b hab => by simp [OptRel, hab]
    · simp [Val.unwrapBool, OptRel]

theorem ariths_rel {xs ys : List (Val w)} (h : List.Forall₂ SameKind xs ys) :
    OptRel (fun a b => a.length = b.length) (xs.mapM Val.unwrapArith) (ys.mapM Val.unwrapArith) := by
  induction h with
  | nil => rfl
  | @cons x y xs ys hxy _ ih =>
    simp only [List.mapM_cons, Option.bind_eq_bind, Option.pure_def]
    cases x <;> cases y <;> simp only [SameKind] at hxy
    · simp [Val.unwrapArith, OptRel]
    · simp only [Val.unwrapArith, Option.bind_some]
      exact ih.bind fun a b hab => by simp [OptRel, hab]

theorem take_rel {A B : Type} {R : A → B → Prop} {xs : List A} {ys : List B} (h : List.Forall₂ R xs ys) (n : Nat) :
    List.Forall₂ R (xs.take n) (ys.take n) := List.forall₂_take n h

theorem drop_rel {A B : Type} {R : A → B → Prop} {xs : List A} {ys : List B} (h : List.Forall₂ R xs ys) (n : Nat) :
    List.Forall₂ R (xs.drop n) (ys.drop n) := List.forall₂_drop n h

/-- The inputs and gates by kind. -/
structure SplitRel (s s' : Split w) : Prop where
  bgates : s.bgates = s'.bgates
  cgates : s.cgates = s'.cgates
  agates : s.agates = [] ∧ s'.agates = []
  bools : s.bools.length = s'.bools.length
  convs : List.Forall₂ SameKind s.convs s'.convs

theorem split_rel (gs : List (Gate w)) (hP : ∀ g ∈ gs, ∀ a, g ≠ .arith a) : ∀ {xs ys : List (Val w)},
    List.Forall₂ SameKind xs ys → OptRel SplitRel (split gs xs) (split gs ys) := by
  induction gs with
  | nil => intro xs ys _; exact ⟨rfl, rfl, ⟨rfl, rfl⟩, rfl, .nil⟩
  | cons g gs ih =>
    intro xs ys h
    have ih := @ih fun g hg => hP g (List.mem_cons_of_mem _ hg)
    cases g with
    | base b => simp [split, OptRel]
    | bool g =>
      simp only [split, Option.bind_eq_bind]
      exact (bools_rel (take_rel h _)).bind fun a b hab => (ih (drop_rel h _)).bind fun s s' hs =>
        ⟨by simp [hs.bgates], hs.cgates, hs.agates, by simp [hab, hs.bools], hs.convs⟩
    | arith g => exact absurd rfl (hP _ List.mem_cons_self g)
    | conv g =>
      simp only [split, Option.bind_eq_bind]
      exact (ih (drop_rel h _)).bind fun s s' hs =>
        ⟨hs.bgates, by simp [hs.cgates], hs.agates, hs.bools, List.rel_append (take_rel h _) hs.convs⟩

/-- Messages of the conversion gates that look the same. -/
structure ConvRel (c c' : ConvMsg w) : Prop where
  b2a : c.b2a = c'.b2a
  reshares : c.reshares = c'.reshares
  own : c.own.length = c'.own.length

/-- Exclusive or of words. -/
def xorW (x y : List (BitVec w)) : List (BitVec w) := List.zipWith (· ^^^ ·) x y

theorem xorW_length {x y : List (BitVec w)} (h : x.length = y.length) : (xorW x y).length = y.length := by
  simp [xorW, h]

theorem xorW_twice : ∀ {x y : List (BitVec w)}, x.length = y.length → xorW (xorW x y) y = x
  | [], [], _ => rfl
  | p :: x, q :: y, h => by
    have := xorW_twice (x := x) (y := y) (by simpa using h)
    simp_all [xorW, BitVec.xor_assoc]

theorem conv_delta (gs : List Conv) : ∀ (n : Nat) {xs ys : List (Val w)}, List.Forall₂ SameKind xs ys →
    ∃ δ : List (BitVec w), δ.length = n ∧ ∀ (rand : Nat → BitVec w) (t : List (BitVec w)), t.length = n →
      OptRel ConvRel (convMsg gs xs rand t) (convMsg gs ys rand (xorW t δ)) := by
  induction gs with
  | nil => intro n xs ys _; exact ⟨List.replicate n 0, by simp, fun _ _ _ => ⟨rfl, rfl, rfl⟩⟩
  | cons g gs ih =>
    intro n xs ys h
    cases g with
    | snd =>
      cases h with
      | nil => exact ⟨List.replicate n 0, by simp, fun _ _ _ => by simp [convMsg, OptRel]⟩
      | @cons x y xs ys hxy h =>
        cases x <;> cases y <;> simp only [SameKind] at hxy
        · exact ⟨List.replicate n 0, by simp, fun _ _ _ => by simp [convMsg, OptRel]⟩
        · obtain ⟨δ, d1, d2⟩ := ih n h
          refine ⟨δ, d1, fun rand t ht => ?_⟩
          simp only [convMsg, Option.bind_eq_bind]
          exact (d2 _ t ht).bind fun a b hab => ⟨hab.b2a, by simp [hab.reshares], by simp [hab.own]⟩
    | rcv =>
      obtain ⟨δ, d1, d2⟩ := ih n h
      exact ⟨δ, d1, fun rand t ht => by simp only [convMsg]; exact d2 rand t ht⟩
    | b2a =>
      have hb := bools_rel (take_rel h w)
      cases e : (xs.take w).mapM Val.unwrapBool with
      | none =>
        cases e' : (ys.take w).mapM Val.unwrapBool with
        | none => exact ⟨List.replicate n 0, by simp, fun _ _ _ => by simp [convMsg, e, e', OptRel]⟩
        | some b => rw [e, e'] at hb; exact hb.elim
      | some a =>
        cases e' : (ys.take w).mapM Val.unwrapBool with
        | none => rw [e, e'] at hb; exact hb.elim
        | some b =>
          cases n with
          | zero =>
            refine ⟨[], rfl, fun _ t ht => ?_⟩
            rw [List.length_eq_zero_iff] at ht
            simp [convMsg, e, e', ht, xorW, OptRel]
          | succ n =>
            obtain ⟨δ, d1, d2⟩ := ih n (drop_rel h w)
            refine ⟨δ ++ [wordOf w a ^^^ wordOf w b], by simp [d1], fun rand t ht => ?_⟩
            obtain ⟨t, s, rfl⟩ : ∃ t0 s, t = t0 ++ [s] :=
              ⟨t.dropLast, t.getLast (by intro h; simp [h] at ht), (List.dropLast_append_getLast _).symm⟩
            have ht' : t.length = n := by simpa using ht
            have hx : xorW (t ++ [s]) (δ ++ [wordOf w a ^^^ wordOf w b]) =
                xorW t δ ++ [s ^^^ (wordOf w a ^^^ wordOf w b)] := by
              unfold xorW
              rw [List.zipWith_append (by omega)]; rfl
            simp only [convMsg, Option.bind_eq_bind, e, e', hx, List.getLast?_append, List.getLast?_singleton,
              Option.some_or, Option.bind_some, List.dropLast_concat]
            refine (d2 rand t ht').bind fun c c' hc => ⟨?_, hc.reshares, hc.own⟩
            simp only [hc.b2a, List.cons.injEq, and_true]
            ext i
            simp [BitVec.getElem_xor]
            cases (wordOf w a)[i] <;> cases s[i] <;> cases (wordOf w b)[i] <;> rfl
    | select => exact ⟨List.replicate n 0, by simp, fun _ _ _ => by simp [convMsg, OptRel]⟩
    | selectBit i => exact ⟨List.replicate n 0, by simp, fun _ _ _ => by simp [convMsg, OptRel]⟩

theorem mapM_isSome {A B : Type} {f : A → Option B} {l : List A} (h : ∀ a ∈ l, (f a).isSome) : (l.mapM f).isSome := by
  induction l with
  | nil => rfl
  | cons a l ih =>
    simp only [List.mapM_cons, Option.bind_eq_bind, Option.pure_def]
    obtain ⟨b, hb⟩ := Option.isSome_iff_exists.1 (h a List.mem_cons_self)
    obtain ⟨c, hc⟩ := Option.isSome_iff_exists.1 (ih fun x hx => h x (List.mem_cons_of_mem _ hx))
    simp [hb, hc]

theorem b2aEval_rel (party : Nat) (t : BitVec w) {a b : List (BitVec w)} (h : a.length = b.length) :
    OptRel (fun _ _ => True) (b2aEval party t a) (b2aEval party t b) := by
  have def1 : ∀ l : List (BitVec w), ¬ (l.length < w ∨ w = 0) → (b2aEval party t l).isSome := by
    intro l hl
    unfold b2aEval
    rw [if_neg hl]
    have := mapM_isSome (f := fun p : BitVec w × Nat => b2aTerm party t p.2 p.1)
      (l := (l.drop (l.length - w)).reverse.zipIdx) (by
        intro p hp
        have := List.snd_lt_of_mem_zipIdx hp
        have hlt : p.2 < w := by simp at this; omega
        simp [b2aTerm, Util.getBit, hlt])
    obtain ⟨z, hz⟩ := Option.isSome_iff_exists.1 this
    simp [hz]
  by_cases hl : a.length < w ∨ w = 0
  · have hb : b2aEval party t b = none := by unfold b2aEval; rw [if_pos (h ▸ hl)]
    have ha : b2aEval party t a = none := by unfold b2aEval; rw [if_pos hl]
    rw [ha, hb]; trivial
  · obtain ⟨x, hx⟩ := Option.isSome_iff_exists.1 (def1 a hl)
    obtain ⟨y, hy⟩ := Option.isSome_iff_exists.1 (def1 b (h ▸ hl))
    rw [hx, hy]; trivial

theorem evalGates_rel (party : Nat) {sa sa' : List (BitVec w)} (hsa : sa.length = sa'.length) (gs : List (Gate w)) :
    ∀ {b b' : List Bool} {a a' ow ow' : List (BitVec w)} (ot ob tb : List (BitVec w)), b.length = b'.length →
      a.length = a'.length → ow.length = ow'.length →
      OptRel (List.Forall₂ SameKind) (evalGates party sa gs ⟨b, a, ow, ot, ob, tb⟩)
        (evalGates party sa' gs ⟨b', a', ow', ot, ob, tb⟩) := by
  have map_rel : ∀ {x y : Option (List (Val w))} (u v : Val w), SameKind u v → OptRel (List.Forall₂ SameKind) x y →
      OptRel (List.Forall₂ SameKind) (x.map (u :: ·)) (y.map (v :: ·)) := by
    intro x y u v huv h
    cases x <;> cases y <;> simp only [OptRel, Option.map_some, Option.map_none] at h ⊢
    exact .cons huv h
  induction gs with
  | nil => intro b b' a a' ow ow' ot ob tb _ _ _; simp [evalGates, OptRel]
  | cons g gs ih =>
    intro b b' a a' ow ow' ot ob tb hb ha ho
    cases g with
    | base _ => simp [evalGates, OptRel]
    | bool g =>
      match b, b', hb with
      | [], [], _ => simp [evalGates, OptRel]
      | x :: b, y :: b', hb => exact map_rel _ _ trivial (ih ot ob tb (by simpa using hb) ha ho)
    | arith g =>
      match a, a', ha with
      | [], [], _ => simp [evalGates, OptRel]
      | x :: a, y :: a', ha => exact map_rel _ _ trivial (ih ot ob tb hb (by simpa using ha) ho)
    | conv g =>
      cases g with
      | snd =>
        match ow, ow', ho with
        | [], [], _ => simp [evalGates, OptRel]
        | x :: ow, y :: ow', ho => exact map_rel _ _ trivial (ih ot ob tb hb ha (by simpa using ho))
      | rcv =>
        match ot with
        | [] => simp [evalGates, OptRel]
        | z :: ot => exact map_rel _ _ trivial (ih ot ob tb hb ha ho)
      | b2a =>
        match ob, tb with
        | [], _ => simp [evalGates, OptRel]
        | _ :: _, [] => simp [evalGates, OptRel]
        | t0 :: ob, t1 :: tb =>
          simp only [evalGates, Option.bind_eq_bind]
          exact (b2aEval_rel party _ hsa).bind fun x y _ => (ih ot ob tb hb ha ho).bind fun zs zs' hz => .cons trivial hz
      | select => simp [evalGates, OptRel]
      | selectBit i => simp [evalGates, OptRel]

theorem evalLocal_rel (party : Nat) (g : Gate w) {xs ys : List (Val w)} (h : List.Forall₂ SameKind xs ys) :
    OptRel SameKind (evalLocal party g xs) (evalLocal party g ys) := by
  cases g with
  | base b =>
    cases b <;> cases h <;> simp_all [evalLocal, Gmw.BaseGate.defaultEvaluate, OptRel]
  | bool g =>
    simp only [evalLocal, Option.bind_eq_bind]
    refine (bools_rel h).bind fun a b hab => ?_
    exact (evalLocal_alike party g (forall_true hab)).bind fun _ _ _ => trivial
  | arith g =>
    simp only [evalLocal, Option.bind_eq_bind]
    refine (ariths_rel h).bind fun a b hab => ?_
    match a, b, hab with
    | [], [], _ => cases g <;> simp [Arith.evalLocal, OptRel]
    | [_], [_], _ => cases g <;> simp [Arith.evalLocal, OptRel]
    | _ :: _ :: _, _ :: _ :: _, _ => cases g <;> simp [Arith.evalLocal, OptRel, SameKind]
  | conv g =>
    cases g with
    | selectBit i =>
      cases h with
      | nil => simp [evalLocal, OptRel]
      | @cons x y xs ys hxy h =>
        cases x <;> cases y <;> simp only [SameKind] at hxy
        · simp [evalLocal, OptRel]
        · by_cases hi : i < w <;> simp [evalLocal, Util.getBit, hi, OptRel, SameKind]
    | select =>
      cases h with
      | nil => simp [evalLocal, OptRel]
      | cons hxy h =>
        cases h with
        | nil => simp [evalLocal, OptRel]
        | cons hxy' h =>
          simp only [evalLocal]
          by_cases hp : party = 0
          · simpa [hp, OptRel] using hxy
          · simpa [hp, OptRel] using hxy'
    | _ => simp [evalLocal, OptRel]

theorem gmw_msg_delta (gs : List Gmw.BoolGate) (n : Nat) {xs ys : List Bool} (h : xs.length = ys.length) :
    ∃ δ : List (Bool × Bool), δ.length = n ∧ ∀ t t' : List Gmw.Triple, t.length = n → t'.length = n →
      t'.map maskBits = xorP (t.map maskBits) δ → Gmw.computeMsg gs xs t = Gmw.computeMsg gs ys t' := by
  obtain ⟨δ, d1, d2⟩ := pairs_delta gs n xs ys h
  refine ⟨δ.reverse, by simp [d1], fun t t' h1 h2 h3 => ?_⟩
  have e := d2 t.reverse t'.reverse (by simp [h1]) (by simp [h2]) (by
    rw [List.map_reverse, h3, xorP, List.reverse_zipWith (by simp [h1, d1]), List.reverse_reverse, List.map_reverse]; rfl)
  simp only [Gmw.computeMsg, e]

theorem evaluateInteractive_rel (party : Nat) (gs : List (Gate w)) (own own' other : Msg w) (s s' : Setup w)
    (hb : own.bool = own'.bool) (ha : own.arith = ⟨[], []⟩) (ha' : own'.arith = ⟨[], []⟩) (h2 : own.b2a = own'.b2a)
    (ho : own.own.length = own'.own.length) (hs : s.bool.length = s'.bool.length)
    (hsa : s.sbArith.length = s'.sbArith.length) :
    OptRel (fun z z' => List.Forall₂ SameKind z.1 z'.1) (evaluateInteractive party gs own other s)
      (evaluateInteractive party gs own' other s') := by
  simp only [evaluateInteractive, Option.bind_eq_bind]
  rw [hb]
  refine (evalInt_alike party own'.bool other.bool hs).bind fun x y hxy => ?_
  have ar : ∀ (o : Arith.Msg w) (t : List (Arith.Triple w)),
      ∃ r, Arith.evaluateInteractive party ⟨[], []⟩ o t = some ([], r) := by
    intro o t
    simp [Arith.evaluateInteractive, Arith.removeFirst, Gmw.splitOffLast, Arith.zipEval]
  obtain ⟨r, hr⟩ := ar other.arith s.arith
  obtain ⟨r', hr'⟩ := ar other.arith s'.arith
  rw [ha, ha', hr, hr', h2]
  simp only [Option.bind_some]
  exact (evalGates_rel party hsa gs _ _ _ hxy.1 rfl ho).bind fun z z' hz => hz

/-- The mixed protocol without multiplications masks its messages. -/
theorem mixed_masking (party : Nat) (sb : Nat → Nat) (rand : Nat → Nat → BitVec w)
    (mk : Nat → Masks w → (Nat → BitVec w) × Setup w) (hmk : FromMasks sb rand mk) :
    Masking (mixed w) sentOf SameKind (fun g => ∀ a, g ≠ .arith a) party (masksOf w sb) mk where
  simd := rfl
  local_ g xs ys h := evalLocal_rel party g h
  const s s' c := by cases c <;> trivial
  layer gs hP xs ys outs outs' h k n := by
    have hs := split_rel gs hP h
    cases e : split gs xs with
    | none =>
      cases e' : split gs ys with
      | none =>
        refine ⟨id, Set.bijOn_id _, fun x _ => ?_⟩
        simp [mixed, computeMsg, e, e', OptRel]
      | some b => rw [e, e'] at hs; exact hs.elim
    | some a =>
      cases e' : split gs ys with
      | none => rw [e, e'] at hs; exact hs.elim
      | some b =>
        rw [e, e'] at hs
        obtain ⟨δ, d1, d2⟩ := gmw_msg_delta a.bgates n hs.bools
        obtain ⟨η, f1, f2⟩ := conv_delta a.cgates (sb n) hs.convs
        let φ : Masks w → Masks w := fun x => ⟨xorP x.bits δ, xorW x.words η⟩
        have maps : Set.MapsTo φ (masksOf w sb n) (masksOf w sb n) := by
          rintro x ⟨h1, h2⟩
          exact ⟨by rw [← d1]; exact xorP_length (by omega), by rw [← f1]; exact xorW_length (by omega)⟩
        have inv : ∀ x ∈ masksOf w sb n, φ (φ x) = x := by
          rintro ⟨x1, x2⟩ ⟨h1, h2⟩
          simp only at h1 h2
          simp only [φ, xorP_twice (x := x1) (y := δ) (by omega), xorW_twice (x := x2) (y := η) (by omega)]
        refine ⟨φ, ⟨maps, fun x hx y hy hxy => ?_, fun y hy => ⟨φ y, maps hy, inv y hy⟩⟩, fun x hx => ?_⟩
        · rw [← inv x hx, hxy, inv y hy]
        · have bl : ∀ y : Masks w, (mk k y).2.bool.length = y.bits.length := by
            intro y; rw [← hmk.bits k y, List.length_map]
          have hmsg := d2 (mk k x).2.bool (mk k (φ x)).2.bool (by rw [bl]; exact hx.1) (by rw [bl]; exact (maps hx).1)
            (by rw [hmk.bits, hmk.bits])
          have hconv := f2 (rand k) x.words hx.2
          simp only [mixed, computeMsg, e, e', Option.bind_eq_bind, Option.bind_some, hs.agates.1, hs.agates.2,
            ← hs.bgates, ← hs.cgates, hmk.words, hmk.rand, ← hmsg]
          cases Gmw.computeMsg a.bgates a.bools (mk k x).2.bool with
          | none => simp [OptRel]
          | some mb =>
            have ac : ∀ (i : List (BitVec w)) (t : List (Arith.Triple w)), Arith.computeMsg [] i t = some ⟨[], []⟩ := by
              intro i t; cases t <;> simp [Arith.computeMsg, Arith.msgPairs]
            simp only [ac, Option.bind_some]
            revert hconv
            cases convMsg a.cgates a.convs (rand k) x.words with
            | none =>
              cases convMsg a.cgates b.convs (rand k) (xorW x.words η) with
              | none => intro _; simp [OptRel]
              | some c => intro hc; exact hc.elim
            | some c =>
              cases convMsg a.cgates b.convs (rand k) (xorW x.words η) with
              | none => intro hc; exact hc.elim
              | some c' =>
                intro hc
                refine ⟨by simp [sentOf, Msg.sent, hc.b2a, hc.reshares], fun other => ?_⟩
                have hrel := evaluateInteractive_rel party gs ⟨mb, ⟨[], []⟩, c.b2a, c.reshares, c.own⟩
                  ⟨mb, ⟨[], []⟩, c'.b2a, c'.reshares, c'.own⟩ other.sent { (mk k x).2 with sbBool := c.sbBool }
                  { (mk k (φ x)).2 with sbBool := c'.sbBool } rfl rfl rfl hc.b2a hc.own
                  (by simp only [bl]; rw [hx.1, (maps hx).1]) (hmk.arith k n _ _ hx (maps hx))
                revert hrel
                dsimp only
                cases evaluateInteractive party gs ⟨mb, ⟨[], []⟩, c.b2a, c.reshares, c.own⟩ other.sent
                    { (mk k x).2 with sbBool := c.sbBool } <;>
                  cases evaluateInteractive party gs ⟨mb, ⟨[], []⟩, c'.b2a, c'.reshares, c'.own⟩ other.sent
                    { (mk k (φ x)).2 with sbBool := c'.sbBool } <;>
                  simp [OptRel]

end

/-! ### Theorems -/

/-- **C98.**  The mixed protocol of an honest party with input shares `xs` or `ys` of the same kinds, in a circuit without
multiplications, against a peer that follows any strategy `adv`, malformed messages and closing the connection included.
To every choice of the factors of the Boolean triples and of the Boolean shares of the shared bits in the first case
belongs exactly one in the second such that the peer receives the same messages and the honest party returns an output in
both cases or in none.  Missing: multiplications, whose second operand is masked with the product of the triple and not
with its factor (C73). -/
theorem mixed_active_private_partial {w : Nat} (m : Multi (Gate w)) (rank : Node → Nat) (wf : WF m rank)
    (hsc : ∀ i, isSimd m i = false) (hmul : ∀ v, m.gate? v ≠ some (.arith .mul)) (party : Nat)
    (xs ys : List (Val w)) (hin : List.Forall₂ SameKind xs ys) (init : Store (Val w) (List (Val w)))
    (hset : ∀ v, init.set v = false) (sb : Nat → Nat) (rand : Nat → Nat → BitVec w)
    (mk : Nat → Masks w → (Nat → BitVec w) × Setup w) (hmk : FromMasks sb rand mk) :
    ∃ it ls, MIter.new m = some it ∧
      MIter.collect m ((m.circs.map fun c => c.gates.length).sum + 1) it = some ls ∧
      ∀ adv : List (Msg w) → Option (Msg w × Option Unit),
      ∃ f : List (Masks w) → List (Masks w),
        Set.BijOn f {x | FitX (masksOf w sb) m ls x} {x | FitX (masksOf w sb) m ls x} ∧
        ∀ x, FitX (masksOf w sb) m ls x → ∃ (seen : List (Msg w)) (o o' : Option (Input (Val w) (List (Val w)))),
          observe sentOf adv (execute (mixed w) m party (.scalar xs) (maskSetup mk ⟨[], []⟩ x) init) = (seen, o) ∧
          observe sentOf adv (execute (mixed w) m party (.scalar ys) (maskSetup mk ⟨[], []⟩ (f x)) init) = (seen, o') ∧
          o.isSome = o'.isSome := by
  refine masking_private (mixed_masking party sb rand mk hmk) rank wf hsc ?_ xs ys hin ⟨[], []⟩ init hset
  intro v g hg hi a ha
  subst ha
  simp only [interactive, Gate.isInteractive, decide_eq_true_eq] at hi
  subst hi
  exact hmul v hg

/-! ### Cases -/

/-- An AND gate whose result is converted to a ring element and reshared, over one bit. -/
def privCirc : Base (Gate 1) where
  gates := [.base .input, .base .input, .bool .and, .conv .b2a, .conv .snd, .base .output]
  edges := [(0, 2), (1, 2), (2, 3), (3, 4), (3, 5)]
  interactiveCount := 3
  inputGates := [0, 1]
  outputGates := [5]

theorem privCirc_ok : SingleOk privCirc id := by
  refine ⟨by unfold EdgesIn; decide, by decide, ?_, ?_,
    ⟨by decide +kernel, by decide +kernel, by decide +kernel, by decide +kernel, by decide +kernel⟩⟩
  · intro i g h
    have hi : i < 6 := (List.getElem?_eq_some_iff.1 h).1
    interval_cases i <;> cases h <;> decide +kernel
  · intro i g h
    have hi : i < 6 := (List.getElem?_eq_some_iff.1 h).1
    interval_cases i <;> cases h <;> rfl

/-- Setup data that fits to a peer whose factors are zero. -/
def privSetup (_k : Nat) (x : Masks 1) : (Nat → BitVec 1) × Setup 1 :=
  (fun _ => 1, ⟨x.bits.map fun p => ⟨p.1, p.2, p.1 && p.2⟩, [], x.words, x.words.map fun v => v + 1⟩)

theorem privSetup_ok : FromMasks (fun n => n) (fun _ _ => 1) privSetup where
  bits k x := by
    simp only [privSetup, List.map_map]
    conv_rhs => rw [← List.map_id x.bits]
    rfl
  words _ _ := rfl
  rand _ _ := rfl
  arith k n x y hx hy := by simp [privSetup, hx.2, hy.2]

/-- A peer that answers the three messages. -/
def privPeer : List (Msg 1) → Option (Msg 1 × Option Unit)
  | [_] => some (⟨⟨1, Gmw.padWords [true], Gmw.padWords [false]⟩, ⟨[], []⟩, [], [], []⟩, none)
  | [_, _] => some (⟨⟨0, [], []⟩, ⟨[], []⟩, [1], [], []⟩, none)
  | [_, _, _] => some (⟨⟨0, [], []⟩, ⟨[], []⟩, [], [1], []⟩, none)
  | _ => none

/-- No gate is set. -/
def privInit : Store (Val 1) (List (Val 1)) := ⟨fun _ => .bool false, fun _ => [], fun _ => false⟩

/-- The masks of the three layers. -/
def privMasks : List (Masks 1) := [⟨[(true, false)], [1]⟩, ⟨[(false, false)], [1]⟩, ⟨[(true, true)], [0]⟩]

/-- The peer sees three messages, and there is an output. -/
example : ((observe sentOf privPeer (execute (mixed 1) (.ofBase privCirc) 0 (.scalar [.bool true, .bool false])
    (maskSetup privSetup ⟨[], []⟩ privMasks) privInit)).1.length = 3) ∧
    (observe sentOf privPeer (execute (mixed 1) (.ofBase privCirc) 0 (.scalar [.bool true, .bool false])
      (maskSetup privSetup ⟨[], []⟩ privMasks) privInit)).2.isSome = true := by
  decide +kernel

/-- The hypotheses hold. -/
example (a b a' b' : Bool) : ∃ it ls, MIter.new (Multi.ofBase privCirc) = some it ∧
    MIter.collect (Multi.ofBase privCirc) (((Multi.ofBase privCirc).circs.map fun c => c.gates.length).sum + 1) it = some ls ∧
    FitX (masksOf 1 fun n => n) (Multi.ofBase privCirc) ls privMasks ∧
    ∃ f : List (Masks 1) → List (Masks 1), ∃ (seen : List (Msg 1)) (o o' : Option (Input (Val 1) (List (Val 1)))),
      observe sentOf privPeer (execute (mixed 1) (.ofBase privCirc) 0 (.scalar [.bool a, .bool b])
        (maskSetup privSetup ⟨[], []⟩ privMasks) privInit) = (seen, o) ∧
      observe sentOf privPeer (execute (mixed 1) (.ofBase privCirc) 0 (.scalar [.bool a', .bool b'])
        (maskSetup privSetup ⟨[], []⟩ (f privMasks)) privInit) = (seen, o') ∧
      o.isSome = o'.isSome := by
  obtain ⟨it, ls, e1, e2, h⟩ := mixed_active_private_partial (Multi.ofBase privCirc) _ (single_wf privCirc_ok)
    (single_scalar rfl) (by
      intro v hv
      obtain ⟨-, hv⟩ := single_gate privCirc v _ hv
      have hi : v.2 < 6 := (List.getElem?_eq_some_iff.1 hv).1
      obtain ⟨u, v⟩ := v
      simp only at hv hi
      interval_cases v <;> simp [privCirc] at hv) 0 [.bool a, .bool b] [.bool a', .bool b']
    (.cons trivial (.cons trivial .nil)) privInit (fun _ => rfl) (fun n => n) _ privSetup privSetup_ok
  have hls : ((MIter.new (Multi.ofBase privCirc)).bind fun it =>
      MIter.collect (Multi.ofBase privCirc) (((Multi.ofBase privCirc).circs.map fun c => c.gates.length).sum + 1) it).any
      (fun ls => (interactiveLayers (Multi.ofBase privCirc) ls).map (intCount (Multi.ofBase privCirc)) = [1, 1, 1]) = true := by
    decide +kernel
  rw [e1, Option.bind_some, e2] at hls
  simp only [Option.any_some, decide_eq_true_eq] at hls
  have hf : FitX (masksOf 1 fun n => n) (Multi.ofBase privCirc) ls privMasks := by
    unfold FitX
    rw [← List.forall₂_map_left_iff (f := intCount (Multi.ofBase privCirc)) 
      (R := fun n a => a ∈ masksOf 1 (fun n => n) n), hls]
    exact .cons ⟨rfl, rfl⟩ (.cons ⟨rfl, rfl⟩ (.cons ⟨rfl, rfl⟩ .nil))
  obtain ⟨f, -, f2⟩ := h privPeer
  exact ⟨it, ls, e1, e2, hf, f, f2 _ hf⟩

end Verif.Mixed
