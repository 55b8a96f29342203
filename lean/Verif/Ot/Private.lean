import Verif.Ot.ExtProps

/-!
C80: the choices of an OT receiver are hidden from the sender.
-/
set_option autoImplicit false

namespace Verif.Ot

/-! ### Specification -/

/-- An ideal generator: its state is the list of the (uniformly random) bits still to come. -/
def tape : Prg (List Bool) where
  fill s n := (s.take (8 * n) ++ List.replicate (8 * n - s.length) false, s.drop (8 * n))
  length s n := by simp only [List.length_append, List.length_take, List.length_replicate]; omega

/-- `m` lists of bits of length `n` each. -/
def Bits (m n : Nat) (l : List (List Bool)) : Prop := l.length = m ∧ ∀ u ∈ l, u.length = n

/-- The receiver's pairs of generators, from the sender's base choices, the generators the sender has and those it does
not have. -/
def pairUp : List Bool → List (List Bool) → List (List Bool) → List (List Bool × List Bool)
  | s :: ss, k :: ks, u :: us => (if s then (u, k) else (k, u)) :: pairUp ss ks us
  | _, _, _ => []

/-- A batch of rows as messages. -/
def rowMsgs {T : Type} (rows : List (List Bool)) : List (ExtMsg T) := rows.mapIdx fun i r => .uRow i r

/-! ### Base OT -/

section
variable {F G C S K : Type} [CommRing F] [AddCommGroup G] [Module F G]

theorem recvPoints_unique (P : Params G C S K) (hb : Function.Bijective fun b : F => b • P.base) (A : G)
    (choices : List Bool) (view : List G) (h : view.length = choices.length) :
    ∃! bs : List F, bs.length = choices.length ∧ recvPoints P A choices bs = view := by
  induction choices generalizing view with
  | nil =>
    obtain rfl := List.length_eq_zero_iff.1 h
    refine ⟨[], ⟨rfl, rfl⟩, ?_⟩
    rintro bs ⟨h1, -⟩
    exact List.length_eq_zero_iff.1 h1
  | cons c cs ih =>
    match view, h with
    | R :: view, h =>
      simp only [List.length_cons, Nat.add_right_cancel_iff] at h
      obtain ⟨bs, ⟨h1, h2⟩, hu⟩ := ih view h
      obtain ⟨b, hb1⟩ := hb.2 (if c then R - A else R)
      dsimp only at hb1
      refine ⟨b :: bs, ⟨by simp [h1], ?_⟩, ?_⟩
      · simp only [recvPoints, h2, hb1]
        cases c <;> simp
      · rintro bs' ⟨g1, g2⟩
        match bs', g1, g2 with
        | b' :: bs', g1, g2 =>
          simp only [List.length_cons, Nat.add_right_cancel_iff] at g1
          simp only [recvPoints, List.cons.injEq] at g2
          obtain ⟨g2, g3⟩ := g2
          rw [hu bs' ⟨g1, g3⟩]
          congr 1
          apply hb.1
          dsimp only
          rw [hb1]
          cases c with
          | false => simpa using g2
          | true => simp only [if_true] at g2 ⊢; rw [← g2]; simp

/-- **C80 (base OT).**  Whatever the sender sends, including invalid messages: either the receiver sends nothing, whatever
its choices and its randomness are; or every list of points is sent for exactly one list of scalars, whatever the
choices are.  So with uniform scalars the message is uniform and tells nothing about the choices.  The condition on the
generator of the group is that of a group of prime order. -/
theorem base_ot_choices_hidden [DecidableEq C] (P : Params G C S K)
    (hb : Function.Bijective fun b : F => b • P.base) (n : Nat) (sendOk : Bool)
    (incoming : List (Ev (BaseMsg G C S))) :
    (∀ (choices : List Bool) (bs : List F), (receiveRandom P choices bs sendOk incoming).1 = []) ∨
    (∀ (choices : List Bool), choices.length = n → ∀ view : List G, view.length = n →
      ∃! bs : List F, bs.length = n ∧ (receiveRandom P choices bs sendOk incoming).1 = [.second view]) := by
  match incoming with
  | [] => exact .inl fun _ _ => rfl
  | .recvError :: _ => exact .inl fun _ _ => rfl
  | .msg (.second _) :: _ => exact .inl fun _ _ => rfl
  | .msg (.third _) :: _ => exact .inl fun _ _ => rfl
  | .msg (.first A comm) :: rest =>
    cases sendOk with
    | false => exact .inl fun _ _ => rfl
    | true =>
      refine .inr ?_
      rintro choices rfl view hv
      have key : ∀ bs : List F, (receiveRandom P choices bs true (.msg (.first A comm) :: rest)).1 =
          [.second (recvPoints P A choices (bs.take choices.length))] := by
        intro bs
        simp only [receiveRandom, recv, if_true]
        split
        · rfl
        · split <;> rfl
        · rfl
      obtain ⟨bs, ⟨h1, h2⟩, hu⟩ := recvPoints_unique P hb A choices view hv
      refine ⟨bs, ⟨h1, by rw [key, List.take_of_length_le (by omega), h2]⟩, ?_⟩
      rintro bs' ⟨g1, g2⟩
      rw [key, List.take_of_length_le (by omega)] at g2
      simp only [List.cons.injEq, and_true, BaseMsg.second.injEq] at g2
      exact hu bs' ⟨g1, g2⟩

end

/-! ### OT extension -/

/-- The xor of three rows. -/
def xor3 (a b c : List Bool) : List Bool := List.zipWith xor a (List.zipWith xor b c)

theorem xorInto_eq (v u : List Bool) (h : u.length = v.length) : xorInto v u = List.zipWith xor v u := by
  induction v generalizing u with
  | nil => cases u <;> simp [xorInto]
  | cons x v ih => cases u with
    | nil => simp at h
    | cons y u => simp only [List.length_cons, Nat.add_right_cancel_iff] at h
                  simp [xorInto, ih u h]

theorem xor3_swap (a b c : List Bool) : xor3 a b c = xor3 b a c := by
  unfold xor3
  induction a generalizing b c with
  | nil => cases b <;> simp
  | cons x a ih => cases b with
    | nil => simp
    | cons y b => cases c with
      | nil => simp
      | cons z c =>
        simp only [List.zipWith_cons_cons, ih b c, List.cons.injEq, and_true]
        revert x y z; decide

theorem xor3_length {a b c : List Bool} {n : Nat} (ha : a.length = n) (hb : b.length = n) (hc : c.length = n) :
    (xor3 a b c).length = n := by
  simp [xor3, ha, hb, hc]

theorem xor3_solve {a b c v : List Bool} {n : Nat} (ha : a.length = n) (hb : b.length = n) (hc : c.length = n)
    (hv : v.length = n) : xor3 a b c = v ↔ b = xor3 a v c := by
  induction n generalizing a b c v with
  | zero =>
    obtain rfl := List.length_eq_zero_iff.1 ha
    obtain rfl := List.length_eq_zero_iff.1 hb
    obtain rfl := List.length_eq_zero_iff.1 hv
    simp [xor3]
  | succ n ih =>
    match a, b, c, v, ha, hb, hc, hv with
    | x :: a, y :: b, z :: c, w :: v, ha, hb, hc, hv =>
      simp only [List.length_cons, Nat.add_right_cancel_iff] at ha hb hc hv
      have := ih ha hb hc hv
      simp only [xor3, List.zipWith_cons_cons, List.cons.injEq] at this ⊢
      rw [this]
      exact and_congr_left fun _ => by revert x y z w; decide

theorem tape_fill (s : List Bool) (n : Nat) (h : 8 * n ≤ s.length) : tape.fill s n = (s.take (8 * n), s.drop (8 * n)) := by
  simp only [tape, Prod.mk.injEq, and_true]
  rw [Nat.sub_eq_zero_of_le h]
  simp

theorem receiverRow_tape (s : Bool) (k u c : List Bool) (h8 : c.length % 8 = 0) (hk : c.length ≤ k.length)
    (hu : c.length ≤ u.length) :
    (receiverRow tape c (if s then (u, k) else (k, u))).2 =
      (xor3 (k.take c.length) (u.take c.length) c,
        if s then (u.drop c.length, k.drop c.length) else (k.drop c.length, u.drop c.length)) := by
  have h : 8 * (c.length / 8) = c.length := by omega
  have fk := tape_fill k (c.length / 8) (by omega)
  have fu := tape_fill u (c.length / 8) (by omega)
  rw [h] at fk fu
  have lk : (k.take c.length).length = c.length := by simp; omega
  have lu : (u.take c.length).length = c.length := by simp; omega
  cases s with
  | false =>
    simp only [receiverRow, Bool.false_eq_true, if_false, fk, fu, Prod.mk.injEq, and_true]
    rw [xorInto_eq _ _ (by rw [xorInto_length, lk, lu]), xorInto_eq _ _ lk.symm]
    exact xor3_swap _ _ _
  | true =>
    simp only [receiverRow, if_true, fk, fu, Prod.mk.injEq, and_true]
    rw [xorInto_eq _ _ (by rw [xorInto_length, lk, lu]), xorInto_eq _ _ lu.symm]
    rfl

/-- The rows of one batch. -/
def batchRows (K U : List (List Bool)) (c : List Bool) : List (List Bool) :=
  List.zipWith (fun k u => xor3 (k.take c.length) (u.take c.length) c) K U

theorem receiver_rows (s : List Bool) (K U : List (List Bool)) (c : List Bool) (h8 : c.length % 8 = 0)
    (n : Nat) (hn : c.length ≤ n) (hK : Bits s.length n K) (hU : Bits s.length n U) :
    ((pairUp s K U).map (receiverRow tape c)).map (·.2.1) = batchRows K U c ∧
    ((pairUp s K U).map (receiverRow tape c)).map (·.2.2) =
      pairUp s (K.map (·.drop c.length)) (U.map (·.drop c.length)) := by
  obtain ⟨lK, hK⟩ := hK
  obtain ⟨lU, hU⟩ := hU
  induction s generalizing K U with
  | nil =>
    obtain rfl := List.length_eq_zero_iff.1 lK
    exact ⟨by simp [pairUp, batchRows], by simp [pairUp]⟩
  | cons b s ih =>
    match K, U, lK, lU with
    | k :: K, u :: U, lK, lU =>
      simp only [List.length_cons, Nat.add_right_cancel_iff] at lK lU
      obtain ⟨h1, h2⟩ := ih K U lK (fun x hx => hK x (by simp [hx])) lU (fun x hx => hU x (by simp [hx]))
      have hr := receiverRow_tape b k u c h8 (by rw [hK k (by simp)]; exact hn) (by rw [hU u (by simp)]; exact hn)
      simp only [pairUp, List.map_cons, batchRows, List.zipWith_cons_cons, hr] at h1 h2 ⊢
      exact ⟨by rw [h1], by rw [h2]⟩

theorem receive_tape {B T : Type} (H : List Bool → B) (s : List Bool) (K U : List (List Bool)) (c : List Bool)
    (h8 : c.length % 8 = 0) (n : Nat) (hn : c.length ≤ n) (hK : Bits s.length n K) (hU : Bits s.length n U) :
    ∃ out, receiveExt (T := T) tape H ⟨pairUp s K U⟩ c = some (rowMsgs (batchRows K U c), out,
      ⟨pairUp s (K.map (·.drop c.length)) (U.map (·.drop c.length))⟩) := by
  obtain ⟨h1, h2⟩ := receiver_rows s K U c h8 n hn hK hU
  refine ⟨(transpose (((pairUp s K U).map (receiverRow tape c)).map (·.1)) c.length).map H, ?_⟩
  unfold receiveExt
  rw [if_pos h8, ← h2, ← h1]
  have e : ∀ l : List (List Bool × List Bool × List Bool × List Bool),
      rowMsgs (T := T) (l.map (·.2.1)) = l.mapIdx fun i r => .uRow i r.2.1 := by
    intro l
    apply List.ext_getElem <;> simp [rowMsgs]
  rw [e]

theorem bits_drop {m n k : Nat} {l : List (List Bool)} (h : Bits m (k + n) l) : Bits m n (l.map (·.drop k)) := by
  refine ⟨by simp [h.1], ?_⟩
  intro u hu
  obtain ⟨x, hx, rfl⟩ := List.mem_map.1 hu
  simp [h.2 x hx]

theorem batch_solve {m n : Nat} {K U V : List (List Bool)} {c : List Bool} (hn : c.length ≤ n) (hK : Bits m n K)
    (hU : Bits m n U) (hV : Bits m c.length V) :
    batchRows K U c = V ↔ U.map (·.take c.length) = batchRows K V c := by
  obtain ⟨lK, hK⟩ := hK
  obtain ⟨lU, hU⟩ := hU
  obtain ⟨lV, hV⟩ := hV
  induction m generalizing K U V with
  | zero =>
    obtain rfl := List.length_eq_zero_iff.1 lK
    obtain rfl := List.length_eq_zero_iff.1 lU
    obtain rfl := List.length_eq_zero_iff.1 lV
    simp [batchRows]
  | succ m ih =>
    match K, U, V, lK, lU, lV with
    | k :: K, u :: U, v :: V, lK, lU, lV =>
      simp only [List.length_cons, Nat.add_right_cancel_iff] at lK lU lV
      have := ih lK (fun x hx => hK x (by simp [hx])) lU (fun x hx => hU x (by simp [hx])) lV
        (fun x hx => hV x (by simp [hx]))
      have lk := hK k (by simp)
      have lu := hU u (by simp)
      have lv := hV v (by simp)
      have ht : v.take c.length = v := List.take_of_length_le (by omega)
      simp only [batchRows, List.zipWith_cons_cons, List.map_cons, List.cons.injEq, ht] at this ⊢
      rw [this, xor3_solve (n := c.length) (by simp; omega) (by simp; omega) rfl lv]

theorem batchRows_bits {m n : Nat} {K V : List (List Bool)} {c : List Bool} (hn : c.length ≤ n) (hK : Bits m n K)
    (hV : Bits m c.length V) : Bits m c.length (batchRows K V c) := by
  refine ⟨by simp [batchRows, hK.1, hV.1], ?_⟩
  intro r hr
  obtain ⟨i, hi, rfl⟩ := List.mem_iff_getElem.1 hr
  simp only [batchRows, List.length_zipWith] at hi
  simp only [batchRows, List.getElem_zipWith]
  have := hK.2 K[i] (List.getElem_mem _)
  have := hV.2 V[i] (List.getElem_mem _)
  exact xor3_length (by simp; omega) (by simp; omega) rfl

theorem glue_take {m k n : Nat} {A R : List (List Bool)} (hA : Bits m k A) (hR : Bits m n R) :
    Bits m (k + n) (List.zipWith (· ++ ·) A R) ∧ (List.zipWith (· ++ ·) A R).map (·.take k) = A ∧
      (List.zipWith (· ++ ·) A R).map (·.drop k) = R := by
  obtain ⟨lA, hA⟩ := hA
  obtain ⟨lR, hR⟩ := hR
  induction m generalizing A R with
  | zero =>
    obtain rfl := List.length_eq_zero_iff.1 lA
    obtain rfl := List.length_eq_zero_iff.1 lR
    simp [Bits]
  | succ m ih =>
    match A, R, lA, lR with
    | a :: A, r :: R, lA, lR =>
      simp only [List.length_cons, Nat.add_right_cancel_iff] at lA lR
      obtain ⟨h1, h2, h3⟩ := ih lA (fun x hx => hA x (by simp [hx])) lR (fun x hx => hR x (by simp [hx]))
      have la := hA a (by simp)
      have lr := hR r (by simp)
      refine ⟨⟨by simp [lA, lR], ?_⟩, ?_, ?_⟩
      · intro u hu
        simp only [List.zipWith_cons_cons, List.mem_cons] at hu
        rcases hu with rfl | hu
        · simp [la, lr]
        · exact h1.2 u hu
      · simp only [List.zipWith_cons_cons, List.map_cons, h2, List.cons.injEq, and_true]
        rw [← la]; simp
      · simp only [List.zipWith_cons_cons, List.map_cons, h3, List.cons.injEq, and_true]
        rw [← la]; simp

theorem take_drop_eq {U U' : List (List Bool)} (k : Nat) (h1 : U.map (·.take k) = U'.map (·.take k))
    (h2 : U.map (·.drop k) = U'.map (·.drop k)) : U = U' := by
  induction U generalizing U' with
  | nil => cases U' with
    | nil => rfl
    | cons => simp at h1
  | cons u U ih => cases U' with
    | nil => simp at h1
    | cons u' U' =>
      simp only [List.map_cons, List.cons.injEq] at h1 h2
      rw [ih h1.2 h2.2, ← List.take_append_drop k u, h1.1, h2.1, List.take_append_drop]

/-- **C80 (OT extension).**  The sender knows its base choices `s` and one generator `K` of each of the receiver's pairs;
the others, `U`, are uniform bits.  For every sequence of batches of choices, every list of rows of the right sizes is
what the receiver sends for exactly one `U`: with uniform `U` the messages of all batches together are uniform, whatever the
choices are. -/
theorem ot_ext_choices_hidden {B T : Type} (H : List Bool → B) (s : List Bool) (batches : List (List Bool))
    (h8 : ∀ c ∈ batches, c.length % 8 = 0) (K : List (List Bool))
    (hK : Bits s.length (batches.map List.length).sum K) (view : List (List (List Bool)))
    (hv : List.Forall₂ (fun v c => Bits s.length (List.length c) v) view batches) :
    ∃! U, Bits s.length (batches.map List.length).sum U ∧
      ∃ outs st, receiveAll (T := T) tape H ⟨pairUp s K U⟩ batches = some (view.map rowMsgs, outs, st) := by
  have inj : ∀ a b : List (List Bool), rowMsgs (T := T) a = rowMsgs b → a = b := by
    intro a b h
    apply List.ext_getElem
    · have := congrArg List.length h
      simpa [rowMsgs] using this
    · intro i h1 h2
      have := congrArg (fun l => l[i]?) h
      simpa [rowMsgs, List.getElem?_eq_getElem h1, List.getElem?_eq_getElem h2] using this
  induction batches generalizing K view with
  | nil =>
    cases hv
    refine ⟨List.replicate s.length [], ⟨⟨by simp, by simp⟩, [], _, rfl⟩, ?_⟩
    rintro U ⟨⟨h1, h2⟩, -⟩
    exact List.eq_replicate_iff.2 ⟨h1, fun u hu => List.length_eq_zero_iff.1 (by simpa using h2 u hu)⟩
  | cons c cs ih =>
    cases hv with
    | @cons v _ vs _ hv hvs =>
      simp only [List.map_cons, List.sum_cons] at hK ⊢
      have hle : c.length ≤ c.length + (cs.map List.length).sum := by omega
      obtain ⟨R, ⟨hR, outs, st, hrun⟩, hu⟩ := ih (fun x hx => h8 x (by simp [hx])) _ (bits_drop hK) vs hvs
      obtain ⟨g1, g2, g3⟩ := glue_take (batchRows_bits hle hK hv) hR
      refine ⟨List.zipWith (· ++ ·) (batchRows K v c) R, ⟨g1, ?_⟩, ?_⟩
      · obtain ⟨out, h1⟩ := receive_tape (T := T) H s K _ c (h8 c (by simp)) _ hle hK g1
        refine ⟨out :: outs, st, ?_⟩
        rw [(batch_solve hle hK g1 hv).2 g2, g3] at h1
        simp [receiveAll, h1, hrun]
      · rintro U ⟨hU, outs', st', h⟩
        obtain ⟨out, h1⟩ := receive_tape (T := T) H s K U c (h8 c (by simp)) _ hle hK hU
        simp only [receiveAll, h1, Option.bind_eq_bind, Option.bind_some, Option.bind_eq_some_iff, Option.pure_def,
          Option.some.injEq, Prod.mk.injEq, List.map_cons, List.cons.injEq] at h
        obtain ⟨⟨ms, os, st2⟩, e1, ⟨e2, e3⟩, -, e5⟩ := h
        dsimp only at e3 e5
        subst e3
        have e4 := hu _ ⟨bits_drop hU, os, st2, e1⟩
        have e6 := (batch_solve hle hK hU hv).1 (inj _ _ e2)
        exact take_drop_eq c.length (e6.trans g2.symm) (e4.trans g3.symm)

/-- **C80 (two sequences of choices).**  What the sender sees for one sequence of choices and some randomness of the
receiver, it sees for any other sequence of the same lengths and exactly one randomness. -/
theorem ot_ext_view_independent {B T : Type} (H : List Bool → B) (s : List Bool) (batches batches' : List (List Bool))
    (h8 : ∀ c ∈ batches, c.length % 8 = 0) (hl : batches.map List.length = batches'.map List.length)
    (K U : List (List Bool)) (hK : Bits s.length (batches.map List.length).sum K)
    (hU : Bits s.length (batches.map List.length).sum U) :
    ∃! U', Bits s.length (batches.map List.length).sum U' ∧ ∃ msgs outs st outs' st',
      receiveAll (T := T) tape H ⟨pairUp s K U⟩ batches = some (msgs, outs, st) ∧
      receiveAll (T := T) tape H ⟨pairUp s K U'⟩ batches' = some (msgs, outs', st') := by
  -- the messages are rows
  have rows : ∀ (bs : List (List Bool)) (K U : List (List Bool)), (∀ c ∈ bs, c.length % 8 = 0) →
      Bits s.length (bs.map List.length).sum K → Bits s.length (bs.map List.length).sum U →
      ∃ view outs st, List.Forall₂ (fun v c => Bits s.length (List.length c) v) view bs ∧
        receiveAll (T := T) tape H ⟨pairUp s K U⟩ bs = some (view.map rowMsgs, outs, st) := by
    intro bs
    induction bs with
    | nil => exact fun K U _ _ _ => ⟨[], [], _, .nil, rfl⟩
    | cons c cs ih =>
      intro K U h8 hK hU
      simp only [List.map_cons, List.sum_cons] at hK hU
      have hle : c.length ≤ c.length + (cs.map List.length).sum := by omega
      obtain ⟨out, h1⟩ := receive_tape (T := T) H s K U c (h8 c (by simp)) _ hle hK hU
      obtain ⟨view, outs, st, h2, h3⟩ := ih _ _ (fun x hx => h8 x (by simp [hx])) (bits_drop hK) (bits_drop hU)
      refine ⟨batchRows K U c :: view, out :: outs, st, .cons ?_ h2, by simp [receiveAll, h1, h3]⟩
      refine ⟨by simp [batchRows, hK.1, hU.1], ?_⟩
      intro r hr
      obtain ⟨i, hi, rfl⟩ := List.mem_iff_getElem.1 hr
      simp only [batchRows, List.length_zipWith] at hi
      simp only [batchRows, List.getElem_zipWith]
      have := hK.2 K[i] (List.getElem_mem _)
      have := hU.2 U[i] (List.getElem_mem _)
      exact xor3_length (by simp; omega) (by simp; omega) rfl
  obtain ⟨view, outs, st, h1, h2⟩ := rows batches K U h8 hK hU
  have h8' : ∀ c ∈ batches', c.length % 8 = 0 := by
    intro c hc
    have : c.length ∈ batches'.map List.length := List.mem_map_of_mem hc
    rw [← hl] at this
    obtain ⟨d, hd, e⟩ := List.mem_map.1 this
    rw [← e]; exact h8 d hd
  have h1' : List.Forall₂ (fun v c => Bits s.length (List.length c) v) view batches' := by
    have a : List.Forall₂ (fun v n => Bits s.length n v) view (batches.map List.length) :=
      List.forall₂_map_right_iff.2 h1
    rw [hl] at a
    exact List.forall₂_map_right_iff.1 a
  obtain ⟨U', ⟨g1, outs', st', g2⟩, gu⟩ := ot_ext_choices_hidden (T := T) H s batches' h8' K (hl ▸ hK) view h1'
  refine ⟨U', ⟨by rw [hl]; exact g1, _, outs, st, outs', st', h2, g2⟩, ?_⟩
  rintro U2 ⟨k1, msgs, o, t, o', t', k2, k3⟩
  rw [h2] at k2
  cases k2
  exact gu U2 ⟨by rw [← hl]; exact k1, o', t', k3⟩

/-! ### Cases -/

/-- The condition on the group holds for the integers modulo 7 with any generator; the sender of the example sends a
valid first message, so that the second alternative is the one that applies. -/
example : (Function.Bijective fun b : ZMod 7 => b • (3 : ZMod 7)) ∧
    (receiveRandom (F := ZMod 7) (⟨3, fun s => s + 1, fun g i s => (g.val, i, s)⟩ :
        Params (ZMod 7) Nat Nat (Nat × Nat × Nat)) [true, false] [2, 5] true [.msg (.first 4 6)]).1 =
      [.second [4 + 6, 1]] := by
  refine ⟨?_, by decide +kernel⟩
  decide

/-- Two batches of eight choices with two base OTs. -/
example : Bits 2 16 [List.replicate 16 true, List.replicate 16 false] ∧
    (receiveAll (T := Unit) tape id
      ⟨pairUp [true, false] [List.replicate 16 true, List.replicate 16 false]
        [List.replicate 16 false, List.replicate 16 true]⟩
      [List.replicate 8 true, List.replicate 8 false]).map (·.1) =
      some [rowMsgs [List.replicate 8 false, List.replicate 8 false], rowMsgs [List.replicate 8 true, List.replicate 8 true]] := by
  refine ⟨⟨rfl, by decide⟩, by decide +kernel⟩

end Verif.Ot
