import Verif.Exec.Lost

/-!
C104: the inputs of a party of Boolean GMW, from their sharing on, against a peer that does whatever it likes.
-/
set_option autoImplicit false

namespace Verif.Exec

open Circuit Proc Gmw

/-! ### Model -/

/-- aes_cbc.rs:189-200 and :232-234: a party shares its inputs, keeps the first share and sends the second. -/
def kept (rand input : List Bool) : List Bool := (xorShare rand input).1
def sentShare (rand input : List Bool) : List Bool := (xorShare rand input).2

/-- aes_cbc.rs:346-358 `encrypt`: the input of the executor. -/
def encryptInput (key iv file : List Bool) : Input Bool (List Bool) := .scalar (key ++ iv ++ file)

/-- aes_cbc.rs:201-219: party 0 has the shares of the key and the IV (sharing both is sharing their concatenation, see
`share_append`) and got `file`.  -/
def keyParty (keyBits : Nat) (own file : List Bool) : Input Bool (List Bool) :=
  encryptInput (own.take keyBits) (own.drop keyBits) file

/-- aes_cbc.rs:234-253: party 1 has the share of the data and got the shares of the key and the IV. -/
def dataParty (own keyIv : List Bool) : Input Bool (List Bool) := .scalar (keyIv ++ own)

/-- Strategies of the peer. -/
abbrev Adv := List (Msg × Option SimdMsg) → Option (Msg × Option SimdMsg)

/-- The lengths of the input only depend on the lengths of the own shares. -/
def FixedLayout (lay : List Bool → List Bool → Input Bool (List Bool)) : Prop :=
  ∀ a a' b, a.length = a'.length → SameShape (lay a b) (lay a' b)

theorem keyParty_fixed (k : Nat) : FixedLayout (keyParty k) := by
  intro a a' b h
  simp [keyParty, encryptInput, SameShape, h]

theorem dataParty_fixed : FixedLayout dataParty := by
  intro a a' b h
  simp [dataParty, SameShape, h]

theorem share_append (r r' x x' : List Bool) (h : r.length = x.length) :
    kept (r ++ r') (x ++ x') = kept r x ++ kept r' x' ∧
    sentShare (r ++ r') (x ++ x') = sentShare r x ++ sentShare r' x' := by
  refine ⟨rfl, ?_⟩
  simp only [sentShare, xorShare, xorL]
  exact List.zipWith_append h.symm

theorem xorL_twice : ∀ r d : List Bool, r.length = d.length → xorL (xorL r d) d = r
  | [], [], _ => rfl
  | a :: r, b :: d, h => by
    have := xorL_twice r d (by simpa using h)
    simp only [xorL, List.zipWith_cons_cons] at this ⊢
    rw [this]; simp

theorem sent_shift : ∀ x y r : List Bool, x.length = y.length → r.length = x.length →
    sentShare (xorL r (xorL x y)) y = sentShare r x
  | [], [], [], _, _ => rfl
  | a :: x, b :: y, c :: r, h, h' => by
    have := sent_shift x y r (by simpa using h) (by simpa using h')
    simp only [sentShare, xorShare, xorL, List.zipWith_cons_cons] at this ⊢
    rw [this]
    cases a <;> cases b <;> cases c <;> rfl

/-! ### Theorems -/

/-- **C104.**  A party of Boolean GMW has the inputs `xs` or `ys` of the same length, shares them, sends one share, and gets
the peer's shares of the peer's inputs, which the peer may choose depending on what it was sent (`answer`, `none`: it sends
none); the input of the execution is made of both (`lay`).  In the execution the peer follows any strategy.  To every choice
of the random bits of the sharing and the factors of the honest party's triples in the first case belongs exactly one in the
second such that the peer gets the same share, receives the same messages, and the honest party returns an output in both
cases or in none. -/
theorem gmw_inputs_hidden (m : Multi BoolGate) (rank : Node → Nat) (w : WF m rank) (hu : Unmixed m) (party : Nat)
    (lay : List Bool → List Bool → Input Bool (List Bool)) (hlay : FixedLayout lay)
    (xs ys : List Bool) (hxy : xs.length = ys.length) (init : Store Bool (List Bool)) :
    ∃ it ls, MIter.new m = some it ∧
      MIter.collect m ((m.circs.map fun c => c.gates.length).sum + 1) it = some ls ∧
      ∀ (other : Nat → Nat → List Triple), (∀ k n, (other k n).length = n) →
      ∀ (answer : List Bool → Option (List Bool)) (adv : List Bool → Adv),
      ∃ Φ : List Bool × List (List (Bool × Bool)) → List Bool × List (List (Bool × Bool)),
        Set.BijOn Φ ({r | r.length = xs.length} ×ˢ {x | Fit m ls x}) ({r | r.length = xs.length} ×ˢ {x | Fit m ls x}) ∧
        ∀ r masks, r.length = xs.length → Fit m ls masks →
          sentShare r xs = sentShare (Φ (r, masks)).1 ys ∧
          ∀ got, answer (sentShare r xs) = some got →
            ∃ (seen : List (Msg × Option SimdMsg)) (o o' : Option (Input Bool (List Bool))),
              interact (adv (sentShare r xs)) []
                (execute gmw m party (lay (kept r xs) got) (partnerSetup other masks) init) = (seen, o) ∧
              interact (adv (sentShare r xs)) []
                (execute gmw m party (lay (kept (Φ (r, masks)).1 ys) got) (partnerSetup other (Φ (r, masks)).2) init)
                  = (seen, o') ∧
              o.isSome = o'.isSome := by
  obtain ⟨it, ls, e1, e2, -⟩ := layers_ok_partial m rank w
  refine ⟨it, ls, e1, e2, fun other ho answer adv => ?_⟩
  have hd : (xorL xs ys).length = xs.length := by simp [xorL, hxy]
  have hr : ∀ r : List Bool, r.length = xs.length → (xorL r (xorL xs ys)).length = xs.length := by
    intro r h; simp [xorL, h, hxy]
  have key : ∀ r : List Bool, ∃ f : List (List (Bool × Bool)) → List (List (Bool × Bool)),
      Set.BijOn f {x | Fit m ls x} {x | Fit m ls x} ∧ ∀ masks, Fit m ls masks → r.length = xs.length →
        ∀ got, answer (sentShare r xs) = some got →
            ∃ (seen : List (Msg × Option SimdMsg)) (o o' : Option (Input Bool (List Bool))),
              interact (adv (sentShare r xs)) []
                (execute gmw m party (lay (kept r xs) got) (partnerSetup other masks) init) = (seen, o) ∧
              interact (adv (sentShare r xs)) []
                (execute gmw m party (lay (kept (xorL r (xorL xs ys)) ys) got) (partnerSetup other (f masks)) init)
                  = (seen, o') ∧
              o.isSome = o'.isSome := by
    intro r
    by_cases h : r.length = xs.length
    · cases ha : answer (sentShare r xs) with
      | none => exact ⟨id, Set.bijOn_id _, fun _ _ _ _ h => by cases h⟩
      | some got =>
        obtain ⟨it', ls', d1, d2, h3⟩ := gmw_active_private m rank w hu party (lay (kept r xs) got)
          (lay (kept (xorL r (xorL xs ys)) ys) got) (hlay _ _ _ (by simp only [kept, xorShare]; rw [h, hr r h])) init
        rw [e1] at d1; cases d1
        rw [e2] at d2; cases d2
        obtain ⟨f, f1, f2⟩ := h3 other ho (adv (sentShare r xs))
        refine ⟨f, f1, fun masks hm _ got' hg => ?_⟩
        cases hg
        exact f2 masks hm
    · exact ⟨id, Set.bijOn_id _, fun _ _ h' => absurd h' h⟩
  choose f f1 f2 using key
  refine ⟨fun p => (xorL p.1 (xorL xs ys), f p.1 p.2), ⟨?_, ?_, ?_⟩, ?_⟩
  · rintro ⟨r, x⟩ ⟨h1, h2⟩
    exact ⟨hr r h1, (f1 r).mapsTo h2⟩
  · rintro ⟨r, x⟩ ⟨h1, h2⟩ ⟨r', x'⟩ ⟨h1', h2'⟩ h
    simp only [Set.mem_setOf_eq] at h1 h1'
    simp only [Prod.mk.injEq] at h
    have hrr : r = r' := by
      rw [← xorL_twice r _ (h1.trans hd.symm), h.1, xorL_twice r' _ (h1'.trans hd.symm)]
    subst hrr
    exact Prod.ext rfl ((f1 r).injOn h2 h2' h.2)
  · rintro ⟨r, x⟩ ⟨h1, h2⟩
    simp only [Set.mem_setOf_eq] at h1
    obtain ⟨y, hy, rfl⟩ := (f1 (xorL r (xorL xs ys))).surjOn h2
    exact ⟨(xorL r (xorL xs ys), y), ⟨hr r h1, hy⟩, by simp [xorL_twice r _ (h1.trans hd.symm)]⟩
  · intro r masks h hm
    exact ⟨(sent_shift xs ys r hxy h).symm, f2 r masks hm h⟩

/-- **C104.**  The inputs of the two executions of the AES-CBC example are shares of the key, the IV and the data in this
order, whatever the random bits. -/
theorem encrypt_inputs_shared (key iv file rk ri rf : List Bool) (hk : rk.length = key.length) (hi : ri.length = iv.length)
    (hf : rf.length = file.length) :
    ∃ a b, keyParty key.length (kept rk key ++ kept ri iv) (sentShare rf file) = .scalar a ∧
      dataParty (kept rf file) (sentShare rk key ++ sentShare ri iv) = .scalar b ∧
      a.length = b.length ∧ xorL a b = key ++ iv ++ file := by
  refine ⟨_, _, rfl, rfl, ?_, ?_⟩
  · simp [kept, sentShare, xorShare, xorL, hk, hi, hf]
  · have c : ∀ x y z a b d : List Bool, x.length = a.length → y.length = b.length →
        xorL (x ++ y ++ z) (a ++ b ++ d) = xorL x a ++ xorL y b ++ xorL z d := by
      intro x y z a b d h1 h2
      simp only [xorL]
      rw [List.zipWith_append (by simp [h1, h2]), List.zipWith_append h1]
    simp only [kept, sentShare, xorShare]
    rw [← hk, List.take_left, List.drop_left, c _ _ _ _ _ _ (by simp [xorL, hk]) (by simp [xorL, hi]),
      xorL_cancel _ _ hk, xorL_cancel _ _ hi]
    have : xorL (xorL file rf) rf = file := xorL_twice _ _ hf.symm
    rw [this]

/-! ### Cases -/

/-- Party 1 with the data `[x]` or `[y]` and one bit of the peer, in a circuit with a call. -/
example (x y : Bool) (init : Store Bool (List Bool)) :
    ∃ it ls, MIter.new callCirc = some it ∧
      MIter.collect callCirc ((callCirc.circs.map fun c => c.gates.length).sum + 1) it = some ls ∧
      ∃ Φ : List Bool × List (List (Bool × Bool)) → List Bool × List (List (Bool × Bool)),
        ∀ r masks, r.length = 1 → Fit callCirc ls masks → sentShare r [x] = sentShare (Φ (r, masks)).1 [y] := by
  obtain ⟨it, ls, e1, e2, h⟩ := gmw_inputs_hidden callCirc callRank callCirc_wf callCirc_exec.2 1 dataParty dataParty_fixed
    [x] [y] rfl init
  obtain ⟨Φ, -, h⟩ := h (fun _ n => List.replicate n ⟨true, false, true⟩) (by simp) (fun s => some s) (fun _ _ => none)
  exact ⟨it, ls, e1, e2, Φ, fun r masks hr hm => (h r masks hr hm).1⟩

/-- The two inputs of the example with one bit each. -/
example : keyParty 1 (kept [true] [true] ++ kept [false] [true]) (sentShare [true] [false]) = .scalar [true, false, true] ∧
    dataParty (kept [true] [false]) (sentShare [true] [true] ++ sentShare [false] [true]) = .scalar [false, true, true] :=
  ⟨rfl, rfl⟩

end Verif.Exec
