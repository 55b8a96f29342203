import Mathlib.Data.List.Count
import Mathlib.Data.List.Basic

/-!
# `sync`

Model of `sync` (crates/seec-channel/src/lib.rs:138-151), with channels that can be closed.

Each of the two parties has a queue of messages in flight to the other.  Closing a channel is
observed late and can lose messages in flight: `send` to a closed peer can succeed or fail, `recv` from a
closed peer can return `None` or an error.
-/
set_option autoImplicit false

namespace Verif.Chan.Sync

/-- The result of `recv`: `Ok(Some(_))`, `Ok(None)`, `Err(_)`. -/
inductive Res where
  | msg | closed | error
deriving DecidableEq, Repr

/-- A party.  `note e` is an action other than communication, visible to an observer. -/
inductive Act where
  | done (ok : Bool)
  | note (e : Nat) (k : Act)
  | send (k : Bool → Act)
  | recv (k : Res → Act)
  | close (k : Act)

/-- lib.rs:132-151 `sync`; the continuation gets whether the result is `Ok`. -/
def sync (k : Bool → Act) : Act :=
  .send fun ok =>
    if ok then .recv fun r =>
      if r = .error then k false
      else .send fun ok =>
        if ok then .recv fun _ => k true
        else k false
    else k false

/-- A party with its messages in flight. -/
structure Side where
  act : Act
  flight : Nat := 0
  isOpen : Bool := true

/-- A step of the party `a`, its peer being `b`: the sides afterwards and the noted action. -/
inductive Move : Side → Side → Side → Side → Option Nat → Prop
  | note (e : Nat) (k : Act) (f : Nat) (o : Bool) (b : Side) : Move ⟨.note e k, f, o⟩ b ⟨k, f, o⟩ b (some e)
  | send (k : Bool → Act) (f : Nat) (o : Bool) (b : Side) : Move ⟨.send k, f, o⟩ b ⟨k true, f + 1, o⟩ b none
  | sendClosed (k : Bool → Act) (f : Nat) (o : Bool) (b : Side) : b.isOpen = false →
      Move ⟨.send k, f, o⟩ b ⟨k false, f, o⟩ b none
  | recv (k : Res → Act) (f : Nat) (o : Bool) (p : Act) (g : Nat) (o' : Bool) :
      Move ⟨.recv k, f, o⟩ ⟨p, g + 1, o'⟩ ⟨k .msg, f, o⟩ ⟨p, g, o'⟩ none
  | recvClosed (k : Res → Act) (f : Nat) (o : Bool) (b : Side) : b.isOpen = false → b.flight = 0 →
      Move ⟨.recv k, f, o⟩ b ⟨k .closed, f, o⟩ b none
  | recvError (k : Res → Act) (f : Nat) (o : Bool) (b : Side) : b.isOpen = false →
      Move ⟨.recv k, f, o⟩ b ⟨k .error, f, o⟩ b none
  /-- messages in flight can get lost -/
  | close (k : Act) (f f' : Nat) (o : Bool) (b : Side) : f' ≤ f → Move ⟨.close k, f, o⟩ b ⟨k, f', false⟩ b none

/-- Both parties, and what an observer has seen, in order; `false` is party 0. -/
structure Conf where
  a : Side
  b : Side
  log : List (Bool × Nat) := []

inductive Step : Conf → Conf → Prop
  | left (a b a' b' : Side) (e : Option Nat) (log : List (Bool × Nat)) : Move a b a' b' e →
      Step ⟨a, b, log⟩ ⟨a', b', log ++ (e.map fun e => (false, e)).toList⟩
  | right (a b a' b' : Side) (e : Option Nat) (log : List (Bool × Nat)) : Move b a b' a' e →
      Step ⟨a, b, log⟩ ⟨a', b', log ++ (e.map fun e => (true, e)).toList⟩

inductive Steps : Nat → Conf → Conf → Prop
  | refl (c : Conf) : Steps 0 c c
  | snoc {n : Nat} {a b c : Conf} : Steps n a b → Step b c → Steps (n + 1) a c

/-! ### Specification -/

/-- `r` actions in phase `i`. -/
def notes (i : Nat) : Nat → Act → Act
  | 0, k => k
  | r + 1, k => .note i (notes i r k)

/-- Between phases the party calls `sync`; it stops on an error.  At the end the channel is closed. -/
def rest : List Nat → Nat → Act
  | [], _ => .close (.done true)
  | w :: ws, i => sync fun ok => if ok then notes (i + 1) w (rest ws (i + 1)) else .done false

/-- A program with phases: `ws[i]` actions in phase `i`. -/
def phases (w : Nat) (ws : List Nat) : Act := notes 0 w (rest ws 0)

/-- An action of phase `i` happens after all actions of earlier phases of the other party; `count p j` is the
number of actions of party `p` in phase `j`. -/
def Barrier (count : Bool → Nat → Nat) (log : List (Bool × Nat)) : Prop :=
  ∀ (l1 l2 : List (Bool × Nat)) (p : Bool) (i : Nat), log = l1 ++ (p, i) :: l2 →
    ∀ j, j < i → l1.count (!p, j) = count (!p) j

/-! ### Lemmas -/

/-- Where a party is. -/
inductive Pos where
  | ev (r : Nat) | r1 | s2 | r2 | fin
deriving DecidableEq

/-- What a party in phase `i` has to do, `ws` being the sizes of the phases after that. -/
def Pos.act : Pos → Nat → List Nat → Act
  | .ev r, i, ws => notes i r (rest ws i)
  | .r1, i, w :: ws => .recv fun r =>
      if r = .error then (if false then notes (i + 1) w (rest ws (i + 1)) else .done false)
      else .send fun ok =>
        if ok then .recv fun _ => notes (i + 1) w (rest ws (i + 1))
        else .done false
  | .s2, i, w :: ws => .send fun ok =>
      if ok then .recv fun _ => notes (i + 1) w (rest ws (i + 1)) else .done false
  | .r2, i, w :: ws => .recv fun _ => notes (i + 1) w (rest ws (i + 1))
  | _, _, _ => .done true

/-- Messages sent and received. -/
def Pos.sent : Pos → Nat → Nat
  | .ev _, i => 2 * i
  | .r1, i => 2 * i + 1
  | .s2, i => 2 * i + 1
  | .r2, i => 2 * i + 2
  | .fin, i => 2 * i

def Pos.recvd : Pos → Nat → Nat
  | .ev _, i => 2 * i
  | .r1, i => 2 * i
  | .s2, i => 2 * i + 1
  | .r2, i => 2 * i + 1
  | .fin, i => 2 * i

/-- Steps left. -/
def Pos.left : Pos → List Nat → Nat
  | .ev r, ws => r + (4 * ws.length + ws.sum + 1)
  | .r1, ws => 3 + (4 * (ws.length - 1) + ws.sum + 1)
  | .s2, ws => 2 + (4 * (ws.length - 1) + ws.sum + 1)
  | .r2, ws => 1 + (4 * (ws.length - 1) + ws.sum + 1)
  | .fin, _ => 0

/-- Actions left in the current phase. -/
def Pos.todo : Pos → Nat
  | .ev r => r
  | _ => 0

/-- A party that runs the phases `w` (all of them, `N` calls of `sync`) is at the position. -/
structure At (w : List Nat) (s : Side) (p : Pos) (i : Nat) : Prop where
  act : s.act = p.act i (w.drop (i + 1))
  bound : i < w.length
  more : p = .r1 ∨ p = .s2 ∨ p = .r2 → i + 1 < w.length
  fin : p = .fin → i + 1 = w.length
  todo : ∀ r, p = .ev r → r ≤ w.getD i 0
  isOpen : s.isOpen = decide (p ≠ .fin)

/-- The relation between the two parties. -/
structure Rel (N : Nat) (p : Pos) (i : Nat) (f : Nat) (q : Pos) (j : Nat) : Prop where
  flight : p ≠ .fin → f + q.recvd j = p.sent i
  closed : p = .fin → q.sent j = 2 * N

/-- How often the actions of a party are in the log. -/
def Logged (w : List Nat) (p : Pos) (i : Nat) (b : Bool) (log : List (Bool × Nat)) : Prop :=
  ∀ j, log.count (b, j) = if j < i then w.getD j 0 else if j = i then w.getD i 0 - p.todo else 0

structure Inv (w v : List Nat) (c : Conf) (p : Pos) (i : Nat) (q : Pos) (j : Nat) : Prop where
  left : At w c.a p i
  right : At v c.b q j
  rel : Rel (w.length - 1) p i c.a.flight q j
  rel' : Rel (w.length - 1) q j c.b.flight p i
  log : Logged w p i false c.log
  log' : Logged v q j true c.log
  barrier : Barrier (fun b k => if b then v.getD k 0 else w.getD k 0) c.log

theorem drop_cons (w : List Nat) (i : Nat) (h : i + 1 < w.length) :
    w.drop (i + 1) = w.getD (i + 1) 0 :: w.drop (i + 1 + 1) := by
  rw [List.drop_eq_getElem_cons h]
  simp [List.getD_eq_getElem?_getD, h]

theorem At.none {w : List Nat} {s : Side} {i : Nat} (h : At w s .fin i) {t s' t' : Side} {e : Option Nat}
    (m : Move s t s' t' e) : False := by
  obtain ⟨a, f, o⟩ := s
  have := h.act
  simp only [Pos.act] at this
  subst this
  cases m

theorem sent_le {w v : List Nat} {t : Side} {q : Pos} {j : Nat} (h : At v t q j) (hl : v.length = w.length) :
    q.sent j ≤ 2 * (w.length - 1) := by
  have := h.bound
  have := h.more
  cases q <;> simp only [Pos.sent] <;> simp at this <;> omega

/-- The effect of one step on the own side and the relations. -/
structure Effect (w v : List Nat) (t : Side) (p : Pos) (i : Nat) (q : Pos) (j : Nat) (s' t' : Side) (e : Option Nat)
    (p' : Pos) (i' : Nat) : Prop where
  own : At w s' p' i'
  peer : t'.act = t.act ∧ t'.isOpen = t.isOpen
  rel : Rel (w.length - 1) p' i' s'.flight q j
  rel' : Rel (w.length - 1) q j t'.flight p' i'
  left : p'.left (w.drop (i' + 1)) + 1 = p.left (w.drop (i + 1))
  some_ : ∀ k, e = some k → k = i ∧ i' = i ∧ ∃ r, p = .ev (r + 1) ∧ p' = .ev r
  none_ : e = none → (∀ b log, Logged w p i b log → Logged w p' i' b log)

theorem move_effect {w v : List Nat} (hl : v.length = w.length) {s t s' t' : Side} {e : Option Nat} {p q : Pos} {i j : Nat}
    (hs : At w s p i) (ht : At v t q j) (r : Rel (w.length - 1) p i s.flight q j)
    (r' : Rel (w.length - 1) q j t.flight p i) (m : Move s t s' t' e) :
    ∃ p' i', Effect w v t p i q j s' t' e p' i' := by
  have hfin : t.isOpen = false → p.sent i = 2 * (w.length - 1) := by
    intro h
    rw [ht.isOpen] at h
    exact r'.closed (by simpa using h)
  have hq := sent_le ht hl
  obtain ⟨a, f, o⟩ := s
  have hact := hs.act
  have hb := hs.bound
  have hopen := hs.isOpen
  simp only at hact hopen
  subst hact
  cases p with
  | fin => exact (hs.none m).elim
  | ev k =>
    cases k with
    | succ k =>
      cases m with
      | note =>
        refine ⟨.ev k, i, ⟨rfl, hb, by simp, by simp, ?_, hopen⟩, ⟨rfl, rfl⟩, ⟨?_, by simp⟩, ⟨?_, ?_⟩, ?_, ?_, by simp⟩
        · intro r hr
          have := hs.todo (k + 1) rfl
          cases hr; omega
        · intro _; exact r.flight (by simp)
        · exact r'.flight
        · exact r'.closed
        · simp only [Pos.left]; omega
        · intro k' h
          cases h
          exact ⟨rfl, rfl, k, rfl, rfl⟩
    | zero =>
      by_cases hi : i + 1 < w.length
      · have hd := drop_cons w i hi
        simp only [Pos.act, notes, hd, rest, sync] at m
        cases m with
        | send =>
          refine ⟨.r1, i, ⟨?_, hb, fun _ => hi, by simp, by simp, hopen⟩, ⟨rfl, rfl⟩, ⟨?_, by simp⟩, ⟨?_, ?_⟩, ?_,
            by simp, ?_⟩
          · simp only [hd, Pos.act]
            rfl
          · intro _
            have := r.flight (by simp)
            simp only [Pos.sent] at this ⊢
            omega
          · exact r'.flight
          · intro h
            have := r'.closed h
            simp only [Pos.sent] at this ⊢
            omega
          · rw [hd]
            simp only [Pos.left, List.length_cons]
            omega
          · intro _ b log h; exact h
        | sendClosed _ _ _ _ h =>
          have := hfin h
          simp only [Pos.sent] at this
          omega
      · have hd : w.drop (i + 1) = [] := List.drop_eq_nil_of_le (by omega)
        simp only [Pos.act, notes, hd, rest] at m
        cases m with
        | close _ _ f' _ _ hf =>
          refine ⟨.fin, i, ⟨rfl, hb, by simp, fun _ => by omega, by simp, by simp⟩, ⟨rfl, rfl⟩, ⟨by simp, ?_⟩, ⟨?_, ?_⟩,
            ?_, by simp, ?_⟩
          · intro _
            by_cases hqf : q = .fin
            · subst hqf
              have := ht.fin rfl
              simp only [Pos.sent]; omega
            · have := r'.flight hqf
              simp only [Pos.recvd] at this
              omega
          · exact r'.flight
          · intro h; simp only [Pos.sent]; omega
          · rw [hd]; simp [Pos.left]
          · intro _ b log h; exact h
  | r1 =>
    have hi := hs.more (by simp)
    have hd := drop_cons w i hi
    simp only [Pos.act, hd] at m
    cases m with
    | recv _ _ _ pa g po =>
      refine ⟨.s2, i, ⟨?_, hb, fun _ => hi, by simp, by simp, hopen⟩, ⟨rfl, rfl⟩, ⟨?_, by simp⟩, ⟨?_, ?_⟩, ?_,
        by simp, ?_⟩
      · simp only [hd, Pos.act]
        rfl
      · intro _; exact r.flight (by simp)
      · intro h
        have := r'.flight h
        simp only [Pos.recvd] at this ⊢
        omega
      · intro h
        have := r'.closed h
        simp only [Pos.sent] at this ⊢
        omega
      · simp only [Pos.left]; omega
      · intro _ b log h; exact h
    | recvClosed _ _ _ _ h h' =>
      have := hfin h
      simp only [Pos.sent] at this
      omega
    | recvError _ _ _ _ h =>
      have := hfin h
      simp only [Pos.sent] at this
      omega
  | s2 =>
    have hi := hs.more (by simp)
    have hd := drop_cons w i hi
    simp only [Pos.act, hd] at m
    cases m with
    | send =>
      refine ⟨.r2, i, ⟨?_, hb, fun _ => hi, by simp, by simp, hopen⟩, ⟨rfl, rfl⟩, ⟨?_, by simp⟩, ⟨?_, ?_⟩, ?_,
        by simp, ?_⟩
      · simp only [hd, Pos.act]
        rfl
      · intro _
        have := r.flight (by simp)
        simp only [Pos.sent] at this ⊢
        omega
      · intro h
        have := r'.flight h
        simp only [Pos.recvd] at this ⊢
        omega
      · intro h
        have := r'.closed h
        simp only [Pos.sent] at this ⊢
        omega
      · simp only [Pos.left]; omega
      · intro _ b log h; exact h
    | sendClosed _ _ _ _ h =>
      have := hfin h
      simp only [Pos.sent] at this
      omega
  | r2 =>
    have hi := hs.more (by simp)
    have hd := drop_cons w i hi
    have hleft : (Pos.ev (w.getD (i + 1) 0)).left (w.drop (i + 1 + 1)) + 1 = Pos.r2.left (w.drop (i + 1)) := by
      rw [hd]
      simp only [Pos.left, List.length_cons, List.sum_cons]
      omega
    have hlog : ∀ b log, Logged w .r2 i b log → Logged w (.ev (w.getD (i + 1) 0)) (i + 1) b log := by
      intro b log h k
      rw [h k]
      simp only [Pos.todo]
      by_cases h1 : k < i
      · rw [if_pos h1, if_pos (by omega)]
      · rw [if_neg h1]
        by_cases h2 : k = i
        · subst h2
          rw [if_pos rfl, if_pos (by omega)]; rfl
        · rw [if_neg h2, if_neg (by omega)]
          by_cases h3 : k = i + 1
          · rw [if_pos h3]; omega
          · rw [if_neg h3]
    have hat : ∀ f', At w ⟨notes (i + 1) (w.getD (i + 1) 0) (rest (w.drop (i + 1 + 1)) (i + 1)), f', o⟩
        (.ev (w.getD (i + 1) 0)) (i + 1) := by
      intro f'
      refine ⟨rfl, hi, by simp, by simp, ?_, hopen⟩
      intro r hr
      cases hr; omega
    have hrel : Rel (w.length - 1) (.ev (w.getD (i + 1) 0)) (i + 1) f q j := by
      refine ⟨fun _ => ?_, by simp⟩
      have := r.flight (by simp)
      simp only [Pos.sent] at this ⊢
      omega
    simp only [Pos.act, hd] at m
    cases m with
    | recv _ _ _ pa g po =>
      refine ⟨_, i + 1, hat f, ⟨rfl, rfl⟩, hrel, ⟨?_, ?_⟩, hleft, by simp, fun _ => hlog⟩
      · intro h
        have := r'.flight h
        simp only [Pos.recvd] at this ⊢
        omega
      · intro h
        have := r'.closed h
        simp only [Pos.sent] at this ⊢
        omega
    | recvClosed _ _ _ _ h h' =>
      have hqf : q = .fin := by rw [ht.isOpen] at h; simpa using h
      refine ⟨_, i + 1, hat f, ⟨rfl, rfl⟩, hrel, ⟨fun h => (h hqf).elim, ?_⟩, hleft, by simp, fun _ => hlog⟩
      intro h
      have := r'.closed h
      simp only [Pos.sent] at this ⊢
      omega
    | recvError _ _ _ _ h =>
      have hqf : q = .fin := by rw [ht.isOpen] at h; simpa using h
      refine ⟨_, i + 1, hat f, ⟨rfl, rfl⟩, hrel, ⟨fun h => (h hqf).elim, ?_⟩, hleft, by simp, fun _ => hlog⟩
      intro h
      have := r'.closed h
      simp only [Pos.sent] at this ⊢
      omega

theorem At.peer {w : List Nat} {s s' : Side} {p : Pos} {i : Nat} (h : At w s p i)
    (e : s'.act = s.act ∧ s'.isOpen = s.isOpen) : At w s' p i :=
  ⟨e.1.trans h.act, h.bound, h.more, h.fin, h.todo, e.2.trans h.isOpen⟩

/-- What the counts say when a party acts in phase `i`. -/
theorem peer_done {w v : List Nat} (hl : v.length = w.length) {t : Side} {q : Pos} {i j r : Nat} {b : Bool}
    {log : List (Bool × Nat)} (hi : i < w.length) (ht : At v t q j) (r' : Rel (w.length - 1) q j t.flight (.ev r) i)
    (hlog : Logged v q j b log) (k : Nat) (hk : k < i) : log.count (b, k) = v.getD k 0 := by
  have h2 : 2 * i ≤ q.sent j := by
    by_cases hqf : q = .fin
    · subst hqf
      have := ht.fin rfl
      simp only [Pos.sent]
      omega
    · have := r'.flight hqf
      simp only [Pos.recvd] at this
      omega
  rw [hlog k]
  have : k < j ∨ k = j ∧ q.todo = 0 := by
    cases q <;> simp only [Pos.sent] at h2 <;> simp only [Pos.todo, and_true] <;> omega
  rcases this with h | ⟨h, h0⟩
  · rw [if_pos h]
  · subst h
    rw [if_neg (by omega), if_pos rfl, h0]; rfl

theorem barrier_snoc {count : Bool → Nat → Nat} {log : List (Bool × Nat)} {p : Bool} {i : Nat} (h : Barrier count log)
    (hc : ∀ j, j < i → log.count (!p, j) = count (!p) j) : Barrier count (log ++ [(p, i)]) := by
  intro l1 l2 q k e
  rcases List.eq_nil_or_concat l2 with rfl | ⟨l2', x, rfl⟩
  · obtain ⟨rfl, e2⟩ := List.append_inj' e rfl
    simp only [List.cons.injEq, Prod.mk.injEq, and_true] at e2
    obtain ⟨rfl, rfl⟩ := e2
    exact hc
  · simp only [List.concat_eq_append] at e
    rw [← List.cons_append, ← List.append_assoc] at e
    obtain ⟨e1, -⟩ := List.append_inj' e rfl
    exact h l1 l2' q k e1

theorem logged_other {w : List Nat} {p : Pos} {i : Nat} {b c : Bool} {k : Nat} {log : List (Bool × Nat)} (hne : b ≠ c)
    (h : Logged w p i b log) : Logged w p i b (log ++ [(c, k)]) := by
  intro j
  rw [List.count_append, h j, List.count_singleton]
  have : ¬ ((c, k) == (b, j)) = true := by
    simp only [beq_iff_eq, Prod.mk.injEq, not_and]
    intro e
    exact absurd e.symm hne
  rw [if_neg this]
  rfl

theorem logged_own {w : List Nat} {r i : Nat} {b : Bool} {log : List (Bool × Nat)} (hr : r + 1 ≤ w.getD i 0)
    (h : Logged w (.ev (r + 1)) i b log) : Logged w (.ev r) i b (log ++ [(b, i)]) := by
  intro j
  rw [List.count_append, h j, List.count_singleton]
  simp only [Pos.todo]
  by_cases h1 : j < i
  · rw [if_pos h1, if_pos h1, if_neg (by simp; omega)]; rfl
  · rw [if_neg h1, if_neg h1]
    by_cases h2 : j = i
    · subst h2
      rw [if_pos rfl, if_pos rfl, if_pos (by simp)]
      omega
    · rw [if_neg h2, if_neg h2, if_neg (by simpa using fun e => h2 e.symm)]

theorem inv_step {w v : List Nat} (hl : v.length = w.length) {c c' : Conf} {p q : Pos} {i j : Nat}
    (h : Inv w v c p i q j) (st : Step c c') :
    ∃ p' i' q' j', Inv w v c' p' i' q' j' ∧
      p'.left (w.drop (i' + 1)) + q'.left (v.drop (j' + 1)) + 1 = p.left (w.drop (i + 1)) + q.left (v.drop (j + 1)) := by
  obtain ⟨h1, h2, h3, h4, h5, h6, h7⟩ := h
  cases st with
  | left a b a' b' e log m =>
    obtain ⟨p', i', own, peer, rel, rel', left, some_, none_⟩ := move_effect hl h1 h2 h3 h4 m
    refine ⟨p', i', q, j, ?_, by omega⟩
    cases e with
    | none => exact ⟨own, h2.peer peer, rel, rel', by simpa using none_ rfl _ _ h5, by simpa using h6, by simpa using h7⟩
    | some k =>
      obtain ⟨rfl, rfl, r, rfl, rfl⟩ := some_ k rfl
      refine ⟨own, h2.peer peer, rel, rel', logged_own (h1.todo _ rfl) h5, logged_other (by simp) h6, barrier_snoc h7 ?_⟩
      intro n hn
      simpa using peer_done hl h1.bound h2 h4 h6 n hn
  | right a b a' b' e log m =>
    have hN : v.length - 1 = w.length - 1 := by rw [hl]
    obtain ⟨q', j', own, peer, rel, rel', left, some_, none_⟩ :=
      move_effect hl.symm h2 h1 (by rw [hN]; exact h4) (by rw [hN]; exact h3) m
    rw [hN] at rel rel'
    refine ⟨p, i, q', j', ?_, by omega⟩
    cases e with
    | none => exact ⟨h1.peer peer, own, rel', rel, by simpa using h5, by simpa using none_ rfl _ _ h6, by simpa using h7⟩
    | some k =>
      obtain ⟨rfl, rfl, r, rfl, rfl⟩ := some_ k rfl
      refine ⟨h1.peer peer, own, rel', rel, logged_other (by simp) h5, logged_own (h2.todo _ rfl) h6, barrier_snoc h7 ?_⟩
      intro n hn
      simpa using peer_done hl.symm h2.bound h1 (by rw [hN]; exact h3) h5 n hn

theorem inv_steps {w v : List Nat} (hl : v.length = w.length) {n : Nat} {c c' : Conf} {p q : Pos} {i j : Nat}
    (h : Inv w v c p i q j) (st : Steps n c c') :
    ∃ p' i' q' j', Inv w v c' p' i' q' j' ∧
      p'.left (w.drop (i' + 1)) + q'.left (v.drop (j' + 1)) + n = p.left (w.drop (i + 1)) + q.left (v.drop (j + 1)) := by
  induction st with
  | refl => exact ⟨p, i, q, j, h, rfl⟩
  | snoc _ s ih =>
    obtain ⟨p1, i1, q1, j1, h1, e1⟩ := ih h
    obtain ⟨p2, i2, q2, j2, h2, e2⟩ := inv_step hl h1 s
    exact ⟨p2, i2, q2, j2, h2, by omega⟩

/-- A party that is neither finished nor waiting for a message can move. -/
theorem can_move {w : List Nat} {s : Side} {p : Pos} {i : Nat} (h : At w s p i) (t : Side) (hf : p ≠ .fin)
    (hw : p = .r1 ∨ p = .r2 → 0 < t.flight ∨ t.isOpen = false) : ∃ s' t' e, Move s t s' t' e := by
  obtain ⟨a, f, o⟩ := s
  have ha := h.act
  simp only at ha
  subst ha
  have hrecv : ∀ k : Res → Act, (0 < t.flight ∨ t.isOpen = false) → ∃ s' t' e, Move ⟨.recv k, f, o⟩ t s' t' e := by
    intro k hk
    rcases hk with hk | hk
    · obtain ⟨b, g, o'⟩ := t
      obtain ⟨g', rfl⟩ : ∃ g', g = g' + 1 := ⟨g - 1, by simp only at hk; omega⟩
      exact ⟨_, _, _, .recv k f o b g' o'⟩
    · exact ⟨_, _, _, .recvError k f o t hk⟩
  cases p with
  | fin => exact (hf rfl).elim
  | ev k =>
    cases k with
    | succ k => exact ⟨_, _, _, .note ..⟩
    | zero =>
      simp only [Pos.act, notes]
      cases w.drop (i + 1) with
      | nil => exact ⟨_, _, _, .close _ _ _ _ _ (Nat.le_refl _)⟩
      | cons x xs => exact ⟨_, _, _, .send ..⟩
  | r1 =>
    rw [drop_cons w i (h.more (by simp))]
    exact hrecv _ (hw (by simp))
  | s2 =>
    rw [drop_cons w i (h.more (by simp))]
    exact ⟨_, _, _, .send ..⟩
  | r2 =>
    rw [drop_cons w i (h.more (by simp))]
    exact hrecv _ (hw (by simp))

theorem not_stuck {w v : List Nat} {c : Conf} {p q : Pos} {i j : Nat} (h : Inv w v c p i q j)
    (hs : ∀ c', ¬ Step c c') : p = .fin ∧ q = .fin := by
  obtain ⟨h1, h2, h3, h4, h5, h6, h7⟩ := h
  obtain ⟨a, b, log⟩ := c
  simp only at h1 h2 h3 h4
  have na : ¬ ∃ s' t' e, Move a b s' t' e := fun ⟨s', t', e, m⟩ => hs _ (.left _ _ _ _ _ _ m)
  have nb : ¬ ∃ s' t' e, Move b a s' t' e := fun ⟨s', t', e, m⟩ => hs _ (.right _ _ _ _ _ _ m)
  have ha : p ≠ .fin → (p = .r1 ∨ p = .r2) ∧ b.flight = 0 ∧ b.isOpen = true := by
    intro hf
    refine ⟨?_, ?_, ?_⟩
    · by_contra hc; exact na (can_move h1 b hf fun h => (hc h).elim)
    · by_contra hc; exact na (can_move h1 b hf fun _ => .inl (by omega))
    · by_contra hc; exact na (can_move h1 b hf fun _ => .inr (by simpa using hc))
  have hb : q ≠ .fin → (q = .r1 ∨ q = .r2) ∧ a.flight = 0 ∧ a.isOpen = true := by
    intro hf
    refine ⟨?_, ?_, ?_⟩
    · by_contra hc; exact nb (can_move h2 a hf fun h => (hc h).elim)
    · by_contra hc; exact nb (can_move h2 a hf fun _ => .inl (by omega))
    · by_contra hc; exact nb (can_move h2 a hf fun _ => .inr (by simpa using hc))
  have key : ¬ (p ≠ .fin ∨ q ≠ .fin) := by
    intro hor
    have both : p ≠ .fin ∧ q ≠ .fin := by
      rcases hor with hp | hq
      · refine ⟨hp, ?_⟩
        have := (ha hp).2.2
        rw [h2.isOpen] at this
        simpa using this
      · refine ⟨?_, hq⟩
        have := (hb hq).2.2
        rw [h1.isOpen] at this
        simpa using this
    obtain ⟨hp, hq⟩ := both
    obtain ⟨p1, f1, -⟩ := ha hp
    obtain ⟨q1, f2, -⟩ := hb hq
    have e1 := h3.flight hp
    have e2 := h4.flight hq
    rw [f2] at e1
    rw [f1] at e2
    rcases p1 with rfl | rfl <;> rcases q1 with rfl | rfl <;> simp only [Pos.sent, Pos.recvd] at e1 e2 <;> omega
  by_contra hc
  apply key
  by_contra hd
  push Not at hd
  exact hc hd

theorem inv_start (w v : Nat) (ws vs : List Nat) :
    Inv (w :: ws) (v :: vs) ⟨{ act := phases w ws }, { act := phases v vs }, []⟩ (.ev w) 0 (.ev v) 0 := by
  have hr : ∀ n a b, Rel n (.ev a) 0 0 (.ev b) 0 := fun n a b => ⟨fun _ => rfl, by simp⟩
  have hlog : ∀ (x : Nat) (xs : List Nat) (b : Bool), Logged (x :: xs) (.ev x) 0 b [] := by
    intro x xs b j
    simp only [List.count_nil, Nat.not_lt_zero, if_false, Pos.todo]
    by_cases h : j = 0 <;> simp [h]
  refine ⟨⟨rfl, by simp, by simp, by simp, ?_, by simp⟩, ⟨rfl, by simp, by simp, by simp, ?_, by simp⟩, hr _ _ _, hr _ _ _,
    hlog _ _ _, hlog _ _ _, ?_⟩
  · intro r h; cases h; simp
  · intro r h; cases h; simp
  · intro l1 l2 p i e
    simp at e

/-! ### Theorems -/

/-- C69.  Two parties with the same number of phases, separated by calls of `sync`, that close the channel at the
end.  In every execution, whatever the scheduler does and even if closing the channel loses messages in
flight: `sync` is a barrier, that is, no party acts in a phase before the other has finished all earlier
phases; the number of steps is bounded; and an execution ends only when both parties are through with all
their actions and no `sync` has returned an error. -/
theorem sync_barrier (w v : Nat) (ws vs : List Nat) (hl : vs.length = ws.length) (n : Nat) (c : Conf)
    (st : Steps n ⟨{ act := phases w ws }, { act := phases v vs }, []⟩ c) :
    Barrier (fun b k => if b then (v :: vs).getD k 0 else (w :: ws).getD k 0) c.log ∧
      n ≤ (w :: ws).sum + (v :: vs).sum + 8 * ws.length + 2 ∧
      ((∀ c', ¬ Step c c') → c.a.act = .done true ∧ c.b.act = .done true ∧
        ∀ j, c.log.count (false, j) = (w :: ws).getD j 0 ∧ c.log.count (true, j) = (v :: vs).getD j 0) := by
  obtain ⟨p, i, q, j, h, e⟩ := inv_steps (by simp [hl]) (inv_start w v ws vs) st
  refine ⟨h.barrier, ?_, ?_⟩
  · simp only [Pos.left, List.drop_succ_cons, List.drop_zero] at e
    simp only [List.sum_cons]
    omega
  · intro hs
    obtain ⟨rfl, rfl⟩ := not_stuck h hs
    refine ⟨by rw [h.left.act]; rfl, by rw [h.right.act]; rfl, fun k => ?_⟩
    have cnt : ∀ (x : List Nat) (b : Bool) (m : Nat), Logged x .fin m b c.log → m + 1 = x.length →
        c.log.count (b, k) = x.getD k 0 := by
      intro x b m hx hm
      rw [hx k]
      simp only [Pos.todo, Nat.sub_zero]
      by_cases h1 : k < m
      · rw [if_pos h1]
      · rw [if_neg h1]
        by_cases h2 : k = m
        · rw [if_pos h2, h2]
        · rw [if_neg h2, List.getD_eq_getElem?_getD, List.getElem?_eq_none (by omega)]; rfl
    exact ⟨cnt _ _ _ h.log (h.left.fin rfl), cnt _ _ _ h.log' (h.right.fin rfl)⟩

/-- From wherever the scheduler got to, the execution can be completed. -/
theorem sync_completes (w v : Nat) (ws vs : List Nat) (hl : vs.length = ws.length) (n : Nat) (c : Conf)
    (st : Steps n ⟨{ act := phases w ws }, { act := phases v vs }, []⟩ c) :
    ∃ k c', Steps k ⟨{ act := phases w ws }, { act := phases v vs }, []⟩ c' ∧ n ≤ k ∧ c.log <+: c'.log ∧
      c'.a.act = .done true ∧ c'.b.act = .done true := by
  generalize hd : (w :: ws).sum + (v :: vs).sum + 8 * ws.length + 2 - n = d
  induction d using Nat.strongRecOn generalizing n c with
  | _ d ih =>
    obtain ⟨-, hb, hs⟩ := sync_barrier w v ws vs hl n c st
    by_cases h : ∀ c', ¬ Step c c'
    · exact ⟨n, c, st, Nat.le_refl _, List.prefix_rfl, (hs h).1, (hs h).2.1⟩
    · push Not at h
      obtain ⟨c1, h1⟩ := h
      obtain ⟨-, hb1, -⟩ := sync_barrier w v ws vs hl (n + 1) c1 (.snoc st h1)
      obtain ⟨k, c', hk, hn, hlog, ha, hbb⟩ := ih _ (by omega) (n + 1) c1 (.snoc st h1) rfl
      refine ⟨k, c', hk, by omega, List.IsPrefix.trans ?_ hlog, ha, hbb⟩
      cases h1 with
      | left => exact List.prefix_append _ _
      | right => exact List.prefix_append _ _

/-- A case with actions in every phase, for which the barrier says something: a log that violates it. -/
example : ¬ Barrier (fun b k => if b then [2, 1].getD k 0 else [1, 1].getD k 0) [(false, 0), (true, 0), (false, 1)] := by
  intro h
  exact absurd (h [(false, 0), (true, 0)] [] false 1 rfl 0 (by omega)) (by decide)

/-- A party that closes the channel instead of calling `sync` does not hold up the other: `sync` can return `Ok` although
the peer has not called it, and the other party acts in phase 1 before the peer acts in phase 0. -/
theorem sync_passes_closed_peer :
    ∃ n c, Steps n ⟨{ act := phases 0 [1] }, { act := .close (.note 0 (.done true)) }, []⟩ c ∧
      c.log = [(false, 1), (true, 0)] ∧ c.a.act = .close (.done true) := by
  have h1 := Steps.refl ⟨{ act := phases 0 [1] }, { act := .close (.note 0 (.done true)) }, []⟩
  have h2 := Steps.snoc h1 (.left _ _ _ _ _ _ (.send _ _ _ _))
  have h3 := Steps.snoc h2 (.right _ _ _ _ _ _ (.close _ _ 0 _ _ (Nat.le_refl _)))
  have h4 := Steps.snoc h3 (.left _ _ _ _ _ _ (.recvClosed _ _ _ _ rfl rfl))
  have h5 := Steps.snoc h4 (.left _ _ _ _ _ _ (.send _ _ _ _))
  have h6 := Steps.snoc h5 (.left _ _ _ _ _ _ (.recvClosed _ _ _ _ rfl rfl))
  have h7 := Steps.snoc h6 (.left _ _ _ _ _ _ (.note 1 _ _ _ _))
  have h8 := Steps.snoc h7 (.right _ _ _ _ _ _ (.note 0 _ _ _ _))
  exact ⟨_, _, h8, rfl, rfl⟩

end Verif.Chan.Sync
