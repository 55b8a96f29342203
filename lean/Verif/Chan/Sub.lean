import Mathlib.Data.List.Nodup
import Verif.Proc.Lemmas

/-!
# Sub-channels

Model of `sub_channel`, `sub_channel_with` (crates/seec-channel/src/lib.rs:78-136) and of the code
generated by `sub_channels_for!` (crates/seec-channel-macros/src/lib.rs).

A channel created by `channel` (lib.rs:64-76) is a reliable queue (trusted), named by the party that
created it and a serial number.  Its two ends can be sent over another channel.  The Rust types of
the messages are not modelled: `wrap` and `extract` are arbitrary functions.
-/
set_option autoImplicit false

namespace Verif.Chan.Sub

open Proc

/-- The creating party and a serial number. -/
abbrev ChanId := Nat × Nat

/-- A pair `(Sender, Receiver)` of channel ends. -/
structure Ends where
  sender : ChanId
  receiver : ChanId
deriving DecidableEq, Repr

/-- `CommunicationError`. -/
inductive Err where
  | unexpectedMessage
  /-- `RecvError`: the message can not be decoded. -/
  | recv
deriving DecidableEq, Repr

/-- A call that sets up channels. -/
inductive Call (M : Type) where
  /-- `sub_channel` (`wrap` and `extract` are the two `into`s) and `sub_channel_with`. -/
  | one (wrap : ChanId → M) (extract : M → Option ChanId)
  /-- `sub_channels_for!` with `n` types; `wrap` and `extract` are the codec. -/
  | tuple (n : Nat) (wrap : List ChanId → M) (extract : M → Option (List ChanId))

/-- The calls of party `p` in turn; `s` is the next serial number, `acc` the results so far. -/
def establish {M : Type} (p : Nat) : List (Call M) → Nat → List (List Ends) →
    Proc M (Except Err (List (List Ends)))
  | [], _, acc => .done (.ok acc)
  -- lib.rs:120-135: the sender is sent away, the receiver kept
  | .one wrap extract :: cs, s, acc =>
    .send (wrap (p, s)) <| .recv fun m =>
      match extract m with
      | none => .done (.error .unexpectedMessage)
      | some r => establish p cs (s + 1) (acc ++ [[⟨r, (p, s)⟩]])
  -- macros lib.rs:34-49: the receivers are sent away, the senders kept
  | .tuple n wrap extract :: cs, s, acc =>
    let own := (List.range n).map fun j => (p, s + j)
    .send (wrap own) <| .recv fun m =>
      match extract m with
      | none => .done (.error .recv)
      | some rs => establish p cs (s + n) (acc ++ [List.zipWith Ends.mk own rs])

/-! ### Specification -/

/-- Both parties make the same kind of call and understand each other's message. -/
inductive Call.Agree {M : Type} : Call M → Call M → Prop
  | one (w w' : ChanId → M) (x x' : M → Option ChanId) (h : ∀ c, x' (w c) = some c) (h' : ∀ c, x (w' c) = some c) :
      Agree (.one w x) (.one w' x')
  | tuple (n : Nat) (w w' : List ChanId → M) (x x' : M → Option (List ChanId)) (h : ∀ c, x' (w c) = some c)
      (h' : ∀ c, x (w' c) = some c) : Agree (.tuple n w x) (.tuple n w' x')

/-- Number of channel pairs a call sets up. -/
def Call.count {M : Type} : Call M → Nat
  | .one .. => 1
  | .tuple n .. => n

/-- The two ends seen from the other side. -/
def Ends.flip (e : Ends) : Ends := ⟨e.receiver, e.sender⟩

/-! ### Lemmas -/

/-- What party `p` gets from the calls. -/
def ends {M : Type} (p : Nat) : List (Call M) → Nat → List (List Ends)
  | [], _ => []
  | .one .. :: cs, s => [⟨(1 - p, s), (p, s)⟩] :: ends p cs (s + 1)
  | .tuple n .. :: cs, s =>
    ((List.range n).map fun j => ⟨(p, s + j), (1 - p, s + j)⟩) :: ends p cs (s + n)

theorem zip_own (p q s n : Nat) :
    List.zipWith Ends.mk ((List.range n).map fun j => (p, s + j)) ((List.range n).map fun j => (q, s + j)) =
      (List.range n).map fun j => ⟨(p, s + j), (q, s + j)⟩ := by
  rw [List.zipWith_map]
  simp [List.zipWith_self]

theorem establish_runs {M : Type} (cs0 cs1 : List (Call M)) (h : List.Forall₂ Call.Agree cs0 cs1) (s : Nat)
    (acc0 acc1 : List (List Ends)) :
    Runs (establish 0 cs0 s acc0) (establish 1 cs1 s acc1) (.ok (acc0 ++ ends 0 cs0 s)) (.ok (acc1 ++ ends 1 cs0 s)) := by
  induction h generalizing s acc0 acc1 with
  | nil => simpa [establish, ends] using Runs.done _ _
  | cons ha _ ih =>
    cases ha with
    | one w w' x x' h h' =>
      rw [establish, establish]
      apply Runs.exchange
      simp only [h, h']
      have := ih (s + 1) (acc0 ++ [[⟨(1, s), (0, s)⟩]]) (acc1 ++ [[⟨(0, s), (1, s)⟩]])
      simpa [ends] using this
    | tuple n w w' x x' h h' =>
      rw [establish, establish]
      apply Runs.exchange
      simp only [h, h', zip_own]
      have := ih (s + n) (acc0 ++ [(List.range n).map fun j => ⟨(0, s + j), (1, s + j)⟩])
        (acc1 ++ [(List.range n).map fun j => ⟨(1, s + j), (0, s + j)⟩])
      simpa [ends] using this

theorem ends_flip {M : Type} (cs : List (Call M)) (s : Nat) :
    ends 1 cs s = (ends 0 cs s).map (List.map Ends.flip) := by
  induction cs generalizing s with
  | nil => rfl
  | cons c cs ih =>
    cases c <;> simp [ends, ih, Ends.flip, Function.comp_def]

theorem ends_counts {M : Type} (p : Nat) (cs : List (Call M)) (s : Nat) :
    (ends p cs s).map List.length = cs.map Call.count := by
  induction cs generalizing s with
  | nil => rfl
  | cons c cs ih => cases c <;> simp [ends, ih, Call.count]

/-- Serial numbers of the channels at one party's ends. -/
theorem ends_serial {M : Type} (p : Nat) (cs : List (Call M)) (s : Nat) :
    (ends p cs s).flatten.map (fun e => e.sender.2) = List.range' s (cs.map Call.count).sum ∧
    (∀ e ∈ (ends p cs s).flatten, e.receiver.2 = e.sender.2 ∧
      ((e.sender.1 = p ∧ e.receiver.1 = 1 - p) ∨ (e.sender.1 = 1 - p ∧ e.receiver.1 = p))) := by
  induction cs generalizing s with
  | nil => simp [ends]
  | cons c cs ih =>
    cases c with
    | one w x =>
      obtain ⟨h1, h2⟩ := ih (s + 1)
      refine ⟨?_, ?_⟩
      · simp only [ends, List.flatten_cons, List.map_append, h1, List.map_cons, List.map_nil, Call.count,
          List.sum_cons]
        rw [Nat.add_comm 1, List.range'_succ]
        rfl
      · intro e he
        simp only [ends, List.flatten_cons, List.mem_append, List.mem_singleton] at he
        rcases he with rfl | he
        · exact ⟨rfl, .inr ⟨rfl, rfl⟩⟩
        · exact h2 e he
    | tuple n w x =>
      obtain ⟨h1, h2⟩ := ih (s + n)
      refine ⟨?_, ?_⟩
      · simp only [ends, List.flatten_cons, List.map_append, h1, Call.count, List.map_cons, List.sum_cons,
          List.map_map, Function.comp_def]
        rw [← List.range'_append_1, List.range'_eq_map_range (s := s) (n := n)]
      · intro e he
        simp only [ends, List.flatten_cons, List.mem_append, List.mem_map, List.mem_range] at he
        rcases he with ⟨j, -, rfl⟩ | he
        · exact ⟨rfl, .inl ⟨rfl, rfl⟩⟩
        · exact h2 e he

/-! ### Theorems -/

/-- C68.  Both parties make any number of set-up calls over the same pair of channels, in the same
order.  Under every schedule both succeed.  The results are connected crosswise: the sender of
one party belongs to the channel of the receiver of the other, call by call and position by position.
No channel occurs twice: neither among the senders of one party, nor as sender and receiver of the
same party. -/
theorem sub_channels_paired {M : Type} (cs0 cs1 : List (Call M)) (h : List.Forall₂ Call.Agree cs0 cs1) (s : Nat) :
    ∃ r0 r1, Runs (establish 0 cs0 s []) (establish 1 cs1 s []) (.ok r0) (.ok r1) ∧
      r1 = r0.map (List.map Ends.flip) ∧ r0.map List.length = cs0.map Call.count ∧
      (r0.flatten.flatMap fun e => [e.sender, e.receiver]).Nodup := by
  refine ⟨_, _, by simpa using establish_runs cs0 cs1 h s [] [], ends_flip cs0 s, ends_counts 0 cs0 s, ?_⟩
  obtain ⟨h1, h2⟩ := ends_serial 0 cs0 s
  have hn : ((ends 0 cs0 s).flatten.map fun e => e.sender.2).Nodup := by
    rw [h1]; exact List.nodup_range'
  clear h1
  generalize (ends 0 cs0 s).flatten = l at h2 hn
  induction l with
  | nil => simp
  | cons e l ih =>
    simp only [List.map_cons, List.nodup_cons] at hn
    obtain ⟨he, hs⟩ := h2 e List.mem_cons_self
    have hl : ∀ c ∈ l.flatMap fun e => [e.sender, e.receiver], c.2 ≠ e.sender.2 := by
      intro c hc hce
      obtain ⟨x, hx, hcx⟩ := List.mem_flatMap.1 hc
      have hx2 := (h2 x (List.mem_cons_of_mem _ hx)).1
      apply hn.1
      refine List.mem_map.2 ⟨x, hx, ?_⟩
      simp only [List.mem_cons, List.not_mem_nil, or_false] at hcx
      rcases hcx with rfl | rfl
      · exact hce
      · rw [← hx2]; exact hce
    simp only [List.flatMap_cons, List.cons_append, List.nil_append, List.nodup_cons, List.mem_cons]
    refine ⟨?_, ?_, ih (fun x hx => h2 x (List.mem_cons_of_mem _ hx)) hn.2⟩
    · rintro (h | h)
      · have := congrArg Prod.fst h; omega
      · exact hl _ h rfl
    · intro h
      exact hl _ h he

/-- C68, disagreement: if after some calls in which they agree the parties wait for messages of different
kinds, both get an error at that call, and nothing is left over. -/
theorem sub_channels_disagree {M : Type} (cs0 cs1 : List (Call M)) (h : List.Forall₂ Call.Agree cs0 cs1)
    (w w' : ChanId → M) (x x' : M → Option ChanId) (hx : ∀ c, x' (w c) = none) (hx' : ∀ c, x (w' c) = none)
    (r0 r1 : List (Call M)) (s : Nat) :
    Runs (establish 0 (cs0 ++ .one w x :: r0) s []) (establish 1 (cs1 ++ .one w' x' :: r1) s [])
      (.error .unexpectedMessage) (.error .unexpectedMessage) := by
  suffices hg : ∀ (s : Nat) (a0 a1 : List (List Ends)), Runs (establish 0 (cs0 ++ .one w x :: r0) s a0)
      (establish 1 (cs1 ++ .one w' x' :: r1) s a1) (.error .unexpectedMessage) (.error .unexpectedMessage) from hg s [] []
  induction h with
  | nil =>
    intro s a0 a1
    simp only [List.nil_append, establish]
    apply Runs.exchange
    simp only [hx, hx']
    exact Runs.done _ _
  | cons ha _ ih =>
    intro s a0 a1
    cases ha with
    | one w w' x x' h h' =>
      rw [List.cons_append, List.cons_append, establish, establish]
      apply Runs.exchange
      simp only [h, h']
      exact ih _ _ _
    | tuple n w w' x x' h h' =>
      rw [List.cons_append, List.cons_append, establish, establish]
      apply Runs.exchange
      simp only [h, h']
      exact ih _ _ _

/-- A message type with two kinds of channels, as in aes_cbc.rs:97-110. -/
inductive ExMsg where
  | exec (c : ChanId)
  | ot (c : ChanId)
  | many (cs : List ChanId)

def execCall : Call ExMsg := .one .exec fun m => match m with | .exec c => some c | _ => none
def otCall : Call ExMsg := .one .ot fun m => match m with | .ot c => some c | _ => none
def manyCall (n : Nat) : Call ExMsg := .tuple n .many fun m => match m with | .many c => some c | _ => none

/-- The hypotheses are met: a channel for the executor, one for OTs and then three more. -/
example : List.Forall₂ Call.Agree [execCall, otCall, manyCall 3] [execCall, otCall, manyCall 3] :=
  .cons (.one _ _ _ _ (fun _ => rfl) (fun _ => rfl)) (.cons (.one _ _ _ _ (fun _ => rfl) (fun _ => rfl))
    (.cons (.tuple _ _ _ _ _ (fun _ => rfl) (fun _ => rfl)) .nil))

/-- Exchanged calls are noticed by both. -/
example : Runs (establish 0 [execCall, otCall] 0 []) (establish 1 [otCall, execCall] 0 [])
    (.error .unexpectedMessage) (.error .unexpectedMessage) :=
  sub_channels_disagree [] [] .nil _ _ _ _ (fun _ => rfl) (fun _ => rfl) [otCall] [execCall] 0

end Verif.Chan.Sub
