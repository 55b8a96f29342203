import Mathlib.Data.List.Perm.Basic
import Mathlib.Data.List.Nodup
import Verif.Ot.Base

/-!
The ALSZ13 OT extension (C28, C29) and correlated OT on top of it (C30).

Bytes are lists of bits, least significant first, so that a row of the bit matrices of the code is a
list of bits; the transposition of a bit matrix is its mathematical definition here (the
implementation is the subject of C43).
-/
set_option autoImplicit false

namespace Verif.Ot

/-- A seedable generator (`AesRng` in the code): `fill s n` gives the `n` bytes written by
`fill_bytes` as bits, and the state afterwards.  Any function will do. -/
structure Prg (σ : Type) where
  fill : σ → Nat → List Bool × σ
  length : ∀ s n, (fill s n).1.length = 8 * n

/-- zappot/src/ot_ext/mod.rs:25-29 `Sender` after the base OTs: one generator and one choice bit per
base OT. -/
structure SenderSt (σ : Type) where
  rngs : List σ
  choices : List Bool

/-- ot_ext/mod.rs:31-34 `Receiver` after the base OTs. -/
structure ReceiverSt (σ : Type) where
  rngs : List (σ × σ)

/-- ot_ext/mod.rs:36-44 `ExtOTMsg`; `T` is the type of the elements of a `Correlated` message
(`[u8; LEN]`, sent as flat bytes). -/
inductive ExtMsg (T : Type) where
  | baseOTChannel
  | uRow (idx : Nat) (row : List Bool)
  | correlated (bs : List T)
deriving Repr, DecidableEq

/-- Bitwise xor of the bytes of two slices, `iter_mut().zip(..)`: what lies beyond the shorter one is
left alone. -/
def xorInto : List Bool → List Bool → List Bool
  | v :: vs, u :: us => xor v u :: xorInto vs us
  | vs, [] => vs
  | [], _ => []

/-- Column `j` of a matrix given by its rows. -/
def column (rows : List (List Bool)) (j : Nat) : List Bool := rows.map fun r => r.getD j false

/-- The rows of the transposed matrix with `n` columns. -/
def transpose (rows : List (List Bool)) (n : Nat) : List (List Bool) :=
  (List.range n).map (column rows)

/-- ot_ext/mod.rs:312-330 the work on one row of the receiver: the row of `t_mat`, the row sent, and
the two generators afterwards. -/
def receiverRow {σ : Type} (g : Prg σ) (choices : List Bool) (p : σ × σ) :
    List Bool × List Bool × (σ × σ) :=
  let (t, s0) := g.fill p.1 (choices.length / 8)
  let (w, s1) := g.fill p.2 (choices.length / 8)
  (t, xorInto w (xorInto t choices), (s0, s1))

/-- ot_ext/mod.rs:281-353 `Receiver::receive_random` after the base OTs: the messages (each thread of
the pool sends its row when it is done, so they may go out in any order), the OTs and the new
state.  `none` is the assertion on the number of choices.  `H` is conversion to a block followed by
`cr_hash_block`. -/
def receiveExt {σ B T : Type} (g : Prg σ) (H : List Bool → B) (st : ReceiverSt σ)
    (choices : List Bool) : Option (List (ExtMsg T) × List B × ReceiverSt σ) :=
  if choices.length % 8 = 0 then
    let rows := st.rngs.map (receiverRow g choices)
    some (rows.mapIdx (fun i r => .uRow i r.2.1),
      (transpose (rows.map (·.1)) choices.length).map H, ⟨rows.map (·.2.2)⟩)
  else none

/-- ot_ext/mod.rs:130-151 the sender's loop over the incoming rows; `total` is `BASE_OT_COUNT`.  At
the end of the list the channel is closed and the loop ends.  `none` is a panic (row index out of
range). -/
def senderLoop {T : Type} (choices : List Bool) (total : Nat) :
    Nat → List (List Bool) → List (Ev (ExtMsg T)) →
    Option (Except Err (List (List Bool) × List (Ev (ExtMsg T))))
  | _, v, [] => some (.ok (v, []))
  | _, _, .recvError :: _ => some (.error .receive)
  | received, v, .msg (.uRow idx row) :: evs =>
    match choices[idx]?, v[idx]? with
    | some r, some vRow =>
      let row := if r then row else List.replicate row.length false
      let v := v.set idx (xorInto vRow row)
      if received + 1 = total then some (.ok (v, evs))
      else senderLoop choices total (received + 1) v evs
    | _, _ => none
  | _, _, .msg _ :: _ => some (.error .wrongOrder)

/-- ot_ext/mod.rs:91-173 `Sender::send_random` after the base OTs; `delta` (111-113) has the bits of
the base choices. Returns the OTs, the new state and the events not consumed. -/
def sendExt {σ B T : Type} (g : Prg σ) (H : List Bool → B) (st : SenderSt σ) (count : Nat)
    (evs : List (Ev (ExtMsg T))) :
    Option (Except Err (List (B × B) × SenderSt σ × List (Ev (ExtMsg T)))) :=
  if count % 8 = 0 then
    let v := st.rngs.map fun s => g.fill s (count / 8)
    (senderLoop st.choices st.choices.length 0 (v.map (·.1)) evs).map fun r =>
      r.map fun (v', rest) =>
        ((transpose v' count).map fun col => (H col, H (List.zipWith xor col st.choices)),
          ⟨v.map (·.2), st.choices⟩, rest)
  else none

/-! ### Specification -/

/-- The sender's generators are those selected by its choices among the receiver's pairs, as base
OTs provide. -/
def Synced {σ : Type} (s : SenderSt σ) (r : ReceiverSt σ) : Prop :=
  s.choices.length = r.rngs.length ∧
    s.rngs = List.zipWith (fun (p : σ × σ) c => if c then p.2 else p.1) r.rngs s.choices

/-- The receiver's outputs are those selected by its choices. -/
def chosen {B : Type} (pairs : List (B × B)) (choices : List Bool) : List B :=
  List.zipWith (fun (m : B × B) c => if c then m.2 else m.1) pairs choices

/-! ### Lemmas -/

theorem xorInto_length (v u : List Bool) : (xorInto v u).length = v.length := by
  induction v generalizing u with
  | nil => cases u <;> rfl
  | cons x v ih => cases u <;> simp [xorInto, ih]

theorem xorInto_getD (v u : List Bool) (j : Nat) (h : j < v.length) :
    (xorInto v u).getD j false = xor (v.getD j false) (u.getD j false) := by
  induction v generalizing u j with
  | nil => simp at h
  | cons x v ih =>
    cases u with
    | nil => simp [xorInto]
    | cons y u =>
      cases j with
      | zero => simp [xorInto]
      | succ j =>
        simp only [List.length_cons, Nat.add_lt_add_iff_right] at h
        simpa [xorInto] using ih u j h

/-- What the row messages do to the matrix. -/
def applyRows (choices : List Bool) (v : List (List Bool)) (ms : List (Nat × List Bool)) :
    List (List Bool) :=
  ms.foldl (fun v m =>
    v.set m.1 (xorInto (v.getD m.1 [])
      (if choices.getD m.1 false then m.2 else List.replicate m.2.length false))) v

theorem applyRows_length (choices : List Bool) (ms : List (Nat × List Bool))
    (v : List (List Bool)) : (applyRows choices v ms).length = v.length := by
  induction ms generalizing v with
  | nil => rfl
  | cons m ms ih => simp only [applyRows, List.foldl_cons] at ih ⊢; rw [ih]; simp

theorem senderLoop_rows {T : Type} (choices : List Bool) (total : Nat)
    (ms : List (Nat × List Bool)) (hne : ms ≠ []) (received : Nat)
    (ht : received + ms.length = total) (v : List (List Bool)) (hv : v.length = choices.length)
    (hi : ∀ m ∈ ms, m.1 < choices.length) (rest : List (Ev (ExtMsg T))) :
    senderLoop choices total received v
      (ms.map (fun m => Ev.msg (ExtMsg.uRow m.1 m.2)) ++ rest) =
      some (.ok (applyRows choices v ms, rest)) := by
  induction ms generalizing received v with
  | nil => exact absurd rfl hne
  | cons m ms ih =>
    have h1 : m.1 < choices.length := hi m (by simp)
    have h2 : m.1 < v.length := hv ▸ h1
    simp only [List.map_cons, List.cons_append, senderLoop, List.getElem?_eq_getElem h1,
      List.getElem?_eq_getElem h2, List.length_cons] at ht ⊢
    by_cases he : ms = []
    · subst he
      simp only [List.length_nil, Nat.zero_add] at ht
      simp [ht, applyRows, List.getElem?_eq_getElem h1, List.getElem?_eq_getElem h2]
    · have hpos : 0 < ms.length := List.length_pos_of_ne_nil he
      rw [if_neg (by omega), ih he (received + 1) (by omega) _ (by simp [hv])
        (fun x hx => hi x (by simp [hx]))]
      simp [applyRows, List.getElem?_eq_getElem h1, List.getElem?_eq_getElem h2]

theorem applyRows_other (choices : List Bool) (ms : List (Nat × List Bool)) (v : List (List Bool))
    (i : Nat) (h : ∀ m ∈ ms, m.1 ≠ i) : (applyRows choices v ms)[i]? = v[i]? := by
  induction ms generalizing v with
  | nil => rfl
  | cons m ms ih =>
    simp only [applyRows, List.foldl_cons] at ih ⊢
    rw [ih _ fun x hx => h x (by simp [hx])]
    rw [List.getElem?_set_ne (h m (by simp))]

theorem applyRows_get (choices : List Bool) (ms : List (Nat × List Bool)) (v : List (List Bool))
    (hd : (ms.map (·.1)).Nodup) (i : Nat) (row : List Bool) (h : (i, row) ∈ ms)
    (hi : i < v.length) :
    (applyRows choices v ms)[i]? = some (xorInto (v.getD i [])
      (if choices.getD i false then row else List.replicate row.length false)) := by
  induction ms generalizing v with
  | nil => simp at h
  | cons m ms ih =>
    simp only [List.map_cons, List.nodup_cons] at hd
    rcases List.mem_cons.1 h with rfl | h
    · have : applyRows choices v ((i, row) :: ms) = applyRows choices (v.set i (xorInto (v.getD i [])
          (if choices.getD i false then row else List.replicate row.length false))) ms := rfl
      rw [this, applyRows_other]
      · rw [List.getElem?_set_self hi]
      · intro x hx e
        exact hd.1 (List.mem_map.2 ⟨x, hx, e⟩)
    · have hne : m.1 ≠ i := fun e => hd.1 (List.mem_map.2 ⟨(i, row), h, e.symm⟩)
      have : applyRows choices v (m :: ms) = applyRows choices (v.set m.1 (xorInto (v.getD m.1 [])
          (if choices.getD m.1 false then m.2 else List.replicate m.2.length false))) ms := rfl
      rw [this, ih _ hd.2 h (by simpa using hi)]
      congr 2
      simp [List.getD_eq_getElem?_getD, List.getElem?_set_ne hne]

/-- The heart of the protocol: with synced generators, after all rows were applied in any order, each
column of the sender's matrix is the receiver's column plus `Δ` where the choice is set. -/
theorem column_rel {σ : Type} (g : Prg σ) {s : SenderSt σ} {r : ReceiverSt σ} (hs : Synced s r)
    (choices : List Bool) (count : Nat) (hc : count ≤ choices.length) (h8 : choices.length % 8 = 0)
    (hpre : ∀ x, (g.fill x (count / 8)).1 = (g.fill x (choices.length / 8)).1.take count)
    (ms : List (Nat × List Bool))
    (hp : ms.Perm ((r.rngs.map (receiverRow g choices)).mapIdx fun i x => (i, x.2.1)))
    (j : Nat) (hj : j < count) :
    column (applyRows s.choices ((s.rngs.map fun x => g.fill x (count / 8)).map (·.1)) ms) j =
      List.zipWith xor (column ((r.rngs.map (receiverRow g choices)).map (·.1)) j)
        (s.choices.map fun d => d && choices.getD j false) := by
  obtain ⟨hl, hr⟩ := hs
  have hlen : s.rngs.length = r.rngs.length := by simp [hr, hl]
  have hfill : ∀ x, (g.fill x (choices.length / 8)).1.length = choices.length := by
    intro x; rw [g.length]; omega
  have hfc : ∀ x, (g.fill x (count / 8)).1.length = count := by
    intro x; rw [hpre, List.length_take, hfill]; omega
  have hnd : (ms.map (·.1)).Nodup := by
    have : (ms.map (·.1)).Perm (List.range r.rngs.length) := by
      refine (hp.map _).trans (List.Perm.of_eq ?_)
      apply List.ext_getElem
      · simp
      · intro i h1 h2; simp
    exact this.nodup_iff.2 List.nodup_range
  apply List.ext_getElem
  · simp [column, applyRows_length, hl, hlen]
  · intro i h1 h2
    have hi : i < r.rngs.length := by
      simpa [column, applyRows_length, hlen] using h1
    have hi' : i < s.rngs.length := hlen ▸ hi
    have hic : i < s.choices.length := hl ▸ hi
    have hmem : (i, (receiverRow g choices r.rngs[i]).2.1) ∈ ms := by
      rw [hp.mem_iff, List.mem_iff_getElem]
      exact ⟨i, by simpa using hi, by simp⟩
    have hget := applyRows_get s.choices ms ((s.rngs.map fun x => g.fill x (count / 8)).map (·.1))
      hnd i _ hmem (by simpa using hi')
    have hlt : i < (applyRows s.choices
        ((s.rngs.map fun x => g.fill x (count / 8)).map (·.1)) ms).length := by
      simpa [applyRows_length] using hi'
    rw [List.getElem?_eq_getElem hlt, Option.some.injEq] at hget
    simp only [column, List.getElem_map, List.getElem_zipWith]
    rw [hget]
    have hsi : s.rngs[i] = if s.choices[i] then r.rngs[i].2 else r.rngs[i].1 := by
      simp [hr]
    have hrow : ((s.rngs.map fun x => g.fill x (count / 8)).map (·.1)).getD i [] =
        (g.fill s.rngs[i] (count / 8)).1 := by
      simp [List.getD_eq_getElem?_getD, List.getElem?_eq_getElem hi']
    have hci : s.choices.getD i false = s.choices[i] := by
      simp [List.getD_eq_getElem?_getD, List.getElem?_eq_getElem hic]
    have hjl : j < choices.length := by omega
    have htake : ∀ x, ((g.fill x (count / 8)).1).getD j false =
        ((g.fill x (choices.length / 8)).1).getD j false := by
      intro x
      rw [hpre]
      simp [List.getD_eq_getElem?_getD, List.getElem?_take, hj]
    rw [hrow, hci, xorInto_getD _ _ _ (by rw [hfc]; exact hj), htake, hsi]
    have hu : (receiverRow g choices r.rngs[i]).2.1.getD j false =
        xor ((g.fill r.rngs[i].2 (choices.length / 8)).1.getD j false)
          (xor ((g.fill r.rngs[i].1 (choices.length / 8)).1.getD j false)
            (choices.getD j false)) := by
      simp only [receiverRow]
      rw [xorInto_getD _ _ _ (by rw [hfill]; exact hjl),
        xorInto_getD _ _ _ (by rw [hfill]; exact hjl)]
    cases hd : s.choices[i] with
    | false =>
      simp only [Bool.false_eq_true, if_false, Bool.false_and, Bool.xor_false]
      have : (List.replicate (receiverRow g choices r.rngs[i]).2.1.length false).getD j false =
          false := by
        simp only [List.getD_eq_getElem?_getD, List.getElem?_replicate]
        split <;> rfl
      rw [this, Bool.xor_false]; rfl
    | true =>
      simp only [if_true, Bool.true_and, hu]
      simp only [receiverRow]
      generalize (g.fill r.rngs[i].1 (choices.length / 8)).1.getD j false = x
      generalize (g.fill r.rngs[i].2 (choices.length / 8)).1.getD j false = y
      generalize choices.getD j false = z
      revert x y z; decide

theorem zipWith_xor_false (l d : List Bool) (h : d.length = l.length) :
    List.zipWith xor l (d.map fun x => x && false) = l := by
  induction l generalizing d with
  | nil => simp
  | cons x l ih => cases d with
    | nil => simp at h
    | cons y d => simp only [List.length_cons, Nat.add_right_cancel_iff] at h
                  rw [List.map_cons, List.zipWith_cons_cons, ih d h]; simp

theorem zipWith_xor_twice (l d : List Bool) (h : d.length = l.length) :
    List.zipWith xor (List.zipWith xor l (d.map fun x => x && true)) d = l := by
  induction l generalizing d with
  | nil => simp
  | cons x l ih => cases d with
    | nil => simp at h
    | cons y d => simp only [List.length_cons, Nat.add_right_cancel_iff] at h
                  rw [List.map_cons, List.zipWith_cons_cons, List.zipWith_cons_cons, ih d h]; simp

/-- One batch, with `count` OTs at the sender and possibly more choices at the receiver, whose
generators then have to be prefix consistent.  For every order of arrival of the rows. -/
theorem batch_general {σ B T : Type} (g : Prg σ) (H : List Bool → B) {s : SenderSt σ}
    {r : ReceiverSt σ} (hs : Synced s r) (hpos : 0 < s.choices.length) (choices : List Bool)
    (h8 : choices.length % 8 = 0) (count : Nat) (hc : count ≤ choices.length)
    (hc8 : count % 8 = 0)
    (hpre : ∀ x, (g.fill x (count / 8)).1 = (g.fill x (choices.length / 8)).1.take count) :
    ∃ msgs recv r', receiveExt (T := T) g H r choices = some (msgs, recv, r') ∧
      recv.length = choices.length ∧
      ∀ (arrived : List (ExtMsg T)) (rest : List (Ev (ExtMsg T))), arrived.Perm msgs →
        ∃ pairs s', sendExt g H s count (arrived.map .msg ++ rest) = some (.ok (pairs, s', rest)) ∧
          pairs.length = count ∧ recv.take count = chosen pairs (choices.take count) ∧
          (count = choices.length → Synced s' r' ∧ s'.choices = s.choices) := by
  have hl : s.choices.length = r.rngs.length := hs.1
  have hlen : s.rngs.length = r.rngs.length := by rw [hs.2]; simp [hs.1]
  refine ⟨_, _, _, if_pos h8, by simp [transpose], ?_⟩
  intro arrived rest hperm
  -- the messages are rows
  have hrows : ∃ ms : List (Nat × List Bool), arrived = ms.map (fun m => ExtMsg.uRow m.1 m.2) ∧
      ms.Perm ((r.rngs.map (receiverRow g choices)).mapIdx fun i x => (i, x.2.1)) := by
    have e : ((r.rngs.map (receiverRow g choices)).mapIdx fun i x => (ExtMsg.uRow i x.2.1 : ExtMsg T)) =
        (((r.rngs.map (receiverRow g choices)).mapIdx fun i x => (i, x.2.1)).map
          fun m => ExtMsg.uRow m.1 m.2) := by
      apply List.ext_getElem
      · simp
      · intro i h1 h2; simp
    rw [e] at hperm
    let f : ExtMsg T → Nat × List Bool := fun m => match m with
      | .uRow i x => (i, x)
      | _ => (0, [])
    refine ⟨arrived.map f, ?_, ?_⟩
    · rw [List.map_map]
      conv_lhs => rw [← List.map_id arrived]
      apply List.map_congr_left
      intro m hm
      obtain ⟨x, _, rfl⟩ := List.mem_map.1 (hperm.mem_iff.1 hm)
      rfl
    · refine (hperm.map f).trans (List.Perm.of_eq ?_)
      rw [List.map_map]
      conv_rhs => rw [← List.map_id (((r.rngs.map (receiverRow g choices)).mapIdx
        fun i x => (i, x.2.1)))]
      rfl
  obtain ⟨ms, rfl, hms⟩ := hrows
  have hml : ms.length = s.choices.length := by rw [hms.length_eq, hl]; simp
  have hloop := senderLoop_rows (T := T) s.choices s.choices.length ms
    (by intro e; rw [e] at hml; simp at hml; omega) 0 (by omega)
    ((s.rngs.map fun x => g.fill x (count / 8)).map (·.1)) (by simp [hl, hlen])
    (by
      intro m hm
      obtain ⟨i, hi, e⟩ := List.mem_iff_getElem.1 (hms.mem_iff.1 hm)
      simp only [List.length_mapIdx, List.length_map] at hi
      rw [← e]; simpa [hl] using hi) rest
  refine ⟨(transpose (applyRows s.choices ((s.rngs.map fun x => g.fill x (count / 8)).map (·.1)) ms)
      count).map fun col => (H col, H (List.zipWith xor col s.choices)),
    ⟨(s.rngs.map fun x => g.fill x (count / 8)).map (·.2), s.choices⟩, ?_, by simp [transpose],
    ?_, ?_⟩
  · unfold sendExt
    rw [if_pos hc8]
    simp only [List.map_map] at hloop ⊢
    rw [show (Ev.msg ∘ fun (m : Nat × List Bool) => (ExtMsg.uRow m.1 m.2 : ExtMsg T)) =
      fun m => Ev.msg (ExtMsg.uRow m.1 m.2) from rfl, hloop]
    rfl
  · apply List.ext_getElem
    · simp [transpose, chosen]
    · intro j h1 h2
      have hj : j < count := by simp [transpose] at h1; omega
      have hjc : j < choices.length := by omega
      have hcol := column_rel g hs choices count hc h8 hpre ms hms j hj
      have hcl : s.choices.length = (column ((r.rngs.map (receiverRow g choices)).map (·.1)) j).length := by
        simp [column, hl]
      have hcj : choices.getD j false = choices[j] := by
        simp [List.getD_eq_getElem?_getD, List.getElem?_eq_getElem hjc]
      rw [hcj] at hcol
      simp only [List.getElem_take, List.getElem_map, transpose, List.getElem_range, chosen,
        List.getElem_zipWith]
      rw [hcol]
      cases hcj2 : choices[j] with
      | false => simp only [Bool.false_eq_true, if_false]; rw [zipWith_xor_false _ _ hcl]
      | true => simp only [if_true]; rw [zipWith_xor_twice _ _ hcl]
  · rintro rfl
    refine ⟨⟨by simp [hl], ?_⟩, rfl⟩
    apply List.ext_getElem
    · simp [hl, hlen]
    · intro i h1 h2
      have hi : i < r.rngs.length := by simpa [hlen] using h1
      have hsi : s.rngs[i]'(hlen ▸ hi) = if s.choices[i]'(hl ▸ hi) then r.rngs[i].2 else r.rngs[i].1 := by
        simp [hs.2]
      simp only [List.getElem_map, List.getElem_zipWith, hsi, receiverRow]
      split <;> rfl

end Verif.Ot
