import Verif.Mail.Search

/-!
Lemmas for C66: the loops over keywords and mails, the input and output gates.
-/
set_option autoImplicit false

namespace Verif.Mail

open Circuit Gmw Secret Exec

/-! ### Specification -/

/-- Combine the result `r` of the keywords before number `j` with the results `fs` of the keywords
from `j` on: bit `2j - 1` of the modifier chain says whether to use OR, bit `2j` negates the
keyword. -/
def chain (m : Nat → Bool) : Nat → List Bool → Bool → Bool
  | _, [], r => r
  | j, f :: fs, r =>
    chain m (j + 1) fs (if m (2 * j - 1) then r || (f ^^ m (2 * j)) else r && (f ^^ m (2 * j)))

/-- The result for one mail from the results for the keywords: bit 0 negates the first keyword. -/
def answer (m : Nat → Bool) : List Bool → Bool
  | [] => false
  | f :: fs => chain m 1 fs (f ^^ m 0)

/-! ### Loops -/

theorem mail_loop_zero (modifier : List Sec) (kw : List (List Sec)) (hne : kw ≠ []) (m : Sec)
    (hm : modifier[0]? = some m) (targets : List (List (List Sec))) (b : Builder)
    (h0 : 0 < b.length) (hb : Ok b) (hv : Valid b m ∧ m.1 = 0) (hk : Text b kw)
    (ht : ∀ t ∈ targets, Text b t) (results : List Sec) (i : Nat) :
    ∃ b' rs, mailLoop modifier 0 kw b results i targets = some (b', results ++ rs) ∧
      Made b b' (targets.map fun t => searchCost kw.length t.length).sum ∧
      List.Forall₂ (Holds b') rs
        (targets.map fun t val => decide (six val kw <:+: six val t) ^^ val m) := by
  induction targets generalizing b results i with
  | nil => exact ⟨b, [], by simp [mailLoop], .refl h0 hb, .nil⟩
  | cons t ts ih =>
    obtain ⟨b1, r1, e1, m1, h1⟩ := perMail_made b h0 hb kw t hk (ht t List.mem_cons_self) hne
    obtain ⟨b2, r2, e2, m2, h2⟩ := xor_made m1.ok h1
      (holds_self (m1.ext.valid hv.1) hv.2)
    have m12 := m1.trans m2
    obtain ⟨b3, rs, e3, m3, h3⟩ := ih b2 m2.pos m2.ok ⟨m12.ext.valid hv.1, hv.2⟩ (hk.mono m12)
      (fun t' h' => (ht t' (List.mem_cons_of_mem _ h')).mono m12) (results ++ [r2]) (i + 1)
    refine ⟨b3, r2 :: rs, ?_, ?_, ?_⟩
    · simp [mailLoop, e1, hm, e2, e3]
    · have := m12.trans m3
      rw [List.map_cons, List.sum_cons]
      simpa using this
    · rw [List.map_cons]
      exact .cons (h2.mono m3) h3

theorem mail_loop_succ (modifier : List Sec) (kw : List (List Sec)) (hne : kw ≠ []) (j : Nat)
    (hj : 0 < j) (o n : Sec) (ho : modifier[2 * j - 1]? = some o) (hn : modifier[2 * j]? = some n)
    (H : List (List Sec) → (Node → Bool) → Bool)
    (targets : List (List (List Sec))) (b : Builder)
    (h0 : 0 < b.length) (hb : Ok b) (hvo : Valid b o ∧ o.1 = 0) (hvn : Valid b n ∧ n.1 = 0)
    (hk : Text b kw) (ht : ∀ t ∈ targets, Text b t) (done pending : List Sec)
    (hp : List.Forall₂ (Holds b) pending (targets.map H)) :
    ∃ b' rs, mailLoop modifier j kw b (done ++ pending) done.length targets = some (b', done ++ rs) ∧
      Made b b' (targets.map fun t => searchCost kw.length t.length + 1).sum ∧
      List.Forall₂ (Holds b') rs
        (targets.map fun t val => if val o then H t val || (decide (six val kw <:+: six val t) ^^ val n)
          else H t val && (decide (six val kw <:+: six val t) ^^ val n)) := by
  induction targets generalizing b done pending with
  | nil =>
    rw [List.map_nil, List.forall₂_nil_right_iff] at hp
    subst hp
    exact ⟨b, [], by simp [mailLoop], .refl h0 hb, .nil⟩
  | cons t ts ih =>
    rw [List.map_cons] at hp
    cases hp with
    | @cons p _ ps _ hp hps =>
    obtain ⟨b1, r1, e1, m1, h1⟩ := perMail_made b h0 hb kw t hk (ht t List.mem_cons_self) hne
    obtain ⟨b2, r2, e2, m2, h2⟩ := chaining_made b1 m1.ok p r1 o n _ _ _ _ (hp.mono m1) h1
      (holds_self (m1.ext.valid hvo.1) hvo.2) (holds_self (m1.ext.valid hvn.1) hvn.2)
    have m12 := m1.trans m2
    obtain ⟨b3, rs, e3, m3, h3⟩ := ih b2 m2.pos m2.ok ⟨m12.ext.valid hvo.1, hvo.2⟩
      ⟨m12.ext.valid hvn.1, hvn.2⟩ (hk.mono m12)
      (fun t' h' => (ht t' (List.mem_cons_of_mem _ h')).mono m12) (done ++ [r2]) ps
      (hps.imp fun _ _ h => h.mono m12)
    refine ⟨b3, r2 :: rs, ?_, ?_, ?_⟩
    · have hset : (done ++ p :: ps).set done.length r2 = (done ++ [r2]) ++ ps := by
        rw [List.set_append_right _ _ (Nat.le_refl _)]
        simp
      have hlen : (done ++ [r2]).length = done.length + 1 := by simp
      rw [hlen] at e3
      have hj' : j ≠ 0 := by omega
      have hget : (done ++ p :: ps)[done.length]? = some p := by simp
      simp only [mailLoop, e1, Option.bind_eq_bind, Option.bind_some, hj', if_false, ho, hn, e2,
        hset, e3, hget]
      simp
    · have := m12.trans m3
      rw [List.map_cons, List.sum_cons]
      exact this
    · rw [List.map_cons]
      exact .cons (h2.mono m3) h3

/-- The number of AND gates of the whole search, from the lengths of keywords and mails. -/
def cost (keywords mails : List Nat) : Nat :=
  (keywords.map fun m => (mails.map fun n => searchCost m n).sum).sum +
    (keywords.length - 1) * mails.length

theorem keyword_loop_succ (modifier : List Sec) (targets : List (List (List Sec)))
    (kws : List (List (List Sec))) (hne : ∀ kw ∈ kws, kw ≠ []) (j : Nat) (hj : 0 < j)
    (hmod : 2 * (j + kws.length) - 1 ≤ modifier.length) (b : Builder) (h0 : 0 < b.length)
    (hb : Ok b) (hv : ∀ s ∈ modifier, Valid b s ∧ s.1 = 0) (hk : ∀ kw ∈ kws, Text b kw)
    (ht : ∀ t ∈ targets, Text b t) (H : List (List Sec) → (Node → Bool) → Bool) (results : List Sec)
    (hr : List.Forall₂ (Holds b) results (targets.map H)) :
    ∃ b' rs, keywordLoop modifier targets b results j kws = some (b', rs) ∧
      Made b b' (kws.map fun kw =>
        (targets.map fun t => searchCost kw.length t.length + 1).sum).sum ∧
      List.Forall₂ (Holds b') rs (targets.map fun t val =>
        chain (fun i => (modifier.map val).getD i false) j
          (kws.map fun kw => decide (six val kw <:+: six val t)) (H t val)) := by
  induction kws generalizing j b H results with
  | nil => exact ⟨b, results, rfl, .refl h0 hb, hr⟩
  | cons kw kws ih =>
    rw [List.length_cons] at hmod
    have l1 : 2 * j - 1 < modifier.length := by omega
    have l2 : 2 * j < modifier.length := by omega
    have g1 := List.getElem?_eq_getElem l1
    have g2 := List.getElem?_eq_getElem l2
    obtain ⟨b1, r1, e1, m1, h1⟩ := mail_loop_succ modifier kw (hne kw List.mem_cons_self) j hj
      _ _ g1 g2 H targets b h0 hb (hv _ (List.getElem_mem l1)) (hv _ (List.getElem_mem l2))
      (hk kw List.mem_cons_self) ht [] results hr
    simp only [List.nil_append, List.length_nil] at e1
    obtain ⟨b2, r2, e2, m2, h2⟩ := ih (fun k hk' => hne k (List.mem_cons_of_mem _ hk')) (j + 1)
      (by omega) (by omega) b1 m1.pos m1.ok (fun s hs => ⟨m1.ext.valid (hv s hs).1, (hv s hs).2⟩)
      (fun k hk' => (hk k (List.mem_cons_of_mem _ hk')).mono m1) (fun t h => (ht t h).mono m1) _ r1 h1
    refine ⟨b2, r2, by simp [keywordLoop, e1, e2], ?_, ?_⟩
    · rw [List.map_cons, List.sum_cons]
      exact m1.trans m2
    · convert h2 using 4 with t val
      rw [List.map_cons, chain]
      have a1 : (modifier.map val).getD (2 * j - 1) false = val modifier[2 * j - 1] := by
        simp [List.getD_eq_getElem?_getD, g1]
      have a2 : (modifier.map val).getD (2 * j) false = val modifier[2 * j] := by
        simp [List.getD_eq_getElem?_getD, g2]
      simp only [a1, a2]

theorem keyword_loop (modifier : List Sec) (targets : List (List (List Sec)))
    (kws : List (List (List Sec))) (hk0 : kws ≠ []) (hne : ∀ kw ∈ kws, kw ≠ [])
    (hmod : 2 * kws.length - 1 ≤ modifier.length) (b : Builder) (h0 : 0 < b.length)
    (hb : Ok b) (hv : ∀ s ∈ modifier, Valid b s ∧ s.1 = 0) (hk : ∀ kw ∈ kws, Text b kw)
    (ht : ∀ t ∈ targets, Text b t) :
    ∃ b' rs, keywordLoop modifier targets b [] 0 kws = some (b', rs) ∧
      Made b b' (cost (kws.map List.length) (targets.map List.length)) ∧
      List.Forall₂ (Holds b') rs (targets.map fun t val =>
        answer (fun i => (modifier.map val).getD i false)
          (kws.map fun kw => decide (six val kw <:+: six val t))) := by
  cases kws with
  | nil => simp at hk0
  | cons kw kws =>
    rw [List.length_cons] at hmod
    have l0 : 0 < modifier.length := by omega
    have g0 := List.getElem?_eq_getElem l0
    obtain ⟨b1, r1, e1, m1, h1⟩ := mail_loop_zero modifier kw (hne kw List.mem_cons_self) _ g0
      targets b h0 hb (hv _ (List.getElem_mem l0)) (hk kw List.mem_cons_self) ht [] 0
    rw [List.nil_append] at e1
    obtain ⟨b2, r2, e2, m2, h2⟩ := keyword_loop_succ modifier targets kws
      (fun k hk' => hne k (List.mem_cons_of_mem _ hk')) 1 (by omega) (by omega) b1 m1.pos m1.ok
      (fun s hs => ⟨m1.ext.valid (hv s hs).1, (hv s hs).2⟩)
      (fun k hk' => (hk k (List.mem_cons_of_mem _ hk')).mono m1) (fun t h => (ht t h).mono m1) _ r1 h1
    refine ⟨b2, r2, by simp [keywordLoop, e1, e2], ?_, ?_⟩
    · have := m1.trans m2
      convert this using 1
      rw [cost, List.map_cons, List.map_cons, List.sum_cons, List.map_map, List.map_map,
        List.length_cons, List.length_map, List.length_map, Nat.add_sub_cancel, Nat.add_assoc]
      congr 1
      induction kws with
      | nil => simp
      | cons k ks ih =>
        clear ih
        have : ∀ ks : List (List (List Sec)),
            (ks.map ((fun m => ((targets.map List.length).map fun n => searchCost m n).sum) ∘ List.length)).sum
              + ks.length * targets.length =
            (ks.map fun kw => (targets.map fun t => searchCost kw.length t.length + 1).sum).sum := by
          intro ks
          induction ks with
          | nil => simp
          | cons k ks ih =>
            have one : ∀ ts : List (List (List Sec)),
                ((ts.map List.length).map fun n => searchCost k.length n).sum + ts.length =
                (ts.map fun t => searchCost k.length t.length + 1).sum := by
              intro ts
              induction ts with
              | nil => rfl
              | cons t ts ih =>
                simp only [List.map_cons, List.sum_cons, List.length_cons] at ih ⊢
                omega
            have := one targets
            simp only [List.map_cons, List.sum_cons, List.length_cons, Function.comp_apply,
              Nat.succ_mul] at ih ⊢
            rw [← ih, ← this]
            omega
        exact this (k :: ks)
    · convert h2 using 4 with t val
      rw [List.map_cons, answer]
      have a1 : (modifier.map val).getD 0 false = val modifier[0] := by
        simp [List.getD_eq_getElem?_getD, g0]
      simp only [a1]

end Verif.Mail
