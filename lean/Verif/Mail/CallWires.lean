import Verif.Mail.CallLoop
import Verif.Cbc.CallProg

/-!
Lemmas for C78: the wires passed in the calls respect the restrictions of the connection maps.
-/
set_option autoImplicit false

namespace Verif.Mail

open Circuit Gmw Macro Exec

theorem comp_runs (n ks b p : Nat) (hn : 0 < n) (h : ks + 8 * n < b) :
    runs ((CallRec.args ⟨0, [List.range' ks (8 * n), List.range' b (8 * n)], p⟩).flatten.map fun g => ((0 : Nat), g)) =
      [⟨0, ks, ks + (8 * n - 1)⟩, ⟨0, b, b + (8 * n - 1)⟩] := by
  obtain ⟨m, hm⟩ : ∃ m, 8 * n = m + 1 := ⟨8 * n - 1, by omega⟩
  simp only [List.flatten_cons, List.flatten_nil, List.append_nil, List.map_append, hm, Nat.add_sub_cancel]
  exact Cbc.runs_append 0 ks m _ _ _ (runs_range' 0 b m) (by simp; omega)

theorem comp_runs_merged (n ks p : Nat) (hn : 0 < n) :
    runs ((CallRec.args ⟨0, [List.range' ks (8 * n), List.range' (ks + 8 * n) (8 * n)], p⟩).flatten.map
      fun g => ((0 : Nat), g)) = [⟨0, ks, ks + (16 * n - 1)⟩] := by
  obtain ⟨m, hm⟩ : ∃ m, 8 * n + 8 * n = m + 1 := ⟨8 * n + 8 * n - 1, by omega⟩
  have := runs_range' 0 ks m
  simp only [List.flatten_cons, List.flatten_nil, List.append_nil]
  rw [List.range'_append_1, hm, this, show 16 * n - 1 = m by omega]

theorem or_runs (p m q : Nat) (hm : 0 < m) :
    runs ((CallRec.args ⟨1, [List.range' p m], q⟩).flatten.map fun g => ((0 : Nat), g)) = [⟨0, p, p + (m - 1)⟩] := by
  obtain ⟨k, rfl⟩ : ∃ k, m = k + 1 := ⟨m - 1, by omega⟩
  simp only [List.flatten_cons, List.flatten_nil, List.append_nil, Nat.add_sub_cancel]
  exact runs_range' 0 p k

section

variable (N n L : Nat)

/-- A keyword, a window that starts at `lo` or later, or results of comparisons made between `p` and `q`. -/
def Cls (lo p q : Nat) (x : GRange) : Prop :=
  (x.hi + 1 = x.lo + 8 * n ∧ x.hi < N ∧ (x.lo ≤ L ∨ lo ≤ x.lo)) ∨ (p ≤ x.lo ∧ x.lo ≤ x.hi ∧ x.hi < q)

structure Blk (lo p q : Nat) (l : List GRange) : Prop where
  cls : ∀ x ∈ l, Cls N n L lo p q x
  pair : l.Pairwise fun a b => ¬ Nested a b

end

variable {N n L : Nat}

theorem Cls.mono {lo p q lo' p' q' : Nat} {x : GRange} (h : Cls N n L lo p q x) (hlo : lo' ≤ lo) (hp : p' ≤ p)
    (hq : q ≤ q') : Cls N n L lo' p' q' x := by
  unfold Cls at h ⊢
  omega

theorem Cls.not_nested {lo p q lo' r : Nat} {x y : GRange} (hN : N ≤ p) (hpq : p ≤ q)
    (hx : Cls N n L lo p q x) (hy : Cls N n L lo' q r y) : ¬ Nested x y := by
  unfold Cls at hx hy
  unfold Nested
  omega

theorem Blk.nil (lo p q : Nat) : Blk N n L lo p q [] := ⟨by simp, by simp⟩

theorem Blk.mono {lo p q lo' p' q' : Nat} {l : List GRange} (h : Blk N n L lo p q l) (hlo : lo' ≤ lo) (hp : p' ≤ p)
    (hq : q ≤ q') : Blk N n L lo' p' q' l :=
  ⟨fun x hx => (h.cls x hx).mono hlo hp hq, h.pair⟩

theorem Blk.append {lo p q r : Nat} {a b : List GRange} (hN : N ≤ p) (hpq : p ≤ q) (hqr : q ≤ r)
    (ha : Blk N n L lo p q a) (hb : Blk N n L lo q r b) : Blk N n L lo p r (a ++ b) := by
  refine ⟨?_, ?_⟩
  · intro x hx
    rcases List.mem_append.1 hx with h | h
    · exact (ha.cls x h).mono (Nat.le_refl _) (Nat.le_refl _) hqr
    · exact (hb.cls x h).mono (Nat.le_refl _) hpq (Nat.le_refl _)
  · rw [List.pairwise_append]
    exact ⟨ha.pair, hb.pair, fun x hx y hy => (ha.cls x hx).not_nested hN hpq (hb.cls y hy)⟩

theorem blk_or (lo p q m : Nat) (hm : 0 < m) : Blk N n L lo p (p + m) (argRuns [⟨1, [List.range' p m], q⟩]) := by
  simp only [argRuns, List.flatMap_cons, List.flatMap_nil, List.append_nil, or_runs p m q hm]
  refine ⟨?_, by simp⟩
  intro x hx
  simp only [List.mem_cons, List.not_mem_nil, or_false] at hx
  subst hx
  right
  simp only
  omega

theorem blk_comp (hn : 0 < n) (lo p ks b : Nat) (h : ks + 8 * n < b) (hks : ks ≤ L) (hlo : lo ≤ b)
    (hb : b + 8 * n ≤ N) :
    Blk N n L lo p p (argRuns [⟨0, [List.range' ks (8 * n), List.range' b (8 * n)], p⟩]) := by
  simp only [argRuns, List.flatMap_cons, List.flatMap_nil, List.append_nil, comp_runs n ks b p hn h]
  refine ⟨?_, ?_⟩
  · intro x hx
    simp only [List.mem_cons, List.not_mem_nil, or_false] at hx
    left
    rcases hx with rfl | rfl
    · simp only; omega
    · simp only; omega
  · simp only [List.pairwise_cons, List.mem_cons, List.not_mem_nil, or_false, forall_eq, List.Pairwise.nil, and_true]
    refine ⟨?_, by simp⟩
    unfold Nested
    simp only
    omega

theorem argRuns_append (a b : List CallRec) : argRuns (a ++ b) = argRuns a ++ argRuns b := by
  simp [argRuns]

theorem argRuns_cons (a : CallRec) (b : List CallRec) : argRuns (a :: b) = argRuns [a] ++ argRuns b :=
  argRuns_append [a] b

theorem blk_comps (hn : 0 < n) (lo ks t : Nat) (hks : ks ≤ L) (m p i : Nat) (hN : N ≤ p)
    (h : ks + 8 * n < t + 8 * i) (hlo : lo ≤ t + 8 * i) (ht : t + 8 * (i + m) + 8 * n ≤ N + 8) :
    Blk N n L lo p p (argRuns (compCalls n ks t p i m)) := by
  suffices ∀ p0, N ≤ p0 → Blk N n L lo p0 p0 (argRuns (compCalls n ks t p i m)) from this p hN
  clear hN
  induction m generalizing p i with
  | zero => intro p0 _; exact Blk.nil _ _ _
  | succ m ih =>
    intro p0 hp0
    rw [compCalls, argRuns_cons]
    have hb := blk_comp (N := N) (L := L) hn lo p ks (t + 8 * i) h hks hlo (by omega)
    have hb : Blk N n L lo p0 p0 (argRuns [⟨0, [List.range' ks (8 * n), List.range' (t + 8 * i) (8 * n)], p⟩]) := by
      refine ⟨fun x hx => ?_, hb.pair⟩
      have := hb.cls x hx
      rw [argRuns, List.flatMap_cons, comp_runs n ks (t + 8 * i) p hn h] at hx
      simp only [List.flatMap_nil, List.append_nil, List.mem_cons, List.not_mem_nil, or_false] at hx
      left
      rcases hx with rfl | rfl
      · simp only; omega
      · simp only; omega
    exact Blk.append hp0 (Nat.le_refl _) (Nat.le_refl _) hb
      (ih (p + 1) (i + 1) (by omega) (by omega) (by omega) p0 hp0)

theorem blk_search (hn : 0 < n) (lo ks t : Nat) (hks : ks ≤ L) (m p : Nat) (hN : N ≤ p) (hm : 0 < m)
    (h : ks + 8 * n < t) (hlo : lo ≤ t) (ht : t + 8 * m + 8 * n ≤ N + 8) :
    Blk N n L lo p (p + m) (argRuns (searchCalls n ks t m p)) := by
  rw [searchCalls, argRuns_append]
  exact Blk.append hN (Nat.le_refl _) (by omega)
    (blk_comps hn lo ks t hks m p 0 hN (by omega) (by omega) (by omega)) (blk_or lo p _ m hm)

theorem blk_loop (hn : 0 < n) (lo ks extra : Nat) (hks : ks ≤ L) (tg : List (Nat × Nat))
    (ht : ∀ x ∈ tg, n ≤ x.2 ∧ x.1 + 8 * x.2 ≤ N) (hlt : ∀ x ∈ tg, ks + 8 * n < x.1 ∧ lo ≤ x.1) (p : Nat) (hN : N ≤ p) :
    Blk N n L lo p (p + loopGates n extra tg) (argRuns (loopCalls n ks extra p tg)) := by
  induction tg generalizing p with
  | nil => exact Blk.nil _ _ _
  | cons x tg ih =>
    obtain ⟨t, len⟩ := x
    obtain ⟨h1, h2⟩ := ht _ List.mem_cons_self
    obtain ⟨h3, h4⟩ := hlt _ List.mem_cons_self
    simp only at h1 h2 h3 h4
    rw [loopCalls, argRuns_append]
    have hg : loopGates n extra ((t, len) :: tg) = (len + 1 - n + 1 + extra) + loopGates n extra tg := by
      simp [loopGates]
    rw [hg]
    have := ih (fun x hx => ht x (List.mem_cons_of_mem _ hx)) (fun x hx => hlt x (List.mem_cons_of_mem _ hx))
      (p + (len + 1 - n) + 1 + extra) (by omega)
    refine Blk.append hN (by omega) (by omega) ((blk_search hn lo ks t hks (len + 1 - n) p hN (by omega) h3 h4 (by omega)))
      (this.mono (Nat.le_refl _) (by omega) (by omega))

def allGates (n : Nat) (j : Nat) (tg : List (Nat × Nat)) : List Nat → Nat
  | [] => 0
  | _ :: kss => loopGates n (if j = 0 then 1 else 5) tg + allGates n (j + 1) tg kss

theorem allCalls_snoc (n p j : Nat) (pre : List Nat) (l : Nat) (tg : List (Nat × Nat)) :
    allCalls n p j (pre ++ [l]) tg =
      allCalls n p j pre tg ++ loopCalls n l (if j + pre.length = 0 then 1 else 5) (p + allGates n j tg pre) tg := by
  induction pre generalizing p j with
  | nil => simp [allCalls, allGates]
  | cons k pre ih =>
    rw [List.cons_append, allCalls, ih, allCalls, allGates, List.append_assoc, List.length_cons]
    congr 3
    · rw [show j + 1 + pre.length = j + (pre.length + 1) by omega]
    · omega

theorem blk_all (hn : 0 < n) (lo : Nat) (tg : List (Nat × Nat))
    (ht : ∀ x ∈ tg, n ≤ x.2 ∧ x.1 + 8 * x.2 ≤ N) (hlt : ∀ x ∈ tg, L + 8 * n ≤ x.1 ∧ lo ≤ x.1)
    (kss : List Nat) (hk : ∀ k ∈ kss, k + 8 * n ≤ L) (p j : Nat) (hN : N ≤ p) :
    Blk N n L lo p (p + allGates n j tg kss) (argRuns (allCalls n p j kss tg)) := by
  induction kss generalizing p j with
  | nil => exact Blk.nil _ _ _
  | cons k kss ih =>
    have hkk := hk k List.mem_cons_self
    rw [allCalls, argRuns_append, allGates, ← Nat.add_assoc]
    exact Blk.append hN (by omega) (by omega)
      (blk_loop hn lo k _ (by omega) tg ht (fun x hx => ⟨by have := (hlt x hx).1; omega, (hlt x hx).2⟩) p hN)
      (ih (fun k h => hk k (List.mem_cons_of_mem _ h)) _ _ (by omega))

/-- The merged run and what follows it. -/
theorem not_nested_merged {p q : Nat} {x : GRange} (hn : 0 < n) (hN : L + 16 * n ≤ N) (hp : N ≤ p)
    (hx : Cls N n L (L + 8 * n + 1) p q x) : ¬ Nested ⟨0, L, L + (16 * n - 1)⟩ x := by
  unfold Cls at hx
  unfold Nested
  simp only
  omega

/-- What precedes the merged run. -/
theorem not_nested_before {p q : Nat} {x : GRange} (hn : 0 < n) (hN : L + 16 * n ≤ N) (hp : N ≤ p)
    (hx : Cls N n L (L + 8 * n) p q x) : ¬ Nested x ⟨0, L, L + (16 * n - 1)⟩ := by
  unfold Cls at hx
  unfold Nested
  simp only
  omega

theorem all_nested (hn : 0 < n) (pre : List Nat) (hk : ∀ k ∈ pre, k + 8 * n ≤ L) (tg : List (Nat × Nat))
    (ht : ∀ x ∈ tg, n ≤ x.2 ∧ x.1 + 8 * x.2 ≤ N) (hfirst : ∀ x, tg.head? = some x → x.1 = L + 8 * n)
    (hrest : ∀ x ∈ tg.tail, L + 8 * n < x.1) (p : Nat) (hN : N ≤ p) :
    (argRuns (allCalls n p 0 (pre ++ [L]) tg)).Pairwise fun a b => ¬ Nested a b := by
  rw [allCalls_snoc, argRuns_append]
  have hlt : ∀ x ∈ tg, L + 8 * n ≤ x.1 ∧ L + 8 * n ≤ x.1 := by
    cases tg with
    | nil => simp
    | cons y tg =>
      intro x hx
      rcases List.mem_cons.1 hx with rfl | hx
      · have := hfirst x rfl; omega
      · have := hrest x hx; omega
  have h1 := blk_all (N := N) (L := L) hn (L + 8 * n) tg ht hlt pre hk p 0 hN
  cases tg with
  | nil => simpa [loopCalls, argRuns] using h1.pair
  | cons y tg =>
    obtain ⟨t, len⟩ := y
    have hy := hfirst _ rfl
    simp only at hy
    subst hy
    obtain ⟨g1, g2⟩ := ht _ List.mem_cons_self
    simp only at g1 g2
    generalize he : (if 0 + pre.length = 0 then 1 else 5) = e
    generalize hq : p + allGates n 0 ((L + 8 * n, len) :: tg) pre = q at h1
    have hq' : p ≤ q := by omega
    have htail : Blk N n L (L + 8 * n + 1) (q + (len + 1 - n)) (q + (len + 1 - n) + 1 + e + loopGates n e tg)
        (argRuns (loopCalls n L e (q + (len + 1 - n) + 1 + e) tg)) :=
      (blk_loop (N := N) (L := L) hn (L + 8 * n + 1) L e (Nat.le_refl _) tg (fun x hx => ht x (List.mem_cons_of_mem _ hx))
        (fun x hx => by have := hrest x hx; omega) _ (by omega)).mono (Nat.le_refl _) (by omega) (Nat.le_refl _)
    obtain ⟨m, hm⟩ : ∃ m, len + 1 - n = m + 1 := ⟨len - n, by omega⟩
    have hcomps := blk_comps (N := N) (L := L) hn (L + 8 * n + 1) L (L + 8 * n) (Nat.le_refl _) m (q + 1) (0 + 1) (by omega)
      (by omega) (by omega) (by omega)
    have hor := blk_or (N := N) (n := n) (L := L) (L + 8 * n + 1) q (q + (len + 1 - n)) (len + 1 - n) (by omega)
    have hcomps' : Blk N n L (L + 8 * n + 1) q q (argRuns (compCalls n L (L + 8 * n) (q + 1) (0 + 1) m)) := by
      refine ⟨fun x hx => ?_, hcomps.pair⟩
      have h := hcomps.cls x hx
      rcases h with h | h
      · exact .inl h
      · exfalso
        obtain ⟨r, hr, hx⟩ := List.mem_flatMap.1 hx
        have hle := (runs_isRuns _).le x hx
        omega
    have hrest' : Blk N n L (L + 8 * n + 1) q (q + (len + 1 - n) + 1 + e + loopGates n e tg)
        (argRuns (compCalls n L (L + 8 * n) (q + 1) (0 + 1) m) ++
          (argRuns [⟨1, [List.range' q (len + 1 - n)], q + (len + 1 - n)⟩] ++
            argRuns (loopCalls n L e (q + (len + 1 - n) + 1 + e) tg))) :=
      Blk.append (by omega) (Nat.le_refl _) (by omega) hcomps'
        (Blk.append (by omega) (by omega) (by omega) hor htail)
    rw [loopCalls, searchCalls, hm, compCalls, ← hm, argRuns_append, argRuns_append, argRuns_cons, List.append_assoc,
      List.append_assoc]
    generalize hR : argRuns (compCalls n L (L + 8 * n) (q + 1) (0 + 1) m) ++
          (argRuns [⟨1, [List.range' q (len + 1 - n)], q + (len + 1 - n)⟩] ++
            argRuns (loopCalls n L e (q + (len + 1 - n) + 1 + e) tg)) = R at hrest'
    have hM : argRuns [⟨0, [List.range' L (8 * n), List.range' (L + 8 * n + 8 * 0) (8 * n)], q⟩] =
        [⟨0, L, L + (16 * n - 1)⟩] := by
      simp only [argRuns, List.flatMap_cons, List.flatMap_nil, List.append_nil]
      exact comp_runs_merged n L q hn
    rw [hM]
    rw [List.pairwise_append, List.pairwise_append]
    refine ⟨h1.pair, ⟨by simp, hrest'.pair, ?_⟩, ?_⟩
    · intro x hx y hy
      simp only [List.mem_cons, List.not_mem_nil, or_false] at hx
      subst hx
      exact not_nested_merged hn (by omega) (by omega) (hrest'.cls y hy)
    · intro x hx y hy
      rcases List.mem_append.1 hy with hy | hy
      · simp only [List.mem_cons, List.not_mem_nil, or_false] at hy
        subst hy
        exact not_nested_before hn (by omega) hN (h1.cls x hx)
      · exact (h1.cls x hx).not_nested hN hq' (hrest'.cls y hy)

/-! ### Adjacent runs -/

def Heads (r : CallRec) : Prop :=
  (runs (r.args.flatten.map fun g => ((0 : Nat), g))).IsChain fun a b => a.first ≠ b.first

theorem heads_comp (hn : 0 < n) (ks b p : Nat) (h : ks + 8 * n ≤ b) :
    Heads ⟨0, [List.range' ks (8 * n), List.range' b (8 * n)], p⟩ := by
  unfold Heads
  rcases Nat.lt_or_ge (ks + 8 * n) b with h | h'
  · rw [comp_runs n ks b p hn h]
    simp [GRange.first]
    omega
  · obtain rfl : b = ks + 8 * n := by omega
    rw [comp_runs_merged n ks p hn]
    simp

theorem heads_or (p m q : Nat) : Heads ⟨1, [List.range' p m], q⟩ := by
  unfold Heads
  cases m with
  | zero => simp [runs]
  | succ m => rw [or_runs p (m + 1) q (by omega)]; simp

theorem heads_comps (hn : 0 < n) (ks t : Nat) (h : ks + 8 * n ≤ t) (m p i : Nat) :
    ∀ r ∈ compCalls n ks t p i m, Heads r := by
  induction m generalizing p i with
  | zero => simp [compCalls]
  | succ m ih =>
    intro r hr
    rcases List.mem_cons.1 hr with rfl | hr
    · exact heads_comp hn ks _ p (by omega)
    · exact ih _ _ r hr

theorem heads_loop (hn : 0 < n) (ks e : Nat) (tg : List (Nat × Nat)) (h : ∀ x ∈ tg, ks + 8 * n ≤ x.1) (p : Nat) :
    ∀ r ∈ loopCalls n ks e p tg, Heads r := by
  induction tg generalizing p with
  | nil => simp [loopCalls]
  | cons x tg ih =>
    intro r hr
    rw [loopCalls, searchCalls, List.mem_append, List.mem_append] at hr
    rcases hr with (hr | hr) | hr
    · exact heads_comps hn ks _ (h x List.mem_cons_self) _ _ _ r hr
    · simp only [List.mem_cons, List.not_mem_nil, or_false] at hr
      subst hr
      exact heads_or _ _ _
    · exact ih (fun y hy => h y (List.mem_cons_of_mem _ hy)) _ r hr

theorem heads_all (hn : 0 < n) (kss : List Nat) (tg : List (Nat × Nat)) (h : ∀ k ∈ kss, ∀ x ∈ tg, k + 8 * n ≤ x.1)
    (p j : Nat) : ∀ r ∈ allCalls n p j kss tg, Heads r := by
  induction kss generalizing p j with
  | nil => simp [allCalls]
  | cons k kss ih =>
    intro r hr
    rw [allCalls, List.mem_append] at hr
    rcases hr with hr | hr
    · exact heads_loop hn k _ tg (h k List.mem_cons_self) _ r hr
    · exact ih (fun k' hk' => h k' (List.mem_cons_of_mem _ hk')) _ _ r hr

theorem all_argsOk (hn : 0 < n) (pre : List Nat) (hk : ∀ k ∈ pre, k + 8 * n ≤ L) (tg : List (Nat × Nat))
    (ht : ∀ x ∈ tg, n ≤ x.2 ∧ x.1 + 8 * x.2 ≤ N) (hfirst : ∀ x, tg.head? = some x → x.1 = L + 8 * n)
    (hrest : ∀ x ∈ tg.tail, L + 8 * n < x.1) (p : Nat) (hN : N ≤ p) : ArgsOk (allCalls n p 0 (pre ++ [L]) tg) := by
  refine ⟨all_nested hn pre hk tg ht hfirst hrest p hN, heads_all hn _ tg ?_ p 0⟩
  have hlt : ∀ x ∈ tg, L + 8 * n ≤ x.1 := by
    cases tg with
    | nil => simp
    | cons y tg =>
      intro x hx
      rcases List.mem_cons.1 hx with rfl | hx
      · have := hfirst x rfl; omega
      · have := hrest x hx; omega
  intro k hk' x hx
  have := hlt x hx
  rcases List.mem_append.1 hk' with h | h
  · have := hk k h; omega
  · simp only [List.mem_cons, List.not_mem_nil, or_false] at h
    subst h
    omega

end Verif.Mail
