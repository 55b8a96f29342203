import Verif.Mail.CallProg

/-!
Lemmas for C78: the loops over keywords and mails.
-/
set_option autoImplicit false

namespace Verif.Mail

open Circuit Gmw Macro Exec

theorem var_input {inp : List Bool} {w : W} {env : List Bool} (h : Ran inp w env) {x : Nat} (hx : x < inp.length) :
    Var env x (inp.getD x false) := by
  obtain ⟨t, e⟩ := h.inputs
  exact Var.mono (env := inp) ⟨t, e.symm⟩ ⟨hx, rfl⟩

theorem xor_ran {inp : List Bool} {w : W} {env : List Bool} (h : Ran inp w env) {x y : Nat} {a b : Bool}
    (hx : Var env x a) (hy : Var env y b) :
    ∃ env', Ran inp (w.op .xor [x, y]).1 env' ∧ env <+: env' ∧ Var env' (w.op .xor [x, y]).2 (a ^^ b) := by
  refine ⟨_, h.op .xor [x, y], List.prefix_append _ _, ?_, ?_⟩
  · simp [W.op, h.len]
  · rw [getD_snoc_eq _ _ _ (by simp [W.op, h.len])]
    simp only [List.map_cons, List.map_nil, hx.2, hy.2]
    rfl

theorem and_ran {inp : List Bool} {w : W} {env : List Bool} (h : Ran inp w env) {x y : Nat} {a b : Bool}
    (hx : Var env x a) (hy : Var env y b) :
    ∃ env', Ran inp (w.op .and [x, y]).1 env' ∧ env <+: env' ∧ Var env' (w.op .and [x, y]).2 (a && b) := by
  refine ⟨_, h.op .and [x, y], List.prefix_append _ _, ?_, ?_⟩
  · simp [W.op, h.len]
  · rw [getD_snoc_eq _ _ _ (by simp [W.op, h.len])]
    simp only [List.map_cons, List.map_nil, hx.2, hy.2]
    rfl

theorem two_lt {n x y : Nat} (hx : x < n) (hy : y < n) : ∀ a ∈ [x, y], a < n := by
  intro a ha
  simp only [List.mem_cons, List.not_mem_nil, or_false] at ha
  rcases ha with rfl | rfl <;> assumption

theorem chaining_spec {w : W} {cs : List CallRec} (hw : WOk w cs) {p r o nt : Nat} (hp : p < w.n) (hr : r < w.n)
    (ho : o < w.n) (hnt : nt < w.n) :
    WOk (w.chaining p r o nt).1 cs ∧ (w.chaining p r o nt).1.n = w.n + 5 ∧ (w.chaining p r o nt).2 = w.n + 4 ∧
      ∀ (inp env : List Bool) (vp vr vo vn : Bool), Ran inp w env → Var env p vp → Var env r vr → Var env o vo →
        Var env nt vn → ∃ env', Ran inp (w.chaining p r o nt).1 env' ∧ env <+: env' ∧
          Var env' (w.chaining p r o nt).2 (if vo then vp || (vr ^^ vn) else vp && (vr ^^ vn)) := by
  have h1 := hw.op .xor [p, o] rfl rfl (two_lt hp ho)
  have h2 := h1.op .xor [r, nt] rfl rfl (by
    simp only [W.op]; exact two_lt (by omega) (by omega))
  have h3 := h2.op .xor [w.n + 1, o] rfl rfl (by
    simp only [W.op]; exact two_lt (by omega) (by omega))
  have h4 := h3.op .and [w.n, w.n + 2] rfl rfl (by
    simp only [W.op]; exact two_lt (by omega) (by omega))
  have h5 := h4.op .xor [w.n + 3, o] rfl rfl (by
    simp only [W.op]; exact two_lt (by omega) (by omega))
  refine ⟨h5, rfl, rfl, ?_⟩
  intro inp env vp vr vo vn hr hvp hvr hvo hvn
  obtain ⟨e1, r1, q1, x1⟩ := xor_ran hr hvp hvo
  obtain ⟨e2, r2, q2, x2⟩ := xor_ran r1 (hvr.mono q1) (hvn.mono q1)
  obtain ⟨e3, r3, q3, x3⟩ := xor_ran r2 x2 ((hvo.mono q1).mono q2)
  obtain ⟨e4, r4, q4, x4⟩ := and_ran r3 ((x1.mono q2).mono q3) x3
  obtain ⟨e5, r5, q5, x5⟩ := xor_ran r4 x4 ((((hvo.mono q1).mono q2).mono q3).mono q4)
  refine ⟨e5, r5, (((q1.trans q2).trans q3).trans q4).trans q5, ?_⟩
  have : (((vp ^^ vo) && ((vr ^^ vn) ^^ vo)) ^^ vo) = (if vo then vp || (vr ^^ vn) else vp && (vr ^^ vn)) := by
    cases vp <;> cases vr <;> cases vo <;> cases vn <;> rfl
  rw [← this]
  exact x5

/-- The texts with the given starts and lengths. -/
def textsOf (tg : List (Nat × Nat)) : List (List (List Nat)) := tg.map fun p => chars p.1 p.2

/-- The calls of the searches for one keyword; `extra` gates follow each search. -/
def loopCalls (n ks extra : Nat) : Nat → List (Nat × Nat) → List CallRec
  | _, [] => []
  | p, (t, len) :: tg =>
    searchCalls n ks t (len + 1 - n) p ++ loopCalls n ks extra (p + (len + 1 - n) + 1 + extra) tg

def loopGates (n extra : Nat) (tg : List (Nat × Nat)) : Nat := (tg.map fun p => p.2 + 1 - n + 1 + extra).sum

theorem mail_loop_zero_sc (N n ks : Nat) (hn : 0 < n) (hk : ks + 8 * n ≤ N) (modifier : List Nat) (m : Nat)
    (hm : modifier[0]? = some m) (hmN : m < N) (tg : List (Nat × Nat))
    (ht : ∀ p ∈ tg, n ≤ p.2 ∧ p.1 + 8 * p.2 ≤ N) (w : W) (cs : List CallRec) (hw : WOk w cs) (hN : N ≤ w.n)
    (results : List Nat) (i : Nat) :
    ∃ w' rs, W.mailLoop modifier 0 (chars ks n) w results i (textsOf tg) = some (w', results ++ rs) ∧
      WOk w' (cs ++ loopCalls n ks 1 w.n tg) ∧ w'.n = w.n + loopGates n 1 tg ∧ (∀ r ∈ rs, r < w'.n) ∧
      ∀ inp env : List Bool, inp.length = N → Ran inp w env → ∃ env', Ran inp w' env' ∧ env <+: env' ∧
        List.Forall₂ (Var env') rs
          (tg.map fun p => decide (lows inp ks n <:+: lows inp p.1 p.2) ^^ inp.getD m false) := by
  induction tg generalizing w cs results i with
  | nil =>
    refine ⟨w, [], by simp [W.mailLoop, textsOf], by simpa [loopCalls] using hw, by simp [loopGates], by simp, ?_⟩
    intro inp env _ hr
    exact ⟨env, hr, List.prefix_refl _, .nil⟩
  | cons p tg ih =>
    obtain ⟨t, len⟩ := p
    obtain ⟨hl, htN⟩ := ht (t, len) List.mem_cons_self
    obtain ⟨w1, e1, n1, o1, d1⟩ := search_spec N n ks t len hn hl hk htN w cs hw hN
    have o2 := o1.op .xor [w.n + (len + 1 - n), m] rfl rfl (two_lt (by omega) (by omega))
    obtain ⟨w', rs, e3, o3, n3, b3, d3⟩ := ih (fun q hq => ht q (List.mem_cons_of_mem _ hq)) _ _ o2
      (by simp only [W.op]; omega) (results ++ [w1.n]) (i + 1)
    have hn2 : (w1.op .xor [w.n + (len + 1 - n), m]).1.n = w.n + (len + 1 - n) + 1 + 1 := by
      simp only [W.op, n1]
    refine ⟨w', w1.n :: rs, ?_, ?_, ?_, ?_, ?_⟩
    · simp only [textsOf, List.map_cons, W.mailLoop, e1, Option.bind_eq_bind, Option.bind_some, if_true, hm]
      have : (w1.op .xor [w.n + (len + 1 - n), m]).2 = w1.n := rfl
      rw [this]
      simp only [textsOf] at e3
      rw [e3]
      simp
    · rw [hn2] at o3
      rw [loopCalls, ← List.append_assoc]
      exact o3
    · rw [n3, hn2, loopGates, loopGates, List.map_cons, List.sum_cons]; omega
    · intro r hr
      rcases List.mem_cons.1 hr with rfl | hr
      · rw [n3, hn2]; omega
      · exact b3 r hr
    · intro inp env hi hr
      obtain ⟨f1, r1, q1, x1⟩ := d1 inp env hi hr
      obtain ⟨f2, r2, q2, x2⟩ := xor_ran r1 x1 (var_input r1 (by omega : m < inp.length))
      obtain ⟨f3, r3, q3, x3⟩ := d3 inp f2 hi r2
      refine ⟨f3, r3, (q1.trans q2).trans q3, ?_⟩
      rw [List.map_cons]
      exact .cons (x2.mono q3) x3

theorem mail_loop_succ_sc (N n ks : Nat) (hn : 0 < n) (hk : ks + 8 * n ≤ N) (modifier : List Nat) (j : Nat) (hj : 0 < j)
    (o nt : Nat) (ho : modifier[2 * j - 1]? = some o) (hnt : modifier[2 * j]? = some nt) (hoN : o < N) (hntN : nt < N)
    (tg : List (Nat × Nat)) (ht : ∀ p ∈ tg, n ≤ p.2 ∧ p.1 + 8 * p.2 ≤ N) (w : W) (cs : List CallRec) (hw : WOk w cs)
    (hN : N ≤ w.n) (done pending : List Nat) (hlen : pending.length = tg.length) (hpend : ∀ r ∈ pending, r < w.n) :
    ∃ w' rs, W.mailLoop modifier j (chars ks n) w (done ++ pending) done.length (textsOf tg) = some (w', done ++ rs) ∧
      WOk w' (cs ++ loopCalls n ks 5 w.n tg) ∧ w'.n = w.n + loopGates n 5 tg ∧ (∀ r ∈ rs, r < w'.n) ∧
      ∀ (inp env : List Bool) (H : Nat × Nat → Bool), inp.length = N → Ran inp w env →
        List.Forall₂ (Var env) pending (tg.map H) → ∃ env', Ran inp w' env' ∧ env <+: env' ∧
        List.Forall₂ (Var env') rs
          (tg.map fun p => if inp.getD o false then H p || (decide (lows inp ks n <:+: lows inp p.1 p.2) ^^ inp.getD nt false)
            else H p && (decide (lows inp ks n <:+: lows inp p.1 p.2) ^^ inp.getD nt false)) := by
  induction tg generalizing w cs done pending with
  | nil =>
    have : pending = [] := List.length_eq_zero_iff.1 (by simpa using hlen)
    subst this
    refine ⟨w, [], by simp [W.mailLoop, textsOf], by simpa [loopCalls] using hw, by simp [loopGates], by simp, ?_⟩
    intro inp env H _ hr _
    exact ⟨env, hr, List.prefix_refl _, .nil⟩
  | cons p tg ih =>
    obtain ⟨t, len⟩ := p
    cases pending with
    | nil => simp at hlen
    | cons pv pending =>
    obtain ⟨hl, htN⟩ := ht (t, len) List.mem_cons_self
    obtain ⟨w1, e1, n1, o1, d1⟩ := search_spec N n ks t len hn hl hk htN w cs hw hN
    have hpv := hpend pv List.mem_cons_self
    obtain ⟨o2, n2, v2, d2⟩ := chaining_spec (p := pv) (r := w.n + (len + 1 - n)) (o := o) (nt := nt) o1
      (by omega) (by omega) (by omega) (by omega)
    generalize hw2 : w1.chaining pv (w.n + (len + 1 - n)) o nt = w2 at o2 n2 v2 d2
    obtain ⟨w2, r2⟩ := w2
    simp only at o2 n2 v2 d2
    obtain ⟨w', rs, e3, o3, n3, b3, d3⟩ := ih (fun q hq => ht q (List.mem_cons_of_mem _ hq)) _ _ o2
      (by omega) (done ++ [r2]) pending (by simpa using hlen)
      (fun r hr => by have := hpend r (List.mem_cons_of_mem _ hr); omega)
    have hn2 : w2.n = w.n + (len + 1 - n) + 1 + 5 := by omega
    refine ⟨w', r2 :: rs, ?_, ?_, ?_, ?_, ?_⟩
    · have hset : (done ++ pv :: pending).set done.length r2 = (done ++ [r2]) ++ pending := by
        rw [List.set_append_right _ _ (Nat.le_refl _)]
        simp
      have hlen' : (done ++ [r2]).length = done.length + 1 := by simp
      rw [hlen'] at e3
      have hj' : j ≠ 0 := by omega
      have hget : (done ++ pv :: pending)[done.length]? = some pv := by simp
      simp only [textsOf] at e3
      simp only [textsOf, List.map_cons, W.mailLoop, e1, Option.bind_eq_bind, Option.bind_some, hj', if_false, ho, hnt,
        hw2, hset, e3, hget]
      simp
    · rw [hn2] at o3
      rw [loopCalls, ← List.append_assoc]
      exact o3
    · rw [n3, hn2, loopGates, loopGates, List.map_cons, List.sum_cons]; omega
    · intro r hr
      rcases List.mem_cons.1 hr with rfl | hr
      · omega
      · exact b3 r hr
    · intro inp env H hi hr hp
      rw [List.map_cons] at hp
      cases hp with
      | cons hp hps =>
      obtain ⟨f1, r1, q1, x1⟩ := d1 inp env hi hr
      obtain ⟨f2, rr2, q2, x2⟩ := d2 inp f1 _ _ _ _ r1 (hp.mono q1) x1 (var_input r1 (by omega)) (var_input r1 (by omega))
      obtain ⟨f3, r3, q3, x3⟩ := d3 inp f2 H hi rr2 (hps.imp fun _ _ h => (h.mono q1).mono q2)
      refine ⟨f3, r3, (q1.trans q2).trans q3, ?_⟩
      rw [List.map_cons]
      exact .cons (x2.mono q3) x3

/-- The calls of all searches. -/
def allCalls (n : Nat) : Nat → Nat → List Nat → List (Nat × Nat) → List CallRec
  | _, _, [], _ => []
  | p, j, ks :: kss, tg =>
    loopCalls n ks (if j = 0 then 1 else 5) p tg ++
      allCalls n (p + loopGates n (if j = 0 then 1 else 5) tg) (j + 1) kss tg

theorem keyword_loop_succ_sc (N n : Nat) (hn : 0 < n) (modifier : List Nat) (hmN : ∀ x ∈ modifier, x < N)
    (tg : List (Nat × Nat)) (ht : ∀ p ∈ tg, n ≤ p.2 ∧ p.1 + 8 * p.2 ≤ N) (kss : List Nat)
    (hk : ∀ ks ∈ kss, ks + 8 * n ≤ N) (j : Nat) (hj : 0 < j) (hmod : 2 * (j + kss.length) - 1 ≤ modifier.length)
    (w : W) (cs : List CallRec) (hw : WOk w cs) (hN : N ≤ w.n) (results : List Nat)
    (hlen : results.length = tg.length) (hres : ∀ r ∈ results, r < w.n) :
    ∃ w' rs, W.keywordLoop modifier (textsOf tg) w results j (kss.map fun ks => chars ks n) = some (w', rs) ∧
      WOk w' (cs ++ allCalls n w.n j kss tg) ∧ (∀ r ∈ rs, r < w'.n) ∧
      ∀ (inp env : List Bool) (H : Nat × Nat → Bool), inp.length = N → Ran inp w env →
        List.Forall₂ (Var env) results (tg.map H) → ∃ env', Ran inp w' env' ∧
        List.Forall₂ (Var env') rs (tg.map fun p => chain (fun i => (modifier.map fun x => inp.getD x false).getD i false) j
          (kss.map fun ks => decide (lows inp ks n <:+: lows inp p.1 p.2)) (H p)) := by
  induction kss generalizing j w cs results with
  | nil =>
    refine ⟨w, results, rfl, by simpa [allCalls] using hw, hres, ?_⟩
    intro inp env H _ hr hp
    exact ⟨env, hr, hp⟩
  | cons ks kss ih =>
    rw [List.length_cons] at hmod
    obtain ⟨o, ho⟩ : ∃ o, modifier[2 * j - 1]? = some o :=
      ⟨_, List.getElem?_eq_getElem (by omega)⟩
    obtain ⟨nt, hnt⟩ : ∃ nt, modifier[2 * j]? = some nt :=
      ⟨_, List.getElem?_eq_getElem (by omega)⟩
    have hoN := hmN o (List.mem_of_getElem? ho)
    have hntN := hmN nt (List.mem_of_getElem? hnt)
    obtain ⟨w1, r1, e1, o1, n1, b1, d1⟩ := mail_loop_succ_sc N n ks hn (hk ks List.mem_cons_self) modifier j hj o nt ho hnt
      hoN hntN tg ht w cs hw hN [] results hlen hres
    have hr1 : r1.length = tg.length := by
      clear ih d1 o1 n1 b1
      have : ∀ (tg : List (Nat × Nat)) (w w' : W) (rs rs' : List Nat) (i : Nat),
          W.mailLoop modifier j (chars ks n) w rs i (textsOf tg) = some (w', rs') → rs'.length = rs.length := by
        intro tg
        induction tg with
        | nil =>
          intro w w' rs rs' i e
          simp only [textsOf, List.map_nil, W.mailLoop, Option.some.injEq, Prod.mk.injEq] at e
          rw [e.2]
        | cons p tg ih =>
          intro w w' rs rs' i e
          simp only [textsOf, List.map_cons, W.mailLoop, Option.bind_eq_bind, Option.bind_eq_some_iff,
            if_neg (by omega : ¬ j = 0)] at e
          obtain ⟨_, _, _, _, _, _, _, _, e⟩ := e
          have := ih _ _ _ _ _ e
          rw [this, List.length_set]
      have := this tg _ _ _ _ _ e1
      simpa [hlen] using this
    obtain ⟨w', rs, e2, o2, b2, d2⟩ := ih (fun k h => hk k (List.mem_cons_of_mem _ h)) (j + 1) (by omega) (by omega) w1 _ o1
      (by omega) r1 hr1 b1
    refine ⟨w', rs, ?_, ?_, b2, ?_⟩
    · simp only [List.nil_append, List.length_nil] at e1
      simp only [List.map_cons, W.keywordLoop, e1, Option.bind_eq_bind, Option.bind_some, e2]
    · rw [n1] at o2
      rw [allCalls, if_neg (by omega), ← List.append_assoc]
      exact o2
    · intro inp env H hi hr hp
      obtain ⟨f1, rr1, -, x1⟩ := d1 inp env H hi hr hp
      obtain ⟨f2, rr2, x2⟩ := d2 inp f1 _ hi rr1 x1
      refine ⟨f2, rr2, ?_⟩
      have g1 : (modifier.map fun x => inp.getD x false).getD (2 * j - 1) false = inp.getD o false := by
        rw [List.getD_eq_getElem?_getD, List.getElem?_map, ho]; rfl
      have g2 : (modifier.map fun x => inp.getD x false).getD (2 * j) false = inp.getD nt false := by
        rw [List.getD_eq_getElem?_getD, List.getElem?_map, hnt]; rfl
      simp only [List.map_cons, chain, g1, g2]
      exact x2

theorem keyword_loop_sc (N n : Nat) (hn : 0 < n) (modifier : List Nat) (hmN : ∀ x ∈ modifier, x < N)
    (tg : List (Nat × Nat)) (ht : ∀ p ∈ tg, n ≤ p.2 ∧ p.1 + 8 * p.2 ≤ N) (kss : List Nat) (hne : kss ≠ [])
    (hk : ∀ ks ∈ kss, ks + 8 * n ≤ N) (hmod : 2 * kss.length - 1 ≤ modifier.length)
    (w : W) (cs : List CallRec) (hw : WOk w cs) (hN : N ≤ w.n) :
    ∃ w' rs, W.keywordLoop modifier (textsOf tg) w [] 0 (kss.map fun ks => chars ks n) = some (w', rs) ∧
      WOk w' (cs ++ allCalls n w.n 0 kss tg) ∧ (∀ r ∈ rs, r < w'.n) ∧
      ∀ (inp env : List Bool), inp.length = N → Ran inp w env → ∃ env', Ran inp w' env' ∧
        List.Forall₂ (Var env') rs (tg.map fun p => answer (fun i => (modifier.map fun x => inp.getD x false).getD i false)
          (kss.map fun ks => decide (lows inp ks n <:+: lows inp p.1 p.2))) := by
  cases kss with
  | nil => exact absurd rfl hne
  | cons ks kss =>
    rw [List.length_cons] at hmod
    obtain ⟨m, hm⟩ : ∃ m, modifier[0]? = some m := ⟨_, List.getElem?_eq_getElem (by omega)⟩
    obtain ⟨w1, r1, e1, o1, n1, b1, d1⟩ := mail_loop_zero_sc N n ks hn (hk ks List.mem_cons_self) modifier m hm
      (hmN m (List.mem_of_getElem? hm)) tg ht w cs hw hN [] 0
    have hr1 : r1.length = tg.length := by
      clear d1 o1 n1 b1
      have : ∀ (tg : List (Nat × Nat)) (w w' : W) (rs rs' : List Nat) (i : Nat),
          W.mailLoop modifier 0 (chars ks n) w rs i (textsOf tg) = some (w', rs') → rs'.length = rs.length + tg.length := by
        intro tg
        induction tg with
        | nil =>
          intro w w' rs rs' i e
          simp only [textsOf, List.map_nil, W.mailLoop, Option.some.injEq, Prod.mk.injEq] at e
          rw [e.2]; rfl
        | cons p tg ih =>
          intro w w' rs rs' i e
          simp only [textsOf, List.map_cons, W.mailLoop, Option.bind_eq_bind, Option.bind_eq_some_iff, if_true] at e
          obtain ⟨_, _, _, _, e⟩ := e
          have := ih _ _ _ _ _ e
          rw [this, List.length_append, List.length_cons]; simp only [List.length_cons, List.length_nil]; omega
      have := this tg _ _ _ _ _ e1
      simpa using this
    obtain ⟨w', rs, e2, o2, b2, d2⟩ := keyword_loop_succ_sc N n hn modifier hmN tg ht kss
      (fun k h => hk k (List.mem_cons_of_mem _ h)) 1 (by omega) (by omega) w1 _ o1 (by omega) r1 hr1 b1
    refine ⟨w', rs, ?_, ?_, b2, ?_⟩
    · simp only [List.nil_append] at e1
      simp only [List.map_cons, W.keywordLoop, e1, Option.bind_eq_bind, Option.bind_some, e2]
    · rw [n1] at o2
      rw [allCalls, if_pos rfl, ← List.append_assoc]
      exact o2
    · intro inp env hi hr
      obtain ⟨f1, rr1, -, x1⟩ := d1 inp env hi hr
      obtain ⟨f2, rr2, x2⟩ := d2 inp f1 _ hi rr1 x1
      refine ⟨f2, rr2, ?_⟩
      have g1 : (modifier.map fun x => inp.getD x false).getD 0 false = inp.getD m false := by
        rw [List.getD_eq_getElem?_getD, List.getElem?_map, hm]; rfl
      simp only [List.map_cons, answer, g1]
      exact x2

end Verif.Mail
