import Verif.Exec.WordsCirc
import Verif.Exec.Lost

/-!
C95: privacy of executions on SIMD shares in words against a peer that does whatever it likes, for
triples that begin at a word; and the leak if they do not.
-/
set_option autoImplicit false

namespace Verif.Exec

open Circuit Proc Gmw

/-! ### Specification -/

/-- Two vectors that begin at the same position and have the same length, a multiple of 64. -/
def SameRaw (a b : Raw) : Prop := a.WF ∧ b.WF ∧ a.head = b.head ∧ a.len = b.len ∧ a.len % 64 = 0

/-- Inputs of the same kind and lengths, the lengths of vectors multiples of 64. -/
def SameShapeW : Input Bool Raw → Input Bool Raw → Prop
  | .scalar a, .scalar b => a.length = b.length
  | .simd a, .simd b => List.Forall₂ SameRaw a b
  | _, _ => False

/-- Values packed into a vector are a multiple of 64. -/
def WordPacks (m : Multi BoolGate) : Prop := ∀ v, m.gate? v = some (.base .subCircuitInput) →
  isSimd m v.1 = true → isSimd m 0 = false → (m.parents v).length % 64 = 0

/-- The triples of the honest party (`partnerSetup`), beginning at position `h` of their words. -/
def wordSetup (h : Nat) (other : Nat → Nat → List Triple) (masks : List (List (Bool × Bool)))
    (k n : Nat) : Mts := ⟨h, partnerSetup other masks k n⟩

/-! ### Proof -/

theorem SameRaw.live {a b : Raw} (h : SameRaw a b) : SameLen a.live b.live := by
  unfold SameLen; rw [h.1.live_length, h.2.1.live_length, h.2.2.2.1]

theorem sameRaw_ofBits {a b : List Bool} (h : a.length = b.length) (h64 : a.length % 64 = 0) :
    SameRaw (ofBits a) (ofBits b) := ⟨ofBits_wf _, ofBits_wf _, rfl, h, h64⟩

theorem SameRaw.clone {a b : Raw} (h : SameRaw a b) : SameRaw a.clone b.clone :=
  ⟨clone_wf _, clone_wf _, h.2.2.1, by rw [clone_len h.1, clone_len h.2.1, h.2.2.2.1],
    by rw [clone_len h.1]; exact h.2.2.2.2⟩

/-- The same entries are set and those of simd circuits have the same positions and lengths. -/
structure AlikeW (st st' : Store Bool Raw) : Prop where
  set : st.set = st'.set
  len : ∀ v, SameRaw (st.ve v) (st'.ve v)

variable {m : Multi BoolGate} {st st' : Store Bool Raw}

theorem get_alikeW (h : AlikeW st st') (v : Node) : OptRel (fun _ _ => True) (st.get m v) (st'.get m v) := by
  unfold Store.get
  rw [h.set]
  split
  · trivial
  · split <;> simp [OptRel]

theorem getSimd_alikeW (h : AlikeW st st') (v : Node) : OptRel SameRaw (st.getSimd m v) (st'.getSimd m v) := by
  unfold Store.getSimd
  rw [h.set]
  split
  · split
    · exact h.len v
    · trivial
  · trivial

theorem put_alikeW (h : AlikeW st st') (v : Node) (a b : Bool) : OptRel AlikeW (st.put m v a) (st'.put m v b) := by
  unfold Store.put
  split
  · trivial
  · exact ⟨by simp [h.set], h.len⟩

theorem putSimd_alikeW (h : AlikeW st st') (v : Node) {a b : Raw} (hl : SameRaw a b) :
    OptRel AlikeW (st.putSimd m v a) (st'.putSimd m v b) := by
  unfold Store.putSimd
  split
  · refine ⟨by simp [h.set], fun u => ?_⟩
    dsimp only
    split
    · exact hl
    · exact h.len u
  · trivial

theorem gets_alikeW (h : AlikeW st st') (l : List Node) :
    OptRel (List.Forall₂ fun _ _ => True) (l.mapM (st.get m)) (l.mapM (st'.get m)) := mapM_rel (get_alikeW h) l

theorem getsSimd_alikeW (h : AlikeW st st') (l : List Node) :
    OptRel (List.Forall₂ SameRaw) (l.mapM (st.getSimd m)) (l.mapM (st'.getSimd m)) := mapM_rel (getSimd_alikeW h) l

theorem evalLocalWords_alike (party : Nat) (g : BoolGate) {xs ys : List Raw} (h : List.Forall₂ SameRaw xs ys) :
    OptRel SameRaw (evalLocalWords party g xs) (evalLocalWords party g ys) := by
  cases g with
  | base b =>
    have key : OptRel SameRaw (xs.head?.map Raw.clone) (ys.head?.map Raw.clone) := by
      cases h with
      | nil => trivial
      | cons h0 h => exact h0.clone
    cases b <;> first
      | exact key
      | trivial
  | and => trivial
  | xor =>
    cases h with
    | nil => trivial
    | cons h0 h =>
      cases h with
      | nil => simp [evalLocalWords, OptRel]
      | cons h1 h =>
        have hc := h0.clone
        exact ⟨fast_wf hc.1, fast_wf hc.2.1, hc.2.2.1, hc.2.2.2.1, hc.2.2.2.2⟩
  | inv =>
    cases h with
    | nil => trivial
    | cons h0 h =>
      have hc := h0.clone
      simp only [evalLocalWords, OptRel, List.getElem?_cons_zero, Option.bind_eq_bind, Option.bind_some,
        Option.pure_def]
      split
      · exact ⟨not_wf hc.1, not_wf hc.2.1, hc.2.2.1, hc.2.2.2.1, hc.2.2.2.2⟩
      · exact hc

theorem mapM_len {A B : Type} {f : A → Option B} : ∀ (l : List A) (r : List B), l.mapM f = some r → r.length = l.length
  | [], r, h => by simp at h; simp [h]
  | a :: l, r, h => by
    simp only [List.mapM_cons, Option.bind_eq_bind, Option.pure_def, Option.bind_eq_some_iff, Option.some.injEq] at h
    obtain ⟨b, -, bs, h2, rfl⟩ := h
    simp [mapM_len l bs h2]

theorem gate_base {g : BoolGate} {b : BaseGate Bool} (h : asBase g = some b) : g = .base b := by
  cases g <;> simp [GateLike.asBase] at h
  rw [h]

theorem evalNode_alikeW {party : Nat} {inp inp' : Input Bool Raw} (hl : WordLanes m) (hk : WordPacks m) (hs : SameShapeW inp inp')
    (h : AlikeW st st') (v : Node) :
    OptRel AlikeW (evalNode wgmw m party inp st v) (evalNode wgmw m party inp' st' v) := by
  unfold evalNode
  simp only [Option.bind_eq_bind]
  cases hgate : m.gate? v with
  | none => trivial
  | some g =>
  simp only [Option.bind_some]
  have def1 : OptRel AlikeW
      (if isSimd m v.1 = true then ((m.parents v).mapM (st.getSimd m)).bind fun xs =>
          (wgmw.evalLocalSimd party g xs).bind fun o => st.putSimd m v o
        else ((m.parents v).mapM (st.get m)).bind fun xs => (wgmw.evalLocal party g xs).bind fun o => st.put m v o)
      (if isSimd m v.1 = true then ((m.parents v).mapM (st'.getSimd m)).bind fun xs =>
          (wgmw.evalLocalSimd party g xs).bind fun o => st'.putSimd m v o
        else ((m.parents v).mapM (st'.get m)).bind fun xs => (wgmw.evalLocal party g xs).bind fun o => st'.put m v o) := by
    split
    · exact (getsSimd_alikeW h _).bind fun xs ys hx => (evalLocalWords_alike party g hx).bind fun a b hab =>
        putSimd_alikeW h v hab
    · exact (gets_alikeW h _).bind fun xs ys hx => (evalLocal_alike party g hx).bind fun a b _ => put_alikeW h v a b
  cases hg : asBase g with
  | none => exact def1
  | some b =>
    cases b with
    | input =>
      dsimp only
      split
      · refine OptRel.bind_eq fun c => OptRel.bind_eq fun idx => ?_
        match hm : isSimd m 0, inp, inp', hs with
        | true, .simd xs, .simd ys, hs =>
          exact (getElem_rel hs idx).bind fun x y hxy =>
            (evalLocalWords_alike party g (.cons hxy .nil)).bind fun a b hab => putSimd_alikeW h v hab
        | false, .scalar xs, .scalar ys, hs =>
          exact (getElem_rel (forall_true hs) idx).bind fun x y hxy =>
            (evalLocal_alike party g (.cons trivial .nil)).bind fun a b _ => put_alikeW h v a b
        | true, .scalar xs, .scalar ys, hs => trivial
        | false, .simd xs, .simd ys, hs => trivial
      · trivial
    | subCircuitInput =>
      dsimp only
      cases h0 : isSimd m 0 <;> cases hv : isSimd m v.1
      · exact (gets_alikeW h _).bind fun xs ys hx => (evalLocal_alike party g hx).bind fun a b _ => put_alikeW h v a b
      · have hk' := hk v (by rw [hgate, gate_base hg])
        have hb := gets_alikeW (m := m) h (m.parents v)
        cases e1 : (m.parents v).mapM (st.get m) <;> cases e2 : (m.parents v).mapM (st'.get m) <;>
          rw [e1, e2] at hb
        · trivial
        · exact hb.elim
        · exact hb.elim
        · exact putSimd_alikeW h v (sameRaw_ofBits hb.length_eq (by
            rw [mapM_len _ _ e1]
            exact hk' (by assumption) (by assumption)))
      · trivial
      · exact (getsSimd_alikeW h _).bind fun xs ys hx => (evalLocalWords_alike party g hx).bind fun a b hab =>
          putSimd_alikeW h v hab
    | connectToMainFromSimd sel =>
      dsimp only
      refine OptRel.bind_eq fun p => (getSimd_alikeW h p).bind fun x y hxy => ?_
      exact (getElem_rel (forall_true hxy.live) sel).bind fun a b _ => put_alikeW h v a b
    | constant val =>
      dsimp only
      split
      · rename_i hv
        refine putSimd_alikeW h v (sameRaw_ofBits rfl ?_)
        simpa [shareConstantSimd] using hl v.1 hv
      · exact put_alikeW h v _ _
    | _ => exact def1

theorem evalNodes_alikeW {party : Nat} {inp inp' : Input Bool Raw} (hl : WordLanes m) (hk : WordPacks m) (hs : SameShapeW inp inp')
    (vs : List Node) : ∀ {st st' : Store Bool Raw}, AlikeW st st' →
    OptRel AlikeW (evalNodes wgmw m party inp st vs) (evalNodes wgmw m party inp' st' vs) := by
  induction vs with
  | nil => intro st st' h; exact h
  | cons v vs ih =>
    intro st st' h
    simp only [evalNodes, Option.bind_eq_bind]
    exact (evalNode_alikeW hl hk hs h v).bind fun a b hab => ih hab

theorem putAll_alikeW (vs : List Node) : ∀ {st st' : Store Bool Raw} {xs ys : List Bool}, AlikeW st st' →
    xs.length = ys.length → OptRel AlikeW (putAll m st vs xs) (putAll m st' vs ys) := by
  induction vs with
  | nil => intro st st' xs ys h _; exact h
  | cons v vs ih =>
    intro st st' xs ys h hl
    match xs, ys, hl with
    | [], [], _ => exact h
    | x :: xs, y :: ys, hl =>
      simp only [putAll, Option.bind_eq_bind]
      exact (put_alikeW h v x y).bind fun a b hab => ih hab (by simpa using hl)

theorem putAllSimd_alikeW (vs : List Node) : ∀ {st st' : Store Bool Raw} {xs ys : List Raw},
    AlikeW st st' → List.Forall₂ SameRaw xs ys → OptRel AlikeW (putAllSimd m st vs xs) (putAllSimd m st' vs ys) := by
  induction vs with
  | nil => intro st st' xs ys h _; exact h
  | cons v vs ih =>
    intro st st' xs ys h hl
    cases hl with
    | nil => exact h
    | cons h0 hl =>
      simp only [putAllSimd, Option.bind_eq_bind]
      exact (putSimd_alikeW h v h0).bind fun a b hab => ih hab hl

theorem free_alikeW (h : AlikeW st st') (fs : List Node) : AlikeW (free wgmw st fs) (free wgmw st' fs) := by
  refine ⟨h.set, fun v => ?_⟩
  simp only [free]
  split
  · exact sameRaw_ofBits rfl rfl
  · exact h.len v

theorem sliceVec_alike {x y : Raw} (hx : x.WF) (hy : y.WF) (hh : x.head = y.head) (hl : x.len = y.len)
    (i n : Nat) (hn : n % 64 = 0) (hi : i + n ≤ x.len) :
    SameRaw (x.sliceVec i (i + n)) (y.sliceVec i (i + n)) := by
  have e : ∀ r : Raw, r.WF → i + n ≤ r.len → (r.sliceVec i (i + n)).len = n := by
    intro r hr hle
    simp only [Raw.sliceVec, place, List.length_drop, List.length_take, hr.live_length]
    omega
  exact ⟨place_wf _ _, place_wf _ _, by simp only [Raw.sliceVec, place, hh],
    by rw [e x hx hi, e y hy (hl ▸ hi)], by rw [e x hx hi]; exact hn⟩

theorem cutWords_alike {x y : Raw} (hx : x.WF) (hy : y.WF) (hh : x.head = y.head) (hl : x.len = y.len) :
    ∀ (ns : List Nat) (i : Nat), (∀ n ∈ ns, n % 64 = 0) →
    OptRel (List.Forall₂ SameRaw) (cutWords x ns i) (cutWords y ns i)
  | [], _, _ => .nil
  | n :: ns, i, h => by
    simp only [cutWords, hl]
    split
    · rename_i hle
      have := cutWords_alike hx hy hh hl ns (i + n) fun k hk => h k (List.mem_cons_of_mem _ hk)
      have hs := sliceVec_alike hx hy hh hl i n (h n List.mem_cons_self) (by omega)
      cases h1 : cutWords x ns (i + n) <;> cases h2 : cutWords y ns (i + n) <;> rw [h1, h2] at this
      · trivial
      · exact this.elim
      · exact this.elim
      · exact .cons hs this
    · trivial

theorem evalIntWords_alike (party : Nat) (own other : SimdMsg) (h64 : ∀ n ∈ own.simdSizes, n % 64 = 0)
    {t t' : Mts} (h : t.ts.length = t'.ts.length) :
    OptRel (fun x y => List.Forall₂ SameRaw x.1 y.1) (evaluateInteractiveWords party own other t)
      (evaluateInteractiveWords party own other t') := by
  unfold evaluateInteractiveWords
  split
  · simp only [Option.bind_eq_bind, Option.pure_def, Mts.splitOffLast, h]
    split
    · simp only [Option.bind_some]
      refine OptRel.bind (R := List.Forall₂ SameRaw) (cutWords_alike ?_ ?_ ?_ ?_ _ 0 h64) fun a b hab => hab
      rotate_left 2
      · rfl
      · rfl
      all_goals
        refine fast_wf (fast_wf (fast_wf ?_))
        split
        · exact fast_wf (clone_wf _)
        · exact ofBits_wf _
    · trivial
  · trivial

theorem evalInt_alikeW (party : Nat) (own other : Msg) (a : Nat) {t t' : List Triple} (h : t.length = t'.length) :
    OptRel (fun x y => x.1.length = y.1.length ∧ x.2.ts.length = y.2.ts.length)
      ((evaluateInteractive party own other t).map fun x => (x.1, (⟨a, x.2⟩ : Mts)))
      ((evaluateInteractive party own other t').map fun x => (x.1, (⟨a, x.2⟩ : Mts))) := by
  have := evalInt_alike party own other h
  cases h1 : evaluateInteractive party own other t <;> cases h2 : evaluateInteractive party own other t' <;>
    rw [h1, h2] at this
  · trivial
  · exact this.elim
  · exact this.elim
  · exact this

theorem finish_alikeW (h : AlikeW st st') (party : Nat) (l : MLayer) (own other : Msg × Option SimdMsg)
    (h64 : ∀ o, own.2 = some o → ∀ n ∈ o.simdSizes, n % 64 = 0) (a : Nat) {t t' : List Triple} (ht : t.length = t'.length) :
    OptRel AlikeW (finishLayer wgmw m party st l own other ⟨a, t⟩) (finishLayer wgmw m party st' l own other ⟨a, t'⟩) := by
  unfold finishLayer
  simp only [Option.bind_eq_bind]
  refine OptRel.bind_eq fun gs => (evalInt_alikeW party own.1 other.1 a ht).bind fun x y hxy => ?_
  cases ho : own.2 with
  | none =>
    cases other.2 with
    | none => exact putAll_alikeW _ h hxy.1
    | some r => trivial
  | some o =>
    cases other.2 with
    | none => trivial
    | some r =>
      refine OptRel.bind_eq fun hs => (evalIntWords_alike party o r (h64 o ho) hxy.2).bind fun a b hab => ?_
      exact (putAll_alikeW _ h hxy.1).bind fun s s' hss => putAllSimd_alikeW _ hss hab

theorem outputs_alikeW (h : AlikeW st st') : OptRel (fun _ _ => True) (outputs m st) (outputs m st') := by
  unfold outputs
  simp only [Option.bind_eq_bind, Option.pure_def]
  refine OptRel.bind_eq fun c => ?_
  split
  · exact (mapM_rel (fun g => getSimd_alikeW h (0, g)) _).bind fun _ _ _ => trivial
  · exact (mapM_rel (fun g => get_alikeW h (0, g)) _).bind fun _ _ _ => trivial

/-- With triples that begin at a word the messages are those of the list model. -/
theorem computeMsgWords_eq (inputs : List Raw) (n : Nat) (t : List Triple) (ht : t.length = n) (hn : n % 64 = 0)
    (h64 : ∀ r ∈ inputs, r.live.length % 64 = 0) :
    computeMsgWords inputs ⟨0, t⟩ = computeMsgSimd (inputs.map Raw.live) t ∧
    ∀ msg, computeMsgWords inputs ⟨0, t⟩ = some msg → ∀ k ∈ msg.simdSizes, k % 64 = 0 := by
  cases hc : chunkPairs (inputs.map Raw.live) with
  | none => simp [computeMsgWords, computeMsgSimd, hc]
  | some prs =>
    have hlen := chunkPairs_lengths _ _ hc
    have hmem : ∀ (xs : List (List Bool)) (prs : List (List Bool × List Bool)), chunkPairs xs = some prs →
        (∀ x ∈ xs, x.length % 64 = 0) → ∀ p ∈ prs, p.1.length % 64 = 0 := by
      intro xs
      induction xs using chunkPairs.induct with
      | case1 => intro prs h _; simp [chunkPairs] at h; simp [h]
      | case2 x y rest hxy ih =>
        intro prs h hx
        simp only [chunkPairs, hxy, if_true, Option.bind_eq_bind, Option.pure_def, Option.bind_eq_some_iff,
          Option.some.injEq] at h
        obtain ⟨r, h1, rfl⟩ := h
        intro p hp
        rcases List.mem_cons.1 hp with rfl | hp
        · exact hx _ (by simp)
        · exact ih r h1 (fun z hz => hx z (by simp [hz])) p hp
      | case3 x y rest hxy => intro prs h _; simp [chunkPairs, hxy] at h
      | case4 x => intro prs h _; simp [chunkPairs] at h
    have h64' := hmem _ _ hc (by
      intro x hx
      obtain ⟨r, hr, rfl⟩ := List.mem_map.1 hx
      exact h64 r hr)
    have le := flatten_fst_length prs
    have ld := flatten_snd_length prs fun p hp => (hlen p hp).symm
    have hs64 : (prs.map (·.1.length)).sum % 64 = 0 := by
      clear hc hlen le ld hmem
      induction prs with
      | nil => rfl
      | cons p prs ih =>
        have a := h64' p List.mem_cons_self
        have b := ih fun q hq => h64' q (List.mem_cons_of_mem _ hq)
        simp only [List.map_cons, List.sum_cons]
        omega
    constructor
    · by_cases hle : (prs.map (·.1.length)).sum ≤ t.length
      · have lu : (t.drop (t.length - (prs.map (·.1.length)).sum)).length = (prs.map (·.1.length)).sum := by
          simp; omega
        have ha : (0 + (t.length - (prs.map (·.1.length)).sum)) % 64 = 0 := by omega
        simp only [computeMsgWords, computeMsgSimd, hc, Option.bind_eq_bind,
          Option.bind_some, ofBits, ld, hle, if_true, splitOffLast, Option.pure_def, Mts.slice, ha, Raw.fast,
          Mts.a, Mts.b, place, List.replicate_zero, List.nil_append]
        rw [fastOp_padWords _ _ (by rw [List.length_map, lu, ld]),
          fastOp_padWords _ _ (by rw [List.length_map, lu, le])]
      · simp only [computeMsgWords, computeMsgSimd, hc, Option.bind_eq_bind, Option.bind_some, ofBits, ld, hle,
          if_false, splitOffLast, Option.bind_none]
    · intro msg hm k hk
      simp only [computeMsgWords, hc, Option.bind_eq_bind, Option.bind_some] at hm
      split at hm
      · simp only [Option.some.injEq] at hm
        subst hm
        obtain ⟨p, hp, rfl⟩ := List.mem_map.1 hk
        exact h64' p hp
      · cases hm

theorem words64 {xs ys : List Raw} (h : List.Forall₂ SameRaw xs ys) :
    (∀ r ∈ xs, r.live.length % 64 = 0) ∧ ∀ r ∈ ys, r.live.length % 64 = 0 := by
  induction h with
  | nil => simp
  | cons h _ ih =>
    constructor
    · intro r hr
      rcases List.mem_cons.1 hr with rfl | hr
      · rw [h.1.live_length]; exact h.2.2.2.2
      · exact ih.1 r hr
    · intro r hr
      rcases List.mem_cons.1 hr with rfl | hr
      · rw [h.2.1.live_length, ← h.2.2.2.1]; exact h.2.2.2.2
      · exact ih.2 r hr

theorem msgs_deltaW (h : AlikeW st st') (party : Nat) (l : MLayer) (hu : intScalar m l = [] ∨ intSimd m l = [])
    (n : Nat) (hn : intScalar m l = [] → n % 64 = 0) :
    ∃ δ : List (Bool × Bool), δ.length = n ∧ ∀ t t' : List Triple, t.length = n → t'.length = n →
      t'.map maskBits = xorP (t.map maskBits) δ →
      OptRel (fun x y => x.1 = y.1 ∧ x.2 = ⟨0, t⟩ ∧ y.2 = ⟨0, t'⟩ ∧
          ∀ o, x.1.2 = some o → ∀ k ∈ o.simdSizes, k % 64 = 0)
        (computeMsgs wgmw m party st l ⟨0, t⟩) (computeMsgs wgmw m party st' l ⟨0, t'⟩) := by
  rcases hu with hu | hu
  · have hg := mapM_rel (R := List.Forall₂ SameRaw) (f := fun v => (m.parents v).mapM (st.getSimd m))
      (g := fun v => (m.parents v).mapM (st'.getSimd m)) (fun v => getsSimd_alikeW h (m.parents v)) (intSimd m l)
    cases hy : (intSimd m l).mapM (fun v => (m.parents v).mapM (st.getSimd m)) with
    | none =>
      refine ⟨List.replicate n (false, false), by simp, fun t t' _ _ _ => ?_⟩
      cases hy' : (intSimd m l).mapM (fun v => (m.parents v).mapM (st'.getSimd m)) with
      | none =>
        simp only [computeMsgs, hu, List.mapM_nil, wgmw, Option.bind_eq_bind, Option.pure_def, Option.bind_some,
          computeMsg, computeMsgPairs, List.flatten_nil, Option.map_some, if_true, hy, hy', Option.bind_none]
        exact OptRel.bind_eq fun _ => trivial
      | some b => rw [hy, hy'] at hg; exact hg.elim
    | some a =>
      cases hy' : (intSimd m l).mapM (fun v => (m.parents v).mapM (st'.getSimd m)) with
      | none => rw [hy, hy'] at hg; exact hg.elim
      | some b =>
        rw [hy, hy'] at hg
        have hf := forall_flatten (show List.Forall₂ (List.Forall₂ SameRaw) a b from hg)
        obtain ⟨δ, d1, d2⟩ := simd_delta (xs := a.flatten.map Raw.live) (ys := b.flatten.map Raw.live)
          (List.forall₂_map_left_iff.2 (List.forall₂_map_right_iff.2 (hf.imp fun _ _ h => h.live))) n
        have l64 : ∀ r ∈ a.flatten, r.live.length % 64 = 0 := by
          exact (words64 hf).1
        have r64 : ∀ r ∈ b.flatten, r.live.length % 64 = 0 := by
          exact (words64 hf).2
        refine ⟨δ, d1, fun t t' h1 h2 h3 => ?_⟩
        obtain ⟨e1, -⟩ := computeMsgWords_eq a.flatten n t h1 (hn hu) l64
        obtain ⟨e2, s2⟩ := computeMsgWords_eq b.flatten n t' h2 (hn hu) r64
        have e3 : computeMsgWords a.flatten ⟨0, t⟩ = computeMsgWords b.flatten ⟨0, t'⟩ := by
          rw [e1, e2, d2 t t' h1 h2 h3]
        simp only [computeMsgs, hu, List.mapM_nil, wgmw, Option.bind_eq_bind, Option.pure_def, Option.bind_some,
          computeMsg, computeMsgPairs, List.flatten_nil, Option.map_some, if_true, hy, hy', e3]
        refine OptRel.bind_eq fun _ => ?_
        cases hm : computeMsgWords b.flatten ⟨0, t'⟩ with
        | none => trivial
        | some msg =>
          refine ⟨rfl, rfl, rfl, ?_⟩
          rintro o ho
          cases ho
          exact s2 msg hm
  · have hg := mapM_rel (R := List.Forall₂ fun _ _ => True) (f := fun v => (m.parents v).mapM (st.get m))
      (g := fun v => (m.parents v).mapM (st'.get m)) (fun v => gets_alikeW h (m.parents v)) (intScalar m l)
    cases hgs : (intScalar m l).mapM m.gate? with
    | none =>
      refine ⟨List.replicate n (false, false), by simp, fun t t' _ _ _ => ?_⟩
      simp only [computeMsgs, hgs, Option.bind_eq_bind, Option.bind_none]
      trivial
    | some gs =>
      cases hy : (intScalar m l).mapM (fun v => (m.parents v).mapM (st.get m)) with
      | none =>
        refine ⟨List.replicate n (false, false), by simp, fun t t' _ _ _ => ?_⟩
        cases hy' : (intScalar m l).mapM (fun v => (m.parents v).mapM (st'.get m)) with
        | none =>
          simp only [computeMsgs, hgs, hy, hy', Option.bind_eq_bind, Option.bind_none, Option.bind_some]
          trivial
        | some b => rw [hy, hy'] at hg; exact hg.elim
      | some a =>
        cases hy' : (intScalar m l).mapM (fun v => (m.parents v).mapM (st'.get m)) with
        | none => rw [hy, hy'] at hg; exact hg.elim
        | some b =>
          rw [hy, hy'] at hg
          obtain ⟨δ, d1, d2⟩ := pairs_delta gs n _ _ (forall_flatten hg).length_eq
          refine ⟨δ.reverse, by simp [d1], fun t t' h1 h2 h3 => ?_⟩
          have e := d2 t.reverse t'.reverse (by simp [h1]) (by simp [h2]) (by
            rw [List.map_reverse, h3, xorP, List.reverse_zipWith (by simp [h1, d1]), List.reverse_reverse,
              List.map_reverse]; rfl)
          simp only [computeMsgs, hgs, hu, List.mapM_nil, wgmw, Option.bind_eq_bind, Option.pure_def, Option.bind_some,
            computeMsg, computeMsgWords_nil, List.flatten_nil, Option.map_some, if_true, hy, hy', e]
          cases computeMsgPairs gs t'.reverse b.flatten with
          | none => trivial
          | some r =>
            refine ⟨rfl, rfl, rfl, ?_⟩
            rintro o ho
            cases ho
            simp

theorem intCount_word (hl : WordLanes m) (l : MLayer) (h : intScalar m l = []) : intCount m l % 64 = 0 := by
  rw [intCount_eq, h]
  have : ∀ vs : List Node, (∀ v ∈ vs, lanes m v.1 % 64 = 0) → (vs.map fun v => lanes m v.1).sum % 64 = 0 := by
    intro vs
    induction vs with
    | nil => intro _; rfl
    | cons v vs ih =>
      intro hv
      have a := hv v List.mem_cons_self
      have b := ih fun u hu => hv u (List.mem_cons_of_mem _ hu)
      simp only [List.map_cons, List.sum_cons]
      omega
  have := this (intSimd m l) (by
    intro v hv
    rw [intSimd_eq, List.mem_filter] at hv
    exact hl _ hv.2)
  simpa using this

/-- What the party does depends only on the triples of the requests that are still to come. -/
theorem execLayers_congrW {party : Nat} {inp : Input Bool Raw} {s s' : Nat → Nat → Mts}
    (fl : List (MLayer × List Node)) : ∀ (k : Nat) (st : Store Bool Raw),
    (∀ i n, k ≤ i → s i n = s' i n) →
    execLayers wgmw m party inp s k fl st = execLayers wgmw m party inp s' k fl st := by
  induction fl with
  | nil => intro k st _; simp [execLayers]
  | cons f fl ih =>
    obtain ⟨l, fs⟩ := f
    intro k st h
    simp only [execLayers]
    cases evalNodes wgmw m party inp st (niOf l) with
    | none => rfl
    | some st1 =>
      dsimp only
      split
      · exact ih k st1 h
      · rw [h k _ (le_refl k)]
        cases computeMsgs wgmw m party st1 l (s' k (intCount m l)) with
        | none => rfl
        | some r =>
          dsimp only
          congr 2
          funext other
          cases finishLayer wgmw m party (free wgmw st1 fs) l r.1 other r.2 with
          | none => rfl
          | some st2 => exact ih (k + 1) st2 fun i n hi => h i n (by omega)

variable {other : Nat → Nat → List Triple}

/-- Masks for the requests from `k` on, in words. -/
def tailW (other : Nat → Nat → List Triple) (k : Nat) (masks : List (List (Bool × Bool))) (i n : Nat) : Mts :=
  ⟨0, tailSetup other k masks i n⟩

theorem layers_activeW {party : Nat} {inp inp' : Input Bool Raw} (hl : WordLanes m) (hk : WordPacks m) (hs : SameShapeW inp inp')
    (ho : ∀ k n, (other k n).length = n) (adv : List (Msg × Option SimdMsg) → Option (Msg × Option SimdMsg))
    (fl : List (MLayer × List Node)) (hu : ∀ l ∈ fl.map (·.1), intScalar m l = [] ∨ intSimd m l = []) :
    ∀ (k : Nat) (st st' : Store Bool Raw) (sent : List (Msg × Option SimdMsg)), AlikeW st st' →
    ∃ f : List (List (Bool × Bool)) → List (List (Bool × Bool)),
      Set.BijOn f {x | Fit m (fl.map (·.1)) x} {x | Fit m (fl.map (·.1)) x} ∧
      ∀ x, Fit m (fl.map (·.1)) x →
        SameCourse (interact adv sent (execLayers wgmw m party inp (tailW other k x) k fl st))
          (interact adv sent (execLayers wgmw m party inp' (tailW other k (f x)) k fl st')) := by
  induction fl with
  | nil =>
    intro k st st' sent h
    refine ⟨id, Set.bijOn_id _, fun x _ => ?_⟩
    simp only [execLayers]
    have := outputs_alikeW (m := m) h
    cases h1 : outputs m st <;> cases h2 : outputs m st' <;> rw [h1, h2] at this
    · exact ⟨rfl, rfl⟩
    · exact this.elim
    · exact this.elim
    · exact ⟨rfl, rfl⟩
  | cons f fl ih =>
    obtain ⟨l, fs⟩ := f
    have ih := ih fun l h => hu l (List.mem_cons_of_mem _ h)
    intro k st st' sent h
    have hev := evalNodes_alikeW (m := m) (party := party) hl hk hs (niOf l) h
    cases h1 : evalNodes wgmw m party inp st (niOf l) with
    | none =>
      cases h2 : evalNodes wgmw m party inp' st' (niOf l) with
      | none =>
        refine ⟨id, Set.bijOn_id _, fun x _ => ?_⟩
        simp only [execLayers, h1, h2]
        exact ⟨rfl, rfl⟩
      | some _ => rw [h1, h2] at hev; exact hev.elim
    | some s1 =>
      cases h2 : evalNodes wgmw m party inp' st' (niOf l) with
      | none => rw [h1, h2] at hev; exact hev.elim
      | some s1' =>
        rw [h1, h2] at hev
        replace hev : AlikeW s1 s1' := hev
        by_cases h0 : intCount m l = 0
        · simp only [execLayers, h1, h2, h0, if_true, List.map_cons, fit_skip h0]
          exact ih k s1 s1' sent hev
        · simp only [List.map_cons]
          obtain ⟨δ, d1, d2⟩ := msgs_deltaW hev party l (hu l (by simp)) (intCount m l) (fun h => intCount_word hl l h)
          have step : ∀ a : List (Bool × Bool), ∃ g : List (List (Bool × Bool)) → List (List (Bool × Bool)),
              Set.BijOn g {x | Fit m (fl.map (·.1)) x} {x | Fit m (fl.map (·.1)) x} ∧
              (a.length = intCount m l → ∀ r, Fit m (fl.map (·.1)) r →
                SameCourse (interact adv sent (execLayers wgmw m party inp (tailW other k (a :: r)) k ((l, fs) :: fl) st))
                  (interact adv sent
                    (execLayers wgmw m party inp' (tailW other k (xorP a δ :: g r)) k ((l, fs) :: fl) st'))) := by
            intro a
            by_cases ha : a.length = intCount m l
            swap
            · exact ⟨id, Set.bijOn_id _, fun h => absurd h ha⟩
            have hx : (xorP a δ).length = intCount m l := by rw [xorP_length (by omega), d1]
            have len : ∀ b : List (Bool × Bool), (tailSetup other k [b] k (intCount m l)).length = intCount m l := by
              intro b; simp only [tailSetup, partnerSetup_length, ho]
            have hrel := d2 (tailSetup other k [a] k (intCount m l)) (tailSetup other k [xorP a δ] k (intCount m l))
              (len a) (len _) (by rw [tailSetup_bits ho [] ha, tailSetup_bits ho [] hx])
            have cong : ∀ (y : Input Bool Raw) (b : List (Bool × Bool)) (r : List (List (Bool × Bool)))
                (s : Store Bool Raw), execLayers wgmw m party y (tailW other k (b :: r)) (k + 1) fl s =
                  execLayers wgmw m party y (tailW other (k + 1) r) (k + 1) fl s :=
              fun y b r s => execLayers_congrW fl (k + 1) s fun i n hi => by simp only [tailW, tailSetup_tail k i n b r hi]
            simp only [execLayers, h1, h2, h0, if_false, cong, tailW, tailSetup_head (other := other) k (intCount m l) a,
              tailSetup_head (other := other) k (intCount m l) (xorP a δ)]
            cases c1 : computeMsgs wgmw m party s1 l ⟨0, tailSetup other k [a] k (intCount m l)⟩ with
            | none =>
              cases c2 : computeMsgs wgmw m party s1' l ⟨0, tailSetup other k [xorP a δ] k (intCount m l)⟩ with
              | none => exact ⟨id, Set.bijOn_id _, fun _ _ _ => ⟨rfl, rfl⟩⟩
              | some _ => rw [c1, c2] at hrel; exact hrel.elim
            | some w =>
              cases c2 : computeMsgs wgmw m party s1' l ⟨0, tailSetup other k [xorP a δ] k (intCount m l)⟩ with
              | none => rw [c1, c2] at hrel; exact hrel.elim
              | some w' =>
                rw [c1, c2] at hrel
                obtain ⟨msg, t⟩ := w
                obtain ⟨msg', t'⟩ := w'
                obtain ⟨e1, e2, e3, e4⟩ := hrel
                dsimp only at e1 e2 e3 e4
                subst e1 e2 e3
                simp only [interact]
                cases hadv : adv (sent ++ [msg]) with
                | none => exact ⟨id, Set.bijOn_id _, fun _ _ _ => ⟨rfl, rfl⟩⟩
                | some r =>
                  dsimp only
                  have hf := finish_alikeW (m := m) (free_alikeW hev fs) party l msg r e4 0
                    (t := tailSetup other k [a] k (intCount m l))
                    (t' := tailSetup other k [xorP a δ] k (intCount m l)) (by rw [len, len])
                  cases f1 : finishLayer wgmw m party (free wgmw s1 fs) l msg r ⟨0, tailSetup other k [a] k (intCount m l)⟩ with
                  | none =>
                    cases f2 : finishLayer wgmw m party (free wgmw s1' fs) l msg r
                        ⟨0, tailSetup other k [xorP a δ] k (intCount m l)⟩ with
                    | none => exact ⟨id, Set.bijOn_id _, fun _ _ _ => ⟨rfl, rfl⟩⟩
                    | some _ => rw [f1, f2] at hf; exact hf.elim
                  | some s2 =>
                    cases f2 : finishLayer wgmw m party (free wgmw s1' fs) l msg r
                        ⟨0, tailSetup other k [xorP a δ] k (intCount m l)⟩ with
                    | none => rw [f1, f2] at hf; exact hf.elim
                    | some s2' =>
                      rw [f1, f2] at hf
                      obtain ⟨g, g1, g2⟩ := ih (k + 1) s2 s2' (sent ++ [msg]) hf
                      exact ⟨g, g1, fun _ r hr => g2 r hr⟩
          choose g g1 g2 using step
          let F : List (List (Bool × Bool)) → List (List (Bool × Bool)) := fun x =>
            match x with
            | [] => []
            | a :: r => xorP a δ :: g a r
          refine ⟨F, ⟨?_, ?_, ?_⟩, ?_⟩
          · intro x hx
            obtain ⟨a, r, rfl, ha, hr⟩ := (fit_cons h0 x).1 hx
            exact (fit_cons h0 _).2 ⟨xorP a δ, g a r, rfl, by rw [xorP_length (by omega), d1], (g1 a).mapsTo hr⟩
          · intro x hx y hy hxy
            obtain ⟨a, r, rfl, ha, hr⟩ := (fit_cons h0 x).1 hx
            obtain ⟨b, q, rfl, hb, hq⟩ := (fit_cons h0 y).1 hy
            simp only [F, List.cons.injEq] at hxy
            have hab : a = b := by
              rw [← xorP_twice (x := a) (y := δ) (by omega), hxy.1, xorP_twice (by omega)]
            subst hab
            rw [(g1 a).injOn hr hq hxy.2]
          · intro y hy
            obtain ⟨b, q, rfl, hb, hq⟩ := (fit_cons h0 y).1 hy
            obtain ⟨r, hr, rfl⟩ := (g1 (xorP b δ)).surjOn hq
            refine ⟨xorP b δ :: r, (fit_cons h0 _).2 ⟨_, _, rfl, by rw [xorP_length (by omega), d1], hr⟩, ?_⟩
            simp only [F, xorP_twice (x := b) (y := δ) (by omega)]
          · intro x hx
            obtain ⟨a, r, rfl, ha, hr⟩ := (fit_cons h0 x).1 hx
            exact g2 a ha r hr

/-! ### Theorems -/

/-- C95.  Privacy of Boolean GMW on SIMD shares in words against a peer with any strategy `adv` (C88), if the
triples of every layer begin at a word and all numbers of lanes are multiples of 64.  If the triples begin
elsewhere the claim is false (`words_leak`). -/
theorem gmw_words_active_private (m : Multi BoolGate) (rank : Node → Nat) (w : WF m rank) (hu : Unmixed m)
    (party : Nat) (hl : WordLanes m) (hk : WordPacks m) (inp inp' : Input Bool Raw)
    (hs : SameShapeW inp inp') (init : Store Bool Raw) (hinit : ∀ v, (init.ve v).WF ∧ (init.ve v).len % 64 = 0) :
    ∃ it ls, MIter.new m = some it ∧
      MIter.collect m ((m.circs.map fun c => c.gates.length).sum + 1) it = some ls ∧
      ∀ (other : Nat → Nat → List Triple), (∀ k n, (other k n).length = n) →
      ∀ (adv : List (Msg × Option SimdMsg) → Option (Msg × Option SimdMsg)),
      ∃ f : List (List (Bool × Bool)) → List (List (Bool × Bool)),
        Set.BijOn f {x | Fit m ls x} {x | Fit m ls x} ∧
        ∀ masks, Fit m ls masks → ∃ (seen : List (Msg × Option SimdMsg)) (o o' : Option (Input Bool Raw)),
          interact adv [] (execute wgmw m party inp (wordSetup 0 other masks) init) = (seen, o) ∧
          interact adv [] (execute wgmw m party inp' (wordSetup 0 other (f masks)) init) = (seen, o') ∧
          o.isSome = o'.isSome := by
  obtain ⟨it, ls, e1, e2, ok⟩ := layers_ok_partial m rank w
  refine ⟨it, ls, e1, e2, fun other ho adv => ?_⟩
  obtain ⟨fl, e3, hfl, hfree⟩ := freeable_spec (m := m) ls [] (fun _ => none)
    (by simpa using ok.once) (by intro u _; simp) (by intro w hw; simp at hw) ok.topo
  have hum := unmixed_layers hu ok
  rw [← hfl] at hum
  have tail : ∀ x, tailW other 0 x = wordSetup 0 other x := by
    intro x; funext i n; simp [tailW, wordSetup, tailSetup, partnerSetup]
  cases hc : m.circs[0]? with
  | none =>
    refine ⟨id, Set.bijOn_id _, fun x _ => ⟨[], none, none, ?_, ?_, rfl⟩⟩ <;> simp [execute, hc, interact]
  | some c =>
    have hiff : InputLen c inp ↔ InputLen c inp' := by
      match inp, inp', hs with
      | .scalar a, .scalar b, hs => simp only [SameShapeW] at hs; simp only [InputLen, hs]
      | .simd a, .simd b, hs =>
        have : a.length = b.length := List.Forall₂.length_eq hs
        simp only [InputLen, this]
    have yes : ∀ (y : Input Bool Raw) (su : Nat → Nat → Mts), InputLen c y →
        execute wgmw m party y su init = execLayers wgmw m party y su 0 fl init := by
      intro y su hy
      cases y <;> simp only [InputLen] at hy <;> simp [execute, hc, hy, e1, e2, e3]
    have no : ∀ (y : Input Bool Raw) (su : Nat → Nat → Mts), ¬ InputLen c y →
        execute wgmw m party y su init = .fail := by
      intro y su hy
      cases y <;> simp only [InputLen] at hy <;> simp [execute, hc, hy]
    by_cases hc' : InputLen c inp
    · obtain ⟨f, f1, f2⟩ := layers_activeW (party := party) hl hk hs ho adv fl hum 0 init init [] ⟨rfl, fun v => ⟨(hinit v).1, (hinit v).1, rfl, rfl, (hinit v).2⟩⟩
      rw [hfl] at f1 f2
      refine ⟨f, f1, fun x hx => ?_⟩
      have := f2 x hx
      rw [tail, tail] at this
      refine ⟨(interact adv [] (execLayers wgmw m party inp (wordSetup 0 other x) 0 fl init)).1, _, _, ?_, ?_, this.2⟩
      · rw [yes _ _ hc']
      · rw [yes _ _ (hiff.1 hc'), this.1]
    · refine ⟨id, Set.bijOn_id _, fun x _ => ⟨[], none, none, ?_, ?_, rfl⟩⟩
      · rw [no _ _ hc']; rfl
      · rw [no _ _ fun h => hc' (hiff.2 h)]; rfl

/-! ### Triples that do not begin at a word -/

/-- `output(x & y)` with 64 lanes. -/
def oneAnd64 : Base BoolGate :=
  { gates := [.base .input, .base .input, .and, .base .output]
    edges := [(0, 2), (1, 2), (2, 3)]
    simdSize := some 64, interactiveCount := 1, inputGates := [0, 1], outputGates := [3] }

theorem interact_prefix {M O : Type} (adv : List M → Option M) (p : Proc M O) :
    ∀ sent, ∃ more, (interact adv sent p).1 = sent ++ more := by
  induction p with
  | done o => intro sent; exact ⟨[], by simp [interact]⟩
  | fail => intro sent; exact ⟨[], by simp [interact]⟩
  | send m k ih =>
    intro sent
    obtain ⟨more, h⟩ := ih (sent ++ [m])
    exact ⟨m :: more, by simp [interact, h]⟩
  | recv k ih =>
    intro sent
    simp only [interact]
    cases adv sent with
    | none => exact ⟨[], by simp⟩
    | some r => exact ih r sent

theorem oneAnd64_first (x y : Raw) (su : Nat → Nat → Mts) (msg : SimdMsg)
    (hm : computeMsgWords [y.clone, x.clone] (su 0 64) = some msg) :
    ∃ k, execute wgmw (.ofBase oneAnd64) 0 (.simd [x, y]) su noRaw =
      .send (⟨0, [], []⟩, some msg) k := by
  obtain ⟨fs, ls, hfl⟩ : ∃ fs ls, (do
      let it ← MIter.new (Multi.ofBase oneAnd64)
      let ls ← MIter.collect (Multi.ofBase oneAnd64) 5 it
      freeable (Multi.ofBase oneAnd64) (fun _ => none) ls) = some (([(0, ⟨[0, 1], [2]⟩)], fs) :: ls) := ⟨_, _, rfl⟩
  have he : execute wgmw (.ofBase oneAnd64) 0 (.simd [x, y]) su noRaw =
      execLayers wgmw (.ofBase oneAnd64) 0 (.simd [x, y]) su 0 (([(0, ⟨[0, 1], [2]⟩)], fs) :: ls) noRaw := by
    unfold execute
    have hcirc : (Multi.ofBase oneAnd64).circs[0]? = some oneAnd64 := rfl
    have hs : (List.map (fun c => c.gates.length) (Multi.ofBase oneAnd64).circs).sum + 1 = 5 := rfl
    simp only [hcirc, hs, Option.bind_eq_bind, Option.bind_some]
    simp only [Option.bind_eq_bind] at hfl
    rw [hfl]
    rfl
  rw [he]
  obtain ⟨st, hst, h0, h1⟩ : ∃ st, evalNodes wgmw (.ofBase oneAnd64) 0 (.simd [x, y]) noRaw (niOf [(0, ⟨[0, 1], [2]⟩)]) = some st ∧
     st.getSimd (.ofBase oneAnd64) (0, 0) = some x.clone ∧ st.getSimd (.ofBase oneAnd64) (0, 1) = some y.clone := ⟨_, rfl, rfl, rfl⟩
  have hp : (Multi.ofBase oneAnd64).parents (0, 2) = [(0, 1), (0, 0)] := by decide
  have hc : computeMsgs wgmw (.ofBase oneAnd64) 0 st [(0, ⟨[0, 1], [2]⟩)] (su 0 64) = some ((⟨0, [], []⟩, some msg), su 0 64) := by
    have i0 : intScalar (Multi.ofBase oneAnd64) [(0, ⟨[0, 1], [2]⟩)] = [] := by decide
    have i1 : intSimd (Multi.ofBase oneAnd64) [(0, ⟨[0, 1], [2]⟩)] = [(0, 2)] := by decide
    have g2 : (Multi.ofBase oneAnd64).gate? (0, 2) = some .and := rfl
    simp only [computeMsgs, i0, i1, List.mapM_nil, List.mapM_cons, wgmw, Option.bind_eq_bind, Option.pure_def, Option.bind_some,
          computeMsg, computeMsgPairs, List.flatten_nil, Option.map_some, if_true, hp, h0, h1, g2, List.flatten_cons,
          List.append_nil, hm]
    rfl
  have hn : intCount (Multi.ofBase oneAnd64) [(0, ⟨[0, 1], [2]⟩)] = 64 := by decide
  simp only [execLayers, hst, hn, hc]
  exact ⟨_, rfl⟩

/-- C95 fails for triples that begin at a position other than 0 of a word: the share of the first lane is sent in
the clear.  Whatever the masks of the triples, the peer sees different messages for two different shares. -/
theorem words_leak (h : Nat) (h0 : 0 < h) (h64 : h < 64) (other : Nat → Nat → List Triple)
    (ho : ∀ k n, (other k n).length = n) (masks masks' : List (List (Bool × Bool)))
    (adv : List (Msg × Option SimdMsg) → Option (Msg × Option SimdMsg)) (x y x' y' : List Bool)
    (lx : x.length = 64) (ly : y.length = 64) (lx' : x'.length = 64) (ly' : y'.length = 64)
    (hd : x[0]? ≠ x'[0]?) :
    (interact adv [] (execute wgmw (.ofBase oneAnd64) 0 (.simd [ofBits x, ofBits y])
      (wordSetup h other masks) noRaw)).1 ≠
    (interact adv [] (execute wgmw (.ofBase oneAnd64) 0 (.simd [ofBits x', ofBits y'])
      (wordSetup h other masks') noRaw)).1 := by
  have first : ∀ (x y : List Bool) (masks : List (List (Bool × Bool))), x.length = 64 → y.length = 64 →
      ∃ msg more, (interact adv [] (execute wgmw (.ofBase oneAnd64) 0 (.simd [ofBits x, ofBits y])
        (wordSetup h other masks) noRaw)).1 = (⟨0, [], []⟩, some msg) :: more ∧ msg.d[0]? = x[0]? := by
    intro x y masks lx ly
    have lt : (wordSetup h other masks 0 64).ts.length = 64 := by
      simp [wordSetup, partnerSetup_length, ho]
    obtain ⟨msg, hm, hb⟩ := words_message_unmasked [(y, x)] [(ofBits y).clone, (ofBits x).clone]
      (wordSetup h other masks 0 64) (by simp [clone_live, ofBits_live, operandSeq])
      (by simp [lx, ly]) (by simp [lt, ly])
    obtain ⟨k, hk⟩ := oneAnd64_first (ofBits x) (ofBits y) _ msg hm
    obtain ⟨more, hmore⟩ := interact_prefix adv k [(⟨0, [], []⟩, some msg)]
    refine ⟨msg, more, ?_, ?_⟩
    · rw [hk]
      simp only [interact, List.nil_append, hmore, List.singleton_append]
    · have := (hb 0 (by simp [ly]) (by simp only [List.map_cons, List.map_nil, List.sum_cons, List.sum_nil, ly, lt]; simp only [wordSetup]; omega)).1
      simpa using this
  obtain ⟨m1, r1, e1, b1⟩ := first x y masks lx ly
  obtain ⟨m2, r2, e2, b2⟩ := first x' y' masks' lx' ly'
  intro e
  rw [e1, e2] at e
  simp only [List.cons.injEq, Prod.mk.injEq, Option.some.injEq, true_and] at e
  rw [e.1, b2] at b1
  exact hd b1.symm

/-- The hypotheses of `gmw_words_active_private` hold for the same circuit and any two pairs of shares. -/
example : WF (.ofBase oneAnd64) (fun v => v.2) ∧ Unmixed (.ofBase oneAnd64) ∧ WordLanes (.ofBase oneAnd64) ∧
    WordPacks (.ofBase oneAnd64) ∧
    (∀ x y x' y' : List Bool, x.length = 64 → y.length = 64 → x'.length = 64 → y'.length = 64 →
      SameShapeW (.simd [ofBits x, ofBits y]) (.simd [ofBits x', ofBits y'])) ∧
    ∀ v, (noRaw.ve v).WF ∧ (noRaw.ve v).len % 64 = 0 := by
  have hok : BaseOk oneAnd64 := by
    refine ⟨by decide, ?_, ?_, ⟨by decide, by decide, by decide, by decide, by decide⟩⟩
    · intro i g h
      have hi : i < 4 := (List.getElem?_eq_some_iff.1 h).1
      interval_cases i <;> simp [oneAnd64] at h <;> subst h <;> decide
    · intro i g h
      have hi : i < 4 := (List.getElem?_eq_some_iff.1 h).1
      interval_cases i <;> simp [oneAnd64] at h <;> subst h <;> decide
  refine ⟨baseOk_wf oneAnd64 hok, base_unmixed _, ?_, ?_, ?_, fun v => ⟨ofBits_wf _, rfl⟩⟩
  · intro i hi
    match i, hi with
    | 0, _ => decide
    | i + 1, hi => simp [isSimd, Multi.ofBase] at hi
  · intro v _ _ h
    simp [isSimd, Multi.ofBase, oneAnd64] at h
  · intro x y x' y' a b c d
    exact .cons (sameRaw_ofBits (by omega) (by omega)) (.cons (sameRaw_ofBits (by omega) (by omega)) .nil)

end Verif.Exec
