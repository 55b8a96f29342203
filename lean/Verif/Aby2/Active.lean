import Verif.Aby2.Private
import Verif.Exec.Active

/-!
C91: a party of Boolean ABY2 against a peer that does whatever it likes.
-/
set_option autoImplicit false

namespace Verif.Aby2

open Gmw (BaseGate)
open Circuit Exec Proc

/-! ### Specification -/

/-- The gate outputs `init` with the private parts (masks) `x`. -/
def withMasks (init : Store Share (List Share)) (x : Node → Bool) : Store Share (List Share) :=
  { init with sc := fun v => ⟨(init.sc v).pub, x v⟩ }

/-- The data for the `k`-th layer with AND gates depends at most on the masks of the AND gates of earlier layers. -/
def Causal (m : Multi Gate) (ls : List MLayer) (su : (Node → Bool) → Nat → Nat → SetupData) : Prop :=
  ∀ k l, (interactiveLayers m ls)[k]? = some l → ∀ x y,
    (∀ l' ∈ (interactiveLayers m ls).take k, ∀ v ∈ intScalar m l', x v = y v) →
    su x k (intCount m l) = su y k (intCount m l)

/-- The number of bits for each gate is the same. -/
def SameSizes (m : Multi Gate) (ls : List MLayer) (su su' : (Node → Bool) → Nat → Nat → SetupData) : Prop :=
  ∀ k l, (interactiveLayers m ls)[k]? = some l → ∀ x y,
    (su x k (intCount m l)).map List.length = (su' y k (intCount m l)).map List.length

/-! ### Proof -/

/-- `s` is `st` with the masks `x` for the gates `N` that are still to come; only the gates `D` have been evaluated. -/
structure On (D N : List Node) (st : Store Share (List Share)) (x : Node → Bool) (s : Store Share (List Share)) :
    Prop where
  set : s.set = st.set
  done : ∀ v ∈ D, s.sc v = st.sc v
  mask : ∀ v ∈ N, s.sc v = ⟨(st.sc v).pub, x v⟩

variable {m : Multi Gate} {D N : List Node} {st s : Store Share (List Share)} {x : Node → Bool}

theorem get_on (h : On D N st x s) {v : Node} (hv : v ∈ D) : s.get m v = st.get m v := by
  unfold Store.get
  rw [h.set, h.done v hv]

theorem gets_on (h : On D N st x s) : ∀ {vs : List Node}, (∀ v ∈ vs, v ∈ D) →
    vs.mapM (s.get m) = vs.mapM (st.get m)
  | [], _ => rfl
  | v :: vs, hv => by
    simp only [List.mapM_cons, get_on h (hv v List.mem_cons_self),
      gets_on h (fun u hu => hv u (List.mem_cons_of_mem _ hu))]

theorem put_on (h : On D N st x s) (v : Node) (a : Share) (hv : v ∉ N) :
    OptRel (fun st1 s1 => On (D ++ [v]) N st1 x s1) (st.put m v a) (s.put m v a) := by
  unfold Store.put
  split
  · trivial
  · refine ⟨by simp [h.set], fun u hu => ?_, fun u hu => ?_⟩
    · dsimp only
      split
      · rfl
      · rename_i hne
        rw [List.mem_append, List.mem_singleton] at hu
        exact h.done u (hu.resolve_right hne)
    · have hne : u ≠ v := fun e => hv (e ▸ hu)
      simp only [if_neg hne]
      exact h.mask u hu

theorem evalNode_on (hns : ∀ i, isSimd m i = false) {party : Nat} {inp : Input Share (List Share)}
    (h : On D N st x s) {v : Node} (hv : v ∉ N) (hp : ∀ u ∈ m.parents v, u ∈ D) :
    OptRel (fun st1 s1 => On (D ++ [v]) N st1 x s1) (evalNode aby2 m party inp st v) (evalNode aby2 m party inp s v) := by
  unfold evalNode
  simp only [Option.bind_eq_bind, hns, gets_on h hp, Bool.false_eq_true, if_false]
  refine OptRel.bind_eq fun g => ?_
  cases hg : asBase g with
  | none => exact OptRel.bind_eq fun xs => OptRel.bind_eq fun o => put_on h v o hv
  | some b =>
    cases b with
    | input =>
      dsimp only
      split
      · refine OptRel.bind_eq fun c => OptRel.bind_eq fun idx => ?_
        cases inp with
        | scalar xs => exact OptRel.bind_eq fun a => OptRel.bind_eq fun o => put_on h v o hv
        | simd xs => trivial
      · trivial
    | connectToMainFromSimd sel =>
      dsimp only
      refine OptRel.bind_eq fun p => ?_
      simp [Store.getSimd, hns, OptRel]
    | constant val =>
      dsimp only
      exact put_on h v _ hv
    | _ => exact OptRel.bind_eq fun xs => OptRel.bind_eq fun o => put_on h v o hv

theorem evalNodes_on (hns : ∀ i, isSimd m i = false) {party : Nat} {inp : Input Share (List Share)}
    (vs : List Node) : ∀ {D : List Node} {st s : Store Share (List Share)}, On D N st x s → (∀ v ∈ vs, v ∉ N) →
    (∀ a v b, vs = a ++ v :: b → ∀ u ∈ m.parents v, u ∈ D ++ a) →
    OptRel (fun st1 s1 => On (D ++ vs) N st1 x s1) (evalNodes aby2 m party inp st vs) (evalNodes aby2 m party inp s vs) := by
  induction vs with
  | nil => intro D st s h _ _; simpa [evalNodes, OptRel] using h
  | cons v vs ih =>
    intro D st s h hv hp
    simp only [evalNodes, Option.bind_eq_bind]
    refine (evalNode_on hns h (hv v List.mem_cons_self) fun u hu => ?_).bind fun a b hab => ?_
    · simpa using hp [] v vs rfl u hu
    · have := ih hab (fun u hu => hv u (List.mem_cons_of_mem _ hu)) fun a' v' b' e u hu => by
        have := hp (v :: a') v' b' (by simp [e]) u hu
        simpa using this
      simpa using this

/-! The same entries are set in the two cases -/

theorem get_set {st st' : Store Share (List Share)} (h : st.set = st'.set) (v : Node) :
    OptRel (fun _ _ => True) (st.get m v) (st'.get m v) := by
  unfold Store.get
  rw [h]
  split
  · trivial
  · split <;> simp [OptRel]

theorem gets_set {st st' : Store Share (List Share)} (h : st.set = st'.set) (l : List Node) :
    OptRel (List.Forall₂ fun _ _ => True) (l.mapM (st.get m)) (l.mapM (st'.get m)) := mapM_rel (get_set h) l

theorem put_same {st st' : Store Share (List Share)} (h : st.set = st'.set) (v : Node) (a b : Share) :
    OptRel (fun s s' => s.set = s'.set) (st.put m v a) (st'.put m v b) := by
  unfold Store.put
  split
  · trivial
  · simp [OptRel, h]

theorem evalLocal_set (party : Nat) (g : Gate) {xs ys : List Share} (h : List.Forall₂ (fun _ _ => True) xs ys) :
    OptRel (fun _ _ => True) (evalLocal party g xs) (evalLocal party g ys) := by
  cases g with
  | base b =>
    cases b <;> cases h <;> simp [evalLocal, BaseGate.defaultEvaluate, OptRel]
  | and => trivial
  | xor =>
    cases h with
    | nil => trivial
    | cons _ h => cases h <;> simp [evalLocal, OptRel]
  | inv => cases h <;> simp [evalLocal, OptRel]

theorem evalNode_set (hns : ∀ i, isSimd m i = false) {party : Nat} {inp inp' : List Share}
    (hl : inp.length = inp'.length) {st st' : Store Share (List Share)} (h : st.set = st'.set) (v : Node) :
    OptRel (fun s s' => s.set = s'.set) (evalNode aby2 m party (.scalar inp) st v)
      (evalNode aby2 m party (.scalar inp') st' v) := by
  unfold evalNode
  simp only [Option.bind_eq_bind, hns, Bool.false_eq_true, if_false]
  refine OptRel.bind_eq fun g => ?_
  have def1 : OptRel (fun s s' : Store Share (List Share) => s.set = s'.set)
      (((m.parents v).mapM (st.get m)).bind fun xs => (aby2.evalLocal party g xs).bind fun o => st.put m v o)
      (((m.parents v).mapM (st'.get m)).bind fun xs => (aby2.evalLocal party g xs).bind fun o => st'.put m v o) :=
    (gets_set h _).bind fun xs ys hx => (evalLocal_set party g hx).bind fun a b _ => put_same h v a b
  cases hg : asBase g with
  | none => exact def1
  | some b =>
    cases b with
    | input =>
      dsimp only
      split
      · refine OptRel.bind_eq fun c => OptRel.bind_eq fun idx => ?_
        exact (getElem_rel (forall_true hl) idx).bind fun x y hxy =>
          (evalLocal_set party g (.cons trivial .nil)).bind fun a b _ => put_same h v a b
      · trivial
    | connectToMainFromSimd sel =>
      dsimp only
      refine OptRel.bind_eq fun p => ?_
      simp [Store.getSimd, hns, OptRel]
    | constant val =>
      dsimp only
      exact put_same h v _ _
    | _ => exact def1

theorem evalNodes_set (hns : ∀ i, isSimd m i = false) {party : Nat} {inp inp' : List Share}
    (hl : inp.length = inp'.length) (vs : List Node) : ∀ {st st' : Store Share (List Share)}, st.set = st'.set →
    OptRel (fun s s' => s.set = s'.set) (evalNodes aby2 m party (.scalar inp) st vs)
      (evalNodes aby2 m party (.scalar inp') st' vs) := by
  induction vs with
  | nil => intro st st' h; exact h
  | cons v vs ih =>
    intro st st' h
    simp only [evalNodes, Option.bind_eq_bind]
    exact (evalNode_set hns hl h v).bind fun a b hab => ih hab

theorem putAll_set (vs : List Node) : ∀ {st st' : Store Share (List Share)} {xs ys : List Share}, st.set = st'.set →
    xs.length = ys.length → OptRel (fun s s' => s.set = s'.set) (putAll m st vs xs) (putAll m st' vs ys) := by
  induction vs with
  | nil => intro st st' xs ys h _; exact h
  | cons v vs ih =>
    intro st st' xs ys h hl
    match xs, ys, hl with
    | [], [], _ => exact h
    | x :: xs, y :: ys, hl =>
      simp only [putAll, Option.bind_eq_bind]
      exact (put_same h v x y).bind fun a b hab => ih hab (by simpa using hl)

theorem outputs_set (hns : ∀ i, isSimd m i = false) {st st' : Store Share (List Share)} (h : st.set = st'.set) :
    OptRel (fun _ _ => True) (outputs m st) (outputs m st') := by
  unfold outputs
  simp only [Option.bind_eq_bind, Option.pure_def, hns, Bool.false_eq_true, if_false]
  refine OptRel.bind_eq fun c => ?_
  exact (mapM_rel (fun g => get_set h (0, g)) _).bind fun _ _ _ => trivial

/-! The masks that give the same message -/

theorem pop_sizes {d d' : SetupData} (h : d.map List.length = d'.map List.length) :
    OptRel (fun p q => p.1.length = q.1.length ∧ p.2.map List.length = q.2.map List.length) (pop d) (pop d') := by
  unfold pop
  have h' : d.reverse.map List.length = d'.reverse.map List.length := by simp [List.map_reverse, h]
  generalize d.reverse = a, d'.reverse = b at h'
  match a, b, h' with
  | [], [], _ => trivial
  | x :: a, y :: b, h' =>
    simp only [List.map_cons, List.cons.injEq] at h'
    exact ⟨h'.1, by simp [List.map_reverse, h'.2]⟩

theorem pop_len {α β : Type} {d : List α} {d' : List β} (h : d.length = d'.length) :
    OptRel (fun p q => p.2.length = q.2.length) (pop d) (pop d') := by
  unfold pop
  have h' : d.reverse.length = d'.reverse.length := by simp [h]
  generalize d.reverse = a, d'.reverse = b at h'
  match a, b, h' with
  | [], [], _ => trivial
  | x :: a, y :: b, h' =>
    simp only [List.length_cons, Nat.succ.injEq] at h'
    simp [OptRel, h']

theorem combos_length {α β : Type} : ∀ (k : Nat) {l : List α} {l' : List β}, l.length = l'.length →
    (combos k l).length = (combos k l').length
  | 0, _, _, _ => by simp [combos]
  | _ + 1, [], [], _ => by simp [combos]
  | k + 1, x :: l, y :: l', h => by
    have h : l.length = l'.length := by simpa using h
    simp only [combos, List.length_append, List.length_map, combos_length k h, combos_length (k + 1) h]

theorem powerset_len {α β : Type} {l : List α} {l' : List β} (h : l.length = l'.length) :
    (powerset l).length = (powerset l').length := by
  unfold powerset
  rw [List.length_flatMap, List.length_flatMap, h]
  congr 1
  exact List.map_congr_left fun k _ => combos_length k h

/-- A bit of the message is the mask of the gate and something that does not depend on it. -/
def core (party : Nat) (g : Gate) (inputs : List Share) (shares : List Bool) : Option Bool :=
  match g with
  | .and 2 => do
    let a ← inputs[0]?
    let b ← inputs[1]?
    let (s, _) ← pop shares
    pure ((((decide (party = 1) && (a.pub && b.pub)) ^^ (a.pub && b.priv)) ^^ (b.pub && a.priv)) ^^ s)
  | .and n => do
    let inputs := inputs.take n
    let deltas := shares.reverse ++ inputs.reverse.map (·.priv)
    let psets := (powerset inputs).map fun s => s.foldl (fun acc a => acc && a.pub) true
    let (mulPlain, psets) ← pop psets
    if psets.length = deltas.length then
      pure ((decide (party = 1) && mulPlain) ^^ (psets.zip deltas).foldl (fun acc p => acc && p.1 && p.2) true)
    else none
  | _ => none

theorem share_core (party : Nat) (g : Gate) (xs : List Share) {sh : List Bool} {d dr : SetupData} (o : Share)
    (h : pop d = some (sh, dr)) :
    computeDeltaShare party g xs d o = (core party g xs sh).map fun c => (c ^^ o.priv, dr) := by
  unfold computeDeltaShare core
  rw [h]
  simp only [Option.bind_eq_bind, Option.bind_some, Option.pure_def]
  have big : ∀ n,
      ((pop ((powerset (xs.take n)).map fun s => s.foldl (fun acc a => acc && a.pub) true)).bind fun q =>
        if q.2.length = (sh.reverse ++ (xs.take n).reverse.map (·.priv)).length then
          some (((decide (party = 1) && q.1) ^^
            (q.2.zip (sh.reverse ++ (xs.take n).reverse.map (·.priv))).foldl (fun acc p => acc && p.1 && p.2) true) ^^
              o.priv, dr)
        else none) =
      ((pop ((powerset (xs.take n)).map fun s => s.foldl (fun acc a => acc && a.pub) true)).bind fun q =>
        if q.2.length = (sh.reverse ++ (xs.take n).reverse.map (·.priv)).length then
          some ((decide (party = 1) && q.1) ^^
            (q.2.zip (sh.reverse ++ (xs.take n).reverse.map (·.priv))).foldl (fun acc p => acc && p.1 && p.2) true)
        else none).map fun c => (c ^^ o.priv, dr) := by
    intro n
    cases pop ((powerset (xs.take n)).map fun s => s.foldl (fun acc a => acc && a.pub) true) with
    | none => rfl
    | some p =>
      simp only [Option.bind_some]
      split <;> simp
  cases g with
  | and n =>
    match n with
    | 2 =>
      cases xs[0]? <;> cases xs[1]? <;> cases pop sh <;> simp
    | 0 => exact big 0
    | 1 => exact big 1
    | k + 3 => exact big (k + 3)
  | _ => rfl

theorem core_sizes (party : Nat) (g : Gate) {xs ys : List Share} {sh sh' : List Bool} (h : xs.length = ys.length)
    (hs : sh.length = sh'.length) : OptRel (fun _ _ => True) (core party g xs sh) (core party g ys sh') := by
  unfold core
  simp only [Option.bind_eq_bind, Option.pure_def]
  have big : ∀ n, OptRel (fun _ _ => True)
      ((pop ((powerset (xs.take n)).map fun s => s.foldl (fun acc a => acc && a.pub) true)).bind fun q =>
        if q.2.length = (sh.reverse ++ (xs.take n).reverse.map (·.priv)).length then
          some ((decide (party = 1) && q.1) ^^
            (q.2.zip (sh.reverse ++ (xs.take n).reverse.map (·.priv))).foldl (fun acc p => acc && p.1 && p.2) true)
        else none)
      ((pop ((powerset (ys.take n)).map fun s => s.foldl (fun acc a => acc && a.pub) true)).bind fun q =>
        if q.2.length = (sh'.reverse ++ (ys.take n).reverse.map (·.priv)).length then
          some ((decide (party = 1) && q.1) ^^
            (q.2.zip (sh'.reverse ++ (ys.take n).reverse.map (·.priv))).foldl (fun acc p => acc && p.1 && p.2) true)
        else none) := by
    intro n
    have hl : (xs.take n).length = (ys.take n).length := by simp [h]
    refine (pop_len (by simpa using powerset_len hl)).bind fun p q hpq => ?_
    have e1 : (sh.reverse ++ (xs.take n).reverse.map (·.priv)).length =
        (sh'.reverse ++ (ys.take n).reverse.map (·.priv)).length := by simp [h, hs]
    rw [e1, hpq]
    split <;> simp [OptRel]
  cases g with
  | and n =>
    match n with
    | 2 =>
      refine (getElem_rel (forall_true h) 0).bind fun a b _ => (getElem_rel (forall_true h) 1).bind fun a b _ => ?_
      exact (pop_len hs).bind fun _ _ _ => trivial
    | 0 => exact big 0
    | 1 => exact big 1
    | k + 3 => exact big (k + 3)
  | _ => trivial

/-- The masks of a layer that give the same message with other operands and setup data. -/
theorem deltas_shift (party : Nat) (gs : List (Gate × Node)) : ∀ (xs ys : List Share) (d d' : SetupData),
    xs.length = ys.length → d.map List.length = d'.map List.length → (gs.map (·.2)).Nodup →
    ∃ δ : Node → Bool, ∀ σ σ' : Node → Share, (∀ p ∈ gs, (σ' p.2).priv = ((σ p.2).priv ^^ δ p.2)) →
      OptRel (fun a b => a.1 = b.1) (computeDeltas party (gs.map fun p => (p.1, σ p.2)) xs d)
        (computeDeltas party (gs.map fun p => (p.1, σ' p.2)) ys d') := by
  induction gs with
  | nil => intro xs ys d d' _ _ _; exact ⟨fun _ => false, fun σ σ' _ => rfl⟩
  | cons g gs ih =>
    intro xs ys d d' hl hd hn
    rw [List.map_cons, List.nodup_cons] at hn
    have hp := pop_sizes hd
    cases h1 : pop d with
    | none =>
      cases h2 : pop d' with
      | some q => rw [h1, h2] at hp; exact hp.elim
      | none =>
        refine ⟨fun _ => false, fun σ σ' _ => ?_⟩
        simp [computeDeltas, computeDeltaShare, h1, h2, OptRel]
    | some p =>
      cases h2 : pop d' with
      | none => rw [h1, h2] at hp; exact hp.elim
      | some q =>
        rw [h1, h2] at hp
        obtain ⟨sh, dr⟩ := p
        obtain ⟨sh', dr'⟩ := q
        obtain ⟨hp1, hp2⟩ := hp
        dsimp only at hp1 hp2
        obtain ⟨δ, hδ⟩ := ih (xs.drop g.1.inputSize) (ys.drop g.1.inputSize) dr dr' (by simp [hl]) hp2 hn.2
        have hc := core_sizes party g.1 (xs := xs.take g.1.inputSize) (ys := ys.take g.1.inputSize) (by simp [hl]) hp1
        cases c1 : core party g.1 (xs.take g.1.inputSize) sh with
        | none =>
          cases c2 : core party g.1 (ys.take g.1.inputSize) sh' with
          | some _ => rw [c1, c2] at hc; exact hc.elim
          | none =>
            refine ⟨fun _ => false, fun σ σ' _ => ?_⟩
            simp [computeDeltas, share_core party _ _ _ h1, share_core party _ _ _ h2, c1, c2, OptRel]
        | some b =>
          cases c2 : core party g.1 (ys.take g.1.inputSize) sh' with
          | none => rw [c1, c2] at hc; exact hc.elim
          | some b' =>
            refine ⟨fun v => if v = g.2 then b ^^ b' else δ v, fun σ σ' h => ?_⟩
            simp only [List.map_cons, computeDeltas, share_core party _ _ _ h1, share_core party _ _ _ h2, c1, c2,
              Option.bind_eq_bind, Option.map_some, Option.bind_some, Option.pure_def]
            refine (hδ σ σ' fun p hp => ?_).bind fun u v huv => ?_
            · have := h p (List.mem_cons_of_mem _ hp)
              dsimp only at this
              rw [if_neg] at this
              · exact this
              · intro e
                exact hn.1 (e ▸ List.mem_map_of_mem hp)
            · have := h g List.mem_cons_self
              dsimp only at this
              rw [if_pos rfl] at this
              simp only [OptRel, List.cons.injEq, huv, and_true, this]
              cases b <;> cases b' <;> cases (σ g.2).priv <;> rfl

theorem mapM_len {α β : Type} {f : α → Option β} : ∀ {l : List α} {r : List β}, l.mapM f = some r → r.length = l.length
  | [], r, h => by cases h; rfl
  | a :: l, r, h => by
    simp only [List.mapM_cons, Option.bind_eq_bind, Option.bind_eq_some_iff, Option.pure_def, Option.some.injEq] at h
    obtain ⟨b, -, c, hc, rfl⟩ := h
    simp [mapM_len hc]

/-- The gates with their operands. -/
theorem msgs_shift (party : Nat) {l : MLayer} {st st' : Store Share (List Share)} {D N : List Node}
    (hset : st.set = st'.set) (hpar : ∀ v ∈ intScalar m l, ∀ u ∈ m.parents v, u ∈ D)
    (hnd : (intScalar m l).Nodup) (hN : ∀ v ∈ intScalar m l, v ∈ N) {d d' : SetupData}
    (hd : d.map List.length = d'.map List.length) :
    ∃ δ : Node → Bool, ∀ x x' s s', On D N st x s → On D N st' x' s' →
      (∀ v ∈ intScalar m l, x' v = (x v ^^ δ v)) →
      OptRel (fun a b => a.1 = b.1) (computeMsgs aby2 m party s l d) (computeMsgs aby2 m party s' l d') := by
  have rd : ∀ {st s : Store Share (List Share)} {x : Node → Bool}, On D N st x s →
      (intScalar m l).mapM (fun v => (m.parents v).mapM (s.get m)) =
        (intScalar m l).mapM (fun v => (m.parents v).mapM (st.get m)) := by
    intro st s x h
    have : ∀ vs : List Node, (∀ v ∈ vs, v ∈ intScalar m l) →
        vs.mapM (fun v => (m.parents v).mapM (s.get m)) = vs.mapM (fun v => (m.parents v).mapM (st.get m)) := by
      intro vs
      induction vs with
      | nil => intro _; rfl
      | cons v vs ih =>
        intro hv
        simp only [List.mapM_cons, gets_on h (hpar v (hv v List.mem_cons_self)),
          ih fun u hu => hv u (List.mem_cons_of_mem _ hu)]
    exact this _ fun _ h => h
  have hrel := mapM_rel (fun v => gets_set (m := m) hset (m.parents v)) (intScalar m l)
  cases hg : (intScalar m l).mapM m.gate? with
  | none =>
    refine ⟨fun _ => false, fun x x' s s' _ _ _ => ?_⟩
    simp [computeMsgs, hg, OptRel]
  | some gs =>
    cases h1 : (intScalar m l).mapM (fun v => (m.parents v).mapM (st.get m)) with
    | none =>
      cases h2 : (intScalar m l).mapM (fun v => (m.parents v).mapM (st'.get m)) with
      | some _ => rw [h1, h2] at hrel; exact hrel.elim
      | none =>
        refine ⟨fun _ => false, fun x x' s s' hs hs' _ => ?_⟩
        simp only [computeMsgs, hg, rd hs, rd hs', h1, h2]
        trivial
    | some a =>
      cases h2 : (intScalar m l).mapM (fun v => (m.parents v).mapM (st'.get m)) with
      | none => rw [h1, h2] at hrel; exact hrel.elim
      | some b =>
        rw [h1, h2] at hrel
        replace hrel : List.Forall₂ (List.Forall₂ fun _ _ => True) a b := hrel
        have hl : a.flatten.length = b.flatten.length := by
          clear h1 h2
          induction hrel with
          | nil => rfl
          | cons h _ ih => simp only [List.flatten_cons, List.length_append, ih, h.length_eq]
        have hlen : gs.length = (intScalar m l).length := mapM_len hg
        have hz : (gs.zip (intScalar m l)).map (·.2) = intScalar m l := List.map_snd_zip (by omega)
        obtain ⟨δ, hδ⟩ := deltas_shift party (gs.zip (intScalar m l)) a.flatten b.flatten d d' hl hd (by rw [hz]; exact hnd)
        refine ⟨δ, fun x x' s s' hs hs' hx => ?_⟩
        have hzip : ∀ σ : Node → Share, gs.zip ((intScalar m l).map σ) =
            (gs.zip (intScalar m l)).map fun p => (p.1, σ p.2) := by
          intro σ; rw [List.zip_map_right]; rfl
        have key := hδ s.sc s'.sc fun p hp => by
          have hv : p.2 ∈ intScalar m l := hz ▸ List.mem_map_of_mem hp
          rw [hs.mask _ (hN _ hv), hs'.mask _ (hN _ hv)]
          exact hx _ hv
        simp only [computeMsgs, hg, rd hs, rd hs', h1, h2, Option.bind_eq_bind, Option.bind_some, aby2, computeMsg,
          Option.pure_def, Bool.false_eq_true, if_false, hzip]
        generalize computeDeltas party _ a.flatten d = A at key
        generalize computeDeltas party _ b.flatten d' = B at key
        cases A <;> cases B
        · trivial
        · exact key.elim
        · exact key.elim
        · simp only [Option.bind_some, OptRel] at key ⊢
          rw [key]

/-! One layer -/

/-- `st` with the masks `a` for the gates `L`. -/
def setMasks (L : List Node) (st : Store Share (List Share)) (a : Node → Bool) : Store Share (List Share) :=
  { st with sc := fun v => if v ∈ L then ⟨(st.sc v).pub, a v⟩ else st.sc v }

theorem setMasks_on {L : List Node} (hD : ∀ v ∈ D, v ∉ L) (st : Store Share (List Share)) (a : Node → Bool) :
    On D L st a (setMasks L st a) :=
  ⟨rfl, fun v hv => by simp [setMasks, hD v hv], fun v hv => by simp [setMasks, hv]⟩

/-- The masks of the next layer are fixed. -/
theorem On.fix (h : On D N st x s) {L N' : List Node} (hD : ∀ v ∈ D, v ∉ L) (hL : ∀ v ∈ L, v ∈ N)
    (hN : ∀ v ∈ N', v ∈ N) (hd : ∀ v ∈ N', v ∉ L) {a : Node → Bool} (ha : ∀ v ∈ L, x v = a v) :
    On (D ++ L) N' (setMasks L st a) x s := by
  refine ⟨h.set, fun v hv => ?_, fun v hv => ?_⟩
  · simp only [setMasks]
    split
    · rename_i hv'
      rw [h.mask v (hL v hv'), ha v hv']
    · rename_i hv'
      exact h.done v ((List.mem_append.1 hv).resolve_right hv')
  · simp only [setMasks, if_neg (hd v hv)]
    exact h.mask v (hN v hv)

theorem On.congr (h : On D N st x s) {y : Node → Bool} (hy : ∀ v ∈ N, y v = x v) : On D N st y s :=
  ⟨h.set, h.done, fun v hv => by rw [hy v hv]; exact h.mask v hv⟩

theorem On.free (h : On D N st x s) (fs : List Node) : On D N (free aby2 st fs) x (free aby2 s fs) :=
  ⟨h.set, h.done, h.mask⟩

theorem putAll_on (vs : List Node) : ∀ {st s : Store Share (List Share)} (zs : List Share), On D N st x s →
    (∀ v ∈ vs, v ∉ N) → OptRel (fun st1 s1 => On D N st1 x s1) (putAll m st vs zs) (putAll m s vs zs) := by
  induction vs with
  | nil => intro st s zs h _; simpa [putAll, OptRel] using h
  | cons v vs ih =>
    intro st s zs h hv
    cases zs with
    | nil => simpa [putAll, OptRel] using h
    | cons z zs =>
      simp only [putAll, Option.bind_eq_bind]
      refine (put_on h v z (hv v List.mem_cons_self)).bind fun a b hab => ?_
      exact ih zs ⟨hab.set, fun u hu => hab.done u (List.mem_append_left _ hu), hab.mask⟩
        fun u hu => hv u (List.mem_cons_of_mem _ hu)

theorem outs_on {l : MLayer} (h : On (D ++ intScalar m l) N st x s) :
    (intScalar m l).map s.sc = (intScalar m l).map st.sc :=
  List.map_congr_left fun v hv => h.done v (List.mem_append_right _ hv)

theorem msgs_on {l : MLayer} (h : On (D ++ intScalar m l) N st x s) (party : Nat)
    (hpar : ∀ v ∈ intScalar m l, ∀ u ∈ m.parents v, u ∈ D) (d : SetupData) :
    computeMsgs aby2 m party s l d = computeMsgs aby2 m party st l d := by
  have rd : (intScalar m l).mapM (fun v => (m.parents v).mapM (s.get m)) =
      (intScalar m l).mapM (fun v => (m.parents v).mapM (st.get m)) := by
    have : ∀ vs : List Node, (∀ v ∈ vs, v ∈ intScalar m l) →
        vs.mapM (fun v => (m.parents v).mapM (s.get m)) = vs.mapM (fun v => (m.parents v).mapM (st.get m)) := by
      intro vs
      induction vs with
      | nil => intro _; rfl
      | cons v vs ih =>
        intro hv
        simp only [List.mapM_cons,
          gets_on h (fun u hu => List.mem_append_left _ (hpar v (hv v List.mem_cons_self) u hu)),
          ih fun u hu => hv u (List.mem_cons_of_mem _ hu)]
    exact this _ fun _ h => h
  simp only [computeMsgs, rd, outs_on h, aby2, Bool.false_eq_true, if_false]

theorem finish_on {l : MLayer} (h : On (D ++ intScalar m l) N st x s) (party : Nat)
    (hd : ∀ v ∈ intScalar m l, v ∉ N) (own other : Msg × Option Unit) (t : SetupData) :
    OptRel (fun st1 s1 => On (D ++ intScalar m l) N st1 x s1) (finishLayer aby2 m party st l own other t)
      (finishLayer aby2 m party s l own other t) := by
  unfold finishLayer
  simp only [Option.bind_eq_bind, aby2, outs_on h, Option.bind_some]
  refine OptRel.bind_eq fun gs => ?_
  cases own.2 <;> cases other.2 <;> simp only [Option.bind_none]
  · exact putAll_on _ _ h hd
  · trivial
  · trivial
  · cases (intSimd m l).mapM m.gate? <;> trivial

theorem finish_set {st st' : Store Share (List Share)} (h : st.set = st'.set) (party : Nat) (l : MLayer)
    (own other : Msg × Option Unit) (t t' : SetupData) :
    OptRel (fun s s' => s.set = s'.set) (finishLayer aby2 m party st l own other t)
      (finishLayer aby2 m party st' l own other t') := by
  unfold finishLayer
  simp only [Option.bind_eq_bind, aby2, Option.bind_some]
  refine OptRel.bind_eq fun gs => ?_
  cases own.2 <;> cases other.2 <;> simp only [Option.bind_none]
  · exact putAll_set _ h (by simp [evalInteractive])
  · trivial
  · trivial
  · cases (intSimd m l).mapM m.gate? <;> trivial

/-! Bijections on the masks -/

/-- Other masks for the gates `L`. -/
def shift (L : List Node) (δ x : Node → Bool) (v : Node) : Bool := if v ∈ L then x v ^^ δ v else x v

/-- The masks of the gates `L` are those of `a`. -/
def over (L : List Node) (a x : Node → Bool) (v : Node) : Bool := if v ∈ L then a v else x v

theorem shift_shift (L : List Node) (δ x : Node → Bool) : shift L δ (shift L δ x) = x := by
  funext v
  simp only [shift]
  split <;> simp

theorem combine {L R : List Node} (hd : ∀ v ∈ L, v ∉ R) (δ : Node → Bool)
    {g : (Node → Bool) → (Node → Bool) → Node → Bool} (hg : ∀ a, Function.Bijective (g a))
    (hm : ∀ a x v, v ∉ R → g a x v = x v) :
    Function.Bijective fun x => shift L δ (g (over L x fun _ => false) x) := by
  have cut : ∀ x y : Node → Bool, (∀ v ∈ L, x v = y v) → over L x (fun _ => false) = over L y fun _ => false := by
    intro x y h
    funext v
    simp only [over]
    split
    · exact h v ‹_›
    · rfl
  constructor
  · intro x y hxy
    dsimp only at hxy
    have e : g (over L x fun _ => false) x = g (over L y fun _ => false) y := by
      rw [← shift_shift L δ (g _ x), hxy, shift_shift]
    have hL : ∀ v ∈ L, x v = y v := by
      intro v hv
      have := congrFun e v
      rwa [hm _ _ v (hd v hv), hm _ _ v (hd v hv)] at this
    rw [cut x y hL] at e
    exact (hg _).1 e
  · intro z
    obtain ⟨x, hx⟩ := (hg (over L (shift L δ z) fun _ => false)).2 (shift L δ z)
    refine ⟨x, ?_⟩
    have hL : ∀ v ∈ L, x v = shift L δ z v := by
      intro v hv
      rw [← hx, hm _ _ v (hd v hv)]
    dsimp only
    rw [cut x _ hL, hx, shift_shift]

/-! All layers -/

/-- The AND gates that are still to come. -/
def restOf (m : Multi Gate) (ls : List MLayer) : List Node := ls.flatMap (intScalar m)

/-- `Causal` for the requests from `k` on. -/
def CausalFrom (m : Multi Gate) (ls : List MLayer) (k : Nat) (su : (Node → Bool) → Nat → Nat → SetupData) : Prop :=
  ∀ i l, (interactiveLayers m ls)[i]? = some l → ∀ x y,
    (∀ l' ∈ (interactiveLayers m ls).take i, ∀ v ∈ intScalar m l', x v = y v) →
    su x (k + i) (intCount m l) = su y (k + i) (intCount m l)

/-- `SameSizes` for the requests from `k` on. -/
def SizesFrom (m : Multi Gate) (ls : List MLayer) (k : Nat) (su su' : (Node → Bool) → Nat → Nat → SetupData) : Prop :=
  ∀ i l, (interactiveLayers m ls)[i]? = some l → ∀ x y,
    (su x (k + i) (intCount m l)).map List.length = (su' y (k + i) (intCount m l)).map List.length

theorem interactive_cons {l : MLayer} (ls : List MLayer) (h0 : intCount m l ≠ 0) :
    interactiveLayers m (l :: ls) = l :: interactiveLayers m ls := by simp [interactiveLayers, h0]

theorem interactive_skip {l : MLayer} (ls : List MLayer) (h0 : intCount m l = 0) :
    interactiveLayers m (l :: ls) = interactiveLayers m ls := by simp [interactiveLayers, h0]

theorem causal_tail {l : MLayer} {ls : List MLayer} {k : Nat} {su : (Node → Bool) → Nat → Nat → SetupData}
    (h : CausalFrom m (l :: ls) k su) (h0 : intCount m l ≠ 0) (a : Node → Bool) :
    CausalFrom m ls (k + 1) fun y => su (over (intScalar m l) a y) := by
  intro i l2 hl2 x y hxy
  have := h (i + 1) l2 (by rw [interactive_cons ls h0]; exact hl2) (over (intScalar m l) a x)
    (over (intScalar m l) a y) (by
    intro l' hl' v hv
    rw [interactive_cons ls h0, List.take_succ_cons, List.mem_cons] at hl'
    simp only [over]
    split
    · rfl
    · rename_i hn
      rcases hl' with rfl | hl'
      · exact absurd hv hn
      · exact hxy l' hl' v hv)
  rw [show k + 1 + i = k + (i + 1) by omega]
  exact this

theorem causal_skip {l : MLayer} {ls : List MLayer} {k : Nat} {su : (Node → Bool) → Nat → Nat → SetupData}
    (h : CausalFrom m (l :: ls) k su) (h0 : intCount m l = 0) : CausalFrom m ls k su := by
  unfold CausalFrom at h
  rwa [interactive_skip ls h0] at h

theorem sizes_skip {l : MLayer} {ls : List MLayer} {k : Nat} {su su' : (Node → Bool) → Nat → Nat → SetupData}
    (h : SizesFrom m (l :: ls) k su su') (h0 : intCount m l = 0) : SizesFrom m ls k su su' := by
  unfold SizesFrom at h
  rwa [interactive_skip ls h0] at h

theorem sizes_tail {l : MLayer} {ls : List MLayer} {k : Nat} {su su' : (Node → Bool) → Nat → Nat → SetupData}
    (h : SizesFrom m (l :: ls) k su su') (h0 : intCount m l ≠ 0) (p q : (Node → Bool) → Node → Bool) :
    SizesFrom m ls (k + 1) (fun y => su (p y)) fun y => su' (q y) := by
  intro i l2 hl2 x y
  rw [show k + 1 + i = k + (i + 1) by omega]
  exact h (i + 1) l2 (by rw [interactive_cons ls h0]; exact hl2) _ _

theorem layers_active (hns : ∀ i, isSimd m i = false) {party : Nat} {inp inp' : List Share}
    (hl : inp.length = inp'.length) (adv : List (Msg × Option Unit) → Option (Msg × Option Unit))
    (fl : List (MLayer × List Node)) :
    ∀ (k : Nat) (D : List Node) (st st' : Store Share (List Share)) (sent : List (Msg × Option Unit))
      (su su' : (Node → Bool) → Nat → Nat → SetupData),
    st.set = st'.set → (D ++ (fl.map (·.1)).flatMap layerNodes).Nodup →
    TopoFrom m.parents D ((fl.map (·.1)).map fun l => (niNodes l, intNodes l)) →
    CausalFrom m (fl.map (·.1)) k su → CausalFrom m (fl.map (·.1)) k su' → SizesFrom m (fl.map (·.1)) k su su' →
    ∃ F : (Node → Bool) → Node → Bool, Function.Bijective F ∧
      (∀ x v, v ∉ restOf m (fl.map (·.1)) → F x v = x v) ∧
      ∀ x s s', On D (restOf m (fl.map (·.1))) st x s → On D (restOf m (fl.map (·.1))) st' (F x) s' →
        SameCourse (interact adv sent (execLayers aby2 m party (.scalar inp) (su x) k fl s))
          (interact adv sent (execLayers aby2 m party (.scalar inp') (su' (F x)) k fl s')) := by
  induction fl with
  | nil =>
    intro k D st st' sent su su' h _ _ _ _ _
    refine ⟨id, Function.bijective_id, fun _ _ _ => rfl, fun x s s' hs hs' => ?_⟩
    simp only [execLayers]
    have := outputs_set (m := m) hns (st := s) (st' := s') (by rw [hs.set, hs'.set, h])
    cases h1 : outputs m s <;> cases h2 : outputs m s' <;> rw [h1, h2] at this
    · exact ⟨rfl, rfl⟩
    · exact this.elim
    · exact this.elim
    · exact ⟨rfl, rfl⟩
  | cons f fl ih =>
    obtain ⟨l, fs⟩ := f
    intro k D st st' sent su su' h hn ht hc hc' hz
    simp only [List.map_cons] at hn ht hc hc' hz ⊢
    obtain ⟨t1, t2, t3⟩ := ht
    have hint : intScalar m l = intNodes l := intScalar_eq m hns l
    have e0 : D ++ (l :: fl.map (·.1)).flatMap layerNodes =
        D ++ niNodes l ++ intNodes l ++ (fl.map (·.1)).flatMap layerNodes := by simp [layerNodes]
    rw [e0] at hn
    have hrest : restOf m (l :: fl.map (·.1)) = intScalar m l ++ restOf m (fl.map (·.1)) := by simp [restOf]
    have hsub : ∀ v ∈ restOf m (fl.map (·.1)), v ∈ (fl.map (·.1)).flatMap layerNodes := by
      intro v hv
      obtain ⟨l', hl', hv⟩ := List.mem_flatMap.1 hv
      rw [intScalar_eq m hns] at hv
      exact List.mem_flatMap.2 ⟨l', hl', List.mem_append_right _ hv⟩
    have n1 : (D ++ niNodes l ++ intNodes l).Nodup := hn.of_append_left
    have n2 : ∀ v ∈ D ++ niNodes l ++ intNodes l, v ∉ restOf m (fl.map (·.1)) := fun v hv hv' =>
      List.disjoint_of_nodup_append hn hv (hsub v hv')
    have n3 : ∀ v ∈ D ++ niNodes l, v ∉ intScalar m l := fun v hv hv' =>
      List.disjoint_of_nodup_append n1 hv (hint ▸ hv')
    have n4 : ∀ v ∈ D ++ niNodes l, v ∉ restOf m (l :: fl.map (·.1)) := by
      intro v hv hv'
      rw [hrest, List.mem_append] at hv'
      exact hv'.elim (n3 v hv) (n2 v (List.mem_append_left _ hv))
    have n5 : ∀ v ∈ intScalar m l, v ∉ restOf m (fl.map (·.1)) := fun v hv =>
      n2 v (List.mem_append_right _ (hint ▸ hv))
    have hev := evalNodes_set (m := m) (party := party) hns hl (niOf l) h
    have hon : ∀ {y : List Share} {st s : Store Share (List Share)} {x : Node → Bool},
        On D (restOf m (l :: fl.map (·.1))) st x s →
        OptRel (fun st1 s1 => On (D ++ niNodes l) (restOf m (l :: fl.map (·.1))) st1 x s1)
          (evalNodes aby2 m party (.scalar y) st (niOf l)) (evalNodes aby2 m party (.scalar y) s (niOf l)) :=
      fun hs => evalNodes_on hns (niNodes l) hs (fun v hv => n4 v (List.mem_append_right _ hv)) t1
    cases h1 : evalNodes aby2 m party (.scalar inp) st (niOf l) with
    | none =>
      cases h2 : evalNodes aby2 m party (.scalar inp') st' (niOf l) with
      | some _ => rw [h1, h2] at hev; exact hev.elim
      | none =>
        refine ⟨id, Function.bijective_id, fun _ _ _ => rfl, fun x s s' hs hs' => ?_⟩
        have a1 := hon (y := inp) hs
        have a2 := hon (y := inp') hs'
        rw [h1] at a1; rw [h2] at a2
        cases b1 : evalNodes aby2 m party (.scalar inp) s (niOf l) with
        | some _ => rw [b1] at a1; exact a1.elim
        | none =>
          cases b2 : evalNodes aby2 m party (.scalar inp') s' (niOf l) with
          | some _ => rw [b2] at a2; exact a2.elim
          | none =>
            simp only [execLayers, b1, b2]
            exact ⟨rfl, rfl⟩
    | some st1 =>
      cases h2 : evalNodes aby2 m party (.scalar inp') st' (niOf l) with
      | none => rw [h1, h2] at hev; exact hev.elim
      | some st1' =>
        rw [h1, h2] at hev
        replace hev : st1.set = st1'.set := hev
        have red : ∀ {y : List Share} {st st1 s : Store Share (List Share)} {x : Node → Bool},
            On D (restOf m (l :: fl.map (·.1))) st x s → evalNodes aby2 m party (.scalar y) st (niOf l) = some st1 →
            ∃ s1, evalNodes aby2 m party (.scalar y) s (niOf l) = some s1 ∧
              On (D ++ niNodes l) (restOf m (l :: fl.map (·.1))) st1 x s1 := by
          intro y st st1 s x hs he
          have a := hon (y := y) hs
          rw [he] at a
          cases b : evalNodes aby2 m party (.scalar y) s (niOf l) with
          | none => rw [b] at a; exact a.elim
          | some s1 => rw [b] at a; exact ⟨s1, rfl, a⟩
        by_cases h0 : intCount m l = 0
        · have hnil : intNodes l = [] := by
            rw [← hint, ← List.length_eq_zero_iff, ← intCount_scalar m hns]; exact h0
          rw [hnil] at hn t3
          simp only [List.append_nil] at hn t3
          obtain ⟨F, F1, F2, F3⟩ := ih k (D ++ niNodes l) st1 st1' sent su su' hev hn t3 (causal_skip hc h0)
            (causal_skip hc' h0) (sizes_skip hz h0)
          rw [hint, hnil, List.nil_append] at hrest
          rw [hrest] at red ⊢
          refine ⟨F, F1, F2, fun x s s' hs hs' => ?_⟩
          obtain ⟨s1, b1, c1⟩ := red hs h1
          obtain ⟨s1', b2, c2⟩ := red hs' h2
          simp only [execLayers, b1, b2, h0, if_true]
          exact F3 x s1 s1' c1 c2
        · have par : ∀ v ∈ intScalar m l, ∀ u ∈ m.parents v, u ∈ D ++ niNodes l := by
            rw [hint]; exact t2
          have hk : ∀ {su : (Node → Bool) → Nat → Nat → SetupData}, CausalFrom m (l :: fl.map (·.1)) k su →
              ∀ x, su x k (intCount m l) = su (fun _ => false) k (intCount m l) := by
            intro su hsu x
            exact hsu 0 l (by rw [interactive_cons _ h0]; rfl) x _ (by simp)
          obtain ⟨δ, hδ⟩ := msgs_shift (m := m) party (l := l) (D := D ++ niNodes l) (N := intScalar m l) hev par
            (hint ▸ n1.of_append_right) (fun _ h => h) (d := su (fun _ => false) k (intCount m l))
            (d' := su' (fun _ => false) k (intCount m l)) (hz 0 l (by rw [interactive_cons _ h0]; rfl) (fun _ => false) fun _ => false)
          have step : ∀ a : Node → Bool, ∃ g : (Node → Bool) → Node → Bool, Function.Bijective g ∧
              (∀ x v, v ∉ restOf m (fl.map (·.1)) → g x v = x v) ∧
              ∀ x s s', (∀ v ∈ intScalar m l, x v = a v) → On D (restOf m (l :: fl.map (·.1))) st x s →
                On D (restOf m (l :: fl.map (·.1))) st' (shift (intScalar m l) δ (g x)) s' →
                SameCourse (interact adv sent (execLayers aby2 m party (.scalar inp) (su x) k ((l, fs) :: fl) s))
                  (interact adv sent (execLayers aby2 m party (.scalar inp')
                    (su' (shift (intScalar m l) δ (g x))) k ((l, fs) :: fl) s')) := by
            intro a
            let a' : Node → Bool := fun v => a v ^^ δ v
            have hrel := hδ a a' _ _ (setMasks_on n3 st1 a) (setMasks_on n3 st1' a') (fun _ _ => rfl)
            -- what is common to all masks that start with `a`
            have fixed : ∀ (g : (Node → Bool) → Node → Bool), (∀ x v, v ∉ restOf m (fl.map (·.1)) → g x v = x v) →
                ∀ x s s', (∀ v ∈ intScalar m l, x v = a v) → On D (restOf m (l :: fl.map (·.1))) st x s →
                On D (restOf m (l :: fl.map (·.1))) st' (shift (intScalar m l) δ (g x)) s' →
                ∃ s1 s1', evalNodes aby2 m party (.scalar inp) s (niOf l) = some s1 ∧
                  evalNodes aby2 m party (.scalar inp') s' (niOf l) = some s1' ∧
                  On (D ++ niNodes l ++ intScalar m l) (restOf m (fl.map (·.1))) (setMasks (intScalar m l) st1 a) x s1 ∧
                  On (D ++ niNodes l ++ intScalar m l) (restOf m (fl.map (·.1))) (setMasks (intScalar m l) st1' a')
                    (g x) s1' ∧
                  over (intScalar m l) a x = x ∧ over (intScalar m l) a' (g x) = shift (intScalar m l) δ (g x) := by
              intro g hg x s s' hx hs hs'
              obtain ⟨s1, b1, c1⟩ := red hs h1
              obtain ⟨s1', b2, c2⟩ := red hs' h2
              have hgx : ∀ v ∈ intScalar m l, g x v = a v := fun v hv => by rw [hg x v (n5 v hv), hx v hv]
              have sub1 : ∀ v ∈ intScalar m l, v ∈ restOf m (l :: fl.map (·.1)) := fun v hv => by
                rw [hrest]; exact List.mem_append_left _ hv
              have sub2 : ∀ v ∈ restOf m (fl.map (·.1)), v ∈ restOf m (l :: fl.map (·.1)) := fun v hv => by
                rw [hrest]; exact List.mem_append_right _ hv
              have dis : ∀ v ∈ restOf m (fl.map (·.1)), v ∉ intScalar m l := fun v hv hv' => n5 v hv' hv
              refine ⟨s1, s1', b1, b2, c1.fix n3 sub1 sub2 dis hx, ?_, ?_, ?_⟩
              · refine (c2.fix n3 sub1 sub2 dis (a := a') fun v hv => ?_).congr fun v hv => ?_
                · simp only [shift, if_pos hv, hgx v hv, a']
                · simp only [shift, if_neg (dis v hv)]
              · funext v
                simp only [over]
                split
                · exact (hx v ‹_›).symm
                · rfl
              · funext v
                simp only [over, shift]
                split
                · simp only [hgx v ‹_›, a']
                · rfl
            have none_case : ∀ (hno : ∀ x s s' s1 s1',
                On (D ++ niNodes l ++ intScalar m l) (restOf m (fl.map (·.1))) (setMasks (intScalar m l) st1 a) x s1 →
                On (D ++ niNodes l ++ intScalar m l) (restOf m (fl.map (·.1))) (setMasks (intScalar m l) st1' a') x s1' →
                evalNodes aby2 m party (.scalar inp) s (niOf l) = some s1 →
                evalNodes aby2 m party (.scalar inp') s' (niOf l) = some s1' →
                SameCourse (interact adv sent (execLayers aby2 m party (.scalar inp) (su x) k ((l, fs) :: fl) s))
                  (interact adv sent (execLayers aby2 m party (.scalar inp')
                    (su' (shift (intScalar m l) δ x)) k ((l, fs) :: fl) s'))),
                ∃ g : (Node → Bool) → Node → Bool, Function.Bijective g ∧
                  (∀ x v, v ∉ restOf m (fl.map (·.1)) → g x v = x v) ∧
                  ∀ x s s', (∀ v ∈ intScalar m l, x v = a v) → On D (restOf m (l :: fl.map (·.1))) st x s →
                  On D (restOf m (l :: fl.map (·.1))) st' (shift (intScalar m l) δ (g x)) s' →
                  SameCourse (interact adv sent (execLayers aby2 m party (.scalar inp) (su x) k ((l, fs) :: fl) s))
                    (interact adv sent (execLayers aby2 m party (.scalar inp')
                      (su' (shift (intScalar m l) δ (g x))) k ((l, fs) :: fl) s')) := by
              intro hno
              refine ⟨id, Function.bijective_id, fun _ _ _ => rfl, fun x s s' hx hs hs' => ?_⟩
              obtain ⟨s1, s1', b1, b2, c1, c2, -, -⟩ := fixed id (fun _ _ _ => rfl) x s s' hx hs hs'
              exact hno x s s' s1 s1' c1 c2 b1 b2
            cases d1 : computeMsgs aby2 m party (setMasks (intScalar m l) st1 a) l
                (su (fun _ => false) k (intCount m l)) with
            | none =>
              cases d2 : computeMsgs aby2 m party (setMasks (intScalar m l) st1' a') l
                  (su' (fun _ => false) k (intCount m l)) with
              | some _ => rw [d1, d2] at hrel; exact hrel.elim
              | none =>
                refine none_case fun x s s' s1 s1' c1 c2 b1 b2 => ?_
                simp only [execLayers, b1, b2, h0, if_false, hk hc, hk hc', msgs_on c1 party par, msgs_on c2 party par,
                  d1, d2]
                exact ⟨rfl, rfl⟩
            | some p =>
              cases d2 : computeMsgs aby2 m party (setMasks (intScalar m l) st1' a') l
                  (su' (fun _ => false) k (intCount m l)) with
              | none => rw [d1, d2] at hrel; exact hrel.elim
              | some p' =>
                rw [d1, d2] at hrel
                obtain ⟨msg, t⟩ := p
                obtain ⟨msg', t'⟩ := p'
                replace hrel : msg = msg' := hrel
                subst hrel
                cases hadv : adv (sent ++ [msg]) with
                | none =>
                  refine none_case fun x s s' s1 s1' c1 c2 b1 b2 => ?_
                  simp only [execLayers, b1, b2, h0, if_false, hk hc, hk hc', msgs_on c1 party par,
                    msgs_on c2 party par, d1, d2, interact, hadv]
                  exact ⟨rfl, rfl⟩
                | some r =>
                  have hf := finish_set (m := m) (st := free aby2 (setMasks (intScalar m l) st1 a) fs)
                    (st' := free aby2 (setMasks (intScalar m l) st1' a') fs) hev party l msg r t t'
                  have fin1 := fun x s1 (c1 : On (D ++ niNodes l ++ intScalar m l) (restOf m (fl.map (·.1)))
                    (setMasks (intScalar m l) st1 a) x s1) => finish_on (c1.free fs) party n5 msg r t
                  have fin2 := fun x s1 (c1 : On (D ++ niNodes l ++ intScalar m l) (restOf m (fl.map (·.1)))
                    (setMasks (intScalar m l) st1' a') x s1) => finish_on (c1.free fs) party n5 msg r t'
                  cases f1 : finishLayer aby2 m party (free aby2 (setMasks (intScalar m l) st1 a) fs) l msg r t with
                  | none =>
                    cases f2 : finishLayer aby2 m party (free aby2 (setMasks (intScalar m l) st1' a') fs) l msg r t' with
                    | some _ => rw [f1, f2] at hf; exact hf.elim
                    | none =>
                      refine none_case fun x s s' s1 s1' c1 c2 b1 b2 => ?_
                      have g1 := fin1 x s1 c1
                      have g2 := fin2 x s1' c2
                      rw [f1] at g1; rw [f2] at g2
                      cases q1 : finishLayer aby2 m party (free aby2 s1 fs) l msg r t with
                      | some _ => rw [q1] at g1; exact g1.elim
                      | none =>
                        cases q2 : finishLayer aby2 m party (free aby2 s1' fs) l msg r t' with
                        | some _ => rw [q2] at g2; exact g2.elim
                        | none =>
                          simp only [execLayers, b1, b2, h0, if_false, hk hc, hk hc', msgs_on c1 party par,
                            msgs_on c2 party par, d1, d2, interact, hadv, q1, q2]
                          exact ⟨rfl, rfl⟩
                  | some st2 =>
                    cases f2 : finishLayer aby2 m party (free aby2 (setMasks (intScalar m l) st1' a') fs) l msg r t' with
                    | none => rw [f1, f2] at hf; exact hf.elim
                    | some st2' =>
                      rw [f1, f2] at hf
                      replace hf : st2.set = st2'.set := hf
                      obtain ⟨g, G1, G2, G3⟩ := ih (k + 1) (D ++ niNodes l ++ intScalar m l) st2 st2' (sent ++ [msg])
                        (fun y => su (over (intScalar m l) a y)) (fun y => su' (over (intScalar m l) a' y)) hf
                        (by rw [hint]; exact hn) (by rw [hint]; exact t3) (causal_tail hc h0 a) (causal_tail hc' h0 a')
                        (sizes_tail hz h0 _ _)
                      refine ⟨g, G1, G2, fun x s s' hx hs hs' => ?_⟩
                      obtain ⟨s1, s1', b1, b2, c1, c2, o1, o2⟩ := fixed g G2 x s s' hx hs hs'
                      have g1 := fin1 x s1 c1
                      have g2 := fin2 (g x) s1' c2
                      rw [f1] at g1; rw [f2] at g2
                      cases q1 : finishLayer aby2 m party (free aby2 s1 fs) l msg r t with
                      | none => rw [q1] at g1; exact g1.elim
                      | some s2 =>
                        cases q2 : finishLayer aby2 m party (free aby2 s1' fs) l msg r t' with
                        | none => rw [q2] at g2; exact g2.elim
                        | some s2' =>
                          rw [q1] at g1; rw [q2] at g2
                          have := G3 x s2 s2' g1 g2
                          rw [o1, o2] at this
                          simp only [execLayers, b1, b2, h0, if_false, hk hc, hk hc', msgs_on c1 party par,
                            msgs_on c2 party par, d1, d2, interact, hadv, q1, q2]
                          exact this
          choose g G1 G2 G3 using step
          refine ⟨fun x => shift (intScalar m l) δ (g (over (intScalar m l) x fun _ => false) x),
            combine n5 δ G1 G2, fun x v hv => ?_, fun x s s' hs hs' => ?_⟩
          · rw [hrest, List.mem_append, not_or] at hv
            simp only [shift, if_neg hv.1]
            exact G2 _ x v hv.2
          · exact G3 (over (intScalar m l) x fun _ => false) x s s' (fun v hv => by simp [over, hv]) hs hs'

/-! ### Theorems -/

/-- The general form: the gate outputs may be arbitrary except for the masks of the AND gates. -/
theorem aby2_active (m : Multi Gate) (rank : Node → Nat) (w : WF m rank) (hns : ∀ i, isSimd m i = false)
    (party : Nat) (inp inp' : List Share) (hl : inp.length = inp'.length) (init init' : Store Share (List Share))
    (hset : init.set = init'.set) :
    ∃ ls, layers m = some ls ∧ LayersOk m ls ∧
      ∀ su su', Causal m ls su → Causal m ls su' → SameSizes m ls su su' →
      ∀ (adv : List (Msg × Option Unit) → Option (Msg × Option Unit)),
      ∃ F : (Node → Bool) → Node → Bool, Function.Bijective F ∧
        (∀ x v, (∀ n, m.gate? v ≠ some (.and n)) → F x v = x v) ∧
        ∀ x s s', s.set = init.set → s'.set = init'.set →
          (∀ v n, m.gate? v = some (.and n) → s.sc v = ⟨(init.sc v).pub, x v⟩) →
          (∀ v n, m.gate? v = some (.and n) → s'.sc v = ⟨(init'.sc v).pub, F x v⟩) →
          ∃ seen o o',
            interact adv [] (execute aby2 m party (.scalar inp) (su x) s) = (seen, o) ∧
            interact adv [] (execute aby2 m party (.scalar inp') (su' (F x)) s') = (seen, o') ∧
            o.isSome = o'.isSome := by
  obtain ⟨it, ls, e1, e2, ok⟩ := layers_ok_partial m rank w
  have els : layers m = some ls := by simp [layers, e1, e2]
  refine ⟨ls, els, ok, fun su su' hc hc' hz adv => ?_⟩
  obtain ⟨fl, e3, hfl, hfree⟩ := freeable_spec (m := m) ls [] (fun _ => none)
    (by simpa using ok.once) (by intro u _; simp) (by intro w hw; simp at hw) ok.topo
  have hrest : ∀ v, v ∈ restOf m ls → ∃ n, m.gate? v = some (.and n) := by
    intro v hv
    rw [restOf, List.mem_flatMap] at hv
    obtain ⟨l, hl, hv⟩ := hv
    rw [intScalar_eq m hns] at hv
    obtain ⟨g, hg, hi⟩ := ok.inter l hl v hv
    obtain ⟨n, rfl⟩ := interactive_and hi
    exact ⟨n, hg⟩
  have from0 : ∀ {su}, Causal m ls su → CausalFrom m ls 0 su := by
    intro su h i l hl x y hxy
    rw [Nat.zero_add]
    exact h i l hl x y hxy
  obtain ⟨F, F1, F2, F3⟩ := layers_active (party := party) hns hl adv fl 0 [] init init' [] su su' hset
    (by rw [hfl]; simpa using ok.once) (by rw [hfl]; exact ok.topo) (by rw [hfl]; exact from0 hc)
    (by rw [hfl]; exact from0 hc') (by rw [hfl]; intro i l hl x y; rw [Nat.zero_add]; exact hz i l hl x y)
  rw [hfl] at F2 F3
  refine ⟨F, F1, fun x v hv => F2 x v fun h => ?_, fun x s s' hs hs' hx hx' => ?_⟩
  · obtain ⟨n, hn⟩ := hrest v h
    exact hv n hn
  · have on1 : On [] (restOf m ls) init x s := ⟨hs, by simp, fun v hv => by
      obtain ⟨n, hn⟩ := hrest v hv; exact hx v n hn⟩
    have on2 : On [] (restOf m ls) init' (F x) s' := ⟨hs', by simp, fun v hv => by
      obtain ⟨n, hn⟩ := hrest v hv; exact hx' v n hn⟩
    have key := F3 x s s' on1 on2
    cases hcirc : m.circs[0]? with
    | none => exact ⟨[], none, none, by simp [execute, hcirc, interact], by simp [execute, hcirc, interact], rfl⟩
    | some c =>
      by_cases hlen : c.inputGates.length = inp.length
      · have hlen' : c.inputGates.length = inp'.length := by omega
        refine ⟨(interact adv [] (execLayers aby2 m party (.scalar inp) (su x) 0 fl s)).1, _, _, ?_, ?_, key.2⟩
        · simp only [execute, hcirc, Option.bind_eq_bind, Option.bind_some, hlen, if_true, e1, e2, e3]
        · simp only [execute, hcirc, Option.bind_eq_bind, Option.bind_some, hlen', if_true, e1, e2, e3, key.1]
      · have hlen' : ¬ c.inputGates.length = inp'.length := by omega
        refine ⟨[], none, none, ?_, ?_, rfl⟩
        · simp [execute, hcirc, hlen, interact]
        · simp [execute, hcirc, hlen', interact]

/-- **C91.**  An honest party of Boolean ABY2 with input shares `inp` or `inp'`, setup data `su` or `su'` (which may depend
on the masks of the AND gates of earlier layers), and a peer that follows any strategy `adv`.  To every choice of masks of
the AND gates in the first case belongs exactly one in the second such that the peer receives the same messages and the
honest party returns an output in both cases or in none.  With uniformly random masks, what the peer sees in the online phase
has therefore the same distribution whatever the inputs, their masks and the setup data are. -/
theorem aby2_active_private (m : Multi Gate) (rank : Node → Nat) (w : WF m rank) (hns : ∀ i, isSimd m i = false)
    (party : Nat) (inp inp' : List Share) (hl : inp.length = inp'.length) (init : Store Share (List Share)) :
    ∃ ls, layers m = some ls ∧
      ∀ su su', Causal m ls su → Causal m ls su' → SameSizes m ls su su' →
      ∀ (adv : List (Msg × Option Unit) → Option (Msg × Option Unit)),
      ∃ F : (Node → Bool) → Node → Bool, Function.Bijective F ∧
        (∀ x v, (∀ n, m.gate? v ≠ some (.and n)) → F x v = x v) ∧
        ∀ x, ∃ seen o o',
          interact adv [] (execute aby2 m party (.scalar inp) (su x) (withMasks init x)) = (seen, o) ∧
          interact adv [] (execute aby2 m party (.scalar inp') (su' (F x)) (withMasks init (F x))) = (seen, o') ∧
          o.isSome = o'.isSome := by
  obtain ⟨ls, els, -, h⟩ := aby2_active m rank w hns party inp inp' hl init init rfl
  refine ⟨ls, els, fun su su' hc hc' hz adv => ?_⟩
  obtain ⟨F, F1, F2, F3⟩ := h su su' hc hc' hz adv
  exact ⟨F, F1, F2, fun x => F3 x _ _ rfl rfl (fun _ _ _ => rfl) fun _ _ _ => rfl⟩

end Verif.Aby2
