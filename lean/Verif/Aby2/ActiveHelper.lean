import Verif.Aby2.Active

/-!
C91: Boolean ABY2 with the ASTRA helper against a peer that does whatever it likes, from the sharing of the inputs on.
-/
set_option autoImplicit false

namespace Verif.Aby2

open Gmw (BaseGate)
open Circuit Exec Proc

/-! ### Specification -/

/-- What happens to party 1 with the private seed `priv1` and the inputs `bits` when party 0 does what it likes: party 1
sends the deltas `sent`, gets back the deltas `deltas sent`, obtains its masks and the helper's message, and executes the
circuit against the strategy `adv sent`, which sees the messages `seen`.  `ret` tells whether party 1 returns an output. -/
def Against0 (m : Multi Gate) (owner : Nat → Option InputBy) (os : List InputBy) (map1 : Nat → Option ShareType)
    (joint priv0 : Seed) (deltas : List Bool → List Bool)
    (adv : List Bool → List (Msg × Option Unit) → Option (Msg × Option Unit))
    (priv1 : Seed) (bits : List Bool) (sent : List Bool) (seen : List (Msg × Option Unit)) (ret : Bool) : Prop :=
  let t := run (.new 1 priv1 joint map1) [.share bits, .receive (deltas sent)]
  t.sent = sent ∧ ∃ st msg, helperGateOutputs m 1 priv1 joint owner = some st ∧
    helperSetup m priv0 priv1 joint owner = some msg ∧
    (∃ setup, Answers m (astraSetup1 msg) setup) ∧
    ∀ setup, Answers m (astraSetup1 msg) setup → ∃ o,
      interact (adv sent) [] (execute aby2 m 1 (.scalar (merge os t.other t.own)) setup st) = (seen, o) ∧ o.isSome = ret

/-- The same for party 0 when party 1 does what it likes.  Party 1 also gets the message `msg` of the helper. -/
def Against1 (m : Multi Gate) (owner : Nat → Option InputBy) (os : List InputBy) (map0 : Nat → Option ShareType)
    (joint priv1 : Seed) (deltas : List Bool → List Bool → List Bool)
    (adv : List Bool → List Bool → List (Msg × Option Unit) → Option (Msg × Option Unit))
    (priv0 : Seed) (bits : List Bool) (sent msg : List Bool) (seen : List (Msg × Option Unit)) (ret : Bool) : Prop :=
  let t := run (.new 0 priv0 joint map0) [.share bits, .receive (deltas msg sent)]
  t.sent = sent ∧ ∃ st, helperGateOutputs m 0 priv0 joint owner = some st ∧
    helperSetup m priv0 priv1 joint owner = some msg ∧
    (∃ setup, Answers m (astraSetup0 m priv0) setup) ∧
    ∀ setup, Answers m (astraSetup0 m priv0) setup → ∃ o,
      interact (adv msg sent) [] (execute aby2 m 0 (.scalar (merge os t.own t.other)) setup st) = (seen, o) ∧
      o.isSome = ret

/-! ### Proof -/

theorem merge_length {α : Type} (os : List InputBy) : ∀ {a b a' b' : List α}, a.length = a'.length →
    b.length = b'.length → (merge os a b).length = (merge os a' b').length := by
  induction os with
  | nil => intro a b a' b' _ _; simp [merge]
  | cons o os ih =>
    intro a b a' b' h1 h2
    cases o with
    | p0 =>
      match a, a', h1 with
      | [], [], _ => simp [merge]
      | _ :: a, _ :: a', h1 => simp only [merge, List.length_cons, ih (by simpa using h1) h2]
    | p1 =>
      match b, b', h2 with
      | [], [], _ => simp [merge]
      | _ :: b, _ :: b', h2 => simp only [merge, List.length_cons, ih h1 (by simpa using h2)]

/-- The party depends only on the data that is requested. -/
theorem execLayers_requests {m : Multi Gate} {party : Nat} {inp : Input Share (List Share)}
    {su su' : Nat → Nat → SetupData} (fl : List (MLayer × List Node)) : ∀ (k : Nat) (st : Store Share (List Share)),
    (∀ (i : Nat) l, (interactiveLayers m (fl.map (·.1)))[i]? = some l →
      su (k + i) (intCount m l) = su' (k + i) (intCount m l)) →
    execLayers aby2 m party inp su k fl st = execLayers aby2 m party inp su' k fl st := by
  induction fl with
  | nil => intro k st _; simp [execLayers]
  | cons f fl ih =>
    obtain ⟨l, fs⟩ := f
    intro k st h
    simp only [execLayers]
    rw [List.map_cons] at h
    cases evalNodes aby2 m party inp st (niOf l) with
    | none => rfl
    | some st1 =>
      dsimp only
      by_cases h0 : intCount m l = 0
      · rw [if_pos h0, if_pos h0]
        rw [interactive_skip _ h0] at h
        exact ih k st1 h
      · rw [if_neg h0, if_neg h0]
        rw [interactive_cons _ h0] at h
        have e : su k (intCount m l) = su' k (intCount m l) := h 0 l rfl
        rw [e]
        cases computeMsgs aby2 m party st1 l (su' k (intCount m l)) with
        | none => rfl
        | some r =>
          dsimp only
          congr 2
          funext other
          cases finishLayer aby2 m party (free aby2 st1 fs) l r.1 other r.2 with
          | none => rfl
          | some st2 =>
            refine ih (k + 1) st2 fun i l' hi => ?_
            rw [show k + 1 + i = k + (i + 1) by omega]
            exact h (i + 1) l' (by simpa using hi)

theorem freeable_layers {m : Multi Gate} : ∀ (ls : List MLayer) (left : Left) (fl : List (MLayer × List Node)),
    freeable m left ls = some fl → fl.map (·.1) = ls
  | [], _, fl, h => by cases h; rfl
  | l :: ls, left, fl, h => by
    simp only [freeable, Option.bind_eq_bind, Option.bind_eq_some_iff, Option.pure_def, Option.some.injEq] at h
    obtain ⟨d, -, d', -, r, hr, rfl⟩ := h
    simp [freeable_layers ls _ r hr]

theorem execute_requests {m : Multi Gate} {party : Nat} {inp : Input Share (List Share)}
    {su su' : Nat → Nat → SetupData} {ls : List MLayer} (hls : layers m = some ls) (st : Store Share (List Share))
    (h : ∀ (k : Nat) l, (interactiveLayers m ls)[k]? = some l → su k (intCount m l) = su' k (intCount m l)) :
    execute aby2 m party inp su st = execute aby2 m party inp su' st := by
  simp only [layers, Option.bind_eq_bind, Option.bind_eq_some_iff] at hls
  obtain ⟨it, e1, e2⟩ := hls
  unfold execute
  simp only [Option.bind_eq_bind, e1, e2, Option.bind_some]
  cases m.circs[0]? with
  | none => rfl
  | some c =>
    simp only [Option.bind_some]
    split
    · rename_i fl hf
      have hf' : freeable m (fun _ => none) ls = some fl := by
        revert hf
        cases inp <;> (dsimp only; split <;> simp)
      have := freeable_layers ls _ fl hf'
      refine execLayers_requests fl 0 st fun i l hi => ?_
      rw [Nat.zero_add]
      exact h i l (this ▸ hi)
    · rfl

/-- What the answers are for data given gate by gate. -/
theorem answers_map {m : Multi Gate} (hns : ∀ i, isSimd m i = false) {ls : List MLayer} (hls : layers m = some ls)
    (ok : LayersOk m ls) (B : Node → List Bool) (setup : Nat → Nat → SetupData) :
    Answers m (SetupData.fromRaw ((interactiveNodes m ls).map B)) setup ↔
      ∀ (k : Nat) l, (interactiveLayers m ls)[k]? = some l → setup k (intCount m l) = ((intScalar m l).map B).reverse := by
  have e : (interactiveNodes m ls).map B = ((interactiveLayers m ls).map fun l => (intScalar m l).map B).flatten := by
    rw [interactiveNodes_eq m ls ok.local_ ok.inter, ← interactiveLayers_flatMap m hns, List.map_flatMap, List.flatMap_def]
  have hc : (interactiveLayers m ls).map (intCount m) =
      ((interactiveLayers m ls).map fun l => (intScalar m l).map B).map (·.length) := by
    rw [List.map_map]
    exact List.map_congr_left fun l _ => by simp [intCount_scalar m hns l]
  have hreq := requests_chunks ((interactiveLayers m ls).map fun l => (intScalar m l).map B)
  rw [← e, ← hc] at hreq
  constructor
  · intro h k l hk
    have := h ls hls k l hk
    rw [hreq, List.getElem?_map, List.getElem?_map, hk] at this
    simpa using this.symm
  · intro h ls' hls' k l hk
    rw [hls] at hls'; cases hls'
    rw [hreq, List.getElem?_map, List.getElem?_map, hk]
    simp [h k l hk]

theorem answers_execute {m : Multi Gate} (hns : ∀ i, isSimd m i = false) {ls : List MLayer} (hls : layers m = some ls)
    (ok : LayersOk m ls) {B : Node → List Bool} {su su' : Nat → Nat → SetupData}
    (h : Answers m (SetupData.fromRaw ((interactiveNodes m ls).map B)) su)
    (h' : Answers m (SetupData.fromRaw ((interactiveNodes m ls).map B)) su') {party : Nat}
    {inp : Input Share (List Share)} {st : Store Share (List Share)} :
    execute aby2 m party inp su st = execute aby2 m party inp su' st := by
  rw [answers_map hns hls ok] at h h'
  exact execute_requests hls st fun k l hk => by rw [h k l hk, h' k l hk]

/-! Entries set by the setup -/

theorem setupNode_entry {m : Multi Gate} {s s' : DeltaSharing} {st st' : Store Share (List Share)} {v : Node}
    (h : setupNode m s st v = some (s', st')) :
    (st'.set = fun u => if u = v then true else st.set u) ∧ (∀ u, u ≠ v → st'.sc u = st.sc u) ∧
      ∀ n, m.gate? v = some (.and n) → (st'.sc v).pub = false := by
  have hput : ∀ {o : Share}, st.put m v o = some st' →
      (st'.set = fun u => if u = v then true else st.set u) ∧ (∀ u, u ≠ v → st'.sc u = st.sc u) ∧ st'.sc v = o := by
    intro o h
    unfold Store.put at h
    split at h
    · cases h
    · cases h
      exact ⟨rfl, fun u hu => by simp [hu], by simp⟩
  have hout : ∀ {g : Gate} {xs : List Share} {r : Rng} {o : Share} {r' : Rng}, setupOutputShare g xs r = some (o, r') →
      ∀ n, g = .and n → o.pub = false := by
    rintro g xs r o r' h n rfl
    simp only [setupOutputShare, Option.some.injEq, Prod.mk.injEq] at h
    rw [← h.1]
  unfold setupNode at h
  simp only [Option.bind_eq_bind, Option.bind_eq_some_iff] at h
  obtain ⟨g, hg, xs, -, h⟩ := h
  cases hm : s.map v.2 with
  | none =>
    simp only [hm, Option.bind_eq_some_iff, Option.pure_def, Option.some.injEq, Prod.mk.injEq] at h
    obtain ⟨⟨o, r⟩, ho, st2, hst, -, rfl⟩ := h
    obtain ⟨a, b, c⟩ := hput hst
    exact ⟨a, b, fun n hn => by rw [c]; rw [hg] at hn; cases hn; exact hout ho n rfl⟩
  | some ty =>
    cases ty <;>
      simp only [hm, Option.bind_eq_some_iff, Option.pure_def, Option.some.injEq, Prod.mk.injEq] at h <;>
      obtain ⟨⟨o, r⟩, ho, st2, hst, -, rfl⟩ := h <;>
      obtain ⟨a, b, c⟩ := hput hst <;>
      exact ⟨a, b, fun n hn => by rw [c]; rw [hg] at hn; cases hn; exact hout ho n rfl⟩

theorem setupNodes_entry {m : Multi Gate} (vs : List Node) : ∀ {s s' : DeltaSharing} {st st' : Store Share (List Share)},
    setupNodes m s st vs = some (s', st') →
    (∀ u, st'.set u = (decide (u ∈ vs) || st.set u)) ∧
      ∀ v n, m.gate? v = some (.and n) → (st.sc v).pub = false → (st'.sc v).pub = false := by
  induction vs with
  | nil => intro s s' st st' h; cases h; exact ⟨by simp, fun _ _ _ h => h⟩
  | cons v vs ih =>
    intro s s' st st' h
    simp only [setupNodes, Option.bind_eq_bind, Option.bind_eq_some_iff] at h
    obtain ⟨⟨s1, st1⟩, h1, h2⟩ := h
    obtain ⟨a, b, c⟩ := setupNode_entry h1
    obtain ⟨d, e⟩ := ih h2
    refine ⟨fun u => ?_, fun u n hu h => e u n hu ?_⟩
    · rw [d, a]
      by_cases hu : u = v <;> simp [hu]
    · by_cases huv : u = v
      · subst huv; exact c n hu
      · rw [b u huv]; exact h

theorem helper_entry {m : Multi Gate} {p : Nat} {priv joint : Seed} {owner : Nat → Option InputBy}
    {st : Store Share (List Share)} {ls : List MLayer} (hls : layers m = some ls)
    (h : helperGateOutputs m p priv joint owner = some st) :
    (st.set = fun u => decide (u ∈ iterNodes ls)) ∧ ∀ v n, m.gate? v = some (.and n) → (st.sc v).pub = false := by
  simp only [helperGateOutputs, Option.map_eq_some_iff] at h
  obtain ⟨⟨s, st'⟩, h, rfl⟩ := h
  simp only [setupGateOutputs, hls, Option.bind_eq_bind, Option.bind_some] at h
  split at h
  · obtain ⟨a, b⟩ := setupNodes_entry _ h
    refine ⟨?_, fun v n hv => b v n hv rfl⟩
    funext u
    rw [a]
    simp [emptyStore]
  · cases h

/-! The masks of local gates depend on earlier masks -/

theorem mask_local {m : Multi Gate} {lam lam' : Node → Bool} {v : Node} {g : Gate}
    (h : MaskEq m lam v g) (h' : MaskEq m lam' v g) (hi : interactive g = false)
    (hin : g = .base .input → lam v = lam' v) (hp : ∀ u ∈ m.parents v, lam u = lam' u) : lam v = lam' v := by
  cases g with
  | and n => simp [GateLike.interactive] at hi
  | xor =>
    obtain ⟨p, q, e, h⟩ := h
    obtain ⟨p', q', e', h'⟩ := h'
    rw [e] at e'; cases e'
    rw [h, h', hp p (by simp [e]), hp q (by simp [e])]
  | inv =>
    obtain ⟨p, e, h⟩ := h
    obtain ⟨p', e', h'⟩ := h'
    rw [e] at e'; cases e'
    rw [h, h', hp p (by simp [e])]
  | base b =>
    cases b with
    | input => exact hin rfl
    | constant x => simp only [MaskEq] at h h'; rw [h, h']
    | _ =>
      obtain ⟨p, e, h⟩ := h
      obtain ⟨p', e', h'⟩ := h'
      rw [e] at e'; cases e'
      rw [h, h', hp p (by simp [e])]

theorem mask_locals {m : Multi Gate} {lam lam' : Node → Bool}
    (h : ∀ v g, m.gate? v = some g → MaskEq m lam v g) (h' : ∀ v g, m.gate? v = some g → MaskEq m lam' v g)
    (hin : ∀ v, m.gate? v = some (.base .input) → lam v = lam' v) (vs : List Node) : ∀ (D : List Node),
    (∀ v ∈ vs, ∃ g, m.gate? v = some g ∧ interactive g = false) →
    (∀ a v b, vs = a ++ v :: b → ∀ u ∈ m.parents v, u ∈ D ++ a) → (∀ u ∈ D, lam u = lam' u) →
    ∀ u ∈ D ++ vs, lam u = lam' u := by
  induction vs with
  | nil => intro D _ _ hD; simpa using hD
  | cons v vs ih =>
    intro D hl ht hD
    have := ih (D ++ [v]) (fun u hu => hl u (List.mem_cons_of_mem _ hu))
      (fun a w b e u hu => by simpa using ht (v :: a) w b (by simp [e]) u hu) (by
        intro u hu
        rcases List.mem_append.1 hu with hu | hu
        · exact hD u hu
        · rw [List.mem_singleton] at hu
          subst hu
          obtain ⟨g, hg, hi⟩ := hl u List.mem_cons_self
          exact mask_local (h u g hg) (h' u g hg) hi (fun e => hin u (e ▸ hg)) fun x hx => hD x (by
            simpa using ht [] u vs rfl x hx))
    simpa using this

theorem mask_causal {m : Multi Gate} {lam lam' : Node → Bool}
    (h : ∀ v g, m.gate? v = some g → MaskEq m lam v g) (h' : ∀ v g, m.gate? v = some g → MaskEq m lam' v g)
    (hin : ∀ v, m.gate? v = some (.base .input) → lam v = lam' v) (ls : List MLayer) : ∀ (D : List Node),
    (∀ l ∈ ls, ∀ v ∈ niNodes l, ∃ g, m.gate? v = some g ∧ interactive g = false) →
    TopoFrom m.parents D (ls.map fun l => (niNodes l, intNodes l)) → (∀ u ∈ D, lam u = lam' u) →
    ∀ pre l post, ls = pre ++ l :: post → (∀ l' ∈ pre, ∀ v ∈ intNodes l', lam v = lam' v) →
    ∀ v ∈ intNodes l, ∀ u ∈ m.parents v, lam u = lam' u := by
  induction ls with
  | nil => intro D _ _ _ pre l post e; simp at e
  | cons a ls ih =>
    intro D hl ht hD pre l post e hpre
    obtain ⟨t1, t2, t3⟩ := ht
    have hni := mask_locals h h' hin (niNodes a) D (hl a List.mem_cons_self) t1 hD
    cases pre with
    | nil =>
      simp only [List.nil_append, List.cons.injEq] at e
      obtain ⟨rfl, -⟩ := e
      intro v hv u hu
      exact hni u (t2 v hv u hu)
    | cons b pre =>
      simp only [List.cons_append, List.cons.injEq] at e
      obtain ⟨rfl, e⟩ := e
      refine ih (D ++ niNodes a ++ intNodes a) (fun l hl' => hl l (List.mem_cons_of_mem _ hl')) t3 ?_ pre l post e
        fun l' hl' => hpre l' (List.mem_cons_of_mem _ hl')
      intro u hu
      rcases List.mem_append.1 hu with hu | hu
      · exact hni u hu
      · exact hpre a List.mem_cons_self u hu

theorem interactive_split {m : Multi Gate} : ∀ (ls : List MLayer) (k : Nat) (l : MLayer),
    (interactiveLayers m ls)[k]? = some l → ∃ pre post, ls = pre ++ l :: post ∧
      interactiveLayers m pre = (interactiveLayers m ls).take k
  | [], k, l, h => by simp [interactiveLayers] at h
  | a :: ls, k, l, h => by
    by_cases h0 : intCount m a = 0
    · rw [interactive_skip ls h0] at h ⊢
      obtain ⟨pre, post, rfl, e⟩ := interactive_split ls k l h
      exact ⟨a :: pre, post, rfl, by rw [interactive_skip pre h0, e]⟩
    · rw [interactive_cons ls h0] at h ⊢
      cases k with
      | zero =>
        simp only [List.getElem?_cons_zero, Option.some.injEq] at h
        subst h
        exact ⟨[], ls, rfl, rfl⟩
      | succ k =>
        obtain ⟨pre, post, rfl, e⟩ := interactive_split ls k l (by simpa using h)
        exact ⟨a :: pre, post, rfl, by rw [interactive_cons pre h0, e]; rfl⟩

/-! The masks of a party and its seed -/

/-- The first `c` bits. -/
def cut (c : Nat) (f : Nat → Bool) (k : Nat) : Bool := decide (k < c) && f k

/-- The bits from position `c` on as values for the gates `vs`. -/
def nodeOf (c : Nat) (vs : List Node) (f : Nat → Bool) (v : Node) : Bool := decide (v ∈ vs) && f (c + vs.idxOf v)

/-- The bits `f0`, then the values `x` of the gates `vs`. -/
def seedOf (c : Nat) (vs : List Node) (f0 : Nat → Bool) (x : Node → Bool) (k : Nat) : Bool :=
  if k < c then f0 k else match vs[k - c]? with
    | some v => x v
    | none => f0 k

theorem nodeOf_get {c : Nat} {vs : List Node} (hnd : vs.Nodup) (f : Nat → Bool) {k : Nat} {v : Node}
    (h : vs[k]? = some v) : nodeOf c vs f v = f (c + k) := by
  obtain ⟨hk, rfl⟩ := List.getElem?_eq_some_iff.1 h
  simp [nodeOf, hnd.idxOf_getElem]

theorem seedOf_get {c : Nat} {vs : List Node} (f0 : Nat → Bool) (x : Node → Bool) {k : Nat} {v : Node}
    (h : vs[k]? = some v) : seedOf c vs f0 x (c + k) = x v := by
  rw [seedOf, if_neg (by omega), show c + k - c = k by omega, h]

theorem seedOf_lt {c : Nat} {vs : List Node} (f0 : Nat → Bool) (x : Node → Bool) {k : Nat}
    (h : k < c) : seedOf c vs f0 x k = f0 k := by rw [seedOf, if_pos h]

/-- Changing the first bits by `d` and the others by bijections `F` that may depend on the first bits. -/
theorem stream_bij {c : Nat} {vs : List Node} (hnd : vs.Nodup) (d : Nat → Bool)
    (F : (Nat → Bool) → (Node → Bool) → Node → Bool) (hF : ∀ a, Function.Bijective (F a))
    (hid : ∀ a x v, v ∉ vs → F a x v = x v) :
    Function.Bijective fun (f : Nat → Bool) => seedOf c vs (fun k => if k < c then f k ^^ d k else f k)
      (F (cut c f) (nodeOf c vs f)) := by
  constructor
  · intro f g h
    have h1 : ∀ k, k < c → f k = g k := by
      intro k hk
      have := congrFun h k
      simp only [seedOf, if_pos hk] at this
      revert this
      cases f k <;> cases g k <;> cases d k <;> simp
    have h2 : cut c f = cut c g := by
      funext k
      by_cases hk : k < c
      · simp [cut, hk, h1 k hk]
      · simp [cut, hk]
    have h3 : F (cut c g) (nodeOf c vs f) = F (cut c g) (nodeOf c vs g) := by
      funext v
      by_cases hv : v ∈ vs
      · obtain ⟨k, hk⟩ := List.mem_iff_getElem?.1 hv
        have := congrFun h (c + k)
        simp only [seedOf_get _ _ hk, h2] at this
        exact this
      · rw [hid _ _ _ hv, hid _ _ _ hv]
        simp [nodeOf, hv]
    have h4 := (hF _).1 h3
    funext k
    by_cases hk : k < c
    · exact h1 k hk
    · cases hv : vs[k - c]? with
      | none =>
        have := congrFun h k
        simpa only [seedOf, if_neg hk, hv] using this
      | some v =>
        have := congrFun h4 v
        rw [nodeOf_get hnd f hv, nodeOf_get hnd g hv, show c + (k - c) = k by omega] at this
        exact this
  · intro h
    obtain ⟨x, hx⟩ := (hF (cut c fun k => h k ^^ d k)).2 (nodeOf c vs h)
    refine ⟨seedOf c vs (fun k => if k < c then h k ^^ d k else h k) x, ?_⟩
    have e1 : cut c (seedOf c vs (fun k => if k < c then h k ^^ d k else h k) x) = cut c fun k => h k ^^ d k := by
      funext k
      by_cases hk : k < c
      · simp [cut, hk, seedOf]
      · simp [cut, hk]
    have e2 : nodeOf c vs (seedOf c vs (fun k => if k < c then h k ^^ d k else h k) x) = x := by
      funext v
      by_cases hv : v ∈ vs
      · obtain ⟨k, hk⟩ := List.mem_iff_getElem?.1 hv
        rw [nodeOf_get hnd _ hk, seedOf_get _ _ hk]
      · rw [← hid (cut c fun k => h k ^^ d k) x v hv, hx]
        simp [nodeOf, hv]
    funext k
    dsimp only
    rw [e1, e2, hx]
    by_cases hk : k < c
    · simp only [seedOf, if_pos hk]
      cases h k <;> cases d k <;> rfl
    · cases hv : vs[k - c]? with
      | none => simp only [seedOf, if_neg hk, hv]
      | some v =>
        simp only [seedOf, if_neg hk, hv]
        rw [nodeOf_get hnd _ hv, show c + (k - c) = k by omega]

theorem prod_congr {m : Multi Gate} {lam lam' : Node → Bool} {v : Node} (h : ∀ u ∈ m.parents v, lam u = lam' u) :
    prodOf m lam v = prodOf m lam' v := by
  unfold prodOf
  split
  · rename_i p q e
    rw [h p (by simp [e]), h q (by simp [e])]
  · rfl

section
variable {m : Multi Gate} {rank : Node → Nat} (w : WF m rank) (hw : ExecWF m)
  (hns : ∀ i, isSimd m i = false) (har : ∀ v g, m.gate? v = some g → Arity m v g)
  (h2 : ∀ v n, m.gate? v = some (.and n) → n = 2)
  (hb : ∀ c ∈ m.circs, BookOk c) {c0 : Base Gate} (hc0 : m.circs[0]? = some c0)
  {owner : Nat → Option InputBy} {os : List InputBy} (ho : c0.inputGates.map owner = os.map some)
include w hw hns har h2 hb hc0 ho

theorem party_masks {p : Nat} (hp : p < 2) (hand : ∀ v n, m.gate? v = some (.and n) → owner v.2 ≠ some (otherOwner p))
    {ls : List MLayer} (hls : layers m = some ls) (ok : LayersOk m ls) (joint : Seed) :
    (∀ s : Seed, ∃ st, helperGateOutputs m p s joint owner = some st) ∧
    (∀ (s : Seed) st, helperGateOutputs m p s joint owner = some st →
      (∀ v g, m.gate? v = some g → MaskEq m (maskOf st) v g) ∧
      ∀ (k : Nat) v, (interactiveNodes m ls)[k]? = some v → maskOf st v = s 0 (os.count (otherOwner (1 - p)) + k)) ∧
    (∀ (s s' : Seed) st st', helperGateOutputs m p s joint owner = some st →
      helperGateOutputs m p s' joint owner = some st' → (∀ k < os.count (otherOwner (1 - p)), s 0 k = s' 0 k) →
      ∀ v, m.gate? v = some (.base .input) → maskOf st v = maskOf st' v) := by
  have hb0 : BookOk c0 := hb c0 (List.mem_of_getElem? hc0)
  obtain ⟨hgi, hgc⟩ := book_gates hb0
  have hnd : (iterNodes ls).Nodup := (iterNodes_perm ls).nodup_iff.2 ok.once
  obtain ⟨rest, hrest⟩ : ∃ rest, iterNodes ls =
      (c0.constantGates ++ c0.inputGates).map (fun g => (0, g)) ++ rest := by
    have e1' := hls
    simp only [layers, Option.bind_eq_bind, Option.bind_eq_some_iff] at e1'
    obtain ⟨it, h1, h3⟩ := e1'
    refine iter_prefix m c0 hc0 _ it ls h1 h3 ?_
    intro v hv
    rcases List.mem_append.1 hv with hv | hv
    · obtain ⟨b, hb⟩ := hgc v hv; exact ⟨_, hb, rfl⟩
    · exact ⟨_, hgi v hv, rfl⟩
  have hpn := privNodes_eq hb hc0 ho hw (p := p) hp ok hrest hand
  have hlen := priv_length (p := p) hp ho
  have hget : ∀ (k : Nat) v, (interactiveNodes m ls)[k]? = some v →
      (privNodes m owner p ls)[os.count (otherOwner (1 - p)) + k]? = some v := by
    intro k v hv
    rw [hpn, List.getElem?_append_right (by simp [hlen])]
    simpa [hlen] using hv
  have base : ∀ s : Seed, ∃ st, helperGateOutputs m p s joint owner = some st ∧
      (∀ v g, m.gate? v = some g → MaskEq m (maskOf st) v g) ∧
      ∀ a v b, iterNodes ls = a ++ v :: b → isDraw m v = true →
        maskOf st v = drawn m (.new p s joint fun i => (owner i).map (shareType p)) a v := by
    intro s
    obtain ⟨ls', s', st, e1, -, -, e2, e3, e4⟩ := setup_masks m rank w hns har (fun v n h => by rw [h2 v n h])
      (.new p s joint fun i => (owner i).map (shareType p))
    rw [hls] at e1; cases e1
    exact ⟨st, by simp [helperGateOutputs, e2], e3, e4⟩
  refine ⟨fun s => ?_, fun s st hst => ?_, fun s s' st st' hst hst' hs v hv => ?_⟩
  · obtain ⟨st, h, -⟩ := base s
    exact ⟨st, h⟩
  · obtain ⟨st', h, hm, hd⟩ := base s
    rw [hst] at h; cases h
    exact ⟨hm, fun k v hv => mask_priv hp hnd hd (hget k v hv)⟩
  · obtain ⟨_, h, -, hd⟩ := base s
    rw [hst] at h; cases h
    obtain ⟨_, h, -, hd'⟩ := base s'
    rw [hst'] at h; cases h
    have hdr : isDraw m v = true := by simp [isDraw, hv]
    have hmem : v ∈ iterNodes ls := by
      rw [(iterNodes_perm ls).mem_iff, ok.all]
      simp only [Multi.gate?, Option.bind_eq_bind, Option.bind_eq_some_iff] at hv
      obtain ⟨c, hc, hg⟩ := hv
      exact ⟨c, hc, (List.getElem?_eq_some_iff.1 hg).1⟩
    by_cases hr : owner v.2 = some (otherOwner p)
    · obtain ⟨a, b, hab⟩ := List.append_of_mem hmem
      rw [hd a v b hab hdr, hd' a v b hab hdr]
      simp only [drawn, isRemote_new p hp, hr, decide_true, if_true]
      rfl
    · have hpv : v ∈ privNodes m owner p ls := by
        rw [privNodes, List.mem_filter]
        exact ⟨hmem, by simp [hdr, hr]⟩
      obtain ⟨k, hk⟩ := List.mem_iff_getElem?.1 hpv
      rw [mask_priv hp hnd hd hk, mask_priv hp hnd hd' hk]
      apply hs
      by_contra hlt
      have hk' := hk
      rw [hpn, List.getElem?_append_right (by simp [hlen]; omega)] at hk'
      have := List.mem_of_getElem? hk'
      rw [interactiveNodes, List.mem_filter, hv] at this
      simp [GateLike.interactive] at this

/-- The masks of the operands of the AND gates of a layer depend on the masks of the inputs and of earlier AND gates. -/
theorem par_agree {p : Nat} (hp : p < 2) (hand : ∀ v n, m.gate? v = some (.and n) → owner v.2 ≠ some (otherOwner p))
    {ls : List MLayer} (hls : layers m = some ls) (ok : LayersOk m ls) {joint s s' : Seed}
    {st st' : Store Share (List Share)} (hst : helperGateOutputs m p s joint owner = some st)
    (hst' : helperGateOutputs m p s' joint owner = some st')
    (hs : ∀ k < os.count (otherOwner (1 - p)), s 0 k = s' 0 k) {k : Nat} {l : MLayer}
    (hl : (interactiveLayers m ls)[k]? = some l)
    (ha : ∀ l' ∈ (interactiveLayers m ls).take k, ∀ v ∈ intScalar m l', maskOf st v = maskOf st' v) :
    ∀ v ∈ intScalar m l, ∀ u ∈ m.parents v, maskOf st u = maskOf st' u := by
  obtain ⟨-, q2, q3⟩ := party_masks w hw hns har h2 hb hc0 ho hp hand hls ok joint
  obtain ⟨pre, post, e, hpre⟩ := interactive_split ls k l hl
  intro v hv
  rw [intScalar_eq m hns] at hv
  refine mask_causal (q2 s st hst).1 (q2 s' st' hst').1 (q3 s s' st st' hst hst' hs) ls [] ok.local_ ok.topo (by simp) pre l
    post e (fun l' hl' u hu => ?_) v hv
  rw [← intScalar_eq m hns] at hu
  refine ha l' ?_ u hu
  rw [← hpre, interactiveLayers, List.mem_filter]
  refine ⟨hl', ?_⟩
  have := List.length_pos_of_mem hu
  rw [← intCount_scalar m hns] at this
  simp; omega

/-- The honest party with product shares `base v ⊕ (product of the masks of the operands)`. -/
theorem core_active {p : Nat} (hp : p < 2) (hand : ∀ v n, m.gate? v = some (.and n) → owner v.2 ≠ some (otherOwner p))
    {ls : List MLayer} (hls : layers m = some ls) (ok : LayersOk m ls) (joint : Seed) (f0 f0' : Nat → Bool)
    (inp inp' : List Share) (hl : inp.length = inp'.length) (base lamO : Node → Bool)
    (adv : List (Msg × Option Unit) → Option (Msg × Option Unit)) :
    ∃ F : (Node → Bool) → Node → Bool, Function.Bijective F ∧ (∀ x v, v ∉ interactiveNodes m ls → F x v = x v) ∧
      ∀ (s s' : Seed) st st' setup setup', helperGateOutputs m p s joint owner = some st →
        helperGateOutputs m p s' joint owner = some st' →
        (∀ k < os.count (otherOwner (1 - p)), s 0 k = f0 k) → (∀ k < os.count (otherOwner (1 - p)), s' 0 k = f0' k) →
        (∀ (k : Nat) v, (interactiveNodes m ls)[k]? = some v → s' 0 (os.count (otherOwner (1 - p)) + k) =
          F (nodeOf (os.count (otherOwner (1 - p))) (interactiveNodes m ls) (s 0)) v) →
        Answers m (SetupData.fromRaw ((interactiveNodes m ls).map fun v =>
          [base v ^^ prodOf m (fun u => maskOf st u ^^ lamO u) v])) setup →
        Answers m (SetupData.fromRaw ((interactiveNodes m ls).map fun v =>
          [base v ^^ prodOf m (fun u => maskOf st' u ^^ lamO u) v])) setup' →
        ∃ seen o o',
          interact adv [] (execute aby2 m p (.scalar inp) setup st) = (seen, o) ∧
          interact adv [] (execute aby2 m p (.scalar inp') setup' st') = (seen, o') ∧ o.isSome = o'.isSome := by
  obtain ⟨q1, q2, q3⟩ := party_masks w hw hns har h2 hb hc0 ho hp hand hls ok joint
  choose stO hstO using q1
  have hnd : (iterNodes ls).Nodup := (iterNodes_perm ls).nodup_iff.2 ok.once
  have hvnd : (interactiveNodes m ls).Nodup := hnd.filter _
  have hmem : ∀ v, v ∈ interactiveNodes m ls ↔ ∃ n, m.gate? v = some (.and n) := by
    intro v
    rw [interactiveNodes_eq m ls ok.local_ ok.inter, ← interactiveLayers_flatMap m hns, List.mem_flatMap]
    exact and_in_layers hns ok v
  have hmemL : ∀ l ∈ interactiveLayers m ls, ∀ v ∈ intScalar m l, v ∈ interactiveNodes m ls := by
    intro l hl v hv
    rw [interactiveNodes_eq m ls ok.local_ ok.inter, ← interactiveLayers_flatMap m hns]
    exact List.mem_flatMap.2 ⟨l, hl, hv⟩
  let c := os.count (otherOwner (1 - p))
  let vs := interactiveNodes m ls
  let stX : (Nat → Bool) → (Node → Bool) → Store Share (List Share) := fun a x => stO fun _ => seedOf c vs a x
  let su : (Nat → Bool) → (Node → Bool) → Nat → Nat → SetupData := fun a x k _ =>
    match (interactiveLayers m ls)[k]? with
    | some l => ((intScalar m l).map fun v => [base v ^^ prodOf m (fun u => maskOf (stX a x) u ^^ lamO u) v]).reverse
    | none => []
  have hmaskX : ∀ a x v, v ∈ vs → maskOf (stX a x) v = x v := by
    intro a x v hv
    obtain ⟨k, hk⟩ := List.mem_iff_getElem?.1 hv
    rw [(q2 _ _ (hstO _)).2 k v hk]
    exact seedOf_get a x hk
  have hcausal : ∀ a, Causal m ls (su a) := by
    intro a k l hk x y hxy
    simp only [su, hk]
    congr 1
    refine List.map_congr_left fun v hv => ?_
    rw [prod_congr fun u hu => ?_]
    congr 1
    refine par_agree w hw hns har h2 hb hc0 ho hp hand hls ok (hstO _) (hstO _) (fun k hk => ?_) hk (fun l' hl' u hu => ?_)
      v hv u hu
    · rw [seedOf_lt _ _ hk, seedOf_lt _ _ hk]
    · have := hmemL l' (List.mem_of_mem_take hl') u hu
      rw [hmaskX _ _ _ this, hmaskX _ _ _ this]
      exact hxy l' hl' u hu
  have hsizes : SameSizes m ls (su f0) (su f0') := by
    intro k l hk x y
    simp only [su, hk, List.map_reverse, List.map_map]
    rfl
  obtain ⟨ls', els', -, H⟩ := aby2_active m rank w hns p inp inp' hl (stO fun _ => f0) (stO fun _ => f0) rfl
  rw [hls] at els'; cases els'
  obtain ⟨F, F1, F2, F3⟩ := H (su f0) (su f0') (hcausal _) (hcausal _) hsizes adv
  refine ⟨F, F1, fun x v hv => F2 x v fun n hn => hv ((hmem v).2 ⟨n, hn⟩), ?_⟩
  intro s s' st st' setup setup' hst hst' hs hs' hF hsu hsu'
  rw [answers_map hns hls ok] at hsu hsu'
  have req : ∀ (a : Nat → Bool) (x : Node → Bool) (s : Seed) st setup, helperGateOutputs m p s joint owner = some st →
      (∀ k < os.count (otherOwner (1 - p)), s 0 k = a k) →
      (∀ (k : Nat) v, (interactiveNodes m ls)[k]? = some v → s 0 (os.count (otherOwner (1 - p)) + k) = x v) →
      (∀ (k : Nat) l, (interactiveLayers m ls)[k]? = some l → setup k (intCount m l) = ((intScalar m l).map fun v =>
        [base v ^^ prodOf m (fun u => maskOf st u ^^ lamO u) v]).reverse) →
      ∀ i, execute aby2 m p (.scalar i) setup st = execute aby2 m p (.scalar i) (su a x) st := by
    intro a x s st setup hst ha hx hsu i
    refine execute_requests hls st fun k l hk => ?_
    rw [hsu k l hk]
    simp only [su, hk]
    congr 1
    refine List.map_congr_left fun v hv => ?_
    rw [prod_congr fun u hu => ?_]
    congr 1
    refine par_agree w hw hns har h2 hb hc0 ho hp hand hls ok hst (hstO _) (fun k hk => ?_) hk (fun l' hl' u hu => ?_)
      v hv u hu
    · rw [ha k hk, seedOf_lt _ _ hk]
    · have := hmemL l' (List.mem_of_mem_take hl') u hu
      rw [hmaskX _ _ _ this]
      obtain ⟨k, hk⟩ := List.mem_iff_getElem?.1 this
      rw [(q2 _ _ hst).2 k u hk, hx k u hk]
  have sc : ∀ (x : Node → Bool) (s : Seed) st, helperGateOutputs m p s joint owner = some st →
      (∀ (k : Nat) v, (interactiveNodes m ls)[k]? = some v → s 0 (os.count (otherOwner (1 - p)) + k) = x v) →
      st.set = (stO fun _ => f0).set ∧
      ∀ v n, m.gate? v = some (.and n) → st.sc v = ⟨((stO fun _ => f0).sc v).pub, x v⟩ := by
    intro x s st hst hx
    obtain ⟨a1, a2⟩ := helper_entry hls hst
    obtain ⟨b1, b2⟩ := helper_entry hls (hstO fun _ => f0)
    refine ⟨a1.trans b1.symm, fun v n hv => ?_⟩
    obtain ⟨k, hk⟩ := List.mem_iff_getElem?.1 ((hmem v).2 ⟨n, hv⟩)
    have := (q2 _ _ hst).2 k v hk
    rw [hx k v hk, maskOf] at this
    rw [b2 v n hv, ← a2 v n hv, ← this]
  have hx : ∀ (k : Nat) v, (interactiveNodes m ls)[k]? = some v → s 0 (os.count (otherOwner (1 - p)) + k) =
      nodeOf (os.count (otherOwner (1 - p))) (interactiveNodes m ls) (s 0) v := fun k v hk => (nodeOf_get hvnd _ hk).symm
  rw [req f0 _ s st setup hst hs hx hsu, req f0' _ s' st' setup' hst' hs' hF hsu']
  exact F3 _ st st' (sc _ s st hst hx).1 (sc _ s' st' hst' hF).1 (sc _ s st hst hx).2 (sc _ s' st' hst' hF).2

end

/-! ### Sharing -/

theorem run_two (p : Nat) (s joint : Seed) (map : Nat → Option ShareType) (bits ds : List Bool) :
    let t := run (.new p s joint map) [.share bits, .receive ds]
    t.own = ownShares (s 0) (joint p) 0 0 bits ∧
    t.sent = (ownShares (s 0) (joint p) 0 0 bits).map (·.pub) ∧
    t.other = otherShares (joint (p ^^^ 1)) 0 ds := by
  obtain ⟨a, b, c⟩ := run_spec (.new p s joint map) [.share bits, .receive ds]
  intro t
  have hbits : t.bits = bits := by simp [t, run, share_spec]
  have hrec : t.received = ds := by simp [t, run, share_spec]
  have a' : t.own = _ := a
  rw [hbits] at a'
  refine ⟨a', b.trans (congrArg _ a'), ?_⟩
  have c' : t.other = _ := c
  rw [hrec] at c'
  exact c'

theorem ownShares_congr (f f' j : Nat → Bool) (bits : List Bool) : ∀ (p q : Nat),
    (∀ k, p ≤ k → k < p + bits.length → f k = f' k) → ownShares f j p q bits = ownShares f' j p q bits := by
  induction bits with
  | nil => intro p q _; rfl
  | cons b bs ih =>
    intro p q h
    simp only [ownShares]
    rw [h p (by omega) (by simp), ih (p + 1) (q + 1) fun k h1 h2 => h k (by omega) (by simp at h2 ⊢; omega)]

theorem ownShares_length (f j : Nat → Bool) (bits : List Bool) : ∀ (p q : Nat), (ownShares f j p q bits).length = bits.length := by
  induction bits with
  | nil => intro p q; rfl
  | cons b bs ih => intro p q; simp [ownShares, ih]

section
variable {m : Multi Gate} {rank : Node → Nat} (w : WF m rank) (hw : ExecWF m)
  (hns : ∀ i, isSimd m i = false) (har : ∀ v g, m.gate? v = some g → Arity m v g)
  (h2 : ∀ v n, m.gate? v = some (.and n) → n = 2)
  (hb : ∀ c ∈ m.circs, BookOk c) {c0 : Base Gate} (hc0 : m.circs[0]? = some c0)
  {owner : Nat → Option InputBy} {os : List InputBy} (ho : c0.inputGates.map owner = os.map some)
  {map0 map1 : Nat → Option ShareType}
include w hw hns har h2 hb hc0 ho

/-- **C91 (party 0 does what it likes).**  Party 1 follows the protocol with the helper with inputs `bits` or `bits'`.
Party 0 chooses its deltas after it has seen those of party 1, and all messages of the online phase depending on everything
it received.  To each sequence `f` of private random bits of party 1 belongs exactly one sequence `Φ f` with which party 0
receives the same deltas and messages when party 1 has the inputs `bits'`, and party 1 then returns an output in both cases
or in none.  Only bits that are used differ.  So with uniformly random bits what party 0 sees has the same distribution for
all inputs of party 1.

Partial: the AND gates must not have a gate id which `owner` assigns to party 0 (`and_mask_known_to_other_party`). -/
theorem aby2_active_hidden_partial (hand : ∀ v n, m.gate? v = some (.and n) → owner v.2 ≠ some .p0)
    (joint priv0 priv1 : Seed) (bits bits' : List Bool) (hl : bits.length = os.count .p1)
    (hl' : bits'.length = os.count .p1) (deltas : List Bool → List Bool)
    (adv : List Bool → List (Msg × Option Unit) → Option (Msg × Option Unit)) :
    ∃ Φ : (Nat → Bool) → Nat → Bool, Function.Bijective Φ ∧
      (∀ f k, os.count .p1 + interactiveCount m ≤ k → Φ f k = f k) ∧
      ∀ f, ∃ sent seen ret,
        Against0 m owner os map1 joint priv0 deltas adv (Function.update priv1 0 f) bits sent seen ret ∧
        Against0 m owner os map1 joint priv0 deltas adv (Function.update priv1 0 (Φ f)) bits' sent seen ret := by
  obtain ⟨it, ls, e1, e2, ok⟩ := layers_ok_partial m rank w
  have hls : layers m = some ls := by simp [layers, e1, e2]
  have hvnd : (interactiveNodes m ls).Nodup := ((iterNodes_perm ls).nodup_iff.2 ok.once).filter _
  have hic := interactiveCount_eq m ls ok fun c hc => (hb c hc).interactives
  obtain ⟨-, st0, -, -, -, -, g0, -⟩ := helper_data m rank w hns har h2 (fun c hc => (hb c hc).interactives) priv0 priv1
    joint owner
  let base : Node → Bool := fun v => priv0 1 ((interactiveNodes m ls).idxOf v)
  -- what the helper does
  have world : ∀ f, ∃ st msg, helperGateOutputs m 1 (Function.update priv1 0 f) joint owner = some st ∧
      helperSetup m priv0 (Function.update priv1 0 f) joint owner = some msg ∧
      astraSetup1 msg = SetupData.fromRaw ((interactiveNodes m ls).map fun v =>
        [base v ^^ prodOf m (fun u => maskOf st u ^^ maskOf st0 u) v]) ∧
      ∃ setup, Answers m (astraSetup1 msg) setup := by
    intro f
    obtain ⟨ls', a0, a1, msg, k1, -, k3, k4, k5, -, k7, -⟩ := helper_data m rank w hns har h2
      (fun c hc => (hb c hc).interactives) priv0 (Function.update priv1 0 f) joint owner
    rw [hls] at k1; cases k1
    rw [g0] at k3; cases k3
    refine ⟨a1, msg, k4, k5, ?_, ?_⟩
    · rw [astraSetup1]
      congr 1
      apply List.ext_getElem?
      intro i
      rw [List.getElem?_map, List.getElem?_map, msg_get hic k7]
      cases hi : (interactiveNodes m ls)[i]? with
      | none => rfl
      | some v =>
        obtain ⟨hlt, rfl⟩ := List.getElem?_eq_some_iff.1 hi
        simp only [Option.map_some, base, hvnd.idxOf_getElem]
        congr 3
        exact prod_congr fun u _ => Bool.xor_comm _ _
    · have := (answers_exist hns hls ok k7).2
      simpa only [SetupData.fromRaw, List.reverse_reverse] using this
  let c := os.count .p1
  let d : Nat → Bool := fun k => (bits[k]?).getD false ^^ (bits'[k]?).getD false
  let J : Nat → Bool := joint 1
  let sent : (Nat → Bool) → List Bool := fun a => (ownShares a J 0 0 bits).map (·.pub)
  have hsent : ∀ a a', (∀ k < c, a' k = (a k ^^ d k)) → (ownShares a' J 0 0 bits').map (·.pub) = sent a := by
    intro a a' h
    refine (sent_iff (by omega)).2 fun k b b' hb hb' => ?_
    rw [h k (lt_of_lt_of_eq (List.getElem?_eq_some_iff.1 hb).1 hl)]
    simp only [d, hb, hb', Option.getD_some]
    cases b <;> cases b' <;> cases a k <;> rfl
  have core := fun a : Nat → Bool => core_active w hw hns har h2 hb hc0 ho (p := 1) (by omega) hand hls ok joint a
    (fun k => a k ^^ d k)
    (merge os (otherShares (joint (1 ^^^ 1)) 0 (deltas (sent a))) (ownShares a J 0 0 bits))
    (merge os (otherShares (joint (1 ^^^ 1)) 0 (deltas (sent a))) (ownShares (fun k => a k ^^ d k) J 0 0 bits'))
    (merge_length os rfl (by rw [ownShares_length, ownShares_length]; omega)) base (maskOf st0) (adv (sent a))
  choose F F1 F2 F3 using core
  refine ⟨_, stream_bij (c := c) hvnd d F F1 F2, fun f k hk => ?_, fun f => ?_⟩
  · rw [seedOf, if_neg (by omega), List.getElem?_eq_none (by omega)]
    dsimp only
    rw [if_neg (by omega)]
  · generalize hΦ : seedOf c (interactiveNodes m ls) (fun k => if k < c then f k ^^ d k else f k)
      (F (cut c f) (nodeOf c (interactiveNodes m ls) f)) = f'
    have hlt : ∀ k < c, f' k = (cut c f k ^^ d k) := by
      intro k hk
      rw [← hΦ, seedOf_lt _ _ hk]
      simp [cut, hk]
    have hge : ∀ (k : Nat) v, (interactiveNodes m ls)[k]? = some v →
        f' (c + k) = F (cut c f) (nodeOf c (interactiveNodes m ls) f) v := by
      intro k v hk
      rw [← hΦ, seedOf_get _ _ hk]
    have hcut : ∀ k < c, f k = cut c f k := by intro k hk; simp [cut, hk]
    obtain ⟨st, msg, w1, w2, w3, setup, w4⟩ := world f
    obtain ⟨st', msg', v1, v2, v3, setup', v4⟩ := world f'
    have run' := fun setup setup' => F3 (cut c f) (Function.update priv1 0 f) (Function.update priv1 0 f') st st'
      setup setup' w1 v1
      (fun k hk => by rw [Function.update_self]; exact hcut k hk) (fun k hk => by rw [Function.update_self]; exact hlt k hk)
      (fun k v hk => by rw [Function.update_self, Function.update_self]; exact hge k v hk)
    rw [← w3, ← v3] at run'
    have o1 : ownShares f J 0 0 bits = ownShares (cut c f) J 0 0 bits :=
      ownShares_congr _ _ _ _ 0 0 fun k _ hk => hcut k (by omega)
    have o2 : ownShares f' J 0 0 bits' = ownShares (fun k => cut c f k ^^ d k) J 0 0 bits' :=
      ownShares_congr _ _ _ _ 0 0 fun k _ hk => hlt k (by omega)
    obtain ⟨r1, r2, r3⟩ := run_two 1 (Function.update priv1 0 f) joint map1 bits (deltas (sent (cut c f)))
    obtain ⟨r1', r2', r3'⟩ := run_two 1 (Function.update priv1 0 f') joint map1 bits' (deltas (sent (cut c f)))
    rw [Function.update_self] at r1 r2 r1' r2'
    obtain ⟨seen, o, o', R1, R2, R3⟩ := run' setup setup' w4 v4
    refine ⟨sent (cut c f), seen, o.isSome, ⟨?_, st, msg, w1, w2, ⟨setup, w4⟩, fun su hsu => ?_⟩,
      ⟨?_, st', msg', v1, v2, ⟨setup', v4⟩, fun su hsu => ?_⟩⟩
    · exact r2.trans (congrArg _ o1)
    · refine ⟨o, ?_, rfl⟩
      rw [w3] at hsu w4
      rw [r1, r3, o1, ← answers_execute hns hls ok w4 hsu]
      exact R1
    · exact r2'.trans (hsent _ _ hlt)
    · refine ⟨o', ?_, R3.symm⟩
      rw [v3] at hsu v4
      rw [r1', r3', o2, ← answers_execute hns hls ok v4 hsu]
      exact R2

/-- **C91 (party 1 does what it likes).**  The same for party 0, which follows the protocol with inputs `bits` or `bits'`,
against a party 1 that also knows the message of the helper.  The bijection is on the pairs of the bits of the two private
generators of party 0 (its masks, and the generator it shares with the helper).

Partial: the AND gates must not have a gate id which `owner` assigns to party 1. -/
theorem aby2_active_hidden_other_partial (hand : ∀ v n, m.gate? v = some (.and n) → owner v.2 ≠ some .p1)
    (joint priv0 priv1 : Seed) (bits bits' : List Bool) (hl : bits.length = os.count .p0)
    (hl' : bits'.length = os.count .p0) (deltas : List Bool → List Bool → List Bool)
    (adv : List Bool → List Bool → List (Msg × Option Unit) → Option (Msg × Option Unit)) :
    ∃ Φ : (Nat → Bool) × (Nat → Bool) → (Nat → Bool) × (Nat → Bool), Function.Bijective Φ ∧
      (∀ fg k, os.count .p0 + interactiveCount m ≤ k → (Φ fg).1 k = fg.1 k) ∧
      (∀ fg k, interactiveCount m ≤ k → (Φ fg).2 k = fg.2 k) ∧
      ∀ fg, ∃ sent msg seen ret,
        Against1 m owner os map0 joint priv1 deltas adv (Function.update (Function.update priv0 0 fg.1) 1 fg.2) bits sent
          msg seen ret ∧
        Against1 m owner os map0 joint priv1 deltas adv (Function.update (Function.update priv0 0 (Φ fg).1) 1 (Φ fg).2)
          bits' sent msg seen ret := by
  obtain ⟨it, ls, e1, e2, ok⟩ := layers_ok_partial m rank w
  have hls : layers m = some ls := by simp [layers, e1, e2]
  have hvnd : (interactiveNodes m ls).Nodup := ((iterNodes_perm ls).nodup_iff.2 ok.once).filter _
  have hic := interactiveCount_eq m ls ok fun c hc => (hb c hc).interactives
  obtain ⟨-, -, st1, -, -, -, -, g1, -⟩ := helper_data m rank w hns har h2 (fun c hc => (hb c hc).interactives) priv0 priv1
    joint owner
  obtain ⟨q1, -, -⟩ := party_masks w hw hns har h2 hb hc0 ho (p := 0) (by omega) hand hls ok joint
  have q1' := fun f : Nat → Bool => q1 (Function.update priv0 0 f)
  choose stO hstO using q1'
  have hst : ∀ f g, helperGateOutputs m 0 (Function.update (Function.update priv0 0 f) 1 g) joint owner = some (stO f) := by
    intro f g
    rw [← hstO f]
    simp [helperGateOutputs, DeltaSharing.new]
  have s0 : ∀ f g : Nat → Bool, Function.update (Function.update priv0 0 f) 1 g 0 = f := by
    intro f g
    rw [Function.update_of_ne (by decide), Function.update_self]
  -- the helper's message instead of the generator shared with the helper, and back
  let Ψ : (Nat → Bool) × (Nat → Bool) → (Nat → Bool) × (Nat → Bool) := fun fg => (fg.1, fun i =>
    match (interactiveNodes m ls)[i]? with
    | some v => fg.2 i ^^ prodOf m (fun u => maskOf (stO fg.1) u ^^ maskOf st1 u) v
    | none => fg.2 i)
  have hΨ : Function.Involutive Ψ := by
    rintro ⟨f, g⟩
    refine Prod.ext rfl (funext fun i => ?_)
    simp only [Ψ]
    cases (interactiveNodes m ls)[i]? with
    | none => rfl
    | some v => simp
  let msgOf : (Nat → Bool) → List Bool := fun h => (List.range (interactiveCount m)).map h
  let base : (Nat → Bool) → Node → Bool := fun h v => h ((interactiveNodes m ls).idxOf v)
  have world : ∀ f g h, Ψ (f, g) = (f, h) →
      helperSetup m (Function.update (Function.update priv0 0 f) 1 g) priv1 joint owner = some (msgOf h) ∧
      astraSetup0 m (Function.update (Function.update priv0 0 f) 1 g) =
        SetupData.fromRaw ((interactiveNodes m ls).map fun v =>
          [base h v ^^ prodOf m (fun u => maskOf (stO f) u ^^ maskOf st1 u) v]) ∧
      ∃ setup, Answers m (astraSetup0 m (Function.update (Function.update priv0 0 f) 1 g)) setup := by
    intro f g h hh
    obtain ⟨ls', a0, a1, msg, k1, -, k3, k4, k5, -, k7, -⟩ := helper_data m rank w hns har h2
      (fun c hc => (hb c hc).interactives) (Function.update (Function.update priv0 0 f) 1 g) priv1 joint owner
    rw [hls] at k1; cases k1
    rw [hst] at k3; cases k3
    rw [g1] at k4; cases k4
    have hh' : ∀ i : Nat, h i = match (interactiveNodes m ls)[i]? with
        | some v => g i ^^ prodOf m (fun u => maskOf (stO f) u ^^ maskOf st1 u) v
        | none => g i := fun i => (congrFun (congrArg Prod.snd hh) i).symm
    have hmsg : msg = msgOf h := by
      apply List.ext_getElem?
      intro i
      rw [msg_get hic k7, Function.update_self]
      simp only [msgOf, List.getElem?_map]
      cases hi : (interactiveNodes m ls)[i]? with
      | none =>
        rw [List.getElem?_eq_none (by rw [List.getElem?_eq_none_iff] at hi; simp; omega)]
        rfl
      | some v =>
        have hlt := (List.getElem?_eq_some_iff.1 hi).1
        rw [List.getElem?_range (by omega), Option.map_some, Option.map_some, hh', hi]
    refine ⟨hmsg ▸ k5, ?_, ?_⟩
    · rw [astraSetup0]
      congr 1
      apply List.ext_getElem?
      intro i
      rw [List.getElem?_map, List.getElem?_map]
      cases hi : (interactiveNodes m ls)[i]? with
      | none =>
        rw [List.getElem?_eq_none (by rw [List.getElem?_eq_none_iff] at hi; simp; omega)]
        rfl
      | some v =>
        have hh'' := hh' i
        rw [hi] at hh''
        obtain ⟨hlt, rfl⟩ := List.getElem?_eq_some_iff.1 hi
        rw [List.getElem?_range (by omega)]
        simp only [Option.map_some, base, hvnd.idxOf_getElem, hh'', Function.update_self]
        simp
    · have := (answers_exist hns hls ok k7).1
      simpa only [SetupData.fromRaw, List.reverse_reverse] using this
  let c := os.count .p0
  let d : Nat → Bool := fun k => (bits[k]?).getD false ^^ (bits'[k]?).getD false
  let J : Nat → Bool := joint 0
  let sent : (Nat → Bool) → List Bool := fun a => (ownShares a J 0 0 bits).map (·.pub)
  have hsent : ∀ a a', (∀ k < c, a' k = (a k ^^ d k)) → (ownShares a' J 0 0 bits').map (·.pub) = sent a := by
    intro a a' h
    refine (sent_iff (by omega)).2 fun k b b' hb hb' => ?_
    rw [h k (lt_of_lt_of_eq (List.getElem?_eq_some_iff.1 hb).1 hl)]
    simp only [d, hb, hb', Option.getD_some]
    cases b <;> cases b' <;> cases a k <;> rfl
  have core := fun h a : Nat → Bool => core_active w hw hns har h2 hb hc0 ho (p := 0) (by omega) hand hls ok joint a
    (fun k => a k ^^ d k)
    (merge os (ownShares a J 0 0 bits) (otherShares (joint (0 ^^^ 1)) 0 (deltas (msgOf h) (sent a))))
    (merge os (ownShares (fun k => a k ^^ d k) J 0 0 bits')
      (otherShares (joint (0 ^^^ 1)) 0 (deltas (msgOf h) (sent a))))
    (merge_length os (by rw [ownShares_length, ownShares_length]; omega) rfl) (base h) (maskOf st1)
    (adv (msgOf h) (sent a))
  choose F F1 F2 F3 using core
  let T : (Nat → Bool) × (Nat → Bool) → (Nat → Bool) × (Nat → Bool) := fun fh =>
    (seedOf c (interactiveNodes m ls) (fun k => if k < c then fh.1 k ^^ d k else fh.1 k)
      (F fh.2 (cut c fh.1) (nodeOf c (interactiveNodes m ls) fh.1)), fh.2)
  have hT : Function.Bijective T := by
    constructor
    · rintro ⟨f, h⟩ ⟨f', h'⟩ e
      have e2 : h = h' := congrArg Prod.snd e
      subst e2
      have := (stream_bij (c := c) hvnd d (F h) (F1 h) (F2 h)).1 (congrArg Prod.fst e)
      exact Prod.ext this rfl
    · rintro ⟨f', h⟩
      obtain ⟨f, hf⟩ := (stream_bij (c := c) hvnd d (F h) (F1 h) (F2 h)).2 f'
      exact ⟨(f, h), Prod.ext hf rfl⟩
  refine ⟨Ψ ∘ T ∘ Ψ, hΨ.bijective.comp (hT.comp hΨ.bijective), fun fg k hk => ?_, fun fg k hk => ?_, ?_⟩
  · simp only [Function.comp_apply, Ψ, T]
    rw [seedOf, if_neg (by omega), List.getElem?_eq_none (by omega)]
    dsimp only
    rw [if_neg (by omega)]
  · simp only [Function.comp_apply, Ψ, T]
    rw [List.getElem?_eq_none (by omega)]
  · rintro ⟨f, g⟩
    obtain ⟨h, hh⟩ : ∃ h, Ψ (f, g) = (f, h) := ⟨_, rfl⟩
    generalize hΦ : (Ψ ∘ T ∘ Ψ) (f, g) = fg'
    obtain ⟨f', g'⟩ := fg'
    have hh' : Ψ (f', g') = (f', h) := by
      have : Ψ (f', g') = T (f, h) := by rw [← hΦ, Function.comp_apply, Function.comp_apply, hΨ, hh]
      rw [this]
      refine Prod.ext ?_ rfl
      have := congrArg Prod.fst this
      exact this.symm
    have hf' : f' = seedOf c (interactiveNodes m ls) (fun k => if k < c then f k ^^ d k else f k)
        (F h (cut c f) (nodeOf c (interactiveNodes m ls) f)) := by
      have : f' = (T (Ψ (f, g))).1 := (congrArg Prod.fst hΦ).symm
      rw [this, hh]
    have hlt : ∀ k < c, f' k = (cut c f k ^^ d k) := by
      intro k hk
      rw [hf', seedOf_lt _ _ hk]
      simp [cut, hk]
    have hge : ∀ (k : Nat) v, (interactiveNodes m ls)[k]? = some v →
        f' (c + k) = F h (cut c f) (nodeOf c (interactiveNodes m ls) f) v := by
      intro k v hk
      rw [hf', seedOf_get _ _ hk]
    have hcut : ∀ k < c, f k = cut c f k := by intro k hk; simp [cut, hk]
    obtain ⟨w2, w3, setup, w4⟩ := world f g h hh
    obtain ⟨v2, v3, setup', v4⟩ := world f' g' h hh'
    have run' := fun setup setup' => F3 h (cut c f) (Function.update (Function.update priv0 0 f) 1 g)
      (Function.update (Function.update priv0 0 f') 1 g') (stO f) (stO f') setup setup' (hst f g) (hst f' g')
      (fun k hk => by rw [s0]; exact hcut k hk) (fun k hk => by rw [s0]; exact hlt k hk)
      (fun k v hk => by rw [s0, s0]; exact hge k v hk)
    rw [← w3, ← v3] at run'
    have o1 : ownShares f J 0 0 bits = ownShares (cut c f) J 0 0 bits :=
      ownShares_congr _ _ _ _ 0 0 fun k _ hk => hcut k (by omega)
    have o2 : ownShares f' J 0 0 bits' = ownShares (fun k => cut c f k ^^ d k) J 0 0 bits' :=
      ownShares_congr _ _ _ _ 0 0 fun k _ hk => hlt k (by omega)
    obtain ⟨r1, r2, r3⟩ := run_two 0 (Function.update (Function.update priv0 0 f) 1 g) joint map0 bits
      (deltas (msgOf h) (sent (cut c f)))
    obtain ⟨r1', r2', r3'⟩ := run_two 0 (Function.update (Function.update priv0 0 f') 1 g') joint map0 bits'
      (deltas (msgOf h) (sent (cut c f)))
    rw [s0] at r1 r2 r1' r2'
    obtain ⟨seen, o, o', R1, R2, R3⟩ := run' setup setup' w4 v4
    refine ⟨sent (cut c f), msgOf h, seen, o.isSome, ⟨?_, stO f, hst f g, w2, ⟨setup, w4⟩, fun su hsu => ?_⟩,
      ⟨?_, stO f', hst f' g', v2, ⟨setup', v4⟩, fun su hsu => ?_⟩⟩
    · exact r2.trans (congrArg _ o1)
    · refine ⟨o, ?_, rfl⟩
      rw [w3] at hsu w4
      rw [r1, r3, o1, ← answers_execute hns hls ok w4 hsu]
      exact R1
    · exact r2'.trans (hsent _ _ hlt)
    · refine ⟨o', ?_, R3.symm⟩
      rw [v3] at hsu v4
      rw [r1', r3', o2, ← answers_execute hns hls ok v4 hsu]
      exact R2

end

/-! ### The hypotheses can hold -/

/-- The example circuit (an AND gate in a sub-circuit) for the executor alone: with the data of a trusted dealer that does not
depend on masks. -/
example (x y z x' y' z' : Share) (b b' : Bool) (adv : List (Msg × Option Unit) → Option (Msg × Option Unit)) :
    ∃ F : (Node → Bool) → Node → Bool, Function.Bijective F ∧ ∀ u, ∃ seen o o',
      interact adv [] (execute aby2 callCirc 0 (.scalar [x, y, z]) (fun _ _ => [[b]]) (withMasks emptyStore u)) = (seen, o) ∧
      interact adv [] (execute aby2 callCirc 0 (.scalar [x', y', z']) (fun _ _ => [[b']])
        (withMasks emptyStore (F u))) = (seen, o') ∧ o.isSome = o'.isSome := by
  obtain ⟨ls, -, h⟩ := aby2_active_private callCirc callRank callCirc_wf callCirc_exec.1 0 [x, y, z] [x', y', z'] rfl
    emptyStore
  obtain ⟨F, h1, -, h3⟩ := h (fun _ _ _ => [[b]]) (fun _ _ _ => [[b']]) (fun _ _ _ _ _ _ => rfl) (fun _ _ _ _ _ _ => rfl)
    (fun _ _ _ _ _ => rfl) adv
  exact ⟨F, h1, h3⟩

/-- With the helper: whatever party 0 does, it cannot tell the inputs `y`, `z` of party 1 from `y'`, `z'`. -/
example (joint priv0 priv1 : Seed) (y z y' z' : Bool) (deltas : List Bool → List Bool)
    (adv : List Bool → List (Msg × Option Unit) → Option (Msg × Option Unit)) :
    ∃ Φ : (Nat → Bool) → Nat → Bool, Function.Bijective Φ ∧ (∀ f k, 3 ≤ k → Φ f k = f k) ∧
      ∀ f, ∃ sent seen ret,
        Against0 callCirc callOwner [.p0, .p1, .p1] (fun _ => none) joint priv0 deltas adv (Function.update priv1 0 f) [y, z]
          sent seen ret ∧
        Against0 callCirc callOwner [.p0, .p1, .p1] (fun _ => none) joint priv0 deltas adv
          (Function.update priv1 0 (Φ f)) [y', z'] sent seen ret :=
  aby2_active_hidden_partial callCirc_wf callCirc_exec.2 callCirc_exec.1
    (fun v g hg => arity_of_gateEq (callCirc_plain false false false v g hg)) callCirc_and callCirc_book (c0 := callMain) rfl
    (owner := callOwner) (os := [.p0, .p1, .p1]) rfl (by
      intro v n hv
      have := callCirc_gate hv
      simp at this
      rw [this.1]; decide) joint priv0 priv1 [y, z] [y', z'] rfl rfl deltas adv

/-- Whatever party 1 does, it cannot tell the inputs `x`, `z` of party 0 from `x'`, `z'`. -/
example (joint priv0 priv1 : Seed) (x z x' z' : Bool) (deltas : List Bool → List Bool → List Bool)
    (adv : List Bool → List Bool → List (Msg × Option Unit) → Option (Msg × Option Unit)) :
    ∃ Φ : (Nat → Bool) × (Nat → Bool) → (Nat → Bool) × (Nat → Bool), Function.Bijective Φ ∧
      (∀ fg k, 3 ≤ k → (Φ fg).1 k = fg.1 k) ∧ (∀ fg k, 1 ≤ k → (Φ fg).2 k = fg.2 k) ∧
      ∀ fg, ∃ sent msg seen ret,
        Against1 callCirc (fun i => if i = 1 then some .p1 else if i < 3 then some .p0 else none) [.p0, .p1, .p0]
          (fun _ => none) joint priv1 deltas adv (Function.update (Function.update priv0 0 fg.1) 1 fg.2) [x, z] sent msg seen
          ret ∧
        Against1 callCirc (fun i => if i = 1 then some .p1 else if i < 3 then some .p0 else none) [.p0, .p1, .p0]
          (fun _ => none) joint priv1 deltas adv (Function.update (Function.update priv0 0 (Φ fg).1) 1 (Φ fg).2) [x', z'] sent
          msg seen ret :=
  aby2_active_hidden_other_partial callCirc_wf callCirc_exec.2 callCirc_exec.1
    (fun v g hg => arity_of_gateEq (callCirc_plain false false false v g hg)) callCirc_and callCirc_book (c0 := callMain) rfl
    (os := [.p0, .p1, .p0]) rfl (by
      intro v n hv
      have := callCirc_gate hv
      simp at this
      rw [this.1]; decide) joint priv0 priv1 [x, z] [x', z'] rfl rfl deltas adv

end Verif.Aby2
