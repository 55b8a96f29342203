import Verif.Aby2.Astra
import Verif.Aby2.Witness
import Verif.Circuit.StaticWitness
import Verif.Exec.StaticProps

/-!
C105: ABY2 with a helper on circuits with precomputed layers (`ExecutableCircuit::StaticLayers`): the iterators over
whole circuits, the masks, the helper's message and the execution.
-/
set_option autoImplicit false

namespace Verif.Aby2

open Circuit Exec Proc

/-! ### Model -/

section
variable {G : Type}

/-- static_layers.rs:188-201, 319-341 `iter_with_parents`: layer by layer, sub-circuit by sub-circuit, local gates
before interactive ones. -/
def withParents (s : Static G) : Option (List (Entry G)) :=
  (s.iter false false).map fun ls => ls.flatten.flatMap fun e => (viewStatic s e).ni ++ (viewStatic s e).int

/-- static_layers.rs:214-232 `interactive_with_parents_iter`. -/
def interactiveWithParents (s : Static G) : Option (List (Entry G)) :=
  (s.iter false false).map fun ls => ls.flatten.flatMap fun e => (viewStatic s e).int

/-- static_layers.rs:343-350, 393-401 `(non_)interactive_iter` of a layer. -/
def idsOf (sc : Nat) (g : ScGates G) : List (G × Node) := (g.gates.zip g.idx).map fun e => (e.1, (sc, e.2))

/-- static_layers.rs:179-186, 312-317 `iter`. -/
def gatesS (s : Static G) : Option (List (G × Node)) :=
  (s.iter false false).map fun ls => ls.flatten.flatMap fun e => idsOf e.1 e.2.ni ++ idsOf e.1 e.2.int

/-- static_layers.rs:203-212 `interactive_iter`. -/
def interactiveGatesS (s : Static G) : Option (List (G × Node)) :=
  (s.iter false false).map fun ls => ls.flatten.flatMap fun e => idsOf e.1 e.2.int

/-- static_layers.rs:68-73 `gate_count`; `none` is the index panic. -/
def gateCountS (s : Static G) : Option Nat :=
  (s.scMap.mapM fun mp => (s.subs[mp]?).map (·.gateCount)).map List.sum

/-- static_layers.rs:75-80 `interactive_count`. -/
def interactiveCountS (s : Static G) : Option Nat :=
  (s.scMap.mapM fun mp => (s.subs[mp]?).map (·.intCount)).map List.sum

end

/-- aby2.rs:236-250: one gate of the loop, with the operands the iterator gives. -/
def setupEntry (sh : Shape) (s : DeltaSharing) (st : Store Share (List Share)) (e : Entry Gate) :
    Option (DeltaSharing × Store Share (List Share)) := do
  let xs ← e.2.mapM (sh.get st)
  match s.map e.1.2.2 with
  | some .remote => do
    let (o, r) ← setupOutputShare e.1.1 xs s.remoteJoint
    let st ← sh.put st e.1.2 o
    pure ({ s with remoteJoint := r }, st)
  | _ => do
    let (o, r) ← setupOutputShare e.1.1 xs s.priv
    let st ← sh.put st e.1.2 o
    pure ({ s with priv := r }, st)

/-- aby2.rs:236-250: the loop. -/
def setupEntries (sh : Shape) : DeltaSharing → Store Share (List Share) → List (Entry Gate) →
    Option (DeltaSharing × Store Share (List Share))
  | s, st, [] => some (s, st)
  | s, st, e :: es => do
    let (s, st) ← setupEntry sh s st e
    setupEntries sh s st es

/-- aby2.rs:221-254 `setup_gate_outputs` for precomputed layers. -/
def setupGateOutputsS (c : SCirc Gate) (s : DeltaSharing) : Option (DeltaSharing × Store Share (List Share)) := do
  let sh ← c.shape
  if sh.all (fun x => x.2.isNone) then do
    let es ← withParents c.core
    setupEntries sh s emptyStore es
  else none

/-- aby2.rs:875-904 `AstraSetupHelper::setup_gate_outputs`. -/
def helperGateOutputsS (c : SCirc Gate) (party : Nat) (priv joint : Seed) (input : Nat → Option InputBy) :
    Option (Store Share (List Share)) :=
  (setupGateOutputsS c (.new party priv joint fun i => (input i).map (shareType party))).map (·.2)

/-- aby2.rs:846-864: the loop over the interactive gates of the helper. -/
def helperProductsS (lam : Node → Bool) : Rng → List (Entry Gate) → Option (List Bool)
  | _, [] => some []
  | r, e :: es =>
    match e.1.1 with
    | .and 2 => do
      let a ← e.2[0]?
      let b ← e.2[1]?
      let rest ← helperProductsS lam r.gen.2 es
      pure (((lam a && lam b) ^^ r.gen.1) :: rest)
    | _ => none

/-- aby2.rs:820-868 `AstraSetupHelper::setup`: the message to party 1. -/
def helperSetupS (c : SCirc Gate) (priv0 priv1 joint : Seed) (input : Nat → Option InputBy) : Option (List Bool) := do
  let st0 ← helperGateOutputsS c 0 priv0 joint input
  let st1 ← helperGateOutputsS c 1 priv1 joint input
  let es ← interactiveWithParents c.core
  helperProductsS (fun v => (st0.sc v).priv ^^ (st1.sc v).priv) ⟨priv0 1, 0⟩ es

/-- aby2.rs:927-941 `AstraSetupProvider::setup` of party 0. -/
def astraSetup0S (c : SCirc Gate) (priv0 : Seed) : Option SetupData := do
  let n ← interactiveCountS c.core
  pure (.fromRaw ((List.range n).map fun i => [priv0 1 i]))

/-! ### Iterators -/

section
variable {G : Type}

theorem entriesDyn_eq (m : Multi G) (sc : Nat) (ids : List Nat) :
    entriesDyn m sc ids = (ids.map fun g => (sc, g)).filterMap (entryOf m) := by
  rw [entriesDyn, List.filterMap_map]
  rfl

theorem views_flat (m : Multi G) (ls : List MLayer) :
    ((ls.map fun l => l.map (viewDyn m)).flatten.flatMap fun v => v.ni ++ v.int) =
      (iterNodes ls).filterMap (entryOf m) := by
  induction ls with
  | nil => rfl
  | cons l ls ih =>
    have e : iterNodes (l :: ls) = (l.flatMap fun p => (p.2.ni ++ p.2.int).map fun g => (p.1, g)) ++ iterNodes ls := by
      simp [iterNodes]
    rw [List.map_cons, List.flatten_cons, List.flatMap_append, ih, e, List.filterMap_append]
    congr 1
    induction l with
    | nil => rfl
    | cons p l ihl =>
      rw [List.map_cons, List.flatMap_cons, ihl (by simp [iterNodes]), List.flatMap_cons, List.filterMap_append]
      congr 1
      simp only [viewDyn, entriesDyn_eq, List.map_append, List.filterMap_append]

theorem views_flat_int [GateLike G] (m : Multi G) (ls : List MLayer) :
    ((ls.map fun l => l.map (viewDyn m)).flatten.flatMap fun v => v.int) =
      (ls.flatMap intNodes).filterMap (entryOf m) := by
  induction ls with
  | nil => rfl
  | cons l ls ih =>
    rw [List.map_cons, List.flatten_cons, List.flatMap_append, ih, view_int, List.flatMap_cons, List.filterMap_append]

end

theorem static_views {G : Type} [GateLike G] (s : Static G) (m : Multi G) (ls : List MLayer)
    (hb : ∀ l ∈ ls, ∀ e ∈ l, e.1 < m.circs.length)
    (h : (s.iter false false).map (fun r => r.map fun l => l.map (viewStatic s)) =
      some ((splitDyn m false false ls).map fun l => l.map (viewDyn m))) :
    withParents s = some ((iterNodes ls).filterMap (entryOf m)) ∧
      interactiveWithParents s = some ((ls.flatMap intNodes).filterMap (entryOf m)) := by
  have hs : splitDyn m false false ls = ls := by
    rw [splitDyn]
    conv => rhs; rw [← List.map_id ls]
    apply List.map_congr_left
    intro l hl
    exact List.filter_eq_self.2 fun e he => keeps_all (hb l hl e he)
  rw [hs] at h
  cases hi : s.iter false false with
  | none => rw [hi] at h; simp at h
  | some r =>
    rw [hi, Option.map_some, Option.some.injEq] at h
    have key : ∀ f : View G → List (Entry G), (r.flatten.flatMap fun e => f (viewStatic s e)) =
        (ls.map fun l => l.map (viewDyn m)).flatten.flatMap f := by
      intro f
      rw [← h, ← List.map_flatten, List.flatMap_map]
    rw [withParents, interactiveWithParents, hi, Option.map_some, Option.map_some]
    exact ⟨by rw [key fun v => v.ni ++ v.int, views_flat], by rw [key fun v => v.int, views_flat_int]⟩

theorem counts_eq {G : Type} (s : Static G) (m : Multi G) (f : SubC G → Nat) (g : Base G → Nat)
    (hl : s.scMap.length = m.circs.length)
    (h : ∀ (i : Nat) (c : Base G), m.circs[i]? = some c → ∃ t, s.getCirc i = some t ∧ f t = g c) :
    (s.scMap.mapM fun mp => (s.subs[mp]?).map f) = some (m.circs.map g) := by
  have key : ∀ (a : List Nat) (b : List (Base G)), a.length = b.length →
      (∀ (i : Nat) (c : Base G), b[i]? = some c → ∃ t, (a[i]?.bind fun mp => s.subs[mp]?) = some t ∧ f t = g c) →
      (a.mapM fun mp => (s.subs[mp]?).map f) = some (b.map g) := by
    intro a
    induction a with
    | nil => intro b hb _; cases b with
      | nil => rfl
      | cons x b => simp at hb
    | cons mp a ih =>
      intro b hb hc
      cases b with
      | nil => simp at hb
      | cons x b =>
        obtain ⟨t, h1, h2⟩ := hc 0 x rfl
        simp only [List.getElem?_cons_zero, Option.bind_some] at h1
        rw [List.mapM_cons, h1, ih b (by simpa using hb) fun i c hi => by
          simpa using hc (i + 1) c (by simpa using hi)]
        simp [h2]
  exact key _ _ hl h

/-! Every layer of a precomputed circuit is the conversion of some layer. -/

section
variable {G : Type}

def Converted (m : Multi G) (subs : List (SubC G)) : Prop :=
  ∀ s ∈ subs, ∀ l ∈ s.layers, ∃ sc x, l = fromBaseLayer m sc x

theorem addLayer_converted [DecidableEq G] (m : Multi G) (st st' : PreSt G) (ptrs : List Nat) (sc : Nat)
    (simd : Option Nat) (x : Layer) (h : Converted m st.subs) (he : addLayer m st ptrs sc simd x = some st') :
    Converted m st'.subs := by
  unfold addLayer at he
  split at he
  · cases he
  · simp only at he
    split at he
    · simp only [Option.some.injEq] at he
      subst he
      intro s hs l hl
      rcases List.mem_append.1 hs with hs | hs
      · exact h s hs l hl
      · rw [List.mem_singleton] at hs
        subst hs
        simp only [SubC.new, List.mem_singleton] at hl
        exact ⟨sc, x, hl⟩
    · rename_i t ht
      have hpush : ∀ t : SubC G, (∀ l ∈ t.layers, ∃ sc x, l = fromBaseLayer m sc x) →
          ∀ l ∈ (t.push (fromBaseLayer m sc x)).layers, ∃ sc x, l = fromBaseLayer m sc x := by
        intro t h l hl
        simp only [SubC.push, List.mem_append, List.mem_singleton] at hl
        rcases hl with hl | hl
        · exact h l hl
        · exact ⟨sc, x, hl⟩
      split at he
      · cases he
      · split at he
        · simp only [Option.some.injEq] at he
          subst he
          intro s hs
          rcases List.mem_or_eq_of_mem_set hs with hs | rfl
          · exact h s hs
          · exact hpush t (h t (List.mem_of_getElem? ht))
        · split at he
          · cases he; exact h
          · split at he
            · cases he
            · cases he; exact h
            · simp only [Option.some.injEq] at he
              subst he
              intro s hs
              rcases List.mem_append.1 hs with hs | hs
              · exact h s hs
              · rw [List.mem_singleton] at hs
                subst hs
                refine hpush _ fun l hl => h t (List.mem_of_getElem? ht) l ?_
                exact List.mem_of_mem_take hl

theorem addAll_converted [DecidableEq G] (m : Multi G) (st st' : PreSt G × List Nat) (l : List (Nat × Layer))
    (h : Converted m st.1.subs) (he : addAll m st l = some st') : Converted m st'.1.subs := by
  induction l generalizing st with
  | nil => simp only [addAll, Option.some.injEq] at he; rw [← he]; exact h
  | cons e l ih =>
    obtain ⟨a, b⟩ := st
    obtain ⟨sc, x⟩ := e
    simp only [addAll] at he
    split at he
    · cases he
    · split at he
      · cases he
      · rename_i c _ st1 h1
        split at he
        · exact ih (st1, _) (addLayer_converted m _ _ _ _ _ _ h h1) he
        · cases he

theorem precompute_converted [DecidableEq G] (m : Multi G) (cmap : List Nat) (ls : List MLayer) (s : Static G)
    (h : precompute m cmap ls = some s) : Converted m s.subs := by
  have key : ∀ (ls : List MLayer) (st st' : PreSt G × List Nat), Converted m st.1.subs →
      ls.foldlM (fun s l => addAll m s l) st = some st' → Converted m st'.1.subs := by
    intro ls
    induction ls with
    | nil => intro st st' h he; simp only [List.foldlM_nil, Option.pure_def, Option.some.injEq] at he; rw [← he]; exact h
    | cons l ls ih =>
      intro st st' h he
      simp only [List.foldlM_cons, Option.bind_eq_bind, Option.bind_eq_some_iff] at he
      obtain ⟨st1, h1, h2⟩ := he
      exact ih st1 st' (addAll_converted m st st1 l h h1) h2
  unfold precompute at h
  split at h
  · cases h
  · rename_i st ptrs he
    simp only [Option.some.injEq] at h
    subst h
    exact key ls _ _ (by intro s hs; simp at hs) he

theorem scLayers_mem (s : Static G) (state : List Nat) (a b : Bool) (ids : List Nat) (r : List (Nat × ScLayer G))
    (h : scLayers s state a b ids = some r) : ∀ e ∈ r, ∃ t ∈ s.subs, e.2 ∈ t.layers := by
  induction ids generalizing r with
  | nil => simp only [scLayers, Option.some.injEq] at h; subst h; simp
  | cons sc ids ih =>
    simp only [scLayers] at h
    split at h
    · cases h
    · rename_i c hc
      split at h
      · exact ih r h
      · split at h
        · cases h
        · split at h
          · cases h; simp
          · rename_i l hl
            obtain ⟨r', hr', rfl⟩ := Option.map_eq_some_iff.1 h
            intro e he
            rcases List.mem_cons.1 he with rfl | he
            · refine ⟨c, ?_, List.mem_of_getElem? hl⟩
              simp only [Static.getCirc, Option.bind_eq_some_iff] at hc
              obtain ⟨mp, -, hc⟩ := hc
              exact List.mem_of_getElem? hc
            · exact ih r' hr' e he

theorem iterFrom_mem (s : Static G) (a b : Bool) (state : List Nat) (ids : List (List Nat))
    (r : List (List (Nat × ScLayer G))) (h : iterFrom s a b state ids = some r) :
    ∀ e ∈ r.flatten, ∃ t ∈ s.subs, e.2 ∈ t.layers := by
  induction ids generalizing r state with
  | nil => simp only [iterFrom, Option.some.injEq] at h; subst h; simp
  | cons i ids ih =>
    simp only [iterFrom] at h
    split at h
    · cases h
    · rename_i l hl
      obtain ⟨r', hr', rfl⟩ := Option.map_eq_some_iff.1 h
      intro e he
      rw [List.flatten_cons] at he
      rcases List.mem_append.1 he with he | he
      · exact scLayers_mem s _ _ _ _ l hl e he
      · exact ih _ r' hr' e he

theorem fromBaseLoop_lengths (m : Multi G) (sc : Nat) (ids acc : List Nat) :
    (fromBaseLoop m sc ids acc).1.length = ids.length ∧ (fromBaseLoop m sc ids acc).2.1.length = ids.length := by
  induction ids generalizing acc with
  | nil => exact ⟨rfl, rfl⟩
  | cons v ids ih =>
    obtain ⟨h1, h2⟩ := ih (acc ++ m.localParents sc v)
    simp only [fromBaseLoop, List.length_cons]
    exact ⟨by rw [h1], by rw [h2]⟩

theorem entries_fst (s : Static G) (sc : Nat) (inc : List Nat) (g : ScGates G)
    (h1 : g.incoming.length = g.idx.length) (h2 : g.cross.length = g.idx.length) :
    (entriesStatic s sc inc g).map (·.1) = idsOf sc g := by
  rw [entriesStatic, show (fun e : Entry G => e.1) = Prod.fst from rfl, List.map_fst_zip, idsOf]
  simp only [parentsOf, List.length_map, List.length_zip, h1, h2]
  omega

/-- The iterators without operands. -/
theorem gates_of_parents [DecidableEq G] (m : Multi G) (cmap : List Nat) (ls : List MLayer) (s : Static G)
    (h : precompute m cmap ls = some s) :
    gatesS s = (withParents s).map (·.map (·.1)) ∧
      interactiveGatesS s = (interactiveWithParents s).map (·.map (·.1)) := by
  have hc := precompute_converted m cmap ls s h
  cases hi : s.iter false false with
  | none => simp [gatesS, withParents, interactiveGatesS, interactiveWithParents, hi]
  | some r =>
    have hm := iterFrom_mem s false false _ _ r hi
    have key : ∀ e ∈ r.flatten, (viewStatic s e).ni.map (·.1) = idsOf e.1 e.2.ni ∧
        (viewStatic s e).int.map (·.1) = idsOf e.1 e.2.int := by
      intro e he
      obtain ⟨t, ht, hl⟩ := hm e he
      obtain ⟨sc, x, hx⟩ := hc t ht _ hl
      have f : ∀ ids acc, _ := fromBaseLoop_lengths m sc
      rw [hx]
      refine ⟨?_, ?_⟩
      · simp only [viewStatic, hx]
        exact entries_fst s _ _ _ (f _ _).1 (f _ _).2
      · simp only [viewStatic, hx]
        exact entries_fst s _ _ _ (f _ _).1 (f _ _).2
    simp only [gatesS, withParents, interactiveGatesS, interactiveWithParents, hi, Option.map_some,
      Option.some.injEq, List.map_flatMap, List.map_append]
    refine ⟨?_, ?_⟩
    · exact List.flatMap_congr fun e he => by rw [(key e he).1, (key e he).2]
    · exact List.flatMap_congr fun e he => by rw [(key e he).2]

end

/-! ### Setup -/

section
variable {m : Multi Gate} {sh : Shape}

theorem setupEntry_eq (hsh : ShapeOk m sh) (hp : ∀ v, ∀ u ∈ m.parents v, m.Valid u) (s : DeltaSharing)
    (st : Store Share (List Share)) (v : Node) (g : Gate) (hg : m.gate? v = some g) (hv : m.Valid v) :
    setupEntry sh s st ((g, v), m.parents v) = setupNode m s st v := by
  unfold setupEntry setupNode
  rw [hg, mapM_congr' fun u hu => hsh.get (hp v u hu) st]
  simp only [hsh.put hv, Option.bind_eq_bind, Option.bind_some]
  rfl

theorem setupEntries_eq (hsh : ShapeOk m sh) (hp : ∀ v, ∀ u ∈ m.parents v, m.Valid u) (vs : List Node)
    (hv : ∀ v ∈ vs, m.Valid v) (s : DeltaSharing) (st : Store Share (List Share)) :
    setupEntries sh s st (vs.filterMap (entryOf m)) = setupNodes m s st vs := by
  induction vs generalizing s st with
  | nil => rfl
  | cons v vs ih =>
    have hvv := hv v List.mem_cons_self
    obtain ⟨g, hg⟩ : ∃ g, m.gate? v = some g := by
      obtain ⟨c, hc, hl⟩ := hvv
      exact ⟨c.gates[v.2], by simp [Multi.gate?, hc, hl]⟩
    rw [List.filterMap_cons_some (show entryOf m v = some ((g, v), m.parents v) by rw [entryOf, hg]; rfl)]
    simp only [setupEntries, setupNodes, setupEntry_eq hsh hp s st v g hg hvv]
    congr 1
    funext x
    exact ih (fun u hu => hv u (List.mem_cons_of_mem _ hu)) _ _

theorem helperProductsS_eq (lam : Node → Bool) (r : Rng) (vs : List Node) (hv : ∀ v ∈ vs, m.Valid v) :
    helperProductsS lam r (vs.filterMap (entryOf m)) = helperProducts m lam r vs := by
  induction vs generalizing r with
  | nil => rfl
  | cons v vs ih =>
    obtain ⟨g, hg⟩ : ∃ g, m.gate? v = some g := by
      obtain ⟨c, hc, hl⟩ := hv v List.mem_cons_self
      exact ⟨c.gates[v.2], by simp [Multi.gate?, hc, hl]⟩
    rw [List.filterMap_cons_some (show entryOf m v = some ((g, v), m.parents v) by rw [entryOf, hg]; rfl)]
    simp only [helperProductsS, helperProducts, hg, ih _ fun u hu => hv u (List.mem_cons_of_mem _ hu),
      Option.bind_eq_bind, Option.bind_some]
    rfl

end

theorem allNodes_length {G : Type} (m : Multi G) : (allNodes m).length = (m.circs.map fun c => c.gates.length).sum := by
  rw [allNodes, nodesOf, List.length_flatMap]
  congr 1
  apply List.ext_getElem
  · simp
  · intro i h1 h2
    have hi : i < m.circs.length := by simpa using h1
    simp [List.getElem?_eq_getElem hi]

/-! ### Theorems -/

/-- **C105 (iterators).**  The iterators over all gates of a precomputed circuit and over its interactive gates, and its
counts, are those of the original circuit.  They yield every gate once, with its operands; `iterNodes` is the order of
the original.  Partial: the conditions of C47, and no circuit is empty. -/
theorem static_iterators_same_partial {G : Type} [GateLike G] [DecidableEq G] (m : Multi G) (rank : Node → Nat)
    (w : WF m rank) (cmap : List Nat) (hcmap : CMapOk m cmap) (hne : NoEmpty m)
    (hb : ∀ c ∈ m.circs, c.interactiveCount = c.gates.countP fun g => interactive g) :
    ∃ ls, layers m = some ls ∧ LayersOk m ls ∧ (FirstUseInOrder cmap ls.flatten → SameLayers cmap ls.flatten →
      ∃ s es is, precompute m cmap ls = some s ∧ withParents s = some es ∧ interactiveWithParents s = some is ∧
        es = (iterNodes ls).filterMap (fun v => (m.gate? v).map fun g => ((g, v), m.parents v)) ∧
        is = es.filter (fun e => interactive e.1.1) ∧
        gatesS s = some (es.map (·.1)) ∧ interactiveGatesS s = some (is.map (·.1)) ∧
        (es.map (·.1.2)).Nodup ∧ (∀ v, v ∈ es.map (·.1.2) ↔ m.Valid v) ∧
        (∀ e ∈ es, m.gate? e.1.2 = some e.1.1 ∧ e.2 = m.parents e.1.2) ∧
        gateCountS s = some es.length ∧ interactiveCountS s = some is.length) := by
  obtain ⟨it, ls, e1, e2, ok⟩ := layers_ok_partial m rank w
  refine ⟨ls, by simp [layers, e1, e2], ok, fun hf hs => ?_⟩
  obtain ⟨s, hpre, hviews, hcirc⟩ := static_layers_core m rank w cmap hcmap it ls _ e2 ok hf hs
  have hids := Circuit.collect_ids m _ it ls e2
  obtain ⟨v1, v2⟩ := static_views s m ls (fun l hl => (hids l hl).2) (hviews false false)
  have hperm := iterNodes_perm ls
  have hgate : ∀ v ∈ iterNodes ls, ∃ g, m.gate? v = some g := by
    intro v hv
    obtain ⟨c, hc, hl⟩ := (ok.all v).1 (hperm.mem_iff.1 hv)
    exact ⟨c.gates[v.2], by simp [Multi.gate?, hc, hl]⟩
  have hmap : ∀ vs : List Node, (∀ v ∈ vs, ∃ g, m.gate? v = some g) →
      ((vs.filterMap (entryOf m)).map (·.1.2)) = vs := by
    intro vs
    induction vs with
    | nil => intro _; rfl
    | cons v vs ih =>
      intro h
      obtain ⟨g, hg⟩ := h v List.mem_cons_self
      rw [List.filterMap_cons_some (show entryOf m v = some ((g, v), m.parents v) by rw [entryOf, hg]; rfl),
        List.map_cons, ih fun u hu => h u (List.mem_cons_of_mem _ hu)]
  have hfil : ∀ vs : List Node, (vs.filter fun v => (m.gate? v).any interactive).filterMap (entryOf m) =
      (vs.filterMap (entryOf m)).filter fun e => interactive e.1.1 := by
    intro vs
    induction vs with
    | nil => rfl
    | cons v vs ih =>
      cases hg : m.gate? v with
      | none =>
        rw [List.filter_cons_of_neg (by simp [hg]), ih, List.filterMap_cons_none (by simp [entryOf, hg])]
      | some g =>
        have he : entryOf m v = some ((g, v), m.parents v) := by rw [entryOf, hg]; rfl
        rw [List.filterMap_cons_some he]
        cases hi : interactive g with
        | false => rw [List.filter_cons_of_neg (by simp [hg, hi]), ih, List.filter_cons_of_neg (by simp [hi])]
        | true =>
          rw [List.filter_cons_of_pos (by simp [hg, hi]), List.filterMap_cons_some he, ih,
            List.filter_cons_of_pos (by simp [hi])]
  have hint : (ls.flatMap intNodes).filterMap (entryOf m) =
      ((iterNodes ls).filterMap (entryOf m)).filter fun e => interactive e.1.1 := by
    rw [← hfil, ← interactiveNodes_eq m ls ok.local_ ok.inter]
    rfl
  have hlen : s.scMap.length = m.circs.length := by
    rw [← hcmap.length]; exact precompute_length m cmap ls s hpre
  have hnodes : ((iterNodes ls).filterMap (entryOf m)).map (·.1.2) = iterNodes ls := hmap _ hgate
  have hpall : (iterNodes ls).Perm (allNodes m) := by
    refine hperm.trans ?_
    rw [List.perm_ext_iff_of_nodup ok.once]
    · intro v; rw [ok.all, mem_allNodes]
    · refine nodup_nodesOf _ _ List.nodup_range ?_
      intro i _
      split
      · exact List.nodup_range
      · exact List.nodup_nil
  obtain ⟨p1, p2⟩ := gates_of_parents m cmap ls s hpre
  refine ⟨s, _, _, hpre, v1, v2, rfl, hint, by rw [p1, v1]; rfl, by rw [p2, v2]; rfl, ?_, ?_, ?_, ?_, ?_⟩
  · rw [hnodes]; exact hperm.nodup_iff.2 ok.once
  · intro v; rw [hnodes, hperm.mem_iff, ok.all]
  · intro e he
    obtain ⟨v, -, hv⟩ := List.mem_filterMap.1 he
    cases hg : m.gate? v with
    | none => simp [entryOf, hg] at hv
    | some g => simp only [entryOf, hg, Option.map_some, Option.some.injEq] at hv; subst hv; exact ⟨hg, rfl⟩
  · rw [gateCountS, counts_eq s m (·.gateCount) (·.gates.length) hlen fun i c hc => by
        obtain ⟨t, h1, h2, -, -⟩ := hcirc i c hc (hne i c hc); exact ⟨t, h1, h2⟩, Option.map_some,
      ← List.length_map (f := fun e : Entry G => e.1.2), hnodes, hpall.length_eq, allNodes_length]
  · rw [interactiveCountS, counts_eq s m (·.intCount) (·.interactiveCount) hlen fun i c hc => by
        obtain ⟨t, h1, -, -, h2⟩ := hcirc i c hc (hne i c hc)
        exact ⟨t, h1, by rw [h2, hb c (List.mem_of_getElem? hc)]⟩, Option.map_some]
    have h := interactiveCount_eq m ls ok hb
    rw [interactiveCount] at h
    rw [h, interactiveNodes_eq m ls ok.local_ ok.inter, ← List.length_map (f := fun e : Entry G => e.1.2),
      hmap _ fun v hv => ?_]
    obtain ⟨l, hl, hvl⟩ := List.mem_flatMap.1 hv
    obtain ⟨g, hg, -⟩ := ok.inter l hl v hvl
    exact ⟨g, hg⟩

/-- **C105.**  With precomputed layers the masks of both parties and the helper's message are those of the original
circuit.  Partial: as `static_iterators_same_partial`. -/
theorem astra_static_setup_partial (m : Multi Gate) (rank : Node → Nat) (w : WF m rank) (cmap : List Nat)
    (hcmap : CMapOk m cmap) (hne : NoEmpty m)
    (hb : ∀ c ∈ m.circs, c.interactiveCount = c.gates.countP fun g => interactive g) (c0 : Base Gate)
    (hc0 : m.circs[0]? = some c0) :
    ∃ ls, layers m = some ls ∧ (FirstUseInOrder cmap ls.flatten → SameLayers cmap ls.flatten →
      ∃ c, precomputeCirc m cmap = some c ∧ (∀ s, setupGateOutputsS c s = setupGateOutputs m s) ∧
        (∀ priv0 priv1 joint owner, helperSetupS c priv0 priv1 joint owner = helperSetup m priv0 priv1 joint owner) ∧
        ∀ priv0, astraSetup0S c priv0 = some (astraSetup0 m priv0)) := by
  obtain ⟨it, ls, e1, e2, ok, hx⟩ := static_parts m rank w cmap hcmap hne c0 hc0
  have hls : layers m = some ls := by simp [layers, e1, e2]
  refine ⟨ls, hls, fun hf hs => ?_⟩
  obtain ⟨c, sh, hpre, hsh, hok, -⟩ := hx hf hs
  obtain ⟨ls', hls', -, hy⟩ := static_iterators_same_partial m rank w cmap hcmap hne hb
  rw [hls] at hls'
  cases hls'
  obtain ⟨s, es, is, hp, h1, h2, h3, h4, -, -, -, -, -, -, h5⟩ := hy hf hs
  have hcs : c = ⟨s, c0.inputGates, c0.outputGates⟩ := by
    simp only [precomputeCirc, hc0, e1, e2, hp, Option.bind_eq_bind, Option.bind_some, Option.pure_def,
      Option.some.injEq] at hpre
    exact hpre.symm
  subst hcs
  have hv : ∀ v ∈ iterNodes ls, m.Valid v := fun v hv => (ok.all v).1 ((iterNodes_perm ls).mem_iff.1 hv)
  have hall : sh.all (fun x => x.2.isNone) = m.circs.all (fun c => c.simdSize.isNone) := by
    have : sh = m.circs.map fun c => (c.gates.length, c.simdSize) := by
      apply List.ext_getElem?
      intro i
      rw [List.getElem?_map]
      cases hi : m.circs[i]? with
      | none => rw [Option.map_none, List.getElem?_eq_none_iff, hok.len]; exact List.getElem?_eq_none_iff.1 hi
      | some d => rw [hok.cells i d hi]; rfl
    rw [this, List.all_map]
    rfl
  have hset : ∀ d, setupGateOutputsS ⟨s, c0.inputGates, c0.outputGates⟩ d = setupGateOutputs m d := by
    intro d
    simp only [setupGateOutputsS, setupGateOutputs, hsh, hls, hall, h1, Option.bind_eq_bind, Option.bind_some]
    rw [h3]
    split
    · exact setupEntries_eq hok (parents_valid w) _ hv d emptyStore
    · rfl
  refine ⟨_, hpre, hset, ?_, ?_⟩
  · intro priv0 priv1 joint owner
    have his : is = (interactiveNodes m ls).filterMap (entryOf m) := by
      have := (static_views s m ls (fun l hl => (Circuit.collect_ids m _ it ls e2 l hl).2) ?_).2
      · rw [h2, ← interactiveNodes_eq m ls ok.local_ ok.inter] at this
        exact Option.some.inj this
      · obtain ⟨s', hp', hviews, -⟩ := static_layers_core m rank w cmap hcmap it ls _ e2 ok hf hs
        rw [hp] at hp'
        cases hp'
        exact hviews false false
    simp only [helperSetupS, helperSetup, helperGateOutputsS, helperGateOutputs, hset, hls, h2,
      Option.bind_eq_bind, Option.bind_some, his]
    congr 1
    funext st0
    congr 1
    funext st1
    exact helperProductsS_eq _ _ _ fun v h => hv v (List.mem_of_mem_filter h)
  · intro priv0
    have hc := interactiveCount_eq m ls ok hb
    have hi : is.length = interactiveCount m := by
      have h6 : interactiveCountS s = some (interactiveCount m) := by
        obtain ⟨s', hp', -, hcirc⟩ := static_layers_core m rank w cmap hcmap it ls _ e2 ok hf hs
        rw [hp] at hp'
        cases hp'
        rw [interactiveCountS, counts_eq s m (·.intCount) (·.interactiveCount)
          (by rw [← hcmap.length]; exact precompute_length m cmap ls s hp) fun i c hc => by
            obtain ⟨t, h1, -, -, h2⟩ := hcirc i c hc (hne i c hc)
            exact ⟨t, h1, by rw [h2, hb c (List.mem_of_getElem? hc)]⟩]
        rfl
      rw [h5] at h6
      exact Option.some.inj h6
    simp [astraSetup0S, astraSetup0, h5, hi]

/-- **C105, C37 and C39 with precomputed layers.**  Two parties and a helper run ABY2 on the precomputed circuit as in
`astra_execute_correct`: the setup succeeds, under every schedule the execution finishes, and the outputs
reconstruct to the plaintext values.  Partial: the conditions of C47, and no circuit is empty. -/
theorem astra_static_correct_partial (m : Multi Gate) (rank : Node → Nat) (w : WF m rank) (hw : ExecWF m)
    (hns : ∀ i, isSimd m i = false) (h2 : ∀ v n, m.gate? v = some (.and n) → n = 2)
    (hb : ∀ c ∈ m.circs, BookOk c) (c0 : Base Gate) (hc0 : m.circs[0]? = some c0)
    (hout : ∀ g ∈ c0.outputGates, m.Valid (0, g))
    (cmap : List Nat) (hcmap : CMapOk m cmap) (hne : NoEmpty m)
    (priv0 priv1 joint : Seed) (owner : Nat → Option InputBy) (os : List InputBy)
    (ho : c0.inputGates.map owner = os.map some) (map0 map1 : Nat → Option ShareType)
    (ops0 ops1 : List Op)
    (h01 : (run (.new 1 priv1 joint map1) ops1).received = (run (.new 0 priv0 joint map0) ops0).sent)
    (h10 : (run (.new 0 priv0 joint map0) ops0).received = (run (.new 1 priv1 joint map1) ops1).sent)
    (hl0 : os.count .p0 = (run (.new 0 priv0 joint map0) ops0).bits.length)
    (hl1 : os.count .p1 = (run (.new 1 priv1 joint map1) ops1).bits.length) (val : Node → Bool)
    (hp : PlainEval m (merge os (run (.new 0 priv0 joint map0) ops0).bits
      (run (.new 1 priv1 joint map1) ops1).bits) val) :
    let t0 := run (.new 0 priv0 joint map0) ops0
    let t1 := run (.new 1 priv1 joint map1) ops1
    ∃ ls, layers m = some ls ∧ (FirstUseInOrder cmap ls.flatten → SameLayers cmap ls.flatten →
      ∃ c st0 st1 msg d0, precomputeCirc m cmap = some c ∧ helperGateOutputsS c 0 priv0 joint owner = some st0 ∧
        helperGateOutputsS c 1 priv1 joint owner = some st1 ∧
        helperSetupS c priv0 priv1 joint owner = some msg ∧ astraSetup0S c priv0 = some d0 ∧
        ∀ setup0 setup1, Answers m d0 setup0 → Answers m (astraSetup1 msg) setup1 →
          ∃ o0 o1, Runs (executeStatic aby2 c 0 (.scalar (merge os t0.own t0.other)) setup0 st0)
              (executeStatic aby2 c 1 (.scalar (merge os t1.other t1.own)) setup1 st1)
              (.scalar o0) (.scalar o1) ∧
            reconstruct o0 o1 = some (c0.outputGates.map fun g => val (0, g))) := by
  intro t0 t1
  obtain ⟨ls, hls, hx⟩ := astra_static_setup_partial m rank w cmap hcmap hne (fun c hc => (hb c hc).interactives) c0 hc0
  obtain ⟨it, ls', e1, e2, hy⟩ := static_execute_same_partial m rank w hns cmap hcmap hne c0 hc0 hout
  have : layers m = some ls' := by simp [layers, e1, e2]
  rw [hls] at this
  cases this
  refine ⟨ls, hls, fun hf hs => ?_⟩
  obtain ⟨c, hc, hset, hmsg, hd⟩ := hx hf hs
  obtain ⟨c', hc', hex⟩ := hy hf hs
  rw [hc] at hc'
  cases hc'
  obtain ⟨st0, st1, msg, g0, g1, g2, g3⟩ := astra_execute_correct m rank w hw hns h2 hb c0 hc0 priv0 priv1 joint owner os
    ho map0 map1 ops0 ops1 h01 h10 hl0 hl1 val hp
  refine ⟨c, st0, st1, msg, astraSetup0 m priv0, hc, ?_, ?_, ?_, hd priv0, ?_⟩
  · rw [helperGateOutputsS, hset]; exact g0
  · rw [helperGateOutputsS, hset]; exact g1
  · rw [hmsg]; exact g2
  · intro setup0 setup1 a0 a1
    obtain ⟨o0, o1, hr, hrec⟩ := g3 setup0 setup1 a0 a1
    refine ⟨o0, o1, ?_, hrec⟩
    rw [hex, hex]
    exact hr

/-- **C105, single circuits.**  Without sub-circuits there is no condition beyond those of the original circuit. -/
theorem astra_static_single (c0 : Base Gate) (rank : Nat → Nat) (h : SingleOk c0 rank) (hg : c0.gates ≠ [])
    (hs : c0.simdSize = none) (h2 : ∀ n, .and n ∈ c0.gates → n = 2)
    (priv0 priv1 joint : Seed) (owner : Nat → Option InputBy) (os : List InputBy)
    (ho : c0.inputGates.map owner = os.map some) (map0 map1 : Nat → Option ShareType)
    (ops0 ops1 : List Op)
    (h01 : (run (.new 1 priv1 joint map1) ops1).received = (run (.new 0 priv0 joint map0) ops0).sent)
    (h10 : (run (.new 0 priv0 joint map0) ops0).received = (run (.new 1 priv1 joint map1) ops1).sent)
    (hl0 : os.count .p0 = (run (.new 0 priv0 joint map0) ops0).bits.length)
    (hl1 : os.count .p1 = (run (.new 1 priv1 joint map1) ops1).bits.length) (val : Node → Bool)
    (hp : PlainEval (.ofBase c0) (merge os (run (.new 0 priv0 joint map0) ops0).bits
      (run (.new 1 priv1 joint map1) ops1).bits) val) :
    let t0 := run (.new 0 priv0 joint map0) ops0
    let t1 := run (.new 1 priv1 joint map1) ops1
    ∃ c st0 st1 msg d0, precomputeCirc (.ofBase c0) [0] = some c ∧
      helperGateOutputsS c 0 priv0 joint owner = some st0 ∧
      helperGateOutputsS c 1 priv1 joint owner = some st1 ∧
      helperSetupS c priv0 priv1 joint owner = some msg ∧ astraSetup0S c priv0 = some d0 ∧
      ∀ setup0 setup1, Answers (.ofBase c0) d0 setup0 → Answers (.ofBase c0) (astraSetup1 msg) setup1 →
        ∃ o0 o1, Runs (executeStatic aby2 c 0 (.scalar (merge os t0.own t0.other)) setup0 st0)
            (executeStatic aby2 c 1 (.scalar (merge os t1.other t1.own)) setup1 st1)
            (.scalar o0) (.scalar o1) ∧
          reconstruct o0 o1 = some (c0.outputGates.map fun g => val (0, g)) := by
  intro t0 t1
  obtain ⟨ls, -, hx⟩ := astra_static_correct_partial (.ofBase c0) _ (single_wf h)
    (single_exec h hs (fun g hb => by cases g <;> simp_all [asBase, interactive])) (single_scalar hs)
    (fun v n hv => by
      simp only [Multi.gate?, Option.bind_eq_bind, Option.bind_eq_some_iff] at hv
      obtain ⟨c, hc, hv⟩ := hv
      obtain ⟨-, rfl⟩ := single_circ hc
      exact h2 n (List.mem_of_getElem? hv))
    (fun c hc => by
      obtain ⟨i, hi⟩ := List.getElem?_of_mem hc
      obtain ⟨-, rfl⟩ := single_circ hi
      exact h.book) c0 rfl (single_outputs h) [0] (single_cmap c0)
    (fun i c' hc => by obtain ⟨-, rfl⟩ := single_circ hc; exact hg)
    priv0 priv1 joint owner os ho map0 map1 ops0 ops1 h01 h10 hl0 hl1 val hp
  exact hx (single_first _) (single_same _)

/-! ### The conditions hold of an example -/

theorem callCirc_static : CMapOk callCirc [0, 1] ∧ NoEmpty callCirc ∧ ∃ ls, layers callCirc = some ls ∧
    FirstUseInOrder [0, 1] ls.flatten ∧ SameLayers [0, 1] ls.flatten := by
  have hcm : CMapOk callCirc [0, 1] := by
    have hi : ∀ i mp : Nat, ([0, 1] : List Nat)[i]? = some mp → i = mp := by
      intro i mp h
      match i, h with
      | 0, h => simpa using h
      | 1, h => simpa using h
      | i + 2, h => simp at h
    refine ⟨rfl, fun i j mp h1 h2 => by rw [hi i mp h1, hi j mp h2], fun i mp h1 h2 => ?_⟩
    rw [hi i mp h1, ← hi 0 mp h2]
  have hne : NoEmpty callCirc := by
    intro i c h; rcases callCirc_circ h with ⟨rfl, rfl⟩ | ⟨rfl, rfl⟩ <;> simp [callMain, callSub]
  have hl : ∃ ls, layers callCirc = some ls ∧ FirstUseInOrder [0, 1] ls.flatten ∧ SameLayers [0, 1] ls.flatten := by
    refine ⟨_, callCirc_layers, ?_, sameLayers_of_check _ _ (by decide +kernel)⟩
    intro a e b hP mp hmp k hk
    rcases firstUse_of_check [0, 1] [] _ (by decide +kernel) a e b hP mp hmp k hk with h3 | h3
    · simp at h3
    · exact h3
  exact ⟨hcm, hne, hl⟩

/-- The conditions of `astra_static_correct_partial` hold of the circuit of `astra_execute_correct`'s example, which has
a sub-circuit with an AND gate; the helper's message has one bit. -/
example (priv0 priv1 joint : Seed) :
    CMapOk callCirc [0, 1] ∧ NoEmpty callCirc ∧ (∃ ls, layers callCirc = some ls ∧
      FirstUseInOrder [0, 1] ls.flatten ∧ SameLayers [0, 1] ls.flatten) ∧
      ∃ c msg, precomputeCirc callCirc [0, 1] = some c ∧
        helperSetupS c priv0 priv1 joint callOwner = some msg ∧ msg.length = 1 ∧
        gateCountS c.core = some 10 ∧ interactiveCountS c.core = some 1 := by
  obtain ⟨hcm, hne, hl⟩ := callCirc_static
  refine ⟨hcm, hne, hl, ?_⟩
  obtain ⟨ls, hls, hf, hs⟩ := hl
  have hbook : ∀ c ∈ callCirc.circs, c.interactiveCount = c.gates.countP fun g => interactive g :=
    fun c hc => (callCirc_book c hc).interactives
  obtain ⟨ls', hls', hx⟩ := astra_static_setup_partial callCirc callRank callCirc_wf [0, 1] hcm hne hbook callMain rfl
  rw [hls] at hls'
  cases hls'
  obtain ⟨c, hc, -, hm, -⟩ := hx hf hs
  obtain ⟨-, -, -, msg, -, -, -, -, e, hlen, -⟩ := helper_data callCirc callRank callCirc_wf
    callCirc_exec.1 (fun v g hg => arity_of_gateEq (callCirc_plain false false false v g hg)) callCirc_and
    hbook priv0 priv1 joint callOwner
  have hcount : ((precomputeCirc callCirc [0, 1]).map fun c => (gateCountS c.core, interactiveCountS c.core)) =
      some (some 10, some 1) := by decide +kernel
  rw [hc, Option.map_some, Option.some.injEq, Prod.mk.injEq] at hcount
  exact ⟨c, msg, hc, by rw [hm]; exact e, hlen, hcount.1, hcount.2⟩

end Verif.Aby2
