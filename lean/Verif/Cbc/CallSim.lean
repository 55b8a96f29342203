import Verif.Cbc.CallBody
import Verif.Cbc.Props

/-!
Lemmas for C70: the example as a program with a function for the cipher.
-/
set_option autoImplicit false

namespace Verif.Cbc

open Circuit Gmw Macro

/-- The state of the annotated program stands for that of the example. -/
structure Rel (bs : Nat) (t : St) (s : Sc) : Prop where
  heap : s.st.heap = t.heap
  ptrs : s.st.ptrs = t.ptrs
  conns : s.st.conns = t.conns
  aes : s.aes = (t.cache 0 [bs, bs]).map Prod.fst

def Sim (b : Parse.Circuit) (bs p0 : Nat) (done : List Stmt) (s : Sc) : Prop :=
  ∃ t, Inv (fun _ _ => cipherBody b) p0 done t ∧ Rel bs t s

/-- The connections of the program can be made. -/
def Connects (b : Parse.Circuit) (prog : List Stmt) : Prop :=
  ∃ y, CrossConns.connectAll (connsFrom (fun _ _ => cipherBody b) 1 (calls (fun _ _ => cipherBody b) 0 prog)) {} = some y

theorem Connects.prefix {b : Parse.Circuit} {p q : List Stmt} (h : Connects b (p ++ q)) : Connects b p := by
  obtain ⟨y, hy⟩ := h
  rw [calls_append, connsFrom_append, connectAll_append] at hy
  match h2 : CrossConns.connectAll (connsFrom (fun _ _ => cipherBody b) 1
      (calls (fun _ _ => cipherBody b) 0 p)) {} with
  | none => rw [h2] at hy; cases hy
  | some z => exact ⟨z, h2⟩

theorem circ_congr {t s : St} (h1 : s.heap = t.heap) (h2 : s.ptrs = t.ptrs) (i : Nat) : s.circ i = t.circ i := by
  simp [St.circ, h1, h2]

theorem gate_sim {bs : Nat} {t : St} {s : Sc} (h : Rel bs t s) {o : Op} {c c' : Base BoolGate} {id : Nat} {t' : St}
    (h1 : t.circ 0 = some c) (h2 : c.addWiredGate o.1 o.2 = some (c', id)) (h3 : t.setCirc 0 c' = some t') :
    ∃ s', s.gate o = some (s', id) ∧ Rel bs t' s' := by
  simp only [St.setCirc, Option.bind_eq_bind, Option.bind_eq_some_iff] at h3
  obtain ⟨p, hp, h3⟩ := h3
  simp only [Option.pure_def, Option.some.injEq] at h3
  subst h3
  refine ⟨⟨{ s.st with heap := s.st.heap.set p c' }, s.aes⟩, ?_, ?_⟩
  · unfold Sc.gate
    rw [circ_congr h.heap h.ptrs, h1]
    simp only [Option.bind_eq_bind, Option.bind_some, h2, St.setCirc, h.ptrs, hp]
    rfl
  · exact ⟨by simp [h.heap], h.ptrs, h.conns, h.aes⟩

def isCall : Stmt → Bool
  | .call _ _ => true
  | _ => false

section

variable {b : Parse.Circuit} {bs p0 : Nat}

theorem sim_gate {done : List Stmt} {s : Sc} (h : Sim b bs p0 done s) (st : Stmt) (hst : isCall st = false)
    (hok : StmtOk (fun _ _ => cipherBody b) (mainOps (fun _ _ => cipherBody b) done).length st)
    (hc : Connects b (done ++ [st])) :
    ∃ (o : Op) (s' : Sc), mainOps (fun _ _ => cipherBody b) [st] = [o] ∧
      s.gate o = some (s', (mainOps (fun _ _ => cipherBody b) done).length) ∧ Sim b bs p0 (done ++ [st]) s' := by
  obtain ⟨t, hi, hr⟩ := h
  obtain ⟨t', e, hi'⟩ := step_spec hi st hok hc
  obtain ⟨c0, hc0, hb0, -⟩ := inv_length hi
  have fin : ∀ (o : Op) (c' : Base BoolGate) (id : Nat), mainOps (fun _ _ => cipherBody b) [st] = [o] →
      c0.addWiredGate o.1 o.2 = some (c', id) →
      (t.setCirc 0 c').map (fun t' => (t', List.range (mainOps (fun _ _ => cipherBody b) done).length ++ [id])) =
        some (t', List.range (mainOps (fun _ _ => cipherBody b) (done ++ [st])).length) →
      ∃ (o : Op) (s' : Sc), mainOps (fun _ _ => cipherBody b) [st] = [o] ∧
      s.gate o = some (s', (mainOps (fun _ _ => cipherBody b) done).length) ∧ Sim b bs p0 (done ++ [st]) s' := by
    intro o c' id h1 h2 h3
    rw [Option.map_eq_some_iff] at h3
    obtain ⟨t1, h3, h4⟩ := h3
    simp only [Prod.mk.injEq] at h4
    obtain ⟨rfl, h4⟩ := h4
    rw [mainOps_append, h1, List.length_append, List.length_singleton, List.range_succ] at h4
    have hid : id = (mainOps (fun _ _ => cipherBody b) done).length := by
      have := List.append_cancel_left h4
      simpa using this
    subst hid
    obtain ⟨s', e', hr'⟩ := gate_sim hr hc0 h2 h3
    exact ⟨o, s', h1, e', t1, hi', hr'⟩
  cases st with
  | call f args => simp [isCall] at hst
  | input =>
    obtain ⟨e2, hb⟩ := hb0.gate (.base .input)
    refine fin (.base .input, []) (c0.addGate (.base .input)).1 (c0.addGate (.base .input)).2 rfl
      (by simp [Base.addWiredGate]) ?_
    rw [← e]
    simp only [step, hc0, Option.bind_eq_bind, Option.bind_some]
    cases t.setCirc 0 (c0.addGate (.base .input)).1 <;> rfl
  | op g args =>
    obtain ⟨c', e2, hb⟩ := hb0.wired (g, args) hok.2.2
    refine fin (g, args) c' _ rfl e2 ?_
    rw [← e]
    simp only [step, hc0, lookup_range _ _ hok.2.2, Option.bind_eq_bind, Option.bind_some, e2]
    cases t.setCirc 0 c' <;> rfl
  | output a =>
    have ha : ∀ x ∈ [a], x < (mainOps (fun _ _ => cipherBody b) done).length := by
      intro x hx; rw [List.mem_singleton.1 hx]; exact hok
    obtain ⟨c', e2, hb⟩ := hb0.wired (.base .output, [a]) ha
    refine fin (.base .output, [a]) c' _ rfl e2 ?_
    rw [← e]
    simp only [step, hc0, lookup_range _ _ ha, Option.bind_eq_bind, Option.bind_some, e2]
    cases t.setCirc 0 c' <;> rfl

theorem sim_gates {done : List Stmt} {s : Sc} (sts : List Stmt) (h : Sim b bs p0 done s)
    (hst : ∀ st ∈ sts, isCall st = false)
    (hok : ProgramOk (fun _ _ => cipherBody b) (mainOps (fun _ _ => cipherBody b) done).length sts)
    (hc : Connects b (done ++ sts)) :
    ∃ s', mapS Sc.gate s (mainOps (fun _ _ => cipherBody b) sts) =
        some (s', List.range' (mainOps (fun _ _ => cipherBody b) done).length sts.length) ∧
      Sim b bs p0 (done ++ sts) s' := by
  induction sts generalizing done s with
  | nil => exact ⟨s, rfl, by simpa using h⟩
  | cons st sts ih =>
    have hsplit : done ++ st :: sts = (done ++ [st]) ++ sts := by simp
    rw [hsplit] at hc
    obtain ⟨o, s1, e1, e2, h1⟩ := sim_gate h st (hst st List.mem_cons_self) hok.1 hc.prefix
    have hl : (mainOps (fun _ _ => cipherBody b) (done ++ [st])).length =
        (mainOps (fun _ _ => cipherBody b) done).length + 1 := by
      rw [mainOps_append, e1]; simp
    have hso : st.ops (fun _ _ => cipherBody b) = [o] := by simpa [mainOps] using e1
    obtain ⟨s2, e3, h2⟩ := ih h1 (fun x hx => hst x (List.mem_cons_of_mem _ hx)) (by
      rw [hl]
      have := hok.2
      rw [hso] at this
      exact this) hc
    refine ⟨s2, ?_, by rw [hsplit]; exact h2⟩
    have : mainOps (fun _ _ => cipherBody b) (st :: sts) = o :: mainOps (fun _ _ => cipherBody b) sts := by
      simp [mainOps, hso]
    rw [this, mapS]
    simp only [e2, Option.bind_eq_bind, Option.bind_some, e3, hl, List.length_cons, List.range'_succ]
    rfl

theorem connectToMain_sim {t t' s : St} {sc : Nat} {ret ids : List Nat} (h1 : s.heap = t.heap)
    (h2 : s.ptrs = t.ptrs) (h3 : s.conns = t.conns) {sg : Bool} (h : t.connectToMain sc ret sg = some (t', ids)) :
    ∃ s', s.connectToMain sc ret sg = some (s', ids) ∧ s'.heap = t'.heap ∧ s'.ptrs = t'.ptrs ∧
      s'.conns = t'.conns ∧ t'.cache = t.cache := by
  simp only [St.connectToMain, Option.bind_eq_bind, Option.bind_eq_some_iff, St.setCirc] at h
  obtain ⟨c, hc, t1, ⟨p, hp, e1⟩, x, hx, e2⟩ := h
  simp only [Option.pure_def, Option.some.injEq] at e1
  subst e1
  simp only [Option.pure_def, Option.some.injEq, Prod.mk.injEq] at e2
  obtain ⟨rfl, rfl⟩ := e2
  refine ⟨{ s with heap := s.heap.set p (addScInputs ret.length c).1, conns := x }, ?_, by simp [h1],
    h2, rfl, rfl⟩
  simp only at hx
  simp only [St.connectToMain, circ_congr h1 h2, hc, Option.bind_eq_bind, Option.bind_some, St.setCirc, h2, hp,
    Option.pure_def, h3, hx]

theorem sim_cipher {file : List Char} (hfile : Parse.circuit file = some b) (ok : Parse.BristolOk b)
    (hin : b.totalInputs = bs + bs) (hout : b.totalOutputs = bs) {done : List Stmt} {s : Sc}
    (h : Sim b bs p0 done s) (chunk key : List Nat) (hk : key.length = bs) (hch : chunk.length = bs)
    (hok : StmtOk (fun _ _ => cipherBody b) (mainOps (fun _ _ => cipherBody b) done).length (.call 0 [chunk, key]))
    (hc : Connects b (done ++ [.call 0 [chunk, key]])) :
    ∃ s', s.cipher file key chunk =
        some (s', List.range' (mainOps (fun _ _ => cipherBody b) done).length bs) ∧
      Sim b bs p0 (done ++ [.call 0 [chunk, key]]) s' := by
  obtain ⟨t, hi, hr⟩ := h
  obtain ⟨t', e, hi'⟩ := step_call hi 0 [chunk, key] hok hc
  have hsz : [chunk, key].map List.length = [bs, bs] := by simp [hk, hch]
  obtain ⟨c, ec, et⟩ := cipherCirc_trace hfile ok [bs, bs] (by simp [hin])
  have hbody : BodyOk [bs, bs].sum (cipherBody b) := by
    have := cipherBody_ok ok
    rw [hin] at this
    simpa using this
  have hlook := mapM_lookup _ _ hok.2.1
  simp only [step, hlook, Option.bind_eq_bind, Option.bind_some, St.call, hi.busy, Bool.false_eq_true, if_false,
    hsz] at e
  rw [Option.bind_eq_some_iff] at e
  obtain ⟨⟨t2, ids⟩, e, e5⟩ := e
  rw [Option.bind_eq_some_iff] at e
  obtain ⟨⟨t1, sc, ret⟩, e1, e⟩ := e
  simp only [Option.bind_eq_some_iff] at e
  obtain ⟨c1, hc1, x, hx, e4⟩ := e
  simp only [Option.pure_def, Option.some.injEq, Prod.mk.injEq] at e5
  obtain ⟨rfl, e5⟩ := e5
  have hids : ids = List.range' (mainOps (fun _ _ => cipherBody b) done).length bs := by
    rw [mainOps_append, List.length_append, List.range_eq_range', List.range_eq_range'] at e5
    have hl : (mainOps (fun _ _ => cipherBody b) [.call 0 [chunk, key]]).length = bs := by
      simp [mainOps, Stmt.ops, cipherBody_ret ok, hout]
    rw [hl, ← List.range'_append_1, Nat.zero_add] at e5
    exact List.append_cancel_left e5
  -- the callee
  have hcirc : ∃ (s1 : Sc) (p : Nat), s.circuit file = some (s1, p) ∧ s1.st.heap = t1.heap ∧
      s1.st.ptrs ++ [p] = t1.ptrs ∧ s1.st.conns = t1.conns ∧ sc = s1.st.ptrs.length ∧
      s1.aes = (t1.cache 0 [bs, bs]).map Prod.fst ∧ c1.scOutputGates = ret := by
    have hb1 : ∀ c2 : Base BoolGate, BuiltBy c2 (bodyOps [bs, bs].sum (cipherBody b)) → c2.scOutputGates =
        List.range' ([bs, bs].sum + (cipherBody b).ops.length) (cipherBody b).ret.length := by
      intro c2 h2
      rw [h2.book.scOutputs, ← body_scOutputs hbody h2, Exec.scOutputs, positions]
      apply List.filter_congr
      intro i _
      cases c2.gates[i]? with
      | none => rfl
      | some g =>
        cases g with
        | base g => cases g <;> simp [ofKind, asBase, GateLike.asBase]
        | _ => simp [ofKind, asBase, GateLike.asBase]
    unfold St.enter at e1
    cases hce : t.cache 0 [bs, bs] with
    | some en =>
      obtain ⟨p, r⟩ := en
      simp only [hce, Option.some.injEq, Prod.mk.injEq] at e1
      obtain ⟨rfl, rfl, rfl⟩ := e1
      obtain ⟨-, ⟨c2, g2, g3⟩, g4, -⟩ := hi.entry 0 [bs, bs] p r hce
      refine ⟨s, p, ?_, hr.heap, by simp [hr.ptrs], hr.conns, by simp [hr.ptrs], hr.aes, ?_⟩
      · simp [Sc.circuit, hr.aes, hce]
      · have : c1 = c2 := by
          have hq : St.circ { t with busy := true, caches := 0 :: t.caches, ptrs := t.ptrs ++ [p] } t.ptrs.length =
            some c2 := by simp [St.circ, g2]
          exact Option.some.inj (hc1.symm.trans hq)
        rw [this, hb1 c2 g3, g4]
    | none =>
      simp only [hce, et, Option.bind_eq_bind, Option.bind_some, Option.pure_def, Option.some.injEq,
        Prod.mk.injEq] at e1
      obtain ⟨rfl, rfl, rfl⟩ := e1
      obtain ⟨c2, g1, g2⟩ := trace_spec [bs, bs] (cipherBody b) hbody
      rw [et, Option.some.injEq, Prod.mk.injEq] at g1
      obtain ⟨rfl, g3⟩ := g1
      refine ⟨⟨{ s.st with heap := s.st.heap ++ [c] }, some s.st.heap.length⟩, s.st.heap.length, ?_,
        by simp [hr.heap], by simp [hr.ptrs, hr.heap], hr.conns, by simp [hr.ptrs], by simp [hr.heap], ?_⟩
      · simp [Sc.circuit, hr.aes, hce, ec]
      · have : c1 = c := by
          have hq : St.circ { t with
              busy := true, caches := 0 :: t.caches, heap := t.heap ++ [c], ptrs := t.ptrs ++ [t.heap.length] }
              t.ptrs.length = some c := by simp [St.circ]
          exact Option.some.inj (hc1.symm.trans hq)
        rw [this, hb1 c g2, g3]
  obtain ⟨s1, p, d1, d2, d3, d4, d5, d6, d7⟩ := hcirc
  obtain ⟨s', f1, f2, f3, f4, f5⟩ := connectToMain_sim (sg := false) (s := { s1.st with ptrs := s1.st.ptrs ++ [p], conns := x })
    (t := { t1 with conns := x, busy := false }) d2 d3 rfl e4
  refine ⟨⟨s', s1.aes⟩, ?_, t2, hi', f2, f3, f4, ?_⟩
  · have hx' : s1.st.conns.connect ⟨(chunk ++ key).map fun g => (0, g), sc, c1.scInputGates, fun _ => 1, false⟩ =
        some x := by
      rw [d4]
      simpa using hx
    have hc1' : St.circ { s1.st with ptrs := s1.st.ptrs ++ [p] } sc = some c1 := by
      rw [← hc1]
      exact circ_congr (t := t1) (s := { s1.st with ptrs := s1.st.ptrs ++ [p] }) d2 d3 _
    unfold Sc.cipher
    simp only [d1, Option.bind_eq_bind, Option.bind_some, ← d5, hc1', hx', d7, f1, hids]
    rfl
  · rw [f5]; exact d6

end

end Verif.Cbc
