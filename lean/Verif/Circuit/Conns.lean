import Verif.Circuit.Props

/-!
Circuits connected through the one-to-one maps of the builder.
-/
set_option autoImplicit false

namespace Verif.Circuit

variable {G : Type}

/-- builder.rs:320-338 `connect_circuits_unchecked` and circuit_connections.rs:80-103: both maps
hold, per key, the partners in insertion order. -/
def Multi.ofConns (circs : List (Base G)) (conns : List (Node × Node)) : Multi G where
  circs
  outgoing u := (conns.filter fun c => c.1 = u).map (·.2)
  incoming v := (conns.filter fun c => c.2 = v).map (·.1)

theorem mem_incoming {circs : List (Base G)} {conns : List (Node × Node)} {u v : Node} :
    u ∈ (Multi.ofConns circs conns).incoming v ↔ (u, v) ∈ conns := by
  simp only [Multi.ofConns, List.mem_map, List.mem_filter, decide_eq_true_eq]
  constructor
  · rintro ⟨c, ⟨h, rfl⟩, rfl⟩; exact h
  · intro h; exact ⟨_, ⟨h, rfl⟩, rfl⟩

theorem ofConns_consistent (circs : List (Base G)) (conns : List (Node × Node)) (u v : Node) :
    ((Multi.ofConns circs conns).outgoing u).count v =
      ((Multi.ofConns circs conns).incoming v).count u := by
  simp only [Multi.ofConns]
  induction conns with
  | nil => rfl
  | cons c cs ih =>
    obtain ⟨a, b⟩ := c
    simp only [List.filter_cons]
    by_cases h1 : a = u <;> by_cases h2 : b = v
    · subst h1 h2; simpa using ih
    · subst h1; simp [h2, ih]
    · subst h2; simp [h1, ih]
    · simp [h1, h2, ih]

end Verif.Circuit
