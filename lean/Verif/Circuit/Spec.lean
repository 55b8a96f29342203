import Verif.Circuit.Model

/-!
Specification side of layer iteration: well-formed circuits and topological layer sequences.
-/
set_option autoImplicit false

namespace Verif.Circuit

variable {G : Type}

/-- The node exists. -/
def Multi.Valid (m : Multi G) (v : Node) : Prop :=
  ∃ c : Base G, m.circs[v.1]? = some c ∧ v.2 < c.gates.length

/-- The gates of circuit `i` that need no operands: constants, and inputs of the main circuit. -/
def initial (i : Nat) (c : Base G) : List Nat :=
  c.constantGates ++ if i = 0 then c.inputGates else []

/-- A well-formed circuit.  `rank` witnesses that the whole graph is acyclic. -/
structure WF (m : Multi G) (rank : Node → Nat) : Prop where
  nonempty : 0 < m.circs.length
  edges : ∀ (i : Nat) (c : Base G), m.circs[i]? = some c → ∀ e ∈ c.edges,
    e.1 < c.gates.length ∧ e.2 < c.gates.length
  rankIn : ∀ (i : Nat) (c : Base G), m.circs[i]? = some c → ∀ e ∈ c.edges, rank (i, e.1) < rank (i, e.2)
  rankCross : ∀ u v : Node, u ∈ m.incoming v → rank u < rank v
  /-- The two directions of the cross connections agree. -/
  consistent : ∀ u v : Node, (m.outgoing u).count v = (m.incoming v).count u
  validFrom : ∀ u v : Node, u ∈ m.incoming v → m.Valid u
  validTo : ∀ u v : Node, u ∈ m.incoming v → m.Valid v
  /-- A sub-circuit input has at most one source. -/
  single : ∀ v : Node, (m.incoming v).length ≤ 1
  /-- Sub-circuit inputs have no operands inside their circuit. -/
  crossSource : ∀ (v : Node) (c : Base G), m.incoming v ≠ [] → m.circs[v.1]? = some c → c.parents v.2 = []
  initNodup : ∀ (i : Nat) (c : Base G), m.circs[i]? = some c → (initial i c).Nodup
  initBound : ∀ (i : Nat) (c : Base G), m.circs[i]? = some c → ∀ g ∈ initial i c, g < c.gates.length
  initSource : ∀ (i : Nat) (c : Base G), m.circs[i]? = some c → ∀ g ∈ initial i c,
    c.parents g = [] ∧ m.incoming (i, g) = []
  /-- A gate without operands is initial or a connected sub-circuit input. -/
  sources : ∀ (i : Nat) (c : Base G), m.circs[i]? = some c → ∀ g < c.gates.length, c.parents g = [] →
    g ∈ initial i c ∨ m.incoming (i, g) ≠ []
  /-- The constants of a sub-circuit are used together with a connected input. -/
  constReach : ∀ (i : Nat) (c : Base G), m.circs[i]? = some c → i ≠ 0 → ∀ g ∈ initial i c,
    ∃ w, ∃ u ∈ m.incoming (i, w), rank u < rank (i, g)

/-- The non-interactive gates of a layer in evaluation order. -/
def niNodes (l : MLayer) : List Node := l.flatMap fun p => p.2.ni.map fun g => (p.1, g)

/-- The interactive gates of a layer in evaluation order. -/
def intNodes (l : MLayer) : List Node := l.flatMap fun p => p.2.int.map fun g => (p.1, g)

/-- Each gate comes after its operands: local gates of a layer see earlier layers and earlier
local gates, interactive gates see earlier layers and the local gates of their layer. -/
def TopoFrom (parents : Node → List Node) : List Node → List (List Node × List Node) → Prop
  | _, [] => True
  | done, (ni, int) :: ls =>
    (∀ a v b, ni = a ++ v :: b → ∀ u ∈ parents v, u ∈ done ++ a) ∧
    (∀ v ∈ int, ∀ u ∈ parents v, u ∈ done ++ ni) ∧
    TopoFrom parents (done ++ ni ++ int) ls

end Verif.Circuit
