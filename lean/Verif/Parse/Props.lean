import Verif.Parse.Model

/-!
C18: Bristol files are read back exactly.
-/
set_option autoImplicit false

namespace Verif.Parse

/-! ### Specification -/

/-- The lexical elements of a Bristol file. -/
inductive Tok where
  | num (n : Nat)
  | word (k : Kind)

/-- The keyword of a gate. -/
def keyword : Kind → List Char
  | .and => ['A', 'N', 'D']
  | .xor => ['X', 'O', 'R']
  | .inv => ['I', 'N', 'V']

/-- `s` is a way of writing the sequence of tokens: separated by white space where needed, numbers
in decimal, possibly with leading zeros. -/
inductive Spells : List Tok → List Char → Prop
  | nil {w : List Char} : (∀ c ∈ w, isWs c = true) → Spells [] w
  | num {w ds s : List Char} {n : Nat} {ts : List Tok} : (∀ c ∈ w, isWs c = true) →
      (∀ c ∈ ds, c.isDigit = true) → ds ≠ [] → numeral ds = n →
      (∀ c ∈ s.head?, c.isDigit = false) → Spells ts s → Spells (.num n :: ts) (w ++ (ds ++ s))
  | word {w s : List Char} {k : Kind} {ts : List Tok} : (∀ c ∈ w, isWs c = true) →
      Spells ts s → Spells (.word k :: ts) (w ++ (keyword k ++ s))

/-- A gate line. -/
def gateToks (g : Gate) : List Tok :=
  .num g.inputWires.length :: .num g.outputWires.length ::
    (g.inputWires.map .num ++ (g.outputWires.map .num ++ [.word g.kind]))

/-- A list preceded by its length. -/
def listToks (l : List Nat) : List Tok := .num l.length :: l.map .num

/-- A file in "Bristol fashion". -/
def fashionToks (c : Circuit) : List Tok :=
  .num c.header.gates :: .num c.header.wires ::
    (listToks c.header.inputWires ++ (listToks c.header.outputWires ++ c.gates.flatMap gateToks))

/-- A file in the old Bristol format: always two inputs and one output. -/
def oldToks (c : Circuit) : List Tok :=
  .num c.header.gates :: .num c.header.wires ::
    (c.header.inputWires.map .num ++ (c.header.outputWires.map .num ++ c.gates.flatMap gateToks))

/-- All numbers of a file fit `usize`. -/
def Fits : List Tok → Prop
  | [] => True
  | .num n :: ts => n < 2 ^ 64 ∧ Fits ts
  | .word _ :: ts => Fits ts

/-! ### Proof -/

theorem fits_append (a b : List Tok) : Fits (a ++ b) ↔ Fits a ∧ Fits b := by
  induction a with
  | nil => simp [Fits]
  | cons t a ih => cases t <;> simp [Fits, ih, and_assoc]

/-- No white space at the front. -/
def Trimmed (s : List Char) : Prop := ∀ c ∈ s.head?, isWs c = false

theorem multispace0_append {w : List Char} (h : ∀ c ∈ w, isWs c = true) (s : List Char) :
    multispace0 (w ++ s) = multispace0 s := by
  unfold multispace0
  rw [List.dropWhile_append_of_pos h]

theorem multispace0_trimmed {s : List Char} (h : Trimmed s) : multispace0 s = s := by
  cases s with
  | nil => rfl
  | cons c s =>
    have : isWs c = false := h c rfl
    simp [multispace0, List.dropWhile_cons, this]

theorem trimmed_multispace0 (s : List Char) : Trimmed (multispace0 s) := by
  unfold multispace0
  induction s with
  | nil => intro c hc; cases hc
  | cons c s ih =>
    rw [List.dropWhile_cons]
    split
    · exact ih
    · rename_i h
      intro d hd
      cases hd
      simpa using h

theorem digit_not_ws {c : Char} (h : c.isDigit = true) : isWs c = false := by
  unfold isWs
  simp only [Bool.or_eq_false_iff, decide_eq_false_iff_not]
  refine ⟨⟨⟨?_, ?_⟩, ?_⟩, ?_⟩ <;> (rintro rfl; revert h; decide)

theorem keyword_trimmed (k : Kind) (s : List Char) : Trimmed (keyword k ++ s) := by
  cases k <;> (intro c hc; cases hc; decide)

theorem spells_trim {ts : List Tok} {s : List Char} (h : Spells ts s) : Spells ts (multispace0 s) := by
  cases h with
  | nil hw =>
    refine .nil ?_
    intro c hc
    exact hw c ((List.dropWhile_suffix _).subset hc)
  | @num w ds s n ts hw hd hne hn hs h =>
    rw [multispace0_append hw, multispace0_trimmed]
    · exact .num (w := []) (by simp) hd hne hn hs h
    · cases ds with
      | nil => exact absurd rfl hne
      | cons d ds => intro c hc; cases hc; exact digit_not_ws (hd d List.mem_cons_self)
  | @word w s k ts hw h =>
    rw [multispace0_append hw, multispace0_trimmed (keyword_trimmed k s)]
    exact .word (w := []) (by simp) h

theorem takeWhile_digits {ds s : List Char} (hd : ∀ c ∈ ds, c.isDigit = true)
    (hs : ∀ c ∈ s.head?, c.isDigit = false) :
    (ds ++ s).takeWhile Char.isDigit = ds ∧ (ds ++ s).dropWhile Char.isDigit = s := by
  rw [List.takeWhile_append_of_pos hd, List.dropWhile_append_of_pos hd]
  cases s with
  | nil => simp
  | cons c s =>
    have : c.isDigit = false := hs c rfl
    simp [List.takeWhile_cons, List.dropWhile_cons, this]

theorem integer_spells {n : Nat} {ts : List Tok} {s : List Char} (h : Spells (.num n :: ts) s)
    (hn : n < 2 ^ 64) : ∃ s', integerWs s = some (n, s') ∧ Spells ts s' ∧ Trimmed s' := by
  cases h with
  | @num w ds s _ _ hw hd hne hv hs h =>
    refine ⟨multispace0 s, ?_, spells_trim h, trimmed_multispace0 s⟩
    unfold integerWs ws integer
    obtain ⟨e1, e2⟩ := takeWhile_digits hd hs
    have e3 : multispace0 (w ++ (ds ++ s)) = ds ++ s := by
      rw [multispace0_append hw, multispace0_trimmed]
      cases ds with
      | nil => exact absurd rfl hne
      | cons d ds => intro c hc; cases hc; exact digit_not_ws (hd d List.mem_cons_self)
    rw [e3, e1, e2, hv, if_neg hne, if_pos hn]
    rfl

theorem count_spells {l : List Nat} {ts : List Tok} {s : List Char}
    (h : Spells (l.map .num ++ ts) s) (hn : Fits (l.map .num)) (ht : Trimmed s) :
    ∃ s', count integerWs l.length s = some (l, s') ∧ Spells ts s' ∧ Trimmed s' := by
  induction l generalizing s with
  | nil => exact ⟨s, rfl, h, ht⟩
  | cons n l ih =>
    obtain ⟨s1, e1, h1, t1⟩ := integer_spells h hn.1
    obtain ⟨s2, e2, h2, t2⟩ := ih h1 hn.2 t1
    refine ⟨s2, ?_, h2, t2⟩
    simp [count, e1, e2]

theorem kind_spells {k : Kind} {ts : List Tok} {s : List Char} (h : Spells (.word k :: ts) s)
    (ht : Trimmed s) : ∃ s', kind s = some (k, s') ∧ Spells ts s' := by
  generalize hk : Tok.word k :: ts = l at h
  cases h with
  | nil _ => cases hk
  | num _ _ _ _ _ _ => cases hk
  | @word w s k' ts hw h =>
    cases hk
    refine ⟨s, ?_, h⟩
    have hw0 : w = [] := by
      cases w with
      | nil => rfl
      | cons c w =>
        have h1 := hw c List.mem_cons_self
        have h2 := ht c rfl
        rw [h1] at h2; cases h2
    subst hw0
    cases k <;> simp [kind, alt, tag, keyword, List.isPrefixOf]

theorem gate_spells {g : Gate} {ts : List Tok} {s : List Char} (h : Spells (gateToks g ++ ts) s)
    (hn : Fits (gateToks g)) : ∃ s', gate s = some (g, s') ∧ Spells ts s' := by
  obtain ⟨k, ins, outs⟩ := g
  simp only [gateToks, Fits, fits_append] at hn
  simp only [gateToks, List.cons_append, List.append_assoc, List.nil_append] at h
  obtain ⟨s1, e1, h1, -⟩ := integer_spells h hn.1
  obtain ⟨s2, e2, h2, t2⟩ := integer_spells h1 hn.2.1
  obtain ⟨s3, e3, h3, t3⟩ := count_spells h2 hn.2.2.1 t2
  obtain ⟨s4, e4, h4, t4⟩ := count_spells h3 hn.2.2.2.1 t3
  obtain ⟨s5, e5, h5⟩ := kind_spells h4 t4
  refine ⟨s5, ?_, h5⟩
  unfold integerWs at e1 e2
  simp [gate, pair, e1, e2, e3, e4, e5]

theorem gates_spells {gs : List Gate} {s : List Char} (h : Spells (gs.flatMap gateToks) s)
    (hn : Fits (gs.flatMap gateToks)) : ∃ s', count gate gs.length s = some (gs, s') ∧ multispace0 s' = [] := by
  induction gs generalizing s with
  | nil =>
    refine ⟨s, rfl, ?_⟩
    cases h with
    | nil hw =>
      have := multispace0_append hw []
      simpa [multispace0] using this
  | cons g gs ih =>
    simp only [List.flatMap_cons, fits_append] at h hn
    obtain ⟨s1, e1, h1⟩ := gate_spells h hn.1
    obtain ⟨s2, e2, h2⟩ := ih h1 hn.2
    exact ⟨s2, by simp [count, e1, e2], h2⟩

theorem list_spells {l : List Nat} {ts : List Tok} {s : List Char} (h : Spells (listToks l ++ ts) s)
    (hn : Fits (listToks l)) :
    ∃ s', lengthCount integerWs integerWs s = some (l, s') ∧ Spells ts s' ∧ Trimmed s' := by
  simp only [listToks, List.cons_append] at h hn
  obtain ⟨s1, e1, h1, t1⟩ := integer_spells h hn.1
  obtain ⟨s2, e2, h2, t2⟩ := count_spells h1 hn.2 t1
  exact ⟨s2, by simp [lengthCount, e1, e2], h2, t2⟩

/-- C18 for "Bristol fashion" files: every text of a circuit is parsed to this circuit. -/
theorem fashion_round_trip (c : Circuit) (s : List Char) (h : Spells (fashionToks c) s)
    (hn : Fits (fashionToks c)) (hg : c.header.gates = c.gates.length) : circuit s = some c := by
  obtain ⟨⟨ng, nw, ins, outs⟩, gs⟩ := c
  simp only [fashionToks, Fits, fits_append] at h hn hg
  subst hg
  obtain ⟨s1, e1, h1, -⟩ := integer_spells h hn.1
  obtain ⟨s2, e2, h2, -⟩ := integer_spells h1 hn.2.1
  obtain ⟨s3, e3, h3, -⟩ := list_spells h2 hn.2.2.1
  obtain ⟨s4, e4, h4, -⟩ := list_spells h3 hn.2.2.2.1
  obtain ⟨s5, e5, h5⟩ := gates_spells h4 hn.2.2.2.2
  simp [circuit, header, pair, alt, e1, e2, e3, e4, e5, h5]

/-! ### Every accepted text -/

theorem ws_split (s : List Char) : ∃ w, s = w ++ multispace0 s ∧ ∀ c ∈ w, isWs c = true := by
  refine ⟨s.takeWhile isWs, (List.takeWhile_append_dropWhile ..).symm, ?_⟩
  intro c hc
  induction s with
  | nil => simp at hc
  | cons d s ih =>
    rw [List.takeWhile_cons] at hc
    split at hc
    · rename_i hd
      rcases List.mem_cons.1 hc with rfl | hc
      · exact hd
      · exact ih hc
    · simp at hc

theorem mem_takeWhile_digit {c : Char} {s : List Char} (h : c ∈ s.takeWhile Char.isDigit) :
    c.isDigit = true := by
  induction s with
  | nil => simp at h
  | cons d s ih =>
    rw [List.takeWhile_cons] at h
    split at h
    · rename_i hd
      rcases List.mem_cons.1 h with rfl | h
      · exact hd
      · exact ih h
    · simp at h

theorem spells_ws {ts : List Tok} {w s : List Char} (hw : ∀ c ∈ w, isWs c = true) (h : Spells ts s) :
    Spells ts (w ++ s) := by
  have happ : ∀ {v : List Char}, (∀ c ∈ v, isWs c = true) → ∀ c ∈ w ++ v, isWs c = true := by
    intro v hv c hc
    rcases List.mem_append.1 hc with hc | hc
    · exact hw c hc
    · exact hv c hc
  cases h with
  | nil hv => exact .nil (happ hv)
  | num hv hd hne hn hs h => rw [← List.append_assoc]; exact .num (happ hv) hd hne hn hs h
  | word hv h => rw [← List.append_assoc]; exact .word (happ hv) h

theorem integer_inv {n : Nat} {s s' : List Char} (h : integerWs s = some (n, s')) :
    n < 2 ^ 64 ∧ ∀ ts, Spells ts s' → Spells (.num n :: ts) s := by
  unfold integerWs ws integer at h
  obtain ⟨w, hw, hws⟩ := ws_split s
  generalize hm : multispace0 s = t at h hw
  split at h
  · simp at h
  · rename_i hne
    split at h
    · rename_i hlt
      simp only [Option.map_some, Option.some.injEq, Prod.mk.injEq] at h
      obtain ⟨rfl, rfl⟩ := h
      refine ⟨hlt, fun ts hts => ?_⟩
      rw [hw]
      conv => rhs; rhs; rw [← List.takeWhile_append_dropWhile (p := Char.isDigit) (l := t)]
      refine .num hws (fun c hc => mem_takeWhile_digit hc) hne rfl ?_ ?_
      · intro c hc
        have := List.head?_dropWhile_not Char.isDigit t
        rw [hc] at this
        simpa using this
      · obtain ⟨v, hv, hvs⟩ := ws_split (t.dropWhile Char.isDigit)
        rw [hv]
        exact spells_ws hvs hts
    · simp at h

theorem count_inv {l : List Nat} {k : Nat} {s s' : List Char} (h : count integerWs k s = some (l, s')) :
    l.length = k ∧ Fits (l.map .num) ∧ ∀ ts, Spells ts s' → Spells (l.map .num ++ ts) s := by
  induction k generalizing s l with
  | zero =>
    simp only [count, Option.some.injEq, Prod.mk.injEq] at h
    obtain ⟨rfl, rfl⟩ := h
    exact ⟨rfl, trivial, fun ts h => h⟩
  | succ k ih =>
    unfold count at h
    split at h
    · cases h
    · rename_i n s1 e1
      simp only [Option.map_eq_some_iff, Prod.mk.injEq, Prod.exists] at h
      obtain ⟨l', s2, e2, rfl, rfl⟩ := h
      obtain ⟨h1, h2, h3⟩ := ih e2
      obtain ⟨a1, a2⟩ := integer_inv e1
      exact ⟨by simp [h1], ⟨a1, h2⟩, fun ts hts => a2 _ (h3 ts hts)⟩

theorem pair_inv {α β : Type} {p : Parser α} {q : Parser β} {s s' : List Char} {a : α} {b : β}
    (h : pair p q s = some ((a, b), s')) : ∃ s1, p s = some (a, s1) ∧ q s1 = some (b, s') := by
  unfold pair at h
  split at h
  · cases h
  · rename_i a' s1 e1
    simp only [Option.map_eq_some_iff, Prod.mk.injEq, Prod.exists] at h
    obtain ⟨b', s2, e2, ⟨rfl, rfl⟩, rfl⟩ := h
    exact ⟨s1, e1, e2⟩

theorem lengthCount_inv {l : List Nat} {s s' : List Char}
    (h : lengthCount integerWs integerWs s = some (l, s')) :
    Fits (listToks l) ∧ ∀ ts, Spells ts s' → Spells (listToks l ++ ts) s := by
  unfold lengthCount at h
  split at h
  · cases h
  · rename_i n s1 e1
    obtain ⟨a1, a2⟩ := integer_inv e1
    obtain ⟨rfl, b2, b3⟩ := count_inv h
    exact ⟨⟨a1, b2⟩, fun ts hts => a2 _ (b3 ts hts)⟩

theorem tag_inv {t s r s' : List Char} (h : tag t s = some (r, s')) : r = t ∧ s = t ++ s' := by
  unfold tag at h
  split at h
  · rename_i hp
    simp only [Option.some.injEq, Prod.mk.injEq] at h
    obtain ⟨rfl, rfl⟩ := h
    refine ⟨rfl, ?_⟩
    obtain ⟨u, rfl⟩ := List.isPrefixOf_iff_prefix.1 hp
    simp
  · cases h

theorem alt_inv {α : Type} {p q : Parser α} {s : List Char} {r : α × List Char}
    (h : alt p q s = some r) : p s = some r ∨ p s = none ∧ q s = some r := by
  unfold alt at h
  split at h
  · left; rename_i e; rw [e]; exact h
  · right; exact ⟨by assumption, h⟩

theorem kind_inv {k : Kind} {s s' : List Char} (h : kind s = some (k, s')) : s = keyword k ++ s' := by
  unfold kind at h
  split at h
  · cases h
  · rename_i t s1 e1
    rcases alt_inv e1 with e | ⟨-, e⟩
    · obtain ⟨rfl, hs⟩ := tag_inv e
      simp at h
      obtain ⟨rfl, rfl⟩ := h
      exact hs
    · rcases alt_inv e with e | ⟨-, e⟩
      · obtain ⟨rfl, hs⟩ := tag_inv e
        simp at h
        obtain ⟨rfl, rfl⟩ := h
        exact hs
      · obtain ⟨rfl, hs⟩ := tag_inv e
        simp at h
        obtain ⟨rfl, rfl⟩ := h
        exact hs

theorem gate_inv {g : Gate} {s s' : List Char} (h : gate s = some (g, s')) :
    Fits (gateToks g) ∧ ∀ ts, Spells ts s' → Spells (gateToks g ++ ts) s := by
  unfold gate at h
  split at h
  · cases h
  · rename_i nin nout s1 e1
    obtain ⟨s0, e0, e1⟩ := pair_inv e1
    obtain ⟨a1, a2⟩ := integer_inv e0
    obtain ⟨b1, b2⟩ := integer_inv e1
    split at h
    · cases h
    · rename_i ins s2 e2
      obtain ⟨rfl, c2, c3⟩ := count_inv e2
      split at h
      · cases h
      · rename_i outs s3 e3
        obtain ⟨rfl, d2, d3⟩ := count_inv e3
        simp only [Option.map_eq_some_iff, Prod.mk.injEq, Prod.exists] at h
        obtain ⟨k, s4, e4, rfl, rfl⟩ := h
        refine ⟨⟨a1, b1, ?_⟩, fun ts hts => ?_⟩
        · simp only [fits_append]
          exact ⟨c2, d2, trivial⟩
        · simp only [gateToks, List.cons_append, List.append_assoc, List.nil_append]
          refine a2 _ (b2 _ (c3 _ (d3 _ ?_)))
          rw [kind_inv e4]
          exact .word (w := []) (by simp) hts

theorem gates_inv {gs : List Gate} {k : Nat} {s s' : List Char} (h : count gate k s = some (gs, s')) :
    gs.length = k ∧ Fits (gs.flatMap gateToks) ∧
      ∀ ts, Spells ts s' → Spells (gs.flatMap gateToks ++ ts) s := by
  induction k generalizing s gs with
  | zero =>
    simp only [count, Option.some.injEq, Prod.mk.injEq] at h
    obtain ⟨rfl, rfl⟩ := h
    exact ⟨rfl, trivial, fun ts h => h⟩
  | succ k ih =>
    unfold count at h
    split at h
    · cases h
    · rename_i g s1 e1
      simp only [Option.map_eq_some_iff, Prod.mk.injEq, Prod.exists] at h
      obtain ⟨l', s2, e2, rfl, rfl⟩ := h
      obtain ⟨h1, h2, h3⟩ := ih e2
      obtain ⟨a1, a2⟩ := gate_inv e1
      refine ⟨by simp [h1], ?_, fun ts hts => ?_⟩
      · rw [List.flatMap_cons, fits_append]; exact ⟨a1, h2⟩
      · rw [List.flatMap_cons, List.append_assoc]; exact a2 _ (h3 ts hts)

/-- Conversely, a text that is accepted is a text of the resulting circuit, in one of the two
formats.  Nothing else is accepted, and no part of the text is dropped. -/
theorem parse_sound (s : List Char) (c : Circuit) (h : circuit s = some c) :
    c.header.gates = c.gates.length ∧
      ((Spells (fashionToks c) s ∧ Fits (fashionToks c)) ∨
       (Spells (oldToks c) s ∧ Fits (oldToks c) ∧ c.header.inputWires.length = 2 ∧
          c.header.outputWires.length = 1)) := by
  unfold circuit at h
  split at h
  · cases h
  · rename_i hd s1 e1
    split at h
    · cases h
    · rename_i gs s2 e2
      split at h
      · rename_i hws
        cases h
        obtain ⟨g1, g2, g3⟩ := gates_inv e2
        refine ⟨g1.symm, ?_⟩
        have hend : Spells [] s2 := by
          obtain ⟨w, hw, hws'⟩ := ws_split s2
          rw [hw, hws, List.append_nil]
          exact .nil hws'
        have g3 := g3 _ hend
        rw [List.append_nil] at g3
        unfold header at e1
        split at e1
        · cases e1
        · rename_i ng nw s3 e3
          obtain ⟨s4, e4, e5⟩ := pair_inv e3
          obtain ⟨a1, a2⟩ := integer_inv e4
          obtain ⟨b1, b2⟩ := integer_inv e5
          simp only [Option.map_eq_some_iff, Prod.mk.injEq, Prod.exists] at e1
          obtain ⟨ins, outs, s5, e6, rfl, rfl⟩ := e1
          rcases alt_inv e6 with e6 | ⟨-, e6⟩
          · left
            obtain ⟨s6, e7, e8⟩ := pair_inv e6
            obtain ⟨c1, c2⟩ := lengthCount_inv e7
            obtain ⟨d1, d2⟩ := lengthCount_inv e8
            refine ⟨a2 _ (b2 _ (c2 _ (d2 _ g3))), a1, b1, ?_⟩
            simp only [fits_append]
            exact ⟨c1, d1, g2⟩
          · right
            obtain ⟨s6, e7, e8⟩ := pair_inv e6
            obtain ⟨c0, c1, c2⟩ := count_inv e7
            obtain ⟨d0, d1, d2⟩ := count_inv e8
            refine ⟨a2 _ (b2 _ (c2 _ (d2 _ g3))), ⟨a1, b1, ?_⟩, c0, d0⟩
            simp only [fits_append]
            exact ⟨c1, d1, g2⟩
      · cases h

/-! ### The old format -/

theorem integer_word {k : Kind} {ts : List Tok} {s : List Char} (h : Spells (.word k :: ts) s) :
    integerWs s = none := by
  generalize hk : Tok.word k :: ts = l at h
  cases h with
  | nil _ => cases hk
  | num _ _ _ _ _ _ => cases hk
  | @word w s k' ts hw h =>
    cases hk
    unfold integerWs ws integer
    rw [multispace0_append hw, multispace0_trimmed (keyword_trimmed k s)]
    cases k <;> simp [keyword, List.takeWhile_cons, Char.isDigit] <;> decide

theorem integer_end {s : List Char} (h : Spells [] s) : integerWs s = none := by
  cases h with
  | nil hw =>
    unfold integerWs ws integer
    have : multispace0 s = [] := by simpa [multispace0] using multispace0_append hw []
    rw [this]
    rfl

/-- Reading more numbers than there are before the next keyword fails. -/
theorem count_too_many {l : List Nat} {ts : List Tok} {s : List Char} {k : Nat}
    (h : Spells (l.map .num ++ ts) s) (hn : Fits (l.map .num)) (hk : l.length < k)
    (hts : ts = [] ∨ ∃ w ts', ts = .word w :: ts') : count integerWs k s = none := by
  induction l generalizing s k with
  | nil =>
    obtain ⟨k, rfl⟩ : ∃ j, k = j + 1 := ⟨k - 1, by simp at hk; omega⟩
    have : integerWs s = none := by
      rcases hts with rfl | ⟨w, ts', rfl⟩
      · exact integer_end h
      · exact integer_word h
    simp [count, this]
  | cons n l ih =>
    obtain ⟨k, rfl⟩ : ∃ j, k = j + 1 := ⟨k - 1, by simp at hk; omega⟩
    obtain ⟨s1, e1, h1, -⟩ := integer_spells h hn.1
    have := ih h1 hn.2 (by simpa using hk)
    simp [count, e1, this]

theorem lengthCount_too_many {n : Nat} {l : List Nat} {ts : List Tok} {s : List Char}
    (h : Spells ((n :: l).map .num ++ ts) s) (hn : Fits ((n :: l).map .num)) (hk : l.length ≤ n)
    (hts : ts = [] ∨ ∃ w ts', ts = .word w :: ts') :
    pair (lengthCount integerWs integerWs) (lengthCount integerWs integerWs) s = none := by
  obtain ⟨s1, e1, h1, t1⟩ := integer_spells h hn.1
  by_cases hlt : l.length < n
  · have := count_too_many h1 hn.2 hlt hts
    simp [pair, lengthCount, e1, this]
  · have : n = l.length := by omega
    obtain ⟨s2, e2, h2, t2⟩ := count_spells h1 hn.2 t1
    rw [← this] at e2
    have e3 : integerWs s2 = none := by
      rcases hts with rfl | ⟨w, ts', rfl⟩
      · exact integer_end h2
      · exact integer_word h2
    simp [pair, lengthCount, e1, e2, e3]

/-- The numbers of the first gate line. -/
def firstLine : List Gate → List Nat
  | [] => []
  | g :: _ => g.inputWires.length :: g.outputWires.length :: (g.inputWires ++ g.outputWires)

/-- C18 for the old format, as far as it holds: the first input is wide enough that the header
cannot be mistaken for a "Bristol fashion" header, i.e. it has at least as many wires as numbers
follow in the text before the first keyword. -/
theorem old_round_trip_partial (c : Circuit) (n1 n2 n3 : Nat) (s : List Char)
    (h : Spells (oldToks c) s) (hn : Fits (oldToks c)) (hg : c.header.gates = c.gates.length)
    (hin : c.header.inputWires = [n1, n2]) (hout : c.header.outputWires = [n3])
    (hwide : 2 + (firstLine c.gates).length ≤ n1) : circuit s = some c := by
  obtain ⟨⟨ng, nw, ins, outs⟩, gs⟩ := c
  simp only at hg hin hout hwide
  subst hg hin hout
  simp only [oldToks, Fits, fits_append] at h hn
  obtain ⟨s1, e1, h1, -⟩ := integer_spells h hn.1
  obtain ⟨s2, e2, h2, t2⟩ := integer_spells h1 hn.2.1
  have hfail : pair (lengthCount integerWs integerWs) (lengthCount integerWs integerWs) s2 = none := by
    have hsplit : ∃ rest, gs.flatMap gateToks = (firstLine gs).map .num ++ rest ∧
        (rest = [] ∨ ∃ w ts', rest = .word w :: ts') := by
      cases gs with
      | nil => exact ⟨[], rfl, .inl rfl⟩
      | cons g gs =>
        refine ⟨.word g.kind :: gs.flatMap gateToks, ?_, .inr ⟨_, _, rfl⟩⟩
        simp [gateToks, firstLine, List.flatMap_cons]
    obtain ⟨rest, hr, hrest⟩ := hsplit
    rw [hr] at h2 hn
    refine lengthCount_too_many (n := n1) (l := n2 :: n3 :: firstLine gs) (ts := rest) ?_ ?_ ?_ hrest
    · simpa using h2
    · simp only [fits_append, List.map_cons, List.map_nil, Fits] at hn ⊢
      exact ⟨hn.2.2.1.1, hn.2.2.1.2.1, hn.2.2.2.1.1, hn.2.2.2.2.1⟩
    · simp; omega
  obtain ⟨s3, e3, h3, t3⟩ := count_spells (l := [n1, n2]) h2 hn.2.2.1 t2
  obtain ⟨s4, e4, h4, -⟩ := count_spells (l := [n3]) h3 hn.2.2.2.1 t3
  obtain ⟨s5, e5, h5⟩ := gates_spells h4 hn.2.2.2.2
  simp only [List.length_cons, List.length_nil, Nat.zero_add] at e3 e4
  have p1 : pair integerWs integerWs s = some ((gs.length, nw), s2) := by simp [pair, e1, e2]
  have p2 : pair (count integerWs 2) (count integerWs 1) s2 = some (([n1, n2], [n3]), s4) := by
    simp [pair, e3, e4]
  have p3 : header s = some (⟨gs.length, nw, [n1, n2], [n3]⟩, s4) := by
    simp [header, p1, alt, hfail, p2]
  simp [circuit, p3, e5, h5]

/-- A one-gate file in the old format, with inputs of one bit. -/
def smallOld : Circuit := ⟨⟨1, 3, [1, 1], [1]⟩, [⟨.and, [0, 1], [2]⟩]⟩

/-- Without the restriction the claim is false: this file is rejected. -/
theorem old_format_rejected : ∃ s, Spells (oldToks smallOld) s ∧ Fits (oldToks smallOld) ∧
    circuit s = none := by
  refine ⟨"1 3\n1 1 1\n2 1 0 1 2 AND".toList, ?_, ?_, by decide +kernel⟩
  · exact .num (w := []) (ds := ['1']) (by decide) (by decide) (by decide) rfl (by decide) <|
      .num (w := [' ']) (ds := ['3']) (by decide) (by decide) (by decide) rfl (by decide) <|
      .num (w := ['\n']) (ds := ['1']) (by decide) (by decide) (by decide) rfl (by decide) <|
      .num (w := [' ']) (ds := ['1']) (by decide) (by decide) (by decide) rfl (by decide) <|
      .num (w := [' ']) (ds := ['1']) (by decide) (by decide) (by decide) rfl (by decide) <|
      .num (w := ['\n']) (ds := ['2']) (by decide) (by decide) (by decide) rfl (by decide) <|
      .num (w := [' ']) (ds := ['1']) (by decide) (by decide) (by decide) rfl (by decide) <|
      .num (w := [' ']) (ds := ['0']) (by decide) (by decide) (by decide) rfl (by decide) <|
      .num (w := [' ']) (ds := ['1']) (by decide) (by decide) (by decide) rfl (by decide) <|
      .num (w := [' ']) (ds := ['2']) (by decide) (by decide) (by decide) rfl (by decide) <|
      .word (w := [' ']) (k := .and) (by decide) <| .nil (w := []) (by decide)
  · simp [Fits, oldToks, smallOld, gateToks]

/-- The parser accepts files of both kinds. -/
example : circuit "2 5\n2 2 1\n1 1\n\n2 1 0 1 3 AND\n1 1 3 4 INV\n".toList =
      some ⟨⟨2, 5, [2, 1], [1]⟩, [⟨.and, [0, 1], [3]⟩, ⟨.inv, [3], [4]⟩]⟩ ∧
    circuit "1 11\n9 1 1\n2 1 0 9 10 XOR".toList =
      some ⟨⟨1, 11, [9, 1], [1]⟩, [⟨.xor, [0, 9], [10]⟩]⟩ := by
  decide +kernel

end Verif.Parse
