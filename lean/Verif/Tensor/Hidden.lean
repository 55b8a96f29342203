import Verif.Tensor.Circuit

/-!
Boolean ABY2 with matrices: the messages of a layer and of the sharing are perfectly masked.
-/
set_option autoImplicit false

namespace Verif.Tensor

open Bitmat

/-! ### Specification -/

/-- Specification: a value of the kind and dimensions of a gate's output. -/
def MaskFor : Gate → PShare → Prop
  | .and2, .scalar _ => True
  | .matMult r c, .matrix m => IsMat r c m
  | _, _ => False

/-- Specification: an interactive gate at one party: gate, operand shares, share of the product of the
masks. -/
structure Slot where
  g : Gate
  a : TShare
  b : TShare
  e : PShare

/-- Kinds and dimensions fit the gate; nothing is said about the values. -/
def Slot.Fits (s : Slot) : Prop :=
  match s.g, s.a, s.b, s.e with
  | .and2, .scalar _ _, .scalar _ _, .scalar _ => True
  | .matMult r c, .matrix ap aq, .matrix bp bq, .matrix e =>
    ∃ k, 0 < k ∧ IsMat r k ap ∧ IsMat r k aq ∧ IsMat k c bp ∧ IsMat k c bq ∧ IsMat r c e
  | _, _, _, _ => False

/-- The output share of a gate before its evaluation, with the given private part. -/
def hidden : PShare → TShare
  | .scalar b => .scalar false b
  | .vec v => .vec [] v
  | .matrix m => .matrix ⟨0, 0, []⟩ m

/-- Specification: the kind and dimensions of a value. -/
def SameShape : PShare → PShare → Prop
  | .scalar _, .scalar _ => True
  | .matrix m, .matrix p => IsMat m.rows m.cols p
  | _, _ => False

/-- Specification: a generator that plays back a given tape, one value per draw.  A draw that does
not fit gives zeros. -/
def tape : Gen (List PShare) where
  bit
    | .scalar b :: t => (b, t)
    | t => (false, t.tail)
  mat
    | .matrix m :: t, r, c =>
      if m.rows = r ∧ m.cols = c ∧ m.data.length = r * c then (m, t)
      else (⟨r, c, List.replicate (r * c) false⟩, t)
    | t, r, c => (⟨r, c, List.replicate (r * c) false⟩, t.tail)
  mat_dim := by
    intro s r c
    split
    · split
      · rename_i h
        exact ⟨h.1, h.2.1, by rw [BitMatrix.Valid, h.2.2, h.1, h.2.1]⟩
      · exact ⟨rfl, rfl, by simp [BitMatrix.Valid]⟩
    · exact ⟨rfl, rfl, by simp [BitMatrix.Valid]⟩

/-! ### Masking with a matrix -/

/-- Masking with a constant. -/
def maskBy (k : PShare) (o : PShare) : PShare := (k.xor o).getD o

theorem mask_matrix {r c : Nat} {k o : BitMatrix} (hk : IsMat r c k) (ho : IsMat r c o) :
    ∃ m, maskBy (.matrix k) (.matrix o) = .matrix m ∧ IsMat r c m ∧
      (∀ i j, i < r → j < c → m.get i j = (k.get i j ^^ o.get i j)) := by
  obtain ⟨m, h1, h2, h3⟩ := matXor_isMat hk ho
  exact ⟨m, by simp [maskBy, PShare.xor, h1], h2, h3⟩

theorem mask_matrix_invol {r c : Nat} {k o : BitMatrix} (hk : IsMat r c k) (ho : IsMat r c o) :
    maskBy (.matrix k) (maskBy (.matrix k) (.matrix o)) = .matrix o := by
  obtain ⟨m, h1, h2, h3⟩ := mask_matrix hk ho
  obtain ⟨n, g1, g2, g3⟩ := mask_matrix hk h2
  rw [h1, g1, isMat_unique g2 ho fun i j hi hj => by
    rw [g3 i j hi hj, h3 i j hi hj]; cases k.get i j <;> cases o.get i j <;> rfl]

/-- The message of one gate is its mask, masked by a constant of the same kind and dimensions. -/
theorem slot_masked (party : Nat) (s : Slot) (h : s.Fits) (d : SetupData) :
    ∃ k, MaskFor s.g k ∧ s.g.inputSize = 2 ∧ ∀ o, MaskFor s.g o →
      computeDeltaShare party s.g [s.a, s.b] (d ++ [s.e]) (hidden o) = some (maskBy k o, d) := by
  obtain ⟨g, a, b, e⟩ := s
  simp only [Slot.Fits] at h
  split at h
  · rename_i ap aq bp bq e
    refine ⟨.scalar ((decide (party = 1) && (ap && bp)) ^^ (ap && bq) ^^ (bp && aq) ^^ e), trivial, rfl,
      fun o ho => ?_⟩
    cases o <;> simp only [MaskFor] at ho
    simp only [computeDeltaShare, pop_append, hidden, maskBy, PShare.xor, Option.getD_some]
  · rename_i r c ap aq bp bq e
    obtain ⟨k, hk, hap, haq, hbp, hbq, he⟩ := h
    have h8 := he.2.2.2
    obtain ⟨p1, p1e, p1m, p1v⟩ := matMul_isMat hap hbq hk h8
    obtain ⟨p2, p2e, p2m, p2v⟩ := matMul_isMat haq hbp hk h8
    obtain ⟨p3, p3e, p3m, p3v⟩ := matMul_isMat hap hbp hk h8
    obtain ⟨s1, s1e, s1m, s1v⟩ := matXor_isMat p1m p2m
    obtain ⟨s2, s2e, s2m, s2v⟩ := matXor_isMat s1m he
    obtain ⟨t, te, tm, tv⟩ := matXor_isMat s2m p3m
    by_cases hp : party = 0
    · refine ⟨.matrix t, tm, rfl, fun o ho => ?_⟩
      cases o <;> simp only [MaskFor] at ho
      rename_i o
      obtain ⟨s3, s3e, s3m, s3v⟩ := matXor_isMat s2m ho
      obtain ⟨s4, s4e, s4m, s4v⟩ := matXor_isMat s3m p3m
      obtain ⟨m, m1, m2, m3⟩ := mask_matrix tm ho
      have : s4 = m := isMat_unique s4m m2 fun i j hi hj => by
        rw [s4v i j hi hj, s3v i j hi hj, m3 i j hi hj, tv i j hi hj]
        cases s2.get i j <;> cases o.get i j <;> cases p3.get i j <;> rfl
      simp only [computeDeltaShare, pop_append, hidden, p1e, p2e, s1e, s2e, s3e, p3e, s4e,
        Option.bind_eq_bind, Option.bind_some, if_pos hp]
      rw [if_pos ⟨s4m.1, s4m.2.1⟩, m1, this]
    · refine ⟨.matrix s2, s2m, rfl, fun o ho => ?_⟩
      cases o <;> simp only [MaskFor] at ho
      rename_i o
      obtain ⟨s3, s3e, s3m, s3v⟩ := matXor_isMat s2m ho
      simp only [computeDeltaShare, pop_append, hidden, p1e, p2e, s1e, s2e, s3e,
        Option.bind_eq_bind, Option.bind_some, if_neg hp]
      rw [if_pos ⟨s3m.1, s3m.2.1⟩]
      simp [maskBy, PShare.xor, s3e]
  · exact absurd h id

theorem mask_for {g : Gate} {k o : PShare} (hk : MaskFor g k) (ho : MaskFor g o) :
    MaskFor g (maskBy k o) ∧ maskBy k (maskBy k o) = o := by
  cases g <;> cases k <;> simp only [MaskFor] at hk <;> cases o <;> simp only [MaskFor] at ho
  · rename_i a b
    exact ⟨trivial, by cases a <;> cases b <;> rfl⟩
  · obtain ⟨m, h1, h2, _⟩ := mask_matrix hk ho
    refine ⟨by rw [h1]; exact h2, mask_matrix_invol hk ho⟩

/-- Masks for the gates of a layer. -/
def Masks (gs : List Gate) : Set (List PShare) := {os | List.Forall₂ MaskFor gs os}

/-- The messages of a layer at one party, with the private parts of the output shares on a tape. -/
def layerMessages (party : Nat) (slots : List Slot) (d : SetupData) (os : List PShare) :
    Option (List PShare × SetupData) :=
  computeMsg party ((slots.map Slot.g).zip (os.map hidden)) (slots.flatMap fun s => [s.a, s.b])
    (d ++ (slots.map Slot.e).reverse)

theorem zipWith_masks {gs : List Gate} {ks : List PShare} (hk : List.Forall₂ MaskFor gs ks)
    {os : List PShare} (ho : List.Forall₂ MaskFor gs os) :
    List.Forall₂ MaskFor gs (List.zipWith maskBy ks os) ∧
      List.zipWith maskBy ks (List.zipWith maskBy ks os) = os := by
  induction hk generalizing os with
  | nil => cases ho; exact ⟨.nil, rfl⟩
  | cons h _ ih =>
    cases ho with
    | cons g gt =>
      obtain ⟨h1, h2⟩ := ih gt
      obtain ⟨h3, h4⟩ := mask_for h g
      exact ⟨.cons h3 h1, by rw [List.zipWith_cons_cons, List.zipWith_cons_cons, h2, h4]⟩

theorem zipWith_bij {gs : List Gate} {ks : List PShare} (hk : List.Forall₂ MaskFor gs ks) :
    Set.BijOn (List.zipWith maskBy ks) (Masks gs) (Masks gs) :=
  Set.InvOn.bijOn (f' := List.zipWith maskBy ks)
    ⟨fun _ ho => (zipWith_masks hk ho).2, fun _ ho => (zipWith_masks hk ho).2⟩
    (fun _ ho => (zipWith_masks hk ho).1) (fun _ ho => (zipWith_masks hk ho).1)

theorem layer_masked (party : Nat) (slots : List Slot) (h : ∀ s ∈ slots, s.Fits) (d : SetupData) :
    ∃ ks, List.Forall₂ MaskFor (slots.map Slot.g) ks ∧ ∀ os ∈ Masks (slots.map Slot.g),
      layerMessages party slots d os = some (List.zipWith maskBy ks os, d) := by
  induction slots with
  | nil =>
    refine ⟨[], .nil, fun os ho => ?_⟩
    cases ho
    simp [layerMessages, computeMsg]
  | cons s slots ih =>
    obtain ⟨ks, h1, h2⟩ := ih fun x hx => h x (by simp [hx])
    obtain ⟨k, k1, k2, k3⟩ := slot_masked party s (h s (by simp)) (d ++ (slots.map Slot.e).reverse)
    refine ⟨k :: ks, .cons k1 h1, fun os ho => ?_⟩
    cases ho with
    | @cons _ o _ os ho hos =>
      have ht := h2 os hos
      rw [layerMessages] at ht
      simp only [layerMessages, List.map_cons, List.zip_cons_cons, List.reverse_cons, computeMsg,
        List.flatMap_cons, k2]
      rw [← List.append_assoc]
      simp only [List.cons_append, List.nil_append, List.take_succ_cons, List.take_zero,
        List.drop_succ_cons, List.drop_zero, k3 o ho, ht, Option.bind_eq_bind, Option.bind_some,
        List.zipWith_cons_cons]

/-- C100: for all operand shares and setup data of the right kinds and dimensions, the messages of a
layer are a bijection of the private parts of the output shares, which are fresh random values. -/
theorem tensor_layer_messages_uniform (party : Nat) (slots : List Slot) (h : ∀ s ∈ slots, s.Fits)
    (d : SetupData) :
    ∃ f : List PShare → List PShare,
      Set.BijOn f (Masks (slots.map Slot.g)) (Masks (slots.map Slot.g)) ∧
      ∀ os ∈ Masks (slots.map Slot.g), layerMessages party slots d os = some (f os, d) := by
  obtain ⟨ks, h1, h2⟩ := layer_masked party slots h d
  exact ⟨List.zipWith maskBy ks, zipWith_bij h1, h2⟩

/-- C100: two layers with the same gates and any operands and setup data send the same messages, up
to a bijection of the private parts of the output shares. -/
theorem tensor_layer_messages_private (party : Nat) (s s' : List Slot) (h : ∀ x ∈ s, x.Fits)
    (h' : ∀ x ∈ s', x.Fits) (hg : s.map Slot.g = s'.map Slot.g) (d d' : SetupData) :
    ∃ σ : List PShare → List PShare,
      Set.BijOn σ (Masks (s.map Slot.g)) (Masks (s.map Slot.g)) ∧
      ∀ os ∈ Masks (s.map Slot.g),
        (layerMessages party s d os).map Prod.fst =
          (layerMessages party s' d' (σ os)).map Prod.fst ∧
        ((layerMessages party s d os).map Prod.fst).isSome := by
  obtain ⟨ks, h1, h2⟩ := layer_masked party s h d
  obtain ⟨ks', h1', h2'⟩ := layer_masked party s' h' d'
  rw [← hg] at h1' h2'
  refine ⟨fun os => List.zipWith maskBy ks' (List.zipWith maskBy ks os),
    (zipWith_bij h1').comp (zipWith_bij h1), fun os ho => ?_⟩
  have hm := (zipWith_masks h1 ho).1
  rw [h2 os ho, h2' _ (zipWith_masks h1' hm).1, (zipWith_masks h1' hm).2]
  exact ⟨rfl, rfl⟩

/-! ### Sharing -/

/-- Values of the kinds and dimensions of the inputs. -/
def Shapes (xs : List PShare) : Set (List PShare) := {ps | List.Forall₂ SameShape xs ps}

theorem tape_random {r c : Nat} {m : BitMatrix} (h : IsMat r c m) (t : List PShare) :
    tape.random (.matrix m :: t) r c = some (m, t) := by
  have hl : m.data.length = r * c := by
    have := h.2.2.1
    rw [BitMatrix.Valid, h.1, h.2.1] at this
    exact this.symm
  rw [(random_some tape _ h.2.2.2).1]
  simp only [tape, h.1, h.2.1, hl, and_self, if_true]

theorem shape_mask {x k p : PShare} (hk : SameShape x k) (hp : SameShape x p) :
    SameShape x (maskBy k p) ∧ maskBy k (maskBy k p) = p := by
  cases x <;> cases k <;> simp only [SameShape] at hk <;> cases p <;> simp only [SameShape] at hp
  · rename_i a b
    exact ⟨trivial, by cases a <;> cases b <;> rfl⟩
  · obtain ⟨m, h1, h2, _⟩ := mask_matrix hk hp
    exact ⟨by rw [h1]; exact h2, mask_matrix_invol hk hp⟩

theorem shapes_masks {xs ks : List PShare} (hk : List.Forall₂ SameShape xs ks) {ps : List PShare}
    (hp : List.Forall₂ SameShape xs ps) :
    List.Forall₂ SameShape xs (List.zipWith maskBy ks ps) ∧
      List.zipWith maskBy ks (List.zipWith maskBy ks ps) = ps := by
  induction hk generalizing ps with
  | nil => cases hp; exact ⟨.nil, rfl⟩
  | cons h _ ih =>
    cases hp with
    | cons g gt =>
      obtain ⟨h1, h2⟩ := ih gt
      obtain ⟨h3, h4⟩ := shape_mask h g
      exact ⟨.cons h3 h1, by rw [List.zipWith_cons_cons, List.zipWith_cons_cons, h2, h4]⟩

theorem share_masked (xs : List PShare) (hx : ∀ x ∈ xs, Sharable x) (j : List PShare)
    (hj : j ∈ Shapes xs) :
    ∃ ks, List.Forall₂ SameShape xs ks ∧ ∀ p ∈ Shapes xs, ∃ s0 : List TShare,
      shareTensor tape xs p j = some (s0, List.zipWith maskBy ks p) ∧ s0.map TShare.getPrivate = p := by
  induction xs generalizing j with
  | nil =>
    refine ⟨[], .nil, fun p hp => ?_⟩
    cases hp
    exact ⟨[], rfl, rfl⟩
  | cons x xs ih =>
    cases hj with
    | @cons _ k _ j hk hjt =>
      obtain ⟨ks, h1, h2⟩ := ih (fun y hy => hx y (by simp [hy])) j hjt
      have hxx := hx x (by simp)
      cases x with
      | vec v => exact absurd hxx id
      | scalar b =>
        cases k <;> simp only [SameShape] at hk
        rename_i k
        refine ⟨.scalar (b ^^ k) :: ks, .cons trivial h1, fun p hp => ?_⟩
        cases hp with
        | @cons _ q _ p hq hp =>
          cases q <;> simp only [SameShape] at hq
          rename_i q
          obtain ⟨s0, e1, e2⟩ := h2 p hp
          refine ⟨.scalar (b ^^ q ^^ k) q :: s0, ?_, by simp [e2, TShare.getPrivate]⟩
          rw [shareTensor]
          simp only [tape] at e1 ⊢
          rw [e1]
          simp only [Option.bind_eq_bind, Option.bind_some, List.zipWith_cons_cons, maskBy, PShare.xor,
            Option.getD_some]
          cases b <;> cases q <;> cases k <;> rfl
      | matrix m =>
        cases k <;> simp only [SameShape] at hk
        rename_i k
        have hm : IsMat m.rows m.cols m := hxx
        obtain ⟨c, ce, cm, cv⟩ := matXor_isMat hm hk
        refine ⟨.matrix c :: ks, .cons cm h1, fun p hp => ?_⟩
        cases hp with
        | @cons _ q _ p hq hp =>
          cases q <;> simp only [SameShape] at hq
          rename_i q
          obtain ⟨s0, e1, e2⟩ := h2 p hp
          obtain ⟨d1, d1e, d1m, d1v⟩ := matXor_isMat hm hq
          obtain ⟨d, de, dm, dv⟩ := matXor_isMat d1m hk
          obtain ⟨n, n1, n2, n3⟩ := mask_matrix cm hq
          have hd : d = n := isMat_unique dm n2 fun i j hi hj => by
            rw [dv i j hi hj, d1v i j hi hj, n3 i j hi hj, cv i j hi hj]
            cases m.get i j <;> cases q.get i j <;> cases k.get i j <;> rfl
          refine ⟨.matrix d q :: s0, ?_, by simp [e2, TShare.getPrivate]⟩
          rw [shareTensor, tape_random hq, tape_random hk]
          simp only [Option.bind_eq_bind, Option.bind_some, d1e, de, e1, List.zipWith_cons_cons, n1, hd]

/-- C100: what a party sends when it shares its inputs is a bijection of what it draws from its
private generator, for all inputs and all values of the joint generator, which the peer knows; the
private parts of its shares are what it drew. -/
theorem tensor_share_uniform (xs : List PShare) (hx : ∀ x ∈ xs, Sharable x) (j : List PShare)
    (hj : j ∈ Shapes xs) :
    ∃ f : List PShare → List PShare, Set.BijOn f (Shapes xs) (Shapes xs) ∧
      ∀ p ∈ Shapes xs, ∃ s0 : List TShare, shareTensor tape xs p j = some (s0, f p) ∧
        s0.map TShare.getPrivate = p := by
  obtain ⟨ks, h1, h2⟩ := share_masked xs hx j hj
  exact ⟨List.zipWith maskBy ks, Set.InvOn.bijOn (f' := List.zipWith maskBy ks)
    ⟨fun _ ho => (shapes_masks h1 ho).2, fun _ ho => (shapes_masks h1 ho).2⟩
    (fun _ ho => (shapes_masks h1 ho).1) (fun _ ho => (shapes_masks h1 ho).1), h2⟩

/-! ### The hypotheses are met -/

def mat8 (v : Bool) : BitMatrix := ⟨2, 4, List.replicate 8 v⟩
def mat16 (v : Bool) : BitMatrix := ⟨4, 4, List.replicate 16 v⟩

theorem mat8_is (v : Bool) : IsMat 2 4 (mat8 v) := ⟨rfl, rfl, by simp [BitMatrix.Valid, mat8], ⟨1, rfl⟩⟩
theorem mat16_is (v : Bool) : IsMat 4 4 (mat16 v) :=
  ⟨rfl, rfl, by simp [BitMatrix.Valid, mat16], ⟨2, rfl⟩⟩

/-- An AND gate and a product of a 2x4 and a 4x4 matrix, with any bits. -/
def sampleSlots (x y : Bool) : List Slot :=
  [⟨.and2, .scalar x y, .scalar y x, .scalar x⟩,
   ⟨.matMult 2 4, .matrix (mat8 x) (mat8 y), .matrix (mat16 y) (mat16 x), .matrix (mat8 y)⟩]

example (x y : Bool) : ∀ s ∈ sampleSlots x y, s.Fits := by
  intro s hs
  simp only [sampleSlots, List.mem_cons, List.not_mem_nil, or_false] at hs
  rcases hs with rfl | rfl
  · trivial
  · exact ⟨4, by omega, mat8_is _, mat8_is _, mat16_is _, mat16_is _, mat8_is _⟩

example : [PShare.scalar true, .matrix (mat8 true)] ∈ Masks ((sampleSlots true false).map Slot.g) :=
  .cons trivial (.cons (mat8_is _) .nil)

/-- The output share that the setup draws from the tape is the one with the private part on it. -/
example (o : Bool) (m : BitMatrix) (hm : IsMat 2 4 m) (t : List PShare) :
    setupOutput tape .and2 [.scalar true true, .scalar true false] (.scalar o :: t) =
      some (hidden (.scalar o), t) ∧
    setupOutput tape (.matMult 2 4) [.matrix (mat8 true) (mat8 true), .matrix (mat16 true) (mat16 false)]
      (.matrix m :: t) = some (hidden (.matrix m), t) := by
  refine ⟨rfl, ?_⟩
  rw [setupOutput]
  simp only [mat8, mat16, and_self, if_true, tape_random hm, Option.bind_eq_bind, Option.bind_some,
    hidden]

example : (∀ x ∈ [PShare.scalar true, .matrix (mat8 true)], Sharable x) ∧
    [PShare.scalar false, .matrix (mat8 false)] ∈ Shapes [.scalar true, .matrix (mat8 true)] := by
  refine ⟨?_, .cons trivial (.cons (mat8_is _) .nil)⟩
  intro x hx
  simp only [List.mem_cons, List.not_mem_nil, or_false] at hx
  rcases hx with rfl | rfl
  · trivial
  · exact mat8_is true

end Verif.Tensor
