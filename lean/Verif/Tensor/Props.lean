import Verif.Tensor.Model

/-!
Boolean ABY2 with matrices: correctness of a layer of AND and matrix multiplication gates, of the
sharing and of the setup circuit; constants and negation are wrong.
-/
set_option autoImplicit false

namespace Verif.Tensor

open Bitmat

/-- A matrix of the given dimensions that fills its bytes. -/
def IsMat (r c : Nat) (m : BitMatrix) : Prop :=
  m.rows = r ∧ m.cols = c ∧ m.Valid ∧ 8 ∣ r * c

/-- Specification: two shares with equal public parts that reconstruct to a value. -/
def Rec : TShare → TShare → PShare → Prop
  | .scalar p q, .scalar p' q', .scalar b => p' = p ∧ b = (p ^^ q ^^ q')
  | .matrix p q, .matrix p' q', .matrix m =>
    p' = p ∧ IsMat m.rows m.cols m ∧ IsMat m.rows m.cols p ∧ IsMat m.rows m.cols q ∧
    IsMat m.rows m.cols q' ∧
    ∀ i j, i < m.rows → j < m.cols → m.get i j = (p.get i j ^^ q.get i j ^^ q'.get i j)
  | _, _, _ => False

/-- Specification: the value of a gate. -/
def GateValue : Gate → PShare → PShare → PShare → Prop
  | .and2, .scalar x, .scalar y, .scalar z => z = (x && y)
  | .xor, .scalar x, .scalar y, .scalar z => z = (x ^^ y)
  | .xor, .matrix x, .matrix y, .matrix z =>
    z.rows = x.rows ∧ z.cols = x.cols ∧
    ∀ i j, i < x.rows → j < x.cols → z.get i j = (x.get i j ^^ y.get i j)
  | .matMult r c, .matrix x, .matrix y, .matrix z =>
    z.rows = r ∧ z.cols = c ∧
    ∀ i j, i < r → j < c → z.get i j = xorUpTo (fun t => x.get i t && y.get t j) x.cols
  | _, _, _, _ => False

theorem matXor_isMat {r c : Nat} {a b : BitMatrix} (ha : IsMat r c a) (hb : IsMat r c b) :
    ∃ m : BitMatrix, matXor a b = some m ∧ IsMat r c m ∧
      ∀ i j, i < r → j < c → m.get i j = (a.get i j ^^ b.get i j) := by
  obtain ⟨m, h1, h2, h3, h4, h5⟩ := matXor_get a b ha.2.2.1 hb.2.2.1
    (ha.1.trans hb.1.symm) (ha.2.1.trans hb.2.1.symm)
  refine ⟨m, h1, ⟨h3.trans ha.1, h4.trans ha.2.1, h2, ha.2.2.2⟩, fun i j hi hj => ?_⟩
  exact h5 i j (by rw [ha.1]; exact hi) (by rw [ha.2.1]; exact hj)

theorem matMul_isMat {r k c : Nat} {a b : BitMatrix} (ha : IsMat r k a) (hb : IsMat k c b)
    (hk : 0 < k) (h8 : 8 ∣ r * c) :
    ∃ m : BitMatrix, matMul 8 a b = some m ∧ IsMat r c m ∧
      ∀ i j, i < r → j < c → m.get i j = xorUpTo (fun t => a.get i t && b.get t j) k := by
  obtain ⟨m, h1, h2, h3⟩ := mat_mul_valid_iff 8 (by omega) a b ha.2.2.1 hb.2.2.1
    (ha.2.1.trans hb.1.symm) (by rw [ha.2.1]; exact hk)
  refine ⟨m, h1, ⟨h2.1.trans ha.1, h2.2.1.trans hb.2.1, h3.mpr (by rw [ha.1, hb.2.1]; exact h8), h8⟩,
    fun i j hi hj => ?_⟩
  rw [h2.2.2 i j (by rw [ha.1]; exact hi) (by rw [hb.2.1]; exact hj), ha.2.1]

/-- C40: what the specification calls the value is what `reconstruct_tensor` returns. -/
theorem reconstructOne_rec {a b : TShare} {p : PShare} (h : Rec a b p) :
    reconstructOne a b = some p := by
  cases a <;> cases b <;> cases p <;> simp only [Rec] at h
  · obtain ⟨rfl, rfl⟩ := h
    simp [reconstructOne, TShare.getPublic]
  · rename_i p q p' q' m
    obtain ⟨rfl, hm, hp, hq, hq', hv⟩ := h
    obtain ⟨s, h1, h2, h3⟩ := matXor_isMat hp hq
    obtain ⟨t, g1, g2, g3⟩ := matXor_isMat h2 hq'
    simp only [reconstructOne, TShare.getPublic, if_true]
    rw [h1]
    simp only [Option.bind_eq_bind, Option.bind_some, g1]
    congr 2
    refine ext_get g2.2.2.1 hm.2.2.1 (g2.1.trans hm.1.symm) (g2.2.1.trans hm.2.1.symm)
      fun i j hi hj => ?_
    rw [g2.1] at hi
    rw [g2.2.1] at hj
    rw [g3 i j hi hj, h3 i j hi hj, hv i j hi hj]

/-! ### One layer -/

/-- An interactive gate of a layer: gate, the input shares of both parties, the output shares after
the setup, the shares of the mask product, the values of the inputs. -/
structure Item where
  g : Gate
  a0 : TShare
  a1 : TShare
  b0 : TShare
  b1 : TShare
  o0 : TShare
  o1 : TShare
  e0 : PShare
  e1 : PShare
  x : PShare
  y : PShare

/-- The input shares reconstruct to the input values; the output shares hold masks and the setup
holds shares of the product of the input masks. -/
def Item.Ok (it : Item) : Prop :=
  Rec it.a0 it.a1 it.x ∧ Rec it.b0 it.b1 it.y ∧
  match it.g, it.a0, it.a1, it.b0, it.b1, it.o0, it.o1, it.e0, it.e1 with
  | .and2, .scalar _ a, .scalar _ a', .scalar _ b, .scalar _ b', .scalar _ _, .scalar _ _,
      .scalar e, .scalar e' => (e ^^ e') = ((a ^^ a') && (b ^^ b'))
  | .matMult r c, .matrix _ a, .matrix _ a', .matrix _ b, .matrix _ b', .matrix _ o, .matrix _ o',
      .matrix e, .matrix e' =>
    a.rows = r ∧ a.cols = b.rows ∧ b.cols = c ∧ 0 < a.cols ∧
    IsMat r c o ∧ IsMat r c o' ∧ IsMat r c e ∧ IsMat r c e' ∧
    ∀ i j, i < r → j < c → (e.get i j ^^ e'.get i j) =
      xorUpTo (fun t => (a.get i t ^^ a'.get i t) && (b.get t j ^^ b'.get t j)) a.cols
  | _, _, _, _, _, _, _, _, _ => False

theorem pop_append {α : Type} (l : List α) (x : α) : Aby2.pop (l ++ [x]) = some (x, l) := by
  simp [Aby2.pop]

theorem xorUpTo_xor (f g : Nat → Bool) (n : Nat) :
    (xorUpTo f n ^^ xorUpTo g n) = xorUpTo (fun t => f t ^^ g t) n := by
  induction n with
  | zero => rfl
  | succ n ih =>
    rw [xorUpTo, xorUpTo, xorUpTo, ← ih]
    cases xorUpTo f n <;> cases xorUpTo g n <;> cases f n <;> cases g n <;> rfl

/-- The output shares keep their private parts. -/
def samePriv (o o' : TShare) : Prop := o.getPrivate = o'.getPrivate

theorem item_correct (it : Item) (h : it.Ok) (d0 d1 : SetupData) :
    ∃ (m0 m1 : PShare) (r0 r1 : TShare) (z : PShare),
      computeDeltaShare 0 it.g [it.a0, it.b0] (d0 ++ [it.e0]) it.o0 = some (m0, d0) ∧
      computeDeltaShare 1 it.g [it.a1, it.b1] (d1 ++ [it.e1]) it.o1 = some (m1, d1) ∧
      (m0.xor m1).bind it.o0.setPublic = some r0 ∧ (m1.xor m0).bind it.o1.setPublic = some r1 ∧
      samePriv it.o0 r0 ∧ samePriv it.o1 r1 ∧
      Rec r0 r1 z ∧ GateValue it.g it.x it.y z := by
  obtain ⟨g, a0, a1, b0, b1, o0, o1, e0, e1, x, y⟩ := it
  obtain ⟨hx, hy, hg⟩ := h
  simp only at hx hy hg ⊢
  split at hg
  · -- AND
    rename_i ap' a ap a' bp' b bp b' op o op' o' e e'
    cases x <;> simp only [Rec] at hx
    cases y <;> simp only [Rec] at hy
    obtain ⟨rfl, rfl⟩ := hx
    obtain ⟨rfl, rfl⟩ := hy
    obtain ⟨c0, hc0⟩ : ∃ c, c = ((decide (0 = 1) && (ap && bp)) ^^ (ap && b) ^^ (bp && a) ^^ e ^^ o) :=
      ⟨_, rfl⟩
    obtain ⟨c1, hc1⟩ : ∃ c, c = ((decide (1 = 1) && (ap && bp)) ^^ (ap && b') ^^ (bp && a') ^^ e' ^^ o') :=
      ⟨_, rfl⟩
    refine ⟨.scalar c0, .scalar c1, .scalar (c0 ^^ c1) o, .scalar (c1 ^^ c0) o',
      .scalar ((ap ^^ a ^^ a') && (bp ^^ b ^^ b')), ?_, ?_, rfl, rfl, rfl, rfl, ?_, rfl⟩
    · simp only [computeDeltaShare, pop_append, hc0]
    · simp only [computeDeltaShare, pop_append, hc1]
    · refine ⟨?_, ?_⟩
      · exact Bool.xor_comm _ _
      · have he : e' = (e ^^ ((a ^^ a') && (b ^^ b'))) := by rw [← hg]; cases e <;> cases e' <;> rfl
        subst he hc0 hc1
        cases ap <;> cases bp <;> cases a <;> cases a' <;> cases b <;> cases b' <;> cases e <;>
          cases o <;> cases o' <;> rfl
  · -- matrix multiplication
    rename_i rows cols ap' a ap a' bp' b bp b' op o op' o' e e'
    cases x <;> simp only [Rec] at hx
    cases y <;> simp only [Rec] at hy
    rename_i x y
    obtain ⟨rfl, hxm, hap, ha, ha', hxv⟩ := hx
    obtain ⟨rfl, hym, hbp, hb, hb', hyv⟩ := hy
    obtain ⟨h1, h2, h3, h4, ho, ho', he, he', hE⟩ := hg
    have hr : x.rows = rows := by rw [← h1]; exact ha.1.symm
    have hk : x.cols = y.rows := by rw [← ha.2.1, h2]; exact hb.1
    have hc : y.cols = cols := by rw [← h3]; exact hb.2.1.symm
    have hac : a.cols = x.cols := ha.2.1
    subst hr hc
    rw [hac] at h4 hE
    have h8 := ho.2.2.2
    have hbk : ∀ {m : BitMatrix}, IsMat y.rows y.cols m → IsMat x.cols y.cols m := by
      intro m hm; rw [hk]; exact hm
    obtain ⟨p1, p1e, p1m, p1v⟩ := matMul_isMat hap (hbk hb) h4 h8
    obtain ⟨p2, p2e, p2m, p2v⟩ := matMul_isMat ha (hbk hbp) h4 h8
    obtain ⟨q1, q1e, q1m, q1v⟩ := matMul_isMat hap (hbk hb') h4 h8
    obtain ⟨q2, q2e, q2m, q2v⟩ := matMul_isMat ha' (hbk hbp) h4 h8
    obtain ⟨p3, p3e, p3m, p3v⟩ := matMul_isMat hap (hbk hbp) h4 h8
    obtain ⟨s1, s1e, s1m, s1v⟩ := matXor_isMat p1m p2m
    obtain ⟨s2, s2e, s2m, s2v⟩ := matXor_isMat s1m he
    obtain ⟨s3, s3e, s3m, s3v⟩ := matXor_isMat s2m ho
    obtain ⟨s4, s4e, s4m, s4v⟩ := matXor_isMat s3m p3m
    obtain ⟨t1, t1e, t1m, t1v⟩ := matXor_isMat q1m q2m
    obtain ⟨t2, t2e, t2m, t2v⟩ := matXor_isMat t1m he'
    obtain ⟨t3, t3e, t3m, t3v⟩ := matXor_isMat t2m ho'
    obtain ⟨u, ue, um, uv⟩ := matXor_isMat s4m t3m
    obtain ⟨w, we, wm, wv⟩ := matXor_isMat t3m s4m
    have huw : w = u := ext_get wm.2.2.1 um.2.2.1 (wm.1.trans um.1.symm)
      (wm.2.1.trans um.2.1.symm) fun i j hi hj => by
        rw [wm.1] at hi; rw [wm.2.1] at hj
        rw [wv i j hi hj, uv i j hi hj, Bool.xor_comm]
    obtain ⟨z1, z1e, z1m, z1v⟩ := matXor_isMat um ho
    obtain ⟨z, ze, zm, zv⟩ := matXor_isMat z1m ho'
    have hz : z.rows = x.rows ∧ z.cols = y.cols := ⟨zm.1, zm.2.1⟩
    refine ⟨.matrix s4, .matrix t3, .matrix u o, .matrix w o', .matrix z, ?_, ?_, ?_, ?_, rfl, rfl,
      ?_, ?_⟩
    · simp only [computeDeltaShare, pop_append, p1e, p2e, s1e, s2e, s3e, p3e, s4e,
        Option.bind_eq_bind, Option.bind_some, if_true]
      rw [if_pos ⟨s4m.1, s4m.2.1⟩]
    · simp only [computeDeltaShare, pop_append, q1e, q2e, t1e, t2e, t3e,
        Option.bind_eq_bind, Option.bind_some]
      rw [if_neg (by omega)]
      rw [if_pos ⟨t3m.1, t3m.2.1⟩]
    · simp [PShare.xor, ue, TShare.setPublic]
    · simp [PShare.xor, we, TShare.setPublic]
    · refine ⟨huw, ?_, ?_, ?_, ?_, ?_⟩ <;> rw [hz.1, hz.2]
      · exact zm
      · exact um
      · exact ho
      · exact ho'
      · intro i j hi hj
        rw [zv i j hi hj, z1v i j hi hj]
    · refine ⟨hz.1, hz.2, fun i j hi hj => ?_⟩
      rw [zv i j hi hj, z1v i j hi hj, uv i j hi hj, s4v i j hi hj, s3v i j hi hj, s2v i j hi hj,
        s1v i j hi hj, t3v i j hi hj, t2v i j hi hj, t1v i j hi hj, p1v i j hi hj, p2v i j hi hj,
        p3v i j hi hj, q1v i j hi hj, q2v i j hi hj]
      have hEij := hE i j hi hj
      have hsum : xorUpTo (fun t => x.get i t && y.get t j) x.cols =
          (xorUpTo (fun t => ap.get i t && b.get t j) x.cols ^^
           xorUpTo (fun t => a.get i t && bp.get t j) x.cols ^^
           xorUpTo (fun t => ap.get i t && bp.get t j) x.cols ^^
           xorUpTo (fun t => ap.get i t && b'.get t j) x.cols ^^
           xorUpTo (fun t => a'.get i t && bp.get t j) x.cols ^^
           (e.get i j ^^ e'.get i j)) := by
        rw [hEij, xorUpTo_xor, xorUpTo_xor, xorUpTo_xor, xorUpTo_xor, xorUpTo_xor]
        refine xorUpTo_congr fun t ht => ?_
        rw [hxv i t hi ht, hyv t j (by omega) hj]
        cases ap.get i t <;> cases a.get i t <;> cases a'.get i t <;> cases bp.get t j <;>
          cases b.get t j <;> cases b'.get t j <;> rfl
      rw [hsum]
      generalize xorUpTo (fun t => ap.get i t && b.get t j) x.cols = v1
      generalize xorUpTo (fun t => a.get i t && bp.get t j) x.cols = v2
      generalize xorUpTo (fun t => ap.get i t && bp.get t j) x.cols = v3
      generalize xorUpTo (fun t => ap.get i t && b'.get t j) x.cols = v4
      generalize xorUpTo (fun t => a'.get i t && bp.get t j) x.cols = v5
      generalize e.get i j = v6
      generalize e'.get i j = v7
      generalize o.get i j = v8
      generalize o'.get i j = v9
      revert v1 v2 v3 v4 v5 v6 v7 v8 v9
      decide +kernel
  · exact absurd hg id

theorem item_inputSize (it : Item) (h : it.Ok) : it.g.inputSize = 2 := by
  obtain ⟨g, a0, a1, b0, b1, o0, o1, e0, e1, x, y⟩ := it
  obtain ⟨_, _, hg⟩ := h
  simp only at hg ⊢
  split at hg
  · rfl
  · rfl
  · exact absurd hg id

/-- C40: a layer of AND and matrix multiplication gates of any dimensions.  Both parties compute
their messages, consuming their setup data from the end, and end with shares with equal public parts
that reconstruct to the values of the gates.  Missing from the full claim: dimensions that do not
fill bytes (refused by `BitMatrix::random`), an empty inner dimension (`mat_mul` panics), constants
and negation (wrong, see below). -/
theorem tensor_layer_correct_partial (items : List Item) (h : ∀ it ∈ items, it.Ok) (d0 d1 : SetupData) :
    ∃ (m0 m1 : List PShare) (r0 r1 : List TShare) (zs : List PShare),
      computeMsg 0 (items.map fun it => (it.g, it.o0)) (items.flatMap fun it => [it.a0, it.b0])
        (d0 ++ (items.map Item.e0).reverse) = some (m0, d0) ∧
      computeMsg 1 (items.map fun it => (it.g, it.o1)) (items.flatMap fun it => [it.a1, it.b1])
        (d1 ++ (items.map Item.e1).reverse) = some (m1, d1) ∧
      evaluateInteractive (items.map Item.o0) m0 m1 = some r0 ∧
      evaluateInteractive (items.map Item.o1) m1 m0 = some r1 ∧
      reconstruct r0 r1 = some zs ∧
      List.Forall₂ (fun it z => GateValue it.g it.x it.y z) items zs := by
  induction items with
  | nil => exact ⟨[], [], [], [], [], by simp [computeMsg], by simp [computeMsg], rfl, rfl, rfl, .nil⟩
  | cons it items ih =>
    obtain ⟨m0, m1, r0, r1, zs, h1, h2, h3, h4, h5, h6⟩ := ih fun x hx => h x (by simp [hx])
    have hok := h it (by simp)
    obtain ⟨n0, n1, s0, s1, z, g1, g2, g3, g4, _, _, g7, g8⟩ := item_correct it hok
      (d0 ++ (items.map Item.e0).reverse) (d1 ++ (items.map Item.e1).reverse)
    have hsz := item_inputSize it hok
    refine ⟨n0 :: m0, n1 :: m1, s0 :: r0, s1 :: r1, z :: zs, ?_, ?_, ?_, ?_, ?_, .cons g8 h6⟩
    · simp only [List.map_cons, List.reverse_cons, computeMsg, List.flatMap_cons, hsz]
      rw [← List.append_assoc]
      simp only [List.cons_append, List.nil_append, List.take_succ_cons, List.take_zero,
        List.drop_succ_cons, List.drop_zero, g1, h1, Option.bind_eq_bind, Option.bind_some]
    · simp only [List.map_cons, List.reverse_cons, computeMsg, List.flatMap_cons, hsz]
      rw [← List.append_assoc]
      simp only [List.cons_append, List.nil_append, List.take_succ_cons, List.take_zero,
        List.drop_succ_cons, List.drop_zero, g2, h2, Option.bind_eq_bind, Option.bind_some]
    · simp only [List.map_cons, evaluateInteractive, Option.bind_eq_bind]
      rw [← Option.bind_assoc, g3]
      simp [h3]
    · simp only [List.map_cons, evaluateInteractive, Option.bind_eq_bind]
      rw [← Option.bind_assoc, g4]
      simp [h4]
    · have h5' : (r0.zip r1).mapM (fun p => reconstructOne p.1 p.2) = some zs := h5
      rw [reconstruct, List.zip_cons_cons, List.mapM_cons, reconstructOne_rec g7, h5']
      rfl

/-- C40: XOR of shares, scalars and matrices. -/
theorem tensor_xor_correct (a0 a1 b0 b1 : TShare) (x y : PShare) (ha : Rec a0 a1 x)
    (hb : Rec b0 b1 y)
    (hd : match x, y with
      | .scalar _, .scalar _ => True
      | .matrix m, .matrix n => m.rows = n.rows ∧ m.cols = n.cols
      | _, _ => False) :
    ∃ (r0 r1 : TShare) (z : PShare), evalLocal 0 .xor [a0, b0] = some r0 ∧
      evalLocal 1 .xor [a1, b1] = some r1 ∧ Rec r0 r1 z ∧ GateValue .xor x y z := by
  cases x <;> cases y <;> simp only at hd
  · cases a0 <;> cases a1 <;> simp only [Rec] at ha
    cases b0 <;> cases b1 <;> simp only [Rec] at hb
    rename_i p' q p q' s' t s t'
    obtain ⟨rfl, rfl⟩ := ha
    obtain ⟨rfl, rfl⟩ := hb
    refine ⟨_, _, .scalar ((p ^^ q ^^ q') ^^ (s ^^ t ^^ t')), rfl, rfl, ⟨rfl, ?_⟩, rfl⟩
    cases p <;> cases q <;> cases q' <;> cases s <;> cases t <;> cases t' <;> rfl
  · cases a0 <;> cases a1 <;> simp only [Rec] at ha
    cases b0 <;> cases b1 <;> simp only [Rec] at hb
    rename_i x y p' q p q' s' t s t'
    obtain ⟨rfl, hxm, hp, hq, hq', hxv⟩ := ha
    obtain ⟨rfl, hym, hs, ht, ht', hyv⟩ := hb
    rw [← hd.1, ← hd.2] at hym hs ht ht' hyv
    obtain ⟨c1, c1e, c1m, c1v⟩ := matXor_isMat hp hs
    obtain ⟨c2, c2e, c2m, c2v⟩ := matXor_isMat hq ht
    obtain ⟨c3, c3e, c3m, c3v⟩ := matXor_isMat hq' ht'
    obtain ⟨z, ze, zm, zv⟩ := matXor_isMat hxm hym
    refine ⟨.matrix c1 c2, .matrix c1 c3, .matrix z, by simp [evalLocal, TShare.xor, c1e, c2e],
      by simp [evalLocal, TShare.xor, c1e, c3e], ?_, ⟨zm.1, zm.2.1, zv⟩⟩
    refine ⟨rfl, ?_, ?_, ?_, ?_, ?_⟩ <;> rw [zm.1, zm.2.1]
    · exact zm
    · exact c1m
    · exact c2m
    · exact c3m
    · intro i j hi hj
      rw [zv i j hi hj, c1v i j hi hj, c2v i j hi hj, c3v i j hi hj, hxv i j hi hj, hyv i j hi hj]
      cases p.get i j <;> cases q.get i j <;> cases q'.get i j <;> cases s.get i j <;>
        cases t.get i j <;> cases t'.get i j <;> rfl

/-! ### Sharing -/

/-- A value that can be shared: a scalar, or a matrix that fills its bytes. -/
def Sharable : PShare → Prop
  | .scalar _ => True
  | .vec _ => False
  | .matrix m => IsMat m.rows m.cols m

theorem random_some {σ : Type} (gen : Gen σ) (s : σ) {r c : Nat} (h : 8 ∣ r * c) :
    gen.random s r c = some (gen.mat s r c) ∧ IsMat r c (gen.mat s r c).1 := by
  refine ⟨by rw [Gen.random, if_pos (Nat.mod_eq_zero_of_dvd h)], ?_⟩
  have := gen.mat_dim s r c
  exact ⟨this.1, this.2.1, this.2.2, h⟩

/-- C40: `share_tensor` at one party and `plain_delta_to_share_tensor` at the other, with joint
generators in the same state, give shares of every input. -/
theorem share_tensor_correct {σ : Type} (gen : Gen σ) (xs : List PShare)
    (hxs : ∀ x ∈ xs, Sharable x) (p j : σ) :
    ∃ (s0 s1 : List TShare) (ms : List PShare), shareTensor gen xs p j = some (s0, ms) ∧
      plainDeltaToShare gen ms j = some s1 ∧ s0.length = xs.length ∧ s1.length = xs.length ∧
      (∀ (i : Nat) (a b : TShare) (x : PShare), s0[i]? = some a → s1[i]? = some b →
        xs[i]? = some x → Rec a b x) ∧
      reconstruct s0 s1 = some xs := by
  induction xs generalizing p j with
  | nil => exact ⟨[], [], [], rfl, rfl, rfl, rfl, by simp, rfl⟩
  | cons x xs ih =>
    have hx := hxs x (by simp)
    have ihx := ih fun y hy => hxs y (by simp [hy])
    cases x with
    | scalar b =>
      obtain ⟨s0, s1, ms, h1, h2, h3, h4, h5, h6⟩ := ihx (gen.bit p).2 (gen.bit j).2
      have hr : Rec (.scalar (b ^^ (gen.bit p).1 ^^ (gen.bit j).1) (gen.bit p).1)
          (.scalar (b ^^ (gen.bit p).1 ^^ (gen.bit j).1) (gen.bit j).1) (.scalar b) := by
        refine ⟨rfl, ?_⟩
        cases b <;> cases (gen.bit p).1 <;> cases (gen.bit j).1 <;> rfl
      refine ⟨_, _, _, by rw [shareTensor, h1]; rfl, by rw [plainDeltaToShare, h2]; rfl,
        by simp [h3], by simp [h4], ?_, ?_⟩
      · intro i a b' x ha hb hx
        cases i with
        | zero =>
          simp only [List.getElem?_cons_zero, Option.some.injEq] at ha hb hx
          subst ha hb hx; exact hr
        | succ i => exact h5 i a b' x (by simpa using ha) (by simpa using hb) (by simpa using hx)
      · have h6' : (s0.zip s1).mapM (fun p => reconstructOne p.1 p.2) = some xs := h6
        rw [reconstruct, List.zip_cons_cons, List.mapM_cons, reconstructOne_rec hr, h6']
        rfl
    | vec v => exact absurd hx id
    | matrix m =>
      have hx' : IsMat m.rows m.cols m := hx
      obtain ⟨e1, m1⟩ := random_some gen p hx'.2.2.2
      obtain ⟨e2, m2⟩ := random_some gen j hx'.2.2.2
      obtain ⟨d1, d1e, d1m, d1v⟩ := matXor_isMat hx' m1
      obtain ⟨d, de, dm, dv⟩ := matXor_isMat d1m m2
      obtain ⟨s0, s1, ms, h1, h2, h3, h4, h5, h6⟩ := ihx (gen.mat p m.rows m.cols).2
        (gen.mat j m.rows m.cols).2
      have hr : Rec (.matrix d (gen.mat p m.rows m.cols).1) (.matrix d (gen.mat j m.rows m.cols).1)
          (.matrix m) := by
        refine ⟨rfl, hx', dm, m1, m2, fun i k hi hk => ?_⟩
        rw [dv i k hi hk, d1v i k hi hk]
        cases m.get i k <;> cases (gen.mat p m.rows m.cols).1.get i k <;>
          cases (gen.mat j m.rows m.cols).1.get i k <;> rfl
      have hs : shareTensor gen (.matrix m :: xs) p j =
          some (.matrix d (gen.mat p m.rows m.cols).1 :: s0, .matrix d :: ms) := by
        rw [shareTensor, e1, e2]
        simp only [Option.bind_eq_bind, Option.bind_some, d1e, de, h1]
      have ht : plainDeltaToShare gen (.matrix d :: ms) j =
          some (.matrix d (gen.mat j m.rows m.cols).1 :: s1) := by
        rw [plainDeltaToShare, dm.1, dm.2.1, e2]
        simp only [Option.bind_eq_bind, Option.bind_some, h2]
      refine ⟨_, _, _, hs, ht, by simp [h3], by simp [h4], ?_, ?_⟩
      · intro i a b' x ha hb hx
        cases i with
        | zero =>
          simp only [List.getElem?_cons_zero, Option.some.injEq] at ha hb hx
          subst ha hb hx; exact hr
        | succ i => exact h5 i a b' x (by simpa using ha) (by simpa using hb) (by simpa using hx)
      · have h6' : (s0.zip s1).mapM (fun p => reconstructOne p.1 p.2) = some xs := h6
        rw [reconstruct, List.zip_cons_cons, List.mapM_cons, reconstructOne_rec hr, h6']
        rfl

/-! ### Constants and negation -/

/-- C40: matrix constants are shared correctly. -/
theorem tensor_constant_matrix (m : BitMatrix) (h : IsMat m.rows m.cols m) :
    ∃ s0 s1 : TShare, shareConstant 0 (.matrix m) = some s0 ∧ shareConstant 1 (.matrix m) = some s1 ∧
      Rec s0 s1 (.matrix m) := by
  have hz : Bitmat.zeros 8 m.rows m.cols =
      some ⟨m.rows, m.cols, List.replicate (m.rows * m.cols) false⟩ := by
    rw [Bitmat.zeros, if_pos (Nat.mod_eq_zero_of_dvd h.2.2.2)]
  have hm : IsMat m.rows m.cols ⟨m.rows, m.cols, List.replicate (m.rows * m.cols) false⟩ :=
    ⟨rfl, rfl, by simp [BitMatrix.Valid], h.2.2.2⟩
  refine ⟨.matrix m ⟨m.rows, m.cols, List.replicate (m.rows * m.cols) false⟩,
    .matrix m ⟨m.rows, m.cols, List.replicate (m.rows * m.cols) false⟩,
    by rw [shareConstant, hz]; rfl, by rw [shareConstant, hz]; rfl, rfl, h, h, hm, hm,
    fun i j hi hj => ?_⟩
  have : BitMatrix.get ⟨m.rows, m.cols, List.replicate (m.rows * m.cols) false⟩ i j = false := by
    simp [BitMatrix.get, List.getElem?_replicate]
    split <;> rfl
  rw [this]; simp

/-- C40: every scalar constant reconstructs to `false`: the constant is used as private share of
both parties. -/
theorem tensor_constant_scalar_wrong (b : Bool) :
    ∃ s0 s1 : TShare, shareConstant 0 (.scalar b) = some s0 ∧ shareConstant 1 (.scalar b) = some s1 ∧
      reconstruct [s0] [s1] = some [.scalar false] :=
  ⟨_, _, rfl, rfl, by cases b <;> rfl⟩

/-- C40: negation: only the first party inverts its public value; the shares can not be
reconstructed. -/
theorem tensor_inv_wrong (a0 a1 : TShare) (b : Bool) (h : Rec a0 a1 (.scalar b)) :
    ∃ r0 r1 : TShare, evalLocal 0 .inv [a0] = some r0 ∧ evalLocal 1 .inv [a1] = some r1 ∧
      reconstruct [r0] [r1] = none := by
  cases a0 <;> cases a1 <;> simp only [Rec] at h
  rename_i p q p' q'
  obtain ⟨rfl, rfl⟩ := h
  refine ⟨_, _, rfl, rfl, ?_⟩
  simp [reconstruct, reconstructOne, TShare.not, TShare.getPublic]

/-- C40: the setup of a circuit with a negation already fails (`todo!()`). -/
theorem tensor_inv_setup_panics {σ : Type} (gen : Gen σ) (inputs : List TShare) (s : σ) :
    setupOutput gen .inv inputs s = none := rfl

/-- C40: vectors can not be reconstructed. -/
theorem tensor_vec_reconstruct_panics (v q q' : List Bool) :
    reconstruct [.vec v q] [.vec v q'] = none := by
  simp [reconstruct, reconstructOne]

end Verif.Tensor
