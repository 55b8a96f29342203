import Verif.Silent.Fft

/-!
The quasi cyclic encoder from the rows of the expanded matrix to the encoded blocks (C33, C54, C94):
quasi_cyclic_encode.rs:38-109, and the silent OT with this encoder instead of an abstract code.
-/
set_option autoImplicit false

namespace Verif.Silent.Fft

variable {P : Type}

/-- The rows one job of rayon gets (quasi_cyclic_encode.rs:43-54 `for_each_init`): the job clones the reducer once and uses
it for its rows one after the other, each into a row of zeros. -/
def runJob (K : Kernel P) (checked : Bool) (cf : QcConf) (aPolys : List (FftPoly P)) :
    FftPoly P × List Word → List (List Block) → Option (List (List Block))
  | _, [] => some []
  | st, row :: rows =>
    (reduce K checked cf.scaler cf.nBlocks cf.p aPolys st (List.replicate cf.nBlocks 0) row).bind fun (st, d) =>
      (runJob K checked cf aPolys st rows).map (d :: ·)

/-- All jobs: rayon splits the rows into consecutive parts of the given sizes, in a way that depends on the load.  Every
job begins with a clone of the new reducer (42, 48). -/
def runJobs (K : Kernel P) (checked : Bool) (cf : QcConf) (aPolys : List (FftPoly P)) :
    List Nat → List (List Block) → Option (List (List Block))
  | [], _ => some []
  | n :: ns, rows =>
    (runJob K checked cf aPolys ({}, []) (rows.take n)).bind fun ds =>
      (runJobs K checked cf aPolys ns (rows.drop n)).map (ds ++ ·)

/-- `BitMatrixView::from_slice(chunk, 128, 128).fast_transpose()` (101-105), see C43: bit `r` of block `j` is bit `j` of
block `r`. -/
def transpose128 (chunk : List Block) : List Block :=
  (List.range 128).map fun j => BitVec.ofFnLE fun r : Fin 128 => (chunk.getD r 0).getLsbD j

/-- quasi_cyclic_encode.rs:92-109 `copy_out` into `len` blocks.  `none`: the length is no multiple of 128, or there is no
such column. -/
def copyOut (len : Nat) (rows : List (List Block)) : Option (List Block) :=
  if len % 128 = 0 then
    ((List.range (len / 128)).mapM fun i => (rows.mapM fun (row : List Block) => row[i]?).map transpose128).map List.flatten
  else none

/-- quasi_cyclic_encode.rs:38-60 `dual_encode` with the rows split into the parts `jobs`.  `B[..num_blocks]` panics if
there are fewer than `num_blocks` blocks. -/
def dualEncode (K : Kernel P) (checked : Bool) (cf : QcConf) (aPolys : List (FftPoly P)) (jobs : List Nat)
    (rT : List (List Block)) : Option (List Block) :=
  (runJobs K checked cf aPolys jobs rT).bind fun rows =>
  let numBlocks := nextMultipleOf cf.requested 128
  if numBlocks ≤ cf.n2 then (copyOut numBlocks rows).map (List.take cf.requested) else none

/-- quasi_cyclic_encode.rs:62-76 `dual_encode_choice`: a byte for each of the requested OTs, the rest of which stays zero
if there are fewer bits. -/
def dualEncodeChoice (K : Kernel P) (checked : Bool) (cf : QcConf) (aPolys : List (FftPoly P)) (sb : List Block) :
    Option (List Nat) :=
  (reduce K checked cf.scaler cf.nBlocks cf.p aPolys ({}, []) (List.replicate cf.nBlocks 0) sb).map fun (_, c128) =>
    (List.range cf.requested).map fun i => (bitOf c128 i).toNat

/-- The 128 rows of the transposed matrix of a vector of blocks, as the expansion delivers them (pprf.rs, format
`PlainTranspose`, see `Expand`). -/
def rowsOf (n2Blocks : Nat) (v : Nat → Block) : List (List Block) :=
  (List.range 128).map fun r => Silent.ofBits n2Blocks fun x => (v x).getLsbD r

/-- mod.rs:639-653 `calc_sb_blocks`.  `none`: a position out of range, or a number of bytes that is no multiple of 16. -/
def sbBlocks (n2 : Nat) (S : List Nat) : Option (List Block) :=
  if n2 % 16 = 0 ∧ n2 / 8 % 16 = 0 ∧ S.all (fun x => decide (x < n2)) then
    some (Silent.ofBits (n2 / 128) (S.foldl (fun (s : Nat → Bool) x => Function.update s x true) fun _ => false))
  else none

/-- mod.rs:664-668, 684: packed choice bits, the first row is overwritten and the matrix is encoded. -/
def recvPackedQc (K : Kernel P) (checked : Bool) (cf : QcConf) (aPolys : List (FftPoly P)) (jobs : List Nat) (S : List Nat)
    (rT : List (List Block)) : Option (List Block) :=
  (sbBlocks cf.n2 S).bind fun sb =>
    if sb.length = cf.n2Blocks then dualEncode K checked cf aPolys jobs (rT.set 0 sb) else none

/-- mod.rs:718-724: separate choice bits. -/
def recvUnpackedQc (K : Kernel P) (checked : Bool) (cf : QcConf) (aPolys : List (FftPoly P)) (jobs : List Nat) (S : List Nat)
    (rT : List (List Block)) : Option (List Block × List Nat) :=
  (dualEncode K checked cf aPolys jobs rT).bind fun a =>
  (sbBlocks cf.n2 S).bind fun sb =>
  (dualEncodeChoice K checked cf aPolys sb).map fun c => (a, c)

/-! ### Proof -/

theorem runJob_spec {K : Kernel P} {T : Nat → (Nat → Bool) → List P} (hK : Correct K T) (checked : Bool) (cf : QcConf)
    (hs : 2 ≤ cf.scaler) (h0 : 0 < cf.nBlocks) (hn : 2 * cf.nBlocks ≤ 2 ^ 30)
    (rng : Nat → Nat → List Word) (hrng : ∀ s m, (rng s m).length = m) (aPolys : List (FftPoly P))
    (ha : initPolys K rng cf.scaler cf.nBlocks = some aPolys) (rows : List (List Block))
    (hrows : ∀ row ∈ rows, cf.scaler * cf.nBlocks ≤ row.length) (st : FftPoly P × List Word) (hst : Wf st.1) :
    runJob K checked cf aPolys st rows = rows.mapM (qcReduce checked cf.nBlocks cf.p
      (qcMul ((List.range (cf.scaler - 1)).map fun s => rng (s + 1) (2 * cf.nBlocks)) (2 * cf.nBlocks))) := by
  induction rows generalizing st with
  | nil => rfl
  | cons row rows ih =>
    obtain ⟨aP, b, cache', h1, h2, h3⟩ := reduce_correct hK checked cf.scaler cf.nBlocks cf.p hs h0 hn rng hrng row
      (hrows row List.mem_cons_self) st.1 hst st.2
    rw [ha] at h1
    cases h1
    rw [runJob, h3, List.mapM_cons]
    cases hq : qcReduce checked cf.nBlocks cf.p
      (qcMul ((List.range (cf.scaler - 1)).map fun s => rng (s + 1) (2 * cf.nBlocks)) (2 * cf.nBlocks)) row with
    | none => rfl
    | some d =>
      simp only [Option.map_some, Option.bind_some]
      rw [ih (fun r hr => hrows r (List.mem_cons_of_mem _ hr)) (b, cache') h2]
      cases List.mapM (qcReduce checked cf.nBlocks cf.p _) rows <;> rfl

theorem runJobs_spec {K : Kernel P} {T : Nat → (Nat → Bool) → List P} (hK : Correct K T) (checked : Bool) (cf : QcConf)
    (hs : 2 ≤ cf.scaler) (h0 : 0 < cf.nBlocks) (hn : 2 * cf.nBlocks ≤ 2 ^ 30)
    (rng : Nat → Nat → List Word) (hrng : ∀ s m, (rng s m).length = m) (aPolys : List (FftPoly P))
    (ha : initPolys K rng cf.scaler cf.nBlocks = some aPolys) (jobs : List Nat) (rows : List (List Block))
    (hj : jobs.sum = rows.length) (hrows : ∀ row ∈ rows, cf.scaler * cf.nBlocks ≤ row.length) :
    runJobs K checked cf aPolys jobs rows = rows.mapM (qcReduce checked cf.nBlocks cf.p
      (qcMul ((List.range (cf.scaler - 1)).map fun s => rng (s + 1) (2 * cf.nBlocks)) (2 * cf.nBlocks))) := by
  induction jobs generalizing rows with
  | nil =>
    have : rows = [] := by cases rows <;> simp_all
    subst this; rfl
  | cons n ns ih =>
    simp only [List.sum_cons] at hj
    rw [runJobs, runJob_spec hK checked cf hs h0 hn rng hrng aPolys ha (rows.take n)
      (fun r hr => hrows r (List.mem_of_mem_take hr)) ({}, []) wf_new,
      ih (rows.drop n) (by simp; omega) (fun r hr => hrows r (List.mem_of_mem_drop hr))]
    conv_rhs => rw [← List.take_append_drop n rows, List.mapM_append]
    cases List.mapM (qcReduce checked cf.nBlocks cf.p _) (rows.take n) with
    | none => rfl
    | some a => cases List.mapM (qcReduce checked cf.nBlocks cf.p _) (rows.drop n) <;> rfl

theorem mapM_getElem {α β : Type} (f : α → Option β) (g : α → β) (l : List α) (h : ∀ a ∈ l, f a = some (g a)) :
    l.mapM f = some (l.map g) := by
  induction l with
  | nil => rfl
  | cons a l ih =>
    rw [List.mapM_cons, h a List.mem_cons_self, ih fun a ha => h a (List.mem_cons_of_mem _ ha)]
    rfl

theorem flatten_blocks (w : Nat) (hw : 0 < w) (n : Nat) (f : Nat → Nat → Block) :
    ((List.range n).map fun i => (List.range w).map fun j => f i j).flatten =
      (List.range (w * n)).map fun k => f (k / w) (k % w) := by
  induction n with
  | zero => rfl
  | succ n ih =>
    rw [List.range_succ, List.map_append, List.flatten_append, ih, Nat.mul_succ, List.range_add, List.map_append]
    congr 1
    simp only [List.map_cons, List.map_nil, List.flatten_cons, List.flatten_nil, List.append_nil, List.map_map]
    apply List.map_congr_left
    intro j hj
    have := List.mem_range.1 hj
    simp only [Function.comp_apply]
    rw [Nat.mul_add_div hw, Nat.mul_add_mod, Nat.div_eq_of_lt this, Nat.mod_eq_of_lt this, Nat.add_zero]

/-- The transposition of the columns. -/
theorem copyOut_spec (n nBlocks : Nat) (hn : n ≤ nBlocks) (d : Nat → List Block) (hd : ∀ r, (d r).length = nBlocks) :
    copyOut (128 * n) ((List.range 128).map d) =
      some ((List.range (128 * n)).map fun k => BitVec.ofFnLE fun r : Fin 128 => bitOf (d r) k) := by
  unfold copyOut
  rw [if_pos (by omega), show 128 * n / 128 = n by omega]
  rw [mapM_getElem _ (fun i => transpose128 ((List.range 128).map fun r => (d r).getD i 0)) _ (by
    intro i hi
    have hi := List.mem_range.1 hi
    rw [mapM_getElem _ (fun row : List Block => row.getD i 0) _ (by
      intro row hrow
      obtain ⟨r, -, rfl⟩ := List.mem_map.1 hrow
      have : i < (d r).length := by rw [hd]; omega
      rw [List.getElem?_eq_getElem this, List.getD_eq_getElem _ _ this])]
    simp only [Option.map_some, List.map_map, Function.comp_def])]
  rw [Option.map_some]
  unfold transpose128
  rw [flatten_blocks 128 (by decide) n fun i j => BitVec.ofFnLE fun r : Fin 128 =>
    (((List.range 128).map fun r => (d r).getD i 0).getD r 0).getLsbD j]
  refine congrArg some (List.map_congr_left fun k _ => congrArg BitVec.ofFnLE (funext fun r => ?_))
  rw [List.getD_eq_getElem?_getD, List.getElem?_map, List.getElem?_range r.isLt, Option.map_some, Option.getD_some]
  rfl

/-- The conditions on a configuration. -/
structure QcOk (cf : QcConf) : Prop where
  sizes : QcSizes cf.nBlocks cf.p
  scaler : 2 ≤ cf.scaler
  pos : 0 < cf.nBlocks
  words : 2 * cf.nBlocks ≤ 2 ^ 30
  parts : cf.scaler * cf.nBlocks ≤ cf.n2Blocks
  requested : cf.requested ≤ cf.p
  fits : nextMultipleOf cf.requested 128 ≤ cf.n2

/-- The code the encoder computes: `b_0 + Σ a_s b_s` modulo `x^p - 1` with the polynomials drawn from `rng`. -/
def theCode (checked : Bool) (cf : QcConf) (ok : QcOk cf) (rng : Nat → Nat → List Word) : Code :=
  qcCode checked cf.nBlocks cf.n2Blocks cf.p ok.sizes
    (qcMul ((List.range (cf.scaler - 1)).map fun s => rng (s + 1) (2 * cf.nBlocks)) (2 * cf.nBlocks)) (qcMul_add _ _)

/-- **The encoder is the code.**  For every vector of blocks `v` handed over as the rows of its transposed matrix, every
way rayon splits the rows into jobs and every correct C library, `dual_encode` delivers the requested number of entries of
the encoded vector: the code applied to each of the 128 bit slices. -/
theorem dual_encode_correct {K : Kernel P} {T : Nat → (Nat → Bool) → List P} (hK : Correct K T) (checked : Bool)
    (cf : QcConf) (ok : QcOk cf) (rng : Nat → Nat → List Word) (hrng : ∀ s m, (rng s m).length = m)
    (aPolys : List (FftPoly P)) (ha : initPolys K rng cf.scaler cf.nBlocks = some aPolys) (jobs : List Nat)
    (hj : jobs.sum = 128) (v : Nat → Block) :
    dualEncode K checked cf aPolys jobs (rowsOf cf.n2Blocks v) =
      some (sendCompress (theCode checked cf ok rng) cf.requested v) := by
  unfold dualEncode
  rw [runJobs_spec hK checked cf ok.scaler ok.pos ok.words rng hrng aPolys ha jobs (rowsOf cf.n2Blocks v)
    (by simp [rowsOf, hj]) (by
      intro row hrow
      obtain ⟨r, -, rfl⟩ := List.mem_map.1 hrow
      have := ok.parts
      simpa [Silent.ofBits] using this)]
  set mul := qcMul ((List.range (cf.scaler - 1)).map fun s => rng (s + 1) (2 * cf.nBlocks)) (2 * cf.nBlocks) with hmul
  set d : Nat → List Block := fun r =>
    (qcReduce checked cf.nBlocks cf.p mul (Silent.ofBits cf.n2Blocks fun x => (v x).getLsbD r)).getD [] with hd
  have hspec : ∀ r, qcReduce checked cf.nBlocks cf.p mul (Silent.ofBits cf.n2Blocks fun x => (v x).getLsbD r) = some (d r) ∧
      (d r).length = cf.nBlocks := by
    intro r
    obtain ⟨e, h1, h2, -⟩ := qcReduce_spec checked cf.nBlocks cf.p ok.sizes mul (Silent.ofBits cf.n2Blocks fun x => (v x).getLsbD r)
    simp only [hd, h1, Option.getD_some]
    exact ⟨True.intro, h2⟩
  have hrows : (rowsOf cf.n2Blocks v).mapM (qcReduce checked cf.nBlocks cf.p mul) = some ((List.range 128).map d) := by
    unfold rowsOf
    rw [List.mapM_map]
    exact mapM_getElem _ d _ (fun r _ => (hspec r).1)
  rw [hrows, Option.bind_some]
  dsimp only
  rw [if_pos ok.fits]
  have hreq : nextMultipleOf cf.requested 128 = 128 * ((cf.requested + 127) / 128) := by
    unfold nextMultipleOf; omega
  have hle : (cf.requested + 127) / 128 ≤ cf.nBlocks := by
    have := ok.sizes.fits; have := ok.requested; omega
  rw [hreq, copyOut_spec _ cf.nBlocks hle d (fun r => (hspec r).2), Option.map_some, ← List.map_take, List.take_range,
    Nat.min_eq_left (by omega)]
  rfl

/-- The same for the choice bits. -/
theorem dual_encode_choice_correct {K : Kernel P} {T : Nat → (Nat → Bool) → List P} (hK : Correct K T) (checked : Bool)
    (cf : QcConf) (ok : QcOk cf) (rng : Nat → Nat → List Word) (hrng : ∀ s m, (rng s m).length = m)
    (aPolys : List (FftPoly P)) (ha : initPolys K rng cf.scaler cf.nBlocks = some aPolys) (s : Nat → Bool) :
    dualEncodeChoice K checked cf aPolys (Silent.ofBits cf.n2Blocks s) =
      some ((List.range cf.requested).map fun i => ((theCode checked cf ok rng).E s i).toNat) := by
  obtain ⟨aP, b, cache', h1, h2, h3⟩ := reduce_correct hK checked cf.scaler cf.nBlocks cf.p ok.scaler ok.pos ok.words rng hrng
    (Silent.ofBits cf.n2Blocks s) (by simpa [Silent.ofBits] using ok.parts) {} wf_new []
  rw [ha] at h1
  cases h1
  obtain ⟨e, k1, k2, -⟩ := qcReduce_spec checked cf.nBlocks cf.p ok.sizes
    (qcMul ((List.range (cf.scaler - 1)).map fun s => rng (s + 1) (2 * cf.nBlocks)) (2 * cf.nBlocks)) (Silent.ofBits cf.n2Blocks s)
  unfold dualEncodeChoice
  rw [h3, k1]
  simp only [Option.map_some]
  congr 1
  apply List.map_congr_left
  intro i _
  simp only [theCode, qcCode, k1, Option.getD_some]

theorem rowsOf_congr (n2Blocks : Nat) (u v : Nat → Block) (h : ∀ x < 128 * n2Blocks, u x = v x) :
    rowsOf n2Blocks u = rowsOf n2Blocks v := by
  unfold rowsOf Silent.ofBits
  refine List.map_congr_left fun r _ => List.map_congr_left fun i hi => congrArg BitVec.ofFnLE (funext fun k => ?_)
  have := List.mem_range.1 hi
  beta_reduce
  rw [h _ (by omega)]

theorem map_range_set {α : Type} (w : Nat) (f g : Nat → α) (y : α) (h0 : y = g 0) (h : ∀ r, r < w → r ≠ 0 → f r = g r) :
    ((List.range w).map f).set 0 y = (List.range w).map g := by
  apply List.ext_getElem
  · simp
  · intro r h1 h2
    have hr : r < w := by simpa using h2
    rw [List.getElem_set, List.getElem_map, List.getElem_map, List.getElem_range]
    by_cases hr0 : r = 0
    · subst hr0; simp [h0]
    · rw [if_neg (by omega), h r hr hr0]

theorem rowsOf_set (n2Blocks : Nat) (v : Nat → Block) (s : Nat → Bool) :
    (rowsOf n2Blocks v).set 0 (Silent.ofBits n2Blocks s) =
      rowsOf n2Blocks fun x => BitVec.ofFnLE fun r : Fin 128 => if r.val = 0 then s x else (v x).getLsbD r := by
  unfold rowsOf
  apply map_range_set
  · refine congrArg _ (funext fun x => ?_)
    rw [BitVec.getLsbD_ofFnLE]
    simp
  · intro r hr h0
    refine congrArg _ (funext fun x => ?_)
    rw [BitVec.getLsbD_ofFnLE]
    simp only [hr, dite_true, h0, if_false]

/-- `recv_compress` with packed choice bits. -/
theorem recv_packed_correct {K : Kernel P} {T : Nat → (Nat → Bool) → List P} (hK : Correct K T) (checked : Bool)
    (cf : QcConf) (ok : QcOk cf) (h128 : cf.n2 % 128 = 0) (rng : Nat → Nat → List Word) (hrng : ∀ s m, (rng s m).length = m)
    (aPolys : List (FftPoly P)) (ha : initPolys K rng cf.scaler cf.nBlocks = some aPolys) (jobs : List Nat)
    (hj : jobs.sum = 128) (S : List Nat) (v : Nat → Block) :
    recvPackedQc K checked cf aPolys jobs S (rowsOf cf.n2Blocks v) =
      recvPacked (theCode checked cf ok rng) (.row0 cf.n2Blocks) cf.requested cf.n2 S v := by
  unfold recvPackedQc sbBlocks recvPacked pack
  by_cases h : S.all (fun x => decide (x < cf.n2)) = true
  · rw [if_pos ⟨by omega, by omega, h⟩, if_pos h, Option.bind_some]
    dsimp only
    rw [if_pos (by simp [Silent.ofBits, QcConf.n2Blocks])]
    rw [show cf.n2 / 128 = cf.n2Blocks from rfl, rowsOf_set, Option.map_some,
      ← dual_encode_correct hK checked cf ok rng hrng aPolys ha jobs hj]
    refine congrArg _ (rowsOf_congr _ _ _ fun x hx => ?_)
    rw [if_pos hx]
  · rw [if_neg (fun hh => h hh.2.2), if_neg h]
    rfl

/-- `recv_compress` with separate choice bits. -/
theorem recv_unpacked_correct {K : Kernel P} {T : Nat → (Nat → Bool) → List P} (hK : Correct K T) (checked : Bool)
    (cf : QcConf) (ok : QcOk cf) (h128 : cf.n2 % 128 = 0) (rng : Nat → Nat → List Word) (hrng : ∀ s m, (rng s m).length = m)
    (aPolys : List (FftPoly P)) (ha : initPolys K rng cf.scaler cf.nBlocks = some aPolys) (jobs : List Nat)
    (hj : jobs.sum = 128) (S : List Nat) (v : Nat → Block) :
    recvUnpackedQc K checked cf aPolys jobs S (rowsOf cf.n2Blocks v) =
      (recvUnpacked (theCode checked cf ok rng) cf.requested cf.n2 S v).map fun x => (x.1, x.2.map Bool.toNat) := by
  unfold recvUnpackedQc sbBlocks recvUnpacked
  rw [dual_encode_correct hK checked cf ok rng hrng aPolys ha jobs hj, Option.bind_some]
  by_cases h : S.all (fun x => decide (x < cf.n2)) = true
  · rw [if_pos ⟨by omega, by omega, h⟩, if_pos h, Option.bind_some]
    rw [show cf.n2 / 128 = cf.n2Blocks from rfl, dual_encode_choice_correct hK checked cf ok rng hrng aPolys ha]
    simp only [Option.map_some, List.map_map, Function.comp_def]
  · rw [if_neg (fun hh => h hh.2.2), if_neg h]
    rfl

/-- The configurations satisfy the conditions when the blocks of the dense vector hold the prime (C54). -/
theorem configure_ok (numOts scaler : Nat) (hs : 2 ≤ scaler) (hfit : (configure numOts scaler).n2 < 2 ^ 36)
    (hblocks : ((configure numOts scaler).p + 127) / 128 ≤ (configure numOts scaler).nBlocks) :
    QcOk (configure numOts scaler) := by
  obtain ⟨h1, h2, h3, h4, h5, h6, h7, h8, h9⟩ := configure_facts numOts scaler hs
  have hsc : (configure numOts scaler).scaler = scaler := rfl
  have hreq : (configure numOts scaler).requested = numOts := rfl
  have hsz := (qc_sizes_iff numOts scaler hs).2 hblocks
  set q := configure numOts scaler
  have hmul : q.p * 2 ≤ q.p * scaler := Nat.mul_le_mul_left _ hs
  have hnb : q.nBlocks = q.n2 / scaler / 128 := by unfold QcConf.nBlocks; rw [h9]
  have hle : q.n2 / scaler ≤ q.n2 / 2 := Nat.div_le_div_left hs (by decide)
  refine ⟨hsz, by rw [hsc]; exact hs, by omega, by omega, ?_, by rw [hreq]; omega, ?_⟩
  · rw [hsc, hnb, QcConf.n2Blocks, Nat.div_div_eq_div_mul, Nat.mul_comm scaler 128, ← Nat.div_div_eq_div_mul]
    exact Nat.mul_div_le _ _
  · rw [hreq]; unfold nextMultipleOf; omega

/-- **Silent OT with the quasi cyclic encoder itself.**  As `qc_silent_ot_partial`, but with `dual_encode`,
`dual_encode_choice` and `calc_sb_blocks` as they are, on the rows of the expanded matrices: for every correct C library,
all polynomials drawn from the public generator, every way rayon splits the rows at either party, all seeds, base OTs,
accepted choices and schedules, both parties end up with the requested number of random OTs (choices packed into the
blocks), and with the requested number of correlated OTs when the choices are kept apart. -/
theorem qc_encoder_silent_ot_partial {K : Kernel P} {T : Nat → (Nat → Bool) → List P} (hK : Correct K T)
    (numOts scaler : Nat) (hs : 2 ≤ scaler) (hfit : (configure numOts scaler).n2 < 2 ^ 36)
    (hblocks : ((configure numOts scaler).p + 127) / 128 ≤ (configure numOts scaler).nBlocks)
    (checked : Bool) (rng : Nat → Nat → List Word) (hrng : ∀ s m, (rng s m).length = m)
    (jobsS jobsR : List Nat) (hjS : jobsS.sum = 128) (hjR : jobsR.sum = 128)
    (F : Prf) (delta : Block) (seed : Nat → Block) (ots : Nat → Nat → Block × Block) (choices : Nat → List Bool) :
    ∃ c aPolys, (configure numOts scaler).pprf = some c ∧
      initPolys K rng scaler (configure numOts scaler).nBlocks = some aPolys ∧
      ((∀ t < c.pnt, (choices t).length = c.depth) →
      (∀ x ∈ getPoints .transposed c choices, x < (configure numOts scaler).n2) →
      ∀ order : List Nat, order.Perm ((List.range (c.pnt / 8)).map (8 * ·)) →
      ∃ msgs outS, sendExpand F .transposed c seed delta ots order = some (msgs, outS) ∧
      ∀ taken, taken.Perm msgs → ∃ outR B A U w,
        recvExpand F .transposed c choices
          (fun t d => if (choices t).getD d false then (ots t d).2 else (ots t d).1) taken = some outR ∧
        dualEncode K checked (configure numOts scaler) aPolys jobsS (rowsOf (configure numOts scaler).n2Blocks outS) = some B ∧
        recvPackedQc K checked (configure numOts scaler) aPolys jobsR (getPoints .transposed c choices)
          (rowsOf (configure numOts scaler).n2Blocks outR) = some A ∧
        recvUnpackedQc K checked (configure numOts scaler) aPolys jobsR (getPoints .transposed c choices)
          (rowsOf (configure numOts scaler).n2Blocks outR) = some (U, w) ∧
        (sendHash F.hash delta B).length = numOts ∧ (recvHash F.hash A).1.length = numOts ∧
        (recvHash F.hash A).2.length = numOts ∧ U.length = numOts ∧ w.length = numOts ∧
        (∀ i < numOts, ∃ m0 m1 m b, (sendHash F.hash delta B)[i]? = some (m0, m1) ∧
          (recvHash F.hash A).1[i]? = some m ∧ (recvHash F.hash A).2[i]? = some b ∧ m = if b then m1 else m0) ∧
        ∀ i < numOts, ∃ x y b, U[i]? = some x ∧ B[i]? = some y ∧ w[i]? = some b ∧ b < 2 ∧
          x = if b = 1 then y ^^^ delta else y) := by
  have ok := configure_ok numOts scaler hs hfit hblocks
  obtain ⟨c, h1, okc, hout, -, -⟩ := qc_pprf_ok numOts scaler hs (by omega)
  obtain ⟨-, -, -, h4, -⟩ := configure_facts numOts scaler hs
  obtain ⟨aPolys, -, -, hap, -⟩ := reduce_correct hK checked scaler (configure numOts scaler).nBlocks
    (configure numOts scaler).p hs ok.pos ok.words rng hrng
    (List.replicate (scaler * (configure numOts scaler).nBlocks) 0) (by simp) {} wf_new []
  refine ⟨c, aPolys, h1, hap, fun hlen hin order horder => ?_⟩
  rw [← hout] at hin
  obtain ⟨msgs, outS, h2, -, -, h3⟩ :=
    pprf_expand F .transposed c okc seed delta ots choices hlen hin order horder
  refine ⟨msgs, outS, h2, fun taken ht => ?_⟩
  obtain ⟨outR, k1, k2⟩ := h3 taken ht
  rw [hout] at hin
  have hreq : (configure numOts scaler).requested = numOts := rfl
  have hrow : ∀ n, (Packing.row0 (configure numOts scaler).n2Blocks) = .row0 n →
      (theCode checked (configure numOts scaler) ok rng).size ≤ 128 * n := by
    intro n hn; cases hn; exact Nat.le_refl _
  obtain ⟨A, a1, a2, a3, a4, a5⟩ := compress_random_ot (theCode checked (configure numOts scaler) ok rng)
    F.hash delta (getPoints .transposed c choices) outR outS (fun x _ => k2 x)
    (configure numOts scaler).n2 hin (.row0 (configure numOts scaler).n2Blocks) hrow numOts
  obtain ⟨U, w, u1, u2, u3, u4⟩ := compress_correlated (theCode checked (configure numOts scaler) ok rng)
    delta (getPoints .transposed c choices) outR outS (fun x _ => k2 x)
    (configure numOts scaler).n2 hin numOts
  refine ⟨outR, sendCompress (theCode checked (configure numOts scaler) ok rng) numOts outS, A, U, w.map Bool.toNat, k1,
    dual_encode_correct hK checked _ ok rng hrng aPolys hap jobsS hjS outS, ?_, ?_, a2, a3, a4, ?_, ?_, ?_, ?_⟩
  · rw [recv_packed_correct hK checked _ ok h4 rng hrng aPolys hap jobsR hjR, hreq, a1]
  · rw [recv_unpacked_correct hK checked _ ok h4 rng hrng aPolys hap jobsR hjR, hreq, u1]; rfl
  · exact u2
  · rw [List.length_map]; exact u3
  · intro i hi
    obtain ⟨m0, m1, m, b, e1, e2, e3, e4, -⟩ := a5 i hi
    exact ⟨m0, m1, m, b, e1, e2, e3, e4⟩
  · intro i hi
    obtain ⟨x, y, b, e1, e2, e3, e4⟩ := u4.2 i hi
    refine ⟨x, y, b.toNat, e1, e2, by rw [List.getElem?_map, e3]; rfl, by cases b <;> decide, ?_⟩
    rw [e4]
    cases b <;> simp

/-- The conditions are met: 1000 OTs, the library `trivial`, polynomials that are all ones, rows split unevenly. -/
example : QcOk (configure 1000 2) ∧ (configure 1000 2).n2 < 2 ^ 36 ∧
    (∀ s m : Nat, ((fun (_ m : Nat) => List.replicate m (BitVec.allOnes 64)) s m).length = m) ∧ [0, 50, 77, 1].sum = 128 := by
  have hp : (configure 1000 2).p = 16411 := by
    rw [configure_p, max_eq_right (by omega), show 128 * 128 = 16384 by omega, nextPrime_16384]
  have hn : (configure 1000 2).nBlocks = 132 := by
    rw [configure_nBlocks 1000 2 16411 hp]
  have h2 : (configure 1000 2).n2 < 2 ^ 36 := by
    have h := configure_n2 1000 2
    rw [hp] at h
    omega
  exact ⟨configure_ok 1000 2 (by decide) h2 (by rw [hp, hn]; decide), h2, by simp, by decide⟩

end Verif.Silent.Fft
