import Verif.Lemmas.MergeFacts
import Verif.Props.OverlapMap
import Verif.Props.Tiling
import Verif.Props.BulkOffset
import Verif.Lemmas.Dual

/-!
# From the results of the unwrap and overlap stages to the merge
-/

namespace Spurt

/-! ### Specification -/

section
variable {K : Type} [Field K]

/-- The tile files `F` as the unwrapping stage leaves them: one readable file per tile, with the box
of the tile, every pixel once and inside the image, and one row of phases and one offset per
interferogram. -/
structure Spec.TileFilesOk (nifgs : Nat) (tiles : TileSet) (files : Nat → Except PyErr (TileFile K))
    (F : Nat → TileFile K) : Prop where
  read : ∀ i < tiles.tiles.length, files i = .ok (F i)
  box : ∀ (i : Nat) b, tiles.tiles[i]? = some b → (F i).tile = b
  once : ∀ i < tiles.tiles.length, (F i).points.Nodup
  inside : ∀ i < tiles.tiles.length, ∀ p ∈ Spec.filePoints (F i),
    0 ≤ p.1 ∧ p.1 < tiles.shape.1 ∧ 0 ≤ p.2 ∧ p.2 < tiles.shape.2
  bands : ∀ i < tiles.tiles.length, (F i).uw.length = nifgs ∧ (F i).phaseOffset.length = nifgs
  rows : ∀ i < tiles.tiles.length, ∀ row ∈ (F i).uw, row.length = (F i).points.length

/-- The bulk offset file has one row per interferogram with one value per tile. -/
structure Spec.BulkOk (nifgs ntiles : Nat) (f : BulkFile K) : Prop where
  rows : f.offsets.length = nifgs
  cols : ∀ row ∈ f.offsets, row.length = ntiles

/-- Two tiles have a recorded overlap. -/
def Spec.Recorded (f : OverlapFile) (i j : Nat) : Prop := (i, j) ∈ f.overlaps ∨ (j, i) ∈ f.overlaps

/-- What the merge stage is given: at least two tiles, their files, the overlap file computed from
them, the bulk offset file, and an image with at least one pixel and one interferogram. -/
structure Spec.MergeInput [LinearOrder K] [FloorRing K] (tau : K) (minPoints : ℤ)
    (cc : Nat → List (Nat × Nat) → List Nat) (nifgs : Nat)
    (tiles : TileSet) (files : Nat → Except PyErr (TileFile K)) (F : Nat → TileFile K)
    (olap : OverlapFile) (bulk : BulkFile K) (settings : MergerSettings) : Prop where
  two : 2 ≤ tiles.tiles.length
  image : 0 < tiles.shape.1 ∧ 0 < tiles.shape.2
  ifgs : 1 ≤ nifgs
  filesOk : TileFilesOk nifgs tiles files F
  overlaps : phasediffDeciles id tau minPoints cc tiles files = .ok (some olap)
  labels : olap.labels.length = tiles.tiles.length
  bulkOk : BulkOk nifgs tiles.tiles.length bulk
  method : settings.method = "dirichlet"
  bulkMethod : bulk.method = settings.bulkMethod

end

open Spec

/-- The shape of the image, as used by the rasters. -/
def imageShape (tiles : TileSet) : Nat × Nat := (tiles.shape.1.toNat, tiles.shape.2.toNat)

section
variable {K : Type} [Field K] [LinearOrder K] [FloorRing K]

omit [Field K] [LinearOrder K] [FloorRing K] in
theorem filePoints_box {f : TileFile K} {b : BBox} (h : f.tile = b) : imagePoints f b = filePoints f := by
  subst h; rfl

omit [Field K] [LinearOrder K] [FloorRing K] in
theorem filePoints_nodup {f : TileFile K} (h : f.points.Nodup) : (filePoints f).Nodup := by
  unfold filePoints
  refine h.map fun p q hpq => ?_
  simp only [Prod.mk.injEq, add_left_inj] at hpq
  exact Prod.ext hpq.1 hpq.2

theorem overlaps_map [IsStrictOrderedRing K] {tau : K} {minPoints : ℤ} {cc : Nat → List (Nat × Nat) → List Nat} {nifgs : Nat}
    {tiles : TileSet} {files : Nat → Except PyErr (TileFile K)} {F : Nat → TileFile K} {olap : OverlapFile}
    (hf : TileFilesOk nifgs tiles files F)
    (h : phasediffDeciles id tau minPoints cc tiles files = .ok (some olap))
    (hl : olap.labels.length = tiles.tiles.length) :
    ∃ omap, overlapMap olap.labels.length olap.overlaps = .ok omap ∧
      MapOk tiles.tiles.length F olap omap ∧
      (∀ i < tiles.tiles.length, (omap.getD i []).Nodup) ∧
      (∀ i < tiles.tiles.length, i ∉ omap.getD i []) ∧
      ∀ i < tiles.tiles.length, ∀ j, j ∈ omap.getD i [] ↔ Recorded olap i j := by
  obtain ⟨hsub, hnd, _, hrec⟩ := C53_recorded tau minPoints cc tiles files olap h
  have hlt : ∀ e ∈ olap.overlaps, e.1 < e.2 ∧ e.2 < tiles.tiles.length := by
    rintro ⟨i, j⟩ he
    obtain ⟨h1, a, b, h2, h3, _⟩ := ((C25_overlaps tiles).1 i j).mp (hsub.subset he)
    exact ⟨h1, (List.getElem?_eq_some_iff.mp h3).1⟩
  obtain ⟨m, hm, hml, hcount⟩ := (C53_map olap.labels.length olap.overlaps).1 (by
    intro e he
    have := hlt e he
    omega)
  rw [hl] at hml
  have hmem : ∀ i < tiles.tiles.length, ∀ j, j ∈ m.getD i [] ↔ Recorded olap i j := by
    intro i hi j
    rw [← List.count_pos_iff, hcount i j (by omega)]
    unfold Recorded
    rw [← List.count_pos_iff, ← List.count_pos_iff]
    omega
  have hne : ∀ i j, (i, j) ∈ olap.overlaps → (j, i) ∉ olap.overlaps := by
    intro i j h1 h2
    have := (hlt _ h1).1
    have := (hlt _ h2).1
    simp only at *
    omega
  refine ⟨m, hm, ⟨hml, ?_, ?_, fun i hi => filePoints_nodup (hf.once i hi)⟩, ?_, ?_, hmem⟩
  · intro i hi j hj
    rcases (hmem i hi j).mp hj with h1 | h1
    · exact (hlt _ h1).2
    · have := hlt _ h1
      simp only at this
      omega
  · intro i hi j hj
    have key : ∀ i j, (i, j) ∈ olap.overlaps → ∃ (a b : List Nat) (ps : List (ℤ × ℤ)),
        commonOverlap olap i j = .ok (a, b) ∧ ps.Nodup ∧
        (∀ p, p ∈ ps ↔ p ∈ filePoints (F i) ∧ p ∈ filePoints (F j)) ∧
        a.map ((filePoints (F i))[·]?) = ps.map some ∧ b.map ((filePoints (F j))[·]?) = ps.map some := by
      intro i j hij
      have hl1 := hlt _ hij
      simp only at hl1
      obtain ⟨bi, bj, fi, fj, h1, h2, h3, h4, _, h5⟩ := hrec i j (hsub.subset hij)
      obtain ⟨c1, c2, st, h6, _, _, ps, h7, h8, h9, h10⟩ := h5 hij
      rw [hf.read i (by omega), Except.ok.injEq] at h3
      rw [hf.read j (by omega), Except.ok.injEq] at h4
      subst h3 h4
      rw [filePoints_box (hf.box i bi h1)] at h8 h9
      rw [filePoints_box (hf.box j bj h2)] at h8 h10
      refine ⟨c1, c2, ps, h6, h7.imp ?_, h8, h9, h10⟩
      rintro p q (h | h) rfl
      · exact lt_irrefl _ h
      · exact lt_irrefl _ h.2
    rcases (hmem i hi j).mp hj with h1 | h1
    · obtain ⟨a, b, ps, k1, k2, k3, k4, k5⟩ := key i j h1
      refine ⟨a, b, ps, ?_, k2, k3, k4, k5⟩
      unfold pairIdx
      rw [if_pos (hlt _ h1).1, k1]
    · obtain ⟨a, b, ps, k1, k2, k3, k4, k5⟩ := key j i h1
      refine ⟨b, a, ps, ?_, k2, fun p => (k3 p).trans and_comm, k5, k4⟩
      unfold pairIdx
      have := (hlt _ h1).1
      simp only at this
      rw [if_neg (by omega), k1]
      rfl
  · intro i hi
    rw [List.nodup_iff_count_le_one]
    intro j
    rw [hcount i j (by omega)]
    have h1 := List.nodup_iff_count_le_one.mp hnd (i, j)
    have h2 := List.nodup_iff_count_le_one.mp hnd (j, i)
    by_cases hij : (i, j) ∈ olap.overlaps
    · rw [List.count_eq_zero_of_not_mem (hne i j hij)]
      omega
    · rw [List.count_eq_zero_of_not_mem hij]
      omega
  · intro i hi hc
    rcases (hmem i hi i).mp hc with h1 | h1 <;>
    · have := (hlt _ h1).1
      simp at this

omit [Field K] [LinearOrder K] [FloorRing K] in
theorem files_inside {nifgs : Nat} {tiles : TileSet} {files : Nat → Except PyErr (TileFile K)} {F : Nat → TileFile K}
    (hf : TileFilesOk nifgs tiles files F) (i : Nat) (hi : i < tiles.tiles.length) :
    ∀ c ∈ filePoints (F i), Inside (imageShape tiles) c := by
  intro c hc
  obtain ⟨h1, h2, h3, h4⟩ := hf.inside i hi c hc
  refine ⟨h1, ?_, h3, ?_⟩ <;> simp only [imageShape] <;> omega

omit [Field K] [LinearOrder K] [FloorRing K] in
theorem files_width {nifgs : Nat} (hn : 1 ≤ nifgs) {tiles : TileSet} {files : Nat → Except PyErr (TileFile K)}
    {F : Nat → TileFile K} (hf : TileFilesOk nifgs tiles files F) (i : Nat) (hi : i < tiles.tiles.length) :
    ((F i).uw.headD []).length = (F i).points.length := by
  have h1 := (hf.bands i hi).1
  cases hu : (F i).uw with
  | nil => rw [hu] at h1; simp at h1; omega
  | cons row rest =>
    rw [List.headD_cons]
    exact hf.rows i hi row (by rw [hu]; exact List.mem_cons_self)

omit [Field K] [LinearOrder K] [FloorRing K] in
theorem bulk_table {nifgs ntiles : Nat} {bulk : BulkFile K} (h : BulkOk nifgs ntiles bulk) (b : Nat) (hb : b < nifgs)
    (j : Nat) (hj : j < ntiles) : ∃ x, ((bulk.offsets[b]?).bind fun row => row[j]?) = some x := by
  have hbl : b < bulk.offsets.length := by rw [h.rows]; exact hb
  have hjl : j < bulk.offsets[b].length := by rw [h.cols _ (List.getElem_mem hbl)]; exact hj
  exact ⟨_, by rw [List.getElem?_eq_getElem hbl, Option.bind_some, List.getElem?_eq_getElem hjl]⟩

/-- The merge stage starts from sound data. -/
theorem ready_of_input [IsStrictOrderedRing K] {tau : K} {minPoints : ℤ} {cc : Nat → List (Nat × Nat) → List Nat} {nifgs : Nat}
    {tiles : TileSet} {files : Nat → Except PyErr (TileFile K)} {F : Nat → TileFile K} {olap : OverlapFile}
    {bulk : BulkFile K} {settings : MergerSettings}
    (h : MergeInput tau minPoints cc nifgs tiles files F olap bulk settings) :
    ∃ omap, overlapMap olap.labels.length olap.overlaps = .ok omap ∧
      Ready tiles.tiles.length nifgs (imageShape tiles) F olap omap bulk.offsets ∧
      (∀ i < tiles.tiles.length, (omap.getD i []).Nodup) ∧
      (∀ i < tiles.tiles.length, i ∉ omap.getD i []) ∧
      ∀ i < tiles.tiles.length, ∀ j, j ∈ omap.getD i [] ↔ Recorded olap i j := by
  obtain ⟨omap, h1, h2, h3, h4, h5⟩ := overlaps_map h.filesOk h.overlaps h.labels
  refine ⟨omap, h1, ⟨by have := h.two; omega, h2, files_inside h.filesOk, files_width h.ifgs h.filesOk, ?_, ?_⟩, h3, h4, h5⟩
  · intro j hj b hb
    obtain ⟨e1, e2⟩ := h.filesOk.bands j hj
    omega
  · intro b hb j hj
    exact bulk_table h.bulkOk b hb j hj

/-! ### The largest number of tiles at a pixel -/

omit [LinearOrder K] [FloorRing K] [Field K] in
theorem countLoop_eq {shape : Nat × Nat} {n : Nat} {F : Nat → TileFile K}
    (hin : ∀ j < n, ∀ c ∈ filePoints (F j), Inside shape c) (hnd : ∀ j < n, (filePoints (F j)).Nodup)
    (m : Nat) (hm : m ≤ n) (hm2 : m < 256) :
    ∃ count, ((List.range m).map fun j => TileState.start (F j)).foldlM
      (fun (count : Nat × Nat → Nat) t => do
        let px ← pixelsOf shape t.coords
        pure (fancySet count px (px.map fun p => (count p + 1) % 256))) (fun _ => 0) =
        (.ok count : Except PyErr _) ∧ ∀ p, count p = (covering m F (pixZ p)).length := by
  induction m with
  | zero => exact ⟨fun _ => 0, rfl, fun p => by simp [covering]⟩
  | succ m ih =>
    obtain ⟨count, h1, h2⟩ := ih (by omega) (by omega)
    rw [List.range_succ, List.map_append, List.foldlM_append, h1]
    have hmn : m < n := by omega
    have hco : (TileState.start (F m)).coords = filePoints (F m) := rfl
    obtain ⟨f1, f2, f3⟩ := pixelsOf_facts (hin m hmn) (hnd m hmn)
    simp only [List.map_cons, List.map_nil, List.foldlM_cons, List.foldlM_nil, Bind.bind, Except.bind, hco,
      pixelsOf_inside (hin m hmn)]
    refine ⟨_, rfl, fun p => ?_⟩
    have hcov : (covering (m + 1) F (pixZ p)).length =
        (covering m F (pixZ p)).length + if pixZ p ∈ filePoints (F m) then 1 else 0 := by
      unfold covering
      rw [List.range_succ, List.filter_append, List.length_append]
      by_cases hp : pixZ p ∈ filePoints (F m) <;> simp [hp]
    rw [hcov]
    by_cases hp : pixZ p ∈ filePoints (F m)
    · rw [if_pos hp]
      have hp' := (f2 p).mpr hp
      obtain ⟨k, hk, hke⟩ := List.mem_iff_getElem.mp hp'
      have := fancySet_of_mem count _ (((filePoints (F m)).map fun c => (c.1.toNat, c.2.toNat)).map
        fun p => (count p + 1) % 256) f1 k hk (by simpa using hk)
      rw [hke] at this
      rw [this, List.getElem_map, hke, h2]
      have hlen : (covering m F (pixZ p)).length ≤ m := by
        unfold covering
        exact (List.length_filter_le _ _).trans (by simp)
      rw [Nat.mod_eq_of_lt (by omega)]
    · rw [if_neg hp, fancySet_of_not_mem _ _ _ _ (fun hc => hp ((f2 p).mp hc)), h2, Nat.add_zero]

omit [LinearOrder K] [FloorRing K] [Field K] in
/-- `_get_max_degree` counts the tiles at the pixels. -/
theorem getMaxDegree_spec {shape : Nat × Nat} (hs : 0 < shape.1 ∧ 0 < shape.2) {n : Nat} (hn : n < 256)
    {F : Nat → TileFile K} (hin : ∀ j < n, ∀ c ∈ filePoints (F j), Inside shape c)
    (hnd : ∀ j < n, (filePoints (F j)).Nodup) :
    ∃ d, getMaxDegree ((List.range n).map fun j => TileState.start (F j)) shape = .ok d ∧
      ∀ pix, (covering n F pix).length ≤ d := by
  obtain ⟨count, h1, h2⟩ := countLoop_eq hin hnd n le_rfl hn
  unfold getMaxDegree
  rw [h1]
  simp only [Bind.bind, Except.bind]
  rw [if_neg (Nat.pos_iff_ne_zero.mp (Nat.mul_pos hs.1 hs.2))]
  refine ⟨_, rfl, fun pix => ?_⟩
  by_cases hc : covering n F pix = []
  · rw [hc]; exact Nat.zero_le _
  · obtain ⟨j, hj⟩ := List.exists_mem_of_ne_nil _ hc
    unfold covering at hj
    simp only [List.mem_filter, List.mem_range, decide_eq_true_eq] at hj
    have hi := hin j hj.1 pix hj.2
    have hpx := toNat_pixZ hi
    rw [← hpx, ← h2]
    have hmem : count (pix.1.toNat, pix.2.toNat) ∈
        ((List.range shape.1).product (List.range shape.2)).map count := by
      refine List.mem_map_of_mem ?_
      unfold Inside at hi
      rw [List.pair_mem_product, List.mem_range, List.mem_range]
      omega
    exact (natMax_spec _ 0).2.1 _ hmem

omit [LinearOrder K] [FloorRing K] [Field K] in
/-- `_get_max_degree` completes for tiles inside the image. -/
theorem getMaxDegree_ok {shape : Nat × Nat} (hs : 0 < shape.1 ∧ 0 < shape.2) {n : Nat}
    {F : Nat → TileFile K} (hin : ∀ j < n, ∀ c ∈ filePoints (F j), Inside shape c) :
    ∃ d, getMaxDegree ((List.range n).map fun j => TileState.start (F j)) shape = .ok d := by
  have key : ∀ m ≤ n, ∃ count, ((List.range m).map fun j => TileState.start (F j)).foldlM
      (fun (count : Nat × Nat → Nat) t => do
        let px ← pixelsOf shape t.coords
        pure (fancySet count px (px.map fun p => (count p + 1) % 256))) (fun _ => 0) =
        (.ok count : Except PyErr _) := by
    intro m
    induction m with
    | zero => exact fun _ => ⟨fun _ => 0, rfl⟩
    | succ m ih =>
      intro hm
      obtain ⟨count, h1⟩ := ih (by omega)
      rw [List.range_succ, List.map_append, List.foldlM_append, h1]
      have hco : (TileState.start (F m)).coords = filePoints (F m) := rfl
      simp only [List.map_cons, List.map_nil, List.foldlM_cons, List.foldlM_nil, Bind.bind, Except.bind, hco,
        pixelsOf_inside (hin m (by omega))]
      exact ⟨_, rfl⟩
  obtain ⟨count, h1⟩ := key n le_rfl
  unfold getMaxDegree
  rw [h1]
  simp only [Bind.bind, Except.bind]
  rw [if_neg (Nat.pos_iff_ne_zero.mp (Nat.mul_pos hs.1 hs.2))]
  exact ⟨_, rfl⟩

/-! ### The merge stage -/

/-- The interferograms whose output file is missing. -/
def missing (nifgs : Nat) (isFile : Nat → Bool) : List Nat := (List.range nifgs).filter fun i => !isFile i

/-- `merge_tiles`: it completes when all corrections can be computed or nothing is missing, and writes
for every missing interferogram rasters that depend on nothing but its own band. -/
theorem mergeTiles_eq [IsStrictOrderedRing K] {tau : K} {minPoints : ℤ} {cc : Nat → List (Nat × Nat) → List Nat}
    {nifgs : Nat} {tiles : TileSet} {files : Nat → Except PyErr (TileFile K)} {F : Nat → TileFile K}
    {env : MergeEnv K} {bulk : BulkFile K} {settings : MergerSettings}
    (h : MergeInput tau minPoints cc nifgs tiles files F env.overlap bulk settings) {omap : List (List Nat)}
    (ho : overlapMap env.overlap.labels.length env.overlap.overlaps = .ok omap)
    (hr : Ready tiles.tiles.length nifgs (imageShape tiles) F env.overlap omap bulk.offsets) {d : Nat}
    (hd : getMaxDegree ((List.range tiles.tiles.length).map fun j => TileState.start (F j)) (imageShape tiles) = .ok d)
    (isFile : Nat → Bool) :
    ((adjustOk env tiles.tiles.length F omap d ∨ missing nifgs isFile = []) →
      mergeTiles tau env settings tiles files bulk nifgs isFile =
        .ok (.merged ((missing nifgs isFile).map fun i =>
          (i, finalRaster tau env (imageShape tiles) tiles.tiles.length F omap d bulk.offsets i)))) ∧
    (¬ (adjustOk env tiles.tiles.length F omap d ∨ missing nifgs isFile = []) →
      ∃ e, mergeTiles tau env settings tiles files bulk nifgs isFile = .error e) := by
  have hts : (List.range tiles.tiles.length).mapM (fun ii => do
      let f ← files ii
      pure (TileState.start f)) =
      (.ok ((List.range tiles.tiles.length).map fun j => TileState.start (F j)) : Except PyErr _) := by
    apply mapM_ok_of
    intro i hi
    rw [h.filesOk.read i (List.mem_range.mp hi)]
    rfl
  have hne : ¬ tiles.tiles.length = 1 := by have := h.two; omega
  obtain ⟨batches, hb⟩ : ∃ batches, mergeBatches settings.numParallelIfgs nifgs = .ok batches := by
    unfold mergeBatches
    simp only
    rw [if_neg (by
      have := h.ifgs
      split <;> omega)]
    exact ⟨_, rfl⟩
  obtain ⟨b1, b2⟩ := mergeBatches_spec hb
  obtain ⟨k1, k2⟩ := batchLoop_eq (tau := tau) (maxDegree := d) (isFile := isFile) hr batches b2
    (ts := (List.range tiles.tiles.length).map fun j => TileState.start (F j))
    ⟨by simp, by
      intro j t ht
      rw [List.getElem?_map] at ht
      by_cases hj : j < tiles.tiles.length
      · rw [List.getElem?_range hj] at ht
        simp only [Option.map_some, Option.some.injEq] at ht
        subst ht
        rfl
      · rw [List.getElem?_eq_none (by simpa using hj)] at ht
        simp at ht⟩ []
  rw [b1] at k1 k2
  unfold mergeTiles
  rw [if_neg (by simp [h.method])]
  simp only
  rw [hts]
  simp only [Bind.bind, Except.bind]
  rw [if_neg hne, ho]
  simp only
  have hd' : getMaxDegree ((List.range tiles.tiles.length).map fun j => TileState.start (F j))
    (tiles.shape.1.toNat, tiles.shape.2.toNat) = .ok d := hd
  rw [hd']
  simp only
  rw [if_neg (by simp [h.bulkMethod]), hb]
  simp only
  unfold missing
  constructor
  · intro hok
    obtain ⟨ts', e⟩ := k1 hok
    simp only [Bind.bind, Except.bind, imageShape] at e
    rw [e]
    simp [pure, Except.pure, imageShape]
  · intro hok
    obtain ⟨er, e⟩ := k2 hok
    simp only [Bind.bind, Except.bind, imageShape] at e
    rw [e]
    exact ⟨er, rfl⟩

end

end Spurt
