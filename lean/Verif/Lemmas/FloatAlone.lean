import Verif.Lemmas.Interior
import Verif.Lemmas.FloatStages
import Verif.Lemmas.FloatMap

/-!
# The merge in mixed precision, for two sets of tile files that agree where tiles share pixels
-/

namespace Spurt

/-- Interferogram `b` of one set of tile files and `b'` of another hold the same phases at every pixel that belongs to two
tiles or more. -/
structure SharedBands {K : Type} [Field K] (n : Nat) (F F' : Nat → TileFile K) (b b' : Nat) : Prop where
  points : ∀ i < n, Spec.filePoints (F' i) = Spec.filePoints (F i)
  phase : ∀ i < n, ∀ j < n, i ≠ j → ∀ pix, pix ∈ Spec.filePoints (F i) → pix ∈ Spec.filePoints (F j) →
    Spec.phaseAtPixel (F' i) b' pix = Spec.phaseAtPixel (F i) b pix

open Spec

section
variable {K : Type} [Field K] [LinearOrder K] [FloorRing K]

omit [FloorRing K] in
theorem freeRhsFl_masked {fd : K → K} {a : SqMat K} {mask mask' : Nat → Bool} {x x' : Nat → K}
    (h : ∀ p < a.n, mask p = mask' p) (hx : ∀ p < a.n, mask' p = true → x p = x' p) :
    freeRhsFl fd a mask x = freeRhsFl fd a mask' x' := by
  unfold freeRhsFl
  rw [freeIdx_congr h]
  apply List.map_congr_left
  intro i _
  have h1 : (List.range a.n).filter (fun j => mask j && decide (a.val i j ≠ 0)) =
      (List.range a.n).filter (fun j => mask' j && decide (a.val i j ≠ 0)) := by
    apply List.filter_congr
    intro p hp
    rw [h p (List.mem_range.mp hp)]
  rw [h1]
  congr 1
  apply foldl_congr_mem
  intro j hj b
  obtain ⟨j1, j2⟩ := List.mem_filter.mp hj
  rw [Bool.and_eq_true] at j2
  rw [hx j (List.mem_range.mp j1) j2.1]

omit [FloorRing K] in
theorem dirRowFl_masked {A : FloatArith K} {lin : LinSolver K} {a : SqMat K} {mask mask' : Nat → Bool} {x x' : Nat → K}
    (h : ∀ p < a.n, mask p = mask' p) (hx : ∀ p < a.n, mask' p = true → x p = x' p) {p : Nat} (hp : p < a.n) :
    dirRowFl A lin a mask x p = dirRowFl A lin a mask' x' p := by
  unfold dirRowFl
  rw [freeRhsFl_masked h hx, freeMat_congr h, freeIdx_congr h, h p hp]
  by_cases hm : mask' p = true
  · rw [if_pos hm, if_pos hm, hx p hp hm]
  · rw [if_neg hm, if_neg hm]

omit [LinearOrder K] [FloorRing K] in
theorem bandAtFl_shared {A : FloatArith K} {n : Nat} {F F' : Nat → TileFile K} {b b' : Nat} {c c' : Nat → Nat → K}
    (hs : SharedBands n F F' b b') (hc : EqualCorr n F c c') {i j : Nat} (hi : i < n) (hj : j < n) (hij : i ≠ j) {pix : ℤ × ℤ}
    (hpi : pix ∈ filePoints (F i)) : bandAtFl A F' b' c' j pix = bandAtFl A F b c j pix := by
  unfold bandAtFl
  rw [hs.points j hj]
  by_cases hm : pix ∈ filePoints (F j)
  · rw [if_pos hm, if_pos hm]
    have h1 := hs.phase j hj i hi (Ne.symm hij) pix hm hpi
    unfold phaseAtPixel at h1
    rw [hs.points j hj] at h1
    unfold bandValueFl
    rw [h1, hc j hj]
    rw [← filePoints_length]
    exact List.idxOf_lt_length_iff.mpr hm
  · rw [if_neg hm, if_neg hm]

omit [LinearOrder K] [FloorRing K] in
theorem rawCorrFl_shared {A : FloatArith K} {n : Nat} {F F' : Nat → TileFile K} {omap : List (List Nat)} {b b' : Nat}
    {c c' : Nat → Nat → K} (hs : SharedBands n F F' b b') (hc : EqualCorr n F c c')
    (hnd : ∀ i < n, (filePoints (F i)).Nodup)
    (hlt : ∀ i < n, ∀ j ∈ omap.getD i [], j < n ∧ i ≠ j) {i : Nat}
    (hi : i < n) {p : Nat} (hpl : p < (F i).points.length) (hcnt : 2 ≤ cntAt F (omap.getD i []) i p) :
    rawCorrFl A F' omap b' c' i p = rawCorrFl A F omap b c i p := by
  have hpt : ptAt F' i p = ptAt F i p := by unfold ptAt; rw [hs.points i hi]
  have hmem := ptAt_mem (F := F) hpl
  obtain ⟨j, hj, hjp⟩ : ∃ j ∈ omap.getD i [], ptAt F i p ∈ filePoints (F j) := by
    by_contra hno
    have hno : ∀ j ∈ omap.getD i [], ptAt F i p ∉ filePoints (F j) := fun j hj hjp => hno ⟨j, hj, hjp⟩
    have h1 : cntAt F (omap.getD i []) i p = 1 := by
      unfold cntAt
      rw [List.filter_eq_nil_iff.mpr (by simpa using hno)]
      rfl
    omega
  have h1 := hs.phase i hi j (hlt i hi j hj).1 (hlt i hi j hj).2 _ hmem hjp
  rw [phaseAt_point (hnd i hi) hpl, ← hpt,
    phaseAt_point (by rw [hs.points i hi]; exact hnd i hi) (by rw [points_length_of (hs.points i hi)]; exact hpl)] at h1
  have hv : bandValueFl A F' b' c' i p = bandValueFl A F b c i p := by unfold bandValueFl; rw [h1, hc i hi p hpl]
  unfold rawCorrFl sumAtFl
  rw [cntAt_points hs.points (fun j hj => (hlt i hi j hj).1) hi, hpt, hv]
  congr 4
  apply foldl_congr_mem
  intro j hj x
  rw [bandAtFl_shared hs hc hi (hlt i hi j hj).1 (hlt i hi j hj).2 hmem]

theorem bandRoundFl_shared {A : FloatArith K} {env env' : MergeEnv K} (hlin : env'.lin = env.lin)
    (hsim : env'.simplices = env.simplices) {n : Nat} {F F' : Nat → TileFile K} {omap : List (List Nat)} {b b' : Nat}
    {c c' : Nat → Nat → K} (hs : SharedBands n F F' b b') (h : EqualCorr n F c c')
    (hnd : ∀ i < n, (filePoints (F i)).Nodup)
    (hlt : ∀ i < n, ∀ j ∈ omap.getD i [], j < n ∧ i ≠ j) {d : Nat} (hd : 1 < d)
    (hok : ∀ i < n, roundOk env F omap d i) :
    EqualCorr n F (bandRoundFl A env F omap b c d) (bandRoundFl A env' F' omap b' c' d) := by
  intro i hi p hpl
  have hlen := points_length_of (hs.points i hi)
  have hmask : ∀ q, maskAt F' omap d i q = maskAt F omap d i q := by
    intro q
    unfold maskAt
    rw [cntAt_points hs.points (fun j hj => (hlt i hi j hj).1) hi]
  have ht : touched F' omap d i = touched F omap d i := by
    unfold touched
    rw [hlen]
    congr 1
    funext q
    exact hmask q
  unfold bandRoundFl
  rw [ht]
  by_cases htt : touched F omap d i = true
  · rw [if_pos htt, if_pos htt, h i hi p hpl]
    obtain ⟨a, ha1, ha2, _⟩ := hok i hi htt
    have ha1' : lapOf env' (filePoints (F' i)) = .ok a := by
      rw [hs.points i hi, ← ha1]
      unfold lapOf
      rw [hsim]
    have : tileCorrFl A env' F' omap d b' c' i p = tileCorrFl A env F omap d b c i p := by
      unfold tileCorrFl
      rw [ha1, ha1']
      simp only
      rw [hlin]
      refine dirRowFl_masked (fun q _ => hmask q) (fun q hq hm => rawCorrFl_shared hs h hnd hlt hi (by omega) ?_) (by omega)
      unfold maskAt at hm
      rw [decide_eq_true_eq] at hm
      omega
    rw [this]
  · rw [if_neg htt, if_neg htt]
    exact h i hi p hpl

theorem bandAdjustFl_shared {A : FloatArith K} {env env' : MergeEnv K} (hlin : env'.lin = env.lin)
    (hsim : env'.simplices = env.simplices) {n : Nat} {F F' : Nat → TileFile K} {omap : List (List Nat)} {b b' : Nat}
    {c c' : Nat → Nat → K} (hs : SharedBands n F F' b b') (h : EqualCorr n F c c')
    (hnd : ∀ i < n, (filePoints (F i)).Nodup)
    (hlt : ∀ i < n, ∀ j ∈ omap.getD i [], j < n ∧ i ≠ j) (d : Nat) (hok : adjustOk env n F omap d) :
    EqualCorr n F (bandAdjustFl A env F omap d b c) (bandAdjustFl A env' F' omap d b' c') := by
  have hdeg : ∀ x ∈ degrees d, 1 < x := by
    intro x hx
    unfold degrees at hx
    simpa using (List.mem_filter.mp hx).2
  unfold bandAdjustFl adjustOk at *
  generalize degrees d = ds at *
  induction ds generalizing c c' with
  | nil => exact h
  | cons d ds ih =>
    rw [List.foldl_cons, List.foldl_cons]
    exact ih (bandRoundFl_shared hlin hsim hs h hnd hlt (hdeg d List.mem_cons_self) (hok d List.mem_cons_self))
      (fun d' hd' => hok d' (List.mem_cons_of_mem _ hd')) fun x hx => hdeg x (List.mem_cons_of_mem _ hx)

theorem rasterFl_same_at {A : FloatArith K} {shape : Nat × Nat} {n : Nat} {F F' : Nat → TileFile K}
    (hin : ∀ j < n, ∀ c ∈ filePoints (F j), Inside shape c) (hnd : ∀ j < n, (filePoints (F j)).Nodup) {b b' : Nat}
    (hp : ∀ i < n, filePoints (F' i) = filePoints (F i)) {c c' : Nat → Nat → K} (hc : EqualCorr n F c c')
    {m m' : MergedBand K} (h : bandRasterFl A shape n F b c = .ok m) (h' : bandRasterFl A shape n F' b' c' = .ok m')
    (r q : Nat) (hph : ∀ j < n, ((r : ℤ), (q : ℤ)) ∈ filePoints (F j) →
      phaseAtPixel (F' j) b' ((r : ℤ), (q : ℤ)) = phaseAtPixel (F j) b ((r : ℤ), (q : ℤ))) :
    m'.out.val r q = m.out.val r q ∧ m'.diff.val r q = m.diff.val r q ∧ m'.model.val r q = m.model.val r q := by
  have hval : ∀ j < n, ∀ k < (F j).points.length, ((filePoints (F j)).map fun c : ℤ × ℤ => (c.1.toNat, c.2.toNat))[k]? = some (r, q) →
      filePhase (F' j) b' k = filePhase (F j) b k ∧ bandValueFl A F' b' c' j k = bandValueFl A F b c j k := by
    intro j hj k hk hkp
    have hl : k < (filePoints (F j)).length := by rw [filePoints_length]; exact hk
    have hmemk := List.getElem_mem hl
    obtain ⟨i1, i2⟩ := hin j hj _ hmemk
    rw [List.getElem?_map, List.getElem?_eq_getElem hl, Option.map_some, Option.some.injEq, Prod.mk.injEq] at hkp
    have hpix : (filePoints (F j))[k] = ((r : ℤ), (q : ℤ)) := by
      apply Prod.ext <;> simp only <;> omega
    have hpt : ptAt F j k = ((r : ℤ), (q : ℤ)) := by
      unfold ptAt; rw [List.getD_eq_getElem _ _ hl, hpix]
    have hpt' : ptAt F' j k = ptAt F j k := by unfold ptAt; rw [hp j hj]
    have h1 := hph j hj (hpix ▸ hmemk)
    rw [← hpt, phaseAt_point (hnd j hj) hk, ← hpt', phaseAt_point (by rw [hp j hj]; exact hnd j hj)
      (by rw [points_length_of (hp j hj)]; exact hk)] at h1
    exact ⟨h1, by unfold bandValueFl; rw [h1, hc j hj k hk]⟩
  unfold bandRasterFl at h h'
  cases ha : (List.range n).foldlM (avgBandFl A shape F b c) ⟨fun _ => 0, fun _ => 0, fun _ => none, fun _ => none⟩ with
  | error e => rw [ha] at h; simp [Bind.bind, Except.bind] at h
  | ok acc =>
    cases ha' : (List.range n).foldlM (avgBandFl A shape F' b' c') ⟨fun _ => 0, fun _ => 0, fun _ => none, fun _ => none⟩ with
    | error e => rw [ha'] at h'; simp [Bind.bind, Except.bind] at h'
    | ok acc' =>
      have hacc : acc'.model (r, q) = acc.model (r, q) ∧ acc'.cnt (r, q) = acc.cnt (r, q) ∧
          acc'.minval (r, q) = acc.minval (r, q) ∧ acc'.maxval (r, q) = acc.maxval (r, q) := by
        refine foldlM_two (R := fun (s s' : MergeAcc K) => s'.model (r, q) = s.model (r, q) ∧ s'.cnt (r, q) = s.cnt (r, q) ∧
          s'.minval (r, q) = s.minval (r, q) ∧ s'.maxval (r, q) = s.maxval (r, q)) ?_ ⟨rfl, rfl, rfl, rfl⟩ ha ha'
        rintro j hj s s' t t' ⟨r1, r2, r3, r4⟩ e e'
        have hj := List.mem_range.mp hj
        obtain ⟨f1, f2, f3⟩ := pixelsOf_facts (hin j hj) (hnd j hj)
        simp only [avgBandFl, hp j hj, points_length_of (hp j hj), pixelsOf_inside (hin j hj), Bind.bind, Except.bind, Pure.pure,
          Except.pure, Except.ok.injEq] at e e'
        set px := (filePoints (F j)).map fun c : ℤ × ℤ => (c.1.toNat, c.2.toNat) with hpx
        have hpl : px.length = (F j).points.length := by rw [hpx, List.length_map, filePoints_length]
        subst e e'
        have hvk : ∀ k < px.length, px[k]? = some (r, q) → bandValueFl A F' b' c' j k = bandValueFl A F b c j k := by
          intro k hk hkp
          exact (hval j hj k (by omega) hkp).2
        refine ⟨?_, ?_, ?_, ?_⟩
        · apply fancySet_at _ _ _ _ _ f1 (by simp; omega) (by simp; omega) _ r1
          intro k hk hkp
          simp only [List.getElem?_zipWith, hkp, List.getElem?_map, List.getElem?_range (show k < (F j).points.length by omega),
            Option.map_some, hvk k hk hkp, r1]
        · apply fancySet_at _ _ _ _ _ f1 (by simp) (by simp) _ r2
          intro k hk hkp
          simp only [List.getElem?_map, hkp, Option.map_some, r2]
        · apply fancySet_at _ _ _ _ _ f1 (by simp; omega) (by simp; omega) _ r3
          intro k hk hkp
          simp only [List.getElem?_zipWith, hkp, List.getElem?_map, List.getElem?_range (show k < (F j).points.length by omega),
            Option.map_some, hvk k hk hkp, r3]
        · apply fancySet_at _ _ _ _ _ f1 (by simp; omega) (by simp; omega) _ r4
          intro k hk hkp
          simp only [List.getElem?_zipWith, hkp, List.getElem?_map, List.getElem?_range (show k < (F j).points.length by omega),
            Option.map_some, hvk k hk hkp, r4]
      rw [ha] at h
      rw [ha'] at h'
      obtain ⟨r1, r2, r3, r4⟩ := hacc
      simp only [Bind.bind, Except.bind] at h h'
      split at h
      · simp at h
      · rename_i arr harr
        split at h'
        · simp at h'
        · rename_i arr' harr'
          have hout : arr' (r, q) = arr (r, q) := by
            refine foldlM_two (R := fun (s s' : Nat × Nat → Option K) => s' (r, q) = s (r, q)) ?_ rfl harr harr'
            rintro j hj s s' t t' r5 e e'
            have hj := List.mem_range.mp hj
            obtain ⟨f1, f2, f3⟩ := pixelsOf_facts (hin j hj) (hnd j hj)
            simp only [outBandFl, hp j hj, points_length_of (hp j hj), pixelsOf_inside (hin j hj), Bind.bind, Except.bind, Pure.pure,
              Except.pure, Except.ok.injEq] at e e'
            set px := (filePoints (F j)).map fun c : ℤ × ℤ => (c.1.toNat, c.2.toNat) with hpx
            have hpl : px.length = (F j).points.length := by rw [hpx, List.length_map, filePoints_length]
            subst e e'
            apply fancySet_at _ _ _ _ _ f1 (by simp; omega) (by simp; omega) _ r5
            intro k hk hkp
            simp only [List.getElem?_zipWith, hkp, List.getElem?_map, List.getElem?_range (show k < (F j).points.length by omega),
              Option.map_some, (hval j hj k (by omega) hkp).1, r1, r2]
          simp only [pure, Except.pure, Except.ok.injEq] at h h'
          subst h h'
          exact ⟨hout, by simp only [r2, r3, r4], by simp only [r1, r2]⟩

theorem bandRasterFl_shape {A : FloatArith K} {shape : Nat × Nat} {n : Nat} {F : Nat → TileFile K} {b : Nat}
    {c : Nat → Nat → K} {m : MergedBand K} (h : bandRasterFl A shape n F b c = .ok m) :
    m.out.rows = shape.1 ∧ m.out.cols = shape.2 ∧ m.diff.rows = shape.1 ∧ m.diff.cols = shape.2 ∧ m.model.rows = shape.1 ∧
      m.model.cols = shape.2 := by
  unfold bandRasterFl at h
  simp only [Bind.bind, Except.bind] at h
  split at h
  · cases h
  split at h
  · cases h
  simp only [pure, Except.pure, Except.ok.injEq] at h
  subst h
  exact ⟨rfl, rfl, rfl, rfl, rfl, rfl⟩

variable [IsStrictOrderedRing K]

theorem overlapsFl_points {A : FloatArith K} {atol rtol : K} {minPoints : ℤ} {cc : Nat → List (Nat × Nat) → List Nat}
    {nifgs nifgs' : Nat} {tiles : TileSet} {files files' : Nat → Except PyErr (TileFile K)} {F F' : Nat → TileFile K}
    {f f' : OverlapFile} (hf : TileFilesOk nifgs tiles files F) (hf' : TileFilesOk nifgs' tiles files' F')
    (h : phasediffDecilesFl A atol rtol id minPoints cc tiles files = .ok (some f))
    (h' : phasediffDecilesFl A atol rtol id minPoints cc tiles files' = .ok (some f'))
    (hp : ∀ i < tiles.tiles.length, filePoints (F' i) = filePoints (F i)) :
    f'.overlaps = f.overlaps ∧ f'.labels = f.labels := by
  obtain ⟨o, h1, h2, h3, _⟩ := overlapFl_strip hf h
  obtain ⟨o', h1', h2', h3', _⟩ := overlapFl_strip hf' h'
  obtain ⟨k1, k2⟩ := overlaps_points (ideal_ok (tau := (1 : K)) (phi := fun _ _ => 0) (c := fun _ _ => 0) hf)
    (ideal_ok (tau := (1 : K)) (phi := fun _ _ => 0) (c := fun _ _ => 0) hf') h1 h1' (by
      intro i hi
      exact hp i hi)
  exact ⟨by rw [← h2, ← h2', k1], by rw [← h3, ← h3', k2]⟩

/-- Two runs of the merge in mixed precision over files that agree where tiles share pixels: corrections and rasters. -/
theorem mergeFl_shared {A : FloatArith K} {atol rtol : K} {minPoints : ℤ} {cc : Nat → List (Nat × Nat) → List Nat}
    {nifgs nifgs' : Nat} (hifgs : 1 ≤ nifgs) (hifgs' : 1 ≤ nifgs') {tiles : TileSet} (htwo : 2 ≤ tiles.tiles.length)
    (himg : 0 < tiles.shape.1 ∧ 0 < tiles.shape.2)
    {files files' : Nat → Except PyErr (TileFile K)} {F F' : Nat → TileFile K}
    (hf : TileFilesOk nifgs tiles files F) (hf' : TileFilesOk nifgs' tiles files' F') {env env' : MergeEnv K}
    (hlin : env'.lin = env.lin) (hsim : env'.simplices = env.simplices)
    (hover : phasediffDecilesFl A atol rtol id minPoints cc tiles files = .ok (some env.overlap))
    (hover' : phasediffDecilesFl A atol rtol id minPoints cc tiles files' = .ok (some env'.overlap))
    (hlab : env.overlap.labels.length = tiles.tiles.length) {bulk bulk' : BulkFile K}
    (hbulk : BulkOk nifgs tiles.tiles.length bulk) (hbulk' : BulkOk nifgs' tiles.tiles.length bulk')
    {settings settings' : MergerSettings} (hmethod : settings.method = "dirichlet") (hmethod' : settings'.method = "dirichlet")
    (hbm : bulk.method = settings.bulkMethod) (hbm' : bulk'.method = settings'.bulkMethod) {b b' : Nat}
    (hs : SharedBands tiles.tiles.length F F' b b') (hrow : bulk'.offsets.getD b' [] = bulk.offsets.getD b [])
    {isFile isFile' : Nat → Bool} {out out' : List (Nat × MergedBand K)}
    (hm : mergeTilesFl A env settings tiles files bulk nifgs isFile = .ok (.merged out))
    (hm' : mergeTilesFl A env' settings' tiles files' bulk' nifgs' isFile' = .ok (.merged out'))
    {m m' : MergedBand K} (hb : (b, m) ∈ out) (hb' : (b', m') ∈ out') :
    (∀ r q : Nat, (∀ i < tiles.tiles.length, ((r : ℤ), (q : ℤ)) ∈ filePoints (F i) →
        phaseAtPixel (F' i) b' ((r : ℤ), (q : ℤ)) = phaseAtPixel (F i) b ((r : ℤ), (q : ℤ))) →
      m'.out.val r q = m.out.val r q ∧ m'.diff.val r q = m.diff.val r q ∧ m'.model.val r q = m.model.val r q) ∧
    m'.out.rows = m.out.rows ∧ m'.out.cols = m.out.cols ∧ m'.diff.rows = m.diff.rows ∧ m'.diff.cols = m.diff.cols ∧
    m'.model.rows = m.model.rows ∧ m'.model.cols = m.model.cols := by
  have hp := hs.points
  obtain ⟨ho, hl⟩ := overlapsFl_points hf hf' hover hover' hp
  obtain ⟨omap, h1, h2, _, hne⟩ := ready_float hifgs htwo hf hover hlab hbulk
  obtain ⟨omap', h1', h2', _, _⟩ := ready_float hifgs' htwo hf' hover' (by rw [hl]; exact hlab) hbulk'
  have : omap' = omap := by
    rw [ho, hl, h1, Except.ok.injEq] at h1'
    exact h1'.symm
  subst this
  obtain ⟨d, hd⟩ := getMaxDegree_ok (shape := imageShape tiles) (n := tiles.tiles.length) (F := F) (by
    simp only [imageShape]
    omega) h2.inside
  have hd' : getMaxDegree ((List.range tiles.tiles.length).map fun j => TileState.start (F' j)) (imageShape tiles) = .ok d := by
    rw [getMaxDegree_points hp]; exact hd
  obtain ⟨k1, k2⟩ := mergeTilesFl_eq (A := A) hifgs htwo hf.read hmethod hbm h1 h2 hd isFile
  obtain ⟨k1', k2'⟩ := mergeTilesFl_eq (A := A) hifgs' htwo hf'.read hmethod' hbm' h1' h2' hd' isFile'
  have fin : ∀ {e : MergeEnv K} {G : Nat → TileFile K} {bk : BulkFile K} {ni : Nat} {fl : Nat → Bool}
      {x : MergedBand K} {j : Nat} {o : List (Nat × MergedBand K)} {res : Except PyErr (MergeResult K)},
      (∀ i < tiles.tiles.length, ∀ c ∈ filePoints (G i), Inside (imageShape tiles) c) →
      ((adjustOk e tiles.tiles.length G omap' d ∨ missing ni fl = []) → res = .ok (.merged ((missing ni fl).map fun i =>
          (i, finalRasterFl A e (imageShape tiles) tiles.tiles.length G omap' d bk.offsets i)))) →
      (¬ (adjustOk e tiles.tiles.length G omap' d ∨ missing ni fl = []) → ∃ er, res = .error er) →
      res = .ok (.merged o) → (j, x) ∈ o →
      adjustOk e tiles.tiles.length G omap' d ∧
        bandRasterFl A (imageShape tiles) tiles.tiles.length G j (finalCorrFl A e G omap' d bk.offsets j) = .ok x := by
    intro e G bk ni fl x j o res hins q1 q2 hres hj
    by_cases hc : adjustOk e tiles.tiles.length G omap' d ∨ missing ni fl = []
    · rw [q1 hc, Except.ok.injEq, MergeResult.merged.injEq] at hres
      subst hres
      obtain ⟨j', hj', e1⟩ := List.mem_map.mp hj
      simp only [Prod.mk.injEq] at e1
      obtain ⟨rfl, rfl⟩ := e1
      refine ⟨hc.resolve_right (List.ne_nil_of_mem hj'), ?_⟩
      obtain ⟨y, hy⟩ := bandRasterFl_ok (A := A) hins j' (finalCorrFl A e G omap' d bk.offsets j')
      rw [hy]
      unfold finalRasterFl
      rw [hy]
    · obtain ⟨er, he⟩ := q2 hc
      rw [he] at hres
      cases hres
  obtain ⟨hok, hras⟩ := fin h2.inside k1 k2 hm hb
  obtain ⟨hok', hras'⟩ := fin h2'.inside k1' k2' hm' hb'
  have hcorr : EqualCorr tiles.tiles.length F (finalCorrFl A env F omap' d bulk.offsets b)
      (finalCorrFl A env' F' omap' d bulk'.offsets b') := by
    unfold finalCorrFl
    refine bandAdjustFl_shared hlin hsim hs ?_ h2.map.once (fun i hi j hj => ⟨h2.map.lt i hi j hj, ?_⟩) d hok
    · intro i hi p hpl
      simp only [bulkAt, hrow]
    · rintro rfl
      exact hne i hi hj
  obtain ⟨a1, a2, a3, a4, a5, a6⟩ := bandRasterFl_shape hras
  obtain ⟨c1, c2, c3, c4, c5, c6⟩ := bandRasterFl_shape hras'
  refine ⟨fun r q hph => rasterFl_same_at h2.inside h2.map.once hp hcorr hras hras' r q hph, ?_⟩
  rw [a1, a2, a3, a4, a5, a6, c1, c2, c3, c4, c5, c6]
  exact ⟨rfl, rfl, rfl, rfl, rfl, rfl⟩

end

end Spurt
