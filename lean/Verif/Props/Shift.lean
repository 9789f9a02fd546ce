import Verif.Lemmas.BulkShift
import Verif.Props.Reference

/-!
# Property C84: a phase added to the acquisitions moves every merged interferogram by one constant
-/

namespace Spurt
open Spec

section
variable {K S : Type} [Field K] [LinearOrder K] [IsStrictOrderedRing K] [FloorRing K]

theorem tile_nonempty_of {j : TileJob K} (hj : GoodJob j) {b : BBox} (hin : TileInImage (j.coh.rows, j.coh.cols) b) {r q : ℤ}
    (hit : InTile b r q) (hv : ValidPixel j r q) : tilePixels j b ≠ [] := by
  obtain ⟨hx0, hx1, hx2, hy0, hy1, hy2⟩ := hin
  simp only at hx2 hy2
  obtain ⟨_, _, hmem, _⟩ := C36_read_tile j.coh j.thr j.dates j.phase (0 : K) b hx0 hx1 hx2
    hy0 hy1 hy2 (fun d im hd => by obtain ⟨a1, a2⟩ := hj.images d im hd; rw [a1, a2]; exact ⟨hx2, hy2⟩)
  unfold InTile at hit
  have : ((r - b.xmin).toNat, (q - b.ymin).toNat) ∈ tilePoints j.coh j.thr b := by
    rw [hmem]
    obtain ⟨v, hv1, hv2⟩ := hv
    refine ⟨by omega, by omega, v, ?_, hv2⟩
    rw [← hv1]
    congr 1 <;> omega
  unfold tilePixels
  intro hc
  rw [List.map_eq_nil_iff] at hc
  rw [hc] at this
  cases this

/-- C84, overlap statistics and bulk offsets. A phase `σ b` per interferogram and `κ b t` cycles per
interferogram and tile are added to the tile files. If the recorded overlaps connect the tiles, the
medians of the cycle differences are whole numbers and the least-squares library is exact, then both
runs record the same overlaps, and the bulk offset of every tile grows by the cycles added to it,
less those added to one common tile. -/
theorem C84_bulk {C : Type} [LinearOrder C] (tau : K) (htau : 0 < tau) (minPoints : ℤ)
    (cc : Nat → List (Nat × Nat) → List Nat) (nifgs : Nat) (tiles : TileSet) (htwo : 2 ≤ tiles.tiles.length)
    (files files' : Nat → Except PyErr (TileFile K)) (F F' : Nat → TileFile K)
    (olap olap' : OverlapFile) (hf : TileFilesOk nifgs tiles files F) (hf' : TileFilesOk nifgs tiles files' F')
    (h : phasediffDeciles id tau minPoints cc tiles files = .ok (some olap))
    (h' : phasediffDeciles id tau minPoints cc tiles files' = .ok (some olap')) (σ : Nat → K) (κ : Nat → Nat → ℤ)
    (hs : Shifted tau tiles.tiles.length nifgs F F' σ κ)
    (hwhole : ∀ i j, (i, j) ∈ olap.overlaps → ∀ b < nifgs, ∃ k : ℤ, IsMedian (cyclesBetween tau (F i) (F j) b) k)
    (hconn : ∀ t < tiles.tiles.length, Relation.ReflTransGen (Adjacent olap.overlaps) 0 t)
    (mip : MipSolver) (lstsq : Lstsq K)
    (hls : ∀ off, off.length = olap.overlaps.length → (∀ row ∈ off, row.length = nifgs) →
      LeastSquares (overlapMatrix olap.overlaps tiles.tiles.length) off
        (lstsq (overlapMatrix olap.overlaps tiles.tiles.length) off) tiles.tiles.length nifgs)
    (coh : Band (Option C)) (thr : C) (bulk bulk' : BulkFile K)
    (hbulk : bulkOffsets mip lstsq "L2" tiles coh thr olap = .ok (some bulk))
    (hbulk' : bulkOffsets mip lstsq "L2" tiles coh thr olap' = .ok (some bulk')) :
    olap'.overlaps = olap.overlaps ∧ olap'.labels = olap.labels ∧
    ∃ r < tiles.tiles.length, ∀ b < nifgs, ∀ t < tiles.tiles.length,
      (bulk'.offsets.getD b []).getD t 0 = (bulk.offsets.getD b []).getD t 0 + ((κ b t - κ b r : ℤ) : K) := by
  obtain ⟨e1, e2⟩ := overlaps_points hf hf' h h' hs.points
  exact ⟨e1, e2, bulk_shift htau htwo hf hf' h h' hs hwhole hconn hls hbulk hbulk'⟩

/-- C84, merge. A phase `σ b` per interferogram and `κ b t` cycles per interferogram and tile are
added to the tile files, and the bulk offsets grow by the cycles of their tile less `k0 b`. Then the
spread raster stays the same and the model raster grows by `σ b` plus `k0 b` cycles, and so does the
merged interferogram wherever it is not exactly half a cycle off the model. -/
theorem C84_merge (tau : K) (htau : 0 < tau) (minPoints : ℤ) (cc : Nat → List (Nat × Nat) → List Nat)
    (nifgs : Nat) (tiles : TileSet) (files files' : Nat → Except PyErr (TileFile K)) (F F' : Nat → TileFile K)
    (env env' : MergeEnv K) (hlin : env'.lin = env.lin) (hsim : env'.simplices = env.simplices)
    (bulk bulk' : BulkFile K) (settings settings' : MergerSettings)
    (h : MergeInput tau minPoints cc nifgs tiles files F env.overlap bulk settings)
    (h' : MergeInput tau minPoints cc nifgs tiles files' F' env'.overlap bulk' settings')
    (σ : Nat → K) (κ : Nat → Nat → ℤ) (hs : Shifted tau tiles.tiles.length nifgs F F' σ κ) (k0 : Nat → ℤ)
    (hbulk : ∀ b < nifgs, ∀ t < tiles.tiles.length,
      (bulk'.offsets.getD b []).getD t 0 = (bulk.offsets.getD b []).getD t 0 + ((κ b t - k0 b : ℤ) : K))
    (isFile isFile' : Nat → Bool) (out out' : List (Nat × MergedBand K))
    (hm : mergeTiles tau env settings tiles files bulk nifgs isFile = .ok (.merged out))
    (hm' : mergeTiles tau env' settings' tiles files' bulk' nifgs isFile' = .ok (.merged out'))
    (b : Nat) (m m' : MergedBand K) (hb : (b, m) ∈ out) (hb' : (b, m') ∈ out') (psi : ℤ × ℤ → K)
    (hpsi : ∀ i < tiles.tiles.length, ∀ (p : Nat) pix, (filePoints (F i))[p]? = some pix →
      ∃ k : ℤ, filePhase (F i) b p = psi pix + k * tau) (r q : Nat) :
    m'.diff.val r q = m.diff.val r q ∧
    m'.model.val r q = (m.model.val r q).map (· + (σ b + k0 b * tau)) ∧
    ((∀ v mean, m.out.val r q = some v → m.model.val r q = some mean → |v - mean| ≠ tau / 2) →
      m'.out.val r q = (m.out.val r q).map (· + (σ b + k0 b * tau))) := by
  obtain ⟨ho, hl⟩ := overlaps_points h.filesOk h'.filesOk h.overlaps h'.overlaps hs.points
  obtain ⟨omap, h1, h2, _⟩ := ready_of_input h
  obtain ⟨d, hd⟩ := getMaxDegree_ok (shape := imageShape tiles) (n := tiles.tiles.length) (F := F) (by
    have := h.image
    simp only [imageShape]
    omega) h2.inside
  obtain ⟨hbn, hr, hok, hras⟩ := merged_band_at h hm hb h1 hd
  obtain ⟨_, hr', hok', hras'⟩ := merged_band_at h' hm' hb' (by rw [ho, hl]; exact h1)
    (by rw [getMaxDegree_points hs.points]; exact hd)
  refine raster_shift htau hr.two hr.inside hr.map.once hr.width hr'.width (fun j hj => hr.bands j hj b hbn)
    (fun j hj => hr'.bands j hj b hbn) hs.points (κ := κ b) (σ := fun _ => σ b) (fun i hi p hp => hs.phase b hbn i hi p hp) ?_ hras hras' hpsi r q
  unfold finalCorr
  refine bandAdjust_moved hlin hsim ?_ hs.points hr.map.lt d hok
  intro i hi p hp
  unfold bandValue
  rw [hs.phase b hbn i hi p hp]
  have := hbulk b hbn i hi
  simp only [bulkAt]
  rw [this]
  push_cast
  ring

/-- C84. Between two completed runs over several tiles, with the default bulk method, a phase `a s` is
added to every acquisition `s`, a phase `β` to every pixel, and whole cycles anywhere. If no two
pixels joined by a link differ by exactly half a cycle, the recorded overlaps connect the tiles, the
medians of the cycle differences of overlapping tiles are whole numbers, and the least-squares
library is exact, then interferogram (s, u) grows by `a u - a s` plus one whole number of cycles, in
the model raster everywhere and in the unwrapped raster wherever it is not exactly half a cycle off
the model; the spread raster stays the same. -/
theorem C84_workflow (P : Flow K S) (hP : GoodFlow P) (htau : 0 < P.tau)
    (himg : 0 < P.job.coh.rows ∧ 0 < P.job.coh.cols) (hmethod : P.merger.bulkMethod = "L2")
    (d1 d1' : Disk K) (h1 : RunByWrite P.stages Disk.empty .completed d1) (j' : TileJob K) (a : Nat → K) (β : ℤ × ℤ → K)
    (hsame : SameStack P.tau P.job j' a β) (h1' : RunByWrite (withJob P j').stages Disk.empty .completed d1')
    (T : TileSet) (hT : d1.readTiles = .ok T) (htwo : 2 ≤ T.tiles.length)
    (hls : ∀ olaps off, off.length = olaps.length → (∀ row ∈ off, row.length = P.job.time.links.length) →
      LeastSquares (overlapMatrix olaps T.tiles.length) off (P.lstsq (overlapMatrix olaps T.tiles.length) off)
        T.tiles.length P.job.time.links.length)
    (htie : ∀ b ∈ T.tiles, NoTieOnTile P.tau P.job b)
    (o : OverlapFile) (ho : d1.overlap = some (.full o))
    (hconn : ∀ t < T.tiles.length, Relation.ReflTransGen (Adjacent o.overlaps) 0 t)
    (hwhole : ∀ i j, (i, j) ∈ o.overlaps → ∀ f g, d1.readTile i = .ok f → d1.readTile j = .ok g →
      ∀ b < P.job.time.links.length, ∃ k : ℤ, IsMedian (cyclesBetween P.tau f g b) k)
    (i s u : Nat) (hl : P.job.time.links[i]? = some (s, u)) :
    ∃ x x' m m' y y', d1.unw i = some (some x) ∧ d1'.unw i = some (some x') ∧ d1.model i = some (some m) ∧
      d1'.model i = some (some m') ∧ d1.diff i = some (some y) ∧ d1'.diff i = some (some y') ∧
      ∃ k : ℤ, ∀ r q : Nat,
        y'.val r q = y.val r q ∧
        m'.val r q = (m.val r q).map (· + (a u - a s + k * P.tau)) ∧
        ((∀ v mean, x.val r q = some v → m.val r q = some mean → |v - mean| ≠ P.tau / 2) →
          x'.val r q = (x.val r q).map (· + (a u - a s + k * P.tau))) := by
  have e1 : j'.coh = P.job.coh := by rw [hsame.rest]
  have e2 : j'.time = P.job.time := by rw [hsame.rest]
  have e3 : j'.settings = P.job.settings := by rw [hsame.rest]
  have e10 : j'.thr = P.job.thr := by rw [hsame.rest]
  have hP' : GoodFlow (withJob P j') := by
    refine ⟨sameStack_good hP.job hsame, hP.solver, hP.tiler, ?_, hP.labels, hP.mip⟩
    show ∃ B : ℤ, Rounding P.fl B ∧ (j'.coh.rows : ℤ) ≤ B ∧ (j'.coh.cols : ℤ) ≤ B
    rw [e1]
    exact hP.size
  have hmask : (withJob P j').mask = P.mask := by
    unfold Flow.mask withJob
    simp only [e1, e10]
  obtain ⟨T0, F, hR⟩ := ref_of_run hP h1
  obtain rfl : T0 = T := by
    have := hR.readTiles
    rw [hT] at this
    simpa using this.symm
  obtain ⟨T1, F', hR'⟩ := ref_of_run hP' h1'
  obtain rfl : T1 = T0 := by
    have x1 := hR'.tiles
    have x2 := hR.tiles
    have : makeTiles P.sc P.fl P.useTiles P.tiler P.job.coh.cols P.mask = .ok T1 := by
      rw [← hmask, ← e1]; exact x1
    rw [x2] at this
    simpa using this.symm
  set T := T1 with hTdef
  have hn : T.tiles.length ≠ 1 := by omega
  obtain ⟨hshape, hpos, hin⟩ := flow_tiles hP hR.tiles
  obtain ⟨hshape', _, hin'⟩ := flow_tiles hP' hR'.tiles
  obtain ⟨oT, oS, hoT, hoS, hF⟩ := hR.work
  obtain ⟨oT', oS', hoT', hoS', hF'⟩ := hR'.work
  obtain ⟨hf, hpts, hph⟩ := tileFilesOk_of_unwrap P.tau P.solver hP.solver P.job hP.job T hshape hin oT oS hoT hoS
    d1.readTile F (fun t ht => hR.readTile ht) hF
  obtain ⟨hf', hpts', hph'⟩ := tileFilesOk_of_unwrap P.tau P.solver hP.solver j' hP'.job T hshape' hin' oT' oS' hoT' hoS'
    d1'.readTile F' (fun t ht => hR'.readTile ht) hF'
  rw [e2] at hf'
  set nifgs := P.job.time.links.length with hnifgs
  have hi : i < nifgs := (List.getElem?_eq_some_iff.mp hl).1
  -- the tile files of the second run
  set σ : Nat → K := fun b => a (P.job.time.links.getD b (0, 0)).2 - a (P.job.time.links.getD b (0, 0)).1 with hσ
  have hkap : ∀ b t : Nat, ∃ k : ℤ, b < nifgs → t < T.tiles.length → filePoints (F' t) = filePoints (F t) ∧
      ∀ p < (F t).points.length, filePhase (F' t) b p = filePhase (F t) b p + σ b + (k : K) * P.tau := by
    intro b t
    by_cases hbt : b < nifgs ∧ t < T.tiles.length
    · obtain ⟨hb, ht⟩ := hbt
      obtain ⟨f', g1, g2, g3, g4, g5, _⟩ := C79_tile P.tau htau P.solver P.job j' hP.job a β hsame T t _
        (List.getElem?_eq_getElem ht) (hin _ (List.getElem_mem ht)) (htie _ (List.getElem_mem ht)) (oT t) (oT' t) (oS t) (oS' t) (hoT t) (hoT' t)
        (hoS t) (hoS' t) (F t) (hF t ht)
      have hff : F' t = f' := by
        have x1 : unwrapOneTile P.tau P.solver j' T t (oT' t) (oS' t) = .ok (F' t) := hF' t ht
        rw [g1] at x1
        cases x1
        rfl
      have hpe : filePoints (F' t) = filePoints (F t) := by
        unfold filePoints
        rw [hff, g3, g4]
      by_cases hex : tilePixels P.job T.tiles[t] = []
      · refine ⟨0, fun _ _ => ⟨hpe, fun p hp => ?_⟩⟩
        exfalso
        have hmem := List.getElem_mem (l := filePoints (F t)) (n := p) (by rw [filePoints_length]; exact hp)
        generalize (filePoints (F t))[p]'(by rw [filePoints_length]; exact hp) = pix at hmem
        obtain ⟨r, q⟩ := pix
        obtain ⟨bb, hbb, hit, hvp⟩ := (hpts t ht r q).mp hmem
        rw [List.getElem?_eq_getElem ht, Option.some.injEq] at hbb
        subst hbb
        have : tilePixels P.job T.tiles[t] ≠ [] := tile_nonempty_of hP.job (hin _ (List.getElem_mem ht)) hit hvp
        exact this hex
      · obtain ⟨k, hk⟩ := g5 hex b (P.job.time.links.getD b (0, 0)).1 (P.job.time.links.getD b (0, 0)).2 (by
          rw [List.getD_eq_getElem _ _ hb, List.getElem?_eq_getElem hb])
        refine ⟨k, fun _ _ => ⟨hpe, fun p hp => ?_⟩⟩
        unfold filePhase
        rw [hff, g2, hk]
        simp only [hσ]
        ring
    · exact ⟨0, fun h1 h2 => absurd ⟨h1, h2⟩ hbt⟩
  choose κ hκ using hkap
  have hsh : Shifted P.tau T.tiles.length nifgs F F' σ κ :=
    ⟨fun t ht => (hκ i t hi ht).1, fun b hb t ht p hp => (hκ b t hb ht).2 p hp⟩
  -- the later stages
  obtain ⟨st, bk, M, r1, r2, r3, _, r5, rU⟩ := hR.many hn
  obtain ⟨st', bk', M', r1', r2', r3', _, r5', rU'⟩ := hR'.many hn
  have hoe : o.overlaps = (P.olap T st).overlaps := by
    rw [r2, Option.some.injEq] at ho
    have := congrArg OverlapH5.overlaps ho
    simpa [OverlapH5.full] using this.symm
  have hover := Ref.overlaps (P := P) (F := F) hn r1
  have hover' := Ref.overlaps (P := withJob P j') (F := F') hn r1'
  have hlab : (P.olap T st).labels.length = T.tiles.length := hP.labels _ _
  have hlab' : ((withJob P j').olap T st').labels.length = T.tiles.length := hP.labels _ _
  obtain ⟨hbm, hbo⟩ := bulk_shape hP.mip hn hlab (fun med hmed => median_rows hf hover hmed) r3
  obtain ⟨hbm', hbo'⟩ := bulk_shape hP'.mip hn hlab' (fun med hmed => median_rows hf' hover' hmed) r3'
  have r3a := r3
  have r3b : bulkOffsets P.mip P.lstsq P.merger.bulkMethod T P.job.coh P.job.thr ((withJob P j').olap T st') = .ok (some bk') := by
    rw [← e1, ← e10]; exact r3'
  rw [hmethod] at r3a r3b
  obtain ⟨_, _, ref, href, hbk⟩ := C84_bulk P.tau htau P.merger.minOverlapPoints P.cc nifgs T htwo d1.readTile d1'.readTile F F'
    (P.olap T st) ((withJob P j').olap T st') hf hf' hover hover' σ κ hsh (by
      intro i j hij b hb
      rw [← hoe] at hij
      have hlt : i < T.tiles.length ∧ j < T.tiles.length := by
        obtain ⟨hsub, _⟩ := C53_recorded P.tau P.merger.minOverlapPoints P.cc T d1.readTile _ hover
        rw [hoe] at hij
        obtain ⟨_, a, b, h2, h3, _⟩ := ((C25_overlaps T).1 i j).mp (hsub.subset hij)
        exact ⟨(List.getElem?_eq_some_iff.mp h2).1, (List.getElem?_eq_some_iff.mp h3).1⟩
      exact hwhole i j hij _ _ (hR.readTile hlt.1) (hR.readTile hlt.2) b hb)
    (by rw [← hoe]; exact hconn) P.mip P.lstsq (fun off e1 e2 => hls _ off e1 e2) P.job.coh P.job.thr bk bk' r3a r3b
  have hbo1 : BulkOk nifgs T.tiles.length (⟨bk.method, bk.offsets, []⟩ : BulkFile K) := ⟨hbo.rows, hbo.cols⟩
  have hbo2 : BulkOk nifgs T.tiles.length (⟨bk'.method, bk'.offsets, []⟩ : BulkFile K) := ⟨hbo'.rows, hbo'.cols⟩
  have hin1 : MergeInput P.tau P.merger.minOverlapPoints P.cc nifgs T d1.readTile F (P.olap T st)
      ⟨bk.method, bk.offsets, []⟩ P.merger :=
    ⟨htwo, by rw [hshape]; simp only; omega, by omega, hf, hover, hlab, hbo1, hR.method, hbm⟩
  have hin2 : MergeInput P.tau P.merger.minOverlapPoints P.cc nifgs T d1'.readTile F' ((withJob P j').olap T st')
      ⟨bk'.method, bk'.offsets, []⟩ P.merger :=
    ⟨htwo, by rw [hshape]; simp only; omega, by omega, hf', hover', hlab', hbo2, hR.method, hbm'⟩
  have hmem : ∀ M : Nat → MergedBand K, (i, M i) ∈ ((List.range nifgs).filter fun _ => !false).map fun i => (i, M i) :=
    fun M => List.mem_map.mpr ⟨i, List.mem_filter.mpr ⟨List.mem_range.mpr hi, rfl⟩, rfl⟩
  have r5c : mergeTiles P.tau ⟨P.lin, P.simplices, (withJob P j').olap T st'⟩ P.merger T d1'.readTile ⟨bk'.method, bk'.offsets, []⟩
      nifgs (fun _ => false) = .ok (.merged (((List.range nifgs).filter fun _ => !false).map fun i => (i, M' i))) := by
    have := r5' fun _ => false
    simp only [withJob, e2] at this
    exact this
  refine ⟨(M i).out, (M' i).out, (M i).model, (M' i).model, (M i).diff, (M' i).diff, by rw [(rU i).1, if_pos hi],
    by rw [(rU' i).1, if_pos (by simp only [withJob, e2]; exact hi)], by rw [(rU i).2.2, if_pos hi],
    by rw [(rU' i).2.2, if_pos (by simp only [withJob, e2]; exact hi)], by rw [(rU i).2.1, if_pos hi],
    by rw [(rU' i).2.1, if_pos (by simp only [withJob, e2]; exact hi)], κ i ref, fun r q => ?_⟩
  have hσi : σ i = a u - a s := by
    simp only [hσ, List.getD_eq_getElem?_getD, hl, Option.getD_some]
  have key := C84_merge P.tau htau P.merger.minOverlapPoints P.cc nifgs T d1.readTile d1'.readTile F F'
    ⟨P.lin, P.simplices, P.olap T st⟩ ⟨P.lin, P.simplices, (withJob P j').olap T st'⟩ rfl rfl _ _ P.merger P.merger hin1 hin2
    σ κ hsh (fun b => κ b ref) hbk (fun _ => false) (fun _ => false) _ _ (r5 fun _ => false) r5c i (M i) (M' i) (hmem M) (hmem M')
    (fun pix => stackIfg P.tau P.job s u pix.1.toNat pix.2.toNat) (fun t ht p pix hp => hph t ht i s u hl p pix hp) r q
  rw [hσi] at key
  exact key

end

end Spurt
