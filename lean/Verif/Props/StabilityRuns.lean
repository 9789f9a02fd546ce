import Verif.Props.Stability
import Verif.Lemmas.FloatOverlap

/-!
# C92, continued: the changed stack is unwrapped to the end, with the same overlap file
-/

namespace Spurt
open Spec

section
variable {K S : Type} [Field K] [LinearOrder K] [IsStrictOrderedRing K] [FloorRing K]

/-- The overlap files agree when all pairs contribute the same. -/
theorem phasediffDeciles_congr {wrap : ℤ → ℤ} {tau : K} {minPoints : ℤ}
    {cc : Nat → List (Nat × Nat) → List Nat} {tiles : TileSet} {files files' : Nat → Except PyErr (TileFile K)}
    (h : ∀ p ∈ tiles.getOverlaps, groupGen (pairwiseDeciles tau) wrap minPoints (loadEx tiles files) p =
      groupGen (pairwiseDeciles tau) wrap minPoints (loadEx tiles files') p) {olap : Option OverlapFile}
    (hf : phasediffDeciles wrap tau minPoints cc tiles files = .ok olap) :
    phasediffDeciles wrap tau minPoints cc tiles files' = .ok olap := by
  unfold phasediffDeciles at hf ⊢
  by_cases h1 : tiles.tiles.length = 1
  · rw [if_pos h1] at hf ⊢; exact hf
  · rw [if_neg h1] at hf ⊢
    have e1 := loopGen_eq (st := pairwiseDeciles tau) (wrap := wrap) (minPoints := minPoints)
      (load := loadEx tiles files) tiles.getOverlaps (s := ⟨none, none, []⟩) (heldOk_none _) (heldOk_none _)
    have e2 := loopGen_eq (st := pairwiseDeciles tau) (wrap := wrap) (minPoints := minPoints)
      (load := loadEx tiles files') tiles.getOverlaps (s := ⟨none, none, []⟩) (heldOk_none _) (heldOk_none _)
    rw [mapM_congr_mem h, ← e2] at e1
    change (do
      let s ← tiles.getOverlaps.foldlM (stepGen (pairwiseDeciles tau) wrap minPoints (loadEx tiles files)) ⟨none, none, []⟩
      _) = _ at hf
    change (do
      let s ← tiles.getOverlaps.foldlM (stepGen (pairwiseDeciles tau) wrap minPoints (loadEx tiles files')) ⟨none, none, []⟩
      _) = _
    cases ha : tiles.getOverlaps.foldlM (stepGen (pairwiseDeciles tau) wrap minPoints (loadEx tiles files)) ⟨none, none, []⟩ with
    | error e => rw [ha] at hf; cases hf
    | ok s =>
      rw [ha] at hf e1
      cases hb : tiles.getOverlaps.foldlM (stepGen (pairwiseDeciles tau) wrap minPoints (loadEx tiles files')) ⟨none, none, []⟩ with
      | error e => rw [hb] at e1; simp [Except.map] at e1
      | ok s' =>
        rw [hb] at e1
        simp only [Except.map, Except.ok.injEq] at e1
        simp only [Bind.bind, Except.bind, pure, Except.pure] at hf ⊢
        rw [← e1]
        exact hf

theorem pairwiseDeciles_congr {tau : K} {a1 a2 b1 b2 : NdArray K} {nb n : Nat} (ha1 : a1.shape = [nb, n]) (ha2 : a2.shape = [nb, n])
    (hb1 : b1.shape = [nb, n]) (hb2 : b2.shape = [nb, n])
    (h : ∀ r < nb, ∀ p < n, b2.get [r, p] - b1.get [r, p] = a2.get [r, p] - a1.get [r, p]) :
    pairwiseDeciles tau b1 b2 = pairwiseDeciles tau a1 a2 := by
  have hc : ∀ r < nb, ∀ p < n, cycleDiff tau b1 b2 [r, p] = cycleDiff tau a1 a2 [r, p] := fun r hr p hp => by
    unfold cycleDiff
    rw [h r hr p hp]
  have hk : ∀ r < nb, ∀ p < n, closeToCycle tau b1 b2 [r, p] = closeToCycle tau a1 a2 [r, p] := fun r hr p hp => by
    unfold closeToCycle
    rw [h r hr p hp, hc r hr p hp]
  have hall : (cart [List.range nb, List.range n]).all (closeToCycle tau b1 b2) =
      (cart [List.range nb, List.range n]).all (closeToCycle tau a1 a2) := by
    have : ∀ l : List (List Nat), (∀ x ∈ l, ∃ r < nb, ∃ p < n, x = [r, p]) →
        l.all (closeToCycle tau b1 b2) = l.all (closeToCycle tau a1 a2) := by
      intro l
      induction l with
      | nil => intro _; rfl
      | cons x l ih =>
        intro hx
        obtain ⟨r, hr, p, hp, rfl⟩ := hx x List.mem_cons_self
        rw [List.all_cons, List.all_cons, hk r hr p hp, ih fun y hy => hx y (List.mem_cons_of_mem _ hy)]
    refine this _ fun x hx => ?_
    simp only [cart, List.flatMap_cons, List.mem_flatMap, List.mem_map, List.mem_range] at hx
    aesop
  unfold pairwiseDeciles
  rw [ha1, ha2, hb1, hb2]
  simp only [ne_eq, not_true_eq_false, if_false]
  rw [hall]
  congr 3
  apply List.map_congr_left
  intro r hr
  congr 1
  apply List.map_congr_left
  intro p hp
  exact hc r (List.mem_range.mp hr) p (List.mem_range.mp hp)

/-- C92, overlap stage. If the tile files change by `ε` of the pixel - the same change in every tile - and the first call completes,
so does the second, with exactly the same overlap file. -/
theorem C92_overlaps (tau : K) (minPoints : ℤ) (cc : Nat → List (Nat × Nat) → List Nat) (nifgs : Nat) (tiles : TileSet)
    (files files' : Nat → Except PyErr (TileFile K)) (F F' : Nat → TileFile K)
    (hf : TileFilesOk nifgs tiles files F) (hf' : TileFilesOk nifgs tiles files' F') (ε : Nat → ℤ × ℤ → K)
    (hc : TilesChanged tiles.tiles.length nifgs F F' ε) (olap : Option OverlapFile)
    (h : phasediffDeciles id tau minPoints cc tiles files = .ok olap) :
    phasediffDeciles id tau minPoints cc tiles files' = .ok olap := by
  refine phasediffDeciles_congr ?_ h
  rintro ⟨i, j⟩ hij
  obtain ⟨_, bi, bj, hbi, hbj, _⟩ := ((C25_overlaps tiles).1 i j).mp hij
  have hi := (List.getElem?_eq_some_iff.mp hbi).1
  have hj := (List.getElem?_eq_some_iff.mp hbj).1
  have hload : ∀ (files : Nat → Except PyErr (TileFile K)) F, TileFilesOk nifgs tiles files F → ∀ t b, tiles.tiles[t]? = some b →
      loadEx tiles files t = .ok (filePoints (F t), imagePhase (F t)) := by
    intro files F hf t b hb
    unfold loadEx
    rw [hb, hf.read t (List.getElem?_eq_some_iff.mp hb).1]
    have := hf.box t b hb
    subst this
    rfl
  unfold groupGen
  simp only [hload files F hf i bi hbi, hload files F hf j bj hbj, hload files' F' hf' i bi hbi, hload files' F' hf' j bj hbj,
    Bind.bind, Except.bind]
  rw [hc.points i hi, hc.points j hj]
  cases hcp : findCommonPoints id (filePoints (F i)) (filePoints (F j)) with
  | error e => rfl
  | ok cs =>
  obtain ⟨c1, c2⟩ := cs
  simp only
  obtain ⟨_, ps, _, hps, hc1, hc2⟩ := commonPoints_count hcp
  have hl1 : c1.length = ps.length := by simpa using congrArg List.length hc1
  have hl2 : c2.length = ps.length := by simpa using congrArg List.length hc2
  have hlen : ∀ (files : Nat → Except PyErr (TileFile K)) F, TileFilesOk nifgs tiles files F → ∀ t < tiles.tiles.length,
      (imagePhase (F t)).length = nifgs := by
    intro files F hf t ht
    obtain ⟨e1, e2⟩ := hf.bands t ht
    simp [imagePhase, e1, e2]
  have hval : ∀ (files : Nat → Except PyErr (TileFile K)) F, TileFilesOk nifgs tiles files F → ∀ t < tiles.tiles.length,
      ∀ cs : List Nat, cs.map ((filePoints (F t))[·]?) = ps.map some → ∀ r < nifgs, ∀ p < ps.length,
        (selectColumns (imagePhase (F t)) cs).get [r, p] = filePhase (F t) r (cs.getD p 0) ∧
        (filePoints (F t))[cs.getD p 0]? = some (ps.getD p (0, 0)) := by
    intro files F hf t ht cs hcs r hr p hp
    have hcl : cs.length = ps.length := by simpa using congrArg List.length hcs
    obtain ⟨e1, e2⟩ := hf.bands t ht
    have hget := congrArg (·[p]?) hcs
    have hpc : p < cs.length := by omega
    simp only [List.getElem?_map, List.getElem?_eq_getElem hpc, List.getElem?_eq_getElem hp, Option.map_some,
      Option.some.injEq] at hget
    have hpl := (List.getElem?_eq_some_iff.mp hget).1
    rw [filePoints_length] at hpl
    have hrow : ((F t).uw.getD r []).length = (F t).points.length := by
      rw [List.getD_eq_getElem _ _ (by omega)]
      exact hf.rows t ht _ (List.getElem_mem _)
    refine ⟨?_, by rw [List.getD_eq_getElem cs _ hpc, List.getD_eq_getElem ps _ hp]; exact hget⟩
    simp only [selectColumns]
    rw [List.getD_eq_getElem cs _ hpc]
    exact imagePhase_getD (by omega) (by omega) (by omega)
  rw [pairwiseDeciles_congr (a1 := selectColumns (imagePhase (F' i)) c1) (a2 := selectColumns (imagePhase (F' j)) c2)
    (b1 := selectColumns (imagePhase (F i)) c1) (b2 := selectColumns (imagePhase (F j)) c2) (nb := nifgs) (n := ps.length)
    (by simp [selectColumns, hlen files' F' hf' i hi, hl1]) (by simp [selectColumns, hlen files' F' hf' j hj, hl2])
    (by simp [selectColumns, hlen files F hf i hi, hl1]) (by simp [selectColumns, hlen files F hf j hj, hl2]) ?_]
  intro r hr p hp
  obtain ⟨v1, w1⟩ := hval files F hf i hi c1 hc1 r hr p hp
  obtain ⟨v2, w2⟩ := hval files F hf j hj c2 hc2 r hr p hp
  obtain ⟨v1', _⟩ := hval files' F' hf' i hi c1 (by rw [hc.points i hi]; exact hc1) r hr p hp
  obtain ⟨v2', _⟩ := hval files' F' hf' j hj c2 (by rw [hc.points j hj]; exact hc2) r hr p hp
  rw [v1, v2, v1', v2', hc.phase r hr i hi _ _ w1, hc.phase r hr j hj _ _ w2]
  ring

omit [IsStrictOrderedRing K] [FloorRing K] in
/-- Whether all corrections can be computed depends on the pixels of the tiles only. -/
theorem adjustOk_points {env : MergeEnv K} {n : Nat} {F F' : Nat → TileFile K} {omap : List (List Nat)}
    (hp : ∀ i < n, filePoints (F' i) = filePoints (F i)) (hlt : ∀ i < n, ∀ j ∈ omap.getD i [], j < n) {d : Nat}
    (h : adjustOk env n F omap d) : adjustOk env n F' omap d := by
  intro e he i hi ht
  have hlen := points_length_of (hp i hi)
  have hmask : maskAt F' omap e i = maskAt F omap e i := by
    funext q
    unfold maskAt
    rw [cntAt_points hp (hlt i hi) hi]
  have ht' : touched F omap e i = true := by
    rw [← ht]
    unfold touched
    rw [hlen, hmask]
  obtain ⟨a, a1, a2, a3⟩ := h e he i hi ht'
  exact ⟨a, by rw [hp i hi]; exact a1, by rw [hlen]; exact a2, by rw [hmask]; exact a3⟩

omit [IsStrictOrderedRing K] in
/-- Reads of tile files. -/
theorem full_reads {n : Nat} {F : Nat → TileFile K} {d1 : Disk K}
    (h : ∀ t, d1.tile t = if t < n then some (TileH5.full (F t)) else none) : ∀ t < n, d1.readTile t = .ok (F t) := by
  intro t ht
  unfold Disk.readTile
  rw [h t, if_pos ht]
  rfl

/-- C92. The stack changes by `ε`, up to whole cycles, and no wrapping decision flips on any tile. If the workflow has completed on
the first stack, it completes on the second, in every completed run it leaves the same tiles, the same overlap file and the same
bulk offsets, and a tile file for every tile with the same pixels. -/
theorem C92_completes (P : Flow K S) (hP : GoodFlow P) (htau : 0 < P.tau)
    (himg : 0 < P.job.coh.rows ∧ 0 < P.job.coh.cols) (hifgs : P.job.time.links ≠ [])
    (d1 : Disk K) (h1 : RunByWrite P.stages Disk.empty .completed d1) (j' : TileJob K) (ε : Nat → ℤ × ℤ → K)
    (hch : ChangedBy P.tau P.job j' ε)
    (T : TileSet) (hT : d1.readTiles = .ok T) (htwo : 2 ≤ T.tiles.length)
    (hcs : ∀ b ∈ T.tiles, PlanarContract (tileGraph P.job b).npoints (tileGraph P.job b).links (tileGraph P.job b).cycles)
    (hflip : ∀ b ∈ T.tiles, NoFlipOnTile P.tau P.job ε b ∧ NoFlipAtFirst P.tau P.job ε b) :
    (∃ d1', RunByWrite (withJob P j').stages Disk.empty .completed d1') ∧
    ∀ o d1', RunByWrite (withJob P j').stages Disk.empty o d1' → o ≠ .raised ∧
      (o = .completed → d1'.tiles = d1.tiles ∧ d1'.overlap = d1.overlap ∧ d1'.offsets = d1.offsets ∧
        ∀ t, t < T.tiles.length → ∃ f f', d1.tile t = some (TileH5.full f) ∧ d1'.tile t = some (TileH5.full f') ∧
          f'.points = f.points ∧ f'.tile = f.tile) := by
  have e1 : j'.coh = P.job.coh := by rw [hch.rest]
  have e2 : j'.time = P.job.time := by rw [hch.rest]
  have e3 : j'.settings = P.job.settings := by rw [hch.rest]
  have e10 : j'.thr = P.job.thr := by rw [hch.rest]
  have hj' : GoodJob j' := changedBy_good hP.job hch
  have hmask : (withJob P j').mask = P.mask := by
    unfold Flow.mask withJob
    simp only [e1, e10]
  obtain ⟨T0, F, hR⟩ := ref_of_run hP h1
  obtain rfl : T0 = T := by
    have := hR.readTiles
    rw [hT] at this
    simpa using this.symm
  set T := T0 with hTdef
  have hn : T.tiles.length ≠ 1 := by omega
  obtain ⟨hshape, hpos, hin⟩ := flow_tiles hP hR.tiles
  obtain ⟨oT, oS, hoT, hoS, hF⟩ := hR.work
  obtain ⟨hf, hpts, hph⟩ := tileFilesOk_of_unwrap P.tau P.solver hP.solver P.job hP.job T hshape hin oT oS hoT hoS
    d1.readTile F (fun t ht => hR.readTile ht) hF
  set nifgs := P.job.time.links.length with hnifgs
  haveI : Inhabited (TileFile K) := ⟨⟨[], [], ⟨0, 0, 0, 0⟩, []⟩⟩
  have hex : ∀ t, ∃ f', t < T.tiles.length → unwrapOneTile P.tau P.solver j' T t (oT t) (oS t) = .ok f' ∧
      f'.points = (F t).points ∧ f'.tile = (F t).tile := by
    intro t
    by_cases ht : t < T.tiles.length
    · have hm := List.getElem_mem ht
      obtain ⟨f', g1, g2, g3, _⟩ := C92_tile P.tau htau P.solver P.job j' hP.job ε hch T t _ (List.getElem?_eq_getElem ht) (hin _ hm)
        (hcs _ hm) (hflip _ hm).1 (hflip _ hm).2 (oT t) (oT t) (oS t) (oS t) (hoT t) (hoT t) (hoS t) (hoS t) (F t) (hF t ht)
      exact ⟨f', fun _ => ⟨g1, g2, g3⟩⟩
    · exact ⟨default, fun h => absurd h ht⟩
  choose F' hF' using hex
  have hsh : TilesChanged T.tiles.length nifgs F F' (ifgChange P.job.time ε) :=
    tiles_changed htau hP.job hch hin hcs hflip hoT hoT hoS hoS hF fun t ht => (hF' t ht).1
  obtain ⟨st, bk, M, r1, r2, r3, r4, r5, rU⟩ := hR.many hn
  -- the files the second run leaves before the merge
  set files : Nat → Except PyErr (TileFile K) := fun t => if t < T.tiles.length then .ok (F' t) else .error .fileNotFound with hfiles
  have hread' : ∀ t < T.tiles.length, files t = .ok (F' t) := fun t ht => by simp [hfiles, ht]
  have hshape' : T.shape = ((j'.coh.rows : ℤ), (j'.coh.cols : ℤ)) := by rw [e1]; exact hshape
  have hin' : ∀ b ∈ T.tiles, TileInImage (j'.coh.rows, j'.coh.cols) b := by rw [e1]; exact hin
  obtain ⟨hf', hpts', hph'⟩ := tileFilesOk_of_unwrap P.tau P.solver hP.solver j' hj' T hshape' hin' oT oS hoT hoS
    files F' hread' fun t ht => (hF' t ht).1
  rw [e2] at hf'
  have hover := Ref.overlaps (P := P) (F := F) hn r1
  have hover' := C92_overlaps P.tau P.merger.minOverlapPoints P.cc nifgs T d1.readTile files F F' hf hf' _ hsh _ hover
  obtain ⟨st', hst, hst'⟩ : ∃ st', overlapRun P.tau P.merger.minOverlapPoints (loadFrom T files) T.getOverlaps ⟨none, none, []⟩ = (st', false) ∧
      P.olap T st = P.olap T st' := by
    unfold phasediffDeciles at hover'
    rw [if_neg hn] at hover'
    simp only [Bind.bind, Except.bind] at hover'
    split at hover'
    · simp at hover'
    rename_i st' hst
    simp only [pure, Except.pure, Except.ok.injEq, Option.some.injEq] at hover'
    exact ⟨st', (overlapRun_eq _ _ _ _ _ _).mpr hst, hover'.symm⟩
  have hlab : (P.olap T st).labels.length = T.tiles.length := hP.labels _ _
  obtain ⟨hbm, hbo⟩ := bulk_shape hP.mip hn hlab (fun med hmed => median_rows hf hover hmed) r3
  have hbo1 : BulkOk nifgs T.tiles.length (⟨bk.method, bk.offsets, []⟩ : BulkFile K) := ⟨hbo.rows, hbo.cols⟩
  have hni : 0 < nifgs := List.length_pos_iff.mpr hifgs
  have hin1 : MergeInput P.tau P.merger.minOverlapPoints P.cc nifgs T d1.readTile F (P.olap T st)
      ⟨bk.method, bk.offsets, []⟩ P.merger :=
    ⟨htwo, by rw [hshape]; simp only; omega, hni, hf, hover, hlab, hbo1, hR.method, hbm⟩
  have hin2 : MergeInput P.tau P.merger.minOverlapPoints P.cc nifgs T files F' (P.olap T st)
      ⟨bk.method, bk.offsets, []⟩ P.merger :=
    ⟨htwo, by rw [hshape]; simp only; omega, hni, hf', hover', hlab, hbo1, hR.method, hbm⟩
  obtain ⟨omap, o1, o2, _⟩ := ready_of_input hin1
  obtain ⟨omap', o1', o2', _⟩ := ready_of_input hin2
  rw [o1, Except.ok.injEq] at o1'
  subst o1'
  obtain ⟨d, hd⟩ := getMaxDegree_ok (shape := imageShape T) (n := T.tiles.length) (F := F) (by
    have := hin1.image
    simp only [imageShape]
    omega) o2.inside
  obtain ⟨k1, k2⟩ := mergeTiles_eq (env := ⟨P.lin, P.simplices, P.olap T st⟩) hin1 o1 o2 hd (fun _ => false)
  have hok : adjustOk ⟨P.lin, P.simplices, P.olap T st⟩ T.tiles.length F omap d := by
    by_contra hno
    obtain ⟨e, he⟩ := k2 (by
      rintro (h | h)
      · exact hno h
      · have := congrArg List.length h
        simp [missing] at this
        omega)
    rw [r5] at he
    cases he
  have hok' := adjustOk_points hsh.points (o2.map.lt) hok
  have hd' : getMaxDegree ((List.range T.tiles.length).map fun j => TileState.start (F' j)) (imageShape T) = .ok d := by
    rw [getMaxDegree_points hsh.points]; exact hd
  set M' : Nat → MergedBand K := fun i =>
    finalRaster P.tau ⟨P.lin, P.simplices, P.olap T st⟩ (imageShape T) T.tiles.length F' omap d bk.offsets i with hM'
  have hmerge : ∀ isFile, mergeTiles P.tau ⟨P.lin, P.simplices, P.olap T st⟩ P.merger T files ⟨bk.method, bk.offsets, []⟩
      nifgs isFile = .ok (.merged ((missing nifgs isFile).map fun i => (i, M' i))) := fun isFile =>
    (mergeTiles_eq (env := ⟨P.lin, P.simplices, P.olap T st⟩) hin2 o1 o2' hd' isFile).1 (Or.inl hok')
  -- the folder
  set e : Disk K := ⟨some (some T.toJson), fun t => if t < T.tiles.length then some (TileH5.full (F' t)) else none,
    some (OverlapH5.full (P.olap T st)), some (OffsetsH5.full bk),
    fun i => if i < nifgs then some (some (M' i).out) else none, fun i => if i < nifgs then some (some (M' i).diff) else none,
    fun i => if i < nifgs then some (some (M' i).model) else none⟩ with he
  have hrd : e.readTile = files := by
    funext t
    simp only [Disk.readTile, he, hfiles]
    split <;> rename_i hx <;> split at hx <;> simp_all
    subst hx
    rfl
  have hR' : Ref (withJob P j') e T F' := by
    refine ⟨?_, rfl, ?_, ⟨oT, oS, hoT, hoS, fun t ht => (hF' t ht).1⟩, fun _ => rfl, hR.method, fun hc => absurd hc hn, fun _ => ?_⟩
    · rw [hmask]
      show makeTiles P.sc P.fl P.useTiles P.tiler j'.coh.cols P.mask = _
      rw [e1]
      exact hR.tiles
    · show processPool j'.settings.numParallelTiles = _
      rw [e3]
      exact hR.pool
    · refine ⟨st', bk, M', by rw [hrd]; exact hst, ?_, ?_, rfl, fun isFile => ?_, fun i => ?_⟩
      · show some (OverlapH5.full (P.olap T st)) = some (OverlapH5.full (P.olap T st'))
        rw [hst']
      · show bulkOffsets P.mip P.lstsq P.merger.bulkMethod T j'.coh j'.thr (P.olap T st') = _
        rw [e1, e10, ← hst']
        exact r3
      · show mergeTiles P.tau ⟨P.lin, P.simplices, P.olap T st'⟩ P.merger T e.readTile ⟨bk.method, bk.offsets, []⟩
          j'.time.links.length isFile = _
        rw [hrd, ← hst', e2]
        show mergeTiles P.tau ⟨P.lin, P.simplices, P.olap T st⟩ P.merger T files ⟨bk.method, bk.offsets, []⟩
          nifgs isFile = .ok (.merged (((List.range j'.time.links.length).filter fun i => !isFile i).map fun i => (i, M' i)))
        rw [e2]
        exact hmerge isFile
      · show e.unw i = (if i < j'.time.links.length then _ else _) ∧ e.diff i = (if i < j'.time.links.length then _ else _) ∧
          e.model i = (if i < j'.time.links.length then _ else _)
        rw [e2]
        exact ⟨rfl, rfl, rfl⟩
  have hst0 := stagesOk hj' hR'
  refine ⟨?_, fun o d1' h => ?_⟩
  · obtain ⟨d', hr⟩ := resume_exists hst0 (subDisk_empty _) (fun s hs => absurd hs (Nat.not_lt_zero _))
    exact ⟨d', Run.byWrite hr⟩
  · obtain ⟨a, b⟩ := resume_byWrite hst0 (subDisk_empty _) (fun s hs => absurd hs (Nat.not_lt_zero _)) h
    refine ⟨a, fun ho => ?_⟩
    obtain rfl : d1' = e := agree_eq (b ho).2
    refine ⟨by rw [hR.tiles1], by rw [r2], by rw [r4], fun t ht => ⟨F t, F' t, by rw [hR.tile1, if_pos ht], ?_, (hF' t ht).2⟩⟩
    show (if t < T.tiles.length then some (TileH5.full (F' t)) else none) = _
    rw [if_pos ht]

end

end Spurt
