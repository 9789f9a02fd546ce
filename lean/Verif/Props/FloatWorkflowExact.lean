import Verif.Props.FloatTileUnwrap
import Verif.Props.FloatSize
import Verif.Lemmas.FloatBulkFile
import Verif.Props.EndResult

/-!
# Property C71: without rounding, the mixed precision workflow is the workflow of the stages
-/

namespace Spurt
open Spec

section
variable {K S : Type} [Field K] [LinearOrder K] [IsStrictOrderedRing K] [FloorRing K]

/-- No rounding, with the tolerance of the flood fill. -/
def Spec.noRounding (tau : K) : FloatArith K := ⟨id, id, tau, tau, 1 / 1000⟩

omit [IsStrictOrderedRing K] in
theorem mergeTilesFl_congr {A : FloatArith K} {env : MergeEnv K} {settings : MergerSettings} {tiles : TileSet}
    {f f' : Nat → Except PyErr (TileFile K)} (h : ∀ t < tiles.tiles.length, f t = f' t) {bulk : BulkFile K} {n : Nat} {p : Nat → Bool} :
    mergeTilesFl A env settings tiles f bulk n p = mergeTilesFl A env settings tiles f' bulk n p := by
  unfold mergeTilesFl
  have e : ((List.range tiles.tiles.length).mapM fun ii => do
      let f ← f ii
      pure (TileState.start f)) = ((List.range tiles.tiles.length).mapM fun ii => do
      let f ← f' ii
      pure (TileState.start f) : Except PyErr (List (TileState K))) :=
    mapM_congr_mem fun t ht => by rw [h t (List.mem_range.mp ht)]
  simp only [e]

omit [IsStrictOrderedRing K] in
theorem mergeTilesFl_tol {tau tol tol' : K} {env : MergeEnv K} {settings : MergerSettings} {tiles : TileSet}
    {f : Nat → Except PyErr (TileFile K)} {bulk : BulkFile K} {n : Nat} {p : Nat → Bool} :
    mergeTilesFl ⟨id, id, tau, tau, tol⟩ env settings tiles f bulk n p = mergeTilesFl ⟨id, id, tau, tau, tol'⟩ env settings tiles f bulk n p := rfl

/-- C71. Without rounding, `workflowFl` is the workflow of the stages (C49, C61): the tiles and the rasters a completed run from
an empty folder left on disk are those `workflowFl` returns. -/
theorem C71_exact_workflow (P : Flow K S) (hP : GoodFlow P) (himg : 0 < P.job.coh.rows ∧ 0 < P.job.coh.cols)
    (hifgs : P.job.time.links ≠ []) (d1 : Disk K) (h : RunByWrite P.stages Disk.empty .completed d1) :
    ∃ (T : TileSet) (r : MergeResult K) (oT : Nat → Nat → List Nat → List Nat) (oS : Nat → List Nat → List Nat),
      (∀ t k l, (oT t k l).Perm l) ∧ (∀ t l, (oS t l).Perm l) ∧
      workflowFl (noRounding P.tau) (1 / 100) (1 / 100000) P oT oS = .ok (T, r) ∧ d1.tiles = some (some T.toJson) ∧
      (rastersOf r).map Prod.fst = List.range P.job.time.links.length ∧
      ∀ i b, (i, b) ∈ rastersOf r → d1.unw i = some (some b) := by
  obtain ⟨T, F, hR⟩ := ref_of_run hP h
  obtain ⟨hshape, hpos, hin⟩ := flow_tiles hP hR.tiles
  obtain ⟨oT, oS, hoT, hoS, hF⟩ := hR.work
  obtain ⟨hf, _, _⟩ := tileFilesOk_of_unwrap P.tau P.solver hP.solver P.job hP.job T hshape hin oT oS hoT hoS
    d1.readTile F (fun t ht => hR.readTile ht) hF
  have hwork : (List.range T.tiles.length).mapM (fun t => unwrapOneTileFl (noRounding P.tau) P.solver P.job T t (oT t) (oS t)) =
      .ok ((List.range T.tiles.length).map F) :=
    mapM_ok_of _ _ F fun t ht => by rw [← hF t (List.mem_range.mp ht)]; exact C71_tile_exact ..
  set files : Nat → Except PyErr (TileFile K) := fun t => (((List.range T.tiles.length).map F)[t]?).elim (.error .indexError) Except.ok
    with hfl
  have hread : ∀ t < T.tiles.length, files t = d1.readTile t := fun t ht => by rw [hR.readTile ht]; simp [hfl, ht]
  have hflow : ∀ olap bulk r, phasediffDecilesFl (noRounding P.tau) (1 / 100) (1 / 100000) id P.merger.minOverlapPoints
        P.cc T files = .ok olap →
      bulkOffsets P.mip P.lstsq P.merger.bulkMethod T P.job.coh P.job.thr (olap.getD ⟨[], [], []⟩) = .ok bulk →
      mergeTilesFl (noRounding P.tau) ⟨P.lin, P.simplices, olap.getD ⟨[], [], []⟩⟩ P.merger T files
        (bulk.getD ⟨P.merger.bulkMethod, [], []⟩) P.job.time.links.length (fun _ => false) = .ok r →
      workflowFl (noRounding P.tau) (1 / 100) (1 / 100000) P oT oS = .ok (T, r) := by
    intro olap bulk r h1 h2 h3
    unfold workflowFl
    rw [show (noRounding P.tau).fd = id from rfl]
    simp only [bulkFl_id]
    rw [hR.tiles]
    simp only [Bind.bind, Except.bind]
    rw [hR.pool]
    simp only []
    rw [hwork]
    simp only []
    rw [h1]
    simp only []
    rw [h2]
    simp only []
    rw [h3]
    rfl
  by_cases hn : T.tiles.length = 1
  · obtain ⟨_, _, B', hB', hU'⟩ := hR.one hn
    obtain ⟨B, h1, h2⟩ := C70_single (noRounding P.tau) ⟨P.lin, P.simplices, ⟨[], [], []⟩⟩ P.merger hR.method P.job.time.links.length T hn
      d1.readTile F hf ⟨P.merger.bulkMethod, [], []⟩ (fun _ => false)
    rw [← mergeTilesFl_congr hread] at h1
    refine ⟨T, _, oT, oS, hoT, hoS, hflow none none _ ?_ ?_ h1, hR.tiles1, ?_, ?_⟩
    · unfold phasediffDecilesFl
      rw [if_pos hn]
    · unfold bulkOffsets
      rw [if_pos hn]
    · simp [rastersOf, Function.comp_def]
    · intro i b hib
      simp only [rastersOf, List.mem_map, List.mem_filter, List.mem_range, Bool.not_false, and_true, Prod.mk.injEq] at hib
      obtain ⟨i', hi', rfl, rfl⟩ := hib
      rw [(hU' i').1, if_pos hi']
      obtain ⟨t1, ht1⟩ := hB' i' hi'
      have hins := files_inside hf 0 (by omega)
      have hb := C44_single (imageShape T) (TileState.start (F 0)) t1 i' (B' i') (by
        intro c hc
        obtain ⟨a1, a2, a3, a4⟩ := hins c hc
        exact ⟨a1, a2, a3, a4⟩) (filePoints_nodup (hf.once 0 (by omega))) ht1
      obtain ⟨g1, g2, g3⟩ := h2 i'
      congr 2
      have hval : (B' i').val = (B i').val := by
        funext r q
        by_cases hm : ((r : ℤ), (q : ℤ)) ∈ filePoints (F 0)
        · obtain ⟨n, hn'⟩ := List.getElem?_of_mem hm
          rw [(hb r q).2.2.2.2 n hn', (g3 r q).1 n hn']
          rfl
        · rw [(hb r q).2.2.2.1 hm, (g3 r q).2 hm]
      have hrows := (hb 0 0).2.1
      have hcols := (hb 0 0).2.2.1
      revert hval hrows hcols g1 g2
      cases B' i' with
      | mk a b c =>
        cases B i' with
        | mk a' b' c' =>
          simp only [imageShape]
          rintro rfl rfl rfl rfl rfl
          rfl
  · obtain ⟨st, b, M, h1, _, h3, _, h5, hU'⟩ := hR.many hn
    have hover := Ref.overlaps (P := P) (F := F) hn h1
    have hlab : (P.olap T st).labels.length = T.tiles.length := hP.labels _ _
    obtain ⟨hbm, hbo⟩ := bulk_shape hP.mip hn hlab (fun med hmed => median_rows hf hover hmed) h3
    have hbo' : BulkOk P.job.time.links.length T.tiles.length (⟨b.method, b.offsets, []⟩ : BulkFile K) := ⟨hbo.rows, hbo.cols⟩
    have hinput : MergeInput P.tau P.merger.minOverlapPoints P.cc P.job.time.links.length T d1.readTile F (P.olap T st)
        ⟨b.method, b.offsets, []⟩ P.merger :=
      ⟨by omega, by rw [hshape]; simp only; omega, List.length_pos_of_ne_nil hifgs, hf, hover, hlab, hbo', hR.method, hbm⟩
    have hmerge := (C70_exact_merge P.tau _ _ _ _ _ F ⟨P.lin, P.simplices, P.olap T st⟩ _ _ hinput (fun _ => false) _).mpr (h5 fun _ => false)
    have hm' : mergeTilesFl (noRounding P.tau) ⟨P.lin, P.simplices, P.olap T st⟩ P.merger T files b P.job.time.links.length (fun _ => false) =
        .ok (.merged (((List.range P.job.time.links.length).filter fun _ => !false).map fun i => (i, M i))) := by
      rw [mergeTilesFl_congr hread, ← hmerge]
      exact mergeTilesFl_tol
    refine ⟨T, _, oT, oS, hoT, hoS, hflow (some (P.olap T st)) (some b) _ ?_ h3 hm', hR.tiles1, ?_, ?_⟩
    · rw [← hover, ← C70_exact_overlap]
      have e1 : phasediffDecilesFl (noRounding P.tau) (1 / 100) (1 / 100000) id P.merger.minOverlapPoints P.cc T files =
          phasediffDecilesFl (exactArith P.tau) (1 / 100) (1 / 100000) id P.merger.minOverlapPoints P.cc T files := rfl
      rw [e1, C70_exact_overlap, C70_exact_overlap]
      rw [← C70_exact_overlap]
      refine phasediffDecilesFl_eq fun p hp => ?_
      obtain ⟨i, j⟩ := p
      obtain ⟨hij, a, b', ha, hb', _⟩ := ((C25_overlaps T).1 i j).mp hp
      have hi := (List.getElem?_eq_some_iff.mp ha).1
      have hj := (List.getElem?_eq_some_iff.mp hb').1
      have hload : ∀ t < T.tiles.length, loadFl (exactArith P.tau) T files t = loadEx T d1.readTile t := by
        intro t ht
        unfold loadFl loadEx loadUwTileFl loadUwTile
        rw [hread t ht]
        rfl
      unfold groupGen
      simp only [hload i hi, hload j hj]
      rfl
    · simp only [rastersOf, List.map_map]
      simp [Function.comp_def]
    · intro i b hib
      simp only [rastersOf, List.map_map, List.mem_map, List.mem_filter, List.mem_range, Bool.not_false, and_true, Prod.mk.injEq,
        Function.comp_apply] at hib
      obtain ⟨i', hi', rfl, rfl⟩ := hib
      rw [(hU' i').1, if_pos hi']

end
end Spurt
