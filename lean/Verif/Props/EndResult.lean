import Verif.Props.Crash
import Verif.Props.EndToEnd

/-!
# Properties C60 and C61: the result of the workflow
-/

namespace Spurt
open Spec

section
variable {K S : Type} [Field K] [LinearOrder K] [FloorRing K] [IsStrictOrderedRing K]

/-- The overlap file of a completed run is the one computed from its tile files. -/
theorem Ref.overlaps {P : Flow K S} {d1 : Disk K} {T : TileSet} {F : Nat → TileFile K} (hn : T.tiles.length ≠ 1)
    {s : OverlapState K} (h : overlapRun P.tau P.merger.minOverlapPoints (loadFrom T d1.readTile) T.getOverlaps ⟨none, none, []⟩ = (s, false)) :
    phasediffDeciles id P.tau P.merger.minOverlapPoints P.cc T d1.readTile = .ok (some (P.olap T s)) := by
  unfold phasediffDeciles
  rw [if_neg hn]
  have := (overlapRun_eq _ _ _ _ _ _).mp h
  unfold loadFrom at this
  simp only
  rw [this]
  rfl

omit [IsStrictOrderedRing K] in
theorem bandRaster_shape {tau : K} {shape : Nat × Nat} {n : Nat} {F : Nat → TileFile K} {b : Nat} {c : Nat → Nat → K}
    {m : MergedBand K} (h : bandRaster tau shape n F b c = .ok m) : m.out.rows = shape.1 ∧ m.out.cols = shape.2 := by
  unfold bandRaster at h
  simp only [Bind.bind, Except.bind] at h
  split at h
  · cases h
  split at h
  · cases h
  simp only [pure, Except.pure, Except.ok.injEq] at h
  subst h
  exact ⟨rfl, rfl⟩

/-- C61. After a completed run, however it was scheduled, every interferogram has its raster of the
size of the image; the raster has a value exactly at the pixels of the image whose coherence exceeds
the threshold, and that value is the wrapped interferogram of the input stack up to a whole number of
cycles. -/
theorem C61_result (P : Flow K S) (hP : GoodFlow P) (htau : 0 < P.tau) (himg : 0 < P.job.coh.rows ∧ 0 < P.job.coh.cols) (d1 : Disk K)
    (h : RunByWrite P.stages Disk.empty .completed d1) (i s u : Nat) (hl : P.job.time.links[i]? = some (s, u)) :
    ∃ b, d1.unw i = some (some b) ∧ b.rows = P.job.coh.rows ∧ b.cols = P.job.coh.cols ∧
      ∀ r q : Nat, r < P.job.coh.rows → q < P.job.coh.cols →
        (ValidPixel P.job r q → ∃ v, b.val r q = some v ∧ ∃ k : ℤ, v = stackIfg P.tau P.job s u r q + k * P.tau) ∧
        (¬ ValidPixel P.job r q → b.val r q = none) := by
  obtain ⟨T, F, hR⟩ := ref_of_run hP h
  obtain ⟨hshape, hpos, hin⟩ := flow_tiles hP hR.tiles
  obtain ⟨oT, oS, hoT, hoS, hF⟩ := hR.work
  have hi : i < P.job.time.links.length := (List.getElem?_eq_some_iff.mp hl).1
  have hcover : ∀ r q : Nat, r < P.job.coh.rows → q < P.job.coh.cols → ∃ b ∈ T.tiles, InTile b r q := by
    obtain ⟨B, hB, h1, h2⟩ := hP.size
    obtain ⟨e1, e2⟩ := mask_shape P
    obtain ⟨_, _, _, _, hc⟩ := C30_make_tiles P.sc P.fl B hB P.useTiles P.tiler hP.tiler P.job.coh.cols P.mask e2
      ⟨by rw [e1]; exact h1, h2⟩ T hR.tiles
    intro r q hr hq
    exact hc r q (by rw [hshape]; unfold PixelOf; simp only; omega)
  obtain ⟨hf, hpts, hph⟩ := tileFilesOk_of_unwrap P.tau P.solver hP.solver P.job hP.job T hshape hin oT oS hoT hoS
    d1.readTile F (fun t ht => hR.readTile ht) hF
  have hims : imageShape T = (P.job.coh.rows, P.job.coh.cols) := by
    unfold imageShape
    rw [hshape]
    simp
  by_cases hn : T.tiles.length = 1
  · obtain ⟨_, _, B, hB, hU⟩ := hR.one hn
    obtain ⟨t1, ht1⟩ := hB i hi
    have hins := files_inside hf 0 (by omega)
    have hb := C44_single (imageShape T) (TileState.start (F 0)) t1 i (B i) (by
      intro c hc
      obtain ⟨a1, a2, a3, a4⟩ := hins c hc
      exact ⟨a1, a2, a3, a4⟩) (filePoints_nodup (hf.once 0 (by omega))) ht1
    refine ⟨B i, by rw [(hU i).1, if_pos hi], ?_, ?_, fun r q hr hq => ⟨fun hv => ?_, fun hv => ?_⟩⟩
    · rw [(hb 0 0).2.1, hims]
    · rw [(hb 0 0).2.2.1, hims]
    · obtain ⟨b', hb', hit⟩ := hcover r q hr hq
      obtain ⟨t, ht, rfl⟩ := List.mem_iff_getElem.mp hb'
      have ht0 : t = 0 := by omega
      subst ht0
      have hm := (hpts 0 ht r q).mpr ⟨_, List.getElem?_eq_getElem ht, hit, hv⟩
      obtain ⟨p, hp, hpe⟩ := List.mem_iff_getElem.mp hm
      have hp' : (filePoints (F 0))[p]? = some ((r : ℤ), (q : ℤ)) := by rw [List.getElem?_eq_getElem hp, hpe]
      refine ⟨_, (hb r q).2.2.2.2 p hp', ?_⟩
      have := hph 0 ht i s u hl p _ hp'
      simp only [Int.toNat_natCast] at this
      exact this
    · refine (hb r q).2.2.2.1 fun hc => ?_
      obtain ⟨b', _, _, hv'⟩ := (hpts 0 (by omega) r q).mp hc
      exact hv hv'
  · obtain ⟨st, b, M, h1, _, h3, _, h5, hU⟩ := hR.many hn
    have hover := Ref.overlaps (P := P) (F := F) hn h1
    have hlab : (P.olap T st).labels.length = T.tiles.length := hP.labels _ _
    obtain ⟨hbm, hbo⟩ := bulk_shape hP.mip hn hlab (fun med hmed => median_rows hf hover hmed) h3
    have hmem : (i, M i) ∈ ((List.range P.job.time.links.length).filter fun _ => !false).map fun i => (i, M i) :=
      List.mem_map.mpr ⟨i, List.mem_filter.mpr ⟨List.mem_range.mpr hi, rfl⟩, rfl⟩
    have hbo' : BulkOk P.job.time.links.length T.tiles.length (⟨b.method, b.offsets, []⟩ : BulkFile K) := ⟨hbo.rows, hbo.cols⟩
    have key := fun r q => C56_stack P.tau htau P.solver hP.solver P.job hP.job T (by omega) hshape himg (by omega) hin oT oS hoT hoS
      d1.readTile F (fun t ht => hR.readTile ht) hF P.merger.minOverlapPoints P.cc ⟨P.lin, P.simplices, P.olap T st⟩ hover hlab
      ⟨b.method, b.offsets, []⟩ hbo' P.merger hR.method hbm (fun _ => false) _ (h5 fun _ => false) i (M i) hmem s u hl r q
    have hinput : MergeInput P.tau P.merger.minOverlapPoints P.cc P.job.time.links.length T d1.readTile F (P.olap T st)
        ⟨b.method, b.offsets, []⟩ P.merger :=
      ⟨by omega, by rw [hshape]; simp only; omega, by omega, hf, hover, hlab, hbo', hR.method, hbm⟩
    have hras : (M i).out.rows = (imageShape T).1 ∧ (M i).out.cols = (imageShape T).2 := by
      obtain ⟨_, _, omap, d, _, _, _, _, _, _, _, hras⟩ := merged_band (env := ⟨P.lin, P.simplices, P.olap T st⟩) hinput (h5 fun _ => false) hmem
      exact bandRaster_shape hras
    refine ⟨(M i).out, by rw [(hU i).1, if_pos hi], ?_, ?_, fun r q hr hq => ⟨fun hv => ?_, fun hv => ?_⟩⟩
    · rw [hras.1, hims]
    · rw [hras.2, hims]
    · obtain ⟨b', hb', hit⟩ := hcover r q hr hq
      exact (key r q).1 ⟨b', hb', hit, hv⟩
    · exact (key r q).2 fun b' _ hc => hv hc.2

/-- C61, for a run taken up again after any number of interrupted runs. -/
theorem C61_resumed (P : Flow K S) (hP : GoodFlow P) (htau : 0 < P.tau) (himg : 0 < P.job.coh.rows ∧ 0 < P.job.coh.cols) (d0 : Disk K)
    (h0 : RunByWrite P.stages Disk.empty .completed d0) (d d1 : Disk K) (hd : AfterRuns P Disk.empty d)
    (h : RunByWrite P.stages d .completed d1) (i s u : Nat) (hl : P.job.time.links[i]? = some (s, u)) :
    ∃ b, d1.unw i = some (some b) ∧ b.rows = P.job.coh.rows ∧ b.cols = P.job.coh.cols ∧
      ∀ r q : Nat, r < P.job.coh.rows → q < P.job.coh.cols →
        (ValidPixel P.job r q → ∃ v, b.val r q = some v ∧ ∃ k : ℤ, v = stackIfg P.tau P.job s u r q + k * P.tau) ∧
        (¬ ValidPixel P.job r q → b.val r q = none) := by
  rw [((C49_interruptions P hP d0 h0 d hd).2.1 _ _ h).2 rfl]
  exact C61_result P hP htau himg d0 h0 i s u hl

end

/-- Non-vacuity: the example job without tiling, whose raster has a value at a pixel of high coherence. -/
example : ∃ (P : Flow ℚ Unit) (d1 : Disk ℚ), GoodFlow P ∧ 0 < P.tau ∧ RunByWrite P.stages Disk.empty .completed d1 ∧
    P.job.time.links[0]? = some (0, 1) ∧ ValidPixel P.job 1 1 ∧
    ∃ b v, d1.unw 0 = some (some b) ∧ b.val 1 1 = some v ∧ ∃ k : ℤ, v = stackIfg P.tau P.job 0 1 1 1 + k * P.tau := by
  obtain ⟨P, d1, hP, hj, ht, h⟩ := exampleFlow_runs
  have hl : P.job.time.links[0]? = some (0, 1) := by rw [hj]; decide +kernel
  have hv : ValidPixel P.job 1 1 := by rw [hj]; exact ⟨1, rfl, by norm_num [exampleJob]⟩
  have himg : 1 < P.job.coh.rows ∧ 1 < P.job.coh.cols := by rw [hj]; decide +kernel
  obtain ⟨b, hb, _, _, hpix⟩ := C61_result P hP (by rw [ht]; norm_num) ⟨by omega, by omega⟩ d1 h 0 0 1 hl
  obtain ⟨v, hv1, hv2⟩ := (hpix 1 1 himg.1 himg.2).1 hv
  exact ⟨P, d1, hP, by rw [ht]; norm_num, h, hl, hv, b, v, hb, hv1, hv2⟩

end Spurt
