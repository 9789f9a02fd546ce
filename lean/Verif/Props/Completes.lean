import Verif.Props.EndResult
import Verif.Lemmas.Completes
import Mathlib.Data.Set.Card
import Mathlib.Tactic.Tauto

/-!
# Property C60: when the workflow completes
-/

namespace Spurt
open Spec

section
variable {K S : Type} [Field K] [LinearOrder K] [FloorRing K] [IsStrictOrderedRing K]

/-- The pixels of sufficient coherence that lie in both tile `a` and tile `b`. -/
def Spec.sharedPixels (j : TileJob K) (T : TileSet) (a b : Nat) : Set (ℤ × ℤ) :=
  {p | ValidPixel j p.1 p.2 ∧ ∃ ba bb, T.tiles[a]? = some ba ∧ T.tiles[b]? = some bb ∧
    InTile ba p.1 p.2 ∧ InTile bb p.1 p.2}

theorem sharedPixels_files {tau : K} {solver : FlowSolver} (hs : SolverSound solver) {j : TileJob K}
    (hj : GoodJob j) {tiles : TileSet} (hshape : tiles.shape = ((j.coh.rows : ℤ), (j.coh.cols : ℤ)))
    (hin : ∀ b ∈ tiles.tiles, TileInImage (j.coh.rows, j.coh.cols) b)
    {oT : Nat → Nat → List Nat → List Nat} {oS : Nat → List Nat → List Nat}
    (hoT : ∀ t k l, (oT t k l).Perm l) (hoS : ∀ t l, (oS t l).Perm l)
    {files : Nat → Except PyErr (TileFile K)} {F : Nat → TileFile K}
    (hread : ∀ t < tiles.tiles.length, files t = .ok (F t))
    (hfiles : ∀ t < tiles.tiles.length, unwrapOneTile tau solver j tiles t (oT t) (oS t) = .ok (F t))
    {a b : Nat} (ha : a < tiles.tiles.length) (hb : b < tiles.tiles.length) :
    (sharedPixels j tiles a b).ncard = ((filePoints (F a)).toFinset ∩ (filePoints (F b)).toFinset).card := by
  obtain ⟨_, hpts, _⟩ := tileFilesOk_of_unwrap tau solver hs j hj tiles hshape hin oT oS hoT hoS files F hread hfiles
  rw [← Set.ncard_coe_finset]
  congr 1
  ext ⟨r, c⟩
  simp only [Finset.coe_inter, List.coe_toFinset, Set.mem_inter_iff, Set.mem_setOf_eq, hpts a ha, hpts b hb, sharedPixels]
  constructor
  · rintro ⟨hv, ba, bb, h1, h2, h3, h4⟩
    exact ⟨⟨ba, h1, h3, hv⟩, ⟨bb, h2, h4, hv⟩⟩
  · rintro ⟨⟨ba, h1, h3, hv⟩, ⟨bb, h2, h4, _⟩⟩
    exact ⟨hv, ba, bb, h1, h2, h3, h4⟩

/-- What the overlap file of a completed run lists. -/
theorem run_overlaps {P : Flow K S} (hP : GoodFlow P) {d1 : Disk K} (h : RunByWrite P.stages Disk.empty .completed d1) {T : TileSet}
    (hT : makeTiles P.sc P.fl P.useTiles P.tiler P.job.coh.cols P.mask = .ok T) (hn : T.tiles.length ≠ 1) :
    ∃ olap b, phasediffDeciles id P.tau P.merger.minOverlapPoints P.cc T d1.readTile = .ok (some olap) ∧
      bulkOffsets P.mip P.lstsq P.merger.bulkMethod T P.job.coh P.job.thr olap = .ok (some b) ∧
      ∀ i j, (i, j) ∈ T.getOverlaps →
        ((i, j) ∈ olap.overlaps ↔ P.merger.minOverlapPoints ≤ (sharedPixels P.job T i j).ncard) ∧
        ((i, j) ∈ olap.overlaps → 11 ≤ (sharedPixels P.job T i j).ncard) := by
  obtain ⟨T', F, hR⟩ := ref_of_run hP h
  have : T' = T := by
    have := hR.tiles
    rw [hT, Except.ok.injEq] at this
    exact this.symm
  subst this
  obtain ⟨hshape, hpos, hin⟩ := flow_tiles hP hR.tiles
  obtain ⟨oT, oS, hoT, hoS, hF⟩ := hR.work
  obtain ⟨st, b, M, h1, _, h3, _⟩ := hR.many hn
  have hover := Ref.overlaps (P := P) (F := F) hn h1
  obtain ⟨hf, _, _⟩ := tileFilesOk_of_unwrap P.tau P.solver hP.solver P.job hP.job T' hshape hin oT oS hoT hoS
    d1.readTile F (fun t ht => hR.readTile ht) hF
  obtain ⟨hsub, hnd, hlabels, hrec⟩ := C53_recorded _ _ _ _ _ _ hover
  refine ⟨_, b, hover, h3, fun i j hij => ?_⟩
  obtain ⟨bi, bj, fi, fj, e1, e2, e3, e4, e5, e6⟩ := hrec i j hij
  have hi := (List.getElem?_eq_some_iff.mp e1).1
  have hj := (List.getElem?_eq_some_iff.mp e2).1
  rw [hR.readTile hi, Except.ok.injEq] at e3
  rw [hR.readTile hj, Except.ok.injEq] at e4
  subst e3 e4
  rw [sharedPixels_files hP.solver hP.job hshape hin hoT hoS (fun t ht => hR.readTile ht) hF hi hj]
  rw [filePoints_box (hf.box i bi e1), filePoints_box (hf.box j bj e2)] at e5
  refine ⟨e5, fun hm => ?_⟩
  obtain ⟨c1, c2, stt, _, _, h8, ps, hps, hmem, h11, _⟩ := e6 hm
  obtain ⟨nb, n, hs1, _, hn11, _⟩ := (C38_accepts _ _ _).1.mp ⟨stt, h8⟩
  simp only [selectColumns, List.cons.injEq, and_true] at hs1
  have hcl : c1.length = ps.length := by simpa using congrArg List.length h11
  have hnod : ps.Nodup := by
    refine hps.imp fun {x y} hxy hc => ?_
    subst hc
    rcases hxy with h | h <;> omega
  rw [filePoints_box (hf.box i bi e1), filePoints_box (hf.box j bj e2)] at hmem
  have : ps.toFinset = (filePoints (F i)).toFinset ∩ (filePoints (F j)).toFinset := by
    ext p
    simp [hmem p]
  rw [← this, List.toFinset_card_of_nodup hnod]
  omega

/-- C60, false when the tiles do not overlap enough: if there are several tiles and no two of them
share `min_overlap_points` pixels of sufficient coherence, no run from an empty folder completes
(the bulk offsets raise `IndexError`). -/
theorem C60_no_overlap_refuted (P : Flow K S) (hP : GoodFlow P) (T : TileSet)
    (hT : makeTiles P.sc P.fl P.useTiles P.tiler P.job.coh.cols P.mask = .ok T) (hn : T.tiles.length ≠ 1)
    (hno : ∀ a b, a < b → ((sharedPixels P.job T a b).ncard : ℤ) < P.merger.minOverlapPoints) (o : Outcome) (d : Disk K)
    (h : RunByWrite P.stages Disk.empty o d) : o ≠ .completed := by
  rintro rfl
  obtain ⟨olap, b, h1, h2, h3⟩ := run_overlaps hP h hT hn
  obtain ⟨hsub, _⟩ := C53_recorded _ _ _ _ _ _ h1
  have hnil : olap.overlaps = [] := by
    rw [List.eq_nil_iff_forall_not_mem]
    rintro ⟨i, j⟩ hij
    have hlt := ((C25_overlaps T).1 i j).mp (hsub.subset hij)
    have := ((h3 i j (hsub.subset hij)).1).mp hij
    have := hno i j hlt.1
    omega
  unfold bulkOffsets medianOffsets at h2
  rw [if_neg hn, hnil] at h2
  simp [Bind.bind, Except.bind, pure, Except.pure] at h2

/-- C60, false without dilation: `dilation_factor = 0` is accepted, but then the tiles share no pixel
and, with several tiles and `min_overlap_points` at least 1, no run from an empty folder completes. -/
theorem C60_no_dilation_refuted (P : Flow K S) (hP : GoodFlow P) (hd : P.tiler.dilationFactor = 0)
    (hmin : 1 ≤ P.merger.minOverlapPoints) (T : TileSet)
    (hT : makeTiles P.sc P.fl P.useTiles P.tiler P.job.coh.cols P.mask = .ok T) (hn : T.tiles.length ≠ 1)
    (o : Outcome) (d : Disk K) (h : RunByWrite P.stages Disk.empty o d) : o ≠ .completed := by
  refine C60_no_overlap_refuted P hP T hT hn (fun a b hab => ?_) o d h
  suffices hemp : sharedPixels P.job T a b = ∅ by
    rw [hemp, Set.ncard_empty]
    simp only [Nat.cast_zero]
    omega
  obtain ⟨e1, e2⟩ := mask_shape P
  obtain ⟨t0, h1, h2, _, h4, _⟩ := makeTiles_ok hP.tiler e2 hT
  have : T = t0 := by
    rcases h4 with h4 | ⟨h4, _⟩
    · exact h4
    · rw [hd] at h4
      exact absurd h4 (lt_irrefl _)
  subst this
  rw [Set.eq_empty_iff_forall_notMem]
  rintro ⟨r, c⟩ ⟨_, ba, bb, k1, k2, k3, k4⟩
  have hin := h2.1 ba (List.mem_of_getElem? k1)
  have hpix : PixelOf T.shape r c := by
    unfold TileInImage at hin
    unfold InTile at k3
    unfold PixelOf
    simp only at k3
    omega
  obtain ⟨i, _, hu⟩ := h2.2 r c hpix
  have e3 := hu a ⟨ba, k1, k3⟩
  have e4 := hu b ⟨bb, k2, k4⟩
  omega

/-- C60, false for a small `min_overlap_points`: any value is accepted, but if two tiles share at
least `min_overlap_points` but fewer than 11 pixels of sufficient coherence, no run from an empty
folder completes (the statistics raise `ValueError`). -/
theorem C60_few_points_refuted (P : Flow K S) (hP : GoodFlow P) (T : TileSet)
    (hT : makeTiles P.sc P.fl P.useTiles P.tiler P.job.coh.cols P.mask = .ok T) (hn : T.tiles.length ≠ 1)
    (a b : Nat) (hab : a < b) (hne : (sharedPixels P.job T a b).Nonempty)
    (h1 : P.merger.minOverlapPoints ≤ (sharedPixels P.job T a b).ncard) (h2 : (sharedPixels P.job T a b).ncard < 11)
    (o : Outcome) (d : Disk K) (h : RunByWrite P.stages Disk.empty o d) : o ≠ .completed := by
  rintro rfl
  obtain ⟨olap, bk, _, _, h3⟩ := run_overlaps hP h hT hn
  obtain ⟨⟨r, c⟩, _, ba, bb, k1, k2, k3, k4⟩ := hne
  obtain ⟨k5, k6⟩ := h3 a b (C25_shared_pixel T a b ba bb r c hab k1 k2 k3 k4)
  have := k6 (k5.mpr h1)
  omega

/-- C60. With several tiles, if every tile can be unwrapped and has a pixel, `min_overlap_points` is at
least 11, some two tiles share that many pixels of sufficient coherence, no two tiles differ by more
than 32767 cycles at a common pixel, the libraries answer, and the triangulation of every tile has a
link to its last point, then the workflow completes. Missing: the case that no two tiles share enough
pixels and the case of fewer than 11 points, which are false. -/
theorem C60_completes_partial (P : Flow K S) (hP : GoodFlow P) (htau : 0 < P.tau) (himg : 0 < P.job.coh.rows ∧ 0 < P.job.coh.cols)
    (hifgs : P.job.time.links ≠ []) (hpool : 1 ≤ P.job.settings.numParallelTiles)
    (hset : P.merger.check = .ok ()) (hmin : 11 ≤ P.merger.minOverlapPoints) (T : TileSet)
    (hT : makeTiles P.sc P.fl P.useTiles P.tiler P.job.coh.cols P.mask = .ok T) (hn : T.tiles.length ≠ 1)
    (hpix : ∀ b ∈ T.tiles, ∃ r c, InTile b r c ∧ ValidPixel P.job r c)
    (oT : Nat → Nat → List Nat → List Nat) (oS : Nat → List Nat → List Nat)
    (hoT : ∀ t k l, (oT t k l).Perm l) (hoS : ∀ t l, (oS t l).Perm l) (F : Nat → TileFile K)
    (hF : ∀ t < T.tiles.length, unwrapOneTile P.tau P.solver P.job T t (oT t) (oS t) = .ok (F t))
    (hsmall : ∀ t < T.tiles.length, ∀ t' < T.tiles.length, ∀ i < P.job.time.links.length, ∀ (n n' : Nat) p,
      (filePoints (F t))[n]? = some p → (filePoints (F t'))[n']? = some p → |filePhase (F t') i n' - filePhase (F t) i n| ≤ 32767 * P.tau)
    (hover : ∃ a b, a < b ∧ P.merger.minOverlapPoints ≤ (sharedPixels P.job T a b).ncard)
    (hcc : ∀ edges : List (Nat × Nat), (∀ e ∈ edges, e.1 < T.tiles.length ∧ e.2 < T.tiles.length) →
      ComponentLabels T.tiles.length edges (P.cc T.tiles.length edges))
    (hmipc : MipComplete P.mip)
    (hls : P.merger.bulkMethod = "L2" → ∀ olaps off, off.length = olaps.length →
      (∀ row ∈ off, row.length = P.job.time.links.length) →
      LeastSquares (overlapMatrix olaps T.tiles.length) off (P.lstsq (overlapMatrix olaps T.tiles.length) off)
        T.tiles.length P.job.time.links.length)
    (hilu : ∀ a, P.lin.ilu a = true)
    (hlinks : ∀ i < T.tiles.length, ∀ u v,
      (u, v) ∈ (delaunayGraph (F i).points.length (P.simplices (filePoints (F i)))).links →
      u < (F i).points.length ∧ v < (F i).points.length)
    (hlast : ∀ i < T.tiles.length, ∃ p, Adjacent
      (delaunayGraph (F i).points.length (P.simplices (filePoints (F i)))).links ((F i).points.length - 1) p) :
    ∃ d1, RunByWrite P.stages Disk.empty .completed d1 := by
  obtain ⟨hshape, hpos, hin⟩ := flow_tiles hP hT
  obtain ⟨hbm, hm⟩ : (P.merger.bulkMethod = "integer" ∨ P.merger.bulkMethod = "L2") ∧ P.merger.method = "dirichlet" := by
    unfold MergerSettings.check at hset
    split at hset
    · simp at hset
    rename_i h1
    split at hset
    · simp at hset
    rename_i h2
    exact ⟨by simp at h1; tauto, not_not.mp h2⟩
  set files : Nat → Except PyErr (TileFile K) := fun t => if t < T.tiles.length then .ok (F t) else .error .fileNotFound with hfiles
  have hread : ∀ t < T.tiles.length, files t = .ok (F t) := fun t ht => by simp [hfiles, ht]
  obtain ⟨hf, hpts, hph⟩ := tileFilesOk_of_unwrap P.tau P.solver hP.solver P.job hP.job T hshape hin oT oS hoT hoS
    files F hread hF
  set nifgs := P.job.time.links.length with hnifgs
  have hlen1 : ∀ i < T.tiles.length, (imagePhase (F i)).length = nifgs := by
    intro i hi
    obtain ⟨e1, e2⟩ := hf.bands i hi
    simp [imagePhase, e1, e2]
  have hphase : ∀ t < T.tiles.length, ∀ i < nifgs, ∀ (b : BBox), T.tiles[t]? = some b → ∀ n p,
      (imagePoints (F t) b)[n]? = some p → (filePoints (F t))[n]? = some p ∧ phaseAt (F t) i n = filePhase (F t) i n := by
    intro t ht i hi b hb n p hn
    rw [filePoints_box (hf.box t b hb)] at hn
    refine ⟨hn, ?_⟩
    have hpl := (List.getElem?_eq_some_iff.mp hn).1
    rw [filePoints_length] at hpl
    obtain ⟨e1, e2⟩ := hf.bands t ht
    unfold phaseAt
    exact imagePhase_getD (by omega) (by omega) (by
      rw [List.getD_eq_getElem _ _ (by omega), hf.rows t ht _ (List.getElem_mem _)]
      exact hpl)
  obtain ⟨olap, hover'⟩ := C53_returns P.tau P.merger.minOverlapPoints hmin P.cc T files hn nifgs (by
    intro t b hb
    have ht := (List.getElem?_eq_some_iff.mp hb).1
    refine ⟨F t, hf.read t ht, ?_, ?_, hlen1 t ht⟩
    · rw [filePoints_box (hf.box t b hb)]
      obtain ⟨r, c, h1, h2⟩ := hpix b (List.mem_of_getElem? hb)
      exact List.ne_nil_of_mem ((hpts t ht r c).mpr ⟨b, hb, h1, h2⟩)
    · rw [filePoints_box (hf.box t b hb)]
      intro p hp
      have := hf.inside t ht p hp
      exact ⟨this.1, this.2.2.1⟩) (by
    intro t t' b b' f f' _ hb hb' hft hft' i hi n n' p hn hn'
    have ht := (List.getElem?_eq_some_iff.mp hb).1
    have ht' := (List.getElem?_eq_some_iff.mp hb').1
    rw [hf.read t ht, Except.ok.injEq] at hft
    rw [hf.read t' ht', Except.ok.injEq] at hft'
    subst hft hft'
    obtain ⟨q1, q2⟩ := hphase t ht i hi b hb n p hn
    obtain ⟨q1', q2'⟩ := hphase t' ht' i hi b' hb' n' p hn'
    rw [q2, q2']
    have hg : P.job.time.links[i]? = some (P.job.time.links[i].1, P.job.time.links[i].2) := by simp
    obtain ⟨k, hk⟩ := hph t ht i _ _ hg n p q1
    obtain ⟨k', hk'⟩ := hph t' ht' i _ _ hg n' p q1'
    have hle := hsmall t ht t' ht' i hi n n' p q1 q1'
    rw [hk, hk'] at hle ⊢
    have hd : stackIfg P.tau P.job P.job.time.links[i].1 P.job.time.links[i].2 p.1.toNat p.2.toNat + (k' : K) * P.tau -
        (stackIfg P.tau P.job P.job.time.links[i].1 P.job.time.links[i].2 p.1.toNat p.2.toNat + (k : K) * P.tau) =
        ((k' - k : ℤ) : K) * P.tau := by push_cast; ring
    rw [hd] at hle ⊢
    rw [abs_mul, abs_of_pos htau] at hle
    have habs : |((k' - k : ℤ) : K)| ≤ 32767 := le_of_mul_le_mul_right hle htau
    have hkI : |k' - k| ≤ 32767 := by exact_mod_cast habs
    obtain ⟨k1, k2⟩ := abs_le.mp hkI
    refine ⟨k' - k, by omega, by omega, ?_⟩
    rw [mul_div_assoc, div_self htau.ne', mul_one, sub_self, abs_zero]
    positivity)
  obtain ⟨hsub, hnd, hlabels, hrec⟩ := C53_recorded _ _ _ _ _ olap hover'
  have hone : olap.overlaps ≠ [] := by
    obtain ⟨a, b, hab, hle⟩ := hover
    have hne : (sharedPixels P.job T a b).Nonempty := by
      rw [Set.nonempty_iff_ne_empty]
      intro hc
      rw [hc, Set.ncard_empty] at hle
      simp only [Nat.cast_zero] at hle
      omega
    obtain ⟨⟨r, c⟩, _, ba, bb, k1, k2, k3, k4⟩ := hne
    obtain ⟨bi, bj, fi, fj, e1, e2, e3, e4, e5, _⟩ := hrec a b (C25_shared_pixel T a b ba bb r c hab k1 k2 k3 k4)
    have hi := (List.getElem?_eq_some_iff.mp e1).1
    have hj := (List.getElem?_eq_some_iff.mp e2).1
    rw [hf.read a hi, Except.ok.injEq] at e3
    rw [hf.read b hj, Except.ok.injEq] at e4
    subst e3 e4
    rw [filePoints_box (hf.box a bi e1), filePoints_box (hf.box b bj e2),
      ← sharedPixels_files hP.solver hP.job hshape hin hoT hoS hread hF hi hj] at e5
    exact List.ne_nil_of_mem (e5.mpr hle)
  have hlab : ComponentLabels T.tiles.length olap.overlaps olap.labels := by
    rw [hlabels]
    refine hcc _ ?_
    rintro ⟨i, j⟩ he
    obtain ⟨h1, a, b, h2, h3, _⟩ := ((C25_overlaps T).1 i j).mp (hsub.subset he)
    have := (List.getElem?_eq_some_iff.mp h3).1
    simp only
    omega
  obtain ⟨bulk, hbulk, M, hM⟩ := stages_return (tau := P.tau) (minPoints := P.merger.minOverlapPoints) (cc := P.cc) (nifgs := nifgs)
    (List.length_pos_iff.mpr hifgs) (tiles := T) (by omega) (by rw [hshape]; simp only; omega) hf hover' hone hlab
    hP.mip hmipc hls hbm hm hilu hlinks hlast P.job.coh P.job.thr
  -- the state of the loop behind the overlap file
  obtain ⟨st, hst, hst'⟩ : ∃ st, overlapRun P.tau P.merger.minOverlapPoints (loadFrom T files) T.getOverlaps ⟨none, none, []⟩ = (st, false) ∧
      olap = P.olap T st := by
    unfold phasediffDeciles at hover'
    rw [if_neg hn] at hover'
    simp only [Bind.bind, Except.bind] at hover'
    split at hover'
    · simp at hover'
    rename_i st hst
    simp only [pure, Except.pure, Except.ok.injEq, Option.some.injEq] at hover'
    exact ⟨st, (overlapRun_eq _ _ _ _ _ _).mpr hst, hover'.symm⟩
  subst hst'
  set d1 : Disk K := ⟨some (some T.toJson), fun t => if t < T.tiles.length then some (TileH5.full (F t)) else none,
    some (OverlapH5.full (P.olap T st)), some (OffsetsH5.full bulk),
    fun i => if i < nifgs then some (some (M i).out) else none, fun i => if i < nifgs then some (some (M i).diff) else none,
    fun i => if i < nifgs then some (some (M i).model) else none⟩ with hd1
  have hrd : d1.readTile = files := by
    funext t
    simp only [Disk.readTile, hd1, hfiles]
    split <;> rename_i hx <;> split at hx <;> simp_all
    subst hx
    rfl
  have hR : Ref P d1 T F := by
    refine ⟨hT, rfl, ?_, ⟨oT, oS, hoT, hoS, hF⟩, fun _ => rfl, hm, fun hc => absurd hc hn, fun _ => ?_⟩
    · unfold processPool
      rw [if_neg (by omega)]
    · refine ⟨st, bulk, M, by rw [hrd]; exact hst, rfl, hbulk, rfl, fun isFile => by rw [hrd]; exact hM isFile, fun i => ⟨rfl, rfl, rfl⟩⟩
  obtain ⟨d', hr⟩ := resume_exists (stagesOk hP.job hR) (subDisk_empty _) (fun s hs => absurd hs (Nat.not_lt_zero _))
  exact ⟨d', Run.byWrite hr⟩

end

end Spurt
