import Verif.Props.ReferencePixel
import Verif.Props.FloatLargeRecovery
import Verif.Props.FloatSign

/-!
# Property C91 in numpy's numbers
-/

namespace Spurt

section
variable {K : Type} [Field K] [LinearOrder K] [IsStrictOrderedRing K] [FloorRing K]

/-- The wrapped interferogram of a pixel as `phase_diff` computes it from the phases of two epochs. -/
def Spec.stackIfgFl (A : FloatArith K) (j : TileJob K) (s t r c : Nat) : K :=
  phaseDiffFl A.fs A.tauS (epochPhase j s r c) (epochPhase j t r c)

open Spec

omit [IsStrictOrderedRing K] [FloorRing K] in
/-- One step of the flood fill leaves the first point alone. -/
theorem ffStepFl_first (fl : K → K) (tol : K) (i : Nat) (s : FfState K) (jg : Nat × K) (h : s.done 0 = true ∧ s.unw 0 = 0) :
    (ffStepFl fl tol i s jg).done 0 = true ∧ (ffStepFl fl tol i s jg).unw 0 = 0 := by
  unfold ffStepFl
  by_cases hd : s.done jg.1 = false
  · have hne : (0 : Nat) ≠ jg.1 := by
      intro hc
      rw [← hc, h.1] at hd
      simp at hd
    simp only [hd, if_true]
    rw [Function.update_of_ne hne, Function.update_of_ne hne]
    exact h
  · simp only [hd]
    split
    · simp_all
    · split <;> exact h

omit [IsStrictOrderedRing K] [FloorRing K] in
theorem ffLoopFl_first (fl : K → K) (tol : K) (nbrs : Nat → List (Nat × K)) : ∀ (fuel : Nat) (s s' : FfState K),
    (s.done 0 = true ∧ s.unw 0 = 0) → ffLoopFl fl tol nbrs fuel s = .ok s' → s'.unw 0 = 0 := by
  intro fuel
  induction fuel with
  | zero =>
    intro s s' h hl
    unfold ffLoopFl at hl
    split at hl
    · rw [Except.ok.injEq] at hl
      rw [← hl]; exact h.2
    · simp at hl
  | succ n ih =>
    intro s s' h hl
    unfold ffLoopFl at hl
    split at hl
    · rw [Except.ok.injEq] at hl
      rw [← hl]; exact h.2
    · rename_i i rest _
      refine ih _ s' ?_ hl
      have : ∀ (l : List (Nat × K)) (s0 : FfState K), (s0.done 0 = true ∧ s0.unw 0 = 0) →
          ((l.foldl (ffStepFl fl tol i) s0).done 0 = true ∧ (l.foldl (ffStepFl fl tol i) s0).unw 0 = 0) := by
        intro l
        induction l with
        | nil => intro s0 h0; exact h0
        | cons x l ihl => intro s0 h0; exact ihl _ (ffStepFl_first fl tol i s0 x h0)
      exact this _ _ h

omit [IsStrictOrderedRing K] in
/-- A flood fill of gradients gives the first point exactly 0. -/
theorem floodFillFl_first {fl : K → K} {tau tol : K} {indata : List K} {links : List (Nat × Nat)} {flows : List ℤ} {out : List K}
    (h : floodFillFl fl tau tol indata links flows "gradients" = .ok out) : out[0]? = some 0 := by
  unfold floodFillFl at h
  split at h
  · simp at h
  split at h
  · simp at h
  split at h
  · simp at h
  simp only [] at h
  split at h
  · simp at h
  split at h
  · simp at h
  split at h
  · simp at h
  rename_i s hs
  split at h
  · simp at h
  split at h
  · rw [if_neg (by decide), Except.ok.injEq] at h
    rw [← h, List.getElem?_map, List.getElem?_range (by omega), Option.map_some]
    rw [ffLoopFl_first _ _ _ _ _ _ ⟨by simp [ffInit], by simp [ffInit]⟩ hs]
  · simp at h

/-- C91 with rounding. In the file of a tile the first pixel carries the wrapped interferogram `phase_diff` computes, in every
interferogram; no rounding error enters. -/
theorem C91_rounding_tile (A : FloatArith K) (hA0 : A.fs 0 = 0) (solver : FlowSolver) (j : TileJob K)
    (hj : GoodJob j) (tiles : TileSet) (t : Nat) (b : BBox) (hb : tiles.tiles[t]? = some b)
    (hin : TileInImage (j.coh.rows, j.coh.cols) b)
    (oT : Nat → List Nat → List Nat) (oS : List Nat → List Nat) (hoS : ∀ l, (oS l).Perm l) (f : TileFile K)
    (h : unwrapOneTileFl A solver j tiles t oT oS = .ok f) (p : ℤ × ℤ) (hp : FirstSample j b p)
    (i s u : Nat) (hi : j.time.links[i]? = some (s, u)) :
    (filePoints f)[0]? = some p ∧ filePhase f i 0 = stackIfgFl A j s u p.1.toNat p.2.toNat := by
  obtain ⟨time, space, h1, h2, h3, h4, h5, h6⟩ := tileFl_inv hb h
  have hpool := cubeFl_pool h3
  unfold unwrapCubeFl at h3
  obtain ⟨isIfg, _, h3⟩ := except_bind_ok h3
  obtain ⟨g, _, h3⟩ := except_bind_ok h3
  have hsp : space.graph = tileGraph j b := ormcf_graph h2
  have hlt : ∀ a c, (a, c) ∈ (tileEmcf j b time space).space.graph.links → a < c := by
    show ∀ a c, (a, c) ∈ space.graph.links → a < c
    rw [hsp]
    exact delaunay_links_lt (hj.triangles _)
  cases hcost : costOf (tileEmcf j b time space).settings.sCostType (tileEmcf j b time space).nlinks
      (tileEmcf j b time space).sDist (tileEmcf j b time space).sCent with
  | error er => unfold unwrapInSpaceFl at h3; rw [hcost] at h3; simp [Bind.bind, Except.bind] at h3
  | ok cost =>
  obtain ⟨k1, k2⟩ := (rowsFl A solver _ hlt cost hcost hpool g oS hoS f.uw).mp h3
  have hnt : (tileEmcf j b time space).time.graph = j.time := ormcf_graph h1
  rw [hnt] at k1 k2
  have hil := (List.getElem?_eq_some_iff.mp hi).1
  obtain ⟨v, hv1, hv2⟩ := rowFl_ok.mp (k2 i hil).1
  unfold unwrapIfgFl at hv1
  obtain ⟨_, _, hv1⟩ := except_bind_ok hv1
  obtain ⟨_, _, hv1⟩ := except_bind_ok hv1
  have hv0 := floodFillFl_first hv1
  -- the first pixel of the file
  obtain ⟨r1, r2, r3, r4, r5, r6⟩ := tile_read hj hin
  have hpix : filePoints f = tilePixels j b := by
    unfold filePoints tilePixels
    rw [h4, h5]
    simp [Function.comp_def]
  have hpw : (tilePixels j b).Pairwise RowMajorLt := by
    obtain ⟨hx0, hx1, hx2, hy0, hy1, hy2⟩ := hin
    simp only at hx2 hy2
    obtain ⟨_, hpw, _, _, _⟩ := C36_read_tile (C := K) j.coh j.thr [] (fun _ => none) (0 : K) b hx0 hx1 hx2 hy0 hy1 hy2 (fun d im h => by simp at h)
    unfold tilePixels
    rw [List.pairwise_map]
    refine hpw.imp ?_
    rintro ⟨a1, a2⟩ ⟨b1, b2⟩ hh
    unfold RowMajorLt
    simp only at hh ⊢
    omega
  have hp0 : (tilePixels j b)[0]? = some p :=
    first_entry hpw ((r5 p.1 p.2).mpr hp.1) (fun p' hp' => hp.2 p' ((r5 p'.1 p'.2).mp hp'))
  refine ⟨by rw [hpix]; exact hp0, ?_⟩
  obtain ⟨hs, hu⟩ : s < j.dates.length ∧ u < j.dates.length := by
    have := hj.contract.ordered s u (List.mem_of_getElem? hi)
    rw [hj.dates]
    omega
  unfold filePhase stackIfgFl
  rw [hv2, List.getD_eq_getElem?_getD (l := v.map A.fs), List.getElem?_map, hv0, h6]
  simp only [Option.map_some, Option.getD_some, hA0, zero_add]
  rw [List.getD_eq_getElem?_getD]
  unfold phaseOffsetFl
  rw [List.getElem?_map, hi]
  simp only [Option.map_some, Option.getD_some]
  rw [r6 s hs 0 p hp0, r6 u hu 0 p hp0]

end

section
variable {S : Type}
open Spec

/-- What `phase_diff` returns is a `float32` number. -/
theorem stackIfgFl_single (j : TileJob ℚ) (s u r c : Nat) : flSingle (stackIfgFl numpyArith j s u r c) = stackIfgFl numpyArith j s u r c := by
  unfold stackIfgFl phaseDiffFl
  exact flSingle_idem _

/-- C91 in numpy's numbers. A completed run with one tile, whatever the data: the first pixel of sufficient coherence of every raster is, bit by
bit, the `float32` wrapped interferogram of `phase_diff`. -/
theorem C91_numpy_single (P : Flow ℚ S) (hP : GoodFlow P) (hset : P.merger.check = .ok ())
    (oT : Nat → Nat → List Nat → List Nat) (oS : Nat → List Nat → List Nat) (hoS : ∀ t l, (oS t l).Perm l) (T : TileSet) (res : MergeResult ℚ)
    (h : workflowFl numpyArith (flDouble (1 / 100)) (flDouble (1 / 100000)) P oT oS = .ok (T, res)) (b : BBox) (hone : T.tiles = [b])
    (r q : Nat) (hp : FirstSample P.job b ((r : ℤ), (q : ℤ))) (i s u : Nat) (hl : P.job.time.links[i]? = some (s, u)) :
    ∃ band, (i, band) ∈ rastersOf res ∧ (∀ band', (i, band') ∈ rastersOf res → band' = band) ∧
      band.val r q = some (stackIfgFl numpyArith P.job s u r q) := by
  obtain ⟨hT, _, F, hF, files, hread, olap, bulk, _, _, hm⟩ := workflowFl_inv h
  obtain ⟨hshape, hpos, hin⟩ := flow_tiles hP hT
  have hn : T.tiles.length = 1 := by rw [hone]; rfl
  have hm' : P.merger.method = "dirichlet" := by
    unfold MergerSettings.check at hset
    split at hset
    · simp at hset
    split at hset
    · simp at hset
    rename_i h2
    exact not_not.mp h2
  have hf := tileFilesOk_of_unwrapFl hP.job hshape hin hoS hread hF
  obtain ⟨B, h1, h2⟩ := C70_single numpyArith ⟨P.lin, P.simplices, olap.getD ⟨[], [], []⟩⟩ P.merger hm' P.job.time.links.length T hn files F hf
    (bulk.getD ⟨P.merger.bulkMethod, [], []⟩) (fun _ => false)
  rw [hm, Except.ok.injEq] at h1
  subst h1
  obtain ⟨g1, g2⟩ := C91_rounding_tile numpyArith flSingle_zero P.solver P.job hP.job T 0 b (by rw [hone]; rfl)
    (hin b (by rw [hone]; exact List.mem_singleton.mpr rfl)) (oT 0) (oS 0) (hoS 0) (F 0) (hF 0 (by omega)) _ hp i s u hl
  have hil := (List.getElem?_eq_some_iff.mp hl).1
  refine ⟨B i, ?_, ?_, ?_⟩
  · simp [rastersOf, hil]
  · intro band' hb'
    simp only [rastersOf, List.mem_map, List.mem_filter, Bool.not_false, and_true, Prod.mk.injEq] at hb'
    obtain ⟨i', _, rfl, rfl⟩ := hb'
    rfl
  · rw [((h2 i).2.2 r q).1 0 g1, g2]
    exact congrArg some (stackIfgFl_single P.job s u _ _)

/-- The largest tile of the bulk offsets is the tile with the most pixels of sufficient coherence. -/
theorem largest_of_counts {P : Flow ℚ S} (hP : GoodFlow P) {T : TileSet}
    (hT : makeTiles P.sc P.fl P.useTiles P.tiler P.job.coh.cols P.mask = .ok T) {b : BBox} (hb : LargestOfTiles P.job T b) {t : Nat}
    (htl : t < T.tiles.length) (ht : LargestTile (tileCounts P.job.coh P.job.thr T) t) : T.tiles[t]? = some b := by
  obtain ⟨_, _, hin⟩ := flow_tiles hP hT
  obtain ⟨k, hk, hmax⟩ := hb
  have hcnt : ∀ (t : Nat) b', T.tiles[t]? = some b' → (tileCounts P.job.coh P.job.thr T).getD t 0 = (tileSamples P.job b').ncard := by
    intro t b' hb'
    unfold tileCounts
    rw [List.getD_eq_getElem?_getD, List.getElem?_map, hb']
    exact tilePoints_ncard P.job b' (hin b' (List.mem_of_getElem? hb'))
  have hkl := (List.getElem?_eq_some_iff.mp hk).1
  have hcl : (tileCounts P.job.coh P.job.thr T).length = T.tiles.length := by simp [tileCounts]
  have hkr : k = t := by
    have e1 := ht.2 k (by rw [hcl]; exact hkl)
    have e2 := hmax t _ (List.getElem?_eq_getElem htl)
    rw [hcnt k b hk, hcnt t _ (List.getElem?_eq_getElem htl)] at e1
    omega
  rw [← hkr]; exact hk

/-- C91 in numpy's numbers, any number of tiles. On an unaliased stack, under the hypotheses of `C73_recovers`, the run completes and in every raster
the first pixel of sufficient coherence of the largest tile is within a two-hundredth of a radian of the wrapped interferogram. -/
theorem C91_numpy_tiles (P : Flow ℚ S) (hP : GoodFlow P) (himg : 0 < P.job.coh.rows ∧ 0 < P.job.coh.cols)
    (hifgs : P.job.time.links ≠ []) (hpool : 1 ≤ P.job.settings.numParallelTiles)
    (hset : P.merger.check = .ok ()) (hmin : 11 ≤ P.merger.minOverlapPoints)
    (T : TileSet) (hT : makeTiles P.sc P.fl P.useTiles P.tiler P.job.coh.cols P.mask = .ok T)
    (hls : P.merger.bulkMethod = "L2" → ConsistentLstsq P.lstsq T.tiles.length P.job.time.links.length (1 / 200000) (2 ^ 29))
    (φ : Nat → ℤ × ℤ → ℚ) (hU : UnaliasedWithin 2000 1000 P T φ) (hjoin : TilesJoined P T)
    (hfour : ∀ r q : ℤ, {t : Nat | ∃ b, T.tiles[t]? = some b ∧ InTile b r q}.ncard ≤ 4)
    (hcc : ∀ edges : List (Nat × Nat), (∀ e ∈ edges, e.1 < T.tiles.length ∧ e.2 < T.tiles.length) →
      ComponentLabels T.tiles.length edges (P.cc T.tiles.length edges))
    (hmipc : MipComplete P.mip) (hilu : ∀ a, P.lin.ilu a = true) (hgraph : ∀ b ∈ T.tiles, MergeGraphFl P b)
    (oT : Nat → Nat → List Nat → List Nat) (oS : Nat → List Nat → List Nat)
    (hoT : ∀ t k l, (oT t k l).Perm l) (hoS : ∀ t l, (oS t l).Perm l)
    (b : BBox) (hb : LargestOfTiles P.job T b) (r q : Nat) (hp : FirstSample P.job b ((r : ℤ), (q : ℤ))) :
    ∃ res, workflowFl numpyArith (flDouble (1 / 100)) (flDouble (1 / 100000)) P oT oS = .ok (T, res) ∧
      ∀ i band, (i, band) ∈ rastersOf res → ∀ s u, P.job.time.links[i]? = some (s, u) →
        ∃ v, band.val r q = some v ∧ |v - stackIfgFl numpyArith P.job s u r q| ≤ 1 / 200 := by
  obtain ⟨res, h1, h2, h3⟩ := large_reference P hP himg hifgs hpool hset hmin T hT hls φ hU hjoin hfour hcc hmipc hilu hgraph oT oS hoT hoS
  obtain ⟨_, _, hin⟩ := flow_tiles hP hT
  refine ⟨res, h1, fun i band hib s u hl => ?_⟩
  obtain ⟨_, _, g⟩ := h3 i band hib
  obtain ⟨c, _, ⟨t, f, htl, htm, hf, hph⟩, hval⟩ := g s u hl
  have hbt := largest_of_counts hP hT hb htl htm
  have hinb := hin b (List.mem_of_getElem? hbt)
  obtain ⟨g1, g2⟩ := C91_rounding_tile numpyArith flSingle_zero P.solver P.job hP.job T t b hbt hinb (oT t) (oS t) (hoS t) f hf _ hp i s u hl
  have hpix : r < P.job.coh.rows ∧ q < P.job.coh.cols := by
    have := hp.1.1
    unfold InTile at this
    unfold TileInImage at hinb
    simp only at this hinb
    omega
  obtain ⟨v, v1, v2⟩ := (hval r q hpix.1 hpix.2).1 hp.1.2
  refine ⟨v, v1, ?_⟩
  have e := hph 0 _ g1
  rw [g2, show numpyArith.fs = flSingle from rfl, stackIfgFl_single] at e
  simp only [Int.toNat_natCast] at e
  have a1 := abs_le.mp e
  have a2 := abs_le.mp v2
  rw [abs_le]
  constructor <;> linarith

end
end Spurt
