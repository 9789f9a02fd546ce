import Verif.Props.AliasTile
import Verif.Props.Reference
import Verif.Props.ClosureExample

/-!
# C94: unwrapping errors of a completed run are bounded by the aliasing of the true phase
-/

namespace Spurt
open Spec Finset

section
variable {K : Type} [Field K] [LinearOrder K] [IsStrictOrderedRing K] [FloorRing K] {S : Type}

/-- What C94 says of interferograms `u` on tile `b`. -/
def Spec.ErrorsWithin (tau : K) (j : TileJob K) (b : BBox) (ct cs : List ℤ) (φ : Nat → ℤ × ℤ → K) (u : Nat → Nat → K) : Prop :=
  ∃ err : Nat → Nat → ℤ,
    (∀ i < j.time.links.length, ∀ l < (tileGraph j b).links.length, changeOn (tileGraph j b).links (u i) l =
      changeOn (tileGraph j b).links (trueIfg j b φ i) l + (err i l : K) * tau) ∧
    weighted j.time.links.length (tileGraph j b).links.length ct cs err ≤
      4 * weighted j.time.links.length (tileGraph j b).links.length ct cs fun i l =>
        aliasedCycles tau (changeOn (tileGraph j b).links (trueIfg j b φ i) l)

/-- What C94 needs of a tile: its triangulation meets the planar contract, the costs of both steps can be computed, those in time
are positive, and no link aliases more than 10⁹ weighted cycles. -/
structure Spec.AliasReady (tau : K) (j : TileJob K) (b : BBox) (ct cs : List ℤ) (φ : Nat → ℤ × ℤ → K) : Prop where
  contract : PlanarContract (tileGraph j b).npoints (tileGraph j b).links (tileGraph j b).cycles
  tcost : SelectedCost j.settings.tCostType j.time.links.length j.tDist j.tCent ct
  scost : SelectedCost j.settings.sCostType (tileGraph j b).links.length (j.sDist (tilePoints j.coh j.thr b))
    (j.sCent (tilePoints j.coh j.thr b)) cs
  tlength : ct.length = j.time.links.length
  tpos : ∀ v ∈ ct, 0 < v
  slength : cs.length = (tileGraph j b).links.length
  spos : ∀ v ∈ cs, 0 ≤ v
  bounded : ∀ l < (tileGraph j b).links.length, ∑ i ∈ range j.time.links.length,
    ct.getD i 0 * aliasedCycles tau (changeOn (tileGraph j b).links (trueIfg j b φ i) l) ≤ 1000000000

/-- C94. Every tile file of a completed run. -/
theorem C94_run (P : Flow K S) (hP : GoodFlow P) (htau : 1 / 1000 < P.tau) (hs : SolverOptimal P.solver) (d1 : Disk K)
    (h1 : RunByWrite P.stages Disk.empty .completed d1) (T : TileSet) (hT : d1.readTiles = .ok T)
    (φ : Nat → ℤ × ℤ → K) (hφ : TruePhase P.tau P.job φ) (t : Nat) (b : BBox) (hb : T.tiles[t]? = some b) (ct cs : List ℤ)
    (hr : AliasReady P.tau P.job b ct cs φ) :
    ∃ f, d1.tile t = some (TileH5.full f) ∧ filePoints f = tilePixels P.job b ∧
      ErrorsWithin P.tau P.job b ct cs φ (filePhase f) := by
  obtain ⟨T0, F, hR⟩ := ref_of_run hP h1
  obtain rfl : T0 = T := by
    have := hR.readTiles
    rw [hT] at this
    simpa using this.symm
  obtain ⟨_, _, hin⟩ := flow_tiles hP hR.tiles
  obtain ⟨oT, oS, hoT, hoS, hF⟩ := hR.work
  have ht := (List.getElem?_eq_some_iff.mp hb).1
  refine ⟨F t, by rw [hR.tile1, if_pos ht], ?_⟩
  exact C94_tile P.tau htau P.solver hs P.job hP.job T0 t b hb (hin b (List.mem_of_getElem? hb)) hr.contract ct cs hr.tcost hr.scost
    hr.tlength hr.tpos hr.slength hr.spos φ hφ hr.bounded (oT t) (oS t) (hoT t) (hoS t) (F t) (hF t ht)

/-- C94. The rasters of a completed run with one tile: `u i n` is the value of interferogram `i` at pixel number `n` of the tile. -/
theorem C94_rasters (P : Flow K S) (hP : GoodFlow P) (htau : 1 / 1000 < P.tau) (hs : SolverOptimal P.solver) (d1 : Disk K)
    (h1 : RunByWrite P.stages Disk.empty .completed d1) (T : TileSet) (hT : d1.readTiles = .ok T)
    (φ : Nat → ℤ × ℤ → K) (hφ : TruePhase P.tau P.job φ) (b : BBox) (hb : T.tiles = [b]) (ct cs : List ℤ)
    (hr : AliasReady P.tau P.job b ct cs φ) :
    ∃ u : Nat → Nat → K, ErrorsWithin P.tau P.job b ct cs φ u ∧ ∀ i < P.job.time.links.length, ∃ B, d1.unw i = some (some B) ∧
      ∀ r q n : Nat, (tilePixels P.job b)[n]? = some ((r : ℤ), (q : ℤ)) → B.val r q = some (u i n) := by
  obtain ⟨f, hf, hpts, hE⟩ := C94_run P hP htau hs d1 h1 T hT φ hφ 0 b (by rw [hb]; rfl) ct cs hr
  obtain ⟨T0, F, hR⟩ := ref_of_run hP h1
  obtain rfl : T0 = T := by
    have := hR.readTiles
    rw [hT] at this
    simpa using this.symm
  have hn : T0.tiles.length = 1 := by rw [hb]; rfl
  have hF0 : F 0 = f := by
    have e1 := hR.readTile (t := 0) (by omega)
    unfold Disk.readTile at e1
    rw [hf] at e1
    exact (Except.ok.inj e1).symm
  refine ⟨filePhase f, hE, fun i hi => ?_⟩
  obtain ⟨B, hB, hv⟩ := single_raster hP hR hn i hi
  rw [hF0] at hv
  exact ⟨B, hB, fun r q n hrq => hv r q n (by rw [hpts]; exact hrq)⟩

omit [IsStrictOrderedRing K] in
/-- With positive costs, the jumps that differ from the true ones are at most four times as many as the weighted aliased cycles. -/
theorem C94_count (tau : K) (j : TileJob K) (b : BBox) (ct cs : List ℤ) (φ : Nat → ℤ × ℤ → K) (u : Nat → Nat → K)
    (hctl : ct.length = j.time.links.length) (hct : ∀ v ∈ ct, 0 < v)
    (hcsl : cs.length = (tileGraph j b).links.length) (hcs : ∀ v ∈ cs, 0 < v) (h : ErrorsWithin tau j b ct cs φ u) :
    (((range j.time.links.length ×ˢ range (tileGraph j b).links.length).filter fun x =>
      changeOn (tileGraph j b).links (u x.1) x.2 ≠ changeOn (tileGraph j b).links (trueIfg j b φ x.1) x.2).card : ℤ) ≤
      4 * weighted j.time.links.length (tileGraph j b).links.length ct cs fun i l =>
        aliasedCycles tau (changeOn (tileGraph j b).links (trueIfg j b φ i) l) := by
  obtain ⟨err, he, hw⟩ := h
  refine le_trans ?_ hw
  unfold weighted
  rw [← Finset.sum_product', Finset.card_filter]
  push_cast
  refine Finset.sum_le_sum fun x hx => ?_
  obtain ⟨h1, h2⟩ := Finset.mem_product.mp hx
  rw [Finset.mem_range] at h1 h2
  have p1 : 1 ≤ ct.getD x.1 0 := by
    rw [List.getD_eq_getElem _ _ (by omega)]; exact hct _ (List.getElem_mem _)
  have p2 : 1 ≤ cs.getD x.2 0 := by
    rw [List.getD_eq_getElem _ _ (by omega)]; exact hcs _ (List.getElem_mem _)
  have p3 := one_le_mul_of_one_le_of_one_le p1 p2
  split
  · rename_i hne
    have : err x.1 x.2 ≠ 0 := by
      intro h0
      apply hne
      rw [he x.1 h1 x.2 h2, h0]; simp
    have p4 := Int.one_le_abs this
    exact one_le_mul_of_one_le_of_one_le p3 p4
  · exact mul_nonneg (by omega) (abs_nonneg _)

end

/-- The phases of the example of C90, taken as true phases: four changes along links alias. -/
def aliasPhi (s : Nat) (p : ℤ × ℤ) : ℚ := epochPhase closureJob s p.1.toNat p.2.toNat

theorem alias_graph : tileGraph closureJob ⟨0, 0, 2, 2⟩ = ⟨3, [(0, 1), (0, 2), (1, 2)], [[0, 1, 2]]⟩ := by
  have hpts : tilePoints closureJob.coh closureJob.thr ⟨0, 0, 2, 2⟩ = [(0, 0), (0, 1), (1, 1)] := by
    decide +kernel
  unfold tileGraph
  rw [hpts]
  unfold delaunayGraph closureJob
  simp only
  rw [triangle_links]
  rfl

/-- Non-vacuity of `C94_run`, `C94_rasters` and `C94_count`. -/
theorem alias_run : ∃ (P : Flow ℚ Unit) (d1 : Disk ℚ) (T : TileSet), P.job = closureJob ∧ P.tau = 1 ∧ GoodFlow P ∧ SolverOptimal P.solver ∧
    RunByWrite P.stages Disk.empty .completed d1 ∧ d1.readTiles = .ok T ∧ T.tiles = [⟨0, 0, 2, 2⟩] ∧ TruePhase P.tau P.job aliasPhi ∧
    AliasReady P.tau P.job ⟨0, 0, 2, 2⟩ [1, 1, 1] [1, 1, 1] aliasPhi ∧
    weighted P.job.time.links.length (tileGraph P.job ⟨0, 0, 2, 2⟩).links.length [1, 1, 1] [1, 1, 1] (fun i l =>
      aliasedCycles P.tau (changeOn (tileGraph P.job ⟨0, 0, 2, 2⟩).links (trueIfg P.job ⟨0, 0, 2, 2⟩ aliasPhi i) l)) = 4 := by
  obtain ⟨P, d1, hP, hj, ht, hu, hs, h⟩ := closureFlow_optimal
  obtain ⟨T, F, hR⟩ := ref_of_run hP h
  have hT : T.tiles = [⟨0, 0, 2, 2⟩] := by
    have hm := (mask_shape P).1
    have := hR.tiles
    unfold makeTiles at this
    rw [hm, hu] at this
    have e : T = singleTile (P.job.coh.rows, P.job.coh.cols) := by
      simpa [singleTile, pure, Except.pure, Bind.bind, Except.bind] using this.symm
    rw [e, hj]
    rfl
  refine ⟨P, d1, T, hj, ht, hP, hs, h, hR.readTiles, hT, ?_, ?_, ?_⟩
  · intro s _ r c _ _
    exact ⟨0, by rw [hj]; simp [aliasPhi]⟩
  · rw [hj, ht]
    refine ⟨?_, .constant rfl, ?_, rfl, by decide, ?_, by decide, ?_⟩
    · rw [alias_graph]; exact triangle_contract
    · rw [alias_graph]; exact .constant rfl
    · rw [alias_graph]; rfl
    · rw [alias_graph]
      decide +kernel
  · rw [hj, ht, alias_graph]
    decide +kernel

end Spurt
