import Verif.Props.SettingsFree
import Verif.Props.ClosureExample

/-!
# An example for C95
-/

namespace Spurt
open Spec

namespace Whole

/-- The tiling without tiles. -/
def TWhole : TileSet := ⟨(6, 7), [⟨0, 0, 6, 7⟩]⟩

/-- The example stack with tiles or without, and any `min_overlap_points` of at least 11. -/
noncomputable def flowTiled (solver : FlowSolver) (mip : MipSolver) (tiled : Bool) (mp : ℤ) : Flow ℚ Nat :=
  { flow solver mip tiler mp with useTiles := tiled }

theorem unaliased_run (solver : FlowSolver) (hs : SolverSound solver) (mip : MipSolver) (hopt : MipOptimal mip)
    (hcomp : MipComplete mip) (tiled : Bool) (mp : ℤ) (hmp : 11 ≤ mp) (T' : TileSet)
    (hT : makeTiles scoring id tiled tiler 7 arr = .ok T') (hsub : ∀ b ∈ T'.tiles, b ∈ T.tiles)
    (hJ : TilesJoined (flowTiled solver mip tiled mp) T') :
    ∃ d, UnaliasedRun (flowTiled solver mip tiled mp) T' phi d := by
  have hP0 := flow_good solver hs mip hopt tiler (by simp [TilerSettings.check, tiler]) mp
  have hP : GoodFlow (flowTiled solver mip tiled mp) := ⟨hP0.job, hP0.solver, hP0.tiler, hP0.size, hP0.labels, hP0.mip⟩
  have hm : (flowTiled solver mip tiled mp).mask = arr := flow_mask solver mip tiler mp
  set P := flowTiled solver mip tiled mp with hPd
  have hT' : makeTiles P.sc P.fl P.useTiles P.tiler P.job.coh.cols P.mask = .ok T' := by
    rw [hm]; exact hT
  have hU : Unaliased P T' phi := ⟨fun b hb => job_ready b (hsub b hb), job_phase, fun b hb => job_smooth b (hsub b hb), job_range⟩
  have hcc : ∀ edges : List (Nat × Nat), (∀ e ∈ edges, e.1 < T'.tiles.length ∧ e.2 < T'.tiles.length) →
      ComponentLabels T'.tiles.length edges (P.cc T'.tiles.length edges) := fun edges _ => labelsOf_labels _ edges
  have hls : P.merger.bulkMethod = "L2" → ∀ olaps off, off.length = olaps.length →
      (∀ row ∈ off, row.length = P.job.time.links.length) →
      LeastSquares (overlapMatrix olaps T'.tiles.length) off (P.lstsq (overlapMatrix olaps T'.tiles.length) off)
        T'.tiles.length P.job.time.links.length := fun h => absurd h (by simp [hPd, flowTiled, flow])
  have himg : 0 < P.job.coh.rows ∧ 0 < P.job.coh.cols := by simp [hPd, flowTiled, flow, job]
  obtain ⟨d, h⟩ := C63_completes P hP one_pos himg (by simp [hPd, flowTiled, flow, job])
    (by simp [hPd, flowTiled, flow, job])
    (by simp [hPd, flowTiled, flow, MergerSettings.check]) (by simpa [hPd, flowTiled, flow] using hmp)
    T' hT' phi hU hJ hcc hcomp hls (fun _ => rfl) (by
      intro b hb
      have h3 := (job_pixels b (hsub b hb)).1
      have e : (tilePixels P.job b).length = (tilePoints job.coh job.thr b).length := by simp [tilePixels, hPd, flowTiled, flow]
      have e2 : P.simplices (tilePixels P.job b) = fan (tilePoints job.coh job.thr b).length := by rw [← e]; rfl
      refine ⟨?_, 0, ?_⟩
      · rw [e2, e]
        intro u v huv
        have := (fan_contract _).ordered u v huv
        omega
      · rw [e2, e]
        exact .inr (fan_adjacent h3 (by omega) (by omega)))
  exact ⟨d, hP, himg, hT', hU, hJ, hcc, hls, h⟩

/-- Non-vacuity of C95: four tiles and one tile on the example stack, with different `min_overlap_points`. Both runs
complete, the largest tiles begin at the same pixel, and the rasters agree. -/
theorem example_settings : ∃ (P P' : Flow ℚ Nat) (d d' : Disk ℚ), UnaliasedRun P T phi d ∧ UnaliasedRun P' TWhole phi d' ∧
    P.tau = 1 ∧ P'.tau = 1 ∧ P.job = job ∧ P'.job = job ∧ P.merger.minOverlapPoints = 12 ∧ P'.merger.minOverlapPoints = 30 ∧
    ∃ b b', d.unw 0 = some (some b) ∧ d'.unw 0 = some (some b') ∧ ∃ v, b.val 5 5 = some v ∧ b'.val 5 5 = some v := by
  obtain ⟨solver, ⟨hs, _⟩, _⟩ := exists_solver
  obtain ⟨mip, hopt, hcomp⟩ := exists_mip_solver
  obtain ⟨d, h⟩ := unaliased_run solver hs mip hopt hcomp true 12 (by norm_num) T tiles (fun _ h => h)
    (fun t ht => .single ⟨(flow_shared 0 t (by omega) ht).1, by
      show (12 : ℤ) ≤ ((sharedPixels job T 0 t).ncard : ℤ)
      exact_mod_cast (flow_shared 0 t (by omega) ht).2⟩)
  obtain ⟨d', h'⟩ := unaliased_run solver hs mip hopt hcomp false 30 (by norm_num) TWhole rfl
    (fun b hb => by simp [TWhole] at hb; simp [T, hb])
    (fun t ht => by
      have : t = 0 := by simpa [TWhole] using ht
      subst this; exact .refl)
  obtain ⟨_, _, hin⟩ := flow_tiles h.good h.tiles
  have hv : ValidPixel job 0 0 := (valid_iff 0 0).mpr (by decide)
  have hlarge1 : LargestOfTiles job TWhole ⟨0, 0, 6, 7⟩ := ⟨0, rfl, fun t b' hb' => .inr ⟨by
    have := List.mem_of_getElem? hb'
    simp only [TWhole, List.mem_singleton] at this
    rw [this], by omega⟩⟩
  obtain ⟨b, b', h1, h2, h3⟩ := C95_reference (flowTiled solver mip true 12) (flowTiled solver mip false 30) T TWhole one_pos rfl phi d d' h h' rfl rfl ⟨0, 0, 6, 7⟩ ⟨0, 0, 6, 7⟩
    (largest job rfl rfl hin) hlarge1 0 0 (first job hv) (first job hv) 0 0 0 1 rfl rfl
  have hv5 : ValidPixel job (5 : ℕ) (5 : ℕ) := (valid_iff 5 5).mpr (by decide)
  exact ⟨_, _, d, d', h, h', rfl, rfl, rfl, rfl, rfl, rfl, b, b', h1, h2,
    h3 5 5 (by decide : 5 < 6) (by decide : 5 < 7) (by decide : 5 < 6) (by decide : 5 < 7) hv5 hv5⟩

/-- The example stack with the last two acquisitions exchanged. -/
def jobSwapped : TileJob ℚ := { job with dates := ["20200101", "20200125", "20200113"] }

def phiSwapped (s : Nat) (p : ℤ × ℤ) : ℚ := phi (if s = 1 then 2 else if s = 2 then 1 else s) p

theorem swapped_run (solver : FlowSolver) (hs : SolverSound solver) (mip : MipSolver) (hopt : MipOptimal mip)
    (hcomp : MipComplete mip) :
    ∃ d, UnaliasedRun { flowTiled solver mip false 30 with job := jobSwapped } TWhole phiSwapped d := by
  have hP0 := flow_good solver hs mip hopt tiler (by simp [TilerSettings.check, tiler]) 30
  have hj := job_good
  have hP : GoodFlow { flowTiled solver mip false 30 with job := jobSwapped } :=
    ⟨⟨hj.contract, rfl, hj.batch, hj.images, hj.triangles⟩, hP0.solver, hP0.tiler, hP0.size, hP0.labels, hP0.mip⟩
  set P : Flow ℚ Nat := { flowTiled solver mip false 30 with job := jobSwapped } with hPd
  have hm : P.mask = arr := flow_mask solver mip tiler 30
  have hT' : makeTiles P.sc P.fl P.useTiles P.tiler P.job.coh.cols P.mask = .ok TWhole := by
    rw [hm]; rfl
  have hsub : ∀ b ∈ TWhole.tiles, b ∈ T.tiles := fun b hb => by simp [TWhole] at hb; simp [T, hb]
  have hphase : TruePhase 1 jobSwapped phiSwapped := by
    intro s hs r c hp hv
    have hs : s < 3 := hs
    interval_cases s
    · exact job_phase 0 (by decide) r c hp hv
    · exact job_phase 2 (by decide) r c hp hv
    · exact job_phase 1 (by decide) r c hp hv
  have hcase : ∀ s u, (s, u) ∈ job.time.links → ∃ s' u', (s', u') ∈ job.time.links ∧
      ((∀ p, phiSwapped u p - phiSwapped s p = phi u' p - phi s' p) ∨
        ∀ p, phiSwapped u p - phiSwapped s p = -(phi u' p - phi s' p)) := by
    intro s u h
    simp only [job, List.mem_cons, Prod.mk.injEq, List.not_mem_nil, or_false] at h
    rcases h with ⟨rfl, rfl⟩ | ⟨rfl, rfl⟩ | ⟨rfl, rfl⟩
    · exact ⟨0, 2, by simp [job], .inl fun p => by simp [phiSwapped]⟩
    · exact ⟨0, 1, by simp [job], .inl fun p => by simp [phiSwapped]⟩
    · exact ⟨1, 2, by simp [job], .inr fun p => by simp [phiSwapped]⟩
  have hsmooth : ∀ b ∈ T.tiles, SmoothOnTile 1 jobSwapped b phiSwapped := by
    intro b hb s u hsu m n hmn p q hp hq
    obtain ⟨s', u', h1, h2⟩ := hcase s u hsu
    have h3 := job_smooth b hb s' u' h1 m n hmn p q hp hq
    rcases h2 with h2 | h2
    · rw [h2, h2]; exact h3
    · rw [h2, h2, ← neg_sub_neg, neg_neg, neg_neg, abs_sub_comm]; exact h3
  have hrange : ∀ s u, (s, u) ∈ jobSwapped.time.links → ∀ p : ℤ × ℤ, PixelOf (jobSwapped.coh.rows, jobSwapped.coh.cols) p.1 p.2 →
      ValidPixel jobSwapped p.1 p.2 → |phiSwapped u p - phiSwapped s p| ≤ 16383 * (1 : ℚ) := by
    intro s u hsu p hp hv
    obtain ⟨s', u', h1, h2⟩ := hcase s u hsu
    have h3 := job_range s' u' h1 p hp hv
    rcases h2 with h2 | h2
    · rw [h2]; exact h3
    · rw [h2, abs_neg]; exact h3
  have hU : Unaliased P TWhole phiSwapped := ⟨fun b hb => by
      obtain ⟨h1, h2, h3, h4, h5, h6, h7⟩ := job_ready b (hsub b hb)
      exact ⟨h1, h2, h3, h4, h5, h6, by simp [hPd, jobSwapped]⟩, hphase, fun b hb => hsmooth b (hsub b hb), hrange⟩
  have hJ : TilesJoined P TWhole := fun t ht => by
    have : t = 0 := by simpa [TWhole] using ht
    subst this; exact .refl
  have hcc : ∀ edges : List (Nat × Nat), (∀ e ∈ edges, e.1 < TWhole.tiles.length ∧ e.2 < TWhole.tiles.length) →
      ComponentLabels TWhole.tiles.length edges (P.cc TWhole.tiles.length edges) := fun edges _ => labelsOf_labels _ edges
  have hls : P.merger.bulkMethod = "L2" → ∀ olaps off, off.length = olaps.length →
      (∀ row ∈ off, row.length = P.job.time.links.length) →
      LeastSquares (overlapMatrix olaps TWhole.tiles.length) off (P.lstsq (overlapMatrix olaps TWhole.tiles.length) off)
        TWhole.tiles.length P.job.time.links.length := fun h => absurd h (by simp [hPd, flowTiled, flow])
  have himg : 0 < P.job.coh.rows ∧ 0 < P.job.coh.cols := by simp [hPd, jobSwapped, job]
  obtain ⟨d, h⟩ := C63_completes P hP one_pos himg (by simp [hPd, jobSwapped, job])
    (by simp [hPd, jobSwapped, job])
    (by simp [hPd, flowTiled, flow, MergerSettings.check]) (by simp [hPd, flowTiled, flow])
    TWhole hT' phiSwapped hU hJ hcc hcomp hls (fun _ => rfl) (by
      intro b hb
      have h3 := (job_pixels b (hsub b hb)).1
      have e : (tilePixels P.job b).length = (tilePoints job.coh job.thr b).length := by simp [tilePixels, hPd, jobSwapped]
      have e2 : P.simplices (tilePixels P.job b) = fan (tilePoints job.coh job.thr b).length := by rw [← e]; rfl
      refine ⟨?_, 0, ?_⟩
      · rw [e2, e]
        intro u v huv
        have := (fan_contract _).ordered u v huv
        omega
      · rw [e2, e]
        exact .inr (fan_adjacent h3 (by omega) (by omega)))
  exact ⟨d, hP, himg, hT', hU, hJ, hcc, hls, h⟩

/-- Non-vacuity of `C95_stacks`: the example stack with four tiles, and with two acquisitions exchanged and one tile. -/
theorem example_stacks : ∃ (P P' : Flow ℚ Nat) (d d' : Disk ℚ), UnaliasedRun P T phi d ∧ UnaliasedRun P' TWhole phiSwapped d' ∧
    P.job = job ∧ P'.job = jobSwapped ∧ P.job.time.links[0]? = some (0, 1) ∧ P'.job.time.links[1]? = some (0, 2) ∧
    (∀ p, phiSwapped 2 p - phiSwapped 0 p = phi 1 p - phi 0 p) ∧
    ∃ b b' v v', d.unw 0 = some (some b) ∧ d'.unw 1 = some (some b') ∧ b.val 5 5 = some v ∧ b'.val 5 5 = some v' ∧
      ∃ c : ℤ, v' = v + c := by
  obtain ⟨solver, ⟨hs, _⟩, _⟩ := exists_solver
  obtain ⟨mip, hopt, hcomp⟩ := exists_mip_solver
  obtain ⟨d, h⟩ := unaliased_run solver hs mip hopt hcomp true 12 (by norm_num) T tiles (fun _ h => h)
    (fun t ht => .single ⟨(flow_shared 0 t (by omega) ht).1, by
      show (12 : ℤ) ≤ ((sharedPixels job T 0 t).ncard : ℤ)
      exact_mod_cast (flow_shared 0 t (by omega) ht).2⟩)
  obtain ⟨d', h'⟩ := swapped_run solver hs mip hopt hcomp
  have hphi : ∀ p, phiSwapped 2 p - phiSwapped 0 p = phi 1 p - phi 0 p := fun p => by simp [phiSwapped]
  obtain ⟨b, b', h1, h2, c, h3⟩ := C95_stacks (flowTiled solver mip true 12) { flowTiled solver mip false 30 with job := jobSwapped }
    T TWhole one_pos rfl phi phiSwapped d d' h h' 0 1 0 1 0 2 rfl rfl 0 (fun r q _ _ => by rw [hphi]; simp)
  have hv5 : ValidPixel job (5 : ℕ) (5 : ℕ) := (valid_iff 5 5).mpr (by decide)
  obtain ⟨v, v', e1, e2, e3⟩ := h3 5 5 (by decide : 5 < 6) (by decide : 5 < 7) (by decide : 5 < 6) (by decide : 5 < 7) hv5 hv5
  exact ⟨_, _, d, d', h, h', rfl, rfl, rfl, rfl, hphi, b, b', v, v', h1, h2, e1, e2, c, by simpa [flowTiled, flow] using e3⟩

end Whole
end Spurt
