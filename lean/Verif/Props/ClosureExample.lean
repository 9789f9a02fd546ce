import Verif.Props.Closure
import Verif.Props.ReferencePixel
import Verif.Props.Resume
import Verif.Props.RecoveryExample

/-!
# Examples for C90 and C91
-/

namespace Spurt
open Spec

/-- Three acquisitions whose wrapped interferograms at the first pixel add up to one cycle: 2/5 + 1/5 - (-2/5). -/
def closureJob : TileJob ℚ where
  coh := ⟨2, 2, fun r c => if r = 1 ∧ c = 0 then none else some 1⟩
  thr := 1 / 2
  dates := ["20200101", "20200113", "20200125"]
  phase := fun d => if d = "20200101" then none else if d = "20200113" then
    some ⟨2, 2, fun r c => if r = c then 2 / 5 else -1 / 2⟩ else some ⟨2, 2, fun _ c => if c = 0 then -2 / 5 else -1 / 3⟩
  time := ⟨3, [(0, 1), (0, 2), (1, 2)], [[0, 1, 2]]⟩
  settings := {}
  cpuCount := 4
  simplices := fun _ => [(0, 1, 2)]
  tDist := .ok []
  tCent := .ok []
  sDist := fun _ => .ok []
  sCent := fun _ => .ok []

theorem closureJob_good : GoodJob closureJob where
  contract := triangle_contract
  dates := rfl
  batch := by decide
  images := by
    intro d im h
    unfold closureJob at h ⊢
    simp only at h
    split at h
    · simp at h
    · split at h <;> (simp only [Option.some.injEq] at h; subst h; simp)
  triangles := by intro pts t ht; simp [closureJob] at ht; subst ht; simp

theorem closureJob_unwraps : ∃ (solver : FlowSolver) (f : TileFile ℚ), SolverOptimal solver ∧ GoodJob closureJob ∧
    TileInImage (closureJob.coh.rows, closureJob.coh.cols) ⟨0, 0, 2, 2⟩ ∧
    unwrapOneTile 1 solver closureJob ⟨(2, 2), [⟨0, 0, 2, 2⟩]⟩ 0 (fun _ => List.reverse) List.reverse = .ok f := by
  obtain ⟨s, hs, hcomp⟩ := exists_solver
  have hpts : tilePoints closureJob.coh closureJob.thr ⟨0, 0, 2, 2⟩ = [(0, 0), (0, 1), (1, 1)] := by
    decide +kernel
  have hg : (⟨3, [(0, 1), (0, 2), (1, 2)], [[0, 1, 2]]⟩ : PlanarGraph) =
      delaunayGraph (tilePoints closureJob.coh closureJob.thr ⟨0, 0, 2, 2⟩).length
        (closureJob.simplices (tilePoints closureJob.coh closureJob.thr ⟨0, 0, 2, 2⟩)) := by
    rw [hpts]
    unfold delaunayGraph closureJob
    simp only
    rw [triangle_links]
    rfl
  obtain ⟨f, hf⟩ := C55_tile_returns (1 : ℚ) one_pos s hs hcomp closureJob closureJob_good
    ⟨(2, 2), [⟨0, 0, 2, 2⟩]⟩ 0 ⟨0, 0, 2, 2⟩ rfl (by unfold TileInImage closureJob; simp) _ hg
    triangle_contract (by simp)
    (by
      intro p hp
      simp only at hp
      have h01 : Adjacent [(0, 1), (0, 2), (1, 2)] 0 1 := by simp [Adjacent]
      have h02 : Adjacent [(0, 1), (0, 2), (1, 2)] 0 2 := by simp [Adjacent]
      interval_cases p
      · exact .refl
      · exact .single h01
      · exact .single h02)
    (by
      intro vals hv hc
      have := hc [0, 1, 2] (by simp)
      have i0 : List.idxOf (0, 1) [(0, 1), (0, 2), (1, 2)] = 0 := by decide
      have i1 : List.idxOf (0, 2) [(0, 1), (0, 2), (1, 2)] = 1 := by decide
      have i2 : List.idxOf (1, 2) [(0, 1), (0, 2), (1, 2)] = 2 := by decide
      simp [circulation, sides, along, onLink, i0, i1, i2] at this
      refine ⟨fun n => if n = 0 then 0 else if n = 1 then vals.getD 0 0 else vals.getD 1 0, ?_⟩
      intro a b hab
      simp at hab
      rcases hab with ⟨rfl, rfl⟩ | ⟨rfl, rfl⟩ | ⟨rfl, rfl⟩ <;>
        simp [onLink, i0, i1, i2]
      linarith)
    rfl rfl (.inl (by decide)) (by decide) (by decide)
    (by
      intro s r c
      unfold epochPhase closureJob
      rcases s with _ | _ | _ | s
      · norm_num
      · simp only [List.getElem?_cons_succ, List.getElem?_cons_zero, Option.bind_some]
        rw [if_neg (by decide), if_pos trivial]
        simp only [Option.elim_some]
        split <;> (rw [abs_le]; norm_num)
      · simp only [List.getElem?_cons_succ, List.getElem?_cons_zero, Option.bind_some]
        rw [if_neg (by decide), if_neg (by decide)]
        simp only [Option.elim_some]
        split <;> (rw [abs_le]; norm_num)
      · simp)
    (fun _ => List.reverse) List.reverse (fun _ l => List.reverse_perm l) (fun l => List.reverse_perm l)
  exact ⟨s, f, hs, closureJob_good, by unfold TileInImage closureJob; simp, hf⟩


theorem closureFlow_optimal : ∃ (P : Flow ℚ Unit) (d1 : Disk ℚ), GoodFlow P ∧ P.job = closureJob ∧ P.tau = 1 ∧ P.useTiles = false ∧
    SolverOptimal P.solver ∧
    RunByWrite P.stages Disk.empty .completed d1 := by
  obtain ⟨solver, f, hs, hj, hin, hun⟩ := closureJob_unwraps
  obtain ⟨mip, hmip, _⟩ := exists_mip_solver
  have hP : GoodFlow (⟨1, ⟨fun _ _ _ => (), fun _ _ => (), fun _ => 0, fun _ _ => true⟩, id, false, {}, closureJob, solver,
      fun n _ => List.range n, mip, fun _ _ => [], {}, ⟨fun _ => true, fun _ b => b⟩, fun _ => []⟩ : Flow ℚ Unit) := by
    refine ⟨hj, hs.1, ?_, ⟨2, rounding_id 2, ?_, ?_⟩, fun n es => List.length_range, hmip⟩
    · simp [TilerSettings.check]; norm_num
    · simp [closureJob]
    · simp [closureJob]
  obtain ⟨d1, h⟩ := C49_single_tile _ hP rfl (by simp [closureJob]) rfl _ _ (fun _ l => List.reverse_perm l) (fun l => List.reverse_perm l) f hun
  exact ⟨_, d1, hP, rfl, rfl, rfl, hs, h⟩

theorem closureFlow_untiled : ∃ (P : Flow ℚ Unit) (d1 : Disk ℚ), GoodFlow P ∧ P.job = closureJob ∧ P.tau = 1 ∧ P.useTiles = false ∧
    RunByWrite P.stages Disk.empty .completed d1 := by
  obtain ⟨P, d1, h1, h2, h3, h4, _, h5⟩ := closureFlow_optimal
  exact ⟨P, d1, h1, h2, h3, h4, h5⟩

theorem closure_first : FirstSample closureJob ⟨0, 0, 2, 2⟩ (((0 : ℕ) : ℤ), ((0 : ℕ) : ℤ)) := by
  refine ⟨⟨by simp [InTile], 1, by simp [closureJob], by norm_num [closureJob]⟩, ?_⟩
  rintro ⟨r, c⟩ ⟨h, _⟩
  unfold InTile at h
  simp only at h
  unfold RowMajorLt
  simp only [Prod.mk.injEq]
  omega

/-- The closure of the result need not be zero: the wrapped interferograms of the first pixel are kept as they are (C91), and here they add up to one
cycle. -/
theorem C90_zero_refuted : ∃ (P : Flow ℚ Unit) (d1 : Disk ℚ) (steps : List (Nat × Bool)) (v : Nat → ℚ) (B : Nat → Band (Option ℚ)),
    GoodFlow P ∧ 0 < P.tau ∧ RunByWrite P.stages Disk.empty .completed d1 ∧ Walk P.job.time.links 0 0 steps ∧ ValidPixel P.job 0 0 ∧
    (∀ st ∈ steps, d1.unw st.1 = some (some (B st.1)) ∧ (B st.1).val 0 0 = some (v st.1)) ∧ alongWalk v steps = P.tau := by
  obtain ⟨P, d1, hP, hj, ht, hu, h⟩ := closureFlow_untiled
  have hT : ∃ T, makeTiles P.sc P.fl P.useTiles P.tiler P.job.coh.cols P.mask = .ok T ∧ T.tiles = [⟨0, 0, 2, 2⟩] := by
    have hm := (mask_shape P).1
    refine ⟨singleTile ((P.mask.length : ℤ), (P.job.coh.cols : ℤ)), ?_, ?_⟩
    · unfold makeTiles
      rw [hu]
      simp [singleTile, Bind.bind, Except.bind, pure, Except.pure]
    · rw [hm, hj]
      rfl
  obtain ⟨T, hT, hone⟩ := hT
  have key := fun i s u hl => C91_single P hP T hT _ hone d1 h 0 0 (by rw [hj]; exact closure_first) i s u hl
  have hl : P.job.time.links = [(0, 1), (0, 2), (1, 2)] := by rw [hj]; rfl
  obtain ⟨b0, p0, q0⟩ := key 0 0 1 (by rw [hl]; rfl)
  obtain ⟨b1, p1, q1⟩ := key 1 0 2 (by rw [hl]; rfl)
  obtain ⟨b2, p2, q2⟩ := key 2 1 2 (by rw [hl]; rfl)
  have v0 : stackIfg P.tau P.job 0 1 0 0 = 2 / 5 := by rw [hj, ht]; decide +kernel
  have v1 : stackIfg P.tau P.job 0 2 0 0 = -2 / 5 := by rw [hj, ht]; decide +kernel
  have v2 : stackIfg P.tau P.job 1 2 0 0 = 1 / 5 := by rw [hj, ht]; decide +kernel
  rw [v0] at q0
  rw [v1] at q1
  rw [v2] at q2
  refine ⟨P, d1, [(0, true), (2, true), (1, false)], fun i => if i = 0 then 2 / 5 else if i = 1 then -2 / 5 else 1 / 5,
    fun i => if i = 0 then b0 else if i = 1 then b1 else b2, hP, by rw [ht]; norm_num, h, ?_, ?_, ?_, ?_⟩
  · rw [hl]
    exact ⟨1, rfl, 2, rfl, 0, rfl, rfl⟩
  · rw [hj]; exact ⟨1, by simp [closureJob], by norm_num [closureJob]⟩
  · intro st hst
    simp only [List.mem_cons, List.not_mem_nil, or_false] at hst
    rcases hst with rfl | rfl | rfl <;> simp [p0, p1, p2, q0, q1, q2]
  · rw [ht]
    norm_num [alongWalk]

/-- The largest tile of the example of C63 is the fourth. -/
theorem Whole.largest (j : TileJob ℚ) (hc : j.coh = Whole.job.coh) (ht : j.thr = Whole.job.thr)
    (hin : ∀ b ∈ Whole.T.tiles, TileInImage (j.coh.rows, j.coh.cols) b) : LargestOfTiles j Whole.T ⟨0, 0, 6, 7⟩ := by
  refine ⟨3, rfl, ?_⟩
  intro t b' hb'
  rw [← tilePoints_ncard j b' (hin b' (List.mem_of_getElem? hb')), ← tilePoints_ncard j ⟨0, 0, 6, 7⟩ (hin _ (by simp [Whole.T])), hc, ht]
  have ht4 := (List.getElem?_eq_some_iff.mp hb').1
  have e : (tilePoints Whole.job.coh Whole.job.thr ⟨0, 0, 6, 7⟩).length = 36 := by decide +kernel
  rw [e]
  simp only [Whole.T, List.length_cons, List.length_nil] at ht4
  interval_cases t <;> simp only [Whole.T, List.getElem?_cons_zero, List.getElem?_cons_succ, Option.some.injEq] at hb' <;> subst hb' <;>
    decide +kernel

/-- Its first pixel is the corner of the image. -/
theorem Whole.first (j : TileJob ℚ) (hv : ValidPixel j 0 0) : FirstSample j ⟨0, 0, 6, 7⟩ (((0 : ℕ) : ℤ), ((0 : ℕ) : ℤ)) := by
  refine ⟨⟨by simp [InTile], hv⟩, ?_⟩
  rintro ⟨r, c⟩ ⟨h, _⟩
  unfold InTile at h
  simp only at h
  unfold RowMajorLt
  simp only [Prod.mk.injEq]
  omega

/-- Non-vacuity of `C90_constant` and `C91_tiles`: the example of C63, four tiles; the largest is the fourth, its first pixel the corner. -/
example : ∃ (P : Flow ℚ Nat) (d1 : Disk ℚ), GoodFlow P ∧ makeTiles P.sc P.fl P.useTiles P.tiler P.job.coh.cols P.mask = .ok Whole.T ∧
    Unaliased P Whole.T Whole.phi ∧ TilesJoined P Whole.T ∧ RunByWrite P.stages Disk.empty .completed d1 ∧
    LargestOfTiles P.job Whole.T ⟨0, 0, 6, 7⟩ ∧ FirstSample P.job ⟨0, 0, 6, 7⟩ (((0 : ℕ) : ℤ), ((0 : ℕ) : ℤ)) ∧
    Walk P.job.time.links 0 0 [(0, true), (2, true), (1, false)] := by
  obtain ⟨P, d1, hP, hj, ht, hT, hU, hjoin, h, _⟩ := Whole.example_recovers
  obtain ⟨hshape, hpos, hin⟩ := flow_tiles hP hT
  refine ⟨P, d1, hP, hT, hU, hjoin, h, Whole.largest P.job (by rw [hj]) (by rw [hj]) hin,
    Whole.first P.job (by rw [hj]; exact (Whole.valid_iff 0 0).mpr (by decide)), ?_⟩
  rw [hj]
  exact ⟨1, rfl, 2, rfl, 0, rfl, rfl⟩

end Spurt
