import Verif.Props.Complex
import Verif.Props.RecoveryExample
import Verif.Props.EmcfExamples

/-!
# Non-vacuity of C89

The stack of `RecoveryExample.lean` as complex images with varying amplitudes.
-/

namespace Spurt
open Spec Complex

/-- Two numbers a quarter of a cycle apart, of different amplitude. -/
example : phaseDiffC 2 (3 * I) = Real.pi / 2 := by
  refine C89_phase_diff_only 2 (3 * I) (by norm_num) (by simp) 0 _ ?_ ?_
  · unfold IsPhase interferogram
    have : ((Real.pi / 2 : ℝ) : ℂ) * I = Real.pi / 2 * I := by push_cast; ring
    rw [this, exp_pi_div_two_mul_I, map_ofNat]
    simp
    ring
  · rw [sub_zero, abs_lt]
    constructor <;> linarith [Real.pi_pos]

/-- The hypothesis of `C89_phase_diff_angle` is met, and a sample of amplitude 2 has the direction of one of amplitude 6. -/
example : arg (interferogram 2 3) ≠ Real.pi ∧ SameDirection (2 * I) (6 * I) := by
  constructor
  · have : interferogram 2 3 = ((6 : ℝ) : ℂ) := by
      unfold interferogram
      have : starRingEnd ℂ 2 = 2 := map_ofNat _ 2
      rw [this]; norm_num
    rw [this, arg_ofReal_of_nonneg (by norm_num)]
    exact Real.pi_pos.ne
  · exact ⟨3, by norm_num, by push_cast; ring⟩

/-- C89 for the graphs of the package: `unwrap_cube` returns on any complex stack of at least 4 acquisitions with `Hop3Graph` in time and `Reg2DGraph` in
space, constant costs, any batch size and schedule, with no assumption on the samples; and every interferogram of the result, with the offset of the
first pixel, is a phase of the complex interferogram. -/
theorem C89_hop3_reg2d (solver : FlowSolver)
    (hopt : SolverOptimal solver) (hcomp : SolverComplete solver)
    (n r c : Nat) (hn : 4 ≤ n) (hn2 : n ≤ 300000000) (hr : 2 ≤ r) (hc : 2 ≤ c)
    (s : SolverSettings) (hb : 0 < s.linksPerBatch) (hs1 : s.tCostType = "constant")
    (hs2 : s.sCostType = "constant") (cpus : ℤ) (hpool : 1 ≤ s.sWorkerCount ∨ 2 ≤ cpus)
    (data : List (List ℂ)) (hd : data.length = n) (hcols : ∀ row ∈ data, row.length = r * c)
    (oT : Nat → List Nat → List Nat) (oS : List Nat → List Nat)
    (hoT : ∀ k l, (oT k l).Perm l) (hoS : ∀ l, (oS l).Perm l) :
    ∃ gt time space out, hop3Graph n = .ok gt ∧ ormcf gt = .ok time ∧ ormcf (reg2dGraph r c) = .ok space ∧
      (∀ d1 d2 d3 d4, unwrapCubeC solver ⟨space, time, s, cpus, d1, d2, d3, d4⟩ 2 0 data oT oS = .ok out) ∧
      ∀ i a b : Nat, gt.links[i]? = some (a, b) → ∀ p < r * c,
        IsPhase ((out.getD i []).getD p 0 + (phaseOffsetC gt data).getD i 0) (interferogram (elemC data a p) (elemC data b p)) := by
  obtain ⟨gt, time, space, out, h1, h2, h3, h4⟩ := C21_hop3_reg2d_returns (2 * Real.pi) two_pi_pos' solver hopt hcomp n r c hn hn2 hr hc s hb hs1 hs2
    cpus hpool (data.map fun r => r.map arg) (by simpa using hd) (by
      intro row hrow
      obtain ⟨row', h, rfl⟩ := List.mem_map.mp hrow
      rw [List.length_map]
      exact hcols row' h) (by
      intro row hrow x hx
      obtain ⟨row', _, rfl⟩ := List.mem_map.mp hrow
      obtain ⟨z, _, rfl⟩ := List.mem_map.mp hx
      have := abs_arg_le_pi z
      linarith) oT oS hoT hoS
  have h4' : ∀ d1 d2 d3 d4, unwrapCubeC solver ⟨space, time, s, cpus, d1, d2, d3, d4⟩ 2 0 data oT oS = .ok out := by
    intro d1 d2 d3 d4
    rw [unwrapCubeC_eq]
    exact h4 d1 d2 d3 d4
  refine ⟨gt, time, space, out, h1, h2, h3, h4', fun i a b hi p hp => ?_⟩
  obtain ⟨g, hg, hct, _⟩ := C04_hop3_planar n hn
  obtain rfl : g = gt := by rw [h1, Except.ok.injEq] at hg; exact hg.symm
  have hgn : g.npoints = n := by
    rw [hop3Graph_eq n hn] at h1
    simp only [Except.ok.injEq] at h1
    rw [← h1]
  rw [← hgn] at hct
  have hcs := reg2d_contract r c hr hc
  have hmgs : space.graph = reg2dGraph r c := (dual_of_contract hcs h3).1
  refine ((C89_cube_slc solver ⟨space, time, s, cpus, .ok [], .ok [], .ok [], .ok []⟩ g hct h2 hopt.1 hb (fun a b hab => ?_) data (by rw [hgn]; exact hd) oT oS
    hoT hoS 2 0 out (h4' _ _ _ _)).2 i a b hi).2.2 p ?_ |>.2
  · simp only at hab
    rw [hmgs] at hab
    exact (hcs.ordered a b hab).1
  · simp only
    rw [hmgs]
    exact hp

/-- Non-vacuity of `C89_hop3_reg2d`: solvers with the two properties exist (`exists_solver`); four images of 2 × 2 pixels, one sample 0. -/
example : ∃ solver : FlowSolver, SolverOptimal solver ∧ SolverComplete solver ∧
    ∀ row ∈ [[1, I, -1, 0], [2, 2, I, I], [1, 1, -I, 1], [(3 : ℂ), I, 1, -2]], row.length = 2 * 2 := by
  obtain ⟨solver, h1, h2⟩ := exists_solver
  exact ⟨solver, h1, h2, by simp⟩

theorem interferogram_real (x y : ℝ) : interferogram (x : ℂ) (y : ℂ) = ((y * x : ℝ) : ℂ) := by
  unfold interferogram
  rw [conj_ofReal]
  push_cast
  rfl

theorem elemC_table (f : Nat → Nat → ℂ) (s p : Nat) (hs : s < 4) (hp : p < 4) :
    elemC ((List.range 4).map fun s => (List.range 4).map fun p => f s p) s p = f s p := by
  unfold elemC
  rw [List.getD_eq_getElem?_getD, List.getD_eq_getElem?_getD, List.getElem?_map, List.getElem?_range hs]
  simp [List.getElem?_range hp]

/-- The hypotheses of `C89_factors` on the samples are met: four images of four pixels of varying amplitude, turned by a quarter of a cycle per
acquisition and scaled per pixel; no sample is 0 and no double difference is on the negative real axis. The result is that of `C89_conjugate`, too. -/
example : ∃ (w w' : List (List ℂ)) (a b : Nat → ℂ), w.length = 4 ∧ w'.length = w.length ∧ (w'.headD []).length = (w.headD []).length ∧
    (w.headD []).length = 4 ∧ w' ≠ w ∧
    (∀ s < w.length, ∀ p < (w.headD []).length, elemC w s p ≠ 0 ∧ a s ≠ 0 ∧ b p ≠ 0) ∧
    (∀ s < w.length, ∀ p < (w.headD []).length, elemC w' s p = a s * b p * elemC w s p) ∧
    (∀ s < 4, ∀ u < 4, ∀ p < 4, ∀ q < 4,
      arg (interferogram (interferogram (elemC w s p) (elemC w u p)) (interferogram (elemC w s q) (elemC w u q))) ≠ Real.pi) ∧
    ∀ r ∈ w, ∀ z ∈ r, arg z ≠ Real.pi := by
  let f : Nat → Nat → ℂ := fun s p => ((s + p + 1 : ℝ) : ℂ)
  let a : Nat → ℂ := fun s => I ^ s
  let b : Nat → ℂ := fun p => ((p + 1 : ℝ) : ℂ)
  refine ⟨(List.range 4).map fun s => (List.range 4).map fun p => f s p,
    (List.range 4).map fun s => (List.range 4).map fun p => a s * b p * f s p, a, b, by simp, by simp, by simp [List.range_succ], by simp [List.range_succ], ?_, ?_, ?_, ?_, ?_⟩
  · intro h
    have h1 := elemC_table (fun s p => a s * b p * f s p) 0 1 (by norm_num) (by norm_num)
    rw [h, elemC_table f 0 1 (by norm_num) (by norm_num)] at h1
    simp only [f, a, b] at h1
    norm_num at h1
  · intro s hs p hp
    have hs : s < 4 := by simpa using hs
    have hp : p < 4 := by simpa [List.range_succ] using hp
    rw [elemC_table f s p hs hp]
    refine ⟨?_, pow_ne_zero _ I_ne_zero, ?_⟩
    · exact ofReal_ne_zero.mpr (by positivity)
    · exact ofReal_ne_zero.mpr (by positivity)
  · intro s hs p hp
    have hs : s < 4 := by simpa using hs
    have hp : p < 4 := by simpa [List.range_succ] using hp
    rw [elemC_table f s p hs hp, elemC_table (fun s p => a s * b p * f s p) s p hs hp]
  · intro s hs u hu p hp q hq
    rw [elemC_table f s p hs hp, elemC_table f u p hu hp, elemC_table f s q hs hq, elemC_table f u q hu hq]
    simp only [f]
    rw [interferogram_real, interferogram_real, interferogram_real, arg_ofReal_of_nonneg (by positivity)]
    exact Real.pi_pos.ne
  · intro r hr z hz
    obtain ⟨s, _, rfl⟩ := List.mem_map.mp hr
    obtain ⟨p, _, rfl⟩ := List.mem_map.mp hz
    simp only [f]
    rw [arg_ofReal_of_nonneg (by positivity)]
    exact Real.pi_pos.ne

namespace WholeC

/-- The true phases, in radians. -/
noncomputable def phi (s : Nat) (p : ℤ × ℤ) : ℝ := 2 * Real.pi * (Whole.phi s p : ℝ)

/-- Complex images: the amplitude of acquisition 1 varies over the image. -/
noncomputable def job : ComplexJob where
  coh := ⟨6, 7, fun _ c => if c = 6 then none else some 1⟩
  thr := 1 / 2
  dates := ["20200101", "20200113", "20200125"]
  slc := fun d => if d = "20200101" then none else if d = "20200113" then
    some ⟨6, 7, fun r c => ((1 + r + c : ℝ) : ℂ) * exp (phi 1 (r, c) * I)⟩ else
    some ⟨6, 7, fun r c => ((5 : ℝ) : ℂ) * exp (phi 2 (r, c) * I)⟩
  time := ⟨3, [(0, 1), (0, 2), (1, 2)], [[0, 1, 2]]⟩
  settings := {}
  cpuCount := 4
  simplices := fun pts => fan pts.length
  tDist := .ok []
  tCent := .ok []
  sDist := fun _ => .ok []
  sCent := fun _ => .ok []

theorem mask_eq (b : BBox) : (job.coh.window b).map (fun r => r.map (aboveThreshold job.thr)) =
    (Whole.job.coh.window b).map (fun r => r.map (aboveThreshold Whole.job.thr)) := by
  unfold Band.window
  simp only [List.map_map]
  apply List.map_congr_left
  intro r _
  simp only [Function.comp, List.map_map]
  apply List.map_congr_left
  intro c _
  simp only [Function.comp, job, Whole.job]
  split
  · rfl
  · simp only [aboveThreshold]
    norm_num

theorem points_eq (b : BBox) : tilePoints job.coh job.thr b = tilePoints Whole.job.coh Whole.job.thr b := by
  unfold tilePoints
  rw [mask_eq]

theorem pixels_eq (b : BBox) : tilePixels (angleJob job) b = tilePixels Whole.job b := by
  unfold tilePixels
  exact congrArg _ (points_eq b)

theorem graph_eq (b : BBox) : tileGraph (angleJob job) b = tileGraph Whole.job b := by
  have h : tilePoints (angleJob job).coh (angleJob job).thr b = tilePoints Whole.job.coh Whole.job.thr b := points_eq b
  unfold tileGraph
  rw [h]
  rfl

theorem coherent_iff (r c : Nat) : CoherentPixel job r c ↔ c ≠ 6 := by
  unfold CoherentPixel job
  simp only
  split <;> rename_i h
  · simp [h]
  · simp [h]; norm_num

theorem valid_iff (r c : ℤ) : ValidPixel (angleJob job) r c ↔ c.toNat ≠ 6 := coherent_iff r.toNat c.toNat

theorem job_good : GoodJob (angleJob job) where
  contract := triangle_contract
  dates := rfl
  batch := by decide
  images := by
    intro d im h
    unfold angleJob job at h ⊢
    simp only at h
    split at h
    · simp at h
    · split at h <;> (simp only [Option.map_some, Option.some.injEq] at h; subst h; simp [angleImage])
  triangles := by
    intro pts t ht
    simp only [angleJob, job, fan, List.mem_map] at ht
    obtain ⟨i, _, rfl⟩ := ht
    simp

theorem job_ready : ∀ b ∈ Whole.T.tiles, TileReady (angleJob job) b := by
  intro b hb
  have h := Whole.job_ready b hb
  refine ⟨?_, ?_, ?_, ⟨_, rfl⟩, ⟨_, rfl⟩, .inr (by decide), by decide⟩
  all_goals rw [graph_eq]
  · exact h.contract
  · exact h.links
  · exact h.connected

theorem isPhase_polar (a φ : ℝ) (ha : 0 < a) : IsPhase φ ((a : ℂ) * exp (φ * I)) ∧ (a : ℂ) * exp (φ * I) ≠ 0 := by
  have h1 : ‖(a : ℂ) * exp (φ * I)‖ = a := by
    rw [norm_mul, norm_exp_ofReal_mul_I, mul_one, norm_real, Real.norm_eq_abs, abs_of_pos ha]
  refine ⟨by unfold IsPhase; rw [h1], fun h => ?_⟩
  rw [h, norm_zero] at h1
  exact ha.ne h1

theorem phases : PhasesOf job phi := by
  intro s hs r c _ _ _
  have hs : s < 3 := hs
  interval_cases s
  · have e : epochSample job 0 r c = 1 := rfl
    rw [e]
    refine ⟨one_ne_zero, ?_⟩
    simp [IsPhase, phi, Whole.phi]
  · have e : epochSample job 1 r c = ((1 + r + c : ℝ) : ℂ) * exp (phi 1 (r, c) * I) := rfl
    rw [e]
    exact (isPhase_polar _ _ (by positivity)).symm
  · have e : epochSample job 2 r c = ((5 : ℝ) : ℂ) * exp (phi 2 (r, c) * I) := rfl
    rw [e]
    exact (isPhase_polar _ _ (by positivity)).symm

theorem diff_eq (s u : Nat) (p q : ℤ × ℤ) : (phi u q - phi s q) - (phi u p - phi s p) =
    2 * Real.pi * (((Whole.phi u q - Whole.phi s q) - (Whole.phi u p - Whole.phi s p) : ℚ) : ℝ) := by
  unfold phi
  push_cast
  ring

theorem smooth : ∀ b ∈ Whole.T.tiles, SmoothOnTile (2 * Real.pi) (angleJob job) b phi := by
  intro b hb s u hsu m n hmn p q hp hq
  rw [graph_eq] at hmn
  rw [pixels_eq] at hp hq
  have h := Whole.job_smooth b hb s u hsu m n hmn p q hp hq
  rw [diff_eq, abs_mul, abs_of_pos two_pi_pos']
  have h' : |(((Whole.phi u q - Whole.phi s q) - (Whole.phi u p - Whole.phi s p) : ℚ) : ℝ)| < 1 / 2 := by
    have := (Rat.cast_lt (K := ℝ)).mpr h
    simpa using this
  have := mul_lt_mul_of_pos_left h' two_pi_pos'
  linarith

theorem range : ∀ s u, (s, u) ∈ job.time.links → ∀ r c : Nat, r < job.coh.rows → c < job.coh.cols → CoherentPixel job r c →
    |phi u (r, c) - phi s (r, c)| ≤ 16383 * (2 * Real.pi) := by
  intro s u hsu r c hr hc hv
  have h := Whole.job_range s u hsu (r, c) ⟨by simp, by show (r : ℤ) < ((6 : ℕ) : ℤ); exact_mod_cast hr, by simp,
    by show (c : ℤ) < ((7 : ℕ) : ℤ); exact_mod_cast hc⟩
    ((Whole.valid_iff _ _).mpr (by simpa using (coherent_iff r c).mp hv))
  have e : phi u (r, c) - phi s (r, c) = 2 * Real.pi * ((Whole.phi u (r, c) - Whole.phi s (r, c) : ℚ) : ℝ) := by
    unfold phi
    push_cast
    ring
  rw [e, abs_mul, abs_of_pos two_pi_pos', mul_comm]
  refine mul_le_mul_of_nonneg_right ?_ two_pi_pos'.le
  have := (Rat.cast_le (K := ℝ)).mpr h
  simpa using this

/-- The workflow on the complex images. -/
noncomputable def flow (solver : FlowSolver) (mip : MipSolver) : Flow ℝ Nat where
  tau := 2 * Real.pi
  sc := Whole.scoring
  fl := id
  useTiles := true
  tiler := Whole.tiler
  job := angleJob job
  solver := solver
  cc := labelsOf
  mip := mip
  lstsq := fun _ _ => []
  merger := { minOverlapPoints := 12, bulkMethod := "integer" }
  lin := ⟨fun _ => true, fun _ b => b⟩
  simplices := fun pts => fan pts.length

/-- Non-vacuity of `C89_result` and `C89_recovers`: the workflow completes on the complex images and the raster of the first interferogram is the
true one, in radians. -/
theorem example_complex : ∃ (P : Flow ℝ Nat) (d1 : Disk ℝ), GoodFlow P ∧ P.job = angleJob job ∧ P.tau = 2 * Real.pi ∧
    makeTiles P.sc P.fl P.useTiles P.tiler P.job.coh.cols P.mask = .ok Whole.T ∧ PhasesOf job phi ∧
    RunByWrite P.stages Disk.empty .completed d1 ∧
    ∃ b, d1.unw 0 = some (some b) ∧ ∃ c : ℤ, ∀ r q : Nat, r < 6 → q < 6 →
      b.val r q = some (2 * Real.pi * (3 / 7 + ((r : ℝ) + q) / 60 + c)) := by
  obtain ⟨solver, ⟨hs, _⟩, _⟩ := exists_solver
  obtain ⟨mip, hopt, hcomp⟩ := exists_mip_solver
  have hP : GoodFlow (flow solver mip) := ⟨job_good, hs, by simp [flow, TilerSettings.check, Whole.tiler],
    ⟨7, rounding_id 7, by simp [flow, angleJob, job], by simp [flow, angleJob, job]⟩, fun n es => labelsOf_length n es, hopt⟩
  set P := flow solver mip with hPd
  have hmask : P.mask = Whole.arr := by
    have h1 : P.mask = (job.coh.window ⟨0, 0, 6, 7⟩).map (fun r => r.map (aboveThreshold job.thr)) := rfl
    rw [h1, mask_eq]
    exact Whole.flow_mask solver mip Whole.tiler 12
  have hT : makeTiles P.sc P.fl P.useTiles P.tiler P.job.coh.cols P.mask = .ok Whole.T := by
    rw [hmask]; exact Whole.tiles
  have hshared : ∀ a b, sharedPixels P.job Whole.T a b = sharedPixels Whole.job Whole.T a b := by
    intro a b
    unfold sharedPixels
    ext p
    simp only [Set.mem_ofPred_eq]
    rw [show ValidPixel P.job p.1 p.2 ↔ ValidPixel Whole.job p.1 p.2 from (valid_iff _ _).trans (Whole.valid_iff _ _).symm]
  have hJ : TilesJoined P Whole.T := fun t ht => .single
    ⟨by rw [hshared]; exact (Whole.flow_shared 0 t (by omega) ht).1, by
      rw [hshared]
      show (12 : ℤ) ≤ ((sharedPixels Whole.job Whole.T 0 t).ncard : ℤ)
      exact_mod_cast (Whole.flow_shared 0 t (by omega) ht).2⟩
  have hcc : ∀ edges : List (Nat × Nat), (∀ e ∈ edges, e.1 < Whole.T.tiles.length ∧ e.2 < Whole.T.tiles.length) →
      ComponentLabels Whole.T.tiles.length edges (P.cc Whole.T.tiles.length edges) := fun edges _ => labelsOf_labels _ edges
  have hls : P.merger.bulkMethod = "L2" → ∀ olaps off, off.length = olaps.length →
      (∀ row ∈ off, row.length = P.job.time.links.length) →
      LeastSquares (overlapMatrix olaps Whole.T.tiles.length) off (P.lstsq (overlapMatrix olaps Whole.T.tiles.length) off)
        Whole.T.tiles.length P.job.time.links.length := fun h => absurd h (by simp [hPd, flow])
  have hU : Unaliased P Whole.T phi := by
    refine ⟨job_ready, C89_true_phase job phi phases, smooth, ?_⟩
    rintro s u hsu ⟨r, c⟩ hp hv
    obtain ⟨h1, h2, h3, h4⟩ := hp
    simp only at h1 h2 h3 h4 hv
    lift r to ℕ using h1
    lift c to ℕ using h3
    exact range s u hsu r c (by exact_mod_cast h2) (by exact_mod_cast h4) ((coherent_iff r c).mpr (by simpa using (valid_iff _ _).mp hv))
  obtain ⟨d1, h⟩ := C63_completes P hP two_pi_pos' (by simp [hPd, flow, angleJob, job]) (by simp [hPd, flow, angleJob, job])
    (by simp [hPd, flow, angleJob, job]) (by simp [hPd, flow, MergerSettings.check]) (by simp [hPd, flow]) Whole.T hT phi hU hJ hcc hcomp hls
    (fun _ => rfl) (by
      intro b hb
      have h3 := (Whole.job_pixels b hb).1
      have e : (tilePixels P.job b).length = (tilePoints Whole.job.coh Whole.job.thr b).length := by
        have : tilePixels P.job b = tilePixels Whole.job b := pixels_eq b
        rw [this]
        simp [tilePixels]
      have e2 : P.simplices (tilePixels P.job b) = fan (tilePoints Whole.job.coh Whole.job.thr b).length := by rw [← e]; rfl
      refine ⟨?_, 0, ?_⟩
      · rw [e2, e]
        intro u v huv
        have := (fan_contract _).ordered u v huv
        omega
      · rw [e2, e]
        exact .inr (fan_adjacent h3 (by omega) (by omega)))
  obtain ⟨b, hb1, hb2, hb3, c, hc⟩ := C89_recovers P hP job rfl rfl (by simp [job]) Whole.T hT phi phases job_ready smooth range hJ hcc hls d1 h 0 0 1 rfl
  refine ⟨P, d1, hP, rfl, rfl, hT, phases, h, b, hb1, c, fun r q hr hq => ?_⟩
  rw [(hc r q hr (by show q < 7; omega)).1 ((coherent_iff r q).mpr (by omega))]
  congr 1
  simp [phi, Whole.phi]
  ring

end WholeC

end Spurt
