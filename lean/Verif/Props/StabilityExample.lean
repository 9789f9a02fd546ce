import Verif.Props.StabilityRuns
import Verif.Props.ShiftExample
import Verif.Props.ClosureExample

/-! # Runs that meet the hypotheses of C92 -/

namespace Spurt
open Spec

section
variable {K : Type} [Field K] [LinearOrder K] [FloorRing K] [IsStrictOrderedRing K]

omit [FloorRing K] in
/-- A difference that is less than half a cycle before and after the change. -/
theorem staysWithin_of {tau x δ : K} (ht : 0 < tau) (h1 : |x| < tau / 2) (h2 : |x + δ| < tau / 2) : StaysWithin tau x δ := by
  intro k hk
  have hk0 : k = 0 := by
    have h3 : |(k : K) * tau| < 1 * tau := by
      calc |(k : K) * tau| = |(x + k * tau) - x| := by congr 1; ring
        _ ≤ |x + k * tau| + |x| := abs_sub _ _
        _ < 1 * tau := by linarith
    rw [abs_mul, abs_of_pos ht, mul_lt_mul_iff_left₀ ht, ← Int.cast_abs] at h3
    have : |k| < 1 := by exact_mod_cast h3
    exact Int.abs_lt_one_iff.mp this
  subst hk0
  simpa using h2

end

namespace Whole

/-- The change of the second acquisition grows from column to column. -/
def ramp (s : Nat) (p : ℤ × ℤ) : ℚ := if s = 1 then 1 / 30 + p.2 / 120 else 0

/-- The stack with the ramp added to the second acquisition. -/
def rampJob : TileJob ℚ := { job with
  phase := fun d => if d = "20200113" then (job.phase d).map fun im => ⟨im.rows, im.cols, fun r c => im.val r c + (1 / 30 + (c : ℚ) / 120)⟩
    else job.phase d }

theorem rampJob_images (d : String) (im : Band ℚ) (h : rampJob.phase d = some im) : im.rows = 6 ∧ im.cols = 7 := by
  simp only [rampJob] at h
  split at h
  · simp only [Option.map_eq_some_iff] at h
    obtain ⟨im0, h0, rfl⟩ := h
    exact job_good.images d im0 h0
  · exact job_good.images d im h

theorem rampJob_changed : ChangedBy 1 job rampJob ramp := by
  refine ⟨rfl, rfl, rampJob_images, ?_⟩
  intro s hs r c hp _
  obtain ⟨h1, h2, h3, h4⟩ := hp
  lift r to ℕ using h1
  lift c to ℕ using h3
  have hs3 : s < 3 := hs
  interval_cases s <;> exact ⟨0, by simp [epochPhase, rampJob, job, ramp]⟩

/-- The true phases of the second stack. -/
def phiR (s : Nat) (p : ℤ × ℤ) : ℚ := phi s p + ramp s p

theorem ramp_smooth : ∀ b ∈ T.tiles, SmoothOnTile 1 job b phiR := by
  intro b hb s u hsu m n _ p q hp hq
  obtain ⟨a1, a2, a3, a4⟩ := (job_pixels b hb).2 p (List.mem_of_getElem? hp)
  obtain ⟨b1, b2, b3, b4⟩ := (job_pixels b hb).2 q (List.mem_of_getElem? hq)
  have c1 : (0 : ℚ) ≤ p.1 := by exact_mod_cast a1
  have c2 : (p.1 : ℚ) ≤ 5 := by exact_mod_cast a2
  have c3 : (0 : ℚ) ≤ p.2 := by exact_mod_cast a3
  have c4 : (p.2 : ℚ) ≤ 5 := by exact_mod_cast a4
  have d1 : (0 : ℚ) ≤ q.1 := by exact_mod_cast b1
  have d2 : (q.1 : ℚ) ≤ 5 := by exact_mod_cast b2
  have d3 : (0 : ℚ) ≤ q.2 := by exact_mod_cast b3
  have d4 : (q.2 : ℚ) ≤ 5 := by exact_mod_cast b4
  simp only [job, List.mem_cons, Prod.mk.injEq, List.not_mem_nil, or_false] at hsu
  rw [abs_lt]
  rcases hsu with ⟨rfl, rfl⟩ | ⟨rfl, rfl⟩ | ⟨rfl, rfl⟩ <;> simp [phiR, phi, ramp] <;> constructor <;> linarith

theorem ramp_noFlip (b : BBox) (hb : b ∈ T.tiles) (hin : TileInImage (job.coh.rows, job.coh.cols) b) :
    NoFlipOnTile 1 job ramp b ∧ NoFlipAtFirst 1 job ramp b := by
  have hraw : ∀ s u, (s, u) ∈ job.time.links → ∀ p ∈ tilePixels job b, ∃ k : ℤ, rawIfg job s u p = phi u p - phi s p + k * 1 := by
    intro s u hsu p hp
    obtain ⟨v1, v2⟩ := tilePixels_valid hin job_good.images hp
    have hlt : s < 3 ∧ u < 3 := by
      simp only [job, List.mem_cons, Prod.mk.injEq, List.not_mem_nil, or_false] at hsu
      omega
    obtain ⟨k1, g1⟩ := job_phase s hlt.1 p.1 p.2 v1 v2
    obtain ⟨k2, g2⟩ := job_phase u hlt.2 p.1 p.2 v1 v2
    refine ⟨k1 - k2, ?_⟩
    unfold rawIfg
    push_cast
    linarith
  constructor
  · intro s u hsu m n hmn p q hp hq
    obtain ⟨k1, g1⟩ := hraw s u hsu p (List.mem_of_getElem? hp)
    obtain ⟨k2, g2⟩ := hraw s u hsu q (List.mem_of_getElem? hq)
    have h1 := job_smooth b hb s u hsu m n hmn p q hp hq
    have h2 := ramp_smooth b hb s u hsu m n hmn p q hp hq
    have := staysWithin_cycles (staysWithin_of (tau := (1 : ℚ)) (x := phi u q - phi s q - (phi u p - phi s p))
      (δ := (ramp u q - ramp s q) - (ramp u p - ramp s p)) one_pos h1 (by
        convert h2 using 2
        unfold phiR
        ring)) (k2 - k1)
    convert this using 1
    rw [g1, g2]
    push_cast
    ring
  · intro s u hsu p hp
    have hp0 : p = (0, 0) := by
      have : ∀ b ∈ T.tiles, (tilePixels job b)[0]? = some (0, 0) := by decide +kernel
      rw [this b hb, Option.some.injEq] at hp
      exact hp.symm
    subst hp0
    simp only [job, List.mem_cons, Prod.mk.injEq, List.not_mem_nil, or_false] at hsu
    have v1 : rawIfg job 0 1 (0, 0) = 3 / 7 := by decide +kernel
    have v2 : rawIfg job 0 2 (0, 0) = 0 := by decide +kernel
    have v3 : rawIfg job 1 2 (0, 0) = -3 / 7 := by decide +kernel
    obtain ⟨rfl, rfl⟩ | ⟨rfl, rfl⟩ | ⟨rfl, rfl⟩ := hsu
    · rw [v1]
      refine staysWithin_of one_pos ?_ ?_ <;> rw [abs_lt] <;> norm_num [ramp]
    · rw [v2]
      refine staysWithin_of one_pos ?_ ?_ <;> rw [abs_lt] <;> norm_num [ramp]
    · rw [v3]
      refine staysWithin_of one_pos ?_ ?_ <;> rw [abs_lt] <;> norm_num [ramp]

/-- Non-vacuity of C92 (`C92_tile`, `C92_bulk`, `C92_merge`, `C92_workflow`, `C92_overlaps`, `C92_completes`): four overlapping tiles, a ramp added to the second
acquisition. The second run completes too, with the same overlaps and bulk offsets, and the model raster of its interferogram with the first acquisition
changes by the ramp. -/
example : ∃ (P : Flow ℚ Nat) (d1 d1' : Disk ℚ), GoodFlow P ∧
    RunByWrite P.stages Disk.empty .completed d1 ∧ RunByWrite (withJob P rampJob).stages Disk.empty .completed d1' ∧
    ChangedBy P.tau P.job rampJob ramp ∧ (∀ b ∈ T.tiles, NoFlipOnTile P.tau P.job ramp b ∧ NoFlipAtFirst P.tau P.job ramp b) ∧
    d1.readTiles = .ok T ∧ d1'.overlap = d1.overlap ∧ d1'.offsets = d1.offsets ∧
    ∃ m m', d1.model 0 = some (some m) ∧ d1'.model 0 = some (some m') ∧ ∀ r q : Nat,
      m'.val r q = (m.val r q).map (· + (1 / 30 + (q : ℚ) / 120)) := by
  obtain ⟨solver, ⟨hs, _⟩, _⟩ := exists_solver
  obtain ⟨mip, hopt, hcomp⟩ := exists_mip_solver
  obtain ⟨l, hl⟩ := exists_bulk_lstsq (K := ℚ) 4 3
  have hg := flow_good solver hs mip hopt tiler (by simp [TilerSettings.check, tiler]) 12
  have hP : GoodFlow (lflow solver mip l job) := ⟨hg.job, hg.solver, hg.tiler, hg.size, hg.labels, hg.mip⟩
  have hU : Unaliased (lflow solver mip l job) T phi := ⟨job_ready, job_phase, job_smooth, job_range⟩
  obtain ⟨d1, h1, hJ, hT⟩ := lflow_completes solver mip hcomp l hl job rfl hP phi hU
  set P := lflow solver mip l job with hPd
  obtain ⟨hr, _⟩ := unaliased_whole hP one_pos hT hU hJ (by simp [T]) h1
  have hin := (flow_tiles hP hT).2.2
  have hnf : ∀ b ∈ T.tiles, NoFlipOnTile P.tau P.job ramp b ∧ NoFlipAtFirst P.tau P.job ramp b := fun b hb => ramp_noFlip b hb (hin b hb)
  obtain ⟨⟨d1', h1'⟩, hall⟩ := C92_completes P hP one_pos (by simp [hPd, lflow, job]) (by simp [hPd, lflow, job]) d1 h1 rampJob ramp
    rampJob_changed T hr (by simp [T]) (fun b hb => (job_ready b hb).contract) hnf
  have hov := ((hall _ _ h1').2 rfl).2.1
  obtain ⟨_, ho, x, x', m, m', y, y', e1, e2, e3, e4, _, _, hk⟩ := C92_workflow P hP one_pos (by simp [hPd, lflow, job]) d1 d1' h1 rampJob ramp
    rampJob_changed h1' T hr (by simp [T]) (fun b hb => (job_ready b hb).contract) hnf 0 0 1 rfl
  refine ⟨P, d1, d1', hP, h1, h1', rampJob_changed, hnf, hr, hov, ho, m, m', e3, e4, fun r q => ?_⟩
  rw [(hk r q).2.1]
  simp [ramp]

end Whole

/-! ### One tile -/

/-- The change of the second acquisition of the example of C90. -/
def bump (s : Nat) (p : ℤ × ℤ) : ℚ := if s = 1 then p.1 / 20 else 0

/-- The stack with a twentieth of a cycle added to the second row of the second acquisition. -/
def bumpJob : TileJob ℚ := { closureJob with
  phase := fun d => if d = "20200113" then (closureJob.phase d).map fun im => ⟨im.rows, im.cols, fun r c => im.val r c + (r : ℚ) / 20⟩
    else closureJob.phase d }

theorem bumpJob_changed : ChangedBy 1 closureJob bumpJob bump := by
  refine ⟨rfl, rfl, ?_, ?_⟩
  · intro d im h
    simp only [bumpJob] at h
    split at h
    · simp only [Option.map_eq_some_iff] at h
      obtain ⟨im0, h0, rfl⟩ := h
      exact closureJob_good.images d im0 h0
    · exact closureJob_good.images d im h
  · intro s hs r c hp _
    obtain ⟨h1, h2, h3, h4⟩ := hp
    lift r to ℕ using h1
    lift c to ℕ using h3
    have hs3 : s < 3 := hs
    interval_cases s <;> exact ⟨0, by simp [epochPhase, bumpJob, closureJob, bump]⟩

theorem bump_graph : tileGraph closureJob ⟨0, 0, 2, 2⟩ = ⟨3, [(0, 1), (0, 2), (1, 2)], [[0, 1, 2]]⟩ := by
  have hpts : tilePoints closureJob.coh closureJob.thr ⟨0, 0, 2, 2⟩ = [(0, 0), (0, 1), (1, 1)] := by
    decide +kernel
  unfold tileGraph
  rw [hpts]
  unfold delaunayGraph closureJob
  simp only
  rw [triangle_links]
  rfl

theorem bump_noFlip : NoFlipOnTile 1 closureJob bump ⟨0, 0, 2, 2⟩ ∧ NoFlipAtFirst 1 closureJob bump ⟨0, 0, 2, 2⟩ := by
  have hpx : tilePixels closureJob ⟨0, 0, 2, 2⟩ = [(0, 0), (0, 1), (1, 1)] := by decide +kernel
  have key : ∀ x δ : ℚ, (|phaseDiff 1 0 x| < 1 / 2 ∧ |phaseDiff 1 0 x + δ| < 1 / 2) → StaysWithin 1 x δ := by
    intro x δ ⟨h1, h2⟩
    obtain ⟨⟨k, hk⟩, -⟩ := C07_phase_diff_wraps (1 : ℚ) one_pos 0 x 0
    have := staysWithin_cycles (staysWithin_of (tau := (1 : ℚ)) (x := phaseDiff 1 0 x) (δ := δ) one_pos h1 h2) (-k)
    convert this using 1
    rw [hk]
    push_cast
    ring
  constructor
  · intro s u hsu m n hmn p q hp hq
    apply key
    rw [bump_graph] at hmn
    rw [hpx] at hp hq
    have all : ∀ su ∈ closureJob.time.links, ∀ mn ∈ [(0, 1), (0, 2), (1, 2)],
        ∀ p ∈ ([((0 : ℤ), (0 : ℤ)), (0, 1), (1, 1)][mn.1]?), ∀ q ∈ ([((0 : ℤ), (0 : ℤ)), (0, 1), (1, 1)][mn.2]?),
        |phaseDiff 1 0 (rawIfg closureJob su.1 su.2 q - rawIfg closureJob su.1 su.2 p)| < 1 / 2 ∧
        |phaseDiff 1 0 (rawIfg closureJob su.1 su.2 q - rawIfg closureJob su.1 su.2 p) +
          ((bump su.2 q - bump su.1 q) - (bump su.2 p - bump su.1 p))| < 1 / 2 := by decide +kernel
    exact all (s, u) hsu (m, n) hmn p hp q hq
  · intro s u hsu p hp
    apply key
    rw [hpx] at hp
    have all : ∀ su ∈ closureJob.time.links, ∀ p ∈ ([((0 : ℤ), (0 : ℤ)), (0, 1), (1, 1)][0]?),
        |phaseDiff 1 0 (rawIfg closureJob su.1 su.2 p)| < 1 / 2 ∧
        |phaseDiff 1 0 (rawIfg closureJob su.1 su.2 p) + (bump su.2 p - bump su.1 p)| < 1 / 2 := by decide +kernel
    exact all (s, u) hsu p hp

/-- Non-vacuity of `C92_single_tile` (and `C92_cube`): the example of C90, whose wrapped interferograms do not add up to zero. The pixel in the
second row changes by a twentieth of a cycle, and so does the result. -/
example : ∃ (P : Flow ℚ Unit) (d1 d1' : Disk ℚ), GoodFlow P ∧ RunByWrite P.stages Disk.empty .completed d1 ∧
    RunByWrite (withJob P bumpJob).stages Disk.empty .completed d1' ∧
    ∃ b b', d1.unw 0 = some (some b) ∧ d1'.unw 0 = some (some b') ∧ ∃ v, b.val 1 1 = some v ∧ b'.val 1 1 = some (v + 1 / 20) := by
  obtain ⟨P, d1, hP, hj, ht, hu, h⟩ := closureFlow_untiled
  obtain ⟨⟨d1', h'⟩, hall⟩ := C92_single_tile P hP (by rw [ht]; norm_num) hu (by rw [hj]; simp [closureJob]) d1 h bumpJob bump
    (by rw [hj, ht]; exact bumpJob_changed) (by
      rw [hj]
      show PlanarContract (tileGraph closureJob ⟨0, 0, 2, 2⟩).npoints (tileGraph closureJob ⟨0, 0, 2, 2⟩).links
        (tileGraph closureJob ⟨0, 0, 2, 2⟩).cycles
      rw [bump_graph]
      exact triangle_contract) (by rw [hj, ht]; exact bump_noFlip.1) (by rw [hj, ht]; exact bump_noFlip.2)
  obtain ⟨b, b', e1, e2, hv⟩ := hall d1' h' 0 0 1 (by rw [hj]; rfl)
  obtain ⟨v, v1, v2⟩ := (hv 1 1 (by rw [hj]; simp [closureJob]) (by rw [hj]; simp [closureJob])).1
    (by rw [hj]; exact ⟨1, by simp [closureJob], by norm_num [closureJob]⟩)
  refine ⟨P, d1, d1', hP, h, h', b, b', e1, e2, v, v1, ?_⟩
  rw [v2]
  norm_num [bump]

end Spurt
