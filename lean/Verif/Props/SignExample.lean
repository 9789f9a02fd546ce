import Verif.Props.SignCost
import Verif.Props.ShiftExample
import Verif.Props.InvarianceExample

/-! # A stack and its conjugate -/

namespace Spurt
open Spec

/-- Non-vacuity of `C88_one` and `C88_cost`: a vortex around the four points of a 2 × 2 image and its negative, with costs that
differ by link and direction. -/
example : ∃ (solver solver' : FlowSolver) (m : Mcf) (unw unw' : List ℚ) (flows flows' : List ℤ),
    SolverOptimal solver ∧ SolverOptimal solver' ∧ ormcf (reg2dGraph 2 2) = .ok m ∧
    unwrapOne (1 : ℚ) solver m [0, 1/4, -1/4, 1/2] [1, 2, 3, 4] (some [4, 3, 2, 1]) = .ok (unw, flows) ∧
    unwrapOne (1 : ℚ) solver' m [0, -1/4, 1/4, -1/2] [4, 3, 2, 1] (some [1, 2, 3, 4]) = .ok (unw', flows') ∧
    unw' = unw.map (- ·) ∧ flows' = flows.map (- ·) ∧
    correctionCost [4, 3, 2, 1] [1, 2, 3, 4] flows' = correctionCost [1, 2, 3, 4] [4, 3, 2, 1] flows := by
  obtain ⟨solver, hs, hcomp⟩ := exists_solver
  have hcs := reg2d_contract 2 2 le_rfl le_rfl
  obtain ⟨m, hm⟩ := C06_contract_accepted (reg2dGraph 2 2) hcs
  have hll : (reg2dGraph 2 2).links.length = 4 := by decide
  have hco : ∀ c : List ℤ, c.length = 4 → CostOn (reg2dGraph 2 2).links.length c c := fun c h => ⟨by rw [hll]; exact h, .inl rfl⟩
  obtain ⟨unw, flows, hu, _⟩ := C14_unwrap_one (1 : ℚ) one_pos (reg2dGraph 2 2) m solver hcs
    (by intro h0; rw [h0] at hll; simp at hll) (reg2d_connected 2 2) (reg2d_generate 2 2) hm hs.1 hcomp
    [0, 1/4, -1/4, 1/2] rfl (by
      intro a b hab
      have : (a, b) ∈ [(0, 1), (2, 3), (0, 2), (1, 3)] := by
        have e : (reg2dGraph 2 2).links = [(0, 1), (2, 3), (0, 2), (1, 3)] := by decide
        rw [← e]; exact hab
      simp only [List.mem_cons, Prod.mk.injEq, List.not_mem_nil, or_false] at this
      rcases this with ⟨rfl, rfl⟩ | ⟨rfl, rfl⟩ | ⟨rfl, rfl⟩ | ⟨rfl, rfl⟩ <;> rw [abs_le] <;> norm_num)
    [1, 2, 3, 4] (some [4, 3, 2, 1]) [1, 2, 3, 4] [4, 3, 2, 1] (hco _ rfl) (hco _ rfl) (by decide) (by decide)
  have h2 := (C88_one (1 : ℚ) solver hs.1 m [0, 1/4, -1/4, 1/2] [1, 2, 3, 4] [4, 3, 2, 1] unw flows).mpr hu
  have h3 := C88_cost (1 : ℚ) (reg2dGraph 2 2) m hcs hm solver (mirrorSolver solver) hs (mirror_optimal hs) _ _ _ _ _
    (hco _ rfl) (hco _ rfl) (by decide) (by decide) _ _ _ _ hu h2
  refine ⟨solver, mirrorSolver solver, m, unw, _, flows, _, hs, mirror_optimal hs, hm, hu, ?_, rfl, rfl, h3⟩
  have e : ([0, 1/4, -1/4, 1/2] : List ℚ).map (- ·) = [0, -1/4, 1/4, -1/2] := by norm_num
  rw [e] at h2
  exact h2

/-- Non-vacuity of `C88_cube`: five acquisitions of a 2 × 2 image. -/
example : ∃ (solver : FlowSolver) (e : Emcf) (out : List (List ℚ)),
    unwrapCube 1 solver e ⟨2, 0, slcData⟩ (fun _ => id) id = .ok out ∧
    unwrapCube 1 (mirrorSolver solver) e ⟨2, 0, slcData.map fun r => r.map (- ·)⟩ (fun _ => List.reverse) List.reverse =
      .ok (out.map fun r => r.map (- ·)) := by
  obtain ⟨s, hs, hcomp⟩ := exists_solver
  obtain ⟨gt, time, space, out, h1, h2, h3, h4⟩ := C21_hop3_reg2d_returns (1 : ℚ) (by norm_num) s hs
    hcomp 5 2 2 (by omega) (by omega) (by omega) (by omega) { linksPerBatch := 3 } (by decide) rfl rfl
    4 (.inl (by decide)) slcData rfl (by decide +kernel) (by decide +kernel)
    (fun _ => id) id (fun _ l => List.Perm.refl l) (fun l => List.Perm.refl l)
  obtain ⟨g, hg, hct, _⟩ := C04_hop3_planar 5 (by omega)
  rw [h1] at hg
  simp only [Except.ok.injEq] at hg
  subst hg
  rw [hop3Graph_eq 5 (by omega), Except.ok.injEq] at h1
  subst h1
  have hcs := reg2d_contract 2 2 le_rfl le_rfl
  have hmgs : space.graph = reg2dGraph 2 2 := (dual_of_contract (g := reg2dGraph 2 2) hcs h3).1
  exact ⟨s, ⟨space, time, { linksPerBatch := 3 }, 4, .ok [], .ok [], .ok [], .ok []⟩, out, h4 _ _ _ _,
    (C88_cube 1 s hs.1 ⟨space, time, { linksPerBatch := 3 }, 4, .ok [], .ok [], .ok [], .ok []⟩ _ hct h2
      (by show (0 : ℤ) < 3; decide) (by
        intro a b hab
        simp only at hab
        rw [hmgs] at hab
        exact (hcs.ordered a b hab).1) ⟨2, 0, slcData⟩
      (fun _ => id) (fun _ => List.reverse) (fun _ l => List.Perm.refl l) (fun _ l => List.reverse_perm l)
      id List.reverse (fun l => List.Perm.refl l) (fun l => List.reverse_perm l) out).mpr (h4 _ _ _ _)⟩

namespace Whole

/-- The true phases of the conjugate stack. -/
def negPhi (s : Nat) (p : ℤ × ℤ) : ℚ := - phi s p

theorem negJob_epoch (j : TileJob ℚ) (s r c : Nat) : epochPhase (negJob j) s r c = - epochPhase j s r c := by
  unfold epochPhase negJob negImages
  simp only
  cases j.dates[s]? with
  | none => simp
  | some d => cases h : j.phase d <;> simp [h]

/-- Non-vacuity of `C88_tile`, `C88_bulk`, `C88_merge` and `C88_workflow`: four overlapping tiles, the default bulk method. Both
runs complete, and the rasters of the first interferogram are of the opposite sign. -/
example : ∃ (P : Flow ℚ Nat) (d1 d1' : Disk ℚ), GoodFlow P ∧ P.merger.bulkMethod = "L2" ∧
    RunByWrite P.stages Disk.empty .completed d1 ∧ RunByWrite (negFlow P).stages Disk.empty .completed d1' ∧
    d1.readTiles = .ok T ∧ ∃ x x', d1.unw 0 = some (some x) ∧ d1'.unw 0 = some (some x') ∧
      (∃ v, x.val 0 0 = some v) ∧ ∀ r q : Nat, x'.val r q = (x.val r q).map (- ·) := by
  obtain ⟨solver, ⟨hs, _⟩, _⟩ := exists_solver
  obtain ⟨mip, hopt, hcomp⟩ := exists_mip_solver
  obtain ⟨l, hl⟩ := exists_bulk_lstsq (K := ℚ) 4 3
  have hg := flow_good solver hs mip hopt tiler (by simp [TilerSettings.check, tiler]) 12
  have hP : GoodFlow (lflow solver mip l job) := ⟨hg.job, hg.solver, hg.tiler, hg.size, hg.labels, hg.mip⟩
  have hneg : negFlow (lflow solver mip l job) = lflow (mirrorSolver solver) (mirrorMip mip) (mirrorLstsq l) (negJob job) := by
    unfold negFlow lflow flow
    simp only [Flow.mk.injEq, true_and, and_true]
    simp only [mirrorLin, LinSolver.mk.injEq, true_and]
    funext m r
    exact neg_neg_list r
  have hP' : GoodFlow (lflow (mirrorSolver solver) (mirrorMip mip) (mirrorLstsq l) (negJob job)) := by
    rw [← hneg]; exact negFlow_good hP
  have hU : Unaliased (lflow solver mip l job) T phi := ⟨job_ready, job_phase, job_smooth, job_range⟩
  have hU' : Unaliased (lflow (mirrorSolver solver) (mirrorMip mip) (mirrorLstsq l) (negJob job)) T negPhi := by
    refine ⟨?_, ?_, ?_, ?_⟩
    · intro b hb
      obtain ⟨h1, h2, h3, h4, h5, h6, h7⟩ := job_ready b hb
      exact ⟨h1, h2, h3, h4, h5, h6, h7⟩
    · intro s hs r c hp hv
      obtain ⟨k, hk⟩ := job_phase s hs r c hp hv
      refine ⟨-k, ?_⟩
      show epochPhase (negJob job) s r.toNat c.toNat = _
      rw [negJob_epoch, hk]
      show -(phi s (r, c) - (k : ℚ) * 1) = -phi s (r, c) - ((-k : ℤ) : ℚ) * 1
      push_cast
      ring
    · intro b hb s u hsu m n hmn p q hp hq
      have := job_smooth b hb s u hsu m n hmn p q hp hq
      have e : negPhi u q - negPhi s q - (negPhi u p - negPhi s p) = - (phi u q - phi s q - (phi u p - phi s p)) := by
        unfold negPhi
        ring
      rw [e, abs_neg]
      exact this
    · intro s u hsu p hp hv
      have := job_range s u hsu p hp hv
      have e : negPhi u p - negPhi s p = - (phi u p - phi s p) := by
        unfold negPhi
        ring
      rw [e, abs_neg]
      exact this
  obtain ⟨d1, h1, hJ, hT⟩ := lflow_completes solver mip hcomp l hl job rfl hP phi hU
  obtain ⟨d1', h1', _, _⟩ := lflow_completes (mirrorSolver solver) (mirrorMip mip) (mirrorMip_complete hcomp) (mirrorLstsq l)
    (fun olaps => (C88_libraries (K := ℚ)).2.2.1 l (overlapMatrix olaps 4) 4 3 olaps.length (hl olaps)) (negJob job) rfl hP' negPhi hU'
  rw [← hneg] at h1'
  set P := lflow solver mip l job with hPd
  have himg : 0 < P.job.coh.rows ∧ 0 < P.job.coh.cols := by simp [hPd, lflow, job]
  obtain ⟨hr, _⟩ := unaliased_whole hP one_pos hT hU hJ (by simp [T]) h1
  obtain ⟨b, hb, _, _, c, hc⟩ := C63_recovers P hP one_pos himg T hT phi hU hJ (fun edges _ => labelsOf_labels _ edges) (fun _ => hl)
    d1 h1 0 0 1 rfl
  have hv := (hc 0 0 (by show (0 : ℕ) < 6; omega) (by show (0 : ℕ) < 7; omega)).1 ((valid_iff _ _).mpr (by simp))
  obtain ⟨hx, _⟩ := C88_workflow P hP himg d1 d1' h1 h1' 0
  rcases hx with ⟨hx, _⟩ | ⟨x, x', e1, e2, e3⟩
  · rw [hb] at hx; cases hx
  · rw [e1, Option.some.injEq, Option.some.injEq] at hb
    subst hb
    exact ⟨P, d1, d1', hP, rfl, h1, h1', hr, x, x', e1, e2, ⟨_, hv⟩, e3⟩

end Whole
end Spurt
