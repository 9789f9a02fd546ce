import Verif.Props.Stale
import Verif.Props.InvarianceExample
import Verif.Props.LocalExample

/-!
# C83: a call that leaves the results of another input
-/

namespace Spurt
open Spec

/-- C83 is false: the second stack differs from the first by a fifth of a cycle per acquisition. Alone, its run leaves other files.
In the folders of the first it completes, leaves the files of the first, and can do nothing else. -/
theorem C83_refuted : ∃ (P : Flow ℚ Unit) (d1 d1' : Disk ℚ), GoodFlow P ∧ GoodFlow (withJob P shiftedJob) ∧
    RunByWrite P.stages Disk.empty .completed d1 ∧
    RunByWrite (withJob P shiftedJob).stages Disk.empty .completed d1' ∧
    (∀ d, RunByWrite (withJob P shiftedJob).stages Disk.empty .completed d → d = d1') ∧ d1'.unw 0 ≠ d1.unw 0 ∧
    RunByFile (withJob P shiftedJob).stages d1 .completed d1 ∧
    ∀ o d', RunByWrite (withJob P shiftedJob).stages d1 o d' → d' = d1 := by
  obtain ⟨P, d1, hP, hj, ht, hu, h⟩ := exampleFlow_untiled
  have htau : 0 < P.tau := by rw [ht]; norm_num
  have hsame : SameStack P.tau P.job shiftedJob (fun s => (s : ℚ) / 5) fun p => (p.1.toNat : ℚ) + (p.2.toNat : ℚ) / 3 := by
    rw [hj, ht]; exact shiftedJob_same
  have htie : NoTieOnTile P.tau P.job ⟨0, 0, P.job.coh.rows, P.job.coh.cols⟩ := by rw [hj, ht]; exact exampleJob_noTie
  have himg : 1 < P.job.coh.rows ∧ 1 < P.job.coh.cols := by rw [hj]; decide +kernel
  have hP' : GoodFlow (withJob P shiftedJob) := by
    refine ⟨sameStack_good hP.job hsame, hP.solver, hP.tiler, ?_, hP.labels, hP.mip⟩
    have hz := hP.size
    rw [hj] at hz
    exact hz
  obtain ⟨⟨d1', h1⟩, h2⟩ := C79_single_tile P hP htau hu ⟨by omega, by omega⟩ d1 h shiftedJob _ _ hsame htie
  have hst := C83_stale_refuted P hP d1 h shiftedJob (by rw [hj]; rfl) (by decide +kernel)
  refine ⟨P, d1, d1', hP, hP', h, h1, fun d hd => C49_same_result _ hP' _ _ hd h1, ?_, hst.2, fun o d' hr => (hst.1 o d' hr).2⟩
  obtain ⟨b, b', hb, hb', k, hk⟩ := h2 d1' h1 0 0 1 (by rw [hj]; decide +kernel)
  obtain ⟨v, hv, hv'⟩ := (hk 1 1 himg.1 himg.2).1 (by rw [hj]; exact ⟨1, rfl, by norm_num [exampleJob]⟩)
  rw [hb, hb']
  intro he
  simp only [Option.some.injEq] at he
  rw [he, hv, ht] at hv'
  simp only [Option.some.injEq] at hv'
  have h5 : (5 : ℚ) * k = -1 := by
    have : (k : ℚ) = -(1 / 5) := by
      have := hv'; norm_num at this; linarith
    rw [this]; norm_num
  have h6 : (5 * k : ℤ) = -1 := by exact_mod_cast h5
  omega

/-- Non-vacuity of `C83_own_result_partial`: the folders left by a stopped run of the six by seven stack and of the stack with whole
cycles added, for which the workflow leaves the same files. -/
example : ∃ (P : Flow ℚ Nat) (J : TileJob ℚ → Prop) (d1 d : Disk ℚ), GoodFlow P ∧ RunByWrite P.stages Disk.empty .completed d1 ∧
    J Whole.farJob ∧ (∀ j, J j → GoodFlow (withJob P j) ∧ RunByWrite (withJob P j).stages Disk.empty .completed d1) ∧
    AfterCalls P J Disk.empty d ∧ d ≠ Disk.empty := by
  obtain ⟨P, d1, hP, hj, ht, hT, hU, hJ, hrun, hrest⟩ := Whole.example_recovers
  have htau : 0 < P.tau := by rw [ht]; norm_num
  have hsame : SameStack P.tau P.job Whole.farJob (fun _ => 0) fun _ => 0 := by rw [hj, ht]; exact Whole.farJob_same
  have hrun' := (C79_reference P hP htau d1 hrun _ _ hsame (Whole.example_noTie hP hj ht hT hU) _ (subDisk_empty d1)).2.2
  have hP' : GoodFlow (withJob P Whole.farJob) := by
    refine ⟨sameStack_good hP.job hsame, hP.solver, hP.tiler, ?_, hP.labels, hP.mip⟩
    have hz := hP.size
    rw [hj] at hz
    exact hz
  refine ⟨P, (· = Whole.farJob), d1, d1, hP, hrun, rfl, ?_, .single ⟨_, _, rfl, hrun'⟩, ?_⟩
  · rintro j rfl
    exact ⟨hP', run_of_files hrun'⟩
  · intro he
    obtain ⟨T, F, r⟩ := ref_of_run hP hrun
    have := r.tiles1
    rw [he] at this
    cases this

end Spurt
