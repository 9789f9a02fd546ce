import Verif.Props.Local
import Verif.Props.InvarianceExample
import Verif.Lemmas.Refine

/-! # Calls that meet the hypotheses of C82 -/

namespace Spurt.Whole
open Spec

/-- The stack of the example with whole cycles added in the sixth column. -/
def farJob : TileJob ℚ := { job with
  phase := fun d => (job.phase d).map fun im => ⟨im.rows, im.cols, fun r c => im.val r c + if c = 5 then ((r + 1 : ℕ) : ℚ) else 0⟩ }

theorem farJob_images (d : String) (im : Band ℚ) (h : farJob.phase d = some im) : im.rows = 6 ∧ im.cols = 7 := by
  simp only [farJob, Option.map_eq_some_iff] at h
  obtain ⟨im0, h0, rfl⟩ := h
  exact job_good.images d im0 h0

theorem farJob_same : SameStack 1 job farJob (fun _ => 0) fun _ => 0 := by
  refine ⟨rfl, rfl, farJob_images, ?_⟩
  intro s hs r c _ _
  have hs3 : s < 3 := hs
  interval_cases s
  · exact ⟨0, by simp [epochPhase, farJob, job]⟩
  · refine ⟨if c.toNat = 5 then ((r.toNat + 1 : ℕ) : ℤ) else 0, ?_⟩
    by_cases h : c.toNat = 5 <;> simp [epochPhase, farJob, job, h, -Int.ofNat_toNat]
  · refine ⟨if c.toNat = 5 then ((r.toNat + 1 : ℕ) : ℤ) else 0, ?_⟩
    by_cases h : c.toNat = 5 <;> simp [epochPhase, farJob, job, h, -Int.ofNat_toNat]

theorem farJob_inTile : SameInTile ⟨0, 0, 4, 4⟩ job farJob := by
  refine ⟨⟨rfl, rfl⟩, fun r c _ _ _ _ => Iff.rfl, fun d => by simp [farJob], fun d im h => job_good.images d im h, farJob_images, ?_⟩
  intro d im im' h h' r c _ _ _ hc _
  simp only [farJob, h, Option.map_some, Option.some.injEq] at h'
  subst h'
  have : c ≠ 5 := by rintro rfl; simp at hc
  simp [this]

/-- Non-vacuity of C82: four tiles, whole cycles added outside the first tile. -/
example : ∃ (P P' : Flow ℚ Nat) (d1 d1' : Disk ℚ), GoodFlow P ∧
    P' = { P with job := { P.job with coh := P'.job.coh, thr := P'.job.thr, phase := P'.job.phase } } ∧
    RunByWrite P.stages Disk.empty .completed d1 ∧ RunByWrite P'.stages Disk.empty .completed d1' ∧ d1'.tiles = d1.tiles ∧
    d1.readTiles = .ok T ∧ T.tiles[0]? = some ⟨0, 0, 4, 4⟩ ∧ SameInTile ⟨0, 0, 4, 4⟩ P.job P'.job ∧ P'.job.phase ≠ P.job.phase ∧
    d1'.tile 0 = d1.tile 0 := by
  obtain ⟨P, d1, hP, hj, ht, hT, hU, hJ, hrun, hrest⟩ := example_recovers
  have hsame : SameStack P.tau P.job farJob (fun _ => 0) fun _ => 0 := by rw [hj, ht]; exact farJob_same
  have htau : 0 < P.tau := by rw [ht]; norm_num
  have hrun' := run_of_files (C79_reference P hP htau d1 hrun _ _ hsame (example_noTie hP hj ht hT hU) _ (subDisk_empty d1)).2.2
  obtain ⟨T1, F1, r1⟩ := ref_of_run hP hrun
  have hT1 : T1 = T := by
    have := r1.tiles
    rw [hT] at this
    simpa using this.symm
  have hread : d1.readTiles = .ok T := by
    unfold Disk.readTiles
    rw [r1.tiles1, hT1]
    exact C29_json T
  have hin : SameInTile ⟨0, 0, 4, 4⟩ P.job (withJob P farJob).job := by rw [hj]; exact farJob_inTile
  have he : withJob P farJob = { P with job := { P.job with coh := farJob.coh, thr := farJob.thr, phase := farJob.phase } } := by
    simp only [withJob]; rw [hj]; rfl
  refine ⟨P, withJob P farJob, d1, d1, hP, he, hrun, hrun', rfl, hread, rfl, hin, ?_,
    (C82_workflow P _ hP he d1 d1 hrun hrun' rfl T hread 0 _ rfl hin).1⟩
  rw [hj]
  intro hc
  have h1 := congrArg (fun f => (f "20200125").map fun b => b.val 0 5) hc
  simp [withJob, farJob, job] at h1

end Spurt.Whole
