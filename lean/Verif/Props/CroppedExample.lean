import Verif.Props.Cropped
import Verif.Props.LocalExample

/-! # Calls that meet the hypotheses of C93 -/

namespace Spurt.Whole
open Spec

/-- Non-vacuity of `C93_tile`: twelve coherent pixels in the lower right of the image, cut out into an image of their own. -/
example : TileInImage (job.coh.rows, job.coh.cols) (⟨2, 3, 6, 7⟩ : BBox) ∧
    SameContent job (cropTo job ⟨2, 3, 6, 7⟩) ⟨2, 3, 6, 7⟩ ⟨0, 0, 4, 4⟩ ∧ (tilePixels job ⟨2, 3, 6, 7⟩).length = 12 ∧
    (cropTo job ⟨2, 3, 6, 7⟩).coh.rows = 4 ∧
    (∀ j, j = cropTo job ⟨2, 3, 6, 7⟩ → j = { job with coh := j.coh, thr := j.thr, phase := j.phase }) := by
  have hin : TileInImage (job.coh.rows, job.coh.cols) (⟨2, 3, 6, 7⟩ : BBox) := by
    refine ⟨?_, ?_, ?_, ?_, ?_, ?_⟩ <;> simp [job]
  exact ⟨hin, cropTo_content hin job_good.images, by decide +kernel, rfl, fun j h => by rw [h]; rfl⟩

/-- Non-vacuity of `C93_crop`: the first of four tiles. The run on the crop completes and stores a phase at its last pixel. -/
example : ∃ (P : Flow ℚ Nat) (d1 d1' : Disk ℚ) (f : TileFile ℚ), GoodFlow P ∧
    RunByWrite P.stages Disk.empty .completed d1 ∧ d1.tile 0 = some (TileH5.full f) ∧
    RunByWrite ({ P with job := cropTo job ⟨0, 0, 4, 4⟩, useTiles := false } : Flow ℚ Nat).stages Disk.empty .completed d1' ∧
    ∃ x p, d1'.unw 0 = some (some x) ∧ x.rows = 4 ∧ x.val 3 3 = some (filePhase f 0 p) := by
  obtain ⟨P, d1, hP, hj, ht, hT, _, _, hrun, _⟩ := example_recovers
  obtain ⟨T1, F1, r1⟩ := ref_of_run hP hrun
  have hT1 : T1 = T := by
    have := r1.tiles
    rw [hT] at this
    simpa using this.symm
  have hread : d1.readTiles = .ok T := by
    unfold Disk.readTiles
    rw [r1.tiles1, hT1]
    exact C29_json T
  have hin : TileInImage (P.job.coh.rows, P.job.coh.cols) (⟨0, 0, 4, 4⟩ : BBox) := by
    rw [hj]
    refine ⟨?_, ?_, ?_, ?_, ?_, ?_⟩ <;> simp [job]
  have hsame : SameContent P.job (cropTo job ⟨0, 0, 4, 4⟩) ⟨0, 0, 4, 4⟩ ⟨0, 0, 4, 4⟩ := by
    have := cropTo_content hin hP.job.images
    rw [hj] at this ⊢
    exact this
  obtain ⟨⟨d1', h1'⟩, f, hf, hall⟩ := C93_crop P hP (by rw [ht]; norm_num) d1 hrun T hread 0 ⟨0, 0, 4, 4⟩ rfl (cropTo job ⟨0, 0, 4, 4⟩)
    (by rw [hj]; rfl) rfl rfl (by decide) hsame
  obtain ⟨x, hx, hr, hc, hv⟩ := hall d1' h1' 0 (by rw [hj]; simp [job])
  obtain ⟨p, _, hp⟩ := (hv 3 3 (by rw [hr]; decide) (by rw [hc]; decide)).1 (by
    rw [hj]
    exact ⟨1, by simp [job], by norm_num [job]⟩)
  exact ⟨P, d1, d1', f, hP, hrun, hf, h1', x, p, hx, hr, hp⟩

end Spurt.Whole
