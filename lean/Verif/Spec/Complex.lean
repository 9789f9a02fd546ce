import Mathlib.Analysis.SpecialFunctions.Complex.Arg
import Verif.Model.Complex

/-!
# Specification: phases of complex numbers
-/

namespace Spurt.Spec

open Complex

/-- `φ` is a phase of the complex number `z`: `z = ‖z‖ e^{iφ}`. -/
def IsPhase (φ : ℝ) (z : ℂ) : Prop := z = (‖z‖ : ℂ) * exp (φ * I)

/-- The complex interferogram of two samples, acquisition `z0` as the reference of `z1`. -/
noncomputable def interferogram (z0 z1 : ℂ) : ℂ := z1 * starRingEnd ℂ z0

/-- Two complex numbers differ by a positive factor only. -/
def SameDirection (z z' : ℂ) : Prop := ∃ r : ℝ, 0 < r ∧ z' = r * z

/-- The phase image of a complex image. -/
noncomputable def angleImage (b : Band ℂ) : Band ℝ := ⟨b.rows, b.cols, fun r c => arg (b.val r c)⟩

/-- The job on the phases of the images. -/
noncomputable def angleJob (j : ComplexJob) : TileJob ℝ :=
  { coh := j.coh, thr := j.thr, dates := j.dates, phase := fun d => (j.slc d).map angleImage, time := j.time, settings := j.settings,
    cpuCount := j.cpuCount, simplices := j.simplices, tDist := j.tDist, tCent := j.tCent, sDist := j.sDist, sCent := j.sCent }

/-- Sample of acquisition number `s` of the stack at an image pixel; 1 for the reference date. -/
def epochSample (j : ComplexJob) (s r c : Nat) : ℂ :=
  ((j.dates[s]?).bind j.slc).elim 1 fun im => im.val r c

/-- The coherence of an image pixel exceeds the threshold. -/
def CoherentPixel (j : ComplexJob) (r c : Nat) : Prop := ∃ v, j.coh.val r c = some v ∧ j.thr < v

end Spurt.Spec
