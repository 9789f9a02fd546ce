import Verif.Spec.Complex

/-! # Complex input is handled through its angles -/

namespace Spurt
open Spec Complex

theorem phaseDiffC_eq (z0 z1 : ℂ) (model : ℝ) : phaseDiffC z0 z1 model = phaseDiff (2 * Real.pi) (arg z0) (arg z1) model := by
  unfold phaseDiffC phaseDiff
  simp only [mul_assoc]

theorem getD_angle (l : List ℂ) (i : Nat) : (l.map arg).getD i 0 = arg (l.getD i 0) := by
  simp only [List.getD_eq_getElem?_getD, List.getElem?_map]
  cases l[i]? <;> simp

theorem elem_angle (a : List (List ℂ)) (i j : Nat) : elem (a.map fun r => r.map arg) i j = arg (elemC a i j) := by
  unfold elem elemC
  rw [← getD_angle]
  simp only [List.getD_eq_getElem?_getD, List.getElem?_map]
  cases a[i]? <;> simp

theorem computeResiduesC_eq (m : Mcf) (w : List ℂ) : computeResiduesC m w = computeResidues (2 * Real.pi) m (w.map arg) := by
  unfold computeResiduesC computeResidues
  simp only [List.length_map, phaseDiffC_eq, getD_angle]
  rfl

theorem floodFillPointsC_eq (w : List ℂ) (links : List (Nat × Nat)) (flows : List ℤ) :
    floodFillPointsC w links flows = floodFill (2 * Real.pi) (w.map arg) links flows "points" := by
  unfold floodFillPointsC floodFill
  have hz : List.zipWith (fun (li : (Nat × Nat) × Nat) (f : ℤ) =>
      phaseDiff (2 * Real.pi) (arg (w.getD li.1.1 0)) (arg (w.getD li.1.2 0)) + 2 * Real.pi * (f : ℝ)) links.zipIdx flows =
      List.zipWith (fun (l : Nat × Nat) (f : ℤ) =>
        phaseDiff (2 * Real.pi) (arg (w.getD l.1 0)) (arg (w.getD l.2 0)) + 2 * Real.pi * (f : ℝ)) links flows := by
    conv_rhs => rw [← List.zipIdx_map_fst 0 links, List.zipWith_map_left]
  simp only [List.length_map, phaseDiffC_eq, getD_angle, if_true, hz, ne_eq, not_true_eq_false, not_false_eq_true, false_and, true_and, if_false,
    (by decide : ("points" = "gradients") ↔ False)]
  split
  · rfl
  split
  · rfl
  split
  · rfl
  generalize ffLoop (K := ℝ) _ _ _ = q
  cases q with
  | error e => rfl
  | ok s =>
    simp only

theorem unwrapOneC_eq (solver : FlowSolver) (m : Mcf) (w : List ℂ) (cost : List ℤ) (revcost : Option (List ℤ)) :
    unwrapOneC solver m w cost revcost = unwrapOne (2 * Real.pi) solver m (w.map arg) cost revcost := by
  unfold unwrapOneC unwrapOne
  simp only [computeResiduesC_eq, floodFillPointsC_eq]

theorem spaceGradC_eq (e : Emcf) (w : List (List ℂ)) (b : Bool) (i j : Nat) :
    spaceGradC e w b i j = spaceGrad (2 * Real.pi) e (w.map fun r => r.map arg) b i j := by
  unfold spaceGradC spaceGrad
  simp only [phaseDiffC_eq, elem_angle]

theorem headD_angle (w : List (List ℂ)) : ((w.map fun r => r.map arg).headD []).length = (w.headD []).length := by
  cases w <;> simp

theorem timeBatchC_eq (solver : FlowSolver) (e : Emcf) (w : List (List ℂ)) (b : Bool) (cost : List ℤ)
    (order : List Nat → List Nat) (grad : Nat → Nat → ℝ) (bb : Nat) :
    timeBatchC solver e w b cost order grad bb =
      timeBatch (2 * Real.pi) solver e (w.map fun r => r.map arg) b cost order grad bb := by
  unfold timeBatchC timeBatch
  simp only [spaceGradC_eq, headD_angle, List.length_map]

theorem unwrapInTimeC_eq (solver : FlowSolver) (e : Emcf) (w : List (List ℂ)) (b : Bool) (order : Nat → List Nat → List Nat) :
    unwrapInTimeC solver e w b order = unwrapInTime (2 * Real.pi) solver e (w.map fun r => r.map arg) b order := by
  unfold unwrapInTimeC unwrapInTime
  simp only [timeBatchC_eq]

theorem unwrapCubeC_eq (solver : FlowSolver) (e : Emcf) (ndim : Nat) (td : ℤ) (w : List (List ℂ))
    (oT : Nat → List Nat → List Nat) (oS : List Nat → List Nat) :
    unwrapCubeC solver e ndim td w oT oS = unwrapCube (2 * Real.pi) solver e ⟨ndim, td, w.map fun r => r.map arg⟩ oT oS := by
  unfold unwrapCubeC unwrapCube cubeKind cubeKindC
  simp only [unwrapInTimeC_eq, List.length_map]

theorem phaseOffsetC_eq (g : PlanarGraph) (w : List (List ℂ)) :
    phaseOffsetC g w = phaseOffset (2 * Real.pi) g (w.map fun r => r.map arg) := by
  unfold phaseOffsetC phaseOffset
  simp only [phaseDiffC_eq, elem_angle]

theorem maskSelect_map {V W : Type} (f : V → W) (a : List (List V)) (m : List (List Bool)) :
    maskSelect (a.map fun r => r.map f) m = (maskSelect a m).map f := by
  unfold maskSelect
  rw [List.map_flatten, List.zipWith_map_left, List.map_zipWith]
  congr 2
  funext ra rm
  rw [List.map_filterMap, List.zip_map_left, List.filterMap_map]
  congr 1
  funext p
  obtain ⟨x, b⟩ := p
  cases b <;> simp

theorem readTile_angle (coh : Band (Option ℝ)) (thr : ℝ) (dates : List String) (slc : String → Option (Band ℂ)) (tile : BBox) :
    (readTile coh thr dates (fun d => (slc d).map angleImage) (0 : ℝ) tile).2 =
      (readTile coh thr dates slc (1 : ℂ) tile).2.map fun r => r.map arg := by
  unfold readTile
  simp only [List.map_map]
  apply List.map_congr_left
  intro d _
  simp only [Function.comp]
  cases slc d with
  | none => simp [Complex.arg_one]
  | some b =>
    simp only [Option.map_some]
    rw [← maskSelect_map]
    congr 1
    unfold angleImage Band.window
    simp [Function.comp_def]

/-- The tile worker on complex images is the tile worker on their phase images. -/
theorem unwrapOneTileC_eq (solver : FlowSolver) (j : ComplexJob) (tiles : TileSet) (t : Nat)
    (oT : Nat → List Nat → List Nat) (oS : List Nat → List Nat) :
    unwrapOneTileC solver j tiles t oT oS = unwrapOneTile (2 * Real.pi) solver (angleJob j) tiles t oT oS := by
  unfold unwrapOneTileC unwrapOneTile angleJob
  simp only [unwrapCubeC_eq, phaseOffsetC_eq, readTile_angle, headD_angle]

end Spurt
