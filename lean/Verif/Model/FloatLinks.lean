import Verif.Model.Links
import Verif.Model.Tiling

/-!
# Link models and worker counts in double precision

`links/_common.py`, `links/_grid_search.py` (see Model/Links.lean) and `utils/_cpu.py` (see Model/Cost.lean) with the
roundings of `float64`. Neither overflow nor underflow is modelled.
-/

namespace Spurt
noncomputable section
open Finset

/-- utils/_cpu.py:6-33 `get_cpu_count`, with `cfs_quota_us / cfs_period_us` (line 30) rounded by `fl`; see
`getCpuCount`. -/
def getCpuCountFl (fl : ℚ → ℚ) (quota period : Option ℤ) (cpus : Nat) : ℤ :=
  match quota, period with
  | some q, some p => if q > 0 ∧ p > 0 then ⌈fl ((q : ℚ) / (p : ℚ))⌉ else cpus
  | _, _ => cpus

/-- The arithmetic used by `neg_temporal_coherence`: rounding of the basic operations, `cos` and `sin` (the parts of
`np.exp(1j * x)`), `hypot` (`np.abs` of a complex number), `np.sum`, and the inner product of `np.dot`. The last two add up
in an order of their own. -/
structure LinkArith where
  fl : ℝ → ℝ
  cos : ℝ → ℝ
  sin : ℝ → ℝ
  hypot : ℝ → ℝ → ℝ
  sum : List ℝ → ℝ
  dot : List ℝ → List ℝ → ℝ

/-- `amat.dot(x)` (links/_common.py:25), see `Arr2.dot`. -/
def Arr2.dotFl (A : LinkArith) (a : Arr2) (x : Fin a.cols → ℝ) (i : Nat) : ℝ :=
  A.dot ((List.finRange a.cols).map fun j : Fin a.cols => a.at i j.1) ((List.finRange a.cols).map x)

/-- `amat.dot(x) - b` (links/_common.py:25), see `residual`. -/
def residualFl (A : LinkArith) (a : Arr2) (x : Fin a.cols → ℝ) (b : Arr1) : Except PyErr Arr1 := do
  let n ← axisSize a.rows b.len
  pure ⟨n, fun i => A.fl (a.dotFl A x (axisIdx a.rows i) - b.at (axisIdx b.len i))⟩

/-- links/_common.py:7-26 `neg_temporal_coherence` in `float64`, see `negTemporalCoherence`. A real weight times a complex
number is the product with each part; the sum of complex numbers adds up the real and the imaginary parts. -/
def negTemporalCoherenceFl (A : LinkArith) (a : Arr2) (b : Arr1) (wts : Weights) (x : Fin a.cols → ℝ) :
    Except PyErr ℝ := do
  let res ← residualFl A a x b
  match wts with
  | .one w =>
    let w ← w.spread res.len
    let part := fun (f : ℝ → ℝ) =>
      A.sum ((List.range w.len).map fun i => A.fl (w.at i * f (res.at (axisIdx res.len i))))
    pure (-A.hypot (part A.cos) (part A.sin))
  | .mat w =>
    let n ← axisSize w.cols res.len
    let part := fun (f : ℝ → ℝ) =>
      A.sum ((List.range w.rows).flatMap fun k => (List.range n).map fun i =>
        A.fl (w.at k (axisIdx w.cols i) * f (res.at (axisIdx res.len i))))
    pure (-A.hypot (part A.cos) (part A.sin))

/-- links/_grid_search.py:164-178 `solve` in `float64`, see `linkSolve`; the negation is exact. -/
def linkSolveFl (A : LinkArith) (brute : Brute) (matrix : Arr2) (ranges : List PySlice) (wdata : Arr1) (wts : Weights) :
    Except PyErr ((Fin matrix.cols → ℝ) × ℝ) := do
  let res ← brute matrix.cols (negTemporalCoherenceFl A matrix wdata wts) ranges
  pure (res.1, -res.2)

/-- `1.0 / self.nobs` (links/_grid_search.py:81,110) in `float64`. -/
def LinkModel.defaultWeightFl (A : LinkArith) (M : LinkModel) : Except PyErr ℝ :=
  if M.nobs = 0 then .error .zeroDivisionError else .ok (A.fl (1 / (M.nobs : ℝ)))

/-- links/_grid_search.py:55-87 `estimate_model` in `float64`, see `LinkModel.estimateModel`. -/
def LinkModel.estimateModelFl (A : LinkArith) (brute : Brute) (M : LinkModel) (wrapdata : Arr1)
    (weights : Option Weights) : Except PyErr ((Fin M.matrix.cols → ℝ) × ℝ) := do
  match weights with
  | none => do
    let w ← M.defaultWeightFl A
    linkSolveFl A brute M.matrix M.ranges wrapdata (.one (.scalar w))
  | some (.one (.scalar w)) => linkSolveFl A brute M.matrix M.ranges wrapdata (.one (.scalar w))
  | some (.one (.vec w)) =>
    if w.len ≠ wrapdata.len then .error .valueError
    else linkSolveFl A brute M.matrix M.ranges wrapdata (.one (.vec w))
  | some (.mat _) => .error .valueError

/-- links/_grid_search.py:107-124: the weights handed to every run, in `float64`; see `LinkModel.manyWeights`. -/
def LinkModel.manyWeightsFl (A : LinkArith) (M : LinkModel) (wrapdata : Arr2) (weights : Option Weights) :
    Except PyErr Weights :=
  match weights with
  | none => do
    let w ← M.defaultWeightFl A
    pure (.one (.scalar w))
  | some w => M.manyWeights wrapdata (some w)

/-- links/_grid_search.py:89-161 `estimate_model_many` in `float64`, see `LinkModel.estimateModelMany`. -/
def LinkModel.estimateModelManyFl (A : LinkArith) (brute : Brute) (M : LinkModel) (cpuCount : ℤ)
    (order : List Nat → List Nat) (wrapdata : Arr2) (weights : Option Weights) (workerCount : Option ℤ) :
    Except PyErr (ManyResult M.matrix.cols) := do
  if wrapdata.rows ≠ M.nobs then throw .valueError
  let w ← M.manyWeightsFl A wrapdata weights
  let nruns := wrapdata.cols
  let start : ManyResult M.matrix.cols := ⟨fun _ _ => 0, fun _ => 0⟩
  if poolWorkers cpuCount workerCount = 1 then
    (List.range nruns).foldlM (fun s ii => do
      let r ← M.estimateModelFl A brute (wrapdata.col ii) (some w)
      pure (ManyResult.put s ii r)) start
  else
    (order (List.range nruns)).foldlM (fun s ii => do
      let r ← linkSolveFl A brute M.matrix M.ranges (wrapdata.col ii) w
      pure (ManyResult.put s ii r)) start

end
end Spurt
