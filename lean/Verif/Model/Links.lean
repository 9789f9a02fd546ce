import Verif.Model.Basic
import Verif.Model.Cost
import Mathlib.Analysis.Complex.Trigonometric
import Mathlib.Analysis.Complex.Norm
import Mathlib.Analysis.SpecialFunctions.Pow.Real
import Mathlib.Algebra.BigOperators.Group.Finset.Basic

/-!
# links: temporal coherence and the grid search

Floating point is replaced by ℝ and ℂ. `scipy.optimize.brute` is a parameter.
-/

namespace Spurt

noncomputable section
open Finset Complex

/-- A 1-D array of reals; only `at i` with `i < len` matters. -/
structure Arr1 where
  len : Nat
  «at» : Nat → ℝ

/-- A 2-D array of reals. -/
structure Arr2 where
  rows : Nat
  cols : Nat
  «at» : Nat → Nat → ℝ

/-- The column `a[:, j]`. -/
def Arr2.col (a : Arr2) (j : Nat) : Arr1 := ⟨a.rows, fun i => a.at i j⟩

/-- Weights that are a scalar or a 1-D array (links/_grid_search.py:58, links/_common.py:11). -/
inductive Weights1
  | scalar (w : ℝ)
  | vec (w : Arr1)

/-- Weights as accepted by `estimate_model_many` (links/_grid_search.py:92, links/_interface.py:80-82). -/
inductive Weights
  | one (w : Weights1)
  | mat (w : Arr2)

/-- numpy broadcasting of the sizes of one axis. -/
def axisSize (a b : Nat) : Except PyErr Nat :=
  if a = b then .ok a else if a = 1 then .ok b else if b = 1 then .ok a else .error .valueError

/-- The index used in an axis of size `len` that is broadcast. -/
def axisIdx (len i : Nat) : Nat := if len = 1 then 0 else i

/-- `amat.dot(x)` (links/_common.py:25,41). `x` has as many entries as `amat` has columns: that is
checked by `Parameters.__post_init__` (links/_grid_search.py:24-30). -/
def Arr2.dot (a : Arr2) (x : Fin a.cols → ℝ) (i : Nat) : ℝ := ∑ j : Fin a.cols, a.at i j * x j

/-- `amat.dot(x) - b` (links/_common.py:25,41). -/
def residual (a : Arr2) (x : Fin a.cols → ℝ) (b : Arr1) : Except PyErr Arr1 := do
  let n ← axisSize a.rows b.len
  pure ⟨n, fun i => a.dot x (axisIdx a.rows i) - b.at (axisIdx b.len i)⟩

/-- The weights broadcast against a 1-D array of size `n`: the size of the result and its weights. -/
def Weights1.spread (w : Weights1) (n : Nat) : Except PyErr Arr1 :=
  match w with
  | .scalar w => .ok ⟨n, fun _ => w⟩
  | .vec w => do
    let m ← axisSize w.len n
    pure ⟨m, fun i => w.at (axisIdx w.len i)⟩

/-- links/_common.py:7-26 `neg_temporal_coherence`. With 2-D weights the product in line 26 is 2-D
and `np.sum` adds all its entries. -/
def negTemporalCoherence (a : Arr2) (b : Arr1) (wts : Weights) (x : Fin a.cols → ℝ) : Except PyErr ℝ := do
  let res ← residual a x b
  match wts with
  | .one w =>
    let w ← w.spread res.len
    pure (-‖∑ i ∈ range w.len, (w.at i : ℂ) * exp (I * (res.at (axisIdx res.len i) : ℂ))‖)
  | .mat w =>
    let n ← axisSize w.cols res.len
    pure (-‖∑ k ∈ range w.rows, ∑ i ∈ range n,
      (w.at k (axisIdx w.cols i) : ℂ) * exp (I * (res.at (axisIdx res.len i) : ℂ))‖)

/-- links/_common.py:29-52 `neg_temporal_coherence_with_jacobian`, for scalar and 1-D weights.
`amat.T.dot` (lines 49-50) needs as many entries as `amat` has rows. Division by `r = 0` (line 48) is
`0` in the model; numpy gives infinities. -/
def negTemporalCoherenceWithJacobian (a : Arr2) (b : Arr1) (wts : Weights1) (x : Fin a.cols → ℝ) :
    Except PyErr (ℝ × (Fin a.cols → ℝ)) := do
  let phaseDiff ← residual a x b
  let w ← wts.spread phaseDiff.len
  let cpdw := fun i => Real.cos (phaseDiff.at (axisIdx phaseDiff.len i)) * w.at i
  let spdw := fun i => Real.sin (phaseDiff.at (axisIdx phaseDiff.len i)) * w.at i
  let t1 := ∑ i ∈ range w.len, cpdw i
  let t2 := ∑ i ∈ range w.len, spdw i
  let r := -Real.sqrt (t1 ^ 2 + t2 ^ 2)
  let t3 := 1 / (2 * r)
  if w.len ≠ a.rows then .error .valueError
  else
    let t4 := fun j : Fin a.cols => t1 * ∑ i ∈ range w.len, a.at i j * (2 * -spdw i)
    let t5 := fun j : Fin a.cols => t2 * ∑ i ∈ range w.len, a.at i j * (2 * cpdw i)
    pure (r, fun j => t3 * (t4 j + t5 j))

/-- A Python slice with real bounds and step. -/
structure PySlice where
  start : ℝ
  stop : ℝ
  step : ℝ

/-- links/_grid_search.py:14-30 `Parameters`. -/
structure LinkModel where
  matrix : Arr2
  ranges : List PySlice

/-- links/_grid_search.py:24-30 `Parameters.__post_init__`. -/
def LinkModel.make (matrix : Arr2) (ranges : List PySlice) : Except PyErr LinkModel :=
  if matrix.cols ≠ ranges.length then .error .valueError else .ok ⟨matrix, ranges⟩

/-- links/_grid_search.py:45-47 `nobs`. -/
def LinkModel.nobs (M : LinkModel) : Nat := M.matrix.rows

/-- links/_grid_search.py:49-51 `ndim`. -/
def LinkModel.ndim (M : LinkModel) : Nat := M.matrix.cols

/-- links/_grid_search.py:52-53 `fwd_model`. -/
def LinkModel.fwdModel (M : LinkModel) (x : Fin M.matrix.cols → ℝ) : Arr1 := ⟨M.nobs, M.matrix.dot x⟩

/-- `scipy.optimize.brute(func, ranges, full_output=True, finish=fmin)[:2]` for a function of `n`
variables: the minimiser found and the value there. An exception of the function propagates. -/
abbrev Brute := (n : Nat) → ((Fin n → ℝ) → Except PyErr ℝ) → List PySlice → Except PyErr ((Fin n → ℝ) × ℝ)

/-- links/_grid_search.py:164-178 `solve`. -/
def linkSolve (brute : Brute) (matrix : Arr2) (ranges : List PySlice) (wdata : Arr1) (wts : Weights) :
    Except PyErr ((Fin matrix.cols → ℝ) × ℝ) := do
  let res ← brute matrix.cols (negTemporalCoherence matrix wdata wts) ranges
  pure (res.1, -res.2)

/-- `1.0 / self.nobs` (links/_grid_search.py:81,110). -/
def LinkModel.defaultWeight (M : LinkModel) : Except PyErr ℝ :=
  if M.nobs = 0 then .error .zeroDivisionError else .ok (1 / (M.nobs : ℝ))

/-- links/_grid_search.py:55-87 `estimate_model`. The 1-D check of the data (lines 76-78) is in the
type; a 2-D array of weights never has the shape of the data (lines 83-85). -/
def LinkModel.estimateModel (brute : Brute) (M : LinkModel) (wrapdata : Arr1) (weights : Option Weights) :
    Except PyErr ((Fin M.matrix.cols → ℝ) × ℝ) := do
  match weights with
  | none => do
    let w ← M.defaultWeight
    linkSolve brute M.matrix M.ranges wrapdata (.one (.scalar w))
  | some (.one (.scalar w)) => linkSolve brute M.matrix M.ranges wrapdata (.one (.scalar w))
  | some (.one (.vec w)) =>
    if w.len ≠ wrapdata.len then .error .valueError
    else linkSolve brute M.matrix M.ranges wrapdata (.one (.vec w))
  | some (.mat _) => .error .valueError

/-- links/_grid_search.py:107-124: the weights handed to every run. Lines 117-118 come after a
`raise`, so `const_weights` stays true. -/
def LinkModel.manyWeights (M : LinkModel) (wrapdata : Arr2) (weights : Option Weights) : Except PyErr Weights :=
  match weights with
  | none => do
    let w ← M.defaultWeight
    pure (.one (.scalar w))
  | some (.one (.scalar w)) => .ok (.one (.scalar w))
  | some (.one (.vec w)) => if w.len ≠ M.nobs then .error .valueError else .ok (.one (.vec w))
  | some (.mat w) =>
    if ¬ (w.rows = wrapdata.rows ∧ w.cols = wrapdata.cols) then .error .valueError
    else if w.rows ≠ M.nobs then .error .valueError
    else .ok (.mat w)

/-- The arrays `params` (by run) and `tcoh` (links/_grid_search.py:123-126). -/
structure ManyResult (n : Nat) where
  params : Nat → Fin n → ℝ
  tcoh : Nat → ℝ

/-- `params[:, ii] = res[0]; tcoh[ii] = res[1]` (links/_grid_search.py:136-137,158-159). -/
def ManyResult.put {n : Nat} (s : ManyResult n) (ii : Nat) (r : (Fin n → ℝ) × ℝ) : ManyResult n :=
  ⟨Function.update s.params ii r.1, Function.update s.tcoh ii r.2⟩

/-- links/_grid_search.py:130-137: one run of the sequential loop. -/
def LinkModel.seqStep (brute : Brute) (M : LinkModel) (wrapdata : Arr2) (w : Weights)
    (s : ManyResult M.matrix.cols) (ii : Nat) : Except PyErr (ManyResult M.matrix.cols) := do
  let r ← M.estimateModel brute (wrapdata.col ii) (some w)
  pure (s.put ii r)

/-- links/_grid_search.py:141-159,181-186: one run in a worker (`wrap_solve`), gathered. -/
def LinkModel.parStep (brute : Brute) (M : LinkModel) (wrapdata : Arr2) (w : Weights)
    (s : ManyResult M.matrix.cols) (ii : Nat) : Except PyErr (ManyResult M.matrix.cols) := do
  let r ← linkSolve brute M.matrix M.ranges (wrapdata.col ii) w
  pure (s.put ii r)

/-- links/_grid_search.py:89-161 `estimate_model_many`. `order` is the order in which
`imap_unordered` yields the runs, `cpuCount` the value of `get_cpu_count()`. -/
def LinkModel.estimateModelMany (brute : Brute) (M : LinkModel) (cpuCount : ℤ) (order : List Nat → List Nat)
    (wrapdata : Arr2) (weights : Option Weights) (workerCount : Option ℤ) :
    Except PyErr (ManyResult M.matrix.cols) := do
  if wrapdata.rows ≠ M.nobs then throw .valueError
  let w ← M.manyWeights wrapdata weights
  let nruns := wrapdata.cols
  let start : ManyResult M.matrix.cols := ⟨fun _ _ => 0, fun _ => 0⟩
  if poolWorkers cpuCount workerCount = 1 then
    (List.range nruns).foldlM (M.seqStep brute wrapdata w) start
  else
    (order (List.range nruns)).foldlM (M.parStep brute wrapdata w) start

end

end Spurt
