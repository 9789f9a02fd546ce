import Verif.Model.Mcf
import Mathlib.Analysis.SpecialFunctions.Sqrt

/-!
# Link costs (src/spurt/mcf/utils.py), over the reals
-/

namespace Spurt

noncomputable section

/-- `np.linalg.norm(p - q)` for two points of the plane (mcf/utils.py:227, 257). -/
def planeDist (p q : ℝ × ℝ) : ℝ := √((p.1 - q.1) ^ 2 + (p.2 - q.2) ^ 2)

/-- `cost[ii] = np.rint(1 + scale / d)` (mcf/utils.py:228, 258). Division by a zero
distance gives `inf`, which has no integer value; the model reports an error there. -/
def linkCost (scale d : ℝ) : Except PyErr ℤ :=
  if d = 0 then .error .zeroDivisionError else .ok (rint (1 + scale / d))

/-- `points[i]`, `IndexError` outside the array (negative indices do not occur). -/
def pointAt (points : List (ℝ × ℝ)) (i : Nat) : Except PyErr (ℝ × ℝ) :=
  match points[i]? with
  | some p => .ok p
  | none => .error .indexError

/-- mcf/utils.py:233-260 `distance_costs`. -/
def distanceCosts (points : List (ℝ × ℝ)) (edges : List (Nat × Nat)) (scale : ℝ) :
    Except PyErr (List ℤ) :=
  edges.mapM fun e => do
    let p ← pointAt points e.1
    let q ← pointAt points e.2
    linkCost scale (planeDist p q)

/-- `np.mean(points[cycle], axis=0)` (mcf/utils.py:220). -/
def centroid (points : List (ℝ × ℝ)) (cycle : List Nat) : ℝ × ℝ :=
  ((cycle.map fun i => (points.getD i (0, 0)).1).sum / cycle.length,
   (cycle.map fun i => (points.getD i (0, 0)).2).sum / cycle.length)

/-- mcf/utils.py:189-230 `centroid_costs`. Point indices of the cycles are assumed to be
in range (they are rows of the graph's own tables). -/
def centroidCosts (points : List (ℝ × ℝ)) (cycles : List (List Nat)) (dual : List DualRow)
    (scale : ℝ) : Except PyErr (List ℤ) :=
  let centroids := cycles.map (centroid points)
  dual.mapM fun r =>
    if r.c1 = 0 then .ok 0
    else do
      let p ← pointAt centroids (r.c0 - 1)
      let q ← pointAt centroids (r.c1 - 1)
      linkCost scale (planeDist p q)

/-- graph/_hop3.py:32-33: the acquisitions on a line. -/
def hop3Points (n : Nat) : List (ℝ × ℝ) :=
  (List.range n).map fun i : ℕ => ((Nat.cast i : ℝ), (0 : ℝ))

end

/-! ### Worker counts -/

/-- utils/_cpu.py:6-33 `get_cpu_count`. `quota`/`period` are the contents of the two
cgroup files, `none` when reading or parsing raises; `cpus` is `multiprocessing.cpu_count()`.
`math.ceil(quota / period)` is taken exactly. -/
def getCpuCount (quota period : Option ℤ) (cpus : Nat) : ℤ :=
  match quota, period with
  | some q, some p => if q > 0 ∧ p > 0 then ⌈(q : ℚ) / (p : ℚ)⌉ else cpus
  | _, _ => cpus

/-- mcf/_ortools.py:230-231 and links/_grid_search.py:96-97: the default worker count;
`none` is `None`. -/
def poolWorkers (cpuCount : ℤ) (workerCount : Option ℤ) : ℤ :=
  match workerCount with
  | none => max 1 (cpuCount - 1)
  | some w => if w ≤ 0 then max 1 (cpuCount - 1) else w

/-- workflows/emcf/_solver.py:257-259: the worker count of the spatial stage. -/
def spatialWorkers (cpuCount : ℤ) (sWorkerCount : ℤ) : ℤ :=
  if sWorkerCount < 1 then cpuCount - 1 else sWorkerCount

/-- `ProcessPoolExecutor(max_workers=n)` raises `ValueError` unless `n > 0`
(standard library; called in workflows/emcf/_solver.py:262-264). -/
def processPool (n : ℤ) : Except PyErr Unit := if n ≤ 0 then .error .valueError else .ok ()

end Spurt
