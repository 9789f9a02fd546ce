import Verif.Model.Cost
import Verif.Model.Tiling

/-!
# Link costs in floating point (src/spurt/mcf/utils.py)

The functions of Model/Cost.lean on floating-point numbers, which are rational: `fl` rounds the
result of an operation, `sq` is the rounded square root `np.sqrt`.
-/

namespace Spurt

/-- `np.linalg.norm(p - q)` for two points of the plane (mcf/utils.py:227, 257): numpy takes the dot
product of the difference with itself and then the square root. Each product and the sum are rounded;
a fused multiply-add, which would skip one of these roundings, is not modelled. -/
def planeDistFl (fl sq : ℚ → ℚ) (p q : ℚ × ℚ) : ℚ :=
  let dx := fl (p.1 - q.1)
  let dy := fl (p.2 - q.2)
  sq (fl (fl (dx * dx) + fl (dy * dy)))

/-- `cost[ii] = np.rint(1 + scale / d)` (mcf/utils.py:228, 258), see `linkCost`. -/
def linkCostFl (fl : ℚ → ℚ) (scale d : ℚ) : Except PyErr ℤ :=
  if d = 0 then .error .zeroDivisionError else .ok (rint (fl (1 + fl (scale / d))))

/-- `points[i]`, see `pointAt`. -/
def pointAtFl (points : List (ℚ × ℚ)) (i : Nat) : Except PyErr (ℚ × ℚ) :=
  match points[i]? with
  | some p => .ok p
  | none => .error .indexError

/-- mcf/utils.py:233-260 `distance_costs`. -/
def distanceCostsFl (fl sq : ℚ → ℚ) (points : List (ℚ × ℚ)) (edges : List (Nat × Nat)) (scale : ℚ) :
    Except PyErr (List ℤ) :=
  edges.mapM fun e => do
    let p ← pointAtFl points e.1
    let q ← pointAtFl points e.2
    linkCostFl fl scale (planeDistFl fl sq p q)

/-- `np.mean(points[cycle], axis=0)` (mcf/utils.py:220): the rows are added one by one, then divided
by their number. -/
def centroidFl (fl : ℚ → ℚ) (points : List (ℚ × ℚ)) (cycle : List Nat) : ℚ × ℚ :=
  (fl (cycle.foldl (fun acc i => fl (acc + (points.getD i (0, 0)).1)) 0 / cycle.length),
   fl (cycle.foldl (fun acc i => fl (acc + (points.getD i (0, 0)).2)) 0 / cycle.length))

/-- mcf/utils.py:189-230 `centroid_costs`, see `centroidCosts`. -/
def centroidCostsFl (fl sq : ℚ → ℚ) (points : List (ℚ × ℚ)) (cycles : List (List Nat)) (dual : List DualRow)
    (scale : ℚ) : Except PyErr (List ℤ) :=
  let centroids := cycles.map (centroidFl fl points)
  dual.mapM fun r =>
    if r.c1 = 0 then .ok 0
    else do
      let p ← pointAtFl centroids (r.c0 - 1)
      let q ← pointAtFl centroids (r.c1 - 1)
      linkCostFl fl scale (planeDistFl fl sq p q)

/-- The square root rounded to double precision (IEEE 754 binary64, half to even), for numbers that
neither overflow nor underflow. -/
noncomputable def sqrtDouble (x : ℚ) : ℚ :=
  let s : ℝ := √(x : ℝ)
  let e := Int.log 2 s - 52
  (rint (s / (2 : ℝ) ^ e) : ℚ) * (2 : ℚ) ^ e

end Spurt
