import Verif.Model.Basic

/-!
# Settings objects (src/spurt/workflows/emcf/_settings.py)
-/

namespace Spurt

/-- workflows/emcf/_settings.py:10-47: the fields of `SolverSettings`. -/
structure SolverSettings where
  tWorkerCount : ℤ := 0
  sWorkerCount : ℤ := 1
  linksPerBatch : ℤ := 10000
  tCostType : String := "constant"
  tCostScale : ℚ := 100
  sCostType : String := "constant"
  sCostScale : ℚ := 100
  numParallelTiles : ℤ := 1

/-- workflows/emcf/_settings.py:50 `cost_types`. -/
def costTypes : List String := ["constant", "distance", "centroid"]

/-- workflows/emcf/_settings.py:49-87 `SolverSettings.__post_init__`. -/
def SolverSettings.check (s : SolverSettings) : Except PyErr Unit :=
  if ¬ s.tCostType ∈ costTypes then .error .valueError
  else if ¬ s.sCostType ∈ costTypes then .error .valueError
  else if s.linksPerBatch ≤ 0 then .error .valueError
  else if s.tCostScale ≤ 0 then .error .valueError
  else if s.sCostScale ≤ 0 then .error .valueError
  else if s.numParallelTiles < 1 then .error .valueError
  else if s.numParallelTiles > 1 then
    if s.tWorkerCount < 1 then .error .valueError
    else if s.sWorkerCount < 1 then .error .valueError
    else .ok ()
  else .ok ()

/-- workflows/emcf/_settings.py:141-163: the fields of `TilerSettings`. -/
structure TilerSettings where
  targetPointsPerTile : ℤ := 800000
  maxTiles : ℤ := 16
  targetPointsForGeneration : ℤ := 120000
  dilationFactor : ℚ := 5 / 100

/-- workflows/emcf/_settings.py:165-182 `TilerSettings.__post_init__`. -/
def TilerSettings.check (s : TilerSettings) : Except PyErr Unit :=
  if s.maxTiles < 1 then .error .valueError
  else if s.dilationFactor < 0 then .error .valueError
  else if s.targetPointsForGeneration ≤ 0 then .error .valueError
  else if s.targetPointsPerTile ≤ 0 then .error .valueError
  else .ok ()

/-- workflows/emcf/_settings.py:186-207: the fields of `MergerSettings`. -/
structure MergerSettings where
  minOverlapPoints : ℤ := 25
  method : String := "dirichlet"
  bulkMethod : String := "L2"
  numParallelIfgs : ℤ := 1

/-- workflows/emcf/_settings.py:209-219 `MergerSettings.__post_init__`. -/
def MergerSettings.check (s : MergerSettings) : Except PyErr Unit :=
  if ¬ s.bulkMethod ∈ ["integer", "L2"] then .error .valueError
  else if s.method ≠ "dirichlet" then .error .valueError
  else .ok ()

end Spurt
