import Verif.Model.FloodFill

/-!
# Spatial unwrapping with rounded arithmetic (src/spurt/mcf/utils.py, _ortools.py)

The functions of Model/Basic.lean, Mcf.lean and FloodFill.lean with the rounding `fl` after every
operation. `fl = id` gives those functions back (`C67_exact`). `tau` is the floating-point number
`2 * np.pi`, and `tol` the constant `1e-3`. Multiplying a whole number by 2, negating, and rounding
to a whole number are exact.
-/

namespace Spurt

section
variable {K : Type} [Field K] [LinearOrder K] [FloorRing K]

/-- The number of cycles removed by `phase_diff`, mcf/utils.py:27-28: `np.round(d / (2 * np.pi))`. -/
def cyclesFl (fl : K → K) (tau z0 z1 : K) : ℤ := rint (fl (fl (z1 - z0) / tau))

/-- mcf/utils.py:6-28 `phase_diff` for real arguments and `model = 0`. -/
def phaseDiffFl (fl : K → K) (tau z0 z1 : K) : K :=
  fl (fl (z1 - z0) - fl ((cyclesFl fl tau z0 z1 : K) * tau))

/-- mcf/utils.py:144-165: one neighbour of the point being expanded, see `ffStep`. -/
def ffStepFl (fl : K → K) (tol : K) (i : Nat) (s : FfState K) (jg : Nat × K) : FfState K :=
  let u := fl (s.unw i + jg.2)
  if s.done jg.1 = false then
    { done := Function.update s.done jg.1 true
      unw := Function.update s.unw jg.1 u
      todo := s.todo ++ [jg.1]
      errs := s.errs }
  else if tol < |fl (u - s.unw jg.1)| then { s with errs := s.errs + 1 }
  else s

/-- mcf/utils.py:138-165: the `while to_do` loop, with fuel, see `ffLoop`. -/
def ffLoopFl (fl : K → K) (tol : K) (nbrs : Nat → List (Nat × K)) : Nat → FfState K → Except PyErr (FfState K)
  | fuel, s =>
    match s.todo with
    | [] => .ok s
    | i :: rest =>
      match fuel with
      | 0 => .error .nonTermination
      | fuel + 1 => ffLoopFl fl tol nbrs fuel ((nbrs i).foldl (ffStepFl fl tol i) { s with todo := rest })

/-- The gradient on a link, mcf/utils.py:103-110. -/
def gradientFl (fl : K → K) (tau : K) (indata : List K) (mode : String) (l : Nat × Nat) (i : Nat) (f : ℤ) : K :=
  if mode = "points" then fl (phaseDiffFl fl tau (indata.getD l.1 0) (indata.getD l.2 0) + fl (tau * (f : K)))
  else fl (indata.getD i 0 + fl (tau * (f : K)))

/-- mcf/utils.py:41-186 `flood_fill`, see `floodFill`. -/
def floodFillFl (fl : K → K) (tau tol : K) (indata : List K) (links : List (Nat × Nat)) (flows : List ℤ)
    (mode : String) : Except PyErr (List K) :=
  if links.length ≠ flows.length then .error .valueError
  else if mode ≠ "points" ∧ mode ≠ "gradients" then .error .valueError
  else if links = [] then .error .valueError
  else
    let npts := maxLink links + 1
    if mode = "gradients" ∧ indata.length ≠ links.length then .error .valueError
    else if mode = "points" ∧ indata.length ≠ npts then .error .valueError
    else
      let grads : List K := List.zipWith (fun (li : (Nat × Nat) × Nat) (f : ℤ) =>
        gradientFl fl tau indata mode li.1 li.2 f) links.zipIdx flows
      match ffLoopFl fl tol (nbrsOf links grads) npts ffInit with
      | .error e => .error e
      | .ok s =>
        if s.errs > 0 then .error .valueError
        else if (List.range npts).all s.done then
          if mode = "points" then
            .ok ((List.range npts).map fun p => fl (s.unw p + indata.getD 0 0))
          else .ok ((List.range npts).map s.unw)
        else .error .valueError

/-- The accumulated wrapped differences around a cycle, mcf/_ortools.py:140-145. -/
def closureFl (fl : K → K) (tau : K) (w : List K) (ndim : Nat) (cyc : List Nat) : K :=
  (List.range ndim).foldl (fun acc col =>
    fl (acc + phaseDiffFl fl tau (w.getD (cyc.getD col 0) 0) (w.getD (cyc.getD ((col + 1) % ndim) 0) 0))) 0

/-- mcf/_ortools.py:126-148 `compute_residues`, see `computeResidues`. -/
def computeResiduesFl (fl : K → K) (tau : K) (m : Mcf) (wrapdata : List K) : Except PyErr (List ℤ) :=
  if wrapdata.length ≠ m.graph.npoints then .error .valueError
  else match m.graph.cycles with
    | [] => .error .indexError
    | cyc0 :: _ =>
      let ndim := cyc0.length
      if m.graph.cycles.all (fun c => c.all (fun p => p < wrapdata.length)) then
        let res := m.graph.cycles.map fun cyc => rint (fl (closureFl fl tau wrapdata ndim cyc / tau))
        .ok ((- res.sum) :: res)
      else .error .indexError

/-- mcf/_ortools.py:177-196 `unwrap_one`, see `unwrapOne`. -/
def unwrapOneFl (fl : K → K) (tau tol : K) (solver : FlowSolver) (m : Mcf) (wrapdata : List K) (cost : List ℤ)
    (revcost : Option (List ℤ) := none) : Except PyErr (List K × List ℤ) := do
  let residues ← computeResiduesFl fl tau m wrapdata
  let flows ← residuesToFlows solver m residues cost (some (revcost.getD cost))
  let unw ← floodFillFl fl tau tol wrapdata m.graph.links flows "points"
  pure (unw, flows)

end

end Spurt
