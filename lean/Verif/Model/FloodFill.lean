import Verif.Model.Mcf

/-!
# Flood fill (src/spurt/mcf/utils.py) and `unwrap_one`, `residues_to_flows_many`
(src/spurt/mcf/_ortools.py)
-/

namespace Spurt

section
variable {K : Type} [Field K] [LinearOrder K] [FloorRing K]

/-- State of the loop mcf/utils.py:116-165: `done`, `unwrapped`, `to_do` and the length
of `multi_paths`. The integration paths (`pts_to_paths`) only feed the debug report and
are not modelled. -/
structure FfState (K : Type) where
  done : Nat → Bool
  unw : Nat → K
  todo : List Nat
  errs : Nat

/-- mcf/utils.py:99-114: `pts_to_nbrs`. Each link contributes, in order, an entry at
its first and one at its second end; the list at point `i` is the concatenation of the
entries made at `i`. -/
def nbrsOf (links : List (Nat × Nat)) (grads : List K) (i : Nat) : List (Nat × K) :=
  (links.zip grads).flatMap fun lg =>
    (if lg.1.1 = i then [(lg.1.2, lg.2)] else []) ++
    (if lg.1.2 = i then [(lg.1.1, - lg.2)] else [])

/-- mcf/utils.py:144-165: one neighbour of the point being expanded. -/
def ffStep (i : Nat) (s : FfState K) (jg : Nat × K) : FfState K :=
  let u := s.unw i + jg.2
  if s.done jg.1 = false then
    { done := Function.update s.done jg.1 true
      unw := Function.update s.unw jg.1 u
      todo := s.todo ++ [jg.1]
      errs := s.errs }
  else if 1 / 1000 < |u - s.unw jg.1| then { s with errs := s.errs + 1 }
  else s

/-- mcf/utils.py:138-165: the `while to_do` loop, with fuel. -/
def ffLoop (nbrs : Nat → List (Nat × K)) : Nat → FfState K → Except PyErr (FfState K)
  | fuel, s =>
    match s.todo with
    | [] => .ok s
    | i :: rest =>
      match fuel with
      | 0 => .error .nonTermination
      | fuel + 1 => ffLoop nbrs fuel ((nbrs i).foldl (ffStep i) { s with todo := rest })

/-- mcf/utils.py:116-136: initial state. -/
def ffInit : FfState K :=
  { done := Function.update (fun _ => false) 0 true, unw := fun _ => 0, todo := [0], errs := 0 }

/-- `np.max(links)`. -/
def maxLink (links : List (Nat × Nat)) : Nat :=
  links.foldl (fun m l => max m (max l.1 l.2)) 0

/-- mcf/utils.py:41-186 `flood_fill`. `tau` is `2*np.pi`. `np.max` of an empty link array
raises `ValueError`. -/
def floodFill (tau : K) (indata : List K) (links : List (Nat × Nat)) (flows : List ℤ)
    (mode : String) : Except PyErr (List K) :=
  if links.length ≠ flows.length then .error .valueError
  else if mode ≠ "points" ∧ mode ≠ "gradients" then .error .valueError
  else if links = [] then .error .valueError
  else
    let npts := maxLink links + 1
    if mode = "gradients" ∧ indata.length ≠ links.length then .error .valueError
    else if mode = "points" ∧ indata.length ≠ npts then .error .valueError
    else
      let grads : List K := List.zipWith (fun (li : (Nat × Nat) × Nat) (f : ℤ) =>
        if mode = "points" then
          phaseDiff tau (indata.getD li.1.1 0) (indata.getD li.1.2 0) + tau * (f : K)
        else indata.getD li.2 0 + tau * (f : K)) links.zipIdx flows
      match ffLoop (nbrsOf links grads) npts ffInit with
      | .error e => .error e
      | .ok s =>
        if s.errs > 0 then .error .valueError
        else if (List.range npts).all s.done then
          if mode = "points" then
            .ok ((List.range npts).map fun p => s.unw p + indata.getD 0 0)
          else .ok ((List.range npts).map s.unw)
        else .error .valueError

/-- mcf/_ortools.py:177-196 `unwrap_one`. -/
def unwrapOne (tau : K) (solver : FlowSolver) (m : Mcf) (wrapdata : List K) (cost : List ℤ)
    (revcost : Option (List ℤ) := none) : Except PyErr (List K × List ℤ) := do
  let residues ← computeResidues tau m wrapdata
  let flows ← residuesToFlows solver m residues cost (some (revcost.getD cost))
  let unw ← floodFill tau wrapdata m.graph.links flows "points"
  pure (unw, flows)

end

/-- Row assignment `flows[ii, :] = v`; a row of the wrong length does not broadcast
(`ValueError`) unless it has length one. -/
def setRow {α : Type} (flows : List (List α)) (nedges ii : Nat) (v : List α) :
    Except PyErr (List (List α)) :=
  if v.length = nedges then .ok (flows.set ii v)
  else match v with
    | [x] => .ok (flows.set ii (List.replicate nedges x))
    | _ => .error .valueError

/-- mcf/_ortools.py:216-285 `residues_to_flows_many`. `residues.shape` is
`(nruns, nresidues)`; every row has `nresidues` entries. The pool's
`imap_unordered` yields the results of the submitted tasks in the order `order`, which is
any permutation of the submitted row numbers chosen by the scheduler; a task that raises
re-raises when its result is fetched. `chunksize` only groups tasks. -/
def residuesToFlowsMany (solver : FlowSolver) (m : Mcf) (nresidues : Nat)
    (residues : List (List ℤ)) (cost : List ℤ) (revcost : Option (List ℤ))
    (workers : ℤ) (order : List Nat → List Nat) : Except PyErr (List (List ℤ)) :=
  let revcost' := revcost.getD cost
  if nresidues ≠ m.graph.cycles.length + 1 then .error .valueError
  else
    let nedges := m.graph.links.length
    let flows := List.replicate residues.length (List.replicate nedges (0 : ℤ))
    if workers = 1 then
      residues.zipIdx.foldlM (fun flows (res, ii) =>
        if res.any (· ≠ 0) then do
          let f ← residuesToFlows solver m res cost (some revcost')
          setRow flows nedges ii f
        else pure flows) flows
    else
      let tasks := (List.range residues.length).filter fun ii =>
        (residues.getD ii []).any (· ≠ 0)
      (order tasks).foldlM (fun flows ii => do
        let f ← solveMcf solver m.dual (residues.getD ii []) cost revcost'
        setRow flows nedges ii f) flows

end Spurt
