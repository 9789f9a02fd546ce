import Verif.Model.Tile

/-!
# Graph Laplacian and Dirichlet problems (src/spurt/graph/utils.py, utils/merge.py)
-/

namespace Spurt

/-- A square matrix; `val` is meaningful below `n` only. -/
structure SqMat (K : Type) where
  n : Nat
  val : Nat → Nat → K

/-- Element `(l, i)` of the incidence matrix for link `l`: -1 at the first point, 1 at the second
one; entries at the same place add up. graph/utils.py:40-48. -/
def incidence (l : Nat × Nat) (i : Nat) : ℤ := (if i = l.2 then 1 else 0) - (if i = l.1 then 1 else 0)

/-- graph/utils.py:36-50 `graph_laplacian` for the links of a graph. scipy takes the largest index
plus one as the size, and raises `ValueError` without links. -/
def graphLaplacian (links : List (Nat × Nat)) : Except PyErr (SqMat ℤ) :=
  if links = [] then .error .valueError
  else .ok ⟨(links.map fun l => max l.1 l.2).foldl max 0 + 1, fun i j =>
    (links.map fun l => incidence l i * incidence l j).sum⟩

section
variable {K : Type} [Field K] [DecidableEq K]

/-- The external libraries used on a system of equations: whether `spilu` can factor the matrix
(it raises `RuntimeError` otherwise), and the answer of `cg`. -/
structure LinSolver (K : Type) where
  ilu : SqMat K → Bool
  cg : SqMat K → List K → List K

/-- `[i for i in range(n) if not mask[i]]` as used by the index `~mask`. -/
def freeIdx (n : Nat) (mask : Nat → Bool) : List Nat := (List.range n).filter fun i => !mask i

/-- `amat[:, ~mask][~mask, :]` -/
def freeMat (a : SqMat K) (mask : Nat → Bool) : SqMat K :=
  ⟨(freeIdx a.n mask).length, fun k l =>
    a.val ((freeIdx a.n mask).getD k 0) ((freeIdx a.n mask).getD l 0)⟩

/-- `-amat[:, mask].dot(xf[kk, mask])[~mask]` -/
def freeRhs (a : SqMat K) (mask : Nat → Bool) (xf : Nat → K) : List K :=
  (freeIdx a.n mask).map fun i =>
    -(((List.range a.n).filter fun j => mask j).map fun j => a.val i j * xf j).sum

/-- utils/merge.py:295-362 `dirichlet_graph` for a mask with one entry per point. The branch for a
matrix without stored entries (line 336) gives the same zeros as the branch for `b == 0` below and
is left out; the answer of `cg` has one value per free point. -/
def dirichletGraph (lin : LinSolver K) (a : SqMat K) (xf : Arr K) (mask : Nat → Bool)
    (enableLogging : Bool) : Except PyErr (Arr K) :=
  if a.n ≠ xf.cols then .error .assertionError
  else if ¬ lin.ilu (freeMat a mask) then .error .runtimeError
  else
    .ok ⟨xf.rows, xf.cols, fun kk p =>
      let b := freeRhs a mask (xf.val kk)
      let x := if (b.all fun v => decide (v = 0)) && enableLogging then b.map fun _ => 0
        else lin.cg (freeMat a mask) b
      if mask p then xf.val kk p else x.getD ((freeIdx a.n mask).idxOf p) 0⟩

/-- Matrix times vector. -/
def SqMat.dot (a : SqMat K) (x : List K) : List K :=
  (List.range a.n).map fun i => ((List.range a.n).map fun j => a.val i j * x.getD j 0).sum

/-- The transposed matrix. -/
def SqMat.transpose (a : SqMat K) : SqMat K := ⟨a.n, fun i j => a.val j i⟩

/-- utils/merge.py:133-243 `l2_min_cg` for a square matrix: the solution and the residual. With
logging and without `maxiter`, line 238-241 takes the norm of `rn`, which is `None` for a symmetric
matrix; numpy raises `ValueError` for it. A negative `info` of `cg` (lines 207-209), which scipy does
not return for valid arguments, is not modelled. -/
def l2MinCg (lin : LinSolver K) (a : SqMat K) (b : List K) (enableLogging : Bool)
    (maxiter : Option Nat) : Except PyErr (List K × List K) :=
  if a.n ≠ b.length then .error .assertionError
  else if a.n = 0 then .ok ([], [])
  else if b.all fun v => decide (v = 0) then .ok (List.replicate a.n 0, List.replicate a.n 0)
  else
    let sym := (List.range a.n).all fun i => (List.range a.n).all fun j => decide (a.val i j = a.val j i)
    let mat := if sym then a else ⟨a.n, fun i j => ((List.range a.n).map fun k => a.val k i * a.val k j).sum⟩
    let rhs := if sym then b else a.transpose.dot b
    if ¬ lin.ilu mat then .error .runtimeError
    else
      let x := lin.cg mat rhs
      if enableLogging && maxiter.isNone && sym then .error .valueError
      else .ok (x, List.zipWith (· - ·) b (a.dot x))

/-- utils/merge.py:246-292 `dirichlet` for a right-hand side `b` with one entry per point: the
solution and the residual. -/
def dirichlet (lin : LinSolver K) (a : SqMat K) (b xf : List K) (mask : Nat → Bool)
    (enableLogging : Bool) : Except PyErr (List K × List K) := do
  let rhs := (List.range a.n).map fun i =>
    b.getD i 0 - (((List.range a.n).filter fun j => mask j).map fun j => a.val i j * xf.getD j 0).sum
  let (y, _) ← l2MinCg lin (freeMat a mask) ((freeIdx a.n mask).map fun i => rhs.getD i 0)
    enableLogging (some 100)
  let x := (List.range xf.length).map fun i =>
    if mask i then xf.getD i 0 else y.getD ((freeIdx a.n mask).idxOf i) 0
  pure (x, List.zipWith (· - ·) b (a.dot x))

end

end Spurt
