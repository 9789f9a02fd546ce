import Verif.Model.Dirichlet

/-!
# Least squares (src/spurt/utils/merge.py, `l2_min` and `l2_min_cg`) for matrices of any shape
-/

namespace Spurt

/-- A matrix; `val` is meaningful below `rows` and `cols` only. -/
structure RectMat (K : Type) where
  rows : Nat
  cols : Nat
  val : Nat → Nat → K

section
variable {K : Type} [Field K] [DecidableEq K]

/-- `amat.dot(x)`, utils/merge.py:130, 211. -/
def RectMat.dot (a : RectMat K) (x : List K) : List K :=
  (List.range a.rows).map fun i => ((List.range a.cols).map fun j => a.val i j * x.getD j 0).sum

/-- `np.transpose(amat)`, utils/merge.py:192-193. -/
def RectMat.transpose (a : RectMat K) : RectMat K := ⟨a.cols, a.rows, fun i j => a.val j i⟩

/-- `np.dot(np.transpose(amat), amat)`, utils/merge.py:192. -/
def RectMat.gram (a : RectMat K) : SqMat K :=
  ⟨a.cols, fun i j => ((List.range a.rows).map fun k => a.val k i * a.val k j).sum⟩

/-- `amat.shape[0] == amat.shape[1] and np.max(np.abs(amat - amat.T)) == 0`, utils/merge.py:186. -/
def RectMat.symmetric (a : RectMat K) : Bool :=
  decide (a.rows = a.cols) &&
    (List.range a.rows).all fun i => (List.range a.rows).all fun j => decide (a.val i j = a.val j i)

/-- utils/merge.py:93-130 `l2_min` for a dense matrix and a right-hand side with one dimension: the
minimiser and the residual. The parameter `lstsq` is the first output of `numpy.linalg.lstsq`. -/
def l2MinVec (lstsq : RectMat K → List K → List K) (a : RectMat K) (b : List K) :
    Except PyErr (List K × List K) :=
  if a.rows * a.cols = 0 then .ok (List.replicate a.cols 0, List.replicate a.rows 0)
  else if a.rows ≠ b.length then .error .assertionError
  else
    let x := lstsq a b
    .ok (x, List.zipWith (· - ·) b (a.dot x))

/-- utils/merge.py:133-243 `l2_min_cg` for a dense matrix: the solution and the residual (the third
output, the preconditioner, is left out). With logging and without `maxiter`, lines 238-241 take the
norm of `rn`, which is `None` for a symmetric matrix; numpy raises `ValueError` for it. A negative
`info` of `cg` (lines 207-209), which scipy does not return for valid arguments, is not modelled. The
initial guess `x0` and `maxiter` are part of the answer of `cg`. -/
def l2MinCgRect (lin : LinSolver K) (a : RectMat K) (b : List K) (enableLogging : Bool)
    (maxiter : Option Nat) : Except PyErr (List K × List K) :=
  if a.rows ≠ b.length then .error .assertionError
  else if a.rows * a.cols = 0 then .ok (List.replicate a.cols 0, List.replicate a.rows 0)
  else if b.all fun v => decide (v = 0) then .ok (List.replicate a.cols 0, List.replicate a.rows 0)
  else
    let mat := if a.symmetric then ⟨a.rows, a.val⟩ else a.gram
    let rhs := if a.symmetric then b else a.transpose.dot b
    if ¬ lin.ilu mat then .error .runtimeError
    else
      let x := lin.cg mat rhs
      if enableLogging && maxiter.isNone && a.symmetric then .error .valueError
      else .ok (x, List.zipWith (· - ·) b (a.dot x))

end

end Spurt
