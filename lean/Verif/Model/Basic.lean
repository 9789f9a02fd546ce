import Mathlib.Algebra.Order.Floor.Ring
import Mathlib.Algebra.Order.Field.Basic
import Mathlib.Algebra.Ring.Parity
import Mathlib.Data.Rat.Floor
import Mathlib.Tactic.Ring
import Mathlib.Tactic.Linarith

/-!
# Common vocabulary of the model

Python exceptions as values, rounding, and small numpy helpers.
-/

namespace Spurt

/-- The Python exception classes raised by the modelled code
(`ValueError`, `IndexError`, `KeyError`, `RuntimeError`, `AssertionError`,
`NotImplementedError`, `TypeError`, `ZeroDivisionError`).  Messages are dropped.
`nonTermination` is not a Python exception: it marks an exhausted loop fuel in the
model and is proved to be unreachable. -/
inductive PyErr
  | valueError | indexError | keyError | runtimeError | assertionError
  | notImplementedError | typeError | zeroDivisionError | fileNotFound | attributeError
  | nonTermination
  deriving DecidableEq, Repr

section Rounding
variable {K : Type*} [Field K] [LinearOrder K] [FloorRing K]

/-- `np.round` / `np.rint` (mcf/utils.py:28, mcf/_ortools.py:146,171,
utils/merge.py:84, workflows/emcf/_output.py:247): round to the nearest integer,
exact ties to the even one. Exact arithmetic replaces floating point. -/
def rint (x : K) : ℤ :=
  let f := ⌊x⌋
  let d := x - (f : K)
  if d < 1 / 2 then f
  else if 1 / 2 < d then f + 1
  else if f % 2 = 0 then f
  else f + 1

/-- mcf/utils.py:6-28 `phase_diff`. `tau` stands for `2*np.pi`; the complex branch
(lines 22-25) takes `np.angle` of both arguments first, so complex data enter the
model as their angles. -/
def phaseDiff (tau : K) (z0 z1 : K) (model : K := 0) : K :=
  let d := z1 - z0 - model
  model + d - (rint (d / tau) : K) * tau

end Rounding

/-- numpy indexing `a[i]` of a 1-D array after the bounds have been checked. -/
def at0 {α : Type*} [Zero α] (l : List α) (i : Nat) : α := l.getD i 0

end Spurt
