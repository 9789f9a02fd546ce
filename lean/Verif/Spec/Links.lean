import Verif.Model.Links

/-!
# Specification of the temporal coherence and of the grid search
-/

namespace Spurt
noncomputable section
open Finset

/-- The temporal coherence of `m` phases: the length of the weighted mean of their unit phasors. -/
def Spec.tempCoh (m : Nat) (w φ : Nat → ℝ) : ℝ :=
  ‖∑ i ∈ range m, (w i : ℂ) * Complex.exp ((φ i : ℂ) * Complex.I)‖

/-- The weight of each observation. -/
def Spec.weight : Weights1 → Nat → ℝ
  | .scalar w => fun _ => w
  | .vec w => w.at

/-- The number of observations is that of the model, and 1-D weights have one entry each. -/
def Spec.WeightsFit (m : Nat) : Weights1 → Prop
  | .scalar _ => True
  | .vec w => w.len = m

/-- What is left of the data after subtracting the model. -/
def Spec.misfit (a : Arr2) (x : Fin a.cols → ℝ) (b : Arr1) (i : Nat) : ℝ := (∑ j : Fin a.cols, a.at i j * x j) - b.at i

/-- The points `start + k * step` before `stop`, on each axis. -/
def Spec.Grid (ranges : List PySlice) (n : Nat) (p : Fin n → ℝ) : Prop :=
  ∀ j : Fin n, ∃ r, ranges[j.1]? = some r ∧ ∃ k : ℕ, p j = r.start + k * r.step ∧ (k : ℤ) < ⌈(r.stop - r.start) / r.step⌉

/-- What is used of `scipy.optimize.brute`: it returns a point with the value of the function there,
which no grid point undercuts. -/
def Spec.BruteOk (brute : Brute) : Prop :=
  ∀ n f ranges x v, brute n f ranges = .ok (x, v) →
    f x = .ok v ∧ ∀ p, Spec.Grid ranges n p → ∃ v', f p = .ok v' ∧ v ≤ v'

/-- Two sets of phases that differ by whole cycles and a common constant. -/
def Spec.SameUpToConstant (m : Nat) (φ ψ : Nat → ℝ) : Prop :=
  ∃ c : ℝ, ∀ i < m, ∃ k : ℤ, φ i = ψ i + c + k * (2 * Real.pi)

end
end Spurt
