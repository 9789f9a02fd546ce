import Verif.Props.Links
import Verif.Props.LeastSquares

/-!
# Properties C52 and C65: arrays of one entry and empty matrices
-/

namespace Spurt
open Spec

theorem axisSize_one_left (n : Nat) : axisSize 1 n = .ok n := by
  unfold axisSize
  by_cases h : 1 = n
  · rw [if_pos h, h]
  · rw [if_neg h, if_pos rfl]

theorem axisSize_one_right (n : Nat) : axisSize n 1 = .ok n := by
  unfold axisSize
  by_cases h : n = 1
  · rw [if_pos h]
  · rw [if_neg h, if_neg h, if_pos rfl]

theorem spread_single (w : ℝ) (f : Nat → ℝ) (hf : f 0 = w) (n : Nat) :
    (Weights1.vec ⟨1, f⟩).spread n = (Weights1.scalar w).spread n := by
  unfold Weights1.spread
  simp only [axisSize_one_left, axisIdx, if_true, hf]
  rfl

/-- C52. An array with one weight is a scalar weight. -/
theorem C52_single_weight (a : Arr2) (b : Arr1) (w : ℝ) (f : Nat → ℝ) (hf : f 0 = w) (x : Fin a.cols → ℝ) :
    negTemporalCoherence a b (.one (.vec ⟨1, f⟩)) x = negTemporalCoherence a b (.one (.scalar w)) x ∧
    negTemporalCoherenceWithJacobian a b (.vec ⟨1, f⟩) x = negTemporalCoherenceWithJacobian a b (.scalar w) x := by
  unfold negTemporalCoherence negTemporalCoherenceWithJacobian
  simp only [spread_single w f hf, and_self]

/-- C52. One value in the place of the data stands for all observations. -/
theorem C52_single_datum (a : Arr2) (v : ℝ) (f : Nat → ℝ) (hf : f 0 = v) (w : Weights) (x : Fin a.cols → ℝ) :
    negTemporalCoherence a ⟨1, f⟩ w x = negTemporalCoherence a ⟨a.rows, fun _ => v⟩ w x := by
  have : residual a x ⟨1, f⟩ = residual a x ⟨a.rows, fun _ => v⟩ := by
    unfold residual
    simp only [axisSize_one_right, axisSize_self]
    simp only [axisIdx, if_true, hf]
  unfold negTemporalCoherence
  rw [this]

/-- C52. Data or weights whose number fits neither the observations nor one are refused. -/
theorem C52_mismatch (a : Arr2) (b : Arr1) (x : Fin a.cols → ℝ) :
    (a.rows ≠ b.len → a.rows ≠ 1 → b.len ≠ 1 → ∀ w w1,
      negTemporalCoherence a b w x = .error .valueError ∧ negTemporalCoherenceWithJacobian a b w1 x = .error .valueError) ∧
    (a.rows = b.len → ∀ w : Arr1, w.len ≠ a.rows → w.len ≠ 1 → a.rows ≠ 1 →
      negTemporalCoherence a b (.one (.vec w)) x = .error .valueError ∧
      negTemporalCoherenceWithJacobian a b (.vec w) x = .error .valueError) := by
  constructor
  · intro h1 h2 h3 w w1
    have : residual a x b = .error .valueError := by
      unfold residual axisSize
      rw [if_neg h1, if_neg h2, if_neg h3]
      rfl
    unfold negTemporalCoherence negTemporalCoherenceWithJacobian
    rw [this]
    exact ⟨rfl, rfl⟩
  · intro h w h1 h2 h3
    have hr : residual a x b = .ok ⟨a.rows, fun i => a.dot x (axisIdx a.rows i) - b.at (axisIdx b.len i)⟩ := by
      unfold residual
      rw [← h, axisSize_self]
      rfl
    have : (Weights1.vec w).spread a.rows = .error .valueError := by
      unfold Weights1.spread axisSize
      simp only [if_neg h1, if_neg h2, if_neg h3]
      rfl
    unfold negTemporalCoherence negTemporalCoherenceWithJacobian
    rw [hr]
    simp only [Bind.bind, Except.bind, this, and_self]

/-- Three observations and two values, or two weights. -/
example : negTemporalCoherence ⟨3, 0, fun _ _ => 1⟩ ⟨2, fun _ => 0⟩ (.one (.scalar 1)) (fun i => i.elim0) = .error .valueError ∧
    negTemporalCoherence ⟨3, 0, fun _ _ => 1⟩ ⟨3, fun _ => 0⟩ (.one (.vec ⟨2, fun _ => 1⟩)) (fun i => i.elim0) =
      .error .valueError :=
  ⟨((C52_mismatch ⟨3, 0, fun _ _ => 1⟩ ⟨2, fun _ => 0⟩ _).1 (by simp) (by simp) (by simp) _ (.scalar 1)).1,
    ((C52_mismatch ⟨3, 0, fun _ _ => 1⟩ ⟨3, fun _ => 0⟩ _).2 rfl _ (by simp) (by simp) (by simp)).1⟩

/-- Three observations with the one weight 2 and the one value 0: the coherence is 6. -/
example : negTemporalCoherence ⟨3, 0, fun _ _ => 1⟩ ⟨1, fun _ => 0⟩ (.one (.vec ⟨1, fun _ => 2⟩)) (fun i => i.elim0) =
    .ok (-6) := by
  rw [(C52_single_weight _ _ 2 (fun _ => 2) rfl _).1, C52_single_datum _ 0 (fun _ => 0) rfl,
    C52_value ⟨3, 0, fun _ _ => 1⟩ _ (.scalar 2) rfl trivial]
  simp only [tempCoh, misfit, weight, Finset.univ_eq_empty, Finset.sum_empty, sub_self, Complex.ofReal_zero, zero_mul,
    Complex.exp_zero, mul_one]
  norm_num

section
variable {K : Type} [Field K] [LinearOrder K]

/-- C65. For a matrix without entries both functions return a vector of zeros with one entry per column and
a residual of zeros with one entry per row, whatever the solvers do. -/
theorem C65_empty (lstsq : RectMat K → List K → List K) (lin : LinSolver K) (a : RectMat K) (b x r : List K)
    (h0 : a.rows = 0 ∨ a.cols = 0) (enableLogging : Bool) (maxiter : Option Nat)
    (h : l2MinVec lstsq a b = .ok (x, r) ∨ l2MinCgRect lin a b enableLogging maxiter = .ok (x, r)) :
    (x.length = a.cols ∧ ∀ v ∈ x, v = 0) ∧ r.length = a.rows ∧ ∀ v ∈ r, v = 0 := by
  have hz : a.rows * a.cols = 0 := by rcases h0 with h0 | h0 <;> simp [h0]
  have hr : ∀ n : Nat, ∀ v ∈ List.replicate n (0 : K), v = 0 := fun n v hv => (List.mem_replicate.mp hv).2
  have : x = List.replicate a.cols 0 ∧ r = List.replicate a.rows 0 := by
    rcases h with h | h
    · unfold l2MinVec at h
      rw [if_pos hz] at h
      simp only [Except.ok.injEq, Prod.mk.injEq] at h
      exact ⟨h.1.symm, h.2.symm⟩
    · unfold l2MinCgRect at h
      by_cases hb : a.rows ≠ b.length
      · rw [if_pos hb] at h; simp at h
      · rw [if_neg hb, if_pos hz] at h
        simp only [Except.ok.injEq, Prod.mk.injEq] at h
        exact ⟨h.1.symm, h.2.symm⟩
  rw [this.1, this.2]
  exact ⟨⟨List.length_replicate, hr _⟩, List.length_replicate, hr _⟩

end

/-- A matrix with two columns and no rows. -/
example : l2MinVec (fun _ _ => []) (⟨0, 2, fun _ _ => 0⟩ : RectMat ℚ) [] = .ok ([0, 0], []) ∧
    l2MinCgRect ⟨fun _ => false, fun _ _ => []⟩ (⟨0, 2, fun _ _ => 0⟩ : RectMat ℚ) [] true none = .ok ([0, 0], []) :=
  ⟨rfl, rfl⟩

end Spurt
