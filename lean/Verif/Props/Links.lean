import Verif.Spec.Links
import Mathlib.Analysis.SpecialFunctions.Trigonometric.Deriv
import Mathlib.Analysis.SpecialFunctions.Sqrt
import Mathlib.Analysis.SpecialFunctions.Complex.Log
import Mathlib.Analysis.Calculus.FDeriv.Pi
import Mathlib.Tactic.FieldSimp
import Mathlib.Tactic.LinearCombination

/-!
# Properties C51, C52, C59: the link models
-/

namespace Spurt
open Spec Finset

/-! ### C52: temporal coherence -/

theorem axisSize_self (n : Nat) : axisSize n n = .ok n := if_pos rfl

theorem axisIdx_lt {n i : Nat} (h : i < n) : axisIdx n i = i := by
  unfold axisIdx
  split <;> omega

theorem spread_ok {w : Weights1} {m : Nat} (h : WeightsFit m w) :
    ∃ v, w.spread m = .ok v ∧ v.len = m ∧ ∀ i < m, v.at i = weight w i := by
  cases w with
  | scalar w => exact ⟨_, rfl, rfl, fun _ _ => rfl⟩
  | vec w =>
    simp only [WeightsFit] at h
    unfold Weights1.spread
    simp only [h, axisSize_self]
    refine ⟨_, rfl, rfl, fun i hi => ?_⟩
    simp only [axisIdx_lt hi, weight]

theorem residual_ok {a : Arr2} {b : Arr1} (hb : b.len = a.rows) (x : Fin a.cols → ℝ) :
    ∃ r, residual a x b = .ok r ∧ r.len = a.rows ∧ ∀ i < a.rows, r.at i = misfit a x b i := by
  unfold residual
  simp only [hb, axisSize_self]
  refine ⟨_, rfl, rfl, fun i hi => ?_⟩
  simp only [axisIdx_lt hi, misfit, Arr2.dot]

/-- C52. `neg_temporal_coherence` is minus the temporal coherence of what the model leaves of the
data. -/
theorem C52_value (a : Arr2) (b : Arr1) (w : Weights1) (hb : b.len = a.rows) (hw : WeightsFit a.rows w)
    (x : Fin a.cols → ℝ) : negTemporalCoherence a b (.one w) x = .ok (-tempCoh a.rows (weight w) (misfit a x b)) := by
  obtain ⟨r, h1, h2, h3⟩ := residual_ok hb x
  obtain ⟨v, h4, h5, h6⟩ := spread_ok hw
  unfold negTemporalCoherence
  rw [h1]
  simp only [Bind.bind, Except.bind, h2, h4, h5]
  unfold tempCoh
  congr 2
  congr 1
  refine sum_congr rfl fun i hi => ?_
  have hi := mem_range.mp hi
  rw [axisIdx_lt hi, h6 i hi, h3 i hi, mul_comm Complex.I]

theorem tempCoh_le (m : Nat) (w φ : Nat → ℝ) (hw : ∀ i < m, 0 ≤ w i) : tempCoh m w φ ≤ ∑ i ∈ range m, w i := by
  unfold tempCoh
  calc ‖∑ i ∈ range m, (w i : ℂ) * Complex.exp ((φ i : ℂ) * Complex.I)‖
      ≤ ∑ i ∈ range m, ‖(w i : ℂ) * Complex.exp ((φ i : ℂ) * Complex.I)‖ := norm_sum_le _ _
    _ = ∑ i ∈ range m, w i := by
        refine sum_congr rfl fun i hi => ?_
        rw [norm_mul, Complex.norm_exp_ofReal_mul_I, mul_one, Complex.norm_real, Real.norm_eq_abs,
          abs_of_nonneg (hw i (mem_range.mp hi))]

/-- C52. The temporal coherence is between 0 and 1 for non-negative weights that sum to 1. -/
theorem C52_range (m : Nat) (w φ : Nat → ℝ) (hw : ∀ i < m, 0 ≤ w i) (hs : ∑ i ∈ range m, w i = 1) :
    0 ≤ tempCoh m w φ ∧ tempCoh m w φ ≤ 1 :=
  ⟨norm_nonneg _, hs ▸ tempCoh_le m w φ hw⟩

/-- C52. Adding whole cycles and a common constant to the phases does not change the coherence. -/
theorem C52_invariant (m : Nat) (w φ ψ : Nat → ℝ) (h : SameUpToConstant m φ ψ) : tempCoh m w φ = tempCoh m w ψ := by
  obtain ⟨c, hc⟩ := h
  have : ∑ i ∈ range m, (w i : ℂ) * Complex.exp ((φ i : ℂ) * Complex.I) =
      Complex.exp ((c : ℂ) * Complex.I) * ∑ i ∈ range m, (w i : ℂ) * Complex.exp ((ψ i : ℂ) * Complex.I) := by
    rw [mul_sum]
    refine sum_congr rfl fun i hi => ?_
    obtain ⟨k, hk⟩ := hc i (mem_range.mp hi)
    rw [hk]
    push_cast
    rw [show ((ψ i : ℂ) + c + k * (2 * Real.pi)) * Complex.I =
      (ψ i : ℂ) * Complex.I + c * Complex.I + k * (2 * Real.pi * Complex.I) by ring, Complex.exp_add, Complex.exp_add,
      Complex.exp_int_mul_two_pi_mul_I]
    ring
  unfold tempCoh
  rw [this, norm_mul, Complex.norm_exp_ofReal_mul_I, one_mul]

/-- C52. A fit up to whole cycles and a common constant has coherence 1. -/
theorem C52_perfect (m : Nat) (w φ : Nat → ℝ) (hs : ∑ i ∈ range m, w i = 1) (h : SameUpToConstant m φ fun _ => 0) :
    tempCoh m w φ = 1 := by
  rw [C52_invariant m w φ _ h]
  unfold tempCoh
  have : ∑ i ∈ range m, (w i : ℂ) * Complex.exp (((0 : ℝ) : ℂ) * Complex.I) = 1 := by
    simp only [Complex.ofReal_zero, zero_mul, Complex.exp_zero, mul_one]
    rw [← Complex.ofReal_sum, hs, Complex.ofReal_one]
  rw [this, norm_one]

/-- C52. Conversely, with positive weights coherence 1 means a fit up to whole cycles and a common
constant. -/
theorem C52_perfect_only (m : Nat) (w φ : Nat → ℝ) (hw : ∀ i < m, 0 < w i) (hs : ∑ i ∈ range m, w i = 1)
    (h : tempCoh m w φ = 1) : SameUpToConstant m φ fun _ => 0 := by
  set S := ∑ i ∈ range m, (w i : ℂ) * Complex.exp ((φ i : ℂ) * Complex.I) with hS
  have hn : ‖S‖ = 1 := h
  have key : ∀ i < m, Complex.exp ((φ i : ℂ) * Complex.I) = S := by
    have hre : ∀ i, (starRingEnd ℂ S * Complex.exp ((φ i : ℂ) * Complex.I)).re ≤ 1 := fun i => by
      refine (Complex.re_le_norm _).trans ?_
      rw [norm_mul, Complex.norm_exp_ofReal_mul_I, mul_one, RCLike.norm_conj, hn]
    have hsum : ∑ i ∈ range m, w i * (1 - (starRingEnd ℂ S * Complex.exp ((φ i : ℂ) * Complex.I)).re) = 0 := by
      have : (starRingEnd ℂ S * S).re = 1 := by
        rw [← Complex.normSq_eq_conj_mul_self, Complex.ofReal_re, Complex.normSq_eq_norm_sq, hn]
        norm_num
      rw [hS, mul_sum, Complex.re_sum, ← hS] at this
      simp only [mul_sub, mul_one, sum_sub_distrib, hs]
      rw [sub_eq_zero, ← this]
      refine sum_congr rfl fun i _ => ?_
      rw [mul_left_comm, Complex.re_ofReal_mul]
    intro i hi
    have hz := (sum_eq_zero_iff_of_nonneg (fun i hi => mul_nonneg (hw i (mem_range.mp hi)).le
      (sub_nonneg.mpr (hre i)))).mp hsum i (mem_range.mpr hi)
    have hre1 : (starRingEnd ℂ S * Complex.exp ((φ i : ℂ) * Complex.I)).re = 1 := by
      rcases mul_eq_zero.mp hz with h | h
      · exact absurd h (hw i hi).ne'
      · linarith
    have h1 : starRingEnd ℂ S * Complex.exp ((φ i : ℂ) * Complex.I) = 1 := by
      have hnn : ‖starRingEnd ℂ S * Complex.exp ((φ i : ℂ) * Complex.I)‖ = 1 := by
        rw [norm_mul, Complex.norm_exp_ofReal_mul_I, mul_one, RCLike.norm_conj, hn]
      have hsq := Complex.normSq_apply (starRingEnd ℂ S * Complex.exp ((φ i : ℂ) * Complex.I))
      rw [Complex.normSq_eq_norm_sq, hnn, hre1] at hsq
      refine Complex.ext (by rw [hre1]; rfl) ?_
      have : (starRingEnd ℂ S * Complex.exp ((φ i : ℂ) * Complex.I)).im ^ 2 = 0 := by nlinarith
      simpa using pow_eq_zero_iff (two_ne_zero) |>.mp this
    have h2 : S * starRingEnd ℂ S = 1 := by
      rw [Complex.mul_conj, Complex.normSq_eq_norm_sq, hn]; norm_num
    calc Complex.exp ((φ i : ℂ) * Complex.I) = (S * starRingEnd ℂ S) * Complex.exp ((φ i : ℂ) * Complex.I) := by
          rw [h2, one_mul]
      _ = S := by rw [mul_assoc, h1, mul_one]
  refine ⟨φ 0, fun i hi => ?_⟩
  have h0 := key 0 (by omega)
  have hi' := key i hi
  rw [← h0] at hi'
  obtain ⟨k, hk⟩ := Complex.exp_eq_exp_iff_exists_int.mp hi'
  refine ⟨k, ?_⟩
  have hk' : ((φ i : ℂ)) = φ 0 + k * (2 * Real.pi) := by
    have : ((φ i : ℂ) - (φ 0 + k * (2 * Real.pi))) * Complex.I = 0 := by linear_combination hk
    rcases mul_eq_zero.mp this with h | h
    · linear_combination h
    · exact absurd h Complex.I_ne_zero
  have := congrArg Complex.re hk'
  simp at this
  linarith

/-! ### The Jacobian -/

/-- The two sums of the coherence. -/
theorem tempCoh_eq (m : Nat) (w φ : Nat → ℝ) :
    tempCoh m w φ = Real.sqrt ((∑ i ∈ range m, w i * Real.cos (φ i)) ^ 2 + (∑ i ∈ range m, w i * Real.sin (φ i)) ^ 2) := by
  unfold tempCoh
  rw [Complex.norm_eq_sqrt_sq_add_sq]
  congr 3
  · rw [Complex.re_sum]
    refine sum_congr rfl fun i _ => ?_
    rw [Complex.re_ofReal_mul, Complex.exp_ofReal_mul_I_re]
  · rw [Complex.im_sum]
    refine sum_congr rfl fun i _ => ?_
    rw [Complex.im_ofReal_mul, Complex.exp_ofReal_mul_I_im]

/-- C52. `neg_temporal_coherence_with_jacobian` returns the value of `neg_temporal_coherence` and,
where the coherence is not zero, the gradient of that function. -/
theorem C52_jacobian (a : Arr2) (b : Arr1) (w : Weights1) (hb : b.len = a.rows) (hw : WeightsFit a.rows w)
    (x : Fin a.cols → ℝ) :
    ∃ r g, negTemporalCoherenceWithJacobian a b w x = .ok (r, g) ∧ negTemporalCoherence a b (.one w) x = .ok r ∧
      ∀ f : (Fin a.cols → ℝ) → ℝ, (∀ y, negTemporalCoherence a b (.one w) y = .ok (f y)) → f x ≠ 0 →
        HasFDerivAt f (∑ j, g j • ContinuousLinearMap.proj (R := ℝ) (φ := fun _ : Fin a.cols => ℝ) j) x := by
  obtain ⟨r, h1, h2, h3⟩ := residual_ok hb x
  obtain ⟨v, h4, h5, h6⟩ := spread_ok hw
  set W := weight w with hW
  have hcos : ∑ i ∈ range a.rows, Real.cos (r.at (axisIdx a.rows i)) * v.at i =
      ∑ i ∈ range a.rows, W i * Real.cos (misfit a x b i) := by
    refine sum_congr rfl fun i hi => ?_
    have hi := mem_range.mp hi
    rw [axisIdx_lt hi, h6 i hi, h3 i hi, mul_comm]
  have hsin : ∑ i ∈ range a.rows, Real.sin (r.at (axisIdx a.rows i)) * v.at i =
      ∑ i ∈ range a.rows, W i * Real.sin (misfit a x b i) := by
    refine sum_congr rfl fun i hi => ?_
    have hi := mem_range.mp hi
    rw [axisIdx_lt hi, h6 i hi, h3 i hi, mul_comm]
  unfold negTemporalCoherenceWithJacobian
  rw [h1]
  simp only [Bind.bind, Except.bind, h2, h4, h5, ne_eq, not_true_eq_false, if_false]
  rw [hcos, hsin]
  refine ⟨_, _, rfl, ?_, ?_⟩
  · rw [C52_value a b w hb hw x, tempCoh_eq]
  · intro f hf hfx
    have hff : f = fun y => -Real.sqrt ((∑ i ∈ range a.rows, W i * Real.cos (misfit a y b i)) ^ 2 +
        (∑ i ∈ range a.rows, W i * Real.sin (misfit a y b i)) ^ 2) := by
      funext y
      have := hf y
      rw [C52_value a b w hb hw y, tempCoh_eq] at this
      exact (Except.ok.inj this).symm
    rw [hff] at hfx ⊢
    simp only at hfx
    have hm : ∀ i, HasFDerivAt (fun y : Fin a.cols → ℝ => misfit a y b i)
        (∑ j : Fin a.cols, a.at i j • ContinuousLinearMap.proj (R := ℝ) (φ := fun _ : Fin a.cols => ℝ) j) x := by
      intro i
      unfold misfit
      refine HasFDerivAt.sub_const _ ?_
      refine HasFDerivAt.fun_sum fun j _ => ?_
      exact (ContinuousLinearMap.hasFDerivAt (ContinuousLinearMap.proj (R := ℝ) (φ := fun _ : Fin a.cols => ℝ) j)).const_mul _
    have hc := HasFDerivAt.fun_sum (u := range a.rows) fun i _ => ((hm i).cos).const_mul (W i)
    have hs := HasFDerivAt.fun_sum (u := range a.rows) fun i _ => ((hm i).sin).const_mul (W i)
    have hne : (∑ i ∈ range a.rows, W i * Real.cos (misfit a x b i)) ^ 2 +
        (∑ i ∈ range a.rows, W i * Real.sin (misfit a x b i)) ^ 2 ≠ 0 := by
      intro h0
      rw [h0] at hfx
      simp at hfx
    have := ((hc.pow 2).add (hs.pow 2)).sqrt hne |>.neg
    refine this.congr_fderiv ?_
    ext y
    have swap : ∀ (z z' : Nat → ℝ), (∀ i < a.rows, z' i = z i * W i) →
        ∑ i ∈ range a.rows, W i * (z i * ∑ j : Fin a.cols, a.at i j * y j) =
          ∑ j : Fin a.cols, (∑ i ∈ range a.rows, a.at i j * z' i) * y j := by
      intro z z' hz
      simp only [sum_mul, mul_sum]
      rw [sum_comm]
      refine sum_congr rfl fun j _ => sum_congr rfl fun i hi => ?_
      rw [hz i (mem_range.mp hi)]
      ring
    have two : ∀ (z : Nat → ℝ) (j : Fin a.cols), ∑ i ∈ range a.rows, a.at i j * (2 * z i) = 2 * ∑ i ∈ range a.rows, a.at i j * z i := by
      intro z j
      rw [mul_sum]
      exact sum_congr rfl fun i _ => by ring
    simp
    rw [swap (fun i => Real.cos (misfit a x b i)) (fun i => Real.cos (r.at (axisIdx a.rows i)) * v.at i)
      (fun i hi => by rw [axisIdx_lt hi, h6 i hi, h3 i hi]),
      swap (fun i => Real.sin (misfit a x b i)) (fun i => Real.sin (r.at (axisIdx a.rows i)) * v.at i)
      (fun i hi => by rw [axisIdx_lt hi, h6 i hi, h3 i hi])]
    simp only [two]
    generalize (√((∑ i ∈ range a.rows, W i * Real.cos (misfit a x b i)) ^ 2 +
      (∑ i ∈ range a.rows, W i * Real.sin (misfit a x b i)) ^ 2))⁻¹ = q
    generalize ∑ i ∈ range a.rows, W i * Real.cos (misfit a x b i) = T1
    generalize ∑ i ∈ range a.rows, W i * Real.sin (misfit a x b i) = T2
    rw [← sum_neg_distrib, mul_sum, mul_sum, mul_sum, mul_sum, ← sum_neg_distrib, ← sum_add_distrib]
    exact sum_congr rfl fun j _ => by ring

/-- Non-vacuity: two observations `x` and `2 x` of one parameter, data `1/2` and `3`. -/
example : ∃ (a : Arr2) (b : Arr1) (w : Weights1), b.len = a.rows ∧ WeightsFit a.rows w ∧ 0 < a.cols ∧
    (∀ i < a.rows, 0 < weight w i) ∧ ∑ i ∈ range a.rows, weight w i = 1 ∧ b.at 0 ≠ b.at 1 :=
  ⟨⟨2, 1, fun i _ => i + 1⟩, ⟨2, fun i => if i = 0 then 1 / 2 else 3⟩, .vec ⟨2, fun i => if i = 0 then 1 / 4 else 3 / 4⟩, rfl, rfl,
    by norm_num, fun i _ => by simp only [weight]; split <;> norm_num, by simp [weight, sum_range_succ]; norm_num, by norm_num⟩

/-! ### C51: many links -/

theorem fold_many {n : Nat} (f : Nat → Except PyErr ((Fin n → ℝ) × ℝ)) (l : List Nat) (s : ManyResult n) :
    (∀ r : Nat → (Fin n → ℝ) × ℝ, (∀ i ∈ l, f i = .ok (r i)) → ∃ s', l.foldlM (fun s i => do let r ← f i; pure (ManyResult.put s i r)) s = .ok s' ∧
      (∀ i ∈ l, s'.params i = (r i).1 ∧ s'.tcoh i = (r i).2) ∧ ∀ i ∉ l, s'.params i = s.params i ∧ s'.tcoh i = s.tcoh i) ∧
    ((∃ i ∈ l, ∃ e, f i = .error e) →
      ∃ i ∈ l, ∃ e, f i = .error e ∧ l.foldlM (fun s i => do let r ← f i; pure (ManyResult.put s i r)) s = .error e) := by
  induction l generalizing s with
  | nil => exact ⟨fun r _ => ⟨s, rfl, by simp, by simp⟩, by simp⟩
  | cons i l ih =>
    refine ⟨fun r hr => ?_, fun h => ?_⟩
    · obtain ⟨s', h1, h2, h3⟩ := (ih (s.put i (r i))).1 r fun j hj => hr j (List.mem_cons_of_mem _ hj)
      refine ⟨s', ?_, ?_, ?_⟩
      · rw [List.foldlM_cons, hr i List.mem_cons_self]
        exact h1
      · intro j hj
        by_cases hl : j ∈ l
        · exact h2 j hl
        · have : j = i := (List.mem_cons.mp hj).resolve_right hl
          subst this
          rw [(h3 j hl).1, (h3 j hl).2]
          simp [ManyResult.put]
      · intro j hj
        rw [List.mem_cons, not_or] at hj
        rw [(h3 j hj.2).1, (h3 j hj.2).2]
        simp [ManyResult.put, Function.update_of_ne hj.1]
    · cases hi : f i with
      | error e => exact ⟨i, List.mem_cons_self, e, hi, by rw [List.foldlM_cons, hi]; rfl⟩
      | ok r =>
        obtain ⟨j, hj, e, he⟩ := h
        have hjl : j ∈ l := by
          rcases List.mem_cons.mp hj with rfl | h
          · rw [hi] at he; cases he
          · exact h
        obtain ⟨k, hk, e', h1, h2⟩ := (ih (s.put i r)).2 ⟨j, hjl, e, he⟩
        exact ⟨k, List.mem_cons_of_mem _ hk, e', h1, by rw [List.foldlM_cons, hi]; exact h2⟩

/-- The weights the caller passes, if not 2-D. -/
def asWeights : Option Weights1 → Option Weights := Option.map .one

/-- All steps estimate the columns. -/
theorem many_eq (brute : Brute) (M : LinkModel) (cpu : ℤ) (order : List Nat → List Nat) (data : Arr2)
    (weights : Option Weights1) (workers : Option ℤ) (hd : data.rows = M.nobs) (hw : ∀ w, weights = some w → WeightsFit M.nobs w)
    (hn : 0 < M.nobs) :
    ∃ l, (l = List.range data.cols ∨ l = order (List.range data.cols)) ∧
    M.estimateModelMany brute cpu order data (asWeights weights) workers =
      l.foldlM (fun s i => do let r ← M.estimateModel brute (data.col i) (asWeights weights); pure (ManyResult.put s i r))
        ⟨fun _ _ => 0, fun _ => 0⟩ := by
  unfold LinkModel.estimateModelMany
  rw [if_neg (by simpa using hd)]
  have key : ∃ w1, M.manyWeights data (asWeights weights) = .ok (.one w1) ∧ ∀ i,
      M.estimateModel brute (data.col i) (some (.one w1)) = M.estimateModel brute (data.col i) (asWeights weights) ∧
      linkSolve brute M.matrix M.ranges (data.col i) (.one w1) = M.estimateModel brute (data.col i) (asWeights weights) := by
    have hd0 : M.defaultWeight = .ok (1 / (M.nobs : ℝ)) := if_neg hn.ne'
    match weights, hw with
    | none, _ =>
      refine ⟨.scalar (1 / (M.nobs : ℝ)), ?_, fun i => ?_⟩
      · simp only [asWeights, Option.map_none, LinkModel.manyWeights, hd0]; rfl
      · simp only [asWeights, Option.map_none, LinkModel.estimateModel, hd0]; exact ⟨rfl, rfl⟩
    | some (.scalar w), _ => exact ⟨.scalar w, rfl, fun i => ⟨rfl, rfl⟩⟩
    | some (.vec w), hw =>
      have := hw _ rfl
      simp only [WeightsFit] at this
      refine ⟨.vec w, if_neg (by simpa using this), fun i => ⟨rfl, ?_⟩⟩
      simp only [asWeights, Option.map_some, LinkModel.estimateModel]
      rw [if_neg]
      simp [Arr2.col, this, hd]
  obtain ⟨w1, h1, h2⟩ := key
  rw [h1]
  simp only [Bind.bind, Except.bind]
  split
  · refine ⟨_, Or.inl rfl, ?_⟩
    congr 1
    funext s i
    unfold LinkModel.seqStep
    rw [(h2 i).1]
    rfl
  · refine ⟨_, Or.inr rfl, ?_⟩
    congr 1
    funext s i
    unfold LinkModel.parStep
    rw [(h2 i).2]
    rfl

/-- C51 for scalar, 1-D and default weights: `estimate_model_many` returns for each column what
`estimate_model` returns for it, for every worker count and completion order, and raises exactly if
that does for some column, with its exception. Missing: 2-D weights, for which C51 is false. -/
theorem C51_columns_partial (brute : Brute) (M : LinkModel) (cpu : ℤ) (order : List Nat → List Nat) (data : Arr2)
    (weights : Option Weights1) (workers : Option ℤ) (ho : ∀ l, (order l).Perm l) (hd : data.rows = M.nobs)
    (hw : ∀ w, weights = some w → WeightsFit M.nobs w) (hn : 0 < M.nobs) :
    (∀ r : Nat → (Fin M.matrix.cols → ℝ) × ℝ, (∀ i < data.cols, M.estimateModel brute (data.col i) (asWeights weights) = .ok (r i)) →
      ∃ s, M.estimateModelMany brute cpu order data (asWeights weights) workers = .ok s ∧
        ∀ i < data.cols, s.params i = (r i).1 ∧ s.tcoh i = (r i).2) ∧
    ((∃ i < data.cols, ∃ e, M.estimateModel brute (data.col i) (asWeights weights) = .error e) →
      ∃ i < data.cols, ∃ e, M.estimateModel brute (data.col i) (asWeights weights) = .error e ∧
        M.estimateModelMany brute cpu order data (asWeights weights) workers = .error e) := by
  obtain ⟨l, hl, h⟩ := many_eq brute M cpu order data weights workers hd hw hn
  have hmem : ∀ i, i ∈ l ↔ i < data.cols := by
    intro i
    rcases hl with rfl | rfl
    · exact List.mem_range
    · rw [(ho _).mem_iff, List.mem_range]
  rw [h]
  obtain ⟨f1, f2⟩ := fold_many (fun i => M.estimateModel brute (data.col i) (asWeights weights)) l ⟨fun _ _ => 0, fun _ => 0⟩
  refine ⟨fun r hr => ?_, ?_⟩
  · obtain ⟨s, h1, h2, _⟩ := f1 r fun i hi => hr i ((hmem i).mp hi)
    exact ⟨s, h1, fun i hi => h2 i ((hmem i).mpr hi)⟩
  · rintro ⟨i, hi, e, he⟩
    obtain ⟨j, hj, e', h1, h2⟩ := f2 ⟨i, (hmem i).mpr hi, e, he⟩
    exact ⟨j, (hmem j).mp hj, e', h1, h2⟩

/-- C51. Data or weights of the wrong size are rejected. -/
theorem C51_shapes (brute : Brute) (M : LinkModel) (cpu : ℤ) (order : List Nat → List Nat) (data : Arr2)
    (weights : Option Weights) (workers : Option ℤ)
    (h : data.rows ≠ M.nobs ∨ (∃ w, weights = some (.one (.vec w)) ∧ w.len ≠ M.nobs) ∨
      ∃ w, weights = some (.mat w) ∧ ¬ (w.rows = data.rows ∧ w.cols = data.cols)) :
    M.estimateModelMany brute cpu order data weights workers = .error .valueError := by
  unfold LinkModel.estimateModelMany
  by_cases hd : data.rows = M.nobs
  · rw [if_neg (by simpa using hd)]
    rcases h with h | ⟨w, rfl, h⟩ | ⟨w, rfl, h⟩
    · exact absurd hd h
    · simp only [LinkModel.manyWeights, if_pos h]; rfl
    · simp only [LinkModel.manyWeights, if_pos h]; rfl
  · rw [if_pos hd]; rfl

/-- C51 is false for 2-D weights of the shape of the data: with one worker the call raises. -/
theorem C51_weights_sequential_refuted (brute : Brute) (M : LinkModel) (cpu : ℤ) (order : List Nat → List Nat) (data : Arr2)
    (w : Arr2) (hd : data.rows = M.nobs) (hw : w.rows = data.rows ∧ w.cols = data.cols) (hc : 0 < data.cols) :
    M.estimateModelMany brute cpu order data (some (.mat w)) (some 1) = .error .valueError := by
  unfold LinkModel.estimateModelMany
  rw [if_neg (by simpa using hd)]
  have : M.manyWeights data (some (.mat w)) = .ok (.mat w) := by
    simp only [LinkModel.manyWeights]
    rw [if_neg (by simpa using hw), if_neg (by simpa using hw.1.trans hd)]
  rw [this]
  obtain ⟨n, hn⟩ : ∃ n, data.cols = n + 1 := ⟨data.cols - 1, by omega⟩
  simp only [Bind.bind, Except.bind]
  rw [if_pos (by simp [poolWorkers]), hn, List.range_succ_eq_map, List.foldlM_cons]
  rfl

/-- The weights that 2-D weights stand for in the workers. -/
noncomputable def colSums (w : Arr2) : Arr1 := ⟨w.cols, fun j => ∑ k ∈ range w.rows, w.at k j⟩

/-- C51 is false for 2-D weights of the shape of the data, with two or more workers and as many
columns as observations: every column is estimated with the same weights, where observation `j` has
the sum of the weights of run `j`. -/
theorem C51_weights_parallel_refuted (brute : Brute) (M : LinkModel) (cpu : ℤ) (order : List Nat → List Nat) (data : Arr2)
    (w : Arr2) (workers : ℤ) (hd : data.rows = M.nobs) (hw : w.rows = data.rows ∧ w.cols = data.cols) (hsq : data.cols = M.nobs)
    (h2 : 2 ≤ workers) :
    M.estimateModelMany brute cpu order data (some (.mat w)) (some workers) =
      M.estimateModelMany brute cpu order data (some (.one (.vec (colSums w)))) (some workers) := by
  unfold LinkModel.estimateModelMany
  rw [if_neg (by simpa using hd), if_neg (by simpa using hd)]
  have e1 : M.manyWeights data (some (.mat w)) = .ok (.mat w) := by
    simp only [LinkModel.manyWeights]
    rw [if_neg (by simpa using hw), if_neg (by simpa using hw.1.trans hd)]
  have e2 : M.manyWeights data (some (.one (.vec (colSums w)))) = .ok (.one (.vec (colSums w))) := by
    simp only [LinkModel.manyWeights]
    rw [if_neg]
    simp [colSums, hw.2, hsq]
  have hp : ¬ poolWorkers cpu (some workers) = 1 := by
    simp only [poolWorkers]
    rw [if_neg (by omega)]
    omega
  rw [e1, e2]
  simp only [Bind.bind, Except.bind, if_neg hp]
  congr 1
  funext s i
  unfold LinkModel.parStep linkSolve
  congr 2
  congr 1
  funext x
  have hb : (data.col i).len = M.matrix.rows := hd
  obtain ⟨r, h1, h2, h3⟩ := residual_ok hb x
  unfold negTemporalCoherence
  rw [h1]
  have hwc : w.cols = M.matrix.rows := hw.2.trans hsq
  simp only [Bind.bind, Except.bind, h2, Weights1.spread, colSums, hwc, axisSize_self]
  simp only [pure, Except.pure]
  congr 3
  rw [sum_comm]
  refine sum_congr rfl fun j hj => ?_
  rw [axisIdx_lt (mem_range.mp hj), ← sum_mul, Complex.ofReal_sum]

/-- A search meeting the contract exists, and returns whenever a best point on the grid can be had. -/
theorem exists_brute : ∃ brute : Brute, BruteOk brute ∧ ∀ n f ranges,
    (∃ x v, f x = .ok v ∧ ∀ p, Grid ranges n p → ∃ v', f p = .ok v' ∧ v ≤ v') → ∃ r, brute n f ranges = .ok r := by
  classical
  refine ⟨fun n f ranges =>
    if h : ∃ r : (Fin n → ℝ) × ℝ, f r.1 = .ok r.2 ∧ ∀ p, Grid ranges n p → ∃ v', f p = .ok v' ∧ r.2 ≤ v' then .ok h.choose
    else .error .valueError, ?_, ?_⟩
  · intro n f ranges x v h
    simp only at h
    split at h
    · rename_i hex
      have := hex.choose_spec
      rw [Except.ok.inj h] at this
      exact this
    · cases h
  · rintro n f ranges ⟨x, v, h⟩
    exact ⟨_, dif_pos ⟨(x, v), h⟩⟩

/-! ### C59: what the search returns -/

/-- The weight of each observation, `1 / m` by default. -/
noncomputable def Spec.weightOr (m : Nat) : Option Weights1 → Nat → ℝ
  | none => fun _ => 1 / m
  | some w => weight w

theorem estimateModel_eq (brute : Brute) (M : LinkModel) (data : Arr1) (weights : Option Weights1) (hd : data.len = M.nobs)
    (hw : ∀ w, weights = some w → WeightsFit M.nobs w) (hn : 0 < M.nobs) :
    M.estimateModel brute data (asWeights weights) = (do
      let r ← brute M.matrix.cols (fun x => .ok (-tempCoh M.nobs (weightOr M.nobs weights) (misfit M.matrix x data))) M.ranges
      pure (r.1, -r.2)) := by
  have hv : ∀ w : Weights1, WeightsFit M.nobs w → negTemporalCoherence M.matrix data (.one w) =
      fun x => .ok (-tempCoh M.nobs (weight w) (misfit M.matrix x data)) := by
    intro w hw
    funext x
    exact C52_value M.matrix data w hd hw x
  have hd0 : M.defaultWeight = .ok (1 / (M.nobs : ℝ)) := if_neg hn.ne'
  match weights, hw with
  | none, _ =>
    simp only [asWeights, Option.map_none, LinkModel.estimateModel, hd0, Bind.bind, Except.bind, linkSolve]
    rw [hv (.scalar (1 / (M.nobs : ℝ))) trivial]
    rfl
  | some (.scalar w), _ =>
    simp only [asWeights, Option.map_some, LinkModel.estimateModel, linkSolve]
    rw [hv (.scalar w) trivial]
    rfl
  | some (.vec w), hw =>
    have hf := hw _ rfl
    simp only [asWeights, Option.map_some, LinkModel.estimateModel, linkSolve]
    rw [if_neg (by simp only [WeightsFit] at hf; simp [hf, hd]), hv _ hf]
    rfl

/-- C59. The coherence returned is that of the returned parameters, no grid point has a larger one,
and it is between 0 and 1 for non-negative weights that sum to 1. -/
theorem C59_best (brute : Brute) (hB : BruteOk brute) (M : LinkModel) (data : Arr1) (weights : Option Weights1)
    (hd : data.len = M.nobs) (hw : ∀ w, weights = some w → WeightsFit M.nobs w) (hn : 0 < M.nobs)
    (x : Fin M.matrix.cols → ℝ) (c : ℝ) (h : M.estimateModel brute data (asWeights weights) = .ok (x, c)) :
    c = tempCoh M.nobs (weightOr M.nobs weights) (misfit M.matrix x data) ∧
    (∀ p, Grid M.ranges M.matrix.cols p → tempCoh M.nobs (weightOr M.nobs weights) (misfit M.matrix p data) ≤ c) ∧
    ((∀ i < M.nobs, 0 ≤ weightOr M.nobs weights i) → ∑ i ∈ range M.nobs, weightOr M.nobs weights i = 1 → 0 ≤ c ∧ c ≤ 1) := by
  rw [estimateModel_eq brute M data weights hd hw hn] at h
  cases hb : brute M.matrix.cols (fun x => .ok (-tempCoh M.nobs (weightOr M.nobs weights) (misfit M.matrix x data))) M.ranges with
  | error e => rw [hb] at h; simp [Bind.bind, Except.bind] at h
  | ok r =>
    rw [hb] at h
    simp only [Bind.bind, Except.bind, pure, Except.pure, Except.ok.injEq, Prod.mk.injEq] at h
    obtain ⟨rfl, rfl⟩ := h
    obtain ⟨h1, h2⟩ := hB _ _ _ _ _ hb
    have hv : -r.2 = tempCoh M.nobs (weightOr M.nobs weights) (misfit M.matrix r.1 data) := by
      rw [← Except.ok.inj h1, neg_neg]
    refine ⟨hv, fun p hp => ?_, fun h0 hs => ?_⟩
    · obtain ⟨v', e1, e2⟩ := h2 p hp
      rw [← Except.ok.inj e1] at e2
      linarith
    · rw [hv]
      exact C52_range _ _ _ h0 hs

/-- C59. The default weights are positive and sum to 1. -/
theorem C59_default_weights (m : Nat) (hm : 0 < m) :
    (∀ i < m, 0 < weightOr m none i) ∧ ∑ i ∈ range m, weightOr m none i = 1 := by
  have : (0 : ℝ) < m := by exact_mod_cast hm
  refine ⟨fun i _ => by simp only [weightOr]; positivity, ?_⟩
  simp only [weightOr, sum_const, card_range, nsmul_eq_mul]
  field_simp

/-- C59. If some grid point fits the data up to whole cycles and a common constant, so do the
parameters returned, and the coherence returned is 1. -/
theorem C59_perfect (brute : Brute) (hB : BruteOk brute) (M : LinkModel) (data : Arr1) (weights : Option Weights1)
    (hd : data.len = M.nobs) (hw : ∀ w, weights = some w → WeightsFit M.nobs w) (hn : 0 < M.nobs)
    (hpos : ∀ i < M.nobs, 0 < weightOr M.nobs weights i) (hs : ∑ i ∈ range M.nobs, weightOr M.nobs weights i = 1)
    (x : Fin M.matrix.cols → ℝ) (c : ℝ) (h : M.estimateModel brute data (asWeights weights) = .ok (x, c))
    (p : Fin M.matrix.cols → ℝ) (hp : Grid M.ranges M.matrix.cols p) (hfit : SameUpToConstant M.nobs (misfit M.matrix p data) fun _ => 0) :
    c = 1 ∧ SameUpToConstant M.nobs (misfit M.matrix x data) fun _ => 0 := by
  obtain ⟨h1, h2, h3⟩ := C59_best brute hB M data weights hd hw hn x c h
  have hc : c = 1 := by
    refine le_antisymm (h3 (fun i hi => (hpos i hi).le) hs).2 ?_
    rw [← C52_perfect _ _ _ hs hfit]
    exact h2 p hp
  refine ⟨hc, C52_perfect_only _ _ _ hpos hs ?_⟩
  rw [← h1, hc]

/-- C59. A model needs one search range per column of its matrix, and keeps the matrix and ranges given. -/
theorem C59_model (matrix : Arr2) (ranges : List PySlice) :
    (ranges.length = matrix.cols → LinkModel.make matrix ranges = .ok { matrix := matrix, ranges := ranges }) ∧
    (ranges.length ≠ matrix.cols → LinkModel.make matrix ranges = .error .valueError) := by
  unfold LinkModel.make
  exact ⟨fun h => if_neg (by simp [h]), fun h => if_pos (Ne.symm h)⟩

/-- C59. The forward model is the matrix product, with one value per observation. -/
theorem C59_forward (M : LinkModel) (x : Fin M.matrix.cols → ℝ) (b : Arr1) (i : Nat) :
    (M.fwdModel x).len = M.matrix.rows ∧ (M.fwdModel x).at i - b.at i = misfit M.matrix x b i ∧
    (M.fwdModel x).at i = ∑ j : Fin M.matrix.cols, M.matrix.at i j * x j := by
  refine ⟨rfl, ?_, rfl⟩
  rfl

/-- Two observations of one parameter, searched at 0 only. -/
noncomputable def exampleModel : LinkModel := ⟨⟨2, 1, fun i _ => i + 1⟩, [⟨0, 1, 1⟩]⟩

theorem exampleModel_grid (p : Fin 1 → ℝ) : Grid exampleModel.ranges 1 p ↔ p = fun _ => 0 := by
  constructor
  · intro h
    funext j
    obtain ⟨r, hr, k, h1, h2⟩ := h j
    have hj : j = 0 := Subsingleton.elim _ _
    subst hj
    simp only [exampleModel, Fin.val_zero, List.getElem?_cons_zero, Option.some.injEq] at hr
    subst hr
    norm_num at h2
    rw [h1, h2]
    norm_num
  · rintro rfl j
    have hj : j = 0 := Subsingleton.elim _ _
    subst hj
    exact ⟨⟨0, 1, 1⟩, rfl, 0, by norm_num, by norm_num⟩

/-- Zero data are fitted with the sum of the weights. -/
theorem exampleModel_zero (brute : Brute) (hB : BruteOk brute)
    (hr : ∀ n f ranges, (∃ x v, f x = .ok v ∧ ∀ p, Grid ranges n p → ∃ v', f p = .ok v' ∧ v ≤ v') → ∃ r, brute n f ranges = .ok r)
    (w : Arr1) (hw : w.len = 2) (hw0 : ∀ i < 2, 0 ≤ w.at i) :
    ∃ x, exampleModel.estimateModel brute ⟨2, fun _ => 0⟩ (asWeights (some (.vec w))) = .ok (x, w.at 0 + w.at 1) := by
  have hfit : ∀ w', some (Weights1.vec w) = some w' → WeightsFit exampleModel.nobs w' := by
    rintro w' h
    cases h
    exact hw
  have heq := estimateModel_eq brute exampleModel ⟨2, fun _ => 0⟩ (some (.vec w)) rfl hfit (by norm_num [exampleModel, LinkModel.nobs])
  have h0 : tempCoh 2 w.at (misfit exampleModel.matrix (fun _ => 0) ⟨2, fun _ => 0⟩) = w.at 0 + w.at 1 := by
    have : ∀ i, misfit exampleModel.matrix (fun _ => 0) ⟨2, fun _ => 0⟩ i = 0 := by intro i; simp [misfit]
    unfold tempCoh
    simp only [this, Complex.ofReal_zero, zero_mul, Complex.exp_zero, mul_one]
    rw [← Complex.ofReal_sum, Complex.norm_real, Real.norm_eq_abs, sum_range_succ, sum_range_succ, sum_range_zero, zero_add,
      abs_of_nonneg (add_nonneg (hw0 0 (by norm_num)) (hw0 1 (by norm_num)))]
  obtain ⟨r, hr⟩ := hr exampleModel.matrix.cols (fun x => .ok (-tempCoh exampleModel.nobs (weightOr exampleModel.nobs (some (.vec w)))
    (misfit exampleModel.matrix x ⟨2, fun _ => 0⟩))) exampleModel.ranges ⟨fun _ => 0, _, rfl, fun p hp => ⟨_, rfl, by
      have : p = fun _ => 0 := (exampleModel_grid p).mp hp
      rw [this]⟩⟩
  rw [hr] at heq
  replace heq : exampleModel.estimateModel brute ⟨2, fun _ => 0⟩ (asWeights (some (.vec w))) = .ok (r.1, -r.2) := heq
  have hb := C59_best brute hB exampleModel ⟨2, fun _ => 0⟩ (some (.vec w)) rfl hfit (by norm_num [exampleModel, LinkModel.nobs]) _ _ heq
  refine ⟨r.1, ?_⟩
  rw [heq]
  have hle := hb.2.1 (fun _ => 0) ((exampleModel_grid _).mpr rfl)
  have hge := tempCoh_le 2 w.at (misfit exampleModel.matrix r.1 ⟨2, fun _ => 0⟩) hw0
  have hv := hb.1
  simp only [exampleModel, LinkModel.nobs, weightOr, weight] at hle hv
  simp only [exampleModel] at h0 hge
  rw [sum_range_succ, sum_range_succ, sum_range_zero, zero_add, ← hv] at hge
  rw [h0] at hle
  rw [show (-r.2 : ℝ) = w.at 0 + w.at 1 by linarith]

/-- Non-vacuity of C51 and C59: the example model returns, and fits zero data perfectly. -/
example : ∃ (brute : Brute) (x : Fin exampleModel.matrix.cols → ℝ), BruteOk brute ∧
    exampleModel.estimateModel brute ⟨2, fun _ => 0⟩ (asWeights (some (.vec ⟨2, fun _ => 1 / 2⟩))) = .ok (x, 1) := by
  obtain ⟨brute, hB, hr⟩ := exists_brute
  obtain ⟨x, hx⟩ := exampleModel_zero brute hB hr ⟨2, fun _ => 1 / 2⟩ rfl (by intro i _; norm_num)
  refine ⟨brute, x, hB, ?_⟩
  rw [hx]
  norm_num

/-- C51 is false: two links with zero phase, each with weights that sum to 1, get coherence 2 instead
of 1. -/
theorem C51_refuted : ∃ (brute : Brute) (M : LinkModel) (data w : Arr2), BruteOk brute ∧ data.rows = M.nobs ∧
    w.rows = data.rows ∧ w.cols = data.cols ∧
    (∀ i < data.cols, ∃ x, M.estimateModel brute (data.col i) (some (.one (.vec (w.col i)))) = .ok (x, 1)) ∧
    ∃ s, M.estimateModelMany brute 1 id data (some (.mat w)) (some 2) = .ok s ∧ ∀ i < data.cols, s.tcoh i = 2 := by
  obtain ⟨brute, hB, hr⟩ := exists_brute
  refine ⟨brute, exampleModel, ⟨2, 2, fun _ _ => 0⟩, ⟨2, 2, fun i j => if i = j then 1 else 0⟩, hB, rfl, rfl, rfl, ?_, ?_⟩
  · intro i hi
    obtain ⟨x, hx⟩ := exampleModel_zero brute hB hr ⟨2, fun k => if k = i then 1 else 0⟩ rfl (by intro k _; simp only; split <;> norm_num)
    refine ⟨x, ?_⟩
    have : ((if 0 = i then 1 else 0 : ℝ) + if 1 = i then 1 else 0) = 1 := by
      have : i = 0 ∨ i = 1 := by simp only at hi; omega
      rcases this with rfl | rfl <;> norm_num
    exact hx.trans (congrArg (fun c => Except.ok (x, c)) this)
  · rw [C51_weights_parallel_refuted brute exampleModel 1 id ⟨2, 2, fun _ _ => 0⟩ ⟨2, 2, fun i j => if i = j then 1 else 0⟩ 2 rfl
      ⟨rfl, rfl⟩ rfl le_rfl]
    obtain ⟨x, hx⟩ := exampleModel_zero brute hB hr (colSums ⟨2, 2, fun i j => if i = j then 1 else 0⟩) rfl (by
      intro k _; simp only [colSums]; exact sum_nonneg fun i _ => by split <;> norm_num)
    have hcol : (colSums ⟨2, 2, fun i j => if i = j then 1 else 0⟩).at 0 + (colSums ⟨2, 2, fun i j => if i = j then 1 else 0⟩).at 1 = 2 := by
      simp only [colSums, sum_range_succ, sum_range_zero]
      norm_num
    rw [hcol] at hx
    obtain ⟨s, h1, h2⟩ := (C51_columns_partial brute exampleModel 1 id ⟨2, 2, fun _ _ => 0⟩
      (some (.vec (colSums ⟨2, 2, fun i j => if i = j then 1 else 0⟩))) (some 2) (fun l => List.Perm.refl _) rfl (by
        rintro w h
        cases h
        rfl) (by norm_num [exampleModel, LinkModel.nobs])).1 (fun _ => (x, 2)) fun i _ => hx
    exact ⟨s, h1, fun i hi => (h2 i hi).2⟩

end Spurt
