import Verif.Model.LeastSquares
import Verif.Props.DirichletDense
import Mathlib.LinearAlgebra.Matrix.Rank
import Mathlib.Tactic.LinearCombination
import Mathlib.Tactic.IntervalCases
import Mathlib.Tactic.FieldSimp

/-!
# Property C65: `l2_min` and `l2_min_cg` return least-squares solutions
-/

namespace Spurt

section
variable {K : Type} [Field K] [LinearOrder K] [IsStrictOrderedRing K]

/-- Row `i` of `A x - b`. -/
def Spec.rowMisfit (a : RectMat K) (b x : Nat → K) (i : Nat) : K :=
  ∑ j ∈ Finset.range a.cols, a.val i j * x j - b i

/-- The vector `x` minimises the sum of squares of `A x - b`. -/
def Spec.LeastMisfit (a : RectMat K) (b x : Nat → K) : Prop :=
  ∀ y : Nat → K, ∑ i ∈ Finset.range a.rows, Spec.rowMisfit a b x i ^ 2 ≤ ∑ i ∈ Finset.range a.rows, Spec.rowMisfit a b y i ^ 2

/-- A list as a vector. -/
def Spec.vec (x : List K) (i : Nat) : K := x.getD i 0

/-- A symmetric, positive definite matrix. -/
def Spec.PosDef (a : RectMat K) : Prop :=
  a.rows = a.cols ∧ (∀ i < a.rows, ∀ j < a.rows, a.val i j = a.val j i) ∧
  ∀ y : Nat → K, (∃ i < a.rows, y i ≠ 0) →
    0 < ∑ i ∈ Finset.range a.rows, ∑ j ∈ Finset.range a.rows, y i * a.val i j * y j

/-- A symmetric matrix. -/
def Spec.Symm (a : RectMat K) : Prop := a.rows = a.cols ∧ ∀ i < a.rows, ∀ j < a.rows, a.val i j = a.val j i

/-- The solver answers with one value per unknown. -/
def Spec.SizedSolver (lin : LinSolver K) : Prop := ∀ m b, (lin.cg m b).length = m.n

open Spec

omit [LinearOrder K] [IsStrictOrderedRing K] in
theorem sum_list_range (n : Nat) (f : Nat → K) : ((List.range n).map f).sum = ∑ j ∈ Finset.range n, f j := by
  have := sum_filter_range n (fun _ => true) f
  simpa using this

omit [LinearOrder K] [IsStrictOrderedRing K] in
theorem rect_dot_getD (a : RectMat K) (x : List K) {i : Nat} (hi : i < a.rows) :
    (a.dot x).getD i 0 = ∑ j ∈ Finset.range a.cols, a.val i j * vec x j := by
  unfold RectMat.dot
  rw [getD_map_lt _ _ (by simpa using hi), sum_list_range]
  simp [vec]

/-- Solutions of the normal equations are exactly the minimisers. -/
theorem leastSquares_of_normal (a : RectMat K) (b x : Nat → K)
    (h : ∀ j < a.cols, ∑ i ∈ Finset.range a.rows, a.val i j * rowMisfit a b x i = 0) : LeastMisfit a b x := by
  intro y
  have hmis : ∀ i, rowMisfit a b y i = rowMisfit a b x i + ∑ j ∈ Finset.range a.cols, a.val i j * (y j - x j) := by
    intro i
    unfold rowMisfit
    simp only [mul_sub, Finset.sum_sub_distrib]
    ring
  have hz : ∑ i ∈ Finset.range a.rows, rowMisfit a b x i * (∑ j ∈ Finset.range a.cols, a.val i j * (y j - x j)) = 0 := by
    simp only [Finset.mul_sum]
    rw [Finset.sum_comm]
    apply Finset.sum_eq_zero
    intro j hj
    have := h j (Finset.mem_range.mp hj)
    calc _ = (y j - x j) * ∑ i ∈ Finset.range a.rows, a.val i j * rowMisfit a b x i := by
            rw [Finset.mul_sum]
            exact Finset.sum_congr rfl fun i _ => by ring
      _ = 0 := by rw [this, mul_zero]
  have hexp : ∑ i ∈ Finset.range a.rows, rowMisfit a b y i ^ 2 = ∑ i ∈ Finset.range a.rows, rowMisfit a b x i ^ 2 +
      ∑ i ∈ Finset.range a.rows, (∑ j ∈ Finset.range a.cols, a.val i j * (y j - x j)) ^ 2 := by
    calc _ = ∑ i ∈ Finset.range a.rows, (rowMisfit a b x i ^ 2 + (∑ j ∈ Finset.range a.cols, a.val i j * (y j - x j)) ^ 2 +
              2 * (rowMisfit a b x i * (∑ j ∈ Finset.range a.cols, a.val i j * (y j - x j)))) :=
            Finset.sum_congr rfl fun i _ => by rw [hmis]; ring
      _ = _ := by rw [Finset.sum_add_distrib, Finset.sum_add_distrib, ← Finset.mul_sum, hz]; ring
  rw [hexp]
  have : 0 ≤ ∑ i ∈ Finset.range a.rows, (∑ j ∈ Finset.range a.cols, a.val i j * (y j - x j)) ^ 2 :=
    Finset.sum_nonneg fun i _ => sq_nonneg _
  linarith

omit [IsStrictOrderedRing K] in
/-- The residual of a minimiser is orthogonal to the columns of the matrix. -/
theorem normal_of_leastSquares [IsStrictOrderedRing K] (a : RectMat K) (b x : Nat → K) (h : LeastMisfit a b x) :
    ∀ j < a.cols, ∑ i ∈ Finset.range a.rows, a.val i j * rowMisfit a b x i = 0 := by
  intro j hj
  set s := ∑ i ∈ Finset.range a.rows, a.val i j * rowMisfit a b x i with hs
  set q := ∑ i ∈ Finset.range a.rows, a.val i j ^ 2 with hq
  have hstep : ∀ t : K, 0 ≤ 2 * t * s + t ^ 2 * q := by
    intro t
    have := h (fun k => x k + if k = j then t else 0)
    have hm : ∀ i, rowMisfit a b (fun k => x k + if k = j then t else 0) i = rowMisfit a b x i + a.val i j * t := by
      intro i
      unfold rowMisfit
      simp only [mul_add, Finset.sum_add_distrib, mul_ite, mul_zero, Finset.sum_ite_eq', Finset.mem_range, hj, if_true]
      ring
    have hexp : ∑ i ∈ Finset.range a.rows, rowMisfit a b (fun k => x k + if k = j then t else 0) i ^ 2 =
        ∑ i ∈ Finset.range a.rows, rowMisfit a b x i ^ 2 + (2 * t * s + t ^ 2 * q) := by
      rw [hs, hq, Finset.mul_sum, Finset.mul_sum, ← Finset.sum_add_distrib, ← Finset.sum_add_distrib]
      exact Finset.sum_congr rfl fun i _ => by rw [hm]; ring
    rw [hexp] at this
    linarith
  have hq0 : 0 ≤ q := Finset.sum_nonneg fun i _ => sq_nonneg _
  have h1 := hstep (-s / (q + 1))
  have hq1 : (0 : K) < q + 1 := by linarith
  have h2 : 2 * (-s / (q + 1)) * s + (-s / (q + 1)) ^ 2 * q = - (s ^ 2 * (q + 2)) / (q + 1) ^ 2 := by
    field_simp
    ring
  rw [h2] at h1
  have h3 : 0 ≤ -(s ^ 2 * (q + 2)) := by
    by_contra hc
    push Not at hc
    exact absurd h1 (not_le.mpr (div_neg_of_neg_of_pos hc (by positivity)))
  have h4 : s ^ 2 = 0 := by nlinarith [sq_nonneg s]
  exact pow_eq_zero_iff (by norm_num) |>.mp h4

/-- Two minimisers have the same rowMisfit. -/
theorem misfit_unique (a : RectMat K) (b x y : Nat → K) (hx : LeastMisfit a b x) (hy : LeastMisfit a b y) :
    ∀ i < a.rows, rowMisfit a b x i = rowMisfit a b y i := by
  have hn := normal_of_leastSquares a b x hx
  have hn' := normal_of_leastSquares a b y hy
  have hmis : ∀ i, rowMisfit a b y i - rowMisfit a b x i = ∑ j ∈ Finset.range a.cols, a.val i j * (y j - x j) := by
    intro i
    unfold rowMisfit
    simp only [mul_sub, Finset.sum_sub_distrib]
    ring
  have hz : ∑ i ∈ Finset.range a.rows, (rowMisfit a b y i - rowMisfit a b x i) ^ 2 = 0 := by
    have hcol : ∀ w : Nat → K, (∀ j < a.cols, ∑ i ∈ Finset.range a.rows, a.val i j * w i = 0) →
        ∑ i ∈ Finset.range a.rows, w i * (∑ j ∈ Finset.range a.cols, a.val i j * (y j - x j)) = 0 := by
      intro w hw
      simp only [Finset.mul_sum]
      rw [Finset.sum_comm]
      apply Finset.sum_eq_zero
      intro j hj
      calc _ = (y j - x j) * ∑ i ∈ Finset.range a.rows, a.val i j * w i := by
              rw [Finset.mul_sum]
              exact Finset.sum_congr rfl fun i _ => by ring
        _ = 0 := by rw [hw j (Finset.mem_range.mp hj), mul_zero]
    have e1 := hcol _ hn
    have e2 := hcol _ hn'
    calc _ = ∑ i ∈ Finset.range a.rows, (rowMisfit a b y i * (∑ j ∈ Finset.range a.cols, a.val i j * (y j - x j)) -
              rowMisfit a b x i * (∑ j ∈ Finset.range a.cols, a.val i j * (y j - x j))) :=
            Finset.sum_congr rfl fun i _ => by rw [← hmis]; ring
      _ = 0 := by rw [Finset.sum_sub_distrib, e1, e2, sub_zero]
  intro i hi
  have := (Finset.sum_eq_zero_iff_of_nonneg (fun i _ => sq_nonneg _)).mp hz i (Finset.mem_range.mpr hi)
  have := pow_eq_zero_iff (two_ne_zero) |>.mp this
  linear_combination -this

omit [LinearOrder K] [IsStrictOrderedRing K] in
theorem sqmat_dot_eq_iff (m : SqMat K) (x b : List K) : m.dot x = b ↔
    b.length = m.n ∧ ∀ i < m.n, ∑ j ∈ Finset.range m.n, m.val i j * vec x j = vec b i := by
  constructor
  · rintro rfl
    refine ⟨by simp [SqMat.dot], fun i hi => ?_⟩
    unfold vec SqMat.dot
    rw [getD_map_lt _ _ (by simpa using hi), sum_list_range]
    simp
  · rintro ⟨h1, h2⟩
    apply List.ext_getElem (by simp [SqMat.dot, h1])
    intro k hk hk'
    have := h2 k (by omega)
    rw [vec, List.getD_eq_getElem _ _ hk'] at this
    rw [← this]
    simp [SqMat.dot, sum_list_range, vec]

/-- The normal equations can always be solved. -/
theorem normal_solvable (a : RectMat K) (b : List K) :
    ∃ x : List K, x.length = a.gram.n ∧ a.gram.dot x = a.transpose.dot b := by
  let A : Matrix (Fin a.rows) (Fin a.cols) K := fun i j => a.val i j
  have hle : LinearMap.range (A.transpose * A).mulVecLin ≤ LinearMap.range A.transpose.mulVecLin := by
    rw [Matrix.mulVecLin_mul]
    exact LinearMap.range_comp_le_range _ _
  have hrank : (A.transpose * A).rank = A.transpose.rank := by
    rw [Matrix.rank_transpose_mul_self, Matrix.rank_transpose]
  have heq := Submodule.eq_of_le_of_finrank_eq hle hrank
  have hmem : A.transpose.mulVec (fun i => vec b i) ∈ LinearMap.range (A.transpose * A).mulVecLin := by
    rw [heq]
    exact ⟨_, rfl⟩
  obtain ⟨v, hv⟩ := hmem
  refine ⟨List.ofFn v, by simp [RectMat.gram], ?_⟩
  rw [sqmat_dot_eq_iff]
  refine ⟨by simp [RectMat.dot, RectMat.transpose, RectMat.gram], ?_⟩
  intro j hj
  have hj' : j < a.cols := hj
  have h1 := congrFun hv ⟨j, hj'⟩
  rw [Matrix.mulVecLin_apply] at h1
  unfold vec
  rw [rect_dot_getD (a.transpose) b (by exact hj)]
  have e1 : ((A.transpose * A).mulVec v) ⟨j, hj'⟩ = ∑ k ∈ Finset.range a.cols, a.gram.val j k * (List.ofFn v).getD k 0 := by
    rw [Finset.sum_range]
    unfold Matrix.mulVec dotProduct
    apply Finset.sum_congr rfl
    intro k _
    have : (A.transpose * A) ⟨j, hj'⟩ k = a.gram.val j k := by
      rw [Matrix.mul_apply]
      unfold RectMat.gram
      simp only [sum_list_range]
      rw [Finset.sum_range]
      rfl
    simp only
    rw [show (A.transpose * A) ⟨j, hj'⟩ k = a.gram.val j k from this]
    simp [List.getD_eq_getElem?_getD]
  have e2 : (A.transpose.mulVec fun i => vec b i) ⟨j, hj'⟩ =
      ∑ k ∈ Finset.range a.transpose.cols, a.transpose.val j k * vec b k := by
    show _ = ∑ k ∈ Finset.range a.rows, _
    rw [Finset.sum_range]
    rfl
  exact (e1.symm.trans h1).trans e2

omit [IsStrictOrderedRing K] in
theorem symmetric_iff (a : RectMat K) : a.symmetric = true ↔ Symm a := by
  unfold RectMat.symmetric Symm
  simp

/-- The residual reported for `x`. -/
theorem residual_getD (a : RectMat K) (b x : List K) (hb : a.rows = b.length) :
    (List.zipWith (· - ·) b (a.dot x)).length = a.rows ∧
    ∀ i < a.rows, vec (List.zipWith (· - ·) b (a.dot x)) i = - rowMisfit a (vec b) (vec x) i := by
  have hl : (a.dot x).length = a.rows := by simp [RectMat.dot]
  refine ⟨by simp [hl, ← hb], fun i hi => ?_⟩
  show (List.zipWith (· - ·) b (a.dot x)).getD i 0 = _
  rw [List.getD_eq_getElem _ _ (by simp [hl]; omega), List.getElem_zipWith]
  have := rect_dot_getD a x hi
  rw [List.getD_eq_getElem _ _ (by omega)] at this
  rw [this]
  have hbi : vec b i = b[i] := List.getD_eq_getElem b _ (by omega)
  unfold rowMisfit
  rw [hbi]
  ring

/-- A zero right-hand side is fitted by zero. -/
theorem zero_leastSquares (a : RectMat K) (b x : Nat → K) (hb : ∀ i < a.rows, b i = 0)
    (hx : ∀ j < a.cols, x j = 0) : LeastMisfit a b x ∧ ∀ i < a.rows, rowMisfit a b x i = 0 := by
  have h0 : ∀ i < a.rows, rowMisfit a b x i = 0 := by
    intro i hi
    unfold rowMisfit
    rw [hb i hi, sub_zero]
    exact Finset.sum_eq_zero fun j hj => by rw [hx j (Finset.mem_range.mp hj), mul_zero]
  refine ⟨fun y => ?_, h0⟩
  rw [Finset.sum_eq_zero fun i hi => by rw [h0 i (Finset.mem_range.mp hi), zero_pow two_ne_zero]]
  exact Finset.sum_nonneg fun i _ => sq_nonneg _

/-- Nothing to choose. -/
theorem empty_leastSquares (a : RectMat K) (b x : Nat → K) (h : a.rows * a.cols = 0) : LeastMisfit a b x := by
  apply leastSquares_of_normal
  intro j hj
  rcases Nat.mul_eq_zero.mp h with h0 | h0
  · rw [h0]; simp
  · omega

omit [LinearOrder K] [IsStrictOrderedRing K] in
theorem vec_replicate (n i : Nat) : vec (List.replicate n (0 : K)) i = 0 := by
  unfold vec
  rw [List.getD_eq_getElem?_getD, List.getElem?_replicate]
  split <;> rfl

theorem posDef_solvable (a : RectMat K) (h : PosDef a) (b : List K) (hb : b.length = a.rows) :
    ∃ x : List K, x.length = a.rows ∧ (⟨a.rows, a.val⟩ : SqMat K).dot x = b := by
  apply solvable_of_injective ⟨a.rows, a.val⟩ _ b hb
  intro x hx h0 k hk
  by_contra hne
  have hpos := h.2.2 (vec x) ⟨k, hk, hne⟩
  rw [sqmat_dot_eq_iff] at h0
  have : ∑ i ∈ Finset.range a.rows, ∑ j ∈ Finset.range a.rows, vec x i * a.val i j * vec x j = 0 := by
    apply Finset.sum_eq_zero
    intro i hi
    have := h0.2 i (Finset.mem_range.mp hi)
    rw [vec_replicate] at this
    calc _ = vec x i * ∑ j ∈ Finset.range a.rows, a.val i j * vec x j := by
            rw [Finset.mul_sum]
            exact Finset.sum_congr rfl fun j _ => by ring
      _ = 0 := by rw [this, mul_zero]
  exact absurd this hpos.ne'

/-- C65 for `l2_min_cg`. With a solver which is exact on equations that have a solution, and for any
matrix which is not symmetric, or symmetric and positive definite as the documentation asks for, the
answer has one value per column and minimises the norm of `A x - b`; the residual is `b - A x`. -/
theorem C65_l2_min_cg (lin : LinSolver K) (hex : ExactSolver lin) (hsz : SizedSolver lin) (a : RectMat K) (b x r : List K)
    (log : Bool) (mi : Option Nat) (hpd : Symm a → PosDef a) (h : l2MinCgRect lin a b log mi = .ok (x, r)) :
    x.length = a.cols ∧ r.length = a.rows ∧ LeastMisfit a (vec b) (vec x) ∧
    (0 < a.cols → ∀ i < a.rows, vec r i = - rowMisfit a (vec b) (vec x) i) := by
  unfold l2MinCgRect at h
  by_cases h1 : a.rows = b.length
  · rw [if_neg (by simpa using h1)] at h
    by_cases h2 : a.rows * a.cols = 0
    · rw [if_pos h2] at h
      simp only [Except.ok.injEq, Prod.mk.injEq] at h
      obtain ⟨rfl, rfl⟩ := h
      refine ⟨by simp, by simp, empty_leastSquares a _ _ h2, fun hc i hi => ?_⟩
      rcases Nat.mul_eq_zero.mp h2 with h0 | h0 <;> omega
    · rw [if_neg h2] at h
      by_cases h3 : (b.all fun v => decide (v = 0)) = true
      · rw [if_pos h3] at h
        simp only [Except.ok.injEq, Prod.mk.injEq] at h
        obtain ⟨rfl, rfl⟩ := h
        have hb0 : ∀ i < a.rows, vec b i = 0 := by
          intro i hi
          unfold vec
          rw [List.getD_eq_getElem _ _ (by omega)]
          simpa using List.all_eq_true.mp h3 _ (List.getElem_mem (by omega))
        obtain ⟨z1, z2⟩ := zero_leastSquares a (vec b) (vec (List.replicate a.cols 0)) hb0 fun j _ => vec_replicate _ _
        refine ⟨by simp, by simp, z1, fun _ i hi => ?_⟩
        rw [z2 i hi, vec_replicate, neg_zero]
      · rw [if_neg h3] at h
        simp only at h
        by_cases hilu : lin.ilu (if a.symmetric then ⟨a.rows, a.val⟩ else a.gram) = true
        · rw [if_neg (by simpa using hilu)] at h
          by_cases hlog : (log && mi.isNone && a.symmetric) = true
          · rw [if_pos hlog] at h
            exact absurd h (by simp)
          · rw [if_neg hlog] at h
            simp only [Except.ok.injEq, Prod.mk.injEq] at h
            obtain ⟨rfl, rfl⟩ := h
            obtain ⟨r1, r2⟩ := residual_getD a b (lin.cg (if a.symmetric then ⟨a.rows, a.val⟩ else a.gram)
              (if a.symmetric then b else a.transpose.dot b)) h1
            refine ⟨?_, r1, ?_, fun _ => r2⟩
            · rw [hsz]
              split
              · rename_i hs
                exact ((symmetric_iff a).mp hs).1
              · rfl
            · apply leastSquares_of_normal
              by_cases hs : a.symmetric = true
              · rw [if_pos hs, if_pos hs]
                have hp := hpd ((symmetric_iff a).mp hs)
                have := hex ⟨a.rows, a.val⟩ b (posDef_solvable a hp b h1.symm)
                rw [sqmat_dot_eq_iff] at this
                intro j hj
                apply Finset.sum_eq_zero
                intro i hi
                have e := this.2 i (Finset.mem_range.mp hi)
                unfold rowMisfit
                rw [← hp.1, e, sub_self, mul_zero]
              · rw [if_neg hs, if_neg hs]
                have := hex _ _ (normal_solvable a b)
                rw [sqmat_dot_eq_iff] at this
                intro j hj
                have e := this.2 j hj
                unfold vec at e
                rw [rect_dot_getD _ _ (show j < a.transpose.rows from hj)] at e
                unfold rowMisfit
                simp only [mul_sub, Finset.sum_sub_distrib, Finset.mul_sum]
                rw [Finset.sum_comm, sub_eq_zero]
                refine Eq.trans ?_ e
                apply Finset.sum_congr rfl
                intro k _
                show _ = a.gram.val j k * _
                unfold RectMat.gram
                simp only [sum_list_range, Finset.sum_mul]
                exact Finset.sum_congr rfl fun i _ => by unfold vec; ring
        · rw [if_pos (by simpa using hilu)] at h
          exact absurd h (by simp)
  · rw [if_pos h1] at h
    exact absurd h (by simp)

/-- C65 for `l2_min`. When `lstsq` returns a minimiser, so does `l2_min`, the residual is `b - A x`. -/
theorem C65_l2_min (lstsq : RectMat K → List K → List K) (a : RectMat K) (b x r : List K)
    (hls : a.rows = b.length → (lstsq a b).length = a.cols ∧ LeastMisfit a (vec b) (vec (lstsq a b)))
    (h : l2MinVec lstsq a b = .ok (x, r)) :
    x.length = a.cols ∧ r.length = a.rows ∧ LeastMisfit a (vec b) (vec x) ∧
    (0 < a.cols → ∀ i < a.rows, vec r i = - rowMisfit a (vec b) (vec x) i) := by
  unfold l2MinVec at h
  by_cases h2 : a.rows * a.cols = 0
  · rw [if_pos h2] at h
    simp only [Except.ok.injEq, Prod.mk.injEq] at h
    obtain ⟨rfl, rfl⟩ := h
    refine ⟨by simp, by simp, empty_leastSquares a _ _ h2, fun hc i hi => ?_⟩
    rcases Nat.mul_eq_zero.mp h2 with h0 | h0 <;> omega
  · rw [if_neg h2] at h
    by_cases h1 : a.rows = b.length
    · rw [if_neg (by simpa using h1)] at h
      simp only [Except.ok.injEq, Prod.mk.injEq] at h
      obtain ⟨rfl, rfl⟩ := h
      obtain ⟨r1, r2⟩ := residual_getD a b (lstsq a b) h1
      exact ⟨(hls h1).1, r1, (hls h1).2, fun _ => r2⟩
    · rw [if_pos h1] at h
      exact absurd h (by simp)

/-- C65. Both functions report the same residual, and it is orthogonal to every column of the matrix. -/
theorem C65_same_residual (lstsq : RectMat K → List K → List K) (lin : LinSolver K) (hex : ExactSolver lin) (hsz : SizedSolver lin)
    (a : RectMat K) (b x r y s : List K) (log : Bool) (mi : Option Nat)
    (hls : a.rows = b.length → (lstsq a b).length = a.cols ∧ LeastMisfit a (vec b) (vec (lstsq a b)))
    (hpd : Symm a → PosDef a) (h : l2MinVec lstsq a b = .ok (x, r)) (h' : l2MinCgRect lin a b log mi = .ok (y, s)) :
    r = s ∧ ∀ j < a.cols, ∑ i ∈ Finset.range a.rows, a.val i j * vec r i = 0 := by
  obtain ⟨_, r1, r2, r3⟩ := C65_l2_min lstsq a b x r hls h
  obtain ⟨_, s1, s2, s3⟩ := C65_l2_min_cg lin hex hsz a b y s log mi hpd h'
  refine ⟨?_, fun j hj => ?_⟩
  · by_cases hc : 0 < a.cols
    · apply List.ext_getElem (by omega)
      intro i hi hi'
      have e1 := r3 hc i (by omega)
      have e2 := s3 hc i (by omega)
      rw [misfit_unique a _ _ _ r2 s2 i (by omega), ← e2] at e1
      unfold vec at e1
      rwa [List.getD_eq_getElem _ _ hi, List.getD_eq_getElem _ _ hi'] at e1
    · have h2 : a.rows * a.cols = 0 := by rw [Nat.eq_zero_of_not_pos hc, Nat.mul_zero]
      unfold l2MinVec at h
      unfold l2MinCgRect at h'
      rw [if_pos h2] at h
      split at h'
      · exact absurd h' (by simp)
      · simp only [Except.ok.injEq, Prod.mk.injEq] at h h'
        rw [← h.2, ← h'.2]
  · have := normal_of_leastSquares a _ _ r2 j hj
    have hn : ∑ i ∈ Finset.range a.rows, a.val i j * vec r i =
        - ∑ i ∈ Finset.range a.rows, a.val i j * rowMisfit a (vec b) (vec x) i := by
      rw [← Finset.sum_neg_distrib]
      exact Finset.sum_congr rfl fun i hi => by rw [r3 (by omega) i (Finset.mem_range.mp hi)]; ring
    rw [hn, this, neg_zero]

/-- C65. The functions return exactly for a right-hand side with one value per row (or an empty matrix, for
`l2_min`), as long as `spilu` can factor the matrix it is given and, for `l2_min_cg` with logging on a symmetric
matrix, there is an iteration limit. -/
theorem C65_returns (lstsq : RectMat K → List K → List K) (lin : LinSolver K) (hilu : ∀ m, lin.ilu m = true)
    (a : RectMat K) (b : List K) (log : Bool) (mi : Option Nat) :
    ((∃ y, l2MinVec lstsq a b = .ok y) ↔ b.length = a.rows ∨ a.rows = 0 ∨ a.cols = 0) ∧
    ((b.length = a.rows ∧ (log = false ∨ mi ≠ none ∨ ¬ Symm a)) → ∃ y, l2MinCgRect lin a b log mi = .ok y) := by
  constructor
  · unfold l2MinVec
    constructor
    · rintro ⟨y, h⟩
      split at h
      · rename_i h2
        exact Or.inr (Nat.mul_eq_zero.mp h2)
      · split at h
        · exact absurd h (by simp)
        · rename_i h1
          exact Or.inl (not_not.mp h1).symm
    · rintro h
      split
      · exact ⟨_, rfl⟩
      · rename_i h2
        rcases h with h | h
        · rw [if_neg (by simpa using h.symm)]
          exact ⟨_, rfl⟩
        · exact absurd (Nat.mul_eq_zero.mpr h) h2
  · rintro ⟨h1, h2⟩
    unfold l2MinCgRect
    rw [if_neg (by simpa using h1.symm)]
    split
    · exact ⟨_, rfl⟩
    · split
      · exact ⟨_, rfl⟩
      · simp only [hilu, not_true_eq_false, if_false]
        split
        · rename_i hc
          simp only [Bool.and_eq_true, Option.isNone_iff_eq_none] at hc
          rcases h2 with h2 | h2 | h2
          · simp [h2] at hc
          · exact absurd hc.1.2 h2
          · exact absurd ((symmetric_iff a).mp hc.2) h2
        · exact ⟨_, rfl⟩

/-- The square case used by `dirichlet` is the general function. -/
theorem l2MinCg_eq (lin : LinSolver K) (a : SqMat K) (b : List K) (log : Bool) (mi : Option Nat) :
    l2MinCg lin a b log mi = l2MinCgRect lin ⟨a.n, a.n, a.val⟩ b log mi := by
  unfold l2MinCg l2MinCgRect
  by_cases h0 : a.n = 0
  · simp [h0]
  · have : a.n * a.n ≠ 0 := by simp [h0]
    simp only [h0, this, if_false, RectMat.symmetric, decide_true, Bool.true_and]
    rfl

/-- Exact solvers with one value per unknown exist. -/
theorem exists_sized_solver : ∃ lin : LinSolver K, ExactSolver lin ∧ SizedSolver lin ∧ ∀ m, lin.ilu m = true := by
  classical
  refine ⟨⟨fun _ => true, fun m b => if h : ∃ x : List K, x.length = m.n ∧ m.dot x = b then h.choose
    else List.replicate m.n 0⟩, ?_, ?_, fun _ => rfl⟩
  · intro m b hb
    simp only [hb, dif_pos]
    exact hb.choose_spec.2
  · intro m b
    simp only
    split
    · rename_i h
      exact h.choose_spec.1
    · simp

/-- Minimisers exist, so the contract of `lstsq` can be met. -/
theorem exists_lstsq : ∃ lstsq : RectMat K → List K → List K, ∀ a b, (lstsq a b).length = a.cols ∧
    LeastMisfit a (vec b) (vec (lstsq a b)) := by
  classical
  refine ⟨fun a b => (normal_solvable a b).choose, fun a b => ?_⟩
  obtain ⟨h1, h2⟩ := (normal_solvable a b).choose_spec
  refine ⟨h1, leastSquares_of_normal _ _ _ ?_⟩
  rw [sqmat_dot_eq_iff] at h2
  intro j hj
  have e := h2.2 j hj
  unfold vec at e
  rw [rect_dot_getD _ _ (show j < a.transpose.rows from hj)] at e
  unfold rowMisfit
  simp only [mul_sub, Finset.sum_sub_distrib, Finset.mul_sum]
  rw [Finset.sum_comm, sub_eq_zero]
  refine Eq.trans ?_ e
  apply Finset.sum_congr rfl
  intro k _
  show _ = a.gram.val j k * _
  unfold RectMat.gram
  simp only [sum_list_range, Finset.sum_mul]
  exact Finset.sum_congr rfl fun i _ => by unfold vec; ring

/-- C65, limit. For a matrix without columns both functions report the residual zero, although the rowMisfit is
the right-hand side. -/
theorem C65_no_columns_refuted : ∃ (a : RectMat ℚ) (b : List ℚ), ∀ lstsq lin,
    l2MinVec lstsq a b = .ok ([], [0]) ∧ l2MinCgRect lin a b false none = .ok ([], [0]) ∧
    ∀ x, rowMisfit a (vec b) x 0 ≠ 0 := by
  refine ⟨⟨1, 0, fun _ _ => 0⟩, [1], fun lstsq lin => ⟨rfl, rfl, fun x => ?_⟩⟩
  simp [rowMisfit, vec]

/-- C65, limit. For a symmetric matrix which is not positive definite `l2_min_cg` can miss the least-squares
solution: it solves `A x = b`, which may have no solution, instead of the normal equations. -/
theorem C65_semidefinite_refuted : ∃ (lin : LinSolver ℚ) (a : RectMat ℚ) (b x r : List ℚ), ExactSolver lin ∧ SizedSolver lin ∧
    Symm a ∧ l2MinCgRect lin a b false none = .ok (x, r) ∧ ¬ LeastMisfit a (vec b) (vec x) := by
  classical
  have hno : ¬ ∃ x : List ℚ, x.length = 2 ∧ (⟨2, fun _ _ => 1⟩ : SqMat ℚ).dot x = [1, 0] := by
    rintro ⟨x, _, hx⟩
    rw [sqmat_dot_eq_iff] at hx
    have e0 := hx.2 0 (by simp)
    have e1 := hx.2 1 (by simp)
    simp only [vec, one_mul] at e0 e1
    rw [e0] at e1
    simp at e1
  refine ⟨⟨fun _ => true, fun m b => if h : ∃ x : List ℚ, x.length = m.n ∧ m.dot x = b then h.choose
    else List.replicate m.n 0⟩, ⟨2, 2, fun _ _ => 1⟩, [1, 0], [0, 0], [1, 0], ?_, ?_, ⟨rfl, fun _ _ _ _ => rfl⟩, ?_, ?_⟩
  · intro m b hb
    simp only [hb, dif_pos]
    exact hb.choose_spec.2
  · intro m b
    simp only
    split
    · rename_i h
      exact h.choose_spec.1
    · simp
  · have hs : (⟨2, 2, fun _ _ => 1⟩ : RectMat ℚ).symmetric = true := (symmetric_iff _).mpr ⟨rfl, fun _ _ _ _ => rfl⟩
    unfold l2MinCgRect
    simp only [hs, if_true, dif_neg hno]
    norm_num [RectMat.dot, List.range_succ]
    rfl
  · intro h
    have := h (fun _ => 1 / 4)
    norm_num [rowMisfit, vec, Finset.sum_range_succ] at this

/-- Fitting a line through the values 0, 1 and 5 at 0, 1 and 2: the matrix is not symmetric, and the equations
have no solution. -/
example : ∃ (lin : LinSolver ℚ) (lstsq : RectMat ℚ → List ℚ → List ℚ) (x r y : List ℚ), ExactSolver lin ∧ SizedSolver lin ∧
    ¬ Symm (⟨3, 2, fun i j => if j = 0 then 1 else (i : ℚ)⟩ : RectMat ℚ) ∧
    l2MinVec lstsq ⟨3, 2, fun i j => if j = 0 then 1 else (i : ℚ)⟩ [0, 1, 5] = .ok (x, r) ∧
    l2MinCgRect lin ⟨3, 2, fun i j => if j = 0 then 1 else (i : ℚ)⟩ [0, 1, 5] true none = .ok (y, r) ∧
    r ≠ [0, 0, 0] := by
  obtain ⟨lin, h1, h2, h3⟩ := exists_sized_solver (K := ℚ)
  obtain ⟨lstsq, h4⟩ := exists_lstsq (K := ℚ)
  set a : RectMat ℚ := ⟨3, 2, fun i j => if j = 0 then 1 else (i : ℚ)⟩ with ha
  have hns : ¬ Symm a := fun h => by simpa [ha] using h.1
  obtain ⟨⟨x, r⟩, hx⟩ := (C65_returns lstsq lin h3 a [0, 1, 5] true none).1.mpr (Or.inl rfl)
  obtain ⟨⟨y, s⟩, hy⟩ := (C65_returns lstsq lin h3 a [0, 1, 5] true none).2 ⟨rfl, Or.inr (Or.inr hns)⟩
  obtain ⟨hrs, _⟩ := C65_same_residual lstsq lin h1 h2 a _ x r y s true none (fun _ => h4 _ _) (fun h => absurd h hns) hx hy
  refine ⟨lin, lstsq, x, r, y, h1, h2, hns, hx, hrs ▸ hy, fun hc => ?_⟩
  obtain ⟨_, _, _, hr⟩ := C65_l2_min lstsq a _ x r (fun _ => h4 _ _) hx
  have e0 := hr (by simp [ha]) 0 (by simp [ha])
  have e1 := hr (by simp [ha]) 1 (by simp [ha])
  have e2 := hr (by simp [ha]) 2 (by simp [ha])
  rw [hc] at e0 e1 e2
  simp [rowMisfit, vec, ha, Finset.sum_range_succ] at e0 e1 e2
  linarith

/-- A symmetric, positive definite matrix. -/
example : PosDef (⟨2, 2, fun i j => if i = j then 2 else 1⟩ : RectMat ℚ) := by
  refine ⟨rfl, ?_, ?_⟩
  · intro i _ j _
    simp [eq_comm]
  · rintro y ⟨i, hi, hne⟩
    simp only [Finset.sum_range_succ, Finset.sum_range_zero, zero_add, if_true, zero_ne_one, one_ne_zero, if_false]
    have h : y 0 ≠ 0 ∨ y 1 ≠ 0 := by
      interval_cases i
      · exact Or.inl hne
      · exact Or.inr hne
    have : 0 < y 0 ^ 2 + y 1 ^ 2 := by
      rcases h with h | h
      · have := pow_pos (abs_pos.mpr h) 2; rw [sq_abs] at this; nlinarith [sq_nonneg (y 1)]
      · have := pow_pos (abs_pos.mpr h) 2; rw [sq_abs] at this; nlinarith [sq_nonneg (y 0)]
    nlinarith [sq_nonneg (y 0 + y 1)]

end

end Spurt
