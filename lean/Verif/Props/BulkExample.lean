import Verif.Lemmas.FloatBulkFile
import Verif.Lemmas.Labels
import Mathlib.Tactic.Linarith
import Mathlib.Tactic.NormNum
import Mathlib.Tactic.IntervalCases

/-! # Examples for C76 -/

namespace Spurt
open Spec

namespace Diamond

/-- Four tiles; tiles 2 and 3 overlap with tiles 0 and 1, and these with each other. -/
def olaps : List (Nat × Nat) := [(0, 1), (0, 2), (1, 2), (0, 3), (1, 3)]

/-- Only one of the five overlaps saw a cycle. -/
def off : List (List ℤ) := [[1], [0], [0], [0], [0]]

/-- The exact least-squares solution. -/
def sol : List (List ℚ) := [[0], [1 / 2], [1 / 4], [1 / 4]]

theorem sol_ls : LeastSquares (overlapMatrix olaps 4) (off.map fun row => row.map fun v => ((v : ℤ) : ℚ)) sol 4 1 := by
  refine ⟨rfl, fun k hk y hy => ?_⟩
  obtain rfl : k = 0 := by omega
  match y, hy with
  | [a, b, c, d], _ =>
    simp [lsError, col, overlapMatrix, olaps, off, sol]
    nlinarith [sq_nonneg (1 - (-a + b) - 1 / 2), sq_nonneg (-(-a + c) + 1 / 4), sq_nonneg (-(-b + c) - 1 / 4),
      sq_nonneg (-(-a + d) + 1 / 4), sq_nonneg (-(-b + d) - 1 / 4)]

theorem input : L2Input 4 1 olaps (off.map fun row => row.map fun v => ((v : ℤ) : ℚ)) [5, 9, 3, 2] := by
  refine ⟨by decide, ?_, rfl, by simp [off], rfl⟩
  intro t1 t2 h; simp [olaps] at h; omega

theorem inconsistent : ¬ ∃ c : Nat → ℤ, ∀ (k t1 t2 : Nat) row, olaps[k]? = some (t1, t2) → off[k]? = some row →
    row[0]? = some (c t2 - c t1) := by
  rintro ⟨c, hc⟩
  have h0 := hc 0 0 1 [1] rfl rfl
  have h1 := hc 1 0 2 [0] rfl rfl
  have h2 := hc 2 1 2 [0] rfl rfl
  simp at h0 h1 h2
  omega

/-- C76 on these tiles: both methods cannot agree with all overlaps; least squares reports 3/2, the integer method at most 1. -/
example : solveL2Min (fun _ _ => sol) olaps (off.map fun row => row.map fun v => ((v : ℤ) : ℚ)) 1 4 [5, 9, 3, 2] =
      .ok ([[-(1 / 2), 0, -(1 / 4), -(1 / 4)]], [3 / 2]) ∧
    ∃ (solver : MipSolver) (n : List ℤ) (val : ℤ), MipOptimal solver ∧
      solveIntOffsets solver olaps (labelsOf 4 olaps) (off.map fun row => row.getD 0 0) [5, 9, 3, 2] = .ok (n, val) ∧ val ≤ 1 := by
  have h : solveL2Min (fun _ _ => sol) olaps (off.map fun row => row.map fun v => ((v : ℤ) : ℚ)) 1 4 [5, 9, 3, 2] =
      .ok ([[-(1 / 2), 0, -(1 / 4), -(1 / 4)]], [3 / 2]) := by decide +kernel
  refine ⟨h, ?_⟩
  obtain ⟨solver, hopt, hcomp⟩ := exists_mip_solver
  have hint : IntOffsetInput 4 olaps (labelsOf 4 olaps) (off.map fun row => row.getD 0 0) [5, 9, 3, 2] :=
    ⟨by decide, by intro t1 t2 h; simp [olaps] at h; omega, labelsOf_labels _ _, rfl, by simp [off], rfl⟩
  obtain ⟨n, val, hn⟩ := C39_returns _ _ _ _ _ hint solver hcomp
  refine ⟨solver, n, val, hopt, hn, ?_⟩
  obtain ⟨v, v1, v2⟩ := C76_integer_le_l2 4 1 olaps _ off _ input (fun _ _ => sol) sol_ls _ _ h 0 (by omega) (by
    intro row hr v hv
    simp at hr
    subst hr
    simp at hv
    rcases hv with rfl | rfl | rfl <;> norm_num) hint solver hopt n val hn
  simp at v1
  subst v1
  have : (val : ℚ) < ((2 : ℤ) : ℚ) := lt_of_le_of_lt v2 (by norm_num)
  have := Int.cast_lt.mp this
  omega

/-- The second part of `C76_l2_residual` on these tiles. -/
example : ∃ v : ℚ, [(3 / 2 : ℚ)][0]? = some v ∧ 1 ≤ v :=
  (C76_l2_residual 4 1 olaps off _ input (fun _ _ => sol) sol_ls _ _
    (show _ = Except.ok ([[-(1 / 2), 0, -(1 / 4), -(1 / 4)]], [(3 / 2 : ℚ)]) by decide +kernel) 0 (by omega)).2 inconsistent

/-- A `lstsq` with an error of a millionth of a cycle: the residual in double precision is at least one half. -/
example : ∃ (x : List (List ℚ)) (v : ℚ),
    solveL2MinFl flDouble (fun _ _ => [[1 / 1000000], [1 / 2], [1 / 4], [1 / 4 - 1 / 1000000]]) olaps
      (off.map fun row => row.map fun v => ((v : ℤ) : ℚ)) 1 4 [5, 9, 3, 2] = .ok (x, [v]) ∧ 1 / 2 ≤ v := by
  have hls : LstsqNear (fun _ _ => [[1 / 1000000], [1 / 2], [1 / 4], [1 / 4 - 1 / 1000000]]) (overlapMatrix olaps 4)
      (off.map fun row => row.map fun v => ((v : ℤ) : ℚ)) 4 1 (1 / 100000) 100000 := by
    refine ⟨rfl, ⟨sol, sol_ls, ?_⟩, ?_⟩ <;>
    · intro t ht k hk
      obtain rfl : k = 0 := by omega
      interval_cases t <;> norm_num [sol, abs_le]
  obtain ⟨x, res, h1, h2⟩ := C76_numpy_residual 4 1 olaps off _ (by decide) (by decide) input (by simp [off]) _ hls
  obtain ⟨v, v1, v2⟩ := h2 0 (by omega)
  obtain ⟨x', res', h3, _, h4, _⟩ := C76_double_offsets flDouble (2 ^ 18) (2 ^ 18 / 2 ^ 53) _ _ (rounds_double 18) (by norm_num) 4 1
    olaps _ _ input _ hls
  rw [h1] at h3
  simp only [Except.ok.injEq, Prod.mk.injEq] at h3
  obtain ⟨rfl, rfl⟩ := h3
  refine ⟨x, v, ?_, not_lt.mp fun h => inconsistent (v2.mp h)⟩
  rw [h1]
  match res, h4, v1 with
  | [w], _, v1 => simp at v1; rw [v1]

/-- Consistent offsets: the least-squares method in double precision gives the cycles of the tiles to a millionth. -/
example : ∃ (x : List (List ℚ)) (res row : List ℚ) (v w : ℚ),
    solveL2MinFl flDouble (fun _ _ => [[1 / 10000000], [3], [1]]) [(0, 1), (1, 2)] [[3], [-2]] 1 3 [5, 9, 3] = .ok (x, res) ∧
    x[0]? = some row ∧ row[0]? = some v ∧ row[2]? = some w ∧ |v + 3| ≤ 1 / 1000000 ∧ |w + 2| ≤ 1 / 1000000 := by
  have hin : L2Input 3 1 [(0, 1), (1, 2)] [[(3 : ℚ)], [-2]] [5, 9, 3] := by
    refine ⟨by decide, ?_, rfl, by simp, rfl⟩
    intro t1 t2 h; simp at h; omega
  have hls : LstsqNear (fun _ _ => [[1 / 10000000], [3], [1]]) (overlapMatrix [(0, 1), (1, 2)] 3) [[(3 : ℚ)], [-2]] 3 1
      (1 / 10000000) 3 := by
    refine ⟨rfl, ⟨[[0], [3], [1]], ⟨rfl, fun k hk y hy => ?_⟩, ?_⟩, ?_⟩
    · obtain rfl : k = 0 := by omega
      match y, hy with
      | [a, b, c], _ =>
        simp [lsError, col, overlapMatrix]
        nlinarith [sq_nonneg (3 - (-a + b)), sq_nonneg (-2 - (-b + c))]
    all_goals
      intro t ht k hk
      obtain rfl : k = 0 := by omega
      interval_cases t <;> norm_num
  obtain ⟨x, res, h1, _, _, h2⟩ := C76_double_offsets flDouble (2 ^ 4) (2 ^ 4 / 2 ^ 53) _ _ (rounds_double 4) (by norm_num) 3 1
    _ _ _ hin _ hls
  obtain ⟨row, r1, _, r2⟩ := h2 0 (by omega)
  obtain ⟨_, r3⟩ := r2 1 ⟨by decide, by
    intro j hj
    have : j < 3 := hj
    interval_cases j <;> simp⟩
  have hc : ∀ (k t1 t2 : Nat) o, [((0 : Nat), (1 : Nat)), (1, 2)][k]? = some (t1, t2) → [[(3 : ℚ)], [-2]][k]? = some o →
      o[0]? = some ((fun t => [(0 : ℚ), 3, 1].getD t 0) t2 - (fun t => [(0 : ℚ), 3, 1].getD t 0) t1) := by
    intro k t1 t2 row h1 h2
    rcases k with _ | _ | k
    · simp at h1 h2; obtain ⟨rfl, rfl⟩ := h1; subst h2; norm_num
    · simp at h1 h2; obtain ⟨rfl, rfl⟩ := h1; subst h2; norm_num
    · simp at h1
  obtain ⟨v, v1, v2⟩ := r3 _ hc 0 (by omega) (.single (by simp [Adjacent]))
  obtain ⟨w, w1, w2⟩ := r3 _ hc 2 (by omega) (.single (by simp [Adjacent]))
  refine ⟨x, res, row, v, w, h1, r1, v1, w1, ?_, ?_⟩
  · refine le_trans (le_of_eq ?_) (v2.trans (by norm_num))
    congr 1
    norm_num
  · refine le_trans (le_of_eq ?_) (w2.trans (by norm_num))
    congr 1
    norm_num

end Diamond
end Spurt
