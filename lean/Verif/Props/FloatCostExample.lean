import Verif.Props.FloatCost

/-! # C74: doubles satisfy the hypotheses; a tie of `centroid_costs` that doubles decide differently -/

namespace Spurt

open Spec

/-- C74. Correctly rounded IEEE doubles are arithmetic as required. -/
theorem C74_doubles : DoubleArith flDouble sqrtDouble := double_arith

/-- Four pixels, two triangles with the side between pixels 0 and 2 in common. -/
def tiePoints : List (ℤ × ℤ) := [(12, 0), (2, 1), (12, 2), (26, 1)]

theorem tie_mean1 : flDouble (26 / 3) = 4878899596318037 / 2 ^ 49 := by
  rw [flDouble_eval 3 (by norm_num) (by norm_num)]
  have : rint ((26 / 3 : ℚ) / (2 : ℚ) ^ ((3 : ℤ) - 52)) = 4878899596318037 :=
    rint_eq_of_lt (by norm_num) (by norm_num)
  rw [this]; norm_num

theorem tie_mean2 : flDouble (50 / 3) = 4691249611844267 / 2 ^ 48 := by
  rw [flDouble_eval 4 (by norm_num) (by norm_num)]
  have : rint ((50 / 3 : ℚ) / (2 : ℚ) ^ ((4 : ℤ) - 52)) = 4691249611844267 :=
    rint_eq_of_lt (by norm_num) (by norm_num)
  rw [this]; norm_num

theorem tie_one : flDouble (3 / 3) = 1 := by
  have := flDouble_natCast 1 (by norm_num)
  norm_num at this ⊢; exact this

theorem tie_square_value : flDouble ((-(4503599627370497 / 2 ^ 49)) * (-(4503599627370497 / 2 ^ 49))) = 4503599627370498 / 2 ^ 46 := by
  rw [flDouble_eval 6 (by norm_num) (by norm_num)]
  have : rint ((-(4503599627370497 / 2 ^ 49)) * (-(4503599627370497 / 2 ^ 49)) / (2 : ℚ) ^ ((6 : ℤ) - 52)) = 4503599627370498 :=
    rint_eq_of_lt (by norm_num) (by norm_num)
  rw [this]; norm_num

theorem tie_sqrt : sqrtDouble (4503599627370498 / 2 ^ 46) = 4503599627370497 / 2 ^ 49 := by
  have hs0 : (0 : ℝ) ≤ ((4503599627370498 / 2 ^ 46 : ℚ) : ℝ) := by positivity
  have hl : (8 : ℝ) ≤ √((4503599627370498 / 2 ^ 46 : ℚ) : ℝ) := by
    apply Real.le_sqrt_of_sq_le; norm_num
  have hu : √((4503599627370498 / 2 ^ 46 : ℚ) : ℝ) < 16 := by
    rw [Real.sqrt_lt' (by norm_num)]; norm_num
  have h1 : (9007199254740993 / 2 ^ 50 : ℝ) < √((4503599627370498 / 2 ^ 46 : ℚ) : ℝ) := by
    apply Real.lt_sqrt_of_sq_lt; norm_num
  have h2 : √((4503599627370498 / 2 ^ 46 : ℚ) : ℝ) < 9007199254740995 / 2 ^ 50 := by
    rw [Real.sqrt_lt' (by norm_num)]; norm_num
  unfold sqrtDouble
  simp only
  set s := √((4503599627370498 / 2 ^ 46 : ℚ) : ℝ)
  have hlog : Int.log 2 s = 3 := by
    have a1 := two_log_le_real (show 0 < s by linarith)
    have a2 := lt_two_log_real s
    have c1 : (2 : ℝ) ^ (Int.log 2 s) < 2 ^ (4 : ℤ) := by norm_num; linarith
    have c2 : (2 : ℝ) ^ (3 : ℤ) < 2 ^ (Int.log 2 s + 1) := by norm_num; linarith
    rw [zpow_lt_zpow_iff_right₀ (by norm_num)] at c1 c2
    omega
  rw [hlog]
  have : rint (s / (2 : ℝ) ^ ((3 : ℤ) - 52)) = 4503599627370497 := by
    apply rint_eq_of_lt
    · rw [lt_div_iff₀ (by positivity)]; norm_num at h1 ⊢; linarith
    · rw [div_lt_iff₀ (by positivity)]; norm_num at h2 ⊢; linarith
  rw [this]; norm_num

theorem tie_quotient : flDouble (100 / (4503599627370497 / 2 ^ 49)) = 7036874417766398 / 2 ^ 49 := by
  rw [flDouble_eval 3 (by norm_num) (by norm_num)]
  have : rint ((100 / (4503599627370497 / 2 ^ 49) : ℚ) / (2 : ℚ) ^ ((3 : ℤ) - 52)) = 7036874417766398 :=
    rint_eq_of_lt (by norm_num) (by norm_num)
  rw [this]; norm_num

/-- C74. In a tie of `centroid_costs` on triangles the rounding of the means can decide: pixels (12,0), (2,1), (12,2), (26,1), the
two triangles with side (12,0)-(12,2), default scale. The means are 8 apart and `1 + 100/8 = 13.5` should round to the even 14, but
doubles give 13. -/
theorem C74_centroid_tie_refuted :
    centroidCosts (realPoints tiePoints) [[0, 1, 2], [0, 2, 3]] [⟨1, 2, 1, -1⟩] 100 = .ok [14] ∧
    centroidCostsFl flDouble sqrtDouble (ratPoints tiePoints) [[0, 1, 2], [0, 2, 3]] [⟨1, 2, 1, -1⟩] 100 = .ok [13] := by
  constructor
  · have hd : planeDist (26 / 3, 1) (50 / 3, 1) = 8 := by
      unfold planeDist
      simp only
      rw [show ((26 : ℝ) / 3 - 50 / 3) ^ 2 + (1 - 1) ^ 2 = 8 ^ 2 by norm_num, Real.sqrt_sq (by norm_num)]
    have hr : rint ((1 : ℝ) + 100 / 8) = 14 := by
      have := rint_tie (K := ℝ) 13
      norm_num at this ⊢; exact this
    have e1 : centroid (realPoints tiePoints) [0, 1, 2] = (26 / 3, 1) := by
      simp [centroid, realPoints, tiePoints]; norm_num
    have e2 : centroid (realPoints tiePoints) [0, 2, 3] = (50 / 3, 1) := by
      simp [centroid, realPoints, tiePoints]; norm_num
    simp only [centroidCosts, List.mapM_cons, List.mapM_nil, List.map_cons, List.map_nil, e1, e2, pointAt, linkCost, Bind.bind, Except.bind,
      pure, Except.pure]
    simp [hd, hr]
  · have i : ∀ n : ℕ, n ≤ 100 → flDouble (n : ℚ) = n := fun n hn => flDouble_natCast n (hn.trans (by norm_num))
    have i0 := i 0 (by norm_num); have i1 := i 1 (by norm_num); have i2 := i 2 (by norm_num); have i3 := i 3 (by norm_num)
    have i12 := i 12 (by norm_num); have i14 := i 14 (by norm_num); have i24 := i 24 (by norm_num); have i26 := i 26 (by norm_num)
    have i50 := i 50 (by norm_num)
    norm_num at i0 i1 i2 i3 i12 i14 i24 i26 i50
    have e1 : centroidFl flDouble (ratPoints tiePoints) [0, 1, 2] = (flDouble (26 / 3), flDouble (3 / 3)) := by
      rw [centroidFl_eq C74_doubles (B := 26) (by norm_num) (by decide) (by norm_num)]
      simp [cycleSum, tiePoints]
    have e2 : centroidFl flDouble (ratPoints tiePoints) [0, 2, 3] = (flDouble (50 / 3), flDouble (3 / 3)) := by
      rw [centroidFl_eq C74_doubles (B := 26) (by norm_num) (by decide) (by norm_num)]
      simp [cycleSum, tiePoints]
    have hd : planeDistFl flDouble sqrtDouble (flDouble (26 / 3), flDouble (3 / 3)) (flDouble (50 / 3), flDouble (3 / 3)) =
        4503599627370497 / 2 ^ 49 := by
      unfold planeDistFl
      simp only
      have f1 : flDouble (4878899596318037 / 2 ^ 49 - 4691249611844267 / 2 ^ 48) = -(4503599627370497 / 2 ^ 49) :=
        (flDouble_grid (-4503599627370497) (-49) (by norm_num) (by norm_num)).trans (by norm_num)
      have f2 : flDouble (4503599627370498 / 2 ^ 46) = 4503599627370498 / 2 ^ 46 :=
        flDouble_grid 4503599627370498 (-46) (by norm_num) (by norm_num)
      rw [tie_mean1, tie_mean2, f1, sub_self, flDouble_zero, mul_zero, flDouble_zero, add_zero, tie_square_value, f2, tie_sqrt]
    have hy : flDouble (1 + 7036874417766398 / 2 ^ 49) = 7599824371187710 / 2 ^ 49 :=
      (flDouble_grid 7599824371187710 (-49) (by norm_num) (by norm_num)).trans (by norm_num)
    have hr : rint (7599824371187710 / 2 ^ 49 : ℚ) = 13 := rint_eq_of_lt (by norm_num) (by norm_num)
    have hl : linkCostFl flDouble 100 (4503599627370497 / 2 ^ 49) = .ok 13 := by
      unfold linkCostFl
      rw [if_neg (by norm_num), tie_quotient, hy, hr]
    simp only [centroidCostsFl, List.mapM_cons, List.mapM_nil, List.map_cons, List.map_nil, e1, e2, pointAtFl, Bind.bind, Except.bind,
      pure, Except.pure]
    simp only [show ((2 : ℕ) = 0) = False by simp, if_false, List.getElem?_cons_zero, Nat.sub_self, Nat.reduceSub, List.getElem?_cons_succ, hd, hl]

/-- The hypotheses of `C74_centroid` hold for these pixels: the cost is within a half of 13.5. -/
example : ∃ cost, centroidCostsFl flDouble sqrtDouble (ratPoints tiePoints) [[0, 1, 2], [0, 2, 3]] [⟨1, 2, 1, -1⟩] (100 : ℕ) = .ok cost ∧
    cost.length = 1 := by
  obtain ⟨cost, h1, h2, -⟩ := C74_centroid C74_doubles tiePoints (by decide) [[0, 1, 2], [0, 2, 3]] (by decide) [⟨1, 2, 1, -1⟩] 100
    (by norm_num) (by norm_num) [14] (by exact_mod_cast C74_centroid_tie_refuted.1)
  exact ⟨cost, h1, h2⟩

/-- The distances of these pixels cost in doubles what they cost in exact arithmetic, and a 2 × 3 grid of pixels has the exact
centroid costs. -/
example : distanceCostsFl flDouble sqrtDouble (ratPoints tiePoints) [(0, 1), (0, 2), (0, 3), (1, 2), (2, 3)] (100 : ℕ) =
      distanceCosts (realPoints tiePoints) [(0, 1), (0, 2), (0, 3), (1, 2), (2, 3)] (100 : ℕ) ∧
    centroidCostsFl flDouble sqrtDouble (ratPoints [(0, 0), (0, 1), (0, 2), (1, 0), (1, 1), (1, 2)]) [[0, 1, 4, 3], [1, 2, 5, 4]]
        [⟨1, 2, 1, -1⟩, ⟨1, 0, 1, 0⟩] (100 : ℕ) =
      centroidCosts (realPoints [(0, 0), (0, 1), (0, 2), (1, 0), (1, 1), (1, 2)]) [[0, 1, 4, 3], [1, 2, 5, 4]]
        [⟨1, 2, 1, -1⟩, ⟨1, 0, 1, 0⟩] (100 : ℕ) :=
  ⟨C74_distance C74_doubles _ (by decide) _ 100 (by norm_num) (by norm_num),
   C74_centroid_grid C74_doubles _ (by decide) _ (by decide) _ 100 (by norm_num) (by norm_num)⟩

end Spurt
