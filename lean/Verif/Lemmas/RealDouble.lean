import Verif.Model.FloatCost
import Verif.Spec.FloatCost
import Verif.Lemmas.FloatGrid
import Verif.Lemmas.Double
import Mathlib.Data.Rat.Floor
import Mathlib.Tactic.Linarith

/-! # `flDouble` and `sqrtDouble` are double-precision arithmetic -/

namespace Spurt

theorem rint_ratCast (q : ℚ) : rint ((q : ℚ) : ℝ) = rint q := by
  have h := rint_cases q
  unfold rint
  simp only [Rat.floor_cast]
  have e : ((q : ℝ) - ((⌊q⌋ : ℤ) : ℝ)) = ((q - (⌊q⌋ : ℚ) : ℚ) : ℝ) := by push_cast; ring
  have e2 : (1 / 2 : ℝ) = ((1 / 2 : ℚ) : ℝ) := by push_cast; ring
  simp only [e, e2, Rat.cast_lt]

theorem two_log_le_real {x : ℝ} (h : 0 < x) : (2 : ℝ) ^ (Int.log 2 x) ≤ x := by
  have := Int.zpow_log_le_self (b := 2) (by norm_num) h
  simpa using this

theorem lt_two_log_real (x : ℝ) : x < (2 : ℝ) ^ (Int.log 2 x + 1) := by
  have := Int.lt_zpow_succ_log_self (b := 2) (by norm_num) x
  simpa using this

theorem log_ratCast {q : ℚ} (h : 0 < q) : Int.log 2 ((q : ℚ) : ℝ) = Int.log 2 q := by
  have hr : (0 : ℝ) < (q : ℝ) := by exact_mod_cast h
  have a1 := two_log_le h
  have a2 := lt_two_log q
  have b1 := two_log_le_real hr
  have b2 := lt_two_log_real (q : ℝ)
  have c1 : (2 : ℝ) ^ (Int.log 2 q) ≤ (q : ℝ) := by
    have := (Rat.cast_le (K := ℝ)).mpr a1; push_cast at this; exact this
  have c2 : (q : ℝ) < (2 : ℝ) ^ (Int.log 2 q + 1) := by
    have := (Rat.cast_lt (K := ℝ)).mpr a2; push_cast at this; exact this
  have d1 := lt_of_le_of_lt b1 c2
  have d2 := lt_of_le_of_lt c1 b2
  rw [zpow_lt_zpow_iff_right₀ (by norm_num)] at d1 d2
  omega

theorem flDouble_abs (x : ℚ) : |flDouble x - x| ≤ |x| / 2 ^ 53 := by
  rcases le_total 0 x with h | h
  · obtain ⟨a, b⟩ := flDouble_rel h
    rw [abs_of_nonneg h, abs_le]
    constructor <;> linarith
  · obtain ⟨a, b⟩ := flDouble_rel (x := -x) (by linarith)
    rw [flDouble_neg] at a b
    rw [abs_of_nonpos h, abs_le]
    constructor <;> linarith

/-- A rational square root is rounded like any other number. -/
theorem sqrtDouble_rat {x r : ℚ} (h : 0 ≤ r) (hx : x = r ^ 2) : sqrtDouble x = flDouble r := by
  have hs : √(x : ℝ) = (r : ℝ) := by
    rw [hx]; push_cast
    exact Real.sqrt_sq (by exact_mod_cast h)
  unfold sqrtDouble flDouble
  simp only [hs, abs_of_nonneg h]
  rcases eq_or_lt_of_le h with h0 | h0
  · rw [← h0]; simp [rint_zero]
  · rw [log_ratCast h0, ← rint_ratCast]
    congr 2
    push_cast; rfl

theorem sqrtDouble_near (x : ℚ) : |((sqrtDouble x : ℚ) : ℝ) - √(x : ℝ)| ≤ √(x : ℝ) / 2 ^ 53 := by
  unfold sqrtDouble
  simp only
  rcases eq_or_lt_of_le (Real.sqrt_nonneg (x : ℝ)) with h | h
  · rw [← h]; simp [rint_zero]
  · set s := √(x : ℝ)
    have h1 := two_log_le_real h
    set e := Int.log 2 s
    have hu : (0 : ℝ) < (2 : ℝ) ^ (e - 52) := zpow_pos (by norm_num) _
    have e1 : (2 : ℝ) ^ e = (2 : ℝ) ^ 52 * (2 : ℝ) ^ (e - 52) := by
      rw [show ((2 : ℝ) ^ (52 : ℕ)) = (2 : ℝ) ^ (52 : ℤ) by norm_cast, ← zpow_add₀ (by norm_num)]
      congr 1; ring
    rw [e1] at h1
    push_cast
    set u := (2 : ℝ) ^ (e - 52)
    have hb := rint_abs (s / u)
    have hx : s / u * u = s := div_mul_cancel₀ _ hu.ne'
    have : (rint (s / u) : ℝ) * u - s = -((s / u - (rint (s / u) : ℝ)) * u) := by rw [sub_mul, hx]; ring
    rw [this, abs_neg, abs_mul, abs_of_pos hu]
    have h2 : |s / u - (rint (s / u) : ℝ)| * u ≤ 1 / 2 * u := mul_le_mul_of_nonneg_right hb hu.le
    have h3 : s / 2 ^ 53 = s / 2 ^ 52 / 2 := by ring
    have h4 : u ≤ s / 2 ^ 52 := by rw [le_div_iff₀ (by positivity)]; linarith
    rw [h3]; linarith

theorem double_arith : Spec.DoubleArith flDouble sqrtDouble where
  rel := flDouble_abs
  exact n k h := flDouble_grid n k rfl h
  sqrt_rel x _ := sqrtDouble_near x
  sqrt_exact n k h := by
    rw [sqrtDouble_rat (r := (n : ℚ) * (2 : ℚ) ^ k) (by positivity) rfl]
    exact flDouble_grid (n : ℤ) k (by push_cast; rfl) (by rw [abs_of_nonneg (by positivity)]; exact_mod_cast h)

end Spurt
