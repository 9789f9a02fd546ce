import Verif.Lemmas.RealDouble
import Mathlib.Tactic.Linarith
import Mathlib.Tactic.FieldSimp
import Mathlib.Tactic.LinearCombination

/-! # How close `1 + S / √n` can come to a tie -/

namespace Spurt

/-- `S / √n` is an odd half, or far from all of them. -/
theorem half_gap {S n : ℕ} (hS : 1 ≤ S) (hn : 1 ≤ n) {q : ℤ} (hq : q % 2 = 1)
    (hne : (S : ℝ) / √(n : ℝ) ≠ q / 2) : 1 / (30 * (S : ℝ) ^ 2) ≤ |(S : ℝ) / √(n : ℝ) - q / 2| := by
  have hS' : (1 : ℝ) ≤ S := by exact_mod_cast hS
  have hn' : (1 : ℝ) ≤ n := by exact_mod_cast hn
  have ht1 : (1 : ℝ) ≤ √(n : ℝ) := by rw [Real.one_le_sqrt]; exact hn'
  have htt : √(n : ℝ) * √(n : ℝ) = n := Real.mul_self_sqrt (by linarith)
  set t := √(n : ℝ)
  have ht0 : (0 : ℝ) < t := by linarith
  have hsq : (1 : ℝ) ≤ (S : ℝ) ^ 2 := by nlinarith
  have hsmall : 1 / (30 * (S : ℝ) ^ 2) ≤ 1 / 6 := by
    apply one_div_le_one_div_of_le (by norm_num); linarith
  rcases le_or_gt q 0 with h0 | h0
  · have hq1 : q ≤ -1 := by omega
    have : (q : ℝ) ≤ -1 := by exact_mod_cast hq1
    have hp : 0 ≤ (S : ℝ) / t := by positivity
    refine hsmall.trans (le_trans ?_ (le_abs_self _))
    linarith
  · have hq1 : (1 : ℝ) ≤ q := by exact_mod_cast h0
    rcases le_or_gt (3 * (S : ℝ)) (q * t) with hc | hc
    · have : (S : ℝ) / t ≤ q / 3 := by rw [div_le_iff₀ ht0]; linarith
      refine hsmall.trans (le_trans ?_ (neg_le_abs _))
      linarith
    · have hz : 4 * (S : ℤ) ^ 2 - q ^ 2 * (n : ℤ) ≠ 0 := by
        intro hz
        apply hne
        have hz' : 4 * (S : ℝ) ^ 2 - (q : ℝ) ^ 2 * (n : ℝ) = 0 := by exact_mod_cast hz
        have h2 : (2 * (S : ℝ) - q * t) * (2 * S + q * t) = 0 := by rw [← htt] at hz'; linarith
        rcases mul_eq_zero.mp h2 with h | h
        · rw [div_eq_div_iff ht0.ne' (by norm_num)]; linarith
        · exfalso; nlinarith
      have h1 : (1 : ℝ) ≤ |(2 * (S : ℝ) - q * t) * (2 * S + q * t)| := by
        have : (2 * (S : ℝ) - q * t) * (2 * S + q * t) = ((4 * (S : ℤ) ^ 2 - q ^ 2 * (n : ℤ) : ℤ) : ℝ) := by
          push_cast; rw [← htt]; ring
        rw [this, ← Int.cast_abs]
        exact_mod_cast Int.one_le_abs hz
      rw [abs_mul] at h1
      have hpos : 0 < 2 * (S : ℝ) + q * t := by positivity
      rw [abs_of_pos hpos] at h1
      have htq : t ≤ q * t := by nlinarith
      have e : (S : ℝ) / t - q / 2 = (2 * S - q * t) / (2 * t) := by field_simp
      rw [e, abs_div, abs_of_pos (show (0 : ℝ) < 2 * t by linarith), div_le_div_iff₀ (by positivity) (by positivity)]
      have ha := abs_nonneg (2 * (S : ℝ) - q * t)
      set a := |2 * (S : ℝ) - q * t|
      have h3 : a * (2 * S + q * t) ≤ a * (5 * S) := mul_le_mul_of_nonneg_left (by linarith) ha
      have h4 : 1 ≤ a * (5 * S) := h1.trans h3
      have h5 : (6 * (S : ℝ)) * 1 ≤ (6 * S) * (a * (5 * S)) := mul_le_mul_of_nonneg_left h4 (by linarith)
      have h6 : (6 * (S : ℝ)) * (a * (5 * S)) = a * (30 * (S : ℝ) ^ 2) := by ring
      linarith

/-- The rounded cost, from a distance with relative error `ε`. -/
theorem cost_close {fl sq : ℚ → ℚ} (hA : Spec.DoubleArith fl sq) {S D : ℚ} {t ε : ℝ} (hS : 1 ≤ S) (ht : 1 ≤ t)
    (hε0 : 0 ≤ ε) (hε : ε ≤ 1 / 2) (hD : |(D : ℝ) - t| ≤ ε * t) :
    D ≠ 0 ∧ |((fl (1 + fl (S / D)) : ℚ) : ℝ) - (1 + S / t)| ≤ S * (2 * ε + 1 / 2 ^ 50) := by
  have hS' : (1 : ℝ) ≤ S := by exact_mod_cast hS
  have ht0 : 0 < t := by linarith
  obtain ⟨d1, d2⟩ := abs_le.mp hD
  have hεt : ε * t ≤ 1 / 2 * t := mul_le_mul_of_nonneg_right hε ht0.le
  have hDh : t / 2 ≤ (D : ℝ) := by linarith
  have hD0 : (0 : ℝ) < D := by linarith
  have hDq : (0 : ℚ) < D := by exact_mod_cast hD0
  refine ⟨hDq.ne', ?_⟩
  -- the quotient
  have q1 : |(S : ℝ) / D - S / t| ≤ S * (2 * ε) := by
    have e : (S : ℝ) / D - S / t = S * ((t - D) / (D * t)) := by field_simp
    rw [e, abs_mul, abs_of_pos (by linarith : (0 : ℝ) < S)]
    apply mul_le_mul_of_nonneg_left _ (by linarith)
    rw [abs_div, abs_of_pos (mul_pos hD0 ht0), div_le_iff₀ (mul_pos hD0 ht0), abs_sub_comm]
    have h1 : t / 2 * t ≤ D * t := mul_le_mul_of_nonneg_right hDh ht0.le
    have h2 : 2 * ε * (t / 2 * t) ≤ 2 * ε * (D * t) := mul_le_mul_of_nonneg_left h1 (by linarith)
    have h3 : ε * t * 1 ≤ ε * t * t := mul_le_mul_of_nonneg_left ht (by positivity)
    linarith
  have q2 : S / D ≤ 2 * S := by
    have : (1 / 2 : ℝ) ≤ D := by linarith
    have h2 : (1 / 2 : ℚ) ≤ D := by
      have : ((1 / 2 : ℚ) : ℝ) ≤ (D : ℝ) := by push_cast; exact this
      exact_mod_cast this
    rw [div_le_iff₀ hDq]
    nlinarith
  have q3 : 0 ≤ S / D := by positivity
  have a1 := hA.rel (S / D)
  rw [abs_of_nonneg q3] at a1
  obtain ⟨a2, a3⟩ := abs_le.mp a1
  have a4 : |1 + fl (S / D)| ≤ 4 * S := by
    rw [abs_le]; constructor <;> linarith
  have b1 := hA.rel (1 + fl (S / D))
  have c1 : |fl (1 + fl (S / D)) - (1 + S / D)| ≤ S * (1 / 2 ^ 50) := by
    have e : fl (1 + fl (S / D)) - (1 + S / D) = (fl (1 + fl (S / D)) - (1 + fl (S / D))) + (fl (S / D) - S / D) := by ring
    rw [e]
    refine (abs_add_le _ _).trans ?_
    linarith
  have c2 : |((fl (1 + fl (S / D)) : ℚ) : ℝ) - (1 + S / D)| ≤ S * (1 / 2 ^ 50) := by
    have := (Rat.cast_le (K := ℝ)).mpr c1
    push_cast at this; exact this
  have e : ((fl (1 + fl (S / D)) : ℚ) : ℝ) - (1 + S / t)
      = (((fl (1 + fl (S / D)) : ℚ) : ℝ) - (1 + S / D)) + (S / D - S / t) := by ring
  rw [e]
  refine (abs_add_le _ _).trans ?_
  linarith

/-- With `1 + S / √n` not a tie, the rounded cost is the exact one. -/
theorem cost_same {fl sq : ℚ → ℚ} (hA : Spec.DoubleArith fl sq) {S n : ℕ} (hS : 1 ≤ S) (hn : 1 ≤ n) {D : ℚ} {ε : ℝ}
    (hε0 : 0 ≤ ε) (hε : ε ≤ 1 / 2) (hD : |(D : ℝ) - √(n : ℝ)| ≤ ε * √(n : ℝ))
    (hroom : 30 * (S : ℝ) ^ 3 * (2 * ε + 1 / 2 ^ 50) < 1)
    (hne : ∀ q : ℤ, q % 2 = 1 → (S : ℝ) / √(n : ℝ) ≠ q / 2) :
    rint (fl (1 + fl ((S : ℚ) / D))) = rint (1 + (S : ℝ) / √(n : ℝ)) := by
  have hS' : (1 : ℝ) ≤ S := by exact_mod_cast hS
  have ht1 : (1 : ℝ) ≤ √(n : ℝ) := by rw [Real.one_le_sqrt]; exact_mod_cast hn
  obtain ⟨-, hc⟩ := cost_close hA (S := (S : ℚ)) (by exact_mod_cast hS) ht1 hε0 hε hD
  rw [Rat.cast_natCast] at hc
  set y := fl (1 + fl ((S : ℚ) / D))
  set x := 1 + (S : ℝ) / √(n : ℝ) with hx
  have hg : (S : ℝ) * (2 * ε + 1 / 2 ^ 50) < 1 / (30 * (S : ℝ) ^ 2) := by
    rw [lt_div_iff₀ (by positivity)]
    linarith [show (S : ℝ) * (2 * ε + 1 / 2 ^ 50) * (30 * (S : ℝ) ^ 2) = 30 * (S : ℝ) ^ 3 * (2 * ε + 1 / 2 ^ 50) by ring]
  obtain ⟨b1, b2⟩ := rint_bounds x
  set m := rint x
  have g1 := half_gap hS hn (q := 2 * m - 1) (by omega) (hne _ (by omega))
  have g2 := half_gap hS hn (q := 2 * m - 3) (by omega) (hne _ (by omega))
  push_cast at g1 g2
  have hx' : (S : ℝ) / √(n : ℝ) = x - 1 := by rw [hx]; ring
  rw [hx'] at g1 g2
  rw [abs_of_nonpos (by linarith)] at g1
  rw [abs_of_nonneg (by linarith)] at g2
  obtain ⟨c1, c2⟩ := abs_le.mp hc
  apply rint_eq_of_lt
  · have : ((m : ℝ) - 1 / 2) < (y : ℝ) := by linarith
    have h2 : (((m : ℚ) - 1 / 2 : ℚ) : ℝ) < (y : ℝ) := by push_cast; exact this
    exact_mod_cast h2
  · have : (y : ℝ) < (m : ℝ) + 1 / 2 := by linarith
    have h2 : (y : ℝ) < (((m : ℚ) + 1 / 2 : ℚ) : ℝ) := by push_cast; exact this
    exact_mod_cast h2

/-- A tie with an exact distance is computed exactly. -/
theorem cost_tie {fl sq : ℚ → ℚ} (hA : Spec.DoubleArith fl sq) {S n : ℕ} (hn : 1 ≤ n) (hS : S ≤ 2 ^ 50) {D : ℚ} (hD : (D : ℝ) = √(n : ℝ)) {q : ℤ}
    (hq : (S : ℝ) / √(n : ℝ) = q / 2) : rint (fl (1 + fl ((S : ℚ) / D))) = rint (1 + (S : ℝ) / √(n : ℝ)) := by
  have ht1 : (1 : ℝ) ≤ √(n : ℝ) := by rw [Real.one_le_sqrt]; exact_mod_cast hn
  have e : (S : ℚ) / D = (q : ℚ) / 2 := by
    have : (((S : ℚ) / D : ℚ) : ℝ) = (((q : ℚ) / 2 : ℚ) : ℝ) := by push_cast; rw [hD, hq]
    exact_mod_cast this
  have hb : |q| ≤ 2 ^ 51 := by
    have h0 : (0 : ℝ) ≤ q / 2 := by rw [← hq]; positivity
    have h1 : (q : ℝ) / 2 ≤ S := by
      rw [← hq, div_le_iff₀ (by linarith)]
      nlinarith [(Nat.cast_nonneg S : (0 : ℝ) ≤ S)]
    have h2 : (S : ℝ) ≤ 2 ^ 50 := by exact_mod_cast hS
    have h3 : (q : ℝ) ≤ 2 ^ 51 := by linarith
    have h4 : (0 : ℝ) ≤ q := by linarith
    rw [abs_of_nonneg (by exact_mod_cast h4)]
    exact_mod_cast h3
  have f1 : fl ((q : ℚ) / 2) = (q : ℚ) / 2 := by
    have := hA.exact q (-1) (hb.trans (by norm_num))
    rw [show (q : ℚ) * (2 : ℚ) ^ (-1 : ℤ) = (q : ℚ) / 2 by rw [zpow_neg_one]; ring] at this
    exact this
  have f2 : fl (1 + (q : ℚ) / 2) = 1 + (q : ℚ) / 2 := by
    have := hA.exact (q + 2) (-1) ((abs_add_le _ _).trans (by norm_num; linarith))
    rw [show ((q + 2 : ℤ) : ℚ) * (2 : ℚ) ^ (-1 : ℤ) = 1 + (q : ℚ) / 2 by rw [zpow_neg_one]; push_cast; ring] at this
    exact this
  rw [e, f1, f2, hq, ← rint_ratCast]
  push_cast; rfl

theorem sqrt_near {v w : ℝ} (hw : 0 < w) {η : ℝ} (h : |v - w| ≤ η * w) (hv : 0 ≤ v) : |√v - √w| ≤ η * √w := by
  have hs : 0 < √w := Real.sqrt_pos.mpr hw
  have e : (√v - √w) * (√v + √w) = v - w := by
    have h1 := Real.mul_self_sqrt hv
    have h2 := Real.mul_self_sqrt hw.le
    linarith [show (√v - √w) * (√v + √w) = √v * √v - √w * √w by ring]
  have h3 : |√v - √w| * √w ≤ |√v - √w| * (√v + √w) :=
    mul_le_mul_of_nonneg_left (by linarith [Real.sqrt_nonneg v]) (abs_nonneg _)
  have h4 : |√v - √w| * (√v + √w) = |v - w| := by
    rw [← e, abs_mul, abs_of_pos (by linarith [Real.sqrt_nonneg v] : 0 < √v + √w)]
  have h5 : |√v - √w| * √w ≤ η * √w * √w := by
    rw [mul_assoc, Real.mul_self_sqrt hw.le]; linarith
  exact le_of_mul_le_mul_right h5 hs

end Spurt
