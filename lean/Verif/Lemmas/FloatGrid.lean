import Verif.Props.FloatSingle
import Mathlib.Tactic.NormNum
import Mathlib.Tactic.Ring
import Mathlib.Tactic.Linarith
import Mathlib.Tactic.Positivity

/-! # Numbers that are stored as they are -/

namespace Spurt
open Spec

/-- A multiple of a power of two with few enough digits is not rounded. -/
theorem grid_fix (b : ℕ) {x : ℚ} (n k : ℤ) (hx : x = (n : ℚ) * (2 : ℚ) ^ k) (hn : |n| ≤ 2 ^ (b + 1)) :
    (rint (x / (2 : ℚ) ^ (Int.log 2 |x| - b)) : ℚ) * (2 : ℚ) ^ (Int.log 2 |x| - b) = x := by
  by_cases h0 : x = 0
  · subst h0; simp [rint_zero]
  have hy : 0 < |x| := abs_pos.mpr h0
  have h1 := two_log_le hy
  set e := Int.log 2 |x| with he
  have hu : (0 : ℚ) < (2 : ℚ) ^ (e - b) := zpow_pos (by norm_num) _
  have fin : ∀ z : ℤ, x = (z : ℚ) * (2 : ℚ) ^ (e - b) → (rint (x / (2 : ℚ) ^ (e - b)) : ℚ) * (2 : ℚ) ^ (e - b) = x := by
    intro z hz
    have : x / (2 : ℚ) ^ (e - b) = (z : ℚ) := by rw [hz]; exact mul_div_cancel_right₀ _ hu.ne'
    rw [this, rint_intCast, hz]
  rcases le_or_gt (e - b) k with hk | hk
  · apply fin (n * 2 ^ (k - (e - b)).toNat)
    rw [hx]
    push_cast
    rw [mul_assoc]
    congr 1
    rw [← zpow_natCast, ← zpow_add₀ (by norm_num)]
    congr 1; omega
  · have h2 : |x| ≤ (2 : ℚ) ^ e := by
      rw [hx, abs_mul, abs_of_pos (zpow_pos (by norm_num : (0 : ℚ) < 2) k)]
      have h3 : |(n : ℚ)| ≤ (2 : ℚ) ^ (b + 1) := by exact_mod_cast hn
      have h4 : (2 : ℚ) ^ k ≤ (2 : ℚ) ^ (e - b - 1) := zpow_le_zpow_right₀ (by norm_num) (by omega)
      calc |(n : ℚ)| * (2 : ℚ) ^ k ≤ (2 : ℚ) ^ (b + 1) * (2 : ℚ) ^ (e - b - 1) :=
            mul_le_mul h3 h4 (zpow_pos (by norm_num) _).le (by positivity)
        _ = (2 : ℚ) ^ e := by
            rw [← zpow_natCast, ← zpow_add₀ (by norm_num)]
            congr 1; push_cast; ring
    have h5 : |x| = (2 : ℚ) ^ e := le_antisymm h2 h1
    have h6 : (2 : ℚ) ^ e = ((2 ^ b : ℤ) : ℚ) * (2 : ℚ) ^ (e - b) := by
      push_cast
      rw [← zpow_natCast, ← zpow_add₀ (by norm_num)]
      congr 1; ring
    rcases abs_choice x with hc | hc
    · exact fin (2 ^ b) (by rw [← h6, ← h5, hc])
    · exact fin (-2 ^ b) (by push_cast; push_cast at h6; rw [neg_mul, ← h6, ← h5, hc]; ring)

theorem flSingle_grid {x : ℚ} (n k : ℤ) (hx : x = (n : ℚ) * (2 : ℚ) ^ k) (hn : |n| ≤ 2 ^ 24) : flSingle x = x := by
  have := grid_fix 23 n k hx hn
  unfold flSingle
  exact_mod_cast this

theorem flDouble_grid {x : ℚ} (n k : ℤ) (hx : x = (n : ℚ) * (2 : ℚ) ^ k) (hn : |n| ≤ 2 ^ 53) : flDouble x = x := by
  have := grid_fix 52 n k hx hn
  unfold flDouble
  exact_mod_cast this

/-- A single has 24 digits. -/
theorem flSingle_form (x : ℚ) : ∃ n : ℤ, flSingle x = (n : ℚ) * (2 : ℚ) ^ (Int.log 2 |x| - 23) ∧ |n| ≤ 2 ^ 24 := by
  refine ⟨_, rfl, ?_⟩
  have h1 := lt_two_log |x|
  set e := Int.log 2 |x|
  have hu : (0 : ℚ) < (2 : ℚ) ^ (e - 23) := zpow_pos (by norm_num) _
  have e1 : (2 : ℚ) ^ (e + 1) = ((2 ^ 24 : ℤ) : ℚ) * (2 : ℚ) ^ (e - 23) := by
    rw [show ((2 ^ 24 : ℤ) : ℚ) = (2 : ℚ) ^ (24 : ℤ) by norm_num, ← zpow_add₀ (by norm_num)]
    congr 1; ring
  rw [e1] at h1
  have h2 := abs_le.mp h1.le
  rw [abs_le]
  constructor
  · apply le_rint_of_le
    rw [le_div_iff₀ hu]
    push_cast at h2 ⊢
    linarith
  · apply rint_le_of_le
    rw [div_le_iff₀ hu]
    exact h2.2

theorem flSingle_idem (x : ℚ) : flSingle (flSingle x) = flSingle x := by
  obtain ⟨n, h1, h2⟩ := flSingle_form x
  exact flSingle_grid n _ h1 h2

theorem flDouble_single (x : ℚ) : flDouble (flSingle x) = flSingle x := by
  obtain ⟨n, h1, h2⟩ := flSingle_form x
  exact flDouble_grid n _ h1 (h2.trans (by norm_num))

/-- Singles of size at most `2 ^ e` are rounded by at most half a unit in the last place of the numbers below `2 ^ e`. -/
theorem rounds_single_pow (e : ℕ) : Rounds flSingle (2 ^ e) (2 ^ e / 2 ^ 25) := by
  refine ⟨fun x hx => ?_, flSingle_neg⟩
  rcases lt_or_eq_of_le hx with hlt | heq
  · by_cases h0 : x = 0
    · subst h0; rw [flSingle_zero]; simp; positivity
    have hy : 0 < |x| := abs_pos.mpr h0
    have hle := two_log_le hy
    unfold flSingle
    simp only
    set l := Int.log 2 |x| with hl
    have hle' : l ≤ (e : ℤ) - 1 := by
      by_contra hc
      have h3 : (2 : ℚ) ^ (e : ℤ) ≤ (2 : ℚ) ^ l := zpow_le_zpow_right₀ (by norm_num) (by omega)
      rw [zpow_natCast] at h3
      linarith
    have hu : (0 : ℚ) < (2 : ℚ) ^ (l - 23) := zpow_pos (by norm_num) _
    have hu2 : (2 : ℚ) ^ (l - 23) ≤ 2 ^ e / 2 ^ 24 := by
      have h3 : (2 : ℚ) ^ (l - 23) ≤ (2 : ℚ) ^ ((e : ℤ) - 24) := zpow_le_zpow_right₀ (by norm_num) (by omega)
      rw [zpow_sub₀ (by norm_num) (e : ℤ) 24, zpow_natCast] at h3
      exact h3.trans (le_of_eq (by norm_num))
    set u := (2 : ℚ) ^ (l - 23)
    obtain ⟨b1, b2⟩ := rint_bounds (x / u)
    have hxu : x / u * u = x := div_mul_cancel₀ _ hu.ne'
    have h4 : u / 2 ≤ 2 ^ e / 2 ^ 25 := by
      have : (2 : ℚ) ^ e / 2 ^ 25 = 2 ^ e / 2 ^ 24 / 2 := by ring
      rw [this]; linarith
    rw [abs_le]
    constructor
    · have : (x / u - 1 / 2) * u ≤ (rint (x / u) : ℚ) * u := mul_le_mul_of_nonneg_right (by linarith) hu.le
      rw [sub_mul, hxu] at this
      linarith
    · have : (rint (x / u) : ℚ) * u ≤ (x / u + 1 / 2) * u := mul_le_mul_of_nonneg_right (by linarith) hu.le
      rw [add_mul, hxu] at this
      linarith
  · have : flSingle x = x := by
      rcases abs_choice x with hc | hc
      · exact flSingle_grid 1 e (by rw [← hc, heq]; simp) (by norm_num)
      · exact flSingle_grid (-1) e (by
          have : x = - |x| := by rw [hc]; ring
          rw [this, heq]; simp) (by norm_num)
    rw [this]; simp; positivity

end Spurt
