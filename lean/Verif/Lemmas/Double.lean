import Verif.Model.Tiling
import Verif.Lemmas.Rint
import Mathlib.Tactic.FieldSimp
import Mathlib.Tactic.NormNum

/-! # Double-precision rounding -/

namespace Spurt

/-- What the tiling code needs of a rounding: monotone, and exact on integers up to `B`. -/
structure Spec.Rounding {K : Type} [Field K] [LinearOrder K] (fl : K → K) (B : ℤ) : Prop where
  mono : ∀ x y, x ≤ y → fl x ≤ fl y
  int : ∀ n : ℤ, |n| ≤ B → fl (n : K) = n

theorem rounding_id {K : Type} [Field K] [LinearOrder K] (B : ℤ) : Spec.Rounding (id : K → K) B :=
  ⟨fun _ _ h => h, fun _ _ => rfl⟩

theorem flDouble_zero : flDouble 0 = 0 := by
  unfold flDouble; simp [rint_zero]

theorem flDouble_neg (x : ℚ) : flDouble (-x) = - flDouble x := by
  unfold flDouble
  simp only [abs_neg, neg_div, rint_neg]
  push_cast; ring

theorem two_log_le {x : ℚ} (h : 0 < x) : (2 : ℚ) ^ (Int.log 2 x) ≤ x := by
  have := Int.zpow_log_le_self (b := 2) (by norm_num) h
  simpa using this

theorem lt_two_log (x : ℚ) : x < (2 : ℚ) ^ (Int.log 2 x + 1) := by
  have := Int.lt_zpow_succ_log_self (b := 2) (by norm_num) x
  simpa using this

theorem flDouble_pos_bounds {x : ℚ} (h : 0 < x) :
    (2 : ℚ) ^ (Int.log 2 x) ≤ flDouble x ∧ flDouble x ≤ (2 : ℚ) ^ (Int.log 2 x + 1) := by
  have h1 := two_log_le h
  have h2 := (lt_two_log x).le
  unfold flDouble
  rw [abs_of_pos h]
  simp only
  set e := Int.log 2 x
  have hu : (0 : ℚ) < (2 : ℚ) ^ (e - 52) := zpow_pos (by norm_num) _
  have e1 : (2 : ℚ) ^ e = (((2 : ℤ) ^ 52 : ℤ) : ℚ) * (2 : ℚ) ^ (e - 52) := by
    rw [show (((2 : ℤ) ^ 52 : ℤ) : ℚ) = (2 : ℚ) ^ (52 : ℤ) by norm_num, ← zpow_add₀ (by norm_num)]
    congr 1; ring
  have e2 : (2 : ℚ) ^ (e + 1) = (((2 : ℤ) ^ 53 : ℤ) : ℚ) * (2 : ℚ) ^ (e - 52) := by
    rw [show (((2 : ℤ) ^ 53 : ℤ) : ℚ) = (2 : ℚ) ^ (53 : ℤ) by norm_num, ← zpow_add₀ (by norm_num)]
    congr 1; ring
  rw [e1] at h1 ⊢
  rw [e2] at h2 ⊢
  constructor
  · apply mul_le_mul_of_nonneg_right _ hu.le
    have : (2 : ℤ) ^ 52 ≤ rint (x / (2 : ℚ) ^ (e - 52)) :=
      le_rint_of_le (by rw [le_div_iff₀ hu]; exact h1)
    exact_mod_cast this
  · apply mul_le_mul_of_nonneg_right _ hu.le
    have : rint (x / (2 : ℚ) ^ (e - 52)) ≤ (2 : ℤ) ^ 53 :=
      rint_le_of_le (by rw [div_le_iff₀ hu]; exact h2)
    exact_mod_cast this

theorem flDouble_nonneg {x : ℚ} (h : 0 ≤ x) : 0 ≤ flDouble x := by
  rcases eq_or_lt_of_le h with h | h
  · rw [← h, flDouble_zero]
  · exact (zpow_pos (by norm_num) _).le.trans (flDouble_pos_bounds h).1

theorem flDouble_mono_pos {x y : ℚ} (hx : 0 < x) (h : x ≤ y) : flDouble x ≤ flDouble y := by
  have hy := hx.trans_le h
  rcases lt_or_eq_of_le (Int.log_mono_right (b := 2) hx h) with hlt | heq
  · refine (flDouble_pos_bounds hx).2.trans (le_trans ?_ (flDouble_pos_bounds hy).1)
    exact zpow_le_zpow_right₀ (by norm_num) (by omega)
  · unfold flDouble
    rw [abs_of_pos hx, abs_of_pos hy]
    simp only [heq]
    have hu : (0 : ℚ) < (2 : ℚ) ^ (Int.log 2 y - 52) := zpow_pos (by norm_num) _
    apply mul_le_mul_of_nonneg_right _ hu.le
    have := rint_mono (div_le_div_of_nonneg_right h hu.le)
    exact_mod_cast this

theorem flDouble_mono {x y : ℚ} (h : x ≤ y) : flDouble x ≤ flDouble y := by
  rcases lt_trichotomy x 0 with hx | hx | hx
  · rcases le_or_gt 0 y with hy | hy
    · have : 0 ≤ flDouble (-x) := flDouble_nonneg (by linarith)
      rw [flDouble_neg] at this
      linarith [flDouble_nonneg hy]
    · have := flDouble_mono_pos (x := -y) (y := -x) (by linarith) (by linarith)
      rw [flDouble_neg, flDouble_neg] at this
      linarith
  · rw [hx, flDouble_zero]; exact flDouble_nonneg (by linarith)
  · exact flDouble_mono_pos hx h

theorem flDouble_natCast (n : Nat) (hn : n ≤ 2 ^ 53) : flDouble (n : ℚ) = n := by
  rcases Nat.eq_zero_or_pos n with rfl | h0
  · simpa using flDouble_zero
  have hx : (0 : ℚ) < n := by exact_mod_cast h0
  have h1 := two_log_le hx
  unfold flDouble
  rw [abs_of_pos hx]
  simp only
  set e := Int.log 2 (n : ℚ) with he
  have hu : (0 : ℚ) < (2 : ℚ) ^ (e - 52) := zpow_pos (by norm_num) _
  have he53 : e ≤ 53 := by
    by_contra hc
    have : (2 : ℚ) ^ (54 : ℤ) ≤ (2 : ℚ) ^ e := zpow_le_zpow_right₀ (by norm_num) (by omega)
    have h3 : (n : ℚ) ≤ 2 ^ 53 := by exact_mod_cast hn
    have h4 : (2 : ℚ) ^ (54 : ℤ) = 2 ^ 53 * 2 := by norm_num
    rw [h4] at this
    have h5 : (0 : ℚ) < 2 ^ 53 := by positivity
    linarith
  obtain ⟨k, hk⟩ : ∃ k : ℤ, (n : ℚ) / (2 : ℚ) ^ (e - 52) = k := by
    rcases eq_or_lt_of_le he53 with h | h
    · have hn2 : n = 2 ^ 53 := by
        apply le_antisymm hn
        have : ((2 ^ 53 : ℕ) : ℚ) ≤ n := by
          rw [h] at h1; push_cast; exact_mod_cast h1
        exact_mod_cast this
      refine ⟨2 ^ 52, ?_⟩
      rw [h, hn2]; norm_num
    · refine ⟨(n : ℤ) * 2 ^ (52 - e).toNat, ?_⟩
      rw [div_eq_mul_inv, ← zpow_neg]
      push_cast
      congr 1
      rw [← zpow_natCast]
      congr 1
      rw [Int.toNat_of_nonneg (by omega)]; ring
  rw [hk, rint_intCast, ← hk, div_mul_cancel₀ _ hu.ne']

theorem flDouble_rounding : Spec.Rounding flDouble (2 ^ 53) := by
  refine ⟨fun _ _ h => flDouble_mono h, fun n hn => ?_⟩
  rcases le_total 0 n with h | h
  · obtain ⟨k, rfl⟩ := Int.eq_ofNat_of_zero_le h
    rw [abs_of_nonneg h] at hn
    have := flDouble_natCast k (by exact_mod_cast hn)
    simpa using this
  · obtain ⟨k, hk⟩ := Int.eq_ofNat_of_zero_le (show 0 ≤ -n by omega)
    rw [abs_of_nonpos h, hk] at hn
    have h2 := flDouble_natCast k (by exact_mod_cast hn)
    have e : (n : ℚ) = -((k : ℕ) : ℚ) := by
      have : n = -(k : ℤ) := by omega
      rw [this]; push_cast; ring
    rw [e, flDouble_neg, h2]

/-- Relative error. -/
theorem flDouble_rel {x : ℚ} (h : 0 ≤ x) :
    x * (1 - 1 / 2 ^ 53) ≤ flDouble x ∧ flDouble x ≤ x * (1 + 1 / 2 ^ 53) := by
  rcases eq_or_lt_of_le h with h | h
  · rw [← h, flDouble_zero]; simp
  have h1 := two_log_le h
  unfold flDouble
  rw [abs_of_pos h]
  simp only
  set e := Int.log 2 x
  have hu : (0 : ℚ) < (2 : ℚ) ^ (e - 52) := zpow_pos (by norm_num) _
  have e1 : (2 : ℚ) ^ e = (2 : ℚ) ^ 52 * (2 : ℚ) ^ (e - 52) := by
    rw [show ((2 : ℚ) ^ (52 : ℕ)) = (2 : ℚ) ^ (52 : ℤ) by norm_cast, ← zpow_add₀ (by norm_num)]
    congr 1; ring
  rw [e1] at h1
  set u := (2 : ℚ) ^ (e - 52)
  obtain ⟨b1, b2⟩ := rint_bounds (x / u)
  have hx : x / u * u = x := div_mul_cancel₀ _ hu.ne'
  have h3 : u ≤ x / 2 ^ 52 := by
    rw [le_div_iff₀ (by positivity)]; linarith
  have h4 : u / 2 ≤ x * (1 / 2 ^ 53) := by
    have : x * (1 / 2 ^ 53) = x / 2 ^ 52 / 2 := by ring
    rw [this]; linarith
  constructor
  · have : (x / u - 1 / 2) * u ≤ (rint (x / u) : ℚ) * u :=
      mul_le_mul_of_nonneg_right (by linarith) hu.le
    rw [sub_mul, hx] at this
    linarith
  · have : (rint (x / u) : ℚ) * u ≤ (x / u + 1 / 2) * u :=
      mul_le_mul_of_nonneg_right (by linarith) hu.le
    rw [add_mul, hx] at this
    linarith

/-- To evaluate: the exponent from bounds. -/
theorem flDouble_eval {x : ℚ} (e : ℤ) (h1 : (2 : ℚ) ^ e ≤ x) (h2 : x < (2 : ℚ) ^ (e + 1)) :
    flDouble x = (rint (x / (2 : ℚ) ^ (e - 52)) : ℚ) * (2 : ℚ) ^ (e - 52) := by
  have hx : 0 < x := (zpow_pos (by norm_num) _).trans_le h1
  have : Int.log 2 x = e := by
    apply le_antisymm
    · by_contra hc
      have h3 : (2 : ℚ) ^ (e + 1) ≤ (2 : ℚ) ^ (Int.log 2 x) :=
        zpow_le_zpow_right₀ (by norm_num) (by omega)
      linarith [two_log_le hx]
    · by_contra hc
      have h3 : (2 : ℚ) ^ (Int.log 2 x + 1) ≤ (2 : ℚ) ^ e :=
        zpow_le_zpow_right₀ (by norm_num) (by omega)
      linarith [lt_two_log x]
  unfold flDouble
  rw [abs_of_pos hx, this]

end Spurt
