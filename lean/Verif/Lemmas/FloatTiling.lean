import Verif.Model.FloatTiling
import Verif.Lemmas.FloatCost

/-! # Counts computed in double precision -/

namespace Spurt

open Spec

theorem pyInt_eq {x : ℚ} {k : ℕ} (h1 : (k : ℚ) ≤ x) (h2 : x < k + 1) : pyInt x = k := by
  unfold pyInt
  rw [if_pos ((Nat.cast_nonneg k).trans h1), Int.floor_eq_iff]
  exact ⟨by exact_mod_cast h1, by exact_mod_cast h2⟩

/-- `int(n / t)` is the whole quotient. -/
theorem int_div_double {fl sq : ℚ → ℚ} (hA : DoubleArith fl sq) {n t : ℕ} (hn : n < 2 ^ 53) :
    pyInt (fl ((n : ℚ) / (t : ℚ))) = (n / t : ℕ) := by
  have hz : fl 0 = 0 := by simpa using hA.exact 0 0 (by norm_num)
  rcases Nat.eq_zero_or_pos t with ht | ht
  · subst ht; simp [hz, pyInt]
  have ht' : (0 : ℚ) < t := by exact_mod_cast ht
  have hn' : (n : ℚ) < 2 ^ 53 := by exact_mod_cast hn
  have hn0 : (0 : ℚ) ≤ n := Nat.cast_nonneg n
  set k := n / t with hk
  have hdm : n = t * k + n % t := (Nat.div_add_mod n t).symm
  have hmod := Nat.mod_lt n ht
  rcases Nat.eq_zero_or_pos (n % t) with h0 | h0
  · have e : (n : ℚ) / t = k := by
      rw [div_eq_iff ht'.ne']
      have : n = k * t := by rw [mul_comm]; omega
      exact_mod_cast this
    have hkb : k ≤ n := Nat.div_le_self n t
    have : fl (k : ℚ) = k := by
      have := hA.exact (k : ℤ) 0 (by rw [Nat.abs_cast]; exact_mod_cast (by omega : k ≤ 2 ^ 53))
      simpa using this
    rw [e, this]
    exact pyInt_eq le_rfl (by linarith)
  · have l1 : (t : ℚ) * k + 1 ≤ n := by exact_mod_cast (by omega : t * k + 1 ≤ n)
    have l2 : (n : ℚ) + 1 ≤ t * k + t := by exact_mod_cast (by omega : n + 1 ≤ t * k + t)
    have hr := hA.rel ((n : ℚ) / t)
    rw [abs_of_nonneg (show (0 : ℚ) ≤ (n : ℚ) / t by positivity)] at hr
    obtain ⟨r1, r2⟩ := abs_le.mp hr
    have e1 : (n : ℚ) / t / 2 ^ 53 < 1 / t := by
      rw [div_div, mul_comm, ← div_div]
      apply (div_lt_div_iff_of_pos_right ht').mpr
      rw [div_lt_one (by norm_num)]; exact hn'
    have e2 : (k : ℚ) + 1 / t ≤ n / t := by
      rw [le_div_iff₀ ht', add_mul, div_mul_cancel₀ _ ht'.ne']; linarith
    have e3 : (n : ℚ) / t + 1 / t ≤ k + 1 := by
      rw [← add_div, div_le_iff₀ ht', add_mul]; linarith
    exact pyInt_eq (by linarith) (by linarith)

/-- `int(np.sqrt(n))` is the whole square root. -/
theorem int_sqrt_double {fl sq : ℚ → ℚ} (hA : DoubleArith fl sq) {n : ℕ} (hn : n ≤ 2 ^ 51) :
    pyInt (sq (n : ℚ)) = (Nat.sqrt n : ℕ) := by
  set r := Nat.sqrt n with hr
  have h1 : r * r ≤ n := Nat.sqrt_le n
  have h2 : n < (r + 1) * (r + 1) := Nat.lt_succ_sqrt n
  have hrn : r ≤ n := Nat.sqrt_le_self n
  rcases Nat.eq_or_lt_of_le h1 with h0 | h0
  · have := hA.sqrt_exact r 0 (by omega)
    rw [zpow_zero, mul_one] at this
    have e : (n : ℚ) = (r : ℚ) ^ 2 := by rw [pow_two]; exact_mod_cast h0.symm
    rw [e, this]
    exact pyInt_eq le_rfl (by linarith)
  · have hrel := hA.sqrt_rel (n : ℚ) (Nat.cast_nonneg n)
    rw [Rat.cast_natCast] at hrel
    have hnr : (n : ℝ) ≤ 2 ^ 51 := by exact_mod_cast hn
    have hn1 : (1 : ℝ) ≤ n := by exact_mod_cast (by omega : 1 ≤ n)
    have ht1 : (1 : ℝ) ≤ √(n : ℝ) := by rw [Real.one_le_sqrt]; exact hn1
    have htt : √(n : ℝ) * √(n : ℝ) = n := Real.mul_self_sqrt (by linarith)
    set t := √(n : ℝ)
    have hr0 : (0 : ℝ) ≤ r := Nat.cast_nonneg r
    have l1 : (r : ℝ) * r + 1 ≤ n := by exact_mod_cast (by omega : r * r + 1 ≤ n)
    have l2 : (n : ℝ) + 1 ≤ (r + 1) * (r + 1) := by exact_mod_cast (by omega : n + 1 ≤ (r + 1) * (r + 1))
    have g0 : (r : ℝ) ≤ t := by nlinarith
    have g3 : t ≤ r + 1 := by nlinarith
    -- t - r ≥ 1 / (2 t), and r + 1 - t ≥ 1 / (2 t + 1)
    have g1 : t / 2 ^ 53 ≤ t - r := by
      have h3 : 1 ≤ (t - r) * (2 * t) := by nlinarith
      have h4 : t / 2 ^ 53 * (2 * t) ≤ 1 := by
        have : t / 2 ^ 53 * (2 * t) = (t * t) / 2 ^ 52 := by ring
        rw [this, htt, div_le_one (by norm_num)]; linarith
      by_contra hc
      have := mul_lt_mul_of_pos_right (not_le.mp hc) (show (0 : ℝ) < 2 * t by linarith)
      linarith
    have g2 : t / 2 ^ 53 < r + 1 - t := by
      have h3 : 1 ≤ (r + 1 - t) * (3 * t) := by nlinarith
      have h4 : t / 2 ^ 53 * (3 * t) < 1 := by
        have : t / 2 ^ 53 * (3 * t) = 3 * (t * t) / 2 ^ 53 := by ring
        rw [this, htt, div_lt_one (by norm_num)]; linarith
      by_contra hc
      have := mul_le_mul_of_nonneg_right (not_lt.mp hc) (show (0 : ℝ) ≤ 3 * t by linarith)
      linarith
    obtain ⟨e1, e2⟩ := abs_le.mp hrel
    apply pyInt_eq
    · have : (r : ℝ) ≤ ((sq (n : ℚ) : ℚ) : ℝ) := by linarith
      exact_mod_cast this
    · have : ((sq (n : ℚ) : ℚ) : ℝ) < (r : ℝ) + 1 := by linarith
      exact_mod_cast this

/-- `np.rint(np.sqrt(n / t))` is as in exact arithmetic. -/
theorem rint_sqrt_double {fl sq : ℚ → ℚ} (hA : DoubleArith fl sq) {n t : ℕ} (ht : 1 ≤ t) (hn : n ≤ 2 ^ 46) (ht2 : t ≤ 2 ^ 46) :
    rint (sq (fl ((n : ℚ) / (t : ℚ)))) = rint √((n : ℝ) / (t : ℝ)) := by
  have ht' : (0 : ℝ) < t := by exact_mod_cast ht
  have ht1 : (1 : ℝ) ≤ t := by exact_mod_cast ht
  have htq : (0 : ℚ) < t := by exact_mod_cast ht
  have hnr : (n : ℝ) ≤ 2 ^ 46 := by exact_mod_cast hn
  have htr : (t : ℝ) ≤ 2 ^ 46 := by exact_mod_cast ht2
  have hn0 : (0 : ℝ) ≤ n := Nat.cast_nonneg n
  have hx0 : 0 ≤ √((n : ℝ) / t) := Real.sqrt_nonneg _
  have hxx : √((n : ℝ) / t) * √((n : ℝ) / t) = n / t := Real.mul_self_sqrt (by positivity)
  by_cases htie : ∃ p : ℤ, p % 2 = 1 ∧ √((n : ℝ) / t) = p / 2
  · obtain ⟨p, hp, hpe⟩ := htie
    have hp0 : 0 ≤ p := by
      have : (0 : ℝ) ≤ p := by linarith [hpe ▸ hx0]
      exact_mod_cast this
    obtain ⟨k, rfl⟩ := Int.eq_ofNat_of_zero_le hp0
    have e : (n : ℝ) / t = (k : ℝ) ^ 2 / 4 := by
      rw [← hxx, hpe]; push_cast; ring
    have eq : (n : ℚ) / t = ((k : ℚ) * (2 : ℚ) ^ (-1 : ℤ)) ^ 2 := by
      have : (((n : ℚ) / t : ℚ) : ℝ) = (((k : ℚ) ^ 2 / 4 : ℚ) : ℝ) := by push_cast; exact e
      have h2 : (n : ℚ) / t = (k : ℚ) ^ 2 / 4 := by exact_mod_cast this
      rw [h2, zpow_neg_one]; ring
    have hk4 : (k : ℝ) ^ 2 ≤ 4 * 2 ^ 46 := by
      have : (n : ℝ) / t ≤ n := div_le_self hn0 ht1
      linarith
    have hk4' : k ^ 2 ≤ 4 * 2 ^ 46 := by exact_mod_cast hk4
    have hk1 : k ≤ k ^ 2 := Nat.le_self_pow (by norm_num) k
    have f1 : fl ((n : ℚ) / t) = (n : ℚ) / t := by
      have := hA.exact ((k : ℤ) ^ 2) (-2) (by rw [abs_of_nonneg (by positivity)]; exact_mod_cast (by omega : k ^ 2 ≤ 2 ^ 53))
      rw [eq]
      have e3 : (((k : ℤ) ^ 2 : ℤ) : ℚ) * (2 : ℚ) ^ (-2 : ℤ) = ((k : ℚ) * (2 : ℚ) ^ (-1 : ℤ)) ^ 2 := by
        push_cast; rw [mul_pow]; norm_num
      rw [e3] at this; exact this
    rw [f1, eq, hA.sqrt_exact k (-1) (by omega), hpe, ← rint_ratCast]
    push_cast
    rw [zpow_neg_one]; rfl
  · rcases Nat.eq_zero_or_pos n with h0 | h0
    · subst h0
      have hz : fl 0 = 0 := by simpa using hA.exact 0 0 (by norm_num)
      have hs : sq 0 = 0 := by simpa using hA.sqrt_exact 0 0 (by norm_num)
      simp [hz, hs, rint_zero]
    have hnp : (1 : ℝ) ≤ n := by exact_mod_cast h0
    have hy0 : (0 : ℝ) < n / t := by positivity
    have hr := hA.rel ((n : ℚ) / t)
    rw [abs_of_nonneg (show (0 : ℚ) ≤ (n : ℚ) / t by positivity)] at hr
    have hr' : |((fl ((n : ℚ) / t) : ℚ) : ℝ) - n / t| ≤ 1 / 2 ^ 53 * (n / t) := by
      have := (Rat.cast_le (K := ℝ)).mpr hr; push_cast at this; linarith
    have hv0 : (0 : ℝ) ≤ ((fl ((n : ℚ) / t) : ℚ) : ℝ) := by linarith [(abs_le.mp hr').1]
    have h1 := sqrt_near hy0 hr' hv0
    have h2 := hA.sqrt_rel _ (by exact_mod_cast hv0 : (0 : ℚ) ≤ fl ((n : ℚ) / t))
    set V := fl ((n : ℚ) / t)
    set x := √((n : ℝ) / t)
    have herr : |((sq V : ℚ) : ℝ) - x| ≤ x / 2 ^ 51 := by
      obtain ⟨a1, a2⟩ := abs_le.mp h1
      obtain ⟨b1, b2⟩ := abs_le.mp h2
      rw [abs_le]; constructor <;> linarith
    obtain ⟨b1, b2⟩ := rint_bounds x
    have hm0 : 0 ≤ rint x := by
      have := rint_mono hx0; rwa [rint_zero] at this
    set m := rint x with hm
    have hmr : (0 : ℝ) ≤ m := by exact_mod_cast hm0
    -- distance to a tie
    have hgap : ∀ p : ℤ, p % 2 = 1 → (p : ℝ) ≤ 2 * x + 2 → x / 2 ^ 51 < |x - p / 2| := by
      intro p hp hpx
      have hxp : 0 < x := Real.sqrt_pos.mpr hy0
      rcases le_or_gt p 0 with hp0 | hp0
      · have : (p : ℝ) ≤ 0 := by exact_mod_cast hp0
        rw [abs_of_nonneg (by linarith)]; linarith
      have hp1 : (1 : ℝ) ≤ p := by exact_mod_cast hp0
      have hne : 4 * (n : ℤ) - t * p ^ 2 ≠ 0 := by
        intro hz
        apply htie
        refine ⟨p, hp, ?_⟩
        have hz' : 4 * (n : ℝ) - t * (p : ℝ) ^ 2 = 0 := by exact_mod_cast hz
        have e : (n : ℝ) / t = (p / 2) ^ 2 := by rw [div_eq_iff ht'.ne']; linarith
        show √((n : ℝ) / t) = p / 2
        rw [e, Real.sqrt_sq (by linarith)]
      have hone : (1 : ℝ) ≤ |4 * (n : ℝ) - t * (p : ℝ) ^ 2| := by
        have : 4 * (n : ℝ) - t * (p : ℝ) ^ 2 = ((4 * (n : ℤ) - t * p ^ 2 : ℤ) : ℝ) := by push_cast; ring
        rw [this, ← Int.cast_abs]
        exact_mod_cast Int.one_le_abs hne
      have hxt : x * x * t = n := by rw [hxx, div_mul_cancel₀ _ ht'.ne']
      have e : 4 * (n : ℝ) - t * (p : ℝ) ^ 2 = (x - p / 2) * (4 * t * (x + p / 2)) := by rw [← hxt]; ring
      rw [e, abs_mul, abs_of_pos (show 0 < 4 * (t : ℝ) * (x + p / 2) by positivity)] at hone
      have hbnd : x * (4 * t * (x + p / 2)) ≤ 4 * (2 * n + n + t) := by
        have h3 : x + p / 2 ≤ 2 * x + 1 := by linarith
        have h4 : x * (4 * t * (x + p / 2)) ≤ x * (4 * t * (2 * x + 1)) := by
          apply mul_le_mul_of_nonneg_left _ hx0
          apply mul_le_mul_of_nonneg_left h3 (by linarith)
        have h5 : x * (4 * t * (2 * x + 1)) = 4 * (2 * (x * x * t) + x * t) := by ring
        rw [h5, hxt] at h4
        have h6 : x * t ≤ n + t := by
          have : x ≤ x * x + 1 := by nlinarith
          have := mul_le_mul_of_nonneg_right this ht'.le
          rw [add_mul, hxt, one_mul] at this
          exact this
        linarith
      by_contra hc
      have h7 := mul_le_mul_of_nonneg_right (not_lt.mp hc) (show 0 ≤ 4 * (t : ℝ) * (x + p / 2) by positivity)
      have h8 : x / 2 ^ 51 * (4 * t * (x + p / 2)) = x * (4 * t * (x + p / 2)) / 2 ^ 51 := by ring
      rw [h8] at h7
      have h9 : x * (4 * t * (x + p / 2)) / 2 ^ 51 ≤ 4 * (2 * n + n + t) / 2 ^ 51 := div_le_div_of_nonneg_right hbnd (by norm_num)
      have h10 : 4 * (2 * (n : ℝ) + n + t) / 2 ^ 51 < 1 := by rw [div_lt_one (by norm_num)]; linarith
      linarith
    have g1 := hgap (2 * m + 1) (by omega) (by push_cast; linarith)
    have g2 := hgap (2 * m - 1) (by omega) (by push_cast; linarith)
    push_cast at g1 g2
    rw [abs_of_nonpos (by linarith)] at g1
    rw [abs_of_nonneg (by linarith)] at g2
    obtain ⟨e1, e2⟩ := abs_le.mp herr
    apply rint_eq_of_lt
    · have h3 : (((m : ℚ) - 1 / 2 : ℚ) : ℝ) < ((sq V : ℚ) : ℝ) := by push_cast; linarith
      exact_mod_cast h3
    · have h3 : ((sq V : ℚ) : ℝ) < (((m : ℚ) + 1 / 2 : ℚ) : ℝ) := by push_cast; linarith
      exact_mod_cast h3

end Spurt
