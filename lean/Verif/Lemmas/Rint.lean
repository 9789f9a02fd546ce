import Verif.Model.Basic
import Mathlib.Tactic.Positivity
import Mathlib.Tactic.FieldSimp
import Mathlib.Tactic.NormNum
import Mathlib.Algebra.Order.Floor.Ring
import Mathlib.Algebra.Order.Group.Abs

namespace Spurt

variable {K : Type*} [Field K] [LinearOrder K] [IsStrictOrderedRing K] [FloorRing K]

theorem rint_bounds (x : K) : (rint x : K) - 1 / 2 ≤ x ∧ x ≤ (rint x : K) + 1 / 2 := by
  have h1 := Int.floor_le x
  have h2 := Int.lt_floor_add_one x
  unfold rint
  simp only
  split
  · constructor <;> linarith
  · split
    · push_cast; constructor <;> linarith
    · split
      · constructor <;> linarith
      · push_cast; constructor <;> linarith

theorem rint_abs (x : K) : |x - (rint x : K)| ≤ 1 / 2 := by
  have := rint_bounds x
  rw [abs_le]; constructor <;> linarith

/-- Away from ties the nearest integer is unique. -/
theorem rint_eq_of_lt {x : K} {n : ℤ} (h1 : (n : K) - 1 / 2 < x) (h2 : x < (n : K) + 1 / 2) :
    rint x = n := by
  have h := rint_bounds x
  have a : (rint x : K) < (n : K) + 1 := by linarith
  have b : (n : K) < (rint x : K) + 1 := by linarith
  have a' : rint x < n + 1 := by exact_mod_cast a
  have b' : n < rint x + 1 := by exact_mod_cast b
  omega

theorem rint_intCast (n : ℤ) : rint (n : K) = n :=
  rint_eq_of_lt (by linarith) (by linarith)

theorem rint_zero : rint (0 : K) = 0 := by
  have := rint_intCast (K := K) 0
  simpa using this

/-- The value at a tie is even. -/
theorem rint_tie (n : ℤ) : rint ((n : K) + 1 / 2) = if n % 2 = 0 then n else n + 1 := by
  have hf : ⌊(n : K) + 1 / 2⌋ = n := by
    rw [Int.floor_eq_iff]; constructor <;> linarith
  unfold rint
  simp only [hf]
  have : (n : K) + 1 / 2 - n = 1 / 2 := by ring
  rw [this, if_neg (lt_irrefl _), if_neg (lt_irrefl _)]

theorem rint_cases (x : K) :
    (∃ n : ℤ, (n : K) - 1 / 2 < x ∧ x < n + 1 / 2) ∨ ∃ n : ℤ, x = n + 1 / 2 := by
  have h1 := Int.floor_le x
  have h2 := Int.lt_floor_add_one x
  rcases lt_trichotomy (x - ⌊x⌋) (1 / 2) with h | h | h
  · left; exact ⟨⌊x⌋, by linarith, by linarith⟩
  · right; exact ⟨⌊x⌋, by linarith⟩
  · left; refine ⟨⌊x⌋ + 1, ?_, ?_⟩ <;> push_cast <;> linarith

theorem rint_neg (x : K) : rint (-x) = - rint x := by
  rcases rint_cases x with ⟨n, h1, h2⟩ | ⟨n, rfl⟩
  · rw [rint_eq_of_lt h1 h2]
    apply rint_eq_of_lt <;> push_cast <;> linarith
  · have : -((n : K) + 1 / 2) = ((-n - 1 : ℤ) : K) + 1 / 2 := by push_cast; ring
    rw [this, rint_tie, rint_tie]
    split <;> split <;> omega

theorem rint_mono {x y : K} (h : x ≤ y) : rint x ≤ rint y := by
  rcases rint_cases x with ⟨n, h1, h2⟩ | ⟨n, rfl⟩
  · rw [rint_eq_of_lt h1 h2]
    have hy := rint_bounds y
    have : (n : K) < (rint y : K) + 1 := by linarith
    have : n < rint y + 1 := by exact_mod_cast this
    omega
  · rcases rint_cases y with ⟨m, h1, h2⟩ | ⟨m, rfl⟩
    · rw [rint_eq_of_lt h1 h2]
      have hx := rint_bounds ((n : K) + 1 / 2)
      have : (rint ((n : K) + 1 / 2) : K) < (m : K) + 1 := by linarith
      have : rint ((n : K) + 1 / 2) < m + 1 := by exact_mod_cast this
      omega
    · have : (n : K) ≤ m := by linarith
      have : n ≤ m := by exact_mod_cast this
      rw [rint_tie, rint_tie]
      split <;> split <;> omega

theorem rint_add_int (x : K) (n : ℤ) (h : ∀ k : ℤ, x ≠ k + 1 / 2) : rint (x + n) = rint x + n := by
  rcases rint_cases x with ⟨m, h1, h2⟩ | ⟨m, hm⟩
  · rw [rint_eq_of_lt h1 h2]
    apply rint_eq_of_lt <;> push_cast <;> linarith
  · exact absurd hm (h m)

theorem rint_abs_le_half {x : K} (h : |x| ≤ 1 / 2) : rint x = 0 := by
  rw [abs_le] at h
  rcases eq_or_lt_of_le h.2 with h2 | h2
  · have : x = ((0 : ℤ) : K) + 1 / 2 := by push_cast; linarith
    rw [this, rint_tie]; simp
  · rcases eq_or_lt_of_le h.1 with h1 | h1
    · have : x = ((-1 : ℤ) : K) + 1 / 2 := by push_cast; linarith
      rw [this, rint_tie]; simp
    · apply rint_eq_of_lt <;> push_cast <;> linarith

theorem rint_le_of_le {x : K} {n : ℤ} (h : x ≤ n) : rint x ≤ n := by
  have := rint_mono h
  rwa [rint_intCast] at this

theorem le_rint_of_le {x : K} {n : ℤ} (h : (n : K) ≤ x) : n ≤ rint x := by
  have := rint_mono h
  rwa [rint_intCast] at this

/-! ## phase_diff -/

theorem phaseDiff_eq (tau z0 z1 : K) :
    phaseDiff tau z0 z1 = z1 - z0 - (rint ((z1 - z0) / tau) : K) * tau := by
  simp [phaseDiff]

theorem phaseDiff_swap (tau z0 z1 : K) : phaseDiff tau z1 z0 = - phaseDiff tau z0 z1 := by
  rw [phaseDiff_eq, phaseDiff_eq]
  have : (z0 - z1) / tau = -((z1 - z0) / tau) := by ring
  rw [this, rint_neg]
  push_cast; ring

theorem phaseDiff_abs {tau : K} (ht : 0 < tau) (z0 z1 m : K) :
    |phaseDiff tau z0 z1 m - m| ≤ tau / 2 := by
  have h := rint_bounds ((z1 - z0 - m) / tau)
  have e : phaseDiff tau z0 z1 m - m
      = ((z1 - z0 - m) / tau - (rint ((z1 - z0 - m) / tau) : K)) * tau := by
    unfold phaseDiff
    simp only
    field_simp
    ring
  rw [e, abs_le]
  constructor <;> nlinarith

theorem phaseDiff_small {tau : K} (ht : 0 < tau) {z0 z1 : K} (h : |z1 - z0| ≤ tau / 2) :
    phaseDiff tau z0 z1 = z1 - z0 := by
  rw [phaseDiff_eq, rint_abs_le_half]
  · simp
  · rw [abs_div, abs_of_pos ht, div_le_iff₀ ht]; linarith

end Spurt
