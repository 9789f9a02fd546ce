import Mathlib.Algebra.Order.Floor.Ring
import Mathlib.Algebra.Order.Floor.Semiring
import Mathlib.Algebra.Order.Archimedean.Basic
import Mathlib.Algebra.BigOperators.Intervals
import Mathlib.Algebra.Order.BigOperators.Ring.Finset
import Mathlib.Order.Interval.Finset.Nat
import Mathlib.Tactic.Linarith
import Mathlib.Tactic.FieldSimp
import Mathlib.Tactic.Ring
import Mathlib.Tactic.Positivity

/-! # Rounding real numbers of cycles to whole ones without a larger disagreement -/

namespace Spurt

section
variable {K : Type} [Field K] [LinearOrder K] [IsStrictOrderedRing K] [FloorRing K]

theorem floor_add_frac (x θ : K) (h0 : 0 ≤ θ) (h1 : θ < 1) :
    ⌊x + θ⌋ = ⌊x⌋ + if 1 - Int.fract x ≤ θ then 1 else 0 := by
  have e := Int.floor_add_fract x
  have a := Int.fract_nonneg x
  have b := Int.fract_lt_one x
  split
  · rw [Int.floor_eq_iff]
    push_cast
    constructor <;> linarith
  · rw [Int.floor_eq_iff]
    push_cast
    constructor <;> linarith

theorem floor_sum (N : Nat) (hN : 0 < N) (x : K) :
    |∑ k ∈ Finset.range N, (⌊x + (k : K) / N⌋ : K) - N * x| ≤ 1 := by
  have hN' : (0 : K) < N := by exact_mod_cast hN
  set z : K := N * (1 - Int.fract x) with hz
  have a := Int.fract_nonneg x
  have b := Int.fract_lt_one x
  have e := Int.floor_add_fract x
  have hz0 : 0 ≤ z := mul_nonneg hN'.le (by linarith)
  have hzN : z ≤ N := by rw [hz]; nlinarith
  have hc : ⌈z⌉₊ ≤ N := Nat.ceil_le.mpr hzN
  have step : ∀ k ∈ Finset.range N, (⌊x + (k : K) / N⌋ : K) = (⌊x⌋ : K) + if ⌈z⌉₊ ≤ k then 1 else 0 := by
    intro k hk
    have hk' : (k : K) < N := by exact_mod_cast Finset.mem_range.mp hk
    rw [floor_add_frac x ((k : K) / N) (by positivity) (by rw [div_lt_one hN']; exact hk')]
    have : 1 - Int.fract x ≤ (k : K) / N ↔ ⌈z⌉₊ ≤ k := by
      rw [le_div_iff₀ hN', Nat.ceil_le, hz, mul_comm]
    by_cases h : ⌈z⌉₊ ≤ k
    · rw [if_pos (this.mpr h), if_pos h]; push_cast; rfl
    · rw [if_neg (fun h' => h (this.mp h')), if_neg h]; push_cast; rfl
  rw [Finset.sum_congr rfl step, Finset.sum_add_distrib, Finset.sum_const, Finset.card_range, Finset.sum_ite]
  have hcard : ((Finset.range N).filter fun k => ⌈z⌉₊ ≤ k).card = N - ⌈z⌉₊ := by
    have : (Finset.range N).filter (fun k => ⌈z⌉₊ ≤ k) = Finset.Ico ⌈z⌉₊ N := by
      ext k; simp [and_comm]
    rw [this, Nat.card_Ico]
  simp only [Finset.sum_const, hcard, nsmul_eq_mul, mul_one, mul_zero, add_zero]
  rw [Nat.cast_sub hc]
  have c1 := Nat.le_ceil z
  have c2 := Nat.ceil_lt_add_one hz0
  have hx : (N : K) * x = N * ⌊x⌋ + N * Int.fract x := by rw [← mul_add, e]
  rw [hx]
  have : z = N - N * Int.fract x := by rw [hz]; ring
  rw [abs_le]
  constructor <;> linarith

theorem floor_diff (a b θ : K) : ⌊a - b⌋ ≤ ⌊a + θ⌋ - ⌊b + θ⌋ ∧ ⌊a + θ⌋ - ⌊b + θ⌋ ≤ ⌊a - b⌋ + 1 := by
  have h1 := Int.floor_le (a + θ)
  have h2 := Int.lt_floor_add_one (a + θ)
  have h3 := Int.floor_le (b + θ)
  have h4 := Int.lt_floor_add_one (b + θ)
  have h5 := Int.floor_le (a - b)
  have h6 := Int.lt_floor_add_one (a - b)
  constructor
  · have : (⌊a - b⌋ : K) < ((⌊a + θ⌋ - ⌊b + θ⌋ + 1 : ℤ) : K) := by push_cast; linarith
    have := Int.cast_lt.mp this
    omega
  · have : ((⌊a + θ⌋ - ⌊b + θ⌋ : ℤ) : K) < ((⌊a - b⌋ + 2 : ℤ) : K) := by push_cast; linarith
    have := Int.cast_lt.mp this
    omega

theorem abs_floor_sum (N : Nat) (hN : 0 < N) (a b : K) (o : ℤ) :
    ∑ k ∈ Finset.range N, ((|o - (⌊a + (k : K) / N⌋ - ⌊b + (k : K) / N⌋)| : ℤ) : K) ≤ N * |(o : K) - (a - b)| + 2 := by
  have ha := abs_le.mp (floor_sum N hN a)
  have hb := abs_le.mp (floor_sum N hN b)
  have hN' : (0 : K) < N := by exact_mod_cast hN
  by_cases h : o ≤ ⌊a - b⌋
  · have : ∀ k ∈ Finset.range N, ((|o - (⌊a + (k : K) / N⌋ - ⌊b + (k : K) / N⌋)| : ℤ) : K) =
        (⌊a + (k : K) / N⌋ : K) - ⌊b + (k : K) / N⌋ - o := by
      intro k _
      have := (floor_diff a b ((k : K) / N)).1
      rw [abs_of_nonpos (by omega)]
      push_cast; ring
    rw [Finset.sum_congr rfl this, Finset.sum_sub_distrib, Finset.sum_sub_distrib, Finset.sum_const, Finset.card_range,
      nsmul_eq_mul]
    have h2 : N * -((o : K) - (a - b)) ≤ N * |(o : K) - (a - b)| :=
      mul_le_mul_of_nonneg_left (neg_le_abs _) hN'.le
    linarith
  · have : ∀ k ∈ Finset.range N, ((|o - (⌊a + (k : K) / N⌋ - ⌊b + (k : K) / N⌋)| : ℤ) : K) =
        o - ((⌊a + (k : K) / N⌋ : K) - ⌊b + (k : K) / N⌋) := by
      intro k _
      have := (floor_diff a b ((k : K) / N)).2
      rw [abs_of_nonneg (by omega)]
      push_cast; ring
    rw [Finset.sum_congr rfl this, Finset.sum_sub_distrib, Finset.sum_sub_distrib, Finset.sum_const, Finset.card_range,
      nsmul_eq_mul]
    have h2 : N * ((o : K) - (a - b)) ≤ N * |(o : K) - (a - b)| :=
      mul_le_mul_of_nonneg_left (le_abs_self _) hN'.le
    linarith

/-- The disagreement after rounding down at `θ`. -/
def floorError {ι : Type} (cs : List ((ι × ι) × ℤ)) (x : ι → K) (θ : K) : ℤ :=
  (cs.map fun c => |c.2 - (⌊x c.1.2 + θ⌋ - ⌊x c.1.1 + θ⌋)|).sum

theorem floorError_sum {ι : Type} (cs : List ((ι × ι) × ℤ)) (x : ι → K) (N : Nat) (hN : 0 < N) :
    ∑ k ∈ Finset.range N, ((floorError cs x ((k : K) / N) : ℤ) : K) ≤
      N * (cs.map fun c => |(c.2 : K) - (x c.1.2 - x c.1.1)|).sum + 2 * cs.length := by
  induction cs with
  | nil => simp [floorError]
  | cons c cs ih =>
    have h1 : ∀ k ∈ Finset.range N, ((floorError (c :: cs) x ((k : K) / N) : ℤ) : K) =
        ((|c.2 - (⌊x c.1.2 + (k : K) / N⌋ - ⌊x c.1.1 + (k : K) / N⌋)| : ℤ) : K) + ((floorError cs x ((k : K) / N) : ℤ) : K) := by
      intro k _
      simp only [floorError, List.map_cons, List.sum_cons]
      push_cast
      rfl
    rw [Finset.sum_congr rfl h1, Finset.sum_add_distrib]
    have h2 := abs_floor_sum N hN (x c.1.2) (x c.1.1) c.2
    simp only [List.map_cons, List.sum_cons, List.length_cons, mul_add]
    push_cast at h2 ⊢
    linarith

/-- Some way of rounding the numbers to whole ones does not disagree more with whole numbers for the pairs. -/
theorem exists_rounding {ι : Type} (cs : List ((ι × ι) × ℤ)) (x : ι → K) : ∃ θ : K, 0 ≤ θ ∧ θ < 1 ∧
    ((floorError cs x θ : ℤ) : K) ≤ (cs.map fun c => |(c.2 : K) - (x c.1.2 - x c.1.1)|).sum := by
  set S : K := (cs.map fun c => |(c.2 : K) - (x c.1.2 - x c.1.1)|).sum with hS
  have hgap : 0 < (⌊S⌋ : K) + 1 - S := by have := Int.lt_floor_add_one S; linarith
  obtain ⟨N, hN⟩ := exists_nat_gt (2 * (cs.length : K) / ((⌊S⌋ : K) + 1 - S))
  have hN1 : (0 : K) ≤ 2 * (cs.length : K) / ((⌊S⌋ : K) + 1 - S) := div_nonneg (by positivity) hgap.le
  have hNpos : (0 : K) < N := lt_of_le_of_lt hN1 hN
  have hN0 : 0 < N := by exact_mod_cast hNpos
  rw [div_lt_iff₀ hgap] at hN
  have hsum := floorError_sum cs x N hN0
  by_contra hc
  push Not at hc
  have hbig : ∀ k ∈ Finset.range N, (⌊S⌋ : K) + 1 ≤ ((floorError cs x ((k : K) / N) : ℤ) : K) := by
    intro k hk
    have hk' : (k : K) < N := by exact_mod_cast Finset.mem_range.mp hk
    have := hc ((k : K) / N) (by positivity) (by rw [div_lt_one hNpos]; exact hk')
    have h2 : ⌊S⌋ < floorError cs x ((k : K) / N) := by
      rw [← Int.cast_lt (R := K)]
      exact lt_of_le_of_lt (Int.floor_le S) this
    exact_mod_cast h2
  have hall := Finset.sum_le_sum hbig
  rw [Finset.sum_const, Finset.card_range, nsmul_eq_mul] at hall
  rw [← hS] at hsum
  linarith

end

end Spurt
