import Verif.Model.Percentile16
import Verif.Props.Deciles

/-!
# Property C38 with the 16-bit subtraction of numpy
-/

namespace Spurt
open Spec

theorem percentile16_eq {s : List ℤ} {q : ℚ} (h0 : 0 ≤ q) (h1 : q ≤ 100) (h : ∀ x ∈ s, ∀ y ∈ s, y - x ≤ 32767) :
    percentileSorted16 s q = percentileSorted s q := by
  have key : ∀ a b : ℤ, toInt16 (b - a) = b - a → ∀ t : ℚ,
      (if 1 / 2 ≤ t then (b : ℚ) - ((toInt16 (b - a) : ℤ) : ℚ) * (1 - t) else a + ((toInt16 (b - a) : ℤ) : ℚ) * t) =
        a + ((b : ℚ) - a) * t := by
    intro a b hab t
    rw [hab]
    push_cast
    split <;> ring
  rcases List.eq_nil_or_concat s with rfl | ⟨_, _, rfl⟩
  · unfold percentileSorted16 percentileSorted
    simp [toInt16]
  · rename_i l x
    rw [List.concat_eq_append] at *
    set s := l ++ [x] with hs
    have hlen : 0 < s.length := by simp [hs]
    unfold percentileSorted16 percentileSorted
    simp only
    have hv : q / 100 * ((s.length : ℚ) - 1) ≤ ((s.length - 1 : ℕ) : ℚ) := by
      rw [Nat.cast_pred hlen]
      have h2 : q / 100 ≤ 1 := by linarith
      have h3 : (0 : ℚ) ≤ (s.length : ℚ) - 1 := by
        have : (1 : ℚ) ≤ s.length := by exact_mod_cast hlen
        linarith
      nlinarith
    have hlo : ⌊q / 100 * ((s.length : ℚ) - 1)⌋.toNat < s.length := by
      have : ⌊q / 100 * ((s.length : ℚ) - 1)⌋ ≤ ((s.length - 1 : ℕ) : ℤ) := by
        have := Int.floor_le_floor hv
        rwa [Int.floor_natCast] at this
      omega
    refine key _ _ ?_ _
    generalize ⌊q / 100 * ((s.length : ℚ) - 1)⌋.toNat = i at hlo ⊢
    have hj : min (i + 1) (s.length - 1) < s.length := by omega
    generalize min (i + 1) (s.length - 1) = j at hj ⊢
    have e1 : s.getD i 0 ∈ s := by
      rw [List.getD_eq_getElem?_getD, List.getElem?_eq_getElem hlo]
      exact List.getElem_mem hlo
    have e2 : s.getD j 0 ∈ s := by
      rw [List.getD_eq_getElem?_getD, List.getElem?_eq_getElem hj]
      exact List.getElem_mem hj
    have h1 := h _ e1 _ e2
    have h2 := h _ e2 _ e1
    unfold toInt16
    omega

/-- C38 with numpy's 16-bit subtraction. If no two differences of a row are more than 32767 cycles apart, the 16-bit statistics are
those of unbounded integers. -/
theorem C38_int16 (row : List ℤ) (h : ∀ x ∈ row, ∀ y ∈ row, y - x ≤ 32767) : deciles16 row = deciles row := by
  obtain ⟨hp, _⟩ := sortInt_spec row
  unfold deciles16 deciles
  simp only
  apply List.map_congr_left
  intro k hk
  rw [List.mem_range] at hk
  have hk' : (k : ℚ) ≤ 10 := by exact_mod_cast (by omega : k ≤ 10)
  exact percentile16_eq (by positivity) (by linarith) fun x hx y hy => h x (hp.mem_iff.mp hx) y (hp.mem_iff.mp hy)

/-- C38 with numpy's 16-bit subtraction. If no pixel differs by 16383 cycles or more between the two arrays, the
function returns what it returns for unbounded integers. -/
theorem C38_int16_pairwise {K : Type} [Field K] [LinearOrder K] [IsStrictOrderedRing K] [FloorRing K] (tau : K) (b1 b2 : NdArray K)
    (h : ∀ nb n, b1.shape = [nb, n] → ∀ r < nb, ∀ c < n, |(b2.get [r, c] - b1.get [r, c]) / tau| < 16383) :
    pairwiseDeciles16 tau b1 b2 = pairwiseDeciles tau b1 b2 := by
  have hc : ∀ i, |(b2.get i - b1.get i) / tau| < 16383 → |cycleDiff tau b1 b2 i| ≤ 16383 := by
    intro i h
    have h1 : |rint ((b2.get i - b1.get i) / tau)| ≤ 16383 := by
      have h2 := abs_lt.mp h
      have h3 := abs_le.mp (rint_abs ((b2.get i - b1.get i) / tau))
      have h4 : ((rint ((b2.get i - b1.get i) / tau) : ℤ) : K) < ((16384 : ℤ) : K) := by push_cast; linarith
      have h5 : ((-16384 : ℤ) : K) < ((rint ((b2.get i - b1.get i) / tau) : ℤ) : K) := by push_cast; linarith
      have h6 := Int.cast_lt.mp h4
      have h7 := Int.cast_lt.mp h5
      rw [abs_le]
      omega
    unfold cycleDiff toInt16
    rw [abs_le] at h1 ⊢
    omega
  unfold pairwiseDeciles16 pairwiseDeciles
  split
  · rfl
  split
  · rename_i nb n hs
    simp only [hs]
    split
    · rfl
    split
    · rfl
    congr 1
    apply List.map_congr_left
    intro r hr
    apply C38_int16
    intro x hx y hy
    obtain ⟨c, hc1, rfl⟩ := List.mem_map.mp hx
    obtain ⟨c', hc2, rfl⟩ := List.mem_map.mp hy
    rw [List.mem_range] at hr hc1 hc2
    have h1 := abs_le.mp (hc [r, c] (h nb n hs r hr c hc1))
    have h2 := abs_le.mp (hc [r, c'] (h nb n hs r hr c' hc2))
    omega
  · rename_i hs
    split
    · rename_i nb n h2
      exact absurd h2 (hs nb n)
    · rfl

/-- Non-vacuity of `C38_int16`: differences up to 30000 cycles apart, with an interpolated median. -/
example : (∀ x ∈ [-15000, 15000, -15000, 15000, -15000, 15000, (-15000 : ℤ), 15000, -15000, 15000, -15000, 15000],
    ∀ y ∈ [-15000, 15000, -15000, 15000, -15000, 15000, (-15000 : ℤ), 15000, -15000, 15000, -15000, 15000], y - x ≤ 32767) := by
  decide

/-- The bound of `C38_int16` cannot be dropped: half of the pixels at -20000 cycles, half at 20000. The median of the
statistics is 32768 cycles, above every difference, instead of 0. -/
theorem C38_int16_bound_needed : ∃ row : List ℤ, (∀ x ∈ row, -32768 ≤ x ∧ x ≤ 32767) ∧ row.length = 12 ∧
    (deciles row)[5]? = some 0 ∧ (deciles16 row)[5]? = some 32768 ∧ ∀ x ∈ row, (x : ℚ) < 32768 := by
  let row : List ℤ := List.replicate 6 (-20000) ++ List.replicate 6 20000
  have hsort : row.mergeSort (· ≤ ·) = row := by
    obtain ⟨hp, hs⟩ := sortInt_spec row
    exact sorted_unique hp hs (by decide)
  refine ⟨row, by decide, by decide, ?_, ?_, ?_⟩
  · unfold deciles
    rw [hsort]
    have : percentileSorted row (10 * ((5 : ℕ) : ℚ)) = 0 := by
      decide +kernel
    simpa using this
  · unfold deciles16
    rw [hsort]
    have : percentileSorted16 row (10 * ((5 : ℕ) : ℚ)) = 32768 := by
      decide +kernel
    simpa using this
  · decide +kernel

/-- Non-vacuity of `C38_int16_pairwise`: twelve pixels, half of them 9000 cycles lower, half 9000 cycles higher in the second array. -/
example : ∀ nb n, ((⟨[1, 12], fun _ => 0⟩ : NdArray ℚ)).shape = [nb, n] → ∀ r < nb, ∀ c < n,
    |(((⟨[1, 12], fun i => if i.getD 1 0 < 6 then -9000 else 9000⟩ : NdArray ℚ)).get [r, c] -
      ((⟨[1, 12], fun _ => 0⟩ : NdArray ℚ)).get [r, c]) / 1| < 16383 := by
  intro nb n _ r _ c _
  simp only
  split <;> norm_num [abs_lt]

end Spurt
