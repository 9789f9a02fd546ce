import Verif.Model.Overlap
import Verif.Lemmas.Rint
import Mathlib.Tactic.LinearCombination
import Mathlib.Tactic.NormNum
import Mathlib.Tactic.FieldSimp
import Mathlib.Tactic.IntervalCases
import Mathlib.Data.List.GetD

/-!
# Property C38: statistics of the differences of two tiles
-/

namespace Spurt

/-! ### Interpolation in a sorted list -/

theorem getD_mono {s : List ℤ} (hs : s.Pairwise (· ≤ ·)) {i j : Nat} (hij : i ≤ j) (hj : j < s.length) :
    s.getD i 0 ≤ s.getD j 0 := by
  rw [List.getD_eq_getElem _ _ (by omega), List.getD_eq_getElem _ _ hj]
  rcases Nat.lt_or_eq_of_le hij with h | rfl
  · exact List.pairwise_iff_getElem.mp hs i j (by omega) hj h
  · exact le_rfl

/-- The interpolated value lies between the two neighbouring entries. -/
theorem percentile_between {s : List ℤ} (hs : s.Pairwise (· ≤ ·)) (hne : 0 < s.length) {q : ℚ}
    (h0 : 0 ≤ q) (h1 : q ≤ 100) :
    ∃ lo : Nat, lo < s.length ∧ (lo : ℚ) ≤ q / 100 * ((s.length : ℚ) - 1) ∧
      q / 100 * ((s.length : ℚ) - 1) < lo + 1 ∧
      percentileSorted s q = (s.getD lo 0 : ℤ) + ((s.getD (min (lo + 1) (s.length - 1)) 0 : ℤ) -
        (s.getD lo 0 : ℤ)) * (q / 100 * ((s.length : ℚ) - 1) - lo) := by
  have hn : (1 : ℚ) ≤ s.length := by exact_mod_cast hne
  have hv0 : 0 ≤ q / 100 * ((s.length : ℚ) - 1) := by
    apply mul_nonneg (by positivity); linarith
  have hv1 : q / 100 * ((s.length : ℚ) - 1) ≤ s.length - 1 := by
    have : q / 100 ≤ 1 := by linarith
    nlinarith
  have hfl : 0 ≤ ⌊q / 100 * ((s.length : ℚ) - 1)⌋ := Int.floor_nonneg.mpr hv0
  have hcast : ((⌊q / 100 * ((s.length : ℚ) - 1)⌋.toNat : ℕ) : ℚ) = (⌊q / 100 * ((s.length : ℚ) - 1)⌋ : ℚ) := by
    exact_mod_cast congrArg (fun z : ℤ => (z : ℚ)) (Int.toNat_of_nonneg hfl)
  refine ⟨⌊q / 100 * ((s.length : ℚ) - 1)⌋.toNat, ?_, ?_, ?_, ?_⟩
  · have h2 := Int.floor_le (q / 100 * ((s.length : ℚ) - 1))
    rw [← hcast] at h2
    have : ((⌊q / 100 * ((s.length : ℚ) - 1)⌋.toNat : ℕ) : ℚ) + 1 ≤ s.length := by linarith
    exact_mod_cast this
  · rw [hcast]; exact Int.floor_le _
  · rw [hcast]; exact Int.lt_floor_add_one _
  · unfold percentileSorted
    simp only
    rw [hcast]

theorem percentile_mono {s : List ℤ} (hs : s.Pairwise (· ≤ ·)) (hne : 0 < s.length) {q r : ℚ}
    (h0 : 0 ≤ q) (hqr : q ≤ r) (h1 : r ≤ 100) : percentileSorted s q ≤ percentileSorted s r := by
  obtain ⟨i, hi, i1, i2, hiq⟩ := percentile_between hs hne h0 (le_trans hqr h1)
  obtain ⟨j, hj, j1, j2, hjr⟩ := percentile_between hs hne (le_trans h0 hqr) h1
  have hn : (1 : ℚ) ≤ s.length := by exact_mod_cast hne
  have hvv : q / 100 * ((s.length : ℚ) - 1) ≤ r / 100 * ((s.length : ℚ) - 1) := by
    apply mul_le_mul_of_nonneg_right _ (by linarith)
    linarith
  have hmi : (s.getD i 0 : ℚ) ≤ (s.getD (min (i + 1) (s.length - 1)) 0 : ℤ) := by
    exact_mod_cast getD_mono hs (by omega) (by omega)
  have hmj : (s.getD j 0 : ℚ) ≤ (s.getD (min (j + 1) (s.length - 1)) 0 : ℤ) := by
    exact_mod_cast getD_mono hs (by omega) (by omega)
  rw [hiq, hjr]
  have hij : i ≤ j := by
    have : (i : ℚ) < (j : ℚ) + 1 := by linarith
    have : i < j + 1 := by exact_mod_cast this
    omega
  rcases Nat.lt_or_eq_of_le hij with h | rfl
  · have h2 : (s.getD (min (i + 1) (s.length - 1)) 0 : ℚ) ≤ (s.getD j 0 : ℤ) := by
      exact_mod_cast getD_mono hs (by omega) (by omega)
    nlinarith
  · nlinarith

theorem percentile_first {s : List ℤ} : percentileSorted s 0 = (s.getD 0 0 : ℤ) := by
  unfold percentileSorted
  simp

theorem percentile_last {s : List ℤ} (hne : 0 < s.length) :
    percentileSorted s 100 = (s.getD (s.length - 1) 0 : ℤ) := by
  have hv : (100 : ℚ) / 100 * ((s.length : ℚ) - 1) = ((s.length - 1 : ℕ) : ℚ) := by
    rw [Nat.cast_sub hne]; norm_num
  unfold percentileSorted
  simp only
  rw [hv]
  simp

theorem percentile_half {s : List ℤ} (hne : 0 < s.length) :
    percentileSorted s 50 =
      ((s.getD ((s.length - 1) / 2) 0 : ℤ) + (s.getD (s.length / 2) 0 : ℤ) : ℚ) / 2 := by
  have hv : (50 : ℚ) / 100 * ((s.length : ℚ) - 1) = ((s.length - 1 : ℕ) : ℚ) / 2 := by
    rw [Nat.cast_sub hne]; push_cast; ring
  unfold percentileSorted
  simp only
  rw [hv]
  rcases Nat.even_or_odd' (s.length - 1) with ⟨k, hk | hk⟩
  · rw [hk]
    have e : (((2 * k : ℕ) : ℚ) / 2) = ((k : ℕ) : ℚ) := by push_cast; ring
    rw [e, show s.length / 2 = k by omega, show 2 * k / 2 = k by omega]
    simp
  · rw [hk]
    have e : ⌊(((2 * k + 1 : ℕ) : ℚ) / 2)⌋ = (k : ℤ) := by
      rw [Int.floor_eq_iff]
      push_cast
      constructor <;> linarith
    rw [e, show (2 * k + 1) / 2 = k by omega, show s.length / 2 = k + 1 by omega]
    rw [Int.toNat_natCast, show min (k + 1) (2 * k + 1) = k + 1 by omega]
    push_cast
    ring

theorem sortInt_spec (l : List ℤ) : (l.mergeSort (· ≤ ·)).Perm l ∧
    (l.mergeSort (· ≤ ·)).Pairwise (· ≤ ·) := by
  refine ⟨List.mergeSort_perm _ _, ?_⟩
  have := List.pairwise_mergeSort (le := fun a b : ℤ => decide (a ≤ b))
    (by intro a b c h1 h2; simp only [decide_eq_true_eq] at *; exact le_trans h1 h2)
    (by intro a b; simp only [Bool.or_eq_true, decide_eq_true_eq]; exact le_total a b) l
  exact this.imp (by intro a b h; simpa using h)

theorem sorted_unique {s t : List ℤ} (h : s.Perm t) (hs : s.Pairwise (· ≤ ·)) (ht : t.Pairwise (· ≤ ·)) :
    s = t := List.Perm.eq_of_pairwise (le := (· ≤ ·)) (fun a b _ _ h1 h2 => le_antisymm h1 h2) hs ht h

/-- C38. The 11 statistics of a list of cycle differences: never decreasing, starting at the
smallest and ending at the largest difference, with the median in the middle. -/
theorem C38_order (row : List ℤ) (hne : row ≠ []) :
    (deciles row).length = 11 ∧ (deciles row).Pairwise (· ≤ ·) ∧
    (∃ lo ∈ row, (deciles row)[0]? = some (lo : ℚ) ∧ ∀ x ∈ row, lo ≤ x) ∧
    (∃ hi ∈ row, (deciles row)[10]? = some (hi : ℚ) ∧ ∀ x ∈ row, x ≤ hi) ∧
    ∀ s : List ℤ, s.Perm row → s.Pairwise (· ≤ ·) →
      (deciles row)[5]? = some (((s.getD ((s.length - 1) / 2) 0 : ℤ) + (s.getD (s.length / 2) 0 : ℤ) : ℚ) / 2) := by
  obtain ⟨hp, hs⟩ := sortInt_spec row
  set s := row.mergeSort (· ≤ ·) with hsdef
  have hd : deciles row = (List.range 11).map fun (k : ℕ) => percentileSorted s (10 * k) := rfl
  have hlen : 0 < s.length := by
    rw [hp.length_eq]; exact List.length_pos_of_ne_nil hne
  have hget : ∀ x ∈ row, ∃ i, i < s.length ∧ s.getD i 0 = x := by
    intro x hx
    obtain ⟨i, hi, h⟩ := List.mem_iff_getElem.mp (hp.mem_iff.mpr hx)
    exact ⟨i, hi, by rw [List.getD_eq_getElem _ _ hi, h]⟩
  have hmem : ∀ i, i < s.length → s.getD i 0 ∈ row := by
    intro i hi
    rw [List.getD_eq_getElem _ _ hi]
    exact hp.mem_iff.mp (List.getElem_mem hi)
  rw [hd]
  refine ⟨by simp, ?_, ⟨s.getD 0 0, hmem 0 hlen, ?_, ?_⟩, ⟨s.getD (s.length - 1) 0, hmem _ (by omega), ?_, ?_⟩, ?_⟩
  · rw [List.pairwise_map]
    refine List.pairwise_lt_range.imp_of_mem ?_
    intro a b ha hb hab
    have hb' := List.mem_range.mp hb
    refine percentile_mono hs hlen (by positivity) ?_ ?_
    · have : (a : ℚ) ≤ b := by exact_mod_cast hab.le
      linarith
    · have : (b : ℚ) ≤ 10 := by exact_mod_cast (by omega : b ≤ 10)
      linarith
  · rw [List.getElem?_map, List.getElem?_range (by omega)]
    simp [percentile_first]
  · intro x hx
    obtain ⟨i, hi, rfl⟩ := hget x hx
    exact getD_mono hs (by omega) hi
  · rw [List.getElem?_map, List.getElem?_range (by omega)]
    rw [← percentile_last hlen]
    norm_num
  · intro x hx
    obtain ⟨i, hi, rfl⟩ := hget x hx
    exact getD_mono hs (by omega) (by omega)
  · intro t htp hts
    have : t = s := sorted_unique (htp.trans hp.symm) hts hs
    subst this
    rw [List.getElem?_map, List.getElem?_range (by omega), ← percentile_half hlen]
    norm_num

/-- C38. If all pixels differ by the same number of cycles, so do all 11 statistics. -/
theorem C38_constant (row : List ℤ) (hne : row ≠ []) (k : ℤ) (h : ∀ x ∈ row, x = k) :
    deciles row = List.replicate 11 (k : ℚ) := by
  obtain ⟨h1, h2, ⟨lo, hlo, hlo', _⟩, ⟨hi, hhi, hhi', _⟩, _⟩ := C38_order row hne
  apply List.ext_getElem
  · rw [h1]; simp
  · intro i hi1 hi2
    rw [List.getElem_replicate]
    rw [h1] at hi1
    rw [List.pairwise_iff_getElem] at h2
    obtain ⟨_, e0⟩ := List.getElem?_eq_some_iff.mp hlo'
    obtain ⟨_, e10⟩ := List.getElem?_eq_some_iff.mp hhi'
    rw [h lo hlo] at e0
    rw [h hi hhi] at e10
    apply le_antisymm
    · rcases Nat.lt_or_ge i 10 with hlt | hge
      · rw [← e10]; exact h2 i 10 (by omega) (by omega) hlt
      · have : i = 10 := by omega
        subst this; exact e10.le
    · rcases Nat.eq_zero_or_pos i with h0 | h0
      · subst h0; exact e0.ge
      · rw [← e0]; exact h2 0 i (by omega) (by omega) h0

theorem sorted_run {s : List ℤ} (hs : s.Pairwise (· ≤ ·)) {k : ℤ} {i : Nat} (hi : i < s.length)
    (hne : s.getD i 0 ≠ k) : s.count k ≤ i ∨ s.count k ≤ s.length - (i + 1) := by
  have hsplit : s = s.take i ++ s.getD i 0 :: s.drop (i + 1) := by
    rw [List.getD_eq_getElem _ _ hi]
    simp
  rcases lt_or_gt_of_ne hne with h | h
  · right
    have h0 : (s.take i).count k = 0 := by
      rw [List.count_eq_zero]
      intro hm
      obtain ⟨j, hj, e⟩ := List.mem_iff_getElem.mp hm
      rw [List.getElem_take] at e
      have := getD_mono hs (i := j) (j := i) (by simp at hj; omega) hi
      rw [List.getD_eq_getElem _ _ (by simp at hj; omega), e] at this
      omega
    have hc := congrArg (List.count k) hsplit
    rw [List.count_append, h0, List.count_cons_of_ne hne] at hc
    have h3 := List.count_le_length (a := k) (l := s.drop (i + 1))
    rw [List.length_drop] at h3
    omega
  · left
    have h0 : (s.drop (i + 1)).count k = 0 := by
      rw [List.count_eq_zero]
      intro hm
      obtain ⟨j, hj, e⟩ := List.mem_iff_getElem.mp hm
      rw [List.getElem_drop] at e
      rw [List.length_drop] at hj
      have := getD_mono hs (i := i) (j := i + 1 + j) (by omega) (by omega)
      rw [List.getD_eq_getElem s 0 (show i + 1 + j < s.length by omega), e] at this
      omega
    have hc := congrArg (List.count k) hsplit
    rw [List.count_append, List.count_cons_of_ne hne, h0] at hc
    have h3 := List.count_le_length (a := k) (l := s.take i)
    rw [List.length_take] at h3
    omega

/-- C38. If more than half of the pixels differ by `k` cycles, the median is `k`, whatever the
other pixels are. -/
theorem C38_majority (row : List ℤ) (k : ℤ) (h : row.length < 2 * row.count k) :
    (deciles row)[5]? = some (k : ℚ) := by
  have hne : row ≠ [] := by rintro rfl; simp at h
  obtain ⟨hp, hs⟩ := sortInt_spec row
  obtain ⟨_, _, _, _, hm⟩ := C38_order row hne
  have hmid := hm _ hp hs
  set s := row.mergeSort (· ≤ ·)
  have hc : s.count k = row.count k := hp.count_eq k
  have hl : s.length = row.length := hp.length_eq
  have hpos := List.length_pos_of_ne_nil hne
  have e1 : s.getD ((s.length - 1) / 2) 0 = k := by
    by_contra hcon
    rcases sorted_run hs (i := (s.length - 1) / 2) (by omega) hcon with h1 | h1 <;> omega
  have e2 : s.getD (s.length / 2) 0 = k := by
    by_contra hcon
    rcases sorted_run hs (i := s.length / 2) (by omega) hcon with h1 | h1 <;> omega
  rw [hmid, e1, e2]
  congr 1
  ring

/-! ### Acceptance -/

theorem toInt16_id {x : ℤ} (h1 : -32768 ≤ x) (h2 : x ≤ 32767) : toInt16 x = x := by
  unfold toInt16; omega

theorem toInt16_range (x : ℤ) : -32768 ≤ toInt16 x ∧ toInt16 x ≤ 32767 := by
  unfold toInt16; omega

section
variable {K : Type} [Field K] [LinearOrder K] [IsStrictOrderedRing K] [FloorRing K]

/-- Being a whole number of cycles within the tolerance of `np.allclose`. -/
def Spec.NearCycles (d : K) (k : ℤ) : Prop :=
  -32768 ≤ k ∧ k ≤ 32767 ∧ |d - k| ≤ 1 / 100 + 1 / 100000 * |(k : K)|

open Spec

/-- Within the tolerance, the stored difference is that number of cycles. -/
theorem cycleDiff_of_near {tau : K} {b1 b2 : NdArray K} {i : List Nat} {k : ℤ}
    (h : NearCycles ((b2.get i - b1.get i) / tau) k) : cycleDiff tau b1 b2 i = k := by
  obtain ⟨h1, h2, h3⟩ := h
  have hk : |(k : K)| ≤ 32768 := by
    rw [abs_le]
    constructor
    · have : ((-32768 : ℤ) : K) ≤ k := by exact_mod_cast h1
      push_cast at this; linarith
    · have : (k : K) ≤ ((32767 : ℤ) : K) := by exact_mod_cast h2
      push_cast at this; linarith
  have h4 := abs_le.mp h3
  unfold cycleDiff
  rw [rint_eq_of_lt (n := k) (by linarith [h4.1]) (by linarith [h4.2]), toInt16_id h1 h2]

theorem close_iff {tau : K} {b1 b2 : NdArray K} {i : List Nat} :
    closeToCycle tau b1 b2 i = true ↔ ∃ k : ℤ, NearCycles ((b2.get i - b1.get i) / tau) k := by
  unfold closeToCycle
  simp only [decide_eq_true_eq]
  constructor
  · intro h
    exact ⟨_, (toInt16_range _).1, (toInt16_range _).2, h⟩
  · rintro ⟨k, hk⟩
    rw [cycleDiff_of_near hk]
    exact hk.2.2

/-- C38. The function returns exactly for arrays of one two-dimensional shape with at least 11
columns whose differences are everywhere whole cycles within the tolerance; each row of the
result then holds the statistics of the cycle differences of that band. -/
theorem C38_accepts (tau : K) (b1 b2 : NdArray K) :
    ((∃ r, pairwiseDeciles tau b1 b2 = .ok r) ↔ ∃ nb n, b1.shape = [nb, n] ∧ b2.shape = [nb, n] ∧
      11 ≤ n ∧ ∀ r c, r < nb → c < n →
        ∃ k, NearCycles ((b2.get [r, c] - b1.get [r, c]) / tau) k) ∧
    (∀ nb n res, b1.shape = [nb, n] → pairwiseDeciles tau b1 b2 = .ok res → res.length = nb ∧
      ∀ r, r < nb → ∃ row : List ℤ, res[r]? = some (deciles row) ∧ row.length = n ∧
        ∀ c, c < n → ∃ k, row[c]? = some k ∧
          NearCycles ((b2.get [r, c] - b1.get [r, c]) / tau) k) := by
  have hall : ∀ nb n, ((cart [List.range nb, List.range n]).all (closeToCycle tau b1 b2) = true ↔
      ∀ r c, r < nb → c < n → ∃ k, NearCycles ((b2.get [r, c] - b1.get [r, c]) / tau) k) := by
    intro nb n
    rw [List.all_eq_true]
    simp only [cart, List.mem_flatMap, List.mem_range, List.mem_map, List.mem_singleton, close_iff]
    constructor
    · intro h r c hr hc
      exact h [r, c] ⟨r, hr, [c], ⟨c, hc, [], by simp, rfl⟩, rfl⟩
    · rintro h x ⟨r, hr, t, ⟨c, hc, u, hu, rfl⟩, rfl⟩
      rw [hu]
      exact h r c hr hc
  constructor
  · constructor
    · rintro ⟨r, hr⟩
      unfold pairwiseDeciles at hr
      split at hr
      · simp at hr
      · rename_i hsh
        split at hr
        · rename_i nb n hs
          split_ifs at hr with h1 h2
          exact ⟨nb, n, hs, by rw [← not_not.mp hsh, hs], by omega, (hall nb n).mp h2⟩
        · simp at hr
    · rintro ⟨nb, n, h1, h2, h3, h4⟩
      refine ⟨(List.range nb).map fun r =>
        deciles ((List.range n).map fun c => cycleDiff tau b1 b2 [r, c]), ?_⟩
      unfold pairwiseDeciles
      rw [if_neg (by rw [h1, h2]; simp), h1]
      simp only
      rw [if_neg (by omega), if_neg (by rw [not_not]; exact (hall nb n).mpr h4)]
  · intro nb n res hs hr
    unfold pairwiseDeciles at hr
    split at hr
    · simp at hr
    · rw [hs] at hr
      simp only at hr
      split_ifs at hr with h1 h2
      simp only [Except.ok.injEq] at hr
      subst hr
      refine ⟨by simp, fun r hr => ⟨(List.range n).map fun c => cycleDiff tau b1 b2 [r, c], ?_, by simp, ?_⟩⟩
      · rw [List.getElem?_map, List.getElem?_range hr]; rfl
      · intro c hc
        obtain ⟨k, hk⟩ := (hall nb n).mp h2 r c hr hc
        refine ⟨k, ?_, hk⟩
        rw [List.getElem?_map, List.getElem?_range hc, ← cycleDiff_of_near hk]; rfl

/-- C38. Which error: a bad shape is a `ValueError`, fractional cycles fail the assertion. -/
theorem C38_errors (tau : K) (b1 b2 : NdArray K) :
    (¬ (∃ nb n, b1.shape = [nb, n] ∧ b2.shape = [nb, n] ∧ 11 ≤ n) →
      pairwiseDeciles tau b1 b2 = .error .valueError) ∧
    ∀ nb n, b1.shape = [nb, n] → b2.shape = [nb, n] → 11 ≤ n →
      (∃ r, pairwiseDeciles tau b1 b2 = .ok r) ∨ pairwiseDeciles tau b1 b2 = .error .assertionError := by
  constructor
  · intro h
    unfold pairwiseDeciles
    split
    · rfl
    · rename_i hsh
      split
      · rename_i nb n hs
        rw [if_pos]
        by_contra hn
        exact h ⟨nb, n, hs, by rw [← not_not.mp hsh, hs], by omega⟩
      · rfl
  · intro nb n h1 h2 h3
    unfold pairwiseDeciles
    rw [if_neg (by rw [h1, h2]; simp), h1]
    simp only
    rw [if_neg (by omega)]
    split
    · exact Or.inr rfl
    · exact Or.inl ⟨_, rfl⟩

end

/-- Non-vacuity: one band of 12 pixels, eight of them two cycles apart and four three. -/
example : ∃ b1 b2 : NdArray ℚ, (∃ r, pairwiseDeciles 1 b1 b2 = .ok r) ∧
    (([2, 2, 2, 2, 2, 2, 2, 2, 3, 3, 3, 3] : List ℤ).length <
      2 * ([2, 2, 2, 2, 2, 2, 2, 2, 3, 3, 3, 3] : List ℤ).count 2) := by
  refine ⟨⟨[1, 12], fun _ => 0⟩, ⟨[1, 12], fun i => if i.getD 1 0 < 8 then 2 else 3⟩, ?_, by decide⟩
  refine (C38_accepts 1 _ _).1.mpr ⟨1, 12, rfl, rfl, by norm_num, fun r c _ _ => ?_⟩
  by_cases h : c < 8
  · refine ⟨2, by norm_num, by norm_num, ?_⟩
    simp [h]; norm_num
  · refine ⟨3, by norm_num, by norm_num, ?_⟩
    simp [h]; norm_num

end Spurt
