import Verif.Lemmas.RealDouble
import Verif.Lemmas.Tiling
import Verif.Props.Percentile16
import Verif.Props.FloatDouble
import Verif.Lemmas.FloatGrid

/-!
# Property C38 in double precision
-/

namespace Spurt
open Spec

/-- What is used of the rounding: it is monotone and keeps half integers. -/
structure KeepsHalves (fl : ℚ → ℚ) : Prop where
  mono : ∀ x y, x ≤ y → fl x ≤ fl y
  half : ∀ n : ℤ, |n| ≤ 2 ^ 53 → fl ((n : ℚ) / 2) = (n : ℚ) / 2

theorem KeepsHalves.int {fl : ℚ → ℚ} (h : KeepsHalves fl) (n : ℤ) (hn : |n| ≤ 2 ^ 52) : fl (n : ℚ) = n := by
  have := h.half (2 * n) (by rw [abs_mul]; norm_num; omega)
  push_cast at this
  rwa [show (2 * (n : ℚ)) / 2 = n by ring] at this

theorem double_halves : KeepsHalves flDouble := by
  refine ⟨fun _ _ h => flDouble_mono h, fun n hn => flDouble_grid n (-1) ?_ hn⟩
  rw [zpow_neg_one]; ring

/-- The values `_lerp` can take: below the middle for `t < 1/2`, above it otherwise. -/
theorem lerp_bounds {fl : ℚ → ℚ} (h : KeepsHalves fl) {a b : ℤ} (hab : a ≤ b) (hd : b - a ≤ 32767) (ha : -32768 ≤ a) (hb : b ≤ 32767)
    {t : ℚ} (h0 : 0 ≤ t) (h1 : t ≤ 1) :
    (t < 1 / 2 → (a : ℚ) ≤ lerpFl fl a b t ∧ lerpFl fl a b t ≤ ((a : ℚ) + b) / 2) ∧
    (1 / 2 ≤ t → ((a : ℚ) + b) / 2 ≤ lerpFl fl a b t ∧ lerpFl fl a b t ≤ b) := by
  have e : toInt16 (b - a) = b - a := toInt16_id (by omega) hd
  have hd0 : (0 : ℚ) ≤ ((b - a : ℤ) : ℚ) := by exact_mod_cast (by omega : 0 ≤ b - a)
  have f0 : fl 0 = 0 := by simpa using h.int 0 (by norm_num)
  have fd : fl (((b - a : ℤ) : ℚ) * (1 / 2)) = ((b - a : ℤ) : ℚ) / 2 := by
    rw [mul_one_div]
    exact h.half _ (by rw [abs_le]; constructor <;> omega)
  have fm : fl (((a + b : ℤ) : ℚ) / 2) = ((a + b : ℤ) : ℚ) / 2 := h.half _ (by rw [abs_le]; constructor <;> omega)
  have fa := h.int a (by rw [abs_le]; constructor <;> omega)
  have fb := h.int b (by rw [abs_le]; constructor <;> omega)
  have em : ((a + b : ℤ) : ℚ) / 2 = ((a : ℚ) + b) / 2 := by push_cast; ring
  have hdq : ((b - a : ℤ) : ℚ) = b - a := by push_cast; ring
  constructor
  · intro ht
    unfold lerpFl
    simp only
    rw [if_neg (by linarith), e]
    have g1 : 0 ≤ fl (((b - a : ℤ) : ℚ) * t) := by
      rw [← f0]; exact h.mono _ _ (by positivity)
    have g2 : fl (((b - a : ℤ) : ℚ) * t) ≤ ((b - a : ℤ) : ℚ) / 2 := by
      rw [← fd]; exact h.mono _ _ (mul_le_mul_of_nonneg_left ht.le hd0)
    constructor
    · calc (a : ℚ) = fl a := fa.symm
        _ ≤ _ := h.mono _ _ (by linarith)
    · calc _ ≤ fl (((a + b : ℤ) : ℚ) / 2) := h.mono _ _ (by rw [em]; linarith)
        _ = _ := by rw [fm, em]
  · intro ht
    unfold lerpFl
    simp only
    rw [if_pos ht, e]
    have hh : fl (1 / 2) = 1 / 2 := by simpa using h.half 1 (by norm_num)
    have k1 : 0 ≤ fl (1 - t) := by rw [← f0]; exact h.mono _ _ (by linarith)
    have k2 : fl (1 - t) ≤ 1 / 2 := by
      calc fl (1 - t) ≤ fl (1 / 2) := h.mono _ _ (by linarith)
        _ = _ := hh
    have g1 : 0 ≤ fl (((b - a : ℤ) : ℚ) * fl (1 - t)) := by
      rw [← f0]; exact h.mono _ _ (by positivity)
    have g2 : fl (((b - a : ℤ) : ℚ) * fl (1 - t)) ≤ ((b - a : ℤ) : ℚ) / 2 := by
      rw [← fd]; exact h.mono _ _ (mul_le_mul_of_nonneg_left k2 hd0)
    constructor
    · calc _ = fl (((a + b : ℤ) : ℚ) / 2) := by rw [fm, em]
        _ ≤ _ := h.mono _ _ (by rw [em]; linarith)
    · calc _ ≤ fl (b : ℚ) := h.mono _ _ (by linarith)
        _ = _ := fb

theorem lerp_mono {fl : ℚ → ℚ} (h : KeepsHalves fl) {a b : ℤ} (hab : a ≤ b) (hd : b - a ≤ 32767) (ha : -32768 ≤ a) (hb : b ≤ 32767)
    {t t' : ℚ} (h0 : 0 ≤ t) (htt : t ≤ t') (h1 : t' ≤ 1) : lerpFl fl a b t ≤ lerpFl fl a b t' := by
  have e : toInt16 (b - a) = b - a := toInt16_id (by omega) hd
  have hd0 : (0 : ℚ) ≤ ((b - a : ℤ) : ℚ) := by exact_mod_cast (by omega : 0 ≤ b - a)
  rcases lt_or_ge t (1 / 2) with ht | ht
  · rcases lt_or_ge t' (1 / 2) with ht' | ht'
    · unfold lerpFl
      simp only
      rw [if_neg (by linarith), if_neg (by linarith), e]
      have := h.mono _ _ (mul_le_mul_of_nonneg_left htt hd0)
      exact h.mono _ _ (by linarith)
    · exact ((lerp_bounds h hab hd ha hb h0 (htt.trans h1)).1 ht).2.trans ((lerp_bounds h hab hd ha hb (h0.trans htt) h1).2 ht').1
  · unfold lerpFl
    simp only
    rw [if_pos ht, if_pos (ht.trans htt), e]
    have k : fl (1 - t') ≤ fl (1 - t) := h.mono _ _ (by linarith)
    have := h.mono _ _ (mul_le_mul_of_nonneg_left k hd0)
    exact h.mono _ _ (by linarith)

theorem lerp_range {fl : ℚ → ℚ} (h : KeepsHalves fl) {a b : ℤ} (hab : a ≤ b) (hd : b - a ≤ 32767) (ha : -32768 ≤ a) (hb : b ≤ 32767)
    {t : ℚ} (h0 : 0 ≤ t) (h1 : t ≤ 1) : (a : ℚ) ≤ lerpFl fl a b t ∧ lerpFl fl a b t ≤ b := by
  have hq : (a : ℚ) ≤ b := by exact_mod_cast hab
  obtain ⟨g1, g2⟩ := lerp_bounds h hab hd ha hb h0 h1
  rcases lt_or_ge t (1 / 2) with ht | ht
  · exact ⟨(g1 ht).1, (g1 ht).2.trans (by linarith)⟩
  · exact ⟨le_trans (by linarith) (g2 ht).1, (g2 ht).2⟩

/-- Differences a row of statistics may hold: 16-bit integers, at most 32767 apart. -/
def Spec.Row16 (row : List ℤ) : Prop :=
  (∀ x ∈ row, -32768 ≤ x ∧ x ≤ 32767) ∧ ∀ x ∈ row, ∀ y ∈ row, y - x ≤ 32767

/-- The position in the sorted row. -/
theorem position_bounds {fl : ℚ → ℚ} (h : KeepsHalves fl) {n : Nat} (h0 : 0 < n) (hn : n ≤ 2 ^ 52) {q : ℚ} (hq0 : 0 ≤ q) (hq1 : q ≤ 100) :
    0 ≤ fl (((n : ℚ) - 1) * fl (q / 100)) ∧ fl (((n : ℚ) - 1) * fl (q / 100)) ≤ (n : ℚ) - 1 := by
  have f0 : fl 0 = 0 := by simpa using h.int 0 (by norm_num)
  have f1 : fl 1 = 1 := by simpa using h.int 1 (by norm_num)
  have hn1 : (0 : ℚ) ≤ (n : ℚ) - 1 := by
    have : (1 : ℚ) ≤ n := by exact_mod_cast h0
    linarith
  have k0 : 0 ≤ fl (q / 100) := by rw [← f0]; exact h.mono _ _ (by positivity)
  have k1 : fl (q / 100) ≤ 1 := by
    calc _ ≤ fl 1 := h.mono _ _ (by linarith)
      _ = 1 := f1
  constructor
  · rw [← f0]; exact h.mono _ _ (by positivity)
  · have hi := h.int ((n : ℤ) - 1) (by rw [abs_le]; constructor <;> omega)
    push_cast at hi
    calc _ ≤ fl ((n : ℚ) - 1) := h.mono _ _ (by nlinarith)
      _ = _ := hi

/-- The value at a position `v` of the sorted row. -/
def atPosition (fl : ℚ → ℚ) (s : List ℤ) (v : ℚ) : ℚ :=
  lerpFl fl (s.getD ⌊v⌋.toNat 0) (s.getD (min (⌊v⌋.toNat + 1) (s.length - 1)) 0) (fl (v - ⌊v⌋))

theorem getD_row {s : List ℤ} {i : Nat} (hi : i < s.length) : s.getD i 0 ∈ s := by
  rw [List.getD_eq_getElem _ _ hi]
  exact List.getElem_mem hi

theorem atPosition_facts {s : List ℤ} (hs : s.Pairwise (· ≤ ·)) (hr : Row16 s) {i : Nat} (hi : i < s.length) :
    s.getD i 0 ≤ s.getD (min (i + 1) (s.length - 1)) 0 ∧ s.getD (min (i + 1) (s.length - 1)) 0 - s.getD i 0 ≤ 32767 ∧
    -32768 ≤ s.getD i 0 ∧ s.getD (min (i + 1) (s.length - 1)) 0 ≤ 32767 := by
  have m1 := getD_row hi
  have m2 := getD_row (s := s) (i := min (i + 1) (s.length - 1)) (by omega)
  exact ⟨getD_mono hs (by omega) (by omega), hr.2 _ m1 _ m2, (hr.1 _ m1).1, (hr.1 _ m2).2⟩

theorem frac_bounds {fl : ℚ → ℚ} (h : KeepsHalves fl) (v : ℚ) : 0 ≤ fl (v - ⌊v⌋) ∧ fl (v - ⌊v⌋) ≤ 1 := by
  have f0 : fl 0 = 0 := by simpa using h.int 0 (by norm_num)
  have f1 : fl 1 = 1 := by simpa using h.int 1 (by norm_num)
  have a1 := Int.floor_le v
  have a2 := Int.lt_floor_add_one v
  constructor
  · rw [← f0]; exact h.mono _ _ (by linarith)
  · calc _ ≤ fl 1 := h.mono _ _ (by linarith)
      _ = 1 := f1

theorem floor_lt_length {s : List ℤ} (hlen : 0 < s.length) {v : ℚ} (h0 : 0 ≤ v) (h1 : v ≤ (s.length : ℚ) - 1) : ⌊v⌋.toNat < s.length := by
  have : ⌊v⌋ ≤ ((s.length : ℤ) - 1) := by
    rw [Int.floor_le_iff]
    push_cast
    linarith
  omega

theorem atPosition_mono {fl : ℚ → ℚ} (h : KeepsHalves fl) {s : List ℤ} (hlen : 0 < s.length) (hs : s.Pairwise (· ≤ ·)) (hr : Row16 s) {v v' : ℚ}
    (h0 : 0 ≤ v) (hv : v ≤ v') (h1 : v' ≤ (s.length : ℚ) - 1) : atPosition fl s v ≤ atPosition fl s v' := by
  have l1 := floor_lt_length hlen h0 (hv.trans h1)
  have l2 := floor_lt_length hlen (h0.trans hv) h1
  obtain ⟨a1, a2, a3, a4⟩ := atPosition_facts hs hr l1
  obtain ⟨b1, b2, b3, b4⟩ := atPosition_facts hs hr l2
  obtain ⟨c1, c2⟩ := frac_bounds h v
  obtain ⟨d1, d2⟩ := frac_bounds h v'
  unfold atPosition
  rcases eq_or_lt_of_le (Int.floor_le_floor hv) with hf | hf
  · rw [← hf]
    rw [← hf] at d2
    exact lerp_mono h a1 a2 a3 a4 c1 (h.mono _ _ (by linarith)) d2
  · refine (lerp_range h a1 a2 a3 a4 c1 c2).2.trans (le_trans ?_ (lerp_range h b1 b2 b3 b4 d1 d2).1)
    have hfl : 0 ≤ ⌊v⌋ := Int.floor_nonneg.mpr h0
    exact_mod_cast getD_mono hs (by omega) (by omega)

theorem atPosition_int {fl : ℚ → ℚ} (h : KeepsHalves fl) {s : List ℤ} (hs : s.Pairwise (· ≤ ·)) (hr : Row16 s) {i : Nat} (hi : i < s.length) :
    atPosition fl s (i : ℚ) = (s.getD i 0 : ℤ) := by
  have f0 : fl 0 = 0 := by simpa using h.int 0 (by norm_num)
  obtain ⟨a1, a2, a3, a4⟩ := atPosition_facts hs hr hi
  unfold atPosition
  rw [Int.floor_natCast, Int.toNat_natCast, Int.cast_natCast, sub_self, f0]
  unfold lerpFl
  simp only
  rw [if_neg (by norm_num), mul_zero, f0, add_zero]
  exact h.int _ (by rw [abs_le]; constructor <;> omega)

theorem percentile_position (fl : ℚ → ℚ) (s : List ℤ) (q : ℚ) :
    percentileFl fl s q = atPosition fl s (fl (((s.length : ℚ) - 1) * fl (q / 100))) := rfl

theorem percentile_median {fl : ℚ → ℚ} (h : KeepsHalves fl) {s : List ℤ} (hlen : 0 < s.length) (hn : s.length ≤ 2 ^ 52) (hs : s.Pairwise (· ≤ ·))
    (hr : Row16 s) : percentileFl fl s 50 = percentileSorted s 50 := by
  have hh : fl (50 / 100) = 1 / 2 := by
    have := h.half 1 (by norm_num)
    rw [show (50 / 100 : ℚ) = ((1 : ℤ) : ℚ) / 2 by norm_num, this]
    norm_num
  have hv : fl (((s.length : ℚ) - 1) * fl (50 / 100)) = 50 / 100 * ((s.length : ℚ) - 1) := by
    rw [hh]
    have := h.half ((s.length : ℤ) - 1) (by rw [abs_le]; constructor <;> omega)
    push_cast at this
    rw [mul_one_div, this]
    ring
  obtain ⟨p0, p1⟩ := position_bounds h hlen hn (q := 50) (by norm_num) (by norm_num)
  rw [hv] at p0 p1
  have hl := floor_lt_length hlen p0 p1
  obtain ⟨a1, a2, a3, a4⟩ := atPosition_facts hs hr hl
  rw [percentile_position, hv]
  unfold atPosition percentileSorted
  simp only
  set v : ℚ := 50 / 100 * ((s.length : ℚ) - 1) with hvd
  set a := s.getD ⌊v⌋.toNat 0
  set b := s.getD (min (⌊v⌋.toNat + 1) (s.length - 1)) 0
  have e : toInt16 (b - a) = b - a := toInt16_id (by omega) a2
  have f0 : fl 0 = 0 := by simpa using h.int 0 (by norm_num)
  -- the fraction is 0 or 1/2
  have hfrac : v - ⌊v⌋ = 0 ∨ v - ⌊v⌋ = 1 / 2 := by
    have hb1 := Int.floor_le v
    have hb2 := Int.lt_floor_add_one v
    have e2 : 2 * v = (((s.length : ℤ) - 1 : ℤ) : ℚ) := by rw [hvd]; push_cast; ring
    have e3 : 2 * (v - ⌊v⌋) = (((s.length : ℤ) - 1 - 2 * ⌊v⌋ : ℤ) : ℚ) := by push_cast at e2 ⊢; linarith
    have g1 : (0 : ℚ) ≤ (((s.length : ℤ) - 1 - 2 * ⌊v⌋ : ℤ) : ℚ) := by rw [← e3]; linarith
    have g2 : (((s.length : ℤ) - 1 - 2 * ⌊v⌋ : ℤ) : ℚ) < ((2 : ℤ) : ℚ) := by rw [← e3]; push_cast; linarith
    have g1' : (0 : ℤ) ≤ (s.length : ℤ) - 1 - 2 * ⌊v⌋ := by exact_mod_cast g1
    have g2' : (s.length : ℤ) - 1 - 2 * ⌊v⌋ < 2 := Int.cast_lt.mp g2
    obtain g | g : (s.length : ℤ) - 1 - 2 * ⌊v⌋ = 0 ∨ (s.length : ℤ) - 1 - 2 * ⌊v⌋ = 1 := by omega
    · left; rw [g] at e3; push_cast at e3; linarith
    · right; rw [g] at e3; push_cast at e3; linarith
  have fhalf : fl (1 / 2) = 1 / 2 := by simpa using h.half 1 (by norm_num)
  unfold lerpFl
  simp only
  rcases hfrac with hf | hf
  · rw [hf, f0, if_neg (by norm_num), mul_zero, f0, add_zero, mul_zero, add_zero]
    exact h.int _ (by rw [abs_le]; constructor <;> omega)
  · rw [hf, fhalf, if_pos (le_refl _), e]
    rw [show (1 - 1 / 2 : ℚ) = 1 / 2 by norm_num, fhalf, mul_one_div, h.half _ (by rw [abs_le]; constructor <;> omega)]
    rw [show ((b : ℚ) - ((b - a : ℤ) : ℚ) / 2) = ((a + b : ℤ) : ℚ) / 2 by push_cast; ring, h.half _ (by rw [abs_le]; constructor <;> omega)]
    push_cast
    ring

theorem row16_perm {s row : List ℤ} (hp : s.Perm row) (h : Row16 row) : Row16 s :=
  ⟨fun x hx => h.1 x (hp.mem_iff.mp hx), fun x hx y hy => h.2 x (hp.mem_iff.mp hx) y (hp.mem_iff.mp hy)⟩

/-- C38 in double precision. The 11 statistics as numpy computes them from the 16-bit differences, every operation rounded to `float64`: never
decreasing, from the smallest to the largest difference, and the median is exact. -/
theorem C38_double (row : List ℤ) (hne : row ≠ []) (hn : row.length ≤ 2 ^ 52) (hr : Row16 row) :
    (decilesFl flDouble row).length = 11 ∧ (decilesFl flDouble row).Pairwise (· ≤ ·) ∧
    (∃ lo ∈ row, (decilesFl flDouble row)[0]? = some (lo : ℚ) ∧ ∀ x ∈ row, lo ≤ x) ∧
    (∃ hi ∈ row, (decilesFl flDouble row)[10]? = some (hi : ℚ) ∧ ∀ x ∈ row, x ≤ hi) ∧
    (decilesFl flDouble row)[5]? = (deciles row)[5]? := by
  have h := double_halves
  obtain ⟨hp, hs⟩ := sortInt_spec row
  have hd : decilesFl flDouble row = (List.range 11).map fun (k : ℕ) => percentileFl flDouble (row.mergeSort (· ≤ ·)) (10 * k) := rfl
  have hd' : deciles row = (List.range 11).map fun (k : ℕ) => percentileSorted (row.mergeSort (· ≤ ·)) (10 * k) := rfl
  set s := row.mergeSort (· ≤ ·) with hsdef
  have hlen : 0 < s.length := by
    rw [hp.length_eq]; exact List.length_pos_of_ne_nil hne
  have hn' : s.length ≤ 2 ^ 52 := by rw [hp.length_eq]; exact hn
  have hr' := row16_perm hp hr
  have hget : ∀ x ∈ row, ∃ i, i < s.length ∧ s.getD i 0 = x := by
    intro x hx
    obtain ⟨i, hi, h⟩ := List.mem_iff_getElem.mp (hp.mem_iff.mpr hx)
    exact ⟨i, hi, by rw [List.getD_eq_getElem _ _ hi, h]⟩
  have f0 : flDouble 0 = 0 := flDouble_zero
  have f1 : flDouble 1 = 1 := by simpa using h.int 1 (by norm_num)
  rw [hd, hd']
  refine ⟨by simp, ?_, ⟨s.getD 0 0, hp.mem_iff.mp (getD_row hlen), ?_, ?_⟩, ⟨s.getD (s.length - 1) 0, hp.mem_iff.mp (getD_row (by omega)), ?_, ?_⟩, ?_⟩
  · rw [List.pairwise_map]
    refine List.pairwise_lt_range.imp_of_mem ?_
    intro i j hi hj hij
    rw [List.mem_range] at hi hj
    have hj' : (j : ℚ) ≤ 10 := by exact_mod_cast (by omega : j ≤ 10)
    have hij' : (i : ℚ) ≤ j := by exact_mod_cast hij.le
    have hn1 : (0 : ℚ) ≤ (s.length : ℚ) - 1 := by
      have : (1 : ℚ) ≤ s.length := by exact_mod_cast hlen
      linarith
    rw [percentile_position, percentile_position]
    refine atPosition_mono h hlen hs hr' (position_bounds h hlen hn' (by positivity) (by linarith)).1 (h.mono _ _ ?_)
      (position_bounds h hlen hn' (by positivity) (by linarith)).2
    exact mul_le_mul_of_nonneg_left (h.mono _ _ (by linarith)) hn1
  · rw [List.getElem?_map, List.getElem?_range (by omega)]
    simp only [Option.map_some, Option.some.injEq]
    rw [percentile_position]
    norm_num [f0]
    exact_mod_cast atPosition_int h hs hr' hlen
  · intro x hx
    obtain ⟨i, hi, rfl⟩ := hget x hx
    exact getD_mono hs (by omega) hi
  · rw [List.getElem?_map, List.getElem?_range (by omega)]
    simp only [Option.map_some, Option.some.injEq]
    rw [percentile_position]
    have e1 : (10 * ((10 : ℕ) : ℚ)) / 100 = 1 := by norm_num
    have e2 : flDouble ((s.length : ℚ) - 1) = ((s.length - 1 : ℕ) : ℚ) := by
      have := h.int ((s.length : ℤ) - 1) (by rw [abs_le]; constructor <;> omega)
      push_cast at this
      rw [this, Nat.cast_pred hlen]
    rw [e1, f1, mul_one, e2]
    exact atPosition_int h hs hr' (by omega)
  · intro x hx
    obtain ⟨i, hi, rfl⟩ := hget x hx
    exact getD_mono hs (by omega) (by omega)
  · rw [List.getElem?_map, List.getElem?_map, List.getElem?_range (by omega)]
    simp only [Option.map_some, Option.some.injEq]
    have e : (10 * ((5 : ℕ) : ℚ)) = 50 := by norm_num
    rw [e]
    exact percentile_median h hlen hn' hs hr'

/-- C38 in double precision. If all pixels differ by the same number of cycles, so do all 11 statistics. -/
theorem C38_double_constant (row : List ℤ) (hne : row ≠ []) (hn : row.length ≤ 2 ^ 52) (k : ℤ) (hk : -32768 ≤ k ∧ k ≤ 32767)
    (h : ∀ x ∈ row, x = k) : decilesFl flDouble row = List.replicate 11 (k : ℚ) := by
  have hr : Row16 row := ⟨fun x hx => by rw [h x hx]; exact hk, fun x hx y hy => by rw [h x hx, h y hy]; omega⟩
  obtain ⟨h1, h2, ⟨lo, hlo, hlo', _⟩, ⟨hi, hhi, hhi', _⟩, _⟩ := C38_double row hne hn hr
  apply List.ext_getElem
  · rw [h1]; simp
  · intro i hi1 hi2
    rw [List.getElem_replicate]
    rw [h1] at hi1
    rw [List.pairwise_iff_getElem] at h2
    obtain ⟨_, e0⟩ := List.getElem?_eq_some_iff.mp hlo'
    obtain ⟨_, e10⟩ := List.getElem?_eq_some_iff.mp hhi'
    rw [h lo hlo] at e0
    rw [h hi hhi] at e10
    apply le_antisymm
    · rcases Nat.lt_or_ge i 10 with hlt | hge
      · rw [← e10]; exact h2 i 10 (by omega) (by omega) hlt
      · have : i = 10 := by omega
        subst this; exact e10.le
    · rcases Nat.eq_zero_or_pos i with h0 | h0
      · subst h0; exact e0.ge
      · rw [← e0]; exact h2 0 i (by omega) (by omega) h0

/-- C38 in double precision. If more than half of the pixels differ by `k` cycles, the median is `k`. -/
theorem C38_double_majority (row : List ℤ) (k : ℤ) (hn : row.length ≤ 2 ^ 52) (hr : Row16 row) (h : row.length < 2 * row.count k) :
    (decilesFl flDouble row)[5]? = some (k : ℚ) := by
  have hne : row ≠ [] := by rintro rfl; simp at h
  rw [(C38_double row hne hn hr).2.2.2.2]
  exact C38_majority row k h

/-! ### How far the other statistics are from exact arithmetic -/

/-- The exact value at a position of the sorted row. -/
def exactPosition (s : List ℤ) (v : ℚ) : ℚ :=
  (s.getD ⌊v⌋.toNat 0 : ℤ) + ((s.getD (min (⌊v⌋.toNat + 1) (s.length - 1)) 0 : ℤ) - (s.getD ⌊v⌋.toNat 0 : ℤ)) * (v - ⌊v⌋)

theorem exactPosition_lipschitz {s : List ℤ} (hlen : 0 < s.length) (hs : s.Pairwise (· ≤ ·)) (hr : Row16 s) {v w : ℚ} (h0 : 0 ≤ v) (hvw : v ≤ w)
    (h1 : w ≤ (s.length : ℚ) - 1) (hw : w - v < 1) : |exactPosition s w - exactPosition s v| ≤ 32767 * (w - v) := by
  have l1 := floor_lt_length hlen h0 (hvw.trans h1)
  have l2 := floor_lt_length hlen (h0.trans hvw) h1
  obtain ⟨a1, a2, _, _⟩ := atPosition_facts hs hr l1
  obtain ⟨b1, b2, _, _⟩ := atPosition_facts hs hr l2
  have hf0 : 0 ≤ ⌊v⌋ := Int.floor_nonneg.mpr h0
  have fv1 := Int.floor_le v
  have fv2 := Int.lt_floor_add_one v
  have fw1 := Int.floor_le w
  have fw2 := Int.lt_floor_add_one w
  unfold exactPosition
  rcases eq_or_lt_of_le (Int.floor_le_floor hvw) with hf | hf
  · rw [← hf]
    have d0 : (0 : ℚ) ≤ ((s.getD (min (⌊v⌋.toNat + 1) (s.length - 1)) 0 : ℤ) : ℚ) - (s.getD ⌊v⌋.toNat 0 : ℤ) := by
      have : ((s.getD ⌊v⌋.toNat 0 : ℤ) : ℚ) ≤ (s.getD (min (⌊v⌋.toNat + 1) (s.length - 1)) 0 : ℤ) := by exact_mod_cast a1
      linarith
    have d1 : ((s.getD (min (⌊v⌋.toNat + 1) (s.length - 1)) 0 : ℤ) : ℚ) - (s.getD ⌊v⌋.toNat 0 : ℤ) ≤ 32767 := by exact_mod_cast a2
    set d : ℚ := ((s.getD (min (⌊v⌋.toNat + 1) (s.length - 1)) 0 : ℤ) : ℚ) - (s.getD ⌊v⌋.toNat 0 : ℤ)
    rw [show (s.getD ⌊v⌋.toNat 0 : ℤ) + d * (w - (⌊v⌋ : ℤ)) - ((s.getD ⌊v⌋.toNat 0 : ℤ) + d * (v - (⌊v⌋ : ℤ))) = d * (w - v) by ring]
    rw [abs_of_nonneg (mul_nonneg d0 (by linarith))]
    exact mul_le_mul_of_nonneg_right d1 (by linarith)
  · have hstep : ⌊w⌋ = ⌊v⌋ + 1 := by
      have : (⌊w⌋ : ℚ) < ((⌊v⌋ + 2 : ℤ) : ℚ) := by push_cast; linarith
      have := Int.cast_lt.mp this
      omega
    have hidx : min (⌊v⌋.toNat + 1) (s.length - 1) = ⌊w⌋.toNat := by omega
    rw [hidx] at a1 a2 ⊢
    have d0 : (0 : ℚ) ≤ ((s.getD ⌊w⌋.toNat 0 : ℤ) : ℚ) - (s.getD ⌊v⌋.toNat 0 : ℤ) := by
      have : ((s.getD ⌊v⌋.toNat 0 : ℤ) : ℚ) ≤ (s.getD ⌊w⌋.toNat 0 : ℤ) := by exact_mod_cast a1
      linarith
    have d1 : ((s.getD ⌊w⌋.toNat 0 : ℤ) : ℚ) - (s.getD ⌊v⌋.toNat 0 : ℤ) ≤ 32767 := by exact_mod_cast a2
    have e0 : (0 : ℚ) ≤ ((s.getD (min (⌊w⌋.toNat + 1) (s.length - 1)) 0 : ℤ) : ℚ) - (s.getD ⌊w⌋.toNat 0 : ℤ) := by
      have : ((s.getD ⌊w⌋.toNat 0 : ℤ) : ℚ) ≤ (s.getD (min (⌊w⌋.toNat + 1) (s.length - 1)) 0 : ℤ) := by exact_mod_cast b1
      linarith
    have e1 : ((s.getD (min (⌊w⌋.toNat + 1) (s.length - 1)) 0 : ℤ) : ℚ) - (s.getD ⌊w⌋.toNat 0 : ℤ) ≤ 32767 := by exact_mod_cast b2
    have hq : (⌊w⌋ : ℚ) = ⌊v⌋ + 1 := by rw [hstep]; push_cast; ring
    set d : ℚ := ((s.getD ⌊w⌋.toNat 0 : ℤ) : ℚ) - (s.getD ⌊v⌋.toNat 0 : ℤ) with hd
    set e : ℚ := ((s.getD (min (⌊w⌋.toNat + 1) (s.length - 1)) 0 : ℤ) : ℚ) - (s.getD ⌊w⌋.toNat 0 : ℤ)
    have hsplit : ((s.getD ⌊w⌋.toNat 0 : ℤ) : ℚ) + e * (w - (⌊w⌋ : ℤ)) - ((s.getD ⌊v⌋.toNat 0 : ℤ) + d * (v - (⌊v⌋ : ℤ))) =
        e * (w - ⌊w⌋) + d * (⌊w⌋ - v) := by
      rw [hq, hd]
      push_cast
      ring
    rw [hsplit]
    have g1 : 0 ≤ e * (w - ⌊w⌋) := mul_nonneg e0 (by linarith)
    have g2 : 0 ≤ d * (⌊w⌋ - v) := mul_nonneg d0 (by linarith)
    have g3 : e * (w - ⌊w⌋) ≤ 32767 * (w - ⌊w⌋) := mul_le_mul_of_nonneg_right e1 (by linarith)
    have g4 : d * (⌊w⌋ - v) ≤ 32767 * (⌊w⌋ - v) := mul_le_mul_of_nonneg_right d1 (by linarith)
    rw [abs_of_nonneg (by linarith)]
    linarith

theorem lerp_double {a b : ℤ} (hab : a ≤ b) (hd : b - a ≤ 32767) (ha : -32768 ≤ a) (hb : b ≤ 32767) {t : ℚ} (h0 : 0 ≤ t) (h1 : t ≤ 1) :
    |lerpFl flDouble a b (flDouble t) - (a + ((b : ℚ) - a) * t)| ≤ 1 / 2 ^ 30 := by
  have e : toInt16 (b - a) = b - a := toInt16_id (by omega) hd
  have hq : ((b - a : ℤ) : ℚ) = b - a := by push_cast; ring
  have d0 : (0 : ℚ) ≤ (b : ℚ) - a := by rw [← hq]; exact_mod_cast (by omega : 0 ≤ b - a)
  have d1 : (b : ℚ) - a ≤ 32767 := by rw [← hq]; exact_mod_cast hd
  have ha' : (-32768 : ℚ) ≤ a := by exact_mod_cast ha
  have hb' : (b : ℚ) ≤ 32767 := by exact_mod_cast hb
  have t1 := abs_le.mp (flDouble_abs t)
  rw [abs_of_nonneg h0] at t1
  have tr := frac_bounds double_halves
  have tt0 : 0 ≤ flDouble t := flDouble_nonneg h0
  have tt1 : flDouble t ≤ 1 := by
    have : flDouble 1 = 1 := by simpa using double_halves.int 1 (by norm_num)
    rw [← this]; exact flDouble_mono h1
  -- error of a rounded product with the difference, and of a rounded sum
  have prod : ∀ x : ℚ, 0 ≤ x → x ≤ 1 → |flDouble (((b : ℚ) - a) * x) - ((b : ℚ) - a) * x| ≤ 1 / 2 ^ 37 := by
    intro x hx0 hx1
    have hm0 : 0 ≤ ((b : ℚ) - a) * x := mul_nonneg d0 hx0
    have hm1 : ((b : ℚ) - a) * x ≤ 32767 := by nlinarith
    refine (flDouble_abs _).trans ?_
    rw [abs_of_nonneg hm0, div_le_iff₀ (by norm_num)]
    norm_num
    linarith
  have sum : ∀ y : ℚ, |y| ≤ 2 ^ 17 → |flDouble y - y| ≤ 1 / 2 ^ 35 := by
    intro y hy
    refine (flDouble_abs _).trans ?_
    rw [div_le_iff₀ (by norm_num)]
    norm_num at hy ⊢
    linarith
  have hcomp : ∀ x y : ℚ, 0 ≤ x → x ≤ y → |((b : ℚ) - a) * y - ((b : ℚ) - a) * x| ≤ 32767 * (y - x) := by
    intro x y _ hxy
    rw [show ((b : ℚ) - a) * y - ((b : ℚ) - a) * x = ((b : ℚ) - a) * (y - x) by ring, abs_of_nonneg (mul_nonneg d0 (by linarith))]
    exact mul_le_mul_of_nonneg_right d1 (by linarith)
  have ht : |((b : ℚ) - a) * flDouble t - ((b : ℚ) - a) * t| ≤ 1 / 2 ^ 37 := by
    rw [show ((b : ℚ) - a) * flDouble t - ((b : ℚ) - a) * t = ((b : ℚ) - a) * (flDouble t - t) by ring, abs_mul, abs_of_nonneg d0]
    calc _ ≤ (32767 : ℚ) * (1 / 2 ^ 53) := by
          refine mul_le_mul d1 ?_ (abs_nonneg _) (by norm_num)
          rw [abs_le]
          have : t / 2 ^ 53 ≤ 1 / 2 ^ 53 := by gcongr
          constructor <;> linarith [t1.1, t1.2]
      _ ≤ _ := by norm_num
  unfold lerpFl
  simp only
  rw [e, hq]
  split
  · -- above the middle
    have u0 : 0 ≤ flDouble (1 - flDouble t) := flDouble_nonneg (by linarith)
    have u1 : flDouble (1 - flDouble t) ≤ 1 := by
      have : flDouble 1 = 1 := by simpa using double_halves.int 1 (by norm_num)
      rw [← this]; exact flDouble_mono (by linarith)
    have u2 : |((b : ℚ) - a) * flDouble (1 - flDouble t) - ((b : ℚ) - a) * (1 - flDouble t)| ≤ 1 / 2 ^ 37 := by
      rw [show ((b : ℚ) - a) * flDouble (1 - flDouble t) - ((b : ℚ) - a) * (1 - flDouble t) =
        ((b : ℚ) - a) * (flDouble (1 - flDouble t) - (1 - flDouble t)) by ring, abs_mul, abs_of_nonneg d0]
      calc _ ≤ (32767 : ℚ) * (1 / 2 ^ 53) := by
            refine mul_le_mul d1 ((flDouble_abs _).trans ?_) (abs_nonneg _) (by norm_num)
            rw [abs_of_nonneg (by linarith)]
            gcongr
            linarith
        _ ≤ _ := by norm_num
    have u3 := prod _ u0 u1
    have m0 : 0 ≤ ((b : ℚ) - a) * flDouble (1 - flDouble t) := mul_nonneg d0 u0
    have m1 : ((b : ℚ) - a) * flDouble (1 - flDouble t) ≤ 32767 := by nlinarith
    have w := abs_le.mp u3
    have u4 := abs_le.mp (sum ((b : ℚ) - flDouble (((b : ℚ) - a) * flDouble (1 - flDouble t))) (by
      rw [abs_le]
      have k1 := w.1
      have k2 := w.2
      have k3 : (1 : ℚ) / 2 ^ 37 ≤ 1 := by norm_num
      have k4 : (2 : ℚ) ^ 17 = 131072 := by norm_num
      constructor <;> linarith))
    have v2 := abs_le.mp u2
    have v1 := abs_le.mp ht
    rw [abs_le]
    have k5 : (3 : ℚ) * (1 / 2 ^ 37) + 1 / 2 ^ 35 ≤ 1 / 2 ^ 30 := by norm_num
    have k6 : (0 : ℚ) < 1 / 2 ^ 37 := by norm_num
    constructor <;> linarith [u4.1, u4.2, v2.1, v2.2, v1.1, v1.2, w.1, w.2]
  · have u3 := prod _ tt0 tt1
    have m0 : 0 ≤ ((b : ℚ) - a) * flDouble t := mul_nonneg d0 tt0
    have m1 : ((b : ℚ) - a) * flDouble t ≤ 32767 := by nlinarith
    have w := abs_le.mp u3
    have u4 := abs_le.mp (sum ((a : ℚ) + flDouble (((b : ℚ) - a) * flDouble t)) (by
      rw [abs_le]
      have k1 := w.1
      have k2 := w.2
      have k3 : (1 : ℚ) / 2 ^ 37 ≤ 1 := by norm_num
      have k4 : (2 : ℚ) ^ 17 = 131072 := by norm_num
      constructor <;> linarith))
    have v1 := abs_le.mp ht
    rw [abs_le]
    have k5 : (3 : ℚ) * (1 / 2 ^ 37) + 1 / 2 ^ 35 ≤ 1 / 2 ^ 30 := by norm_num
    have k6 : (0 : ℚ) < 1 / 2 ^ 37 := by norm_num
    constructor <;> linarith [u4.1, u4.2, v1.1, v1.2, w.1, w.2]

/-- C38 in double precision. For rows of up to 2^30 pixels every statistic is within a hundredth of a cycle of the exact percentile; after truncation
to an integer, which is what the overlap file stores, it is at most one off. -/
theorem C38_double_near (row : List ℤ) (hne : row ≠ []) (hn : row.length ≤ 2 ^ 30) (hr : Row16 row) (k : Nat) (hk : k ≤ 10) :
    ∃ x y : ℚ, (decilesFl flDouble row)[k]? = some x ∧ (deciles row)[k]? = some y ∧ |x - y| ≤ 1 / 100 ∧ |pyInt x - pyInt y| ≤ 1 := by
  have h := double_halves
  obtain ⟨hp, hs⟩ := sortInt_spec row
  have hd : decilesFl flDouble row = (List.range 11).map fun (k : ℕ) => percentileFl flDouble (row.mergeSort (· ≤ ·)) (10 * k) := rfl
  have hd' : deciles row = (List.range 11).map fun (k : ℕ) => percentileSorted (row.mergeSort (· ≤ ·)) (10 * k) := rfl
  set s := row.mergeSort (· ≤ ·) with hsdef
  have hlen : 0 < s.length := by
    rw [hp.length_eq]; exact List.length_pos_of_ne_nil hne
  have hn' : s.length ≤ 2 ^ 30 := by rw [hp.length_eq]; exact hn
  have hr' := row16_perm hp hr
  have hkq : (k : ℚ) ≤ 10 := by exact_mod_cast hk
  have hk0 : (0 : ℚ) ≤ k := Nat.cast_nonneg _
  have hn1 : (0 : ℚ) ≤ (s.length : ℚ) - 1 := by
    have : (1 : ℚ) ≤ s.length := by exact_mod_cast hlen
    linarith
  have hn2 : (s.length : ℚ) - 1 ≤ 2 ^ 30 := by
    have : (s.length : ℚ) ≤ 2 ^ 30 := by exact_mod_cast hn'
    linarith
  rw [hd, hd', List.getElem?_map, List.getElem?_map, List.getElem?_range (by omega)]
  simp only [Option.map_some, Option.some.injEq]
  -- the two positions
  set w : ℚ := 10 * (k : ℚ) / 100 * ((s.length : ℚ) - 1) with hw
  set v : ℚ := flDouble (((s.length : ℚ) - 1) * flDouble (10 * (k : ℚ) / 100)) with hv
  obtain ⟨p0, p1⟩ := position_bounds h hlen (hn'.trans (by norm_num)) (q := 10 * (k : ℚ)) (by positivity) (by linarith)
  rw [← hv] at p0 p1
  have q0 : (0 : ℚ) ≤ 10 * (k : ℚ) / 100 := by positivity
  have q1 : 10 * (k : ℚ) / 100 ≤ 1 := by linarith
  have w0 : 0 ≤ w := mul_nonneg q0 hn1
  have w1 : w ≤ (s.length : ℚ) - 1 := by rw [hw]; nlinarith
  have hvw : |v - w| ≤ 1 / 2 ^ 22 := by
    have r1 := abs_le.mp (flDouble_abs (10 * (k : ℚ) / 100))
    rw [abs_of_nonneg q0] at r1
    have f0 : 0 ≤ flDouble (10 * (k : ℚ) / 100) := flDouble_nonneg q0
    have r3 : |((s.length : ℚ) - 1) * flDouble (10 * (k : ℚ) / 100) - w| ≤ 1 / 2 ^ 23 := by
      rw [hw, show ((s.length : ℚ) - 1) * flDouble (10 * (k : ℚ) / 100) - 10 * (k : ℚ) / 100 * ((s.length : ℚ) - 1) =
        ((s.length : ℚ) - 1) * (flDouble (10 * (k : ℚ) / 100) - 10 * (k : ℚ) / 100) by ring, abs_mul, abs_of_nonneg hn1]
      calc _ ≤ (2 ^ 30 : ℚ) * (1 / 2 ^ 53) := by
            refine mul_le_mul hn2 ?_ (abs_nonneg _) (by norm_num)
            refine (flDouble_abs _).trans ?_
            rw [abs_of_nonneg q0]
            gcongr
        _ ≤ _ := by norm_num
    have f1 : flDouble (10 * (k : ℚ) / 100) ≤ 1 := by
      have : flDouble 1 = 1 := by simpa using h.int 1 (by norm_num)
      rw [← this]; exact flDouble_mono q1
    have r4 : |v - ((s.length : ℚ) - 1) * flDouble (10 * (k : ℚ) / 100)| ≤ 1 / 2 ^ 23 := by
      refine (flDouble_abs _).trans ?_
      rw [abs_of_nonneg (mul_nonneg hn1 f0), div_le_iff₀ (by norm_num)]
      have : ((s.length : ℚ) - 1) * flDouble (10 * (k : ℚ) / 100) ≤ 2 ^ 30 := by nlinarith
      norm_num at this ⊢
      linarith
    have a := abs_le.mp r3
    have b := abs_le.mp r4
    rw [abs_le]
    constructor <;> norm_num at * <;> linarith [a.1, a.2, b.1, b.2]
  have hlip : |exactPosition s v - exactPosition s w| ≤ 32767 * (1 / 2 ^ 22) := by
    have hb := abs_le.mp hvw
    rcases le_total v w with hle | hle
    · rw [abs_sub_comm]
      refine (exactPosition_lipschitz hlen hs hr' p0 hle w1 (by norm_num at *; linarith)).trans ?_
      exact mul_le_mul_of_nonneg_left (by linarith) (by norm_num)
    · refine (exactPosition_lipschitz hlen hs hr' w0 hle p1 (by norm_num at *; linarith)).trans ?_
      exact mul_le_mul_of_nonneg_left (by linarith) (by norm_num)
  have hl := floor_lt_length hlen p0 p1
  obtain ⟨a1, a2, a3, a4⟩ := atPosition_facts hs hr' hl
  have hlerp := lerp_double a1 a2 a3 a4 (t := v - ⌊v⌋) (by linarith [Int.floor_le v]) (by linarith [Int.lt_floor_add_one v])
  have hx : |percentileFl flDouble s (10 * k) - percentileSorted s (10 * k)| ≤ 1 / 100 := by
    have c1 : |percentileFl flDouble s (10 * k) - exactPosition s v| ≤ 1 / 2 ^ 30 := hlerp
    have c2 : percentileSorted s (10 * k) = exactPosition s w := rfl
    rw [c2]
    have b1 := abs_le.mp c1
    have b2 := abs_le.mp hlip
    rw [abs_le]
    constructor <;> norm_num at * <;> linarith [b1.1, b1.2, b2.1, b2.2]
  refine ⟨_, _, rfl, rfl, hx, ?_⟩
  set x := percentileFl flDouble s (10 * k)
  set y := percentileSorted s (10 * k)
  have hb := abs_le.mp hx
  have hfl : ∀ u z : ℚ, u ≤ z + 1 / 100 → ⌊u⌋ ≤ ⌊z⌋ + 1 := by
    intro u z huz
    have : (⌊u⌋ : ℚ) < ((⌊z⌋ + 2 : ℤ) : ℚ) := by
      push_cast
      linarith [Int.floor_le u, Int.lt_floor_add_one z]
    have := Int.cast_lt.mp this
    omega
  unfold pyInt
  have k1 := hfl x y (by linarith)
  have k2 := hfl y x (by linarith)
  have k3 := hfl (-x) (-y) (by linarith)
  have k4 := hfl (-y) (-x) (by linarith)
  have n1 := Int.floor_neg (a := x)
  have n2 := Int.floor_neg (a := y)
  split <;> split <;> rename_i s1 s2 <;> rw [abs_le]
  · omega
  · have h3 : 0 ≤ ⌊x⌋ := Int.floor_nonneg.mpr (by linarith)
    have h5 : 0 ≤ ⌊-y⌋ := Int.floor_nonneg.mpr (by linarith)
    have h4 : ⌊x⌋ ≤ 0 := by
      have : (⌊x⌋ : ℚ) < ((1 : ℤ) : ℚ) := by push_cast; linarith [Int.floor_le x]
      have := Int.cast_lt.mp this
      omega
    have h6 : ⌊-y⌋ ≤ 0 := by
      have : (⌊-y⌋ : ℚ) < ((1 : ℤ) : ℚ) := by push_cast; linarith [Int.floor_le (-y)]
      have := Int.cast_lt.mp this
      omega
    omega
  · have h3 : 0 ≤ ⌊y⌋ := Int.floor_nonneg.mpr (by linarith)
    have h5 : 0 ≤ ⌊-x⌋ := Int.floor_nonneg.mpr (by linarith)
    have h4 : ⌊y⌋ ≤ 0 := by
      have : (⌊y⌋ : ℚ) < ((1 : ℤ) : ℚ) := by push_cast; linarith [Int.floor_le y]
      have := Int.cast_lt.mp this
      omega
    have h6 : ⌊-x⌋ ≤ 0 := by
      have : (⌊-x⌋ : ℚ) < ((1 : ℤ) : ℚ) := by push_cast; linarith [Int.floor_le (-x)]
      have := Int.cast_lt.mp this
      omega
    omega
  · omega

/-- The bound of `C38_double_near` on the stored statistics is met: 91 pixels, 63 of them with 0 cycles and 28 with 1. The 70th percentile is the
entry number 63 of the sorted differences, 1; numpy computes the position 62.99999999999999 and a value just below 1, and the file stores 0. -/
theorem C38_double_truncated_refuted : ∃ row : List ℤ, row.length = 91 ∧ Row16 row ∧ (deciles row)[7]? = some 1 ∧
    ∃ x, (decilesFl flDouble row)[7]? = some x ∧ x < 1 ∧ pyInt x = 0 := by
  let row : List ℤ := List.replicate 63 0 ++ List.replicate 28 1
  have hsort : row.mergeSort (· ≤ ·) = row := by
    obtain ⟨hp, hs⟩ := sortInt_spec row
    exact sorted_unique hp hs (by decide +kernel)
  refine ⟨row, by decide +kernel, ⟨by decide +kernel, by decide +kernel⟩, ?_, 1 - 1 / 2 ^ 47, ?_, by norm_num, ?_⟩
  · unfold deciles
    rw [hsort]
    have : percentileSorted row (10 * ((7 : ℕ) : ℚ)) = 1 := by decide +kernel
    simpa using this
  · unfold decilesFl
    rw [hsort]
    have h1 : flDouble (10 * ((7 : ℕ) : ℚ) / 100) = 3152519739159347 / 2 ^ 52 := by
      rw [flDouble_eval (-1) (by norm_num) (by norm_num)]
      rw [rint_eq_of_lt (n := 6305039478318694) (by norm_num) (by norm_num)]
      norm_num
    have hl : ((row.length : ℚ) - 1) = 90 := by
      have : row.length = 91 := by decide +kernel
      rw [this]; norm_num
    have h2 : flDouble (90 * (3152519739159347 / 2 ^ 52)) = 63 - 1 / 2 ^ 47 := by
      rw [flDouble_eval 5 (by norm_num) (by norm_num)]
      rw [rint_eq_of_lt (n := 8866461766385663) (by norm_num) (by norm_num)]
      norm_num
    have hfl : ⌊(63 - 1 / 2 ^ 47 : ℚ)⌋ = 62 := by rw [Int.floor_eq_iff]; norm_num
    have h3 : flDouble (1 - 1 / 2 ^ 47) = 1 - 1 / 2 ^ 47 := flDouble_grid (2 ^ 47 - 1) (-47) (by norm_num) (by norm_num)
    have h4 : flDouble (1 / 2 ^ 47) = 1 / 2 ^ 47 := flDouble_grid 1 (-47) (by norm_num) (by norm_num)
    have : percentileFl flDouble row (10 * ((7 : ℕ) : ℚ)) = 1 - 1 / 2 ^ 47 := by
      unfold percentileFl
      simp only
      rw [hl, h1, h2, hfl]
      have e1 : row.getD (62 : ℤ).toNat 0 = 0 := by decide +kernel
      have e2 : row.getD (min ((62 : ℤ).toNat + 1) (row.length - 1)) 0 = 1 := by decide +kernel
      rw [e1, e2]
      have e3 : (63 - 1 / 2 ^ 47 - ((62 : ℤ) : ℚ)) = 1 - 1 / 2 ^ 47 := by push_cast; ring
      rw [e3, h3]
      unfold lerpFl
      simp only
      have e4 : toInt16 (1 - 0) = 1 := by decide
      have e5 : (1 - (1 - 1 / 2 ^ 47) : ℚ) = 1 / 2 ^ 47 := by ring
      rw [if_pos (by norm_num), e4, e5, h4]
      push_cast
      rw [one_mul, h4, h3]
    rw [List.getElem?_map, List.getElem?_range (by omega)]
    simpa using this
  · rw [pyInt_of_nonneg (by norm_num), Int.floor_eq_iff]
    norm_num

/-- Non-vacuity of `C38_double` and `C38_double_near`: twelve pixels, an interpolated median. -/
example : Row16 [3, -2, 3, 3, -2, 7, 7, 3, 2, 2, 2, 2] := by
  unfold Row16
  decide

/-- Non-vacuity of `C38_double_majority`. -/
example : ([5, 5, 5, 5, 5, 5, 5, 0, -3, 1, 1] : List ℤ).length < 2 * ([5, 5, 5, 5, 5, 5, 5, 0, -3, 1, 1] : List ℤ).count 5 ∧
    Row16 [5, 5, 5, 5, 5, 5, 5, 0, -3, 1, 1] := by
  unfold Row16
  decide

end Spurt
