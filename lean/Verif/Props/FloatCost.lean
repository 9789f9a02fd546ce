import Verif.Lemmas.FloatCost
import Verif.Props.CostValues
import Verif.Lemmas.FloatOverlap
import Mathlib.Analysis.Complex.Norm
import Mathlib.Tactic.IntervalCases

/-! # C74: the link costs computed in double precision -/

namespace Spurt

open Spec

/-- Points with whole coordinates as floating-point numbers. -/
def ratPoints (points : List (ℤ × ℤ)) : List (ℚ × ℚ) := points.map fun p => ((p.1 : ℚ), (p.2 : ℚ))

/-- The same points as real numbers. -/
def realPoints (points : List (ℤ × ℤ)) : List (ℝ × ℝ) := points.map fun p => ((p.1 : ℝ), (p.2 : ℝ))

theorem fl_int {fl sq : ℚ → ℚ} (hA : DoubleArith fl sq) {n : ℤ} (h : |n| ≤ 2 ^ 53) : fl (n : ℚ) = n := by
  simpa using hA.exact n 0 h

/-- A tie needs a whole distance. -/
theorem tie_square {S n : ℕ} (hS : 1 ≤ S) (hn : 1 ≤ n) {q : ℤ} (h : (S : ℝ) / √(n : ℝ) = q / 2) : ∃ r : ℕ, n = r ^ 2 := by
  have ht1 : (1 : ℝ) ≤ √(n : ℝ) := by rw [Real.one_le_sqrt]; exact_mod_cast hn
  have htt : √(n : ℝ) * √(n : ℝ) = n := Real.mul_self_sqrt (by positivity)
  have h1 : 2 * (S : ℝ) = q * √(n : ℝ) := by
    rw [div_eq_div_iff (by linarith) (by norm_num)] at h; linarith
  have h2 : (2 * (S : ℝ)) ^ 2 = (q : ℝ) ^ 2 * n := by rw [h1, mul_pow, pow_two √(n : ℝ), htt]
  have h3 : (2 * (S : ℤ)) ^ 2 = q ^ 2 * n := by exact_mod_cast h2
  have h4 : (2 * S) ^ 2 = q.natAbs ^ 2 * n := by
    have : ((q.natAbs ^ 2 : ℕ) : ℤ) = q ^ 2 := by rw [Nat.cast_pow, Int.natAbs_sq]
    have h5 : (((2 * S) ^ 2 : ℕ) : ℤ) = ((q.natAbs ^ 2 * n : ℕ) : ℤ) := by
      rw [Nat.cast_mul, this]; push_cast; exact h3
    exact_mod_cast h5
  have h5 : q.natAbs ∣ 2 * S := (Nat.pow_dvd_pow_iff (by norm_num)).mp (Dvd.intro _ h4.symm)
  obtain ⟨r, hr⟩ := h5
  have hq0 : 0 < q.natAbs := by
    rcases Nat.eq_zero_or_pos q.natAbs with h0 | h0
    · rw [h0] at hr; omega
    · exact h0
  refine ⟨r, ?_⟩
  rw [hr, mul_pow] at h4
  exact (Nat.eq_of_mul_eq_mul_left (by positivity) h4).symm

/-- Points of the lattice of step `2⁻ʲ`: the rounded cost of a link is the exact one. -/
theorem lattice_cost {fl sq : ℚ → ℚ} (hA : DoubleArith fl sq) (j : ℕ) (a b : ℤ × ℤ) {S : ℕ} (hS : 1 ≤ S)
    (ha : |a.1| ≤ 2 ^ 25 ∧ |a.2| ≤ 2 ^ 25) (hb : |b.1| ≤ 2 ^ 25 ∧ |b.2| ≤ 2 ^ 25) (hSj : S * 2 ^ j ≤ 2 ^ 14) :
    linkCostFl fl S (planeDistFl fl sq ((a.1 : ℚ) / 2 ^ j, (a.2 : ℚ) / 2 ^ j) ((b.1 : ℚ) / 2 ^ j, (b.2 : ℚ) / 2 ^ j)) =
      linkCost S (planeDist ((a.1 : ℝ) / 2 ^ j, (a.2 : ℝ) / 2 ^ j) ((b.1 : ℝ) / 2 ^ j, (b.2 : ℝ) / 2 ^ j)) := by
  have hp : (0 : ℚ) < 2 ^ j := by positivity
  have hpr : (0 : ℝ) < 2 ^ j := by positivity
  have hz1 : ∀ z : ℤ, (z : ℚ) / 2 ^ j = (z : ℚ) * (2 : ℚ) ^ (-(j : ℤ)) := by
    intro z; rw [zpow_neg, zpow_natCast, div_eq_mul_inv]
  have hz2 : ∀ z : ℤ, (z : ℚ) / 2 ^ (2 * j) = (z : ℚ) * (2 : ℚ) ^ (-((2 * j : ℕ) : ℤ)) := by
    intro z; rw [zpow_neg, zpow_natCast, div_eq_mul_inv]
  have f1 : ∀ z : ℤ, |z| ≤ 2 ^ 53 → fl ((z : ℚ) / 2 ^ j) = (z : ℚ) / 2 ^ j := by
    intro z hz; rw [hz1]; exact hA.exact _ _ hz
  have f2 : ∀ z : ℤ, |z| ≤ 2 ^ 53 → fl ((z : ℚ) / 2 ^ (2 * j)) = (z : ℚ) / 2 ^ (2 * j) := by
    intro z hz; rw [hz2]; exact hA.exact _ _ hz
  have dx : |a.1 - b.1| ≤ 2 ^ 26 := (abs_sub _ _).trans (by have := ha.1; have := hb.1; norm_num at *; omega)
  have dy : |a.2 - b.2| ≤ 2 ^ 26 := (abs_sub _ _).trans (by have := ha.2; have := hb.2; norm_num at *; omega)
  set x := a.1 - b.1 with hx
  set y := a.2 - b.2 with hy
  have sx : x ^ 2 ≤ 2 ^ 52 := by
    have := sq_le_sq' (abs_le.mp dx).1 (abs_le.mp dx).2; norm_num at this ⊢; exact this
  have sy : y ^ 2 ≤ 2 ^ 52 := by
    have := sq_le_sq' (abs_le.mp dy).1 (abs_le.mp dy).2; norm_num at this ⊢; exact this
  have px : 0 ≤ x ^ 2 := sq_nonneg x
  have py : 0 ≤ y ^ 2 := sq_nonneg y
  -- the squared distance is exact
  have hd : planeDistFl fl sq ((a.1 : ℚ) / 2 ^ j, (a.2 : ℚ) / 2 ^ j) ((b.1 : ℚ) / 2 ^ j, (b.2 : ℚ) / 2 ^ j) =
      sq (((x ^ 2 + y ^ 2 : ℤ) : ℚ) / 2 ^ (2 * j)) := by
    unfold planeDistFl
    simp only
    have e1 : (a.1 : ℚ) / 2 ^ j - (b.1 : ℚ) / 2 ^ j = (x : ℚ) / 2 ^ j := by rw [hx]; push_cast; ring
    have e2 : (a.2 : ℚ) / 2 ^ j - (b.2 : ℚ) / 2 ^ j = (y : ℚ) / 2 ^ j := by rw [hy]; push_cast; ring
    rw [e1, e2, f1 x (dx.trans (by norm_num)), f1 y (dy.trans (by norm_num))]
    have e3 : ∀ z : ℤ, (z : ℚ) / 2 ^ j * ((z : ℚ) / 2 ^ j) = ((z ^ 2 : ℤ) : ℚ) / 2 ^ (2 * j) := by
      intro z; push_cast; rw [two_mul, pow_add]; field_simp
    rw [e3, e3, f2 _ (by rw [abs_of_nonneg px]; norm_num at *; omega), f2 _ (by rw [abs_of_nonneg py]; norm_num at *; omega), ← add_div,
      ← Int.cast_add, f2 _ (by rw [abs_of_nonneg (by omega)]; norm_num at *; omega)]
  obtain ⟨n, hn⟩ := Int.eq_ofNat_of_zero_le (show 0 ≤ x ^ 2 + y ^ 2 by omega)
  have hr : planeDist ((a.1 : ℝ) / 2 ^ j, (a.2 : ℝ) / 2 ^ j) ((b.1 : ℝ) / 2 ^ j, (b.2 : ℝ) / 2 ^ j) = √(n : ℝ) / 2 ^ j := by
    unfold planeDist
    simp only
    have e : ((a.1 : ℝ) / 2 ^ j - (b.1 : ℝ) / 2 ^ j) ^ 2 + ((a.2 : ℝ) / 2 ^ j - (b.2 : ℝ) / 2 ^ j) ^ 2 = (n : ℝ) / (2 ^ j) ^ 2 := by
      have : (n : ℝ) = ((x ^ 2 + y ^ 2 : ℤ) : ℝ) := by rw [hn]; simp
      rw [this, hx, hy]; push_cast; field_simp
    rw [e, Real.sqrt_div' _ (by positivity), Real.sqrt_sq hpr.le]
  rw [hd, hr, hn]
  have hnb : n ≤ 2 ^ 53 := by
    have : (n : ℤ) ≤ 2 ^ 53 := by
      have h3 : ((n : ℕ) : ℤ) = x ^ 2 + y ^ 2 := hn.symm
      rw [h3]; norm_num at *; omega
    exact_mod_cast this
  have hsr : ∀ r : ℕ, r ≤ 2 ^ 53 → sq ((((r ^ 2 : ℕ) : ℤ) : ℚ) / 2 ^ (2 * j)) = (r : ℚ) / 2 ^ j := by
    intro r hr'
    have h1 := hA.sqrt_exact r (-(j : ℤ)) hr'
    rw [zpow_neg, zpow_natCast, ← div_eq_mul_inv] at h1
    rw [← h1]; congr 1; push_cast; rw [div_pow, ← pow_mul, mul_comm]
  rcases Nat.eq_zero_or_pos n with h0 | h0
  · subst h0
    have h1 := hsr 0 (by norm_num)
    simp only [linkCostFl, linkCost]
    norm_num at h1 ⊢
    rw [h1]; simp
  have ht1 : (1 : ℝ) ≤ √(n : ℝ) := by rw [Real.one_le_sqrt]; exact_mod_cast h0
  have hrel := hA.sqrt_rel (((n : ℤ) : ℚ) / 2 ^ (2 * j)) (by positivity)
  have hsq : √(((((n : ℤ) : ℚ) / 2 ^ (2 * j) : ℚ)) : ℝ) = √(n : ℝ) / 2 ^ j := by
    push_cast
    rw [show (2 : ℝ) ^ (2 * j) = (2 ^ j) ^ 2 by rw [← pow_mul, mul_comm], Real.sqrt_div' _ (by positivity), Real.sqrt_sq hpr.le]
  rw [hsq] at hrel
  set d := sq (((n : ℤ) : ℚ) / 2 ^ (2 * j)) with hdd
  have hD : |((d * 2 ^ j : ℚ) : ℝ) - √(n : ℝ)| ≤ 1 / 2 ^ 53 * √(n : ℝ) := by
    have e : ((d * 2 ^ j : ℚ) : ℝ) - √(n : ℝ) = ((d : ℝ) - √(n : ℝ) / 2 ^ j) * 2 ^ j := by
      push_cast; field_simp
    rw [e, abs_mul, abs_of_pos hpr]
    have := mul_le_mul_of_nonneg_right hrel hpr.le
    have e2 : √(n : ℝ) / 2 ^ j / 2 ^ 53 * 2 ^ j = 1 / 2 ^ 53 * √(n : ℝ) := by field_simp
    linarith
  have hS1 : 1 ≤ S * 2 ^ j := Nat.mul_pos hS (by positivity)
  have hS2 : ((S * 2 ^ j : ℕ) : ℝ) ≤ 2 ^ 14 := by exact_mod_cast hSj
  have hS3 : (1 : ℝ) ≤ ((S * 2 ^ j : ℕ) : ℝ) := by exact_mod_cast hS1
  have hcub : ((S * 2 ^ j : ℕ) : ℝ) ^ 3 ≤ (2 ^ 14) ^ 3 := pow_le_pow_left₀ (by linarith) hS2 3
  have hd0 := (cost_close hA (S := ((S * 2 ^ j : ℕ) : ℚ)) (by exact_mod_cast hS1) ht1 (by positivity) (by norm_num) hD).1
  have hdne : d ≠ 0 := fun h => hd0 (by rw [h, zero_mul])
  have key : rint (fl (1 + fl (((S * 2 ^ j : ℕ) : ℚ) / (d * 2 ^ j)))) = rint (1 + ((S * 2 ^ j : ℕ) : ℝ) / √(n : ℝ)) := by
    by_cases htie : ∃ q : ℤ, q % 2 = 1 ∧ ((S * 2 ^ j : ℕ) : ℝ) / √(n : ℝ) = q / 2
    · obtain ⟨q, hq, hqe⟩ := htie
      obtain ⟨r, hr'⟩ := tie_square hS1 h0 hqe
      refine cost_tie hA h0 (hSj.trans (by norm_num)) ?_ hqe
      have hrb : r ≤ 2 ^ 53 := by
        rcases Nat.eq_zero_or_pos r with h | h
        · omega
        · calc r ≤ r ^ 2 := Nat.le_self_pow (by norm_num) r
            _ ≤ 2 ^ 53 := by omega
      rw [hdd, hr', hsr r hrb, div_mul_cancel₀ _ hp.ne']
      push_cast
      rw [Real.sqrt_sq (by positivity)]
    · exact cost_same hA hS1 h0 (by positivity) (by norm_num) hD (by nlinarith) (fun q hq h => htie ⟨q, hq, h⟩)
  have e1 : ((S * 2 ^ j : ℕ) : ℚ) / (d * 2 ^ j) = (S : ℚ) / d := by push_cast; field_simp
  have e2 : ((S * 2 ^ j : ℕ) : ℝ) / √(n : ℝ) = (S : ℝ) / (√(n : ℝ) / 2 ^ j) := by push_cast; field_simp
  rw [e1, e2] at key
  unfold linkCostFl linkCost
  rw [if_neg hdne, if_neg (by positivity), key]

theorem ratPoint_at (points : List (ℤ × ℤ)) (i : Nat) :
    (pointAtFl (ratPoints points) i = .error .indexError ∧ pointAt (realPoints points) i = .error .indexError) ∨
    ∃ p ∈ points, pointAtFl (ratPoints points) i = .ok ((p.1 : ℚ), (p.2 : ℚ)) ∧ pointAt (realPoints points) i = .ok ((p.1 : ℝ), (p.2 : ℝ)) := by
  unfold pointAtFl pointAt ratPoints realPoints
  cases h : points[i]? with
  | none => left; simp [h]
  | some p => right; exact ⟨p, List.mem_of_getElem? h, by simp [h], by simp [h]⟩

/-- C74. `distance_costs` in double precision, for points with whole coordinates up to `2²⁵` (pixels, or acquisition numbers)
and a whole scale up to `2¹⁴` (the default is 100): the result - the costs, or the error - is the one exact arithmetic gives, so
every cost is the whole number nearest to `1 + scale / d`, the even one of two. -/
theorem C74_distance {fl sq : ℚ → ℚ} (hA : DoubleArith fl sq) (points : List (ℤ × ℤ))
    (hb : ∀ p ∈ points, |p.1| ≤ 2 ^ 25 ∧ |p.2| ≤ 2 ^ 25) (edges : List (Nat × Nat)) (S : ℕ) (hS : 1 ≤ S) (hS2 : S ≤ 2 ^ 14) :
    distanceCostsFl fl sq (ratPoints points) edges S = distanceCosts (realPoints points) edges S := by
  unfold distanceCostsFl distanceCosts
  apply mapM_congr_mem
  rintro ⟨a, b⟩ -
  simp only [Bind.bind, Except.bind]
  rcases ratPoint_at points a with ⟨h1, h2⟩ | ⟨p, hp, h1, h2⟩
  · rw [h1, h2]
  · rcases ratPoint_at points b with ⟨h3, h4⟩ | ⟨q, hq, h3, h4⟩
    · rw [h1, h2, h3, h4]
    · rw [h1, h2, h3, h4]
      have := lattice_cost hA 0 p q hS (hb p hp) (hb q hq) (by simpa using hS2)
      simpa using this

theorem foldl_exact {fl sq : ℚ → ℚ} (hA : DoubleArith fl sq) (g : Nat → ℤ) (B : ℤ) (hg : ∀ i, |g i| ≤ B) :
    ∀ (l : List Nat) (acc : ℤ), |acc| + l.length * B ≤ 2 ^ 53 →
      l.foldl (fun (r : ℚ) i => fl (r + (g i : ℚ))) (acc : ℚ) = ((acc + (l.map g).sum : ℤ) : ℚ) := by
  intro l
  induction l with
  | nil => intro acc _; simp
  | cons i l ih =>
    intro acc h
    have hB : 0 ≤ B := (abs_nonneg _).trans (hg i)
    have h1 : |acc + g i| ≤ |acc| + B := (abs_add_le _ _).trans (by linarith [hg i])
    have h2 : (((i :: l).length : ℕ) : ℤ) * B = l.length * B + B := by rw [List.length_cons]; push_cast; ring
    rw [h2] at h
    have h3 : 0 ≤ (l.length : ℤ) * B := by positivity
    rw [List.foldl_cons, ← Int.cast_add, fl_int hA (by linarith), ih _ (by linarith), List.map_cons, List.sum_cons, add_assoc]

/-- The sum of the coordinates of the points of a cycle. -/
def cycleSum (points : List (ℤ × ℤ)) (cycle : List Nat) : ℤ × ℤ :=
  ((cycle.map fun i => (points.getD i (0, 0)).1).sum, (cycle.map fun i => (points.getD i (0, 0)).2).sum)

theorem getD_bound {points : List (ℤ × ℤ)} {B : ℤ} (hB : 0 ≤ B) (hb : ∀ p ∈ points, |p.1| ≤ B ∧ |p.2| ≤ B) (i : Nat) :
    |(points.getD i (0, 0)).1| ≤ B ∧ |(points.getD i (0, 0)).2| ≤ B := by
  rw [List.getD_eq_getElem?_getD]
  cases h : points[i]? with
  | none => simpa using hB
  | some p => exact hb p (List.mem_of_getElem? h)

theorem cycleSum_bound {points : List (ℤ × ℤ)} {B : ℤ} (hB : 0 ≤ B) (hb : ∀ p ∈ points, |p.1| ≤ B ∧ |p.2| ≤ B) (cycle : List Nat) :
    |(cycleSum points cycle).1| ≤ cycle.length * B ∧ |(cycleSum points cycle).2| ≤ cycle.length * B := by
  unfold cycleSum
  simp only
  induction cycle with
  | nil => simp
  | cons i l ih =>
    have h := getD_bound hB hb i
    simp only [List.map_cons, List.sum_cons, List.length_cons]
    push_cast
    constructor
    · exact (abs_add_le _ _).trans (by linarith [ih.1, h.1])
    · exact (abs_add_le _ _).trans (by linarith [ih.2, h.2])

theorem getD_rat (points : List (ℤ × ℤ)) (i : Nat) :
    (ratPoints points).getD i (0, 0) = (((points.getD i (0, 0)).1 : ℚ), ((points.getD i (0, 0)).2 : ℚ)) := by
  unfold ratPoints
  rw [List.getD_eq_getElem?_getD, List.getD_eq_getElem?_getD, List.getElem?_map]
  cases points[i]? <;> simp

theorem getD_real (points : List (ℤ × ℤ)) (i : Nat) :
    (realPoints points).getD i (0, 0) = (((points.getD i (0, 0)).1 : ℝ), ((points.getD i (0, 0)).2 : ℝ)) := by
  unfold realPoints
  rw [List.getD_eq_getElem?_getD, List.getD_eq_getElem?_getD, List.getElem?_map]
  cases points[i]? <;> simp

theorem centroidFl_eq {fl sq : ℚ → ℚ} (hA : DoubleArith fl sq) {points : List (ℤ × ℤ)} {B : ℤ} (hB : 0 ≤ B)
    (hb : ∀ p ∈ points, |p.1| ≤ B ∧ |p.2| ≤ B) {cycle : List Nat} (hl : cycle.length * B ≤ 2 ^ 53) :
    centroidFl fl (ratPoints points) cycle =
      (fl (((cycleSum points cycle).1 : ℚ) / cycle.length), fl (((cycleSum points cycle).2 : ℚ) / cycle.length)) := by
  unfold centroidFl cycleSum
  simp only [getD_rat]
  have h1 := foldl_exact hA (fun i => (points.getD i (0, 0)).1) B (fun i => (getD_bound hB hb i).1) cycle 0 (by simpa using hl)
  have h2 := foldl_exact hA (fun i => (points.getD i (0, 0)).2) B (fun i => (getD_bound hB hb i).2) cycle 0 (by simpa using hl)
  rw [Int.cast_zero, zero_add] at h1 h2
  rw [h1, h2]

theorem centroid_real (points : List (ℤ × ℤ)) (cycle : List Nat) :
    centroid (realPoints points) cycle =
      (((cycleSum points cycle).1 : ℝ) / cycle.length, ((cycleSum points cycle).2 : ℝ) / cycle.length) := by
  unfold centroid cycleSum
  simp only [getD_real]
  have e : ∀ (g : Nat → ℤ) (l : List Nat), (l.map fun i => (g i : ℝ)).sum = (((l.map g).sum : ℤ) : ℝ) := by
    intro g l
    induction l with
    | nil => simp
    | cons a l ih => rw [List.map_cons, List.sum_cons, ih, List.map_cons, List.sum_cons]; push_cast; rfl
  rw [e, e]

theorem centroid_at (fl : ℚ → ℚ) (points : List (ℤ × ℤ)) (cycles : List (List Nat)) (i : Nat) :
    (pointAtFl (cycles.map (centroidFl fl (ratPoints points))) i = .error .indexError ∧
      pointAt (cycles.map (centroid (realPoints points))) i = .error .indexError) ∨
    ∃ c ∈ cycles, cycles[i]? = some c ∧ pointAtFl (cycles.map (centroidFl fl (ratPoints points))) i = .ok (centroidFl fl (ratPoints points) c) ∧
      pointAt (cycles.map (centroid (realPoints points))) i = .ok (centroid (realPoints points) c) := by
  unfold pointAtFl pointAt
  cases h : cycles[i]? with
  | none => left; simp [h]
  | some p => right; exact ⟨p, List.mem_of_getElem? h, rfl, by simp [h], by simp [h]⟩

/-- C74. `centroid_costs` on a regular grid (`Reg2DGraph`: every cycle has four points), for coordinates up to `2²³` and a whole
scale up to `2¹²`: as in exact arithmetic. -/
theorem C74_centroid_grid {fl sq : ℚ → ℚ} (hA : DoubleArith fl sq) (points : List (ℤ × ℤ))
    (hb : ∀ p ∈ points, |p.1| ≤ 2 ^ 23 ∧ |p.2| ≤ 2 ^ 23) (cycles : List (List Nat)) (h4 : ∀ c ∈ cycles, c.length = 4)
    (dual : List DualRow) (S : ℕ) (hS : 1 ≤ S) (hS2 : S ≤ 2 ^ 12) :
    centroidCostsFl fl sq (ratPoints points) cycles dual S = centroidCosts (realPoints points) cycles dual S := by
  unfold centroidCostsFl centroidCosts
  apply mapM_congr_mem
  intro r _
  split
  · rfl
  simp only [Bind.bind, Except.bind]
  have hc : ∀ c ∈ cycles, centroidFl fl (ratPoints points) c =
      (((cycleSum points c).1 : ℚ) / 2 ^ 2, ((cycleSum points c).2 : ℚ) / 2 ^ 2) ∧ centroid (realPoints points) c =
      (((cycleSum points c).1 : ℝ) / 2 ^ 2, ((cycleSum points c).2 : ℝ) / 2 ^ 2) ∧
      |(cycleSum points c).1| ≤ 2 ^ 25 ∧ |(cycleSum points c).2| ≤ 2 ^ 25 := by
    intro c hcm
    have hs := cycleSum_bound (by norm_num) hb c
    rw [h4 c hcm] at hs
    norm_num at hs
    have f : ∀ z : ℤ, |z| ≤ 2 ^ 25 → fl ((z : ℚ) / 4) = (z : ℚ) / 2 ^ 2 := by
      intro z hz
      have := hA.exact z (-2) (hz.trans (by norm_num))
      rw [show (z : ℚ) * (2 : ℚ) ^ (-2 : ℤ) = (z : ℚ) / 4 by norm_num; ring] at this
      rw [this]; norm_num
    refine ⟨?_, ?_, ?_, ?_⟩
    · rw [centroidFl_eq hA (by norm_num) hb (by rw [h4 c hcm]; norm_num), h4 c hcm]
      push_cast
      rw [f _ (by norm_num; exact hs.1), f _ (by norm_num; exact hs.2)]
    · rw [centroid_real, h4 c hcm]; norm_num
    · norm_num; exact hs.1
    · norm_num; exact hs.2
  rcases centroid_at fl points cycles (r.c0 - 1) with ⟨h1, h2⟩ | ⟨u, hu, -, h1, h2⟩
  · rw [h1, h2]
  · rcases centroid_at fl points cycles (r.c1 - 1) with ⟨h3, h5⟩ | ⟨v, hv, -, h3, h5⟩
    · rw [h1, h2, h3, h5]
    · rw [h1, h2, h3, h5]
      obtain ⟨u1, u2, u3⟩ := hc u hu
      obtain ⟨v1, v2, v3⟩ := hc v hv
      simp only [u1, u2, v1, v2]
      exact lattice_cost hA 2 _ _ hS u3 v3 (by norm_num; omega)

/-- Lengths of nearby vectors are close. -/
theorem planar_near (a b c d : ℝ) : |√(a ^ 2 + b ^ 2) - √(c ^ 2 + d ^ 2)| ≤ |a - c| + |b - d| := by
  have h := abs_norm_sub_norm_le (⟨a, b⟩ : ℂ) ⟨c, d⟩
  have h2 := Complex.norm_le_abs_re_add_abs_im ((⟨a, b⟩ : ℂ) - ⟨c, d⟩)
  rw [Complex.norm_eq_sqrt_sq_add_sq, Complex.norm_eq_sqrt_sq_add_sq] at h
  simp only [Complex.sub_re, Complex.sub_im] at h2
  exact h.trans h2

/-- The rounded distance of two rounded means of three whole numbers each. -/
theorem third_dist {fl sq : ℚ → ℚ} (hA : DoubleArith fl sq) (u v : ℤ × ℤ) (hu : |u.1| ≤ 3 * 2 ^ 15 ∧ |u.2| ≤ 3 * 2 ^ 15)
    (hv : |v.1| ≤ 3 * 2 ^ 15 ∧ |v.2| ≤ 3 * 2 ^ 15) (hne : u ≠ v) :
    ∃ n : ℕ, 1 ≤ n ∧ planeDist ((u.1 : ℝ) / 3, (u.2 : ℝ) / 3) ((v.1 : ℝ) / 3, (v.2 : ℝ) / 3) = √(n : ℝ) / 3 ∧
      |((3 * planeDistFl fl sq (fl ((u.1 : ℚ) / 3), fl ((u.2 : ℚ) / 3)) (fl ((v.1 : ℚ) / 3), fl ((v.2 : ℚ) / 3)) : ℚ) : ℝ) - √(n : ℝ)|
        ≤ 1 / 2 ^ 31 * √(n : ℝ) := by
  obtain ⟨n, hn⟩ := Int.eq_ofNat_of_zero_le (show 0 ≤ (u.1 - v.1) ^ 2 + (u.2 - v.2) ^ 2 by positivity)
  have hn1 : 1 ≤ n := by
    rcases Nat.eq_zero_or_pos n with h | h
    · exfalso
      rw [h, Nat.cast_zero] at hn
      have h1 : (u.1 - v.1) ^ 2 = 0 := by nlinarith [sq_nonneg (u.1 - v.1), sq_nonneg (u.2 - v.2)]
      have h2 : (u.2 - v.2) ^ 2 = 0 := by nlinarith [sq_nonneg (u.1 - v.1), sq_nonneg (u.2 - v.2)]
      have h3 := pow_eq_zero_iff (two_ne_zero) |>.mp h1
      have h4 := pow_eq_zero_iff (two_ne_zero) |>.mp h2
      apply hne; ext <;> omega
    · exact h
  have hnr : (n : ℝ) = ((u.1 : ℝ) - v.1) ^ 2 + ((u.2 : ℝ) - v.2) ^ 2 := by
    have : (((n : ℕ) : ℤ) : ℝ) = (((u.1 - v.1) ^ 2 + (u.2 - v.2) ^ 2 : ℤ) : ℝ) := by rw [hn]
    push_cast at this; exact this
  have hd : planeDist ((u.1 : ℝ) / 3, (u.2 : ℝ) / 3) ((v.1 : ℝ) / 3, (v.2 : ℝ) / 3) = √(n : ℝ) / 3 := by
    unfold planeDist
    simp only
    have e : ((u.1 : ℝ) / 3 - (v.1 : ℝ) / 3) ^ 2 + ((u.2 : ℝ) / 3 - (v.2 : ℝ) / 3) ^ 2 = (n : ℝ) / 3 ^ 2 := by
      rw [hnr]; ring
    rw [e, Real.sqrt_div' _ (by positivity), Real.sqrt_sq (by norm_num)]
  refine ⟨n, hn1, hd, ?_⟩
  have ht1 : (1 : ℝ) ≤ √(n : ℝ) := by rw [Real.one_le_sqrt]; exact_mod_cast hn1
  -- one coordinate
  have hcoord : ∀ a b : ℤ, |a| ≤ 3 * 2 ^ 15 → |b| ≤ 3 * 2 ^ 15 →
      |fl (fl ((a : ℚ) / 3) - fl ((b : ℚ) / 3)) - ((a : ℚ) / 3 - (b : ℚ) / 3)| ≤ 1 / 2 ^ 35 := by
    intro a b ha hb
    have ha' : |(a : ℚ) / 3| ≤ 2 ^ 15 := by
      rw [abs_div, div_le_iff₀ (by norm_num)]
      have : |(a : ℚ)| ≤ 3 * 2 ^ 15 := by exact_mod_cast ha
      norm_num at this ⊢; linarith
    have hb' : |(b : ℚ) / 3| ≤ 2 ^ 15 := by
      rw [abs_div, div_le_iff₀ (by norm_num)]
      have : |(b : ℚ)| ≤ 3 * 2 ^ 15 := by exact_mod_cast hb
      norm_num at this ⊢; linarith
    have r1 := hA.rel ((a : ℚ) / 3)
    have r2 := hA.rel ((b : ℚ) / 3)
    set x := (a : ℚ) / 3
    set y := (b : ℚ) / 3
    have r3 := hA.rel (fl x - fl y)
    obtain ⟨x1, x2⟩ := abs_le.mp r1
    obtain ⟨y1, y2⟩ := abs_le.mp r2
    obtain ⟨x3, x4⟩ := abs_le.mp ha'
    obtain ⟨y3, y4⟩ := abs_le.mp hb'
    have hbig : |fl x - fl y| ≤ 2 ^ 17 := by
      rw [abs_le]; norm_num at *; constructor <;> linarith
    obtain ⟨z1, z2⟩ := abs_le.mp r3
    rw [abs_le]; norm_num at *; constructor <;> linarith
  have c1 := hcoord u.1 v.1 hu.1 hv.1
  have c2 := hcoord u.2 v.2 hu.2 hv.2
  unfold planeDistFl
  simp only
  set X := fl (fl ((u.1 : ℚ) / 3) - fl ((v.1 : ℚ) / 3))
  set Y := fl (fl ((u.2 : ℚ) / 3) - fl ((v.2 : ℚ) / 3))
  have c1' : |(X : ℝ) - ((u.1 : ℝ) / 3 - (v.1 : ℝ) / 3)| ≤ 1 / 2 ^ 35 := by
    have := (Rat.cast_le (K := ℝ)).mpr c1; push_cast at this; exact this
  have c2' : |(Y : ℝ) - ((u.2 : ℝ) / 3 - (v.2 : ℝ) / 3)| ≤ 1 / 2 ^ 35 := by
    have := (Rat.cast_le (K := ℝ)).mpr c2; push_cast at this; exact this
  have hnear := planar_near (X : ℝ) Y ((u.1 : ℝ) / 3 - (v.1 : ℝ) / 3) ((u.2 : ℝ) / 3 - (v.2 : ℝ) / 3)
  have hd' : √(((u.1 : ℝ) / 3 - (v.1 : ℝ) / 3) ^ 2 + ((u.2 : ℝ) / 3 - (v.2 : ℝ) / 3) ^ 2) = √(n : ℝ) / 3 := hd
  rw [hd'] at hnear
  -- the sum of squares
  set w : ℝ := (X : ℝ) ^ 2 + (Y : ℝ) ^ 2 with hw
  set t := √(n : ℝ)
  have hnear' : |√w - t / 3| ≤ 1 / 2 ^ 34 := hnear.trans ((add_le_add c1' c2').trans (by norm_num))
  obtain ⟨n1, n2⟩ := abs_le.mp hnear'
  have hsw : t / 4 ≤ √w := by linarith
  have hw0 : 0 < w := by
    have : 0 < √w := by linarith
    exact Real.sqrt_pos.mp this
  have hq : |fl (fl (X * X) + fl (Y * Y)) - (X ^ 2 + Y ^ 2)| ≤ 1 / 2 ^ 51 * (X ^ 2 + Y ^ 2) := by
    have s1 := hA.rel (X * X)
    have s2 := hA.rel (Y * Y)
    have s3 := hA.rel (fl (X * X) + fl (Y * Y))
    rw [abs_of_nonneg (mul_self_nonneg X)] at s1
    rw [abs_of_nonneg (mul_self_nonneg Y)] at s2
    have p1 := mul_self_nonneg X
    have p2 := mul_self_nonneg Y
    obtain ⟨a1, a2⟩ := abs_le.mp s1
    obtain ⟨b1, b2⟩ := abs_le.mp s2
    have hn0 : 0 ≤ fl (X * X) + fl (Y * Y) := by norm_num at *; linarith
    rw [abs_of_nonneg hn0] at s3
    obtain ⟨d1, d2⟩ := abs_le.mp s3
    rw [pow_two, pow_two, abs_le]; norm_num at *; constructor <;> linarith
  set V := fl (fl (X * X) + fl (Y * Y))
  have hq' : |(V : ℝ) - w| ≤ 1 / 2 ^ 51 * w := by
    have := (Rat.cast_le (K := ℝ)).mpr hq; push_cast at this; exact this
  have hV0 : (0 : ℝ) ≤ V := by
    have := (abs_le.mp hq').1
    linarith
  have hV0' : 0 ≤ V := by exact_mod_cast hV0
  have h1 := sqrt_near hw0 hq' hV0
  have h2 := hA.sqrt_rel V hV0'
  obtain ⟨e1, e2⟩ := abs_le.mp h1
  obtain ⟨e3, e4⟩ := abs_le.mp h2
  obtain ⟨e5, e6⟩ := abs_le.mp hnear'
  push_cast
  rw [abs_le]
  constructor <;> linarith

/-- One link of `centroid_costs` between two triangles. -/
theorem third_cost {fl sq : ℚ → ℚ} (hA : DoubleArith fl sq) (u v : ℤ × ℤ) (hu : |u.1| ≤ 3 * 2 ^ 15 ∧ |u.2| ≤ 3 * 2 ^ 15)
    (hv : |v.1| ≤ 3 * 2 ^ 15 ∧ |v.2| ≤ 3 * 2 ^ 15) (hne : u ≠ v) {S : ℕ} (hS : 1 ≤ S) (hS2 : S ≤ 100) :
    let d := planeDist ((u.1 : ℝ) / 3, (u.2 : ℝ) / 3) ((v.1 : ℝ) / 3, (v.2 : ℝ) / 3)
    ∃ c, linkCostFl fl S (planeDistFl fl sq (fl ((u.1 : ℚ) / 3), fl ((u.2 : ℚ) / 3)) (fl ((v.1 : ℚ) / 3), fl ((v.2 : ℚ) / 3))) = .ok c ∧
      |1 + (S : ℝ) / d - c| ≤ 1 / 2 := by
  intro d
  obtain ⟨n, hn, hd, hD⟩ := third_dist hA u v hu hv hne
  set D := planeDistFl fl sq (fl ((u.1 : ℚ) / 3), fl ((u.2 : ℚ) / 3)) (fl ((v.1 : ℚ) / 3), fl ((v.2 : ℚ) / 3))
  have ht1 : (1 : ℝ) ≤ √(n : ℝ) := by rw [Real.one_le_sqrt]; exact_mod_cast hn
  have hS1 : 1 ≤ 3 * S := by omega
  have hSr : ((3 * S : ℕ) : ℝ) ≤ 300 := by exact_mod_cast (by omega : 3 * S ≤ 300)
  have hS0 : (0 : ℝ) ≤ ((3 * S : ℕ) : ℝ) := by positivity
  have hcub : ((3 * S : ℕ) : ℝ) ^ 3 ≤ 300 ^ 3 := pow_le_pow_left₀ hS0 hSr 3
  obtain ⟨hd0, hc⟩ := cost_close hA (S := ((3 * S : ℕ) : ℚ)) (by exact_mod_cast hS1) ht1 (by positivity) (by norm_num) hD
  have hdne : D ≠ 0 := fun h => hd0 (by rw [h, mul_zero])
  have e1 : ((3 * S : ℕ) : ℚ) / (3 * D) = (S : ℚ) / D := by push_cast; field_simp
  have e2 : ((3 * S : ℕ) : ℝ) / √(n : ℝ) = (S : ℝ) / d := by
    rw [show d = √(n : ℝ) / 3 from hd]; push_cast; field_simp
  refine ⟨rint (fl (1 + fl ((S : ℚ) / D))), by unfold linkCostFl; rw [if_neg hdne], ?_⟩
  by_cases htie : ∃ q : ℤ, q % 2 = 1 ∧ ((3 * S : ℕ) : ℝ) / √(n : ℝ) = q / 2
  · obtain ⟨q, hq, hqe⟩ := htie
    rw [Rat.cast_natCast, e1, hqe] at hc
    rw [← e2, hqe]
    set y := fl (1 + fl ((S : ℚ) / D))
    obtain ⟨k, hk⟩ : ∃ k, q = 2 * k + 1 := ⟨q / 2, by omega⟩
    have hkr : (q : ℝ) = 2 * k + 1 := by rw [hk]; push_cast; ring
    have hc' : |(y : ℝ) - (1 + (q : ℝ) / 2)| ≤ 1 / 4 := hc.trans (by linarith)
    obtain ⟨h1, h2⟩ := abs_le.mp hc'
    obtain ⟨b1, b2⟩ := rint_bounds y
    have b1' : (rint y : ℝ) - 1 / 2 ≤ (y : ℝ) := by
      have := (Rat.cast_le (K := ℝ)).mpr b1; push_cast at this; exact this
    have b2' : (y : ℝ) ≤ (rint y : ℝ) + 1 / 2 := by
      have := (Rat.cast_le (K := ℝ)).mpr b2; push_cast at this; exact this
    have l1 : (rint y : ℝ) < ((k + 3 : ℤ) : ℝ) := by push_cast; linarith
    have l2 : ((k : ℤ) : ℝ) < (rint y : ℝ) := by push_cast; linarith
    have l3 : rint y < k + 3 := by exact_mod_cast l1
    have l4 : k < rint y := by exact_mod_cast l2
    have l5 : (rint y : ℝ) ≤ ((k + 2 : ℤ) : ℝ) := by exact_mod_cast (by omega : rint y ≤ k + 2)
    have l6 : ((k + 1 : ℤ) : ℝ) ≤ (rint y : ℝ) := by exact_mod_cast (by omega : k + 1 ≤ rint y)
    push_cast at l5 l6
    rw [abs_le]; constructor <;> linarith
  · have h := cost_same hA hS1 hn (by positivity) (by norm_num) hD (by nlinarith) (fun q hq h => htie ⟨q, hq, h⟩)
    rw [e1, e2] at h
    rw [h]
    exact rint_abs _

/-- C74. `centroid_costs` on triangles (`DelaunayGraph`, `Hop3Graph`) in double precision, for points with whole coordinates up to
`2¹⁵` and a whole scale up to 100 (the default): whenever exact arithmetic has an answer so have doubles; a boundary link costs
nothing, any other link a whole number nearest to `1 + scale / d`, where `d` is the exact distance of the means. Two numbers are
nearest only in a tie, and only there the result can differ from the exact one (`C74_centroid_tie_refuted`). -/
theorem C74_centroid {fl sq : ℚ → ℚ} (hA : DoubleArith fl sq) (points : List (ℤ × ℤ))
    (hb : ∀ p ∈ points, |p.1| ≤ 2 ^ 15 ∧ |p.2| ≤ 2 ^ 15) (cycles : List (List Nat)) (h3 : ∀ c ∈ cycles, c.length = 3)
    (dual : List DualRow) (S : ℕ) (hS : 1 ≤ S) (hS2 : S ≤ 100) (exact : List ℤ)
    (hex : centroidCosts (realPoints points) cycles dual S = .ok exact) :
    ∃ cost, centroidCostsFl fl sq (ratPoints points) cycles dual S = .ok cost ∧ cost.length = dual.length ∧
      ∀ (i : Nat) (r : DualRow), dual[i]? = some r → (r.c1 = 0 → cost.getD i 0 = 0) ∧
        (r.c1 ≠ 0 → ∃ u v, cycles[r.c0 - 1]? = some u ∧ cycles[r.c1 - 1]? = some v ∧
          ∀ g k d, Centroid (realPoints points) u g → Centroid (realPoints points) v k → Distance g k d →
            0 < d ∧ |1 + (S : ℝ) / d - (cost.getD i 0 : ℤ)| ≤ 1 / 2) := by
  obtain ⟨-, hx⟩ := mapM_entries hex
  have hrow : ∀ r ∈ dual, ∃ c, (if r.c1 = 0 then Except.ok 0
      else do
        let p ← pointAtFl (cycles.map (centroidFl fl (ratPoints points))) (r.c0 - 1)
        let q ← pointAtFl (cycles.map (centroidFl fl (ratPoints points))) (r.c1 - 1)
        linkCostFl fl S (planeDistFl fl sq p q) : Except PyErr ℤ) = .ok c ∧ (r.c1 = 0 → c = 0) ∧
        (r.c1 ≠ 0 → ∃ u v, cycles[r.c0 - 1]? = some u ∧ cycles[r.c1 - 1]? = some v ∧
          ∀ g k d, Centroid (realPoints points) u g → Centroid (realPoints points) v k → Distance g k d →
            0 < d ∧ |1 + (S : ℝ) / d - (c : ℤ)| ≤ 1 / 2) := by
    intro r hr
    by_cases h0 : r.c1 = 0
    · exact ⟨0, by rw [if_pos h0], fun _ => rfl, fun h => absurd h0 h⟩
    obtain ⟨i, hi⟩ := List.mem_iff_getElem?.mp hr
    obtain ⟨c, -, hv⟩ := hx i r hi
    rw [if_neg h0] at hv ⊢
    simp only [Bind.bind, Except.bind] at hv ⊢
    rcases centroid_at fl points cycles (r.c0 - 1) with ⟨p1, p2⟩ | ⟨u, hu, pu, p1, p2⟩
    · rw [p2] at hv; simp at hv
    rcases centroid_at fl points cycles (r.c1 - 1) with ⟨q1, q2⟩ | ⟨v, hv', pv, q1, q2⟩
    · rw [p2, q2] at hv; simp at hv
    rw [p1, q1]
    rw [p2, q2] at hv
    simp only at hv ⊢
    obtain ⟨v1, -⟩ := linkCost_value hv
    have hcs : ∀ w ∈ cycles, centroidFl fl (ratPoints points) w =
        (fl (((cycleSum points w).1 : ℚ) / 3), fl (((cycleSum points w).2 : ℚ) / 3)) ∧ centroid (realPoints points) w =
        (((cycleSum points w).1 : ℝ) / 3, ((cycleSum points w).2 : ℝ) / 3) ∧
        |(cycleSum points w).1| ≤ 3 * 2 ^ 15 ∧ |(cycleSum points w).2| ≤ 3 * 2 ^ 15 := by
      intro w hw
      have hs := cycleSum_bound (by norm_num) hb w
      rw [h3 w hw] at hs
      refine ⟨?_, ?_, hs⟩
      · rw [centroidFl_eq hA (by norm_num) hb (by rw [h3 w hw]; norm_num), h3 w hw]; norm_num
      · rw [centroid_real, h3 w hw]; norm_num
    obtain ⟨u1, u2, u3⟩ := hcs u hu
    obtain ⟨w1, w2, w3⟩ := hcs v hv'
    have hne : cycleSum points u ≠ cycleSum points v := by
      intro he
      apply v1
      rw [u2, w2, he]
      unfold planeDist; simp
    obtain ⟨c', hc', hn⟩ := third_cost hA _ _ u3 w3 hne hS hS2
    rw [u1, w1, hc']
    refine ⟨c', rfl, fun h => absurd h h0, fun _ => ⟨u, v, pu, pv, fun g k d hg hk hd => ?_⟩⟩
    have hnn : ∀ w ∈ cycles, w ≠ [] := by
      intro w hw h; have := h3 w hw; rw [h] at this; simp at this
    have eg := centroid_unique (hnn u hu) hg
    have ek := centroid_unique (hnn v hv') hk
    have ed := distance_unique hd
    rw [eg, ek] at ed
    rw [← ed] at v1
    refine ⟨lt_of_le_of_ne hd.1 (Ne.symm v1), ?_⟩
    rw [u2, w2] at ed
    rw [ed]; exact hn
  obtain ⟨l, hl1, hl2, hl3⟩ := mapM_exists _ dual (fun r hr => ⟨_, (hrow r hr).choose_spec.1⟩)
  refine ⟨l, hl1, hl2, fun i r hi => ?_⟩
  obtain ⟨c, hc, hf⟩ := hl3 i r hi
  obtain ⟨c', h1, h2⟩ := hrow r (List.mem_of_getElem? hi)
  rw [h1] at hf
  rw [List.getD_eq_getElem?_getD, hc, ← Except.ok.inj hf]
  exact h2

end Spurt
