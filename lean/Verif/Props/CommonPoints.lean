import Verif.Model.Overlap
import Mathlib.Tactic.LinearCombination
import Mathlib.Tactic.NormNum

/-!
# Properties C37 and C54: points common to two tiles
-/

namespace Spurt

/-- Row-major order of pixels. -/
def Spec.RowMajorLt (p q : ℤ × ℤ) : Prop := p.1 < q.1 ∨ p.1 = q.1 ∧ p.2 < q.2

open Spec

theorem flat_lt_iff {m : ℤ} {p q : ℤ × ℤ} (hp : 0 ≤ p.2 ∧ p.2 < m) (hq : 0 ≤ q.2 ∧ q.2 < m) :
    p.1 * m + p.2 < q.1 * m + q.2 ↔ RowMajorLt p q := by
  unfold RowMajorLt
  constructor
  · intro h
    by_contra hc
    push Not at hc
    rcases lt_or_eq_of_le hc.1 with h1 | h1
    · have : (q.1 + 1) * m ≤ p.1 * m := by
        apply mul_le_mul_of_nonneg_right _ (by omega); omega
      nlinarith
    · have := hc.2 h1.symm
      rw [h1] at h
      omega
  · rintro (h | ⟨h1, h2⟩)
    · have : (p.1 + 1) * m ≤ q.1 * m := by
        apply mul_le_mul_of_nonneg_right _ (by omega); omega
      nlinarith
    · rw [h1]; omega

theorem flat_inj {m : ℤ} {p q : ℤ × ℤ} (hp : 0 ≤ p.2 ∧ p.2 < m) (hq : 0 ≤ q.2 ∧ q.2 < m)
    (h : p.1 * m + p.2 = q.1 * m + q.2) : p = q := by
  have h1 := (flat_lt_iff hp hq).not.mp (by omega)
  have h2 := (flat_lt_iff hq hp).not.mp (by omega)
  unfold RowMajorLt at h1 h2
  push Not at h1 h2
  have : p.1 = q.1 := by omega
  have := h1.2 this
  have := h2.2 (by omega)
  ext <;> omega

/-- Intersecting two flattened point lists with an injective flattening. -/
theorem intersect1d_map (f : ℤ × ℤ → ℤ) (c1 c2 : List (ℤ × ℤ))
    (hinj : ∀ p ∈ c1, ∀ q ∈ c2, f p = f q → p = q) :
    ∃ ps : List (ℤ × ℤ), ps.Pairwise (fun p q => f p < f q) ∧
      (∀ p, p ∈ ps ↔ p ∈ c1 ∧ p ∈ c2) ∧
      (intersect1d (c1.map f) (c2.map f)).1.map (c1[·]?) = ps.map some ∧
      (intersect1d (c1.map f) (c2.map f)).2.map (c2[·]?) = ps.map some := by
  set common := ((c1.map f).dedup.filter fun v => decide (v ∈ c2.map f)).mergeSort (· ≤ ·) with hcommon
  have hperm : common.Perm ((c1.map f).dedup.filter fun v => decide (v ∈ c2.map f)) :=
    List.mergeSort_perm _ _
  have hmem : ∀ v, v ∈ common ↔ v ∈ c1.map f ∧ v ∈ c2.map f := by
    intro v
    rw [hperm.mem_iff, List.mem_filter, List.mem_dedup, decide_eq_true_eq]
  have hsort : common.Pairwise (· < ·) := by
    have h1 : common.Pairwise (· ≤ ·) := by
      have := List.pairwise_mergeSort (le := fun a b : ℤ => decide (a ≤ b))
        (by intro a b c h1 h2; simp only [decide_eq_true_eq] at *; exact le_trans h1 h2)
        (by intro a b; simp only [Bool.or_eq_true, decide_eq_true_eq]; exact le_total a b)
        ((c1.map f).dedup.filter fun v => decide (v ∈ c2.map f))
      exact this.imp (by intro a b h; simpa using h)
    have h2 : common.Nodup := hperm.nodup_iff.mpr ((List.nodup_dedup _).filter _)
    exact (List.pairwise_and_iff.mpr ⟨h1, h2⟩).imp fun h => lt_of_le_of_ne h.1 h.2
  have hget : ∀ (c : List (ℤ × ℤ)) (v : ℤ), v ∈ c.map f →
      ∃ p, c[(c.map f).idxOf v]? = some p ∧ f p = v ∧ p ∈ c := by
    intro c v hv
    have hlt : (c.map f).idxOf v < c.length := by
      simpa using List.idxOf_lt_length_iff.mpr hv
    refine ⟨c[(c.map f).idxOf v], List.getElem?_eq_getElem hlt, ?_, List.getElem_mem hlt⟩
    have : (c.map f)[(c.map f).idxOf v]'(by simpa using hlt) = v :=
      List.getElem_idxOf (by simpa using hlt)
    rw [List.getElem_map] at this
    exact this
  let g : ℤ → ℤ × ℤ := fun v => (c1[(c1.map f).idxOf v]?).getD (0, 0)
  have hg : ∀ v ∈ common, f (g v) = v ∧ g v ∈ c1 ∧ g v ∈ c2 ∧
      c1[(c1.map f).idxOf v]? = some (g v) ∧ c2[(c2.map f).idxOf v]? = some (g v) := by
    intro v hv
    obtain ⟨h1, h2⟩ := (hmem v).mp hv
    obtain ⟨p, hp, hfp, hpm⟩ := hget c1 v h1
    obtain ⟨q, hq, hfq, hqm⟩ := hget c2 v h2
    have hgv : g v = p := by simp [g, hp]
    have hpq : p = q := hinj p hpm q hqm (by rw [hfp, hfq])
    rw [hgv]
    exact ⟨hfp, hpm, hpq ▸ hqm, hp, hpq ▸ hq⟩
  refine ⟨common.map g, ?_, ?_, ?_, ?_⟩
  · rw [List.pairwise_map]
    refine hsort.imp_of_mem ?_
    intro a b ha hb hab
    rw [(hg a ha).1, (hg b hb).1]; exact hab
  · intro p
    constructor
    · intro hp
      obtain ⟨v, hv, rfl⟩ := List.mem_map.mp hp
      exact ⟨(hg v hv).2.1, (hg v hv).2.2.1⟩
    · rintro ⟨h1, h2⟩
      have hv : f p ∈ common := (hmem _).mpr ⟨List.mem_map_of_mem h1, List.mem_map_of_mem h2⟩
      refine List.mem_map.mpr ⟨f p, hv, ?_⟩
      exact (hinj p h1 (g (f p)) (hg _ hv).2.2.1 (hg _ hv).1.symm).symm
  · unfold intersect1d
    simp only
    rw [← hcommon, List.map_map, List.map_map]
    exact List.map_congr_left fun v hv => (hg v hv).2.2.2.1
  · unfold intersect1d
    simp only
    rw [← hcommon, List.map_map, List.map_map]
    exact List.map_congr_left fun v hv => (hg v hv).2.2.2.2

theorem foldl_max_le (l : List ℤ) (a b : ℤ) (ha : a ≤ b) (h : ∀ x ∈ l, x ≤ b) : l.foldl max a ≤ b := by
  induction l generalizing a with
  | nil => exact ha
  | cons x l ih =>
    exact ih _ (max_le ha (h x (by simp))) fun y hy => h y (by simp [hy])

theorem le_foldl_max (l : List ℤ) (a : ℤ) : a ≤ l.foldl max a ∧ ∀ x ∈ l, x ≤ l.foldl max a := by
  induction l generalizing a with
  | nil => simp
  | cons x l ih =>
    obtain ⟨h1, h2⟩ := ih (max a x)
    refine ⟨le_trans (le_max_left _ _) h1, ?_⟩
    intro y hy
    rcases List.mem_cons.mp hy with rfl | hy
    · exact le_trans (le_max_right _ _) h1
    · exact h2 y hy

theorem any_neg_iff (c : List (ℤ × ℤ)) :
    (c = [] ∨ c.any (fun p => decide (p.1 < 0 ∨ p.2 < 0)) = true) ↔
      ¬ (c ≠ [] ∧ ∀ p ∈ c, 0 ≤ p.1 ∧ 0 ≤ p.2) := by
  rw [List.any_eq_true]
  constructor
  · rintro (rfl | ⟨p, hp, h⟩) ⟨h1, h2⟩
    · exact h1 rfl
    · have := h2 p hp
      simp only [decide_eq_true_eq] at h
      omega
  · intro h
    by_cases hc : c = []
    · exact Or.inl hc
    · right
      by_contra hn
      apply h
      refine ⟨hc, fun p hp => ?_⟩
      by_contra hh
      apply hn
      refine ⟨p, hp, ?_⟩
      simp only [decide_eq_true_eq]
      omega

/-- C37. For integer point sets, `find_common_points` raises exactly when a set is empty or has
a negative coordinate; otherwise its two index arrays pick, from the first and from the second
set, the same list of points: every common point exactly once, in row-major order. -/
theorem C37_common_points (c1 c2 : List (ℤ × ℤ)) :
    (¬ (c1 ≠ [] ∧ c2 ≠ [] ∧ ∀ p ∈ c1 ++ c2, 0 ≤ p.1 ∧ 0 ≤ p.2) →
      findCommonPoints id c1 c2 = .error .valueError) ∧
    ((c1 ≠ [] ∧ c2 ≠ [] ∧ ∀ p ∈ c1 ++ c2, 0 ≤ p.1 ∧ 0 ≤ p.2) →
      ∃ ii jj, findCommonPoints id c1 c2 = .ok (ii, jj) ∧ ∃ ps : List (ℤ × ℤ),
        ps.Pairwise RowMajorLt ∧ (∀ p, p ∈ ps ↔ p ∈ c1 ∧ p ∈ c2) ∧
        ii.map (c1[·]?) = ps.map some ∧ jj.map (c2[·]?) = ps.map some) := by
  constructor
  · intro h
    unfold findCommonPoints
    split
    · rfl
    · rename_i h1
      rw [if_pos]
      rw [any_neg_iff, not_not] at h1
      rw [any_neg_iff]
      rintro ⟨h2, h3⟩
      apply h
      refine ⟨h1.1, h2, fun p hp => ?_⟩
      rcases List.mem_append.mp hp with hp | hp
      · exact h1.2 p hp
      · exact h3 p hp
  · rintro ⟨h1, h2, h3⟩
    set m : ℤ := 1 + max ((c1.map Prod.snd).foldl max 0) ((c2.map Prod.snd).foldl max 0) with hm
    have hb : ∀ p ∈ c1 ++ c2, 0 ≤ p.2 ∧ p.2 < m := by
      intro p hp
      refine ⟨(h3 p hp).2, ?_⟩
      have h4 := (le_foldl_max (c1.map Prod.snd) 0).2
      have h5 := (le_foldl_max (c2.map Prod.snd) 0).2
      rcases List.mem_append.mp hp with hp | hp
      · have := h4 p.2 (List.mem_map_of_mem hp); omega
      · have := h5 p.2 (List.mem_map_of_mem hp); omega
    obtain ⟨ps, a1, a2, a3, a4⟩ := intersect1d_map (fun p => p.1 * m + p.2) c1 c2 (by
      intro p hp q hq h
      exact flat_inj (hb p (by simp [hp])) (hb q (by simp [hq])) h)
    refine ⟨_, _, ?_, ps, ?_, a2, a3, a4⟩
    · unfold findCommonPoints
      rw [if_neg, if_neg]
      · simp only [id]
        rw [← hm]
      · rw [any_neg_iff, not_not]
        exact ⟨h2, fun p hp => h3 p (by simp [hp])⟩
      · rw [any_neg_iff, not_not]
        exact ⟨h1, fun p hp => h3 p (by simp [hp])⟩
    · refine a1.imp_of_mem ?_
      intro p q hp hq h
      exact (flat_lt_iff (hb p (by simp [((a2 p).mp hp).1])) (hb q (by simp [((a2 q).mp hq).1]))).mp h

/-- Non-vacuity: two overlapping sets, the second out of order. -/
example : (([(0, 1), (2, 0), (2, 3)] : List (ℤ × ℤ)) ≠ [] ∧ ([(2, 3), (1, 1), (0, 1)] : List (ℤ × ℤ)) ≠ [] ∧
    ∀ p ∈ ([(0, 1), (2, 0), (2, 3)] : List (ℤ × ℤ)) ++ [(2, 3), (1, 1), (0, 1)], 0 ≤ p.1 ∧ 0 ≤ p.2) := by
  decide

theorem wrap32_id {x : ℤ} (h1 : -2147483648 ≤ x) (h2 : x < 2147483648) : wrap32 x = x := by
  unfold wrap32; omega

theorem intersect1d_singletons : intersect1d [0] [0, 65535] = ([0], [0]) := by
  unfold intersect1d
  have : ([0] : List ℤ).dedup.filter (fun v => decide (v ∈ ([0, 65535] : List ℤ))) = [0] := by decide
  rw [this]
  simp [List.mergeSort]

/-- C54 is false: with 32-bit coordinates, as stored in the tile files, points of an image with
65537 rows and 65536 columns that are different are reported as common. -/
theorem C54_int32_refuted :
    (∀ p ∈ ([(0, 0)] : List (ℤ × ℤ)) ++ [(65536, 0), (0, 65535)],
      0 ≤ p.1 ∧ p.1 < 65537 ∧ 0 ≤ p.2 ∧ p.2 < 65536) ∧
    findCommonPoints wrap32 [(0, 0)] [(65536, 0), (0, 65535)] = .ok ([0], [0]) ∧
    ¬ ∃ p, p ∈ ([(0, 0)] : List (ℤ × ℤ)) ∧ p ∈ ([(65536, 0), (0, 65535)] : List (ℤ × ℤ)) := by
  refine ⟨by decide, ?_, by decide⟩
  unfold findCommonPoints
  rw [if_neg (by decide), if_neg (by decide)]
  have h : (1 + max ((([(0, 0)] : List (ℤ × ℤ)).map Prod.snd).foldl max 0)
      ((([(65536, 0), (0, 65535)] : List (ℤ × ℤ)).map Prod.snd).foldl max 0) : ℤ) = 65536 := by decide
  simp only [h]
  rw [← intersect1d_singletons]
  have e1 : wrap32 65536 = 65536 := by decide
  have e2 : wrap32 (wrap32 (0 * 65536) + 0) = 0 := by decide
  have e3 : wrap32 (wrap32 (65536 * 65536) + 0) = 0 := by decide
  have e4 : wrap32 (wrap32 (0 * 65536) + 65535) = 65535 := by decide
  simp only [List.map_cons, List.map_nil, e1, e2, e3, e4]

/-- C54, the part that holds: 32-bit arithmetic gives the exact answer (hence C37) whenever
the image has fewer than 2^31 pixels. Missing: larger images, for which it can fail. -/
theorem C54_int32_partial (rows cols : ℤ) (c1 c2 : List (ℤ × ℤ)) (hsize : rows * cols < 2147483648)
    (hin : ∀ p ∈ c1 ++ c2, 0 ≤ p.1 ∧ p.1 < rows ∧ 0 ≤ p.2 ∧ p.2 < cols) :
    findCommonPoints wrap32 c1 c2 = findCommonPoints id c1 c2 := by
  unfold findCommonPoints
  split
  · rfl
  · rename_i h1
    split
    · rfl
    · set m : ℤ := 1 + max ((c1.map Prod.snd).foldl max 0) ((c2.map Prod.snd).foldl max 0) with hm
      rw [any_neg_iff, not_not] at h1
      obtain ⟨p0, hp0⟩ := List.exists_mem_of_ne_nil c1 h1.1
      have hp0' := hin p0 (by simp [hp0])
      have hmc : m ≤ cols := by
        have e1 := foldl_max_le (c1.map Prod.snd) 0 (cols - 1) (by omega) (by
          intro x hx
          obtain ⟨p, hp, rfl⟩ := List.mem_map.mp hx
          have := hin p (by simp [hp]); omega)
        have e2 := foldl_max_le (c2.map Prod.snd) 0 (cols - 1) (by omega) (by
          intro x hx
          obtain ⟨p, hp, rfl⟩ := List.mem_map.mp hx
          have := hin p (by simp [hp]); omega)
        omega
      have hm0 : 1 ≤ m := by
        have := (le_foldl_max (c1.map Prod.snd) 0).1
        omega
      have hcols : cols < 2147483648 := by nlinarith
      have hwm : wrap32 m = m := wrap32_id (by omega) (by omega)
      have hflat : ∀ p ∈ c1 ++ c2, wrap32 (wrap32 (p.1 * m) + p.2) = p.1 * m + p.2 := by
        intro p hp
        obtain ⟨a1, a2, a3, a4⟩ := hin p hp
        have b0 : 0 ≤ p.1 * m := by positivity
        have b1 : p.1 * m ≤ p.1 * cols := by nlinarith
        have b2 : p.1 * cols ≤ (rows - 1) * cols := by nlinarith
        rw [wrap32_id (x := p.1 * m) (by linarith) (by nlinarith),
          wrap32_id (by linarith) (by nlinarith)]
      simp only [hwm, id]
      rw [List.map_congr_left fun p hp => hflat p (by simp [hp]),
        List.map_congr_left fun p hp => hflat p (by simp [hp])]

/-- Non-vacuity: tiles in the far corner of a 40000×40000 image. -/
example : (40000 : ℤ) * 40000 < 2147483648 ∧ ∀ p ∈ ([(39999, 39998)] : List (ℤ × ℤ)) ++ [(39999, 39998), (39998, 39999)],
    0 ≤ p.1 ∧ p.1 < 40000 ∧ 0 ≤ p.2 ∧ p.2 < 40000 := by decide

end Spurt
