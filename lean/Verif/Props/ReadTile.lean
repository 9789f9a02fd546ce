import Verif.Props.SlcStack
import Verif.Props.Tiling

/-!
# Property C36: the columns `read_tile` returns line up with the points of the tile
-/

namespace Spurt

theorem zipIdx_map_range' {α : Type} (f : Nat → α) (a n : Nat) :
    ((List.range' a n).map f).zipIdx = (List.range n).map fun i => (f (a + i), i) := by
  apply List.ext_getElem
  · simp
  · intro i h1 h2
    simp

theorem filterMap_if {α : Type} (P : Nat → Bool) (f : Nat → α) (n : Nat) :
    ((List.range n).filterMap fun j => if P j then some (f j) else none) =
      ((List.range n).filter P).map f := by
  induction List.range n with
  | nil => rfl
  | cons a l ih => by_cases h : P a <;> simp [h, ih]

/-- The true positions of a mask computed over a window. -/
theorem whereTrue_window (P : Nat → Nat → Bool) (r0 nr c0 nc : Nat) :
    whereTrue ((List.range' r0 nr).map fun r => (List.range' c0 nc).map fun c => P r c) =
      (List.range nr).flatMap fun i =>
        ((List.range nc).filter fun j => P (r0 + i) (c0 + j)).map fun j => (i, j) := by
  unfold whereTrue
  rw [zipIdx_map_range', List.flatMap_map]
  congr 1
  funext i
  simp only
  rw [zipIdx_map_range', List.filterMap_map]
  exact filterMap_if (fun j => P (r0 + i) (c0 + j)) (fun j => (i, j)) nc

/-- Selecting a window by a mask over the same window. -/
theorem maskSelect_window {V : Type} (v : Nat → Nat → V) (P : Nat → Nat → Bool)
    (r0 nr c0 nc : Nat) :
    maskSelect ((List.range' r0 nr).map fun r => (List.range' c0 nc).map fun c => v r c)
        ((List.range' r0 nr).map fun r => (List.range' c0 nc).map fun c => P r c) =
      (whereTrue ((List.range' r0 nr).map fun r => (List.range' c0 nc).map fun c => P r c)).map
        fun p => v (r0 + p.1) (c0 + p.2) := by
  rw [whereTrue_window, List.map_flatMap]
  unfold maskSelect
  rw [List.zipWith_map, List.zipWith_self, ← List.flatMap_def,
    List.range'_eq_map_range (s := r0), List.flatMap_map]
  congr 1
  funext i
  rw [List.zip_map', List.filterMap_map, List.range'_eq_map_range (s := c0), List.filterMap_map, List.map_map]
  exact filterMap_if (fun j => P (r0 + i) (c0 + j)) (fun j => v (r0 + i) (c0 + j)) nc

section
variable {K : Type} [LinearOrder K]

theorem window_eq {V : Type} (b : Band V) {t : BBox} (hx0 : 0 ≤ t.xmin) (hx1 : t.xmin ≤ t.xmax)
    (hx2 : t.xmax ≤ b.rows) (hy0 : 0 ≤ t.ymin) (hy1 : t.ymin ≤ t.ymax) (hy2 : t.ymax ≤ b.cols) :
    b.window t = (List.range' t.xmin.toNat (t.xmax.toNat - t.xmin.toNat)).map fun r =>
      (List.range' t.ymin.toNat (t.ymax.toNat - t.ymin.toNat)).map fun c => b.val r c := by
  unfold Band.window
  rw [pySlice_eq hx0 hx1 hx2, pySlice_eq hy0 hy1 hy2]

/-- C36. For every tile inside the rasters, `read_tile` returns the points of the tile's
graph in the same order: rows first, then columns, each pixel whose coherence exceeds the
threshold exactly once; and in the row of a date, the entry of a point is the pixel of that
date's image, or one for the reference date. -/
theorem C36_read_tile {C : Type} (coh : Band (Option K)) (thr : K) (dates : List String)
    (files : String → Option (Band C)) (one : C) (t : BBox)
    (hx0 : 0 ≤ t.xmin) (hx1 : t.xmin ≤ t.xmax) (hx2 : t.xmax ≤ coh.rows)
    (hy0 : 0 ≤ t.ymin) (hy1 : t.ymin ≤ t.ymax) (hy2 : t.ymax ≤ coh.cols)
    (hf : ∀ d b, files d = some b → t.xmax ≤ b.rows ∧ t.ymax ≤ b.cols) :
    (readTile coh thr dates files one t).1 = tilePoints coh thr t ∧
    (tilePoints coh thr t).Pairwise (fun p q => p.1 < q.1 ∨ p.1 = q.1 ∧ p.2 < q.2) ∧
    (∀ i j : Nat, (i, j) ∈ tilePoints coh thr t ↔
      t.xmin + i < t.xmax ∧ t.ymin + j < t.ymax ∧
        ∃ v, coh.val (t.xmin.toNat + i) (t.ymin.toNat + j) = some v ∧ thr < v) ∧
    (readTile coh thr dates files one t).2.length = dates.length ∧
    ∀ (k : Nat) (d : String), dates[k]? = some d → ∃ row,
      (readTile coh thr dates files one t).2[k]? = some row ∧
      row.length = (tilePoints coh thr t).length ∧
      ∀ (n i j : Nat), (tilePoints coh thr t)[n]? = some (i, j) →
        (files d = none → row[n]? = some one) ∧
        ∀ b, files d = some b → row[n]? = some (b.val (t.xmin.toNat + i) (t.ymin.toNat + j)) := by
  have hmsk : ((coh.window t).map fun r => r.map (aboveThreshold thr)) =
      (List.range' t.xmin.toNat (t.xmax.toNat - t.xmin.toNat)).map fun r =>
        (List.range' t.ymin.toNat (t.ymax.toNat - t.ymin.toNat)).map fun c =>
          aboveThreshold thr (coh.val r c) := by
    rw [window_eq coh hx0 hx1 hx2 hy0 hy1 hy2, List.map_map]
    apply List.map_congr_left
    intro r _
    simp [Function.comp_def]
  refine ⟨rfl, ?_, ?_, by simp [readTile], ?_⟩
  · unfold tilePoints
    rw [hmsk, whereTrue_window, List.pairwise_flatMap]
    refine ⟨fun i _ => ?_, ?_⟩
    · rw [List.pairwise_map]
      refine (List.pairwise_lt_range.filter _).imp ?_
      intro a b h
      exact Or.inr ⟨rfl, h⟩
    · refine List.pairwise_lt_range.imp ?_
      intro a b h x hx y hy
      obtain ⟨_, _, rfl⟩ := List.mem_map.mp hx
      obtain ⟨_, _, rfl⟩ := List.mem_map.mp hy
      exact Or.inl h
  · intro i j
    unfold tilePoints
    rw [hmsk, whereTrue_window]
    simp only [List.mem_flatMap, List.mem_range, List.mem_map, List.mem_filter, Prod.mk.injEq]
    have hab : aboveThreshold thr (coh.val (t.xmin.toNat + i) (t.ymin.toNat + j)) = true ↔
        ∃ v, coh.val (t.xmin.toNat + i) (t.ymin.toNat + j) = some v ∧ thr < v := by
      cases coh.val (t.xmin.toNat + i) (t.ymin.toNat + j) <;> simp [aboveThreshold]
    rw [← hab]
    constructor
    · rintro ⟨a, ha, b, ⟨hb, hv⟩, rfl, rfl⟩
      exact ⟨by omega, by omega, hv⟩
    · rintro ⟨ha, hb, hv⟩
      exact ⟨i, by omega, j, ⟨by omega, hv⟩, rfl, rfl⟩
  · intro k d hk
    have hrow : (readTile coh thr dates files one t).2[k]? = some (match files d with
        | none => (tilePoints coh thr t).map fun _ => one
        | some b => (tilePoints coh thr t).map fun p =>
            b.val (t.xmin.toNat + p.1) (t.ymin.toNat + p.2)) := by
      unfold readTile
      simp only [List.getElem?_map, hk, Option.map_some]
      congr 1
      cases hfd : files d with
      | none => rfl
      | some b =>
        obtain ⟨h1, h2⟩ := hf d b hfd
        simp only
        rw [hmsk, window_eq b hx0 hx1 h1 hy0 hy1 h2, maskSelect_window]
        unfold tilePoints
        rw [hmsk]
    refine ⟨_, hrow, ?_, ?_⟩
    · cases files d <;> simp
    · intro n i j hn
      refine ⟨fun h => by simp only [h]; rw [List.getElem?_map, hn]; rfl, fun b h => by simp [h, hn]⟩

/-- C36. `get_valid_count` is the number of pixels above the threshold: the number of points
of the tile that covers the whole image. -/
theorem C36_valid_count (coh : Band (Option K)) (thr : K) :
    validCount coh thr = (tilePoints coh thr ⟨0, 0, coh.rows, coh.cols⟩).length ∧
    validCount coh thr = ((Finset.range coh.rows ×ˢ Finset.range coh.cols).filter fun p =>
      ∃ v, coh.val p.1 p.2 = some v ∧ thr < v).card := by
  have h := C36_read_tile (C := Unit) coh thr [] (fun _ => none) () ⟨0, 0, coh.rows, coh.cols⟩
    le_rfl (by simp) (by simp) le_rfl (by simp) (by simp) (by simp)
  obtain ⟨_, hp, hm, _⟩ := h
  have h1 : validCount coh thr = (tilePoints coh thr ⟨0, 0, coh.rows, coh.cols⟩).length := by
    unfold validCount tilePoints
    rw [window_eq coh (t := ⟨0, 0, coh.rows, coh.cols⟩) le_rfl (by simp) (by simp) le_rfl (by simp) (by simp)]
    rw [List.map_map]
    have : ((fun r : List (Option K) => r.map (aboveThreshold thr)) ∘ fun r =>
        (List.range' (0 : ℤ).toNat ((coh.cols : ℤ).toNat - (0 : ℤ).toNat)).map fun c => coh.val r c) =
        fun r => (List.range' (0 : ℤ).toNat ((coh.cols : ℤ).toNat - (0 : ℤ).toNat)).map fun c =>
          aboveThreshold thr (coh.val r c) := by
      funext r; simp [Function.comp_def]
    rw [this, whereTrue_window, ← List.flatMap_def, List.filter_flatMap, List.length_flatMap,
      List.length_flatMap]
    simp [List.range_eq_range', List.filter_map, Function.comp_def]
  refine ⟨h1, ?_⟩
  rw [h1]
  have hnd : (tilePoints coh thr ⟨0, 0, coh.rows, coh.cols⟩).Nodup := by
    refine hp.imp ?_
    rintro a b (h | h) rfl
    · exact lt_irrefl _ h
    · exact lt_irrefl _ h.2
  rw [← List.toFinset_card_of_nodup hnd]
  congr 1
  ext ⟨i, j⟩
  rw [List.mem_toFinset, hm]
  simp only [Finset.mem_filter, Finset.mem_product, Finset.mem_range]
  constructor
  · rintro ⟨h1, h2, h3⟩
    exact ⟨⟨by simpa using h1, by simpa using h2⟩, by simpa using h3⟩
  · rintro ⟨⟨h1, h2⟩, h3⟩
    exact ⟨by simpa using h1, by simpa using h2, by simpa using h3⟩

end

/-- Non-vacuity: a 2×3 image with a NaN and a low-coherence pixel; tile of the last two
columns. -/
example : readTile (K := ℚ) ⟨2, 3, fun r c => if r = 1 ∧ c = 1 then none else if c = 0 then some 0
      else some 1⟩ (1 / 2) ["20200101", "20200113"]
      (fun d => if d = "20200101" then none else some ⟨2, 3, fun r c => 10 * r + c⟩) 1 ⟨0, 1, 2, 3⟩ =
    ([(0, 0), (0, 1), (1, 1)], [[1, 1, 1], [1, 2, 12]]) := by decide +kernel

end Spurt
