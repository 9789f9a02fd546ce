import Verif.Lemmas.Tiling
import Verif.Lemmas.Double
import Mathlib.Tactic.IntervalCases

/-!
# Properties C24–C30: tiles
-/

namespace Spurt
open Spec

/-! ### C24 -/

/-- C24. `intersects` is symmetric, and for boxes with `min ≤ max` it is the test whether the
closed rectangles have a common point (an integer one, equivalently a real one). -/
theorem C24_intersects (a b : BBox) :
    a.intersects b = b.intersects a ∧
    (a.xmin ≤ a.xmax → a.ymin ≤ a.ymax → b.xmin ≤ b.xmax → b.ymin ≤ b.ymax →
      (a.intersects b = true ↔ ∃ x y : ℤ,
        a.xmin ≤ x ∧ x ≤ a.xmax ∧ a.ymin ≤ y ∧ y ≤ a.ymax ∧
        b.xmin ≤ x ∧ x ≤ b.xmax ∧ b.ymin ≤ y ∧ y ≤ b.ymax) ∧
      (a.intersects b = true ↔ ∃ x y : ℝ,
        (a.xmin : ℝ) ≤ x ∧ x ≤ a.xmax ∧ (a.ymin : ℝ) ≤ y ∧ y ≤ a.ymax ∧
        (b.xmin : ℝ) ≤ x ∧ x ≤ b.xmax ∧ (b.ymin : ℝ) ≤ y ∧ y ≤ b.ymax)) := by
  have hiff : ∀ a b : BBox, a.intersects b = true ↔
      b.xmin ≤ a.xmax ∧ a.xmin ≤ b.xmax ∧ a.ymin ≤ b.ymax ∧ b.ymin ≤ a.ymax := by
    intro a b
    unfold BBox.intersects
    simp only [Bool.not_eq_true', Bool.or_eq_false_iff, decide_eq_false_iff_not, not_lt, gt_iff_lt]
    tauto
  refine ⟨?_, ?_⟩
  · rw [Bool.eq_iff_iff, hiff, hiff]; tauto
  · intro h1 h2 h3 h4
    rw [hiff]
    have hint : (b.xmin ≤ a.xmax ∧ a.xmin ≤ b.xmax ∧ a.ymin ≤ b.ymax ∧ b.ymin ≤ a.ymax) →
        ∃ x y : ℤ, a.xmin ≤ x ∧ x ≤ a.xmax ∧ a.ymin ≤ y ∧ y ≤ a.ymax ∧
        b.xmin ≤ x ∧ x ≤ b.xmax ∧ b.ymin ≤ y ∧ y ≤ b.ymax := by
      intro h
      exact ⟨max a.xmin b.xmin, max a.ymin b.ymin, by omega⟩
    refine ⟨⟨hint, ?_⟩, ⟨?_, ?_⟩⟩
    · rintro ⟨x, y, h⟩; omega
    · intro h
      obtain ⟨x, y, h⟩ := hint h
      refine ⟨x, y, ?_⟩
      exact_mod_cast h
    · rintro ⟨x, y, a1, a2, a3, a4, a5, a6, a7, a8⟩
      exact ⟨by exact_mod_cast a5.trans a2, by exact_mod_cast a1.trans a6,
        by exact_mod_cast a3.trans a8, by exact_mod_cast a7.trans a4⟩

/-- C24. Two tiles that share a pixel intersect. -/
theorem C24_shared_pixel (a b : BBox) (r c : ℤ) (ha : InTile a r c) (hb : InTile b r c) :
    a.intersects b = true := by
  unfold InTile at ha hb
  unfold BBox.intersects
  simp only [Bool.not_eq_true', Bool.or_eq_false_iff, decide_eq_false_iff_not, not_lt, gt_iff_lt]
  omega

/-- The other direction fails: tiles that only touch also count as intersecting. -/
theorem C24_touching : ∃ a b : BBox, a.intersects b = true ∧
    ∀ r c, ¬ (InTile a r c ∧ InTile b r c) :=
  ⟨⟨0, 0, 5, 5⟩, ⟨5, 0, 9, 5⟩, by decide, by intro r c; unfold InTile; simp only; omega⟩

theorem pySlice_eq {n : Nat} {a b : ℤ} (h0 : 0 ≤ a) (h1 : a ≤ b) (h2 : b ≤ n) :
    pySlice n a b = List.range' a.toNat (b.toNat - a.toNat) := by
  unfold pySlice
  simp only [if_neg (show ¬ a < 0 by omega), if_neg (show ¬ b < 0 by omega)]
  rw [show min (max a 0) (n : ℤ) = a by omega, show min (max b 0) (n : ℤ) = b by omega]

/-- C24. For a tile inside the image `space` selects exactly the pixels of the tile, each
once, and `count` is their number. -/
theorem C24_count (b : BBox) (R C : Nat) (h : TileInImage (R, C) b) :
    ((b.pixels (R, C)).length : ℤ) = b.count ∧ (b.pixels (R, C)).Nodup ∧
    ∀ r c : Nat, (r, c) ∈ b.pixels (R, C) ↔ InTile b r c := by
  obtain ⟨h1, h2, h3, h4, h5, h6⟩ := h
  simp only at h3 h6
  unfold BBox.pixels
  simp only
  rw [pySlice_eq h1 h2 h3, pySlice_eq h4 h5 h6]
  refine ⟨?_, ?_, ?_⟩
  · simp only [List.length_flatMap, List.length_map, List.length_range', List.map_const', List.sum_replicate]
    unfold BBox.count
    simp only [smul_eq_mul]
    push_cast
    rw [Int.natCast_sub (by omega), Int.natCast_sub (by omega), Int.toNat_of_nonneg h1,
      Int.toNat_of_nonneg (by omega), Int.toNat_of_nonneg h4, Int.toNat_of_nonneg (by omega)]
  · rw [List.nodup_flatMap]
    refine ⟨fun r _ => (List.nodup_range' (step := 1)).map fun x y hxy => by simpa using hxy, ?_⟩
    refine (List.nodup_range' (step := 1)).imp ?_
    intro r r' hne x hx hx'
    obtain ⟨c, _, rfl⟩ := List.mem_map.mp hx
    obtain ⟨c', _, he⟩ := List.mem_map.mp hx'
    simp only [Prod.mk.injEq] at he
    exact hne he.1.symm
  · intro r c
    simp only [List.mem_flatMap, List.mem_map, List.mem_range'_1, Prod.mk.injEq]
    unfold InTile
    constructor
    · rintro ⟨r', hr, c', hc, rfl, rfl⟩; omega
    · intro h; exact ⟨r, by omega, c, by omega, rfl, rfl⟩

/-- C24. `tolist` and `from_shapely_bounds` are inverse; bounds of another length raise. -/
theorem C24_bounds (b : BBox) (l : List ℤ) :
    BBox.fromBounds b.tolist = .ok b ∧ (BBox.fromBounds l = .ok b ↔ l = b.tolist) ∧
    (l.length ≠ 4 → BBox.fromBounds l = .error .valueError) := by
  refine ⟨rfl, ?_, ?_⟩
  · constructor
    · intro h
      unfold BBox.fromBounds at h
      split at h
      · simp only [Except.ok.injEq] at h; rw [← h]; rfl
      · simp at h
    · rintro rfl; rfl
  · intro h
    unfold BBox.fromBounds
    split
    · simp at h
    · rfl

example : (⟨0, 0, 5, 5⟩ : BBox).intersects ⟨4, 3, 9, 9⟩ = true ∧
    TileInImage (10, 12) ⟨4, 3, 9, 9⟩ ∧ InTile ⟨0, 0, 5, 5⟩ 4 3 ∧ InTile ⟨4, 3, 9, 9⟩ 4 3 := by
  unfold TileInImage InTile; decide

/-! ### C25 -/

/-- C25. `get_overlaps` lists exactly the pairs `i < j` of tiles whose boxes intersect, in
lexicographic order, without repetition. -/
theorem C25_overlaps (t : TileSet) :
    (∀ i j : Nat, (i, j) ∈ t.getOverlaps ↔ i < j ∧ ∃ a b, t.tiles[i]? = some a ∧
      t.tiles[j]? = some b ∧ a.intersects b = true) ∧
    t.getOverlaps.Pairwise (fun p q => p.1 < q.1 ∨ (p.1 = q.1 ∧ p.2 < q.2)) ∧
    t.getOverlaps.Nodup := by
  have hsorted : t.getOverlaps.Pairwise (fun p q => p.1 < q.1 ∨ (p.1 = q.1 ∧ p.2 < q.2)) := by
    unfold TileSet.getOverlaps
    rw [List.pairwise_flatMap]
    constructor
    · intro i _
      rw [List.pairwise_map]
      refine List.Pairwise.filter _ ?_
      exact (List.pairwise_lt_range' (step := 1)).imp fun h => .inr ⟨rfl, h⟩
    · refine List.pairwise_lt_range.imp ?_
      intro i i' hlt p hp q hq
      obtain ⟨j, _, rfl⟩ := List.mem_map.mp hp
      obtain ⟨j', _, rfl⟩ := List.mem_map.mp hq
      exact .inl hlt
  refine ⟨?_, hsorted, hsorted.imp ?_⟩
  · intro i j
    unfold TileSet.getOverlaps
    simp only [List.mem_flatMap, List.mem_range, List.mem_map, List.mem_filter, List.mem_range'_1,
      Prod.mk.injEq]
    constructor
    · rintro ⟨i', hi, j', ⟨hj, hint⟩, rfl, rfl⟩
      have h1 : i' < t.tiles.length := by omega
      have h2 : j' < t.tiles.length := by omega
      refine ⟨by omega, t.tiles[i'], t.tiles[j'], by simp [h1], by simp [h2], ?_⟩
      simpa [List.getD_eq_getElem?_getD, h1, h2] using hint
    · rintro ⟨hij, a, b, ha, hb, hint⟩
      have h2 := (List.getElem?_eq_some_iff.mp hb).1
      refine ⟨i, by omega, j, ⟨by omega, ?_⟩, rfl, rfl⟩
      simpa [List.getD_eq_getElem?_getD, ha, hb] using hint
  · intro p q h he
    rw [he] at h; omega

/-- C25. A pixel covered by two tiles makes them a listed pair. -/
theorem C25_shared_pixel (t : TileSet) (i j : Nat) (a b : BBox) (r c : ℤ) (hij : i < j)
    (ha : t.tiles[i]? = some a) (hb : t.tiles[j]? = some b) (h1 : InTile a r c) (h2 : InTile b r c) :
    (i, j) ∈ t.getOverlaps :=
  ((C25_overlaps t).1 i j).mpr ⟨hij, a, b, ha, hb, C24_shared_pixel a b r c h1 h2⟩

example : (⟨(10, 10), [⟨0, 0, 5, 5⟩, ⟨6, 0, 10, 5⟩, ⟨4, 4, 10, 10⟩]⟩ : TileSet).getOverlaps =
    [(0, 2), (1, 2)] := by decide

section
variable {K : Type} [Field K] [LinearOrder K] [IsStrictOrderedRing K] [FloorRing K]

/-! ### C26 -/

theorem regular_edges {fl : K → K} {B : ℤ} (hfl : Rounding fl B) (hB : 0 ≤ B) {s : ℤ} (hs : 0 ≤ s)
    (k : Nat) : (∀ i < k, pyInt (ogridAt fl s k i) ≤ pyInt (ogridAt fl s k (i + 1))) ∧
      pyInt (ogridAt fl s k 0) = 0 := by
  have h0 : fl 0 = 0 := by simpa using hfl.int 0 (by simpa using hB)
  constructor
  · intro i _
    apply pyInt_mono
    apply hfl.mono
    apply mul_le_mul_of_nonneg_right
    · push_cast; linarith
    · rw [← h0]
      apply hfl.mono
      have : (0 : K) ≤ (s : K) := by exact_mod_cast hs
      positivity
  · unfold ogridAt
    simp [h0, pyInt]

theorem regular_returns (fl : K → K) {shape : ℤ × ℤ} {maxTiles : ℤ} (hs1 : 0 < shape.1)
    (hm : 1 ≤ maxTiles) :
    createTilesRegular fl shape maxTiles = .ok ⟨shape, if Nat.sqrt maxTiles.toNat = 1 then
      [⟨0, 0, shape.1, shape.2⟩] else
      gridTiles (fun i => pyInt (ogridAt fl shape.1 (Nat.sqrt maxTiles.toNat) i))
        (fun i => pyInt (ogridAt fl shape.2 (Nat.sqrt maxTiles.toNat) i)) (Nat.sqrt maxTiles.toNat)⟩ := by
  unfold createTilesRegular
  rw [if_neg (by omega), if_neg (by omega)]
  simp only
  split
  · rfl
  · rfl

theorem single_partitions {shape : ℤ × ℤ} (h1 : 0 ≤ shape.1) (h2 : 0 ≤ shape.2) :
    PartitionsImage shape [⟨0, 0, shape.1, shape.2⟩] := by
  constructor
  · intro b hb
    rw [List.mem_singleton] at hb
    subst hb
    exact ⟨le_rfl, h1, le_rfl, le_rfl, h2, le_rfl⟩
  · intro r c h
    apply exactlyOne_of_count
    unfold PixelOf at h
    rw [coverCount, List.countP_singleton, if_pos]
    exact decide_eq_true h

theorem sqrt_pos {n : ℤ} (h : 1 ≤ n) : 1 ≤ Nat.sqrt n.toNat :=
  Nat.sqrt_pos.mpr (by omega)

/-- C26 in exact arithmetic. `create_tiles_regular` partitions the image. -/
theorem C26_regular_partition (shape : ℤ × ℤ) (maxTiles : ℤ) (hs1 : 0 < shape.1) (hs2 : 0 < shape.2)
    (hm : 1 ≤ maxTiles) :
    ∃ t, createTilesRegular (id : K → K) shape maxTiles = .ok t ∧ t.shape = shape ∧
      PartitionsImage shape t.tiles := by
  refine ⟨_, regular_returns id hs1 hm, rfl, ?_⟩
  simp only
  split
  · exact single_partitions hs1.le hs2.le
  · have hk := sqrt_pos hm
    set k := Nat.sqrt maxTiles.toNat
    have last : ∀ s : ℤ, pyInt (ogridAt (id : K → K) s k k) = s := by
      intro s
      unfold ogridAt
      simp only [id]
      have : (k : K) ≠ 0 := by positivity
      rw [mul_div_cancel₀ _ this, pyInt_intCast]
    obtain ⟨e1, e2⟩ := regular_edges (rounding_id (K := K) 0) le_rfl hs1.le k
    obtain ⟨f1, f2⟩ := regular_edges (rounding_id (K := K) 0) le_rfl hs2.le k
    constructor
    · exact grid_inImage (e := fun i => pyInt (ogridAt (id : K → K) shape.1 k i))
        (f := fun i => pyInt (ogridAt (id : K → K) shape.2 k i)) e1 f1 e2.ge (last _).le f2.ge (last _).le
    · intro r c h
      apply exactlyOne_of_count
      rw [coverCount_grid e1 f1]
      simp only [e2, f2, last]
      exact if_pos h

/-- C26. Which arguments raise: a non-positive tile number, or a shape with both sides
non-positive (a shape with only one non-positive side is accepted). -/
theorem C26_regular_raises (fl : K → K) (shape : ℤ × ℤ) (maxTiles : ℤ) :
    createTilesRegular fl shape maxTiles = .error .valueError ↔
      (shape.1 ≤ 0 ∧ shape.2 ≤ 0) ∨ maxTiles ≤ 0 := by
  unfold createTilesRegular
  constructor
  · intro h
    split at h
    · left; assumption
    · split at h
      · right; assumption
      · simp only at h; split at h <;> simp at h
  · rintro (h | h)
    · rw [if_pos h]
    · rw [if_pos h]; split <;> rfl

end

theorem double_last {s : ℤ} (hs : 0 < s) (hs2 : s ≤ 2 ^ 51) {k : Nat} (hk : 1 ≤ k) :
    s - 1 ≤ pyInt (ogridAt flDouble s k k) ∧ pyInt (ogridAt flDouble s k k) ≤ s := by
  have hk' : (0 : ℚ) < k := by exact_mod_cast hk
  have hs' : (0 : ℚ) < s := by exact_mod_cast hs
  have hs2' : (s : ℚ) ≤ 2 ^ 51 := by exact_mod_cast hs2
  have hq : (0 : ℚ) ≤ (s : ℚ) / k := by positivity
  obtain ⟨a1, a2⟩ := flDouble_rel hq
  have hy0 : (0 : ℚ) ≤ k * flDouble ((s : ℚ) / k) := mul_nonneg hk'.le (flDouble_nonneg hq)
  obtain ⟨b1, b2⟩ := flDouble_rel hy0
  have hks : (k : ℚ) * ((s : ℚ) / k) = s := mul_div_cancel₀ _ hk'.ne'
  have c1 : (s : ℚ) * (1 - 1 / 2 ^ 53) ≤ k * flDouble ((s : ℚ) / k) := by
    have := mul_le_mul_of_nonneg_left a1 hk'.le
    rw [← mul_assoc, hks] at this; exact this
  have c2 : (k : ℚ) * flDouble ((s : ℚ) / k) ≤ (s : ℚ) * (1 + 1 / 2 ^ 53) := by
    have := mul_le_mul_of_nonneg_left a2 hk'.le
    rw [← mul_assoc, hks] at this; exact this
  have d1 : (s : ℚ) - 1 ≤ flDouble (k * flDouble ((s : ℚ) / k)) := by
    refine le_trans ?_ b1
    have h2 : (s : ℚ) * (1 - 1 / 2 ^ 53) * (1 - 1 / 2 ^ 53) ≤
        k * flDouble ((s : ℚ) / k) * (1 - 1 / 2 ^ 53) :=
      mul_le_mul_of_nonneg_right c1 (by norm_num)
    refine le_trans ?_ h2
    nlinarith
  have d2 : flDouble (k * flDouble ((s : ℚ) / k)) < (s : ℚ) + 1 := by
    refine lt_of_le_of_lt b2 ?_
    have h2 : (k : ℚ) * flDouble ((s : ℚ) / k) * (1 + 1 / 2 ^ 53) ≤
        (s : ℚ) * (1 + 1 / 2 ^ 53) * (1 + 1 / 2 ^ 53) :=
      mul_le_mul_of_nonneg_right c2 (by norm_num)
    refine lt_of_le_of_lt h2 ?_
    nlinarith
  unfold ogridAt
  rw [pyInt_of_nonneg (flDouble_nonneg hy0)]
  constructor
  · rw [Int.le_floor]; push_cast; exact d1
  · have : ⌊flDouble (k * flDouble ((s : ℚ) / k))⌋ < s + 1 := by
      rw [Int.floor_lt]; push_cast; exact d2
    omega

/-- C26 in double precision, as far as it holds: no pixel lies in two tiles, the tiles lie
inside the image, and every pixel outside the last row and the last column lies in exactly
one tile. Missing: the last row and column (see `C26_double_refuted`). -/
theorem C26_double_partial (shape : ℤ × ℤ) (maxTiles : ℤ) (hs1 : 0 < shape.1) (hs2 : 0 < shape.2)
    (hb1 : shape.1 ≤ 2 ^ 51) (hb2 : shape.2 ≤ 2 ^ 51) (hm : 1 ≤ maxTiles) :
    ∃ t, createTilesRegular flDouble shape maxTiles = .ok t ∧ t.shape = shape ∧
      (∀ b ∈ t.tiles, TileInImage shape b) ∧ (∀ r c, InAtMostOne t.tiles r c) ∧
      ∀ r c, PixelOf (shape.1 - 1, shape.2 - 1) r c → InExactlyOne t.tiles r c := by
  refine ⟨_, regular_returns flDouble hs1 hm, rfl, ?_⟩
  simp only
  split
  · have := single_partitions hs1.le hs2.le
    refine ⟨this.1, fun r c => ?_, fun r c h => this.2 r c ?_⟩
    · intro i j b b' h1 h2 _ _
      have := (List.getElem?_eq_some_iff.mp h1).1
      have := (List.getElem?_eq_some_iff.mp h2).1
      simp only [List.length_singleton] at *
      omega
    · unfold PixelOf at h ⊢; simp only at h; omega
  · have hk := sqrt_pos hm
    set k := Nat.sqrt maxTiles.toNat
    obtain ⟨e1, e2⟩ := regular_edges flDouble_rounding (by norm_num) hs1.le k
    obtain ⟨f1, f2⟩ := regular_edges flDouble_rounding (by norm_num) hs2.le k
    have e3 := double_last hs1 hb1 hk
    have f3 := double_last hs2 hb2 hk
    refine ⟨?_, ?_, ?_⟩
    · exact grid_inImage (e := fun i => pyInt (ogridAt flDouble shape.1 k i))
        (f := fun i => pyInt (ogridAt flDouble shape.2 k i)) e1 f1 e2.ge e3.2 f2.ge f3.2
    · intro r c
      apply atMostOne_of_count
      rw [coverCount_grid e1 f1]
      split <;> omega
    · intro r c h
      apply exactlyOne_of_count
      rw [coverCount_grid e1 f1]
      unfold PixelOf at h
      simp only at h
      simp only [e2, f2]
      rw [if_pos]
      omega

/-- C26 fails in double precision: on a 61 × 61 image with at most 49 tiles
`int(7 * (61 / 7.0)) = 60`, and pixel (60, 0) lies in no tile. -/
theorem C26_double_refuted : ∃ t, createTilesRegular flDouble (61, 61) 49 = .ok t ∧
    PixelOf (61, 61) 60 0 ∧ ∀ b ∈ t.tiles, ¬ InTile b 60 0 := by
  have hsq : Nat.sqrt (49 : ℤ).toNat = 7 := by
    rw [show (49 : ℤ).toNat = 7 * 7 by rfl, Nat.sqrt_eq]
  refine ⟨_, regular_returns flDouble (by norm_num) (by norm_num), by unfold PixelOf; decide, ?_⟩
  simp only [hsq]
  rw [if_neg (by decide)]
  have hlast : pyInt (ogridAt flDouble 61 7 7) = 60 := by
    have h1 : flDouble ((61 : ℚ) / 7) = 4905706736957147 / 2 ^ 49 := by
      rw [flDouble_eval 3 (by norm_num) (by norm_num)]
      rw [rint_eq_of_lt (n := 4905706736957147) (by norm_num) (by norm_num)]
      norm_num
    have h2 : flDouble (7 * (4905706736957147 / 2 ^ 49)) = 8584986789675007 / 2 ^ 47 := by
      rw [flDouble_eval 5 (by norm_num) (by norm_num)]
      rw [rint_eq_of_lt (n := 8584986789675007) (by norm_num) (by norm_num)]
      norm_num
    unfold ogridAt
    push_cast
    rw [h1, h2, pyInt_of_nonneg (by norm_num), Int.floor_eq_iff]
    norm_num
  obtain ⟨e1, e2⟩ := regular_edges flDouble_rounding (by norm_num) (show (0 : ℤ) ≤ 61 by norm_num) 7
  have hcount := coverCount_grid e1 e1 60 0
  rw [hlast] at hcount
  simp only [lt_irrefl, false_and, and_false, if_false] at hcount
  unfold coverCount at hcount
  rw [List.countP_eq_zero] at hcount
  intro b hb h
  exact hcount b hb (by simpa using h)

example : createTilesRegular (id : ℚ → ℚ) (10, 7) 8 =
    .ok ⟨(10, 7), [⟨0, 0, 5, 3⟩, ⟨0, 3, 5, 7⟩, ⟨5, 0, 10, 3⟩, ⟨5, 3, 10, 7⟩]⟩ := by
  have hsq : Nat.sqrt (8 : ℤ).toNat = 2 := by
    rw [show (8 : ℤ).toNat = 8 by rfl]; exact (Nat.eq_sqrt.mpr (by decide)).symm
  rw [regular_returns _ (by norm_num) (by norm_num)]
  simp only [hsq, gridTiles, ogridAt, id]
  norm_num [List.range_succ, pyInt]

end Spurt
