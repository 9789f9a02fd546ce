import Verif.Props.TilingDensity

/-!
# Property C30: the number of tiles, and the tiles file
-/

namespace Spurt
open Spec

section
variable {K : Type} [Field K] [LinearOrder K] [IsStrictOrderedRing K] [FloorRing K]

/-- C30. `create_tiles_regular` returns k·k tiles with k the integer square root of
`max_tiles`, in any arithmetic. -/
theorem C30_regular_count (fl : K → K) (shape : ℤ × ℤ) (maxTiles : ℤ) (t : TileSet)
    (h : createTilesRegular fl shape maxTiles = .ok t) :
    ∃ k : Nat, t.tiles.length = k * k ∧ 1 ≤ k ∧ (k * k : ℤ) ≤ maxTiles ∧
      maxTiles < (k + 1) * (k + 1) := by
  unfold createTilesRegular at h
  split at h
  · simp at h
  split at h
  · simp at h
  rename_i hmt
  have hmt : 1 ≤ maxTiles := by omega
  have hb : ((Nat.sqrt maxTiles.toNat : ℕ) * (Nat.sqrt maxTiles.toNat : ℕ) : ℤ) ≤ maxTiles ∧
      maxTiles < ((Nat.sqrt maxTiles.toNat : ℕ) + 1) * ((Nat.sqrt maxTiles.toNat : ℕ) + 1) := by
    constructor
    · have := Nat.sqrt_le maxTiles.toNat
      have h4 : ((Nat.sqrt maxTiles.toNat * Nat.sqrt maxTiles.toNat : ℕ) : ℤ) ≤ maxTiles.toNat := by
        exact_mod_cast this
      push_cast at h4; omega
    · have := Nat.lt_succ_sqrt maxTiles.toNat
      have h4 : ((maxTiles.toNat : ℕ) : ℤ) <
          (((Nat.sqrt maxTiles.toNat + 1) * (Nat.sqrt maxTiles.toNat + 1) : ℕ) : ℤ) := by
        exact_mod_cast this
      push_cast at h4; omega
  refine ⟨Nat.sqrt maxTiles.toNat, ?_, sqrt_pos hmt, hb⟩
  simp only at h
  split at h
  · rename_i h1
    simp only [Except.ok.injEq] at h
    subst h; rw [h1]; rfl
  · simp only [Except.ok.injEq] at h
    subst h
    simp [List.length_flatMap]

example : ∃ t, createTilesRegular (id : ℚ → ℚ) (100, 60) 10 = .ok t ∧ t.tiles.length = 9 := by
  obtain ⟨t, ht⟩ : ∃ t, createTilesRegular (id : ℚ → ℚ) (100, 60) 10 = .ok t :=
    ⟨_, regular_returns (K := ℚ) id (by norm_num) (by norm_num)⟩
  obtain ⟨k, h1, h2, h3, h4⟩ := C30_regular_count _ _ _ t ht
  have hk : k = 3 := by
    have : (k : ℤ) < 4 := by nlinarith
    have : 2 < (k : ℤ) := by nlinarith
    omega
  exact ⟨t, ht, by rw [h1, hk]⟩

end

/-! ### get_tiles -/

theorem nonzero_pixels {arr : List (List Bool)} {ncols : Nat} (hr : ∀ r ∈ arr, r.length = ncols) :
    ∀ p ∈ nonzero arr, PixelOf ((arr.length : ℤ), (ncols : ℤ)) p.1 p.2 := by
  intro p hp
  unfold nonzero at hp
  obtain ⟨⟨row, i⟩, hi, hp⟩ := List.mem_flatMap.mp hp
  obtain ⟨⟨v, j⟩, hj, hp⟩ := List.mem_filterMap.mp hp
  simp only at hp hj
  split at hp
  · simp only [Option.some.injEq] at hp
    subst hp
    have h1 := List.mem_zipIdx' hi
    have h2 := List.mem_zipIdx' hj
    have h3 := hr row (by rw [h1.2]; exact List.getElem_mem _)
    refine ⟨by simp, ?_, by simp, ?_⟩
    · simp only
      exact_mod_cast h1.1
    · simp only
      have := h2.1
      rw [h3] at this
      exact_mod_cast this
  · simp at hp

theorem everyNth_mem {α : Type*} {skip : Nat} {l : List α} {x : α} (h : x ∈ everyNth skip l) :
    x ∈ l := by
  unfold everyNth at h
  obtain ⟨i, _, hi⟩ := List.mem_filterMap.mp h
  exact List.mem_of_getElem? hi

theorem check_tiler {s : TilerSettings} (h : s.check = .ok ()) :
    1 ≤ s.maxTiles ∧ 0 ≤ s.dilationFactor ∧ 0 < s.targetPointsForGeneration ∧
      0 < s.targetPointsPerTile := by
  unfold TilerSettings.check at h
  split at h; · simp at h
  split at h; · simp at h
  split at h; · simp at h
  split at h; · simp at h
  refine ⟨by omega, ?_, by omega, by omega⟩
  rename_i h1 _ _
  exact not_lt.mp h1

/-- The tiles before dilation, and what `get_tiles` makes of them. -/
theorem makeTiles_ok {F : Type} {sc : Scoring ℚ F} {fl : ℚ → ℚ} {useTiles : Bool} {s : TilerSettings}
    (hs : s.check = .ok ()) {ncols : Nat} {arr : List (List Bool)}
    (hr : ∀ r ∈ arr, r.length = ncols) {t : TileSet}
    (h : makeTiles sc fl useTiles s ncols arr = .ok t) :
    ∃ t0 : TileSet, t0.shape = ((arr.length : ℤ), (ncols : ℤ)) ∧ PartitionsImage t0.shape t0.tiles ∧
      (∃ k : Nat, t0.tiles.length = k * k ∧ 1 ≤ k ∧ (k * k : ℤ) ≤ s.maxTiles) ∧
      (t = t0 ∨ 0 < s.dilationFactor ∧ t = t0.dilate fl s.dilationFactor) ∧ (useTiles = false → t0.tiles.length = 1) := by
  obtain ⟨hm, hd, _, _⟩ := check_tiler hs
  have hfin : ∀ t0 : TileSet, (if t0.tiles.length > 1 ∧ s.dilationFactor > 0 then
      (pure (t0.dilate fl s.dilationFactor) : Except PyErr TileSet) else pure t0) = .ok t →
      t = t0 ∨ 0 < s.dilationFactor ∧ t = t0.dilate fl s.dilationFactor := by
    intro t0 h
    split at h
    · rename_i hc
      simp only [pure, Except.pure, Except.ok.injEq] at h
      exact Or.inr ⟨hc.2, h.symm⟩
    · simp only [pure, Except.pure, Except.ok.injEq] at h
      exact Or.inl h.symm
  cases useTiles
  · exact ⟨singleTile ((arr.length : ℤ), (ncols : ℤ)), rfl, single_partitions (Int.natCast_nonneg _) (Int.natCast_nonneg _),
      ⟨1, rfl, le_rfl, by simpa using hm⟩, hfin _ (by simpa [makeTiles] using h), fun _ => rfl⟩
  · simp only [makeTiles, not_true_eq_false, if_false, Bind.bind, Except.bind] at h
    split at h
    · simp at h
    rename_i t0 ht0
    obtain ⟨hm', h1, h2, h3⟩ := density_ok (by simp) (by simp)
      (fun p hp => nonzero_pixels hr p (everyNth_mem hp)) ht0
    refine ⟨t0, h1, by rw [h1]; exact h3, ⟨_, h2, sqrt_pos hm', ?_⟩, hfin _ h, by simp⟩
    have hle : targetTiles (nonzero arr).length s ≤ s.maxTiles := min_le_right _ _
    have := Nat.sqrt_le (targetTiles (nonzero arr).length s).toNat
    have h4 : ((Nat.sqrt (targetTiles (nonzero arr).length s).toNat *
        Nat.sqrt (targetTiles (nonzero arr).length s).toNat : ℕ) : ℤ) ≤
        (targetTiles (nonzero arr).length s).toNat := by
      exact_mod_cast this
    push_cast at h4; omega

/-- C30. With settings that `TilerSettings` accepts, when `get_tiles` makes a tile set for
a rectangular image, it has at least one and at most `max_tiles` tiles, a perfect square of
them (one, if tiling is off); every tile lies inside the image and every pixel of the image
is in some tile. For every rounding of the dilation that is exact on integers up to the
image size, and any scores of the cuts. -/
theorem C30_make_tiles {F : Type} (sc : Scoring ℚ F) (fl : ℚ → ℚ) (B : ℤ) (hfl : Rounding fl B)
    (useTiles : Bool) (s : TilerSettings) (hs : s.check = .ok ()) (ncols : Nat)
    (arr : List (List Bool)) (hr : ∀ r ∈ arr, r.length = ncols)
    (hB : (arr.length : ℤ) ≤ B ∧ (ncols : ℤ) ≤ B) (t : TileSet)
    (h : makeTiles sc fl useTiles s ncols arr = .ok t) :
    t.shape = ((arr.length : ℤ), (ncols : ℤ)) ∧
    (∃ k : Nat, t.tiles.length = k * k ∧ 1 ≤ k ∧ (k * k : ℤ) ≤ s.maxTiles) ∧
    (useTiles = false → t.tiles.length = 1) ∧
    (∀ b ∈ t.tiles, TileInImage t.shape b) ∧
    ∀ r c, PixelOf t.shape r c → ∃ b ∈ t.tiles, InTile b r c := by
  obtain ⟨t0, h1, h2, h3, h4, h5⟩ := makeTiles_ok hs hr h
  obtain ⟨_, hd, _, _⟩ := check_tiler hs
  have hB' : t0.shape.1 ≤ B ∧ t0.shape.2 ≤ B := by rw [h1]; exact hB
  rcases h4 with rfl | ⟨_, rfl⟩
  · refine ⟨h1, h3, h5, h2.1, fun r c hp => ?_⟩
    obtain ⟨i, ⟨b, hb, hin⟩, _⟩ := h2.2 r c hp
    exact ⟨b, List.mem_of_getElem? hb, hin⟩
  · obtain ⟨e1, e2, e3, _⟩ := C28_dilate fl B hfl t0 h2.1 hB' s.dilationFactor s.dilationFactor hd le_rfl
    exact ⟨h1, by rw [e2]; exact h3, by rw [e2]; exact h5, e3,
      fun r c hp => C28_coverage fl B hfl t0 h2 hB' s.dilationFactor hd r c hp⟩

/-- C30. `get_tiles` never replaces an existing tiles file, even one written with other
settings. -/
theorem C30_keeps_file {F : Type} (sc : Scoring ℚ F) (fl : ℚ → ℚ) (useTiles : Bool)
    (s : TilerSettings) (ncols : Nat) (arr : List (List Bool)) (j : Json) :
    getTilesFile sc fl useTiles s ncols arr (some j) = .ok j := rfl

/-- C30. What `get_tiles` writes when there is no file reads back as a tile set of at most
`max_tiles` tiles that cover the image. -/
theorem C30_file_reads_back {F : Type} (sc : Scoring ℚ F) (fl : ℚ → ℚ) (B : ℤ) (hfl : Rounding fl B)
    (useTiles : Bool) (s : TilerSettings) (hs : s.check = .ok ()) (ncols : Nat)
    (arr : List (List Bool)) (hr : ∀ r ∈ arr, r.length = ncols)
    (hB : (arr.length : ℤ) ≤ B ∧ (ncols : ℤ) ≤ B) (j : Json)
    (h : getTilesFile sc fl useTiles s ncols arr none = .ok j) :
    ∃ t, TileSet.fromJson j = .ok t ∧ 1 ≤ t.tiles.length ∧ (t.tiles.length : ℤ) ≤ s.maxTiles ∧
      ∀ r c : ℤ, PixelOf ((arr.length : ℤ), (ncols : ℤ)) r c → ∃ b ∈ t.tiles, InTile b r c := by
  unfold getTilesFile at h
  simp only [Bind.bind, Except.bind] at h
  split at h
  · simp at h
  rename_i t ht
  simp only [pure, Except.pure, Except.ok.injEq] at h
  subst h
  obtain ⟨h1, ⟨k, h2, h3, h4⟩, _, _, h5⟩ := C30_make_tiles sc fl B hfl useTiles s hs ncols arr hr hB t ht
  refine ⟨t, C29_json t, ?_, ?_, ?_⟩
  · rw [h2]; exact Nat.mul_pos h3 h3
  · rw [h2]; push_cast; exact h4
  · rw [h1] at h5; exact h5

/-- Without any point above the threshold there is one tile, whatever the settings. -/
theorem targetTiles_zero (s : TilerSettings) (hs : s.check = .ok ()) : targetTiles 0 s = 1 := by
  obtain ⟨hm, _⟩ := check_tiler hs
  unfold targetTiles
  have : rint (Real.sqrt (((0 : ℕ) : ℝ) / (s.targetPointsPerTile : ℝ))) = 0 := by
    have := rint_intCast (K := ℝ) 0
    simpa using this
  rw [this]
  simp only [mul_zero]
  omega

/-- C30. `get_tiles` does return on an image without a single good pixel (one tile), for
any accepted settings. -/
theorem C30_no_points {F : Type} (sc : Scoring ℚ F) (fl : ℚ → ℚ) (useTiles : Bool)
    (s : TilerSettings) (hs : s.check = .ok ()) (ncols : Nat) (arr : List (List Bool))
    (hne : 0 < arr.length) (hz : nonzero arr = []) :
    makeTiles sc fl useTiles s ncols arr = .ok (singleTile ((arr.length : ℤ), (ncols : ℤ))) := by
  unfold makeTiles
  cases useTiles
  · simp [singleTile, Bind.bind, Except.bind, pure, Except.pure]
  · simp only [hz, List.length_nil, targetTiles_zero s hs, Bind.bind, Except.bind, not_true_eq_false,
      if_false]
    have : createTilesDensity sc (everyNth (max 1 (0 / s.targetPointsForGeneration.toNat)) [])
        ((arr.length : ℤ), (ncols : ℤ)) 1 = .ok (singleTile ((arr.length : ℤ), (ncols : ℤ))) := by
      unfold createTilesDensity
      rw [if_neg (by simp only; omega), if_neg (by norm_num)]
      simp [show Nat.sqrt 1 = 1 by decide]
    rw [this]
    simp [singleTile, pure, Except.pure]

example : (⟨1, 4, 120000, 1 / 20⟩ : TilerSettings).check = .ok () ∧
    ({} : TilerSettings).check = .ok () := by
  constructor <;> simp [TilerSettings.check] <;> norm_num

/-- Non-vacuity with several tiles: nine scattered good pixels of a 9×9 image, one point per
tile, at most 4 tiles: four tiles are made. -/
theorem nine_tiles (fl : ℚ → ℚ) : ∃ t, makeTiles (F := Unit) ⟨fun _ _ _ => (), fun _ _ => (), fun _ => 0, fun _ _ => true⟩ fl
    true ⟨1, 4, 120000, 1 / 20⟩ 9
    ((List.range 9).map fun i => (List.range 9).map fun j => decide (i = j)) = .ok t ∧
    t.tiles.length = 4 := by
  set arr := (List.range 9).map fun i => (List.range 9).map fun j => decide (i = j) with harr
  have hnz : nonzero arr = [(0, 0), (1, 1), (2, 2), (3, 3), (4, 4), (5, 5), (6, 6), (7, 7), (8, 8)] := by
    rw [harr]; decide
  have htt : targetTiles 9 ⟨1, 4, 120000, 1 / 20⟩ = 4 := by
    unfold targetTiles
    have h9 : Real.sqrt (((9 : ℕ) : ℝ) / (((1 : ℤ)) : ℝ)) = ((3 : ℤ) : ℝ) := by
      rw [show ((9 : ℕ) : ℝ) / (((1 : ℤ)) : ℝ) = 3 ^ 2 by norm_num, Real.sqrt_sq (by norm_num)]
      norm_num
    simp only [h9, rint_intCast]
    rfl
  obtain ⟨t0, ht0⟩ := C27_density_returns (K := ℚ) (F := Unit) ⟨fun _ _ _ => (), fun _ _ => (),
    fun _ => 0, fun _ _ => true⟩ (by intro l hl; exact List.length_pos_iff.mpr hl)
    (nonzero arr) (9, 9) 4 (by norm_num) (by norm_num) (by rw [hnz]; decide)
    (by rw [hnz]; decide) (by rw [hnz]; decide)
  obtain ⟨_, _, h3, _⟩ := density_ok (by norm_num) (by norm_num)
    (by rw [hnz]; unfold PixelOf; decide) ht0
  have hl : t0.tiles.length = 4 := by
    rw [h3, show Nat.sqrt (Int.toNat 4) = 2 from Nat.eq_sqrt.mpr ⟨by decide, by decide⟩ |>.symm]
  refine ⟨t0.dilate fl (1 / 20), ?_, by simpa [TileSet.dilate] using hl⟩
  have hev : everyNth (max 1 (9 / (120000 : ℤ).toNat)) (nonzero arr) = nonzero arr := by
    rw [hnz]; decide
  have hlen : (nonzero arr).length = 9 := by rw [hnz]; rfl
  simp only [makeTiles, not_true_eq_false, if_false, Bind.bind, Except.bind, hlen, hev, htt]
  rw [show (((arr.length : ℕ) : ℤ), ((9 : ℕ) : ℤ)) = ((9, 9) : ℤ × ℤ) by rw [harr]; rfl, ht0]
  simp only [hl]
  rw [if_pos (by norm_num)]
  rfl

end Spurt
