import Verif.Lemmas.FloatTiling
import Verif.Props.TilesFile

/-! # C75: planning the tiles in double precision -/

namespace Spurt

open Spec

/-- A half-integer that doubles add and subtract exactly. -/
def HalfInt (x : ℚ) : Prop := ∃ z : ℤ, x = (z : ℚ) / 2 ∧ |z| ≤ 2 ^ 51

/-- A whole number that doubles add exactly. -/
def SmallInt (x : ℚ) : Prop := ∃ z : ℤ, x = (z : ℚ) ∧ |z| ≤ 2 ^ 50

theorem half_exact {fl sq : ℚ → ℚ} (hA : DoubleArith fl sq) {z : ℤ} (h : |z| ≤ 2 ^ 53) : fl ((z : ℚ) / 2) = (z : ℚ) / 2 := by
  have := hA.exact z (-1) h
  rw [show (z : ℚ) * (2 : ℚ) ^ (-1 : ℤ) = (z : ℚ) / 2 by rw [zpow_neg_one]; ring] at this
  exact this

theorem half_sub {fl sq : ℚ → ℚ} (hA : DoubleArith fl sq) {x y : ℚ} (hx : HalfInt x) (hy : HalfInt y) : fl (x - y) = x - y := by
  obtain ⟨a, rfl, ha⟩ := hx
  obtain ⟨b, rfl, hb⟩ := hy
  rw [← sub_div, ← Int.cast_sub]
  exact half_exact hA ((abs_sub _ _).trans (by norm_num at *; omega))

theorem mid_exact {fl sq : ℚ → ℚ} (hA : DoubleArith fl sq) {x y : ℚ} (hx : SmallInt x) (hy : SmallInt y) :
    fl (fl (x + y) / 2) = (x + y) / 2 ∧ HalfInt ((x + y) / 2) := by
  obtain ⟨a, rfl, ha⟩ := hx
  obtain ⟨b, rfl, hb⟩ := hy
  have hb' : |a + b| ≤ 2 ^ 51 := (abs_add_le _ _).trans (by norm_num at *; omega)
  have h1 : fl ((a + b : ℤ) : ℚ) = ((a + b : ℤ) : ℚ) := by
    simpa using hA.exact (a + b) 0 (hb'.trans (by norm_num))
  rw [← Int.cast_add, h1, half_exact hA (hb'.trans (by norm_num))]
  exact ⟨rfl, a + b, rfl, hb'⟩

theorem smallInt_getD {z : List ℚ} (hz : ∀ x ∈ z, SmallInt x) (i : Nat) : SmallInt (z.getD i 0) := by
  rw [List.getD_eq_getElem?_getD]
  cases h : z[i]? with
  | none => exact ⟨0, by simp, by norm_num⟩
  | some x => exact hz x (List.mem_of_getElem? h)

theorem zipWith_congr_mem {α β γ : Type} {f g : α → β → γ} : ∀ {l : List α} {k : List β},
    (∀ a ∈ l, ∀ b ∈ k, f a b = g a b) → List.zipWith f l k = List.zipWith g l k := by
  intro l
  induction l with
  | nil => intro k _; simp
  | cons a l ih =>
    intro k h
    cases k with
    | nil => simp
    | cons b k =>
      rw [List.zipWith_cons_cons, List.zipWith_cons_cons, h a (by simp) b (by simp),
        ih (fun x hx y hy => h x (by simp [hx]) y (by simp [hy]))]

/-- `_get_splits` in doubles, and its cuts. -/
theorem getSplits_same {fl sq : ℚ → ℚ} (hA : DoubleArith fl sq) {z : List ℚ} (hz : ∀ x ∈ z, SmallInt x) (hl : z.length < 2 ^ 53)
    (m : Nat) {bound : ℚ × ℚ} (hb : HalfInt bound.1 ∧ HalfInt bound.2) :
    getSplitsFl fl z m bound = getSplits z m bound ∧
      ∀ cuts lens, getSplits z m bound = .ok (cuts, lens) → ∀ x ∈ cuts, HalfInt x := by
  unfold getSplitsFl getSplits
  simp only [int_div_double hA hl, Int.toNat_natCast]
  have hcuts : ∀ n, (bound.1 :: ((List.range (m - 1)).map fun k =>
      fl (fl (z.getD (k * n + n - 1) 0 + z.getD ((k + 1) * n) 0) / 2)) ++ [bound.2]) =
      bound.1 :: ((List.range (m - 1)).map fun k => (z.getD (k * n + n - 1) 0 + z.getD ((k + 1) * n) 0) / 2) ++ [bound.2] := by
    intro n
    congr 3
    funext k
    exact (mid_exact hA (smallInt_getD hz _) (smallInt_getD hz _)).1
  have hhalf : ∀ n, ∀ x ∈ (bound.1 :: ((List.range (m - 1)).map fun k =>
      (z.getD (k * n + n - 1) 0 + z.getD ((k + 1) * n) 0) / 2) ++ [bound.2]), HalfInt x := by
    intro n x hx
    simp only [List.cons_append, List.mem_cons, List.mem_append, List.mem_map, List.not_mem_nil, or_false] at hx
    rcases hx with rfl | ⟨k, -, rfl⟩ | rfl
    · exact hb.1
    · exact (mid_exact hA (smallInt_getD hz _) (smallInt_getD hz _)).2
    · exact hb.2
  constructor
  · split
    · rfl
    · rw [hcuts]
      congr 2
      apply zipWith_congr_mem
      intro a ha b hb'
      exact half_sub hA (hhalf _ b (List.mem_of_mem_tail hb')) (hhalf _ a ha)
  · intro cuts lens h x hx
    split at h
    · simp at h
    · simp only [Except.ok.injEq, Prod.mk.injEq] at h
      rw [← h.1] at hx
      exact hhalf _ x hx

theorem halfInt_getD {z : List ℚ} (hz : ∀ x ∈ z, HalfInt x) (i : Nat) : HalfInt (z.getD i 0) := by
  rw [List.getD_eq_getElem?_getD]
  cases h : z[i]? with
  | none => exact ⟨0, by simp, by norm_num⟩
  | some x => exact hz x (List.mem_of_getElem? h)

/-- `split_rectangle` in doubles. -/
theorem split_same {F : Type} {fl sq : ℚ → ℚ} (hA : DoubleArith fl sq) (sc : Scoring ℚ F) :
    ∀ (fuel : Nat) (points : List (ℚ × ℚ)) (bounds : (ℚ × ℚ) × (ℚ × ℚ)) (m : Nat),
      (∀ p ∈ points, SmallInt p.1 ∧ SmallInt p.2) → points.length < 2 ^ 53 →
      (HalfInt bounds.1.1 ∧ HalfInt bounds.1.2) ∧ (HalfInt bounds.2.1 ∧ HalfInt bounds.2.2) →
      splitRectangleFl fl sc fuel points bounds m = splitRectangle sc fuel points bounds m := by
  intro fuel
  induction fuel with
  | zero => intro _ _ _ _ _ _; rfl
  | succ fuel ih =>
    intro points bounds m hp hl hb
    unfold splitRectangleFl splitRectangle
    split
    · rfl
    split
    · rfl
    have hx : ∀ x ∈ (points.map Prod.fst).mergeSort (· ≤ ·), SmallInt x := by
      intro x hx
      rw [List.mem_mergeSort, List.mem_map] at hx
      obtain ⟨p, h, rfl⟩ := hx
      exact (hp p h).1
    have hy : ∀ x ∈ (points.map Prod.snd).mergeSort (· ≤ ·), SmallInt x := by
      intro x hx
      rw [List.mem_mergeSort, List.mem_map] at hx
      obtain ⟨p, h, rfl⟩ := hx
      exact (hp p h).2
    obtain ⟨sx, cx⟩ := getSplits_same hA hx (by simpa using hl) m hb.1
    obtain ⟨sy, cy⟩ := getSplits_same hA hy (by simpa using hl) m hb.2
    simp only [sx, sy, Bind.bind, Except.bind]
    cases h1 : getSplits ((points.map Prod.fst).mergeSort (· ≤ ·)) m bounds.1 with
    | error e => rfl
    | ok v1 =>
      simp only
      cases h2 : getSplits ((points.map Prod.snd).mergeSort (· ≤ ·)) m bounds.2 with
      | error e => rfl
      | ok v2 =>
        simp only
        cases h3 : findBestSplit sc v1.2 v2.2 m with
        | error e => rfl
        | ok v3 =>
          simp only
          cases h4 : findBestSplit sc v2.2 v1.2 m with
          | error e => rfl
          | ok v4 =>
            simp only
            have hc1 := halfInt_getD (cx v1.1 v1.2 h1) v3.1
            have hc2 := halfInt_getD (cy v2.1 v2.2 h2) v4.1
            have hf : ∀ q : ℚ × ℚ → Bool, (∀ p ∈ points.filter q, SmallInt p.1 ∧ SmallInt p.2) ∧ (points.filter q).length < 2 ^ 53 :=
              fun q => ⟨fun p h => hp p (List.mem_of_mem_filter h), (List.length_filter_le _ _).trans_lt hl⟩
            split
            · rw [ih _ ((bounds.1.1, v1.1.getD v3.1 0), bounds.2) _ (hf _).1 (hf _).2 ⟨⟨hb.1.1, hc1⟩, hb.2⟩,
                ih _ ((v1.1.getD v3.1 0, bounds.1.2), bounds.2) _ (hf _).1 (hf _).2 ⟨⟨hc1, hb.1.2⟩, hb.2⟩]
            · rw [ih _ (bounds.1, (bounds.2.1, v2.1.getD v4.1 0)) _ (hf _).1 (hf _).2 ⟨hb.1, hb.2.1, hc2⟩,
                ih _ (bounds.1, (v2.1.getD v4.1 0, bounds.2.2)) _ (hf _).1 (hf _).2 ⟨hb.1, hc2, hb.2.2⟩]

/-- The whole square root in doubles. -/
theorem tilesPerDim_same {fl sq : ℚ → ℚ} (hA : DoubleArith fl sq) {n : ℤ} (h0 : 0 < n) (h : n ≤ 2 ^ 51) :
    (tilesPerDimFl sq n).toNat = Nat.sqrt n.toNat := by
  obtain ⟨k, rfl⟩ := Int.eq_ofNat_of_zero_le h0.le
  have := int_sqrt_double hA (n := k) (by exact_mod_cast h)
  unfold tilesPerDimFl
  rw [Int.cast_natCast, this]; simp

/-- C75. `create_tiles_regular` in doubles asks for as many tiles as exact arithmetic (`max_tiles` up to `2⁵¹`): the largest square
number that is allowed. (How the rows and columns are rounded is C30's.) -/
theorem C75_regular {fl sq : ℚ → ℚ} (hA : DoubleArith fl sq) (shape : ℤ × ℤ) (maxTiles : ℤ) (h : maxTiles ≤ 2 ^ 51) :
    createTilesRegularFl fl sq shape maxTiles = createTilesRegular fl shape maxTiles := by
  unfold createTilesRegularFl createTilesRegular
  split
  · rfl
  split
  · rfl
  rename_i h0
  rw [tilesPerDim_same hA (by omega) h]

/-- C75. `create_tiles_density` in doubles makes the tiles of exact arithmetic, for pixel coordinates and image sizes up to `2⁵⁰`,
whatever the scores of the cuts are. -/
theorem C75_density {F : Type} {fl sq : ℚ → ℚ} (hA : DoubleArith fl sq) (sc : Scoring ℚ F) (points : List (ℤ × ℤ))
    (hp : ∀ p ∈ points, |p.1| ≤ 2 ^ 50 ∧ |p.2| ≤ 2 ^ 50) (hl : points.length < 2 ^ 53) (shape : ℤ × ℤ)
    (hs : |shape.1| ≤ 2 ^ 50 ∧ |shape.2| ≤ 2 ^ 50) (maxTiles : ℤ) (h : maxTiles ≤ 2 ^ 51) :
    createTilesDensityFl fl sq sc points shape maxTiles = createTilesDensity sc points shape maxTiles := by
  unfold createTilesDensityFl createTilesDensity
  split
  · rfl
  split
  · rfl
  rename_i h0
  rw [tilesPerDim_same hA (by omega) h]
  simp only
  split
  · rfl
  have z : HalfInt 0 := ⟨0, by simp, by norm_num⟩
  have hh : ∀ k : ℤ, |k| ≤ 2 ^ 50 → HalfInt (k : ℚ) := by
    intro k hk
    refine ⟨2 * k, by push_cast; ring, ?_⟩
    rw [abs_mul]; norm_num at *; omega
  rw [split_same hA sc _ _ _ _ ?_ (by simpa using hl) ⟨⟨z, hh _ hs.1⟩, z, hh _ hs.2⟩]
  intro p hpm
  obtain ⟨q, hq, rfl⟩ := List.mem_map.mp hpm
  exact ⟨⟨q.1, rfl, (hp q hq).1⟩, q.2, rfl, (hp q hq).2⟩

/-- C75. The number of tiles that `get_tiles` asks for, in doubles: up to `2⁴⁶` (70 million million) pixels and target. -/
theorem C75_target {fl sq : ℚ → ℚ} (hA : DoubleArith fl sq) (npts : Nat) (hn : npts ≤ 2 ^ 46) (s : TilerSettings)
    (hs : s.check = .ok ()) (ht : s.targetPointsPerTile ≤ 2 ^ 46) : targetTilesFl fl sq npts s = targetTiles npts s := by
  obtain ⟨-, -, -, h4⟩ := check_tiler hs
  unfold targetTilesFl targetTiles
  obtain ⟨k, hk⟩ := Int.eq_ofNat_of_zero_le (show 0 ≤ s.targetPointsPerTile by omega)
  rw [hk] at h4 ht ⊢
  rw [Int.cast_natCast, Int.cast_natCast, rint_sqrt_double hA (by omega) hn (by exact_mod_cast ht)]

theorem flatMap_length_le {α β : Type} (f : α → List β) (n : Nat) : ∀ l : List α, (∀ x ∈ l, (f x).length ≤ n) →
    (l.flatMap f).length ≤ l.length * n := by
  intro l
  induction l with
  | nil => intro _; simp
  | cons a l ih =>
    intro h
    rw [List.flatMap_cons, List.length_append, List.length_cons, Nat.succ_mul]
    have h1 := h a (by simp)
    have h2 := ih fun x hx => h x (by simp [hx])
    omega

theorem nonzero_length {arr : List (List Bool)} {ncols : Nat} (hr : ∀ r ∈ arr, r.length = ncols) :
    (nonzero arr).length ≤ arr.length * ncols := by
  unfold nonzero
  refine (flatMap_length_le _ ncols _ ?_).trans (by simp)
  rintro ⟨r, k⟩ hx
  refine (List.length_filterMap_le _ _).trans ?_
  rw [List.length_zipIdx, hr r (List.mem_of_getElem? (List.mem_zipIdx_iff_getElem?.mp hx))]

theorem everyNth_length {α : Type} (skip : Nat) (l : List α) : (everyNth skip l).length ≤ l.length := by
  unfold everyNth
  refine (List.length_filterMap_le _ _).trans ?_
  rw [List.length_range]
  rcases Nat.eq_zero_or_pos skip with h | h
  · subst h; simp
  · rcases Nat.eq_zero_or_pos l.length with h0 | h0
    · rw [h0, Nat.div_eq_of_lt (by omega)]
    · apply Nat.div_le_of_le_mul
      obtain ⟨a, ha⟩ := Nat.exists_eq_add_of_lt h
      obtain ⟨b, hb⟩ := Nat.exists_eq_add_of_lt h0
      rw [ha, hb]
      have : (0 + a + 1) * (0 + b + 1) = a * b + a + b + 1 := by ring
      rw [this]; omega

/-- C75. `get_tiles` in doubles writes the tiles that exact planning gives: the only roundings with an effect are those of the
dilation (C30), and of the scores of the cuts. For images of up to `2⁴⁶` pixels and settings up to `2⁴⁶`. -/
theorem C75_same_tiles {F : Type} {fl sq : ℚ → ℚ} (hA : DoubleArith fl sq) (sc : Scoring ℚ F) (useTiles : Bool) (s : TilerSettings)
    (hs : s.check = .ok ()) (ht : s.targetPointsPerTile ≤ 2 ^ 46) (hm : s.maxTiles ≤ 2 ^ 51)
    (ncols : Nat) (arr : List (List Bool)) (hr : ∀ r ∈ arr, r.length = ncols) (hsize : arr.length * ncols ≤ 2 ^ 46)
    (hrows : arr.length ≤ 2 ^ 46) (hcols : ncols ≤ 2 ^ 46) :
    makeTilesFl fl sq sc useTiles s ncols arr = makeTiles sc fl useTiles s ncols arr := by
  obtain ⟨-, -, h3, -⟩ := check_tiler hs
  have hlen : (nonzero arr).length ≤ 2 ^ 46 := (nonzero_length hr).trans hsize
  obtain ⟨k, hk⟩ := Int.eq_ofNat_of_zero_le (show 0 ≤ s.targetPointsForGeneration by omega)
  unfold makeTilesFl makeTiles
  cases useTiles
  · rfl
  simp only [not_true_eq_false, if_false]
  rw [C75_target hA _ hlen s hs ht, hk, Int.cast_natCast, int_div_double hA (by omega)]
  have hskip : (max 1 ((((nonzero arr).length / k : ℕ) : ℤ))).toNat = max 1 ((nonzero arr).length / (k : ℤ).toNat) := by
    rw [Int.toNat_natCast]; omega
  rw [hskip]
  have h1 : ∀ p ∈ everyNth (max 1 ((nonzero arr).length / (k : ℤ).toNat)) (nonzero arr), |p.1| ≤ 2 ^ 50 ∧ |p.2| ≤ 2 ^ 50 := by
    intro p hp
    obtain ⟨a1, a2, a3, a4⟩ := nonzero_pixels hr p (everyNth_mem hp)
    simp only at a1 a2 a3 a4
    rw [abs_of_nonneg (by omega), abs_of_nonneg (by omega)]
    norm_num at *; omega
  have h2 : (everyNth (max 1 ((nonzero arr).length / (k : ℤ).toNat)) (nonzero arr)).length < 2 ^ 53 :=
    lt_of_le_of_lt (everyNth_length _ _) (by omega)
  rw [C75_density hA sc _ h1 h2 _ ⟨?_, ?_⟩ _ (show targetTiles (nonzero arr).length s ≤ 2 ^ 51 from (min_le_right _ _).trans hm)]
  · simp only [Nat.abs_cast]; norm_num at *; omega
  · simp only [Nat.abs_cast]; norm_num at *; omega

/-- C75. So the tiles that `get_tiles` plans in doubles are at least one and at most `max_tiles`, a square number of them, lie inside the
image and cover it. -/
theorem C75_tiles {F : Type} (sc : Scoring ℚ F) (useTiles : Bool) (s : TilerSettings)
    (hs : s.check = .ok ()) (ht : s.targetPointsPerTile ≤ 2 ^ 46) (hm : s.maxTiles ≤ 2 ^ 51)
    (ncols : Nat) (arr : List (List Bool)) (hr : ∀ r ∈ arr, r.length = ncols) (hsize : arr.length * ncols ≤ 2 ^ 46)
    (hrows : arr.length ≤ 2 ^ 46) (hcols : ncols ≤ 2 ^ 46) (t : TileSet)
    (h : makeTilesFl flDouble sqrtDouble sc useTiles s ncols arr = .ok t) :
    t.shape = ((arr.length : ℤ), (ncols : ℤ)) ∧
    (∃ k : Nat, t.tiles.length = k * k ∧ 1 ≤ k ∧ (k * k : ℤ) ≤ s.maxTiles) ∧
    (∀ b ∈ t.tiles, TileInImage t.shape b) ∧
    ∀ r c, PixelOf t.shape r c → ∃ b ∈ t.tiles, InTile b r c := by
  rw [C75_same_tiles double_arith sc useTiles s hs ht hm ncols arr hr hsize hrows hcols] at h
  obtain ⟨h1, h2, -, h3, h4⟩ := C30_make_tiles sc flDouble _ flDouble_rounding useTiles s hs ncols arr hr
    ⟨by norm_num at *; omega, by norm_num at *; omega⟩ t h
  exact ⟨h1, h2, h3, h4⟩

/-- The default settings are small enough; so is a limit of 16 tiles, and 9 tiles of a 100 × 200 image are as planned exactly. -/
example {F : Type} (sc : Scoring ℚ F) : ({} : TilerSettings).check = .ok () ∧
    targetTilesFl flDouble sqrtDouble 5000000 {} = targetTiles 5000000 {} ∧
    createTilesRegularFl flDouble sqrtDouble (100, 200) 9 = createTilesRegular flDouble (100, 200) 9 ∧
    createTilesDensityFl flDouble sqrtDouble sc [(1, 2), (50, 60), (70, 80), (99, 199)] (100, 200) 4 =
      createTilesDensity sc [(1, 2), (50, 60), (70, 80), (99, 199)] (100, 200) 4 := by
  have hc : ({} : TilerSettings).check = .ok () := by
    unfold TilerSettings.check; norm_num
  exact ⟨hc, C75_target double_arith _ (by norm_num) _ hc (by norm_num), C75_regular double_arith _ _ (by norm_num),
    C75_density double_arith sc _ (by decide) (by norm_num) _ (by decide) _ (by norm_num)⟩

/-- Four tiles of nine scattered pixels, in doubles. -/
example : ∃ t, makeTilesFl (F := Unit) flDouble sqrtDouble ⟨fun _ _ _ => (), fun _ _ => (), fun _ => 0, fun _ _ => true⟩
    true ⟨1, 4, 120000, 1 / 20⟩ 9
    ((List.range 9).map fun i => (List.range 9).map fun j => decide (i = j)) = .ok t ∧ t.tiles.length = 4 := by
  rw [C75_same_tiles double_arith _ _ _ (by simp [TilerSettings.check]) (by norm_num) (by norm_num) _ _
    (by decide) (by norm_num) (by norm_num) (by norm_num)]
  exact nine_tiles flDouble

end Spurt
