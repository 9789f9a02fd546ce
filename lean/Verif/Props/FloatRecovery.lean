import Verif.Props.FloatTileUnwrap
import Verif.Props.FloatMergeNumpy
import Verif.Props.FloatSize
import Verif.Props.Recovery

/-!
# Property C71: the whole workflow in `float32` and `float64` recovers an unaliased stack
-/

namespace Spurt
open Spec

section
variable {S : Type}

/-- What is asked of the true phases `φ` of the acquisitions, for numpy's numbers: the `float32` phases of the stack are
within 1/20000 of them up to whole cycles; in every interferogram they change by at most half a cycle less a hundredth of
a radian along the links of the triangulation of every tile, and never exceed `R` radians. No point of a tile is more than
`H` links from its first one. -/
structure Spec.UnaliasedWithin (H : Nat) (R : ℚ) (P : Flow ℚ S) (T : TileSet) (φ : Nat → ℤ × ℤ → ℚ) : Prop where
  ready : ∀ b ∈ T.tiles, TileReady P.job b
  bounded : ∀ s r c, PixelOf (P.job.coh.rows, P.job.coh.cols) r c → ValidPixel P.job r c →
    |epochPhase P.job s r.toNat c.toNat| ≤ 11 / 20 * twoPiSingle
  phase : NearPhase twoPi (1 / 20000) P.job φ
  steep : ∀ b ∈ T.tiles, SteepAtMost (twoPi / 2 - 1 / 100) P.job b φ
  range : ∀ s u, (s, u) ∈ P.job.time.links → ∀ p : ℤ × ℤ,
    PixelOf (P.job.coh.rows, P.job.coh.cols) p.1 p.2 → ValidPixel P.job p.1 p.2 → |φ u p - φ s p| ≤ R
  near : ∀ b ∈ T.tiles, ∀ p < (tileGraph P.job b).npoints, ∃ L ≤ H, WalkTo (tileGraph P.job b).links L p
  cycles : ∀ cyc ∈ P.job.time.cycles, cyc.length ≤ 4

/-- The interferograms do not exceed 300 radians, and no point of a tile is more than 180 links from its first one. -/
abbrev Spec.UnaliasedFl (P : Flow ℚ S) (T : TileSet) (φ : Nat → ℤ × ℤ → ℚ) : Prop := UnaliasedWithin 180 300 P T φ

theorem numpy_residues (cycles : List (List Nat)) (h : ∀ cyc ∈ cycles, cyc.length ≤ 4) :
    ResidueRoom numpyArith 600 (600 / 2 ^ 24) (314165 / 100000) (273 / 100000000 + 4 * (1 / 20000)) cycles := by
  intro cyc hcy
  have h4 : (cyc.length : ℚ) ≤ 4 := by exact_mod_cast h cyc hcy
  constructor
  · have : (cyc.length : ℚ) * (314165 / 100000 + 600 / 2 ^ 24) ≤ 4 * (314165 / 100000 + 600 / 2 ^ 24) :=
      mul_le_mul_of_nonneg_right h4 (by norm_num)
    exact this.trans (by norm_num)
  · have h5 : (cyc.length : ℚ) * (273 / 100000000 + 4 * (1 / 20000) + 600 / 2 ^ 24) ≤
        4 * (273 / 100000000 + 4 * (1 / 20000) + 600 / 2 ^ 24) := mul_le_mul_of_nonneg_right h4 (by norm_num)
    have h6 : (4 * (273 / 100000000 + 4 * (1 / 20000) + 600 / 2 ^ 24) + numpyArith.tauS * (600 / 2 ^ 24) : ℚ) <
        numpyArith.tauS / 2 := by norm_num [numpyArith, twoPiSingle]
    linarith

theorem numpy_cube_room : CubeRoom numpyArith (314165 / 100000) (314165 / 100000 / 2 ^ 24) 600 (2 ^ 11) (2 ^ 11 / 2 ^ 53)
    (175 / 1000000000) (1 / 500000) (31416 / 10000) 3 (314165 / 100000) (273 / 100000000) 0 0 180 := by
  have htol := tolDouble_bounds
  have hHq : ((180 : ℕ) : ℚ) = 180 := by norm_num
  refine ⟨⟨le_refl _, le_refl _⟩, ⟨?_, le_refl _⟩, ?_, ?_, ?_, ?_, ?_⟩
  · norm_num [numpyArith, twoPi]
  · norm_num
  · rw [hHq]; norm_num [numpyArith, twoPi]
  · rw [hHq]; norm_num [numpyArith, twoPi]
  · exact le_trans (by norm_num) htol.1
  · rw [hHq]
    show tolDouble + _ < twoPi
    have : (2 * (180 + 1) * (273 / 100000000 + 3 * (2 ^ 11 / 2 ^ 53)) : ℚ) < 1 := by norm_num
    have h2 : (3 : ℚ) < twoPi := by norm_num [twoPi]
    linarith

/-- The tile files of an unaliased stack: true interferograms plus a number of cycles per tile. -/
theorem unaliasedFl_files {P : Flow ℚ S} (hP : GoodFlow P) {T : TileSet}
    (hin : ∀ b ∈ T.tiles, TileInImage (P.job.coh.rows, P.job.coh.cols) b)
    {φ : Nat → ℤ × ℤ → ℚ} (hU : UnaliasedFl P T φ)
    (oT : Nat → Nat → List Nat → List Nat) (oS : Nat → List Nat → List Nat)
    (hoT : ∀ t k l, (oT t k l).Perm l) (hoS : ∀ t l, (oS t l).Perm l) (t : Nat) (ht : t < T.tiles.length) :
    ∃ f, unwrapOneTileFl numpyArith P.solver P.job T t (oT t) (oS t) = .ok f ∧ f.tile = T.tiles[t] ∧
      filePoints f = tilePixels P.job T.tiles[t] ∧
      f.uw.length = P.job.time.links.length ∧ f.phaseOffset.length = P.job.time.links.length ∧
      (∀ row ∈ f.uw, row.length = f.points.length) ∧ f.points.Nodup ∧ 2 ≤ f.points.length ∧
      ∀ i s u, P.job.time.links[i]? = some (s, u) → ∃ c : ℤ, |c| ≤ 48 ∧
        ∀ n p, (filePoints f)[n]? = some p → |numpyArith.fs (filePhase f i n) - (φ u p - φ s p + twoPi * c)| ≤ 1 / 1000 := by
  have hb : T.tiles[t]? = some T.tiles[t] := List.getElem?_eq_getElem ht
  have hmem := List.getElem_mem ht
  have PP := numpyArith_precision (314165 / 100000) 600 (by norm_num) (by norm_num) 11
  have hHq : ((180 : ℕ) : ℚ) = 180 := by norm_num
  obtain ⟨f, h1, h2, h3, h4, h5, h6, h7, h8⟩ := C71_tile_itoh PP P.solver P.job hP.job T t T.tiles[t] hb (hin _ hmem)
    (hU.ready _ hmem) (11 / 20 * twoPiSingle) (1 / 500000) (31416 / 10000) 3 (314165 / 100000) (273 / 100000000) (1 / 20000)
    (twoPi / 2 - 1 / 100) numpyArith_wraps (by norm_num [twoPiSingle]) hU.bounded φ hU.phase (hU.steep _ hmem) (by
      show _ < twoPi
      norm_num [twoPi]) (oT t) (oS t) (hoT t) (hoS t) 180 numpy_cube_room (hU.near _ hmem) (by
      rw [hHq]
      exact le_trans (by norm_num) tolDouble_bounds.1) (numpy_residues _ hU.cycles) (numpy_residues _ (by
      intro cyc hc
      obtain ⟨x, _, rfl⟩ := List.mem_map.mp hc
      simp [triRow]))
  have hlen : (tilePixels P.job T.tiles[t]).length = (tileGraph P.job T.tiles[t]).npoints := by
    simp [tilePixels, tileGraph, delaunayGraph]
  have htwo : 2 ≤ f.points.length := by
    obtain ⟨⟨la, lb⟩, hl0⟩ := List.exists_mem_of_ne_nil _ (hU.ready _ hmem).links
    have := (hU.ready _ hmem).contract.ordered la lb hl0
    rw [← filePoints_length, h3]
    omega
  refine ⟨f, h1, h2, h3, h4, h5, h6, h7, htwo, fun i s u hi => ?_⟩
  obtain ⟨c, hc1, hc2⟩ := h8 i s u hi
  obtain ⟨_, _, _, _, r5, _⟩ := tile_read hP.job (hin _ hmem)
  have hrange : ∀ p ∈ tilePixels P.job T.tiles[t], |φ u p - φ s p| ≤ 300 := by
    intro p hp
    obtain ⟨ht0, hv⟩ := (r5 p.1 p.2).mp hp
    refine hU.range s u (List.mem_of_getElem? hi) p ?_ hv
    have := hin _ hmem
    unfold TileInImage at this
    unfold InTile at ht0
    unfold PixelOf
    simp only at this ⊢
    omega
  have herr : (180 : ℚ) * (273 / 100000000 + 3 * (2 ^ 11 / 2 ^ 53)) + 600 / 2 ^ 24 + 1 / 500000 + 3 * (175 / 1000000000) +
      6 * (1 / 20000) ≤ 833 / 1000000 := by norm_num
  have hc1' : ∀ (n : Nat) p, (filePoints f)[n]? = some p → |filePhase f i n - (φ u p - φ s p + c * twoPi)| ≤ 833 / 1000000 := by
    intro n p hn
    have := hc1 n p (by rw [← h3]; exact hn)
    rw [hHq] at this
    exact this.trans herr
  obtain ⟨p0, hp0⟩ : ∃ p, (filePoints f)[0]? = some p := ⟨_, List.getElem?_eq_getElem (by rw [filePoints_length]; omega)⟩
  have hcb : |c| ≤ 48 := by
    have a1 := abs_le.mp (hc1' 0 p0 hp0)
    have a2 := abs_le.mp hc2
    have a3 := abs_le.mp (hrange p0 (by rw [← h3]; exact List.mem_of_getElem? hp0))
    have hv : (31416 / 10000 + 600 / 2 ^ 24 + 4 * (1 / 20000) : ℚ) ≤ 32 / 10 := by norm_num
    have hpos : (0 : ℚ) < twoPi := by norm_num [twoPi]
    have h49 : (304 : ℚ) < 49 * twoPi := by norm_num [twoPi]
    have b1 : (c : ℚ) * twoPi < (49 : ℤ) * twoPi := by push_cast; linarith [a1.1, a1.2, a2.1, a2.2, a3.1, a3.2]
    have b2 : ((-49 : ℤ) : ℚ) * twoPi < (c : ℚ) * twoPi := by push_cast; linarith [a1.1, a1.2, a2.1, a2.2, a3.1, a3.2]
    have b1' : c < 49 := by exact_mod_cast lt_of_mul_lt_mul_right b1 hpos.le
    have b2' : -49 < c := by exact_mod_cast lt_of_mul_lt_mul_right b2 hpos.le
    rw [abs_le]
    omega
  refine ⟨c, hcb, fun n p hn => ?_⟩
  have a1 := abs_le.mp (hc1' n p hn)
  have a3 := abs_le.mp (hrange p (by rw [← h3]; exact List.mem_of_getElem? hn))
  have hct : |(c : ℚ) * twoPi| ≤ 302 := by
    rw [abs_mul]
    have : |(c : ℚ)| ≤ 48 := by rw [← Int.cast_abs]; exact_mod_cast hcb
    calc |(c : ℚ)| * |twoPi| ≤ 48 * |twoPi| := mul_le_mul_of_nonneg_right this (abs_nonneg _)
      _ ≤ 302 := by norm_num [twoPi]
  have a4 := abs_le.mp hct
  have hr := (rounds_single 620).1 (filePhase f i n) (by rw [abs_le]; constructor <;> linarith)
  have a5 := abs_le.mp hr
  have h620 : (620 / 2 ^ 24 : ℚ) ≤ 37 / 1000000 := by norm_num
  show |flSingle _ - _| ≤ _
  rw [mul_comm twoPi, abs_le]
  constructor <;> linarith

/-- The triangulation of the points of a tile for the merge: at most `2 ^ 30` links between points of the tile, which
connect all of them, and a linear solver that answers the Dirichlet problems on it to a thousandth of a radian. -/
structure Spec.MergeGraphFl (P : Flow ℚ S) (b : BBox) : Prop where
  links : ∀ u v, (u, v) ∈ (delaunayGraph (tilePixels P.job b).length (P.simplices (tilePixels P.job b))).links →
    u < (tilePixels P.job b).length ∧ v < (tilePixels P.job b).length
  size : (delaunayGraph (tilePixels P.job b).length (P.simplices (tilePixels P.job b))).links.length ≤ 2 ^ 30
  conn : ∀ p < (tilePixels P.job b).length, ∀ q < (tilePixels P.job b).length, Relation.ReflTransGen
    (Adjacent (delaunayGraph (tilePixels P.job b).length (P.simplices (tilePixels P.job b))).links) p q
  cg : ∀ a : SqMat ℤ, graphLaplacian (delaunayGraph (tilePixels P.job b).length (P.simplices (tilePixels P.job b))).links = .ok a →
    CgWithin P.lin ⟨a.n, fun u v => (a.val u v : ℚ)⟩ (1 / 4) (1 / 1000)

theorem recovers_within {B η Bd ηd M δ β E γ X acc acc2 R : ℚ} {k Kc : ℤ} {H : Nat}
    (hA : MixedPrecision numpyArith B η Bd ηd (175 / 1000000000))
    (hcheck : CheckRoom (flDouble (1 / 100)) (flDouble (1 / 100000)) B η Bd ηd (175 / 1000000000) M (k : ℚ) δ)
    (hroom : MergeRoom numpyArith B η Bd ηd (175 / 1000000000) M (k : ℚ) δ β (1 / 1000) (1 / 4) E 4 (2 ^ 30))
    (hγ : 2 * γ + ηd ≤ β ∧ 2 * X ≤ Bd)
    (hacc : δ + 4 * η + (k : ℚ) * (175 / 1000000000) ≤ acc) (hacc2 : E + 3 * η ≤ acc2)
    (hKc : 0 ≤ Kc ∧ 2 * Kc ≤ k ∧ Kc ≤ 16383) (hMR : R + twoPi * Kc ≤ M) (P : Flow ℚ S) (hP : GoodFlow P) (himg : 0 < P.job.coh.rows ∧ 0 < P.job.coh.cols)
    (hifgs : P.job.time.links ≠ []) (hpool : 1 ≤ P.job.settings.numParallelTiles)
    (hset : P.merger.check = .ok ()) (hmin : 11 ≤ P.merger.minOverlapPoints)
    (T : TileSet) (hT : makeTiles P.sc P.fl P.useTiles P.tiler P.job.coh.cols P.mask = .ok T)
    (hls : P.merger.bulkMethod = "L2" → ConsistentLstsq P.lstsq T.tiles.length P.job.time.links.length γ X)
    (φ : Nat → ℤ × ℤ → ℚ) (hU : UnaliasedWithin H R P T φ) (hjoin : TilesJoined P T)
    (hfour : ∀ r q : ℤ, {t : Nat | ∃ b, T.tiles[t]? = some b ∧ InTile b r q}.ncard ≤ 4)
    (hcc : ∀ edges : List (Nat × Nat), (∀ e ∈ edges, e.1 < T.tiles.length ∧ e.2 < T.tiles.length) →
      ComponentLabels T.tiles.length edges (P.cc T.tiles.length edges))
    (hmipc : MipComplete P.mip) (hilu : ∀ a, P.lin.ilu a = true) (hgraph : ∀ b ∈ T.tiles, MergeGraphFl P b)
    (oT : Nat → Nat → List Nat → List Nat) (oS : Nat → List Nat → List Nat)
    (hone : ∀ (t : Nat) (ht : t < T.tiles.length), ∃ f, unwrapOneTileFl numpyArith P.solver P.job T t (oT t) (oS t) = .ok f ∧ f.tile = T.tiles[t] ∧
      filePoints f = tilePixels P.job T.tiles[t] ∧
      f.uw.length = P.job.time.links.length ∧ f.phaseOffset.length = P.job.time.links.length ∧
      (∀ row ∈ f.uw, row.length = f.points.length) ∧ f.points.Nodup ∧ 2 ≤ f.points.length ∧
      ∀ i s u, P.job.time.links[i]? = some (s, u) → ∃ c : ℤ, |c| ≤ Kc ∧
        ∀ n p, (filePoints f)[n]? = some p → |numpyArith.fs (filePhase f i n) - (φ u p - φ s p + twoPi * c)| ≤ δ) :
    ∃ r, workflowFl numpyArith (flDouble (1 / 100)) (flDouble (1 / 100000)) P oT oS = .ok (T, r) ∧
      (∀ l, r = .merged l → ∀ x ∈ l, ∀ a b v, x.2.model.val a b = some v → |v| ≤ M + acc2) ∧
      (rastersOf r).map Prod.fst = List.range P.job.time.links.length ∧
      ∀ i b, (i, b) ∈ rastersOf r → b.rows = P.job.coh.rows ∧ b.cols = P.job.coh.cols ∧
        ∀ s u, P.job.time.links[i]? = some (s, u) → ∃ c : ℤ, |c| ≤ Kc ∧ (∃ t f, t < T.tiles.length ∧
            LargestTile (tileCounts P.job.coh P.job.thr T) t ∧ unwrapOneTileFl numpyArith P.solver P.job T t (oT t) (oS t) = .ok f ∧
            ∀ n p, (filePoints f)[n]? = some p → |numpyArith.fs (filePhase f i n) - (φ u p - φ s p + twoPi * c)| ≤ δ) ∧
          ∀ r q : Nat, r < P.job.coh.rows → q < P.job.coh.cols →
          (ValidPixel P.job r q → ∃ v, b.val r q = some v ∧
            |v - ((φ u (r, q) - φ s (r, q)) + c * twoPi)| ≤ acc) ∧
          (¬ ValidPixel P.job r q → b.val r q = none) := by
  obtain ⟨hshape, hpos, hin⟩ := flow_tiles hP hT
  have hm : P.merger.method = "dirichlet" := by
    unfold MergerSettings.check at hset
    split at hset
    · simp at hset
    split at hset
    · simp at hset
    rename_i h2
    exact not_not.mp h2
  have hbm : P.merger.bulkMethod = "integer" ∨ P.merger.bulkMethod = "L2" := by
    unfold MergerSettings.check at hset
    split at hset
    · simp at hset
    rename_i h2
    rw [not_not] at h2
    simpa using h2
  have hfiles : ∀ t, ∃ f, ∀ ht : t < T.tiles.length, unwrapOneTileFl numpyArith P.solver P.job T t (oT t) (oS t) = .ok f ∧
      f.tile = T.tiles[t] ∧ filePoints f = tilePixels P.job T.tiles[t] ∧
      f.uw.length = P.job.time.links.length ∧ f.phaseOffset.length = P.job.time.links.length ∧
      (∀ row ∈ f.uw, row.length = f.points.length) ∧ f.points.Nodup ∧ 2 ≤ f.points.length ∧
      ∀ i s u, P.job.time.links[i]? = some (s, u) → ∃ c : ℤ, |c| ≤ Kc ∧
        ∀ n p, (filePoints f)[n]? = some p → |numpyArith.fs (filePhase f i n) - (φ u p - φ s p + twoPi * c)| ≤ δ := by
    intro t
    by_cases ht : t < T.tiles.length
    · obtain ⟨f, h⟩ := hone t ht
      exact ⟨f, fun _ => h⟩
    · exact ⟨⟨[], [], ⟨0, 0, 0, 0⟩, []⟩, fun h => absurd h ht⟩
  choose F hF using hfiles
  have hwork : (List.range T.tiles.length).mapM (fun t => unwrapOneTileFl numpyArith P.solver P.job T t (oT t) (oS t)) =
      .ok ((List.range T.tiles.length).map F) :=
    mapM_ok_of _ _ F fun t ht => (hF t (List.mem_range.mp ht)).1
  set files : Nat → Except PyErr (TileFile ℚ) := fun t => (((List.range T.tiles.length).map F)[t]?).elim (.error .indexError) Except.ok
    with hfl
  have hread : ∀ t < T.tiles.length, files t = .ok (F t) := fun t ht => by simp [hfl, ht]
  have hpts : ∀ t (ht : t < T.tiles.length), ∀ r c : ℤ, (r, c) ∈ filePoints (F t) ↔ InTile T.tiles[t] r c ∧ ValidPixel P.job r c := by
    intro t ht r c
    rw [(hF t ht).2.2.1]
    exact (tile_read hP.job (hin _ (List.getElem_mem ht))).2.2.2.2.1 r c
  have hf : TileFilesOk P.job.time.links.length T files F := by
    refine ⟨hread, ?_, fun t ht => (hF t ht).2.2.2.2.2.2.1, ?_, fun t ht => ⟨(hF t ht).2.2.2.1, (hF t ht).2.2.2.2.1⟩,
      fun t ht => (hF t ht).2.2.2.2.2.1⟩
    · intro t b hb
      obtain ⟨ht, rfl⟩ := List.getElem?_eq_some_iff.mp hb
      exact (hF t ht).2.1
    · rintro t ht ⟨r, c⟩ hp
      have h1 := ((hpts t ht r c).mp hp).1
      have h2 := hin _ (List.getElem_mem ht)
      rw [hshape]
      unfold TileInImage at h2
      unfold InTile at h1
      simp only at h2 ⊢
      omega
  have hcover : ∀ r q : Nat, r < P.job.coh.rows → q < P.job.coh.cols → ValidPixel P.job r q →
      ∃ t < T.tiles.length, ((r : ℤ), (q : ℤ)) ∈ filePoints (F t) := by
    obtain ⟨B, hB, h1, h2⟩ := hP.size
    obtain ⟨e1, e2⟩ := mask_shape P
    obtain ⟨_, _, _, _, hc⟩ := C30_make_tiles P.sc P.fl B hB P.useTiles P.tiler hP.tiler P.job.coh.cols P.mask e2
      ⟨by rw [e1]; exact h1, h2⟩ T hT
    intro r q hr hq hv
    obtain ⟨b, hb, hit⟩ := hc r q (by rw [hshape]; unfold PixelOf; simp only; omega)
    obtain ⟨t, ht, rfl⟩ := List.mem_iff_getElem.mp hb
    exact ⟨t, ht, (hpts t ht r q).mpr ⟨hit, hv⟩⟩
  have hpool' : processPool P.job.settings.numParallelTiles = .ok () := by
    unfold processPool
    rw [if_neg (by omega)]
  -- the cycles of the tiles
  have hcut : ∀ b t, ∃ c : ℤ, |c| ≤ Kc ∧ (t < T.tiles.length → ∀ s u, P.job.time.links[b]? = some (s, u) →
      ∀ (n : Nat) p, (filePoints (F t))[n]? = some p →
        |numpyArith.fs (filePhase (F t) b n) - (φ u p - φ s p + twoPi * c)| ≤ δ) := by
    intro b t
    by_cases ht : t < T.tiles.length
    swap; · exact ⟨0, by simpa using hKc.1, fun h => absurd h ht⟩
    rcases hb : P.job.time.links[b]? with _ | ⟨s', u'⟩
    · exact ⟨0, by simpa using hKc.1, fun _ s u h => by simp at h⟩
    obtain ⟨c, hc1, hc2⟩ := (hF t ht).2.2.2.2.2.2.2.2 b s' u' hb
    refine ⟨c, hc1, fun _ s u hsu n p hn => ?_⟩
    simp only [Option.some.injEq, Prod.mk.injEq] at hsu
    obtain ⟨rfl, rfl⟩ := hsu
    exact hc2 n p hn
  choose c hcs hcut using hcut
  set phi : Nat → ℤ × ℤ → ℚ := fun b p => φ (P.job.time.links.getD b (0, 0)).2 p - φ (P.job.time.links.getD b (0, 0)).1 p with hphi
  have hlink : ∀ b < P.job.time.links.length, P.job.time.links[b]? =
      some ((P.job.time.links.getD b (0, 0)).1, (P.job.time.links.getD b (0, 0)).2) := fun b hb => getElem?_of_getD hb
  have hnear : NearFields numpyArith δ P.job.time.links.length T.tiles.length F phi c :=
    fun b hb t ht n p hn => hcut b t ht _ _ (hlink b hb) n p hn
  have hgl : ∀ i s u, P.job.time.links[i]? = some (s, u) → P.job.time.links.getD i (0, 0) = (s, u) := by
    intro i s u hl
    rw [List.getD_eq_getElem?_getD, hl]; rfl
  -- it is enough to look at the merge
  have hflow : ∀ olap bulk r, phasediffDecilesFl numpyArith (flDouble (1 / 100)) (flDouble (1 / 100000)) id P.merger.minOverlapPoints
        P.cc T files = .ok olap →
      bulkOffsetsFl numpyArith.fd P.mip P.lstsq P.merger.bulkMethod T P.job.coh P.job.thr (olap.getD ⟨[], [], []⟩) = .ok bulk →
      mergeTilesFl numpyArith ⟨P.lin, P.simplices, olap.getD ⟨[], [], []⟩⟩ P.merger T files
        (bulk.getD ⟨P.merger.bulkMethod, [], []⟩) P.job.time.links.length (fun _ => false) = .ok r →
      workflowFl numpyArith (flDouble (1 / 100)) (flDouble (1 / 100000)) P oT oS = .ok (T, r) := by
    intro olap bulk r h1 h2 h3
    unfold workflowFl
    rw [hT]
    simp only [Bind.bind, Except.bind]
    rw [hpool']
    simp only []
    rw [hwork]
    simp only []
    rw [h1]
    simp only []
    rw [h2]
    simp only []
    rw [h3]
    rfl
  by_cases hn : T.tiles.length = 1
  · have hlarge0 : LargestTile (tileCounts P.job.coh P.job.thr T) 0 := by
      have hcl : (tileCounts P.job.coh P.job.thr T).length = 1 := by simp [tileCounts, hn]
      refine ⟨by omega, fun t ht => ?_⟩
      have : t = 0 := by omega
      subst this
      exact .inr ⟨rfl, le_rfl⟩
    obtain ⟨B, h1, h2⟩ := C70_single numpyArith ⟨P.lin, P.simplices, ⟨[], [], []⟩⟩ P.merger hm P.job.time.links.length T hn files F hf
      ⟨P.merger.bulkMethod, [], []⟩ (fun _ => false)
    refine ⟨_, hflow none none _ ?_ ?_ h1, by intro l hl; simp at hl, ?_, ?_⟩
    · unfold phasediffDecilesFl
      rw [if_pos hn]
    · unfold bulkOffsetsFl
      rw [if_pos hn]
    · simp [rastersOf, Function.comp_def]
    · intro i b hib
      simp only [rastersOf, List.mem_map, List.mem_filter, Bool.not_false, and_true, Prod.mk.injEq] at hib
      obtain ⟨i', hi', rfl, rfl⟩ := hib
      obtain ⟨g1, g2, g3⟩ := h2 i'
      rw [hshape] at g1 g2
      refine ⟨by simpa using g1, by simpa using g2, fun s u hl => ⟨c i' 0, hcs _ _, ⟨0, F 0, by omega, hlarge0, (hF 0 (by omega)).1, hcut i' 0 (by omega) s u hl⟩, fun r q hr hq => ⟨fun hv => ?_, fun hv => ?_⟩⟩⟩
      · obtain ⟨t, ht, hmem⟩ := hcover r q hr hq hv
        have ht0 : t = 0 := by omega
        subst ht0
        obtain ⟨n, hn'⟩ := List.getElem?_of_mem hmem
        refine ⟨_, (g3 r q).1 n hn', ?_⟩
        have := hcut i' 0 ht s u hl n _ hn'
        rw [mul_comm (c i' 0 : ℚ)]
        exact this.trans (by
          have h1 := hA.nonneg
          have h2 : (0 : ℚ) ≤ k := by exact_mod_cast (by omega : (0 : ℤ) ≤ k)
          linarith [h1.1])
      · exact (g3 r q).2 fun hmem => hv ((hpts 0 (by omega) r q).mp hmem).2
  · have hshared : ∀ a b, a < T.tiles.length → b < T.tiles.length → (sharedPixels P.job T a b).ncard =
        ((filePoints (F a)).toFinset ∩ (filePoints (F b)).toFinset).card := by
      intro a b ha hb
      rw [← Set.ncard_coe_finset]
      congr 1
      ext ⟨r, q⟩
      simp only [Finset.coe_inter, List.coe_toFinset, Set.mem_inter_iff, Set.mem_setOf_eq, hpts a ha, hpts b hb, sharedPixels]
      constructor
      · rintro ⟨hv, ba, bb, h1, h2, h3, h4⟩
        obtain ⟨_, rfl⟩ := List.getElem?_eq_some_iff.mp h1
        obtain ⟨_, rfl⟩ := List.getElem?_eq_some_iff.mp h2
        exact ⟨⟨h3, hv⟩, h4, hv⟩
      · rintro ⟨⟨h1, hv⟩, h2, _⟩
        exact ⟨hv, _, _, List.getElem?_eq_getElem ha, List.getElem?_eq_getElem hb, h1, h2⟩
    have hbig : ∀ a b, a < b → (sharedPixels P.job T a b).Nonempty →
        P.merger.minOverlapPoints ≤ (sharedPixels P.job T a b).ncard → BigOverlap T F P.merger.minOverlapPoints a b := by
      rintro a b hab ⟨⟨r, q⟩, _, ba, bb, e1, e2, e3, e4⟩ hle
      have ha := (List.getElem?_eq_some_iff.mp e1).1
      have hb := (List.getElem?_eq_some_iff.mp e2).1
      rw [hshared a b ha hb] at hle
      exact ⟨C25_shared_pixel T a b ba bb r q hab e1 e2 e3 e4, hle⟩
    have hconn : ∀ t < T.tiles.length, Relation.ReflTransGen
        (fun i j => BigOverlap T F P.merger.minOverlapPoints i j ∨ BigOverlap T F P.merger.minOverlapPoints j i) 0 t := by
      intro t ht
      refine Relation.ReflTransGen.trans_induction_on (hjoin t ht) (fun _ => .refl) ?_ (fun _ _ a b => a.trans b)
      rintro a b ⟨hne, hle⟩
      rcases lt_trichotomy a b with hab | hab | hab
      · exact .single (.inl (hbig a b hab hne hle))
      · subst hab; exact .refl
      · rw [sharedPixels_comm] at hne hle
        exact .single (.inr (hbig b a hab hne hle))
    have hpix : ∀ t (ht : t < T.tiles.length), (F t).points.length = (tilePixels P.job T.tiles[t]).length := by
      intro t ht
      rw [← (hF t ht).2.2.1, filePoints_length]
    have hMb : ∀ b < P.job.time.links.length, ∀ t < T.tiles.length, ∀ pix ∈ filePoints (F t), ∀ t' < T.tiles.length,
        |phi b pix + twoPi * c b t'| ≤ M := by
      rintro b hb t ht ⟨r, q⟩ hp t' ht'
      have h1 := (hpts t ht r q).mp hp
      have h2 := hU.range _ _ (List.mem_of_getElem? (hlink b hb)) (r, q) (by
        have h3 := hin _ (List.getElem_mem ht)
        have h4 := h1.1
        unfold TileInImage at h3
        unfold InTile at h4
        unfold PixelOf
        simp only at h3 ⊢
        omega) h1.2
      have h5 : |twoPi * (c b t' : ℚ)| ≤ twoPi * Kc := by
        have hpos : (0 : ℚ) < twoPi := by norm_num [twoPi]
        rw [abs_mul, abs_of_pos hpos]
        have : |(c b t' : ℚ)| ≤ Kc := by rw [← Int.cast_abs]; exact_mod_cast hcs b t'
        exact mul_le_mul_of_nonneg_left this hpos.le
      have a1 := abs_le.mp h2
      have a2 := abs_le.mp h5
      simp only [hphi]
      rw [abs_le]
      constructor <;> linarith
    obtain ⟨olap, k1, bulk, k2, _, out, k3, k4, ref, k5, k7, k6⟩ := merge_numpy hA hcheck hroom hacc hacc2 P.merger.minOverlapPoints hmin P.cc P.job.time.links.length
      (List.length_pos_of_ne_nil hifgs) T (by omega) (by rw [hshape]; simp only; omega) files F hf
      (fun t ht => (hF t ht).2.2.2.2.2.2.2.1) (by
        rintro ⟨r, q⟩
        refine le_trans ?_ (hfour r q)
        unfold covering
        have hnd : ((List.range T.tiles.length).filter fun j => decide ((r, q) ∈ filePoints (F j))).Nodup :=
          List.nodup_range.filter _
        rw [← List.toFinset_card_of_nodup hnd, ← Set.ncard_coe_finset]
        refine Set.ncard_le_ncard ?_ ?_
        · intro t ht
          simp only [List.coe_toFinset, List.mem_filter, List.mem_range, decide_eq_true_eq, Set.mem_setOf_eq] at ht
          exact ⟨_, List.getElem?_eq_getElem ht.1, ((hpts t ht.1 r q).mp ht.2).1⟩
        · refine (Set.finite_lt_nat T.tiles.length).subset ?_
          rintro t ⟨b, hb, _⟩
          exact (List.getElem?_eq_some_iff.mp hb).1) phi c hnear hMb (by
        intro b i j
        have a1 := abs_le.mp (hcs b i)
        have a2 := abs_le.mp (hcs b j)
        rw [abs_le]
        omega) (fun b i => (hcs b i).trans hKc.2.2) hcc hconn P.mip hP.mip hmipc P.lstsq P.merger hbm
        (fun h => ⟨hls h, hγ⟩) hm P.lin hilu P.simplices (by
        intro olap
        refine ⟨fun t ht u v h => ?_, fun t ht => ?_, fun t ht p hp q hq => ?_, fun t ht a ha => ?_⟩
        · rw [hpix t ht]
          simp only [(hF t ht).2.2.1] at h
          exact (hgraph _ (List.getElem_mem ht)).links u v h
        · simp only [(hF t ht).2.2.1]
          exact (hgraph _ (List.getElem_mem ht)).size
        · rw [hpix t ht] at hp hq
          simp only [(hF t ht).2.2.1]
          exact (hgraph _ (List.getElem_mem ht)).conn p hp q hq
        · simp only [(hF t ht).2.2.1] at ha
          exact (hgraph _ (List.getElem_mem ht)).cg a ha) P.job.coh P.job.thr (fun _ => false)
    refine ⟨.merged out, hflow (some olap) (some bulk) _ k1 k2 k3, ?_, ?_, ?_⟩
    · rintro l hl ⟨i', m⟩ hx a b v hv
      rw [← MergeResult.merged.inj hl] at hx
      have hi' : i' < P.job.time.links.length := by
        have : i' ∈ out.map Prod.fst := List.mem_map.mpr ⟨_, hx, rfl⟩
        rw [k4] at this
        simpa using this
      by_cases hcv : ∃ t < T.tiles.length, ((a : ℤ), (b : ℤ)) ∈ filePoints (F t)
      · obtain ⟨_, w, w1, w2⟩ := (k6 i' m hx a b).1 hcv
        obtain ⟨t, ht, hp⟩ := hcv
        rw [w1, Option.some.injEq] at hv
        subst hv
        have a1 := abs_le.mp w2
        have a2 := abs_le.mp (hMb i' hi' t ht _ hp ref k5)
        rw [abs_le]; constructor <;> linarith
      · rw [((k6 i' m hx a b).2 fun t ht hp => hcv ⟨t, ht, hp⟩).2] at hv
        simp at hv
    · simp only [rastersOf, List.map_map]
      rw [show (Prod.fst ∘ fun x : Nat × MergedBand ℚ => (x.1, x.2.out)) = Prod.fst from rfl, k4]
      simp
    · intro i b hib
      have hsz := (C70_size k3).1 _ hib
      rw [hshape] at hsz
      simp only [rastersOf, List.mem_map, Prod.mk.injEq] at hib
      obtain ⟨⟨i', m⟩, hm', rfl, rfl⟩ := hib
      refine ⟨by simpa using hsz.1, by simpa using hsz.2, fun s u hl => ⟨c i' ref, hcs _ _, ⟨ref, F ref, k5, k7, (hF ref k5).1, hcut i' ref k5 s u hl⟩, fun r q hr hq => ⟨fun hv => ?_, fun hv => ?_⟩⟩⟩
      · obtain ⟨⟨v, v1, v2⟩, _⟩ := (k6 i' m hm' r q).1 (hcover r q hr hq hv)
        refine ⟨v, v1, ?_⟩
        simp only [hphi, hgl _ _ _ hl] at v2
        rw [mul_comm (c i' ref : ℚ)]
        exact v2
      · exact ((k6 i' m hm' r q).2 fun t ht hmem => hv ((hpts t ht r q).mp hmem).2).1

theorem recovers_core (P : Flow ℚ S) (hP : GoodFlow P) (himg : 0 < P.job.coh.rows ∧ 0 < P.job.coh.cols)
    (hifgs : P.job.time.links ≠ []) (hpool : 1 ≤ P.job.settings.numParallelTiles)
    (hset : P.merger.check = .ok ()) (hmin : 11 ≤ P.merger.minOverlapPoints)
    (T : TileSet) (hT : makeTiles P.sc P.fl P.useTiles P.tiler P.job.coh.cols P.mask = .ok T)
    (hls : P.merger.bulkMethod = "L2" → ConsistentLstsq P.lstsq T.tiles.length P.job.time.links.length (1 / 200000) (2 ^ 29))
    (φ : Nat → ℤ × ℤ → ℚ) (hU : UnaliasedFl P T φ) (hjoin : TilesJoined P T)
    (hfour : ∀ r q : ℤ, {t : Nat | ∃ b, T.tiles[t]? = some b ∧ InTile b r q}.ncard ≤ 4)
    (hcc : ∀ edges : List (Nat × Nat), (∀ e ∈ edges, e.1 < T.tiles.length ∧ e.2 < T.tiles.length) →
      ComponentLabels T.tiles.length edges (P.cc T.tiles.length edges))
    (hmipc : MipComplete P.mip) (hilu : ∀ a, P.lin.ilu a = true) (hgraph : ∀ b ∈ T.tiles, MergeGraphFl P b)
    (oT : Nat → Nat → List Nat → List Nat) (oS : Nat → List Nat → List Nat)
    (hoT : ∀ t k l, (oT t k l).Perm l) (hoS : ∀ t l, (oS t l).Perm l) :
    ∃ r, workflowFl numpyArith (flDouble (1 / 100)) (flDouble (1 / 100000)) P oT oS = .ok (T, r) ∧
      (∀ l, r = .merged l → ∀ x ∈ l, ∀ a b v, x.2.model.val a b = some v → |v| ≤ 1001) ∧
      (rastersOf r).map Prod.fst = List.range P.job.time.links.length ∧
      ∀ i b, (i, b) ∈ rastersOf r → b.rows = P.job.coh.rows ∧ b.cols = P.job.coh.cols ∧
        ∀ s u, P.job.time.links[i]? = some (s, u) → ∃ c : ℤ, ∀ r q : Nat, r < P.job.coh.rows → q < P.job.coh.cols →
          (ValidPixel P.job r q → ∃ v, b.val r q = some v ∧
            |v - ((φ u (r, q) - φ s (r, q)) + c * twoPi)| ≤ 1 / 500) ∧
          (¬ ValidPixel P.job r q → b.val r q = none) := by
  obtain ⟨_, _, hin⟩ := flow_tiles hP hT
  have hq : ((100 : ℤ) : ℚ) = 100 := by norm_num
  obtain ⟨r, h1, h2, h3⟩ := recovers_within (k := 100) (Kc := 48) (M := 1000) (δ := 1 / 1000) (acc := 1 / 500) (acc2 := 1) (γ := 1 / 200000)
    (X := 2 ^ 29) numpy_mixed
    (by rw [hq]; exact numpy_check) (by rw [hq]; exact numpy_room) (by norm_num) (by norm_num) (by norm_num) (by norm_num) (by norm_num [twoPi])
    P hP himg hifgs hpool hset hmin T hT hls φ hU hjoin hfour hcc hmipc hilu hgraph oT oS
    (fun t ht => unaliasedFl_files hP hin hU oT oS hoT hoS t ht)
  refine ⟨r, h1, fun l hl x hx a b v hv => (h2 l hl x hx a b v hv).trans (by norm_num), h3.1, fun i b hib => ?_⟩
  obtain ⟨g1, g2, g3⟩ := h3.2 i b hib
  exact ⟨g1, g2, fun s u hl => (g3 s u hl).imp fun c hc => hc.2.2⟩

/-- C71. The whole workflow in numpy's numbers: `float32` phases, tiles, corrections and rasters, `float64` in the flood fill, the
overlap check and the solvers. If the true phase of the stack is unaliased on every tile, the overlaps join the tiles, no pixel
is in more than four tiles, and the libraries answer, then the run completes, whatever the flow solver answers and however the
workers are scheduled. It writes one raster per interferogram, of the size of the image; every pixel of sufficient coherence
has the true interferogram plus one common number of cycles to within a five-hundredth of a radian, every other pixel no value. -/
theorem C71_recovers (P : Flow ℚ S) (hP : GoodFlow P) (himg : 0 < P.job.coh.rows ∧ 0 < P.job.coh.cols)
    (hifgs : P.job.time.links ≠ []) (hpool : 1 ≤ P.job.settings.numParallelTiles)
    (hset : P.merger.check = .ok ()) (hmin : 11 ≤ P.merger.minOverlapPoints)
    (T : TileSet) (hT : makeTiles P.sc P.fl P.useTiles P.tiler P.job.coh.cols P.mask = .ok T)
    (hls : P.merger.bulkMethod = "L2" → ConsistentLstsq P.lstsq T.tiles.length P.job.time.links.length (1 / 200000) (2 ^ 29))
    (φ : Nat → ℤ × ℤ → ℚ) (hU : UnaliasedFl P T φ) (hjoin : TilesJoined P T)
    (hfour : ∀ r q : ℤ, {t : Nat | ∃ b, T.tiles[t]? = some b ∧ InTile b r q}.ncard ≤ 4)
    (hcc : ∀ edges : List (Nat × Nat), (∀ e ∈ edges, e.1 < T.tiles.length ∧ e.2 < T.tiles.length) →
      ComponentLabels T.tiles.length edges (P.cc T.tiles.length edges))
    (hmipc : MipComplete P.mip) (hilu : ∀ a, P.lin.ilu a = true) (hgraph : ∀ b ∈ T.tiles, MergeGraphFl P b)
    (oT : Nat → Nat → List Nat → List Nat) (oS : Nat → List Nat → List Nat)
    (hoT : ∀ t k l, (oT t k l).Perm l) (hoS : ∀ t l, (oS t l).Perm l) :
    ∃ r, workflowFl numpyArith (flDouble (1 / 100)) (flDouble (1 / 100000)) P oT oS = .ok (T, r) ∧
      (rastersOf r).map Prod.fst = List.range P.job.time.links.length ∧
      ∀ i b, (i, b) ∈ rastersOf r → b.rows = P.job.coh.rows ∧ b.cols = P.job.coh.cols ∧
        ∀ s u, P.job.time.links[i]? = some (s, u) → ∃ c : ℤ, ∀ r q : Nat, r < P.job.coh.rows → q < P.job.coh.cols →
          (ValidPixel P.job r q → ∃ v, b.val r q = some v ∧
            |v - ((φ u (r, q) - φ s (r, q)) + c * twoPi)| ≤ 1 / 500) ∧
          (¬ ValidPixel P.job r q → b.val r q = none) := by
  obtain ⟨r, h1, _, h2⟩ := recovers_core P hP himg hifgs hpool hset hmin T hT hls φ hU hjoin hfour hcc hmipc hilu hgraph oT oS hoT hoS
  exact ⟨r, h1, h2⟩

end
end Spurt
