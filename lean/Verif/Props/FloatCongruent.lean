import Verif.Props.FloatMerge
import Mathlib.Tactic.Ring
import Mathlib.Tactic.FieldSimp

/-! # C70: congruence of the merged rasters in mixed precision -/

namespace Spurt
open Spec

section
variable {K : Type} [Field K] [LinearOrder K] [IsStrictOrderedRing K] [FloorRing K]

/-- A tile value wrapped around any model value. -/
theorem wrapAround_congruent {A : FloatArith K} {B η : K} (hfs : Rounds A.fs B η) (hη : 0 ≤ η) (hη4 : η ≤ 1 / 4) (hτ : 1 ≤ A.tauS)
    {m x M : K} (hm : |m| ≤ M) (hx : |x| ≤ M) (hB : 3 * M + A.tauS + 4 * η ≤ B) :
    ∃ z : ℤ, |wrapAround A m x - (x - A.tauS * (z : K))| ≤ 4 * η ∧ |(z : K)| ≤ 2 * M + 1 ∧
      |wrapAround A m x - m| ≤ A.tauS / 2 + (A.tauS + 5) * η := by
  have hτ0 : 0 < A.tauS := by linarith
  have hM : 0 ≤ M := (abs_nonneg _).trans hm
  have hxm : |x - m| ≤ 2 * M := (abs_sub _ _).trans (by linarith)
  have hdx := hfs.close (x - m) (by linarith)
  unfold wrapAround
  simp only
  set d := A.fs (x - m) with hd
  have hdB : |d| ≤ 2 * M + η := by
    have := abs_add_le (d - (x - m)) (x - m)
    rw [sub_add_cancel] at this
    linarith
  have hqB : |d / A.tauS| ≤ 2 * M + η := by
    rw [abs_div, abs_of_pos hτ0]
    exact (div_le_self (abs_nonneg _) hτ).trans hdB
  have hq := hfs.close (d / A.tauS) (by linarith)
  set z := rint (A.fs (d / A.tauS)) with hz
  have hzr : |(z : K) - d / A.tauS| ≤ 1 / 2 + η := by
    have h1 := rint_abs (A.fs (d / A.tauS))
    have : (z : K) - d / A.tauS = -(A.fs (d / A.tauS) - z) + (A.fs (d / A.tauS) - d / A.tauS) := by ring
    rw [this]
    refine (abs_add_le _ _).trans ?_
    rw [abs_neg]
    linarith
  have hzB : |(z : K)| ≤ 2 * M + 1 := by
    have := abs_add_le ((z : K) - d / A.tauS) (d / A.tauS)
    rw [sub_add_cancel] at this
    linarith
  have hdz : |A.tauS * (z : K) - d| ≤ A.tauS / 2 + A.tauS * η := by
    have e : A.tauS * (z : K) - d = A.tauS * ((z : K) - d / A.tauS) := by field_simp
    rw [e, abs_mul, abs_of_pos hτ0]
    calc A.tauS * |(z : K) - d / A.tauS| ≤ A.tauS * (1 / 2 + η) := mul_le_mul_of_nonneg_left hzr hτ0.le
      _ = A.tauS / 2 + A.tauS * η := by ring
  have hτη : A.tauS * η ≤ A.tauS * (1 / 4) := mul_le_mul_of_nonneg_left hη4 hτ0.le
  have hτzB : |A.tauS * (z : K)| ≤ 2 * M + η + A.tauS := by
    have := abs_add_le (A.tauS * (z : K) - d) d
    rw [sub_add_cancel] at this
    linarith
  have hs1 : |(m + d) - x| ≤ η := by
    have : (m + d) - x = d - (x - m) := by ring
    rw [this]; exact hdx
  have hsB : |m + d| ≤ M + η := by
    have := abs_add_le ((m + d) - x) x
    rw [sub_add_cancel] at this
    linarith
  have hs2 := fs_near hfs hs1 (by linarith)
  have ht := hfs.close (A.tauS * (z : K)) (by linarith)
  have hfin : |A.fs (m + d) - A.fs (A.tauS * (z : K)) - (x - A.tauS * (z : K))| ≤ 3 * η := by
    have : A.fs (m + d) - A.fs (A.tauS * (z : K)) - (x - A.tauS * (z : K)) =
        (A.fs (m + d) - x) - (A.fs (A.tauS * (z : K)) - A.tauS * (z : K)) := by ring
    rw [this]
    exact (abs_sub _ _).trans (by linarith)
  have hlast := fs_near hfs hfin (by
    have h1 := hfs.close (m + d) (by linarith)
    have e : A.fs (m + d) - A.fs (A.tauS * (z : K)) =
        (A.fs (m + d) - (m + d)) + (m + d) - (A.fs (A.tauS * (z : K)) - A.tauS * (z : K)) - A.tauS * (z : K) := by ring
    have a1 := abs_le.mp h1
    have a2 := abs_le.mp hsB
    have a3 := abs_le.mp ht
    have a4 := abs_le.mp hτzB
    rw [e, abs_le]
    constructor <;> linarith)
  refine ⟨z, by linarith, hzB, ?_⟩
  have a1 := abs_le.mp hlast
  have a2 := abs_le.mp hdz
  have a3 := abs_le.mp hdx
  rw [abs_le]
  constructor <;> nlinarith

/-- C70. Merging in mixed precision, whatever the tiles, bulk offsets and adjustments are. If the tile files agree with a
field `psi` up to whole cycles and `δ`, so does every covered pixel of the merged raster, up to `δ + 4η + (2M + 1)ε`, and it
lies within half a cycle of the model raster, up to roundings. `M` bounds the values of the tiles and of the model raster at
the pixel. -/
theorem C70_congruent (A : FloatArith K) (B η Bd ηd ε : K) (hA : MixedPrecision A B η Bd ηd ε) (hη : η ≤ 1 / 4)
    (atol rtol M δ : K) (hroom : 3 * M + A.tauS + 4 * η ≤ B) (minPoints : ℤ)
    (cc : Nat → List (Nat × Nat) → List Nat) (nifgs : Nat) (hifgs : 1 ≤ nifgs) (tiles : TileSet)
    (htwo : 2 ≤ tiles.tiles.length) (himg : 0 < tiles.shape.1 ∧ 0 < tiles.shape.2)
    (files : Nat → Except PyErr (TileFile K)) (F : Nat → TileFile K) (hf : TileFilesOk nifgs tiles files F) (env : MergeEnv K)
    (hover : phasediffDecilesFl A atol rtol id minPoints cc tiles files = .ok (some env.overlap))
    (hlab : env.overlap.labels.length = tiles.tiles.length) (bulk : BulkFile K)
    (hbulk : BulkOk nifgs tiles.tiles.length bulk)
    (settings : MergerSettings) (hmethod : settings.method = "dirichlet") (hbm : bulk.method = settings.bulkMethod)
    (isFile : Nat → Bool) (out : List (Nat × MergedBand K))
    (hm : mergeTilesFl A env settings tiles files bulk nifgs isFile = .ok (.merged out)) (b : Nat) (m : MergedBand K)
    (hb : (b, m) ∈ out) (psi : ℤ × ℤ → K) (r q : Nat)
    (hpsi : ∀ i < tiles.tiles.length, ∀ (p : Nat), (filePoints (F i))[p]? = some ((r : ℤ), (q : ℤ)) →
      |A.fs (filePhase (F i) b p)| ≤ M ∧ ∃ k : ℤ, |A.fs (filePhase (F i) b p) - (psi (r, q) + k * A.tau)| ≤ δ)
    (hmodel : ∀ v, m.model.val r q = some v → |v| ≤ M)
    (hcov : ∃ i < tiles.tiles.length, ((r : ℤ), (q : ℤ)) ∈ filePoints (F i)) :
    ∃ v mean, m.out.val r q = some v ∧ m.model.val r q = some mean ∧
      |v - mean| ≤ A.tauS / 2 + (A.tauS + 5) * η ∧
      ∃ k : ℤ, |v - (psi (r, q) + k * A.tau)| ≤ δ + 4 * η + (2 * M + 1) * ε := by
  obtain ⟨omap, h1, h2, _⟩ := ready_float hifgs htwo hf hover hlab hbulk
  obtain ⟨d, hd⟩ := getMaxDegree_ok (shape := imageShape tiles) (n := tiles.tiles.length) (F := F) (by
    simp only [imageShape]
    omega) h2.inside
  obtain ⟨k1, k2⟩ := mergeTilesFl_eq (A := A) hifgs htwo hf.read hmethod hbm h1 h2 hd isFile
  by_cases hc : adjustOk env tiles.tiles.length F omap d ∨ missing nifgs isFile = []
  · rw [k1 hc, Except.ok.injEq, MergeResult.merged.injEq] at hm
    subst hm
    obtain ⟨b', hb', e⟩ := List.mem_map.mp hb
    simp only [Prod.mk.injEq] at e
    obtain ⟨rfl, rfl⟩ := e
    obtain ⟨m, hm⟩ := bandRasterFl_ok (A := A) h2.inside b' (finalCorrFl A env F omap d bulk.offsets b')
    have hfin : finalRasterFl A env (imageShape tiles) tiles.tiles.length F omap d bulk.offsets b' = m := by
      unfold finalRasterFl; rw [hm]
    rw [hfin] at hmodel ⊢
    obtain ⟨mean, _, e1, j, hj, hpj, e2⟩ := (bandRasterFl_at h2.inside h2.map.once hm r q).2.1 hcov
    have hpl := List.idxOf_lt_length_iff.mpr hpj
    obtain ⟨hxM, k, hk⟩ := hpsi j hj _ (by rw [List.getElem?_eq_getElem hpl, List.getElem_idxOf hpl])
    obtain ⟨z, z1, z2, z3⟩ := wrapAround_congruent hA.single hA.nonneg.1 hη hA.one_le.1 (hmodel mean e1) hxM hroom
    refine ⟨_, mean, e2, e1, z3, k - z, ?_⟩
    have hzε : |(A.tau - A.tauS) * (z : K)| ≤ (2 * M + 1) * ε := by
      rw [abs_mul, mul_comm]
      exact mul_le_mul z2 hA.close (abs_nonneg _) ((abs_nonneg _).trans z2)
    have a1 := abs_le.mp z1
    have a2 := abs_le.mp hk
    have a3 := abs_le.mp hzε
    rw [abs_le]
    push_cast
    constructor <;> linarith
  · obtain ⟨e, he⟩ := k2 hc
    rw [he] at hm
    simp at hm

end

end Spurt
