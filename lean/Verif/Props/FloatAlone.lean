import Verif.Lemmas.FloatAloneBulk
import Verif.Lemmas.FloatBulkFile
import Verif.Props.Interior

/-!
# Properties C85 and C86 in mixed precision
-/

namespace Spurt
open Spec

section
variable {K : Type} [Field K] [LinearOrder K] [FloorRing K] [IsStrictOrderedRing K]

omit [FloorRing K] [IsStrictOrderedRing K] [LinearOrder K] in
theorem sharedBands_of_same {n : Nat} {F F' : Nat → TileFile K} {b b' : Nat} (hs : ∀ i < n, SameBand (F i) (F' i) b b') :
    SharedBands n F F' b b' ∧ ∀ i < n, ∀ pix ∈ filePoints (F i), phaseAtPixel (F' i) b' pix = phaseAtPixel (F i) b pix := by
  have h : ∀ i < n, ∀ pix ∈ filePoints (F i), phaseAtPixel (F' i) b' pix = phaseAtPixel (F i) b pix := by
    intro i hi pix hp
    unfold phaseAtPixel
    rw [(hs i hi).points]
    apply (hs i hi).phase
    rw [← filePoints_length]
    exact List.idxOf_lt_length_iff.mpr hp
  exact ⟨⟨fun i hi => (hs i hi).points, fun i hi j hj hij pix h1 h2 => h i hi pix h1⟩, h⟩

/-- C85, bulk offsets of the integer method from the overlap statistics of `float32` tiles: an interferogram
gets the same bulk offsets and the same residual whatever the other interferograms are. -/
theorem C85_bulk_float {C : Type} [LinearOrder C] (A : FloatArith K) (atol rtol : K) (minPoints : ℤ)
    (cc : Nat → List (Nat × Nat) → List Nat) (nifgs nifgs' : Nat) (tiles : TileSet) (htwo : 2 ≤ tiles.tiles.length)
    (files files' : Nat → Except PyErr (TileFile K)) (F F' : Nat → TileFile K) (olap olap' : OverlapFile)
    (hf : TileFilesOk nifgs tiles files F) (hf' : TileFilesOk nifgs' tiles files' F')
    (h : phasediffDecilesFl A atol rtol id minPoints cc tiles files = .ok (some olap))
    (h' : phasediffDecilesFl A atol rtol id minPoints cc tiles files' = .ok (some olap'))
    (b b' : Nat) (hb : b < nifgs) (hb' : b' < nifgs')
    (hs : ∀ i < tiles.tiles.length, SameBand (F i) (F' i) b b') (mip : MipSolver) (lstsq : Lstsq K)
    (coh : Band (Option C)) (thr : C) (bulk bulk' : BulkFile K)
    (hbulk : bulkOffsetsFl A.fd mip lstsq "integer" tiles coh thr olap = .ok (some bulk))
    (hbulk' : bulkOffsetsFl A.fd mip lstsq "integer" tiles coh thr olap' = .ok (some bulk')) :
    ∃ row res, bulk.offsets[b]? = some row ∧ bulk'.offsets[b']? = some row ∧
      bulk.residuals[b]? = some res ∧ bulk'.residuals[b']? = some res := by
  have hn1 : tiles.tiles.length ≠ 1 := by omega
  have hex : ∀ o : OverlapFile, bulkOffsetsFl A.fd mip lstsq "integer" tiles coh thr o =
      bulkOffsets mip lstsq "integer" tiles coh thr o := by
    intro o
    unfold bulkOffsetsFl bulkOffsets
    simp only [if_true]
  rw [hex] at hbulk hbulk'
  obtain ⟨med, hm, hne⟩ := bulk_medians hn1 hbulk
  obtain ⟨med', hm', hne'⟩ := bulk_medians hn1 hbulk'
  obtain ⟨ho, hlab, l1, l2, hr, hr', hk⟩ := median_sameFl hn1 hf hf' hb hb' (sharedBands_of_same hs).1 h h' hm hm'
  exact integer_same hn1 ho hlab hm hne hr hm' hne' hr' hb hb' (med_column l1 l2 hk) hbulk hbulk'

/-- C85, merge in mixed precision, whatever the roundings are: two sets of tile files over the same tiles may hold
different numbers of interferograms. If interferogram `b` of the first set is interferogram `b'` of the second and has
the same bulk offsets, the three rasters written for it are the same, to the bit. -/
theorem C85_merge_float (A : FloatArith K) (atol rtol : K) (minPoints : ℤ) (cc : Nat → List (Nat × Nat) → List Nat)
    (nifgs nifgs' : Nat) (hifgs : 1 ≤ nifgs) (hifgs' : 1 ≤ nifgs') (tiles : TileSet) (htwo : 2 ≤ tiles.tiles.length)
    (himg : 0 < tiles.shape.1 ∧ 0 < tiles.shape.2)
    (files files' : Nat → Except PyErr (TileFile K)) (F F' : Nat → TileFile K)
    (hf : TileFilesOk nifgs tiles files F) (hf' : TileFilesOk nifgs' tiles files' F') (env env' : MergeEnv K)
    (hlin : env'.lin = env.lin) (hsim : env'.simplices = env.simplices)
    (hover : phasediffDecilesFl A atol rtol id minPoints cc tiles files = .ok (some env.overlap))
    (hover' : phasediffDecilesFl A atol rtol id minPoints cc tiles files' = .ok (some env'.overlap))
    (hlab : env.overlap.labels.length = tiles.tiles.length) (bulk bulk' : BulkFile K)
    (hbulk : BulkOk nifgs tiles.tiles.length bulk) (hbulk' : BulkOk nifgs' tiles.tiles.length bulk')
    (settings settings' : MergerSettings) (hmethod : settings.method = "dirichlet") (hmethod' : settings'.method = "dirichlet")
    (hbm : bulk.method = settings.bulkMethod) (hbm' : bulk'.method = settings'.bulkMethod) (b b' : Nat)
    (hs : ∀ i < tiles.tiles.length, SameBand (F i) (F' i) b b') (hrow : bulk'.offsets.getD b' [] = bulk.offsets.getD b [])
    (isFile isFile' : Nat → Bool) (out out' : List (Nat × MergedBand K))
    (hm : mergeTilesFl A env settings tiles files bulk nifgs isFile = .ok (.merged out))
    (hm' : mergeTilesFl A env' settings' tiles files' bulk' nifgs' isFile' = .ok (.merged out'))
    (m m' : MergedBand K) (hb : (b, m) ∈ out) (hb' : (b', m') ∈ out') : m' = m := by
  obtain ⟨hsh, hph⟩ := sharedBands_of_same hs
  obtain ⟨h1, h2, h3, h4, h5, h6, h7⟩ := mergeFl_shared hifgs hifgs' htwo himg hf hf' hlin hsim hover hover' hlab hbulk hbulk' hmethod hmethod'
    hbm hbm' hsh hrow hm hm' hb hb'
  obtain ⟨⟨r1, c1, v1⟩, ⟨r2, c2, v2⟩, ⟨r3, c3, v3⟩⟩ := m
  obtain ⟨⟨r1', c1', v1'⟩, ⟨r2', c2', v2'⟩, ⟨r3', c3', v3'⟩⟩ := m'
  have h1 := fun r q => h1 r q fun i hi hp => hph i hi _ hp
  simp only at h1 h2 h3 h4 h5 h6 h7
  obtain rfl : v1' = v1 := by funext r q; exact (h1 r q).1
  obtain rfl : v2' = v2 := by funext r q; exact (h1 r q).2.1
  obtain rfl : v3' = v3 := by funext r q; exact (h1 r q).2.2
  subst h2 h3 h4 h5 h6 h7
  rfl

/-- C86, overlaps and bulk offsets in mixed precision: two sets of tile files that hold the same phases wherever tiles
share pixels have the same overlap statistics, or stop with the same error; hence the same bulk offsets, of either method. -/
theorem C86_overlap_float (A : FloatArith K) (atol rtol : K) (minPoints : ℤ)
    (cc : Nat → List (Nat × Nat) → List Nat) (nifgs : Nat) (hifgs : 1 ≤ nifgs) (tiles : TileSet)
    (files files' : Nat → Except PyErr (TileFile K)) (F F' : Nat → TileFile K)
    (hf : TileFilesOk nifgs tiles files F) (hf' : TileFilesOk nifgs tiles files' F')
    (hs : ∀ b < nifgs, SameShared tiles.tiles.length F F' b) :
    phasediffDecilesFl A atol rtol id minPoints cc tiles files' = phasediffDecilesFl A atol rtol id minPoints cc tiles files := by
  by_cases hn1 : tiles.tiles.length = 1
  · unfold phasediffDecilesFl
    rw [if_pos hn1, if_pos hn1]
  · rw [overlapsFl_groups hn1, overlapsFl_groups hn1, mapM_congr_mem (fun p hp => groupFl_same hifgs hf hf'
      (fun b hb => ⟨(hs b hb).points, (hs b hb).phase⟩) hp)]

/-- C86, merge in mixed precision, whatever the roundings are. Two sets of tile files hold the same phases, to the bit, wherever
tiles share pixels. Overlaps, bulk offsets and merge in a row: every raster differs only at pixels of a single tile where
the files differ. -/
theorem C86_merge_float {C : Type} [LinearOrder C] (A : FloatArith K) (atol rtol : K) (minPoints : ℤ) (cc : Nat → List (Nat × Nat) → List Nat)
    (nifgs : Nat) (hifgs : 1 ≤ nifgs) (tiles : TileSet) (htwo : 2 ≤ tiles.tiles.length)
    (himg : 0 < tiles.shape.1 ∧ 0 < tiles.shape.2)
    (files files' : Nat → Except PyErr (TileFile K)) (F F' : Nat → TileFile K)
    (hf : TileFilesOk nifgs tiles files F) (hf' : TileFilesOk nifgs tiles files' F')
    (hs : ∀ b < nifgs, SameShared tiles.tiles.length F F' b) (env env' : MergeEnv K)
    (hlin : env'.lin = env.lin) (hsim : env'.simplices = env.simplices)
    (hover : phasediffDecilesFl A atol rtol id minPoints cc tiles files = .ok (some env.overlap))
    (hover' : phasediffDecilesFl A atol rtol id minPoints cc tiles files' = .ok (some env'.overlap))
    (hlab : env.overlap.labels.length = tiles.tiles.length)
    (mip : MipSolver) (lstsq : Lstsq K) (coh : Band (Option C)) (thr : C) (method : String) (bulk bulk' : BulkFile K)
    (hbulk : bulkOffsetsFl A.fd mip lstsq method tiles coh thr env.overlap = .ok (some bulk))
    (hbulk' : bulkOffsetsFl A.fd mip lstsq method tiles coh thr env'.overlap = .ok (some bulk'))
    (hbo : BulkOk nifgs tiles.tiles.length bulk)
    (settings settings' : MergerSettings) (hmethod : settings.method = "dirichlet") (hmethod' : settings'.method = "dirichlet")
    (hbm : bulk.method = settings.bulkMethod) (hbm' : bulk.method = settings'.bulkMethod)
    (isFile isFile' : Nat → Bool) (out out' : List (Nat × MergedBand K))
    (hm : mergeTilesFl A env settings tiles files bulk nifgs isFile = .ok (.merged out))
    (hm' : mergeTilesFl A env' settings' tiles files' bulk' nifgs isFile' = .ok (.merged out'))
    (b : Nat) (hbn : b < nifgs) (m m' : MergedBand K) (hb : (b, m) ∈ out) (hb' : (b, m') ∈ out') :
    env'.overlap = env.overlap ∧ bulk' = bulk ∧
    ∀ r q : Nat, (∀ i < tiles.tiles.length, ((r : ℤ), (q : ℤ)) ∈ filePoints (F i) →
        phaseAtPixel (F' i) b ((r : ℤ), (q : ℤ)) = phaseAtPixel (F i) b ((r : ℤ), (q : ℤ))) →
      m'.out.val r q = m.out.val r q ∧ m'.diff.val r q = m.diff.val r q ∧ m'.model.val r q = m.model.val r q := by
  have ho := hover'
  rw [C86_overlap_float A atol rtol minPoints cc nifgs hifgs tiles files files' F F' hf hf' hs, hover, Except.ok.injEq,
    Option.some.injEq] at ho
  rw [← ho, hbulk, Except.ok.injEq, Option.some.injEq] at hbulk'
  subst hbulk'
  refine ⟨ho.symm, rfl, ?_⟩
  exact (mergeFl_shared hifgs hifgs htwo himg hf hf' hlin hsim hover hover' hlab hbo hbo hmethod hmethod'
    hbm hbm' ⟨(hs b hbn).points, (hs b hbn).phase⟩ rfl hm hm' hb hb').1

end

end Spurt
