import Verif.Lemmas.FloatMap
import Verif.Lemmas.FloatBulkFile
import Verif.Props.EndToEnd

/-!
# Property C70: overlap statistics, bulk offsets and merge in mixed precision
-/

namespace Spurt
open Spec

section
variable {K : Type} [Field K] [LinearOrder K] [IsStrictOrderedRing K] [FloorRing K]

/-- C70. In mixed precision, too, the outcome of `merge_tiles` does not depend on `num_parallel_ifgs` nor on which
output files exist, whatever the roundings are and whatever the tiles hold. Pixels of no tile have no value in any
raster. -/
theorem C70_batching (A : FloatArith K) (atol rtol : K) (minPoints : ℤ) (cc : Nat → List (Nat × Nat) → List Nat)
    (nifgs : Nat) (hifgs : 1 ≤ nifgs) (tiles : TileSet) (htwo : 2 ≤ tiles.tiles.length)
    (himg : 0 < tiles.shape.1 ∧ 0 < tiles.shape.2)
    (files : Nat → Except PyErr (TileFile K)) (F : Nat → TileFile K) (hf : TileFilesOk nifgs tiles files F)
    (env : MergeEnv K)
    (hover : phasediffDecilesFl A atol rtol id minPoints cc tiles files = .ok (some env.overlap))
    (hlab : env.overlap.labels.length = tiles.tiles.length) (bulk : BulkFile K)
    (hbulk : BulkOk nifgs tiles.tiles.length bulk) (settings : MergerSettings)
    (hmethod : settings.method = "dirichlet") (hbm : bulk.method = settings.bulkMethod) :
    (∃ M : Nat → MergedBand K, (∀ (num : ℤ) (isFile : Nat → Bool),
      mergeTilesFl A env { settings with numParallelIfgs := num } tiles files bulk nifgs isFile =
        .ok (.merged (((List.range nifgs).filter fun i => !isFile i).map fun i => (i, M i)))) ∧
      ∀ b r q : Nat, (∀ i < tiles.tiles.length, ((r : ℤ), (q : ℤ)) ∉ filePoints (F i)) →
        (M b).out.val r q = none ∧ (M b).diff.val r q = none ∧ (M b).model.val r q = none) ∨
    (∀ (num : ℤ) (isFile : Nat → Bool),
      ((∃ i < nifgs, isFile i = false) →
        ∃ e, mergeTilesFl A env { settings with numParallelIfgs := num } tiles files bulk nifgs isFile = .error e) ∧
      ((∀ i < nifgs, isFile i = true) →
        mergeTilesFl A env { settings with numParallelIfgs := num } tiles files bulk nifgs isFile =
          .ok (.merged []))) := by
  obtain ⟨omap, h1, h2, _⟩ := ready_float hifgs htwo hf hover hlab hbulk
  obtain ⟨d, hd⟩ := getMaxDegree_ok (shape := imageShape tiles) (n := tiles.tiles.length) (F := F) (by
    simp only [imageShape]
    omega) h2.inside
  have hme : ∀ num : ℤ, ({ settings with numParallelIfgs := num } : MergerSettings).method = "dirichlet" := fun _ => hmethod
  have hbe : ∀ num : ℤ, bulk.method = ({ settings with numParallelIfgs := num } : MergerSettings).bulkMethod := fun _ => hbm
  by_cases hok : adjustOk env tiles.tiles.length F omap d
  · refine Or.inl ⟨_, fun num isFile => (mergeTilesFl_eq hifgs htwo hf.read (hme num) (hbe num) h1 h2 hd isFile).1 (Or.inl hok),
      fun b r q hno => ?_⟩
    obtain ⟨m, hm⟩ := bandRasterFl_ok (A := A) h2.inside b (finalCorrFl A env F omap d bulk.offsets b)
    have hfin : finalRasterFl A env (imageShape tiles) tiles.tiles.length F omap d bulk.offsets b = m := by
      unfold finalRasterFl; rw [hm]
    rw [hfin]
    exact (bandRasterFl_at h2.inside h2.map.once hm r q).1 hno
  · refine Or.inr fun num isFile => ⟨?_, ?_⟩
    · rintro ⟨i, hi, hfi⟩
      refine (mergeTilesFl_eq hifgs htwo hf.read (hme num) (hbe num) h1 h2 hd isFile).2 ?_
      rintro (hc | hc)
      · exact hok hc
      · have : i ∈ missing nifgs isFile := by simp [missing, hi, hfi]
        rw [hc] at this
        simp at this
    · intro hall
      have hm : missing nifgs isFile = [] := by
        unfold missing
        rw [List.filter_eq_nil_iff]
        intro i hi
        simp [hall i (List.mem_range.mp hi)]
      have := (mergeTilesFl_eq (A := A) hifgs htwo hf.read (hme num) (hbe num) h1 h2 hd isFile).1 (Or.inr hm)
      rw [hm] at this
      exact this

/-- C70. The tiles hold, up to `δ`, fields `phi` plus `c b i` cycles in interferogram `b` of tile `i`. Then the overlap
statistics written in mixed precision have exactly these cycles: the median recorded for the overlap of tiles `i` and
`j` is `c b j - c b i`. The overlaps are those found without rounding. -/
theorem C70_overlap (A : FloatArith K) (B η Bd ηd ε : K) (hA : MixedPrecision A B η Bd ηd ε) (atol rtol M k δ : K)
    (hcheck : CheckRoom atol rtol B η Bd ηd ε M k δ) (minPoints : ℤ) (cc : Nat → List (Nat × Nat) → List Nat) (nifgs : Nat)
    (tiles : TileSet) (files : Nat → Except PyErr (TileFile K)) (F : Nat → TileFile K) (hf : TileFilesOk nifgs tiles files F)
    (phi : Nat → ℤ × ℤ → K) (c : Nat → Nat → ℤ) (hnear : NearFields A δ nifgs tiles.tiles.length F phi c)
    (hM : ∀ b < nifgs, ∀ i < tiles.tiles.length, ∀ pix ∈ filePoints (F i), |phi b pix + A.tau * c b i| ≤ M)
    (hk : ∀ b < nifgs, ∀ i < tiles.tiles.length, ∀ j < tiles.tiles.length, |((c b j - c b i : ℤ) : K)| ≤ k)
    (hsmall : ∀ b i, |c b i| ≤ 16383) (olap : OverlapFile)
    (hover : phasediffDecilesFl A atol rtol id minPoints cc tiles files = .ok (some olap)) :
    medianOffsets olap = .ok (olap.overlaps.map fun e => (List.range nifgs).map fun b => c b e.2 - c b e.1) ∧
    olap.labels = cc tiles.tiles.length olap.overlaps ∧
    ∀ i j, (i, j) ∈ olap.overlaps ↔ BigOverlap tiles F minPoints i j := by
  have hτ : A.tau ≠ 0 := by have := hA.one_le.2; intro h; rw [h] at this; linarith [zero_lt_one (α := K)]
  rw [overlapFl_ideal hA hcheck hf hnear hM hk hsmall] at hover
  refine ⟨cut_medians hτ (ideal_ok hf) hover ideal_cut hsmall, ?_⟩
  obtain ⟨hsub, _, hlabels, hrec⟩ := C53_recorded A.tau minPoints cc tiles _ olap hover
  refine ⟨hlabels, fun i j => ⟨fun hij => ?_, fun hij => ?_⟩⟩
  · have hmem := hsub.subset hij
    obtain ⟨bi, bj, fi, fj, e1, e2, e3, e4, e5, _⟩ := hrec i j hmem
    simp only [Except.ok.injEq] at e3 e4
    subst e3 e4
    have hcard := e5.mp hij
    rw [filePoints_box (ideal_ok hf |>.box i bi e1), filePoints_box (ideal_ok hf |>.box j bj e2)] at hcard
    exact ⟨hmem, hcard⟩
  · obtain ⟨hmem, hcard⟩ := hij
    obtain ⟨bi, bj, fi, fj, e1, e2, e3, e4, e5, _⟩ := hrec i j hmem
    simp only [Except.ok.injEq] at e3 e4
    subst e3 e4
    rw [e5, filePoints_box (ideal_ok hf |>.box i bi e1), filePoints_box (ideal_ok hf |>.box j bj e2)]
    exact hcard

/-- C70. Merging in mixed precision. The tiles hold, up to `δ`, fields `phi` plus `c b i` cycles in interferogram `b` of
tile `i`, and the bulk offsets are, up to `β`, the cycles relative to a tile `ref`. Then the merged raster has at every
covered pixel the field plus the cycles of `ref`, with an error of at most `δ + 4η + kε`: the accuracy of the tile files
and a few roundings, whatever the inner solver and the bulk offsets add on the way. The averaged model and the spread
at the overlaps are within `E + 3η` and `2E + 3η`. -/
theorem C70_merge (A : FloatArith K) (B η Bd ηd ε : K) (hA : MixedPrecision A B η Bd ηd ε)
    (atol rtol M k δ β ρ Y E : K) (N L : Nat) (hroom : MergeRoom A B η Bd ηd ε M k δ β ρ Y E N L) (minPoints : ℤ)
    (cc : Nat → List (Nat × Nat) → List Nat) (nifgs : Nat) (hifgs : 1 ≤ nifgs) (tiles : TileSet)
    (htwo : 2 ≤ tiles.tiles.length) (himg : 0 < tiles.shape.1 ∧ 0 < tiles.shape.2)
    (files : Nat → Except PyErr (TileFile K)) (F : Nat → TileFile K) (hf : TileFilesOk nifgs tiles files F)
    (hN : ∀ pix, (covering tiles.tiles.length F pix).length ≤ N)
    (phi : Nat → ℤ × ℤ → K) (c : Nat → Nat → ℤ) (hnear : NearFields A δ nifgs tiles.tiles.length F phi c)
    (hM : ∀ b < nifgs, ∀ i < tiles.tiles.length, ∀ pix ∈ filePoints (F i), ∀ j < tiles.tiles.length,
      |phi b pix + A.tau * c b j| ≤ M)
    (hk : ∀ b < nifgs, ∀ i < tiles.tiles.length, ∀ j < tiles.tiles.length, |((c b j - c b i : ℤ) : K)| ≤ k)
    (env : MergeEnv K) (hgraphs : TileGraphs env tiles.tiles.length F Y ρ L)
    (hover : phasediffDecilesFl A atol rtol id minPoints cc tiles files = .ok (some env.overlap))
    (hlab : env.overlap.labels.length = tiles.tiles.length) (bulk : BulkFile K)
    (hbulk : BulkOk nifgs tiles.tiles.length bulk) (ref : Nat) (href : ref < tiles.tiles.length)
    (hoff : ∀ b < nifgs, ∀ i < tiles.tiles.length,
      |(bulk.offsets.getD b []).getD i 0 - ((c b i - c b ref : ℤ) : K)| ≤ β)
    (settings : MergerSettings) (hmethod : settings.method = "dirichlet") (hbm : bulk.method = settings.bulkMethod)
    (isFile : Nat → Bool) (out : List (Nat × MergedBand K))
    (hm : mergeTilesFl A env settings tiles files bulk nifgs isFile = .ok (.merged out)) :
    out.map Prod.fst = (List.range nifgs).filter (fun i => !isFile i) ∧
    ∀ b m, (b, m) ∈ out → ∀ r q : Nat,
      ((∃ i < tiles.tiles.length, ((r : ℤ), (q : ℤ)) ∈ filePoints (F i)) →
        (∃ v, m.out.val r q = some v ∧ |v - (phi b (r, q) + A.tau * c b ref)| ≤ δ + 4 * η + k * ε) ∧
        ∃ v, m.model.val r q = some v ∧ |v - (phi b (r, q) + A.tau * c b ref)| ≤ E + 3 * η) ∧
      ((∀ i < tiles.tiles.length, ((r : ℤ), (q : ℤ)) ∉ filePoints (F i)) →
        m.out.val r q = none ∧ m.diff.val r q = none ∧ m.model.val r q = none) ∧
      ((∃ i j, i < j ∧ j < tiles.tiles.length ∧ ((r : ℤ), (q : ℤ)) ∈ filePoints (F i) ∧
        ((r : ℤ), (q : ℤ)) ∈ filePoints (F j)) → ∃ v, m.diff.val r q = some v ∧ |v| ≤ 2 * E + 3 * η) := by
  obtain ⟨omap, h1, h2, h3, h4⟩ := ready_float hifgs htwo hf hover hlab hbulk
  obtain ⟨d, hd⟩ := getMaxDegree_ok (shape := imageShape tiles) (n := tiles.tiles.length) (F := F) (by
    simp only [imageShape]
    omega) h2.inside
  have hdN := getMaxDegree_le h2.inside h2.map.once hN hd
  obtain ⟨k1, k2⟩ := mergeTilesFl_eq (A := A) hifgs htwo hf.read hmethod hbm h1 h2 hd isFile
  by_cases hc : adjustOk env tiles.tiles.length F omap d ∨ missing nifgs isFile = []
  · rw [k1 hc, Except.ok.injEq, MergeResult.merged.injEq] at hm
    subst hm
    refine ⟨by simp [Function.comp_def, missing], fun b m hb r q => ?_⟩
    obtain ⟨b', hb', e⟩ := List.mem_map.mp hb
    simp only [Prod.mk.injEq] at e
    obtain ⟨rfl, rfl⟩ := e
    have hok : adjustOk env tiles.tiles.length F omap d := by
      rcases hc with h | h
      · exact h
      · rw [h] at hb'; simp at hb'
    have hbn : b' < nifgs := by
      unfold missing at hb'
      exact List.mem_range.mp (List.mem_of_mem_filter hb')
    obtain ⟨q1, q2, q3, q4⟩ := finalRasterFl_near hA hroom hgraphs h2 h3 h4 hN (b := b') href (hnear b' hbn) (hM b' hbn)
      (fun i hi => hk b' hbn ref href i hi) (fun i hi => hoff b' hbn i hi) hdN hok r q
    refine ⟨q1, q2, ?_⟩
    rintro ⟨i, j, hij, hj, hip, hjp⟩
    refine q4 ?_
    have hsub : [i, j] ⊆ covering tiles.tiles.length F ((r : ℤ), (q : ℤ)) := by
      intro x hx
      unfold covering
      simp only [List.mem_filter, List.mem_range, decide_eq_true_eq]
      simp only [List.mem_cons, List.not_mem_nil, or_false] at hx
      rcases hx with rfl | rfl
      · exact ⟨by omega, hip⟩
      · exact ⟨hj, hjp⟩
    have hnd : [i, j].Nodup := by simp; omega
    simpa using (hnd.subperm hsub).length_le
  · obtain ⟨e, he⟩ := k2 hc
    rw [he] at hm
    simp at hm

/-- C70. Overlap statistics, bulk offsets by either method and merge in mixed precision give back the fields cut into
tiles, plus the number of cycles of the largest tile, within `δ + 4η + kε` at every covered pixel. With the integer method
the residuals of the bulk offsets are 0; `β` covers what the least-squares method leaves of an offset, see
`ConsistentLstsq`. -/
theorem C70_end_to_end {C : Type} [LinearOrder C] (A : FloatArith K) (B η Bd ηd ε : K) (hA : MixedPrecision A B η Bd ηd ε)
    (atol rtol M k δ β ρ Y E γ X : K) (N L : Nat) (hroom : MergeRoom A B η Bd ηd ε M k δ β ρ Y E N L)
    (hcheck : CheckRoom atol rtol B η Bd ηd ε M k δ) (minPoints : ℤ)
    (cc : Nat → List (Nat × Nat) → List Nat) (nifgs : Nat) (hifgs : 1 ≤ nifgs) (tiles : TileSet)
    (htwo : 2 ≤ tiles.tiles.length) (himg : 0 < tiles.shape.1 ∧ 0 < tiles.shape.2)
    (files : Nat → Except PyErr (TileFile K)) (F : Nat → TileFile K) (hf : TileFilesOk nifgs tiles files F)
    (hN : ∀ pix, (covering tiles.tiles.length F pix).length ≤ N)
    (phi : Nat → ℤ × ℤ → K) (c : Nat → Nat → ℤ) (hnear : NearFields A δ nifgs tiles.tiles.length F phi c)
    (hM : ∀ b < nifgs, ∀ i < tiles.tiles.length, ∀ pix ∈ filePoints (F i), ∀ j < tiles.tiles.length,
      |phi b pix + A.tau * c b j| ≤ M)
    (hk : ∀ b < nifgs, ∀ i < tiles.tiles.length, ∀ j < tiles.tiles.length, |((c b j - c b i : ℤ) : K)| ≤ k)
    (hsmall : ∀ b i, |c b i| ≤ 16383)
    (env : MergeEnv K) (hgraphs : TileGraphs env tiles.tiles.length F Y ρ L)
    (hover : phasediffDecilesFl A atol rtol id minPoints cc tiles files = .ok (some env.overlap))
    (hlab : ComponentLabels tiles.tiles.length env.overlap.overlaps env.overlap.labels)
    (hconn : ∀ t < tiles.tiles.length, Relation.ReflTransGen (Adjacent env.overlap.overlaps) 0 t)
    (mip : MipSolver) (hmip : MipOptimal mip) (lstsq : Lstsq K) (settings : MergerSettings)
    (hbm : settings.bulkMethod = "integer" ∨ settings.bulkMethod = "L2")
    (hls : settings.bulkMethod = "L2" → ConsistentLstsq lstsq tiles.tiles.length nifgs γ X ∧ 2 * γ + ηd ≤ β ∧ 2 * X ≤ Bd)
    (coh : Band (Option C)) (thr : C) (bulk : BulkFile K)
    (hbulk : bulkOffsetsFl A.fd mip lstsq settings.bulkMethod tiles coh thr env.overlap = .ok (some bulk))
    (hmethod : settings.method = "dirichlet") (isFile : Nat → Bool) (out : List (Nat × MergedBand K))
    (hm : mergeTilesFl A env settings tiles files bulk nifgs isFile = .ok (.merged out)) :
    (settings.bulkMethod = "integer" → bulk.residuals = List.replicate nifgs 0) ∧
    out.map Prod.fst = (List.range nifgs).filter (fun i => !isFile i) ∧
    ∃ ref < tiles.tiles.length, LargestTile (tileCounts coh thr tiles) ref ∧ ∀ b m, (b, m) ∈ out → ∀ r q : Nat,
      ((∃ i < tiles.tiles.length, ((r : ℤ), (q : ℤ)) ∈ filePoints (F i)) →
        (∃ v, m.out.val r q = some v ∧ |v - (phi b (r, q) + A.tau * c b ref)| ≤ δ + 4 * η + k * ε) ∧
        ∃ v, m.model.val r q = some v ∧ |v - (phi b (r, q) + A.tau * c b ref)| ≤ E + 3 * η) ∧
      ((∀ i < tiles.tiles.length, ((r : ℤ), (q : ℤ)) ∉ filePoints (F i)) →
        m.out.val r q = none ∧ m.diff.val r q = none ∧ m.model.val r q = none) ∧
      ((∃ i j, i < j ∧ j < tiles.tiles.length ∧ ((r : ℤ), (q : ℤ)) ∈ filePoints (F i) ∧
        ((r : ℤ), (q : ℤ)) ∈ filePoints (F j)) → ∃ v, m.diff.val r q = some v ∧ |v| ≤ 2 * E + 3 * η) := by
  obtain ⟨hmed, _, hbig⟩ := C70_overlap A B η Bd ηd ε hA atol rtol M k δ hcheck minPoints cc nifgs tiles files F hf phi c hnear
    (fun b hb i hi pix hp => hM b hb i hi pix hp i hi) hk hsmall env.overlap hover
  have hlt : ∀ e ∈ env.overlap.overlaps, e.1 < e.2 ∧ e.2 < tiles.tiles.length := by
    rintro ⟨i, j⟩ he
    obtain ⟨h1, a, b, h2, h3, _⟩ := ((C25_overlaps tiles).1 i j).mp ((hbig i j).mp he).1
    exact ⟨h1, (List.getElem?_eq_some_iff.mp h3).1⟩
  obtain ⟨b1, b2, b3, ref, href, hlarge, hoff⟩ := cut_offsetsFl hA.double hroom.nonneg.2.2.2.1 hmip hbm htwo hlt hlab hconn hsmall
    hmed hls hbulk
  obtain ⟨o1, o2⟩ := C70_merge A B η Bd ηd ε hA atol rtol M k δ β ρ Y E N L hroom minPoints cc nifgs hifgs tiles htwo himg files F
    hf hN phi c hnear hM hk env hgraphs hover hlab.length bulk b2 ref href
    hoff settings hmethod b1 isFile out hm
  exact ⟨b3, o1, ref, href, hlarge, o2⟩

/-- C70. All three stages complete in mixed precision on tiles near fields cut into tiles: if the tiles are connected by
overlaps of at least `minPoints ≥ 11` pixels, every tile has at least two pixels and a connected triangulation, and the
external libraries answer. -/
theorem C70_returns {C : Type} [LinearOrder C] (A : FloatArith K) (B η Bd ηd ε : K) (hA : MixedPrecision A B η Bd ηd ε)
    (atol rtol M k δ : K) (hcheck : CheckRoom atol rtol B η Bd ηd ε M k δ) (minPoints : ℤ) (hmin : 11 ≤ minPoints)
    (cc : Nat → List (Nat × Nat) → List Nat) (nifgs : Nat) (hifgs : 1 ≤ nifgs) (tiles : TileSet)
    (htwo : 2 ≤ tiles.tiles.length) (himg : 0 < tiles.shape.1 ∧ 0 < tiles.shape.2)
    (files : Nat → Except PyErr (TileFile K)) (F : Nat → TileFile K) (hf : TileFilesOk nifgs tiles files F)
    (hne : ∀ i < tiles.tiles.length, 2 ≤ (F i).points.length)
    (phi : Nat → ℤ × ℤ → K) (c : Nat → Nat → ℤ) (hnear : NearFields A δ nifgs tiles.tiles.length F phi c)
    (hM : ∀ b < nifgs, ∀ i < tiles.tiles.length, ∀ pix ∈ filePoints (F i), |phi b pix + A.tau * c b i| ≤ M)
    (hk : ∀ b < nifgs, ∀ i < tiles.tiles.length, ∀ j < tiles.tiles.length, |((c b j - c b i : ℤ) : K)| ≤ k)
    (hsmall : ∀ b i, |c b i| ≤ 16383)
    (hcc : ∀ edges : List (Nat × Nat), (∀ e ∈ edges, e.1 < tiles.tiles.length ∧ e.2 < tiles.tiles.length) →
      ComponentLabels tiles.tiles.length edges (cc tiles.tiles.length edges))
    (hconn : ∀ t < tiles.tiles.length, Relation.ReflTransGen
      (fun i j => BigOverlap tiles F minPoints i j ∨ BigOverlap tiles F minPoints j i) 0 t)
    (mip : MipSolver) (hmip : MipOptimal mip) (hmipc : MipComplete mip) (lstsq : Lstsq K) (settings : MergerSettings)
    (hbm : settings.bulkMethod = "integer" ∨ settings.bulkMethod = "L2") (hmethod : settings.method = "dirichlet")
    (lin : LinSolver K) (hilu : ∀ a, lin.ilu a = true) (simplices : List (ℤ × ℤ) → List Tri)
    (Y ρ : K) (L : Nat) (hgraphs : ∀ olap, TileGraphs ⟨lin, simplices, olap⟩ tiles.tiles.length F Y ρ L)
    (coh : Band (Option C)) (thr : C) (isFile : Nat → Bool) :
    ∃ olap, phasediffDecilesFl A atol rtol id minPoints cc tiles files = .ok (some olap) ∧
      ComponentLabels tiles.tiles.length olap.overlaps olap.labels ∧
      (∀ t < tiles.tiles.length, Relation.ReflTransGen (Adjacent olap.overlaps) 0 t) ∧
      ∃ bulk, bulkOffsetsFl A.fd mip lstsq settings.bulkMethod tiles coh thr olap = .ok (some bulk) ∧
      ∃ out, mergeTilesFl A ⟨lin, simplices, olap⟩ settings tiles files bulk nifgs isFile = .ok (.merged out) := by
  have hτ : 0 < A.tau := by have := hA.one_le.2; linarith [zero_lt_one (α := K)]
  have hlast : ∀ i < tiles.tiles.length, ∃ p, Adjacent
      (delaunayGraph (F i).points.length (simplices (filePoints (F i)))).links ((F i).points.length - 1) p := by
    intro i hi
    have h2 := hne i hi
    have := (hgraphs ⟨[], [], []⟩).conn i hi ((F i).points.length - 1) (by omega) 0 (by omega)
    rw [filePoints_length] at this
    rcases Relation.ReflTransGen.cases_head this with h | ⟨x, h, _⟩
    · omega
    · exact ⟨x, h⟩
  have hlinks : ∀ i < tiles.tiles.length, ∀ u v,
      (u, v) ∈ (delaunayGraph (F i).points.length (simplices (filePoints (F i)))).links →
      u < (F i).points.length ∧ v < (F i).points.length := by
    intro i hi u v huv
    have := (hgraphs ⟨[], [], []⟩).links i hi u v
    rw [filePoints_length] at this
    exact this huv
  set G := idealFile A.tau nifgs phi c F with hG
  obtain ⟨olap, r1, r2, r3, _⟩ := C57_returns A.tau hτ minPoints hmin cc nifgs hifgs tiles htwo himg
    (fun t => .ok (G t)) G (ideal_ok hf) (fun i hi hc => by
      have h2 := hne i hi
      have h0 : (F i).points.length = 0 := by
        rw [show (F i).points = [] from hc]
        rfl
      omega) phi c ideal_cut hsmall hcc hconn mip hmip hmipc lstsq
    { settings with bulkMethod := "integer" } (fun h => by simp at h) (Or.inl rfl) hmethod lin hilu simplices hlinks hlast coh thr isFile
  have hover : phasediffDecilesFl A atol rtol id minPoints cc tiles files = .ok (some olap) := by
    rw [overlapFl_ideal hA hcheck hf hnear hM hk hsmall]
    exact r1
  obtain ⟨hmed, _, hbig⟩ := C70_overlap A B η Bd ηd ε hA atol rtol M k δ hcheck minPoints cc nifgs tiles files F hf phi c hnear
    hM hk hsmall olap hover
  have hlt : ∀ e ∈ olap.overlaps, e.1 < e.2 ∧ e.2 < tiles.tiles.length := by
    rintro ⟨i, j⟩ he
    obtain ⟨h1, a, b, h2, h3, _⟩ := ((C25_overlaps tiles).1 i j).mp ((hbig i j).mp he).1
    exact ⟨h1, (List.getElem?_eq_some_iff.mp h3).1⟩
  obtain ⟨bulk, r4⟩ := bulkFl_returns A.fd hmipc lstsq hbm coh thr htwo hlt r2 r3 hsmall hmed
  refine ⟨olap, hover, r2, r3, bulk, r4, ?_⟩
  obtain ⟨b1, b2⟩ := bulkFl_shape (nifgs := nifgs) hmip (by omega) r2.length (fun med hm => by
    rw [hmed, Except.ok.injEq] at hm
    subst hm
    intro x hx
    obtain ⟨e, _, rfl⟩ := List.mem_map.mp hx
    simp) r4
  obtain ⟨omap, h1, h2, _⟩ := ready_float (olap := olap) hifgs htwo hf hover r2.length b2
  obtain ⟨d, hd⟩ := getMaxDegree_ok (shape := imageShape tiles) (n := tiles.tiles.length) (F := F) (by
    simp only [imageShape]
    omega) h2.inside
  refine ⟨_, (mergeTilesFl_eq (env := ⟨lin, simplices, olap⟩) hifgs htwo hf.read hmethod b1 h1 h2 hd isFile).1 (Or.inl ?_)⟩
  intro dd _ i hi _
  obtain ⟨p, hp⟩ := hlast i hi
  have hlne : (delaunayGraph (F i).points.length (simplices (filePoints (F i)))).links ≠ [] := by
    intro hc
    rw [hc] at hp
    simp [Adjacent] at hp
  obtain ⟨a, ha⟩ := (C43_returns _).mpr hlne
  refine ⟨⟨a.n, fun i j => ((a.val i j : ℤ) : K)⟩, ?_, ?_, hilu _⟩
  · unfold lapOf
    rw [filePoints_length, ha]
    rfl
  · exact (C43_size (F i).points.length _ a (hlinks i hi) ha).2.2.mpr ⟨p, hp⟩

end

end Spurt
