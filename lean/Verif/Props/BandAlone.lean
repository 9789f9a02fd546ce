import Verif.Lemmas.BandAlone

/-!
# Property C85: interferograms are merged one by one
-/

namespace Spurt

open Spec

section
variable {K : Type} [Field K] [LinearOrder K] [FloorRing K] [IsStrictOrderedRing K]

theorem bulk_medians {C : Type} [LinearOrder C] {mip : MipSolver} {lstsq : Lstsq K} {method : String} {tiles : TileSet}
    {coh : Band (Option C)} {thr : C} {o : OverlapFile} {bk : BulkFile K} (hn1 : tiles.tiles.length ≠ 1)
    (hb : bulkOffsets mip lstsq method tiles coh thr o = .ok (some bk)) : ∃ med, medianOffsets o = .ok med ∧ med ≠ [] := by
  unfold bulkOffsets at hb
  rw [if_neg hn1] at hb
  cases hm : medianOffsets o with
  | error e => rw [hm] at hb; simp [Bind.bind, Except.bind] at hb
  | ok med =>
    refine ⟨med, rfl, ?_⟩
    rintro rfl
    rw [hm] at hb
    simp [Bind.bind, Except.bind] at hb

theorem med_column {med med' : List (List ℤ)} {n b b' : Nat} (l1 : med.length = n) (l2 : med'.length = n)
    (h : ∀ k < n, ∃ x x' v, med[k]? = some x ∧ med'[k]? = some x' ∧ x[b]? = some v ∧ x'[b']? = some v) :
    (med'.map fun x => x.getD b' 0) = med.map fun x => x.getD b 0 := by
  apply List.ext_getElem
  · simp [l1, l2]
  · intro k k1 k2
    simp only [List.length_map] at k1 k2
    obtain ⟨x, x', v, h1, h2, h3, h4⟩ := h k (by omega)
    rw [List.getElem?_eq_getElem k2, Option.some.injEq] at h1
    rw [List.getElem?_eq_getElem k1, Option.some.injEq] at h2
    simp only [List.getElem_map, h1, h2, List.getD_eq_getElem?_getD, h3, h4]

omit [FloorRing K] [IsStrictOrderedRing K] in
/-- The integer method, from the medians of one interferogram. -/
theorem integer_same {C : Type} [LinearOrder C] {tiles : TileSet} (hn1 : tiles.tiles.length ≠ 1) {olap olap' : OverlapFile}
    (ho : olap'.overlaps = olap.overlaps) (hlab : olap'.labels = olap.labels) {med med' : List (List ℤ)} {nifgs nifgs' : Nat}
    (hm : medianOffsets olap = .ok med) (hne : med ≠ []) (hr : ∀ x ∈ med, x.length = nifgs)
    (hm' : medianOffsets olap' = .ok med') (hne' : med' ≠ []) (hr' : ∀ x ∈ med', x.length = nifgs')
    {b b' : Nat} (hb : b < nifgs) (hb' : b' < nifgs')
    (hcol : (med'.map fun x => x.getD b' 0) = med.map fun x => x.getD b 0) {mip : MipSolver} {lstsq : Lstsq K}
    {coh : Band (Option C)} {thr : C} {bulk bulk' : BulkFile K}
    (hbulk : bulkOffsets mip lstsq "integer" tiles coh thr olap = .ok (some bulk))
    (hbulk' : bulkOffsets mip lstsq "integer" tiles coh thr olap' = .ok (some bulk')) :
    ∃ row res, bulk.offsets[b]? = some row ∧ bulk'.offsets[b']? = some row ∧
      bulk.residuals[b]? = some res ∧ bulk'.residuals[b']? = some res := by
  rw [bulk_integer hn1 hm hne hr] at hbulk
  rw [bulk_integer hn1 hm' hne' hr', ho, hlab] at hbulk'
  have key : ∀ (nb : Nat) (md : List (List ℤ)) (bk : BulkFile K) (j : Nat), j < nb → (do
      let rows ← (List.range nb).mapM fun ii => solveIntOffsets mip olap.overlaps olap.labels (md.map fun x => x.getD ii 0)
        (tileCounts coh thr tiles)
      pure (some ⟨"integer", rows.map fun r => r.1.map fun v => ((v : ℤ) : K), rows.map fun r => ((r.2 : ℤ) : K)⟩)) =
        (.ok (some bk) : Except PyErr (Option (BulkFile K))) →
      ∃ x, solveIntOffsets mip olap.overlaps olap.labels (md.map fun x => x.getD j 0) (tileCounts coh thr tiles) = .ok x ∧
        bk.offsets[j]? = some (x.1.map fun v => ((v : ℤ) : K)) ∧ bk.residuals[j]? = some ((x.2 : ℤ) : K) := by
    intro nb md bk j hj hbk
    cases hr : (List.range nb).mapM fun ii => solveIntOffsets mip olap.overlaps olap.labels (md.map fun x => x.getD ii 0)
        (tileCounts coh thr tiles) with
    | error e => rw [hr] at hbk; simp [Bind.bind, Except.bind] at hbk
    | ok rows =>
      obtain ⟨rows', e1, _, hall⟩ := mapM_exists _ _ (mapM_ok_imp hr)
      rw [hr, Except.ok.injEq] at e1
      subst e1
      obtain ⟨x, hx1, hx2⟩ := hall j j (List.getElem?_range hj)
      rw [hr] at hbk
      simp only [Bind.bind, Except.bind, pure, Except.pure, Except.ok.injEq, Option.some.injEq] at hbk
      subst hbk
      refine ⟨x, hx2, ?_, ?_⟩ <;> simp [List.getElem?_map, hx1]
  obtain ⟨x, e1, e2, e3⟩ := key nifgs med bulk b hb hbulk
  obtain ⟨x', e1', e2', e3'⟩ := key nifgs' med' bulk' b' hb' hbulk'
  rw [hcol, e1, Except.ok.injEq] at e1'
  subst e1'
  exact ⟨_, _, e2, e2', e3, e3'⟩

/-- C85, bulk offsets of the integer method. Two sets of tile files, over the same tiles, may hold
different numbers of interferograms. If interferogram `b` of the first set is interferogram `b'` of
the second, it gets the same bulk offsets and the same residual from both. -/
theorem C85_bulk_integer {C : Type} [LinearOrder C] (tau : K) (minPoints : ℤ) (cc : Nat → List (Nat × Nat) → List Nat)
    (nifgs nifgs' : Nat) (tiles : TileSet) (htwo : 2 ≤ tiles.tiles.length)
    (files files' : Nat → Except PyErr (TileFile K)) (F F' : Nat → TileFile K) (olap olap' : OverlapFile)
    (hf : TileFilesOk nifgs tiles files F) (hf' : TileFilesOk nifgs' tiles files' F')
    (h : phasediffDeciles id tau minPoints cc tiles files = .ok (some olap))
    (h' : phasediffDeciles id tau minPoints cc tiles files' = .ok (some olap'))
    (b b' : Nat) (hb : b < nifgs) (hb' : b' < nifgs')
    (hs : ∀ i < tiles.tiles.length, SameBand (F i) (F' i) b b') (mip : MipSolver) (lstsq : Lstsq K)
    (coh : Band (Option C)) (thr : C) (bulk bulk' : BulkFile K)
    (hbulk : bulkOffsets mip lstsq "integer" tiles coh thr olap = .ok (some bulk))
    (hbulk' : bulkOffsets mip lstsq "integer" tiles coh thr olap' = .ok (some bulk')) :
    ∃ row res, bulk.offsets[b]? = some row ∧ bulk'.offsets[b']? = some row ∧
      bulk.residuals[b]? = some res ∧ bulk'.residuals[b']? = some res := by
  have hn1 : tiles.tiles.length ≠ 1 := by omega
  obtain ⟨med, hm, hne⟩ := bulk_medians hn1 hbulk
  obtain ⟨med', hm', hne'⟩ := bulk_medians hn1 hbulk'
  obtain ⟨ho, hlab, l1, l2, hk⟩ := median_same hf hf' h h' hb hb' hs hm hm'
  have hcol := med_column (b := b) (b' := b') l1 l2 fun k hk' =>
    hk k (olap.overlaps[k]).1 (olap.overlaps[k]).2 (List.getElem?_eq_getElem hk')
  exact integer_same hn1 ho hlab hm hne (median_rows hf h hm) hm' hne' (median_rows hf' h' hm') hb hb' hcol hbulk hbulk'

/-- C85, bulk offsets of the L2 method. The least-squares library solves all interferograms in one call;
if it finds minimisers and the recorded overlaps connect the tiles, the offsets of an interferogram
do not depend on the others. -/
theorem C85_bulk_l2 {C : Type} [LinearOrder C] (tau : K) (minPoints : ℤ) (cc : Nat → List (Nat × Nat) → List Nat)
    (nifgs nifgs' : Nat) (tiles : TileSet) (htwo : 2 ≤ tiles.tiles.length)
    (files files' : Nat → Except PyErr (TileFile K)) (F F' : Nat → TileFile K) (olap olap' : OverlapFile)
    (hf : TileFilesOk nifgs tiles files F) (hf' : TileFilesOk nifgs' tiles files' F')
    (h : phasediffDeciles id tau minPoints cc tiles files = .ok (some olap))
    (h' : phasediffDeciles id tau minPoints cc tiles files' = .ok (some olap'))
    (b b' : Nat) (hb : b < nifgs) (hb' : b' < nifgs')
    (hs : ∀ i < tiles.tiles.length, SameBand (F i) (F' i) b b')
    (hconn : ∀ t < tiles.tiles.length, Relation.ReflTransGen (Adjacent olap.overlaps) 0 t)
    (mip : MipSolver) (lstsq : Lstsq K)
    (hls : ∀ off nb, off.length = olap.overlaps.length → (∀ row ∈ off, row.length = nb) →
      LeastSquares (overlapMatrix olap.overlaps tiles.tiles.length) off
        (lstsq (overlapMatrix olap.overlaps tiles.tiles.length) off) tiles.tiles.length nb)
    (coh : Band (Option C)) (thr : C) (bulk bulk' : BulkFile K)
    (hbulk : bulkOffsets mip lstsq "L2" tiles coh thr olap = .ok (some bulk))
    (hbulk' : bulkOffsets mip lstsq "L2" tiles coh thr olap' = .ok (some bulk')) :
    bulk'.offsets.getD b' [] = bulk.offsets.getD b [] := by
  have hn1 : tiles.tiles.length ≠ 1 := by omega
  obtain ⟨hsub, _, _, _⟩ := C53_recorded tau minPoints cc tiles files olap h
  have hlt : ∀ e ∈ olap.overlaps, e.1 < e.2 ∧ e.2 < tiles.tiles.length := by
    rintro ⟨i, j⟩ he
    obtain ⟨h1, a, b, h2, h3, _⟩ := ((C25_overlaps tiles).1 i j).mp (hsub.subset he)
    exact ⟨h1, (List.getElem?_eq_some_iff.mp h3).1⟩
  obtain ⟨med, hm, hne⟩ := bulk_medians hn1 hbulk
  obtain ⟨med', hm', hne'⟩ := bulk_medians hn1 hbulk'
  obtain ⟨ho, hlab, l1, l2, hk⟩ := median_same hf hf' h h' hb hb' hs hm hm'
  have hr1 := median_rows hf h hm
  have hr2 := median_rows hf' h' hm'
  rw [bulk_L2 hn1 hm hne hr1] at hbulk
  rw [bulk_L2 hn1 hm' hne' hr2, ho] at hbulk'
  have hrow : ∀ (m : List (List ℤ)) (nb : Nat), (∀ x ∈ m, x.length = nb) →
      ∀ row ∈ (m.map fun x => x.map fun v => ((v : ℤ) : K)), row.length = nb := by
    intro m nb hm row hr
    obtain ⟨x, hx, rfl⟩ := List.mem_map.mp hr
    simp [hm x hx]
  have hinp : ∀ (m : List (List ℤ)) (nb : Nat), m.length = olap.overlaps.length → (∀ x ∈ m, x.length = nb) →
      L2Input tiles.tiles.length nb olap.overlaps (m.map fun x => x.map fun v => ((v : ℤ) : K))
        (tileCounts coh thr tiles) := by
    intro m nb hl hm
    refine ⟨by omega, ?_, by simp [hl], hrow m nb hm, by simp [tileCounts]⟩
    intro t1 t2 ht
    have := hlt _ ht
    simp only at this
    omega
  obtain ⟨x, res, x', res', e1, e2, e3⟩ := l2_same (hinp med _ l1 hr1) (hinp med' _ l2 hr2) hconn
    (hls _ _ (by simp [l1]) (hrow med _ hr1)) (hls _ _ (by simp [l2]) (hrow med' _ hr2)) hb hb' (by
      intro k hk'
      obtain ⟨y, y', v, h1, h2, h3, h4⟩ := hk k (olap.overlaps[k]).1 (olap.overlaps[k]).2 (List.getElem?_eq_getElem hk')
      rw [getD_cast, getD_cast]
      simp only [List.getD_eq_getElem?_getD, h1, h2, h3, h4, Option.getD_some])
  rw [e1] at hbulk
  rw [e2] at hbulk'
  simp only [Bind.bind, Except.bind, pure, Except.pure, Except.ok.injEq, Option.some.injEq] at hbulk hbulk'
  subst hbulk hbulk'
  exact e3

/-- C85, merge. Two sets of tile files over the same tiles, with files of bulk offsets, may hold different
numbers of interferograms, and be merged in different batches. If interferogram `b` of the first set
is interferogram `b'` of the second and has the same bulk offsets, then the three rasters written
for it are the same. -/
theorem C85_merge (tau : K) (minPoints : ℤ) (cc : Nat → List (Nat × Nat) → List Nat)
    (nifgs nifgs' : Nat) (tiles : TileSet) (files files' : Nat → Except PyErr (TileFile K)) (F F' : Nat → TileFile K)
    (env env' : MergeEnv K) (hlin : env'.lin = env.lin) (hsim : env'.simplices = env.simplices)
    (bulk bulk' : BulkFile K) (settings settings' : MergerSettings)
    (h : MergeInput tau minPoints cc nifgs tiles files F env.overlap bulk settings)
    (h' : MergeInput tau minPoints cc nifgs' tiles files' F' env'.overlap bulk' settings')
    (b b' : Nat) (hs : ∀ i < tiles.tiles.length, SameBand (F i) (F' i) b b')
    (hbulk : bulk'.offsets.getD b' [] = bulk.offsets.getD b [])
    (isFile isFile' : Nat → Bool) (out out' : List (Nat × MergedBand K))
    (hm : mergeTiles tau env settings tiles files bulk nifgs isFile = .ok (.merged out))
    (hm' : mergeTiles tau env' settings' tiles files' bulk' nifgs' isFile' = .ok (.merged out'))
    (m m' : MergedBand K) (hb : (b, m) ∈ out) (hb' : (b', m') ∈ out') : m' = m := by
  have hp : ∀ i < tiles.tiles.length, filePoints (F' i) = filePoints (F i) := fun i hi => (hs i hi).points
  obtain ⟨ho, hl⟩ := overlaps_points h.filesOk h'.filesOk h.overlaps h'.overlaps hp
  obtain ⟨omap, h1, h2, _⟩ := ready_of_input h
  obtain ⟨d, hd⟩ := getMaxDegree_ok (shape := imageShape tiles) (n := tiles.tiles.length) (F := F) (by
    have := h.image
    simp only [imageShape]
    omega) h2.inside
  obtain ⟨hbn, hr, hok, hras⟩ := merged_band_at h hm hb h1 hd
  obtain ⟨_, hr', hok', hras'⟩ := merged_band_at h' hm' hb' (by rw [ho, hl]; exact h1)
    (by rw [getMaxDegree_points hp]; exact hd)
  have heq : EqualBy tiles.tiles.length F F' b b' (finalCorr tau env F omap d bulk.offsets b)
      (finalCorr tau env' F' omap d bulk'.offsets b') := by
    unfold finalCorr
    refine bandAdjust_alone hlin hsim ?_ hp hr.map.lt d hok
    intro i hi p hpl
    unfold bandValue
    rw [(hs i hi).phase p hpl]
    simp only [bulkAt, hbulk]
  rw [bandRaster_equal hs heq, hras, Except.ok.injEq] at hras'
  exact hras'.symm

/-- C85. Overlaps, bulk offsets and merge in a row, for two sets of tile files over the same tiles: what
is written for an interferogram that both sets hold, at any position, does not depend on the other
interferograms. For the L2 method the library must find minimisers and the recorded overlaps
must connect the tiles. -/
theorem C85_merging {C : Type} [LinearOrder C] (tau : K) (minPoints : ℤ) (cc : Nat → List (Nat × Nat) → List Nat)
    (nifgs nifgs' : Nat) (tiles : TileSet) (files files' : Nat → Except PyErr (TileFile K)) (F F' : Nat → TileFile K)
    (env env' : MergeEnv K) (hlin : env'.lin = env.lin) (hsim : env'.simplices = env.simplices)
    (bulk bulk' : BulkFile K) (settings settings' : MergerSettings)
    (h : MergeInput tau minPoints cc nifgs tiles files F env.overlap bulk settings)
    (h' : MergeInput tau minPoints cc nifgs' tiles files' F' env'.overlap bulk' settings')
    (mip : MipSolver) (lstsq : Lstsq K) (coh : Band (Option C)) (thr : C) (method : String)
    (hmethod : method = "integer" ∨ method = "L2" ∧
      (∀ t < tiles.tiles.length, Relation.ReflTransGen (Adjacent env.overlap.overlaps) 0 t) ∧
      ∀ off nb, off.length = env.overlap.overlaps.length → (∀ row ∈ off, row.length = nb) →
        LeastSquares (overlapMatrix env.overlap.overlaps tiles.tiles.length) off
          (lstsq (overlapMatrix env.overlap.overlaps tiles.tiles.length) off) tiles.tiles.length nb)
    (hbulk : bulkOffsets mip lstsq method tiles coh thr env.overlap = .ok (some bulk))
    (hbulk' : bulkOffsets mip lstsq method tiles coh thr env'.overlap = .ok (some bulk'))
    (isFile isFile' : Nat → Bool) (out out' : List (Nat × MergedBand K))
    (hm : mergeTiles tau env settings tiles files bulk nifgs isFile = .ok (.merged out))
    (hm' : mergeTiles tau env' settings' tiles files' bulk' nifgs' isFile' = .ok (.merged out'))
    (b b' : Nat) (hs : ∀ i < tiles.tiles.length, SameBand (F i) (F' i) b b')
    (m m' : MergedBand K) (hb : (b, m) ∈ out) (hb' : (b', m') ∈ out') : m' = m := by
  have hlt : ∀ {ni : Nat} {fs : Nat → Except PyErr (TileFile K)} {G : Nat → TileFile K} {e : MergeEnv K} {bk : BulkFile K}
      {st : MergerSettings} {fl : Nat → Bool} {o : List (Nat × MergedBand K)} {j : Nat} {x : MergedBand K},
      MergeInput tau minPoints cc ni tiles fs G e.overlap bk st →
      mergeTiles tau e st tiles fs bk ni fl = .ok (.merged o) → (j, x) ∈ o → j < ni := by
    intro ni fs G e bk st fl o j x hi hmm hj
    obtain ⟨omap, h1, h2, _⟩ := ready_of_input hi
    obtain ⟨d, hd⟩ := getMaxDegree_ok (shape := imageShape tiles) (n := tiles.tiles.length) (F := G) (by
      have := hi.image
      simp only [imageShape]
      omega) h2.inside
    exact (merged_band_at hi hmm hj h1 hd).1
  have hbn := hlt h hm hb
  have hbn' := hlt h' hm' hb'
  refine C85_merge tau minPoints cc nifgs nifgs' tiles files files' F F' env env' hlin hsim bulk bulk' settings settings'
    h h' b b' hs ?_ isFile isFile' out out' hm hm' m m' hb hb'
  rcases hmethod with rfl | ⟨rfl, hconn, hls⟩
  · obtain ⟨row, res, e1, e2, _⟩ := C85_bulk_integer tau minPoints cc nifgs nifgs' tiles h.two files files' F F' env.overlap env'.overlap
      h.filesOk h'.filesOk h.overlaps h'.overlaps b b' hbn hbn' hs mip lstsq coh thr bulk bulk' hbulk hbulk'
    rw [List.getD_eq_getElem?_getD, List.getD_eq_getElem?_getD, e1, e2]
  · exact C85_bulk_l2 tau minPoints cc nifgs nifgs' tiles h.two files files' F F' env.overlap env'.overlap
      h.filesOk h'.filesOk h.overlaps h'.overlaps b b' hbn hbn' hs hconn mip lstsq hls coh thr bulk bulk' hbulk hbulk'

end

end Spurt
