import Verif.Lemmas.Interior

/-!
# Property C86: what only one tile covers stays there
-/

namespace Spurt

open Spec

section
variable {K : Type} [Field K] [LinearOrder K] [FloorRing K] [IsStrictOrderedRing K]

theorem cyclesBetween_shared {tau : K} {n : Nat} {F F' : Nat → TileFile K} {b : Nat} (hs : SameShared n F F' b) {i j : Nat}
    (hi : i < n) (hj : j < n) (hij : i ≠ j) : cyclesBetween tau (F' i) (F' j) b = cyclesBetween tau (F i) (F j) b := by
  unfold cyclesBetween
  rw [hs.points i hi, hs.points j hj]
  apply List.map_congr_left
  intro pix hp
  rw [List.mem_filter, decide_eq_true_eq] at hp
  rw [hs.phase i hi j hj hij pix hp.1 hp.2, hs.phase j hj i hi (Ne.symm hij) pix hp.2 hp.1]

/-- C86, bulk offsets: whatever the phases at the pixels of a single tile, the overlaps found and the bulk offsets,
of either method, are the same. -/
theorem C86_bulk {C : Type} [LinearOrder C] (tau : K) (minPoints : ℤ) (cc : Nat → List (Nat × Nat) → List Nat)
    (nifgs : Nat) (hifgs : 1 ≤ nifgs) (tiles : TileSet) (htwo : 2 ≤ tiles.tiles.length)
    (files files' : Nat → Except PyErr (TileFile K)) (F F' : Nat → TileFile K) (olap olap' : OverlapFile)
    (hf : TileFilesOk nifgs tiles files F) (hf' : TileFilesOk nifgs tiles files' F')
    (h : phasediffDeciles id tau minPoints cc tiles files = .ok (some olap))
    (h' : phasediffDeciles id tau minPoints cc tiles files' = .ok (some olap'))
    (hs : ∀ b < nifgs, SameShared tiles.tiles.length F F' b)
    (mip : MipSolver) (lstsq : Lstsq K) (method : String) (coh : Band (Option C)) (thr : C) (bulk bulk' : BulkFile K)
    (hbulk : bulkOffsets mip lstsq method tiles coh thr olap = .ok (some bulk))
    (hbulk' : bulkOffsets mip lstsq method tiles coh thr olap' = .ok (some bulk')) :
    olap'.overlaps = olap.overlaps ∧ bulk' = bulk := by
  have hn1 : tiles.tiles.length ≠ 1 := by omega
  obtain ⟨ho, hlab⟩ := overlaps_points hf hf' h h' (hs 0 hifgs).points
  obtain ⟨med, hm, hne⟩ := bulk_medians hn1 hbulk
  obtain ⟨med', hm', hne'⟩ := bulk_medians hn1 hbulk'
  obtain ⟨l1, a1⟩ := median_entry hf h hm
  obtain ⟨l2, a2⟩ := median_entry hf' h' hm'
  have hmed : med' = med := by
    apply List.ext_getElem
    · rw [l1, l2, ho]
    · intro k k1 k2
      have hk : k < olap.overlaps.length := by omega
      have hke := List.getElem?_eq_getElem hk
      obtain ⟨x, hx, hxl, hxb⟩ := a1 k _ _ hke
      obtain ⟨x', hx', hxl', hxb'⟩ := a2 k _ _ (by rw [ho]; exact hke)
      rw [List.getElem?_eq_getElem k2, Option.some.injEq] at hx
      rw [List.getElem?_eq_getElem k1, Option.some.injEq] at hx'
      rw [hx, hx']
      have hmem := List.getElem_mem hk
      obtain ⟨hsub, _⟩ := C53_recorded tau minPoints cc tiles files olap h
      obtain ⟨hlt, t1, t2, h2, h3, _⟩ := ((C25_overlaps tiles).1 _ _).mp (hsub.subset hmem)
      have hi := (List.getElem?_eq_some_iff.mp h2).1
      have hj := (List.getElem?_eq_some_iff.mp h3).1
      apply List.ext_getElem
      · rw [hxl, hxl']
      · intro b b1 b2
        have hb : b < nifgs := by omega
        obtain ⟨_, _, n3⟩ := hxb b hb
        obtain ⟨_, _, n3'⟩ := hxb' b hb
        rw [cyclesBetween_shared (hs b hb) hi hj (by omega)] at n3'
        obtain ⟨q1, q2⟩ := sortInt_spec (cyclesBetween tau (F (olap.overlaps[k]).1) (F (olap.overlaps[k]).2) b)
        have hmd : IsMedian (cyclesBetween tau (F (olap.overlaps[k]).1) (F (olap.overlaps[k]).2) b) _ := ⟨_, q1, q2, rfl⟩
        have e1 := n3 _ hmd
        have e2 := n3' _ hmd
        rw [List.getElem?_eq_getElem b2, Option.some.injEq] at e1
        rw [List.getElem?_eq_getElem b1, Option.some.injEq] at e2
        rw [e1, e2]
  refine ⟨ho, ?_⟩
  unfold bulkOffsets at hbulk hbulk'
  rw [hm] at hbulk
  rw [hm', hmed, ho, hlab, hbulk] at hbulk'
  simpa using hbulk'.symm

theorem omap_ne {n : Nat} {olaps : List (Nat × Nat)} {omap : List (List Nat)} (hlt : ∀ e ∈ olaps, e.1 < e.2)
    (h : overlapMap n olaps = .ok omap) {i : Nat} (hi : i < n) {j : Nat} (hj : j ∈ omap.getD i []) : i ≠ j := by
  rintro rfl
  obtain ⟨h1, h2⟩ := C53_map n olaps
  by_cases hall : ∀ e ∈ olaps, e.1 < n ∧ e.2 < n
  · obtain ⟨m, e1, _, e3⟩ := h1 hall
    rw [h, Except.ok.injEq] at e1
    subst e1
    have hc := List.count_pos_iff.mpr hj
    rw [e3 i i hi] at hc
    have : (i, i) ∈ olaps := List.count_pos_iff.mp (by omega)
    have := hlt _ this
    simp at this
  · rw [h2 hall] at h
    simp at h

theorem filterMap_one {β : Type} {n i : Nat} (hi : i < n) (x : β) :
    ((List.range n).filterMap fun j => if j = i then some x else none) = [x] := by
  induction n with
  | zero => omega
  | succ n ih =>
    rw [List.range_succ, List.filterMap_append]
    by_cases hin : n = i
    · subst hin
      have : ((List.range n).filterMap fun j => if j = n then some x else none) = [] := by
        rw [List.filterMap_eq_nil_iff]
        intro a ha
        rw [if_neg (by have := List.mem_range.mp ha; omega)]
      rw [this]
      simp
    · rw [ih (by omega)]
      simp [hin]

/-- C86, merge. Two sets of tile files hold the same phases wherever tiles share pixels, and have the same bulk offsets.
Then the three rasters are the same at every pixel where the files hold the same phases; and at a pixel of a
single tile the merged phase and the model move by exactly the difference of the phases there. -/
theorem C86_merge (tau : K) (minPoints : ℤ) (cc : Nat → List (Nat × Nat) → List Nat)
    (nifgs : Nat) (tiles : TileSet) (files files' : Nat → Except PyErr (TileFile K)) (F F' : Nat → TileFile K)
    (env env' : MergeEnv K) (hlin : env'.lin = env.lin) (hsim : env'.simplices = env.simplices)
    (bulk bulk' : BulkFile K) (settings settings' : MergerSettings)
    (h : MergeInput tau minPoints cc nifgs tiles files F env.overlap bulk settings)
    (h' : MergeInput tau minPoints cc nifgs tiles files' F' env'.overlap bulk' settings')
    (b : Nat) (hs : SameShared tiles.tiles.length F F' b)
    (hbulk : bulk'.offsets.getD b [] = bulk.offsets.getD b [])
    (isFile isFile' : Nat → Bool) (out out' : List (Nat × MergedBand K))
    (hm : mergeTiles tau env settings tiles files bulk nifgs isFile = .ok (.merged out))
    (hm' : mergeTiles tau env' settings' tiles files' bulk' nifgs isFile' = .ok (.merged out'))
    (m m' : MergedBand K) (hb : (b, m) ∈ out) (hb' : (b, m') ∈ out') (r q : Nat) :
    ((∀ i < tiles.tiles.length, ((r : ℤ), (q : ℤ)) ∈ filePoints (F i) →
        phaseAtPixel (F' i) b ((r : ℤ), (q : ℤ)) = phaseAtPixel (F i) b ((r : ℤ), (q : ℤ))) →
      m'.out.val r q = m.out.val r q ∧ m'.diff.val r q = m.diff.val r q ∧ m'.model.val r q = m.model.val r q) ∧
    ∀ i < tiles.tiles.length, ((r : ℤ), (q : ℤ)) ∈ filePoints (F i) →
      (∀ j < tiles.tiles.length, j ≠ i → ((r : ℤ), (q : ℤ)) ∉ filePoints (F j)) →
      ∃ v w, m.out.val r q = some v ∧ m.model.val r q = some w ∧ m.diff.val r q = none ∧
        m'.out.val r q = some (v + (phaseAtPixel (F' i) b ((r : ℤ), (q : ℤ)) - phaseAtPixel (F i) b ((r : ℤ), (q : ℤ)))) ∧
        m'.model.val r q = some (w + (phaseAtPixel (F' i) b ((r : ℤ), (q : ℤ)) - phaseAtPixel (F i) b ((r : ℤ), (q : ℤ)))) ∧
        m'.diff.val r q = none := by
  have hp := hs.points
  obtain ⟨ho, hl⟩ := overlaps_points h.filesOk h'.filesOk h.overlaps h'.overlaps hp
  obtain ⟨omap, h1, h2, _⟩ := ready_of_input h
  obtain ⟨d, hd⟩ := getMaxDegree_ok (shape := imageShape tiles) (n := tiles.tiles.length) (F := F) (by
    have := h.image
    simp only [imageShape]
    omega) h2.inside
  obtain ⟨hbn, hr, hok, hras⟩ := merged_band_at h hm hb h1 hd
  obtain ⟨_, hr', hok', hras'⟩ := merged_band_at h' hm' hb' (by rw [ho, hl]; exact h1)
    (by rw [getMaxDegree_points hp]; exact hd)
  have hne : ∀ i < tiles.tiles.length, ∀ j ∈ omap.getD i [], j < tiles.tiles.length ∧ i ≠ j := by
    intro i hi j hj
    refine ⟨hr.map.lt i hi j hj, omap_ne ?_ h1 (by rw [h.labels]; exact hi) hj⟩
    obtain ⟨hsub, _⟩ := C53_recorded tau minPoints cc tiles files env.overlap h.overlaps
    rintro ⟨a, c⟩ he
    exact (((C25_overlaps tiles).1 a c).mp (hsub.subset he)).1
  have hcorr : EqualCorr tiles.tiles.length F (finalCorr tau env F omap d bulk.offsets b)
      (finalCorr tau env' F' omap d bulk'.offsets b) := by
    unfold finalCorr
    refine bandAdjust_shared hlin hsim hs ?_ hr.map.once hne d hok
    intro i hi p hpl
    simp only [bulkAt, hbulk]
  refine ⟨raster_same_at hr.inside hr.map.once hp hcorr hras hras' r q, ?_⟩
  intro i hi hpi honly
  have hvals : ∀ (G : Nat → TileFile K) (c : Nat → Nat → K), (∀ j < tiles.tiles.length, filePoints (G j) = filePoints (F j)) →
      ((List.range tiles.tiles.length).filterMap fun j => bandAt G b c j ((r : ℤ), (q : ℤ))) =
        [bandValue G b c i ((filePoints (F i)).idxOf ((r : ℤ), (q : ℤ)))] := by
    intro G c hG
    have : ∀ j < tiles.tiles.length, bandAt G b c j ((r : ℤ), (q : ℤ)) =
        if j = i then some (bandValue G b c i ((filePoints (F i)).idxOf ((r : ℤ), (q : ℤ)))) else none := by
      intro j hj
      unfold bandAt
      rw [hG j hj]
      by_cases hji : j = i
      · subst hji
        rw [if_pos hpi, if_pos rfl]
      · rw [if_neg (honly j hj hji), if_neg hji]
    rw [List.filterMap_congr (fun j hj => this j (List.mem_range.mp hj))]
    exact filterMap_one hi _
  have hlen : (filePoints (F i)).idxOf ((r : ℤ), (q : ℤ)) < (F i).points.length := by
    rw [← filePoints_length]; exact List.idxOf_lt_length_iff.mpr hpi
  obtain ⟨_, k2, k3, _⟩ := bandRaster_at hr.two hr.inside hr.map.once hr.width
    (fun j hj => hr.bands j hj b hbn) hras r q _ rfl
  obtain ⟨_, k2', k3', _⟩ := bandRaster_at hr'.two hr'.inside hr'.map.once hr'.width
    (fun j hj => hr'.bands j hj b hbn) hras' r q _ rfl
  rw [hvals F _ fun _ _ => rfl] at k2 k3
  rw [hvals F' _ hp] at k2' k3'
  obtain ⟨w, e1, e2, j, hj, hpj, x, hx, e3⟩ := k2 ⟨i, hi, hpi⟩
  obtain ⟨w', e1', e2', j', hj', hpj', x', hx', e3'⟩ := k2' ⟨i, hi, by rw [hp i hi]; exact hpi⟩
  have hji : j = i := by
    by_contra hc
    exact honly j hj hc hpj
  have hji' : j' = i := by
    by_contra hc
    rw [hp j' hj'] at hpj'
    exact honly j' hj' hc hpj'
  subst hji hji'
  simp only [List.length_singleton, Nat.cast_one, mul_one, List.sum_singleton, bandValue] at e2 e2'
  rw [hcorr j' hi _ hlen] at e2'
  rw [hp j' hi] at hx'
  have hd1 : phaseAtPixel (F j') b ((r : ℤ), (q : ℤ)) = x := by rw [hx]; rfl
  have hd2 : phaseAtPixel (F' j') b ((r : ℤ), (q : ℤ)) = x' := by
    unfold phaseAtPixel
    rw [hx', hp j' hi]
  rw [← hx] at e2
  rw [← hx'] at e2'
  refine ⟨_, w, e3, e1, k3 (by simp), ?_, ?_, k3' (by simp)⟩
  · rw [e3', hd1, hd2, show x' - w' = x - w by rw [e2, e2']; ring]
    congr 1
    ring
  · rw [e1', hd1, hd2, e2, e2']
    congr 1
    ring

/-- C86. Overlaps, bulk offsets and merge in a row: two sets of tile files hold the same phases wherever tiles share pixels. Then the
rasters of every interferogram differ only at pixels of a single tile where the files differ, and there the merged phase
differs by exactly what the files differ by. -/
theorem C86_local {C : Type} [LinearOrder C] (tau : K) (minPoints : ℤ) (cc : Nat → List (Nat × Nat) → List Nat)
    (nifgs : Nat) (tiles : TileSet) (files files' : Nat → Except PyErr (TileFile K)) (F F' : Nat → TileFile K)
    (env env' : MergeEnv K) (hlin : env'.lin = env.lin) (hsim : env'.simplices = env.simplices)
    (bulk bulk' : BulkFile K) (settings settings' : MergerSettings)
    (h : MergeInput tau minPoints cc nifgs tiles files F env.overlap bulk settings)
    (h' : MergeInput tau minPoints cc nifgs tiles files' F' env'.overlap bulk' settings')
    (hs : ∀ b < nifgs, SameShared tiles.tiles.length F F' b)
    (mip : MipSolver) (lstsq : Lstsq K) (coh : Band (Option C)) (thr : C) (method : String)
    (hbulk : bulkOffsets mip lstsq method tiles coh thr env.overlap = .ok (some bulk))
    (hbulk' : bulkOffsets mip lstsq method tiles coh thr env'.overlap = .ok (some bulk'))
    (isFile isFile' : Nat → Bool) (out out' : List (Nat × MergedBand K))
    (hm : mergeTiles tau env settings tiles files bulk nifgs isFile = .ok (.merged out))
    (hm' : mergeTiles tau env' settings' tiles files' bulk' nifgs isFile' = .ok (.merged out'))
    (b : Nat) (m m' : MergedBand K) (hb : (b, m) ∈ out) (hb' : (b, m') ∈ out') (r q : Nat) :
    bulk' = bulk ∧
    ((∀ i < tiles.tiles.length, ((r : ℤ), (q : ℤ)) ∈ filePoints (F i) →
        phaseAtPixel (F' i) b ((r : ℤ), (q : ℤ)) = phaseAtPixel (F i) b ((r : ℤ), (q : ℤ))) →
      m'.out.val r q = m.out.val r q ∧ m'.diff.val r q = m.diff.val r q ∧ m'.model.val r q = m.model.val r q) ∧
    ((∀ i < tiles.tiles.length, ((r : ℤ), (q : ℤ)) ∈ filePoints (F i) →
        phaseAtPixel (F' i) b ((r : ℤ), (q : ℤ)) ≠ phaseAtPixel (F i) b ((r : ℤ), (q : ℤ)) →
      ∃ v, m.out.val r q = some v ∧ m'.out.val r q =
        some (v + (phaseAtPixel (F' i) b ((r : ℤ), (q : ℤ)) - phaseAtPixel (F i) b ((r : ℤ), (q : ℤ)))))) := by
  have hbn : b < nifgs := by
    obtain ⟨omap, h1, h2, _⟩ := ready_of_input h
    obtain ⟨d, hd⟩ := getMaxDegree_ok (shape := imageShape tiles) (n := tiles.tiles.length) (F := F) (by
      have := h.image
      simp only [imageShape]
      omega) h2.inside
    exact (merged_band_at h hm hb h1 hd).1
  obtain ⟨_, hbb⟩ := C86_bulk tau minPoints cc nifgs h.ifgs tiles h.two files files' F F' env.overlap env'.overlap h.filesOk h'.filesOk
    h.overlaps h'.overlaps hs mip lstsq method coh thr bulk bulk' hbulk hbulk'
  obtain ⟨k1, k2⟩ := C86_merge tau minPoints cc nifgs tiles files files' F F' env env' hlin hsim bulk bulk' settings settings' h h' b
    (hs b hbn) (by rw [hbb]) isFile isFile' out out' hm hm' m m' hb hb' r q
  refine ⟨hbb, k1, ?_⟩
  intro i hi hpi hne
  obtain ⟨v, w, e1, _, _, e4, _⟩ := k2 i hi hpi fun j hj hji hpj =>
    hne ((hs b hbn).phase i hi j hj (Ne.symm hji) _ hpi hpj)
  exact ⟨v, e1, e4⟩

end

end Spurt
