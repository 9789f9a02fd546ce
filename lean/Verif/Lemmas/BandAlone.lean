import Verif.Lemmas.BulkShift

/-!
# One interferogram of the tile files, whatever the others are
-/

namespace Spurt

/-- Interferogram `b` of one tile file is interferogram `b'` of another: the same pixels in the same
order, with the same phases. -/
structure Spec.SameBand {K : Type} [Field K] (f f' : TileFile K) (b b' : Nat) : Prop where
  points : Spec.filePoints f' = Spec.filePoints f
  phase : ∀ p < f.points.length, filePhase f' b' p = filePhase f b p

open Spec

section
variable {K : Type} [Field K]

theorem Spec.SameBand.at {f f' : TileFile K} {b b' : Nat} (h : SameBand f f' b b') {pix : ℤ × ℤ} (hp : pix ∈ filePoints f) :
    phaseAtPixel f' b' pix = phaseAtPixel f b pix := by
  unfold phaseAtPixel
  rw [h.points]
  refine h.phase _ ?_
  rw [← filePoints_length]
  exact List.idxOf_lt_length_iff.mpr hp

variable [LinearOrder K]

/-- The values of the tiles are the same. -/
def EqualBy (n : Nat) (F F' : Nat → TileFile K) (b b' : Nat) (c c' : Nat → Nat → K) : Prop :=
  ∀ i < n, ∀ p < (F i).points.length, bandValue F' b' c' i p = bandValue F b c i p

omit [LinearOrder K] in
theorem EqualBy.at {n : Nat} {F F' : Nat → TileFile K} {b b' : Nat} {c c' : Nat → Nat → K}
    (h : EqualBy n F F' b b' c c') (hp : ∀ i < n, filePoints (F' i) = filePoints (F i)) {i : Nat} (hi : i < n)
    (pix : ℤ × ℤ) : bandAt F' b' c' i pix = bandAt F b c i pix := by
  unfold bandAt
  rw [hp i hi]
  by_cases hm : pix ∈ filePoints (F i)
  · rw [if_pos hm, if_pos hm, h i hi]
    rw [← filePoints_length]
    exact List.idxOf_lt_length_iff.mpr hm
  · rw [if_neg hm, if_neg hm]

variable [IsStrictOrderedRing K]

omit [LinearOrder K] [IsStrictOrderedRing K] in
theorem rawCorr_equal {n : Nat} {F F' : Nat → TileFile K} {omap : List (List Nat)} {b b' : Nat}
    {c c' : Nat → Nat → K} (h : EqualBy n F F' b b' c c')
    (hp : ∀ i < n, filePoints (F' i) = filePoints (F i)) (hlt : ∀ i < n, ∀ j ∈ omap.getD i [], j < n) {i : Nat}
    (hi : i < n) {p : Nat} (hpl : p < (F i).points.length) : rawCorr F' omap b' c' i p = rawCorr F omap b c i p := by
  have hpt : ptAt F' i p = ptAt F i p := by unfold ptAt; rw [hp i hi]
  unfold rawCorr sumAt
  rw [cntAt_points hp (hlt i hi) hi, h i hi p hpl, hpt]
  congr 3
  congr 1
  apply List.map_congr_left
  intro j hj
  rw [h.at hp (hlt i hi j hj)]

omit [IsStrictOrderedRing K] in
theorem bandRound_equal {env env' : MergeEnv K} (hlin : env'.lin = env.lin) (hsim : env'.simplices = env.simplices)
    {n : Nat} {F F' : Nat → TileFile K} {omap : List (List Nat)} {b b' : Nat}
    {c c' : Nat → Nat → K} (h : EqualBy n F F' b b' c c')
    (hp : ∀ i < n, filePoints (F' i) = filePoints (F i)) (hlt : ∀ i < n, ∀ j ∈ omap.getD i [], j < n) (d : Nat)
    (hok : ∀ i < n, roundOk env F omap d i) :
    EqualBy n F F' b b' (bandRound env F omap b c d) (bandRound env' F' omap b' c' d) := by
  intro i hi p hpl
  have hlen := points_length_of (hp i hi)
  have hmask : ∀ q, maskAt F' omap d i q = maskAt F omap d i q := by
    intro q
    unfold maskAt
    rw [cntAt_points hp (hlt i hi) hi]
  have ht : touched F' omap d i = touched F omap d i := by
    unfold touched
    rw [hlen]
    congr 1
    funext q
    exact hmask q
  have hv := h i hi p hpl
  unfold bandValue at hv ⊢
  unfold bandRound
  rw [ht]
  by_cases htt : touched F omap d i = true
  · rw [if_pos htt, if_pos htt]
    obtain ⟨a, ha1, ha2, _⟩ := hok i hi htt
    have ha1' : lapOf env' (filePoints (F' i)) = .ok a := by
      rw [hp i hi, ← ha1]
      unfold lapOf
      rw [hsim]
    have : tileCorr env' F' omap d b' c' i p = tileCorr env F omap d b c i p := by
      unfold tileCorr
      rw [ha1, ha1']
      simp only
      rw [hlin]
      refine dirRow_congr (fun q _ => hmask q) (fun q hq => rawCorr_equal h hp hlt hi (by omega)) (by omega)
    rw [this]
    linear_combination hv
  · rw [if_neg htt, if_neg htt]
    exact hv

omit [IsStrictOrderedRing K] in
theorem bandAdjust_alone {env env' : MergeEnv K} (hlin : env'.lin = env.lin) (hsim : env'.simplices = env.simplices)
    {n : Nat} {F F' : Nat → TileFile K} {omap : List (List Nat)} {b b' : Nat}
    {c c' : Nat → Nat → K} (h : EqualBy n F F' b b' c c')
    (hp : ∀ i < n, filePoints (F' i) = filePoints (F i)) (hlt : ∀ i < n, ∀ j ∈ omap.getD i [], j < n) (d : Nat)
    (hok : adjustOk env n F omap d) :
    EqualBy n F F' b b' (bandAdjust env F omap d b c) (bandAdjust env' F' omap d b' c') := by
  unfold bandAdjust adjustOk at *
  generalize degrees d = ds at *
  induction ds generalizing c c' with
  | nil => exact h
  | cons d ds ih =>
    rw [List.foldl_cons, List.foldl_cons]
    exact ih (bandRound_equal hlin hsim h hp hlt d (hok d List.mem_cons_self))
      fun d' hd' => hok d' (List.mem_cons_of_mem _ hd')

end

section
variable {K : Type} [Field K] [LinearOrder K] [FloorRing K]

theorem foldlM_congr_mem {σ α : Type} {f g : σ → α → Except PyErr σ} {l : List α} (h : ∀ a ∈ l, ∀ s, f s a = g s a)
    (s : σ) : l.foldlM f s = l.foldlM g s := by
  induction l generalizing s with
  | nil => rfl
  | cons a l ih =>
    rw [List.foldlM_cons, List.foldlM_cons, h a List.mem_cons_self]
    congr 1
    funext s'
    exact ih (fun x hx => h x (List.mem_cons_of_mem _ hx)) s'

theorem bandRaster_equal {tau : K} {shape : Nat × Nat} {n : Nat} {F F' : Nat → TileFile K} {b b' : Nat}
    (hs : ∀ i < n, SameBand (F i) (F' i) b b') {c c' : Nat → Nat → K} (h : EqualBy n F F' b b' c c') :
    bandRaster tau shape n F' b' c' = bandRaster tau shape n F b c := by
  unfold bandRaster
  have h1 : (List.range n).foldlM (avgBand shape F' b' c') ⟨fun _ => 0, fun _ => 0, fun _ => none, fun _ => none⟩ =
      (List.range n).foldlM (avgBand shape F b c) ⟨fun _ => 0, fun _ => 0, fun _ => none, fun _ => none⟩ := by
    apply foldlM_congr_mem
    intro j hj acc
    have hj := List.mem_range.mp hj
    unfold avgBand
    rw [(hs j hj).points, points_length_of (hs j hj).points]
    have : (List.range (F j).points.length).map (bandValue F' b' c' j) =
        (List.range (F j).points.length).map (bandValue F b c j) := by
      apply List.map_congr_left
      intro p hp
      exact h j hj p (List.mem_range.mp hp)
    rw [this]
  rw [h1]
  congr 1
  funext acc
  have h2 : ∀ mean : Nat × Nat → K, (List.range n).foldlM (outBand tau shape F' b' mean) (fun _ => none) =
      (List.range n).foldlM (outBand tau shape F b mean) (fun _ => none) := by
    intro mean
    apply foldlM_congr_mem
    intro j hj acc
    have hj := List.mem_range.mp hj
    unfold outBand
    rw [(hs j hj).points, points_length_of (hs j hj).points]
    have : (List.range (F j).points.length).map (filePhase (F' j) b') =
        (List.range (F j).points.length).map (filePhase (F j) b) := by
      apply List.map_congr_left
      intro p hp
      exact (hs j hj).phase p (List.mem_range.mp hp)
    rw [this]
  simp only [h2]

theorem cyclesBetween_same {tau : K} {f f' g g' : TileFile K} {b b' : Nat} (hf : SameBand f f' b b') (hg : SameBand g g' b b') :
    cyclesBetween tau f' g' b' = cyclesBetween tau f g b := by
  unfold cyclesBetween
  rw [hf.points, hg.points]
  apply List.map_congr_left
  intro pix hp
  rw [List.mem_filter, decide_eq_true_eq] at hp
  rw [hf.at hp.1, hg.at hp.2]

variable [IsStrictOrderedRing K]

/-- The median offsets of one interferogram. -/
theorem median_same {tau : K} {minPoints : ℤ} {cc : Nat → List (Nat × Nat) → List Nat} {nifgs nifgs' : Nat}
    {tiles : TileSet} {files files' : Nat → Except PyErr (TileFile K)} {F F' : Nat → TileFile K}
    {olap olap' : OverlapFile} (hf : TileFilesOk nifgs tiles files F) (hf' : TileFilesOk nifgs' tiles files' F')
    (h : phasediffDeciles id tau minPoints cc tiles files = .ok (some olap))
    (h' : phasediffDeciles id tau minPoints cc tiles files' = .ok (some olap')) {b b' : Nat} (hb : b < nifgs) (hb' : b' < nifgs')
    (hs : ∀ i < tiles.tiles.length, SameBand (F i) (F' i) b b') {med med' : List (List ℤ)}
    (hm : medianOffsets olap = .ok med) (hm' : medianOffsets olap' = .ok med') :
    olap'.overlaps = olap.overlaps ∧ olap'.labels = olap.labels ∧ med.length = olap.overlaps.length ∧
    med'.length = olap.overlaps.length ∧
    ∀ (k i j : Nat), olap.overlaps[k]? = some (i, j) → ∃ x x' v, med[k]? = some x ∧ med'[k]? = some x' ∧
      x[b]? = some v ∧ x'[b']? = some v := by
  obtain ⟨ho, hlab⟩ := overlaps_points hf hf' h h' fun i hi => (hs i hi).points
  obtain ⟨l1, a1⟩ := median_entry hf h hm
  obtain ⟨l2, a2⟩ := median_entry hf' h' hm'
  refine ⟨ho, hlab, l1, by rw [l2, ho], ?_⟩
  intro k i j hk
  have hmem := List.mem_of_getElem? hk
  have hlt : i < tiles.tiles.length ∧ j < tiles.tiles.length := by
    obtain ⟨hsub, _⟩ := C53_recorded tau minPoints cc tiles files olap h
    obtain ⟨_, a, b, h2, h3, _⟩ := ((C25_overlaps tiles).1 i j).mp (hsub.subset hmem)
    exact ⟨(List.getElem?_eq_some_iff.mp h2).1, (List.getElem?_eq_some_iff.mp h3).1⟩
  obtain ⟨x, hx, hxl, hxb⟩ := a1 k i j hk
  obtain ⟨x', hx', hxl', hxb'⟩ := a2 k i j (by rw [ho]; exact hk)
  obtain ⟨_, _, n3⟩ := hxb b hb
  obtain ⟨_, _, n3'⟩ := hxb' b' hb'
  rw [cyclesBetween_same (hs i hlt.1) (hs j hlt.2)] at n3'
  obtain ⟨hp, hsrt⟩ := sortInt_spec (cyclesBetween tau (F i) (F j) b)
  have hmed : IsMedian (cyclesBetween tau (F i) (F j) b) _ := ⟨_, hp, hsrt, rfl⟩
  exact ⟨x, x', _, hx, hx', n3 _ hmed, n3' _ hmed⟩

omit [FloorRing K] in
/-- Least squares: the answer for one interferogram, whatever the others are. -/
theorem l2_same {ntiles nbands nbands' : Nat} {olaps : List (Nat × Nat)} {off off' : List (List K)}
    {counts : List Nat} (hi : L2Input ntiles nbands olaps off counts) (hi' : L2Input ntiles nbands' olaps off' counts)
    (hconn : ∀ t, t < ntiles → Relation.ReflTransGen (Adjacent olaps) 0 t) {lstsq : Lstsq K}
    (hls : LeastSquares (overlapMatrix olaps ntiles) off (lstsq (overlapMatrix olaps ntiles) off) ntiles nbands)
    (hls' : LeastSquares (overlapMatrix olaps ntiles) off' (lstsq (overlapMatrix olaps ntiles) off') ntiles nbands')
    {b b' : Nat} (hbn : b < nbands) (hbn' : b' < nbands')
    (hoff : ∀ k < olaps.length, (off'.getD k []).getD b' 0 = (off.getD k []).getD b 0) :
    ∃ x res x' res', solveL2Min lstsq olaps off nbands ntiles counts = .ok (x, res) ∧
      solveL2Min lstsq olaps off' nbands' ntiles counts = .ok (x', res') ∧ x'.getD b' [] = x.getD b [] := by
  obtain ⟨x, res, h, hx, hres, hb⟩ := C40_least_squares ntiles nbands olaps off counts hi lstsq hls
  obtain ⟨x', res', h', hx', hres', hb'⟩ := C40_least_squares ntiles nbands' olaps off' counts hi' lstsq hls'
  obtain ⟨r, hr, _⟩ := solveL2_unfold hi lstsq
  refine ⟨x, res, x', res', h, h', ?_⟩
  obtain ⟨row, h1, h2, h3, h4, h5⟩ := hb b hbn
  obtain ⟨row', h1', h2', h3', h4', h5'⟩ := hb' b' hbn'
  have hclen : (col off b).length = olaps.length := by simp [col, hi.offLen]
  have hcol : col off' b' = col off b := by
    apply List.ext_getElem
    · simp [col, hi.offLen, hi'.offLen]
    · intro k k1 k2
      have hk : k < olaps.length := by simpa [col, hi.offLen] using k2
      have := hoff k hk
      rw [List.getD_eq_getElem off' _ (by rw [hi'.offLen]; exact hk),
        List.getD_eq_getElem off _ (by rw [hi.offLen]; exact hk)] at this
      simp only [col, List.getElem_map]
      exact this
  rw [hcol] at h4'
  have hag := minimisers_agree hclen h4 h4'
  have hz : ∀ t, t < ntiles → row.getD t 0 - row.getD 0 0 = row'.getD t 0 - row'.getD 0 0 := by
    intro t ht
    have := hconn t ht
    clear ht
    induction this with
    | refl => simp
    | tail _ hbc ih =>
      rcases hbc with hbc | hbc
      · have := hag _ _ hbc; linear_combination ih + this
      · have := hag _ _ hbc; linear_combination ih - this
  have hrn : r < ntiles := by rw [← hi.countLen]; exact hr.1
  have h0 : row.getD r 0 = 0 := by rw [List.getD_eq_getElem?_getD, h3 r hr]; rfl
  have h0' : row'.getD r 0 = 0 := by rw [List.getD_eq_getElem?_getD, h3' r hr]; rfl
  have q1 : x.getD b [] = row := by rw [List.getD_eq_getElem?_getD, h1]; rfl
  have q2 : x'.getD b' [] = row' := by rw [List.getD_eq_getElem?_getD, h1']; rfl
  rw [q1, q2]
  apply List.ext_getElem
  · omega
  · intro t t1 t2
    have z1 := hz t (by omega)
    have z2 := hz r hrn
    rw [h0, h0'] at z2
    rw [← List.getD_eq_getElem _ 0 t1, ← List.getD_eq_getElem _ 0 t2]
    linear_combination z2 - z1

end

end Spurt
