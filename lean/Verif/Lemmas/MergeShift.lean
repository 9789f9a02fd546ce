import Verif.Props.MergeSeamless

/-!
# The merge of tiles that were shifted by one phase and by whole cycles
-/

namespace Spurt

/-- The tile files `F'` are the files `F` with `σ b` added to interferogram `b` of every tile and
`κ b i` cycles added to interferogram `b` of tile `i`. -/
structure Spec.Shifted {K : Type} [Field K] (tau : K) (n nifgs : Nat) (F F' : Nat → TileFile K) (σ : Nat → K)
    (κ : Nat → Nat → ℤ) : Prop where
  points : ∀ i < n, Spec.filePoints (F' i) = Spec.filePoints (F i)
  phase : ∀ b < nifgs, ∀ i < n, ∀ p < (F i).points.length,
    filePhase (F' i) b p = filePhase (F i) b p + σ b + (κ b i : K) * tau

open Spec

section
variable {K : Type} [Field K]

theorem points_length_of {f f' : TileFile K} (h : filePoints f' = filePoints f) :
    f'.points.length = f.points.length := by
  rw [← filePoints_length, h, filePoints_length]

theorem cntAt_points {n : Nat} {F F' : Nat → TileFile K} (hp : ∀ i < n, filePoints (F' i) = filePoints (F i))
    {l : List Nat} (hl : ∀ j ∈ l, j < n) {i : Nat} (hi : i < n) (p : Nat) : cntAt F' l i p = cntAt F l i p := by
  unfold cntAt
  have hpt : ptAt F' i p = ptAt F i p := by unfold ptAt; rw [hp i hi]
  rw [hpt]
  congr 2
  apply List.filter_congr
  intro j hj
  rw [hp j (hl j hj)]

/-- All values of the tiles are moved by `s` of their pixel. -/
def MovedBy (n : Nat) (F F' : Nat → TileFile K) (b : Nat) (c c' : Nat → Nat → K) (s : ℤ × ℤ → K) : Prop :=
  ∀ i < n, ∀ p < (F i).points.length, bandValue F' b c' i p = bandValue F b c i p + s (ptAt F i p)

theorem MovedBy.at {n : Nat} {F F' : Nat → TileFile K} {b : Nat} {c c' : Nat → Nat → K} {s : ℤ × ℤ → K}
    (h : MovedBy n F F' b c c' s) (hp : ∀ i < n, filePoints (F' i) = filePoints (F i)) {i : Nat} (hi : i < n)
    (pix : ℤ × ℤ) : bandAt F' b c' i pix = (bandAt F b c i pix).map (· + s pix) := by
  unfold bandAt
  rw [hp i hi]
  by_cases hm : pix ∈ filePoints (F i)
  · have hl := List.idxOf_lt_length_iff.mpr hm
    have hpt : ptAt F i ((filePoints (F i)).idxOf pix) = pix := by
      unfold ptAt
      rw [List.getD_eq_getElem _ _ hl, List.getElem_idxOf hl]
    rw [if_pos hm, if_pos hm, Option.map_some, h i hi _ (by rw [← filePoints_length]; exact hl), hpt]
  · rw [if_neg hm, if_neg hm]; rfl

variable [LinearOrder K] [IsStrictOrderedRing K]

theorem rawCorr_moved {n : Nat} {F F' : Nat → TileFile K} {omap : List (List Nat)} {b : Nat}
    {c c' : Nat → Nat → K} {s : ℤ × ℤ → K} (h : MovedBy n F F' b c c' s)
    (hp : ∀ i < n, filePoints (F' i) = filePoints (F i)) (hlt : ∀ i < n, ∀ j ∈ omap.getD i [], j < n) {i : Nat}
    (hi : i < n) {p : Nat} (hpl : p < (F i).points.length) : rawCorr F' omap b c' i p = rawCorr F omap b c i p := by
  have hpt : ptAt F' i p = ptAt F i p := by unfold ptAt; rw [hp i hi]
  have hsum : sumAt F' b c' (omap.getD i []) i p =
      sumAt F b c (omap.getD i []) i p + (cntAt F (omap.getD i []) i p : K) * s (ptAt F i p) := by
    unfold sumAt cntAt
    rw [h i hi p hpl, hpt]
    have key : ∀ l : List Nat, (∀ j ∈ l, j < n) →
        (l.map fun j => (bandAt F' b c' j (ptAt F i p)).getD 0).sum =
        (l.map fun j => (bandAt F b c j (ptAt F i p)).getD 0).sum +
        ((l.filter fun j => decide (ptAt F i p ∈ filePoints (F j))).length : K) * s (ptAt F i p) := by
      intro l
      induction l with
      | nil => simp
      | cons j l ih =>
        intro hl
        rw [List.map_cons, List.sum_cons, List.map_cons, List.sum_cons, List.filter_cons,
          ih fun x hx => hl x (List.mem_cons_of_mem _ hx), h.at hp (hl j List.mem_cons_self)]
        by_cases hj : ptAt F i p ∈ filePoints (F j)
        · unfold bandAt
          simp only [hj, if_true, decide_true, Option.map_some, Option.getD_some, List.length_cons,
            Nat.cast_add, Nat.cast_one]
          ring
        · unfold bandAt
          simp [hj]
    rw [key _ (hlt i hi)]
    push_cast
    ring
  unfold rawCorr
  rw [hsum, cntAt_points hp (hlt i hi) hi, h i hi p hpl]
  have : (cntAt F (omap.getD i []) i p : K) ≠ 0 := by
    have : 0 < cntAt F (omap.getD i []) i p := by unfold cntAt; omega
    exact_mod_cast this.ne'
  field_simp
  ring

theorem bandRound_moved {env env' : MergeEnv K} (hlin : env'.lin = env.lin) (hsim : env'.simplices = env.simplices)
    {n : Nat} {F F' : Nat → TileFile K} {omap : List (List Nat)} {b : Nat}
    {c c' : Nat → Nat → K} {s : ℤ × ℤ → K} (h : MovedBy n F F' b c c' s)
    (hp : ∀ i < n, filePoints (F' i) = filePoints (F i)) (hlt : ∀ i < n, ∀ j ∈ omap.getD i [], j < n) (d : Nat)
    (hok : ∀ i < n, roundOk env F omap d i) :
    MovedBy n F F' b (bandRound env F omap b c d) (bandRound env' F' omap b c' d) s := by
  intro i hi p hpl
  have hlen := points_length_of (hp i hi)
  have hmask : ∀ q, maskAt F' omap d i q = maskAt F omap d i q := by
    intro q
    unfold maskAt
    rw [cntAt_points hp (hlt i hi) hi]
  have ht : touched F' omap d i = touched F omap d i := by
    unfold touched
    rw [hlen]
    congr 1
    funext q
    exact hmask q
  have hv := h i hi p hpl
  unfold bandValue at hv ⊢
  unfold bandRound
  rw [ht]
  by_cases htt : touched F omap d i = true
  · rw [if_pos htt, if_pos htt]
    obtain ⟨a, ha1, ha2, _⟩ := hok i hi htt
    have ha1' : lapOf env' (filePoints (F' i)) = .ok a := by
      rw [hp i hi, ← ha1]
      unfold lapOf
      rw [hsim]
    have : tileCorr env' F' omap d b c' i p = tileCorr env F omap d b c i p := by
      unfold tileCorr
      rw [ha1, ha1']
      simp only
      rw [hlin]
      refine dirRow_congr (fun q _ => hmask q) (fun q hq => rawCorr_moved h hp hlt hi (by omega)) (by omega)
    rw [this]
    linear_combination hv
  · rw [if_neg htt, if_neg htt]
    exact hv

theorem bandAdjust_moved {env env' : MergeEnv K} (hlin : env'.lin = env.lin) (hsim : env'.simplices = env.simplices)
    {n : Nat} {F F' : Nat → TileFile K} {omap : List (List Nat)} {b : Nat}
    {c c' : Nat → Nat → K} {s : ℤ × ℤ → K} (h : MovedBy n F F' b c c' s)
    (hp : ∀ i < n, filePoints (F' i) = filePoints (F i)) (hlt : ∀ i < n, ∀ j ∈ omap.getD i [], j < n) (d : Nat)
    (hok : adjustOk env n F omap d) :
    MovedBy n F F' b (bandAdjust env F omap d b c) (bandAdjust env' F' omap d b c') s := by
  unfold bandAdjust adjustOk at *
  generalize degrees d = ds at *
  induction ds generalizing c c' with
  | nil => exact h
  | cons d ds ih =>
    rw [List.foldl_cons, List.foldl_cons]
    exact ih (bandRound_moved hlin hsim h hp hlt d (hok d List.mem_cons_self))
      fun d' hd' => hok d' (List.mem_cons_of_mem _ hd')

end

section
variable {K : Type} [Field K] [LinearOrder K] [FloorRing K] [IsStrictOrderedRing K]

omit [IsStrictOrderedRing K] in
theorem getMaxDegree_points {n : Nat} {F F' : Nat → TileFile K} (hp : ∀ i < n, filePoints (F' i) = filePoints (F i))
    (shape : Nat × Nat) :
    getMaxDegree ((List.range n).map fun j => TileState.start (F' j)) shape =
      getMaxDegree ((List.range n).map fun j => TileState.start (F j)) shape := by
  unfold getMaxDegree
  rw [List.foldlM_map, List.foldlM_map]
  have : ∀ (l : List Nat) (a : Nat × Nat → Nat), (∀ j ∈ l, j < n) →
      (l.foldlM (fun (count : Nat × Nat → Nat) j => do
        let px ← pixelsOf shape (TileState.start (F' j)).coords
        pure (fancySet count px (px.map fun p => (count p + 1) % 256))) a : Except PyErr _) =
      l.foldlM (fun (count : Nat × Nat → Nat) j => do
        let px ← pixelsOf shape (TileState.start (F j)).coords
        pure (fancySet count px (px.map fun p => (count p + 1) % 256))) a := by
    intro l
    induction l with
    | nil => intro a _; rfl
    | cons j l ih =>
      intro a hl
      rw [List.foldlM_cons, List.foldlM_cons]
      have hc : (TileState.start (F' j)).coords = (TileState.start (F j)).coords :=
        hp j (hl j List.mem_cons_self)
      rw [hc]
      congr 1
      funext a'
      exact ih a' fun x hx => hl x (List.mem_cons_of_mem _ hx)
  rw [this _ _ fun j hj => List.mem_range.mp hj]

/-- `merged_band`, with the overlap map and the degree given. -/
theorem merged_band_at {tau : K} {minPoints : ℤ} {cc : Nat → List (Nat × Nat) → List Nat}
    {nifgs : Nat} {tiles : TileSet} {files : Nat → Except PyErr (TileFile K)} {F : Nat → TileFile K}
    {env : MergeEnv K} {bulk : BulkFile K} {settings : MergerSettings}
    (h : MergeInput tau minPoints cc nifgs tiles files F env.overlap bulk settings) {isFile : Nat → Bool}
    {out : List (Nat × MergedBand K)}
    (hm : mergeTiles tau env settings tiles files bulk nifgs isFile = .ok (.merged out)) {b : Nat} {m : MergedBand K}
    (hb : (b, m) ∈ out) {omap : List (List Nat)} {d : Nat}
    (h1 : overlapMap env.overlap.labels.length env.overlap.overlaps = .ok omap)
    (hd : getMaxDegree ((List.range tiles.tiles.length).map fun j => TileState.start (F j)) (imageShape tiles) = .ok d) :
    b < nifgs ∧ Ready tiles.tiles.length nifgs (imageShape tiles) F env.overlap omap bulk.offsets ∧
      adjustOk env tiles.tiles.length F omap d ∧
      bandRaster tau (imageShape tiles) tiles.tiles.length F b
        (finalCorr tau env F omap d bulk.offsets b) = .ok m := by
  obtain ⟨omap', h1', h2, _⟩ := ready_of_input h
  rw [h1, Except.ok.injEq] at h1'
  subst h1'
  obtain ⟨k1, k2⟩ := mergeTiles_eq h h1 h2 hd isFile
  by_cases hok : adjustOk env tiles.tiles.length F omap d ∨ missing nifgs isFile = []
  · rw [k1 hok] at hm
    simp only [Except.ok.injEq, MergeResult.merged.injEq] at hm
    rw [← hm, List.mem_map] at hb
    obtain ⟨i, hi, he⟩ := hb
    simp only [Prod.mk.injEq] at he
    obtain ⟨rfl, rfl⟩ := he
    have hadj : adjustOk env tiles.tiles.length F omap d := by
      rcases hok with hok | hok
      · exact hok
      · rw [hok] at hi; simp at hi
    have hi2 : i < nifgs ∧ isFile i = false := by simpa [missing] using hi
    refine ⟨hi2.1, h2, hadj, ?_⟩
    obtain ⟨m, hm⟩ := bandRaster_ok (tau := tau) h2.inside i (finalCorr tau env F omap d bulk.offsets i)
    unfold finalRaster
    rw [hm]
  · obtain ⟨e, he⟩ := k2 hok
    rw [he] at hm
    simp at hm

/-- Files with the same pixels give the same list of overlaps. -/
theorem overlaps_points {tau : K} {minPoints : ℤ} {cc : Nat → List (Nat × Nat) → List Nat} {nifgs nifgs' : Nat}
    {tiles : TileSet} {files files' : Nat → Except PyErr (TileFile K)} {F F' : Nat → TileFile K}
    {f f' : OverlapFile} (hf : TileFilesOk nifgs tiles files F) (hf' : TileFilesOk nifgs' tiles files' F')
    (h : phasediffDeciles id tau minPoints cc tiles files = .ok (some f))
    (h' : phasediffDeciles id tau minPoints cc tiles files' = .ok (some f'))
    (hp : ∀ i < tiles.tiles.length, filePoints (F' i) = filePoints (F i)) :
    f'.overlaps = f.overlaps ∧ f'.labels = f.labels := by
  obtain ⟨s1, _, l1, r1⟩ := C53_recorded tau minPoints cc tiles files f h
  obtain ⟨s2, _, l2, r2⟩ := C53_recorded tau minPoints cc tiles files' f' h'
  obtain ⟨_, hsort, _⟩ := C25_overlaps tiles
  have hmem : ∀ e, e ∈ f'.overlaps ↔ e ∈ f.overlaps := by
    rintro ⟨i, j⟩
    by_cases he : (i, j) ∈ tiles.getOverlaps
    · obtain ⟨bi, bj, fi, fj, e1, e2, e3, e4, e5, _⟩ := r1 i j he
      obtain ⟨bi', bj', fi', fj', g1, g2, g3, g4, g5, _⟩ := r2 i j he
      rw [e1, Option.some.injEq] at g1
      rw [e2, Option.some.injEq] at g2
      subst g1 g2
      have hi : i < tiles.tiles.length := (List.getElem?_eq_some_iff.mp e1).1
      have hj : j < tiles.tiles.length := (List.getElem?_eq_some_iff.mp e2).1
      rw [hf.read i hi, Except.ok.injEq] at e3
      rw [hf.read j hj, Except.ok.injEq] at e4
      rw [hf'.read i hi, Except.ok.injEq] at g3
      rw [hf'.read j hj, Except.ok.injEq] at g4
      subst e3 e4 g3 g4
      rw [e5, g5, filePoints_box (hf.box i _ e1), filePoints_box (hf.box j _ e2),
        filePoints_box (hf'.box i _ e1), filePoints_box (hf'.box j _ e2), hp i hi, hp j hj]
    · exact ⟨fun hh => absurd (s2.subset hh) he, fun hh => absurd (s1.subset hh) he⟩
  have heq : f'.overlaps = f.overlaps := by
    refine List.Perm.eq_of_pairwise (le := fun p q => p.1 < q.1 ∨ (p.1 = q.1 ∧ p.2 < q.2)) ?_ (hsort.sublist s2)
      (hsort.sublist s1) ?_
    · rintro ⟨a, b⟩ ⟨c, d⟩ _ _ h1 h2
      simp only at h1 h2
      rcases h1 with h1 | h1 <;> rcases h2 with h2 | h2 <;> omega
    · exact (List.perm_ext_iff_of_nodup (s2.nodup (C25_overlaps tiles).2.2) (s1.nodup (C25_overlaps tiles).2.2)).mpr hmem
  exact ⟨heq, by rw [l1, l2, heq]⟩

omit [FloorRing K] in
theorem sum_map_add_const (l : List K) (s : K) : (l.map (· + s)).sum = l.sum + l.length * s := by
  induction l with
  | nil => simp
  | cons a l ih => simp only [List.map_cons, List.sum_cons, ih, List.length_cons]; push_cast; ring

/-- The rasters of tiles that are moved by one phase and by whole cycles. -/
theorem raster_shift {tau : K} (htau : 0 < tau) {shape : Nat × Nat} {n : Nat} (hn : 0 < n) {F F' : Nat → TileFile K}
    (hin : ∀ j < n, ∀ c ∈ filePoints (F j), Inside shape c) (hnd : ∀ j < n, (filePoints (F j)).Nodup)
    (hw : ∀ j < n, ((F j).uw.headD []).length = (F j).points.length)
    (hw' : ∀ j < n, ((F' j).uw.headD []).length = (F' j).points.length) {b : Nat}
    (hb : ∀ j < n, b < (F j).uw.length ∧ b < (F j).phaseOffset.length)
    (hb' : ∀ j < n, b < (F' j).uw.length ∧ b < (F' j).phaseOffset.length)
    (hp : ∀ i < n, filePoints (F' i) = filePoints (F i)) {c c' : Nat → Nat → K} {σ : ℤ × ℤ → K} {k0 : ℤ} {κ : Nat → ℤ}
    (hphase : ∀ i < n, ∀ p < (F i).points.length, filePhase (F' i) b p = filePhase (F i) b p + σ (ptAt F i p) + (κ i : K) * tau)
    (hmv : MovedBy n F F' b c c' fun pix => σ pix + k0 * tau) {m m' : MergedBand K}
    (h : bandRaster tau shape n F b c = .ok m) (h' : bandRaster tau shape n F' b c' = .ok m')
    {psi : ℤ × ℤ → K} (hpsi : ∀ i < n, ∀ (p : Nat) pix, (filePoints (F i))[p]? = some pix →
      ∃ k : ℤ, filePhase (F i) b p = psi pix + k * tau) (r q : Nat) :
    m'.diff.val r q = m.diff.val r q ∧
    m'.model.val r q = (m.model.val r q).map (· + (σ ((r : ℤ), (q : ℤ)) + k0 * tau)) ∧
    ((∀ v mean, m.out.val r q = some v → m.model.val r q = some mean → |v - mean| ≠ tau / 2) →
      m'.out.val r q = (m.out.val r q).map (· + (σ ((r : ℤ), (q : ℤ)) + k0 * tau))) := by
  set pix : ℤ × ℤ := ((r : ℤ), (q : ℤ)) with hpix
  have hvals : ((List.range n).filterMap fun j => bandAt F' b c' j pix) =
      ((List.range n).filterMap fun j => bandAt F b c j pix).map (· + (σ pix + k0 * tau)) := by
    rw [List.map_filterMap]
    apply List.filterMap_congr
    intro j hj
    exact hmv.at hp (List.mem_range.mp hj) pix
  obtain ⟨k1, k2, k3, k4⟩ := bandRaster_at hn hin hnd hw hb h r q _ rfl
  obtain ⟨k1', k2', k3', k4'⟩ := bandRaster_at hn (fun j hj => by rw [hp j hj]; exact hin j hj)
    (fun j hj => by rw [hp j hj]; exact hnd j hj) hw' hb' h' r q _ rfl
  rw [← hpix] at k1 k2 k3 k4 k1' k2' k3' k4'
  rw [hvals] at k2' k3' k4'
  have hlenE : ((List.range n).filterMap fun j => bandAt F b c j pix).length = (covering n F pix).length :=
    values_length ..
  set vals := (List.range n).filterMap fun j => bandAt F b c j pix with hvalsdef
  rw [List.length_map] at k2' k3' k4'
  set s := σ pix + k0 * tau with hs
  refine ⟨?_, ?_⟩
  · by_cases hl : vals.length < 2
    · rw [k3 hl, k3' hl]
    · obtain ⟨lo, hlo, hi, hhi, hb1, e⟩ := k4 (by omega)
      obtain ⟨lo', hlo', hi', hhi', hb2, e'⟩ := k4' (by omega)
      rw [e, e']
      obtain ⟨lo1, hlo1, rfl⟩ := List.mem_map.mp hlo'
      obtain ⟨hi1, hhi1, rfl⟩ := List.mem_map.mp hhi'
      have a1 := (hb2 _ (List.mem_map.mpr ⟨lo, hlo, rfl⟩)).1
      have a2 := (hb2 _ (List.mem_map.mpr ⟨hi, hhi, rfl⟩)).2
      have a3 := (hb1 _ hlo1).1
      have a4 := (hb1 _ hhi1).2
      congr 1
      linarith
  · by_cases hcov : ∃ j < n, pix ∈ filePoints (F j)
    · obtain ⟨mean, e1, e2, j, hj, hpj, x, hx, hout⟩ := k2 hcov
      obtain ⟨mean', e1', e2', j', hj', hpj', x', hx', hout'⟩ := k2' (by
        obtain ⟨j, hj, hpj⟩ := hcov
        exact ⟨j, hj, by rw [hp j hj]; exact hpj⟩)
      rw [hp j' hj'] at hpj' hx'
      have hpos : (vals.length : K) ≠ 0 := by
        rw [hlenE]
        intro hz
        have hz : (covering n F pix).length = 0 := by exact_mod_cast hz
        have : j ∈ covering n F pix := by
          unfold covering; simp only [List.mem_filter, List.mem_range, decide_eq_true_eq]; exact ⟨hj, hpj⟩
        rw [List.length_eq_zero_iff.mp hz] at this
        simp at this
      have hmean : mean' = mean + s := by
        rw [sum_map_add_const, ← e2] at e2'
        apply mul_right_cancel₀ hpos
        rw [e2']; ring
      refine ⟨by rw [e1, e1', hmean]; rfl, ?_⟩
      intro htie
      have ht := htie _ _ hout e1
      rw [hout, hout', Option.map_some]
      have hpl := List.idxOf_lt_length_iff.mpr hpj
      have hpl' := List.idxOf_lt_length_iff.mpr hpj'
      obtain ⟨k, hk⟩ := hpsi j hj _ _ (by rw [List.getElem?_eq_getElem hpl, List.getElem_idxOf hpl])
      obtain ⟨k', hk'⟩ := hpsi j' hj' _ _ (by rw [List.getElem?_eq_getElem hpl', List.getElem_idxOf hpl'])
      have hpt : ptAt F j' ((filePoints (F j')).idxOf pix) = pix := by
        unfold ptAt
        rw [List.getD_eq_getElem _ _ hpl', List.getElem_idxOf hpl']
      rw [hphase j' hj' _ (by rw [← filePoints_length]; exact hpl'), hk', hpt] at hx'
      rw [hk] at hx
      set N : ℤ := k' + κ j' - k - k0 with hN
      have hx2 : x' = x + s + N * tau := by
        rw [hx, hx', hs, hN]; push_cast; ring
      have hz : (x' - mean') / tau = (x - mean) / tau + N := by
        rw [hx2, hmean]; field_simp; ring
      have hnt : ∀ t : ℤ, (x - mean) / tau ≠ t + 1 / 2 := by
        intro t hte
        apply ht
        have hxm : x - mean = tau * (t + 1 / 2) := by rw [← hte]; field_simp
        have hr := rint_tie (K := K) t
        rw [hte, hr]
        split_ifs with hpar
        · have : x - tau * ((t : ℤ) : K) - mean = tau / 2 := by
            rw [show x = mean + tau * (t + 1 / 2) by rw [← hxm]; ring]; ring
          rw [this, abs_of_pos (by linarith)]
        · have : x - tau * ((t + 1 : ℤ) : K) - mean = -(tau / 2) := by
            rw [show x = mean + tau * (t + 1 / 2) by rw [← hxm]; ring]; push_cast; ring
          rw [this, abs_neg, abs_of_pos (by linarith)]
      rw [hz, rint_add_int _ _ hnt, hx2]
      push_cast
      congr 1
      ring
    · have hno : ∀ j < n, pix ∉ filePoints (F j) := fun j hj hpj => hcov ⟨j, hj, hpj⟩
      obtain ⟨a1, _, a3⟩ := k1 hno
      obtain ⟨b1, _, b3⟩ := k1' fun j hj => by rw [hp j hj]; exact hno j hj
      rw [a1, a3, b1, b3]
      exact ⟨rfl, fun _ => rfl⟩

end

end Spurt
