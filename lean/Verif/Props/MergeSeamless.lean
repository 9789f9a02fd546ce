import Verif.Props.MergeTiles

/-!
# Properties C46 and C56: merging tiles that differ by whole cycles, and agreement after adjustment
-/

namespace Spurt

open Spec

section
variable {K : Type} [Field K] [LinearOrder K] [FloorRing K] [IsStrictOrderedRing K]

/-- A raster written by the merge. -/
theorem merged_band {tau : K} {minPoints : ℤ} {cc : Nat → List (Nat × Nat) → List Nat}
    {nifgs : Nat} {tiles : TileSet} {files : Nat → Except PyErr (TileFile K)} {F : Nat → TileFile K}
    {env : MergeEnv K} {bulk : BulkFile K} {settings : MergerSettings}
    (h : MergeInput tau minPoints cc nifgs tiles files F env.overlap bulk settings) {isFile : Nat → Bool}
    {out : List (Nat × MergedBand K)}
    (hm : mergeTiles tau env settings tiles files bulk nifgs isFile = .ok (.merged out)) {b : Nat} {m : MergedBand K}
    (hb : (b, m) ∈ out) :
    b < nifgs ∧ isFile b = false ∧ ∃ omap d, overlapMap env.overlap.labels.length env.overlap.overlaps = .ok omap ∧
      Ready tiles.tiles.length nifgs (imageShape tiles) F env.overlap omap bulk.offsets ∧
      (∀ i < tiles.tiles.length, (omap.getD i []).Nodup) ∧
      (∀ i < tiles.tiles.length, i ∉ omap.getD i []) ∧
      (∀ i < tiles.tiles.length, ∀ j, j ∈ omap.getD i [] ↔ Recorded env.overlap i j) ∧
      adjustOk env tiles.tiles.length F omap d ∧
      (tiles.tiles.length < 256 → ∀ pix, (covering tiles.tiles.length F pix).length ≤ d) ∧
      bandRaster tau (imageShape tiles) tiles.tiles.length F b
        (finalCorr tau env F omap d bulk.offsets b) = .ok m := by
  obtain ⟨omap, h1, h2, h3, h4, h5⟩ := ready_of_input h
  have hshape : 0 < (imageShape tiles).1 ∧ 0 < (imageShape tiles).2 := by
    have := h.image
    simp only [imageShape]
    omega
  obtain ⟨d, hd⟩ := getMaxDegree_ok (n := tiles.tiles.length) (F := F) hshape h2.inside
  obtain ⟨k1, k2⟩ := mergeTiles_eq h h1 h2 hd isFile
  by_cases hok : adjustOk env tiles.tiles.length F omap d ∨ missing nifgs isFile = []
  · rw [k1 hok] at hm
    simp only [Except.ok.injEq, MergeResult.merged.injEq] at hm
    rw [← hm, List.mem_map] at hb
    obtain ⟨i, hi, he⟩ := hb
    simp only [Prod.mk.injEq] at he
    obtain ⟨rfl, rfl⟩ := he
    have hadj : adjustOk env tiles.tiles.length F omap d := by
      rcases hok with hok | hok
      · exact hok
      · rw [hok] at hi; simp at hi
    have hi2 : i < nifgs ∧ isFile i = false := by simpa [missing] using hi
    refine ⟨hi2.1, hi2.2, omap, d, h1, h2, h3, h4, h5, hadj, ?_, ?_⟩
    · intro hn
      obtain ⟨d', e1, e2⟩ := getMaxDegree_spec hshape hn h2.inside h2.map.once
      rw [hd, Except.ok.injEq] at e1
      subst e1
      exact e2
    · obtain ⟨m, hm⟩ := bandRaster_ok (tau := tau) h2.inside i (finalCorr tau env F omap d bulk.offsets i)
      unfold finalRaster
      rw [hm]
  · obtain ⟨e, he⟩ := k2 hok
    rw [he] at hm
    simp at hm

/-! ### C46 -/

omit [FloorRing K] [IsStrictOrderedRing K] [LinearOrder K] in
theorem values_length (n : Nat) (F : Nat → TileFile K) (b : Nat) (c : Nat → Nat → K) (pix : ℤ × ℤ) :
    ((List.range n).filterMap fun j => bandAt F b c j pix).length = (covering n F pix).length := by
  unfold covering
  generalize List.range n = l
  induction l with
  | nil => rfl
  | cons j l ih =>
    by_cases hp : pix ∈ filePoints (F j)
    · simp [bandAt, hp] at ih ⊢
      exact ih
    · simp [bandAt, hp] at ih ⊢
      exact ih

omit [Field K] [FloorRing K] [IsStrictOrderedRing K] [LinearOrder K] in
theorem covering_two (n : Nat) (F : Nat → TileFile K) (pix : ℤ × ℤ) : 2 ≤ (covering n F pix).length ↔
    ∃ i j, i < j ∧ j < n ∧ pix ∈ filePoints (F i) ∧ pix ∈ filePoints (F j) := by
  constructor
  · intro h2
    have hs : (covering n F pix).Pairwise (· < ·) :=
      List.pairwise_lt_range.sublist List.filter_sublist
    have m0 := List.getElem_mem (l := covering n F pix) (n := 0) (by omega)
    have m1 := List.getElem_mem (l := covering n F pix) (n := 1) (by omega)
    have hlt := List.pairwise_iff_getElem.mp hs 0 1 (by omega) (by omega) (by omega)
    generalize (covering n F pix)[0]'(by omega) = i at *
    generalize (covering n F pix)[1]'(by omega) = j at *
    unfold covering at m0 m1
    simp only [List.mem_filter, List.mem_range, decide_eq_true_eq] at m0 m1
    exact ⟨i, j, hlt, m1.1, m0.2, m1.2⟩
  · rintro ⟨i, j, hij, hj, h1, h2⟩
    have hi' : i ∈ covering n F pix := by
      unfold covering; simp only [List.mem_filter, List.mem_range, decide_eq_true_eq]; exact ⟨by omega, h1⟩
    have hj' : j ∈ covering n F pix := by
      unfold covering; simp only [List.mem_filter, List.mem_range, decide_eq_true_eq]; exact ⟨hj, h2⟩
    by_contra hlt
    match hc : covering n F pix, hi', hj', hlt with
    | [], hi', _, _ => simp at hi'
    | [a], hi', hj', _ =>
      simp only [List.mem_singleton] at hi' hj'
      omega
    | a :: a' :: l, _, _, hlt => simp at hlt

/-- C46. Every tile file holds the field `phi` plus `c i` cycles in interferogram `b`, and the bulk
offset of every tile is its number of cycles less a common number. Then the raster written for the
interferogram is the field plus that number of cycles at every covered pixel, its spread is 0 where
tiles overlap, and it is empty elsewhere. -/
theorem C46_seamless (tau : K) (htau : 0 < tau) (minPoints : ℤ) (cc : Nat → List (Nat × Nat) → List Nat)
    (nifgs : Nat) (tiles : TileSet) (files : Nat → Except PyErr (TileFile K)) (F : Nat → TileFile K)
    (env : MergeEnv K) (bulk : BulkFile K) (settings : MergerSettings)
    (h : MergeInput tau minPoints cc nifgs tiles files F env.overlap bulk settings) (isFile : Nat → Bool)
    (out : List (Nat × MergedBand K))
    (hm : mergeTiles tau env settings tiles files bulk nifgs isFile = .ok (.merged out)) (b : Nat) (m : MergedBand K)
    (hb : (b, m) ∈ out) (phi : ℤ × ℤ → K) (c : Nat → ℤ) (c0 : ℤ)
    (hphi : ∀ i < tiles.tiles.length, ∀ (p : Nat) pix, (filePoints (F i))[p]? = some pix →
      filePhase (F i) b p = phi pix + tau * c i)
    (hbulk : ∀ i < tiles.tiles.length, (bulk.offsets.getD b []).getD i 0 = ((c i - c0 : ℤ) : K)) (r q : Nat) :
    ((∃ i < tiles.tiles.length, ((r : ℤ), (q : ℤ)) ∈ filePoints (F i)) →
      m.out.val r q = some (phi (r, q) + tau * c0) ∧ m.model.val r q = some (phi (r, q) + tau * c0)) ∧
    ((∀ i < tiles.tiles.length, ((r : ℤ), (q : ℤ)) ∉ filePoints (F i)) →
      m.out.val r q = none ∧ m.model.val r q = none) ∧
    ((∃ i j, i < j ∧ j < tiles.tiles.length ∧ ((r : ℤ), (q : ℤ)) ∈ filePoints (F i) ∧
        ((r : ℤ), (q : ℤ)) ∈ filePoints (F j)) → m.diff.val r q = some 0) ∧
    (¬ (∃ i j, i < j ∧ j < tiles.tiles.length ∧ ((r : ℤ), (q : ℤ)) ∈ filePoints (F i) ∧
        ((r : ℤ), (q : ℤ)) ∈ filePoints (F j)) → m.diff.val r q = none) := by
  obtain ⟨hbn, _, omap, d, _, hr, hnd, hself, hrec, hok, _, hras⟩ := merged_band h hm hb
  set n := tiles.tiles.length with hn
  set start : Nat → Nat → K := fun j _ => -(tau * bulkAt bulk.offsets b j) with hstart
  have hval : ∀ i < n, ∀ pix x, bandAt F b start i pix = some x → x = phi pix + tau * c0 := by
    intro i hi pix x hx
    unfold bandAt at hx
    by_cases hp : pix ∈ filePoints (F i)
    · rw [if_pos hp, Option.some.injEq] at hx
      have hpl := List.idxOf_lt_length_iff.mpr hp
      unfold bandValue at hx
      rw [hphi i hi _ pix (by rw [List.getElem?_eq_getElem hpl, List.getElem_idxOf hpl])] at hx
      rw [← hx, hstart]
      simp only [bulkAt, hbulk i hi]
      push_cast
      ring
    · rw [if_neg hp] at hx; simp at hx
  have hag : Agree n F b start := by
    intro i hi j hj pix x y hx hy
    rw [hval i hi pix x hx, hval j hj pix y hy]
  have hsame := bandAdjust_agree (env := env) (omap := omap) (b := b) (c := start) hr.map.lt hr.map.once hag d hok
  have hval' : ∀ i < n, ∀ pix x, bandAt F b (finalCorr tau env F omap d bulk.offsets b) i pix = some x →
      x = phi pix + tau * c0 := by
    intro i hi pix x hx
    refine hval i hi pix x ?_
    rw [hsame.bandAt_eq b hi]
    exact hx
  obtain ⟨k1, k2, k3, k4⟩ := bandRaster_at hr.two hr.inside hr.map.once hr.width
    (fun j hj => hr.bands j hj b hbn) hras r q _ rfl
  set vals := (List.range n).filterMap fun j => bandAt F b (finalCorr tau env F omap d bulk.offsets b) j ((r : ℤ), (q : ℤ)) with hvals
  have hmem : ∀ x ∈ vals, x = phi (r, q) + tau * c0 := by
    intro x hx
    rw [hvals, List.mem_filterMap] at hx
    obtain ⟨j, hj, hxj⟩ := hx
    exact hval' j (List.mem_range.mp hj) _ x hxj
  have hlen : vals.length = (covering n F ((r : ℤ), (q : ℤ))).length := values_length ..
  have htwo := covering_two n F ((r : ℤ), (q : ℤ))
  refine ⟨?_, ?_, ?_, ?_⟩
  · intro hcov
    obtain ⟨mean, e1, e2, j, hj, hpj, x, hx, hout⟩ := k2 hcov
    have hpos : vals.length ≠ 0 := by
      rw [hlen]
      intro hz
      have : j ∈ covering n F ((r : ℤ), (q : ℤ)) := by
        unfold covering; simp only [List.mem_filter, List.mem_range, decide_eq_true_eq]; exact ⟨hj, hpj⟩
      rw [List.length_eq_zero_iff.mp hz] at this
      simp at this
    have hsum : vals.sum = (vals.length : K) * (phi (r, q) + tau * c0) := by
      rw [List.sum_eq_card_nsmul vals _ hmem, nsmul_eq_mul]
    have hmean : mean = phi (r, q) + tau * c0 := by
      rw [hsum, mul_comm] at e2
      exact mul_left_cancel₀ (by exact_mod_cast hpos) e2
    have hpl := List.idxOf_lt_length_iff.mpr hpj
    have hxv := hphi j hj _ _ (by rw [List.getElem?_eq_getElem hpl, List.getElem_idxOf hpl])
    refine ⟨?_, by rw [e1, hmean]⟩
    rw [hout, hx, hxv, hmean]
    have : (phi ((r : ℤ), (q : ℤ)) + tau * (c j : K) - (phi ((r : ℤ), (q : ℤ)) + tau * (c0 : K))) / tau = ((c j - c0 : ℤ) : K) := by
      field_simp
      push_cast
      ring
    rw [this, rint_intCast]
    push_cast
    congr 1
    ring
  · intro hno
    obtain ⟨e1, _, e3⟩ := k1 hno
    exact ⟨e1, e3⟩
  · intro h2
    obtain ⟨lo, hlo, hi, hhi, _, e⟩ := k4 (by rw [hlen]; exact htwo.mpr h2)
    rw [e, hmem lo hlo, hmem hi hhi, sub_self]
  · intro h2
    refine k3 ?_
    rw [hlen]
    by_contra hc
    exact h2 (htwo.mp (by omega))

/-! ### C56 -/

/-- C56. At a pixel where two or more tiles overlap and every two of the covering tiles have a
recorded overlap, the adjusted tiles agree, so the spread written is 0; for fewer than 256 tiles. -/
theorem C56_agree (tau : K) (minPoints : ℤ) (cc : Nat → List (Nat × Nat) → List Nat)
    (nifgs : Nat) (tiles : TileSet) (files : Nat → Except PyErr (TileFile K)) (F : Nat → TileFile K)
    (env : MergeEnv K) (bulk : BulkFile K) (settings : MergerSettings)
    (h : MergeInput tau minPoints cc nifgs tiles files F env.overlap bulk settings)
    (hsmall : tiles.tiles.length < 256) (isFile : Nat → Bool) (out : List (Nat × MergedBand K))
    (hm : mergeTiles tau env settings tiles files bulk nifgs isFile = .ok (.merged out)) (b : Nat) (m : MergedBand K)
    (hb : (b, m) ∈ out) (r q : Nat)
    (hrecorded : ∀ i j, i < j → j < tiles.tiles.length → ((r : ℤ), (q : ℤ)) ∈ filePoints (F i) →
      ((r : ℤ), (q : ℤ)) ∈ filePoints (F j) → (i, j) ∈ env.overlap.overlaps)
    (htwo : ∃ i j, i < j ∧ j < tiles.tiles.length ∧ ((r : ℤ), (q : ℤ)) ∈ filePoints (F i) ∧
        ((r : ℤ), (q : ℤ)) ∈ filePoints (F j)) : m.diff.val r q = some 0 := by
  obtain ⟨hbn, _, omap, d, _, hr, hnd, hself, hrec, hok, hdeg, hras⟩ := merged_band h hm hb
  set n := tiles.tiles.length with hn
  have h2 := (covering_two n F ((r : ℤ), (q : ℤ))).mpr htwo
  have hmemc : ∀ i, i ∈ covering n F ((r : ℤ), (q : ℤ)) ↔ i < n ∧ ((r : ℤ), (q : ℤ)) ∈ filePoints (F i) := by
    intro i
    unfold covering
    simp only [List.mem_filter, List.mem_range, decide_eq_true_eq]
  obtain ⟨v, hv⟩ := bandAdjust_equal (env := env) (omap := omap) (b := b)
    (c := fun j _ => -(tau * bulkAt bulk.offsets b j)) hr.map.lt hr.map.once hself hnd
    (maxDegree := d) (le_trans h2 (hdeg hsmall _)) hok ((r : ℤ), (q : ℤ)) (by
      intro i hi j hj hij
      rw [hmemc] at hi hj
      rw [hrec i hi.1]
      rcases Nat.lt_or_gt_of_ne hij with hlt | hlt
      · exact Or.inr (hrecorded j i hlt hi.1 hj.2 hi.2)
      · exact Or.inl (hrecorded i j hlt hj.1 hi.2 hj.2))
  obtain ⟨_, _, _, k4⟩ := bandRaster_at hr.two hr.inside hr.map.once hr.width
    (fun j hj => hr.bands j hj b hbn) hras r q _ rfl
  rw [values_length] at k4
  obtain ⟨lo, hlo, hi, hhi, _, e⟩ := k4 h2
  have hall : ∀ x, x ∈ ((List.range n).filterMap fun j =>
      bandAt F b (finalCorr tau env F omap d bulk.offsets b) j ((r : ℤ), (q : ℤ))) → x = v := by
    intro x hx
    rw [List.mem_filterMap] at hx
    obtain ⟨j, hj, hxj⟩ := hx
    have hcov : j ∈ covering n F ((r : ℤ), (q : ℤ)) := by
      rw [hmemc]
      refine ⟨List.mem_range.mp hj, ?_⟩
      by_contra hno
      unfold bandAt at hxj
      rw [if_neg hno] at hxj
      simp at hxj
    have := hv j hcov h2
    unfold finalCorr at hxj
    rw [this, Option.some.injEq] at hxj
    exact hxj.symm
  rw [e, hall lo hlo, hall hi hhi, sub_self]

/-- C56. If the tile files agree with a field `psi` up to whole cycles, so does every covered pixel of
the merged raster, and it lies within half a cycle of the model raster. -/
theorem C56_congruent (tau : K) (htau : 0 < tau) (minPoints : ℤ) (cc : Nat → List (Nat × Nat) → List Nat)
    (nifgs : Nat) (tiles : TileSet) (files : Nat → Except PyErr (TileFile K)) (F : Nat → TileFile K)
    (env : MergeEnv K) (bulk : BulkFile K) (settings : MergerSettings)
    (h : MergeInput tau minPoints cc nifgs tiles files F env.overlap bulk settings)
    (isFile : Nat → Bool) (out : List (Nat × MergedBand K))
    (hm : mergeTiles tau env settings tiles files bulk nifgs isFile = .ok (.merged out)) (b : Nat) (m : MergedBand K)
    (hb : (b, m) ∈ out) (psi : ℤ × ℤ → K)
    (hpsi : ∀ i < tiles.tiles.length, ∀ (p : Nat) pix, (filePoints (F i))[p]? = some pix →
      ∃ k : ℤ, filePhase (F i) b p = psi pix + k * tau) (r q : Nat) :
    ((∃ i < tiles.tiles.length, ((r : ℤ), (q : ℤ)) ∈ filePoints (F i)) →
      ∃ v mean, m.out.val r q = some v ∧ m.model.val r q = some mean ∧ |v - mean| ≤ tau / 2 ∧
        ∃ k : ℤ, v = psi (r, q) + k * tau) ∧
    ((∀ i < tiles.tiles.length, ((r : ℤ), (q : ℤ)) ∉ filePoints (F i)) →
      m.out.val r q = none ∧ m.diff.val r q = none ∧ m.model.val r q = none) := by
  obtain ⟨hbn, _, omap, d, _, hr, hnd, hself, hrec, hok, hdeg, hras⟩ := merged_band h hm hb
  obtain ⟨k1, k2, _, _⟩ := bandRaster_at hr.two hr.inside hr.map.once hr.width
    (fun j hj => hr.bands j hj b hbn) hras r q _ rfl
  refine ⟨?_, k1⟩
  intro hcov
  obtain ⟨mean, e1, _, j, hj, hpj, x, hx, hout⟩ := k2 hcov
  have hpl := List.idxOf_lt_length_iff.mpr hpj
  obtain ⟨k, hk⟩ := hpsi j hj _ _ (by rw [List.getElem?_eq_getElem hpl, List.getElem_idxOf hpl])
  refine ⟨_, mean, hout, e1, ?_, k - rint ((x - mean) / tau), ?_⟩
  · exact wrap_near htau x mean
  · rw [hx] at *
    rw [hk]
    push_cast
    ring

end

end Spurt
