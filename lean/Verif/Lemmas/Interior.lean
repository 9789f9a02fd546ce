import Verif.Lemmas.BandAlone
import Verif.Props.BandAlone

/-!
# Tile files that differ only at pixels of a single tile
-/

namespace Spurt

/-- In interferogram `b` two sets of tile files over the same pixels hold the same phases at every pixel that
belongs to two tiles or more. At the pixels of a single tile the phases may differ in any way. -/
structure Spec.SameShared {K : Type} [Field K] (n : Nat) (F F' : Nat → TileFile K) (b : Nat) : Prop where
  points : ∀ i < n, Spec.filePoints (F' i) = Spec.filePoints (F i)
  phase : ∀ i < n, ∀ j < n, i ≠ j → ∀ pix, pix ∈ Spec.filePoints (F i) → pix ∈ Spec.filePoints (F j) →
    phaseAtPixel (F' i) b pix = phaseAtPixel (F i) b pix

open Spec

section
variable {K : Type} [Field K]

/-- The corrections of the tiles are the same. -/
def EqualCorr (n : Nat) (F : Nat → TileFile K) (c c' : Nat → Nat → K) : Prop :=
  ∀ i < n, ∀ p < (F i).points.length, c' i p = c i p

theorem ptAt_mem {F : Nat → TileFile K} {i p : Nat} (hp : p < (F i).points.length) : ptAt F i p ∈ filePoints (F i) := by
  unfold ptAt
  rw [List.getD_eq_getElem _ _ (by rw [filePoints_length]; exact hp)]
  exact List.getElem_mem _

theorem phaseAt_point {F : Nat → TileFile K} {i p b : Nat} (hnd : (filePoints (F i)).Nodup) (hp : p < (F i).points.length) :
    phaseAtPixel (F i) b (ptAt F i p) = filePhase (F i) b p := by
  have hl : p < (filePoints (F i)).length := by rw [filePoints_length]; exact hp
  unfold phaseAtPixel ptAt
  rw [List.getD_eq_getElem _ _ hl, hnd.idxOf_getElem]

variable [LinearOrder K] [IsStrictOrderedRing K]

omit [LinearOrder K] [IsStrictOrderedRing K] in
theorem bandAt_shared {n : Nat} {F F' : Nat → TileFile K} {b : Nat} {c c' : Nat → Nat → K} (hs : SameShared n F F' b)
    (hc : EqualCorr n F c c') {i j : Nat} (hi : i < n) (hj : j < n) (hij : i ≠ j) {pix : ℤ × ℤ} (hpi : pix ∈ filePoints (F i)) :
    bandAt F' b c' j pix = bandAt F b c j pix := by
  unfold bandAt
  rw [hs.points j hj]
  by_cases hm : pix ∈ filePoints (F j)
  · rw [if_pos hm, if_pos hm]
    have h1 := hs.phase j hj i hi (Ne.symm hij) pix hm hpi
    unfold phaseAtPixel at h1
    rw [hs.points j hj] at h1
    unfold bandValue
    rw [h1, hc j hj]
    rw [← filePoints_length]
    exact List.idxOf_lt_length_iff.mpr hm
  · rw [if_neg hm, if_neg hm]

omit [LinearOrder K] [IsStrictOrderedRing K] in
theorem rawCorr_shared {n : Nat} {F F' : Nat → TileFile K} {omap : List (List Nat)} {b : Nat}
    {c c' : Nat → Nat → K} (hs : SameShared n F F' b) (hc : EqualCorr n F c c')
    (hnd : ∀ i < n, (filePoints (F i)).Nodup)
    (hlt : ∀ i < n, ∀ j ∈ omap.getD i [], j < n ∧ i ≠ j) {i : Nat}
    (hi : i < n) {p : Nat} (hpl : p < (F i).points.length) : rawCorr F' omap b c' i p = rawCorr F omap b c i p := by
  have hpt : ptAt F' i p = ptAt F i p := by unfold ptAt; rw [hs.points i hi]
  have hmem := ptAt_mem (F := F) hpl
  unfold rawCorr sumAt
  rw [cntAt_points hs.points (fun j hj => (hlt i hi j hj).1) hi, hpt]
  have hn : ((omap.getD i []).map fun j => (bandAt F' b c' j (ptAt F i p)).getD 0) =
      (omap.getD i []).map fun j => (bandAt F b c j (ptAt F i p)).getD 0 := by
    apply List.map_congr_left
    intro j hj
    rw [bandAt_shared hs hc hi (hlt i hi j hj).1 (hlt i hi j hj).2 hmem]
  rw [hn]
  by_cases hex : ∃ j ∈ omap.getD i [], ptAt F i p ∈ filePoints (F j)
  · obtain ⟨j, hj, hjp⟩ := hex
    have h1 := hs.phase i hi j (hlt i hi j hj).1 (hlt i hi j hj).2 _ hmem hjp
    rw [phaseAt_point (hnd i hi) hpl, ← hpt,
      phaseAt_point (by rw [hs.points i hi]; exact hnd i hi) (by rw [points_length_of (hs.points i hi)]; exact hpl)] at h1
    have : bandValue F' b c' i p = bandValue F b c i p := by unfold bandValue; rw [h1, hc i hi p hpl]
    rw [this]
  · have hno : ∀ j ∈ omap.getD i [], ptAt F i p ∉ filePoints (F j) := fun j hj hjp => hex ⟨j, hj, hjp⟩
    have h0 : ((omap.getD i []).map fun j => (bandAt F b c j (ptAt F i p)).getD 0).sum = 0 := by
      apply List.sum_eq_zero
      intro x hx
      obtain ⟨j, hj, rfl⟩ := List.mem_map.mp hx
      unfold bandAt
      rw [if_neg (hno j hj)]
      rfl
    have h1 : cntAt F (omap.getD i []) i p = 1 := by
      unfold cntAt
      rw [List.filter_eq_nil_iff.mpr (by simpa using hno)]
      rfl
    rw [h0, h1]
    simp

omit [IsStrictOrderedRing K] in
theorem bandRound_shared {env env' : MergeEnv K} (hlin : env'.lin = env.lin) (hsim : env'.simplices = env.simplices)
    {n : Nat} {F F' : Nat → TileFile K} {omap : List (List Nat)} {b : Nat}
    {c c' : Nat → Nat → K} (hs : SameShared n F F' b) (h : EqualCorr n F c c')
    (hnd : ∀ i < n, (filePoints (F i)).Nodup)
    (hlt : ∀ i < n, ∀ j ∈ omap.getD i [], j < n ∧ i ≠ j) (d : Nat)
    (hok : ∀ i < n, roundOk env F omap d i) :
    EqualCorr n F (bandRound env F omap b c d) (bandRound env' F' omap b c' d) := by
  intro i hi p hpl
  have hlen := points_length_of (hs.points i hi)
  have hmask : ∀ q, maskAt F' omap d i q = maskAt F omap d i q := by
    intro q
    unfold maskAt
    rw [cntAt_points hs.points (fun j hj => (hlt i hi j hj).1) hi]
  have ht : touched F' omap d i = touched F omap d i := by
    unfold touched
    rw [hlen]
    congr 1
    funext q
    exact hmask q
  unfold bandRound
  rw [ht]
  by_cases htt : touched F omap d i = true
  · rw [if_pos htt, if_pos htt, h i hi p hpl]
    obtain ⟨a, ha1, ha2, _⟩ := hok i hi htt
    have ha1' : lapOf env' (filePoints (F' i)) = .ok a := by
      rw [hs.points i hi, ← ha1]
      unfold lapOf
      rw [hsim]
    have : tileCorr env' F' omap d b c' i p = tileCorr env F omap d b c i p := by
      unfold tileCorr
      rw [ha1, ha1']
      simp only
      rw [hlin]
      exact dirRow_congr (fun q _ => hmask q) (fun q hq => rawCorr_shared hs h hnd hlt hi (by omega)) (by omega)
    rw [this]
  · rw [if_neg htt, if_neg htt]
    exact h i hi p hpl

omit [IsStrictOrderedRing K] in
theorem bandAdjust_shared {env env' : MergeEnv K} (hlin : env'.lin = env.lin) (hsim : env'.simplices = env.simplices)
    {n : Nat} {F F' : Nat → TileFile K} {omap : List (List Nat)} {b : Nat}
    {c c' : Nat → Nat → K} (hs : SameShared n F F' b) (h : EqualCorr n F c c')
    (hnd : ∀ i < n, (filePoints (F i)).Nodup)
    (hlt : ∀ i < n, ∀ j ∈ omap.getD i [], j < n ∧ i ≠ j) (d : Nat) (hok : adjustOk env n F omap d) :
    EqualCorr n F (bandAdjust env F omap d b c) (bandAdjust env' F' omap d b c') := by
  unfold bandAdjust adjustOk at *
  generalize degrees d = ds at *
  induction ds generalizing c c' with
  | nil => exact h
  | cons d ds ih =>
    rw [List.foldl_cons, List.foldl_cons]
    exact ih (bandRound_shared hlin hsim hs h hnd hlt d (hok d List.mem_cons_self))
      fun d' hd' => hok d' (List.mem_cons_of_mem _ hd')

end

section
variable {K : Type} [Field K] [LinearOrder K] [FloorRing K]

theorem fancySet_at {α : Type} (a a' : Nat × Nat → α) (px : List (Nat × Nat)) (v v' : List α) (hnd : px.Nodup)
    (hl : v.length = px.length) (hl' : v'.length = px.length) (p : Nat × Nat) (ha : a' p = a p)
    (hv : ∀ k < px.length, px[k]? = some p → v'[k]? = v[k]?) : fancySet a' px v' p = fancySet a px v p := by
  by_cases hp : p ∈ px
  · have hk := List.idxOf_lt_length_iff.mpr hp
    have hke : px[px.idxOf p]'hk = p := List.getElem_idxOf hk
    have g1 := fancySet_of_mem a px v hnd (px.idxOf p) hk (by omega)
    have g2 := fancySet_of_mem a' px v' hnd (px.idxOf p) hk (by omega)
    rw [hke] at g1 g2
    have := hv _ hk (by rw [List.getElem?_eq_getElem hk, hke])
    rw [List.getElem?_eq_getElem (by omega), List.getElem?_eq_getElem (by omega), Option.some.injEq] at this
    rw [g1, g2, this]
  · rw [fancySet_of_not_mem _ _ _ _ hp, fancySet_of_not_mem _ _ _ _ hp, ha]

theorem foldlM_two {σ σ' α : Type} {f : σ → α → Except PyErr σ} {g : σ' → α → Except PyErr σ'} {R : σ → σ' → Prop}
    {l : List α} (hstep : ∀ a ∈ l, ∀ s s' t t', R s s' → f s a = .ok t → g s' a = .ok t' → R t t') {s : σ} {s' : σ'}
    (hR : R s s') {t : σ} {t' : σ'} (h : l.foldlM f s = .ok t) (h' : l.foldlM g s' = .ok t') : R t t' := by
  induction l generalizing s s' with
  | nil =>
    simp only [List.foldlM_nil, Pure.pure, Except.pure, Except.ok.injEq] at h h'
    subst h h'
    exact hR
  | cons a l ih =>
    rw [List.foldlM_cons] at h h'
    cases h1 : f s a with
    | error e => rw [h1] at h; simp [Bind.bind, Except.bind] at h
    | ok t1 =>
      cases h2 : g s' a with
      | error e => rw [h2] at h'; simp [Bind.bind, Except.bind] at h'
      | ok t2 =>
        rw [h1] at h
        rw [h2] at h'
        exact ih (fun b hb => hstep b (List.mem_cons_of_mem _ hb)) (hstep a List.mem_cons_self _ _ _ _ hR h1 h2) h h'

/-- Where the tiles at a pixel have the same phases and corrections, the rasters are the same. -/
theorem raster_same_at {tau : K} {shape : Nat × Nat} {n : Nat} {F F' : Nat → TileFile K}
    (hin : ∀ j < n, ∀ c ∈ filePoints (F j), Inside shape c) (hnd : ∀ j < n, (filePoints (F j)).Nodup) {b : Nat}
    (hp : ∀ i < n, filePoints (F' i) = filePoints (F i)) {c c' : Nat → Nat → K} (hc : EqualCorr n F c c')
    {m m' : MergedBand K} (h : bandRaster tau shape n F b c = .ok m) (h' : bandRaster tau shape n F' b c' = .ok m')
    (r q : Nat) (hph : ∀ j < n, ((r : ℤ), (q : ℤ)) ∈ filePoints (F j) →
      phaseAtPixel (F' j) b ((r : ℤ), (q : ℤ)) = phaseAtPixel (F j) b ((r : ℤ), (q : ℤ))) :
    m'.out.val r q = m.out.val r q ∧ m'.diff.val r q = m.diff.val r q ∧ m'.model.val r q = m.model.val r q := by
  have hval : ∀ j < n, ∀ k < (F j).points.length, ((filePoints (F j)).map fun c : ℤ × ℤ => (c.1.toNat, c.2.toNat))[k]? = some (r, q) →
      filePhase (F' j) b k = filePhase (F j) b k ∧ bandValue F' b c' j k = bandValue F b c j k := by
    intro j hj k hk hkp
    have hl : k < (filePoints (F j)).length := by rw [filePoints_length]; exact hk
    have hmemk := List.getElem_mem hl
    obtain ⟨i1, i2⟩ := hin j hj _ hmemk
    rw [List.getElem?_map, List.getElem?_eq_getElem hl, Option.map_some, Option.some.injEq, Prod.mk.injEq] at hkp
    have hpix : (filePoints (F j))[k] = ((r : ℤ), (q : ℤ)) := by
      apply Prod.ext <;> simp only <;> omega
    have hpt : ptAt F j k = ((r : ℤ), (q : ℤ)) := by
      unfold ptAt; rw [List.getD_eq_getElem _ _ hl, hpix]
    have hpt' : ptAt F' j k = ptAt F j k := by unfold ptAt; rw [hp j hj]
    have h1 := hph j hj (hpix ▸ hmemk)
    rw [← hpt, phaseAt_point (hnd j hj) hk, ← hpt', phaseAt_point (by rw [hp j hj]; exact hnd j hj)
      (by rw [points_length_of (hp j hj)]; exact hk)] at h1
    exact ⟨h1, by unfold bandValue; rw [h1, hc j hj k hk]⟩
  unfold bandRaster at h h'
  cases ha : (List.range n).foldlM (avgBand shape F b c) ⟨fun _ => 0, fun _ => 0, fun _ => none, fun _ => none⟩ with
  | error e => rw [ha] at h; simp [Bind.bind, Except.bind] at h
  | ok acc =>
    cases ha' : (List.range n).foldlM (avgBand shape F' b c') ⟨fun _ => 0, fun _ => 0, fun _ => none, fun _ => none⟩ with
    | error e => rw [ha'] at h'; simp [Bind.bind, Except.bind] at h'
    | ok acc' =>
      have hacc : acc'.model (r, q) = acc.model (r, q) ∧ acc'.cnt (r, q) = acc.cnt (r, q) ∧
          acc'.minval (r, q) = acc.minval (r, q) ∧ acc'.maxval (r, q) = acc.maxval (r, q) := by
        refine foldlM_two (R := fun (s s' : MergeAcc K) => s'.model (r, q) = s.model (r, q) ∧ s'.cnt (r, q) = s.cnt (r, q) ∧
          s'.minval (r, q) = s.minval (r, q) ∧ s'.maxval (r, q) = s.maxval (r, q)) ?_ ⟨rfl, rfl, rfl, rfl⟩ ha ha'
        rintro j hj s s' t t' ⟨r1, r2, r3, r4⟩ e e'
        have hj := List.mem_range.mp hj
        obtain ⟨f1, f2, f3⟩ := pixelsOf_facts (hin j hj) (hnd j hj)
        simp only [avgBand, hp j hj, points_length_of (hp j hj), pixelsOf_inside (hin j hj), Bind.bind, Except.bind, Pure.pure,
          Except.pure, Except.ok.injEq] at e e'
        set px := (filePoints (F j)).map fun c : ℤ × ℤ => (c.1.toNat, c.2.toNat) with hpx
        have hpl : px.length = (F j).points.length := by rw [hpx, List.length_map, filePoints_length]
        subst e e'
        have hvk : ∀ k < px.length, px[k]? = some (r, q) → bandValue F' b c' j k = bandValue F b c j k := by
          intro k hk hkp
          exact (hval j hj k (by omega) hkp).2
        refine ⟨?_, ?_, ?_, ?_⟩
        · apply fancySet_at _ _ _ _ _ f1 (by simp; omega) (by simp; omega) _ r1
          intro k hk hkp
          simp only [List.getElem?_zipWith, hkp, List.getElem?_map, List.getElem?_range (show k < (F j).points.length by omega),
            Option.map_some, hvk k hk hkp, r1]
        · apply fancySet_at _ _ _ _ _ f1 (by simp) (by simp) _ r2
          intro k hk hkp
          simp only [List.getElem?_map, hkp, Option.map_some, r2]
        · apply fancySet_at _ _ _ _ _ f1 (by simp; omega) (by simp; omega) _ r3
          intro k hk hkp
          simp only [List.getElem?_zipWith, hkp, List.getElem?_map, List.getElem?_range (show k < (F j).points.length by omega),
            Option.map_some, hvk k hk hkp, r3]
        · apply fancySet_at _ _ _ _ _ f1 (by simp; omega) (by simp; omega) _ r4
          intro k hk hkp
          simp only [List.getElem?_zipWith, hkp, List.getElem?_map, List.getElem?_range (show k < (F j).points.length by omega),
            Option.map_some, hvk k hk hkp, r4]
      rw [ha] at h
      rw [ha'] at h'
      obtain ⟨r1, r2, r3, r4⟩ := hacc
      simp only [Bind.bind, Except.bind] at h h'
      split at h
      · simp at h
      · rename_i arr harr
        split at h'
        · simp at h'
        · rename_i arr' harr'
          have hout : arr' (r, q) = arr (r, q) := by
            refine foldlM_two (R := fun (s s' : Nat × Nat → Option K) => s' (r, q) = s (r, q)) ?_ rfl harr harr'
            rintro j hj s s' t t' r5 e e'
            have hj := List.mem_range.mp hj
            obtain ⟨f1, f2, f3⟩ := pixelsOf_facts (hin j hj) (hnd j hj)
            simp only [outBand, hp j hj, points_length_of (hp j hj), pixelsOf_inside (hin j hj), Bind.bind, Except.bind, Pure.pure,
              Except.pure, Except.ok.injEq] at e e'
            set px := (filePoints (F j)).map fun c : ℤ × ℤ => (c.1.toNat, c.2.toNat) with hpx
            have hpl : px.length = (F j).points.length := by rw [hpx, List.length_map, filePoints_length]
            subst e e'
            apply fancySet_at _ _ _ _ _ f1 (by simp; omega) (by simp; omega) _ r5
            intro k hk hkp
            simp only [List.getElem?_zipWith, hkp, List.getElem?_map, List.getElem?_range (show k < (F j).points.length by omega),
              Option.map_some, (hval j hj k (by omega) hkp).1, r1, r2]
          simp only [pure, Except.pure, Except.ok.injEq] at h h'
          subst h h'
          exact ⟨hout, by simp only [r2, r3, r4], by simp only [r1, r2]⟩

end

end Spurt
