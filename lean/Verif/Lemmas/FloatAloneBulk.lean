import Verif.Lemmas.FloatAlone
import Verif.Model.FloatBulk
import Verif.Props.BandAlone

/-!
# Overlap statistics and bulk offsets in mixed precision, for files that agree where tiles share pixels
-/

namespace Spurt
open Spec

section
variable {K : Type} [Field K] [LinearOrder K] [FloorRing K]

omit [LinearOrder K] [FloorRing K] in
/-- The columns of a tile at the shared points. -/
theorem selectFl_at {A : FloatArith K} {nifgs : Nat} {tiles : TileSet} {files : Nat → Except PyErr (TileFile K)} {F : Nat → TileFile K}
    (hf : TileFilesOk nifgs tiles files F) {t : Nat} (ht : t < tiles.tiles.length) (bb : BBox) {cs : List Nat} {ps : List (ℤ × ℤ)}
    (hcs : cs.map ((filePoints (F t))[·]?) = ps.map some) :
    (selectColumns (loadUwTileFl A (F t) bb).2 cs).shape = [nifgs, ps.length] ∧
    ∀ r < nifgs, ∀ k (hk : k < ps.length), ps[k] ∈ filePoints (F t) ∧
      (selectColumns (loadUwTileFl A (F t) bb).2 cs).get [r, k] = A.fs (phaseAtPixel (F t) r ps[k]) := by
  have hcl : cs.length = ps.length := by simpa using congrArg List.length hcs
  obtain ⟨e1, e2⟩ := hf.bands t ht
  refine ⟨by simp [selectColumns, loadUwTileFl, e1, e2, hcl], ?_⟩
  intro r hr p hp
  have hget := congrArg (·[p]?) hcs
  have hpc : p < cs.length := by omega
  simp only [List.getElem?_map, List.getElem?_eq_getElem hpc, List.getElem?_eq_getElem hp, Option.map_some,
    Option.some.injEq] at hget
  obtain ⟨hpl0, hpe⟩ := List.getElem?_eq_some_iff.mp hget
  have hpl := hpl0
  rw [filePoints_length] at hpl
  have hrow : ((F t).uw.getD r []).length = (F t).points.length := by
    rw [List.getD_eq_getElem _ _ (by omega)]
    exact hf.rows t ht _ (List.getElem_mem _)
  refine ⟨List.mem_of_getElem? hget, ?_⟩
  simp only [selectColumns, loadUwTileFl]
  rw [List.getD_eq_getElem cs _ hpc, imagePhaseFl_getD (by omega) (by omega) (by omega)]
  have h2 := phaseAt_point (F := F) (b := r) (filePoints_nodup (hf.once t ht)) hpl
  unfold ptAt at h2
  rw [List.getD_eq_getElem _ _ hpl0, hpe] at h2
  rw [h2]

theorem pairwiseDecilesFl_rows {A : FloatArith K} {atol rtol : K} {b1 b2 : NdArray K} {nb n : Nat} (h1 : b1.shape = [nb, n])
    {st : List (List ℚ)} (h : pairwiseDecilesFl A atol rtol b1 b2 = .ok st) :
    st = (List.range nb).map fun r => deciles ((List.range n).map fun c => cycleDiffFl A b1 b2 [r, c]) := by
  unfold pairwiseDecilesFl at h
  split at h
  · cases h
  rw [h1] at h
  simp only at h
  split at h
  · cases h
  split at h
  · cases h
  simp only [Except.ok.injEq] at h
  exact h.symm

theorem pairwiseDecilesFl_congr {A : FloatArith K} {atol rtol : K} {b1 b2 d1 d2 : NdArray K} {nb n : Nat}
    (h1 : b1.shape = [nb, n]) (h2 : b2.shape = [nb, n]) (g1 : d1.shape = [nb, n]) (g2 : d2.shape = [nb, n])
    (e1 : ∀ r < nb, ∀ k < n, d1.get [r, k] = b1.get [r, k]) (e2 : ∀ r < nb, ∀ k < n, d2.get [r, k] = b2.get [r, k]) :
    pairwiseDecilesFl A atol rtol d1 d2 = pairwiseDecilesFl A atol rtol b1 b2 := by
  have hdiff : ∀ r < nb, ∀ k < n, diffCyclesFl A d1 d2 [r, k] = diffCyclesFl A b1 b2 [r, k] := by
    intro r hr k hk
    unfold diffCyclesFl
    rw [e1 r hr k hk, e2 r hr k hk]
  have hcd : ∀ r < nb, ∀ k < n, cycleDiffFl A d1 d2 [r, k] = cycleDiffFl A b1 b2 [r, k] := by
    intro r hr k hk
    unfold cycleDiffFl
    rw [hdiff r hr k hk]
  have hmem : ∀ i ∈ cart [List.range nb, List.range n], ∃ r < nb, ∃ p < n, i = [r, p] := by
    intro i hi
    simp only [cart, List.mem_flatMap, List.mem_map, List.mem_range] at hi
    obtain ⟨r, hr', t, ⟨p, hp, ht⟩, hi⟩ := hi
    simp at ht
    subst ht
    exact ⟨r, hr', p, hp, hi.symm⟩
  have hall : (cart [List.range nb, List.range n]).all (closeToCycleFl A atol rtol d1 d2) =
      (cart [List.range nb, List.range n]).all (closeToCycleFl A atol rtol b1 b2) := by
    rw [Bool.eq_iff_iff, List.all_eq_true, List.all_eq_true]
    refine forall₂_congr fun i hi => ?_
    obtain ⟨r, hr, k, hk, rfl⟩ := hmem i hi
    unfold closeToCycleFl
    rw [hdiff r hr k hk, hcd r hr k hk]
  unfold pairwiseDecilesFl
  rw [h1, h2, g1, g2]
  simp only [ne_eq, not_true_eq_false, if_false, hall]
  have : ((List.range nb).map fun r => deciles ((List.range n).map fun c => cycleDiffFl A d1 d2 [r, c])) =
      (List.range nb).map fun r => deciles ((List.range n).map fun c => cycleDiffFl A b1 b2 [r, c]) := by
    refine List.map_congr_left fun r hr => ?_
    congr 1
    refine List.map_congr_left fun k hk => ?_
    exact hcd r (List.mem_range.mp hr) k (List.mem_range.mp hk)
  rw [this]

variable [IsStrictOrderedRing K]

omit [IsStrictOrderedRing K] in
theorem loadFl_eq {A : FloatArith K} {nifgs : Nat} {tiles : TileSet} {files : Nat → Except PyErr (TileFile K)} {F : Nat → TileFile K}
    (hf : TileFilesOk nifgs tiles files F) {t : Nat} {b : BBox} (hb : tiles.tiles[t]? = some b) :
    loadFl A tiles files t = .ok (loadUwTileFl A (F t) b) ∧ (loadUwTileFl A (F t) b).1 = filePoints (F t) := by
  constructor
  · unfold loadFl
    rw [hb, hf.read t (List.getElem?_eq_some_iff.mp hb).1]
    rfl
  · have := hf.box t b hb
    subst this
    rfl

/-- One pair of tiles: what is recorded for one interferogram. -/
theorem groupFl_shared {A : FloatArith K} {atol rtol : K} {minPoints : ℤ} {nifgs nifgs' : Nat} {tiles : TileSet}
    {files files' : Nat → Except PyErr (TileFile K)} {F F' : Nat → TileFile K}
    (hf : TileFilesOk nifgs tiles files F) (hf' : TileFilesOk nifgs' tiles files' F') {b b' : Nat} (hb : b < nifgs) (hb' : b' < nifgs')
    (hs : SharedBands tiles.tiles.length F F' b b') {i j : Nat} (hij : (i, j) ∈ tiles.getOverlaps)
    {g g' : List ((Nat × Nat) × OverlapGroup)}
    (hg : groupGen (pairwiseDecilesFl A atol rtol) id minPoints (loadFl A tiles files) (i, j) = .ok g)
    (hg' : groupGen (pairwiseDecilesFl A atol rtol) id minPoints (loadFl A tiles files') (i, j) = .ok g') :
    (g = [] ∧ g' = []) ∨ ∃ c1 c2 s s', g = [((i, j), ⟨c1, c2, s⟩)] ∧ g' = [((i, j), ⟨c1, c2, s'⟩)] ∧
      s.length = nifgs ∧ s'.length = nifgs' ∧ s'[b']? = s[b]? := by
  obtain ⟨hlt, bi, bj, hbi, hbj, _⟩ := ((C25_overlaps tiles).1 i j).mp hij
  have hi := (List.getElem?_eq_some_iff.mp hbi).1
  have hj := (List.getElem?_eq_some_iff.mp hbj).1
  obtain ⟨a1, a2⟩ := loadFl_eq (A := A) hf hbi
  obtain ⟨a3, a4⟩ := loadFl_eq (A := A) hf hbj
  obtain ⟨a1', a2'⟩ := loadFl_eq (A := A) hf' hbi
  obtain ⟨a3', a4'⟩ := loadFl_eq (A := A) hf' hbj
  unfold groupGen at hg hg'
  simp only [a1, a3, Bind.bind, Except.bind] at hg
  simp only [a1', a3', Bind.bind, Except.bind] at hg'
  rw [a2, a4] at hg
  rw [a2', a4', hs.points i hi, hs.points j hj] at hg'
  cases hcp : findCommonPoints id (filePoints (F i)) (filePoints (F j)) with
  | error e => rw [hcp] at hg; cases hg
  | ok cs =>
  obtain ⟨c1, c2⟩ := cs
  rw [hcp] at hg hg'
  simp only at hg hg'
  obtain ⟨_, ps, _, hps, hc1, hc2⟩ := commonPoints_count hcp
  by_cases hm : (c1.length : ℤ) < minPoints
  · rw [if_pos hm] at hg hg'
    simp only [pure, Except.pure, Except.ok.injEq] at hg hg'
    exact Or.inl ⟨hg.symm, hg'.symm⟩
  rw [if_neg hm] at hg hg'
  obtain ⟨s1, s2⟩ := selectFl_at (A := A) hf hi bi hc1
  obtain ⟨t1, t2⟩ := selectFl_at (A := A) hf hj bj hc2
  obtain ⟨s1', s2'⟩ := selectFl_at (A := A) hf' hi bi (cs := c1) (ps := ps) (by rw [hs.points i hi]; exact hc1)
  obtain ⟨t1', t2'⟩ := selectFl_at (A := A) hf' hj bj (cs := c2) (ps := ps) (by rw [hs.points j hj]; exact hc2)
  split at hg
  · cases hg
  rename_i st hst
  split at hg'
  · cases hg'
  rename_i st' hst'
  simp only [pure, Except.pure, Except.ok.injEq] at hg hg'
  have e1 := pairwiseDecilesFl_rows s1 hst
  have e2 := pairwiseDecilesFl_rows s1' hst'
  refine Or.inr ⟨c1, c2, _, _, hg.symm, hg'.symm, by simp [e1], by simp [e2], ?_⟩
  rw [e1, e2]
  simp only [List.getElem?_map, List.getElem?_range hb, List.getElem?_range hb', Option.map_some]
  congr 3
  refine List.map_congr_left fun k hk => ?_
  have hk := List.mem_range.mp hk
  obtain ⟨p1, v1⟩ := s2 b hb k hk
  obtain ⟨p2, v2⟩ := t2 b hb k hk
  unfold cycleDiffFl diffCyclesFl
  rw [v1, v2, (s2' b' hb' k hk).2, (t2' b' hb' k hk).2, hs.phase i hi j hj (by omega) _ p1 p2,
    hs.phase j hj i hi (by omega) _ p2 p1]

/-- One pair of tiles, with all its interferograms. -/
theorem groupFl_same {A : FloatArith K} {atol rtol : K} {minPoints : ℤ} {nifgs : Nat} (hifgs : 1 ≤ nifgs) {tiles : TileSet}
    {files files' : Nat → Except PyErr (TileFile K)} {F F' : Nat → TileFile K}
    (hf : TileFilesOk nifgs tiles files F) (hf' : TileFilesOk nifgs tiles files' F')
    (hs : ∀ b < nifgs, SharedBands tiles.tiles.length F F' b b) {i j : Nat} (hij : (i, j) ∈ tiles.getOverlaps) :
    groupGen (pairwiseDecilesFl A atol rtol) id minPoints (loadFl A tiles files') (i, j) =
      groupGen (pairwiseDecilesFl A atol rtol) id minPoints (loadFl A tiles files) (i, j) := by
  obtain ⟨hlt, bi, bj, hbi, hbj, _⟩ := ((C25_overlaps tiles).1 i j).mp hij
  have hi := (List.getElem?_eq_some_iff.mp hbi).1
  have hj := (List.getElem?_eq_some_iff.mp hbj).1
  obtain ⟨a1, a2⟩ := loadFl_eq (A := A) hf hbi
  obtain ⟨a3, a4⟩ := loadFl_eq (A := A) hf hbj
  obtain ⟨a1', a2'⟩ := loadFl_eq (A := A) hf' hbi
  obtain ⟨a3', a4'⟩ := loadFl_eq (A := A) hf' hbj
  have hp := (hs 0 hifgs).points
  unfold groupGen
  simp only [a1, a3, a1', a3', Bind.bind, Except.bind]
  rw [a2, a4, a2', a4', hp i hi, hp j hj]
  cases hcp : findCommonPoints id (filePoints (F i)) (filePoints (F j)) with
  | error e => rfl
  | ok cs =>
  obtain ⟨c1, c2⟩ := cs
  simp only
  obtain ⟨_, ps, _, hps, hc1, hc2⟩ := commonPoints_count hcp
  obtain ⟨s1, s2⟩ := selectFl_at (A := A) hf hi bi hc1
  obtain ⟨t1, t2⟩ := selectFl_at (A := A) hf hj bj hc2
  obtain ⟨s1', s2'⟩ := selectFl_at (A := A) hf' hi bi (cs := c1) (ps := ps) (by rw [hp i hi]; exact hc1)
  obtain ⟨t1', t2'⟩ := selectFl_at (A := A) hf' hj bj (cs := c2) (ps := ps) (by rw [hp j hj]; exact hc2)
  rw [pairwiseDecilesFl_congr s1 t1 s1' t1' (fun r hr k hk => by
      rw [(s2 r hr k hk).2, (s2' r hr k hk).2, (hs r hr).phase i hi j hj (by omega) _ (s2 r hr k hk).1 (t2 r hr k hk).1])
    (fun r hr k hk => by
      rw [(t2 r hr k hk).2, (t2' r hr k hk).2, (hs r hr).phase j hj i hi (by omega) _ (t2 r hr k hk).1 (s2 r hr k hk).1])]

/-- The groups of the overlap file, pair by pair. -/
theorem overlapsFl_groups {A : FloatArith K} {atol rtol : K} {minPoints : ℤ} {cc : Nat → List (Nat × Nat) → List Nat} {tiles : TileSet}
    (hn1 : tiles.tiles.length ≠ 1) (files : Nat → Except PyErr (TileFile K)) :
    phasediffDecilesFl A atol rtol id minPoints cc tiles files = (do
      let gs ← tiles.getOverlaps.mapM (groupGen (pairwiseDecilesFl A atol rtol) id minPoints (loadFl A tiles files))
      pure (some ⟨gs.flatten, cc tiles.tiles.length (gs.flatten.map Prod.fst), gs.flatten.map Prod.fst⟩)) := by
  unfold phasediffDecilesFl
  rw [if_neg hn1]
  have e1 := loopGen_eq (st := pairwiseDecilesFl A atol rtol) (wrap := id) (minPoints := minPoints)
    (load := loadFl A tiles files) tiles.getOverlaps (s := ⟨none, none, []⟩) (heldOk_none _) (heldOk_none _)
  change (do
    let s ← tiles.getOverlaps.foldlM (stepGen (pairwiseDecilesFl A atol rtol) id minPoints (loadFl A tiles files)) ⟨none, none, []⟩
    _) = _
  cases ha : tiles.getOverlaps.foldlM (stepGen (pairwiseDecilesFl A atol rtol) id minPoints (loadFl A tiles files)) ⟨none, none, []⟩ with
  | error e =>
    cases hb : tiles.getOverlaps.mapM (groupGen (pairwiseDecilesFl A atol rtol) id minPoints (loadFl A tiles files)) with
    | error e' =>
      rw [ha, hb] at e1
      simp only [Except.map, Except.error.injEq] at e1
      rw [e1]
      rfl
    | ok s' => rw [ha, hb] at e1; simp [Except.map] at e1
  | ok s =>
    cases hb : tiles.getOverlaps.mapM (groupGen (pairwiseDecilesFl A atol rtol) id minPoints (loadFl A tiles files)) with
    | error e' => rw [ha, hb] at e1; simp [Except.map] at e1
    | ok s' =>
      rw [ha, hb] at e1
      simp only [Except.map, Except.ok.injEq, List.nil_append] at e1
      simp only [Bind.bind, Except.bind, e1]

/-- The groups of two overlap files agree in one interferogram. -/
def GroupsAgree (nifgs nifgs' b b' : Nat) (x x' : (Nat × Nat) × OverlapGroup) : Prop :=
  x'.1 = x.1 ∧ x.2.stats.length = nifgs ∧ x'.2.stats.length = nifgs' ∧ x'.2.stats[b']? = x.2.stats[b]?

theorem overlapsFl_agree {A : FloatArith K} {atol rtol : K} {minPoints : ℤ} {cc : Nat → List (Nat × Nat) → List Nat}
    {nifgs nifgs' : Nat} {tiles : TileSet} (hn1 : tiles.tiles.length ≠ 1)
    {files files' : Nat → Except PyErr (TileFile K)} {F F' : Nat → TileFile K}
    (hf : TileFilesOk nifgs tiles files F) (hf' : TileFilesOk nifgs' tiles files' F') {b b' : Nat} (hb : b < nifgs) (hb' : b' < nifgs')
    (hs : SharedBands tiles.tiles.length F F' b b') {olap olap' : OverlapFile}
    (h : phasediffDecilesFl A atol rtol id minPoints cc tiles files = .ok (some olap))
    (h' : phasediffDecilesFl A atol rtol id minPoints cc tiles files' = .ok (some olap')) :
    olap.overlaps = olap.groups.map Prod.fst ∧ olap'.overlaps = olap'.groups.map Prod.fst ∧
    List.Forall₂ (GroupsAgree nifgs nifgs' b b') olap.groups olap'.groups := by
  rw [overlapsFl_groups hn1] at h h'
  cases hg : tiles.getOverlaps.mapM (groupGen (pairwiseDecilesFl A atol rtol) id minPoints (loadFl A tiles files)) with
  | error e => rw [hg] at h; cases h
  | ok gs =>
  cases hg' : tiles.getOverlaps.mapM (groupGen (pairwiseDecilesFl A atol rtol) id minPoints (loadFl A tiles files')) with
  | error e => rw [hg'] at h'; cases h'
  | ok gs' =>
  rw [hg] at h
  rw [hg'] at h'
  simp only [Bind.bind, Except.bind, pure, Except.pure, Except.ok.injEq, Option.some.injEq] at h h'
  subst h h'
  refine ⟨rfl, rfl, ?_⟩
  simp only
  have key : ∀ (l : List (Nat × Nat)) (gs gs' : List (List ((Nat × Nat) × OverlapGroup))), (∀ p ∈ l, p ∈ tiles.getOverlaps) →
      l.mapM (groupGen (pairwiseDecilesFl A atol rtol) id minPoints (loadFl A tiles files)) = .ok gs →
      l.mapM (groupGen (pairwiseDecilesFl A atol rtol) id minPoints (loadFl A tiles files')) = .ok gs' →
      List.Forall₂ (GroupsAgree nifgs nifgs' b b') gs.flatten gs'.flatten := by
    intro l
    induction l with
    | nil =>
      intro gs gs' _ h1 h2
      simp only [List.mapM_nil, pure, Except.pure, Except.ok.injEq] at h1 h2
      subst h1 h2
      exact List.Forall₂.nil
    | cons p l ih =>
      intro gs gs' hp h1 h2
      rw [List.mapM_cons] at h1 h2
      cases e1 : groupGen (pairwiseDecilesFl A atol rtol) id minPoints (loadFl A tiles files) p with
      | error e => rw [e1] at h1; cases h1
      | ok g =>
      cases e2 : groupGen (pairwiseDecilesFl A atol rtol) id minPoints (loadFl A tiles files') p with
      | error e => rw [e2] at h2; cases h2
      | ok g' =>
      rw [e1] at h1
      rw [e2] at h2
      cases e3 : l.mapM (groupGen (pairwiseDecilesFl A atol rtol) id minPoints (loadFl A tiles files)) with
      | error e => rw [e3] at h1; cases h1
      | ok r =>
      cases e4 : l.mapM (groupGen (pairwiseDecilesFl A atol rtol) id minPoints (loadFl A tiles files')) with
      | error e => rw [e4] at h2; cases h2
      | ok r' =>
      rw [e3] at h1
      rw [e4] at h2
      simp only [Bind.bind, Except.bind, pure, Except.pure, Except.ok.injEq] at h1 h2
      subst h1 h2
      rw [List.flatten_cons, List.flatten_cons]
      refine List.rel_append ?_ (ih r r' (fun q hq => hp q (List.mem_cons_of_mem _ hq)) e3 e4)
      obtain ⟨i, j⟩ := p
      rcases groupFl_shared hf hf' hb hb' hs (hp _ List.mem_cons_self) e1 e2 with ⟨rfl, rfl⟩ | ⟨c1, c2, s, s', rfl, rfl, k1, k2, k3⟩
      · exact List.Forall₂.nil
      · exact List.Forall₂.cons ⟨rfl, k1, k2, k3⟩ List.Forall₂.nil
  exact key _ gs gs' (fun _ h => h) hg hg'

/-- The median offsets of one interferogram. -/
theorem median_sameFl {A : FloatArith K} {atol rtol : K} {minPoints : ℤ} {cc : Nat → List (Nat × Nat) → List Nat}
    {nifgs nifgs' : Nat} {tiles : TileSet} (hn1 : tiles.tiles.length ≠ 1)
    {files files' : Nat → Except PyErr (TileFile K)} {F F' : Nat → TileFile K}
    (hf : TileFilesOk nifgs tiles files F) (hf' : TileFilesOk nifgs' tiles files' F') {b b' : Nat} (hb : b < nifgs) (hb' : b' < nifgs')
    (hs : SharedBands tiles.tiles.length F F' b b') {olap olap' : OverlapFile}
    (h : phasediffDecilesFl A atol rtol id minPoints cc tiles files = .ok (some olap))
    (h' : phasediffDecilesFl A atol rtol id minPoints cc tiles files' = .ok (some olap')) {med med' : List (List ℤ)}
    (hm : medianOffsets olap = .ok med) (hm' : medianOffsets olap' = .ok med') :
    olap'.overlaps = olap.overlaps ∧ olap'.labels = olap.labels ∧ med.length = olap.overlaps.length ∧
    med'.length = olap.overlaps.length ∧ (∀ x ∈ med, x.length = nifgs) ∧ (∀ x ∈ med', x.length = nifgs') ∧
    ∀ k < olap.overlaps.length, ∃ x x' v, med[k]? = some x ∧ med'[k]? = some x' ∧ x[b]? = some v ∧ x'[b']? = some v := by
  obtain ⟨ho, hl⟩ := overlapsFl_points hf hf' h h' hs.points
  obtain ⟨g1, g2, hag⟩ := overlapsFl_agree hn1 hf hf' hb hb' hs h h'
  have hnd : olap.overlaps.Nodup := by
    obtain ⟨o, k1, k2, _⟩ := overlapFl_strip hf h
    rw [← k2]
    exact (C53_recorded _ _ _ _ _ _ k1).2.1
  have entry : ∀ {o : OverlapFile} {md : List (List ℤ)}, o.overlaps = o.groups.map Prod.fst → o.overlaps.Nodup →
      medianOffsets o = .ok md → md.length = o.overlaps.length ∧ ∀ k (hk : k < o.groups.length), ∃ x, md[k]? = some x ∧
        ((o.groups[k]).2.stats.mapM fun row => (row[5]?).elim (Except.error PyErr.indexError) Except.ok) = .ok x := by
    intro o md q1 q2 q3
    unfold medianOffsets at q3
    obtain ⟨md', e1, e2, e3⟩ := mapM_exists _ _ (mapM_ok_imp q3)
    rw [q3, Except.ok.injEq] at e1
    subst e1
    refine ⟨e2, ?_⟩
    intro k hk
    obtain ⟨x, hx, hfx⟩ := e3 k (o.groups[k]).1 (by rw [q1, List.getElem?_map, List.getElem?_eq_getElem hk]; rfl)
    rw [find_group (by rw [← q1]; exact q2) (List.getElem_mem hk)] at hfx
    exact ⟨x, hx, hfx⟩
  obtain ⟨l1, a1⟩ := entry g1 hnd hm
  obtain ⟨l2, a2⟩ := entry g2 (by rw [ho]; exact hnd) hm'
  have hgl : olap.groups.length = olap.overlaps.length := by rw [g1, List.length_map]
  have hgl' : olap'.groups.length = olap.overlaps.length := by rw [← ho, g2, List.length_map]
  have hagk : ∀ k (hk : k < olap.groups.length) (hk' : k < olap'.groups.length),
      GroupsAgree nifgs nifgs' b b' olap.groups[k] olap'.groups[k] := fun k hk hk' =>
    (List.forall₂_iff_get.mp hag).2 k hk hk'
  have len : ∀ {st : List (List ℤ)} {x : List ℤ}, (st.mapM fun row => (row[5]?).elim (Except.error PyErr.indexError) Except.ok) = .ok x →
      x.length = st.length ∧ ∀ (j : Nat) row, st[j]? = some row → x[j]? = row[5]? := by
    intro st x hx
    obtain ⟨x', e1, e2, e3⟩ := mapM_exists _ _ (mapM_ok_imp hx)
    rw [hx, Except.ok.injEq] at e1
    subst e1
    refine ⟨e2, ?_⟩
    intro j row hj
    obtain ⟨v, hv, hr⟩ := e3 j row hj
    rw [hv]
    cases h5 : row[5]? with
    | none => rw [h5] at hr; cases hr
    | some w => rw [h5] at hr; simpa using hr.symm
  refine ⟨ho, hl, l1, by rw [l2, ho], ?_, ?_, ?_⟩
  · intro x hx
    obtain ⟨k, hk, rfl⟩ := List.mem_iff_getElem.mp hx
    obtain ⟨x, e1, e2⟩ := a1 k (by omega)
    rw [List.getElem?_eq_getElem hk, Option.some.injEq] at e1
    rw [e1, (len e2).1]
    exact (hagk k (by omega) (by omega)).2.1
  · intro x hx
    obtain ⟨k, hk, rfl⟩ := List.mem_iff_getElem.mp hx
    rw [ho] at l2
    obtain ⟨x, e1, e2⟩ := a2 k (by omega)
    rw [List.getElem?_eq_getElem hk, Option.some.injEq] at e1
    rw [e1, (len e2).1]
    exact (hagk k (by omega) (by omega)).2.2.1
  · intro k hk
    obtain ⟨x, e1, e2⟩ := a1 k (by omega)
    obtain ⟨x', e1', e2'⟩ := a2 k (by omega)
    obtain ⟨_, q1, q2, q3⟩ := hagk k (by omega) (by omega)
    obtain ⟨n1, n2⟩ := len e2
    obtain ⟨n1', n2'⟩ := len e2'
    have hbx : b < x.length := by omega
    have hrow : (olap.groups[k]'(by omega)).2.stats[b]? = some ((olap.groups[k]'(by omega)).2.stats[b]'(by omega)) :=
      List.getElem?_eq_getElem _
    have hv := n2 b _ hrow
    rw [hrow] at q3
    have hv' := n2' b' _ q3
    rw [← hv, List.getElem?_eq_getElem hbx] at hv'
    exact ⟨x, x', x[b], e1, e1', List.getElem?_eq_getElem hbx, hv'⟩

end

end Spurt
