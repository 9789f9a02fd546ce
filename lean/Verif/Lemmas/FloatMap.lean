import Verif.Lemmas.FloatStages

/-!
# The index lists of an overlap file written in mixed precision
-/

namespace Spurt
open Spec

section
variable {K : Type} [Field K] [LinearOrder K] [IsStrictOrderedRing K] [FloorRing K]

/-- A group without its statistics. -/
def stripGroup (g : (Nat × Nat) × OverlapGroup) : (Nat × Nat) × (List Nat × List Nat) := (g.1, g.2.c1, g.2.c2)

theorem pairIdx_strip {f f' : OverlapFile} (h : f.groups.map stripGroup = f'.groups.map stripGroup) (i j : Nat) :
    pairIdx f i j = pairIdx f' i j := by
  have hc : ∀ i j, commonOverlap f i j = commonOverlap f' i j := by
    intro i j
    unfold commonOverlap
    have key : ∀ l l' : List ((Nat × Nat) × OverlapGroup), l.map stripGroup = l'.map stripGroup →
        (l.find? fun g => decide (g.1 = (i, j))).map stripGroup = (l'.find? fun g => decide (g.1 = (i, j))).map stripGroup := by
      intro l
      induction l with
      | nil =>
        intro l' hl
        simp only [List.map_nil] at hl
        rw [List.map_eq_nil_iff.mp hl.symm]
      | cons a l ih =>
        intro l' hl
        cases l' with
        | nil => simp at hl
        | cons a' l' =>
          simp only [List.map_cons, List.cons.injEq] at hl
          have ha : a.1 = a'.1 := congrArg (fun g : (Nat × Nat) × (List Nat × List Nat) => g.1) hl.1
          rw [List.find?_cons, List.find?_cons, ha]
          by_cases hh : a'.1 = (i, j)
          · simp only [hh, decide_true, Option.map_some, hl.1]
          · simp only [hh, decide_false]
            exact ih l' hl.2
    have := key _ _ h
    cases h1 : f.groups.find? fun g => decide (g.1 = (i, j)) with
    | none =>
      cases h2 : f'.groups.find? fun g => decide (g.1 = (i, j)) with
      | none => rfl
      | some g' => rw [h1, h2] at this; simp at this
    | some g =>
      cases h2 : f'.groups.find? fun g => decide (g.1 = (i, j)) with
      | none => rw [h1, h2] at this; simp at this
      | some g' =>
        rw [h1, h2] at this
        simp only [Option.map_some, Option.some.injEq, stripGroup, Prod.mk.injEq] at this
        simp only [this.2.1, this.2.2]
  unfold pairIdx
  rw [hc i j, hc j i]

/-- The overlap file written in mixed precision has the index lists of a file written from tiles of zeros. -/
theorem overlapFl_strip {A : FloatArith K} {atol rtol : K} {minPoints : ℤ}
    {cc : Nat → List (Nat × Nat) → List Nat} {nifgs : Nat} {tiles : TileSet} {files : Nat → Except PyErr (TileFile K)}
    {F : Nat → TileFile K} (hf : TileFilesOk nifgs tiles files F) {olap : OverlapFile}
    (h : phasediffDecilesFl A atol rtol id minPoints cc tiles files = .ok (some olap)) :
    ∃ olap', phasediffDeciles id (1 : K) minPoints cc tiles
        (fun t => .ok (idealFile 1 nifgs (fun _ _ => 0) (fun _ _ => 0) F t)) = .ok (some olap') ∧
      olap'.overlaps = olap.overlaps ∧ olap'.labels = olap.labels ∧
      olap'.groups.map stripGroup = olap.groups.map stripGroup := by
  set G := idealFile (1 : K) nifgs (fun _ _ => 0) (fun _ _ => 0) F with hGdef
  have hG := ideal_ok (tau := (1 : K)) (phi := fun _ _ => 0) (c := fun _ _ => 0) hf
  unfold phasediffDecilesFl at h
  by_cases h1 : tiles.tiles.length = 1
  · rw [if_pos h1] at h; simp at h
  rw [if_neg h1] at h
  change (do
    let s ← tiles.getOverlaps.foldlM (stepGen (pairwiseDecilesFl A atol rtol) id minPoints (loadFl A tiles files)) ⟨none, none, []⟩
    let overlaps := s.groups.map Prod.fst
    pure (some (⟨s.groups, cc tiles.tiles.length overlaps, overlaps⟩ : OverlapFile))) = _ at h
  have e1 := loopGen_eq (st := pairwiseDecilesFl A atol rtol) (wrap := id) (minPoints := minPoints)
    (load := loadFl A tiles files) tiles.getOverlaps (s := ⟨none, none, []⟩) (heldOk_none _) (heldOk_none _)
  have e2 := loopGen_eq (st := pairwiseDeciles (1 : K)) (wrap := id) (minPoints := minPoints)
    (load := loadEx tiles fun t => .ok (G t)) tiles.getOverlaps (s := ⟨none, none, []⟩) (heldOk_none _) (heldOk_none _)
  cases ha : tiles.getOverlaps.foldlM (stepGen (pairwiseDecilesFl A atol rtol) id minPoints (loadFl A tiles files)) ⟨none, none, []⟩ with
  | error e => rw [ha] at h; simp [Bind.bind, Except.bind] at h
  | ok s =>
  rw [ha] at h e1
  simp only [Bind.bind, Except.bind, pure, Except.pure, Except.ok.injEq, Option.some.injEq] at h
  cases hgs : tiles.getOverlaps.mapM (groupGen (pairwiseDecilesFl A atol rtol) id minPoints (loadFl A tiles files)) with
  | error e => rw [hgs] at e1; simp [Except.map] at e1
  | ok gs =>
  rw [hgs] at e1
  simp only [Except.map, List.nil_append, Except.ok.injEq] at e1
  have hgroup : ∀ p ∈ tiles.getOverlaps, ∀ g, groupGen (pairwiseDecilesFl A atol rtol) id minPoints (loadFl A tiles files) p = .ok g →
      ∃ g', groupGen (pairwiseDeciles (1 : K)) id minPoints (loadEx tiles fun t => .ok (G t)) p = .ok g' ∧
        g'.map stripGroup = g.map stripGroup := by
    rintro ⟨i, j⟩ hij g hg
    obtain ⟨_, bi, bj, hbi, hbj, _⟩ := ((C25_overlaps tiles).1 i j).mp hij
    have hi := (List.getElem?_eq_some_iff.mp hbi).1
    have hj := (List.getElem?_eq_some_iff.mp hbj).1
    have hloadF : ∀ t b, tiles.tiles[t]? = some b → loadFl A tiles files t = .ok (loadUwTileFl A (F t) b) := by
      intro t b hb
      unfold loadFl
      rw [hb, hf.read t (List.getElem?_eq_some_iff.mp hb).1]
      rfl
    have hloadG : ∀ t b, tiles.tiles[t]? = some b → loadEx tiles (fun t => .ok (G t)) t = .ok (loadUwTile (G t) b) := by
      intro t b hb
      unfold loadEx
      rw [hb]
      rfl
    unfold groupGen at hg ⊢
    simp only [hloadF i bi hbi, hloadF j bj hbj, hloadG i bi hbi, hloadG j bj hbj, Bind.bind, Except.bind] at hg ⊢
    have hpts : ∀ t b, tiles.tiles[t]? = some b → (loadUwTile (G t) b).1 = (loadUwTileFl A (F t) b).1 := by
      intro t b hb
      rfl
    rw [hpts i bi hbi, hpts j bj hbj]
    cases hcp : findCommonPoints id (loadUwTileFl A (F i) bi).1 (loadUwTileFl A (F j) bj).1 with
    | error e => rw [hcp] at hg; simp at hg
    | ok cs =>
    obtain ⟨c1, c2⟩ := cs
    rw [hcp] at hg
    simp only at hg ⊢
    by_cases hm : (c1.length : ℤ) < minPoints
    · rw [if_pos hm] at hg ⊢
      exact ⟨g, hg, rfl⟩
    · rw [if_neg hm] at hg ⊢
      obtain ⟨_, ps, _, _, hc1, hc2⟩ := commonPoints_count hcp
      have hl1 : c1.length = ps.length := by simpa using congrArg List.length hc1
      have hl2 : c2.length = ps.length := by simpa using congrArg List.length hc2
      obtain ⟨e1, e2⟩ := hf.bands i hi
      obtain ⟨e3, e4⟩ := hf.bands j hj
      obtain ⟨g1, g2⟩ := hG.bands i hi
      obtain ⟨g3, g4⟩ := hG.bands j hj
      have s1 : (selectColumns (loadUwTileFl A (F i) bi).2 c1).shape = [nifgs, ps.length] := by
        simp [selectColumns, loadUwTileFl, e1, e2, hl1]
      have s2 : (selectColumns (loadUwTileFl A (F j) bj).2 c2).shape = [nifgs, ps.length] := by
        simp [selectColumns, loadUwTileFl, e3, e4, hl2]
      have t1 : (selectColumns (loadUwTile (G i) bi).2 c1).shape = [nifgs, ps.length] := by
        simp [selectColumns, loadUwTile, hGdef, g1, g2, hl1]
      have t2 : (selectColumns (loadUwTile (G j) bj).2 c2).shape = [nifgs, ps.length] := by
        simp [selectColumns, loadUwTile, hGdef, g3, g4, hl2]
      have h11 : 11 ≤ ps.length := by
        by_contra hc
        unfold pairwiseDecilesFl at hg
        rw [if_neg (by rw [s1, s2]; simp), s1] at hg
        simp only at hg
        rw [if_pos (by omega)] at hg
        simp at hg
      have hzero : ∀ t b cs r k, (selectColumns (loadUwTile (G t) b).2 cs).get [r, k] = 0 := by
        intro t b cs r k
        simp only [selectColumns, loadUwTile, hGdef, idealFile]
        have hz : ∀ row ∈ (List.zipWith (fun row off => List.map (fun x => x + off) row)
            ((List.range nifgs).map fun b => (filePoints (F t)).map fun pix => (0 : K) + 1 * ((0 : ℤ) : K))
            (List.replicate nifgs (0 : K))), ∀ v ∈ row, v = 0 := by
          intro row hrow v hv
          obtain ⟨n, hn, rfl⟩ := List.mem_iff_getElem.mp hrow
          rw [List.getElem_zipWith, List.getElem_map, List.getElem_replicate] at hv
          simp only [List.map_map, List.mem_map, Function.comp] at hv
          obtain ⟨_, _, rfl⟩ := hv
          simp
        set rows := List.zipWith (fun row off => List.map (fun x => x + off) row)
            ((List.range nifgs).map fun b => (filePoints (F t)).map fun pix => (0 : K) + 1 * ((0 : ℤ) : K))
            (List.replicate nifgs (0 : K))
        by_cases hr : r < rows.length
        · rw [List.getD_eq_getElem _ _ hr]
          by_cases hk : cs.getD k 0 < rows[r].length
          · rw [List.getD_eq_getElem _ _ hk]
            exact hz _ (List.getElem_mem hr) _ (List.getElem_mem hk)
          · rw [List.getD_eq_default _ _ (by omega)]
        · rw [List.getD_eq_default rows _ (not_lt.mp hr)]
          rfl
      obtain ⟨st, hst⟩ := (C38_accepts (1 : K) (selectColumns (loadUwTile (G i) bi).2 c1)
        (selectColumns (loadUwTile (G j) bj).2 c2)).1.mpr ⟨nifgs, ps.length, t1, t2, h11, fun r k _ _ =>
          ⟨0, by norm_num, by norm_num, by rw [hzero, hzero]; norm_num⟩⟩
      rw [hst]
      cases hfl : pairwiseDecilesFl A atol rtol (selectColumns (loadUwTileFl A (F i) bi).2 c1)
        (selectColumns (loadUwTileFl A (F j) bj).2 c2) with
      | error e => rw [hfl] at hg; simp at hg
      | ok st' =>
        rw [hfl] at hg
        simp only [pure, Except.pure, Except.ok.injEq] at hg ⊢
        subst hg
        exact ⟨_, rfl, rfl⟩
  obtain ⟨gs', hgs', hstrip⟩ : ∃ gs', tiles.getOverlaps.mapM (groupGen (pairwiseDeciles (1 : K)) id minPoints
      (loadEx tiles fun t => .ok (G t))) = .ok gs' ∧ gs'.flatten.map stripGroup = gs.flatten.map stripGroup := by
    clear e1 e2 ha h
    generalize tiles.getOverlaps = l at hgs hgroup ⊢
    induction l generalizing gs with
    | nil =>
      simp only [List.mapM_nil, pure, Except.pure, Except.ok.injEq] at hgs
      subst hgs
      exact ⟨[], rfl, rfl⟩
    | cons p l ih =>
      rw [List.mapM_cons] at hgs
      cases hp : groupGen (pairwiseDecilesFl A atol rtol) id minPoints (loadFl A tiles files) p with
      | error e => rw [hp] at hgs; simp [Bind.bind, Except.bind] at hgs
      | ok g =>
      rw [hp] at hgs
      cases hl : l.mapM (groupGen (pairwiseDecilesFl A atol rtol) id minPoints (loadFl A tiles files)) with
      | error e => rw [hl] at hgs; simp [Bind.bind, Except.bind] at hgs
      | ok gl =>
      rw [hl] at hgs
      simp only [Bind.bind, Except.bind, pure, Except.pure, Except.ok.injEq] at hgs
      subst hgs
      obtain ⟨g', k1, k2⟩ := hgroup p List.mem_cons_self g hp
      obtain ⟨gl', k3, k4⟩ := ih gl hl fun q hq => hgroup q (List.mem_cons_of_mem _ hq)
      refine ⟨g' :: gl', ?_, ?_⟩
      · rw [List.mapM_cons, k1, k3]; rfl
      · rw [List.flatten_cons, List.flatten_cons, List.map_append, List.map_append, k2, k4]
  rw [hgs'] at e2
  simp only [Except.map, List.nil_append] at e2
  cases hb : tiles.getOverlaps.foldlM (stepGen (pairwiseDeciles (1 : K)) id minPoints (loadEx tiles fun t => .ok (G t))) ⟨none, none, []⟩ with
  | error e => rw [hb] at e2; simp at e2
  | ok s' =>
  rw [hb] at e2
  simp only [Except.ok.injEq] at e2
  have hfst : s'.groups.map Prod.fst = s.groups.map Prod.fst := by
    have := congrArg (List.map Prod.fst) hstrip
    simp only [List.map_map] at this
    rw [e1, e2]
    exact this
  refine ⟨⟨s'.groups, cc tiles.tiles.length (s'.groups.map Prod.fst), s'.groups.map Prod.fst⟩, ?_, ?_, ?_, ?_⟩
  · unfold phasediffDeciles
    rw [if_neg h1]
    change (do
      let s ← tiles.getOverlaps.foldlM (stepGen (pairwiseDeciles (1 : K)) id minPoints (loadEx tiles fun t => .ok (G t))) ⟨none, none, []⟩
      _) = _
    rw [hb]
    rfl
  · rw [← h]; exact hfst
  · rw [← h]; simp only [hfst]
  · rw [← h]; simp only [e1, e2]; exact hstrip

/-- The merge stage starts from sound data, whatever the tiles hold. -/
theorem ready_float {A : FloatArith K} {atol rtol : K} {minPoints : ℤ} {cc : Nat → List (Nat × Nat) → List Nat} {nifgs : Nat}
    (hifgs : 1 ≤ nifgs) {tiles : TileSet} (htwo : 2 ≤ tiles.tiles.length) {files : Nat → Except PyErr (TileFile K)}
    {F : Nat → TileFile K} (hf : TileFilesOk nifgs tiles files F) {olap : OverlapFile}
    (hover : phasediffDecilesFl A atol rtol id minPoints cc tiles files = .ok (some olap))
    (hlab : olap.labels.length = tiles.tiles.length) {bulk : BulkFile K} (hbulk : BulkOk nifgs tiles.tiles.length bulk) :
    ∃ omap, overlapMap olap.labels.length olap.overlaps = .ok omap ∧
      Ready tiles.tiles.length nifgs (imageShape tiles) F olap omap bulk.offsets ∧
      (∀ i < tiles.tiles.length, (omap.getD i []).Nodup) ∧
      (∀ i < tiles.tiles.length, i ∉ omap.getD i []) := by
  obtain ⟨olap', h1, h2, h3, h4⟩ := overlapFl_strip hf hover
  obtain ⟨omap, k1, k2, k3, k4⟩ := ready_ideal hifgs htwo hf h1 (by rw [h3]; exact hlab) hbulk
  refine ⟨omap, by rw [← h2, ← h3]; exact k1, ⟨k2.two, ⟨k2.map.len, k2.map.lt, ?_, k2.map.once⟩, k2.inside, k2.width, k2.bands,
    k2.table⟩, k3, k4⟩
  intro i hi j hj
  obtain ⟨a, b, ps, e, r⟩ := k2.map.pair i hi j hj
  exact ⟨a, b, ps, by rw [← pairIdx_strip h4]; exact e, r⟩

end

end Spurt
