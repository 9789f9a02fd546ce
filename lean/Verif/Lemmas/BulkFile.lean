import Verif.Lemmas.Medians

/-!
# The bulk offset file
-/

namespace Spurt
open Spec

section
variable {K : Type} [Field K] [LinearOrder K] [FloorRing K]

/-- The valid pixels of every tile, as counted by `get_bulk_offsets`. -/
def tileCounts {C : Type} [LinearOrder C] (coh : Band (Option C)) (thr : C) (tiles : TileSet) : List Nat :=
  tiles.tiles.map fun t => (tilePoints coh thr t).length

omit [LinearOrder K] [FloorRing K] in
theorem solveIntStep_eq {med : List (List ℤ)} {nb : Nat} (hrow : ∀ x ∈ med, x.length = nb) {ii : Nat} (hi : ii < nb) :
    med.mapM (fun x => (x[ii]?).elim (.error .indexError) Except.ok) =
      (.ok (med.map fun x => x.getD ii 0) : Except PyErr (List ℤ)) := by
  apply mapM_ok_of
  intro x hx
  have : ii < x.length := by rw [hrow x hx]; exact hi
  rw [List.getElem?_eq_getElem this, List.getD_eq_getElem _ _ this]
  rfl

omit [FloorRing K] in
theorem bulk_integer {C : Type} [LinearOrder C] {mip : MipSolver} {lstsq : Lstsq K} {tiles : TileSet}
    {coh : Band (Option C)} {thr : C} {f : OverlapFile} (hn : tiles.tiles.length ≠ 1) {med : List (List ℤ)} {nb : Nat}
    (hmed : medianOffsets f = .ok med) (hne : med ≠ []) (hrow : ∀ x ∈ med, x.length = nb) :
    bulkOffsets mip lstsq "integer" tiles coh thr f = (do
      let rows ← (List.range nb).mapM fun ii => solveIntOffsets mip f.overlaps f.labels (med.map fun x => x.getD ii 0)
        (tileCounts coh thr tiles)
      pure (some ⟨"integer", rows.map fun r => r.1.map fun v => ((v : ℤ) : K), rows.map fun r => ((r.2 : ℤ) : K)⟩)) := by
  unfold bulkOffsets
  rw [if_neg hn, hmed]
  obtain ⟨x, rest, rfl⟩ := List.exists_cons_of_ne_nil hne
  have hx : x.length = nb := hrow x (by simp)
  simp only [Bind.bind, Except.bind, List.getElem?_cons_zero, Option.elim_some, if_true, hx]
  have hc : ∀ (l : List Nat), (∀ i ∈ l, i < nb) → ∀ (g g' : Nat → Except PyErr (List ℤ × ℤ)), (∀ i < nb, g i = g' i) →
      l.mapM g = l.mapM g' := by
    intro l
    induction l with
    | nil => intros; rfl
    | cons a l ih =>
      intro hl g g' hg
      rw [List.mapM_cons, List.mapM_cons, hg a (hl a (by simp)), ih (fun i hi => hl i (by simp [hi])) g g' hg]
  rw [hc (List.range nb) (fun i hi => List.mem_range.mp hi) _ (fun ii => solveIntOffsets mip f.overlaps f.labels
    ((x :: rest).map fun x => x.getD ii 0) (tileCounts coh thr tiles)) (by
      intro i hi
      rw [solveIntStep_eq hrow hi]
      rfl)]

omit [FloorRing K] in
theorem bulk_L2 {C : Type} [LinearOrder C] {mip : MipSolver} {lstsq : Lstsq K} {tiles : TileSet}
    {coh : Band (Option C)} {thr : C} {f : OverlapFile} (hn : tiles.tiles.length ≠ 1) {med : List (List ℤ)} {nb : Nat}
    (hmed : medianOffsets f = .ok med) (hne : med ≠ []) (hrow : ∀ x ∈ med, x.length = nb) :
    bulkOffsets mip lstsq "L2" tiles coh thr f = (do
      let r ← solveL2Min lstsq f.overlaps (med.map fun x => x.map fun v => ((v : ℤ) : K)) nb
          tiles.tiles.length (tileCounts coh thr tiles)
      pure (some ⟨"L2", r.1, r.2⟩)) := by
  unfold bulkOffsets
  rw [if_neg hn, hmed]
  obtain ⟨x, rest, rfl⟩ := List.exists_cons_of_ne_nil hne
  have hx : x.length = nb := hrow x (by simp)
  simp only [Bind.bind, Except.bind, List.getElem?_cons_zero, Option.elim_some, hx]
  rw [if_neg (by decide), if_pos trivial, if_neg (by
    rw [List.any_eq_true]
    rintro ⟨y, hy, hc⟩
    simp [hrow y hy] at hc)]
  rfl

theorem exists_largestTile {counts : List Nat} (h : counts ≠ []) : ∃ r, LargestTile counts r := by
  obtain ⟨k, _, h2, h3⟩ := argmax_spec counts h
  exact ⟨k, h2, h3⟩

/-- The bulk offsets computed from tiles that differ by whole cycles. -/
theorem cut_offsets_largest [IsStrictOrderedRing K] {C : Type} [LinearOrder C] {mip : MipSolver} (hmip : MipOptimal mip)
    {lstsq : Lstsq K} {method : String} {coh : Band (Option C)} {thr : C} {nifgs : Nat}
    {tiles : TileSet} {olap : OverlapFile} (htwo : 2 ≤ tiles.tiles.length)
    (hin : ∀ e ∈ olap.overlaps, e.1 < e.2 ∧ e.2 < tiles.tiles.length)
    (hlab : ComponentLabels tiles.tiles.length olap.overlaps olap.labels)
    (hconn : ∀ t < tiles.tiles.length, Relation.ReflTransGen (Adjacent olap.overlaps) 0 t)
    {c : Nat → Nat → ℤ} (hsmall : ∀ b i, |c b i| ≤ 16383)
    (hmed : medianOffsets olap = .ok (olap.overlaps.map fun e => (List.range nifgs).map fun b => c b e.2 - c b e.1))
    (hls : method = "L2" → ∀ med, medianOffsets olap = .ok med → LeastSquares (overlapMatrix olap.overlaps tiles.tiles.length)
      (med.map fun x => x.map fun v => ((v : ℤ) : K)) (lstsq (overlapMatrix olap.overlaps tiles.tiles.length)
      (med.map fun x => x.map fun v => ((v : ℤ) : K))) tiles.tiles.length nifgs)
    {bulk : BulkFile K} (h : bulkOffsets mip lstsq method tiles coh thr olap = .ok (some bulk)) :
    bulk.method = method ∧ BulkOk nifgs tiles.tiles.length bulk ∧ bulk.residuals = List.replicate nifgs 0 ∧
    ∃ ref < tiles.tiles.length, LargestTile (tileCounts coh thr tiles) ref ∧ ∀ b < nifgs, ∀ i < tiles.tiles.length,
      (bulk.offsets.getD b []).getD i 0 = ((c b i - c b ref : ℤ) : K) := by
  set n := tiles.tiles.length with hndef
  have hne : olap.overlaps ≠ [] := by
    intro hc
    have := hconn 1 (by omega)
    rw [hc] at this
    rcases Relation.ReflTransGen.cases_head this with h | ⟨x, h, _⟩
    · omega
    · simp [Adjacent] at h
  set med := olap.overlaps.map fun e => (List.range nifgs).map fun b => c b e.2 - c b e.1 with hmeddef
  have hmedne : med ≠ [] := by simpa [hmeddef] using hne
  have hmedrow : ∀ x ∈ med, x.length = nifgs := by
    intro x hx
    obtain ⟨e, _, rfl⟩ := List.mem_map.mp hx
    simp
  have hcl : (tileCounts coh thr tiles).length = n := by simp [tileCounts, hndef]
  obtain ⟨ref, href⟩ := exists_largestTile (counts := tileCounts coh thr tiles) (by
    intro hc; rw [hc] at hcl; simp at hcl; omega)
  have hrefn : ref < n := by rw [← hcl]; exact href.1
  have hreach : ∀ t < n, Relation.ReflTransGen (Adjacent olap.overlaps) ref t := fun t ht =>
    (adjacent_symm (hconn ref hrefn)).trans (hconn t ht)
  have hmeth : method = "integer" ∨ method = "L2" := by
    by_contra hc
    push Not at hc
    unfold bulkOffsets at h
    rw [if_neg (by omega), hmed] at h
    obtain ⟨x, rest, hx⟩ := List.exists_cons_of_ne_nil hmedne
    rw [hx] at h
    simp [Bind.bind, Except.bind, hc.1, hc.2] at h
  rcases hmeth with rfl | rfl
  · rw [bulk_integer (by omega) hmed hmedne hmedrow] at h
    have hinput : ∀ b < nifgs, IntOffsetInput n olap.overlaps olap.labels (med.map fun x => x.getD b 0)
        (tileCounts coh thr tiles) := by
      intro b hb
      refine ⟨by omega, ?_, hlab, by simp [hmeddef], ?_, hcl⟩
      · intro t1 t2 ht
        have := hin _ ht
        simp only at this
        omega
      · intro o ho
        obtain ⟨x, hx, rfl⟩ := List.mem_map.mp ho
        obtain ⟨e, _, rfl⟩ := List.mem_map.mp hx
        rw [getD_map_lt _ _ (by simpa using hb)]
        simp only [List.getElem_range]
        have h1 := abs_le.mp (hsmall b e.1)
        have h2 := abs_le.mp (hsmall b e.2)
        omega
    cases hrows : (List.range nifgs).mapM fun ii => solveIntOffsets mip olap.overlaps olap.labels
        (med.map fun x => x.getD ii 0) (tileCounts coh thr tiles) with
    | error e => rw [hrows] at h; simp [Bind.bind, Except.bind] at h
    | ok rows =>
      rw [hrows] at h
      simp only [Bind.bind, Except.bind, pure, Except.pure, Except.ok.injEq, Option.some.injEq] at h
      obtain ⟨l', g1, g2, g3⟩ := mapM_exists _ _ (mapM_ok_imp hrows)
      rw [hrows, Except.ok.injEq] at g1
      subst g1
      have hfacts : ∀ b < nifgs, ∃ nr v, rows[b]? = some (nr, v) ∧ v = 0 ∧ nr.length = n ∧
          ∀ t < n, nr[t]? = some (c b t - c b ref) := by
        intro b hb
        obtain ⟨⟨nr, v⟩, k1, k2⟩ := g3 b b (by rw [List.getElem?_range hb])
        obtain ⟨q1, _, q3⟩ := C39_consistent n olap.overlaps olap.labels _ _ (hinput b hb) mip hmip nr v k2 (c b)
          (fun t => le_trans (hsmall b t) (by norm_num)) (by
            intro k t1 t2 hk
            rw [List.getElem?_map, hmeddef, List.getElem?_map, hk]
            simp only [Option.map_some]
            rw [getD_map_lt _ _ (by simpa using hb)]
            simp)
        obtain ⟨p1, _⟩ := C39_least_disagreement n olap.overlaps olap.labels _ _ (hinput b hb) mip hmip nr v k2
        refine ⟨nr, v, k1, q1, p1, fun t ht => ?_⟩
        refine q3 t ref ht ⟨href.1, fun u hu _ => href.2 u hu⟩ (hreach t ht)
      subst h
      simp only [List.length_range] at g2
      refine ⟨rfl, ⟨by simp [g2], ?_⟩, ?_, ref, hrefn, href, ?_⟩
      · intro row hr
        obtain ⟨⟨nr, v⟩, hx, rfl⟩ := List.mem_map.mp hr
        obtain ⟨b, hb, hbe⟩ := List.mem_iff_getElem.mp hx
        obtain ⟨nr', v', e1, _, e3, _⟩ := hfacts b (by omega)
        rw [List.getElem?_eq_getElem hb, hbe, Option.some.injEq, Prod.mk.injEq] at e1
        simp only [List.length_map]
        rw [e1.1, e3]
      · apply List.ext_getElem?
        intro b
        by_cases hb : b < nifgs
        · obtain ⟨nr, v, e1, e2, _⟩ := hfacts b hb
          rw [List.getElem?_map, e1, List.getElem?_replicate, if_pos hb]
          simp [e2]
        · rw [List.getElem?_eq_none (by simp; omega), List.getElem?_eq_none (by simp; omega)]
      · intro b hb i hi
        obtain ⟨nr, v, e1, _, _, e4⟩ := hfacts b hb
        have : (rows.map fun r => r.1.map fun v => ((v : ℤ) : K)).getD b [] = nr.map fun v => ((v : ℤ) : K) := by
          rw [List.getD_eq_getElem?_getD, List.getElem?_map, e1]
          rfl
        rw [this, List.getD_eq_getElem?_getD, List.getElem?_map, e4 i hi]
        rfl
  · rw [bulk_L2 (by omega) hmed hmedne hmedrow] at h
    have hinput : L2Input n nifgs olap.overlaps (med.map fun x => x.map fun v => ((v : ℤ) : K))
        (tileCounts coh thr tiles) := by
      refine ⟨by omega, ?_, by simp [hmeddef], ?_, hcl⟩
      · intro t1 t2 ht
        have := hin _ ht
        simp only at this
        omega
      · intro row hr
        obtain ⟨x, hx, rfl⟩ := List.mem_map.mp hr
        simp [hmedrow x hx]
    have hls := hls rfl med hmed
    obtain ⟨x, res, hx1, hx2, hx3, hx4⟩ := C40_least_squares n nifgs olap.overlaps _ _ hinput lstsq hls
    rw [hx1] at h
    simp only [Bind.bind, Except.bind, pure, Except.pure, Except.ok.injEq, Option.some.injEq] at h
    subst h
    have hfacts : ∀ b < nifgs, res[b]? = some 0 ∧ ∃ row, x[b]? = some row ∧
        ∀ t < n, row[t]? = some (((c b t - c b ref : ℤ)) : K) := by
      intro b hb
      obtain ⟨q1, row, q2, _, q4⟩ := C40_consistent n nifgs olap.overlaps _ _ hinput lstsq hls x res hx1 b hb
        (fun t => ((c b t : ℤ) : K)) (by
          intro k t1 t2 row hk hr
          rw [List.getElem?_map, hmeddef, List.getElem?_map, hk] at hr
          simp only [Option.map_some, Option.some.injEq] at hr
          subst hr
          rw [List.getElem?_map, List.getElem?_map, List.getElem?_range hb]
          simp)
      refine ⟨q1, row, q2, fun t ht => ?_⟩
      rw [q4 t ref ht href (hreach t ht)]
      push_cast
      rfl
    refine ⟨rfl, ⟨hx2, ?_⟩, ?_, ref, hrefn, href, ?_⟩
    · intro row hr
      obtain ⟨b, hb, rfl⟩ := List.mem_iff_getElem.mp hr
      obtain ⟨row, e1, e2, _⟩ := hx4 b (by simp only at hb; omega)
      simp only at hb
      rw [List.getElem?_eq_getElem hb, Option.some.injEq] at e1
      simp only [e1, e2]
    · apply List.ext_getElem?
      intro b
      by_cases hb : b < nifgs
      · rw [(hfacts b hb).1, List.getElem?_replicate, if_pos hb]
      · rw [List.getElem?_eq_none (by simp only; omega), List.getElem?_eq_none (by simp; omega)]
    · intro b hb i hi
      obtain ⟨_, row, e1, e2⟩ := hfacts b hb
      simp only [List.getD_eq_getElem?_getD, e1, Option.getD_some, e2 i hi]

theorem cut_offsets [IsStrictOrderedRing K] {C : Type} [LinearOrder C] {mip : MipSolver} (hmip : MipOptimal mip)
    {lstsq : Lstsq K} {method : String} {coh : Band (Option C)} {thr : C} {nifgs : Nat}
    {tiles : TileSet} {olap : OverlapFile} (htwo : 2 ≤ tiles.tiles.length)
    (hin : ∀ e ∈ olap.overlaps, e.1 < e.2 ∧ e.2 < tiles.tiles.length)
    (hlab : ComponentLabels tiles.tiles.length olap.overlaps olap.labels)
    (hconn : ∀ t < tiles.tiles.length, Relation.ReflTransGen (Adjacent olap.overlaps) 0 t)
    {c : Nat → Nat → ℤ} (hsmall : ∀ b i, |c b i| ≤ 16383)
    (hmed : medianOffsets olap = .ok (olap.overlaps.map fun e => (List.range nifgs).map fun b => c b e.2 - c b e.1))
    (hls : method = "L2" → ∀ med, medianOffsets olap = .ok med → LeastSquares (overlapMatrix olap.overlaps tiles.tiles.length)
      (med.map fun x => x.map fun v => ((v : ℤ) : K)) (lstsq (overlapMatrix olap.overlaps tiles.tiles.length)
      (med.map fun x => x.map fun v => ((v : ℤ) : K))) tiles.tiles.length nifgs)
    {bulk : BulkFile K} (h : bulkOffsets mip lstsq method tiles coh thr olap = .ok (some bulk)) :
    bulk.method = method ∧ BulkOk nifgs tiles.tiles.length bulk ∧ bulk.residuals = List.replicate nifgs 0 ∧
    ∃ ref < tiles.tiles.length, ∀ b < nifgs, ∀ i < tiles.tiles.length,
      (bulk.offsets.getD b []).getD i 0 = ((c b i - c b ref : ℤ) : K) := by
  obtain ⟨h1, h2, h3, ref, h4, _, h5⟩ := cut_offsets_largest hmip htwo hin hlab hconn hsmall hmed hls h
  exact ⟨h1, h2, h3, ref, h4, h5⟩

end

end Spurt
