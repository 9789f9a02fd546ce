import Verif.Props.EndToEnd
import Verif.Lemmas.ResumeStages

/-!
# The later stages complete once an overlap is recorded
-/

namespace Spurt
open Spec

theorem pyInt_range {x : ℚ} {lo hi : ℤ} (h1 : (lo : ℚ) ≤ x) (h2 : x ≤ hi) (hlo : lo ≤ 0) (hhi : 0 ≤ hi) :
    lo ≤ pyInt x ∧ pyInt x ≤ hi := by
  unfold pyInt
  split
  · rename_i h
    refine ⟨le_trans hlo (Int.floor_nonneg.mpr h), ?_⟩
    have := (Int.floor_le x).trans h2
    exact_mod_cast this
  · rename_i h
    constructor
    · have := h1.trans (Int.le_ceil x)
      exact_mod_cast this
    · exact le_trans (Int.ceil_le.mpr (by push_cast; linarith)) hhi

section
variable {K : Type} [Field K] [LinearOrder K] [FloorRing K] [IsStrictOrderedRing K]

/-- The medians of the recorded overlaps exist: one per overlap and interferogram, inside the range
of 16-bit integers. -/
theorem medians_exist {tau : K} {minPoints : ℤ} {cc : Nat → List (Nat × Nat) → List Nat} {nifgs : Nat}
    {tiles : TileSet} {files : Nat → Except PyErr (TileFile K)} {F : Nat → TileFile K} {olap : OverlapFile}
    (hf : TileFilesOk nifgs tiles files F)
    (h : phasediffDeciles id tau minPoints cc tiles files = .ok (some olap)) :
    ∃ med, medianOffsets olap = .ok med ∧ med.length = olap.overlaps.length ∧
      ∀ x ∈ med, x.length = nifgs ∧ ∀ v ∈ x, -32768 ≤ v ∧ v ≤ 32767 := by
  obtain ⟨hsub, hnd, _, hrec⟩ := C53_recorded tau minPoints cc tiles files olap h
  have hgr := overlaps_groups h
  suffices hkey : ∀ p ∈ olap.overlaps, ∃ x : List ℤ, (match olap.groups.find? fun g => decide (g.1 = p) with
      | none => .error .keyError
      | some g => g.2.stats.mapM fun row => (row[5]?).elim (.error .indexError) .ok) = (.ok x : Except PyErr (List ℤ)) ∧
      x.length = nifgs ∧ ∀ v ∈ x, -32768 ≤ v ∧ v ≤ 32767 by
    obtain ⟨med, h1, h2, h3⟩ := mapM_exists _ _ (fun p hp => (hkey p hp).imp fun x hx => hx.1)
    refine ⟨med, h1, h2, fun x hx => ?_⟩
    obtain ⟨k, hk, rfl⟩ := List.mem_iff_getElem.mp hx
    have hk' : k < olap.overlaps.length := by omega
    obtain ⟨x', e1, e2⟩ := h3 k _ (List.getElem?_eq_getElem hk')
    rw [List.getElem?_eq_getElem hk, Option.some.injEq] at e1
    subst e1
    obtain ⟨x'', e3, e4⟩ := hkey _ (List.getElem_mem hk')
    rw [e2, Except.ok.injEq] at e3
    rw [e3]
    exact e4
  rintro ⟨i, j⟩ hij
  obtain ⟨bi, bj, fi, fj, h1, h2, h3, h4, _, h5⟩ := hrec _ _ (hsub.subset hij)
  have hi := (List.getElem?_eq_some_iff.mp h1).1
  rw [hf.read _ hi, Except.ok.injEq] at h3
  subst h3
  obtain ⟨c1, c2, st, h6, h7, h8, _⟩ := h5 hij
  have hfind := find_group (by rw [← hgr]; exact hnd) h7
  simp only at hfind
  rw [hfind]
  simp only
  obtain ⟨hacc, hres⟩ := C38_accepts tau (selectColumns (imagePhase (F i)) c1) (selectColumns (imagePhase fj) c2)
  obtain ⟨nb, n, hs1, hs2, hn11, _⟩ := hacc.mp ⟨st, h8⟩
  obtain ⟨hstl, hst⟩ := hres nb n st hs1 h8
  obtain ⟨e3, e4⟩ := hf.bands _ hi
  simp only [selectColumns, List.cons.injEq, imagePhase, List.length_zipWith, e3, e4, min_self] at hs1
  have hrow : ∀ r < st.length, ∃ v : ℤ, (st.map fun r => r.map pyInt)[r]?.bind (·[5]?) = some v ∧ -32768 ≤ v ∧ v ≤ 32767 := by
    intro r hr
    obtain ⟨row, hd, hl, hk⟩ := hst r (by omega)
    have hne : row ≠ [] := by rintro rfl; simp at hl; omega
    have hrange : ∀ x ∈ row, -32768 ≤ x ∧ x ≤ 32767 := by
      intro x hx
      obtain ⟨c, hc, rfl⟩ := List.mem_iff_getElem.mp hx
      obtain ⟨k, hk1, hk2⟩ := hk c (by omega)
      rw [List.getElem?_eq_getElem hc, Option.some.injEq] at hk1
      rw [hk1]
      exact ⟨hk2.1, hk2.2.1⟩
    obtain ⟨d1, d2, ⟨lo, hlo, hlo', _⟩, ⟨hi', hhi, hhi', _⟩, _⟩ := C38_order row hne
    rw [List.pairwise_iff_getElem] at d2
    obtain ⟨_, e0⟩ := List.getElem?_eq_some_iff.mp hlo'
    obtain ⟨_, e10⟩ := List.getElem?_eq_some_iff.mp hhi'
    have b1 := d2 0 5 (by omega) (by omega) (by omega)
    have b2 := d2 5 10 (by omega) (by omega) (by omega)
    rw [e0] at b1
    rw [e10] at b2
    refine ⟨pyInt ((deciles row)[5]'(by omega)), ?_, ?_⟩
    · rw [List.getElem?_map, hd]
      simp only [Option.map_some, Option.bind_some]
      rw [List.getElem?_map, List.getElem?_eq_getElem (by omega)]
      rfl
    · have hlo2 := (hrange lo hlo).1
      have hhi2 := (hrange hi' hhi).2
      refine pyInt_range ?_ ?_ (by omega) (by omega)
      · exact le_trans (by exact_mod_cast hlo2) b1
      · exact le_trans b2 (by exact_mod_cast hhi2)
  obtain ⟨x, hx, hxl, hxv⟩ := mapM_exists (fun row : List ℤ => (row[5]?).elim (.error .indexError) (Except.ok (ε := PyErr)))
    (st.map fun r => r.map pyInt) (by
      intro row hr
      obtain ⟨r, hr', rfl⟩ := List.mem_iff_getElem.mp hr
      obtain ⟨v, hv, _⟩ := hrow r (by simpa using hr')
      rw [List.getElem?_eq_getElem hr', Option.bind_some] at hv
      rw [hv]
      exact ⟨v, rfl⟩)
  refine ⟨x, hx, by rw [hxl, List.length_map]; omega, fun v hv => ?_⟩
  obtain ⟨k, hk, rfl⟩ := List.mem_iff_getElem.mp hv
  have hk' : k < (st.map fun r => r.map pyInt).length := by omega
  obtain ⟨v', q1, q2⟩ := hxv k _ (List.getElem?_eq_getElem hk')
  rw [List.getElem?_eq_getElem hk, Option.some.injEq] at q1
  subst q1
  obtain ⟨v', w1, w2⟩ := hrow k (by simpa using hk')
  rw [List.getElem?_eq_getElem hk', Option.bind_some] at w1
  rw [w1, Option.elim_some, Except.ok.injEq] at q2
  rw [← q2]
  exact w2

/-- Once at least one overlap is recorded, the bulk offsets and the merge complete. -/
theorem stages_return {C : Type} [LinearOrder C] {tau : K} {minPoints : ℤ}
    {cc : Nat → List (Nat × Nat) → List Nat}
    {nifgs : Nat} (hifgs : 1 ≤ nifgs) {tiles : TileSet} (htwo : 2 ≤ tiles.tiles.length)
    (himg : 0 < tiles.shape.1 ∧ 0 < tiles.shape.2)
    {files : Nat → Except PyErr (TileFile K)} {F : Nat → TileFile K} (hf : TileFilesOk nifgs tiles files F)
    {olap : OverlapFile} (hover : phasediffDeciles id tau minPoints cc tiles files = .ok (some olap))
    (hone : olap.overlaps ≠ []) (hlab : ComponentLabels tiles.tiles.length olap.overlaps olap.labels)
    {mip : MipSolver} (hmip : MipOptimal mip) (hmipc : MipComplete mip) {lstsq : Lstsq K} {settings : MergerSettings}
    (hls : settings.bulkMethod = "L2" → ∀ olaps off, off.length = olaps.length → (∀ row ∈ off, row.length = nifgs) →
      LeastSquares (overlapMatrix olaps tiles.tiles.length) off (lstsq (overlapMatrix olaps tiles.tiles.length) off)
        tiles.tiles.length nifgs)
    (hbm : settings.bulkMethod = "integer" ∨ settings.bulkMethod = "L2")
    (hmethod : settings.method = "dirichlet")
    {lin : LinSolver K} (hilu : ∀ a, lin.ilu a = true) {simplices : List (ℤ × ℤ) → List Tri}
    (hlinks : ∀ i < tiles.tiles.length, ∀ u v,
      (u, v) ∈ (delaunayGraph (F i).points.length (simplices (filePoints (F i)))).links →
      u < (F i).points.length ∧ v < (F i).points.length)
    (hlast : ∀ i < tiles.tiles.length, ∃ p, Adjacent
      (delaunayGraph (F i).points.length (simplices (filePoints (F i)))).links ((F i).points.length - 1) p)
    (coh : Band (Option C)) (thr : C) :
    ∃ bulk, bulkOffsets mip lstsq settings.bulkMethod tiles coh thr olap = .ok (some bulk) ∧
      ∃ M : Nat → MergedBand K, ∀ isFile,
        mergeTiles tau ⟨lin, simplices, olap⟩ settings tiles files ⟨bulk.method, bulk.offsets, []⟩ nifgs isFile =
          .ok (.merged (((List.range nifgs).filter fun i => !isFile i).map fun i => (i, M i))) := by
  obtain ⟨hsub, hnd, hlabels, hrec⟩ := C53_recorded tau minPoints cc tiles files olap hover
  have hlt : ∀ e ∈ olap.overlaps, e.1 < e.2 ∧ e.2 < tiles.tiles.length := by
    rintro ⟨i, j⟩ he
    obtain ⟨h1, a, b, h2, h3, _⟩ := ((C25_overlaps tiles).1 i j).mp (hsub.subset he)
    exact ⟨h1, (List.getElem?_eq_some_iff.mp h3).1⟩
  obtain ⟨med, hmed, hmedl, hmedv⟩ := medians_exist hf hover
  have hmedne : med ≠ [] := by
    rintro rfl
    exact hone (List.length_eq_zero_iff.mp hmedl.symm)
  have hmedrow : ∀ x ∈ med, x.length = nifgs := fun x hx => (hmedv x hx).1
  have hcl : (tileCounts coh thr tiles).length = tiles.tiles.length := by simp [tileCounts]
  obtain ⟨bulk, hbulk⟩ : ∃ bulk, bulkOffsets mip lstsq settings.bulkMethod tiles coh thr olap = .ok (some bulk) := by
    rcases hbm with hi | hi
    · rw [hi, bulk_integer (by omega) hmed hmedne hmedrow]
      obtain ⟨rows, hr, _⟩ := mapM_exists (fun ii => solveIntOffsets mip olap.overlaps olap.labels
        (med.map fun x => x.getD ii 0) (tileCounts coh thr tiles)) (List.range nifgs) (by
        intro b hb
        obtain ⟨nr, v, e⟩ := C39_returns tiles.tiles.length olap.overlaps olap.labels (med.map fun x => x.getD b 0)
          (tileCounts coh thr tiles) ⟨by omega, (by
            intro t1 t2 ht
            have := hlt _ ht
            simp only at this
            omega), hlab, by simp [hmedl], (by
            intro o ho
            obtain ⟨x, hx, rfl⟩ := List.mem_map.mp ho
            obtain ⟨k1, k2⟩ := hmedv x hx
            rw [List.getD_eq_getElem _ _ (by rw [k1]; exact List.mem_range.mp hb)]
            exact k2 _ (List.getElem_mem _)), hcl⟩ mip hmipc
        exact ⟨_, e⟩)
      rw [hr]
      exact ⟨_, rfl⟩
    · rw [hi, bulk_L2 (by omega) hmed hmedne hmedrow]
      have hrl : ∀ row ∈ med.map (fun x => x.map fun v => ((v : ℤ) : K)), row.length = nifgs := by
        intro row hr
        obtain ⟨x, hx, rfl⟩ := List.mem_map.mp hr
        simp [hmedrow x hx]
      obtain ⟨x, res, hx1, _⟩ := C40_least_squares tiles.tiles.length nifgs olap.overlaps _ (tileCounts coh thr tiles)
        ⟨by omega, (by
          intro t1 t2 ht
          have := hlt _ ht
          simp only at this
          omega), by simp [hmedl], hrl, hcl⟩ lstsq (hls hi _ _ (by simp [hmedl]) hrl)
      rw [hx1]
      exact ⟨_, rfl⟩
  refine ⟨bulk, hbulk, ?_⟩
  obtain ⟨b1, b2⟩ := bulk_shape hmip (by omega) hlab.length (fun med' hmed' => by
    rw [hmed, Except.ok.injEq] at hmed'
    subst hmed'
    exact hmedrow) hbulk
  set env : MergeEnv K := ⟨lin, simplices, olap⟩ with henv
  have hinput : MergeInput tau minPoints cc nifgs tiles files F env.overlap ⟨bulk.method, bulk.offsets, []⟩ settings :=
    ⟨htwo, himg, hifgs, hf, hover, hlab.length, ⟨b2.rows, b2.cols⟩, hmethod, b1⟩
  obtain ⟨omap, o1, o2, _⟩ := ready_of_input hinput
  obtain ⟨d, hd⟩ := getMaxDegree_ok (shape := imageShape tiles) (n := tiles.tiles.length) (F := F) (by
    simp only [imageShape]
    omega) o2.inside
  refine ⟨_, fun isFile => (mergeTiles_eq hinput o1 o2 hd isFile).1 (Or.inl ?_)⟩
  intro dd _ i hi _
  obtain ⟨p, hp⟩ := hlast i hi
  have hlne : (delaunayGraph (F i).points.length (simplices (filePoints (F i)))).links ≠ [] := by
    intro hc
    rw [hc] at hp
    simp [Adjacent] at hp
  obtain ⟨a, ha⟩ := (C43_returns _).mpr hlne
  refine ⟨⟨a.n, fun i j => ((a.val i j : ℤ) : K)⟩, ?_, ?_, hilu _⟩
  · unfold lapOf
    rw [filePoints_length, ha]
    rfl
  · exact (C43_size (F i).points.length _ a (hlinks i hi) ha).2.2.mpr ⟨p, hp⟩

end

end Spurt
