import Verif.Lemmas.BulkFile
import Mathlib.Data.Set.Card
import Mathlib.Data.List.Nodup

/-!
# Property C64: the bulk offsets survive local errors of the tiles
-/

namespace Spurt

section
variable {K : Type} [Field K]

/-- At the pixel `p`, common to two tiles, the second tile has `k` cycles more than the first one in
interferogram `b`. -/
def Spec.DiffersBy (tau : K) (fi fj : TileFile K) (b : Nat) (k : ℤ) (p : ℤ × ℤ) : Prop :=
  ∃ n m : Nat, (Spec.filePoints fi)[n]? = some p ∧ (Spec.filePoints fj)[m]? = some p ∧
    Spec.filePhase fj b m - Spec.filePhase fi b n = tau * k

/-- At more than half of the pixels common to two tiles, the second tile has `k` cycles more than the
first one. -/
def Spec.MostlyDiffer (tau : K) (fi fj : TileFile K) (b : Nat) (k : ℤ) : Prop :=
  {p | p ∈ Spec.filePoints fi ∧ p ∈ Spec.filePoints fj}.ncard < 2 * {p | Spec.DiffersBy tau fi fj b k p}.ncard

end

open Spec

theorem filter_le_count {α : Type} (P : α → Prop) [DecidablePred P] (x : ℤ) : ∀ (l : List α) (r : List ℤ),
    r.length = l.length → (∀ k (h : k < l.length) (h' : k < r.length), P l[k] → r[k] = x) →
    (l.filter fun a => decide (P a)).length ≤ r.count x
  | [], _, _, _ => by simp
  | a :: l, [], h, _ => by simp at h
  | a :: l, y :: r, h, hk => by
    have ih := filter_le_count P x l r (by simpa using h) (fun k h1 h2 hp =>
      hk (k + 1) (by simpa using h1) (by simpa using h2) (by simpa using hp))
    by_cases ha : P a
    · have := hk 0 (by simp) (by simp) ha
      simp only [List.getElem_cons_zero] at this
      subst this
      simp [ha]
      exact ih
    · simp only [List.filter_cons, ha, decide_false, Bool.false_eq_true, if_false]
      exact ih.trans (List.count_le_count_cons)

section
variable {K : Type} [Field K] [LinearOrder K] [FloorRing K]

/-- The medians of the overlaps under a majority. -/
theorem majority_medians [IsStrictOrderedRing K] {tau : K} (htau : tau ≠ 0) {minPoints : ℤ}
    {cc : Nat → List (Nat × Nat) → List Nat} {nifgs : Nat}
    {tiles : TileSet} {files : Nat → Except PyErr (TileFile K)} {F : Nat → TileFile K} {olap : OverlapFile}
    (hf : TileFilesOk nifgs tiles files F)
    (h : phasediffDeciles id tau minPoints cc tiles files = .ok (some olap))
    {k : Nat → Nat → Nat → ℤ} (hmaj : ∀ b < nifgs, ∀ i j, (i, j) ∈ olap.overlaps → MostlyDiffer tau (F i) (F j) b (k b i j))
    (hsmall : ∀ b < nifgs, ∀ i j, (i, j) ∈ olap.overlaps → |k b i j| ≤ 32767) :
    medianOffsets olap = .ok (olap.overlaps.map fun e => (List.range nifgs).map fun b => k b e.1 e.2) := by
  classical
  obtain ⟨hsub, hnd, _, hrec⟩ := C53_recorded tau minPoints cc tiles files olap h
  have hgr := overlaps_groups h
  unfold medianOffsets
  apply mapM_ok_of
  rintro ⟨i, j⟩ hij
  obtain ⟨bi, bj, fi, fj, h1, h2, h3, h4, _, h5⟩ := hrec i j (hsub.subset hij)
  have hi := (List.getElem?_eq_some_iff.mp h1).1
  have hj := (List.getElem?_eq_some_iff.mp h2).1
  rw [hf.read i hi, Except.ok.injEq] at h3
  rw [hf.read j hj, Except.ok.injEq] at h4
  subst h3 h4
  obtain ⟨c1, c2, st, h6, h7, h8, ps, h9, h10, h11, h12⟩ := h5 hij
  have hfind := find_group (by rw [← hgr]; exact hnd) h7
  simp only at hfind
  rw [hfind]
  simp only
  have hlen1 : ∀ i < tiles.tiles.length, (imagePhase (F i)).length = nifgs := by
    intro i hi
    obtain ⟨e1, e2⟩ := hf.bands i hi
    simp [imagePhase, e1, e2]
  have hcl1 : c1.length = ps.length := by simpa using congrArg List.length h11
  have hcl2 : c2.length = ps.length := by simpa using congrArg List.length h12
  obtain ⟨hacc, hres⟩ := C38_accepts tau (selectColumns (imagePhase (F i)) c1) (selectColumns (imagePhase (F j)) c2)
  obtain ⟨nb, n, hs1, hs2, hn11, hnear⟩ := hacc.mp ⟨st, h8⟩
  obtain ⟨hstl, hst⟩ := hres nb n st hs1 h8
  have hshape1 : (selectColumns (imagePhase (F i)) c1).shape = [nifgs, c1.length] := by
    simp [selectColumns, hlen1 i hi]
  rw [hshape1] at hs1
  simp only [List.cons.injEq, and_true] at hs1
  obtain ⟨rfl, hn⟩ := hs1
  -- values of the columns
  have hcol : ∀ (i : Nat) (hi : i < tiles.tiles.length) (box : BBox), tiles.tiles[i]? = some box → ∀ cs : List Nat,
      cs.map ((imagePoints (F i) box)[·]?) = ps.map some → ∀ r q, r < nifgs → (hq : q < ps.length) →
        ∀ n, (filePoints (F i))[n]? = some ps[q] → (selectColumns (imagePhase (F i)) cs).get [r, q] = filePhase (F i) r n := by
    intro i hi box hbox cs hcs r k hr hk n hnp
    have hkl : k < cs.length := by
      have : cs.length = ps.length := by simpa using congrArg List.length hcs
      omega
    have hget := congrArg (·[k]?) hcs
    simp only [List.getElem?_map, List.getElem?_eq_getElem hkl, List.getElem?_eq_getElem hk, Option.map_some,
      Option.some.injEq] at hget
    rw [filePoints_box (hf.box i box hbox)] at hget
    have hpl := (List.getElem?_eq_some_iff.mp hget).1
    have hsame : cs[k] = n := (List.getElem?_inj hpl (filePoints_nodup (hf.once i hi))).mp (hget.trans hnp.symm)
    rw [filePoints_length] at hpl
    simp only [selectColumns]
    rw [List.getD_eq_getElem cs _ hkl]
    obtain ⟨e1, e2⟩ := hf.bands i hi
    have hrow : ((F i).uw.getD r []).length = (F i).points.length := by
      rw [List.getD_eq_getElem _ _ (by omega)]
      exact hf.rows i hi _ (List.getElem_mem _)
    rw [imagePhase_getD (by omega) (by omega) (by omega), hsame]
  have hpsnd : ps.Nodup := h9.imp (fun h hc => by subst hc; unfold RowMajorLt at h; omega)
  have hpoints : {p | p ∈ filePoints (F i) ∧ p ∈ filePoints (F j)} = ↑ps.toFinset := by
    ext p
    rw [List.coe_toFinset, Set.mem_setOf_eq, Set.mem_setOf_eq, h10 p, filePoints_box (hf.box i bi h1), filePoints_box (hf.box j bj h2)]
  have hstats : ∀ r < nifgs, ∃ row : List ℚ, st[r]? = some row ∧ row[5]? = some ((k r i j : ℤ) : ℚ) := by
    intro r hr
    obtain ⟨row, e1, e2, e3⟩ := hst r hr
    refine ⟨_, e1, C38_majority row _ ?_⟩
    have hm := hmaj r hr i j hij
    unfold MostlyDiffer at hm
    rw [hpoints, Set.ncard_coe_finset, List.toFinset_card_of_nodup hpsnd] at hm
    have hle : {p | DiffersBy tau (F i) (F j) r (k r i j) p}.ncard ≤ (ps.filter fun p => decide (DiffersBy tau (F i) (F j) r (k r i j) p)).length := by
      rw [← List.toFinset_card_of_nodup (hpsnd.filter _), ← Set.ncard_coe_finset]
      refine Set.ncard_le_ncard ?_ (Finset.finite_toSet _)
      intro p hp
      rw [List.coe_toFinset, Set.mem_setOf_eq, List.mem_filter]
      refine ⟨?_, by simpa using hp⟩
      obtain ⟨n, m, p1, p2, _⟩ := hp
      have : p ∈ {p | p ∈ filePoints (F i) ∧ p ∈ filePoints (F j)} := ⟨List.mem_of_getElem? p1, List.mem_of_getElem? p2⟩
      rw [hpoints] at this
      simpa using this
    have hcnt := filter_le_count (fun p => DiffersBy tau (F i) (F j) r (k r i j) p) (k r i j) ps row (by omega) (by
      intro q hq hq' hd
      obtain ⟨m, e4, e5⟩ := e3 q (by omega)
      rw [List.getElem?_eq_getElem hq', Option.some.injEq] at e4
      rw [e4]
      obtain ⟨n, m', p1, p2, p3⟩ := hd
      have hd : ((selectColumns (imagePhase (F j)) c2).get [r, q] - (selectColumns (imagePhase (F i)) c1).get [r, q]) / tau
          = ((k r i j : ℤ) : K) := by
        rw [hcol i hi bi h1 c1 h11 r q hr hq n p1, hcol j hj bj h2 c2 h12 r q hr hq m' p2, p3]
        field_simp
      have hm := cycleDiff_of_near e5
      have hb1 := abs_le.mp (hsmall r hr i j hij)
      have hnear2 : NearCycles (((selectColumns (imagePhase (F j)) c2).get [r, q] -
          (selectColumns (imagePhase (F i)) c1).get [r, q]) / tau) (k r i j) := by
        refine ⟨by omega, by omega, ?_⟩
        rw [hd, sub_self, abs_zero]
        positivity
      rw [← hm, cycleDiff_of_near hnear2])
    omega
  have hsteq : st = (List.range nifgs).map fun r => st.getD r [] := by
    apply List.ext_getElem?
    intro r
    by_cases hr : r < nifgs
    · obtain ⟨row, e1, _⟩ := hstats r hr
      rw [List.getElem?_map, List.getElem?_range hr, Option.map_some, List.getD_eq_getElem?_getD, e1]
      rfl
    · rw [List.getElem?_eq_none (by omega), List.getElem?_eq_none (by simp; omega)]
  rw [hsteq, List.map_map, List.mapM_map]
  apply mapM_ok_of
  intro r hr
  obtain ⟨row, e1, e2⟩ := hstats r (List.mem_range.mp hr)
  simp only [Function.comp]
  rw [List.getD_eq_getElem?_getD, e1, Option.getD_some, List.getElem?_map, e2, Option.map_some, pyInt_intCast]
  rfl

/-- C64. Let the tiles, in interferogram `b`, be off by `c b i` cycles, in the sense that in every recorded
overlap more than half of the common pixels show the difference of these numbers; the other pixels may show
anything. If the recorded overlaps join the tiles, both methods return the numbers `c b i` up to one constant
per interferogram (the cycles of a reference tile), with residual zero. -/
theorem C64_bulk_majority [IsStrictOrderedRing K] {C : Type} [LinearOrder C] (tau : K) (htau : 0 < tau) (minPoints : ℤ)
    (cc : Nat → List (Nat × Nat) → List Nat) (nifgs : Nat) (tiles : TileSet) (htwo : 2 ≤ tiles.tiles.length)
    (files : Nat → Except PyErr (TileFile K)) (F : Nat → TileFile K) (hf : TileFilesOk nifgs tiles files F)
    (olap : OverlapFile) (hover : phasediffDeciles id tau minPoints cc tiles files = .ok (some olap))
    (c : Nat → Nat → ℤ) (hsmall : ∀ b i, |c b i| ≤ 16383)
    (hmaj : ∀ b < nifgs, ∀ i j, (i, j) ∈ olap.overlaps → MostlyDiffer tau (F i) (F j) b (c b j - c b i))
    (hlab : ComponentLabels tiles.tiles.length olap.overlaps olap.labels)
    (hconn : ∀ t < tiles.tiles.length, Relation.ReflTransGen (Adjacent olap.overlaps) 0 t)
    (mip : MipSolver) (hmip : MipOptimal mip) (lstsq : Lstsq K) (method : String)
    (hls : method = "L2" → ∀ off, off.length = olap.overlaps.length → (∀ row ∈ off, row.length = nifgs) →
      LeastSquares (overlapMatrix olap.overlaps tiles.tiles.length) off (lstsq (overlapMatrix olap.overlaps tiles.tiles.length) off)
        tiles.tiles.length nifgs)
    (coh : Band (Option C)) (thr : C) (bulk : BulkFile K)
    (hbulk : bulkOffsets mip lstsq method tiles coh thr olap = .ok (some bulk)) :
    bulk.residuals = List.replicate nifgs 0 ∧ ∃ ref < tiles.tiles.length, ∀ b < nifgs, ∀ i < tiles.tiles.length,
      (bulk.offsets.getD b []).getD i 0 = ((c b i - c b ref : ℤ) : K) := by
  obtain ⟨hsub, _, _, _⟩ := C53_recorded tau minPoints cc tiles files olap hover
  have hlt : ∀ e ∈ olap.overlaps, e.1 < e.2 ∧ e.2 < tiles.tiles.length := by
    rintro ⟨i, j⟩ he
    obtain ⟨h1, a, b, h2, h3, _⟩ := ((C25_overlaps tiles).1 i j).mp (hsub.subset he)
    exact ⟨h1, (List.getElem?_eq_some_iff.mp h3).1⟩
  have hmed := majority_medians htau.ne' hf hover (k := fun b i j => c b j - c b i) hmaj (by
    intro b _ i j _
    have h1 := abs_le.mp (hsmall b i)
    have h2 := abs_le.mp (hsmall b j)
    rw [abs_le]
    omega)
  obtain ⟨_, _, b3, hoff⟩ := cut_offsets hmip htwo hlt hlab hconn hsmall hmed (by
    intro h med hm
    rw [hmed, Except.ok.injEq] at hm
    subst hm
    refine hls h _ (by simp) ?_
    intro row hrow
    obtain ⟨x, hx, rfl⟩ := List.mem_map.mp hrow
    obtain ⟨y, _, rfl⟩ := List.mem_map.mp hx
    simp) hbulk
  exact ⟨b3, hoff⟩

end
end Spurt
