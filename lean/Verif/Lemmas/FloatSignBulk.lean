import Verif.Lemmas.FloatSignMerge
import Verif.Lemmas.SignBulk
import Verif.Lemmas.FloatBulkFile
import Verif.Props.Deciles

/-! # Overlap statistics and bulk offsets of tiles of the opposite sign in mixed precision -/

namespace Spurt

/-- The check of whole-cycle differences (utils/merge.py:87) sees 32768 cycles: double precision errs by less than a half of the number,
and the tolerance of the check stays below 16384 cycles. -/
structure Spec.CheckSees {K : Type} [Field K] [LinearOrder K] (A : FloatArith K) (atol rtol : K) : Prop where
  double : ∀ x, |A.fd x - x| ≤ |x| / 2
  small : A.fd (atol + A.fd (rtol * 32768)) < 16384

open Spec

theorem toInt16_neg (r : ℤ) (h : toInt16 r ≠ -32768) : toInt16 (-r) = - toInt16 r := by
  unfold toInt16 at *
  omega

theorem toInt16_min {r : ℤ} (h : toInt16 r = -32768) : toInt16 (-r) = -32768 := by
  unfold toInt16 at *
  omega

theorem mapM_flatten_rel {α β : Type} {f f' : α → Except PyErr (List β)} {R : β → β → Prop} {l : List α} {gs gs' : List (List β)}
    (hp : ∀ p ∈ l, ∀ g g', f p = .ok g → f' p = .ok g' → List.Forall₂ R g g')
    (h : l.mapM f = .ok gs) (h' : l.mapM f' = .ok gs') : List.Forall₂ R gs.flatten gs'.flatten := by
  induction l generalizing gs gs' with
  | nil =>
    simp only [List.mapM_nil, pure, Except.pure, Except.ok.injEq] at h h'
    subst h h'
    exact List.Forall₂.nil
  | cons p l ih =>
    rw [List.mapM_cons] at h h'
    cases e1 : f p with
    | error e => rw [e1] at h; cases h
    | ok g =>
    cases e2 : f' p with
    | error e => rw [e2] at h'; cases h'
    | ok g' =>
    rw [e1] at h
    rw [e2] at h'
    cases e3 : l.mapM f with
    | error e => rw [e3] at h; cases h
    | ok r =>
    cases e4 : l.mapM f' with
    | error e => rw [e4] at h'; cases h'
    | ok r' =>
    rw [e3] at h
    rw [e4] at h'
    simp only [Bind.bind, Except.bind, pure, Except.pure, Except.ok.injEq] at h h'
    subst h h'
    rw [List.flatten_cons, List.flatten_cons]
    exact List.rel_append (hp p List.mem_cons_self g g' e1 e2) (ih (fun q hq => hp q (List.mem_cons_of_mem _ hq)) e3 e4)

section
variable {K : Type} [Field K] [LinearOrder K] [IsStrictOrderedRing K] [FloorRing K]

theorem cycleDiffFl_neg {A : FloatArith K} (hA : OddRounding A) {atol rtol : K} (hc : CheckSees A atol rtol) {b1 b2 d1 d2 : NdArray K}
    {i : List Nat} (h1 : d1.get i = - b1.get i) (h2 : d2.get i = - b2.get i) (hb : closeToCycleFl A atol rtol b1 b2 i = true)
    (hd : closeToCycleFl A atol rtol d1 d2 i = true) : cycleDiffFl A d1 d2 i = - cycleDiffFl A b1 b2 i := by
  have hD : diffCyclesFl A d1 d2 i = - diffCyclesFl A b1 b2 i := by
    unfold diffCyclesFl
    rw [h1, h2, show ∀ x y : K, -x - -y = -(x - y) from fun x y => by ring, hA.single, neg_div, hA.single]
  by_cases hn : cycleDiffFl A b1 b2 i = -32768
  · exfalso
    have hn' : cycleDiffFl A d1 d2 i = -32768 := by
      unfold cycleDiffFl at hn ⊢
      rw [hD, rint_neg]
      exact toInt16_min hn
    unfold closeToCycleFl at hb hd
    simp only [hn, hn', hD, decide_eq_true_eq] at hb hd
    set D := diffCyclesFl A b1 b2 i
    push_cast at hb hd
    have e32 : |(-32768 : K)| = 32768 := by rw [abs_neg]; exact abs_of_pos (by norm_num)
    rw [e32] at hb hd
    have half : ∀ x, |x| / 2 ≤ |A.fd x| := by
      intro x
      have := hc.double x
      have h3 : |x| ≤ |A.fd x| + |A.fd x - x| := by
        rw [abs_sub_comm]
        calc |x| = |A.fd x + (x - A.fd x)| := by congr 1; ring
          _ ≤ _ := abs_add_le _ _
      linarith
    have k1 := (half _).trans_lt (hb.trans_lt hc.small)
    have k2 := (half _).trans_lt (hd.trans_lt hc.small)
    have k3 := le_abs_self (D - -32768)
    have k4 := le_abs_self (-D - -32768)
    linarith
  · unfold cycleDiffFl at hn ⊢
    rw [hD, rint_neg]
    exact toInt16_neg _ hn

theorem pairwiseDecilesFl_close {A : FloatArith K} {atol rtol : K} {b1 b2 : NdArray K} {nb n : Nat} (h1 : b1.shape = [nb, n])
    {st : List (List ℚ)} (h : pairwiseDecilesFl A atol rtol b1 b2 = .ok st) :
    11 ≤ n ∧ ∀ r < nb, ∀ k < n, closeToCycleFl A atol rtol b1 b2 [r, k] = true := by
  unfold pairwiseDecilesFl at h
  split at h
  · cases h
  rw [h1] at h
  simp only at h
  split at h
  · cases h
  split at h
  · cases h
  rename_i hn hall
  refine ⟨by omega, fun r hr k hk => ?_⟩
  simp only [not_not, List.all_eq_true] at hall
  refine hall _ ?_
  simp [cart, hr, hk]

theorem deciles_median {row : List ℤ} (hne : row ≠ []) {x : ℚ} (h : IsMedian row x) : (deciles row)[5]? = some x := by
  obtain ⟨s, p, hs, rfl⟩ := h
  exact (C38_order row hne).2.2.2.2 s p hs

/-- The groups of two overlap files have medians of the opposite sign. -/
def GroupsOpposite (nifgs : Nat) (x x' : (Nat × Nat) × OverlapGroup) : Prop :=
  x'.1 = x.1 ∧ x.2.stats.length = nifgs ∧ x'.2.stats.length = nifgs ∧
    ∀ (b : Nat) (r r' : List ℤ), x.2.stats[b]? = some r → x'.2.stats[b]? = some r' → r'[5]? = r[5]?.map (- ·)

theorem groupFl_neg {A : FloatArith K} (hA : OddRounding A) {atol rtol : K} (hcs : CheckSees A atol rtol) {minPoints : ℤ} {nifgs : Nat}
    {tiles : TileSet} {files files' : Nat → Except PyErr (TileFile K)} {F F' : Nat → TileFile K}
    (hf : TileFilesOk nifgs tiles files F) (hf' : TileFilesOk nifgs tiles files' F')
    (hs : Opposite tiles.tiles.length nifgs F F') {i j : Nat} (hij : (i, j) ∈ tiles.getOverlaps)
    {g g' : List ((Nat × Nat) × OverlapGroup)}
    (hg : groupGen (pairwiseDecilesFl A atol rtol) id minPoints (loadFl A tiles files) (i, j) = .ok g)
    (hg' : groupGen (pairwiseDecilesFl A atol rtol) id minPoints (loadFl A tiles files') (i, j) = .ok g') :
    List.Forall₂ (GroupsOpposite nifgs) g g' := by
  obtain ⟨hlt, bi, bj, hbi, hbj, _⟩ := ((C25_overlaps tiles).1 i j).mp hij
  have hi := (List.getElem?_eq_some_iff.mp hbi).1
  have hj := (List.getElem?_eq_some_iff.mp hbj).1
  have hph : ∀ b < nifgs, ∀ i < tiles.tiles.length, ∀ pix ∈ filePoints (F i), phaseAtPixel (F' i) b pix = - phaseAtPixel (F i) b pix := by
    intro b hb i hi pix hp
    unfold phaseAtPixel
    rw [hs.points i hi]
    refine hs.phase b hb i hi _ ?_
    rw [← filePoints_length]
    exact List.idxOf_lt_length_iff.mpr hp
  obtain ⟨a1, a2⟩ := loadFl_eq (A := A) hf hbi
  obtain ⟨a3, a4⟩ := loadFl_eq (A := A) hf hbj
  obtain ⟨a1', a2'⟩ := loadFl_eq (A := A) hf' hbi
  obtain ⟨a3', a4'⟩ := loadFl_eq (A := A) hf' hbj
  unfold groupGen at hg hg'
  simp only [a1, a3, Bind.bind, Except.bind] at hg
  simp only [a1', a3', Bind.bind, Except.bind] at hg'
  rw [a2, a4] at hg
  rw [a2', a4', hs.points i hi, hs.points j hj] at hg'
  cases hcp : findCommonPoints id (filePoints (F i)) (filePoints (F j)) with
  | error e => rw [hcp] at hg; cases hg
  | ok cs =>
  obtain ⟨c1, c2⟩ := cs
  rw [hcp] at hg hg'
  simp only at hg hg'
  obtain ⟨_, ps, _, hps, hc1, hc2⟩ := commonPoints_count hcp
  by_cases hm : (c1.length : ℤ) < minPoints
  · rw [if_pos hm] at hg hg'
    simp only [pure, Except.pure, Except.ok.injEq] at hg hg'
    subst hg hg'
    exact List.Forall₂.nil
  rw [if_neg hm] at hg hg'
  obtain ⟨s1, s2⟩ := selectFl_at (A := A) hf hi bi hc1
  obtain ⟨t1, t2⟩ := selectFl_at (A := A) hf hj bj hc2
  obtain ⟨s1', s2'⟩ := selectFl_at (A := A) hf' hi bi (cs := c1) (ps := ps) (by rw [hs.points i hi]; exact hc1)
  obtain ⟨t1', t2'⟩ := selectFl_at (A := A) hf' hj bj (cs := c2) (ps := ps) (by rw [hs.points j hj]; exact hc2)
  split at hg
  · cases hg
  rename_i st hst
  split at hg'
  · cases hg'
  rename_i st' hst'
  simp only [pure, Except.pure, Except.ok.injEq] at hg hg'
  subst hg hg'
  have e1 := pairwiseDecilesFl_rows s1 hst
  have e2 := pairwiseDecilesFl_rows s1' hst'
  obtain ⟨h11, hcl⟩ := pairwiseDecilesFl_close s1 hst
  obtain ⟨_, hcl'⟩ := pairwiseDecilesFl_close s1' hst'
  refine List.Forall₂.cons ⟨rfl, by simp [e1], by simp [e2], ?_⟩ List.Forall₂.nil
  intro b r r' hr hr'
  rw [e1] at hr
  rw [e2] at hr'
  have hb : b < nifgs := by
    have := (List.getElem?_eq_some_iff.mp hr).1
    simpa using this
  simp only [List.getElem?_map, List.getElem?_range hb, Option.map_some, Option.some.injEq] at hr hr'
  subst hr hr'
  set row := (List.range ps.length).map fun c => cycleDiffFl A (selectColumns (loadUwTileFl A (F i) bi).2 c1)
    (selectColumns (loadUwTileFl A (F j) bj).2 c2) [b, c] with hrow
  have hrow' : ((List.range ps.length).map fun c => cycleDiffFl A (selectColumns (loadUwTileFl A (F' i) bi).2 c1)
      (selectColumns (loadUwTileFl A (F' j) bj).2 c2) [b, c]) = row.map (- ·) := by
    rw [hrow, List.map_map]
    refine List.map_congr_left fun k hk => ?_
    have hk := List.mem_range.mp hk
    obtain ⟨p1, v1⟩ := s2 b hb k hk
    obtain ⟨p2, v2⟩ := t2 b hb k hk
    simp only [Function.comp]
    refine cycleDiffFl_neg hA hcs ?_ ?_ (hcl b hb k hk) (hcl' b hb k hk)
    · rw [(s2' b hb k hk).2, v1, hph b hb i hi _ p1, hA.single]
    · rw [(t2' b hb k hk).2, v2, hph b hb j hj _ p2, hA.single]
  rw [hrow']
  have hne : row ≠ [] := by
    intro h0
    have := congrArg List.length h0
    rw [hrow, List.length_map, List.length_range] at this
    rw [this] at h11
    simp at h11
  obtain ⟨x, hx⟩ := isMedian_exists row
  rw [List.getElem?_map, List.getElem?_map, deciles_median hne hx,
    deciles_median (by simpa using hne) (isMedian_neg hne hx)]
  simp only [Option.map_some, pyInt_neg]

/-- The median offsets of tiles of the opposite sign. -/
theorem medianFl_neg {A : FloatArith K} (hA : OddRounding A) {atol rtol : K} (hcs : CheckSees A atol rtol) {minPoints : ℤ}
    {cc : Nat → List (Nat × Nat) → List Nat} {nifgs : Nat} {tiles : TileSet} (hn1 : tiles.tiles.length ≠ 1)
    {files files' : Nat → Except PyErr (TileFile K)} {F F' : Nat → TileFile K}
    (hf : TileFilesOk nifgs tiles files F) (hf' : TileFilesOk nifgs tiles files' F')
    (hs : Opposite tiles.tiles.length nifgs F F') {olap olap' : OverlapFile}
    (h : phasediffDecilesFl A atol rtol id minPoints cc tiles files = .ok (some olap))
    (h' : phasediffDecilesFl A atol rtol id minPoints cc tiles files' = .ok (some olap')) {med med' : List (List ℤ)}
    (hm : medianOffsets olap = .ok med) (hm' : medianOffsets olap' = .ok med') :
    med' = med.map fun x => x.map (- ·) := by
  obtain ⟨ho, hl⟩ := overlapsFl_points hf hf' h h' hs.points
  have hnd : olap.overlaps.Nodup := by
    obtain ⟨o, k1, k2, _⟩ := overlapFl_strip hf h
    rw [← k2]
    exact (C53_recorded _ _ _ _ _ _ k1).2.1
  obtain ⟨g1, g2, hag⟩ : olap.overlaps = olap.groups.map Prod.fst ∧ olap'.overlaps = olap'.groups.map Prod.fst ∧
      List.Forall₂ (GroupsOpposite nifgs) olap.groups olap'.groups := by
    rw [overlapsFl_groups hn1] at h h'
    cases hg : tiles.getOverlaps.mapM (groupGen (pairwiseDecilesFl A atol rtol) id minPoints (loadFl A tiles files)) with
    | error e => rw [hg] at h; cases h
    | ok gs =>
    cases hg' : tiles.getOverlaps.mapM (groupGen (pairwiseDecilesFl A atol rtol) id minPoints (loadFl A tiles files')) with
    | error e => rw [hg'] at h'; cases h'
    | ok gs' =>
    rw [hg] at h
    rw [hg'] at h'
    simp only [Bind.bind, Except.bind, pure, Except.pure, Except.ok.injEq, Option.some.injEq] at h h'
    subst h h'
    exact ⟨rfl, rfl, mapM_flatten_rel (fun p hp g g' e1 e2 => groupFl_neg hA hcs hf hf' hs hp e1 e2) hg hg'⟩
  have entry : ∀ {o : OverlapFile} {md : List (List ℤ)}, o.overlaps = o.groups.map Prod.fst → o.overlaps.Nodup →
      medianOffsets o = .ok md → md.length = o.overlaps.length ∧ ∀ k (hk : k < o.groups.length), ∃ x, md[k]? = some x ∧
        ((o.groups[k]).2.stats.mapM fun row => (row[5]?).elim (Except.error PyErr.indexError) Except.ok) = .ok x := by
    intro o md q1 q2 q3
    unfold medianOffsets at q3
    obtain ⟨md', e1, e2, e3⟩ := mapM_exists _ _ (mapM_ok_imp q3)
    rw [q3, Except.ok.injEq] at e1
    subst e1
    refine ⟨e2, ?_⟩
    intro k hk
    obtain ⟨x, hx, hfx⟩ := e3 k (o.groups[k]).1 (by rw [q1, List.getElem?_map, List.getElem?_eq_getElem hk]; rfl)
    rw [find_group (by rw [← q1]; exact q2) (List.getElem_mem hk)] at hfx
    exact ⟨x, hx, hfx⟩
  have len : ∀ {st : List (List ℤ)} {x : List ℤ}, (st.mapM fun row => (row[5]?).elim (Except.error PyErr.indexError) Except.ok) = .ok x →
      x.length = st.length ∧ ∀ (j : Nat) row, st[j]? = some row → x[j]? = row[5]? := by
    intro st x hx
    obtain ⟨x', e1, e2, e3⟩ := mapM_exists _ _ (mapM_ok_imp hx)
    rw [hx, Except.ok.injEq] at e1
    subst e1
    refine ⟨e2, ?_⟩
    intro j row hj
    obtain ⟨v, hv, hr⟩ := e3 j row hj
    rw [hv]
    cases h5 : row[5]? with
    | none => rw [h5] at hr; cases hr
    | some w => rw [h5] at hr; simpa using hr.symm
  obtain ⟨l1, a1⟩ := entry g1 hnd hm
  obtain ⟨l2, a2⟩ := entry g2 (by rw [ho]; exact hnd) hm'
  have hgl : olap.groups.length = olap.overlaps.length := by rw [g1, List.length_map]
  have hgl' : olap'.groups.length = olap.overlaps.length := by rw [← ho, g2, List.length_map]
  apply List.ext_getElem
  · rw [l2, List.length_map, l1, ho]
  intro k hk2 hk1
  rw [List.length_map] at hk1
  obtain ⟨x, e1, e2⟩ := a1 k (by omega)
  obtain ⟨x', e1', e2'⟩ := a2 k (by omega)
  obtain ⟨_, q1, q2, q3⟩ := (List.forall₂_iff_get.mp hag).2 k (by omega) (by omega)
  simp only [List.get_eq_getElem] at q1 q2 q3
  obtain ⟨n1, n2⟩ := len e2
  obtain ⟨n1', n2'⟩ := len e2'
  rw [List.getElem?_eq_getElem hk1, Option.some.injEq] at e1
  rw [List.getElem?_eq_getElem hk2, Option.some.injEq] at e1'
  rw [List.getElem_map, e1, e1']
  apply List.ext_getElem?
  intro b
  rw [List.getElem?_map]
  by_cases hb : b < nifgs
  · have r1 := List.getElem?_eq_getElem (l := (olap.groups[k]'(by omega)).2.stats) (i := b) (by omega)
    have r2 := List.getElem?_eq_getElem (l := (olap'.groups[k]'(by omega)).2.stats) (i := b) (by omega)
    rw [n2 b _ r1, n2' b _ r2]
    exact q3 b _ _ r1 r2
  · rw [List.getElem?_eq_none (by omega), List.getElem?_eq_none (by omega)]
    rfl

omit [LinearOrder K] [IsStrictOrderedRing K] [FloorRing K] in
theorem foldFl_neg {fd : K → K} (hfd : ∀ x, fd (-x) = - fd x) (l : List K) (s : K) :
    (l.map (- ·)).foldl (fun acc v => fd (acc + fd v)) (-s) = - l.foldl (fun acc v => fd (acc + fd v)) s := by
  induction l generalizing s with
  | nil => rfl
  | cons x l ih =>
    rw [List.map_cons, List.foldl_cons, List.foldl_cons, ← ih, hfd, ← neg_add, hfd]

omit [FloorRing K] in
theorem solveL2Fl_neg {fd : K → K} (hfd : ∀ x, fd (-x) = - fd x) (l : Lstsq K) (olaps : List (Nat × Nat)) (off : List (List K))
    (nbands ntiles : Nat) (counts : List Nat) :
    solveL2MinFl fd (mirrorLstsq l) olaps (off.map fun r => r.map (- ·)) nbands ntiles counts =
      (solveL2MinFl fd l olaps off nbands ntiles counts).map fun r => (r.1.map fun x => x.map (- ·), r.2) := by
  unfold solveL2MinFl
  split
  · rfl
  · unfold l2MinFl
    rw [List.length_map]
    split
    · rfl
    · simp only [Bind.bind, Except.bind]
      unfold mirrorLstsq
      rw [neg_neg_rows]
      cases argmax counts with
      | error e => rfl
      | ok conn =>
        generalize l (overlapMatrix olaps ntiles) off = x
        simp only [pure, Except.pure, Except.map, Except.ok.injEq, Prod.mk.injEq]
        have hx : ∀ t b, ((x.map fun r => r.map (- ·)).getD t []).getD b 0 = - (x.getD t []).getD b 0 :=
          fun t b => elem_neg x t b
        have hdot : matDotFl fd (overlapMatrix olaps ntiles) (x.map fun r => r.map (- ·)) nbands =
            (matDotFl fd (overlapMatrix olaps ntiles) x nbands).map fun r => r.map (- ·) := by
          unfold matDotFl
          rw [List.map_map]
          apply List.map_congr_left
          intro row _
          simp only [Function.comp, List.map_map]
          apply List.map_congr_left
          intro b _
          simp only [Function.comp]
          rw [← foldFl_neg hfd, neg_zero, List.map_zipWith, List.zipWith_map_right]
          congr 1
          congr 1
          funext v xr
          rw [getD_neg, mul_neg]
        constructor
        · rw [List.map_map]
          apply List.map_congr_left
          intro b _
          simp only [Function.comp, List.map_map]
          apply List.map_congr_left
          intro t _
          simp only [Function.comp]
          rw [hx, hx, ← hfd]
          congr 1
          ring
        · apply List.map_congr_left
          intro b _
          rw [hdot, List.zipWith_map]
          have hz : List.zipWith (fun (a c : List K) => List.zipWith (fun v w => fd (v - w)) (a.map (- ·)) (c.map (- ·))) off
              (matDotFl fd (overlapMatrix olaps ntiles) x nbands) =
              (List.zipWith (List.zipWith fun v w => fd (v - w)) off (matDotFl fd (overlapMatrix olaps ntiles) x nbands)).map
                fun r => r.map (- ·) := by
            rw [List.map_zipWith]
            congr 1
            funext a c
            rw [List.zipWith_map, List.map_zipWith]
            congr 1
            funext u v
            rw [← hfd]
            congr 1
            ring
          rw [hz, List.map_map]
          congr 1
          apply List.map_congr_left
          intro row _
          simp only [Function.comp]
          rw [getD_neg, abs_neg]

omit [FloorRing K] in
theorem bulkOffsetsFl_neg {C : Type} [LinearOrder C] {fd : K → K} (hfd : ∀ x, fd (-x) = - fd x) (mip : MipSolver) (l : Lstsq K)
    (method : String) (tiles : TileSet) (coh : Band (Option C)) (thr : C) {f f' : OverlapFile} (ho : f'.overlaps = f.overlaps)
    (hl : f'.labels = f.labels) (hm : medianOffsets f' = (medianOffsets f).map fun m => m.map fun x => x.map (- ·)) :
    bulkOffsetsFl fd (mirrorMip mip) (mirrorLstsq l) method tiles coh thr f' =
      (bulkOffsetsFl fd mip l method tiles coh thr f).map (Option.map negBulk) := by
  by_cases hmet : method = "L2"
  swap
  · rw [bulkFl_integer _ _ _ _ _ _ _ _ hmet, bulkFl_integer _ _ _ _ _ _ _ _ hmet]
    exact bulkOffsets_neg mip l method tiles coh thr ho hl hm
  subst hmet
  unfold bulkOffsetsFl
  split
  · rfl
  · rw [hm]
    cases medianOffsets f with
    | error e => rfl
    | ok med =>
      simp only [Bind.bind, Except.bind, Except.map]
      cases med with
      | nil => rfl
      | cons first rest =>
        set med := first :: rest with hmed
        have e0 : (med.map fun x => x.map (- ·))[0]? = some (first.map (- ·)) := rfl
        have e1 : med[0]? = some first := rfl
        rw [e0, e1]
        simp only [Option.elim_some, List.length_map]
        rw [ho]
        simp only [show ¬ ("L2" = "integer") by decide, if_false, if_true]
        have hany : ((med.map fun x => x.map (- ·)).any fun x => decide (x.length ≠ first.length)) =
            med.any fun x => decide (x.length ≠ first.length) := by
          rw [List.any_map]
          congr 1
          funext x
          simp
        rw [hany]
        split
        · rfl
        · have hc : ((med.map fun x => x.map (- ·)).map fun x => x.map fun v => ((v : ℤ) : K)) =
              (med.map fun x => x.map fun v => ((v : ℤ) : K)).map fun r => r.map (- ·) := by
            rw [List.map_map, List.map_map]
            apply List.map_congr_left
            intro x _
            simp only [Function.comp, List.map_map]
            apply List.map_congr_left
            intro v _
            simp
          rw [hc, solveL2Fl_neg hfd]
          cases solveL2MinFl fd l f.overlaps (med.map fun x => x.map fun v => ((v : ℤ) : K)) first.length tiles.tiles.length
            (tiles.tiles.map fun t => (tilePoints coh thr t).length) with
          | error e => rfl
          | ok r => rfl

end

end Spurt
