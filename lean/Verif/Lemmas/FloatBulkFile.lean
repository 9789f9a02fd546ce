import Verif.Props.FloatBulk
import Verif.Lemmas.BulkFile
import Verif.Lemmas.ResumeStages

/-! # The bulk offset file in double precision -/

namespace Spurt
open Spec

/-- `lstsq` answers the systems of overlaps that whole numbers up to 16383 per tile solve, within `γ` of a
least-squares solution and with entries up to `X`. -/
def Spec.ConsistentLstsq {K : Type} [Field K] [LinearOrder K] (lstsq : Lstsq K) (ntiles nbands : Nat) (γ X : K) : Prop :=
  ∀ (olaps : List (Nat × Nat)) (c : Nat → Nat → ℤ), (∀ e ∈ olaps, e.1 < e.2 ∧ e.2 < ntiles) → (∀ b t, |c b t| ≤ 16383) →
    LstsqNear lstsq (overlapMatrix olaps ntiles)
      (olaps.map fun e => (List.range nbands).map fun b => ((c b e.2 - c b e.1 : ℤ) : K)) ntiles nbands γ X

section
variable {K : Type} [Field K] [LinearOrder K]

theorem bulkFl_integer {C : Type} [LinearOrder C] (fd : K → K) (mip : MipSolver) (lstsq : Lstsq K) (method : String)
    (tiles : TileSet) (coh : Band (Option C)) (thr : C) (f : OverlapFile) (hm : method ≠ "L2") :
    bulkOffsetsFl fd mip lstsq method tiles coh thr f = bulkOffsets mip lstsq method tiles coh thr f := by
  unfold bulkOffsetsFl bulkOffsets
  simp only [if_neg hm]

theorem matDotFl_id (a x : List (List K)) (n : Nat) : matDotFl id a x n = matDot a x n := by
  unfold matDotFl matDot
  simp only [id_eq, List.sum_eq_foldl]

theorem l2MinFl_id (lstsq : Lstsq K) (a b : List (List K)) (n : Nat) : l2MinFl id lstsq a b n = l2Min lstsq a b n := by
  unfold l2MinFl l2Min
  simp only [id_eq, matDotFl_id]

theorem solveL2MinFl_id (lstsq : Lstsq K) (olaps : List (Nat × Nat)) (off : List (List K)) (nbands ntiles : Nat)
    (counts : List Nat) : solveL2MinFl id lstsq olaps off nbands ntiles counts = solveL2Min lstsq olaps off nbands ntiles counts := by
  unfold solveL2MinFl solveL2Min
  simp only [id_eq, l2MinFl_id, List.sum_eq_foldl]

theorem bulkFl_id {C : Type} [LinearOrder C] (mip : MipSolver) (lstsq : Lstsq K) (method : String)
    (tiles : TileSet) (coh : Band (Option C)) (thr : C) (f : OverlapFile) :
    bulkOffsetsFl id mip lstsq method tiles coh thr f = bulkOffsets mip lstsq method tiles coh thr f := by
  unfold bulkOffsetsFl bulkOffsets
  simp only [solveL2MinFl_id]

theorem bulkFl_L2 {C : Type} [LinearOrder C] {fd : K → K} {mip : MipSolver} {lstsq : Lstsq K} {tiles : TileSet}
    {coh : Band (Option C)} {thr : C} {f : OverlapFile} (hn : tiles.tiles.length ≠ 1) {med : List (List ℤ)} {nb : Nat}
    (hmed : medianOffsets f = .ok med) (hne : med ≠ []) (hrow : ∀ x ∈ med, x.length = nb) :
    bulkOffsetsFl fd mip lstsq "L2" tiles coh thr f = (do
      let r ← solveL2MinFl fd lstsq f.overlaps (med.map fun x => x.map fun v => ((v : ℤ) : K)) nb
          tiles.tiles.length (tileCounts coh thr tiles)
      pure (some ⟨"L2", r.1, r.2⟩)) := by
  unfold bulkOffsetsFl
  rw [if_neg hn, hmed]
  obtain ⟨x, rest, rfl⟩ := List.exists_cons_of_ne_nil hne
  have hx : x.length = nb := hrow x (by simp)
  simp only [Bind.bind, Except.bind, List.getElem?_cons_zero, Option.elim_some, hx]
  rw [if_neg (by decide), if_pos trivial, if_neg (by
    rw [List.any_eq_true]
    rintro ⟨y, hy, hc⟩
    simp [hrow y hy] at hc)]
  rfl

end

section
variable {K : Type} [Field K] [LinearOrder K] [IsStrictOrderedRing K] [FloorRing K]

/-- The bulk offsets computed in double precision from tiles that differ by whole cycles. -/
theorem cut_offsetsFl {C : Type} [LinearOrder C] {fd : K → K} {Bd ηd β γ X : K} (hfd : Rounds fd Bd ηd) (hβ : 0 ≤ β)
    {mip : MipSolver} (hmip : MipOptimal mip)
    {lstsq : Lstsq K} {method : String} (hmeth : method = "integer" ∨ method = "L2") {coh : Band (Option C)} {thr : C} {nifgs : Nat}
    {tiles : TileSet} {olap : OverlapFile} (htwo : 2 ≤ tiles.tiles.length)
    (hin : ∀ e ∈ olap.overlaps, e.1 < e.2 ∧ e.2 < tiles.tiles.length)
    (hlab : ComponentLabels tiles.tiles.length olap.overlaps olap.labels)
    (hconn : ∀ t < tiles.tiles.length, Relation.ReflTransGen (Adjacent olap.overlaps) 0 t)
    {c : Nat → Nat → ℤ} (hsmall : ∀ b i, |c b i| ≤ 16383)
    (hmed : medianOffsets olap = .ok (olap.overlaps.map fun e => (List.range nifgs).map fun b => c b e.2 - c b e.1))
    (hls : method = "L2" → ConsistentLstsq lstsq tiles.tiles.length nifgs γ X ∧ 2 * γ + ηd ≤ β ∧ 2 * X ≤ Bd)
    {bulk : BulkFile K} (h : bulkOffsetsFl fd mip lstsq method tiles coh thr olap = .ok (some bulk)) :
    bulk.method = method ∧ BulkOk nifgs tiles.tiles.length bulk ∧
    (method = "integer" → bulk.residuals = List.replicate nifgs 0) ∧
    ∃ ref < tiles.tiles.length, LargestTile (tileCounts coh thr tiles) ref ∧ ∀ b < nifgs, ∀ i < tiles.tiles.length,
      |(bulk.offsets.getD b []).getD i 0 - ((c b i - c b ref : ℤ) : K)| ≤ β := by
  rcases hmeth with rfl | rfl
  · rw [bulkFl_integer _ _ _ _ _ _ _ _ (by decide)] at h
    obtain ⟨h1, h2, h3, ref, h4, hlarge, h5⟩ := cut_offsets_largest hmip htwo hin hlab hconn hsmall hmed (fun h => by simp at h) h
    refine ⟨h1, h2, fun _ => h3, ref, h4, hlarge, fun b hb i hi => ?_⟩
    rw [h5 b hb i hi, sub_self, abs_zero]
    exact hβ
  set n := tiles.tiles.length with hndef
  have hne : olap.overlaps ≠ [] := by
    intro hc
    have := hconn 1 (by omega)
    rw [hc] at this
    rcases Relation.ReflTransGen.cases_head this with h | ⟨x, h, _⟩
    · omega
    · simp [Adjacent] at h
  set med := olap.overlaps.map fun e => (List.range nifgs).map fun b => c b e.2 - c b e.1 with hmeddef
  have hmedne : med ≠ [] := by simpa [hmeddef] using hne
  have hmedrow : ∀ x ∈ med, x.length = nifgs := by
    intro x hx
    obtain ⟨e, _, rfl⟩ := List.mem_map.mp hx
    simp
  have hcl : (tileCounts coh thr tiles).length = n := by simp [tileCounts, hndef]
  obtain ⟨ref, href⟩ := exists_largestTile (counts := tileCounts coh thr tiles) (by
    intro hc; rw [hc] at hcl; simp at hcl; omega)
  have hrefn : ref < n := by rw [← hcl]; exact href.1
  have hreach : ∀ t < n, Relation.ReflTransGen (Adjacent olap.overlaps) ref t := fun t ht =>
    (adjacent_symm (hconn ref hrefn)).trans (hconn t ht)
  rw [bulkFl_L2 (by omega) hmed hmedne hmedrow] at h
  have hinput : L2Input n nifgs olap.overlaps (med.map fun x => x.map fun v => ((v : ℤ) : K))
      (tileCounts coh thr tiles) := by
    refine ⟨by omega, ?_, by simp [hmeddef], ?_, hcl⟩
    · intro t1 t2 ht
      have := hin _ ht
      simp only at this
      omega
    · intro row hr
      obtain ⟨x, hx, rfl⟩ := List.mem_map.mp hr
      simp [hmedrow x hx]
  obtain ⟨hls, hβ2, hXB⟩ := hls rfl
  have hls' := hls olap.overlaps c hin hsmall
  have hoffeq : (med.map fun x => x.map fun v => ((v : ℤ) : K)) =
      olap.overlaps.map fun e => (List.range nifgs).map fun b => ((c b e.2 - c b e.1 : ℤ) : K) := by
    simp [hmeddef, Function.comp_def]
  rw [← hoffeq] at hls'
  obtain ⟨x, res, hx1, hx2, hx3, hx4⟩ := C76_double_offsets fd Bd ηd γ X hfd hXB n nifgs olap.overlaps _ _ hinput lstsq hls'
  rw [hx1] at h
  simp only [Bind.bind, Except.bind, pure, Except.pure, Except.ok.injEq, Option.some.injEq] at h
  subst h
  refine ⟨rfl, ⟨hx2, ?_⟩, fun h => by simp at h, ref, hrefn, href, ?_⟩
  · intro row hr
    obtain ⟨b, hb, rfl⟩ := List.mem_iff_getElem.mp hr
    obtain ⟨row, e1, e2, _⟩ := hx4 b (by simp only at hb; omega)
    simp only at hb
    rw [List.getElem?_eq_getElem hb, Option.some.injEq] at e1
    simp only [e1, e2]
  · intro b hb i hi
    obtain ⟨row, e1, _, e3⟩ := hx4 b hb
    obtain ⟨v, v1, v2⟩ := (e3 ref href).2 (fun t => ((c b t : ℤ) : K)) (by
      intro k t1 t2 row hk hr
      rw [List.getElem?_map, hmeddef, List.getElem?_map, hk] at hr
      simp only [Option.map_some, Option.some.injEq] at hr
      subst hr
      rw [List.getElem?_map, List.getElem?_map, List.getElem?_range hb]
      simp) i hi (hreach i hi)
    simp only [List.getD_eq_getElem?_getD, e1, Option.getD_some, v1]
    push_cast
    linarith

/-- The bulk offsets in double precision are written. -/
theorem bulkFl_returns {C : Type} [LinearOrder C] (fd : K → K) {mip : MipSolver} (hmipc : MipComplete mip)
    (lstsq : Lstsq K) {method : String} (hmeth : method = "integer" ∨ method = "L2") (coh : Band (Option C)) (thr : C) {nifgs : Nat}
    {tiles : TileSet} {olap : OverlapFile} (htwo : 2 ≤ tiles.tiles.length)
    (hin : ∀ e ∈ olap.overlaps, e.1 < e.2 ∧ e.2 < tiles.tiles.length)
    (hlab : ComponentLabels tiles.tiles.length olap.overlaps olap.labels)
    (hconn : ∀ t < tiles.tiles.length, Relation.ReflTransGen (Adjacent olap.overlaps) 0 t)
    {c : Nat → Nat → ℤ} (hsmall : ∀ b i, |c b i| ≤ 16383)
    (hmed : medianOffsets olap = .ok (olap.overlaps.map fun e => (List.range nifgs).map fun b => c b e.2 - c b e.1)) :
    ∃ bulk, bulkOffsetsFl fd mip lstsq method tiles coh thr olap = .ok (some bulk) := by
  set n := tiles.tiles.length with hndef
  have hne : olap.overlaps ≠ [] := by
    intro hc
    have := hconn 1 (by omega)
    rw [hc] at this
    rcases Relation.ReflTransGen.cases_head this with h | ⟨x, h, _⟩
    · omega
    · simp [Adjacent] at h
  set med := olap.overlaps.map fun e => (List.range nifgs).map fun b => c b e.2 - c b e.1 with hmeddef
  have hmedne : med ≠ [] := by simpa [hmeddef] using hne
  have hmedrow : ∀ x ∈ med, x.length = nifgs := by
    intro x hx
    obtain ⟨e, _, rfl⟩ := List.mem_map.mp hx
    simp
  have hcl : (tileCounts coh thr tiles).length = n := by simp [tileCounts, hndef]
  rcases hmeth with rfl | rfl
  · rw [bulkFl_integer _ _ _ _ _ _ _ _ (by decide), bulk_integer (by omega) hmed hmedne hmedrow]
    have hinput : ∀ b < nifgs, IntOffsetInput n olap.overlaps olap.labels (med.map fun x => x.getD b 0)
        (tileCounts coh thr tiles) := by
      intro b hb
      refine ⟨by omega, ?_, hlab, by simp [hmeddef], ?_, hcl⟩
      · intro t1 t2 ht
        have := hin _ ht
        simp only at this
        omega
      · intro o ho
        obtain ⟨x, hx, rfl⟩ := List.mem_map.mp ho
        obtain ⟨e, _, rfl⟩ := List.mem_map.mp hx
        rw [getD_map_lt _ _ (by simpa using hb)]
        simp only [List.getElem_range]
        have h1 := abs_le.mp (hsmall b e.1)
        have h2 := abs_le.mp (hsmall b e.2)
        omega
    obtain ⟨rows, hrows, _⟩ := mapM_exists (fun ii => solveIntOffsets mip olap.overlaps olap.labels
      (med.map fun x => x.getD ii 0) (tileCounts coh thr tiles)) (List.range nifgs) (by
        intro b hb
        obtain ⟨nr, v, hv⟩ := C39_returns n olap.overlaps olap.labels _ _ (hinput b (List.mem_range.mp hb)) mip hmipc
        exact ⟨(nr, v), hv⟩)
    rw [hrows]
    exact ⟨_, rfl⟩
  · rw [bulkFl_L2 (by omega) hmed hmedne hmedrow]
    have hinput : L2Input n nifgs olap.overlaps (med.map fun x => x.map fun v => ((v : ℤ) : K))
        (tileCounts coh thr tiles) := by
      refine ⟨by omega, ?_, by simp [hmeddef], ?_, hcl⟩
      · intro t1 t2 ht
        have := hin _ ht
        simp only at this
        omega
      · intro row hr
        obtain ⟨x, hx, rfl⟩ := List.mem_map.mp hr
        simp [hmedrow x hx]
    obtain ⟨_, _, hsol⟩ := solveL2Fl_unfold hinput fd lstsq
    rw [hsol]
    exact ⟨_, rfl⟩

end

section
variable {K : Type} [Field K] [LinearOrder K] [IsStrictOrderedRing K] [FloorRing K]

/-- The bulk offset file in double precision has the size the merge stage expects. -/
theorem bulkFl_shape {C : Type} [LinearOrder C] {fd : K → K} {mip : MipSolver} (hmip : MipOptimal mip) {lstsq : Lstsq K}
    {method : String} {coh : Band (Option C)} {thr : C} {nifgs : Nat} {tiles : TileSet} {olap : OverlapFile}
    (hn : tiles.tiles.length ≠ 1) (hlab : olap.labels.length = tiles.tiles.length)
    (hrow : ∀ med, medianOffsets olap = .ok med → ∀ x ∈ med, x.length = nifgs) {b : BulkFile K}
    (h : bulkOffsetsFl fd mip lstsq method tiles coh thr olap = .ok (some b)) :
    b.method = method ∧ BulkOk nifgs tiles.tiles.length b := by
  by_cases h2 : method = "L2"
  · subst h2
    cases hmed : medianOffsets olap with
    | error er =>
      unfold bulkOffsetsFl at h
      rw [if_neg hn, hmed] at h
      simp [Bind.bind, Except.bind] at h
    | ok med =>
      have hrow := hrow med hmed
      have hne : med ≠ [] := by
        rintro rfl
        unfold bulkOffsetsFl at h
        rw [if_neg hn, hmed] at h
        simp [Bind.bind, Except.bind] at h
      rw [bulkFl_L2 hn hmed hne hrow] at h
      cases e : solveL2MinFl fd lstsq olap.overlaps (med.map fun x => x.map fun v => ((v : ℤ) : K)) nifgs
        tiles.tiles.length (tileCounts coh thr tiles) with
      | error er => rw [e] at h; simp [Bind.bind, Except.bind] at h
      | ok r =>
        rw [e] at h
        simp only [Bind.bind, Except.bind, pure, Except.pure, Except.ok.injEq, Option.some.injEq] at h
        subst h
        unfold solveL2MinFl at e
        split at e
        · simp at e
        · simp only [Bind.bind, Except.bind] at e
          split at e
          · simp at e
          · split at e
            · simp at e
            · simp only [pure, Except.pure, Except.ok.injEq] at e
              subst e
              refine ⟨rfl, by simp, fun row hr => ?_⟩
              simp only [List.mem_map] at hr
              obtain ⟨_, _, rfl⟩ := hr
              simp
  · rw [bulkFl_integer _ _ _ _ _ _ _ _ h2] at h
    exact bulk_shape hmip hn hlab hrow h

omit [FloorRing K] in
/-- There is a least-squares solver as `ConsistentLstsq` asks, for any number of tiles and bands. -/
theorem exists_consistentLstsq (n nb : Nat) (γ X : K) (hγ : 0 ≤ γ) (hX : 16383 ≤ X) :
    ∃ lstsq : Lstsq K, ConsistentLstsq lstsq n nb γ X := by
  classical
  refine ⟨fun a b => if h : ∃ y, LeastSquares a b y n nb ∧ ∀ t < n, ∀ k < nb, |(y.getD t []).getD k 0| ≤ X then h.choose else [], ?_⟩
  intro olaps c hin hc
  set off := olaps.map fun e => (List.range nb).map fun b => ((c b e.2 - c b e.1 : ℤ) : K) with hoff
  have hex : ∃ y, LeastSquares (overlapMatrix olaps n) off y n nb ∧ ∀ t < n, ∀ k < nb, |(y.getD t []).getD k 0| ≤ X := by
    refine ⟨(List.range n).map fun t => (List.range nb).map fun k => ((c k t : ℤ) : K), ⟨by simp, ?_⟩, ?_⟩
    · intro k hk y hy
      have hin' : ∀ t1 t2, (t1, t2) ∈ olaps → t1 < n ∧ t2 < n ∧ t1 ≠ t2 := fun t1 t2 h => by
        have := hin _ h
        simp only at this
        omega
      rw [lsError_overlap hin' _ _ (by simp [col]), lsError_overlap hin' _ _ hy]
      refine le_trans (le_of_eq ?_) (List.sum_nonneg (by
        intro x hx
        obtain ⟨_, _, rfl⟩ := List.mem_map.mp hx
        exact sq_nonneg _))
      unfold sqError
      apply List.sum_eq_zero
      intro x hx
      obtain ⟨⟨⟨t1, t2⟩, o⟩, hx2, rfl⟩ := List.mem_map.mp hx
      obtain ⟨j, hj⟩ := List.getElem?_of_mem hx2
      rw [List.getElem?_zip_eq_some] at hj
      obtain ⟨h1, h2⟩ := hj
      obtain ⟨b1, b2, _⟩ := hin' t1 t2 (List.mem_of_getElem? h1)
      simp only [col, hoff, List.getElem?_map, h1, Option.map_some, Option.some.injEq, List.map_map, Function.comp_apply] at h2
      rw [getD_map_lt _ _ (by simpa using hk)] at h2
      simp only [col, List.map_map]
      rw [getD_map_lt _ _ (i := t2) (by simpa using b2), getD_map_lt _ _ (i := t1) (by simpa using b1)]
      simp only [List.getElem_range, Function.comp_apply] at h2 ⊢
      rw [getD_map_lt _ _ (by simpa using hk), getD_map_lt _ _ (by simpa using hk), ← h2]
      simp
    · intro t ht k hk
      rw [getD_map_lt _ _ (by simpa using ht), getD_map_lt _ _ (by simpa using hk)]
      simp only [List.getElem_range]
      have : ((|c k t| : ℤ) : K) ≤ 16383 := by exact_mod_cast hc k t
      rw [← Int.cast_abs]
      exact this.trans hX
  have hs : (if h : ∃ y, LeastSquares (overlapMatrix olaps n) off y n nb ∧ ∀ t < n, ∀ k < nb, |(y.getD t []).getD k 0| ≤ X
      then h.choose else []) = hex.choose := dif_pos hex
  refine ⟨?_, ?_, ?_⟩
  · simp only [hs]
    exact hex.choose_spec.1.1
  · refine ⟨_, hex.choose_spec.1, fun t ht k hk => ?_⟩
    simp only [hs, sub_self, abs_zero]
    exact hγ
  · simp only [hs]
    exact hex.choose_spec.2

end

end Spurt
