import Verif.Lemmas.SignMerge
import Mathlib.Data.List.Sort

/-! # Bulk offsets of tiles of the opposite sign -/

namespace Spurt

/-- The integer solver that solves a programme by handing the programme with the offsets of the opposite sign to `s`. -/
def Spec.mirrorMip (s : MipSolver) : MipSolver := fun p =>
  (s ⟨p.npts, p.cons.map fun c => (c.1, - c.2), p.fixed⟩).map fun v => ⟨v.n.map (- ·), v.nf, v.pf⟩

/-- The least-squares library that hands the right-hand sides of the opposite sign to `l`. -/
def Spec.mirrorLstsq {K : Type} [Field K] (l : Lstsq K) : Lstsq K := fun a b =>
  (l a (b.map fun r => r.map (- ·))).map fun r => r.map (- ·)

/-- The inner solver that hands the right-hand side of the opposite sign to `l`. -/
def Spec.mirrorLin {K : Type} [Field K] (l : LinSolver K) : LinSolver K :=
  ⟨l.ilu, fun m r => (l.cg m (r.map (- ·))).map (- ·)⟩

open Spec

theorem neg_neg_rows {R : Type} [Ring R] (l : List (List R)) : (l.map fun r => r.map (- ·)).map (fun r => r.map (- ·)) = l := by
  rw [List.map_map]
  conv_rhs => rw [← List.map_id l]
  apply List.map_congr_left
  intro r _
  exact neg_neg_list r

theorem isMedian_neg {l : List ℤ} (hne : l ≠ []) {x : ℚ} (h : IsMedian l x) : IsMedian (l.map (- ·)) (-x) := by
  obtain ⟨s, p, hs, rfl⟩ := h
  have hl : 0 < s.length := by rw [p.length_eq]; exact List.length_pos_of_ne_nil hne
  have hlen : ((s.map (- ·)).reverse).length = s.length := by simp
  refine ⟨(s.map (- ·)).reverse, (List.reverse_perm _).trans (p.map _), ?_, ?_⟩
  · rw [List.pairwise_reverse, List.pairwise_map]
    exact hs.imp fun h => by omega
  · rw [hlen, List.getD_eq_getElem s _ (by omega : (s.length - 1) / 2 < s.length),
      List.getD_eq_getElem s _ (by omega : s.length / 2 < s.length),
      List.getD_eq_getElem _ _ (by rw [hlen]; omega : (s.length - 1) / 2 < ((s.map (- ·)).reverse).length),
      List.getD_eq_getElem _ _ (by rw [hlen]; omega : s.length / 2 < ((s.map (- ·)).reverse).length),
      List.getElem_reverse, List.getElem_reverse, List.getElem_map, List.getElem_map]
    have e1 : (s.map (- ·)).length - 1 - (s.length - 1) / 2 = s.length / 2 := by rw [List.length_map]; omega
    have e2 : (s.map (- ·)).length - 1 - s.length / 2 = (s.length - 1) / 2 := by rw [List.length_map]; omega
    simp only [e1, e2]
    push_cast
    ring

theorem isMedian_exists (l : List ℤ) : ∃ x, IsMedian l x :=
  ⟨_, l.insertionSort (· ≤ ·), List.perm_insertionSort _ l, List.pairwise_insertionSort _ l, rfl⟩

theorem pyInt_neg (x : ℚ) : pyInt (-x) = - pyInt x := by
  unfold pyInt
  rcases lt_trichotomy x 0 with h | h | h
  · rw [if_pos (by linarith), if_neg (by linarith), Int.floor_neg]
  · subst h; simp
  · rw [if_neg (by linarith), if_pos (by linarith), Int.ceil_neg]

section
variable {K : Type} [Field K] [LinearOrder K] [FloorRing K] [IsStrictOrderedRing K]

/-- The median offsets of tiles of the opposite sign. -/
theorem median_neg {tau : K} {minPoints : ℤ} {cc : Nat → List (Nat × Nat) → List Nat} {nifgs : Nat}
    {tiles : TileSet} {files files' : Nat → Except PyErr (TileFile K)} {F F' : Nat → TileFile K}
    {olap olap' : OverlapFile} (hf : TileFilesOk nifgs tiles files F) (hf' : TileFilesOk nifgs tiles files' F')
    (h : phasediffDeciles id tau minPoints cc tiles files = .ok (some olap))
    (h' : phasediffDeciles id tau minPoints cc tiles files' = .ok (some olap'))
    (hs : Opposite tiles.tiles.length nifgs F F') {med med' : List (List ℤ)}
    (hm : medianOffsets olap = .ok med) (hm' : medianOffsets olap' = .ok med') :
    med' = med.map fun x => x.map (- ·) := by
  obtain ⟨ho, _⟩ := overlaps_points hf hf' h h' hs.points
  obtain ⟨l1, a1⟩ := median_entry hf h hm
  obtain ⟨l2, a2⟩ := median_entry hf' h' hm'
  apply List.ext_getElem
  · rw [l2, List.length_map, l1, ho]
  intro k hk2 hk1
  rw [List.length_map] at hk1
  obtain ⟨⟨i, j⟩, hk⟩ : ∃ e, olap.overlaps[k]? = some e := ⟨_, List.getElem?_eq_getElem (by omega)⟩
  have hmem := List.mem_of_getElem? hk
  have hlt : i < tiles.tiles.length ∧ j < tiles.tiles.length := by
    obtain ⟨hsub, _⟩ := C53_recorded tau minPoints cc tiles files olap h
    obtain ⟨_, a, b, h2, h3, _⟩ := ((C25_overlaps tiles).1 i j).mp (hsub.subset hmem)
    exact ⟨(List.getElem?_eq_some_iff.mp h2).1, (List.getElem?_eq_some_iff.mp h3).1⟩
  obtain ⟨x, hx, hxl, hxb⟩ := a1 k i j hk
  obtain ⟨x', hx', hxl', hxb'⟩ := a2 k i j (by rw [ho]; exact hk)
  rw [List.getElem?_eq_getElem hk1, Option.some.injEq] at hx
  rw [List.getElem?_eq_getElem hk2, Option.some.injEq] at hx'
  rw [List.getElem_map, hx, hx']
  apply List.ext_getElem
  · rw [List.length_map, hxl, hxl']
  intro b hb1 hb2
  have hb : b < nifgs := by omega
  obtain ⟨n1, n2, n3⟩ := hxb b hb
  obtain ⟨_, _, n3'⟩ := hxb' b hb
  obtain ⟨c, hc⟩ := isMedian_exists (cyclesBetween tau (F i) (F j) b)
  have hph : ∀ i < tiles.tiles.length, ∀ pix ∈ filePoints (F i), phaseAtPixel (F' i) b pix = - phaseAtPixel (F i) b pix := by
    intro i hi pix hp
    unfold phaseAtPixel
    rw [hs.points i hi]
    refine hs.phase b hb i hi _ ?_
    rw [← filePoints_length]
    exact List.idxOf_lt_length_iff.mpr hp
  have hcb : cyclesBetween tau (F' i) (F' j) b = (cyclesBetween tau (F i) (F j) b).map (- ·) := by
    unfold cyclesBetween
    rw [hs.points i hlt.1, hs.points j hlt.2, List.map_map]
    apply List.map_congr_left
    intro pix hpix
    rw [List.mem_filter, decide_eq_true_eq] at hpix
    rw [hph i hlt.1 pix hpix.1, hph j hlt.2 pix hpix.2]
    simp only [Function.comp]
    rw [← rint_neg]
    congr 1
    ring
  have hc' : IsMedian (cyclesBetween tau (F' i) (F' j) b) (-c) := by
    rw [hcb]
    exact isMedian_neg n2 hc
  have e1 := n3 _ hc
  have e2 := n3' _ hc'
  rw [List.getElem?_eq_getElem (by omega), Option.some.injEq] at e1 e2
  rw [List.getElem_map, e1, e2, pyInt_neg]

end

theorem mapM_conj {α α' β β' : Type} (g : α → α') (h : β → β') (f : α → Except PyErr β) (f' : α' → Except PyErr β')
    (hf : ∀ a, f' (g a) = (f a).map h) (l : List α) : (l.map g).mapM f' = (l.mapM f).map (List.map h) := by
  induction l with
  | nil => rfl
  | cons a l ih =>
    rw [List.map_cons, List.mapM_cons, List.mapM_cons, hf, ih]
    cases f a with
    | error e => rfl
    | ok b =>
      cases l.mapM f with
      | error e => rfl
      | ok r => rfl

section
variable {K : Type} [Field K] [LinearOrder K]

/-- The bulk offsets of the opposite sign, with the same residuals. -/
def negBulk (b : BulkFile K) : BulkFile K := ⟨b.method, b.offsets.map fun r => r.map (- ·), b.residuals⟩

theorem solveInt_neg (s : MipSolver) (olaps : List (Nat × Nat)) (labels : List Nat) (off : List ℤ) (counts : List Nat) :
    solveIntOffsets (mirrorMip s) olaps labels (off.map (- ·)) counts =
      (solveIntOffsets s olaps labels off counts).map fun r => (r.1.map (- ·), r.2) := by
  unfold solveIntOffsets
  split
  · rfl
  · cases largestTiles labels counts with
    | error e => rfl
    | ok fixed =>
      simp only [Bind.bind, Except.bind]
      unfold mirrorMip
      have : (olaps.zip (off.map (- ·))).map (fun c => (c.1, - c.2)) = olaps.zip off := by
        rw [List.zip_map_right, List.map_map]
        conv_rhs => rw [← List.map_id (olaps.zip off)]
        apply List.map_congr_left
        rintro ⟨a, b⟩ _
        simp
      simp only [this]
      cases s ⟨labels.length, olaps.zip off, fixed⟩ with
      | none => rfl
      | some v => simp [Except.map, pure, Except.pure, add_comm]

variable [IsStrictOrderedRing K]

theorem solveL2_neg (l : Lstsq K) (olaps : List (Nat × Nat)) (off : List (List K)) (nbands ntiles : Nat) (counts : List Nat) :
    solveL2Min (mirrorLstsq l) olaps (off.map fun r => r.map (- ·)) nbands ntiles counts =
      (solveL2Min l olaps off nbands ntiles counts).map fun r => (r.1.map fun x => x.map (- ·), r.2) := by
  unfold solveL2Min
  split
  · rfl
  · unfold l2Min
    rw [List.length_map]
    split
    · rfl
    · simp only [Bind.bind, Except.bind]
      unfold mirrorLstsq
      rw [neg_neg_rows]
      cases argmax counts with
      | error e => rfl
      | ok conn =>
        generalize l (overlapMatrix olaps ntiles) off = x
        simp only [pure, Except.pure, Except.map, Except.ok.injEq, Prod.mk.injEq]
        have hx : ∀ t b, ((x.map fun r => r.map (- ·)).getD t []).getD b 0 = - (x.getD t []).getD b 0 :=
          fun t b => elem_neg x t b
        have hdot : matDot (overlapMatrix olaps ntiles) (x.map fun r => r.map (- ·)) nbands =
            (matDot (overlapMatrix olaps ntiles) x nbands).map fun r => r.map (- ·) := by
          unfold matDot
          rw [List.map_map]
          apply List.map_congr_left
          intro row _
          simp only [Function.comp, List.map_map]
          apply List.map_congr_left
          intro b _
          simp only [Function.comp]
          rw [← sum_neg, List.map_zipWith, List.zipWith_map_right]
          congr 1
          congr 1
          funext v xr
          rw [getD_neg, mul_neg]
        constructor
        · rw [List.map_map]
          apply List.map_congr_left
          intro b _
          simp only [Function.comp, List.map_map]
          apply List.map_congr_left
          intro t _
          simp only [Function.comp]
          rw [hx, hx]
          ring
        · apply List.map_congr_left
          intro b _
          rw [hdot, List.zipWith_map]
          have hz : List.zipWith (fun (a c : List K) => List.zipWith (· - ·) (a.map (- ·)) (c.map (- ·))) off
              (matDot (overlapMatrix olaps ntiles) x nbands) =
              (List.zipWith (List.zipWith (· - ·)) off (matDot (overlapMatrix olaps ntiles) x nbands)).map
                fun r => r.map (- ·) := by
            rw [List.map_zipWith]
            congr 1
            funext a c
            rw [List.zipWith_map, List.map_zipWith]
            congr 1
            funext u v
            ring
          rw [hz, List.map_map]
          congr 1
          apply List.map_congr_left
          intro row _
          simp only [Function.comp]
          rw [getD_neg, abs_neg]

theorem bulkOffsets_neg {C : Type} [LinearOrder C] (mip : MipSolver) (l : Lstsq K) (method : String) (tiles : TileSet)
    (coh : Band (Option C)) (thr : C) {f f' : OverlapFile} (ho : f'.overlaps = f.overlaps) (hl : f'.labels = f.labels)
    (hm : medianOffsets f' = (medianOffsets f).map fun m => m.map fun x => x.map (- ·)) :
    bulkOffsets (mirrorMip mip) (mirrorLstsq l) method tiles coh thr f' =
      (bulkOffsets mip l method tiles coh thr f).map (Option.map negBulk) := by
  unfold bulkOffsets
  split
  · rfl
  · rw [hm]
    cases medianOffsets f with
    | error e => rfl
    | ok med =>
      simp only [Bind.bind, Except.bind, Except.map]
      cases med with
      | nil => rfl
      | cons first rest =>
        set med := first :: rest with hmed
        have e0 : (med.map fun x => x.map (- ·))[0]? = some (first.map (- ·)) := rfl
        have e1 : med[0]? = some first := rfl
        rw [e0, e1]
        simp only [Option.elim_some, List.length_map]
        rw [ho, hl]
        split
        · have hrow : ∀ ii : Nat, ((med.map fun x => x.map (- ·)).mapM fun x => (x[ii]?).elim (.error PyErr.indexError) Except.ok) =
              (med.mapM fun x => (x[ii]?).elim (.error PyErr.indexError) Except.ok).map (fun o : List ℤ => o.map (- ·)) := by
            intro ii
            refine mapM_conj (fun x : List ℤ => x.map (- ·)) (fun v : ℤ => -v) _ _ (fun x => ?_) med
            rw [List.getElem?_map]
            cases x[ii]? <;> rfl
          have key := mapM_conj (id : Nat → Nat) (fun r : List ℤ × ℤ => (r.1.map (- ·), r.2))
            (fun ii => (med.mapM fun x => (x[ii]?).elim (.error PyErr.indexError) Except.ok) >>= fun off =>
              solveIntOffsets mip f.overlaps f.labels off (tiles.tiles.map fun t => (tilePoints coh thr t).length))
            (fun ii => ((med.map fun x => x.map (- ·)).mapM fun x => (x[ii]?).elim (.error PyErr.indexError) Except.ok) >>= fun off =>
              solveIntOffsets (mirrorMip mip) f.overlaps f.labels off (tiles.tiles.map fun t => (tilePoints coh thr t).length))
            (fun ii => by
              simp only [id]
              rw [hrow]
              cases med.mapM fun x => (x[ii]?).elim (.error PyErr.indexError) Except.ok with
              | error e => rfl
              | ok off => exact solveInt_neg mip f.overlaps f.labels off _) (List.range first.length)
          rw [List.map_id] at key
          simp only [Bind.bind, Except.bind] at key
          rw [key]
          generalize List.mapM (m := Except PyErr) (β := List ℤ × ℤ) _ (List.range first.length) = rows
          cases rows with
          | error e => rfl
          | ok rows =>
            simp only [Except.map, pure, Except.pure, Option.map_some, negBulk, List.map_map]
            congr 3
            apply List.map_congr_left
            intro r _
            simp only [Function.comp, List.map_map]
            apply List.map_congr_left
            intro v _
            simp
        · split
          · have hany : ((med.map fun x => x.map (- ·)).any fun x => decide (x.length ≠ first.length)) =
                med.any fun x => decide (x.length ≠ first.length) := by
              rw [List.any_map]
              congr 1
              funext x
              simp
            rw [hany]
            split
            · rfl
            · have hc : ((med.map fun x => x.map (- ·)).map fun x => x.map fun v => ((v : ℤ) : K)) =
                  (med.map fun x => x.map fun v => ((v : ℤ) : K)).map fun r => r.map (- ·) := by
                rw [List.map_map, List.map_map]
                apply List.map_congr_left
                intro x _
                simp only [Function.comp, List.map_map]
                apply List.map_congr_left
                intro v _
                simp
              rw [hc, solveL2_neg]
              cases solveL2Min l f.overlaps (med.map fun x => x.map fun v => ((v : ℤ) : K)) first.length tiles.tiles.length
                (tiles.tiles.map fun t => (tilePoints coh thr t).length) with
              | error e => rfl
              | ok r => rfl
          · rfl

end

end Spurt
