import Verif.Lemmas.FloatStages
import Mathlib.Tactic.FieldSimp
import Mathlib.Tactic.Ring

/-! # C70: without rounding, the mixed-precision functions are the functions of the exact model -/

namespace Spurt
open Spec

section
variable {K : Type} [Field K] [LinearOrder K] [IsStrictOrderedRing K] [FloorRing K]

/-- Arithmetic that does not round. -/
def Spec.exactArith (tau : K) : FloatArith K := ⟨id, id, tau, tau, 0⟩

/-- C70. Without rounding, and with the decimal tolerances, the overlap statistics are those of the exact model. -/
theorem C70_exact_overlap (tau : K) (wrap : ℤ → ℤ) (minPoints : ℤ) (cc : Nat → List (Nat × Nat) → List Nat) (tiles : TileSet)
    (files : Nat → Except PyErr (TileFile K)) :
    phasediffDecilesFl (exactArith tau) (1 / 100) (1 / 100000) wrap minPoints cc tiles files =
      phasediffDeciles wrap tau minPoints cc tiles files := by
  refine phasediffDecilesFl_eq fun p _ => ?_
  have h1 : pairwiseDecilesFl (exactArith tau) (1 / 100) (1 / 100000) = pairwiseDeciles tau := by
    funext a b
    rfl
  have h2 : loadFl (exactArith tau) tiles files = loadEx tiles files := by
    funext t
    unfold loadFl loadEx loadUwTileFl loadUwTile
    rfl
  rw [h1, h2]

theorem bandValue_exact (tau : K) (F : Nat → TileFile K) (b : Nat) : bandValueFl (exactArith tau) F b = bandValue F b := rfl

theorem bandAt_exact (tau : K) (F : Nat → TileFile K) (b : Nat) : bandAtFl (exactArith tau) F b = bandAt F b := rfl

theorem sumAt_exact (tau : K) (F : Nat → TileFile K) (b : Nat) (c : Nat → Nat → K) (nbrs : List Nat) (i p : Nat) :
    sumAtFl (exactArith tau) F b c nbrs i p = sumAt F b c nbrs i p := by
  unfold sumAtFl sumAt
  rw [bandValue_exact, bandAt_exact]
  generalize bandValue F b c i p = x
  induction nbrs generalizing x with
  | nil => simp
  | cons j l ih =>
    rw [List.foldl_cons, ih, List.map_cons, List.sum_cons]
    cases bandAt F b c j (ptAt F i p) with
    | none => simp
    | some v => simp [exactArith, add_assoc]

theorem freeRhs_exact (a : SqMat K) (mask : Nat → Bool) (x : Nat → K) : freeRhsFl id a mask x = freeRhs a mask x := by
  unfold freeRhsFl freeRhs
  refine List.map_congr_left fun i _ => ?_
  congr 1
  have : ∀ (l : List Nat) (s : K), (l.filter fun j => mask j && decide (a.val i j ≠ 0)).foldl
      (fun acc j => id (acc + id (a.val i j * x j))) s = s + ((l.filter fun j => mask j).map fun j => a.val i j * x j).sum := by
    intro l
    induction l with
    | nil => simp
    | cons j l ih =>
      intro s
      by_cases hm : mask j
      · by_cases ha : a.val i j = 0
        · have := ih s
          simp only [List.filter_cons, hm, ha, ne_eq, not_true_eq_false, decide_false, Bool.and_false, Bool.false_eq_true,
            if_false, if_true, List.map_cons, zero_mul, List.sum_cons, zero_add]
          simpa using this
        · have := ih (s + a.val i j * x j)
          simp only [List.filter_cons, hm, ha, ne_eq, not_false_eq_true, decide_true, Bool.and_true,
            if_true, List.map_cons, List.sum_cons, List.foldl_cons, id]
          rw [← add_assoc]
          simpa using this
      · have := ih s
        simp only [List.filter_cons, hm, Bool.false_and, Bool.false_eq_true, if_false]
        simpa using this
  rw [this, zero_add]

theorem dirRow_exact (tau : K) (lin : LinSolver K) (a : SqMat K) (mask : Nat → Bool) (x : Nat → K) (p : Nat) :
    dirRowFl (exactArith tau) lin a mask x p = dirRow lin a mask x p := by
  unfold dirRowFl dirRow
  rw [show (exactArith tau).fd = id from rfl, freeRhs_exact]
  by_cases hm : mask p
  · simp [hm]
  · simp only [hm, Bool.false_eq_true, if_false]
    by_cases hz : ((freeRhs a mask x).all fun v => decide (v = 0)) = true
    · rw [if_pos hz, if_pos hz]
      by_cases hl : (freeIdx a.n mask).idxOf p < ((freeRhs a mask x).map fun _ => (0 : K)).length
      · rw [List.getD_eq_getElem _ _ hl]; simp
      · rw [List.getD_eq_default _ _ (by omega)]
    · rw [if_neg hz, if_neg hz]
      rfl

theorem bandRound_exact (tau : K) (env : MergeEnv K) (F : Nat → TileFile K) (omap : List (List Nat)) (b : Nat) :
    bandRoundFl (exactArith tau) env F omap b = bandRound env F omap b := by
  funext c d i p
  unfold bandRoundFl bandRound tileCorrFl tileCorr
  have h : rawCorrFl (exactArith tau) F omap b c i = rawCorr F omap b c i := by
    funext p
    unfold rawCorrFl rawCorr
    rw [sumAt_exact, bandValue_exact]
    rfl
  rw [h]
  simp only [dirRow_exact]
  rfl

theorem finalCorr_exact (tau : K) (env : MergeEnv K) (F : Nat → TileFile K) (omap : List (List Nat)) (d : Nat)
    (bulk : List (List K)) (b : Nat) : finalCorrFl (exactArith tau) env F omap d bulk b = finalCorr tau env F omap d bulk b := by
  unfold finalCorrFl finalCorr bandAdjustFl bandAdjust
  rw [bandRound_exact]
  rfl

theorem bandRaster_exact (tau : K) (shape : Nat × Nat) (n : Nat) (F : Nat → TileFile K) (b : Nat) (c : Nat → Nat → K) :
    bandRasterFl (exactArith tau) shape n F b c = bandRaster tau shape n F b c := rfl

theorem call_exact (tau : K) (t : TileState K) (o : TileOp K) : t.callFl (exactArith tau) o = t.call o := by
  have hadd : ∀ a b : Arr K, a.addFl (exactArith tau).fs b = a.add b := by
    intro a b
    unfold Arr.addFl
    cases a.add b <;> rfl
  unfold TileState.callFl TileState.call
  cases o with
  | resetBandIndex idx =>
    simp only [TileState.stepFl, TileState.step]
    have : readBandsFl (exactArith tau) t.file idx = readBands t.file idx := by
      unfold readBandsFl
      cases readBands t.file idx <;> rfl
    rw [this]
    cases readBands t.file idx <;> rfl
  | compressCorrections =>
    simp only [TileState.stepFl, TileState.step, hadd]
    rcases t.corrections with _ | ⟨c0, _ | ⟨c1, cs⟩⟩
    · rfl
    · rfl
    · simp only
      cases c0.add ((c1 :: cs).getLast (by simp)) <;> rfl
  | addCorrection a => rfl
  | incrementCorrection => rfl
  | resetCorrections => rfl

/-- C70. Without rounding, `merge_tiles` in mixed precision completes when it does in the exact model, with the same
rasters. -/
theorem C70_exact_merge (tau : K) (minPoints : ℤ) (cc : Nat → List (Nat × Nat) → List Nat) (nifgs : Nat) (tiles : TileSet)
    (files : Nat → Except PyErr (TileFile K)) (F : Nat → TileFile K) (env : MergeEnv K) (bulk : BulkFile K)
    (settings : MergerSettings) (h : MergeInput tau minPoints cc nifgs tiles files F env.overlap bulk settings)
    (isFile : Nat → Bool) (r : MergeResult K) :
    mergeTilesFl (exactArith tau) env settings tiles files bulk nifgs isFile = .ok r ↔
      mergeTiles tau env settings tiles files bulk nifgs isFile = .ok r := by
  obtain ⟨omap, h1, h2, _⟩ := ready_of_input h
  obtain ⟨d, hd⟩ := getMaxDegree_ok (shape := imageShape tiles) (n := tiles.tiles.length) (F := F) (by
    have := h.image
    simp only [imageShape]
    omega) h2.inside
  obtain ⟨a1, a2⟩ := mergeTiles_eq h h1 h2 hd isFile
  obtain ⟨b1, b2⟩ := mergeTilesFl_eq (A := exactArith tau) h.ifgs h.two h.filesOk.read h.method h.bulkMethod h1 h2 hd isFile
  have hfin : ∀ i, finalRasterFl (exactArith tau) env (imageShape tiles) tiles.tiles.length F omap d bulk.offsets i =
      finalRaster tau env (imageShape tiles) tiles.tiles.length F omap d bulk.offsets i := by
    intro i
    unfold finalRasterFl finalRaster
    rw [finalCorr_exact, bandRaster_exact]
    rfl
  by_cases hc : adjustOk env tiles.tiles.length F omap d ∨ missing nifgs isFile = []
  · rw [a1 hc, b1 hc]
    simp only [hfin]
  · obtain ⟨e, he⟩ := a2 hc
    obtain ⟨e', he'⟩ := b2 hc
    rw [he, he']
    simp

/-- The raster of band `b` of the single tile. -/
def singleRaster (A : FloatArith K) (shape : Nat × Nat) (f : TileFile K) (b : Nat) : Band (Option K) :=
  ⟨shape.1, shape.2, fun r c => fancySet (fun _ => none) ((filePoints f).map fun c => (c.1.toNat, c.2.toNat))
    ((List.range (filePoints f).length).map fun p => some (A.fs (filePhase f b p))) (r, c)⟩

theorem writeSingleBandFl_eq {A : FloatArith K} {shape : Nat × Nat} {f : TileFile K} {nifgs : Nat}
    (hbands : f.uw.length = nifgs ∧ f.phaseOffset.length = nifgs) (hw : (f.uw.headD []).length = f.points.length)
    (hin : ∀ c ∈ filePoints f, Inside shape c) {t : TileState K} (ht : t.file = f) {b : Nat} (hb : b < nifgs) :
    ∃ t', t'.file = f ∧ writeSingleBandFl A shape t b = .ok (t', singleRaster A shape f b) := by
  have hrb : ∃ d, readBandsFl A f [b] = .ok d := by
    unfold readBandsFl readBands
    rw [if_neg (by simp), if_neg (by simp), if_neg (by simp; omega)]
    exact ⟨_, rfl⟩
  obtain ⟨d, hd⟩ := hrb
  obtain ⟨u, hu, u1, u2, u3⟩ := rawUwPhaseFl_data (A := A) (t := ⟨t.file, [b], some d, [], 0⟩) hw ⟨d, hd, rfl⟩
  refine ⟨⟨t.file, [b], some d, [], 0⟩, ht, ?_⟩
  unfold writeSingleBandFl TileState.callFl
  simp only [TileState.stepFl, ht, hd]
  simp only [Bind.bind, Except.bind]
  have hco : TileState.coords (⟨f, [b], some d, [], 0⟩ : TileState K) = filePoints f := rfl
  rw [hco, pixelsOf_inside hin]
  simp only
  rw [ht] at hu
  rw [hu]
  simp only
  rw [bandRow_eq (g := fun p => A.fs (filePhase f b p)) (by rw [u1]; simp) (by rw [u2, filePoints_length]) (by
    intro p hp
    rw [filePoints_length] at hp
    rw [u3 0 p (by simp) hp]
    rfl)]
  simp only [List.map_map, Function.comp_def]
  rfl

/-- C70. A single tile is not merged: in mixed precision, every missing raster holds the phase of the tile plus its
offset, rounded once, and nothing outside of the tile's pixels. -/
theorem C70_single (A : FloatArith K) (env : MergeEnv K) (settings : MergerSettings) (hmethod : settings.method = "dirichlet")
    (nifgs : Nat) (tiles : TileSet) (hone : tiles.tiles.length = 1)
    (files : Nat → Except PyErr (TileFile K)) (F : Nat → TileFile K) (hf : TileFilesOk nifgs tiles files F)
    (bulk : BulkFile K) (isFile : Nat → Bool) :
    ∃ B : Nat → Band (Option K), mergeTilesFl A env settings tiles files bulk nifgs isFile =
        .ok (.single (((List.range nifgs).filter fun i => !isFile i).map fun i => (i, B i))) ∧
      ∀ b, (B b).rows = tiles.shape.1.toNat ∧ (B b).cols = tiles.shape.2.toNat ∧ ∀ r q : Nat,
        (∀ p, (filePoints (F 0))[p]? = some ((r : ℤ), (q : ℤ)) → (B b).val r q = some (A.fs (filePhase (F 0) b p))) ∧
        (((r : ℤ), (q : ℤ)) ∉ filePoints (F 0) → (B b).val r q = none) := by
  have hin := files_inside hf 0 (by omega)
  have hnd := filePoints_nodup (hf.once 0 (by omega))
  refine ⟨singleRaster A (imageShape tiles) (F 0), ?_, fun b => ⟨rfl, rfl, fun r q => ⟨fun p hp => ?_, fun hno => ?_⟩⟩⟩
  · have hloop : ∀ (l : List Nat), (∀ i ∈ l, i < nifgs) → ∀ (t : TileState K) (acc : List (Nat × Band (Option K))),
        t.file = F 0 → ∃ t', l.foldlM
          (fun (acc : TileState K × List (Nat × Band (Option K))) ii => do
            let (t, b) ← writeSingleBandFl A (imageShape tiles) acc.1 ii
            pure (t, acc.2 ++ [(ii, b)])) (t, acc) =
          (.ok (t', acc ++ l.map fun i => (i, singleRaster A (imageShape tiles) (F 0) i)) : Except PyErr _) := by
      intro l
      induction l with
      | nil => intro _ t acc _; exact ⟨t, by simp [pure, Except.pure]⟩
      | cons i l ih =>
        intro hl t acc ht
        obtain ⟨t', ht', e⟩ := writeSingleBandFl_eq (A := A) (shape := imageShape tiles) (hf.bands 0 (by omega))
          (files_width (nifgs := nifgs) (by have := hl i List.mem_cons_self; omega) hf 0 (by omega)) hin ht (hl i List.mem_cons_self)
        obtain ⟨t'', e'⟩ := ih (fun j hj => hl j (List.mem_cons_of_mem _ hj)) t' (acc ++ [(i, singleRaster A (imageShape tiles) (F 0) i)]) ht'
        refine ⟨t'', ?_⟩
        rw [List.foldlM_cons, e]
        simp only [Bind.bind, Except.bind, pure, Except.pure] at e' ⊢
        rw [e']
        simp
    have hts : (List.range tiles.tiles.length).mapM (fun ii => do
        let f ← files ii
        pure (TileState.start f)) =
        (.ok ((List.range tiles.tiles.length).map fun j => TileState.start (F j)) : Except PyErr _) := by
      apply mapM_ok_of
      intro i hi
      rw [hf.read i (List.mem_range.mp hi)]
      rfl
    obtain ⟨t', e⟩ := hloop ((List.range nifgs).filter fun i => !isFile i)
      (fun i hi => List.mem_range.mp (List.mem_of_mem_filter hi)) (TileState.start (F 0)) [] rfl
    unfold mergeTilesFl
    rw [if_neg (by simp [hmethod])]
    simp only
    rw [hts]
    simp only [Bind.bind, Except.bind]
    rw [if_pos hone, hone]
    simp only [List.range_one, List.map_cons, List.map_nil, List.getElem?_cons_zero, Option.elim_some]
    simp only [Bind.bind, Except.bind, imageShape] at e ⊢
    rw [e]
    simp [pure, Except.pure]
  · obtain ⟨f1, f2, _⟩ := pixelsOf_facts hin hnd
    obtain ⟨hpl, hpe⟩ := List.getElem?_eq_some_iff.mp hp
    unfold singleRaster
    simp only
    have hs := fancySet_of_mem (fun _ => (none : Option K)) ((filePoints (F 0)).map fun c => (c.1.toNat, c.2.toNat))
      ((List.range (filePoints (F 0)).length).map fun p => some (A.fs (filePhase (F 0) b p))) f1 p (by simpa using hpl)
      (by simpa using hpl)
    simp only [List.getElem_map, hpe, Int.toNat_natCast, List.getElem_range] at hs
    exact hs
  · obtain ⟨f1, f2, _⟩ := pixelsOf_facts hin hnd
    unfold singleRaster
    simp only
    refine fancySet_of_not_mem _ _ _ _ fun hc => hno ?_
    exact (f2 (r, q)).mp hc
end

end Spurt
