import Verif.Lemmas.FloatSign
import Verif.Lemmas.FloatAloneBulk

/-! # The merge of tiles of the opposite sign in mixed precision -/

namespace Spurt
open Spec

/-- All corrections change their sign. -/
def NegCorr {K : Type} [Field K] (n : Nat) (F : Nat → TileFile K) (c c' : Nat → Nat → K) : Prop :=
  ∀ i < n, ∀ p < (F i).points.length, c' i p = - c i p

section
variable {K : Type} [Field K] [LinearOrder K] [IsStrictOrderedRing K] [FloorRing K]

omit [LinearOrder K] [IsStrictOrderedRing K] [FloorRing K] in
theorem bandValueFl_neg {A : FloatArith K} (hA : OddRounding A) {n nifgs : Nat} {F F' : Nat → TileFile K} (hs : Opposite n nifgs F F')
    {b : Nat} (hb : b < nifgs) {c c' : Nat → Nat → K} (hc : NegCorr n F c c') {i : Nat} (hi : i < n) {p : Nat}
    (hp : p < (F i).points.length) : bandValueFl A F' b c' i p = - bandValueFl A F b c i p := by
  unfold bandValueFl
  rw [hs.phase b hb i hi p hp, hc i hi p hp, hA.single, ← neg_add, hA.single]

omit [LinearOrder K] [IsStrictOrderedRing K] [FloorRing K] in
theorem bandAtFl_neg {A : FloatArith K} (hA : OddRounding A) {n nifgs : Nat} {F F' : Nat → TileFile K} (hs : Opposite n nifgs F F')
    {b : Nat} (hb : b < nifgs) {c c' : Nat → Nat → K} (hc : NegCorr n F c c') {i : Nat} (hi : i < n) (pix : ℤ × ℤ) :
    bandAtFl A F' b c' i pix = (bandAtFl A F b c i pix).map (- ·) := by
  unfold bandAtFl
  rw [hs.points i hi]
  by_cases hm : pix ∈ filePoints (F i)
  · rw [if_pos hm, if_pos hm, Option.map_some, bandValueFl_neg hA hs hb hc hi]
    rw [← filePoints_length]
    exact List.idxOf_lt_length_iff.mpr hm
  · rw [if_neg hm, if_neg hm]; rfl

omit [LinearOrder K] [IsStrictOrderedRing K] [FloorRing K] in
theorem rawCorrFl_neg {A : FloatArith K} (hA : OddRounding A) {n nifgs : Nat} {F F' : Nat → TileFile K} (hs : Opposite n nifgs F F')
    {omap : List (List Nat)} {b : Nat} (hb : b < nifgs) {c c' : Nat → Nat → K} (hc : NegCorr n F c c')
    (hlt : ∀ i < n, ∀ j ∈ omap.getD i [], j < n) {i : Nat} (hi : i < n) {p : Nat} (hpl : p < (F i).points.length) :
    rawCorrFl A F' omap b c' i p = - rawCorrFl A F omap b c i p := by
  have hpt : ptAt F' i p = ptAt F i p := by unfold ptAt; rw [hs.points i hi]
  have key : ∀ (l : List Nat) (x : K), (∀ j ∈ l, j < n) →
      l.foldl (fun x j => (bandAtFl A F' b c' j (ptAt F i p)).elim x fun v => A.fs (x + v)) (-x) =
      - l.foldl (fun x j => (bandAtFl A F b c j (ptAt F i p)).elim x fun v => A.fs (x + v)) x := by
    intro l
    induction l with
    | nil => intro x _; rfl
    | cons j l ih =>
      intro x hl
      rw [List.foldl_cons, List.foldl_cons, ← ih _ fun y hy => hl y (List.mem_cons_of_mem _ hy),
        bandAtFl_neg hA hs hb hc (hl j List.mem_cons_self)]
      congr 1
      cases bandAtFl A F b c j (ptAt F i p) with
      | none => rfl
      | some v => simp only [Option.map_some, Option.elim_some]; rw [← neg_add, hA.single]
  unfold rawCorrFl sumAtFl
  rw [cntAt_points hs.points (hlt i hi) hi, hpt, bandValueFl_neg hA hs hb hc hi hpl, key _ _ (hlt i hi), neg_div, hA.single]
  rw [show ∀ x y : K, -x - -y = -(x - y) from fun x y => by ring, hA.single]

omit [FloorRing K] in
theorem dirRowFl_neg {A : FloatArith K} (hA : OddRounding A) {lin lin' : LinSolver K} (hcg : OppositeCg lin lin') (a : SqMat K)
    (mask : Nat → Bool) (x : Nat → K) (p : Nat) : dirRowFl A lin' a mask (fun q => - x q) p = - dirRowFl A lin a mask x p := by
  have hr : freeRhsFl A.fd a mask (fun q => - x q) = (freeRhsFl A.fd a mask x).map (- ·) := by
    unfold freeRhsFl
    rw [List.map_map]
    apply List.map_congr_left
    intro i _
    simp only [Function.comp]
    have key : ∀ (l : List Nat) (s : K), l.foldl (fun acc j => A.fd (acc + A.fd (a.val i j * - x j))) (-s) =
        - l.foldl (fun acc j => A.fd (acc + A.fd (a.val i j * x j))) s := by
      intro l
      induction l with
      | nil => intro s; rfl
      | cons j l ih =>
        intro s
        rw [List.foldl_cons, List.foldl_cons, ← ih, mul_neg, hA.double, ← neg_add, hA.double]
    have := key ((List.range a.n).filter fun j => mask j && decide (a.val i j ≠ 0)) 0
    rw [neg_zero] at this
    rw [this]
  unfold dirRowFl
  rw [hr]
  have hall : (((freeRhsFl A.fd a mask x).map (- ·)).all fun v => decide (v = 0)) =
      (freeRhsFl A.fd a mask x).all fun v => decide (v = 0) := by
    rw [List.all_map]
    congr 1
    funext v
    simp
  rw [hall, hcg]
  split
  · rfl
  · split
    · rw [neg_zero]
    · rw [getD_neg, hA.single]

theorem bandRoundFl_neg {A : FloatArith K} (hA : OddRounding A) {env env' : MergeEnv K} (hlin : OppositeCg env.lin env'.lin)
    (hsim : env'.simplices = env.simplices) {n nifgs : Nat} {F F' : Nat → TileFile K} (hs : Opposite n nifgs F F')
    {omap : List (List Nat)} {b : Nat} (hb : b < nifgs) {c c' : Nat → Nat → K} (h : NegCorr n F c c')
    (hlt : ∀ i < n, ∀ j ∈ omap.getD i [], j < n) (d : Nat) (hok : ∀ i < n, roundOk env F omap d i) :
    NegCorr n F (bandRoundFl A env F omap b c d) (bandRoundFl A env' F' omap b c' d) := by
  intro i hi p hpl
  have hlen := points_length_of (hs.points i hi)
  have hmask : ∀ q, maskAt F' omap d i q = maskAt F omap d i q := by
    intro q
    unfold maskAt
    rw [cntAt_points hs.points (hlt i hi) hi]
  have ht : touched F' omap d i = touched F omap d i := by
    unfold touched
    rw [hlen]
    congr 1
    funext q
    exact hmask q
  unfold bandRoundFl
  rw [ht]
  by_cases htt : touched F omap d i = true
  · rw [if_pos htt, if_pos htt, h i hi p hpl]
    obtain ⟨a, ha1, ha2, _⟩ := hok i hi htt
    have ha1' : lapOf env' (filePoints (F' i)) = .ok a := by
      rw [hs.points i hi, ← ha1]
      unfold lapOf
      rw [hsim]
    have : tileCorrFl A env' F' omap d b c' i p = - tileCorrFl A env F omap d b c i p := by
      unfold tileCorrFl
      rw [ha1, ha1']
      simp only
      rw [← dirRowFl_neg hA hlin]
      exact dirRowFl_congr (fun q _ => hmask q) (fun q hq => rawCorrFl_neg hA hs hb h hlt hi (by omega)) (by omega)
    rw [this, ← neg_add, hA.single]
  · rw [if_neg htt, if_neg htt]
    exact h i hi p hpl

theorem bandAdjustFl_neg {A : FloatArith K} (hA : OddRounding A) {env env' : MergeEnv K} (hlin : OppositeCg env.lin env'.lin)
    (hsim : env'.simplices = env.simplices) {n nifgs : Nat} {F F' : Nat → TileFile K} (hs : Opposite n nifgs F F')
    {omap : List (List Nat)} {b : Nat} (hb : b < nifgs) {c c' : Nat → Nat → K} (h : NegCorr n F c c')
    (hlt : ∀ i < n, ∀ j ∈ omap.getD i [], j < n) (d : Nat) (hok : adjustOk env n F omap d) :
    NegCorr n F (bandAdjustFl A env F omap d b c) (bandAdjustFl A env' F' omap d b c') := by
  unfold bandAdjustFl adjustOk at *
  generalize degrees d = ds at *
  induction ds generalizing c c' with
  | nil => exact h
  | cons d ds ih =>
    rw [List.foldl_cons, List.foldl_cons]
    exact ih (bandRoundFl_neg hA hlin hsim hs hb h hlt d (hok d List.mem_cons_self))
      fun d' hd' => hok d' (List.mem_cons_of_mem _ hd')

omit [FloorRing K] in
theorem avgBandFl_neg {A : FloatArith K} (hA : OddRounding A) {shape : Nat × Nat} {n nifgs : Nat} {F F' : Nat → TileFile K}
    (hs : Opposite n nifgs F F') {b : Nat} (hb : b < nifgs) {c c' : Nat → Nat → K}
    (h : NegCorr n F c c') (acc : MergeAcc K) {j : Nat} (hj : j < n) :
    avgBandFl A shape F' b c' (negAcc acc) j = (avgBandFl A shape F b c acc j).map negAcc := by
  unfold avgBandFl
  rw [hs.points j hj]
  cases pixelsOf shape (filePoints (F j)) with
  | error e => rfl
  | ok px =>
    have hd : (List.range (F' j).points.length).map (bandValueFl A F' b c' j) =
        ((List.range (F j).points.length).map (bandValueFl A F b c j)).map (- ·) := by
      rw [points_length_of (hs.points j hj), List.map_map]
      apply List.map_congr_left
      intro p hpl
      exact bandValueFl_neg hA hs hb h hj (List.mem_range.mp hpl)
    simp only [Bind.bind, Except.bind, pure, Except.pure, Except.map, Except.ok.injEq]
    rw [hd]
    generalize (List.range (F j).points.length).map (bandValueFl A F b c j) = data
    unfold negAcc
    simp only [MergeAcc.mk.injEq]
    refine ⟨?_, trivial, ?_, ?_⟩
    · rw [← fancySet_map (fun v : K => -v)]
      congr 1
      rw [List.zipWith_map_right, List.map_zipWith]
      congr 1
      funext p d
      rw [← neg_add, hA.single]
    · rw [← fancySet_map (fun v : Option K => v.map (- ·))]
      congr 1
      rw [List.zipWith_map_right, List.map_zipWith]
      congr 1
      funext p d
      cases acc.maxval p with
      | none => rfl
      | some v => simp [min_neg_neg]
    · rw [← fancySet_map (fun v : Option K => v.map (- ·))]
      congr 1
      rw [List.zipWith_map_right, List.map_zipWith]
      congr 1
      funext p d
      cases acc.minval p with
      | none => rfl
      | some v => simp [max_neg_neg]

theorem wrapAround_neg {A : FloatArith K} (hA : OddRounding A) (m x : K) : wrapAround A (-m) (-x) = - wrapAround A m x := by
  unfold wrapAround
  have h1 : A.fs (-x - -m) = - A.fs (x - m) := by rw [show -x - -m = -(x - m) by ring, hA.single]
  simp only [h1]
  rw [neg_div, hA.single, rint_neg, ← neg_add, hA.single]
  push_cast
  rw [mul_neg, hA.single, show ∀ x y : K, -x - -y = -(x - y) from fun x y => by ring, hA.single]

theorem outBandFl_neg {A : FloatArith K} (hA : OddRounding A) {shape : Nat × Nat} {n nifgs : Nat} {F F' : Nat → TileFile K}
    (h : Opposite n nifgs F F') {b : Nat} (hb : b < nifgs) (model : Nat × Nat → K) (arr : Nat × Nat → Option K) {j : Nat} (hj : j < n) :
    outBandFl A shape F' b (fun p => - model p) (fun p => (arr p).map (- ·)) j =
      (outBandFl A shape F b model arr j).map fun a p => (a p).map (- ·) := by
  unfold outBandFl
  rw [h.points j hj]
  cases pixelsOf shape (filePoints (F j)) with
  | error e => rfl
  | ok px =>
    have hd : (List.range (F' j).points.length).map (fun p => A.fs (filePhase (F' j) b p)) =
        ((List.range (F j).points.length).map fun p => A.fs (filePhase (F j) b p)).map (- ·) := by
      rw [points_length_of (h.points j hj), List.map_map]
      apply List.map_congr_left
      intro p hpl
      simp only [Function.comp]
      rw [h.phase b hb j hj p (List.mem_range.mp hpl), hA.single]
    simp only [Bind.bind, Except.bind, pure, Except.pure, Except.map, Except.ok.injEq]
    rw [hd]
    generalize (List.range (F j).points.length).map (fun p => A.fs (filePhase (F j) b p)) = data
    rw [← fancySet_map (fun v : Option K => v.map (- ·))]
    congr 1
    rw [List.zipWith_map_right, List.map_zipWith]
    congr 1
    funext p x
    rw [wrapAround_neg hA, Option.map_some]

/-- The rasters of tiles of the opposite sign. -/
theorem rasterFl_neg {A : FloatArith K} (hA : OddRounding A) {shape : Nat × Nat} {n nifgs : Nat} {F F' : Nat → TileFile K}
    (h : Opposite n nifgs F F') {b : Nat} (hb : b < nifgs) {c c' : Nat → Nat → K} (hn : NegCorr n F c c') {m m' : MergedBand K}
    (hm : bandRasterFl A shape n F b c = .ok m) (hm' : bandRasterFl A shape n F' b c' = .ok m') (r q : Nat) :
    m'.out.val r q = (m.out.val r q).map (- ·) ∧ m'.model.val r q = (m.model.val r q).map (- ·) ∧
      m'.diff.val r q = m.diff.val r q := by
  have key : ∀ {S : Type} (g : S → S) (f f' : S → Nat → Except PyErr S) (l : List Nat), (∀ j ∈ l, ∀ s, f' (g s) j = (f s j).map g) →
      ∀ s, l.foldlM f' (g s) = (l.foldlM f s).map g := by
    intro S g f f' l
    induction l with
    | nil => intro _ s; rfl
    | cons j l ih =>
      intro hf s
      rw [List.foldlM_cons, List.foldlM_cons, hf j List.mem_cons_self]
      cases f s j with
      | error e => rfl
      | ok s' => exact ih (fun j hj => hf j (List.mem_cons_of_mem _ hj)) s'
  unfold bandRasterFl at hm hm'
  have h0 : (⟨fun _ => 0, fun _ => 0, fun _ => none, fun _ => none⟩ : MergeAcc K) =
      negAcc ⟨fun _ => 0, fun _ => 0, fun _ => none, fun _ => none⟩ := by simp [negAcc]
  rw [h0, key negAcc (avgBandFl A shape F b c) (avgBandFl A shape F' b c') _
    (fun j hj s => avgBandFl_neg hA h hb hn s (List.mem_range.mp hj))] at hm'
  cases ha : (List.range n).foldlM (avgBandFl A shape F b c) ⟨fun _ => 0, fun _ => 0, fun _ => none, fun _ => none⟩ with
  | error e => rw [ha] at hm; simp [Bind.bind, Except.bind] at hm
  | ok acc =>
    rw [ha] at hm hm'
    simp only [Bind.bind, Except.bind, Except.map] at hm hm'
    have hmean : (fun p => A.fs ((negAcc acc).model p / ((negAcc acc).cnt p : K))) = fun p => - A.fs (acc.model p / (acc.cnt p : K)) := by
      funext p
      simp only [negAcc]
      rw [neg_div, hA.single]
    rw [hmean] at hm'
    set mean := fun p => A.fs (acc.model p / (acc.cnt p : K)) with hmd
    have h1 : (fun _ => none : Nat × Nat → Option K) = fun p => ((fun _ => none : Nat × Nat → Option K) p).map (- ·) := rfl
    rw [h1, key (fun (a : Nat × Nat → Option K) p => (a p).map (- ·)) (outBandFl A shape F b mean)
      (outBandFl A shape F' b fun p => - mean p) _ (fun j hj s => outBandFl_neg hA h hb mean s (List.mem_range.mp hj))] at hm'
    cases ho : (List.range n).foldlM (outBandFl A shape F b mean) (fun _ => none) with
    | error e => rw [ho] at hm; simp at hm
    | ok arr =>
      rw [ho] at hm hm'
      simp only [Except.map, pure, Except.pure, Except.ok.injEq] at hm hm'
      subst hm hm'
      refine ⟨rfl, ?_, ?_⟩
      · show (if acc.cnt (r, q) = 0 then none else some (A.fs (- acc.model (r, q) / (acc.cnt (r, q) : K)))) =
          (if acc.cnt (r, q) = 0 then none else some (A.fs (acc.model (r, q) / (acc.cnt (r, q) : K)))).map (- ·)
        split
        · rfl
        · rw [Option.map_some, neg_div, hA.single]
      · show (if acc.cnt (r, q) < 2 then none else ((acc.minval (r, q)).map (- ·)).bind fun a =>
            ((acc.maxval (r, q)).map (- ·)).map fun b => A.fs (a - b)) =
          if acc.cnt (r, q) < 2 then none else (acc.maxval (r, q)).bind fun a => (acc.minval (r, q)).map fun b => A.fs (a - b)
        split
        · rfl
        · cases acc.minval (r, q) with
          | none => cases acc.maxval (r, q) <;> rfl
          | some u =>
            cases acc.maxval (r, q) with
            | none => rfl
            | some v =>
              simp only [Option.map_some, Option.bind_some, Option.some.injEq]
              rw [show -u - -v = v - u by ring]

/-- The corrections and the rasters of a merged interferogram. -/
theorem mergedFl_band {A : FloatArith K} {nifgs : Nat} (hifgs : 1 ≤ nifgs) {tiles : TileSet} (htwo : 2 ≤ tiles.tiles.length)
    {files : Nat → Except PyErr (TileFile K)} {F : Nat → TileFile K} (hf : TileFilesOk nifgs tiles files F) {env : MergeEnv K}
    {bulk : BulkFile K} {settings : MergerSettings} (hmethod : settings.method = "dirichlet")
    (hbm : bulk.method = settings.bulkMethod) {omap : List (List Nat)}
    (h1 : overlapMap env.overlap.labels.length env.overlap.overlaps = .ok omap)
    (h2 : Ready tiles.tiles.length nifgs (imageShape tiles) F env.overlap omap bulk.offsets) {d : Nat}
    (hd : getMaxDegree ((List.range tiles.tiles.length).map fun j => TileState.start (F j)) (imageShape tiles) = .ok d)
    {isFile : Nat → Bool} {out : List (Nat × MergedBand K)}
    (hm : mergeTilesFl A env settings tiles files bulk nifgs isFile = .ok (.merged out)) {b : Nat} {m : MergedBand K} (hb : (b, m) ∈ out) :
    b < nifgs ∧ adjustOk env tiles.tiles.length F omap d ∧
      bandRasterFl A (imageShape tiles) tiles.tiles.length F b (finalCorrFl A env F omap d bulk.offsets b) = .ok m := by
  obtain ⟨k1, k2⟩ := mergeTilesFl_eq (A := A) hifgs htwo hf.read hmethod hbm h1 h2 hd isFile
  by_cases hc : adjustOk env tiles.tiles.length F omap d ∨ missing nifgs isFile = []
  · rw [k1 hc, Except.ok.injEq, MergeResult.merged.injEq] at hm
    subst hm
    obtain ⟨j', hj', e1⟩ := List.mem_map.mp hb
    simp only [Prod.mk.injEq] at e1
    obtain ⟨rfl, rfl⟩ := e1
    refine ⟨?_, hc.resolve_right (List.ne_nil_of_mem hj'), ?_⟩
    · unfold missing at hj'
      exact List.mem_range.mp (List.mem_filter.mp hj').1
    obtain ⟨y, hy⟩ := bandRasterFl_ok (A := A) h2.inside j' (finalCorrFl A env F omap d bulk.offsets j')
    rw [hy]
    unfold finalRasterFl
    rw [hy]
  · obtain ⟨er, he⟩ := k2 hc
    rw [he] at hm
    cases hm

end

end Spurt
