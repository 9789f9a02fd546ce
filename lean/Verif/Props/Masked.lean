import Verif.Props.Resume
import Verif.Props.EndResult

/-!
# Property C80: incoherent pixels have no influence
-/

namespace Spurt
open Spec

section
variable {K S : Type} [Field K] [LinearOrder K] [FloorRing K]

/-- Two stacks look the same above the coherence threshold: the same pixels of the image are coherent, the same dates have an
image, of the size of the coherence image, and the phases agree at the coherent pixels. -/
structure Spec.SameCoherent (j j' : TileJob K) : Prop where
  shape : j'.coh.rows = j.coh.rows ∧ j'.coh.cols = j.coh.cols
  valid : ∀ r c : Nat, r < j.coh.rows → c < j.coh.cols → (ValidPixel j' r c ↔ ValidPixel j r c)
  none : ∀ d, j'.phase d = none ↔ j.phase d = none
  size : ∀ d im, j.phase d = some im → im.rows = j.coh.rows ∧ im.cols = j.coh.cols
  size' : ∀ d im, j'.phase d = some im → im.rows = j.coh.rows ∧ im.cols = j.coh.cols
  phase : ∀ d im im', j.phase d = some im → j'.phase d = some im' → ∀ r c : Nat, r < j.coh.rows → c < j.coh.cols →
    ValidPixel j r c → im'.val r c = im.val r c

theorem pySlice_lt {n r : Nat} {a b : ℤ} (h : r ∈ pySlice n a b) : r < n := by
  simp only [pySlice, List.mem_range'_1] at h
  omega

theorem above_valid (j : TileJob K) (r c : Nat) : aboveThreshold j.thr (j.coh.val r c) = true ↔ ValidPixel j r c := by
  unfold ValidPixel aboveThreshold
  simp only [Int.toNat_natCast]
  cases j.coh.val r c <;> simp

theorem mask_same {j j' : TileJob K} (h : SameCoherent j j') (t : BBox) :
    ((j'.coh.window t).map fun r => r.map (aboveThreshold j'.thr)) = (j.coh.window t).map fun r => r.map (aboveThreshold j.thr) := by
  unfold Band.window
  rw [h.shape.1, h.shape.2]
  simp only [List.map_map]
  apply List.map_congr_left
  intro r hr
  simp only [Function.comp_apply, List.map_map]
  apply List.map_congr_left
  intro c hc
  simp only [Function.comp_apply]
  rw [Bool.eq_iff_iff, above_valid, above_valid]
  exact h.valid r c (pySlice_lt hr) (pySlice_lt hc)

theorem filterMap_zip_map {A V : Type} (l : List A) (f f' : A → V) (m : A → Bool) (h : ∀ a ∈ l, m a = true → f a = f' a) :
    (((l.map f).zip (l.map m)).filterMap fun p => if p.2 then some p.1 else none) =
      ((l.map f').zip (l.map m)).filterMap fun p => if p.2 then some p.1 else none := by
  induction l with
  | nil => rfl
  | cons a l ih =>
    have ih := ih fun a ha => h a (by simp [ha])
    have h0 := h a (by simp)
    by_cases hm : m a = true
    · simp [hm, ih, h0 hm]
    · simp [hm, ih]

theorem maskSelect_same {V : Type} (rows cols : List Nat) (f f' : Nat → Nat → V) (m : Nat → Nat → Bool)
    (h : ∀ r ∈ rows, ∀ c ∈ cols, m r c = true → f r c = f' r c) :
    maskSelect (rows.map fun r => cols.map fun c => f r c) (rows.map fun r => cols.map fun c => m r c) =
      maskSelect (rows.map fun r => cols.map fun c => f' r c) (rows.map fun r => cols.map fun c => m r c) := by
  unfold maskSelect
  congr 1
  induction rows with
  | nil => rfl
  | cons r rows ih =>
    simp only [List.map_cons, List.zipWith_cons_cons]
    rw [ih fun r hr => h r (by simp [hr]), filterMap_zip_map cols (f r) (f' r) (m r) (h r (by simp))]

theorem tilePoints_same {j j' : TileJob K} (h : SameCoherent j j') (t : BBox) :
    tilePoints j'.coh j'.thr t = tilePoints j.coh j.thr t := by
  unfold tilePoints
  rw [mask_same h t]

theorem readTile_same {j j' : TileJob K} (h : SameCoherent j j') (dates : List String) (t : BBox) :
    readTile j'.coh j'.thr dates j'.phase (0 : K) t = readTile j.coh j.thr dates j.phase (0 : K) t := by
  unfold readTile
  simp only [mask_same h t, Prod.mk.injEq, true_and]
  apply List.map_congr_left
  intro d _
  cases e : j.phase d with
  | none => rw [(h.none d).mpr e]
  | some im =>
    cases e' : j'.phase d with
    | none => rw [(h.none d).mp e'] at e; cases e
    | some im' =>
      simp only
      unfold Band.window
      rw [(h.size d im e).1, (h.size d im e).2, (h.size' d im' e').1, (h.size' d im' e').2]
      simp only [List.map_map, Function.comp_def]
      refine maskSelect_same _ _ _ _ (fun r c => aboveThreshold j.thr (j.coh.val r c)) fun r hr c hc hm => ?_
      exact h.phase d im im' e e' r c (pySlice_lt hr) (pySlice_lt hc) ((above_valid j r c).mp hm)

theorem unwrapOneTile_same (tau : K) (solver : FlowSolver) {j j' : TileJob K} (h : SameCoherent j j')
    (hrest : j' = { j with coh := j'.coh, thr := j'.thr, phase := j'.phase }) (tiles : TileSet) (t : Nat)
    (oT : Nat → List Nat → List Nat) (oS : List Nat → List Nat) :
    unwrapOneTile tau solver j' tiles t oT oS = unwrapOneTile tau solver j tiles t oT oS := by
  have e1 : j'.dates = j.dates := by rw [hrest]
  have e2 : j'.time = j.time := by rw [hrest]
  have e3 : j'.settings = j.settings := by rw [hrest]
  have e4 : j'.cpuCount = j.cpuCount := by rw [hrest]
  have e5 : j'.simplices = j.simplices := by rw [hrest]
  have e6 : j'.tDist = j.tDist := by rw [hrest]
  have e7 : j'.tCent = j.tCent := by rw [hrest]
  have e8 : j'.sDist = j.sDist := by rw [hrest]
  have e9 : j'.sCent = j.sCent := by rw [hrest]
  unfold unwrapOneTile
  simp only [e1, e2, e3, e4, e5, e6, e7, e8, e9, tilePoints_same h, readTile_same h]

/-- C80. Pixels below the coherence threshold have no influence: two calls that differ only in the phases of such pixels, in
the coherence values or in the threshold, so that the same pixels are coherent, have exactly the same runs, from whatever files
they start and however they end. -/
theorem C80_masked (P P' : Flow K S) (hsame : SameCoherent P.job P'.job)
    (hrest : P' = { P with job := { P.job with coh := P'.job.coh, thr := P'.job.thr, phase := P'.job.phase } })
    (d : Disk K) (o : Outcome) (d' : Disk K) :
    RunByWrite P'.stages d o d' ↔ RunByWrite P.stages d o d' := by
  have hj : P'.job = { P.job with coh := P'.job.coh, thr := P'.job.thr, phase := P'.job.phase } := by rw [hrest]
  suffices h : P'.stages = P.stages by rw [h]
  have hmask : P'.mask = P.mask := by
    unfold Flow.mask
    rw [hsame.shape.1, hsame.shape.2]
    exact mask_same hsame _
  have u1 : P'.tau = P.tau := by rw [hrest]
  have u2 : P'.sc = P.sc := by rw [hrest]
  have u3 : P'.fl = P.fl := by rw [hrest]
  have u4 : P'.useTiles = P.useTiles := by rw [hrest]
  have u5 : P'.tiler = P.tiler := by rw [hrest]
  have u6 : P'.solver = P.solver := by rw [hrest]
  have u7 : P'.cc = P.cc := by rw [hrest]
  have u8 : P'.mip = P.mip := by rw [hrest]
  have u9 : P'.lstsq = P.lstsq := by rw [hrest]
  have u10 : P'.merger = P.merger := by rw [hrest]
  have u11 : P'.lin = P.lin := by rw [hrest]
  have u12 : P'.simplices = P.simplices := by rw [hrest]
  have u13 : P'.job.settings = P.job.settings := by rw [hj]
  have u14 : P'.job.time = P.job.time := by rw [hj]
  have s1 : P'.tilesStage = P.tilesStage := by
    unfold Flow.tilesStage
    simp only [u2, u3, u4, u5, hsame.shape.2, hmask]
  have s2 : P'.unwrapStage = P.unwrapStage := by
    unfold Flow.unwrapStage
    simp only [u1, u6, u13, unwrapOneTile_same _ _ hsame hj]
  have s3 : P'.overlapStage = P.overlapStage := by
    unfold Flow.overlapStage
    simp only [u1, u7, u10]
  have s4 : P'.bulkStage = P.bulkStage := by
    unfold Flow.bulkStage bulkOffsets
    simp only [u8, u9, u10, tilePoints_same hsame]
  have s5 : P'.mergeStage = P.mergeStage := by
    unfold Flow.mergeStage Flow.mergeWork
    simp only [u1, u10, u11, u12, u14]
  unfold Flow.stages
  rw [s1, s2, s3, s4, s5]

end

end Spurt
