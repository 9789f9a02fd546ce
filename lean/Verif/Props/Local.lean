import Verif.Props.Masked

/-!
# Property C82: the file of a tile depends only on the data inside the tile
-/

namespace Spurt
open Spec

section
variable {K S : Type} [Field K] [LinearOrder K] [FloorRing K]

/-- Two stacks of the same size look the same inside a tile: the same pixels of the tile are coherent, the same dates have an image,
of the size of the coherence image, and the phases agree at the coherent pixels of the tile. -/
structure Spec.SameInTile (b : BBox) (j j' : TileJob K) : Prop where
  shape : j'.coh.rows = j.coh.rows ∧ j'.coh.cols = j.coh.cols
  valid : ∀ r c : Nat, b.xmin ≤ r → (r : ℤ) < b.xmax → b.ymin ≤ c → (c : ℤ) < b.ymax → (ValidPixel j' r c ↔ ValidPixel j r c)
  none : ∀ d, j'.phase d = none ↔ j.phase d = none
  size : ∀ d im, j.phase d = some im → im.rows = j.coh.rows ∧ im.cols = j.coh.cols
  size' : ∀ d im, j'.phase d = some im → im.rows = j.coh.rows ∧ im.cols = j.coh.cols
  phase : ∀ d im im', j.phase d = some im → j'.phase d = some im' → ∀ r c : Nat,
    b.xmin ≤ r → (r : ℤ) < b.xmax → b.ymin ≤ c → (c : ℤ) < b.ymax → ValidPixel j r c → im'.val r c = im.val r c

theorem pySlice_inside {n r : Nat} {a b : ℤ} (h0 : 0 ≤ a) (hab : a ≤ b) (h : r ∈ pySlice n a b) : a ≤ r ∧ (r : ℤ) < b := by
  simp only [pySlice, List.mem_range'_1] at h
  omega

theorem mask_inTile {j j' : TileJob K} {t : BBox} (h : SameInTile t j j') {sh : ℤ × ℤ} (hin : TileInImage sh t) :
    ((j'.coh.window t).map fun r => r.map (aboveThreshold j'.thr)) = (j.coh.window t).map fun r => r.map (aboveThreshold j.thr) := by
  unfold Band.window
  rw [h.shape.1, h.shape.2]
  simp only [List.map_map]
  apply List.map_congr_left
  intro r hr
  simp only [Function.comp_apply, List.map_map]
  apply List.map_congr_left
  intro c hc
  simp only [Function.comp_apply]
  rw [Bool.eq_iff_iff, above_valid, above_valid]
  obtain ⟨a1, a2⟩ := pySlice_inside hin.1 hin.2.1 hr
  obtain ⟨a3, a4⟩ := pySlice_inside hin.2.2.2.1 hin.2.2.2.2.1 hc
  exact h.valid r c a1 a2 a3 a4

theorem readTile_inTile {j j' : TileJob K} {t : BBox} (h : SameInTile t j j') {sh : ℤ × ℤ} (hin : TileInImage sh t)
    (dates : List String) :
    readTile j'.coh j'.thr dates j'.phase (0 : K) t = readTile j.coh j.thr dates j.phase (0 : K) t := by
  unfold readTile
  simp only [mask_inTile h hin, Prod.mk.injEq, true_and]
  apply List.map_congr_left
  intro d _
  cases e : j.phase d with
  | none => rw [(h.none d).mpr e]
  | some im =>
    cases e' : j'.phase d with
    | none => rw [(h.none d).mp e'] at e; cases e
    | some im' =>
      simp only
      unfold Band.window
      rw [(h.size d im e).1, (h.size d im e).2, (h.size' d im' e').1, (h.size' d im' e').2]
      simp only [List.map_map, Function.comp_def]
      refine maskSelect_same _ _ _ _ (fun r c => aboveThreshold j.thr (j.coh.val r c)) fun r hr c hc hm => ?_
      obtain ⟨a1, a2⟩ := pySlice_inside hin.1 hin.2.1 hr
      obtain ⟨a3, a4⟩ := pySlice_inside hin.2.2.2.1 hin.2.2.2.2.1 hc
      exact h.phase d im im' e e' r c a1 a2 a3 a4 ((above_valid j r c).mp hm)

/-- C82. A tile is unwrapped from the pixels inside it: two stacks that look the same there give the same file, or the same
exception, whatever they hold elsewhere. -/
theorem C82_tile (tau : K) (solver : FlowSolver) (j j' : TileJob K) (tiles : TileSet) (t : Nat) (b : BBox)
    (hb : tiles.tiles[t]? = some b) (hin : TileInImage (j.coh.rows, j.coh.cols) b) (hsame : SameInTile b j j')
    (hrest : j' = { j with coh := j'.coh, thr := j'.thr, phase := j'.phase })
    (oT : Nat → List Nat → List Nat) (oS : List Nat → List Nat) :
    unwrapOneTile tau solver j' tiles t oT oS = unwrapOneTile tau solver j tiles t oT oS := by
  have e1 : j'.dates = j.dates := by rw [hrest]
  have e2 : j'.time = j.time := by rw [hrest]
  have e3 : j'.settings = j.settings := by rw [hrest]
  have e4 : j'.cpuCount = j.cpuCount := by rw [hrest]
  have e5 : j'.simplices = j.simplices := by rw [hrest]
  have e6 : j'.tDist = j.tDist := by rw [hrest]
  have e7 : j'.tCent = j.tCent := by rw [hrest]
  have e8 : j'.sDist = j.sDist := by rw [hrest]
  have e9 : j'.sCent = j.sCent := by rw [hrest]
  have hp : tilePoints j'.coh j'.thr b = tilePoints j.coh j.thr b := by
    unfold tilePoints
    rw [mask_inTile hsame hin]
  unfold unwrapOneTile
  simp only [hb, Option.elim_some, Bind.bind, Except.bind]
  simp only [e1, e2, e3, e4, e5, e6, e7, e8, e9, hp, readTile_inTile hsame hin]

end

section
variable {K S : Type} [Field K] [LinearOrder K] [FloorRing K] [IsStrictOrderedRing K]

/-- C82. The whole workflow: two completed runs with the same tiles, on stacks that look the same inside tile `t`, leave the same
file of tile `t`. -/
theorem C82_workflow (P P' : Flow K S) (hP : GoodFlow P)
    (hrest : P' = { P with job := { P.job with coh := P'.job.coh, thr := P'.job.thr, phase := P'.job.phase } })
    (d1 d1' : Disk K) (h1 : RunByWrite P.stages Disk.empty .completed d1)
    (h1' : RunByWrite P'.stages Disk.empty .completed d1') (htiles : d1'.tiles = d1.tiles)
    (T : TileSet) (hT : d1.readTiles = .ok T) (t : Nat) (b : BBox) (hb : T.tiles[t]? = some b)
    (hsame : SameInTile b P.job P'.job) :
    d1'.tile t = d1.tile t ∧ ∃ f, d1.tile t = some f := by
  have hj : P'.job = { P.job with coh := P'.job.coh, thr := P'.job.thr, phase := P'.job.phase } := by rw [hrest]
  have u1 : P'.tau = P.tau := by rw [hrest]
  have u6 : P'.solver = P.solver := by rw [hrest]
  have hP' : GoodFlow P' := by
    refine ⟨⟨?_, ?_, ?_, ?_, ?_⟩, ?_, ?_, ?_, ?_, ?_⟩
    · rw [hj]; exact hP.job.contract
    · rw [hj]; exact hP.job.dates
    · rw [hj]; exact hP.job.batch
    · intro d im h
      rw [hsame.shape.1, hsame.shape.2]
      exact hsame.size' d im h
    · rw [hj]; exact hP.job.triangles
    · rw [u6]; exact hP.solver
    · rw [hrest]; exact hP.tiler
    · obtain ⟨B, a1, a2, a3⟩ := hP.size
      refine ⟨B, ?_, ?_, ?_⟩
      · rw [hrest]; exact a1
      · rw [hsame.shape.1]; exact a2
      · rw [hsame.shape.2]; exact a3
    · rw [hrest]; exact hP.labels
    · rw [hrest]; exact hP.mip
  obtain ⟨T1, F1, r1⟩ := ref_of_run hP h1
  obtain ⟨T2, F2, r2⟩ := ref_of_run hP' h1'
  have hT1 : T1 = T := by
    unfold Disk.readTiles at hT
    rw [r1.tiles1] at hT
    simpa [C29_json] using hT
  have hT2 : T2 = T := by
    unfold Disk.readTiles at hT
    rw [← htiles, r2.tiles1] at hT
    simpa [C29_json] using hT
  subst hT1
  have hin := (flow_tiles hP r1.tiles).2.2 b (List.mem_of_getElem? hb)
  have hlt : t < T1.tiles.length := (List.getElem?_eq_some_iff.mp hb).1
  obtain ⟨oT, oS, p1, p2, w1⟩ := r1.work
  obtain ⟨oT', oS', p1', p2', w2⟩ := r2.work
  rw [hT2] at w2
  have a1 := w1 t hlt
  have a2 := w2 t hlt
  rw [u1, u6, C82_tile P.tau P.solver P.job P'.job T1 t b hb hin hsame hj] at a2
  rw [unwrapOneTile_schedule hP.job (p1' t) (p1 t) (p2' t) (p2 t) a2, Except.ok.injEq] at a1
  have c1 := r1.tile1 t
  have c2 := r2.tile1 t
  rw [hT2, if_pos hlt] at c2
  rw [if_pos hlt] at c1
  rw [c1, c2, a1]
  exact ⟨rfl, _, rfl⟩

end

end Spurt
