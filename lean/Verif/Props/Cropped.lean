import Verif.Props.Local
import Verif.Props.Reference

/-!
# Property C93: a tile is unwrapped the same wherever it lies, and like a crop of the image
-/

namespace Spurt
open Spec

section
variable {K S : Type} [Field K] [LinearOrder K] [FloorRing K]

/-- Box `b'` of the stack `j'` holds what box `b` of the stack `j` holds: it has the same size; counted from the first corner of each
box, the same pixels are coherent; the same dates have an image, of the size of its coherence image; and the phases agree at the
coherent pixels. -/
structure Spec.SameContent (j j' : TileJob K) (b b' : BBox) : Prop where
  rows : b'.xmax - b'.xmin = b.xmax - b.xmin
  cols : b'.ymax - b'.ymin = b.ymax - b.ymin
  valid : ∀ r c : ℤ, 0 ≤ r → r < b.xmax - b.xmin → 0 ≤ c → c < b.ymax - b.ymin →
    (ValidPixel j' (b'.xmin + r) (b'.ymin + c) ↔ ValidPixel j (b.xmin + r) (b.ymin + c))
  none : ∀ d, j'.phase d = none ↔ j.phase d = none
  size : ∀ d im, j.phase d = some im → im.rows = j.coh.rows ∧ im.cols = j.coh.cols
  size' : ∀ d im, j'.phase d = some im → im.rows = j'.coh.rows ∧ im.cols = j'.coh.cols
  phase : ∀ d im im', j.phase d = some im → j'.phase d = some im' → ∀ r c : ℤ,
    0 ≤ r → r < b.xmax - b.xmin → 0 ≤ c → c < b.ymax - b.ymin → ValidPixel j (b.xmin + r) (b.ymin + c) →
      im'.val (b'.xmin + r).toNat (b'.ymin + c).toNat = im.val (b.xmin + r).toNat (b.ymin + c).toNat

theorem pySlice_shift {n : Nat} {a b : ℤ} (h0 : 0 ≤ a) (hab : a ≤ b) (hb : b ≤ n) :
    pySlice n a b = (List.range (b - a).toNat).map fun r => a.toNat + r := by
  unfold pySlice
  simp only
  rw [if_neg (by omega), if_neg (by omega), List.range'_eq_map_range]
  have h1 : min (max a 0) (n : ℤ) = a := by omega
  have h2 : min (max b 0) (n : ℤ) = b := by omega
  rw [h1, h2]
  congr 2
  omega

theorem window_shift {V : Type} (im : Band V) {t : BBox} (h : TileInImage (im.rows, im.cols) t) :
    im.window t = (List.range (t.xmax - t.xmin).toNat).map fun r => (List.range (t.ymax - t.ymin).toNat).map fun c =>
      im.val (t.xmin.toNat + r) (t.ymin.toNat + c) := by
  obtain ⟨a1, a2, a3, a4, a5, a6⟩ := h
  unfold Band.window
  rw [pySlice_shift a1 (by omega) a3, pySlice_shift a4 (by omega) a6]
  simp only [List.map_map, Function.comp_def]

theorem mask_content {j j' : TileJob K} {b b' : BBox} (h : SameContent j j' b b') (hin : TileInImage (j.coh.rows, j.coh.cols) b)
    (hin' : TileInImage (j'.coh.rows, j'.coh.cols) b') :
    ((j'.coh.window b').map fun r => r.map (aboveThreshold j'.thr)) = (j.coh.window b).map fun r => r.map (aboveThreshold j.thr) := by
  rw [window_shift _ hin, window_shift _ hin', h.rows, h.cols]
  simp only [List.map_map]
  apply List.map_congr_left
  intro r hr
  simp only [Function.comp_apply, List.map_map]
  apply List.map_congr_left
  intro c hc
  simp only [Function.comp_apply]
  rw [Bool.eq_iff_iff, above_valid, above_valid]
  rw [List.mem_range] at hr hc
  have := h.valid r c (by omega) (by omega) (by omega) (by omega)
  rw [show (((b'.xmin.toNat + r : ℕ) : ℤ)) = b'.xmin + r by have := hin'.1; omega,
    show (((b'.ymin.toNat + c : ℕ) : ℤ)) = b'.ymin + c by have := hin'.2.2.2.1; omega,
    show (((b.xmin.toNat + r : ℕ) : ℤ)) = b.xmin + r by have := hin.1; omega,
    show (((b.ymin.toNat + c : ℕ) : ℤ)) = b.ymin + c by have := hin.2.2.2.1; omega]
  exact this

theorem readTile_content {j j' : TileJob K} {b b' : BBox} (h : SameContent j j' b b') (hin : TileInImage (j.coh.rows, j.coh.cols) b)
    (hin' : TileInImage (j'.coh.rows, j'.coh.cols) b') (dates : List String) :
    readTile j'.coh j'.thr dates j'.phase (0 : K) b' = readTile j.coh j.thr dates j.phase (0 : K) b := by
  unfold readTile
  simp only [mask_content h hin hin', Prod.mk.injEq, true_and]
  apply List.map_congr_left
  intro d _
  cases e : j.phase d with
  | none => rw [(h.none d).mpr e]
  | some im =>
    cases e' : j'.phase d with
    | none => rw [(h.none d).mp e'] at e; cases e
    | some im' =>
      simp only
      obtain ⟨s1, s2⟩ := h.size d im e
      obtain ⟨s3, s4⟩ := h.size' d im' e'
      rw [window_shift im (by rw [s1, s2]; exact hin), window_shift im' (by rw [s3, s4]; exact hin'), window_shift j.coh hin, h.rows, h.cols]
      simp only [List.map_map, Function.comp_def]
      refine maskSelect_same _ _ _ _ (fun r c => aboveThreshold j.thr (j.coh.val (b.xmin.toNat + r) (b.ymin.toNat + c))) fun r hr c hc hm => ?_
      rw [List.mem_range] at hr hc
      have x1 := hin.1
      have x2 := hin.2.2.2.1
      have x3 := hin'.1
      have x4 := hin'.2.2.2.1
      have := h.phase d im im' e e' r c (by omega) (by omega) (by omega) (by omega) (by
        have := (above_valid j _ _).mp hm
        rw [show (((b.xmin.toNat + r : ℕ) : ℤ)) = b.xmin + r by omega, show (((b.ymin.toNat + c : ℕ) : ℤ)) = b.ymin + c by omega] at this
        exact this)
      rw [show (b'.xmin + (r : ℤ)).toNat = b'.xmin.toNat + r by omega, show (b'.ymin + (c : ℤ)).toNat = b'.ymin.toNat + c by omega,
        show (b.xmin + (r : ℤ)).toNat = b.xmin.toNat + r by omega, show (b.ymin + (c : ℤ)).toNat = b.ymin.toNat + c by omega] at this
      exact this

/-- C93. A tile is unwrapped the same wherever it lies and whatever surrounds it: two boxes with the same content give the same
file except for the recorded box, or the same exception. -/
theorem C93_tile (tau : K) (solver : FlowSolver) (j j' : TileJob K) (tiles tiles' : TileSet) (t t' : Nat) (b b' : BBox)
    (hb : tiles.tiles[t]? = some b) (hb' : tiles'.tiles[t']? = some b')
    (hin : TileInImage (j.coh.rows, j.coh.cols) b) (hin' : TileInImage (j'.coh.rows, j'.coh.cols) b')
    (hsame : SameContent j j' b b') (hrest : j' = { j with coh := j'.coh, thr := j'.thr, phase := j'.phase })
    (oT : Nat → List Nat → List Nat) (oS : List Nat → List Nat) :
    unwrapOneTile tau solver j' tiles' t' oT oS =
      (unwrapOneTile tau solver j tiles t oT oS).map fun f => ⟨f.uw, f.points, b', f.phaseOffset⟩ := by
  have e1 : j'.dates = j.dates := by rw [hrest]
  have e2 : j'.time = j.time := by rw [hrest]
  have e3 : j'.settings = j.settings := by rw [hrest]
  have e4 : j'.cpuCount = j.cpuCount := by rw [hrest]
  have e5 : j'.simplices = j.simplices := by rw [hrest]
  have e6 : j'.tDist = j.tDist := by rw [hrest]
  have e7 : j'.tCent = j.tCent := by rw [hrest]
  have e8 : j'.sDist = j.sDist := by rw [hrest]
  have e9 : j'.sCent = j.sCent := by rw [hrest]
  have hp : tilePoints j'.coh j'.thr b' = tilePoints j.coh j.thr b := by
    unfold tilePoints
    rw [mask_content hsame hin hin']
  unfold unwrapOneTile
  simp only [hb, hb', Option.elim_some, Bind.bind, Except.bind]
  simp only [e1, e2, e3, e4, e5, e6, e7, e8, e9, hp, readTile_content hsame hin hin']
  cases ormcf j.time with
  | error e => rfl
  | ok sT =>
  simp only
  cases ormcf (delaunayGraph (tilePoints j.coh j.thr b).length (j.simplices (tilePoints j.coh j.thr b))) with
  | error e => rfl
  | ok sS =>
  simp only
  split
  · rfl
  · cases unwrapCube tau solver ⟨sS, sT, j.settings, j.cpuCount, j.tDist, j.tCent, j.sDist (tilePoints j.coh j.thr b),
      j.sCent (tilePoints j.coh j.thr b)⟩ ⟨2, 0, (readTile j.coh j.thr j.dates j.phase (0 : K) b).2⟩ oT oS with
    | error e => rfl
    | ok uw => rfl

end

section
variable {K S : Type} [Field K] [LinearOrder K] [FloorRing K] [IsStrictOrderedRing K]

/-- C93. The whole workflow. Crop the stack to the box of one tile of a completed run and run the workflow on the crop without
tiles: it completes, and in every completed run the raster of an interferogram holds the phases stored for that tile, and no value
elsewhere. -/
theorem C93_crop (P : Flow K S) (hP : GoodFlow P) (htau : 0 < P.tau)
    (d1 : Disk K) (h1 : RunByWrite P.stages Disk.empty .completed d1)
    (T : TileSet) (hT : d1.readTiles = .ok T) (t : Nat) (b : BBox) (hb : T.tiles[t]? = some b)
    (j' : TileJob K) (hrest : j' = { P.job with coh := j'.coh, thr := j'.thr, phase := j'.phase })
    (hrows : (j'.coh.rows : ℤ) = b.xmax - b.xmin) (hcols : (j'.coh.cols : ℤ) = b.ymax - b.ymin)
    (himg : 0 < j'.coh.rows ∧ 0 < j'.coh.cols)
    (hsame : SameContent P.job j' b ⟨0, 0, j'.coh.rows, j'.coh.cols⟩) :
    (∃ d1', RunByWrite ({ P with job := j', useTiles := false } : Flow K S).stages Disk.empty .completed d1') ∧
    ∃ f, d1.tile t = some (TileH5.full f) ∧
      ∀ d1', RunByWrite ({ P with job := j', useTiles := false } : Flow K S).stages Disk.empty .completed d1' →
        ∀ i < P.job.time.links.length, ∃ x, d1'.unw i = some (some x) ∧ x.rows = j'.coh.rows ∧ x.cols = j'.coh.cols ∧
          ∀ r q : Nat, r < x.rows → q < x.cols →
            (ValidPixel P.job (b.xmin + r) (b.ymin + q) → ∃ p : Nat, (filePoints f)[p]? = some (b.xmin + (r : ℤ), b.ymin + (q : ℤ)) ∧
              x.val r q = some (filePhase f i p)) ∧
            (¬ ValidPixel P.job (b.xmin + r) (b.ymin + q) → x.val r q = none) := by
  have e2 : j'.time = P.job.time := by rw [hrest]
  have e3 : j'.settings = P.job.settings := by rw [hrest]
  set P' : Flow K S := { P with job := j', useTiles := false } with hP'd
  obtain ⟨T0, F, hR⟩ := ref_of_run hP h1
  obtain rfl : T0 = T := by
    have := hR.readTiles
    rw [hT] at this
    simpa using this.symm
  obtain ⟨hshape, hpos, hin⟩ := flow_tiles hP hR.tiles
  have hinb := hin b (List.mem_of_getElem? hb)
  have ht : t < T0.tiles.length := (List.getElem?_eq_some_iff.mp hb).1
  obtain ⟨y1, y2, y3, y4, y5, y6⟩ := hinb
  simp only at y3 y6
  have hinb := hin b (List.mem_of_getElem? hb)
  have hin' : TileInImage ((j'.coh.rows : ℤ), (j'.coh.cols : ℤ)) (⟨0, 0, j'.coh.rows, j'.coh.cols⟩ : BBox) := by
    refine ⟨?_, ?_, ?_, ?_, ?_, ?_⟩ <;> simp only <;> omega
  have hj' : GoodJob j' := by
    refine ⟨?_, ?_, ?_, ?_, ?_⟩
    · rw [hrest]; exact hP.job.contract
    · rw [hrest]; exact hP.job.dates
    · rw [hrest]; exact hP.job.batch
    · exact hsame.size'
    · rw [hrest]; exact hP.job.triangles
  have hP' : GoodFlow P' := by
    refine ⟨hj', hP.solver, hP.tiler, ?_, hP.labels, hP.mip⟩
    obtain ⟨B, a1, a2, a3⟩ := hP.size
    exact ⟨B, a1, by show (j'.coh.rows : ℤ) ≤ B; omega, by show (j'.coh.cols : ℤ) ≤ B; omega⟩
  have hTof : ∀ T', makeTiles P'.sc P'.fl P'.useTiles P'.tiler P'.job.coh.cols P'.mask = .ok T' →
      T' = singleTile (j'.coh.rows, j'.coh.cols) := by
    intro T' hT'
    unfold makeTiles at hT'
    rw [(mask_shape P').1] at hT'
    simpa [hP'd, singleTile, pure, Except.pure, Bind.bind, Except.bind] using hT'.symm
  obtain ⟨oT, oS, hoT, hoS, hF⟩ := hR.work
  have hu : unwrapOneTile P.tau P.solver j' (singleTile (j'.coh.rows, j'.coh.cols)) 0 (oT t) (oS t) =
      .ok ⟨(F t).uw, (F t).points, ⟨0, 0, j'.coh.rows, j'.coh.cols⟩, (F t).phaseOffset⟩ := by
    rw [C93_tile P.tau P.solver P.job j' T0 (singleTile (j'.coh.rows, j'.coh.cols)) t 0 b _ hb rfl hinb hin' hsame hrest, hF t ht]
    rfl
  have hpool : 1 ≤ P.job.settings.numParallelTiles := by
    have := hR.pool
    unfold processPool at this
    split at this
    · cases this
    · omega
  refine ⟨?_, F t, by rw [hR.tile1, if_pos ht], fun d1' h1' i hi => ?_⟩
  · exact C49_single_tile P' hP' rfl (by show 1 ≤ j'.settings.numParallelTiles; rw [e3]; exact hpool) hR.method (oT t) (oS t)
      (hoT t) (hoS t) _ hu
  · obtain ⟨T', F', hR'⟩ := ref_of_run hP' h1'
    obtain rfl := hTof T' hR'.tiles
    set T' := singleTile ((j'.coh.rows : ℤ), (j'.coh.cols : ℤ)) with hTd
    have hn : T'.tiles.length = 1 := rfl
    obtain ⟨oT', oS', hoT', hoS', hF'⟩ := hR'.work
    have hff : F' 0 = ⟨(F t).uw, (F t).points, ⟨0, 0, j'.coh.rows, j'.coh.cols⟩, (F t).phaseOffset⟩ := by
      have x1 : unwrapOneTile P.tau P.solver j' T' 0 (oT' 0) (oS' 0) = .ok (F' 0) := hF' 0 (by omega)
      rw [unwrapOneTile_schedule (tau := P.tau) (solver := P.solver) hj' (hoT t) (hoT' 0) (hoS t) (hoS' 0) hu, Except.ok.injEq] at x1
      exact x1.symm
    obtain ⟨x, hx, hv⟩ := single_raster hP' hR' hn i (by show i < j'.time.links.length; rw [e2]; exact hi)
    obtain ⟨c, hc, hcr, hcc, hcp⟩ := C61_result P' hP' htau himg d1' h1' i (P.job.time.links[i]).1 (P.job.time.links[i]).2 (by
      show j'.time.links[i]? = _; rw [e2, List.getElem?_eq_getElem hi])
    rw [hx, Option.some.injEq, Option.some.injEq] at hc
    subst hc
    refine ⟨x, hx, hcr, hcc, fun r q hr hq => ?_⟩
    have hr' : r < j'.coh.rows := by rw [hcr] at hr; exact hr
    have hq' : q < j'.coh.cols := by rw [hcc] at hq; exact hq
    have hval := hsame.valid r q (by omega) (by omega) (by omega) (by omega)
    simp only [zero_add] at hval
    refine ⟨fun hvp => ?_, fun hvp => (hcp r q hr' hq').2 fun h => hvp (hval.mp h)⟩
    have hmem : (b.xmin + (r : ℤ), b.ymin + (q : ℤ)) ∈ filePoints (F t) := by
      have := (C55_tile_file P.tau P.solver hP.solver P.job hP.job T0 t b hb hinb _ _ (hoT t) (hoS t) (F t) (hF t ht))
      have h3 := this.2.2.1 (b.xmin + (r : ℤ)) (b.ymin + (q : ℤ))
      rw [filePoints_box this.1] at h3
      exact h3.mpr ⟨by unfold InTile; omega, hvp⟩
    obtain ⟨p, hp, hpe⟩ := List.mem_iff_getElem.mp hmem
    refine ⟨p, by rw [List.getElem?_eq_getElem hp, hpe], ?_⟩
    have hbox : (F t).tile = b :=
      (C55_tile_file P.tau P.solver hP.solver P.job hP.job T0 t b hb hinb _ _ (hoT t) (hoS t) (F t) (hF t ht)).1
    have hp' : (filePoints (F' 0))[p]? = some ((r : ℤ), (q : ℤ)) := by
      rw [hff]
      have h4 : (filePoints (F t))[p]? = some (b.xmin + (r : ℤ), b.ymin + (q : ℤ)) := by rw [List.getElem?_eq_getElem hp, hpe]
      unfold filePoints at h4 ⊢
      rw [hbox] at h4
      rw [List.getElem?_map] at h4 ⊢
      simp only [Option.map_eq_some_iff] at h4 ⊢
      obtain ⟨⟨a, c⟩, g1, g2⟩ := h4
      refine ⟨(a, c), g1, ?_⟩
      simp only [Prod.mk.injEq] at g2 ⊢
      omega
    rw [hv r q p hp', hff]
    rfl

/-- The stack cut out by a box. -/
def Spec.cropTo (j : TileJob K) (b : BBox) : TileJob K := { j with
  coh := ⟨(b.xmax - b.xmin).toNat, (b.ymax - b.ymin).toNat, fun r c => j.coh.val (b.xmin.toNat + r) (b.ymin.toNat + c)⟩
  phase := fun d => (j.phase d).map fun im =>
    ⟨(b.xmax - b.xmin).toNat, (b.ymax - b.ymin).toNat, fun r c => im.val (b.xmin.toNat + r) (b.ymin.toNat + c)⟩ }

omit [FloorRing K] [IsStrictOrderedRing K] in
theorem cropTo_content {j : TileJob K} {b : BBox} (hin : TileInImage (j.coh.rows, j.coh.cols) b)
    (himg : ∀ d im, j.phase d = some im → im.rows = j.coh.rows ∧ im.cols = j.coh.cols) :
    SameContent j (cropTo j b) b ⟨0, 0, (cropTo j b).coh.rows, (cropTo j b).coh.cols⟩ := by
  obtain ⟨a1, a2, a3, a4, a5, a6⟩ := hin
  have e : ∀ r : ℤ, 0 ≤ r → (0 + r).toNat = r.toNat := fun r _ => by rw [zero_add]
  refine ⟨?_, ?_, ?_, ?_, himg, ?_, ?_⟩
  · simp only [cropTo]; omega
  · simp only [cropTo]; omega
  · intro r c h1 _ h3 _
    unfold ValidPixel
    simp only [cropTo]
    rw [e r h1, e c h3, show (b.xmin + r).toNat = b.xmin.toNat + r.toNat by omega,
      show (b.ymin + c).toNat = b.ymin.toNat + c.toNat by omega]
  · intro d
    simp [cropTo]
  · intro d im h
    simp only [cropTo, Option.map_eq_some_iff] at h
    obtain ⟨im0, _, rfl⟩ := h
    exact ⟨rfl, rfl⟩
  · intro d im im' h h' r c h1 _ h3 _ _
    simp only [cropTo, h, Option.map_some, Option.some.injEq] at h'
    subst h'
    simp only
    rw [e r h1, e c h3, show (b.xmin + r).toNat = b.xmin.toNat + r.toNat by omega,
      show (b.ymin + c).toNat = b.ymin.toNat + c.toNat by omega]

end

end Spurt
