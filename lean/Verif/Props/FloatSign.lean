import Verif.Lemmas.FloatSignBulk
import Verif.Props.FloatWorkflowCongruent
import Verif.Props.Sign

/-!
# Property C88 in floating point: phases of the opposite sign unwrap to the result of the opposite sign, bit by bit
-/

namespace Spurt

/-- Two results of the merge with values of the opposite sign: the same interferograms are written; every unwrapped raster and every model
raster changes its sign, with the same pixels without value, and the spread rasters stay the same. -/
def Spec.OppositeResult {K : Type} [Field K] : MergeResult K → MergeResult K → Prop
  | .single l, .single l' => l'.map Prod.fst = l.map Prod.fst ∧
      ∀ i b b', (i, b) ∈ l → (i, b') ∈ l' → ∀ r q, b'.val r q = (b.val r q).map (- ·)
  | .merged l, .merged l' => l'.map Prod.fst = l.map Prod.fst ∧
      ∀ i m m', (i, m) ∈ l → (i, m') ∈ l' → ∀ r q, m'.out.val r q = (m.out.val r q).map (- ·) ∧
        m'.model.val r q = (m.model.val r q).map (- ·) ∧ m'.diff.val r q = m.diff.val r q
  | _, _ => False

open Spec

section
variable {K S : Type} [Field K] [LinearOrder K] [IsStrictOrderedRing K] [FloorRing K]

/-- C88 in floating point, for any rounding that treats both signs alike. One interferogram. Negate the wrapped phases and exchange the costs of the two directions: the call returns exactly
when it returned before, and the unwrapped phases and the flows are those of the opposite sign, bit by bit. -/
theorem C88_float_one (fl : K → K) (hfl : ∀ x, fl (-x) = - fl x) (tau tol : K) (solver : FlowSolver) (hs : SolverSound solver) (m : Mcf) (d : List K) (cost revcost : List ℤ)
    (unw : List K) (flows : List ℤ) :
    unwrapOneFl fl tau tol (mirrorSolver solver) m (d.map (- ·)) revcost (some cost) = .ok (unw.map (- ·), flows.map (- ·)) ↔
      unwrapOneFl fl tau tol solver m d cost (some revcost) = .ok (unw, flows) := by
  unfold unwrapOneFl
  rw [residuesFl_neg hfl]
  cases computeResiduesFl fl tau m d with
  | error e => simp [Bind.bind, Except.bind, Except.map]
  | ok res =>
    simp only [Bind.bind, Except.bind, Except.map, Option.getD_some]
    have key := flows_neg hs m res cost revcost
    cases h1 : residuesToFlows solver m res cost (some revcost) with
    | error e =>
      cases h2 : residuesToFlows (mirrorSolver solver) m (res.map (- ·)) revcost (some cost) with
      | error e' => simp
      | ok f =>
        have := key (f.map (- ·))
        rw [neg_neg_list] at this
        rw [this.mp h2] at h1
        cases h1
    | ok f =>
      rw [(key f).mpr h1]
      simp only [floodFillFl_neg hfl]
      cases floodFillFl fl tau tol d m.graph.links f "points" with
      | error e => simp [Except.map]
      | ok u =>
        simp only [Except.map, pure, Except.pure, Except.ok.injEq, Prod.mk.injEq]
        rw [neg_list_inj, neg_list_inj]

/-- C88 in mixed precision. A cube, of acquisitions or of interferograms. Negate all phases: the call returns exactly when it returned before,
whatever the schedules, and the unwrapped phases are those of the opposite sign. -/
theorem C88_float_cube (A : FloatArith K) (hA : OddRounding A) (solver : FlowSolver) (hs : SolverSound solver) (e : Emcf) (gt : PlanarGraph)
    (hc : PlanarContract gt.npoints gt.links gt.cycles) (hm : ormcf gt = .ok e.time) (hb : 0 < e.settings.linksPerBatch)
    (hlt : ∀ p q, (p, q) ∈ e.space.graph.links → p < q) (w : CubeInput K)
    (o o' : Nat → List Nat → List Nat) (ho : ∀ k l, (o k l).Perm l) (ho' : ∀ k l, (o' k l).Perm l)
    (p p' : List Nat → List Nat) (hp : ∀ l, (p l).Perm l) (hp' : ∀ l, (p' l).Perm l) (out : List (List K)) :
    unwrapCubeFl A (mirrorSolver solver) e { w with data := w.data.map fun r => r.map (- ·) } o' p' =
        .ok (out.map fun r => r.map (- ·)) ↔
      unwrapCubeFl A solver e w o p = .ok out := by
  have hkk : cubeKind e { w with data := w.data.map fun r => r.map (- ·) } = cubeKind e w := by
    unfold cubeKind; simp only [List.length_map]
  have hord : ∀ a b, (a, b) ∈ gt.links → a ≤ b := fun a b hab => (hc.ordered a b hab).1.le
  constructor
  · intro h
    have hpool := cubeFl_pool h
    unfold unwrapCubeFl at h ⊢
    rw [hkk] at h
    cases hk : cubeKind e w with
    | error x => rw [hk] at h; simp [Bind.bind, Except.bind] at h
    | ok kind =>
      rw [hk] at h
      simp only [Bind.bind, Except.bind] at h ⊢
      cases h2 : unwrapInTimeFl A (mirrorSolver solver) e (w.data.map fun r => r.map (- ·)) kind o' with
      | error x => rw [h2] at h; simp at h
      | ok g =>
        rw [h2] at h
        have := (inTimeFl_neg hA hs e hc.distinct hord hm hb w.data kind o o' ho ho' (g.map fun r => r.map (- ·))).mp
          (by rw [neg_neg_rows]; exact h2)
        rw [this]
        refine (inSpaceFl_neg hA hs e hlt hpool _ p p' hp hp' out).mp ?_
        rw [neg_neg_rows]
        exact h
  · intro h
    have hpool := cubeFl_pool h
    unfold unwrapCubeFl at h ⊢
    rw [hkk]
    cases hk : cubeKind e w with
    | error x => rw [hk] at h; simp [Bind.bind, Except.bind] at h
    | ok kind =>
      rw [hk] at h
      simp only [Bind.bind, Except.bind] at h ⊢
      cases h2 : unwrapInTimeFl A solver e w.data kind o with
      | error x => rw [h2] at h; simp at h
      | ok g =>
        rw [h2] at h
        rw [(inTimeFl_neg hA hs e hc.distinct hord hm hb w.data kind o o' ho ho' g).mpr h2]
        exact (inSpaceFl_neg hA hs e hlt hpool _ p p' hp hp' out).mpr h

/-- C88 in mixed precision. One tile. Negate the phase of every image: the tile file is written exactly when it was before, whatever the schedules, with
the same points and box and every phase of the opposite sign. -/
theorem C88_float_tile (A : FloatArith K) (hA : OddRounding A) (solver : FlowSolver) (hs : SolverSound solver) (j : TileJob K) (hj : GoodJob j) (tiles : TileSet) (t : Nat)
    (oT oT' : Nat → List Nat → List Nat) (oS oS' : List Nat → List Nat)
    (hT : ∀ k l, (oT k l).Perm l) (hT' : ∀ k l, (oT' k l).Perm l) (hS : ∀ l, (oS l).Perm l) (hS' : ∀ l, (oS' l).Perm l)
    (f : TileFile K) :
    unwrapOneTileFl A (mirrorSolver solver) (negJob j) tiles t oT' oS' =
        .ok ⟨f.uw.map fun r => r.map (- ·), f.points, f.tile, f.phaseOffset.map (- ·)⟩ ↔
      unwrapOneTileFl A solver j tiles t oT oS = .ok f := by
  unfold unwrapOneTileFl
  rw [show (negJob j).coh = j.coh from rfl, show (negJob j).thr = j.thr from rfl, show (negJob j).time = j.time from rfl,
    show (negJob j).simplices = j.simplices from rfl, show (negJob j).settings = j.settings from rfl,
    show (negJob j).cpuCount = j.cpuCount from rfl, show (negJob j).tDist = j.tDist from rfl, show (negJob j).tCent = j.tCent from rfl,
    show (negJob j).sDist = j.sDist from rfl, show (negJob j).sCent = j.sCent from rfl, show (negJob j).dates = j.dates from rfl,
    show (negJob j).phase = negImages j.phase from rfl]
  cases tiles.tiles[t]? with
  | none => simp [Bind.bind, Except.bind]
  | some b =>
    simp only [Option.elim_some, Bind.bind, Except.bind]
    cases e1 : ormcf j.time with
    | error er => simp
    | ok sTime =>
    simp only
    set pts := tilePoints j.coh j.thr b with hpts
    cases e2 : ormcf (delaunayGraph pts.length (j.simplices pts)) with
    | error er => simp
    | ok sSpace =>
    simp only
    rw [readTile_neg, phaseOffsetFl_neg hA]
    set data := (readTile j.coh j.thr j.dates j.phase (0 : K) b).2 with hdata
    have hh : ((data.map fun r => r.map (- ·)).headD []).length = (data.headD []).length := by cases data <;> simp
    rw [hh]
    split
    · simp
    · have hsg : sSpace.graph = delaunayGraph pts.length (j.simplices pts) := ormcf_graph e2
      set e : Emcf := ⟨sSpace, sTime, j.settings, j.cpuCount, j.tDist, j.tCent, j.sDist pts, j.sCent pts⟩ with he
      have key := C88_float_cube A hA solver hs e j.time hj.contract e1 hj.batch
        (by rw [he]; simp only; rw [hsg]; exact delaunay_links_lt (hj.triangles pts)) ⟨2, 0, data⟩ oT oT' hT hT' oS oS' hS hS'
      cases h2 : unwrapCubeFl A solver e ⟨2, 0, data⟩ oT oS with
      | error er =>
        cases h3 : unwrapCubeFl A (mirrorSolver solver) e ⟨2, 0, data.map fun r => r.map (- ·)⟩ oT' oS' with
        | error er' => simp
        | ok uw =>
          have := (key (uw.map fun r => r.map (- ·))).mp (by rw [neg_neg_rows]; exact h3)
          rw [h2] at this
          cases this
      | ok uw =>
        rw [show unwrapCubeFl A (mirrorSolver solver) e ⟨2, 0, data.map fun r => r.map (- ·)⟩ oT' oS' = _ from (key uw).mpr h2]
        simp only [pure, Except.pure, Except.ok.injEq]
        obtain ⟨fu, fp, ft, fo⟩ := f
        simp only [TileFile.mk.injEq]
        rw [neg_list_inj, (List.map_injective_iff.mpr (List.map_injective_iff.mpr neg_injective)).eq_iff]

theorem getD_neg_rows (l : List (List K)) (i : Nat) : (l.map fun r => r.map (- ·)).getD i [] = (l.getD i []).map (- ·) := by
  simp only [List.getD_eq_getElem?_getD, List.getElem?_map]
  cases l[i]? <;> simp

/-- C88 in mixed precision, merge. Negate the phases of the tile files and the bulk offsets: the merged interferogram and the model
raster change their sign at every pixel, and the spread raster stays the same, bit by bit. -/
theorem C88_float_merge (A : FloatArith K) (hA : OddRounding A) (atol rtol : K) (minPoints : ℤ) (cc : Nat → List (Nat × Nat) → List Nat)
    (nifgs : Nat) (hifgs : 1 ≤ nifgs) (tiles : TileSet) (htwo : 2 ≤ tiles.tiles.length) (himg : 0 < tiles.shape.1 ∧ 0 < tiles.shape.2)
    (files files' : Nat → Except PyErr (TileFile K)) (F F' : Nat → TileFile K)
    (hf : TileFilesOk nifgs tiles files F) (hf' : TileFilesOk nifgs tiles files' F')
    (env env' : MergeEnv K) (hlin : env'.lin = mirrorLin env.lin) (hsim : env'.simplices = env.simplices)
    (hover : phasediffDecilesFl A atol rtol id minPoints cc tiles files = .ok (some env.overlap))
    (hover' : phasediffDecilesFl A atol rtol id minPoints cc tiles files' = .ok (some env'.overlap))
    (hlab : env.overlap.labels.length = tiles.tiles.length) (bulk bulk' : BulkFile K)
    (hbulk : BulkOk nifgs tiles.tiles.length bulk) (hbulk' : BulkOk nifgs tiles.tiles.length bulk')
    (settings settings' : MergerSettings) (hmethod : settings.method = "dirichlet") (hmethod' : settings'.method = "dirichlet")
    (hbm : bulk.method = settings.bulkMethod) (hbm' : bulk'.method = settings'.bulkMethod)
    (hs : Opposite tiles.tiles.length nifgs F F')
    (hneg : bulk'.offsets = bulk.offsets.map fun r => r.map (- ·))
    (isFile isFile' : Nat → Bool) (out out' : List (Nat × MergedBand K))
    (hm : mergeTilesFl A env settings tiles files bulk nifgs isFile = .ok (.merged out))
    (hm' : mergeTilesFl A env' settings' tiles files' bulk' nifgs isFile' = .ok (.merged out'))
    (b : Nat) (m m' : MergedBand K) (hb : (b, m) ∈ out) (hb' : (b, m') ∈ out') (r q : Nat) :
    m'.out.val r q = (m.out.val r q).map (- ·) ∧ m'.model.val r q = (m.model.val r q).map (- ·) ∧
      m'.diff.val r q = m.diff.val r q := by
  obtain ⟨ho, hl⟩ := overlapsFl_points hf hf' hover hover' hs.points
  obtain ⟨omap, h1, h2, _, _⟩ := ready_float hifgs htwo hf hover hlab hbulk
  obtain ⟨omap', h1', h2', _, _⟩ := ready_float hifgs htwo hf' hover' (by rw [hl]; exact hlab) hbulk'
  have : omap' = omap := by
    rw [ho, hl, h1, Except.ok.injEq] at h1'
    exact h1'.symm
  subst this
  obtain ⟨d, hd⟩ := getMaxDegree_ok (shape := imageShape tiles) (n := tiles.tiles.length) (F := F) (by
    simp only [imageShape]
    omega) h2.inside
  have hd' : getMaxDegree ((List.range tiles.tiles.length).map fun j => TileState.start (F' j)) (imageShape tiles) = .ok d := by
    rw [getMaxDegree_points hs.points]; exact hd
  obtain ⟨hbn, hok, hras⟩ := mergedFl_band hifgs htwo hf hmethod hbm h1 h2 hd hm hb
  obtain ⟨_, _, hras'⟩ := mergedFl_band hifgs htwo hf' hmethod' hbm' h1' h2' hd' hm' hb'
  refine rasterFl_neg hA hs hbn ?_ hras hras' r q
  unfold finalCorrFl
  refine bandAdjustFl_neg hA (by rw [hlin]; exact mirrorLin_opposite _) hsim hs hbn ?_ h2.map.lt d hok
  intro i hi p hp
  simp only [bulkAt]
  rw [hneg, getD_neg_rows, getD_neg, mul_neg, hA.double, hA.single]

/-- C88 in mixed precision, overlap statistics and bulk offsets. Negate the phases of the tile files: the same overlaps are recorded, and
either method gives the bulk offsets of the opposite sign, with the same residuals, bit by bit. -/
theorem C88_float_bulk {C : Type} [LinearOrder C] (A : FloatArith K) (hA : OddRounding A) (atol rtol : K) (hc : CheckSees A atol rtol)
    (minPoints : ℤ) (cc : Nat → List (Nat × Nat) → List Nat) (nifgs : Nat) (tiles : TileSet) (htwo : 2 ≤ tiles.tiles.length)
    (files files' : Nat → Except PyErr (TileFile K)) (F F' : Nat → TileFile K)
    (olap olap' : OverlapFile) (hf : TileFilesOk nifgs tiles files F) (hf' : TileFilesOk nifgs tiles files' F')
    (h : phasediffDecilesFl A atol rtol id minPoints cc tiles files = .ok (some olap))
    (h' : phasediffDecilesFl A atol rtol id minPoints cc tiles files' = .ok (some olap'))
    (hs : Opposite tiles.tiles.length nifgs F F') (mip : MipSolver) (lstsq : Lstsq K) (method : String)
    (coh : Band (Option C)) (thr : C) (bulk bulk' : BulkFile K)
    (hbulk : bulkOffsetsFl A.fd mip lstsq method tiles coh thr olap = .ok (some bulk))
    (hbulk' : bulkOffsetsFl A.fd (mirrorMip mip) (mirrorLstsq lstsq) method tiles coh thr olap' = .ok (some bulk')) :
    olap'.overlaps = olap.overlaps ∧ olap'.labels = olap.labels ∧ bulk'.residuals = bulk.residuals ∧
    bulk'.offsets = bulk.offsets.map fun r => r.map (- ·) := by
  have hn1 : tiles.tiles.length ≠ 1 := by omega
  obtain ⟨e1, e2⟩ := overlapsFl_points hf hf' h h' hs.points
  have med : ∀ {mip lstsq o b}, bulkOffsetsFl A.fd mip lstsq method tiles coh thr o = .ok (some b) → ∃ med, medianOffsets o = .ok med := by
    intro mip lstsq o b hb
    unfold bulkOffsetsFl at hb
    rw [if_neg hn1] at hb
    obtain ⟨m, hm, _⟩ := except_bind_ok hb
    exact ⟨m, hm⟩
  obtain ⟨m, hm⟩ := med hbulk
  obtain ⟨m', hm'⟩ := med hbulk'
  have hmed := medianFl_neg hA hc hn1 hf hf' hs h h' hm hm'
  rw [bulkOffsetsFl_neg hA.double mip lstsq method tiles coh thr e1 e2 (by rw [hm, hm', hmed]; rfl), hbulk] at hbulk'
  simp only [Except.map, Option.map_some, Except.ok.injEq, Option.some.injEq] at hbulk'
  subst hbulk'
  exact ⟨e1, e2, rfl, rfl⟩

/-- The files written by workers that return are well formed, whatever the roundings are. -/
theorem tileFilesOk_of_unwrapFl {A : FloatArith K} {solver : FlowSolver} {j : TileJob K} (hj : GoodJob j) {tiles : TileSet}
    (hshape : tiles.shape = ((j.coh.rows : ℤ), (j.coh.cols : ℤ))) (hin : ∀ b ∈ tiles.tiles, TileInImage (j.coh.rows, j.coh.cols) b)
    {oT : Nat → Nat → List Nat → List Nat} {oS : Nat → List Nat → List Nat} (hoS : ∀ t l, (oS t l).Perm l)
    {files : Nat → Except PyErr (TileFile K)} {F : Nat → TileFile K} (hread : ∀ t < tiles.tiles.length, files t = .ok (F t))
    (hfiles : ∀ t < tiles.tiles.length, unwrapOneTileFl A solver j tiles t (oT t) (oS t) = .ok (F t)) :
    TileFilesOk j.time.links.length tiles files F := by
  have hbox : ∀ t (h : t < tiles.tiles.length), tiles.tiles[t]? = some tiles.tiles[t] := fun t h => by simp
  have hrows : ∀ t < tiles.tiles.length, (F t).uw.length = j.time.links.length ∧ (F t).phaseOffset.length = j.time.links.length ∧
      ∀ row ∈ (F t).uw, row.length = (F t).points.length := by
    intro t ht
    obtain ⟨time, space, h1, h2, h3, h4, h5, h6⟩ := tileFl_inv (hbox t ht) (hfiles t ht)
    have hpool := cubeFl_pool h3
    unfold unwrapCubeFl at h3
    obtain ⟨isIfg, _, h3⟩ := except_bind_ok h3
    obtain ⟨g, _, h3⟩ := except_bind_ok h3
    have hsp : space.graph = tileGraph j tiles.tiles[t] := ormcf_graph h2
    have hlt : ∀ a b, (a, b) ∈ (tileEmcf j tiles.tiles[t] time space).space.graph.links → a < b := by
      show ∀ a b, (a, b) ∈ space.graph.links → a < b
      rw [hsp]
      exact delaunay_links_lt (hj.triangles _)
    cases hcost : costOf (tileEmcf j tiles.tiles[t] time space).settings.sCostType (tileEmcf j tiles.tiles[t] time space).nlinks
        (tileEmcf j tiles.tiles[t] time space).sDist (tileEmcf j tiles.tiles[t] time space).sCent with
    | error er => unfold unwrapInSpaceFl at h3; rw [hcost] at h3; simp [Bind.bind, Except.bind] at h3
    | ok cost =>
    obtain ⟨k1, k2⟩ := (rowsFl A solver _ hlt cost hcost hpool g (oS t) (hoS t) (F t).uw).mp h3
    have hnt : (tileEmcf j tiles.tiles[t] time space).time.graph = j.time := ormcf_graph h1
    rw [hnt] at k1 k2
    refine ⟨k1, by rw [h6]; simp [phaseOffsetFl], ?_⟩
    intro row hrow
    obtain ⟨i, hi, rfl⟩ := List.mem_iff_getElem.mp hrow
    have := (k2 i (by rw [← k1]; exact hi)).2
    rw [List.getD_eq_getElem _ _ hi] at this
    rw [this, h4]
    show space.graph.npoints = _
    rw [hsp]
    simp [tileGraph, delaunayGraph]
  refine ⟨hread, ?_, ?_, ?_, ?_, ?_⟩
  · intro t b hb
    obtain ⟨_, _, _, _, _, _, h5, _⟩ := tileFl_inv hb (hfiles t (List.getElem?_eq_some_iff.mp hb).1)
    exact h5
  · intro t ht
    obtain ⟨_, _, _, _, _, h4, _, _⟩ := tileFl_inv (hbox t ht) (hfiles t ht)
    rw [h4]
    exact (tile_read hj (hin _ (List.getElem_mem ht))).2.2.2.1.map fun p q hpq => by
      simp only [Prod.mk.injEq, Nat.cast_inj] at hpq
      exact Prod.ext hpq.1 hpq.2
  · rintro t ht ⟨r, c⟩ hp
    obtain ⟨_, _, _, _, _, h4, h5, _⟩ := tileFl_inv (hbox t ht) (hfiles t ht)
    have hpix : filePoints (F t) = tilePixels j tiles.tiles[t] := by
      unfold filePoints tilePixels
      rw [h4, h5]
      simp
    rw [hpix] at hp
    have h1 := (((tile_read hj (hin _ (List.getElem_mem ht))).2.2.2.2.1 r c).mp hp).1
    have h2 := hin _ (List.getElem_mem ht)
    rw [hshape]
    unfold TileInImage at h2
    unfold InTile at h1
    simp only at h2 ⊢
    omega
  · exact fun t ht => ⟨(hrows t ht).1, (hrows t ht).2.1⟩
  · exact fun t ht => (hrows t ht).2.2

/-- C88 in mixed precision, for any roundings that treat both signs alike. The workflow, with any number of tiles and either bulk
method. Negate the phase of every image. Between two completed runs, whatever the schedules, every unwrapped raster changes its sign
and has the same pixels without value; so does the model raster, and the spread raster stays the same, bit by bit. -/
theorem C88_float_workflow (A : FloatArith K) (hA : OddRounding A) (atol rtol : K) (hc : CheckSees A atol rtol)
    (P : Flow K S) (hP : GoodFlow P) (himg : 0 < P.job.coh.rows ∧ 0 < P.job.coh.cols)
    (hifgs : P.job.time.links ≠ []) (hset : P.merger.check = .ok ())
    (oT oT' : Nat → Nat → List Nat → List Nat) (oS oS' : Nat → List Nat → List Nat)
    (hoT : ∀ t k l, (oT t k l).Perm l) (hoT' : ∀ t k l, (oT' t k l).Perm l)
    (hoS : ∀ t l, (oS t l).Perm l) (hoS' : ∀ t l, (oS' t l).Perm l) (T T' : TileSet) (r r' : MergeResult K)
    (h : workflowFl A atol rtol P oT oS = .ok (T, r)) (h' : workflowFl A atol rtol (negFlow P) oT' oS' = .ok (T', r')) :
    T' = T ∧ OppositeResult r r' := by
  have hP' : GoodFlow (negFlow P) := negFlow_good hP
  obtain ⟨hT, _, F, hF, files, hread, olap, bulk, h4, h5, h6⟩ := workflowFl_inv h
  obtain ⟨hT', _, F', hF', files', hread', olap', bulk', h4', h5', h6'⟩ := workflowFl_inv h'
  obtain rfl : T' = T := by
    have : makeTiles P.sc P.fl P.useTiles P.tiler P.job.coh.cols P.mask = .ok T' := hT'
    rw [hT] at this
    simpa using this.symm
  refine ⟨rfl, ?_⟩
  obtain ⟨hshape, hpos, hin⟩ := flow_tiles hP hT
  have hifgs1 : 1 ≤ P.job.time.links.length := List.length_pos_iff.mpr hifgs
  have hm : P.merger.method = "dirichlet" := by
    unfold MergerSettings.check at hset
    split at hset
    · simp at hset
    split at hset
    · simp at hset
    rename_i h2
    exact not_not.mp h2
  have hf := tileFilesOk_of_unwrapFl hP.job hshape hin hoS hread hF
  have hf' : TileFilesOk P.job.time.links.length T' files' F' := tileFilesOk_of_unwrapFl hP'.job hshape hin hoS' hread' hF'
  have hFF : ∀ t < T'.tiles.length, F' t = ⟨(F t).uw.map fun r => r.map (- ·), (F t).points, (F t).tile, (F t).phaseOffset.map (- ·)⟩ := by
    intro t ht
    have x1 : unwrapOneTileFl A (mirrorSolver P.solver) (negJob P.job) T' t (oT' t) (oS' t) = .ok (F' t) := hF' t ht
    rw [(C88_float_tile A hA P.solver hP.solver P.job hP.job T' t (oT t) (oT' t) (oS t) (oS' t) (hoT t) (hoT' t) (hoS t) (hoS' t)
      (F t)).mpr (hF t ht)] at x1
    exact (Except.ok.inj x1).symm
  have hphase : ∀ t < T'.tiles.length, ∀ b p, filePhase (F' t) b p = - filePhase (F t) b p := by
    intro t ht b p
    unfold filePhase
    rw [hFF t ht]
    simp only
    rw [getD_neg_rows, getD_neg, getD_neg]
    ring
  have hpe : ∀ t < T'.tiles.length, filePoints (F' t) = filePoints (F t) := by
    intro t ht
    unfold filePoints
    rw [hFF t ht]
  have hs : Opposite T'.tiles.length P.job.time.links.length F F' := ⟨hpe, fun b _ t ht p _ => hphase t ht b p⟩
  change mergeTilesFl A ⟨mirrorLin P.lin, P.simplices, olap'.getD ⟨[], [], []⟩⟩ P.merger T' files'
    (bulk'.getD ⟨P.merger.bulkMethod, [], []⟩) P.job.time.links.length (fun _ => false) = .ok r' at h6'
  by_cases hn : T'.tiles.length = 1
  · obtain ⟨B, e1, e2⟩ := C70_single A ⟨P.lin, P.simplices, olap.getD ⟨[], [], []⟩⟩ P.merger hm P.job.time.links.length T' hn files F hf
      (bulk.getD ⟨P.merger.bulkMethod, [], []⟩) (fun _ => false)
    obtain ⟨B', e1', e2'⟩ := C70_single A ⟨mirrorLin P.lin, P.simplices, olap'.getD ⟨[], [], []⟩⟩ P.merger hm P.job.time.links.length
      T' hn files' F' hf' (bulk'.getD ⟨P.merger.bulkMethod, [], []⟩) (fun _ => false)
    rw [e1, Except.ok.injEq] at h6
    rw [e1', Except.ok.injEq] at h6'
    subst h6 h6'
    refine ⟨by simp [Function.comp_def], ?_⟩
    intro i b b' hib hib' r q
    simp only [List.mem_map, List.mem_filter, Bool.not_false, and_true, Prod.mk.injEq] at hib hib'
    obtain ⟨i0, hi0, rfl, rfl⟩ := hib
    obtain ⟨i1, hi1, rfl, rfl⟩ := hib'
    obtain ⟨_, _, g3⟩ := e2 i1
    obtain ⟨_, _, g3'⟩ := e2' i1
    by_cases hmem : ((r : ℤ), (q : ℤ)) ∈ filePoints (F 0)
    · obtain ⟨p, hp⟩ := List.mem_iff_getElem?.mp hmem
      rw [(g3 r q).1 p hp, (g3' r q).1 p (by rw [hpe 0 (by omega)]; exact hp), Option.map_some, hphase 0 (by omega), hA.single]
    · rw [(g3 r q).2 hmem, (g3' r q).2 (by rw [hpe 0 (by omega)]; exact hmem)]
      rfl
  · have htwo : 2 ≤ T'.tiles.length := by omega
    have hol : ∀ {fs o}, phasediffDecilesFl A atol rtol id P.merger.minOverlapPoints P.cc T' fs = .ok o → ∃ ol, o = some ol := by
      intro fs o ho
      cases o with
      | some ol => exact ⟨ol, rfl⟩
      | none =>
        unfold phasediffDecilesFl at ho
        rw [if_neg hn] at ho
        obtain ⟨s, _, ho⟩ := except_bind_ok ho
        simp [pure, Except.pure] at ho
    obtain ⟨ol, rfl⟩ := hol h4
    obtain ⟨ol', rfl⟩ := hol h4'
    obtain ⟨bk, rfl⟩ : ∃ bk, bulk = some bk := by
      cases bulk with
      | some bk => exact ⟨bk, rfl⟩
      | none => exact absurd h5 (bulk_some hn)
    obtain ⟨bk', rfl⟩ : ∃ bk, bulk' = some bk := by
      cases bulk' with
      | some bk => exact ⟨bk, rfl⟩
      | none => exact absurd h5' (bulk_some hn)
    simp only [Option.getD_some] at h5 h6 h5' h6'
    have hlab : ol.labels.length = T'.tiles.length := by rw [(overlapFl_rows hf h4).1, hP.labels]
    have hlab' : ol'.labels.length = T'.tiles.length := by rw [(overlapFl_rows hf' h4').1]; exact hP'.labels _ _
    obtain ⟨hbm, hbulk⟩ := bulkFl_shape hP.mip hn hlab (fun med hmed => medianFl_rows hf h4 hmed) h5
    obtain ⟨hbm', hbulk'⟩ := bulkFl_shape hP'.mip hn hlab' (fun med hmed => medianFl_rows hf' h4' hmed) h5'
    have himg' : 0 < T'.shape.1 ∧ 0 < T'.shape.2 := by rw [hshape]; simp only; omega
    obtain ⟨_, _, _, hbk⟩ := C88_float_bulk A hA atol rtol hc P.merger.minOverlapPoints P.cc P.job.time.links.length T' htwo files files' F F'
      ol ol' hf hf' h4 h4' hs P.mip P.lstsq P.merger.bulkMethod P.job.coh P.job.thr bk bk' h5 h5'
    have names : ∀ {env fs bk nifgs res}, mergeTilesFl A env P.merger T' fs bk nifgs (fun _ => false) = .ok res →
        ∀ {G : Nat → TileFile K}, 1 ≤ nifgs → TileFilesOk nifgs T' fs G →
        phasediffDecilesFl A atol rtol id P.merger.minOverlapPoints P.cc T' fs = .ok (some env.overlap) →
        env.overlap.labels.length = T'.tiles.length → BulkOk nifgs T'.tiles.length bk → bk.method = P.merger.bulkMethod →
        ∃ l, res = .merged l ∧ l.map Prod.fst = List.range nifgs := by
      intro env fs bk nifgs res hres G q1 q2 q3 q4 q5 q6
      obtain ⟨omap, h1, h2, _⟩ := ready_float q1 htwo q2 q3 q4 q5
      obtain ⟨d, hd⟩ := getMaxDegree_ok (shape := imageShape T') (n := T'.tiles.length) (F := G) (by
        simp only [imageShape]
        omega) h2.inside
      obtain ⟨k1, k2⟩ := mergeTilesFl_eq (A := A) (env := env) q1 htwo q2.read hm q6 h1 h2 hd (fun _ => false)
      by_cases hc : adjustOk env T'.tiles.length G omap d ∨ missing nifgs (fun _ => false) = []
      · rw [k1 hc, Except.ok.injEq] at hres
        exact ⟨_, hres.symm, by simp [missing, Function.comp_def]⟩
      · obtain ⟨e, he⟩ := k2 hc
        rw [he] at hres
        simp at hres
    obtain ⟨l, rfl, hl⟩ := names h6 hifgs1 hf h4 hlab hbulk hbm
    obtain ⟨l', rfl, hl'⟩ := names h6' hifgs1 hf' h4' hlab' hbulk' hbm'
    refine ⟨by rw [hl, hl'], fun i m m' hi hi' r q => ?_⟩
    exact C88_float_merge A hA atol rtol P.merger.minOverlapPoints P.cc P.job.time.links.length hifgs1 T' htwo himg' files files' F F' hf hf'
      ⟨P.lin, P.simplices, ol⟩ ⟨mirrorLin P.lin, P.simplices, ol'⟩ rfl rfl h4 h4' hlab bk bk' hbulk hbulk' P.merger P.merger hm hm hbm hbm'
      hs hbk _ _ l l' h6 h6' i m m' hi hi' r q

end
end Spurt
