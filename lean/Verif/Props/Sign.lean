import Verif.Lemmas.SignBulk
import Verif.Props.BandAlone

/-!
# Property C88: phases of the opposite sign unwrap to the result of the opposite sign
-/

namespace Spurt

/-- The images with every phase of the opposite sign; a missing image (the reference date, phase 0) stays missing. -/
def Spec.negImages {K : Type} [Field K] (phase : String → Option (Band K)) : String → Option (Band K) := fun d =>
  (phase d).map fun im => ⟨im.rows, im.cols, fun r c => - im.val r c⟩

/-- The job with every phase of the opposite sign. -/
def Spec.negJob {K : Type} [Field K] (j : TileJob K) : TileJob K := { j with phase := Spec.negImages j.phase }

/-- The workflow over the phases of the opposite sign, with the mirrored external libraries. -/
def Spec.negFlow {K S : Type} [Field K] (P : Flow K S) : Flow K S :=
  { P with job := Spec.negJob P.job, solver := Spec.mirrorSolver P.solver, mip := Spec.mirrorMip P.mip,
           lstsq := Spec.mirrorLstsq P.lstsq, lin := Spec.mirrorLin P.lin }

open Spec

section
variable {K S : Type} [Field K] [LinearOrder K] [IsStrictOrderedRing K] [FloorRing K]

theorem neg_list_inj {R : Type} [Ring R] {a b : List R} : a.map (- ·) = b.map (- ·) ↔ a = b :=
  (List.map_injective_iff.mpr neg_injective).eq_iff

/-- C88. One interferogram. Negate the wrapped phases and exchange the costs of the two directions: the call returns exactly
when it returned before, and the unwrapped phases and the flows are those of the opposite sign. -/
theorem C88_one (tau : K) (solver : FlowSolver) (hs : SolverSound solver) (m : Mcf) (d : List K) (cost revcost : List ℤ)
    (unw : List K) (flows : List ℤ) :
    unwrapOne tau (mirrorSolver solver) m (d.map (- ·)) revcost (some cost) = .ok (unw.map (- ·), flows.map (- ·)) ↔
      unwrapOne tau solver m d cost (some revcost) = .ok (unw, flows) := by
  unfold unwrapOne
  rw [residues_neg]
  cases computeResidues tau m d with
  | error e => simp [Bind.bind, Except.bind, Except.map]
  | ok res =>
    simp only [Bind.bind, Except.bind, Except.map, Option.getD_some]
    have key := flows_neg hs m res cost revcost
    cases h1 : residuesToFlows solver m res cost (some revcost) with
    | error e =>
      cases h2 : residuesToFlows (mirrorSolver solver) m (res.map (- ·)) revcost (some cost) with
      | error e' => simp
      | ok f =>
        have := key (f.map (- ·))
        rw [neg_neg_list] at this
        rw [this.mp h2] at h1
        cases h1
    | ok f =>
      rw [(key f).mpr h1]
      simp only [floodFill_neg]
      cases floodFill tau d m.graph.links f "points" with
      | error e => simp [Except.map]
      | ok u =>
        simp only [Except.map, pure, Except.pure, Except.ok.injEq, Prod.mk.injEq]
        rw [neg_list_inj, neg_list_inj]

theorem linkTime_neg (tau : K) {solver : FlowSolver} (hs : SolverSound solver) (e : Emcf) (wrap : List (List K)) (isIfg : Bool)
    (cost : List ℤ) (j : Nat) (f : List ℤ) :
    linkTime tau (mirrorSolver solver) e (wrap.map fun r => r.map (- ·)) isIfg cost j = .ok (f.map (- ·)) ↔
      linkTime tau solver e wrap isIfg cost j = .ok f := by
  unfold linkTime
  rw [linkResidues_neg tau e.time (fun i => spaceGrad tau e wrap isIfg i j) _ fun i => spaceGrad_neg tau e wrap isIfg i j]
  exact flows_neg hs e.time _ cost cost f

theorem linkInput_neg (e : Emcf) (wrap : List (List K)) (isIfg : Bool) (j : Nat) :
    LinkInput e (wrap.map fun r => r.map (- ·)) isIfg j ↔ LinkInput e wrap isIfg j := by
  unfold LinkInput
  rw [List.length_map, show ((wrap.map fun r => r.map (- ·)).headD []).length = (wrap.headD []).length by cases wrap <;> simp]

theorem inTime_neg (tau : K) {solver : FlowSolver} (hs : SolverSound solver) (e : Emcf) {gt : PlanarGraph}
    (hnd : gt.links.Nodup) (hord : ∀ a b, (a, b) ∈ gt.links → a ≤ b) (hm : ormcf gt = .ok e.time)
    (hb : 0 < e.settings.linksPerBatch) (data : List (List K)) (kind : Bool)
    (o o' : Nat → List Nat → List Nat) (ho : ∀ k l, (o k l).Perm l) (ho' : ∀ k l, (o' k l).Perm l) (out : List (List K)) :
    unwrapInTime tau (mirrorSolver solver) e (data.map fun r => r.map (- ·)) kind o' = .ok (out.map fun r => r.map (- ·)) ↔
      unwrapInTime tau solver e data kind o = .ok out := by
  have hmg := ormcf_graph hm
  cases hcost : costOf e.settings.tCostType e.nifgs e.tDist e.tCent with
  | error err =>
    unfold unwrapInTime
    rw [hcost]
    simp [Bind.bind, Except.bind]
  | ok cost =>
    rw [inTime_iff tau _ e hnd hord hm hmg _ kind cost hcost o' ho' hb, inTime_iff tau _ e hnd hord hm hmg _ kind cost hcost o ho hb]
    have hval : ∀ j, linkTime tau solver e data kind cost j = .ok (okVal (linkTime tau solver e data kind cost j)) →
        linkTime tau (mirrorSolver solver) e (data.map fun r => r.map (- ·)) kind cost j =
          .ok ((okVal (linkTime tau solver e data kind cost j)).map (- ·)) := fun j h => (linkTime_neg tau hs e data kind cost j _).mpr h
    have hdef : ∀ j, (linkTime tau (mirrorSolver solver) e (data.map fun r => r.map (- ·)) kind cost j =
          .ok (okVal (linkTime tau (mirrorSolver solver) e (data.map fun r => r.map (- ·)) kind cost j))) ↔
        linkTime tau solver e data kind cost j = .ok (okVal (linkTime tau solver e data kind cost j)) := by
      intro j
      constructor
      · intro h
        have := (linkTime_neg tau hs e data kind cost j
          ((okVal (linkTime tau (mirrorSolver solver) e (data.map fun r => r.map (- ·)) kind cost j)).map (- ·))).mp
          (by rw [neg_neg_list]; exact h)
        rw [this]
        rfl
      · intro h
        rw [hval j h]
        rfl
    have hiff : (∀ j < e.nlinks, LinkInput e (data.map fun r => r.map (- ·)) kind j ∧
        linkTime tau (mirrorSolver solver) e (data.map fun r => r.map (- ·)) kind cost j =
          .ok (okVal (linkTime tau (mirrorSolver solver) e (data.map fun r => r.map (- ·)) kind cost j))) ↔
        ∀ j < e.nlinks, LinkInput e data kind j ∧
          linkTime tau solver e data kind cost j = .ok (okVal (linkTime tau solver e data kind cost j)) := by
      simp only [linkInput_neg, hdef]
    rw [hiff]
    refine and_congr_right fun h => ?_
    have : ((List.range e.nifgs).map fun i => (List.range e.nlinks).map fun j =>
        spaceGrad tau e (data.map fun r => r.map (- ·)) kind i j + tau * (((okVal (linkTime tau (mirrorSolver solver) e
          (data.map fun r => r.map (- ·)) kind cost j)).getD i 0 : ℤ) : K)) =
        ((List.range e.nifgs).map fun i => (List.range e.nlinks).map fun j => spaceGrad tau e data kind i j +
          tau * (((okVal (linkTime tau solver e data kind cost j)).getD i 0 : ℤ) : K)).map fun r => r.map (- ·) := by
      rw [List.map_map]
      apply List.map_congr_left
      intro i _
      simp only [Function.comp, List.map_map]
      apply List.map_congr_left
      intro j hj
      have e1 := hval j (h j (List.mem_range.mp hj)).2
      rw [e1, spaceGrad_neg]
      simp only [Function.comp, okVal]
      rw [getD_negZ]
      push_cast
      ring
    rw [this]
    exact (List.map_injective_iff.mpr (List.map_injective_iff.mpr neg_injective)).eq_iff

theorem inSpace_neg (tau : K) {solver : FlowSolver} (hs : SolverSound solver) (e : Emcf)
    (hlt : ∀ a b, (a, b) ∈ e.space.graph.links → a < b) (hpool : 1 ≤ e.settings.sWorkerCount ∨ 2 ≤ e.cpuCount)
    (grad : List (List K)) (o o' : List Nat → List Nat) (ho : ∀ l, (o l).Perm l) (ho' : ∀ l, (o' l).Perm l) (out : List (List K)) :
    unwrapInSpace tau (mirrorSolver solver) e (grad.map fun r => r.map (- ·)) o' = .ok (out.map fun r => r.map (- ·)) ↔
      unwrapInSpace tau solver e grad o = .ok out := by
  cases hcost : costOf e.settings.sCostType e.nlinks e.sDist e.sCent with
  | error err =>
    unfold unwrapInSpace
    rw [hcost]
    simp [Bind.bind, Except.bind]
  | ok cost =>
    rw [C23_rows tau _ e hlt cost hcost hpool _ o' ho', C23_rows tau _ e hlt cost hcost hpool _ o ho, List.length_map]
    have hg : ∀ (l : List (List K)) i, (l.map fun r => r.map (- ·)).getD i [] = (l.getD i []).map (- ·) := by
      intro l i
      simp only [List.getD_eq_getElem?_getD, List.getElem?_map]
      cases l[i]? <;> simp
    simp only [hg, List.length_map, unwrapIfg_neg tau hs]

/-- C88. A cube, of acquisitions or of interferograms. Negate all phases: the call returns exactly when it returned before,
whatever the schedules, and the unwrapped phases are those of the opposite sign. -/
theorem C88_cube (tau : K) (solver : FlowSolver) (hs : SolverSound solver) (e : Emcf) (gt : PlanarGraph)
    (hc : PlanarContract gt.npoints gt.links gt.cycles) (hm : ormcf gt = .ok e.time) (hb : 0 < e.settings.linksPerBatch)
    (hlt : ∀ p q, (p, q) ∈ e.space.graph.links → p < q) (w : CubeInput K)
    (o o' : Nat → List Nat → List Nat) (ho : ∀ k l, (o k l).Perm l) (ho' : ∀ k l, (o' k l).Perm l)
    (p p' : List Nat → List Nat) (hp : ∀ l, (p l).Perm l) (hp' : ∀ l, (p' l).Perm l) (out : List (List K)) :
    unwrapCube tau (mirrorSolver solver) e { w with data := w.data.map fun r => r.map (- ·) } o' p' =
        .ok (out.map fun r => r.map (- ·)) ↔
      unwrapCube tau solver e w o p = .ok out := by
  have hkk : cubeKind e { w with data := w.data.map fun r => r.map (- ·) } = cubeKind e w := by
    unfold cubeKind; simp only [List.length_map]
  have hord : ∀ a b, (a, b) ∈ gt.links → a ≤ b := fun a b hab => (hc.ordered a b hab).1.le
  constructor
  · intro h
    have hpool := cube_pool h
    unfold unwrapCube at h ⊢
    rw [hkk] at h
    cases hk : cubeKind e w with
    | error x => rw [hk] at h; simp [Bind.bind, Except.bind] at h
    | ok kind =>
      rw [hk] at h
      simp only [Bind.bind, Except.bind] at h ⊢
      cases h2 : unwrapInTime tau (mirrorSolver solver) e (w.data.map fun r => r.map (- ·)) kind o' with
      | error x => rw [h2] at h; simp at h
      | ok g =>
        rw [h2] at h
        have := (inTime_neg tau hs e hc.distinct hord hm hb w.data kind o o' ho ho' (g.map fun r => r.map (- ·))).mp
          (by rw [neg_neg_rows]; exact h2)
        rw [this]
        refine (inSpace_neg tau hs e hlt hpool _ p p' hp hp' out).mp ?_
        rw [neg_neg_rows]
        exact h
  · intro h
    have hpool := cube_pool h
    unfold unwrapCube at h ⊢
    rw [hkk]
    cases hk : cubeKind e w with
    | error x => rw [hk] at h; simp [Bind.bind, Except.bind] at h
    | ok kind =>
      rw [hk] at h
      simp only [Bind.bind, Except.bind] at h ⊢
      cases h2 : unwrapInTime tau solver e w.data kind o with
      | error x => rw [h2] at h; simp at h
      | ok g =>
        rw [h2] at h
        rw [(inTime_neg tau hs e hc.distinct hord hm hb w.data kind o o' ho ho' g).mpr h2]
        exact (inSpace_neg tau hs e hlt hpool _ p p' hp hp' out).mpr h

omit [LinearOrder K] [IsStrictOrderedRing K] [FloorRing K] in
theorem maskSelect_neg (a : List (List K)) (m : List (List Bool)) :
    maskSelect (a.map fun r => r.map (- ·)) m = (maskSelect a m).map (- ·) := by
  unfold maskSelect
  rw [List.map_flatten, List.zipWith_map_left, List.map_zipWith]
  congr 2
  funext ra rm
  induction ra generalizing rm with
  | nil => rfl
  | cons x ra ih =>
    cases rm with
    | nil => rfl
    | cons y rm =>
      simp only [List.map_cons, List.zip_cons_cons, List.filterMap_cons]
      cases y with
      | true => simp only [if_true, List.map_cons]; rw [ih]
      | false => simp only [Bool.false_eq_true, if_false]; exact ih rm

omit [IsStrictOrderedRing K] [FloorRing K] in
theorem readTile_neg (j : TileJob K) (b : BBox) :
    (readTile j.coh j.thr j.dates (negImages j.phase) (0 : K) b).2 =
      (readTile j.coh j.thr j.dates j.phase (0 : K) b).2.map fun r => r.map (- ·) := by
  unfold readTile
  simp only [List.map_map]
  apply List.map_congr_left
  intro d _
  simp only [Function.comp, negImages]
  cases j.phase d with
  | none => simp
  | some im =>
    simp only [Option.map_some]
    rw [← maskSelect_neg]
    congr 1
    unfold Band.window
    simp

theorem phaseOffset_neg (tau : K) (g : PlanarGraph) (data : List (List K)) :
    phaseOffset tau g (data.map fun r => r.map (- ·)) = (phaseOffset tau g data).map (- ·) := by
  unfold phaseOffset
  rw [List.map_map]
  apply List.map_congr_left
  intro t _
  simp only [Function.comp, elem_neg, phaseDiff_neg]

/-- C88. One tile. Negate the phase of every image: the tile file is written exactly when it was before, whatever the schedules, with
the same points and box and every phase of the opposite sign. -/
theorem C88_tile (tau : K) (solver : FlowSolver) (hs : SolverSound solver) (j : TileJob K) (hj : GoodJob j) (tiles : TileSet) (t : Nat)
    (oT oT' : Nat → List Nat → List Nat) (oS oS' : List Nat → List Nat)
    (hT : ∀ k l, (oT k l).Perm l) (hT' : ∀ k l, (oT' k l).Perm l) (hS : ∀ l, (oS l).Perm l) (hS' : ∀ l, (oS' l).Perm l)
    (f : TileFile K) :
    unwrapOneTile tau (mirrorSolver solver) (negJob j) tiles t oT' oS' =
        .ok ⟨f.uw.map fun r => r.map (- ·), f.points, f.tile, f.phaseOffset.map (- ·)⟩ ↔
      unwrapOneTile tau solver j tiles t oT oS = .ok f := by
  unfold unwrapOneTile
  rw [show (negJob j).coh = j.coh from rfl, show (negJob j).thr = j.thr from rfl, show (negJob j).time = j.time from rfl,
    show (negJob j).simplices = j.simplices from rfl, show (negJob j).settings = j.settings from rfl,
    show (negJob j).cpuCount = j.cpuCount from rfl, show (negJob j).tDist = j.tDist from rfl, show (negJob j).tCent = j.tCent from rfl,
    show (negJob j).sDist = j.sDist from rfl, show (negJob j).sCent = j.sCent from rfl, show (negJob j).dates = j.dates from rfl,
    show (negJob j).phase = negImages j.phase from rfl]
  cases tiles.tiles[t]? with
  | none => simp [Bind.bind, Except.bind]
  | some b =>
    simp only [Option.elim_some, Bind.bind, Except.bind]
    cases e1 : ormcf j.time with
    | error er => simp
    | ok sTime =>
    simp only
    set pts := tilePoints j.coh j.thr b with hpts
    cases e2 : ormcf (delaunayGraph pts.length (j.simplices pts)) with
    | error er => simp
    | ok sSpace =>
    simp only
    rw [readTile_neg, phaseOffset_neg]
    set data := (readTile j.coh j.thr j.dates j.phase (0 : K) b).2 with hdata
    have hh : ((data.map fun r => r.map (- ·)).headD []).length = (data.headD []).length := by cases data <;> simp
    rw [hh]
    split
    · simp
    · have hsg : sSpace.graph = delaunayGraph pts.length (j.simplices pts) := ormcf_graph e2
      set e : Emcf := ⟨sSpace, sTime, j.settings, j.cpuCount, j.tDist, j.tCent, j.sDist pts, j.sCent pts⟩ with he
      have key := C88_cube tau solver hs e j.time hj.contract e1 hj.batch
        (by rw [he]; simp only; rw [hsg]; exact delaunay_links_lt (hj.triangles pts)) ⟨2, 0, data⟩ oT oT' hT hT' oS oS' hS hS'
      cases h2 : unwrapCube tau solver e ⟨2, 0, data⟩ oT oS with
      | error er =>
        cases h3 : unwrapCube tau (mirrorSolver solver) e ⟨2, 0, data.map fun r => r.map (- ·)⟩ oT' oS' with
        | error er' => simp
        | ok uw =>
          have := (key (uw.map fun r => r.map (- ·))).mp (by rw [neg_neg_rows]; exact h3)
          rw [h2] at this
          cases this
      | ok uw =>
        rw [show unwrapCube tau (mirrorSolver solver) e ⟨2, 0, data.map fun r => r.map (- ·)⟩ oT' oS' = _ from (key uw).mpr h2]
        simp only [pure, Except.pure, Except.ok.injEq]
        obtain ⟨fu, fp, ft, fo⟩ := f
        simp only [TileFile.mk.injEq]
        rw [neg_list_inj, (List.map_injective_iff.mpr (List.map_injective_iff.mpr neg_injective)).eq_iff]

/-- C88, overlap statistics and bulk offsets. Negate the phases of the tile files: the same overlaps are recorded, and either method
gives the bulk offsets of the opposite sign, with the same residuals. -/
theorem C88_bulk {C : Type} [LinearOrder C] (tau : K) (minPoints : ℤ)
    (cc : Nat → List (Nat × Nat) → List Nat) (nifgs : Nat) (tiles : TileSet) (htwo : 2 ≤ tiles.tiles.length)
    (files files' : Nat → Except PyErr (TileFile K)) (F F' : Nat → TileFile K)
    (olap olap' : OverlapFile) (hf : TileFilesOk nifgs tiles files F) (hf' : TileFilesOk nifgs tiles files' F')
    (h : phasediffDeciles id tau minPoints cc tiles files = .ok (some olap))
    (h' : phasediffDeciles id tau minPoints cc tiles files' = .ok (some olap'))
    (hs : Opposite tiles.tiles.length nifgs F F') (mip : MipSolver) (lstsq : Lstsq K) (method : String)
    (coh : Band (Option C)) (thr : C) (bulk bulk' : BulkFile K)
    (hbulk : bulkOffsets mip lstsq method tiles coh thr olap = .ok (some bulk))
    (hbulk' : bulkOffsets (mirrorMip mip) (mirrorLstsq lstsq) method tiles coh thr olap' = .ok (some bulk')) :
    olap'.overlaps = olap.overlaps ∧ olap'.labels = olap.labels ∧ bulk'.residuals = bulk.residuals ∧
    bulk'.offsets = bulk.offsets.map fun r => r.map (- ·) := by
  obtain ⟨e1, e2⟩ := overlaps_points hf hf' h h' hs.points
  obtain ⟨med, hm, _⟩ := bulk_medians (by omega) hbulk
  obtain ⟨med', hm', _⟩ := bulk_medians (by omega) hbulk'
  have hmed := median_neg hf hf' h h' hs hm hm'
  rw [bulkOffsets_neg mip lstsq method tiles coh thr e1 e2 (by rw [hm, hm', hmed]; rfl), hbulk] at hbulk'
  simp only [Except.map, Option.map_some, Except.ok.injEq, Option.some.injEq] at hbulk'
  subst hbulk'
  exact ⟨e1, e2, rfl, rfl⟩

theorem mirrorLin_opposite (lin : LinSolver K) : OppositeCg lin (mirrorLin lin) := by
  intro M r
  simp only [mirrorLin]
  rw [neg_neg_list]

/-- C88, merge. Negate the phases of the tile files and the bulk offsets: the merged interferogram and the model raster change their
sign at every pixel, and the spread raster stays the same. -/
theorem C88_merge (tau : K) (minPoints : ℤ) (cc : Nat → List (Nat × Nat) → List Nat)
    (nifgs : Nat) (tiles : TileSet) (files files' : Nat → Except PyErr (TileFile K)) (F F' : Nat → TileFile K)
    (env env' : MergeEnv K) (hlin : env'.lin = mirrorLin env.lin) (hsim : env'.simplices = env.simplices)
    (bulk bulk' : BulkFile K) (settings settings' : MergerSettings)
    (h : MergeInput tau minPoints cc nifgs tiles files F env.overlap bulk settings)
    (h' : MergeInput tau minPoints cc nifgs tiles files' F' env'.overlap bulk' settings')
    (hs : Opposite tiles.tiles.length nifgs F F')
    (hbulk : bulk'.offsets = bulk.offsets.map fun r => r.map (- ·))
    (isFile isFile' : Nat → Bool) (out out' : List (Nat × MergedBand K))
    (hm : mergeTiles tau env settings tiles files bulk nifgs isFile = .ok (.merged out))
    (hm' : mergeTiles tau env' settings' tiles files' bulk' nifgs isFile' = .ok (.merged out'))
    (b : Nat) (m m' : MergedBand K) (hb : (b, m) ∈ out) (hb' : (b, m') ∈ out') (r q : Nat) :
    m'.out.val r q = (m.out.val r q).map (- ·) ∧ m'.model.val r q = (m.model.val r q).map (- ·) ∧
      m'.diff.val r q = m.diff.val r q := by
  obtain ⟨ho, hl⟩ := overlaps_points h.filesOk h'.filesOk h.overlaps h'.overlaps hs.points
  obtain ⟨omap, h1, h2, _⟩ := ready_of_input h
  obtain ⟨d, hd⟩ := getMaxDegree_ok (shape := imageShape tiles) (n := tiles.tiles.length) (F := F) (by
    have := h.image
    simp only [imageShape]
    omega) h2.inside
  obtain ⟨hbn, hr, hok, hras⟩ := merged_band_at h hm hb h1 hd
  obtain ⟨_, hr', hok', hras'⟩ := merged_band_at h' hm' hb' (by rw [ho, hl]; exact h1)
    (by rw [getMaxDegree_points hs.points]; exact hd)
  refine raster_neg hs hbn ?_ hras hras' r q
  unfold finalCorr
  refine bandAdjust_neg (by rw [hlin]; exact mirrorLin_opposite _) hsim ?_ hs.points hr.map.lt d hok
  intro i hi p hp
  unfold bandValue
  rw [hs.phase b hbn i hi p hp]
  simp only [bulkAt]
  have hg : ∀ (l : List (List K)) i, (l.map fun r => r.map (- ·)).getD i [] = (l.getD i []).map (- ·) := by
    intro l i
    simp only [List.getD_eq_getElem?_getD, List.getElem?_map]
    cases l[i]? <;> simp
  rw [hbulk, hg, getD_neg]
  ring

theorem mirrorMip_feasible {p : OffsetMip} {v : MipValues} :
    MipFeasible ⟨p.npts, p.cons.map fun c => (c.1, - c.2), p.fixed⟩ v ↔ MipFeasible p ⟨v.n.map (- ·), v.nf, v.pf⟩ := by
  constructor
  · intro h
    refine ⟨by simpa using h.lenN, by simpa using h.lenM, by simpa using h.lenP, ?_, h.boundM, h.boundP, ?_, ?_⟩
    · intro x hx
      obtain ⟨y, hy, rfl⟩ := List.mem_map.mp hx
      have := h.boundN y hy
      omega
    · intro i t1 t2 o ho
      have := h.overlap i t1 t2 (-o) (by simp only [List.getElem?_map, ho, Option.map_some])
      simp only [getD_negZ]
      omega
    · intro t ht
      simp only [getD_negZ, h.fixed t ht, neg_zero]
  · intro h
    refine ⟨by simpa using h.lenN, by simpa using h.lenM, by simpa using h.lenP, ?_, h.boundM, h.boundP, ?_, ?_⟩
    · intro x hx
      have := h.boundN (-x) (List.mem_map_of_mem (f := fun x : ℤ => -x) hx)
      omega
    · intro i t1 t2 o ho
      simp only [List.getElem?_map, Option.map_eq_some_iff] at ho
      obtain ⟨⟨⟨a1, a2⟩, o'⟩, h1, h2⟩ := ho
      simp only [Prod.mk.injEq] at h2
      obtain ⟨⟨rfl, rfl⟩, rfl⟩ := h2
      have := h.overlap i _ _ _ h1
      simp only [getD_negZ] at this
      omega
    · intro t ht
      have := h.fixed t ht
      simp only [getD_negZ] at this
      omega

theorem mirrorMip_optimal {s : MipSolver} (hs : MipOptimal s) : MipOptimal (mirrorMip s) := by
  intro p v hv
  unfold mirrorMip at hv
  obtain ⟨w, hw, rfl⟩ := Option.map_eq_some_iff.mp hv
  obtain ⟨h1, h2⟩ := hs _ _ hw
  refine ⟨mirrorMip_feasible.mp h1, fun v' hv' => ?_⟩
  have := h2 ⟨v'.n.map (- ·), v'.nf, v'.pf⟩ (mirrorMip_feasible.mpr (by simp only [neg_neg_list]; exact hv'))
  simp only at this ⊢
  omega

theorem mirrorMip_complete {s : MipSolver} (hs : MipComplete s) : MipComplete (mirrorMip s) := by
  rintro p ⟨v, hv⟩
  unfold mirrorMip
  rw [Option.isSome_map]
  exact hs _ ⟨⟨v.n.map (- ·), v.nf, v.pf⟩, mirrorMip_feasible.mpr (by simp only [neg_neg_list]; exact hv)⟩

theorem lsError_neg (a : List (List K)) (b y : List K) : lsError a (b.map (- ·)) (y.map (- ·)) = lsError a b y := by
  unfold lsError
  rw [List.zipWith_map_right]
  congr 2
  funext row v
  rw [List.zipWith_map_right, show (List.zipWith (fun a b => a * -b) row y) = (List.zipWith (· * ·) row y).map (- ·) by
    rw [List.map_zipWith]; congr 1; funext a b; ring, sum_neg]
  ring

theorem col_neg (a : List (List K)) (k : Nat) : col (a.map fun r => r.map (- ·)) k = (col a k).map (- ·) := by
  unfold col
  rw [List.map_map, List.map_map]
  apply List.map_congr_left
  intro r _
  simp only [Function.comp, getD_neg]

theorem mirrorLstsq_exact {l : Lstsq K} {a b : List (List K)} {w nb : Nat}
    (h : LeastSquares a (b.map fun r => r.map (- ·)) (l a (b.map fun r => r.map (- ·))) w nb) :
    LeastSquares a b (mirrorLstsq l a b) w nb := by
  refine ⟨by unfold mirrorLstsq; rw [List.length_map]; exact h.1, fun k hk y hy => ?_⟩
  have := h.2 k hk (y.map (- ·)) (by rw [List.length_map]; exact hy)
  unfold mirrorLstsq
  rw [col_neg] at this ⊢
  rw [lsError_neg] at this
  rwa [← lsError_neg, neg_neg_list]

theorem dot_neg (m : SqMat K) (x : List K) : m.dot (x.map (- ·)) = (m.dot x).map (- ·) := by
  unfold SqMat.dot
  rw [List.map_map]
  apply List.map_congr_left
  intro i _
  simp only [Function.comp]
  rw [← sum_neg, List.map_map]
  congr 1
  apply List.map_congr_left
  intro k _
  simp only [Function.comp, getD_neg]
  ring

theorem mirrorLin_exact {lin : LinSolver K} (h : ExactSolver lin) : ExactSolver (mirrorLin lin) := by
  rintro m b ⟨x, hx, hd⟩
  have := h m (b.map (- ·)) ⟨x.map (- ·), by rw [List.length_map]; exact hx, by rw [dot_neg, hd]⟩
  simp only [mirrorLin]
  rw [dot_neg, this, neg_neg_list]

/-- C88. The mirrored libraries meet every contract that the libraries meet, so whatever holds of a run with any such libraries holds
of the runs with the mirrored ones. -/
theorem C88_libraries :
    (∀ s : FlowSolver, (SolverSound s → SolverSound (mirrorSolver s)) ∧ (SolverOptimal s → SolverOptimal (mirrorSolver s)) ∧
      (SolverComplete s → SolverComplete (mirrorSolver s))) ∧
    (∀ s : MipSolver, (MipOptimal s → MipOptimal (mirrorMip s)) ∧ (MipComplete s → MipComplete (mirrorMip s))) ∧
    (∀ (l : Lstsq K) (a : List (List K)) (w nb n : Nat),
      (∀ b, b.length = n → (∀ r ∈ b, r.length = nb) → LeastSquares a b (l a b) w nb) →
      ∀ b, b.length = n → (∀ r ∈ b, r.length = nb) → LeastSquares a b (mirrorLstsq l a b) w nb) ∧
    (∀ lin : LinSolver K, ExactSolver lin → ExactSolver (mirrorLin lin)) := by
  refine ⟨fun s => ⟨mirror_sound, mirror_optimal, mirror_complete⟩, fun s => ⟨mirrorMip_optimal, mirrorMip_complete⟩, ?_,
    fun lin => mirrorLin_exact⟩
  intro l a w nb n h b h1 h2
  refine mirrorLstsq_exact (h _ (by rw [List.length_map]; exact h1) ?_)
  intro r hr
  obtain ⟨r', hr', rfl⟩ := List.mem_map.mp hr
  rw [List.length_map]
  exact h2 r' hr'

theorem negJob_good {j : TileJob K} (hj : GoodJob j) : GoodJob (negJob j) := by
  refine ⟨hj.contract, hj.dates, hj.batch, ?_, hj.triangles⟩
  intro d im h
  simp only [negJob, negImages, Option.map_eq_some_iff] at h
  obtain ⟨im0, h0, rfl⟩ := h
  exact hj.images d im0 h0

theorem negFlow_good {P : Flow K S} (hP : GoodFlow P) : GoodFlow (negFlow P) :=
  ⟨negJob_good hP.job, mirror_sound hP.solver, hP.tiler, hP.size, hP.labels, mirrorMip_optimal hP.mip⟩

/-- C88. The workflow, with any number of tiles and either bulk method. Negate the phase of every image. Between two completed runs,
every unwrapped raster changes its sign and has the same pixels without value; so does the model raster, and the spread raster stays
the same. -/
theorem C88_workflow (P : Flow K S) (hP : GoodFlow P)
    (himg : 0 < P.job.coh.rows ∧ 0 < P.job.coh.cols)
    (d1 d1' : Disk K) (h1 : RunByWrite P.stages Disk.empty .completed d1)
    (h1' : RunByWrite (negFlow P).stages Disk.empty .completed d1') (i : Nat) :
    (d1.unw i = none ∧ d1'.unw i = none ∨ ∃ x x', d1.unw i = some (some x) ∧ d1'.unw i = some (some x') ∧
      ∀ r q : Nat, x'.val r q = (x.val r q).map (- ·)) ∧
    (d1.model i = none ∧ d1'.model i = none ∨ ∃ m m', d1.model i = some (some m) ∧ d1'.model i = some (some m') ∧
      ∀ r q : Nat, m'.val r q = (m.val r q).map (- ·)) ∧
    (d1.diff i = none ∧ d1'.diff i = none ∨ ∃ y y', d1.diff i = some (some y) ∧ d1'.diff i = some (some y') ∧
      ∀ r q : Nat, y'.val r q = y.val r q) := by
  have hP' : GoodFlow (negFlow P) := negFlow_good hP
  obtain ⟨T0, F, hR⟩ := ref_of_run hP h1
  obtain ⟨T1, F', hR'⟩ := ref_of_run hP' h1'
  obtain rfl : T1 = T0 := by
    have x1 := hR'.tiles
    have x2 := hR.tiles
    have : makeTiles P.sc P.fl P.useTiles P.tiler P.job.coh.cols P.mask = .ok T1 := x1
    rw [x2] at this
    simpa using this.symm
  set T := T1 with hTdef
  obtain ⟨hshape, hpos, hin⟩ := flow_tiles hP hR.tiles
  obtain ⟨hshape', _, hin'⟩ := flow_tiles hP' hR'.tiles
  obtain ⟨oT, oS, hoT, hoS, hF⟩ := hR.work
  obtain ⟨oT', oS', hoT', hoS', hF'⟩ := hR'.work
  obtain ⟨hf, hpts, hph⟩ := tileFilesOk_of_unwrap P.tau P.solver hP.solver P.job hP.job T hshape hin oT oS hoT hoS
    d1.readTile F (fun t ht => hR.readTile ht) hF
  obtain ⟨hf', hpts', hph'⟩ := tileFilesOk_of_unwrap P.tau (mirrorSolver P.solver) hP'.solver (negJob P.job) hP'.job T hshape' hin' oT' oS' hoT' hoS'
    d1'.readTile F' (fun t ht => hR'.readTile ht) hF'
  change TileFilesOk P.job.time.links.length T d1'.readTile F' at hf'
  have hFF : ∀ t < T.tiles.length, F' t = ⟨(F t).uw.map fun r => r.map (- ·), (F t).points, (F t).tile, (F t).phaseOffset.map (- ·)⟩ := by
    intro t ht
    have x1 : unwrapOneTile P.tau (mirrorSolver P.solver) (negJob P.job) T t (oT' t) (oS' t) = .ok (F' t) := hF' t ht
    rw [(C88_tile P.tau P.solver hP.solver P.job hP.job T t (oT t) (oT' t) (oS t) (oS' t) (hoT t) (hoT' t) (hoS t) (hoS' t) (F t)).mpr
      (hF t ht)] at x1
    exact (Except.ok.inj x1).symm
  set nifgs := P.job.time.links.length with hnifgs
  have hg : ∀ (l : List (List K)) i, (l.map fun r => r.map (- ·)).getD i [] = (l.getD i []).map (- ·) := by
    intro l i
    simp only [List.getD_eq_getElem?_getD, List.getElem?_map]
    cases l[i]? <;> simp
  have hphase : ∀ t < T.tiles.length, ∀ b p, filePhase (F' t) b p = - filePhase (F t) b p := by
    intro t ht b p
    unfold filePhase
    rw [hFF t ht]
    simp only
    rw [hg, getD_neg, getD_neg]
    ring
  have hpe : ∀ t < T.tiles.length, filePoints (F' t) = filePoints (F t) := by
    intro t ht
    unfold filePoints
    rw [hFF t ht]
  have hs : Opposite T.tiles.length nifgs F F' := ⟨hpe, fun b _ t ht p _ => hphase t ht b p⟩
  by_cases hn : T.tiles.length = 1
  · obtain ⟨_, _, B, hB, hU⟩ := hR.one hn
    obtain ⟨_, _, B', hB', hU'⟩ := hR'.one hn
    refine ⟨?_, .inl ⟨(hU i).2.2, (hU' i).2.2⟩, .inl ⟨(hU i).2.1, (hU' i).2.1⟩⟩
    by_cases hi : i < nifgs
    · right
      refine ⟨B i, B' i, by rw [(hU i).1, if_pos hi], by rw [(hU' i).1]; exact if_pos hi, fun r q => ?_⟩
      obtain ⟨t1, ht1⟩ := hB i hi
      obtain ⟨t1', ht1'⟩ := hB' i hi
      have hins := files_inside hf 0 (by omega)
      have hins' := files_inside hf' 0 (by omega)
      have hb := C44_single (imageShape T) (TileState.start (F 0)) t1 i (B i) (by
        intro c hc
        obtain ⟨a1, a2, a3, a4⟩ := hins c hc
        exact ⟨a1, a2, a3, a4⟩) (filePoints_nodup (hf.once 0 (by omega))) ht1 r q
      have hb' := C44_single (imageShape T) (TileState.start (F' 0)) t1' i (B' i) (by
        intro c hc
        obtain ⟨a1, a2, a3, a4⟩ := hins' c hc
        exact ⟨a1, a2, a3, a4⟩) (filePoints_nodup (hf'.once 0 (by omega))) ht1' r q
      by_cases hmem : ((r : ℤ), (q : ℤ)) ∈ filePoints (F 0)
      · obtain ⟨p, hp⟩ := List.mem_iff_getElem?.mp hmem
        rw [hb.2.2.2.2 p hp, hb'.2.2.2.2 p (by rw [← hpe 0 (by omega)] at hp; exact hp), Option.map_some]
        exact congrArg some (hphase 0 (by omega) i p)
      · rw [hb.2.2.2.1 hmem, hb'.2.2.2.1 (by rw [← hpe 0 (by omega)] at hmem; exact hmem)]
        rfl
    · left
      exact ⟨by rw [(hU i).1, if_neg hi], by rw [(hU' i).1]; exact if_neg hi⟩
  · obtain ⟨st, bk, M, r1, r2, r3, _, r5, rU⟩ := hR.many hn
    obtain ⟨st', bk', M', r1', r2', r3', _, r5', rU'⟩ := hR'.many hn
    by_cases hi : i < nifgs
    swap
    · refine ⟨.inl ⟨by rw [(rU i).1, if_neg hi], by rw [(rU' i).1]; exact if_neg hi⟩,
        .inl ⟨by rw [(rU i).2.2, if_neg hi], by rw [(rU' i).2.2]; exact if_neg hi⟩,
        .inl ⟨by rw [(rU i).2.1, if_neg hi], by rw [(rU' i).2.1]; exact if_neg hi⟩⟩
    have htwo : 2 ≤ T.tiles.length := by omega
    have hover := Ref.overlaps (P := P) (F := F) hn r1
    have hover' := Ref.overlaps (P := negFlow P) (F := F') hn r1'
    have hlab : (P.olap T st).labels.length = T.tiles.length := hP.labels _ _
    have hlab' : ((negFlow P).olap T st').labels.length = T.tiles.length := hP.labels _ _
    obtain ⟨hbm, hbo⟩ := bulk_shape hP.mip hn hlab (fun med hmed => median_rows hf hover hmed) r3
    obtain ⟨hbm', hbo'⟩ := bulk_shape hP'.mip hn hlab' (fun med hmed => median_rows hf' hover' hmed) r3'
    obtain ⟨_, _, _, hbk⟩ := C88_bulk P.tau P.merger.minOverlapPoints P.cc nifgs T htwo d1.readTile d1'.readTile F F'
      (P.olap T st) ((negFlow P).olap T st') hf hf' hover hover' hs P.mip P.lstsq P.merger.bulkMethod P.job.coh P.job.thr bk bk' r3 r3'
    have hbo1 : BulkOk nifgs T.tiles.length (⟨bk.method, bk.offsets, []⟩ : BulkFile K) := ⟨hbo.rows, hbo.cols⟩
    have hbo2 : BulkOk nifgs T.tiles.length (⟨bk'.method, bk'.offsets, []⟩ : BulkFile K) := ⟨hbo'.rows, hbo'.cols⟩
    have hin1 : MergeInput P.tau P.merger.minOverlapPoints P.cc nifgs T d1.readTile F (P.olap T st)
        ⟨bk.method, bk.offsets, []⟩ P.merger :=
      ⟨htwo, by rw [hshape]; simp only; omega, by omega, hf, hover, hlab, hbo1, hR.method, hbm⟩
    have hin2 : MergeInput P.tau P.merger.minOverlapPoints P.cc nifgs T d1'.readTile F' ((negFlow P).olap T st')
        ⟨bk'.method, bk'.offsets, []⟩ P.merger :=
      ⟨htwo, by rw [hshape]; simp only; omega, by omega, hf', hover', hlab', hbo2, hR.method, hbm'⟩
    have hmem : ∀ M : Nat → MergedBand K, (i, M i) ∈ ((List.range nifgs).filter fun _ => !false).map fun i => (i, M i) :=
      fun M => List.mem_map.mpr ⟨i, List.mem_filter.mpr ⟨List.mem_range.mpr hi, rfl⟩, rfl⟩
    have key := C88_merge P.tau P.merger.minOverlapPoints P.cc nifgs T d1.readTile d1'.readTile F F'
      ⟨P.lin, P.simplices, P.olap T st⟩ ⟨mirrorLin P.lin, P.simplices, (negFlow P).olap T st'⟩ rfl rfl
      ⟨bk.method, bk.offsets, []⟩ ⟨bk'.method, bk'.offsets, []⟩ P.merger P.merger hin1 hin2
      hs hbk (fun _ => false) (fun _ => false) _ _ (r5 fun _ => false) (r5' fun _ => false) i (M i) (M' i) (hmem M) (hmem M')
    refine ⟨.inr ⟨(M i).out, (M' i).out, by rw [(rU i).1, if_pos hi], by rw [(rU' i).1]; exact if_pos hi, fun r q => (key r q).1⟩,
      .inr ⟨(M i).model, (M' i).model, by rw [(rU i).2.2, if_pos hi], by rw [(rU' i).2.2]; exact if_pos hi, fun r q => (key r q).2.1⟩,
      .inr ⟨(M i).diff, (M' i).diff, by rw [(rU i).2.1, if_pos hi], by rw [(rU' i).2.1]; exact if_pos hi, fun r q => (key r q).2.2⟩⟩

end
end Spurt
