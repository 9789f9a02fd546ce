import Verif.Lemmas.Transport
import Verif.Props.EndResult

/-!
# Property C81: the degree of parallelism has no influence
-/

namespace Spurt
open Spec

/-- The settings that say how much is done at the same time: temporal and spatial workers, links per batch, tiles and
interferograms in parallel, and the number of CPUs of the machine. -/
structure Spec.Parallelism where
  tWorkers : ℤ
  sWorkers : ℤ
  batch : ℤ
  tiles : ℤ
  ifgs : ℤ
  cpus : ℤ

/-- Settings accepted by the workflow whose spatial pool can be made (C17). -/
structure Spec.Parallelism.Usable (q : Parallelism) : Prop where
  batch : 0 < q.batch
  tiles : 1 ≤ q.tiles
  space : 1 ≤ q.sWorkers ∨ 2 ≤ q.cpus

/-- The same call with another degree of parallelism. -/
def Spec.withParallelism {K S : Type} (P : Flow K S) (q : Parallelism) : Flow K S :=
  { P with
    job := { P.job with
      cpuCount := q.cpus
      settings := { P.job.settings with
        tWorkerCount := q.tWorkers, sWorkerCount := q.sWorkers, linksPerBatch := q.batch, numParallelTiles := q.tiles } }
    merger := { P.merger with numParallelIfgs := q.ifgs } }

section
variable {K S : Type} [Field K] [LinearOrder K] [FloorRing K] [IsStrictOrderedRing K]

theorem tile_parallel {tau : K} {solver : FlowSolver} {j : TileJob K} (hj : GoodJob j) (cpus : ℤ) (s : SolverSettings)
    (h1 : s.tCostType = j.settings.tCostType) (h2 : s.sCostType = j.settings.sCostType) (hb : 0 < s.linksPerBatch)
    (hpool : 1 ≤ s.sWorkerCount ∨ 2 ≤ cpus) {tiles : TileSet} {t : Nat}
    {oT oT' : Nat → List Nat → List Nat} {oS oS' : List Nat → List Nat}
    (hT : ∀ k l, (oT k l).Perm l) (hT' : ∀ k l, (oT' k l).Perm l) (hS : ∀ l, (oS l).Perm l) (hS' : ∀ l, (oS' l).Perm l)
    {f : TileFile K} (h : unwrapOneTile tau solver j tiles t oT oS = .ok f) :
    unwrapOneTile tau solver { j with cpuCount := cpus, settings := s } tiles t oT' oS' = .ok f := by
  unfold unwrapOneTile at h ⊢
  cases e0 : (tiles.tiles[t]?).elim (.error .indexError : Except PyErr BBox) .ok with
  | error er => rw [e0] at h; simp [Bind.bind, Except.bind] at h
  | ok b =>
  rw [e0] at h
  simp only [Bind.bind, Except.bind] at h ⊢
  cases e1 : ormcf j.time with
  | error er => rw [e1] at h; simp at h
  | ok sTime =>
  rw [e1] at h
  simp only at h ⊢
  set pts := tilePoints j.coh j.thr b with hpts
  cases e2 : ormcf (delaunayGraph pts.length (j.simplices pts)) with
  | error er => rw [e2] at h; simp at h
  | ok sSpace =>
  rw [e2] at h
  simp only at h ⊢
  split at h
  · simp at h
  · next hc =>
    rw [if_neg hc]
    cases e3 : unwrapCube tau solver ⟨sSpace, sTime, j.settings, j.cpuCount, j.tDist, j.tCent, j.sDist pts, j.sCent pts⟩
      ⟨2, 0, (readTile j.coh j.thr j.dates j.phase (0 : K) b).2⟩ oT oS with
    | error er => rw [e3] at h; simp at h
    | ok uw =>
      rw [e3] at h
      have hsg : sSpace.graph = delaunayGraph pts.length (j.simplices pts) := ormcf_graph e2
      have := cube_transport (e := ⟨sSpace, sTime, j.settings, j.cpuCount, j.tDist, j.tCent, j.sDist pts, j.sCent pts⟩) (e' := ⟨sSpace, sTime, s, cpus, j.tDist, j.tCent, j.sDist pts, j.sCent pts⟩) tau solver
        ⟨rfl, rfl, h1, h2, rfl, rfl, rfl, rfl⟩ hj.contract.distinct (fun a b hab => (hj.contract.ordered a b hab).1.le) e1
        (by simp only; rw [hsg]; exact delaunay_links_lt (hj.triangles pts)) hj.batch hb hpool _ _ rfl rfl
        (fun _ _ _ _ _ _ _ => rfl) oT oT' hT hT' oS oS' hS hS' uw e3
      simp only at this
      rw [this]
      exact h

/-- What a completed run leaves is what a run with another degree of parallelism leaves. -/
theorem ref_parallel {P : Flow K S} (hP : GoodFlow P) (himg : 0 < P.job.coh.rows ∧ 0 < P.job.coh.cols) {q : Parallelism}
    (hq : q.Usable) {d1 : Disk K} {T : TileSet} {F : Nat → TileFile K} (h : Ref P d1 T F) :
    Ref (withParallelism P q) d1 T F := by
  obtain ⟨oT, oS, hoT, hoS, hw⟩ := h.work
  refine ⟨h.tiles, h.tiles1, ?_, ⟨oT, oS, hoT, hoS, fun t ht => ?_⟩, h.tile1, h.method, h.one, fun hn => ?_⟩
  · have := hq.tiles
    unfold processPool withParallelism
    simp only
    rw [if_neg (by omega)]
  · exact tile_parallel hP.job q.cpus (withParallelism P q).job.settings rfl rfl hq.batch hq.space (hoT t) (hoT t) (hoS t) (hoS t) (hw t ht)
  · obtain ⟨s, b, M, h1, h2, h3, h4, h5, h6⟩ := h.many hn
    refine ⟨s, b, M, h1, h2, h3, h4, ?_, h6⟩
    obtain ⟨hshape, hpos, hin⟩ := flow_tiles hP h.tiles
    obtain ⟨hf, _, _⟩ := tileFilesOk_of_unwrap P.tau P.solver hP.solver P.job hP.job T hshape hin oT oS hoT hoS
      d1.readTile F (fun t ht => h.readTile ht) hw
    have hover := Ref.overlaps (P := P) (F := F) hn h1
    have hlab : (P.olap T s).labels.length = T.tiles.length := hP.labels _ _
    obtain ⟨hbm, hbo⟩ := bulk_shape hP.mip hn hlab (fun med hmed => median_rows hf hover hmed) h3
    have hbo' : BulkOk P.job.time.links.length T.tiles.length (⟨b.method, b.offsets, []⟩ : BulkFile K) := ⟨hbo.rows, hbo.cols⟩
    have hifg : 1 ≤ P.job.time.links.length := by
      by_contra hc
      have h0 : P.job.time.links.length = 0 := by omega
      have := h5 fun _ => false
      unfold mergeTiles at this
      rw [if_neg (by rw [h.method]; simp)] at this
      simp only [Bind.bind, Except.bind] at this
      split at this
      · cases this
      rw [if_neg hn] at this
      split at this
      · cases this
      split at this
      · cases this
      split at this
      · cases this
      rw [h0] at this
      have hmb : mergeBatches P.merger.numParallelIfgs 0 = .error .zeroDivisionError := by
        unfold mergeBatches
        simp only
        rw [if_pos]
        split <;> omega
      rw [hmb] at this
      cases this
    have hinput : MergeInput P.tau P.merger.minOverlapPoints P.cc P.job.time.links.length T d1.readTile F (P.olap T s)
        ⟨b.method, b.offsets, []⟩ P.merger :=
      ⟨by omega, by rw [hshape]; simp only; omega, hifg, hf, hover, hlab, hbo', h.method, hbm⟩
    rcases C45_batching P.tau P.merger.minOverlapPoints P.cc _ T d1.readTile F ⟨P.lin, P.simplices, P.olap T s⟩
      ⟨b.method, b.offsets, []⟩ P.merger hinput with ⟨M', hM'⟩ | hbad
    · have e1 := h5 fun _ => false
      have e2 := hM' P.merger.numParallelIfgs fun _ => false
      rw [show ({ P.merger with numParallelIfgs := P.merger.numParallelIfgs } : MergerSettings) = P.merger from rfl, e1] at e2
      simp only [Except.ok.injEq, MergeResult.merged.injEq, Bool.not_false, List.filter_true] at e2
      have hMM : ∀ i < P.job.time.links.length, M i = M' i := by
        intro i hi
        have := congrArg (fun l => l[i]?) e2
        simpa [hi] using this
      intro isFile
      show mergeTiles P.tau ⟨P.lin, P.simplices, P.olap T s⟩ { P.merger with numParallelIfgs := q.ifgs } T d1.readTile
        ⟨b.method, b.offsets, []⟩ P.job.time.links.length isFile = _
      rw [hM' q.ifgs isFile]
      congr 2
      apply List.map_congr_left
      intro i hi
      simp only [List.mem_filter, List.mem_range] at hi
      rw [hMM i hi.1]
    · obtain ⟨e, he⟩ := (hbad P.merger.numParallelIfgs fun _ => false).1 ⟨0, by omega, rfl⟩
      rw [show ({ P.merger with numParallelIfgs := P.merger.numParallelIfgs } : MergerSettings) = P.merger from rfl, h5] at he
      cases he

/-- C81. The degree of parallelism has no influence on the results. `d1` is what a completed run leaves in an empty folder. With
any other usable numbers of workers, CPUs, links per batch, tiles and interferograms in parallel, and from any subset of
these files, no run raises, runs that stop between files leave a subset again, every run that completes leaves exactly
`d1`, and a completing run exists. -/
theorem C81_parallel (P : Flow K S) (hP : GoodFlow P) (himg : 0 < P.job.coh.rows ∧ 0 < P.job.coh.cols) (d1 : Disk K)
    (h1 : RunByWrite P.stages Disk.empty .completed d1) (q : Parallelism) (hq : q.Usable) (d : Disk K) (hd : SubDisk d d1) :
    (∀ o d', RunByFile (withParallelism P q).stages d o d' → o ≠ .raised ∧ SubDisk d' d1 ∧ (o = .completed → d' = d1)) ∧
    (∀ o d', RunByWrite (withParallelism P q).stages d o d' → o ≠ .raised ∧ (o = .completed → d' = d1)) ∧
    RunByFile (withParallelism P q).stages d .completed d1 := by
  obtain ⟨T, F, hR⟩ := ref_of_run hP h1
  have hj : GoodJob (withParallelism P q).job := ⟨hP.job.contract, hP.job.dates, hq.batch, hP.job.images, hP.job.triangles⟩
  have hok := stagesOk hj (ref_parallel hP himg hq hR)
  have h0 : AgreeUpTo 0 d d1 := fun s hs => absurd hs (Nat.not_lt_zero _)
  have key : ∀ o d', RunByFile (withParallelism P q).stages d o d' → o ≠ .raised ∧ SubDisk d' d1 ∧ (o = .completed → d' = d1) := by
    intro o d' h
    obtain ⟨a, b, c⟩ := resume_byFile hok hd h0 h
    exact ⟨a, b, fun ho => agree_eq (c ho)⟩
  refine ⟨key, ?_, ?_⟩
  · intro o d' h
    obtain ⟨a, b⟩ := resume_byWrite hok hd h0 h
    exact ⟨a, fun ho => agree_eq (b ho).2⟩
  · obtain ⟨d', h⟩ := resume_exists hok hd h0
    rwa [(key _ _ h).2.2 rfl] at h

/-- C81. The degree of parallelism may be changed each time an interrupted workflow is started again: the run that completes leaves
what one uninterrupted run leaves. -/
theorem C81_switching (P : Flow K S) (hP : GoodFlow P) (himg : 0 < P.job.coh.rows ∧ 0 < P.job.coh.cols) (d1 : Disk K)
    (h1 : RunByWrite P.stages Disk.empty .completed d1) (d : Disk K)
    (hd : Relation.ReflTransGen (fun d d' => ∃ q : Parallelism, q.Usable ∧ ∃ o, RunByFile (withParallelism P q).stages d o d') Disk.empty d)
    (q : Parallelism) (hq : q.Usable) (o : Outcome) (d' : Disk K) (h : RunByWrite (withParallelism P q).stages d o d') :
    o ≠ .raised ∧ (o = .completed → d' = d1) := by
  have hs : SubDisk d d1 := by
    clear h
    induction hd with
    | refl => exact subDisk_empty d1
    | tail _ h ih =>
      obtain ⟨q, hq, o, h⟩ := h
      exact ((C81_parallel P hP himg d1 h1 q hq _ ih).1 _ _ h).2.1
  exact (C81_parallel P hP himg d1 h1 q hq d hs).2.1 o d' h

end

end Spurt
