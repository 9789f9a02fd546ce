import Verif.Lemmas.ResumeRun
import Verif.Props.UnwrapTile

/-!
# Property C49: resuming an interrupted workflow
-/

namespace Spurt
open Spec

section
variable {K S : Type} [Field K] [LinearOrder K] [FloorRing K] [IsStrictOrderedRing K]

/-- C49. `d1` is what a completed run leaves in an empty folder. From any subset of these files (with
each interferogram's three rasters together), no run raises; runs that stop between files leave a
subset again; every run that completes leaves exactly `d1`; and a completing run exists. -/
theorem C49_resume (P : Flow K S) (hP : GoodFlow P) (d1 : Disk K)
    (h1 : RunByWrite P.stages Disk.empty .completed d1) (d : Disk K) (hd : SubDisk d d1) :
    (∀ o d', RunByFile P.stages d o d' → o ≠ .raised ∧ SubDisk d' d1 ∧ (o = .completed → d' = d1)) ∧
    (∀ o d', RunByWrite P.stages d o d' → o ≠ .raised ∧ (o = .completed → d' = d1)) ∧
    RunByFile P.stages d .completed d1 := by
  obtain ⟨T, F, hR⟩ := ref_of_run hP h1
  have hok := stagesOk hP.job hR
  have h0 : AgreeUpTo 0 d d1 := fun s hs => absurd hs (Nat.not_lt_zero _)
  have key : ∀ o d', RunByFile P.stages d o d' → o ≠ .raised ∧ SubDisk d' d1 ∧ (o = .completed → d' = d1) := by
    intro o d' h
    obtain ⟨a, b, c⟩ := resume_byFile hok hd h0 h
    exact ⟨a, b, fun ho => agree_eq (c ho)⟩
  refine ⟨key, ?_, ?_⟩
  · intro o d' h
    obtain ⟨a, b⟩ := resume_byWrite hok hd h0 h
    exact ⟨a, fun ho => agree_eq (b ho).2⟩
  · obtain ⟨d', h⟩ := resume_exists hok hd h0
    rwa [(key _ _ h).2.2 rfl] at h

/-- C49. The result does not depend on the order in which worker processes complete: two completed
runs from an empty folder leave the same files. -/
theorem C49_same_result (P : Flow K S) (hP : GoodFlow P) (d1 d2 : Disk K)
    (h1 : RunByWrite P.stages Disk.empty .completed d1) (h2 : RunByWrite P.stages Disk.empty .completed d2) : d1 = d2 :=
  (((C49_resume P hP d1 h1 Disk.empty (subDisk_empty d1)).2.1 _ _ h2).2 rfl).symm

/-- The folder after any number of runs, each stopped between files or completed. -/
def Spec.AfterRuns (P : Flow K S) : Disk K → Disk K → Prop :=
  Relation.ReflTransGen fun d d' => ∃ o, RunByFile P.stages d o d'

/-- C49. However often the workflow is stopped between files and started again, the next run that
completes leaves what one uninterrupted run leaves. -/
theorem C49_interruptions (P : Flow K S) (hP : GoodFlow P) (d1 : Disk K)
    (h1 : RunByWrite P.stages Disk.empty .completed d1) (d : Disk K) (hd : AfterRuns P Disk.empty d) :
    SubDisk d d1 ∧ (∀ o d', RunByWrite P.stages d o d' → o ≠ .raised ∧ (o = .completed → d' = d1)) ∧
    RunByFile P.stages d .completed d1 := by
  have hs : SubDisk d d1 := by
    induction hd with
    | refl => exact subDisk_empty d1
    | tail _ h ih =>
      obtain ⟨o, h⟩ := h
      exact ((C49_resume P hP d1 h1 _ ih).1 _ _ h).2.1
  exact ⟨hs, (C49_resume P hP d1 h1 d hs).2⟩

omit [IsStrictOrderedRing K] in
theorem ref_guard {P : Flow K S} {d1 : Disk K} {T : TileSet} {F : Nat → TileFile K} (h : Ref P d1 T F) (s : Slot)
    (hs : d1.get s ≠ none) : d1.get s.guard ≠ none := by
  have key : ∀ i, (d1.diff i ≠ none ∨ d1.model i ≠ none) → d1.unw i ≠ none := by
    intro i hi
    by_cases hn : T.tiles.length = 1
    · obtain ⟨_, _, B, _, hB⟩ := h.one hn
      rw [(hB i).2.1, (hB i).2.2] at hi
      simp at hi
    · obtain ⟨_, _, M, _, _, _, _, _, hM⟩ := h.many hn
      rw [(hM i).2.1, (hM i).2.2] at hi
      rw [(hM i).1]
      by_cases hlt : i < P.job.time.links.length
      · simp [hlt]
      · simp [hlt] at hi
  cases s <;> simp only [Slot.guard] at hs ⊢ <;> try exact hs
  · rename_i i
    rw [Ne, get_none] at hs ⊢
    exact key i (Or.inl hs)
  · rename_i i
    rw [Ne, get_none] at hs ⊢
    exact key i (Or.inr hs)

/-- C49. Running the workflow again on its own results changes nothing and does not raise, wherever
it is stopped. -/
theorem C49_idempotent (P : Flow K S) (hP : GoodFlow P) (d1 : Disk K)
    (h1 : RunByWrite P.stages Disk.empty .completed d1) (o : Outcome) (d' : Disk K)
    (h : RunByWrite P.stages d1 o d') : d' = d1 ∧ o ≠ .raised := by
  refine ⟨?_, ((C49_resume P hP d1 h1 d1 (subDisk_refl d1)).2.1 _ _ h).1⟩
  obtain ⟨T, F, hR⟩ := ref_of_run hP h1
  have hok := stagesOk hP.job hR
  have hfresh := stages_fresh P
  clear h1
  suffices hgen : ∀ (ss : List (Stage K)) (k : Nat), (∀ (i : Nat) st, ss[i]? = some st → StageOk d1 (k + i) st) →
      (∀ s ∈ ss, ∀ d p, s d p → Fresh d p) → ∀ d, d = d1 → RunByWrite ss d o d' → d' = d1 by
    exact hgen P.stages 0 hok hfresh d1 rfl h
  · clear h hok hfresh
    intro ss k hss hfr d hdd hrun
    unfold RunByWrite at hrun
    have hnone : ∀ {s : Stage K} {p : Plan K} {i : Nat} {k : Nat}, StageOk d1 k s → Fresh d1 p → s d1 p →
        ∀ t ∈ p.tasks.map List.flatten, t = [] := by
      intro s p _ k hst hf hp t ht
      obtain ⟨us, hus, rfl⟩ := List.mem_map.mp ht
      rw [List.eq_nil_iff_forall_not_mem]
      intro w hw
      obtain ⟨u, hu, hw⟩ := List.mem_flatten.mp hw
      have e1 := hf us hus u hu w hw
      have e2 := ((hst d1 (subDisk_refl d1) (fun _ _ => rfl)).2 p hp).units us hus u hu
      have e3 : Writes u w.slot := ⟨w, hw, rfl⟩
      have e4 := e2.1 w.slot e3
      have e5 : d1.get w.slot ≠ none := by
        rw [← e4, Ne, lastW_none]
        exact not_not.mpr e3
      exact ref_guard hR _ e5 e1
    have hex : ∀ {ts : List (List (Write K))} {d d' : Disk K} {b : Bool}, (∀ t ∈ ts, t = []) → Exec Disk.set ts d b d' → d' = d := by
      intro ts d d' b hts hx
      cases hx with
      | stop => rfl
      | done => rfl
      | step k x rest hk _ =>
        have := hts _ (List.mem_of_getElem? hk)
        simp at this
    induction hrun generalizing k with
    | finish => exact hdd
    | stopped hp he =>
      subst hdd
      exact hex (hnone (i := 0) (hss 0 _ rfl) (hfr _ (by simp) _ _ hp) hp) he
    | raised hp hf he =>
      subst hdd
      exact hex (hnone (i := 0) (hss 0 _ rfl) (hfr _ (by simp) _ _ hp) hp) he
    | next hp hf he hr ih =>
      subst hdd
      have := hex (hnone (i := 0) (hss 0 _ rfl) (hfr _ (by simp) _ _ hp) hp) he
      refine ih (k := k + 1) ?_ (fun s hs => hfr s (by simp [hs])) this
      intro i st hi
      have := hss (i + 1) st (by simpa using hi)
      rwa [show k + (i + 1) = k + 1 + i by omega] at this

/-- The raster of a single tile is written for every interferogram. -/
theorem singleBand_returns {nifgs : Nat} {T : TileSet} {files : Nat → Except PyErr (TileFile K)} {F : Nat → TileFile K}
    (hf : TileFilesOk nifgs T files F) (hn : 0 < T.tiles.length) (i : Nat) (hi : i < nifgs) :
    ∃ t1 b, writeSingleBand (imageShape T) (TileState.start (F 0)) i = .ok (t1, b) := by
  obtain ⟨e1, e2⟩ := hf.bands 0 hn
  obtain ⟨d, hd⟩ := (readBands_ok_iff (F 0) [i]).mpr (by
    unfold Readable
    simp
    omega)
  have hin := files_inside hf 0 hn
  have hw := files_width (by omega) hf 0 hn
  obtain ⟨f1, f2, f3⟩ := readBands_value hd
  unfold writeSingleBand
  simp only [TileState.call, TileState.step]
  have hfile : (TileState.start (F 0)).file = F 0 := rfl
  rw [hfile, hd]
  simp only [Bind.bind, Except.bind]
  have hco : ∀ x : TileState K, x.file = F 0 → x.coords = filePoints (F 0) := by
    intro x hx
    unfold TileState.coords filePoints
    rw [hx]
  obtain ⟨u, hu, u1, u2, u3⟩ := rawUwPhase_data (f := F 0) (idx := [i])
    (t := { TileState.start (F 0) with idx := [i], uwdata := some d, corrections := [], level := 0 }) hw ⟨d, hd, rfl⟩
  have hlen : (filePoints (F 0)).length = (F 0).points.length := by simp [filePoints]
  have hraw := bandRow_eq (a := u) (ind := 0) (n := (filePoints (F 0)).length) (by rw [u1]; simp) (by rw [u2, hlen])
    (g := fun p => u.val 0 p) (fun _ _ => rfl)
  rw [hco _ rfl, pixelsOf_inside hin]
  simp only at hu ⊢
  rw [show (TileState.start (F 0)).file = F 0 from rfl] at hu
  rw [hu]
  simp only
  rw [hraw]
  exact ⟨_, _, rfl⟩

/-- A run with one tile completes as soon as the tile can be unwrapped. -/
theorem one_tile_runs (P : Flow K S) (hP : GoodFlow P)
    (hpool : 1 ≤ P.job.settings.numParallelTiles) (hm : P.merger.method = "dirichlet") (T : TileSet)
    (hT : makeTiles P.sc P.fl P.useTiles P.tiler P.job.coh.cols P.mask = .ok T) (hn : T.tiles.length = 1)
    (oT : Nat → List Nat → List Nat) (oS : List Nat → List Nat)
    (hoT : ∀ k l, (oT k l).Perm l) (hoS : ∀ l, (oS l).Perm l) (f : TileFile K)
    (hf : unwrapOneTile P.tau P.solver P.job T 0 oT oS = .ok f) :
    ∃ d1, RunByWrite P.stages Disk.empty .completed d1 := by
  obtain ⟨h1, _, h2⟩ := flow_tiles hP hT
  obtain ⟨hfo, _, _⟩ := tileFilesOk_of_unwrap P.tau P.solver hP.solver P.job hP.job T h1 h2 (fun _ => oT) (fun _ => oS)
    (fun _ => hoT) (fun _ => hoS) (fun _ => .ok f) (fun _ => f) (fun _ _ => rfl) (by
      intro t ht
      have : t = 0 := by omega
      subst this
      exact hf)
  have hB := fun i hi => singleBand_returns hfo (by omega) i hi
  let B : Nat → Band (Option K) := fun i => match writeSingleBand (imageShape T) (TileState.start f) i with
      | .ok (_, b) => b
      | .error _ => ⟨0, 0, fun _ _ => none⟩
  have hB' : ∀ i < P.job.time.links.length, ∃ t1, writeSingleBand (imageShape T) (TileState.start f) i = .ok (t1, B i) := by
    intro i hi
    obtain ⟨t1, b, hb⟩ := hB i hi
    refine ⟨t1, ?_⟩
    simp only [B]
    rw [hb]
  have hR : Ref P ⟨some (some T.toJson), fun t => if t < T.tiles.length then some (TileH5.full f) else none, none, none,
      fun i => if i < P.job.time.links.length then some (some (B i)) else none, fun _ => none, fun _ => none⟩ T (fun _ => f) := by
    refine ⟨hT, rfl, ?_, ⟨fun _ => oT, fun _ => oS, fun _ => hoT, fun _ => hoS, ?_⟩, fun _ => rfl, hm, fun _ => ?_, fun hc => absurd hn hc⟩
    · unfold processPool
      rw [if_neg (by omega)]
    · intro t ht
      have : t = 0 := by omega
      subst this
      exact hf
    · exact ⟨rfl, rfl, B, hB', fun i => ⟨rfl, rfl, rfl⟩⟩
  obtain ⟨d', hr⟩ := resume_exists (stagesOk hP.job hR) (subDisk_empty _) (fun s hs => absurd hs (Nat.not_lt_zero _))
  exact ⟨d', Run.byWrite hr⟩

/-- C49. Without tiling, and if the whole image can be unwrapped, the workflow completes. -/
theorem C49_single_tile (P : Flow K S) (hP : GoodFlow P) (hu : P.useTiles = false)
    (hpool : 1 ≤ P.job.settings.numParallelTiles) (hm : P.merger.method = "dirichlet")
    (oT : Nat → List Nat → List Nat) (oS : List Nat → List Nat)
    (hoT : ∀ k l, (oT k l).Perm l) (hoS : ∀ l, (oS l).Perm l) (f : TileFile K)
    (hf : unwrapOneTile P.tau P.solver P.job (singleTile (P.job.coh.rows, P.job.coh.cols)) 0 oT oS = .ok f) :
    ∃ d1, RunByWrite P.stages Disk.empty .completed d1 := by
  have hT : makeTiles P.sc P.fl P.useTiles P.tiler P.job.coh.cols P.mask =
      .ok (singleTile (P.job.coh.rows, P.job.coh.cols)) := by
    unfold makeTiles
    rw [(mask_shape P).1, hu]
    simp [singleTile, pure, Except.pure, Bind.bind, Except.bind]
  exact one_tile_runs P hP hpool hm _ hT rfl oT oS hoT hoS f hf

end

/-- Non-vacuity: the example job without tiling. -/
theorem exampleFlow_untiled : ∃ (P : Flow ℚ Unit) (d1 : Disk ℚ), GoodFlow P ∧ P.job = exampleJob ∧ P.tau = 1 ∧ P.useTiles = false ∧
    RunByWrite P.stages Disk.empty .completed d1 := by
  obtain ⟨solver, f, hs, hj, hin, hun⟩ := exampleJob_unwraps
  obtain ⟨mip, hmip, _⟩ := exists_mip_solver
  have hP : GoodFlow (⟨1, ⟨fun _ _ _ => (), fun _ _ => (), fun _ => 0, fun _ _ => true⟩, id, false, {}, exampleJob, solver,
      fun n _ => List.range n, mip, fun _ _ => [], {}, ⟨fun _ => true, fun _ b => b⟩, fun _ => []⟩ : Flow ℚ Unit) := by
    refine ⟨hj, hs, ?_, ⟨2, rounding_id 2, ?_, ?_⟩, fun n es => List.length_range, hmip⟩
    · simp [TilerSettings.check]; norm_num
    · simp [exampleJob]
    · simp [exampleJob]
  obtain ⟨d1, h⟩ := C49_single_tile _ hP rfl (by simp [exampleJob]) rfl _ _ (fun _ l => List.reverse_perm l) (fun l => List.reverse_perm l) f hun
  exact ⟨_, d1, hP, rfl, rfl, rfl, h⟩

theorem exampleFlow_runs : ∃ (P : Flow ℚ Unit) (d1 : Disk ℚ), GoodFlow P ∧ P.job = exampleJob ∧ P.tau = 1 ∧
    RunByWrite P.stages Disk.empty .completed d1 := by
  obtain ⟨P, d1, h1, h2, h3, _, h4⟩ := exampleFlow_untiled
  exact ⟨P, d1, h1, h2, h3, h4⟩

end Spurt
