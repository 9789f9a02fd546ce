import Verif.Props.Reference
import Verif.Props.Resume
import Verif.Lemmas.Refine

/-!
# Property C83: a completed run leaves the results of its own input
-/

namespace Spurt
open Spec

section
variable {K S : Type} [Field K] [LinearOrder K] [FloorRing K] [IsStrictOrderedRing K]

/-- Stages that have nothing to do on a disk. -/
theorem run_idle {ss : List (Stage K)} {d : Disk K} (h : ∀ s ∈ ss, ∀ p, s d p → p.fails = false ∧ ∀ t ∈ p.tasks, t.flatten = [])
    {o : Outcome} {d' : Disk K} (hr : RunByWrite ss d o d') : o ≠ .raised ∧ d' = d := by
  have hex : ∀ (ts : List (List (Write K))) (e e' : Disk K) b, (∀ t ∈ ts, t = []) → Exec Disk.set ts e b e' → e' = e := by
    intro ts e e' b hn hx
    cases hx with
    | stop => rfl
    | done => rfl
    | step k x rest hk _ =>
      have := hn _ (List.mem_of_getElem? hk)
      cases this
  have hmap : ∀ p : Plan K, (∀ t ∈ p.tasks, t.flatten = []) → ∀ t ∈ p.tasks.map List.flatten, t = [] := by
    intro p hp t ht
    obtain ⟨u, hu, rfl⟩ := List.mem_map.mp ht
    exact hp u hu
  unfold RunByWrite at hr
  induction hr with
  | finish d => exact ⟨by simp, rfl⟩
  | stopped hs hx =>
    obtain ⟨_, h2⟩ := h _ (by simp) _ hs
    exact ⟨by simp, hex _ _ _ _ (hmap _ h2) hx⟩
  | raised hs hf hx =>
    obtain ⟨h1, _⟩ := h _ (by simp) _ hs
    rw [h1] at hf; cases hf
  | next hs hf hx _ ih =>
    obtain ⟨_, h2⟩ := h _ (by simp) _ hs
    have he := hex _ _ _ _ (hmap _ h2) hx
    subst he
    exact ih fun s hs => h s (by simp [hs])

theorem run_idle_exists {ss : List (Stage K)} {d : Disk K}
    (h : ∀ s ∈ ss, ∃ p, s d p ∧ p.fails = false ∧ ∀ t ∈ p.tasks, t = []) : RunByFile ss d .completed d := by
  unfold RunByFile
  induction ss with
  | nil => exact .finish d
  | cons s ss ih =>
    obtain ⟨p, h1, h2, h3⟩ := h s (by simp)
    exact .next h1 h2 (.done _ d (by simpa using h3)) (ih fun s hs => h s (by simp [hs]))

theorem batchesRun_idle (tau : K) (env : MergeEnv K) (omap : List (List Nat)) (maxDegree : Nat) (bulk : List (List K))
    (shape : Nat × Nat) (isFile : Nat → Bool) (bs : List (List Nat)) (h : ∀ b ∈ bs, ∀ i ∈ b, isFile i = true)
    (ts : List (TileState K)) : batchesRun tau env omap maxDegree bulk shape isFile bs ts = ([], false) := by
  induction bs generalizing ts with
  | nil => rfl
  | cons b bs ih =>
    have he : (b.filter fun i => !isFile i) = [] := by
      rw [List.filter_eq_nil_iff]
      intro i hi
      simp [h b (by simp) i hi]
    have hb : batchRun tau env omap maxDegree bulk shape isFile ts b = ([], some ts) := by
      unfold batchRun
      simp only [he, if_true]
    unfold batchesRun
    simp only [hb, ih (fun b hb => h b (by simp [hb])), List.nil_append]

/-- With all rasters present there is nothing to merge. -/
theorem mergeWork_idle {P : Flow K S} {d : Disk K} (h : ∀ i < P.job.time.links.length, (d.unw i).isSome = true)
    {r : List (List (Write K)) × Bool} (hr : P.mergeWork d = .ok r) : r = ([], false) := by
  unfold Flow.mergeWork at hr
  split at hr
  · cases hr
  have hfil : ((List.range P.job.time.links.length).filter fun i => !(d.unw i).isSome) = [] := by
    rw [List.filter_eq_nil_iff]
    intro i hi
    simp [h i (List.mem_range.mp hi)]
  cases e1 : d.readTiles with
  | error e => rw [e1] at hr; simp [Bind.bind, Except.bind] at hr
  | ok T =>
  rw [e1] at hr
  simp only [Bind.bind, Except.bind] at hr
  split at hr
  · cases hr
  split at hr
  · split at hr
    · cases hr
    simp only [hfil, singleRun, pure, Except.pure, List.map_nil, Except.ok.injEq] at hr
    exact hr.symm
  · split at hr
    · cases hr
    split at hr
    · cases hr
    split at hr
    · cases hr
    split at hr
    · cases hr
    split at hr
    · cases hr
    split at hr
    · cases hr
    next batches hb =>
    rw [batchesRun_idle] at hr
    · simp only [pure, Except.pure, List.map_nil, Except.ok.injEq] at hr
      exact hr.symm
    · intro b hbb i hi
      obtain ⟨bs, f, rfl⟩ : ∃ (bs : Nat) (f : Nat → Nat → Bool), batches = (List.range bs).map fun k =>
          (List.range P.job.time.links.length).filter (f k) := by
        unfold mergeBatches at hb
        dsimp only at hb
        generalize (if min P.merger.numParallelIfgs (P.job.time.links.length : ℤ) < 1 then P.job.time.links.length
          else (min P.merger.numParallelIfgs (P.job.time.links.length : ℤ)).toNat) = bs at hb
        by_cases hz : bs = 0
        · rw [if_pos hz] at hb; cases hb
        · rw [if_neg hz] at hb
          exact ⟨_, _, (Except.ok.inj hb).symm⟩
      obtain ⟨k, _, rfl⟩ := List.mem_map.mp hbb
      exact h i (List.mem_range.mp (List.mem_filter.mp hi).1)

/-- The folder after calls with any of the stacks `J`, each stopped between files or completed. -/
def Spec.AfterCalls (P : Flow K S) (J : TileJob K → Prop) : Disk K → Disk K → Prop :=
  Relation.ReflTransGen fun d d' => ∃ j o, J j ∧ RunByFile (withJob P j).stages d o d'

/-- C83. If the folders hold only what calls with this stack have written, or with stacks for which the workflow alone leaves the
same files, a call that completes leaves the results of its own input. Missing: folders with the files of another stack, see
`C83_stale_refuted`. -/
theorem C83_own_result_partial (P : Flow K S) (J : TileJob K → Prop) (d1 : Disk K) (hP : GoodFlow P)
    (h1 : RunByWrite P.stages Disk.empty .completed d1)
    (hJ : ∀ j, J j → GoodFlow (withJob P j) ∧ RunByWrite (withJob P j).stages Disk.empty .completed d1)
    (d : Disk K) (hd : AfterCalls P J Disk.empty d) :
    (∀ o d', RunByWrite P.stages d o d' → o ≠ .raised ∧ (o = .completed → d' = d1)) ∧ RunByFile P.stages d .completed d1 := by
  have hs : SubDisk d d1 := by
    induction hd with
    | refl => exact subDisk_empty d1
    | tail _ h ih =>
      obtain ⟨j, o, hj, h⟩ := h
      exact ((C49_resume _ (hJ j hj).1 d1 (hJ j hj).2 _ ih).1 _ _ h).2.1
  exact (C49_resume P hP d1 h1 d hs).2

/-- C83 is false in general. After a completed run, a call with any other stack that has as many interferograms, in the same folders,
completes and leaves the files of the first run, wherever it is stopped: the files of another input are taken over without a check. -/
theorem C83_stale_refuted (P : Flow K S) (hP : GoodFlow P) (d1 : Disk K) (h1 : RunByWrite P.stages Disk.empty .completed d1)
    (j' : TileJob K) (hn : j'.time.links.length = P.job.time.links.length) (hpool : 1 ≤ j'.settings.numParallelTiles) :
    (∀ o d', RunByWrite (withJob P j').stages d1 o d' → o ≠ .raised ∧ d' = d1) ∧
    RunByFile (withJob P j').stages d1 .completed d1 := by
  obtain ⟨T, F, r⟩ := ref_of_run hP h1
  have hp : processPool j'.settings.numParallelTiles = .ok () := by
    unfold processPool
    rw [if_neg (by omega)]
  have hmiss : missingTiles d1 T.tiles.length = [] := by
    unfold missingTiles
    rw [List.filter_eq_nil_iff]
    intro t ht
    rw [r.tile1 t, if_pos (List.mem_range.mp ht)]
    simp
  have hunw : ∀ i < P.job.time.links.length, (d1.unw i).isSome = true := by
    intro i hi
    by_cases h : T.tiles.length = 1
    · obtain ⟨_, _, B, _, hB⟩ := r.one h
      rw [(hB i).1, if_pos hi]; rfl
    · obtain ⟨s, b, M, _, _, _, _, _, hM⟩ := r.many h
      rw [(hM i).1, if_pos hi]; rfl
  have e1 : ∀ p, (withJob P j').tilesStage d1 p ↔ p = .skip := by
    intro p
    unfold Flow.tilesStage
    rw [r.tiles1]; simp
  have e2 : ∀ p, (withJob P j').unwrapStage d1 p → p = ⟨[], false⟩ := by
    intro p h
    unfold Flow.unwrapStage at h
    simp only [withJob, hp, r.readTiles, hmiss] at h
    obtain ⟨oT, oS, _, _, rfl⟩ := h
    rfl
  have e2' : (withJob P j').unwrapStage d1 ⟨[], false⟩ := by
    unfold Flow.unwrapStage
    simp only [withJob, hp, r.readTiles, hmiss]
    exact ⟨fun _ _ l => l, fun _ l => l, fun _ _ l => List.Perm.refl l, fun _ l => List.Perm.refl l, rfl⟩
  have e3 : ∀ p, (withJob P j').overlapStage d1 p ↔ p = .skip := by
    intro p
    unfold Flow.overlapStage
    by_cases h : T.tiles.length = 1
    · rw [(r.one h).1, r.readTiles]; simp [h]
    · obtain ⟨s, b, M, _, ho, _⟩ := r.many h
      rw [ho]; simp
  have e4 : ∀ p, (withJob P j').bulkStage d1 p ↔ p = .skip := by
    intro p
    unfold Flow.bulkStage
    by_cases h : T.tiles.length = 1
    · rw [(r.one h).2.1, r.readTiles]; simp [h]
    · obtain ⟨s, b, M, _, _, _, ho, _⟩ := r.many h
      rw [ho]; simp
  have hmw : (withJob P j').mergeWork d1 = P.mergeWork d1 := by
    unfold Flow.mergeWork
    simp only [withJob, hn]
  have hok := (stageOk_merge r) d1 (subDisk_refl d1) (fun _ _ => rfl)
  have hm : P.mergeWork d1 = .ok ([], false) := by
    obtain ⟨⟨p, hp⟩, hall⟩ := hok
    have hf := (hall p hp).fine
    unfold Flow.mergeStage at hp
    cases e : P.mergeWork d1 with
    | error er => rw [e] at hp; simp only at hp; rw [hp] at hf; cases hf
    | ok x => rw [mergeWork_idle hunw e]
  have e5 : ∀ p, (withJob P j').mergeStage d1 p ↔ p = ⟨[[]], false⟩ := by
    intro p
    unfold Flow.mergeStage
    rw [hmw, hm]
  refine ⟨fun o d' h => run_idle ?_ h, run_idle_exists ?_⟩
  · intro s hs p hp
    simp only [Flow.stages, List.mem_cons, List.not_mem_nil, or_false] at hs
    rcases hs with rfl | rfl | rfl | rfl | rfl
    · rw [(e1 p).mp hp]; exact ⟨rfl, by simp [Plan.skip]⟩
    · rw [e2 p hp]; exact ⟨rfl, by simp⟩
    · rw [(e3 p).mp hp]; exact ⟨rfl, by simp [Plan.skip]⟩
    · rw [(e4 p).mp hp]; exact ⟨rfl, by simp [Plan.skip]⟩
    · rw [(e5 p).mp hp]; exact ⟨rfl, by simp⟩
  · intro s hs
    simp only [Flow.stages, List.mem_cons, List.not_mem_nil, or_false] at hs
    rcases hs with rfl | rfl | rfl | rfl | rfl
    · exact ⟨_, (e1 _).mpr rfl, rfl, by simp [Plan.skip]⟩
    · exact ⟨_, e2', rfl, by simp⟩
    · exact ⟨_, (e3 _).mpr rfl, rfl, by simp [Plan.skip]⟩
    · exact ⟨_, (e4 _).mpr rfl, rfl, by simp [Plan.skip]⟩
    · exact ⟨_, (e5 _).mpr rfl, rfl, by simp⟩

end

end Spurt
