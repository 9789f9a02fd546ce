import Verif.Lemmas.Crash

/-!
# Property C50: crashes between two writes
-/

namespace Spurt

section
variable {K S : Type} [Field K] [LinearOrder K] [FloorRing K]

/-- The folder after any number of runs, each stopped after any write, ended by an exception or
completed. -/
def Spec.AfterAnyRuns (P : Flow K S) : Disk K → Disk K → Prop :=
  Relation.ReflTransGen fun d d' => ∃ o, RunByWrite P.stages d o d'

/-- No run completes, however often the workflow is started again. -/
def Spec.NeverCompletes (P : Flow K S) (d : Disk K) : Prop :=
  ∀ d', Spec.AfterAnyRuns P d d' → ∀ d'', ¬ RunByWrite P.stages d' .completed d''

/-- `c` is what is left of `d` after deleting files, at least: every incomplete file, and if there is
more than one tile the unwrapped raster of every interferogram whose difference or model raster is
deleted or missing. -/
structure Spec.CleanedUp {K : Type} (many : Prop) (d c : Disk K) : Prop where
  tiles : c.tiles ≠ none → c.tiles = d.tiles ∧ c.tiles ≠ some none
  tile : ∀ t, c.tile t ≠ none → c.tile t = d.tile t ∧ ∃ uw pts b off, c.tile t = some ⟨some uw, some pts, some b, some off⟩
  overlap : c.overlap ≠ none → c.overlap = d.overlap ∧ ∀ h, c.overlap = some h → h.overlaps ≠ none
  offsets : c.offsets ≠ none → c.offsets = d.offsets ∧ ∀ h, c.offsets = some h → h.residuals ≠ none
  unw : ∀ i, c.unw i ≠ none → c.unw i = d.unw i ∧ c.unw i ≠ some none ∧ (many → c.diff i ≠ none ∧ c.model i ≠ none)
  diff : ∀ i, c.diff i ≠ none → c.diff i = d.diff i ∧ c.diff i ≠ some none
  model : ∀ i, c.model i ≠ none → c.model i = d.model i ∧ c.model i ≠ some none

end

open Spec

section
variable {K S : Type} [Field K] [LinearOrder K] [FloorRing K]

/-! ### Files that stop the workflow for good -/

/-- A file of `d` that later stages need cannot be read. -/
def Spec.Damaged (d : Disk K) : Prop :=
  d.tiles = some none ∨
  ∃ T, d.readTiles = .ok T ∧
    ((∃ t < T.tiles.length, ∃ h, d.tile t = some h ∧ (h.uw = none ∨ h.points = none ∨ h.tile = none ∨ h.phaseOffset = none)) ∨
     T.tiles.length ≠ 1 ∧ (∃ h, d.overlap = some h ∧ (h.labels = none ∨ h.overlaps = none)) ∨
     T.tiles.length ≠ 1 ∧ ∃ h, d.offsets = some h ∧ (h.method = none ∨ h.offsets = none))

theorem damaged_keeps {d d' : Disk K} (h : Keeps d d') (hd : Damaged d) : Damaged d' := by
  rcases hd with hd | ⟨T, hT, hd⟩
  · left; rw [h.tiles (by simp [hd]), hd]
  · right
    have ht : d.tiles ≠ none := by
      intro hc
      unfold Disk.readTiles at hT
      rw [hc] at hT
      simp at hT
    refine ⟨T, by rw [← hT]; exact readTiles_congr (h.tiles ht), ?_⟩
    rcases hd with ⟨t, h1, x, h2, h3⟩ | ⟨hn, x, h2, h3⟩ | ⟨hn, x, h2, h3⟩
    · exact Or.inl ⟨t, h1, x, by rw [h.tile t (by simp [h2]), h2], h3⟩
    · exact Or.inr (Or.inl ⟨hn, x, by rw [h.overlap (by simp [h2]), h2], h3⟩)
    · exact Or.inr (Or.inr ⟨hn, x, by rw [h.offsets (by simp [h2]), h2], h3⟩)

theorem damaged_merge (P : Flow K S) {d : Disk K} (hd : Damaged d) (r : List (List (Write K)) × Bool) :
    P.mergeWork d ≠ .ok r := by
  intro h
  unfold Flow.mergeWork at h
  split at h
  · simp at h
  rcases hd with hd | ⟨T, hT, hd⟩
  · rw [show d.readTiles = .error .valueError by unfold Disk.readTiles; rw [hd]] at h
    simp [Bind.bind, Except.bind] at h
  · rw [hT, except_ok_bind] at h
    simp only at h
    cases hm : (List.range T.tiles.length).mapM (fun ii => do
        let f ← d.readTile ii
        pure (TileState.start f)) with
    | error e => rw [hm] at h; simp [Bind.bind, Except.bind] at h
    | ok ts =>
    rw [hm, except_ok_bind] at h
    rcases hd with ⟨t, h1, x, h2, h3⟩ | ⟨hn, x, h2, h3⟩ | ⟨hn, x, h2, h3⟩
    · obtain ⟨_, _, _, hall⟩ := mapM_exists _ _ (mapM_ok_imp hm)
      obtain ⟨_, hy⟩ := mapM_ok_imp hm t (List.mem_range.mpr h1)
      have : d.readTile t = .error .keyError := by
        unfold Disk.readTile TileH5.read
        rw [h2]
        obtain ⟨a, b, c, e⟩ := x
        simp only at h3 ⊢
        rcases h3 with rfl | rfl | rfl | rfl
        · rfl
        · cases a <;> rfl
        · cases a <;> cases b <;> rfl
        · cases a <;> cases b <;> cases c <;> rfl
      rw [this] at hy
      simp [Bind.bind, Except.bind] at hy
    · rw [if_neg hn] at h
      have : d.readOverlap = .error .keyError := by
        unfold Disk.readOverlap
        rw [h2]
        obtain ⟨a, b, c⟩ := x
        simp only at h3 ⊢
        rcases h3 with rfl | rfl
        · rfl
        · cases b <;> rfl
      rw [this] at h
      simp [Bind.bind, Except.bind] at h
    · rw [if_neg hn] at h
      have : d.readOffsets = .error .keyError := by
        unfold Disk.readOffsets
        rw [h2]
        obtain ⟨a, b, c⟩ := x
        simp only at h3 ⊢
        rcases h3 with rfl | rfl
        · rfl
        · cases a <;> rfl
      rw [this] at h
      simp only [Bind.bind, Except.bind] at h
      repeat' split at h
      all_goals simp at h

/-- C50. If tiles.json, a tile file, the overlap file or the offsets file was left unreadable, the
workflow never completes again: the file is taken as done and is never written again. -/
theorem C50_damaged_refuted (P : Flow K S) (d : Disk K) (hd : Damaged d) : NeverCompletes P d := by
  have hall : ∀ d', AfterAnyRuns P d d' → Damaged d' := by
    intro d' hrun
    induction hrun with
    | refl => exact hd
    | tail _ h ih =>
      obtain ⟨o, h⟩ := h
      exact damaged_keeps (C49_never_overwrites P _ _ o h) ih
  intro d' hrun d'' hc
  have hd' := hall d' hrun
  unfold Flow.stages at hc
  have hk : ∀ {s : Stage K} {e e' : Disk K} {p : Plan K}, s ∈ P.stages → s e p →
      Exec Disk.set (p.tasks.map List.flatten) e true e' → Damaged e → Damaged e' := by
    intro s e e' p hs hp hx he
    exact damaged_keeps (keeps_exec (stages_fresh P s hs e p hp) hx) he
  obtain ⟨p1, e1, hp1, _, hx1, hc⟩ := run_next hc
  obtain ⟨p2, e2, hp2, _, hx2, hc⟩ := run_next hc
  obtain ⟨p3, e3, hp3, _, hx3, hc⟩ := run_next hc
  obtain ⟨p4, e4, hp4, _, hx4, hc⟩ := run_next hc
  obtain ⟨p5, e5, hp5, hf5, _, _⟩ := run_next hc
  have h4 : Damaged e4 := hk (by simp [Flow.stages]) hp4 hx4 (hk (by simp [Flow.stages]) hp3 hx3
    (hk (by simp [Flow.stages]) hp2 hx2 (hk (by simp [Flow.stages]) hp1 hx1 hd')))
  unfold Flow.mergeStage at hp5
  cases hm : P.mergeWork e4 with
  | ok r => exact damaged_merge P h4 r hm
  | error e =>
    rw [hm] at hp5
    simp only at hp5
    subst hp5
    simp [Plan.raise] at hf5

/-- C50. An interferogram whose `.unw.tif` exists is never touched again: a truncated raster stays
truncated, and a missing difference or model raster stays missing. -/
theorem C50_raster_kept_refuted (P : Flow K S) (d : Disk K) (i : Nat) (hu : d.unw i ≠ none) (d' : Disk K)
    (h : AfterAnyRuns P d d') : d'.unw i = d.unw i ∧ d'.diff i = d.diff i ∧ d'.model i = d.model i := by
  induction h with
  | refl => exact ⟨rfl, rfl, rfl⟩
  | tail _ h ih =>
    obtain ⟨o, h⟩ := h
    obtain ⟨a, b, c⟩ := (C49_never_overwrites P _ _ o h).unw i (by rw [ih.1]; exact hu)
    exact ⟨a.trans ih.1, b.trans ih.2.1, c.trans ih.2.2⟩

end

section
variable {K S : Type} [Field K] [LinearOrder K] [FloorRing K] [IsStrictOrderedRing K]

/-! ### Every file can be left incomplete -/

/-- A crash right after the file was created, with the files of the earlier stages complete and none
of the later stages. -/
theorem crash_at {P : Flow K S} (hP : GoodFlow P) {d1 : Disk K} {T : TileSet} {F : Nat → TileFile K}
    (hR : Ref P d1 T F) (s : Slot) (hs : d1.get s ≠ none) :
    ∃ d, RunByWrite P.stages Disk.empty .stopped d ∧ d.get s = some s.created ∧ d.get s.guard ≠ none ∧
      AgreeUpTo s.stage d d1 := by
  have hok := stagesOk hP.job hR
  have hlt : s.stage < P.stages.length := by cases s <;> simp [Slot.stage, Flow.stages]
  obtain ⟨e, r1, r2, r3, r4⟩ := run_upto (d1 := d1) (ss := P.stages) (j := 0) hok
    (fun i st hi d p hp => by rw [Nat.zero_add]; exact stages_form P i st hi d p hp)
    (subDisk_empty d1) (fun s hs => absurd hs (Nat.not_lt_zero _))
    (by intro s _; cases s <;> rfl) s.stage hlt.le
  rw [Nat.zero_add] at r3 r4
  obtain ⟨st, hst⟩ : ∃ st, P.stages[s.stage]? = some st := ⟨_, List.getElem?_eq_getElem hlt⟩
  obtain ⟨⟨p, hp⟩, hall⟩ := hok s.stage st hst e r2 (by rw [Nat.zero_add]; exact r3)
  have hp' := hall p hp
  rw [Nat.zero_add] at hp'
  have hform := stages_form P _ st hst e p hp
  rcases hp'.files s rfl with hc | ⟨t, ht, u, hu, hw⟩
  · exact absurd (hc.symm.trans (r4 s le_rfl)) hs
  · obtain ⟨a', b', hab', hg⟩ := (hform t ht u hu).1.created s hw
    obtain ⟨a, b, hab⟩ := List.append_of_mem hu
    have hsplit : t.flatten = (a.flatten ++ a' ++ [s.created]) ++ (b' ++ b.flatten) := by
      rw [hab]
      simp [hab']
    have hx := Exec.prefix_stop (act := Disk.set) (List.mem_map_of_mem (f := List.flatten) ht) hsplit e
    refine ⟨(a.flatten ++ a' ++ [s.created]).foldl Disk.set e, ?_, ?_, ?_, ?_⟩
    · have : P.stages = P.stages.take s.stage ++ st :: P.stages.drop (s.stage + 1) := by
        obtain ⟨hl, rfl⟩ := List.getElem?_eq_some_iff.mp hst
        rw [List.getElem_cons_drop hl, List.take_append_drop]
      rw [this]
      exact run_append r1 (.stopped hp hx)
    · rw [List.foldl_append, List.foldl_cons, List.foldl_nil, Disk.get_set, if_pos]
      cases s <;> rfl
    · rw [get_foldl_set]
      have hwr : Writes (a.flatten ++ a' ++ [s.created]) s.guard := by
        by_cases hgs : s.guard = s
        · exact ⟨s.created, by simp, by rw [hgs]; cases s <;> rfl⟩
        · obtain ⟨w, h1, h2⟩ := hg hgs
          exact ⟨w, by simp [h1], h2⟩
      have := mt lastW_none.mp (not_not.mpr hwr)
      obtain ⟨x, hx⟩ := Option.ne_none_iff_exists'.mp this
      rw [hx]
      simp
    · intro s' hs'
      rw [get_foldl_set, lastW_none.mpr, Option.none_or, r3 s' hs']
      rintro ⟨w, hw', hws⟩
      have hmem : w ∈ t.flatten := by rw [hsplit, List.mem_append]; exact Or.inl hw'
      obtain ⟨v, hv, hw'⟩ := List.mem_flatten.mp hmem
      have := (hform t ht v hv).2 w hw'
      rw [hws] at this
      omega

/-- C50 is false, for every workflow that completes: at any of its files but the rasters the process
can be stopped so that no later run completes. -/
theorem C50_refuted (P : Flow K S) (hP : GoodFlow P) (d1 : Disk K) (h1 : RunByWrite P.stages Disk.empty .completed d1) :
    (∃ d, RunByWrite P.stages Disk.empty .stopped d ∧ d.tiles = some none ∧ NeverCompletes P d) ∧
    (∀ t, d1.tile t ≠ none → ∃ d, RunByWrite P.stages Disk.empty .stopped d ∧ d.tile t = some {} ∧ NeverCompletes P d) ∧
    (d1.overlap ≠ none → ∃ d, RunByWrite P.stages Disk.empty .stopped d ∧ d.overlap = some {} ∧ NeverCompletes P d) ∧
    (d1.offsets ≠ none → ∃ d, RunByWrite P.stages Disk.empty .stopped d ∧ d.offsets = some {} ∧ NeverCompletes P d) := by
  obtain ⟨T, F, hR⟩ := ref_of_run hP h1
  have hT : ∀ d, AgreeUpTo 1 d d1 → d.readTiles = .ok T := fun d hd =>
    (readTiles_congr (agree_tiles hd (by omega))).trans hR.readTiles
  have hmono : ∀ {d : Disk K} {j k : Nat}, j ≤ k → AgreeUpTo k d d1 → AgreeUpTo j d d1 :=
    fun hjk h s hs => h s (by omega)
  refine ⟨?_, ?_, ?_, ?_⟩
  · obtain ⟨d, r, hg, _, _⟩ := crash_at hP hR .tiles (by rw [Ne, get_none]; simp [hR.tiles1])
    have : d.tiles = some none := by
      simp only [Disk.get, Slot.created, Option.map_eq_some_iff] at hg
      obtain ⟨c, h2, h3⟩ := hg
      simp only [Write.tiles.injEq] at h3
      rw [h2, h3]
    exact ⟨d, r, this, C50_damaged_refuted P d (Or.inl this)⟩
  · intro t ht
    obtain ⟨d, r, hg, _, ha⟩ := crash_at hP hR (.tile t) (by rw [Ne, get_none]; exact ht)
    have hd : d.tile t = some {} := by
      simp only [Disk.get, Slot.created, Option.map_eq_some_iff] at hg
      obtain ⟨c, h2, h3⟩ := hg
      simp only [Write.tile.injEq, true_and] at h3
      rw [h2, h3]
    have hlt : t < T.tiles.length := by
      by_contra hc
      exact ht (by rw [hR.tile1 t, if_neg hc])
    exact ⟨d, r, hd, C50_damaged_refuted P d (Or.inr ⟨T, hT d ha, Or.inl ⟨t, hlt, {}, hd, Or.inl rfl⟩⟩)⟩
  · intro ho
    obtain ⟨d, r, hg, _, ha⟩ := crash_at hP hR .overlap (by rw [Ne, get_none]; exact ho)
    have hd : d.overlap = some {} := by
      simp only [Disk.get, Slot.created, Option.map_eq_some_iff] at hg
      obtain ⟨c, h2, h3⟩ := hg
      simp only [Write.overlap.injEq] at h3
      rw [h2, h3]
    have hn : T.tiles.length ≠ 1 := fun hc => ho (hR.one hc).1
    exact ⟨d, r, hd, C50_damaged_refuted P d (Or.inr ⟨T, hT d (hmono (by simp [Slot.stage]) ha),
      Or.inr (Or.inl ⟨hn, {}, hd, Or.inl rfl⟩)⟩)⟩
  · intro ho
    obtain ⟨d, r, hg, _, ha⟩ := crash_at hP hR .offsets (by rw [Ne, get_none]; exact ho)
    have hd : d.offsets = some {} := by
      simp only [Disk.get, Slot.created, Option.map_eq_some_iff] at hg
      obtain ⟨c, h2, h3⟩ := hg
      simp only [Write.offsets.injEq] at h3
      rw [h2, h3]
    have hn : T.tiles.length ≠ 1 := fun hc => ho (hR.one hc).2.1
    exact ⟨d, r, hd, C50_damaged_refuted P d (Or.inr ⟨T, hT d (hmono (by simp [Slot.stage]) ha),
      Or.inr (Or.inr ⟨hn, {}, hd, Or.inl rfl⟩)⟩)⟩

/-- On a folder with all files but rasters, and no matter which rasters, the workflow completes. -/
theorem completes_without_rasters {P : Flow K S} {d1 : Disk K} {T : TileSet} {F : Nat → TileFile K}
    (hR : Ref P d1 T F) {d : Disk K} (ha : AgreeUpTo 4 d d1) : ∃ d', RunByFile P.stages d .completed d' := by
  have hT : d.readTiles = .ok T := (readTiles_congr (agree_tiles ha (by omega))).trans hR.readTiles
  have hF : d.readTile = d1.readTile := readTile_congr (agree_tile ha (by omega))
  have hskip : ∀ {s : Stage K} {ss : List (Stage K)} {p : Plan K}, s d p → p.tasks = [] → p.fails = false →
      (∃ d', RunByFile ss d .completed d') → ∃ d', RunByFile (s :: ss) d .completed d' := by
    rintro s ss p hp ht hf ⟨d', h⟩
    refine ⟨d', .next hp hf (by rw [ht]; exact .done _ _ (by simp)) h⟩
  unfold Flow.stages
  refine hskip (p := .skip) ?_ rfl rfl (hskip (p := ⟨[], false⟩) ?_ rfl rfl (hskip (p := .skip) ?_ rfl rfl
    (hskip (p := .skip) ?_ rfl rfl ?_)))
  · unfold Flow.tilesStage
    rw [if_pos (by rw [agree_tiles ha (by omega), hR.tiles1]; rfl)]
  · unfold Flow.unwrapStage
    rw [hR.pool, hT]
    refine ⟨fun _ _ l => l, fun _ l => l, fun _ _ _ => List.Perm.refl _, fun _ _ => List.Perm.refl _, ?_⟩
    have : missingTiles d T.tiles.length = [] := by
      unfold missingTiles
      rw [List.filter_eq_nil_iff]
      intro t ht
      rw [agree_tile ha (by omega), hR.tile1 t, if_pos (List.mem_range.mp ht)]
      simp
    simp [this]
  · unfold Flow.overlapStage
    by_cases hn : T.tiles.length = 1
    · rw [if_neg (by rw [agree_overlap ha (by omega), (hR.one hn).1]; simp), hT]
      simp only [if_pos hn]
    · obtain ⟨s, b, M, _, h2, _⟩ := hR.many hn
      rw [if_pos (by rw [agree_overlap ha (by omega), h2]; rfl)]
  · unfold Flow.bulkStage
    by_cases hn : T.tiles.length = 1
    · rw [if_neg (by rw [agree_offsets ha (by omega), (hR.one hn).2.1]; simp), hT]
      simp only [if_pos hn]
    · obtain ⟨s, b, M, _, _, _, h4, _⟩ := hR.many hn
      rw [if_pos (by rw [agree_offsets ha (by omega), h4]; rfl)]
  · obtain ⟨us, hus⟩ : ∃ us, P.mergeWork d = .ok (us, false) := by
      by_cases hn : T.tiles.length = 1
      · obtain ⟨_, _, B, hB, h1⟩ := hR.one hn
        have hrun := (singleRun_ok (shape := imageShape T) (f := F 0)
          ((List.range P.job.time.links.length).filter fun i => !(d.unw i).isSome) (TileState.start (F 0)) rfl).2 B (by
            intro i hi
            exact hB i (List.mem_range.mp (List.mem_filter.mp hi).1))
        rw [mergeWork_single (F := F) hT (fun t ht => by rw [hF]; exact hR.readTile ht) hn hR.method, hrun]
        exact ⟨_, rfl⟩
      · obtain ⟨s, b, M, _, h2, _, h4, h5, h1⟩ := hR.many hn
        have ho : d.readOverlap = .ok (P.olap T s) := readOverlap_full ((agree_overlap ha (by omega)).trans h2)
        have hb : d.readOffsets = .ok ⟨b.method, b.offsets, []⟩ := readOffsets_full ((agree_offsets ha (by omega)).trans h4)
        exact ⟨_, (mergeWork_eq P d hT ho hb hn).2 _ (by rw [hF]; exact h5 fun i => (d.unw i).isSome)⟩
    obtain ⟨d', he⟩ := Exec.exists_complete (fun (d : Disk K) u => u.foldl Disk.set d) [us] d
    refine ⟨d', .next (p := ⟨[us], false⟩) ?_ rfl (by rw [List.map_id]; exact he) (.finish d')⟩
    unfold Flow.mergeStage
    rw [hus]

/-- C50 is false, for every workflow that completes and every interferogram: the process can be
stopped so that the next run completes without an exception and the interferogram is a truncated
raster, which no later run repairs. -/
theorem C50_truncated_refuted (P : Flow K S) (hP : GoodFlow P) (d1 : Disk K)
    (h1 : RunByWrite P.stages Disk.empty .completed d1) (i : Nat) (hi : d1.unw i ≠ none) :
    ∃ d, RunByWrite P.stages Disk.empty .stopped d ∧ (∃ d', RunByFile P.stages d .completed d') ∧
      d1.unw i ≠ some none ∧ ∀ d', AfterAnyRuns P d d' → d'.unw i = some none := by
  obtain ⟨T, F, hR⟩ := ref_of_run hP h1
  obtain ⟨d, r, hg, _, ha⟩ := crash_at hP hR (.unw i) (by rw [Ne, get_none]; exact hi)
  have hd : d.unw i = some none := by
    simp only [Disk.get, Slot.created, Option.map_eq_some_iff] at hg
    obtain ⟨c, h2, h3⟩ := hg
    simp only [Write.unw.injEq, true_and] at h3
    rw [h2, h3]
  refine ⟨d, r, completes_without_rasters hR ha, ?_, fun d' h => ?_⟩
  · intro hc
    by_cases hn : T.tiles.length = 1
    · obtain ⟨_, _, B, _, hB⟩ := hR.one hn
      have := (hB i).1
      rw [hc] at this
      split at this <;> simp at this
    · obtain ⟨_, _, M, _, _, _, _, _, hM⟩ := hR.many hn
      have := (hM i).1
      rw [hc] at this
      split at this <;> simp at this
  · rw [(C50_raster_kept_refuted P d i (by simp [hd]) d' h).1, hd]

/-- C50 is false also for the companion rasters of every workflow with more than one tile: the process
can be stopped so that the next run completes and the difference (the model) raster stays truncated
while `.unw.tif` is there, and no later run repairs it. -/
theorem C50_companion_refuted (P : Flow K S) (hP : GoodFlow P) (d1 : Disk K)
    (h1 : RunByWrite P.stages Disk.empty .completed d1) (i : Nat) :
    (d1.diff i ≠ none → ∃ d, RunByWrite P.stages Disk.empty .stopped d ∧ (∃ d', RunByFile P.stages d .completed d') ∧
      d1.diff i ≠ some none ∧ ∀ d', AfterAnyRuns P d d' → d'.diff i = some none) ∧
    (d1.model i ≠ none → ∃ d, RunByWrite P.stages Disk.empty .stopped d ∧ (∃ d', RunByFile P.stages d .completed d') ∧
      d1.model i ≠ some none ∧ ∀ d', AfterAnyRuns P d d' → d'.model i = some none) := by
  obtain ⟨T, F, hR⟩ := ref_of_run hP h1
  refine ⟨fun hi => ?_, fun hi => ?_⟩
  · obtain ⟨d, r, hg, hu, ha⟩ := crash_at hP hR (.diff i) (by rw [Ne, get_none]; exact hi)
    have hd : d.diff i = some none := by
      simp only [Disk.get, Slot.created, Option.map_eq_some_iff] at hg
      obtain ⟨c, h2, h3⟩ := hg
      simp only [Write.diff.injEq, true_and] at h3
      rw [h2, h3]
    refine ⟨d, r, completes_without_rasters hR ha, ?_, fun d' h => ?_⟩
    · intro hc
      by_cases hn : T.tiles.length = 1
      · obtain ⟨_, _, B, _, hB⟩ := hR.one hn
        exact hi (hB i).2.1
      · obtain ⟨_, _, M, _, _, _, _, _, hM⟩ := hR.many hn
        have := (hM i).2.1
        rw [hc] at this
        split at this <;> simp at this
    · rw [(C50_raster_kept_refuted P d i (by rw [Ne, Slot.guard, get_none] at hu; exact hu) d' h).2.1, hd]
  · obtain ⟨d, r, hg, hu, ha⟩ := crash_at hP hR (.model i) (by rw [Ne, get_none]; exact hi)
    have hd : d.model i = some none := by
      simp only [Disk.get, Slot.created, Option.map_eq_some_iff] at hg
      obtain ⟨c, h2, h3⟩ := hg
      simp only [Write.model.injEq, true_and] at h3
      rw [h2, h3]
    refine ⟨d, r, completes_without_rasters hR ha, ?_, fun d' h => ?_⟩
    · intro hc
      by_cases hn : T.tiles.length = 1
      · obtain ⟨_, _, B, _, hB⟩ := hR.one hn
        exact hi (hB i).2.2
      · obtain ⟨_, _, M, _, _, _, _, _, hM⟩ := hR.many hn
        have := (hM i).2.2
        rw [hc] at this
        split at this <;> simp at this
    · rw [(C50_raster_kept_refuted P d i (by rw [Ne, Slot.guard, get_none] at hu; exact hu) d' h).2.2, hd]

/-! ### Recovery after cleaning up -/

/-- Every file of `d` is absent, incomplete or the one of `d1`. -/
def Tidy (d d1 : Disk K) : Prop := ∀ s w, d.get s = some w → w.incomplete ∨ d1.get s = some w

omit [Field K] [LinearOrder K] [FloorRing K] [IsStrictOrderedRing K] in
theorem tidy_sub {d d1 : Disk K} (h : SubDisk d d1) : Tidy d d1 := by
  intro s w hw
  right
  rw [← (subDisk_iff.mp h).1 s (by simp [hw]), hw]

omit [Field K] [LinearOrder K] [FloorRing K] [IsStrictOrderedRing K] in
theorem tidy_exec {d d1 d' : Disk K} {b : Bool} {k : Nat} {p : Plan K} (hd : Tidy d d1) (hf : PlanForm k p)
    (hu : ∀ t ∈ p.tasks, ∀ u ∈ t, UnitOk d1 u) (h : Exec Disk.set (p.tasks.map List.flatten) d b d') : Tidy d' d1 := by
  refine h.invariant (fun d => Tidy d d1) ?_ hd
  intro e he t ht w hw s w' hs
  obtain ⟨us, hus, rfl⟩ := List.mem_map.mp ht
  obtain ⟨u, hu', hw⟩ := List.mem_flatten.mp hw
  rw [Disk.get_set] at hs
  split at hs
  · rename_i heq
    simp only [Option.some.injEq] at hs
    subst hs heq
    rcases (hf us hus u hu').1.steps w hw with h | h
    · exact Or.inl h
    · right
      rw [← (hu us hus u hu').1 w.slot ⟨w, hw, rfl⟩, h]
  · exact he s w' hs

theorem tidy_run {P : Flow K S} {d1 : Disk K} {ss : List (Stage K)} {k : Nat}
    (hok : ∀ (i : Nat) st, ss[i]? = some st → StageOk d1 (k + i) st)
    (hform : ∀ (i : Nat) st, ss[i]? = some st → ∀ d p, st d p → PlanForm (k + i) p) {d d' : Disk K} {o : Outcome}
    (hd : SubDisk d d1) (ha : AgreeUpTo k d d1) (h : RunByWrite ss d o d') : Tidy d' d1 := by
  unfold RunByWrite at h
  induction h generalizing k with
  | finish d => exact tidy_sub hd
  | stopped hp he =>
    exact tidy_exec (tidy_sub hd) (hform 0 _ rfl _ _ hp) ((hok 0 _ rfl _ hd ha).2 _ hp).units he
  | raised hp hf he =>
    exact tidy_exec (tidy_sub hd) (hform 0 _ rfl _ _ hp) ((hok 0 _ rfl _ hd ha).2 _ hp).units he
  | @next s ss d d' d'' p o hp hf he _ ih =>
    obtain ⟨e1, e2⟩ := planOk_done ((hok 0 _ rfl _ hd ha).2 _ hp) hd ha he
    refine ih (k := k + 1) (fun i st hi => ?_) (fun i st hi => ?_) e1 e2
    · have := hok (i + 1) st (by simpa using hi)
      rwa [show k + (i + 1) = k + 1 + i by omega] at this
    · have := hform (i + 1) st (by simpa using hi)
      rwa [show k + (i + 1) = k + 1 + i by omega] at this

/-- C50, the part that holds. If after a crash at any write the incomplete files are deleted (and,
with more than one tile, the `.unw.tif` of interferograms without complete companions), the next
completed run leaves exactly the files of an uninterrupted run; and again after further crashes. What
is missing for C50 is that the workflow does this by itself. -/
theorem C50_cleaned_up_partial (P : Flow K S) (hP : GoodFlow P) (d1 : Disk K)
    (h1 : RunByWrite P.stages Disk.empty .completed d1) (d : Disk K) (hd : SubDisk d d1) (o : Outcome) (d' : Disk K)
    (h : RunByWrite P.stages d o d') (c : Disk K)
    (hc : CleanedUp (∃ T, d1.readTiles = .ok T ∧ T.tiles.length ≠ 1) d' c) :
    SubDisk c d1 ∧ (∀ o e, RunByWrite P.stages c o e → o ≠ .raised ∧ (o = .completed → e = d1)) ∧
    RunByFile P.stages c .completed d1 := by
  obtain ⟨T, F, hR⟩ := ref_of_run hP h1
  have htidy : Tidy d' d1 := tidy_run (P := P) (stagesOk hP.job hR)
    (fun i st hi d p hp => by rw [Nat.zero_add]; exact stages_form P i st hi d p hp) hd
    (fun s hs => absurd hs (Nat.not_lt_zero _)) h
  have hsub : SubDisk c d1 := by
    have hdiff : ∀ i, c.diff i ≠ none → c.diff i = d1.diff i := by
      intro i hi
      obtain ⟨e1, e2⟩ := hc.diff i hi
      rw [e1] at hi e2 ⊢
      obtain ⟨x, hx⟩ := Option.ne_none_iff_exists'.mp hi
      rcases htidy (.diff i) (.diff i x) (by simp [Disk.get, hx]) with h | h
      · simp only [Write.incomplete] at h; subst h; exact absurd hx e2
      · exact (get_inj (.diff i)).mp (by rw [h]; simp [Disk.get, hx])
    have hmodel : ∀ i, c.model i ≠ none → c.model i = d1.model i := by
      intro i hi
      obtain ⟨e1, e2⟩ := hc.model i hi
      rw [e1] at hi e2 ⊢
      obtain ⟨x, hx⟩ := Option.ne_none_iff_exists'.mp hi
      rcases htidy (.model i) (.model i x) (by simp [Disk.get, hx]) with h | h
      · simp only [Write.incomplete] at h; subst h; exact absurd hx e2
      · exact (get_inj (.model i)).mp (by rw [h]; simp [Disk.get, hx])
    refine ⟨fun hi => ?_, fun t hi => ?_, fun hi => ?_, fun hi => ?_, fun i hi => ⟨?_, ?_, ?_⟩, hdiff, hmodel⟩
    · obtain ⟨e1, e2⟩ := hc.tiles hi
      rw [e1] at hi e2 ⊢
      obtain ⟨x, hx⟩ := Option.ne_none_iff_exists'.mp hi
      rcases htidy .tiles (.tiles x) (by simp [Disk.get, hx]) with h | h
      · simp only [Write.incomplete] at h; subst h; exact absurd hx e2
      · exact (get_inj .tiles).mp (by rw [h]; simp [Disk.get, hx])
    · obtain ⟨e1, uw, pts, b, off, e2⟩ := hc.tile t hi
      rw [e1] at e2 ⊢
      rcases htidy (.tile t) (.tile t ⟨some uw, some pts, some b, some off⟩) (by simp [Disk.get, e2]) with h | h
      · exact absurd rfl (h ⟨uw, pts, b, off⟩)
      · exact (get_inj (.tile t)).mp (by rw [h]; simp [Disk.get, e2])
    · obtain ⟨e1, e2⟩ := hc.overlap hi
      rw [e1] at hi e2 ⊢
      obtain ⟨x, hx⟩ := Option.ne_none_iff_exists'.mp hi
      rcases htidy .overlap (.overlap x) (by simp [Disk.get, hx]) with h | h
      · exact absurd h (e2 x hx)
      · exact (get_inj .overlap).mp (by rw [h]; simp [Disk.get, hx])
    · obtain ⟨e1, e2⟩ := hc.offsets hi
      rw [e1] at hi e2 ⊢
      obtain ⟨x, hx⟩ := Option.ne_none_iff_exists'.mp hi
      rcases htidy .offsets (.offsets x) (by simp [Disk.get, hx]) with h | h
      · exact absurd h (e2 x hx)
      · exact (get_inj .offsets).mp (by rw [h]; simp [Disk.get, hx])
    · obtain ⟨e1, e2, _⟩ := hc.unw i hi
      rw [e1] at hi e2 ⊢
      obtain ⟨x, hx⟩ := Option.ne_none_iff_exists'.mp hi
      rcases htidy (.unw i) (.unw i x) (by simp [Disk.get, hx]) with h | h
      · simp only [Write.incomplete] at h; subst h; exact absurd hx e2
      · exact (get_inj (.unw i)).mp (by rw [h]; simp [Disk.get, hx])
    · by_cases hn : T.tiles.length = 1
      · by_cases hci : c.diff i = none
        · obtain ⟨_, _, B, _, hB⟩ := hR.one hn
          rw [hci, (hB i).2.1]
        · exact hdiff i hci
      · exact hdiff i ((hc.unw i hi).2.2 ⟨T, hR.readTiles, hn⟩).1
    · by_cases hn : T.tiles.length = 1
      · by_cases hci : c.model i = none
        · obtain ⟨_, _, B, _, hB⟩ := hR.one hn
          rw [hci, (hB i).2.2]
        · exact hmodel i hci
      · exact hmodel i ((hc.unw i hi).2.2 ⟨T, hR.readTiles, hn⟩).2
  exact ⟨hsub, (C49_resume P hP d1 h1 c hsub).2⟩

end

/-- Non-vacuity: the example job meets the hypotheses, and has a tiles file and a tile file. -/
example : ∃ (P : Flow ℚ Unit) (d1 : Disk ℚ), GoodFlow P ∧ RunByWrite P.stages Disk.empty .completed d1 ∧
    (∃ d, RunByWrite P.stages Disk.empty .stopped d ∧ d.tiles = some none ∧ NeverCompletes P d) ∧
    (∃ d, RunByWrite P.stages Disk.empty .stopped d ∧ d.tile 0 = some {} ∧ NeverCompletes P d) ∧
    ∃ d c, RunByWrite P.stages Disk.empty .stopped d ∧ d.tile 0 = some {} ∧ d ≠ c ∧
      CleanedUp (∃ T, d1.readTiles = .ok T ∧ T.tiles.length ≠ 1) d c ∧ RunByFile P.stages c .completed d1 := by
  obtain ⟨P, d1, hP, _, _, h1⟩ := exampleFlow_runs
  obtain ⟨T, F, hR⟩ := ref_of_run hP h1
  have hT : 0 < T.tiles.length := (flow_tiles hP hR.tiles).2.1
  obtain ⟨ht, htile, _⟩ := C50_refuted P hP d1 h1
  obtain ⟨d, hd, hdt, hdn⟩ := htile 0 (by rw [hR.tile1 0, if_pos hT]; simp)
  refine ⟨P, d1, hP, h1, ht, ⟨d, hd, hdt, hdn⟩, d, Disk.empty, hd, hdt, ?_, ?_, ?_⟩
  · rintro rfl; simp [Disk.empty] at hdt
  · constructor <;> simp [Disk.empty]
  · exact (C49_resume P hP d1 h1 Disk.empty (subDisk_empty d1)).2.2

end Spurt
