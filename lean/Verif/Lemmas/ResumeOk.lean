import Verif.Lemmas.ResumeRef

/-!
# Every stage can be resumed on a subset of the files of a completed run
-/

namespace Spurt
open Spec

section
variable {K : Type}

theorem agree_tiles {d d1 : Disk K} {k : Nat} (h : AgreeUpTo k d d1) (hk : 0 < k) : d.tiles = d1.tiles :=
  (get_inj .tiles).mp (h .tiles hk)

theorem agree_tile {d d1 : Disk K} {k : Nat} (h : AgreeUpTo k d d1) (hk : 1 < k) : d.tile = d1.tile :=
  funext fun t => (get_inj (.tile t)).mp (h (.tile t) hk)

theorem agree_overlap {d d1 : Disk K} {k : Nat} (h : AgreeUpTo k d d1) (hk : 2 < k) : d.overlap = d1.overlap :=
  (get_inj .overlap).mp (h .overlap hk)

theorem agree_offsets {d d1 : Disk K} {k : Nat} (h : AgreeUpTo k d d1) (hk : 3 < k) : d.offsets = d1.offsets :=
  (get_inj .offsets).mp (h .offsets hk)

theorem readTiles_congr {d d1 : Disk K} (h : d.tiles = d1.tiles) : d.readTiles = d1.readTiles := by
  unfold Disk.readTiles; rw [h]

theorem readTile_congr {d d1 : Disk K} (h : d.tile = d1.tile) : d.readTile = d1.readTile := by
  funext t; unfold Disk.readTile; rw [h]

theorem planOk_skip {d d1 : Disk K} {k : Nat} (h : ∀ s : Slot, s.stage = k → d.get s = d1.get s) : PlanOk d d1 k .skip :=
  ⟨rfl, by simp [Plan.skip], fun s hs => Or.inl (h s hs)⟩

theorem planOk_one {d d1 : Disk K} {k : Nat} {u : List (Write K)} {w : Write K}
    (hs : (∀ x ∈ u, x.slot = w.slot) ∧ u.getLast? = some w) (hg : d1.get w.slot = some w)
    (hc : ∀ s : Slot, s.guard = w.slot → s = w.slot ∨ d1.get s = none)
    (hk : ∀ s : Slot, s.stage = k → s = w.slot) : PlanOk d d1 k ⟨[[u]], false⟩ := by
  refine ⟨rfl, ?_, ?_⟩
  · intro t ht v hv
    simp only [List.mem_cons, List.not_mem_nil, or_false] at ht
    subst ht
    simp only [List.mem_cons, List.not_mem_nil, or_false] at hv
    subst hv
    exact unitOk_one hs.1 hs.2 hg hc
  · intro s h
    exact Or.inr ⟨[u], by simp, u, by simp, (writes_one hs.1 hs.2 s).mpr (hk s h)⟩

end

section
variable {K S : Type} [Field K] [LinearOrder K] [FloorRing K] [IsStrictOrderedRing K]
variable {P : Flow K S} {d1 : Disk K} {T : TileSet} {F : Nat → TileFile K}

omit [IsStrictOrderedRing K] in
theorem Ref.readTiles (h : Ref P d1 T F) : d1.readTiles = .ok T := by
  unfold Disk.readTiles
  rw [h.tiles1]
  exact C29_json T

omit [IsStrictOrderedRing K] in
theorem Ref.readTile (h : Ref P d1 T F) {t : Nat} (ht : t < T.tiles.length) : d1.readTile t = .ok (F t) := by
  unfold Disk.readTile
  rw [h.tile1 t, if_pos ht]
  rfl

omit [IsStrictOrderedRing K] in
theorem stageOk_tiles (h : Ref P d1 T F) : StageOk d1 0 P.tilesStage := by
  intro d hd _
  unfold Flow.tilesStage
  by_cases hs : d.tiles = none
  · rw [hs, h.tiles]
    refine ⟨⟨_, rfl⟩, ?_⟩
    rintro p rfl
    refine planOk_one (tilesUnit_one T.toJson) (by simp [Write.slot, Disk.get, h.tiles1]) ?_ ?_
    · intro s hs; cases s <;> simp_all [Slot.guard, Write.slot]
    · intro s hs; cases s <;> simp_all [Slot.stage, Write.slot]
  · simp only [if_pos (Option.isSome_iff_ne_none.mpr hs)]
    refine ⟨⟨_, rfl⟩, ?_⟩
    rintro p rfl
    refine planOk_skip fun s hs' => ?_
    cases s <;> simp [Slot.stage] at hs'
    exact (get_inj .tiles).mpr (hd.tiles hs)

theorem stageOk_unwrap (hj : GoodJob P.job) (h : Ref P d1 T F) : StageOk d1 1 P.unwrapStage := by
  intro d hd ha
  have hT : d.readTiles = .ok T := (readTiles_congr (agree_tiles ha (by omega))).trans h.readTiles
  unfold Flow.unwrapStage
  rw [h.pool, hT]
  simp only
  refine ⟨⟨_, fun _ _ l => l, fun _ l => l, fun _ _ _ => List.Perm.refl _, fun _ _ => List.Perm.refl _, rfl⟩, ?_⟩
  rintro p ⟨oT, oS, hoT, hoS, rfl⟩
  obtain ⟨oT', oS', hoT', hoS', hw⟩ := h.work
  have hall : ∀ t < T.tiles.length, unwrapOneTile P.tau P.solver P.job T t (oT t) (oS t) = .ok (F t) := fun t ht =>
    unwrapOneTile_schedule hj (hoT' t) (hoT t) (hoS' t) (hoS t) (hw t ht)
  have hlt : ∀ t ∈ missingTiles d T.tiles.length, t < T.tiles.length := fun t ht =>
    List.mem_range.mp (List.mem_filter.mp ht).1
  refine ⟨?_, ?_, ?_⟩
  · rw [List.any_eq_false]
    intro t ht
    rw [hall t (hlt t ht)]
    simp
  · intro t ht u hu
    obtain ⟨k, hk, rfl⟩ := List.mem_map.mp ht
    rw [hall k (hlt k hk)] at hu
    simp only [List.mem_cons, List.not_mem_nil, or_false] at hu
    subst hu
    refine unitOk_one (tileUnit_one k (F k)).1 (tileUnit_one k (F k)).2 ?_ ?_
    · simp [Write.slot, Disk.get, h.tile1 k, hlt k hk]
    · intro s hs; cases s <;> simp_all [Slot.guard, Write.slot]
  · intro s hs
    cases s <;> simp [Slot.stage] at hs
    rename_i t
    by_cases hn : d.tile t = none
    · by_cases ht : t < T.tiles.length
      · right
        have hm : t ∈ missingTiles d T.tiles.length := List.mem_filter.mpr ⟨List.mem_range.mpr ht, by simp [hn]⟩
        refine ⟨_, List.mem_map_of_mem hm, tileUnit t (F t), ?_, (writes_one (tileUnit_one t (F t)).1 (tileUnit_one t (F t)).2 _).mpr rfl⟩
        simp only [hall t ht]
        simp
      · left
        rw [get_inj]
        simp only
        rw [hn, h.tile1 t, if_neg ht]
    · left
      rw [get_inj]
      exact hd.tile t hn

omit [IsStrictOrderedRing K] in
theorem stageOk_overlap (h : Ref P d1 T F) : StageOk d1 2 P.overlapStage := by
  intro d hd ha
  have hT : d.readTiles = .ok T := (readTiles_congr (agree_tiles ha (by omega))).trans h.readTiles
  have hF : d.readTile = d1.readTile := readTile_congr (agree_tile ha (by omega))
  unfold Flow.overlapStage
  by_cases hs : d.overlap = none
  · rw [hs, hT]
    simp only [Option.isSome_none, Bool.false_eq_true, if_false]
    by_cases hn : T.tiles.length = 1
    · simp only [if_pos hn]
      refine ⟨⟨_, rfl⟩, ?_⟩
      rintro p rfl
      refine planOk_skip fun s hs' => ?_
      cases s <;> simp [Slot.stage] at hs'
      rw [get_inj]
      simp only
      rw [hs, (h.one hn).1]
    · simp only [if_neg hn]
      obtain ⟨s, b, M, h1, h2, _⟩ := h.many hn
      have hr : overlapRun P.tau P.merger.minOverlapPoints (fun t => do
          let bb ← (T.tiles[t]?).elim (.error .indexError) .ok
          let f ← d.readTile t
          pure (loadUwTile f bb)) T.getOverlaps ⟨none, none, []⟩ = (s, false) := by
        rw [hF]; exact h1
      simp only [hr, Bool.false_eq_true, if_false]
      refine ⟨⟨_, rfl⟩, ?_⟩
      rintro p rfl
      refine planOk_one (overlapUnit_one (P.olap T s)) (by simp [Write.slot, Disk.get, h2]) ?_ ?_
      · intro s hs; cases s <;> simp_all [Slot.guard, Write.slot]
      · intro s hs; cases s <;> simp_all [Slot.stage, Write.slot]
  · simp only [if_pos (Option.isSome_iff_ne_none.mpr hs)]
    refine ⟨⟨_, rfl⟩, ?_⟩
    rintro p rfl
    refine planOk_skip fun s hs' => ?_
    cases s <;> simp [Slot.stage] at hs'
    exact (get_inj .overlap).mpr (hd.overlap hs)

omit [IsStrictOrderedRing K] in
theorem stageOk_bulk (h : Ref P d1 T F) : StageOk d1 3 P.bulkStage := by
  intro d hd ha
  have hT : d.readTiles = .ok T := (readTiles_congr (agree_tiles ha (by omega))).trans h.readTiles
  unfold Flow.bulkStage
  by_cases hs : d.offsets = none
  · rw [hs, hT]
    simp only [Option.isSome_none, Bool.false_eq_true, if_false]
    by_cases hn : T.tiles.length = 1
    · simp only [if_pos hn]
      refine ⟨⟨_, rfl⟩, ?_⟩
      rintro p rfl
      refine planOk_skip fun s hs' => ?_
      cases s <;> simp [Slot.stage] at hs'
      rw [get_inj]
      simp only
      rw [hs, (h.one hn).2.1]
    · simp only [if_neg hn]
      obtain ⟨s, b, M, _, h2, h3, h4, _⟩ := h.many hn
      have ho : d.readOverlap = .ok (P.olap T s) := readOverlap_full ((agree_overlap ha (by omega)).trans h2)
      rw [ho]
      simp only [except_ok_bind, h3]
      refine ⟨⟨_, rfl⟩, ?_⟩
      rintro p rfl
      refine planOk_one (offsetsUnit_one b) (by simp [Write.slot, Disk.get, h4]) ?_ ?_
      · intro s hs; cases s <;> simp_all [Slot.guard, Write.slot]
      · intro s hs; cases s <;> simp_all [Slot.stage, Write.slot]
  · simp only [if_pos (Option.isSome_iff_ne_none.mpr hs)]
    refine ⟨⟨_, rfl⟩, ?_⟩
    rintro p rfl
    refine planOk_skip fun s hs' => ?_
    cases s <;> simp [Slot.stage] at hs'
    exact (get_inj .offsets).mpr (hd.offsets hs)

/-- What the merge stage does to a single tile. -/
theorem mergeWork_single {d : Disk K} (hT : d.readTiles = .ok T) (hF : ∀ t < T.tiles.length, d.readTile t = .ok (F t))
    (hn : T.tiles.length = 1) (hm : P.merger.method = "dirichlet") :
    P.mergeWork d =
      let r := singleRun (imageShape T) ((List.range P.job.time.links.length).filter fun i => !(d.unw i).isSome)
        (TileState.start (F 0))
      .ok (r.1.map fun x => singleUnit x.1 x.2, r.2) := by
  unfold Flow.mergeWork
  have hts : (List.range T.tiles.length).mapM (fun ii => do
      let f ← d.readTile ii
      pure (TileState.start f)) = (.ok [TileState.start (F 0)] : Except PyErr _) := by
    rw [hn]
    simp only [List.range_one, List.mapM_cons, List.mapM_nil, hF 0 (by omega)]
    rfl
  rw [if_neg (by simp [hm]), hT]
  simp only [except_ok_bind]
  rw [hts]
  simp only [except_ok_bind, if_pos hn]
  rfl

theorem stageOk_merge (h : Ref P d1 T F) : StageOk d1 4 P.mergeStage := by
  intro d hd ha
  have hT : d.readTiles = .ok T := (readTiles_congr (agree_tiles ha (by omega))).trans h.readTiles
  have hF : d.readTile = d1.readTile := readTile_congr (agree_tile ha (by omega))
  have hunw : ∀ i, d.unw i ≠ none → d.unw i = d1.unw i ∧ d.diff i = d1.diff i ∧ d.model i = d1.model i := hd.unw
  unfold Flow.mergeStage
  by_cases hn : T.tiles.length = 1
  · obtain ⟨_, _, B, hB, h1⟩ := h.one hn
    have hrun := (singleRun_ok (shape := imageShape T) (f := F 0)
      ((List.range P.job.time.links.length).filter fun i => !(d.unw i).isSome) (TileState.start (F 0)) rfl).2 B (by
        intro i hi
        exact hB i (List.mem_range.mp (List.mem_filter.mp hi).1))
    rw [mergeWork_single (F := F) hT (fun t ht => by rw [hF]; exact h.readTile ht) hn h.method, hrun]
    simp only
    refine ⟨⟨_, rfl⟩, ?_⟩
    rintro p rfl
    refine ⟨rfl, ?_, ?_⟩
    · intro t ht u hu
      simp only [List.mem_cons, List.not_mem_nil, or_false] at ht
      subst ht
      simp only [List.map_map, List.mem_map, List.mem_filter, List.mem_range, Function.comp] at hu
      obtain ⟨i, ⟨hi, _⟩, rfl⟩ := hu
      refine unitOk_one (singleUnit_one i (B i)).1 (singleUnit_one i (B i)).2 ?_ ?_
      · simp [Write.slot, Disk.get, (h1 i).1, hi]
      · intro s hs
        cases s <;> simp only [Slot.guard, Write.slot, reduceCtorEq, Slot.unw.injEq] at hs
        · subst hs; exact Or.inl rfl
        · right; simp [Disk.get, (h1 _).2.1]
        · right; simp [Disk.get, (h1 _).2.2]
    · have hmiss : ∀ i, d.unw i = none → d.get (.unw i) = d1.get (.unw i) ∨ ∃ t ∈ [List.map (fun x => singleUnit x.1 x.2)
          (List.map (fun i => (i, B i)) ((List.range P.job.time.links.length).filter fun i => !(d.unw i).isSome))],
          ∃ u ∈ t, Writes u (.unw i) := by
        intro i hi
        by_cases hlt : i < P.job.time.links.length
        · right
          refine ⟨_, List.mem_singleton_self _, singleUnit i (B i), ?_, (writes_one (singleUnit_one i (B i)).1 (singleUnit_one i (B i)).2 _).mpr rfl⟩
          simp only [List.map_map, List.mem_map, List.mem_filter, List.mem_range, Function.comp]
          exact ⟨i, ⟨hlt, by simp [hi]⟩, rfl⟩
        · left
          rw [get_inj]
          simp only
          rw [hi, (h1 i).1, if_neg hlt]
      intro s hs
      cases s <;> simp [Slot.stage] at hs
      · rename_i i
        by_cases hi : d.unw i = none
        · exact hmiss i hi
        · exact Or.inl ((get_inj (.unw i)).mpr (hunw i hi).1)
      · rename_i i
        left
        rw [get_inj]
        simp only
        by_cases hdi : d.diff i = none
        · rw [hdi, (h1 i).2.1]
        · exact hd.diff i hdi
      · rename_i i
        left
        rw [get_inj]
        simp only
        by_cases hdi : d.model i = none
        · rw [hdi, (h1 i).2.2]
        · exact hd.model i hdi
  · obtain ⟨s, b, M, _, h2, _, h4, h5, h1⟩ := h.many hn
    have ho : d.readOverlap = .ok (P.olap T s) := readOverlap_full ((agree_overlap ha (by omega)).trans h2)
    have hb : d.readOffsets = .ok ⟨b.method, b.offsets, []⟩ := readOffsets_full ((agree_offsets ha (by omega)).trans h4)
    have hw := (mergeWork_eq P d hT ho hb hn).2 _ (by rw [hF]; exact h5 fun i => (d.unw i).isSome)
    rw [hw]
    simp only
    refine ⟨⟨_, rfl⟩, ?_⟩
    rintro p rfl
    refine ⟨rfl, ?_, ?_⟩
    · intro t ht u hu
      simp only [List.mem_cons, List.not_mem_nil, or_false] at ht
      subst ht
      simp only [List.map_map, List.mem_map, List.mem_filter, List.mem_range, Function.comp] at hu
      obtain ⟨i, ⟨hi, _⟩, rfl⟩ := hu
      constructor
      · intro s hs
        rw [bandUnit_writes] at hs
        rw [bandUnit_last]
        rcases hs with rfl | rfl | rfl
        · simp [Disk.get, (h1 i).1, hi]
        · simp [Disk.get, (h1 i).2.1, hi]
        · simp [Disk.get, (h1 i).2.2, hi]
      · intro s hs
        rw [bandUnit_writes] at hs ⊢
        left
        cases s <;> simp_all [Slot.guard]
    · have hwr : ∀ i < P.job.time.links.length, d.unw i = none → ∀ s : Slot, (s = .unw i ∨ s = .diff i ∨ s = .model i) →
          ∃ t ∈ [List.map (fun x => bandUnit x.1 x.2)
          (List.map (fun i => (i, M i)) ((List.range P.job.time.links.length).filter fun i => !(d.unw i).isSome))],
          ∃ u ∈ t, Writes u s := by
        intro i hlt hi s hs
        refine ⟨_, List.mem_singleton_self _, bandUnit i (M i), ?_, (bandUnit_writes i (M i) s).mpr hs⟩
        simp only [List.map_map, List.mem_map, List.mem_filter, List.mem_range, Function.comp]
        exact ⟨i, ⟨hlt, by simp [hi]⟩, rfl⟩
      intro s hs
      cases s <;> simp [Slot.stage] at hs
      · rename_i i
        by_cases hi : d.unw i = none
        · by_cases hlt : i < P.job.time.links.length
          · exact Or.inr (hwr i hlt hi _ (by simp))
          · left
            rw [get_inj]
            simp only
            rw [hi, (h1 i).1, if_neg hlt]
        · exact Or.inl ((get_inj (.unw i)).mpr (hunw i hi).1)
      · rename_i i
        by_cases hi : d.unw i = none
        · by_cases hlt : i < P.job.time.links.length
          · exact Or.inr (hwr i hlt hi _ (by simp))
          · left
            rw [get_inj]
            simp only
            by_cases hdi : d.diff i = none
            · rw [hdi, (h1 i).2.1, if_neg hlt]
            · exact hd.diff i hdi
        · exact Or.inl ((get_inj (.diff i)).mpr (hunw i hi).2.1)
      · rename_i i
        by_cases hi : d.unw i = none
        · by_cases hlt : i < P.job.time.links.length
          · exact Or.inr (hwr i hlt hi _ (by simp))
          · left
            rw [get_inj]
            simp only
            by_cases hdi : d.model i = none
            · rw [hdi, (h1 i).2.2, if_neg hlt]
            · exact hd.model i hdi
        · exact Or.inl ((get_inj (.model i)).mpr (hunw i hi).2.2)

theorem stagesOk (hj : GoodJob P.job) (h : Ref P d1 T F) :
    ∀ (i : Nat) st, P.stages[i]? = some st → StageOk d1 (0 + i) st := by
  intro i st hi
  rw [Nat.zero_add]
  match i, hi with
  | 0, hi => simp [Flow.stages] at hi; subst hi; exact stageOk_tiles h
  | 1, hi => simp [Flow.stages] at hi; subst hi; exact stageOk_unwrap hj h
  | 2, hi => simp [Flow.stages] at hi; subst hi; exact stageOk_overlap h
  | 3, hi => simp [Flow.stages] at hi; subst hi; exact stageOk_bulk h
  | 4, hi => simp [Flow.stages] at hi; subst hi; exact stageOk_merge h
  | n + 5, hi => simp [Flow.stages] at hi

end

end Spurt
