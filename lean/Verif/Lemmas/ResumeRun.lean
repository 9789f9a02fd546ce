import Verif.Lemmas.ResumeOk

/-!
# The files of a completed run from an empty folder
-/

namespace Spurt

section
variable {K S : Type} [Field K] [LinearOrder K] [FloorRing K]

/-- What the workflow is given: valid settings, one stack, and libraries that only give right
answers. `B` bounds the image size by what the floating point numbers of the tiler can count. -/
structure Spec.GoodFlow (P : Flow K S) : Prop where
  job : Spec.GoodJob P.job
  solver : SolverSound P.solver
  tiler : P.tiler.check = .ok ()
  size : ∃ B : ℤ, Spec.Rounding P.fl B ∧ (P.job.coh.rows : ℤ) ≤ B ∧ (P.job.coh.cols : ℤ) ≤ B
  labels : ∀ n es, (P.cc n es).length = n
  mip : MipOptimal P.mip

end

open Spec

section
variable {K S : Type} [Field K] [LinearOrder K] [FloorRing K] [IsStrictOrderedRing K]
variable {P : Flow K S}

omit [IsStrictOrderedRing K] in
theorem mask_shape (P : Flow K S) : P.mask.length = P.job.coh.rows ∧ ∀ r ∈ P.mask, r.length = P.job.coh.cols := by
  unfold Flow.mask Band.window
  simp only [List.length_map, List.mem_map]
  constructor
  · rw [pySlice_eq (by omega) (by omega) (by omega)]; simp
  · rintro r ⟨x, ⟨y, hy, rfl⟩, rfl⟩
    simp only [List.length_map]
    rw [pySlice_eq (by omega) (by omega) (by omega)]; simp

omit [IsStrictOrderedRing K] in
theorem flow_tiles (hP : GoodFlow P) {T : TileSet}
    (h : makeTiles P.sc P.fl P.useTiles P.tiler P.job.coh.cols P.mask = .ok T) :
    T.shape = ((P.job.coh.rows : ℤ), (P.job.coh.cols : ℤ)) ∧ 1 ≤ T.tiles.length ∧
    ∀ b ∈ T.tiles, TileInImage (P.job.coh.rows, P.job.coh.cols) b := by
  obtain ⟨B, hB, h1, h2⟩ := hP.size
  obtain ⟨e1, e2⟩ := mask_shape P
  obtain ⟨a1, ⟨k, a2, a3, _⟩, _, a4, _⟩ := C30_make_tiles P.sc P.fl B hB P.useTiles P.tiler hP.tiler P.job.coh.cols P.mask e2
    ⟨by rw [e1]; exact h1, h2⟩ T h
  rw [e1] at a1
  refine ⟨a1, ?_, ?_⟩
  · rw [a2]; nlinarith
  · rw [a1] at a4; exact a4

/-- Every completed run from an empty folder leaves the files of `Ref`. -/
theorem ref_of_run (hP : GoodFlow P) {d1 : Disk K} (h : RunByWrite P.stages Disk.empty .completed d1) :
    ∃ T F, Ref P d1 T F := by
  unfold Flow.stages at h
  -- tiles
  obtain ⟨p, e1, hp, hf, hx, h⟩ := run_next h
  unfold Flow.tilesStage at hp
  rw [if_neg (by simp [Disk.empty])] at hp
  cases hT : makeTiles P.sc P.fl P.useTiles P.tiler P.job.coh.cols P.mask with
  | error er => rw [hT] at hp; simp only at hp; subst hp; simp [Plan.raise] at hf
  | ok T =>
  rw [hT] at hp
  simp only at hp
  subst hp
  have he1 := exec_unit (tilesUnit_one T.toJson) rfl hx
  clear hx hf
  obtain ⟨hshape, hpos, hin⟩ := flow_tiles hP hT
  have hrt : ∀ d : Disk K, d.tiles = some (some T.toJson) → d.readTiles = .ok T := by
    intro d hd
    unfold Disk.readTiles
    rw [hd]
    exact C29_json T
  -- tile files
  obtain ⟨p, e2, hp, hf, hx, h⟩ := run_next h
  unfold Flow.unwrapStage at hp
  rw [hrt e1 (by rw [he1]; rfl)] at hp
  cases hpool : processPool P.job.settings.numParallelTiles with
  | error er => rw [hpool] at hp; simp only at hp; subst hp; simp [Plan.raise] at hf
  | ok u =>
  rw [hpool] at hp
  simp only at hp
  obtain ⟨oT, oS, hoT, hoS, rfl⟩ := hp
  have hmt : missingTiles e1 T.tiles.length = List.range T.tiles.length := by
    unfold missingTiles
    rw [List.filter_eq_self]
    intro t _
    rw [he1]
    rfl
  rw [hmt] at hf hx
  simp only [List.any_eq_false, List.mem_range] at hf
  have hok : ∀ t < T.tiles.length, ∃ f, unwrapOneTile P.tau P.solver P.job T t (oT t) (oS t) = .ok f := by
    intro t ht
    have := hf t ht
    cases hw : unwrapOneTile P.tau P.solver P.job T t (oT t) (oS t) with
    | ok f => exact ⟨f, rfl⟩
    | error er => rw [hw] at this; simp at this
  let F : Nat → TileFile K := fun t => match unwrapOneTile P.tau P.solver P.job T t (oT t) (oS t) with
    | .ok f => f
    | .error _ => ⟨[], [], ⟨0, 0, 0, 0⟩, []⟩
  have hF : ∀ t < T.tiles.length, unwrapOneTile P.tau P.solver P.job T t (oT t) (oS t) = .ok (F t) := by
    intro t ht
    obtain ⟨f, hf⟩ := hok t ht
    simp only [F, hf]
  have he2 : e2 = { e1 with tile := fun t => if t < T.tiles.length then some (TileH5.full (F t)) else none } := by
    apply Disk.ext_get
    intro s
    have htasks : ∀ t ∈ List.map List.flatten ((List.range T.tiles.length).map fun t =>
        match unwrapOneTile P.tau P.solver P.job T t (oT t) (oS t) with
        | .ok f => [tileUnit t f]
        | .error _ => []), ∃ k < T.tiles.length, t = tileUnit k (F k) := by
      intro t ht
      simp only [List.map_map, List.mem_map, List.mem_range, Function.comp] at ht
      obtain ⟨k, hk, rfl⟩ := ht
      refine ⟨k, hk, ?_⟩
      rw [hF k hk]
      simp
    obtain ⟨k1, k2⟩ := hx.final rfl (fun s => match s with
        | .tile t => some (.tile t (TileH5.full (F t)))
        | _ => none) (by
      intro t ht
      obtain ⟨k, hk, rfl⟩ := htasks t ht
      exact consistent_one (tileUnit_one k (F k)).1 (tileUnit_one k (F k)).2 rfl) s
    by_cases hs : ∃ t < T.tiles.length, s = .tile t
    · obtain ⟨t, ht, rfl⟩ := hs
      rw [k1]
      · simp [Disk.get, ht]
      · refine ⟨tileUnit t (F t), ?_, (writes_one (tileUnit_one t (F t)).1 (tileUnit_one t (F t)).2 _).mpr rfl⟩
        simp only [List.map_map, List.mem_map, List.mem_range, Function.comp]
        refine ⟨t, ht, ?_⟩
        rw [hF t ht]
        simp
    · rw [k2]
      · cases s with
        | tile t =>
          have ht : ¬ t < T.tiles.length := fun hc => hs ⟨t, hc, rfl⟩
          rw [get_inj]
          simp only [if_neg ht]
          rw [he1]
          rfl
        | _ => rfl
      · intro t ht hw
        obtain ⟨k, hk, rfl⟩ := htasks t ht
        rw [writes_one (tileUnit_one k (F k)).1 (tileUnit_one k (F k)).2] at hw
        exact hs ⟨k, hk, hw⟩
  clear hx hf hok
  have hread : ∀ d : Disk K, d.tile = e2.tile → ∀ t < T.tiles.length, d.readTile t = .ok (F t) := by
    intro d hd t ht
    unfold Disk.readTile
    rw [hd, he2]
    simp only [if_pos ht]
    rfl
  have ht2 : e2.tiles = some (some T.toJson) := by rw [he2, he1]; rfl
  have hnone : e2.overlap = none ∧ e2.offsets = none ∧ (∀ i, e2.unw i = none) ∧ (∀ i, e2.diff i = none) ∧ ∀ i, e2.model i = none := by
    rw [he2, he1]
    simp [Disk.set, Disk.empty]
  -- overlaps
  obtain ⟨p, e3, hp, hf, hx, h⟩ := run_next h
  unfold Flow.overlapStage at hp
  rw [if_neg (by simp [hnone.1]), hrt e2 ht2] at hp
  simp only at hp
  obtain ⟨p', e4, hp', hf', hx', h⟩ := run_next h
  obtain ⟨p'', e5, hp'', hf'', hx'', h⟩ := run_next h
  have he5 := run_nil h
  subst he5
  clear h
  unfold Flow.mergeStage at hp''
  have hmeth : ∀ d us, P.mergeWork d = .ok us → P.merger.method = "dirichlet" := by
    intro d us hd
    by_contra hc
    unfold Flow.mergeWork at hd
    rw [if_pos hc] at hd
    simp at hd
  refine ⟨T, F, ?_⟩
  by_cases hn : T.tiles.length = 1
  · rw [if_pos hn] at hp
    subst hp
    have he3 := exec_skip rfl hx
    subst he3
    unfold Flow.bulkStage at hp'
    rw [if_neg (by simp [hnone.2.1]), hrt _ ht2] at hp'
    simp only [if_pos hn] at hp'
    subst hp'
    have he4 := exec_skip rfl hx'
    subst he4
    cases hmw : P.mergeWork e4 with
    | error er => rw [hmw] at hp''; simp only at hp''; subst hp''; simp [Plan.raise] at hf''
    | ok r =>
    rw [hmw] at hp''
    simp only at hp''
    subst hp''
    have hm := hmeth _ _ hmw
    rw [mergeWork_single (F := F) (hrt _ ht2) (hread e4 rfl) hn hm] at hmw
    have hall : ((List.range P.job.time.links.length).filter fun i => !(e4.unw i).isSome) = List.range P.job.time.links.length := by
      rw [List.filter_eq_self]
      intro i _
      rw [hnone.2.2.1 i]
      rfl
    rw [hall] at hmw
    simp only [Except.ok.injEq] at hmw
    have hr2 : (singleRun (imageShape T) (List.range P.job.time.links.length) (TileState.start (F 0))).2 = false := by
      rw [← hmw] at hf''; exact hf''
    obtain ⟨k1, k2⟩ := singleRun_ok (shape := imageShape T) (f := F 0) (List.range P.job.time.links.length) (TileState.start (F 0)) rfl
    have hB := k1 _ (Prod.ext rfl hr2)
    let B : Nat → Band (Option K) := fun i => match writeSingleBand (imageShape T) (TileState.start (F 0)) i with
      | .ok (_, b) => b
      | .error _ => ⟨0, 0, fun _ _ => none⟩
    have hB' : ∀ i ∈ List.range P.job.time.links.length, ∃ t1,
        writeSingleBand (imageShape T) (TileState.start (F 0)) i = .ok (t1, B i) := by
      intro i hi
      obtain ⟨t1, b, hb⟩ := hB i hi
      refine ⟨t1, ?_⟩
      simp only [B, hb]
    have hrun := k2 B hB'
    rw [hrun] at hmw
    have hr1 : r.1 = (List.range P.job.time.links.length).map fun i => singleUnit i (B i) := by
      rw [← hmw]; simp [Function.comp_def]
    have hfin := fun s => hx''.final rfl (fun s => match s with
        | .unw i => some (.unw i (some (B i)))
        | _ => none) (by
      intro t ht
      simp only [List.map_cons, List.map_nil, List.mem_cons, List.not_mem_nil, or_false] at ht
      subst ht
      rw [hr1]
      refine consistent_flatten fun u hu => ?_
      obtain ⟨i, _, rfl⟩ := List.mem_map.mp hu
      exact consistent_one (singleUnit_one i (B i)).1 (singleUnit_one i (B i)).2 rfl) s
    have hwr : ∀ s, (∃ t ∈ List.map List.flatten [r.1], Writes t s) ↔ ∃ i < P.job.time.links.length, s = .unw i := by
      intro s
      simp only [List.map_cons, List.map_nil, List.mem_cons, List.not_mem_nil, or_false, exists_eq_left, writes_flatten, hr1,
        List.mem_map, List.mem_range]
      constructor
      · rintro ⟨u, ⟨i, hi, rfl⟩, hw⟩
        exact ⟨i, hi, (writes_one (singleUnit_one i (B i)).1 (singleUnit_one i (B i)).2 _).mp hw⟩
      · rintro ⟨i, hi, rfl⟩
        exact ⟨_, ⟨i, hi, rfl⟩, (writes_one (singleUnit_one i (B i)).1 (singleUnit_one i (B i)).2 _).mpr rfl⟩
    have hsame : ∀ s : Slot, (¬ ∃ i < P.job.time.links.length, s = .unw i) → d1.get s = e4.get s := by
      intro s hs
      rw [← hwr] at hs
      push Not at hs
      exact (hfin s).2 hs
    refine ⟨hT, ?_, hpool, ⟨oT, oS, hoT, hoS, hF⟩, ?_, hm, ?_, fun hc => absurd hn hc⟩
    · rw [← ht2]; exact (get_inj .tiles).mp (hsame .tiles (by simp))
    · intro t
      have := (get_inj (.tile t)).mp (hsame (.tile t) (by simp))
      simp only at this
      rw [this, he2]
    · intro _
      refine ⟨?_, ?_, B, fun i hi => hB' i (List.mem_range.mpr hi), fun i => ⟨?_, ?_, ?_⟩⟩
      · exact ((get_inj .overlap).mp (hsame .overlap (by simp))).trans hnone.1
      · exact ((get_inj .offsets).mp (hsame .offsets (by simp))).trans hnone.2.1
      · by_cases hi : i < P.job.time.links.length
        · have := (hfin (.unw i)).1 ((hwr _).mpr ⟨i, hi, rfl⟩)
          simp only [Disk.get] at this
          cases hu : d1.unw i with
          | none => rw [hu] at this; simp at this
          | some c =>
            rw [hu] at this
            simp only [Option.map_some, Option.some.injEq, Write.unw.injEq, true_and] at this
            rw [this, if_pos hi]
        · rw [if_neg hi]
          exact ((get_inj (.unw i)).mp (hsame (.unw i) (by
            rintro ⟨j, hj, hc⟩
            simp only [Slot.unw.injEq] at hc
            omega))).trans (hnone.2.2.1 i)
      · exact ((get_inj (.diff i)).mp (hsame (.diff i) (by simp))).trans (hnone.2.2.2.1 i)
      · exact ((get_inj (.model i)).mp (hsame (.model i) (by simp))).trans (hnone.2.2.2.2 i)
  · rw [if_neg hn] at hp
    have hload : (fun t => do
          let bb ← (T.tiles[t]?).elim (.error .indexError) .ok
          let f ← e2.readTile t
          pure (loadUwTile f bb)) = loadFrom T e2.readTile := rfl
    rw [hload] at hp
    cases hrun : overlapRun P.tau P.merger.minOverlapPoints (loadFrom T e2.readTile) T.getOverlaps ⟨none, none, []⟩ with
    | mk s b =>
    rw [hrun] at hp
    simp only at hp
    cases b with
    | true =>
      rw [if_pos rfl] at hp
      subst hp
      simp at hf
    | false =>
    rw [if_neg (by simp)] at hp
    subst hp
    have he3 := exec_unit (overlapUnit_one (P.olap T s)) rfl hx
    have ho3 : e3.overlap = some (OverlapH5.full (P.olap T s)) := by rw [he3]; rfl
    have hk3 : e3.tiles = e2.tiles ∧ e3.tile = e2.tile ∧ e3.offsets = e2.offsets ∧ e3.unw = e2.unw ∧ e3.diff = e2.diff ∧
        e3.model = e2.model := by rw [he3]; exact ⟨rfl, rfl, rfl, rfl, rfl, rfl⟩
    unfold Flow.bulkStage at hp'
    rw [if_neg (by rw [hk3.2.2.1]; simp [hnone.2.1]), hrt e3 (hk3.1.trans ht2), readOverlap_full ho3] at hp'
    simp only [if_neg hn, except_ok_bind] at hp'
    cases hbk : bulkOffsets P.mip P.lstsq P.merger.bulkMethod T P.job.coh P.job.thr (P.olap T s) with
    | error er => rw [hbk] at hp'; simp only at hp'; subst hp'; simp [Plan.raise] at hf'
    | ok ob =>
    obtain ⟨oT', oS', hoT', hoS', hF'⟩ : ∃ (oT : Nat → Nat → List Nat → List Nat) (oS : Nat → List Nat → List Nat),
      (∀ t k l, (oT t k l).Perm l) ∧ (∀ t l, (oS t l).Perm l) ∧
      ∀ t < T.tiles.length, unwrapOneTile P.tau P.solver P.job T t (oT t) (oS t) = .ok (F t) := ⟨oT, oS, hoT, hoS, hF⟩
    obtain ⟨hfo, _, _⟩ := tileFilesOk_of_unwrap P.tau P.solver hP.solver P.job hP.job T hshape hin oT' oS' hoT' hoS'
      e2.readTile F (hread e2 rfl) hF'
    have hover : phasediffDeciles id P.tau P.merger.minOverlapPoints P.cc T e2.readTile = .ok (some (P.olap T s)) := by
      unfold phasediffDeciles
      rw [if_neg hn]
      simp only
      rw [hload, (overlapRun_eq _ _ _ _ _ _).mp hrun]
      rfl
    have hlab : (P.olap T s).labels.length = T.tiles.length := hP.labels _ _
    rw [hbk] at hp'
    cases ob with
    | none =>
      exfalso
      unfold bulkOffsets at hbk
      rw [if_neg hn] at hbk
      simp only [Bind.bind, Except.bind, pure, Except.pure] at hbk
      repeat' split at hbk
      all_goals simp at hbk
    | some b =>
    obtain ⟨hbm, hbo⟩ := bulk_shape hP.mip hn hlab (fun med hmed => median_rows hfo hover hmed) hbk
    simp only at hp'
    subst hp'
    have he4 := exec_unit (offsetsUnit_one b) rfl hx'
    have ho4 : e4.offsets = some (OffsetsH5.full b) := by rw [he4]; rfl
    have hk4 : e4.tiles = e3.tiles ∧ e4.tile = e3.tile ∧ e4.overlap = e3.overlap ∧ e4.unw = e3.unw ∧ e4.diff = e3.diff ∧
        e4.model = e3.model := by rw [he4]; exact ⟨rfl, rfl, rfl, rfl, rfl, rfl⟩
    have ht4 : e4.tiles = some (some T.toJson) := hk4.1.trans (hk3.1.trans ht2)
    have hrd4 : e4.readTile = e2.readTile := readTile_congr (hk4.2.1.trans hk3.2.1)
    cases hmw : P.mergeWork e4 with
    | error er => rw [hmw] at hp''; simp only at hp''; subst hp''; simp [Plan.raise] at hf''
    | ok r =>
    rw [hmw] at hp''
    simp only at hp''
    subst hp''
    have hm := hmeth _ _ hmw
    simp only at hf''
    obtain ⟨us, bb⟩ := r
    simp only at hf''
    subst hf''
    have hmt := (mergeWork_eq P e4 (hrt e4 ht4) (readOverlap_full (hk4.2.2.1.trans ho3)) (readOffsets_full ho4) hn).1 us hmw
    obtain ⟨out, hus, hmt⟩ := hmt
    rw [hrd4] at hmt
    have hisf : (fun i => (e4.unw i).isSome) = fun _ => false := by
      funext i
      rw [hk4.2.2.2.1, hk3.2.2.2.1, hnone.2.2.1 i]
      rfl
    rw [hisf] at hmt
    have himg : 0 < T.shape.1 ∧ 0 < T.shape.2 ∧ 1 ≤ P.job.time.links.length := by
      have hmt' := hmt
      unfold mergeTiles at hmt'
      rw [if_neg (by simp [hm])] at hmt'
      simp only [if_neg hn] at hmt'
      cases q1 : (List.range T.tiles.length).mapM (fun ii => do
        let f ← e2.readTile ii
        pure (TileState.start f)) with
      | error er => rw [q1] at hmt'; simp [Bind.bind, Except.bind] at hmt'
      | ok ts =>
      rw [q1] at hmt'
      rw [except_ok_bind] at hmt'
      cases q2 : overlapMap (P.olap T s).labels.length (P.olap T s).overlaps with
      | error er => rw [q2] at hmt'; simp [Bind.bind, Except.bind] at hmt'
      | ok om =>
      rw [q2, except_ok_bind] at hmt'
      cases q3 : getMaxDegree ts (T.shape.1.toNat, T.shape.2.toNat) with
      | error er => rw [q3] at hmt'; simp [Bind.bind, Except.bind] at hmt'
      | ok dg =>
      rw [q3, except_ok_bind] at hmt'
      split at hmt'
      · simp at hmt'
      cases q4 : mergeBatches P.merger.numParallelIfgs P.job.time.links.length with
      | error er => rw [q4] at hmt'; simp [Bind.bind, Except.bind] at hmt'
      | ok bs =>
      have p1 : ¬ T.shape.1.toNat * T.shape.2.toNat = 0 := by
        intro hc
        unfold getMaxDegree at q3
        simp only [hc, if_true, Bind.bind, Except.bind] at q3
        split at q3 <;> simp at q3
      have p2 : P.job.time.links.length ≠ 0 := by
        intro hc
        unfold mergeBatches at q4
        rw [hc] at q4
        simp only at q4
        rw [if_pos (by split <;> omega)] at q4
        simp at q4
      rw [Nat.mul_eq_zero, not_or] at p1
      omega
    have hinput : MergeInput P.tau P.merger.minOverlapPoints P.cc P.job.time.links.length T e2.readTile F (P.olap T s)
        ⟨b.method, b.offsets, []⟩ P.merger :=
      ⟨by omega, ⟨himg.1, himg.2.1⟩, himg.2.2, hfo, hover, hlab, ⟨hbo.rows, hbo.cols⟩, hm, hbm⟩
    obtain ⟨M, hM⟩ : ∃ M : Nat → MergedBand K, ∀ isFile : Nat → Bool,
        mergeTiles P.tau ⟨P.lin, P.simplices, P.olap T s⟩ P.merger T e2.readTile ⟨b.method, b.offsets, []⟩
          P.job.time.links.length isFile =
          .ok (.merged (((List.range P.job.time.links.length).filter fun i => !isFile i).map fun i => (i, M i))) := by
      rcases C45_batching P.tau P.merger.minOverlapPoints P.cc P.job.time.links.length T e2.readTile F
        ⟨P.lin, P.simplices, P.olap T s⟩ ⟨b.method, b.offsets, []⟩ P.merger hinput with ⟨M, hM⟩ | hM
      · exact ⟨M, fun isFile => hM P.merger.numParallelIfgs isFile⟩
      · obtain ⟨er, he⟩ := (hM P.merger.numParallelIfgs (fun _ => false)).1 ⟨0, himg.2.2, rfl⟩
        have he : mergeTiles P.tau ⟨P.lin, P.simplices, P.olap T s⟩ P.merger T e2.readTile ⟨b.method, b.offsets, []⟩
          P.job.time.links.length (fun _ => false) = .error er := he
        rw [hmt] at he
        simp at he
    have hout : us = (List.range P.job.time.links.length).map fun i => bandUnit i (M i) := by
      have := hM fun _ => false
      rw [hmt] at this
      simp only [Except.ok.injEq, MergeResult.merged.injEq] at this
      rw [hus, this]
      simp [Function.comp_def]
    have hfin := fun s => hx''.final rfl (fun s => match s with
        | .unw i => some (.unw i (some (M i).out))
        | .diff i => some (.diff i (some (M i).diff))
        | .model i => some (.model i (some (M i).model))
        | _ => none) (by
      intro t ht
      simp only [List.map_cons, List.map_nil, List.mem_cons, List.not_mem_nil, or_false] at ht
      subst ht
      rw [hout]
      refine consistent_flatten fun u hu => ?_
      obtain ⟨i, _, rfl⟩ := List.mem_map.mp hu
      intro s hs
      rw [bandUnit_writes] at hs
      rw [bandUnit_last]
      rcases hs with rfl | rfl | rfl <;> simp) s
    have hwr : ∀ s, (∃ t ∈ List.map List.flatten [us], Writes t s) ↔
        ∃ i < P.job.time.links.length, s = .unw i ∨ s = .diff i ∨ s = .model i := by
      intro s
      simp only [List.map_cons, List.map_nil, List.mem_cons, List.not_mem_nil, or_false, exists_eq_left, writes_flatten, hout,
        List.mem_map, List.mem_range]
      constructor
      · rintro ⟨u, ⟨i, hi, rfl⟩, hw⟩
        exact ⟨i, hi, (bandUnit_writes i (M i) s).mp hw⟩
      · rintro ⟨i, hi, hw⟩
        exact ⟨_, ⟨i, hi, rfl⟩, (bandUnit_writes i (M i) s).mpr hw⟩
    have hsame : ∀ s : Slot, (¬ ∃ i < P.job.time.links.length, s = .unw i ∨ s = .diff i ∨ s = .model i) → d1.get s = e4.get s := by
      intro s hs
      rw [← hwr] at hs
      push Not at hs
      exact (hfin s).2 hs
    have htild1 : d1.tile = e2.tile := by
      funext t
      have := (get_inj (.tile t)).mp (hsame (.tile t) (by simp))
      simp only at this
      rw [this, hk4.2.1, hk3.2.1]
    have hrd5 : d1.readTile = e2.readTile := readTile_congr htild1
    refine ⟨hT, ?_, hpool, ⟨oT, oS, hoT, hoS, hF⟩, ?_, hm, fun hc => absurd hc hn, fun _ => ⟨s, b, M, ?_, ?_, hbk, ?_, ?_, fun i => ?_⟩⟩
    · rw [← ht4]; exact (get_inj .tiles).mp (hsame .tiles (by simp))
    · intro t
      rw [htild1, he2]
    · rw [hrd5]; exact hrun
    · exact ((get_inj .overlap).mp (hsame .overlap (by simp))).trans (hk4.2.2.1.trans ho3)
    · exact ((get_inj .offsets).mp (hsame .offsets (by simp))).trans ho4
    · rw [hrd5]; exact hM
    · by_cases hi : i < P.job.time.links.length
      · have w1 := (hfin (.unw i)).1 ((hwr _).mpr ⟨i, hi, Or.inl rfl⟩)
        have w2 := (hfin (.diff i)).1 ((hwr _).mpr ⟨i, hi, Or.inr (Or.inl rfl)⟩)
        have w3 := (hfin (.model i)).1 ((hwr _).mpr ⟨i, hi, Or.inr (Or.inr rfl)⟩)
        simp only [Disk.get, Option.map_eq_some_iff] at w1 w2 w3
        obtain ⟨c1, w1, w1'⟩ := w1
        obtain ⟨c2, w2, w2'⟩ := w2
        obtain ⟨c3, w3, w3'⟩ := w3
        simp only [Write.unw.injEq, Write.diff.injEq, Write.model.injEq, true_and] at w1' w2' w3'
        subst w1' w2' w3'
        simp only [if_pos hi]
        exact ⟨w1, w2, w3⟩
      · have hno : ∀ s : Slot, (s = .unw i ∨ s = .diff i ∨ s = .model i) → d1.get s = e4.get s := by
          intro s hs
          refine hsame s ?_
          rintro ⟨j, hj, hc⟩
          rcases hs with rfl | rfl | rfl <;> simp at hc <;> omega
        simp only [if_neg hi]
        refine ⟨?_, ?_, ?_⟩
        · exact ((get_inj (.unw i)).mp (hno _ (by simp))).trans (by
            rw [hk4.2.2.2.1, hk3.2.2.2.1]; exact hnone.2.2.1 i)
        · exact ((get_inj (.diff i)).mp (hno _ (by simp))).trans (by
            rw [hk4.2.2.2.2.1, hk3.2.2.2.2.1]; exact hnone.2.2.2.1 i)
        · exact ((get_inj (.model i)).mp (hno _ (by simp))).trans (by
            rw [hk4.2.2.2.2.2, hk3.2.2.2.2.2]; exact hnone.2.2.2.2 i)

end

end Spurt
