import Verif.Props.FloatLargeRecovery
import Verif.Props.FloatCongruent

/-!
# Property C71: whatever the stack, the rasters are the interferograms plus whole cycles
-/

namespace Spurt
open Spec

section
variable {K : Type} [Field K] [LinearOrder K] [IsStrictOrderedRing K] [FloorRing K]

omit [Field K] [LinearOrder K] [IsStrictOrderedRing K] [FloorRing K] in
theorem ite_ok {α : Type} {c : Prop} [Decidable c] {e : PyErr} {x y : α}
    (h : (if c then .error e else .ok x : Except PyErr α) = .ok y) : x = y := by
  by_cases hc : c
  · rw [if_pos hc] at h; simp at h
  · rw [if_neg hc] at h; exact Except.ok.inj h

/-- The groups of an overlap file written in mixed precision have one row of statistics per interferogram. -/
theorem overlapFl_rows {A : FloatArith K} {atol rtol : K} {minPoints : ℤ} {cc : Nat → List (Nat × Nat) → List Nat} {nifgs : Nat}
    {tiles : TileSet} {files : Nat → Except PyErr (TileFile K)} {F : Nat → TileFile K} (hf : TileFilesOk nifgs tiles files F)
    {olap : OverlapFile} (h : phasediffDecilesFl A atol rtol id minPoints cc tiles files = .ok (some olap)) :
    olap.labels = cc tiles.tiles.length olap.overlaps ∧ ∀ g ∈ olap.groups, g.2.stats.length = nifgs := by
  unfold phasediffDecilesFl at h
  by_cases h1 : tiles.tiles.length = 1
  · rw [if_pos h1] at h; simp at h
  rw [if_neg h1] at h
  change (do
    let s ← tiles.getOverlaps.foldlM (stepGen (pairwiseDecilesFl A atol rtol) id minPoints (loadFl A tiles files)) ⟨none, none, []⟩
    let overlaps := s.groups.map Prod.fst
    pure (some (⟨s.groups, cc tiles.tiles.length overlaps, overlaps⟩ : OverlapFile))) = _ at h
  have e1 := loopGen_eq (st := pairwiseDecilesFl A atol rtol) (wrap := id) (minPoints := minPoints)
    (load := loadFl A tiles files) tiles.getOverlaps (s := ⟨none, none, []⟩) (heldOk_none _) (heldOk_none _)
  cases ha : tiles.getOverlaps.foldlM (stepGen (pairwiseDecilesFl A atol rtol) id minPoints (loadFl A tiles files)) ⟨none, none, []⟩ with
  | error e => rw [ha] at h; simp [Bind.bind, Except.bind] at h
  | ok s =>
  rw [ha] at h e1
  simp only [Bind.bind, Except.bind, pure, Except.pure, Except.ok.injEq, Option.some.injEq] at h
  cases hgs : tiles.getOverlaps.mapM (groupGen (pairwiseDecilesFl A atol rtol) id minPoints (loadFl A tiles files)) with
  | error e => rw [hgs] at e1; simp [Except.map] at e1
  | ok gs =>
  rw [hgs] at e1
  simp only [Except.map, List.nil_append, Except.ok.injEq] at e1
  subst h
  refine ⟨rfl, ?_⟩
  simp only
  rw [e1]
  intro g hg
  obtain ⟨l, hl, hgl⟩ := List.mem_flatten.mp hg
  obtain ⟨k, hk, hkl⟩ := List.mem_iff_getElem.mp hl
  obtain ⟨gs', e2, hlen, hall⟩ := mapM_exists _ _ (mapM_ok_imp hgs)
  rw [hgs, Except.ok.injEq] at e2
  subst e2
  have hk' : k < tiles.getOverlaps.length := by omega
  obtain ⟨l', hl', hgr⟩ := hall k _ (List.getElem?_eq_getElem hk')
  rw [List.getElem?_eq_getElem hk, hkl, Option.some.injEq] at hl'
  subst hl'
  have hmem := List.getElem_mem hk'
  generalize tiles.getOverlaps[k] = p at hgr hmem
  obtain ⟨i, j⟩ := p
  obtain ⟨_, bi, bj, hbi, hbj, _⟩ := ((C25_overlaps tiles).1 i j).mp hmem
  have hi := (List.getElem?_eq_some_iff.mp hbi).1
  obtain ⟨u1, u2⟩ := hf.bands i hi
  unfold groupGen at hgr
  obtain ⟨d1, hd1, hgr⟩ := except_bind_ok hgr
  obtain ⟨d2, hd2, hgr⟩ := except_bind_ok hgr
  obtain ⟨c, hc, hgr⟩ := except_bind_ok hgr
  have hd1' : d1.2.length = nifgs := by
    unfold loadFl at hd1
    rw [hbi, hf.read i hi] at hd1
    simp only [Option.elim, Bind.bind, Except.bind, pure, Except.pure, Except.ok.injEq] at hd1
    subst hd1
    simp [loadUwTileFl, u1, u2]
  split at hgr
  · simp only [pure, Except.pure, Except.ok.injEq] at hgr
    subst hgr
    simp at hgl
  · obtain ⟨st, hst, hgr⟩ := except_bind_ok hgr
    simp only [pure, Except.pure, Except.ok.injEq] at hgr
    subst hgr
    simp only [List.mem_singleton] at hgl
    subst hgl
    simp only [List.length_map]
    unfold pairwiseDecilesFl at hst
    split at hst
    · simp at hst
    · simp only [selectColumns] at hst
      split at hst
      · simp at hst
      have hst := ite_ok hst
      rw [← hst]
      simp [hd1']

theorem medianFl_rows {A : FloatArith K} {atol rtol : K} {minPoints : ℤ} {cc : Nat → List (Nat × Nat) → List Nat} {nifgs : Nat}
    {tiles : TileSet} {files : Nat → Except PyErr (TileFile K)} {F : Nat → TileFile K} (hf : TileFilesOk nifgs tiles files F)
    {olap : OverlapFile} (h : phasediffDecilesFl A atol rtol id minPoints cc tiles files = .ok (some olap)) {med : List (List ℤ)}
    (hm : medianOffsets olap = .ok med) : ∀ x ∈ med, x.length = nifgs := by
  obtain ⟨_, hrows⟩ := overlapFl_rows hf h
  unfold medianOffsets at hm
  obtain ⟨med', e1, hl, hall⟩ := mapM_exists _ _ (mapM_ok_imp hm)
  rw [hm, Except.ok.injEq] at e1
  subst e1
  intro x hx
  obtain ⟨k, hk, rfl⟩ := List.mem_iff_getElem.mp hx
  have hk' : k < olap.overlaps.length := by omega
  obtain ⟨x', hx', hfx⟩ := hall k _ (List.getElem?_eq_getElem hk')
  rw [List.getElem?_eq_getElem hk, Option.some.injEq] at hx'
  subst hx'
  split at hfx
  · simp at hfx
  · rename_i g hg
    obtain ⟨row', e2, hl2, _⟩ := mapM_exists _ _ (mapM_ok_imp hfx)
    rw [hfx, Except.ok.injEq] at e2
    rw [e2, hl2]
    exact hrows g (List.mem_of_find?_eq_some hg)

end

section
variable {K S : Type} [Field K] [LinearOrder K] [FloorRing K]

omit [FloorRing K] in
theorem bulk_some {C : Type} [LinearOrder C] {fd : K → K} {mip : MipSolver} {lstsq : Lstsq K} {method : String}
    {coh : Band (Option C)} {thr : C} {tiles : TileSet} {olap : OverlapFile} (hn : tiles.tiles.length ≠ 1) :
    bulkOffsetsFl fd mip lstsq method tiles coh thr olap ≠ .ok none := by
  intro h
  unfold bulkOffsetsFl at h
  rw [if_neg hn] at h
  obtain ⟨_, _, h⟩ := except_bind_ok h
  obtain ⟨_, _, h⟩ := except_bind_ok h
  simp only at h
  split at h
  · obtain ⟨_, _, h⟩ := except_bind_ok h
    simp [pure, Except.pure] at h
  split at h
  · split at h
    · simp at h
    · obtain ⟨_, _, h⟩ := except_bind_ok h
      simp [pure, Except.pure] at h
  · simp at h

/-- A run that completes has completed every stage. -/
theorem workflowFl_inv {A : FloatArith K} {atol rtol : K} {P : Flow K S} {oT : Nat → Nat → List Nat → List Nat}
    {oS : Nat → List Nat → List Nat} {T : TileSet} {r : MergeResult K} (h : workflowFl A atol rtol P oT oS = .ok (T, r)) :
    makeTiles P.sc P.fl P.useTiles P.tiler P.job.coh.cols P.mask = .ok T ∧
    processPool P.job.settings.numParallelTiles = .ok () ∧
    ∃ F : Nat → TileFile K, (∀ t < T.tiles.length, unwrapOneTileFl A P.solver P.job T t (oT t) (oS t) = .ok (F t)) ∧
    ∃ files, (∀ t < T.tiles.length, files t = .ok (F t)) ∧
    ∃ olap bulk, phasediffDecilesFl A atol rtol id P.merger.minOverlapPoints P.cc T files = .ok olap ∧
      bulkOffsetsFl A.fd P.mip P.lstsq P.merger.bulkMethod T P.job.coh P.job.thr (olap.getD ⟨[], [], []⟩) = .ok bulk ∧
      mergeTilesFl A ⟨P.lin, P.simplices, olap.getD ⟨[], [], []⟩⟩ P.merger T files
        (bulk.getD ⟨P.merger.bulkMethod, [], []⟩) P.job.time.links.length (fun _ => false) = .ok r := by
  unfold workflowFl at h
  obtain ⟨T0, h1, h⟩ := except_bind_ok h
  obtain ⟨_, h2, h⟩ := except_bind_ok h
  obtain ⟨fs, h3, h⟩ := except_bind_ok h
  obtain ⟨olap, h4, h⟩ := except_bind_ok h
  obtain ⟨bulk, h5, h⟩ := except_bind_ok h
  obtain ⟨r0, h6, h⟩ := except_bind_ok h
  simp only [pure, Except.pure, Except.ok.injEq, Prod.mk.injEq] at h
  obtain ⟨rfl, rfl⟩ := h
  obtain ⟨fs', e, hl, hall⟩ := mapM_exists _ _ (mapM_ok_imp h3)
  rw [h3, Except.ok.injEq] at e
  subst e
  rw [List.length_range] at hl
  refine ⟨h1, h2, fun t => fs.getD t ⟨[], [], ⟨0, 0, 0, 0⟩, []⟩, fun t ht => ?_, _, fun t ht => ?_, olap, bulk, h4, h5, h6⟩
  · obtain ⟨f, hf1, hf2⟩ := hall t t (List.getElem?_range ht)
    simp only [hf2, List.getD_eq_getElem?_getD, hf1, Option.getD_some]
  · simp only [List.getD_eq_getElem?_getD]
    rw [List.getElem?_eq_getElem (by omega)]
    rfl

end

section
variable {K S : Type} [Field K] [LinearOrder K] [IsStrictOrderedRing K] [FloorRing K]

/-- C71. Whatever the stack, the solvers and the schedule: if the run completes in mixed precision and what unwrapping wrote for
the tiles is the interferograms plus whole cycles up to `δ`, so are the rasters, up to four more roundings; they have the size of the
image and no value at pixels of insufficient coherence. `M` bounds the values of the tiles and of the model rasters. -/
theorem C71_congruent_of (A : FloatArith K) (B η Bd ηd ε : K) (hA : MixedPrecision A B η Bd ηd ε) (hη : η ≤ 1 / 4) (hε : 0 ≤ ε)
    (atol rtol M δ : K) (hM : 0 ≤ M) (hroom : 3 * M + A.tauS + 4 * η ≤ B)
    (P : Flow K S) (hP : GoodFlow P) (himg : 0 < P.job.coh.rows ∧ 0 < P.job.coh.cols)
    (hifgs : P.job.time.links ≠ []) (hset : P.merger.check = .ok ())
    (oT : Nat → Nat → List Nat → List Nat) (oS : Nat → List Nat → List Nat) (T : TileSet) (r : MergeResult K)
    (h : workflowFl A atol rtol P oT oS = .ok (T, r))
    (hfile : ∀ (t : Nat) b f, T.tiles[t]? = some b → unwrapOneTileFl A P.solver P.job T t (oT t) (oS t) = .ok f →
      f.tile = b ∧ (∀ r c : ℤ, (r, c) ∈ filePoints f ↔ InTile b r c ∧ ValidPixel P.job r c) ∧ f.points.Nodup ∧
      f.uw.length = P.job.time.links.length ∧ f.phaseOffset.length = P.job.time.links.length ∧
      (∀ row ∈ f.uw, row.length = f.points.length) ∧
      ∀ i s u : Nat, P.job.time.links[i]? = some (s, u) → ∀ (n : Nat) p, (filePoints f)[n]? = some p →
        |A.fs (filePhase f i n)| ≤ M ∧ ∃ k : ℤ,
        |A.fs (filePhase f i n) - (epochPhase P.job u p.1.toNat p.2.toNat - epochPhase P.job s p.1.toNat p.2.toNat + (k : K) * A.tau)| ≤ δ)
    (hmodel : ∀ l, r = .merged l → ∀ x ∈ l, ∀ a b v, x.2.model.val a b = some v → |v| ≤ M) :
    (rastersOf r).map Prod.fst = List.range P.job.time.links.length ∧
    ∀ i b, (i, b) ∈ rastersOf r → b.rows = P.job.coh.rows ∧ b.cols = P.job.coh.cols ∧
      ∀ s u, P.job.time.links[i]? = some (s, u) → ∀ r q : Nat, r < P.job.coh.rows → q < P.job.coh.cols →
        (ValidPixel P.job r q → ∃ v, b.val r q = some v ∧ ∃ k : ℤ,
          |v - (epochPhase P.job u r q - epochPhase P.job s r q + (k : K) * A.tau)| ≤ δ + 4 * η + (2 * M + 1) * ε) ∧
        (¬ ValidPixel P.job r q → b.val r q = none) := by
  obtain ⟨hT, _, F, hF, files, hread, olap, bulk, h4, h5, h6⟩ := workflowFl_inv h
  obtain ⟨hshape, hpos, hin⟩ := flow_tiles hP hT
  have hifgs1 : 1 ≤ P.job.time.links.length := List.length_pos_iff.mpr hifgs
  have hm : P.merger.method = "dirichlet" := by
    unfold MergerSettings.check at hset
    split at hset
    · simp at hset
    split at hset
    · simp at hset
    rename_i h2
    exact not_not.mp h2
  have hFt := fun t (ht : t < T.tiles.length) => hfile t _ _ (List.getElem?_eq_getElem ht) (hF t ht)
  have hpts : ∀ t (ht : t < T.tiles.length), ∀ r c : ℤ, (r, c) ∈ filePoints (F t) ↔ InTile T.tiles[t] r c ∧ ValidPixel P.job r c :=
    fun t ht => (hFt t ht).2.1
  have hf : TileFilesOk P.job.time.links.length T files F := by
    refine ⟨hread, ?_, fun t ht => (hFt t ht).2.2.1, ?_, fun t ht => ⟨(hFt t ht).2.2.2.1, (hFt t ht).2.2.2.2.1⟩,
      fun t ht => (hFt t ht).2.2.2.2.2.1⟩
    · intro t b hb
      obtain ⟨ht, rfl⟩ := List.getElem?_eq_some_iff.mp hb
      exact (hFt t ht).1
    · rintro t ht ⟨r, c⟩ hp
      have h1 := ((hpts t ht r c).mp hp).1
      have h2 := hin _ (List.getElem_mem ht)
      rw [hshape]
      unfold TileInImage at h2
      unfold InTile at h1
      simp only at h2 ⊢
      omega
  have hcover : ∀ r q : Nat, r < P.job.coh.rows → q < P.job.coh.cols → ValidPixel P.job r q →
      ∃ t < T.tiles.length, ((r : ℤ), (q : ℤ)) ∈ filePoints (F t) := by
    obtain ⟨B, hB, h1, h2⟩ := hP.size
    obtain ⟨e1, e2⟩ := mask_shape P
    obtain ⟨_, _, _, _, hc⟩ := C30_make_tiles P.sc P.fl B hB P.useTiles P.tiler hP.tiler P.job.coh.cols P.mask e2
      ⟨by rw [e1]; exact h1, h2⟩ T hT
    intro r q hr hq hv
    obtain ⟨b, hb, hit⟩ := hc r q (by rw [hshape]; unfold PixelOf; simp only; omega)
    obtain ⟨t, ht, rfl⟩ := List.mem_iff_getElem.mp hb
    exact ⟨t, ht, (hpts t ht r q).mpr ⟨hit, hv⟩⟩
  by_cases hn : T.tiles.length = 1
  · obtain ⟨B', h1, h2⟩ := C70_single A ⟨P.lin, P.simplices, olap.getD ⟨[], [], []⟩⟩ P.merger hm P.job.time.links.length T hn files F hf
      (bulk.getD ⟨P.merger.bulkMethod, [], []⟩) (fun _ => false)
    rw [h1, Except.ok.injEq] at h6
    subst h6
    refine ⟨by simp [rastersOf, Function.comp_def], ?_⟩
    intro i b hib
    simp only [rastersOf, List.mem_map, List.mem_filter, Bool.not_false, and_true, Prod.mk.injEq] at hib
    obtain ⟨i', hi', rfl, rfl⟩ := hib
    obtain ⟨g1, g2, g3⟩ := h2 i'
    rw [hshape] at g1 g2
    refine ⟨by simpa using g1, by simpa using g2, fun s u hl r q hr hq => ⟨fun hv => ?_, fun hv => ?_⟩⟩
    · obtain ⟨t, ht, hmem⟩ := hcover r q hr hq hv
      have ht0 : t = 0 := by omega
      subst ht0
      obtain ⟨n, hn'⟩ := List.getElem?_of_mem hmem
      obtain ⟨_, k, hk⟩ := (hFt 0 ht).2.2.2.2.2.2 i' s u hl n _ hn'
      refine ⟨_, (g3 r q).1 n hn', k, ?_⟩
      simp only [Int.toNat_natCast] at hk
      have := hA.nonneg.1
      have : 0 ≤ (2 * M + 1) * ε := mul_nonneg (by linarith) hε
      exact hk.trans (by linarith)
    · exact (g3 r q).2 fun hmem => hv ((hpts 0 (by omega) r q).mp hmem).2
  · have htwo : 2 ≤ T.tiles.length := by omega
    obtain ⟨ol, rfl⟩ : ∃ ol, olap = some ol := by
      cases olap with
      | some ol => exact ⟨ol, rfl⟩
      | none =>
        unfold phasediffDecilesFl at h4
        rw [if_neg hn] at h4
        obtain ⟨s, _, h4⟩ := except_bind_ok h4
        simp [pure, Except.pure] at h4
    obtain ⟨bk, rfl⟩ : ∃ bk, bulk = some bk := by
      cases bulk with
      | some bk => exact ⟨bk, rfl⟩
      | none => exact absurd h5 (bulk_some hn)
    simp only [Option.getD_some] at h5 h6
    have hlab : ol.labels.length = T.tiles.length := by rw [(overlapFl_rows hf h4).1, hP.labels]
    obtain ⟨hbm, hbulk⟩ := bulkFl_shape hP.mip hn hlab (fun med hmed => medianFl_rows hf h4 hmed) h5
    have himg' : 0 < T.shape.1 ∧ 0 < T.shape.2 := by rw [hshape]; simp only; omega
    obtain ⟨omap, h1, h2, _⟩ := ready_float hifgs1 htwo hf h4 hlab hbulk
    obtain ⟨d, hd⟩ := getMaxDegree_ok (shape := imageShape T) (n := T.tiles.length) (F := F) (by
      simp only [imageShape]
      omega) h2.inside
    obtain ⟨k1, k2⟩ := mergeTilesFl_eq (A := A) (env := ⟨P.lin, P.simplices, ol⟩) hifgs1 htwo hf.read hm hbm h1 h2 hd (fun _ => false)
    by_cases hc : adjustOk ⟨P.lin, P.simplices, ol⟩ T.tiles.length F omap d ∨ missing P.job.time.links.length (fun _ => false) = []
    swap
    · obtain ⟨e, he⟩ := k2 hc
      rw [he] at h6
      simp at h6
    have h6' := h6
    rw [k1 hc, Except.ok.injEq] at h6'
    have hsz := C70_size h6
    subst h6'
    refine ⟨by simp [rastersOf, missing, Function.comp_def], ?_⟩
    intro i b hib
    obtain ⟨z1, z2⟩ := hsz.1 _ hib
    rw [hshape] at z1 z2
    refine ⟨by simpa using z1, by simpa using z2, fun s u hl r q hr hq => ?_⟩
    simp only [rastersOf] at hib
    obtain ⟨⟨i', m⟩, hmem, e⟩ := List.mem_map.mp hib
    simp only [Prod.mk.injEq] at e
    obtain ⟨rfl, rfl⟩ := e
    constructor
    · intro hv
      obtain ⟨v, mean, v1, _, _, k, hk⟩ := C70_congruent A B η Bd ηd ε hA hη atol rtol M δ hroom P.merger.minOverlapPoints P.cc
        P.job.time.links.length hifgs1 T htwo himg' files F hf ⟨P.lin, P.simplices, ol⟩ h4 hlab bk hbulk P.merger hm hbm
        (fun _ => false) _ h6 i' m hmem (fun p => epochPhase P.job u p.1.toNat p.2.toNat - epochPhase P.job s p.1.toNat p.2.toNat) r q
        (fun t ht n hn' => (hFt t ht).2.2.2.2.2.2 i' s u hl n _ hn') (fun v hv => hmodel _ rfl _ hmem r q v hv) (hcover r q hr hq hv)
      exact ⟨v, v1, k, by simpa using hk⟩
    · intro hv
      obtain ⟨b', hb', e⟩ := List.mem_map.mp hmem
      simp only [Prod.mk.injEq] at e
      obtain ⟨rfl, rfl⟩ := e
      obtain ⟨m, hm'⟩ := bandRasterFl_ok (A := A) h2.inside b' (finalCorrFl A ⟨P.lin, P.simplices, ol⟩ F omap d bk.offsets b')
      have hfin : finalRasterFl A ⟨P.lin, P.simplices, ol⟩ (imageShape T) T.tiles.length F omap d bk.offsets b' = m := by
        unfold finalRasterFl; rw [hm']
      rw [hfin]
      exact ((bandRasterFl_at h2.inside h2.map.once hm' r q).1 fun j hj hmem => hv ((hpts j hj r q).mp hmem).2).1

end

section
variable {S : Type}

/-- What is asked of a run in numpy's numbers: the phases of the stack are those of `np.angle`; no point of a tile is more than 2000
links from its first one; the flow solver answers with at most two cycles per link in time and ten in space; no value of a tile
exceeds 20000 radians. -/
structure Spec.TameFl (P : Flow ℚ S) (T : TileSet) (oT : Nat → Nat → List Nat → List Nat) (oS : Nat → List Nat → List Nat) :
    Prop where
  contract : ∀ b ∈ T.tiles, PlanarContract (tileGraph P.job b).npoints (tileGraph P.job b).links (tileGraph P.job b).cycles
  pool : 1 ≤ P.job.settings.sWorkerCount ∨ 2 ≤ P.job.cpuCount
  bounded : ∀ s r c, PixelOf (P.job.coh.rows, P.job.coh.cols) r c → ValidPixel P.job r c →
    |epochPhase P.job s r.toNat c.toNat| ≤ 11 / 20 * twoPiSingle
  near : ∀ b ∈ T.tiles, ∀ p < (tileGraph P.job b).npoints, ∃ L ≤ 2000, WalkTo (tileGraph P.job b).links L p
  flows : ∀ (t : Nat) b, T.tiles[t]? = some b → ∀ time space, ormcf P.job.time = .ok time → ormcf (tileGraph P.job b) = .ok space →
    FlowsWithin numpyArith P.solver (tileEmcf P.job b time space) (tileData P.job b) false (oT t) 2 10
  range : ∀ t f, unwrapOneTileFl numpyArith P.solver P.job T t (oT t) (oS t) = .ok f → ∀ i < P.job.time.links.length,
    ∀ n < f.points.length, |filePhase f i n| ≤ 20000

theorem numpy_flow_room : CubeRoom numpyArith (2 ^ 4) (2 ^ 4 / 2 ^ 25) (2 ^ 18) (2 ^ 19) (2 ^ 19 / 2 ^ 53) (175 / 1000000000)
    (3 * (1 / 2 ^ 22)) (31416 / 10000) 3 (1571 / 100) (2 / 1000000) 2 10 2000 := by
  have hHq : ((2000 : ℕ) : ℚ) = 2000 := by norm_num
  have htol := tolDouble_bounds
  refine ⟨⟨by norm_num, by norm_num⟩, ⟨?_, by norm_num⟩, ?_, ?_, ?_, ?_, ?_⟩
  · norm_num [numpyArith, twoPi]
  · norm_num
  · rw [hHq]; norm_num [numpyArith, twoPi]
  · rw [hHq]; norm_num [numpyArith, twoPi]
  · exact le_trans (by norm_num) htol.1
  · rw [hHq]
    show tolDouble + _ < twoPi
    have : (2 * (2000 + 1) * (2 / 1000000 + 3 * (2 ^ 19 / 2 ^ 53)) : ℚ) < 1 := by norm_num
    have h2 : (3 : ℚ) < twoPi := by norm_num [twoPi]
    linarith

/-- C71. The whole workflow in numpy's numbers, whatever the phases of the stack: when it completes with a model of up to 20000
radians, every raster has the size of the image, at every pixel of sufficient coherence the phase difference of the two acquisitions
plus whole cycles to within three hundredths of a radian, and no value at the other pixels. Whatever the bulk offsets and the
answers of the linear solver. -/
theorem C71_congruent (P : Flow ℚ S) (hP : GoodFlow P) (himg : 0 < P.job.coh.rows ∧ 0 < P.job.coh.cols)
    (hifgs : P.job.time.links ≠ []) (hset : P.merger.check = .ok ())
    (oT : Nat → Nat → List Nat → List Nat) (oS : Nat → List Nat → List Nat)
    (hoT : ∀ t k l, (oT t k l).Perm l) (hoS : ∀ t l, (oS t l).Perm l) (T : TileSet) (r : MergeResult ℚ) (atol rtol : ℚ)
    (h : workflowFl numpyArith atol rtol P oT oS = .ok (T, r)) (hU : TameFl P T oT oS)
    (hmodel : ∀ l, r = .merged l → ∀ x ∈ l, ∀ a b v, x.2.model.val a b = some v → |v| ≤ 20000) :
    (rastersOf r).map Prod.fst = List.range P.job.time.links.length ∧
    ∀ i b, (i, b) ∈ rastersOf r → b.rows = P.job.coh.rows ∧ b.cols = P.job.coh.cols ∧
      ∀ s u, P.job.time.links[i]? = some (s, u) → ∀ r q : Nat, r < P.job.coh.rows → q < P.job.coh.cols →
        (ValidPixel P.job r q → ∃ v, b.val r q = some v ∧ ∃ k : ℤ,
          |v - (epochPhase P.job u r q - epochPhase P.job s r q + (k : ℚ) * twoPi)| ≤ 3 / 100) ∧
        (¬ ValidPixel P.job r q → b.val r q = none) := by
  have PP := numpyArith_precision_pow 16 16 30
  have hA : MixedPrecision numpyArith (2 ^ 16) (2 ^ 16 / 2 ^ 25) (2 ^ 30) (2 ^ 30 / 2 ^ 53) (175 / 1000000000) :=
    ⟨PP.single, PP.double, ⟨PP.nonneg.1, PP.nonneg.2.2⟩, PP.one_le, PP.close⟩
  have PQ := numpyArith_precision_pow 4 18 19
  have hHq : ((2000 : ℕ) : ℚ) = 2000 := by norm_num
  obtain ⟨hT, _⟩ := workflowFl_inv h
  obtain ⟨hshape, hpos, hin⟩ := flow_tiles hP hT
  obtain ⟨r1, r2⟩ := C71_congruent_of numpyArith (2 ^ 16) (2 ^ 16 / 2 ^ 25) (2 ^ 30) (2 ^ 30 / 2 ^ 53) (175 / 1000000000) hA (by norm_num)
    (by norm_num) atol rtol 20001 (13 / 1000) (by norm_num) (by norm_num [numpyArith, twoPiSingle]) P hP himg hifgs hset oT oS T r h (by
      intro t b f hb hf
      have hmem := List.mem_of_getElem? hb
      obtain ⟨f1, f2, f3, f4, f5, f6, f7, f8⟩ := C71_tile_file PQ P.solver P.job hP.job T t b hb (hin b hmem) (hU.contract b hmem) hU.pool
        (11 / 20 * twoPiSingle) (3 * (1 / 2 ^ 22)) (31416 / 10000) 3 (1571 / 100) (2 / 1000000)
        (wraps_of_once C73_wraps_once (by norm_num [twoPiSingle]) (by norm_num)) (by norm_num [twoPiSingle])
        hU.bounded (oT t) (oS t) (hoT t) (hoS t) 2 10 2000 numpy_flow_room (hU.flows t b hb) (hU.near b hmem) f hf
      refine ⟨f1, f3, f4, f5, f6, f7, fun i s u hl n p hn => ?_⟩
      have hr := hU.range t f hf i (List.getElem?_eq_some_iff.mp hl).1 n (by
        rw [← filePoints_length]; exact (List.getElem?_eq_some_iff.mp hn).1)
      have ha : |numpyArith.fs (filePhase f i n) - filePhase f i n| ≤ 2 ^ 15 / 2 ^ 25 :=
        (rounds_single_pow 15).1 _ (hr.trans (by norm_num))
      obtain ⟨k, hk⟩ := f8 i s u hl n p hn
      rw [hHq] at hk
      have e1 : (2000 : ℚ) * (2 / 1000000 + 3 * (2 ^ 19 / 2 ^ 53)) + 2 ^ 18 / 2 ^ 25 + 3 * (1 / 2 ^ 22) + 3 * (175 / 1000000000) ≤ 12 / 1000 := by
        norm_num
      have e2 : (2 ^ 15 / 2 ^ 25 : ℚ) ≤ 1 / 1000 := by norm_num
      have a1 := abs_le.mp hr
      have a2 := abs_le.mp ha
      have a3 := abs_le.mp hk
      refine ⟨?_, k, ?_⟩
      · rw [abs_le]; constructor <;> linarith
      · rw [abs_le]; constructor <;> linarith)
    (fun l hl x hx a b v hv => (hmodel l hl x hx a b v hv).trans (by norm_num))
  refine ⟨r1, fun i b hib => ?_⟩
  obtain ⟨g1, g2, g3⟩ := r2 i b hib
  refine ⟨g1, g2, fun s u hl r q hr hq => ⟨fun hv => ?_, (g3 s u hl r q hr hq).2⟩⟩
  obtain ⟨v, v1, k, hk⟩ := (g3 s u hl r q hr hq).1 hv
  exact ⟨v, v1, k, hk.trans (by norm_num)⟩

/-- Unaliased stacks (hypotheses of `C73_recovers`) are tame. -/
theorem tameFl_of_unaliased {P : Flow ℚ S} (hP : GoodFlow P) {T : TileSet}
    (hin : ∀ b ∈ T.tiles, TileInImage (P.job.coh.rows, P.job.coh.cols) b) (hne : T.tiles ≠ [])
    {φ : Nat → ℤ × ℤ → ℚ} (hU : UnaliasedWithin 2000 1000 P T φ)
    (oT : Nat → Nat → List Nat → List Nat) (oS : Nat → List Nat → List Nat)
    (hoT : ∀ t k l, (oT t k l).Perm l) (hoS : ∀ t l, (oS t l).Perm l) : TameFl P T oT oS := by
  refine ⟨fun b hb => (hU.ready b hb).contract, ?_, hU.bounded, hU.near, ?_, ?_⟩
  · obtain ⟨b, hb⟩ := List.exists_mem_of_ne_nil _ hne
    exact (hU.ready b hb).pool
  · intro t b hb time space ht hs
    have hmem := List.mem_of_getElem? hb
    obtain ⟨f1, f2⟩ := large_no_flows hP hin hU oT oS hoT hoS t b hb time space ht hs
    exact ⟨fun tc h1 j hj fl h2 f hf => (f1 tc h1 j hj fl h2 f hf).trans (by norm_num),
      fun sc h1 g h2 i hi res fl h3 h4 f hf => (f2 sc h1 g h2 i hi res fl h3 h4 f hf).trans (by norm_num)⟩
  · intro t f hf i hi n hn
    have ht : t < T.tiles.length := by
      by_contra hc
      unfold unwrapOneTileFl at hf
      obtain ⟨b, hb, _⟩ := except_bind_ok hf
      rw [List.getElem?_eq_none (by omega)] at hb
      simp at hb
    obtain ⟨f', h1, _, h3, _, _, _, _, _, h8⟩ := large_files hP hin hU oT oS hoT hoS t ht
    rw [hf, Except.ok.injEq] at h1
    subst h1
    obtain ⟨c, c1, c2⟩ := h8 i P.job.time.links[i].1 P.job.time.links[i].2 (List.getElem?_eq_getElem hi)
    have hn' : n < (filePoints f).length := by rw [filePoints_length]; exact hn
    have hp := List.getElem?_eq_getElem hn'
    have a1 := abs_le.mp (c2 n _ hp)
    obtain ⟨hit, hv⟩ := ((tile_read hP.job (hin _ (List.getElem_mem ht))).2.2.2.2.1 (filePoints f)[n].1 (filePoints f)[n].2).mp (by
      rw [← h3]; exact List.getElem_mem hn')
    have a2 := abs_le.mp (hU.range P.job.time.links[i].1 P.job.time.links[i].2 (List.getElem_mem hi) (filePoints f)[n] (by
      have h3 := hin _ (List.getElem_mem ht)
      unfold TileInImage at h3
      unfold InTile at hit
      unfold PixelOf
      simp only at h3 ⊢
      omega) hv)
    have hct : |twoPi * (c : ℚ)| ≤ 1000 := by
      rw [abs_mul]
      have : |(c : ℚ)| ≤ 159 := by rw [← Int.cast_abs]; exact_mod_cast c1
      calc |twoPi| * |(c : ℚ)| ≤ |twoPi| * 159 := mul_le_mul_of_nonneg_left this (abs_nonneg _)
        _ ≤ 1000 := by norm_num [twoPi]
    have a3 := abs_le.mp hct
    have hrel : |numpyArith.fs (filePhase f i n) - filePhase f i n| ≤ 1 / 2 ^ 24 * |filePhase f i n| := flSingle_rel _
    have hfs : |numpyArith.fs (filePhase f i n)| ≤ 2001 := by
      rw [abs_le]; constructor <;> linarith
    have htri : |filePhase f i n| ≤ |numpyArith.fs (filePhase f i n)| + |numpyArith.fs (filePhase f i n) - filePhase f i n| := by
      have := abs_sub_abs_le_abs_sub (filePhase f i n) (numpyArith.fs (filePhase f i n))
      rw [abs_sub_comm (filePhase f i n)] at this
      linarith
    nlinarith [abs_nonneg (filePhase f i n)]

end

end Spurt
