import Verif.Lemmas.Resume
import Verif.Lemmas.TileShape
import Verif.Lemmas.BulkFile
import Verif.Props.MergeTiles

/-!
# Resuming: what the stages compute does not depend on the schedule or on the files present
-/

namespace Spurt
open Spec

section
variable {K : Type} [Field K] [LinearOrder K] [FloorRing K] [IsStrictOrderedRing K]

/-! ### Unwrapping a tile -/

theorem unwrapCube_schedule {tau : K} {solver : FlowSolver} {e : Emcf} {gt : PlanarGraph}
    (hnd : gt.links.Nodup) (hord : ∀ a b, (a, b) ∈ gt.links → a ≤ b) (hm : ormcf gt = .ok e.time)
    (hb : 0 < e.settings.linksPerBatch) (hlt : ∀ a b, (a, b) ∈ e.space.graph.links → a < b)
    (w : CubeInput K) {oT oT' : Nat → List Nat → List Nat} {oS oS' : List Nat → List Nat}
    (hT : ∀ k l, (oT k l).Perm l) (hT' : ∀ k l, (oT' k l).Perm l) (hS : ∀ l, (oS l).Perm l) (hS' : ∀ l, (oS' l).Perm l)
    {out : List (List K)} (h : unwrapCube tau solver e w oT oS = .ok out) : unwrapCube tau solver e w oT' oS' = .ok out := by
  unfold unwrapCube at h ⊢
  cases e1 : cubeKind e w with
  | error er => rw [e1] at h; simp [Bind.bind, Except.bind] at h
  | ok isIfg =>
    rw [e1] at h
    simp only [Bind.bind, Except.bind] at h ⊢
    cases e2 : unwrapInTime tau solver e w.data isIfg oT with
    | error er => rw [e2] at h; simp at h
    | ok grad =>
      rw [e2] at h
      simp only at h
      have := (C19_batch_independent tau solver e gt hnd hord hm w.data isIfg e.settings.linksPerBatch
        e.settings.linksPerBatch e.settings.tWorkerCount e.settings.tWorkerCount hb hb oT oT' hT hT' grad).mp e2
      have e3 : unwrapInTime tau solver e w.data isIfg oT' = .ok grad := this
      rw [e3]
      simp only
      rw [C23_order_independent tau solver e hlt grad oS hS out] at h
      rwa [C23_order_independent tau solver e hlt grad oS' hS' out]

theorem unwrapOneTile_schedule {tau : K} {solver : FlowSolver} {j : TileJob K} (hj : GoodJob j) {tiles : TileSet} {t : Nat}
    {oT oT' : Nat → List Nat → List Nat} {oS oS' : List Nat → List Nat}
    (hT : ∀ k l, (oT k l).Perm l) (hT' : ∀ k l, (oT' k l).Perm l) (hS : ∀ l, (oS l).Perm l) (hS' : ∀ l, (oS' l).Perm l)
    {f : TileFile K} (h : unwrapOneTile tau solver j tiles t oT oS = .ok f) :
    unwrapOneTile tau solver j tiles t oT' oS' = .ok f := by
  unfold unwrapOneTile at h ⊢
  cases e0 : (tiles.tiles[t]?).elim (.error .indexError : Except PyErr BBox) .ok with
  | error er => rw [e0] at h; simp [Bind.bind, Except.bind] at h
  | ok b =>
  rw [e0] at h
  simp only [Bind.bind, Except.bind] at h ⊢
  cases e1 : ormcf j.time with
  | error er => rw [e1] at h; simp at h
  | ok sTime =>
  rw [e1] at h
  simp only at h ⊢
  set pts := tilePoints j.coh j.thr b with hpts
  cases e2 : ormcf (delaunayGraph pts.length (j.simplices pts)) with
  | error er => rw [e2] at h; simp at h
  | ok sSpace =>
  rw [e2] at h
  simp only at h ⊢
  split at h
  · simp at h
  · next hc =>
    rw [if_neg hc]
    set e : Emcf := ⟨sSpace, sTime, j.settings, j.cpuCount, j.tDist, j.tCent, j.sDist pts, j.sCent pts⟩ with he
    cases e3 : unwrapCube tau solver e ⟨2, 0, (readTile j.coh j.thr j.dates j.phase (0 : K) b).2⟩ oT oS with
    | error er => rw [e3] at h; simp at h
    | ok uw =>
      rw [e3] at h
      have hsg : sSpace.graph = delaunayGraph pts.length (j.simplices pts) := ormcf_graph e2
      rw [unwrapCube_schedule hj.contract.distinct (fun a b hab => (hj.contract.ordered a b hab).1.le) e1 hj.batch
        (by rw [he]; simp only; rw [hsg]; exact delaunay_links_lt (hj.triangles pts)) _ hT hT' hS hS' e3]
      exact h

/-! ### Overlaps -/

omit [IsStrictOrderedRing K] in
theorem overlapRun_eq (tau : K) (minPoints : ℤ) (load : Nat → Except PyErr (List (ℤ × ℤ) × List (List K)))
    (ps : List (Nat × Nat)) (s s' : OverlapState K) :
    overlapRun tau minPoints load ps s = (s', false) ↔ ps.foldlM (overlapStep id tau minPoints load) s = .ok s' := by
  induction ps generalizing s with
  | nil => simp [overlapRun, pure, Except.pure]
  | cons p ps ih =>
    unfold overlapRun
    rw [List.foldlM_cons]
    cases e : overlapStep id tau minPoints load s p with
    | error er => simp [Bind.bind, Except.bind]
    | ok s1 =>
      simp only [Bind.bind, Except.bind]
      exact ih s1

/-! ### Bulk offsets -/

omit [IsStrictOrderedRing K] in
theorem median_rows [IsStrictOrderedRing K] {tau : K} {minPoints : ℤ}
    {cc : Nat → List (Nat × Nat) → List Nat} {nifgs : Nat}
    {tiles : TileSet} {files : Nat → Except PyErr (TileFile K)} {F : Nat → TileFile K} {olap : OverlapFile}
    (hf : TileFilesOk nifgs tiles files F)
    (h : phasediffDeciles id tau minPoints cc tiles files = .ok (some olap)) {med : List (List ℤ)}
    (hm : medianOffsets olap = .ok med) : ∀ x ∈ med, x.length = nifgs := by
  obtain ⟨hsub, hnd, _, hrec⟩ := C53_recorded tau minPoints cc tiles files olap h
  have hgr := overlaps_groups h
  unfold medianOffsets at hm
  obtain ⟨med', e1, hl, hall⟩ := mapM_exists _ _ (mapM_ok_imp hm)
  rw [hm, Except.ok.injEq] at e1
  subst e1
  intro x hx
  obtain ⟨k, hk, rfl⟩ := List.mem_iff_getElem.mp hx
  have hk' : k < olap.overlaps.length := by omega
  obtain ⟨x', hx', hfx⟩ := hall k _ (List.getElem?_eq_getElem hk')
  rw [List.getElem?_eq_getElem hk, Option.some.injEq] at hx'
  subst hx'
  have hij := List.getElem_mem hk'
  generalize olap.overlaps[k] = e at hij hfx
  obtain ⟨i, j⟩ := e
  obtain ⟨bi, bj, fi, fj, h1, h2, h3, h4, _, h5⟩ := hrec _ _ (hsub.subset hij)
  have hi := (List.getElem?_eq_some_iff.mp h1).1
  rw [hf.read _ hi, Except.ok.injEq] at h3
  subst h3
  obtain ⟨c1, c2, st, h6, h7, h8, _⟩ := h5 hij
  have hfind := find_group (by rw [← hgr]; exact hnd) h7
  simp only at hfind
  rw [hfind] at hfx
  simp only at hfx
  obtain ⟨row', e2, hl2, _⟩ := mapM_exists _ _ (mapM_ok_imp hfx)
  rw [hfx, Except.ok.injEq] at e2
  rw [← e2, List.length_map] at hl2
  rw [hl2]
  obtain ⟨hacc, hres⟩ := C38_accepts tau (selectColumns (imagePhase (F i)) c1) (selectColumns (imagePhase fj) c2)
  obtain ⟨nb, n, hs1, hs2, _⟩ := hacc.mp ⟨st, h8⟩
  obtain ⟨hstl, _⟩ := hres nb n st hs1 h8
  obtain ⟨e3, e4⟩ := hf.bands _ hi
  simp only [selectColumns, List.cons.injEq, imagePhase, List.length_zipWith, e3, e4, min_self] at hs1
  omega

/-- The bulk offset file has the size the merge stage expects. -/
theorem bulk_shape {C : Type} [LinearOrder C] {mip : MipSolver} (hmip : MipOptimal mip) {lstsq : Lstsq K} {method : String}
    {coh : Band (Option C)} {thr : C} {nifgs : Nat} {tiles : TileSet} {olap : OverlapFile}
    (hn : tiles.tiles.length ≠ 1) (hlab : olap.labels.length = tiles.tiles.length)
    (hrow : ∀ med, medianOffsets olap = .ok med → ∀ x ∈ med, x.length = nifgs) {b : BulkFile K}
    (h : bulkOffsets mip lstsq method tiles coh thr olap = .ok (some b)) :
    b.method = method ∧ BulkOk nifgs tiles.tiles.length b := by
  cases hmed : medianOffsets olap with
  | error er =>
    unfold bulkOffsets at h
    rw [if_neg hn, hmed] at h
    simp [Bind.bind, Except.bind] at h
  | ok med =>
    have hrow := hrow med hmed
    have hne : med ≠ [] := by
      rintro rfl
      unfold bulkOffsets at h
      rw [if_neg hn, hmed] at h
      simp [Bind.bind, Except.bind] at h
    by_cases h1 : method = "integer"
    · subst h1
      rw [bulk_integer hn hmed hne hrow] at h
      cases e : (List.range nifgs).mapM (fun ii => solveIntOffsets mip olap.overlaps olap.labels (med.map fun x => x.getD ii 0)
        (tileCounts coh thr tiles)) with
      | error er => rw [e] at h; simp [Bind.bind, Except.bind] at h
      | ok rows =>
        rw [e] at h
        simp only [Bind.bind, Except.bind, pure, Except.pure, Except.ok.injEq, Option.some.injEq] at h
        subst h
        obtain ⟨rows', e1, hl, hall⟩ := mapM_exists _ _ (mapM_ok_imp e)
        rw [e, Except.ok.injEq] at e1
        subst e1
        refine ⟨rfl, by simp [hl], fun row hr => ?_⟩
        simp only at hr
        obtain ⟨r, hr2, rfl⟩ := List.mem_map.mp hr
        obtain ⟨k, hk, rfl⟩ := List.mem_iff_getElem.mp hr2
        have hk' : k < nifgs := by simpa [hl] using hk
        obtain ⟨r', hr', hs⟩ := hall k k (by rw [List.getElem?_range hk'])
        rw [List.getElem?_eq_getElem hk, Option.some.injEq] at hr'
        rw [← hr'] at hs
        rw [List.length_map]
        unfold solveIntOffsets at hs
        split at hs
        · simp at hs
        · simp only [Bind.bind, Except.bind] at hs
          split at hs
          · simp at hs
          · split at hs
            · simp at hs
            · next v hv =>
              simp only [pure, Except.pure, Except.ok.injEq] at hs
              rw [← hs]
              have := (hmip _ _ hv).1.lenN
              simp only at this ⊢
              omega
    · by_cases h2 : method = "L2"
      · subst h2
        rw [bulk_L2 hn hmed hne hrow] at h
        cases e : solveL2Min lstsq olap.overlaps (med.map fun x => x.map fun v => ((v : ℤ) : K)) nifgs
          tiles.tiles.length (tileCounts coh thr tiles) with
        | error er => rw [e] at h; simp [Bind.bind, Except.bind] at h
        | ok r =>
          rw [e] at h
          simp only [Bind.bind, Except.bind, pure, Except.pure, Except.ok.injEq, Option.some.injEq] at h
          subst h
          unfold solveL2Min at e
          split at e
          · simp at e
          · simp only [Bind.bind, Except.bind] at e
            split at e
            · simp at e
            · split at e
              · simp at e
              · simp only [pure, Except.pure, Except.ok.injEq] at e
                subst e
                refine ⟨rfl, by simp, fun row hr => ?_⟩
                simp only [List.mem_map] at hr
                obtain ⟨_, _, rfl⟩ := hr
                simp
      · unfold bulkOffsets at h
        rw [if_neg hn, hmed] at h
        obtain ⟨x, rest, rfl⟩ := List.exists_cons_of_ne_nil hne
        simp [Bind.bind, Except.bind, h1, h2] at h

/-! ### Merging -/

omit [IsStrictOrderedRing K] in
theorem writeRun_eq (tau : K) (shape : Nat × Nat) (ts : List (TileState K)) (l : List Nat) (out : List (Nat × MergedBand K)) :
    writeRun tau shape ts l = (out, false) ↔ l.mapM (writeNumbered tau shape ts) = .ok out := by
  induction l generalizing out with
  | nil => simp [writeRun, pure, Except.pure, eq_comm]
  | cons i l ih =>
    unfold writeRun
    rw [List.mapM_cons]
    cases e : writeNumbered tau shape ts i with
    | error er => simp [Bind.bind, Except.bind]
    | ok x =>
      simp only [Bind.bind, Except.bind]
      cases e2 : l.mapM (writeNumbered tau shape ts) with
      | ok out' =>
        rw [(ih out').mpr e2]
        simp [pure, Except.pure]
      | error er =>
        simp only [reduceCtorEq, iff_false, Prod.mk.injEq, not_and, Bool.not_eq_false]
        intro _
        by_contra hc
        have := (ih (writeRun tau shape ts l).1).mp (by
          rw [Prod.ext_iff]
          exact ⟨rfl, by simpa using hc⟩)
        rw [e2] at this
        simp at this

omit [IsStrictOrderedRing K] in
theorem batchRun_eq (tau : K) (env : MergeEnv K) (omap : List (List Nat)) (maxDegree : Nat) (bulk : List (List K))
    (shape : Nat × Nat) (isFile : Nat → Bool) (tiles : List (TileState K)) (batch : List Nat)
    (ts' : List (TileState K)) (out : List (Nat × MergedBand K)) :
    batchRun tau env omap maxDegree bulk shape isFile tiles batch = (out, some ts') ↔
      mergeBatch tau env omap maxDegree bulk shape isFile tiles batch = .ok (ts', out) := by
  unfold batchRun mergeBatch
  simp only
  split
  · simp [pure, Except.pure, and_comm, eq_comm]
  · simp only [Bind.bind, Except.bind]
    cases e1 : tiles.zipIdx.mapM (fun (p : TileState K × Nat) => prepareTile tau bulk
        (batch.filter fun i => !isFile i) p.2 p.1) with
    | error er => simp
    | ok t1 =>
      simp only
      cases e2 : adjustTiles env omap maxDegree t1 with
      | error er => simp
      | ok t2 =>
        simp only
        cases e3 : (batch.filter fun i => !isFile i).mapM (writeNumbered tau shape t2) with
        | ok out' =>
          rw [(writeRun_eq tau shape t2 _ out').mpr e3]
          simp [pure, Except.pure, and_comm]
        | error er =>
          simp only [reduceCtorEq, iff_false, Prod.mk.injEq, not_and]
          intro h1 h2
          split at h2
          · simp at h2
          · next hc =>
            have := (writeRun_eq tau shape t2 _ (writeRun tau shape t2 (batch.filter fun i => !isFile i)).1).mp (by
              rw [Prod.ext_iff]
              exact ⟨rfl, by simpa using hc⟩)
            rw [e3] at this
            simp at this

/-- The loop over the batches in `merge_tiles`. -/
def batchStep (tau : K) (env : MergeEnv K) (omap : List (List Nat)) (maxDegree : Nat) (bulk : List (List K))
    (shape : Nat × Nat) (isFile : Nat → Bool) (acc : List (TileState K) × List (Nat × MergedBand K)) (batch : List Nat) :
    Except PyErr (List (TileState K) × List (Nat × MergedBand K)) := do
  let (ts, out) ← mergeBatch tau env omap maxDegree bulk shape isFile acc.1 batch
  pure (ts, acc.2 ++ out)

omit [IsStrictOrderedRing K] in
theorem batchesRun_ok (tau : K) (env : MergeEnv K) (omap : List (List Nat)) (maxDegree : Nat) (bulk : List (List K))
    (shape : Nat × Nat) (isFile : Nat → Bool) (bs : List (List Nat)) (ts : List (TileState K))
    (acc : List (Nat × MergedBand K)) :
    (∀ out, batchesRun tau env omap maxDegree bulk shape isFile bs ts = (out, false) →
      ∃ ts', bs.foldlM (batchStep tau env omap maxDegree bulk shape isFile) (ts, acc) = .ok (ts', acc ++ out)) ∧
    ∀ r, bs.foldlM (batchStep tau env omap maxDegree bulk shape isFile) (ts, acc) = .ok r →
      (batchesRun tau env omap maxDegree bulk shape isFile bs ts).2 = false := by
  induction bs generalizing ts acc with
  | nil => simp [batchesRun, pure, Except.pure]
  | cons b bs ih =>
    unfold batchesRun
    simp only [List.foldlM_cons]
    cases e : mergeBatch tau env omap maxDegree bulk shape isFile ts b with
    | ok r =>
      obtain ⟨ts1, out1⟩ := r
      rw [(batchRun_eq tau env omap maxDegree bulk shape isFile ts b ts1 out1).mpr e]
      simp only
      have e' : batchStep tau env omap maxDegree bulk shape isFile (ts, acc) b = .ok (ts1, acc ++ out1) := by
        unfold batchStep
        simp only
        rw [e]
        rfl
      rw [e']
      simp only [Bind.bind, Except.bind]
      obtain ⟨h1, h2⟩ := ih ts1 (acc ++ out1)
      refine ⟨fun out h => ?_, h2⟩
      cases hq : batchesRun tau env omap maxDegree bulk shape isFile bs ts1 with
      | mk q1 q2 =>
        rw [hq] at h
        simp only [Prod.mk.injEq] at h
        obtain ⟨rfl, rfl⟩ := h
        obtain ⟨ts', h'⟩ := h1 q1 hq
        exact ⟨ts', by rw [h', List.append_assoc]⟩
    | error er =>
      have e' : batchStep tau env omap maxDegree bulk shape isFile (ts, acc) b = .error er := by
        unfold batchStep
        simp only
        rw [e]
        rfl
      rw [e']
      simp only [Bind.bind, Except.bind, reduceCtorEq, exists_false, false_imp_iff, implies_true, and_true]
      cases hr : batchRun tau env omap maxDegree bulk shape isFile ts b with
      | mk r1 r2 =>
        cases r2 with
        | none => simp
        | some ts1 =>
          have := (batchRun_eq tau env omap maxDegree bulk shape isFile ts b ts1 r1).mp hr
          rw [e] at this
          simp at this

omit [Field K] [LinearOrder K] [FloorRing K] [IsStrictOrderedRing K] in
theorem except_ok_bind {ε α β : Type} (a : α) (g : α → Except ε β) : ((Except.ok a : Except ε α) >>= g) = g a := rfl

/-- What the merge stage does to more than one tile is `merge_tiles`. -/
theorem mergeWork_eq {S : Type} (P : Flow K S) (d : Disk K) {T : TileSet} (hT : d.readTiles = .ok T) {olap : OverlapFile}
    (ho : d.readOverlap = .ok olap) {bulk : BulkFile K} (hb : d.readOffsets = .ok bulk) (hn : T.tiles.length ≠ 1) :
    (∀ us, P.mergeWork d = .ok (us, false) → ∃ out, us = out.map (fun x => bandUnit x.1 x.2) ∧
      mergeTiles P.tau ⟨P.lin, P.simplices, olap⟩ P.merger T d.readTile bulk P.job.time.links.length
        (fun i => (d.unw i).isSome) = .ok (.merged out)) ∧
    ∀ out, mergeTiles P.tau ⟨P.lin, P.simplices, olap⟩ P.merger T d.readTile bulk P.job.time.links.length
        (fun i => (d.unw i).isSome) = .ok (.merged out) →
      P.mergeWork d = .ok (out.map fun x => bandUnit x.1 x.2, false) := by
  unfold Flow.mergeWork mergeTiles
  split
  · simp
  · rw [hT]
    simp only [except_ok_bind]
    generalize (List.range T.tiles.length).mapM (fun ii => do
      let f ← d.readTile ii
      pure (TileState.start f)) = e1
    cases e1 with
    | error er => simp [Bind.bind, Except.bind]
    | ok ts =>
      simp only [Bind.bind, Except.bind]
      simp only [if_neg hn, ho]
      cases e2 : overlapMap olap.labels.length olap.overlaps with
      | error er => simp
      | ok omap =>
        simp only
        cases e3 : getMaxDegree ts (T.shape.1.toNat, T.shape.2.toNat) with
        | error er => simp
        | ok deg =>
          simp only
          rw [hb]
          simp only
          split
          · simp
          · cases e4 : mergeBatches P.merger.numParallelIfgs P.job.time.links.length with
            | error er => simp
            | ok batches =>
              simp only
              obtain ⟨h1, h2⟩ := batchesRun_ok P.tau ⟨P.lin, P.simplices, olap⟩ omap deg bulk.offsets
                (T.shape.1.toNat, T.shape.2.toNat) (fun i => (d.unw i).isSome) batches ts []
              simp only [pure, Except.pure, Except.ok.injEq, Prod.mk.injEq]
              constructor
              · rintro us ⟨rfl, hf⟩
                obtain ⟨ts', hts⟩ := h1 _ (Prod.ext rfl hf)
                refine ⟨_, rfl, ?_⟩
                unfold batchStep at hts
                simp only [Bind.bind, Except.bind, pure, Except.pure] at hts
                rw [hts]
                simp
              · intro out hout
                split at hout
                · simp at hout
                · next r hr =>
                  have hf := h2 r (by
                    unfold batchStep
                    simp only [Bind.bind, Except.bind, pure, Except.pure]
                    exact hr)
                  obtain ⟨ts', hts⟩ := h1 _ (Prod.ext rfl hf)
                  unfold batchStep at hts
                  simp only [Bind.bind, Except.bind, pure, Except.pure] at hts
                  rw [hr] at hts
                  simp only [Except.ok.injEq] at hts
                  simp only [Except.ok.injEq, MergeResult.merged.injEq] at hout
                  rw [hts] at hout
                  simp only [List.nil_append] at hout
                  exact ⟨congrArg (List.map _) hout, hf⟩

/-! ### A single tile -/

omit [LinearOrder K] [FloorRing K] [IsStrictOrderedRing K] in
theorem singleBand_file {shape : Nat × Nat} {t t' : TileState K} (h : t.file = t'.file) (i : Nat) :
    writeSingleBand shape t i = writeSingleBand shape t' i := by
  unfold writeSingleBand TileState.call TileState.step
  simp only [h]
  cases e : readBands t'.file [i] with
  | error er => rfl
  | ok d => rfl

omit [LinearOrder K] [FloorRing K] [IsStrictOrderedRing K] in
theorem singleBand_keeps {shape : Nat × Nat} {t t1 : TileState K} {i : Nat} {b : Band (Option K)}
    (h : writeSingleBand shape t i = .ok (t1, b)) : t1.file = t.file := by
  unfold writeSingleBand TileState.call TileState.step at h
  simp only at h
  cases e : readBands t.file [i] with
  | error er => rw [e] at h; simp [Bind.bind, Except.bind] at h
  | ok d =>
    rw [e] at h
    simp only [Bind.bind, Except.bind] at h
    split at h
    · simp at h
    · split at h
      · simp at h
      · split at h
        · simp at h
        · simp only [pure, Except.pure, Except.ok.injEq, Prod.mk.injEq] at h
          rw [← h.1]

omit [LinearOrder K] [FloorRing K] [IsStrictOrderedRing K] in
theorem singleRun_ok {shape : Nat × Nat} {f : TileFile K} (l : List Nat) (t : TileState K) (ht : t.file = f) :
    (∀ out, singleRun shape l t = (out, false) → ∀ i ∈ l, ∃ t1 b, writeSingleBand shape (TileState.start f) i = .ok (t1, b)) ∧
    ∀ B : Nat → Band (Option K), (∀ i ∈ l, ∃ t1, writeSingleBand shape (TileState.start f) i = .ok (t1, B i)) →
      singleRun shape l t = (l.map fun i => (i, B i), false) := by
  induction l generalizing t with
  | nil => simp [singleRun]
  | cons i l ih =>
    have hs : writeSingleBand shape t i = writeSingleBand shape (TileState.start f) i := singleBand_file ht i
    unfold singleRun
    rw [hs]
    cases e : writeSingleBand shape (TileState.start f) i with
    | error er =>
      refine ⟨by simp, fun B hB => ?_⟩
      obtain ⟨t1, h1⟩ := hB i (by simp)
      rw [e] at h1
      simp at h1
    | ok r =>
      obtain ⟨t1, b⟩ := r
      have hk : t1.file = f := singleBand_keeps e
      obtain ⟨h1, h2⟩ := ih t1 hk
      simp only
      constructor
      · intro out hout i' hi'
        simp only [Prod.mk.injEq] at hout
        rcases List.mem_cons.mp hi' with rfl | hi'
        · exact ⟨t1, b, e⟩
        · exact h1 _ (Prod.ext rfl hout.2) i' hi'
      · intro B hB
        rw [h2 B fun i' hi' => hB i' (by simp [hi'])]
        obtain ⟨t2, h3⟩ := hB i (by simp)
        rw [e, Except.ok.injEq, Prod.mk.injEq] at h3
        simp [h3.2]

end

end Spurt
