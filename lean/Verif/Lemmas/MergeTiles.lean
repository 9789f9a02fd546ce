import Verif.Lemmas.Adjust
import Verif.Props.MergeBand

/-!
# `merge_tiles`, one band at a time
-/

namespace Spurt

open Spec

theorem foldlM_positions {α σ ε : Type} {f : σ → α → Except ε σ} {g : σ → Nat → Except ε σ} (l : List α)
    (h : ∀ (j : Nat) a, l[j]? = some a → ∀ s, f s a = g s j) (s : σ) :
    l.foldlM f s = (List.range l.length).foldlM g s := by
  induction l using List.reverseRecOn generalizing s with
  | nil => rfl
  | append_singleton l a ih =>
    rw [List.foldlM_append, List.length_append, List.length_singleton, List.range_succ, List.foldlM_append]
    rw [ih (fun j b hb => h j b (by
      rw [List.getElem?_append_left (by
        obtain ⟨hj, _⟩ := List.getElem?_eq_some_iff.mp hb
        exact hj)]
      exact hb))]
    congr 1
    funext s'
    simp only [List.foldlM_cons, List.foldlM_nil]
    rw [h l.length a (by simp) s']

section
variable {K : Type} [Field K] [LinearOrder K] [FloorRing K]

/-- One tile of the averaging loop, in terms of one band. -/
def avgBand (shape : Nat × Nat) (F : Nat → TileFile K) (b : Nat) (c : Nat → Nat → K) (acc : MergeAcc K) (j : Nat) :
    Except PyErr (MergeAcc K) := do
  let px ← pixelsOf shape (filePoints (F j))
  let data := (List.range (F j).points.length).map (bandValue F b c j)
  pure { minval := fancySet acc.minval px
           (List.zipWith (fun p d => some ((acc.minval p).elim d (min d))) px data)
         maxval := fancySet acc.maxval px
           (List.zipWith (fun p d => some ((acc.maxval p).elim d (max d))) px data)
         model := fancySet acc.model px (List.zipWith (fun p d => acc.model p + d) px data)
         cnt := fancySet acc.cnt px (px.map fun p => acc.cnt p + 1) }

/-- One tile of the output loop, in terms of one band. -/
def outBand (tau : K) (shape : Nat × Nat) (F : Nat → TileFile K) (b : Nat) (model : Nat × Nat → K)
    (arr : Nat × Nat → Option K) (j : Nat) : Except PyErr (Nat × Nat → Option K) := do
  let px ← pixelsOf shape (filePoints (F j))
  pure (fancySet arr px (List.zipWith (fun p x =>
    some (model p + (x - model p) - tau * (rint ((x - model p) / tau) : ℤ))) px
      ((List.range (F j).points.length).map (filePhase (F j) b))))

/-- The rasters written for one band, from the tile files and the corrections of this band. -/
def bandRaster (tau : K) (shape : Nat × Nat) (n : Nat) (F : Nat → TileFile K) (b : Nat) (c : Nat → Nat → K) :
    Except PyErr (MergedBand K) := do
  let acc ← (List.range n).foldlM (avgBand shape F b c) ⟨fun _ => 0, fun _ => 0, fun _ => none, fun _ => none⟩
  let mean := fun p => acc.model p / (acc.cnt p : K)
  let arr ← (List.range n).foldlM (outBand tau shape F b mean) (fun _ => none)
  pure { out := ⟨shape.1, shape.2, fun r c => arr (r, c)⟩
         diff := ⟨shape.1, shape.2, fun r c =>
           if acc.cnt (r, c) < 2 then none
           else (acc.maxval (r, c)).bind fun a => (acc.minval (r, c)).map fun b => a - b⟩
         model := ⟨shape.1, shape.2, fun r c => if acc.cnt (r, c) = 0 then none else some (mean (r, c))⟩ }

omit [Field K] [LinearOrder K] [FloorRing K] in
theorem bandRow_eq {a : Arr K} {ind n : Nat} (h1 : ind < a.rows) (h2 : a.cols = n) {g : Nat → K}
    (hg : ∀ p < n, a.val ind p = g p) : bandRow a ind n = .ok ((List.range n).map g) := by
  unfold bandRow
  rw [if_neg (by omega), if_neg (by simp [h2])]
  congr 1
  apply List.map_congr_left
  intro p hp
  exact hg p (List.mem_range.mp hp)

theorem writeMergedBand_eq {tau : K} {shape : Nat × Nat} {n : Nat} (hn : 0 < n) {F : Nat → TileFile K}
    {bands : List Nat} {C : Nat → Nat → Nat → K} {ts : List (TileState K)} (hs : AllSettled n F bands C ts)
    {b : Nat} (hb : b ∈ bands) :
    writeMergedBand tau shape ts b = bandRaster tau shape n F b (C (bands.idxOf b)) := by
  have hk : bands.idxOf b < bands.length := List.idxOf_lt_length_iff.mpr hb
  have hbk : bands.getD (bands.idxOf b) 0 = b := by
    rw [List.getD_eq_getElem _ _ hk]; exact List.getElem_idxOf hk
  have hall : ∀ t ∈ ts, t.idx = bands ∧ t.level = 1 := by
    intro t ht
    obtain ⟨j, hj, rfl⟩ := List.mem_iff_getElem.mp ht
    obtain ⟨t, h1, h2⟩ := hs.2 j (by rw [← hs.1]; exact hj)
    rw [List.getElem?_eq_getElem hj, Option.some.injEq] at h1
    exact ⟨by rw [h1]; exact h2.bands, by rw [h1]; exact h2.level⟩
  unfold writeMergedBand
  rw [if_neg (by
    rw [List.any_eq_true]
    rintro ⟨t, ht, h⟩
    obtain ⟨h1, h2⟩ := hall t ht
    rw [h1] at h
    simp [hb, h2] at h)]
  have hne : ts ≠ [] := by rintro rfl; have := hs.1; simp at this; omega
  rw [List.getLast?_eq_getLast_of_ne_nil hne]
  have hlast := (hall _ (List.getLast_mem hne)).1
  simp only [Option.elim_some, Bind.bind, Except.bind, hlast]
  have havg : ts.foldlM (averageStep shape (bands.idxOf b))
      ⟨fun _ => 0, fun _ => 0, fun _ => none, fun _ => none⟩ =
      (List.range n).foldlM (avgBand shape F b (C (bands.idxOf b)))
        ⟨fun _ => 0, fun _ => 0, fun _ => none, fun _ => none⟩ := by
    rw [← hs.1]
    refine foldlM_positions ts ?_ _
    intro j t ht acc
    have hj : j < n := by rw [← hs.1]; exact (List.getElem?_eq_some_iff.mp ht).1
    obtain ⟨t', h1, h2⟩ := hs.2 j hj
    rw [ht, Option.some.injEq] at h1
    subst h1
    obtain ⟨u, u1, u2, u3, u4⟩ := h2.uwPhase
    have hlen : t.coords.length = (F j).points.length := by rw [coords_eq h2.file, filePoints_length]
    unfold averageStep avgBand
    rw [coords_eq h2.file, u1, filePoints_length]
    have hrow := bandRow_eq (a := u) (ind := bands.idxOf b) (g := bandValue F b (C (bands.idxOf b)) j)
      (by omega) u3 (fun p hp => by rw [u4 _ p hk hp, hbk]; rfl)
    simp only [Bind.bind, Except.bind, hrow]
  rw [havg]
  unfold bandRaster
  simp only [Bind.bind, Except.bind]
  cases (List.range n).foldlM (avgBand shape F b (C (bands.idxOf b)))
        ⟨fun _ => 0, fun _ => 0, fun _ => none, fun _ => none⟩ with
  | error e => rfl
  | ok acc =>
    simp only
    have hout : ts.foldlM (outputStep tau shape (bands.idxOf b) fun p => acc.model p / (acc.cnt p : K)) (fun _ => none) =
        (List.range n).foldlM (outBand tau shape F b fun p => acc.model p / (acc.cnt p : K)) (fun _ => none) := by
      rw [← hs.1]
      refine foldlM_positions ts ?_ _
      intro j t ht arr
      have hj : j < n := by rw [← hs.1]; exact (List.getElem?_eq_some_iff.mp ht).1
      obtain ⟨t', h1, h2⟩ := hs.2 j hj
      rw [ht, Option.some.injEq] at h1
      subst h1
      obtain ⟨u, u1, u2, u3, u4⟩ := rawUwPhase_data h2.width h2.data
      unfold outputStep outBand
      rw [coords_eq h2.file, u1, filePoints_length]
      have hrow := bandRow_eq (a := u) (ind := bands.idxOf b) (g := filePhase (F j) b)
        (by omega) u3 (fun p hp => by rw [u4 _ p hk hp, hbk])
      simp only [Bind.bind, Except.bind, hrow]
    rw [hout]

/-- The rasters exist when the tiles lie in the image. -/
theorem bandRaster_ok {tau : K} {shape : Nat × Nat} {n : Nat} {F : Nat → TileFile K}
    (hin : ∀ j < n, ∀ c ∈ filePoints (F j), Inside shape c) (b : Nat) (c : Nat → Nat → K) :
    ∃ m, bandRaster tau shape n F b c = .ok m := by
  have hfold : ∀ {σ : Type} (g : σ → Nat → Except PyErr σ) (m : Nat), m ≤ n → (∀ j < n, ∀ s, ∃ s', g s j = .ok s') →
      ∀ s, ∃ s', (List.range m).foldlM g s = .ok s' := by
    intro σ g m
    induction m with
    | zero => intro _ _ s; exact ⟨s, rfl⟩
    | succ m ih =>
      intro hm hg s
      obtain ⟨s1, h1⟩ := ih (by omega) hg s
      obtain ⟨s2, h2⟩ := hg m (by omega) s1
      exact ⟨s2, by rw [List.range_succ, List.foldlM_append, h1]; simp [Bind.bind, Except.bind, h2]; rfl⟩
  unfold bandRaster
  obtain ⟨acc, ha⟩ := hfold (avgBand shape F b c) n le_rfl (fun j hj s => by
    unfold avgBand; rw [pixelsOf_inside (hin j hj)]; exact ⟨_, rfl⟩)
    ⟨fun _ => 0, fun _ => 0, fun _ => none, fun _ => none⟩
  rw [ha]
  simp only [Bind.bind, Except.bind]
  obtain ⟨arr, harr⟩ := hfold (outBand tau shape F b fun p => acc.model p / (acc.cnt p : K)) n le_rfl (fun j hj s => by
    unfold outBand; rw [pixelsOf_inside (hin j hj)]; exact ⟨_, rfl⟩) (fun _ => none)
  rw [harr]
  exact ⟨_, rfl⟩

/-! ### Batches -/

/-- An entry of the table of bulk offsets. -/
def bulkAt (bulk : List (List K)) (b j : Nat) : K := (bulk.getD b []).getD j 0

omit [LinearOrder K] [FloorRing K] in
theorem prepareTile_eq {tau : K} {bulk : List (List K)} {idx : List Nat} {jj : Nat} {f : TileFile K}
    {t : TileState K} (ht : t.file = f) (hread : Readable f idx) (hw : (f.uw.headD []).length = f.points.length)
    (hb : ∀ i ∈ idx, ∃ x, ((bulk[i]?).bind fun row => row[jj]?) = some x) :
    ∃ t', prepareTile tau bulk idx jj t = .ok t' ∧
      Settled f idx t' (fun k _ => -(tau * bulkAt bulk (idx.getD k 0) jj)) := by
  have hcol : idx.mapM (fun i => ((bulk[i]?).bind fun row => row[jj]?).elim (.error .indexError) Except.ok) =
      (.ok (idx.map fun i => bulkAt bulk i jj) : Except PyErr (List K)) := by
    clear hread
    induction idx with
    | nil => rfl
    | cons i idx ih =>
      obtain ⟨x, hx⟩ := hb i List.mem_cons_self
      rw [List.mapM_cons, hx, ih fun j hj => hb j (List.mem_cons_of_mem _ hj)]
      simp only [Option.elim_some, Bind.bind, Except.bind, Pure.pure, Except.pure, List.map_cons]
      congr 2
      rw [Option.bind_eq_some_iff] at hx
      obtain ⟨row, h1, h2⟩ := hx
      unfold bulkAt
      simp [List.getD_eq_getElem?_getD, h1, h2]
  obtain ⟨t', h1, h2⟩ := settled_start hread hw ((idx.map fun i => bulkAt bulk i jj).map fun o => -(tau * o))
    (by simp) ht
  refine ⟨t', ?_, h2.congr fun k p hk _ => ?_⟩
  · rw [← h1]
    unfold prepareTile callAll
    simp only [List.foldlM_cons, List.foldlM_nil, Bind.bind, Except.bind, hcol]
    cases t.call (.resetBandIndex idx) with
    | error e => rfl
    | ok t1 =>
      simp only
      cases t1.call (.addCorrection (.arr1 ((idx.map fun i => bulkAt bulk i jj).map fun o => -(tau * o)))) with
      | error e => rfl
      | ok t2 =>
        simp only
        cases t2.call .incrementCorrection <;> rfl
  · rw [List.getD_eq_getElem _ _ (by simpa using hk)]
    simp [List.getElem?_eq_getElem hk]

/-- What the merge needs: the tile files, inside the image, with all bands; the overlaps; the table
of bulk offsets. -/
structure Ready (n nifgs : Nat) (shape : Nat × Nat) (F : Nat → TileFile K) (olap : OverlapFile)
    (omap : List (List Nat)) (bulk : List (List K)) : Prop where
  two : 0 < n
  map : MapOk n F olap omap
  inside : ∀ j < n, ∀ c ∈ filePoints (F j), Inside shape c
  width : ∀ j < n, ((F j).uw.headD []).length = (F j).points.length
  bands : ∀ j < n, ∀ b < nifgs, b < (F j).uw.length ∧ b < (F j).phaseOffset.length
  table : ∀ b < nifgs, ∀ j < n, ∃ x, ((bulk[b]?).bind fun row => row[j]?) = some x

/-- The corrections of band `b` after the merge's adjustment. -/
def finalCorr (tau : K) (env : MergeEnv K) (F : Nat → TileFile K) (omap : List (List Nat)) (maxDegree : Nat)
    (bulk : List (List K)) (b : Nat) : Nat → Nat → K :=
  bandAdjust env F omap maxDegree b fun j _ => -(tau * bulkAt bulk b j)

/-- The rasters of band `b`. -/
noncomputable def finalRaster (tau : K) (env : MergeEnv K) (shape : Nat × Nat) (n : Nat) (F : Nat → TileFile K)
    (omap : List (List Nat)) (maxDegree : Nat) (bulk : List (List K)) (b : Nat) : MergedBand K :=
  match bandRaster tau shape n F b (finalCorr tau env F omap maxDegree bulk b) with
  | .ok m => m
  | .error _ => ⟨⟨0, 0, fun _ _ => none⟩, ⟨0, 0, fun _ _ => none⟩, ⟨0, 0, fun _ _ => none⟩⟩

omit [Field K] [LinearOrder K] [FloorRing K] in
/-- The tiles belong to the files. -/
def FilesAre (n : Nat) (F : Nat → TileFile K) (ts : List (TileState K)) : Prop :=
  ts.length = n ∧ ∀ (j : Nat) t, ts[j]? = some t → t.file = F j

theorem mergeBatch_eq {tau : K} {env : MergeEnv K} {n nifgs : Nat} {shape : Nat × Nat} {F : Nat → TileFile K}
    {omap : List (List Nat)} {bulk : List (List K)} (hr : Ready n nifgs shape F env.overlap omap bulk)
    {maxDegree : Nat} {isFile : Nat → Bool} {ts : List (TileState K)} (hf : FilesAre n F ts) {batch : List Nat}
    (hsorted : batch.Pairwise (· < ·)) (hlt : ∀ i ∈ batch, i < nifgs) :
    ((adjustOk env n F omap maxDegree ∨ (batch.filter fun i => !isFile i) = []) →
      ∃ ts', mergeBatch tau env omap maxDegree bulk shape isFile ts batch =
        .ok (ts', (batch.filter fun i => !isFile i).map fun i =>
          (i, finalRaster tau env shape n F omap maxDegree bulk i)) ∧ FilesAre n F ts') ∧
    (¬ (adjustOk env n F omap maxDegree ∨ (batch.filter fun i => !isFile i) = []) →
      ∃ e, mergeBatch tau env omap maxDegree bulk shape isFile ts batch = .error e) := by
  unfold mergeBatch
  set idx := batch.filter fun i => !isFile i with hidx
  by_cases hnil : idx = []
  · simp only [hnil, if_true, or_true, not_true_eq_false, false_imp_iff, and_true, true_imp_iff, List.map_nil]
    exact ⟨ts, rfl, hf⟩
  · rw [if_neg hnil]
    have hidxlt : ∀ i ∈ idx, i < nifgs := fun i hi => hlt i (List.mem_of_mem_filter hi)
    have hidxs : idx.Pairwise (· < ·) := hsorted.sublist List.filter_sublist
    obtain ⟨ts1, h1, h2, h3⟩ := mapM_exists (fun p : TileState K × Nat => prepareTile tau bulk idx p.2 p.1) ts.zipIdx (by
      intro p hp
      obtain ⟨j, hj, rfl⟩ := List.mem_iff_getElem.mp hp
      simp only [List.length_zipIdx] at hj
      simp only [List.getElem_zipIdx, Nat.zero_add]
      have hjn : j < n := by rw [← hf.1]; exact hj
      obtain ⟨t', ht', _⟩ := prepareTile_eq (tau := tau) (bulk := bulk) (idx := idx) (jj := j)
        (hf.2 j _ (List.getElem?_eq_getElem hj))
        ⟨hnil, hidxs, fun i hi => hr.bands j hjn i (hidxlt i hi)⟩ (hr.width j hjn)
        (fun i hi => hr.table i (hidxlt i hi) j hjn)
      exact ⟨t', ht'⟩)
    have hset : AllSettled n F idx (fun k j _ => -(tau * bulkAt bulk (idx.getD k 0) j)) ts1 := by
      refine ⟨by rw [h2, List.length_zipIdx, hf.1], fun j hj => ?_⟩
      have hjl : j < ts.length := by rw [hf.1]; exact hj
      obtain ⟨t', q1, q2⟩ := h3 j (ts[j], j) (by
        rw [List.getElem?_zipIdx, List.getElem?_eq_getElem hjl]; simp)
      obtain ⟨t'', q3, q4⟩ := prepareTile_eq (tau := tau) (bulk := bulk) (idx := idx) (jj := j)
        (hf.2 j _ (List.getElem?_eq_getElem hjl))
        ⟨hnil, hidxs, fun i hi => hr.bands j hj i (hidxlt i hi)⟩ (hr.width j hj)
        (fun i hi => hr.table i (hidxlt i hi) j hj)
      simp only at q2
      rw [q3, Except.ok.injEq] at q2
      exact ⟨t', q1, q2 ▸ q4⟩
    obtain ⟨a1, a2⟩ := adjustTiles_eq hr.map hset maxDegree
    simp only [Bind.bind, Except.bind, h1]
    by_cases hok : adjustOk env n F omap maxDegree
    · obtain ⟨ts2, e2, hs2⟩ := a1 hok
      rw [e2]
      refine ⟨fun _ => ?_, fun h => absurd (Or.inl hok) h⟩
      have hmap : idx.mapM (writeNumbered tau shape ts2) =
          .ok (idx.map fun i => (i, finalRaster tau env shape n F omap maxDegree bulk i)) := by
        have key : ∀ l : List Nat, (∀ i ∈ l, i ∈ idx) → l.mapM (writeNumbered tau shape ts2) =
          .ok (l.map fun i => (i, finalRaster tau env shape n F omap maxDegree bulk i)) := by
          intro l
          induction l with
          | nil => intro _; rfl
          | cons i l ih =>
            intro hl
            have hi := hl i List.mem_cons_self
            have hk : idx.idxOf i < idx.length := List.idxOf_lt_length_iff.mpr hi
            have hik : idx.getD (idx.idxOf i) 0 = i := by
              rw [List.getD_eq_getElem _ _ hk]; exact List.getElem_idxOf hk
            have hw := writeMergedBand_eq (tau := tau) (shape := shape) hr.two hs2 hi
            simp only [hik] at hw
            obtain ⟨m, hm⟩ := bandRaster_ok (tau := tau) hr.inside i (finalCorr tau env F omap maxDegree bulk i)
            have hfin : finalRaster tau env shape n F omap maxDegree bulk i = m := by
              unfold finalRaster; rw [hm]
            have hw' : writeMergedBand tau shape ts2 i = .ok m := hw.trans hm
            rw [List.mapM_cons, ih fun j hj => hl j (List.mem_cons_of_mem _ hj)]
            simp only [writeNumbered, hw', Bind.bind, Except.bind, Pure.pure, Except.pure, List.map_cons, hfin]
        exact key idx fun i hi => hi
      simp only
      rw [hmap]
      refine ⟨ts2, rfl, hs2.1, fun j t ht => ?_⟩
      have hj : j < n := by rw [← hs2.1]; exact (List.getElem?_eq_some_iff.mp ht).1
      obtain ⟨t', g1, g2⟩ := hs2.2 j hj
      rw [ht, Option.some.injEq] at g1
      rw [g1]; exact g2.file
    · obtain ⟨e, he⟩ := a2 hok
      rw [he]
      exact ⟨fun h => (h.elim hok hnil).elim, fun _ => ⟨e, rfl⟩⟩

theorem mergeBatches_spec {num : ℤ} {nifgs : Nat} {batches : List (List Nat)}
    (h : mergeBatches num nifgs = .ok batches) :
    batches.flatten = List.range nifgs ∧ ∀ b ∈ batches, b.Pairwise (· < ·) ∧ ∀ i ∈ b, i < nifgs := by
  unfold mergeBatches at h
  simp only at h
  set bs := if min num (nifgs : ℤ) < 1 then nifgs else (min num (nifgs : ℤ)).toNat with hbs
  split at h
  · simp at h
  · rename_i hpos
    simp only [Except.ok.injEq] at h
    subst h
    have hb : ∀ k, (List.range nifgs).filter (fun i => decide (k * bs ≤ i ∧ i < k * bs + bs)) =
        (List.range (min bs (nifgs - k * bs))).map (k * bs + ·) := by
      intro k
      refine (List.perm_ext_iff_of_nodup (List.nodup_range.filter _) ?_).mpr ?_ |>.eq_of_pairwise
        (le := (· < ·)) (fun a b _ _ h1 h2 => by omega) (List.pairwise_lt_range.sublist List.filter_sublist) ?_
      · rw [List.nodup_map_iff_inj_on List.nodup_range]
        intro a _ b _ h; omega
      · intro i
        simp only [List.mem_filter, List.mem_range, decide_eq_true_eq, List.mem_map]
        constructor
        · rintro ⟨h1, h2, h3⟩
          exact ⟨i - k * bs, by omega, by omega⟩
        · rintro ⟨j, h1, rfl⟩
          omega
      · rw [List.pairwise_map]
        exact List.pairwise_lt_range.imp (by intro a b h; omega)
    refine ⟨?_, ?_⟩
    · have key : ∀ m, ((List.range m).map fun k => (List.range nifgs).filter fun i =>
          decide (k * bs ≤ i ∧ i < k * bs + bs)).flatten = List.range (min (m * bs) nifgs) := by
        intro m
        induction m with
        | zero => simp
        | succ m ih =>
          rw [List.range_succ, List.map_append, List.flatten_append, ih, List.map_singleton,
            List.flatten_singleton, hb]
          have he : min ((m + 1) * bs) nifgs = min (m * bs) nifgs + min bs (nifgs - m * bs) := by
            have : (m + 1) * bs = m * bs + bs := by ring
            omega
          rw [he, List.range_add]
          congr 1
          by_cases hle : m * bs ≤ nifgs
          · rw [min_eq_left hle]
          · have : min bs (nifgs - m * bs) = 0 := by omega
            rw [this]; rfl
      rw [key]
      congr 1
      have : nifgs ≤ (nifgs + bs - 1) / bs * bs := by
        have h1 := Nat.div_add_mod (nifgs + bs - 1) bs
        have h2 := Nat.mod_lt (nifgs + bs - 1) (Nat.pos_of_ne_zero hpos)
        rw [Nat.mul_comm] at h1
        omega
      omega
    · intro b hb'
      obtain ⟨k, _, rfl⟩ := List.mem_map.mp hb'
      exact ⟨List.pairwise_lt_range.sublist List.filter_sublist,
        fun i hi => List.mem_range.mp (List.mem_of_mem_filter hi)⟩

/-- The batch loop. -/
theorem batchLoop_eq {tau : K} {env : MergeEnv K} {n nifgs : Nat} {shape : Nat × Nat} {F : Nat → TileFile K}
    {omap : List (List Nat)} {bulk : List (List K)} (hr : Ready n nifgs shape F env.overlap omap bulk)
    {maxDegree : Nat} {isFile : Nat → Bool} (batches : List (List Nat))
    (hb : ∀ b ∈ batches, b.Pairwise (· < ·) ∧ ∀ i ∈ b, i < nifgs)
    {ts : List (TileState K)} (hf : FilesAre n F ts) (out : List (Nat × MergedBand K)) :
    ((adjustOk env n F omap maxDegree ∨ (batches.flatten.filter fun i => !isFile i) = []) →
      ∃ ts', batches.foldlM (fun (acc : List (TileState K) × List (Nat × MergedBand K)) batch => do
            let (ts, out) ← mergeBatch tau env omap maxDegree bulk shape isFile acc.1 batch
            pure (ts, acc.2 ++ out)) (ts, out) =
        .ok (ts', out ++ (batches.flatten.filter fun i => !isFile i).map fun i =>
          (i, finalRaster tau env shape n F omap maxDegree bulk i))) ∧
    (¬ (adjustOk env n F omap maxDegree ∨ (batches.flatten.filter fun i => !isFile i) = []) →
      ∃ e, batches.foldlM (fun (acc : List (TileState K) × List (Nat × MergedBand K)) batch => do
            let (ts, out) ← mergeBatch tau env omap maxDegree bulk shape isFile acc.1 batch
            pure (ts, acc.2 ++ out)) (ts, out) = (.error e : Except PyErr _)) := by
  induction batches generalizing ts out with
  | nil => exact ⟨fun _ => ⟨ts, by simp [Pure.pure, Except.pure]⟩, fun h => absurd (Or.inr rfl) h⟩
  | cons batch batches ih =>
    obtain ⟨m1, m2⟩ := mergeBatch_eq (tau := tau) (maxDegree := maxDegree) (isFile := isFile) hr hf
      (hb batch List.mem_cons_self).1 (hb batch List.mem_cons_self).2
    have ih := fun {ts : List (TileState K)} (hf : FilesAre n F ts) out =>
      ih (fun b hb' => hb b (List.mem_cons_of_mem _ hb')) (ts := ts) hf out
    rw [List.foldlM_cons]
    by_cases hc : adjustOk env n F omap maxDegree ∨ (batch.filter fun i => !isFile i) = []
    · obtain ⟨ts1, e1, hf1⟩ := m1 hc
      rw [e1]
      simp only [Bind.bind, Except.bind, Pure.pure, Except.pure]
      obtain ⟨i1, i2⟩ := ih hf1 (out ++ (batch.filter fun i => !isFile i).map fun i =>
          (i, finalRaster tau env shape n F omap maxDegree bulk i))
      simp only [Bind.bind, Except.bind, Pure.pure, Except.pure] at i1 i2
      rw [List.flatten_cons, List.filter_append, List.append_eq_nil_iff]
      constructor
      · intro h
        obtain ⟨ts2, e2⟩ := i1 (h.imp_right And.right)
        refine ⟨ts2, ?_⟩
        rw [e2, List.map_append, List.append_assoc]
      · intro h
        apply i2
        rintro (h1 | h1)
        · exact h (Or.inl h1)
        · rcases hc with hc | hc
          · exact h (Or.inl hc)
          · exact h (Or.inr ⟨hc, h1⟩)
    · obtain ⟨e, he⟩ := m2 hc
      rw [he]
      constructor
      · rintro (h1 | h1)
        · exact absurd (Or.inl h1) hc
        · rw [List.flatten_cons, List.filter_append, List.append_eq_nil_iff] at h1
          exact absurd (Or.inr h1.1) hc
      · intro _
        exact ⟨e, rfl⟩

end

end Spurt
