import Verif.Lemmas.Stages

/-!
# Properties C45, C46, C56: merging the tiles
-/

namespace Spurt

open Spec

section
variable {K : Type} [Field K] [LinearOrder K] [FloorRing K]

/-! ### C45: order of the tiles, batches, existing files -/

/-- C45. The outcome of `merge_tiles` does not depend on `num_parallel_ifgs` nor on which output
files exist: either there is one set of rasters per interferogram, and every run writes exactly those
of the missing interferograms, in order; or every run with something missing raises an exception
(the triangulation or the inner solver failed) and a run with nothing missing writes nothing. -/
theorem C45_batching [IsStrictOrderedRing K] (tau : K) (minPoints : ℤ) (cc : Nat → List (Nat × Nat) → List Nat)
    (nifgs : Nat) (tiles : TileSet) (files : Nat → Except PyErr (TileFile K)) (F : Nat → TileFile K)
    (env : MergeEnv K) (bulk : BulkFile K) (settings : MergerSettings)
    (h : MergeInput tau minPoints cc nifgs tiles files F env.overlap bulk settings) :
    (∃ M : Nat → MergedBand K, ∀ (num : ℤ) (isFile : Nat → Bool),
      mergeTiles tau env { settings with numParallelIfgs := num } tiles files bulk nifgs isFile =
        .ok (.merged (((List.range nifgs).filter fun i => !isFile i).map fun i => (i, M i)))) ∨
    (∀ (num : ℤ) (isFile : Nat → Bool),
      ((∃ i < nifgs, isFile i = false) →
        ∃ e, mergeTiles tau env { settings with numParallelIfgs := num } tiles files bulk nifgs isFile = .error e) ∧
      ((∀ i < nifgs, isFile i = true) →
        mergeTiles tau env { settings with numParallelIfgs := num } tiles files bulk nifgs isFile =
          .ok (.merged []))) := by
  obtain ⟨omap, h1, h2, _⟩ := ready_of_input h
  obtain ⟨d, hd⟩ := getMaxDegree_ok (shape := imageShape tiles) (n := tiles.tiles.length) (F := F) (by
    have := h.image
    simp only [imageShape]
    omega) h2.inside
  have hin : ∀ num : ℤ, MergeInput tau minPoints cc nifgs tiles files F env.overlap bulk
      { settings with numParallelIfgs := num } := fun num =>
    ⟨h.two, h.image, h.ifgs, h.filesOk, h.overlaps, h.labels, h.bulkOk, h.method, h.bulkMethod⟩
  by_cases hok : adjustOk env tiles.tiles.length F omap d
  · exact Or.inl ⟨_, fun num isFile => (mergeTiles_eq (hin num) h1 h2 hd isFile).1 (Or.inl hok)⟩
  · refine Or.inr fun num isFile => ⟨?_, ?_⟩
    · rintro ⟨i, hi, hf⟩
      refine (mergeTiles_eq (hin num) h1 h2 hd isFile).2 ?_
      rintro (hc | hc)
      · exact hok hc
      · have : i ∈ missing nifgs isFile := by simp [missing, hi, hf]
        rw [hc] at this
        simp at this
    · intro hall
      have hm : missing nifgs isFile = [] := by
        unfold missing
        rw [List.filter_eq_nil_iff]
        intro i hi
        simp [hall i (List.mem_range.mp hi)]
      have := (mergeTiles_eq (hin num) h1 h2 hd isFile).1 (Or.inr hm)
      rw [hm] at this
      exact this

omit [LinearOrder K] [FloorRing K] in
/-- Everything other tiles see of a tile. -/
theorem call_addCorrection {t t' : TileState K} {a : CorrArg K} (hl : t.level ≤ t.corrections.length)
    (h : t.call (.addCorrection a) = .ok t') :
    t'.uwPhase = t.uwPhase ∧ t'.level ≤ t'.corrections.length := by
  unfold TileState.call TileState.step at h
  simp only at h
  cases hc : correctionArr t.idx.length t.coords.length a with
  | none => rw [hc] at h; simp at h
  | some c =>
    rw [hc] at h
    simp only [Except.ok.injEq] at h
    subst h
    refine ⟨?_, by simp; omega⟩
    unfold TileState.uwPhase TileState.getUwPhase TileState.correctionsSum
    simp only
    rw [List.take_append_of_le_length hl]

omit [FloorRing K] in
theorem overlapSums_congr {env : MergeEnv K} {ts ts' : List (TileState K)} {nbrs : List Nat} {ii npts : Nat} {data : Arr K}
    (h : ∀ j : Nat, (ts[j]?).map TileState.uwPhase = (ts'[j]?).map TileState.uwPhase) :
    overlapSums env ts nbrs ii npts data = overlapSums env ts' nbrs ii npts data := by
  unfold overlapSums
  congr 1
  funext acc jj
  unfold overlapSumStep
  have := h jj
  cases h1 : ts[jj]? with
  | none =>
    rw [h1] at this
    cases h2 : ts'[jj]? with
    | none => rfl
    | some t => rw [h2] at this; simp at this
  | some t =>
    rw [h1] at this
    cases h2 : ts'[jj]? with
    | none => rw [h2] at this; simp at this
    | some t' =>
      rw [h2] at this
      simp only [Option.map_some, Option.some.injEq] at this
      simp only [Option.elim_some, Bind.bind, Except.bind, this]

omit [FloorRing K] in
theorem tileCorrection_congr {env : MergeEnv K} {ts ts' : List (TileState K)} {nbrs : List Nat} {ii d : Nat}
    {t : TileState K} (h : ∀ j : Nat, (ts[j]?).map TileState.uwPhase = (ts'[j]?).map TileState.uwPhase) :
    tileCorrection env ts nbrs ii d t = tileCorrection env ts' nbrs ii d t := by
  unfold tileCorrection
  simp only [overlapSums_congr h]

omit [FloorRing K] in
/-- What one step does. -/
theorem correctStep_ok {env : MergeEnv K} {omap : List (List Nat)} {d i : Nat} {ts ts1 : List (TileState K)}
    (hl : ∀ t ∈ ts, t.level ≤ t.corrections.length) (h : correctStep env omap d ts i = .ok ts1) :
    ∃ t t', ts[i]? = some t ∧ ts1 = ts.set i t' ∧ t'.uwPhase = t.uwPhase ∧ t'.level ≤ t'.corrections.length ∧
      ∀ ts' : List (TileState K), (∀ j : Nat, (ts[j]?).map TileState.uwPhase = (ts'[j]?).map TileState.uwPhase) →
        ts'[i]? = some t → correctStep env omap d ts' i = .ok (ts'.set i t') := by
  unfold correctStep at h
  cases h1 : ts[i]? with
  | none => rw [h1] at h; simp [Bind.bind, Except.bind] at h
  | some t =>
    rw [h1] at h
    simp only [Option.elim_some, Bind.bind, Except.bind] at h
    cases h2 : omap[i]? with
    | none => rw [h2] at h; simp at h
    | some nbrs =>
      rw [h2] at h
      simp only [Option.elim_some] at h
      have hlt := hl t (List.mem_of_getElem? h1)
      have hset : ∀ l : List (TileState K), l[i]? = some t → l.set i t = l := by
        intro l hli
        obtain ⟨hi, he⟩ := List.getElem?_eq_some_iff.mp hli
        rw [← he, List.set_getElem_self]
      cases h3 : tileCorrection env ts nbrs i d t with
      | error e => rw [h3] at h; simp at h
      | ok c =>
        rw [h3] at h
        simp only at h
        cases c with
        | none =>
          simp only [pure, Except.pure, Except.ok.injEq] at h
          subst h
          refine ⟨t, t, rfl, (hset ts h1).symm, rfl, hlt, fun ts' hts' hi' => ?_⟩
          unfold correctStep
          rw [hi', h2]
          simp only [Option.elim_some, Bind.bind, Except.bind]
          rw [← tileCorrection_congr hts', h3]
          simp only [pure, Except.pure, hset ts' hi']
        | some a =>
          simp only at h
          cases h4 : t.call (.addCorrection (.arr2 a)) with
          | error e => rw [h4] at h; simp at h
          | ok t' =>
            rw [h4] at h
            simp only [pure, Except.pure, Except.ok.injEq] at h
            obtain ⟨k1, k2⟩ := call_addCorrection hlt h4
            refine ⟨t, t', rfl, h.symm, k1, k2, fun ts' hts' hi' => ?_⟩
            unfold correctStep
            rw [hi', h2]
            simp only [Option.elim_some, Bind.bind, Except.bind]
            rw [← tileCorrection_congr hts', h3]
            simp only [h4, pure, Except.pure]

omit [FloorRing K] in
theorem uwPhase_set {ts : List (TileState K)} {i : Nat} {t t' : TileState K} (h1 : ts[i]? = some t)
    (h2 : t'.uwPhase = t.uwPhase) (j : Nat) :
    (ts[j]?).map TileState.uwPhase = ((ts.set i t')[j]?).map TileState.uwPhase := by
  rw [List.getElem?_set]
  by_cases hij : i = j
  · subst hij
    have := (List.getElem?_eq_some_iff.mp h1).1
    rw [h1, if_pos rfl, if_pos this]
    simp [h2]
  · simp [hij]

omit [FloorRing K] in
theorem correctStep_swap {env : MergeEnv K} {omap : List (List Nat)} {d i j : Nat} {ts ts1 ts2 : List (TileState K)}
    (hl : ∀ t ∈ ts, t.level ≤ t.corrections.length) (h1 : correctStep env omap d ts i = .ok ts1)
    (h2 : correctStep env omap d ts1 j = .ok ts2) :
    ∃ ts1', correctStep env omap d ts j = .ok ts1' ∧ correctStep env omap d ts1' i = .ok ts2 := by
  by_cases hij : i = j
  · subst hij
    exact ⟨ts1, h1, h2⟩
  obtain ⟨t, t', a1, a2, a3, a4, a5⟩ := correctStep_ok hl h1
  have hl1 : ∀ t ∈ ts1, t.level ≤ t.corrections.length := by
    subst a2
    intro s hs
    rcases List.mem_or_eq_of_mem_set hs with hs | rfl
    · exact hl s hs
    · exact a4
  obtain ⟨u, u', b1, b2, b3, b4, b5⟩ := correctStep_ok hl1 h2
  have hu : ts[j]? = some u := by
    rw [a2, List.getElem?_set_ne hij] at b1
    exact b1
  have hsame := uwPhase_set a1 a3
  rw [← a2] at hsame
  refine ⟨ts.set j u', b5 ts (fun k => (hsame k).symm) hu, ?_⟩
  rw [a5 (ts.set j u') (uwPhase_set hu b3) (by rw [List.getElem?_set_ne (Ne.symm hij)]; exact a1), b2, a2,
    List.set_comm _ _ (Ne.symm hij)]

omit [FloorRing K] in
/-- C45. Within one degree of overlap the order in which the tiles are corrected does not matter: for
any two orders, the loop completes with the same state of all tiles or with an exception in both. The
hypothesis (no tile counts more corrections as applied than it has) holds after the preparation of the
tiles and after every degree. -/
theorem C45_order (env : MergeEnv K) (omap : List (List Nat)) (degree : Nat) (ts : List (TileState K))
    (hl : ∀ t ∈ ts, t.level ≤ t.corrections.length) (ord ord' : List Nat) (hp : ord.Perm ord')
    (r : List (TileState K)) :
    ord.foldlM (correctStep env omap degree) ts = .ok r ↔ ord'.foldlM (correctStep env omap degree) ts = .ok r := by
  have key : ∀ {ord ord' : List Nat}, ord.Perm ord' → ∀ ts : List (TileState K),
      (∀ t ∈ ts, t.level ≤ t.corrections.length) →
      ord.foldlM (correctStep env omap degree) ts = .ok r → ord'.foldlM (correctStep env omap degree) ts = .ok r := by
    intro ord ord' hp
    induction hp with
    | nil => exact fun ts _ h => h
    | cons i _ ih =>
      intro ts hl h
      rw [List.foldlM_cons] at h ⊢
      cases h1 : correctStep env omap degree ts i with
      | error e => rw [h1] at h; simp [Bind.bind, Except.bind] at h
      | ok ts1 =>
        rw [h1] at h
        obtain ⟨t, t', _, a2, _, a4, _⟩ := correctStep_ok hl h1
        refine ih ts1 ?_ h
        subst a2
        intro s hs
        rcases List.mem_or_eq_of_mem_set hs with hs | rfl
        · exact hl s hs
        · exact a4
    | swap i j l =>
      intro ts hl h
      rw [List.foldlM_cons] at h
      cases h1 : correctStep env omap degree ts j with
      | error e => rw [h1] at h; simp [Bind.bind, Except.bind] at h
      | ok ts1 =>
        rw [h1] at h
        simp only [Bind.bind, Except.bind] at h
        rw [List.foldlM_cons] at h
        cases h2 : correctStep env omap degree ts1 i with
        | error e => rw [h2] at h; simp [Bind.bind, Except.bind] at h
        | ok ts2 =>
          rw [h2] at h
          obtain ⟨ts1', k1, k2⟩ := correctStep_swap hl h1 h2
          rw [List.foldlM_cons, k1]
          simp only [Bind.bind, Except.bind]
          rw [List.foldlM_cons, k2]
          exact h
    | trans _ _ ih1 ih2 => exact fun ts hl h => ih2 ts hl (ih1 ts hl h)
  exact ⟨key hp ts hl, key hp.symm ts hl⟩

omit [FloorRing K] [LinearOrder K] in
theorem call_compress {t t' : TileState K} (h : t.call .compressCorrections = .ok t') :
    t'.level = t.level ∧ (t.corrections ≠ [] → t'.corrections ≠ []) := by
  unfold TileState.call TileState.step at h
  simp only at h
  cases hc : t.corrections with
  | nil =>
    rw [hc] at h
    simp only [Except.ok.injEq] at h
    subst h
    exact ⟨rfl, fun h => absurd rfl h⟩
  | cons c0 l =>
    cases l with
    | nil =>
      rw [hc] at h
      simp only [Except.ok.injEq] at h
      subst h
      exact ⟨rfl, fun _ => by simp [hc]⟩
    | cons c1 cs =>
      rw [hc] at h
      simp only at h
      cases ha : c0.add ((c1 :: cs).getLast (by simp)) with
      | error e => rw [ha] at h; simp at h
      | ok s =>
        rw [ha] at h
        simp only at h
        split at h
        · rename_i he
          simp only [Except.ok.injEq] at h
          subst h
          simp only [Prod.mk.injEq] at he
          obtain ⟨rfl, _⟩ := he
          exact ⟨rfl, fun _ => by simp⟩
        · simp at h

omit [FloorRing K] [LinearOrder K] in
theorem call_addCorrection_level {t t' : TileState K} {a : CorrArg K} (h : t.call (.addCorrection a) = .ok t') :
    t'.level = t.level := by
  unfold TileState.call TileState.step at h
  simp only at h
  split at h <;> rename_i heq <;> simp at h
  split at heq <;> simp at heq
  obtain ⟨rfl, _⟩ := heq
  subst h
  rfl

omit [FloorRing K] in
/-- After the loop all processed tiles have level 1. -/
theorem correctLoop_level {env : MergeEnv K} {omap : List (List Nat)} {d : Nat} (ord : List Nat)
    {ts r : List (TileState K)} (hl : ∀ t ∈ ts, t.level ≤ t.corrections.length)
    (h : ord.foldlM (correctStep env omap d) ts = .ok r) :
    r.length = ts.length ∧ (∀ t ∈ r, t.level ≤ t.corrections.length) ∧
    (∀ (j : Nat) t t', ts[j]? = some t → r[j]? = some t' → t'.level = t.level ∧ (j ∈ ord → t'.level = 1)) := by
  induction ord generalizing ts with
  | nil =>
    simp only [List.foldlM_nil, pure, Except.pure, Except.ok.injEq] at h
    subst h
    refine ⟨rfl, hl, fun j t t' h1 h2 => ?_⟩
    rw [h1, Option.some.injEq] at h2
    subst h2
    exact ⟨rfl, by simp⟩
  | cons i ord ih =>
    rw [List.foldlM_cons] at h
    cases h1 : correctStep env omap d ts i with
    | error e => rw [h1] at h; simp [Bind.bind, Except.bind] at h
    | ok ts1 =>
      rw [h1] at h
      obtain ⟨t, t', a1, a2, a3, a4, a5⟩ := correctStep_ok hl h1
      have hlev : t'.level = t.level ∧ t.level = 1 := by
        unfold correctStep at h1
        rw [a1] at h1
        simp only [Option.elim_some, Bind.bind, Except.bind] at h1
        cases h2 : omap[i]? with
        | none => rw [h2] at h1; simp at h1
        | some nbrs =>
          rw [h2] at h1
          simp only [Option.elim_some] at h1
          have hil := (List.getElem?_eq_some_iff.mp a1).1
          by_cases hlv : t.level = 1
          · refine ⟨?_, hlv⟩
            cases h3 : tileCorrection env ts nbrs i d t with
            | error e => rw [h3] at h1; simp at h1
            | ok c =>
              rw [h3] at h1
              cases c with
              | none =>
                simp only [pure, Except.pure, Except.ok.injEq] at h1
                rw [← h1] at a2
                have := congrArg (·[i]?) a2
                simp only [List.getElem?_set, hil, a1, if_true, Option.some.injEq] at this
                rw [this]
              | some a =>
                simp only at h1
                cases h4 : t.call (.addCorrection (.arr2 a)) with
                | error e => rw [h4] at h1; simp at h1
                | ok t2 =>
                  rw [h4] at h1
                  simp only [pure, Except.pure, Except.ok.injEq] at h1
                  rw [← h1] at a2
                  have := congrArg (·[i]?) a2
                  simp only [List.getElem?_set, hil, if_true, Option.some.injEq] at this
                  rw [← this]
                  exact call_addCorrection_level h4
          · unfold tileCorrection at h1
            rw [if_pos hlv] at h1
            simp at h1
      have hl1 : ∀ t ∈ ts1, t.level ≤ t.corrections.length := by
        subst a2
        intro s hs
        rcases List.mem_or_eq_of_mem_set hs with hs | rfl
        · exact hl s hs
        · exact a4
      obtain ⟨b1, b2, b3⟩ := ih hl1 h
      refine ⟨by rw [b1, a2]; simp, b2, fun j s s' hs hs' => ?_⟩
      have hil := (List.getElem?_eq_some_iff.mp a1).1
      by_cases hij : i = j
      · subst hij
        rw [a1, Option.some.injEq] at hs
        subst hs
        obtain ⟨c1, _⟩ := b3 i t' s' (by rw [a2, List.getElem?_set, if_pos rfl, if_pos hil]) hs'
        exact ⟨by rw [c1, hlev.1], fun _ => by rw [c1, hlev.1, hlev.2]⟩
      · obtain ⟨c1, c2⟩ := b3 j s s' (by rw [a2, List.getElem?_set_ne hij]; exact hs) hs'
        refine ⟨c1, fun hj => ?_⟩
        rcases List.mem_cons.mp hj with rfl | hj
        · exact absurd rfl hij
        · exact c2 hj

/-- One degree of overlap as in `_adjust_tiles`, with the tiles taken in the order `ord`. -/
def Spec.roundInOrder (env : MergeEnv K) (omap : List (List Nat)) (ord : Nat → List Nat) (ts : List (TileState K))
    (d : Nat) : Except PyErr (List (TileState K)) := do
  let ts ← (ord d).foldlM (correctStep env omap d) ts
  ts.mapM fun t => t.call .compressCorrections

omit [FloorRing K] in
/-- C45. The whole adjustment is the same whatever order the tiles are taken in at each degree. -/
theorem C45_adjust_order (env : MergeEnv K) (omap : List (List Nat)) (maxDegree : Nat) (ts : List (TileState K))
    (hl : ∀ t ∈ ts, t.level ≤ t.corrections.length) (ord : Nat → List Nat)
    (hord : ∀ d, (ord d).Perm (List.range ts.length)) (r : List (TileState K)) :
    adjustTiles env omap maxDegree ts = .ok r ↔
      (degrees maxDegree).foldlM (roundInOrder env omap ord) ts = .ok r := by
  unfold adjustTiles
  obtain ⟨n, hn⟩ : ∃ n, n = ts.length := ⟨_, rfl⟩
  rw [← hn] at hord
  generalize degrees maxDegree = ds
  induction ds generalizing ts with
  | nil => rfl
  | cons d ds ih =>
    rw [List.foldlM_cons, List.foldlM_cons]
    have horder := C45_order env omap d ts hl (List.range ts.length) (ord d) (by rw [← hn]; exact (hord d).symm)
    have hcont : ∀ ts1, (List.range ts.length).foldlM (correctStep env omap d) ts = .ok ts1 →
        ∀ ts2, ts1.mapM (fun t => t.call .compressCorrections) = .ok ts2 →
        (∀ t ∈ ts2, t.level ≤ t.corrections.length) ∧ n = ts2.length := by
      intro ts1 h1 ts2 h2
      obtain ⟨b1, b2, b3⟩ := correctLoop_level _ hl h1
      obtain ⟨l', c1, c2, c3⟩ := mapM_exists (fun t : TileState K => t.call .compressCorrections) ts1 (mapM_ok_imp h2)
      rw [h2, Except.ok.injEq] at c1
      subst c1
      refine ⟨fun t ht => ?_, by omega⟩
      obtain ⟨j, hj, rfl⟩ := List.mem_iff_getElem.mp ht
      have hj1 : j < ts1.length := by omega
      have hj0 : j < ts.length := by omega
      obtain ⟨t', e1, e2⟩ := c3 j ts1[j] (by simp)
      rw [List.getElem?_eq_getElem hj, Option.some.injEq] at e1
      subst e1
      obtain ⟨g1, g2⟩ := call_compress e2
      have hlev := (b3 j ts[j] ts1[j] (by simp) (by simp)).2 (List.mem_range.mpr hj0)
      have hle := b2 ts1[j] (List.getElem_mem hj1)
      have hne : ts1[j].corrections ≠ [] := by
        intro hc
        rw [hc] at hle
        simp at hle
        omega
      have := List.length_pos_iff.mpr (g2 hne)
      omega
    cases h1 : (List.range ts.length).foldlM (correctStep env omap d) ts with
    | error e =>
      have hne : ∀ x, (ord d).foldlM (correctStep env omap d) ts ≠ .ok x := by
        intro x hx
        rw [(horder x).mpr hx] at h1
        simp at h1
      have e1 : adjustRound env omap ts d = .error e := by
        unfold adjustRound correctTiles
        rw [h1]
        rfl
      cases h2 : (ord d).foldlM (correctStep env omap d) ts with
      | ok x => exact absurd h2 (hne x)
      | error e' =>
        have e2 : roundInOrder env omap ord ts d = .error e' := by
          unfold roundInOrder
          rw [h2]
          rfl
        rw [e1, e2]
        simp [Bind.bind, Except.bind]
    | ok ts1 =>
      have h2 := (horder ts1).mp h1
      have e1 : adjustRound env omap ts d = ts1.mapM fun t => t.call .compressCorrections := by
        unfold adjustRound correctTiles
        rw [h1]
        rfl
      have e2 : roundInOrder env omap ord ts d = ts1.mapM fun t => t.call .compressCorrections := by
        unfold roundInOrder
        rw [h2]
        rfl
      rw [e1, e2]
      cases h3 : ts1.mapM fun t => t.call .compressCorrections with
      | error e => simp [Bind.bind, Except.bind]
      | ok ts2 =>
        obtain ⟨k1, k2⟩ := hcont ts1 h1 ts2 h3
        exact ih ts2 k1 k2

/-- The hypothesis of `C45_order` and `C45_adjust_order` holds for the tiles prepared for a batch. -/
theorem prepareTile_level {tau : K} {bulk : List (List K)} {idx : List Nat} {jj : Nat} {t t' : TileState K}
    (h : prepareTile tau bulk idx jj t = .ok t') : t'.level ≤ t'.corrections.length := by
  unfold prepareTile at h
  cases h1 : t.call (.resetBandIndex idx) with
  | error e => rw [h1] at h; simp [Bind.bind, Except.bind] at h
  | ok t1 =>
    rw [h1] at h
    have hz : t1.level = 0 ∧ t1.corrections = [] := by
      unfold TileState.call TileState.step at h1
      simp only at h1
      split at h1 <;> rename_i heq <;> simp at h1
      split at heq <;> simp at heq
      obtain ⟨rfl, _⟩ := heq
      subst h1
      exact ⟨rfl, rfl⟩
    simp only [Bind.bind, Except.bind] at h
    split at h
    · simp at h
    · rename_i col _
      cases h2 : t1.call (.addCorrection (.arr1 (col.map fun o => -(tau * o)))) with
      | error e => rw [h2] at h; simp at h
      | ok t2 =>
        rw [h2] at h
        have hc : t2.level = 0 ∧ t2.corrections.length = 1 := by
          refine ⟨by rw [call_addCorrection_level h2, hz.1], ?_⟩
          unfold TileState.call TileState.step at h2
          simp only at h2
          split at h2 <;> rename_i heq <;> simp at h2
          split at heq <;> simp at heq
          obtain ⟨rfl, _⟩ := heq
          subst h2
          simp [hz.2]
        simp only [TileState.call, TileState.step, Except.ok.injEq] at h
        subst h
        simp only
        omega

end

end Spurt
