import Verif.Lemmas.FloatOverlap

/-!
# The merge stage in mixed precision
-/

namespace Spurt
open Spec

section
variable {K : Type} [Field K] [LinearOrder K] [FloorRing K]

omit [LinearOrder K] [FloorRing K] [Field K] in
/-- `_get_max_degree` never exceeds the number of tiles at a pixel (its count is modulo 256). -/
theorem getMaxDegree_le {shape : Nat × Nat} {n N : Nat} {F : Nat → TileFile K}
    (hin : ∀ j < n, ∀ c ∈ filePoints (F j), Inside shape c) (hnd : ∀ j < n, (filePoints (F j)).Nodup)
    (hN : ∀ pix, (covering n F pix).length ≤ N) {d : Nat}
    (h : getMaxDegree ((List.range n).map fun j => TileState.start (F j)) shape = .ok d) : d ≤ N := by
  have key : ∀ m ≤ n, ∀ count, ((List.range m).map fun j => TileState.start (F j)).foldlM
      (fun (count : Nat × Nat → Nat) t => do
        let px ← pixelsOf shape t.coords
        pure (fancySet count px (px.map fun p => (count p + 1) % 256))) (fun _ => 0) =
        (.ok count : Except PyErr _) → ∀ p, count p ≤ (covering m F (pixZ p)).length := by
    intro m
    induction m with
    | zero =>
      intro _ count hc p
      simp only [List.range_zero, List.map_nil, List.foldlM_nil, pure, Except.pure, Except.ok.injEq] at hc
      rw [← hc]
      exact Nat.zero_le _
    | succ m ih =>
      intro hm count hc p
      rw [List.range_succ, List.map_append, List.foldlM_append] at hc
      cases h1 : ((List.range m).map fun j => TileState.start (F j)).foldlM
          (fun (count : Nat × Nat → Nat) t => do
            let px ← pixelsOf shape t.coords
            pure (fancySet count px (px.map fun p => (count p + 1) % 256))) (fun _ => 0) with
      | error e => rw [h1] at hc; simp [Bind.bind, Except.bind] at hc
      | ok count0 =>
      have i0 := ih (by omega) count0 h1
      rw [h1] at hc
      have hmn : m < n := by omega
      have hco : (TileState.start (F m)).coords = filePoints (F m) := rfl
      obtain ⟨f1, f2, f3⟩ := pixelsOf_facts (hin m hmn) (hnd m hmn)
      simp only [List.map_cons, List.map_nil, List.foldlM_cons, List.foldlM_nil, Bind.bind, Except.bind, hco,
        pixelsOf_inside (hin m hmn), pure, Except.pure, Except.ok.injEq] at hc
      have hcov : (covering (m + 1) F (pixZ p)).length =
          (covering m F (pixZ p)).length + if pixZ p ∈ filePoints (F m) then 1 else 0 := by
        unfold covering
        rw [List.range_succ, List.filter_append, List.length_append]
        by_cases hp : pixZ p ∈ filePoints (F m) <;> simp [hp]
      rw [hcov, ← hc]
      by_cases hp : pixZ p ∈ filePoints (F m)
      · rw [if_pos hp]
        have hp' := (f2 p).mpr hp
        obtain ⟨k, hk, hke⟩ := List.mem_iff_getElem.mp hp'
        have := fancySet_of_mem count0 _ (((filePoints (F m)).map fun c => (c.1.toNat, c.2.toNat)).map
          fun p => (count0 p + 1) % 256) f1 k hk (by simpa using hk)
        rw [hke] at this
        rw [this, List.getElem_map, hke]
        have := Nat.mod_le (count0 p + 1) 256
        have := i0 p
        omega
      · rw [if_neg hp, fancySet_of_not_mem _ _ _ _ (fun hc => hp ((f2 p).mp hc)), Nat.add_zero]
        exact i0 p
  unfold getMaxDegree at h
  cases h1 : ((List.range n).map fun j => TileState.start (F j)).foldlM
      (fun (count : Nat × Nat → Nat) t => do
        let px ← pixelsOf shape t.coords
        pure (fancySet count px (px.map fun p => (count p + 1) % 256))) (fun _ => 0) with
  | error e => rw [h1] at h; simp [Bind.bind, Except.bind] at h
  | ok count =>
  rw [h1] at h
  simp only [Bind.bind, Except.bind] at h
  split at h
  · simp at h
  · simp only [pure, Except.pure, Except.ok.injEq] at h
    rcases (natMax_spec (((List.range shape.1).product (List.range shape.2)).map count) 0).2.2 with h2 | h2
    · omega
    · rw [h] at h2
      obtain ⟨p, _, hp⟩ := List.mem_map.mp h2
      rw [← hp]
      exact (key n le_rfl count h1 p).trans (hN _)

/-- `merge_tiles` in mixed precision: it completes when all corrections can be computed or nothing is missing, and
writes for every missing interferogram rasters that depend on nothing but its own band. -/
theorem mergeTilesFl_eq {A : FloatArith K} {nifgs : Nat} (hifgs : 1 ≤ nifgs) {tiles : TileSet} (htwo : 2 ≤ tiles.tiles.length)
    {files : Nat → Except PyErr (TileFile K)} {F : Nat → TileFile K} (hread : ∀ i < tiles.tiles.length, files i = .ok (F i))
    {env : MergeEnv K} {bulk : BulkFile K} {settings : MergerSettings} (hmethod : settings.method = "dirichlet")
    (hbm : bulk.method = settings.bulkMethod) {omap : List (List Nat)}
    (ho : overlapMap env.overlap.labels.length env.overlap.overlaps = .ok omap)
    (hr : Ready tiles.tiles.length nifgs (imageShape tiles) F env.overlap omap bulk.offsets) {d : Nat}
    (hd : getMaxDegree ((List.range tiles.tiles.length).map fun j => TileState.start (F j)) (imageShape tiles) = .ok d)
    (isFile : Nat → Bool) :
    ((adjustOk env tiles.tiles.length F omap d ∨ missing nifgs isFile = []) →
      mergeTilesFl A env settings tiles files bulk nifgs isFile =
        .ok (.merged ((missing nifgs isFile).map fun i =>
          (i, finalRasterFl A env (imageShape tiles) tiles.tiles.length F omap d bulk.offsets i)))) ∧
    (¬ (adjustOk env tiles.tiles.length F omap d ∨ missing nifgs isFile = []) →
      ∃ e, mergeTilesFl A env settings tiles files bulk nifgs isFile = .error e) := by
  have hts : (List.range tiles.tiles.length).mapM (fun ii => do
      let f ← files ii
      pure (TileState.start f)) =
      (.ok ((List.range tiles.tiles.length).map fun j => TileState.start (F j)) : Except PyErr _) := by
    apply mapM_ok_of
    intro i hi
    rw [hread i (List.mem_range.mp hi)]
    rfl
  have hne : ¬ tiles.tiles.length = 1 := by omega
  obtain ⟨batches, hb⟩ : ∃ batches, mergeBatches settings.numParallelIfgs nifgs = .ok batches := by
    unfold mergeBatches
    simp only
    rw [if_neg (by split <;> omega)]
    exact ⟨_, rfl⟩
  obtain ⟨b1, b2⟩ := mergeBatches_spec hb
  obtain ⟨k1, k2⟩ := batchLoopFl_eq (A := A) (maxDegree := d) (isFile := isFile) hr batches b2
    (ts := (List.range tiles.tiles.length).map fun j => TileState.start (F j))
    ⟨by simp, by
      intro j t ht
      rw [List.getElem?_map] at ht
      by_cases hj : j < tiles.tiles.length
      · rw [List.getElem?_range hj] at ht
        simp only [Option.map_some, Option.some.injEq] at ht
        subst ht
        rfl
      · rw [List.getElem?_eq_none (by simpa using hj)] at ht
        simp at ht⟩ []
  rw [b1] at k1 k2
  unfold mergeTilesFl
  rw [if_neg (by simp [hmethod])]
  simp only
  rw [hts]
  simp only [Bind.bind, Except.bind]
  rw [if_neg hne, ho]
  simp only
  have hd' : getMaxDegree ((List.range tiles.tiles.length).map fun j => TileState.start (F j))
    (tiles.shape.1.toNat, tiles.shape.2.toNat) = .ok d := hd
  rw [hd']
  simp only
  rw [if_neg (by simp [hbm]), hb]
  simp only
  unfold missing
  constructor
  · intro hok
    obtain ⟨ts', e⟩ := k1 hok
    simp only [Bind.bind, Except.bind, imageShape] at e
    rw [e]
    simp [pure, Except.pure, imageShape]
  · intro hok
    obtain ⟨er, e⟩ := k2 hok
    simp only [Bind.bind, Except.bind, imageShape] at e
    rw [e]
    exact ⟨er, rfl⟩

end

section
variable {K : Type} [Field K] [LinearOrder K] [IsStrictOrderedRing K] [FloorRing K]

/-- The merge stage starts from sound data. -/
theorem ready_ideal {tau : K} {minPoints : ℤ} {cc : Nat → List (Nat × Nat) → List Nat} {nifgs : Nat} (hifgs : 1 ≤ nifgs)
    {tiles : TileSet} (htwo : 2 ≤ tiles.tiles.length) {files : Nat → Except PyErr (TileFile K)} {F : Nat → TileFile K}
    (hf : TileFilesOk nifgs tiles files F) {phi : Nat → ℤ × ℤ → K} {c : Nat → Nat → ℤ} {olap : OverlapFile}
    (hover : phasediffDeciles id tau minPoints cc tiles (fun t => .ok (idealFile tau nifgs phi c F t)) = .ok (some olap))
    (hlab : olap.labels.length = tiles.tiles.length) {bulk : BulkFile K} (hbulk : BulkOk nifgs tiles.tiles.length bulk) :
    ∃ omap, overlapMap olap.labels.length olap.overlaps = .ok omap ∧
      Ready tiles.tiles.length nifgs (imageShape tiles) F olap omap bulk.offsets ∧
      (∀ i < tiles.tiles.length, (omap.getD i []).Nodup) ∧
      (∀ i < tiles.tiles.length, i ∉ omap.getD i []) := by
  obtain ⟨omap, h1, h2, h3, h4, h5⟩ := overlaps_map (ideal_ok hf) hover hlab
  refine ⟨omap, h1, ⟨by omega, ⟨h2.len, h2.lt, fun i hi j hj => ?_, h2.once⟩, files_inside hf, files_width hifgs hf, ?_, ?_⟩, h3, h4⟩
  · exact h2.pair i hi j hj
  · intro j hj b hb
    obtain ⟨e1, e2⟩ := hf.bands j hj
    omega
  · intro b hb j hj
    exact bulk_table hbulk b hb j hj

omit [FloorRing K] in
/-- The corrections the merge starts with. -/
theorem start_near {A : FloatArith K} {B η Bd ηd ε : K} (hA : MixedPrecision A B η Bd ηd ε) {k δ β : K} {n : Nat}
    {F : Nat → TileFile K} {b : Nat} {phi : ℤ × ℤ → K} {c : Nat → ℤ} {ref : Nat} {o : Nat → K} (hβ : 0 ≤ β)
    (hnear : ∀ i < n, ∀ (p : Nat) pix, (filePoints (F i))[p]? = some pix →
      |A.fs (filePhase (F i) b p) - (phi pix + A.tau * c i)| ≤ δ)
    (ho : ∀ i < n, |o i - ((c i - c ref : ℤ) : K)| ≤ β) (hk : ∀ i < n, |((c i - c ref : ℤ) : K)| ≤ k)
    (hbulk : A.tau * (k + β) ≤ Bd ∧ A.tau * (k + β) + ηd ≤ B) :
    NearCorr A n F b (fun pix => phi pix + A.tau * c ref) (δ + A.tau * β + η + ηd)
      (fun i _ => A.fs (A.fd (-(A.tau * o i)))) := by
  intro i hi p hp
  have hpl : p < (filePoints (F i)).length := by rw [filePoints_length]; exact hp
  have hpt : ptAt F i p = (filePoints (F i))[p] := by unfold ptAt; rw [List.getD_eq_getElem _ _ hpl]
  have h1 := hnear i hi p (ptAt F i p) (by rw [hpt, List.getElem?_eq_getElem hpl])
  have hτ : 0 ≤ A.tau := by have := hA.one_le.2; linarith [zero_lt_one (α := K)]
  have h2 := ho i hi
  have h3 := hk i hi
  have hoB : |o i| ≤ k + β := by
    have := abs_add_le (o i - ((c i - c ref : ℤ) : K)) ((c i - c ref : ℤ) : K)
    rw [sub_add_cancel] at this
    linarith
  have hto : |-(A.tau * o i)| ≤ A.tau * (k + β) := by
    rw [abs_neg, abs_mul, abs_of_nonneg hτ]
    exact mul_le_mul_of_nonneg_left hoB hτ
  have h4 := hA.double.close (-(A.tau * o i)) (hto.trans hbulk.1)
  have h5 : |A.fd (-(A.tau * o i))| ≤ B := by
    have := abs_add_le (A.fd (-(A.tau * o i)) - -(A.tau * o i)) (-(A.tau * o i))
    rw [sub_add_cancel] at this
    linarith [hbulk.2]
  have h6 := hA.single.close _ h5
  set w := A.fs (A.fd (-(A.tau * o i)))
  set x := A.fs (filePhase (F i) b p)
  have h7 : |A.tau * (o i - ((c i - c ref : ℤ) : K))| ≤ A.tau * β := by
    rw [abs_mul, abs_of_nonneg hτ]
    exact mul_le_mul_of_nonneg_left h2 hτ
  have e : x + w - (phi (ptAt F i p) + A.tau * c ref) = (x - (phi (ptAt F i p) + A.tau * c i)) +
      (w - A.fd (-(A.tau * o i))) + (A.fd (-(A.tau * o i)) - -(A.tau * o i)) -
      A.tau * (o i - ((c i - c ref : ℤ) : K)) := by push_cast; ring
  simp only
  rw [e]
  refine (abs_sub _ _).trans ?_
  have g1 := abs_add_le ((x - (phi (ptAt F i p) + A.tau * c i)) + (w - A.fd (-(A.tau * o i))))
    (A.fd (-(A.tau * o i)) - -(A.tau * o i))
  have g2 := abs_add_le (x - (phi (ptAt F i p) + A.tau * c i)) (w - A.fd (-(A.tau * o i)))
  linarith

/-- The rasters of one band. -/
theorem rasterFl_near {A : FloatArith K} {B η Bd ηd ε : K} (hA : MixedPrecision A B η Bd ηd ε)
    {M k δ β ρ Y E : K} {N L : Nat} (hroom : MergeRoom A B η Bd ηd ε M k δ β ρ Y E N L)
    {shape : Nat × Nat} {n : Nat} {F : Nat → TileFile K} (hin : ∀ j < n, ∀ c ∈ filePoints (F j), Inside shape c)
    (hnd : ∀ j < n, (filePoints (F j)).Nodup) (hN : ∀ pix, (covering n F pix).length ≤ N) {b : Nat}
    {phi : ℤ × ℤ → K} {c : Nat → ℤ} {ref : Nat} (href : ref < n)
    (hnear : ∀ i < n, ∀ (p : Nat) pix, (filePoints (F i))[p]? = some pix →
      |A.fs (filePhase (F i) b p) - (phi pix + A.tau * c i)| ≤ δ)
    (hM : ∀ i < n, ∀ pix ∈ filePoints (F i), ∀ j < n, |phi pix + A.tau * c j| ≤ M)
    (hk : ∀ i < n, |((c i - c ref : ℤ) : K)| ≤ k) {C : Nat → Nat → K}
    (hC : NearCorr A n F b (fun pix => phi pix + A.tau * c ref) E C) {m : MergedBand K}
    (h : bandRasterFl A shape n F b C = .ok m) (r q : Nat) :
    ((∃ j < n, ((r : ℤ), (q : ℤ)) ∈ filePoints (F j)) →
      (∃ v, m.out.val r q = some v ∧ |v - (phi (r, q) + A.tau * c ref)| ≤ δ + 4 * η + k * ε) ∧
      ∃ v, m.model.val r q = some v ∧ |v - (phi (r, q) + A.tau * c ref)| ≤ E + 3 * η) ∧
    ((∀ j < n, ((r : ℤ), (q : ℤ)) ∉ filePoints (F j)) →
      m.out.val r q = none ∧ m.diff.val r q = none ∧ m.model.val r q = none) ∧
    ((covering n F ((r : ℤ), (q : ℤ))).length < 2 → m.diff.val r q = none) ∧
    (2 ≤ (covering n F ((r : ℤ), (q : ℤ))).length → ∃ v, m.diff.val r q = some v ∧ |v| ≤ 2 * E + 3 * η) := by
  obtain ⟨hη, hηd⟩ := hA.nonneg
  obtain ⟨hM0, hk0, hδ, hβ, hρ, hN1⟩ := hroom.nonneg
  have hτ := hA.one_le.1
  have hvals := hroom.values
  have hsums := hroom.sums
  have hhalf := hroom.half
  obtain ⟨k1, k2, k3, k4⟩ := bandRasterFl_at hin hnd h r q
  set pix : ℤ × ℤ := ((r : ℤ), (q : ℤ)) with hpix
  set T := phi pix + A.tau * (c ref : K) with hT
  have hcovmem : ∀ {j}, j ∈ covering n F pix → j < n ∧ pix ∈ filePoints (F j) := by
    intro j hj
    unfold covering at hj
    simpa only [List.mem_filter, List.mem_range, decide_eq_true_eq] using hj
  have hτk : 0 ≤ A.tauS * k := mul_nonneg (by linarith) hk0
  have hcovered : (∃ j < n, pix ∈ filePoints (F j)) → |T| ≤ M ∧ 0 ≤ E ∧
      ∀ j < n, ∀ v, bandAtFl A F b C j pix = some v → |v - T| ≤ E + η := by
    rintro ⟨j, hj, hjp⟩
    have hTM : |T| ≤ M := hM j hj pix hjp ref href
    have hE : 0 ≤ E := by
      obtain ⟨p1, p2⟩ := ptAt_idxOf hjp
      exact (abs_nonneg _).trans (hC j hj _ p1)
    refine ⟨hTM, hE, fun j hj v hv => ?_⟩
    exact at_near hA.single hC hj (T := fun pix => phi pix + A.tau * c ref) (pix := pix) (M := M) hTM (by linarith) hv
  have hvalmem : ∀ v ∈ valuesFl A F b C n pix, ∃ j < n, pix ∈ filePoints (F j) ∧ bandAtFl A F b C j pix = some v := by
    intro v hv
    unfold valuesFl at hv
    rw [List.mem_filterMap] at hv
    obtain ⟨j, hj, hjv⟩ := hv
    refine ⟨j, List.mem_range.mp hj, ?_, hjv⟩
    unfold bandAtFl at hjv
    by_contra hc
    rw [if_neg hc] at hjv
    simp at hjv
  refine ⟨fun hcov => ?_, k1, k3, fun h2 => ?_⟩
  · obtain ⟨hTM, hE, hv⟩ := hcovered hcov
    obtain ⟨mean, hmean, hmod, j, hj, hjp, hout⟩ := k2 hcov
    have hfil : ((List.range n).filter fun j => (bandAtFl A F b C j pix).isSome) = covering n F pix := by
      unfold covering
      refine List.filter_congr fun j _ => ?_
      unfold bandAtFl
      by_cases hp : pix ∈ filePoints (F j) <;> simp [hp]
    set cnt := (covering n F pix).length with hcnt
    have hcpos : 0 < cnt := by
      rw [hcnt]
      refine List.length_pos_iff_exists_mem.mpr ⟨j, ?_⟩
      unfold covering
      simp only [List.mem_filter, List.mem_range, decide_eq_true_eq]
      exact ⟨hj, hjp⟩
    have hcK : (0 : K) < (cnt : K) := by exact_mod_cast hcpos
    have hcN : (cnt : K) ≤ (N : K) := by exact_mod_cast hN pix
    have hsum := foldl_near hA.single hη hTM (by linarith : (0 : K) ≤ E + η) (fun j => bandAtFl A F b C j pix) (List.range n)
      (fun j hj v hjv => hv j (List.mem_range.mp hj) v hjv) 0 0 (by simp) (by
        rw [hfil, Nat.zero_add, ← hcnt]
        refine le_trans ?_ hsums
        rw [show M + (E + η) + η = M + E + 2 * η by ring]
        exact mul_le_mul_of_nonneg_right hcN (by linarith))
    rw [hfil, Nat.zero_add, ← hcnt] at hsum
    have hmodel : |modelFl A F b C n pix - (cnt : K) * T| ≤ (cnt : K) * (E + 2 * η) := by
      unfold modelFl
      rw [show E + 2 * η = E + η + η by ring]
      exact hsum
    have hdiv : |modelFl A F b C n pix / (cnt : K) - T| ≤ E + 2 * η := by
      have e : modelFl A F b C n pix / (cnt : K) - T = (modelFl A F b C n pix - (cnt : K) * T) / (cnt : K) := by
        field_simp
      rw [e, abs_div, abs_of_pos hcK, div_le_iff₀ hcK]
      linarith
    have hdivB : |modelFl A F b C n pix / (cnt : K)| ≤ B := by
      have := abs_add_le (modelFl A F b C n pix / (cnt : K) - T) T
      rw [sub_add_cancel] at this
      linarith
    have hm1 : |mean - T| ≤ E + 3 * η := by
      rw [hmean]
      have := fs_near hA.single hdiv hdivB
      linarith
    refine ⟨⟨_, hout, ?_⟩, mean, hmod, hm1⟩
    obtain ⟨p1, p2⟩ := ptAt_idxOf hjp
    have hx := hnear j hj ((filePoints (F j)).idxOf pix) pix (by
      have hl := List.idxOf_lt_length_iff.mpr hjp
      rw [List.getElem?_eq_getElem hl, List.getElem_idxOf hl])
    have hTz : T + A.tau * ((c j - c ref : ℤ) : K) = phi pix + A.tau * (c j : K) := by
      rw [hT]; push_cast; ring
    exact wrapAround_near hA.single hη hτ hA.close hm1 (by rw [hTz]; exact hx) (hk j hj) hTM
      (by rw [hTz]; exact hM j hj pix hjp j hj) (by linarith) (by linarith)
  · obtain ⟨lo, hlo, hi, hhi, hlh, hd⟩ := k4 h2
    refine ⟨_, hd, ?_⟩
    obtain ⟨j1, a1, a2, a3⟩ := hvalmem lo hlo
    obtain ⟨j2, b1, b2, b3⟩ := hvalmem hi hhi
    obtain ⟨hTM, hE, hv⟩ := hcovered ⟨j1, a1, a2⟩
    have g1 := hv j1 a1 lo a3
    have g2 := hv j2 b1 hi b3
    have g3 : |hi - lo - 0| ≤ 2 * E + 2 * η := by
      have e : hi - lo - 0 = (hi - T) - (lo - T) := by ring
      rw [e]
      exact (abs_sub _ _).trans (by linarith)
    have hN2 : (2 : K) ≤ (N : K) := by exact_mod_cast h2.trans (hN pix)
    have : (2 : K) * (M + E + 2 * η) ≤ (N : K) * (M + E + 2 * η) := mul_le_mul_of_nonneg_right hN2 (by linarith)
    have g4 := fs_near hA.single g3 (by rw [sub_zero] at g3; linarith)
    rw [sub_zero] at g4
    linarith

/-- All rounds and the rasters of one band. -/
theorem finalRasterFl_near {A : FloatArith K} {B η Bd ηd ε : K} (hA : MixedPrecision A B η Bd ηd ε)
    {M k δ β ρ Y E : K} {N L : Nat} (hroom : MergeRoom A B η Bd ηd ε M k δ β ρ Y E N L) {env : MergeEnv K}
    {shape : Nat × Nat} {n nifgs : Nat} {F : Nat → TileFile K} (hg : TileGraphs env n F Y ρ L)
    {omap : List (List Nat)} {bulk : List (List K)} (hr : Ready n nifgs shape F env.overlap omap bulk)
    (honce : ∀ i < n, (omap.getD i []).Nodup) (hself : ∀ i < n, i ∉ omap.getD i [])
    (hN : ∀ pix, (covering n F pix).length ≤ N) {b : Nat}
    {phi : ℤ × ℤ → K} {c : Nat → ℤ} {ref : Nat} (href : ref < n)
    (hnear : ∀ i < n, ∀ (p : Nat) pix, (filePoints (F i))[p]? = some pix →
      |A.fs (filePhase (F i) b p) - (phi pix + A.tau * c i)| ≤ δ)
    (hM : ∀ i < n, ∀ pix ∈ filePoints (F i), ∀ j < n, |phi pix + A.tau * c j| ≤ M)
    (hk : ∀ i < n, |((c i - c ref : ℤ) : K)| ≤ k)
    (ho : ∀ i < n, |bulkAt bulk b i - ((c i - c ref : ℤ) : K)| ≤ β) {d : Nat}
    (hd : d ≤ N) (hok : adjustOk env n F omap d) (r q : Nat) :
    let m := finalRasterFl A env shape n F omap d bulk b
    ((∃ j < n, ((r : ℤ), (q : ℤ)) ∈ filePoints (F j)) →
      (∃ v, m.out.val r q = some v ∧ |v - (phi (r, q) + A.tau * c ref)| ≤ δ + 4 * η + k * ε) ∧
      ∃ v, m.model.val r q = some v ∧ |v - (phi (r, q) + A.tau * c ref)| ≤ E + 3 * η) ∧
    ((∀ j < n, ((r : ℤ), (q : ℤ)) ∉ filePoints (F j)) →
      m.out.val r q = none ∧ m.diff.val r q = none ∧ m.model.val r q = none) ∧
    ((covering n F ((r : ℤ), (q : ℤ))).length < 2 → m.diff.val r q = none) ∧
    (2 ≤ (covering n F ((r : ℤ), (q : ℤ))).length → ∃ v, m.diff.val r q = some v ∧ |v| ≤ 2 * E + 3 * η) := by
  intro m
  obtain ⟨hη, hηd⟩ := hA.nonneg
  obtain ⟨hM0, hk0, hδ, hβ, hρ, hN1⟩ := hroom.nonneg
  have hτ0 : 0 ≤ A.tau := by have := hA.one_le.2; linarith [zero_lt_one (α := K)]
  have hτS : 0 ≤ A.tauS := by have := hA.one_le.1; linarith [zero_lt_one (α := K)]
  have hτk : 0 ≤ A.tauS * k := mul_nonneg hτS hk0
  have hτβ : 0 ≤ A.tau * β := mul_nonneg hτ0 hβ
  have h0 := start_near hA hβ hnear ho hk hroom.bulk
  have hnd : ∀ j < n, (filePoints (F j)).Nodup := hr.map.once
  have hmem : ∀ i p, p < (F i).points.length → ptAt F i p ∈ filePoints (F i) := by
    intro i p hp
    have hpl : p < (filePoints (F i)).length := by rw [filePoints_length]; exact hp
    unfold ptAt
    rw [List.getD_eq_getElem _ _ hpl]
    exact List.getElem_mem hpl
  have hyp : RoundHyp A env n F omap b (fun pix => phi pix + A.tau * c ref) B η Bd ηd M (M + δ) ρ Y N L := by
    refine ⟨hA.single, hA.double, ⟨hη, hηd, hρ⟩, hr.map.lt, hself, honce, hN, ?_, ?_, hg.links, hg.size, hg.conn, ?_⟩
    · intro i hi p hp
      exact hM i hi _ (hmem i p hp) ref href
    · intro i hi p hp
      have hpl : p < (filePoints (F i)).length := by rw [filePoints_length]; exact hp
      have h1 := hnear i hi p _ (List.getElem?_eq_getElem hpl)
      have h2 := hM i hi _ (List.getElem_mem hpl) i hi
      have := abs_add_le (A.fs (filePhase (F i) b p) - (phi (filePoints (F i))[p] + A.tau * c i))
        (phi (filePoints (F i))[p] + A.tau * c i)
      rw [sub_add_cancel] at this
      linarith
    · intro i hi a ha
      unfold lapOf at ha
      cases hl : graphLaplacian (delaunayGraph (filePoints (F i)).length (env.simplices (filePoints (F i)))).links with
      | error e => rw [hl] at ha; simp [Bind.bind, Except.bind] at ha
      | ok a0 =>
        rw [hl] at ha
        simp only [Bind.bind, Except.bind, pure, Except.pure, Except.ok.injEq] at ha
        rw [← ha]
        exact hg.cg i hi a0 hl
  have herr := hroom.error
  have hpow : (3 : K) ^ (d - 1) ≤ 3 ^ (N - 1) := pow_le_pow_right₀ (by norm_num) (by omega)
  have hE1 : (3 : K) ^ (d - 1) * ((δ + A.tau * β + η + ηd) + (7 * η + 2 * ηd + ρ)) ≤ E + (7 * η + 2 * ηd + ρ) := by
    have h1 : (3 : K) ^ (d - 1) * ((δ + A.tau * β + η + ηd) + (7 * η + 2 * ηd + ρ)) ≤
        3 ^ (N - 1) * (δ + A.tau * β + 8 * η + 3 * ηd + ρ) := by
      rw [show (δ + A.tau * β + η + ηd) + (7 * η + 2 * ηd + ρ) = δ + A.tau * β + 8 * η + 3 * ηd + ρ by ring]
      exact mul_le_mul_of_nonneg_right hpow (by linarith)
    linarith
  have hvals := hroom.values
  have hC := bandAdjustFl_near hyp (by linarith) h0 hE1 hM0 (by linarith) hroom.sums (by linarith) hroom.dirichlet.1
    hroom.dirichlet.2 hok
  obtain ⟨m', hm'⟩ := bandRasterFl_ok hr.inside b (finalCorrFl A env F omap d bulk b)
  have hmm : m = m' := by
    show finalRasterFl A env shape n F omap d bulk b = m'
    unfold finalRasterFl; rw [hm']
  rw [hmm]
  exact rasterFl_near hA hroom hr.inside hnd hN href hnear hM hk hC hm' r q

end

end Spurt
