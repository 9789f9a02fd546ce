import Verif.Lemmas.FloatRaster

/-!
# The overlap file in mixed precision
-/

namespace Spurt
open Spec

section
variable {K : Type} [Field K] [LinearOrder K] [IsStrictOrderedRing K] [FloorRing K]

/-! ### The loop over the tile pairs, for any statistics -/

/-- `overlapStep` and `overlapStepFl` differ in the statistics only. -/
def stepGen (st : NdArray K → NdArray K → Except PyErr (List (List ℚ))) (wrap : ℤ → ℤ) (minPoints : ℤ)
    (load : Nat → Except PyErr (List (ℤ × ℤ) × List (List K))) (s : OverlapState K)
    (pair : Nat × Nat) : Except PyErr (OverlapState K) := do
  let (t1, pt1, uw1) ← refresh load s.held1 pair.1
  let (t2, pt2, uw2) ← refresh load s.held2 pair.2
  let (c1, c2) ← findCommonPoints wrap pt1 pt2
  if (c1.length : ℤ) < minPoints then
    pure ⟨some (t1, pt1, uw1), some (t2, pt2, uw2), s.groups⟩
  else do
    let stats ← st (selectColumns uw1 c1) (selectColumns uw2 c2)
    pure ⟨some (t1, pt1, uw1), some (t2, pt2, uw2),
      s.groups ++ [((t1, t2), ⟨c1, c2, stats.map fun r => r.map pyInt⟩)]⟩

/-- What one pair contributes. -/
def groupGen (st : NdArray K → NdArray K → Except PyErr (List (List ℚ))) (wrap : ℤ → ℤ) (minPoints : ℤ)
    (load : Nat → Except PyErr (List (ℤ × ℤ) × List (List K))) (pair : Nat × Nat) :
    Except PyErr (List ((Nat × Nat) × OverlapGroup)) := do
  let d1 ← load pair.1
  let d2 ← load pair.2
  let c ← findCommonPoints wrap d1.1 d2.1
  if (c.1.length : ℤ) < minPoints then pure []
  else do
    let stats ← st (selectColumns d1.2 c.1) (selectColumns d2.2 c.2)
    pure [(pair, ⟨c.1, c.2, stats.map fun r => r.map pyInt⟩)]

theorem stepGen_eq {st : NdArray K → NdArray K → Except PyErr (List (List ℚ))} {wrap : ℤ → ℤ} {minPoints : ℤ}
    {load : Nat → Except PyErr (List (ℤ × ℤ) × List (List K))} {s : OverlapState K} {pair : Nat × Nat}
    (h1 : HeldOk load s.held1) (h2 : HeldOk load s.held2) :
    (∀ e, groupGen st wrap minPoints load pair = .error e → stepGen st wrap minPoints load s pair = .error e) ∧
    ∀ g, groupGen st wrap minPoints load pair = .ok g → ∃ s', stepGen st wrap minPoints load s pair = .ok s' ∧
      HeldOk load s'.held1 ∧ HeldOk load s'.held2 ∧ s'.groups = s.groups ++ g := by
  unfold stepGen groupGen
  rw [refresh_eq h1, refresh_eq h2]
  cases e1 : load pair.1 with
  | error e => simp [Bind.bind, Except.bind]
  | ok d1 =>
  cases e2 : load pair.2 with
  | error e => simp [Bind.bind, Except.bind, pure, Except.pure]
  | ok d2 =>
  obtain ⟨p1, u1⟩ := d1
  obtain ⟨p2, u2⟩ := d2
  simp only [Bind.bind, Except.bind, pure, Except.pure]
  have hh : ∀ g, HeldOk load (OverlapState.mk (some (pair.1, p1, u1)) (some (pair.2, p2, u2)) g).held1 ∧
      HeldOk load (OverlapState.mk (some (pair.1, p1, u1)) (some (pair.2, p2, u2)) g).held2 := by
    intro g
    constructor
    · intro u d hu
      simp only [Option.some.injEq, Prod.mk.injEq] at hu
      obtain ⟨rfl, rfl⟩ := hu; exact e1
    · intro u d hu
      simp only [Option.some.injEq, Prod.mk.injEq] at hu
      obtain ⟨rfl, rfl⟩ := hu; exact e2
  cases e3 : findCommonPoints wrap p1 p2 with
  | error e => simp
  | ok c =>
  obtain ⟨c1, c2⟩ := c
  simp only
  by_cases hm : (c1.length : ℤ) < minPoints
  · simp only [hm, if_true]
    refine ⟨by simp, fun g hg => ?_⟩
    simp only [Except.ok.injEq] at hg
    subst hg
    exact ⟨_, rfl, (hh _).1, (hh _).2, by simp⟩
  · simp only [hm, if_false]
    cases e4 : st (selectColumns u1 c1) (selectColumns u2 c2) with
    | error e => simp
    | ok r =>
      refine ⟨by simp, fun g hg => ?_⟩
      simp only [Except.ok.injEq] at hg
      subst hg
      exact ⟨_, rfl, (hh _).1, (hh _).2, rfl⟩

/-- The groups the loop writes, or its error. -/
theorem loopGen_eq {st : NdArray K → NdArray K → Except PyErr (List (List ℚ))} {wrap : ℤ → ℤ} {minPoints : ℤ}
    {load : Nat → Except PyErr (List (ℤ × ℤ) × List (List K))} (l : List (Nat × Nat)) :
    ∀ {s : OverlapState K}, HeldOk load s.held1 → HeldOk load s.held2 →
      (l.foldlM (stepGen st wrap minPoints load) s).map OverlapState.groups =
        (l.mapM (groupGen st wrap minPoints load)).map fun gs => s.groups ++ gs.flatten := by
  induction l with
  | nil => intro s _ _; simp [Except.map, pure, Except.pure]
  | cons p l ih =>
    intro s h1 h2
    obtain ⟨k1, k2⟩ := stepGen_eq (st := st) (wrap := wrap) (minPoints := minPoints) (pair := p) h1 h2
    rw [List.foldlM_cons, List.mapM_cons]
    cases e : groupGen st wrap minPoints load p with
    | error er => rw [k1 er e]; rfl
    | ok g =>
      obtain ⟨s', e', g1, g2, g3⟩ := k2 g e
      rw [e']
      simp only [Bind.bind, Except.bind]
      rw [ih g1 g2, g3]
      cases l.mapM (groupGen st wrap minPoints load) with
      | error er => rfl
      | ok gs => simp [Except.map, pure, Except.pure]

omit [Field K] [LinearOrder K] [IsStrictOrderedRing K] [FloorRing K] in
theorem heldOk_none (load : Nat → Except PyErr (List (ℤ × ℤ) × List (List K))) : HeldOk load none :=
  fun _ _ h => by simp at h

theorem mapM_congr_mem {α β : Type} {f g : α → Except PyErr β} {l : List α} (h : ∀ a ∈ l, f a = g a) :
    l.mapM f = l.mapM g := by
  induction l with
  | nil => rfl
  | cons a l ih =>
    rw [List.mapM_cons, List.mapM_cons, h a List.mem_cons_self, ih fun b hb => h b (List.mem_cons_of_mem _ hb)]

/-- `_load_uw_tile` in mixed precision. -/
def loadFl (A : FloatArith K) (tiles : TileSet) (files : Nat → Except PyErr (TileFile K)) (t : Nat) :
    Except PyErr (List (ℤ × ℤ) × List (List K)) := do
  let bb ← (tiles.tiles[t]?).elim (.error .indexError) .ok
  let f ← files t
  pure (loadUwTileFl A f bb)

/-- `_load_uw_tile`. -/
def loadEx (tiles : TileSet) (files : Nat → Except PyErr (TileFile K)) (t : Nat) :
    Except PyErr (List (ℤ × ℤ) × List (List K)) := do
  let bb ← (tiles.tiles[t]?).elim (.error .indexError) .ok
  let f ← files t
  pure (loadUwTile f bb)

/-- The two overlap files agree when all pairs contribute the same. -/
theorem phasediffDecilesFl_eq {A : FloatArith K} {atol rtol : K} {wrap : ℤ → ℤ} {tau : K} {minPoints : ℤ}
    {cc : Nat → List (Nat × Nat) → List Nat} {tiles : TileSet} {files files' : Nat → Except PyErr (TileFile K)}
    (h : ∀ p ∈ tiles.getOverlaps, groupGen (pairwiseDecilesFl A atol rtol) wrap minPoints (loadFl A tiles files) p =
      groupGen (pairwiseDeciles tau) wrap minPoints (loadEx tiles files') p) :
    phasediffDecilesFl A atol rtol wrap minPoints cc tiles files = phasediffDeciles wrap tau minPoints cc tiles files' := by
  unfold phasediffDecilesFl phasediffDeciles
  by_cases h1 : tiles.tiles.length = 1
  · rw [if_pos h1, if_pos h1]
  · rw [if_neg h1, if_neg h1]
    have e1 := loopGen_eq (st := pairwiseDecilesFl A atol rtol) (wrap := wrap) (minPoints := minPoints)
      (load := loadFl A tiles files) tiles.getOverlaps (s := ⟨none, none, []⟩) (heldOk_none _) (heldOk_none _)
    have e2 := loopGen_eq (st := pairwiseDeciles tau) (wrap := wrap) (minPoints := minPoints)
      (load := loadEx tiles files') tiles.getOverlaps (s := ⟨none, none, []⟩) (heldOk_none _) (heldOk_none _)
    rw [mapM_congr_mem h, ← e2] at e1
    change (do
      let s ← tiles.getOverlaps.foldlM (stepGen (pairwiseDecilesFl A atol rtol) wrap minPoints (loadFl A tiles files)) ⟨none, none, []⟩
      _) = (do
      let s ← tiles.getOverlaps.foldlM (stepGen (pairwiseDeciles tau) wrap minPoints (loadEx tiles files')) ⟨none, none, []⟩
      _)
    cases ha : tiles.getOverlaps.foldlM (stepGen (pairwiseDecilesFl A atol rtol) wrap minPoints (loadFl A tiles files)) ⟨none, none, []⟩ with
    | error e =>
      cases hb : tiles.getOverlaps.foldlM (stepGen (pairwiseDeciles tau) wrap minPoints (loadEx tiles files')) ⟨none, none, []⟩ with
      | error e' =>
        rw [ha, hb] at e1
        simp only [Except.map, Except.error.injEq] at e1
        rw [e1]
      | ok s' => rw [ha, hb] at e1; simp [Except.map] at e1
    | ok s =>
      cases hb : tiles.getOverlaps.foldlM (stepGen (pairwiseDeciles tau) wrap minPoints (loadEx tiles files')) ⟨none, none, []⟩ with
      | error e' => rw [ha, hb] at e1; simp [Except.map] at e1
      | ok s' =>
        rw [ha, hb] at e1
        simp only [Except.map, Except.ok.injEq] at e1
        simp only [Bind.bind, Except.bind, e1]

/-! ### The statistics of one pair -/

/-- The whole-cycle difference of two values that hold the field plus cycles. -/
theorem cycleDiffFl_near {A : FloatArith K} {B η Bd ηd ε : K} (hA : MixedPrecision A B η Bd ηd ε) {atol rtol M k δ : K}
    (hr : CheckRoom atol rtol B η Bd ηd ε M k δ) {b1 b2 : NdArray K} {i : List Nat} {f : K} {c1 c2 : ℤ}
    (h1 : |b1.get i - (f + A.tau * c1)| ≤ δ) (h2 : |b2.get i - (f + A.tau * c2)| ≤ δ)
    (hM1 : |f + A.tau * c1| ≤ M) (hM2 : |f + A.tau * c2| ≤ M) (hk : |((c2 - c1 : ℤ) : K)| ≤ k)
    (h16 : -32768 ≤ c2 - c1 ∧ c2 - c1 ≤ 32767) :
    cycleDiffFl A b1 b2 i = c2 - c1 ∧ closeToCycleFl A atol rtol b1 b2 i = true := by
  set z : ℤ := c2 - c1 with hz
  obtain ⟨hη, hηd⟩ := hA.nonneg
  have hτ := hA.one_le.1
  have hτ0 : 0 < A.tauS := by linarith
  have hδ : 0 ≤ δ := (abs_nonneg _).trans h1
  have hM : 0 ≤ M := (abs_nonneg _).trans hM1
  have hε : 0 ≤ ε := (abs_nonneg _).trans hA.close
  have hk0 := hr.nonneg.2
  have hkε := mul_nonneg hk0 hε
  have htol := hr.tol
  have hhalf := hr.half
  have hval := hr.values
  have hrng := hr.range
  set x := b1.get i
  set y := b2.get i
  have hd : |(y - x) - A.tau * (z : K)| ≤ 2 * δ := by
    have : (y - x) - A.tau * (z : K) = (y - (f + A.tau * c2)) - (x - (f + A.tau * c1)) := by rw [hz]; push_cast; ring
    rw [this]
    exact (abs_sub _ _).trans (by linarith)
  have hxB : |x| ≤ M + δ := by
    have := abs_add_le (x - (f + A.tau * c1)) (f + A.tau * c1)
    rw [sub_add_cancel] at this
    linarith
  have hyB : |y| ≤ M + δ := by
    have := abs_add_le (y - (f + A.tau * c2)) (f + A.tau * c2)
    rw [sub_add_cancel] at this
    linarith
  have hyx : |y - x| ≤ 2 * M + 2 * δ := (abs_sub _ _).trans (by linarith)
  have hd1 := fs_near hA.single hd (by linarith)
  have hcl := hA.single.close (y - x) (by linarith)
  have hzε : |(A.tau - A.tauS) * (z : K)| ≤ k * ε := by
    rw [abs_mul, mul_comm]
    exact mul_le_mul hk hA.close (abs_nonneg _) hk0
  set d := A.fs (y - x) with hdd
  have hq1 : |d / A.tauS - (z : K)| ≤ k * ε + 2 * δ + η := by
    have e : d / A.tauS - (z : K) = ((d - A.tau * (z : K)) + (A.tau - A.tauS) * (z : K)) / A.tauS := by
      field_simp
      ring
    rw [e, abs_div, abs_of_pos hτ0, div_le_iff₀ hτ0]
    have h1 := abs_add_le (d - A.tau * (z : K)) ((A.tau - A.tauS) * (z : K))
    have h2 : k * ε + 2 * δ + η ≤ (k * ε + 2 * δ + η) * A.tauS := le_mul_of_one_le_right (by linarith) hτ
    linarith
  have hdB : |d| ≤ 2 * M + 2 * δ + η := by
    have := abs_add_le (d - (y - x)) (y - x)
    rw [sub_add_cancel] at this
    linarith
  have hqB : |d / A.tauS| ≤ B := by
    rw [abs_div, abs_of_pos hτ0]
    exact (div_le_self (abs_nonneg _) hτ).trans (by linarith)
  have hq2 : |diffCyclesFl A b1 b2 i - (z : K)| ≤ k * ε + 2 * δ + 2 * η := by
    have := fs_near hA.single hq1 hqB
    unfold diffCyclesFl
    linarith
  have hcyc : cycleDiffFl A b1 b2 i = z := by
    unfold cycleDiffFl
    have := abs_le.mp hq2
    rw [rint_eq_of_lt (n := z) (by linarith) (by linarith), toInt16_id h16.1 h16.2]
  refine ⟨hcyc, ?_⟩
  have hrk := mul_nonneg hr.nonneg.1 hk0
  have hrz : 0 ≤ rtol * |(z : K)| := mul_nonneg hr.nonneg.1 (abs_nonneg _)
  have hrzk : rtol * |(z : K)| ≤ rtol * k := mul_le_mul_of_nonneg_left hk hr.nonneg.1
  unfold closeToCycleFl
  simp only [hcyc, decide_eq_true_eq]
  set q := diffCyclesFl A b1 b2 i - (z : K) with hq
  have f1 := hA.double.close q (by linarith)
  have f2 := hA.double.close (rtol * |(z : K)|) (by rw [abs_of_nonneg hrz]; linarith)
  have f2' := abs_le.mp f2
  have f3 := hA.double.close (atol + A.fd (rtol * |(z : K)|)) (by
    rw [abs_le]; constructor <;> linarith)
  have f3' := abs_le.mp f3
  have : |A.fd q| ≤ k * ε + 2 * δ + 2 * η + ηd := by
    have := abs_add_le (A.fd q - q) q
    rw [sub_add_cancel] at this
    linarith
  linarith

/-- The statistics of two arrays whose values hold the same fields plus cycles. -/
theorem pairwiseDecilesFl_eq {A : FloatArith K} {B η Bd ηd ε : K} (hA : MixedPrecision A B η Bd ηd ε) {atol rtol M k δ : K}
    (hr : CheckRoom atol rtol B η Bd ηd ε M k δ) {b1 b2 g1 g2 : NdArray K} {nb n : Nat} (hs1 : b1.shape = [nb, n])
    (hs2 : b2.shape = [nb, n]) (hg1 : g1.shape = [nb, n]) (hg2 : g2.shape = [nb, n]) (f : Nat → Nat → K) (c1 c2 : Nat → ℤ)
    (h1 : ∀ r < nb, ∀ p < n, |b1.get [r, p] - (f r p + A.tau * c1 r)| ≤ δ)
    (h2 : ∀ r < nb, ∀ p < n, |b2.get [r, p] - (f r p + A.tau * c2 r)| ≤ δ)
    (e1 : ∀ r < nb, ∀ p < n, g1.get [r, p] = f r p + A.tau * c1 r)
    (e2 : ∀ r < nb, ∀ p < n, g2.get [r, p] = f r p + A.tau * c2 r)
    (hM1 : ∀ r < nb, ∀ p < n, |f r p + A.tau * c1 r| ≤ M) (hM2 : ∀ r < nb, ∀ p < n, |f r p + A.tau * c2 r| ≤ M)
    (hk : ∀ r < nb, |((c2 r - c1 r : ℤ) : K)| ≤ k) (h16 : ∀ r < nb, -32768 ≤ c2 r - c1 r ∧ c2 r - c1 r ≤ 32767) :
    pairwiseDecilesFl A atol rtol b1 b2 = pairwiseDeciles A.tau g1 g2 := by
  have hτ : A.tau ≠ 0 := by have := hA.one_le.2; intro h; rw [h] at this; linarith [zero_lt_one (α := K)]
  have hfl : ∀ r < nb, ∀ p < n, cycleDiffFl A b1 b2 [r, p] = c2 r - c1 r ∧ closeToCycleFl A atol rtol b1 b2 [r, p] = true :=
    fun r hr' p hp => cycleDiffFl_near hA hr (h1 r hr' p hp) (h2 r hr' p hp) (hM1 r hr' p hp) (hM2 r hr' p hp)
      (hk r hr') (h16 r hr')
  have hex : ∀ r < nb, ∀ p < n, NearCycles ((g2.get [r, p] - g1.get [r, p]) / A.tau) (c2 r - c1 r) := by
    intro r hr' p hp
    refine ⟨(h16 r hr').1, (h16 r hr').2, ?_⟩
    have : (g2.get [r, p] - g1.get [r, p]) / A.tau = ((c2 r - c1 r : ℤ) : K) := by
      rw [e1 r hr' p hp, e2 r hr' p hp]
      field_simp
      push_cast
      ring
    rw [this, sub_self, abs_zero]
    positivity
  unfold pairwiseDecilesFl pairwiseDeciles
  rw [if_neg (by rw [hs1, hs2]; simp), if_neg (by rw [hg1, hg2]; simp), hs1, hg1]
  simp only
  have hmem : ∀ i ∈ cart [List.range nb, List.range n], ∃ r < nb, ∃ p < n, i = [r, p] := by
    intro i hi
    simp only [cart, List.mem_flatMap, List.mem_map, List.mem_range] at hi
    obtain ⟨r, hr', t, ⟨p, hp, ht⟩, hi⟩ := hi
    simp at ht
    subst ht
    exact ⟨r, hr', p, hp, hi.symm⟩
  have a1 : (cart [List.range nb, List.range n]).all (closeToCycleFl A atol rtol b1 b2) = true := by
    rw [List.all_eq_true]
    intro i hi
    obtain ⟨r, hr', p, hp, rfl⟩ := hmem i hi
    exact (hfl r hr' p hp).2
  have a2 : (cart [List.range nb, List.range n]).all (closeToCycle A.tau g1 g2) = true := by
    rw [List.all_eq_true]
    intro i hi
    obtain ⟨r, hr', p, hp, rfl⟩ := hmem i hi
    exact close_iff.mpr ⟨_, hex r hr' p hp⟩
  rw [if_neg (not_not.mpr a1), if_neg (not_not.mpr a2)]
  by_cases hn : n < 11
  · rw [if_pos hn, if_pos hn]
  · rw [if_neg hn, if_neg hn]
    congr 1
    refine List.map_congr_left fun r hr' => ?_
    congr 1
    refine List.map_congr_left fun p hp => ?_
    rw [List.mem_range] at hr' hp
    rw [(hfl r hr' p hp).1, cycleDiff_of_near (hex r hr' p hp)]

/-! ### The tile files without errors -/

omit [LinearOrder K] [IsStrictOrderedRing K] [FloorRing K] in
/-- The file of tile `t` with the field plus cycles in the place of the phases. -/
def idealFile (tau : K) (nifgs : Nat) (phi : Nat → ℤ × ℤ → K) (c : Nat → Nat → ℤ) (F : Nat → TileFile K) (t : Nat) : TileFile K :=
  ⟨(List.range nifgs).map fun b => (filePoints (F t)).map fun pix => phi b pix + tau * c b t, (F t).points, (F t).tile,
    List.replicate nifgs 0⟩

omit [LinearOrder K] [IsStrictOrderedRing K] [FloorRing K] in
theorem idealFile_points {tau : K} {nifgs : Nat} {phi : Nat → ℤ × ℤ → K} {c : Nat → Nat → ℤ} {F : Nat → TileFile K} (t : Nat) :
    filePoints (idealFile tau nifgs phi c F t) = filePoints (F t) := rfl

omit [LinearOrder K] [IsStrictOrderedRing K] [FloorRing K] in
theorem ideal_cut {tau : K} {nifgs n : Nat} {phi : Nat → ℤ × ℤ → K} {c : Nat → Nat → ℤ} {F : Nat → TileFile K} :
    CutFields tau nifgs n (idealFile tau nifgs phi c F) phi c := by
  intro b hb i _ p pix hp
  rw [idealFile_points] at hp
  have hpl := (List.getElem?_eq_some_iff.mp hp).1
  unfold filePhase idealFile
  simp only
  have hrow : ((List.range nifgs).map fun b => (filePoints (F i)).map fun pix => phi b pix + tau * (c b i : K)).getD b [] =
      (filePoints (F i)).map fun pix => phi b pix + tau * (c b i : K) := by
    rw [List.getD_eq_getElem _ _ (by simpa using hb), List.getElem_map, List.getElem_range]
  rw [hrow, List.getD_eq_getElem _ _ (by simpa using hpl), List.getElem_map, (List.getElem?_eq_some_iff.mp hp).2]
  simp [List.getD_eq_getElem?_getD, List.getElem?_replicate, hb]

omit [LinearOrder K] [IsStrictOrderedRing K] [FloorRing K] in
theorem ideal_ok {tau : K} {nifgs : Nat} {phi : Nat → ℤ × ℤ → K} {c : Nat → Nat → ℤ} {tiles : TileSet}
    {files : Nat → Except PyErr (TileFile K)} {F : Nat → TileFile K} (hf : TileFilesOk nifgs tiles files F) :
    TileFilesOk nifgs tiles (fun t => .ok (idealFile tau nifgs phi c F t)) (idealFile tau nifgs phi c F) := by
  refine ⟨fun _ _ => rfl, hf.box, hf.once, hf.inside, fun i hi => ?_, fun i hi row hrow => ?_⟩
  · simp [idealFile]
  · obtain ⟨b, _, rfl⟩ := List.mem_map.mp hrow
    simp [idealFile, filePoints_length]

omit [LinearOrder K] [IsStrictOrderedRing K] [FloorRing K] in
theorem imagePhaseFl_getD {A : FloatArith K} {f : TileFile K} {b p : Nat} (h1 : b < f.uw.length) (h2 : b < f.phaseOffset.length)
    (h3 : p < (f.uw.getD b []).length) :
    ((List.zipWith (fun row off => row.map fun x => A.fs (x + off)) f.uw f.phaseOffset).getD b []).getD p 0 =
      A.fs (filePhase f b p) := by
  unfold filePhase
  have hl : b < (List.zipWith (fun row off => row.map fun x => A.fs (x + off)) f.uw f.phaseOffset).length := by
    rw [List.length_zipWith]; omega
  rw [List.getD_eq_getElem _ _ hl, List.getElem_zipWith]
  rw [List.getD_eq_getElem _ _ h1] at h3 ⊢
  rw [List.getD_eq_getElem _ _ h2, List.getD_eq_getElem _ _ (by simpa using h3), List.getElem_map,
    List.getD_eq_getElem _ _ h3]

/-- The overlap file of tiles that are near fields cut into tiles is that of the fields. -/
theorem overlapFl_ideal {A : FloatArith K} {B η Bd ηd ε : K} (hA : MixedPrecision A B η Bd ηd ε) {atol rtol M k δ : K}
    (hr : CheckRoom atol rtol B η Bd ηd ε M k δ) {minPoints : ℤ}
    {cc : Nat → List (Nat × Nat) → List Nat} {nifgs : Nat} {tiles : TileSet} {files : Nat → Except PyErr (TileFile K)}
    {F : Nat → TileFile K} (hf : TileFilesOk nifgs tiles files F) {phi : Nat → ℤ × ℤ → K} {c : Nat → Nat → ℤ}
    (hnear : NearFields A δ nifgs tiles.tiles.length F phi c)
    (hM : ∀ b < nifgs, ∀ i < tiles.tiles.length, ∀ pix ∈ filePoints (F i), |phi b pix + A.tau * c b i| ≤ M)
    (hk : ∀ b < nifgs, ∀ i < tiles.tiles.length, ∀ j < tiles.tiles.length, |((c b j - c b i : ℤ) : K)| ≤ k)
    (hsmall : ∀ b i, |c b i| ≤ 16383) :
    phasediffDecilesFl A atol rtol id minPoints cc tiles files =
      phasediffDeciles id A.tau minPoints cc tiles fun t => .ok (idealFile A.tau nifgs phi c F t) := by
  apply phasediffDecilesFl_eq
  rintro ⟨i, j⟩ hij
  obtain ⟨_, bi, bj, hbi, hbj, _⟩ := ((C25_overlaps tiles).1 i j).mp hij
  have hi := (List.getElem?_eq_some_iff.mp hbi).1
  have hj := (List.getElem?_eq_some_iff.mp hbj).1
  have hloadF : ∀ t b, tiles.tiles[t]? = some b → loadFl A tiles files t = .ok (loadUwTileFl A (F t) b) := by
    intro t b hb
    unfold loadFl
    rw [hb, hf.read t (List.getElem?_eq_some_iff.mp hb).1]
    rfl
  have hloadG : ∀ t b, tiles.tiles[t]? = some b → loadEx tiles (fun t => .ok (idealFile A.tau nifgs phi c F t)) t =
      .ok (loadUwTile (idealFile A.tau nifgs phi c F t) b) := by
    intro t b hb
    unfold loadEx
    rw [hb]
    rfl
  unfold groupGen
  simp only [hloadF i bi hbi, hloadF j bj hbj, hloadG i bi hbi, hloadG j bj hbj, Bind.bind, Except.bind]
  have hpts : ∀ t b, tiles.tiles[t]? = some b → (loadUwTileFl A (F t) b).1 = filePoints (F t) ∧
      (loadUwTile (idealFile A.tau nifgs phi c F t) b).1 = filePoints (F t) := by
    intro t b hb
    have := hf.box t b hb
    subst this
    exact ⟨rfl, rfl⟩
  rw [(hpts i bi hbi).1, (hpts i bi hbi).2, (hpts j bj hbj).1, (hpts j bj hbj).2]
  cases hcp : findCommonPoints id (filePoints (F i)) (filePoints (F j)) with
  | error e => rfl
  | ok cs =>
  obtain ⟨c1, c2⟩ := cs
  simp only
  obtain ⟨_, ps, _, hps, hc1, hc2⟩ := commonPoints_count hcp
  have hl1 : c1.length = ps.length := by simpa using congrArg List.length hc1
  have hl2 : c2.length = ps.length := by simpa using congrArg List.length hc2
  -- the columns
  have hcol : ∀ t < tiles.tiles.length, ∀ b : BBox, ∀ cs : List Nat, cs.map ((filePoints (F t))[·]?) = ps.map some →
      (selectColumns (loadUwTileFl A (F t) b).2 cs).shape = [nifgs, ps.length] ∧
      (selectColumns (loadUwTile (idealFile A.tau nifgs phi c F t) b).2 cs).shape = [nifgs, ps.length] ∧
      ∀ r < nifgs, ∀ p < ps.length, ps.getD p (0, 0) ∈ filePoints (F t) ∧
        |(selectColumns (loadUwTileFl A (F t) b).2 cs).get [r, p] - (phi r (ps.getD p (0, 0)) + A.tau * c r t)| ≤ δ ∧
        (selectColumns (loadUwTile (idealFile A.tau nifgs phi c F t) b).2 cs).get [r, p] =
          phi r (ps.getD p (0, 0)) + A.tau * c r t := by
    intro t ht b cs hcs
    have hcl : cs.length = ps.length := by simpa using congrArg List.length hcs
    obtain ⟨e1, e2⟩ := hf.bands t ht
    have hG := ideal_ok (tau := A.tau) (phi := phi) (c := c) hf
    obtain ⟨g1, g2⟩ := hG.bands t ht
    refine ⟨by simp [selectColumns, loadUwTileFl, e1, e2, hcl], by simp [selectColumns, loadUwTile, g1, g2, hcl], ?_⟩
    intro r hr' p hp
    have hget := congrArg (·[p]?) hcs
    have hpc : p < cs.length := by omega
    simp only [List.getElem?_map, List.getElem?_eq_getElem hpc, List.getElem?_eq_getElem hp, Option.map_some,
      Option.some.injEq] at hget
    have hpl := (List.getElem?_eq_some_iff.mp hget).1
    rw [filePoints_length] at hpl
    have hrow : ((F t).uw.getD r []).length = (F t).points.length := by
      rw [List.getD_eq_getElem _ _ (by omega)]
      exact hf.rows t ht _ (List.getElem_mem _)
    have hrowG : ((idealFile A.tau nifgs phi c F t).uw.getD r []).length = (F t).points.length := by
      rw [List.getD_eq_getElem _ _ (by omega)]
      exact hG.rows t ht _ (List.getElem_mem _)
    rw [List.getD_eq_getElem ps _ hp]
    refine ⟨List.mem_of_getElem? hget, ?_, ?_⟩
    · simp only [selectColumns, loadUwTileFl]
      rw [List.getD_eq_getElem cs _ hpc, imagePhaseFl_getD (by omega) (by omega) (by omega)]
      exact hnear r hr' t ht _ _ hget
    · simp only [selectColumns, loadUwTile]
      rw [List.getD_eq_getElem cs _ hpc]
      have := imagePhase_getD (f := idealFile A.tau nifgs phi c F t) (b := r) (p := cs[p]) (by omega) (by omega) (by omega)
      unfold imagePhase at this
      rw [this]
      exact ideal_cut (n := tiles.tiles.length) r hr' t ht _ _ hget
  obtain ⟨s1, s2, s3⟩ := hcol i hi bi c1 hc1
  obtain ⟨t1, t2, t3⟩ := hcol j hj bj c2 hc2
  rw [pairwiseDecilesFl_eq hA hr s1 t1 s2 t2 (fun r p => phi r (ps.getD p (0, 0))) (fun r => c r i) (fun r => c r j)
    (fun r hr' p hp => (s3 r hr' p hp).2.1) (fun r hr' p hp => (t3 r hr' p hp).2.1)
    (fun r hr' p hp => (s3 r hr' p hp).2.2) (fun r hr' p hp => (t3 r hr' p hp).2.2)
    (fun r hr' p hp => hM r hr' i hi _ (s3 r hr' p hp).1) (fun r hr' p hp => hM r hr' j hj _ (t3 r hr' p hp).1)
    (fun r hr' => hk r hr' i hi j hj) (fun r _ => by
      have h1 := abs_le.mp (hsmall r i)
      have h2 := abs_le.mp (hsmall r j)
      omega)]

end

end Spurt
