import Verif.Lemmas.FloatRounds

/-!
# The rasters of one band at a pixel, in mixed precision
-/

namespace Spurt
open Spec

section
variable {K : Type} [Field K] [LinearOrder K] [FloorRing K]

/-- The values of the first `m` corrected tiles at a pixel. -/
def valuesFl (A : FloatArith K) (F : Nat → TileFile K) (b : Nat) (c : Nat → Nat → K) (m : Nat) (pix : ℤ × ℤ) : List K :=
  (List.range m).filterMap fun j => bandAtFl A F b c j pix

/-- The rounded sum of these values. -/
def modelFl (A : FloatArith K) (F : Nat → TileFile K) (b : Nat) (c : Nat → Nat → K) (m : Nat) (pix : ℤ × ℤ) : K :=
  (List.range m).foldl (fun x j => (bandAtFl A F b c j pix).elim x fun v => A.fs (x + v)) 0

/-- The state of the averaging loop at one pixel. -/
structure AccFl (A : FloatArith K) (F : Nat → TileFile K) (b : Nat) (c : Nat → Nat → K) (m : Nat) (acc : MergeAcc K)
    (p : Nat × Nat) : Prop where
  cnt : acc.cnt p = (valuesFl A F b c m (pixZ p)).length
  model : acc.model p = modelFl A F b c m (pixZ p)
  lo : valuesFl A F b c m (pixZ p) = [] ∧ acc.minval p = none ∨
    ∃ x ∈ valuesFl A F b c m (pixZ p), acc.minval p = some x ∧ ∀ y ∈ valuesFl A F b c m (pixZ p), x ≤ y
  hi : valuesFl A F b c m (pixZ p) = [] ∧ acc.maxval p = none ∨
    ∃ x ∈ valuesFl A F b c m (pixZ p), acc.maxval p = some x ∧ ∀ y ∈ valuesFl A F b c m (pixZ p), y ≤ x

theorem avgBandFl_at {A : FloatArith K} {shape : Nat × Nat} {n : Nat} {F : Nat → TileFile K}
    (hin : ∀ j < n, ∀ c ∈ filePoints (F j), Inside shape c) (hnd : ∀ j < n, (filePoints (F j)).Nodup) {b : Nat}
    {c : Nat → Nat → K} {m : Nat} (hm : m ≤ n) {acc : MergeAcc K}
    (h : (List.range m).foldlM (avgBandFl A shape F b c) ⟨fun _ => 0, fun _ => 0, fun _ => none, fun _ => none⟩ = .ok acc)
    (p : Nat × Nat) : AccFl A F b c m acc p := by
  induction m generalizing acc with
  | zero =>
    simp only [List.range_zero, List.foldlM_nil, Pure.pure, Except.pure, Except.ok.injEq] at h
    subst h
    exact ⟨rfl, rfl, Or.inl ⟨rfl, rfl⟩, Or.inl ⟨rfl, rfl⟩⟩
  | succ m ih =>
    rw [List.range_succ, List.foldlM_append] at h
    cases h1 : (List.range m).foldlM (avgBandFl A shape F b c) ⟨fun _ => 0, fun _ => 0, fun _ => none, fun _ => none⟩ with
    | error e => rw [h1] at h; simp [Bind.bind, Except.bind] at h
    | ok acc0 =>
      have i0 := ih (by omega) h1
      rw [h1] at h
      have hmn : m < n := by omega
      obtain ⟨f1, f2, f3⟩ := pixelsOf_facts (hin m hmn) (hnd m hmn)
      simp only [Bind.bind, Except.bind, List.foldlM_cons, List.foldlM_nil, avgBandFl, pixelsOf_inside (hin m hmn),
        Pure.pure, Except.pure, Except.ok.injEq] at h
      set px := (filePoints (F m)).map fun c : ℤ × ℤ => (c.1.toNat, c.2.toNat) with hpx
      have hpl : px.length = (F m).points.length := by rw [hpx, List.length_map, filePoints_length]
      have hval : valuesFl A F b c (m + 1) (pixZ p) =
          valuesFl A F b c m (pixZ p) ++ (bandAtFl A F b c m (pixZ p)).toList := by
        unfold valuesFl
        rw [List.range_succ, List.filterMap_append]
        congr 1
      have hmod : modelFl A F b c (m + 1) (pixZ p) =
          (bandAtFl A F b c m (pixZ p)).elim (modelFl A F b c m (pixZ p)) fun v => A.fs (modelFl A F b c m (pixZ p) + v) := by
        unfold modelFl
        rw [List.range_succ, List.foldl_append, List.foldl_cons, List.foldl_nil]
      by_cases hp : pixZ p ∈ filePoints (F m)
      · have hp' := (f2 p).mpr hp
        have hk := List.idxOf_lt_length_iff.mpr hp'
        have hke : px[px.idxOf p]'hk = p := List.getElem_idxOf hk
        have hidx := f3 p hp
        set v := bandValueFl A F b c m (px.idxOf p) with hv
        have hband : bandAtFl A F b c m (pixZ p) = some v := by
          unfold bandAtFl
          rw [if_pos hp, hv, hidx]
        rw [hband] at hval hmod
        simp only [Option.toList_some, Option.elim_some] at hval hmod
        have g1 := fancySet_of_mem acc0.minval px (List.zipWith (fun p d => some ((acc0.minval p).elim d (min d))) px
          ((List.range (F m).points.length).map (bandValueFl A F b c m))) f1 (px.idxOf p) hk (by simp; omega)
        have g2 := fancySet_of_mem acc0.maxval px (List.zipWith (fun p d => some ((acc0.maxval p).elim d (max d))) px
          ((List.range (F m).points.length).map (bandValueFl A F b c m))) f1 (px.idxOf p) hk (by simp; omega)
        have g3 := fancySet_of_mem acc0.model px (List.zipWith (fun p d => A.fs (acc0.model p + d)) px
          ((List.range (F m).points.length).map (bandValueFl A F b c m))) f1 (px.idxOf p) hk (by simp; omega)
        have g4 := fancySet_of_mem acc0.cnt px (px.map fun p => acc0.cnt p + 1) f1 (px.idxOf p) hk (by simpa using hk)
        simp only [List.getElem_zipWith, List.getElem_map, List.getElem_range, hke, ← hv] at g1 g2 g3 g4
        subst h
        refine ⟨?_, ?_, ?_, ?_⟩
        · simp only [g4, hval, List.length_append, List.length_singleton, i0.cnt]
        · simp only [g3, hmod, i0.model]
        · right
          simp only [g1, hval]
          rcases i0.lo with ⟨e1, e2⟩ | ⟨x, hx, e1, e2⟩
          · exact ⟨v, by simp, by rw [e2]; rfl, by rw [e1]; simp⟩
          · rw [e1, Option.elim_some]
            refine ⟨min v x, ?_, rfl, ?_⟩
            · rcases min_choice v x with hc | hc <;> rw [hc]
              · simp
              · simp [hx]
            · intro y hy
              rw [List.mem_append, List.mem_singleton] at hy
              rcases hy with hy | rfl
              · exact (min_le_right _ _).trans (e2 y hy)
              · exact min_le_left _ _
        · right
          simp only [g2, hval]
          rcases i0.hi with ⟨e1, e2⟩ | ⟨x, hx, e1, e2⟩
          · exact ⟨v, by simp, by rw [e2]; rfl, by rw [e1]; simp⟩
          · rw [e1, Option.elim_some]
            refine ⟨max v x, ?_, rfl, ?_⟩
            · rcases max_choice v x with hc | hc <;> rw [hc]
              · simp
              · simp [hx]
            · intro y hy
              rw [List.mem_append, List.mem_singleton] at hy
              rcases hy with hy | rfl
              · exact (e2 y hy).trans (le_max_right _ _)
              · exact le_max_left _ _
      · have hp' : p ∉ px := fun hc => hp ((f2 p).mp hc)
        have hband : bandAtFl A F b c m (pixZ p) = none := by unfold bandAtFl; rw [if_neg hp]
        rw [hband] at hval hmod
        simp only [Option.toList_none, List.append_nil, Option.elim_none] at hval hmod
        subst h
        refine ⟨?_, ?_, ?_, ?_⟩
        · simp only [fancySet_of_not_mem _ _ _ _ hp', hval]; exact i0.cnt
        · simp only [fancySet_of_not_mem _ _ _ _ hp', hmod]; exact i0.model
        · simp only [fancySet_of_not_mem _ _ _ _ hp', hval]; exact i0.lo
        · simp only [fancySet_of_not_mem _ _ _ _ hp', hval]; exact i0.hi

theorem outBandFl_at {A : FloatArith K} {shape : Nat × Nat} {n : Nat} {F : Nat → TileFile K}
    (hin : ∀ j < n, ∀ c ∈ filePoints (F j), Inside shape c) (hnd : ∀ j < n, (filePoints (F j)).Nodup) {b : Nat}
    {mean : Nat × Nat → K} {m : Nat} (hm : m ≤ n) {arr : Nat × Nat → Option K}
    (h : (List.range m).foldlM (outBandFl A shape F b mean) (fun _ => none) = .ok arr) (p : Nat × Nat) :
    ((∀ j < m, pixZ p ∉ filePoints (F j)) → arr p = none) ∧
    ((∃ j < m, pixZ p ∈ filePoints (F j)) → ∃ j < m, pixZ p ∈ filePoints (F j) ∧
      arr p = some (wrapAround A (mean p) (A.fs (filePhase (F j) b ((filePoints (F j)).idxOf (pixZ p)))))) := by
  induction m generalizing arr with
  | zero =>
    simp only [List.range_zero, List.foldlM_nil, Pure.pure, Except.pure, Except.ok.injEq] at h
    subst h
    exact ⟨fun _ => rfl, fun ⟨j, hj, _⟩ => by omega⟩
  | succ m ih =>
    rw [List.range_succ, List.foldlM_append] at h
    cases h1 : (List.range m).foldlM (outBandFl A shape F b mean) (fun _ => none) with
    | error e => rw [h1] at h; simp [Bind.bind, Except.bind] at h
    | ok arr0 =>
      obtain ⟨i1, i2⟩ := ih (by omega) h1
      rw [h1] at h
      have hmn : m < n := by omega
      obtain ⟨f1, f2, f3⟩ := pixelsOf_facts (hin m hmn) (hnd m hmn)
      simp only [Bind.bind, Except.bind, List.foldlM_cons, List.foldlM_nil, outBandFl, pixelsOf_inside (hin m hmn),
        Pure.pure, Except.pure, Except.ok.injEq] at h
      set px := (filePoints (F m)).map fun c : ℤ × ℤ => (c.1.toNat, c.2.toNat) with hpx
      have hpl : px.length = (F m).points.length := by rw [hpx, List.length_map, filePoints_length]
      by_cases hp : pixZ p ∈ filePoints (F m)
      · have hp' := (f2 p).mpr hp
        have hk := List.idxOf_lt_length_iff.mpr hp'
        have hke : px[px.idxOf p]'hk = p := List.getElem_idxOf hk
        have hidx := f3 p hp
        have g1 := fancySet_of_mem arr0 px (List.zipWith (fun p x => some (wrapAround A (mean p) x)) px
          ((List.range (F m).points.length).map fun p => A.fs (filePhase (F m) b p))) f1 (px.idxOf p) hk (by simp; omega)
        simp only [List.getElem_zipWith, List.getElem_map, List.getElem_range, hke] at g1
        rw [hidx] at g1
        subst h
        exact ⟨fun hno => absurd hp (hno m (by omega)), fun _ => ⟨m, by omega, hp, g1⟩⟩
      · have hp' : p ∉ px := fun hc => hp ((f2 p).mp hc)
        subst h
        rw [fancySet_of_not_mem _ _ _ _ hp']
        refine ⟨fun hno => i1 fun j hj => hno j (by omega), fun ⟨j, hj, hjp⟩ => ?_⟩
        have hjm : j ≠ m := by rintro rfl; exact hp hjp
        obtain ⟨j', k1, k2, k3⟩ := i2 ⟨j, by omega, hjp⟩
        exact ⟨j', by omega, k2, k3⟩

theorem valuesFl_length (A : FloatArith K) (F : Nat → TileFile K) (b : Nat) (c : Nat → Nat → K) (n : Nat) (pix : ℤ × ℤ) :
    (valuesFl A F b c n pix).length = (covering n F pix).length := by
  unfold covering valuesFl
  generalize List.range n = l
  induction l with
  | nil => rfl
  | cons j l ih =>
    by_cases hp : pix ∈ filePoints (F j)
    · simp [bandAtFl, hp] at ih ⊢
      exact ih
    · simp [bandAtFl, hp] at ih ⊢
      exact ih

/-- What the rasters hold at one pixel. -/
theorem bandRasterFl_at {A : FloatArith K} {shape : Nat × Nat} {n : Nat} {F : Nat → TileFile K}
    (hin : ∀ j < n, ∀ c ∈ filePoints (F j), Inside shape c) (hnd : ∀ j < n, (filePoints (F j)).Nodup) {b : Nat}
    {c : Nat → Nat → K} {m : MergedBand K} (h : bandRasterFl A shape n F b c = .ok m) (r q : Nat) :
    ((∀ j < n, ((r : ℤ), (q : ℤ)) ∉ filePoints (F j)) →
      m.out.val r q = none ∧ m.diff.val r q = none ∧ m.model.val r q = none) ∧
    ((∃ j < n, ((r : ℤ), (q : ℤ)) ∈ filePoints (F j)) →
      ∃ mean, mean = A.fs (modelFl A F b c n ((r : ℤ), (q : ℤ)) / ((covering n F ((r : ℤ), (q : ℤ))).length : K)) ∧
      m.model.val r q = some mean ∧ ∃ j < n, ((r : ℤ), (q : ℤ)) ∈ filePoints (F j) ∧
      m.out.val r q = some (wrapAround A mean (A.fs (filePhase (F j) b ((filePoints (F j)).idxOf ((r : ℤ), (q : ℤ))))))) ∧
    ((covering n F ((r : ℤ), (q : ℤ))).length < 2 → m.diff.val r q = none) ∧
    (2 ≤ (covering n F ((r : ℤ), (q : ℤ))).length → ∃ lo ∈ valuesFl A F b c n ((r : ℤ), (q : ℤ)),
      ∃ hi ∈ valuesFl A F b c n ((r : ℤ), (q : ℤ)), (∀ x ∈ valuesFl A F b c n ((r : ℤ), (q : ℤ)), lo ≤ x ∧ x ≤ hi) ∧
      m.diff.val r q = some (A.fs (hi - lo))) := by
  unfold bandRasterFl at h
  cases h1 : (List.range n).foldlM (avgBandFl A shape F b c) ⟨fun _ => 0, fun _ => 0, fun _ => none, fun _ => none⟩ with
  | error e => rw [h1] at h; simp [Bind.bind, Except.bind] at h
  | ok acc =>
    rw [h1] at h
    simp only [Bind.bind, Except.bind] at h
    split at h
    · simp at h
    · rename_i arr harr
      simp only [Pure.pure, Except.pure, Except.ok.injEq] at h
      have ha := avgBandFl_at hin hnd le_rfl h1 (r, q)
      obtain ⟨o1, o2⟩ := outBandFl_at hin hnd le_rfl harr (r, q)
      have hpz : pixZ (r, q) = ((r : ℤ), (q : ℤ)) := rfl
      have hcnt : acc.cnt (r, q) = (covering n F ((r : ℤ), (q : ℤ))).length := by
        rw [ha.cnt, valuesFl_length, hpz]
      have hcov : (∃ j < n, ((r : ℤ), (q : ℤ)) ∈ filePoints (F j)) ↔ (covering n F ((r : ℤ), (q : ℤ))).length ≠ 0 := by
        constructor
        · rintro ⟨j, hj, hjp⟩ h0
          rw [List.length_eq_zero_iff] at h0
          have : j ∈ covering n F ((r : ℤ), (q : ℤ)) := by
            unfold covering
            simp only [List.mem_filter, List.mem_range, decide_eq_true_eq]
            exact ⟨hj, hjp⟩
          rw [h0] at this
          simp at this
        · intro h0
          obtain ⟨j, hj⟩ := List.exists_mem_of_length_pos (Nat.pos_of_ne_zero h0)
          unfold covering at hj
          simp only [List.mem_filter, List.mem_range, decide_eq_true_eq] at hj
          exact ⟨j, hj⟩
      have hlt : (covering n F ((r : ℤ), (q : ℤ))).length < 2 → m.diff.val r q = none := by
        intro hl
        rw [← h]
        simp only
        rw [if_pos (by rw [hcnt]; exact hl)]
      refine ⟨fun hno => ?_, fun hex => ?_, hlt, fun h2 => ?_⟩
      · have hz : (covering n F ((r : ℤ), (q : ℤ))).length = 0 := by
          by_contra hc
          obtain ⟨j, hj, hjp⟩ := hcov.mpr hc
          exact hno j hj hjp
        refine ⟨by rw [← h]; exact o1 hno, hlt (by omega), ?_⟩
        rw [← h]
        simp only
        rw [if_pos (by rw [hcnt]; exact hz)]
      · have hz := hcov.mp hex
        obtain ⟨j, hj, hjp, ho⟩ := o2 hex
        refine ⟨_, rfl, ?_, j, hj, hjp, ?_⟩
        · rw [← h]
          simp only
          rw [if_neg (by rw [hcnt]; exact hz), ha.model, hcnt, hpz]
        · rw [← h]
          simp only
          rw [ho, ha.model, hcnt, hpz]
      · rcases ha.lo with ⟨e, _⟩ | ⟨lo, hlo, l1, l2⟩
        · rw [hpz] at e
          have := valuesFl_length A F b c n ((r : ℤ), (q : ℤ))
          rw [e] at this
          simp only [List.length_nil] at this
          omega
        rcases ha.hi with ⟨e, _⟩ | ⟨hi, hhi, k1, k2⟩
        · rw [hpz] at e
          have := valuesFl_length A F b c n ((r : ℤ), (q : ℤ))
          rw [e] at this
          simp only [List.length_nil] at this
          omega
        refine ⟨lo, hlo, hi, hhi, fun x hx => ⟨l2 x hx, k2 x hx⟩, ?_⟩
        rw [← h]
        simp only
        rw [if_neg (by rw [hcnt]; omega), l1, k1]
        rfl

end

section
variable {K : Type} [Field K] [LinearOrder K] [IsStrictOrderedRing K] [FloorRing K]

omit [FloorRing K] in
/-- Difference of two rounded numbers and the like: `fs x` is near `y` when `x` is. -/
theorem fs_near {fs : K → K} {B η : K} (hfs : Rounds fs B η) {x y e : K} (h : |x - y| ≤ e) (hx : |x| ≤ B) :
    |fs x - y| ≤ e + η := by
  have h1 := hfs.close x hx
  have : fs x - y = (fs x - x) + (x - y) := by ring
  rw [this]
  exact (abs_add_le _ _).trans (by linarith)

/-- A tile value wrapped around a model value near the field is the field plus the right cycles. -/
theorem wrapAround_near {A : FloatArith K} {B η ε : K} (hfs : Rounds A.fs B η) (hη : 0 ≤ η) (hτ : 1 ≤ A.tauS)
    (hε : |A.tau - A.tauS| ≤ ε) {m x T E δ M k : K} {z : ℤ} (hm : |m - T| ≤ E) (hx : |x - (T + A.tau * (z : K))| ≤ δ)
    (hz : |(z : K)| ≤ k) (hT : |T| ≤ M) (hxM : |T + A.tau * (z : K)| ≤ M)
    (hhalf : k * ε + E + δ + 2 * η < 1 / 2) (hB : A.tauS * k + 2 * M + δ + E + 3 * η ≤ B) :
    |wrapAround A m x - T| ≤ δ + 4 * η + k * ε := by
  have hk : 0 ≤ k := (abs_nonneg _).trans hz
  have hM : 0 ≤ M := (abs_nonneg _).trans hT
  have hδ : 0 ≤ δ := (abs_nonneg _).trans hx
  have hE : 0 ≤ E := (abs_nonneg _).trans hm
  have hε0 : 0 ≤ ε := (abs_nonneg _).trans hε
  have hτ0 : 0 < A.tauS := by linarith
  have hτk : 0 ≤ A.tauS * k := mul_nonneg hτ0.le hk
  have hxr : |x| ≤ M + δ := by
    have := abs_add_le (x - (T + A.tau * (z : K))) (T + A.tau * (z : K))
    rw [sub_add_cancel] at this
    linarith
  have hmr : |m| ≤ M + E := by
    have := abs_add_le (m - T) T
    rw [sub_add_cancel] at this
    linarith
  have hxm : |x - m| ≤ 2 * M + δ + E := (abs_sub _ _).trans (by linarith)
  have hd1 : |(x - m) - A.tau * (z : K)| ≤ δ + E := by
    have : (x - m) - A.tau * (z : K) = (x - (T + A.tau * (z : K))) - (m - T) := by ring
    rw [this]
    exact (abs_sub _ _).trans (by linarith)
  have hd2 := fs_near hfs hd1 (by linarith)
  have hdx := hfs.close (x - m) (by linarith)
  unfold wrapAround
  simp only
  set d := A.fs (x - m) with hd
  have hzε : |(A.tau - A.tauS) * (z : K)| ≤ k * ε := by
    rw [abs_mul, mul_comm]
    exact mul_le_mul hz hε (abs_nonneg _) hk
  have hq1 : |d / A.tauS - (z : K)| ≤ k * ε + δ + E + η := by
    have e : d / A.tauS - (z : K) = ((d - A.tau * (z : K)) + (A.tau - A.tauS) * (z : K)) / A.tauS := by
      field_simp
      ring
    rw [e, abs_div, abs_of_pos hτ0, div_le_iff₀ hτ0]
    have h1 := abs_add_le (d - A.tau * (z : K)) ((A.tau - A.tauS) * (z : K))
    have h2 : k * ε + δ + E + η ≤ (k * ε + δ + E + η) * A.tauS := by
      refine le_mul_of_one_le_right ?_ hτ
      have := mul_nonneg hk hε0
      linarith
    linarith
  have hdB : |d| ≤ 2 * M + δ + E + η := by
    have := abs_add_le (d - (x - m)) (x - m)
    rw [sub_add_cancel] at this
    linarith
  have hqB : |d / A.tauS| ≤ B := by
    rw [abs_div, abs_of_pos hτ0]
    refine (div_le_self (abs_nonneg _) hτ).trans ?_
    linarith
  have hq2 := fs_near hfs hq1 hqB
  have hr : rint (A.fs (d / A.tauS)) = z := by
    have := abs_le.mp hq2
    exact rint_eq_of_lt (by linarith) (by linarith)
  rw [hr]
  have hs1 : |(m + d) - x| ≤ η := by
    have : (m + d) - x = d - (x - m) := by ring
    rw [this]; exact hdx
  have hsB : |m + d| ≤ B := by
    have := abs_add_le ((m + d) - x) x
    rw [sub_add_cancel] at this
    linarith
  have hs2 := fs_near hfs hs1 hsB
  have hzB : |A.tauS * (z : K)| ≤ A.tauS * k := by
    rw [abs_mul, abs_of_pos hτ0]
    exact mul_le_mul_of_nonneg_left hz hτ0.le
  have hz2 := hfs.close (A.tauS * (z : K)) (by linarith)
  set s := A.fs (m + d)
  set w := A.fs (A.tauS * (z : K))
  have hfin : |s - w - T| ≤ δ + 3 * η + k * ε := by
    have e : s - w - T = (s - x) - (w - A.tauS * (z : K)) + (x - (T + A.tau * (z : K))) + (A.tau - A.tauS) * (z : K) := by ring
    rw [e]
    refine (abs_add_le _ _).trans ?_
    have h1 := abs_add_le ((s - x) - (w - A.tauS * (z : K))) (x - (T + A.tau * (z : K)))
    have h2 := abs_sub (s - x) (w - A.tauS * (z : K))
    linarith
  have hfB : |s - w| ≤ B := by
    refine (abs_sub _ _).trans ?_
    have h1 := abs_add_le (s - x) x
    rw [sub_add_cancel] at h1
    have h2 := abs_add_le (w - A.tauS * (z : K)) (A.tauS * (z : K))
    rw [sub_add_cancel] at h2
    linarith
  have := fs_near hfs hfin hfB
  linarith

end

end Spurt
