import Verif.Lemmas.FloatLinks

/-!
# Property C78: the temporal coherence and the grid search in double precision; C17 in double precision
-/

namespace Spurt
open Spec Finset

/-! ### C17: the worker count in double precision -/

/-- C17. Rounding the quotient of quota and period to double precision does not change the number of CPUs, for quotas below
2⁵³ microseconds. -/
theorem C17_cpu_count_double (quota period : Option ℤ) (cpus : Nat) (hq : ∀ q, quota = some q → q < 2 ^ 53) :
    getCpuCountFl flDouble quota period cpus = getCpuCount quota period cpus := by
  match quota, period, hq with
  | none, _, _ => rfl
  | some q, none, _ => rfl
  | some q, some p, hq =>
    have hq := hq q rfl
    simp only [getCpuCountFl, getCpuCount]
    split
    · rename_i h
      obtain ⟨h1, h2⟩ := h
      have hp : (0 : ℚ) < p := by exact_mod_cast h2
      have hp1 : (1 : ℚ) ≤ p := by exact_mod_cast h2
      have hq0 : (0 : ℚ) < q := by exact_mod_cast h1
      have hqb : (q : ℚ) < 2 ^ 53 := by exact_mod_cast hq
      set x : ℚ := (q : ℚ) / p with hx
      have hx0 : 0 < x := div_pos hq0 hp
      have hxb : x < 2 ^ 53 := lt_of_le_of_lt (div_le_self hq0.le hp1) hqb
      have hc1 := Int.le_ceil x
      have hc2 := Int.ceil_lt_add_one x
      set n := ⌈x⌉
      have hn0 : 0 < n := Int.ceil_pos.mpr hx0
      have hnb : n ≤ 2 ^ 53 := Int.ceil_le.mpr (by exact_mod_cast hxb.le)
      rw [Int.ceil_eq_iff]
      constructor
      · have hr := (flDouble_rel hx0.le).1
        have e : x * p = q := div_mul_cancel₀ _ hp.ne'
        have hk : (n - 1) * p + 1 ≤ q := by
          have : ((n : ℚ) - 1) * p < q := by rw [← e]; exact mul_lt_mul_of_pos_right (by linarith) hp
          have : (n - 1) * p < q := by exact_mod_cast this
          omega
        have hk' : ((n : ℚ) - 1) * p + 1 ≤ q := by exact_mod_cast hk
        have : (n : ℚ) - 1 + 1 / p ≤ x := by
          rw [hx, le_div_iff₀ hp, add_mul, div_mul_cancel₀ _ hp.ne']; exact hk'
        have h3 : x * (1 / 2 ^ 53) < 1 / p := by
          rw [hx, div_mul_div_comm, mul_one, div_lt_div_iff₀ (by positivity) hp]
          nlinarith
        have e2 : x * (1 - 1 / 2 ^ 53) = x - x * (1 / 2 ^ 53) := by ring
        linarith
      · have h4 := flDouble_mono hc1
        have h5 := flDouble_rounding.2 n (by rw [abs_of_pos hn0]; exact_mod_cast hnb)
        rw [h5] at h4
        exact h4
    · rfl

/-- The bound is needed: one microsecond more than 2⁵³, in periods of one. -/
example : getCpuCountFl flDouble (some 9007199254740993) (some 1) 1 ≠ getCpuCount (some 9007199254740993) (some 1) 1 := by
  have h : flDouble (9007199254740993 : ℚ) = 9007199254740992 := by
    rw [flDouble_eval 53 (by norm_num) (by norm_num)]
    have : rint ((9007199254740993 : ℚ) / (2 : ℚ) ^ ((53 : ℤ) - 52)) = 4503599627370496 := by
      norm_num [rint]
    rw [this]
    norm_num
  norm_num [getCpuCountFl, getCpuCount, h]

example : getCpuCountFl flDouble (some 250000) (some 100000) 8 = 3 := by
  rw [C17_cpu_count_double _ _ _ (by rintro q ⟨⟩; norm_num)]
  norm_num [getCpuCount]

/-! ### C78 -/

theorem tempCoh_weights (m : Nat) (w w' φ : Nat → ℝ) :
    |tempCoh m w φ - tempCoh m w' φ| ≤ ∑ i ∈ range m, |w i - w' i| := by
  unfold tempCoh
  refine (abs_norm_sub_norm_le _ _).trans ?_
  rw [← sum_sub_distrib]
  refine (norm_sum_le _ _).trans (sum_le_sum fun i _ => ?_)
  rw [← sub_mul, norm_mul, Complex.norm_exp_ofReal_mul_I, mul_one, ← Complex.ofReal_sub, Complex.norm_real, Real.norm_eq_abs]

/-- C78. `neg_temporal_coherence` in double precision is minus the temporal coherence up to the rounding error. -/
theorem C78_value {A : LinkArith} (hA : LinkArithOk A) (a : Arr2) (b : Arr1) (w : Weights1) (x : Fin a.cols → ℝ)
    (hb : b.len = a.rows) (hw : WeightsFit a.rows w) (hm : a.rows ≤ 2 ^ 50) (hn : a.cols ≤ 2 ^ 50) (R : ℝ) (hR0 : 0 ≤ R)
    (hR : PhaseSize a x b R) :
    ∃ v, negTemporalCoherenceFl A a b (.one w) x = .ok v ∧
      |-v - tempCoh a.rows (weight w) (misfit a x b)| ≤ cohError a.rows a.cols (∑ i ∈ range a.rows, |weight w i|) R := by
  obtain ⟨v, h1, h2⟩ := cohFl_raw hA a b w x hb hw hm hn hR
  refine ⟨v, h1, h2.trans ?_⟩
  have hW : 0 ≤ ∑ i ∈ range a.rows, |weight w i| := sum_nonneg fun i _ => abs_nonneg _
  unfold cohError
  rw [div_le_div_iff₀ (by positivity) (by positivity)]
  have : (0 : ℝ) ≤ (a.cols + 2) * R := by positivity
  have h3 : (4 * a.rows + 12 + 2 * (a.cols + 2) * R : ℝ) ≤ 4 * (a.rows + 4 + (a.cols + 2) * R) := by linarith
  have := mul_le_mul_of_nonneg_left h3 hW
  norm_num
  linarith

/-- C78. With 2-D weights as wide as the observations, `neg_temporal_coherence` in double precision is minus the coherence where
observation `i` has the sum of column `i` of the weights, up to the rounding error of as many terms as there are weights. -/
theorem C78_value_matrix {A : LinkArith} (hA : LinkArithOk A) (a : Arr2) (b : Arr1) (w : Arr2) (x : Fin a.cols → ℝ)
    (hb : b.len = a.rows) (hw : w.cols = a.rows) (hm : w.rows * a.rows ≤ 2 ^ 50) (hn : a.cols ≤ 2 ^ 50) (R : ℝ) (hR0 : 0 ≤ R)
    (hR : PhaseSize a x b R) :
    ∃ v, negTemporalCoherenceFl A a b (.mat w) x = .ok v ∧
      |-v - tempCoh a.rows (fun i => ∑ k ∈ range w.rows, w.at k i) (misfit a x b)| ≤
        cohError (w.rows * a.rows) a.cols (∑ k ∈ range w.rows, ∑ i ∈ range a.rows, |w.at k i|) R := by
  obtain ⟨r, h1, h2, h3⟩ := linkResidual_near hA a b x hn hb hR
  have hflat : ∀ g : ℝ → ℝ, ((List.range w.rows).flatMap fun k => (List.range a.rows).map fun i =>
      A.fl (w.at k (axisIdx w.cols i) * g (r.at (axisIdx r.len i)))) =
      (List.range (w.rows * a.rows)).map fun t => A.fl (w.at (t / a.rows) (t % a.rows) * g (r.at (t % a.rows))) := by
    intro g
    rcases Nat.eq_zero_or_pos a.rows with h0 | h0
    · simp [h0]
    rw [flatMap_range (fun k i => A.fl (w.at k (axisIdx w.cols i) * g (r.at (axisIdx r.len i)))) _ h0]
    refine List.map_congr_left fun t _ => ?_
    have := Nat.mod_lt t h0
    rw [hw, h2, axisIdx_lt this]
  refine ⟨_, by simp only [negTemporalCoherenceFl, h1, Bind.bind, Except.bind, h2, hw, axisSize_self, pure, Except.pure]; rfl, ?_⟩
  have hf := fun g => hflat g
  rw [hw, h2] at hf
  rw [hf, hf, neg_neg]
  have key := phasors_near hA (w.rows * a.rows) hm (fun t => w.at (t / a.rows) (t % a.rows)) (fun t => r.at (t % a.rows))
    (fun t => misfit a x b (t % a.rows)) a.cols R (by
      intro t ht
      have h0 : 0 < a.rows := Nat.pos_of_ne_zero fun h => by simp [h] at ht
      exact h3 _ (Nat.mod_lt t h0))
  have hT : tempCoh (w.rows * a.rows) (fun t => w.at (t / a.rows) (t % a.rows)) (fun t => misfit a x b (t % a.rows)) =
      tempCoh a.rows (fun i => ∑ k ∈ range w.rows, w.at k i) (misfit a x b) := by
    unfold tempCoh
    rcases Nat.eq_zero_or_pos a.rows with h0 | h0
    · simp [h0]
    rw [sum_range_div_mod (fun k i => (w.at k i : ℂ) * Complex.exp ((misfit a x b i : ℂ) * Complex.I)) _ h0, sum_comm]
    congr 1
    refine sum_congr rfl fun i _ => ?_
    rw [Complex.ofReal_sum, sum_mul]
  have hS : ∑ t ∈ range (w.rows * a.rows), |w.at (t / a.rows) (t % a.rows)| = ∑ k ∈ range w.rows, ∑ i ∈ range a.rows, |w.at k i| := by
    rcases Nat.eq_zero_or_pos a.rows with h0 | h0
    · simp [h0]
    exact sum_range_div_mod (fun k i => |w.at k i|) _ h0 _
  rw [hT, hS] at key
  refine key.trans ?_
  have hW : 0 ≤ ∑ k ∈ range w.rows, ∑ i ∈ range a.rows, |w.at k i| := sum_nonneg fun _ _ => sum_nonneg fun _ _ => abs_nonneg _
  unfold cohError
  rw [div_le_div_iff₀ (by positivity) (by positivity)]
  have : (0 : ℝ) ≤ (a.cols + 2) * R := by positivity
  have h4 : (4 * (w.rows * a.rows : ℕ) + 12 + 2 * (a.cols + 2) * R : ℝ) ≤ 4 * ((w.rows * a.rows : ℕ) + 4 + (a.cols + 2) * R) := by linarith
  have := mul_le_mul_of_nonneg_left h4 hW
  norm_num at this ⊢
  linarith

/-- The weights used: those given, or the rounded `1 / m`. -/
noncomputable def usedWeights (A : LinkArith) (m : Nat) : Option Weights1 → Weights1
  | none => .scalar (A.fl (1 / (m : ℝ)))
  | some w => w

theorem coh_used {A : LinkArith} (hA : LinkArithOk A) (a : Arr2) (b : Arr1) (weights : Option Weights1) (x : Fin a.cols → ℝ)
    (hb : b.len = a.rows) (hw : ∀ w, weights = some w → WeightsFit a.rows w) (h0 : 0 < a.rows) (hm : a.rows ≤ 2 ^ 50)
    (hn : a.cols ≤ 2 ^ 50) (R : ℝ) (hR0 : 0 ≤ R) (hR : PhaseSize a x b R) :
    ∃ v, negTemporalCoherenceFl A a b (.one (usedWeights A a.rows weights)) x = .ok v ∧
      |-v - tempCoh a.rows (weightOr a.rows weights) (misfit a x b)| ≤
        cohError a.rows a.cols (∑ i ∈ range a.rows, |weightOr a.rows weights i|) R := by
  match weights, hw with
  | some w, hw => exact C78_value hA a b w x hb (hw w rfl) hm hn R hR0 hR
  | none, _ =>
    obtain ⟨v, h1, h2⟩ := cohFl_raw hA a b (.scalar (A.fl (1 / (a.rows : ℝ)))) x hb trivial hm hn hR
    refine ⟨v, h1, ?_⟩
    have hm0 : (0 : ℝ) < a.rows := by exact_mod_cast h0
    have hm' : (a.rows : ℝ) ≤ 2 ^ 50 := by exact_mod_cast hm
    have hf := hA.fl (1 / (a.rows : ℝ))
    rw [abs_of_pos (show (0 : ℝ) < 1 / a.rows by positivity)] at hf
    have ht := tempCoh_weights a.rows (weight (.scalar (A.fl (1 / (a.rows : ℝ))))) (weightOr a.rows none) (misfit a x b)
    simp only [weight, weightOr, sum_const, card_range, nsmul_eq_mul] at ht h2 ⊢
    have ht' : (a.rows : ℝ) * |A.fl (1 / (a.rows : ℝ)) - 1 / a.rows| ≤ 1 / 2 ^ 53 := by
      refine (mul_le_mul_of_nonneg_left hf hm0.le).trans (le_of_eq ?_)
      field_simp
    have hw1 : (a.rows : ℝ) * |A.fl (1 / (a.rows : ℝ))| ≤ 1 + 1 / 2 ^ 53 := by
      have e : A.fl (1 / (a.rows : ℝ)) = (A.fl (1 / (a.rows : ℝ)) - 1 / a.rows) + 1 / a.rows := by ring
      rw [e]
      have := mul_le_mul_of_nonneg_left (abs_add_le (A.fl (1 / (a.rows : ℝ)) - 1 / a.rows) (1 / (a.rows : ℝ))) hm0.le
      rw [mul_add, abs_of_pos (show (0 : ℝ) < 1 / a.rows by positivity), mul_one_div_cancel hm0.ne'] at this
      linarith
    rw [abs_of_pos (show (0 : ℝ) < 1 / a.rows by positivity), mul_one_div_cancel hm0.ne']
    set D := (4 * a.rows + 12 + 2 * (a.cols + 2) * R : ℝ) with hD
    have hcR : (0 : ℝ) ≤ (a.cols + 2) * R := by positivity
    have hD0 : 0 ≤ D := by rw [hD]; nlinarith
    have h3 := mul_le_mul_of_nonneg_right hw1 hD0
    have h4 : (a.rows : ℝ) * |A.fl (1 / (a.rows : ℝ))| * D / 2 ^ 52 ≤ (1 + 1 / 2 ^ 53) * D / 2 ^ 52 := by gcongr
    have e : -v - tempCoh a.rows (fun _ => 1 / (a.rows : ℝ)) (misfit a x b) =
      (-v - tempCoh a.rows (fun _ => A.fl (1 / (a.rows : ℝ))) (misfit a x b)) +
      (tempCoh a.rows (fun _ => A.fl (1 / (a.rows : ℝ))) (misfit a x b) -
        tempCoh a.rows (fun _ => 1 / (a.rows : ℝ)) (misfit a x b)) := by ring
    rw [e]
    refine (abs_add_le _ _).trans ((add_le_add (h2.trans h4) (ht.trans ht')).trans ?_)
    unfold cohError
    rw [hD]
    norm_num
    linarith

theorem estimateFl_eq (A : LinkArith) (brute : Brute) (M : LinkModel) (data : Arr1) (weights : Option Weights1)
    (hd : data.len = M.nobs) (hw : ∀ w, weights = some w → WeightsFit M.nobs w) (hn : 0 < M.nobs) :
    M.estimateModelFl A brute data (asWeights weights) =
      linkSolveFl A brute M.matrix M.ranges data (.one (usedWeights A M.nobs weights)) := by
  have hd0 : M.defaultWeightFl A = .ok (A.fl (1 / (M.nobs : ℝ))) := if_neg hn.ne'
  match weights, hw with
  | none, _ => simp only [asWeights, Option.map_none, LinkModel.estimateModelFl, hd0]; rfl
  | some (.scalar w), _ => rfl
  | some (.vec w), hw =>
    have hf := hw _ rfl
    simp only [WeightsFit] at hf
    simp only [asWeights, Option.map_some, LinkModel.estimateModelFl]
    rw [if_neg (by simp [hf, hd])]
    rfl

/-- C78. `estimate_model` in double precision: the coherence returned is that of the returned parameters up to the rounding
error there, and no grid point has a coherence that is larger by more than the rounding error at that point. -/
theorem C78_best {A : LinkArith} (hA : LinkArithOk A) (brute : Brute) (hB : BruteOk brute) (M : LinkModel) (data : Arr1)
    (weights : Option Weights1) (hd : data.len = M.nobs) (hw : ∀ w, weights = some w → WeightsFit M.nobs w)
    (hn : 0 < M.nobs) (hm : M.nobs ≤ 2 ^ 50) (hc : M.ndim ≤ 2 ^ 50) (x : Fin M.matrix.cols → ℝ) (c : ℝ)
    (h : M.estimateModelFl A brute data (asWeights weights) = .ok (x, c)) :
    (∀ R, 0 ≤ R → PhaseSize M.matrix x data R →
      |c - tempCoh M.nobs (weightOr M.nobs weights) (misfit M.matrix x data)| ≤
        cohError M.nobs M.ndim (∑ i ∈ range M.nobs, |weightOr M.nobs weights i|) R) ∧
    (∀ p R, Grid M.ranges M.matrix.cols p → 0 ≤ R → PhaseSize M.matrix p data R →
      tempCoh M.nobs (weightOr M.nobs weights) (misfit M.matrix p data) ≤
        c + cohError M.nobs M.ndim (∑ i ∈ range M.nobs, |weightOr M.nobs weights i|) R) := by
  rw [estimateFl_eq A brute M data weights hd hw hn] at h
  unfold linkSolveFl at h
  cases hb : brute M.matrix.cols (negTemporalCoherenceFl A M.matrix data (.one (usedWeights A M.nobs weights))) M.ranges with
  | error e => rw [hb] at h; simp [Bind.bind, Except.bind] at h
  | ok r =>
    rw [hb] at h
    simp only [Bind.bind, Except.bind, pure, Except.pure, Except.ok.injEq, Prod.mk.injEq] at h
    obtain ⟨rfl, rfl⟩ := h
    obtain ⟨h1, h2⟩ := hB _ _ _ _ _ hb
    constructor
    · intro R hR0 hR
      obtain ⟨v, e1, e2⟩ := coh_used hA M.matrix data weights r.1 hd hw hn hm hc R hR0 hR
      rw [show M.matrix.rows = M.nobs from rfl] at e1 e2
      rw [e1] at h1
      rw [← Except.ok.inj h1]
      exact e2
    · intro p R hp hR0 hR
      obtain ⟨v', g1, g2⟩ := h2 p hp
      obtain ⟨v, e1, e2⟩ := coh_used hA M.matrix data weights p hd hw hn hm hc R hR0 hR
      rw [show M.matrix.rows = M.nobs from rfl] at e1 e2
      rw [e1] at g1
      rw [← Except.ok.inj g1] at g2
      have := (abs_le.mp e2).1
      unfold LinkModel.ndim
      linarith

/-- A coherence near 1 means phases that are nearly equal up to whole cycles. -/
theorem near_perfect (m : Nat) (w φ : Nat → ℝ) (hw : ∀ i < m, 0 < w i) (hs : ∑ i ∈ range m, w i = 1) (η : ℝ)
    (h : 1 - η ≤ tempCoh m w φ) :
    ∃ θ : ℝ, ∀ i < m, ∃ k : ℤ, (φ i - θ - k * (2 * Real.pi)) ^ 2 ≤ Real.pi ^ 2 * η / (2 * w i) := by
  set Z : ℂ := ∑ i ∈ range m, (w i : ℂ) * Complex.exp ((φ i : ℂ) * Complex.I) with hZ
  have hn : tempCoh m w φ = ‖Z‖ := rfl
  refine ⟨Z.arg, fun i hi => ?_⟩
  have hre : ‖Z‖ = ∑ i ∈ range m, w i * Real.cos (φ i - Z.arg) := by
    have h1 : Complex.exp (-(Z.arg : ℂ) * Complex.I) * Z = (‖Z‖ : ℂ) := by
      conv_lhs => rw [← Complex.norm_mul_exp_arg_mul_I Z]
      rw [mul_left_comm, ← Complex.exp_add]
      simp
    have h2 : (Complex.exp (-(Z.arg : ℂ) * Complex.I) * Z).re = ∑ i ∈ range m, w i * Real.cos (φ i - Z.arg) := by
      rw [hZ, mul_sum, Complex.re_sum]
      refine sum_congr rfl fun i _ => ?_
      rw [mul_left_comm, ← Complex.exp_add, ← hZ]
      have : -(Z.arg : ℂ) * Complex.I + (φ i : ℂ) * Complex.I = ((φ i - Z.arg : ℝ) : ℂ) * Complex.I := by push_cast; ring
      rw [this, Complex.re_ofReal_mul, Complex.exp_ofReal_mul_I_re]
    rw [← h2, h1, Complex.ofReal_re]
  have hsum : ∑ i ∈ range m, w i * (1 - Real.cos (φ i - Z.arg)) ≤ η := by
    have : ∑ i ∈ range m, w i * (1 - Real.cos (φ i - Z.arg)) = 1 - ‖Z‖ := by
      calc _ = ∑ i ∈ range m, (w i - w i * Real.cos (φ i - Z.arg)) := sum_congr rfl fun i _ => by ring
        _ = _ := by rw [sum_sub_distrib, hs, hre]
    rw [this]; linarith
  have hi1 : w i * (1 - Real.cos (φ i - Z.arg)) ≤ η :=
    (single_le_sum (f := fun i => w i * (1 - Real.cos (φ i - Z.arg)))
      (fun j hj => mul_nonneg (hw j (mem_range.mp hj)).le (by linarith [Real.cos_le_one (φ j - Z.arg)]))
      (mem_range.mpr hi)).trans hsum
  set d := φ i - Z.arg
  refine ⟨round (d / (2 * Real.pi)), ?_⟩
  set k := round (d / (2 * Real.pi))
  have hpi := Real.pi_pos
  have hd : |d - k * (2 * Real.pi)| ≤ Real.pi := by
    have h1 := abs_sub_round (d / (2 * Real.pi))
    have e : d - k * (2 * Real.pi) = (d / (2 * Real.pi) - k) * (2 * Real.pi) := by
      field_simp
    rw [e, abs_mul, abs_of_pos (show 0 < 2 * Real.pi by positivity)]
    have := mul_le_mul_of_nonneg_right h1 (show 0 ≤ 2 * Real.pi by positivity)
    linarith
  have hc := Real.cos_le_one_sub_mul_cos_sq hd
  rw [Real.cos_sub_int_mul_two_pi] at hc
  have hwi := hw i hi
  rw [le_div_iff₀ (by positivity)]
  have h3 : w i * (2 / Real.pi ^ 2 * (d - k * (2 * Real.pi)) ^ 2) ≤ η :=
    (mul_le_mul_of_nonneg_left (by linarith) hwi.le).trans hi1
  have h4 := mul_le_mul_of_nonneg_left h3 (show 0 ≤ Real.pi ^ 2 by positivity)
  have e : Real.pi ^ 2 * (w i * (2 / Real.pi ^ 2 * (d - k * (2 * Real.pi)) ^ 2)) = (d - k * (2 * Real.pi)) ^ 2 * (2 * w i) := by
    field_simp
  linarith

/-- C78. If some grid point fits the data up to whole cycles and a common constant, the coherence returned is 1 up to the
rounding errors, and the parameters returned fit every observation up to whole cycles, a common constant and a small
misfit. -/
theorem C78_perfect {A : LinkArith} (hA : LinkArithOk A) (brute : Brute) (hB : BruteOk brute) (M : LinkModel) (data : Arr1)
    (weights : Option Weights1) (hd : data.len = M.nobs) (hw : ∀ w, weights = some w → WeightsFit M.nobs w)
    (hn : 0 < M.nobs) (hm : M.nobs ≤ 2 ^ 50) (hc : M.ndim ≤ 2 ^ 50)
    (hpos : ∀ i < M.nobs, 0 < weightOr M.nobs weights i) (hs : ∑ i ∈ range M.nobs, weightOr M.nobs weights i = 1)
    (x : Fin M.matrix.cols → ℝ) (c : ℝ) (h : M.estimateModelFl A brute data (asWeights weights) = .ok (x, c))
    (p : Fin M.matrix.cols → ℝ) (hp : Grid M.ranges M.matrix.cols p)
    (hfit : SameUpToConstant M.nobs (misfit M.matrix p data) fun _ => 0)
    (R : ℝ) (hR0 : 0 ≤ R) (hRp : PhaseSize M.matrix p data R) (hRx : PhaseSize M.matrix x data R) :
    |c - 1| ≤ cohError M.nobs M.ndim 1 R ∧
    ∃ θ : ℝ, ∀ i < M.nobs, ∃ k : ℤ, (misfit M.matrix x data i - θ - k * (2 * Real.pi)) ^ 2 ≤
      Real.pi ^ 2 * cohError M.nobs M.ndim 1 R / weightOr M.nobs weights i := by
  obtain ⟨h1, h2⟩ := C78_best hA brute hB M data weights hd hw hn hm hc x c h
  have hW : ∑ i ∈ range M.nobs, |weightOr M.nobs weights i| = 1 := by
    rw [← hs]
    exact sum_congr rfl fun i hi => abs_of_pos (hpos i (mem_range.mp hi))
  rw [hW] at h1 h2
  have a1 := h1 R hR0 hRx
  have a2 := h2 p R hp hR0 hRp
  rw [C52_perfect _ _ _ hs hfit] at a2
  have a3 := C52_range M.nobs (weightOr M.nobs weights) (misfit M.matrix x data) (fun i hi => (hpos i hi).le) hs
  set E := cohError M.nobs M.ndim 1 R
  obtain ⟨b1, b2⟩ := abs_le.mp a1
  refine ⟨abs_le.mpr ⟨by linarith, by linarith [a3.2]⟩, ?_⟩
  obtain ⟨θ, hθ⟩ := near_perfect M.nobs (weightOr M.nobs weights) (misfit M.matrix x data) hpos hs (2 * E) (by linarith)
  refine ⟨θ, fun i hi => ?_⟩
  obtain ⟨k, hk⟩ := hθ i hi
  refine ⟨k, hk.trans (le_of_eq ?_)⟩
  have := (hpos i hi).ne'
  field_simp

/-- C78. `estimate_model_many` in double precision gives for each column what `estimate_model` gives for it, for every worker
count and completion order, and raises exactly if that does for some column; so C78 holds for each column. The weights are
scalar, 1-D or default, see C51. -/
theorem C78_many (A : LinkArith) (brute : Brute) (M : LinkModel) (cpu : ℤ) (order : List Nat → List Nat) (data : Arr2)
    (weights : Option Weights1) (workers : Option ℤ) (ho : ∀ l, (order l).Perm l) (hd : data.rows = M.nobs)
    (hw : ∀ w, weights = some w → WeightsFit M.nobs w) (hn : 0 < M.nobs) :
    (∀ r : Nat → (Fin M.matrix.cols → ℝ) × ℝ,
      (∀ i < data.cols, M.estimateModelFl A brute (data.col i) (asWeights weights) = .ok (r i)) →
      ∃ s, M.estimateModelManyFl A brute cpu order data (asWeights weights) workers = .ok s ∧
        ∀ i < data.cols, s.params i = (r i).1 ∧ s.tcoh i = (r i).2) ∧
    ((∃ i < data.cols, ∃ e, M.estimateModelFl A brute (data.col i) (asWeights weights) = .error e) →
      ∃ i < data.cols, ∃ e, M.estimateModelFl A brute (data.col i) (asWeights weights) = .error e ∧
        M.estimateModelManyFl A brute cpu order data (asWeights weights) workers = .error e) := by
  have heq : ∀ i, M.estimateModelFl A brute (data.col i) (asWeights weights) =
      linkSolveFl A brute M.matrix M.ranges (data.col i) (.one (usedWeights A M.nobs weights)) :=
    fun i => estimateFl_eq A brute M (data.col i) weights hd hw hn
  have hfit : WeightsFit M.nobs (usedWeights A M.nobs weights) := by
    match weights, hw with
    | none, _ => trivial
    | some w, hw => exact hw w rfl
  have heq' : ∀ i, M.estimateModelFl A brute (data.col i) (some (.one (usedWeights A M.nobs weights))) =
      M.estimateModelFl A brute (data.col i) (asWeights weights) := by
    intro i
    rw [heq]
    exact estimateFl_eq A brute M (data.col i) (some (usedWeights A M.nobs weights)) hd (by rintro w ⟨⟩; exact hfit) hn
  have hmany : M.manyWeightsFl A data (asWeights weights) = .ok (.one (usedWeights A M.nobs weights)) := by
    have hd0 : M.defaultWeightFl A = .ok (A.fl (1 / (M.nobs : ℝ))) := if_neg hn.ne'
    match weights, hw with
    | none, _ => simp only [asWeights, Option.map_none, LinkModel.manyWeightsFl, hd0]; rfl
    | some (.scalar w), _ => rfl
    | some (.vec w), hw =>
      have := hw _ rfl
      simp only [WeightsFit] at this
      exact if_neg (by simpa using this)
  have key : ∃ l, (l = List.range data.cols ∨ l = order (List.range data.cols)) ∧
      M.estimateModelManyFl A brute cpu order data (asWeights weights) workers =
      l.foldlM (fun s i => do let r ← M.estimateModelFl A brute (data.col i) (asWeights weights); pure (ManyResult.put s i r))
        ⟨fun _ _ => 0, fun _ => 0⟩ := by
    unfold LinkModel.estimateModelManyFl
    rw [if_neg (by simpa using hd), hmany]
    simp only [Bind.bind, Except.bind]
    split
    · refine ⟨_, Or.inl rfl, ?_⟩
      congr 1
      funext s i
      rw [heq' i]
    · refine ⟨_, Or.inr rfl, ?_⟩
      congr 1
      funext s i
      rw [heq i]
  obtain ⟨l, hl, h⟩ := key
  have hmem : ∀ i, i ∈ l ↔ i < data.cols := by
    intro i
    rcases hl with rfl | rfl
    · exact List.mem_range
    · rw [(ho _).mem_iff, List.mem_range]
  rw [h]
  obtain ⟨f1, f2⟩ := fold_many (fun i => M.estimateModelFl A brute (data.col i) (asWeights weights)) l ⟨fun _ _ => 0, fun _ => 0⟩
  refine ⟨fun r hr => ?_, ?_⟩
  · obtain ⟨s, h1, h2, _⟩ := f1 r fun i hi => hr i ((hmem i).mp hi)
    exact ⟨s, h1, fun i hi => h2 i ((hmem i).mpr hi)⟩
  · rintro ⟨i, hi, e, he⟩
    obtain ⟨j, hj, e', h1, h2⟩ := f2 ⟨i, (hmem i).mpr hi, e, he⟩
    exact ⟨j, (hmem j).mp hj, e', h1, h2⟩

end Spurt
