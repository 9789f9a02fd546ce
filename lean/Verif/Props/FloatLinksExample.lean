import Verif.Props.FloatLinks

/-! # Non-vacuity of C78: double-precision arithmetic on the reals, and a search -/

namespace Spurt
open Spec Finset

/-- Rounding of a real number to 53 binary digits. -/
noncomputable def flReal (x : ℝ) : ℝ := (rint (x / (2 : ℝ) ^ (Int.log 2 |x| - 52)) : ℝ) * (2 : ℝ) ^ (Int.log 2 |x| - 52)

theorem flReal_rel (x : ℝ) : |flReal x - x| ≤ |x| / 2 ^ 53 := by
  unfold flReal
  rcases eq_or_ne x 0 with rfl | hx
  · simp [rint_zero]
  · have h1 := two_log_le_real (abs_pos.mpr hx)
    set e := Int.log 2 |x|
    have hu : (0 : ℝ) < (2 : ℝ) ^ (e - 52) := zpow_pos (by norm_num) _
    have e1 : (2 : ℝ) ^ e = (2 : ℝ) ^ 52 * (2 : ℝ) ^ (e - 52) := by
      rw [show ((2 : ℝ) ^ (52 : ℕ)) = (2 : ℝ) ^ (52 : ℤ) by norm_cast, ← zpow_add₀ (by norm_num)]
      congr 1; ring
    rw [e1] at h1
    set u := (2 : ℝ) ^ (e - 52)
    have hb := rint_abs (x / u)
    have hx' : x / u * u = x := div_mul_cancel₀ _ hu.ne'
    have : (rint (x / u) : ℝ) * u - x = -((x / u - (rint (x / u) : ℝ)) * u) := by rw [sub_mul, hx']; ring
    rw [this, abs_neg, abs_mul, abs_of_pos hu]
    have h2 : |x / u - (rint (x / u) : ℝ)| * u ≤ 1 / 2 * u := mul_le_mul_of_nonneg_right hb hu.le
    have h3 : |x| / 2 ^ 53 = |x| / 2 ^ 52 / 2 := by ring
    have h4 : u ≤ |x| / 2 ^ 52 := by rw [le_div_iff₀ (by positivity)]; linarith
    rw [h3]; linarith

theorem foldlReal_near (l : List ℝ) (acc : ℝ) :
    |l.foldl (fun a v => flReal (a + v)) acc - (acc + l.sum)| ≤
      ((1 + 1 / 2 ^ 53) ^ l.length - 1) * (|acc| + (l.map fun v => |v|).sum) := by
  induction l generalizing acc with
  | nil => simp
  | cons v l ih =>
    have h := ih (flReal (acc + v))
    have hr := flReal_rel (acc + v)
    have ha := abs_add_le acc v
    set a := flReal (acc + v)
    have hT : 0 ≤ (l.map fun v => |v|).sum := List.sum_nonneg (by simp)
    set T := (l.map fun v => |v|).sum
    simp only [List.foldl_cons, List.sum_cons, List.map_cons, List.length_cons]
    set F := l.foldl (fun a v => flReal (a + v)) a
    set P := ((1 : ℝ) + 1 / 2 ^ 53) ^ l.length
    have hP : 1 ≤ P := one_le_pow₀ (by norm_num)
    rw [pow_succ]
    have e : F - (acc + (v + l.sum)) = (F - (a + l.sum)) + (a - (acc + v)) := by ring
    have hrv : |a - (acc + v)| ≤ (|acc| + |v|) / 2 ^ 53 := hr.trans (by gcongr)
    have hav : |a| ≤ (1 + 1 / 2 ^ 53) * (|acc| + |v|) := by
      have e2 : a = (a - (acc + v)) + (acc + v) := by ring
      rw [e2]
      refine (abs_add_le _ _).trans ((add_le_add hrv ha).trans (le_of_eq (by ring)))
    rw [e]
    have h5 : (P - 1) * (|a| + T) ≤ (P - 1) * ((1 + 1 / 2 ^ 53) * (|acc| + |v|) + (1 + 1 / 2 ^ 53) * T) := by
      refine mul_le_mul_of_nonneg_left ?_ (by linarith)
      have : T ≤ (1 + 1 / 2 ^ 53) * T := le_mul_of_one_le_left hT (by norm_num)
      linarith
    have h6 : (0 : ℝ) ≤ T / 2 ^ 53 := by positivity
    refine (abs_add_le _ _).trans ((add_le_add (h.trans h5) hrv).trans ?_)
    have : (P * (1 + 1 / 2 ^ 53) - 1) * (|acc| + (|v| + T)) =
      (P - 1) * ((1 + 1 / 2 ^ 53) * (|acc| + |v|) + (1 + 1 / 2 ^ 53) * T) + (|acc| + |v|) / 2 ^ 53 + T / 2 ^ 53 := by ring
    rw [this]
    linarith

theorem pow_growth (k : Nat) (hk : k ≤ 2 ^ 52) : ((1 : ℝ) + 1 / 2 ^ 53) ^ k ≤ 1 + k / 2 ^ 52 := by
  induction k with
  | zero => norm_num
  | succ k ih =>
    have hk' : (k : ℝ) ≤ 2 ^ 52 := by exact_mod_cast (by omega : k ≤ 2 ^ 52)
    rw [pow_succ]
    have h := mul_le_mul_of_nonneg_right (ih (by omega)) (show (0 : ℝ) ≤ 1 + 1 / 2 ^ 53 by norm_num)
    refine h.trans ?_
    push_cast
    have : (k : ℝ) / 2 ^ 52 * (1 / 2 ^ 53) ≤ 1 / 2 ^ 53 := by
      have : (k : ℝ) / 2 ^ 52 ≤ 1 := by rw [div_le_one (by positivity)]; exact hk'
      exact mul_le_of_le_one_left (by norm_num) this
    norm_num at this ⊢
    linarith

/-- Double precision, adding up from the left. -/
noncomputable def doubleArith : LinkArith where
  fl := flReal
  cos x := flReal (Real.cos x)
  sin x := flReal (Real.sin x)
  hypot x y := flReal √(x ^ 2 + y ^ 2)
  sum l := l.foldl (fun a v => flReal (a + v)) 0
  dot l k := (List.zipWith (fun v w => flReal (v * w)) l k).foldl (fun a v => flReal (a + v)) 0

theorem zip_near (l k : List ℝ) :
    |(List.zipWith (fun v w => flReal (v * w)) l k).sum - (List.zipWith (· * ·) l k).sum| ≤
      (List.zipWith (fun v w => |v * w|) l k).sum / 2 ^ 53 ∧
    ((List.zipWith (fun v w => flReal (v * w)) l k).map fun v => |v|).sum ≤
      (1 + 1 / 2 ^ 53) * (List.zipWith (fun v w => |v * w|) l k).sum := by
  induction l generalizing k with
  | nil => simp
  | cons v l ih =>
    cases k with
    | nil => simp
    | cons w k =>
      obtain ⟨h1, h2⟩ := ih k
      have hr := flReal_rel (v * w)
      simp only [List.zipWith_cons_cons, List.sum_cons, List.map_cons]
      constructor
      · rw [add_sub_add_comm, add_div]
        exact (abs_add_le _ _).trans (add_le_add hr h1)
      · have e : flReal (v * w) = (flReal (v * w) - v * w) + v * w := by ring
        have : |flReal (v * w)| ≤ (1 + 1 / 2 ^ 53) * |v * w| := by
          rw [e]
          exact (abs_add_le _ _).trans ((add_le_add_left hr _).trans (le_of_eq (by ring)))
        rw [mul_add]
        exact add_le_add this h2

theorem sum_near (l : List ℝ) (hl : l.length ≤ 2 ^ 50) :
    |l.foldl (fun a v => flReal (a + v)) 0 - l.sum| ≤ l.length * (l.map fun v => |v|).sum / 2 ^ 52 := by
  have h := foldlReal_near l 0
  have hp := pow_growth l.length (hl.trans (by norm_num))
  have hT : 0 ≤ (l.map fun v => |v|).sum := List.sum_nonneg (by simp)
  rw [zero_add, abs_zero, zero_add] at h
  refine h.trans ((mul_le_mul_of_nonneg_right (by linarith : _ ≤ (l.length : ℝ) / 2 ^ 52) hT).trans (le_of_eq (by ring)))

theorem doubleArith_ok : LinkArithOk doubleArith where
  fl := flReal_rel
  cos x := (flReal_rel _).trans (by
    have := Real.abs_cos_le_one x
    rw [div_le_div_iff₀ (by positivity) (by positivity)]
    norm_num; linarith)
  sin x := (flReal_rel _).trans (by
    have := Real.abs_sin_le_one x
    rw [div_le_div_iff₀ (by positivity) (by positivity)]
    norm_num; linarith)
  hypot x y := (flReal_rel _).trans (by
    have := Real.sqrt_nonneg (x ^ 2 + y ^ 2)
    rw [abs_of_nonneg this, div_le_div_iff₀ (by positivity) (by positivity)]
    norm_num; linarith)
  sum := sum_near
  dot l k h1 h2 := by
    obtain ⟨z1, z2⟩ := zip_near l k
    have hlen : (List.zipWith (fun v w => flReal (v * w)) l k).length = l.length := by simp [h1]
    have hs := sum_near (List.zipWith (fun v w => flReal (v * w)) l k) (by rw [hlen]; exact h2)
    rw [hlen] at hs
    have hS : 0 ≤ (List.zipWith (fun v w => |v * w|) l k).sum :=
      List.sum_nonneg (by
        intro x hx
        obtain ⟨i, hi, rfl⟩ := List.mem_iff_getElem.mp hx
        rw [List.getElem_zipWith]
        exact abs_nonneg _)
    set S := (List.zipWith (fun v w => |v * w|) l k).sum
    set Q := (List.zipWith (fun v w => flReal (v * w)) l k)
    have hn : (l.length : ℝ) ≤ 2 ^ 50 := by exact_mod_cast h2
    have h3 : (l.length : ℝ) * (Q.map fun v => |v|).sum / 2 ^ 52 ≤ l.length * ((1 + 1 / 2 ^ 53) * S) / 2 ^ 52 := by gcongr
    have e : doubleArith.dot l k - (List.zipWith (· * ·) l k).sum =
      (Q.foldl (fun a v => flReal (a + v)) 0 - Q.sum) + (Q.sum - (List.zipWith (· * ·) l k).sum) := by
      simp only [doubleArith]; ring
    rw [e]
    refine (abs_add_le _ _).trans ((add_le_add (hs.trans h3) z1).trans ?_)
    have h4 : (l.length : ℝ) * S ≤ 2 ^ 50 * S := mul_le_mul_of_nonneg_right hn hS
    have : ((l.length : ℝ) + 1) * S / 2 ^ 52 - (l.length * ((1 + 1 / 2 ^ 53) * S) / 2 ^ 52 + S / 2 ^ 53) =
      (2 ^ 52 * S - l.length * S) / 2 ^ 105 := by ring
    have h5 : 0 ≤ (2 ^ 52 * S - l.length * S) / 2 ^ 105 := div_nonneg (by nlinarith) (by positivity)
    linarith

/-- A search that returns a best grid point. -/
theorem exists_brute_grid : ∃ brute : Brute, BruteOk brute ∧
    (∀ n f ranges x v, brute n f ranges = .ok (x, v) → Grid ranges n x) ∧
    ∀ n f ranges, (∃ x v, Grid ranges n x ∧ f x = .ok v ∧ ∀ p, Grid ranges n p → ∃ v', f p = .ok v' ∧ v ≤ v') →
      ∃ r, brute n f ranges = .ok r := by
  classical
  refine ⟨fun n f ranges =>
    if h : ∃ r : (Fin n → ℝ) × ℝ, Grid ranges n r.1 ∧ f r.1 = .ok r.2 ∧ ∀ p, Grid ranges n p → ∃ v', f p = .ok v' ∧ r.2 ≤ v' then
      .ok h.choose
    else .error .valueError, ?_, ?_, ?_⟩
  · intro n f ranges x v h
    simp only at h
    split at h
    · rename_i hex
      have := hex.choose_spec
      rw [Except.ok.inj h] at this
      exact this.2
    · cases h
  · intro n f ranges x v h
    simp only at h
    split at h
    · rename_i hex
      have := hex.choose_spec
      rw [Except.ok.inj h] at this
      exact this.1
    · cases h
  · rintro n f ranges ⟨x, v, h⟩
    exact ⟨_, dif_pos ⟨(x, v), h⟩⟩

/-- Two observations, one and two times a parameter that is searched at 0, 1 and 2. -/
noncomputable def searchModel : LinkModel := ⟨⟨2, 1, fun i _ => i + 1⟩, [⟨0, 3, 1⟩]⟩

theorem searchModel_grid (p : Fin 1 → ℝ) : Grid searchModel.ranges 1 p ↔ p 0 = 0 ∨ p 0 = 1 ∨ p 0 = 2 := by
  constructor
  · intro h
    obtain ⟨r, hr, k, h1, h2⟩ := h 0
    simp only [searchModel, Fin.val_zero, List.getElem?_cons_zero, Option.some.injEq] at hr
    subst hr
    norm_num at h2 h1
    rw [h1]
    have : k = 0 ∨ k = 1 ∨ k = 2 := by omega
    rcases this with rfl | rfl | rfl <;> norm_num
  · intro h j
    have hj : j = 0 := Subsingleton.elim _ _
    subst hj
    rcases h with h | h | h
    · exact ⟨⟨0, 3, 1⟩, rfl, 0, by rw [h]; norm_num, by norm_num⟩
    · exact ⟨⟨0, 3, 1⟩, rfl, 1, by rw [h]; norm_num, by norm_num⟩
    · exact ⟨⟨0, 3, 1⟩, rfl, 2, by rw [h]; norm_num, by norm_num⟩

/-- The data of parameter 2. -/
noncomputable def searchData : Arr1 := ⟨2, fun i => 2 * (i + 1)⟩

theorem searchModel_size (p : Fin 1 → ℝ) (h : Grid searchModel.ranges 1 p) : PhaseSize searchModel.matrix p searchData 8 := by
  intro i hi
  have hi' : i < 2 := hi
  have hp := (searchModel_grid p).mp h
  have e : (∑ j : Fin searchModel.matrix.cols, |searchModel.matrix.at i j * p j|) = |((i : ℝ) + 1) * p 0| := by
    show (∑ j : Fin 1, |((i : ℝ) + 1) * p j|) = _
    rw [Fin.sum_univ_one]
  rw [e]
  have : i = 0 ∨ i = 1 := by omega
  rcases this with rfl | rfl <;> rcases hp with hp | hp | hp <;> rw [hp] <;> norm_num [searchData]

/-- Non-vacuity of C78: a search in double precision with default weights for data that one of three grid points fits; it
returns, and what it returns is nearly perfect. -/
example : ∃ (brute : Brute) (x : Fin searchModel.matrix.cols → ℝ) (c : ℝ), BruteOk brute ∧
    searchModel.estimateModelFl doubleArith brute searchData (asWeights none) = .ok (x, c) ∧ |c - 1| ≤ 30 / 2 ^ 50 ∧
    ∃ θ : ℝ, ∀ i < 2, ∃ k : ℤ, (misfit searchModel.matrix x searchData i - θ - k * (2 * Real.pi)) ^ 2 ≤ Real.pi ^ 2 * 60 / 2 ^ 50 := by
  obtain ⟨brute, hB, hg, hr⟩ := exists_brute_grid
  have heq := estimateFl_eq doubleArith brute searchModel searchData none rfl (by rintro w ⟨⟩) (by norm_num [searchModel, LinkModel.nobs])
  have hv : ∀ p, Grid searchModel.ranges 1 p →
      ∃ v, negTemporalCoherenceFl doubleArith searchModel.matrix searchData (.one (usedWeights doubleArith searchModel.nobs none)) p = .ok v := by
    intro p hp
    obtain ⟨v, h, _⟩ := coh_used doubleArith_ok searchModel.matrix searchData none p rfl (by rintro w ⟨⟩)
      (by norm_num [searchModel]) (by norm_num [searchModel]) (by norm_num [searchModel]) 8 (by norm_num) (searchModel_size p hp)
    exact ⟨v, h⟩
  have hpt : ∀ t : ℝ, t = 0 ∨ t = 1 ∨ t = 2 → Grid searchModel.ranges 1 fun _ => t := fun t ht => (searchModel_grid _).mpr ht
  obtain ⟨v0, h0⟩ := hv _ (hpt 0 (by simp))
  obtain ⟨v1, h1⟩ := hv _ (hpt 1 (by simp))
  obtain ⟨v2, h2⟩ := hv _ (hpt 2 (by simp))
  have hall : ∀ v, v ≤ v0 → v ≤ v1 → v ≤ v2 → ∀ p, Grid searchModel.ranges 1 p → ∃ v',
      negTemporalCoherenceFl doubleArith searchModel.matrix searchData (.one (usedWeights doubleArith searchModel.nobs none)) p = .ok v' ∧
      v ≤ v' := by
    intro v b0 b1 b2 p hp
    have hc : ∀ t : ℝ, p 0 = t → p = fun _ => t := by
      intro t ht; funext j
      have hj : j = 0 := Subsingleton.elim _ _
      rw [hj, ht]
    rcases (searchModel_grid p).mp hp with h | h | h <;> rw [hc _ h]
    · exact ⟨v0, h0, b0⟩
    · exact ⟨v1, h1, b1⟩
    · exact ⟨v2, h2, b2⟩
  have hbest : ∃ x v, Grid searchModel.ranges 1 x ∧
      negTemporalCoherenceFl doubleArith searchModel.matrix searchData (.one (usedWeights doubleArith searchModel.nobs none)) x = .ok v ∧
      v ≤ v0 ∧ v ≤ v1 ∧ v ≤ v2 := by
    rcases le_total v0 v1 with a | a <;> rcases le_total v1 v2 with b | b <;> rcases le_total v0 v2 with c | c
    · exact ⟨_, v0, hpt 0 (by simp), h0, le_rfl, a, c⟩
    · exact ⟨_, v0, hpt 0 (by simp), h0, le_rfl, a, a.trans b⟩
    · exact ⟨_, v0, hpt 0 (by simp), h0, le_rfl, a, c⟩
    · exact ⟨_, v2, hpt 2 (by simp), h2, c, b, le_rfl⟩
    · exact ⟨_, v1, hpt 1 (by simp), h1, a, le_rfl, b⟩
    · exact ⟨_, v1, hpt 1 (by simp), h1, a, le_rfl, b⟩
    · exact ⟨_, v2, hpt 2 (by simp), h2, b.trans a, b, le_rfl⟩
    · exact ⟨_, v2, hpt 2 (by simp), h2, c, b, le_rfl⟩
  obtain ⟨x, v, hx, hxv, b0, b1, b2⟩ := hbest
  obtain ⟨r, hr⟩ := hr 1 (negTemporalCoherenceFl doubleArith searchModel.matrix searchData (.one (usedWeights doubleArith searchModel.nobs none)))
    searchModel.ranges ⟨x, v, hx, hxv, hall v b0 b1 b2⟩
  have hret : searchModel.estimateModelFl doubleArith brute searchData (asWeights none) = .ok (r.1, -r.2) := by
    rw [heq]
    unfold linkSolveFl
    have hr' : brute searchModel.matrix.cols (negTemporalCoherenceFl doubleArith searchModel.matrix searchData
      (.one (usedWeights doubleArith searchModel.nobs none))) searchModel.ranges = .ok r := hr
    rw [hr']
    rfl
  have hm0 : ∀ i, misfit searchModel.matrix (fun _ => (2 : ℝ)) searchData i = 0 := by
    intro i
    show (∑ j : Fin 1, ((i : ℝ) + 1) * 2) - 2 * ((i : ℝ) + 1) = 0
    rw [Fin.sum_univ_one]; ring
  have hd := C59_default_weights searchModel.nobs (by norm_num [searchModel, LinkModel.nobs])
  obtain ⟨c1, θ, c2⟩ := C78_perfect doubleArith_ok brute hB searchModel searchData none rfl (by rintro w ⟨⟩)
    (by norm_num [searchModel, LinkModel.nobs]) (by norm_num [searchModel, LinkModel.nobs]) (by norm_num [searchModel, LinkModel.ndim])
    hd.1 hd.2 r.1 (-r.2) hret (fun _ => 2) (hpt 2 (by simp)) ⟨0, fun i _ => ⟨0, by rw [hm0]; simp⟩⟩ 8 (by norm_num)
    (searchModel_size _ (hpt 2 (by simp))) (searchModel_size _ (hg _ _ _ _ _ hr))
  have he : cohError searchModel.nobs searchModel.ndim 1 8 = 30 / 2 ^ 50 := by
    norm_num [cohError, searchModel, LinkModel.nobs, LinkModel.ndim]
  rw [he] at c1 c2
  refine ⟨brute, r.1, -r.2, hB, hret, c1, θ, fun i hi => ?_⟩
  obtain ⟨k, hk⟩ := c2 i hi
  refine ⟨k, hk.trans (le_of_eq ?_)⟩
  simp only [weightOr, searchModel, LinkModel.nobs]
  norm_num
  ring

/-- Non-vacuity of `C78_value_matrix`: three rows of weights for the two observations of `searchModel`. -/
example : ∃ v, negTemporalCoherenceFl doubleArith searchModel.matrix searchData (.mat ⟨3, 2, fun k i => if k = i then 1 else 0⟩)
      (fun _ => 1) = .ok v ∧
    |-v - tempCoh 2 (fun i => ∑ k ∈ range 3, if k = i then 1 else 0) (misfit searchModel.matrix (fun _ => 1) searchData)| ≤
      cohError 6 1 2 8 := by
  have h := C78_value_matrix doubleArith_ok searchModel.matrix searchData ⟨3, 2, fun k i => if k = i then 1 else 0⟩ (fun _ => 1) rfl rfl
    (by norm_num [searchModel]) (by norm_num [searchModel]) 8 (by norm_num) (searchModel_size _ ((searchModel_grid _).mpr (by simp)))
  have e : ∑ k ∈ range 3, ∑ i ∈ range 2, |(if k = i then (1 : ℝ) else 0)| = 2 := by
    norm_num [sum_range_succ]
  obtain ⟨v, h1, h2⟩ := h
  refine ⟨v, h1, ?_⟩
  have h2' : _ ≤ cohError 6 1 (∑ k ∈ range 3, ∑ i ∈ range 2, |(if k = i then (1 : ℝ) else 0)|) 8 := h2
  rw [e] at h2'
  exact h2'

end Spurt
