import Verif.Spec.FloatLinks
import Verif.Props.Links
import Verif.Lemmas.RealDouble
import Mathlib.Tactic.Linarith
import Mathlib.Tactic.GCongr
import Mathlib.Tactic.NormNum.Abs
import Mathlib.Analysis.SpecialFunctions.Trigonometric.Bounds

/-! # Rounding errors of the temporal coherence -/

namespace Spurt
open Spec Finset

theorem finRange_sum {n : Nat} (f : Fin n → ℝ) : ((List.finRange n).map f).sum = ∑ j, f j := by
  rw [← List.ofFn_eq_map, List.sum_ofFn]

theorem range_sum (n : Nat) (f : Nat → ℝ) : ((List.range n).map f).sum = ∑ i ∈ range n, f i := by
  rw [Finset.sum_range, ← List.sum_ofFn, List.ofFn_eq_map, ← List.map_coe_finRange_eq_range, List.map_map]
  rfl

theorem dotFl_near {A : LinkArith} (hA : LinkArithOk A) (a : Arr2) (x : Fin a.cols → ℝ) (hn : a.cols ≤ 2 ^ 50) (i : Nat) :
    |a.dotFl A x i - a.dot x i| ≤ (a.cols + 1) * (∑ j : Fin a.cols, |a.at i j * x j|) / 2 ^ 52 := by
  have h := hA.dot ((List.finRange a.cols).map fun j : Fin a.cols => a.at i j.1) ((List.finRange a.cols).map x) (by simp) (by simpa using hn)
  rw [List.zipWith_map, List.zipWith_map, List.zipWith_self, List.zipWith_self, finRange_sum, finRange_sum] at h
  have e : (((List.finRange a.cols).map fun j : Fin a.cols => a.at i j.1).length : ℝ) = a.cols := by simp
  rw [e] at h
  exact h

theorem linkResidual_near {A : LinkArith} (hA : LinkArithOk A) (a : Arr2) (b : Arr1) (x : Fin a.cols → ℝ) (hn : a.cols ≤ 2 ^ 50)
    (hb : b.len = a.rows) {R : ℝ} (hR : PhaseSize a x b R) :
    ∃ r, residualFl A a x b = .ok r ∧ r.len = a.rows ∧
      ∀ i < a.rows, |r.at i - misfit a x b i| ≤ (a.cols + 2) * R / 2 ^ 52 := by
  refine ⟨⟨a.rows, fun i => A.fl (a.dotFl A x (axisIdx a.rows i) - b.at (axisIdx b.len i))⟩, ?_, rfl, fun i hi => ?_⟩
  · simp only [residualFl, hb, axisSize_self]; rfl
  · simp only [hb, axisIdx_lt hi]
    have h1 := dotFl_near hA a x hn i
    have h2 := hA.fl (a.dotFl A x i - b.at i)
    have h3 := hR i hi
    have hm : misfit a x b i = a.dot x i - b.at i := rfl
    have h0 : |a.dot x i| ≤ ∑ j : Fin a.cols, |a.at i j * x j| := Finset.abs_sum_le_sum_abs _ _
    set S := ∑ j : Fin a.cols, |a.at i j * x j|
    set D := a.dotFl A x i
    have hS : 0 ≤ S := le_trans (abs_nonneg _) h0
    have hb0 := abs_nonneg (b.at i)
    have hc : (a.cols : ℝ) ≤ 2 ^ 50 := by exact_mod_cast hn
    have hc0 : (0 : ℝ) ≤ a.cols := Nat.cast_nonneg _
    have h4 : |D - b.at i| ≤ 2 * R := by
      have e1 : |D - b.at i| ≤ |D - a.dot x i| + (|a.dot x i| + |b.at i|) := by
        have : D - b.at i = (D - a.dot x i) + (a.dot x i - b.at i) := by ring
        rw [this]
        exact (abs_add_le _ _).trans (by linarith [abs_sub (a.dot x i) (b.at i)])
      have e2 : (a.cols + 1) * S / 2 ^ 52 ≤ S := by
        rw [div_le_iff₀ (by positivity)]
        nlinarith
      linarith
    have e : A.fl (D - b.at i) - misfit a x b i = (A.fl (D - b.at i) - (D - b.at i)) + (D - a.dot x i) := by rw [hm]; ring
    rw [e]
    have h5 : (a.cols + 1) * S ≤ (a.cols + 1) * R := mul_le_mul_of_nonneg_left (by linarith) (by linarith)
    calc _ ≤ |D - b.at i| / 2 ^ 53 + (a.cols + 1) * S / 2 ^ 52 := (abs_add_le _ _).trans (add_le_add h2 h1)
      _ ≤ 2 * R / 2 ^ 53 + (a.cols + 1) * R / 2 ^ 52 := by gcongr
      _ = (a.cols + 2) * R / 2 ^ 52 := by ring

/-- One part (real or imaginary) of the weighted sum of phasors. -/
theorem part_near {A : LinkArith} (hA : LinkArithOk A) (g f : ℝ → ℝ) (hg : ∀ x, |g x - f x| ≤ 1 / 2 ^ 52) (hf1 : ∀ x, |f x| ≤ 1)
    (hf : ∀ x y, |f x - f y| ≤ |x - y|) (m : Nat) (hm : m ≤ 2 ^ 50) (w r φ : Nat → ℝ) (δ : ℝ)
    (hr : ∀ i < m, |r i - φ i| ≤ δ) :
    |A.sum ((List.range m).map fun i => A.fl (w i * g (r i))) - ∑ i ∈ range m, w i * f (φ i)| ≤
      (∑ i ∈ range m, |w i|) * (δ + (2 * m + 2) / 2 ^ 52) ∧
    |A.sum ((List.range m).map fun i => A.fl (w i * g (r i)))| ≤ (∑ i ∈ range m, |w i|) * 4 := by
  have hg1 : ∀ x, |g x| ≤ 1 + 1 / 2 ^ 52 := by
    intro x
    have : g x = (g x - f x) + f x := by ring
    rw [this]
    exact (abs_add_le _ _).trans (by linarith [hg x, hf1 x])
  have t1 : ∀ i, |A.fl (w i * g (r i)) - w i * g (r i)| ≤ |w i| * (1 / 2 ^ 52) := by
    intro i
    refine (hA.fl _).trans ?_
    rw [abs_mul, mul_div_assoc]
    refine mul_le_mul_of_nonneg_left ?_ (abs_nonneg _)
    have := hg1 (r i)
    rw [div_le_iff₀ (by positivity)]
    norm_num at this ⊢
    linarith
  have t2 : ∀ i, |A.fl (w i * g (r i))| ≤ |w i| * 2 := by
    intro i
    have e : A.fl (w i * g (r i)) = (A.fl (w i * g (r i)) - w i * g (r i)) + w i * g (r i) := by ring
    rw [e]
    refine (abs_add_le _ _).trans ?_
    have h2 : |w i * g (r i)| ≤ |w i| * (1 + 1 / 2 ^ 52) := by
      rw [abs_mul]; exact mul_le_mul_of_nonneg_left (hg1 _) (abs_nonneg _)
    have h3 := t1 i
    have h4 := abs_nonneg (w i)
    calc _ ≤ |w i| * (1 / 2 ^ 52) + |w i| * (1 + 1 / 2 ^ 52) := add_le_add h3 h2
      _ = |w i| * (1 + 2 / 2 ^ 52) := by ring
      _ ≤ _ := mul_le_mul_of_nonneg_left (by norm_num) h4
  have t3 : ∀ i < m, |A.fl (w i * g (r i)) - w i * f (φ i)| ≤ |w i| * (δ + 2 / 2 ^ 52) := by
    intro i hi
    have e : A.fl (w i * g (r i)) - w i * f (φ i) =
        (A.fl (w i * g (r i)) - w i * g (r i)) + w i * ((g (r i) - f (r i)) + (f (r i) - f (φ i))) := by ring
    rw [e]
    refine (abs_add_le _ _).trans ?_
    have h2 : |w i * ((g (r i) - f (r i)) + (f (r i) - f (φ i)))| ≤ |w i| * (1 / 2 ^ 52 + δ) := by
      rw [abs_mul]
      refine mul_le_mul_of_nonneg_left ((abs_add_le _ _).trans (add_le_add (hg _) ((hf _ _).trans (hr i hi)))) (abs_nonneg _)
    calc _ ≤ |w i| * (1 / 2 ^ 52) + |w i| * (1 / 2 ^ 52 + δ) := add_le_add (t1 i) h2
      _ = _ := by ring
  have hs := hA.sum ((List.range m).map fun i => A.fl (w i * g (r i))) (by simpa using hm)
  rw [List.map_map, range_sum, List.length_map, List.length_range] at hs
  have hcomp : ((List.range m).map ((fun v => |v|) ∘ fun i => A.fl (w i * g (r i)))).sum =
      ∑ i ∈ range m, |A.fl (w i * g (r i))| := range_sum m _
  rw [hcomp] at hs
  have h1 : ∑ i ∈ range m, |A.fl (w i * g (r i))| ≤ (∑ i ∈ range m, |w i|) * 2 := by
    rw [Finset.sum_mul]; exact Finset.sum_le_sum fun i _ => t2 i
  have h2 : |(∑ i ∈ range m, A.fl (w i * g (r i))) - ∑ i ∈ range m, w i * f (φ i)| ≤
      (∑ i ∈ range m, |w i|) * (δ + 2 / 2 ^ 52) := by
    rw [← Finset.sum_sub_distrib, Finset.sum_mul]
    exact (Finset.abs_sum_le_sum_abs _ _).trans (Finset.sum_le_sum fun i hi => t3 i (mem_range.mp hi))
  constructor
  · set S := A.sum ((List.range m).map fun i => A.fl (w i * g (r i)))
    have e : S - ∑ i ∈ range m, w i * f (φ i) =
      (S - ∑ i ∈ range m, A.fl (w i * g (r i))) + ((∑ i ∈ range m, A.fl (w i * g (r i))) - ∑ i ∈ range m, w i * f (φ i)) := by ring
    rw [e]
    refine (abs_add_le _ _).trans ((add_le_add hs h2).trans ?_)
    have : (m : ℝ) * ∑ i ∈ range m, |A.fl (w i * g (r i))| ≤ m * ((∑ i ∈ range m, |w i|) * 2) :=
      mul_le_mul_of_nonneg_left h1 (Nat.cast_nonneg _)
    calc _ ≤ m * ((∑ i ∈ range m, |w i|) * 2) / 2 ^ 52 + (∑ i ∈ range m, |w i|) * (δ + 2 / 2 ^ 52) := by gcongr
      _ = _ := by ring
  · set S := A.sum ((List.range m).map fun i => A.fl (w i * g (r i)))
    have e : S = (S - ∑ i ∈ range m, A.fl (w i * g (r i))) + ∑ i ∈ range m, A.fl (w i * g (r i)) := by ring
    have h3 : |∑ i ∈ range m, A.fl (w i * g (r i))| ≤ ∑ i ∈ range m, |A.fl (w i * g (r i))| := Finset.abs_sum_le_sum_abs _ _
    have hm' : (m : ℝ) ≤ 2 ^ 50 := by exact_mod_cast hm
    set Q := ∑ i ∈ range m, |A.fl (w i * g (r i))|
    have hQ : 0 ≤ Q := le_trans (abs_nonneg _) h3
    have h4 : m * Q / 2 ^ 52 ≤ Q := by
      rw [div_le_iff₀ (by positivity)]
      nlinarith
    rw [e]
    refine (abs_add_le _ _).trans ?_
    linarith

theorem hypot_close (x y x' y' : ℝ) : |√(x ^ 2 + y ^ 2) - √(x' ^ 2 + y' ^ 2)| ≤ |x - x'| + |y - y'| := by
  have h : ∀ a b : ℝ, √(a ^ 2 + b ^ 2) = ‖(⟨a, b⟩ : ℂ)‖ := by
    intro a b
    rw [Complex.norm_def, Complex.normSq_mk]
    congr 1; ring
  rw [h, h]
  refine (abs_norm_sub_norm_le _ _).trans ?_
  have := Complex.norm_le_abs_re_add_abs_im ((⟨x, y⟩ : ℂ) - ⟨x', y'⟩)
  simpa using this

/-- The length of the weighted sum of phasors, computed from slightly wrong phases. -/
theorem phasors_near {A : LinkArith} (hA : LinkArithOk A) (m : Nat) (hm : m ≤ 2 ^ 50) (w r φ : Nat → ℝ) (n : Nat) (R : ℝ)
    (h3 : ∀ i < m, |r i - φ i| ≤ (n + 2) * R / 2 ^ 52) :
    |A.hypot (A.sum ((List.range m).map fun i => A.fl (w i * A.cos (r i))))
      (A.sum ((List.range m).map fun i => A.fl (w i * A.sin (r i)))) - tempCoh m w φ| ≤
        (∑ i ∈ range m, |w i|) * (4 * m + 12 + 2 * (n + 2) * R) / 2 ^ 52 := by
  rw [tempCoh_eq]
  obtain ⟨c1, c2⟩ := part_near hA A.cos Real.cos hA.cos Real.abs_cos_le_one Real.abs_cos_sub_cos_le m hm w r φ _ h3
  obtain ⟨s1, s2⟩ := part_near hA A.sin Real.sin hA.sin Real.abs_sin_le_one Real.abs_sin_sub_sin_le m hm w r φ _ h3
  set T1 := A.sum ((List.range m).map fun i => A.fl (w i * A.cos (r i)))
  set T2 := A.sum ((List.range m).map fun i => A.fl (w i * A.sin (r i)))
  set t1 := ∑ i ∈ range m, w i * Real.cos (φ i)
  set t2 := ∑ i ∈ range m, w i * Real.sin (φ i)
  set W := ∑ i ∈ range m, |w i|
  have hW : 0 ≤ W := Finset.sum_nonneg fun i _ => abs_nonneg _
  have hh := hA.hypot T1 T2
  have hc := hypot_close T1 T2 t1 t2
  have h0 := hypot_close T1 T2 0 0
  rw [show ((0 : ℝ) ^ 2 + 0 ^ 2) = 0 by norm_num, Real.sqrt_zero, sub_zero, sub_zero, sub_zero] at h0
  have hq : √(T1 ^ 2 + T2 ^ 2) ≤ 8 * W := by
    have := (abs_le.mp h0).2
    linarith
  have hb1 : √(T1 ^ 2 + T2 ^ 2) / 2 ^ 52 ≤ 8 * W / 2 ^ 52 := by gcongr
  have e : A.hypot T1 T2 - √(t1 ^ 2 + t2 ^ 2) = (A.hypot T1 T2 - √(T1 ^ 2 + T2 ^ 2)) + (√(T1 ^ 2 + T2 ^ 2) - √(t1 ^ 2 + t2 ^ 2)) := by
    ring
  rw [e]
  refine (abs_add_le _ _).trans ((add_le_add (hh.trans hb1) (hc.trans (add_le_add c1 s1))).trans (le_of_eq ?_))
  ring

/-- The computed value, for weights given as numbers. -/
theorem cohFl_raw {A : LinkArith} (hA : LinkArithOk A) (a : Arr2) (b : Arr1) (w : Weights1) (x : Fin a.cols → ℝ)
    (hb : b.len = a.rows) (hw : WeightsFit a.rows w) (hm : a.rows ≤ 2 ^ 50) (hn : a.cols ≤ 2 ^ 50) {R : ℝ}
    (hR : PhaseSize a x b R) :
    ∃ v, negTemporalCoherenceFl A a b (.one w) x = .ok v ∧
      |-v - tempCoh a.rows (weight w) (misfit a x b)| ≤
        (∑ i ∈ range a.rows, |weight w i|) * (4 * a.rows + 12 + 2 * (a.cols + 2) * R) / 2 ^ 52 := by
  obtain ⟨r, h1, h2, h3⟩ := linkResidual_near hA a b x hn hb hR
  obtain ⟨w', e1, e2, e3⟩ := spread_ok hw
  have hpart : ∀ g : ℝ → ℝ, ((List.range w'.len).map fun i => A.fl (w'.at i * g (r.at (axisIdx r.len i)))) =
      (List.range a.rows).map fun i => A.fl (weight w i * g (r.at i)) := by
    intro g
    rw [e2]
    refine List.map_congr_left fun i hi => ?_
    rw [e3 i (List.mem_range.mp hi), h2, axisIdx_lt (List.mem_range.mp hi)]
  refine ⟨-A.hypot (A.sum ((List.range a.rows).map fun i => A.fl (weight w i * A.cos (r.at i))))
    (A.sum ((List.range a.rows).map fun i => A.fl (weight w i * A.sin (r.at i)))), ?_, ?_⟩
  · simp only [negTemporalCoherenceFl, h1, Bind.bind, Except.bind, h2, e1, pure, Except.pure]
    rw [← hpart, ← hpart, h2]
  rw [neg_neg]
  exact phasors_near hA a.rows hm (weight w) r.at (misfit a x b) a.cols R h3

theorem flatMap_range {α : Type*} (f : Nat → Nat → α) (n : Nat) (hn : 0 < n) (m : Nat) :
    ((List.range m).flatMap fun k => (List.range n).map (f k)) = (List.range (m * n)).map fun t => f (t / n) (t % n) := by
  induction m with
  | zero => simp
  | succ m ih =>
    rw [List.range_succ, List.flatMap_append, ih, Nat.succ_mul, List.range_add, List.map_append, List.map_map]
    congr 1
    simp only [List.flatMap_cons, List.flatMap_nil, List.append_nil]
    refine List.map_congr_left fun i hi => ?_
    have := List.mem_range.mp hi
    rw [Function.comp_apply, Nat.mul_comm m n, Nat.mul_add_div hn, Nat.mul_add_mod, Nat.div_eq_of_lt this, Nat.mod_eq_of_lt this,
      Nat.add_zero]

theorem sum_range_div_mod {M : Type*} [AddCommMonoid M] (f : Nat → Nat → M) (n : Nat) (hn : 0 < n) (m : Nat) :
    ∑ t ∈ range (m * n), f (t / n) (t % n) = ∑ k ∈ range m, ∑ i ∈ range n, f k i := by
  induction m with
  | zero => simp
  | succ m ih =>
    rw [Nat.succ_mul, Finset.sum_range_add, ih, Finset.sum_range_succ]
    congr 1
    refine Finset.sum_congr rfl fun i hi => ?_
    have := Finset.mem_range.mp hi
    rw [Nat.mul_comm m n, Nat.mul_add_div hn, Nat.mul_add_mod, Nat.div_eq_of_lt this, Nat.mod_eq_of_lt this, Nat.add_zero]

end Spurt
