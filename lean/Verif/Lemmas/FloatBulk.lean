import Verif.Model.FloatBulk
import Verif.Props.BulkL2
import Verif.Spec.FloatMerge

/-! # Least-squares bulk offsets in double precision -/

namespace Spurt
open Spec

/-- The answer of `lstsq` to `A x = b` is within `γ` of an exact least-squares solution and has entries up to
`X`; `w` is the number of columns of `A` and `nb` that of `b`. -/
structure Spec.LstsqNear {K : Type} [Field K] [LinearOrder K] (lstsq : Lstsq K) (a b : List (List K)) (w nb : Nat)
    (γ X : K) : Prop where
  length : (lstsq a b).length = w
  near : ∃ y, LeastSquares a b y w nb ∧ ∀ t < w, ∀ k < nb, |((lstsq a b).getD t []).getD k 0 - (y.getD t []).getD k 0| ≤ γ
  size : ∀ t < w, ∀ k < nb, |((lstsq a b).getD t []).getD k 0| ≤ X

section
variable {K : Type} [Field K] [LinearOrder K] [IsStrictOrderedRing K] [FloorRing K]

omit [FloorRing K] in
theorem roundSum_near {fd : K → K} {Bd ηd : K} (hfd : Rounds fd Bd ηd) (h0 : 0 ≤ ηd) (l : List K) : ∀ acc : K,
    |acc| + (l.map abs).sum + 2 * (l.length : K) * ηd ≤ Bd →
    |l.foldl (fun acc v => fd (acc + fd v)) acc - (acc + l.sum)| ≤ 2 * (l.length : K) * ηd := by
  induction l with
  | nil => intro acc _; simp
  | cons v l ih =>
    intro acc hB
    have hn : (0 : K) ≤ 2 * (l.length : K) * ηd := by positivity
    have hp : 0 ≤ (l.map abs).sum := List.sum_nonneg (by
      intro x hx
      obtain ⟨_, _, rfl⟩ := List.mem_map.mp hx
      exact abs_nonneg _)
    have ha := abs_nonneg acc
    simp only [List.length_cons, List.map_cons, List.sum_cons] at hB ⊢
    push_cast at hB ⊢
    have hv' := abs_le.mp (le_refl |v|)
    have e1 := abs_le.mp (hfd.close v (by linarith))
    have ha' := abs_le.mp (le_refl |acc|)
    have e2 := abs_le.mp (hfd.close (acc + fd v) (by rw [abs_le]; constructor <;> linarith))
    have e3 : |fd (acc + fd v)| ≤ |acc| + |v| + 2 * ηd := by rw [abs_le]; constructor <;> linarith
    have e4 := abs_le.mp (ih (fd (acc + fd v)) (by linarith))
    simp only [List.foldl_cons]
    rw [abs_le]
    constructor <;> linarith

omit [FloorRing K] in
theorem roundSum_near_one {fd : K → K} {Bd ηd X : K} (hfd : Rounds fd Bd ηd) (h0 : 0 ≤ ηd) (hX : 0 ≤ X) (l : List K) : ∀ acc : K,
    (∀ v ∈ l, |v| ≤ X) → |acc| + (l.length : K) * (X + ηd) ≤ Bd →
    |l.foldl (fun acc v => fd (acc + v)) acc - (acc + l.sum)| ≤ (l.length : K) * ηd := by
  induction l with
  | nil => intro acc _ _; simp
  | cons v l ih =>
    intro acc hl hB
    have hv := hl v (by simp)
    have hn : (0 : K) ≤ l.length := Nat.cast_nonneg _
    have hp : 0 ≤ (l.length : K) * (X + ηd) := mul_nonneg hn (by linarith)
    have ha := abs_nonneg acc
    simp only [List.length_cons] at hB ⊢
    push_cast at hB ⊢
    have hv' := abs_le.mp hv
    have ha' := abs_le.mp (le_refl |acc|)
    have e2 := abs_le.mp (hfd.close (acc + v) (by rw [abs_le]; constructor <;> linarith))
    have e3 : |fd (acc + v)| ≤ |acc| + X + ηd := by rw [abs_le]; constructor <;> linarith
    have e4 := abs_le.mp (ih (fd (acc + v)) (fun w hw => hl w (by simp [hw])) (by linarith))
    simp only [List.foldl_cons, List.sum_cons]
    rw [abs_le]
    constructor <;> linarith

omit [FloorRing K] in
theorem overlapRow_abs {n t1 t2 : Nat} (h1 : t1 < n) (h2 : t2 < n) (hne : t1 ≠ t2) (x : List (List K)) (hx : x.length = n)
    (b : Nat) : ((List.zipWith (fun v xr => v * xr.getD b 0) (((List.replicate n (0 : K)).set t1 (-1)).set t2 1) x).map
      abs).sum = |(x.getD t2 []).getD b 0| + |(x.getD t1 []).getD b 0| := by
  set l := (List.zipWith (fun v xr => v * xr.getD b 0) (((List.replicate n (0 : K)).set t1 (-1)).set t2 1) x).map abs with hl
  have hlen : l.length = n := by simp [hl, hx]
  rw [sum_getD, hlen]
  have : ∀ i ∈ Finset.range n, l.getD i 0 = (if i = t2 then |(x.getD i []).getD b 0| else 0) +
      (if i = t1 then |(x.getD i []).getD b 0| else 0) := by
    intro i hi
    have hi' := Finset.mem_range.mp hi
    rw [List.getD_eq_getElem _ _ (by rw [hlen]; exact hi'), List.getD_eq_getElem x [] (by rw [hx]; exact hi')]
    simp only [hl, List.getElem_map, List.getElem_zipWith, List.getElem_set, List.getElem_replicate]
    by_cases e2 : t2 = i
    · subst e2
      have : ¬ t2 = t1 := fun h => hne h.symm
      simp [this]
    · by_cases e1 : t1 = i
      · subst e1
        simp [e2, hne]
      · simp [e2, e1, Ne.symm e2, Ne.symm e1]
  rw [Finset.sum_congr rfl this, Finset.sum_add_distrib, Finset.sum_ite_eq', Finset.sum_ite_eq',
    if_pos (Finset.mem_range.mpr h2), if_pos (Finset.mem_range.mpr h1)]

omit [FloorRing K] in
theorem overlapRow_dotFl {fd : K → K} {Bd ηd X : K} (hfd : Rounds fd Bd ηd) (h0 : 0 ≤ ηd) {n t1 t2 : Nat}
    (h1 : t1 < n) (h2 : t2 < n) (hne : t1 ≠ t2) (x : List (List K)) (hx : x.length = n) (b : Nat)
    (hsize : ∀ t < n, |(x.getD t []).getD b 0| ≤ X) (hB : 2 * X + 2 * (n : K) * ηd ≤ Bd) :
    |(List.zipWith (fun v xr => v * xr.getD b 0) (((List.replicate n (0 : K)).set t1 (-1)).set t2 1) x).foldl
      (fun acc v => fd (acc + fd v)) 0 - ((x.getD t2 []).getD b 0 - (x.getD t1 []).getD b 0)| ≤ 2 * (n : K) * ηd := by
  have habs := overlapRow_abs h1 h2 hne x hx b
  set l := List.zipWith (fun v xr => v * xr.getD b 0) (((List.replicate n (0 : K)).set t1 (-1)).set t2 1) x with hl
  have hlen : l.length = n := by simp [hl, hx]
  have hs : l.sum = (x.getD t2 []).getD b 0 - (x.getD t1 []).getD b 0 := by
    rw [hl, zipWith_col, overlapRow_dot h1 h2 hne _ (by simp [col, hx]), col_getD, col_getD]
  have := roundSum_near hfd h0 l 0 (by
    rw [abs_zero, zero_add, hlen, habs]
    linarith [hsize t1 h1, hsize t2 h2])
  rw [zero_add, hs, hlen] at this
  exact this

/-- The residuals as `_solve_l2_min` adds them up. -/
theorem residualFl_near {fd : K → K} {B1 η1 B2 η2 X O : K} (hfd : Rounds fd B1 η1) (hfd2 : Rounds fd B2 η2) (h0 : 0 ≤ η1)
    (h02 : 0 ≤ η2) (hX : 0 ≤ X) (hO : 0 ≤ O)
    {ntiles nbands : Nat} {olaps : List (Nat × Nat)} {off x : List (List K)}
    (hin : ∀ t1 t2, (t1, t2) ∈ olaps → t1 < ntiles ∧ t2 < ntiles ∧ t1 ≠ t2) (hoff : off.length = olaps.length)
    (hrow : ∀ row ∈ off, row.length = nbands) (hx : x.length = ntiles) (b : Nat) (hb : b < nbands)
    (hsize : ∀ t < ntiles, |(x.getD t []).getD b 0| ≤ X) (hobs : ∀ row ∈ off, |row.getD b 0| ≤ O)
    (hB1 : O + 2 * X + (2 * (ntiles : K) + 1) * η1 ≤ B1)
    (hB : (olaps.length : K) * (O + 2 * X + (2 * (ntiles : K) + 1) * η1 + η2) ≤ B2) :
    |((List.zipWith (List.zipWith fun v w => fd (v - w)) off (matDotFl fd (overlapMatrix olaps ntiles) x nbands)).map
      fun row => |row.getD b 0|).foldl (fun acc v => fd (acc + v)) 0 -
        absError olaps (col off b) (fun t => (x.getD t []).getD b 0)| ≤ (olaps.length : K) * ((2 * (ntiles : K) + 1) * η1 + η2) := by
  set P := (List.zipWith (List.zipWith fun v w => fd (v - w)) off (matDotFl fd (overlapMatrix olaps ntiles) x nbands)).map
      fun row => |row.getD b 0| with hP
  have hn : (0 : K) ≤ ntiles := Nat.cast_nonneg _
  have hm : (0 : K) ≤ olaps.length := Nat.cast_nonneg _
  by_cases hz : olaps.length = 0
  · have : olaps = [] := List.length_eq_zero_iff.mp hz
    subst this
    have : P = [] := by simp [hP, overlapMatrix, matDotFl]
    rw [this]
    simp [absError]
  have hnη : 0 ≤ (ntiles : K) * η1 := mul_nonneg hn h0
  have hPlen : P.length = olaps.length := by simp [hP, matDotFl, overlapMatrix, hoff]
  have hentry : ∀ (k : Nat) (hk : k < olaps.length), ∃ t1 t2, olaps[k] = (t1, t2) ∧
      |(P[k]'(by omega)) - abs (((col off b)[k]'(by simp [col, hoff, hk])) - ((x.getD t2 []).getD b 0 - (x.getD t1 []).getD b 0))| ≤
        (2 * (ntiles : K) + 1) * η1 ∧ (P[k]'(by omega)) ≤ O + 2 * X + (2 * (ntiles : K) + 1) * η1 ∧ 0 ≤ (P[k]'(by omega)) := by
    intro k hk
    rcases ht : olaps[k] with ⟨t1, t2⟩
    refine ⟨t1, t2, rfl, ?_⟩
    obtain ⟨h1, h2, h3⟩ := hin t1 t2 (by rw [← ht]; exact List.getElem_mem _)
    have hko : k < off.length := by omega
    have hrk := hrow off[k] (List.getElem_mem _)
    have hok := hobs off[k] (List.getElem_mem _)
    have hd := overlapRow_dotFl hfd h0 h1 h2 h3 x hx b hsize (by linarith)
    set D := (List.zipWith (fun v xr => v * xr.getD b 0) (((List.replicate ntiles (0 : K)).set t1 (-1)).set t2 1) x).foldl
      (fun acc v => fd (acc + fd v)) 0 with hD
    have hPk : (P[k]'(by omega)) = |fd (off[k].getD b 0 - D)| := by
      simp only [hP, List.getElem_map, List.getElem_zipWith, matDotFl, overlapMatrix, ht]
      rw [List.getD_eq_getElem _ _ (by simp [hrk, hb]), List.getElem_zipWith, List.getD_eq_getElem _ _ (by omega)]
      simp only [List.getElem_map, List.getElem_range]
      rfl
    have hck : (col off b)[k]'(by simp [col, hko]) = off[k].getD b 0 := by simp [col]
    rw [hPk, hck]
    have hd' := abs_le.mp hd
    have x1 := abs_le.mp (hsize t1 h1)
    have x2 := abs_le.mp (hsize t2 h2)
    have o1 := abs_le.mp hok
    have hr := abs_le.mp (hfd.close (off[k].getD b 0 - D) (by rw [abs_le]; constructor <;> linarith))
    refine ⟨?_, ?_, abs_nonneg _⟩
    · refine (abs_abs_sub_abs_le _ _).trans ?_
      rw [abs_le]; constructor <;> linarith
    · rw [abs_le]; constructor <;> linarith
  have hsum : |P.sum - absError olaps (col off b) (fun t => (x.getD t []).getD b 0)| ≤
      (olaps.length : K) * ((2 * (ntiles : K) + 1) * η1) := by
    have e1 : absError olaps (col off b) (fun t => (x.getD t []).getD b 0) =
        ((olaps.zip (col off b)).map fun c => |c.2 - ((x.getD c.1.2 []).getD b 0 - (x.getD c.1.1 []).getD b 0)|).sum := rfl
    have hclen : (col off b).length = olaps.length := by simp [col, hoff]
    set Q := (olaps.zip (col off b)).map fun c => |c.2 - ((x.getD c.1.2 []).getD b 0 - (x.getD c.1.1 []).getD b 0)| with hQ
    have hQlen : Q.length = olaps.length := by simp [hQ, hclen]
    rw [e1, sum_getD P, sum_getD Q, hPlen, hQlen, ← Finset.sum_sub_distrib]
    refine (Finset.abs_sum_le_sum_abs _ _).trans ?_
    refine (Finset.sum_le_sum (g := fun _ => (2 * (ntiles : K) + 1) * η1) ?_).trans (by simp)
    intro k hk
    have hk' := Finset.mem_range.mp hk
    obtain ⟨t1, t2, ht, hnear, _⟩ := hentry k hk'
    rw [List.getD_eq_getElem _ _ (by omega), List.getD_eq_getElem _ _ (by omega)]
    have : Q[k]'(by omega) = |(col off b)[k]'(by omega) - ((x.getD t2 []).getD b 0 - (x.getD t1 []).getD b 0)| := by
      simp only [hQ, List.getElem_map, List.getElem_zip, ht]
    rw [this]
    exact hnear
  have hfold := roundSum_near_one hfd2 h02 (X := O + 2 * X + (2 * (ntiles : K) + 1) * η1) (by positivity) P 0 (by
    intro v hv
    obtain ⟨k, hk, rfl⟩ := List.mem_iff_getElem.mp hv
    obtain ⟨_, _, _, _, g1, g2⟩ := hentry k (by omega)
    rw [abs_of_nonneg g2]
    exact g1) (by
    rw [abs_zero, zero_add, hPlen]
    exact hB)
  rw [zero_add, hPlen] at hfold
  have a1 := abs_le.mp hfold
  have a2 := abs_le.mp hsum
  rw [abs_le, mul_add]
  constructor <;> linarith

end

end Spurt
