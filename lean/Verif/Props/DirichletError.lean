import Verif.Props.Dirichlet
import Verif.Spec.FloatMerge
import Mathlib.Algebra.Order.Chebyshev
import Mathlib.Tactic.Linarith
import Mathlib.Tactic.Positivity
import Mathlib.Tactic.IntervalCases
import Mathlib.Tactic.NormNum

/-!
# Property C72: what the tolerance of `cg` means for the corrections
-/

namespace Spurt

section
variable {K : Type} [Field K] [LinearOrder K] [IsStrictOrderedRing K]

/-- How far the value at `p` is from the mean over its neighbours, times the number of links of `p`. -/
def Spec.defect (links : List (Nat × Nat)) (z : Nat → K) (p : Nat) : K :=
  (links.map fun l => if l.1 = p then z p - z l.2 else if l.2 = p then z p - z l.1 else 0).sum

/-- A point with a fixed value can be reached from `p` over at most `H` links. -/
def Spec.WithinLinks (n : Nat) (links : List (Nat × Nat)) (mask : Nat → Bool) (H p : Nat) : Prop :=
  ∃ k ≤ H, ∃ w : Nat → Nat, w 0 = p ∧ (∀ i < k, Spec.Adjacent links (w i) (w (i + 1))) ∧
    w k < n ∧ mask (w k) = true

/-- The stopping rule of `scipy.sparse.linalg.cg`: the norm of the residual is at most
`max(rtol * norm(b), atol)`, here without square roots. -/
def Spec.CgConverges (lin : LinSolver K) (rtol atol : K) : Prop :=
  ∀ (m : SqMat K) (b : List K), (∃ x : List K, x.length = m.n ∧ m.dot x = b) →
    (lin.cg m b).length = m.n ∧
    ∑ k ∈ Finset.range m.n, (b.getD k 0 - (m.dot (lin.cg m b)).getD k 0) ^ 2 ≤
      max (rtol ^ 2 * ∑ k ∈ Finset.range m.n, b.getD k 0 ^ 2) (atol ^ 2)

/-- The links between a point with a fixed value and one without. -/
def Spec.boundaryLinks (links : List (Nat × Nat)) (mask : Nat → Bool) : Nat :=
  links.countP fun l => mask l.1 != mask l.2

open Spec

omit [LinearOrder K] [IsStrictOrderedRing K] in
theorem defect_eq {links : List (Nat × Nat)} {a : SqMat ℤ} (h : graphLaplacian links = .ok a)
    (z : Nat → K) (p : Nat) :
    defect links z p = ∑ j ∈ Finset.range a.n, ((a.val p j : ℤ) : K) * z j := by
  rw [laplacian_dot h]
  unfold defect
  congr 1
  apply List.map_congr_left
  rintro ⟨u, v⟩ _
  unfold incidence
  simp only
  by_cases h1 : u = p
  · subst h1
    by_cases h2 : u = v
    · subst h2; simp
    · simp [h2]
  · by_cases h2 : v = p
    · subst h2
      have : ¬ v = u := fun h => h1 h.symm
      simp [h1, this]
    · simp [h1, h2, Ne.symm h1, Ne.symm h2]

/-- A shortest walk to a fixed point visits no point twice. -/
theorem shortest_walk {n : Nat} {links : List (Nat × Nat)} {mask : Nat → Bool} {H p : Nat}
    (h : WithinLinks n links mask H p) :
    ∃ k ≤ H, ∃ w : Nat → Nat, w 0 = p ∧ (∀ i < k, Adjacent links (w i) (w (i + 1))) ∧
      w k < n ∧ mask (w k) = true ∧ ∀ i j, i < j → j ≤ k → w i ≠ w j := by
  classical
  let P : Nat → Prop := fun k => ∃ w : Nat → Nat, w 0 = p ∧ (∀ i < k, Adjacent links (w i) (w (i + 1))) ∧
    w k < n ∧ mask (w k) = true
  obtain ⟨k0, hk0, hw0⟩ := h
  have hex : ∃ k, P k := ⟨k0, hw0⟩
  obtain ⟨w, h0, hadj, hn, hm⟩ := Nat.find_spec hex
  refine ⟨Nat.find hex, (Nat.find_min' hex hw0).trans hk0, w, h0, hadj, hn, hm, ?_⟩
  intro i j hij hj he
  set k := Nat.find hex with hk
  have hlt : i + (k - j) < k := by omega
  refine Nat.find_min hex hlt ⟨fun t => if t ≤ i then w t else w (t - i + j), by simp [h0], ?_, ?_, ?_⟩
  · intro t ht
    by_cases h1 : t + 1 ≤ i
    · have h2 : t ≤ i := by omega
      simp only [h1, h2, if_true]
      exact hadj t (by omega)
    · by_cases h2 : t ≤ i
      · have h3 : t = i := by omega
        subst h3
        simp only [le_refl, if_true, h1, if_false]
        rw [he]
        have : t + 1 - t + j = j + 1 := by omega
        rw [this]
        exact hadj j (by omega)
      · simp only [h1, h2, if_false]
        have : t + 1 - i + j = (t - i + j) + 1 := by omega
        rw [this]
        exact hadj _ (by omega)
  · by_cases h1 : i + (k - j) ≤ i
    · have h2 : k = j := by omega
      simp only [h1, if_true]
      have h3 : i + (k - j) = i := by omega
      rw [h3, he, ← h2]
      exact hn
    · simp only [h1, if_false]
      have : i + (k - j) - i + j = k := by omega
      rw [this]; exact hn
  · by_cases h1 : i + (k - j) ≤ i
    · have h2 : k = j := by omega
      simp only [h1, if_true]
      have h3 : i + (k - j) = i := by omega
      rw [h3, he, ← h2]
      exact hm
    · simp only [h1, if_false]
      have : i + (k - j) - i + j = k := by omega
      rw [this]; exact hm

theorem toFinset_sum_le {α : Type} [DecidableEq α] (l : List α) (f : α → K) (hf : ∀ x, 0 ≤ f x) :
    ∑ x ∈ l.toFinset, f x ≤ (l.map f).sum := by
  induction l with
  | nil => simp
  | cons x l ih =>
    rw [List.toFinset_cons, List.map_cons, List.sum_cons]
    by_cases hx : x ∈ l.toFinset
    · rw [Finset.insert_eq_of_mem hx]
      linarith [hf x]
    · rw [Finset.sum_insert hx]
      linarith

/-- The square of a value is at most the length of a walk to a zero times the energy. -/
theorem walk_energy {n : Nat} {links : List (Nat × Nat)} {mask : Nat → Bool} {H p : Nat}
    (h : WithinLinks n links mask H p) (e : Nat → K) (he : ∀ q < n, mask q = true → e q = 0) :
    e p ^ 2 ≤ H * (links.map fun l => (e l.2 - e l.1) ^ 2).sum := by
  classical
  obtain ⟨k, hk, w, h0, hadj, hn, hm, hinj⟩ := shortest_walk h
  have htel : ∑ i ∈ Finset.range k, (e (w i) - e (w (i + 1))) = e p := by
    rw [Finset.sum_range_sub', h0, he _ hn hm, sub_zero]
  have hcs := sq_sum_le_card_mul_sum_sq (s := Finset.range k) (f := fun i => e (w i) - e (w (i + 1)))
  rw [htel, Finset.card_range] at hcs
  have hch : ∀ i, ∃ l : Nat × Nat, i < k → l ∈ links ∧ (l = (w i, w (i + 1)) ∨ l = (w (i + 1), w i)) := by
    intro i
    by_cases hi : i < k
    · rcases hadj i hi with h1 | h1
      · exact ⟨_, fun _ => ⟨h1, Or.inl rfl⟩⟩
      · exact ⟨_, fun _ => ⟨h1, Or.inr rfl⟩⟩
    · exact ⟨(0, 0), fun h => absurd h hi⟩
  choose l hl using hch
  have hli : Set.InjOn l (Finset.range k) := by
    intro i hi j hj hij
    simp only [Finset.coe_range, Set.mem_Iio] at hi hj
    by_contra hne
    have key : ∀ i j, i < k → j < k → i < j → l i = l j → False := by
      intro i j hi hj hlt hij
      have hi2 := (hl i hi).2
      have hj2 := (hl j hj).2
      have h1 := hinj i j hlt (by omega)
      have h2 := hinj i (j + 1) (by omega) (by omega)
      rw [hij] at hi2
      rcases hi2 with a1 | a1 <;> rcases hj2 with a2 | a2 <;>
        (rw [a1, Prod.mk.injEq] at a2; obtain ⟨c1, c2⟩ := a2)
      · exact h1 c1
      · exact h2 c1
      · exact h2 c2
      · exact h1 c2
    rcases Nat.lt_or_gt_of_ne hne with h1 | h1
    · exact key i j hi hj h1 hij
    · exact key j i hj hi h1 hij.symm
  have hsum : ∑ i ∈ Finset.range k, (e (w i) - e (w (i + 1))) ^ 2 ≤
      (links.map fun l => (e l.2 - e l.1) ^ 2).sum := by
    refine le_trans ?_ (toFinset_sum_le links (fun l => (e l.2 - e l.1) ^ 2) (fun _ => sq_nonneg _))
    have : ∑ i ∈ Finset.range k, (e (w i) - e (w (i + 1))) ^ 2 =
        ∑ x ∈ (Finset.range k).image l, (e x.2 - e x.1) ^ 2 := by
      rw [Finset.sum_image hli]
      apply Finset.sum_congr rfl
      intro i hi
      rcases (hl i (Finset.mem_range.mp hi)).2 with h1 | h1 <;> rw [h1]
      ring
    rw [this]
    apply Finset.sum_le_sum_of_subset_of_nonneg
    · intro x hx
      obtain ⟨i, hi, rfl⟩ := Finset.mem_image.mp hx
      exact List.mem_toFinset.mpr (hl i (Finset.mem_range.mp hi)).1
    · intros; positivity
  have hS : 0 ≤ (links.map fun l => (e l.2 - e l.1) ^ 2).sum :=
    List.sum_nonneg fun x hx => by obtain ⟨y, _, rfl⟩ := List.mem_map.mp hx; positivity
  calc e p ^ 2 ≤ k * ∑ i ∈ Finset.range k, (e (w i) - e (w (i + 1))) ^ 2 := hcs
    _ ≤ k * (links.map fun l => (e l.2 - e l.1) ^ 2).sum := by
      exact mul_le_mul_of_nonneg_left hsum (Nat.cast_nonneg _)
    _ ≤ H * (links.map fun l => (e l.2 - e l.1) ^ 2).sum := by
      apply mul_le_mul_of_nonneg_right _ hS
      exact_mod_cast hk

/-- A field that is zero at the fixed points is at most `H` times the sum of its defects. -/
theorem defect_bound {links : List (Nat × Nat)} {a : SqMat ℤ} (hlap : graphLaplacian links = .ok a)
    {mask : Nat → Bool} {H : Nat} (hg : ∀ p < a.n, mask p = false → WithinLinks a.n links mask H p)
    (e : Nat → K) (he : ∀ q < a.n, mask q = true → e q = 0) (p : Nat) (hp : p < a.n) :
    |e p| ≤ H * ∑ q ∈ (Finset.range a.n).filter (fun q => mask q = false), |defect links e q| := by
  set R := ∑ q ∈ (Finset.range a.n).filter (fun q => mask q = false), |defect links e q| with hR
  have hR0 : 0 ≤ R := Finset.sum_nonneg fun _ _ => abs_nonneg _
  obtain ⟨m, hmn, hmax⟩ := Finset.exists_max_image (Finset.range a.n) (fun q => |e q|) ⟨p, Finset.mem_range.mpr hp⟩
  have hmn' := Finset.mem_range.mp hmn
  refine (hmax p (Finset.mem_range.mpr hp)).trans ?_
  by_cases hm : mask m = true
  · simp only [he m hmn' hm, abs_zero]; positivity
  have hm' : mask m = false := by simpa using hm
  have h1 := walk_energy (hg m hmn' hm') e he
  have h2 : (links.map fun l => (e l.2 - e l.1) ^ 2).sum ≤ |e m| * R := by
    rw [← C43_quadratic_form links a hlap e]
    have : ∀ i ∈ Finset.range a.n, ∑ j ∈ Finset.range a.n, e i * ((a.val i j : ℤ) : K) * e j ≤
        if mask i = false then |e m| * |defect links e i| else 0 := by
      intro i hi
      simp only [mul_assoc]
      rw [← Finset.mul_sum, ← defect_eq hlap]
      by_cases hi' : mask i = false
      · rw [if_pos hi']
        refine (le_abs_self _).trans ?_
        rw [abs_mul]
        exact mul_le_mul_of_nonneg_right (hmax i hi) (abs_nonneg _)
      · rw [if_neg hi', he i (Finset.mem_range.mp hi) (by simpa using hi'), zero_mul]
    refine (Finset.sum_le_sum this).trans ?_
    rw [← Finset.sum_filter, ← Finset.mul_sum]
  rcases (abs_nonneg (e m)).eq_or_lt with h0 | h0
  · simp only [← h0]; positivity
  · have h3 : |e m| * |e m| ≤ |e m| * (H * R) := by
      have hH : (0 : K) ≤ H := Nat.cast_nonneg _
      calc |e m| * |e m| = e m ^ 2 := by rw [← sq, sq_abs]
        _ ≤ H * (links.map fun l => (e l.2 - e l.1) ^ 2).sum := h1
        _ ≤ H * (|e m| * R) := mul_le_mul_of_nonneg_left h2 hH
        _ = |e m| * (H * R) := by ring
    exact le_of_mul_le_mul_left h3 h0

omit [LinearOrder K] [IsStrictOrderedRing K] in
theorem defect_sub {links : List (Nat × Nat)} {z w : Nat → K} {p : Nat} :
    defect links (fun q => z q - w q) p = defect links z p - defect links w p := by
  unfold defect
  induction links with
  | nil => simp
  | cons l ls ih =>
    simp only [List.map_cons, List.sum_cons, ih]
    split
    · ring
    · split <;> ring

/-- C72. A posteriori bound: if every free point is within `H` links of a fixed one, two fields that agree at
the fixed points, one of them the exact solution, differ nowhere by more than `H` times the summed defects
of the other. -/
theorem C72_posteriori (links : List (Nat × Nat)) (a : SqMat ℤ) (hlap : graphLaplacian links = .ok a)
    (mask : Nat → Bool) (H : Nat) (hg : ∀ p < a.n, mask p = false → WithinLinks a.n links mask H p)
    (y z : Nat → K) (hfix : ∀ q < a.n, mask q = true → y q = z q)
    (hz : ∀ q < a.n, mask q = false → Harmonic links z q) (p : Nat) (hp : p < a.n) :
    |y p - z p| ≤ H * ∑ q ∈ (Finset.range a.n).filter (fun q => mask q = false), |defect links y q| := by
  have h := defect_bound hlap hg (fun q => y q - z q) (fun q hq hm => by rw [hfix q hq hm, sub_self]) p hp
  refine h.trans (le_of_eq ?_)
  congr 1
  apply Finset.sum_congr rfl
  intro q hq
  rw [Finset.mem_filter, Finset.mem_range] at hq
  have : defect links z q = 0 := hz q hq.1 hq.2
  rw [defect_sub, this, sub_zero]

/-! ### The answer of `cg` -/

omit [LinearOrder K] [IsStrictOrderedRing K] in
theorem extend_defect {links : List (Nat × Nat)} {a : SqMat ℤ} (hlap : graphLaplacian links = .ok a)
    (mask : Nat → Bool) (xf : Nat → K) (x : List K) (k : Nat) (hk : k < (freeIdx a.n mask).length) :
    defect links (extend a.n mask xf x) ((freeIdx a.n mask).getD k 0) =
      ((freeMat (castMat K a) mask).dot x).getD k 0 - (freeRhs (castMat K a) mask xf).getD k 0 := by
  rw [defect_eq hlap]
  have h := extend_dot (castMat K a) mask xf x ((freeIdx a.n mask).getD k 0)
  have e1 : (castMat K a).n = a.n := rfl
  rw [e1] at h
  have e2 : ∀ i j, (castMat K a).val i j = ((a.val i j : ℤ) : K) := fun _ _ => rfl
  simp only [e2] at h
  rw [h]
  simp only [SqMat.dot, freeMat, freeRhs]
  rw [getD_map_lt _ _ (by simpa [e1] using hk), getD_map_lt _ _ (by simpa [e1] using hk)]
  simp only [List.getElem_range, e1, e2, List.getD_eq_getElem _ _ hk]
  ring

omit [LinearOrder K] [IsStrictOrderedRing K] in
theorem sum_free (n : Nat) (mask : Nat → Bool) (f : Nat → K) :
    ∑ q ∈ (Finset.range n).filter (fun q => mask q = false), f q =
      ∑ k ∈ Finset.range (freeIdx n mask).length, f ((freeIdx n mask).getD k 0) := by
  rw [Finset.sum_filter]
  have h1 := sum_filter_range n (fun j => !mask j) f
  have h2 : ∀ l : List Nat, ∑ k ∈ Finset.range l.length, f (l.getD k 0) = (l.map f).sum := by
    intro l
    induction l with
    | nil => simp
    | cons x l ih =>
      rw [List.length_cons, Finset.sum_range_succ', List.map_cons, List.sum_cons, ← ih]
      simp [add_comm]
  rw [h2]
  unfold freeIdx
  rw [h1]
  apply Finset.sum_congr rfl
  intro j _
  cases mask j <;> simp

/-- The 1-norm of at most `s ^ 2` numbers is at most `s` times a bound of the 2-norm. -/
theorem norm_one_le {n s : Nat} (hn : n ≤ s ^ 2) (f : Nat → K) {t : K} (ht : 0 ≤ t)
    (h : ∑ k ∈ Finset.range n, f k ^ 2 ≤ t ^ 2) : ∑ k ∈ Finset.range n, |f k| ≤ s * t := by
  have h1 := sq_sum_le_card_mul_sum_sq (s := Finset.range n) (f := fun k => |f k|)
  simp only [sq_abs, Finset.card_range] at h1
  have h2 : (∑ k ∈ Finset.range n, |f k|) ^ 2 ≤ (s * t) ^ 2 := by
    rw [mul_pow]
    refine h1.trans (mul_le_mul ?_ h (Finset.sum_nonneg fun _ _ => sq_nonneg _) (by positivity))
    exact_mod_cast hn
  exact le_of_sq_le_sq h2 (by positivity)

theorem converged_le {rtol atol S T : K} (hr : 0 ≤ rtol) (hT : 0 ≤ T) (hS : S ≤ T ^ 2) :
    max (rtol ^ 2 * S) (atol ^ 2) ≤ (max (rtol * T) |atol|) ^ 2 := by
  have h0 : 0 ≤ rtol * T := mul_nonneg hr hT
  apply max_le
  · calc rtol ^ 2 * S ≤ rtol ^ 2 * T ^ 2 := mul_le_mul_of_nonneg_left hS (sq_nonneg _)
      _ = (rtol * T) ^ 2 := by ring
      _ ≤ _ := pow_le_pow_left₀ h0 (le_max_left _ _) 2
  · calc atol ^ 2 = |atol| ^ 2 := (sq_abs _).symm
      _ ≤ _ := pow_le_pow_left₀ (abs_nonneg _) (le_max_right _ _) 2

theorem list_abs_sum {α : Type} (l : List α) (f : α → K) : |(l.map f).sum| ≤ (l.map fun x => |f x|).sum := by
  induction l with
  | nil => simp
  | cons x l ih =>
    simp only [List.map_cons, List.sum_cons]
    exact (abs_add_le _ _).trans (by linarith)

/-- The sum of the right-hand side over the free points. -/
theorem freeRhs_bound {links : List (Nat × Nat)} {a : SqMat ℤ} (hlap : graphLaplacian links = .ok a)
    (mask : Nat → Bool) (xf : Nat → K) {X : K} (hX : 0 ≤ X) (hfix : ∀ q < a.n, mask q = true → |xf q| ≤ X) :
    ∑ k ∈ Finset.range (freeIdx a.n mask).length, |(freeRhs (castMat K a) mask xf).getD k 0| ≤
      boundaryLinks links mask * X := by
  classical
  have hlt := (graphLaplacian_ok hlap).2.1
  set g : Nat → K := extend a.n mask xf [] with hg
  have h1 : ∀ k < (freeIdx a.n mask).length, |(freeRhs (castMat K a) mask xf).getD k 0| =
      |defect links g ((freeIdx a.n mask).getD k 0)| := by
    intro k hk
    rw [hg, extend_defect hlap mask xf [] k hk]
    have : ((freeMat (castMat K a) mask).dot []).getD k 0 = 0 := by
      unfold SqMat.dot
      rw [getD_map_lt _ _ (by simpa [freeMat, castMat] using hk)]
      apply List.sum_eq_zero
      intro v hv
      obtain ⟨j, _, rfl⟩ := List.mem_map.mp hv
      simp
    rw [this, zero_sub, abs_neg]
  rw [Finset.sum_congr rfl fun k hk => h1 k (Finset.mem_range.mp hk),
    ← sum_free a.n mask fun q => |defect links g q|]
  have h2 : ∀ q ∈ (Finset.range a.n).filter (fun q => mask q = false), |defect links g q| ≤
      (links.map fun l => if l.1 = q ∧ mask l.2 = true ∨ l.2 = q ∧ mask l.1 = true then X else 0).sum := by
    intro q hq
    rw [Finset.mem_filter, Finset.mem_range] at hq
    refine (list_abs_sum _ _).trans (List.sum_le_sum ?_)
    rintro ⟨u, v⟩ huv
    have hb := hlt u v huv
    have hgf : ∀ r, mask r = false → g r = 0 := by intro r hr; simp [hg, extend, hr]
    have hgm : ∀ r, mask r = true → g r = xf r := by intro r hr; simp [hg, extend, hr]
    simp only [hgf q hq.2, zero_sub]
    by_cases c1 : u = q
    · simp only [c1, if_true, true_and, abs_neg, hq.2]
      cases hv : mask v
      · simp [hgf v hv]
      · rw [hgm v hv]; simpa using hfix v hb.2 hv
    · by_cases c2 : v = q
      · simp only [c1, c2, if_false, if_true, abs_neg, false_and, true_and, false_or]
        cases hv : mask u
        · simp [hgf u hv]
        · rw [hgm u hv]; simpa using hfix u hb.1 hv
      · simp [c1, c2]
  refine (Finset.sum_le_sum h2).trans ?_
  rw [finset_list_sum _ links fun q l => if l.1 = q ∧ mask l.2 = true ∨ l.2 = q ∧ mask l.1 = true then X else 0]
  unfold boundaryLinks
  clear h1 h2 hlt hlap
  induction links with
  | nil => simp
  | cons l ls ih =>
    rw [List.map_cons, List.sum_cons, List.countP_cons]
    push_cast
    rw [add_mul, add_comm]
    refine add_le_add ih ?_
    obtain ⟨u, v⟩ := l
    simp only
    cases hu : mask u <;> cases hv : mask v
    · simp
    · simp only [and_true, Bool.false_eq_true, and_false, or_false]
      rw [Finset.sum_ite_eq]
      split <;> simp [hX]
    · simp only [and_true, Bool.false_eq_true, and_false, false_or]
      rw [Finset.sum_ite_eq]
      split <;> simp [hX]
    · simp only [and_true, bne_self_eq_false, Bool.false_eq_true, if_false, zero_mul]
      apply le_of_eq
      apply Finset.sum_eq_zero
      intro q hq
      rw [Finset.mem_filter] at hq
      rw [if_neg]
      rintro (h | h) <;> (subst h; simp_all)

theorem grounded_of_within {n : Nat} {links : List (Nat × Nat)} {mask : Nat → Bool} {H p : Nat}
    (h : WithinLinks n links mask H p) : Grounded n links mask p := by
  obtain ⟨k, _, w, h0, hadj, hn, hm⟩ := h
  refine ⟨w k, hn, hm, ?_⟩
  have : ∀ i ≤ k, Relation.ReflTransGen (Adjacent links) p (w i) := by
    intro i
    induction i with
    | zero => intro _; rw [h0]
    | succ i ih => intro hi; exact (ih (by omega)).tail (hadj i (by omega))
  exact this k le_rfl

/-- The residual of the answer, as defects of the returned values. -/
theorem residual_sq (lin : LinSolver K) (rtol atol : K) (hr : 0 ≤ rtol) (hcg : CgConverges lin rtol atol)
    (links : List (Nat × Nat)) (a : SqMat ℤ) (hlap : graphLaplacian links = .ok a) (xf y : Arr K)
    (mask : Nat → Bool) (log : Bool) (hg : ∀ p < a.n, mask p = false → Grounded a.n links mask p)
    (h : dirichletGraph lin (castMat K a) xf mask log = .ok y) (k : Nat) (X : K) (hX : 0 ≤ X)
    (hfix : ∀ q < a.n, mask q = true → |xf.val k q| ≤ X) :
    ∑ q ∈ (Finset.range a.n).filter (fun q => mask q = false), defect links (y.val k) q ^ 2 ≤
      (max (rtol * (boundaryLinks links mask * X)) |atol|) ^ 2 := by
  obtain ⟨_, x, hx, hcase⟩ := dirichletGraph_extend h k
  have e1 : (castMat K a).n = a.n := rfl
  rw [hx, e1, sum_free]
  have hd := fun j (hj : j ∈ Finset.range (freeIdx a.n mask).length) =>
    congrArg (· ^ 2) (extend_defect hlap mask (xf.val k) x j (Finset.mem_range.mp hj))
  rw [Finset.sum_congr rfl hd]
  rcases hcase with ⟨h1, _, h3⟩ | ⟨_, h3⟩
  · refine le_trans (le_of_eq ?_) (sq_nonneg _)
    apply Finset.sum_eq_zero
    intro j hj
    have hj' := Finset.mem_range.mp hj
    have a1 : (freeRhs (castMat K a) mask (xf.val k)).getD j 0 = 0 := by
      have hl : j < (freeRhs (castMat K a) mask (xf.val k)).length := by simpa [freeRhs, e1] using hj'
      rw [List.getD_eq_getElem _ _ hl]
      exact h1 _ (List.getElem_mem hl)
    have a2 : ((freeMat (castMat K a) mask).dot x).getD j 0 = 0 := by
      unfold SqMat.dot
      rw [getD_map_lt _ _ (by simpa [freeMat, e1] using hj')]
      apply List.sum_eq_zero
      intro v hv
      obtain ⟨i, _, rfl⟩ := List.mem_map.mp hv
      rw [h3, List.getD_eq_getElem?_getD, List.getElem?_replicate]
      split <;> simp
    rw [a1, a2]; simp
  · obtain ⟨_, h4⟩ := hcg (freeMat (castMat K a) mask) (freeRhs (castMat K a) mask (xf.val k))
      (freeMat_solvable hlap mask hg _ (by simp [freeRhs, freeMat]))
    rw [← h3] at h4
    have hS : ∑ j ∈ Finset.range (freeIdx a.n mask).length, (freeRhs (castMat K a) mask (xf.val k)).getD j 0 ^ 2 ≤
        (boundaryLinks links mask * X) ^ 2 := by
      have h5 := freeRhs_bound hlap mask (xf.val k) hX hfix
      have h6 := Finset.sum_sq_le_sq_sum_of_nonneg (s := Finset.range (freeIdx a.n mask).length)
        (f := fun j => |(freeRhs (castMat K a) mask (xf.val k)).getD j 0|) (fun _ _ => abs_nonneg _)
      simp only [sq_abs] at h6
      exact h6.trans (pow_le_pow_left₀ (Finset.sum_nonneg fun _ _ => abs_nonneg _) h5 2)
    refine le_trans (le_trans (le_of_eq ?_) h4) (converged_le hr (by positivity) hS)
    apply Finset.sum_congr rfl
    intro j _
    ring

/-- C72. When `cg` stops by its rule, every value it leaves is the mean over its neighbours up to the tolerance:
the defect of every free point is at most `max(rtol * C * X, atol)`, where `C` is the number of links between fixed and
free points and `X` bounds the fixed values. -/
theorem C72_mean_value (lin : LinSolver K) (rtol atol : K) (hr : 0 ≤ rtol) (hcg : CgConverges lin rtol atol)
    (links : List (Nat × Nat)) (a : SqMat ℤ) (hlap : graphLaplacian links = .ok a) (xf y : Arr K)
    (mask : Nat → Bool) (log : Bool) (hg : ∀ p < a.n, mask p = false → Grounded a.n links mask p)
    (h : dirichletGraph lin (castMat K a) xf mask log = .ok y) (k : Nat) (X : K) (hX : 0 ≤ X)
    (hfix : ∀ q < a.n, mask q = true → |xf.val k q| ≤ X) (p : Nat) (hp : p < a.n) (hpm : mask p = false) :
    |defect links (y.val k) p| ≤ max (rtol * (boundaryLinks links mask * X)) |atol| := by
  have h1 := residual_sq lin rtol atol hr hcg links a hlap xf y mask log hg h k X hX hfix
  have h2 : defect links (y.val k) p ^ 2 ≤
      ∑ q ∈ (Finset.range a.n).filter (fun q => mask q = false), defect links (y.val k) q ^ 2 :=
    Finset.single_le_sum (f := fun q => defect links (y.val k) q ^ 2) (fun _ _ => sq_nonneg _)
      (by rw [Finset.mem_filter, Finset.mem_range]; exact ⟨hp, hpm⟩)
  exact abs_le_of_sq_le_sq (h2.trans h1) ((abs_nonneg _).trans (le_max_right _ _))

/-- C72. When `cg` stops by its rule, the returned values differ from the exact solution by at most
`H * s * max(rtol * C * X, atol)`: `H` links lead from every free point to a fixed one, there are at most `s ^ 2` free
points, `C` links join fixed and free points and `X` bounds the fixed values. -/
theorem C72_error (lin : LinSolver K) (rtol atol : K) (hr : 0 ≤ rtol) (hcg : CgConverges lin rtol atol)
    (links : List (Nat × Nat)) (a : SqMat ℤ) (hlap : graphLaplacian links = .ok a) (xf y : Arr K)
    (mask : Nat → Bool) (log : Bool) (H s : Nat) (hg : ∀ p < a.n, mask p = false → WithinLinks a.n links mask H p)
    (hs : ((List.range a.n).countP fun p => !mask p) ≤ s ^ 2)
    (h : dirichletGraph lin (castMat K a) xf mask log = .ok y) (k : Nat) (X : K) (hX : 0 ≤ X)
    (hfix : ∀ q < a.n, mask q = true → |xf.val k q| ≤ X) (z : Nat → K)
    (hzf : ∀ q < a.n, mask q = true → z q = xf.val k q) (hz : ∀ q < a.n, mask q = false → Harmonic links z q)
    (p : Nat) (hp : p < a.n) :
    |y.val k p - z p| ≤ H * (s * max (rtol * (boundaryLinks links mask * X)) |atol|) := by
  have hfy := (C42_fixed lin _ xf y mask log h).2.2 k
  have h0 := C72_posteriori links a hlap mask H hg (y.val k) z
    (fun q hq hm => by rw [hfy q hm, hzf q hq hm]) hz p hp
  refine h0.trans (mul_le_mul_of_nonneg_left ?_ (Nat.cast_nonneg _))
  have h1 := residual_sq lin rtol atol hr hcg links a hlap xf y mask log
    (fun p hp hm => grounded_of_within (hg p hp hm)) h k X hX hfix
  rw [sum_free a.n mask fun q => |defect links (y.val k) q|]
  rw [sum_free a.n mask fun q => defect links (y.val k) q ^ 2] at h1
  refine norm_one_le ?_ _ ((abs_nonneg _).trans (le_max_right _ _)) h1
  unfold freeIdx
  rw [← List.countP_eq_length_filter]
  exact hs

omit [LinearOrder K] [IsStrictOrderedRing K] in
theorem exists_harmonic [LinearOrder K] [IsStrictOrderedRing K] {links : List (Nat × Nat)} {a : SqMat ℤ}
    (hlap : graphLaplacian links = .ok a) (mask : Nat → Bool)
    (hg : ∀ p < a.n, mask p = false → Grounded a.n links mask p) (xf : Nat → K) :
    ∃ z : Nat → K, (∀ q < a.n, mask q = true → z q = xf q) ∧ ∀ q < a.n, mask q = false → Harmonic links z q := by
  obtain ⟨x, _, hx⟩ := freeMat_solvable (K := K) hlap mask hg (freeRhs (castMat K a) mask xf) (by simp [freeRhs, freeMat])
  refine ⟨extend a.n mask xf x, fun q _ hm => by simp [extend, hm], fun q hq hm => ?_⟩
  exact (harmonic_iff hlap _ q).mpr (free_rows_zero (castMat K a) mask xf x hx q hq hm)

/-- C72. Under the same assumptions no value leaves the range of the fixed values by more than that error. -/
theorem C72_range (lin : LinSolver K) (rtol atol : K) (hr : 0 ≤ rtol) (hcg : CgConverges lin rtol atol)
    (links : List (Nat × Nat)) (a : SqMat ℤ) (hlap : graphLaplacian links = .ok a) (xf y : Arr K)
    (mask : Nat → Bool) (log : Bool) (H s : Nat) (hg : ∀ p < a.n, mask p = false → WithinLinks a.n links mask H p)
    (hs : ((List.range a.n).countP fun p => !mask p) ≤ s ^ 2)
    (h : dirichletGraph lin (castMat K a) xf mask log = .ok y) (k : Nat) (X : K) (hX : 0 ≤ X)
    (hfix : ∀ q < a.n, mask q = true → |xf.val k q| ≤ X) (lo hi : K)
    (hlh : ∀ q < a.n, mask q = true → lo ≤ xf.val k q ∧ xf.val k q ≤ hi) (p : Nat) (hp : p < a.n) :
    lo - H * (s * max (rtol * (boundaryLinks links mask * X)) |atol|) ≤ y.val k p ∧
    y.val k p ≤ hi + H * (s * max (rtol * (boundaryLinks links mask * X)) |atol|) := by
  have hgr := fun p hp hm => grounded_of_within (hg p hp hm)
  obtain ⟨z, hzf, hz⟩ := exists_harmonic hlap mask hgr (xf.val k)
  have he := C72_error lin rtol atol hr hcg links a hlap xf y mask log H s hg hs h k X hX hfix z hzf hz p hp
  have hin := (graphLaplacian_ok hlap).2.1
  have h1 := harmonic_le hin hgr hz (hi := hi) (fun q hq hm => by rw [hzf q hq hm]; exact (hlh q hq hm).2) p hp
  have h2 := harmonic_ge hin hgr hz (lo := lo) (fun q hq hm => by rw [hzf q hq hm]; exact (hlh q hq hm).1) p hp
  have h3 := abs_le.mp he
  constructor <;> linarith [h3.1, h3.2]

/-! ### The accuracy of `cg` on any mask -/

theorem within_of_grounded {n : Nat} {links : List (Nat × Nat)} (hin : ∀ u v, (u, v) ∈ links → u < n ∧ v < n)
    {mask : Nat → Bool} {p : Nat} (hp : p < n) (h : Grounded n links mask p) : WithinLinks n links mask n p := by
  classical
  obtain ⟨q, hq, hm, hr⟩ := h
  have hwalk : ∃ H, WithinLinks n links mask H p := by
    clear hp
    induction hr using Relation.ReflTransGen.head_induction_on with
    | refl => exact ⟨0, 0, le_rfl, fun _ => q, rfl, by simp, hq, hm⟩
    | @head c d hcd _ ih =>
      obtain ⟨H, k, hk, w, h0, hadj, h1, h2⟩ := ih
      refine ⟨H + 1, k + 1, by omega, fun i => if i = 0 then c else w (i - 1), by simp, ?_, by simpa using h1, by simpa using h2⟩
      intro i hi
      rcases Nat.eq_zero_or_pos i with h3 | h3
      · subst h3; simpa [h0] using hcd
      · have : i ≠ 0 := by omega
        simp only [this, if_false, Nat.add_eq_zero_iff, one_ne_zero, and_false, Nat.add_sub_cancel]
        have h4 := hadj (i - 1) (by omega)
        rwa [Nat.sub_add_cancel h3] at h4
  obtain ⟨H, hH⟩ := hwalk
  obtain ⟨k, _, w, h0, hadj, h1, h2, hinj⟩ := shortest_walk hH
  refine ⟨k, ?_, w, h0, hadj, h1, h2⟩
  have hw : ∀ i ≤ k, w i < n := by
    intro i hi
    rcases Nat.eq_zero_or_pos i with h3 | h3
    · subst h3; rw [h0]; exact hp
    · have h4 := hadj (i - 1) (by omega)
      rw [Nat.sub_add_cancel h3] at h4
      rcases h4 with h4 | h4
      · exact (hin _ _ h4).2
      · exact (hin _ _ h4).1
  have hcard : (Finset.range (k + 1)).card ≤ (Finset.range n).card := by
    apply Finset.card_le_card_of_injOn w
    · intro i hi
      simp only [Finset.coe_range, Set.mem_Iio] at hi ⊢
      exact hw i (by omega)
    · intro i hi j hj hij
      simp only [Finset.coe_range, Set.mem_Iio] at hi hj
      by_contra hne
      rcases Nat.lt_or_gt_of_ne hne with h5 | h5
      · exact hinj i j h5 (by omega) hij
      · exact hinj j i h5 (by omega) hij.symm
  simp only [Finset.card_range] at hcard
  omega

omit [LinearOrder K] [IsStrictOrderedRing K] in
theorem freeRhs_zero (a : SqMat ℤ) (mask : Nat → Bool) (k : Nat) :
    (freeRhs (castMat K a) mask (fun _ => (0 : K))).getD k 0 = 0 := by
  unfold freeRhs
  rw [List.getD_eq_getElem?_getD, List.getElem?_map]
  cases (freeIdx (castMat K a).n mask)[k]? <;> simp

/-- A system with exactly one solution has a fixed point. -/
theorem exists_masked {links : List (Nat × Nat)} {a : SqMat ℤ} (hlap : graphLaplacian links = .ok a)
    (mask : Nat → Bool) (b y : List K) (hl : y.length = (freeMat (castMat K a) mask).n)
    (hd : (freeMat (castMat K a) mask).dot y = b)
    (hu : ∀ y' : List K, y'.length = (freeMat (castMat K a) mask).n → (freeMat (castMat K a) mask).dot y' = b → y' = y)
    {k : Nat} (hk : k < (freeMat (castMat K a) mask).n) : ∃ q < a.n, mask q = true := by
  by_contra hno
  have hall : ∀ q < a.n, mask q = false := by
    intro q hq
    by_contra hc
    exact hno ⟨q, hq, by simpa using hc⟩
  have hfree : freeIdx a.n mask = List.range a.n := by
    unfold freeIdx
    rw [List.filter_eq_self]
    intro q hq
    simp [hall q (List.mem_range.mp hq)]
  have hmn : (freeMat (castMat K a) mask).n = a.n := by
    have : (freeMat (castMat K a) mask).n = (freeIdx a.n mask).length := rfl
    rw [this, hfree, List.length_range]
  have h := hu (y.map (· + 1)) (by simpa using hl) ?_
  · have h1 := congrArg (fun l : List K => l.getD k 0) h
    rw [getD_map_lt _ _ (by omega), List.getD_eq_getElem _ _ (by omega)] at h1
    simp at h1
  · rw [← hd]
    unfold SqMat.dot
    apply List.map_congr_left
    intro i hi
    rw [hmn] at hi ⊢
    have hi' := List.mem_range.mp hi
    rw [← sub_eq_zero, sum_range_list, sum_range_list, ← Finset.sum_sub_distrib]
    have h2 : ∀ j ∈ Finset.range a.n, (freeMat (castMat K a) mask).val i j * (y.map (· + 1)).getD j 0 -
        (freeMat (castMat K a) mask).val i j * y.getD j 0 = ((a.val i j : ℤ) : K) := by
      intro j hj
      have hj' := Finset.mem_range.mp hj
      have hv : (freeMat (castMat K a) mask).val i j = ((a.val i j : ℤ) : K) := by
        have : (freeMat (castMat K a) mask).val i j =
          ((a.val ((freeIdx a.n mask).getD i 0) ((freeIdx a.n mask).getD j 0) : ℤ) : K) := rfl
        rw [this, hfree, List.getD_eq_getElem _ _ (by simpa using hi'), List.getD_eq_getElem _ _ (by simpa using hj')]
        simp
      rw [hv, getD_map_lt _ _ (by omega), List.getD_eq_getElem _ _ (by omega)]
      ring
    rw [Finset.sum_congr rfl h2]
    have h3 := (C43_symmetric links a hlap i 0).2
    exact_mod_cast h3

theorem adjacent_reach_symm {links : List (Nat × Nat)} {p q : Nat}
    (h : Relation.ReflTransGen (Adjacent links) p q) : Relation.ReflTransGen (Adjacent links) q p := by
  induction h with
  | refl => exact .refl
  | tail _ h ih => exact Relation.ReflTransGen.head (Or.symm h) ih

/-- C72. On a connected graph of `n` points with `L` links, `cg` with the tolerances `rtol` and `atol` answers the
system of every mask up to `n * s * max(rtol * 4 * L * Y, atol)` when its solution is unique and bounded by `Y`,
where `n` is at most `s ^ 2`: this is the accuracy C70 and C71 ask for. -/
theorem C72_cg_within (lin : LinSolver K) (rtol atol : K) (hr : 0 ≤ rtol) (hcg : CgConverges lin rtol atol)
    (links : List (Nat × Nat)) (a : SqMat ℤ) (hlap : graphLaplacian links = .ok a) (hconn : Connected a.n links)
    (s : Nat) (hs : a.n ≤ s ^ 2) (Y ρ : K) (hY : 0 ≤ Y)
    (hρ : a.n * (s * max (rtol * (4 * links.length * Y)) |atol|) ≤ ρ) : CgWithin lin (castMat K a) Y ρ := by
  intro mask b y hl hd hu hyY k hk
  have hin := (graphLaplacian_ok hlap).2.1
  have hmn : (freeMat (castMat K a) mask).n = (freeIdx a.n mask).length := rfl
  have hk' : k < (freeIdx a.n mask).length := hk
  obtain ⟨q0, hq0, hq0m⟩ := exists_masked hlap mask b y hl hd hu hk
  have hg : ∀ p < a.n, mask p = false → WithinLinks a.n links mask a.n p := fun p hp _ =>
    within_of_grounded hin hp ⟨q0, hq0, hq0m, (adjacent_reach_symm (hconn p hp)).trans (hconn q0 hq0)⟩
  set x := lin.cg (freeMat (castMat K a) mask) b with hx
  obtain ⟨_, hres⟩ := hcg (freeMat (castMat K a) mask) b ⟨y, hl, hd⟩
  rw [← hx, hmn] at hres
  set ex : Nat → K := extend a.n mask (fun _ => 0) x with hex
  set ey : Nat → K := extend a.n mask (fun _ => 0) y with hey
  have hmask0 : ∀ q < a.n, mask q = true → ex q - ey q = 0 := by
    intro q _ hm
    simp [hex, hey, extend, hm]
  have hkmem : (freeIdx a.n mask).getD k 0 ∈ freeIdx a.n mask := by
    rw [List.getD_eq_getElem _ _ hk']; exact List.getElem_mem hk'
  obtain ⟨hkn, hkm⟩ := mem_freeIdx.mp hkmem
  have h1 := defect_bound hlap hg (fun q => ex q - ey q) hmask0 _ hkn
  have hval : ∀ v : List K, extend a.n mask (fun _ => (0 : K)) v ((freeIdx a.n mask).getD k 0) = v.getD k 0 := by
    intro v
    unfold extend
    rw [hkm]
    simp only [Bool.false_eq_true, if_false]
    rw [List.getD_eq_getElem _ _ hk', (freeIdx_nodup _ _).idxOf_getElem]
  simp only [hex, hey, hval] at h1
  refine h1.trans (le_trans ?_ hρ)
  refine mul_le_mul_of_nonneg_left ?_ (Nat.cast_nonneg _)
  simp only [defect_sub]
  rw [sum_free a.n mask fun q => |defect links (extend a.n mask (fun _ => 0) x) q - defect links (extend a.n mask (fun _ => 0) y) q|]
  have h2 : ∀ j ∈ Finset.range (freeIdx a.n mask).length,
      |defect links (extend a.n mask (fun _ => 0) x) ((freeIdx a.n mask).getD j 0) -
        defect links (extend a.n mask (fun _ => 0) y) ((freeIdx a.n mask).getD j 0)| =
      |b.getD j 0 - ((freeMat (castMat K a) mask).dot x).getD j 0| := by
    intro j hj
    have hj' := Finset.mem_range.mp hj
    rw [extend_defect hlap mask _ x j hj', extend_defect hlap mask _ y j hj', freeRhs_zero, hd]
    rw [sub_zero, sub_zero, abs_sub_comm]
  rw [Finset.sum_congr rfl h2]
  have hfl : (freeIdx a.n mask).length ≤ a.n := by
    unfold freeIdx
    exact (List.length_filter_le _ _).trans (by simp)
  have hL : (0 : K) ≤ 4 * links.length * Y := by positivity
  refine norm_one_le (hfl.trans hs) _ ((abs_nonneg _).trans (le_max_right _ _)) (hres.trans (converged_le hr hL ?_))
  have hb1 : ∑ j ∈ Finset.range (freeIdx a.n mask).length, |b.getD j 0| ≤ 4 * links.length * Y := by
    have h3 : ∀ j ∈ Finset.range (freeIdx a.n mask).length, |b.getD j 0| =
        |defect links ey ((freeIdx a.n mask).getD j 0)| := by
      intro j hj
      rw [hey, extend_defect hlap mask _ y j (Finset.mem_range.mp hj), freeRhs_zero, hd, sub_zero]
    rw [Finset.sum_congr rfl h3, ← sum_free a.n mask fun q => |defect links ey q|]
    have heyY : ∀ q, |ey q| ≤ Y := by
      intro q
      rw [hey]
      unfold extend
      split
      · simpa using hY
      · rw [List.getD_eq_getElem?_getD]
        cases hc : y[(freeIdx a.n mask).idxOf q]? with
        | none => simpa using hY
        | some v => simpa using hyY v (List.mem_of_getElem? hc)
    have h4 : ∀ q ∈ (Finset.range a.n).filter (fun q => mask q = false), |defect links ey q| ≤
        (links.map fun l => (if l.1 = q then 2 * Y else 0) + (if l.2 = q then 2 * Y else 0)).sum := by
      intro q _
      refine (list_abs_sum _ _).trans (List.sum_le_sum ?_)
      rintro ⟨u, v⟩ _
      have h5 : ∀ r t, |ey r - ey t| ≤ 2 * Y := fun r t => (abs_sub _ _).trans (by linarith [heyY r, heyY t])
      simp only
      split
      · have := h5 q v
        split <;> linarith
      · split
        · have := h5 q u; linarith
        · simp
    refine (Finset.sum_le_sum h4).trans ?_
    refine (Finset.sum_le_sum_of_subset_of_nonneg (Finset.filter_subset _ _) (fun q _ _ => ?_)).trans ?_
    · apply List.sum_nonneg
      intro v hv
      obtain ⟨l, _, rfl⟩ := List.mem_map.mp hv
      have : 0 ≤ 2 * Y := by linarith
      split <;> split <;> linarith
    · rw [finset_list_sum _ links fun q l => (if l.1 = q then 2 * Y else 0) + (if l.2 = q then 2 * Y else 0)]
      have h6 : ∀ l ∈ links, ∑ q ∈ Finset.range a.n, ((if l.1 = q then 2 * Y else 0) + (if l.2 = q then 2 * Y else 0)) = 4 * Y := by
        rintro ⟨u, v⟩ huv
        obtain ⟨h7, h8⟩ := hin u v huv
        rw [Finset.sum_add_distrib, Finset.sum_ite_eq, Finset.sum_ite_eq, if_pos (Finset.mem_range.mpr h7),
          if_pos (Finset.mem_range.mpr h8)]
        ring
      rw [List.map_congr_left h6, List.map_const', List.sum_replicate, nsmul_eq_mul]
      apply le_of_eq
      ring
  have h7 := Finset.sum_sq_le_sq_sum_of_nonneg (s := Finset.range (freeIdx a.n mask).length)
    (f := fun j => |b.getD j 0|) (fun _ _ => abs_nonneg _)
  simp only [sq_abs] at h7
  exact h7.trans (pow_le_pow_left₀ (Finset.sum_nonneg fun _ _ => abs_nonneg _) hb1 2)

/-! ### Example: a solver that stops early -/

/-- The norm condition of `cg` for one answer. -/
def stops (rtol atol : ℚ) (m : SqMat ℚ) (b x : List ℚ) : Prop :=
  ∑ k ∈ Finset.range m.n, (b.getD k 0 - (m.dot x).getD k 0) ^ 2 ≤
    max (rtol ^ 2 * ∑ k ∈ Finset.range m.n, b.getD k 0 ^ 2) (atol ^ 2)

open Classical in
/-- A solver that adds `d` to every value of the exact solution whenever the tolerance allows it. -/
noncomputable def sloppy (rtol atol d : ℚ) : LinSolver ℚ :=
  ⟨fun _ => true, fun m b =>
    if h : ∃ x : List ℚ, x.length = m.n ∧ m.dot x = b then
      if stops rtol atol m b (h.choose.map (· + d)) then h.choose.map (· + d) else h.choose
    else []⟩

theorem sloppy_converges (rtol atol d : ℚ) : CgConverges (sloppy rtol atol d) rtol atol := by
  intro m b hb
  simp only [sloppy, dif_pos hb]
  have hc := hb.choose_spec
  split
  · rename_i hs
    exact ⟨by rw [List.length_map]; exact hc.1, hs⟩
  · refine ⟨hc.1, ?_⟩
    simp only [hc.2, sub_self]
    refine le_trans (le_of_eq ?_) (le_max_of_le_right (sq_nonneg _))
    simp

theorem path_within : ∀ p < 4, (fun p => p == 0 || p == 3) p = false →
    WithinLinks 4 [(0, 1), (1, 2), (2, 3)] (fun p => p == 0 || p == 3) 1 p := by
  intro p hp hm
  refine ⟨1, le_rfl, fun i => if i = 0 then p else if p = 1 then 0 else 3, rfl, ?_⟩
  interval_cases p <;> first | exact absurd hm (by decide) | (refine ⟨?_, ?_, ?_⟩ <;> simp [Adjacent])

/-- The path of four points with 0 and 3 fixed at its ends: the answer is off by 1e-8, and within the bound
of `C72_error` with scipy's tolerances. -/
example : ∃ (lin : LinSolver ℚ) (a : SqMat ℤ) (y : Arr ℚ), CgConverges lin (1 / 10 ^ 7) (1 / 10 ^ 7) ∧
    graphLaplacian [(0, 1), (1, 2), (2, 3)] = .ok a ∧ a.n = 4 ∧
    dirichletGraph lin (castMat ℚ a) ⟨1, 4, fun _ p => (p : ℚ)⟩ (fun p => p == 0 || p == 3) true = .ok y ∧
    y.val 0 1 = 1 + 1 / 10 ^ 8 ∧ |y.val 0 1 - 1| ≤ 1 * (2 * (1 / 10 ^ 7 * (2 * 3))) := by
  obtain ⟨a, ha⟩ := (C43_returns [(0, 1), (1, 2), (2, 3)]).mpr (by simp)
  have hav : a = ⟨4, fun i j => ([(0, 1), (1, 2), (2, 3)].map fun l => incidence l i * incidence l j).sum⟩ := by
    unfold graphLaplacian at ha
    simp only [List.cons_ne_nil, if_false, Except.ok.injEq] at ha
    rw [← ha]
    rfl
  have hn : a.n = 4 := by rw [hav]
  set mask : Nat → Bool := fun p => p == 0 || p == 3 with hmask
  have hfree : freeIdx 4 mask = [1, 2] := by decide
  set lin := sloppy (1 / 10 ^ 7) (1 / 10 ^ 7) (1 / 10 ^ 8) with hlin
  have hd : ∃ y, dirichletGraph lin (castMat ℚ a) ⟨1, 4, fun _ p => (p : ℚ)⟩ mask true = .ok y := by
    unfold dirichletGraph
    rw [if_neg (by simp [castMat, hn]), if_neg (by simp [hlin, sloppy])]
    exact ⟨_, rfl⟩
  obtain ⟨y, hy⟩ := hd
  have hn2 : (freeMat (castMat ℚ a) mask).n = 2 := by
    have : (freeMat (castMat ℚ a) mask).n = (freeIdx a.n mask).length := rfl
    rw [this, hn, hfree]; rfl
  have hmat : ∀ x : List ℚ, (freeMat (castMat ℚ a) mask).dot x =
      [2 * x.getD 0 0 - x.getD 1 0, 2 * x.getD 1 0 - x.getD 0 0] := by
    intro x
    unfold SqMat.dot
    rw [hn2]
    have hv : ∀ i j, (freeMat (castMat ℚ a) mask).val i j = ((a.val ([1, 2].getD i 0) ([1, 2].getD j 0) : ℤ) : ℚ) := by
      intro i j
      have : (freeMat (castMat ℚ a) mask).val i j =
        ((a.val ((freeIdx a.n mask).getD i 0) ((freeIdx a.n mask).getD j 0) : ℤ) : ℚ) := rfl
      rw [this, hn, hfree]
    simp only [hv]
    rw [hav]
    simp only [List.range_succ, List.range_zero, List.nil_append, List.cons_append, List.map_cons, List.map_nil, List.sum_cons, List.sum_nil, incidence]
    norm_num
    constructor <;> ring
  have hrhs : freeRhs (castMat ℚ a) mask (fun p => (p : ℚ)) = [0, 3] := by
    unfold freeRhs
    have e : (castMat ℚ a).n = 4 := hn
    have h2 : (List.range 4).filter (fun j => mask j) = [0, 3] := by decide
    rw [e, hfree, h2]
    have hv : ∀ i j, (castMat ℚ a).val i j = ((a.val i j : ℤ) : ℚ) := fun _ _ => rfl
    simp only [hv]
    rw [hav]
    simp only [List.map_cons, List.map_nil, List.sum_cons, List.sum_nil, incidence]
    norm_num
  have hsol : ∃ x : List ℚ, x.length = (freeMat (castMat ℚ a) mask).n ∧ (freeMat (castMat ℚ a) mask).dot x = [0, 3] :=
    ⟨[1, 2], by rw [hn2]; rfl, by rw [hmat]; norm_num⟩
  have hcs := hsol.choose_spec
  have hx0 : hsol.choose = [1, 2] := by
    generalize hsol.choose = x at hcs
    obtain ⟨h1, h2⟩ := hcs
    rw [hn2] at h1
    rw [hmat] at h2
    match x, h1, h2 with
    | [u, v], _, h2 =>
      simp at h2
      obtain ⟨h3, h4⟩ := h2
      have : u = 1 := by linarith
      have : v = 2 := by linarith
      subst u v; rfl
  have hcg : lin.cg (freeMat (castMat ℚ a) mask) [0, 3] = [1 + 1 / 10 ^ 8, 2 + 1 / 10 ^ 8] := by
    simp only [hlin, sloppy, dif_pos hsol, hx0]
    rw [if_pos]
    · rfl
    · rw [hx0]
      unfold stops
      rw [hn2, hmat]
      simp only [Finset.sum_range_succ, Finset.sum_range_zero, List.map_cons, List.map_nil]
      norm_num
  have hy1 : y.val 0 1 = 1 + 1 / 10 ^ 8 := by
    obtain ⟨_, x, hx, hcase⟩ := dirichletGraph_extend hy 0
    simp only [hrhs] at hcase
    rcases hcase with ⟨h1, _⟩ | ⟨_, h1⟩
    · exact absurd (h1 3 (by simp)) (by norm_num)
    · rw [hx, h1, hcg]
      have e : (castMat ℚ a).n = 4 := hn
      unfold extend
      rw [e, hfree]
      simp [hmask]
  refine ⟨lin, a, y, sloppy_converges _ _ _, ha, hn, hy, hy1, ?_⟩
  have h := C72_error lin (1 / 10 ^ 7) (1 / 10 ^ 7) (by norm_num) (sloppy_converges _ _ _) _ a ha _ y mask true 1 2
    (by rw [hn]; exact path_within) (by rw [hn]; decide) hy 0 3 (by norm_num)
    (by intro q hq hm; rw [hn] at hq; interval_cases q <;> first | exact absurd hm (by decide) | norm_num)
    (fun p => (p : ℚ)) (fun _ _ _ => rfl)
    (by intro q hq hm; rw [hn] at hq; unfold Harmonic; interval_cases q <;> first | exact absurd hm (by decide) | norm_num)
    1 (by omega)
  have hb : boundaryLinks [(0, 1), (1, 2), (2, 3)] mask = 2 := by decide
  rw [hb] at h
  refine (le_of_eq ?_).trans (h.trans (le_of_eq ?_))
  · norm_num
  · norm_num

/-- With scipy's tolerances `cg` answers every system of the path up to 0.001 when its solution is bounded by 100. -/
example (a : SqMat ℤ) (ha : graphLaplacian [(0, 1), (1, 2), (2, 3)] = .ok a) :
    CgWithin (sloppy (1 / 10 ^ 7) (1 / 10 ^ 7) (1 / 10 ^ 8)) (castMat ℚ a) 100 (1 / 1000) := by
  have hn : a.n = 4 := by
    unfold graphLaplacian at ha
    simp only [List.cons_ne_nil, if_false, Except.ok.injEq] at ha
    rw [← ha]
    decide
  refine C72_cg_within _ _ _ (by norm_num) (sloppy_converges _ _ _) _ a ha ?_ 2 (by rw [hn]; norm_num) 100 _ (by norm_num) ?_
  · rw [hn]
    intro p hp
    have h1 : Relation.ReflTransGen (Adjacent [(0, 1), (1, 2), (2, 3)]) 0 1 := .single (by simp [Adjacent])
    have h2 := h1.tail (show Adjacent [(0, 1), (1, 2), (2, 3)] 1 2 by simp [Adjacent])
    have h3 := h2.tail (show Adjacent [(0, 1), (1, 2), (2, 3)] 2 3 by simp [Adjacent])
    interval_cases p
    · exact .refl
    · exact h1
    · exact h2
    · exact h3
  · rw [hn]
    norm_num

end

end Spurt
