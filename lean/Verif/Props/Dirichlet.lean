import Verif.Props.Laplacian
import Mathlib.LinearAlgebra.Matrix.ToLin
import Mathlib.LinearAlgebra.FiniteDimensional.Lemmas

/-!
# Property C42: Dirichlet problems on a graph
-/

namespace Spurt

section
variable {K : Type} [Field K] [LinearOrder K] [IsStrictOrderedRing K]

/-- The differences between the value at `p` and the values at the other ends of the links of `p`
sum to zero: the value is the mean over the neighbours. -/
def Spec.Harmonic (links : List (Nat × Nat)) (z : Nat → K) (p : Nat) : Prop :=
  (links.map fun l => if l.1 = p then z p - z l.2 else if l.2 = p then z p - z l.1 else 0).sum = 0

/-- Point `p` is joined by links to a point with a fixed value. -/
def Spec.Grounded (n : Nat) (links : List (Nat × Nat)) (mask : Nat → Bool) (p : Nat) : Prop :=
  ∃ q, q < n ∧ mask q = true ∧ Relation.ReflTransGen (Spec.Adjacent links) p q

/-- The solver of linear equations gives an exact solution whenever there is one. -/
def Spec.ExactSolver (lin : LinSolver K) : Prop :=
  ∀ (m : SqMat K) (b : List K), (∃ x : List K, x.length = m.n ∧ m.dot x = b) → m.dot (lin.cg m b) = b

/-- The integer matrix as a matrix over the field. -/
def castMat (K : Type) [Field K] (a : SqMat ℤ) : SqMat K := ⟨a.n, fun i j => ((a.val i j : ℤ) : K)⟩

open Spec

omit [Field K] [LinearOrder K] [IsStrictOrderedRing K] in
theorem mem_freeIdx {n : Nat} {mask : Nat → Bool} {p : Nat} :
    p ∈ freeIdx n mask ↔ p < n ∧ mask p = false := by
  simp [freeIdx]

theorem freeIdx_nodup (n : Nat) (mask : Nat → Bool) : (freeIdx n mask).Nodup :=
  List.Nodup.filter _ List.nodup_range

omit [LinearOrder K] [IsStrictOrderedRing K] in
theorem sum_filter_range (n : Nat) (p : Nat → Bool) (f : Nat → K) :
    (((List.range n).filter p).map f).sum = ∑ j ∈ Finset.range n, if p j then f j else 0 := by
  induction n with
  | zero => simp
  | succ n ih =>
    rw [List.range_succ, List.filter_append, List.map_append, List.sum_append, ih,
      Finset.sum_range_succ]
    congr 1
    by_cases h : p n <;> simp [h]

omit [LinearOrder K] [IsStrictOrderedRing K] in
/-- A sum over positions of the free points. -/
theorem sum_positions (free : List Nat) (hnd : free.Nodup) (g : Nat → K) (x : List K) :
    ((List.range free.length).map fun l => g (free.getD l 0) * x.getD l 0).sum =
      (free.map fun j => g j * x.getD (free.idxOf j) 0).sum := by
  congr 1
  apply List.ext_getElem (by simp)
  intro l h1 h2
  simp only [List.length_map, List.length_range] at h1
  simp only [List.getElem_map, List.getElem_range]
  rw [List.getD_eq_getElem _ _ h1, hnd.idxOf_getElem]

/-- The vector with the given fixed values and the solver's values at the free points. -/
def Spec.extend (n : Nat) (mask : Nat → Bool) (xf : Nat → K) (x : List K) (p : Nat) : K :=
  if mask p then xf p else x.getD ((freeIdx n mask).idxOf p) 0

omit [LinearOrder K] [IsStrictOrderedRing K] in
/-- Row of the full matrix at a free point, applied to the extended vector. -/
theorem extend_dot (a : SqMat K) (mask : Nat → Bool) (xf : Nat → K) (x : List K) (i : Nat) :
    ∑ j ∈ Finset.range a.n, a.val i j * extend a.n mask xf x j =
      (((List.range a.n).filter fun j => mask j).map fun j => a.val i j * xf j).sum +
      ((List.range (freeIdx a.n mask).length).map fun l =>
        a.val i ((freeIdx a.n mask).getD l 0) * x.getD l 0).sum := by
  rw [sum_positions _ (freeIdx_nodup _ _) (fun j => a.val i j)]
  rw [sum_filter_range]
  unfold freeIdx
  rw [sum_filter_range, ← Finset.sum_add_distrib]
  apply Finset.sum_congr rfl
  intro j _
  unfold extend
  by_cases h : mask j <;> simp [h, freeIdx]

omit [LinearOrder K] [IsStrictOrderedRing K] in
/-- An exact solution of the reduced equations satisfies the equations of the free points. -/
theorem free_rows_zero (a : SqMat K) (mask : Nat → Bool) (xf : Nat → K) (x : List K)
    (h : (freeMat a mask).dot x = freeRhs a mask xf) (i : Nat) (hi : i < a.n) (hm : mask i = false) :
    ∑ j ∈ Finset.range a.n, a.val i j * extend a.n mask xf x j = 0 := by
  have hmem : i ∈ freeIdx a.n mask := mem_freeIdx.mpr ⟨hi, hm⟩
  obtain ⟨k, hk, hki⟩ := List.getElem_of_mem hmem
  have h1 := congrArg (fun l => l.getD k 0) h
  simp only [SqMat.dot, freeMat, freeRhs] at h1
  rw [getD_map_lt _ _ (by simpa using hk), getD_map_lt _ _ hk] at h1
  simp only [List.getElem_range, List.getD_eq_getElem _ _ hk, hki] at h1
  rw [extend_dot, h1]
  ring

omit [LinearOrder K] [IsStrictOrderedRing K] in
theorem harmonic_iff {links : List (Nat × Nat)} {a : SqMat ℤ} (h : graphLaplacian links = .ok a)
    (z : Nat → K) (p : Nat) :
    Harmonic links z p ↔ ∑ j ∈ Finset.range a.n, ((a.val p j : ℤ) : K) * z j = 0 := by
  rw [laplacian_dot h]
  unfold Harmonic
  have : ∀ l ∈ links, (if l.1 = p then z p - z l.2 else if l.2 = p then z p - z l.1 else 0) =
      ((incidence l p : ℤ) : K) * (z l.2 - z l.1) := by
    rintro ⟨u, v⟩ _
    unfold incidence
    simp only
    by_cases h1 : u = p
    · subst h1
      by_cases h2 : u = v
      · subst h2; simp
      · simp [h2]
    · by_cases h2 : v = p
      · subst h2
        have : ¬ v = u := fun h => h1 h.symm
        simp [h1, this]
      · simp [h1, h2, Ne.symm h1, Ne.symm h2]
  rw [List.map_congr_left this]

theorem list_zero_of_nonneg {l : List K} (hn : ∀ x ∈ l, 0 ≤ x) (hs : l.sum = 0) : ∀ x ∈ l, x = 0 := by
  intro x hx
  have := List.single_le_sum hn x hx
  exact le_antisymm (hs ▸ this) (hn x hx)

/-- Maximum principle. -/
theorem harmonic_le {n : Nat} {links : List (Nat × Nat)} (hin : ∀ u v, (u, v) ∈ links → u < n ∧ v < n)
    {mask : Nat → Bool} {z : Nat → K} (hg : ∀ p < n, mask p = false → Grounded n links mask p)
    (hz : ∀ p < n, mask p = false → Harmonic links z p) {hi : K}
    (hm : ∀ p < n, mask p = true → z p ≤ hi) (p : Nat) (hp : p < n) : z p ≤ hi := by
  obtain ⟨m, hmn, hmax⟩ := Finset.exists_max_image (Finset.range n) z ⟨p, Finset.mem_range.mpr hp⟩
  rw [Finset.mem_range] at hmn
  have hmax' : ∀ q < n, z q ≤ z m := fun q hq => hmax q (Finset.mem_range.mpr hq)
  suffices z m ≤ hi from (hmax' p hp).trans this
  have nb : ∀ q < n, mask q = false → z q = z m → ∀ r, Adjacent links q r → r < n ∧ z r = z m := by
    intro q hq hqm hqe r hqr
    have hall := list_zero_of_nonneg (l := links.map fun l : Nat × Nat => if l.1 = q then z q - z l.2
      else if l.2 = q then z q - z l.1 else 0) (by
        intro x hx
        obtain ⟨⟨u, v⟩, hl, rfl⟩ := List.mem_map.mp hx
        obtain ⟨h1, h2⟩ := hin u v hl
        have e1 := hmax' u h1
        have e2 := hmax' v h2
        simp only
        split
        · rw [hqe]; linarith
        · split
          · rw [hqe]; linarith
          · exact le_refl _) (hz q hq hqm)
    rcases hqr with hl | hl
    · refine ⟨(hin q r hl).2, ?_⟩
      have := hall _ (List.mem_map.mpr ⟨(q, r), hl, rfl⟩)
      simp only [if_true] at this
      rw [← hqe]; linarith
    · refine ⟨(hin r q hl).1, ?_⟩
      have := hall _ (List.mem_map.mpr ⟨(r, q), hl, rfl⟩)
      simp only [if_true] at this
      split at this
      · rename_i h; rw [h, hqe]
      · rw [← hqe]; linarith
  cases hmm : mask m with
  | true => exact hm m hmn hmm
  | false =>
    obtain ⟨q, hq, hqm, hpath⟩ := hg m hmn hmm
    have key : ∀ i, Relation.ReflTransGen (Adjacent links) i q → i < n → z i = z m → z m ≤ hi := by
      intro i hi'
      induction hi' using Relation.ReflTransGen.head_induction_on with
      | refl => intro _ h; rw [← h]; exact hm q hq hqm
      | head hab _ ih =>
        rename_i a c _
        intro ha hza
        cases hma : mask a with
        | true => rw [← hza]; exact hm a ha hma
        | false =>
          obtain ⟨h1, h2⟩ := nb a ha hma hza c hab
          exact ih h1 h2
    exact key m hpath hmn rfl

omit [LinearOrder K] [IsStrictOrderedRing K] in
theorem harmonic_neg {links : List (Nat × Nat)} {z : Nat → K} {p : Nat} (h : Harmonic links z p) :
    Harmonic links (fun q => - z q) p := by
  unfold Harmonic at h ⊢
  have e : (links.map fun l => if l.1 = p then - z p - - z l.2 else if l.2 = p then - z p - - z l.1 else 0) =
      (links.map fun l => (if l.1 = p then z p - z l.2 else if l.2 = p then z p - z l.1 else 0)).map (- ·) := by
    rw [List.map_map]
    apply List.map_congr_left
    intro l _
    simp only [Function.comp]
    split
    · ring
    · split
      · ring
      · simp
  rw [e, ← List.sum_neg, h, neg_zero]

omit [LinearOrder K] [IsStrictOrderedRing K] in
theorem harmonic_sub {links : List (Nat × Nat)} {z w : Nat → K} {p : Nat} (h : Harmonic links z p)
    (h' : Harmonic links w p) : Harmonic links (fun q => z q - w q) p := by
  unfold Harmonic at h h' ⊢
  have e : ∀ links : List (Nat × Nat), (links.map fun l => if l.1 = p then (z p - w p) - (z l.2 - w l.2)
        else if l.2 = p then (z p - w p) - (z l.1 - w l.1) else 0).sum =
      (links.map fun l => if l.1 = p then z p - z l.2 else if l.2 = p then z p - z l.1 else 0).sum -
      (links.map fun l => if l.1 = p then w p - w l.2 else if l.2 = p then w p - w l.1 else 0).sum := by
    intro links
    induction links with
    | nil => simp
    | cons l links ih =>
      simp only [List.map_cons, List.sum_cons, ih]
      split
      · ring
      · split <;> ring
  rw [e, h, h', sub_self]

theorem harmonic_ge {n : Nat} {links : List (Nat × Nat)} (hin : ∀ u v, (u, v) ∈ links → u < n ∧ v < n)
    {mask : Nat → Bool} {z : Nat → K} (hg : ∀ p < n, mask p = false → Grounded n links mask p)
    (hz : ∀ p < n, mask p = false → Harmonic links z p) {lo : K}
    (hm : ∀ p < n, mask p = true → lo ≤ z p) (p : Nat) (hp : p < n) : lo ≤ z p := by
  have := harmonic_le hin hg (z := fun q => - z q) (hi := -lo) (fun q hq hqm => harmonic_neg (hz q hq hqm))
    (fun q hq hqm => neg_le_neg (hm q hq hqm)) p hp
  exact neg_le_neg_iff.mp this

theorem harmonic_unique {n : Nat} {links : List (Nat × Nat)} (hin : ∀ u v, (u, v) ∈ links → u < n ∧ v < n)
    {mask : Nat → Bool} {z w : Nat → K} (hg : ∀ p < n, mask p = false → Grounded n links mask p)
    (hz : ∀ p < n, mask p = false → Harmonic links z p)
    (hw : ∀ p < n, mask p = false → Harmonic links w p)
    (hm : ∀ p < n, mask p = true → z p = w p) (p : Nat) (hp : p < n) : z p = w p := by
  have h1 := harmonic_le hin hg (z := fun q => z q - w q) (hi := 0)
    (fun q hq hqm => harmonic_sub (hz q hq hqm) (hw q hq hqm))
    (fun q hq hqm => by rw [hm q hq hqm, sub_self]) p hp
  have h2 := harmonic_ge hin hg (z := fun q => z q - w q) (lo := 0)
    (fun q hq hqm => harmonic_sub (hz q hq hqm) (hw q hq hqm))
    (fun q hq hqm => by rw [hm q hq hqm, sub_self]) p hp
  exact sub_eq_zero.mp (le_antisymm h1 h2)

omit [LinearOrder K] [IsStrictOrderedRing K] in
/-- A square matrix whose only null vector is zero solves every equation. -/
theorem solvable_of_injective (m : SqMat K)
    (hinj : ∀ x : List K, x.length = m.n → m.dot x = List.replicate m.n 0 → ∀ k < m.n, x.getD k 0 = 0)
    (b : List K) (hb : b.length = m.n) : ∃ x : List K, x.length = m.n ∧ m.dot x = b := by
  let A : Matrix (Fin m.n) (Fin m.n) K := fun i j => m.val i j
  have hdot : ∀ (v : Fin m.n → K) (i : Fin m.n),
      (m.dot (List.ofFn v)).getD i 0 = A.mulVec v i := by
    intro v i
    unfold SqMat.dot
    rw [getD_map_lt _ _ (by simp)]
    rw [sum_getD]
    simp only [List.length_map, List.length_range, List.getElem_range]
    rw [Finset.sum_range]
    unfold Matrix.mulVec dotProduct
    apply Finset.sum_congr rfl
    intro j _
    rw [getD_map_lt _ _ (by simp)]
    simp [A, List.getD_eq_getElem?_getD]
  have inj : Function.Injective A.mulVecLin := by
    rw [← LinearMap.ker_eq_bot, LinearMap.ker_eq_bot']
    intro v hv
    have h0 := hinj (List.ofFn v) (by simp) (by
      apply List.ext_getElem (by simp [SqMat.dot])
      intro k h1 h2
      have hk : k < m.n := by simpa [SqMat.dot] using h1
      have := hdot v ⟨k, hk⟩
      rw [List.getD_eq_getElem _ _ h1] at this
      rw [this, List.getElem_replicate]
      exact congrFun hv ⟨k, hk⟩)
    ext k
    have := h0 k k.2
    simpa [List.getD_eq_getElem?_getD] using this
  obtain ⟨v, hv⟩ := LinearMap.injective_iff_surjective.mp inj (fun i => b.getD i 0)
  refine ⟨List.ofFn v, by simp, ?_⟩
  apply List.ext_getElem (by simp [SqMat.dot, hb])
  intro k h1 h2
  have hk : k < m.n := by rw [← hb]; exact h2
  have := hdot v ⟨k, hk⟩
  rw [List.getD_eq_getElem _ _ h1] at this
  rw [this]
  have := congrFun hv ⟨k, hk⟩
  simp only [Matrix.mulVecLin_apply] at this
  rw [this, List.getD_eq_getElem _ _ h2]

/-- The reduced equations of a graph whose free points are joined to fixed ones can be solved. -/
theorem freeMat_solvable {links : List (Nat × Nat)} {a : SqMat ℤ} (h : graphLaplacian links = .ok a)
    (mask : Nat → Bool) (hg : ∀ p < a.n, mask p = false → Grounded a.n links mask p) (b : List K)
    (hb : b.length = (freeMat (castMat K a) mask).n) :
    ∃ x : List K, x.length = (freeMat (castMat K a) mask).n ∧ (freeMat (castMat K a) mask).dot x = b := by
  obtain ⟨_, hin, _, _⟩ := graphLaplacian_ok h
  refine solvable_of_injective _ ?_ b hb
  intro x hx h0 k hk
  have hk' : k < (freeIdx a.n mask).length := hk
  have hrhs : freeRhs (castMat K a) mask (fun _ => (0 : K)) = List.replicate (freeMat (castMat K a) mask).n 0 := by
    unfold freeRhs freeMat
    apply List.ext_getElem (by simp)
    intro i h1 h2
    simp
  have hrows := free_rows_zero (castMat K a) mask (fun _ => (0 : K)) x (by rw [h0, hrhs])
  have hz := harmonic_unique hin hg (z := extend a.n mask (fun _ => (0 : K)) x) (w := fun _ => 0)
    (fun p hp hpm => (harmonic_iff h _ p).mpr (hrows p hp hpm))
    (fun p _ _ => by unfold Harmonic; apply List.sum_eq_zero; intro y hy
                     obtain ⟨l, _, rfl⟩ := List.mem_map.mp hy; simp)
    (fun p _ hpm => by unfold extend; simp [hpm])
    ((freeIdx a.n mask)[k]) (mem_freeIdx.mp (List.getElem_mem hk')).1
  unfold extend at hz
  rw [(mem_freeIdx.mp (List.getElem_mem hk')).2, (freeIdx_nodup _ _).idxOf_getElem] at hz
  simpa using hz

/-- C42. `dirichlet_graph` returns the fixed values on the mask, whatever the inner solver does. -/
theorem C42_fixed (lin : LinSolver K) (a : SqMat K) (xf y : Arr K) (mask : Nat → Bool) (log : Bool)
    (h : dirichletGraph lin a xf mask log = .ok y) :
    y.rows = xf.rows ∧ y.cols = xf.cols ∧ ∀ k p, mask p = true → y.val k p = xf.val k p := by
  unfold dirichletGraph at h
  split at h
  · simp at h
  · split at h
    · simp at h
    · simp only [Except.ok.injEq] at h
      subst h
      exact ⟨rfl, rfl, fun k p hp => by simp [hp]⟩

/-- The values at the free points are those of the solver or zero for a zero right-hand side. -/
theorem dirichletGraph_extend {lin : LinSolver K} {a : SqMat K} {xf y : Arr K} {mask : Nat → Bool}
    {log : Bool} (h : dirichletGraph lin a xf mask log = .ok y) (k : Nat) :
    a.n = xf.cols ∧ ∃ x, y.val k = extend a.n mask (xf.val k) x ∧
      (((∀ v ∈ freeRhs a mask (xf.val k), v = 0) ∧ log = true ∧
          x = List.replicate (freeIdx a.n mask).length 0) ∨
        ¬ ((∀ v ∈ freeRhs a mask (xf.val k), v = 0) ∧ log = true) ∧
          x = lin.cg (freeMat a mask) (freeRhs a mask (xf.val k))) := by
  unfold dirichletGraph at h
  split at h
  · simp at h
  · rename_i hn
    split at h
    · simp at h
    · simp only [Except.ok.injEq] at h
      subst h
      refine ⟨not_not.mp hn, _, rfl, ?_⟩
      by_cases hc : ((freeRhs a mask (xf.val k)).all fun v => decide (v = 0)) && log
      · left
        have hc' := hc
        rw [Bool.and_eq_true, List.all_eq_true] at hc'
        refine ⟨fun v hv => by simpa using hc'.1 v hv, hc'.2, ?_⟩
        rw [if_pos hc]
        unfold freeRhs
        rw [List.map_map]
        apply List.ext_getElem (by simp)
        intro i h1 h2
        simp
      · right
        rw [if_neg hc]
        refine ⟨?_, rfl⟩
        rintro ⟨h1, h2⟩
        apply hc
        rw [Bool.and_eq_true, List.all_eq_true]
        exact ⟨fun v hv => by simpa using h1 v hv, h2⟩

/-- C42. With an exact inner solver and a graph in which every free point is joined to a fixed
one, the value at every free point is the mean over its neighbours. -/
theorem C42_mean_value (lin : LinSolver K) (hex : ExactSolver lin) (links : List (Nat × Nat)) (a : SqMat ℤ)
    (hlap : graphLaplacian links = .ok a) (xf y : Arr K) (mask : Nat → Bool) (log : Bool)
    (hg : ∀ p < a.n, mask p = false → Grounded a.n links mask p)
    (h : dirichletGraph lin (castMat K a) xf mask log = .ok y) (k p : Nat) (hp : p < a.n)
    (hpm : mask p = false) : Harmonic links (y.val k) p := by
  obtain ⟨_, x, hx, hcase⟩ := dirichletGraph_extend h k
  rw [hx]
  refine (harmonic_iff hlap _ p).mpr ?_
  refine free_rows_zero (castMat K a) mask (xf.val k) x ?_ p hp hpm
  rcases hcase with ⟨h1, _, h3⟩ | ⟨_, h3⟩
  · rw [h3]
    unfold freeMat SqMat.dot
    apply List.ext_getElem (by simp [freeRhs])
    intro i h4 h5
    rw [h1 _ (List.getElem_mem h5)]
    simp only [List.getElem_map]
    apply List.sum_eq_zero
    intro v hv
    obtain ⟨j, hj, rfl⟩ := List.mem_map.mp hv
    have : (List.replicate (freeIdx (castMat K a).n mask).length (0 : K)).getD j 0 = 0 := by
      rw [List.getD_eq_getElem?_getD]
      rw [List.getElem?_replicate]
      split <;> rfl
    rw [this, mul_zero]
  · rw [h3]
    exact hex _ _ (freeMat_solvable hlap mask hg _ (by simp [freeRhs, freeMat]))

/-- C42. Under the same assumptions, no value lies outside the range of the fixed values. -/
theorem C42_range (lin : LinSolver K) (hex : ExactSolver lin) (links : List (Nat × Nat)) (a : SqMat ℤ)
    (hlap : graphLaplacian links = .ok a) (xf y : Arr K) (mask : Nat → Bool) (log : Bool)
    (hg : ∀ p < a.n, mask p = false → Grounded a.n links mask p)
    (h : dirichletGraph lin (castMat K a) xf mask log = .ok y) (k : Nat) (lo hi : K)
    (hfix : ∀ q < a.n, mask q = true → lo ≤ xf.val k q ∧ xf.val k q ≤ hi) (p : Nat) (hp : p < a.n) :
    lo ≤ y.val k p ∧ y.val k p ≤ hi := by
  obtain ⟨_, hin, _, _⟩ := graphLaplacian_ok hlap
  have hh := C42_mean_value lin hex links a hlap xf y mask log hg h k
  have hf := (C42_fixed lin _ xf y mask log h).2.2 k
  exact ⟨harmonic_ge hin hg hh (fun q hq hqm => by rw [hf q hqm]; exact (hfix q hq hqm).1) p hp,
    harmonic_le hin hg hh (fun q hq hqm => by rw [hf q hqm]; exact (hfix q hq hqm).2) p hp⟩

/-- C42. Under the same assumptions, the result is the only vector with the fixed values and the
mean value property, so it does not depend on the solver or on logging. -/
theorem C42_unique (lin : LinSolver K) (hex : ExactSolver lin) (links : List (Nat × Nat)) (a : SqMat ℤ)
    (hlap : graphLaplacian links = .ok a) (xf y : Arr K) (mask : Nat → Bool) (log : Bool)
    (hg : ∀ p < a.n, mask p = false → Grounded a.n links mask p)
    (h : dirichletGraph lin (castMat K a) xf mask log = .ok y) (k : Nat) (z : Nat → K)
    (hz : ∀ q < a.n, mask q = true → z q = xf.val k q)
    (hzh : ∀ q < a.n, mask q = false → Harmonic links z q) (p : Nat) (hp : p < a.n) :
    y.val k p = z p := by
  obtain ⟨_, hin, _, _⟩ := graphLaplacian_ok hlap
  have hh := C42_mean_value lin hex links a hlap xf y mask log hg h k
  have hf := (C42_fixed lin _ xf y mask log h).2.2 k
  exact harmonic_unique hin hg hh hzh (fun q hq hqm => by rw [hf q hqm, hz q hq hqm]) p hp

/-- C42. With logging on, as in the merge step, fixed values that are all zero give zero
everywhere, whatever the inner solver does. -/
theorem C42_zero (lin : LinSolver K) (a : SqMat K) (xf y : Arr K) (mask : Nat → Bool)
    (h : dirichletGraph lin a xf mask true = .ok y) (k : Nat)
    (hfix : ∀ q < a.n, mask q = true → xf.val k q = 0) (p : Nat) (hp : p < a.n) :
    y.val k p = 0 := by
  obtain ⟨_, x, hx, hcase⟩ := dirichletGraph_extend h k
  have hb : ∀ v ∈ freeRhs a mask (xf.val k), v = 0 := by
    intro v hv
    obtain ⟨i, _, rfl⟩ := List.mem_map.mp hv
    rw [neg_eq_zero]
    apply List.sum_eq_zero
    intro w hw
    obtain ⟨j, hj, rfl⟩ := List.mem_map.mp hw
    rw [List.mem_filter, List.mem_range] at hj
    rw [hfix j hj.1 hj.2, mul_zero]
  rcases hcase with ⟨_, _, h3⟩ | ⟨h3, _⟩
  · rw [hx, h3]
    unfold extend
    split
    · rename_i hm; exact hfix p hp hm
    · rw [List.getD_eq_getElem?_getD, List.getElem?_replicate]
      split <;> rfl
  · exact absurd ⟨hb, rfl⟩ h3

/-- Exact solvers exist. -/
theorem exists_exact_solver : ∃ lin : LinSolver K, ExactSolver lin ∧ ∀ m, lin.ilu m = true := by
  classical
  refine ⟨⟨fun _ => true, fun m b => if h : ∃ x : List K, x.length = m.n ∧ m.dot x = b then h.choose else []⟩,
    ?_, fun _ => rfl⟩
  intro m b hb
  simp only [hb, dif_pos]
  exact hb.choose_spec.2

/-- A path of four points with the values 0 and 3 fixed at its ends. -/
example : ∃ (lin : LinSolver ℚ) (a : SqMat ℤ) (y : Arr ℚ), ExactSolver lin ∧
    graphLaplacian [(0, 1), (1, 2), (2, 3)] = .ok a ∧
    (∀ p < a.n, (fun p => p == 0 || p == 3) p = false → Grounded a.n [(0, 1), (1, 2), (2, 3)]
      (fun p => p == 0 || p == 3) p) ∧
    dirichletGraph lin (castMat ℚ a) ⟨1, 4, fun _ p => (p : ℚ)⟩ (fun p => p == 0 || p == 3) true = .ok y ∧
    y.val 0 1 = 1 ∧ y.val 0 2 = 2 := by
  obtain ⟨lin, hex, hilu⟩ := exists_exact_solver (K := ℚ)
  obtain ⟨a, ha⟩ := (C43_returns [(0, 1), (1, 2), (2, 3)]).mpr (by simp)
  have hn : a.n = 4 := by
    unfold graphLaplacian at ha
    simp only [List.cons_ne_nil, if_false, Except.ok.injEq] at ha
    rw [← ha]
    decide
  have hg : ∀ p < a.n, (fun p => p == 0 || p == 3) p = false → Grounded a.n [(0, 1), (1, 2), (2, 3)]
      (fun p => p == 0 || p == 3) p := by
    intro p hp hm
    rw [hn] at hp ⊢
    refine ⟨if p = 2 then 3 else 0, ?_⟩
    interval_cases p
    · simp at hm
    · exact ⟨by decide, by decide, .single (by simp [Adjacent])⟩
    · exact ⟨by decide, by decide, .single (by simp [Adjacent])⟩
    · simp at hm
  have hd : ∃ y, dirichletGraph lin (castMat ℚ a) ⟨1, 4, fun _ p => (p : ℚ)⟩
      (fun p => p == 0 || p == 3) true = .ok y := by
    unfold dirichletGraph
    rw [if_neg (by simp [castMat, hn]), if_neg (by simp [hilu])]
    exact ⟨_, rfl⟩
  obtain ⟨y, hy⟩ := hd
  have hu := C42_unique lin hex _ a ha _ y _ true hg hy 0 (fun p => (p : ℚ)) (fun q _ _ => rfl) (by
    intro q hq hm
    rw [hn] at hq
    unfold Harmonic
    interval_cases q
    · simp at hm
    · norm_num
    · norm_num
    · simp at hm)
  refine ⟨lin, a, y, hex, ha, hg, hy, ?_, ?_⟩
  · have := hu 1 (by omega); simpa using this
  · have := hu 2 (by omega); simpa using this

end

end Spurt
