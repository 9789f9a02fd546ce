import Verif.Lemmas.FloatAdjust
import Verif.Props.Dirichlet
import Verif.Spec.FloatMerge
import Mathlib.Tactic.Linarith
import Mathlib.Tactic.Positivity
import Mathlib.Tactic.Ring

/-!
# Dirichlet problems in mixed precision: the answers are bounded by the fixed values
-/

namespace Spurt
open Spec

section
variable {K : Type} [Field K] [LinearOrder K] [IsStrictOrderedRing K]

theorem list_zero_of_nonneg_le {l : List K} (hn : ∀ x ∈ l, 0 ≤ x) (hs : l.sum ≤ 0) : ∀ x ∈ l, x = 0 := by
  intro x hx
  have := List.single_le_sum hn x hx
  exact le_antisymm (this.trans hs) (hn x hx)

/-- Maximum principle for values that are at most the mean over the neighbours. -/
theorem subharmonic_le {n : Nat} {links : List (Nat × Nat)} (hin : ∀ u v, (u, v) ∈ links → u < n ∧ v < n)
    {mask : Nat → Bool} {z : Nat → K} (hg : ∀ p < n, mask p = false → Grounded n links mask p)
    (hz : ∀ p < n, mask p = false →
      (links.map fun l => if l.1 = p then z p - z l.2 else if l.2 = p then z p - z l.1 else 0).sum ≤ 0) {hi : K}
    (hm : ∀ p < n, mask p = true → z p ≤ hi) (p : Nat) (hp : p < n) : z p ≤ hi := by
  obtain ⟨m, hmn, hmax⟩ := Finset.exists_max_image (Finset.range n) z ⟨p, Finset.mem_range.mpr hp⟩
  rw [Finset.mem_range] at hmn
  have hmax' : ∀ q < n, z q ≤ z m := fun q hq => hmax q (Finset.mem_range.mpr hq)
  suffices z m ≤ hi from (hmax' p hp).trans this
  have nb : ∀ q < n, mask q = false → z q = z m → ∀ r, Adjacent links q r → r < n ∧ z r = z m := by
    intro q hq hqm hqe r hqr
    have hall := list_zero_of_nonneg_le (l := links.map fun l : Nat × Nat => if l.1 = q then z q - z l.2
      else if l.2 = q then z q - z l.1 else 0) (by
        intro x hx
        obtain ⟨⟨u, v⟩, hl, rfl⟩ := List.mem_map.mp hx
        obtain ⟨h1, h2⟩ := hin u v hl
        have e1 := hmax' u h1
        have e2 := hmax' v h2
        simp only
        split
        · rw [hqe]; linarith
        · split
          · rw [hqe]; linarith
          · exact le_refl _) (hz q hq hqm)
    rcases hqr with hl | hl
    · refine ⟨(hin q r hl).2, ?_⟩
      have := hall _ (List.mem_map.mpr ⟨(q, r), hl, rfl⟩)
      simp only [if_true] at this
      rw [← hqe]; linarith
    · refine ⟨(hin r q hl).1, ?_⟩
      have := hall _ (List.mem_map.mpr ⟨(r, q), hl, rfl⟩)
      simp only [if_true] at this
      split at this
      · rename_i h; rw [h, hqe]
      · rw [← hqe]; linarith
  cases hmm : mask m with
  | true => exact hm m hmn hmm
  | false =>
    obtain ⟨q, hq, hqm, hpath⟩ := hg m hmn hmm
    have key : ∀ i, Relation.ReflTransGen (Adjacent links) i q → i < n → z i = z m → z m ≤ hi := by
      intro i hi'
      induction hi' using Relation.ReflTransGen.head_induction_on with
      | refl => intro _ h; rw [← h]; exact hm q hq hqm
      | head hab _ ih =>
        rename_i a c _
        intro ha hza
        cases hma : mask a with
        | true => rw [← hza]; exact hm a ha hma
        | false =>
          obtain ⟨h1, h2⟩ := nb a ha hma hza c hab
          exact ih h1 h2
    exact key m hpath hmn rfl

omit [LinearOrder K] [IsStrictOrderedRing K] in
/-- A row of the Laplacian applied to a vector, link by link. -/
theorem row_links {links : List (Nat × Nat)} {a : SqMat ℤ} (h : graphLaplacian links = .ok a) (z : Nat → K) (p : Nat) :
    (links.map fun l => if l.1 = p then z p - z l.2 else if l.2 = p then z p - z l.1 else 0).sum =
      ∑ j ∈ Finset.range a.n, ((a.val p j : ℤ) : K) * z j := by
  rw [laplacian_dot h]
  congr 1
  apply List.map_congr_left
  rintro ⟨u, v⟩ _
  unfold incidence
  simp only
  by_cases h1 : u = p
  · subst h1
    by_cases h2 : u = v
    · subst h2; simp
    · simp [h2]
  · by_cases h2 : v = p
    · subst h2
      have : ¬ v = u := fun h => h1 h.symm
      simp [h1, this]
    · simp [h1, h2, Ne.symm h1, Ne.symm h2]

/-- The number of links from a point to fixed points. -/
def fixedLinks (K : Type) [Field K] (links : List (Nat × Nat)) (mask : Nat → Bool) (p : Nat) : K :=
  (links.map fun l => if l.1 = p then (if mask l.2 then (1 : K) else 0) else
    if l.2 = p then (if mask l.1 then 1 else 0) else 0).sum

theorem fixedLinks_le (links : List (Nat × Nat)) (mask : Nat → Bool) (p : Nat) :
    fixedLinks K links mask p ≤ (links.length : K) := by
  unfold fixedLinks
  induction links with
  | nil => simp
  | cons l links ih =>
    simp only [List.map_cons, List.sum_cons, List.length_cons, Nat.cast_add, Nat.cast_one]
    have : (if l.1 = p then (if mask l.2 then (1 : K) else 0) else
        if l.2 = p then (if mask l.1 then 1 else 0) else 0) ≤ 1 := by
      split_ifs <;> simp
    linarith

omit [LinearOrder K] [IsStrictOrderedRing K] in
/-- At a free point it is the negative sum of the entries of the fixed columns. -/
theorem fixedLinks_eq {links : List (Nat × Nat)} {a : SqMat ℤ} (h : graphLaplacian links = .ok a) (mask : Nat → Bool)
    (p : Nat) (hp : mask p = false) :
    fixedLinks K links mask p = ∑ j ∈ Finset.range a.n, if mask j then -((a.val p j : ℤ) : K) else 0 := by
  have h1 := row_links (K := K) h (fun j => if mask j then (-1 : K) else 0) p
  have h2 : (∑ j ∈ Finset.range a.n, if mask j then -((a.val p j : ℤ) : K) else 0) =
      ∑ j ∈ Finset.range a.n, ((a.val p j : ℤ) : K) * (if mask j then (-1 : K) else 0) := by
    apply Finset.sum_congr rfl
    intro j _
    split <;> simp
  rw [h2, ← h1]
  unfold fixedLinks
  congr 1
  apply List.map_congr_left
  intro l _
  simp only [hp, Bool.false_eq_true, if_false]
  split_ifs <;> simp

/-- A solution of the equations of the free points is bounded when the right-hand sides are bounded in
terms of the links to fixed points. -/
theorem free_solution_bound {links : List (Nat × Nat)} {a : SqMat ℤ} (h : graphLaplacian links = .ok a)
    (mask : Nat → Bool) (hg : ∀ p < a.n, mask p = false → Grounded a.n links mask p) {Y : K} {b y : List K}
    (hy : y.length = (freeMat (castMat K a) mask).n) (hdot : (freeMat (castMat K a) mask).dot y = b)
    (hb : ∀ p < a.n, mask p = false → |b.getD ((freeIdx a.n mask).idxOf p) 0| ≤ Y * fixedLinks K links mask p)
    (hY : 0 ≤ Y) : ∀ v ∈ y, |v| ≤ Y := by
  obtain ⟨_, hin, _, _⟩ := graphLaplacian_ok h
  have hrow : ∀ p < a.n, mask p = false → ∑ j ∈ Finset.range a.n, ((a.val p j : ℤ) : K) *
      extend a.n mask (fun _ => (0 : K)) y j = b.getD ((freeIdx a.n mask).idxOf p) 0 := by
    intro p hp hm
    have hmem : p ∈ freeIdx a.n mask := mem_freeIdx.mpr ⟨hp, hm⟩
    have hk := List.idxOf_lt_length_iff.mpr hmem
    have e := extend_dot (castMat K a) mask (fun _ => (0 : K)) y p
    have hz : (((List.range (castMat K a).n).filter fun j => mask j).map fun j =>
        (castMat K a).val p j * (fun _ => (0 : K)) j).sum = 0 := by
      apply List.sum_eq_zero
      intro x hx
      obtain ⟨j, _, rfl⟩ := List.mem_map.mp hx
      simp
    rw [hz, zero_add] at e
    change ∑ j ∈ Finset.range a.n, ((a.val p j : ℤ) : K) * extend a.n mask (fun _ => (0 : K)) y j = _ at e
    rw [e, ← hdot]
    unfold SqMat.dot freeMat
    simp only
    have hn : (castMat K a).n = a.n := rfl
    rw [hn, getD_map_lt _ _ (by simpa using hk)]
    simp only [List.getElem_range]
    rw [List.getD_eq_getElem _ _ hk, List.getElem_idxOf hk]
  have key : ∀ s : K, (s = 1 ∨ s = -1) → ∀ p < a.n,
      s * extend a.n mask (fun _ => (0 : K)) y p - (if mask p then 0 else Y) ≤ 0 := by
    intro s hs p hp
    refine subharmonic_le (z := fun q => s * extend a.n mask (fun _ => (0 : K)) y q - (if mask q then 0 else Y)) hin hg ?_ ?_ p hp
    · intro q hq hqm
      have e0 := row_links h (fun q => s * extend a.n mask (fun _ => (0 : K)) y q - (if mask q then 0 else Y)) q
      rw [e0]
      have e1 : ∑ j ∈ Finset.range a.n, ((a.val q j : ℤ) : K) *
          (s * extend a.n mask (fun _ => (0 : K)) y j - (if mask j then 0 else Y)) =
          s * (∑ j ∈ Finset.range a.n, ((a.val q j : ℤ) : K) * extend a.n mask (fun _ => (0 : K)) y j) -
          Y * fixedLinks K links mask q := by
        have hsum : ∑ j ∈ Finset.range a.n, ((a.val q j : ℤ) : K) * (1 : K) = 0 := by
          rw [laplacian_dot h]
          apply List.sum_eq_zero
          intro x hx
          obtain ⟨l, _, rfl⟩ := List.mem_map.mp hx
          simp
        rw [fixedLinks_eq h mask q hqm, Finset.mul_sum, Finset.mul_sum, ← Finset.sum_sub_distrib]
        have : ∀ j ∈ Finset.range a.n, ((a.val q j : ℤ) : K) *
            (s * extend a.n mask (fun _ => (0 : K)) y j - (if mask j then 0 else Y)) =
            (s * (((a.val q j : ℤ) : K) * extend a.n mask (fun _ => (0 : K)) y j) -
              Y * (if mask j then -((a.val q j : ℤ) : K) else 0)) - Y * (((a.val q j : ℤ) : K) * 1) := by
          intro j _
          split <;> ring
        rw [Finset.sum_congr rfl this, Finset.sum_sub_distrib, ← Finset.mul_sum (f := fun j => ((a.val q j : ℤ) : K) * 1),
          hsum, mul_zero, sub_zero]
      rw [e1, hrow q hq hqm]
      have := abs_le.mp (hb q hq hqm)
      rcases hs with rfl | rfl <;> linarith
    · intro q hq hqm
      simp [extend, hqm]
  intro v hv
  obtain ⟨k, hk, rfl⟩ := List.mem_iff_getElem.mp hv
  have hk' : k < (freeIdx a.n mask).length := by rw [hy] at hk; exact hk
  obtain ⟨hp, hm⟩ := mem_freeIdx.mp (List.getElem_mem hk')
  have h1 := key 1 (Or.inl rfl) _ hp
  have h2 := key (-1) (Or.inr rfl) _ hp
  have he : extend a.n mask (fun _ => (0 : K)) y ((freeIdx a.n mask)[k]) = y[k] := by
    unfold extend
    rw [hm, (freeIdx_nodup _ _).idxOf_getElem, List.getD_eq_getElem _ _ hk]
    simp
  rw [he] at h1 h2
  simp only [hm, Bool.false_eq_true, if_false] at h1 h2
  rw [abs_le]
  constructor <;> linarith

omit [LinearOrder K] [IsStrictOrderedRing K] in
theorem sum_map_sub {α : Type} (l : List α) (f g : α → K) :
    (l.map fun j => f j - g j).sum = (l.map f).sum - (l.map g).sum := by
  induction l with
  | nil => simp
  | cons x l ih => simp only [List.map_cons, List.sum_cons, ih]; ring

/-- Off the diagonal the Laplacian counts links, with a minus sign. -/
theorem laplacian_off {links : List (Nat × Nat)} {a : SqMat ℤ} (h : graphLaplacian links = .ok a) {i j : Nat} (hij : i ≠ j) :
    a.val i j ≤ 0 := by
  obtain ⟨_, _, _, hval⟩ := graphLaplacian_ok h
  rw [hval]
  suffices ∀ links : List (Nat × Nat), (links.map fun l => incidence l i * incidence l j).sum ≤ 0 from this links
  intro links
  induction links with
  | nil => simp
  | cons l links ih =>
    rw [List.map_cons, List.sum_cons]
    have : incidence l i * incidence l j ≤ 0 := by
      unfold incidence
      by_cases h1 : i = l.2 <;> by_cases h2 : i = l.1 <;> by_cases h3 : j = l.2 <;> by_cases h4 : j = l.1 <;>
        simp_all
    omega

/-- The sum scipy computes is bounded by the number of links to fixed points. -/
theorem foldl_fd_bound {fd : K → K} {Bd ηd : K} (hfd : Rounds fd Bd ηd) (hηd : 0 ≤ ηd) {w m : Nat → K} {X : K} (hX : 0 ≤ X)
    (l : List Nat) (hw : ∀ j ∈ l, 1 ≤ m j ∧ |w j| ≤ m j * X) (acc S : K) (hacc : |acc| ≤ S)
    (hB : S + (l.map m).sum * (X + 2 * ηd) ≤ Bd) :
    |l.foldl (fun acc j => fd (acc + fd (w j))) acc| ≤ S + (l.map m).sum * (X + 2 * ηd) := by
  induction l generalizing acc S with
  | nil => simpa using hacc
  | cons j l ih =>
    rw [List.foldl_cons, List.map_cons, List.sum_cons]
    rw [List.map_cons, List.sum_cons] at hB
    obtain ⟨h1, h2⟩ := hw j List.mem_cons_self
    have hl : ∀ j ∈ l, 1 ≤ m j ∧ |w j| ≤ m j * X := fun j hj => hw j (List.mem_cons_of_mem _ hj)
    have hpos : 0 ≤ (l.map m).sum := by
      apply List.sum_nonneg
      intro x hx
      obtain ⟨j, hj, rfl⟩ := List.mem_map.mp hx
      linarith [(hl j hj).1]
    have hS : 0 ≤ S := (abs_nonneg _).trans hacc
    have hp2 : 0 ≤ (l.map m).sum * (X + 2 * ηd) := by positivity
    have hmη : 2 * ηd ≤ m j * (2 * ηd) := by nlinarith
    have hexp : (m j + (l.map m).sum) * (X + 2 * ηd) = m j * X + m j * (2 * ηd) + (l.map m).sum * (X + 2 * ηd) := by ring
    rw [hexp] at hB ⊢
    have e1 := hfd.close (w j) (by linarith)
    have e2 : |fd (w j)| ≤ m j * X + ηd := by
      have := abs_add_le (fd (w j) - w j) (w j)
      rw [sub_add_cancel] at this
      linarith
    have e3 : |acc + fd (w j)| ≤ S + m j * X + ηd := (abs_add_le _ _).trans (by linarith)
    have e4 := hfd.close (acc + fd (w j)) (by linarith)
    have e5 : |fd (acc + fd (w j))| ≤ S + m j * X + m j * (2 * ηd) := by
      have := abs_add_le (fd (acc + fd (w j)) - (acc + fd (w j))) (acc + fd (w j))
      rw [sub_add_cancel] at this
      linarith
    have := ih hl _ _ e5 (by linarith)
    linarith

theorem freeRhsFl_bound {fd : K → K} {Bd ηd : K} (hfd : Rounds fd Bd ηd) (hηd : 0 ≤ ηd) {links : List (Nat × Nat)}
    {a : SqMat ℤ} (h : graphLaplacian links = .ok a) {mask : Nat → Bool} {x : Nat → K} {X : K} (hX : 0 ≤ X)
    (hx : ∀ q < a.n, mask q = true → |x q| ≤ X) (hB : (links.length : K) * (X + 2 * ηd) ≤ Bd)
    (p : Nat) (hp : p < a.n) (hm : mask p = false) :
    |(freeRhsFl fd (castMat K a) mask x).getD ((freeIdx a.n mask).idxOf p) 0| ≤
      (X + 2 * ηd) * fixedLinks K links mask p := by
  have hmem : p ∈ freeIdx a.n mask := mem_freeIdx.mpr ⟨hp, hm⟩
  have hk := List.idxOf_lt_length_iff.mpr hmem
  unfold freeRhsFl
  have hn : (castMat K a).n = a.n := rfl
  rw [hn, getD_map_lt _ _ hk, List.getElem_idxOf hk, abs_neg]
  have hZ : 0 ≤ X + 2 * ηd := by linarith
  have hsum : (((List.range a.n).filter fun j => mask j && decide ((castMat K a).val p j ≠ 0)).map
      fun j => -(castMat K a).val p j).sum = fixedLinks K links mask p := by
    rw [fixedLinks_eq h mask p hm, sum_filter_range]
    apply Finset.sum_congr rfl
    intro j _
    by_cases h1 : mask j <;> by_cases h2 : (castMat K a).val p j = 0
    · simp only [h1, h2, ne_eq, not_true_eq_false, decide_false, Bool.and_false, Bool.false_eq_true, if_false, if_true]
      change 0 = -(castMat K a).val p j
      rw [h2, neg_zero]
    · simp [h1, h2]; rfl
    · simp [h1]
    · simp [h1]
  have hle : fixedLinks K links mask p * (X + 2 * ηd) ≤ (links.length : K) * (X + 2 * ηd) :=
    mul_le_mul_of_nonneg_right (fixedLinks_le links mask p) hZ
  have := foldl_fd_bound hfd hηd (w := fun j => (castMat K a).val p j * x j) (m := fun j => -(castMat K a).val p j) hX
    ((List.range a.n).filter fun j => mask j && decide ((castMat K a).val p j ≠ 0)) (by
      intro j hj
      rw [List.mem_filter, List.mem_range, Bool.and_eq_true, decide_eq_true_eq] at hj
      obtain ⟨h1, h2, h3⟩ := hj
      have hpj : p ≠ j := by rintro rfl; rw [hm] at h2; simp at h2
      have hoff := laplacian_off h hpj
      have hne : a.val p j ≠ 0 := by
        intro h0
        apply h3
        change ((a.val p j : ℤ) : K) = 0
        rw [h0, Int.cast_zero]
      have hone : (1 : K) ≤ -((a.val p j : ℤ) : K) := by
        have : (1 : ℤ) ≤ -(a.val p j) := by omega
        exact_mod_cast this
      refine ⟨hone, ?_⟩
      change |((a.val p j : ℤ) : K) * x j| ≤ -((a.val p j : ℤ) : K) * X
      rw [abs_mul, abs_of_nonpos (by linarith)]
      exact mul_le_mul_of_nonneg_left (hx j h1 h2) (by linarith)) 0 0 (by simp) (by rw [hsum]; linarith)
  rw [hsum] at this
  linarith

/-- The answers of a Dirichlet problem are bounded by the fixed values, up to rounding. -/
theorem dirRowFl_bound {A : FloatArith K} {B η Bd ηd : K} (hfs : Rounds A.fs B η) (hfd : Rounds A.fd Bd ηd)
    (hη : 0 ≤ η) (hηd : 0 ≤ ηd) {links : List (Nat × Nat)} {a : SqMat ℤ} (h : graphLaplacian links = .ok a)
    {lin : LinSolver K} {Y ρ : K} (hρ : 0 ≤ ρ) (hcg : CgWithin lin (castMat K a) Y ρ) {mask : Nat → Bool}
    (hg : ∀ p < a.n, mask p = false → Grounded a.n links mask p) {x : Nat → K} {X : K} (hX : 0 ≤ X)
    (hx : ∀ q < a.n, mask q = true → |x q| ≤ X) (hBd : (links.length : K) * (X + 2 * ηd) ≤ Bd)
    (hY : X + 2 * ηd ≤ Y) (hB : X + 2 * ηd + ρ ≤ B) (p : Nat) (hp : p < a.n) (hm : mask p = false) :
    |dirRowFl A lin (castMat K a) mask x p| ≤ X + 2 * ηd + ρ + η := by
  unfold dirRowFl
  rw [if_neg (by rw [hm]; simp)]
  split
  · rw [abs_zero]; linarith
  · set b := freeRhsFl A.fd (castMat K a) mask x with hb
    have hmem : p ∈ freeIdx a.n mask := mem_freeIdx.mpr ⟨hp, hm⟩
    have hk := List.idxOf_lt_length_iff.mpr hmem
    obtain ⟨y, hy1, hy2⟩ := freeMat_solvable (K := K) h mask hg b (by rw [hb]; simp [freeRhsFl, freeMat])
    have hbnd := free_solution_bound h mask hg hy1 hy2 (Y := X + 2 * ηd)
      (fun q hq hqm => freeRhsFl_bound hfd hηd h hX hx hBd q hq hqm) (by linarith)
    have huniq : ∀ y' : List K, y'.length = (freeMat (castMat K a) mask).n →
        (freeMat (castMat K a) mask).dot y' = b → y' = y := by
      intro y' h1 h2
      have hlen : y'.length = y.length := by rw [h1, hy1]
      set d := List.zipWith (· - ·) y' y with hd
      have hdl : d.length = (freeMat (castMat K a) mask).n := by rw [hd, List.length_zipWith, h1, hy1, min_self]
      have hdd : ∀ k, d.getD k 0 = y'.getD k 0 - y.getD k 0 := by
        intro k
        by_cases hk : k < y.length
        · rw [List.getD_eq_getElem _ _ (by rw [hdl, ← hy1]; exact hk), List.getD_eq_getElem _ _ (by omega),
            List.getD_eq_getElem _ _ hk]
          exact List.getElem_zipWith ..
        · rw [List.getD_eq_default _ _ (by rw [hdl, ← hy1]; omega), List.getD_eq_default _ _ (by omega),
            List.getD_eq_default _ _ (by omega), sub_zero]
      have hdot : ∀ k, ((freeMat (castMat K a) mask).dot d).getD k 0 = 0 := by
        intro k
        by_cases hk : k < (freeMat (castMat K a) mask).n
        · have e1 := congrArg (fun l => l.getD k 0) h2
          have e2 := congrArg (fun l => l.getD k 0) hy2
          simp only [SqMat.dot] at e1 e2 ⊢
          rw [getD_map_lt _ _ (by simpa using hk)] at e1 e2 ⊢
          simp only [List.getElem_range] at e1 e2 ⊢
          have : (fun j => (freeMat (castMat K a) mask).val k j * d.getD j 0) = fun j =>
              (freeMat (castMat K a) mask).val k j * y'.getD j 0 - (freeMat (castMat K a) mask).val k j * y.getD j 0 := by
            funext j
            rw [hdd]; ring
          rw [this, sum_map_sub, e1, e2, sub_self]
        · rw [List.getD_eq_default _ _ (by simp only [SqMat.dot, List.length_map, List.length_range]; omega)]
      have hz := free_solution_bound h mask hg hdl rfl (Y := 0)
        (fun q hq hqm => by rw [hdot]; simp) le_rfl
      apply List.ext_getElem hlen
      intro k k1 k2
      have h0 := hz (d[k]'(by rw [hdl, ← hy1]; exact k2)) (List.getElem_mem _)
      have h0' := abs_nonpos_iff.mp h0
      have := hdd k
      rw [List.getD_eq_getElem _ _ (by rw [hdl, ← hy1]; exact k2), h0', List.getD_eq_getElem _ _ k1,
        List.getD_eq_getElem _ _ k2] at this
      exact (sub_eq_zero.mp this.symm)
    have hc := hcg mask b y hy1 hy2 huniq (fun v hv => (hbnd v hv).trans hY) ((freeIdx a.n mask).idxOf p) hk
    have hyk : |y.getD ((freeIdx a.n mask).idxOf p) 0| ≤ X + 2 * ηd := by
      have hkl : (freeIdx a.n mask).idxOf p < y.length := by rw [hy1]; exact hk
      rw [List.getD_eq_getElem _ _ hkl]
      exact hbnd _ (List.getElem_mem _)
    have hn : (castMat K a).n = a.n := rfl
    rw [hn]
    set v := (lin.cg (freeMat (castMat K a) mask) b).getD ((freeIdx a.n mask).idxOf p) 0
    have hv : |v| ≤ X + 2 * ηd + ρ := by
      have := abs_add_le (v - y.getD ((freeIdx a.n mask).idxOf p) 0) (y.getD ((freeIdx a.n mask).idxOf p) 0)
      rw [sub_add_cancel] at this
      linarith
    have h1 := hfs.close v (by linarith)
    have := abs_add_le (A.fs v - v) v
    rw [sub_add_cancel] at this
    linarith

end

end Spurt
