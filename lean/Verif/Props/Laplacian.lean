import Verif.Model.Dirichlet
import Verif.Spec.Graph
import Verif.Props.BulkOffset
import Mathlib.Algebra.BigOperators.Ring.Finset
import Mathlib.Algebra.BigOperators.Group.List.Basic
import Mathlib.Data.Rat.Defs
import Mathlib.Tactic.LinearCombination

/-!
# Property C43: the graph Laplacian
-/

namespace Spurt
open Spec

theorem incidence_dot {K : Type} [Field K] (l : Nat × Nat) (n : Nat) (h1 : l.1 < n) (h2 : l.2 < n)
    (x : Nat → K) :
    ∑ j ∈ Finset.range n, ((incidence l j : ℤ) : K) * x j = x l.2 - x l.1 := by
  have : ∀ j ∈ Finset.range n, ((incidence l j : ℤ) : K) * x j =
      (if j = l.2 then x j else 0) - (if j = l.1 then x j else 0) := by
    intro j _
    unfold incidence
    push_cast
    split <;> split <;> simp
  rw [Finset.sum_congr rfl this, Finset.sum_sub_distrib, Finset.sum_ite_eq', Finset.sum_ite_eq']
  simp [h1, h2]

theorem list_sum_mul {K : Type} [Field K] {α : Type} (l : List α) (f : α → K) (c : K) :
    (l.map f).sum * c = (l.map fun a => f a * c).sum := by
  induction l with
  | nil => simp
  | cons a l ih => simp [add_mul, ih]

theorem finset_list_sum {K : Type} [AddCommMonoid K] {α : Type} (s : Finset Nat) (l : List α)
    (f : Nat → α → K) :
    ∑ j ∈ s, (l.map fun a => f j a).sum = (l.map fun a => ∑ j ∈ s, f j a).sum := by
  induction l with
  | nil => simp
  | cons a l ih => simp [Finset.sum_add_distrib, ih]

theorem graphLaplacian_ok {links : List (Nat × Nat)} {a : SqMat ℤ} (h : graphLaplacian links = .ok a) :
    links ≠ [] ∧ (∀ u v, (u, v) ∈ links → u < a.n ∧ v < a.n) ∧
    (∃ u v, (u, v) ∈ links ∧ a.n = max u v + 1) ∧
    ∀ i j, a.val i j = (links.map fun l => incidence l i * incidence l j).sum := by
  unfold graphLaplacian at h
  split at h
  · simp at h
  · rename_i hne
    simp only [Except.ok.injEq] at h
    subst h
    obtain ⟨_, h2, h1'⟩ := natMax_spec (links.map fun l => max l.1 l.2) 0
    have h1 : (links.map fun l => max l.1 l.2).foldl max 0 ∈ links.map fun l => max l.1 l.2 := by
      rcases h1' with h0 | h1
      · obtain ⟨l, hl⟩ := List.exists_mem_of_ne_nil _ hne
        have := h2 _ (List.mem_map.mpr ⟨l, hl, rfl⟩)
        rw [h0] at this ⊢
        exact List.mem_map.mpr ⟨l, hl, by omega⟩
      · exact h1
    refine ⟨hne, ?_, ?_, fun i j => rfl⟩
    · intro u v huv
      have := h2 (max u v) (List.mem_map.mpr ⟨(u, v), huv, rfl⟩)
      simp only
      omega
    · obtain ⟨⟨u, v⟩, huv, he⟩ := List.mem_map.mp h1
      exact ⟨u, v, huv, by simp only; rw [← he]⟩

/-- The product of the Laplacian with a vector. -/
theorem laplacian_dot {K : Type} [Field K] {links : List (Nat × Nat)} {a : SqMat ℤ}
    (h : graphLaplacian links = .ok a) (x : Nat → K) (i : Nat) :
    ∑ j ∈ Finset.range a.n, ((a.val i j : ℤ) : K) * x j =
      (links.map fun l => ((incidence l i : ℤ) : K) * (x l.2 - x l.1)).sum := by
  obtain ⟨_, hlt, _, hval⟩ := graphLaplacian_ok h
  have : ∀ j ∈ Finset.range a.n, ((a.val i j : ℤ) : K) * x j =
      (links.map fun l => ((incidence l i : ℤ) : K) * (((incidence l j : ℤ) : K) * x j)).sum := by
    intro j _
    rw [hval]
    have hc : (((links.map fun l => incidence l i * incidence l j).sum : ℤ) : K) =
        (links.map fun l => ((incidence l i : ℤ) : K) * ((incidence l j : ℤ) : K)).sum := by
      have := map_list_sum (Int.castRingHom K) (links.map fun l => incidence l i * incidence l j)
      simpa [List.map_map, Function.comp_def] using this
    rw [hc, list_sum_mul]
    simp only [mul_assoc]
  rw [Finset.sum_congr rfl this, finset_list_sum]
  congr 1
  apply List.map_congr_left
  rintro ⟨u, v⟩ hl
  obtain ⟨h1, h2⟩ := hlt u v hl
  rw [← Finset.mul_sum, incidence_dot _ _ h1 h2]

/-- C43. The function raises exactly when the graph has no links. -/
theorem C43_returns (links : List (Nat × Nat)) :
    (∃ a, graphLaplacian links = .ok a) ↔ links ≠ [] := by
  unfold graphLaplacian
  split <;> simp_all

/-- C43. The matrix has a row for every point up to the largest one that has a link: it covers
every point with a link, and its size is the number of points exactly when the last point has a
link. -/
theorem C43_size (npoints : Nat) (links : List (Nat × Nat)) (a : SqMat ℤ)
    (hin : ∀ u v, (u, v) ∈ links → u < npoints ∧ v < npoints)
    (h : graphLaplacian links = .ok a) :
    a.n ≤ npoints ∧ (∀ u v, (u, v) ∈ links → u < a.n ∧ v < a.n) ∧
    (a.n = npoints ↔ ∃ p, Adjacent links (npoints - 1) p) := by
  obtain ⟨_, hlt, ⟨u, v, huv, hn⟩, _⟩ := graphLaplacian_ok h
  have hb := hin u v huv
  refine ⟨by omega, hlt, ?_, ?_⟩
  · intro he
    by_cases hc : u ≤ v
    · have : npoints - 1 = v := by omega
      exact ⟨u, by rw [this]; exact Or.inr huv⟩
    · have : npoints - 1 = u := by omega
      exact ⟨v, by rw [this]; exact Or.inl huv⟩
  · rintro ⟨p, hp⟩
    have : npoints - 1 < a.n := by
      rcases hp with hp | hp
      · exact (hlt _ _ hp).1
      · exact (hlt _ _ hp).2
    omega

theorem incidence_sq {u v i : Nat} (h : u ≠ v) :
    incidence (u, v) i * incidence (u, v) i = if u = i ∨ v = i then 1 else 0 := by
  unfold incidence
  by_cases h1 : i = v
  · have h2 : ¬ i = u := by omega
    simp [h1, h2, h.symm]
  · by_cases h2 : i = u
    · simp [h2, h]
    · have h3 : ¬ (u = i ∨ v = i) := by omega
      simp [h1, h2, h3]

theorem incidence_ne {u v i j : Nat} (hij : i ≠ j) :
    incidence (u, v) i * incidence (u, v) j =
      if u ≠ v ∧ ((u, v) = (i, j) ∨ (u, v) = (j, i)) then -1 else 0 := by
  unfold incidence
  simp only [Prod.mk.injEq]
  by_cases h1 : i = v <;> by_cases h2 : i = u <;> by_cases h3 : j = v <;> by_cases h4 : j = u
  all_goals first
    | omega
    | (rw [if_pos (show u ≠ v ∧ (u = i ∧ v = j ∨ u = j ∧ v = i) by omega)]
       first | rw [if_pos h1] | rw [if_neg h1]
       first | rw [if_pos h2] | rw [if_neg h2]
       first | rw [if_pos h3] | rw [if_neg h3]
       first | rw [if_pos h4] | rw [if_neg h4]
       norm_num; done)
    | (rw [if_neg (show ¬ (u ≠ v ∧ (u = i ∧ v = j ∨ u = j ∧ v = i)) by omega)]
       first | rw [if_pos h1] | rw [if_neg h1]
       first | rw [if_pos h2] | rw [if_neg h2]
       first | rw [if_pos h3] | rw [if_neg h3]
       first | rw [if_pos h4] | rw [if_neg h4]
       norm_num; done)

/-- C43. For links between distinct points: the diagonal holds the degrees, and off the diagonal
stands minus the number of links between the two points. -/
theorem C43_entries (links : List (Nat × Nat)) (a : SqMat ℤ) (hd : ∀ u v, (u, v) ∈ links → u ≠ v)
    (h : graphLaplacian links = .ok a) (i j : Nat) :
    a.val i j = if i = j then (links.countP fun l => decide (l.1 = i ∨ l.2 = i) : ℤ)
      else -(links.countP fun l => decide (l = (i, j) ∨ l = (j, i)) : ℤ) := by
  have hval := (graphLaplacian_ok h).2.2.2
  rw [hval]
  clear h hval
  induction links with
  | nil => simp
  | cons l links ih =>
    obtain ⟨u, v⟩ := l
    have hne := hd u v (by simp)
    rw [List.map_cons, List.sum_cons, ih fun p q hpq => hd p q (by simp [hpq]), List.countP_cons,
      List.countP_cons]
    by_cases hij : i = j
    · subst hij
      rw [if_pos rfl, if_pos rfl, incidence_sq hne]
      simp only [decide_eq_true_eq]
      split <;> simp [add_comm]
    · rw [if_neg hij, if_neg hij, incidence_ne hij]
      simp only [decide_eq_true_eq, ne_eq, hne, not_false_eq_true, true_and]
      split <;> simp [add_comm]

/-- C43. The matrix is symmetric and every row sums to zero. -/
theorem C43_symmetric (links : List (Nat × Nat)) (a : SqMat ℤ) (h : graphLaplacian links = .ok a)
    (i j : Nat) : a.val i j = a.val j i ∧ ∑ k ∈ Finset.range a.n, a.val i k = 0 := by
  constructor
  · obtain ⟨_, _, _, hval⟩ := graphLaplacian_ok h
    rw [hval, hval]
    congr 1
    apply List.map_congr_left
    intro l _
    rw [mul_comm]
  · have := laplacian_dot (K := ℚ) h (fun _ => 1) i
    simp only [mul_one, sub_self, mul_zero, List.map_const', List.sum_replicate, smul_zero] at this
    exact_mod_cast this

/-- C43. The quadratic form of the matrix is the sum of the squared differences along the links. -/
theorem C43_quadratic_form {K : Type} [Field K] (links : List (Nat × Nat)) (a : SqMat ℤ)
    (h : graphLaplacian links = .ok a) (x : Nat → K) :
    ∑ i ∈ Finset.range a.n, ∑ j ∈ Finset.range a.n, x i * ((a.val i j : ℤ) : K) * x j =
      (links.map fun l => (x l.2 - x l.1) ^ 2).sum := by
  obtain ⟨_, hlt, _, _⟩ := graphLaplacian_ok h
  have : ∀ i ∈ Finset.range a.n, ∑ j ∈ Finset.range a.n, x i * ((a.val i j : ℤ) : K) * x j =
      (links.map fun l => (((incidence l i : ℤ) : K) * x i) * (x l.2 - x l.1)).sum := by
    intro i _
    simp only [mul_assoc]
    rw [← Finset.mul_sum, laplacian_dot h, mul_comm, list_sum_mul]
    congr 1
    apply List.map_congr_left
    intro l _
    ring
  rw [Finset.sum_congr rfl this, finset_list_sum]
  congr 1
  apply List.map_congr_left
  rintro ⟨u, v⟩ hl
  obtain ⟨h1, h2⟩ := hlt u v hl
  rw [← Finset.sum_mul, incidence_dot _ _ h1 h2]
  ring

/-- C43. On a connected graph the matrix annihilates exactly the constant vectors. -/
theorem C43_kernel {K : Type} [Field K] [LinearOrder K] [IsStrictOrderedRing K] (links : List (Nat × Nat))
    (a : SqMat ℤ) (h : graphLaplacian links = .ok a) (hconn : Connected a.n links) (x : Nat → K) :
    (∀ i < a.n, ∑ j ∈ Finset.range a.n, ((a.val i j : ℤ) : K) * x j = 0) ↔ ∀ i < a.n, x i = x 0 := by
  constructor
  · intro h0
    have hq := C43_quadratic_form (K := K) links a h x
    rw [Finset.sum_eq_zero (fun i hi => by
      simp only [mul_assoc]
      rw [← Finset.mul_sum, h0 i (Finset.mem_range.mp hi), mul_zero])] at hq
    have hz : ∀ u v, (u, v) ∈ links → x v = x u := by
      intro u v huv
      by_contra hne
      have hpos : 0 < (x v - x u) ^ 2 := by
        have : x v - x u ≠ 0 := sub_ne_zero.mpr hne
        positivity
      have hle := List.single_le_sum (l := links.map fun l => (x l.2 - x l.1) ^ 2)
        (by intro y hy; obtain ⟨l, _, rfl⟩ := List.mem_map.mp hy; positivity) _
        (List.mem_map.mpr ⟨(u, v), huv, rfl⟩)
      rw [← hq] at hle
      exact absurd hle (not_le.mpr hpos)
    intro i hi
    have := hconn i hi
    clear hi
    induction this with
    | refl => rfl
    | tail _ hbc ih =>
      rcases hbc with hbc | hbc
      · rw [hz _ _ hbc, ih]
      · rw [← ih, hz _ _ hbc]
  · intro hc i _
    rw [laplacian_dot h]
    apply List.sum_eq_zero
    intro y hy
    obtain ⟨⟨u, v⟩, hl, rfl⟩ := List.mem_map.mp hy
    obtain ⟨_, hlt, _, _⟩ := graphLaplacian_ok h
    obtain ⟨h1, h2⟩ := hlt u v hl
    simp only
    rw [hc u h1, hc v h2, sub_self, mul_zero]

/-- The path with three points. -/
example : ∃ a, graphLaplacian [(0, 1), (1, 2)] = .ok a ∧ a.n = 3 ∧ a.val 1 1 = 2 ∧ a.val 0 1 = -1 ∧
    a.val 0 2 = 0 ∧ Connected 3 [(0, 1), (1, 2)] := by
  refine ⟨_, rfl, by decide, by decide, by decide, by decide, ?_⟩
  intro p hp
  have h01 : Relation.ReflTransGen (Adjacent [(0, 1), (1, 2)]) 0 1 := .single (by simp [Adjacent])
  interval_cases p
  · exact .refl
  · exact h01
  · exact h01.tail (by simp [Adjacent])

end Spurt
