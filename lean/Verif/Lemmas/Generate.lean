import Verif.Lemmas.Residues
import Verif.Lemmas.Reg2D
import Mathlib.Algebra.BigOperators.Intervals
import Mathlib.Tactic.LinearCombination

/-! The cycles of `Hop3Graph` and `Reg2DGraph` generate all closed walks; both graphs are
connected. -/

namespace Spurt
open Spec

section
variable {K : Type*} [Field K]

theorem circulation_tri (links : List (Nat × Nat)) (v : List K) (a b c : Nat) :
    circulation links v [a, b, c] = along links v a b + along links v b c + along links v c a := by
  simp [circulation, sides]; ring

theorem circulation_quad (links : List (Nat × Nat)) (v : List K) (a b c d : Nat) :
    circulation links v [a, b, c, d] = along links v a b + along links v b c + along links v c d
      + along links v d a := by
  simp [circulation, sides]; ring

theorem along_up (links : List (Nat × Nat)) (v : List K) {a b : Nat} (h : a < b) :
    along links v a b = onLink links v a b := by simp [along, h]

theorem along_down (links : List (Nat × Nat)) (v : List K) {a b : Nat} (h : b < a) :
    along links v a b = - onLink links v b a := by
  unfold along; rw [if_neg (by omega)]

theorem hop3_generate (n : Nat) (hn : 4 ≤ n) :
    CyclesGenerate K (hop3Links n) ((hop3Explicit n).map triRow) := by
  intro vals _ hcirc
  set e := onLink (hop3Links n) vals with he
  have hc : ∀ t ∈ hop3Explicit n, circulation (hop3Links n) vals (triRow t) = 0 :=
    fun t ht => hcirc _ (List.mem_map.mpr ⟨t, ht, rfl⟩)
  have h012 : e 0 1 + e 1 2 - e 0 2 = 0 := by
    have := hc (0, 1, 2) (mem_hop3Explicit.mpr (by simp))
    simp only [triRow, circulation_tri] at this
    rw [along_up _ _ (by omega), along_up _ _ (by omega), along_down _ _ (by omega)] at this
    linear_combination this
  have h023 : e 0 2 + e 2 3 - e 0 3 = 0 := by
    have := hc (0, 2, 3) (mem_hop3Explicit.mpr (by simp))
    simp only [triRow, circulation_tri] at this
    rw [along_up _ _ (by omega), along_up _ _ (by omega), along_down _ _ (by omega)] at this
    linear_combination this
  have hA : ∀ i, 1 ≤ i → i + 3 < n → e i (i + 2) + e (i + 2) (i + 3) - e i (i + 3) = 0 := by
    intro i h1 h2
    have := hc (i, i + 2, i + 3) (mem_hop3Explicit.mpr (by
      right; right; left; exact ⟨i, by omega, by omega, .inl rfl⟩))
    simp only [triRow, circulation_tri] at this
    rw [along_up _ _ (by omega), along_up _ _ (by omega), along_down _ _ (by omega)] at this
    linear_combination this
  have hB : ∀ i, 1 ≤ i → i + 3 < n → e i (i + 3) - e (i + 1) (i + 3) - e i (i + 1) = 0 := by
    intro i h1 h2
    have := hc (i, i + 3, i + 1) (mem_hop3Explicit.mpr (by
      right; right; left; exact ⟨i, by omega, by omega, .inr rfl⟩))
    simp only [triRow, circulation_tri] at this
    rw [along_up _ _ (by omega), along_down _ _ (by omega), along_down _ _ (by omega)] at this
    linear_combination this
  have hL : e (n - 3) (n - 1) - e (n - 2) (n - 1) - e (n - 3) (n - 2) = 0 := by
    have := hc (n - 3, n - 1, n - 2) (mem_hop3Explicit.mpr (by simp))
    simp only [triRow, circulation_tri] at this
    rw [along_up _ _ (by omega), along_down _ _ (by omega), along_down _ _ (by omega)] at this
    linear_combination this
  have h2' : ∀ d i, i + d + 3 = n → 1 ≤ i → e i (i + 2) = e i (i + 1) + e (i + 1) (i + 2) := by
    intro d
    induction d with
    | zero =>
      intro i hi _
      have e1 : n - 3 = i := by omega
      have e2 : n - 2 = i + 1 := by omega
      have e3 : n - 1 = i + 2 := by omega
      rw [e1, e2, e3] at hL
      linear_combination hL
    | succ d ih =>
      intro i hi h1
      have h := ih (i + 1) (by omega) (by omega)
      have a := hA i h1 (by omega)
      have b := hB i h1 (by omega)
      linear_combination a + b + h
  have h2 : ∀ i, i + 2 < n → e i (i + 2) = e i (i + 1) + e (i + 1) (i + 2) := by
    intro i hi
    rcases Nat.eq_zero_or_pos i with rfl | h
    · simp only [Nat.zero_add]; linear_combination -h012
    · exact h2' (n - i - 3) i (by omega) h
  have h3 : ∀ i, i + 3 < n → e i (i + 3) = e i (i + 1) + e (i + 1) (i + 2) + e (i + 2) (i + 3) := by
    intro i hi
    rw [← h2 i (by omega)]
    rcases Nat.eq_zero_or_pos i with rfl | h
    · simp only [Nat.zero_add]; linear_combination -h023
    · linear_combination - hA i h hi
  refine ⟨fun p => ∑ k ∈ Finset.range p, e k (k + 1), ?_⟩
  intro a b hab
  have := (mem_hop3Links hn).mp hab
  have hb : b = a + 1 ∨ b = a + 2 ∨ b = a + 3 := by omega
  rw [← he]
  beta_reduce
  rcases hb with rfl | rfl | rfl
  · rw [Finset.sum_range_succ]; ring
  · rw [Finset.sum_range_succ, Finset.sum_range_succ, h2 a (by omega)]; ring
  · rw [Finset.sum_range_succ, Finset.sum_range_succ, Finset.sum_range_succ, h3 a (by omega)]; ring

theorem reg2d_generate (r c : Nat) :
    CyclesGenerate K (reg2dLinks r c) (reg2dCycles r c) := by
  intro vals _ hcirc
  set e := onLink (reg2dLinks r c) vals with he
  have hsq : ∀ i j, i + 1 < r → j + 1 < c →
      e (i * c + j) ((i + 1) * c + j) + e ((i + 1) * c + j) ((i + 1) * c + (j + 1))
        - e (i * c + (j + 1)) ((i + 1) * c + (j + 1)) - e (i * c + j) (i * c + (j + 1)) = 0 := by
    intro i j hi hj
    have := hcirc _ (List.mem_flatMap.mpr ⟨i, List.mem_range.mpr (by omega),
      List.mem_map.mpr ⟨j, List.mem_range.mpr (by omega), rfl⟩⟩)
    simp only [ravel, circulation_quad] at this
    have hm : (i + 1) * c = i * c + c := by ring
    rw [along_up _ _ (by omega), along_up _ _ (by omega), along_down _ _ (by omega),
      along_down _ _ (by omega)] at this
    linear_combination this
  refine ⟨fun p => ∑ k ∈ Finset.range (p / c), e (k * c) ((k + 1) * c) +
    ∑ l ∈ Finset.range (p % c), e (p / c * c + l) (p / c * c + (l + 1)), ?_⟩
  intro a b hab
  obtain ⟨i, j, i', j', rfl, rfl, _, _, _, _, hm⟩ := reg2dLinks_coords hab
  rw [mem_reg2dLinksC] at hm
  obtain ⟨h1, h2, h3, h4, h5⟩ := hm
  have hdiv : ∀ i j, j < c → (i * c + j) / c = i := by
    intro i j hj
    rw [Nat.add_comm, Nat.add_mul_div_right _ _ (by omega), Nat.div_eq_of_lt hj, Nat.zero_add]
  have hmod : ∀ i j, j < c → (i * c + j) % c = j := by
    intro i j hj
    rw [Nat.add_comm, Nat.add_mul_mod_self_right, Nat.mod_eq_of_lt hj]
  simp only [hdiv _ _ h3, hdiv _ _ h4, hmod _ _ h3, hmod _ _ h4]
  rw [← he]
  rcases h5 with ⟨rfl, rfl⟩ | ⟨rfl, rfl⟩
  · rw [Finset.sum_range_succ]; ring
  · rw [Finset.sum_range_succ]
    have key : ∀ j, j < c → e (i * c + j) ((i + 1) * c + j) =
        e (i * c) ((i + 1) * c) +
        ∑ l ∈ Finset.range j, e ((i + 1) * c + l) ((i + 1) * c + (l + 1)) -
        ∑ l ∈ Finset.range j, e (i * c + l) (i * c + (l + 1)) := by
      intro j
      induction j with
      | zero => intro _; simp
      | succ j ih =>
        intro hj
        rw [Finset.sum_range_succ, Finset.sum_range_succ]
        have := hsq i j h2 hj
        have h := ih (by omega)
        linear_combination h - this
    rw [key j' h3]; ring

end

theorem hop3_connected (n : Nat) (hn : 4 ≤ n) : Connected n (hop3Links n) := by
  intro p
  induction p with
  | zero => intro _; exact .refl
  | succ p ih =>
    intro hp
    exact (ih (by omega)).tail (.inl ((mem_hop3Links hn).mpr (by omega)))

theorem reg2d_connected (r c : Nat) : Connected (r * c) (reg2dLinks r c) := by
  have hcol : ∀ i, 0 < c → i < r → Relation.ReflTransGen (Adjacent (reg2dLinks r c)) 0 (i * c + 0) := by
    intro i hc
    induction i with
    | zero => intro _; simp only [Nat.zero_mul, Nat.add_zero]; exact .refl
    | succ i ih =>
      intro hi
      refine (ih (by omega)).tail (.inl ?_)
      rw [mem_reg2dLinks hc hc, mem_reg2dLinksC]
      omega
  have hrow : ∀ j i, j < c → i < r →
      Relation.ReflTransGen (Adjacent (reg2dLinks r c)) 0 (i * c + j) := by
    intro j
    induction j with
    | zero => intro i hj hi; exact hcol i hj hi
    | succ j ih =>
      intro i hj hi
      refine (ih i (by omega) hi).tail (.inl ?_)
      rw [mem_reg2dLinks (by omega) hj, mem_reg2dLinksC]
      omega
  intro p hp
  have hc : 0 < c := by
    rcases Nat.eq_zero_or_pos c with rfl | h
    · simp at hp
    · exact h
  have := hrow (p % c) (p / c) (Nat.mod_lt _ hc) ((Nat.div_lt_iff_lt_mul hc).mpr hp)
  rwa [Nat.mul_comm, Nat.div_add_mod] at this

end Spurt
