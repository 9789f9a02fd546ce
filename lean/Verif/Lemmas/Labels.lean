import Verif.Spec.Bulk
import Mathlib.Order.Nat
import Mathlib.Order.SuccPred.Basic
import Mathlib.Data.Nat.Nth
import Mathlib.Tactic.NormNum

/-!
# Component labels exist

`scipy.sparse.csgraph.connected_components` can be answered for every graph: the hypotheses on it
can be met.
-/

namespace Spurt
open Spec Classical

/-- Smallest tile joined to `i`. -/
noncomputable def rootOf (edges : List (Nat × Nat)) (i : Nat) : Nat :=
  sInf {j | Relation.ReflTransGen (Adjacent edges) i j}

theorem reach_symm {edges : List (Nat × Nat)} {i j : Nat} (h : Relation.ReflTransGen (Adjacent edges) i j) :
    Relation.ReflTransGen (Adjacent edges) j i := by
  induction h with
  | refl => exact .refl
  | tail _ hbc ih => exact .head (Or.symm hbc) ih

theorem rootOf_reach (edges : List (Nat × Nat)) (i : Nat) : Relation.ReflTransGen (Adjacent edges) i (rootOf edges i) :=
  Nat.sInf_mem (s := {j | Relation.ReflTransGen (Adjacent edges) i j}) ⟨i, .refl⟩

theorem rootOf_le (edges : List (Nat × Nat)) (i : Nat) : rootOf edges i ≤ i :=
  Nat.sInf_le (s := {j | Relation.ReflTransGen (Adjacent edges) i j}) .refl

theorem rootOf_eq_iff {edges : List (Nat × Nat)} {i j : Nat} :
    rootOf edges i = rootOf edges j ↔ Relation.ReflTransGen (Adjacent edges) i j := by
  constructor
  · intro h
    exact (rootOf_reach edges i).trans (h ▸ reach_symm (rootOf_reach edges j))
  · intro h
    unfold rootOf
    congr 1
    ext k
    exact ⟨fun hk => (reach_symm h).trans hk, fun hk => h.trans hk⟩

theorem rootOf_root (edges : List (Nat × Nat)) (i : Nat) : rootOf edges (rootOf edges i) = rootOf edges i :=
  rootOf_eq_iff.mpr (reach_symm (rootOf_reach edges i))

/-- Components numbered in the order of their first tiles. -/
noncomputable def labelsOf (n : Nat) (edges : List (Nat × Nat)) : List Nat :=
  (List.range n).map fun i => Nat.count (fun j => rootOf edges j = j) (rootOf edges i)

theorem labelsOf_length (n : Nat) (edges : List (Nat × Nat)) : (labelsOf n edges).length = n := by simp [labelsOf]

theorem labelsOf_labels (n : Nat) (edges : List (Nat × Nat)) : ComponentLabels n edges (labelsOf n edges) := by
  have hget : ∀ i < n, (labelsOf n edges)[i]? = some (Nat.count (fun j => rootOf edges j = j) (rootOf edges i)) := by
    intro i hi
    simp [labelsOf, hi]
  refine ⟨labelsOf_length n edges, ?_, ?_⟩
  · intro i j hi hj
    rw [hget i hi, hget j hj, Option.some.injEq, ← rootOf_eq_iff]
    refine ⟨fun h => ?_, fun h => by rw [h]⟩
    exact Nat.count_injective (p := fun j => rootOf edges j = j) (rootOf_root edges i) (rootOf_root edges j) h
  · intro l hl k hk
    simp only [labelsOf, List.mem_map, List.mem_range] at hl ⊢
    obtain ⟨i, hi, rfl⟩ := hl
    rcases hk.lt_or_eq with hk | rfl
    · obtain ⟨h1, h2⟩ : Nat.nth (fun j => rootOf edges j = j) k < rootOf edges i ∧
          ∀ hf : {j | rootOf edges j = j}.Finite, k < hf.toFinset.card :=
        ⟨Nat.nth_lt_of_lt_count hk, fun hf => lt_of_lt_of_le hk (by
          rw [Nat.count_eq_card_filter_range]
          refine Finset.card_le_card fun x hx => ?_
          simp only [Finset.mem_filter] at hx
          exact hf.mem_toFinset.mpr hx.2)⟩
      have hp := Nat.nth_mem k h2
      refine ⟨_, lt_of_lt_of_le h1 ((rootOf_le edges i).trans hi.le), ?_⟩
      rw [hp, Nat.count_nth h2]
    · exact ⟨i, hi, rfl⟩

end Spurt
