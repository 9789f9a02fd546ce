import Verif.Props.Graph

/-!
# Property C05: the coordinates of the regular grid
-/

namespace Spurt
open Spec

theorem flatMap_block {α : Type} (c : Nat) (f : Nat → Nat → α) (j : Nat) (hj : j < c) :
    ∀ r i, i < r → ((List.range r).flatMap fun i => (List.range c).map (f i))[i * c + j]? = some (f i j) := by
  intro r
  induction r with
  | zero => intro i hi; omega
  | succ r ih =>
    intro i hi
    have hlen : ((List.range r).flatMap fun i => (List.range c).map (f i)).length = r * c := by
      simp [List.length_flatMap]
    rw [List.range_succ, List.flatMap_append]
    by_cases h : i < r
    · have : i * c + j < r * c := by
        calc i * c + j < i * c + c := by omega
          _ = (i + 1) * c := by ring
          _ ≤ r * c := Nat.mul_le_mul_right _ h
      rw [List.getElem?_append_left (by rw [hlen]; exact this)]
      exact ih i h
    · have : i = r := by omega
      subst this
      rw [List.getElem?_append_right (by rw [hlen]; omega), hlen]
      simp [hj]

/-- C05. `Reg2DGraph((r, c)).points`: one point per vertex; vertex `i * c + j` (row `i`, column `j`) is the point with
first coordinate `j` and second coordinate `i`. Two vertices are linked exactly when the point of the second is the right
or the lower neighbour of the point of the first. -/
theorem C05_reg2d_points (r c : Nat) :
    (reg2dPoints r c).length = (reg2dGraph r c).npoints ∧
    (∀ i j, i < r → j < c → (reg2dPoints r c)[i * c + j]? = some (j, i)) ∧
    (∀ a b, (a, b) ∈ (reg2dGraph r c).links ↔ ∃ x y, (reg2dPoints r c)[a]? = some (x, y) ∧
      ((reg2dPoints r c)[b]? = some (x + 1, y) ∨ (reg2dPoints r c)[b]? = some (x, y + 1))) := by
  have hlen : (reg2dPoints r c).length = r * c := by simp [reg2dPoints, List.length_flatMap]
  have hat : ∀ i j, i < r → j < c → (reg2dPoints r c)[i * c + j]? = some (j, i) := fun i j hi hj =>
    flatMap_block c (fun i j => (j, i)) j hj r i hi
  have hinv : ∀ (a x y : Nat), (reg2dPoints r c)[a]? = some (x, y) → y < r ∧ x < c ∧ a = y * c + x := by
    intro a x y h
    have ha : a < r * c := by
      have := (List.getElem?_eq_some_iff.mp h).1
      rwa [hlen] at this
    have hc : 0 < c := Nat.pos_of_ne_zero fun h0 => by simp [h0] at ha
    have h1 : a / c < r := (Nat.div_lt_iff_lt_mul hc).mpr ha
    have h2 : a % c < c := Nat.mod_lt _ hc
    have h3 : a / c * c + a % c = a := Nat.div_add_mod' a c
    have := hat (a / c) (a % c) h1 h2
    rw [h3, h] at this
    simp only [Option.some.injEq, Prod.mk.injEq] at this
    obtain ⟨rfl, rfl⟩ := this
    exact ⟨h1, h2, h3.symm⟩
  refine ⟨hlen, hat, ?_⟩
  intro a b
  constructor
  · intro h
    obtain ⟨i, j, i', j', rfl, rfl, _, _, _, _, hm⟩ := reg2dLinks_coords h
    rw [mem_reg2dLinksC] at hm
    obtain ⟨h1, h2, h3, h4, h5⟩ := hm
    refine ⟨j, i, hat i j h1 h3, ?_⟩
    rcases h5 with ⟨rfl, rfl⟩ | ⟨rfl, rfl⟩
    · exact Or.inl (hat _ _ h2 h4)
    · exact Or.inr (hat _ _ h2 h4)
  · rintro ⟨x, y, h1, h2⟩
    obtain ⟨hy, hx, rfl⟩ := hinv _ _ _ h1
    show _ ∈ reg2dLinks r c
    rcases h2 with h2 | h2 <;> obtain ⟨hy', hx', rfl⟩ := hinv _ _ _ h2
    · exact (mem_reg2dLinks hx hx').mpr (mem_reg2dLinksC.mpr ⟨hy, hy', hx, hx', Or.inl ⟨rfl, rfl⟩⟩)
    · exact (mem_reg2dLinks hx hx').mpr (mem_reg2dLinksC.mpr ⟨hy, hy', hx, hx', Or.inr ⟨rfl, rfl⟩⟩)

example : reg2dPoints 2 3 = [(0, 0), (1, 0), (2, 0), (0, 1), (1, 1), (2, 1)] := by decide

end Spurt
