import Verif.Lemmas.Reg2D

/-!
# Properties C01–C05: graphs
-/

namespace Spurt
open Spec

/-- C01. `order_points` is a canonical form of an unordered pair. -/
theorem C01_order_points_canonical (a b c d : Nat) :
    (orderPoints (a, b)).1 ≤ (orderPoints (a, b)).2 ∧
    (orderPoints (a, b) = (a, b) ∨ orderPoints (a, b) = (b, a)) ∧
    orderPoints (b, a) = orderPoints (a, b) ∧
    orderPoints (orderPoints (a, b)) = orderPoints (a, b) ∧
    (orderPoints (a, b) = orderPoints (c, d) ↔ (a = c ∧ b = d) ∨ (a = d ∧ b = c)) := by
  refine ⟨orderPoints_le _, orderPoints_eq_or _, ?_, ?_, ?_⟩ <;>
  · simp only [orderPoints]
    repeat' split
    all_goals simp only [Prod.mk.injEq] at *
    all_goals omega

example : orderPoints (7, 2) = (2, 7) ∧ orderPoints (2, 7) = (2, 7) := by decide

/-- C02. The links of a triangulation are exactly the sides of its triangles, lower
index first, in strictly increasing lexicographic order. -/
theorem C02_delaunay_links (npoints : Nat) (simplices : List Tri) :
    let g := delaunayGraph npoints simplices
    g.links.Pairwise (fun x y => x.1 < y.1 ∨ (x.1 = y.1 ∧ x.2 < y.2)) ∧
    (∀ x ∈ g.links, x.1 ≤ x.2) ∧
    (∀ x y, x ≤ y → ((x, y) ∈ g.links ↔
      ∃ t ∈ simplices, ∃ s ∈ sides [t.1, t.2.1, t.2.2], s = (x, y) ∨ s = (y, x))) := by
  refine ⟨linksOfTriangles_sorted simplices, ?_, ?_⟩
  · intro x hx
    obtain ⟨t, _, h⟩ := mem_linksOfTriangles.mp hx
    rcases h with rfl | rfl | rfl <;> exact orderPoints_le _
  · intro x y hxy
    show (x, y) ∈ linksOfTriangles simplices ↔ _
    rw [mem_linksOfTriangles]
    have key : ∀ a b : Nat, (x, y) = orderPoints (a, b) ↔ (a, b) = (x, y) ∨ (a, b) = (y, x) := by
      intro a b
      simp only [orderPoints]
      split <;> simp only [Prod.mk.injEq] <;> omega
    refine exists_congr fun t => and_congr_right fun _ => ?_
    simp only [sides, List.cons_append, List.nil_append, List.zip_cons_cons, List.zip_nil_right,
      List.exists_mem_cons_iff, List.not_mem_nil, false_and, exists_false, or_false, key]
    simp only [Prod.mk.injEq]
    tauto

example : (delaunayGraph 4 [(2, 0, 1), (3, 1, 2)]).links =
    [(0, 1), (0, 2), (1, 2), (1, 3), (2, 3)] := by
  refine lexSorted_ext (linksOfTriangles_sorted _) (by simp [LexLt]) ?_
  rintro ⟨a, b⟩
  show (a, b) ∈ linksOfTriangles _ ↔ _
  rw [mem_linksOfTriangles]
  simp [orderPoints]
  tauto

/-- C03. For `n ≥ 4` `Hop3Graph(n)` returns (the constructor's assertion cannot fire),
its links are, in strictly increasing order, all pairs at most three apart, `3n-6` of
them; for `n < 4` it raises `ValueError`. -/
theorem C03_hop3_links (n : Nat) :
    (n < 4 → hop3Graph n = .error .valueError) ∧
    (4 ≤ n → ∃ g, hop3Graph n = .ok g ∧ g.npoints = n ∧
      g.links.Pairwise (fun x y => x.1 < y.1 ∨ (x.1 = y.1 ∧ x.2 < y.2)) ∧
      (∀ i j, (i, j) ∈ g.links ↔ i < j ∧ j < n ∧ j - i ≤ 3) ∧
      g.links.length = 3 * n - 6) := by
  constructor
  · intro h; simp [hop3Graph, h]
  · intro h
    refine ⟨_, hop3Graph_eq n h, rfl, pairwise_hop3Links n h, ?_, length_hop3Links n h⟩
    intro i j
    show (i, j) ∈ hop3Links n ↔ _
    rw [mem_hop3Links h]; omega

example : (hop3Graph 3).toOption = none ∧ ((hop3Graph 5).toOption.map (·.links)) =
    some [(0, 1), (0, 2), (0, 3), (1, 2), (1, 3), (1, 4), (2, 3), (2, 4), (3, 4)] := by
  constructor
  · rfl
  · rw [hop3Graph_eq 5 (by omega)]; rfl

/-- C04. `Hop3Graph(n)` meets the planar-graph contract with `2n-5` triangles; the links
walked only once are exactly those reported by `boundary`; Euler's formula holds. -/
theorem C04_hop3_planar (n : Nat) (hn : 4 ≤ n) :
    ∃ g, hop3Graph n = .ok g ∧
      PlanarContract n g.links g.cycles ∧
      g.cycles.length = 2 * n - 5 ∧ (∀ c ∈ g.cycles, c.length = 3) ∧
      (∀ a b, (a, b) ∈ g.links →
        (¬ ((a, b) ∈ walked g.cycles ∧ (b, a) ∈ walked g.cycles) ↔
          ((a, b) ∈ hop3Boundary ∨ (b, a) ∈ hop3Boundary))) ∧
      (∀ x ∈ hop3Boundary, x ∈ g.links ∨ x.swap ∈ g.links) ∧ hop3Boundary.Nodup ∧
      n + (g.cycles.length + 1) = g.links.length + 2 := by
  have h3 : ∀ c ∈ (hop3Explicit n).map triRow, c.length = 3 := by
    intro c hc
    obtain ⟨t, _, rfl⟩ := List.mem_map.mp hc
    rfl
  have hlen : ((hop3Explicit n).map triRow).length = 2 * n - 5 := by
    simp [hop3Explicit, List.length_flatMap]; omega
  refine ⟨_, hop3Graph_eq n hn, ?_, hlen, h3, ?_, ?_, by decide, ?_⟩
  · constructor
    · intro a b h
      have := (mem_hop3Links hn).mp h; omega
    · exact nodup_of_lexSorted (pairwise_hop3Links n hn)
    · intro a b h
      simp only [walked_hop3, mem_hop3Walk hn, mem_hop3Links hn] at *
      rcases h with h | h | h | h | h | h <;> omega
    · show (walked ((hop3Explicit n).map triRow)).Nodup
      rw [walked_hop3]; exact nodup_hop3Walk n hn
    · intro a b h
      simp only [walked_hop3, mem_hop3Walk hn, mem_hop3Links hn] at *
      have hc : b = a + 1 ∨ b = a + 2 ∨ b = a + 3 := by omega
      rcases hc with hc | hc | hc
      · left; left; omega
      · left; right; right; left; omega
      · right; right; right; right; right; right; omega
    · intro c hc c' hc'
      rw [h3 c hc, h3 c' hc']
  · intro a b h
    simp only [walked_hop3, mem_hop3Walk hn, mem_hop3Links hn, hop3Boundary, List.mem_cons,
      Prod.mk.injEq, List.not_mem_nil, or_false] at *
    have hc : b = a + 1 ∨ b = a + 2 ∨ b = a + 3 := by omega
    rcases hc with rfl | rfl | rfl
    · by_cases h0 : a = 0
      · subst h0; simp
      · constructor
        · intro hw; exfalso; apply hw
          exact ⟨by left; omega, by right; left; omega⟩
        · intro hw; exfalso; omega
    · by_cases h0 : a = 1
      · subst h0; simp
      · constructor
        · intro hw; exfalso; apply hw
          exact ⟨by right; right; left; omega, by right; right; right; left; omega⟩
        · intro hw; exfalso; omega
    · by_cases h0 : a = 0
      · subst h0; simp
      · constructor
        · intro hw; exfalso; apply hw
          exact ⟨by right; right; right; right; left; omega,
            by right; right; right; right; right; omega⟩
        · intro hw; exfalso; omega
  · intro x hx
    simp only [hop3Boundary, List.mem_cons, List.not_mem_nil, or_false] at hx
    rcases hx with rfl | rfl | rfl <;> simp only [Prod.swap, mem_hop3Links hn] <;> omega
  · show n + (((hop3Explicit n).map triRow).length + 1) = (hop3Links n).length + 2
    rw [hlen, length_hop3Links n hn]; omega

example : ∃ g, hop3Graph 6 = .ok g ∧ g.cycles =
    [[0, 1, 2], [0, 2, 3], [1, 3, 4], [1, 4, 2], [2, 4, 5], [2, 5, 3], [3, 5, 4]] :=
  ⟨_, hop3Graph_eq 6 (by omega), rfl⟩

/-- C05. `Reg2DGraph((r, c))`, both sides at least two: the links are exactly the pairs
of horizontally or vertically adjacent pixels (row-major numbering), the planar-graph
contract holds with one cycle of length 4 per unit square, `boundary` lists exactly the
links walked once, and the sizes with which the arrays are allocated are met. -/
theorem C05_reg2d_planar (r c : Nat) (hr : 2 ≤ r) (hc : 2 ≤ c) :
    let g := reg2dGraph r c
    PlanarContract (r * c) g.links g.cycles ∧ g.npoints = r * c ∧
    (∀ i j i' j', i < r → j < c → i' < r → j' < c →
      ((i * c + j, i' * c + j') ∈ g.links ↔
        (i' = i ∧ j' = j + 1) ∨ (i' = i + 1 ∧ j' = j))) ∧
    (∀ cyc, cyc ∈ g.cycles ↔ ∃ i j, i + 1 < r ∧ j + 1 < c ∧
      cyc = [i * c + j, (i + 1) * c + j, (i + 1) * c + (j + 1), i * c + (j + 1)]) ∧
    g.cycles.Nodup ∧
    (reg2dBoundary r c).Nodup ∧ (reg2dBoundary r c).length = 2 * (r + c - 2) ∧
    (∀ a b, (a, b) ∈ reg2dBoundary r c ↔
      (a, b) ∈ g.links ∧ ¬ ((a, b) ∈ walked g.cycles ∧ (b, a) ∈ walked g.cycles)) ∧
    (g.links.length : ℤ) = 2 * r * c - r - c ∧
    (g.cycles.length : ℤ) = r * c - r - c + 1 := by
  have hnd : (reg2dCycles r c).Nodup := by
    unfold reg2dCycles
    rw [List.nodup_flatMap]
    constructor
    · intro i _
      refine List.nodup_range.map ?_
      intro a b h
      simp only [List.cons.injEq, ravel] at h
      omega
    · refine (List.nodup_range (n := r - 1)).imp ?_
      intro i i' hne
      simp only [Function.onFun, List.disjoint_left, List.mem_map, List.mem_range, not_exists,
        not_and]
      rintro x ⟨j, hj, rfl⟩ j' hj' h
      simp only [List.cons.injEq, ravel] at h
      exact hne (ravel_inj (by omega) (by omega) h.1).1.symm
  refine ⟨reg2d_contract r c hr hc, rfl, ?_, ?_, hnd, nodup_reg2dBoundary r c hr hc,
    by simp [reg2dBoundary]; omega, fun a b => mem_reg2dBoundary hr hc, ?_, ?_⟩
  · intro i j i' j' hi hj hi' hj'
    show _ ∈ reg2dLinks r c ↔ _
    rw [mem_reg2dLinks hj hj', mem_reg2dLinksC]
    constructor
    · rintro ⟨_, _, _, _, h⟩; exact h
    · intro h; exact ⟨hi, hi', hj, hj', h⟩
  · intro cyc
    show cyc ∈ reg2dCycles r c ↔ _
    simp only [reg2dCycles, List.mem_flatMap, List.mem_map, List.mem_range, ravel]
    constructor
    · rintro ⟨i, hi, j, hj, rfl⟩; exact ⟨i, j, by omega, by omega, rfl⟩
    · rintro ⟨i, j, hi, hj, rfl⟩; exact ⟨i, by omega, j, by omega, rfl⟩
  · show ((reg2dLinks r c).length : ℤ) = _
    rw [length_reg2dLinks]
    obtain ⟨r, rfl⟩ := Nat.exists_eq_add_of_le hr
    obtain ⟨c, rfl⟩ := Nat.exists_eq_add_of_le hc
    rw [show 2 + c - 1 = c + 1 by omega, show 2 + r - 1 = r + 1 by omega]
    push_cast; ring
  · show ((reg2dCycles r c).length : ℤ) = _
    rw [length_reg2dCycles]
    obtain ⟨r, rfl⟩ := Nat.exists_eq_add_of_le hr
    obtain ⟨c, rfl⟩ := Nat.exists_eq_add_of_le hc
    rw [show 2 + c - 1 = c + 1 by omega, show 2 + r - 1 = r + 1 by omega]
    push_cast; ring

example : (reg2dGraph 2 3).cycles = [[0, 3, 4, 1], [1, 4, 5, 2]] ∧
    (reg2dGraph 2 3).links = [(0, 1), (1, 2), (3, 4), (4, 5), (0, 3), (1, 4), (2, 5)] ∧
    reg2dBoundary 2 3 = [(0, 1), (1, 2), (2, 5), (4, 5), (3, 4), (0, 3)] := by decide

end Spurt
