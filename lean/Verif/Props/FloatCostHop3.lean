import Verif.Props.FloatCostExample

/-! # C74: the costs of the temporal unwrapping in double precision -/

namespace Spurt

open Spec

/-- graph/_hop3.py:32-33: the acquisitions on a line, an integer array. -/
def hop3Ints (n : Nat) : List (ℤ × ℤ) := (List.range n).map fun i : ℕ => ((i : ℤ), (0 : ℤ))

theorem hop3Ints_real (n : Nat) : realPoints (hop3Ints n) = hop3Points n := by
  unfold realPoints hop3Ints hop3Points
  rw [List.map_map]; simp [Function.comp_def]

theorem hop3Ints_bound {n : Nat} {B : ℤ} (h : (n : ℤ) ≤ B) : ∀ p ∈ hop3Ints n, |p.1| ≤ B ∧ |p.2| ≤ B := by
  intro p hp
  obtain ⟨i, hi, rfl⟩ := List.mem_map.mp hp
  have := List.mem_range.mp hi
  simp only [abs_zero, Nat.abs_cast]
  omega

/-- Two triangles of the Hop-3 graph with a side in common have nearby means. -/
theorem hop3_sums_near {n : Nat} (hn : 4 ≤ n) {s t : Tri} (hs : s ∈ hop3Explicit n) (ht : t ∈ hop3Explicit n) {a b : Nat}
    (h1 : (a, b) ∈ sides (triRow s) ∨ (b, a) ∈ sides (triRow s)) (h2 : (a, b) ∈ sides (triRow t) ∨ (b, a) ∈ sides (triRow t)) :
    s.1 + s.2.1 + s.2.2 ≤ t.1 + t.2.1 + t.2.2 + 7 := by
  rw [mem_hop3Explicit] at hs ht
  simp only [triRow, sides, List.cons_append, List.nil_append, List.zip_cons_cons,
        List.zip_nil_right, List.mem_cons, List.not_mem_nil, or_false, Prod.mk.injEq] at h1 h2
  rcases hs with rfl | rfl | ⟨ii, h3, h4, rfl | rfl⟩ | rfl <;>
    rcases ht with rfl | rfl | ⟨jj, h5, h6, rfl | rfl⟩ | rfl <;> simp only at h1 h2 ⊢ <;> omega

/-- C74. The temporal costs in double precision, default scale, any stack of up to 32768 acquisitions: both cost types give exactly
the costs of exact arithmetic. -/
theorem C74_hop3 {fl sq : ℚ → ℚ} (hA : DoubleArith fl sq) (n : Nat) (hn : 4 ≤ n) (hn2 : n ≤ 2 ^ 15) :
    ∃ g m dcost ccost, hop3Graph n = .ok g ∧ ormcf g = .ok m ∧
      distanceCosts (hop3Points n) g.links 100 = .ok dcost ∧ distanceCostsFl fl sq (ratPoints (hop3Ints n)) g.links 100 = .ok dcost ∧
      centroidCosts (hop3Points n) g.cycles m.dual 100 = .ok ccost ∧
      centroidCostsFl fl sq (ratPoints (hop3Ints n)) g.cycles m.dual 100 = .ok ccost := by
  obtain ⟨g, m, dcost, ccost, hg, hm, h1, -, -, h2, h3, -, -⟩ := C18_hop3_costs n hn 100 (by norm_num)
  refine ⟨g, m, dcost, ccost, hg, hm, h1, ?_, h2, ?_⟩
  · have := C74_distance hA (hop3Ints n) (hop3Ints_bound (by norm_num at hn2 ⊢; omega)) g.links 100 (by norm_num) (by norm_num)
    rw [hop3Ints_real] at this
    push_cast at this
    rw [this, h1]
  -- the centroid costs
  obtain ⟨g', hg', hc, -⟩ := C04_hop3_planar n hn
  rw [hg] at hg'
  rw [← Except.ok.inj hg'] at hc
  have hge := hg
  rw [hop3Graph_eq n hn] at hge
  simp only [Except.ok.injEq] at hge
  have hgn : g.npoints = n := by rw [← hge]
  have hgc : g.cycles = (hop3Explicit n).map triRow := by rw [← hge]
  rw [← hgn] at hc
  obtain ⟨-, hmd⟩ := dual_of_contract hc hm
  have hlen3 : ∀ c ∈ g.cycles, c.length = 3 := by
    intro c hcm
    rw [hgc] at hcm
    obtain ⟨t, -, rfl⟩ := List.mem_map.mp hcm
    rfl
  obtain ⟨cost, hcost, hlen, hval⟩ := C74_centroid hA (hop3Ints n) (hop3Ints_bound (by norm_num at hn2 ⊢; omega)) g.cycles hlen3 m.dual 100
    (by norm_num) (by norm_num) ccost (by rw [hop3Ints_real]; exact_mod_cast h2)
  obtain ⟨hlen', hval'⟩ := C18_centroid_nearest (hop3Points n) g.cycles (fun c hcm h => by
    have := hlen3 c hcm; rw [h] at this; simp at this) m.dual 100 ccost h2
  push_cast at hcost
  rw [hcost]
  congr 1
  apply List.ext_getElem (by omega)
  intro i hi1 hi2
  have hi : i < m.dual.length := by omega
  obtain ⟨a1, a2⟩ := hval i _ (List.getElem?_eq_getElem hi)
  obtain ⟨b1, b2⟩ := hval' i _ (List.getElem?_eq_getElem hi)
  have e1 : cost.getD i 0 = cost[i] := by simp [List.getD_eq_getElem?_getD, hi1]
  have e2 : ccost.getD i 0 = ccost[i] := by simp [List.getD_eq_getElem?_getD, hi2]
  rw [← e1, ← e2]
  by_cases h0 : m.dual[i].c1 = 0
  · rw [a1 h0, b1 h0]
  obtain ⟨u, v, hu, hv, hx⟩ := a2 h0
  obtain ⟨u', v', hu', hv', hy⟩ := b2 h0
  rw [hu] at hu'
  rw [hv] at hv'
  cases hu'
  cases hv'
  rw [hop3Ints_real] at hx
  -- the triangles
  have hil : i < g.links.length := by rw [hmd] at hi; simpa using hi
  have hrow : m.dual[i] = rowOf (linkTraversals g.cycles g.links[i]) := by simp [hmd]
  have hside : ∃ s t, s ∈ hop3Explicit n ∧ t ∈ hop3Explicit n ∧ u = triRow s ∧ v = triRow t ∧
      ((g.links[i].1, g.links[i].2) ∈ sides (triRow s) ∨ (g.links[i].2, g.links[i].1) ∈ sides (triRow s)) ∧
      ((g.links[i].1, g.links[i].2) ∈ sides (triRow t) ∨ (g.links[i].2, g.links[i].1) ∈ sides (triRow t)) := by
    rw [hrow] at h0 hu hv
    have hct := contract_traversals hc (List.getElem_mem hil)
    have hmt := fun t => mem_traversals (cycles := g.cycles) (a := g.links[i].1) (b := g.links[i].2) (t := t)
    simp only [linkTraversals] at h0 hu hv
    generalize traversals g.cycles g.links[i].1 g.links[i].2 = ts at *
    rcases ts with _ | ⟨p, _ | ⟨q, _ | ⟨w, ts⟩⟩⟩
    · simp at hct
    · simp [rowOf] at h0
    · obtain ⟨k, hk, hk1, hks⟩ := hmt p (by simp)
      obtain ⟨l, hl, hl1, hls⟩ := hmt q (by simp)
      have hk' : k < (hop3Explicit n).length := by simpa [hgc] using hk
      have hl' : l < (hop3Explicit n).length := by simpa [hgc] using hl
      have ek : g.cycles[k] = triRow (hop3Explicit n)[k] := by simp [hgc]
      have el : g.cycles[l] = triRow (hop3Explicit n)[l] := by simp [hgc]
      simp only [rowOf, hk1, hl1, Nat.add_sub_cancel, List.getElem?_eq_getElem hk, List.getElem?_eq_getElem hl, Option.some.injEq] at hu hv
      rw [ek] at hu hks
      rw [el] at hv hls
      exact ⟨_, _, List.getElem_mem hk', List.getElem_mem hl', hu.symm, hv.symm, hks.imp (fun h => h.2) (fun h => h.2), hls.imp (fun h => h.2) (fun h => h.2)⟩
    · simp at hct
  obtain ⟨s, t, hs, ht, rfl, rfl, hs2, ht2⟩ := hside
  have near1 := hop3_sums_near hn hs ht hs2 ht2
  have near2 := hop3_sums_near hn ht hs ht2 hs2
  obtain ⟨s1, s2, s3, -⟩ := hop3Explicit_bound hn hs
  obtain ⟨t1, t2, t3, -⟩ := hop3Explicit_bound hn ht
  have cs := centroid_hop3 n s s1 s2 s3
  have ct := centroid_hop3 n t t1 t2 t3
  have zero2 : ∀ r : Tri, (centroid (hop3Points n) (triRow r)).2 = 0 := by
    intro r
    have : ∀ k, ((hop3Points n).getD k (0, 0)).2 = 0 := by
      intro k
      unfold hop3Points
      rw [List.getD_eq_getElem?_getD, List.getElem?_map]
      cases (List.range n)[k]? <;> rfl
    unfold centroid
    simp only [this]; simp
  set A := s.1 + s.2.1 + s.2.2
  set B := t.1 + t.2.1 + t.2.2
  have hd : Distance (centroid (hop3Points n) (triRow s)) (centroid (hop3Points n) (triRow t)) (|(A : ℝ) - B| / 3) := by
    refine ⟨by positivity, ?_⟩
    rw [cs, ct, zero2, zero2, div_pow, sq_abs]; ring
  obtain ⟨d0, x1⟩ := hx _ _ _ (exists_centroid _ _ (by simp [triRow])) (exists_centroid _ _ (by simp [triRow])) hd
  obtain ⟨-, y1, -⟩ := hy _ _ _ (exists_centroid _ _ (by simp [triRow])) (exists_centroid _ _ (by simp [triRow])) hd
  -- no tie
  obtain ⟨δ, hδ1, hδ2, hδ⟩ : ∃ δ : ℕ, 1 ≤ δ ∧ δ ≤ 7 ∧ |(A : ℝ) - B| = δ := by
    have hab : A ≠ B := by
      intro h; rw [h] at d0; simp at d0
    rcases lt_or_gt_of_ne hab with h | h
    · refine ⟨B - A, by omega, by omega, ?_⟩
      rw [abs_sub_comm, Nat.cast_sub h.le, abs_of_nonneg]
      have : (A : ℝ) ≤ B := by exact_mod_cast h.le
      linarith
    · refine ⟨A - B, by omega, by omega, ?_⟩
      rw [Nat.cast_sub h.le, abs_of_nonneg]
      have : (B : ℝ) ≤ A := by exact_mod_cast h.le
      linarith
  rw [hδ] at x1 y1
  have hδ0 : (δ : ℝ) ≠ 0 := by exact_mod_cast (by omega : δ ≠ 0)
  have e : (1 : ℝ) + 100 / ((δ : ℝ) / 3) = 1 + 300 / δ := by field_simp; norm_num
  push_cast at x1
  rw [e] at x1 y1
  set c := cost.getD i 0
  set c' := ccost.getD i 0
  obtain ⟨x2, x3⟩ := abs_le.mp x1
  obtain ⟨y2, y3⟩ := abs_le.mp y1
  have l1 : (c : ℝ) ≤ c' + 1 := by linarith
  have l2 : (c' : ℝ) ≤ c + 1 := by linarith
  have l3 : c ≤ c' + 1 := by exact_mod_cast l1
  have l4 : c' ≤ c + 1 := by exact_mod_cast l2
  by_contra hne
  have tie : ∀ z : ℤ, (1 : ℝ) + 300 / δ ≠ z + 1 / 2 := by
    intro z hz
    have h1 : (600 : ℝ) = (2 * z - 1) * δ := by
      field_simp at hz; linarith
    have h2 : (600 : ℤ) = (2 * z - 1) * δ := by exact_mod_cast h1
    interval_cases δ <;> omega
  rcases lt_or_gt_of_ne hne with h | h
  · have e : c' = c + 1 := by omega
    have e2 : (c' : ℝ) = c + 1 := by exact_mod_cast e
    apply tie c; linarith
  · have e : c = c' + 1 := by omega
    have e2 : (c : ℝ) = c' + 1 := by exact_mod_cast e
    apply tie c'; linarith

/-- For instance in doubles, for a stack of 30 acquisitions. -/
example : ∃ g m dcost ccost, hop3Graph 30 = .ok g ∧ ormcf g = .ok m ∧
    distanceCosts (hop3Points 30) g.links 100 = .ok dcost ∧ distanceCostsFl flDouble sqrtDouble (ratPoints (hop3Ints 30)) g.links 100 = .ok dcost ∧
    centroidCosts (hop3Points 30) g.cycles m.dual 100 = .ok ccost ∧
    centroidCostsFl flDouble sqrtDouble (ratPoints (hop3Ints 30)) g.cycles m.dual 100 = .ok ccost :=
  C74_hop3 C74_doubles 30 (by norm_num) (by norm_num)

end Spurt
