import Verif.Props.Dirichlet

/-!
# Properties C42 and C58: `dirichlet`, `l2_min_cg` and logging
-/

namespace Spurt
open Spec

section
variable {K : Type} [Field K] [LinearOrder K] [IsStrictOrderedRing K]

omit [IsStrictOrderedRing K] in
theorem dirichlet_unfold {lin : LinSolver K} {a : SqMat K} {b xf : List K} {mask : Nat → Bool}
    {log : Bool} {r : List K × List K} (h : dirichlet lin a b xf mask log = .ok r) :
    ∃ y res, l2MinCg lin (freeMat a mask) ((freeIdx a.n mask).map fun i =>
        ((List.range a.n).map fun i => b.getD i 0 -
          (((List.range a.n).filter fun j => mask j).map fun j => a.val i j * xf.getD j 0).sum).getD i 0)
        log (some 100) = .ok (y, res) ∧
      r = ((List.range xf.length).map fun i =>
          if mask i then xf.getD i 0 else y.getD ((freeIdx a.n mask).idxOf i) 0,
        List.zipWith (· - ·) b (a.dot ((List.range xf.length).map fun i =>
          if mask i then xf.getD i 0 else y.getD ((freeIdx a.n mask).idxOf i) 0))) := by
  unfold dirichlet at h
  simp only [Bind.bind, Except.bind, Pure.pure, Except.pure] at h
  split at h
  · simp at h
  · rename_i v hv
    simp only [Except.ok.injEq] at h
    exact ⟨v.1, v.2, hv, h.symm⟩

omit [IsStrictOrderedRing K] in
/-- C42. `dirichlet` returns the fixed values on the mask, whatever the inner solver does. -/
theorem C42_dirichlet_fixed (lin : LinSolver K) (a : SqMat K) (b xf x res : List K) (mask : Nat → Bool)
    (log : Bool) (h : dirichlet lin a b xf mask log = .ok (x, res)) :
    x.length = xf.length ∧ ∀ p, mask p = true → x[p]? = xf[p]? := by
  obtain ⟨y, r, _, he⟩ := dirichlet_unfold h
  simp only [Prod.mk.injEq] at he
  obtain ⟨rfl, _⟩ := he
  refine ⟨by simp, ?_⟩
  intro p hp
  by_cases hl : p < xf.length
  · rw [List.getElem?_map, List.getElem?_range hl]
    simp [hp, List.getD_eq_getElem?_getD, hl]
  · rw [List.getElem?_eq_none (by simpa using hl), List.getElem?_eq_none (by omega)]

theorem l2MinCg_exact {lin : LinSolver K} (hex : ExactSolver lin) {a : SqMat K}
    (hsym : ∀ i < a.n, ∀ j < a.n, a.val i j = a.val j i) {b y r : List K} {log : Bool} {mi : Option Nat}
    (hsolv : ∃ x : List K, x.length = a.n ∧ a.dot x = b)
    (h : l2MinCg lin a b log mi = .ok (y, r)) : a.dot y = b := by
  unfold l2MinCg at h
  have hs : ((List.range a.n).all fun i => (List.range a.n).all fun j => decide (a.val i j = a.val j i)) = true := by
    simpa using hsym
  rw [hs] at h
  simp only [if_true, Bool.and_true] at h
  split at h
  · simp at h
  · rename_i hlen
    have hlen := not_not.mp hlen
    split at h
    · rename_i h0
      simp only [Except.ok.injEq, Prod.mk.injEq] at h
      obtain ⟨rfl, _⟩ := h
      rw [List.eq_nil_of_length_eq_zero (hlen.symm.trans h0)]
      simp [SqMat.dot, h0]
    · split at h
      · rename_i hb
        simp only [Except.ok.injEq, Prod.mk.injEq] at h
        obtain ⟨rfl, _⟩ := h
        apply List.ext_getElem (by simp [SqMat.dot, hlen])
        intro i h1 h2
        have hbi : b[i] = 0 := by
          have := List.all_eq_true.mp hb b[i] (List.getElem_mem h2)
          simpa using this
        rw [hbi]
        simp only [SqMat.dot, List.getElem_map]
        apply List.sum_eq_zero
        intro v hv
        obtain ⟨j, _, rfl⟩ := List.mem_map.mp hv
        have : (List.replicate a.n (0 : K)).getD j 0 = 0 := by
          rw [List.getD_eq_getElem?_getD, List.getElem?_replicate]
          split <;> rfl
        rw [this, mul_zero]
      · split at h
        · simp at h
        · split at h
          · simp at h
          · simp only [Except.ok.injEq, Prod.mk.injEq] at h
            obtain ⟨rfl, _⟩ := h
            exact hex a b hsolv

/-- C42. With an exact inner solver and the Laplacian of a graph in which every free point is
joined to a fixed one, `dirichlet` leaves no residual at the free points. -/
theorem C42_dirichlet_residual (lin : LinSolver K) (hex : ExactSolver lin) (links : List (Nat × Nat))
    (a : SqMat ℤ) (hlap : graphLaplacian links = .ok a) (b xf x res : List K) (mask : Nat → Bool) (log : Bool)
    (hb : b.length = a.n) (hxf : xf.length = a.n)
    (hg : ∀ p < a.n, mask p = false → Grounded a.n links mask p)
    (h : dirichlet lin (castMat K a) b xf mask log = .ok (x, res)) :
    (∀ p < a.n, mask p = false → res[p]? = some 0) ∧
    ∀ p < a.n, res[p]? = some (b.getD p 0 - ∑ j ∈ Finset.range a.n, ((a.val p j : ℤ) : K) * x.getD j 0) := by
  obtain ⟨y, r, hy, he⟩ := dirichlet_unfold h
  simp only [Prod.mk.injEq] at he
  obtain ⟨hx, hres⟩ := he
  rw [← hx] at hres
  have hrow : ∀ p < a.n, res[p]? =
      some (b.getD p 0 - ∑ j ∈ Finset.range a.n, ((a.val p j : ℤ) : K) * x.getD j 0) := by
    intro p hp
    rw [hres, List.getElem?_zipWith, List.getElem?_eq_getElem (by omega : p < b.length)]
    unfold SqMat.dot
    rw [List.getElem?_map, List.getElem?_range (by exact hp)]
    simp only [Option.map_some]
    rw [List.getD_eq_getElem _ _ (by omega : p < b.length)]
    have hs : ∀ u v : K, u = v → some (b[p]'(by omega) - u) = some (b[p]'(by omega) - v) := by
      intro u v huv; rw [huv]
    apply hs
    rw [sum_getD]
    simp only [List.length_map, List.length_range]
    apply Finset.sum_congr rfl
    intro j hj
    have hj' : j < a.n := Finset.mem_range.mp hj
    rw [getD_map_lt _ _ (by simpa [castMat] using hj')]
    simp [castMat]
  refine ⟨?_, hrow⟩
  intro p hp hm
  rw [hrow p hp]
  have hsolve := l2MinCg_exact hex (by
    intro i _ j _
    simp only [freeMat, castMat]
    exact_mod_cast (C43_symmetric links a hlap _ _).1) (freeMat_solvable hlap mask hg _ (by simp [freeMat])) hy
  have hmem : p ∈ freeIdx a.n mask := mem_freeIdx.mpr ⟨hp, hm⟩
  obtain ⟨k, hk, hki⟩ := List.getElem_of_mem hmem
  have h1 := congrArg (fun l => l.getD k 0) hsolve
  simp only [SqMat.dot] at h1
  rw [getD_map_lt _ _ (by simpa [freeMat, castMat] using hk), getD_map_lt _ _ (by exact hk)] at h1
  have hki' : (freeIdx (castMat K a).n mask)[k]'(by exact hk) = p := hki
  simp only [List.getElem_range, hki', freeMat] at h1
  rw [getD_map_lt _ _ (by simpa [castMat] using hp)] at h1
  simp only [List.getElem_range] at h1
  have hfk : (freeIdx (castMat K a).n mask).getD k 0 = p := by
    rw [List.getD_eq_getElem _ _ (by exact hk)]; exact hki
  rw [hfk] at h1
  have hext := extend_dot (castMat K a) mask (fun j => xf.getD j 0) y p
  rw [h1] at hext
  have hsum : ∑ j ∈ Finset.range a.n, ((a.val p j : ℤ) : K) * x.getD j 0 =
      ∑ j ∈ Finset.range (castMat K a).n, (castMat K a).val p j *
        extend (castMat K a).n mask (fun j => xf.getD j 0) y j := by
    apply Finset.sum_congr rfl
    intro j hj
    have hj' : j < a.n := Finset.mem_range.mp hj
    rw [hx, getD_map_lt _ _ (by simpa [hxf] using hj')]
    simp [extend, castMat]
  rw [hsum, hext]
  congr 1
  ring

omit [IsStrictOrderedRing K] in
/-- C58. Turning logging on does not change the result of `dirichlet`, nor that of `l2_min_cg`
with an iteration limit. -/
theorem C58_logging_partial (lin : LinSolver K) (a : SqMat K) (b xf : List K) (mask : Nat → Bool) (m : Nat) :
    dirichlet lin a b xf mask true = dirichlet lin a b xf mask false ∧
    l2MinCg lin a b true (some m) = l2MinCg lin a b false (some m) := by
  have h : ∀ (a : SqMat K) (b : List K) (m : Nat),
      l2MinCg lin a b true (some m) = l2MinCg lin a b false (some m) := by
    intro a b m
    unfold l2MinCg
    simp
  refine ⟨?_, h a b m⟩
  unfold dirichlet
  simp only [h]

/-- C58. Turning logging on does not change the result of `dirichlet_graph` when the inner solver
is exact and every free point is joined to a fixed one. -/
theorem C58_logging_graph_partial (lin : LinSolver K) (hex : ExactSolver lin) (links : List (Nat × Nat)) (a : SqMat ℤ)
    (hlap : graphLaplacian links = .ok a) (xf y y' : Arr K) (mask : Nat → Bool)
    (hg : ∀ p < a.n, mask p = false → Grounded a.n links mask p)
    (h : dirichletGraph lin (castMat K a) xf mask true = .ok y)
    (h' : dirichletGraph lin (castMat K a) xf mask false = .ok y') (k p : Nat) (hp : p < a.n) :
    y.val k p = y'.val k p := by
  refine C42_unique lin hex links a hlap xf y mask true hg h k (y'.val k) ?_ ?_ p hp
  · intro q _ hq
    exact (C42_fixed lin _ xf y' mask false h').2.2 k q hq
  · intro q hq hqm
    exact C42_mean_value lin hex links a hlap xf y' mask false hg h' k q hq hqm

/-- C58 is false for `l2_min_cg` without an iteration limit, its default: with logging on, a
symmetric matrix makes it raise. -/
theorem C58_logging_refuted : ∃ (lin : LinSolver ℚ) (a : SqMat ℚ) (b x r : List ℚ),
    l2MinCg lin a b false none = .ok (x, r) ∧ r = [0, 0] ∧
    l2MinCg lin a b true none = .error .valueError := by
  refine ⟨⟨fun _ => true, fun _ b => b⟩, ⟨2, fun i j => if i = j then 1 else 0⟩, [1, 2], [1, 2], [0, 0],
    ?_, rfl, ?_⟩ <;> decide +kernel

/-- The hypotheses of the residual theorem hold for a path of three points with one fixed value. -/
example : ∃ (lin : LinSolver ℚ) (a : SqMat ℤ) (x res : List ℚ), ExactSolver lin ∧
    graphLaplacian [(0, 1), (1, 2)] = .ok a ∧ a.n = 3 ∧
    (∀ p < a.n, (fun p => p == 0) p = false → Grounded a.n [(0, 1), (1, 2)] (fun p => p == 0) p) ∧
    dirichlet lin (castMat ℚ a) [0, 1, 2] [5, 0, 0] (fun p => p == 0) true = .ok (x, res) ∧
    x[0]? = some 5 ∧ res[2]? = some 0 := by
  obtain ⟨lin, hex, hilu⟩ := exists_exact_solver (K := ℚ)
  obtain ⟨a, ha⟩ := (C43_returns [(0, 1), (1, 2)]).mpr (by simp)
  have hn : a.n = 3 := by
    unfold graphLaplacian at ha
    simp only [List.cons_ne_nil, if_false, Except.ok.injEq] at ha
    rw [← ha]
    decide
  have hg : ∀ p < a.n, (fun p => p == 0) p = false →
      Grounded a.n [(0, 1), (1, 2)] (fun p => p == 0) p := by
    intro p hp hm
    rw [hn] at hp ⊢
    have h10 : Relation.ReflTransGen (Adjacent [(0, 1), (1, 2)]) 1 0 := .single (by simp [Adjacent])
    refine ⟨0, by decide, rfl, ?_⟩
    interval_cases p
    · simp at hm
    · exact h10
    · exact h10.head (by simp [Adjacent])
  have hd : ∃ r, dirichlet lin (castMat ℚ a) [0, 1, 2] [5, 0, 0] (fun p => p == 0) true = .ok r := by
    unfold dirichlet l2MinCg
    simp only [Bind.bind, Except.bind, Pure.pure, Except.pure]
    rw [if_neg (by simp [freeMat])]
    split
    · rename_i e he
      split at he
      · simp at he
      · split at he
        · simp at he
        · simp [hilu] at he
    · exact ⟨_, rfl⟩
  obtain ⟨⟨x, res⟩, hr⟩ := hd
  refine ⟨lin, a, x, res, hex, ha, hn, hg, hr, ?_, ?_⟩
  · exact (C42_dirichlet_fixed lin _ _ _ x res _ true hr).2 0 rfl
  · exact (C42_dirichlet_residual lin hex _ a ha _ _ x res _ true (by simp [hn]) (by simp [hn]) hg hr).1 2
      (by omega) rfl

end

end Spurt
