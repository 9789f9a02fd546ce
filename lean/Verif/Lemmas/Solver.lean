import Verif.Lemmas.Flow

namespace Spurt
open Spec

theorem bcast_ok {n : Nat} {cost c : List ℤ} (h : bcast n cost = .ok c) : CostOn n cost c := by
  unfold bcast at h
  split at h
  · rename_i hl
    simp only [Except.ok.injEq] at h
    subst h; exact ⟨hl, .inl rfl⟩
  · split at h
    · rename_i v _
      simp only [Except.ok.injEq] at h
      subst h
      exact ⟨by simp, .inr ⟨v, rfl, rfl⟩⟩
    · simp at h

theorem bcast_of {n : Nat} {cost c : List ℤ} (h : CostOn n cost c) : bcast n cost = .ok c := by
  obtain ⟨hl, rfl | ⟨v, rfl, rfl⟩⟩ := h
  · simp [bcast, hl]
  · unfold bcast
    split
    · rename_i h
      simp at h; subst h; rfl
    · rfl

theorem solveMcf_ok {solver : FlowSolver} {dual : List DualRow} {res cost revcost fl : List ℤ}
    (h : solveMcf solver dual res cost revcost = .ok fl) :
    res.sum = 0 ∧ ∃ c r f, CostOn dual.length cost c ∧ CostOn dual.length revcost r ∧
      solver (flowProblem dual res c r) = some f ∧ fl = linkFlows dual f := by
  unfold solveMcf at h
  simp only at h
  split at h
  · simp at h
  · rename_i hs
    refine ⟨by simpa using hs, ?_⟩
    cases hc : bcast dual.length cost with
    | error e => rw [hc] at h; simp [Bind.bind, Except.bind] at h
    | ok c =>
      cases hr : bcast dual.length revcost with
      | error e => rw [hc, hr] at h; simp [Bind.bind, Except.bind] at h
      | ok r =>
        rw [hc, hr] at h
        simp only [Bind.bind, Except.bind] at h
        cases hf : solver (flowProblem dual res c r) with
        | none => rw [hf] at h; simp at h
        | some f =>
          rw [hf] at h
          simp only [Except.ok.injEq] at h
          exact ⟨c, r, f, bcast_ok hc, bcast_ok hr, hf, h.symm⟩

theorem solveMcf_of {solver : FlowSolver} {dual : List DualRow} {res cost revcost c r f : List ℤ}
    (hs : res.sum = 0) (hc : CostOn dual.length cost c) (hr : CostOn dual.length revcost r)
    (hf : solver (flowProblem dual res c r) = some f) :
    solveMcf solver dual res cost revcost = .ok (linkFlows dual f) := by
  unfold solveMcf
  simp only [hs, bcast_of hc, bcast_of hr]
  simp [Bind.bind, Except.bind, hf, linkFlows]

theorem circulation_zero (links : List (Nat × Nat)) (n : Nat) (c : List Nat) :
    circulation links (List.replicate n (0 : ℤ)) c = 0 := by
  unfold circulation
  have : ∀ s ∈ sides c, along links (List.replicate n (0 : ℤ)) s.1 s.2 = 0 := by
    intro s _
    have h : ∀ i, (List.replicate n (0 : ℤ)).getD i 0 = 0 := by
      intro i
      by_cases hi : i < n <;> simp [List.getD_eq_getElem?_getD, List.getElem?_replicate, hi]
    unfold along onLink
    split <;> rw [h] <;> simp
  rw [List.map_congr_left this]
  simp

theorem any_nonzero_false {l : List ℤ} (h : ¬ (l.any (· ≠ 0)) = true) : ∀ k, l.getD k 0 = 0 := by
  intro k
  by_cases hk : k < l.length
  · rw [List.getD_eq_getElem?_getD, List.getElem?_eq_getElem hk]
    by_contra hne
    apply h
    rw [List.any_eq_true]
    exact ⟨l[k], List.getElem_mem hk, by simpa using hne⟩
  · rw [List.getD_eq_getElem?_getD, List.getElem?_eq_none (by omega)]; rfl

/-- A sound, optimal and complete solver exists, so theorems quantifying over such
solvers are not vacuous. -/
theorem exists_solver : ∃ s : FlowSolver, SolverOptimal s ∧ SolverComplete s := by
  classical
  refine ⟨fun p => if h : ∃ f, FeasibleFlow p f ∧ ∀ f', FeasibleFlow p f' →
    flowCost p f ≤ flowCost p f' then some h.choose else none, ⟨?_, ?_⟩, ?_⟩
  · intro p f h
    simp only at h
    split at h
    · rename_i hex
      simp only [Option.some.injEq] at h
      subst h; exact hex.choose_spec.1
    · simp at h
  · intro p f h
    simp only at h
    split at h
    · rename_i hex
      simp only [Option.some.injEq] at h
      subst h; exact hex.choose_spec.2
    · simp at h
  · intro p hcost hfeas
    have hnn : ∀ f, FeasibleFlow p f → 0 ≤ flowCost p f := by
      intro f hf
      unfold flowCost
      apply List.sum_nonneg
      intro x hx
      rw [← List.map_uncurry_zip_eq_zipWith] at hx
      obtain ⟨⟨a, y⟩, hm, rfl⟩ := List.mem_map.mp hx
      have h1 := hf.bounds (a, y) hm
      have h2 := hcost a (List.of_mem_zip hm).1
      exact mul_nonneg h2 h1.1
    have hmin : ∃ f, FeasibleFlow p f ∧ ∀ f', FeasibleFlow p f' → flowCost p f ≤ flowCost p f' := by
      have hS : ∃ n : Nat, ∃ f, FeasibleFlow p f ∧ (flowCost p f).toNat = n := by
        obtain ⟨f, hf⟩ := hfeas; exact ⟨_, f, hf, rfl⟩
      obtain ⟨f, hf, hfn⟩ := Nat.find_spec hS
      refine ⟨f, hf, fun f' hf' => ?_⟩
      have := Nat.find_min' hS ⟨f', hf', rfl⟩
      have a := hnn f hf
      have b := hnn f' hf'
      omega
    simp [hmin]

/-- `residues_to_flows` returns whenever some bounded correction cancels the residues. -/
theorem residuesToFlows_returns {g : PlanarGraph} {m : Mcf} {solver : FlowSolver}
    (hc : PlanarContract g.npoints g.links g.cycles) (hm : ormcf g = .ok m)
    (hcomp : SolverComplete solver) (residues cost : List ℤ) (revcost : Option (List ℤ))
    (c r : List ℤ) (hcost : CostOn g.links.length cost c)
    (hrev : CostOn g.links.length (revcost.getD cost) r)
    (hc0 : ∀ v ∈ c, 0 ≤ v) (hr0 : ∀ v ∈ r, 0 ≤ v)
    (hres : residues.length = g.cycles.length + 1) (hsum : residues.sum = 0)
    (hx : ∃ x, Cancels g.links g.cycles residues x ∧ ∀ v ∈ x, |v| ≤ int32Max) :
    ∃ fl, residuesToFlows solver m residues cost revcost = .ok fl := by
  obtain ⟨hmg, hmd⟩ := dual_of_contract hc hm
  unfold residuesToFlows
  split
  · obtain ⟨x, hx, hcap⟩ := hx
    have hf := cancels_feasible hc residues c r x hcost.1 hrev.1 hres hsum hx hcap
    have hdl : (dualOf g).length = g.links.length := by simp [dualOf]
    have hnn : ∀ a ∈ (flowProblem (dualOf g) residues c r).arcs, 0 ≤ a.cost := by
      intro a ha
      have pick : ∀ u ∈ c.zip r, ∀ d x y : ℤ, 0 ≤ pickCost u.1 u.2 d x y := by
        intro u hu d x y
        have h1 := hc0 _ (List.of_mem_zip hu).1
        have h2 := hr0 _ (List.of_mem_zip hu).2
        unfold pickCost
        split <;> split <;> simp <;> omega
      simp only [flowProblem, List.mem_append, ← List.map_uncurry_zip_eq_zipWith,
        List.mem_map] at ha
      rcases ha with ⟨⟨q, u⟩, hq, rfl⟩ | ⟨⟨q, u⟩, hq, rfl⟩
      · exact pick u (List.of_mem_zip hq).2 _ _ _
      · exact pick u (List.of_mem_zip hq).2 _ _ _
    obtain ⟨f, hfs⟩ := Option.isSome_iff_exists.mp (hcomp _ hnn ⟨_, hf⟩)
    refine ⟨_, solveMcf_of (c := c) (r := r) (f := f) hsum ?_ ?_ ?_⟩
    · rw [hmd]; rw [hdl]; exact hcost
    · rw [hmd]; rw [hdl]; exact hrev
    · rw [hmd]; exact hfs
  · exact ⟨_, rfl⟩

end Spurt
