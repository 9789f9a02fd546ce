import Verif.Props.Sign

/-! # C88 with two flow solvers that know nothing of each other -/

namespace Spurt
open Spec

theorem flows_within {g : PlanarGraph} {m : Mcf} {solver : FlowSolver}
    (hc : PlanarContract g.npoints g.links g.cycles) (hm : ormcf g = .ok m) (hs : SolverSound solver) {residues cost : List ℤ}
    {revcost : Option (List ℤ)} {flows : List ℤ} (h : residuesToFlows solver m residues cost revcost = .ok flows) :
    ∀ v ∈ flows, |v| ≤ 2147483647 := by
  obtain ⟨hmg, hmd⟩ := dual_of_contract hc hm
  unfold residuesToFlows at h
  split at h
  · obtain ⟨_, c, r, f, hcost, hrev, hf, rfl⟩ := solveMcf_ok h
    rw [hmd] at hcost hrev hf ⊢
    have hdl : (dualOf g).length = g.links.length := by simp [dualOf]
    have hff := hs _ _ hf
    have hfl : f.length = (dualOf g).length + (dualOf g).length := by
      rw [hff.len, arcs_length _ _ _ _ hcost.1 hrev.1]
    have hb := (bounds_iff _ _ _ _ hcost.1 hrev.1 f hfl).mp hff.bounds
    intro v hv
    obtain ⟨i, hi, rfl⟩ := List.mem_iff_getElem.mp hv
    have hi' : i < (dualOf g).length := by simpa [linkFlows] using hi
    have e := linkFlows_getD (dualOf g) f hi'
    rw [List.getD_eq_getElem _ _ hi] at e
    rw [e]
    obtain ⟨⟨b1, b2⟩, b3, b4⟩ := hb i hi'
    have h0 := (dualOf_good hc (i := i) (by omega)).d0
    simp only [int32Max] at b2 b4
    generalize f.getD ((dualOf g).length + i) 0 = y at *
    generalize f.getD i 0 = z at *
    rw [abs_le]
    rcases h0 with h0 | h0 <;> rw [h0] <;> constructor <;> omega
  · simp only [Except.ok.injEq] at h
    subst h
    intro v hv
    rw [(List.mem_replicate.mp hv).2]
    norm_num

theorem along_opposite (links : List (Nat × Nat)) (x : List ℤ) (a b : Nat) : along links (x.map (- ·)) a b = - along links x a b := by
  unfold along onLink
  simp only [getD_negZ]
  split <;> rfl

theorem circulation_opposite (links : List (Nat × Nat)) (x : List ℤ) (cyc : List Nat) :
    circulation links (x.map (- ·)) cyc = - circulation links x cyc := by
  unfold circulation
  rw [← sum_neg, List.map_map]
  congr 1
  apply List.map_congr_left
  intro s _
  simp only [Function.comp, along_opposite]

theorem cancels_opposite {links : List (Nat × Nat)} {cycles : List (List Nat)} {res x : List ℤ} (h : Cancels links cycles (res.map (- ·)) x) :
    Cancels links cycles res (x.map (- ·)) := by
  refine ⟨by rw [List.length_map]; exact h.1, fun k hk => ?_⟩
  rw [circulation_opposite, h.2 k hk, getD_negZ, neg_neg]

theorem correctionCost_neg (c r x : List ℤ) : correctionCost c r (x.map (- ·)) = correctionCost r c x := by
  unfold correctionCost
  rw [List.length_map]
  congr 1
  apply List.map_congr_left
  intro i _
  rw [getD_negZ, neg_neg]
  ring

variable {K : Type} [Field K] [LinearOrder K] [IsStrictOrderedRing K] [FloorRing K]

/-- C88. One interferogram and its negative, unwrapped with any two optimal flow solvers and the costs of the two directions
exchanged: both corrections have the same total cost, so the negative of either is a cheapest correction of the other. -/
theorem C88_cost (tau : K) (g : PlanarGraph) (m : Mcf) (hc : PlanarContract g.npoints g.links g.cycles) (hm : ormcf g = .ok m)
    (s s' : FlowSolver) (hs : SolverOptimal s) (hs' : SolverOptimal s') (d : List K) (cost revcost c r : List ℤ)
    (hcost : CostOn g.links.length cost c) (hrev : CostOn g.links.length revcost r)
    (hc0 : ∀ v ∈ c, 0 ≤ v) (hr0 : ∀ v ∈ r, 0 ≤ v) (unw unw' : List K) (flows flows' : List ℤ)
    (h : unwrapOne tau s m d cost (some revcost) = .ok (unw, flows))
    (h' : unwrapOne tau s' m (d.map (- ·)) revcost (some cost) = .ok (unw', flows')) :
    correctionCost r c flows' = correctionCost c r flows := by
  unfold unwrapOne at h h'
  rw [residues_neg] at h'
  cases hres : computeResidues tau m d with
  | error e => rw [hres] at h; simp [Bind.bind, Except.bind] at h
  | ok res =>
    rw [hres] at h h'
    simp only [Bind.bind, Except.bind, Except.map, Option.getD_some] at h h'
    cases h1 : residuesToFlows s m res cost (some revcost) with
    | error e => rw [h1] at h; simp at h
    | ok f =>
      cases h2 : residuesToFlows s' m (res.map (- ·)) revcost (some cost) with
      | error e => rw [h2] at h'; simp at h'
      | ok f' =>
        rw [h1] at h
        rw [h2] at h'
        simp only at h h'
        cases e1 : floodFill tau d m.graph.links f "points" with
        | error e => rw [e1] at h; simp at h
        | ok u =>
        cases e2 : floodFill tau (d.map (- ·)) m.graph.links f' "points" with
        | error e => rw [e2] at h'; simp at h'
        | ok u' =>
        rw [e1] at h
        rw [e2] at h'
        simp only [pure, Except.pure, Except.ok.injEq, Prod.mk.injEq] at h h'
        obtain ⟨_, rfl⟩ := h
        obtain ⟨_, rfl⟩ := h'
        have hlen : res.length = g.cycles.length + 1 := by
          rw [← ormcf_graph hm]
          unfold computeResidues at hres
          split at hres
          · cases hres
          · split at hres
            · cases hres
            · simp only at hres
              split at hres
              · simp only [Except.ok.injEq] at hres
                rw [← hres]
                simp
              · cases hres
        have q1 := C10_flows_cancel g m s hc hm hs.1 res cost (some revcost) f h1
        have q2 := C10_flows_cancel g m s' hc hm hs'.1 _ revcost (some cost) f' h2
        have r1 := C11_flows_cheapest g m s hc hm hs res cost (some revcost) c r hcost hrev hc0 hr0 hlen f h1 (f'.map (- ·))
          (cancels_opposite q2) (by
            intro v hv
            obtain ⟨w, hw, rfl⟩ := List.mem_map.mp hv
            rw [abs_neg]
            exact flows_within hc hm hs'.1 h2 w hw)
        have r2 := C11_flows_cheapest g m s' hc hm hs' _ revcost (some cost) r c hrev hcost hr0 hc0 (by rw [List.length_map]; exact hlen) f' h2
          (f.map (- ·)) (cancels_opposite (by rw [neg_neg_list]; exact q1)) (by
            intro v hv
            obtain ⟨w, hw, rfl⟩ := List.mem_map.mp hv
            rw [abs_neg]
            exact flows_within hc hm hs.1 h1 w hw)
        rw [correctionCost_neg] at r1 r2
        omega

end Spurt
