import Verif.Lemmas.Solver
import Verif.Props.Graph

/-!
# Properties C06, C08–C11: dual graph, residues, flows
-/

namespace Spurt
open Spec

/-- C06. Construction of the solver: exactly when every side is a link and every link lies
on one or two cycles; then the dual rows list, for each link, the 1-based cycle numbers
and walking directions. -/
theorem C06_dual_graph (g : PlanarGraph) (hnd : g.links.Nodup)
    (hord : ∀ a b, (a, b) ∈ g.links → a ≤ b) :
    ((∃ m, ormcf g = .ok m) ↔
      (∀ a b, (a, b) ∈ walked g.cycles → (a, b) ∈ g.links ∨ (b, a) ∈ g.links) ∧
      (∀ a b, (a, b) ∈ g.links →
        (traversals g.cycles a b).length = 1 ∨ (traversals g.cycles a b).length = 2)) ∧
    ∀ m, ormcf g = .ok m → m.graph = g ∧ m.dual.length = g.links.length ∧
      ∀ i a b : Nat, g.links[i]? = some (a, b) →
        (∀ t, traversals g.cycles a b = [t] → m.dual[i]? = some (DualRow.mk t.1 0 t.2 0)) ∧
        (∀ t u, traversals g.cycles a b = [t, u] → m.dual[i]? = some (DualRow.mk t.1 u.1 t.2 u.2)) := by
  have hord' : ∀ l ∈ g.links, l.1 ≤ l.2 := fun l hl => hord l.1 l.2 hl
  have hk : ∀ m, ormcf g = .ok m ↔ m.graph = g ∧ prepareDual g = .ok m.dual := by
    intro m
    unfold ormcf
    cases h : prepareDual g with
    | error e => simp [Bind.bind, Except.bind]
    | ok d =>
      simp only [Bind.bind, Except.bind, pure, Except.pure, Except.ok.injEq]
      constructor
      · rintro rfl; exact ⟨rfl, rfl⟩
      · rintro ⟨h1, h2⟩; cases m; simp_all
  constructor
  · constructor
    · rintro ⟨m, hm⟩
      obtain ⟨h1, h2, _⟩ := (prepareDual_ok_iff g hnd hord' _).mp ((hk m).mp hm).2
      exact ⟨fun a b h => h1 (a, b) h, fun a b h => h2 (a, b) h⟩
    · rintro ⟨h1, h2⟩
      refine ⟨⟨g, _⟩, (hk _).mpr ⟨rfl, (prepareDual_ok_iff g hnd hord' _).mpr
        ⟨fun s hs => h1 s.1 s.2 hs, fun l hl => h2 l.1 l.2 hl, rfl⟩⟩⟩
  · intro m hm
    obtain ⟨hg, hd⟩ := (hk m).mp hm
    obtain ⟨_, _, h3⟩ := (prepareDual_ok_iff g hnd hord' _).mp hd
    refine ⟨hg, by rw [h3]; simp, ?_⟩
    intro i a b hi
    rw [h3, List.getElem?_map, hi]
    constructor
    · intro t ht; simp [linkTraversals, rowOf, ht]
    · intro t u ht; simp [linkTraversals, rowOf, ht]

/-- C06. A link stored higher index first is never accepted. -/
theorem C06_unordered_link_rejected (g : PlanarGraph) (hnd : g.links.Nodup) (a b : Nat)
    (h : (a, b) ∈ g.links) (hab : b < a) : ∀ m, ormcf g ≠ .ok m := by
  intro m hm
  unfold ormcf at hm
  rw [prepareDual_unfold g hnd] at hm
  split at hm
  · cases hr : (dictOf g.links (stepsFor (allSteps g.cycles))).mapM (fun e => dualRow e.2) with
    | error e => rw [hr] at hm; simp [Bind.bind, Except.bind] at hm
    | ok rows =>
      obtain ⟨y, hy⟩ := mapM_ok_inv _ _ _ hr ((a, b), stepsFor (allSteps g.cycles) (a, b))
        (List.mem_map.mpr ⟨(a, b), h, rfl⟩)
      have he : stepsFor (allSteps g.cycles) (a, b) = [] := by
        unfold stepsFor
        rw [List.filterMap_eq_nil_iff]
        intro st _
        rw [if_neg]
        intro hc
        have := orderPoints_le st.2
        rw [hc] at this
        simp only at this
        omega
      rw [he] at hy
      simp [dualRow] at hy
  · simp [Bind.bind, Except.bind] at hm

example : ormcf ⟨4, [(0, 1), (0, 2), (0, 3), (1, 2), (2, 3)], [[0, 1, 2], [0, 2, 3]]⟩ =
    .ok ⟨⟨4, [(0, 1), (0, 2), (0, 3), (1, 2), (2, 3)], [[0, 1, 2], [0, 2, 3]]⟩,
      [⟨1, 0, 1, 0⟩, ⟨1, 2, -1, 1⟩, ⟨2, 0, -1, 0⟩, ⟨1, 0, 1, 0⟩, ⟨2, 0, 1, 0⟩]⟩ := by rfl

/-- A link on no cycle is rejected with `ValueError`, a cycle side that is no link with
`KeyError` (tests of the error branches). -/
example : (prepareDual ⟨4, [(0, 1), (0, 2), (1, 2), (2, 3)], [[0, 1, 2]]⟩ = .error .valueError) ∧
    (prepareDual ⟨3, [(0, 1), (0, 2)], [[0, 1, 2]]⟩ = .error .keyError) := by
  constructor <;> rfl

/-- C06, C04. Every graph meeting the planar contract is accepted; in particular
`Hop3Graph(n)` for every `n ≥ 4`. -/
theorem C06_contract_accepted (g : PlanarGraph)
    (hc : PlanarContract g.npoints g.links g.cycles) : ∃ m, ormcf g = .ok m := by
  refine ⟨⟨g, dualOf g⟩, ?_⟩
  unfold ormcf
  rw [prepareDual_contract g hc]
  rfl

theorem C04_hop3_solver (n : Nat) (hn : 4 ≤ n) :
    ∃ g m, hop3Graph n = .ok g ∧ ormcf g = .ok m := by
  obtain ⟨g, hg, hc, _⟩ := C04_hop3_planar n hn
  have hgn : g.npoints = n := by
    rw [hop3Graph_eq n hn] at hg
    simp only [Except.ok.injEq] at hg
    subst hg; rfl
  rw [← hgn] at hc
  obtain ⟨m, hm⟩ := C06_contract_accepted g hc
  exact ⟨g, m, hg, hm⟩

/-- C05. A grid with both sides at least two is accepted; a one-row or one-column grid
with at least two pixels is rejected. -/
theorem C05_reg2d_solver (r c : Nat) (hr : 1 ≤ r) (hc : 1 ≤ c) :
    ((2 ≤ r ∧ 2 ≤ c) → ∃ m, ormcf (reg2dGraph r c) = .ok m) ∧
    ((r = 1 ∧ 2 ≤ c) ∨ (c = 1 ∧ 2 ≤ r) → ∀ m, ormcf (reg2dGraph r c) ≠ .ok m) := by
  constructor
  · rintro ⟨h1, h2⟩
    exact C06_contract_accepted _ (reg2d_contract r c h1 h2)
  · intro h m hm
    have hex : (reg2dGraph r c).links ≠ [] := by
      intro he
      have : (reg2dLinks r c).length = 0 := by
        show (reg2dGraph r c).links.length = 0
        rw [he]; rfl
      rw [length_reg2dLinks] at this
      rcases h with ⟨rfl, h⟩ | ⟨rfl, h⟩ <;> omega
    have hcyc : (reg2dGraph r c).cycles = [] := by
      apply List.eq_nil_of_length_eq_zero
      show (reg2dCycles r c).length = 0
      rw [length_reg2dCycles]
      rcases h with ⟨rfl, h⟩ | ⟨rfl, h⟩ <;> simp
    obtain ⟨⟨a, b⟩, l, hl⟩ := List.exists_cons_of_ne_nil hex
    have hmem : (a, b) ∈ (reg2dGraph r c).links := by rw [hl]; simp
    have := ((C06_dual_graph (reg2dGraph r c) (nodup_reg2dLinks r c)
      (fun x y hxy => le_of_lt (reg2d_ordered hxy).1)).1.mp ⟨m, hm⟩).2 a b hmem
    rw [hcyc] at this
    simp [traversals] at this

section
variable {K : Type*} [Field K] [LinearOrder K] [IsStrictOrderedRing K] [FloorRing K]

/-- C08. Residues are exact integers and balanced: the wrapped differences around each
cycle sum to exactly the residue times a cycle. -/
theorem C08_residues_exact (tau : K) (ht : 0 < tau) (m : Mcf) (w : List K)
    (hne : m.graph.cycles ≠ [])
    (hu : ∀ c ∈ m.graph.cycles, ∀ c' ∈ m.graph.cycles, c.length = c'.length)
    (hb : ∀ c ∈ m.graph.cycles, ∀ p ∈ c, p < m.graph.npoints) :
    (w.length ≠ m.graph.npoints → computeResidues tau m w = .error .valueError) ∧
    (w.length = m.graph.npoints → ∃ res, computeResidues tau m w = .ok res ∧
      res.length = m.graph.cycles.length + 1 ∧ res.sum = 0 ∧
      ∀ k (hk : k < m.graph.cycles.length),
        ((sides m.graph.cycles[k]).map fun s =>
          phaseDiff tau (w.getD s.1 0) (w.getD s.2 0)).sum
        = (res.getD (k + 1) 0 : K) * tau) := by
  constructor
  · intro h; simp [computeResidues, h]
  · intro h
    refine ⟨_, computeResidues_eq tau ht.ne' m w h hne hu hb, by simp, by simp, ?_⟩
    intro k hk
    have := wrapSum_eq tau w m.graph.cycles[k]
    unfold wrapSum at this
    rw [this]
    simp [List.getD_eq_getElem?_getD, hk]

omit [IsStrictOrderedRing K] in
/-- C08. Residues from gradients are balanced for every gradient vector; a wrong-sized
vector raises `ValueError`. -/
theorem C08_gradient_residues_balanced (tau : K) (m : Mcf) (g : List K) :
    (g.length ≠ m.graph.links.length →
      computeResiduesFromGradients tau m g = .error .valueError) ∧
    (g.length = m.graph.links.length → ∃ res, computeResiduesFromGradients tau m g = .ok res ∧
      res.length = m.graph.cycles.length + 1 ∧ res.sum = 0) := by
  constructor
  · intro h; simp [computeResiduesFromGradients, h]
  · intro h
    unfold computeResiduesFromGradients
    rw [if_neg (by simpa using h)]
    refine ⟨_, rfl, ?_, by simp⟩
    simp [addAt_length]

omit [IsStrictOrderedRing K] in
/-- C08. Residues produced by the package never raise the `MCF unbalanced` error: the only
failure of `solve_mcf` on them (with costs of the right size) is the external solver. -/
theorem C08_never_unbalanced (tau : K) (m : Mcf) (res : List ℤ) (w : List K)
    (h : computeResidues tau m w = .ok res ∨ computeResiduesFromGradients tau m w = .ok res)
    (solver : FlowSolver) (dual : List DualRow) (cost revcost : List ℤ)
    (hc : cost.length = dual.length) (hr : revcost.length = dual.length) :
    solveMcf solver dual res cost revcost ≠ .error .valueError := by
  have hs : res.sum = 0 := by
    rcases h with h | h
    · unfold computeResidues at h
      split at h
      · simp at h
      · split at h
        · simp at h
        · simp only at h
          split at h
          · simp only [Except.ok.injEq] at h
            rw [← h]; simp
          · simp at h
    · unfold computeResiduesFromGradients at h
      split at h
      · simp at h
      · simp only [Except.ok.injEq] at h
        rw [← h]; simp
  unfold solveMcf
  simp only [hs, bcast, hc, hr]
  simp only [ne_eq, not_true_eq_false, if_false, if_true, Bind.bind, Except.bind]
  split <;> simp

/-- C09. Residues computed from the points and from the wrapped link gradients agree. -/
theorem C09_residues_agree (tau : K) (ht : 0 < tau) (g : PlanarGraph) (m : Mcf)
    (hc : PlanarContract g.npoints g.links g.cycles) (hm : ormcf g = .ok m)
    (hne : g.cycles ≠ []) (w : List K) (hw : w.length = g.npoints) :
    ∃ res, computeResidues tau m w = .ok res ∧
      computeResiduesFromGradients tau m
        (g.links.map fun l => phaseDiff tau (w.getD l.1 0) (w.getD l.2 0)) = .ok res := by
  obtain ⟨hmg, hmd⟩ := dual_of_contract hc hm
  have hb : ∀ c ∈ g.cycles, ∀ p ∈ c, p < g.npoints := by
    intro c hcy p hp
    rw [← sides_fst c, List.mem_map] at hp
    obtain ⟨⟨x, y⟩, hxy, rfl⟩ := hp
    rcases hc.side_is_link x y (List.mem_flatMap.mpr ⟨c, hcy, hxy⟩) with h | h
    · have := hc.ordered x y h; simp only; omega
    · have := hc.ordered y x h; simp only; omega
  refine ⟨_, computeResidues_eq tau ht.ne' m w (by rw [hmg, hw]) (by rw [hmg]; exact hne)
    (by rw [hmg]; exact hc.uniform) (by rw [hmg]; exact hb), ?_⟩
  rw [residuesFromGradients_eq _ _ _ (by rw [hmg]; simp) (by rw [hmd, hmg]; simp)]
  have hkey : (List.range m.graph.cycles.length).map (fun k =>
      rint ((∑ i ∈ Finset.range m.graph.links.length,
        (rowInc (m.dual.getD i ⟨0, 0, 0, 0⟩) (k + 1) : K) *
          (g.links.map fun l => phaseDiff tau (w.getD l.1 0) (w.getD l.2 0)).getD i 0) / tau))
      = m.graph.cycles.map (wrapCount tau w) := by
    apply List.ext_getElem
    · simp
    · intro k h1 h2
      have hk : k < g.cycles.length := by simpa [hmg] using h1
      simp only [List.getElem_map, List.getElem_range]
      have e1 := circulation_dual hc
        (g.links.map fun l => phaseDiff tau (w.getD l.1 0) (w.getD l.2 0)) hk
      simp only [hmg, hmd]
      rw [← e1]
      have e2 : circulation g.links
          (g.links.map fun l => phaseDiff tau (w.getD l.1 0) (w.getD l.2 0)) g.cycles[k]
          = wrapSum tau w g.cycles[k] := by
        unfold circulation wrapSum
        congr 1
        apply List.map_congr_left
        rintro ⟨x, y⟩ hxy
        have hside := hc.side_is_link x y (List.mem_flatMap.mpr ⟨_, List.getElem_mem hk, hxy⟩)
        have hon : ∀ a b, (a, b) ∈ g.links → onLink g.links
            (g.links.map fun l => phaseDiff tau (w.getD l.1 0) (w.getD l.2 0)) a b
            = phaseDiff tau (w.getD a 0) (w.getD b 0) := by
          intro a b hab
          unfold onLink
          have hi := List.idxOf_lt_length_iff.mpr hab
          rw [List.getD_eq_getElem?_getD, List.getElem?_map, List.getElem?_eq_getElem hi]
          simp [List.getElem_idxOf]
        unfold along
        rcases hside with h | h
        · have hlt := (hc.ordered x y h).1
          rw [if_pos hlt, hon x y h]
        · have hlt := (hc.ordered y x h).1
          rw [if_neg (by simp only; omega), hon y x h, phaseDiff_swap, neg_neg]
      rw [e2, wrapSum_eq, mul_div_assoc, div_self ht.ne', mul_one, rint_intCast]
  rw [hkey]

end

/-- C10. Residues that do not sum to zero have no correction; they are refused with
`ValueError` before the flow solver is asked, whatever it would answer. -/
theorem C10_unbalanced_raises (m : Mcf) (solver : FlowSolver) (residues cost : List ℤ)
    (revcost : Option (List ℤ)) (h : residues.sum ≠ 0) :
    residuesToFlows solver m residues cost revcost = .error .valueError := by
  have hany : residues.any (· ≠ 0) = true := by
    by_contra hc
    refine h (List.sum_eq_zero fun x hx => ?_)
    by_contra hx0
    exact hc (List.any_eq_true.mpr ⟨x, hx, by simpa using hx0⟩)
  unfold residuesToFlows solveMcf
  rw [if_pos hany]
  simp [h]

/-- Non-vacuity: a single unbalanced residue. -/
example : ([0, 1, 0] : List ℤ).sum ≠ 0 := by decide

/-- C10. Whenever `residues_to_flows` returns, the flows cancel the residues around every
cycle. -/
theorem C10_flows_cancel (g : PlanarGraph) (m : Mcf) (solver : FlowSolver)
    (hc : PlanarContract g.npoints g.links g.cycles) (hm : ormcf g = .ok m)
    (hs : SolverSound solver) (residues cost : List ℤ) (revcost : Option (List ℤ))
    (flows : List ℤ) (h : residuesToFlows solver m residues cost revcost = .ok flows) :
    Cancels g.links g.cycles residues flows := by
  obtain ⟨hmg, hmd⟩ := dual_of_contract hc hm
  unfold residuesToFlows at h
  split at h
  · obtain ⟨_, c, r, f, hcost, hrev, hf, rfl⟩ := solveMcf_ok h
    rw [hmd] at hcost hrev hf ⊢
    exact feasible_cancels hc residues c r f (by rw [hcost.1]; simp) (by rw [hrev.1]; simp)
      (hs _ _ hf)
  · rename_i hz
    simp only [Except.ok.injEq] at h
    subst h
    rw [hmg]
    refine ⟨by simp, fun k hk => ?_⟩
    rw [circulation_zero, any_nonzero_false hz]; rfl

/-- C11. The returned flows are a cheapest correction: a positive unit on a link costs
`cost`, a negative unit `revcost` (default `cost`). -/
theorem C11_flows_cheapest (g : PlanarGraph) (m : Mcf) (solver : FlowSolver)
    (hc : PlanarContract g.npoints g.links g.cycles) (hm : ormcf g = .ok m)
    (hs : SolverOptimal solver) (residues cost : List ℤ) (revcost : Option (List ℤ))
    (c r : List ℤ) (hcost : CostOn g.links.length cost c)
    (hrev : CostOn g.links.length (match revcost with | none => cost | some x => x) r)
    (hc0 : ∀ v ∈ c, 0 ≤ v) (hr0 : ∀ v ∈ r, 0 ≤ v)
    (hres : residues.length = g.cycles.length + 1)
    (flows : List ℤ) (h : residuesToFlows solver m residues cost revcost = .ok flows)
    (other : List ℤ) (ho : Cancels g.links g.cycles residues other)
    (hcap : ∀ v ∈ other, |v| ≤ 2147483647) :
    correctionCost c r flows ≤ correctionCost c r other := by
  obtain ⟨hmg, hmd⟩ := dual_of_contract hc hm
  have hrev' : CostOn g.links.length (revcost.getD cost) r := by
    cases revcost <;> exact hrev
  unfold residuesToFlows at h
  split at h
  · obtain ⟨hsum, c', r', f, hcost', hrev2, hf, rfl⟩ := solveMcf_ok h
    rw [hmd] at hcost' hrev2 hf ⊢
    have hdl : (dualOf g).length = g.links.length := by simp [dualOf]
    rw [hdl] at hcost' hrev2
    have ec : c' = c := by
      have a := bcast_of hcost'; have b := bcast_of hcost; rw [a] at b; simpa using b
    have er : r' = r := by
      have a := bcast_of hrev2; have b := bcast_of hrev'; rw [a] at b; simpa using b
    subst ec er
    have h1 := correctionCost_le hc residues c' r' f hcost.1 hrev.1 hc0 hr0 (hs.1 _ _ hf)
    have h2 := hs.2 _ _ hf _ (cancels_feasible hc residues c' r' other hcost.1 hrev.1 hres hsum ho
      (by simpa [int32Max] using hcap))
    rw [flowCost_arcFlows hc _ _ _ _ hcost.1 hrev.1 ho.1] at h2
    exact le_trans h1 h2
  · simp only [Except.ok.injEq] at h
    subst h
    have z : correctionCost c r (List.replicate m.graph.links.length 0) = 0 := by
      rw [correctionCost_eq]
      apply Finset.sum_eq_zero
      intro i hi
      simp only [List.length_replicate, Finset.mem_range] at hi
      simp [List.getD_eq_getElem?_getD, hi]
    rw [z, correctionCost_eq]
    apply Finset.sum_nonneg
    intro i _
    have hnn : ∀ l : List ℤ, (∀ c ∈ l, 0 ≤ c) → 0 ≤ l.getD i 0 := by
      intro l hl
      by_cases hi : i < l.length
      · rw [List.getD_eq_getElem?_getD, List.getElem?_eq_getElem hi]
        exact hl _ (List.getElem_mem hi)
      · rw [List.getD_eq_getElem?_getD, List.getElem?_eq_none (by omega)]; simp
    have h1 := hnn c hc0
    have h2 := hnn r hr0
    exact add_nonneg (mul_nonneg h1 (by omega)) (mul_nonneg h2 (by omega))

/-- Non-vacuity of C10 and C11: on `Hop3Graph(4)` with a non-zero balanced residue vector
an optimal solver exists and `residues_to_flows` returns. -/
example : ∃ g m solver flows, hop3Graph 4 = .ok g ∧
    PlanarContract g.npoints g.links g.cycles ∧ ormcf g = .ok m ∧
    SolverOptimal solver ∧ residuesToFlows solver m [0, 1, -1, 0] [2] (some [3]) = .ok flows := by
  obtain ⟨g, hg, hc, _⟩ := C04_hop3_planar 4 (by omega)
  rw [hop3Graph_eq 4 (by omega)] at hg ⊢
  simp only [Except.ok.injEq] at hg
  subst hg
  obtain ⟨m, hm⟩ := C06_contract_accepted
    { npoints := 4, links := hop3Links 4, cycles := List.map triRow (hop3Explicit 4) } hc
  obtain ⟨s, hs, hcomp⟩ := exists_solver
  obtain ⟨fl, hfl⟩ := residuesToFlows_returns hc hm hcomp [0, 1, -1, 0] [2] (some [3])
    (List.replicate 6 2) (List.replicate 6 3)
    ⟨by simp [hop3Links], .inr ⟨2, rfl, rfl⟩⟩ ⟨by simp [hop3Links], .inr ⟨3, rfl, rfl⟩⟩
    (by simp) (by simp) rfl rfl
    ⟨[0, 1, 0, 0, 0, 0], ⟨by simp [hop3Links], by
      intro k hk
      have : k < 3 := hk
      interval_cases k <;> rfl⟩, by simp [int32Max]⟩
  exact ⟨_, m, s, fl, rfl, hc, hm, hs, hfl⟩

/-- Non-vacuity of C08/C09: a phase vector with a non-zero residue (cycle = 1). -/
example : computeResidues (1 : ℚ) ⟨⟨3, [(0, 1), (0, 2), (1, 2)], [[0, 1, 2]]⟩, []⟩
    [0, 1 / 3, 2 / 3] = .ok [-1, 1] := by
  have e1 : rint (1 / 3 : ℚ) = 0 := rint_eq_of_lt (by norm_num) (by norm_num)
  have e2 : rint (-(2 / 3) : ℚ) = -1 := rint_eq_of_lt (by norm_num) (by norm_num)
  simp [computeResidues, phaseDiff, List.range_succ]
  norm_num at e1 e2 ⊢
  rw [e1, e2]
  norm_num
  rw [show (1 : ℚ) = ((1 : ℤ) : ℚ) by norm_num, rint_intCast]

end Spurt
