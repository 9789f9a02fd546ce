import Verif.Props.EmcfReturns
import Mathlib.Tactic.IntervalCases
import Mathlib.Tactic.NormNum

/-!
# C19–C23 are about runs that exist
-/

namespace Spurt
open Spec

/-- C21 for the graphs used by the package: a stack of `n ≥ 4` acquisitions with
`Hop3Graph` in time and `Reg2DGraph` in space, constant costs, any batch size, any
schedule: `unwrap_cube` returns, with no assumption on the phases but that they are
wrapped. -/
theorem C21_hop3_reg2d_returns {K : Type} [Field K] [LinearOrder K] [IsStrictOrderedRing K]
    [FloorRing K] (tau : K) (ht : 0 < tau) (solver : FlowSolver)
    (hopt : SolverOptimal solver) (hcomp : SolverComplete solver)
    (n r c : Nat) (hn : 4 ≤ n) (hn2 : n ≤ 300000000) (hr : 2 ≤ r) (hc : 2 ≤ c)
    (s : SolverSettings) (hb : 0 < s.linksPerBatch) (hs1 : s.tCostType = "constant")
    (hs2 : s.sCostType = "constant") (cpus : ℤ) (hpool : 1 ≤ s.sWorkerCount ∨ 2 ≤ cpus)
    (data : List (List K)) (hd : data.length = n) (hcols : ∀ row ∈ data, row.length = r * c)
    (hwrap : ∀ row ∈ data, ∀ x ∈ row, |x| ≤ tau / 2)
    (oT : Nat → List Nat → List Nat) (oS : List Nat → List Nat)
    (hoT : ∀ k l, (oT k l).Perm l) (hoS : ∀ l, (oS l).Perm l) :
    ∃ gt time space out, hop3Graph n = .ok gt ∧ ormcf gt = .ok time ∧
      ormcf (reg2dGraph r c) = .ok space ∧ ∀ d1 d2 d3 d4,
      unwrapCube tau solver ⟨space, time, s, cpus, d1, d2, d3, d4⟩ ⟨2, 0, data⟩ oT oS = .ok out := by
  obtain ⟨g, hg, hct, _⟩ := C04_hop3_planar n hn
  have hge := hg
  rw [hop3Graph_eq n hn] at hge
  simp only [Except.ok.injEq] at hge
  have hgn : g.npoints = n := by rw [← hge]
  have hgl : g.links = hop3Links n := by rw [← hge]
  rw [← hgn] at hct
  obtain ⟨time, htime⟩ := C06_contract_accepted g hct
  have hcs := reg2d_contract r c hr hc
  obtain ⟨space, hspace⟩ := C06_contract_accepted (reg2dGraph r c) hcs
  have hmgs : space.graph = reg2dGraph r c := (dual_of_contract hcs hspace).1
  have hne : (reg2dGraph r c).links ≠ [] := by
    intro h0
    have hlast := reg2d_connected r c (r * c - 1) (by have := Nat.mul_le_mul hr hc; omega)
    have h1 : (reg2dLinks r c) = [] := h0
    have h4 := Nat.mul_le_mul hr hc
    rcases Relation.ReflTransGen.cases_head hlast with h | ⟨x, hx, _⟩
    · omega
    · unfold Adjacent at hx; rw [h1] at hx; simp at hx
  have key : ∀ d1 d2 d3 d4, ∃ out,
      unwrapCube tau solver ⟨space, time, s, cpus, d1, d2, d3, d4⟩ ⟨2, 0, data⟩ oT oS = .ok out := by
    intro d1 d2 d3 d4
    refine C21_cube_returns tau ht solver ⟨space, time, s, cpus, d1, d2, d3, d4⟩ g (reg2dGraph r c)
      hct hcs hne (reg2d_connected r c) (reg2d_generate r c) htime hspace hopt hcomp hb hs1
      (List.replicate (reg2dGraph r c).links.length 1)
      (List.replicate (reg2dGraph r c).links.length 1) ?_ ⟨by simp, .inl rfl⟩ (by simp) hpool ?_ _
      rfl rfl (by rw [hgn]; exact hd) ?_ ?_ ?_ oT oS hoT hoS
    · unfold costOf Emcf.nlinks
      rw [if_pos hs2, hmgs]
    · rw [hgl, length_hop3Links n hn]; omega
    · intro h0; simp only at h0; rw [h0] at hd; simp at hd; omega
    · exact hcols
    · exact hwrap
  obtain ⟨out, hout⟩ := key (.ok []) (.ok []) (.ok []) (.ok [])
  refine ⟨g, time, space, out, hg, htime, hspace, fun d1 d2 d3 d4 => ?_⟩
  rw [← hout]
  unfold unwrapCube unwrapInTime unwrapInSpace
  have e1 : ∀ n a b, costOf s.tCostType n a b = .ok (List.replicate n 1) := by
    intro n a b; unfold costOf; rw [if_pos hs1]
  have e2 : ∀ n a b, costOf s.sCostType n a b = .ok (List.replicate n 1) := by
    intro n a b; unfold costOf; rw [if_pos hs2]
  simp only [e1, e2]
  rfl

/-- A run of `unwrap_cube` on five acquisitions of a 2 × 2 image whose phases do wrap; all
of C19 to C23 applies to it. -/
example : ∃ (solver : FlowSolver) (e : Emcf) (gt : PlanarGraph) (out : List (List ℚ)),
    SolverOptimal solver ∧ SolverComplete solver ∧ hop3Graph 5 = .ok gt ∧
    PlanarContract gt.npoints gt.links gt.cycles ∧ ormcf gt = .ok e.time ∧
    (∀ a b, (a, b) ∈ e.space.graph.links → a < b) ∧ 0 < e.settings.linksPerBatch ∧
    unwrapCube (1 : ℚ) solver e ⟨2, 0, [[0, 1/4, 1/2, -1/4], [0, 0, 0, 0], [1/3, -1/3, 0, 1/2],
      [-1/2, 1/2, 1/4, 1/4], [0, 1/3, -1/3, 0]]⟩ (fun _ => List.reverse) List.reverse = .ok out := by
  obtain ⟨s, hs, hcomp⟩ := exists_solver
  obtain ⟨gt, time, space, out, h1, h2, h3, h4⟩ := C21_hop3_reg2d_returns (1 : ℚ) (by norm_num) s hs
    hcomp 5 2 2 (by omega) (by omega) (by omega) (by omega) { linksPerBatch := 3 } (by decide) rfl rfl
    4 (.inl (by decide)) [[0, 1/4, 1/2, -1/4], [0, 0, 0, 0], [1/3, -1/3, 0, 1/2],
      [-1/2, 1/2, 1/4, 1/4], [0, 1/3, -1/3, 0]] rfl (by decide) (by
        intro row hrow x hx
        simp only [List.mem_cons, List.not_mem_nil, or_false] at hrow
        rcases hrow with rfl | rfl | rfl | rfl | rfl <;>
          simp only [List.mem_cons, List.not_mem_nil, or_false] at hx <;>
          rcases hx with rfl | rfl | rfl | rfl <;> rw [abs_le] <;> norm_num)
    (fun _ => List.reverse) List.reverse (fun _ l => List.reverse_perm l) (fun l => List.reverse_perm l)
  obtain ⟨g, hg, hct, _⟩ := C04_hop3_planar 5 (by omega)
  rw [h1] at hg
  simp only [Except.ok.injEq] at hg
  subst hg
  have hgn : gt.npoints = 5 := by
    rw [hop3Graph_eq 5 (by omega)] at h1
    simp only [Except.ok.injEq] at h1
    subst h1; rfl
  have hcs := reg2d_contract 2 2 le_rfl le_rfl
  refine ⟨s, ⟨space, time, { linksPerBatch := 3 }, 4, .ok [], .ok [], .ok [], .ok []⟩, gt, out, hs,
    hcomp, h1, by rw [hgn]; exact hct, h2, ?_, by show (0 : ℤ) < 3; decide, h4 _ _ _ _⟩
  intro a b hab
  have hmgs : space.graph = reg2dGraph 2 2 := (dual_of_contract (g := reg2dGraph 2 2) hcs h3).1
  rw [hmgs] at hab
  exact (hcs.ordered a b hab).1

/-- C20. The half-cycle bound for interferogram input cannot be improved to exact
closure: interferograms that carry a closure phase of a fifth of a cycle are returned with
it, whatever the flow solver. -/
theorem C20_ifg_exact_closure_refuted (solver : FlowSolver) (hs : SolverSound solver)
    (hcomp : SolverComplete solver) :
    ∃ (e : Emcf) (gt : PlanarGraph) (ifg out : List (List ℚ)), hop3Graph 4 = .ok gt ∧
      ormcf gt = .ok e.time ∧ PlanarContract gt.npoints gt.links gt.cycles ∧
      e.space.graph.links[0]? = some (0, 1) ∧
      unwrapInTime 1 solver e ifg true (fun _ => id) = .ok out ∧
      ∃ c ∈ gt.cycles, circulation gt.links (column out 0) c ≠ 0 := by
  obtain ⟨g, hg, hct, _⟩ := C04_hop3_planar 4 (by omega)
  have hge := hg
  rw [hop3Graph_eq 4 (by omega)] at hge
  simp only [Except.ok.injEq] at hge
  have hgn : g.npoints = 4 := by rw [← hge]
  have hgl : g.links = hop3Links 4 := by rw [← hge]
  rw [← hgn] at hct
  obtain ⟨time, htime⟩ := C06_contract_accepted g hct
  obtain ⟨hmg, _⟩ := dual_of_contract hct htime
  set space : Mcf := ⟨⟨2, [(0, 1)], []⟩, []⟩ with hsp
  set e : Emcf := ⟨space, time, {}, 4, .ok [], .ok [], .ok [], .ok []⟩ with he
  set ifg : List (List ℚ) := [[0, 1/5], [0, 0], [0, 0], [0, 0], [0, 0], [0, 0]] with hifg
  have hlen : g.links.length = 6 := by rw [hgl]; rfl
  have hnl : e.nlinks = 1 := rfl
  have hnif : e.nifgs = 6 := by unfold Emcf.nifgs; rw [he]; simp only [hmg]; exact hlen
  have hsg : ∀ i, spaceGrad 1 e ifg true i 0 = if i = 0 then (1/5 : ℚ) else 0 := by
    intro i
    have hl : e.space.graph.links.getD 0 (0, 0) = (0, 1) := rfl
    unfold spaceGrad elem
    simp only [hl, if_true]
    rw [phaseDiff_eq]
    have h15 : rint (1/5 : ℚ) = 0 := by
      unfold rint; norm_num
    rcases i with _ | _ | _ | _ | _ | _ | i <;>
      simp only [hifg, List.getD_cons_zero, List.getD_cons_succ, List.getD_nil, sub_zero, div_one,
        h15] <;> simp [rint]
  have hcost : costOf e.settings.tCostType e.nifgs e.tDist e.tCent = .ok (List.replicate 6 1) := by
    rw [hnif]; rfl
  have hord : ∀ a b, (a, b) ∈ g.links → a ≤ b := fun a b hab => (hct.ordered a b hab).1.le
  have hgc : g.cycles = [[0, 1, 2], [0, 2, 3], [1, 3, 2]] := by rw [← hge]; rfl
  have hgl' : g.links = [(0, 1), (0, 2), (0, 3), (1, 2), (1, 3), (2, 3)] := by rw [hgl]; rfl
  set x : List ℚ := (List.range g.links.length).map fun i => spaceGrad 1 e ifg true i 0 with hx
  have hx' : x = [1/5, 0, 0, 0, 0, 0] := by
    rw [hx, hlen]; simp only [hsg]; rfl
  have hcir : ∀ k (hk : k < g.cycles.length), circulation g.links x g.cycles[k] =
      if k = 0 then 1/5 else 0 := by
    intro k hk
    simp only [hgc] at hk ⊢
    rw [hx', hgl']
    have : k < 3 := hk
    interval_cases k
    · show (1/5 : ℚ) + (0 + (-0 + 0)) = 1/5
      norm_num
    · show (0 : ℚ) + (0 + (-0 + 0)) = 0
      norm_num
    · show (0 : ℚ) + (-0 + (-0 + 0)) = 0
      norm_num
  have h15 : rint (1/5 : ℚ) = 0 := by unfold rint; norm_num
  have h00 : rint (0 : ℚ) = 0 := by unfold rint; norm_num
  obtain ⟨hrl, hrs, hrk⟩ := linkResidues_contract (1 : ℚ) hct htime
    (fun i => spaceGrad 1 e ifg true i 0)
  have hones : CostOn g.links.length (List.replicate 6 1) (List.replicate 6 1) :=
    ⟨by rw [hlen]; rfl, .inl rfl⟩
  obtain ⟨fl, hfl⟩ := residuesToFlows_returns hct htime hcomp _ (List.replicate 6 1) none _ _ hones
    hones (by simp) (by simp) hrl hrs ⟨List.replicate 6 0, ⟨by rw [hlen]; rfl, fun k hk => by
      rw [hrk k hk, ← hx, hcir k hk, hgl']
      have hz : circulation [(0, 1), (0, 2), (0, 3), (1, 2), (1, 3), (2, 3)]
          (List.replicate 6 (0 : ℤ)) g.cycles[k] = 0 := by
        have hk' : k < 3 := by rw [hgc] at hk; exact hk
        simp only [hgc]
        interval_cases k <;> rfl
      rw [hz]
      split <;> simp only [div_one, h15, h00, neg_zero]⟩, by decide⟩
  have hout := (inTime_iff (1 : ℚ) solver e hct.distinct hord htime hmg ifg true _ hcost (fun _ => id)
    (fun _ l => List.Perm.refl l) (by show (0 : ℤ) < 10000; decide) _).mpr ⟨fun j hj => by
      have : j = 0 := by omega
      subst this
      refine ⟨⟨by show 0 < 2; decide, by show 1 < 2; decide, fun _ => by rw [hnif]; rfl, by simp⟩, ?_⟩
      have hlt : linkTime 1 solver e ifg true (List.replicate 6 1) 0 = .ok fl := hfl
      rw [hlt]; rfl, rfl⟩
  refine ⟨e, g, ifg, _, hg, htime, hct, rfl, hout, g.cycles[0]'(by rw [hgc]; decide),
    List.getElem_mem _, ?_⟩
  obtain ⟨_, _, hent⟩ := unwrapInTime_entries (1 : ℚ) solver e hct htime hs
    (by show (0 : ℤ) < 10000; decide) ifg true (fun _ => id) (fun _ l => List.Perm.refl l) _ hout
  obtain ⟨_, fl', hfl', hcol, hc'⟩ := hent 0 (by omega)
  have h0 : 0 < g.cycles.length := by rw [hgc]; decide
  rw [hcol, column_closure (1 : ℚ) hfl' (hc' 0 h0), ← hx, hcir 0 h0]
  simp only [if_true, div_one, h15]
  norm_num

end Spurt
