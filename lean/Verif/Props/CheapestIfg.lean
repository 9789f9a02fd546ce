import Verif.Props.Cheapest
import Verif.Props.KindsExample

/-!
# Property C68 for a cube of interferograms
-/

namespace Spurt
open Spec

section
variable {K : Type} [Field K] [LinearOrder K] [IsStrictOrderedRing K] [FloorRing K]

/-- C68, `unwrap_cube` for interferogram input. The result comes from gradients that are, for every spatial link, the wrapped differences
of the interferograms plus the cheapest whole cycles that close in time to half a cycle; and for every interferogram it
integrates those gradients with the cheapest whole cycles, at the costs selected by `t_cost_type` and `s_cost_type`. -/
theorem C68_cube_ifg (tau : K) (ht : 1 / 1000 < tau) (solver : FlowSolver) (hs : SolverOptimal solver) (e : Emcf)
    (gt gs : PlanarGraph) (hct : PlanarContract gt.npoints gt.links gt.cycles) (hmt : ormcf gt = .ok e.time)
    (hcs : PlanarContract gs.npoints gs.links gs.cycles) (hms : ormcf gs = .ok e.space)
    (hb : 0 < e.settings.linksPerBatch) (ct cs : List ℤ)
    (hselt : SelectedCost e.settings.tCostType gt.links.length e.tDist e.tCent ct)
    (hsels : SelectedCost e.settings.sCostType gs.links.length e.sDist e.sCent cs)
    (hctl : ct.length = gt.links.length) (hct0 : ∀ v ∈ ct, 0 ≤ v)
    (hcsl : cs.length = gs.links.length) (hcs0 : ∀ v ∈ cs, 0 ≤ v)
    (w : CubeInput K) (hw : w.data.length = gt.links.length) (hne : gt.npoints ≠ gt.links.length)
    (oT : Nat → List Nat → List Nat) (oS : List Nat → List Nat)
    (hoT : ∀ k l, (oT k l).Perm l) (hoS : ∀ l, (oS l).Perm l) (out : List (List K))
    (h : unwrapCube tau solver e w oT oS = .ok out) :
    ∃ grad : List (List K),
      (∀ j a b : Nat, gs.links[j]? = some (a, b) → (∀ cyc ∈ gt.cycles, |circulation gt.links (column grad j) cyc| ≤ tau / 2) ∧ ∃ k : Nat → ℤ,
        (∀ i < gt.links.length, (grad.getD i []).getD j 0 =
          phaseDiff tau ((w.data.getD i []).getD a 0) ((w.data.getD i []).getD b 0) + (k i : K) * tau) ∧
        ∀ (alt : List K) (n : Nat → ℤ), alt.length = gt.links.length →
          (∀ i < gt.links.length, alt.getD i 0 =
            phaseDiff tau ((w.data.getD i []).getD a 0) ((w.data.getD i []).getD b 0) + (n i : K) * tau) →
          (∀ cyc ∈ gt.cycles, |circulation gt.links alt cyc| < tau / 2) →
          (∀ i < gt.links.length, |n i| ≤ 2147483647) →
          price gt.links.length ct ct k ≤ price gt.links.length ct ct n) ∧
      ∀ i < gt.links.length, ∃ k : Nat → ℤ,
        Jumps tau gs.links (fun j => (grad.getD i []).getD j 0) (fun p => (out.getD i []).getD p 0) k ∧
        ∀ (alt : Nat → K) (n : Nat → ℤ), Jumps tau gs.links (fun j => (grad.getD i []).getD j 0) alt n →
          (∀ j < gs.links.length, |n j| ≤ 2147483647) →
          price gs.links.length cs cs k ≤ price gs.links.length cs cs n := by
  have h0 : (0 : K) < tau := lt_trans (by norm_num) ht
  obtain ⟨hmgt, _⟩ := dual_of_contract hct hmt
  obtain ⟨hmgs, _⟩ := dual_of_contract hcs hms
  have hk : cubeKind e w = .ok true := by
    unfold unwrapCube at h
    cases hk : cubeKind e w with
    | error err => rw [hk] at h; simp [Bind.bind, Except.bind] at h
    | ok b =>
      unfold cubeKind at hk
      split at hk
      · simp at hk
      split at hk
      · simp at hk
      rw [if_neg (by unfold Emcf.nepochs; rw [hmgt, hw]; exact fun h => hne h.symm)] at hk
      split at hk
      · rw [← hk]
      · simp at hk
  unfold unwrapCube at h
  rw [hk] at h
  simp only [Bind.bind, Except.bind] at h
  cases hg : unwrapInTime tau solver e w.data true oT with
  | error err => rw [hg] at h; simp at h
  | ok grad =>
    rw [hg] at h
    simp only at h
    have key : ∀ j a b : Nat, gs.links[j]? = some (a, b) → _ := fun j a b hj =>
      C68_time_ifg tau h0 solver hs e gt hct hmt hb ct hselt hctl hct0 w.data oT hoT grad hg j a b (by rw [hmgs]; exact hj)
    refine ⟨grad, fun j a b hj => ⟨(C20_ifg_closure tau h0 solver e gt hct hmt hs.1 hb w.data oT hoT grad hg j a b
      (by rw [hmgs]; exact hj)).1, key j a b hj⟩, fun i hi => ?_⟩
    refine C68_space tau ht solver hs e gs hcs hms cs hsels hcsl hcs0 grad oS hoS out h i (by rw [hmgt]; exact hi) ?_
    have hex : ∀ j, ∃ n : ℤ, ∀ a b : Nat, gs.links[j]? = some (a, b) →
        (w.data.getD i []).getD b 0 - (w.data.getD i []).getD a 0 = (grad.getD i []).getD j 0 + (n : K) * tau := by
      intro j
      rcases hl : gs.links[j]? with _ | ⟨a, b⟩
      · exact ⟨0, by simp⟩
      · obtain ⟨k, hk1, _⟩ := key j a b hl
        refine ⟨rint (((w.data.getD i []).getD b 0 - (w.data.getD i []).getD a 0) / tau) - k i, ?_⟩
        intro a' b' h'
        simp only [Option.some.injEq, Prod.mk.injEq] at h'
        obtain ⟨rfl, rfl⟩ := h'
        rw [hk1 i hi, phaseDiff_eq]
        push_cast; ring
    choose n hn using hex
    exact ⟨fun p => (w.data.getD i []).getD p 0, n, fun j a b hj => hn j a b hj⟩

end

/-- Non-vacuity of `C68_cube_ifg`: nine wrapped interferograms of a 2 × 2 image, with a constant phase added to each. -/
example : ∃ (solver : FlowSolver) (e : Emcf) (gt gs : PlanarGraph) (ct cs : List ℤ) (out : List (List ℚ)),
    SolverOptimal solver ∧ PlanarContract gt.npoints gt.links gt.cycles ∧ ormcf gt = .ok e.time ∧
    PlanarContract gs.npoints gs.links gs.cycles ∧ ormcf gs = .ok e.space ∧ 0 < e.settings.linksPerBatch ∧
    SelectedCost e.settings.tCostType gt.links.length e.tDist e.tCent ct ∧
    SelectedCost e.settings.sCostType gs.links.length e.sDist e.sCent cs ∧ ct.length = gt.links.length ∧
    (∀ v ∈ ct, 0 ≤ v) ∧ cs.length = gs.links.length ∧ (∀ v ∈ cs, 0 ≤ v) ∧
    slcIfgs.length = gt.links.length ∧ gt.npoints ≠ gt.links.length ∧
    unwrapCube (1 : ℚ) solver e ⟨2, 0, slcIfgs⟩ (fun _ => List.reverse) List.reverse = .ok out := by
  obtain ⟨s, hs, hcomp⟩ := exists_solver
  obtain ⟨gt, time, space, out, h1, h2, h3, h4⟩ := C21_hop3_reg2d_returns (1 : ℚ) (by norm_num) s hs
    hcomp 5 2 2 (by omega) (by omega) (by omega) (by omega) { linksPerBatch := 3 } (by decide) rfl rfl
    4 (.inl (by decide)) slcData rfl (by decide +kernel) (by decide +kernel)
    (fun _ => id) id (fun _ l => List.Perm.refl l) (fun l => List.Perm.refl l)
  obtain ⟨g, hg, hct, _⟩ := C04_hop3_planar 5 (by omega)
  rw [h1] at hg
  simp only [Except.ok.injEq] at hg
  subst hg
  rw [hop3Graph_eq 5 (by omega), Except.ok.injEq] at h1
  subst h1
  have hcs := reg2d_contract 2 2 le_rfl le_rfl
  have hmgs : space.graph = reg2dGraph 2 2 := (dual_of_contract (g := reg2dGraph 2 2) hcs h3).1
  have hlt : ∀ p q, (p, q) ∈ space.graph.links → p < q ∧ q < space.graph.npoints := by
    intro a b hab
    rw [hmgs] at hab ⊢
    exact hcs.ordered a b hab
  have htie : ∀ s u, (s, u) ∈ hop3Links 5 → ∀ p q, (p, q) ∈ space.graph.links →
      NoTie (1 : ℚ) (((slcData.getD u []).getD q 0 - (slcData.getD s []).getD q 0) -
        ((slcData.getD u []).getD p 0 - (slcData.getD s []).getD p 0)) := by
    intro a b hab p q hpq
    rw [hmgs] at hpq
    exact noTie_of_fract ((by decide +kernel : ∀ l ∈ hop3Links 5, ∀ m ∈ (reg2dGraph 2 2).links,
      Int.fract ((slcData.getD l.2 []).getD m.2 0 -
        (slcData.getD l.1 []).getD m.2 0 -
        ((slcData.getD l.2 []).getD m.1 0 -
        (slcData.getD l.1 []).getD m.1 0)) ≠ 1 / 2)
      (a, b) hab (p, q) hpq)
  have h5 := (C87_kinds 1 one_pos s ⟨space, time, { linksPerBatch := 3 }, 4, .ok [], .ok [], .ok [], .ok []⟩
    ⟨5, hop3Links 5, (hop3Explicit 5).map triRow⟩ hct h2 (by show (0 : ℤ) < 3; decide) (fun a b h => (hlt a b h).1)
    (by show (hop3Links 5).length ≠ 5; decide +kernel) ⟨2, 0, slcData⟩ rfl slcIfgs slcIfgs_of htie
    (fun _ => id) (fun _ => List.reverse) (fun _ l => List.Perm.refl l) (fun _ l => List.reverse_perm l)
    id List.reverse (fun l => List.Perm.refl l) (fun l => List.reverse_perm l) out).1 (h4 _ _ _ _)
  refine ⟨s, ⟨space, time, { linksPerBatch := 3 }, 4, .ok [], .ok [], .ok [], .ok []⟩, _, reg2dGraph 2 2,
    List.replicate 9 1, List.replicate 4 1, out, hs, hct, h2, hcs, h3, by show (0 : ℤ) < 3; decide, ?_, ?_, by decide +kernel,
    by decide, by decide +kernel, by decide, by decide +kernel, by decide +kernel, h5⟩
  · have e : List.replicate 9 (1 : ℤ) = List.replicate (hop3Links 5).length 1 := by decide +kernel
    rw [e]
    exact .constant rfl
  · have e : List.replicate 4 (1 : ℤ) = List.replicate (reg2dGraph 2 2).links.length 1 := by decide +kernel
    rw [e]
    exact .constant rfl

end Spurt
