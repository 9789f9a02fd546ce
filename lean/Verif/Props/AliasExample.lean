import Verif.Props.AliasRun

/-!
# C94: examples for `unwrap_one` and for interferograms
-/

namespace Spurt
open Spec Finset

/-- Non-vacuity of `C94_unwrap_one`: the vortex of C68. The true phases are the data: one change along a link is aliased. -/
example : ∃ (solver : FlowSolver) (m : Mcf) (unw : List ℚ) (flows : List ℤ),
    SolverOptimal solver ∧ ormcf (reg2dGraph 2 2) = .ok m ∧
    PlanarContract (reg2dGraph 2 2).npoints (reg2dGraph 2 2).links (reg2dGraph 2 2).cycles ∧
    CostOn (reg2dGraph 2 2).links.length [1, 2, 3, 4] [1, 2, 3, 4] ∧
    CostOn (reg2dGraph 2 2).links.length [4, 3, 2, 1] [4, 3, 2, 1] ∧
    (∀ i < (reg2dGraph 2 2).links.length, aliasedCycles (1 : ℚ) (changeOn (reg2dGraph 2 2).links
      (fun p => [0, 1/4, -1/4, 1/2].getD p 0) i) ≤ 2147483647) ∧
    (List.range 4).map (fun i => aliasedCycles (1 : ℚ) (changeOn (reg2dGraph 2 2).links
      (fun p => [0, 1/4, -1/4, 1/2].getD p 0) i)) = [0, 1, 0, 0] ∧
    unwrapOne (1 : ℚ) solver m [0, 1/4, -1/4, 1/2] [1, 2, 3, 4] (some [4, 3, 2, 1]) = .ok (unw, flows) := by
  obtain ⟨solver, hs, hcomp⟩ := exists_solver
  have hcs := reg2d_contract 2 2 le_rfl le_rfl
  obtain ⟨m, hm⟩ := C06_contract_accepted (reg2dGraph 2 2) hcs
  have hll : (reg2dGraph 2 2).links.length = 4 := by decide
  obtain ⟨unw, flows, hu, _⟩ := C14_unwrap_one (1 : ℚ) one_pos (reg2dGraph 2 2) m solver hcs
    (by intro h0; rw [h0] at hll; simp at hll) (reg2d_connected 2 2) (reg2d_generate 2 2) hm hs.1 hcomp
    [0, 1/4, -1/4, 1/2] rfl (by
      intro a b hab
      have : (a, b) ∈ [(0, 1), (2, 3), (0, 2), (1, 3)] := by
        have e : (reg2dGraph 2 2).links = [(0, 1), (2, 3), (0, 2), (1, 3)] := by decide
        rw [← e]; exact hab
      simp only [List.mem_cons, Prod.mk.injEq, List.not_mem_nil, or_false] at this
      rcases this with ⟨rfl, rfl⟩ | ⟨rfl, rfl⟩ | ⟨rfl, rfl⟩ | ⟨rfl, rfl⟩ <;> rw [abs_le] <;> norm_num)
    [1, 2, 3, 4] (some [4, 3, 2, 1]) [1, 2, 3, 4] [4, 3, 2, 1] ⟨by rw [hll]; rfl, .inl rfl⟩
    ⟨by rw [hll]; rfl, .inl rfl⟩ (by decide) (by decide)
  exact ⟨solver, m, unw, flows, hs, hm, hcs, ⟨by rw [hll]; rfl, .inl rfl⟩, ⟨by rw [hll]; rfl, .inl rfl⟩, by decide +kernel,
    by decide +kernel, hu⟩

/-- The interferograms of `slcData`, with the constants of `slcIfgs`, not wrapped. -/
def slcTrue (i p : Nat) : ℚ :=
  let l := (hop3Links 5).getD i (0, 0)
  let d := fun p => (slcData.getD l.2 []).getD p 0 - (slcData.getD l.1 []).getD p 0
  d p + ((slcIfgs.getD i []).getD 0 0 - d 0)

/-- Non-vacuity of the further hypotheses of `C94_cube_ifg`, for the data of the example of `C68_cube_ifg`: true phases that differ by whole
cycles, close in time, and alias along links of the image. -/
example : (∀ i < 9, ∀ p < 4, ∃ k : ℤ, slcTrue i p = (slcIfgs.getD i []).getD p 0 + (k : ℚ) * 1) ∧
    (∀ j < 4, ∀ cyc ∈ (hop3Explicit 5).map triRow,
      |circulation (hop3Links 5) ((List.range 9).map fun i => changeOn (reg2dGraph 2 2).links (slcTrue i) j) cyc| < (1 : ℚ) / 2) ∧
    (∀ j < 4, ∑ i ∈ range 9,
      (List.replicate 9 (1 : ℤ)).getD i 0 * aliasedCycles (1 : ℚ) (changeOn (reg2dGraph 2 2).links (slcTrue i) j) ≤ 1000000000) ∧
    ∃ i < 9, ∃ j < 4, aliasedCycles (1 : ℚ) (changeOn (reg2dGraph 2 2).links (slcTrue i) j) ≠ 0 := by
  have h : ∀ i < 9, ∀ p < 4, Int.fract (slcTrue i p - (slcIfgs.getD i []).getD p 0) = 0 := by decide +kernel
  refine ⟨fun i hi p hp => ⟨⌊slcTrue i p - (slcIfgs.getD i []).getD p 0⌋, ?_⟩, by decide +kernel, by decide +kernel, by decide +kernel⟩
  have := h i hi p hp
  rw [Int.fract] at this
  linarith

end Spurt
