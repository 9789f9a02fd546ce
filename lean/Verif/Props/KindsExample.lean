import Verif.Props.Kinds
import Verif.Props.InvarianceExample
import Verif.Props.FloatSingleExample

/-! # A stack of acquisitions and its interferograms -/

namespace Spurt
open Spec

/-- Interferograms of `slcData`, each with a phase of its own, and a cycle added at one point. -/
def slcIfgs : List (List ℚ) := (hop3Links 5).zipIdx.map fun li => (List.range 4).map fun p =>
  (slcData.getD li.1.2 []).getD p 0 - (slcData.getD li.1.1 []).getD p 0 + (li.2 : ℚ) / 11 + (if p = 2 then 1 else 0)

theorem slcIfgs_of : IfgsOf 1 (hop3Links 5) slcData slcIfgs := by
  refine ⟨by decide +kernel, by decide +kernel, fun i => (i : ℚ) / 11, ?_⟩
  intro i s t hi p hp
  refine ⟨if p = 2 then 1 else 0, ?_⟩
  obtain ⟨hi', he⟩ := List.getElem?_eq_some_iff.mp hi
  have hp : p < 4 := hp
  have h9 : i < 9 := by
    have : (hop3Links 5).length = 9 := by decide +kernel
    omega
  have key : ∀ i < 9, ∀ p < 4, (slcIfgs.getD i []).getD p 0 =
      (slcData.getD ((hop3Links 5).getD i (0, 0)).2 []).getD p 0 - (slcData.getD ((hop3Links 5).getD i (0, 0)).1 []).getD p 0 +
        (i : ℚ) / 11 + ((if p = 2 then 1 else 0 : ℤ) : ℚ) * 1 := by
    decide +kernel
  have hgd : (hop3Links 5).getD i (0, 0) = (s, t) := by rw [List.getD_eq_getElem?_getD, hi]; rfl
  have := key i h9 p hp
  rw [hgd] at this
  exact this

/-- Non-vacuity of `C87_kinds`, `C87_again_slc` and `C87_again_ifg`: five acquisitions of a 2 × 2 image, their interferograms,
and the result given back. -/
example : ∃ (solver : FlowSolver) (e : Emcf) (out : List (List ℚ)),
    unwrapCube 1 solver e ⟨2, 0, slcData⟩ (fun _ => id) id = .ok out ∧
    unwrapCube 1 solver e ⟨2, 0, slcIfgs⟩ (fun _ => List.reverse) List.reverse = .ok out ∧
    unwrapCube 1 solver e ⟨2, 0, out⟩ (fun _ => id) List.reverse = .ok out := by
  obtain ⟨s, hs, hcomp⟩ := exists_solver
  obtain ⟨gt, time, space, out, h1, h2, h3, h4⟩ := C21_hop3_reg2d_returns (1 : ℚ) (by norm_num) s hs
    hcomp 5 2 2 (by omega) (by omega) (by omega) (by omega) { linksPerBatch := 3 } (by decide) rfl rfl
    4 (.inl (by decide)) slcData rfl (by decide +kernel) (by decide +kernel)
    (fun _ => id) id (fun _ l => List.Perm.refl l) (fun l => List.Perm.refl l)
  obtain ⟨g, hg, hct, _⟩ := C04_hop3_planar 5 (by omega)
  rw [h1] at hg
  simp only [Except.ok.injEq] at hg
  subst hg
  rw [hop3Graph_eq 5 (by omega), Except.ok.injEq] at h1
  subst h1
  have hcs := reg2d_contract 2 2 le_rfl le_rfl
  have hmgs : space.graph = reg2dGraph 2 2 := (dual_of_contract (g := reg2dGraph 2 2) hcs h3).1
  have hlt : ∀ p q, (p, q) ∈ space.graph.links → p < q ∧ q < space.graph.npoints := by
    intro a b hab
    rw [hmgs] at hab ⊢
    exact hcs.ordered a b hab
  have htie : ∀ s u, (s, u) ∈ hop3Links 5 → ∀ p q, (p, q) ∈ space.graph.links →
      NoTie (1 : ℚ) (((slcData.getD u []).getD q 0 - (slcData.getD s []).getD q 0) -
        ((slcData.getD u []).getD p 0 - (slcData.getD s []).getD p 0)) := by
    intro a b hab p q hpq
    rw [hmgs] at hpq
    exact noTie_of_fract ((by decide +kernel : ∀ l ∈ hop3Links 5, ∀ m ∈ (reg2dGraph 2 2).links,
      Int.fract ((slcData.getD l.2 []).getD m.2 0 -
        (slcData.getD l.1 []).getD m.2 0 -
        ((slcData.getD l.2 []).getD m.1 0 -
        (slcData.getD l.1 []).getD m.1 0)) ≠ 1 / 2)
      (a, b) hab (p, q) hpq)
  have h5 := (C87_kinds 1 one_pos s ⟨space, time, { linksPerBatch := 3 }, 4, .ok [], .ok [], .ok [], .ok []⟩
    ⟨5, hop3Links 5, (hop3Explicit 5).map triRow⟩ hct h2 (by show (0 : ℤ) < 3; decide) (fun a b h => (hlt a b h).1)
    (by show (hop3Links 5).length ≠ 5; decide +kernel) ⟨2, 0, slcData⟩ rfl slcIfgs slcIfgs_of htie
    (fun _ => id) (fun _ => List.reverse) (fun _ l => List.Perm.refl l) (fun _ l => List.reverse_perm l)
    id List.reverse (fun l => List.Perm.refl l) (fun l => List.reverse_perm l) out).1 (h4 _ _ _ _)
  have h6 := C87_again_slc 1 one_pos s ⟨space, time, { linksPerBatch := 3 }, 4, .ok [], .ok [], .ok [], .ok []⟩
    ⟨5, hop3Links 5, (hop3Explicit 5).map triRow⟩ hct (by show hop3Links 5 ≠ []; decide +kernel)
    (by show (hop3Links 5).length ≠ 5; decide +kernel) h2 hs.1 (by show (0 : ℤ) < 3; decide) hlt
    ⟨2, 0, slcData⟩ rfl (by show _ = space.graph.npoints; rw [hmgs]; rfl) htie
    (fun _ => id) (fun _ => id) (fun _ l => List.Perm.refl l) (fun _ l => List.Perm.refl l)
    id List.reverse (fun l => List.Perm.refl l) (fun l => List.reverse_perm l) out (h4 _ _ _ _)
  have _h7 := C87_again_ifg 1 one_pos s ⟨space, time, { linksPerBatch := 3 }, 4, .ok [], .ok [], .ok [], .ok []⟩
    ⟨5, hop3Links 5, (hop3Explicit 5).map triRow⟩ hct (by show hop3Links 5 ≠ []; decide +kernel)
    h2 hs.1 (by show (0 : ℤ) < 3; decide) hlt
    ⟨2, 0, slcIfgs⟩ (by show slcIfgs.length ≠ 5; decide +kernel) (by show _ = space.graph.npoints; rw [hmgs]; decide +kernel) (by
      intro i hi p q hpq
      simp only at hpq
      rw [hmgs] at hpq
      have h9 : i < 9 := by
        have : slcIfgs.length = 9 := by decide +kernel
        simp only at hi
        omega
      exact noTie_of_fract ((by decide +kernel : ∀ i < 9, ∀ m ∈ (reg2dGraph 2 2).links,
        Int.fract ((slcIfgs.getD i []).getD m.2 0 - (slcIfgs.getD i []).getD m.1 0) ≠ 1 / 2) i h9 (p, q) hpq))
    (fun _ => List.reverse) (fun _ => id) (fun _ l => List.reverse_perm l) (fun _ l => List.Perm.refl l)
    List.reverse id (fun l => List.reverse_perm l) (fun l => List.Perm.refl l) out h5
  exact ⟨s, ⟨space, time, { linksPerBatch := 3 }, 4, .ok [], .ok [], .ok [], .ok []⟩, out, h4 _ _ _ _, h5, h6⟩

/-- The interferograms that `phase_diff` forms from `wrapping5` in single precision. -/
def wrapping5Ifgs (links : List (Nat × Nat)) : List (List ℚ) := links.map fun l => (List.range 4).map fun p =>
  phaseDiffFl numpyArith.fs numpyArith.tauS ((wrapping5.getD l.1 []).getD p 0) ((wrapping5.getD l.2 []).getD p 0)

/-- Non-vacuity of `C87_kinds_float`: in numpy's arithmetic, five acquisitions and their interferograms. -/
example : ∃ (solver : FlowSolver) (e : Emcf) (gt : PlanarGraph) (out : List (List ℚ)),
    hop3Graph 5 = .ok gt ∧
    unwrapCubeFl numpyArith solver e ⟨2, 0, wrapping5⟩ (fun _ => List.reverse) List.reverse = .ok out ∧
    unwrapCubeFl numpyArith solver e ⟨2, 0, wrapping5Ifgs gt.links⟩ (fun _ => id) List.reverse = .ok out := by
  obtain ⟨s, hs, hcomp⟩ := exists_solver
  obtain ⟨g, hg, hct, _⟩ := C04_hop3_planar 5 (by omega)
  obtain ⟨hct', hgn, hgl, _, hcs, _⟩ := hop3_grid_facts 5 2 2 (by omega) (by omega) (by omega) hg
  obtain ⟨time, htime⟩ := C06_contract_accepted g hct'
  obtain ⟨space, hspace⟩ := C06_contract_accepted (reg2dGraph 2 2) hcs
  obtain ⟨out, h1, h2, _⟩ := C69_single_any 5 2 2 (by omega) (by omega) (by omega) (by omega) (by omega) s hs hcomp
    ⟨space, time, { linksPerBatch := 3 }, 4, .ok [], .ok [], .ok [], .ok []⟩ g hg htime hspace
    (by show (0 : ℤ) < 3; decide) (.inl (by show (1 : ℤ) ≤ ({} : SolverSettings).sWorkerCount; decide)) rfl rfl
    ⟨2, 0, wrapping5⟩ rfl rfl rfl (by decide) (by
      intro row hrow x hx
      simp only [wrapping5, List.mem_cons, List.not_mem_nil, or_false] at hrow
      rcases hrow with rfl | rfl | rfl | rfl | rfl <;>
        simp only [List.mem_cons, List.not_mem_nil, or_false] at hx <;>
        rcases hx with rfl | rfl | rfl | rfl <;> rw [abs_le] <;> constructor <;> norm_num [twoPiSingle])
    (fun _ => List.reverse) List.reverse (fun _ l => List.reverse_perm l) (fun l => List.reverse_perm l)
  refine ⟨s, _, g, out, hg, h1, ?_⟩
  have hhead : ((wrapping5Ifgs g.links).headD []).length = 4 := by
    unfold wrapping5Ifgs
    cases hgk : g.links with
    | nil => rw [hgk] at hgl; simp at hgl
    | cons l ls => simp
  refine (C87_kinds_float numpyArith s ⟨space, time, { linksPerBatch := 3 }, 4, .ok [], .ok [], .ok [], .ok []⟩ g hct' htime
    (by show (0 : ℤ) < 3; decide) (C22_hop3_unambiguous 5 g hg).2 ⟨2, 0, wrapping5⟩ (by rw [hgn]; rfl) (wrapping5Ifgs g.links)
    (by simp [wrapping5Ifgs]) (by rw [hhead]; rfl) ?_ (fun _ => List.reverse) (fun _ => id) (fun _ l => List.reverse_perm l)
    (fun _ l => List.Perm.refl l) List.reverse out).1 h1
  intro i a b hi p hp
  have hp : p < 4 := hp
  unfold wrapping5Ifgs
  rw [List.getD_eq_getElem?_getD (l := g.links.map _), List.getElem?_map, hi]
  simp [List.getD_eq_getElem?_getD, hp]

end Spurt
