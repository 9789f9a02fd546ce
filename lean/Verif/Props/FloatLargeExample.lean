import Verif.Lemmas.Solver
import Verif.Props.FloatLargeNumpy
import Mathlib.Tactic.NormNum
import Mathlib.Tactic.Linarith

/-!
# Runs property C73 is about
-/

namespace Spurt
open Spec

/-- Neighbouring pixels of the grid are at most one column apart. -/
theorem reg2d_columns {r c p q : Nat} (h : (p, q) ∈ reg2dLinks r c) : q % c ≤ p % c + 1 ∧ p % c ≤ q % c + 1 := by
  rw [reg2dLinks_eq, List.mem_map] at h
  obtain ⟨⟨⟨i, j⟩, i', j'⟩, hx, he⟩ := h
  have hb := linksC_bound hx
  rw [mem_reg2dLinksC] at hx
  obtain ⟨_, _, h3, h4, h5⟩ := hx
  have e1 : p = i * c + j := (congrArg Prod.fst he).symm
  have e2 : q = i' * c + j' := (congrArg Prod.snd he).symm
  have m1 : p % c = j := by rw [e1, Nat.mul_comm, Nat.mul_add_mod, Nat.mod_eq_of_lt h3]
  have m2 : q % c = j' := by rw [e2, Nat.mul_comm, Nat.mul_add_mod, Nat.mod_eq_of_lt h4]
  omega

/-- The wrapped phase: up to half a cycle. -/
def wrapped (x : ℚ) : ℚ := x - (rint (x / twoPi) : ℚ) * twoPi

theorem wrapped_le (x : ℚ) : |wrapped x| ≤ twoPi / 2 := by
  have ht : (0 : ℚ) < twoPi := by norm_num [twoPi]
  have h := rint_abs (x / twoPi)
  have e1 : wrapped x = (x / twoPi - (rint (x / twoPi) : ℚ)) * twoPi := by
    unfold wrapped; field_simp
  rw [e1, abs_mul, abs_of_pos ht]
  linarith [mul_le_mul_of_nonneg_right h ht.le]

/-- A ramp of one radian per column and acquisition on an image with `c` columns. -/
def bigRamp (c t p : Nat) : ℚ := (t : ℚ) * (p % c : Nat)

/-- Four acquisitions of the ramp on an `r × c` image, wrapped. -/
def bigData (r c : Nat) : List (List ℚ) := (List.range 4).map fun t => (List.range (r * c)).map fun p => wrapped (bigRamp c t p)

theorem bigData_at (r c t p : Nat) (ht : t < 4) (hp : p < r * c) : elem (bigData r c) t p = wrapped (bigRamp c t p) := by
  unfold elem bigData
  simp only [List.getD_eq_getElem?_getD, List.getElem?_map, List.getElem?_range ht, List.getElem?_range hp, Option.map_some, Option.getD_some]

theorem bigData_le (r c : Nat) : ∀ row ∈ bigData r c, ∀ x ∈ row, |x| ≤ 11 / 20 * twoPiSingle := by
  intro row hrow x hx
  obtain ⟨t, _, rfl⟩ := List.mem_map.mp hrow
  obtain ⟨p, _, rfl⟩ := List.mem_map.mp hx
  exact (wrapped_le _).trans (by norm_num [twoPi, twoPiSingle])

/-- The whole cycles taken off the interferogram of link `(s, t)`. -/
def bigCycles (c s t p : Nat) : ℤ := rint (bigRamp c t p / twoPi) - rint (bigRamp c s p / twoPi)

theorem bigData_phase {r c : Nat} {g : PlanarGraph} (hlt : ∀ s t, (s, t) ∈ g.links → s < t ∧ t < 4) (i s t : Nat)
    (hi : g.links[i]? = some (s, t)) (p : Nat) (hp : p < r * c) :
    |phaseOfIfg g.links (bigData r c) false i p - (bigRamp c t p - bigRamp c s p -
      (bigCycles c (g.links.getD i (0, 0)).1 (g.links.getD i (0, 0)).2 p : ℚ) * twoPi)| ≤ 0 := by
  have hb := hlt s t (List.mem_of_getElem? hi)
  unfold phaseOfIfg bigCycles
  simp only [Bool.false_eq_true, if_false, List.getD_eq_getElem?_getD, hi, Option.getD_some]
  rw [bigData_at r c t p hb.2 hp, bigData_at r c s p (by omega) hp]
  unfold wrapped
  push_cast
  rw [abs_le]; constructor <;> linarith

theorem bigRamp_smooth {r c : Nat} {g : PlanarGraph} (hlt : ∀ s t, (s, t) ∈ g.links → s < t ∧ t < 4) (s t p q : Nat)
    (hst : (s, t) ∈ g.links) (hpq : (p, q) ∈ (reg2dGraph r c).links) :
    |(bigRamp c t q - bigRamp c s q) - (bigRamp c t p - bigRamp c s p)| ≤ twoPi / 2 - 1 / 100 := by
  have hb := hlt s t hst
  have hm := reg2d_columns (show (p, q) ∈ reg2dLinks r c from hpq)
  have h4 : ((t : ℚ) - s) ≤ 3 := by
    have : (t : ℚ) ≤ s + 3 := by exact_mod_cast (by omega : t ≤ s + 3)
    linarith
  have h5 : (0 : ℚ) ≤ (t : ℚ) - s := by
    have : (s : ℚ) ≤ t := by exact_mod_cast hb.1.le
    linarith
  have m1 : ((q % c : Nat) : ℚ) ≤ ((p % c : Nat) : ℚ) + 1 := by exact_mod_cast hm.1
  have m2 : ((p % c : Nat) : ℚ) ≤ ((q % c : Nat) : ℚ) + 1 := by exact_mod_cast hm.2
  have e1 : (bigRamp c t q - bigRamp c s q) - (bigRamp c t p - bigRamp c s p) =
      ((t : ℚ) - s) * (((q % c : Nat) : ℚ) - ((p % c : Nat) : ℚ)) := by unfold bigRamp; ring
  rw [e1, abs_mul, abs_of_nonneg h5]
  have h6 : |((q % c : Nat) : ℚ) - ((p % c : Nat) : ℚ)| ≤ 1 := by rw [abs_le]; constructor <;> linarith
  calc ((t : ℚ) - s) * |((q % c : Nat) : ℚ) - ((p % c : Nat) : ℚ)| ≤ 3 * 1 :=
        mul_le_mul h4 h6 (abs_nonneg _) (by norm_num)
    _ ≤ _ := by norm_num [twoPi]

/-- A run C73_itoh and C73_single_itoh are about: on an image of 1000 × 1000 pixels a ramp of up to 2997 radians is recovered to within
1.1 thousandths, whatever the flow solver. -/
example (solver : FlowSolver) : ∃ (e : Emcf) (gt : PlanarGraph) (out : List (List ℚ)),
    hop3Graph 4 = .ok gt ∧ ormcf gt = .ok e.time ∧
    unwrapCubeFl numpyArith solver e ⟨2, 0, bigData 1000 1000⟩ (fun _ => List.reverse) List.reverse = .ok out ∧
    ∀ i s t : Nat, gt.links[i]? = some (s, t) → ∀ p < 1000 * 1000,
      |elem out i p - ((t : ℚ) - s) * (p % 1000 : Nat)| ≤ 11 / 10000 := by
  obtain ⟨g, hg, hct, _⟩ := C04_hop3_planar 4 (by omega)
  obtain ⟨hct', hgn, hgl, _, hcs, _⟩ := hop3_grid_facts 4 1000 1000 (by omega) (by omega) (by omega) hg
  obtain ⟨time, htime⟩ := C06_contract_accepted g hct'
  obtain ⟨space, hspace⟩ := C06_contract_accepted (reg2dGraph 1000 1000) hcs
  have hlt : ∀ s t, (s, t) ∈ g.links → s < t ∧ t < 4 := by
    intro s t h
    have := hct'.ordered s t h
    rw [hgn] at this; exact this
  obtain ⟨out, h1, _, h3⟩ := C73_single_itoh 4 1000 1000 (by omega) (by omega) (by omega) (by omega) solver
    ⟨space, time, { linksPerBatch := 10000 }, 4, .ok [], .ok [], .ok [], .ok []⟩ g hg htime hspace
    (by show (0 : ℤ) < 10000; decide) (.inl (by show (1 : ℤ) ≤ ({} : SolverSettings).sWorkerCount; decide)) _ _ rfl rfl
    ⟨2, 0, bigData 1000 1000⟩ rfl rfl false (by simp [bigData]) (by
      intro row hrow
      obtain ⟨t, _, rfl⟩ := List.mem_map.mp hrow
      simp) (bigData_le 1000 1000)
    (bigRamp 1000) (fun i p => bigCycles 1000 (g.links.getD i (0, 0)).1 (g.links.getD i (0, 0)).2 p) 0 (by norm_num)
    (fun i s t hi p hp => bigData_phase hlt i s t hi p hp) (fun s t p q hst hpq => bigRamp_smooth hlt s t p q hst hpq)
    (fun _ => List.reverse) List.reverse (fun _ l => List.reverse_perm l) (fun l => List.reverse_perm l)
  refine ⟨_, g, out, hg, htime, h1, fun i s t hi p hp => ?_⟩
  have h := (h3 i s t hi).2 p hp
  have e1 : (bigRamp 1000 t p - bigRamp 1000 s p) - (bigRamp 1000 t 0 - bigRamp 1000 s 0) = ((t : ℚ) - s) * (p % 1000 : Nat) := by
    unfold bigRamp; rw [Nat.zero_mod]; push_cast; ring
  rw [e1] at h
  linarith

/-- A run C73_returns, C73_single_returns, C73_no_flows and C73_single_no_flows are about. -/
example : ∃ (solver : FlowSolver) (e : Emcf) (gt : PlanarGraph) (out : List (List ℚ)),
    SolverOptimal solver ∧ SolverComplete solver ∧ hop3Graph 4 = .ok gt ∧ ormcf gt = .ok e.time ∧
    unwrapCubeFl numpyArith solver e ⟨2, 0, bigData 250 300⟩ (fun _ => List.reverse) List.reverse = .ok out ∧
    ∀ i s t : Nat, gt.links[i]? = some (s, t) → ∀ p < 250 * 300, ∃ k : ℤ,
      |elem out i p - (wrapped (t * (p % 300 : Nat)) - wrapped (s * (p % 300 : Nat)) + k * twoPi)| ≤ 25 / 10000 := by
  obtain ⟨sol, hs, hcomp⟩ := exists_solver
  obtain ⟨g, hg, hct, _⟩ := C04_hop3_planar 4 (by omega)
  obtain ⟨hct', hgn, hgl, _, hcs, _⟩ := hop3_grid_facts 4 250 300 (by omega) (by omega) (by omega) hg
  obtain ⟨time, htime⟩ := C06_contract_accepted g hct'
  obtain ⟨space, hspace⟩ := C06_contract_accepted (reg2dGraph 250 300) hcs
  have hlt : ∀ s t, (s, t) ∈ g.links → s < t ∧ t < 4 := by
    intro s t h
    have := hct'.ordered s t h
    rw [hgn] at this; exact this
  obtain ⟨hmgt, _⟩ := dual_of_contract hct' htime
  obtain ⟨hmgs, _⟩ := dual_of_contract hcs hspace
  have hlen : ∀ row ∈ bigData 250 300, row.length = 250 * 300 := by
    intro row hrow
    obtain ⟨t, _, rfl⟩ := List.mem_map.mp hrow
    simp
  have hF := C73_single_no_flows 4 250 300 (by omega) (by omega) (by omega) sol
    ⟨space, time, { linksPerBatch := 10000 }, 4, .ok [], .ok [], .ok [], .ok []⟩ g hg htime hspace
    (by show (0 : ℤ) < 10000; decide) _ _ rfl rfl
    ⟨2, 0, bigData 250 300⟩ false (by simp [bigData]) hlen (bigData_le 250 300)
    (bigRamp 300) (fun i p => bigCycles 300 (g.links.getD i (0, 0)).1 (g.links.getD i (0, 0)).2 p) 0 (by norm_num)
    (fun i s t hi p hp => bigData_phase hlt i s t hi p hp) (fun s t p q hst hpq => bigRamp_smooth hlt s t p q hst hpq)
    (fun _ => List.reverse) (fun _ l => List.reverse_perm l)
  obtain ⟨out, h1, h2, h3⟩ := C73_single_returns 4 250 300 (by omega) (by omega) (by omega) (by omega) sol hs.1 hcomp
    ⟨space, time, { linksPerBatch := 10000 }, 4, .ok [], .ok [], .ok [], .ok []⟩ g hg htime hspace
    (by show (0 : ℤ) < 10000; decide) (.inl (by show (1 : ℤ) ≤ ({} : SolverSettings).sWorkerCount; decide)) _ _ _ _ rfl
    ⟨by unfold Emcf.nifgs; rw [hmgt]; simp, .inl rfl⟩ (by
      intro v hv
      rw [List.eq_of_mem_replicate hv]; decide) rfl ⟨by unfold Emcf.nlinks; rw [hmgs]; simp, .inl rfl⟩ (by
      intro v hv
      rw [List.eq_of_mem_replicate hv]; decide)
    ⟨2, 0, bigData 250 300⟩ rfl rfl (by simp [bigData]) hlen (bigData_le 250 300)
    (fun _ => List.reverse) List.reverse (fun _ l => List.reverse_perm l) (fun l => List.reverse_perm l)
    ⟨fun tc htc j hj fl hfl f hf => (hF.1 tc htc j hj fl hfl f hf).trans (by decide),
      fun sc hsc gr hgr i hi res fl hres hfl f hf => (hF.2 sc hsc gr hgr i hi res fl hres hfl f hf).trans (by decide)⟩
  refine ⟨sol, _, g, out, hs, hcomp, hg, htime, h1, fun i s t hi p hp => ?_⟩
  obtain ⟨k, hk⟩ := (h3 i s t hi).2 p hp
  have hb := hlt s t (List.mem_of_getElem? hi)
  rw [bigData_at 250 300 t p hb.2 hp, bigData_at 250 300 s p (by omega) hp, bigData_at 250 300 t 0 hb.2 (by omega),
    bigData_at 250 300 s 0 (by omega) (by omega)] at hk
  have z : ∀ u, wrapped (bigRamp 300 u 0) = 0 := by
    intro u
    unfold bigRamp wrapped
    simp [rint_zero]
  rw [z, z, sub_zero, sub_zero] at hk
  exact ⟨k, hk⟩

end Spurt
