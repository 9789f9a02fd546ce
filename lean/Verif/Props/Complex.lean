import Mathlib.Analysis.SpecialFunctions.Complex.Log
import Verif.Lemmas.Complex
import Verif.Props.Reference
import Verif.Props.Recovery
import Verif.Props.Sign

/-!
# Property C89: complex input

Complex samples enter through their phase only, and the results, put back on the unit circle, are the complex interferograms.
-/

namespace Spurt
open Spec Complex

section phases

theorem two_pi_pos' : (0 : ℝ) < 2 * Real.pi := by positivity

theorem isPhase_arg (z : ℂ) : IsPhase (arg z) z := (norm_mul_exp_arg_mul_I z).symm

theorem exp_cycles (φ : ℝ) (k : ℤ) : exp (((φ + k * (2 * Real.pi) : ℝ) : ℂ) * I) = exp (φ * I) := by
  have h : ((φ + k * (2 * Real.pi) : ℝ) : ℂ) * I = φ * I + k * (2 * Real.pi * I) := by
    push_cast; ring
  rw [h, Complex.exp_add, exp_int_mul_two_pi_mul_I, mul_one]

theorem isPhase_cycles {φ : ℝ} {z : ℂ} (h : IsPhase φ z) (k : ℤ) : IsPhase (φ + k * (2 * Real.pi)) z := by
  unfold IsPhase at *
  rw [exp_cycles]
  exact h

theorem isPhase_mul {φ ψ : ℝ} {z w : ℂ} (h : IsPhase φ z) (h' : IsPhase ψ w) : IsPhase (φ + ψ) (z * w) := by
  unfold IsPhase at *
  rw [norm_mul]
  push_cast
  rw [add_mul, Complex.exp_add]
  conv_lhs => rw [h, h']
  ring

theorem isPhase_conj {φ : ℝ} {z : ℂ} (h : IsPhase φ z) : IsPhase (-φ) (starRingEnd ℂ z) := by
  unfold IsPhase at *
  conv_lhs => rw [h]
  rw [map_mul, conj_ofReal, ← exp_conj, RCLike.norm_conj]
  simp

theorem isPhase_ifg {φ ψ : ℝ} {z w : ℂ} (h : IsPhase φ z) (h' : IsPhase ψ w) : IsPhase (ψ - φ) (interferogram z w) := by
  unfold interferogram
  rw [sub_eq_add_neg]
  exact isPhase_mul h' (isPhase_conj h)

/-- The phases of a number other than 0 differ by whole cycles. -/
theorem isPhase_unique {φ ψ : ℝ} {z : ℂ} (hz : z ≠ 0) (h : IsPhase φ z) (h' : IsPhase ψ z) : ∃ k : ℤ, ψ = φ + k * (2 * Real.pi) := by
  unfold IsPhase at *
  have hn : ((‖z‖ : ℝ) : ℂ) ≠ 0 := by simpa using hz
  have e : exp (ψ * I) = exp (φ * I) := mul_left_cancel₀ hn (h'.symm.trans h)
  obtain ⟨k, hk⟩ := Complex.exp_eq_exp_iff_exists_int.mp e
  refine ⟨k, ?_⟩
  have : (ψ : ℂ) * I = ((φ + k * (2 * Real.pi) : ℝ) : ℂ) * I := by rw [hk]; push_cast; ring
  have := mul_right_cancel₀ I_ne_zero this
  exact_mod_cast this

theorem arg_sameDirection {z z' : ℂ} (h : SameDirection z z') : arg z' = arg z := by
  obtain ⟨r, hr, rfl⟩ := h
  exact arg_real_mul z hr

theorem interferogram_ne {z w : ℂ} (hz : z ≠ 0) (hw : w ≠ 0) : interferogram z w ≠ 0 := by
  unfold interferogram
  exact mul_ne_zero hw (by simpa using hz)

end phases

/-- C89, `phase_diff` of complex numbers: a phase of the interferogram `z1 * conj(z0)`, within half a cycle of the model. -/
theorem C89_phase_diff (z0 z1 : ℂ) (model : ℝ) :
    IsPhase (phaseDiffC z0 z1 model) (interferogram z0 z1) ∧ |phaseDiffC z0 z1 model - model| ≤ Real.pi := by
  rw [phaseDiffC_eq]
  obtain ⟨⟨k, hk⟩, h⟩ := C07_phase_diff_wraps (2 * Real.pi) two_pi_pos' (arg z0) (arg z1) model
  refine ⟨?_, by linarith⟩
  rw [hk]
  exact isPhase_cycles (isPhase_ifg (isPhase_arg z0) (isPhase_arg z1)) k

/-- C89, `phase_diff` of complex numbers other than 0: any phase of the interferogram closer than half a cycle to the model is the
result. -/
theorem C89_phase_diff_only (z0 z1 : ℂ) (h0 : z0 ≠ 0) (h1 : z1 ≠ 0) (model φ : ℝ) (h : IsPhase φ (interferogram z0 z1))
    (hφ : |φ - model| < Real.pi) : phaseDiffC z0 z1 model = φ := by
  obtain ⟨a, b⟩ := C89_phase_diff z0 z1 model
  obtain ⟨k, hk⟩ := isPhase_unique (interferogram_ne h0 h1) h a
  rw [hk] at b ⊢
  have hk0 : k = 0 := by
    rw [abs_lt] at hφ
    rw [abs_le] at b
    have hp := Real.pi_pos
    have b1 : (k : ℝ) * Real.pi < 1 * Real.pi := by linarith [hφ.1, b.2]
    have b2 : (-1) * Real.pi < (k : ℝ) * Real.pi := by linarith [hφ.2, b.1]
    have c1 : (k : ℝ) < 1 := lt_of_mul_lt_mul_right b1 hp.le
    have c2 : (-1 : ℝ) < k := lt_of_mul_lt_mul_right b2 hp.le
    have c1' : k < 1 := by exact_mod_cast c1
    have c2' : -1 < k := by exact_mod_cast c2
    omega
  rw [hk0]
  simp

/-- C89, without a model and away from the negative real axis the result is `np.angle(z1 * conj(z0))`. -/
theorem C89_phase_diff_angle (z0 z1 : ℂ) (h0 : z0 ≠ 0) (h1 : z1 ≠ 0) (h : arg (interferogram z0 z1) ≠ Real.pi) :
    phaseDiffC z0 z1 = arg (interferogram z0 z1) := by
  refine C89_phase_diff_only z0 z1 h0 h1 0 _ (isPhase_arg _) ?_
  rw [sub_zero, abs_lt]
  exact ⟨neg_pi_lt_arg _, lt_of_le_of_ne (arg_le_pi _) h⟩

/-- C89, `unwrap_one` on complex points. On a graph with the planar contract it succeeds, the result is a phase of the given numbers, and its
differences along the links are phases of the interferograms of the ends. -/
theorem C89_unwrap_one (g : PlanarGraph) (m : Mcf) (solver : FlowSolver)
    (hc : PlanarContract g.npoints g.links g.cycles) (hne : g.links ≠ [])
    (hconn : Connected g.npoints g.links) (hgen : CyclesGenerate ℝ g.links g.cycles)
    (hm : ormcf g = .ok m) (hsound : SolverSound solver) (hcomp : SolverComplete solver)
    (w : List ℂ) (hw : w.length = g.npoints) (cost : List ℤ) (revcost : Option (List ℤ)) (c r : List ℤ)
    (hcost : CostOn g.links.length cost c) (hrev : CostOn g.links.length (revcost.getD cost) r)
    (hc0 : ∀ v ∈ c, 0 ≤ v) (hr0 : ∀ v ∈ r, 0 ≤ v) :
    ∃ unw flows, unwrapOneC solver m w cost revcost = .ok (unw, flows) ∧ unw.length = g.npoints ∧
      (∀ p < g.npoints, IsPhase (unw.getD p 0) (w.getD p 0)) ∧ unw.getD 0 0 = arg (w.getD 0 0) ∧
      ∀ i a b : Nat, g.links[i]? = some (a, b) →
        IsPhase (unw.getD b 0 - unw.getD a 0) (interferogram (w.getD a 0) (w.getD b 0)) ∧
        unw.getD b 0 - unw.getD a 0 = phaseDiffC (w.getD a 0) (w.getD b 0) + 2 * Real.pi * (flows.getD i 0 : ℝ) := by
  have hsmall : ∀ a b, (a, b) ∈ g.links → |(w.map arg).getD b 0 - (w.map arg).getD a 0| ≤ 2147483647 * (2 * Real.pi) := by
    intro a b _
    rw [getD_angle, getD_angle]
    have h1 := abs_le.mp (abs_arg_le_pi (w.getD a 0))
    have h2 := abs_le.mp (abs_arg_le_pi (w.getD b 0))
    have := Real.pi_pos
    rw [abs_le]
    constructor <;> linarith
  obtain ⟨unw, flows, h1, h2, h3, h4, h5, h6⟩ := C14_unwrap_one (2 * Real.pi) two_pi_pos' g m solver hc hne hconn hgen hm hsound hcomp
    (w.map arg) (by rw [List.length_map]; exact hw) hsmall cost revcost c r hcost hrev hc0 hr0
  have hph : ∀ p < g.npoints, IsPhase (unw.getD p 0) (w.getD p 0) := by
    intro p hp
    obtain ⟨k, hk⟩ := h4 p hp
    rw [hk, getD_angle]
    exact isPhase_cycles (isPhase_arg _) k
  refine ⟨unw, flows, by rw [unwrapOneC_eq]; exact h1, h2, hph, by rw [h6, getD_angle], fun i a b hi => ⟨?_, ?_⟩⟩
  · have := hc.ordered a b (List.mem_of_getElem? hi)
    exact isPhase_ifg (hph a (by omega)) (hph b (by omega))
  · rw [h5 i a b hi, phaseDiffC_eq, getD_angle, getD_angle]

theorem ifgPhase_isPhase (w : List (List ℂ)) (s t p : Nat) :
    IsPhase (ifgPhase (2 * Real.pi) (w.map fun r => r.map arg) s t p) (interferogram (elemC w s p) (elemC w t p)) := by
  have h := (C89_phase_diff (elemC w s p) (elemC w t p) 0).1
  rw [phaseDiffC_eq, ← elem_angle, ← elem_angle] at h
  exact h

/-- C89, `unwrap_cube` on complex acquisitions. The result is zero at the first pixel; elsewhere it is a phase of the complex
interferogram, referenced to the first pixel. With the stored offset of the first pixel it is a phase of the complex interferogram. -/
theorem C89_cube_slc (solver : FlowSolver) (e : Emcf) (gt : PlanarGraph)
    (hc : PlanarContract gt.npoints gt.links gt.cycles) (hm : ormcf gt = .ok e.time)
    (hs : SolverSound solver) (hb : 0 < e.settings.linksPerBatch)
    (hlt : ∀ a b, (a, b) ∈ e.space.graph.links → a < b)
    (w : List (List ℂ)) (hw : w.length = gt.npoints)
    (oT : Nat → List Nat → List Nat) (oS : List Nat → List Nat)
    (hoT : ∀ k l, (oT k l).Perm l) (hoS : ∀ l, (oS l).Perm l) (ndim : Nat) (td : ℤ) (out : List (List ℝ))
    (h : unwrapCubeC solver e ndim td w oT oS = .ok out) :
    out.length = gt.links.length ∧ ∀ i s t : Nat, gt.links[i]? = some (s, t) →
      (out.getD i []).length = e.space.graph.npoints ∧ (out.getD i []).getD 0 0 = 0 ∧
      ∀ p < e.space.graph.npoints,
        IsPhase ((out.getD i []).getD p 0) (interferogram (interferogram (elemC w s 0) (elemC w t 0)) (interferogram (elemC w s p) (elemC w t p))) ∧
        IsPhase ((out.getD i []).getD p 0 + (phaseOffsetC gt w).getD i 0) (interferogram (elemC w s p) (elemC w t p)) := by
  rw [unwrapCubeC_eq] at h
  obtain ⟨h1, h2⟩ := C21_slc_congruent (2 * Real.pi) solver e gt hc hm hs hb hlt _ (by simpa using hw) oT oS hoT hoS out h
  refine ⟨h1, fun i s t hi => ?_⟩
  obtain ⟨a, b, c⟩ := h2 i s t hi
  refine ⟨a, b, fun p hp => ?_⟩
  obtain ⟨⟨k, hk⟩, ⟨k', hk'⟩⟩ := c p hp
  constructor
  · rw [hk]
    exact isPhase_cycles (isPhase_ifg (ifgPhase_isPhase w s t 0) (ifgPhase_isPhase w s t p)) k
  · rw [phaseOffsetC_eq, hk']
    exact isPhase_cycles (ifgPhase_isPhase w s t p) k'

/-- C89, `unwrap_cube` on complex interferograms. -/
theorem C89_cube_ifg (solver : FlowSolver) (e : Emcf) (gt : PlanarGraph)
    (hc : PlanarContract gt.npoints gt.links gt.cycles) (hm : ormcf gt = .ok e.time)
    (hs : SolverSound solver) (hb : 0 < e.settings.linksPerBatch)
    (hlt : ∀ a b, (a, b) ∈ e.space.graph.links → a < b)
    (w : List (List ℂ)) (hw : w.length ≠ gt.npoints)
    (oT : Nat → List Nat → List Nat) (oS : List Nat → List Nat)
    (hoT : ∀ k l, (oT k l).Perm l) (hoS : ∀ l, (oS l).Perm l) (ndim : Nat) (td : ℤ) (out : List (List ℝ))
    (h : unwrapCubeC solver e ndim td w oT oS = .ok out) :
    out.length = gt.links.length ∧ ∀ i < gt.links.length,
      (out.getD i []).length = e.space.graph.npoints ∧ (out.getD i []).getD 0 0 = 0 ∧
      ∀ p < e.space.graph.npoints, IsPhase ((out.getD i []).getD p 0) (interferogram (elemC w i 0) (elemC w i p)) := by
  rw [unwrapCubeC_eq] at h
  obtain ⟨h1, h2⟩ := C21_ifg_congruent (2 * Real.pi) solver e gt hc hm hs hb hlt _ (by simpa using hw) oT oS hoT hoS out h
  refine ⟨h1, fun i hi => ?_⟩
  obtain ⟨a, b, c⟩ := h2 i hi
  refine ⟨a, b, fun p hp => ?_⟩
  obtain ⟨k, hk⟩ := c p hp
  rw [hk]
  have e1 : ∀ q, ((w.map fun r => r.map arg).getD i []).getD q 0 = arg (elemC w i q) := fun q => elem_angle w i q
  simp only [e1]
  exact isPhase_cycles (isPhase_ifg (isPhase_arg _) (isPhase_arg _)) k

/-- Two arrays of samples of the same size differ by positive factors only. -/
def Spec.SameDirections (w w' : List (List ℂ)) : Prop := List.Forall₂ (List.Forall₂ SameDirection) w w'

theorem sameDirections_angles {w w' : List ℂ} (h : List.Forall₂ SameDirection w w') : w'.map arg = w.map arg := by
  induction h with
  | nil => rfl
  | cons h _ ih => simp [arg_sameDirection h, ih]

/-- C89. The amplitudes do not matter: samples multiplied by positive factors, a different one for each, give the same result. -/
theorem C89_amplitude (solver : FlowSolver) :
    (∀ m w w' cost revcost, List.Forall₂ SameDirection w w' → unwrapOneC solver m w' cost revcost = unwrapOneC solver m w cost revcost) ∧
    (∀ e ndim td w w' oT oS, SameDirections w w' → unwrapCubeC solver e ndim td w' oT oS = unwrapCubeC solver e ndim td w oT oS) := by
  constructor
  · intro m w w' cost revcost h
    rw [unwrapOneC_eq, unwrapOneC_eq, sameDirections_angles h]
  · intro e ndim td w w' oT oS h
    have : (w'.map fun r => r.map arg) = w.map fun r => r.map arg := by
      induction h with
      | nil => rfl
      | cons h _ ih => simp [sameDirections_angles h, ih]
    rw [unwrapCubeC_eq, unwrapCubeC_eq, this]

/-- Away from the negative real axis a number has no phase of an odd number of half cycles. -/
theorem noTie_of_phase {φ : ℝ} {z : ℂ} (hz : z ≠ 0) (h : IsPhase φ z) (hπ : arg z ≠ Real.pi) : NoTie (2 * Real.pi) φ := by
  intro n hn
  obtain ⟨k, hk⟩ := isPhase_unique hz (isPhase_arg z) h
  have hp := Real.pi_pos
  have e : arg z = (2 * ((n - k : ℤ) : ℝ) + 1) * Real.pi := by push_cast; linarith
  have l1 := neg_pi_lt_arg z
  have l2 := lt_of_le_of_ne (arg_le_pi z) hπ
  rw [e] at l1 l2
  have a1 : (2 * ((n - k : ℤ) : ℝ) + 1) < 1 := lt_of_mul_lt_mul_right (by rwa [one_mul]) hp.le
  have a2 : (-1 : ℝ) < (2 * ((n - k : ℤ) : ℝ) + 1) := lt_of_mul_lt_mul_right (by linarith) hp.le
  have b1 : ((n - k : ℤ) : ℝ) < 0 := by linarith
  have b2 : ((-1 : ℤ) : ℝ) < ((n - k : ℤ) : ℝ) := by push_cast at *; linarith
  have c1 : n - k < 0 := by exact_mod_cast b1
  have c2 := Int.cast_lt.mp b2
  omega

/-- C89. A complex factor per acquisition and a complex factor per pixel, none of them 0, do not change the result of `unwrap_cube` on
acquisitions, if no double difference of the samples along the links lies on the negative real axis. -/
theorem C89_factors (solver : FlowSolver) (e : Emcf) (gt : PlanarGraph)
    (hc : PlanarContract gt.npoints gt.links gt.cycles) (hm : ormcf gt = .ok e.time) (hb : 0 < e.settings.linksPerBatch)
    (hlt : ∀ p q, (p, q) ∈ e.space.graph.links → p < q) (w w' : List (List ℂ)) (hw : w.length = gt.npoints)
    (hlen : w'.length = w.length) (hhead : (w'.headD []).length = (w.headD []).length) (a b : Nat → ℂ)
    (hnz : ∀ s < w.length, ∀ p < (w.headD []).length, elemC w s p ≠ 0 ∧ a s ≠ 0 ∧ b p ≠ 0)
    (hfac : ∀ s < w.length, ∀ p < (w.headD []).length, elemC w' s p = a s * b p * elemC w s p)
    (hneg : ∀ s u, (s, u) ∈ gt.links → ∀ p q, (p, q) ∈ e.space.graph.links → p < (w.headD []).length → q < (w.headD []).length →
      arg (interferogram (interferogram (elemC w s p) (elemC w u p)) (interferogram (elemC w s q) (elemC w u q))) ≠ Real.pi)
    (hin : ∀ p q, (p, q) ∈ e.space.graph.links → p < (w.headD []).length ∧ q < (w.headD []).length)
    (o o' : Nat → List Nat → List Nat) (ho : ∀ k l, (o k l).Perm l) (ho' : ∀ k l, (o' k l).Perm l)
    (p p' : List Nat → List Nat) (hp : ∀ l, (p l).Perm l) (hp' : ∀ l, (p' l).Perm l) (ndim : Nat) (td : ℤ) (out : List (List ℝ))
    (h : unwrapCubeC solver e ndim td w o p = .ok out) : unwrapCubeC solver e ndim td w' o' p' = .ok out := by
  rw [unwrapCubeC_eq] at h ⊢
  have e1 : ∀ (v : List (List ℂ)) i q, ((v.map fun r => r.map arg).getD i []).getD q 0 = arg (elemC v i q) := fun v i q => elem_angle v i q
  refine C79_cube_slc (2 * Real.pi) two_pi_pos' solver e gt hc hm hb hlt ⟨ndim, td, w.map fun r => r.map arg⟩ (by simpa using hw)
    (w'.map fun r => r.map arg) (by simpa using hlen) (by rw [headD_angle, headD_angle]; exact hhead) (fun s => arg (a s)) (fun q => arg (b q))
    ?_ ?_ o o' ho ho' p p' hp hp' out h
  · intro s hs q hq
    simp only [List.length_map] at hs
    rw [headD_angle] at hq
    obtain ⟨z1, z2, z3⟩ := hnz s hs q hq
    simp only [e1]
    have h1 := isPhase_mul (isPhase_mul (isPhase_arg (a s)) (isPhase_arg (b q))) (isPhase_arg (elemC w s q))
    rw [← hfac s hs q hq] at h1
    obtain ⟨k, hk⟩ := isPhase_unique (by rw [hfac s hs q hq]; exact mul_ne_zero (mul_ne_zero z2 z3) z1) h1 (isPhase_arg (elemC w' s q))
    exact ⟨k, by rw [hk]; ring⟩
  · intro s u hsu m n hmn
    simp only [e1]
    obtain ⟨hm', hn'⟩ := hin m n hmn
    obtain ⟨o1, o2⟩ := hc.ordered s u hsu
    have hs : s < w.length := by omega
    have hu : u < w.length := by omega
    refine noTie_of_phase ?_ (isPhase_ifg (isPhase_ifg (isPhase_arg _) (isPhase_arg _)) (isPhase_ifg (isPhase_arg _) (isPhase_arg _)))
      (hneg s u hsu m n hmn hm' hn')
    exact interferogram_ne (interferogram_ne (hnz s hs m hm').1 (hnz u hu m hm').1) (interferogram_ne (hnz s hs n hn').1 (hnz u hu n hn').1)

/-- C89. Complex conjugate samples, none on the negative real axis, give the result of the opposite sign (with the mirrored flow solver, see
C88). -/
theorem C89_conjugate (solver : FlowSolver) (hs : SolverSound solver) (e : Emcf) (gt : PlanarGraph)
    (hc : PlanarContract gt.npoints gt.links gt.cycles) (hm : ormcf gt = .ok e.time) (hb : 0 < e.settings.linksPerBatch)
    (hlt : ∀ p q, (p, q) ∈ e.space.graph.links → p < q) (w : List (List ℂ)) (hneg : ∀ r ∈ w, ∀ z ∈ r, arg z ≠ Real.pi)
    (o o' : Nat → List Nat → List Nat) (ho : ∀ k l, (o k l).Perm l) (ho' : ∀ k l, (o' k l).Perm l)
    (p p' : List Nat → List Nat) (hp : ∀ l, (p l).Perm l) (hp' : ∀ l, (p' l).Perm l) (ndim : Nat) (td : ℤ) (out : List (List ℝ)) :
    unwrapCubeC (mirrorSolver solver) e ndim td (w.map fun r => r.map (starRingEnd ℂ)) o' p' = .ok (out.map fun r => r.map (- ·)) ↔
      unwrapCubeC solver e ndim td w o p = .ok out := by
  rw [unwrapCubeC_eq, unwrapCubeC_eq]
  have : ((w.map fun r => r.map (starRingEnd ℂ)).map fun r => r.map arg) = (w.map fun r => r.map arg).map fun r => r.map (- ·) := by
    simp only [List.map_map]
    apply List.map_congr_left
    intro r hr
    simp only [Function.comp, List.map_map]
    apply List.map_congr_left
    intro z hz
    simp only [Function.comp]
    rw [arg_conj, if_neg (hneg r hr z hz)]
  rw [this]
  exact C88_cube (2 * Real.pi) solver hs e gt hc hm hb hlt ⟨ndim, td, w.map fun r => r.map arg⟩ o o' ho ho' p p' hp hp' out

/-! ## Complex images, tiles and the workflow -/

theorem epochPhase_angle (j : ComplexJob) (s r c : Nat) : epochPhase (angleJob j) s r c = arg (epochSample j s r c) := by
  unfold epochPhase epochSample angleJob
  simp only
  cases hd : j.dates[s]? with
  | none => simp
  | some d =>
    simp only [Option.bind_some]
    cases hs : j.slc d <;> simp [angleImage]

theorem stackIfg_isPhase (j : ComplexJob) (s u r c : Nat) :
    IsPhase (stackIfg (2 * Real.pi) (angleJob j) s u r c) (interferogram (epochSample j s r c) (epochSample j u r c)) := by
  unfold stackIfg
  rw [epochPhase_angle, epochPhase_angle, ← phaseDiffC_eq]
  exact (C89_phase_diff _ _ 0).1

/-- C89. The file a worker writes for a tile of complex images is the one it writes for their phases; images whose samples differ by positive factors
give the same file. -/
theorem C89_tile (solver : FlowSolver) (j : ComplexJob) (tiles : TileSet) (t : Nat)
    (oT : Nat → List Nat → List Nat) (oS : List Nat → List Nat) :
    unwrapOneTileC solver j tiles t oT oS = unwrapOneTile (2 * Real.pi) solver (angleJob j) tiles t oT oS ∧
    ∀ slc', (∀ d, (slc' d).isSome = (j.slc d).isSome) →
      (∀ d im im', j.slc d = some im → slc' d = some im' → im'.rows = im.rows ∧ im'.cols = im.cols ∧
        ∀ r c, SameDirection (im.val r c) (im'.val r c)) →
      unwrapOneTileC solver { j with slc := slc' } tiles t oT oS = unwrapOneTileC solver j tiles t oT oS := by
  refine ⟨unwrapOneTileC_eq solver j tiles t oT oS, fun slc' h1 h2 => ?_⟩
  rw [unwrapOneTileC_eq, unwrapOneTileC_eq]
  have : angleJob { j with slc := slc' } = angleJob j := by
    unfold angleJob
    simp only [TileJob.mk.injEq, true_and, and_true]
    funext d
    have := h1 d
    cases h : j.slc d with
    | none => cases h' : slc' d <;> simp_all
    | some im =>
      cases h' : slc' d with
      | none => simp_all
      | some im' =>
        obtain ⟨a, b, c⟩ := h2 d im im' h h'
        simp only [Option.map_some, Option.some.injEq]
        unfold angleImage
        rw [a, b]
        congr 1
        funext r q
        exact arg_sameDirection (c r q)
  rw [this]

variable {S : Type}

/-- C89, the workflow on complex images. After a completed run the raster of interferogram (s, u) has a value exactly at the coherent pixels, and
that value is a phase of the complex interferogram of the two images. -/
theorem C89_result (P : Flow ℝ S) (hP : GoodFlow P) (j : ComplexJob) (htau : P.tau = 2 * Real.pi) (hjob : P.job = angleJob j)
    (himg : 0 < j.coh.rows ∧ 0 < j.coh.cols) (d1 : Disk ℝ)
    (h : RunByWrite P.stages Disk.empty .completed d1) (i s u : Nat) (hl : j.time.links[i]? = some (s, u)) :
    ∃ b, d1.unw i = some (some b) ∧ b.rows = j.coh.rows ∧ b.cols = j.coh.cols ∧
      ∀ r q : Nat, r < j.coh.rows → q < j.coh.cols →
        (CoherentPixel j r q → ∃ v, b.val r q = some v ∧ IsPhase v (interferogram (epochSample j s r q) (epochSample j u r q))) ∧
        (¬ CoherentPixel j r q → b.val r q = none) := by
  obtain ⟨b, h1, h2, h3, h4⟩ := C61_result P hP (by rw [htau]; exact two_pi_pos') (by rw [hjob]; exact himg) d1 h i s u (by rw [hjob]; exact hl)
  rw [hjob] at h2 h3
  refine ⟨b, h1, h2, h3, fun r q hr hq => ?_⟩
  obtain ⟨h5, h6⟩ := h4 r q (by rw [hjob]; exact hr) (by rw [hjob]; exact hq)
  have hv : ValidPixel P.job r q ↔ CoherentPixel j r q := by
    rw [hjob]
    unfold ValidPixel CoherentPixel
    simp only [Int.toNat_natCast]
    rfl
  rw [hv] at h5 h6
  refine ⟨fun hc => ?_, h6⟩
  obtain ⟨v, hv1, k, hk⟩ := h5 hc
  refine ⟨v, hv1, ?_⟩
  rw [hk, htau, hjob]
  exact isPhase_cycles (stackIfg_isPhase j s u r q) k

/-- `φ s` are phases of the samples of acquisition `s` at the coherent pixels, where no sample is 0. -/
def Spec.PhasesOf (j : ComplexJob) (φ : Nat → ℤ × ℤ → ℝ) : Prop :=
  ∀ s < j.dates.length, ∀ r c : Nat, r < j.coh.rows → c < j.coh.cols → CoherentPixel j r c →
    epochSample j s r c ≠ 0 ∧ IsPhase (φ s (r, c)) (epochSample j s r c)

/-- Phases of the complex samples are true phases of the stack in the sense of C62, C63 and C71. -/
theorem C89_true_phase (j : ComplexJob) (φ : Nat → ℤ × ℤ → ℝ) (h : PhasesOf j φ) : TruePhase (2 * Real.pi) (angleJob j) φ := by
  intro s hs r c hp hv
  unfold PixelOf at hp
  simp only at hp
  obtain ⟨r', rfl⟩ : ∃ n : Nat, r = n := ⟨r.toNat, by omega⟩
  obtain ⟨c', rfl⟩ : ∃ n : Nat, c = n := ⟨c.toNat, by omega⟩
  simp only [Int.toNat_natCast]
  have hv' : CoherentPixel j r' c' := by
    unfold ValidPixel at hv
    simp only [Int.toNat_natCast] at hv
    exact hv
  have hr : r' < j.coh.rows := by
    have : (r' : ℤ) < (angleJob j).coh.rows := by omega
    exact_mod_cast this
  have hc : c' < j.coh.cols := by
    have : (c' : ℤ) < (angleJob j).coh.cols := by omega
    exact_mod_cast this
  obtain ⟨h0, h1⟩ := h s hs r' c' hr hc hv'
  rw [epochPhase_angle]
  obtain ⟨k, hk⟩ := isPhase_unique h0 (isPhase_arg _) h1
  exact ⟨k, by rw [hk]; ring⟩

/-- C89 with C63: the workflow on complex images recovers the true phases. If `φ` are phases of the samples which, in every interferogram, change by
less than half a cycle along the links of the triangulation of each tile, then the raster of interferogram (s, u) is `φ u - φ s` plus one number of cycles. -/
theorem C89_recovers (P : Flow ℝ S) (hP : GoodFlow P) (j : ComplexJob) (htau : P.tau = 2 * Real.pi) (hjob : P.job = angleJob j)
    (himg : 0 < j.coh.rows ∧ 0 < j.coh.cols)
    (T : TileSet) (hT : makeTiles P.sc P.fl P.useTiles P.tiler P.job.coh.cols P.mask = .ok T)
    (φ : Nat → ℤ × ℤ → ℝ) (hφ : PhasesOf j φ) (hready : ∀ b ∈ T.tiles, TileReady P.job b)
    (hsmooth : ∀ b ∈ T.tiles, SmoothOnTile (2 * Real.pi) P.job b φ)
    (hrange : ∀ s u, (s, u) ∈ j.time.links → ∀ r c : Nat, r < j.coh.rows → c < j.coh.cols → CoherentPixel j r c →
      |φ u (r, c) - φ s (r, c)| ≤ 16383 * (2 * Real.pi))
    (hjoin : TilesJoined P T)
    (hcc : ∀ edges : List (Nat × Nat), (∀ e ∈ edges, e.1 < T.tiles.length ∧ e.2 < T.tiles.length) →
      ComponentLabels T.tiles.length edges (P.cc T.tiles.length edges))
    (hls : P.merger.bulkMethod = "L2" → ∀ olaps off, off.length = olaps.length →
      (∀ row ∈ off, row.length = P.job.time.links.length) →
      LeastSquares (overlapMatrix olaps T.tiles.length) off (P.lstsq (overlapMatrix olaps T.tiles.length) off)
        T.tiles.length P.job.time.links.length)
    (d1 : Disk ℝ) (h : RunByWrite P.stages Disk.empty .completed d1) (i s u : Nat)
    (hl : j.time.links[i]? = some (s, u)) :
    ∃ b, d1.unw i = some (some b) ∧ b.rows = j.coh.rows ∧ b.cols = j.coh.cols ∧
      ∃ c : ℤ, ∀ r q : Nat, r < j.coh.rows → q < j.coh.cols →
        (CoherentPixel j r q → b.val r q = some ((φ u (r, q) - φ s (r, q)) + c * (2 * Real.pi))) ∧
        (¬ CoherentPixel j r q → b.val r q = none) := by
  have hv : ∀ r q : Nat, ValidPixel P.job r q ↔ CoherentPixel j r q := by
    intro r q
    rw [hjob]
    unfold ValidPixel CoherentPixel
    simp only [Int.toNat_natCast]
    rfl
  have hU : Unaliased P T φ := by
    refine ⟨hready, by rw [htau, hjob]; exact C89_true_phase j φ hφ, by rw [htau]; exact hsmooth, ?_⟩
    rintro s' u' hsu ⟨r, c⟩ hp hvp
    rw [hjob] at hsu
    unfold PixelOf at hp
    simp only at hp hvp
    obtain ⟨r', rfl⟩ : ∃ n : Nat, r = n := ⟨r.toNat, by omega⟩
    obtain ⟨c', rfl⟩ : ∃ n : Nat, c = n := ⟨c.toNat, by omega⟩
    rw [htau]
    have e1 : P.job.coh = j.coh := by rw [hjob]; rfl
    rw [e1] at hp
    exact hrange s' u' hsu r' c' (by omega) (by omega) ((hv r' c').mp hvp)
  obtain ⟨b, h1, h2, h3, c, h4⟩ := C63_recovers P hP (by rw [htau]; exact two_pi_pos') (by rw [hjob]; exact himg) T hT φ hU hjoin hcc hls d1 h i s u
    (by rw [hjob]; exact hl)
  refine ⟨b, h1, by rw [h2, hjob]; rfl, by rw [h3, hjob]; rfl, c, fun r q hr hq => ?_⟩
  obtain ⟨h5, h6⟩ := h4 r q (by rw [hjob]; exact hr) (by rw [hjob]; exact hq)
  rw [hv, htau] at h5
  rw [hv] at h6
  exact ⟨h5, h6⟩

end Spurt
