import Verif.Lemmas.Rint

/-!
# Property C07: `phase_diff`

`K` is any ordered field with a floor (`ℝ` with `tau = 2π` is the intended reading).
-/

namespace Spurt

variable {K : Type*} [Field K] [LinearOrder K] [IsStrictOrderedRing K] [FloorRing K]

/-- C07. The result is congruent to the difference and within half a cycle of the model. -/
theorem C07_phase_diff_wraps (tau : K) (ht : 0 < tau) (z0 z1 model : K) :
    (∃ k : ℤ, phaseDiff tau z0 z1 model = z1 - z0 + k * tau) ∧
    |phaseDiff tau z0 z1 model - model| ≤ tau / 2 := by
  refine ⟨⟨- rint ((z1 - z0 - model) / tau), ?_⟩, phaseDiff_abs ht z0 z1 model⟩
  unfold phaseDiff
  push_cast
  ring

/-- C07. Swapping the arguments changes the sign (model 0). -/
theorem C07_phase_diff_antisymmetric (tau z0 z1 : K) :
    phaseDiff tau z1 z0 = - phaseDiff tau z0 z1 := phaseDiff_swap tau z0 z1

/-- C07. Wrapping a wrapped value changes nothing (model 0). -/
theorem C07_phase_diff_idempotent (tau : K) (ht : 0 < tau) (z0 z1 : K) :
    phaseDiff tau 0 (phaseDiff tau z0 z1) = phaseDiff tau z0 z1 := by
  have h := phaseDiff_abs ht z0 z1 0
  rw [phaseDiff_small ht (by simpa using h)]
  ring

/-- C07. Away from exact half-cycle ties, whole cycles added to either argument do not
change the result, whatever the model. -/
theorem C07_phase_diff_cycle_invariant (tau : K) (ht : 0 < tau) (z0 z1 model : K)
    (k0 k1 : ℤ) (hno_tie : ∀ n : ℤ, z1 - z0 - model ≠ (n + 1 / 2) * tau) :
    phaseDiff tau (z0 + k0 * tau) (z1 + k1 * tau) model = phaseDiff tau z0 z1 model := by
  unfold phaseDiff
  simp only
  have e : (z1 + k1 * tau - (z0 + k0 * tau) - model) / tau
      = (z1 - z0 - model) / tau + ((k1 - k0 : ℤ) : K) := by
    push_cast; field_simp; ring
  rw [e, rint_add_int]
  · push_cast; ring
  · intro n hn
    apply hno_tie n
    rw [div_eq_iff ht.ne'] at hn
    exact hn

/-- C07. At an exact tie the invariance really fails: half a cycle maps to `+1/2`, the
same difference plus one cycle to `-1/2` (round half to even). -/
theorem C07_phase_diff_tie_refuted :
    phaseDiff (1 : ℚ) 0 (1 / 2) = 1 / 2 ∧ phaseDiff (1 : ℚ) 0 (1 / 2 + (1 : ℤ) * 1) = - (1 / 2) := by
  have h1 : rint (1 / 2 : ℚ) = 0 := by
    have := rint_tie (K := ℚ) 0; simpa using this
  have h2 : rint (1 / 2 + 1 : ℚ) = 2 := by
    have := rint_tie (K := ℚ) 1
    rw [show ((1 : ℤ) : ℚ) + 1 / 2 = 1 / 2 + 1 by norm_num] at this
    simpa using this
  constructor
  · rw [phaseDiff_eq]; norm_num [h1]
  · rw [phaseDiff_eq]; norm_num at h2 ⊢; rw [h2]; norm_num

/-- The no-tie hypothesis is met by an ordinary value. -/
example : ∀ n : ℤ, ((7 : ℚ) / 10) - 0 - 0 ≠ (n + 1 / 2) * 1 := by
  intro n h
  have : (n : ℚ) * 10 = 2 := by linarith
  have : n * 10 = 2 := by exact_mod_cast this
  omega

end Spurt
