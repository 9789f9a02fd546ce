import Verif.Props.ComplexNumpy
import Verif.Props.ComplexExample
import Verif.Props.FloatRecoveryExample

/-!
# A run that meets the hypotheses of `C89_numpy_recovers`

The complex images of `Props/ComplexExample.lean`, with the `float32` angles of `Props/FloatRecoveryExample.lean`.
-/

namespace Spurt
open Spec Complex

namespace WholeC

theorem sample_eq (s r c : Nat) : stackSample Whole.jobFl job.slc s r c = epochSample job s r c := rfl

theorem pixel_of {r c : Nat} (hr : r < Whole.jobFl.coh.rows) (hc : c < Whole.jobFl.coh.cols) :
    PixelOf (Whole.job.coh.rows, Whole.job.coh.cols) r c :=
  ⟨by simp, by show (r : ℤ) < ((6 : ℕ) : ℤ); exact_mod_cast hr, by simp, by show (c : ℤ) < ((7 : ℕ) : ℤ); exact_mod_cast hc⟩

/-- `2π` times a rational is near `twoPi` times it. -/
theorem cycle_near (x : ℚ) (hx : |x| ≤ 1) : |((twoPi * x : ℚ) : ℝ) - 2 * Real.pi * x| ≤ 1 / 10 ^ 12 := by
  have hx' : |(x : ℝ)| ≤ 1 := by
    have := (Rat.cast_le (K := ℝ)).mpr hx
    simpa using this
  have e : ((twoPi * x : ℚ) : ℝ) - 2 * Real.pi * x = - ((2 * Real.pi - twoPi) * x) := by push_cast; ring
  rw [e, abs_neg, abs_mul]
  calc _ ≤ 1 / 10 ^ 12 * (1 : ℝ) := mul_le_mul twoPi_near hx' (abs_nonneg _) (by norm_num)
    _ = _ := by ring

theorem angle_near (s r c : Nat) (hs : s < 3) (hr : r < 6) (hc : c < 7) (hv : ValidPixel Whole.job r c) :
    |epochPhase Whole.jobFl s r c| ≤ 3142 / 1000 ∧
      ∃ k : ℤ, |((epochPhase Whole.jobFl s r c : ℚ) : ℝ) - (phi s (r, c) + k * (2 * Real.pi))| ≤ 1 / 50000 := by
  have hle := Whole.epoch_le s r c hr hc
  obtain ⟨k, hk⟩ := Whole.job_phase s hs r c (pixel_of hr hc) hv
  simp only [Int.toNat_natCast] at hk
  rw [Whole.epoch_fl]
  have h5 : |twoPi * epochPhase Whole.job s r c| ≤ 31416 / 10000 := by
    rw [abs_mul]
    calc |twoPi| * |epochPhase Whole.job s r c| ≤ |twoPi| * (1 / 2) := mul_le_mul_of_nonneg_left hle (abs_nonneg _)
      _ ≤ 31416 / 10000 := by norm_num [twoPi]
  have h6 := (rounds_single 4).1 _ (h5.trans (by norm_num))
  constructor
  · have a1 := abs_le.mp h6
    have a2 := abs_le.mp h5
    rw [abs_le]
    constructor <;> norm_num at * <;> linarith [a1.1, a1.2, a2.1, a2.2]
  · refine ⟨-k, ?_⟩
    have h7 : |((flSingle (twoPi * epochPhase Whole.job s r c) : ℚ) : ℝ) - ((twoPi * epochPhase Whole.job s r c : ℚ) : ℝ)| ≤ 4 / 2 ^ 24 := by
      have := (Rat.cast_le (K := ℝ)).mpr h6
      push_cast at this ⊢
      exact this
    have h8 := cycle_near _ (hle.trans (by norm_num))
    have e : phi s (r, c) + ((-k : ℤ) : ℝ) * (2 * Real.pi) = 2 * Real.pi * ((epochPhase Whole.job s r c : ℚ) : ℝ) := by
      rw [hk]
      unfold phi
      push_cast
      ring
    rw [e, abs_le]
    have a1 := abs_le.mp h7
    have a2 := abs_le.mp h8
    constructor <;> norm_num at * <;> linarith [a1.1, a1.2, a2.1, a2.2]

theorem computed : ComputedAngles Whole.jobFl job.slc := by
  constructor
  · intro d
    simp only [job, Whole.jobFl, Whole.job]
    split
    · rfl
    · split <;> rfl
  · intro d z a hz ha r c hr hc hv
    have hcoh : CoherentPixel job r c := (coherent_iff r c).mpr (by simpa using (Whole.valid_iff _ _).mp hv)
    -- the date is the second or the third
    obtain ⟨s, hs, e1, e2⟩ : ∃ s < 3, epochSample job s r c = z.val r c ∧ epochPhase Whole.jobFl s r c = a.val r c := by
      by_cases h0 : d = "20200101"
      · subst h0
        simp [job] at hz
      by_cases h1 : d = "20200113"
      · subst h1
        refine ⟨1, by norm_num, ?_, ?_⟩
        · show (job.slc "20200113").elim 1 (fun im => im.val r c) = _
          rw [hz]; rfl
        · show (Whole.jobFl.phase "20200113").elim 0 (fun im => im.val r c) = _
          rw [ha]; rfl
      · have hz' : job.slc "20200125" = some z := by
          rw [← hz]
          simp only [job]
          rw [if_neg h0, if_neg h1, if_neg (by decide), if_neg (by decide)]
        have ha' : Whole.jobFl.phase "20200125" = some a := by
          rw [← ha]
          simp only [Whole.jobFl, Whole.job]
          rw [if_neg h0, if_neg h1, if_neg (by decide), if_neg (by decide)]
        refine ⟨2, by norm_num, ?_, ?_⟩
        · show (job.slc "20200125").elim 1 (fun im => im.val r c) = _
          rw [hz']; rfl
        · show (Whole.jobFl.phase "20200125").elim 0 (fun im => im.val r c) = _
          rw [ha']; rfl
    obtain ⟨h1, k, h2⟩ := angle_near s r c hs hr hc hv
    rw [e2] at h1 h2
    refine ⟨h1, _, ?_, h2⟩
    rw [← e1]
    exact isPhase_cycles (phases s hs r c hr hc hcoh).2 k

theorem unaliased_samples {P : Flow ℚ Nat} (hj : P.job = Whole.jobFl) (h : UnaliasedFl P Whole.T Whole.phiFl) :
    UnaliasedSamples P Whole.T job.slc phi where
  ready := h.ready
  angles := by rw [hj]; exact computed
  phase := by
    rw [hj]
    intro s hs r c hr hc hv
    rw [sample_eq]
    exact phases s hs r c hr hc ((coherent_iff r c).mpr (by simpa using (Whole.valid_iff _ _).mp hv))
  steep := by
    rw [hj]
    intro b hb s u hsu m n _ p q hp hq
    have key := Whole.steep_key b hb s u hsu p (List.mem_of_getElem? hp) q (List.mem_of_getElem? hq)
    have key' := (Rat.cast_le (K := ℝ)).mpr key
    rw [diff_eq, abs_mul, abs_of_pos two_pi_pos']
    rw [Rat.cast_abs] at key'
    have := mul_le_mul_of_nonneg_left key' two_pi_pos'.le
    refine this.trans ?_
    have := Real.pi_gt_three
    push_cast
    linarith
  range := by
    rw [hj]
    intro s u hsu r c hr hc _
    have key := Whole.range_key s u hsu (r, c) (pixel_of hr hc)
    have key' := (Rat.cast_le (K := ℝ)).mpr key
    have e : phi u (r, c) - phi s (r, c) = 2 * Real.pi * ((Whole.phi u (r, c) - Whole.phi s (r, c) : ℚ) : ℝ) := by
      unfold phi
      push_cast
      ring
    rw [e, abs_mul, abs_of_pos two_pi_pos']
    rw [Rat.cast_abs] at key'
    have := mul_le_mul_of_nonneg_left key' two_pi_pos'.le
    refine this.trans ?_
    have := Real.pi_lt_d2
    push_cast
    linarith
  near := fun b hb p hp => by
    obtain ⟨L, h1, h2⟩ := h.near b hb p hp
    exact ⟨L, h1.trans (by norm_num), h2⟩
  cycles := h.cycles

/-- Non-vacuity of `C89_numpy_recovers`: complex images of three acquisitions, four overlapping tiles, one column without coherence; what the first
raster contains. -/
theorem example_complex_numpy : ∃ (P : Flow ℚ Nat) (r : MergeResult ℚ), GoodFlow P ∧ P.job = Whole.jobFl ∧
    UnaliasedSamples P Whole.T job.slc phi ∧
    workflowFl numpyArith (flDouble (1 / 100)) (flDouble (1 / 100000)) P (fun _ _ l => l) (fun _ l => l.reverse) = .ok (Whole.T, r) ∧
    (rastersOf r).map Prod.fst = [0, 1, 2] ∧
    ∀ b, (0, b) ∈ rastersOf r → ∃ c : ℤ, ∀ r q : Nat, r < 6 → q < 6 →
      ∃ v : ℚ, b.val r q = some v ∧ |(v : ℝ) - (2 * Real.pi * (3 / 7 + ((r : ℝ) + q) / 60) + c * (2 * Real.pi))| ≤ 1 / 300 := by
  obtain ⟨P, hP, hj, _, hset, hmin, hT, hls, hU, hJ, hfour, hcc, hmipc, hilu, hgraph⟩ := Whole.float_inputs
  have hS := unaliased_samples hj hU
  obtain ⟨r, h1, h2, h3⟩ := C89_numpy_recovers P hP (by simp [hj, Whole.jobFl, Whole.job]) (by simp [hj, Whole.jobFl, Whole.job])
    (by simp [hj, Whole.jobFl, Whole.job]) hset hmin Whole.T hT (fun _ => hls) job.slc phi hS hJ hfour hcc hmipc hilu hgraph
    (fun _ _ l => l) (fun _ l => l.reverse) (fun _ _ l => List.Perm.refl l) (fun _ l => l.reverse_perm)
  rw [hj] at h2 h3
  refine ⟨P, r, hP, hj, hS, h1, h2, fun b hib => ?_⟩
  obtain ⟨_, _, g3⟩ := h3 0 b hib
  obtain ⟨c, hc⟩ := g3 0 1 rfl
  refine ⟨c, fun r q hr hq => ?_⟩
  obtain ⟨v, v1, v2⟩ := (hc r q hr (by show q < 7; omega)).1 ((Whole.valid_iff _ _).mpr (by simp; omega))
  refine ⟨v, v1, ?_⟩
  have e : phi 1 (r, q) - phi 0 (r, q) = 2 * Real.pi * (3 / 7 + ((r : ℝ) + q) / 60) := by
    simp [phi, Whole.phi]
  rw [← e]
  exact v2

end WholeC
end Spurt
