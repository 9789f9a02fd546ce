import Verif.Props.ReferencePixelNumpy
import Verif.Props.ClosureExample
import Verif.Props.FloatRecoveryExample

/-!
# Examples for C91 in numpy's numbers
-/

namespace Spurt
open Spec

namespace Whole

/-- Non-vacuity of `C91_numpy_tiles`: four overlapping tiles, three acquisitions. -/
example : ∃ (P : Flow ℚ Nat) (r : MergeResult ℚ), GoodFlow P ∧ P.job = jobFl ∧
    workflowFl numpyArith (flDouble (1 / 100)) (flDouble (1 / 100000)) P (fun _ _ l => l) (fun _ l => l.reverse) = .ok (T, r) ∧
    ∀ i band, (i, band) ∈ rastersOf r → ∀ s u, jobFl.time.links[i]? = some (s, u) →
      ∃ v, band.val 0 0 = some v ∧ |v - stackIfgFl numpyArith jobFl s u 0 0| ≤ 1 / 200 := by
  obtain ⟨P, hP, hj, _, hset, hmin, hT, hls, hU, hJ, hfour, hcc, hmipc, hilu, hgraph⟩ := float_inputs
  obtain ⟨_, _, hin⟩ := flow_tiles hP hT
  obtain ⟨r, h1, h2⟩ := C91_numpy_tiles P hP (by simp [hj, jobFl, job]) (by simp [hj, jobFl, job])
    (by simp [hj, jobFl, job]) hset hmin T hT (fun _ => hls) phiFl (hU.mono (by norm_num) (by norm_num)) hJ hfour hcc hmipc hilu hgraph
    (fun _ _ l => l) (fun _ l => l.reverse) (fun _ _ l => List.Perm.refl l) (fun _ l => l.reverse_perm)
    ⟨0, 0, 6, 7⟩ (largest P.job (by rw [hj]; rfl) (by rw [hj]; rfl) hin) 0 0
    (first P.job (by rw [hj]; exact (valid_fl 0 0).mpr ((valid_iff 0 0).mpr (by decide))))
  rw [hj] at h2
  exact ⟨P, r, hP, hj, h1, h2⟩

/-- The image as one tile. -/
def T1 : TileSet := ⟨T.shape, [⟨0, 0, 6, 7⟩]⟩

/-- Non-vacuity of `C91_numpy_single`: the same stack unwrapped without tiles. -/
example : ∃ (P : Flow ℚ Nat) (r : MergeResult ℚ), GoodFlow P ∧ P.job = jobFl ∧ P.merger.check = .ok () ∧
    workflowFl numpyArith (flDouble (1 / 100)) (flDouble (1 / 100000)) P (fun _ _ l => l) (fun _ l => l.reverse) = .ok (T1, r) ∧
    ∃ band, (2, band) ∈ rastersOf r ∧ band.val 0 0 = some (stackIfgFl numpyArith jobFl 1 2 0 0) := by
  obtain ⟨P0, hP0, hj0, _, hset0, hmin0, hT0, _, hU0, _, _, _, hmipc, hilu, hgraph0⟩ := float_inputs
  set P : Flow ℚ Nat := { P0 with useTiles := false, cc := fun n _ => List.replicate n 0, merger := { P0.merger with bulkMethod := "integer" } } with hPd
  have hP : GoodFlow P := ⟨hP0.job, hP0.solver, hP0.tiler, hP0.size, fun n es => by simp [hPd], hP0.mip⟩
  have hj : P.job = jobFl := hj0
  have hmem : ∀ b ∈ T1.tiles, b ∈ T.tiles := by
    intro b hb
    simp only [T1, List.mem_singleton] at hb
    subst hb
    simp [T]
  have hset : P.merger.check = .ok () := by
    unfold MergerSettings.check at hset0 ⊢
    split at hset0
    · simp at hset0
    split at hset0
    · simp at hset0
    rename_i h2
    rw [if_neg (by simp [hPd]), if_neg h2]
  have hT : makeTiles P.sc P.fl P.useTiles P.tiler P.job.coh.cols P.mask = .ok T1 := by
    have hm := (mask_shape P).1
    rw [hj] at hm
    have hm0 : P.mask.length = 6 := by rw [hm]; rfl
    have hc : P.job.coh.cols = 7 := by rw [hj]; rfl
    unfold makeTiles
    rw [hm0, hc, show P.useTiles = false from rfl]
    simp [singleTile, Bind.bind, Except.bind, pure, Except.pure, T1, T]
  obtain ⟨r, h1, _, h2, h3⟩ := recovers_core P hP (by simp [hj, jobFl, job]) (by simp [hj, jobFl, job])
    (by simp [hj, jobFl, job]) hset hmin0 T1 hT (fun h => by simp [hPd] at h) phiFl
    ⟨fun b hb => hU0.ready b (hmem b hb), hU0.bounded, hU0.phase, fun b hb => hU0.steep b (hmem b hb), hU0.range,
      fun b hb => hU0.near b (hmem b hb), hU0.cycles⟩
    (by
      intro t ht
      simp only [T1, List.length_singleton, Nat.lt_one_iff] at ht
      subst ht
      exact .refl)
    (by
      intro r q
      refine (Set.ncard_le_ncard (t := {0}) ?_).trans (by simp)
      rintro t ⟨b, hb, _⟩
      have := (List.getElem?_eq_some_iff.mp hb).1
      simp only [T1, List.length_singleton, Nat.lt_one_iff] at this
      simpa using this)
    (by
      intro edges he
      refine ⟨by simp [hPd], fun i j hi hj => ?_, fun l hl k hk => ?_⟩
      · simp only [T1, List.length_singleton, Nat.lt_one_iff] at hi hj
        subst hi; subst hj
        exact ⟨fun _ => .refl, fun _ => rfl⟩
      · simp only [hPd, T1, List.length_singleton, List.replicate_one, List.mem_singleton] at hl ⊢
        omega)
    hmipc hilu (fun b hb => ⟨(hgraph0 b (hmem b hb)).links, (hgraph0 b (hmem b hb)).size, (hgraph0 b (hmem b hb)).conn, (hgraph0 b (hmem b hb)).cg⟩) (fun _ _ l => l) (fun _ l => l.reverse)
    (fun _ _ l => List.Perm.refl l) (fun _ l => l.reverse_perm)
  obtain ⟨band, g1, _, g2⟩ := C91_numpy_single P hP hset (fun _ _ l => l) (fun _ l => l.reverse) (fun _ l => l.reverse_perm) T1 r h1 ⟨0, 0, 6, 7⟩ rfl
    0 0 (first P.job (by rw [hj]; exact (valid_fl 0 0).mpr ((valid_iff 0 0).mpr (by decide)))) 2 1 2 (by rw [hj]; rfl)
  rw [hj] at g2
  exact ⟨P, r, hP, hj, hset, h1, band, g1, g2⟩

end Whole
end Spurt
