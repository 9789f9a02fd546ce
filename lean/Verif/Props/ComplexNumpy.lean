import Mathlib.Analysis.Real.Pi.Bounds
import Verif.Props.Complex
import Verif.Props.FloatLargeRecovery

/-!
# Property C89: from complex images to rasters in numpy's numbers
-/

namespace Spurt
open Spec

section
variable {S : Type}

/-- Sample of acquisition number `s` of the stack at an image pixel; 1 for the reference date, which has no image. -/
def Spec.stackSample (j : TileJob ℚ) (slc : String → Option (Band ℂ)) (s r c : Nat) : ℂ :=
  ((j.dates[s]?).bind slc).elim 1 fun im => im.val r c

/-- The phase images of the job are what `np.angle` makes of the complex images: a number of at most 3.142 radians that is within a
fifty-thousandth of a radian of a phase of the sample (on the negative real axis π or -π), at the pixels of sufficient coherence. -/
structure Spec.ComputedAngles (j : TileJob ℚ) (slc : String → Option (Band ℂ)) : Prop where
  files : ∀ d, (slc d).isSome = (j.phase d).isSome
  near : ∀ d z a, slc d = some z → j.phase d = some a → ∀ r c : Nat, r < j.coh.rows → c < j.coh.cols → ValidPixel j r c →
    |a.val r c| ≤ 3142 / 1000 ∧ ∃ θ : ℝ, IsPhase θ (z.val r c) ∧ |(a.val r c : ℝ) - θ| ≤ 1 / 50000

/-- What is asked of the true phases `φ` of the complex images `slc`: they are phases of the samples; in every interferogram they change by at
most half a cycle less a fiftieth of a radian along the links of the triangulation of every tile and never exceed 999 radians. No point of a
tile is more than 2000 links from its first one. -/
structure Spec.UnaliasedSamples (P : Flow ℚ S) (T : TileSet) (slc : String → Option (Band ℂ)) (φ : Nat → ℤ × ℤ → ℝ) : Prop where
  ready : ∀ b ∈ T.tiles, TileReady P.job b
  angles : ComputedAngles P.job slc
  phase : ∀ s < P.job.dates.length, ∀ r c : Nat, r < P.job.coh.rows → c < P.job.coh.cols → ValidPixel P.job r c →
    stackSample P.job slc s r c ≠ 0 ∧ IsPhase (φ s (r, c)) (stackSample P.job slc s r c)
  steep : ∀ b ∈ T.tiles, ∀ s u, (s, u) ∈ P.job.time.links → ∀ m n, (m, n) ∈ (tileGraph P.job b).links →
    ∀ p q, (tilePixels P.job b)[m]? = some p → (tilePixels P.job b)[n]? = some q →
      |(φ u q - φ s q) - (φ u p - φ s p)| ≤ Real.pi - 1 / 50
  range : ∀ s u, (s, u) ∈ P.job.time.links → ∀ r c : Nat, r < P.job.coh.rows → c < P.job.coh.cols → ValidPixel P.job r c →
    |φ u (r, c) - φ s (r, c)| ≤ 999
  near : ∀ b ∈ T.tiles, ∀ p < (tileGraph P.job b).npoints, ∃ L ≤ 2000, WalkTo (tileGraph P.job b).links L p
  cycles : ∀ cyc ∈ P.job.time.cycles, cyc.length ≤ 4

theorem twoPi_near : |2 * Real.pi - (twoPi : ℝ)| ≤ 1 / 10 ^ 12 := by
  have h1 := Real.pi_gt_d20
  have h2 := Real.pi_lt_d20
  have h3 : (twoPi : ℝ) = 884279719003555 / 2 ^ 47 := by norm_num [twoPi]
  rw [h3, abs_le]
  constructor <;> norm_num at * <;> linarith

theorem sample_angle {j : TileJob ℚ} {slc : String → Option (Band ℂ)} (h : ComputedAngles j slc) (s r c : Nat) (hr : r < j.coh.rows)
    (hc : c < j.coh.cols) (hv : ValidPixel j r c) : |epochPhase j s r c| ≤ 3142 / 1000 ∧
      ∃ θ : ℝ, IsPhase θ (stackSample j slc s r c) ∧ |((epochPhase j s r c : ℚ) : ℝ) - θ| ≤ 1 / 50000 := by
  have hone : |(0 : ℚ)| ≤ 3142 / 1000 ∧ ∃ θ : ℝ, IsPhase θ (1 : ℂ) ∧ |((0 : ℚ) : ℝ) - θ| ≤ 1 / 50000 :=
    ⟨by norm_num, 0, by simp [IsPhase], by norm_num⟩
  unfold epochPhase stackSample
  rcases hd : j.dates[s]? with _ | d
  · simpa using hone
  · simp only [Option.bind_some]
    have hf := h.files d
    rcases hz : slc d with _ | z <;> rcases ha : j.phase d with _ | a <;> rw [hz, ha] at hf <;> simp only [Option.isSome_none, Option.isSome_some, reduceCtorEq] at hf
    · simpa using hone
    · exact h.near d z a hz ha r c hr hc hv

/-- The rational phases that the computed angles give in place of the true ones. -/
theorem rational_phases {P : Flow ℚ S} {T : TileSet} {slc : String → Option (Band ℂ)} {φ : Nat → ℤ × ℤ → ℝ} (hP : GoodFlow P)
    (hin : ∀ b ∈ T.tiles, TileInImage (P.job.coh.rows, P.job.coh.cols) b)
    (h : UnaliasedSamples P T slc φ) : ∃ Φ : Nat → ℤ × ℤ → ℚ, UnaliasedWithin 2000 1000 P T Φ ∧
      ∀ s u, (s, u) ∈ P.job.time.links → ∀ r c : Nat, r < P.job.coh.rows → c < P.job.coh.cols → ValidPixel P.job r c →
        |(φ u (r, c) - φ s (r, c)) - ((Φ u (r, c) - Φ s (r, c) : ℚ) : ℝ)| ≤ 1 / 20000 := by
  have hk : ∀ s (p : ℤ × ℤ), ∃ k : ℤ, s < P.job.dates.length → PixelOf (P.job.coh.rows, P.job.coh.cols) p.1 p.2 → ValidPixel P.job p.1 p.2 →
      |φ s p - (((epochPhase P.job s p.1.toNat p.2.toNat : ℚ) : ℝ) + k * (2 * Real.pi))| ≤ 1 / 50000 := by
    rintro s ⟨r, c⟩
    by_cases hs : s < P.job.dates.length ∧ PixelOf (P.job.coh.rows, P.job.coh.cols) r c ∧ ValidPixel P.job r c
    swap; · exact ⟨0, fun a b d => absurd ⟨a, b, d⟩ hs⟩
    obtain ⟨hs, hp, hv⟩ := hs
    unfold PixelOf at hp
    simp only at hp
    obtain ⟨r', rfl⟩ : ∃ n : Nat, r = n := ⟨r.toNat, by omega⟩
    obtain ⟨c', rfl⟩ : ∃ n : Nat, c = n := ⟨c.toNat, by omega⟩
    obtain ⟨_, θ, h1, h2⟩ := sample_angle h.angles s r' c' (by omega) (by omega) hv
    obtain ⟨g0, g1⟩ := h.phase s hs r' c' (by omega) (by omega) hv
    obtain ⟨k, hk⟩ := isPhase_unique g0 h1 g1
    refine ⟨k, fun _ _ _ => ?_⟩
    simp only [Int.toNat_natCast]
    rw [hk, abs_le]
    have := abs_le.mp h2
    constructor <;> linarith [this.1, this.2]
  choose k hk using hk
  have hlt : ∀ s u, (s, u) ∈ P.job.time.links → s < P.job.dates.length ∧ u < P.job.dates.length := by
    intro s u hsu
    have := hP.job.contract.ordered s u hsu
    rw [hP.job.dates]
    omega
  have ht := twoPi_near
  have hpi : (3 : ℝ) < Real.pi := Real.pi_gt_three
  have hclose : ∀ s u, (s, u) ∈ P.job.time.links → ∀ r c : Nat, r < P.job.coh.rows → c < P.job.coh.cols → ValidPixel P.job r c →
      |(φ u (r, c) - φ s (r, c)) - (((epochPhase P.job u r c + twoPi * k u (r, c)) - (epochPhase P.job s r c + twoPi * k s (r, c)) : ℚ) : ℝ)| ≤
        1 / 20000 := by
    intro s u hsu r c hr hc hv
    obtain ⟨hs, hu⟩ := hlt s u hsu
    have hp : PixelOf (P.job.coh.rows, P.job.coh.cols) r c := by unfold PixelOf; simp only; omega
    have a1 := abs_le.mp (hk s (r, c) hs hp hv)
    have a2 := abs_le.mp (hk u (r, c) hu hp hv)
    simp only [Int.toNat_natCast] at a1 a2
    have a3 := abs_le.mp (h.range s u hsu r c hr hc hv)
    have b1 := (sample_angle h.angles s r c hr hc hv).1
    have b2 := (sample_angle h.angles u r c hr hc hv).1
    have b1' : |((epochPhase P.job s r c : ℚ) : ℝ)| ≤ 3142 / 1000 := by
      have : ((|epochPhase P.job s r c| : ℚ) : ℝ) ≤ ((3142 / 1000 : ℚ) : ℝ) := Rat.cast_le.mpr b1
      push_cast at this
      exact this
    have b2' : |((epochPhase P.job u r c : ℚ) : ℝ)| ≤ 3142 / 1000 := by
      have : ((|epochPhase P.job u r c| : ℚ) : ℝ) ≤ ((3142 / 1000 : ℚ) : ℝ) := Rat.cast_le.mpr b2
      push_cast at this
      exact this
    have c1 := abs_le.mp b1'
    have c2 := abs_le.mp b2'
    set n : ℝ := (k u (r, c) : ℝ) - (k s (r, c) : ℝ) with hn
    have hn2 : |n| ≤ 1000 := by
      rw [abs_le]
      constructor
      · by_contra hlt
        have hlt : n < -1000 := not_le.mp hlt
        nlinarith [a1.1, a1.2, a2.1, a2.2]
      · by_contra hlt
        have hlt : 1000 < n := not_le.mp hlt
        nlinarith [a1.1, a1.2, a2.1, a2.2]
    have hm : |n * (2 * Real.pi - twoPi)| ≤ 1000 * (1 / 10 ^ 12) := by
      rw [abs_mul]
      exact mul_le_mul hn2 ht (abs_nonneg _) (by norm_num)
    have d := abs_le.mp hm
    push_cast
    have e : (φ u (r, c) - φ s (r, c)) - ((((epochPhase P.job u r c : ℚ) : ℝ) + (twoPi : ℝ) * k u (r, c)) - (((epochPhase P.job s r c : ℚ) : ℝ) + (twoPi : ℝ) * k s (r, c))) =
        (φ u (r, c) - (((epochPhase P.job u r c : ℚ) : ℝ) + k u (r, c) * (2 * Real.pi))) -
          (φ s (r, c) - (((epochPhase P.job s r c : ℚ) : ℝ) + k s (r, c) * (2 * Real.pi))) + n * (2 * Real.pi - twoPi) := by
      rw [hn]; ring
    rw [e, abs_le]
    constructor <;> norm_num at * <;> linarith [a1.1, a1.2, a2.1, a2.2, d.1, d.2]
  refine ⟨fun s p => epochPhase P.job s p.1.toNat p.2.toNat + twoPi * k s p, ⟨h.ready, ?_, ?_, ?_, ?_, h.near, h.cycles⟩, ?_⟩
  · intro s r c hp hv
    unfold PixelOf at hp
    simp only at hp
    obtain ⟨r', rfl⟩ : ∃ n : Nat, r = n := ⟨r.toNat, by omega⟩
    obtain ⟨c', rfl⟩ : ∃ n : Nat, c = n := ⟨c.toNat, by omega⟩
    exact (sample_angle h.angles s r' c' (by omega) (by omega) hv).1.trans (by norm_num [twoPiSingle])
  · intro s hs r c hp hv
    refine ⟨k s (r, c), ?_⟩
    simp only
    rw [show epochPhase P.job s r.toNat c.toNat - (epochPhase P.job s r.toNat c.toNat + twoPi * k s (r, c) - k s (r, c) * twoPi) = 0 by ring]
    norm_num
  · intro b hb s u hsu m n hmn p q hp hq
    have hvalid : ∀ x ∈ tilePixels P.job b, ∃ r c : Nat, x = ((r : ℤ), (c : ℤ)) ∧ r < P.job.coh.rows ∧ c < P.job.coh.cols ∧ ValidPixel P.job r c := by
      rintro ⟨r, c⟩ hx
      obtain ⟨h1, h2⟩ := ((tile_read hP.job (hin b hb)).2.2.2.2.1 r c).mp hx
      have h3 := hin b hb
      unfold TileInImage at h3
      unfold InTile at h1
      simp only at h3
      obtain ⟨r', rfl⟩ : ∃ n : Nat, r = n := ⟨r.toNat, by omega⟩
      obtain ⟨c', rfl⟩ : ∃ n : Nat, c = n := ⟨c.toNat, by omega⟩
      exact ⟨r', c', rfl, by omega, by omega, h2⟩
    have hs := h.steep b hb s u hsu m n hmn p q hp hq
    obtain ⟨r1, c1, rfl, p1, p2, p3⟩ := hvalid p (List.mem_of_getElem? hp)
    obtain ⟨r2, c2, rfl, q1, q2, q3⟩ := hvalid q (List.mem_of_getElem? hq)
    have e1 := abs_le.mp (hclose s u hsu r1 c1 p1 p2 p3)
    have e2 := abs_le.mp (hclose s u hsu r2 c2 q1 q2 q3)
    have e3 := abs_le.mp hs
    have e4 := abs_le.mp ht
    simp only [Int.toNat_natCast]
    have goal : |((((epochPhase P.job u r2 c2 + twoPi * k u (r2, c2)) - (epochPhase P.job s r2 c2 + twoPi * k s (r2, c2))) -
        ((epochPhase P.job u r1 c1 + twoPi * k u (r1, c1)) - (epochPhase P.job s r1 c1 + twoPi * k s (r1, c1))) : ℚ) : ℝ)| ≤
          ((twoPi / 2 - 1 / 100 : ℚ) : ℝ) := by
      push_cast at e1 e2 ⊢
      rw [abs_le]
      constructor <;> norm_num at * <;> linarith [e1.1, e1.2, e2.1, e2.2, e3.1, e3.2, e4.1, e4.2]
    exact_mod_cast goal
  · rintro s u hsu ⟨r, c⟩ hp hv
    unfold PixelOf at hp
    simp only at hp hv
    obtain ⟨r', rfl⟩ : ∃ n : Nat, r = n := ⟨r.toNat, by omega⟩
    obtain ⟨c', rfl⟩ : ∃ n : Nat, c = n := ⟨c.toNat, by omega⟩
    have e1 := abs_le.mp (hclose s u hsu r' c' (by omega) (by omega) hv)
    have e2 := abs_le.mp (h.range s u hsu r' c' (by omega) (by omega) hv)
    simp only [Int.toNat_natCast]
    have goal : |((((epochPhase P.job u r' c' + twoPi * k u (r', c')) - (epochPhase P.job s r' c' + twoPi * k s (r', c')) : ℚ)) : ℝ)| ≤ ((1000 : ℚ) : ℝ) := by
      push_cast at e1 ⊢
      rw [abs_le]
      constructor <;> linarith [e1.1, e1.2, e2.1, e2.2]
    exact_mod_cast goal
  · intro s u hsu r c hr hc hv
    simpa using hclose s u hsu r c hr hc hv

/-- C89 with C73: from complex images to rasters in numpy's numbers. The stack is made of complex images, `np.angle` is accurate to a
fifty-thousandth of a radian, and everything after it is computed in `float32` and `float64`. If the true phases `φ`, real numbers, are unaliased on
every tile, the overlaps join the tiles, no pixel is in more than four tiles and the libraries answer, then the run completes, whatever the flow
solver answers and however the workers are scheduled. It writes one raster per interferogram, of the size of the image; every pixel of sufficient
coherence has the true interferogram `φ u - φ s` plus one common multiple of `2π` to within 1/300 of a radian, every other pixel no value. -/
theorem C89_numpy_recovers (P : Flow ℚ S) (hP : GoodFlow P) (himg : 0 < P.job.coh.rows ∧ 0 < P.job.coh.cols)
    (hifgs : P.job.time.links ≠ []) (hpool : 1 ≤ P.job.settings.numParallelTiles)
    (hset : P.merger.check = .ok ()) (hmin : 11 ≤ P.merger.minOverlapPoints)
    (T : TileSet) (hT : makeTiles P.sc P.fl P.useTiles P.tiler P.job.coh.cols P.mask = .ok T)
    (hls : P.merger.bulkMethod = "L2" → ConsistentLstsq P.lstsq T.tiles.length P.job.time.links.length (1 / 200000) (2 ^ 29))
    (slc : String → Option (Band ℂ)) (φ : Nat → ℤ × ℤ → ℝ) (hU : UnaliasedSamples P T slc φ) (hjoin : TilesJoined P T)
    (hfour : ∀ r q : ℤ, {t : Nat | ∃ b, T.tiles[t]? = some b ∧ InTile b r q}.ncard ≤ 4)
    (hcc : ∀ edges : List (Nat × Nat), (∀ e ∈ edges, e.1 < T.tiles.length ∧ e.2 < T.tiles.length) →
      ComponentLabels T.tiles.length edges (P.cc T.tiles.length edges))
    (hmipc : MipComplete P.mip) (hilu : ∀ a, P.lin.ilu a = true) (hgraph : ∀ b ∈ T.tiles, MergeGraphFl P b)
    (oT : Nat → Nat → List Nat → List Nat) (oS : Nat → List Nat → List Nat)
    (hoT : ∀ t k l, (oT t k l).Perm l) (hoS : ∀ t l, (oS t l).Perm l) :
    ∃ r, workflowFl numpyArith (flDouble (1 / 100)) (flDouble (1 / 100000)) P oT oS = .ok (T, r) ∧
      (rastersOf r).map Prod.fst = List.range P.job.time.links.length ∧
      ∀ i b, (i, b) ∈ rastersOf r → b.rows = P.job.coh.rows ∧ b.cols = P.job.coh.cols ∧
        ∀ s u, P.job.time.links[i]? = some (s, u) → ∃ c : ℤ, ∀ r q : Nat, r < P.job.coh.rows → q < P.job.coh.cols →
          (ValidPixel P.job r q → ∃ v : ℚ, b.val r q = some v ∧
            |(v : ℝ) - ((φ u (r, q) - φ s (r, q)) + c * (2 * Real.pi))| ≤ 1 / 300) ∧
          (¬ ValidPixel P.job r q → b.val r q = none) := by
  obtain ⟨_, _, hin⟩ := flow_tiles hP hT
  obtain ⟨Φ, hΦ, hclose⟩ := rational_phases hP hin hU
  obtain ⟨r, h1, h2, h3⟩ := large_core P hP himg hifgs hpool hset hmin T hT hls Φ hΦ hjoin hfour hcc hmipc hilu hgraph oT oS hoT hoS
  refine ⟨r, h1, h2, fun i b hib => ?_⟩
  obtain ⟨g1, g2, g3⟩ := h3 i b hib
  refine ⟨g1, g2, fun s u hl => ?_⟩
  obtain ⟨c, hc, g4⟩ := g3 s u hl
  refine ⟨c, fun r q hr hq => ⟨fun hv => ?_, (g4 r q hr hq).2⟩⟩
  obtain ⟨v, v1, v2⟩ := (g4 r q hr hq).1 hv
  refine ⟨v, v1, ?_⟩
  have a1 : |(v : ℝ) - (((Φ u (r, q) - Φ s (r, q) : ℚ) : ℝ) + c * (twoPi : ℝ))| ≤ 3 / 1000 := by
    have : ((|v - ((Φ u (r, q) - Φ s (r, q)) + c * twoPi)| : ℚ) : ℝ) ≤ ((3 / 1000 : ℚ) : ℝ) := by exact_mod_cast v2
    push_cast at this ⊢
    exact this
  have a2 := abs_le.mp (hclose s u (List.mem_of_getElem? hl) r q hr hq hv)
  have a3 : |(c : ℝ) * (2 * Real.pi - twoPi)| ≤ 159 * (1 / 10 ^ 12) := by
    rw [abs_mul]
    refine mul_le_mul ?_ twoPi_near (abs_nonneg _) (by norm_num)
    rw [← Int.cast_abs]
    exact_mod_cast hc
  have a4 := abs_le.mp a1
  have a5 := abs_le.mp a3
  rw [abs_le]
  constructor <;> norm_num at * <;> linarith [a2.1, a2.2, a4.1, a4.2, a5.1, a5.2]

end
end Spurt
