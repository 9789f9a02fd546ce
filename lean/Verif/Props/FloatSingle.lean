import Verif.Lemmas.Double
import Verif.Model.FloatCube
import Verif.Props.FloatCubeReturns
import Verif.Props.FloatDouble
import Mathlib.Tactic.NormNum

/-!
# Property C69 in single precision

The numbers for IEEE singles and doubles: `Hop3Graph` in time and a grid in space.
-/

namespace Spurt
open Spec

theorem flSingle_neg (x : ℚ) : flSingle (-x) = - flSingle x := by
  unfold flSingle
  simp only [abs_neg, neg_div, rint_neg]
  push_cast; ring

theorem flSingle_zero : flSingle 0 = 0 := by
  unfold flSingle; simp [rint_zero]

theorem flSingle_rel_pos {x : ℚ} (h : 0 ≤ x) : |flSingle x - x| ≤ 1 / 2 ^ 24 * x := by
  rcases eq_or_lt_of_le h with h | h
  · rw [← h, flSingle_zero]; simp
  have h1 := two_log_le h
  unfold flSingle
  rw [abs_of_pos h]
  simp only
  set e := Int.log 2 x
  have hu : (0 : ℚ) < (2 : ℚ) ^ (e - 23) := zpow_pos (by norm_num) _
  have e1 : (2 : ℚ) ^ e = (2 : ℚ) ^ 23 * (2 : ℚ) ^ (e - 23) := by
    rw [show ((2 : ℚ) ^ (23 : ℕ)) = (2 : ℚ) ^ (23 : ℤ) by norm_cast, ← zpow_add₀ (by norm_num)]
    congr 1; ring
  rw [e1] at h1
  set u := (2 : ℚ) ^ (e - 23)
  obtain ⟨b1, b2⟩ := rint_bounds (x / u)
  have hx : x / u * u = x := div_mul_cancel₀ _ hu.ne'
  have h3 : u ≤ x / 2 ^ 23 := by
    rw [le_div_iff₀ (by positivity)]; linarith
  have h4 : u / 2 ≤ 1 / 2 ^ 24 * x := by
    have : 1 / 2 ^ 24 * x = x / 2 ^ 23 / 2 := by ring
    rw [this]; linarith
  rw [abs_le]
  constructor
  · have : (x / u - 1 / 2) * u ≤ (rint (x / u) : ℚ) * u :=
      mul_le_mul_of_nonneg_right (by linarith) hu.le
    rw [sub_mul, hx] at this
    linarith
  · have : (rint (x / u) : ℚ) * u ≤ (x / u + 1 / 2) * u :=
      mul_le_mul_of_nonneg_right (by linarith) hu.le
    rw [add_mul, hx] at this
    linarith

/-- Relative error. -/
theorem flSingle_rel (x : ℚ) : |flSingle x - x| ≤ 1 / 2 ^ 24 * |x| := by
  rcases le_total 0 x with h | h
  · rw [abs_of_nonneg h]; exact flSingle_rel_pos h
  · have := flSingle_rel_pos (x := -x) (by linarith)
    rw [abs_of_nonpos h, ← abs_neg, neg_sub, ← neg_sub_neg, ← flSingle_neg]
    exact this

/-- Singles of size at most `B` are rounded by at most `B / 2 ^ 24`. -/
theorem rounds_single (B : ℚ) : Rounds flSingle B (B / 2 ^ 24) := by
  refine ⟨fun x hx => (flSingle_rel x).trans ?_, flSingle_neg⟩
  have : 1 / 2 ^ 24 * |x| ≤ 1 / 2 ^ 24 * B := mul_le_mul_of_nonneg_left hx (by positivity)
  linarith

/-- To evaluate: the exponent from bounds. -/
theorem flSingle_eval {x : ℚ} (e : ℤ) (h1 : (2 : ℚ) ^ e ≤ x) (h2 : x < (2 : ℚ) ^ (e + 1)) :
    flSingle x = (rint (x / (2 : ℚ) ^ (e - 23)) : ℚ) * (2 : ℚ) ^ (e - 23) := by
  have hx : 0 < x := (zpow_pos (by norm_num) _).trans_le h1
  have : Int.log 2 x = e := by
    apply le_antisymm
    · by_contra hc
      have h3 : (2 : ℚ) ^ (e + 1) ≤ (2 : ℚ) ^ Int.log 2 x := zpow_le_zpow_right₀ (by norm_num) (by omega)
      linarith [two_log_le hx]
    · by_contra hc
      have h3 : (2 : ℚ) ^ (Int.log 2 x + 1) ≤ (2 : ℚ) ^ e := zpow_le_zpow_right₀ (by norm_num) (by omega)
      linarith [lt_two_log x]
  unfold flSingle
  rw [abs_of_pos hx, this]

/-- The single nearest to the double nearest to two pi. -/
theorem flSingle_twoPi : flSingle twoPi = twoPiSingle := by
  rw [flSingle_eval 2 (by norm_num [twoPi]) (by norm_num [twoPi])]
  have : rint (twoPi / (2 : ℚ) ^ ((2 : ℤ) - 23)) = 13176795 := by
    apply rint_eq_of_lt <;> norm_num [twoPi]
  rw [this]; norm_num [twoPiSingle]

theorem flSingle_twoPiSingle : flSingle twoPiSingle = twoPiSingle := by
  rw [flSingle_eval 2 (by norm_num [twoPiSingle]) (by norm_num [twoPiSingle])]
  have : rint (twoPiSingle / (2 : ℚ) ^ ((2 : ℤ) - 23)) = 13176795 := by
    apply rint_eq_of_lt <;> norm_num [twoPiSingle]
  rw [this]; norm_num [twoPiSingle]

section
variable {K : Type} [Field K] [LinearOrder K] [IsStrictOrderedRing K] [FloorRing K]

/-- `phase_diff` of numbers up to 0.55 cycles when the rounding error is relative. -/
theorem phaseDiff_rel {fl : K → K} {t u : K} (hrel : ∀ x, |fl x - x| ≤ u * |x|) (hodd : ∀ x, fl (-x) = - fl x) (hu0 : 0 ≤ u)
    (hu : u ≤ 1 / 100) (ht : 0 < t) (hfix : fl t = t) (x y : K) (hx : |x| ≤ 11 / 20 * t) (hy : |y| ≤ 11 / 20 * t) :
    |cyclesFl fl t x y| ≤ 1 ∧
    |phaseDiffFl fl t x y - (y - x - (cyclesFl fl t x y : K) * t)| ≤ 5 / 3 * u * t ∧
    |phaseDiffFl fl t x y| ≤ t / 2 + 2 * u * t := by
  have hut : 0 ≤ u * t := mul_nonneg hu0 ht.le
  have huut : u * (u * t) ≤ 1 / 100 * (u * t) := mul_le_mul_of_nonneg_right hu hut
  have hut' : u * t ≤ 1 / 100 * t := mul_le_mul_of_nonneg_right hu ht.le
  have bx := abs_bounds hx
  have byy := abs_bounds hy
  have hd0 : |y - x| ≤ 11 / 10 * t := by rw [abs_le]; constructor <;> linarith
  have b1 := abs_bounds ((hrel (y - x)).trans (mul_le_mul_of_nonneg_left hd0 hu0))
  have hd : |fl (y - x)| ≤ 12 / 10 * t := by
    have := abs_bounds hd0
    rw [abs_le]; constructor <;> linarith
  set d := fl (y - x) with hdd
  have hq0 : |d / t| ≤ 12 / 10 := by
    rw [abs_div, abs_of_pos ht, div_le_iff₀ ht]; linarith
  have b2 := abs_bounds ((hrel (d / t)).trans (mul_le_mul_of_nonneg_left hq0 hu0))
  have hn : cyclesFl fl t x y = rint (fl (d / t)) := rfl
  set q := fl (d / t) with hqd
  set n := cyclesFl fl t x y with hnd
  have bq := abs_bounds hq0
  obtain ⟨r1, r2⟩ := rint_bounds q
  rw [← hn] at r1 r2
  have hn1 : |n| ≤ 1 := by
    have hK : |(n : K)| < ((2 : ℤ) : K) := by
      push_cast; rw [abs_lt]; constructor <;> linarith
    have : |n| < 2 := by exact_mod_cast hK
    omega
  have e : d / t * t = d := div_mul_cancel₀ _ ht.ne'
  have hdn : |d - (n : K) * t| ≤ t / 2 + 12 / 10 * (u * t) := by
    have h1 : (d / t - (n : K)) * t ≤ (1 / 2 + u * (12 / 10)) * t := mul_le_mul_of_nonneg_right (by linarith) ht.le
    have h2 : -(1 / 2 + u * (12 / 10)) * t ≤ (d / t - (n : K)) * t := mul_le_mul_of_nonneg_right (by linarith) ht.le
    rw [sub_mul, e] at h1 h2
    rw [abs_le]; constructor <;> linarith
  have hp : fl ((n : K) * t) = (n : K) * t := by
    have hz : fl 0 = 0 := by
      have := hrel 0
      rw [abs_zero, mul_zero, sub_zero] at this
      exact abs_nonpos_iff.mp this
    have h3 := abs_le.mp hn1
    have : n = 0 ∨ n = 1 ∨ n = -1 := by omega
    rcases this with h | h | h <;> rw [h]
    · simpa using hz
    · simpa using hfix
    · have := hodd t
      rw [hfix] at this
      push_cast
      rw [neg_one_mul]; exact this
  have b3 := abs_bounds ((hrel (d - (n : K) * t)).trans (mul_le_mul_of_nonneg_left hdn hu0))
  have b4 := abs_bounds hdn
  have hpd : phaseDiffFl fl t x y = fl (d - (n : K) * t) := by
    unfold phaseDiffFl
    rw [← hnd, hp]
  rw [hpd]
  have e2 : u * (t / 2 + 12 / 10 * (u * t)) = 1 / 2 * (u * t) + 12 / 10 * (u * (u * t)) := by ring
  rw [e2] at b3
  have e3 : u * (11 / 10 * t) = 11 / 10 * (u * t) := by ring
  rw [e3] at b1
  refine ⟨hn1, ?_, ?_⟩
  · have : 5 / 3 * u * t = 5 / 3 * (u * t) := by ring
    rw [this, abs_le]; constructor <;> linarith
  · have : 2 * u * t = 2 * (u * t) := by ring
    rw [this, abs_le]; constructor <;> linarith

/-- C69. The accuracy of wrapping data up to 0.55 cycles when the rounding error is relative. -/
theorem C69_wraps_relative {A : FloatArith K} {u : K} (hrel : ∀ x, |A.fs x - x| ≤ u * |x|) (hodd : ∀ x, A.fs (-x) = - A.fs x)
    (hu0 : 0 ≤ u) (hu : u ≤ 1 / 100) (ht : 0 < A.tauS) (hfix : A.fs A.tauS = A.tauS) :
    WrapsWithin A (11 / 20 * A.tauS) (5 * u * A.tauS) (A.tauS / 2 + 2 * u * A.tauS) 3 := by
  have hut : 0 ≤ u * A.tauS := mul_nonneg hu0 ht.le
  have hut' : u * A.tauS ≤ 1 / 100 * A.tauS := mul_le_mul_of_nonneg_right hu ht.le
  have core := phaseDiff_rel hrel hodd hu0 hu ht hfix
  constructor
  · intro x y hx hy
    obtain ⟨c1, c2, c3⟩ := core x y hx hy
    refine ⟨_, c2.trans (by linarith), ?_, c3⟩
    have : |((cyclesFl A.fs A.tauS x y : ℤ) : K)| ≤ ((1 : ℤ) : K) := by exact_mod_cast c1
    push_cast at this
    linarith
  · intro x x' y y' hx hx' hy hy'
    obtain ⟨c1, c2, c3⟩ := core x x' hx hx'
    obtain ⟨d1, d2, d3⟩ := core y y' hy hy'
    obtain ⟨f1, f2, f3⟩ := core _ _ (c3.trans (by linarith)) (d3.trans (by linarith))
    refine ⟨cyclesFl A.fs A.tauS y y' - cyclesFl A.fs A.tauS x x' +
      cyclesFl A.fs A.tauS (phaseDiffFl A.fs A.tauS x x') (phaseDiffFl A.fs A.tauS y y'), ?_, ?_, f3⟩
    · have b1 := abs_bounds c2
      have b2 := abs_bounds d2
      have b3 := abs_bounds f2
      push_cast
      rw [abs_le]; constructor <;> linarith
    · have g1 := abs_le.mp c1
      have g2 := abs_le.mp d1
      have g3 := abs_le.mp f1
      have : |cyclesFl A.fs A.tauS y y' - cyclesFl A.fs A.tauS x x' +
        cyclesFl A.fs A.tauS (phaseDiffFl A.fs A.tauS x x') (phaseDiffFl A.fs A.tauS y y')| ≤ 3 := by
        rw [abs_le]; constructor <;> omega
      have hK : |((cyclesFl A.fs A.tauS y y' - cyclesFl A.fs A.tauS x x' +
        cyclesFl A.fs A.tauS (phaseDiffFl A.fs A.tauS x x') (phaseDiffFl A.fs A.tauS y y') : ℤ) : K)| ≤ ((3 : ℤ) : K) := by exact_mod_cast this
      simpa using hK

end

/-- `float32` data, `float64` cycles, numpy's constants. -/
def numpyArith : FloatArith ℚ := ⟨flSingle, flDouble, twoPiSingle, twoPi, tolDouble⟩

theorem numpyArith_wraps : WrapsWithin numpyArith (11 / 20 * twoPiSingle) (1 / 500000) (31416 / 10000) 3 := by
  have h := C69_wraps_relative (A := numpyArith) (u := 1 / 2 ^ 24) flSingle_rel flSingle_neg (by norm_num) (by norm_num)
    (by norm_num [numpyArith, twoPiSingle]) flSingle_twoPiSingle
  have h1 : 5 * (1 / 2 ^ 24) * numpyArith.tauS ≤ 1 / 500000 := by norm_num [numpyArith, twoPiSingle]
  have h2 : numpyArith.tauS / 2 + 2 * (1 / 2 ^ 24) * numpyArith.tauS ≤ 31416 / 10000 := by norm_num [numpyArith, twoPiSingle]
  constructor
  · intro x y hx hy
    obtain ⟨n, n1, n2, n3⟩ := h.ifg x y hx hy
    exact ⟨n, n1.trans h1, n2, n3.trans h2⟩
  · intro x x' y y' hx hx' hy hy'
    obtain ⟨n, n1, n2, n3⟩ := h.slc x x' y y' hx hx' hy hy'
    exact ⟨n, n1.trans h1, n2, n3.trans h2⟩

/-- numpy's precision on numbers up to `B1`, `B2` in single and `2 ^ d` in double precision. -/
theorem numpyArith_precision (B1 B2 : ℚ) (h1 : 0 ≤ B1) (h2 : 0 ≤ B2) (d : ℕ) :
    Precision numpyArith B1 (B1 / 2 ^ 24) B2 (B2 / 2 ^ 24) (2 ^ d) (2 ^ d / 2 ^ 53) (175 / 1000000000) where
  single := rounds_single B1
  wide := rounds_single B2
  double := rounds_double d
  nonneg := ⟨by positivity, by positivity, by positivity⟩
  one_le := by constructor <;> norm_num [numpyArith, twoPiSingle, twoPi]
  close := by
    show |twoPi - twoPiSingle| ≤ _
    rw [abs_le]; constructor <;> norm_num [twoPiSingle, twoPi]

/-- What is needed of the two graphs. -/
theorem hop3_grid_facts (n r c : Nat) (hn : 4 ≤ n) (hr : 2 ≤ r) (hc : 2 ≤ c) {gt : PlanarGraph} (hg : hop3Graph n = .ok gt) :
    PlanarContract gt.npoints gt.links gt.cycles ∧ gt.npoints = n ∧ gt.links.length = 3 * n - 6 ∧
    (∀ cyc ∈ gt.cycles, cyc.length = 3) ∧
    PlanarContract (reg2dGraph r c).npoints (reg2dGraph r c).links (reg2dGraph r c).cycles ∧ (reg2dGraph r c).links ≠ [] ∧
    (∀ cyc ∈ (reg2dGraph r c).cycles, cyc.length = 4) := by
  obtain ⟨g, hg', hcon, _⟩ := C04_hop3_planar n hn
  rw [hg] at hg'
  have hge := hg
  rw [hop3Graph_eq n hn] at hge
  simp only [Except.ok.injEq] at hge
  have e := Except.ok.inj hg'
  rw [← e] at hcon
  have hgn : gt.npoints = n := by rw [← hge]
  refine ⟨by rw [hgn]; exact hcon, hgn, by rw [← hge]; exact length_hop3Links n hn, ?_, reg2d_contract r c hr hc, ?_, ?_⟩
  · intro cyc hcy
    rw [← hge] at hcy
    obtain ⟨t, _, rfl⟩ := List.mem_map.mp hcy
    rfl
  · have h : ((0 : Nat) * c + 0, 0 * c + 1) ∈ reg2dLinks r c := by
      rw [mem_reg2dLinks (by omega) (by omega), mem_reg2dLinksC]; omega
    exact List.ne_nil_of_mem h
  · intro cyc hcy
    have h := hcy
    simp only [reg2dGraph, reg2dCycles, List.mem_flatMap, List.mem_map] at h
    obtain ⟨_, _, _, _, rfl⟩ := h
    rfl

/-- C69. `float32` data, Itoh: on every stack of at least 4 acquisitions, and every grid with at most 180 rows plus
columns, if the true phase of every interferogram of `Hop3Graph(n)` changes along every link of the grid by at most half a
cycle less a hundredth of a radian and the data, SLC or interferogram, are off by at most a thousandth of a radian, then
`unwrap_cube` returns and every value is the true one relative to the first point to within twice the error of the data
and a thousandth of a radian. -/
theorem C69_single_itoh (n r c : Nat) (hn : 4 ≤ n) (hr : 2 ≤ r) (hc : 2 ≤ c) (hrc : r + c ≤ 180) (solver : FlowSolver)
    (e : Emcf) (gt : PlanarGraph) (hg : hop3Graph n = .ok gt) (hmt : ormcf gt = .ok e.time)
    (hms : ormcf (reg2dGraph r c) = .ok e.space) (hb : 0 < e.settings.linksPerBatch)
    (hpool : 1 ≤ e.settings.sWorkerCount ∨ 2 ≤ e.cpuCount)
    (tcost scost : List ℤ) (htcost : costOf e.settings.tCostType e.nifgs e.tDist e.tCent = .ok tcost)
    (hscost : costOf e.settings.sCostType e.nlinks e.sDist e.sCent = .ok scost)
    (w : CubeInput ℚ) (hnd : w.ndim = 2) (htd : w.timeDim = 0) (isIfg : Bool)
    (hw : if isIfg then w.data.length = gt.links.length ∧ gt.links.length ≠ n else w.data.length = n)
    (hcols : ∀ row ∈ w.data, row.length = r * c)
    (ha : ∀ row ∈ w.data, ∀ x ∈ row, |x| ≤ 11 / 20 * twoPiSingle)
    (ψ : Nat → Nat → ℚ) (κ : Nat → Nat → ℤ) (e0 : ℚ) (he0 : 0 ≤ e0 ∧ e0 ≤ 1 / 1000)
    (hψ : ∀ i s t : Nat, gt.links[i]? = some (s, t) → ∀ p < r * c,
      |phaseOfIfg gt.links w.data isIfg i p - (ψ t p - ψ s p - (κ i p : ℚ) * twoPi)| ≤ e0)
    (hsmooth : ∀ s t p q, (s, t) ∈ gt.links → (p, q) ∈ (reg2dGraph r c).links →
      |(ψ t q - ψ s q) - (ψ t p - ψ s p)| ≤ twoPi / 2 - 1 / 100)
    (oT : Nat → List Nat → List Nat) (oS : List Nat → List Nat)
    (hoT : ∀ k l, (oT k l).Perm l) (hoS : ∀ l, (oS l).Perm l) :
    ∃ out, unwrapCubeFl numpyArith solver e w oT oS = .ok out ∧ out.length = gt.links.length ∧
      ∀ i s t : Nat, gt.links[i]? = some (s, t) → (out.getD i []).length = r * c ∧
        ∀ p < r * c, |elem out i p - ((ψ t p - ψ s p) - (ψ t 0 - ψ s 0))| ≤ 1 / 1000 + 2 * e0 := by
  obtain ⟨hct, hgn, hgl, hg3, hcs, hne, hs4⟩ := hop3_grid_facts n r c hn hr hc hg
  have P := numpyArith_precision (314165 / 100000) 600 (by norm_num) (by norm_num) 11
  have hwalk : ∀ p < (reg2dGraph r c).npoints, ∃ L ≤ 180, WalkTo (reg2dGraph r c).links L p := by
    intro p hp
    obtain ⟨L, h1, h2⟩ := reg2d_walk r c p hp
    exact ⟨L, by omega, h2⟩
  have hHq : ((180 : ℕ) : ℚ) = 180 := by norm_num
  have htol := tolDouble_bounds
  have R : CubeRoom numpyArith (314165 / 100000) (314165 / 100000 / 2 ^ 24) 600 (2 ^ 11) (2 ^ 11 / 2 ^ 53) (175 / 1000000000)
      (1 / 500000) (31416 / 10000) 3 (314165 / 100000) (273 / 100000000) 0 0 180 := by
    refine ⟨⟨le_refl _, le_refl _⟩, ⟨?_, le_refl _⟩, ?_, ?_, ?_, ?_, ?_⟩
    · norm_num [numpyArith, twoPi]
    · norm_num
    · rw [hHq]; norm_num [numpyArith, twoPi]
    · rw [hHq]; norm_num [numpyArith, twoPi]
    · exact le_trans (by norm_num) htol.1
    · rw [hHq]
      show tolDouble + _ < twoPi
      have : (2 * (180 + 1) * (273 / 100000000 + 3 * (2 ^ 11 / 2 ^ 53)) : ℚ) < 1 := by norm_num
      have h2 : (3 : ℚ) < twoPi := by norm_num [twoPi]
      linarith
  have hrt : ∀ (cycles : List (List Nat)), (∀ cyc ∈ cycles, cyc.length ≤ 4) →
      ResidueRoom numpyArith 600 (600 / 2 ^ 24) (314165 / 100000) (273 / 100000000 + 2 * e0) cycles := by
    intro cycles h cyc hcy
    have h4 : (cyc.length : ℚ) ≤ 4 := by exact_mod_cast h cyc hcy
    have h0 : (0 : ℚ) ≤ (cyc.length : ℚ) := Nat.cast_nonneg _
    constructor
    · have : (cyc.length : ℚ) * (314165 / 100000 + 600 / 2 ^ 24) ≤ 4 * (314165 / 100000 + 600 / 2 ^ 24) :=
        mul_le_mul_of_nonneg_right h4 (by norm_num)
      exact this.trans (by norm_num)
    · have h5 : (cyc.length : ℚ) * (273 / 100000000 + 2 * e0 + 600 / 2 ^ 24) ≤ 4 * (273 / 100000000 + 2 * e0 + 600 / 2 ^ 24) :=
        mul_le_mul_of_nonneg_right h4 (by linarith [he0.1, show (0 : ℚ) ≤ 273 / 100000000 + 600 / 2 ^ 24 by norm_num])
      have h6 : (4 * (273 / 100000000 + 2 * (1 / 1000) + 600 / 2 ^ 24) + numpyArith.tauS * (600 / 2 ^ 24) : ℚ) < numpyArith.tauS / 2 := by
        norm_num [numpyArith, twoPiSingle]
      linarith [he0.2]
  obtain ⟨out, o1, o2, o3⟩ := C69_itoh P solver e gt (reg2dGraph r c) hct hcs hne hmt hms hb hpool tcost scost htcost hscost
    w hnd htd isIfg (by rw [hgn]; exact hw) (by
      intro h
      rw [h] at hw
      cases isIfg with
      | true => simp at hw; omega
      | false => simp at hw; omega) hcols (11 / 20 * twoPiSingle) (1 / 500000) (31416 / 10000) 3 (314165 / 100000) (273 / 100000000) e0
    numpyArith_wraps (by norm_num [twoPiSingle]) ha ψ κ hψ (by
      intro s t p q hst hpq
      have h1 := hsmooth s t p q hst hpq
      have h2 : twoPi / 2 - 1 / 100 + 31416 / 10000 + 273 / 100000000 + 2 * (1 / 1000) < twoPi := by norm_num [twoPi]
      show _ < twoPi
      linarith [he0.2]) oT oS hoT hoS 180 R hwalk (by
      rw [hHq]
      exact le_trans (by norm_num) htol.1) (hrt _ fun cyc hcy => by rw [hg3 cyc hcy]; omega) (hrt _ fun cyc hcy => by rw [hs4 cyc hcy])
  refine ⟨out, o1, o2, fun i s t hi => ?_⟩
  obtain ⟨p1, p2⟩ := o3 i s t hi
  refine ⟨p1, fun p hp => ?_⟩
  obtain ⟨L, hL, hLw⟩ := hwalk p hp
  have h1 := p2 L p hLw hL hp
  have hLq : (L : ℚ) ≤ 180 := by exact_mod_cast hL
  have h2 : (L : ℚ) * (273 / 100000000 + 3 * (2 ^ 11 / 2 ^ 53)) ≤ 180 * (273 / 100000000 + 3 * (2 ^ 11 / 2 ^ 53)) :=
    mul_le_mul_of_nonneg_right hLq (by norm_num)
  have h3 : (180 * (273 / 100000000 + 3 * (2 ^ 11 / 2 ^ 53)) + 600 / 2 ^ 24 : ℚ) ≤ 1 / 1000 := by norm_num
  linarith

/-- C69. `float32` SLC data, whatever their phases: with a sound and complete flow solver that answers here with at most
two cycles per link in time and ten in space, `unwrap_cube` on at least 4 acquisitions and a grid with at most 140 rows plus
columns returns, without a closure error, and every value is the phase of the interferogram relative to the first point plus
whole cycles, to within two thousandths of a radian. -/
theorem C69_single_returns (n r c : Nat) (hn : 4 ≤ n) (hr : 2 ≤ r) (hc : 2 ≤ c) (hrc : r + c ≤ 140) (solver : FlowSolver)
    (hsound : SolverSound solver) (hcomp : SolverComplete solver)
    (e : Emcf) (gt : PlanarGraph) (hg : hop3Graph n = .ok gt) (hmt : ormcf gt = .ok e.time)
    (hms : ormcf (reg2dGraph r c) = .ok e.space) (hb : 0 < e.settings.linksPerBatch)
    (hpool : 1 ≤ e.settings.sWorkerCount ∨ 2 ≤ e.cpuCount)
    (tcost ct scost cs : List ℤ) (htcost : costOf e.settings.tCostType e.nifgs e.tDist e.tCent = .ok tcost)
    (hct1 : CostOn gt.links.length tcost ct) (hct0 : ∀ v ∈ ct, 0 ≤ v)
    (hscost : costOf e.settings.sCostType e.nlinks e.sDist e.sCent = .ok scost)
    (hcs1 : CostOn (reg2dGraph r c).links.length scost cs) (hcs0 : ∀ v ∈ cs, 0 ≤ v)
    (w : CubeInput ℚ) (hnd : w.ndim = 2) (htd : w.timeDim = 0) (hw : w.data.length = n)
    (hcols : ∀ row ∈ w.data, row.length = r * c)
    (ha : ∀ row ∈ w.data, ∀ x ∈ row, |x| ≤ 11 / 20 * twoPiSingle)
    (oT : Nat → List Nat → List Nat) (oS : List Nat → List Nat)
    (hoT : ∀ k l, (oT k l).Perm l) (hoS : ∀ l, (oS l).Perm l)
    (hF : FlowsWithin numpyArith solver e w.data false oT 2 10) :
    ∃ out, unwrapCubeFl numpyArith solver e w oT oS = .ok out ∧ out.length = gt.links.length ∧
      ∀ i s t : Nat, gt.links[i]? = some (s, t) → (out.getD i []).length = r * c ∧
        ∀ p < r * c, ∃ k : ℤ, |elem out i p - ((elem w.data t p - elem w.data s p) - (elem w.data t 0 - elem w.data s 0) +
          (k : ℚ) * twoPi)| ≤ 2 / 1000 := by
  obtain ⟨hct, hgn, hgl, hg3, hcs, hne, hs4⟩ := hop3_grid_facts n r c hn hr hc hg
  have P := numpyArith_precision (1571 / 100) 11000 (by norm_num) (by norm_num) 15
  have hwalk : ∀ p < (reg2dGraph r c).npoints, ∃ L ≤ 140, WalkTo (reg2dGraph r c).links L p := by
    intro p hp
    obtain ⟨L, h1, h2⟩ := reg2d_walk r c p hp
    exact ⟨L, by omega, h2⟩
  have hHq : ((140 : ℕ) : ℚ) = 140 := by norm_num
  have htol := tolDouble_bounds
  have R : CubeRoom numpyArith (1571 / 100) (1571 / 100 / 2 ^ 24) 11000 (2 ^ 15) (2 ^ 15 / 2 ^ 53) (175 / 1000000000)
      (1 / 500000) (31416 / 10000) 3 (1571 / 100) (347 / 100000000) 2 10 140 := by
    refine ⟨⟨by norm_num, by norm_num⟩, ⟨?_, le_refl _⟩, ?_, ?_, ?_, ?_, ?_⟩
    · norm_num [numpyArith, twoPi]
    · norm_num
    · rw [hHq]; norm_num [numpyArith, twoPi]
    · rw [hHq]; norm_num [numpyArith, twoPi]
    · exact le_trans (by norm_num) htol.1
    · rw [hHq]
      show tolDouble + _ < twoPi
      have : (2 * (140 + 1) * (347 / 100000000 + 3 * (2 ^ 15 / 2 ^ 53)) : ℚ) < 1 := by norm_num
      have h2 : (3 : ℚ) < twoPi := by norm_num [twoPi]
      linarith
  have hrt : ∀ (cycles : List (List Nat)), (∀ cyc ∈ cycles, cyc.length ≤ 4) →
      ResidueRoom numpyArith 11000 (11000 / 2 ^ 24) (1571 / 100) (347 / 100000000 + (((2 : ℤ) : ℚ) + 3) * (175 / 1000000000)) cycles := by
    intro cycles h cyc hcy
    have h4 : (cyc.length : ℚ) ≤ 4 := by exact_mod_cast h cyc hcy
    constructor
    · have : (cyc.length : ℚ) * (1571 / 100 + 11000 / 2 ^ 24) ≤ 4 * (1571 / 100 + 11000 / 2 ^ 24) :=
        mul_le_mul_of_nonneg_right h4 (by norm_num)
      exact this.trans (by norm_num)
    · have h5 : (cyc.length : ℚ) * (347 / 100000000 + (((2 : ℤ) : ℚ) + 3) * (175 / 1000000000) + 11000 / 2 ^ 24) ≤
          4 * (347 / 100000000 + (((2 : ℤ) : ℚ) + 3) * (175 / 1000000000) + 11000 / 2 ^ 24) :=
        mul_le_mul_of_nonneg_right h4 (by norm_num)
      refine lt_of_le_of_lt (add_le_add_left h5 _) ?_
      norm_num [numpyArith, twoPiSingle]
  have hrt3 := hrt gt.cycles fun cyc hcy => by rw [hg3 cyc hcy]; omega
  have hrt4 := hrt (reg2dGraph r c).cycles fun cyc hcy => by rw [hs4 cyc hcy]
  obtain ⟨out, hout⟩ := C69_returns P solver e gt (reg2dGraph r c) hct hcs hne (reg2d_generate r c) hmt hms hsound hcomp hb hpool
    tcost ct scost cs htcost hct1 hct0 hscost hcs1 hcs0 w hnd htd (by rw [hw, hgn]) (by
      intro h
      rw [h] at hw
      simp at hw; omega) hcols (11 / 20 * twoPiSingle) (1 / 500000) (31416 / 10000) 3 (1571 / 100) (347 / 100000000)
    numpyArith_wraps (by norm_num [twoPiSingle]) ha oT oS hoT hoS 2 10 140 R hF hwalk (by
      rw [hHq]
      exact le_trans (by norm_num) htol.1) (by norm_num) hrt3 hrt4
  obtain ⟨g1, g2⟩ := C69_guarantee P solver e gt (reg2dGraph r c) hct hcs hmt hms hb hpool w (11 / 20 * twoPiSingle) (1 / 500000)
    (31416 / 10000) 3 (1571 / 100) (347 / 100000000) numpyArith_wraps (by norm_num [twoPiSingle]) ha oT oS hoT hoS 2 10 140 R (by
      intro b hbk
      have : b = false := by
        unfold cubeKind Emcf.nepochs at hbk
        rw [(dual_of_contract hct hmt).1, if_neg (by simpa using hnd), if_neg (by simpa using htd), if_pos (by rw [hw, hgn])] at hbk
        exact (Except.ok.inj hbk).symm
      rw [this]; exact hF) hwalk out hout
  refine ⟨out, hout, g1, fun i s t hi => ?_⟩
  obtain ⟨hi', hie⟩ := List.getElem?_eq_some_iff.mp hi
  obtain ⟨p1, k, _, p2⟩ := g2 i hi'
  refine ⟨p1, fun p hp => ⟨k p, ?_⟩⟩
  obtain ⟨L, hL, hLw⟩ := hwalk p hp
  have h1 := p2 L p hLw hL hp
  have hkind : decide (w.data.length ≠ gt.npoints) = false := by simp [hw, hgn]
  rw [hkind] at h1
  unfold phaseOfIfg at h1
  simp only [Bool.false_eq_true, if_false] at h1
  rw [List.getD_eq_getElem?_getD, hi, Option.getD_some] at h1
  have hLq : (L : ℚ) ≤ 140 := by exact_mod_cast hL
  have h2 : (L : ℚ) * (347 / 100000000 + 3 * (2 ^ 15 / 2 ^ 53)) ≤ 140 * (347 / 100000000 + 3 * (2 ^ 15 / 2 ^ 53)) :=
    mul_le_mul_of_nonneg_right hLq (by norm_num)
  have h3 : (140 * (347 / 100000000 + 3 * (2 ^ 15 / 2 ^ 53)) + 11000 / 2 ^ 24 : ℚ) ≤ 2 / 1000 := by norm_num
  exact h1.trans (by linarith)

end Spurt
