import Verif.Lemmas.FloatGrid
import Verif.Lemmas.Solver
import Verif.Props.FloatLarge
import Mathlib.Tactic.NormNum
import Mathlib.Tactic.Linarith

/-!
# Property C73 for `float32` data

`Hop3Graph` in time and a grid in space with up to 2000 rows plus columns for unaliased stacks, and up to 550 for any stack.
-/

namespace Spurt
open Spec

/-- C73. A stored `float32` number plus no cycles, added in `float64` and stored again, is that number. -/
theorem C73_adds_nothing : AddsNothing numpyArith := by
  intro x
  show flSingle (flDouble (flSingle x + flDouble (twoPi * ((0 : ℤ) : ℚ)))) = flSingle x
  rw [Int.cast_zero, mul_zero, flDouble_zero, add_zero, flDouble_single, flSingle_idem]

/-- The subtraction of one cycle is exact. -/
theorem single_cycle_exact {d : ℚ} {z : ℚ} (hd : d = flSingle z) (h1 : 5 / 2 ≤ z) (h2 : |d - twoPiSingle| ≤ 4) :
    flSingle (d - twoPiSingle) = d - twoPiSingle := by
  obtain ⟨n, hn, _⟩ := flSingle_form z
  rw [← hd] at hn
  have hz : 0 < z := by linarith
  rw [abs_of_pos hz] at hn
  set l := Int.log 2 z with hl
  have hl1 : 1 ≤ l := by
    by_contra hc
    have h3 : (2 : ℚ) ^ (l + 1) ≤ (2 : ℚ) ^ (1 : ℤ) := zpow_le_zpow_right₀ (by norm_num) (by omega)
    have h4 := lt_two_log z
    rw [← hl] at h4
    norm_num at h3
    linarith
  -- a multiple of 2 ^ -22
  have hdn : d = ((n * 2 ^ (l - 1).toNat : ℤ) : ℚ) * (2 : ℚ) ^ (-22 : ℤ) := by
    rw [hn]
    push_cast
    rw [mul_assoc]
    congr 1
    rw [← zpow_natCast, ← zpow_add₀ (by norm_num)]
    congr 1; omega
  have htn : twoPiSingle = ((26353590 : ℤ) : ℚ) * (2 : ℚ) ^ (-22 : ℤ) := by norm_num [twoPiSingle]
  set m := n * 2 ^ (l - 1).toNat with hm
  have hdiff : d - twoPiSingle = ((m - 26353590 : ℤ) : ℚ) * (2 : ℚ) ^ (-22 : ℤ) := by
    rw [hdn, htn]; push_cast; ring
  refine flSingle_grid _ _ hdiff ?_
  have h5 : |((m - 26353590 : ℤ) : ℚ)| ≤ ((2 ^ 24 : ℤ) : ℚ) := by
    rw [hdiff, abs_mul, abs_of_pos (by norm_num : (0 : ℚ) < (2 : ℚ) ^ (-22 : ℤ))] at h2
    rw [show ((2 : ℚ) ^ (-22 : ℤ)) = 1 / 4194304 by norm_num] at h2
    have h6 : ((2 ^ 24 : ℤ) : ℚ) = 16777216 := by norm_num
    rw [h6]
    linarith
  exact_mod_cast h5

/-- C73. `phase_diff` of two `float32` numbers up to 0.55 cycles makes one rounding, of the difference: taking off the
cycle is exact. -/
theorem C73_wraps_once : WrapsOnce numpyArith (11 / 20 * twoPiSingle) (1 / 2 ^ 22) (31416 / 10000) := by
  intro x y hx hy
  obtain ⟨c1, c2, c3⟩ := phaseDiff_rel (fl := flSingle) (t := twoPiSingle) (u := 1 / 2 ^ 24) flSingle_rel flSingle_neg (by norm_num)
    (by norm_num) (by norm_num [twoPiSingle]) flSingle_twoPiSingle x y hx hy
  have hV : |phaseDiffFl flSingle twoPiSingle x y| ≤ 31416 / 10000 :=
    c3.trans (by norm_num [twoPiSingle])
  refine ⟨cyclesFl flSingle twoPiSingle x y, ?_, c1, hV⟩
  show |phaseDiffFl flSingle twoPiSingle x y - (y - x - (cyclesFl flSingle twoPiSingle x y : ℚ) * twoPiSingle)| ≤ 1 / 2 ^ 22
  have bx := abs_bounds hx
  have byy := abs_bounds hy
  have ht : (11 / 20 * twoPiSingle : ℚ) ≤ 7 / 2 := by norm_num [twoPiSingle]
  have hz : |y - x| ≤ 2 ^ 3 := by rw [abs_le]; constructor <;> linarith
  have b1 := (rounds_single_pow 3).close _ hz
  rw [show (2 ^ 3 / 2 ^ 25 : ℚ) = 1 / 2 ^ 22 by norm_num] at b1
  have fix : ∀ n : ℤ, n = 0 ∨ n = 1 ∨ n = -1 → flSingle ((n : ℚ) * twoPiSingle) = (n : ℚ) * twoPiSingle := by
    rintro n (rfl | rfl | rfl)
    · simp [flSingle_zero]
    · simp [flSingle_twoPiSingle]
    · rw [show (((-1 : ℤ) : ℚ) * twoPiSingle) = - twoPiSingle by push_cast; ring, flSingle_neg, flSingle_twoPiSingle]
  have hc := abs_le.mp c1
  have hcase : cyclesFl flSingle twoPiSingle x y = 0 ∨ cyclesFl flSingle twoPiSingle x y = 1 ∨ cyclesFl flSingle twoPiSingle x y = -1 := by
    omega
  have hbase := abs_bounds b1
  have key : phaseDiffFl flSingle twoPiSingle x y = flSingle (y - x) - (cyclesFl flSingle twoPiSingle x y : ℚ) * twoPiSingle := by
    have hpd : phaseDiffFl flSingle twoPiSingle x y = flSingle (flSingle (y - x) - (cyclesFl flSingle twoPiSingle x y : ℚ) * twoPiSingle) := by
      unfold phaseDiffFl
      rw [fix _ hcase]
    rw [hpd]
    have c2' := abs_bounds c2
    have c3' := abs_bounds hV
    have ht3 : (6 : ℚ) < twoPiSingle ∧ twoPiSingle < 63 / 10 := by constructor <;> norm_num [twoPiSingle]
    have hu : (5 / 3 * (1 / 2 ^ 24) * twoPiSingle : ℚ) ≤ 1 / 10 := by norm_num [twoPiSingle]
    have hs : (1 / 2 ^ 22 : ℚ) ≤ 1 / 100 := by norm_num
    rcases hcase with h | h | h
    · rw [h]; simp only [Int.cast_zero, zero_mul, sub_zero]
      exact flSingle_idem _
    · rw [h] at c2' ⊢
      rw [Int.cast_one, one_mul] at c2' ⊢
      refine single_cycle_exact rfl (by linarith) ?_
      rw [abs_le]; constructor <;> linarith
    · rw [h] at c2' ⊢
      rw [show (((-1 : ℤ) : ℚ) * twoPiSingle) = - twoPiSingle by push_cast; ring] at c2' ⊢
      have := single_cycle_exact (d := flSingle (-(y - x))) (z := -(y - x)) rfl (by linarith) (by
        rw [flSingle_neg, abs_le]; constructor <;> linarith)
      rw [flSingle_neg] at this
      rw [show flSingle (y - x) - - twoPiSingle = - (- flSingle (y - x) - twoPiSingle) by ring, flSingle_neg, this]
  rw [key, abs_le]
  constructor <;> linarith

/-- numpy's precision on numbers up to powers of two. -/
theorem numpyArith_precision_pow (p q d : ℕ) :
    Precision numpyArith (2 ^ p) (2 ^ p / 2 ^ 25) (2 ^ q) (2 ^ q / 2 ^ 25) (2 ^ d) (2 ^ d / 2 ^ 53) (175 / 1000000000) where
  single := rounds_single_pow p
  wide := rounds_single_pow q
  double := rounds_double d
  nonneg := ⟨by positivity, by positivity, by positivity⟩
  one_le := (numpyArith_precision 1 1 (by norm_num) (by norm_num) 1).one_le
  close := (numpyArith_precision 1 1 (by norm_num) (by norm_num) 1).close

theorem single_itoh_room : CubeRoom numpyArith (2 ^ 2) (2 ^ 2 / 2 ^ 25) (2 ^ 13) (2 ^ 14) (2 ^ 14 / 2 ^ 53) (175 / 1000000000)
    (3 * (1 / 2 ^ 22)) (31416 / 10000) 3 (314165 / 100000) (144 / 100000000) 0 0 2000 := by
  have hHq : ((2000 : ℕ) : ℚ) = 2000 := by norm_num
  have htol := tolDouble_bounds
  refine ⟨⟨le_refl _, le_refl _⟩, ⟨?_, by norm_num⟩, ?_, ?_, ?_, ?_, ?_⟩
  · norm_num [numpyArith, twoPi]
  · norm_num
  · rw [hHq]; norm_num [numpyArith, twoPi]
  · rw [hHq]; norm_num [numpyArith, twoPi]
  · exact le_trans (by norm_num) htol.1
  · rw [hHq]
    show tolDouble + _ < twoPi
    have : (2 * (2000 + 1) * (144 / 100000000 + 3 * (2 ^ 14 / 2 ^ 53)) : ℚ) < 1 := by norm_num
    have h2 : (3 : ℚ) < twoPi := by norm_num [twoPi]
    linarith

theorem single_itoh_residues {e0 : ℚ} (he0 : 0 ≤ e0 ∧ e0 ≤ 1 / 1000) (cycles : List (List Nat)) (h : ∀ cyc ∈ cycles, cyc.length ≤ 4) :
    ResidueRoom numpyArith (2 ^ 13) (2 ^ 13 / 2 ^ 25) (314165 / 100000) (144 / 100000000 + 2 * e0) cycles := by
  intro cyc hcy
  have h4 : (cyc.length : ℚ) ≤ 4 := by exact_mod_cast h cyc hcy
  constructor
  · have : (cyc.length : ℚ) * (314165 / 100000 + 2 ^ 13 / 2 ^ 25) ≤ 4 * (314165 / 100000 + 2 ^ 13 / 2 ^ 25) :=
      mul_le_mul_of_nonneg_right h4 (by norm_num)
    exact this.trans (by norm_num)
  · have h5 : (cyc.length : ℚ) * (144 / 100000000 + 2 * e0 + 2 ^ 13 / 2 ^ 25) ≤ 4 * (144 / 100000000 + 2 * e0 + 2 ^ 13 / 2 ^ 25) :=
      mul_le_mul_of_nonneg_right h4 (by linarith [he0.1, show (0 : ℚ) ≤ 144 / 100000000 + 2 ^ 13 / 2 ^ 25 by norm_num])
    have h6 : (4 * (144 / 100000000 + 2 * (1 / 1000) + 2 ^ 13 / 2 ^ 25) + numpyArith.tauS * (2 ^ 13 / 2 ^ 25) : ℚ) < numpyArith.tauS / 2 := by
      norm_num [numpyArith, twoPiSingle]
    linarith [he0.2]

/-- C73. `float32` data, Itoh: `C69_single_itoh` with up to 2000 rows plus columns, and a result within 1.1 thousandths of a radian
plus twice the error of the data. -/
theorem C73_single_itoh (n r c : Nat) (hn : 4 ≤ n) (hr : 2 ≤ r) (hc : 2 ≤ c) (hrc : r + c ≤ 2000) (solver : FlowSolver)
    (e : Emcf) (gt : PlanarGraph) (hg : hop3Graph n = .ok gt) (hmt : ormcf gt = .ok e.time)
    (hms : ormcf (reg2dGraph r c) = .ok e.space) (hb : 0 < e.settings.linksPerBatch)
    (hpool : 1 ≤ e.settings.sWorkerCount ∨ 2 ≤ e.cpuCount)
    (tcost scost : List ℤ) (htcost : costOf e.settings.tCostType e.nifgs e.tDist e.tCent = .ok tcost)
    (hscost : costOf e.settings.sCostType e.nlinks e.sDist e.sCent = .ok scost)
    (w : CubeInput ℚ) (hnd : w.ndim = 2) (htd : w.timeDim = 0) (isIfg : Bool)
    (hw : if isIfg then w.data.length = gt.links.length ∧ gt.links.length ≠ n else w.data.length = n)
    (hcols : ∀ row ∈ w.data, row.length = r * c)
    (ha : ∀ row ∈ w.data, ∀ x ∈ row, |x| ≤ 11 / 20 * twoPiSingle)
    (ψ : Nat → Nat → ℚ) (κ : Nat → Nat → ℤ) (e0 : ℚ) (he0 : 0 ≤ e0 ∧ e0 ≤ 1 / 1000)
    (hψ : ∀ i s t : Nat, gt.links[i]? = some (s, t) → ∀ p < r * c,
      |phaseOfIfg gt.links w.data isIfg i p - (ψ t p - ψ s p - (κ i p : ℚ) * twoPi)| ≤ e0)
    (hsmooth : ∀ s t p q, (s, t) ∈ gt.links → (p, q) ∈ (reg2dGraph r c).links →
      |(ψ t q - ψ s q) - (ψ t p - ψ s p)| ≤ twoPi / 2 - 1 / 100)
    (oT : Nat → List Nat → List Nat) (oS : List Nat → List Nat)
    (hoT : ∀ k l, (oT k l).Perm l) (hoS : ∀ l, (oS l).Perm l) :
    ∃ out, unwrapCubeFl numpyArith solver e w oT oS = .ok out ∧ out.length = gt.links.length ∧
      ∀ i s t : Nat, gt.links[i]? = some (s, t) → (out.getD i []).length = r * c ∧
        ∀ p < r * c, |elem out i p - ((ψ t p - ψ s p) - (ψ t 0 - ψ s 0))| ≤ 11 / 10000 + 2 * e0 := by
  obtain ⟨hct, hgn, hgl, hg3, hcs, hne, hs4⟩ := hop3_grid_facts n r c hn hr hc hg
  have P := numpyArith_precision_pow 2 13 14
  have hwalk : ∀ p < (reg2dGraph r c).npoints, ∃ L ≤ 2000, WalkTo (reg2dGraph r c).links L p := by
    intro p hp
    obtain ⟨L, h1, h2⟩ := reg2d_walk r c p hp
    exact ⟨L, by omega, h2⟩
  have hHq : ((2000 : ℕ) : ℚ) = 2000 := by norm_num
  have htol := tolDouble_bounds
  have R := single_itoh_room
  have hrt := single_itoh_residues he0
  obtain ⟨out, o1, o2, o3⟩ := C73_itoh P C73_adds_nothing solver e gt (reg2dGraph r c) hct hcs hne hmt hms hb hpool tcost scost htcost hscost
    w hnd htd isIfg (by rw [hgn]; exact hw) (by
      intro h
      rw [h] at hw
      cases isIfg with
      | true => simp at hw; omega
      | false => simp at hw; omega) hcols (11 / 20 * twoPiSingle) (1 / 2 ^ 22) (31416 / 10000) (314165 / 100000) (144 / 100000000) e0
    C73_wraps_once (by norm_num [twoPiSingle]) (by norm_num) (by norm_num [twoPiSingle]) ha ψ κ hψ (by
      intro s t p q hst hpq
      have h1 := hsmooth s t p q hst hpq
      have h2 : twoPi / 2 - 1 / 100 + 31416 / 10000 + 144 / 100000000 + 2 * (1 / 1000) < twoPi := by norm_num [twoPi]
      show _ < twoPi
      linarith [he0.2]) oT oS hoT hoS 2000 R hwalk (by
      rw [hHq]
      exact le_trans (by norm_num) htol.1) (hrt _ fun cyc hcy => by rw [hg3 cyc hcy]; omega) (hrt _ fun cyc hcy => by rw [hs4 cyc hcy])
  refine ⟨out, o1, o2, fun i s t hi => ?_⟩
  obtain ⟨p1, p2⟩ := o3 i s t hi
  refine ⟨p1, fun p hp => ?_⟩
  obtain ⟨L, hL, hLw⟩ := hwalk p hp
  have h1 := p2 L p hLw hL hp
  have hLq : (L : ℚ) ≤ 2000 := by exact_mod_cast hL
  have h2 : (L : ℚ) * (1 / 2 ^ 22 + 175 / 1000000000 + 3 * (2 ^ 14 / 2 ^ 53)) ≤
      2000 * (1 / 2 ^ 22 + 175 / 1000000000 + 3 * (2 ^ 14 / 2 ^ 53)) := mul_le_mul_of_nonneg_right hLq (by norm_num)
  have h3 : (2000 * (1 / 2 ^ 22 + 175 / 1000000000 + 3 * (2 ^ 14 / 2 ^ 53)) + 2 ^ 13 / 2 ^ 25 + 2 * (1 / 2 ^ 22 + 175 / 1000000000) : ℚ) ≤
      11 / 10000 := by norm_num
  linarith

/-- C73. On data that satisfy Itoh's hypothesis the flows are zero in `float32` arithmetic too, on a grid of any size. -/
theorem C73_single_no_flows (n r c : Nat) (hn : 4 ≤ n) (hr : 2 ≤ r) (hc : 2 ≤ c) (solver : FlowSolver)
    (e : Emcf) (gt : PlanarGraph) (hg : hop3Graph n = .ok gt) (hmt : ormcf gt = .ok e.time)
    (hms : ormcf (reg2dGraph r c) = .ok e.space) (hb : 0 < e.settings.linksPerBatch)
    (tcost scost : List ℤ) (htcost : costOf e.settings.tCostType e.nifgs e.tDist e.tCent = .ok tcost)
    (hscost : costOf e.settings.sCostType e.nlinks e.sDist e.sCent = .ok scost)
    (w : CubeInput ℚ) (isIfg : Bool)
    (hw : if isIfg then w.data.length = gt.links.length ∧ gt.links.length ≠ n else w.data.length = n)
    (hcols : ∀ row ∈ w.data, row.length = r * c)
    (ha : ∀ row ∈ w.data, ∀ x ∈ row, |x| ≤ 11 / 20 * twoPiSingle)
    (ψ : Nat → Nat → ℚ) (κ : Nat → Nat → ℤ) (e0 : ℚ) (he0 : 0 ≤ e0 ∧ e0 ≤ 1 / 1000)
    (hψ : ∀ i s t : Nat, gt.links[i]? = some (s, t) → ∀ p < r * c,
      |phaseOfIfg gt.links w.data isIfg i p - (ψ t p - ψ s p - (κ i p : ℚ) * twoPi)| ≤ e0)
    (hsmooth : ∀ s t p q, (s, t) ∈ gt.links → (p, q) ∈ (reg2dGraph r c).links →
      |(ψ t q - ψ s q) - (ψ t p - ψ s p)| ≤ twoPi / 2 - 1 / 100)
    (oT : Nat → List Nat → List Nat) (hoT : ∀ k l, (oT k l).Perm l) : FlowsWithin numpyArith solver e w.data isIfg oT 0 0 := by
  obtain ⟨hct, hgn, hgl, hg3, hcs, hne, hs4⟩ := hop3_grid_facts n r c hn hr hc hg
  have hrt := single_itoh_residues he0
  exact C73_no_flows (numpyArith_precision_pow 2 13 14) solver e gt (reg2dGraph r c) hct hcs hmt hms hb tcost scost htcost hscost
    w isIfg (by rw [hgn]; exact hw) (by
      intro h
      rw [h] at hw
      cases isIfg with
      | true => simp at hw; omega
      | false => simp at hw; omega) hcols (11 / 20 * twoPiSingle) (3 * (1 / 2 ^ 22)) (31416 / 10000) 3 (314165 / 100000) (144 / 100000000) e0
    (wraps_of_once C73_wraps_once (by norm_num [twoPiSingle]) (by norm_num)) (by norm_num [twoPiSingle]) ha ψ κ hψ (by
      intro s t p q hst hpq
      have h1 := hsmooth s t p q hst hpq
      have h2 : twoPi / 2 - 1 / 100 + 31416 / 10000 + 144 / 100000000 + 2 * (1 / 1000) < twoPi := by norm_num [twoPi]
      show _ < twoPi
      linarith [he0.2]) oT hoT 2000 single_itoh_room (hrt _ fun cyc hcy => by rw [hg3 cyc hcy]; omega) (hrt _ fun cyc hcy => by rw [hs4 cyc hcy])

/-- C73. `float32` SLC data, whatever their phases: `C69_single_returns` with up to 550 rows plus columns, and a result within
2.5 thousandths of a radian of the phase plus whole cycles. -/
theorem C73_single_returns (n r c : Nat) (hn : 4 ≤ n) (hr : 2 ≤ r) (hc : 2 ≤ c) (hrc : r + c ≤ 550) (solver : FlowSolver)
    (hsound : SolverSound solver) (hcomp : SolverComplete solver)
    (e : Emcf) (gt : PlanarGraph) (hg : hop3Graph n = .ok gt) (hmt : ormcf gt = .ok e.time)
    (hms : ormcf (reg2dGraph r c) = .ok e.space) (hb : 0 < e.settings.linksPerBatch)
    (hpool : 1 ≤ e.settings.sWorkerCount ∨ 2 ≤ e.cpuCount)
    (tcost ct scost cs : List ℤ) (htcost : costOf e.settings.tCostType e.nifgs e.tDist e.tCent = .ok tcost)
    (hct1 : CostOn gt.links.length tcost ct) (hct0 : ∀ v ∈ ct, 0 ≤ v)
    (hscost : costOf e.settings.sCostType e.nlinks e.sDist e.sCent = .ok scost)
    (hcs1 : CostOn (reg2dGraph r c).links.length scost cs) (hcs0 : ∀ v ∈ cs, 0 ≤ v)
    (w : CubeInput ℚ) (hnd : w.ndim = 2) (htd : w.timeDim = 0) (hw : w.data.length = n)
    (hcols : ∀ row ∈ w.data, row.length = r * c)
    (ha : ∀ row ∈ w.data, ∀ x ∈ row, |x| ≤ 11 / 20 * twoPiSingle)
    (oT : Nat → List Nat → List Nat) (oS : List Nat → List Nat)
    (hoT : ∀ k l, (oT k l).Perm l) (hoS : ∀ l, (oS l).Perm l)
    (hF : FlowsWithin numpyArith solver e w.data false oT 2 10) :
    ∃ out, unwrapCubeFl numpyArith solver e w oT oS = .ok out ∧ out.length = gt.links.length ∧
      ∀ i s t : Nat, gt.links[i]? = some (s, t) → (out.getD i []).length = r * c ∧
        ∀ p < r * c, ∃ k : ℤ, |elem out i p - ((elem w.data t p - elem w.data s p) - (elem w.data t 0 - elem w.data s 0) +
          (k : ℚ) * twoPi)| ≤ 25 / 10000 := by
  obtain ⟨hct, hgn, hgl, hg3, hcs, hne, hs4⟩ := hop3_grid_facts n r c hn hr hc hg
  have P := numpyArith_precision_pow 4 16 17
  have hwalk : ∀ p < (reg2dGraph r c).npoints, ∃ L ≤ 550, WalkTo (reg2dGraph r c).links L p := by
    intro p hp
    obtain ⟨L, h1, h2⟩ := reg2d_walk r c p hp
    exact ⟨L, by omega, h2⟩
  have hHq : ((550 : ℕ) : ℚ) = 550 := by norm_num
  have htol := tolDouble_bounds
  have R : CubeRoom numpyArith (2 ^ 4) (2 ^ 4 / 2 ^ 25) (2 ^ 16) (2 ^ 17) (2 ^ 17 / 2 ^ 53) (175 / 1000000000)
      (3 * (1 / 2 ^ 22)) (31416 / 10000) 3 (1571 / 100) (2 / 1000000) 2 10 550 := by
    refine ⟨⟨by norm_num, by norm_num⟩, ⟨?_, by norm_num⟩, ?_, ?_, ?_, ?_, ?_⟩
    · norm_num [numpyArith, twoPi]
    · norm_num
    · rw [hHq]; norm_num [numpyArith, twoPi]
    · rw [hHq]; norm_num [numpyArith, twoPi]
    · exact le_trans (by norm_num) htol.1
    · rw [hHq]
      show tolDouble + _ < twoPi
      have : (2 * (550 + 1) * (2 / 1000000 + 3 * (2 ^ 17 / 2 ^ 53)) : ℚ) < 1 := by norm_num
      have h2 : (3 : ℚ) < twoPi := by norm_num [twoPi]
      linarith
  have hrt : ∀ (cycles : List (List Nat)), (∀ cyc ∈ cycles, cyc.length ≤ 4) →
      ResidueRoom numpyArith (2 ^ 16) (2 ^ 16 / 2 ^ 25) (1571 / 100) (2 / 1000000 + (((2 : ℤ) : ℚ) + 3) * (175 / 1000000000)) cycles := by
    intro cycles h cyc hcy
    have h4 : (cyc.length : ℚ) ≤ 4 := by exact_mod_cast h cyc hcy
    constructor
    · have : (cyc.length : ℚ) * (1571 / 100 + 2 ^ 16 / 2 ^ 25) ≤ 4 * (1571 / 100 + 2 ^ 16 / 2 ^ 25) :=
        mul_le_mul_of_nonneg_right h4 (by norm_num)
      exact this.trans (by norm_num)
    · have h5 : (cyc.length : ℚ) * (2 / 1000000 + (((2 : ℤ) : ℚ) + 3) * (175 / 1000000000) + 2 ^ 16 / 2 ^ 25) ≤
          4 * (2 / 1000000 + (((2 : ℤ) : ℚ) + 3) * (175 / 1000000000) + 2 ^ 16 / 2 ^ 25) :=
        mul_le_mul_of_nonneg_right h4 (by norm_num)
      refine lt_of_le_of_lt (add_le_add_left h5 _) ?_
      norm_num [numpyArith, twoPiSingle]
  obtain ⟨out, o1, o2, o3⟩ := C73_returns P solver e gt (reg2dGraph r c) hct hcs hne (reg2d_generate r c) hmt hms hsound hcomp hb hpool
    tcost ct scost cs htcost hct1 hct0 hscost hcs1 hcs0 w hnd htd (by rw [hw, hgn]) (by
      intro h
      rw [h] at hw
      simp at hw; omega) hcols (11 / 20 * twoPiSingle) (1 / 2 ^ 22) (31416 / 10000) (1571 / 100) (2 / 1000000)
    C73_wraps_once (by norm_num [twoPiSingle]) (by norm_num) (by norm_num [twoPiSingle]) ha oT oS hoT hoS 2 10 550 R hF hwalk (by
      rw [hHq]
      exact le_trans (by norm_num) htol.1) (by norm_num) (hrt _ fun cyc hcy => by rw [hg3 cyc hcy]; omega)
      (hrt _ fun cyc hcy => by rw [hs4 cyc hcy])
  refine ⟨out, o1, o2, fun i s t hi => ?_⟩
  obtain ⟨p1, p2⟩ := o3 i s t hi
  refine ⟨p1, fun p hp => ?_⟩
  obtain ⟨L, hL, hLw⟩ := hwalk p hp
  obtain ⟨k, h1⟩ := p2 L p hLw hL hp
  refine ⟨k, ?_⟩
  have hLq : (L : ℚ) ≤ 550 := by exact_mod_cast hL
  have h2 : (L : ℚ) * (1 / 2 ^ 22 + 2 ^ 4 / 2 ^ 25 + 175 / 1000000000 + 5 * (2 ^ 17 / 2 ^ 53)) ≤
      550 * (1 / 2 ^ 22 + 2 ^ 4 / 2 ^ 25 + 175 / 1000000000 + 5 * (2 ^ 17 / 2 ^ 53)) := mul_le_mul_of_nonneg_right hLq (by norm_num)
  have h3 : (550 * (1 / 2 ^ 22 + 2 ^ 4 / 2 ^ 25 + 175 / 1000000000 + 5 * (2 ^ 17 / 2 ^ 53)) + 2 ^ 16 / 2 ^ 25 +
      2 * (1 / 2 ^ 22 + 175 / 1000000000) : ℚ) ≤ 25 / 10000 := by norm_num
  refine h1.trans ?_
  linarith

end Spurt
