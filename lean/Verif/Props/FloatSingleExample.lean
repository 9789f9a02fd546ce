import Verif.Lemmas.Solver
import Verif.Props.FloatSingle
import Mathlib.Tactic.NormNum
import Mathlib.Tactic.Linarith

/-!
# Property C69 on small stacks, and runs it is about
-/

namespace Spurt
open Spec

/-- C69. `float32` SLC data, whatever their phases, with nothing assumed about the flows: 4 to 10 acquisitions, a grid with
at most 12 rows plus columns, constant costs, a least-cost flow solver. `unwrap_cube` returns, and every value is the phase of the
interferogram relative to the first point plus whole cycles, to within a fortieth of a radian. -/
theorem C69_single_any (n r c : Nat) (hn : 4 ≤ n) (hn2 : n ≤ 10) (hr : 2 ≤ r) (hc : 2 ≤ c) (hrc : r + c ≤ 12) (solver : FlowSolver)
    (hopt : SolverOptimal solver) (hcomp : SolverComplete solver)
    (e : Emcf) (gt : PlanarGraph) (hg : hop3Graph n = .ok gt) (hmt : ormcf gt = .ok e.time)
    (hms : ormcf (reg2dGraph r c) = .ok e.space) (hb : 0 < e.settings.linksPerBatch)
    (hpool : 1 ≤ e.settings.sWorkerCount ∨ 2 ≤ e.cpuCount)
    (hs1 : e.settings.tCostType = "constant") (hs2 : e.settings.sCostType = "constant")
    (w : CubeInput ℚ) (hnd : w.ndim = 2) (htd : w.timeDim = 0) (hw : w.data.length = n)
    (hcols : ∀ row ∈ w.data, row.length = r * c)
    (ha : ∀ row ∈ w.data, ∀ x ∈ row, |x| ≤ 11 / 20 * twoPiSingle)
    (oT : Nat → List Nat → List Nat) (oS : List Nat → List Nat)
    (hoT : ∀ k l, (oT k l).Perm l) (hoS : ∀ l, (oS l).Perm l) :
    ∃ out, unwrapCubeFl numpyArith solver e w oT oS = .ok out ∧ out.length = gt.links.length ∧
      ∀ i s t : Nat, gt.links[i]? = some (s, t) → (out.getD i []).length = r * c ∧
        ∀ p < r * c, ∃ k : ℤ, |elem out i p - ((elem w.data t p - elem w.data s p) - (elem w.data t 0 - elem w.data s 0) +
          (k : ℚ) * twoPi)| ≤ 1 / 40 := by
  obtain ⟨hct, hgn, hgl, hg3, hcs, hne, hs4⟩ := hop3_grid_facts n r c hn hr hc hg
  obtain ⟨hmgt, _⟩ := dual_of_contract hct hmt
  obtain ⟨hmgs, _⟩ := dual_of_contract hcs hms
  have P := numpyArith_precision 456 413000 (by norm_num) (by norm_num) 20
  have hwalk : ∀ p < (reg2dGraph r c).npoints, ∃ L ≤ 12, WalkTo (reg2dGraph r c).links L p := by
    intro p hp
    obtain ⟨L, h1, h2⟩ := reg2d_walk r c p hp
    exact ⟨L, by omega, h2⟩
  have hHq : ((12 : ℕ) : ℚ) = 12 := by norm_num
  have htol := tolDouble_bounds
  have R : CubeRoom numpyArith 456 (456 / 2 ^ 24) 413000 (2 ^ 20) (2 ^ 20 / 2 ^ 53) (175 / 1000000000)
      (1 / 500000) (31416 / 10000) 3 456 (3 / 100000) 72 5400 12 := by
    refine ⟨⟨by norm_num, by norm_num⟩, ⟨?_, le_refl _⟩, ?_, ?_, ?_, ?_, ?_⟩
    · norm_num [numpyArith, twoPi]
    · norm_num
    · rw [hHq]; norm_num [numpyArith, twoPi]
    · rw [hHq]; norm_num [numpyArith, twoPi]
    · exact le_trans (by norm_num) htol.1
    · rw [hHq]
      show tolDouble + _ < twoPi
      have : (2 * (12 + 1) * (3 / 100000 + 3 * (2 ^ 20 / 2 ^ 53)) : ℚ) < 1 := by norm_num
      have h2 : (3 : ℚ) < twoPi := by norm_num [twoPi]
      linarith
  have hrt : ∀ (cycles : List (List Nat)), (∀ cyc ∈ cycles, cyc.length ≤ 4) →
      ResidueRoom numpyArith 413000 (413000 / 2 ^ 24) 456 (3 / 100000 + (((72 : ℤ) : ℚ) + 3) * (175 / 1000000000)) cycles := by
    intro cycles h cyc hcy
    have h4 : (cyc.length : ℚ) ≤ 4 := by exact_mod_cast h cyc hcy
    constructor
    · have : (cyc.length : ℚ) * (456 + 413000 / 2 ^ 24) ≤ 4 * (456 + 413000 / 2 ^ 24) :=
        mul_le_mul_of_nonneg_right h4 (by norm_num)
      exact this.trans (by norm_num)
    · have h5 : (cyc.length : ℚ) * (3 / 100000 + (((72 : ℤ) : ℚ) + 3) * (175 / 1000000000) + 413000 / 2 ^ 24) ≤
          4 * (3 / 100000 + (((72 : ℤ) : ℚ) + 3) * (175 / 1000000000) + 413000 / 2 ^ 24) :=
        mul_le_mul_of_nonneg_right h4 (by norm_num)
      refine lt_of_le_of_lt (add_le_add_left h5 _) ?_
      norm_num [numpyArith, twoPiSingle]
  have hrt3 := hrt gt.cycles fun cyc hcy => by rw [hg3 cyc hcy]; omega
  have hrt4 := hrt (reg2dGraph r c).cycles fun cyc hcy => by rw [hs4 cyc hcy]
  have htc : costOf e.settings.tCostType e.nifgs e.tDist e.tCent = .ok (List.replicate gt.links.length 1) := by
    unfold costOf Emcf.nifgs; rw [if_pos hs1, hmgt]
  have hsc : costOf e.settings.sCostType e.nlinks e.sDist e.sCent = .ok (List.replicate (reg2dGraph r c).links.length 1) := by
    unfold costOf Emcf.nlinks; rw [if_pos hs2, hmgs]
  have hlen : (reg2dGraph r c).links.length ≤ 72 := by
    show (reg2dLinks r c).length ≤ 72
    rw [length_reg2dLinks]
    have h1 : r * (c - 1) ≤ r * c := Nat.mul_le_mul_left _ (by omega)
    have h2 : (r - 1) * c ≤ r * c := Nat.mul_le_mul_right _ (by omega)
    have h3 : r * c ≤ 36 := by
      have : r ≤ 10 := by omega
      interval_cases r <;> omega
    omega
  have hlenZ : (((reg2dGraph r c).links.length : ℕ) : ℤ) ≤ 72 := by exact_mod_cast hlen
  have hglZ : ((gt.links.length : ℕ) : ℤ) ≤ 24 := by rw [hgl]; omega
  have hF : FlowsWithin numpyArith solver e w.data false oT 72 5400 :=
    C69_flows_within P solver e gt (reg2dGraph r c) hct hcs hmt hms hopt hb 1 1
      (by
        intro tcost h
        rw [htc] at h
        rw [← Except.ok.inj h]
        refine ⟨by simp, fun v hv => ?_⟩
        rw [(List.mem_replicate.mp hv).2]; omega)
      (by
        intro scost h
        rw [hsc] at h
        rw [← Except.ok.inj h]
        refine ⟨by simp, fun v hv => ?_⟩
        rw [(List.mem_replicate.mp hv).2]; omega)
      _ htc w.data (11 / 20 * twoPiSingle) (1 / 500000) (31416 / 10000) 456 (3 / 100000) 3
      (by simpa using numpyArith_wraps) (by norm_num [twoPiSingle]) ha oT hoT 72 5400 12 (by omega) (by omega) (by omega)
      (by simpa using R) (by simpa using hrt3) (by simpa using hrt4)
  obtain ⟨out, hout⟩ := C69_returns P solver e gt (reg2dGraph r c) hct hcs hne (reg2d_generate r c) hmt hms hopt.1 hcomp hb hpool
    _ (List.replicate gt.links.length 1) _ (List.replicate (reg2dGraph r c).links.length 1) htc ⟨by simp, .inl rfl⟩ (by simp)
    hsc ⟨by simp, .inl rfl⟩ (by simp) w hnd htd (by rw [hw, hgn]) (by
      intro h
      rw [h] at hw
      simp at hw; omega) hcols (11 / 20 * twoPiSingle) (1 / 500000) (31416 / 10000) 3 456 (3 / 100000)
    numpyArith_wraps (by norm_num [twoPiSingle]) ha oT oS hoT hoS 72 5400 12 R hF hwalk (by
      rw [hHq]
      exact le_trans (by norm_num) htol.1) (by norm_num) hrt3 hrt4
  obtain ⟨g1, g2⟩ := C69_guarantee P solver e gt (reg2dGraph r c) hct hcs hmt hms hb hpool w (11 / 20 * twoPiSingle) (1 / 500000)
    (31416 / 10000) 3 456 (3 / 100000) numpyArith_wraps (by norm_num [twoPiSingle]) ha oT oS hoT hoS 72 5400 12 R (by
      intro b hbk
      have : b = false := by
        unfold cubeKind Emcf.nepochs at hbk
        rw [hmgt, if_neg (by simpa using hnd), if_neg (by simpa using htd), if_pos (by rw [hw, hgn])] at hbk
        exact (Except.ok.inj hbk).symm
      rw [this]; exact hF) hwalk out hout
  refine ⟨out, hout, g1, fun i s t hi => ?_⟩
  obtain ⟨hi', hie⟩ := List.getElem?_eq_some_iff.mp hi
  obtain ⟨p1, k, _, p2⟩ := g2 i hi'
  refine ⟨p1, fun p hp => ⟨k p, ?_⟩⟩
  obtain ⟨L, hL, hLw⟩ := hwalk p hp
  have h1 := p2 L p hLw hL hp
  have hkind : decide (w.data.length ≠ gt.npoints) = false := by simp [hw, hgn]
  rw [hkind] at h1
  unfold phaseOfIfg at h1
  simp only [Bool.false_eq_true, if_false] at h1
  rw [List.getD_eq_getElem?_getD, hi, Option.getD_some] at h1
  have hLq : (L : ℚ) ≤ 12 := by exact_mod_cast hL
  have h2 : (L : ℚ) * (3 / 100000 + 3 * (2 ^ 20 / 2 ^ 53)) ≤ 12 * (3 / 100000 + 3 * (2 ^ 20 / 2 ^ 53)) :=
    mul_le_mul_of_nonneg_right hLq (by norm_num)
  have h3 : (12 * (3 / 100000 + 3 * (2 ^ 20 / 2 ^ 53)) + 413000 / 2 ^ 24 : ℚ) ≤ 1 / 40 := by norm_num
  exact h1.trans (by linarith)

/-- Five acquisitions of a 2 × 2 image whose phases wrap. -/
def wrapping5 : List (List ℚ) := [[0, 1, 3, -2], [0, 0, 0, 0], [5/2, -5/2, 0, 3], [-3, 3, 3/2, 3/2], [0, 2, -2, 0]]

/-- A run C69_returns, C69_guarantee, C69_flows_within, C69_single_any are about. -/
example : ∃ (solver : FlowSolver) (e : Emcf) (gt : PlanarGraph) (out : List (List ℚ)),
    SolverOptimal solver ∧ SolverComplete solver ∧ hop3Graph 5 = .ok gt ∧ ormcf gt = .ok e.time ∧
    unwrapCubeFl numpyArith solver e ⟨2, 0, wrapping5⟩ (fun _ => List.reverse) List.reverse = .ok out ∧ out.length = 9 := by
  obtain ⟨s, hs, hcomp⟩ := exists_solver
  obtain ⟨g, hg, hct, _⟩ := C04_hop3_planar 5 (by omega)
  obtain ⟨hct', _, hgl, _, hcs, _⟩ := hop3_grid_facts 5 2 2 (by omega) (by omega) (by omega) hg
  obtain ⟨time, htime⟩ := C06_contract_accepted g hct'
  obtain ⟨space, hspace⟩ := C06_contract_accepted (reg2dGraph 2 2) hcs
  obtain ⟨out, h1, h2, _⟩ := C69_single_any 5 2 2 (by omega) (by omega) (by omega) (by omega) (by omega) s hs hcomp
    ⟨space, time, { linksPerBatch := 3 }, 4, .ok [], .ok [], .ok [], .ok []⟩ g hg htime hspace
    (by show (0 : ℤ) < 3; decide) (.inl (by show (1 : ℤ) ≤ ({} : SolverSettings).sWorkerCount; decide)) rfl rfl
    ⟨2, 0, wrapping5⟩ rfl rfl rfl (by decide) (by
      intro row hrow x hx
      simp only [wrapping5, List.mem_cons, List.not_mem_nil, or_false] at hrow
      rcases hrow with rfl | rfl | rfl | rfl | rfl <;>
        simp only [List.mem_cons, List.not_mem_nil, or_false] at hx <;>
        rcases hx with rfl | rfl | rfl | rfl <;> rw [abs_le] <;> constructor <;> norm_num [twoPiSingle])
    (fun _ => List.reverse) List.reverse (fun _ l => List.reverse_perm l) (fun l => List.reverse_perm l)
  exact ⟨s, _, g, out, hs, hcomp, hg, htime, h1, by rw [h2, hgl]⟩

/-- A ramp of one radian per pixel and acquisition on a 2 × 3 image: the phase `t * col` goes over half a cycle and the
data are wrapped and rounded to a thousandth. -/
def rampPhase (t p : Nat) : ℚ := (t : ℚ) * (p % 3 : Nat)

/-- The wrapped data of the ramp. -/
def rampData : List (List ℚ) := [[0, 0, 0, 0, 0, 0], [0, 1, 2, 0, 1, 2], [0, 2, -2283/1000, 0, 2, -2283/1000],
  [0, 3, -283/1000, 0, 3, -283/1000]]

/-- The whole cycles of acquisition `t` at point `p`. -/
def rampCycles (t p : Nat) : ℤ := if 2 ≤ t ∧ p % 3 = 2 then 1 else 0

/-- A run C69_itoh and C69_single_itoh are about: whatever the flow solver, the ramp is recovered. -/
example (solver : FlowSolver) : ∃ (e : Emcf) (gt : PlanarGraph) (out : List (List ℚ)),
    hop3Graph 4 = .ok gt ∧ ormcf gt = .ok e.time ∧
    unwrapCubeFl numpyArith solver e ⟨2, 0, rampData⟩ (fun _ => List.reverse) List.reverse = .ok out ∧
    ∀ i s t : Nat, gt.links[i]? = some (s, t) → ∀ p < 6,
      |elem out i p - ((t : ℚ) - s) * (p % 3 : Nat)| ≤ 3 / 1000 := by
  obtain ⟨g, hg, hct, _⟩ := C04_hop3_planar 4 (by omega)
  obtain ⟨hct', hgn, hgl, _, hcs, _⟩ := hop3_grid_facts 4 2 3 (by omega) (by omega) (by omega) hg
  obtain ⟨time, htime⟩ := C06_contract_accepted g hct'
  obtain ⟨space, hspace⟩ := C06_contract_accepted (reg2dGraph 2 3) hcs
  have hlt : ∀ s t, (s, t) ∈ g.links → s < t ∧ t < 4 := by
    intro s t h
    have := hct'.ordered s t h
    rw [hgn] at this; exact this
  have hdata : ∀ t < 4, ∀ p < 6, |elem rampData t p - (rampPhase t p - (rampCycles t p : ℚ) * twoPi)| ≤ 1 / 2000 := by
    intro t ht p hp
    interval_cases t <;> interval_cases p <;> rw [abs_le] <;> constructor <;>
      norm_num [rampData, rampPhase, rampCycles, elem, twoPi]
  obtain ⟨out, h1, _, h3⟩ := C69_single_itoh 4 2 3 (by omega) (by omega) (by omega) (by omega) solver
    ⟨space, time, { linksPerBatch := 3 }, 4, .ok [], .ok [], .ok [], .ok []⟩ g hg htime hspace
    (by show (0 : ℤ) < 3; decide) (.inl (by show (1 : ℤ) ≤ ({} : SolverSettings).sWorkerCount; decide)) _ _ rfl rfl
    ⟨2, 0, rampData⟩ rfl rfl false rfl (by decide) (by
      intro row hrow x hx
      simp only [rampData, List.mem_cons, List.not_mem_nil, or_false] at hrow
      rcases hrow with rfl | rfl | rfl | rfl <;>
        simp only [List.mem_cons, List.not_mem_nil, or_false] at hx <;>
        rcases hx with rfl | rfl | rfl | rfl | rfl | rfl <;> rw [abs_le] <;> constructor <;> norm_num [twoPiSingle])
    rampPhase (fun i p => rampCycles (g.links.getD i (0, 0)).2 p - rampCycles (g.links.getD i (0, 0)).1 p)
    (1 / 1000) (by norm_num) (by
      intro i s t hi p hp
      have hm := List.mem_of_getElem? hi
      have hb := hlt s t hm
      have b1 := abs_bounds (hdata t hb.2 p hp)
      have b2 := abs_bounds (hdata s (by omega) p hp)
      unfold phaseOfIfg
      simp only [Bool.false_eq_true, if_false, List.getD_eq_getElem?_getD, hi, Option.getD_some]
      push_cast
      rw [abs_le]; constructor <;> linarith) (by
      intro s t p q hst hpq
      have hb := hlt s t hst
      have hq := hcs.ordered p q hpq
      have hm : (q % 3 : Nat) ≤ p % 3 + 1 ∧ p % 3 ≤ q % 3 + 1 := by
        rw [show (reg2dGraph 2 3).links = reg2dLinks 2 3 from rfl] at hpq
        have hall : ∀ x ∈ reg2dLinks 2 3, x.2 % 3 ≤ x.1 % 3 + 1 ∧ x.1 % 3 ≤ x.2 % 3 + 1 := by decide
        exact hall _ hpq
      have h4 : ((t : ℚ) - s) ≤ 3 := by
        have : (t : ℚ) ≤ s + 3 := by exact_mod_cast (by omega : t ≤ s + 3)
        linarith
      have h5 : (0 : ℚ) ≤ (t : ℚ) - s := by
        have : (s : ℚ) ≤ t := by exact_mod_cast hb.1.le
        linarith
      have m1 : ((q % 3 : Nat) : ℚ) - ((p % 3 : Nat) : ℚ) ≤ 1 := by
        have : ((q % 3 : Nat) : ℚ) ≤ ((p % 3 : Nat) : ℚ) + 1 := by exact_mod_cast hm.1
        linarith
      have m2 : ((p % 3 : Nat) : ℚ) - ((q % 3 : Nat) : ℚ) ≤ 1 := by
        have : ((p % 3 : Nat) : ℚ) ≤ ((q % 3 : Nat) : ℚ) + 1 := by exact_mod_cast hm.2
        linarith
      unfold rampPhase
      have e1 : ((t : ℚ) * ((q % 3 : Nat) : ℚ) - s * ((q % 3 : Nat) : ℚ)) - (t * ((p % 3 : Nat) : ℚ) - s * ((p % 3 : Nat) : ℚ)) =
          ((t : ℚ) - s) * (((q % 3 : Nat) : ℚ) - ((p % 3 : Nat) : ℚ)) := by ring
      rw [e1, abs_mul, abs_of_nonneg h5]
      have h6 : |((q % 3 : Nat) : ℚ) - ((p % 3 : Nat) : ℚ)| ≤ 1 := by rw [abs_le]; constructor <;> linarith
      calc ((t : ℚ) - s) * |((q % 3 : Nat) : ℚ) - ((p % 3 : Nat) : ℚ)| ≤ 3 * 1 :=
            mul_le_mul h4 h6 (abs_nonneg _) (by norm_num)
        _ ≤ _ := by norm_num [twoPi])
    (fun _ => List.reverse) List.reverse (fun _ l => List.reverse_perm l) (fun l => List.reverse_perm l)
  refine ⟨_, g, out, hg, htime, h1, fun i s t hi p hp => ?_⟩
  have h := (h3 i s t hi).2 p hp
  unfold rampPhase at h
  norm_num at h ⊢
  rw [show ((t : ℚ) - s) * ((p % 3 : Nat) : ℚ) = (t : ℚ) * ((p % 3 : Nat) : ℚ) - s * ((p % 3 : Nat) : ℚ) by ring]
  exact h

end Spurt
