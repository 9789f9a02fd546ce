import Verif.Props.Float
import Verif.Lemmas.Double
import Mathlib.Tactic.NormNum
import Mathlib.Tactic.IntervalCases

/-!
# Property C67 in double precision

Cheapest flows are small, so the hypotheses of `C67_unwrap_one` hold for wrapped data; and the numbers
for IEEE doubles: time series of up to 2048 acquisitions, and unaliased grids with up to 65536 rows
plus columns.
-/

namespace Spurt
open Spec

section
variable {K : Type} [Field K] [LinearOrder K] [IsStrictOrderedRing K] [FloorRing K]

theorem correctionCost_replicate (v : ℤ) (x : List ℤ) :
    correctionCost (List.replicate x.length v) (List.replicate x.length v) x = v * (x.map fun y => |y|).sum := by
  unfold correctionCost
  have h : ∀ i ∈ List.range x.length, (List.replicate x.length v).getD i 0 * max (x.getD i 0) 0 +
      (List.replicate x.length v).getD i 0 * max (- x.getD i 0) 0 = v * |x.getD i 0| := by
    intro i hi
    rw [List.mem_range] at hi
    have e : (List.replicate x.length v).getD i 0 = v := by simp [List.getD_eq_getElem?_getD, hi]
    rw [e, ← mul_add]
    congr 1
    rcases le_total 0 (x.getD i 0) with h | h
    · rw [max_eq_left h, max_eq_right (by omega), abs_of_nonneg h, add_zero]
    · rw [max_eq_right h, max_eq_left (by omega), abs_of_nonpos h, zero_add]
  rw [List.map_congr_left h, List.sum_map_mul_left]
  congr 1
  have : x.map (fun y => |y|) = (List.range x.length).map fun i => |x.getD i 0| := by
    apply List.ext_getElem
    · simp
    · intro i h1 h2
      have : i < x.length := by simpa using h1
      simp [List.getD_eq_getElem?_getD, this]
  rw [this]

theorem le_sum_abs {x : List ℤ} {y : ℤ} (h : y ∈ x) : |y| ≤ (x.map fun y => |y|).sum :=
  List.single_le_sum (by
    intro z hz
    obtain ⟨a, _, rfl⟩ := List.mem_map.mp hz
    exact abs_nonneg _) _ (List.mem_map_of_mem h)

theorem sum_abs_le {x : List ℤ} {F : ℤ} (h : ∀ y ∈ x, |y| ≤ F) : (x.map fun y => |y|).sum ≤ x.length * F := by
  induction x with
  | nil => simp
  | cons a l ih =>
    have h1 := h a (by simp)
    have h2 := ih fun y hy => h y (by simp [hy])
    simp only [List.map_cons, List.sum_cons, List.length_cons]
    push_cast
    linarith

variable {fl : K → K} {B η tau : K}

/-- C67. Wrapped data, the same positive cost on every link and a solver that answers with cheapest
flows: everything needed is a bound on the number of links and on the depth of the graph. -/
theorem C67_unwrap_one_wrapped (hr : Rounds fl B η) (ht : 1 ≤ tau) (h0 : 0 ≤ η) {tol : K} {H : Nat}
    (g : PlanarGraph) (m : Mcf) (solver : FlowSolver) (hc : PlanarContract g.npoints g.links g.cycles) (hne : g.links ≠ [])
    (hwalk : ∀ p < g.npoints, ∃ L ≤ H, WalkTo g.links L p) (hgen : CyclesGenerate K g.links g.cycles)
    (hm : ormcf g = .ok m) (hopt : SolverOptimal solver) (hcomp : SolverComplete solver)
    (w : List K) (hw : w.length = g.npoints) (hA : ∀ x ∈ w, |x| ≤ 5 / 8 * tau) (cost : ℤ) (hcost : 0 < cost)
    (hB : 2 * ((H : K) + 1) * (tau * (2 * (g.links.length : K) + 3)) + 2 * tau ≤ B)
    (hL : ∀ c ∈ g.cycles, 2 * (c.length : K) * tau ≤ B ∧ (4 * (c.length : K) + 1) * η < 1 / 2)
    (hη : η ≤ 1 / 4) (htol : 12 * ((H : K) + 1) * η ≤ tol) (htau : 2 * tol < tau) :
    ∃ unw flows, unwrapOneFl fl tau tol solver m w [cost] none = .ok (unw, flows) ∧
      unw.length = g.npoints ∧ flows.length = g.links.length ∧
      ∃ k : Nat → ℤ, k 0 = 0 ∧
        (∀ (i a b : Nat), g.links[i]? = some (a, b) →
          k b - k a = flows.getD i 0 - cyclesFl fl tau (w.getD a 0) (w.getD b 0)) ∧
        ∀ L p, WalkTo g.links L p → L ≤ H → p < g.npoints → |unw.getD p 0 - (w.getD p 0 + (k p : K) * tau)| ≤ (6 * (L : K) + 1) * η := by
  have ht0 : 0 < tau := by linarith
  have hlp := List.length_pos_of_ne_nil hne
  have hwA : ∀ p, |w.getD p 0| ≤ 5 / 8 * tau := by
    intro p
    by_cases hp : p < w.length
    · rw [List.getD_eq_getElem?_getD, List.getElem?_eq_getElem hp]
      exact hA _ (List.getElem_mem hp)
    · rw [List.getD_eq_getElem?_getD, List.getElem?_eq_none (by omega)]
      simp; linarith
  have hM0 : (0 : K) ≤ (g.links.length : K) := Nat.cast_nonneg _
  have hroom : 2 * (5 / 8 * tau) + 2 * tau ≤ B := by
    have h1 : 0 ≤ tau * (2 * (g.links.length : K) + 3) := mul_nonneg ht0.le (by linarith)
    have h2 : 0 ≤ (H : K) * (tau * (2 * (g.links.length : K) + 3)) := mul_nonneg (Nat.cast_nonneg _) h1
    have h3 : 0 ≤ tau * (g.links.length : K) := mul_nonneg ht0.le hM0
    linarith
  have hcOn : CostOn g.links.length [cost] (List.replicate g.links.length cost) := ⟨by simp, .inr ⟨cost, rfl, rfl⟩⟩
  have hnn : ∀ v ∈ List.replicate g.links.length cost, 0 ≤ v := by
    intro v hv; rw [List.eq_of_mem_replicate hv]; exact hcost.le
  refine C67_unwrap_one hr ht h0 (A := 5 / 8 * tau) (F := 2 * (g.links.length : ℤ)) g m solver hc hne hwalk hgen hm hopt.1 hcomp w hw hA
    (by linarith) [cost] none _ _ hcOn hcOn hnn hnn (by omega) ?_ (by push_cast; linarith) hL hη htol htau
  intro res flows hres hfl f hf
  rw [C67_residues hr ht h0 hroom g m hc hne hm w hw hA hL] at hres
  simp only [Except.ok.injEq] at hres
  have hcan := C10_flows_cancel g m solver hc hm hopt.1 _ _ _ _ hfl
  set N : Nat → Nat → ℤ := fun a b => cyclesFl fl tau (w.getD a 0) (w.getD b 0) with hN
  have hN2 : ∀ a b, |N a b| ≤ 2 := by
    intro a b
    have h4 := (C67_phase_diff hr ht h0 hη hroom (w.getD a 0) (w.getD b 0) (hwA a) (hwA b)).2.2.2
    have e : 2 * (5 / 8 * tau) / tau = 5 / 4 := by field_simp; norm_num
    rw [e] at h4
    have h6 : |((N a b : ℤ) : K)| < ((3 : ℤ) : K) := by
      push_cast; exact h4.trans_lt (by norm_num)
    have h7 : |N a b| < 3 := by exact_mod_cast h6
    omega
  have hx : Cancels g.links g.cycles res (g.links.map fun l => N l.1 l.2) := by
    refine ⟨by simp, fun k hk => ?_⟩
    rw [circulation_antisymm hc _ N (fun a b _ => cyclesFl_swap hr tau _ _) (fun a b hab => onLink_map N hab) (List.getElem_mem hk)]
    rw [← hres]
    simp [List.getD_eq_getElem?_getD, hk, hN]
  have hxb : ∀ v ∈ (g.links.map fun l => N l.1 l.2), |v| ≤ 2 := by
    intro v hv
    obtain ⟨⟨a, b⟩, _, rfl⟩ := List.mem_map.mp hv
    exact hN2 a b
  have hle := C11_flows_cheapest g m solver hc hm hopt res [cost] (some ([cost])) _ _ hcOn hcOn hnn hnn
    (by rw [← hres]; simp) flows hfl _ hx (fun v hv => (hxb v hv).trans (by norm_num))
  have e1 : g.links.length = flows.length := hcan.1.symm
  have e2 : g.links.length = (g.links.map fun l => N l.1 l.2).length := by simp
  have c1 := correctionCost_replicate cost flows
  have c2 := correctionCost_replicate cost (g.links.map fun l => N l.1 l.2)
  rw [← e1] at c1
  rw [← e2] at c2
  rw [c1, c2] at hle
  have h1 := le_of_mul_le_mul_left hle hcost
  have h2 := sum_abs_le hxb
  rw [← e2] at h2
  have h3 := le_sum_abs hf
  linarith

end

/-! ### Doubles -/

/-- Doubles of size at most `2 ^ e` are rounded by at most `2 ^ (e - 53)`. -/
theorem rounds_double (e : ℕ) : Rounds flDouble (2 ^ e) (2 ^ e / 2 ^ 53) := by
  refine ⟨fun x hx => ?_, flDouble_neg⟩
  have h : ∀ y : ℚ, 0 ≤ y → y ≤ 2 ^ e → |flDouble y - y| ≤ 2 ^ e / 2 ^ 53 := by
    intro y hy hye
    obtain ⟨h1, h2⟩ := flDouble_rel hy
    have h3 : y / 2 ^ 53 ≤ 2 ^ e / 2 ^ 53 := div_le_div_of_nonneg_right hye (by positivity)
    rw [abs_le]
    constructor
    · have : y * (1 - 1 / 2 ^ 53) = y - y / 2 ^ 53 := by ring
      linarith
    · have : y * (1 + 1 / 2 ^ 53) = y + y / 2 ^ 53 := by ring
      linarith
  rcases le_total 0 x with h0 | h0
  · rw [abs_of_nonneg h0] at hx
    exact h x h0 hx
  · rw [abs_of_nonpos h0] at hx
    have := h (-x) (by linarith) hx
    rw [flDouble_neg] at this
    have e : flDouble x - x = -(-flDouble x - -x) := by ring
    rw [e, abs_neg]
    exact this

/-- `2 * np.pi` in double precision. -/
def twoPi : ℚ := 884279719003555 / 2 ^ 47

/-- The literal `1e-3` in double precision. -/
def tolDouble : ℚ := flDouble (1 / 1000)

theorem tolDouble_bounds : 1 / 1001 ≤ tolDouble ∧ tolDouble ≤ 1 / 999 := by
  obtain ⟨h1, h2⟩ := flDouble_rel (x := 1 / 1000) (by norm_num)
  unfold tolDouble
  exact ⟨le_trans (by norm_num) h1, h2.trans (by norm_num)⟩

/-- Points of a time series are a third of its length away from the first. -/
theorem hop3_walk (n : Nat) (hn : 4 ≤ n) : ∀ p < n, ∃ L ≤ n / 3 + 2, WalkTo (hop3Links n) L p := by
  have h3 : ∀ q, 3 * q < n → WalkTo (hop3Links n) q (3 * q) := by
    intro q
    induction q with
    | zero => intro _; exact .start
    | succ q ih =>
      intro h
      refine (ih (by omega)).step (.inl ?_)
      rw [mem_hop3Links hn]; omega
  intro p hp
  have h1 := h3 (p / 3) (by omega)
  by_cases hm : p = 3 * (p / 3)
  · exact ⟨p / 3, by omega, by rw [← hm] at h1; exact h1⟩
  · refine ⟨p / 3 + 1, by omega, h1.step (.inl ?_)⟩
    rw [mem_hop3Links hn]; omega

/-- C67. Double precision, time series: for every stack of 4 to 2048 acquisitions of wrapped phases,
every positive cost and every solver with cheapest flows, `unwrap_one` on `Hop3Graph(n)` computed in
IEEE doubles returns, without a closure error, the input plus whole cycles to within a
ten-thousandth of a radian. -/
theorem C67_double_hop3 (n : Nat) (hn : 4 ≤ n) (hn' : n ≤ 2048) (solver : FlowSolver)
    (hopt : SolverOptimal solver) (hcomp : SolverComplete solver) (w : List ℚ) (hw : w.length = n)
    (hA : ∀ x ∈ w, |x| ≤ 5 / 8 * twoPi) (cost : ℤ) (hcost : 0 < cost) :
    ∃ g m unw flows, hop3Graph n = .ok g ∧ ormcf g = .ok m ∧
      unwrapOneFl flDouble twoPi tolDouble solver m w [cost] none = .ok (unw, flows) ∧ unw.length = n ∧
      ∃ k : Nat → ℤ, k 0 = 0 ∧
        (∀ (i a b : Nat), g.links[i]? = some (a, b) →
          k b - k a = flows.getD i 0 - cyclesFl flDouble twoPi (w.getD a 0) (w.getD b 0)) ∧
        ∀ p < n, |unw.getD p 0 - (w.getD p 0 + (k p : ℚ) * twoPi)| ≤ 1 / 10000 := by
  obtain ⟨g, hg, hc, _⟩ := C04_hop3_planar n hn
  have hge := hg
  rw [hop3Graph_eq n hn] at hge
  simp only [Except.ok.injEq] at hge
  have hgn : g.npoints = n := by rw [← hge]
  have hgl : g.links = hop3Links n := by rw [← hge]
  have hgc : g.cycles = (hop3Explicit n).map triRow := by rw [← hge]
  rw [← hgn] at hc
  obtain ⟨m, hm⟩ := C06_contract_accepted g hc
  have hll : g.links.length ≤ 6138 := by rw [hgl, length_hop3Links n hn]; omega
  have hH : n / 3 + 2 ≤ 684 := by omega
  have hHq : ((684 : ℕ) : ℚ) = 684 := by norm_num
  have hwalk : ∀ p < g.npoints, ∃ L ≤ 684, WalkTo g.links L p := by
    intro p hp
    obtain ⟨L, h1, h2⟩ := hop3_walk n hn p (by omega)
    exact ⟨L, by omega, by rw [hgl]; exact h2⟩
  have hllq : (g.links.length : ℚ) ≤ 6138 := by exact_mod_cast hll
  obtain ⟨unw, flows, h1, h2, h3, k, k1, k2, k3⟩ := C67_unwrap_one_wrapped (rounds_double 27) (tau := twoPi) (tol := tolDouble) (H := 684)
    (by norm_num [twoPi]) (by positivity) g m solver hc
    (by rw [hgl]; intro h; have := length_hop3Links n hn; rw [h] at this; simp at this; omega)
    hwalk (by rw [hgl, hgc]; exact hop3_generate n hn) hm hopt hcomp w (by rw [hw, hgn]) hA cost hcost (by
      rw [hHq]; unfold twoPi; nlinarith) (by
      intro c hc'
      rw [hgc] at hc'
      obtain ⟨t, _, rfl⟩ := List.mem_map.mp hc'
      norm_num [triRow, twoPi]) (by norm_num) (by rw [hHq]; exact le_trans (by norm_num) tolDouble_bounds.1)
      (lt_of_le_of_lt (mul_le_mul_of_nonneg_left tolDouble_bounds.2 (by norm_num)) (by norm_num [twoPi]))
  refine ⟨g, m, unw, flows, hg, hm, h1, by rw [h2, hgn], k, k1, k2, ?_⟩
  intro p hp
  obtain ⟨L, hL, hLw⟩ := hwalk p (by omega)
  have := k3 L p hLw hL (by omega)
  have hLq : (L : ℚ) ≤ 684 := by exact_mod_cast hL
  refine this.trans ?_
  have : (6 * (L : ℚ) + 1) * (2 ^ 27 / 2 ^ 53) ≤ (6 * 684 + 1) * (2 ^ 27 / 2 ^ 53) :=
    mul_le_mul_of_nonneg_right (by linarith) (by positivity)
  refine this.trans (by norm_num)

/-- Points of a grid are at most rows plus columns away from the first. -/
theorem reg2d_walk (r c : Nat) : ∀ p < r * c, ∃ L ≤ r + c, WalkTo (reg2dLinks r c) L p := by
  have hcol : ∀ i, 0 < c → i < r → WalkTo (reg2dLinks r c) i (i * c + 0) := by
    intro i hc
    induction i with
    | zero => intro _; simp only [Nat.zero_mul, Nat.add_zero]; exact .start
    | succ i ih =>
      intro hi
      refine (ih (by omega)).step (.inl ?_)
      rw [mem_reg2dLinks hc hc, mem_reg2dLinksC]
      omega
  have hrow : ∀ j i, j < c → i < r → WalkTo (reg2dLinks r c) (i + j) (i * c + j) := by
    intro j
    induction j with
    | zero => intro i hj hi; exact hcol i hj hi
    | succ j ih =>
      intro i hj hi
      refine (ih i (by omega) hi).step (.inl ?_)
      rw [mem_reg2dLinks (by omega) hj, mem_reg2dLinksC]
      omega
  intro p hp
  have hc : 0 < c := by
    rcases Nat.eq_zero_or_pos c with rfl | h
    · simp at hp
    · exact h
  have hm := Nat.mod_lt p hc
  have hd := (Nat.div_lt_iff_lt_mul hc).mpr hp
  have := hrow (p % c) (p / c) hm hd
  rw [Nat.mul_comm (p / c) c, Nat.div_add_mod] at this
  exact ⟨_, by omega, this⟩

/-- C67. Double precision, grids: on every grid with at most 65536 rows plus columns, a phase that
changes along every link by at most half a cycle less a hundredth of a radian, wrapped with an error
of at most a thousandth of a radian, is unwrapped in IEEE doubles up to one constant number of
cycles, to within that error and a thousandth of a radian. -/
theorem C67_double_grid (r c : Nat) (hr : 2 ≤ r) (hcc : 2 ≤ c) (hrc : r + c ≤ 65536) (solver : FlowSolver)
    (φ : Nat → ℚ) (hφ : ∀ a b, (a, b) ∈ (reg2dGraph r c).links → |φ b - φ a| ≤ twoPi / 2 - 1 / 100)
    (w : List ℚ) (hw : w.length = r * c) (k : Nat → ℤ) (e : ℚ) (he : e ≤ 1 / 1000)
    (hwk : ∀ p < r * c, |w.getD p 0 - (φ p - (k p : ℚ) * twoPi)| ≤ e) (hA : ∀ x ∈ w, |x| ≤ 4) (cost : List ℤ) (revcost : Option (List ℤ)) :
    ∃ m unw, ormcf (reg2dGraph r c) = .ok m ∧
      unwrapOneFl flDouble twoPi tolDouble solver m w cost revcost = .ok (unw, List.replicate (reg2dGraph r c).links.length 0) ∧
      unw.length = r * c ∧ ∀ p < r * c, |unw.getD p 0 - (φ p - (k 0 : ℚ) * twoPi)| ≤ 1 / 1000 + e := by
  have hc := reg2d_contract r c hr hcc
  obtain ⟨m, hm⟩ := C06_contract_accepted (reg2dGraph r c) hc
  have hne : (reg2dGraph r c).links ≠ [] := by
    have h : ((0 : Nat) * c + 0, 0 * c + 1) ∈ reg2dLinks r c := by
      rw [mem_reg2dLinks (by omega) (by omega), mem_reg2dLinksC]; omega
    exact List.ne_nil_of_mem h
  have hHq : ((65536 : ℕ) : ℚ) = 65536 := by norm_num
  have hwalk : ∀ p < r * c, ∃ L ≤ 65536, WalkTo (reg2dGraph r c).links L p := by
    intro p hp
    obtain ⟨L, h1, h2⟩ := reg2d_walk r c p hp
    exact ⟨L, by omega, h2⟩
  obtain ⟨unw, h1, h2, h3⟩ := C67_itoh (rounds_double 22) (tau := twoPi) (tol := tolDouble) (H := 65536) (A := 4) (e := e)
    (by norm_num [twoPi]) (by positivity) (reg2dGraph r c) m solver hc hne hwalk hm φ (by
      intro a b hab
      have := hφ a b hab
      have h2 : 2 * twoPi * (2 ^ 22 / 2 ^ 53) ≤ 1 / 1000 := by norm_num [twoPi]
      linarith) w hw k hwk hA cost revcost (by rw [hHq]; norm_num [twoPi]) (by
      intro cyc hcy
      have : cyc.length = 4 := by
        have h := hcy
        simp only [reg2dGraph, reg2dCycles, List.mem_flatMap, List.mem_map] at h
        obtain ⟨_, _, _, _, rfl⟩ := h
        rfl
      rw [this]
      norm_num [twoPi]) (by norm_num) (by rw [hHq]; exact le_trans (by norm_num) tolDouble_bounds.1)
      (lt_of_le_of_lt (mul_le_mul_of_nonneg_left tolDouble_bounds.2 (by norm_num)) (by norm_num [twoPi]))
  refine ⟨m, unw, hm, h1, h2, ?_⟩
  intro p hp
  obtain ⟨L, hL, hLw⟩ := hwalk p hp
  have := h3 L p hLw hL hp
  have hLq : (L : ℚ) ≤ 65536 := by exact_mod_cast hL
  refine this.trans ?_
  have : (6 * (L : ℚ) + 1) * (2 ^ 22 / 2 ^ 53) ≤ (6 * 65536 + 1) * (2 ^ 22 / 2 ^ 53) :=
    mul_le_mul_of_nonneg_right (by linarith) (by positivity)
  have h5 : ((6 * 65536 + 1) * (2 ^ 22 / 2 ^ 53) : ℚ) ≤ 1 / 1000 := by norm_num
  linarith

/-- Non-vacuity of C67 on time series: wrapped phases with a residue. -/
example : ∃ solver : FlowSolver, SolverOptimal solver ∧ SolverComplete solver ∧
    ∃ g m unw flows, hop3Graph 4 = .ok g ∧ ormcf g = .ok m ∧
      unwrapOneFl flDouble twoPi tolDouble solver m [0, 2, -2, 3 / 2] [1] none = .ok (unw, flows) ∧
      ∃ k : Nat → ℤ, ∀ p < 4, |unw.getD p 0 - (([0, 2, -2, 3 / 2] : List ℚ).getD p 0 + (k p : ℚ) * twoPi)| ≤ 1 / 10000 := by
  obtain ⟨s, hs, hcomp⟩ := exists_solver
  obtain ⟨g, m, unw, flows, h1, h2, h3, _, k, _, _, h4⟩ := C67_double_hop3 4 (by omega) (by omega) s hs hcomp [0, 2, -2, 3 / 2] rfl (by
      intro x hx
      simp only [List.mem_cons, List.not_mem_nil, or_false] at hx
      rcases hx with rfl | rfl | rfl | rfl <;> rw [abs_le] <;> norm_num [twoPi]) 1 (by omega)
  exact ⟨s, hs, hcomp, g, m, unw, flows, h1, h2, h3, k, h4⟩

/-- Non-vacuity of C67 on grids: a ramp of 1.5 radians per pixel, wrapped and stored with four
decimals. -/
example : ∃ m unw, ormcf (reg2dGraph 3 3) = .ok m ∧
    unwrapOneFl flDouble twoPi tolDouble (fun _ => none) m [0, 3 / 2, 3, 3 / 2, 3, -17832 / 10000, 3, -17832 / 10000, -2832 / 10000] [1] none =
      .ok (unw, List.replicate (reg2dGraph 3 3).links.length 0) ∧
    unw.length = 9 ∧ ∀ p < 9, |unw.getD p 0 - (3 / 2 * ((p / 3 + p % 3 : Nat) : ℚ) - ((0 : ℤ) : ℚ) * twoPi)| ≤ 1 / 1000 + 1 / 10000 := by
  have hlk : ∀ l ∈ (reg2dGraph 3 3).links, l.2 / 3 + l.2 % 3 = l.1 / 3 + l.1 % 3 + 1 := by decide
  refine C67_double_grid 3 3 (by omega) (by omega) (by omega) (fun _ => none)
    (fun p => 3 / 2 * ((p / 3 + p % 3 : Nat) : ℚ)) ?_ _ rfl (fun p => if p = 5 ∨ p = 7 ∨ p = 8 then 1 else 0) (1 / 10000) (by norm_num) ?_ ?_ [1] none
  · intro a b hab
    have h : b / 3 + b % 3 = a / 3 + a % 3 + 1 := hlk _ hab
    have h' : ((b / 3 + b % 3 : Nat) : ℚ) = ((a / 3 + a % 3 : Nat) : ℚ) + 1 := by
      rw [h]; push_cast; ring
    rw [h', show (3 / 2 * (((a / 3 + a % 3 : Nat) : ℚ) + 1) - 3 / 2 * ((a / 3 + a % 3 : Nat) : ℚ)) = 3 / 2 by ring]
    norm_num [twoPi, abs_le]
  · intro p hp
    have hp9 : p < 9 := hp
    interval_cases p <;> norm_num [twoPi, abs_le]
  · intro x hx
    simp only [List.mem_cons, List.not_mem_nil, or_false] at hx
    rcases hx with rfl | rfl | rfl | rfl | rfl | rfl | rfl | rfl | rfl <;> norm_num [abs_le]

/-- Non-vacuity of C67 on gradients: a triangle with one gradient a cycle too large, and the flow that
removes it. -/
example : ∃ out, floodFillFl flDouble twoPi tolDouble [1, 2 + twoPi, 1] [(0, 1), (0, 2), (1, 2)] [0, -1, 0] "gradients" = .ok out ∧
    out.length = 3 := by
  have hθ : ∀ (i a b : Nat), ([(0, 1), (0, 2), (1, 2)] : List (Nat × Nat))[i]? = some (a, b) →
      |([1, 2 + twoPi, 1] : List ℚ).getD i 0 - ((b : ℚ) - (a : ℚ) + (((if i = 1 then 1 else 0 : ℤ)) : ℚ) * twoPi)| ≤ 0 := by
    intro i a b hi
    obtain ⟨hlt, _⟩ := List.getElem?_eq_some_iff.mp hi
    have hlt : i < 3 := hlt
    interval_cases i <;> simp at hi <;> obtain ⟨rfl, rfl⟩ := hi <;> norm_num
  have hA : ∀ x ∈ ([1, 2 + twoPi, 1] : List ℚ), |x| ≤ 9 := by
    intro x hx
    simp only [List.mem_cons, List.not_mem_nil, or_false] at hx
    rcases hx with rfl | rfl | rfl <;> norm_num [abs_le, twoPi]
  have hF : ∀ f ∈ ([0, -1, 0] : List ℤ), |f| ≤ 1 := by decide
  have hlink : ∀ a b, (a, b) ∈ ([(0, 1), (0, 2), (1, 2)] : List (Nat × Nat)) → a < 3 ∧ b < 3 := by
    intro a b h
    simp only [List.mem_cons, List.not_mem_nil, or_false, Prod.mk.injEq] at h
    omega
  have hwalk : ∀ p < 3, ∃ L ≤ 1, WalkTo [(0, 1), (0, 2), (1, 2)] L p := by
    intro p hp
    interval_cases p
    · exact ⟨0, by omega, .start⟩
    · exact ⟨1, by omega, WalkTo.start.step (.inl (by simp))⟩
    · exact ⟨1, by omega, WalkTo.start.step (.inl (by simp))⟩
  have hB : (2 * (((1 : ℕ) : ℚ) + 1) * (9 + twoPi * ((1 : ℤ) : ℚ) + 3 * (2 ^ 7 / 2 ^ 53)) : ℚ) ≤ 2 ^ 7 := by norm_num [twoPi]
  have htol : (2 * (((1 : ℕ) : ℚ) + 1) * (0 + 3 * (2 ^ 7 / 2 ^ 53)) : ℚ) ≤ 1 / 1001 := by norm_num
  have htau : (1 / 999 + 1 / 1001 : ℚ) < twoPi := by norm_num [twoPi]
  obtain ⟨out, h1⟩ := C67_gradients_returns (rounds_double 7) (by norm_num [twoPi]) (by positivity) (δ := 0) (tol := tolDouble) (H := 1) (F := 1)
    [1, 2 + twoPi, 1] [(0, 1), (0, 2), (1, 2)] [0, -1, 0] (by simp) rfl rfl hA hF hB (htol.trans tolDouble_bounds.1) (fun p => (p : ℚ))
    (fun i => if i = 1 then 1 else 0) hθ 3 hlink hwalk (fun _ => 0) (by
      intro i a b hi
      obtain ⟨hlt, _⟩ := List.getElem?_eq_some_iff.mp hi
      have hlt : i < 3 := hlt
      interval_cases i <;> simp)
  refine ⟨out, h1, ?_⟩
  exact (C67_gradients_guarantee (rounds_double 7) (by norm_num [twoPi]) (by positivity) (δ := 0) (tol := tolDouble) (H := 1) (F := 1)
    [1, 2 + twoPi, 1] [(0, 1), (0, 2), (1, 2)] [0, -1, 0] hA hF hB (le_trans (by norm_num) tolDouble_bounds.1)
    (by have := tolDouble_bounds.2; linarith) (fun p => (p : ℚ)) (fun i => if i = 1 then 1 else 0) hθ 3 hlink hwalk out h1).1

end Spurt
