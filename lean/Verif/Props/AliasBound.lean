import Verif.Spec.Aliasing
import Verif.Props.Cheapest
import Verif.Props.CheapestIfg
import Mathlib.Algebra.Order.BigOperators.Group.Finset

/-!
# C94: unwrapping errors are bounded by the aliasing of the true phase
-/

namespace Spurt
open Spec Finset

theorem price_symm (n : Nat) (c : List ℤ) (k : Nat → ℤ) : price n c c k = ∑ i ∈ range n, c.getD i 0 * |k i| := by
  unfold price
  refine Finset.sum_congr rfl fun i _ => ?_
  split
  · rename_i h; rw [abs_of_nonneg h]
  · rename_i h; rw [abs_of_neg (by omega)]

/-- A cheapest solution differs from any other by at most twice the price of the other. -/
theorem price_sub {n : Nat} {c : List ℤ} (hc : ∀ i, 0 ≤ c.getD i 0) {k m : Nat → ℤ} (h : price n c c k ≤ price n c c m) :
    ∑ i ∈ range n, c.getD i 0 * |k i - m i| ≤ 2 * ∑ i ∈ range n, c.getD i 0 * |m i| := by
  rw [price_symm, price_symm] at h
  have : ∑ i ∈ range n, c.getD i 0 * |k i - m i| ≤
      ∑ i ∈ range n, c.getD i 0 * |k i| + ∑ i ∈ range n, c.getD i 0 * |m i| := by
    rw [← Finset.sum_add_distrib]
    refine Finset.sum_le_sum fun i _ => ?_
    rw [← mul_add]
    exact mul_le_mul_of_nonneg_left (abs_sub _ _) (hc i)
  linarith

theorem getD_nonneg {c : List ℤ} (h : ∀ v ∈ c, 0 ≤ v) (i : Nat) : 0 ≤ c.getD i 0 := by
  rw [List.getD_eq_getElem?_getD]
  rcases hi : c[i]? with _ | v
  · simp
  · exact h v (List.mem_of_getElem? hi)

/-- Errors of two cheapest steps, one along the first index and one along the second. -/
theorem two_steps {m n : Nat} {ct cs : List ℤ} (hct : ∀ v ∈ ct, 0 ≤ v) (hcs : ∀ v ∈ cs, 0 ≤ v) (A T S : Nat → Nat → ℤ)
    (hT : ∀ j < n, price m ct ct (fun i => T i j) ≤ price m ct ct (fun i => A i j))
    (hS : ∀ i < m, price n cs cs (S i) ≤ price n cs cs (fun j => A i j - T i j)) :
    weighted m n ct cs (fun i j => T i j + S i j - A i j) ≤ 4 * weighted m n ct cs A := by
  have ht := getD_nonneg hct
  have hs := getD_nonneg hcs
  have h1 : weighted m n ct cs (fun i j => T i j + S i j - A i j) ≤ 2 * weighted m n ct cs (fun i j => T i j - A i j) := by
    unfold weighted
    rw [Finset.mul_sum]
    refine Finset.sum_le_sum fun i hi => ?_
    have := price_sub hs (hS i (Finset.mem_range.mp hi))
    have e1 : ∑ j ∈ range n, ct.getD i 0 * cs.getD j 0 * |T i j + S i j - A i j| =
        ct.getD i 0 * ∑ j ∈ range n, cs.getD j 0 * |S i j - (A i j - T i j)| := by
      rw [Finset.mul_sum]
      refine Finset.sum_congr rfl fun j _ => ?_
      rw [show T i j + S i j - A i j = S i j - (A i j - T i j) by ring]; ring
    have e2 : ∑ j ∈ range n, ct.getD i 0 * cs.getD j 0 * |T i j - A i j| =
        ct.getD i 0 * ∑ j ∈ range n, cs.getD j 0 * |A i j - T i j| := by
      rw [Finset.mul_sum]
      refine Finset.sum_congr rfl fun j _ => ?_
      rw [abs_sub_comm]; ring
    rw [e1, e2]
    calc _ ≤ ct.getD i 0 * (2 * ∑ j ∈ range n, cs.getD j 0 * |A i j - T i j|) := mul_le_mul_of_nonneg_left this (ht i)
      _ = _ := by ring
  have h2 : weighted m n ct cs (fun i j => T i j - A i j) ≤ 2 * weighted m n ct cs A := by
    unfold weighted
    rw [Finset.sum_comm, Finset.sum_comm (s := range m), Finset.mul_sum]
    refine Finset.sum_le_sum fun j hj => ?_
    have := price_sub ht (hT j (Finset.mem_range.mp hj))
    have e1 : ∀ x : Nat → ℤ, ∑ i ∈ range m, ct.getD i 0 * cs.getD j 0 * |x i| =
        cs.getD j 0 * ∑ i ∈ range m, ct.getD i 0 * |x i| := by
      intro x
      rw [Finset.mul_sum]
      exact Finset.sum_congr rfl fun i _ => by ring
    rw [e1 fun i => T i j - A i j, e1 fun i => A i j]
    calc _ ≤ cs.getD j 0 * (2 * ∑ i ∈ range m, ct.getD i 0 * |A i j|) := mul_le_mul_of_nonneg_left this (hs j)
      _ = _ := by ring
  linarith

theorem weighted_mono {m n : Nat} {ct cs : List ℤ} (hct : ∀ v ∈ ct, 0 ≤ v) (hcs : ∀ v ∈ cs, 0 ≤ v) {x y : Nat → Nat → ℤ}
    (h : ∀ i < m, ∀ j < n, |x i j| ≤ |y i j|) : weighted m n ct cs x ≤ weighted m n ct cs y :=
  Finset.sum_le_sum fun i hi => Finset.sum_le_sum fun j hj =>
    mul_le_mul_of_nonneg_left (h i (Finset.mem_range.mp hi) j (Finset.mem_range.mp hj))
      (mul_nonneg (getD_nonneg hct i) (getD_nonneg hcs j))

section
variable {K : Type} [Field K] [LinearOrder K] [IsStrictOrderedRing K] [FloorRing K]

theorem aliasedCycles_nonneg {tau : K} (ht : 0 < tau) (d : K) : 0 ≤ aliasedCycles tau d :=
  Int.floor_nonneg.mpr (by have := div_nonneg (abs_nonneg d) ht.le; linarith)

/-- Whole cycles between a difference and a value within half a cycle are aliased cycles. -/
theorem abs_le_aliased {tau : K} (ht : 0 < tau) {d g : K} (hg : |g| ≤ tau / 2) {n : ℤ} (h : d = g + (n : K) * tau) :
    |n| ≤ aliasedCycles tau d := by
  unfold aliasedCycles
  rw [Int.le_floor]
  have h1 : |(n : K)| * tau ≤ |d| + tau / 2 := by
    have : (n : K) * tau = d - g := by rw [h]; ring
    calc |(n : K)| * tau = |(n : K) * tau| := by rw [abs_mul, abs_of_pos ht]
      _ = |d - g| := by rw [this]
      _ ≤ |d| + |g| := abs_sub _ _
      _ ≤ _ := by linarith
  push_cast
  have : |d| / tau + 1 / 2 = (|d| + tau / 2) / tau := by field_simp
  rw [this, le_div_iff₀ ht]
  exact h1

/-- Below half a cycle nothing is aliased. -/
theorem aliasedCycles_eq_zero {tau : K} (ht : 0 < tau) {d : K} : aliasedCycles tau d = 0 ↔ |d| < tau / 2 := by
  unfold aliasedCycles
  rw [Int.floor_eq_zero_iff, Set.mem_Ico]
  have h0 := div_nonneg (abs_nonneg d) ht.le
  constructor
  · rintro ⟨_, h⟩
    have : |d| / tau < 1 / 2 := by linarith
    rw [div_lt_iff₀ ht] at this
    linarith
  · intro h
    refine ⟨by linarith, ?_⟩
    have : |d| / tau < 1 / 2 := by rw [div_lt_iff₀ ht]; linarith
    linarith

omit [LinearOrder K] [IsStrictOrderedRing K] [FloorRing K] in
theorem changeOn_some {links : List (Nat × Nat)} {u : Nat → K} {j a b : Nat} (h : links[j]? = some (a, b)) :
    changeOn links u j = u b - u a := by
  unfold changeOn
  rw [List.getD_eq_getElem?_getD, h]; rfl

theorem aliasing_core {tau : K} (ht : 0 < tau) (m : Nat) (links : List (Nat × Nat)) (ct cs : List ℤ)
    (hctl : ct.length = m) (hct : ∀ v ∈ ct, 0 < v) (hcs : ∀ v ∈ cs, 0 ≤ v) (G : Nat → Nat → K) (hG : ∀ i j, |G i j| ≤ tau / 2)
    (grad : Nat → Nat → K) (out φ : Nat → Nat → K)
    (hA : ∀ i < m, ∀ j < links.length, ∃ a : ℤ, changeOn links (φ i) j = G i j + (a : K) * tau)
    (hT : ∀ j < links.length, ∃ k : Nat → ℤ, (∀ i < m, grad i j = G i j + (k i : K) * tau) ∧
      ∀ n : Nat → ℤ, (∀ i < m, changeOn links (φ i) j = G i j + (n i : K) * tau) → (∀ i < m, |n i| ≤ 2147483647) →
        price m ct ct k ≤ price m ct ct n)
    (hS : ∀ i < m, ∃ k : Nat → ℤ, Jumps tau links (grad i) (out i) k ∧
      ∀ (alt : Nat → K) (n : Nat → ℤ), Jumps tau links (grad i) alt n → (∀ j < links.length, |n j| ≤ 2147483647) →
        price links.length cs cs k ≤ price links.length cs cs n)
    (hbig : ∀ j < links.length, ∑ i ∈ range m, ct.getD i 0 * aliasedCycles tau (changeOn links (φ i) j) ≤ 1000000000) :
    ∃ e : Nat → Nat → ℤ, (∀ i < m, ∀ j < links.length,
        changeOn links (out i) j = changeOn links (φ i) j + (e i j : K) * tau) ∧
      weighted m links.length ct cs e ≤
        4 * weighted m links.length ct cs fun i j => aliasedCycles tau (changeOn links (φ i) j) := by
  have hct0 : ∀ v ∈ ct, 0 ≤ v := fun v hv => (hct v hv).le
  have hA' : ∀ i j, ∃ a : ℤ, i < m → j < links.length → changeOn links (φ i) j = G i j + (a : K) * tau := by
    intro i j
    by_cases h1 : i < m
    · by_cases h2 : j < links.length
      · obtain ⟨a, ha⟩ := hA i h1 j h2
        exact ⟨a, fun _ _ => ha⟩
      · exact ⟨0, fun _ h => absurd h h2⟩
    · exact ⟨0, fun h => absurd h h1⟩
  choose A hA' using hA'
  have hT' : ∀ j, ∃ k : Nat → ℤ, j < links.length → (∀ i < m, grad i j = G i j + (k i : K) * tau) ∧
      ∀ n : Nat → ℤ, (∀ i < m, changeOn links (φ i) j = G i j + (n i : K) * tau) → (∀ i < m, |n i| ≤ 2147483647) →
        price m ct ct k ≤ price m ct ct n := by
    intro j
    by_cases h2 : j < links.length
    · obtain ⟨k, hk⟩ := hT j h2
      exact ⟨k, fun _ => hk⟩
    · exact ⟨fun _ => 0, fun h => absurd h h2⟩
  choose T hT' using hT'
  have hS' : ∀ i, ∃ k : Nat → ℤ, i < m → Jumps tau links (grad i) (out i) k ∧
      ∀ (alt : Nat → K) (n : Nat → ℤ), Jumps tau links (grad i) alt n → (∀ j < links.length, |n j| ≤ 2147483647) →
        price links.length cs cs k ≤ price links.length cs cs n := by
    intro i
    by_cases h2 : i < m
    · obtain ⟨k, hk⟩ := hS i h2
      exact ⟨k, fun _ => hk⟩
    · exact ⟨fun _ => 0, fun h => absurd h h2⟩
  choose S hS' using hS'
  have hal : ∀ i < m, ∀ j < links.length, |A i j| ≤ aliasedCycles tau (changeOn links (φ i) j) :=
    fun i hi j hj => abs_le_aliased ht (hG i j) (hA' i j hi hj)
  have hone : ∀ i < m, 1 ≤ ct.getD i 0 := by
    intro i hi
    rw [List.getD_eq_getElem _ _ (by omega)]
    exact hct _ (List.getElem_mem _)
  have hsingle : ∀ x : Nat → ℤ, ∀ i < m, |x i| ≤ ∑ i ∈ range m, ct.getD i 0 * |x i| := by
    intro x i hi
    calc |x i| ≤ ct.getD i 0 * |x i| := le_mul_of_one_le_left (abs_nonneg _) (hone i hi)
      _ ≤ _ := Finset.single_le_sum (f := fun i => ct.getD i 0 * |x i|)
        (fun i _ => mul_nonneg (getD_nonneg hct0 i) (abs_nonneg _)) (Finset.mem_range.mpr hi)
  have hAb : ∀ j < links.length, ∑ i ∈ range m, ct.getD i 0 * |A i j| ≤ 1000000000 := by
    intro j hj
    refine le_trans (Finset.sum_le_sum fun i hi => ?_) (hbig j hj)
    exact mul_le_mul_of_nonneg_left (hal i (Finset.mem_range.mp hi) j hj) (getD_nonneg hct0 i)
  have hpT : ∀ j < links.length, price m ct ct (T j) ≤ price m ct ct fun i => A i j := by
    intro j hj
    refine (hT' j hj).2 _ (fun i hi => hA' i j hi hj) fun i hi => ?_
    have := hsingle (fun i => A i j) i hi
    have h2 := hAb j hj
    exact (this.trans h2).trans (by norm_num)
  have hTb : ∀ i < m, ∀ j < links.length, |T j i| ≤ 1000000000 := by
    intro i hi j hj
    have h1 := hsingle (T j) i hi
    have h2 := hpT j hj
    rw [price_symm, price_symm] at h2
    exact h1.trans (h2.trans (hAb j hj))
  have hpS : ∀ i < m, price links.length cs cs (S i) ≤ price links.length cs cs fun j => A i j - T j i := by
    intro i hi
    refine (hS' i hi).2 (φ i) _ ?_ ?_
    · intro j a b hj
      have hj' := (List.getElem?_eq_some_iff.mp hj).1
      rw [← changeOn_some (u := φ i) hj, hA' i j hi hj', (hT' j hj').1 i hi]
      push_cast; ring
    · intro j hj
      have h1 := hTb i hi j hj
      have h2 := hsingle (fun i => A i j) i hi
      have h3 := hAb j hj
      have h4 := abs_sub (A i j) (T j i)
      have h5 := h2.trans h3
      linarith
  refine ⟨fun i j => T j i + S i j - A i j, ?_, ?_⟩
  · intro i hi j hj
    have hl : links[j]? = some (links[j].1, links[j].2) := by rw [List.getElem?_eq_getElem hj]
    rw [changeOn_some hl, (hS' i hi).1 j _ _ hl, hA' i j hi hj, (hT' j hj).1 i hi]
    push_cast; ring
  · refine (two_steps hct0 hcs A (fun i j => T j i) S hpT hpS).trans ?_
    refine mul_le_mul_of_nonneg_left ?_ (by norm_num)
    refine weighted_mono hct0 hcs fun i hi j hj => ?_
    rw [abs_of_nonneg (aliasedCycles_nonneg ht _)]
    exact hal i hi j hj

/-- C94, `unwrap_cube` with acquisitions. `ψ s` are the true phases of acquisition `s`: they differ from the data by whole cycles.
Along the links of the image, the unwrapped interferograms change by the true change and whole cycles `e i j`; weighted with the
costs of both steps, these are at most four times as many as the true change aliases. -/
theorem C94_cube_slc (tau : K) (ht : 1 / 1000 < tau) (solver : FlowSolver) (hs : SolverOptimal solver) (e : Emcf)
    (gt gs : PlanarGraph) (hct : PlanarContract gt.npoints gt.links gt.cycles) (hmt : ormcf gt = .ok e.time)
    (hcs : PlanarContract gs.npoints gs.links gs.cycles) (hms : ormcf gs = .ok e.space)
    (hb : 0 < e.settings.linksPerBatch) (ct cs : List ℤ)
    (hselt : SelectedCost e.settings.tCostType gt.links.length e.tDist e.tCent ct)
    (hsels : SelectedCost e.settings.sCostType gs.links.length e.sDist e.sCent cs)
    (hctl : ct.length = gt.links.length) (hct0 : ∀ v ∈ ct, 0 < v)
    (hcsl : cs.length = gs.links.length) (hcs0 : ∀ v ∈ cs, 0 ≤ v)
    (w : CubeInput K) (hw : w.data.length = gt.npoints) (ψ : Nat → Nat → K)
    (hψ : ∀ s < gt.npoints, ∀ p < gs.npoints, ∃ k : ℤ, ψ s p = (w.data.getD s []).getD p 0 + (k : K) * tau)
    (hbig : ∀ j < gs.links.length, ∑ i ∈ range gt.links.length,
      ct.getD i 0 * aliasedCycles tau (changeOn gs.links (fun p => changeOn gt.links (fun s => ψ s p) i) j) ≤ 1000000000)
    (oT : Nat → List Nat → List Nat) (oS : List Nat → List Nat)
    (hoT : ∀ k l, (oT k l).Perm l) (hoS : ∀ l, (oS l).Perm l) (out : List (List K))
    (h : unwrapCube tau solver e w oT oS = .ok out) :
    ∃ err : Nat → Nat → ℤ,
      (∀ i < gt.links.length, ∀ j < gs.links.length, changeOn gs.links (fun p => (out.getD i []).getD p 0) j =
        changeOn gs.links (fun p => changeOn gt.links (fun s => ψ s p) i) j + (err i j : K) * tau) ∧
      weighted gt.links.length gs.links.length ct cs err ≤ 4 * weighted gt.links.length gs.links.length ct cs fun i j =>
        aliasedCycles tau (changeOn gs.links (fun p => changeOn gt.links (fun s => ψ s p) i) j) := by
  have h0 : (0 : K) < tau := lt_trans (by norm_num) ht
  obtain ⟨grad, hgt, hgs⟩ := C68_cube_slc tau ht solver hs e gt gs hct hmt hcs hms hb ct cs hselt hsels hctl
    (fun v hv => (hct0 v hv).le) hcsl hcs0 w hw oT oS hoT hoS out h
  have hA : ∀ i < gt.links.length, ∀ j < gs.links.length, ∃ a : ℤ,
      changeOn gs.links (fun p => changeOn gt.links (fun s => ψ s p) i) j = phaseDiff tau
        (ifgPhase tau w.data (gt.links.getD i (0, 0)).1 (gt.links.getD i (0, 0)).2 (gs.links.getD j (0, 0)).1)
        (ifgPhase tau w.data (gt.links.getD i (0, 0)).1 (gt.links.getD i (0, 0)).2 (gs.links.getD j (0, 0)).2) + (a : K) * tau := by
    intro i hi j hj
    have hli : gt.links[i]? = some (gt.links[i].1, gt.links[i].2) := by rw [List.getElem?_eq_getElem hi]
    have hlj : gs.links[j]? = some (gs.links[j].1, gs.links[j].2) := by rw [List.getElem?_eq_getElem hj]
    rw [changeOn_some hlj, changeOn_some hli, changeOn_some hli, List.getD_eq_getElem _ _ hi, List.getD_eq_getElem _ _ hj]
    have ot := hct.ordered gt.links[i].1 gt.links[i].2 (List.getElem_mem hi)
    have os := hcs.ordered gs.links[j].1 gs.links[j].2 (List.getElem_mem hj)
    obtain ⟨k1, e1⟩ := hψ gt.links[i].1 (by omega) gs.links[j].1 (by omega)
    obtain ⟨k2, e2⟩ := hψ gt.links[i].2 (by omega) gs.links[j].1 (by omega)
    obtain ⟨k3, e3⟩ := hψ gt.links[i].1 (by omega) gs.links[j].2 (by omega)
    obtain ⟨k4, e4⟩ := hψ gt.links[i].2 (by omega) gs.links[j].2 (by omega)
    have pd : ∀ x y : K, ∃ k : ℤ, phaseDiff tau x y = y - x + (k : K) * tau := fun x y => (C07_phase_diff_wraps tau h0 x y 0).1
    obtain ⟨r1, g1⟩ := pd (ifgPhase tau w.data gt.links[i].1 gt.links[i].2 gs.links[j].1)
      (ifgPhase tau w.data gt.links[i].1 gt.links[i].2 gs.links[j].2)
    obtain ⟨r2, g2⟩ := pd ((w.data.getD gt.links[i].1 []).getD gs.links[j].1 0) ((w.data.getD gt.links[i].2 []).getD gs.links[j].1 0)
    obtain ⟨r3, g3⟩ := pd ((w.data.getD gt.links[i].1 []).getD gs.links[j].2 0) ((w.data.getD gt.links[i].2 []).getD gs.links[j].2 0)
    rw [g1, e1, e2, e3, e4]
    unfold ifgPhase
    rw [g2, g3]
    exact ⟨k4 - k3 - k2 + k1 + r2 - r3 - r1, by push_cast; ring⟩
  refine aliasing_core h0 gt.links.length gs.links ct cs hctl hct0 hcs0 _ (fun i j => ?_)
    (fun i j => (grad.getD i []).getD j 0) _ (fun i p => changeOn gt.links (fun s => ψ s p) i) hA ?_ hgs hbig
  · have := phaseDiff_abs h0 (ifgPhase tau w.data (gt.links.getD i (0, 0)).1 (gt.links.getD i (0, 0)).2 (gs.links.getD j (0, 0)).1)
      (ifgPhase tau w.data (gt.links.getD i (0, 0)).1 (gt.links.getD i (0, 0)).2 (gs.links.getD j (0, 0)).2) 0
    rwa [sub_zero] at this
  · intro j hj
    have hlj : gs.links[j]? = some (gs.links[j].1, gs.links[j].2) := by rw [List.getElem?_eq_getElem hj]
    obtain ⟨_, k, hk1, hk2⟩ := hgt j _ _ hlj
    have ej : gs.links.getD j (0, 0) = gs.links[j] := List.getD_eq_getElem _ _ hj
    refine ⟨k, fun i hi => ?_, fun n hn hcap => ?_⟩
    · have hli : gt.links[i]? = some (gt.links[i].1, gt.links[i].2) := by rw [List.getElem?_eq_getElem hi]
      have ei : gt.links.getD i (0, 0) = gt.links[i] := List.getD_eq_getElem _ _ hi
      rw [ei, ej]
      exact hk1 i _ _ hli
    · refine hk2 ((List.range gt.links.length).map fun i =>
        (fun s => ψ s gs.links[j].2 - ψ s gs.links[j].1) (gt.links.getD i (0, 0)).2 -
        (fun s => ψ s gs.links[j].2 - ψ s gs.links[j].1) (gt.links.getD i (0, 0)).1) n (by simp) ?_ ?_ hcap
      · intro i s t hli
        have hi := (List.getElem?_eq_some_iff.mp hli).1
        have := hn i hi
        rw [changeOn_some hlj, changeOn_some hli, changeOn_some hli] at this
        have ei : gt.links.getD i (0, 0) = (s, t) := by rw [List.getD_eq_getElem?_getD, hli]; rfl
        rw [ei, ej] at this
        rw [range_getD _ hi, ei]
        simp only
        rw [← this]
        ring
      · intro cyc hcyc
        exact circulation_gradient hct (fun s => ψ s gs.links[j].2 - ψ s gs.links[j].1) hcyc

/-- C94, `unwrap_one`. `φ` are true phases: they differ from the data by whole cycles. Along the links, the values returned change
by the true change and whole cycles `err`; priced at the cheaper direction of each link, these cost at most twice what the aliased
cycles cost in the dearer direction. -/
theorem C94_unwrap_one (tau : K) (ht : 1 / 1000 < tau) (g : PlanarGraph) (m : Mcf) (solver : FlowSolver)
    (hc : PlanarContract g.npoints g.links g.cycles) (hne : g.links ≠ []) (hm : ormcf g = .ok m)
    (hs : SolverOptimal solver) (w : List K) (cost : List ℤ) (revcost : Option (List ℤ)) (c r : List ℤ)
    (hcost : CostOn g.links.length cost c) (hrev : CostOn g.links.length (revcost.getD cost) r)
    (hc0 : ∀ v ∈ c, 0 ≤ v) (hr0 : ∀ v ∈ r, 0 ≤ v) (φ : Nat → K)
    (hφ : ∀ p < g.npoints, ∃ k : ℤ, φ p = w.getD p 0 + (k : K) * tau)
    (hbig : ∀ i < g.links.length, aliasedCycles tau (changeOn g.links φ i) ≤ 2147483647) (unw : List K) (flows : List ℤ)
    (h : unwrapOne tau solver m w cost revcost = .ok (unw, flows)) :
    ∃ err : Nat → ℤ,
      (∀ i < g.links.length, changeOn g.links (fun p => unw.getD p 0) i = changeOn g.links φ i + (err i : K) * tau) ∧
      ∑ i ∈ range g.links.length, min (c.getD i 0) (r.getD i 0) * |err i| ≤
        2 * ∑ i ∈ range g.links.length, max (c.getD i 0) (r.getD i 0) * aliasedCycles tau (changeOn g.links φ i) := by
  have h0 : (0 : K) < tau := lt_trans (by norm_num) ht
  obtain ⟨k, hk, hopt⟩ := C68_unwrap_one tau ht g m solver hc hne hm hs w cost revcost c r hcost hrev hc0 hr0 unw flows h
  set G : Nat → K := fun i => phaseDiff tau (w.getD (g.links.getD i (0, 0)).1 0) (w.getD (g.links.getD i (0, 0)).2 0) with hG
  have hA : ∀ i, ∃ a : ℤ, i < g.links.length → changeOn g.links φ i = G i + (a : K) * tau := by
    intro i
    by_cases hi : i < g.links.length
    swap; · exact ⟨0, fun h => absurd h hi⟩
    have hl : g.links[i]? = some (g.links[i].1, g.links[i].2) := by rw [List.getElem?_eq_getElem hi]
    have os := hc.ordered g.links[i].1 g.links[i].2 (List.getElem_mem hi)
    obtain ⟨k1, e1⟩ := hφ g.links[i].1 (by omega)
    obtain ⟨k2, e2⟩ := hφ g.links[i].2 (by omega)
    obtain ⟨k3, e3⟩ := (C07_phase_diff_wraps tau h0 (w.getD g.links[i].1 0) (w.getD g.links[i].2 0) 0).1
    refine ⟨k2 - k1 - k3, fun _ => ?_⟩
    rw [changeOn_some hl, e1, e2, hG]
    simp only [List.getD_eq_getElem _ _ hi]
    simp only [List.getD_eq_getElem?_getD] at *
    rw [e3]
    push_cast; ring
  choose A hA using hA
  have hal : ∀ i < g.links.length, |A i| ≤ aliasedCycles tau (changeOn g.links φ i) := by
    intro i hi
    refine abs_le_aliased h0 ?_ (hA i hi)
    have := phaseDiff_abs h0 (w.getD (g.links.getD i (0, 0)).1 0) (w.getD (g.links.getD i (0, 0)).2 0) 0
    rwa [sub_zero] at this
  have hp := hopt φ A (fun i a b hi => by
    have hi' := (List.getElem?_eq_some_iff.mp hi).1
    rw [← changeOn_some (u := φ) hi, hA i hi']) fun i hi => (hal i hi).trans (hbig i hi)
  have hlow : ∀ x : Nat → ℤ, ∑ i ∈ range g.links.length, min (c.getD i 0) (r.getD i 0) * |x i| ≤ price g.links.length c r x := by
    intro x
    refine Finset.sum_le_sum fun i _ => ?_
    split
    · rename_i hx
      rw [abs_of_nonneg hx]
      exact mul_le_mul_of_nonneg_right (min_le_left _ _) hx
    · rename_i hx
      rw [abs_of_neg (by omega)]
      exact mul_le_mul_of_nonneg_right (min_le_right _ _) (by omega)
  have hup : price g.links.length c r A ≤
      ∑ i ∈ range g.links.length, max (c.getD i 0) (r.getD i 0) * aliasedCycles tau (changeOn g.links φ i) := by
    refine Finset.sum_le_sum fun i hi => ?_
    have h1 := hal i (Finset.mem_range.mp hi)
    have hm0 : 0 ≤ max (c.getD i 0) (r.getD i 0) := le_max_of_le_left (getD_nonneg hc0 i)
    refine le_trans ?_ (mul_le_mul_of_nonneg_left h1 hm0)
    split
    · rename_i hx
      rw [abs_of_nonneg hx]
      exact mul_le_mul_of_nonneg_right (le_max_left _ _) hx
    · rename_i hx
      rw [abs_of_neg (by omega)]
      exact mul_le_mul_of_nonneg_right (le_max_right _ _) (by omega)
  refine ⟨fun i => k i - A i, fun i hi => ?_, ?_⟩
  · have hl : g.links[i]? = some (g.links[i].1, g.links[i].2) := by rw [List.getElem?_eq_getElem hi]
    rw [changeOn_some hl, hk i _ _ hl, hA i hi]
    push_cast; ring
  · have : ∑ i ∈ range g.links.length, min (c.getD i 0) (r.getD i 0) * |k i - A i| ≤
        ∑ i ∈ range g.links.length, min (c.getD i 0) (r.getD i 0) * |k i| +
        ∑ i ∈ range g.links.length, min (c.getD i 0) (r.getD i 0) * |A i| := by
      rw [← Finset.sum_add_distrib]
      refine Finset.sum_le_sum fun i _ => ?_
      rw [← mul_add]
      exact mul_le_mul_of_nonneg_left (abs_sub _ _) (le_min (getD_nonneg hc0 i) (getD_nonneg hr0 i))
    have h1 := hlow k
    have h2 := hlow A
    linarith

/-- C94, `unwrap_cube` with interferograms. `φ i` are the true phases of interferogram `i`: they differ from the data by whole
cycles, and the true changes along the links close around the temporal cycles to less than half a cycle. -/
theorem C94_cube_ifg (tau : K) (ht : 1 / 1000 < tau) (solver : FlowSolver) (hs : SolverOptimal solver) (e : Emcf)
    (gt gs : PlanarGraph) (hct : PlanarContract gt.npoints gt.links gt.cycles) (hmt : ormcf gt = .ok e.time)
    (hcs : PlanarContract gs.npoints gs.links gs.cycles) (hms : ormcf gs = .ok e.space)
    (hb : 0 < e.settings.linksPerBatch) (ct cs : List ℤ)
    (hselt : SelectedCost e.settings.tCostType gt.links.length e.tDist e.tCent ct)
    (hsels : SelectedCost e.settings.sCostType gs.links.length e.sDist e.sCent cs)
    (hctl : ct.length = gt.links.length) (hct0 : ∀ v ∈ ct, 0 < v)
    (hcsl : cs.length = gs.links.length) (hcs0 : ∀ v ∈ cs, 0 ≤ v)
    (w : CubeInput K) (hw : w.data.length = gt.links.length) (hne : gt.npoints ≠ gt.links.length) (φ : Nat → Nat → K)
    (hφ : ∀ i < gt.links.length, ∀ p < gs.npoints, ∃ k : ℤ, φ i p = (w.data.getD i []).getD p 0 + (k : K) * tau)
    (hclose : ∀ j < gs.links.length, ∀ cyc ∈ gt.cycles,
      |circulation gt.links ((List.range gt.links.length).map fun i => changeOn gs.links (φ i) j) cyc| < tau / 2)
    (hbig : ∀ j < gs.links.length, ∑ i ∈ range gt.links.length,
      ct.getD i 0 * aliasedCycles tau (changeOn gs.links (φ i) j) ≤ 1000000000)
    (oT : Nat → List Nat → List Nat) (oS : List Nat → List Nat)
    (hoT : ∀ k l, (oT k l).Perm l) (hoS : ∀ l, (oS l).Perm l) (out : List (List K))
    (h : unwrapCube tau solver e w oT oS = .ok out) :
    ∃ err : Nat → Nat → ℤ,
      (∀ i < gt.links.length, ∀ j < gs.links.length, changeOn gs.links (fun p => (out.getD i []).getD p 0) j =
        changeOn gs.links (φ i) j + (err i j : K) * tau) ∧
      weighted gt.links.length gs.links.length ct cs err ≤ 4 * weighted gt.links.length gs.links.length ct cs fun i j =>
        aliasedCycles tau (changeOn gs.links (φ i) j) := by
  have h0 : (0 : K) < tau := lt_trans (by norm_num) ht
  obtain ⟨grad, hgt, hgs⟩ := C68_cube_ifg tau ht solver hs e gt gs hct hmt hcs hms hb ct cs hselt hsels hctl
    (fun v hv => (hct0 v hv).le) hcsl hcs0 w hw hne oT oS hoT hoS out h
  have hA : ∀ i < gt.links.length, ∀ j < gs.links.length, ∃ a : ℤ, changeOn gs.links (φ i) j = phaseDiff tau
        ((w.data.getD i []).getD (gs.links.getD j (0, 0)).1 0) ((w.data.getD i []).getD (gs.links.getD j (0, 0)).2 0)
          + (a : K) * tau := by
    intro i hi j hj
    have hlj : gs.links[j]? = some (gs.links[j].1, gs.links[j].2) := by rw [List.getElem?_eq_getElem hj]
    rw [changeOn_some hlj, List.getD_eq_getElem _ _ hj]
    have os := hcs.ordered gs.links[j].1 gs.links[j].2 (List.getElem_mem hj)
    obtain ⟨k1, e1⟩ := hφ i hi gs.links[j].1 (by omega)
    obtain ⟨k2, e2⟩ := hφ i hi gs.links[j].2 (by omega)
    obtain ⟨r1, g1⟩ := (C07_phase_diff_wraps tau h0 ((w.data.getD i []).getD gs.links[j].1 0)
      ((w.data.getD i []).getD gs.links[j].2 0) 0).1
    rw [g1, e1, e2]
    exact ⟨k2 - k1 - r1, by push_cast; ring⟩
  refine aliasing_core h0 gt.links.length gs.links ct cs hctl hct0 hcs0 _ (fun i j => ?_)
    (fun i j => (grad.getD i []).getD j 0) _ φ hA ?_ hgs hbig
  · have := phaseDiff_abs h0 ((w.data.getD i []).getD (gs.links.getD j (0, 0)).1 0)
      ((w.data.getD i []).getD (gs.links.getD j (0, 0)).2 0) 0
    rwa [sub_zero] at this
  · intro j hj
    have hlj : gs.links[j]? = some (gs.links[j].1, gs.links[j].2) := by rw [List.getElem?_eq_getElem hj]
    obtain ⟨_, k, hk1, hk2⟩ := hgt j _ _ hlj
    have ej : gs.links.getD j (0, 0) = gs.links[j] := List.getD_eq_getElem _ _ hj
    refine ⟨k, fun i hi => ?_, fun n hn hcap => ?_⟩
    · rw [ej]
      exact hk1 i hi
    · refine hk2 ((List.range gt.links.length).map fun i => changeOn gs.links (φ i) j) n (by simp) ?_ (hclose j hj) hcap
      intro i hi
      have := hn i hi
      rw [ej] at this
      rw [range_getD _ hi]
      exact this

end
end Spurt
