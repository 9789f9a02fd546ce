import Verif.Props.Emcf

/-!
# C21: `unwrap_cube` does not fail on wrapped data
-/

namespace Spurt
open Spec Finset

section
variable {K : Type} [Field K] [LinearOrder K] [IsStrictOrderedRing K] [FloorRing K]

theorem residuesFromGradients_contract (tau : K) {g : PlanarGraph} {m : Mcf}
    (hc : PlanarContract g.npoints g.links g.cycles) (hm : ormcf g = .ok m) (x : List K)
    (hx : x.length = g.links.length) :
    ∃ res, computeResiduesFromGradients tau m x = .ok res ∧
      res.length = g.cycles.length + 1 ∧ res.sum = 0 ∧
      ∀ k (hk : k < g.cycles.length), res.getD (k + 1) 0 =
        rint (circulation g.links x g.cycles[k] / tau) := by
  obtain ⟨hmg, hmd⟩ := dual_of_contract hc hm
  rw [residuesFromGradients_eq tau m x (by rw [hmg, hx]) (by rw [hmg, hmd]; simp)]
  refine ⟨_, rfl, by simp [hmg], by simp, fun k hk => ?_⟩
  simp only [hmg]
  rw [circulation_dual hc _ hk]
  simp only [List.getD_cons_succ]
  rw [List.getD_eq_getElem?_getD, List.getElem?_map, List.getElem?_range hk]
  simp only [Option.map_some, Option.getD_some, hmd]

theorem list_eq_range {M : Type*} [Zero M] (x : List M) :
    x = (List.range x.length).map fun i => x.getD i 0 := by
  apply List.ext_getElem
  · simp
  · intro i h1 h2; simp [List.getD_eq_getElem?_getD, h1]

/-- One interferogram whose gradients are differences plus whole cycles can always be
unwrapped in space. -/
theorem unwrapIfg_returns {tau : K} (ht : 0 < tau) {g : PlanarGraph} {m : Mcf} {solver : FlowSolver}
    (hc : PlanarContract g.npoints g.links g.cycles) (hne : g.links ≠ [])
    (hconn : Connected g.npoints g.links) (hgen : CyclesGenerate K g.links g.cycles)
    (hm : ormcf g = .ok m) (hsound : SolverSound solver) (hcomp : SolverComplete solver)
    (cost c : List ℤ) (hcost : CostOn g.links.length cost c) (hc0 : ∀ v ∈ c, 0 ≤ v)
    (G : List K) (hG : G.length = g.links.length) (φ : Nat → K) (M : Nat → ℤ)
    (hGM : ∀ i < g.links.length, G.getD i 0 =
      φ (g.links.getD i (0, 0)).2 - φ (g.links.getD i (0, 0)).1 + tau * (M i : K))
    (hM : ∀ i < g.links.length, |M i| ≤ int32Max) :
    ∃ out, unwrapIfg tau solver m cost G = .ok out ∧ out.length = g.npoints := by
  obtain ⟨hmg, hmd⟩ := dual_of_contract hc hm
  obtain ⟨res, hres, hrl, hrs, hrk⟩ := residuesFromGradients_contract tau hc hm G hG
  have hGr : G = (List.range g.links.length).map fun i => G.getD i 0 := by
    conv_lhs => rw [list_eq_range G, hG]
  have hcirG : ∀ k (hk : k < g.cycles.length), circulation g.links G g.cycles[k] =
      tau * ((circulation g.links ((List.range g.links.length).map M) g.cycles[k] : ℤ) : K) := by
    intro k hk
    rw [hGr]
    have e1 : (List.range g.links.length).map (fun i => G.getD i 0) =
        (List.range g.links.length).map fun i =>
          (φ (g.links.getD i (0, 0)).2 - φ (g.links.getD i (0, 0)).1) + tau * ((M i : ℤ) : K) := by
      apply List.map_congr_left
      intro i hi
      exact hGM i (List.mem_range.mp hi)
    rw [e1, circulation_add_int, circulation_gradient hc φ (List.getElem_mem hk), zero_add]
  have hrk' : ∀ k (hk : k < g.cycles.length), res.getD (k + 1) 0 =
      circulation g.links ((List.range g.links.length).map M) g.cycles[k] := by
    intro k hk
    rw [hrk k hk, hcirG k hk, mul_comm, mul_div_assoc, div_self ht.ne', mul_one, rint_intCast]
  -- the whole cycles themselves are a bounded correction
  have hneg : ∀ cyc, circulation g.links ((List.range g.links.length).map fun i => - M i) cyc =
      - circulation g.links ((List.range g.links.length).map M) cyc := by
    intro cyc
    have h1 := circulation_add_int (-1 : ℚ) g.links (fun _ => 0) M cyc
    have h2 := circulation_add_int (1 : ℚ) g.links (fun _ => 0) (fun i => - M i) cyc
    have e : (fun i => (0 : ℚ) + 1 * (((- M i : ℤ)) : ℚ)) = fun i => (0 : ℚ) + (-1) * ((M i : ℤ) : ℚ) := by
      funext i; push_cast; ring
    rw [e, h1] at h2
    have h3 : ((circulation g.links ((List.range g.links.length).map fun i => - M i) cyc : ℤ) : ℚ) =
        ((- circulation g.links ((List.range g.links.length).map M) cyc : ℤ) : ℚ) := by
      rw [Int.cast_neg]; linarith
    exact Int.cast_injective h3
  obtain ⟨fl, hfl⟩ := residuesToFlows_returns hc hm hcomp res cost none c c hcost hcost hc0 hc0 hrl hrs
    ⟨(List.range g.links.length).map fun i => - M i,
      ⟨by simp, fun k hk => by rw [hneg, hrk' k hk]⟩, by
        intro v hv
        obtain ⟨i, hi, rfl⟩ := List.mem_map.mp hv
        rw [abs_neg]; exact hM i (List.mem_range.mp hi)⟩
  have hcan := C10_flows_cancel g m solver hc hm hsound res cost none fl hfl
  -- the corrected gradients have no circulation
  have hflr : (List.range g.links.length).map (fun i => fl.getD i 0) = fl := by
    conv_rhs => rw [list_eq_range fl, hcan.1]
  obtain ⟨ψ, hψ⟩ := hgen ((List.range g.links.length).map fun i =>
      G.getD i 0 + tau * ((fl.getD i 0 : ℤ) : K)) (by simp) (by
    intro cyc hcy
    obtain ⟨k, hk, rfl⟩ := List.mem_iff_getElem.mp hcy
    rw [circulation_add_int, hflr, ← hGr, hcirG k hk, hcan.2 k hk, hrk' k hk]
    push_cast; ring)
  have hff := C13_flood_fill_recovers tau G g.links fl "gradients" g.npoints ψ hne
    (fun a b hab => ⟨by have := hc.ordered a b hab; omega, (hc.ordered a b hab).2⟩) hcan.1
    (.inr ⟨rfl, hG⟩) hconn (by
      intro i a b hi
      obtain ⟨hi', he⟩ := List.getElem?_eq_some_iff.mp hi
      have hab : (a, b) ∈ g.links := List.mem_of_getElem? hi
      have h1 := hψ a b hab
      rw [onLink_range] at h1
      have hidx : g.links.idxOf (a, b) = i := by
        rw [← he]; exact hc.distinct.idxOf_getElem i hi'
      rw [hidx, if_pos hi'] at h1
      unfold inputGradient
      rw [if_neg (by decide)]
      exact h1)
  have huw : unwrapIfg tau solver m cost G =
      floodFill tau G g.links fl "gradients" := by
    unfold unwrapIfg
    rw [hres]
    simp only [Bind.bind, Except.bind, hfl, hmg]
  exact ⟨_, huw.trans hff, by simp⟩

theorem abs_int_le_of (tau : K) (ht : 0 < tau) (n : ℤ) (B : ℤ) (h : |tau * (n : K)| < tau * ((B : K) + 1)) :
    |n| ≤ B := by
  rw [abs_mul, abs_of_pos ht] at h
  have h2 : |(n : K)| < (B : K) + 1 := lt_of_mul_lt_mul_left h ht.le
  have h3 : ((|n| : ℤ) : K) < ((B + 1 : ℤ) : K) := by push_cast; exact h2
  have h4 : |n| < B + 1 := by exact_mod_cast h3
  omega

/-- A cheapest correction at costs of at least 1 is bounded by the price of any correction. -/
theorem cost_bound {n : Nat} {c x y : List ℤ} (hcl : c.length = n) (h1 : ∀ v ∈ c, 1 ≤ v) (M : ℤ) (hM : ∀ v ∈ c, v ≤ M)
    (hx : x.length = n) (hy : y.length = n) (h : correctionCost c c x ≤ correctionCost c c y) (B : ℤ)
    (hB : ∀ i < n, |y.getD i 0| ≤ B) : ∀ i < n, |x.getD i 0| ≤ n * M * B := by
  have hci : ∀ i < n, c.getD i 0 ∈ c := by
    intro i hi
    rw [List.getD_eq_getElem?_getD, List.getElem?_eq_getElem (by omega)]
    exact List.getElem_mem _
  have e : ∀ z : List ℤ, z.length = n →
      correctionCost c c z = ∑ i ∈ range n, c.getD i 0 * |z.getD i 0| := by
    intro z hz
    unfold correctionCost
    rw [hz, sum_range_list]
    refine Finset.sum_congr rfl fun i hi => ?_
    rcases le_total 0 (z.getD i 0) with h0 | h0
    · rw [abs_of_nonneg h0, max_eq_left h0, max_eq_right (by omega)]; ring
    · rw [abs_of_nonpos h0, max_eq_right h0, max_eq_left (by omega)]; ring
  rw [e x hx, e y hy] at h
  intro i hi
  have hnn : ∀ j ∈ range n, 0 ≤ c.getD j 0 * |x.getD j 0| := fun j hj =>
    mul_nonneg (by have := h1 _ (hci j (Finset.mem_range.mp hj)); omega) (abs_nonneg _)
  calc |x.getD i 0| ≤ c.getD i 0 * |x.getD i 0| :=
        le_mul_of_one_le_left (abs_nonneg _) (h1 _ (hci i hi))
    _ ≤ ∑ i ∈ range n, c.getD i 0 * |x.getD i 0| :=
        Finset.single_le_sum (f := fun i => c.getD i 0 * |x.getD i 0|) hnn (Finset.mem_range.mpr hi)
    _ ≤ ∑ i ∈ range n, c.getD i 0 * |y.getD i 0| := h
    _ ≤ ∑ _i ∈ range n, M * B := Finset.sum_le_sum fun i hi => by
        have hi' := Finset.mem_range.mp hi
        have h2 := h1 _ (hci i hi')
        exact mul_le_mul (hM _ (hci i hi')) (hB i hi') (abs_nonneg _) (by have := hM _ (hci i hi'); omega)
    _ = n * M * B := by simp; ring

/-- C21. `unwrap_cube` returns for every stack of wrapped SLC phases: with an optimal and
complete flow solver, temporal costs of at least 1 (constant or by length; not too large in total),
non-negative spatial costs, a usable pool, and graphs meeting the planar contract, the spatial one connected and
triangulated (its cycles generate all closed walks). -/
theorem C21_cube_returns_costs (tau : K) (ht : 0 < tau) (solver : FlowSolver) (e : Emcf)
    (gt gs : PlanarGraph) (hct : PlanarContract gt.npoints gt.links gt.cycles)
    (hcs : PlanarContract gs.npoints gs.links gs.cycles) (hne : gs.links ≠ [])
    (hconn : Connected gs.npoints gs.links) (hgen : CyclesGenerate K gs.links gs.cycles)
    (hmt : ormcf gt = .ok e.time) (hms : ormcf gs = .ok e.space)
    (hopt : SolverOptimal solver) (hcomp : SolverComplete solver)
    (hb : 0 < e.settings.linksPerBatch)
    (tcost : List ℤ) (hcostT : costOf e.settings.tCostType e.nifgs e.tDist e.tCent = .ok tcost)
    (htl : tcost.length = gt.links.length) (ht1 : ∀ v ∈ tcost, 1 ≤ v) (M : ℤ) (htM : ∀ v ∈ tcost, v ≤ M)
    (cost c : List ℤ) (hcost : costOf e.settings.sCostType e.nlinks e.sDist e.sCent = .ok cost)
    (hcon : CostOn gs.links.length cost c) (hc0 : ∀ v ∈ c, 0 ≤ v)
    (hpool : 1 ≤ e.settings.sWorkerCount ∨ 2 ≤ e.cpuCount)
    (hsize : gt.links.length * M ≤ 1000000000)
    (w : CubeInput K) (hnd : w.ndim = 2) (htd : w.timeDim = 0) (hw : w.data.length = gt.npoints)
    (hrows : w.data ≠ []) (hcols : ∀ row ∈ w.data, row.length = gs.npoints)
    (hwrap : ∀ row ∈ w.data, ∀ x ∈ row, |x| ≤ tau / 2)
    (oT : Nat → List Nat → List Nat) (oS : List Nat → List Nat)
    (hoT : ∀ k l, (oT k l).Perm l) (hoS : ∀ l, (oS l).Perm l) :
    ∃ out, unwrapCube tau solver e w oT oS = .ok out := by
  obtain ⟨hmgt, hmdt⟩ := dual_of_contract hct hmt
  obtain ⟨hmgs, hmds⟩ := dual_of_contract hcs hms
  have hnif : e.nifgs = gt.links.length := by unfold Emcf.nifgs; rw [hmgt]
  have hnl : e.nlinks = gs.links.length := by unfold Emcf.nlinks; rw [hmgs]
  have hordt : ∀ a b, (a, b) ∈ gt.links → a ≤ b := fun a b hab => (hct.ordered a b hab).1.le
  have hlts : ∀ a b, (a, b) ∈ e.space.graph.links → a < b := by
    rw [hmgs]; exact fun a b hab => (hcs.ordered a b hab).1
  -- entries are wrapped
  have hen : ∀ s p, |elem w.data s p| ≤ tau / 2 := by
    intro s p
    unfold elem
    by_cases hs : s < w.data.length
    · have e1 : w.data.getD s [] = w.data[s] := by simp [List.getD_eq_getElem?_getD, hs]
      rw [e1]
      by_cases hp : p < w.data[s].length
      · have e2 : w.data[s].getD p 0 = w.data[s][p] := by simp [List.getD_eq_getElem?_getD, hp]
        rw [e2]
        exact hwrap _ (List.getElem_mem hs) _ (List.getElem_mem hp)
      · have e2 : w.data[s].getD p 0 = 0 := by
          rw [List.getD_eq_getElem?_getD, List.getElem?_eq_none (by omega)]; rfl
        rw [e2, abs_zero]; linarith
    · have e1 : w.data.getD s [] = [] := by
        rw [List.getD_eq_getElem?_getD, List.getElem?_eq_none (by omega)]; rfl
      rw [e1]; simp; linarith
  -- whole cycles of the wrapped double differences
  have hsg : ∀ i j, spaceGrad tau e w.data false i j = phaseDiff tau
      (ifgPhase tau w.data (gt.links.getD i (0, 0)).1 (gt.links.getD i (0, 0)).2
        (gs.links.getD j (0, 0)).1)
      (ifgPhase tau w.data (gt.links.getD i (0, 0)).1 (gt.links.getD i (0, 0)).2
        (gs.links.getD j (0, 0)).2) := by
    intro i j
    unfold spaceGrad ifgPhase elem
    simp only [hmgt, hmgs, Bool.false_eq_true, if_false]
  choose n hn using fun j i => doubleDiff_eq tau w.data (gt.links.getD i (0, 0)).1
    (gt.links.getD i (0, 0)).2 (gs.links.getD j (0, 0)).1 (gs.links.getD j (0, 0)).2
  have hnb : ∀ j i, |n j i| ≤ 2 := by
    intro j i
    apply abs_int_le_of tau ht
    have h1 := hn j i
    have h2 := phaseDiff_abs ht (ifgPhase tau w.data (gt.links.getD i (0, 0)).1
      (gt.links.getD i (0, 0)).2 (gs.links.getD j (0, 0)).1)
      (ifgPhase tau w.data (gt.links.getD i (0, 0)).1 (gt.links.getD i (0, 0)).2
        (gs.links.getD j (0, 0)).2) 0
    rw [sub_zero, h1] at h2
    have a1 := abs_le.mp (hen (gt.links.getD i (0, 0)).1 (gs.links.getD j (0, 0)).1)
    have a2 := abs_le.mp (hen (gt.links.getD i (0, 0)).1 (gs.links.getD j (0, 0)).2)
    have a3 := abs_le.mp (hen (gt.links.getD i (0, 0)).2 (gs.links.getD j (0, 0)).1)
    have a4 := abs_le.mp (hen (gt.links.getD i (0, 0)).2 (gs.links.getD j (0, 0)).2)
    have a5 := abs_le.mp h2
    unfold elem at a1 a2 a3 a4
    rw [abs_lt]
    push_cast
    constructor <;> linarith [a1.1, a1.2, a2.1, a2.2, a3.1, a3.2, a4.1, a4.2, a5.1, a5.2]
  -- temporal stage
  have hones : CostOn gt.links.length tcost tcost := ⟨htl, .inl rfl⟩
  have ht0 : ∀ v ∈ tcost, 0 ≤ v := fun v hv => by have := ht1 v hv; omega
  have htime : ∀ j < gs.links.length, ∃ fl : List ℤ,
      linkTime tau solver e w.data false tcost j = .ok fl ∧
      ∀ i < gt.links.length, |fl.getD i 0| ≤ 2 * (gt.links.length * M) := by
    intro j hj
    obtain ⟨hrl, hrs, hrk⟩ := linkResidues_contract tau hct hmt
      (fun i => spaceGrad tau e w.data false i j)
    have hrk' : ∀ k (hk : k < gt.cycles.length),
        (linkResidues tau e.time fun i => spaceGrad tau e w.data false i j).getD (k + 1) 0 =
        circulation gt.links ((List.range gt.links.length).map fun i => n j i) gt.cycles[k] := by
      intro k hk
      rw [hrk k hk]
      have e1 : (List.range gt.links.length).map (fun i => spaceGrad tau e w.data false i j) =
          (List.range gt.links.length).map fun i =>
            (((w.data.getD (gt.links.getD i (0, 0)).2 []).getD (gs.links.getD j (0, 0)).2 0 -
              (w.data.getD (gt.links.getD i (0, 0)).2 []).getD (gs.links.getD j (0, 0)).1 0) -
            ((w.data.getD (gt.links.getD i (0, 0)).1 []).getD (gs.links.getD j (0, 0)).2 0 -
              (w.data.getD (gt.links.getD i (0, 0)).1 []).getD (gs.links.getD j (0, 0)).1 0)) +
            tau * ((n j i : ℤ) : K) := by
        apply List.map_congr_left
        intro i _
        rw [hsg, hn]
      rw [e1, circulation_add_int, circulation_gradient hct (fun s =>
        (w.data.getD s []).getD (gs.links.getD j (0, 0)).2 0 -
        (w.data.getD s []).getD (gs.links.getD j (0, 0)).1 0) (List.getElem_mem hk), zero_add,
        mul_comm, mul_div_assoc, div_self ht.ne', mul_one, rint_intCast]
    have hcand : Cancels gt.links gt.cycles
        (linkResidues tau e.time fun i => spaceGrad tau e w.data false i j)
        ((List.range gt.links.length).map fun i => - n j i) := by
      refine ⟨by simp, fun k hk => ?_⟩
      rw [hrk' k hk]
      have h1 := circulation_add_int (-1 : ℚ) gt.links (fun _ => 0) (n j) gt.cycles[k]
      have h2 := circulation_add_int (1 : ℚ) gt.links (fun _ => 0) (fun i => - n j i) gt.cycles[k]
      have e : (fun i => (0 : ℚ) + 1 * (((- n j i : ℤ)) : ℚ)) =
          fun i => (0 : ℚ) + (-1) * ((n j i : ℤ) : ℚ) := by
        funext i; push_cast; ring
      rw [e, h1] at h2
      have h3 : ((circulation gt.links ((List.range gt.links.length).map fun i => - n j i)
          gt.cycles[k] : ℤ) : ℚ) =
          ((- circulation gt.links ((List.range gt.links.length).map (n j)) gt.cycles[k] : ℤ) : ℚ) := by
        rw [Int.cast_neg]; linarith
      exact Int.cast_injective h3
    have hcap : ∀ v ∈ (List.range gt.links.length).map (fun i => - n j i), |v| ≤ 2 := by
      intro v hv
      obtain ⟨i, _, rfl⟩ := List.mem_map.mp hv
      rw [abs_neg]; exact hnb j i
    obtain ⟨fl, hfl⟩ := residuesToFlows_returns hct hmt hcomp _ tcost
      none _ _ hones hones ht0 ht0 hrl hrs
      ⟨_, hcand, fun v hv => (hcap v hv).trans (by decide)⟩
    refine ⟨fl, hfl, ?_⟩
    have hch := C11_flows_cheapest gt e.time solver hct hmt hopt _ tcost
      none _ _ hones hones ht0 ht0 hrl fl hfl _ hcand
      (fun v hv => (hcap v hv).trans (by decide))
    have hcan := C10_flows_cancel gt e.time solver hct hmt hopt.1 _ _ none fl hfl
    have := cost_bound htl ht1 M htM hcan.1 hcand.1 hch 2 (by
      intro i hi
      rw [List.getD_eq_getElem?_getD, List.getElem?_map, List.getElem?_range hi]
      simp only [Option.map_some, Option.getD_some]
      rw [abs_neg]; exact hnb j i)
    intro i hi
    have h2 := this i hi
    linarith
  have hin : ∀ j < e.nlinks, LinkInput e w.data false j := by
    intro j hj
    rw [hnl] at hj
    have hmem : gs.links.getD j (0, 0) ∈ gs.links := by
      rw [List.getD_eq_getElem?_getD, List.getElem?_eq_getElem hj]; exact List.getElem_mem hj
    have hb1 := hcs.ordered (gs.links.getD j (0, 0)).1 (gs.links.getD j (0, 0)).2 hmem
    have hrw : ∀ l ∈ gt.links, l.1 < w.data.length ∧ l.2 < w.data.length := by
      intro l hl
      have := hct.ordered l.1 l.2 hl
      omega
    have hhead : (w.data.headD []).length = gs.npoints := by
      rcases hd : w.data with _ | ⟨r, rs⟩
      · exact absurd hd hrows
      · simp only [List.headD_cons]
        exact hcols r (by rw [hd]; simp)
    unfold LinkInput
    rw [hmgs, hmgt, hhead]
    exact ⟨by omega, hb1.2, by simp, fun _ => hrw⟩
  choose! fl hfl hflb using htime
  have hgrad := (inTime_iff tau solver e hct.distinct hordt hmt hmgt w.data false _ hcostT oT hoT hb
    ((List.range e.nifgs).map fun i => (List.range e.nlinks).map fun j =>
        spaceGrad tau e w.data false i j +
          tau * (((okVal (linkTime tau solver e w.data false tcost j)).getD
            i 0 : ℤ) : K))).mpr ⟨fun j hj => ⟨hin j hj, by
      rw [okVal_eq (hfl j (by rw [← hnl]; exact hj))]; exact hfl j (by rw [← hnl]; exact hj)⟩, rfl⟩
  set grad := (List.range e.nifgs).map fun i => (List.range e.nlinks).map fun j =>
        spaceGrad tau e w.data false i j +
          tau * (((okVal (linkTime tau solver e w.data false tcost j)).getD
            i 0 : ℤ) : K) with hgd
  rw [(C22_input_kind tau solver e w oT oS).1 hnd htd (by rw [hmgt]; exact hw), hgrad]
  simp only [Bind.bind, Except.bind]
  have hsp : ∀ i < gt.links.length, ∃ out, unwrapIfg tau solver e.space cost (grad.getD i []) = .ok out ∧
      out.length = gs.npoints := by
    intro i hi
    have hgi : grad.getD i [] = (List.range gs.links.length).map fun j =>
        spaceGrad tau e w.data false i j + tau * (((fl j).getD i 0 : ℤ) : K) := by
      rw [hgd, List.getD_eq_getElem?_getD, List.getElem?_map, List.getElem?_range (by rw [hnif]; exact hi)]
      simp only [Option.map_some, Option.getD_some, hnl]
      apply List.map_congr_left
      intro j hj
      rw [okVal_eq (hfl j (List.mem_range.mp hj))]
    rw [hgi]
    refine unwrapIfg_returns ht hcs hne hconn hgen hms hopt.1 hcomp cost c hcon hc0 _ (by simp)
      (fun p => ifgPhase tau w.data (gt.links.getD i (0, 0)).1 (gt.links.getD i (0, 0)).2 p)
      (fun j => - rint ((ifgPhase tau w.data (gt.links.getD i (0, 0)).1 (gt.links.getD i (0, 0)).2
          (gs.links.getD j (0, 0)).2 - ifgPhase tau w.data (gt.links.getD i (0, 0)).1
          (gt.links.getD i (0, 0)).2 (gs.links.getD j (0, 0)).1) / tau) + (fl j).getD i 0) ?_ ?_
    · intro j hj
      rw [List.getD_eq_getElem?_getD, List.getElem?_map, List.getElem?_range hj]
      simp only [Option.map_some, Option.getD_some]
      rw [hsg, phaseDiff_eq]
      push_cast; ring
    · intro j hj
      have h1 := hflb j hj i hi
      have h2 : |rint ((ifgPhase tau w.data (gt.links.getD i (0, 0)).1 (gt.links.getD i (0, 0)).2
          (gs.links.getD j (0, 0)).2 - ifgPhase tau w.data (gt.links.getD i (0, 0)).1
          (gt.links.getD i (0, 0)).2 (gs.links.getD j (0, 0)).1) / tau)| ≤ 2 := by
        apply abs_int_le_of tau ht
        have a1 := phaseDiff_abs ht ((w.data.getD (gt.links.getD i (0, 0)).1 []).getD
          (gs.links.getD j (0, 0)).1 0) ((w.data.getD (gt.links.getD i (0, 0)).2 []).getD
          (gs.links.getD j (0, 0)).1 0) 0
        have a2 := phaseDiff_abs ht ((w.data.getD (gt.links.getD i (0, 0)).1 []).getD
          (gs.links.getD j (0, 0)).2 0) ((w.data.getD (gt.links.getD i (0, 0)).2 []).getD
          (gs.links.getD j (0, 0)).2 0) 0
        have a3 := phaseDiff_abs ht (ifgPhase tau w.data (gt.links.getD i (0, 0)).1
          (gt.links.getD i (0, 0)).2 (gs.links.getD j (0, 0)).1)
          (ifgPhase tau w.data (gt.links.getD i (0, 0)).1 (gt.links.getD i (0, 0)).2
          (gs.links.getD j (0, 0)).2) 0
        rw [phaseDiff_eq tau (ifgPhase tau w.data (gt.links.getD i (0, 0)).1
          (gt.links.getD i (0, 0)).2 (gs.links.getD j (0, 0)).1)] at a3
        generalize rint (K := K) _ = r at a3 ⊢
        rw [sub_zero] at a1 a2 a3
        have b1 := abs_le.mp a1
        have b2 := abs_le.mp a2
        have b3 := abs_le.mp a3
        unfold ifgPhase at b3
        rw [abs_lt]
        push_cast
        constructor <;> linarith [b1.1, b1.2, b2.1, b2.2, b3.1, b3.2]
      have h3 := abs_add_le (- rint ((ifgPhase tau w.data (gt.links.getD i (0, 0)).1 (gt.links.getD i (0, 0)).2
          (gs.links.getD j (0, 0)).2 - ifgPhase tau w.data (gt.links.getD i (0, 0)).1
          (gt.links.getD i (0, 0)).2 (gs.links.getD j (0, 0)).1) / tau)) ((fl j).getD i 0)
      rw [abs_neg] at h3
      have : (int32Max : ℤ) = 2147483647 := rfl
      rw [this]
      linarith
  choose! out hout houtl using hsp
  refine ⟨(List.range gt.links.length).map out, ?_⟩
  rw [C23_rows tau solver e hlts cost hcost hpool grad oS hoS, hmgt, hmgs]
  refine ⟨by simp, fun i hi => ?_⟩
  have : ((List.range gt.links.length).map out).getD i [] = out i := by
    rw [List.getD_eq_getElem?_getD, List.getElem?_map, List.getElem?_range hi]; rfl
  rw [this]
  exact ⟨hout i hi, houtl i hi⟩

/-- C21. `unwrap_cube` returns for every stack of wrapped SLC phases with the default temporal costs. -/
theorem C21_cube_returns (tau : K) (ht : 0 < tau) (solver : FlowSolver) (e : Emcf)
    (gt gs : PlanarGraph) (hct : PlanarContract gt.npoints gt.links gt.cycles)
    (hcs : PlanarContract gs.npoints gs.links gs.cycles) (hne : gs.links ≠ [])
    (hconn : Connected gs.npoints gs.links) (hgen : CyclesGenerate K gs.links gs.cycles)
    (hmt : ormcf gt = .ok e.time) (hms : ormcf gs = .ok e.space)
    (hopt : SolverOptimal solver) (hcomp : SolverComplete solver)
    (hb : 0 < e.settings.linksPerBatch) (hct1 : e.settings.tCostType = "constant")
    (cost c : List ℤ) (hcost : costOf e.settings.sCostType e.nlinks e.sDist e.sCent = .ok cost)
    (hcon : CostOn gs.links.length cost c) (hc0 : ∀ v ∈ c, 0 ≤ v)
    (hpool : 1 ≤ e.settings.sWorkerCount ∨ 2 ≤ e.cpuCount)
    (hsize : gt.links.length ≤ 1000000000)
    (w : CubeInput K) (hnd : w.ndim = 2) (htd : w.timeDim = 0) (hw : w.data.length = gt.npoints)
    (hrows : w.data ≠ []) (hcols : ∀ row ∈ w.data, row.length = gs.npoints)
    (hwrap : ∀ row ∈ w.data, ∀ x ∈ row, |x| ≤ tau / 2)
    (oT : Nat → List Nat → List Nat) (oS : List Nat → List Nat)
    (hoT : ∀ k l, (oT k l).Perm l) (hoS : ∀ l, (oS l).Perm l) :
    ∃ out, unwrapCube tau solver e w oT oS = .ok out := by
  have hnif : e.nifgs = gt.links.length := by unfold Emcf.nifgs; rw [(dual_of_contract hct hmt).1]
  exact C21_cube_returns_costs tau ht solver e gt gs hct hcs hne hconn hgen hmt hms hopt hcomp hb
    (List.replicate gt.links.length 1) (by unfold costOf; rw [if_pos hct1, hnif]) (by simp) (by simp) 1 (by simp)
    cost c hcost hcon hc0 hpool (by rw [mul_one]; exact_mod_cast hsize) w hnd htd hw hrows hcols hwrap oT oS hoT hoS

end
end Spurt
