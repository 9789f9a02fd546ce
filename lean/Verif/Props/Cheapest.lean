import Verif.Spec.Cheapest
import Verif.Props.EmcfExamples
import Mathlib.Tactic.FieldSimp

/-!
# C68: unwrapping adds the cheapest whole cycles
-/

namespace Spurt
open Spec Finset

section
variable {K : Type} [Field K] [LinearOrder K] [IsStrictOrderedRing K] [FloorRing K]

theorem price_eq (n : Nat) (c r x : List ℤ) (hx : x.length = n) :
    price n c r (fun i => x.getD i 0) = correctionCost c r x := by
  unfold price correctionCost
  rw [hx, sum_range_list]
  refine Finset.sum_congr rfl fun i _ => ?_
  dsimp only
  split
  · rename_i h; rw [max_eq_left h, max_eq_right (by omega)]; ring
  · rename_i h; rw [max_eq_right (by omega), max_eq_left (by omega)]; ring

theorem price_congr {n : Nat} {c r : List ℤ} {k k' : Nat → ℤ} (h : ∀ i < n, k i = k' i) :
    price n c r k = price n c r k' :=
  Finset.sum_congr rfl fun i hi => by rw [h i (Finset.mem_range.mp hi)]

theorem selected_costOf {kind : String} {n : Nat} {dist cent : Except PyErr (List ℤ)} {c : List ℤ}
    (h : SelectedCost kind n dist cent c) : costOf kind n dist cent = .ok c := by
  unfold costOf
  cases h with
  | constant h => rw [if_pos h]
  | distance _ h h2 => rw [if_neg (by rw [h]; decide), if_pos h, h2]
  | centroid _ h h2 => rw [if_neg (by rw [h]; decide), if_neg (by rw [h]; decide), if_pos h, h2]

theorem range_getD {M : Type*} [Zero M] {n : Nat} (f : Nat → M) {i : Nat} (hi : i < n) :
    ((List.range n).map f).getD i 0 = f i := by
  rw [List.getD_eq_getElem?_getD, List.getElem?_map, List.getElem?_range hi]; rfl

/-- Numbers of cycles that close the gradients to less than half a cycle cancel the residues. -/
theorem cancels_of_close {tau : K} (ht : 0 < tau) {g : PlanarGraph} (x : Nat → K) (n : Nat → ℤ) (res : List ℤ)
    (hres : ∀ k (hk : k < g.cycles.length), res.getD (k + 1) 0 =
      rint (circulation g.links ((List.range g.links.length).map x) g.cycles[k] / tau))
    (hn : ∀ c ∈ g.cycles, |circulation g.links ((List.range g.links.length).map fun i => x i + tau * (n i : K)) c| < tau / 2) :
    Cancels g.links g.cycles res ((List.range g.links.length).map n) := by
  refine ⟨by simp, fun k hk => ?_⟩
  have h1 := hn _ (List.getElem_mem hk)
  rw [circulation_add_int] at h1
  rw [hres k hk]
  set C := circulation g.links ((List.range g.links.length).map x) g.cycles[k]
  set N := circulation g.links ((List.range g.links.length).map n) g.cycles[k]
  have : rint (C / tau) = -N := by
    rw [abs_lt] at h1
    have h2 : (C + tau * (N : K)) / tau = C / tau + N := by field_simp
    have h3 : -(1 / 2) < (C + tau * (N : K)) / tau := by rw [lt_div_iff₀ ht]; linarith [h1.1]
    have h4 : (C + tau * (N : K)) / tau < 1 / 2 := by rw [div_lt_iff₀ ht]; linarith [h1.2]
    apply rint_eq_of_lt <;> push_cast <;> linarith
  rw [this]; simp

theorem flows_price {tau : K} (ht : 0 < tau) {g : PlanarGraph} {m : Mcf} {solver : FlowSolver}
    (hc : PlanarContract g.npoints g.links g.cycles) (hm : ormcf g = .ok m) (hs : SolverOptimal solver)
    (x : Nat → K) (res : List ℤ) (hlen : res.length = g.cycles.length + 1)
    (hres : ∀ k (hk : k < g.cycles.length), res.getD (k + 1) 0 =
      rint (circulation g.links ((List.range g.links.length).map x) g.cycles[k] / tau))
    (cost : List ℤ) (revcost : Option (List ℤ)) (c r : List ℤ) (hcost : CostOn g.links.length cost c)
    (hrev : CostOn g.links.length (match revcost with | none => cost | some x => x) r)
    (hc0 : ∀ v ∈ c, 0 ≤ v) (hr0 : ∀ v ∈ r, 0 ≤ v) (flows : List ℤ)
    (h : residuesToFlows solver m res cost revcost = .ok flows) (n : Nat → ℤ)
    (hn : ∀ c ∈ g.cycles, |circulation g.links ((List.range g.links.length).map fun i => x i + tau * (n i : K)) c| < tau / 2)
    (hcap : ∀ i < g.links.length, |n i| ≤ 2147483647) :
    price g.links.length c r (fun i => flows.getD i 0) ≤ price g.links.length c r n := by
  have hfl : flows.length = g.links.length := (C10_flows_cancel g m solver hc hm hs.1 _ cost revcost flows h).1
  have hcan := cancels_of_close ht x n res hres hn
  have := C11_flows_cheapest g m solver hc hm hs res cost revcost c r hcost hrev hc0 hr0 hlen flows h _ hcan (by
    intro v hv
    obtain ⟨i, hi, rfl⟩ := List.mem_map.mp hv
    exact hcap i (List.mem_range.mp hi))
  rw [price_eq _ _ _ _ hfl]
  refine this.trans (le_of_eq ?_)
  rw [← price_eq g.links.length _ _ _ (by simp)]
  exact price_congr fun i hi => range_getD n hi

/-- Values whose differences are the gradients plus whole cycles close exactly. -/
theorem jumps_close {tau : K} (ht : 0 < tau) {g : PlanarGraph} (hc : PlanarContract g.npoints g.links g.cycles)
    {x alt : Nat → K} {n : Nat → ℤ} (h : Jumps tau g.links x alt n) :
    ∀ c ∈ g.cycles, |circulation g.links ((List.range g.links.length).map fun i => x i + tau * (n i : K)) c| < tau / 2 := by
  intro c hcy
  have e1 : ((List.range g.links.length).map fun i => x i + tau * (n i : K)) =
      (List.range g.links.length).map fun i => alt (g.links.getD i (0, 0)).2 - alt (g.links.getD i (0, 0)).1 := by
    apply List.map_congr_left
    intro i hi
    have hi' := List.mem_range.mp hi
    have hl : g.links[i]? = some (g.links[i].1, g.links[i].2) := by rw [List.getElem?_eq_getElem hi']
    have := h i _ _ hl
    simp only [List.getD_eq_getElem?_getD, hl, Option.getD_some]
    rw [this]; ring
  rw [e1, circulation_gradient hc alt hcy]
  simpa using by linarith

/-- Two whole numbers of cycles that agree up to the tolerance of `flood_fill` are equal. -/
theorem cycles_eq {tau : K} (ht : 1 / 1000 < tau) {a b : ℤ} {d g : K} (h1 : d = g + a * tau)
    (h2 : |d - (g + tau * (b : K))| ≤ 1 / 1000) : a = b := by
  have h0 : (0 : K) < tau := lt_trans (by norm_num) ht
  have e : d - (g + tau * (b : K)) = tau * ((a - b : ℤ) : K) := by rw [h1]; push_cast; ring
  rw [e, abs_mul, abs_of_pos h0] at h2
  have h3 : |((a - b : ℤ) : K)| < 1 := by
    by_contra hge
    have := mul_le_mul_of_nonneg_left (not_lt.mp hge) h0.le
    linarith
  have h4 : |a - b| < 1 := by
    have : ((|a - b| : ℤ) : K) < ((1 : ℤ) : K) := by push_cast; push_cast at h3; exact h3
    exact_mod_cast this
  have := Int.abs_lt_one_iff.mp h4
  omega

/-- C68, `unwrap_one`. Among all point values that differ from the data by whole cycles, the values
returned need the cheapest cycles on top of the wrapped differences: `cost` for a cycle up along a link
(from the lower to the higher index), `revcost` (or `cost`) for a cycle down. -/
theorem C68_unwrap_one (tau : K) (ht : 1 / 1000 < tau) (g : PlanarGraph) (m : Mcf) (solver : FlowSolver)
    (hc : PlanarContract g.npoints g.links g.cycles) (hne : g.links ≠ []) (hm : ormcf g = .ok m)
    (hs : SolverOptimal solver) (w : List K) (cost : List ℤ) (revcost : Option (List ℤ)) (c r : List ℤ)
    (hcost : CostOn g.links.length cost c) (hrev : CostOn g.links.length (revcost.getD cost) r)
    (hc0 : ∀ v ∈ c, 0 ≤ v) (hr0 : ∀ v ∈ r, 0 ≤ v) (unw : List K) (flows : List ℤ)
    (h : unwrapOne tau solver m w cost revcost = .ok (unw, flows)) :
    ∃ k : Nat → ℤ,
      Jumps tau g.links (fun i => phaseDiff tau (w.getD (g.links.getD i (0, 0)).1 0) (w.getD (g.links.getD i (0, 0)).2 0))
        (fun p => unw.getD p 0) k ∧
      ∀ (alt : Nat → K) (n : Nat → ℤ),
        Jumps tau g.links (fun i => phaseDiff tau (w.getD (g.links.getD i (0, 0)).1 0) (w.getD (g.links.getD i (0, 0)).2 0))
          alt n →
        (∀ i < g.links.length, |n i| ≤ 2147483647) →
        price g.links.length c r k ≤ price g.links.length c r n := by
  have h0 : (0 : K) < tau := lt_trans (by norm_num) ht
  obtain ⟨hmg, hmd⟩ := dual_of_contract hc hm
  set x : Nat → K := fun i => phaseDiff tau (w.getD (g.links.getD i (0, 0)).1 0) (w.getD (g.links.getD i (0, 0)).2 0) with hx
  unfold unwrapOne at h
  cases hr : computeResidues tau m w with
  | error e => rw [hr] at h; simp [Bind.bind, Except.bind] at h
  | ok res =>
    rw [hr] at h
    simp only [Bind.bind, Except.bind] at h
    cases hfl : residuesToFlows solver m res cost (some (revcost.getD cost)) with
    | error e => rw [hfl] at h; simp at h
    | ok fl =>
      rw [hfl] at h
      simp only at h
      cases hff : floodFill tau w m.graph.links fl "points" with
      | error e => rw [hff] at h; simp at h
      | ok u =>
        rw [hff] at h
        simp only [pure, Except.pure, Except.ok.injEq, Prod.mk.injEq] at h
        obtain ⟨rfl, rfl⟩ := h
        rw [hmg] at hff
        have hw : w.length = g.npoints := by
          by_contra hw
          unfold computeResidues at hr
          rw [hmg, if_pos hw] at hr; simp at hr
        obtain ⟨res', hr1, hr2⟩ := C09_residues_agree tau h0 g m hc hm (contract_cycles_ne hc hne) w hw
        rw [hr] at hr1
        simp only [Except.ok.injEq] at hr1
        subst hr1
        have hxl : (g.links.map fun l => phaseDiff tau (w.getD l.1 0) (w.getD l.2 0)) = (List.range g.links.length).map x := by
          apply List.ext_getElem
          · simp
          · intro i h1 h2
            have h1' : i < g.links.length := by simpa using h1
            simp [hx, List.getD_eq_getElem?_getD, h1']
        obtain ⟨res'', hr3, hlen, _, hres⟩ := residuesFromGradients_contract tau hc hm
          (g.links.map fun l => phaseDiff tau (w.getD l.1 0) (w.getD l.2 0)) (by simp)
        rw [hr2] at hr3
        simp only [Except.ok.injEq] at hr3
        subst hr3
        rw [hxl] at hres
        obtain ⟨hb, _, htol, _, hpts⟩ := C12_flood_fill_guarantee tau w g.links fl "points" u hff
        obtain ⟨_, _, hcong⟩ := hpts rfl
        refine ⟨fun i => fl.getD i 0, ?_, ?_⟩
        · intro i a b hi
          have hab : (a, b) ∈ g.links := List.mem_of_getElem? hi
          obtain ⟨ka, hka⟩ := hcong a (hb a b hab).1
          obtain ⟨kb, hkb⟩ := hcong b (hb a b hab).2
          have hxi : x i = phaseDiff tau (w.getD a 0) (w.getD b 0) := by
            simp only [hx, List.getD_eq_getElem?_getD, hi, Option.getD_some]
          have ht' := htol i a b hi
          unfold inputGradient at ht'
          rw [if_pos rfl, ← hxi] at ht'
          have e1 : u.getD b 0 - u.getD a 0 = x i + ((kb - ka + rint ((w.getD b 0 - w.getD a 0) / tau) : ℤ) : K) * tau := by
            rw [hka, hkb, hxi, phaseDiff_eq]; push_cast; ring
          have := cycles_eq ht e1 ht'
          simp only
          rw [e1, this]
        · intro alt n hj hcap
          exact flows_price h0 hc hm hs x res hlen hres cost (some (revcost.getD cost)) c r hcost hrev hc0 hr0 fl hfl n
            (jumps_close h0 hc hj) hcap

/-- C68, `unwrap_gradients_in_space`. For every interferogram, among all point values whose
differences are the gradients plus whole cycles (if there are any), the values returned need the cheapest cycles, at the
costs selected by `s_cost_type`. -/
theorem C68_space (tau : K) (ht : 1 / 1000 < tau) (solver : FlowSolver) (hs : SolverOptimal solver) (e : Emcf)
    (gs : PlanarGraph) (hc : PlanarContract gs.npoints gs.links gs.cycles) (hm : ormcf gs = .ok e.space)
    (c : List ℤ) (hsel : SelectedCost e.settings.sCostType gs.links.length e.sDist e.sCent c)
    (hcl : c.length = gs.links.length) (hc0 : ∀ v ∈ c, 0 ≤ v)
    (grad : List (List K)) (order : List Nat → List Nat) (horder : ∀ l, (order l).Perm l) (out : List (List K))
    (h : unwrapInSpace tau solver e grad order = .ok out) (i : Nat) (hi : i < e.time.graph.links.length)
    (hex : ∃ (alt : Nat → K) (n : Nat → ℤ), Jumps tau gs.links (fun j => (grad.getD i []).getD j 0) alt n) :
    ∃ k : Nat → ℤ, Jumps tau gs.links (fun j => (grad.getD i []).getD j 0) (fun p => (out.getD i []).getD p 0) k ∧
      ∀ (alt : Nat → K) (n : Nat → ℤ), Jumps tau gs.links (fun j => (grad.getD i []).getD j 0) alt n →
        (∀ j < gs.links.length, |n j| ≤ 2147483647) →
        price gs.links.length c c k ≤ price gs.links.length c c n := by
  obtain ⟨alt, n, hj⟩ := hex
  have h0 : (0 : K) < tau := lt_trans (by norm_num) ht
  obtain ⟨hmg, hmd⟩ := dual_of_contract hc hm
  have hcost : costOf e.settings.sCostType e.nlinks e.sDist e.sCent = .ok c := by
    unfold Emcf.nlinks; rw [hmg]; exact selected_costOf hsel
  have hlt : ∀ a b, (a, b) ∈ e.space.graph.links → a < b := by
    rw [hmg]; exact fun a b hab => (hc.ordered a b hab).1
  by_cases hpool : 1 ≤ e.settings.sWorkerCount ∨ 2 ≤ e.cpuCount
  swap
  · have : processPool (spatialWorkers e.cpuCount e.settings.sWorkerCount) = .error .valueError := by
      unfold processPool spatialWorkers
      rw [if_pos]
      split <;> omega
    unfold unwrapInSpace at h
    rw [hcost] at h
    simp [Bind.bind, Except.bind, this] at h
  rw [C23_rows tau solver e hlt c hcost hpool grad order horder] at h
  obtain ⟨hu, hul⟩ := h.2 i hi
  unfold unwrapIfg at hu
  set G := grad.getD i [] with hG
  set u := out.getD i [] with hudef
  cases hr : computeResiduesFromGradients tau e.space G with
  | error err => rw [hr] at hu; simp [Bind.bind, Except.bind] at hu
  | ok res =>
    have hGl : G.length = gs.links.length := by
      by_contra hne
      rw [(C08_gradient_residues_balanced tau e.space G).1 (by rw [hmg]; exact hne)] at hr
      simp at hr
    rw [hr] at hu
    simp only [Bind.bind, Except.bind] at hu
    cases hfl : residuesToFlows solver e.space res c with
    | error err => rw [hfl] at hu; simp at hu
    | ok fl =>
      rw [hfl] at hu
      simp only [hmg] at hu
      obtain ⟨res', hr1, hlen, _, hres⟩ := residuesFromGradients_contract tau hc hm G hGl
      rw [hr] at hr1
      simp only [Except.ok.injEq] at hr1
      subst hr1
      have hGr : G = (List.range gs.links.length).map fun j => G.getD j 0 := by
        rw [← hGl]; exact list_eq_range G
      rw [hGr] at hres
      obtain ⟨hb, _, htol, _, _⟩ := C12_flood_fill_guarantee tau G gs.links fl "gradients" u hu
      obtain ⟨_, hcong⟩ := gradients_congruent tau G gs.links fl alt (fun j => - n j) u (by
        intro j a b hj'
        rw [hj j a b hj']; push_cast; ring) hu
      refine ⟨fun j => fl.getD j 0, ?_, ?_⟩
      · intro j a b hj'
        have hab : (a, b) ∈ gs.links := List.mem_of_getElem? hj'
        obtain ⟨ka, hka⟩ := hcong a (hb a b hab).1
        obtain ⟨kb, hkb⟩ := hcong b (hb a b hab).2
        have ht' := htol j a b hj'
        unfold inputGradient at ht'
        rw [if_neg (by decide)] at ht'
        have hjn := hj j a b hj'
        have e1 : u.getD b 0 - u.getD a 0 = G.getD j 0 + ((kb - ka + n j : ℤ) : K) * tau := by
          rw [hka, hkb]; push_cast; linear_combination hjn
        have := cycles_eq ht e1 ht'
        simp only
        rw [e1, this]
      · intro alt n hj hcap
        exact flows_price h0 hc hm hs (fun j => G.getD j 0) res hlen hres c none c c ⟨hcl, .inl rfl⟩ ⟨hcl, .inl rfl⟩
          hc0 hc0 fl hfl n (jumps_close h0 hc hj) hcap

theorem time_cheapest (tau : K) (ht : 0 < tau) (solver : FlowSolver) (hs : SolverOptimal solver) (e : Emcf)
    (gt : PlanarGraph) (hc : PlanarContract gt.npoints gt.links gt.cycles) (hm : ormcf gt = .ok e.time)
    (hb : 0 < e.settings.linksPerBatch) (c : List ℤ)
    (hsel : SelectedCost e.settings.tCostType gt.links.length e.tDist e.tCent c)
    (hcl : c.length = gt.links.length) (hc0 : ∀ v ∈ c, 0 ≤ v)
    (wrap : List (List K)) (isIfg : Bool) (order : Nat → List Nat → List Nat) (horder : ∀ k l, (order k l).Perm l)
    (out : List (List K)) (h : unwrapInTime tau solver e wrap isIfg order = .ok out)
    (j : Nat) (hj : j < e.space.graph.links.length) :
    ∃ k : Nat → ℤ, (∀ i < gt.links.length, (out.getD i []).getD j 0 = spaceGrad tau e wrap isIfg i j + (k i : K) * tau) ∧
      ∀ n : Nat → ℤ,
        (∀ cyc ∈ gt.cycles, |circulation gt.links ((List.range gt.links.length).map fun i =>
          spaceGrad tau e wrap isIfg i j + tau * (n i : K)) cyc| < tau / 2) →
        (∀ i < gt.links.length, |n i| ≤ 2147483647) →
        price gt.links.length c c k ≤ price gt.links.length c c n := by
  obtain ⟨hmg, hmd⟩ := dual_of_contract hc hm
  have hord : ∀ a b, (a, b) ∈ gt.links → a ≤ b := fun a b hab => (hc.ordered a b hab).1.le
  have hn : e.nifgs = gt.links.length := by unfold Emcf.nifgs; rw [hmg]
  have hcost : costOf e.settings.tCostType e.nifgs e.tDist e.tCent = .ok c := by
    rw [hn]; exact selected_costOf hsel
  rw [inTime_iff tau solver e hc.distinct hord hm hmg wrap isIfg c hcost order horder hb] at h
  obtain ⟨h1, rfl⟩ := h
  obtain ⟨_, hfl⟩ := h1 j hj
  set fl := okVal (linkTime tau solver e wrap isIfg c j) with hfl0
  unfold linkTime at hfl
  obtain ⟨hlen, _, hres⟩ := linkResidues_contract tau hc hm fun i => spaceGrad tau e wrap isIfg i j
  refine ⟨fun i => fl.getD i 0, ?_, ?_⟩
  · intro i hi
    simp only [List.getD_eq_getElem?_getD, List.getElem?_map, List.getElem?_range (show i < e.nifgs by rw [hn]; exact hi),
      List.getElem?_range (show j < e.nlinks from hj), Option.map_some, Option.getD_some]
    rw [← hfl0]; ring
  · intro n hcl' hcap
    exact flows_price ht hc hm hs _ _ hlen hres c none c c ⟨hcl, .inl rfl⟩ ⟨hcl, .inl rfl⟩ hc0 hc0 fl hfl n hcl' hcap

/-- C68, `unwrap_gradients_in_time` for SLC input. For every spatial link, among all whole cycles whose
addition to the wrapped double differences closes around the temporal cycles, the cycles added are the
cheapest, at the costs selected by `t_cost_type`. -/
theorem C68_time_slc (tau : K) (ht : 0 < tau) (solver : FlowSolver) (hs : SolverOptimal solver) (e : Emcf)
    (gt : PlanarGraph) (hc : PlanarContract gt.npoints gt.links gt.cycles) (hm : ormcf gt = .ok e.time)
    (hb : 0 < e.settings.linksPerBatch) (c : List ℤ)
    (hsel : SelectedCost e.settings.tCostType gt.links.length e.tDist e.tCent c)
    (hcl : c.length = gt.links.length) (hc0 : ∀ v ∈ c, 0 ≤ v)
    (slc : List (List K)) (order : Nat → List Nat → List Nat) (horder : ∀ k l, (order k l).Perm l)
    (out : List (List K)) (h : unwrapInTime tau solver e slc false order = .ok out)
    (j a b : Nat) (hj : e.space.graph.links[j]? = some (a, b)) :
    ∃ k : Nat → ℤ,
      (∀ i s t : Nat, gt.links[i]? = some (s, t) → (out.getD i []).getD j 0 =
        phaseDiff tau (ifgPhase tau slc s t a) (ifgPhase tau slc s t b) + (k i : K) * tau) ∧
      ∀ (alt : List K) (n : Nat → ℤ), alt.length = gt.links.length →
        (∀ i s t : Nat, gt.links[i]? = some (s, t) → alt.getD i 0 =
          phaseDiff tau (ifgPhase tau slc s t a) (ifgPhase tau slc s t b) + (n i : K) * tau) →
        (∀ cyc ∈ gt.cycles, circulation gt.links alt cyc = 0) →
        (∀ i < gt.links.length, |n i| ≤ 2147483647) →
        price gt.links.length c c k ≤ price gt.links.length c c n := by
  obtain ⟨hmg, _⟩ := dual_of_contract hc hm
  have hl : e.space.graph.links.getD j (0, 0) = (a, b) := by
    rw [List.getD_eq_getElem?_getD, hj]; rfl
  have hsg : ∀ i s t : Nat, gt.links[i]? = some (s, t) → spaceGrad tau e slc false i j =
      phaseDiff tau (ifgPhase tau slc s t a) (ifgPhase tau slc s t b) := by
    intro i s t hi
    unfold spaceGrad ifgPhase elem
    have : gt.links.getD i (0, 0) = (s, t) := by rw [List.getD_eq_getElem?_getD, hi]; rfl
    simp only [hl, hmg, this, Bool.false_eq_true, if_false]
  obtain ⟨k, hk, hbest⟩ := time_cheapest tau ht solver hs e gt hc hm hb c hsel hcl hc0 slc false order horder out h j
    (List.getElem?_eq_some_iff.mp hj).1
  refine ⟨k, fun i s t hi => ?_, fun alt n halen halt hclose hcap => hbest n ?_ hcap⟩
  · rw [hk i (List.getElem?_eq_some_iff.mp hi).1, hsg i s t hi]
  · intro cyc hcy
    have e1 : ((List.range gt.links.length).map fun i => spaceGrad tau e slc false i j + tau * (n i : K)) = alt := by
      rw [list_eq_range alt, halen]
      apply List.map_congr_left
      intro i hi
      have hi' := List.mem_range.mp hi
      have hli : gt.links[i]? = some (gt.links[i].1, gt.links[i].2) := by rw [List.getElem?_eq_getElem hi']
      rw [halt i _ _ hli, hsg i _ _ hli]; ring
    rw [e1, hclose cyc hcy]
    simpa using by linarith

/-- C68, `unwrap_gradients_in_time` for interferogram input: the same with the wrapped differences of the
interferograms, which may not close exactly; less than half a cycle is required. -/
theorem C68_time_ifg (tau : K) (ht : 0 < tau) (solver : FlowSolver) (hs : SolverOptimal solver) (e : Emcf)
    (gt : PlanarGraph) (hc : PlanarContract gt.npoints gt.links gt.cycles) (hm : ormcf gt = .ok e.time)
    (hb : 0 < e.settings.linksPerBatch) (c : List ℤ)
    (hsel : SelectedCost e.settings.tCostType gt.links.length e.tDist e.tCent c)
    (hcl : c.length = gt.links.length) (hc0 : ∀ v ∈ c, 0 ≤ v)
    (ifg : List (List K)) (order : Nat → List Nat → List Nat) (horder : ∀ k l, (order k l).Perm l)
    (out : List (List K)) (h : unwrapInTime tau solver e ifg true order = .ok out)
    (j a b : Nat) (hj : e.space.graph.links[j]? = some (a, b)) :
    ∃ k : Nat → ℤ,
      (∀ i < gt.links.length, (out.getD i []).getD j 0 =
        phaseDiff tau ((ifg.getD i []).getD a 0) ((ifg.getD i []).getD b 0) + (k i : K) * tau) ∧
      ∀ (alt : List K) (n : Nat → ℤ), alt.length = gt.links.length →
        (∀ i < gt.links.length, alt.getD i 0 =
          phaseDiff tau ((ifg.getD i []).getD a 0) ((ifg.getD i []).getD b 0) + (n i : K) * tau) →
        (∀ cyc ∈ gt.cycles, |circulation gt.links alt cyc| < tau / 2) →
        (∀ i < gt.links.length, |n i| ≤ 2147483647) →
        price gt.links.length c c k ≤ price gt.links.length c c n := by
  have hl : e.space.graph.links.getD j (0, 0) = (a, b) := by
    rw [List.getD_eq_getElem?_getD, hj]; rfl
  have hsg : ∀ i, spaceGrad tau e ifg true i j =
      phaseDiff tau ((ifg.getD i []).getD a 0) ((ifg.getD i []).getD b 0) := by
    intro i
    unfold spaceGrad elem
    simp only [hl, if_true]
  obtain ⟨k, hk, hbest⟩ := time_cheapest tau ht solver hs e gt hc hm hb c hsel hcl hc0 ifg true order horder out h j
    (List.getElem?_eq_some_iff.mp hj).1
  refine ⟨k, fun i hi => ?_, fun alt n halen halt hclose hcap => hbest n ?_ hcap⟩
  · rw [hk i hi, hsg i]
  · intro cyc hcy
    have e1 : ((List.range gt.links.length).map fun i => spaceGrad tau e ifg true i j + tau * (n i : K)) = alt := by
      rw [list_eq_range alt, halen]
      apply List.map_congr_left
      intro i hi
      rw [halt i (List.mem_range.mp hi), hsg i]; ring
    rw [e1]
    exact hclose cyc hcy

/-- C68. A cost type that is none of the three makes `unwrap_cube` raise. -/
theorem C68_unknown_cost (tau : K) (solver : FlowSolver) (e : Emcf) (w : CubeInput K)
    (oT : Nat → List Nat → List Nat) (oS : List Nat → List Nat)
    (hbad : e.settings.tCostType ∉ ["constant", "distance", "centroid"] ∨
      e.settings.sCostType ∉ ["constant", "distance", "centroid"]) :
    ∃ err, unwrapCube tau solver e w oT oS = .error err := by
  have key : ∀ kind n d c, kind ∉ ["constant", "distance", "centroid"] → costOf kind n d c = .error .valueError := by
    intro kind n d c h
    simp only [List.mem_cons, List.not_mem_nil, or_false, not_or] at h
    unfold costOf
    rw [if_neg h.1, if_neg h.2.1, if_neg h.2.2]
  unfold unwrapCube
  cases cubeKind e w with
  | error err => exact ⟨err, rfl⟩
  | ok isIfg =>
    simp only [Bind.bind, Except.bind]
    cases ht : unwrapInTime tau solver e w.data isIfg oT with
    | error err => exact ⟨err, rfl⟩
    | ok grad =>
      simp only
      rcases hbad with h | h
      · unfold unwrapInTime at ht
        rw [key _ _ _ _ h] at ht
        simp [Bind.bind, Except.bind] at ht
      · unfold unwrapInSpace
        rw [key _ _ _ _ h]
        exact ⟨_, rfl⟩

/-- C68, `unwrap_cube` for SLC input. The result comes from gradients that are, for every spatial link,
the wrapped double differences plus the cheapest whole cycles that close in time; and for every
interferogram it integrates those gradients with the cheapest whole cycles, at the costs selected by
`t_cost_type` and `s_cost_type`. -/
theorem C68_cube_slc (tau : K) (ht : 1 / 1000 < tau) (solver : FlowSolver) (hs : SolverOptimal solver) (e : Emcf)
    (gt gs : PlanarGraph) (hct : PlanarContract gt.npoints gt.links gt.cycles) (hmt : ormcf gt = .ok e.time)
    (hcs : PlanarContract gs.npoints gs.links gs.cycles) (hms : ormcf gs = .ok e.space)
    (hb : 0 < e.settings.linksPerBatch) (ct cs : List ℤ)
    (hselt : SelectedCost e.settings.tCostType gt.links.length e.tDist e.tCent ct)
    (hsels : SelectedCost e.settings.sCostType gs.links.length e.sDist e.sCent cs)
    (hctl : ct.length = gt.links.length) (hct0 : ∀ v ∈ ct, 0 ≤ v)
    (hcsl : cs.length = gs.links.length) (hcs0 : ∀ v ∈ cs, 0 ≤ v)
    (w : CubeInput K) (hw : w.data.length = gt.npoints)
    (oT : Nat → List Nat → List Nat) (oS : List Nat → List Nat)
    (hoT : ∀ k l, (oT k l).Perm l) (hoS : ∀ l, (oS l).Perm l) (out : List (List K))
    (h : unwrapCube tau solver e w oT oS = .ok out) :
    ∃ grad : List (List K),
      (∀ j a b : Nat, gs.links[j]? = some (a, b) →
        (∀ c ∈ gt.cycles, circulation gt.links (column grad j) c = 0) ∧
        ∃ k : Nat → ℤ,
          (∀ i s t : Nat, gt.links[i]? = some (s, t) → (grad.getD i []).getD j 0 =
            phaseDiff tau (ifgPhase tau w.data s t a) (ifgPhase tau w.data s t b) + (k i : K) * tau) ∧
          ∀ (alt : List K) (n : Nat → ℤ), alt.length = gt.links.length →
            (∀ i s t : Nat, gt.links[i]? = some (s, t) → alt.getD i 0 =
              phaseDiff tau (ifgPhase tau w.data s t a) (ifgPhase tau w.data s t b) + (n i : K) * tau) →
            (∀ cyc ∈ gt.cycles, circulation gt.links alt cyc = 0) →
            (∀ i < gt.links.length, |n i| ≤ 2147483647) →
            price gt.links.length ct ct k ≤ price gt.links.length ct ct n) ∧
      ∀ i < gt.links.length, ∃ k : Nat → ℤ,
        Jumps tau gs.links (fun j => (grad.getD i []).getD j 0) (fun p => (out.getD i []).getD p 0) k ∧
        ∀ (alt : Nat → K) (n : Nat → ℤ), Jumps tau gs.links (fun j => (grad.getD i []).getD j 0) alt n →
          (∀ j < gs.links.length, |n j| ≤ 2147483647) →
          price gs.links.length cs cs k ≤ price gs.links.length cs cs n := by
  have h0 : (0 : K) < tau := lt_trans (by norm_num) ht
  obtain ⟨hmgt, _⟩ := dual_of_contract hct hmt
  obtain ⟨hmgs, _⟩ := dual_of_contract hcs hms
  have hk : cubeKind e w = .ok false := by
    unfold unwrapCube at h
    cases hk : cubeKind e w with
    | error err => rw [hk] at h; simp [Bind.bind, Except.bind] at h
    | ok b =>
      unfold cubeKind at hk
      split at hk
      · simp at hk
      split at hk
      · simp at hk
      rw [if_pos (by unfold Emcf.nepochs; rw [hmgt]; exact hw)] at hk
      rw [← hk]
  unfold unwrapCube at h
  rw [hk] at h
  simp only [Bind.bind, Except.bind] at h
  cases hg : unwrapInTime tau solver e w.data false oT with
  | error err => rw [hg] at h; simp at h
  | ok grad =>
    rw [hg] at h
    simp only at h
    refine ⟨grad, fun j a b hj => ?_, fun i hi => ?_⟩
    · have hj' : e.space.graph.links[j]? = some (a, b) := by rw [hmgs]; exact hj
      exact ⟨(C20_slc_closure tau h0 solver e gt hct hmt hs.1 hb w.data oT hoT grad hg j a b hj').1,
        C68_time_slc tau h0 solver hs e gt hct hmt hb ct hselt hctl hct0 w.data oT hoT grad hg j a b hj'⟩
    · refine C68_space tau ht solver hs e gs hcs hms cs hsels hcsl hcs0 grad oS hoS out h i (by rw [hmgt]; exact hi) ?_
      have hli : gt.links[i]? = some (gt.links[i].1, gt.links[i].2) := by rw [List.getElem?_eq_getElem hi]
      set φ : Nat → K := fun p => ifgPhase tau w.data gt.links[i].1 gt.links[i].2 p with hφ
      have hex : ∀ j, ∃ n : ℤ, ∀ a b : Nat, gs.links[j]? = some (a, b) →
          φ b - φ a = (grad.getD i []).getD j 0 + (n : K) * tau := by
        intro j
        rcases hl : gs.links[j]? with _ | ⟨a, b⟩
        · exact ⟨0, by simp⟩
        · obtain ⟨n, hn⟩ := (C20_slc_closure tau h0 solver e gt hct hmt hs.1 hb w.data oT hoT grad hg j a b
            (by rw [hmgs]; exact hl)).2 i _ _ hli
          refine ⟨rint ((φ b - φ a) / tau) - n, ?_⟩
          intro a' b' h'
          simp only [Option.some.injEq, Prod.mk.injEq] at h'
          obtain ⟨rfl, rfl⟩ := h'
          rw [hn, phaseDiff_eq]
          push_cast; ring
      choose n hn using hex
      exact ⟨φ, n, fun j a b hj => hn j a b hj⟩

/-- C18. `distance_costs` is the rounded value of one plus the scale over the length of the link. -/
theorem C18_distance_value (points : List (ℝ × ℝ)) (edges : List (Nat × Nat)) (scale : ℝ)
    (hs : 0 < scale) (hb : ∀ a b, (a, b) ∈ edges → a < points.length ∧ b < points.length)
    (hd : ∀ a b, (a, b) ∈ edges → points.getD a (0, 0) ≠ points.getD b (0, 0)) (cost : List ℤ)
    (h : distanceCosts points edges scale = .ok cost) (i a b : Nat) (hi : edges[i]? = some (a, b)) :
    |(cost.getD i 0 : ℝ) - (1 + scale / planeDist (points.getD a (0, 0)) (points.getD b (0, 0)))| ≤ 1 / 2 := by
  have hm : distanceCosts points edges scale = .ok (edges.map fun e =>
      rint (1 + scale / planeDist (points.getD e.1 (0, 0)) (points.getD e.2 (0, 0)))) := by
    apply mapM_ok_of
    rintro ⟨a, b⟩ he
    have h1 := hb a b he
    obtain ⟨c, hc, _, rfl⟩ := linkCost_ok hs (planeDist_pos (hd a b he))
    simp only [pointAt_ok h1.1, pointAt_ok h1.2, Bind.bind, Except.bind, hc]
  rw [hm] at h
  simp only [Except.ok.injEq] at h
  subst h
  rw [List.getD_eq_getElem?_getD, List.getElem?_map, hi]
  simp only [Option.map_some, Option.getD_some]
  rw [abs_sub_comm]
  exact rint_abs _

/-- C21. `unwrap_cube` returns for every stack of `n` wrapped acquisitions with the three-hop temporal
graph and temporal costs by length, up to a product of size and cost scale. -/
theorem C21_hop3_distance_returns (tau : K) (ht : 0 < tau) (solver : FlowSolver) (hopt : SolverOptimal solver)
    (hcomp : SolverComplete solver) (n : Nat) (hn : 4 ≤ n) (gt gs : PlanarGraph) (hgt : hop3Graph n = .ok gt)
    (hcs : PlanarContract gs.npoints gs.links gs.cycles) (hne : gs.links ≠ [])
    (hconn : Connected gs.npoints gs.links) (hgen : CyclesGenerate K gs.links gs.cycles)
    (e : Emcf) (hmt : ormcf gt = .ok e.time) (hms : ormcf gs = .ok e.space)
    (hb : 0 < e.settings.linksPerBatch) (htype : e.settings.tCostType = "distance")
    (hscale : 0 < e.settings.tCostScale) (S : ℕ) (hS : e.settings.tCostScale ≤ S) (hbig : n * (S + 2) ≤ 300000000)
    (hdist : e.tDist = distanceCosts (hop3Points n) gt.links (e.settings.tCostScale : ℝ))
    (cs : List ℤ) (hsels : SelectedCost e.settings.sCostType gs.links.length e.sDist e.sCent cs)
    (hcsl : cs.length = gs.links.length) (hcs0 : ∀ v ∈ cs, 0 ≤ v)
    (hpool : 1 ≤ e.settings.sWorkerCount ∨ 2 ≤ e.cpuCount)
    (data : List (List K)) (hw : data.length = n) (hcols : ∀ row ∈ data, row.length = gs.npoints)
    (hwrap : ∀ row ∈ data, ∀ x ∈ row, |x| ≤ tau / 2)
    (oT : Nat → List Nat → List Nat) (oS : List Nat → List Nat)
    (hoT : ∀ k l, (oT k l).Perm l) (hoS : ∀ l, (oS l).Perm l) :
    ∃ out, unwrapCube tau solver e ⟨2, 0, data⟩ oT oS = .ok out := by
  obtain ⟨g, hg, hct, _⟩ := C04_hop3_planar n hn
  rw [hgt] at hg
  simp only [Except.ok.injEq] at hg
  subst hg
  have hge := hgt
  rw [hop3Graph_eq n hn] at hge
  simp only [Except.ok.injEq] at hge
  have hgn : gt.npoints = n := by rw [← hge]
  have hgl : gt.links = hop3Links n := by rw [← hge]
  have hctn := hct
  rw [← hgn] at hct
  have hmg : e.time.graph = gt := (dual_of_contract hct hmt).1
  have hmgs : e.space.graph = gs := (dual_of_contract hcs hms).1
  have hscale' : (0 : ℝ) < (e.settings.tCostScale : ℝ) := by exact_mod_cast hscale
  have hS' : (e.settings.tCostScale : ℝ) ≤ (S : ℝ) := by exact_mod_cast hS
  have ept : ∀ i, i < n → (hop3Points n).getD i (0, 0) = ((i : ℝ), 0) := by
    intro i hi
    simp [hop3Points, List.getD_eq_getElem?_getD, hi]
  have hb1 : ∀ a b, (a, b) ∈ gt.links → a < (hop3Points n).length ∧ b < (hop3Points n).length := by
    intro a b hab
    have := hctn.ordered a b hab
    simp only [hop3Points, List.length_map, List.length_range]; omega
  have hd1 : ∀ a b, (a, b) ∈ gt.links → (hop3Points n).getD a (0, 0) ≠ (hop3Points n).getD b (0, 0) := by
    intro a b hab
    have h := hctn.ordered a b hab
    rw [ept a (by omega), ept b (by omega)]
    intro he
    have : (a : ℝ) = b := congrArg Prod.fst he
    have : a = b := by exact_mod_cast this
    omega
  obtain ⟨dcost, h1, h2, h3, _⟩ := C18_distance_costs (hop3Points n) gt.links _ hscale' hb1 hd1
  have hM : ∀ v ∈ dcost, v ≤ (S : ℤ) + 2 := by
    intro v hv
    obtain ⟨i, hi, rfl⟩ := List.mem_iff_getElem.mp hv
    have hi' : i < gt.links.length := by omega
    have hli : gt.links[i]? = some (gt.links[i].1, gt.links[i].2) := by rw [List.getElem?_eq_getElem hi']
    have hval := C18_distance_value _ _ _ hscale' hb1 hd1 dcost h1 i _ _ hli
    have hab := hctn.ordered gt.links[i].1 gt.links[i].2 (List.getElem_mem hi')
    have hge1 : 1 ≤ planeDist ((hop3Points n).getD gt.links[i].1 (0, 0)) ((hop3Points n).getD gt.links[i].2 (0, 0)) := by
      rw [ept _ (by omega), ept _ (by omega)]
      unfold planeDist
      rw [show (((0 : ℝ) - 0) ^ 2) = 0 by norm_num, add_zero, Real.sqrt_sq_eq_abs, abs_sub_comm]
      have h5 : (gt.links[i].1 : ℝ) + 1 ≤ (gt.links[i].2 : ℝ) := by exact_mod_cast hab.1
      rw [abs_of_nonneg] <;> linarith
    have h6 := div_le_self hscale'.le hge1
    have h7 := (abs_le.mp hval).2
    have h8 : dcost.getD i 0 = dcost[i] := by simp [List.getD_eq_getElem?_getD, hi]
    rw [h8] at h7
    have h9 : (dcost[i] : ℝ) < ((S + 2 + 1 : ℤ) : ℝ) := by push_cast; linarith
    have h10 : dcost[i] < S + 2 + 1 := by exact_mod_cast h9
    omega
  refine C21_cube_returns_costs tau ht solver e gt gs hct hcs hne hconn hgen hmt hms hopt hcomp hb dcost ?_ h2 h3
    (S + 2) hM cs cs ?_ ⟨hcsl, .inl rfl⟩ hcs0 hpool ?_ ⟨2, 0, data⟩ rfl rfl (by rw [hgn]; exact hw) ?_ hcols hwrap
    oT oS hoT hoS
  · unfold costOf
    rw [if_neg (by rw [htype]; decide), if_pos htype, hdist, h1]
  · unfold Emcf.nlinks
    rw [hmgs]; exact selected_costOf hsels
  · rw [hgl, length_hop3Links n hn]
    have : 3 * (n - 2) * (S + 2) ≤ 1000000000 := by
      calc 3 * (n - 2) * (S + 2) ≤ 3 * n * (S + 2) := by gcongr; omega
        _ = 3 * (n * (S + 2)) := by ring
        _ ≤ 1000000000 := by omega
    have e2 : 3 * (n - 2) = 3 * n - 6 := by omega
    rw [e2] at this
    exact_mod_cast this
  · intro h0; simp only at h0; rw [h0] at hw; simp at hw; omega

/-- Five acquisitions of a 2 × 2 image whose phases do wrap, with spatial costs by length: `unwrap_cube`
returns, and `C68_cube_slc` applies. -/
example : ∃ (solver : FlowSolver) (e : Emcf) (gt gs : PlanarGraph) (ct cs : List ℤ) (out : List (List ℚ)),
    SolverOptimal solver ∧ PlanarContract gt.npoints gt.links gt.cycles ∧ ormcf gt = .ok e.time ∧
    PlanarContract gs.npoints gs.links gs.cycles ∧ ormcf gs = .ok e.space ∧ 0 < e.settings.linksPerBatch ∧
    SelectedCost e.settings.tCostType gt.links.length e.tDist e.tCent ct ∧
    SelectedCost e.settings.sCostType gs.links.length e.sDist e.sCent cs ∧ ct.length = gt.links.length ∧
    (∀ v ∈ ct, 0 ≤ v) ∧ cs.length = gs.links.length ∧ (∀ v ∈ cs, 0 ≤ v) ∧ cs = [1, 2, 3, 4] ∧ gt.npoints = 5 ∧
    unwrapCube (1 : ℚ) solver e ⟨2, 0, [[0, 1/4, 1/2, -1/4], [0, 0, 0, 0], [1/3, -1/3, 0, 1/2],
      [-1/2, 1/2, 1/4, 1/4], [0, 1/3, -1/3, 0]]⟩ (fun _ => List.reverse) List.reverse = .ok out := by
  obtain ⟨solver, hs, hcomp⟩ := exists_solver
  obtain ⟨g, hg, hct, _⟩ := C04_hop3_planar 5 (by omega)
  have hge := hg
  rw [hop3Graph_eq 5 (by omega)] at hge
  simp only [Except.ok.injEq] at hge
  have hgn : g.npoints = 5 := by rw [← hge]
  have hgl : g.links = hop3Links 5 := by rw [← hge]
  rw [← hgn] at hct
  obtain ⟨time, htime⟩ := C06_contract_accepted g hct
  have hcs := reg2d_contract 2 2 le_rfl le_rfl
  obtain ⟨space, hspace⟩ := C06_contract_accepted (reg2dGraph 2 2) hcs
  have hmgs : space.graph = reg2dGraph 2 2 := (dual_of_contract hcs hspace).1
  have hll : (reg2dGraph 2 2).links.length = 4 := by decide
  set e : Emcf := ⟨space, time, { linksPerBatch := 3, sCostType := "distance" }, 4, .ok [], .ok [], .ok [1, 2, 3, 4], .ok []⟩ with he
  obtain ⟨out, hout⟩ := C21_cube_returns (1 : ℚ) one_pos solver e g (reg2dGraph 2 2) hct hcs
    (by intro h0; rw [h0] at hll; simp at hll) (reg2d_connected 2 2) (reg2d_generate 2 2) htime hspace hs hcomp
    (by show (0 : ℤ) < 3; decide) rfl [1, 2, 3, 4] [1, 2, 3, 4]
    (by unfold costOf; rw [if_neg (by show ¬ ("distance" = "constant"); decide), if_pos rfl]) ⟨by rw [hll]; rfl, .inl rfl⟩ (by decide)
    (.inr (by show (2 : ℤ) ≤ 4; decide)) (by rw [hgl, length_hop3Links 5 (by omega)]; omega)
    ⟨2, 0, [[0, 1/4, 1/2, -1/4], [0, 0, 0, 0], [1/3, -1/3, 0, 1/2], [-1/2, 1/2, 1/4, 1/4], [0, 1/3, -1/3, 0]]⟩
    rfl rfl (by rw [hgn]; rfl) (by simp) (by decide) (by
        intro row hrow x hx
        simp only [List.mem_cons, List.not_mem_nil, or_false] at hrow
        rcases hrow with rfl | rfl | rfl | rfl | rfl <;>
          simp only [List.mem_cons, List.not_mem_nil, or_false] at hx <;>
          rcases hx with rfl | rfl | rfl | rfl <;> rw [abs_le] <;> norm_num)
    (fun _ => List.reverse) List.reverse (fun _ l => List.reverse_perm l) (fun l => List.reverse_perm l)
  exact ⟨solver, e, g, reg2dGraph 2 2, List.replicate g.links.length 1, [1, 2, 3, 4], out, hs, hct, htime, hcs, hspace,
    by show (0 : ℤ) < 3; decide, .constant rfl, .distance _ rfl rfl, by simp, by simp, by rw [hll]; rfl, by decide, rfl,
    hgn, hout⟩

/-- A vortex around the four points of a 2 × 2 image: `unwrap_one` returns, the values cannot follow all
wrapped differences, and `C68_unwrap_one` applies with costs that differ by link and direction. -/
example : ∃ (solver : FlowSolver) (m : Mcf) (unw : List ℚ) (flows : List ℤ),
    SolverOptimal solver ∧ ormcf (reg2dGraph 2 2) = .ok m ∧
    PlanarContract (reg2dGraph 2 2).npoints (reg2dGraph 2 2).links (reg2dGraph 2 2).cycles ∧
    CostOn (reg2dGraph 2 2).links.length [1, 2, 3, 4] [1, 2, 3, 4] ∧
    CostOn (reg2dGraph 2 2).links.length [4, 3, 2, 1] [4, 3, 2, 1] ∧
    unwrapOne (1 : ℚ) solver m [0, 1/4, -1/4, 1/2] [1, 2, 3, 4] (some [4, 3, 2, 1]) = .ok (unw, flows) ∧
    flows ≠ [0, 0, 0, 0] := by
  obtain ⟨solver, hs, hcomp⟩ := exists_solver
  have hcs := reg2d_contract 2 2 le_rfl le_rfl
  obtain ⟨m, hm⟩ := C06_contract_accepted (reg2dGraph 2 2) hcs
  have hll : (reg2dGraph 2 2).links.length = 4 := by decide
  obtain ⟨unw, flows, hu, _, _, _, hd, _⟩ := C14_unwrap_one (1 : ℚ) one_pos (reg2dGraph 2 2) m solver hcs
    (by intro h0; rw [h0] at hll; simp at hll) (reg2d_connected 2 2) (reg2d_generate 2 2) hm hs.1 hcomp
    [0, 1/4, -1/4, 1/2] rfl (by
      intro a b hab
      have : (a, b) ∈ [(0, 1), (2, 3), (0, 2), (1, 3)] := by
        have e : (reg2dGraph 2 2).links = [(0, 1), (2, 3), (0, 2), (1, 3)] := by decide
        rw [← e]; exact hab
      simp only [List.mem_cons, Prod.mk.injEq, List.not_mem_nil, or_false] at this
      rcases this with ⟨rfl, rfl⟩ | ⟨rfl, rfl⟩ | ⟨rfl, rfl⟩ | ⟨rfl, rfl⟩ <;> rw [abs_le] <;> norm_num)
    [1, 2, 3, 4] (some [4, 3, 2, 1]) [1, 2, 3, 4] [4, 3, 2, 1] ⟨by rw [hll]; rfl, .inl rfl⟩
    ⟨by rw [hll]; rfl, .inl rfl⟩ (by decide) (by decide)
  refine ⟨solver, m, unw, flows, hs, hm, hcs, ⟨by rw [hll]; rfl, .inl rfl⟩, ⟨by rw [hll]; rfl, .inl rfl⟩, hu, ?_⟩
  intro h0
  subst h0
  have e : (reg2dGraph 2 2).links = [(0, 1), (2, 3), (0, 2), (1, 3)] := by decide
  rw [e] at hd
  have h1 := hd 0 0 1 rfl
  have h2 := hd 1 2 3 rfl
  have h3 := hd 2 0 2 rfl
  have h4 := hd 3 1 3 rfl
  have r1 : phaseDiff (1 : ℚ) 0 (1/4) = 1/4 := by decide +kernel
  have r2 : phaseDiff (1 : ℚ) (-1/4) (1/2) = -1/4 := by decide +kernel
  have r3 : phaseDiff (1 : ℚ) 0 (-1/4) = -1/4 := by decide +kernel
  have r4 : phaseDiff (1 : ℚ) (1/4) (1/2) = 1/4 := by decide +kernel
  simp only [List.getD_cons_zero, List.getD_cons_succ, r1, r2, r3, r4] at h1 h2 h3 h4
  norm_num at h1 h2 h3 h4
  linarith

end
end Spurt
