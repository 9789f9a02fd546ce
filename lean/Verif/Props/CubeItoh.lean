import Verif.Props.EmcfReturns
import Mathlib.Data.List.GetD

/-!
# Property C62: an unaliased stack is unwrapped exactly
-/

namespace Spurt
open Spec Finset

section
variable {K : Type} [Field K] [LinearOrder K] [IsStrictOrderedRing K] [FloorRing K]

theorem residuesToFlows_zero (solver : FlowSolver) (m : Mcf) (res cost : List ℤ) (rev : Option (List ℤ))
    (h : ∀ r ∈ res, r = 0) :
    residuesToFlows solver m res cost rev = .ok (List.replicate m.graph.links.length 0) := by
  unfold residuesToFlows
  rw [if_neg (by simpa using h)]

theorem all_zero_of {res : List ℤ} {n : Nat} (hl : res.length = n + 1) (hs : res.sum = 0)
    (h : ∀ k < n, res.getD (k + 1) 0 = 0) : ∀ r ∈ res, r = 0 := by
  rcases res with _ | ⟨r0, rs⟩
  · simp at hl
  have hrs : ∀ r ∈ rs, r = 0 := by
    intro r hr
    obtain ⟨k, hk, rfl⟩ := List.mem_iff_getElem.mp hr
    have := h k (by simpa using hk.trans_eq (by simpa using hl))
    simpa [List.getD_eq_getElem?_getD, hk] using this
  have : rs.sum = 0 := List.sum_eq_zero hrs
  intro r hr
  rcases List.mem_cons.mp hr with rfl | hr
  · simpa [this] using hs
  · exact hrs r hr

/-- If the wrapped differences along a link are those of the fields `D` and their closures in time
round to zero, the cube is returned as `D` relative to the first point. -/
theorem cube_exact {tau : K} {solver : FlowSolver} {e : Emcf} {gt gs : PlanarGraph}
    (hct : PlanarContract gt.npoints gt.links gt.cycles) (hcs : PlanarContract gs.npoints gs.links gs.cycles)
    (hne : gs.links ≠ []) (hconn : Connected gs.npoints gs.links)
    (hmt : ormcf gt = .ok e.time) (hms : ormcf gs = .ok e.space) (hb : 0 < e.settings.linksPerBatch)
    {tcost scost : List ℤ} (htcost : costOf e.settings.tCostType e.nifgs e.tDist e.tCent = .ok tcost)
    (hscost : costOf e.settings.sCostType e.nlinks e.sDist e.sCent = .ok scost)
    (hpool : 1 ≤ e.settings.sWorkerCount ∨ 2 ≤ e.cpuCount)
    {data : List (List K)} {isIfg : Bool} (D : Nat → Nat → K)
    (hin : ∀ j < gs.links.length, LinkInput e data isIfg j)
    (hD : ∀ i < gt.links.length, ∀ j < gs.links.length, spaceGrad tau e data isIfg i j =
      D i (gs.links.getD j (0, 0)).2 - D i (gs.links.getD j (0, 0)).1)
    (hclose : ∀ j < gs.links.length, ∀ k (hk : k < gt.cycles.length), rint (circulation gt.links
      ((List.range gt.links.length).map fun i => D i (gs.links.getD j (0, 0)).2 - D i (gs.links.getD j (0, 0)).1)
        gt.cycles[k] / tau) = 0)
    {oT : Nat → List Nat → List Nat} {oS : List Nat → List Nat}
    (hoT : ∀ k l, (oT k l).Perm l) (hoS : ∀ l, (oS l).Perm l) :
    (unwrapInTime tau solver e data isIfg oT >>= fun g => unwrapInSpace tau solver e g oS) =
      .ok ((List.range gt.links.length).map fun i => (List.range gs.npoints).map fun p => D i p - D i 0) := by
  obtain ⟨hmgt, hmdt⟩ := dual_of_contract hct hmt
  obtain ⟨hmgs, hmds⟩ := dual_of_contract hcs hms
  have hnif : e.nifgs = gt.links.length := by unfold Emcf.nifgs; rw [hmgt]
  have hnl : e.nlinks = gs.links.length := by unfold Emcf.nlinks; rw [hmgs]
  have hordt : ∀ a b, (a, b) ∈ gt.links → a ≤ b := fun a b hab => (hct.ordered a b hab).1.le
  have hlts : ∀ a b, (a, b) ∈ e.space.graph.links → a < b := by
    rw [hmgs]; exact fun a b hab => (hcs.ordered a b hab).1
  have htime : ∀ j < gs.links.length, linkTime tau solver e data isIfg tcost j =
      .ok (List.replicate gt.links.length 0) := by
    intro j hj
    unfold linkTime
    rw [← hmgt]
    obtain ⟨h1, h2, h3⟩ := linkResidues_contract tau hct hmt (fun i => spaceGrad tau e data isIfg i j)
    refine residuesToFlows_zero _ _ _ _ _ (all_zero_of h1 h2 fun k hk => ?_)
    rw [h3 k hk, ← hclose j hj k hk]
    congr 3
    apply List.map_congr_left
    intro i hi
    exact hD i (List.mem_range.mp hi) j hj
  have hgrad := (inTime_iff tau solver e hct.distinct hordt hmt hmgt data isIfg tcost htcost oT hoT hb
    ((List.range e.nifgs).map fun i => (List.range e.nlinks).map fun j =>
      spaceGrad tau e data isIfg i j + tau * (((okVal (linkTime tau solver e data isIfg tcost j)).getD i 0 : ℤ) : K))).mpr
      ⟨fun j hj => ⟨hin j (by rw [← hnl]; exact hj), by
        rw [okVal_eq (htime j (by rw [← hnl]; exact hj))]; exact htime j (by rw [← hnl]; exact hj)⟩, rfl⟩
  rw [hgrad]
  simp only [Bind.bind, Except.bind]
  rw [C23_rows tau solver e hlts scost hscost hpool _ oS hoS, hmgt, hmgs]
  refine ⟨by simp, fun i hi => ?_⟩
  rw [List.getD_eq_getElem?_getD, List.getElem?_map, List.getElem?_range (by rw [hnif]; exact hi),
    List.getD_eq_getElem?_getD, List.getElem?_map, List.getElem?_range hi]
  simp only [Option.map_some, Option.getD_some]
  refine ⟨?_, by simp⟩
  set G : List K := (List.range gs.links.length).map fun j =>
    D i (gs.links.getD j (0, 0)).2 - D i (gs.links.getD j (0, 0)).1 with hG
  have hGe : ((List.range e.nlinks).map fun j => spaceGrad tau e data isIfg i j +
      tau * (((okVal (linkTime tau solver e data isIfg tcost j)).getD i 0 : ℤ) : K)) = G := by
    rw [hG, hnl]
    apply List.map_congr_left
    intro j hj
    have hj' := List.mem_range.mp hj
    rw [hD i hi j hj', okVal_eq (htime j hj'), List.getD_eq_getElem (List.replicate gt.links.length (0 : ℤ)) _ (by simpa using hi)]
    simp
  rw [hGe]
  have hGl : G.length = gs.links.length := by simp [hG]
  obtain ⟨res, hres, hrl, hrs, hrk⟩ := residuesFromGradients_contract tau hcs hms G hGl
  unfold unwrapIfg
  rw [hres]
  simp only [Bind.bind, Except.bind]
  rw [residuesToFlows_zero _ _ _ _ _ (all_zero_of hrl hrs fun k hk => by
    rw [hrk k hk, hG, circulation_gradient hcs (D i) (List.getElem_mem hk), zero_div]
    exact_mod_cast rint_intCast (K := K) 0)]
  simp only [hmgs]
  rw [C13_flood_fill_recovers tau G gs.links _ "gradients" gs.npoints (D i) hne
    (fun a b hab => ⟨by have := hcs.ordered a b hab; omega, (hcs.ordered a b hab).2⟩) (by simp)
    (.inr ⟨rfl, hGl⟩) hconn (by
      intro j a b hj
      obtain ⟨hj', he⟩ := List.getElem?_eq_some_iff.mp hj
      unfold inputGradient
      rw [if_neg (by decide), hG, List.getD_eq_getElem?_getD, List.getElem?_map, List.getElem?_range hj',
        List.getD_eq_getElem?_getD, List.getElem?_replicate, if_pos hj']
      simp only [Option.map_some, Option.getD_some]
      rw [List.getD_eq_getElem?_getD, hj]
      simp)]
  simp

/-- Wrapping the difference of two values, each off by whole cycles, gives the true difference if that
is below half a cycle. -/
theorem phaseDiff_unaliased {tau : K} (ht : 0 < tau) {x y x' y' : K} {m n : ℤ} (hx : x' = x - m * tau) (hy : y' = y - n * tau)
    (h : |y - x| < tau / 2) : phaseDiff tau x' y' = y - x := by
  rw [abs_lt] at h
  rw [phaseDiff_eq, hx, hy]
  have : rint ((y - n * tau - (x - m * tau)) / tau) = m - n := by
    apply rint_eq_of_lt
    · rw [lt_div_iff₀ ht]; push_cast; nlinarith [h.1]
    · rw [div_lt_iff₀ ht]; push_cast; nlinarith [h.2]
  rw [this]; push_cast; ring

/-- C62 for SLC input. If in every interferogram of the temporal graph the true phase changes by less
than half a cycle along every spatial link, then unwrapping any version of the acquisitions with whole
cycles removed returns the true interferograms relative to the first point. Only the interferograms
have to be smooth, not the acquisitions. No assumption on the flow solver is needed. -/
theorem C62_slc_itoh (tau : K) (ht : 0 < tau) (solver : FlowSolver) (e : Emcf) (gt gs : PlanarGraph)
    (hct : PlanarContract gt.npoints gt.links gt.cycles) (hcs : PlanarContract gs.npoints gs.links gs.cycles)
    (hne : gs.links ≠ []) (hconn : Connected gs.npoints gs.links)
    (hmt : ormcf gt = .ok e.time) (hms : ormcf gs = .ok e.space) (hb : 0 < e.settings.linksPerBatch)
    (tcost scost : List ℤ) (htcost : costOf e.settings.tCostType e.nifgs e.tDist e.tCent = .ok tcost)
    (hscost : costOf e.settings.sCostType e.nlinks e.sDist e.sCent = .ok scost)
    (hpool : 1 ≤ e.settings.sWorkerCount ∨ 2 ≤ e.cpuCount)
    (w : CubeInput K) (hnd : w.ndim = 2) (htd : w.timeDim = 0) (hw : w.data.length = gt.npoints)
    (hrows : w.data ≠ []) (hcols : ∀ row ∈ w.data, row.length = gs.npoints)
    (φ : Nat → Nat → K) (k : Nat → Nat → ℤ)
    (hφ : ∀ s < gt.npoints, ∀ p < gs.npoints, (w.data.getD s []).getD p 0 = φ s p - k s p * tau)
    (hsmooth : ∀ s t a b, (s, t) ∈ gt.links → (a, b) ∈ gs.links →
      |(φ t b - φ s b) - (φ t a - φ s a)| < tau / 2)
    (oT : Nat → List Nat → List Nat) (oS : List Nat → List Nat)
    (hoT : ∀ k l, (oT k l).Perm l) (hoS : ∀ l, (oS l).Perm l) :
    ∃ out, unwrapCube tau solver e w oT oS = .ok out ∧ out.length = gt.links.length ∧
      ∀ i s t : Nat, gt.links[i]? = some (s, t) → ∀ p < gs.npoints,
        (out.getD i []).getD p 0 = (φ t p - φ s p) - (φ t 0 - φ s 0) := by
  obtain ⟨hmgt, hmdt⟩ := dual_of_contract hct hmt
  obtain ⟨hmgs, hmds⟩ := dual_of_contract hcs hms
  set D : Nat → Nat → K := fun i p => φ (gt.links.getD i (0, 0)).2 p - φ (gt.links.getD i (0, 0)).1 p with hDdef
  have hmemt : ∀ i < gt.links.length, gt.links.getD i (0, 0) ∈ gt.links := fun i hi => by
    rw [List.getD_eq_getElem _ _ hi]; exact List.getElem_mem hi
  have hmems : ∀ j < gs.links.length, gs.links.getD j (0, 0) ∈ gs.links := fun i hi => by
    rw [List.getD_eq_getElem _ _ hi]; exact List.getElem_mem hi
  have hkind := (C22_input_kind tau solver e w oT oS).1 hnd htd (by rw [hmgt]; exact hw)
  rw [hkind, cube_exact hct hcs hne hconn hmt hms hb htcost hscost hpool D ?_ ?_ ?_ hoT hoS]
  · refine ⟨_, rfl, by simp, fun i s t hi p hp => ?_⟩
    obtain ⟨hi', he⟩ := List.getElem?_eq_some_iff.mp hi
    rw [List.getD_eq_getElem?_getD, List.getD_eq_getElem?_getD, List.getElem?_map, List.getElem?_range hi']
    simp only [Option.map_some, Option.getD_some, List.getElem?_map, List.getElem?_range hp, hDdef,
      List.getD_eq_getElem _ _ hi', he]
  · intro j hj
    have hb1 := hcs.ordered (gs.links.getD j (0, 0)).1 (gs.links.getD j (0, 0)).2 (hmems j hj)
    have hhead : (w.data.headD []).length = gs.npoints := by
      rcases hd : w.data with _ | ⟨r, rs⟩
      · exact absurd hd hrows
      · exact hcols r (by rw [hd]; simp)
    unfold LinkInput
    rw [hmgs, hmgt, hhead]
    exact ⟨by omega, hb1.2, by simp, fun _ l hl => by have := hct.ordered l.1 l.2 hl; omega⟩
  · intro i hi j hj
    have h1 := hct.ordered (gt.links.getD i (0, 0)).1 (gt.links.getD i (0, 0)).2 (hmemt i hi)
    have h2 := hcs.ordered (gs.links.getD j (0, 0)).1 (gs.links.getD j (0, 0)).2 (hmems j hj)
    unfold spaceGrad elem
    simp only [hmgt, hmgs, Bool.false_eq_true, if_false]
    have hsm := hsmooth (gt.links.getD i (0, 0)).1 (gt.links.getD i (0, 0)).2 (gs.links.getD j (0, 0)).1 (gs.links.getD j (0, 0)).2 (hmemt i hi) (hmems j hj)
    have key : ∀ p < gs.npoints, ∃ m : ℤ, phaseDiff tau ((w.data.getD (gt.links.getD i (0, 0)).1 []).getD p 0)
        ((w.data.getD (gt.links.getD i (0, 0)).2 []).getD p 0) = D i p - m * tau := by
      intro p hp
      rw [phaseDiff_eq, hφ _ h1.2 p hp, hφ _ (h1.1.trans h1.2) p hp]
      generalize rint (K := K) _ = r
      exact ⟨k (gt.links.getD i (0, 0)).2 p - k (gt.links.getD i (0, 0)).1 p + r, by simp only [hDdef]; push_cast; ring⟩
    obtain ⟨m, hm⟩ := key (gs.links.getD j (0, 0)).1 (by omega)
    obtain ⟨n, hn⟩ := key (gs.links.getD j (0, 0)).2 h2.2
    exact phaseDiff_unaliased ht hm hn hsm
  · intro j hj c hc
    have := circulation_gradient hct (fun s => φ s (gs.links.getD j (0, 0)).2 - φ s (gs.links.getD j (0, 0)).1)
      (List.getElem_mem hc)
    rw [show (List.range gt.links.length).map (fun i => D i (gs.links.getD j (0, 0)).2 - D i (gs.links.getD j (0, 0)).1) =
      (List.range gt.links.length).map (fun i =>
        (φ (gt.links.getD i (0, 0)).2 (gs.links.getD j (0, 0)).2 - φ (gt.links.getD i (0, 0)).2 (gs.links.getD j (0, 0)).1) -
        (φ (gt.links.getD i (0, 0)).1 (gs.links.getD j (0, 0)).2 - φ (gt.links.getD i (0, 0)).1 (gs.links.getD j (0, 0)).1)) by
      apply List.map_congr_left
      intro i _
      simp only [hDdef]
      ring, this, zero_div]
    exact_mod_cast rint_intCast (K := K) 0

/-- C62 for interferogram input. If every true interferogram changes by less than half a cycle along
every spatial link, and the changes along a link add up to less than half a cycle around every cycle of
the temporal graph (0 for interferograms that close), then unwrapping any version of them with whole
cycles removed returns them relative to the first point. -/
theorem C62_ifg_itoh (tau : K) (ht : 0 < tau) (solver : FlowSolver) (e : Emcf) (gt gs : PlanarGraph)
    (hct : PlanarContract gt.npoints gt.links gt.cycles) (hcs : PlanarContract gs.npoints gs.links gs.cycles)
    (hne : gs.links ≠ []) (hconn : Connected gs.npoints gs.links)
    (hmt : ormcf gt = .ok e.time) (hms : ormcf gs = .ok e.space) (hb : 0 < e.settings.linksPerBatch)
    (tcost scost : List ℤ) (htcost : costOf e.settings.tCostType e.nifgs e.tDist e.tCent = .ok tcost)
    (hscost : costOf e.settings.sCostType e.nlinks e.sDist e.sCent = .ok scost)
    (hpool : 1 ≤ e.settings.sWorkerCount ∨ 2 ≤ e.cpuCount)
    (w : CubeInput K) (hnd : w.ndim = 2) (htd : w.timeDim = 0) (hw : w.data.length = gt.links.length)
    (hamb : gt.links.length ≠ gt.npoints)
    (hrows : w.data ≠ []) (hcols : ∀ row ∈ w.data, row.length = gs.npoints)
    (ψ : Nat → Nat → K) (k : Nat → Nat → ℤ)
    (hψ : ∀ i < gt.links.length, ∀ p < gs.npoints, (w.data.getD i []).getD p 0 = ψ i p - k i p * tau)
    (hsmooth : ∀ i < gt.links.length, ∀ a b, (a, b) ∈ gs.links → |ψ i b - ψ i a| < tau / 2)
    (hclose : ∀ a b, (a, b) ∈ gs.links → ∀ c ∈ gt.cycles,
      |circulation gt.links ((List.range gt.links.length).map fun i => ψ i b - ψ i a) c| < tau / 2)
    (oT : Nat → List Nat → List Nat) (oS : List Nat → List Nat)
    (hoT : ∀ k l, (oT k l).Perm l) (hoS : ∀ l, (oS l).Perm l) :
    ∃ out, unwrapCube tau solver e w oT oS = .ok out ∧ out.length = gt.links.length ∧
      ∀ i < gt.links.length, ∀ p < gs.npoints, (out.getD i []).getD p 0 = ψ i p - ψ i 0 := by
  obtain ⟨hmgt, hmdt⟩ := dual_of_contract hct hmt
  obtain ⟨hmgs, hmds⟩ := dual_of_contract hcs hms
  have hmems : ∀ j < gs.links.length, gs.links.getD j (0, 0) ∈ gs.links := fun i hi => by
    rw [List.getD_eq_getElem _ _ hi]; exact List.getElem_mem hi
  have hkind := (C22_input_kind tau solver e w oT oS).2.1 hnd htd (by rw [hmgt, hw]; exact hamb) (by rw [hmgt]; exact hw)
  rw [hkind, cube_exact hct hcs hne hconn hmt hms hb htcost hscost hpool ψ ?_ ?_ ?_ hoT hoS]
  · refine ⟨_, rfl, by simp, fun i hi p hp => ?_⟩
    rw [List.getD_eq_getElem?_getD, List.getD_eq_getElem?_getD, List.getElem?_map, List.getElem?_range hi]
    simp only [Option.map_some, Option.getD_some, List.getElem?_map, List.getElem?_range hp]
  · intro j hj
    have hb1 := hcs.ordered (gs.links.getD j (0, 0)).1 (gs.links.getD j (0, 0)).2 (hmems j hj)
    have hhead : (w.data.headD []).length = gs.npoints := by
      rcases hd : w.data with _ | ⟨r, rs⟩
      · exact absurd hd hrows
      · exact hcols r (by rw [hd]; simp)
    unfold LinkInput
    rw [hmgs, hmgt, hhead]
    refine ⟨by omega, hb1.2, fun _ => ?_, by simp⟩
    unfold Emcf.nifgs
    rw [hmgt, hw]
  · intro i hi j hj
    have h2 := hcs.ordered (gs.links.getD j (0, 0)).1 (gs.links.getD j (0, 0)).2 (hmems j hj)
    unfold spaceGrad elem
    simp only [hmgs, if_true]
    exact phaseDiff_unaliased ht (hψ i hi _ (by omega)) (hψ i hi _ h2.2) (hsmooth i hi (gs.links.getD j (0, 0)).1 (gs.links.getD j (0, 0)).2 (hmems j hj))
  · intro j hj c hc
    have h := abs_lt.mp (hclose (gs.links.getD j (0, 0)).1 (gs.links.getD j (0, 0)).2 (hmems j hj) _ (List.getElem_mem hc))
    apply rint_eq_of_lt
    · rw [lt_div_iff₀ ht]; push_cast; linarith [h.1]
    · rw [div_lt_iff₀ ht]; push_cast; linarith [h.2]

end
end Spurt
