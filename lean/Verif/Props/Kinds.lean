import Verif.Props.Reference
import Verif.Lemmas.FloatCube

/-! # Acquisitions or interferograms -/

namespace Spurt
open Spec

section
variable {K : Type} [Field K] [LinearOrder K] [FloorRing K] [IsStrictOrderedRing K]

theorem inTime_kinds (tau : K) (solver : FlowSolver) (e : Emcf) {gt : PlanarGraph}
    (hnd : gt.links.Nodup) (hord : ∀ a b, (a, b) ∈ gt.links → a ≤ b) (hm : ormcf gt = .ok e.time)
    (hb : 0 < e.settings.linksPerBatch) (data data' : List (List K)) (kind kind' : Bool)
    (hin : ∀ j < e.nlinks, LinkInput e data kind j → LinkInput e data' kind' j)
    (hgrad : ∀ i < e.nifgs, ∀ j < e.nlinks, LinkInput e data kind j →
      spaceGrad tau e data' kind' i j = spaceGrad tau e data kind i j)
    (o o' : Nat → List Nat → List Nat) (ho : ∀ k l, (o k l).Perm l) (ho' : ∀ k l, (o' k l).Perm l) (out : List (List K))
    (h : unwrapInTime tau solver e data kind o = .ok out) : unwrapInTime tau solver e data' kind' o' = .ok out := by
  have hmg := ormcf_graph hm
  cases hcost : costOf e.settings.tCostType e.nifgs e.tDist e.tCent with
  | error err =>
    unfold unwrapInTime at h
    rw [hcost] at h
    simp [Bind.bind, Except.bind] at h
  | ok cost =>
    rw [inTime_iff tau solver e hnd hord hm hmg data kind cost hcost o ho hb] at h
    rw [inTime_iff tau solver e hnd hord hm hmg data' kind' cost hcost o' ho' hb]
    obtain ⟨h1, h2⟩ := h
    have hg : ∀ i < e.nifgs, ∀ j < e.nlinks, spaceGrad tau e data' kind' i j = spaceGrad tau e data kind i j :=
      fun i hi j hj => hgrad i hi j hj (h1 j hj).1
    have hl : ∀ j < e.nlinks, linkTime tau solver e data' kind' cost j = linkTime tau solver e data kind cost j := by
      intro j hj
      unfold linkTime
      rw [linkResidues_congr tau e.time _ _ fun i hi => hg i hi j hj]
    refine ⟨fun j hj => ?_, ?_⟩
    · rw [hl j hj]
      exact ⟨hin j hj (h1 j hj).1, (h1 j hj).2⟩
    · rw [h2]
      apply List.map_congr_left
      intro i hi
      apply List.map_congr_left
      intro j hj
      rw [hg i (List.mem_range.mp hi) j (List.mem_range.mp hj), hl j (List.mem_range.mp hj)]

theorem cube_kinds (tau : K) (solver : FlowSolver) (e : Emcf) {gt : PlanarGraph}
    (hnd : gt.links.Nodup) (hord : ∀ a b, (a, b) ∈ gt.links → a ≤ b) (hm : ormcf gt = .ok e.time)
    (hlt : ∀ a b, (a, b) ∈ e.space.graph.links → a < b) (hb : 0 < e.settings.linksPerBatch)
    (w : CubeInput K) (data' : List (List K)) (kind kind' : Bool) (hk : cubeKind e w = .ok kind)
    (hk' : cubeKind e { w with data := data' } = .ok kind')
    (hin : ∀ j < e.nlinks, LinkInput e w.data kind j → LinkInput e data' kind' j)
    (hgrad : ∀ i < e.nifgs, ∀ j < e.nlinks, LinkInput e w.data kind j →
      spaceGrad tau e data' kind' i j = spaceGrad tau e w.data kind i j)
    (o o' : Nat → List Nat → List Nat) (ho : ∀ k l, (o k l).Perm l) (ho' : ∀ k l, (o' k l).Perm l)
    (p p' : List Nat → List Nat) (hp : ∀ l, (p l).Perm l) (hp' : ∀ l, (p' l).Perm l) (out : List (List K))
    (h : unwrapCube tau solver e w o p = .ok out) : unwrapCube tau solver e { w with data := data' } o' p' = .ok out := by
  have hpool := cube_pool h
  unfold unwrapCube at h ⊢
  rw [hk] at h
  rw [hk']
  simp only [Bind.bind, Except.bind] at h ⊢
  cases e2 : unwrapInTime tau solver e w.data kind o with
  | error er => rw [e2] at h; simp at h
  | ok grad =>
  rw [e2] at h
  simp only at h
  rw [inTime_kinds tau solver e hnd hord hm hb w.data data' kind kind' hin hgrad o o' ho ho' grad e2]
  exact inSpace_transport tau solver (SameSolver.rfl' e) hlt hpool grad p p' hp hp' out h

/-- The interferograms of a stack, up to a phase per interferogram and whole cycles. `links` are the pairs of acquisitions. -/
structure Spec.IfgsOf (tau : K) (links : List (Nat × Nat)) (slc ifg : List (List K)) : Prop where
  count : ifg.length = links.length
  width : (ifg.headD []).length = (slc.headD []).length
  phase : ∃ a : Nat → K, ∀ i s t, links[i]? = some (s, t) → ∀ p < (slc.headD []).length, ∃ k : ℤ,
    (ifg.getD i []).getD p 0 = (slc.getD t []).getD p 0 - (slc.getD s []).getD p 0 + a i + k * tau

/-- C87. `unwrap_cube` given acquisitions, or given their interferograms, whatever the wrapping and the reference of each:
one call returns exactly when the other does, and the same. -/
theorem C87_kinds (tau : K) (ht : 0 < tau) (solver : FlowSolver) (e : Emcf) (gt : PlanarGraph)
    (hc : PlanarContract gt.npoints gt.links gt.cycles) (hm : ormcf gt = .ok e.time) (hb : 0 < e.settings.linksPerBatch)
    (hlt : ∀ p q, (p, q) ∈ e.space.graph.links → p < q) (hcount : gt.links.length ≠ gt.npoints)
    (w : CubeInput K) (hw : w.data.length = gt.npoints) (ifg : List (List K)) (hifg : IfgsOf tau gt.links w.data ifg)
    (htie : ∀ s u, (s, u) ∈ gt.links → ∀ p q, (p, q) ∈ e.space.graph.links →
      NoTie tau (((w.data.getD u []).getD q 0 - (w.data.getD s []).getD q 0) -
        ((w.data.getD u []).getD p 0 - (w.data.getD s []).getD p 0)))
    (o o' : Nat → List Nat → List Nat) (ho : ∀ k l, (o k l).Perm l) (ho' : ∀ k l, (o' k l).Perm l)
    (p p' : List Nat → List Nat) (hp : ∀ l, (p l).Perm l) (hp' : ∀ l, (p' l).Perm l) (out : List (List K)) :
    unwrapCube tau solver e w o p = .ok out ↔ unwrapCube tau solver e { w with data := ifg } o' p' = .ok out := by
  have hg := ormcf_graph hm
  have hord : ∀ a b, (a, b) ∈ gt.links → a ≤ b := fun a b hab => (hc.ordered a b hab).1.le
  obtain ⟨a, ha⟩ := hifg.phase
  have hn : e.nepochs = gt.npoints := by unfold Emcf.nepochs; rw [hg]
  have hi : e.nifgs = gt.links.length := by unfold Emcf.nifgs; rw [hg]
  have hin : ∀ j, LinkInput e w.data false j ↔ LinkInput e ifg true j := by
    intro j
    unfold LinkInput
    rw [hifg.width, hifg.count, hi, hg, hw]
    constructor
    · exact fun h => ⟨h.1, h.2.1, fun _ => rfl, by simp⟩
    · refine fun h => ⟨h.1, h.2.1, by simp, fun _ l hl => ?_⟩
      have := hc.ordered l.1 l.2 hl
      omega
  have hgrad : ∀ i < e.nifgs, ∀ j < e.nlinks, LinkInput e w.data false j →
      spaceGrad tau e ifg true i j = spaceGrad tau e w.data false i j := by
    intro i hi' j hj hin
    rw [hi] at hi'
    unfold Emcf.nlinks at hj
    obtain ⟨s, u, hsu⟩ : ∃ s u, gt.links.getD i (0, 0) = (s, u) := ⟨_, _, rfl⟩
    obtain ⟨x, y, hxy⟩ : ∃ x y, e.space.graph.links.getD j (0, 0) = (x, y) := ⟨_, _, rfl⟩
    have m1 : gt.links[i]? = some (s, u) := by
      rw [← hsu, List.getD_eq_getElem _ _ hi', List.getElem?_eq_getElem hi']
    have m2 : (x, y) ∈ e.space.graph.links := by
      rw [← hxy, List.getD_eq_getElem _ _ hj]; exact List.getElem_mem hj
    have hno := htie s u (List.mem_of_getElem? m1) x y m2
    unfold LinkInput at hin
    rw [hxy] at hin
    obtain ⟨k1, e1⟩ := ha i s u m1 x hin.1
    obtain ⟨k2, e2⟩ := ha i s u m1 y hin.2.1
    unfold spaceGrad
    simp only [hxy, hg, hsu, if_true, Bool.false_eq_true, if_false]
    have key : ∀ r0 r1 : ℤ, phaseDiff tau (elem ifg i x) (elem ifg i y) =
        phaseDiff tau (elem w.data u x - elem w.data s x - r0 * tau) (elem w.data u y - elem w.data s y - r1 * tau) := by
      intro r0 r1
      refine phaseDiff_congr ht (k2 - k1 + r1 - r0) ?_ ?_
      · unfold elem
        rw [e1, e2]
        push_cast
        ring
      · intro n hn
        refine hno (n + r1 - r0) ?_
        unfold elem at hn
        push_cast
        linear_combination hn
    rw [key (rint ((elem w.data u x - elem w.data s x) / tau)) (rint ((elem w.data u y - elem w.data s y) / tau)),
      phaseDiff_eq tau (elem w.data s x), phaseDiff_eq tau (elem w.data s y)]
  by_cases hd : w.ndim = 2 ∧ w.timeDim = 0
  · have hk : cubeKind e w = .ok false := by
      unfold cubeKind
      rw [hn, if_neg (by simp [hd.1]), if_neg (by simp [hd.2]), if_pos hw]
    have hk' : cubeKind e { w with data := ifg } = .ok true := by
      unfold cubeKind
      rw [hn, hi, if_neg (by simp [hd.1]), if_neg (by simp [hd.2]), if_neg (by rw [hifg.count]; exact hcount),
        if_pos hifg.count]
    constructor
    · exact cube_kinds tau solver e hc.distinct hord hm hlt hb w ifg false true hk hk' (fun j _ h => (hin j).1 h) hgrad
        o o' ho ho' p p' hp hp' out
    · exact cube_kinds tau solver e hc.distinct hord hm hlt hb { w with data := ifg } w.data true false hk' hk
        (fun j _ h => (hin j).2 h) (fun i hi j hj h => (hgrad i hi j hj ((hin j).2 h)).symm) o' o ho' ho p' p hp' hp out
  · have bad : ∀ data : List (List K), ∃ x, cubeKind e { w with data := data } = .error x := by
      intro data
      unfold cubeKind
      by_cases h2 : w.ndim = 2
      · rw [if_neg (by simp [h2]), if_pos (by intro h0; exact hd ⟨h2, h0⟩)]; exact ⟨_, rfl⟩
      · rw [if_pos h2]; exact ⟨_, rfl⟩
    obtain ⟨x, hx⟩ := bad w.data
    obtain ⟨y, hy⟩ := bad ifg
    unfold unwrapCube
    rw [hy]
    rw [show cubeKind e w = .error x from hx]
    simp [Bind.bind, Except.bind]

/-- C87. What `unwrap_cube` returns for interferograms comes back unchanged when it is given back. -/
theorem C87_again_ifg (tau : K) (ht : 0 < tau) (solver : FlowSolver) (e : Emcf) (gt : PlanarGraph)
    (hc : PlanarContract gt.npoints gt.links gt.cycles) (hne : gt.links ≠ []) (hm : ormcf gt = .ok e.time)
    (hs : SolverSound solver) (hb : 0 < e.settings.linksPerBatch)
    (hlt : ∀ p q, (p, q) ∈ e.space.graph.links → p < q ∧ q < e.space.graph.npoints)
    (w : CubeInput K) (hw : w.data.length ≠ gt.npoints) (hwidth : (w.data.headD []).length = e.space.graph.npoints)
    (htie : ∀ i < w.data.length, ∀ p q, (p, q) ∈ e.space.graph.links →
      NoTie tau ((w.data.getD i []).getD q 0 - (w.data.getD i []).getD p 0))
    (o o' : Nat → List Nat → List Nat) (ho : ∀ k l, (o k l).Perm l) (ho' : ∀ k l, (o' k l).Perm l)
    (p p' : List Nat → List Nat) (hp : ∀ l, (p l).Perm l) (hp' : ∀ l, (p' l).Perm l) (out : List (List K))
    (h : unwrapCube tau solver e w o p = .ok out) : unwrapCube tau solver e { w with data := out } o' p' = .ok out := by
  obtain ⟨h1, h2⟩ := C21_ifg_congruent tau solver e gt hc hm hs hb (fun a b hab => (hlt a b hab).1) w hw o p ho hp out h
  have hlen : w.data.length = gt.links.length := by
    unfold unwrapCube at h
    cases hk : cubeKind e w with
    | error x => rw [hk] at h; simp [Bind.bind, Except.bind] at h
    | ok b =>
      unfold cubeKind Emcf.nepochs Emcf.nifgs at hk
      rw [ormcf_graph hm, if_neg hw] at hk
      split at hk
      · cases hk
      split at hk
      · cases hk
      split at hk
      · assumption
      · cases hk
  have hpos : 0 < gt.links.length := List.length_pos_of_ne_nil hne
  have hout : (out.headD []).length = e.space.graph.npoints := by
    have := (h2 0 hpos).1
    cases out with
    | nil => simp at h1; omega
    | cons r l => simpa using this
  refine C79_cube_ifg tau ht solver e gt hc hm hb (fun a b hab => (hlt a b hab).1) w hlen hw out (by rw [h1, hlen])
    (by rw [hout, hwidth]) (fun i => - (w.data.getD i []).getD 0 0) ?_ htie o o' ho ho' p p' hp hp' out h
  intro i hi q hq
  obtain ⟨k, hk⟩ := (h2 i (by omega)).2.2 q (by omega)
  exact ⟨k, by rw [hk]; ring⟩

/-- C87. What `unwrap_cube` returns for acquisitions comes back unchanged when it is given as interferograms. -/
theorem C87_again_slc (tau : K) (ht : 0 < tau) (solver : FlowSolver) (e : Emcf) (gt : PlanarGraph)
    (hc : PlanarContract gt.npoints gt.links gt.cycles) (hne : gt.links ≠ []) (hcount : gt.links.length ≠ gt.npoints)
    (hm : ormcf gt = .ok e.time) (hs : SolverSound solver) (hb : 0 < e.settings.linksPerBatch)
    (hlt : ∀ p q, (p, q) ∈ e.space.graph.links → p < q ∧ q < e.space.graph.npoints)
    (w : CubeInput K) (hw : w.data.length = gt.npoints) (hwidth : (w.data.headD []).length = e.space.graph.npoints)
    (htie : ∀ s u, (s, u) ∈ gt.links → ∀ p q, (p, q) ∈ e.space.graph.links →
      NoTie tau (((w.data.getD u []).getD q 0 - (w.data.getD s []).getD q 0) -
        ((w.data.getD u []).getD p 0 - (w.data.getD s []).getD p 0)))
    (o o' : Nat → List Nat → List Nat) (ho : ∀ k l, (o k l).Perm l) (ho' : ∀ k l, (o' k l).Perm l)
    (p p' : List Nat → List Nat) (hp : ∀ l, (p l).Perm l) (hp' : ∀ l, (p' l).Perm l) (out : List (List K))
    (h : unwrapCube tau solver e w o p = .ok out) : unwrapCube tau solver e { w with data := out } o' p' = .ok out := by
  obtain ⟨h1, h2⟩ := C21_slc_congruent tau solver e gt hc hm hs hb (fun a b hab => (hlt a b hab).1) w hw o p ho hp out h
  have hpos : 0 < gt.links.length := List.length_pos_of_ne_nil hne
  have hout : (out.headD []).length = e.space.graph.npoints := by
    have := (h2 0 _ _ (List.getElem?_eq_getElem hpos)).1
    cases out with
    | nil => simp at h1; omega
    | cons r l => simpa using this
  refine (C87_kinds tau ht solver e gt hc hm hb (fun a b hab => (hlt a b hab).1) hcount w hw out
    ⟨h1, by rw [hout, hwidth], fun i => - ifgPhase tau w.data (gt.links.getD i (0, 0)).1 (gt.links.getD i (0, 0)).2 0, ?_⟩
    htie o o' ho ho' p p' hp hp' out).1 h
  intro i s t hi q hq
  obtain ⟨k, hk⟩ := ((h2 i s t hi).2.2 q (by omega)).1
  have hgl : gt.links.getD i (0, 0) = (s, t) := by rw [List.getD_eq_getElem?_getD, hi]; rfl
  rw [hk]
  simp only [hgl]
  refine ⟨k - rint (((w.data.getD t []).getD q 0 - (w.data.getD s []).getD q 0) / tau), ?_⟩
  rw [show ifgPhase tau w.data s t q = phaseDiff tau ((w.data.getD s []).getD q 0) ((w.data.getD t []).getD q 0) from rfl,
    phaseDiff_eq]
  push_cast
  ring

omit [IsStrictOrderedRing K] in
theorem linkResiduesFl_congr (A : FloatArith K) (m : Mcf) (g g' : Nat → K) (h : ∀ i < m.graph.links.length, g' i = g i) :
    linkResiduesFl A m g' = linkResiduesFl A m g := by
  unfold linkResiduesFl
  have : ∀ (l : List Nat) (acc : List K), (∀ i ∈ l, i < m.graph.links.length) →
      l.foldl (fun acc ii =>
        let r := m.dual.getD ii ⟨0, 0, 0, 0⟩
        let acc := acc.modify r.c0 (fun x => A.fs (x + (r.d0 : K) * g' ii))
        if r.c1 ≠ 0 then acc.modify r.c1 (fun x => A.fs (x + (r.d1 : K) * g' ii)) else acc) acc =
      l.foldl (fun acc ii =>
        let r := m.dual.getD ii ⟨0, 0, 0, 0⟩
        let acc := acc.modify r.c0 (fun x => A.fs (x + (r.d0 : K) * g ii))
        if r.c1 ≠ 0 then acc.modify r.c1 (fun x => A.fs (x + (r.d1 : K) * g ii)) else acc) acc := by
    intro l
    induction l with
    | nil => intro acc _; rfl
    | cons i l ih =>
      intro acc hl
      rw [List.foldl_cons, List.foldl_cons, h i (hl i (by simp)), ih _ fun i hi => hl i (by simp [hi])]
  rw [this _ _ fun i hi => List.mem_range.mp hi]

/-- C87 in floating point, whatever the rounding: given the interferograms that `phase_diff` forms from the acquisitions,
`unwrap_cube` returns exactly what it returns for the acquisitions, bit by bit and without exceptions. -/
theorem C87_kinds_float (A : FloatArith K) (solver : FlowSolver) (e : Emcf) (gt : PlanarGraph)
    (hc : PlanarContract gt.npoints gt.links gt.cycles) (hm : ormcf gt = .ok e.time) (hb : 0 < e.settings.linksPerBatch)
    (hcount : gt.links.length ≠ gt.npoints)
    (w : CubeInput K) (hw : w.data.length = gt.npoints) (ifg : List (List K)) (hlen : ifg.length = gt.links.length)
    (hwidth : (ifg.headD []).length = (w.data.headD []).length)
    (hifg : ∀ i s t, gt.links[i]? = some (s, t) → ∀ p < (w.data.headD []).length,
      (ifg.getD i []).getD p 0 = phaseDiffFl A.fs A.tauS ((w.data.getD s []).getD p 0) ((w.data.getD t []).getD p 0))
    (o o' : Nat → List Nat → List Nat) (ho : ∀ k l, (o k l).Perm l) (ho' : ∀ k l, (o' k l).Perm l)
    (p : List Nat → List Nat) (out : List (List K)) :
    unwrapCubeFl A solver e w o p = .ok out ↔ unwrapCubeFl A solver e { w with data := ifg } o' p = .ok out := by
  have hg := ormcf_graph hm
  have hord : ∀ a b, (a, b) ∈ gt.links → a ≤ b := fun a b hab => (hc.ordered a b hab).1.le
  have hn : e.nepochs = gt.npoints := by unfold Emcf.nepochs; rw [hg]
  have hi : e.nifgs = gt.links.length := by unfold Emcf.nifgs; rw [hg]
  have hin : ∀ j, LinkInput e w.data false j ↔ LinkInput e ifg true j := by
    intro j
    unfold LinkInput
    rw [hwidth, hlen, hi, hg, hw]
    constructor
    · exact fun h => ⟨h.1, h.2.1, fun _ => rfl, by simp⟩
    · refine fun h => ⟨h.1, h.2.1, by simp, fun _ l hl => ?_⟩
      have := hc.ordered l.1 l.2 hl
      omega
  have hgrad : ∀ i < e.nifgs, ∀ j < e.nlinks, LinkInput e w.data false j →
      spaceGradFl A e ifg true i j = spaceGradFl A e w.data false i j := by
    intro i hi' j hj hin
    rw [hi] at hi'
    obtain ⟨s, u, hsu⟩ : ∃ s u, gt.links.getD i (0, 0) = (s, u) := ⟨_, _, rfl⟩
    have m1 : gt.links[i]? = some (s, u) := by
      rw [← hsu, List.getD_eq_getElem _ _ hi', List.getElem?_eq_getElem hi']
    unfold spaceGradFl
    simp only [hg, hsu, if_true, Bool.false_eq_true, if_false]
    unfold elem
    rw [hifg i s u m1 _ hin.1, hifg i s u m1 _ hin.2.1]
  have htime : ∀ grad, unwrapInTimeFl A solver e w.data false o = .ok grad ↔
      unwrapInTimeFl A solver e ifg true o' = .ok grad := by
    intro grad
    cases hcost : costOf e.settings.tCostType e.nifgs e.tDist e.tCent with
    | error err =>
      unfold unwrapInTimeFl
      rw [hcost]
      simp [Bind.bind, Except.bind]
    | ok cost =>
      rw [inTimeFl_iff A solver e hc.distinct hord hm hg w.data false cost hcost o ho hb,
        inTimeFl_iff A solver e hc.distinct hord hm hg ifg true cost hcost o' ho' hb]
      have hl : ∀ j < e.nlinks, LinkInput e w.data false j →
          linkTimeFl A solver e ifg true cost j = linkTimeFl A solver e w.data false cost j := by
        intro j hj hin
        unfold linkTimeFl
        rw [linkResiduesFl_congr A e.time _ _ fun i hi => hgrad i hi j hj hin]
      have hout : (∀ j < e.nlinks, LinkInput e w.data false j) →
          ((List.range e.nifgs).map fun i => (List.range e.nlinks).map fun j =>
            addCyclesFl A (spaceGradFl A e ifg true i j) ((okVal (linkTimeFl A solver e ifg true cost j)).getD i 0)) =
          (List.range e.nifgs).map fun i => (List.range e.nlinks).map fun j =>
            addCyclesFl A (spaceGradFl A e w.data false i j) ((okVal (linkTimeFl A solver e w.data false cost j)).getD i 0) := by
        intro hall
        apply List.map_congr_left
        intro i hi
        apply List.map_congr_left
        intro j hj
        have hj := List.mem_range.mp hj
        rw [hgrad i (List.mem_range.mp hi) j hj (hall j hj), hl j hj (hall j hj)]
      constructor
      · rintro ⟨h1, h2⟩
        refine ⟨fun j hj => ?_, ?_⟩
        · rw [hl j hj (h1 j hj).1]
          exact ⟨(hin j).1 (h1 j hj).1, (h1 j hj).2⟩
        · rw [h2, hout fun j hj => (h1 j hj).1]
      · rintro ⟨h1, h2⟩
        have hall : ∀ j < e.nlinks, LinkInput e w.data false j := fun j hj => (hin j).2 (h1 j hj).1
        refine ⟨fun j hj => ⟨hall j hj, ?_⟩, ?_⟩
        · have := (h1 j hj).2
          rwa [hl j hj (hall j hj)] at this
        · rw [h2, hout hall]
  by_cases hd : w.ndim = 2 ∧ w.timeDim = 0
  · have hk : cubeKind e w = .ok false := by
      unfold cubeKind
      rw [hn, if_neg (by simp [hd.1]), if_neg (by simp [hd.2]), if_pos hw]
    have hk' : cubeKind e { w with data := ifg } = .ok true := by
      unfold cubeKind
      rw [hn, hi, if_neg (by simp [hd.1]), if_neg (by simp [hd.2]), if_neg (by rw [hlen]; exact hcount), if_pos hlen]
    unfold unwrapCubeFl
    rw [hk, hk']
    simp only [Bind.bind, Except.bind]
    cases e1 : unwrapInTimeFl A solver e w.data false o with
    | ok grad => rw [(htime grad).1 e1]
    | error x =>
      cases e2 : unwrapInTimeFl A solver e ifg true o' with
      | ok grad => rw [(htime grad).2 e2] at e1; cases e1
      | error y => simp
  · have bad : ∀ data : List (List K), ∃ x, cubeKind e { w with data := data } = .error x := by
      intro data
      unfold cubeKind
      by_cases h2 : w.ndim = 2
      · rw [if_neg (by simp [h2]), if_pos (by intro h0; exact hd ⟨h2, h0⟩)]; exact ⟨_, rfl⟩
      · rw [if_pos h2]; exact ⟨_, rfl⟩
    obtain ⟨x, hx⟩ := bad w.data
    obtain ⟨y, hy⟩ := bad ifg
    unfold unwrapCubeFl
    rw [hy]
    rw [show cubeKind e w = .error x from hx]
    simp [Bind.bind, Except.bind]

end
end Spurt
