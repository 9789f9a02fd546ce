import Verif.Lemmas.ResumeRun

/-! # When two calls of `unwrap_cube` give the same result -/

namespace Spurt
open Spec

section
variable {K : Type} [Field K] [LinearOrder K] [FloorRing K] [IsStrictOrderedRing K]

omit [IsStrictOrderedRing K] in
theorem linkResidues_congr (tau : K) (m : Mcf) (g g' : Nat → K) (h : ∀ i < m.graph.links.length, g' i = g i) :
    linkResidues tau m g' = linkResidues tau m g := by
  unfold linkResidues
  have : ∀ (l : List Nat) (acc : List K), (∀ i ∈ l, i < m.graph.links.length) →
      l.foldl (fun acc ii =>
        let r := m.dual.getD ii ⟨0, 0, 0, 0⟩
        let acc := acc.modify r.c0 (· + (r.d0 : K) * g' ii)
        if r.c1 ≠ 0 then acc.modify r.c1 (· + (r.d1 : K) * g' ii) else acc) acc =
      l.foldl (fun acc ii =>
        let r := m.dual.getD ii ⟨0, 0, 0, 0⟩
        let acc := acc.modify r.c0 (· + (r.d0 : K) * g ii)
        if r.c1 ≠ 0 then acc.modify r.c1 (· + (r.d1 : K) * g ii) else acc) acc := by
    intro l
    induction l with
    | nil => intro acc _; rfl
    | cons i l ih =>
      intro acc hl
      rw [List.foldl_cons, List.foldl_cons, h i (hl i (by simp)), ih _ fun i hi => hl i (by simp [hi])]
  rw [this _ _ fun i hi => List.mem_range.mp hi]

/-- Two solvers that differ in the degree of parallelism only. -/
structure SameSolver (e e' : Emcf) : Prop where
  space : e'.space = e.space
  time : e'.time = e.time
  tType : e'.settings.tCostType = e.settings.tCostType
  sType : e'.settings.sCostType = e.settings.sCostType
  tDist : e'.tDist = e.tDist
  tCent : e'.tCent = e.tCent
  sDist : e'.sDist = e.sDist
  sCent : e'.sCent = e.sCent

theorem SameSolver.rfl' (e : Emcf) : SameSolver e e := ⟨rfl, rfl, rfl, rfl, rfl, rfl, rfl, rfl⟩

theorem inTime_transport (tau : K) (solver : FlowSolver) {e e' : Emcf} (hsame : SameSolver e e') {gt : PlanarGraph}
    (hnd : gt.links.Nodup) (hord : ∀ a b, (a, b) ∈ gt.links → a ≤ b) (hm : ormcf gt = .ok e.time)
    (hb : 0 < e.settings.linksPerBatch) (hb' : 0 < e'.settings.linksPerBatch) (data data' : List (List K)) (isIfg : Bool)
    (hlen : data'.length = data.length) (hhead : (data'.headD []).length = (data.headD []).length)
    (hgrad : ∀ i < e.nifgs, ∀ j < e.nlinks, LinkInput e data isIfg j →
      spaceGrad tau e data' isIfg i j = spaceGrad tau e data isIfg i j)
    (o o' : Nat → List Nat → List Nat) (ho : ∀ k l, (o k l).Perm l) (ho' : ∀ k l, (o' k l).Perm l) (out : List (List K))
    (h : unwrapInTime tau solver e data isIfg o = .ok out) : unwrapInTime tau solver e' data' isIfg o' = .ok out := by
  obtain ⟨hmg, _⟩ := (C06_dual_graph gt hnd hord).2 e.time hm
  have hn : e'.nlinks = e.nlinks := by unfold Emcf.nlinks; rw [hsame.space]
  have hi : e'.nifgs = e.nifgs := by unfold Emcf.nifgs; rw [hsame.time]
  cases hcost : costOf e.settings.tCostType e.nifgs e.tDist e.tCent with
  | error err =>
    unfold unwrapInTime at h
    rw [hcost] at h
    simp [Bind.bind, Except.bind] at h
  | ok cost =>
    have hcost' : costOf e'.settings.tCostType e'.nifgs e'.tDist e'.tCent = .ok cost := by
      rw [hsame.tType, hi, hsame.tDist, hsame.tCent, hcost]
    rw [inTime_iff tau solver e hnd hord hm hmg data isIfg cost hcost o ho hb] at h
    rw [inTime_iff tau solver e' hnd hord (by rw [hsame.time]; exact hm) (by rw [hsame.time]; exact hmg) data' isIfg cost hcost' o' ho' hb']
    obtain ⟨h1, h2⟩ := h
    have hg : ∀ i < e.nifgs, ∀ j < e.nlinks, spaceGrad tau e' data' isIfg i j = spaceGrad tau e data isIfg i j := by
      intro i hi j hj
      rw [← hgrad i hi j hj (h1 j hj).1]
      unfold spaceGrad
      rw [hsame.space, hsame.time]
    have hl : ∀ j < e.nlinks, linkTime tau solver e' data' isIfg cost j = linkTime tau solver e data isIfg cost j := by
      intro j hj
      unfold linkTime
      rw [hsame.time, linkResidues_congr tau e.time _ _ fun i hi => hg i hi j hj]
    refine ⟨fun j hj => ?_, ?_⟩
    · rw [hn] at hj
      obtain ⟨a1, a2⟩ := h1 j hj
      rw [hl j hj]
      refine ⟨?_, a2⟩
      unfold LinkInput at a1 ⊢
      rw [hsame.space, hsame.time, hi, hlen, hhead]
      exact a1
    · rw [h2, hn, hi]
      apply List.map_congr_left
      intro i hi
      apply List.map_congr_left
      intro j hj
      rw [hg i (List.mem_range.mp hi) j (List.mem_range.mp hj), hl j (List.mem_range.mp hj)]

theorem inSpace_transport (tau : K) (solver : FlowSolver) {e e' : Emcf} (hsame : SameSolver e e')
    (hlt : ∀ a b, (a, b) ∈ e.space.graph.links → a < b) (hpool : 1 ≤ e'.settings.sWorkerCount ∨ 2 ≤ e'.cpuCount)
    (grad : List (List K)) (o o' : List Nat → List Nat) (ho : ∀ l, (o l).Perm l) (ho' : ∀ l, (o' l).Perm l) (out : List (List K))
    (h : unwrapInSpace tau solver e grad o = .ok out) : unwrapInSpace tau solver e' grad o' = .ok out := by
  have hn : e'.nlinks = e.nlinks := by unfold Emcf.nlinks; rw [hsame.space]
  cases hcost : costOf e.settings.sCostType e.nlinks e.sDist e.sCent with
  | error err =>
    unfold unwrapInSpace at h
    rw [hcost] at h
    simp [Bind.bind, Except.bind] at h
  | ok cost =>
    have hcost' : costOf e'.settings.sCostType e'.nlinks e'.sDist e'.sCent = .ok cost := by
      rw [hsame.sType, hn, hsame.sDist, hsame.sCent, hcost]
    have hp : 1 ≤ e.settings.sWorkerCount ∨ 2 ≤ e.cpuCount := by
      by_contra hc
      have : processPool (spatialWorkers e.cpuCount e.settings.sWorkerCount) = .error .valueError := by
        unfold processPool spatialWorkers
        rw [if_pos]
        split <;> omega
      unfold unwrapInSpace at h
      rw [hcost] at h
      simp [Bind.bind, Except.bind, this] at h
    rw [C23_rows tau solver e hlt cost hcost hp grad o ho] at h
    rw [C23_rows tau solver e' (by rw [hsame.space]; exact hlt) cost hcost' hpool grad o' ho', hsame.space, hsame.time]
    exact h

theorem cube_transport (tau : K) (solver : FlowSolver) {e e' : Emcf} (hsame : SameSolver e e') {gt : PlanarGraph}
    (hnd : gt.links.Nodup) (hord : ∀ a b, (a, b) ∈ gt.links → a ≤ b) (hm : ormcf gt = .ok e.time)
    (hlt : ∀ a b, (a, b) ∈ e.space.graph.links → a < b)
    (hb : 0 < e.settings.linksPerBatch) (hb' : 0 < e'.settings.linksPerBatch)
    (hpool : 1 ≤ e'.settings.sWorkerCount ∨ 2 ≤ e'.cpuCount) (w : CubeInput K) (data' : List (List K))
    (hlen : data'.length = w.data.length) (hhead : (data'.headD []).length = (w.data.headD []).length)
    (hgrad : ∀ isIfg, cubeKind e w = .ok isIfg → ∀ i < e.nifgs, ∀ j < e.nlinks, LinkInput e w.data isIfg j →
      spaceGrad tau e data' isIfg i j = spaceGrad tau e w.data isIfg i j)
    (o o' : Nat → List Nat → List Nat) (ho : ∀ k l, (o k l).Perm l) (ho' : ∀ k l, (o' k l).Perm l)
    (p p' : List Nat → List Nat) (hp : ∀ l, (p l).Perm l) (hp' : ∀ l, (p' l).Perm l) (out : List (List K))
    (h : unwrapCube tau solver e w o p = .ok out) : unwrapCube tau solver e' { w with data := data' } o' p' = .ok out := by
  have hk : cubeKind e' { w with data := data' } = cubeKind e w := by
    unfold cubeKind Emcf.nepochs Emcf.nifgs
    rw [hsame.time]
    simp only [hlen]
  unfold unwrapCube at h ⊢
  rw [hk]
  cases e1 : cubeKind e w with
  | error er => rw [e1] at h; simp [Bind.bind, Except.bind] at h
  | ok isIfg =>
  rw [e1] at h
  simp only [Bind.bind, Except.bind] at h ⊢
  cases e2 : unwrapInTime tau solver e w.data isIfg o with
  | error er => rw [e2] at h; simp at h
  | ok grad =>
  rw [e2] at h
  simp only at h
  rw [inTime_transport tau solver hsame hnd hord hm hb hb' w.data data' isIfg hlen hhead (hgrad isIfg e1) o o' ho ho' grad e2]
  exact inSpace_transport tau solver hsame hlt hpool grad p p' hp hp' out h

end

end Spurt
