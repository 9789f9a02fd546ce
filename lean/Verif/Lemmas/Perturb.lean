import Verif.Lemmas.Transport
import Verif.Lemmas.Sign

/-!
# `unwrap_cube` on gradients changed by the differences of a point function
-/

namespace Spurt
open Spec

section
variable {K : Type} [Field K] [LinearOrder K] [FloorRing K] [IsStrictOrderedRing K]

omit [LinearOrder K] [FloorRing K] [IsStrictOrderedRing K] in
/-- The circulation of an edge function does not change when the differences of a point function are added. -/
theorem circulation_grad {g : PlanarGraph} (hc : PlanarContract g.npoints g.links g.cycles) (x x' h : Nat → K)
    (hx : ∀ i a b, g.links[i]? = some (a, b) → x' i = x i + (h b - h a)) {k : Nat} (hk : k < g.cycles.length) :
    circulation g.links ((List.range g.links.length).map x') g.cycles[k] =
      circulation g.links ((List.range g.links.length).map x) g.cycles[k] := by
  have hon : ∀ a b, (a, b) ∈ g.links → onLink g.links ((List.range g.links.length).map x') a b =
      onLink g.links ((List.range g.links.length).map x) a b + (h b - h a) := by
    intro a b hab
    have hi := List.idxOf_lt_length_iff.mpr hab
    unfold onLink
    simp only [List.getD_eq_getElem?_getD, List.getElem?_map, List.getElem?_range hi, Option.map_some, Option.getD_some]
    exact hx _ a b (by rw [List.getElem?_eq_getElem hi, List.getElem_idxOf hi])
  unfold circulation
  have hs : ∀ s ∈ sides g.cycles[k], along g.links ((List.range g.links.length).map x') s.1 s.2 =
      along g.links ((List.range g.links.length).map x) s.1 s.2 + (h s.2 - h s.1) := by
    rintro ⟨a, b⟩ hs
    have hw : (a, b) ∈ walked g.cycles := List.mem_flatMap.mpr ⟨_, List.getElem_mem hk, hs⟩
    unfold along
    rcases hc.side_is_link a b hw with hl | hl
    · rw [if_pos (hc.ordered a b hl).1, if_pos (hc.ordered a b hl).1, hon a b hl]
    · have := (hc.ordered b a hl).1
      simp only
      rw [if_neg (by omega), if_neg (by omega), hon b a hl]
      ring
  rw [List.map_congr_left hs]
  have : ∀ l : List (Nat × Nat), (l.map fun s => along g.links ((List.range g.links.length).map x) s.1 s.2 + (h s.2 - h s.1)).sum =
      (l.map fun s => along g.links ((List.range g.links.length).map x) s.1 s.2).sum + (l.map fun s => h s.2 - h s.1).sum := by
    intro l
    induction l with
    | nil => simp
    | cons a l ih => simp only [List.map_cons, List.sum_cons, ih]; ring
  rw [this, sum_sides_diff, add_zero]

theorem linkResidues_grad (tau : K) {g : PlanarGraph} {m : Mcf} (hc : PlanarContract g.npoints g.links g.cycles)
    (hm : ormcf g = .ok m) (x x' h : Nat → K) (hx : ∀ i a b, g.links[i]? = some (a, b) → x' i = x i + (h b - h a)) :
    linkResidues tau m x' = linkResidues tau m x := by
  obtain ⟨l1, s1, v1⟩ := linkResidues_contract tau hc hm x
  obtain ⟨l2, s2, v2⟩ := linkResidues_contract tau hc hm x'
  have htail : (linkResidues tau m x').tail = (linkResidues tau m x).tail := by
    apply List.ext_getElem
    · simp [l1, l2]
    · intro i h1 h2
      have hi : i < g.cycles.length := by simp [l2] at h1; exact h1
      have a1 := v1 i hi
      have a2 := v2 i hi
      rw [circulation_grad hc x x' h hx hi, ← a1] at a2
      rw [List.getD_eq_getElem _ _ (by omega), List.getD_eq_getElem _ _ (by omega)] at a2
      simpa using a2
  cases e1 : linkResidues tau m x with
  | nil => rw [e1] at l1; simp at l1
  | cons a l =>
    cases e2 : linkResidues tau m x' with
    | nil => rw [e2] at l2; simp at l2
    | cons a' l' =>
      rw [e1, e2] at htail
      simp only [List.tail_cons] at htail
      subst htail
      rw [e1, List.sum_cons] at s1
      rw [e2, List.sum_cons] at s2
      congr 1
      linarith

theorem gradResidues_grad (tau : K) {g : PlanarGraph} {m : Mcf} (hc : PlanarContract g.npoints g.links g.cycles)
    (hm : ormcf g = .ok m) (x x' h : Nat → K) (hx : ∀ i a b, g.links[i]? = some (a, b) → x' i = x i + (h b - h a)) :
    computeResiduesFromGradients tau m ((List.range g.links.length).map x') =
      computeResiduesFromGradients tau m ((List.range g.links.length).map x) := by
  obtain ⟨hmg, hmd⟩ := dual_of_contract hc hm
  rw [residuesFromGradients_eq tau m _ (by rw [hmg]; simp) (by rw [hmd, hmg]; simp),
    residuesFromGradients_eq tau m _ (by rw [hmg]; simp) (by rw [hmd, hmg]; simp)]
  simp only [hmg, hmd]
  have : ((List.range g.cycles.length).map fun k =>
        rint ((∑ i ∈ Finset.range g.links.length,
          (rowInc ((g.links.map fun l => rowOf (linkTraversals g.cycles l)).getD i ⟨0, 0, 0, 0⟩) (k + 1) : K) *
            ((List.range g.links.length).map x').getD i 0) / tau)) =
      (List.range g.cycles.length).map fun k =>
        rint ((∑ i ∈ Finset.range g.links.length,
          (rowInc ((g.links.map fun l => rowOf (linkTraversals g.cycles l)).getD i ⟨0, 0, 0, 0⟩) (k + 1) : K) *
            ((List.range g.links.length).map x).getD i 0) / tau) := by
    apply List.map_congr_left
    intro k hk
    have hk := List.mem_range.mp hk
    rw [← circulation_dual hc _ hk, ← circulation_dual hc _ hk, circulation_grad hc x x' h hx hk]
  rw [this]

/-! ### The flood fill -/

/-- Two states of the flood fill that differ by `D` where a value has been set. -/
structure FfRel (D : Nat → K) (s s' : FfState K) : Prop where
  done : s'.done = s.done
  todo : s'.todo = s.todo
  errs : s'.errs = s.errs
  unw : ∀ p, s.done p = true → s'.unw p = s.unw p + D p
  sub : ∀ p ∈ s.todo, s.done p = true

omit [FloorRing K] [IsStrictOrderedRing K] in
theorem ffStep_rel {D : Nat → K} {s s' : FfState K} (h : FfRel D s s') {i : Nat} (hi : s.done i = true) {j : Nat} {g g' : K}
    (hg : g' = g + (D j - D i)) :
    FfRel D (ffStep i s (j, g)) (ffStep i s' (j, g')) ∧ (ffStep i s (j, g)).done i = true := by
  have hu : s'.unw i + g' = s.unw i + g + D j := by rw [h.unw i hi, hg]; ring
  unfold ffStep
  simp only [hu, h.done]
  by_cases hd : s.done j = false
  · rw [if_pos hd, if_pos hd]
    refine ⟨⟨rfl, by simp only [h.todo], h.errs, ?_, ?_⟩, ?_⟩
    · intro p hp
      simp only at hp ⊢
      by_cases hpj : p = j
      · subst hpj; simp
      · rw [Function.update_of_ne hpj] at hp ⊢
        rw [Function.update_of_ne hpj]
        exact h.unw p hp
    · intro p hp
      simp only [List.mem_append, List.mem_singleton] at hp ⊢
      by_cases hpj : p = j
      · subst hpj; simp
      · rw [Function.update_of_ne hpj]
        rcases hp with hp | hp
        · exact h.sub p hp
        · exact absurd hp hpj
    · simp only
      by_cases hij : i = j
      · subst hij; simp
      · rw [Function.update_of_ne hij]; exact hi
  · rw [if_neg hd, if_neg hd]
    have hdj : s.done j = true := by simpa using hd
    have he : s.unw i + g + D j - s'.unw j = s.unw i + g - s.unw j := by rw [h.unw j hdj]; ring
    rw [he]
    split
    · exact ⟨⟨rfl, h.todo, by simp only [h.errs], h.unw, h.sub⟩, hi⟩
    · exact ⟨h, hi⟩

omit [FloorRing K] [IsStrictOrderedRing K] in
theorem ffFold_rel {D : Nat → K} {i : Nat} (l l' : List (Nat × K))
    (hl : List.Forall₂ (fun a b => b.1 = a.1 ∧ b.2 = a.2 + (D a.1 - D i)) l l') {s s' : FfState K}
    (h : FfRel D s s') (hi : s.done i = true) : FfRel D (l.foldl (ffStep i) s) (l'.foldl (ffStep i) s') := by
  induction hl generalizing s s' with
  | nil => exact h
  | @cons a b l l' hab _ ih =>
    obtain ⟨j, g⟩ := a
    obtain ⟨j', g'⟩ := b
    obtain ⟨rfl, hg⟩ := hab
    rw [List.foldl_cons, List.foldl_cons]
    obtain ⟨r1, r2⟩ := ffStep_rel h hi hg
    exact ih r1 r2

omit [FloorRing K] [IsStrictOrderedRing K] in
theorem ffLoop_rel {D : Nat → K} {nbrs nbrs' : Nat → List (Nat × K)}
    (hn : ∀ i, List.Forall₂ (fun a b => b.1 = a.1 ∧ b.2 = a.2 + (D a.1 - D i)) (nbrs i) (nbrs' i)) (fuel : Nat)
    {s s' t : FfState K} (h : FfRel D s s') (ht : ffLoop nbrs fuel s = .ok t) :
    ∃ t', ffLoop nbrs' fuel s' = .ok t' ∧ FfRel D t t' := by
  induction fuel generalizing s s' with
  | zero =>
    unfold ffLoop at ht ⊢
    rw [h.todo]
    cases e : s.todo with
    | nil => rw [e] at ht; simp only [Except.ok.injEq] at ht; subst ht; exact ⟨s', rfl, h⟩
    | cons i rest => rw [e] at ht; simp at ht
  | succ fuel ih =>
    rw [ffLoop.eq_def] at ht
    rw [ffLoop.eq_def]
    simp only at ht ⊢
    rw [h.todo]
    cases e : s.todo with
    | nil => rw [e] at ht; simp only [Except.ok.injEq] at ht; subst ht; exact ⟨s', rfl, h⟩
    | cons i rest =>
      rw [e] at ht
      simp only at ht ⊢
      refine ih (ffFold_rel _ _ (hn i) (s := { s with todo := rest }) ⟨h.done, rfl, h.errs, h.unw, ?_⟩ ?_) ht
      · intro p hp
        exact h.sub p (by rw [e]; exact List.mem_cons_of_mem _ hp)
      · exact h.sub i (by rw [e]; exact List.mem_cons_self)

omit [LinearOrder K] [FloorRing K] [IsStrictOrderedRing K] in
theorem nbrsOf_rel {D : Nat → K} (lg lg' : List ((Nat × Nat) × K))
    (hl : List.Forall₂ (fun a b => b.1 = a.1 ∧ b.2 = a.2 + (D a.1.2 - D a.1.1)) lg lg') (i : Nat) :
    List.Forall₂ (fun a b => b.1 = a.1 ∧ b.2 = a.2 + (D a.1 - D i))
      (lg.flatMap fun lg => (if lg.1.1 = i then [(lg.1.2, lg.2)] else []) ++ (if lg.1.2 = i then [(lg.1.1, - lg.2)] else []))
      (lg'.flatMap fun lg => (if lg.1.1 = i then [(lg.1.2, lg.2)] else []) ++ (if lg.1.2 = i then [(lg.1.1, - lg.2)] else [])) := by
  induction hl with
  | nil => exact .nil
  | @cons a b l l' hab _ ih =>
    obtain ⟨⟨x, y⟩, g⟩ := a
    obtain ⟨lb, g'⟩ := b
    obtain ⟨e1, e2⟩ := hab
    simp only at e1 e2
    subst e1 e2
    rw [List.flatMap_cons, List.flatMap_cons]
    refine List.rel_append (List.rel_append ?_ ?_) ih
    · simp only
      split
      next hx => subst hx; exact .cons ⟨rfl, rfl⟩ .nil
      · exact .nil
    · simp only
      split
      next hx => subst hx; exact .cons ⟨rfl, by simp only; ring⟩ .nil
      · exact .nil

omit [IsStrictOrderedRing K] in
/-- The flood fill of gradients changed by the differences of `D`. -/
theorem floodFill_grad (tau : K) (links : List (Nat × Nat)) (x x' D : Nat → K)
    (hx : ∀ i a b, links[i]? = some (a, b) → x' i = x i + (D b - D a)) (flows : List ℤ) (u : List K)
    (h : floodFill tau ((List.range links.length).map x) links flows "gradients" = .ok u) :
    floodFill tau ((List.range links.length).map x') links flows "gradients" =
      .ok ((List.range u.length).map fun p => u.getD p 0 + (D p - D 0)) := by
  set D0 : Nat → K := fun p => D p - D 0 with hD0
  have hx0 : ∀ i a b, links[i]? = some (a, b) → x' i = x i + (D0 b - D0 a) := by
    intro i a b hi
    rw [hx i a b hi]
    simp only [hD0]
    ring
  unfold floodFill at h ⊢
  split at h
  · simp at h
  next hlen =>
  rw [if_neg hlen]
  rw [if_neg (by simp)] at h ⊢
  split at h
  · simp at h
  next hne =>
  rw [if_neg hne]
  simp only [List.length_map, List.length_range, ne_eq, not_true_eq_false, and_false, if_false, String.reduceEq, false_and] at h ⊢
  set G : (Nat → K) → List K := fun x => List.zipWith (fun (li : (Nat × Nat) × Nat) (f : ℤ) =>
        ((List.range links.length).map x).getD li.2 0 + tau * (f : K)) links.zipIdx flows with hG
  have hrel : List.Forall₂ (fun (a b : (Nat × Nat) × K) => b.1 = a.1 ∧ b.2 = a.2 + (D0 a.1.2 - D0 a.1.1))
      (links.zip (G x)) (links.zip (G x')) := by
    rw [List.forall₂_iff_get]
    have hl : ∀ x, (G x).length = links.length := by
      intro x
      simp only [hG, List.length_zipWith, List.length_zipIdx]
      simp only [ne_eq, Decidable.not_not] at hlen
      omega
    refine ⟨by simp [hl], fun i h1 h2 => ?_⟩
    have hi : i < links.length := by simp [hl] at h1; exact h1
    simp only [List.get_eq_getElem, List.getElem_zip, true_and]
    simp only [hG, List.getElem_zipWith, List.getElem_zipIdx, Nat.zero_add, List.getD_eq_getElem?_getD, List.getElem?_map,
      List.getElem?_range hi, Option.map_some, Option.getD_some]
    rw [hx0 i links[i].1 links[i].2 (by rw [List.getElem?_eq_getElem hi])]
    ring
  cases e : ffLoop (nbrsOf links (G x)) (maxLink links + 1) ffInit with
  | error er => rw [e] at h; simp at h
  | ok t =>
    rw [e] at h
    have hinit : FfRel D0 (ffInit : FfState K) ffInit := by
      refine ⟨rfl, rfl, rfl, ?_, ?_⟩
      · intro p hp
        have : p = 0 := by
          by_contra hp0
          simp [ffInit, Function.update_of_ne hp0] at hp
        subst this
        simp [hD0]
      · intro p hp
        simp [ffInit] at hp ⊢
        subst hp
        rfl
    obtain ⟨t', e', hr⟩ := ffLoop_rel (D := D0) (nbrs' := nbrsOf links (G x')) (fun i => nbrsOf_rel _ _ hrel i) _ hinit e
    rw [e']
    simp only at h ⊢
    rw [hr.errs, hr.done]
    split at h
    · simp at h
    next herr =>
    rw [if_neg herr]
    split at h
    next hall =>
      rw [if_pos hall]
      simp only [Except.ok.injEq] at h ⊢
      subst h
      rw [List.length_map, List.length_range]
      apply List.map_congr_left
      intro p hp
      have hp' := List.mem_range.mp hp
      rw [hr.unw p (List.all_eq_true.mp hall p hp)]
      simp [List.getD_eq_getElem?_getD, hp', hD0]
    · simp at h

theorem unwrapIfg_grad (tau : K) (solver : FlowSolver) {g : PlanarGraph} {m : Mcf} (hc : PlanarContract g.npoints g.links g.cycles)
    (hm : ormcf g = .ok m) (cost : List ℤ) (x x' D : Nat → K)
    (hx : ∀ i a b, g.links[i]? = some (a, b) → x' i = x i + (D b - D a)) (u : List K)
    (h : unwrapIfg tau solver m cost ((List.range g.links.length).map x) = .ok u) :
    unwrapIfg tau solver m cost ((List.range g.links.length).map x') =
      .ok ((List.range u.length).map fun p => u.getD p 0 + (D p - D 0)) := by
  obtain ⟨hmg, -⟩ := dual_of_contract hc hm
  unfold unwrapIfg at h ⊢
  rw [gradResidues_grad tau hc hm x x' D hx]
  cases e1 : computeResiduesFromGradients tau m ((List.range g.links.length).map x) with
  | error er => rw [e1] at h; simp [Bind.bind, Except.bind] at h
  | ok res =>
    rw [e1] at h
    simp only [Bind.bind, Except.bind] at h ⊢
    cases e2 : residuesToFlows solver m res cost with
    | error er => rw [e2] at h; simp at h
    | ok fl =>
      rw [e2] at h
      simp only [hmg] at h ⊢
      exact floodFill_grad tau g.links x x' D hx fl u h

/-- `unwrap_cube` of the phases of the acquisitions, on gradients changed by the double differences of `ε`. -/
theorem cube_grad (tau : K) (solver : FlowSolver) (e : Emcf) {gt gs : PlanarGraph}
    (hct : PlanarContract gt.npoints gt.links gt.cycles) (hcs : PlanarContract gs.npoints gs.links gs.cycles)
    (hmt : ormcf gt = .ok e.time) (hms : ormcf gs = .ok e.space) (hb : 0 < e.settings.linksPerBatch)
    (data data' : List (List K)) (hep : data.length = gt.npoints)
    (hlen : data'.length = data.length) (hhead : (data'.headD []).length = (data.headD []).length) (ε : Nat → Nat → K)
    (hgrad : ∀ i s u, gt.links[i]? = some (s, u) → ∀ j p q, gs.links[j]? = some (p, q) → LinkInput e data false j →
      spaceGrad tau e data' false i j = spaceGrad tau e data false i j + ((ε u q - ε s q) - (ε u p - ε s p)))
    (o o' : Nat → List Nat → List Nat) (ho : ∀ k l, (o k l).Perm l) (ho' : ∀ k l, (o' k l).Perm l)
    (p p' : List Nat → List Nat) (hp : ∀ l, (p l).Perm l) (hp' : ∀ l, (p' l).Perm l) (out : List (List K))
    (h : unwrapCube tau solver e ⟨2, 0, data⟩ o p = .ok out) :
    ∃ out', unwrapCube tau solver e ⟨2, 0, data'⟩ o' p' = .ok out' ∧ out'.length = gt.links.length ∧ out.length = gt.links.length ∧
      ∀ i s u, gt.links[i]? = some (s, u) → (out.getD i []).length = gs.npoints ∧ (out'.getD i []).length = gs.npoints ∧
        ∀ n < gs.npoints, elem out' i n = elem out i n + ((ε u n - ε s n) - (ε u 0 - ε s 0)) := by
  obtain ⟨hgt, -⟩ := dual_of_contract hct hmt
  obtain ⟨hgs, -⟩ := dual_of_contract hcs hms
  have hpool := cube_pool h
  have hk : ∀ d : List (List K), d.length = gt.npoints → cubeKind e ⟨2, 0, d⟩ = .ok false := by
    intro d hd
    unfold cubeKind Emcf.nepochs
    rw [hgt]
    simp [hd]
  unfold unwrapCube at h ⊢
  rw [hk data hep] at h
  rw [hk data' (by omega)]
  simp only [Bind.bind, Except.bind] at h ⊢
  have hnd := hct.distinct
  have hord : ∀ a b, (a, b) ∈ gt.links → a ≤ b := fun a b hab => (hct.ordered a b hab).1.le
  cases e2 : unwrapInTime tau solver e data false o with
  | error er => rw [e2] at h; simp at h
  | ok grad =>
  rw [e2] at h
  simp only at h
  cases hcost : costOf e.settings.tCostType e.nifgs e.tDist e.tCent with
  | error err =>
    unfold unwrapInTime at e2
    rw [hcost] at e2
    simp [Bind.bind, Except.bind] at e2
  | ok cost =>
  have e2a := e2
  rw [inTime_iff tau solver e hnd hord hmt hgt data false cost hcost o ho hb] at e2
  obtain ⟨t1, t2⟩ := e2
  have hnl : e.nlinks = gs.links.length := by unfold Emcf.nlinks; rw [hgs]
  have hni : e.nifgs = gt.links.length := by unfold Emcf.nifgs; rw [hgt]
  have hg : ∀ j < gs.links.length, ∀ i s u, gt.links[i]? = some (s, u) →
      spaceGrad tau e data' false i j = spaceGrad tau e data false i j +
        ((ε u (gs.links.getD j (0, 0)).2 - ε u (gs.links.getD j (0, 0)).1) - (ε s (gs.links.getD j (0, 0)).2 - ε s (gs.links.getD j (0, 0)).1)) := by
    intro j hj i s u hi
    rw [hgrad i s u hi j (gs.links.getD j (0, 0)).1 (gs.links.getD j (0, 0)).2
      (by rw [List.getD_eq_getElem _ _ hj, List.getElem?_eq_getElem hj]) (t1 j (by rw [hnl]; exact hj)).1]
    ring
  have hlt : ∀ j < gs.links.length, linkTime tau solver e data' false cost j = linkTime tau solver e data false cost j := by
    intro j hj
    unfold linkTime
    rw [linkResidues_grad tau hct hmt (fun i => spaceGrad tau e data false i j) (fun i => spaceGrad tau e data' false i j)
      (fun s => ε s (gs.links.getD j (0, 0)).2 - ε s (gs.links.getD j (0, 0)).1) (fun i a b hi => hg j hj i a b hi)]
  set x : Nat → Nat → K := fun i j => spaceGrad tau e data false i j +
    tau * (((okVal (linkTime tau solver e data false cost j)).getD i 0 : ℤ) : K) with hx
  set x' : Nat → Nat → K := fun i j => spaceGrad tau e data' false i j +
    tau * (((okVal (linkTime tau solver e data' false cost j)).getD i 0 : ℤ) : K) with hx'
  have e3 : unwrapInTime tau solver e data' false o' =
      .ok ((List.range e.nifgs).map fun i => (List.range e.nlinks).map (x' i)) := by
    rw [inTime_iff tau solver e hnd hord hmt hgt data' false cost hcost o' ho' hb]
    refine ⟨fun j hj => ?_, rfl⟩
    rw [hnl] at hj
    rw [hlt j hj]
    obtain ⟨a1, a2⟩ := t1 j (by rw [hnl]; exact hj)
    refine ⟨?_, a2⟩
    unfold LinkInput at a1 ⊢
    rw [hlen, hhead]
    exact a1
  rw [e3]
  simp only
  have hslt : ∀ a b, (a, b) ∈ e.space.graph.links → a < b := by rw [hgs]; exact fun a b hab => (hcs.ordered a b hab).1
  cases hsc : costOf e.settings.sCostType e.nlinks e.sDist e.sCent with
  | error err =>
    unfold unwrapInSpace at h
    rw [hsc] at h
    simp [Bind.bind, Except.bind] at h
  | ok sc =>
  rw [C23_rows tau solver e hslt sc hsc hpool grad p hp] at h
  obtain ⟨hol, hrow⟩ := h
  rw [hgt] at hol hrow
  have hgi : ∀ (y : Nat → Nat → K), ∀ i < gt.links.length,
      ((List.range e.nifgs).map fun i => (List.range e.nlinks).map (y i)).getD i [] = (List.range gs.links.length).map (y i) := by
    intro y i hi
    rw [hni, hnl]
    simp [List.getD_eq_getElem?_getD, hi]
  set out' : List (List K) := (List.range gt.links.length).map fun i => (List.range gs.npoints).map fun n =>
    elem out i n + ((ε (gt.links.getD i (0, 0)).2 n - ε (gt.links.getD i (0, 0)).1 n) -
      (ε (gt.links.getD i (0, 0)).2 0 - ε (gt.links.getD i (0, 0)).1 0)) with hout'
  have hgo : ∀ i < gt.links.length, out'.getD i [] = (List.range gs.npoints).map fun n =>
    elem out i n + ((ε (gt.links.getD i (0, 0)).2 n - ε (gt.links.getD i (0, 0)).1 n) -
      (ε (gt.links.getD i (0, 0)).2 0 - ε (gt.links.getD i (0, 0)).1 0)) := by
    intro i hi
    simp [hout', List.getD_eq_getElem?_getD, hi]
  refine ⟨out', ?_, by simp [hout'], hol, ?_⟩
  · rw [C23_rows tau solver e hslt sc hsc hpool _ p' hp', hgt, hgs]
    refine ⟨by simp [hout'], fun i hi => ?_⟩
    obtain ⟨r1, r2⟩ := hrow i hi
    rw [t2, hgi _ i hi] at r1
    rw [hgs] at r2
    have := unwrapIfg_grad tau solver hcs hms sc (x i) (x' i)
      (fun n => ε (gt.links.getD i (0, 0)).2 n - ε (gt.links.getD i (0, 0)).1 n) (by
        intro j a b hj
        obtain ⟨hj', hje⟩ := List.getElem?_eq_some_iff.mp hj
        simp only [hx, hx']
        rw [hlt j hj', hg j hj' i (gt.links.getD i (0, 0)).1 (gt.links.getD i (0, 0)).2
          (by rw [List.getD_eq_getElem _ _ hi, List.getElem?_eq_getElem hi]), List.getD_eq_getElem _ _ hj', hje]
        ring) _ r1
    rw [hgi _ i hi, this, hgo i hi, r2]
    exact ⟨rfl, by simp⟩
  · intro i s u hi
    obtain ⟨hi', hie⟩ := List.getElem?_eq_some_iff.mp hi
    have h2 := (hrow i hi').2
    rw [hgs] at h2
    refine ⟨h2, by rw [hgo i hi']; simp, fun n hn => ?_⟩
    conv_lhs => unfold elem
    rw [hgo i hi']
    simp [List.getD_eq_getElem?_getD, hn, hi']
    rw [hie]

end

end Spurt
