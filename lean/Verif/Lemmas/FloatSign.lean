import Verif.Props.Sign
import Verif.Props.FloatTileUnwrap
import Verif.Lemmas.FloatCube

/-! # Unwrapping data of the opposite sign in mixed precision -/

namespace Spurt

/-- Rounding a number of the opposite sign gives the result of the opposite sign, as in round-to-nearest-even. -/
structure Spec.OddRounding {K : Type} [Field K] (A : FloatArith K) : Prop where
  single : ∀ x, A.fs (-x) = - A.fs x
  double : ∀ x, A.fd (-x) = - A.fd x

open Spec

section
variable {K : Type} [Field K] [LinearOrder K] [IsStrictOrderedRing K] [FloorRing K]

omit [LinearOrder K] [IsStrictOrderedRing K] [FloorRing K] in
theorem odd_zero [CharZero K] {fl : K → K} (h : ∀ x, fl (-x) = - fl x) : fl 0 = 0 := by
  have := h 0
  rw [neg_zero] at this
  exact self_eq_neg.mp this

theorem cyclesFl_neg {fl : K → K} (hfl : ∀ x, fl (-x) = - fl x) (tau a b : K) :
    cyclesFl fl tau (-a) (-b) = - cyclesFl fl tau a b := by
  unfold cyclesFl
  rw [show -b - -a = -(b - a) by ring, hfl, neg_div, hfl, rint_neg]

theorem phaseDiffFl_neg {fl : K → K} (hfl : ∀ x, fl (-x) = - fl x) (tau a b : K) :
    phaseDiffFl fl tau (-a) (-b) = - phaseDiffFl fl tau a b := by
  unfold phaseDiffFl
  rw [cyclesFl_neg hfl, show -b - -a = -(b - a) by ring, hfl]
  push_cast
  rw [neg_mul, hfl, show - fl (b - a) - - fl ((cyclesFl fl tau a b : K) * tau) =
    -(fl (b - a) - fl ((cyclesFl fl tau a b : K) * tau)) by ring, hfl]

theorem spaceGradFl_neg {A : FloatArith K} (hA : OddRounding A) (e : Emcf) (wrap : List (List K)) (isIfg : Bool) (i j : Nat) :
    spaceGradFl A e (wrap.map fun r => r.map (- ·)) isIfg i j = - spaceGradFl A e wrap isIfg i j := by
  unfold spaceGradFl
  simp only [elem_neg, phaseDiffFl_neg hA.single]
  split <;> rfl

omit [LinearOrder K] [IsStrictOrderedRing K] [FloorRing K] in
theorem modifyFl_neg {fl : K → K} (hfl : ∀ x, fl (-x) = - fl x) (l : List K) (i : Nat) (x : K) :
    (l.map (- ·)).modify i (fun y => fl (y + -x)) = (l.modify i (fun y => fl (y + x))).map (- ·) := by
  apply List.ext_getElem
  · simp
  · intro k h1 h2
    simp only [List.getElem_modify, List.getElem_map]
    split
    · rw [← hfl]; congr 1; ring
    · rfl

theorem rintDiv_neg {fl : K → K} (hfl : ∀ x, fl (-x) = - fl x) (tau : K) (l : List K) :
    (l.map (- ·)).map (fun s => rint (fl (s / tau))) = (l.map fun s => rint (fl (s / tau))).map (- ·) := by
  rw [List.map_map, List.map_map]
  apply List.map_congr_left
  intro x _
  simp only [Function.comp, neg_div, hfl, rint_neg]

theorem linkResiduesFl_neg {A : FloatArith K} (hA : OddRounding A) (m : Mcf) (g g' : Nat → K) (h : ∀ i, g' i = - g i) :
    linkResiduesFl A m g' = (linkResiduesFl A m g).map (- ·) := by
  obtain rfl : g' = fun i => - g i := funext h
  unfold linkResiduesFl
  have key : ∀ (l : List Nat) (acc : List K),
      l.foldl (fun acc ii =>
        let r := m.dual.getD ii ⟨0, 0, 0, 0⟩
        let acc := acc.modify r.c0 (fun x => A.fs (x + (r.d0 : K) * - g ii))
        if r.c1 ≠ 0 then acc.modify r.c1 (fun x => A.fs (x + (r.d1 : K) * - g ii)) else acc) (acc.map (- ·)) =
      (l.foldl (fun acc ii =>
        let r := m.dual.getD ii ⟨0, 0, 0, 0⟩
        let acc := acc.modify r.c0 (fun x => A.fs (x + (r.d0 : K) * g ii))
        if r.c1 ≠ 0 then acc.modify r.c1 (fun x => A.fs (x + (r.d1 : K) * g ii)) else acc) acc).map (- ·) := by
    intro l
    induction l with
    | nil => intro acc; rfl
    | cons i l ih =>
      intro acc
      rw [List.foldl_cons, List.foldl_cons, ← ih]
      congr 1
      simp only [mul_neg, modifyFl_neg hA.single]
      split <;> rfl
  have hz : List.replicate (m.graph.cycles.length + 1) (0 : K) =
      (List.replicate (m.graph.cycles.length + 1) (0 : K)).map (- ·) := by simp
  rw [hz, key, ← hz]
  simp only
  rw [rintDiv_neg hA.single, tail_neg]

omit [LinearOrder K] [IsStrictOrderedRing K] [FloorRing K] in
theorem addAtFl_neg {fl : K → K} (hfl : ∀ x, fl (-x) = - fl x) (idx : List Nat) (vals : List K) (acc : List K) :
    addAtFl fl (acc.map (- ·)) idx (vals.map (- ·)) = (addAtFl fl acc idx vals).map (- ·) := by
  unfold addAtFl
  induction idx generalizing vals acc with
  | nil => rfl
  | cons i idx ih =>
    cases vals with
    | nil => rfl
    | cons v vals =>
      simp only [List.map_cons, List.zip_cons_cons, List.foldl_cons, modifyFl_neg hfl]
      exact ih vals _

theorem gradResiduesFl_neg {A : FloatArith K} (hA : OddRounding A) (m : Mcf) (g : List K) :
    computeResiduesFromGradientsFl A m (g.map (- ·)) =
      (computeResiduesFromGradientsFl A m g).map (fun r => r.map (- ·)) := by
  unfold computeResiduesFromGradientsFl
  rw [List.length_map]
  split
  · rfl
  · have hz : ∀ n, List.replicate n (0 : K) = (List.replicate n (0 : K)).map (- ·) := by simp
    have hp : ∀ d : DualRow → ℤ, List.zipWith (fun r x => (d r : K) * x) m.dual (g.map (- ·)) =
        (List.zipWith (fun r x => (d r : K) * x) m.dual g).map (- ·) := by
      intro d
      rw [List.zipWith_map_right, List.map_zipWith]
      simp
    simp only [hp (·.d0), hp (·.d1)]
    rw [hz, addAtFl_neg hA.single, addAtFl_neg hA.single, ← hz, rintDiv_neg hA.single, tail_neg]
    rfl

theorem closureFl_neg {fl : K → K} (hfl : ∀ x, fl (-x) = - fl x) (tau : K) (w : List K) (n : Nat) (cyc : List Nat) :
    closureFl fl tau (w.map (- ·)) n cyc = - closureFl fl tau w n cyc := by
  unfold closureFl
  have key : ∀ (l : List Nat) (acc : K),
      l.foldl (fun acc col => fl (acc + phaseDiffFl fl tau ((w.map (- ·)).getD (cyc.getD col 0) 0)
        ((w.map (- ·)).getD (cyc.getD ((col + 1) % n) 0) 0))) (-acc) =
      - l.foldl (fun acc col => fl (acc + phaseDiffFl fl tau (w.getD (cyc.getD col 0) 0)
        (w.getD (cyc.getD ((col + 1) % n) 0) 0))) acc := by
    intro l
    induction l with
    | nil => intro acc; rfl
    | cons i l ih =>
      intro acc
      rw [List.foldl_cons, List.foldl_cons, ← ih]
      congr 1
      rw [getD_neg, getD_neg, phaseDiffFl_neg hfl, ← neg_add, hfl]
  have := key (List.range n) 0
  rwa [neg_zero] at this

theorem residuesFl_neg {fl : K → K} (hfl : ∀ x, fl (-x) = - fl x) (tau : K) (m : Mcf) (d : List K) :
    computeResiduesFl fl tau m (d.map (- ·)) = (computeResiduesFl fl tau m d).map (fun r => r.map (- ·)) := by
  unfold computeResiduesFl
  rw [List.length_map]
  split
  · rfl
  · split
    · rfl
    · split
      · simp only [closureFl_neg hfl, neg_div, hfl, rint_neg, sum_map_neg]
        rfl
      · rfl

omit [FloorRing K] in
theorem ffStepFl_neg {fl : K → K} (hfl : ∀ x, fl (-x) = - fl x) (tol : K) (i : Nat) (s : FfState K) (jg : Nat × K) :
    ffStepFl fl tol i (negState s) (jg.1, - jg.2) = negState (ffStepFl fl tol i s jg) := by
  unfold ffStepFl negState
  have hu : fl (- s.unw i + - jg.2) = - fl (s.unw i + jg.2) := by rw [← hfl]; congr 1; ring
  simp only [hu]
  split
  · congr 1
    funext p
    by_cases hp : p = jg.1
    · subst hp; simp
    · simp [Function.update_of_ne hp]
  · have : fl (- fl (s.unw i + jg.2) - -s.unw jg.1) = - fl (fl (s.unw i + jg.2) - s.unw jg.1) := by
      rw [show - fl (s.unw i + jg.2) - -s.unw jg.1 = -(fl (s.unw i + jg.2) - s.unw jg.1) by ring, hfl]
    rw [this, abs_neg]
    split <;> rfl

omit [FloorRing K] in
theorem ffLoopFl_neg {fl : K → K} (hfl : ∀ x, fl (-x) = - fl x) (tol : K) (nbrs : Nat → List (Nat × K)) (fuel : Nat) (s : FfState K) :
    ffLoopFl fl tol (fun i => (nbrs i).map fun jg => (jg.1, - jg.2)) fuel (negState s) =
      (ffLoopFl fl tol nbrs fuel s).map negState := by
  have hf : ∀ (i : Nat) (l : List (Nat × K)) (s : FfState K),
      (l.map fun jg => (jg.1, - jg.2)).foldl (ffStepFl fl tol i) (negState s) = negState (l.foldl (ffStepFl fl tol i) s) := by
    intro i l
    induction l with
    | nil => intro s; rfl
    | cons a l ih => intro s; rw [List.map_cons, List.foldl_cons, List.foldl_cons, ffStepFl_neg hfl, ih]
  induction fuel generalizing s with
  | zero =>
    unfold ffLoopFl
    show (match s.todo with
      | [] => Except.ok (negState s)
      | _ :: _ => Except.error PyErr.nonTermination) = _
    cases s.todo <;> rfl
  | succ fuel ih =>
    rw [ffLoopFl.eq_def, ffLoopFl.eq_def fl tol nbrs]
    simp only
    have ht : (negState s).todo = s.todo := rfl
    rw [ht]
    cases h : s.todo with
    | nil => rfl
    | cons i rest =>
      simp only
      rw [← ih, ← hf]
      rfl

theorem gradientFl_neg {fl : K → K} (hfl : ∀ x, fl (-x) = - fl x) (tau : K) (d : List K) (mode : String) (l : Nat × Nat) (i : Nat)
    (f : ℤ) : gradientFl fl tau (d.map (- ·)) mode l i (-f) = - gradientFl fl tau d mode l i f := by
  unfold gradientFl
  rw [getD_neg, getD_neg, getD_neg, phaseDiffFl_neg hfl]
  push_cast
  rw [mul_neg, hfl, ← neg_add, ← neg_add, hfl, hfl]
  split <;> rfl

theorem floodFillFl_neg {fl : K → K} (hfl : ∀ x, fl (-x) = - fl x) (tau tol : K) (d : List K) (links : List (Nat × Nat))
    (flows : List ℤ) (mode : String) :
    floodFillFl fl tau tol (d.map (- ·)) links (flows.map (- ·)) mode =
      (floodFillFl fl tau tol d links flows mode).map fun u => u.map (- ·) := by
  by_cases h : FfArgs d links flows mode
  · have h' : FfArgs (d.map (- ·)) links (flows.map (- ·)) mode :=
      ⟨by rw [List.length_map]; exact h.len, h.mode_ok, h.ne, by rw [List.length_map]; exact h.size⟩
    rw [floodFillFl_unfold fl tau tol h, floodFillFl_unfold fl tau tol h']
    have hg : ((List.range links.length).map fun i =>
        gradientFl fl tau (d.map (- ·)) mode (links.getD i (0, 0)) i ((flows.map (- ·)).getD i 0)) =
        ((List.range links.length).map fun i => gradientFl fl tau d mode (links.getD i (0, 0)) i (flows.getD i 0)).map (- ·) := by
      rw [List.map_map]
      apply List.map_congr_left
      intro i _
      rw [getD_negZ, gradientFl_neg hfl]
      rfl
    rw [hg]
    generalize (List.range links.length).map (fun i => gradientFl fl tau d mode (links.getD i (0, 0)) i (flows.getD i 0)) = G
    rw [show nbrsOf links (G.map (- ·)) = fun i => (nbrsOf links G i).map fun jg => (jg.1, - jg.2) from
      funext fun i => nbrsOf_neg _ _ i]
    rw [show (ffInit : FfState K) = negState ffInit by simp [ffInit, negState], ffLoopFl_neg hfl,
      show negState (ffInit : FfState K) = ffInit by simp [ffInit, negState]]
    cases ffLoopFl fl tol (nbrsOf links G) (maxLink links + 1) ffInit with
    | error e => rfl
    | ok s =>
      simp only [Except.map, negState]
      split
      · rfl
      split
      · split
        · simp only [Except.ok.injEq, List.map_map]
          apply List.map_congr_left
          intro p _
          simp only [Function.comp, getD_neg]
          rw [← neg_add, hfl]
        · simp only [Except.ok.injEq, List.map_map]
          rfl
      · rfl
  · have h' : ¬ FfArgs (d.map (- ·)) links (flows.map (- ·)) mode := by
      intro hh
      apply h
      have := hh.len
      have h4 := hh.size
      rw [List.length_map] at this h4
      exact ⟨this, hh.mode_ok, hh.ne, h4⟩
    rw [floodFillFl_bad fl tau tol h, floodFillFl_bad fl tau tol h']
    rfl

theorem unwrapIfgFl_neg {A : FloatArith K} (hA : OddRounding A) {s : FlowSolver} (hs : SolverSound s) (m : Mcf) (cost : List ℤ)
    (g u : List K) :
    unwrapIfgFl A (mirrorSolver s) m cost (g.map (- ·)) = .ok (u.map (- ·)) ↔ unwrapIfgFl A s m cost g = .ok u := by
  unfold unwrapIfgFl
  rw [gradResiduesFl_neg hA]
  cases computeResiduesFromGradientsFl A m g with
  | error e => simp [Bind.bind, Except.bind, Except.map]
  | ok res =>
    simp only [Bind.bind, Except.bind, Except.map]
    have key := flows_neg hs m res cost cost
    have e1 : ∀ s' r, residuesToFlows s' m r cost none = residuesToFlows s' m r cost (some cost) := fun _ _ => rfl
    simp only [e1]
    cases h1 : residuesToFlows s m res cost (some cost) with
    | error e =>
      cases h2 : residuesToFlows (mirrorSolver s) m (res.map (- ·)) cost (some cost) with
      | error e' => simp
      | ok f =>
        have := key (f.map (- ·))
        rw [neg_neg_list] at this
        rw [this.mp h2] at h1
        cases h1
    | ok f =>
      rw [(key f).mpr h1]
      simp only [floodFillFl_neg hA.double]
      cases floodFillFl A.fd A.tau A.tol g m.graph.links f "gradients" with
      | error e => simp [Except.map]
      | ok v =>
        simp only [Except.map, Except.ok.injEq]
        exact neg_list_inj

theorem rowFl_neg {A : FloatArith K} (hA : OddRounding A) {s : FlowSolver} (hs : SolverSound s) (m : Mcf) (cost : List ℤ)
    (g u : List K) :
    rowFl A (mirrorSolver s) m cost (g.map (- ·)) = .ok (u.map (- ·)) ↔ rowFl A s m cost g = .ok u := by
  have hmap : ∀ v : List K, (v.map (- ·)).map A.fs = (v.map A.fs).map (- ·) := by
    intro v
    rw [List.map_map, List.map_map]
    exact List.map_congr_left fun x _ => hA.single x
  rw [rowFl_ok, rowFl_ok]
  constructor
  · rintro ⟨v, hv, he⟩
    refine ⟨v.map (- ·), (unwrapIfgFl_neg hA hs m cost g _).mp (by rw [neg_neg_list]; exact hv), ?_⟩
    rw [hmap, ← he, neg_neg_list]
  · rintro ⟨v, hv, rfl⟩
    exact ⟨v.map (- ·), (unwrapIfgFl_neg hA hs m cost g v).mpr hv, (hmap v).symm⟩

omit [LinearOrder K] [IsStrictOrderedRing K] [FloorRing K] in
theorem addCyclesFl_neg {A : FloatArith K} (hA : OddRounding A) (g : K) (f : ℤ) :
    addCyclesFl A (-g) (-f) = - addCyclesFl A g f := by
  unfold addCyclesFl
  push_cast
  rw [mul_neg, hA.double, ← neg_add, hA.double, hA.single]

theorem linkTimeFl_neg {A : FloatArith K} (hA : OddRounding A) {solver : FlowSolver} (hs : SolverSound solver) (e : Emcf)
    (wrap : List (List K)) (isIfg : Bool) (cost : List ℤ) (j : Nat) (f : List ℤ) :
    linkTimeFl A (mirrorSolver solver) e (wrap.map fun r => r.map (- ·)) isIfg cost j = .ok (f.map (- ·)) ↔
      linkTimeFl A solver e wrap isIfg cost j = .ok f := by
  unfold linkTimeFl
  rw [linkResiduesFl_neg hA e.time (fun i => spaceGradFl A e wrap isIfg i j) _ fun i => spaceGradFl_neg hA e wrap isIfg i j]
  exact flows_neg hs e.time _ cost cost f

theorem inTimeFl_neg {A : FloatArith K} (hA : OddRounding A) {solver : FlowSolver} (hs : SolverSound solver) (e : Emcf) {gt : PlanarGraph}
    (hnd : gt.links.Nodup) (hord : ∀ a b, (a, b) ∈ gt.links → a ≤ b) (hm : ormcf gt = .ok e.time)
    (hb : 0 < e.settings.linksPerBatch) (data : List (List K)) (kind : Bool)
    (o o' : Nat → List Nat → List Nat) (ho : ∀ k l, (o k l).Perm l) (ho' : ∀ k l, (o' k l).Perm l) (out : List (List K)) :
    unwrapInTimeFl A (mirrorSolver solver) e (data.map fun r => r.map (- ·)) kind o' = .ok (out.map fun r => r.map (- ·)) ↔
      unwrapInTimeFl A solver e data kind o = .ok out := by
  have hmg := ormcf_graph hm
  cases hcost : costOf e.settings.tCostType e.nifgs e.tDist e.tCent with
  | error err =>
    unfold unwrapInTimeFl
    rw [hcost]
    simp [Bind.bind, Except.bind]
  | ok cost =>
    rw [inTimeFl_iff A _ e hnd hord hm hmg _ kind cost hcost o' ho' hb, inTimeFl_iff A _ e hnd hord hm hmg _ kind cost hcost o ho hb]
    have hval : ∀ j, linkTimeFl A solver e data kind cost j = .ok (okVal (linkTimeFl A solver e data kind cost j)) →
        linkTimeFl A (mirrorSolver solver) e (data.map fun r => r.map (- ·)) kind cost j =
          .ok ((okVal (linkTimeFl A solver e data kind cost j)).map (- ·)) := fun j h => (linkTimeFl_neg hA hs e data kind cost j _).mpr h
    have hdef : ∀ j, (linkTimeFl A (mirrorSolver solver) e (data.map fun r => r.map (- ·)) kind cost j =
          .ok (okVal (linkTimeFl A (mirrorSolver solver) e (data.map fun r => r.map (- ·)) kind cost j))) ↔
        linkTimeFl A solver e data kind cost j = .ok (okVal (linkTimeFl A solver e data kind cost j)) := by
      intro j
      constructor
      · intro h
        have := (linkTimeFl_neg hA hs e data kind cost j
          ((okVal (linkTimeFl A (mirrorSolver solver) e (data.map fun r => r.map (- ·)) kind cost j)).map (- ·))).mp
          (by rw [neg_neg_list]; exact h)
        rw [this]
        rfl
      · intro h
        rw [hval j h]
        rfl
    have hiff : (∀ j < e.nlinks, LinkInput e (data.map fun r => r.map (- ·)) kind j ∧
        linkTimeFl A (mirrorSolver solver) e (data.map fun r => r.map (- ·)) kind cost j =
          .ok (okVal (linkTimeFl A (mirrorSolver solver) e (data.map fun r => r.map (- ·)) kind cost j))) ↔
        ∀ j < e.nlinks, LinkInput e data kind j ∧
          linkTimeFl A solver e data kind cost j = .ok (okVal (linkTimeFl A solver e data kind cost j)) := by
      simp only [linkInput_neg, hdef]
    rw [hiff]
    refine and_congr_right fun h => ?_
    have : ((List.range e.nifgs).map fun i => (List.range e.nlinks).map fun j =>
        addCyclesFl A (spaceGradFl A e (data.map fun r => r.map (- ·)) kind i j) ((okVal (linkTimeFl A (mirrorSolver solver) e
          (data.map fun r => r.map (- ·)) kind cost j)).getD i 0)) =
        ((List.range e.nifgs).map fun i => (List.range e.nlinks).map fun j => addCyclesFl A (spaceGradFl A e data kind i j)
          ((okVal (linkTimeFl A solver e data kind cost j)).getD i 0)).map fun r => r.map (- ·) := by
      rw [List.map_map]
      apply List.map_congr_left
      intro i _
      simp only [Function.comp, List.map_map]
      apply List.map_congr_left
      intro j hj
      have e1 := hval j (h j (List.mem_range.mp hj)).2
      rw [e1, spaceGradFl_neg hA]
      simp only [Function.comp, okVal]
      rw [getD_negZ, addCyclesFl_neg hA]
    rw [this]
    exact (List.map_injective_iff.mpr (List.map_injective_iff.mpr neg_injective)).eq_iff

theorem inSpaceFl_neg {A : FloatArith K} (hA : OddRounding A) {solver : FlowSolver} (hs : SolverSound solver) (e : Emcf)
    (hlt : ∀ a b, (a, b) ∈ e.space.graph.links → a < b) (hpool : 1 ≤ e.settings.sWorkerCount ∨ 2 ≤ e.cpuCount)
    (grad : List (List K)) (o o' : List Nat → List Nat) (ho : ∀ l, (o l).Perm l) (ho' : ∀ l, (o' l).Perm l) (out : List (List K)) :
    unwrapInSpaceFl A (mirrorSolver solver) e (grad.map fun r => r.map (- ·)) o' = .ok (out.map fun r => r.map (- ·)) ↔
      unwrapInSpaceFl A solver e grad o = .ok out := by
  cases hcost : costOf e.settings.sCostType e.nlinks e.sDist e.sCent with
  | error err =>
    unfold unwrapInSpaceFl
    rw [hcost]
    simp [Bind.bind, Except.bind]
  | ok cost =>
    rw [rowsFl A _ e hlt cost hcost hpool _ o' ho', rowsFl A _ e hlt cost hcost hpool _ o ho, List.length_map]
    have hg : ∀ (l : List (List K)) i, (l.map fun r => r.map (- ·)).getD i [] = (l.getD i []).map (- ·) := by
      intro l i
      simp only [List.getD_eq_getElem?_getD, List.getElem?_map]
      cases l[i]? <;> simp
    simp only [hg, List.length_map, rowFl_neg hA hs]

omit [IsStrictOrderedRing K] in
theorem cubeFl_pool {A : FloatArith K} {solver : FlowSolver} {e : Emcf} {w : CubeInput K} {o : Nat → List Nat → List Nat}
    {p : List Nat → List Nat} {out : List (List K)} (h : unwrapCubeFl A solver e w o p = .ok out) :
    1 ≤ e.settings.sWorkerCount ∨ 2 ≤ e.cpuCount := by
  by_contra hc
  have : processPool (spatialWorkers e.cpuCount e.settings.sWorkerCount) = .error .valueError := by
    unfold processPool spatialWorkers
    rw [if_pos]
    split <;> omega
  unfold unwrapCubeFl at h
  cases e1 : cubeKind e w with
  | error er => rw [e1] at h; simp [Bind.bind, Except.bind] at h
  | ok isIfg =>
  rw [e1] at h
  simp only [Bind.bind, Except.bind] at h
  cases e2 : unwrapInTimeFl A solver e w.data isIfg o with
  | error er => rw [e2] at h; simp at h
  | ok g =>
  rw [e2] at h
  simp only at h
  unfold unwrapInSpaceFl at h
  cases e3 : costOf e.settings.sCostType e.nlinks e.sDist e.sCent with
  | error er => rw [e3] at h; simp [Bind.bind, Except.bind] at h
  | ok c =>
  rw [e3, this] at h
  simp [Bind.bind, Except.bind] at h

theorem phaseOffsetFl_neg {A : FloatArith K} (hA : OddRounding A) (g : PlanarGraph) (data : List (List K)) :
    phaseOffsetFl A g (data.map fun r => r.map (- ·)) = (phaseOffsetFl A g data).map (- ·) := by
  unfold phaseOffsetFl
  rw [List.map_map]
  apply List.map_congr_left
  intro t _
  simp only [Function.comp, elem_neg, phaseDiffFl_neg hA.single]

end

end Spurt
