import Verif.Props.Reference
import Mathlib.Data.List.Rotate

/-! # Unwrapping data of the opposite sign -/

namespace Spurt

/-- The arc walked the other way. -/
def Spec.flipArc (a : Arc) : Arc := ⟨a.head, a.tail, a.cap, a.cost⟩

/-- The flow problem in the opposite direction: every arc turned round and every supply of the opposite sign. The two
halves of the list of arcs are exchanged. -/
def Spec.mirrorProblem (p : FlowProblem) : FlowProblem :=
  ⟨(p.arcs.rotate (p.arcs.length / 2)).map Spec.flipArc, p.supplies.map (- ·)⟩

/-- The solver that solves a problem by handing the opposite problem to `s`. -/
def Spec.mirrorSolver (s : FlowSolver) : FlowSolver := fun p =>
  (s (Spec.mirrorProblem p)).map fun f => f.rotate (p.arcs.length - p.arcs.length / 2)

open Spec

theorem getD_neg {K : Type} [Field K] (l : List K) (i : Nat) : (l.map (- ·)).getD i 0 = - l.getD i 0 := by
  rw [List.getD_eq_getElem?_getD, List.getD_eq_getElem?_getD, List.getElem?_map]
  cases l[i]? <;> simp

theorem getD_negZ (l : List ℤ) (i : Nat) : (l.map (- ·)).getD i 0 = - l.getD i 0 := by
  rw [List.getD_eq_getElem?_getD, List.getD_eq_getElem?_getD, List.getElem?_map]
  cases l[i]? <;> simp

theorem sum_neg {R : Type} [Ring R] (l : List R) : (l.map (- ·)).sum = - l.sum := by
  induction l with
  | nil => simp
  | cons a l ih => simp only [List.map_cons, List.sum_cons, ih]; abel

theorem sum_rotate (l : List ℤ) (k : Nat) : (l.rotate k).sum = l.sum := (List.rotate_perm l k).sum_eq

theorem tail_neg (l : List ℤ) : (- (l.map (- ·)).tail.sum) :: (l.map (- ·)).tail = ((- l.tail.sum) :: l.tail).map (- ·) := by
  have : (l.map (- ·)).tail = l.tail.map (- ·) := by cases l <;> rfl
  rw [this, sum_neg]
  rfl

theorem sum_map_neg {α : Type} (f : α → ℤ) (l : List α) :
    (- (l.map fun a => - f a).sum) :: (l.map fun a => - f a) = ((- (l.map f).sum) :: l.map f).map (- ·) := by
  have : (l.map fun a => - f a) = (l.map f).map (- ·) := by rw [List.map_map]; rfl
  rw [this, sum_neg]
  rfl

section Mirror

theorem rot_zip {α β γ : Type} (h : α → β → γ) (g : α → α) (a : List α) (f : List β) (hl : f.length = a.length) (k : Nat) :
    List.zipWith h ((a.rotate k).map g) (f.rotate k) = (List.zipWith (fun x y => h (g x) y) a f).rotate k := by
  rw [List.zipWith_map_left, List.zipWith_rotate_distrib _ _ _ _ hl.symm]

theorem netOut_mirror (a : List Arc) (f : List ℤ) (hl : f.length = a.length) (k v : Nat) :
    netOut ((a.rotate k).map flipArc) (f.rotate k) v = - netOut a f v := by
  unfold netOut
  rw [rot_zip _ _ _ _ hl, rot_zip _ _ _ _ hl, sum_rotate, sum_rotate]
  have e : ∀ x y : ℤ, x - y = - (y - x) := fun x y => by ring
  exact e _ _

theorem flowCost_mirror (p : FlowProblem) (f : List ℤ) (hl : f.length = p.arcs.length) :
    flowCost (mirrorProblem p) (f.rotate (p.arcs.length / 2)) = flowCost p f := by
  unfold flowCost mirrorProblem
  rw [rot_zip _ _ _ _ hl, sum_rotate]
  rfl

theorem mirror_len (p : FlowProblem) : (mirrorProblem p).arcs.length = p.arcs.length := by
  simp [mirrorProblem]

theorem feasible_mirror (p : FlowProblem) (f : List ℤ) (hl : f.length = p.arcs.length) :
    FeasibleFlow (mirrorProblem p) (f.rotate (p.arcs.length / 2)) ↔ FeasibleFlow p f := by
  set k := p.arcs.length / 2 with hk
  have hz : List.zip (mirrorProblem p).arcs (f.rotate k) =
      ((List.zip p.arcs f).rotate k).map fun x => (flipArc x.1, x.2) := by
    unfold mirrorProblem
    simp only [← hk, List.zip]
    rw [rot_zip _ _ _ _ hl, List.map_rotate, List.map_zipWith]
  constructor
  · intro h
    refine ⟨hl, fun x hx => ?_, fun v => ?_⟩
    · have := h.bounds (flipArc x.1, x.2) (by
        rw [hz]
        exact List.mem_map.mpr ⟨x, List.mem_rotate.mpr hx, rfl⟩)
      exact this
    · have := h.conserve v
      unfold mirrorProblem at this
      simp only [← hk] at this
      rw [netOut_mirror _ _ hl, getD_negZ] at this
      omega
  · intro h
    refine ⟨by rw [mirror_len, List.length_rotate, hl], fun x hx => ?_, fun v => ?_⟩
    · rw [hz] at hx
      obtain ⟨y, hy, rfl⟩ := List.mem_map.mp hx
      exact h.bounds y (List.mem_rotate.mp hy)
    · have := h.conserve v
      unfold mirrorProblem
      simp only [← hk]
      rw [netOut_mirror _ _ hl, getD_negZ]
      omega

theorem mirror_answer {s : FlowSolver} {p : FlowProblem} {f : List ℤ} (hs : SolverSound s) (h : mirrorSolver s p = some f) :
    f.length = p.arcs.length ∧ s (mirrorProblem p) = some (f.rotate (p.arcs.length / 2)) := by
  unfold mirrorSolver at h
  obtain ⟨g, hg, rfl⟩ := Option.map_eq_some_iff.mp h
  have hl := (hs _ _ hg).len
  rw [mirror_len] at hl
  refine ⟨by rw [List.length_rotate, hl], ?_⟩
  rw [List.rotate_rotate, hg]
  congr 1
  have : p.arcs.length - p.arcs.length / 2 + p.arcs.length / 2 = g.length := by omega
  rw [this, List.rotate_length]

theorem mirror_sound {s : FlowSolver} (hs : SolverSound s) : SolverSound (mirrorSolver s) := by
  intro p f h
  obtain ⟨hl, h2⟩ := mirror_answer hs h
  exact (feasible_mirror p f hl).mp (hs _ _ h2)

theorem mirror_optimal {s : FlowSolver} (hs : SolverOptimal s) : SolverOptimal (mirrorSolver s) := by
  refine ⟨mirror_sound hs.1, fun p f h f' hf' => ?_⟩
  obtain ⟨hl, h2⟩ := mirror_answer hs.1 h
  have := hs.2 _ _ h2 (f'.rotate (p.arcs.length / 2)) ((feasible_mirror p f' hf'.len).mpr hf')
  rwa [flowCost_mirror p f hl, flowCost_mirror p f' hf'.len] at this

theorem mirror_complete {s : FlowSolver} (hs : SolverComplete s) : SolverComplete (mirrorSolver s) := by
  rintro p hp ⟨f, hf⟩
  unfold mirrorSolver
  rw [Option.isSome_map]
  refine hs _ ?_ ⟨_, (feasible_mirror p f hf.len).mpr hf⟩
  intro a ha
  unfold mirrorProblem at ha
  obtain ⟨b, hb, rfl⟩ := List.mem_map.mp ha
  exact hp b (List.mem_rotate.mp hb)

/-- The flow problem of the residues of the opposite sign, with the costs of the two directions exchanged. -/
theorem mirror_flowProblem (dual : List DualRow) (res c rc : List ℤ) (hc : c.length = dual.length)
    (hrc : rc.length = dual.length) :
    mirrorProblem (flowProblem dual (res.map (- ·)) rc c) = flowProblem dual res c rc := by
  have hlen : ∀ f : DualRow → ℤ × ℤ → Arc, (List.zipWith f dual (rc.zip c)).length = dual.length := by
    intro f
    simp [hc, hrc]
  unfold mirrorProblem flowProblem
  simp only [List.length_append, hlen]
  congr 1
  · rw [show (dual.length + dual.length) / 2 = dual.length by omega, List.rotate_eq_drop_append_take (by simp [hc, hrc]),
      List.drop_left' (by rw [hlen]), List.take_left' (by rw [hlen]), List.map_append]
    congr 1
    · apply List.ext_getElem
      · simp [hc, hrc]
      · intro i h1 h2
        simp only [List.getElem_map, List.getElem_zipWith, List.getElem_zip, flipArc, pickCost]
        congr 1
        ring
    · apply List.ext_getElem
      · simp [hc, hrc]
      · intro i h1 h2
        simp only [List.getElem_map, List.getElem_zipWith, List.getElem_zip, flipArc, pickCost]
        congr 1
        ring
  · rw [List.map_map]
    conv_rhs => rw [← List.map_id res]
    apply List.map_congr_left
    intro x _
    simp

theorem bcast_length {n : Nat} {cost c : List ℤ} (h : bcast n cost = .ok c) : c.length = n := by
  unfold bcast at h
  split at h
  · cases h; assumption
  · split at h
    · cases h; simp
    · cases h

theorem solveMcf_neg {s : FlowSolver} (hs : SolverSound s) (dual : List DualRow) (res cost revcost : List ℤ) (out : List ℤ) :
    solveMcf (mirrorSolver s) dual (res.map (- ·)) revcost cost = .ok (out.map (- ·)) ↔
      solveMcf s dual res cost revcost = .ok out := by
  unfold solveMcf
  rw [sum_neg]
  simp only [neg_ne_zero]
  split
  · simp
  · cases h1 : bcast dual.length cost with
    | error e => cases h2 : bcast dual.length revcost <;> simp [Bind.bind, Except.bind]
    | ok c =>
      cases h2 : bcast dual.length revcost with
      | error e => simp [Bind.bind, Except.bind]
      | ok rc =>
        simp only [Bind.bind, Except.bind]
        have hm := mirror_flowProblem dual res c rc (bcast_length h1) (bcast_length h2)
        have hal : (flowProblem dual (res.map (- ·)) rc c).arcs.length = dual.length + dual.length := by
          simp [flowProblem, bcast_length h1, bcast_length h2]
        unfold mirrorSolver
        rw [hm]
        cases hf : s (flowProblem dual res c rc) with
        | none => simp
        | some f =>
          have hl := (hs _ _ hf).len
          rw [← hm, mirror_len, hal] at hl
          simp only [Option.map_some, Except.ok.injEq]
          rw [hal, show dual.length + dual.length - (dual.length + dual.length) / 2 = dual.length by omega,
            List.rotate_eq_drop_append_take (by omega)]
          have e : ((List.range dual.length).map fun ii => (dual.map (·.d0)).getD ii 0 *
              ((f.drop dual.length ++ f.take dual.length).getD (ii + dual.length) 0 -
                (f.drop dual.length ++ f.take dual.length).getD ii 0)) =
              ((List.range dual.length).map fun ii => (dual.map (·.d0)).getD ii 0 *
                (f.getD (ii + dual.length) 0 - f.getD ii 0)).map (- ·) := by
            rw [List.map_map]
            apply List.map_congr_left
            intro ii hii
            rw [List.mem_range] at hii
            have a1 : (f.drop dual.length ++ f.take dual.length).getD (ii + dual.length) 0 = f.getD ii 0 := by
              rw [List.getD_eq_getElem?_getD, List.getD_eq_getElem?_getD, List.getElem?_append_right (by simp; omega),
                List.getElem?_take_of_lt (by simp; omega)]
              congr 2
              simp
              omega
            have a2 : (f.drop dual.length ++ f.take dual.length).getD ii 0 = f.getD (ii + dual.length) 0 := by
              rw [List.getD_eq_getElem?_getD, List.getD_eq_getElem?_getD, List.getElem?_append_left (by simp; omega),
                List.getElem?_drop, Nat.add_comm]
            simp only [Function.comp, a1, a2]
            ring
          rw [e]
          exact (List.map_injective_iff.mpr neg_injective).eq_iff

theorem any_neg (res : List ℤ) : (res.map (- ·)).any (· ≠ 0) = res.any (· ≠ 0) := by
  rw [List.any_map]
  congr 1
  funext x
  simp

theorem flows_neg {s : FlowSolver} (hs : SolverSound s) (m : Mcf) (res cost revcost : List ℤ) (out : List ℤ) :
    residuesToFlows (mirrorSolver s) m (res.map (- ·)) revcost (some cost) = .ok (out.map (- ·)) ↔
      residuesToFlows s m res cost (some revcost) = .ok out := by
  unfold residuesToFlows
  rw [any_neg]
  split
  · exact solveMcf_neg hs m.dual res cost revcost out
  · simp only [Except.ok.injEq]
    rw [← (List.map_injective_iff.mpr (neg_injective (G := ℤ))).eq_iff (b := out)]
    simp

end Mirror

section
variable {K : Type} [Field K] [LinearOrder K] [IsStrictOrderedRing K] [FloorRing K]

theorem phaseDiff_neg (tau a b : K) : phaseDiff tau (-a) (-b) = - phaseDiff tau a b := by
  unfold phaseDiff
  have h : (-b - -a - 0) / tau = -((b - a - 0) / tau) := by ring
  simp only [h, rint_neg]
  push_cast
  ring

omit [LinearOrder K] [IsStrictOrderedRing K] [FloorRing K] in
theorem elem_neg (a : List (List K)) (i j : Nat) : elem (a.map fun r => r.map (- ·)) i j = - elem a i j := by
  unfold elem
  have : (a.map fun r => r.map (- ·)).getD i [] = (a.getD i []).map (- ·) := by
    rw [List.getD_eq_getElem?_getD, List.getD_eq_getElem?_getD, List.getElem?_map]
    cases a[i]? <;> simp
  rw [this, getD_neg]

theorem spaceGrad_neg (tau : K) (e : Emcf) (wrap : List (List K)) (isIfg : Bool) (i j : Nat) :
    spaceGrad tau e (wrap.map fun r => r.map (- ·)) isIfg i j = - spaceGrad tau e wrap isIfg i j := by
  unfold spaceGrad
  simp only [elem_neg, phaseDiff_neg]
  split <;> rfl

omit [LinearOrder K] [IsStrictOrderedRing K] [FloorRing K] in
theorem modify_neg (l : List K) (i : Nat) (x : K) : (l.map (- ·)).modify i (· + -x) = (l.modify i (· + x)).map (- ·) := by
  apply List.ext_getElem
  · simp
  · intro k h1 h2
    simp only [List.getElem_modify, List.getElem_map]
    split
    · ring
    · rfl

theorem linkResidues_neg (tau : K) (m : Mcf) (g g' : Nat → K) (h : ∀ i, g' i = - g i) :
    linkResidues tau m g' = (linkResidues tau m g).map (- ·) := by
  obtain rfl : g' = fun i => - g i := funext h
  unfold linkResidues
  have key : ∀ (l : List Nat) (acc : List K),
      l.foldl (fun acc ii =>
        let r := m.dual.getD ii ⟨0, 0, 0, 0⟩
        let acc := acc.modify r.c0 (· + (r.d0 : K) * - g ii)
        if r.c1 ≠ 0 then acc.modify r.c1 (· + (r.d1 : K) * - g ii) else acc) (acc.map (- ·)) =
      (l.foldl (fun acc ii =>
        let r := m.dual.getD ii ⟨0, 0, 0, 0⟩
        let acc := acc.modify r.c0 (· + (r.d0 : K) * g ii)
        if r.c1 ≠ 0 then acc.modify r.c1 (· + (r.d1 : K) * g ii) else acc) acc).map (- ·) := by
    intro l
    induction l with
    | nil => intro acc; rfl
    | cons i l ih =>
      intro acc
      rw [List.foldl_cons, List.foldl_cons, ← ih]
      congr 1
      simp only [mul_neg, modify_neg]
      split <;> rfl
  have hz : List.replicate (m.graph.cycles.length + 1) (0 : K) =
      (List.replicate (m.graph.cycles.length + 1) (0 : K)).map (- ·) := by simp
  rw [hz, key, ← hz]
  simp only
  have hr : ∀ l : List K, (l.map (- ·)).map (fun s => rint (s / tau)) = (l.map fun s => rint (s / tau)).map (- ·) := by
    intro l
    rw [List.map_map, List.map_map]
    apply List.map_congr_left
    intro x _
    simp only [Function.comp, neg_div, rint_neg]
  rw [hr, tail_neg]

omit [LinearOrder K] [IsStrictOrderedRing K] [FloorRing K] in
theorem addAt_neg (idx : List Nat) (vals : List K) (acc : List K) :
    addAt (acc.map (- ·)) idx (vals.map (- ·)) = (addAt acc idx vals).map (- ·) := by
  unfold addAt
  induction idx generalizing vals acc with
  | nil => rfl
  | cons i idx ih =>
    cases vals with
    | nil => rfl
    | cons v vals =>
      simp only [List.map_cons, List.zip_cons_cons, List.foldl_cons, modify_neg]
      exact ih vals _

theorem gradResidues_neg (tau : K) (m : Mcf) (g : List K) :
    computeResiduesFromGradients tau m (g.map (- ·)) =
      (computeResiduesFromGradients tau m g).map (fun r => r.map (- ·)) := by
  unfold computeResiduesFromGradients
  rw [List.length_map]
  split
  · rfl
  · have hz : ∀ n, List.replicate n (0 : K) = (List.replicate n (0 : K)).map (- ·) := by simp
    have hp : ∀ d : DualRow → ℤ, List.zipWith (fun r x => (d r : K) * x) m.dual (g.map (- ·)) =
        (List.zipWith (fun r x => (d r : K) * x) m.dual g).map (- ·) := by
      intro d
      rw [List.zipWith_map_right, List.map_zipWith]
      simp
    simp only [hp (·.d0), hp (·.d1)]
    rw [hz, addAt_neg, addAt_neg, ← hz]
    have hr : ∀ l : List K, (l.map (- ·)).map (fun s => rint (s / tau)) = (l.map fun s => rint (s / tau)).map (- ·) := by
      intro l
      rw [List.map_map, List.map_map]
      apply List.map_congr_left
      intro x _
      simp only [Function.comp, neg_div, rint_neg]
    rw [hr, tail_neg]
    rfl

theorem residues_neg (tau : K) (m : Mcf) (d : List K) :
    computeResidues tau m (d.map (- ·)) = (computeResidues tau m d).map (fun r => r.map (- ·)) := by
  unfold computeResidues
  rw [List.length_map]
  split
  · rfl
  · split
    · rfl
    · simp only [getD_neg, phaseDiff_neg]
      split
      · have key : ∀ (n : Nat) (cyc : List Nat),
            rint (((List.range n).map fun col => - phaseDiff tau (d.getD (cyc.getD col 0) 0)
              (d.getD (cyc.getD ((col + 1) % n) 0) 0)).sum / tau) =
            - rint (((List.range n).map fun col => phaseDiff tau (d.getD (cyc.getD col 0) 0)
              (d.getD (cyc.getD ((col + 1) % n) 0) 0)).sum / tau) := by
          intro n cyc
          rw [← rint_neg, ← neg_div, ← sum_neg, List.map_map]
          rfl
        simp only [key, sum_map_neg]
        rfl
      · rfl

/-- The state of the flood fill with the values of the opposite sign. -/
def negState (s : FfState K) : FfState K := ⟨s.done, fun p => - s.unw p, s.todo, s.errs⟩

omit [FloorRing K] in
theorem ffStep_neg (i : Nat) (s : FfState K) (jg : Nat × K) :
    ffStep i (negState s) (jg.1, - jg.2) = negState (ffStep i s jg) := by
  unfold ffStep negState
  have hu : - s.unw i + - jg.2 = - (s.unw i + jg.2) := by ring
  simp only [hu]
  split
  · congr 1
    funext p
    by_cases hp : p = jg.1
    · subst hp; simp
    · simp [Function.update_of_ne hp]
  · have : |-(s.unw i + jg.2) - -s.unw jg.1| = |s.unw i + jg.2 - s.unw jg.1| := by
      rw [← abs_neg]; congr 1; ring
    rw [this]
    split <;> rfl

omit [FloorRing K] in
theorem ffLoop_neg (nbrs : Nat → List (Nat × K)) (fuel : Nat) (s : FfState K) :
    ffLoop (fun i => (nbrs i).map fun jg => (jg.1, - jg.2)) fuel (negState s) = (ffLoop nbrs fuel s).map negState := by
  have hf : ∀ (i : Nat) (l : List (Nat × K)) (s : FfState K),
      (l.map fun jg => (jg.1, - jg.2)).foldl (ffStep i) (negState s) = negState (l.foldl (ffStep i) s) := by
    intro i l
    induction l with
    | nil => intro s; rfl
    | cons a l ih => intro s; rw [List.map_cons, List.foldl_cons, List.foldl_cons, ffStep_neg, ih]
  induction fuel generalizing s with
  | zero =>
    unfold ffLoop
    show (match s.todo with
      | [] => Except.ok (negState s)
      | _ :: _ => Except.error PyErr.nonTermination) = _
    cases s.todo <;> rfl
  | succ fuel ih =>
    rw [ffLoop.eq_def, ffLoop.eq_def nbrs]
    simp only
    have ht : (negState s).todo = s.todo := rfl
    rw [ht]
    cases h : s.todo with
    | nil => rfl
    | cons i rest =>
      simp only
      rw [← ih, ← hf]
      rfl

omit [LinearOrder K] [IsStrictOrderedRing K] [FloorRing K] in
theorem nbrsOf_neg (links : List (Nat × Nat)) (g : List K) (i : Nat) :
    nbrsOf links (g.map (- ·)) i = (nbrsOf links g i).map fun jg => (jg.1, - jg.2) := by
  unfold nbrsOf
  induction links generalizing g with
  | nil => rfl
  | cons l links ih =>
    cases g with
    | nil => rfl
    | cons x g =>
      simp only [List.map_cons, List.zip_cons_cons, List.flatMap_cons, List.map_append, ih]
      congr 2
      · split <;> rfl
      · split <;> rfl

theorem gradList_neg (tau : K) (d : List K) (links : List (Nat × Nat)) (flows : List ℤ) (points : Bool) :
    gradList tau (d.map (- ·)) links (flows.map (- ·)) points = (gradList tau d links flows points).map (- ·) := by
  unfold gradList
  rw [List.map_map]
  apply List.map_congr_left
  intro i _
  simp only [totalGrad, getD_neg, getD_negZ, phaseDiff_neg, Function.comp]
  split <;> push_cast <;> ring

theorem floodFill_neg (tau : K) (d : List K) (links : List (Nat × Nat)) (flows : List ℤ) (mode : String) :
    floodFill tau (d.map (- ·)) links (flows.map (- ·)) mode = (floodFill tau d links flows mode).map fun u => u.map (- ·) := by
  by_cases h : FfArgs d links flows mode
  · have h' : FfArgs (d.map (- ·)) links (flows.map (- ·)) mode :=
      ⟨by rw [List.length_map]; exact h.len, h.mode_ok, h.ne, by rw [List.length_map]; exact h.size⟩
    rw [floodFill_unfold tau h, floodFill_unfold tau h', gradList_neg]
    rw [show nbrsOf links ((gradList tau d links flows (mode = "points")).map (- ·)) = fun i =>
      (nbrsOf links (gradList tau d links flows (mode = "points")) i).map fun jg => (jg.1, - jg.2) from
      funext fun i => nbrsOf_neg _ _ i]
    rw [show (ffInit : FfState K) = negState ffInit by simp [ffInit, negState], ffLoop_neg,
      show negState (ffInit : FfState K) = ffInit by simp [ffInit, negState]]
    cases ffLoop (nbrsOf links (gradList tau d links flows (mode = "points"))) (maxLink links + 1) ffInit with
    | error e => rfl
    | ok s =>
      simp only [Except.map, negState]
      split
      · rfl
      split
      · split
        · simp only [Except.ok.injEq, List.map_map]
          apply List.map_congr_left
          intro p _
          simp only [Function.comp, getD_neg]
          ring
        · simp only [Except.ok.injEq, List.map_map]
          rfl
      · rfl
  · have h' : ¬ FfArgs (d.map (- ·)) links (flows.map (- ·)) mode := by
      intro hh
      apply h
      have := hh.len
      have h4 := hh.size
      rw [List.length_map] at this h4
      exact ⟨this, hh.mode_ok, hh.ne, h4⟩
    rw [floodFill_bad tau h, floodFill_bad tau h']
    rfl

theorem floodFill_neg_iff (tau : K) (d : List K) (links : List (Nat × Nat)) (flows : List ℤ) (mode : String) (u : List K) :
    floodFill tau (d.map (- ·)) links (flows.map (- ·)) mode = .ok (u.map (- ·)) ↔ floodFill tau d links flows mode = .ok u := by
  rw [floodFill_neg]
  cases floodFill tau d links flows mode with
  | error e => simp [Except.map]
  | ok v =>
    simp only [Except.map, Except.ok.injEq]
    exact (List.map_injective_iff.mpr neg_injective).eq_iff

theorem neg_neg_list {R : Type} [Ring R] (l : List R) : (l.map (- ·)).map (- ·) = l := by
  rw [List.map_map]
  conv_rhs => rw [← List.map_id l]
  apply List.map_congr_left
  intro x _
  simp

theorem unwrapIfg_neg (tau : K) {s : FlowSolver} (hs : SolverSound s) (m : Mcf) (cost : List ℤ) (g u : List K) :
    unwrapIfg tau (mirrorSolver s) m cost (g.map (- ·)) = .ok (u.map (- ·)) ↔ unwrapIfg tau s m cost g = .ok u := by
  unfold unwrapIfg
  rw [gradResidues_neg]
  cases computeResiduesFromGradients tau m g with
  | error e => simp [Bind.bind, Except.bind, Except.map]
  | ok res =>
    simp only [Bind.bind, Except.bind, Except.map]
    have key := flows_neg hs m res cost cost
    have e1 : ∀ s' r, residuesToFlows s' m r cost none = residuesToFlows s' m r cost (some cost) := fun _ _ => rfl
    simp only [e1]
    cases h1 : residuesToFlows s m res cost (some cost) with
    | error e =>
      cases h2 : residuesToFlows (mirrorSolver s) m (res.map (- ·)) cost (some cost) with
      | error e' => simp
      | ok f =>
        have := key (f.map (- ·))
        rw [neg_neg_list] at this
        rw [this.mp h2] at h1
        cases h1
    | ok f =>
      rw [(key f).mpr h1]
      exact floodFill_neg_iff tau g m.graph.links f "gradients" u

end

end Spurt
