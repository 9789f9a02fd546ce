import Verif.Lemmas.Emcf
import Verif.Props.Phase
import Verif.Props.Cost

/-!
# Properties C19–C23: the EMCF solver
-/

namespace Spurt
open Spec Finset

section
variable {K : Type} [Field K] [LinearOrder K] [IsStrictOrderedRing K] [FloorRing K]

/-- The wrapped interferogram of acquisitions `s` and `t` at point `p`, from SLC phases. -/
def Spec.ifgPhase (tau : K) (slc : List (List K)) (s t p : Nat) : K :=
  phaseDiff tau ((slc.getD s []).getD p 0) ((slc.getD t []).getD p 0)

/-- The column of a 2-D array. -/
def Spec.column (a : List (List K)) (j : Nat) : List K := a.map fun row => row.getD j 0

/-! ### C19 -/

/-- C19. Temporal unwrapping returns the same array for every positive batch size, worker
count and completion order, or fails for all of them. -/
theorem C19_batch_independent (tau : K) (solver : FlowSolver) (e : Emcf) (gt : PlanarGraph)
    (hnd : gt.links.Nodup) (hord : ∀ a b, (a, b) ∈ gt.links → a ≤ b) (hm : ormcf gt = .ok e.time)
    (wrap : List (List K)) (isIfg : Bool) (b1 b2 w1 w2 : ℤ) (h1 : 0 < b1) (h2 : 0 < b2)
    (o1 o2 : Nat → List Nat → List Nat) (ho1 : ∀ k l, (o1 k l).Perm l)
    (ho2 : ∀ k l, (o2 k l).Perm l) (out : List (List K)) :
    unwrapInTime tau solver
      { e with settings := { e.settings with linksPerBatch := b1, tWorkerCount := w1 } }
      wrap isIfg o1 = .ok out ↔
    unwrapInTime tau solver
      { e with settings := { e.settings with linksPerBatch := b2, tWorkerCount := w2 } }
      wrap isIfg o2 = .ok out := by
  obtain ⟨hmg, _⟩ := (C06_dual_graph gt hnd hord).2 e.time hm
  cases hcost : costOf e.settings.tCostType e.nifgs e.tDist e.tCent with
  | error err =>
    have : ∀ (s : SolverSettings) o, s.tCostType = e.settings.tCostType →
        unwrapInTime tau solver { e with settings := s } wrap isIfg o = .error err := by
      intro s o hs
      unfold unwrapInTime
      simp only [hs]
      have : ({ e with settings := s } : Emcf).nifgs = e.nifgs := rfl
      rw [this, hcost]; rfl
    rw [this { e.settings with linksPerBatch := b1, tWorkerCount := w1 } o1 rfl,
      this { e.settings with linksPerBatch := b2, tWorkerCount := w2 } o2 rfl]
  | ok cost =>
    rw [inTime_iff tau solver { e with settings := { e.settings with linksPerBatch := b1, tWorkerCount := w1 } }
      hnd hord hm hmg wrap isIfg cost hcost o1 ho1 h1,
      inTime_iff tau solver { e with settings := { e.settings with linksPerBatch := b2, tWorkerCount := w2 } }
      hnd hord hm hmg wrap isIfg cost hcost o2 ho2 h2]
    rfl

/-- C19. A link is processed with its own data only: two inputs with the same values at
the two end points of a link give the same gradients for it. -/
theorem C19_own_data (tau : K) (solver : FlowSolver) (e : Emcf) (gt : PlanarGraph)
    (hnd : gt.links.Nodup) (hord : ∀ a b, (a, b) ∈ gt.links → a ≤ b) (hm : ormcf gt = .ok e.time)
    (hb : 0 < e.settings.linksPerBatch)
    (wrap wrap' : List (List K)) (isIfg : Bool)
    (o o' : Nat → List Nat → List Nat) (ho : ∀ k l, (o k l).Perm l) (ho' : ∀ k l, (o' k l).Perm l)
    (out out' : List (List K)) (h : unwrapInTime tau solver e wrap isIfg o = .ok out)
    (h' : unwrapInTime tau solver e wrap' isIfg o' = .ok out')
    (j a b : Nat) (hj : e.space.graph.links[j]? = some (a, b))
    (hsame : ∀ s, (wrap.getD s []).getD a 0 = (wrap'.getD s []).getD a 0 ∧
      (wrap.getD s []).getD b 0 = (wrap'.getD s []).getD b 0) :
    column out j = column out' j := by
  obtain ⟨hmg, _⟩ := (C06_dual_graph gt hnd hord).2 e.time hm
  cases hcost : costOf e.settings.tCostType e.nifgs e.tDist e.tCent with
  | error err => unfold unwrapInTime at h; rw [hcost] at h; simp [Bind.bind, Except.bind] at h
  | ok cost =>
    rw [inTime_iff tau solver e hnd hord hm hmg wrap isIfg cost hcost o ho hb] at h
    rw [inTime_iff tau solver e hnd hord hm hmg wrap' isIfg cost hcost o' ho' hb] at h'
    have hl : e.space.graph.links.getD j (0, 0) = (a, b) := by
      rw [List.getD_eq_getElem?_getD, hj]; rfl
    have hs : ∀ i, spaceGrad tau e wrap isIfg i j = spaceGrad tau e wrap' isIfg i j := by
      intro i
      unfold spaceGrad elem
      simp only [hl, (hsame _).1, (hsame _).2]
    have ht : linkTime tau solver e wrap isIfg cost j = linkTime tau solver e wrap' isIfg cost j := by
      unfold linkTime; simp only [hs]
    have hj' : j < e.nlinks := (List.getElem?_eq_some_iff.mp hj).1
    rw [h.2, h'.2]
    unfold column
    simp only [List.map_map]
    apply List.map_congr_left
    intro i _
    simp only [Function.comp, List.getD_eq_getElem?_getD, List.getElem?_map, List.getElem?_range hj',
      Option.map_some, Option.getD_some]
    rw [hs, ht]

/-! ### C20 -/

theorem onLink_range {M : Type*} [Zero M] (links : List (Nat × Nat)) (f : Nat → M) (a b : Nat) :
    onLink links ((List.range links.length).map f) a b =
      if links.idxOf (a, b) < links.length then f (links.idxOf (a, b)) else 0 := by
  unfold onLink
  rw [List.getD_eq_getElem?_getD, List.getElem?_map]
  by_cases h : links.idxOf (a, b) < links.length
  · rw [List.getElem?_range h, if_pos h]; rfl
  · rw [if_neg h, List.getElem?_eq_none (by simpa using h)]; rfl

/-- Circulation is linear. -/
theorem circulation_add_int (tau : K) (links : List (Nat × Nat)) (f : Nat → K) (n : Nat → ℤ)
    (c : List Nat) :
    circulation links ((List.range links.length).map fun i => f i + tau * ((n i : ℤ) : K)) c =
      circulation links ((List.range links.length).map f) c +
        tau * ((circulation links ((List.range links.length).map n) c : ℤ) : K) := by
  unfold circulation
  generalize sides c = l
  have key : ∀ x y, along links ((List.range links.length).map fun i => f i + tau * ((n i : ℤ) : K)) x y
      = along links ((List.range links.length).map f) x y +
        tau * ((along links ((List.range links.length).map n) x y : ℤ) : K) := by
    intro x y
    unfold along
    simp only [onLink_range]
    split <;> split <;> (try push_cast) <;> (try simp) <;> ring
  induction l with
  | nil => simp
  | cons s l ih =>
    simp only [List.map_cons, List.sum_cons]
    rw [ih, key, Int.cast_add]
    ring

/-- The difference of a point function has no circulation. -/
theorem circulation_gradient {M : Type*} [AddCommGroup M] {n : Nat} {links : List (Nat × Nat)}
    {cycles : List (List Nat)} (hc : PlanarContract n links cycles) (D : Nat → M) {cyc : List Nat}
    (hcy : cyc ∈ cycles) :
    circulation links ((List.range links.length).map fun i =>
      D (links.getD i (0, 0)).2 - D (links.getD i (0, 0)).1) cyc = 0 := by
  rw [circulation_antisymm hc _ (fun a b => D b - D a) (fun a b _ => by abel) ?_ hcy]
  · exact sum_sides_diff cyc D
  · intro a b hab
    have hi := List.idxOf_lt_length_iff.mpr hab
    rw [onLink_range, if_pos hi, List.getD_eq_getElem?_getD, List.getElem?_eq_getElem hi,
      Option.getD_some, List.getElem_idxOf]

theorem unwrapInTime_entries (tau : K) (solver : FlowSolver) (e : Emcf) {gt : PlanarGraph}
    (hc : PlanarContract gt.npoints gt.links gt.cycles) (hm : ormcf gt = .ok e.time)
    (hs : SolverSound solver) (hb : 0 < e.settings.linksPerBatch)
    (wrap : List (List K)) (isIfg : Bool) (order : Nat → List Nat → List Nat)
    (horder : ∀ k l, (order k l).Perm l) (out : List (List K))
    (h : unwrapInTime tau solver e wrap isIfg order = .ok out) :
    out.length = gt.links.length ∧ (∀ row ∈ out, row.length = e.nlinks) ∧
    ∀ j < e.nlinks, LinkInput e wrap isIfg j ∧ ∃ fl : List ℤ, fl.length = gt.links.length ∧
      column out j = (List.range gt.links.length).map (fun i =>
        spaceGrad tau e wrap isIfg i j + tau * ((fl.getD i 0 : ℤ) : K)) ∧
      ∀ k (hk : k < gt.cycles.length), circulation gt.links fl gt.cycles[k] =
        - rint (circulation gt.links ((List.range gt.links.length).map fun i =>
          spaceGrad tau e wrap isIfg i j) gt.cycles[k] / tau) := by
  obtain ⟨hmg, hmd⟩ := dual_of_contract hc hm
  have hord : ∀ a b, (a, b) ∈ gt.links → a ≤ b := fun a b hab => (hc.ordered a b hab).1.le
  cases hcost : costOf e.settings.tCostType e.nifgs e.tDist e.tCent with
  | error err => unfold unwrapInTime at h; rw [hcost] at h; simp [Bind.bind, Except.bind] at h
  | ok cost =>
    rw [inTime_iff tau solver e hc.distinct hord hm hmg wrap isIfg cost hcost order horder hb] at h
    obtain ⟨h1, rfl⟩ := h
    have hn : e.nifgs = gt.links.length := by unfold Emcf.nifgs; rw [hmg]
    refine ⟨by simp [hn], ?_, ?_⟩
    · intro row hrow
      obtain ⟨i, _, rfl⟩ := List.mem_map.mp hrow
      simp
    · intro j hj
      obtain ⟨hin, hfl⟩ := h1 j hj
      set fl := okVal (linkTime tau solver e wrap isIfg cost j) with hfl0
      have hcan := C10_flows_cancel gt e.time solver hc hm hs _ cost none fl hfl
      refine ⟨hin, fl, hcan.1, ?_, ?_⟩
      · unfold column
        rw [List.map_map, hn]
        apply List.map_congr_left
        intro i _
        simp only [Function.comp, List.getD_eq_getElem?_getD, List.getElem?_map,
          List.getElem?_range hj, Option.map_some, Option.getD_some, hfl0]
      · intro k hk
        rw [hcan.2 k hk, (linkResidues_contract tau hc hm _).2.2 k hk]

/-- Closure of the output in time, in terms of the closure of the wrapped gradients. -/
theorem column_closure (tau : K) {gt : PlanarGraph} {x : Nat → K} {fl : List ℤ}
    (hfl : fl.length = gt.links.length) {c : List Nat}
    (h : circulation gt.links fl c =
      - rint (circulation gt.links ((List.range gt.links.length).map x) c / tau)) :
    circulation gt.links ((List.range gt.links.length).map fun i =>
      x i + tau * ((fl.getD i 0 : ℤ) : K)) c =
    circulation gt.links ((List.range gt.links.length).map x) c -
      (rint (circulation gt.links ((List.range gt.links.length).map x) c / tau) : K) * tau := by
  rw [circulation_add_int]
  have : (List.range gt.links.length).map (fun i => fl.getD i 0) = fl := by
    apply List.ext_getElem
    · simp [hfl]
    · intro i h1 h2; simp [List.getD_eq_getElem?_getD, h2]
  rw [this, h]
  push_cast; ring

/-- If the wrapped gradients are differences of a function of the acquisitions plus whole
cycles, the rounded closure is the exact closure. -/
theorem closure_exact {tau : K} (ht : 0 < tau) {gt : PlanarGraph}
    (hc : PlanarContract gt.npoints gt.links gt.cycles) {x : Nat → K} (D : Nat → K) (n : Nat → ℤ)
    (hx : ∀ i < gt.links.length, x i =
      D (gt.links.getD i (0, 0)).2 - D (gt.links.getD i (0, 0)).1 + tau * (n i : K))
    {c : List Nat} (hcy : c ∈ gt.cycles) :
    circulation gt.links ((List.range gt.links.length).map x) c =
      (rint (circulation gt.links ((List.range gt.links.length).map x) c / tau) : K) * tau := by
  have e1 : (List.range gt.links.length).map x = (List.range gt.links.length).map fun i =>
      (D (gt.links.getD i (0, 0)).2 - D (gt.links.getD i (0, 0)).1) + tau * ((n i : ℤ) : K) := by
    apply List.map_congr_left
    intro i hi
    exact hx i (List.mem_range.mp hi)
  rw [e1, circulation_add_int, circulation_gradient hc D hcy, zero_add, mul_comm tau,
    mul_div_assoc, div_self ht.ne', mul_one, rint_intCast]

/-- The wrapped double difference as a difference of acquisitions plus whole cycles. -/
theorem doubleDiff_eq (tau : K) (slc : List (List K)) (s t a b : Nat) :
    ∃ n : ℤ, phaseDiff tau (ifgPhase tau slc s t a) (ifgPhase tau slc s t b) =
      ((slc.getD t []).getD b 0 - (slc.getD t []).getD a 0) -
      ((slc.getD s []).getD b 0 - (slc.getD s []).getD a 0) + tau * (n : K) := by
  unfold ifgPhase
  simp only [phaseDiff_eq]
  generalize rint (((slc.getD t []).getD b 0 - (slc.getD s []).getD b 0) / tau) = r1
  generalize rint (((slc.getD t []).getD a 0 - (slc.getD s []).getD a 0) / tau) = r2
  generalize rint (K := K) _ = r3
  exact ⟨r2 - r1 - r3, by push_cast; ring⟩

/-- C20 for SLC input. For every spatial link, the temporally unwrapped gradients sum to
zero around every temporal cycle, and each is the wrapped double difference plus whole
cycles. -/
theorem C20_slc_closure (tau : K) (ht : 0 < tau) (solver : FlowSolver) (e : Emcf) (gt : PlanarGraph)
    (hc : PlanarContract gt.npoints gt.links gt.cycles) (hm : ormcf gt = .ok e.time)
    (hs : SolverSound solver) (hb : 0 < e.settings.linksPerBatch)
    (slc : List (List K)) (order : Nat → List Nat → List Nat)
    (horder : ∀ k l, (order k l).Perm l) (out : List (List K))
    (h : unwrapInTime tau solver e slc false order = .ok out)
    (j a b : Nat) (hj : e.space.graph.links[j]? = some (a, b)) :
    (∀ c ∈ gt.cycles, circulation gt.links (column out j) c = 0) ∧
    ∀ i s t : Nat, gt.links[i]? = some (s, t) → ∃ k : ℤ, (out.getD i []).getD j 0 =
      phaseDiff tau (ifgPhase tau slc s t a) (ifgPhase tau slc s t b) + k * tau := by
  obtain ⟨hmg, _⟩ := dual_of_contract hc hm
  obtain ⟨hlen, hrow, hent⟩ := unwrapInTime_entries tau solver e hc hm hs hb slc false order horder out h
  have hj' : j < e.nlinks := (List.getElem?_eq_some_iff.mp hj).1
  obtain ⟨_, fl, hfl, hcol, hcir⟩ := hent j hj'
  have hl : e.space.graph.links.getD j (0, 0) = (a, b) := by
    rw [List.getD_eq_getElem?_getD, hj]; rfl
  have hsg : ∀ i, spaceGrad tau e slc false i j = phaseDiff tau
      (ifgPhase tau slc (gt.links.getD i (0, 0)).1 (gt.links.getD i (0, 0)).2 a)
      (ifgPhase tau slc (gt.links.getD i (0, 0)).1 (gt.links.getD i (0, 0)).2 b) := by
    intro i
    unfold spaceGrad ifgPhase elem
    simp only [hl, hmg, Bool.false_eq_true, if_false]
  constructor
  · intro c hcy
    obtain ⟨k, hk, rfl⟩ := List.mem_iff_getElem.mp hcy
    rw [hcol, column_closure tau hfl (hcir k hk)]
    choose n hn using fun i => doubleDiff_eq tau slc (gt.links.getD i (0, 0)).1
      (gt.links.getD i (0, 0)).2 a b
    have := closure_exact ht hc (x := fun i => spaceGrad tau e slc false i j)
      (fun s => (slc.getD s []).getD b 0 - (slc.getD s []).getD a 0) n
      (fun i _ => by rw [hsg, hn]) (List.getElem_mem hk)
    exact sub_eq_zero.mpr this
  · intro i s t hi
    obtain ⟨hi', he⟩ := List.getElem?_eq_some_iff.mp hi
    have hcol' := congrArg (fun l => l.getD i 0) hcol
    have hil : i < out.length := by omega
    simp only [column, List.getD_eq_getElem?_getD, List.getElem?_map, List.getElem?_range hi',
      List.getElem?_eq_getElem hil, Option.map_some, Option.getD_some] at hcol'
    refine ⟨fl.getD i 0, ?_⟩
    have hg : gt.links.getD i (0, 0) = (s, t) := by rw [List.getD_eq_getElem?_getD, hi]; rfl
    rw [hsg, hg] at hcol'
    simp only [List.getD_eq_getElem?_getD, List.getElem?_eq_getElem hil, Option.getD_some] at hcol' ⊢
    rw [hcol']; ring

/-- C20 for interferogram input. Each gradient is the wrapped difference of the two pixels
plus whole cycles and closes around every temporal cycle within half a cycle; if the
interferograms are differences of some acquisition phases up to whole cycles, it closes
exactly. -/
theorem C20_ifg_closure (tau : K) (ht : 0 < tau) (solver : FlowSolver) (e : Emcf) (gt : PlanarGraph)
    (hc : PlanarContract gt.npoints gt.links gt.cycles) (hm : ormcf gt = .ok e.time)
    (hs : SolverSound solver) (hb : 0 < e.settings.linksPerBatch)
    (ifg : List (List K)) (order : Nat → List Nat → List Nat)
    (horder : ∀ k l, (order k l).Perm l) (out : List (List K))
    (h : unwrapInTime tau solver e ifg true order = .ok out)
    (j a b : Nat) (hj : e.space.graph.links[j]? = some (a, b)) :
    (∀ c ∈ gt.cycles, |circulation gt.links (column out j) c| ≤ tau / 2) ∧
    (∀ i < gt.links.length, ∃ k : ℤ, (out.getD i []).getD j 0 =
      phaseDiff tau ((ifg.getD i []).getD a 0) ((ifg.getD i []).getD b 0) + k * tau) ∧
    ((∃ θ : Nat → Nat → K, ∀ i s t : Nat, gt.links[i]? = some (s, t) → ∀ p, p = a ∨ p = b →
        ∃ k : ℤ, (ifg.getD i []).getD p 0 = θ t p - θ s p + k * tau) →
      ∀ c ∈ gt.cycles, circulation gt.links (column out j) c = 0) := by
  obtain ⟨hmg, _⟩ := dual_of_contract hc hm
  obtain ⟨hlen, hrow, hent⟩ := unwrapInTime_entries tau solver e hc hm hs hb ifg true order horder out h
  have hj' : j < e.nlinks := (List.getElem?_eq_some_iff.mp hj).1
  obtain ⟨_, fl, hfl, hcol, hcir⟩ := hent j hj'
  have hl : e.space.graph.links.getD j (0, 0) = (a, b) := by
    rw [List.getD_eq_getElem?_getD, hj]; rfl
  have hsg : ∀ i, spaceGrad tau e ifg true i j =
      phaseDiff tau ((ifg.getD i []).getD a 0) ((ifg.getD i []).getD b 0) := by
    intro i
    unfold spaceGrad elem
    simp only [hl, if_true]
  refine ⟨?_, ?_, ?_⟩
  · intro c hcy
    obtain ⟨k, hk, rfl⟩ := List.mem_iff_getElem.mp hcy
    rw [hcol, column_closure tau hfl (hcir k hk)]
    set C := circulation gt.links ((List.range gt.links.length).map fun i =>
      spaceGrad tau e ifg true i j) gt.cycles[k]
    have := phaseDiff_abs ht 0 C 0
    rw [phaseDiff_eq] at this
    simpa using this
  · intro i hi'
    have hcol' := congrArg (fun l => l.getD i 0) hcol
    have hil : i < out.length := by omega
    simp only [column, List.getD_eq_getElem?_getD, List.getElem?_map, List.getElem?_range hi',
      List.getElem?_eq_getElem hil, Option.map_some, Option.getD_some] at hcol'
    refine ⟨fl.getD i 0, ?_⟩
    rw [hsg] at hcol'
    simp only [List.getD_eq_getElem?_getD, List.getElem?_eq_getElem hil, Option.getD_some] at hcol' ⊢
    rw [hcol']; ring
  · rintro ⟨θ, hθ⟩ c hcy
    obtain ⟨k, hk, rfl⟩ := List.mem_iff_getElem.mp hcy
    rw [hcol, column_closure tau hfl (hcir k hk)]
    have hn : ∀ i, i < gt.links.length → ∃ n : ℤ, spaceGrad tau e ifg true i j =
        (θ (gt.links.getD i (0, 0)).2 b - θ (gt.links.getD i (0, 0)).2 a) -
        (θ (gt.links.getD i (0, 0)).1 b - θ (gt.links.getD i (0, 0)).1 a) + tau * (n : K) := by
      intro i hi
      have hi2 : gt.links[i]? = some ((gt.links.getD i (0, 0)).1, (gt.links.getD i (0, 0)).2) := by
        simp [List.getD_eq_getElem?_getD, hi]
      obtain ⟨k1, h1⟩ := hθ i _ _ hi2 a (.inl rfl)
      obtain ⟨k2, h2⟩ := hθ i _ _ hi2 b (.inr rfl)
      rw [hsg, phaseDiff_eq]
      generalize rint (((ifg.getD i []).getD b 0 - (ifg.getD i []).getD a 0) / tau) = r
      rw [h1, h2]
      refine ⟨k2 - k1 - r, ?_⟩
      push_cast; ring
    choose! n hn using hn
    have := closure_exact ht hc (x := fun i => spaceGrad tau e ifg true i j)
      (fun s => θ s b - θ s a) n (fun i hi => hn i hi) (List.getElem_mem hk)
    exact sub_eq_zero.mpr this

/-! ### C22 -/

/-- C22. `unwrap_cube` reads an input with as many rows as acquisitions as SLCs, one with
as many rows as interferograms as interferograms, and raises otherwise, also when the
time axis is not the first. -/
theorem C22_input_kind (tau : K) (solver : FlowSolver) (e : Emcf) (w : CubeInput K)
    (oT : Nat → List Nat → List Nat) (oS : List Nat → List Nat) :
    (w.ndim = 2 → w.timeDim = 0 → w.data.length = e.time.graph.npoints →
      unwrapCube tau solver e w oT oS =
        (unwrapInTime tau solver e w.data false oT >>= fun g => unwrapInSpace tau solver e g oS)) ∧
    (w.ndim = 2 → w.timeDim = 0 → w.data.length ≠ e.time.graph.npoints →
      w.data.length = e.time.graph.links.length →
      unwrapCube tau solver e w oT oS =
        (unwrapInTime tau solver e w.data true oT >>= fun g => unwrapInSpace tau solver e g oS)) ∧
    (w.ndim = 2 → w.timeDim = 0 → w.data.length ≠ e.time.graph.npoints →
      w.data.length ≠ e.time.graph.links.length →
      unwrapCube tau solver e w oT oS = .error .valueError) ∧
    (w.ndim = 2 → w.timeDim ≠ 0 → unwrapCube tau solver e w oT oS = .error .notImplementedError) ∧
    (w.ndim ≠ 2 → unwrapCube tau solver e w oT oS = .error .valueError) := by
  unfold unwrapCube cubeKind Emcf.nepochs Emcf.nifgs
  refine ⟨?_, ?_, ?_, ?_, ?_⟩
  · intro h1 h2 h3; simp [h1, h2, h3, Bind.bind, Except.bind]
  · intro h1 h2 h3 h4; rw [h4] at h3; simp [h1, h2, h3, h4, Bind.bind, Except.bind]
  · intro h1 h2 h3 h4; simp [h1, h2, h3, h4, Bind.bind, Except.bind]
  · intro h1 h2; simp [h1, h2, Bind.bind, Except.bind]
  · intro h1; simp [h1, Bind.bind, Except.bind]

/-- C22. For `Hop3Graph` the number of interferograms is never the number of
acquisitions, so the two readings never compete. -/
theorem C22_hop3_unambiguous (n : Nat) (g : PlanarGraph) (h : hop3Graph n = .ok g) :
    g.npoints = n ∧ g.links.length ≠ g.npoints := by
  by_cases hn : 4 ≤ n
  · obtain ⟨g', hg', h1, _, _, h2⟩ := (C03_hop3_links n).2 hn
    rw [h] at hg'
    simp only [Except.ok.injEq] at hg'
    subst hg'
    exact ⟨h1, by rw [h2, h1]; omega⟩
  · rw [(C03_hop3_links n).1 (by omega)] at h; simp at h

/-! ### C23 -/

theorem floodFill_length (tau : K) {indata : List K} {links : List (Nat × Nat)} {flows : List ℤ}
    {mode : String} {out : List K} (h : floodFill tau indata links flows mode = .ok out) :
    links ≠ [] ∧ out.length = maxLink links + 1 := by
  by_cases hargs : FfArgs indata links flows mode
  swap
  · rw [floodFill_bad tau hargs] at h; simp at h
  rw [floodFill_unfold tau hargs] at h
  refine ⟨hargs.ne, ?_⟩
  split at h
  · simp at h
  · split at h
    · simp at h
    · split at h
      · split at h
        · simp only [Except.ok.injEq] at h; rw [← h]; simp
        · simp only [Except.ok.injEq] at h; rw [← h]; simp
      · simp at h

theorem unwrapIfg_length (tau : K) {solver : FlowSolver} {m : Mcf} {cost : List ℤ} {g out : List K}
    (hlt : ∀ a b, (a, b) ∈ m.graph.links → a < b) (h : unwrapIfg tau solver m cost g = .ok out) :
    2 ≤ out.length := by
  unfold unwrapIfg at h
  cases h1 : computeResiduesFromGradients tau m g with
  | error e => rw [h1] at h; simp [Bind.bind, Except.bind] at h
  | ok res =>
    rw [h1] at h
    simp only [Bind.bind, Except.bind] at h
    cases h2 : residuesToFlows solver m res cost with
    | error e => rw [h2] at h; simp at h
    | ok fl =>
      rw [h2] at h
      simp only at h
      obtain ⟨hne, hl⟩ := floodFill_length tau h
      obtain ⟨⟨a, b⟩, ls, he⟩ := List.exists_cons_of_ne_nil hne
      have hab : (a, b) ∈ m.graph.links := by rw [he]; simp
      have h3 := hlt a b hab
      have h4 := le_maxLink hab
      simp only at h4
      omega

/-- C23. `unwrap_gradients_in_space` puts the result of every interferogram, computed on its
own, in its own row, whatever the order in which the futures complete; it returns
exactly when all of them do (and the pool can be created). -/
theorem C23_rows (tau : K) (solver : FlowSolver) (e : Emcf)
    (hlt : ∀ a b, (a, b) ∈ e.space.graph.links → a < b) (cost : List ℤ)
    (hcost : costOf e.settings.sCostType e.nlinks e.sDist e.sCent = .ok cost)
    (hpool : 1 ≤ e.settings.sWorkerCount ∨ 2 ≤ e.cpuCount)
    (grad : List (List K)) (order : List Nat → List Nat) (horder : ∀ l, (order l).Perm l)
    (out : List (List K)) :
    unwrapInSpace tau solver e grad order = .ok out ↔
      out.length = e.time.graph.links.length ∧ ∀ i < e.time.graph.links.length,
        unwrapIfg tau solver e.space cost (grad.getD i []) = .ok (out.getD i []) ∧
        (out.getD i []).length = e.space.graph.npoints := by
  set f : Nat → Except PyErr (List K) := fun i => do
    let v ← unwrapIfg tau solver e.space cost (grad.getD i [])
    if v.length = e.npoints then pure v else throw .valueError with hf
  have hfun : (fun (uw : List (List K)) (ii : Nat) =>
      (unwrapIfg tau solver e.space cost (grad.getD ii []) >>= fun data =>
        setRow uw e.npoints ii data)) =
      fun uw ii => (f ii >>= fun v => setRow uw e.npoints ii v) := by
    funext uw ii
    simp only [hf]
    cases hu : unwrapIfg tau solver e.space cost (grad.getD ii []) with
    | error err => rfl
    | ok v =>
      have h2 := unwrapIfg_length tau hlt hu
      simp only [Bind.bind, Except.bind]
      by_cases hv : v.length = e.npoints
      · rw [if_pos hv]; rfl
      · rw [if_neg hv]
        unfold setRow
        rw [if_neg hv]
        rcases v with _ | ⟨x, _ | ⟨y, v⟩⟩
        · rfl
        · simp at h2
        · rfl
  have hflen : ∀ i v, f i = .ok v → v.length = e.npoints := by
    intro i v h
    simp only [hf] at h
    cases hu : unwrapIfg tau solver e.space cost (grad.getD i []) with
    | error err => rw [hu] at h; simp [Bind.bind, Except.bind] at h
    | ok v' =>
      rw [hu] at h
      simp only [Bind.bind, Except.bind] at h
      split at h
      · rename_i hv
        simp only [pure, Except.pure, Except.ok.injEq] at h
        rw [← h]; exact hv
      · simp [throw, throwThe, MonadExceptOf.throw] at h
  have hfiff : ∀ i v, f i = .ok v ↔
      unwrapIfg tau solver e.space cost (grad.getD i []) = .ok v ∧ v.length = e.npoints := by
    intro i v
    constructor
    · intro h
      refine ⟨?_, hflen i v h⟩
      simp only [hf] at h
      cases hu : unwrapIfg tau solver e.space cost (grad.getD i []) with
      | error err => rw [hu] at h; simp [Bind.bind, Except.bind] at h
      | ok v' =>
        rw [hu] at h
        simp only [Bind.bind, Except.bind] at h
        split at h
        · simpa [pure, Except.pure] using h
        · simp [throw, throwThe, MonadExceptOf.throw] at h
    · rintro ⟨h1, h2⟩
      simp only [hf, h1, Bind.bind, Except.bind, h2, if_true]
      rfl
  have hp := (C17_spatial_workers_partial e.cpuCount e.settings.sWorkerCount hpool).1
  unfold unwrapInSpace
  rw [hcost]
  simp only [Bind.bind, Except.bind, hp]
  change (List.foldlM (fun (uw : List (List K)) (ii : Nat) =>
      (unwrapIfg tau solver e.space cost (grad.getD ii []) >>= fun data =>
        setRow uw e.npoints ii data)) _ _ : Except PyErr _) = _ ↔ _
  rw [hfun, foldlM_setRow (n := e.nifgs) f hflen _ _ out
    ((horder _).nodup_iff.mpr List.nodup_range)
    (fun i hi => by rw [(horder _).mem_iff] at hi; exact List.mem_range.mp hi) (by simp)]
  refine and_congr_right fun _ => forall_congr' fun i => forall_congr' fun hi => ?_
  have hmem : i ∈ order (List.range e.nifgs) := by
    rw [(horder _).mem_iff]; exact List.mem_range.mpr hi
  simp only [hmem, true_imp_iff, not_true_eq_false, false_imp_iff, and_true]
  exact hfiff i _

/-- C23. The result is the same for every completion order, in particular the same as
processing the interferograms one after the other. -/
theorem C23_order_independent (tau : K) (solver : FlowSolver) (e : Emcf)
    (hlt : ∀ a b, (a, b) ∈ e.space.graph.links → a < b)
    (grad : List (List K)) (order : List Nat → List Nat) (horder : ∀ l, (order l).Perm l)
    (out : List (List K)) :
    unwrapInSpace tau solver e grad order = .ok out ↔
      unwrapInSpace tau solver e grad id = .ok out := by
  cases hcost : costOf e.settings.sCostType e.nlinks e.sDist e.sCent with
  | error err =>
    unfold unwrapInSpace; rw [hcost]; simp [Bind.bind, Except.bind]
  | ok cost =>
    by_cases hpool : 1 ≤ e.settings.sWorkerCount ∨ 2 ≤ e.cpuCount
    · rw [C23_rows tau solver e hlt cost hcost hpool grad order horder,
        C23_rows tau solver e hlt cost hcost hpool grad id (fun l => List.Perm.refl l)]
    · have : processPool (spatialWorkers e.cpuCount e.settings.sWorkerCount) = .error .valueError := by
        unfold processPool spatialWorkers
        rw [if_pos]
        split <;> omega
      unfold unwrapInSpace
      rw [hcost]
      simp [Bind.bind, Except.bind, this]

/-! ### C21 -/

theorem gradients_congruent (tau : K) (grad : List K) (links : List (Nat × Nat)) (flows : List ℤ)
    (φ : Nat → K) (M : Nat → ℤ) (out : List K)
    (hg : ∀ i a b : Nat, links[i]? = some (a, b) → grad.getD i 0 = φ b - φ a + M i * tau)
    (h : floodFill tau grad links flows "gradients" = .ok out) :
    out.getD 0 0 = 0 ∧ ∀ p < out.length, ∃ k : ℤ, out.getD p 0 = φ p - φ 0 + k * tau := by
  by_cases hargs : FfArgs grad links flows "gradients"
  swap
  · rw [floodFill_bad tau hargs] at h; simp at h
  rw [floodFill_unfold tau hargs] at h
  have hnp : ¬ ("gradients" = "points") := by decide
  obtain ⟨s, hs, hz, hd0, hq, hl⟩ := ffRun tau grad links flows (("gradients" : String) = "points")
    (fun p x => ∃ k : ℤ, x = φ p - φ 0 + k * tau)
    ⟨0, by simp⟩ (by
      intro i a b x hi
      rw [totalGrad_eq tau grad links flows "gradients" hi]
      unfold inputGradient
      rw [if_neg hnp, hg i a b hi]
      constructor
      · rintro ⟨k, rfl⟩
        exact ⟨k + M i + flows.getD i 0, by push_cast; ring⟩
      · rintro ⟨k, rfl⟩
        exact ⟨k - M i - flows.getD i 0, by push_cast; ring⟩)
  rw [hs] at h
  simp only at h
  split at h
  · simp at h
  split at h
  swap
  · simp at h
  rename_i hall
  rw [List.all_eq_true] at hall
  simp only [hnp, if_false, Except.ok.injEq] at h
  subst h
  constructor
  · simpa [List.getD_eq_getElem?_getD] using hz
  · intro p hp
    have hp' : p < maxLink links + 1 := by simpa using hp
    rw [List.getD_eq_getElem?_getD, List.getElem?_map, List.getElem?_range hp']
    exact (hq p (hall p (List.mem_range.mpr hp'))).1

/-- Congruence of the cube for any input kind: `φ i p` is the wrapped interferogram. -/
theorem cube_congruent (tau : K) (solver : FlowSolver) (e : Emcf) {gt : PlanarGraph}
    (hc : PlanarContract gt.npoints gt.links gt.cycles) (hm : ormcf gt = .ok e.time)
    (hs : SolverSound solver) (hb : 0 < e.settings.linksPerBatch)
    (hlt : ∀ a b, (a, b) ∈ e.space.graph.links → a < b)
    (wrap : List (List K)) (isIfg : Bool) (oT : Nat → List Nat → List Nat) (oS : List Nat → List Nat)
    (hoT : ∀ k l, (oT k l).Perm l) (hoS : ∀ l, (oS l).Perm l) (grad out : List (List K))
    (h1 : unwrapInTime tau solver e wrap isIfg oT = .ok grad)
    (h2 : unwrapInSpace tau solver e grad oS = .ok out) (φ : Nat → Nat → K)
    (hφ : ∀ i < gt.links.length, ∀ j a b : Nat, e.space.graph.links[j]? = some (a, b) →
      ∃ k : ℤ, spaceGrad tau e wrap isIfg i j = φ i b - φ i a + k * tau) :
    out.length = gt.links.length ∧ ∀ i < gt.links.length,
      (out.getD i []).length = e.space.graph.npoints ∧ (out.getD i []).getD 0 0 = 0 ∧
      ∀ p < e.space.graph.npoints, ∃ k : ℤ, (out.getD i []).getD p 0 = φ i p - φ i 0 + k * tau := by
  obtain ⟨hmg, _⟩ := dual_of_contract hc hm
  obtain ⟨hlen, hrow, hent⟩ := unwrapInTime_entries tau solver e hc hm hs hb wrap isIfg oT hoT grad h1
  rw [C23_order_independent tau solver e hlt grad oS hoS] at h2
  cases hcost : costOf e.settings.sCostType e.nlinks e.sDist e.sCent with
  | error err => unfold unwrapInSpace at h2; rw [hcost] at h2; simp [Bind.bind, Except.bind] at h2
  | ok cost =>
    by_cases hpool : 1 ≤ e.settings.sWorkerCount ∨ 2 ≤ e.cpuCount
    swap
    · have : processPool (spatialWorkers e.cpuCount e.settings.sWorkerCount) = .error .valueError := by
        unfold processPool spatialWorkers
        rw [if_pos]
        split <;> omega
      unfold unwrapInSpace at h2
      rw [hcost] at h2
      simp [Bind.bind, Except.bind, this] at h2
    rw [C23_rows tau solver e hlt cost hcost hpool grad id (fun l => List.Perm.refl l), hmg] at h2
    obtain ⟨hol, hrows⟩ := h2
    refine ⟨hol, fun i hi => ?_⟩
    obtain ⟨hu, hul⟩ := hrows i hi
    refine ⟨hul, ?_⟩
    unfold unwrapIfg at hu
    cases hr : computeResiduesFromGradients tau e.space (grad.getD i []) with
    | error err => rw [hr] at hu; simp [Bind.bind, Except.bind] at hu
    | ok res =>
      rw [hr] at hu
      simp only [Bind.bind, Except.bind] at hu
      cases hfl : residuesToFlows solver e.space res cost with
      | error err => rw [hfl] at hu; simp at hu
      | ok flows =>
        rw [hfl] at hu
        simp only at hu
        have hex : ∀ j a b : Nat, e.space.graph.links[j]? = some (a, b) →
            ∃ k : ℤ, (grad.getD i []).getD j 0 = φ i b - φ i a + k * tau := by
          intro j a b hj
          obtain ⟨_, fl, hfll, hcol, _⟩ := hent j (List.getElem?_eq_some_iff.mp hj).1
          have hcol' := congrArg (fun l => l.getD i 0) hcol
          have hil : i < grad.length := by omega
          simp only [column, List.getD_eq_getElem?_getD, List.getElem?_map, List.getElem?_range hi,
            List.getElem?_eq_getElem hil, Option.map_some, Option.getD_some] at hcol'
          obtain ⟨k, hk⟩ := hφ i hi j a b hj
          simp only [List.getD_eq_getElem?_getD, List.getElem?_eq_getElem hil, Option.getD_some]
          rw [hcol', hk]
          exact ⟨k + (fl[i]?.getD 0), by push_cast; ring⟩
        have hex2 : ∀ j, ∃ k : ℤ, ∀ a b : Nat, e.space.graph.links[j]? = some (a, b) →
            (grad.getD i []).getD j 0 = φ i b - φ i a + k * tau := by
          intro j
          rcases hl : e.space.graph.links[j]? with _ | ⟨a, b⟩
          · exact ⟨0, by simp⟩
          · obtain ⟨k, hk⟩ := hex j a b hl
            refine ⟨k, ?_⟩
            intro a' b' h'
            simp only [Option.some.injEq, Prod.mk.injEq] at h'
            obtain ⟨rfl, rfl⟩ := h'
            exact hk
        choose M hM using hex2
        obtain ⟨h5, h6⟩ := gradients_congruent tau _ _ _ (φ i) M _ (fun j a b hj => hM j a b hj) hu
        exact ⟨h5, fun p hp => h6 p (by rw [hul]; exact hp)⟩

/-- C21 for SLC input. Every interferogram returned by `unwrap_cube` is zero at the first
pixel and differs from the wrapped interferogram referenced to the first pixel by whole
cycles; with the stored phase offset added it differs from the wrapped interferogram
itself by whole cycles. -/
theorem C21_slc_congruent (tau : K) (solver : FlowSolver) (e : Emcf) (gt : PlanarGraph)
    (hc : PlanarContract gt.npoints gt.links gt.cycles) (hm : ormcf gt = .ok e.time)
    (hs : SolverSound solver) (hb : 0 < e.settings.linksPerBatch)
    (hlt : ∀ a b, (a, b) ∈ e.space.graph.links → a < b)
    (w : CubeInput K) (hw : w.data.length = gt.npoints)
    (oT : Nat → List Nat → List Nat) (oS : List Nat → List Nat)
    (hoT : ∀ k l, (oT k l).Perm l) (hoS : ∀ l, (oS l).Perm l) (out : List (List K))
    (h : unwrapCube tau solver e w oT oS = .ok out) :
    out.length = gt.links.length ∧ ∀ i s t : Nat, gt.links[i]? = some (s, t) →
      (out.getD i []).length = e.space.graph.npoints ∧ (out.getD i []).getD 0 0 = 0 ∧
      ∀ p < e.space.graph.npoints,
        (∃ k : ℤ, (out.getD i []).getD p 0 =
          ifgPhase tau w.data s t p - ifgPhase tau w.data s t 0 + k * tau) ∧
        ∃ k : ℤ, (out.getD i []).getD p 0 + (phaseOffset tau gt w.data).getD i 0 =
          ifgPhase tau w.data s t p + k * tau := by
  obtain ⟨hmg, _⟩ := dual_of_contract hc hm
  have hk : cubeKind e w = .ok false := by
    unfold unwrapCube at h
    cases hk : cubeKind e w with
    | error err => rw [hk] at h; simp [Bind.bind, Except.bind] at h
    | ok b =>
      unfold cubeKind Emcf.nepochs at hk
      rw [hmg, hw] at hk
      split at hk
      · simp at hk
      · split at hk
        · simp at hk
        · simpa using hk.symm
  unfold unwrapCube at h
  rw [hk] at h
  simp only [Bind.bind, Except.bind] at h
  cases hg : unwrapInTime tau solver e w.data false oT with
  | error err => rw [hg] at h; simp at h
  | ok grad =>
    rw [hg] at h
    simp only at h
    obtain ⟨h1, h2⟩ := cube_congruent tau solver e hc hm hs hb hlt w.data false oT oS hoT hoS grad out
      hg h (fun i p => ifgPhase tau w.data (gt.links.getD i (0, 0)).1 (gt.links.getD i (0, 0)).2 p)
      (by
        intro i hi j a b hj
        have hl : e.space.graph.links.getD j (0, 0) = (a, b) := by
          rw [List.getD_eq_getElem?_getD, hj]; rfl
        refine ⟨_, (?_ : _ = _ + ((- rint ((ifgPhase tau w.data (gt.links.getD i (0, 0)).1
          (gt.links.getD i (0, 0)).2 b - ifgPhase tau w.data (gt.links.getD i (0, 0)).1
          (gt.links.getD i (0, 0)).2 a) / tau) : ℤ) : K) * tau)⟩
        unfold spaceGrad elem
        simp only [hl, hmg, Bool.false_eq_true, if_false]
        rw [phaseDiff_eq]
        unfold ifgPhase
        push_cast; ring)
    refine ⟨h1, fun i s t hi => ?_⟩
    obtain ⟨hi', he⟩ := List.getElem?_eq_some_iff.mp hi
    have hgl : gt.links.getD i (0, 0) = (s, t) := by rw [List.getD_eq_getElem?_getD, hi]; rfl
    obtain ⟨h3, h4, h5⟩ := h2 i hi'
    rw [hgl] at h5
    refine ⟨h3, h4, fun p hp => ⟨h5 p hp, ?_⟩⟩
    obtain ⟨k, hk⟩ := h5 p hp
    have hoff : (phaseOffset tau gt w.data).getD i 0 = ifgPhase tau w.data s t 0 := by
      unfold phaseOffset
      rw [List.getD_eq_getElem?_getD, List.getElem?_map, hi]
      rfl
    exact ⟨k, by rw [hk, hoff]; ring⟩

/-- C21 for interferogram input: zero at the first pixel, congruent to the interferogram
referenced to the first pixel. -/
theorem C21_ifg_congruent (tau : K) (solver : FlowSolver) (e : Emcf) (gt : PlanarGraph)
    (hc : PlanarContract gt.npoints gt.links gt.cycles) (hm : ormcf gt = .ok e.time)
    (hs : SolverSound solver) (hb : 0 < e.settings.linksPerBatch)
    (hlt : ∀ a b, (a, b) ∈ e.space.graph.links → a < b)
    (w : CubeInput K) (hw : w.data.length ≠ gt.npoints)
    (oT : Nat → List Nat → List Nat) (oS : List Nat → List Nat)
    (hoT : ∀ k l, (oT k l).Perm l) (hoS : ∀ l, (oS l).Perm l) (out : List (List K))
    (h : unwrapCube tau solver e w oT oS = .ok out) :
    out.length = gt.links.length ∧ ∀ i < gt.links.length,
      (out.getD i []).length = e.space.graph.npoints ∧ (out.getD i []).getD 0 0 = 0 ∧
      ∀ p < e.space.graph.npoints, ∃ k : ℤ, (out.getD i []).getD p 0 =
        (w.data.getD i []).getD p 0 - (w.data.getD i []).getD 0 0 + k * tau := by
  obtain ⟨hmg, _⟩ := dual_of_contract hc hm
  have hk : cubeKind e w = .ok true := by
    unfold unwrapCube at h
    cases hk : cubeKind e w with
    | error err => rw [hk] at h; simp [Bind.bind, Except.bind] at h
    | ok b =>
      unfold cubeKind Emcf.nepochs at hk
      rw [hmg] at hk
      simp only [hw, if_false] at hk
      split at hk
      · simp at hk
      · split at hk
        · simp at hk
        · split at hk
          · simpa using hk.symm
          · simp at hk
  unfold unwrapCube at h
  rw [hk] at h
  simp only [Bind.bind, Except.bind] at h
  cases hg : unwrapInTime tau solver e w.data true oT with
  | error err => rw [hg] at h; simp at h
  | ok grad =>
    rw [hg] at h
    simp only at h
    exact cube_congruent tau solver e hc hm hs hb hlt w.data true oT oS hoT hoS grad out
      hg h (fun i p => (w.data.getD i []).getD p 0)
      (by
        intro i hi j a b hj
        have hl : e.space.graph.links.getD j (0, 0) = (a, b) := by
          rw [List.getD_eq_getElem?_getD, hj]; rfl
        refine ⟨- rint (((w.data.getD i []).getD b 0 - (w.data.getD i []).getD a 0) / tau), ?_⟩
        unfold spaceGrad elem
        simp only [hl, if_true]
        rw [phaseDiff_eq]
        push_cast; ring)

/-- C21. Two tiles of the same stack (same temporal graph) that share a pixel differ there
by whole cycles in every interferogram, once the stored phase offsets are added. -/
theorem C21_tiles_differ_by_cycles (tau : K) (solver : FlowSolver) (e e' : Emcf) (gt : PlanarGraph)
    (hc : PlanarContract gt.npoints gt.links gt.cycles) (hm : ormcf gt = .ok e.time)
    (hm' : ormcf gt = .ok e'.time) (hs : SolverSound solver)
    (hb : 0 < e.settings.linksPerBatch) (hb' : 0 < e'.settings.linksPerBatch)
    (hlt : ∀ a b, (a, b) ∈ e.space.graph.links → a < b)
    (hlt' : ∀ a b, (a, b) ∈ e'.space.graph.links → a < b)
    (w w' : CubeInput K) (hw : w.data.length = gt.npoints) (hw' : w'.data.length = gt.npoints)
    (oT oT' : Nat → List Nat → List Nat) (oS oS' : List Nat → List Nat)
    (hoT : ∀ k l, (oT k l).Perm l) (hoS : ∀ l, (oS l).Perm l)
    (hoT' : ∀ k l, (oT' k l).Perm l) (hoS' : ∀ l, (oS' l).Perm l) (out out' : List (List K))
    (h : unwrapCube tau solver e w oT oS = .ok out)
    (h' : unwrapCube tau solver e' w' oT' oS' = .ok out')
    (p p' : Nat) (hp : p < e.space.graph.npoints) (hp' : p' < e'.space.graph.npoints)
    (hsame : ∀ s, (w.data.getD s []).getD p 0 = (w'.data.getD s []).getD p' 0)
    (i : Nat) (hi : i < gt.links.length) :
    ∃ k : ℤ, ((out.getD i []).getD p 0 + (phaseOffset tau gt w.data).getD i 0) -
      ((out'.getD i []).getD p' 0 + (phaseOffset tau gt w'.data).getD i 0) = k * tau := by
  have hg : gt.links[i]? = some (gt.links[i].1, gt.links[i].2) := by simp [hi]
  obtain ⟨k, hk⟩ := (((C21_slc_congruent tau solver e gt hc hm hs hb hlt w hw oT oS hoT hoS out h).2
    i _ _ hg).2.2 p hp).2
  obtain ⟨k', hk'⟩ := (((C21_slc_congruent tau solver e' gt hc hm' hs hb' hlt' w' hw' oT' oS' hoT' hoS'
    out' h').2 i _ _ hg).2.2 p' hp').2
  refine ⟨k - k', ?_⟩
  rw [hk, hk']
  unfold ifgPhase
  rw [hsame, hsame]
  push_cast; ring

end
end Spurt
