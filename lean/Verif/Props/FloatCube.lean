import Verif.Lemmas.FloatResidues
import Verif.Spec.FloatCube
import Verif.Props.CubeItoh

/-!
# Property C69: `unwrap_cube` in mixed precision

`float32` gradients, residues and results, `float64` flood fill (Model/FloatCube.lean).
-/

namespace Spurt
open Spec

section
variable {K : Type} [Field K] [LinearOrder K] [IsStrictOrderedRing K] [FloorRing K]

/-- C69. Without rounding these are the functions of the other properties. -/
theorem C69_exact (tau : K) :
    (∀ m g, computeResiduesFromGradientsFl ⟨id, id, tau, tau, 1 / 1000⟩ m g = computeResiduesFromGradients tau m g) ∧
    (∀ solver e wrap isIfg order, unwrapInTimeFl ⟨id, id, tau, tau, 1 / 1000⟩ solver e wrap isIfg order =
      unwrapInTime tau solver e wrap isIfg order) ∧
    (∀ solver e grad order, unwrapInSpaceFl ⟨id, id, tau, tau, 1 / 1000⟩ solver e grad order =
      unwrapInSpace tau solver e grad order) ∧
    (∀ solver e w oT oS, unwrapCubeFl ⟨id, id, tau, tau, 1 / 1000⟩ solver e w oT oS = unwrapCube tau solver e w oT oS) := by
  obtain ⟨h1, h2, _, _⟩ := C67_exact tau
  have a1 : ∀ m g, computeResiduesFromGradientsFl ⟨id, id, tau, tau, 1 / 1000⟩ m g = computeResiduesFromGradients tau m g := by
    intro m g; rfl
  have a2 : ∀ solver e wrap isIfg order, unwrapInTimeFl ⟨id, id, tau, tau, 1 / 1000⟩ solver e wrap isIfg order =
      unwrapInTime tau solver e wrap isIfg order := by
    intro solver e wrap isIfg order
    have hg : ∀ i j, spaceGradFl ⟨id, id, tau, tau, 1 / 1000⟩ e wrap isIfg i j = spaceGrad tau e wrap isIfg i j := by
      intro i j
      unfold spaceGradFl spaceGrad
      simp only [h1]
    have hb : ∀ cost o grad bb, timeBatchFl ⟨id, id, tau, tau, 1 / 1000⟩ solver e wrap isIfg cost o grad bb =
        timeBatch tau solver e wrap isIfg cost o grad bb := by
      intro cost o grad bb
      unfold timeBatchFl timeBatch
      simp only [hg]
      rfl
    unfold unwrapInTimeFl unwrapInTime
    simp only [hb]
  have a3 : ∀ solver e grad order, unwrapInSpaceFl ⟨id, id, tau, tau, 1 / 1000⟩ solver e grad order =
      unwrapInSpace tau solver e grad order := by
    intro solver e grad order
    have hi : ∀ m cost g, unwrapIfgFl ⟨id, id, tau, tau, 1 / 1000⟩ solver m cost g = unwrapIfg tau solver m cost g := by
      intro m cost g
      unfold unwrapIfgFl unwrapIfg
      simp only [h2, a1]
    unfold unwrapInSpaceFl unwrapInSpace
    simp only [hi, List.map_id_fun, id]
  refine ⟨a1, a2, a3, ?_⟩
  intro solver e w oT oS
  unfold unwrapCubeFl unwrapCube
  simp only [a2, a3]

variable {A : FloatArith K} {B1 η1 B2 η2 Bd ηd ε : K}

/-- C69. The accuracy of wrapping, from the accuracy `η1` of single precision on numbers up to `B1`. -/
theorem C69_wraps (hr : Rounds A.fs B1 η1) (h0 : 0 ≤ η1) (hq : η1 ≤ 1 / 4) (ht : 1 ≤ A.tauS) {a W : K} (ha0 : 0 ≤ a)
    (hB : 2 * a + 2 * A.tauS ≤ B1) (hB' : 3 * A.tauS + 2 * A.tauS * η1 + 8 * η1 ≤ B1)
    (hW : 4 * a / A.tauS + 7 ≤ W) : WrapsWithin A a (9 * η1) (A.tauS / 2 + A.tauS * η1 + 4 * η1) W := by
  have hη : 0 ≤ A.tauS * η1 := mul_nonneg (by linarith) h0
  have ht0 : 0 < A.tauS := by linarith
  have hat : 0 ≤ a / A.tauS := div_nonneg ha0 ht0.le
  have hat4 : 4 * a / A.tauS = 2 * (2 * a / A.tauS) := by ring
  constructor
  · intro x y hx hy
    obtain ⟨p1, p2, _, p4⟩ := C67_phase_diff hr ht h0 hq hB x y hx hy
    refine ⟨cyclesFl A.fs A.tauS x y, ?_, ?_, ?_⟩
    · exact p1.trans (by linarith)
    · have : 0 ≤ 2 * a / A.tauS := div_nonneg (by linarith) ht0.le
      linarith
    · have b1 := abs_bounds p1
      have b2 := abs_bounds p2
      rw [abs_le]; constructor <;> linarith
  · intro x x' y y' hx hx' hy hy'
    obtain ⟨p1, p2, _, p4⟩ := C67_phase_diff hr ht h0 hq hB x x' hx hx'
    obtain ⟨q1, q2, _, q4⟩ := C67_phase_diff hr ht h0 hq hB y y' hy hy'
    set n0 := cyclesFl A.fs A.tauS x x'
    set n1 := cyclesFl A.fs A.tauS y y'
    set g0 := phaseDiffFl A.fs A.tauS x x'
    set g1 := phaseDiffFl A.fs A.tauS y y'
    have b1 := abs_bounds p1
    have b2 := abs_bounds p2
    have b3 := abs_bounds q1
    have b4 := abs_bounds q2
    have hg0 : |g0| ≤ A.tauS / 2 + A.tauS * η1 + 4 * η1 := by rw [abs_le]; constructor <;> linarith
    have hg1 : |g1| ≤ A.tauS / 2 + A.tauS * η1 + 4 * η1 := by rw [abs_le]; constructor <;> linarith
    obtain ⟨r1, r2, _, r4⟩ := C67_phase_diff hr ht h0 hq (A := A.tauS / 2 + A.tauS * η1 + 4 * η1)
      (by linarith) g0 g1 hg0 hg1
    set n2 := cyclesFl A.fs A.tauS g0 g1
    have b5 := abs_bounds r1
    have b6 := abs_bounds r2
    refine ⟨n1 - n0 + n2, ?_, ?_, ?_⟩
    · push_cast
      rw [abs_le]; constructor <;> linarith
    · have c1 := abs_bounds p4
      have c2 := abs_bounds q4
      have c3 := abs_bounds r4
      have hsec : 2 * (A.tauS / 2 + A.tauS * η1 + 4 * η1) / A.tauS ≤ 1 + 10 * η1 := by
        rw [div_le_iff₀ ht0]
        nlinarith
      push_cast
      rw [abs_le]; constructor <;> linarith
    · rw [abs_le]; constructor <;> linarith

/-- Adding cycles to a stored gradient. -/
theorem addCyclesFl_near (P : Precision A B1 η1 B2 η2 Bd ηd ε) {g g0 : K} {f : ℤ} {F : ℤ} (hg : |g| ≤ g0) (hf : |f| ≤ F)
    (h1 : g0 + A.tau * (F : K) + 2 * ηd ≤ B1) (h2 : g0 + A.tau * (F : K) + 2 * ηd ≤ Bd) :
    |addCyclesFl A g f - (g + A.tau * (f : K))| ≤ η1 + 2 * ηd ∧ |addCyclesFl A g f| ≤ g0 + A.tau * (F : K) + 2 * ηd + η1 := by
  obtain ⟨_, _, hd0⟩ := P.nonneg
  have ht0 : 0 < A.tau := by linarith [P.one_le.2]
  have hfK : |(f : K)| ≤ (F : K) := by exact_mod_cast hf
  have hg0 : 0 ≤ g0 := (abs_nonneg _).trans hg
  have htf : |A.tau * (f : K)| ≤ A.tau * (F : K) := by
    rw [abs_mul, abs_of_pos ht0]; exact mul_le_mul_of_nonneg_left hfK ht0.le
  have b1 := abs_bounds hg
  have b2 := abs_bounds htf
  have b3 := abs_bounds (P.double.close _ (htf.trans (by linarith)))
  unfold addCyclesFl
  set T := A.fd (A.tau * (f : K))
  have h3 : |g + T| ≤ Bd := by rw [abs_le]; constructor <;> linarith
  have b4 := abs_bounds (P.double.close _ h3)
  set S := A.fd (g + T)
  have h4 : |S| ≤ B1 := by rw [abs_le]; constructor <;> linarith
  have b5 := abs_bounds (P.single.close _ h4)
  constructor <;> rw [abs_le] <;> constructor <;> linarith

theorem elem_le {data : List (List K)} {a : K} (ha0 : 0 ≤ a) (ha : ∀ row ∈ data, ∀ x ∈ row, |x| ≤ a) (t p : Nat) :
    |elem data t p| ≤ a := by
  unfold elem
  by_cases ht : t < data.length
  · have hrow := ha _ (List.getElem_mem ht)
    rw [List.getD_eq_getElem?_getD (l := data), List.getElem?_eq_getElem ht, Option.getD_some]
    by_cases hp : p < (data[t]).length
    · rw [List.getD_eq_getElem?_getD, List.getElem?_eq_getElem hp]
      exact hrow _ (List.getElem_mem hp)
    · rw [List.getD_eq_getElem?_getD, List.getElem?_eq_none (by omega)]
      simpa using ha0
  · rw [List.getD_eq_getElem?_getD (l := data), List.getElem?_eq_none (by omega)]
    simpa using ha0

/-- The wrapped gradients: `n i j` cycles were removed. -/
def Wrapped (A : FloatArith K) (e : Emcf) (data : List (List K)) (isIfg : Bool) (δ0 V W : K) (n : Nat → Nat → ℤ) : Prop :=
  ∀ i j, |spaceGradFl A e data isIfg i j -
      (phaseOfIfg e.time.graph.links data isIfg i (e.space.graph.links.getD j (0, 0)).2 -
        phaseOfIfg e.time.graph.links data isIfg i (e.space.graph.links.getD j (0, 0)).1 - (n i j : K) * A.tauS)| ≤ δ0 ∧
    |(n i j : K)| ≤ W ∧ |spaceGradFl A e data isIfg i j| ≤ V

theorem exists_wrapped {a δ0 V W : K} (hw : WrapsWithin A a δ0 V W) (e : Emcf) {data : List (List K)} (ha0 : 0 ≤ a)
    (ha : ∀ row ∈ data, ∀ x ∈ row, |x| ≤ a) (isIfg : Bool) :
    ∃ n, Wrapped A e data isIfg δ0 V W n := by
  have hel := elem_le ha0 ha
  have h : ∀ i j, ∃ n : ℤ, |spaceGradFl A e data isIfg i j -
      (phaseOfIfg e.time.graph.links data isIfg i (e.space.graph.links.getD j (0, 0)).2 -
        phaseOfIfg e.time.graph.links data isIfg i (e.space.graph.links.getD j (0, 0)).1 - (n : K) * A.tauS)| ≤ δ0 ∧
    |(n : K)| ≤ W ∧ |spaceGradFl A e data isIfg i j| ≤ V := by
    intro i j
    unfold spaceGradFl phaseOfIfg
    cases isIfg with
    | true =>
      simp only [if_true]
      exact hw.ifg _ _ (hel _ _) (hel _ _)
    | false =>
      simp only [Bool.false_eq_true, if_false]
      obtain ⟨n, n1, n2, n3⟩ := hw.slc _ _ _ _ (hel (e.time.graph.links.getD i (0, 0)).1 (e.space.graph.links.getD j (0, 0)).1)
        (hel (e.time.graph.links.getD i (0, 0)).2 (e.space.graph.links.getD j (0, 0)).1)
        (hel (e.time.graph.links.getD i (0, 0)).1 (e.space.graph.links.getD j (0, 0)).2)
        (hel (e.time.graph.links.getD i (0, 0)).2 (e.space.graph.links.getD j (0, 0)).2)
      exact ⟨n, n1, n2, n3⟩
  choose n hn using h
  exact ⟨n, hn⟩

/-- One row of unwrapped gradients, given the flows in time. -/
theorem gradient_row (P : Precision A B1 η1 B2 η2 Bd ηd ε) {e : Emcf} {data : List (List K)} {isIfg : Bool} {δ0 V W G δ : K}
    {n : Nat → Nat → ℤ} (hn : Wrapped A e data isIfg δ0 V W n) {Ft : ℤ} (i j : Nat) (f : ℤ) (hf : |f| ≤ Ft)
    (hG : V + η1 + A.tau * (Ft : K) + 2 * ηd ≤ G) (hG1 : G ≤ B1) (hGd : G ≤ Bd)
    (hδ : δ0 + η1 + 2 * ηd + W * ε ≤ δ) :
    |addCyclesFl A (spaceGradFl A e data isIfg i j) f -
      (phaseOfIfg e.time.graph.links data isIfg i (e.space.graph.links.getD j (0, 0)).2 -
        phaseOfIfg e.time.graph.links data isIfg i (e.space.graph.links.getD j (0, 0)).1 + ((f - n i j : ℤ) : K) * A.tau)| ≤ δ ∧
    |addCyclesFl A (spaceGradFl A e data isIfg i j) f| ≤ G := by
  obtain ⟨h1, h2, h3⟩ := hn i j
  obtain ⟨h0, _, _⟩ := P.nonneg
  obtain ⟨g1, g2⟩ := addCyclesFl_near P h3 hf (by linarith) (by linarith)
  refine ⟨?_, by linarith⟩
  have hW0 : 0 ≤ W := (abs_nonneg _).trans h2
  have hmis : |(n i j : K) * (A.tau - A.tauS)| ≤ W * ε := by
    rw [abs_mul]
    exact mul_le_mul h2 P.close (abs_nonneg _) hW0
  have b1 := abs_bounds h1
  have b2 := abs_bounds g1
  have b3 := abs_bounds hmis
  push_cast
  rw [abs_le]; constructor <;> linarith

/-- The guarantee with the cycles in sight. -/
theorem cube_guarantee (P : Precision A B1 η1 B2 η2 Bd ηd ε) {solver : FlowSolver} {e : Emcf} {gt gs : PlanarGraph}
    (hct : PlanarContract gt.npoints gt.links gt.cycles) (hcs : PlanarContract gs.npoints gs.links gs.cycles)
    (hmt : ormcf gt = .ok e.time) (hms : ormcf gs = .ok e.space) (hb : 0 < e.settings.linksPerBatch)
    {tcost scost : List ℤ} (htcost : costOf e.settings.tCostType e.nifgs e.tDist e.tCent = .ok tcost)
    (hscost : costOf e.settings.sCostType e.nlinks e.sDist e.sCent = .ok scost)
    (hpool : 1 ≤ e.settings.sWorkerCount ∨ 2 ≤ e.cpuCount)
    {data : List (List K)} {isIfg : Bool} {oT : Nat → List Nat → List Nat} {oS : List Nat → List Nat}
    (hoT : ∀ k l, (oT k l).Perm l) (hoS : ∀ l, (oS l).Perm l)
    {δ0 V W G δ : K} {n : Nat → Nat → ℤ} (hn : Wrapped A e data isIfg δ0 V W n) {Ft Fs : ℤ} {H : Nat}
    (hFt0 : 0 ≤ Ft)
    (hFt : ∀ j < gs.links.length, ∀ fl, residuesToFlows solver e.time
      (linkResiduesFl A e.time fun i => spaceGradFl A e data isIfg i j) tcost none = .ok fl → ∀ f ∈ fl, |f| ≤ Ft)
    (hFs : ∀ grad, unwrapInTimeFl A solver e data isIfg oT = .ok grad → ∀ i < gt.links.length, ∀ res fl,
      computeResiduesFromGradientsFl A e.space (grad.getD i []) = .ok res →
      residuesToFlows solver e.space res scost = .ok fl → ∀ f ∈ fl, |f| ≤ Fs)
    (hwalk : ∀ p < gs.npoints, ∃ L ≤ H, WalkTo gs.links L p)
    (hG : V + η1 + A.tau * (Ft : K) + 2 * ηd ≤ G) (hG1 : G ≤ B1)
    (hδ : δ0 + η1 + 2 * ηd + W * ε ≤ δ)
    (hBd : 2 * ((H : K) + 1) * (G + A.tau * (Fs : K) + 3 * ηd) ≤ Bd) (hB2 : (H : K) * (G + A.tau * (Fs : K) + 3 * ηd) ≤ B2)
    (htol : 0 ≤ A.tol) (hsmall : A.tol + 2 * ((H : K) + 1) * (δ + 3 * ηd) < A.tau)
    (grad out : List (List K)) (hgrad : unwrapInTimeFl A solver e data isIfg oT = .ok grad)
    (hout : unwrapInSpaceFl A solver e grad oS = .ok out) :
    out.length = gt.links.length ∧ ∀ i < gt.links.length, (out.getD i []).length = gs.npoints ∧
      ∃ (res : List ℤ) (flS : List ℤ) (k : Nat → ℤ), computeResiduesFromGradientsFl A e.space (grad.getD i []) = .ok res ∧
        residuesToFlows solver e.space res scost = .ok flS ∧ k 0 = 0 ∧
        (∀ (j a b : Nat), gs.links[j]? = some (a, b) → k b - k a = (okVal (linkTimeFl A solver e data isIfg tcost j)).getD i 0 - n i j + flS.getD j 0) ∧
        ∀ L p, WalkTo gs.links L p → L ≤ H → p < gs.npoints →
          |elem out i p - (phaseOfIfg gt.links data isIfg i p - phaseOfIfg gt.links data isIfg i 0 + (k p : K) * A.tau)| ≤
            (L : K) * (δ + 3 * ηd) + η2 := by
  obtain ⟨hmgt, hmdt⟩ := dual_of_contract hct hmt
  obtain ⟨hmgs, hmds⟩ := dual_of_contract hcs hms
  have hnif : e.nifgs = gt.links.length := by unfold Emcf.nifgs; rw [hmgt]
  have hnl : e.nlinks = gs.links.length := by unfold Emcf.nlinks; rw [hmgs]
  have hordt : ∀ a b, (a, b) ∈ gt.links → a ≤ b := fun a b hab => (hct.ordered a b hab).1.le
  have hlts : ∀ a b, (a, b) ∈ e.space.graph.links → a < b := by
    rw [hmgs]; exact fun a b hab => (hcs.ordered a b hab).1
  obtain ⟨h01, h02, h0d⟩ := P.nonneg
  have ht1 := P.one_le.1
  have ht2 := P.one_le.2
  have hFtK : (0 : K) ≤ (Ft : K) := by exact_mod_cast hFt0
  have hηt : 0 ≤ A.tauS * η1 := mul_nonneg (by linarith) h01
  have htFt : 0 ≤ A.tau * (Ft : K) := mul_nonneg (by linarith) hFtK
  have hV0 : 0 ≤ V := (abs_nonneg _).trans (hn 0 0).2.2
  have hG0 : 0 ≤ G := by linarith
  obtain ⟨t1, t2⟩ := (inTimeFl_iff A solver e hct.distinct hordt hmt hmgt data isIfg tcost htcost oT hoT hb grad).mp hgrad
  obtain ⟨r1, r2⟩ := (rowsFl A solver e hlts scost hscost hpool grad oS hoS out).mp hout
  rw [hmgt] at r1 r2
  refine ⟨r1, fun i hi => ?_⟩
  obtain ⟨r3, r4⟩ := r2 i hi
  rw [hmgs] at r4
  refine ⟨r4, ?_⟩
  obtain ⟨v, hv, hvo⟩ := rowFl_ok.mp r3
  have hrow : grad.getD i [] = (List.range gs.links.length).map fun j =>
      addCyclesFl A (spaceGradFl A e data isIfg i j) ((okVal (linkTimeFl A solver e data isIfg tcost j)).getD i 0) := by
    rw [t2, List.getD_eq_getElem?_getD, List.getElem?_map, List.getElem?_range (by rw [hnif]; exact hi), hnl]
    rfl
  have hgrad' := hgrad
  set g := grad.getD i [] with hg
  unfold unwrapIfgFl at hv
  cases hres : computeResiduesFromGradientsFl A e.space g with
  | error err => rw [hres] at hv; simp [Bind.bind, Except.bind] at hv
  | ok res =>
    rw [hres] at hv
    simp only [Bind.bind, Except.bind] at hv
    cases hfl : residuesToFlows solver e.space res scost with
    | error err => rw [hfl] at hv; simp at hv
    | ok fl =>
      rw [hfl] at hv
      simp only [hmgs] at hv
      have hfF := hFs grad hgrad i hi res fl hres hfl
      have hargs : FfArgs g gs.links fl "gradients" := by
        by_contra hnn
        rw [floodFillFl_bad _ _ _ hnn] at hv
        simp at hv
      have hlp := List.length_pos_of_ne_nil hargs.ne
      have hFs0 : 0 ≤ Fs := (abs_nonneg _).trans (hfF _ (List.getElem_mem (n := 0) (by rw [← hargs.len]; exact hlp)))
      have hFsK : (0 : K) ≤ (Fs : K) := by exact_mod_cast hFs0
      have htF : 0 ≤ A.tau * (Fs : K) := mul_nonneg (by linarith) hFsK
      have hH0 : 0 ≤ (H : K) * (G + A.tau * (Fs : K) + 3 * ηd) := mul_nonneg (Nat.cast_nonneg _) (by linarith)
      have hGd : G ≤ Bd := by linarith
      have hflT : ∀ j < gs.links.length, |(okVal (linkTimeFl A solver e data isIfg tcost j)).getD i 0| ≤ Ft := by
        intro j hj
        have hok := (t1 j (by rw [hnl]; exact hj)).2
        have hbd := hFt j hj _ hok
        by_cases hil : i < (okVal (linkTimeFl A solver e data isIfg tcost j)).length
        · rw [List.getD_eq_getElem?_getD, List.getElem?_eq_getElem hil]
          exact hbd _ (List.getElem_mem hil)
        · rw [List.getD_eq_getElem?_getD, List.getElem?_eq_none (by omega)]
          simpa using hFt0
      have hentry : ∀ j < gs.links.length, g.getD j 0 = addCyclesFl A (spaceGradFl A e data isIfg i j)
          ((okVal (linkTimeFl A solver e data isIfg tcost j)).getD i 0) := by
        intro j hj
        rw [hrow, List.getD_eq_getElem?_getD, List.getElem?_map, List.getElem?_range hj]
        rfl
      have hsz : ∀ x ∈ g, |x| ≤ G := by
        intro x hx
        rw [hrow] at hx
        obtain ⟨j, hj, rfl⟩ := List.mem_map.mp hx
        exact (gradient_row P hn i j _ (hflT j (List.mem_range.mp hj)) hG hG1 hGd hδ).2
      have hnear : ∀ (j a b : Nat), gs.links[j]? = some (a, b) → |g.getD j 0 -
          (phaseOfIfg gt.links data isIfg i b - phaseOfIfg gt.links data isIfg i a +
            (((okVal (linkTimeFl A solver e data isIfg tcost j)).getD i 0 - n i j : ℤ) : K) * A.tau)| ≤ δ := by
        intro j a b hj
        obtain ⟨hj', _⟩ := List.getElem?_eq_some_iff.mp hj
        rw [hentry j hj']
        have := (gradient_row P hn i j _ (hflT j hj') hG hG1 hGd hδ).1
        rw [hmgt, hmgs, List.getD_eq_getElem?_getD (l := gs.links), hj, Option.getD_some] at this
        exact this
      have hsize : gs.npoints = maxLink gs.links + 1 := by
        apply le_antisymm
        · by_contra hcc
          rw [not_le] at hcc
          obtain ⟨L, _, hL⟩ := hwalk (maxLink gs.links + 1) hcc
          cases hL with
          | step _ hadj =>
            rcases hadj with h | h
            · have := le_maxLink h; simp only at this; omega
            · have := le_maxLink h; simp only at this; omega
        · obtain ⟨l, hl, he⟩ := maxLink_mem hargs.ne
          have h1 := hcs.ordered l.1 l.2 hl
          rcases he with he | he <;> omega
      have hδ0 : 0 ≤ δ := (abs_nonneg _).trans (hnear 0 gs.links[0].1 gs.links[0].2 (by rw [List.getElem?_eq_getElem hlp]))
      have D := gradients_near P.double (by linarith) h0d hδ0 hG0 hsz hfF hFs0 hBd
        (fun p => phaseOfIfg gt.links data isIfg i p)
        (fun j => (okVal (linkTimeFl A solver e data isIfg tcost j)).getD i 0 - n i j) hnear
        (by rw [← hsize]; exact hwalk)
      obtain ⟨l1, u, k, k1, k2, k3⟩ := (floodFillFl_near hargs D (by linarith) htol).1 v hv (by linarith)
      refine ⟨res, fl, k, rfl, hfl, k1, k2, ?_⟩
      intro L p hL hLH hp
      obtain ⟨c1, c2, c3⟩ := k3 L p hL hLH (by omega)
      rw [if_neg (by decide)] at c3
      have hout' : elem out i p = A.fs (u p) := by
        unfold elem
        rw [hvo, ← c3]
        have hpl : p < v.length := by rw [l1]; omega
        simp [List.getD_eq_getElem?_getD, hpl]
      have hLH' : (L : K) ≤ (H : K) := by exact_mod_cast hLH
      have hub : |u p| ≤ B2 := by
        refine c2.trans (le_trans ?_ hB2)
        have : A.tau * (Fs : K) + G + 2 * ηd + ηd = G + A.tau * (Fs : K) + 3 * ηd := by ring
        refine (mul_le_mul_of_nonneg_right hLH' (by linarith)).trans (le_of_eq (by ring))
      have b1 := abs_bounds (P.wide.close _ hub)
      have b2 := abs_bounds c1
      rw [hout', abs_le]
      constructor <;> linarith

end

end Spurt
