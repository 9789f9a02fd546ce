import Verif.Lemmas.FloatLabels
import Verif.Props.FloatCube

/-!
# Property C69: guarantee, return and recovery of `unwrap_cube` in mixed precision
-/

namespace Spurt
open Spec

section
variable {K : Type} [Field K] [LinearOrder K] [IsStrictOrderedRing K] [FloorRing K]
variable {A : FloatArith K} {B1 η1 B2 η2 Bd ηd ε : K}

theorem unwrapCubeFl_ok {solver : FlowSolver} {e : Emcf} {w : CubeInput K} {oT : Nat → List Nat → List Nat} {oS : List Nat → List Nat}
    {out : List (List K)} : unwrapCubeFl A solver e w oT oS = .ok out ↔
    ∃ isIfg grad, cubeKind e w = .ok isIfg ∧ unwrapInTimeFl A solver e w.data isIfg oT = .ok grad ∧
      unwrapInSpaceFl A solver e grad oS = .ok out := by
  unfold unwrapCubeFl
  cases h1 : cubeKind e w with
  | error x => simp [Bind.bind, Except.bind]
  | ok b =>
    cases h2 : unwrapInTimeFl A solver e w.data b oT with
    | error x => simp [Bind.bind, Except.bind, h2]
    | ok g => simp [Bind.bind, Except.bind, h2]

/-- The gradients of interferogram `i` after the flows in time. -/
def gradRow (A : FloatArith K) (solver : FlowSolver) (e : Emcf) (data : List (List K)) (isIfg : Bool) (tcost : List ℤ)
    (nl i : Nat) : List K :=
  (List.range nl).map fun j =>
    addCyclesFl A (spaceGradFl A e data isIfg i j) ((okVal (linkTimeFl A solver e data isIfg tcost j)).getD i 0)

/-- Return, given the flows in time and space and labels. -/
theorem cube_returns_core (P : Precision A B1 η1 B2 η2 Bd ηd ε) {solver : FlowSolver} {e : Emcf} {gt gs : PlanarGraph}
    (hct : PlanarContract gt.npoints gt.links gt.cycles) (hcs : PlanarContract gs.npoints gs.links gs.cycles)
    (hne : gs.links ≠ [])
    (hmt : ormcf gt = .ok e.time) (hms : ormcf gs = .ok e.space) (hb : 0 < e.settings.linksPerBatch)
    {tcost scost : List ℤ} (htcost : costOf e.settings.tCostType e.nifgs e.tDist e.tCent = .ok tcost)
    (hscost : costOf e.settings.sCostType e.nlinks e.sDist e.sCent = .ok scost)
    (hpool : 1 ≤ e.settings.sWorkerCount ∨ 2 ≤ e.cpuCount)
    {data : List (List K)} {isIfg : Bool} {oT : Nat → List Nat → List Nat} {oS : List Nat → List Nat}
    (hoT : ∀ k l, (oT k l).Perm l) (hoS : ∀ l, (oS l).Perm l)
    {δ0 V W G δ : K} {n : Nat → Nat → ℤ} (hn : Wrapped A e data isIfg δ0 V W n) {Ft Fs : ℤ} {H : Nat}
    (R : CubeRoom A B1 η1 B2 Bd ηd ε δ0 V W G δ Ft Fs H)
    (hwalk : ∀ p < gs.npoints, ∃ L ≤ H, WalkTo gs.links L p)
    (htol : 2 * ((H : K) + 1) * (δ + 3 * ηd) ≤ A.tol)
    (hin : ∀ j < gs.links.length, LinkInput e data isIfg j)
    (htime : ∀ j < gs.links.length, ∃ fl, linkTimeFl A solver e data isIfg tcost j = .ok fl ∧ ∀ f ∈ fl, |f| ≤ Ft)
    (hspace : ∀ i < gt.links.length, ∃ res fl, ∃ κ : Nat → ℤ,
      computeResiduesFromGradientsFl A e.space (gradRow A solver e data isIfg tcost gs.links.length i) = .ok res ∧
      residuesToFlows solver e.space res scost = .ok fl ∧ fl.length = gs.links.length ∧ (∀ f ∈ fl, |f| ≤ Fs) ∧
      ∀ (j a b : Nat), gs.links[j]? = some (a, b) →
        κ b - κ a = (okVal (linkTimeFl A solver e data isIfg tcost j)).getD i 0 - n i j + fl.getD j 0) :
    ∃ grad out, unwrapInTimeFl A solver e data isIfg oT = .ok grad ∧ unwrapInSpaceFl A solver e grad oS = .ok out := by
  obtain ⟨hmgt, hmdt⟩ := dual_of_contract hct hmt
  obtain ⟨hmgs, hmds⟩ := dual_of_contract hcs hms
  have hnif : e.nifgs = gt.links.length := by unfold Emcf.nifgs; rw [hmgt]
  have hnl : e.nlinks = gs.links.length := by unfold Emcf.nlinks; rw [hmgs]
  have hordt : ∀ a b, (a, b) ∈ gt.links → a ≤ b := fun a b hab => (hct.ordered a b hab).1.le
  have hlts : ∀ a b, (a, b) ∈ e.space.graph.links → a < b := by
    rw [hmgs]; exact fun a b hab => (hcs.ordered a b hab).1
  obtain ⟨h01, h02, h0d⟩ := P.nonneg
  have ht2 := P.one_le.2
  have hgrad := (inTimeFl_iff A solver e hct.distinct hordt hmt hmgt data isIfg tcost htcost oT hoT hb
    ((List.range e.nifgs).map fun i => gradRow A solver e data isIfg tcost e.nlinks i)).mpr ⟨fun j hj => by
      rw [hnl] at hj
      obtain ⟨fl, hfl, _⟩ := htime j hj
      exact ⟨hin j hj, by rw [okVal_eq hfl]; exact hfl⟩, rfl⟩
  have hrow : ∀ i < gt.links.length, ((List.range e.nifgs).map fun i => gradRow A solver e data isIfg tcost e.nlinks i).getD i [] =
      gradRow A solver e data isIfg tcost gs.links.length i := by
    intro i hi
    rw [List.getD_eq_getElem?_getD, List.getElem?_map, List.getElem?_range (by rw [hnif]; exact hi), hnl]
    rfl
  have hFtK : (0 : K) ≤ (Ft : K) := by exact_mod_cast R.flows.1
  have hFsK : (0 : K) ≤ (Fs : K) := by exact_mod_cast R.flows.2
  have htF : 0 ≤ A.tau * (Fs : K) := mul_nonneg (by linarith) hFsK
  have htFt : 0 ≤ A.tau * (Ft : K) := mul_nonneg (by linarith) hFtK
  have hηt : 0 ≤ A.tauS * η1 := mul_nonneg (by linarith [P.one_le.1]) h01
  have hV0 : 0 ≤ V := (abs_nonneg _).trans (hn 0 0).2.2
  have hG0 : 0 ≤ G := by linarith [R.gradient.1, P.one_le.1]
  have hGd : G ≤ Bd := by
    have := R.sums
    have hH0 : 0 ≤ (H : K) * (G + A.tau * (Fs : K) + 3 * ηd) := mul_nonneg (Nat.cast_nonneg _) (by linarith)
    linarith
  have hrows : ∀ i < gt.links.length, ∃ v, rowFl A solver e.space scost (gradRow A solver e data isIfg tcost gs.links.length i) =
      .ok v ∧ v.length = gs.npoints := by
    intro i hi
    obtain ⟨res, fl, κ, hres, hfl, hfll, hflb, hκ⟩ := hspace i hi
    set g := gradRow A solver e data isIfg tcost gs.links.length i with hg
    have hflT : ∀ j < gs.links.length, |(okVal (linkTimeFl A solver e data isIfg tcost j)).getD i 0| ≤ Ft := by
      intro j hj
      obtain ⟨f, hf, hbd⟩ := htime j hj
      rw [okVal_eq hf]
      by_cases hil : i < f.length
      · rw [List.getD_eq_getElem?_getD, List.getElem?_eq_getElem hil]
        exact hbd _ (List.getElem_mem hil)
      · rw [List.getD_eq_getElem?_getD, List.getElem?_eq_none (by omega)]
        simpa using R.flows.1
    have hsz : ∀ x ∈ g, |x| ≤ G := by
      intro x hx
      rw [hg, gradRow] at hx
      obtain ⟨j, hj, rfl⟩ := List.mem_map.mp hx
      exact (gradient_row P hn i j _ (hflT j (List.mem_range.mp hj)) R.gradient.1 R.gradient.2 hGd R.error).2
    have hnear : ∀ (j a b : Nat), gs.links[j]? = some (a, b) → |g.getD j 0 -
        (phaseOfIfg gt.links data isIfg i b - phaseOfIfg gt.links data isIfg i a +
          (((okVal (linkTimeFl A solver e data isIfg tcost j)).getD i 0 - n i j : ℤ) : K) * A.tau)| ≤ δ := by
      intro j a b hj
      obtain ⟨hj', _⟩ := List.getElem?_eq_some_iff.mp hj
      rw [hg, gradRow, List.getD_eq_getElem?_getD, List.getElem?_map, List.getElem?_range hj', Option.map_some, Option.getD_some]
      have := (gradient_row P hn i j _ (hflT j hj') R.gradient.1 R.gradient.2 hGd R.error).1
      rw [hmgt, hmgs, List.getD_eq_getElem?_getD (l := gs.links), hj, Option.getD_some] at this
      exact this
    have hlink : ∀ a b, (a, b) ∈ gs.links → a < gs.npoints ∧ b < gs.npoints := by
      intro a b hab; have := hcs.ordered a b hab; omega
    obtain ⟨v, hv⟩ := C67_gradients_returns P.double (by linarith) h0d g gs.links fl hne hfll (by rw [hg, gradRow]; simp) hsz hflb
      R.sums htol (fun p => phaseOfIfg gt.links data isIfg i p) _ hnear gs.npoints hlink hwalk κ hκ
    have hvl := (C67_gradients_guarantee P.double (by linarith) h0d g gs.links fl hsz hflb R.sums R.tol.1 R.tol.2
      (fun p => phaseOfIfg gt.links data isIfg i p) _ hnear gs.npoints hlink hwalk v hv).1
    refine ⟨v.map A.fs, rowFl_ok.mpr ⟨v, ?_, rfl⟩, by simpa using hvl⟩
    unfold unwrapIfgFl
    rw [hres]
    simp only [Bind.bind, Except.bind]
    rw [hfl]
    simp only [hmgs]
    exact hv
  choose! v hv hvl using hrows
  refine ⟨_, (List.range gt.links.length).map v, hgrad, ?_⟩
  rw [rowsFl A solver e hlts scost hscost hpool _ oS hoS, hmgt, hmgs]
  refine ⟨by simp, fun i hi => ?_⟩
  have : ((List.range gt.links.length).map v).getD i [] = v i := by
    rw [List.getD_eq_getElem?_getD, List.getElem?_map, List.getElem?_range hi]; rfl
  rw [this, hrow i hi]
  exact ⟨hv i hi, hvl i hi⟩

/-- C69. Whenever `unwrap_cube` returns on data up to `a`, every interferogram has one value per point, and
that value is the phase of the interferogram relative to the first point plus whole cycles, up to `L (δ + 3 ηd) + η2`
at `L` links from the first point. -/
theorem C69_guarantee (P : Precision A B1 η1 B2 η2 Bd ηd ε) (solver : FlowSolver) (e : Emcf) (gt gs : PlanarGraph)
    (hct : PlanarContract gt.npoints gt.links gt.cycles) (hcs : PlanarContract gs.npoints gs.links gs.cycles)
    (hmt : ormcf gt = .ok e.time) (hms : ormcf gs = .ok e.space) (hb : 0 < e.settings.linksPerBatch)
    (hpool : 1 ≤ e.settings.sWorkerCount ∨ 2 ≤ e.cpuCount)
    (w : CubeInput K) (a δ0 V W G δ : K) (hwr : WrapsWithin A a δ0 V W) (ha0 : 0 ≤ a) (ha : ∀ row ∈ w.data, ∀ x ∈ row, |x| ≤ a)
    (oT : Nat → List Nat → List Nat) (oS : List Nat → List Nat)
    (hoT : ∀ k l, (oT k l).Perm l) (hoS : ∀ l, (oS l).Perm l) (Ft Fs : ℤ) (H : Nat)
    (R : CubeRoom A B1 η1 B2 Bd ηd ε δ0 V W G δ Ft Fs H)
    (hF : ∀ isIfg, cubeKind e w = .ok isIfg → FlowsWithin A solver e w.data isIfg oT Ft Fs)
    (hwalk : ∀ p < gs.npoints, ∃ L ≤ H, WalkTo gs.links L p)
    (out : List (List K)) (hout : unwrapCubeFl A solver e w oT oS = .ok out) :
    out.length = gt.links.length ∧ ∀ i < gt.links.length, (out.getD i []).length = gs.npoints ∧
      ∃ k : Nat → ℤ, k 0 = 0 ∧ ∀ L p, WalkTo gs.links L p → L ≤ H → p < gs.npoints →
        |elem out i p - (phaseOfIfg gt.links w.data (decide (w.data.length ≠ gt.npoints)) i p -
            phaseOfIfg gt.links w.data (decide (w.data.length ≠ gt.npoints)) i 0 + (k p : K) * A.tau)| ≤
          (L : K) * (δ + 3 * ηd) + η2 := by
  obtain ⟨hmgt, hmdt⟩ := dual_of_contract hct hmt
  obtain ⟨hmgs, hmds⟩ := dual_of_contract hcs hms
  obtain ⟨isIfg, grad, h1, h2, h3⟩ := unwrapCubeFl_ok.mp hout
  have hkind : isIfg = decide (w.data.length ≠ gt.npoints) := by
    unfold cubeKind Emcf.nepochs at h1
    rw [hmgt] at h1
    split at h1
    · simp at h1
    · split at h1
      · simp at h1
      · split at h1
        · rename_i h; simp at h1; simp [← h1, h]
        · rename_i h
          split at h1
          · simp at h1; simp [← h1, h]
          · simp at h1
  obtain ⟨F1, F2⟩ := hF isIfg h1
  obtain ⟨tcost, htc⟩ : ∃ tcost, costOf e.settings.tCostType e.nifgs e.tDist e.tCent = .ok tcost := by
    unfold unwrapInTimeFl at h2
    cases h : costOf e.settings.tCostType e.nifgs e.tDist e.tCent with
    | error x => rw [h] at h2; simp [Bind.bind, Except.bind] at h2
    | ok c => exact ⟨c, rfl⟩
  obtain ⟨scost, hsc⟩ : ∃ scost, costOf e.settings.sCostType e.nlinks e.sDist e.sCent = .ok scost := by
    unfold unwrapInSpaceFl at h3
    cases h : costOf e.settings.sCostType e.nlinks e.sDist e.sCent with
    | error x => rw [h] at h3; simp [Bind.bind, Except.bind] at h3
    | ok c => exact ⟨c, rfl⟩
  rw [← hkind]
  obtain ⟨n, hn⟩ := exists_wrapped hwr e ha0 ha isIfg
  obtain ⟨g1, g2⟩ := cube_guarantee P hct hcs hmt hms hb htc hsc hpool hoT hoS hn R.flows.1
    (by have := F1 tcost htc; rw [hmgs] at this; exact this)
    (by have := F2 scost hsc; rw [hmgt] at this; exact this) hwalk R.gradient.1 R.gradient.2 R.error R.sums R.result R.tol.1 R.tol.2
    grad out h2 h3
  refine ⟨g1, fun i hi => ?_⟩
  obtain ⟨g3, _, _, k, _, _, k1, _, k2⟩ := g2 i hi
  exact ⟨g3, k, k1, k2⟩

/-- The gradients after the flows in time, next to differences plus whole cycles of `float32` length. -/
theorem gradRow_near (P : Precision A B1 η1 B2 η2 Bd ηd ε) {solver : FlowSolver} {e : Emcf} {gt gs : PlanarGraph}
    (hmgt : e.time.graph = gt) (hmgs : e.space.graph = gs) {tcost : List ℤ} {data : List (List K)} {isIfg : Bool}
    {δ0 V W G δ : K} {n : Nat → Nat → ℤ} (hn : Wrapped A e data isIfg δ0 V W n) {Ft Fs : ℤ} {H : Nat}
    (R : CubeRoom A B1 η1 B2 Bd ηd ε δ0 V W G δ Ft Fs H) (hGd : G ≤ Bd) (i j : Nat)
    (hf : |(okVal (linkTimeFl A solver e data isIfg tcost j)).getD i 0| ≤ Ft) :
    |addCyclesFl A (spaceGradFl A e data isIfg i j) ((okVal (linkTimeFl A solver e data isIfg tcost j)).getD i 0) -
      (phaseOfIfg gt.links data isIfg i (gs.links.getD j (0, 0)).2 - phaseOfIfg gt.links data isIfg i (gs.links.getD j (0, 0)).1 +
        A.tauS * (((okVal (linkTimeFl A solver e data isIfg tcost j)).getD i 0 - n i j : ℤ) : K))| ≤ δ + ((Ft : K) + W) * ε ∧
    |addCyclesFl A (spaceGradFl A e data isIfg i j) ((okVal (linkTimeFl A solver e data isIfg tcost j)).getD i 0)| ≤ G := by
  obtain ⟨g1, g2⟩ := gradient_row P hn i j _ hf R.gradient.1 R.gradient.2 hGd R.error
  refine ⟨?_, g2⟩
  rw [hmgt, hmgs] at g1
  set f := (okVal (linkTimeFl A solver e data isIfg tcost j)).getD i 0
  have hfK : |(f : K)| ≤ (Ft : K) := by exact_mod_cast hf
  have hnW := (hn i j).2.1
  have hc : |((f - n i j : ℤ) : K)| ≤ (Ft : K) + W := by
    have b1 := abs_bounds hfK
    have b2 := abs_bounds hnW
    push_cast
    rw [abs_le]; constructor <;> linarith
  have hmis : |((f - n i j : ℤ) : K) * (A.tau - A.tauS)| ≤ ((Ft : K) + W) * ε := by
    rw [abs_mul]
    exact mul_le_mul hc P.close (abs_nonneg _) ((abs_nonneg _).trans hc)
  have b1 := abs_bounds g1
  have b2 := abs_bounds hmis
  rw [abs_le]; constructor <;> linarith

/-- Shapes that let every link be read. -/
theorem linkInput_of {e : Emcf} {gt gs : PlanarGraph} (hct : PlanarContract gt.npoints gt.links gt.cycles)
    (hcs : PlanarContract gs.npoints gs.links gs.cycles) (hmgt : e.time.graph = gt) (hmgs : e.space.graph = gs)
    {data : List (List K)} {isIfg : Bool} (hrows : data ≠ []) (hcols : ∀ row ∈ data, row.length = gs.npoints)
    (hlen : data.length = if isIfg then gt.links.length else gt.npoints) :
    ∀ j < gs.links.length, LinkInput e data isIfg j := by
  intro j hj
  have hmem : gs.links.getD j (0, 0) ∈ gs.links := by
    rw [List.getD_eq_getElem?_getD, List.getElem?_eq_getElem hj]; exact List.getElem_mem hj
  have hb1 := hcs.ordered (gs.links.getD j (0, 0)).1 (gs.links.getD j (0, 0)).2 hmem
  have hhead : (data.headD []).length = gs.npoints := by
    rcases hd : data with _ | ⟨r, rs⟩
    · exact absurd hd hrows
    · simp only [List.headD_cons]
      exact hcols r (by rw [hd]; simp)
  unfold LinkInput Emcf.nifgs
  rw [hmgs, hmgt, hhead]
  refine ⟨by omega, hb1.2, ?_, ?_⟩
  · intro h; simp [h] at hlen; exact hlen
  · intro h l hl
    have := hct.ordered l.1 l.2 hl
    simp [h] at hlen
    omega

/-- The residues in time of SLC input are cancelled by the cycles that were removed. -/
theorem time_cancels (P : Precision A B1 η1 B2 η2 Bd ηd ε) {e : Emcf} {gt gs : PlanarGraph}
    (hct : PlanarContract gt.npoints gt.links gt.cycles) (hmt : ormcf gt = .ok e.time) (hmgs : e.space.graph = gs)
    {data : List (List K)} {δ0 V W G δ : K} {n : Nat → Nat → ℤ} (hn : Wrapped A e data false δ0 V W n) {Ft Fs : ℤ} {H : Nat}
    (R : CubeRoom A B1 η1 B2 Bd ηd ε δ0 V W G δ Ft Fs H)
    (hrt : ResidueRoom A B2 η2 G (δ + ((Ft : K) + W) * ε) gt.cycles) (j : Nat) :
    (linkResiduesFl A e.time fun i => spaceGradFl A e data false i j).length = gt.cycles.length + 1 ∧
    (linkResiduesFl A e.time fun i => spaceGradFl A e data false i j).sum = 0 ∧
    Cancels gt.links gt.cycles (linkResiduesFl A e.time fun i => spaceGradFl A e data false i j)
      ((List.range gt.links.length).map fun i => n i j) := by
  obtain ⟨hmgt, hmdt⟩ := dual_of_contract hct hmt
  obtain ⟨h01, h02, h0d⟩ := P.nonneg
  have ht1 := P.one_le.1
  have ht2 := P.one_le.2
  have hFtK : (0 : K) ≤ (Ft : K) := by exact_mod_cast R.flows.1
  have htFt : 0 ≤ A.tau * (Ft : K) := mul_nonneg (by linarith) hFtK
  have hV0 : 0 ≤ V := (abs_nonneg _).trans (hn 0 0).2.2
  have hG0 : 0 ≤ G := by linarith [R.gradient.1]
  have hW0 : 0 ≤ W := (abs_nonneg _).trans (hn 0 0).2.1
  have hε0 : 0 ≤ ε := (abs_nonneg _).trans P.close
  have hWε : 0 ≤ W * ε := mul_nonneg hW0 hε0
  have hFWε : 0 ≤ ((Ft : K) + W) * ε := mul_nonneg (by linarith) hε0
  have hV : ∀ i < gt.links.length, |spaceGradFl A e data false i j| ≤ G := fun i _ => by
    have := (hn i j).2.2
    linarith [R.gradient.1]
  obtain ⟨hrl, hrsum, _⟩ := linkResiduesFl_contract A P.wide h02 hG0 hct hmt (fun i => spaceGradFl A e data false i j) hV
    (fun c hc => (hrt c hc).1)
  refine ⟨hrl, hrsum, ?_⟩
  have hk : ∀ k (hk : k < gt.cycles.length), (linkResiduesFl A e.time fun i => spaceGradFl A e data false i j).getD (k + 1) 0 =
      circulation gt.links ((List.range gt.links.length).map fun i => - n i j) gt.cycles[k] := by
    intro k hk
    refine linkResiduesFl_eq P.wide h02 ht1 hct hmt hG0 _ (fun i =>
      (elem data (gt.links.getD i (0, 0)).2 (gs.links.getD j (0, 0)).2 - elem data (gt.links.getD i (0, 0)).2 (gs.links.getD j (0, 0)).1) -
      (elem data (gt.links.getD i (0, 0)).1 (gs.links.getD j (0, 0)).2 - elem data (gt.links.getD i (0, 0)).1 (gs.links.getD j (0, 0)).1))
      (fun i => - n i j) hV (fun i _ => ?_) (fun c hcc => ?_) hrt hk
    · have h1 := (hn i j).1
      rw [hmgt, hmgs] at h1
      have b1 := abs_bounds h1
      have hδ := R.error
      unfold phaseOfIfg at b1
      simp only [Bool.false_eq_true, if_false] at b1
      push_cast
      rw [abs_le]; constructor <;> linarith
    · exact circulation_gradient hct (fun s => elem data s (gs.links.getD j (0, 0)).2 - elem data s (gs.links.getD j (0, 0)).1) hcc
  have := cancels_neg _ _ hk
  simpa only [neg_neg] using this

/-- The residues in space are cancelled by the cycles removed and not put back. -/
theorem space_cancels (P : Precision A B1 η1 B2 η2 Bd ηd ε) {solver : FlowSolver} {e : Emcf} {gt gs : PlanarGraph}
    (hcs : PlanarContract gs.npoints gs.links gs.cycles) (hmgt : e.time.graph = gt) (hms : ormcf gs = .ok e.space)
    {tcost : List ℤ} {data : List (List K)} {isIfg : Bool} {δ0 V W G δ : K} {n : Nat → Nat → ℤ}
    (hn : Wrapped A e data isIfg δ0 V W n) {Ft Fs : ℤ} {H : Nat}
    (R : CubeRoom A B1 η1 B2 Bd ηd ε δ0 V W G δ Ft Fs H)
    (hrs : ResidueRoom A B2 η2 G (δ + ((Ft : K) + W) * ε) gs.cycles) (i : Nat)
    (hflT : ∀ j < gs.links.length, |(okVal (linkTimeFl A solver e data isIfg tcost j)).getD i 0| ≤ Ft) :
    ∃ res, computeResiduesFromGradientsFl A e.space (gradRow A solver e data isIfg tcost gs.links.length i) = .ok res ∧
      res.length = gs.cycles.length + 1 ∧ res.sum = 0 ∧
      (∀ k (hk : k < gs.cycles.length), res.getD (k + 1) 0 = circulation gs.links ((List.range gs.links.length).map fun j =>
        (okVal (linkTimeFl A solver e data isIfg tcost j)).getD i 0 - n i j) gs.cycles[k]) ∧
      Cancels gs.links gs.cycles res ((List.range gs.links.length).map fun j =>
        - ((okVal (linkTimeFl A solver e data isIfg tcost j)).getD i 0 - n i j)) := by
  obtain ⟨hmgs, hmds⟩ := dual_of_contract hcs hms
  obtain ⟨h01, h02, h0d⟩ := P.nonneg
  have ht1 := P.one_le.1
  have ht2 := P.one_le.2
  have hFtK : (0 : K) ≤ (Ft : K) := by exact_mod_cast R.flows.1
  have hFsK : (0 : K) ≤ (Fs : K) := by exact_mod_cast R.flows.2
  have htF : 0 ≤ A.tau * (Fs : K) := mul_nonneg (by linarith) hFsK
  have htFt : 0 ≤ A.tau * (Ft : K) := mul_nonneg (by linarith) hFtK
  have hV0 : 0 ≤ V := (abs_nonneg _).trans (hn 0 0).2.2
  have hG0 : 0 ≤ G := by linarith [R.gradient.1]
  have hGd : G ≤ Bd := by
    have := R.sums
    have hH0 : 0 ≤ (H : K) * (G + A.tau * (Fs : K) + 3 * ηd) := mul_nonneg (Nat.cast_nonneg _) (by linarith)
    linarith
  obtain ⟨res, r1, r2, r3, r4⟩ := residuesFromGradientsFl_eq P.wide h02 ht1 hcs hms hG0
    (fun j => addCyclesFl A (spaceGradFl A e data isIfg i j) ((okVal (linkTimeFl A solver e data isIfg tcost j)).getD i 0))
    (fun j => phaseOfIfg gt.links data isIfg i (gs.links.getD j (0, 0)).2 - phaseOfIfg gt.links data isIfg i (gs.links.getD j (0, 0)).1)
    (fun j => (okVal (linkTimeFl A solver e data isIfg tcost j)).getD i 0 - n i j)
    (fun j hj => (gradRow_near P hmgt hmgs hn R hGd i j (hflT j hj)).2)
    (fun j hj => (gradRow_near P hmgt hmgs hn R hGd i j (hflT j hj)).1)
    (fun c hcc => circulation_gradient hcs (fun p => phaseOfIfg gt.links data isIfg i p) hcc) hrs
  exact ⟨res, r1, r2, r3, r4, cancels_neg _ _ r4⟩

/-- The flows in time and space of SLC input, and labels for the cycles they leave. -/
theorem slc_flows (P : Precision A B1 η1 B2 η2 Bd ηd ε) (solver : FlowSolver) (e : Emcf) (gt gs : PlanarGraph)
    (hct : PlanarContract gt.npoints gt.links gt.cycles) (hcs : PlanarContract gs.npoints gs.links gs.cycles)
    (hgen : CyclesGenerate K gs.links gs.cycles)
    (hmt : ormcf gt = .ok e.time) (hms : ormcf gs = .ok e.space) (hsound : SolverSound solver) (hcomp : SolverComplete solver)
    (hb : 0 < e.settings.linksPerBatch) 
    (tcost ct scost cs : List ℤ) (htcost : costOf e.settings.tCostType e.nifgs e.tDist e.tCent = .ok tcost)
    (hct1 : CostOn gt.links.length tcost ct) (hct0 : ∀ v ∈ ct, 0 ≤ v)
    (hscost : costOf e.settings.sCostType e.nlinks e.sDist e.sCent = .ok scost)
    (hcs1 : CostOn gs.links.length scost cs) (hcs0 : ∀ v ∈ cs, 0 ≤ v)
    (w : CubeInput K) (hw : w.data.length = gt.npoints)
    (hrows : w.data ≠ []) (hcols : ∀ row ∈ w.data, row.length = gs.npoints)
    (a δ0 V W G δ : K) (hwr : WrapsWithin A a δ0 V W) (ha0 : 0 ≤ a) (ha : ∀ row ∈ w.data, ∀ x ∈ row, |x| ≤ a)
    (oT : Nat → List Nat → List Nat) 
    (hoT : ∀ k l, (oT k l).Perm l) (Ft Fs : ℤ) (H : Nat)
    (R : CubeRoom A B1 η1 B2 Bd ηd ε δ0 V W G δ Ft Fs H) (hF : FlowsWithin A solver e w.data false oT Ft Fs)
    (hwalk : ∀ p < gs.npoints, ∃ L ≤ H, WalkTo gs.links L p)
    (hcap : (Ft : K) + W ≤ 2147483647)
    (hrt : ResidueRoom A B2 η2 G (δ + ((Ft : K) + W) * ε) gt.cycles)
    (hrs : ResidueRoom A B2 η2 G (δ + ((Ft : K) + W) * ε) gs.cycles) :
    ∃ n, Wrapped A e w.data false δ0 V W n ∧ (∀ j < gs.links.length, LinkInput e w.data false j) ∧
    (∀ j < gs.links.length, ∃ fl, linkTimeFl A solver e w.data false tcost j = .ok fl ∧ ∀ f ∈ fl, |f| ≤ Ft) ∧
    ∀ i < gt.links.length, ∃ res fl, ∃ κ : Nat → ℤ,
      computeResiduesFromGradientsFl A e.space (gradRow A solver e w.data false tcost gs.links.length i) = .ok res ∧
      residuesToFlows solver e.space res scost = .ok fl ∧ fl.length = gs.links.length ∧ (∀ f ∈ fl, |f| ≤ Fs) ∧
      ∀ (j a b : Nat), gs.links[j]? = some (a, b) →
        κ b - κ a = (okVal (linkTimeFl A solver e w.data false tcost j)).getD i 0 - n i j + fl.getD j 0 := by
  obtain ⟨hmgt, hmdt⟩ := dual_of_contract hct hmt
  obtain ⟨hmgs, hmds⟩ := dual_of_contract hcs hms
  have hnif : e.nifgs = gt.links.length := by unfold Emcf.nifgs; rw [hmgt]
  have hnl : e.nlinks = gs.links.length := by unfold Emcf.nlinks; rw [hmgs]
  have hordt : ∀ a b, (a, b) ∈ gt.links → a ≤ b := fun a b hab => (hct.ordered a b hab).1.le
  obtain ⟨h01, h02, h0d⟩ := P.nonneg
  have ht1 := P.one_le.1
  have ht2 := P.one_le.2
  have hFtK : (0 : K) ≤ (Ft : K) := by exact_mod_cast R.flows.1
  have hFsK : (0 : K) ≤ (Fs : K) := by exact_mod_cast R.flows.2
  have htF : 0 ≤ A.tau * (Fs : K) := mul_nonneg (by linarith) hFsK
  have htFt : 0 ≤ A.tau * (Ft : K) := mul_nonneg (by linarith) hFtK
  have hηt : 0 ≤ A.tauS * η1 := mul_nonneg (by linarith) h01
  obtain ⟨n, hn⟩ := exists_wrapped hwr e ha0 ha false
  have hV0 : 0 ≤ V := (abs_nonneg _).trans (hn 0 0).2.2
  have hG0 : 0 ≤ G := by linarith [R.gradient.1]
  have hGd : G ≤ Bd := by
    have := R.sums
    have hH0 : 0 ≤ (H : K) * (G + A.tau * (Fs : K) + 3 * ηd) := mul_nonneg (Nat.cast_nonneg _) (by linarith)
    linarith
  have hW0 : 0 ≤ W := (abs_nonneg _).trans (hn 0 0).2.1
  have hε0 : 0 ≤ ε := (abs_nonneg _).trans P.close
  have hWε : 0 ≤ W * ε := mul_nonneg hW0 hε0
  have hFWε : 0 ≤ ((Ft : K) + W) * ε := mul_nonneg (by linarith) hε0
  have hcapI : ∀ z : ℤ, |(z : K)| ≤ (Ft : K) + W → |z| ≤ int32Max := by
    intro z hz
    have h2 : |((z : ℤ) : K)| ≤ ((2147483647 : ℤ) : K) := by push_cast; exact hz.trans hcap
    have h3 : |z| ≤ 2147483647 := by exact_mod_cast h2
    exact h3
  have hin := linkInput_of (isIfg := false) hct hcs hmgt hmgs hrows hcols (by simpa using hw)
  -- in time
  have htime : ∀ j < gs.links.length, ∃ fl, linkTimeFl A solver e w.data false tcost j = .ok fl ∧ ∀ f ∈ fl, |f| ≤ Ft := by
    intro j hj
    obtain ⟨hrl, hrsum, hcancel⟩ := time_cancels P hct hmt hmgs hn R hrt j
    obtain ⟨fl, hfl⟩ := residuesToFlows_returns hct hmt hcomp _ tcost none ct ct hct1 hct1 hct0 hct0 hrl hrsum
      ⟨_, hcancel, by
        intro v hv
        obtain ⟨i, _, rfl⟩ := List.mem_map.mp hv
        apply hcapI
        have := (hn i j).2.1
        linarith⟩
    exact ⟨fl, hfl, hF.1 tcost htcost j (by rw [hmgs]; exact hj) fl hfl⟩
  have hgrad := (inTimeFl_iff A solver e hct.distinct hordt hmt hmgt w.data false tcost htcost oT hoT hb
    ((List.range e.nifgs).map fun i => gradRow A solver e w.data false tcost e.nlinks i)).mpr ⟨fun j hj => by
      rw [hnl] at hj
      obtain ⟨fl, hfl, _⟩ := htime j hj
      exact ⟨hin j hj, by rw [okVal_eq hfl]; exact hfl⟩, rfl⟩
  have hspace : ∀ i < gt.links.length, ∃ res fl, ∃ κ : Nat → ℤ,
      computeResiduesFromGradientsFl A e.space (gradRow A solver e w.data false tcost gs.links.length i) = .ok res ∧
      residuesToFlows solver e.space res scost = .ok fl ∧ fl.length = gs.links.length ∧ (∀ f ∈ fl, |f| ≤ Fs) ∧
      ∀ (j a b : Nat), gs.links[j]? = some (a, b) →
        κ b - κ a = (okVal (linkTimeFl A solver e w.data false tcost j)).getD i 0 - n i j + fl.getD j 0 := by
    intro i hi
    have hflT : ∀ j < gs.links.length, |(okVal (linkTimeFl A solver e w.data false tcost j)).getD i 0| ≤ Ft := by
      intro j hj
      obtain ⟨f, hf, hbd⟩ := htime j hj
      rw [okVal_eq hf]
      by_cases hil : i < f.length
      · rw [List.getD_eq_getElem?_getD, List.getElem?_eq_getElem hil]
        exact hbd _ (List.getElem_mem hil)
      · rw [List.getD_eq_getElem?_getD, List.getElem?_eq_none (by omega)]
        simpa using R.flows.1
    set N : Nat → ℤ := fun j => (okVal (linkTimeFl A solver e w.data false tcost j)).getD i 0 - n i j with hN
    obtain ⟨res, r1, r2, r3, r4, r5⟩ := space_cancels P hcs hmgt hms hn R hrs i hflT
    obtain ⟨fl, hfl⟩ := residuesToFlows_returns hcs hms hcomp res scost none cs cs hcs1 hcs1 hcs0 hcs0 r2 r3
      ⟨_, r5, by
        intro v hv
        obtain ⟨j, hj, rfl⟩ := List.mem_map.mp hv
        rw [abs_neg]
        apply hcapI
        have h1 := (hn i j).2.1
        have h2 : |(((okVal (linkTimeFl A solver e w.data false tcost j)).getD i 0 : ℤ) : K)| ≤ (Ft : K) := by
          exact_mod_cast hflT j (List.mem_range.mp hj)
        have b1 := abs_bounds h1
        have b2 := abs_bounds h2
        push_cast
        rw [abs_le]; constructor <;> linarith⟩
    have hcan := C10_flows_cancel gs e.space solver hcs hms hsound _ _ none fl hfl
    obtain ⟨κ, hκ⟩ := int_labels (K := K) hcs (fun p hp => by obtain ⟨L, _, h⟩ := hwalk p hp; exact ⟨L, h⟩) hgen
      (fun j => N j + fl.getD j 0) (fun k hk => by
        rw [circulation_add' gs.links N fl hcan.1, ← r4 k hk, hcan.2 k hk]; ring)
    refine ⟨res, fl, κ, r1, hfl, hcan.1, ?_, hκ⟩
    refine hF.2 scost hscost _ hgrad i (by rw [hmgt]; exact hi) res fl ?_ hfl
    rw [← r1, List.getD_eq_getElem?_getD, List.getElem?_map, List.getElem?_range (by rw [hnif]; exact hi), hnl]
    rfl
  exact ⟨n, hn, hin, htime, hspace⟩

/-- C69. `unwrap_cube` returns in mixed precision on every stack of SLC phases up to `a`, with a sound and complete flow
solver, if the accumulated error `2 (H + 1) (δ + 3 ηd)` is within the tolerance of `flood_fill` and the sums around the
cycles of both graphs are rounded to the right whole number. -/
theorem C69_returns (P : Precision A B1 η1 B2 η2 Bd ηd ε) (solver : FlowSolver) (e : Emcf) (gt gs : PlanarGraph)
    (hct : PlanarContract gt.npoints gt.links gt.cycles) (hcs : PlanarContract gs.npoints gs.links gs.cycles)
    (hne : gs.links ≠ []) (hgen : CyclesGenerate K gs.links gs.cycles)
    (hmt : ormcf gt = .ok e.time) (hms : ormcf gs = .ok e.space) (hsound : SolverSound solver) (hcomp : SolverComplete solver)
    (hb : 0 < e.settings.linksPerBatch) (hpool : 1 ≤ e.settings.sWorkerCount ∨ 2 ≤ e.cpuCount)
    (tcost ct scost cs : List ℤ) (htcost : costOf e.settings.tCostType e.nifgs e.tDist e.tCent = .ok tcost)
    (hct1 : CostOn gt.links.length tcost ct) (hct0 : ∀ v ∈ ct, 0 ≤ v)
    (hscost : costOf e.settings.sCostType e.nlinks e.sDist e.sCent = .ok scost)
    (hcs1 : CostOn gs.links.length scost cs) (hcs0 : ∀ v ∈ cs, 0 ≤ v)
    (w : CubeInput K) (hnd : w.ndim = 2) (htd : w.timeDim = 0) (hw : w.data.length = gt.npoints)
    (hrows : w.data ≠ []) (hcols : ∀ row ∈ w.data, row.length = gs.npoints)
    (a δ0 V W G δ : K) (hwr : WrapsWithin A a δ0 V W) (ha0 : 0 ≤ a) (ha : ∀ row ∈ w.data, ∀ x ∈ row, |x| ≤ a)
    (oT : Nat → List Nat → List Nat) (oS : List Nat → List Nat)
    (hoT : ∀ k l, (oT k l).Perm l) (hoS : ∀ l, (oS l).Perm l) (Ft Fs : ℤ) (H : Nat)
    (R : CubeRoom A B1 η1 B2 Bd ηd ε δ0 V W G δ Ft Fs H) (hF : FlowsWithin A solver e w.data false oT Ft Fs)
    (hwalk : ∀ p < gs.npoints, ∃ L ≤ H, WalkTo gs.links L p)
    (htol : 2 * ((H : K) + 1) * (δ + 3 * ηd) ≤ A.tol) (hcap : (Ft : K) + W ≤ 2147483647)
    (hrt : ResidueRoom A B2 η2 G (δ + ((Ft : K) + W) * ε) gt.cycles)
    (hrs : ResidueRoom A B2 η2 G (δ + ((Ft : K) + W) * ε) gs.cycles) :
    ∃ out, unwrapCubeFl A solver e w oT oS = .ok out := by
  obtain ⟨n, hn, hin, htime, hspace⟩ := slc_flows P solver e gt gs hct hcs hgen hmt hms hsound hcomp hb tcost ct scost cs
    htcost hct1 hct0 hscost hcs1 hcs0 w hw hrows hcols a δ0 V W G δ hwr ha0 ha oT hoT Ft Fs H R hF hwalk hcap hrt hrs
  have hmgt := (dual_of_contract hct hmt).1
  obtain ⟨grad, out, o1, o2⟩ := cube_returns_core P hct hcs hne hmt hms hb htcost hscost hpool hoT hoS hn R hwalk htol hin htime hspace
  refine ⟨out, unwrapCubeFl_ok.mpr ⟨false, grad, ?_, o1, o2⟩⟩
  unfold cubeKind Emcf.nepochs
  rw [hmgt, if_neg (by simpa using hnd), if_neg (by simpa using htd), if_pos hw]

/-- A whole number of cycles shorter than one cycle is none. -/
theorem int_zero_of_lt {t : K} (ht : 0 < t) (z : ℤ) (h : |(z : K) * t| < t) : z = 0 := by
  rw [abs_mul, abs_of_pos ht] at h
  have h1 : |(z : K)| < 1 := by
    by_contra hc
    rw [not_lt] at hc
    nlinarith
  have h2 : |z| < 1 := by exact_mod_cast h1
  exact Int.abs_lt_one_iff.mp h2

/-- An unaliased stack leaves nothing to the flow solver. -/
theorem itoh_flows (P : Precision A B1 η1 B2 η2 Bd ηd ε) (solver : FlowSolver) (e : Emcf) (gt gs : PlanarGraph)
    (hct : PlanarContract gt.npoints gt.links gt.cycles) (hcs : PlanarContract gs.npoints gs.links gs.cycles)
    (hmt : ormcf gt = .ok e.time) (hms : ormcf gs = .ok e.space)
    (hb : 0 < e.settings.linksPerBatch)
    (tcost scost : List ℤ) (htcost : costOf e.settings.tCostType e.nifgs e.tDist e.tCent = .ok tcost)
    (hscost : costOf e.settings.sCostType e.nlinks e.sDist e.sCent = .ok scost)
    (w : CubeInput K) (isIfg : Bool)
    (hw : if isIfg then w.data.length = gt.links.length ∧ gt.links.length ≠ gt.npoints else w.data.length = gt.npoints)
    (hrows : w.data ≠ []) (hcols : ∀ row ∈ w.data, row.length = gs.npoints)
    (a δ0 V W G δ e0 : K) (hwr : WrapsWithin A a δ0 V W) (ha0 : 0 ≤ a) (ha : ∀ row ∈ w.data, ∀ x ∈ row, |x| ≤ a)
    (ψ : Nat → Nat → K) (κ : Nat → Nat → ℤ)
    (hψ : ∀ i s t : Nat, gt.links[i]? = some (s, t) → ∀ p < gs.npoints,
      |phaseOfIfg gt.links w.data isIfg i p - (ψ t p - ψ s p - (κ i p : K) * A.tau)| ≤ e0)
    (hsmooth : ∀ s t p q, (s, t) ∈ gt.links → (p, q) ∈ gs.links →
      |(ψ t q - ψ s q) - (ψ t p - ψ s p)| + V + δ + 2 * e0 < A.tau)
    (oT : Nat → List Nat → List Nat) 
    (hoT : ∀ k l, (oT k l).Perm l) (H : Nat)
    (R : CubeRoom A B1 η1 B2 Bd ηd ε δ0 V W G δ 0 0 H)
    (hrt : ResidueRoom A B2 η2 G (δ + 2 * e0) gt.cycles) (hrs : ResidueRoom A B2 η2 G (δ + 2 * e0) gs.cycles) :
    ∃ n, Wrapped A e w.data isIfg δ0 V W n ∧ (∀ j < gs.links.length, LinkInput e w.data isIfg j) ∧
    (∀ j < gs.links.length, linkTimeFl A solver e w.data isIfg tcost j = .ok (List.replicate gt.links.length 0)) ∧
    (∀ i < gt.links.length, ∃ res,
      computeResiduesFromGradientsFl A e.space (gradRow A solver e w.data isIfg tcost gs.links.length i) = .ok res ∧
      residuesToFlows solver e.space res scost = .ok (List.replicate gs.links.length 0)) ∧
    (∀ i < gt.links.length, ∀ (j p q : Nat), gs.links[j]? = some (p, q) → κ i q - κ i p =
      (okVal (linkTimeFl A solver e w.data isIfg tcost j)).getD i 0 - n i j + (List.replicate gs.links.length (0 : ℤ)).getD j 0) ∧
    unwrapInTimeFl A solver e w.data isIfg oT =
      .ok ((List.range e.nifgs).map fun i => gradRow A solver e w.data isIfg tcost e.nlinks i) ∧
    ∀ i < gt.links.length, ((List.range e.nifgs).map fun i => gradRow A solver e w.data isIfg tcost e.nlinks i).getD i [] =
      gradRow A solver e w.data isIfg tcost gs.links.length i := by
  obtain ⟨hmgt, hmdt⟩ := dual_of_contract hct hmt
  obtain ⟨hmgs, hmds⟩ := dual_of_contract hcs hms
  have hnif : e.nifgs = gt.links.length := by unfold Emcf.nifgs; rw [hmgt]
  have hnl : e.nlinks = gs.links.length := by unfold Emcf.nlinks; rw [hmgs]
  have hordt : ∀ a b, (a, b) ∈ gt.links → a ≤ b := fun a b hab => (hct.ordered a b hab).1.le
  obtain ⟨h01, h02, h0d⟩ := P.nonneg
  have ht1 := P.one_le.1
  have ht2 := P.one_le.2
  have ht0 : 0 < A.tau := by linarith
  have hηt : 0 ≤ A.tauS * η1 := mul_nonneg (by linarith) h01
  have hgr := R.gradient.1
  rw [Int.cast_zero, mul_zero, add_zero] at hgr
  obtain ⟨n, hn⟩ := exists_wrapped hwr e ha0 ha isIfg
  have hV0 : 0 ≤ V := (abs_nonneg _).trans (hn 0 0).2.2
  have hG0 : 0 ≤ G := by linarith
  have hGd : G ≤ Bd := by
    have := R.sums
    rw [Int.cast_zero, mul_zero, add_zero] at this
    have hH0 : 0 ≤ (H : K) * (G + 3 * ηd) := mul_nonneg (Nat.cast_nonneg _) (by linarith)
    linarith
  have hW0 : 0 ≤ W := (abs_nonneg _).trans (hn 0 0).2.1
  have hε0 : 0 ≤ ε := (abs_nonneg _).trans P.close
  have herr := R.error
  have hmemt : ∀ i < gt.links.length, gt.links.getD i (0, 0) ∈ gt.links := fun i hi => by
    rw [List.getD_eq_getElem _ _ hi]; exact List.getElem_mem hi
  have hmems : ∀ j < gs.links.length, gs.links.getD j (0, 0) ∈ gs.links := fun i hi => by
    rw [List.getD_eq_getElem _ _ hi]; exact List.getElem_mem hi
  set D : Nat → Nat → K := fun i p => ψ (gt.links.getD i (0, 0)).2 p - ψ (gt.links.getD i (0, 0)).1 p with hD
  -- the cycles removed are those of the data
  have key : ∀ i < gt.links.length, ∀ j < gs.links.length,
      n i j = - (κ i (gs.links.getD j (0, 0)).2 - κ i (gs.links.getD j (0, 0)).1) ∧
      |spaceGradFl A e w.data isIfg i j - (D i (gs.links.getD j (0, 0)).2 - D i (gs.links.getD j (0, 0)).1)| ≤ δ + 2 * e0 ∧
      |addCyclesFl A (spaceGradFl A e w.data isIfg i j) 0 -
        (D i (gs.links.getD j (0, 0)).2 - D i (gs.links.getD j (0, 0)).1)| ≤ δ + 2 * e0 := by
    intro i hi j hj
    obtain ⟨w1, w2, w3⟩ := hn i j
    obtain ⟨g1, g2⟩ := gradient_row P hn i j 0 (Ft := 0) (by simp) R.gradient.1 R.gradient.2 hGd R.error
    rw [hmgt, hmgs] at w1 g1
    have ho := hcs.ordered (gs.links.getD j (0, 0)).1 (gs.links.getD j (0, 0)).2 (hmems j hj)
    have hsm := hsmooth (gt.links.getD i (0, 0)).1 (gt.links.getD i (0, 0)).2 (gs.links.getD j (0, 0)).1 (gs.links.getD j (0, 0)).2 (hmemt i hi) (hmems j hj)
    have hli : gt.links[i]? = some ((gt.links.getD i (0, 0)).1, (gt.links.getD i (0, 0)).2) := by
      rw [List.getD_eq_getElem _ _ hi, List.getElem?_eq_getElem hi]
    have p1 := abs_bounds (hψ i _ _ hli (gs.links.getD j (0, 0)).1 (by omega))
    have p2 := abs_bounds (hψ i _ _ hli (gs.links.getD j (0, 0)).2 ho.2)
    have hmis : |(n i j : K) * (A.tau - A.tauS)| ≤ W * ε := by
      rw [abs_mul]
      exact mul_le_mul w2 P.close (abs_nonneg _) hW0
    have b1 := abs_bounds w1
    have b2 := abs_bounds w3
    have b3 := abs_bounds hmis
    have b4 := abs_bounds P.close
    have b5 := abs_bounds g1
    have b6 := abs_bounds (le_refl |ψ (gt.links.getD i (0, 0)).2 (gs.links.getD j (0, 0)).2 - ψ (gt.links.getD i (0, 0)).1 (gs.links.getD j (0, 0)).2 -
      (ψ (gt.links.getD i (0, 0)).2 (gs.links.getD j (0, 0)).1 - ψ (gt.links.getD i (0, 0)).1 (gs.links.getD j (0, 0)).1)|)
    have hz : κ i (gs.links.getD j (0, 0)).2 - κ i (gs.links.getD j (0, 0)).1 + n i j = 0 := by
      apply int_zero_of_lt ht0
      push_cast
      rw [abs_lt]; constructor <;> linarith
    have hnK : (n i j : K) = - ((κ i (gs.links.getD j (0, 0)).2 : K) - (κ i (gs.links.getD j (0, 0)).1 : K)) := by
      have : ((κ i (gs.links.getD j (0, 0)).2 - κ i (gs.links.getD j (0, 0)).1 + n i j : ℤ) : K) = 0 := by rw [hz]; simp
      push_cast at this
      linarith
    refine ⟨by omega, ?_, ?_⟩
    · have e1 : (n i j : K) * A.tau = - ((κ i (gs.links.getD j (0, 0)).2 : K) * A.tau - (κ i (gs.links.getD j (0, 0)).1 : K) * A.tau) := by
        rw [hnK]; ring
      simp only [hD]
      rw [abs_le]; constructor <;> linarith
    · have e1 : (n i j : K) * A.tau = - ((κ i (gs.links.getD j (0, 0)).2 : K) * A.tau - (κ i (gs.links.getD j (0, 0)).1 : K) * A.tau) := by
        rw [hnK]; ring
      push_cast at b5
      simp only [hD]
      rw [abs_le]; constructor <;> linarith
  have hczero : ∀ {g : PlanarGraph}, PlanarContract g.npoints g.links g.cycles → ∀ k (hk : k < g.cycles.length),
      circulation g.links ((List.range g.links.length).map fun _ => (0 : ℤ)) g.cycles[k] = 0 := by
    intro g hg k hk
    have := circulation_gradient hg (fun _ => (0 : ℤ)) (List.getElem_mem hk)
    simpa using this
  have hin := linkInput_of (isIfg := isIfg) hct hcs hmgt hmgs hrows hcols (by
    cases isIfg with
    | true => simp only [if_true] at hw ⊢; exact hw.1
    | false => simpa using hw)
  -- no flows in time
  have htime0 : ∀ j < gs.links.length, linkTimeFl A solver e w.data isIfg tcost j = .ok (List.replicate gt.links.length 0) := by
    intro j hj
    have hV : ∀ i < gt.links.length, |spaceGradFl A e w.data isIfg i j| ≤ G := fun i _ => by
      have := (hn i j).2.2
      linarith
    obtain ⟨hrl, hrsum, _⟩ := linkResiduesFl_contract A P.wide h02 hG0 hct hmt (fun i => spaceGradFl A e w.data isIfg i j) hV
      (fun c hc => (hrt c hc).1)
    unfold linkTimeFl
    rw [← hmgt]
    refine residuesToFlows_zero _ _ _ _ _ (all_zero_of hrl hrsum fun k hk => ?_)
    refine Eq.trans (linkResiduesFl_eq P.wide h02 ht1 hct hmt hG0 _ (fun i =>
        (ψ (gt.links.getD i (0, 0)).2 (gs.links.getD j (0, 0)).2 - ψ (gt.links.getD i (0, 0)).2 (gs.links.getD j (0, 0)).1) -
        (ψ (gt.links.getD i (0, 0)).1 (gs.links.getD j (0, 0)).2 - ψ (gt.links.getD i (0, 0)).1 (gs.links.getD j (0, 0)).1))
        (fun _ => 0) hV (fun i hi => ?_) (fun c hcc => ?_) hrt hk) (hczero hct k hk)
    · have b1 := abs_bounds (key i hi j hj).2.1
      simp only [hD] at b1
      push_cast
      rw [mul_zero, add_zero]
      rw [abs_le]; constructor <;> linarith
    · exact circulation_gradient hct (fun s => ψ s (gs.links.getD j (0, 0)).2 - ψ s (gs.links.getD j (0, 0)).1) hcc
  have hzero : ∀ i < gt.links.length, ∀ j < gs.links.length, (okVal (linkTimeFl A solver e w.data isIfg tcost j)).getD i 0 = 0 := by
    intro i hi j hj
    rw [okVal_eq (htime0 j hj), List.getD_eq_getElem _ _ (by simpa using hi)]
    simp
  have hspace0 : ∀ i < gt.links.length, ∃ res,
      computeResiduesFromGradientsFl A e.space (gradRow A solver e w.data isIfg tcost gs.links.length i) = .ok res ∧
      residuesToFlows solver e.space res scost = .ok (List.replicate gs.links.length 0) := by
    intro i hi
    obtain ⟨res, r1, r2, r3, r4⟩ := residuesFromGradientsFl_eq P.wide h02 ht1 hcs hms hG0
      (fun j => addCyclesFl A (spaceGradFl A e w.data isIfg i j) ((okVal (linkTimeFl A solver e w.data isIfg tcost j)).getD i 0))
      (fun j => D i (gs.links.getD j (0, 0)).2 - D i (gs.links.getD j (0, 0)).1)
      (fun _ => 0) (fun j hj => by
        rw [hzero i hi j hj]
        exact (gradient_row P hn i j 0 (Ft := 0) (by simp) R.gradient.1 R.gradient.2 hGd R.error).2)
      (fun j hj => by
        rw [hzero i hi j hj]
        simpa using (key i hi j hj).2.2)
      (fun c hcc => circulation_gradient hcs (fun p => D i p) hcc) hrs
    refine ⟨res, r1, ?_⟩
    rw [← hmgs]
    exact residuesToFlows_zero _ _ _ _ _ (all_zero_of r2 r3 fun k hk => by rw [r4 k hk, hczero hcs k hk])
  have hlab : ∀ i < gt.links.length, ∀ (j p q : Nat), gs.links[j]? = some (p, q) → κ i q - κ i p =
      (okVal (linkTimeFl A solver e w.data isIfg tcost j)).getD i 0 - n i j + (List.replicate gs.links.length (0 : ℤ)).getD j 0 := by
    intro i hi j p q hj
    obtain ⟨hj', he⟩ := List.getElem?_eq_some_iff.mp hj
    have h1 := (key i hi j hj').1
    rw [List.getD_eq_getElem?_getD, hj, Option.getD_some] at h1
    rw [hzero i hi j hj', h1, List.getD_eq_getElem _ _ (by simpa using hj')]
    simp
  have hgrad := (inTimeFl_iff A solver e hct.distinct hordt hmt hmgt w.data isIfg tcost htcost oT hoT hb
    ((List.range e.nifgs).map fun i => gradRow A solver e w.data isIfg tcost e.nlinks i)).mpr ⟨fun j hj => by
      rw [hnl] at hj
      exact ⟨hin j hj, by rw [okVal_eq (htime0 j hj)]; exact htime0 j hj⟩, rfl⟩
  have hrowi : ∀ i < gt.links.length, ((List.range e.nifgs).map fun i => gradRow A solver e w.data isIfg tcost e.nlinks i).getD i [] =
      gradRow A solver e w.data isIfg tcost gs.links.length i := by
    intro i hi
    rw [List.getD_eq_getElem?_getD, List.getElem?_map, List.getElem?_range (by rw [hnif]; exact hi), hnl]
    rfl
  exact ⟨n, hn, hin, htime0, hspace0, hlab, hgrad, hrowi⟩

theorem itoh_core (P : Precision A B1 η1 B2 η2 Bd ηd ε) (solver : FlowSolver) (e : Emcf) (gt gs : PlanarGraph)
    (hct : PlanarContract gt.npoints gt.links gt.cycles) (hcs : PlanarContract gs.npoints gs.links gs.cycles)
    (hne : gs.links ≠ []) (hmt : ormcf gt = .ok e.time) (hms : ormcf gs = .ok e.space)
    (hb : 0 < e.settings.linksPerBatch) (hpool : 1 ≤ e.settings.sWorkerCount ∨ 2 ≤ e.cpuCount)
    (tcost scost : List ℤ) (htcost : costOf e.settings.tCostType e.nifgs e.tDist e.tCent = .ok tcost)
    (hscost : costOf e.settings.sCostType e.nlinks e.sDist e.sCent = .ok scost)
    (w : CubeInput K) (hnd : w.ndim = 2) (htd : w.timeDim = 0) (isIfg : Bool)
    (hw : if isIfg then w.data.length = gt.links.length ∧ gt.links.length ≠ gt.npoints else w.data.length = gt.npoints)
    (hrows : w.data ≠ []) (hcols : ∀ row ∈ w.data, row.length = gs.npoints)
    (a δ0 V W G δ e0 : K) (hwr : WrapsWithin A a δ0 V W) (ha0 : 0 ≤ a) (ha : ∀ row ∈ w.data, ∀ x ∈ row, |x| ≤ a)
    (ψ : Nat → Nat → K) (κ : Nat → Nat → ℤ)
    (hψ : ∀ i s t : Nat, gt.links[i]? = some (s, t) → ∀ p < gs.npoints,
      |phaseOfIfg gt.links w.data isIfg i p - (ψ t p - ψ s p - (κ i p : K) * A.tau)| ≤ e0)
    (hsmooth : ∀ s t p q, (s, t) ∈ gt.links → (p, q) ∈ gs.links →
      |(ψ t q - ψ s q) - (ψ t p - ψ s p)| + V + δ + 2 * e0 < A.tau)
    (oT : Nat → List Nat → List Nat) (oS : List Nat → List Nat)
    (hoT : ∀ k l, (oT k l).Perm l) (hoS : ∀ l, (oS l).Perm l) (H : Nat)
    (R : CubeRoom A B1 η1 B2 Bd ηd ε δ0 V W G δ 0 0 H)
    (hwalk : ∀ p < gs.npoints, ∃ L ≤ H, WalkTo gs.links L p)
    (htol : 2 * ((H : K) + 1) * (δ + 3 * ηd) ≤ A.tol)
    (hrt : ResidueRoom A B2 η2 G (δ + 2 * e0) gt.cycles) (hrs : ResidueRoom A B2 η2 G (δ + 2 * e0) gs.cycles) :
    FlowsWithin A solver e w.data isIfg oT 0 0 ∧
    ∃ out, unwrapCubeFl A solver e w oT oS = .ok out ∧ out.length = gt.links.length ∧
      ∀ i s t : Nat, gt.links[i]? = some (s, t) → (out.getD i []).length = gs.npoints ∧
        ∀ L p, WalkTo gs.links L p → L ≤ H → p < gs.npoints →
          |elem out i p - ((ψ t p - ψ s p) - (ψ t 0 - ψ s 0))| ≤ (L : K) * (δ + 3 * ηd) + η2 + 2 * e0 := by
  obtain ⟨n, hn, hin, htime0, hspace0, hlab, hgrad, hrowi⟩ := itoh_flows P solver e gt gs hct hcs hmt hms hb tcost scost
    htcost hscost w isIfg hw hrows hcols a δ0 V W G δ e0 hwr ha0 ha ψ κ hψ hsmooth oT hoT H R hrt hrs
  obtain ⟨hmgt, hmdt⟩ := dual_of_contract hct hmt
  obtain ⟨hmgs, hmds⟩ := dual_of_contract hcs hms
  obtain ⟨grad, out, o1, o2⟩ := cube_returns_core P hct hcs hne hmt hms hb htcost hscost hpool hoT hoS hn R hwalk htol hin
    (fun j hj => ⟨_, htime0 j hj, by
      intro f hf
      rw [List.eq_of_mem_replicate hf]; simp⟩)
    (fun i hi => by
      obtain ⟨res, r1, r2⟩ := hspace0 i hi
      exact ⟨res, _, κ i, r1, r2, by simp, by
        intro f hf
        rw [List.eq_of_mem_replicate hf]; simp, hlab i hi⟩)
  have hgg : grad = (List.range e.nifgs).map fun i => gradRow A solver e w.data isIfg tcost e.nlinks i := by
    rw [hgrad] at o1
    exact (Except.ok.inj o1).symm
  obtain ⟨g1, g2⟩ := cube_guarantee P hct hcs hmt hms hb htcost hscost hpool hoT hoS hn (Ft := 0) (Fs := 0) (le_refl 0)
    (fun j hj fl hfl f hf => by
      have h1 := htime0 j hj
      unfold linkTimeFl at h1
      rw [h1] at hfl
      rw [← Except.ok.inj hfl] at hf
      rw [List.eq_of_mem_replicate hf]; simp)
    (fun gr hgr' i hi res fl hres hfl f hf => by
      rw [hgrad] at hgr'
      rw [← Except.ok.inj hgr', hrowi i hi] at hres
      obtain ⟨res', r1, r2⟩ := hspace0 i hi
      rw [r1] at hres
      rw [← Except.ok.inj hres, r2] at hfl
      rw [← Except.ok.inj hfl] at hf
      rw [List.eq_of_mem_replicate hf]; simp)
    hwalk R.gradient.1 R.gradient.2 R.error R.sums R.result R.tol.1 R.tol.2 grad out o1 o2
  have hF : FlowsWithin A solver e w.data isIfg oT 0 0 := by
    constructor
    · intro tc htc j hj fl hfl f hf
      rw [htcost, Except.ok.injEq] at htc
      subst htc
      rw [hmgs] at hj
      have h1 := htime0 j hj
      unfold linkTimeFl at h1
      rw [h1] at hfl
      rw [← Except.ok.inj hfl] at hf
      rw [List.eq_of_mem_replicate hf]; simp
    · intro sc hsc gr hgr' i hi res fl hres hfl f hf
      rw [hscost, Except.ok.injEq] at hsc
      subst hsc
      rw [hmgt] at hi
      rw [hgrad] at hgr'
      rw [← Except.ok.inj hgr', hrowi i hi] at hres
      obtain ⟨res', r1, r2⟩ := hspace0 i hi
      rw [r1] at hres
      rw [← Except.ok.inj hres, r2] at hfl
      rw [← Except.ok.inj hfl] at hf
      rw [List.eq_of_mem_replicate hf]; simp
  refine ⟨hF, out, unwrapCubeFl_ok.mpr ⟨isIfg, grad, ?_, o1, o2⟩, g1, ?_⟩
  · unfold cubeKind Emcf.nepochs Emcf.nifgs
    rw [hmgt, if_neg (by simpa using hnd), if_neg (by simpa using htd)]
    cases isIfg with
    | true =>
      simp only [if_true] at hw
      rw [if_neg (by rw [hw.1]; exact hw.2), if_pos hw.1]
    | false =>
      rw [if_pos (by simpa using hw)]
  · intro i s t hi
    obtain ⟨hi', he⟩ := List.getElem?_eq_some_iff.mp hi
    obtain ⟨g3, res, flS, k, k1, k2, k3, k4, k5⟩ := g2 i hi'
    refine ⟨g3, fun L p hL hLH hp => ?_⟩
    have hfl : flS = List.replicate gs.links.length 0 := by
      rw [hgg, hrowi i hi'] at k1
      obtain ⟨res', r1, r2⟩ := hspace0 i hi'
      rw [r1] at k1
      rw [← Except.ok.inj k1, r2] at k2
      exact (Except.ok.inj k2).symm
    have hk := labels_unique (links := gs.links) (k := k) (k' := κ i) (fun p q hpq => by
      obtain ⟨j, hj, hje⟩ := List.mem_iff_getElem.mp hpq
      have hj? : gs.links[j]? = some (p, q) := by rw [List.getElem?_eq_getElem hj, hje]
      rw [k4 j p q hj?, hlab i hi' j p q hj?, hfl]) L p hL
    have hkK : (k p : K) * A.tau = (κ i p : K) * A.tau - (κ i 0 : K) * A.tau := by
      have : k p = κ i p - κ i 0 := by omega
      rw [this]; push_cast; ring
    have b1 := abs_bounds (k5 L p hL hLH hp)
    have p1 := abs_bounds (hψ i s t hi p hp)
    have p2 := abs_bounds (hψ i s t hi 0 (by omega))
    rw [abs_le]; constructor <;> linarith

/-- C69. Itoh in mixed precision, for SLC or interferogram input: if in every interferogram the true phase
`ψ t - ψ s` changes by less than half a cycle along every spatial link, with a margin for the error `e0` of the data and
for rounding, `unwrap_cube` returns the true phase relative to the first point, up to `2 e0` and `L (δ + 3 ηd) + η2` at
`L` links from that point. No assumption on the flow solver is needed. -/
theorem C69_itoh (P : Precision A B1 η1 B2 η2 Bd ηd ε) (solver : FlowSolver) (e : Emcf) (gt gs : PlanarGraph)
    (hct : PlanarContract gt.npoints gt.links gt.cycles) (hcs : PlanarContract gs.npoints gs.links gs.cycles)
    (hne : gs.links ≠ []) (hmt : ormcf gt = .ok e.time) (hms : ormcf gs = .ok e.space)
    (hb : 0 < e.settings.linksPerBatch) (hpool : 1 ≤ e.settings.sWorkerCount ∨ 2 ≤ e.cpuCount)
    (tcost scost : List ℤ) (htcost : costOf e.settings.tCostType e.nifgs e.tDist e.tCent = .ok tcost)
    (hscost : costOf e.settings.sCostType e.nlinks e.sDist e.sCent = .ok scost)
    (w : CubeInput K) (hnd : w.ndim = 2) (htd : w.timeDim = 0) (isIfg : Bool)
    (hw : if isIfg then w.data.length = gt.links.length ∧ gt.links.length ≠ gt.npoints else w.data.length = gt.npoints)
    (hrows : w.data ≠ []) (hcols : ∀ row ∈ w.data, row.length = gs.npoints)
    (a δ0 V W G δ e0 : K) (hwr : WrapsWithin A a δ0 V W) (ha0 : 0 ≤ a) (ha : ∀ row ∈ w.data, ∀ x ∈ row, |x| ≤ a)
    (ψ : Nat → Nat → K) (κ : Nat → Nat → ℤ)
    (hψ : ∀ i s t : Nat, gt.links[i]? = some (s, t) → ∀ p < gs.npoints,
      |phaseOfIfg gt.links w.data isIfg i p - (ψ t p - ψ s p - (κ i p : K) * A.tau)| ≤ e0)
    (hsmooth : ∀ s t p q, (s, t) ∈ gt.links → (p, q) ∈ gs.links →
      |(ψ t q - ψ s q) - (ψ t p - ψ s p)| + V + δ + 2 * e0 < A.tau)
    (oT : Nat → List Nat → List Nat) (oS : List Nat → List Nat)
    (hoT : ∀ k l, (oT k l).Perm l) (hoS : ∀ l, (oS l).Perm l) (H : Nat)
    (R : CubeRoom A B1 η1 B2 Bd ηd ε δ0 V W G δ 0 0 H)
    (hwalk : ∀ p < gs.npoints, ∃ L ≤ H, WalkTo gs.links L p)
    (htol : 2 * ((H : K) + 1) * (δ + 3 * ηd) ≤ A.tol)
    (hrt : ResidueRoom A B2 η2 G (δ + 2 * e0) gt.cycles) (hrs : ResidueRoom A B2 η2 G (δ + 2 * e0) gs.cycles) :
    ∃ out, unwrapCubeFl A solver e w oT oS = .ok out ∧ out.length = gt.links.length ∧
      ∀ i s t : Nat, gt.links[i]? = some (s, t) → (out.getD i []).length = gs.npoints ∧
        ∀ L p, WalkTo gs.links L p → L ≤ H → p < gs.npoints →
          |elem out i p - ((ψ t p - ψ s p) - (ψ t 0 - ψ s 0))| ≤ (L : K) * (δ + 3 * ηd) + η2 + 2 * e0 :=
  (itoh_core P solver e gt gs hct hcs hne hmt hms hb hpool tcost scost htcost hscost w hnd htd isIfg hw hrows hcols a δ0 V W G δ e0
    hwr ha0 ha ψ κ hψ hsmooth oT oS hoT hoS H R hwalk htol hrt hrs).2

/-- C69. For an unaliased stack (hypotheses of `C69_itoh`) no whole cycles are taken from the flow solver, in time or in space. -/
theorem C69_no_flows (P : Precision A B1 η1 B2 η2 Bd ηd ε) (solver : FlowSolver) (e : Emcf) (gt gs : PlanarGraph)
    (hct : PlanarContract gt.npoints gt.links gt.cycles) (hcs : PlanarContract gs.npoints gs.links gs.cycles)
    (hne : gs.links ≠ []) (hmt : ormcf gt = .ok e.time) (hms : ormcf gs = .ok e.space)
    (hb : 0 < e.settings.linksPerBatch) (hpool : 1 ≤ e.settings.sWorkerCount ∨ 2 ≤ e.cpuCount)
    (tcost scost : List ℤ) (htcost : costOf e.settings.tCostType e.nifgs e.tDist e.tCent = .ok tcost)
    (hscost : costOf e.settings.sCostType e.nlinks e.sDist e.sCent = .ok scost)
    (w : CubeInput K) (hnd : w.ndim = 2) (htd : w.timeDim = 0) (isIfg : Bool)
    (hw : if isIfg then w.data.length = gt.links.length ∧ gt.links.length ≠ gt.npoints else w.data.length = gt.npoints)
    (hrows : w.data ≠ []) (hcols : ∀ row ∈ w.data, row.length = gs.npoints)
    (a δ0 V W G δ e0 : K) (hwr : WrapsWithin A a δ0 V W) (ha0 : 0 ≤ a) (ha : ∀ row ∈ w.data, ∀ x ∈ row, |x| ≤ a)
    (ψ : Nat → Nat → K) (κ : Nat → Nat → ℤ)
    (hψ : ∀ i s t : Nat, gt.links[i]? = some (s, t) → ∀ p < gs.npoints,
      |phaseOfIfg gt.links w.data isIfg i p - (ψ t p - ψ s p - (κ i p : K) * A.tau)| ≤ e0)
    (hsmooth : ∀ s t p q, (s, t) ∈ gt.links → (p, q) ∈ gs.links →
      |(ψ t q - ψ s q) - (ψ t p - ψ s p)| + V + δ + 2 * e0 < A.tau)
    (oT : Nat → List Nat → List Nat) (oS : List Nat → List Nat)
    (hoT : ∀ k l, (oT k l).Perm l) (hoS : ∀ l, (oS l).Perm l) (H : Nat)
    (R : CubeRoom A B1 η1 B2 Bd ηd ε δ0 V W G δ 0 0 H)
    (hwalk : ∀ p < gs.npoints, ∃ L ≤ H, WalkTo gs.links L p)
    (htol : 2 * ((H : K) + 1) * (δ + 3 * ηd) ≤ A.tol)
    (hrt : ResidueRoom A B2 η2 G (δ + 2 * e0) gt.cycles) (hrs : ResidueRoom A B2 η2 G (δ + 2 * e0) gs.cycles) :
    FlowsWithin A solver e w.data isIfg oT 0 0 :=
  (itoh_core P solver e gt gs hct hcs hne hmt hms hb hpool tcost scost htcost hscost w hnd htd isIfg hw hrows hcols a δ0 V W G δ e0
    hwr ha0 ha ψ κ hψ hsmooth oT oS hoT hoS H R hwalk htol hrt hrs).1

/-- C69. The flows an optimal solver answers with on SLC input are bounded: with costs between 1 and `Mt` in time and
between 1 and `Ms` in space. -/
theorem C69_flows_within (P : Precision A B1 η1 B2 η2 Bd ηd ε) (solver : FlowSolver) (e : Emcf) (gt gs : PlanarGraph)
    (hct : PlanarContract gt.npoints gt.links gt.cycles) (hcs : PlanarContract gs.npoints gs.links gs.cycles)
    (hmt : ormcf gt = .ok e.time) (hms : ormcf gs = .ok e.space) (hopt : SolverOptimal solver)
    (hb : 0 < e.settings.linksPerBatch) (Mt Ms : ℤ)
    (hcT : ∀ tcost, costOf e.settings.tCostType e.nifgs e.tDist e.tCent = .ok tcost →
      tcost.length = gt.links.length ∧ ∀ v ∈ tcost, 1 ≤ v ∧ v ≤ Mt)
    (hcS : ∀ scost, costOf e.settings.sCostType e.nlinks e.sDist e.sCent = .ok scost →
      scost.length = gs.links.length ∧ ∀ v ∈ scost, 1 ≤ v ∧ v ≤ Ms)
    (tcost : List ℤ) (htcost : costOf e.settings.tCostType e.nifgs e.tDist e.tCent = .ok tcost)
    (data : List (List K)) (a δ0 V G δ : K) (W : ℤ) (hwr : WrapsWithin A a δ0 V (W : K)) (ha0 : 0 ≤ a)
    (ha : ∀ row ∈ data, ∀ x ∈ row, |x| ≤ a)
    (oT : Nat → List Nat → List Nat) (hoT : ∀ k l, (oT k l).Perm l) (Ft Fs : ℤ) (H : Nat)
    (hFt : gt.links.length * Mt * W ≤ Ft) (hFs : gs.links.length * Ms * (Ft + W) ≤ Fs) (hcap : Ft + W ≤ 2147483647)
    (R : CubeRoom A B1 η1 B2 Bd ηd ε δ0 V (W : K) G δ Ft Fs H)
    (hrt : ResidueRoom A B2 η2 G (δ + ((Ft : K) + (W : K)) * ε) gt.cycles)
    (hrs : ResidueRoom A B2 η2 G (δ + ((Ft : K) + (W : K)) * ε) gs.cycles) :
    FlowsWithin A solver e data false oT Ft Fs := by
  obtain ⟨hmgt, hmdt⟩ := dual_of_contract hct hmt
  obtain ⟨hmgs, hmds⟩ := dual_of_contract hcs hms
  have hnif : e.nifgs = gt.links.length := by unfold Emcf.nifgs; rw [hmgt]
  have hnl : e.nlinks = gs.links.length := by unfold Emcf.nlinks; rw [hmgs]
  have hordt : ∀ a b, (a, b) ∈ gt.links → a ≤ b := fun a b hab => (hct.ordered a b hab).1.le
  obtain ⟨n, hn⟩ := exists_wrapped hwr e ha0 ha false
  have hnW : ∀ i j, |n i j| ≤ W := fun i j => by exact_mod_cast (hn i j).2.1
  have hF0 := R.flows.1
  have getD_range : ∀ (m : Nat) (f : Nat → ℤ) (i : Nat), i < m → ((List.range m).map f).getD i 0 = f i := by
    intro m f i hi
    rw [List.getD_eq_getElem?_getD, List.getElem?_map, List.getElem?_range hi]; rfl
  have all_of : ∀ (l : List ℤ) (F : ℤ) (m : Nat), l.length = m → (∀ i < m, |l.getD i 0| ≤ F) → ∀ f ∈ l, |f| ≤ F := by
    intro l F m hl h f hf
    obtain ⟨i, hi, rfl⟩ := List.mem_iff_getElem.mp hf
    have := h i (by omega)
    rwa [List.getD_eq_getElem?_getD, List.getElem?_eq_getElem hi] at this
  have hT : ∀ tcost, costOf e.settings.tCostType e.nifgs e.tDist e.tCent = .ok tcost →
      ∀ j < gs.links.length, ∀ fl, residuesToFlows solver e.time
        (linkResiduesFl A e.time fun i => spaceGradFl A e data false i j) tcost none = .ok fl → ∀ f ∈ fl, |f| ≤ Ft := by
    intro tcost htc j hj fl hfl
    obtain ⟨hl, hv⟩ := hcT tcost htc
    have hv0 : ∀ v ∈ tcost, 0 ≤ v := fun v h => by have := (hv v h).1; omega
    obtain ⟨c1, c2, c3⟩ := time_cancels P hct hmt hmgs hn R hrt j
    have hcan := C10_flows_cancel gt e.time solver hct hmt hopt.1 _ _ none fl hfl
    have hch := C11_flows_cheapest gt e.time solver hct hmt hopt _ tcost none _ _ ⟨hl, .inl rfl⟩ ⟨hl, .inl rfl⟩ hv0 hv0 c1 fl hfl _ c3
      (by
        intro v hv
        obtain ⟨i, _, rfl⟩ := List.mem_map.mp hv
        have := hnW i j
        omega)
    have := cost_bound hl (fun v h => (hv v h).1) Mt (fun v h => (hv v h).2) hcan.1 c3.1 hch W (by
      intro i hi
      rw [getD_range _ _ i hi]; exact hnW i j)
    exact all_of fl Ft _ hcan.1 fun i hi => (this i hi).trans hFt
  refine ⟨by rw [hmgs]; exact hT, ?_⟩
  intro scost hsc grad hgrad i hi res fl hres hfl
  rw [hmgt] at hi
  obtain ⟨t1, t2⟩ := (inTimeFl_iff A solver e hct.distinct hordt hmt hmgt data false tcost htcost oT hoT hb grad).mp hgrad
  have hflT : ∀ j < gs.links.length, |(okVal (linkTimeFl A solver e data false tcost j)).getD i 0| ≤ Ft := by
    intro j hj
    have hok := (t1 j (by rw [hnl]; exact hj)).2
    have hbd := hT tcost htcost j hj _ hok
    by_cases hil : i < (okVal (linkTimeFl A solver e data false tcost j)).length
    · rw [List.getD_eq_getElem?_getD, List.getElem?_eq_getElem hil]
      exact hbd _ (List.getElem_mem hil)
    · rw [List.getD_eq_getElem?_getD, List.getElem?_eq_none (by omega)]
      simpa using hF0
  have hrow : grad.getD i [] = gradRow A solver e data false tcost gs.links.length i := by
    rw [t2, List.getD_eq_getElem?_getD, List.getElem?_map, List.getElem?_range (by rw [hnif]; exact hi), hnl]
    rfl
  obtain ⟨hl, hv⟩ := hcS scost hsc
  have hv0 : ∀ v ∈ scost, 0 ≤ v := fun v h => by have := (hv v h).1; omega
  obtain ⟨res', c0, c1, c2, _, c3⟩ := space_cancels P hcs hmgt hms hn R hrs i hflT
  rw [hrow, c0] at hres
  rw [← Except.ok.inj hres] at hfl
  have hcan := C10_flows_cancel gs e.space solver hcs hms hopt.1 _ _ none fl hfl
  have hNb : ∀ j < gs.links.length, |- ((okVal (linkTimeFl A solver e data false tcost j)).getD i 0 - n i j)| ≤ Ft + W := by
    intro j hj
    have h1 := abs_le.mp (hnW i j)
    have h2 := abs_le.mp (hflT j hj)
    rw [abs_le]; constructor <;> omega
  have hch := C11_flows_cheapest gs e.space solver hcs hms hopt _ scost none _ _ ⟨hl, .inl rfl⟩ ⟨hl, .inl rfl⟩ hv0 hv0 c1 fl hfl _ c3
    (by
      intro v hv
      obtain ⟨j, hj, rfl⟩ := List.mem_map.mp hv
      exact (hNb j (List.mem_range.mp hj)).trans hcap)
  have := cost_bound hl (fun v h => (hv v h).1) Ms (fun v h => (hv v h).2) hcan.1 c3.1 hch (Ft + W) (by
    intro j hj
    rw [getD_range _ _ j hj]; exact hNb j hj)
  exact all_of fl Fs _ hcan.1 fun j hj => (this j hj).trans hFs

end

end Spurt
