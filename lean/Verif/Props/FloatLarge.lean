import Verif.Spec.FloatLarge
import Verif.Props.FloatCubeReturns
import Verif.Props.FloatSingle
import Mathlib.Tactic.NormNum

/-!
# Property C73: `unwrap_cube` in mixed precision on large grids

C69 charges every link with all the roundings made on the way to its gradient. The phase of an interferogram is
rounded once per point, not once per link, so its rounding drops out around every loop: what a link adds to the closure
error is the rounding of one difference, and of the cycles added in time if there are any.
-/

namespace Spurt
open Spec

section
variable {K : Type} [Field K] [LinearOrder K] [IsStrictOrderedRing K] [FloorRing K]
variable {A : FloatArith K} {B1 η1 B2 η2 Bd ηd ε : K}

/-- The phase of interferogram `i` at point `p` as computed. -/
def storedPhase (A : FloatArith K) (links : List (Nat × Nat)) (data : List (List K)) (isIfg : Bool) (i p : Nat) : K :=
  if isIfg then elem data i p
  else phaseDiffFl A.fs A.tauS (elem data (links.getD i (0, 0)).1 p) (elem data (links.getD i (0, 0)).2 p)

theorem spaceGradFl_stored (A : FloatArith K) (e : Emcf) (data : List (List K)) (isIfg : Bool) (i j : Nat) :
    spaceGradFl A e data isIfg i j = phaseDiffFl A.fs A.tauS
      (storedPhase A e.time.graph.links data isIfg i (e.space.graph.links.getD j (0, 0)).1)
      (storedPhase A e.time.graph.links data isIfg i (e.space.graph.links.getD j (0, 0)).2) := by
  unfold spaceGradFl storedPhase
  cases isIfg <;> rfl

theorem wraps_of_once {a δ1 V : K} (h : WrapsOnce A a δ1 V) (hV : V ≤ a) (hδ : 0 ≤ δ1) : WrapsWithin A a (3 * δ1) V 3 := by
  have cast1 : ∀ n : ℤ, |n| ≤ 1 → |(n : K)| ≤ 1 := fun n hn => by
    have : |(n : K)| ≤ ((1 : ℤ) : K) := by exact_mod_cast hn
    simpa using this
  constructor
  · intro x y hx hy
    obtain ⟨n, n1, n2, n3⟩ := h x y hx hy
    exact ⟨n, n1.trans (by linarith), (cast1 n n2).trans (by norm_num), n3⟩
  · intro x x' y y' hx hx' hy hy'
    obtain ⟨n, n1, n2, n3⟩ := h x x' hx hx'
    obtain ⟨m, m1, m2, m3⟩ := h y y' hy hy'
    obtain ⟨k, k1, k2, k3⟩ := h _ _ (n3.trans hV) (m3.trans hV)
    refine ⟨m - n + k, ?_, ?_, k3⟩
    · have b1 := abs_bounds n1
      have b2 := abs_bounds m1
      have b3 := abs_bounds k1
      push_cast
      rw [abs_le]; constructor <;> linarith
    · have b1 := abs_bounds (cast1 n n2)
      have b2 := abs_bounds (cast1 m m2)
      have b3 := abs_bounds (cast1 k k2)
      push_cast
      rw [abs_le]; constructor <;> linarith

/-- The stored phase is the phase of the interferogram less at most one cycle. -/
theorem storedPhase_near (hc : |A.tau - A.tauS| ≤ ε) {a δ1 V : K} (h : WrapsOnce A a δ1 V) (hV : V ≤ a) (hδ : 0 ≤ δ1)
    (links : List (Nat × Nat)) {data : List (List K)} (ha0 : 0 ≤ a) (ha : ∀ row ∈ data, ∀ x ∈ row, |x| ≤ a) (isIfg : Bool) :
    ∃ N : Nat → Nat → ℤ, ∀ i p, |storedPhase A links data isIfg i p| ≤ a ∧
      |storedPhase A links data isIfg i p - (phaseOfIfg links data isIfg i p - (N i p : K) * A.tau)| ≤ δ1 + ε := by
  have hel := elem_le ha0 ha
  have hε : 0 ≤ ε := (abs_nonneg _).trans hc
  have hx : ∀ i p, ∃ N : ℤ, |storedPhase A links data isIfg i p| ≤ a ∧
      |storedPhase A links data isIfg i p - (phaseOfIfg links data isIfg i p - (N : K) * A.tau)| ≤ δ1 + ε := by
    intro i p
    unfold storedPhase phaseOfIfg
    cases isIfg with
    | true =>
      refine ⟨0, hel _ _, ?_⟩
      simp only [if_true, Int.cast_zero, zero_mul, sub_zero, sub_self, abs_zero]
      linarith
    | false =>
      simp only [Bool.false_eq_true, if_false]
      obtain ⟨n, n1, n2, n3⟩ := h _ _ (hel (links.getD i (0, 0)).1 p) (hel (links.getD i (0, 0)).2 p)
      refine ⟨n, n3.trans hV, ?_⟩
      have hn : |(n : K)| ≤ 1 := by
        have : |(n : K)| ≤ ((1 : ℤ) : K) := by exact_mod_cast n2
        simpa using this
      have hm : |(n : K) * (A.tau - A.tauS)| ≤ 1 * ε := by
        rw [abs_mul]; exact mul_le_mul hn hc (abs_nonneg _) zero_le_one
      have b1 := abs_bounds n1
      have b2 := abs_bounds hm
      rw [abs_le]; constructor <;> linarith
  choose N hN using hx
  exact ⟨N, hN⟩

/-- One row: `flood_fill` on gradients near `θ` with labels `κ`, stored. -/
theorem row_returns (P : Precision A B1 η1 B2 η2 Bd ηd ε) {gs : PlanarGraph}
    (hcs : PlanarContract gs.npoints gs.links gs.cycles) (hne : gs.links ≠ []) {G δ : K} {Fs : ℤ} {H : Nat}
    (hsums : 2 * ((H : K) + 1) * (G + A.tau * (Fs : K) + 3 * ηd) ≤ Bd) (hresult : (H : K) * (G + A.tau * (Fs : K) + 3 * ηd) ≤ B2)
    (hsmall : A.tol + 2 * ((H : K) + 1) * (δ + 3 * ηd) < A.tau) (htol : 2 * ((H : K) + 1) * (δ + 3 * ηd) ≤ A.tol)
    (hwalk : ∀ p < gs.npoints, ∃ L ≤ H, WalkTo gs.links L p)
    {g : List K} (hgl : g.length = gs.links.length) (hsz : ∀ x ∈ g, |x| ≤ G) {fl : List ℤ} (hfl : fl.length = gs.links.length)
    (hF : ∀ f ∈ fl, |f| ≤ Fs) (θ : Nat → K) (c κ : Nat → ℤ)
    (hnear : ∀ (j a b : Nat), gs.links[j]? = some (a, b) → |g.getD j 0 - (θ b - θ a + (c j : K) * A.tau)| ≤ δ)
    (hκ : ∀ (j a b : Nat), gs.links[j]? = some (a, b) → κ b - κ a = c j + fl.getD j 0) :
    ∃ v, floodFillFl A.fd A.tau A.tol g gs.links fl "gradients" = .ok v ∧ v.length = gs.npoints ∧
      ∀ L p, WalkTo gs.links L p → L ≤ H → p < gs.npoints →
        |A.fs (v.getD p 0) - (θ p - θ 0 + ((κ p - κ 0 : ℤ) : K) * A.tau)| ≤ (L : K) * (δ + 3 * ηd) + η2 := by
  obtain ⟨h01, h02, h0d⟩ := P.nonneg
  have ht2 := P.one_le.2
  have hlink : ∀ a b, (a, b) ∈ gs.links → a < gs.npoints ∧ b < gs.npoints := by
    intro a b hab; have := hcs.ordered a b hab; omega
  obtain ⟨v, hv⟩ := C67_gradients_returns P.double (by linarith) h0d g gs.links fl hne hfl hgl hsz hF hsums htol θ c hnear
    gs.npoints hlink hwalk κ hκ
  have hlp := List.length_pos_of_ne_nil hne
  have hδ0 : 0 ≤ δ := (abs_nonneg _).trans (hnear 0 gs.links[0].1 gs.links[0].2 (by rw [List.getElem?_eq_getElem hlp]))
  have hH0 : 0 ≤ (H : K) * (δ + 3 * ηd) := mul_nonneg (Nat.cast_nonneg _) (by linarith)
  have htol0 : 0 ≤ A.tol := le_trans (by linarith) htol
  obtain ⟨hvl, _⟩ := C67_gradients_guarantee P.double (by linarith) h0d g gs.links fl hsz hF hsums htol0 hsmall θ c hnear
    gs.npoints hlink hwalk v hv
  refine ⟨v, hv, hvl, ?_⟩
  have hargs : FfArgs g gs.links fl "gradients" := ⟨hfl.symm, .inr rfl, hne, fun _ => hgl, by simp⟩
  have hG0 : 0 ≤ G := (abs_nonneg _).trans (hsz _ (List.getElem_mem (n := 0) (by omega)))
  have hF0 : 0 ≤ Fs := (abs_nonneg _).trans (hF _ (List.getElem_mem (n := 0) (by omega)))
  have hFK : (0 : K) ≤ (Fs : K) := by exact_mod_cast hF0
  have htF : 0 ≤ A.tau * (Fs : K) := mul_nonneg (by linarith) hFK
  have hsize : gs.npoints = maxLink gs.links + 1 := by
    rw [← hvl]; exact (floodFillFl_length A hv).2
  have D := gradients_near P.double (by linarith) h0d hδ0 hG0 hsz hF hF0 hsums θ c hnear (by rw [← hsize]; exact hwalk)
  obtain ⟨l1, u, k, k1, k2, k3⟩ := (floodFillFl_near hargs D (by linarith) htol0).1 v hv (by linarith)
  intro L p hL hLH hp
  obtain ⟨c1, c2, c3⟩ := k3 L p hL hLH (by omega)
  rw [if_neg (by decide)] at c3
  have hk : k p = κ p - κ 0 := by
    have := labels_unique (links := gs.links) (k := k) (k' := κ) (fun a b hab => by
      obtain ⟨j, hj, he⟩ := List.mem_iff_getElem.mp hab
      have hj' : gs.links[j]? = some (a, b) := by rw [List.getElem?_eq_getElem hj, he]
      rw [k2 j a b hj', hκ j a b hj']) L p hL
    omega
  rw [hk] at c1
  rw [c3]
  have hLH' : (L : K) ≤ (H : K) := by exact_mod_cast hLH
  have hub : |u p| ≤ B2 := by
    refine c2.trans (le_trans ?_ hresult)
    exact (mul_le_mul_of_nonneg_right hLH' (by linarith)).trans (le_of_eq (by ring))
  have b1 := abs_bounds (P.wide.close _ hub)
  have b2 := abs_bounds c1
  rw [abs_le]
  constructor <;> linarith

/-- All rows, given the flows in time and space. -/
theorem cube_rows (P : Precision A B1 η1 B2 η2 Bd ηd ε) {solver : FlowSolver} {e : Emcf} {gt gs : PlanarGraph}
    (hct : PlanarContract gt.npoints gt.links gt.cycles) (hcs : PlanarContract gs.npoints gs.links gs.cycles)
    (hne : gs.links ≠ [])
    (hmt : ormcf gt = .ok e.time) (hms : ormcf gs = .ok e.space) (hb : 0 < e.settings.linksPerBatch)
    {tcost scost : List ℤ} (htcost : costOf e.settings.tCostType e.nifgs e.tDist e.tCent = .ok tcost)
    (hscost : costOf e.settings.sCostType e.nlinks e.sDist e.sCent = .ok scost)
    (hpool : 1 ≤ e.settings.sWorkerCount ∨ 2 ≤ e.cpuCount)
    {data : List (List K)} {isIfg : Bool} {oT : Nat → List Nat → List Nat} {oS : List Nat → List Nat}
    (hoT : ∀ k l, (oT k l).Perm l) (hoS : ∀ l, (oS l).Perm l) {T : Nat → Nat → K} {G δ : K} {Fs : ℤ} {H : Nat}
    (hsums : 2 * ((H : K) + 1) * (G + A.tau * (Fs : K) + 3 * ηd) ≤ Bd) (hresult : (H : K) * (G + A.tau * (Fs : K) + 3 * ηd) ≤ B2)
    (hsmall : A.tol + 2 * ((H : K) + 1) * (δ + 3 * ηd) < A.tau) (htol : 2 * ((H : K) + 1) * (δ + 3 * ηd) ≤ A.tol)
    (hwalk : ∀ p < gs.npoints, ∃ L ≤ H, WalkTo gs.links L p)
    (hin : ∀ j < gs.links.length, LinkInput e data isIfg j)
    (htime : ∀ j < gs.links.length, ∃ fl, linkTimeFl A solver e data isIfg tcost j = .ok fl)
    (hspace : ∀ i < gt.links.length, ∃ res fl,
      computeResiduesFromGradientsFl A e.space (gradRow A solver e data isIfg tcost gs.links.length i) = .ok res ∧
      residuesToFlows solver e.space res scost = .ok fl ∧ fl.length = gs.links.length ∧ (∀ f ∈ fl, |f| ≤ Fs) ∧
      ∃ (c κ : Nat → ℤ), (∀ (j a b : Nat), gs.links[j]? = some (a, b) → κ b - κ a = c j + fl.getD j 0) ∧
        (∀ x ∈ gradRow A solver e data isIfg tcost gs.links.length i, |x| ≤ G) ∧
        ∃ θ : Nat → K, (∀ (j a b : Nat), gs.links[j]? = some (a, b) →
          |(gradRow A solver e data isIfg tcost gs.links.length i).getD j 0 - (θ b - θ a + (c j : K) * A.tau)| ≤ δ) ∧
        ∀ p < gs.npoints, T i p = θ p - θ 0 + ((κ p - κ 0 : ℤ) : K) * A.tau) :
    ∃ grad out, unwrapInTimeFl A solver e data isIfg oT = .ok grad ∧ unwrapInSpaceFl A solver e grad oS = .ok out ∧
      out.length = gt.links.length ∧ ∀ i < gt.links.length, (out.getD i []).length = gs.npoints ∧
        ∀ L p, WalkTo gs.links L p → L ≤ H → p < gs.npoints → |elem out i p - T i p| ≤ (L : K) * (δ + 3 * ηd) + η2 := by
  obtain ⟨hmgt, hmdt⟩ := dual_of_contract hct hmt
  obtain ⟨hmgs, hmds⟩ := dual_of_contract hcs hms
  have hnif : e.nifgs = gt.links.length := by unfold Emcf.nifgs; rw [hmgt]
  have hnl : e.nlinks = gs.links.length := by unfold Emcf.nlinks; rw [hmgs]
  have hordt : ∀ a b, (a, b) ∈ gt.links → a ≤ b := fun a b hab => (hct.ordered a b hab).1.le
  have hlts : ∀ a b, (a, b) ∈ e.space.graph.links → a < b := by
    rw [hmgs]; exact fun a b hab => (hcs.ordered a b hab).1
  have hgrad := (inTimeFl_iff A solver e hct.distinct hordt hmt hmgt data isIfg tcost htcost oT hoT hb
    ((List.range e.nifgs).map fun i => gradRow A solver e data isIfg tcost e.nlinks i)).mpr ⟨fun j hj => by
      rw [hnl] at hj
      obtain ⟨fl, hfl⟩ := htime j hj
      exact ⟨hin j hj, by rw [okVal_eq hfl]; exact hfl⟩, rfl⟩
  have hrow : ∀ i < gt.links.length, ((List.range e.nifgs).map fun i => gradRow A solver e data isIfg tcost e.nlinks i).getD i [] =
      gradRow A solver e data isIfg tcost gs.links.length i := by
    intro i hi
    rw [List.getD_eq_getElem?_getD, List.getElem?_map, List.getElem?_range (by rw [hnif]; exact hi), hnl]
    rfl
  have hrows : ∀ i < gt.links.length, ∃ v, rowFl A solver e.space scost (gradRow A solver e data isIfg tcost gs.links.length i) =
      .ok v ∧ v.length = gs.npoints ∧
      ∀ L p, WalkTo gs.links L p → L ≤ H → p < gs.npoints → |v.getD p 0 - T i p| ≤ (L : K) * (δ + 3 * ηd) + η2 := by
    intro i hi
    obtain ⟨res, fl, hres, hfl, hfll, hflb, c, κ, hκ, hsz, θ, hnear, hT⟩ := hspace i hi
    obtain ⟨v, v1, v2, v3⟩ := row_returns P hcs hne hsums hresult hsmall htol hwalk
      (g := gradRow A solver e data isIfg tcost gs.links.length i) (by simp [gradRow]) hsz hfll hflb θ c κ hnear hκ
    refine ⟨v.map A.fs, rowFl_ok.mpr ⟨v, ?_, rfl⟩, by simpa using v2, ?_⟩
    · unfold unwrapIfgFl
      rw [hres]
      simp only [Bind.bind, Except.bind]
      rw [hfl]
      simp only [hmgs]
      exact v1
    · intro L p hL hLH hp
      rw [hT p hp]
      have : (v.map A.fs).getD p 0 = A.fs (v.getD p 0) := by
        have hpl : p < v.length := by omega
        simp [List.getD_eq_getElem?_getD, hpl]
      rw [this]
      exact v3 L p hL hLH hp
  choose! v hv hvl hvn using hrows
  have hget : ∀ i < gt.links.length, ((List.range gt.links.length).map v).getD i [] = v i := by
    intro i hi
    rw [List.getD_eq_getElem?_getD, List.getElem?_map, List.getElem?_range hi]; rfl
  refine ⟨_, (List.range gt.links.length).map v, hgrad, ?_, by simp, ?_⟩
  · rw [rowsFl A solver e hlts scost hscost hpool _ oS hoS, hmgt, hmgs]
    refine ⟨by simp, fun i hi => ?_⟩
    rw [hget i hi, hrow i hi]
    exact ⟨hv i hi, hvl i hi⟩
  · intro i hi
    refine ⟨by rw [hget i hi]; exact hvl i hi, fun L p hL hLH hp => ?_⟩
    unfold elem
    rw [hget i hi]
    exact hvn i hi L p hL hLH hp

/-- C73. Itoh in mixed precision: as `C69_itoh`, but a link adds only the rounding `δ1` of one wrapped difference to the
closure error, so `2 (H + 1) (δ1 + 3 ηd)` within the tolerance of `flood_fill` is enough for `unwrap_cube` to return. -/
theorem C73_itoh (P : Precision A B1 η1 B2 η2 Bd ηd ε) (hz : AddsNothing A) (solver : FlowSolver) (e : Emcf) (gt gs : PlanarGraph)
    (hct : PlanarContract gt.npoints gt.links gt.cycles) (hcs : PlanarContract gs.npoints gs.links gs.cycles)
    (hne : gs.links ≠ []) (hmt : ormcf gt = .ok e.time) (hms : ormcf gs = .ok e.space)
    (hb : 0 < e.settings.linksPerBatch) (hpool : 1 ≤ e.settings.sWorkerCount ∨ 2 ≤ e.cpuCount)
    (tcost scost : List ℤ) (htcost : costOf e.settings.tCostType e.nifgs e.tDist e.tCent = .ok tcost)
    (hscost : costOf e.settings.sCostType e.nlinks e.sDist e.sCent = .ok scost)
    (w : CubeInput K) (hnd : w.ndim = 2) (htd : w.timeDim = 0) (isIfg : Bool)
    (hw : if isIfg then w.data.length = gt.links.length ∧ gt.links.length ≠ gt.npoints else w.data.length = gt.npoints)
    (hrows : w.data ≠ []) (hcols : ∀ row ∈ w.data, row.length = gs.npoints)
    (a δ1 V G δ e0 : K) (hwr : WrapsOnce A a δ1 V) (hVa : V ≤ a) (hδ1 : 0 ≤ δ1) (ha0 : 0 ≤ a)
    (ha : ∀ row ∈ w.data, ∀ x ∈ row, |x| ≤ a)
    (ψ : Nat → Nat → K) (κ : Nat → Nat → ℤ)
    (hψ : ∀ i s t : Nat, gt.links[i]? = some (s, t) → ∀ p < gs.npoints,
      |phaseOfIfg gt.links w.data isIfg i p - (ψ t p - ψ s p - (κ i p : K) * A.tau)| ≤ e0)
    (hsmooth : ∀ s t p q, (s, t) ∈ gt.links → (p, q) ∈ gs.links →
      |(ψ t q - ψ s q) - (ψ t p - ψ s p)| + V + δ + 2 * e0 < A.tau)
    (oT : Nat → List Nat → List Nat) (oS : List Nat → List Nat)
    (hoT : ∀ k l, (oT k l).Perm l) (hoS : ∀ l, (oS l).Perm l) (H : Nat)
    (R : CubeRoom A B1 η1 B2 Bd ηd ε (3 * δ1) V 3 G δ 0 0 H)
    (hwalk : ∀ p < gs.npoints, ∃ L ≤ H, WalkTo gs.links L p)
    (htol : 2 * ((H : K) + 1) * (δ1 + 3 * ηd) ≤ A.tol)
    (hrt : ResidueRoom A B2 η2 G (δ + 2 * e0) gt.cycles) (hrs : ResidueRoom A B2 η2 G (δ + 2 * e0) gs.cycles) :
    ∃ out, unwrapCubeFl A solver e w oT oS = .ok out ∧ out.length = gt.links.length ∧
      ∀ i s t : Nat, gt.links[i]? = some (s, t) → (out.getD i []).length = gs.npoints ∧
        ∀ L p, WalkTo gs.links L p → L ≤ H → p < gs.npoints →
          |elem out i p - ((ψ t p - ψ s p) - (ψ t 0 - ψ s 0))| ≤
            (L : K) * (δ1 + ε + 3 * ηd) + η2 + 2 * (e0 + δ1 + ε) := by
  obtain ⟨hmgt, hmdt⟩ := dual_of_contract hct hmt
  obtain ⟨hmgs, hmds⟩ := dual_of_contract hcs hms
  obtain ⟨h01, h02, h0d⟩ := P.nonneg
  have ht1 := P.one_le.1
  have ht2 := P.one_le.2
  have ht0 : 0 < A.tau := by linarith
  have hε0 : 0 ≤ ε := (abs_nonneg _).trans P.close
  have herr := R.error
  obtain ⟨n, hn, hin, htime0, hspace0, hlab, hgrad, hrowi⟩ := itoh_flows P solver e gt gs hct hcs hmt hms hb tcost scost
    htcost hscost w isIfg hw hrows hcols a (3 * δ1) V 3 G δ e0 (wraps_of_once hwr hVa hδ1) ha0 ha ψ κ hψ hsmooth oT hoT H R hrt hrs
  obtain ⟨N, hN⟩ := storedPhase_near P.close hwr hVa hδ1 gt.links ha0 ha isIfg
  set Y : Nat → Nat → K := fun i p => storedPhase A gt.links w.data isIfg i p with hY
  have hgY : ∀ i j, spaceGradFl A e w.data isIfg i j =
      phaseDiffFl A.fs A.tauS (Y i (gs.links.getD j (0, 0)).1) (Y i (gs.links.getD j (0, 0)).2) := by
    intro i j
    rw [spaceGradFl_stored, hmgt, hmgs]
  set C : Nat → Nat → ℤ := fun i p => κ i p + N i p with hC
  -- the stored phases are the true ones less `C` cycles
  have hYD : ∀ i s t : Nat, gt.links[i]? = some (s, t) → ∀ p < gs.npoints,
      |Y i p - (ψ t p - ψ s p - (C i p : K) * A.tau)| ≤ e0 + δ1 + ε := by
    intro i s t hi p hp
    have b1 := abs_bounds (hψ i s t hi p hp)
    have b2 := abs_bounds (hN i p).2
    simp only [hY, hC]
    push_cast
    rw [abs_le]; constructor <;> linarith
  have hgrow : ∀ i < gt.links.length, ∀ j < gs.links.length,
      (gradRow A solver e w.data isIfg tcost gs.links.length i).getD j 0 = spaceGradFl A e w.data isIfg i j := by
    intro i hi j hj
    have hzero : (okVal (linkTimeFl A solver e w.data isIfg tcost j)).getD i 0 = 0 := by
      rw [okVal_eq (htime0 j hj), List.getD_eq_getElem _ _ (by simpa using hi)]
      simp
    rw [gradRow, List.getD_eq_getElem?_getD, List.getElem?_map, List.getElem?_range hj, Option.map_some, Option.getD_some, hzero, hgY]
    unfold addCyclesFl phaseDiffFl
    exact hz _
  have hstep : ∀ (i s t j p q : Nat), gt.links[i]? = some (s, t) → gs.links[j]? = some (p, q) →
      |C i q - C i p| ≤ 1 ∧ |spaceGradFl A e w.data isIfg i j - (Y i q + (C i q : K) * A.tauS - (Y i p + (C i p : K) * A.tauS))| ≤ δ1 := by
    intro i s t j p q hi hj
    have hmem : (p, q) ∈ gs.links := List.mem_of_getElem? hj
    have ho := hcs.ordered p q hmem
    have hge : gs.links.getD j (0, 0) = (p, q) := by rw [List.getD_eq_getElem?_getD, hj]; rfl
    obtain ⟨m, m1, m2, m3⟩ := hwr (Y i p) (Y i q) (hN i p).1 (hN i q).1
    have hmK : |(m : K)| ≤ 1 := by
      have : |(m : K)| ≤ ((1 : ℤ) : K) := by exact_mod_cast m2
      simpa using this
    have hmis : |(m : K) * (A.tau - A.tauS)| ≤ 1 * ε := by
      rw [abs_mul]; exact mul_le_mul hmK P.close (abs_nonneg _) zero_le_one
    have b1 := abs_bounds m1
    have b3 := abs_bounds m3
    have b4 := abs_bounds hmis
    have b5 := abs_bounds (hYD i s t hi p (by omega))
    have b6 := abs_bounds (hYD i s t hi q ho.2)
    have hsm := hsmooth s t p q (List.mem_of_getElem? hi) hmem
    have b7 := abs_bounds (le_refl |(ψ t q - ψ s q) - (ψ t p - ψ s p)|)
    have hzero : C i q - C i p + m = 0 := by
      apply int_zero_of_lt ht0
      push_cast
      rw [abs_lt]; constructor <;> linarith
    have hmC : m = - (C i q - C i p) := by omega
    refine ⟨by rw [← abs_neg, ← hmC]; exact m2, ?_⟩
    rw [hgY, hge]
    rw [hmC] at b1
    push_cast at b1
    rw [abs_le]; constructor <;> linarith
  obtain ⟨grad, out, o1, o2, o3, o4⟩ := cube_rows (T := fun i p => Y i p + (C i p : K) * A.tauS - (Y i 0 + (C i 0 : K) * A.tauS))
    (G := G) (δ := δ1) (Fs := 0) (H := H) P hct hcs hne hmt hms hb htcost hscost hpool hoT hoS R.sums R.result
    (by
      have h1 := R.tol.2
      have h2 : 2 * ((H : K) + 1) * (δ1 + 3 * ηd) ≤ 2 * ((H : K) + 1) * (δ + 3 * ηd) :=
        mul_le_mul_of_nonneg_left (by linarith) (by positivity)
      linarith) htol hwalk hin (fun j hj => ⟨_, htime0 j hj⟩) (by
      intro i hi
      obtain ⟨res, r1, r2⟩ := hspace0 i hi
      refine ⟨res, _, r1, r2, by simp, ?_, fun _ => 0, fun _ => 0, ?_, ?_, fun p => Y i p + (C i p : K) * A.tauS, ?_, ?_⟩
      · intro f hf
        rw [List.eq_of_mem_replicate hf]; simp
      · intro j p q hj
        obtain ⟨hj', _⟩ := List.getElem?_eq_some_iff.mp hj
        rw [List.getD_eq_getElem _ _ (by simpa using hj')]
        simp
      · intro x hx
        obtain ⟨j, hj, rfl⟩ := List.mem_iff_getElem.mp hx
        have hj' : j < gs.links.length := by simpa [gradRow] using hj
        have h1 := hgrow i hi j hj'
        rw [List.getD_eq_getElem _ _ hj] at h1
        rw [h1]
        have h2 := (hn i j).2.2
        have h3 := R.gradient.1
        rw [Int.cast_zero, mul_zero, add_zero] at h3
        linarith
      · intro j p q hj
        obtain ⟨hj', _⟩ := List.getElem?_eq_some_iff.mp hj
        rw [hgrow i hi j hj', Int.cast_zero, zero_mul, add_zero]
        exact (hstep i _ _ j p q (List.getElem?_eq_getElem hi) hj).2
      · intro p _
        simp)
  refine ⟨out, unwrapCubeFl_ok.mpr ⟨isIfg, grad, ?_, o1, o2⟩, o3, ?_⟩
  · unfold cubeKind Emcf.nepochs Emcf.nifgs
    rw [hmgt, if_neg (by simpa using hnd), if_neg (by simpa using htd)]
    cases isIfg with
    | true =>
      simp only [if_true] at hw
      rw [if_neg (by rw [hw.1]; exact hw.2), if_pos hw.1]
    | false =>
      rw [if_pos (by simpa using hw)]
  · intro i s t hi
    obtain ⟨hi', he⟩ := List.getElem?_eq_some_iff.mp hi
    obtain ⟨p1, p2⟩ := o4 i hi'
    refine ⟨p1, fun L p hL hLH hp => ?_⟩
    have hCL : ∀ L p, WalkTo gs.links L p → |C i p - C i 0| ≤ (L : ℤ) := by
      intro L p hL
      induction hL with
      | start => simp
      | @step L p q _ hadj ih =>
        have key : |C i q - C i p| ≤ 1 := by
          rcases hadj with h | h
          · obtain ⟨j, hj, hje⟩ := List.mem_iff_getElem.mp h
            exact (hstep i s t j p q hi (by rw [List.getElem?_eq_getElem hj, hje])).1
          · obtain ⟨j, hj, hje⟩ := List.mem_iff_getElem.mp h
            rw [abs_sub_comm]
            exact (hstep i s t j q p hi (by rw [List.getElem?_eq_getElem hj, hje])).1
        push_cast
        rw [abs_le] at *
        omega
    have hCK : |((C i p - C i 0 : ℤ) : K)| ≤ (L : K) := by exact_mod_cast hCL L p hL
    have hmis : |((C i p - C i 0 : ℤ) : K) * (A.tau - A.tauS)| ≤ (L : K) * ε := by
      rw [abs_mul]; exact mul_le_mul hCK P.close (abs_nonneg _) (Nat.cast_nonneg _)
    have b1 := abs_bounds (p2 L p hL hLH hp)
    have b2 := abs_bounds hmis
    have b3 := abs_bounds (hYD i s t hi p hp)
    have b4 := abs_bounds (hYD i s t hi 0 (by omega))
    push_cast at b2
    have e1 : (L : K) * (δ1 + ε + 3 * ηd) = (L : K) * (δ1 + 3 * ηd) + (L : K) * ε := by ring
    rw [e1, abs_le]; constructor <;> linarith

/-- C73. Any SLC phases in mixed precision: as `C69_returns` and `C69_guarantee`, but a link adds only the rounding of one
wrapped difference and of the cycles added in time to the closure error. -/
theorem C73_returns (P : Precision A B1 η1 B2 η2 Bd ηd ε) (solver : FlowSolver) (e : Emcf) (gt gs : PlanarGraph)
    (hct : PlanarContract gt.npoints gt.links gt.cycles) (hcs : PlanarContract gs.npoints gs.links gs.cycles)
    (hne : gs.links ≠ []) (hgen : CyclesGenerate K gs.links gs.cycles)
    (hmt : ormcf gt = .ok e.time) (hms : ormcf gs = .ok e.space) (hsound : SolverSound solver) (hcomp : SolverComplete solver)
    (hb : 0 < e.settings.linksPerBatch) (hpool : 1 ≤ e.settings.sWorkerCount ∨ 2 ≤ e.cpuCount)
    (tcost ct scost cs : List ℤ) (htcost : costOf e.settings.tCostType e.nifgs e.tDist e.tCent = .ok tcost)
    (hct1 : CostOn gt.links.length tcost ct) (hct0 : ∀ v ∈ ct, 0 ≤ v)
    (hscost : costOf e.settings.sCostType e.nlinks e.sDist e.sCent = .ok scost)
    (hcs1 : CostOn gs.links.length scost cs) (hcs0 : ∀ v ∈ cs, 0 ≤ v)
    (w : CubeInput K) (hnd : w.ndim = 2) (htd : w.timeDim = 0) (hw : w.data.length = gt.npoints)
    (hrows : w.data ≠ []) (hcols : ∀ row ∈ w.data, row.length = gs.npoints)
    (a δ1 V G δ : K) (hwr : WrapsOnce A a δ1 V) (hVa : V ≤ a) (hδ1 : 0 ≤ δ1) (ha0 : 0 ≤ a)
    (ha : ∀ row ∈ w.data, ∀ x ∈ row, |x| ≤ a)
    (oT : Nat → List Nat → List Nat) (oS : List Nat → List Nat)
    (hoT : ∀ k l, (oT k l).Perm l) (hoS : ∀ l, (oS l).Perm l) (Ft Fs : ℤ) (H : Nat)
    (R : CubeRoom A B1 η1 B2 Bd ηd ε (3 * δ1) V 3 G δ Ft Fs H) (hF : FlowsWithin A solver e w.data false oT Ft Fs)
    (hwalk : ∀ p < gs.npoints, ∃ L ≤ H, WalkTo gs.links L p)
    (htol : 2 * ((H : K) + 1) * (δ1 + η1 + ε + 5 * ηd) ≤ A.tol) (hcap : (Ft : K) + 3 ≤ 2147483647)
    (hrt : ResidueRoom A B2 η2 G (δ + ((Ft : K) + 3) * ε) gt.cycles)
    (hrs : ResidueRoom A B2 η2 G (δ + ((Ft : K) + 3) * ε) gs.cycles) :
    ∃ out, unwrapCubeFl A solver e w oT oS = .ok out ∧ out.length = gt.links.length ∧
      ∀ i s t : Nat, gt.links[i]? = some (s, t) → (out.getD i []).length = gs.npoints ∧
        ∀ L p, WalkTo gs.links L p → L ≤ H → p < gs.npoints →
          ∃ k : ℤ, |elem out i p - ((elem w.data t p - elem w.data s p) - (elem w.data t 0 - elem w.data s 0) + (k : K) * A.tau)| ≤
            (L : K) * (δ1 + η1 + ε + 5 * ηd) + η2 + 2 * (δ1 + ε) := by
  obtain ⟨hmgt, hmdt⟩ := dual_of_contract hct hmt
  obtain ⟨hmgs, hmds⟩ := dual_of_contract hcs hms
  obtain ⟨h01, h02, h0d⟩ := P.nonneg
  have ht1 := P.one_le.1
  have ht2 := P.one_le.2
  have ht0 : 0 < A.tau := by linarith
  have hε0 : 0 ≤ ε := (abs_nonneg _).trans P.close
  have herr := R.error
  have hFtK : (0 : K) ≤ (Ft : K) := by exact_mod_cast R.flows.1
  have hFsK : (0 : K) ≤ (Fs : K) := by exact_mod_cast R.flows.2
  have htF : 0 ≤ A.tau * (Fs : K) := mul_nonneg (by linarith) hFsK
  have htFt : 0 ≤ A.tau * (Ft : K) := mul_nonneg (by linarith) hFtK
  obtain ⟨n, hn, hin, htime, hspace⟩ := slc_flows P solver e gt gs hct hcs hgen hmt hms hsound hcomp hb tcost ct scost cs
    htcost hct1 hct0 hscost hcs1 hcs0 w hw hrows hcols a (3 * δ1) V 3 G δ (wraps_of_once hwr hVa hδ1) ha0 ha oT hoT Ft Fs H R hF
    hwalk hcap hrt hrs
  have hV0 : 0 ≤ V := (abs_nonneg _).trans (hn 0 0).2.2
  have hG0 : 0 ≤ G := by linarith [R.gradient.1]
  have hGd : G ≤ Bd := by
    have := R.sums
    have hH0 : 0 ≤ (H : K) * (G + A.tau * (Fs : K) + 3 * ηd) := mul_nonneg (Nat.cast_nonneg _) (by linarith)
    linarith
  have h2δ : 2 * δ < A.tau := by
    have := R.tol.2
    have h1 := R.tol.1
    have hH0 : 0 ≤ (H : K) * (δ + 3 * ηd) := mul_nonneg (Nat.cast_nonneg _) (by linarith)
    linarith
  obtain ⟨N, hN⟩ := storedPhase_near P.close hwr hVa hδ1 gt.links ha0 ha false
  set Y : Nat → Nat → K := fun i p => storedPhase A gt.links w.data false i p with hY
  set X : Nat → Nat → K := fun i p => phaseOfIfg gt.links w.data false i p with hX
  have hgY : ∀ i j, spaceGradFl A e w.data false i j =
      phaseDiffFl A.fs A.tauS (Y i (gs.links.getD j (0, 0)).1) (Y i (gs.links.getD j (0, 0)).2) := by
    intro i j
    rw [spaceGradFl_stored, hmgt, hmgs]
  have hstep : ∀ (i j p q : Nat), gs.links[j]? = some (p, q) →
      ∃ m : ℤ, n i j - m = N i q - N i p ∧ |spaceGradFl A e w.data false i j - (Y i q - Y i p - (m : K) * A.tau)| ≤ δ1 + ε := by
    intro i j p q hj
    have hge : gs.links.getD j (0, 0) = (p, q) := by rw [List.getD_eq_getElem?_getD, hj]; rfl
    obtain ⟨m, m1, m2, m3⟩ := hwr (Y i p) (Y i q) (hN i p).1 (hN i q).1
    have hmK : |(m : K)| ≤ 1 := by
      have : |(m : K)| ≤ ((1 : ℤ) : K) := by exact_mod_cast m2
      simpa using this
    have hmis : |(m : K) * (A.tau - A.tauS)| ≤ 1 * ε := by
      rw [abs_mul]; exact mul_le_mul hmK P.close (abs_nonneg _) zero_le_one
    obtain ⟨w1, w2, _⟩ := hn i j
    rw [hmgt, hmgs, hge, hgY, hge] at w1
    have hmis' : |(n i j : K) * (A.tau - A.tauS)| ≤ 3 * ε := by
      rw [abs_mul]; exact mul_le_mul w2 P.close (abs_nonneg _) (by norm_num)
    have b1 := abs_bounds m1
    have b2 := abs_bounds hmis
    have b3 := abs_bounds w1
    have b4 := abs_bounds hmis'
    have b5 := abs_bounds (hN i p).2
    have b6 := abs_bounds (hN i q).2
    refine ⟨m, ?_, ?_⟩
    · have : N i q - N i p - n i j + m = 0 := by
        apply int_zero_of_lt ht0
        push_cast
        simp only at b1 b3 b5 b6
        rw [abs_lt]; constructor <;> linarith
      omega
    · rw [hgY, hge]
      rw [abs_le]; constructor <;> linarith
  have hm : ∀ i j, ∃ m : ℤ, ∀ p q, gs.links[j]? = some (p, q) → n i j - m = N i q - N i p ∧
      |spaceGradFl A e w.data false i j - (Y i q - Y i p - (m : K) * A.tau)| ≤ δ1 + ε := by
    intro i j
    cases hj : gs.links[j]? with
    | none => exact ⟨0, fun p q h => by simp at h⟩
    | some pq =>
      obtain ⟨m, hm⟩ := hstep i j pq.1 pq.2 hj
      refine ⟨m, fun p q h => ?_⟩
      simp only [Option.some.injEq] at h
      rw [h] at hm
      exact hm
  choose m hm using hm
  have hflT : ∀ i, ∀ j < gs.links.length, |(okVal (linkTimeFl A solver e w.data false tcost j)).getD i 0| ≤ Ft := by
    intro i j hj
    obtain ⟨f, hf, hbd⟩ := htime j hj
    rw [okVal_eq hf]
    by_cases hil : i < f.length
    · rw [List.getD_eq_getElem?_getD, List.getElem?_eq_getElem hil]
      exact hbd _ (List.getElem_mem hil)
    · rw [List.getD_eq_getElem?_getD, List.getElem?_eq_none (by omega)]
      simpa using R.flows.1
  have hadd : ∀ i, ∀ j < gs.links.length,
      |addCyclesFl A (spaceGradFl A e w.data false i j) ((okVal (linkTimeFl A solver e w.data false tcost j)).getD i 0) -
        (spaceGradFl A e w.data false i j + A.tau * (((okVal (linkTimeFl A solver e w.data false tcost j)).getD i 0 : ℤ) : K))| ≤ η1 + 2 * ηd ∧
      |addCyclesFl A (spaceGradFl A e w.data false i j) ((okVal (linkTimeFl A solver e w.data false tcost j)).getD i 0)| ≤ G := by
    intro i j hj
    have hg := R.gradient
    obtain ⟨g1, g2⟩ := addCyclesFl_near P (hn i j).2.2 (hflT i j hj) (by linarith) (by linarith)
    exact ⟨g1, by linarith⟩
  choose! res fl κ s1 s2 s3 s4 s5 using hspace
  obtain ⟨grad, out, o1, o2, o3, o4⟩ := cube_rows
    (T := fun i p => Y i p - Y i 0 + ((κ i p + N i p - (κ i 0 + N i 0) : ℤ) : K) * A.tau)
    (G := G) (δ := δ1 + η1 + 2 * ηd + ε) (Fs := Fs) (H := H) P hct hcs hne hmt hms hb htcost hscost hpool hoT hoS R.sums R.result
    (by
      have h1 := R.tol.2
      have h2 : 2 * ((H : K) + 1) * (δ1 + η1 + 2 * ηd + ε + 3 * ηd) ≤ 2 * ((H : K) + 1) * (δ + 3 * ηd) :=
        mul_le_mul_of_nonneg_left (by linarith) (by positivity)
      linarith) (by
      have : δ1 + η1 + 2 * ηd + ε + 3 * ηd = δ1 + η1 + ε + 5 * ηd := by ring
      rw [this]; exact htol) hwalk hin (fun j hj => by
        obtain ⟨f, hf, _⟩ := htime j hj
        exact ⟨f, hf⟩) (by
      intro i hi
      refine ⟨res i, fl i, s1 i hi, s2 i hi, s3 i hi, s4 i hi,
        fun j => (okVal (linkTimeFl A solver e w.data false tcost j)).getD i 0 - m i j, fun p => κ i p + N i p, ?_, ?_, fun p => Y i p, ?_, ?_⟩
      · intro j p q hj
        have h1 := s5 i hi j p q hj
        have h2 := (hm i j p q hj).1
        beta_reduce
        omega
      · intro x hx
        obtain ⟨j, hj, rfl⟩ := List.mem_map.mp hx
        exact (hadd i j (List.mem_range.mp hj)).2
      · intro j p q hj
        obtain ⟨hj', _⟩ := List.getElem?_eq_some_iff.mp hj
        rw [gradRow, List.getD_eq_getElem?_getD, List.getElem?_map, List.getElem?_range hj', Option.map_some, Option.getD_some]
        have b1 := abs_bounds (hadd i j hj').1
        have b2 := abs_bounds (hm i j p q hj).2
        push_cast
        rw [abs_le]; constructor <;> linarith
      · intro p _
        rfl)
  refine ⟨out, unwrapCubeFl_ok.mpr ⟨false, grad, ?_, o1, o2⟩, o3, ?_⟩
  · unfold cubeKind Emcf.nepochs
    rw [hmgt, if_neg (by simpa using hnd), if_neg (by simpa using htd), if_pos hw]
  · intro i s t hi
    obtain ⟨hi', he⟩ := List.getElem?_eq_some_iff.mp hi
    obtain ⟨p1, p2⟩ := o4 i hi'
    refine ⟨p1, fun L p hL hLH hp => ⟨κ i p - κ i 0, ?_⟩⟩
    have b1 := abs_bounds (p2 L p hL hLH hp)
    have b2 := abs_bounds (hN i p).2
    have b3 := abs_bounds (hN i 0).2
    have hph : ∀ p, phaseOfIfg gt.links w.data false i p = elem w.data t p - elem w.data s p := by
      intro p
      unfold phaseOfIfg
      rw [List.getD_eq_getElem?_getD, hi]
      rfl
    rw [hph] at b2 b3
    simp only [hY] at b1
    push_cast at b1 ⊢
    have e1 : (L : K) * (δ1 + η1 + ε + 5 * ηd) = (L : K) * (δ1 + η1 + 2 * ηd + ε + 3 * ηd) := by ring
    rw [e1, abs_le]; constructor <;> linarith

/-- C73. Under the hypotheses of Itoh the solver is never asked to move a cycle, whatever the distance of the points: every flow, in
time and in space, is zero. -/
theorem C73_no_flows (P : Precision A B1 η1 B2 η2 Bd ηd ε) (solver : FlowSolver) (e : Emcf) (gt gs : PlanarGraph)
    (hct : PlanarContract gt.npoints gt.links gt.cycles) (hcs : PlanarContract gs.npoints gs.links gs.cycles)
    (hmt : ormcf gt = .ok e.time) (hms : ormcf gs = .ok e.space) (hb : 0 < e.settings.linksPerBatch)
    (tcost scost : List ℤ) (htcost : costOf e.settings.tCostType e.nifgs e.tDist e.tCent = .ok tcost)
    (hscost : costOf e.settings.sCostType e.nlinks e.sDist e.sCent = .ok scost)
    (w : CubeInput K) (isIfg : Bool)
    (hw : if isIfg then w.data.length = gt.links.length ∧ gt.links.length ≠ gt.npoints else w.data.length = gt.npoints)
    (hrows : w.data ≠ []) (hcols : ∀ row ∈ w.data, row.length = gs.npoints)
    (a δ0 V W G δ e0 : K) (hwr : WrapsWithin A a δ0 V W) (ha0 : 0 ≤ a) (ha : ∀ row ∈ w.data, ∀ x ∈ row, |x| ≤ a)
    (ψ : Nat → Nat → K) (κ : Nat → Nat → ℤ)
    (hψ : ∀ i s t : Nat, gt.links[i]? = some (s, t) → ∀ p < gs.npoints,
      |phaseOfIfg gt.links w.data isIfg i p - (ψ t p - ψ s p - (κ i p : K) * A.tau)| ≤ e0)
    (hsmooth : ∀ s t p q, (s, t) ∈ gt.links → (p, q) ∈ gs.links →
      |(ψ t q - ψ s q) - (ψ t p - ψ s p)| + V + δ + 2 * e0 < A.tau)
    (oT : Nat → List Nat → List Nat) (hoT : ∀ k l, (oT k l).Perm l) (H : Nat)
    (R : CubeRoom A B1 η1 B2 Bd ηd ε δ0 V W G δ 0 0 H)
    (hrt : ResidueRoom A B2 η2 G (δ + 2 * e0) gt.cycles) (hrs : ResidueRoom A B2 η2 G (δ + 2 * e0) gs.cycles) :
    FlowsWithin A solver e w.data isIfg oT 0 0 := by
  obtain ⟨n, hn, hin, htime0, hspace0, hlab, hgrad, hrowi⟩ := itoh_flows P solver e gt gs hct hcs hmt hms hb tcost scost
    htcost hscost w isIfg hw hrows hcols a δ0 V W G δ e0 hwr ha0 ha ψ κ hψ hsmooth oT hoT H R hrt hrs
  obtain ⟨hmgt, hmdt⟩ := dual_of_contract hct hmt
  obtain ⟨hmgs, hmds⟩ := dual_of_contract hcs hms
  constructor
  · intro tc htc j hj fl hfl f hf
    rw [htcost, Except.ok.injEq] at htc
    subst htc
    rw [hmgs] at hj
    have h1 := htime0 j hj
    unfold linkTimeFl at h1
    rw [h1] at hfl
    rw [← Except.ok.inj hfl] at hf
    rw [List.eq_of_mem_replicate hf]; simp
  · intro sc hsc gr hgr' i hi res fl hres hfl f hf
    rw [hscost, Except.ok.injEq] at hsc
    subst hsc
    rw [hmgt] at hi
    rw [hgrad] at hgr'
    rw [← Except.ok.inj hgr', hrowi i hi] at hres
    obtain ⟨res', r1, r2⟩ := hspace0 i hi
    rw [r1] at hres
    rw [← Except.ok.inj hres, r2] at hfl
    rw [← Except.ok.inj hfl] at hf
    rw [List.eq_of_mem_replicate hf]; simp

end

end Spurt
