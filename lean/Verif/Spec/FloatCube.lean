import Verif.Spec.Float
import Verif.Model.FloatCube

/-! # Specification vocabulary for `unwrap_cube` in mixed precision -/

namespace Spurt.Spec

/-- `fs` moves numbers up to `B1` by at most `η1` and numbers up to `B2` by at most `η2`, `fd` moves numbers
up to `Bd` by at most `ηd`, and the two constants `2 * np.pi` differ by at most `ε`. -/
structure Precision {K : Type} [Field K] [LinearOrder K] (A : FloatArith K) (B1 η1 B2 η2 Bd ηd ε : K) : Prop where
  single : Rounds A.fs B1 η1
  wide : Rounds A.fs B2 η2
  double : Rounds A.fd Bd ηd
  nonneg : 0 ≤ η1 ∧ 0 ≤ η2 ∧ 0 ≤ ηd
  one_le : 1 ≤ A.tauS ∧ 1 ≤ A.tau
  close : |A.tau - A.tauS| ≤ ε

/-- The phase of interferogram `i` at point `p`: the data themselves, or the difference of the two
acquisitions `links[i]`. -/
def phaseOfIfg {K : Type} [Field K] (links : List (Nat × Nat)) (data : List (List K)) (isIfg : Bool) (i p : Nat) : K :=
  if isIfg then elem data i p
  else elem data (links.getD i (0, 0)).2 p - elem data (links.getD i (0, 0)).1 p

/-- On data up to `a` the wrapped differences `phase_diff` computes are, up to `δ0`, the differences less
at most `W` whole cycles, and at most `V`: for the difference of two interferogram phases, and for the double
difference of four acquisitions. -/
structure WrapsWithin {K : Type} [Field K] [LinearOrder K] [FloorRing K] (A : FloatArith K) (a δ0 V W : K) : Prop where
  ifg : ∀ x y, |x| ≤ a → |y| ≤ a → ∃ n : ℤ,
    |phaseDiffFl A.fs A.tauS x y - (y - x - (n : K) * A.tauS)| ≤ δ0 ∧ |(n : K)| ≤ W ∧ |phaseDiffFl A.fs A.tauS x y| ≤ V
  slc : ∀ x x' y y', |x| ≤ a → |x'| ≤ a → |y| ≤ a → |y'| ≤ a → ∃ n : ℤ,
    |phaseDiffFl A.fs A.tauS (phaseDiffFl A.fs A.tauS x x') (phaseDiffFl A.fs A.tauS y y') -
      ((y' - y) - (x' - x) - (n : K) * A.tauS)| ≤ δ0 ∧ |(n : K)| ≤ W ∧
    |phaseDiffFl A.fs A.tauS (phaseDiffFl A.fs A.tauS x x') (phaseDiffFl A.fs A.tauS y y')| ≤ V

/-- The numbers `unwrap_cube` meets after wrapping, with at most `Ft` and `Fs` cycles per link from the
flow solver, on a graph whose points are within `H` links of the first, are in the ranges of `Precision`.
`G` bounds the unwrapped gradients in time and `δ` their error. -/
structure CubeRoom {K : Type} [Field K] [LinearOrder K] (A : FloatArith K) (B1 η1 B2 Bd ηd ε δ0 V W G δ : K) (Ft Fs : ℤ)
    (H : Nat) : Prop where
  flows : 0 ≤ Ft ∧ 0 ≤ Fs
  gradient : V + η1 + A.tau * (Ft : K) + 2 * ηd ≤ G ∧ G ≤ B1
  error : δ0 + η1 + 2 * ηd + W * ε ≤ δ
  sums : 2 * ((H : K) + 1) * (G + A.tau * (Fs : K) + 3 * ηd) ≤ Bd
  result : (H : K) * (G + A.tau * (Fs : K) + 3 * ηd) ≤ B2
  tol : 0 ≤ A.tol ∧ A.tol + 2 * ((H : K) + 1) * (δ + 3 * ηd) < A.tau

/-- The sums around the cycles are in range and rounded to the right whole number when the summands
are within `r` of differences plus whole cycles. -/
def ResidueRoom {K : Type} [Field K] [LinearOrder K] (A : FloatArith K) (B2 η2 G r : K) (cycles : List (List Nat)) : Prop :=
  ∀ c ∈ cycles, (c.length : K) * (G + η2) ≤ B2 ∧ (c.length : K) * (r + η2) + A.tauS * η2 < A.tauS / 2

/-- `Ft` and `Fs` bound the flows the solver answers with, in time and in space. -/
def FlowsWithin {K : Type} [Field K] [LinearOrder K] [FloorRing K] (A : FloatArith K) (solver : FlowSolver) (e : Emcf)
    (data : List (List K)) (isIfg : Bool) (oT : Nat → List Nat → List Nat) (Ft Fs : ℤ) : Prop :=
  (∀ tcost, costOf e.settings.tCostType e.nifgs e.tDist e.tCent = .ok tcost →
    ∀ j < e.space.graph.links.length, ∀ fl, residuesToFlows solver e.time
      (linkResiduesFl A e.time fun i => spaceGradFl A e data isIfg i j) tcost none = .ok fl → ∀ f ∈ fl, |f| ≤ Ft) ∧
  (∀ scost, costOf e.settings.sCostType e.nlinks e.sDist e.sCent = .ok scost →
    ∀ grad, unwrapInTimeFl A solver e data isIfg oT = .ok grad → ∀ i < e.time.graph.links.length, ∀ res fl,
      computeResiduesFromGradientsFl A e.space (grad.getD i []) = .ok res →
      residuesToFlows solver e.space res scost = .ok fl → ∀ f ∈ fl, |f| ≤ Fs)

end Spurt.Spec
