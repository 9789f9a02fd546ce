import Verif.Spec.FloatCube
import Verif.Lemmas.Medians
import Verif.Model.FloatMerge

/-! # Specification vocabulary for merging in mixed precision -/

namespace Spurt.Spec

/-- `cg` answers a system of the free points of `a` up to `ρ` when it has exactly one solution and this
solution has entries up to `Y`. -/
def CgWithin {K : Type} [Field K] [LinearOrder K] (lin : LinSolver K) (a : SqMat K) (Y ρ : K) : Prop :=
  ∀ (mask : Nat → Bool) (b y : List K), y.length = (freeMat a mask).n → (freeMat a mask).dot y = b →
    (∀ y' : List K, y'.length = (freeMat a mask).n → (freeMat a mask).dot y' = b → y' = y) →
    (∀ v ∈ y, |v| ≤ Y) →
    ∀ k < (freeMat a mask).n, |(lin.cg (freeMat a mask) b).getD k 0 - y.getD k 0| ≤ ρ

/-- Up to `δ`, tile `i` holds the field `phi b` plus `c b i` cycles in interferogram `b`. -/
def NearFields {K : Type} [Field K] [LinearOrder K] (A : FloatArith K) (δ : K) (nifgs n : Nat) (F : Nat → TileFile K)
    (phi : Nat → ℤ × ℤ → K) (c : Nat → Nat → ℤ) : Prop :=
  ∀ b < nifgs, ∀ i < n, ∀ (p : Nat) pix, (filePoints (F i))[p]? = some pix →
    |A.fs (filePhase (F i) b p) - (phi b pix + A.tau * c b i)| ≤ δ

/-- The triangulation of every tile connects its points with at most `L` links, and `cg` answers the Dirichlet
problems on it up to `ρ`. -/
structure TileGraphs {K : Type} [Field K] [LinearOrder K] (env : MergeEnv K) (n : Nat) (F : Nat → TileFile K) (Y ρ : K)
    (L : Nat) : Prop where
  links : ∀ i < n, ∀ u v, (u, v) ∈ (delaunayGraph (filePoints (F i)).length (env.simplices (filePoints (F i)))).links →
    u < (F i).points.length ∧ v < (F i).points.length
  size : ∀ i < n, (delaunayGraph (filePoints (F i)).length (env.simplices (filePoints (F i)))).links.length ≤ L
  conn : ∀ i < n, ∀ p < (F i).points.length, ∀ q < (F i).points.length, Relation.ReflTransGen
    (Adjacent (delaunayGraph (filePoints (F i)).length (env.simplices (filePoints (F i)))).links) p q
  cg : ∀ i < n, ∀ a : SqMat ℤ, graphLaplacian (delaunayGraph (filePoints (F i)).length
    (env.simplices (filePoints (F i)))).links = .ok a → CgWithin env.lin ⟨a.n, fun u v => (a.val u v : K)⟩ Y ρ

/-- `fs` moves numbers up to `B` by at most `η`, `fd` moves numbers up to `Bd` by at most `ηd`, and the two
constants `2 * np.pi` differ by at most `ε`. -/
structure MixedPrecision {K : Type} [Field K] [LinearOrder K] (A : FloatArith K) (B η Bd ηd ε : K) : Prop where
  single : Rounds A.fs B η
  double : Rounds A.fd Bd ηd
  nonneg : 0 ≤ η ∧ 0 ≤ ηd
  one_le : 1 ≤ A.tauS ∧ 1 ≤ A.tau
  close : |A.tau - A.tauS| ≤ ε

/-- The numbers the merge meets are in the ranges of `MixedPrecision`, for fields up to `M`, tiles that
differ by up to `k` cycles, up to `N` tiles at a pixel, up to `L` links per tile, tile files accurate to `δ`, bulk
offsets accurate to `β` and answers of `cg` accurate to `ρ`. `E` bounds the error of the adjusted tiles: every
degree of overlap can multiply it by three. -/
structure MergeRoom {K : Type} [Field K] [LinearOrder K] (A : FloatArith K) (B η Bd ηd ε M k δ β ρ Y E : K)
    (N L : Nat) : Prop where
  nonneg : 0 ≤ M ∧ 0 ≤ k ∧ 0 ≤ δ ∧ 0 ≤ β ∧ 0 ≤ ρ ∧ 1 ≤ N
  error : 3 ^ (N - 1) * (δ + A.tau * β + 8 * η + 3 * ηd + ρ) ≤ E
  sums : (N : K) * (M + E + 2 * η) ≤ B
  values : A.tauS * k + 2 * M + δ + E + 6 * η ≤ B
  bulk : A.tau * (k + β) ≤ Bd ∧ A.tau * (k + β) + ηd ≤ B
  dirichlet : (L : K) * E ≤ Bd ∧ E ≤ Y
  half : k * ε + E + δ + 5 * η < 1 / 2

/-- The check of `pairwise_unwrapped_diff_deciles` passes for fields up to `M`, tiles that differ by up to `k`
cycles and tile files accurate to `δ`. -/
structure CheckRoom {K : Type} [Field K] [LinearOrder K] (atol rtol B η Bd ηd ε M k δ : K) : Prop where
  nonneg : 0 ≤ rtol ∧ 0 ≤ k
  tol : k * ε + 2 * δ + 2 * η + 3 * ηd ≤ atol
  half : atol < 1 / 2
  values : 2 * M + 2 * δ + η ≤ B
  range : atol + rtol * k + ηd ≤ Bd

end Spurt.Spec
