import Verif.Spec.Graph
import Verif.Model.BulkOffset

/-!
# Specification vocabulary for the bulk offsets
-/

namespace Spurt.Spec

/-- The largest 32-bit integer. -/
def int32Max : ℤ := 2147483647

/-- What `scipy.sparse.csgraph.connected_components` guarantees: tiles have the same label
exactly when a chain of overlaps joins them, and the labels are 0, 1, 2, ... without gaps. -/
structure ComponentLabels (n : Nat) (edges : List (Nat × Nat)) (labels : List Nat) : Prop where
  length : labels.length = n
  same : ∀ i j, i < n → j < n →
    (labels[i]? = labels[j]? ↔ Relation.ReflTransGen (Adjacent edges) i j)
  gapless : ∀ l ∈ labels, ∀ k ≤ l, k ∈ labels

/-- Tile `r` is the largest tile of its component: the first one among those with the most
valid pixels. -/
def LargestInComponent (edges : List (Nat × Nat)) (counts : List Nat) (r : Nat) : Prop :=
  r < counts.length ∧ ∀ u, u < counts.length → Relation.ReflTransGen (Adjacent edges) r u →
    counts.getD u 0 < counts.getD r 0 ∨ counts.getD u 0 = counts.getD r 0 ∧ r ≤ u

/-- Total disagreement, in cycles, between the observed offsets of the overlaps and per-tile
cycle numbers. -/
def offsetError (olaps : List (Nat × Nat)) (off n : List ℤ) : ℤ :=
  ((olaps.zip off).map fun c => |c.2 - (n.getD c.1.2 0 - n.getD c.1.1 0)|).sum

/-- The variables satisfy bounds and constraints of the integer programme. -/
structure MipFeasible (p : OffsetMip) (v : MipValues) : Prop where
  lenN : v.n.length = p.npts
  lenP : v.pf.length = p.cons.length
  lenM : v.nf.length = p.cons.length
  boundN : ∀ x ∈ v.n, -int32Max ≤ x ∧ x ≤ int32Max
  boundP : ∀ x ∈ v.pf, 0 ≤ x ∧ x ≤ int32Max
  boundM : ∀ x ∈ v.nf, 0 ≤ x ∧ x ≤ int32Max
  overlap : ∀ (i t1 t2 : Nat) (o : ℤ), p.cons[i]? = some ((t1, t2), o) →
    v.n.getD t2 0 - v.n.getD t1 0 + v.pf.getD i 0 - v.nf.getD i 0 = o
  fixed : ∀ t ∈ p.fixed, v.n.getD t 0 = 0

/-- The external integer solver only answers with feasible values of least objective. -/
def MipOptimal (s : MipSolver) : Prop :=
  ∀ p v, s p = some v → MipFeasible p v ∧
    ∀ v', MipFeasible p v' → v.pf.sum + v.nf.sum ≤ v'.pf.sum + v'.nf.sum

/-- The external integer solver answers whenever feasible values exist. -/
def MipComplete (s : MipSolver) : Prop := ∀ p, (∃ v, MipFeasible p v) → (s p).isSome

end Spurt.Spec
