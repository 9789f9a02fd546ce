import Verif.Model.Basic

/-!
# Graphs (src/spurt/graph)
-/

namespace Spurt

/-- graph/utils.py:14-33 `order_points`. -/
def orderPoints (p : Nat × Nat) : Nat × Nat :=
  if p.1 ≤ p.2 then (p.1, p.2) else (p.2, p.1)

/-- Python's tuple comparison `a <= b` on pairs, used by `sorted(arcs)`
(graph/_delaunay.py:55, graph/_hop3.py:80). -/
def pairLe (a b : Nat × Nat) : Bool :=
  decide (a.1 < b.1) || (decide (a.1 = b.1) && decide (a.2 ≤ b.2))

/-- `set.add` on an insertion-ordered set. The iteration order of a Python set is
unspecified; it is only consumed by `sorted`. -/
def setAdd (s : List (Nat × Nat)) (x : Nat × Nat) : List (Nat × Nat) :=
  if x ∈ s then s else s ++ [x]

/-- A row of a triangle table. -/
abbrev Tri := Nat × Nat × Nat

/-- graph/_delaunay.py:49-55 `DelaunayGraph._create_links` and the identical loop
graph/_hop3.py:75-80: collect the ordered sides of all triangles in a set, then sort.
The triangles are the input (`scipy.spatial.Delaunay` is not modelled). -/
def linksOfTriangles (tris : List Tri) : List (Nat × Nat) :=
  let arcs := tris.foldl (fun arcs s =>
    setAdd (setAdd (setAdd arcs (orderPoints (s.1, s.2.1)))
      (orderPoints (s.1, s.2.2))) (orderPoints (s.2.1, s.2.2))) []
  arcs.mergeSort pairLe

/-- What an MCF solver sees of a graph (graph/_interface.py:53-85
`PlanarGraphInterface`), without the point coordinates and the boundary. -/
structure PlanarGraph where
  npoints : Nat
  links : List (Nat × Nat)
  cycles : List (List Nat)
  deriving DecidableEq, Repr

/-- Row of a triangle table as the list of vertices. -/
def triRow (t : Tri) : List Nat := [t.1, t.2.1, t.2.2]

/-- graph/_delaunay.py:18-59 `DelaunayGraph`, given the number of points and the
simplices reported by scipy. -/
def delaunayGraph (npoints : Nat) (simplices : List Tri) : PlanarGraph :=
  { npoints := npoints, links := linksOfTriangles simplices,
    cycles := simplices.map triRow }

/-- graph/_hop3.py:59-73: the cycle table, by the same sequence of row writes into a
zero array. `range(1, n-3)` is `List.range' 1 (n-4)`. -/
def hop3CycleTable (n : Nat) : List Tri :=
  let c := List.replicate (3 + (n - 4) * 2) ((0, 0, 0) : Tri)
  let c := c.set 0 (0, 1, 2)
  let c := c.set 1 (0, 2, 3)
  let c := (List.range' 1 (n - 4)).foldl (fun c ii =>
    (c.set (2 * ii) (ii, ii + 2, ii + 3)).set (2 * ii + 1) (ii, ii + 3, ii + 1)) c
  c.set (c.length - 1) (n - 3, n - 1, n - 2)

/-- graph/_hop3.py:23-85 `Hop3Graph(npoints)`: the `ValueError` of lines 25-29 and the
`assert` of line 81 are explicit. -/
def hop3Graph (n : Nat) : Except PyErr PlanarGraph :=
  if n < 4 then .error .valueError
  else
    let cyc := hop3CycleTable n
    let links := linksOfTriangles cyc
    if links.length = 3 * n - 6 then
      .ok { npoints := n, links := links, cycles := cyc.map triRow }
    else .error .assertionError

/-- graph/_hop3.py:53-54 `Hop3Graph.boundary`. -/
def hop3Boundary : List (Nat × Nat) := [(0, 1), (1, 3), (3, 0)]

/-- graph/_delaunay.py:143-163 `Reg2DGraph._create_links` for shape `(r, c)`:
horizontal links row by row, then vertical links row by row. The preallocated array of
`2*r*c - r - c` rows (line 145) is filled front to back by consecutive slices, which is
concatenation; C05 proves that its size is exactly right. -/
def reg2dLinks (r c : Nat) : List (Nat × Nat) :=
  ((List.range r).flatMap fun ii =>
      (List.range (c - 1)).map fun k => (ii * c + k, ii * c + k + 1)) ++
  ((List.range (r - 1)).flatMap fun ii =>
      (List.range c).map fun k => (ii * c + k, ii * c + k + c))

/-- `np.ravel_multi_index((i, j), (r, c))` in C order. -/
def ravel (c i j : Nat) : Nat := i * c + j

/-- graph/_delaunay.py:92-108 `Reg2DGraph._create_cycles`: the array of
`r*c - r - c + 1` rows is filled front to back. -/
def reg2dCycles (r c : Nat) : List (List Nat) :=
  (List.range (r - 1)).flatMap fun ii => (List.range (c - 1)).map fun jj =>
    [ravel c ii jj, ravel c (ii + 1) jj, ravel c (ii + 1) (jj + 1), ravel c ii (jj + 1)]

/-- graph/_delaunay.py:110-141 `Reg2DGraph.boundary`: top, right, bottom, left.
`range(m-1, 0, -1)` is `(List.range' 1 (m-1)).reverse`. -/
def reg2dBoundary (r c : Nat) : List (Nat × Nat) :=
  ((List.range (c - 1)).map fun ii => (ii, ii + 1)) ++
  ((List.range (r - 1)).map fun ii => (ii * c + c - 1, ii * c + c - 1 + c)) ++
  ((List.range' 1 (c - 1)).reverse.map fun ii =>
    ((r - 1) * c + ii - 1, (r - 1) * c + ii)) ++
  ((List.range' 1 (r - 1)).reverse.map fun ii => (ii * c - c, ii * c))

/-- graph/_delaunay.py:62-171 `Reg2DGraph(shape)`. Shapes with a zero side make
`np.zeros` fail with a negative size (ValueError, lines 95,146) unless the other side
is at most one; only positive sides are modelled. -/
def reg2dGraph (r c : Nat) : PlanarGraph :=
  { npoints := r * c, links := reg2dLinks r c, cycles := reg2dCycles r c }

/-- graph/_delaunay.py:83-90 `Reg2DGraph.points`: `(j, i)` in row-major order. -/
def reg2dPoints (r c : Nat) : List (Nat × Nat) :=
  (List.range r).flatMap fun i => (List.range c).map fun j => (j, i)

end Spurt
