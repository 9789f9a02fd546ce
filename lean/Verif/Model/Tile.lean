import Verif.Model.Overlap

/-!
# Managing one unwrapped tile (src/spurt/workflows/emcf/_output.py, class `Tile`)
-/

namespace Spurt

/-- A two-dimensional numpy array; `val` is meaningful inside `rows` × `cols` only. A
one-dimensional array that takes part in an operation with a two-dimensional one behaves like an
array with one row, and a number like an array with one row and one column. -/
structure Arr (K : Type) where
  rows : Nat
  cols : Nat
  val : Nat → Nat → K

/-- numpy's broadcasting rule for one dimension. -/
def bdim (a b : Nat) : Option Nat :=
  if a = b then some a else if a = 1 then some b else if b = 1 then some a else none

section
variable {K : Type} [Field K]

/-- A number as an array. -/
def Arr.scalar (x : K) : Arr K := ⟨1, 1, fun _ _ => x⟩

omit [Field K] in
/-- The element that broadcasting puts at `(i, j)`. -/
def Arr.bget (a : Arr K) (i j : Nat) : K :=
  a.val (if a.rows = 1 then 0 else i) (if a.cols = 1 then 0 else j)

/-- `a + b` with broadcasting. -/
def Arr.add (a b : Arr K) : Except PyErr (Arr K) :=
  match bdim a.rows b.rows, bdim a.cols b.cols with
  | some r, some c => .ok ⟨r, c, fun i j => a.bget i j + b.bget i j⟩
  | _, _ => .error .valueError

/-- Python's `sum` of a list of arrays. -/
def Arr.sum (l : List (Arr K)) : Except PyErr (Arr K) := l.foldlM Arr.add (Arr.scalar 0)

/-- workflows/emcf/_output.py:16-36 class `Tile`: the attributes. The coordinates are those of
`init_coords`; the cached Laplacian is not part of the state, because it depends on the
coordinates only. -/
structure TileState (K : Type) where
  file : TileFile K
  idx : List Nat
  uwdata : Option (Arr K)
  corrections : List (Arr K)
  level : Nat

omit [Field K] in
/-- workflows/emcf/_output.py:19-36 `Tile.__init__`. -/
def TileState.start (f : TileFile K) : TileState K := ⟨f, [], none, [], 0⟩

omit [Field K] in
/-- workflows/emcf/_output.py:48-59 `init_coords`, `coords`: the points in the whole image. -/
def TileState.coords (t : TileState K) : List (ℤ × ℤ) :=
  t.file.points.map fun p => (p.1 + t.file.tile.xmin, p.2 + t.file.tile.ymin)

/-- workflows/emcf/_output.py:61-68 `init_uw_data` (with `check_idx` 70-73): the array read from
the file for the band indices. h5py wants increasing indices inside the dataset. All rows of the
data set have the length of the first one. -/
def readBands (f : TileFile K) (idx : List Nat) : Except PyErr (Arr K) :=
  if idx = [] then .error .runtimeError
  else if ¬ idx.Pairwise (· < ·) then .error .typeError
  else if idx.any fun i => decide (f.uw.length ≤ i ∨ f.phaseOffset.length ≤ i) then .error .indexError
  else .ok ⟨idx.length, (f.uw.headD []).length, fun k p =>
    (f.uw.getD (idx.getD k 0) []).getD p 0 + f.phaseOffset.getD (idx.getD k 0) 0⟩

/-- workflows/emcf/_output.py:79-81 `get_corrections_sum`. -/
def TileState.correctionsSum (t : TileState K) (level : Nat) : Except PyErr (Arr K) :=
  Arr.sum (t.corrections.take level)

/-- workflows/emcf/_output.py:75-77 `get_uw_phase`; adding to `None` raises `TypeError`. -/
def TileState.getUwPhase (t : TileState K) (level : Nat) : Except PyErr (Arr K) := do
  let c ← t.correctionsSum level
  let d ← t.uwdata.elim (.error .typeError) .ok
  d.add c

/-- workflows/emcf/_output.py:88-91 `uw_phase`. -/
def TileState.uwPhase (t : TileState K) : Except PyErr (Arr K) := t.getUwPhase t.level

/-- workflows/emcf/_output.py:93-96 `raw_uw_phase`. -/
def TileState.rawUwPhase (t : TileState K) : Except PyErr (Arr K) := t.getUwPhase 0

/-- The argument of `add_correction`: a number, a one-dimensional or a two-dimensional array, or
something else. Arrays with more dimensions are not modelled. -/
inductive CorrArg (K : Type)
  | num (x : K)
  | arr1 (l : List K)
  | arr2 (a : Arr K)
  | other

/-- workflows/emcf/_output.py:108-120 `add_correction`: the array that is appended. -/
def correctionArr (nbands npts : Nat) : CorrArg K → Option (Arr K)
  | .num x => some (.scalar x)
  | .arr1 l =>
    if l.length = 1 then some (.scalar (l.getD 0 0))
    else if l.length = nbands then some ⟨l.length, 1, fun i _ => l.getD i 0⟩
    else if l.length = npts then some ⟨1, l.length, fun _ j => l.getD j 0⟩
    else none
  | .arr2 a =>
    if a.rows * a.cols = 1 then some (.scalar (a.val 0 0))
    else if a.cols = npts then some a
    else none
  | .other => none

/-- The operations of class `Tile` that change its state. -/
inductive TileOp (K : Type)
  | resetBandIndex (idx : List Nat)
  | addCorrection (a : CorrArg K)
  | incrementCorrection
  | compressCorrections
  | resetCorrections

/-- One operation: the new state, which also persists after an exception, and the exception if
there is one. workflows/emcf/_output.py:108-145. -/
def TileState.step (t : TileState K) : TileOp K → TileState K × Option PyErr
  | .resetBandIndex idx =>
    match readBands t.file idx with
    | .error e => ({ t with idx := idx }, some e)
    | .ok d => ({ t with idx := idx, uwdata := some d, level := 0, corrections := [] }, none)
  | .addCorrection a =>
    match correctionArr t.idx.length t.coords.length a with
    | some c => ({ t with corrections := t.corrections ++ [c] }, none)
    | none => (t, some .valueError)
  | .incrementCorrection => ({ t with level := t.level + 1 }, none)
  | .compressCorrections =>
    match t.corrections with
    | c0 :: c1 :: cs =>
      match c0.add ((c1 :: cs).getLast (by simp)) with
      | .error e => ({ t with corrections := c0 :: (c1 :: cs).dropLast }, some e)
      | .ok s => ({ t with corrections := s :: (c1 :: cs).dropLast },
          if 1 < (s :: (c1 :: cs).dropLast).length then some .runtimeError else none)
    | _ => (t, none)
  | .resetCorrections => ({ t with level := 0, corrections := [] }, none)

/-- A call from code that does not catch the exception. -/
def TileState.call (t : TileState K) (o : TileOp K) : Except PyErr (TileState K) :=
  match t.step o with
  | (t, none) => .ok t
  | (_, some e) => .error e

/-- The state after a history of calls from code that catches every exception. -/
def TileState.run (t : TileState K) (ops : List (TileOp K)) : TileState K :=
  ops.foldl (fun t o => (t.step o).1) t

end

end Spurt
