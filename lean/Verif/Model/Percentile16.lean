import Verif.Model.Overlap

/-!
# `np.percentile` of an `int16` array

`pairwise_unwrapped_diff_deciles` passes an `int16` array to `np.percentile`. numpy interpolates between neighbouring entries of the
sorted array and subtracts them in the type of the array, so the difference wraps around outside the range of 16 bits.
`percentileSorted` (Model/Overlap.lean) leaves the wrap-around out; here it is modelled.
-/

namespace Spurt

/-- One value of `np.percentile` of the sorted `int16` array `s` at `q` percent, as numpy's `_lerp` computes it: the difference of the
neighbours in `int16`, then `a + d * t` for `t < 1/2` and `b - d * (1 - t)` otherwise. Simplified: these two are not rounded, see
`percentileFl`. -/
def percentileSorted16 (s : List ℤ) (q : ℚ) : ℚ :=
  let v := q / 100 * ((s.length : ℚ) - 1)
  let lo := ⌊v⌋
  let a : ℤ := s.getD lo.toNat 0
  let b : ℤ := s.getD (min (lo.toNat + 1) (s.length - 1)) 0
  let d : ℚ := (toInt16 (b - a) : ℤ)
  let t : ℚ := v - lo
  if 1 / 2 ≤ t then b - d * (1 - t) else a + d * t

/-- utils/merge.py:89-90: `np.percentile(row, np.linspace(0.0, 100.0, 11))` of an `int16` row. -/
def deciles16 (row : List ℤ) : List ℚ :=
  let s := row.mergeSort (· ≤ ·)
  (List.range 11).map fun (k : ℕ) => percentileSorted16 s (10 * k)

/-- utils/merge.py:49-90 `pairwise_unwrapped_diff_deciles` with the `int16` subtraction of numpy. -/
def pairwiseDeciles16 {K : Type} [Field K] [LinearOrder K] [FloorRing K] (tau : K) (b1 b2 : NdArray K) : Except PyErr (List (List ℚ)) :=
  if b1.shape ≠ b2.shape then .error .valueError
  else match b1.shape with
    | [nb, n] =>
      if n < 11 then .error .valueError
      else if ¬ (cart [List.range nb, List.range n]).all (closeToCycle tau b1 b2) then
        .error .assertionError
      else .ok ((List.range nb).map fun r =>
        deciles16 ((List.range n).map fun c => cycleDiff tau b1 b2 [r, c]))
    | _ => .error .valueError

/-- numpy's `_lerp` between two entries of an `int16` array in `float64`, `fl` being the rounding: the difference in `int16`, the rest rounded
after every operation. -/
def lerpFl (fl : ℚ → ℚ) (a b : ℤ) (t : ℚ) : ℚ :=
  let d : ℚ := (toInt16 (b - a) : ℤ)
  if 1 / 2 ≤ t then fl (b - fl (d * fl (1 - t))) else fl (a + fl (d * t))

/-- One value of `np.percentile` of the sorted `int16` array `s` at `q` percent in `float64`: the position `(n - 1) * (q / 100)` and the
interpolation are rounded. -/
def percentileFl (fl : ℚ → ℚ) (s : List ℤ) (q : ℚ) : ℚ :=
  let v := fl (((s.length : ℚ) - 1) * fl (q / 100))
  let lo := ⌊v⌋
  lerpFl fl (s.getD lo.toNat 0) (s.getD (min (lo.toNat + 1) (s.length - 1)) 0) (fl (v - lo))

/-- utils/merge.py:89-90: `np.percentile(row, np.linspace(0.0, 100.0, 11))` of an `int16` row in `float64`. The entries of the `linspace` are
multiples of 10, which `float64` has. -/
def decilesFl (fl : ℚ → ℚ) (row : List ℤ) : List ℚ :=
  let s := row.mergeSort (· ≤ ·)
  (List.range 11).map fun (k : ℕ) => percentileFl fl s (10 * k)

end Spurt
