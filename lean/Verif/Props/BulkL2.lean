import Verif.Props.BulkOffset
import Verif.Props.Emcf

/-!
# Property C40: least-squares bulk offsets
-/

namespace Spurt
open Spec

section
variable {K : Type} [Field K] [LinearOrder K] [IsStrictOrderedRing K]

/-- Squared error `|A y - b|²` of a linear system. -/
def Spec.lsError (a : List (List K)) (b y : List K) : K :=
  (List.zipWith (fun row v => (v - (List.zipWith (· * ·) row y).sum) ^ 2) a b).sum

/-- Column `k` of a matrix. -/
def Spec.col (a : List (List K)) (k : Nat) : List K := a.map fun row => row.getD k 0

/-- `x` is an exact least-squares solution of `A x = b`, column by column; `w` is the number of
columns of `A` and `nb` that of `b`. -/
def Spec.LeastSquares (a b x : List (List K)) (w nb : Nat) : Prop :=
  x.length = w ∧ ∀ k < nb, ∀ y : List K, y.length = w →
    lsError a (col b k) (col x k) ≤ lsError a (col b k) y

/-- Squared disagreement between the observed offsets and per-tile values. -/
def Spec.sqError (olaps : List (Nat × Nat)) (off : List K) (f : Nat → K) : K :=
  ((olaps.zip off).map fun c => (c.2 - (f c.1.2 - f c.1.1)) ^ 2).sum

/-- Absolute disagreement between the observed offsets and per-tile values. -/
def Spec.absError (olaps : List (Nat × Nat)) (off : List K) (f : Nat → K) : K :=
  ((olaps.zip off).map fun c => |c.2 - (f c.1.2 - f c.1.1)|).sum

open Spec

omit [LinearOrder K] [IsStrictOrderedRing K] in
theorem overlapRow_dot {n t1 t2 : Nat} (h1 : t1 < n) (h2 : t2 < n) (hne : t1 ≠ t2) (y : List K)
    (hy : y.length = n) :
    (List.zipWith (· * ·) (((List.replicate n (0 : K)).set t1 (-1)).set t2 1) y).sum =
      y.getD t2 0 - y.getD t1 0 := by
  have hlen : (List.zipWith (· * ·) (((List.replicate n (0 : K)).set t1 (-1)).set t2 1) y).length = n := by
    simp [hy]
  rw [sum_getD, hlen]
  have : ∀ i ∈ Finset.range n,
      (List.zipWith (· * ·) (((List.replicate n (0 : K)).set t1 (-1)).set t2 1) y).getD i 0 =
      (if i = t2 then y.getD i 0 else 0) + (if i = t1 then - y.getD i 0 else 0) := by
    intro i hi
    have hi' := Finset.mem_range.mp hi
    rw [List.getD_eq_getElem _ _ (by rw [hlen]; exact hi'), List.getElem_zipWith,
      List.getD_eq_getElem _ _ (by rw [hy]; exact hi')]
    simp only [List.getElem_set, List.getElem_replicate]
    by_cases e2 : t2 = i
    · subst e2
      have : ¬ t2 = t1 := fun h => hne h.symm
      simp [this]
    · by_cases e1 : t1 = i
      · subst e1
        simp [e2, hne]
      · simp [e2, e1, Ne.symm e2, Ne.symm e1, fun h : i = t2 => e2 h.symm, fun h : i = t1 => e1 h.symm]
  rw [Finset.sum_congr rfl this, Finset.sum_add_distrib, Finset.sum_ite_eq', Finset.sum_ite_eq',
    if_pos (Finset.mem_range.mpr h2), if_pos (Finset.mem_range.mpr h1)]
  ring

omit [LinearOrder K] [IsStrictOrderedRing K] in
theorem lsError_overlap {n : Nat} {olaps : List (Nat × Nat)}
    (hin : ∀ t1 t2, (t1, t2) ∈ olaps → t1 < n ∧ t2 < n ∧ t1 ≠ t2) (b y : List K) (hy : y.length = n) :
    lsError (overlapMatrix olaps n) b y = sqError olaps b (fun t => y.getD t 0) := by
  unfold lsError sqError overlapMatrix
  induction olaps generalizing b with
  | nil => simp
  | cons p olaps ih =>
    obtain ⟨t1, t2⟩ := p
    cases b with
    | nil => simp
    | cons v b =>
      obtain ⟨h1, h2, h3⟩ := hin t1 t2 (by simp)
      simp only [List.map_cons, List.zipWith_cons_cons, List.zip_cons_cons, List.sum_cons]
      rw [overlapRow_dot h1 h2 h3 y hy, ih (fun a b hab => hin a b (by simp [hab]))]

theorem sqError_nonneg (olaps : List (Nat × Nat)) (off : List K) (f : Nat → K) :
    0 ≤ sqError olaps off f := by
  apply List.sum_nonneg
  intro x hx
  obtain ⟨_, _, rfl⟩ := List.mem_map.mp hx
  exact sq_nonneg _

omit [LinearOrder K] [IsStrictOrderedRing K] in
theorem sqError_shift (olaps : List (Nat × Nat)) (off : List K) (f : Nat → K) (c : K) :
    sqError olaps off (fun t => f t - c) = sqError olaps off f := by
  unfold sqError
  congr 1
  apply List.map_congr_left
  intro x _
  simp only [sub_sub_sub_cancel_right]

theorem sum_sq_zero {l : List K} (h : (l.map fun x => x ^ 2).sum = 0) : ∀ x ∈ l, x = 0 := by
  intro x hx
  have hle := List.single_le_sum (l := l.map fun x => x ^ 2) (by
    intro y hy
    obtain ⟨_, _, rfl⟩ := List.mem_map.mp hy
    exact sq_nonneg _) _ (List.mem_map.mpr ⟨x, hx, rfl⟩)
  rw [h] at hle
  exact pow_eq_zero_iff (two_ne_zero) |>.mp (le_antisymm hle (sq_nonneg x))

omit [LinearOrder K] in
/-- The parallelogram identity for the squared error. -/
theorem sqError_mid (olaps : List (Nat × Nat)) (off : List K) (f g : Nat → K) [CharZero K] :
    4 * sqError olaps off (fun t => (f t + g t) / 2) +
      ((olaps.zip off).map fun c => ((f c.1.2 - f c.1.1) - (g c.1.2 - g c.1.1)) ^ 2).sum =
    2 * sqError olaps off f + 2 * sqError olaps off g := by
  unfold sqError
  induction olaps.zip off with
  | nil => simp
  | cons c l ih =>
    simp only [List.map_cons, List.sum_cons]
    have e : 4 * (c.2 - ((f c.1.2 + g c.1.2) / 2 - (f c.1.1 + g c.1.1) / 2)) ^ 2 +
        ((f c.1.2 - f c.1.1) - (g c.1.2 - g c.1.1)) ^ 2 =
        2 * (c.2 - (f c.1.2 - f c.1.1)) ^ 2 + 2 * (c.2 - (g c.1.2 - g c.1.1)) ^ 2 := by
      have h2 : (2 : K) ≠ 0 := two_ne_zero
      have h1 : (f c.1.2 + g c.1.2) / 2 - (f c.1.1 + g c.1.1) / 2 =
        ((f c.1.2 - f c.1.1) + (g c.1.2 - g c.1.1)) / 2 := by ring
      rw [h1]
      generalize f c.1.2 - f c.1.1 = a
      generalize g c.1.2 - g c.1.1 = b
      ring
    linear_combination ih + e

/-- Two per-tile assignments of least squared error have the same differences on the overlaps. -/
theorem minimisers_agree {olaps : List (Nat × Nat)} {off : List K} {f g : Nat → K}
    (hlen : off.length = olaps.length)
    (hf : ∀ h : Nat → K, sqError olaps off f ≤ sqError olaps off h)
    (hg : ∀ h : Nat → K, sqError olaps off g ≤ sqError olaps off h) :
    ∀ t1 t2, (t1, t2) ∈ olaps → f t2 - f t1 = g t2 - g t1 := by
  have hmid := sqError_mid olaps off f g
  have h1 := hf (fun t => (f t + g t) / 2)
  have h2 := hg (fun t => (f t + g t) / 2)
  have hs : ((olaps.zip off).map fun c => ((f c.1.2 - f c.1.1) - (g c.1.2 - g c.1.1)) ^ 2).sum = 0 := by
    apply le_antisymm
    · linarith
    · apply List.sum_nonneg
      intro x hx
      obtain ⟨_, _, rfl⟩ := List.mem_map.mp hx
      exact sq_nonneg _
  intro t1 t2 ht
  obtain ⟨k, hk⟩ := List.getElem?_of_mem ht
  have hko : k < off.length := by rw [hlen]; exact (List.getElem?_eq_some_iff.mp hk).1
  have hz : (olaps.zip off)[k]? = some ((t1, t2), off[k]) := by
    rw [List.getElem?_zip_eq_some]; exact ⟨hk, List.getElem?_eq_getElem hko⟩
  have := sum_sq_zero (l := (olaps.zip off).map fun c => (f c.1.2 - f c.1.1) - (g c.1.2 - g c.1.1))
    (by rw [List.map_map]; exact hs) _ (List.mem_map.mpr ⟨_, List.mem_of_getElem? hz, rfl⟩)
  simp only at this
  exact sub_eq_zero.mp this

/-- The setting of the least-squares offsets: overlaps between different existing tiles, one row
of observed offsets per overlap, one pixel count per tile. -/
structure Spec.L2Input (ntiles nbands : Nat) (olaps : List (Nat × Nat)) (off : List (List K))
    (counts : List Nat) : Prop where
  tiles : 0 < ntiles
  inside : ∀ t1 t2, (t1, t2) ∈ olaps → t1 < ntiles ∧ t2 < ntiles ∧ t1 ≠ t2
  offLen : off.length = olaps.length
  offRow : ∀ row ∈ off, row.length = nbands
  countLen : counts.length = ntiles

/-- The first of the tiles with the most valid pixels. -/
def Spec.LargestTile (counts : List Nat) (r : Nat) : Prop :=
  r < counts.length ∧ ∀ u, u < counts.length →
    counts.getD u 0 < counts.getD r 0 ∨ counts.getD u 0 = counts.getD r 0 ∧ r ≤ u

open Spec

theorem zipWith_col (row : List K) (x : List (List K)) (b : Nat) :
    List.zipWith (fun v (xr : List K) => v * xr.getD b 0) row x = List.zipWith (· * ·) row (col x b) := by
  unfold col
  rw [List.zipWith_map_right]

theorem solveL2_unfold {ntiles nbands : Nat} {olaps : List (Nat × Nat)} {off : List (List K)}
    {counts : List Nat} (hi : L2Input ntiles nbands olaps off counts) (lstsq : Lstsq K) :
    ∃ r, LargestTile counts r ∧ solveL2Min lstsq olaps off nbands ntiles counts = .ok
      ((List.range nbands).map fun b => (List.range ntiles).map fun t =>
        ((lstsq (overlapMatrix olaps ntiles) off).getD t []).getD b 0 -
          ((lstsq (overlapMatrix olaps ntiles) off).getD r []).getD b 0,
      (List.range nbands).map fun b => ((List.zipWith (List.zipWith (· - ·)) off
        (matDot (overlapMatrix olaps ntiles) (lstsq (overlapMatrix olaps ntiles) off) nbands)).map
          fun row => |row.getD b 0|).sum) := by
  obtain ⟨k, h1, h2, h3⟩ := argmax_spec counts (by
    intro h0; have := hi.countLen; rw [h0] at this; simp at this; have := hi.tiles; omega)
  refine ⟨k, ⟨h2, h3⟩, ?_⟩
  unfold solveL2Min l2Min
  rw [if_neg (by
    rw [not_not, List.all_eq_true]
    rintro ⟨a, b⟩ hab
    have := hi.inside a b hab
    simpa using ⟨this.1, this.2.1⟩)]
  rw [if_neg (by simp [overlapMatrix, hi.offLen])]
  simp only [Bind.bind, Except.bind, h1]
  rfl

theorem col_getD (x : List (List K)) (t b : Nat) : (col x b).getD t 0 = (x.getD t []).getD b 0 := by
  unfold col
  by_cases h : t < x.length
  · rw [getD_map_lt _ _ h, List.getD_eq_getElem _ _ h]
  · have h' : x[t]? = none := List.getElem?_eq_none (by omega)
    simp [List.getD_eq_getElem?_getD, h']

/-- The per-band residual is the absolute disagreement. -/
theorem residual_eq {ntiles nbands : Nat} {olaps : List (Nat × Nat)} {off x : List (List K)}
    (hin : ∀ t1 t2, (t1, t2) ∈ olaps → t1 < ntiles ∧ t2 < ntiles ∧ t1 ≠ t2)
    (hrow : ∀ row ∈ off, row.length = nbands) (hx : x.length = ntiles) (b : Nat) (hb : b < nbands) :
    ((List.zipWith (List.zipWith (· - ·)) off (matDot (overlapMatrix olaps ntiles) x nbands)).map
      fun row => |row.getD b 0|).sum = absError olaps (col off b) (fun t => (x.getD t []).getD b 0) := by
  unfold absError matDot overlapMatrix
  induction olaps generalizing off with
  | nil => simp
  | cons p olaps ih =>
    obtain ⟨t1, t2⟩ := p
    cases off with
    | nil => simp [col]
    | cons v off =>
      obtain ⟨h1, h2, h3⟩ := hin t1 t2 (by simp)
      have hv := hrow v (by simp)
      simp only [List.map_cons, List.zipWith_cons_cons, List.sum_cons, col, List.zip_cons_cons]
      rw [ih (fun a b hab => hin a b (by simp [hab])) (fun row hr => hrow row (by simp [hr]))]
      congr 2
      rw [List.getD_eq_getElem _ _ (by simp [hv, hb]), List.getElem_zipWith]
      simp only [List.getElem_map, List.getElem_range]
      have hvb : v.getD b 0 = v[b]'(by rw [hv]; exact hb) :=
        List.getD_eq_getElem _ _ (by rw [hv]; exact hb)
      rw [zipWith_col, overlapRow_dot h1 h2 h3 _ (by simp [col, hx]), col_getD, col_getD, hvb]

/-- C40. For every exact least-squares solution, in every band: the offset of the largest tile
is 0; no other per-tile values have a smaller squared disagreement with the observed offsets; the
reported residual is the total absolute disagreement. -/
theorem C40_least_squares (ntiles nbands : Nat) (olaps : List (Nat × Nat)) (off : List (List K))
    (counts : List Nat) (hi : L2Input ntiles nbands olaps off counts) (lstsq : Lstsq K)
    (hls : LeastSquares (overlapMatrix olaps ntiles) off (lstsq (overlapMatrix olaps ntiles) off)
      ntiles nbands) :
    ∃ x res, solveL2Min lstsq olaps off nbands ntiles counts = .ok (x, res) ∧
      x.length = nbands ∧ res.length = nbands ∧ ∀ b < nbands, ∃ row, x[b]? = some row ∧
        row.length = ntiles ∧ (∀ r, LargestTile counts r → row[r]? = some 0) ∧
        (∀ f : Nat → K, sqError olaps (col off b) (fun t => row.getD t 0) ≤ sqError olaps (col off b) f) ∧
        res[b]? = some (absError olaps (col off b) (fun t => row.getD t 0)) := by
  obtain ⟨r, hr, hsol⟩ := solveL2_unfold hi lstsq
  obtain ⟨hxl, hmin⟩ := hls
  set x := lstsq (overlapMatrix olaps ntiles) off with hx
  refine ⟨_, _, hsol, by simp, by simp, ?_⟩
  intro b hb
  refine ⟨(List.range ntiles).map fun t => (x.getD t []).getD b 0 - (x.getD r []).getD b 0, ?_,
    by simp, ?_, ?_, ?_⟩
  · rw [List.getElem?_map, List.getElem?_range hb]; rfl
  · intro r' hr'
    have e1 := hr.2 r' hr'.1
    have e2 := hr'.2 r hr.1
    have : r' = r := by omega
    subst this
    rw [List.getElem?_map, List.getElem?_range (by rw [← hi.countLen]; exact hr.1)]
    simp
  · intro f
    have hg : sqError olaps (col off b) (fun t => ((List.range ntiles).map fun t =>
        (x.getD t []).getD b 0 - (x.getD r []).getD b 0).getD t 0) =
        sqError olaps (col off b) (fun t => (col x b).getD t 0) := by
      rw [← sqError_shift olaps (col off b) (fun t => (col x b).getD t 0) ((x.getD r []).getD b 0)]
      unfold sqError
      congr 1
      apply List.map_congr_left
      rintro ⟨⟨t1, t2⟩, o⟩ hc
      obtain ⟨a1, a2, _⟩ := hi.inside t1 t2 (List.of_mem_zip hc).1
      simp only
      rw [getD_map_lt _ _ (i := t2) (by simpa using a2), getD_map_lt _ _ (i := t1) (by simpa using a1)]
      simp only [List.getElem_range, col_getD]
    have hf : sqError olaps (col off b) f =
        sqError olaps (col off b) (fun t => ((List.range ntiles).map f).getD t 0) := by
      unfold sqError
      congr 1
      apply List.map_congr_left
      rintro ⟨⟨t1, t2⟩, o⟩ hc
      obtain ⟨a1, a2, _⟩ := hi.inside t1 t2 (List.of_mem_zip hc).1
      simp only
      rw [getD_map_lt _ _ (i := t2) (by simpa using a2), getD_map_lt _ _ (i := t1) (by simpa using a1)]
      simp
    rw [hg, hf, ← lsError_overlap hi.inside _ _ (by simp [col, hxl]),
      ← lsError_overlap hi.inside _ _ (by simp)]
    exact hmin b hb _ (by simp)
  · rw [List.getElem?_map, List.getElem?_range hb]
    simp only [Option.map_some, Option.some.injEq]
    rw [residual_eq hi.inside hi.offRow hxl b hb]
    unfold absError
    congr 1
    apply List.map_congr_left
    rintro ⟨⟨t1, t2⟩, o⟩ hc
    obtain ⟨a1, a2, _⟩ := hi.inside t1 t2 (List.of_mem_zip hc).1
    simp only
    rw [getD_map_lt _ _ (i := t2) (by simpa using a2), getD_map_lt _ _ (i := t1) (by simpa using a1)]
    simp only [List.getElem_range, sub_sub_sub_cancel_right]

theorem col_getElem? {off : List (List K)} {nbands b k : Nat} (hrow : ∀ row ∈ off, row.length = nbands)
    (hb : b < nbands) {row : List K} (hk : off[k]? = some row) : (col off b)[k]? = row[b]? := by
  unfold col
  rw [List.getElem?_map, hk]
  have : b < row.length := by rw [hrow row (List.mem_of_getElem? hk)]; exact hb
  simp [List.getD_eq_getElem?_getD, this]

/-- C40. Consistent offsets: if the observed offset of every overlap in a band is the difference
of per-tile values `c`, then in that band the residual is 0, every observed offset is reproduced,
and every tile that a chain of overlaps joins to the largest tile gets its value relative to the
largest tile. -/
theorem C40_consistent (ntiles nbands : Nat) (olaps : List (Nat × Nat)) (off : List (List K))
    (counts : List Nat) (hi : L2Input ntiles nbands olaps off counts) (lstsq : Lstsq K)
    (hls : LeastSquares (overlapMatrix olaps ntiles) off (lstsq (overlapMatrix olaps ntiles) off)
      ntiles nbands) (x : List (List K)) (res : List K)
    (h : solveL2Min lstsq olaps off nbands ntiles counts = .ok (x, res))
    (b : Nat) (hb : b < nbands) (c : Nat → K)
    (hc : ∀ (k t1 t2 : Nat) row, olaps[k]? = some (t1, t2) → off[k]? = some row →
      row[b]? = some (c t2 - c t1)) :
    res[b]? = some 0 ∧ ∃ row, x[b]? = some row ∧
      (∀ t1 t2, (t1, t2) ∈ olaps → row.getD t2 0 - row.getD t1 0 = c t2 - c t1) ∧
      ∀ t r, t < ntiles → LargestTile counts r → Relation.ReflTransGen (Adjacent olaps) r t →
        row[t]? = some (c t - c r) := by
  obtain ⟨x', res', h', _, _, hband⟩ := C40_least_squares ntiles nbands olaps off counts hi lstsq hls
  rw [h] at h'
  simp only [Except.ok.injEq, Prod.mk.injEq] at h'
  obtain ⟨rfl, rfl⟩ := h'
  obtain ⟨row, h1, h2, h3, h4, h5⟩ := hband b hb
  have hcol : ∀ (k t1 t2 : Nat) o, olaps[k]? = some (t1, t2) → (col off b)[k]? = some o → o = c t2 - c t1 := by
    intro k t1 t2 o hk ho
    have hkl : k < off.length := by rw [hi.offLen]; exact (List.getElem?_eq_some_iff.mp hk).1
    have h6 := List.getElem?_eq_getElem hkl
    rw [col_getElem? hi.offRow hb h6, hc k t1 t2 _ hk h6] at ho
    simpa using ho.symm
  have hclen : (col off b).length = olaps.length := by simp [col, hi.offLen]
  have hz : ∀ t1 t2 o, ((t1, t2), o) ∈ olaps.zip (col off b) → o = c t2 - c t1 := by
    intro t1 t2 o hm
    obtain ⟨k, hk⟩ := List.getElem?_of_mem hm
    rw [List.getElem?_zip_eq_some] at hk
    exact hcol k t1 t2 o hk.1 hk.2
  have hc0 : sqError olaps (col off b) c = 0 := by
    apply List.sum_eq_zero
    intro y hy
    obtain ⟨⟨⟨t1, t2⟩, o⟩, hm, rfl⟩ := List.mem_map.mp hy
    simp only
    rw [hz t1 t2 o hm, sub_self]; simp
  have hrep : ∀ t1 t2, (t1, t2) ∈ olaps → row.getD t2 0 - row.getD t1 0 = c t2 - c t1 :=
    minimisers_agree hclen h4 (fun f => by rw [hc0]; exact sqError_nonneg _ _ _)
  refine ⟨?_, row, h1, hrep, ?_⟩
  · rw [h5]
    congr 1
    apply List.sum_eq_zero
    intro y hy
    obtain ⟨⟨⟨t1, t2⟩, o⟩, hm, rfl⟩ := List.mem_map.mp hy
    simp only
    rw [hz t1 t2 o hm, hrep t1 t2 (List.of_mem_zip hm).1, sub_self, abs_zero]
  · intro t r ht hr hrt
    have hpath : row.getD t 0 - row.getD r 0 = c t - c r := by
      clear ht
      induction hrt with
      | refl => simp
      | tail _ hbc ih =>
        rcases hbc with hbc | hbc
        · have := hrep _ _ hbc; linear_combination ih + this
        · have := hrep _ _ hbc; linear_combination ih - this
    have h0 : row.getD r 0 = 0 := by rw [List.getD_eq_getElem?_getD, h3 r hr]; rfl
    rw [h0, sub_zero] at hpath
    rw [← hpath]
    exact getElem?_of_lt_getD (by rw [h2]; exact ht)

/-- C40. On a connected overlap graph the offsets do not depend on which least-squares solution
the library returns. -/
theorem C40_unique (ntiles nbands : Nat) (olaps : List (Nat × Nat)) (off : List (List K))
    (counts : List Nat) (hi : L2Input ntiles nbands olaps off counts)
    (hconn : ∀ t, t < ntiles → Relation.ReflTransGen (Adjacent olaps) 0 t) (lstsq lstsq' : Lstsq K)
    (hls : LeastSquares (overlapMatrix olaps ntiles) off (lstsq (overlapMatrix olaps ntiles) off)
      ntiles nbands)
    (hls' : LeastSquares (overlapMatrix olaps ntiles) off (lstsq' (overlapMatrix olaps ntiles) off)
      ntiles nbands) :
    solveL2Min lstsq olaps off nbands ntiles counts = solveL2Min lstsq' olaps off nbands ntiles counts := by
  obtain ⟨x, res, h, hx, hres, hb⟩ := C40_least_squares ntiles nbands olaps off counts hi lstsq hls
  obtain ⟨x', res', h', hx', hres', hb'⟩ := C40_least_squares ntiles nbands olaps off counts hi lstsq' hls'
  obtain ⟨r, hr, _⟩ := solveL2_unfold hi lstsq
  rw [h, h']
  have hclen : ∀ b, (col off b).length = olaps.length := by intro b; simp [col, hi.offLen]
  have key : ∀ b < nbands, x[b]? = x'[b]? ∧ res[b]? = res'[b]? := by
    intro b hbn
    obtain ⟨row, h1, h2, h3, h4, h5⟩ := hb b hbn
    obtain ⟨row', h1', h2', h3', h4', h5'⟩ := hb' b hbn
    have hag := minimisers_agree (hclen b) h4 h4'
    have hrow : row = row' := by
      have hz : ∀ t, t < ntiles → row.getD t 0 - row.getD 0 0 = row'.getD t 0 - row'.getD 0 0 := by
        intro t ht
        have := hconn t ht
        clear ht
        induction this with
        | refl => simp
        | tail _ hbc ih =>
          rcases hbc with hbc | hbc
          · have := hag _ _ hbc; linear_combination ih + this
          · have := hag _ _ hbc; linear_combination ih - this
      have hrn : r < ntiles := by rw [← hi.countLen]; exact hr.1
      have h0 : row.getD r 0 = 0 := by rw [List.getD_eq_getElem?_getD, h3 r hr]; rfl
      have h0' : row'.getD r 0 = 0 := by rw [List.getD_eq_getElem?_getD, h3' r hr]; rfl
      apply List.ext_getElem (by rw [h2, h2'])
      intro t ht ht'
      have e1 := hz t (by rw [← h2]; exact ht)
      have e2 := hz r hrn
      rw [h0, h0'] at e2
      rw [List.getD_eq_getElem _ _ ht, List.getD_eq_getElem _ _ ht'] at e1
      linear_combination e1 - e2
    subst hrow
    exact ⟨by rw [h1, h1'], by rw [h5, h5']⟩
  have e1 : x = x' := by
    apply List.ext_getElem?
    intro b
    by_cases hbn : b < nbands
    · exact (key b hbn).1
    · rw [List.getElem?_eq_none (by omega), List.getElem?_eq_none (by omega)]
  have e2 : res = res' := by
    apply List.ext_getElem?
    intro b
    by_cases hbn : b < nbands
    · exact (key b hbn).2
    · rw [List.getElem?_eq_none (by omega), List.getElem?_eq_none (by omega)]
  rw [e1, e2]

end

/-- The hypotheses hold for three mutually overlapping tiles with inconsistent offsets 1, 1 and 5,
and the least-squares offsets relative to the second tile are -2, 0, 2. -/
example : ∃ lstsq : Lstsq ℚ, L2Input 3 1 [(0, 1), (1, 2), (0, 2)] [[(1 : ℚ)], [1], [5]] [5, 9, 3] ∧
    LeastSquares (overlapMatrix [(0, 1), (1, 2), (0, 2)] 3) [[(1 : ℚ)], [1], [5]]
      (lstsq (overlapMatrix [(0, 1), (1, 2), (0, 2)] 3) [[1], [1], [5]]) 3 1 ∧
    solveL2Min lstsq [(0, 1), (1, 2), (0, 2)] [[1], [1], [5]] 1 3 [5, 9, 3] =
      .ok ([[-2, 0, 2]], [3]) := by
  refine ⟨fun _ _ => [[0], [2], [4]], ⟨by decide, ?_, rfl, by simp, rfl⟩, ⟨rfl, ?_⟩, by decide +kernel⟩
  · intro t1 t2 h; simp at h; omega
  · intro k hk y hy
    obtain rfl : k = 0 := by omega
    match y, hy with
    | [a, b, c], _ =>
      simp [lsError, col, overlapMatrix]
      nlinarith [sq_nonneg (1 - (-a + b) + 1), sq_nonneg (1 - (-b + c) + 1),
        sq_nonneg (5 - (-a + c) - 1)]

/-- Consistent offsets over a connected overlap graph. -/
example : L2Input 3 2 [(0, 1), (1, 2)] [[(1 : ℚ), 3], [1, -2]] [5, 9, 3] ∧
    (∀ (k t1 t2 : Nat) row, [(0, 1), (1, 2)][k]? = some (t1, t2) →
      [[(1 : ℚ), 3], [1, -2]][k]? = some row → row[1]? = some ([0, 3, 1].getD t2 0 - [0, 3, 1].getD t1 0)) ∧
    ∀ t, t < 3 → Relation.ReflTransGen (Adjacent [(0, 1), (1, 2)]) 0 t := by
  refine ⟨⟨by decide, ?_, rfl, by simp, rfl⟩, ?_, ?_⟩
  · intro t1 t2 h; simp at h; omega
  · intro k t1 t2 row h1 h2
    rcases k with _ | _ | k
    · simp at h1 h2; obtain ⟨rfl, rfl⟩ := h1; subst h2; norm_num
    · simp at h1 h2; obtain ⟨rfl, rfl⟩ := h1; subst h2; norm_num
    · simp at h1
  · intro t ht
    have h01 : Relation.ReflTransGen (Adjacent [(0, 1), (1, 2)]) 0 1 := .single (by simp [Adjacent])
    interval_cases t
    · exact .refl
    · exact h01
    · exact h01.tail (by simp [Adjacent])

end Spurt
