import Verif.Props.BulkL2
import Verif.Lemmas.Averaging

/-!
# Property C76: what the residuals of the bulk offsets say
-/

namespace Spurt
open Spec

section
variable {K : Type} [Field K] [LinearOrder K] [IsStrictOrderedRing K] [FloorRing K]

/-- Rounding the values per tile to whole numbers without a larger disagreement with whole offsets. -/
theorem absError_rounding (olaps : List (Nat × Nat)) (off : List ℤ) (f : Nat → K) : ∃ θ : K, 0 ≤ θ ∧ θ < 1 ∧
    ∀ n : List ℤ, (∀ t1 t2, (t1, t2) ∈ olaps → n.getD t1 0 = ⌊f t1 + θ⌋ ∧ n.getD t2 0 = ⌊f t2 + θ⌋) →
      ((offsetError olaps off n : ℤ) : K) ≤ absError olaps (off.map fun v => ((v : ℤ) : K)) f := by
  obtain ⟨θ, h0, h1, h⟩ := exists_rounding (olaps.zip off) f
  refine ⟨θ, h0, h1, fun n hn => ?_⟩
  have e1 : offsetError olaps off n = floorError (olaps.zip off) f θ := by
    unfold offsetError floorError
    congr 1
    apply List.map_congr_left
    rintro ⟨⟨t1, t2⟩, o⟩ hc
    obtain ⟨a1, a2⟩ := hn t1 t2 (List.of_mem_zip hc).1
    simp only [a1, a2]
  have e2 : absError olaps (off.map fun v => ((v : ℤ) : K)) f =
      ((olaps.zip off).map fun c => |(c.2 : K) - (f c.1.2 - f c.1.1)|).sum := by
    unfold absError
    rw [List.zip_map_right, List.map_map]
    rfl
  rw [e1, e2]
  exact h

omit [LinearOrder K] [IsStrictOrderedRing K] [FloorRing K] in
theorem col_intCast (off : List (List ℤ)) (b : Nat) :
    col (off.map fun row => row.map fun v => ((v : ℤ) : K)) b = (off.map fun row => row.getD b 0).map fun v => ((v : ℤ) : K) := by
  unfold col
  rw [List.map_map, List.map_map]
  apply List.map_congr_left
  intro row _
  simp only [Function.comp_apply, List.getD_eq_getElem?_getD, List.getElem?_map]
  cases row[b]? <;> simp

/-- Any values per tile that disagree by less than one cycle in total with whole offsets show that the offsets
are consistent. -/
theorem consistent_of_absError {ntiles : Nat} {olaps : List (Nat × Nat)} {off : List ℤ} {f : Nat → K}
    (hin : ∀ t1 t2, (t1, t2) ∈ olaps → t1 < ntiles ∧ t2 < ntiles)
    (h : absError olaps (off.map fun v => ((v : ℤ) : K)) f < 1) :
    ∃ c : Nat → ℤ, ∀ (k t1 t2 : Nat) (o : ℤ), olaps[k]? = some (t1, t2) → off[k]? = some o → o = c t2 - c t1 := by
  obtain ⟨θ, _, _, hr⟩ := absError_rounding olaps off f
  have hn : ∀ t < ntiles, ((List.range ntiles).map fun t => ⌊f t + θ⌋).getD t 0 = ⌊f t + θ⌋ := by
    intro t ht
    rw [getD_map_lt _ _ (by simpa using ht)]
    simp
  have h1 := lt_of_le_of_lt (hr ((List.range ntiles).map fun t => ⌊f t + θ⌋) fun t1 t2 hm =>
    ⟨hn t1 (hin t1 t2 hm).1, hn t2 (hin t1 t2 hm).2⟩) h
  have h2 : offsetError olaps off ((List.range ntiles).map fun t => ⌊f t + θ⌋) < 1 := by exact_mod_cast h1
  have h3 : 0 ≤ offsetError olaps off ((List.range ntiles).map fun t => ⌊f t + θ⌋) := by
    unfold offsetError
    apply List.sum_nonneg
    intro x hx
    obtain ⟨_, _, rfl⟩ := List.mem_map.mp hx
    exact abs_nonneg _
  have h4 := offsetError_zero.mp (le_antisymm (by omega) h3)
  exact ⟨fun t => ((List.range ntiles).map fun t => ⌊f t + θ⌋).getD t 0, fun k t1 t2 o hk ho => (h4 k t1 t2 o hk ho).symm⟩

/-- C76. The residual of the least-squares offsets is 0 when the observed offsets of the band are differences of whole
numbers per tile, and at least 1 when they are not. -/
theorem C76_l2_residual (ntiles nbands : Nat) (olaps : List (Nat × Nat)) (off : List (List ℤ)) (counts : List Nat)
    (hi : L2Input ntiles nbands olaps (off.map fun row => row.map fun v => ((v : ℤ) : K)) counts) (lstsq : Lstsq K)
    (hls : LeastSquares (overlapMatrix olaps ntiles) (off.map fun row => row.map fun v => ((v : ℤ) : K))
      (lstsq (overlapMatrix olaps ntiles) (off.map fun row => row.map fun v => ((v : ℤ) : K))) ntiles nbands)
    (x : List (List K)) (res : List K)
    (h : solveL2Min lstsq olaps (off.map fun row => row.map fun v => ((v : ℤ) : K)) nbands ntiles counts = .ok (x, res))
    (b : Nat) (hb : b < nbands) :
    ((∃ c : Nat → ℤ, ∀ (k t1 t2 : Nat) row, olaps[k]? = some (t1, t2) → off[k]? = some row → row[b]? = some (c t2 - c t1)) →
      res[b]? = some 0) ∧
    ((¬ ∃ c : Nat → ℤ, ∀ (k t1 t2 : Nat) row, olaps[k]? = some (t1, t2) → off[k]? = some row → row[b]? = some (c t2 - c t1)) →
      ∃ v, res[b]? = some v ∧ 1 ≤ v) := by
  constructor
  · rintro ⟨c, hc⟩
    refine (C40_consistent ntiles nbands olaps _ counts hi lstsq hls x res h b hb (fun t => (c t : K)) ?_).1
    intro k t1 t2 row hk hrow
    rw [List.getElem?_map] at hrow
    cases ho : off[k]? with
    | none => rw [ho] at hrow; simp at hrow
    | some r =>
      rw [ho] at hrow
      simp only [Option.map_some, Option.some.injEq] at hrow
      subst hrow
      rw [List.getElem?_map, hc k t1 t2 r hk ho]
      simp
  · intro hno
    obtain ⟨x', res', h', _, _, hband⟩ := C40_least_squares ntiles nbands olaps _ counts hi lstsq hls
    rw [h] at h'
    simp only [Except.ok.injEq, Prod.mk.injEq] at h'
    obtain ⟨rfl, rfl⟩ := h'
    obtain ⟨row, _, _, _, _, h5⟩ := hband b hb
    refine ⟨_, h5, ?_⟩
    by_contra hlt
    rw [not_le, col_intCast] at hlt
    obtain ⟨c, hc⟩ := consistent_of_absError (fun t1 t2 hm => ⟨(hi.inside t1 t2 hm).1, (hi.inside t1 t2 hm).2.1⟩) hlt
    refine hno ⟨c, fun k t1 t2 r hk hr => ?_⟩
    have hlen : r.length = nbands := by
      have := hi.offRow (r.map fun v => ((v : ℤ) : K)) (List.mem_map.mpr ⟨r, List.mem_of_getElem? hr, rfl⟩)
      simpa using this
    have := hc k t1 t2 (r.getD b 0) hk (by rw [List.getElem?_map, hr]; rfl)
    rw [← this, List.getElem?_eq_getElem (by omega), List.getD_eq_getElem _ _ (by omega)]

/-- C76. The integer method never reports a larger residual than least squares does for the same offsets. -/
theorem C76_integer_le_l2 (ntiles nbands : Nat) (olaps : List (Nat × Nat)) (labels : List Nat) (off : List (List ℤ))
    (counts : List Nat) (hi : L2Input ntiles nbands olaps (off.map fun row => row.map fun v => ((v : ℤ) : K)) counts)
    (lstsq : Lstsq K)
    (hls : LeastSquares (overlapMatrix olaps ntiles) (off.map fun row => row.map fun v => ((v : ℤ) : K))
      (lstsq (overlapMatrix olaps ntiles) (off.map fun row => row.map fun v => ((v : ℤ) : K))) ntiles nbands)
    (x : List (List K)) (res : List K)
    (h : solveL2Min lstsq olaps (off.map fun row => row.map fun v => ((v : ℤ) : K)) nbands ntiles counts = .ok (x, res))
    (b : Nat) (hb : b < nbands) (hsmall : ∀ row, x[b]? = some row → ∀ v ∈ row, |v| ≤ 999999999)
    (hint : IntOffsetInput ntiles olaps labels (off.map fun row => row.getD b 0) counts)
    (solver : MipSolver) (hs : MipOptimal solver) (n : List ℤ) (val : ℤ)
    (hn : solveIntOffsets solver olaps labels (off.map fun row => row.getD b 0) counts = .ok (n, val)) :
    ∃ v, res[b]? = some v ∧ (val : K) ≤ v := by
  obtain ⟨x', res', h', _, _, hband⟩ := C40_least_squares ntiles nbands olaps _ counts hi lstsq hls
  rw [h] at h'
  simp only [Except.ok.injEq, Prod.mk.injEq] at h'
  obtain ⟨rfl, rfl⟩ := h'
  obtain ⟨row, h1, h2, _, _, h5⟩ := hband b hb
  refine ⟨_, h5, ?_⟩
  rw [col_intCast]
  obtain ⟨θ, t0, t1, hr⟩ := absError_rounding olaps (off.map fun row => row.getD b 0) (fun t => row.getD t 0)
  have hg : ∀ t < ntiles, ((List.range ntiles).map fun t => ⌊row.getD t 0 + θ⌋).getD t 0 = ⌊row.getD t 0 + θ⌋ := by
    intro t ht
    rw [getD_map_lt _ _ (by simpa using ht)]
    simp
  refine le_trans ?_ (hr ((List.range ntiles).map fun t => ⌊row.getD t 0 + θ⌋) fun u1 u2 hm =>
    ⟨hg u1 (hi.inside u1 u2 hm).1, hg u2 (hi.inside u1 u2 hm).2.1⟩)
  have := (C39_least_disagreement ntiles olaps labels _ counts hint solver hs n val hn).2.2.2.2
    ((List.range ntiles).map fun t => ⌊row.getD t 0 + θ⌋) (by
      intro t
      by_cases ht : t < ntiles
      · rw [hg t ht]
        have hv := abs_le.mp (hsmall row h1 (row.getD t 0) (by
          rw [List.getD_eq_getElem _ _ (by omega)]; exact List.getElem_mem _))
        rw [abs_le]
        constructor
        · rw [Int.le_floor]; push_cast; linarith
        · have : ⌊row.getD t 0 + θ⌋ < 1000000001 := by
            rw [Int.floor_lt]; push_cast; linarith
          omega
      · rw [List.getD_eq_getElem?_getD, List.getElem?_eq_none (by simpa using ht)]; simp)
  exact_mod_cast this

end

end Spurt
