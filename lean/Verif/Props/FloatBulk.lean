import Verif.Lemmas.FloatBulk
import Verif.Props.BulkResiduals
import Verif.Props.FloatDouble

/-!
# Property C76 in double precision: least-squares bulk offsets and their residuals
-/

namespace Spurt
open Spec

section
variable {K : Type} [Field K] [LinearOrder K] [IsStrictOrderedRing K] [FloorRing K]

omit [FloorRing K] in
theorem solveL2Fl_unfold {ntiles nbands : Nat} {olaps : List (Nat × Nat)} {off : List (List K)}
    {counts : List Nat} (hi : L2Input ntiles nbands olaps off counts) (fd : K → K) (lstsq : Lstsq K) :
    ∃ r, LargestTile counts r ∧ solveL2MinFl fd lstsq olaps off nbands ntiles counts = .ok
      ((List.range nbands).map fun b => (List.range ntiles).map fun t =>
        fd (((lstsq (overlapMatrix olaps ntiles) off).getD t []).getD b 0 -
          ((lstsq (overlapMatrix olaps ntiles) off).getD r []).getD b 0),
      (List.range nbands).map fun b => ((List.zipWith (List.zipWith fun v w => fd (v - w)) off
        (matDotFl fd (overlapMatrix olaps ntiles) (lstsq (overlapMatrix olaps ntiles) off) nbands)).map
          fun row => |row.getD b 0|).foldl (fun acc v => fd (acc + v)) 0) := by
  obtain ⟨k, h1, h2, h3⟩ := argmax_spec counts (by
    intro h0; have := hi.countLen; rw [h0] at this; simp at this; have := hi.tiles; omega)
  refine ⟨k, ⟨h2, h3⟩, ?_⟩
  unfold solveL2MinFl l2MinFl
  rw [if_neg (by
    rw [not_not, List.all_eq_true]
    rintro ⟨a, b⟩ hab
    have := hi.inside a b hab
    simpa using ⟨this.1, this.2.1⟩)]
  rw [if_neg (by simp [overlapMatrix, hi.offLen])]
  simp only [Bind.bind, Except.bind, h1]
  rfl

/-- Exact least-squares solutions reproduce consistent offsets. -/
theorem leastSquares_consistent {ntiles nbands : Nat} {olaps : List (Nat × Nat)} {off : List (List K)}
    {counts : List Nat} (hi : L2Input ntiles nbands olaps off counts) {y : List (List K)}
    (hls : LeastSquares (overlapMatrix olaps ntiles) off y ntiles nbands) {b : Nat} (hb : b < nbands) {c : Nat → K}
    (hc : ∀ (k t1 t2 : Nat) row, olaps[k]? = some (t1, t2) → off[k]? = some row → row[b]? = some (c t2 - c t1)) :
    ∀ t1 t2, (t1, t2) ∈ olaps → (y.getD t2 []).getD b 0 - (y.getD t1 []).getD b 0 = c t2 - c t1 := by
  obtain ⟨r, hr, hsol⟩ := solveL2_unfold hi (fun _ _ => y)
  obtain ⟨_, row, h1, h2, _⟩ := C40_consistent ntiles nbands olaps off counts hi (fun _ _ => y) hls _ _ hsol b hb c hc
  intro t1 t2 ht
  obtain ⟨a1, a2, _⟩ := hi.inside t1 t2 ht
  rw [← h2 t1 t2 ht]
  rw [List.getElem?_map, List.getElem?_range hb] at h1
  simp only [Option.map_some, Option.some.injEq] at h1
  subst h1
  rw [getD_map_lt _ _ (i := t2) (by simpa using a2), getD_map_lt _ _ (i := t1) (by simpa using a1)]
  simp only [List.getElem_range, sub_sub_sub_cancel_right]

/-- C76. Least-squares offsets in double precision. If the observed offset of every overlap in a band is the difference of
values `c` per tile, the largest tile gets offset 0 and every tile that a chain of overlaps joins to the largest one gets
its value relative to it, within twice the accuracy of `lstsq` and one rounding. -/
theorem C76_double_offsets (fd : K → K) (Bd ηd γ X : K) (hfd : Rounds fd Bd ηd) (hX : 2 * X ≤ Bd)
    (ntiles nbands : Nat) (olaps : List (Nat × Nat)) (off : List (List K)) (counts : List Nat)
    (hi : L2Input ntiles nbands olaps off counts) (lstsq : Lstsq K)
    (hls : LstsqNear lstsq (overlapMatrix olaps ntiles) off ntiles nbands γ X) :
    ∃ x res, solveL2MinFl fd lstsq olaps off nbands ntiles counts = .ok (x, res) ∧ x.length = nbands ∧ res.length = nbands ∧
      ∀ b < nbands, ∃ row, x[b]? = some row ∧ row.length = ntiles ∧ ∀ r, LargestTile counts r → row[r]? = some 0 ∧
        ∀ c : Nat → K, (∀ (k t1 t2 : Nat) o, olaps[k]? = some (t1, t2) → off[k]? = some o → o[b]? = some (c t2 - c t1)) →
          ∀ t < ntiles, Relation.ReflTransGen (Adjacent olaps) r t → ∃ v, row[t]? = some v ∧
            |v - (c t - c r)| ≤ 2 * γ + ηd := by
  obtain ⟨r, hr, hsol⟩ := solveL2Fl_unfold hi fd lstsq
  refine ⟨_, _, hsol, by simp, by simp, fun b hb => ⟨_, by rw [List.getElem?_map, List.getElem?_range hb]; rfl, by simp, ?_⟩⟩
  intro r' hr'
  have hrr : r' = r := by
    have e1 := hr.2 r' hr'.1
    have e2 := hr'.2 r hr.1
    omega
  subst hrr
  have hrn : r' < ntiles := by rw [← hi.countLen]; exact hr.1
  have hfd0 : fd 0 = 0 := by
    have := hfd.odd 0
    rw [neg_zero] at this
    linarith
  refine ⟨by rw [List.getElem?_map, List.getElem?_range hrn]; simp [hfd0], fun c hc t ht hreach => ?_⟩
  refine ⟨_, by rw [List.getElem?_map, List.getElem?_range ht]; rfl, ?_⟩
  obtain ⟨y, hy, hnear⟩ := hls.near
  have hcons := leastSquares_consistent hi hy hb hc
  have hpath : (y.getD t []).getD b 0 - (y.getD r' []).getD b 0 = c t - c r' := by
    clear ht
    induction hreach with
    | refl => simp
    | tail _ hbc ih =>
      rcases hbc with hbc | hbc
      · have := hcons _ _ hbc; linear_combination ih + this
      · have := hcons _ _ hbc; linear_combination ih - this
  have n1 := abs_le.mp (hnear t ht b hb)
  have n2 := abs_le.mp (hnear r' hrn b hb)
  have s1 := abs_le.mp (hls.size t ht b hb)
  have s2 := abs_le.mp (hls.size r' hrn b hb)
  have hr := abs_le.mp (hfd.close (((lstsq (overlapMatrix olaps ntiles) off).getD t []).getD b 0 -
    ((lstsq (overlapMatrix olaps ntiles) off).getD r' []).getD b 0) (by rw [abs_le]; constructor <;> linarith))
  rw [abs_le]
  constructor <;> linarith

/-- C76. The residual in double precision: small when the observed offsets of the band are differences of whole numbers
per tile, and almost 1 or more when they are not. -/
theorem C76_double_residual (fd : K → K) (B1 η1 B2 η2 γ X O : K) (hfd : Rounds fd B1 η1) (hfd2 : Rounds fd B2 η2)
    (hη : 0 ≤ η1 ∧ 0 ≤ η2) (hpos : 0 ≤ X ∧ 0 ≤ O) (ntiles nbands : Nat) (olaps : List (Nat × Nat)) (off : List (List ℤ))
    (counts : List Nat) (hi : L2Input ntiles nbands olaps (off.map fun row => row.map fun v => ((v : ℤ) : K)) counts)
    (hobs : ∀ row ∈ off, ∀ o ∈ row, |((o : ℤ) : K)| ≤ O)
    (hB1 : O + 2 * X + (2 * (ntiles : K) + 1) * η1 ≤ B1)
    (hB2 : (olaps.length : K) * (O + 2 * X + (2 * (ntiles : K) + 1) * η1 + η2) ≤ B2) (lstsq : Lstsq K)
    (hls : LstsqNear lstsq (overlapMatrix olaps ntiles) (off.map fun row => row.map fun v => ((v : ℤ) : K)) ntiles nbands γ X)
    (x : List (List K)) (res : List K)
    (h : solveL2MinFl fd lstsq olaps (off.map fun row => row.map fun v => ((v : ℤ) : K)) nbands ntiles counts = .ok (x, res))
    (b : Nat) (hb : b < nbands) : ∃ v, res[b]? = some v ∧
    ((∃ c : Nat → ℤ, ∀ (k t1 t2 : Nat) row, olaps[k]? = some (t1, t2) → off[k]? = some row → row[b]? = some (c t2 - c t1)) →
      v ≤ (olaps.length : K) * (2 * γ + (2 * (ntiles : K) + 1) * η1 + η2)) ∧
    ((¬ ∃ c : Nat → ℤ, ∀ (k t1 t2 : Nat) row, olaps[k]? = some (t1, t2) → off[k]? = some row → row[b]? = some (c t2 - c t1)) →
      1 - (olaps.length : K) * ((2 * (ntiles : K) + 1) * η1 + η2) ≤ v) := by
  obtain ⟨r, hr, hsol⟩ := solveL2Fl_unfold hi fd lstsq
  rw [hsol] at h
  simp only [Except.ok.injEq, Prod.mk.injEq] at h
  obtain ⟨_, rfl⟩ := h
  refine ⟨_, by rw [List.getElem?_map, List.getElem?_range hb]; rfl, ?_⟩
  set offK := off.map fun row => row.map fun v => ((v : ℤ) : K) with hoffK
  set x := lstsq (overlapMatrix olaps ntiles) offK with hx
  have hnear := abs_le.mp (residualFl_near hfd hfd2 hη.1 hη.2 hpos.1 hpos.2 hi.inside hi.offLen hi.offRow hls.length b hb
    (fun t ht => hls.size t ht b hb) (by
      intro row hrow
      obtain ⟨o, ho, rfl⟩ := List.mem_map.mp hrow
      have hlen := hi.offRow _ hrow
      rw [List.getD_eq_getElem _ _ (by rw [hlen]; exact hb), List.getElem_map]
      exact hobs o ho _ (List.getElem_mem _)) hB1 hB2)
  constructor
  · rintro ⟨c, hc⟩
    obtain ⟨y, hy, hyn⟩ := hls.near
    have hcons := leastSquares_consistent hi hy hb (c := fun t => (c t : K)) (by
      intro k t1 t2 row hk hrow
      rw [hoffK, List.getElem?_map] at hrow
      cases ho : off[k]? with
      | none => rw [ho] at hrow; simp at hrow
      | some o =>
        rw [ho] at hrow
        simp only [Option.map_some, Option.some.injEq] at hrow
        subst hrow
        rw [List.getElem?_map, hc k t1 t2 o hk ho]
        simp)
    have habs : absError olaps (col offK b) (fun t => (x.getD t []).getD b 0) ≤ (olaps.length : K) * (2 * γ) := by
      have hlen : ((olaps.zip (col offK b)).map fun c => |c.2 - ((x.getD c.1.2 []).getD b 0 - (x.getD c.1.1 []).getD b 0)|).length =
          olaps.length := by simp [col, hi.offLen]
      have := List.sum_le_card_nsmul ((olaps.zip (col offK b)).map fun c =>
        |c.2 - ((x.getD c.1.2 []).getD b 0 - (x.getD c.1.1 []).getD b 0)|) (2 * γ) (by
          intro v hv
          obtain ⟨⟨⟨t1, t2⟩, o⟩, hm, rfl⟩ := List.mem_map.mp hv
          obtain ⟨k, hk⟩ := List.getElem?_of_mem hm
          rw [List.getElem?_zip_eq_some] at hk
          obtain ⟨k1, k2⟩ := hk
          have hmem := List.mem_of_getElem? k1
          obtain ⟨a1, a2, _⟩ := hi.inside t1 t2 hmem
          have ho : o = (c t2 : K) - c t1 := by
            rw [hoffK, col_intCast, List.getElem?_map, List.getElem?_map] at k2
            cases hok : off[k]? with
            | none => rw [hok] at k2; simp at k2
            | some w =>
              rw [hok] at k2
              have := hc k t1 t2 w k1 hok
              simp only [Option.map_some, Option.some.injEq, List.getD_eq_getElem?_getD, this, Option.getD_some] at k2
              rw [← k2]; push_cast; ring
          have e := hcons t1 t2 hmem
          have n1 := abs_le.mp (hyn t1 a1 b hb)
          have n2 := abs_le.mp (hyn t2 a2 b hb)
          simp only
          rw [ho, abs_le]
          constructor <;> linarith)
      rw [hlen, nsmul_eq_mul] at this
      exact this
    rw [add_assoc (2 * γ), mul_add (olaps.length : K) (2 * γ)]
    linarith
  · intro hno
    have : 1 ≤ absError olaps (col offK b) (fun t => (x.getD t []).getD b 0) := by
      by_contra hlt
      rw [not_le, hoffK, col_intCast] at hlt
      obtain ⟨c, hc⟩ := consistent_of_absError (fun t1 t2 hm => ⟨(hi.inside t1 t2 hm).1, (hi.inside t1 t2 hm).2.1⟩) hlt
      refine hno ⟨c, fun k t1 t2 w hk hw => ?_⟩
      have hlen : w.length = nbands := by
        have := hi.offRow (w.map fun v => ((v : ℤ) : K)) (List.mem_map.mpr ⟨w, List.mem_of_getElem? hw, rfl⟩)
        simpa using this
      have := hc k t1 t2 (w.getD b 0) hk (by rw [List.getElem?_map, hw]; rfl)
      rw [← this, List.getElem?_eq_getElem (by omega), List.getD_eq_getElem _ _ (by omega)]
    linarith

end

/-- C76. With doubles, up to 1000 tiles and 5000 overlaps, offsets in `int16`, and answers of `lstsq` up to a hundred
thousand cycles that are accurate to a hundred-thousandth of a cycle: the residual of a band is below one half exactly when the offsets are
differences of whole numbers per tile. -/
theorem C76_numpy_residual (ntiles nbands : Nat) (olaps : List (Nat × Nat)) (off : List (List ℤ)) (counts : List Nat)
    (hn : ntiles ≤ 1000) (hm : olaps.length ≤ 5000)
    (hi : L2Input ntiles nbands olaps (off.map fun row => row.map fun v => ((v : ℤ) : ℚ)) counts)
    (hobs : ∀ row ∈ off, ∀ o ∈ row, -32768 ≤ o ∧ o ≤ 32767) (lstsq : Lstsq ℚ)
    (hls : LstsqNear lstsq (overlapMatrix olaps ntiles) (off.map fun row => row.map fun v => ((v : ℤ) : ℚ)) ntiles nbands
      (1 / 100000) 100000) :
    ∃ x res, solveL2MinFl flDouble lstsq olaps (off.map fun row => row.map fun v => ((v : ℤ) : ℚ)) nbands ntiles counts =
        .ok (x, res) ∧
      ∀ b < nbands, ∃ v, res[b]? = some v ∧
        (v < 1 / 2 ↔ ∃ c : Nat → ℤ, ∀ (k t1 t2 : Nat) row, olaps[k]? = some (t1, t2) → off[k]? = some row →
          row[b]? = some (c t2 - c t1)) := by
  obtain ⟨x, res, h, _⟩ := C76_double_offsets flDouble (2 ^ 18) (2 ^ 18 / 2 ^ 53) _ _ (rounds_double 18) (by norm_num) ntiles nbands
    olaps _ counts hi lstsq hls
  refine ⟨x, res, h, fun b hb => ?_⟩
  have hn' : (ntiles : ℚ) ≤ 1000 := by exact_mod_cast hn
  have hm' : (olaps.length : ℚ) ≤ 5000 := by exact_mod_cast hm
  have hm0 : (0 : ℚ) ≤ olaps.length := Nat.cast_nonneg _
  have hn0 : (0 : ℚ) ≤ ntiles := Nat.cast_nonneg _
  have e1 : (2 * (ntiles : ℚ) + 1) * (2 ^ 18 / 2 ^ 53) ≤ 1 / 1000000 := by norm_num; linarith
  have e0 : 0 ≤ (2 * (ntiles : ℚ) + 1) * (2 ^ 18 / 2 ^ 53) := by positivity
  have e2 : (2 : ℚ) ^ 31 / 2 ^ 53 ≤ 1 / 1000000 := by norm_num
  have e3 : (0 : ℚ) ≤ 2 ^ 31 / 2 ^ 53 := by norm_num
  obtain ⟨v, hv, h1, h2⟩ := C76_double_residual flDouble (2 ^ 18) (2 ^ 18 / 2 ^ 53) (2 ^ 31) (2 ^ 31 / 2 ^ 53) (1 / 100000)
    100000 32768 (rounds_double 18) (rounds_double 31) (by norm_num) (by norm_num) ntiles nbands olaps off counts hi (by
      intro row hrow o ho
      obtain ⟨o1, o2⟩ := hobs row hrow o ho
      rw [← Int.cast_abs]
      have : |o| ≤ 32768 := by rw [abs_le]; omega
      exact_mod_cast this) (by norm_num at e1 ⊢; linarith) (by
      refine (mul_le_mul_of_nonneg_right hm' (by linarith)).trans ?_
      linarith) lstsq hls x res h b hb
  refine ⟨v, hv, fun hlt => ?_, fun hc => ?_⟩
  · by_contra hno
    have := h2 hno
    have : (olaps.length : ℚ) * ((2 * (ntiles : ℚ) + 1) * (2 ^ 18 / 2 ^ 53) + 2 ^ 31 / 2 ^ 53) ≤ 5000 * (1 / 1000000 + 1 / 1000000) :=
      mul_le_mul hm' (by linarith) (by linarith) (by norm_num)
    linarith
  · have := h1 hc
    have : (olaps.length : ℚ) * (2 * (1 / 100000) + (2 * (ntiles : ℚ) + 1) * (2 ^ 18 / 2 ^ 53) + 2 ^ 31 / 2 ^ 53) ≤
        5000 * (2 * (1 / 100000) + 1 / 1000000 + 1 / 1000000) :=
      mul_le_mul hm' (by linarith) (by linarith) (by norm_num)
    linarith

end Spurt
