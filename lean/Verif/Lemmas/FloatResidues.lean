import Verif.Lemmas.FloatSum
import Verif.Props.EmcfReturns

/-! # Residues from rounded accumulation -/

namespace Spurt
open Spec Finset

section
variable {K : Type} [Field K] [LinearOrder K] [IsStrictOrderedRing K] [FloorRing K]

theorem toEntry_append (k : Nat) (a b : List (Nat × K)) : toEntry k (a ++ b) = toEntry k a + toEntry k b := by
  simp [toEntry]

theorem numEntry_append (k : Nat) (a b : List (Nat × K)) : numEntry k (a ++ b) = numEntry k a + numEntry k b := by
  simp [numEntry]

theorem touch_sum {g : PlanarGraph} {m : Mcf} (hc : PlanarContract g.npoints g.links g.cycles) (hm : ormcf g = .ok m)
    {k : Nat} (hk : k < g.cycles.length) :
    ∑ i ∈ range g.links.length, touch (m.dual.getD i ⟨0, 0, 0, 0⟩) (k + 1) ≤ (g.cycles[k]).length := by
  obtain ⟨_, hmd⟩ := dual_of_contract hc hm
  refine le_trans (le_of_eq ?_) (touch_le hc hk)
  rw [map_sum_eq_range _ _ (0, 0)]
  refine Finset.sum_congr rfl fun i hi => ?_
  have hi' := Finset.mem_range.mp hi
  rw [hmd]
  simp [List.getD_eq_getElem?_getD, hi']

theorem row_vals {g : PlanarGraph} {m : Mcf} (hc : PlanarContract g.npoints g.links g.cycles) (hm : ormcf g = .ok m)
    {i : Nat} (hi : i < g.links.length) (x V : K) (hx : |x| ≤ V) :
    |((m.dual.getD i ⟨0, 0, 0, 0⟩).d0 : K) * x| ≤ V ∧ |((m.dual.getD i ⟨0, 0, 0, 0⟩).d1 : K) * x| ≤ V := by
  obtain ⟨_, hmd⟩ := dual_of_contract hc hm
  have hrow : m.dual.getD i ⟨0, 0, 0, 0⟩ = rowOf (linkTraversals g.cycles g.links[i]) := by
    rw [hmd]; simp [List.getD_eq_getElem?_getD, hi]
  have hg := (goodRow_rowOf hc (List.getElem_mem hi)).2
  rw [← hrow] at hg
  have hV : 0 ≤ V := (abs_nonneg _).trans hx
  constructor
  · rcases hg.d0 with h | h <;> rw [h] <;> simpa using hx
  · rcases hg.d1 with ⟨_, h⟩ | ⟨_, h⟩
    · rw [h]; simpa using hV
    · rcases hg.d0 with h' | h' <;> rw [h, h'] <;> simpa using hx

/-- The `float32` accumulators of one link hold the circulations of the gradients in time, up to one
rounding per side. -/
theorem linkResiduesFl_contract (A : FloatArith K) {B η V : K} (hr : Rounds A.fs B η) (h0 : 0 ≤ η) (hV : 0 ≤ V)
    {g : PlanarGraph} {m : Mcf} (hc : PlanarContract g.npoints g.links g.cycles) (hm : ormcf g = .ok m) (x : Nat → K)
    (hx : ∀ i < g.links.length, |x i| ≤ V) (hB : ∀ c ∈ g.cycles, (c.length : K) * (V + η) ≤ B) :
    (linkResiduesFl A m x).length = g.cycles.length + 1 ∧ (linkResiduesFl A m x).sum = 0 ∧
    ∀ k (hk : k < g.cycles.length), ∃ s : K, (linkResiduesFl A m x).getD (k + 1) 0 = rint (A.fs (s / A.tauS)) ∧
      |s - circulation g.links ((List.range g.links.length).map x) g.cycles[k]| ≤ ((g.cycles[k]).length : K) * η := by
  obtain ⟨hmg, hmd⟩ := dual_of_contract hc hm
  set op : Nat → List (Nat × K) := fun ii =>
    ((m.dual.getD ii ⟨0, 0, 0, 0⟩).c0, ((m.dual.getD ii ⟨0, 0, 0, 0⟩).d0 : K) * x ii) ::
      (if (m.dual.getD ii ⟨0, 0, 0, 0⟩).c1 ≠ 0 then
        [((m.dual.getD ii ⟨0, 0, 0, 0⟩).c1, ((m.dual.getD ii ⟨0, 0, 0, 0⟩).d1 : K) * x ii)] else []) with hop
  have hfold : ∀ (l : List Nat) (acc : List K), l.foldl (fun acc ii =>
      let r := m.dual.getD ii ⟨0, 0, 0, 0⟩
      let acc := acc.modify r.c0 (fun y => A.fs (y + (r.d0 : K) * x ii))
      if r.c1 ≠ 0 then acc.modify r.c1 (fun y => A.fs (y + (r.d1 : K) * x ii)) else acc) acc =
      accFl A.fs acc (l.flatMap op) := by
    intro l
    induction l with
    | nil => intro acc; rfl
    | cons i l ih =>
      intro acc
      rw [List.foldl_cons, ih, List.flatMap_cons, accFl_append]
      congr 1
      simp only [hop]
      split
      · rfl
      · rfl
  set ops := (List.range g.links.length).flatMap op with hops
  set acc := accFl A.fs (List.replicate (g.cycles.length + 1) (0 : K)) ops with hacc
  have hform : linkResiduesFl A m x =
      (- (acc.map fun s => rint (A.fs (s / A.tauS))).tail.sum) :: (acc.map fun s => rint (A.fs (s / A.tauS))).tail := by
    unfold linkResiduesFl
    simp only
    rw [hmg]
    have := hfold (List.range g.links.length) (List.replicate (g.cycles.length + 1) (0 : K))
    simp only at this
    rw [this]
  have hlen : acc.length = g.cycles.length + 1 := by rw [hacc, accFl_length]; simp
  refine ⟨by rw [hform]; simp [hlen], by rw [hform]; simp, fun k hk => ?_⟩
  refine ⟨acc.getD (k + 1) 0, ?_, ?_⟩
  · rw [hform, List.getD_cons_succ]
    have h1 : k + 1 < acc.length := by omega
    rw [List.getD_eq_getElem?_getD, List.getElem?_tail, List.getElem?_map, List.getElem?_eq_getElem h1,
      List.getD_eq_getElem?_getD, List.getElem?_eq_getElem h1]
    rfl
  · have gen : ∀ n ≤ g.links.length, toEntry (k + 1) ((List.range n).flatMap op) =
        ∑ i ∈ range n, (rowInc (m.dual.getD i ⟨0, 0, 0, 0⟩) (k + 1) : K) * x i ∧
        numEntry (k + 1) ((List.range n).flatMap op) = ∑ i ∈ range n, touch (m.dual.getD i ⟨0, 0, 0, 0⟩) (k + 1) := by
      intro n
      induction n with
      | zero => intro _; simp [toEntry, numEntry]
      | succ n ih =>
        intro hn
        obtain ⟨i1, i2⟩ := ih (by omega)
        rw [List.range_succ, List.flatMap_append, toEntry_append, numEntry_append, i1, i2,
          Finset.sum_range_succ, Finset.sum_range_succ]
        simp only [List.flatMap_cons, List.flatMap_nil, List.append_nil, hop]
        generalize m.dual.getD n ⟨0, 0, 0, 0⟩ = r
        constructor
        · congr 1
          unfold rowInc
          split
          · by_cases ha : r.c0 = k + 1 <;> by_cases hb : r.c1 = k + 1 <;> simp [toEntry, ha, hb] <;> ring
          · rename_i h0'
            have h0' : r.c1 = 0 := by simpa using h0'
            by_cases ha : r.c0 = k + 1 <;> simp [toEntry, ha, h0']
        · congr 1
          unfold touch
          split
          · by_cases ha : r.c0 = k + 1 <;> by_cases hb : r.c1 = k + 1 <;> simp [numEntry, ha, hb]
          · rename_i h0'
            have h0' : r.c1 = 0 := by simpa using h0'
            by_cases ha : r.c0 = k + 1 <;> simp [numEntry, ha, h0']
    obtain ⟨g1, g2⟩ := gen _ le_rfl
    have ht := touch_sum hc hm hk
    rw [← g2] at ht
    have htK : (numEntry (k + 1) ops : K) ≤ ((g.cycles[k]).length : K) := by exact_mod_cast ht
    have hVη : 0 ≤ V + η := by linarith
    have hv : ∀ p ∈ ops, p.1 = k + 1 → |p.2| ≤ V := by
      intro p hp _
      obtain ⟨i, hi, hpi⟩ := List.mem_flatMap.mp hp
      have hi' := List.mem_range.mp hi
      have := row_vals hc hm hi' (x i) V (hx i hi')
      simp only [hop] at hpi
      split at hpi
      · rcases List.mem_cons.mp hpi with rfl | hpi
        · exact this.1
        · rw [List.mem_singleton] at hpi; rw [hpi]; exact this.2
      · rw [List.mem_singleton] at hpi; rw [hpi]; exact this.1
    have hz : (List.replicate (g.cycles.length + 1) (0 : K)).getD (k + 1) 0 = 0 := by
      rw [List.getD_eq_getElem?_getD, List.getElem?_replicate, if_pos (by omega)]; rfl
    have near := (accFl_near hr h0 hV (k + 1) ops hv (List.replicate (g.cycles.length + 1) (0 : K)) (by simpa using hk) (by
      rw [hz, abs_zero, zero_add]
      exact (mul_le_mul_of_nonneg_right htK hVη).trans (hB _ (List.getElem_mem hk)))).2
    rw [hz, zero_add, ← hacc] at near
    rw [circulation_dual hc _ hk]
    have e : ∑ i ∈ range g.links.length,
        ((rowInc ((g.links.map fun l => rowOf (linkTraversals g.cycles l)).getD i ⟨0, 0, 0, 0⟩) (k + 1) : ℤ) : K) *
          ((List.range g.links.length).map x).getD i 0 = toEntry (k + 1) ops := by
      rw [hops, g1]
      refine Finset.sum_congr rfl fun i hi => ?_
      have hi' := Finset.mem_range.mp hi
      rw [hmd, List.getD_eq_getElem?_getD (l := (List.range g.links.length).map x), List.getElem?_map, List.getElem?_range hi']
      rfl
    rw [e]
    exact near.trans (mul_le_mul_of_nonneg_right htK h0)

/-- So do those of `compute_residues_from_gradients`. -/
theorem residuesFromGradientsFl_contract (A : FloatArith K) {B η V : K} (hr : Rounds A.fs B η) (h0 : 0 ≤ η) (hV : 0 ≤ V)
    {g : PlanarGraph} {m : Mcf} (hc : PlanarContract g.npoints g.links g.cycles) (hm : ormcf g = .ok m) (x : List K)
    (hxl : x.length = g.links.length) (hx : ∀ v ∈ x, |v| ≤ V) (hB : ∀ c ∈ g.cycles, (c.length : K) * (V + η) ≤ B) :
    ∃ res, computeResiduesFromGradientsFl A m x = .ok res ∧ res.length = g.cycles.length + 1 ∧ res.sum = 0 ∧
    ∀ k (hk : k < g.cycles.length), ∃ s : K, res.getD (k + 1) 0 = rint (A.fs (s / A.tauS)) ∧
      |s - circulation g.links x g.cycles[k]| ≤ ((g.cycles[k]).length : K) * η := by
  obtain ⟨hmg, hmd⟩ := dual_of_contract hc hm
  have hdl : m.dual.length = g.links.length := by rw [hmd]; simp
  set ops := ((m.dual.map (·.c0)).zip (List.zipWith (fun r v => (r.d0 : K) * v) m.dual x)) ++
    ((m.dual.map (·.c1)).zip (List.zipWith (fun r v => (r.d1 : K) * v) m.dual x)) with hops
  set acc := accFl A.fs (List.replicate (g.cycles.length + 1) (0 : K)) ops with hacc
  have hform : computeResiduesFromGradientsFl A m x = .ok
      ((- (acc.map fun s => rint (A.fs (s / A.tauS))).tail.sum) :: (acc.map fun s => rint (A.fs (s / A.tauS))).tail) := by
    unfold computeResiduesFromGradientsFl
    rw [hmg, if_neg (by simpa using hxl), hacc, hops, accFl_append]
    rfl
  have hlen : acc.length = g.cycles.length + 1 := by rw [hacc, accFl_length]; simp
  refine ⟨_, hform, by simp [hlen], by simp, fun k hk => ?_⟩
  refine ⟨acc.getD (k + 1) 0, ?_, ?_⟩
  · rw [List.getD_cons_succ]
    have h1 : k + 1 < acc.length := by omega
    rw [List.getD_eq_getElem?_getD, List.getElem?_tail, List.getElem?_map, List.getElem?_eq_getElem h1,
      List.getD_eq_getElem?_getD, List.getElem?_eq_getElem h1]
    rfl
  · have hzip : ∀ (c : DualRow → Nat) (d : DualRow → ℤ),
        ((m.dual.map c).zip (List.zipWith (fun r v => (d r : K) * v) m.dual x)) =
        (List.range g.links.length).map fun i => (c (m.dual.getD i ⟨0, 0, 0, 0⟩), (d (m.dual.getD i ⟨0, 0, 0, 0⟩) : K) * x.getD i 0) := by
      intro c d
      apply List.ext_getElem
      · simp [hdl, hxl]
      · intro i h1 h2
        have hi : i < g.links.length := by simpa using h2
        have hi1 : i < m.dual.length := by omega
        have hi2 : i < x.length := by omega
        simp [List.getD_eq_getElem?_getD, hi1, hi2]
    have g1 : toEntry (k + 1) ops = ∑ i ∈ range g.links.length, (rowInc (m.dual.getD i ⟨0, 0, 0, 0⟩) (k + 1) : K) * x.getD i 0 := by
      rw [hops, toEntry_append, hzip (·.c0) (·.d0), hzip (·.c1) (·.d1)]
      unfold toEntry
      rw [List.map_map, List.map_map, sum_range_list, sum_range_list, ← Finset.sum_add_distrib]
      refine Finset.sum_congr rfl fun i _ => ?_
      simp only [Function.comp]
      unfold rowInc
      push_cast
      rw [add_mul]
      congr 1
      · split <;> simp
      · split <;> simp
    have g2 : numEntry (k + 1) ops = ∑ i ∈ range g.links.length, touch (m.dual.getD i ⟨0, 0, 0, 0⟩) (k + 1) := by
      rw [hops, numEntry_append, hzip (·.c0) (·.d0), hzip (·.c1) (·.d1)]
      unfold numEntry
      rw [List.map_map, List.map_map, sum_range_list, sum_range_list, ← Finset.sum_add_distrib]
      rfl
    have ht := touch_sum hc hm hk
    rw [← g2] at ht
    have htK : (numEntry (k + 1) ops : K) ≤ ((g.cycles[k]).length : K) := by exact_mod_cast ht
    have hVη : 0 ≤ V + η := by linarith
    have hv : ∀ p ∈ ops, p.1 = k + 1 → |p.2| ≤ V := by
      intro p hp _
      rw [hops, hzip (·.c0) (·.d0), hzip (·.c1) (·.d1)] at hp
      have hxi : ∀ i < g.links.length, |x.getD i 0| ≤ V := by
        intro i hi
        rw [List.getD_eq_getElem?_getD, List.getElem?_eq_getElem (by omega)]
        exact hx _ (List.getElem_mem _)
      rcases List.mem_append.mp hp with hp | hp
      · obtain ⟨i, hi, rfl⟩ := List.mem_map.mp hp
        have hi' := List.mem_range.mp hi
        exact (row_vals hc hm hi' _ V (hxi i hi')).1
      · obtain ⟨i, hi, rfl⟩ := List.mem_map.mp hp
        have hi' := List.mem_range.mp hi
        exact (row_vals hc hm hi' _ V (hxi i hi')).2
    have hz : (List.replicate (g.cycles.length + 1) (0 : K)).getD (k + 1) 0 = 0 := by
      rw [List.getD_eq_getElem?_getD, List.getElem?_replicate, if_pos (by omega)]; rfl
    have near := (accFl_near hr h0 hV (k + 1) ops hv (List.replicate (g.cycles.length + 1) (0 : K)) (by simpa using hk) (by
      rw [hz, abs_zero, zero_add]
      exact (mul_le_mul_of_nonneg_right htK hVη).trans (hB _ (List.getElem_mem hk)))).2
    rw [hz, zero_add, ← hacc] at near
    rw [circulation_dual hc _ hk]
    have e : ∑ i ∈ range g.links.length,
        ((rowInc ((g.links.map fun l => rowOf (linkTraversals g.cycles l)).getD i ⟨0, 0, 0, 0⟩) (k + 1) : ℤ) : K) *
          x.getD i 0 = toEntry (k + 1) ops := by
      rw [g1, hmd]
    rw [e]
    exact near.trans (mul_le_mul_of_nonneg_right htK h0)

/-- Circulations of close edge functions are close. -/
theorem circulation_close {g : PlanarGraph} (hc : PlanarContract g.npoints g.links g.cycles) {δ : K} (x y : Nat → K)
    (hxy : ∀ i < g.links.length, |x i - y i| ≤ δ) {k : Nat} (hk : k < g.cycles.length) :
    |circulation g.links ((List.range g.links.length).map x) g.cycles[k] -
      circulation g.links ((List.range g.links.length).map y) g.cycles[k]| ≤ ((g.cycles[k]).length : K) * δ := by
  have hside : ∀ s ∈ sides g.cycles[k], |along g.links ((List.range g.links.length).map x) s.1 s.2 -
      along g.links ((List.range g.links.length).map y) s.1 s.2| ≤ δ := by
    rintro ⟨a, b⟩ hs
    have hl := hc.side_is_link a b (List.mem_flatMap.mpr ⟨_, List.getElem_mem hk, hs⟩)
    have hon : ∀ p q, (p, q) ∈ g.links → |onLink g.links ((List.range g.links.length).map x) p q -
        onLink g.links ((List.range g.links.length).map y) p q| ≤ δ := by
      intro p q hpq
      have hi := List.idxOf_lt_length_of_mem hpq
      rw [onLink_range, onLink_range, if_pos hi, if_pos hi]
      exact hxy _ hi
    unfold along
    split
    · rename_i hab
      rcases hl with hl | hl
      · exact hon a b hl
      · have := (hc.ordered b a hl).1; omega
    · rename_i hab
      rcases hl with hl | hl
      · have := (hc.ordered a b hl).1; omega
      · have := hon b a hl
        rw [← abs_neg]
        simpa [neg_sub_neg, neg_sub, sub_eq_add_neg, add_comm] using this
  have gen : ∀ l : List (Nat × Nat), (∀ s ∈ l, |along g.links ((List.range g.links.length).map x) s.1 s.2 -
      along g.links ((List.range g.links.length).map y) s.1 s.2| ≤ δ) →
      |(l.map fun s => along g.links ((List.range g.links.length).map x) s.1 s.2).sum -
        (l.map fun s => along g.links ((List.range g.links.length).map y) s.1 s.2).sum| ≤ (l.length : K) * δ := by
    intro l
    induction l with
    | nil => intro _; simp
    | cons s l ih =>
      intro h
      have h1 := abs_bounds (ih fun s hs => h s (by simp [hs]))
      have h2 := abs_bounds (h s (by simp))
      simp only [List.map_cons, List.sum_cons, List.length_cons]
      push_cast
      rw [abs_le]; constructor <;> linarith
  have := gen _ hside
  have hl : (sides g.cycles[k]).length = (g.cycles[k]).length := by
    rw [← List.length_map (f := Prod.fst), sides_fst]
  rw [hl] at this
  exact this

/-- Rounding a rounded quotient near a whole number of cycles. -/
theorem rint_fl_eq {fl : K → K} {B η t : K} (hr : Rounds fl B η) (ht : 1 ≤ t) (s r : K) (n : ℤ)
    (hs : |s - (n : K) * t| ≤ r) (hsB : |s| ≤ B) (hlt : r + t * η < t / 2) : rint (fl (s / t)) = n := by
  have ht0 : 0 < t := by linarith
  have hB0 : 0 ≤ B := (abs_nonneg _).trans hsB
  have hq : |s / t| ≤ B := by
    rw [abs_div, abs_of_pos ht0, div_le_iff₀ ht0]
    nlinarith
  have b1 := abs_bounds (hr.close _ hq)
  have b2 := abs_bounds hs
  have e : s / t * t = s := div_mul_cancel₀ _ ht0.ne'
  set q := fl (s / t)
  have h1 : (q - s / t) * t ≤ t * η := by nlinarith
  have h2 : -(t * η) ≤ (q - s / t) * t := by nlinarith
  have e2 : (q - n) * t = (q - s / t) * t + (s - n * t) := by rw [sub_mul q (s / t), e]; ring
  apply rint_eq_of_lt
  · have : -(t / 2) < (q - n) * t := by rw [e2]; linarith
    by_contra hc
    rw [not_lt] at hc
    nlinarith
  · have : (q - n) * t < t / 2 := by rw [e2]; linarith
    by_contra hc
    rw [not_lt] at hc
    nlinarith

end

end Spurt
