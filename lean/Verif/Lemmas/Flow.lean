import Verif.Lemmas.Residues

namespace Spurt
open Spec Finset

/-- Net incidence of node `k` in a dual row, as seen by the forward arc. -/
def nodeInc (r : DualRow) (k : Nat) : ℤ :=
  (if r.c0 = k then 1 else 0) - (if r.c1 = k then 1 else 0)

abbrev row0 : DualRow := ⟨0, 0, 0, 0⟩
abbrev arc0 : Arc := ⟨0, 0, 0, 0⟩

section
variable (dual : List DualRow) (residues cost revcost : List ℤ)

theorem arcs_length (hc : cost.length = dual.length) (hr : revcost.length = dual.length) :
    (flowProblem dual residues cost revcost).arcs.length = dual.length + dual.length := by
  simp [flowProblem, hc, hr]

theorem arcs_fwd (hc : cost.length = dual.length) (hr : revcost.length = dual.length)
    {i : Nat} (hi : i < dual.length) :
    (flowProblem dual residues cost revcost).arcs.getD i arc0 =
      ⟨(dual.getD i row0).c0, (dual.getD i row0).c1, int32Max,
        pickCost (cost.getD i 0) (revcost.getD i 0) (dual.getD i row0).d0 (-1) 1⟩ := by
  unfold flowProblem
  simp only [List.getD_eq_getElem?_getD]
  rw [List.getElem?_append_left (by simp [hc, hr, hi])]
  have h1 : i < cost.length := by omega
  have h2 : i < revcost.length := by omega
  simp [List.getElem?_zipWith, List.getElem?_zip_eq_some, List.zip, List.getElem?_eq_getElem hi,
    List.getElem?_eq_getElem h1, List.getElem?_eq_getElem h2]

theorem arcs_bwd (hc : cost.length = dual.length) (hr : revcost.length = dual.length)
    {i : Nat} (hi : i < dual.length) :
    (flowProblem dual residues cost revcost).arcs.getD (dual.length + i) arc0 =
      ⟨(dual.getD i row0).c1, (dual.getD i row0).c0, int32Max,
        pickCost (cost.getD i 0) (revcost.getD i 0) (dual.getD i row0).d0 1 (-1)⟩ := by
  unfold flowProblem
  simp only [List.getD_eq_getElem?_getD]
  rw [List.getElem?_append_right (by simp [hc, hr])]
  have h1 : i < cost.length := by omega
  have h2 : i < revcost.length := by omega
  simp [List.getElem?_zipWith, List.zip, hc, hr, List.getElem?_eq_getElem hi,
    List.getElem?_eq_getElem h1, List.getElem?_eq_getElem h2]

theorem arc_sum {M : Type*} [AddCommMonoid M] (hc : cost.length = dual.length)
    (hr : revcost.length = dual.length)
    (f : List ℤ) (hf : f.length = dual.length + dual.length) (φ : Arc → ℤ → M) :
    (List.zipWith φ (flowProblem dual residues cost revcost).arcs f).sum =
      ∑ i ∈ range dual.length,
        (φ ((flowProblem dual residues cost revcost).arcs.getD i arc0) (f.getD i 0) +
         φ ((flowProblem dual residues cost revcost).arcs.getD (dual.length + i) arc0)
          (f.getD (dual.length + i) 0)) := by
  rw [zipWith_sum_eq_range φ _ _ arc0 0 (by rw [arcs_length _ _ _ _ hc hr, hf]),
    arcs_length _ _ _ _ hc hr, Finset.sum_range_add, ← Finset.sum_add_distrib]

theorem netOut_eq (hc : cost.length = dual.length) (hr : revcost.length = dual.length)
    (f : List ℤ) (hf : f.length = dual.length + dual.length) (k : Nat) :
    netOut (flowProblem dual residues cost revcost).arcs f k =
      ∑ i ∈ range dual.length, nodeInc (dual.getD i row0) k *
        (f.getD i 0 - f.getD (dual.length + i) 0) := by
  unfold netOut
  rw [arc_sum _ _ _ _ hc hr f hf, arc_sum _ _ _ _ hc hr f hf, ← Finset.sum_sub_distrib]
  refine Finset.sum_congr rfl fun i hi => ?_
  have hi' := Finset.mem_range.mp hi
  rw [arcs_fwd _ _ _ _ hc hr hi', arcs_bwd _ _ _ _ hc hr hi']
  simp only [nodeInc]
  split <;> split <;> ring

theorem flowCost_eq (hc : cost.length = dual.length) (hr : revcost.length = dual.length)
    (f : List ℤ) (hf : f.length = dual.length + dual.length) :
    flowCost (flowProblem dual residues cost revcost) f =
      ∑ i ∈ range dual.length,
        (pickCost (cost.getD i 0) (revcost.getD i 0) (dual.getD i row0).d0 (-1) 1 * f.getD i 0 +
         pickCost (cost.getD i 0) (revcost.getD i 0) (dual.getD i row0).d0 1 (-1) *
          f.getD (dual.length + i) 0) := by
  unfold flowCost
  rw [arc_sum _ _ _ _ hc hr f hf]
  refine Finset.sum_congr rfl fun i hi => ?_
  have hi' := Finset.mem_range.mp hi
  rw [arcs_fwd _ _ _ _ hc hr hi', arcs_bwd _ _ _ _ hc hr hi']

theorem bounds_iff (hc : cost.length = dual.length) (hr : revcost.length = dual.length)
    (f : List ℤ) (hf : f.length = dual.length + dual.length) :
    (∀ x ∈ List.zip (flowProblem dual residues cost revcost).arcs f, 0 ≤ x.2 ∧ x.2 ≤ x.1.cap) ↔
      ∀ i < dual.length, (0 ≤ f.getD i 0 ∧ f.getD i 0 ≤ int32Max) ∧
        (0 ≤ f.getD (dual.length + i) 0 ∧ f.getD (dual.length + i) 0 ≤ int32Max) := by
  have hal := arcs_length dual residues cost revcost hc hr
  have key : (∀ x ∈ List.zip (flowProblem dual residues cost revcost).arcs f,
      0 ≤ x.2 ∧ x.2 ≤ x.1.cap) ↔ ∀ j < dual.length + dual.length,
      0 ≤ f.getD j 0 ∧
        f.getD j 0 ≤ ((flowProblem dual residues cost revcost).arcs.getD j arc0).cap := by
    constructor
    · intro h j hj
      have h1 : j < (flowProblem dual residues cost revcost).arcs.length := by omega
      have h2 : j < f.length := by omega
      have := h ((flowProblem dual residues cost revcost).arcs[j], f[j])
        (List.mem_iff_getElem.mpr ⟨j, by simp; omega, by simp⟩)
      simpa [List.getD_eq_getElem?_getD, List.getElem?_eq_getElem h1,
        List.getElem?_eq_getElem h2] using this
    · intro h x hx
      obtain ⟨j, hj, rfl⟩ := List.mem_iff_getElem.mp hx
      have h1 : j < (flowProblem dual residues cost revcost).arcs.length := by
        simp at hj; omega
      have h2 : j < f.length := by simp at hj; omega
      have := h j (by omega)
      simpa [List.getD_eq_getElem?_getD, List.getElem?_eq_getElem h1,
        List.getElem?_eq_getElem h2] using this
  rw [key]
  constructor
  · intro h i hi
    have a := h i (by omega)
    have b := h (dual.length + i) (by omega)
    rw [arcs_fwd _ _ _ _ hc hr hi] at a
    rw [arcs_bwd _ _ _ _ hc hr hi] at b
    exact ⟨a, b⟩
  · intro h j hj
    by_cases hjn : j < dual.length
    · rw [arcs_fwd _ _ _ _ hc hr hjn]; exact (h j hjn).1
    · obtain ⟨i, rfl⟩ := Nat.exists_eq_add_of_le (Nat.le_of_not_lt hjn)
      rw [arcs_bwd _ _ _ _ hc hr (by omega)]
      exact (h i (by omega)).2

end

/-! ## flows and corrections on a contract graph -/

section
variable {g : PlanarGraph} (hc : PlanarContract g.npoints g.links g.cycles)
include hc

abbrev dualOf (g : PlanarGraph) : List DualRow :=
  g.links.map fun l => rowOf (linkTraversals g.cycles l)

theorem dualOf_getD {i : Nat} (hi : i < g.links.length) :
    (dualOf g).getD i row0 = rowOf (linkTraversals g.cycles g.links[i]) := by
  simp [dualOf, List.getD_eq_getElem?_getD, hi]

theorem dualOf_good {i : Nat} (hi : i < g.links.length) :
    GoodRow g.cycles.length ((dualOf g).getD i row0) := by
  rw [dualOf_getD hc hi]
  exact (goodRow_rowOf hc (List.getElem_mem hi)).2

omit hc in
theorem rowInc_nodeInc {n k : Nat} {r : DualRow} (hr : GoodRow n r) (hk : 1 ≤ k) :
    rowInc r k = r.d0 * nodeInc r k := by
  obtain ⟨h0, _, _, h1⟩ := hr
  unfold rowInc nodeInc
  rcases h1 with ⟨h1, h2⟩ | ⟨h1, h2⟩
  · rw [h1, h2]
    simp only [if_neg (show ¬ (0 = k) by omega)]
    split <;> ring
  · rw [h2]
    split <;> split <;> ring

theorem circulation_nodeInc (x : List ℤ) {k : Nat} (hk : k < g.cycles.length) :
    circulation g.links x g.cycles[k] =
      ∑ i ∈ range g.links.length, ((dualOf g).getD i row0).d0 *
        nodeInc ((dualOf g).getD i row0) (k + 1) * x.getD i 0 := by
  rw [circulation_dual hc x hk]
  refine Finset.sum_congr rfl fun i hi => ?_
  have hi' := Finset.mem_range.mp hi
  have := rowInc_nodeInc (dualOf_good hc hi') (show 1 ≤ k + 1 by omega)
  rw [← this]
  simp

/-- Link flows recovered from arc flows (`solve_mcf`, last loop). -/
def linkFlows (dual : List DualRow) (f : List ℤ) : List ℤ :=
  (List.range dual.length).map fun ii =>
    ((dual.map (·.d0)).getD ii 0) * (f.getD (ii + dual.length) 0 - f.getD ii 0)

omit hc in
theorem linkFlows_getD (dual : List DualRow) (f : List ℤ) {i : Nat} (hi : i < dual.length) :
    (linkFlows dual f).getD i 0 =
      (dual.getD i row0).d0 * (f.getD (dual.length + i) 0 - f.getD i 0) := by
  unfold linkFlows
  simp only [List.getD_eq_getElem?_getD]
  simp [hi, Nat.add_comm]

theorem feasible_cancels (residues cost revcost f : List ℤ)
    (hcl : cost.length = g.links.length) (hrl : revcost.length = g.links.length)
    (hf : FeasibleFlow (flowProblem (dualOf g) residues cost revcost) f) :
    Cancels g.links g.cycles residues (linkFlows (dualOf g) f) := by
  have hdl : (dualOf g).length = g.links.length := by simp [dualOf]
  have hfl : f.length = (dualOf g).length + (dualOf g).length := by
    rw [hf.len, arcs_length _ _ _ _ (by omega) (by omega)]
  refine ⟨by simp [linkFlows], fun k hk => ?_⟩
  rw [circulation_nodeInc hc _ hk]
  have := hf.conserve (k + 1)
  rw [netOut_eq _ _ _ _ (by omega) (by omega) f hfl] at this
  have e : (flowProblem (dualOf g) residues cost revcost).supplies = residues := rfl
  rw [e, hdl] at this
  rw [← this, ← Finset.sum_neg_distrib]
  refine Finset.sum_congr rfl fun i hi => ?_
  have hi' := Finset.mem_range.mp hi
  rw [linkFlows_getD _ _ (by omega), hdl]
  have h0 := (dualOf_good hc hi').d0
  rcases h0 with h0 | h0 <;> rw [h0] <;> ring

/-- Arc flows from a correction of the links. -/
def arcFlows (dual : List DualRow) (x : List ℤ) : List ℤ :=
  ((List.range dual.length).map fun i => max (-((dual.getD i row0).d0 * x.getD i 0)) 0) ++
  ((List.range dual.length).map fun i => max ((dual.getD i row0).d0 * x.getD i 0) 0)

omit hc in
theorem arcFlows_fwd (dual : List DualRow) (x : List ℤ) {i : Nat} (hi : i < dual.length) :
    (arcFlows dual x).getD i 0 = max (-((dual.getD i row0).d0 * x.getD i 0)) 0 := by
  unfold arcFlows
  simp only [List.getD_eq_getElem?_getD]
  rw [List.getElem?_append_left (by simp [hi])]
  simp [hi]

omit hc in
theorem arcFlows_bwd (dual : List DualRow) (x : List ℤ) {i : Nat} (hi : i < dual.length) :
    (arcFlows dual x).getD (dual.length + i) 0 =
      max ((dual.getD i row0).d0 * x.getD i 0) 0 := by
  unfold arcFlows
  simp only [List.getD_eq_getElem?_getD]
  rw [List.getElem?_append_right (by simp)]
  simp [hi]

omit hc in
theorem max_neg_sub (a : ℤ) : max (-a) 0 - max a 0 = -a := by omega

omit hc in
/-- Every arc has its ends among the nodes `0..n`, so nothing is lost in total. -/
theorem sum_nodeInc {n : Nat} {r : DualRow} (hr : GoodRow n r) :
    ∑ k ∈ range (n + 1), nodeInc r k = 0 := by
  unfold nodeInc
  rw [Finset.sum_sub_distrib, Finset.sum_ite_eq, Finset.sum_ite_eq,
    if_pos (Finset.mem_range.mpr (by have := hr.c0.2; omega)),
    if_pos (Finset.mem_range.mpr (by have := hr.c1; omega))]
  ring

theorem cancels_feasible (residues cost revcost x : List ℤ)
    (hcl : cost.length = g.links.length) (hrl : revcost.length = g.links.length)
    (hres : residues.length = g.cycles.length + 1) (hsum : residues.sum = 0)
    (hx : Cancels g.links g.cycles residues x)
    (hcap : ∀ v ∈ x, |v| ≤ int32Max) :
    FeasibleFlow (flowProblem (dualOf g) residues cost revcost) (arcFlows (dualOf g) x) := by
  have hdl : (dualOf g).length = g.links.length := by simp [dualOf]
  have hfl : (arcFlows (dualOf g) x).length = (dualOf g).length + (dualOf g).length := by
    simp [arcFlows]
  have hxv : ∀ i, |x.getD i 0| ≤ int32Max := by
    intro i
    by_cases hi : i < x.length
    · rw [List.getD_eq_getElem?_getD, List.getElem?_eq_getElem hi]
      exact hcap _ (List.getElem_mem hi)
    · rw [List.getD_eq_getElem?_getD, List.getElem?_eq_none (by omega)]
      simp [int32Max]
  have hnet : ∀ k, netOut (flowProblem (dualOf g) residues cost revcost).arcs
      (arcFlows (dualOf g) x) k = ∑ i ∈ range g.links.length,
        nodeInc ((dualOf g).getD i row0) k *
          (-(((dualOf g).getD i row0).d0 * x.getD i 0)) := by
    intro k
    rw [netOut_eq _ _ _ _ (by omega) (by omega) _ hfl, hdl]
    refine Finset.sum_congr rfl fun i hi => ?_
    have hi' := Finset.mem_range.mp hi
    rw [← hdl, arcFlows_fwd _ _ (by omega), arcFlows_bwd _ _ (by omega), max_neg_sub]
  have hpos : ∀ k, k < g.cycles.length → netOut (flowProblem (dualOf g) residues cost revcost).arcs
      (arcFlows (dualOf g) x) (k + 1) = residues.getD (k + 1) 0 := by
    intro k hk
    have := hx.2 k hk
    rw [circulation_nodeInc hc _ hk] at this
    rw [hnet]
    have h2 : residues.getD (k + 1) 0 = -(∑ i ∈ range g.links.length,
      ((dualOf g).getD i row0).d0 * nodeInc ((dualOf g).getD i row0) (k + 1) * x.getD i 0) := by
      rw [this]; ring
    rw [h2, ← Finset.sum_neg_distrib]
    refine Finset.sum_congr rfl fun i _ => ?_
    ring
  refine ⟨?_, ?_, ?_⟩
  · rw [hfl, arcs_length _ _ _ _ (by omega) (by omega)]
  · rw [bounds_iff _ _ _ _ (by omega) (by omega) _ hfl]
    intro i hi
    rw [arcFlows_fwd _ _ hi, arcFlows_bwd _ _ hi]
    have hv := hxv i
    rw [abs_le] at hv
    have h0 := (dualOf_good hc (show i < g.links.length by omega)).d0
    rcases h0 with h0 | h0 <;> rw [h0] <;> simp only [int32Max] at * <;> omega
  · intro k
    show _ = residues.getD k 0
    rcases Nat.lt_trichotomy k 0 with h | h | h
    · omega
    · subst h
      have htot : ∑ k ∈ range (g.cycles.length + 1),
          netOut (flowProblem (dualOf g) residues cost revcost).arcs (arcFlows (dualOf g) x) k = 0 := by
        simp only [hnet]
        rw [Finset.sum_comm]
        apply Finset.sum_eq_zero
        intro i hi
        have hi' := Finset.mem_range.mp hi
        rw [← Finset.sum_mul, sum_nodeInc (dualOf_good hc hi'), zero_mul]
      rw [Finset.sum_range_succ'] at htot
      have hs2 : residues.sum = ∑ k ∈ range (g.cycles.length + 1), residues.getD k 0 := by
        rw [list_sum_eq_range, hres]
      rw [Finset.sum_range_succ'] at hs2
      have : ∑ k ∈ range g.cycles.length,
          netOut (flowProblem (dualOf g) residues cost revcost).arcs (arcFlows (dualOf g) x) (k + 1)
          = ∑ k ∈ range g.cycles.length, residues.getD (k + 1) 0 :=
        Finset.sum_congr rfl fun k hk => hpos k (Finset.mem_range.mp hk)
      omega
    · by_cases hk : k ≤ g.cycles.length
      · obtain ⟨j, rfl⟩ := Nat.exists_eq_add_of_le' h
        exact hpos j (by omega)
      · have : residues.getD k 0 = 0 := by
          rw [List.getD_eq_getElem?_getD, List.getElem?_eq_none (by omega)]; rfl
        rw [this, hnet]
        apply Finset.sum_eq_zero
        intro i hi
        have hi' := Finset.mem_range.mp hi
        have hg := dualOf_good hc hi'
        have h1 := hg.c0.2
        have h2 := hg.c1
        unfold nodeInc
        rw [if_neg (by omega), if_neg (by omega)]
        ring

omit hc in
theorem correctionCost_eq (cost revcost x : List ℤ) :
    correctionCost cost revcost x = ∑ i ∈ range x.length,
      (cost.getD i 0 * max (x.getD i 0) 0 + revcost.getD i 0 * max (- x.getD i 0) 0) := by
  unfold correctionCost
  rw [map_range_sum]

theorem flowCost_arcFlows (residues cost revcost x : List ℤ)
    (hcl : cost.length = g.links.length) (hrl : revcost.length = g.links.length)
    (hxl : x.length = g.links.length) :
    flowCost (flowProblem (dualOf g) residues cost revcost) (arcFlows (dualOf g) x) =
      correctionCost cost revcost x := by
  have hdl : (dualOf g).length = g.links.length := by simp [dualOf]
  rw [flowCost_eq _ _ _ _ (by omega) (by omega) _ (by simp [arcFlows]), correctionCost_eq, hxl, hdl]
  refine Finset.sum_congr rfl fun i hi => ?_
  have hi' := Finset.mem_range.mp hi
  rw [← hdl, arcFlows_fwd _ _ (by omega), arcFlows_bwd _ _ (by omega)]
  have h0 := (dualOf_good hc hi').d0
  rcases h0 with h0 | h0 <;> rw [h0] <;> simp [pickCost] <;> ring

theorem correctionCost_le (residues cost revcost f : List ℤ)
    (hcl : cost.length = g.links.length) (hrl : revcost.length = g.links.length)
    (hc0 : ∀ c ∈ cost, 0 ≤ c) (hr0 : ∀ c ∈ revcost, 0 ≤ c)
    (hf : FeasibleFlow (flowProblem (dualOf g) residues cost revcost) f) :
    correctionCost cost revcost (linkFlows (dualOf g) f) ≤
      flowCost (flowProblem (dualOf g) residues cost revcost) f := by
  have hdl : (dualOf g).length = g.links.length := by simp [dualOf]
  have hfl : f.length = (dualOf g).length + (dualOf g).length := by
    rw [hf.len, arcs_length _ _ _ _ (by omega) (by omega)]
  have hb := (bounds_iff _ _ _ _ (by omega) (by omega) f hfl).mp hf.bounds
  have hnn : ∀ l : List ℤ, (∀ c ∈ l, 0 ≤ c) → ∀ i, 0 ≤ l.getD i 0 := by
    intro l hl i
    by_cases hi : i < l.length
    · rw [List.getD_eq_getElem?_getD, List.getElem?_eq_getElem hi]
      exact hl _ (List.getElem_mem hi)
    · rw [List.getD_eq_getElem?_getD, List.getElem?_eq_none (by omega)]; simp
  rw [flowCost_eq _ _ _ _ (by omega) (by omega) _ hfl, correctionCost_eq]
  have : (linkFlows (dualOf g) f).length = (dualOf g).length := by simp [linkFlows]
  rw [this]
  refine Finset.sum_le_sum fun i hi => ?_
  have hi' := Finset.mem_range.mp hi
  rw [linkFlows_getD _ _ hi']
  obtain ⟨⟨a1, _⟩, b1, _⟩ := hb i hi'
  have c1 := hnn cost hc0 i
  have c2 := hnn revcost hr0 i
  have h0 := (dualOf_good hc (show i < g.links.length by omega)).d0
  generalize f.getD i 0 = u at *
  generalize f.getD ((dualOf g).length + i) 0 = v at *
  generalize cost.getD i 0 = p at *
  generalize revcost.getD i 0 = q at *
  have key : ∀ s t : ℤ, 0 ≤ s → 0 ≤ t → ∀ a b : ℤ, 0 ≤ a → 0 ≤ b →
      a * max (t - s) 0 + b * max (-(t - s)) 0 ≤ b * s + a * t := by
    intro s t hs ht a b ha hb
    have m1 : max (t - s) 0 ≤ t := by omega
    have m2 : max (-(t - s)) 0 ≤ s := by omega
    nlinarith
  rcases h0 with h0 | h0 <;> rw [h0]
  · have := key u v a1 b1 p q c1 c2
    simpa [pickCost] using this
  · have := key v u b1 a1 p q c1 c2
    have e : (-1 : ℤ) * (v - u) = u - v := by ring
    rw [e]
    have e1 : pickCost p q (-1) (-1) 1 = p := by simp [pickCost]
    have e2 : pickCost p q (-1) 1 (-1) = q := by simp [pickCost]
    rw [e1, e2]
    linarith

end
end Spurt
