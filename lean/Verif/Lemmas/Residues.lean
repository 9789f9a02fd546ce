import Verif.Lemmas.Incidence
import Verif.Lemmas.Rint

namespace Spurt
open Spec Finset

theorem sides_fst (c : List Nat) : (sides c).map Prod.fst = c := by
  cases c with
  | nil => rfl
  | cons a l => simp only [sides]; exact List.map_fst_zip (by simp)

theorem sides_snd_perm (c : List Nat) : ((sides c).map Prod.snd).Perm c := by
  cases c with
  | nil => exact List.Perm.refl _
  | cons a l =>
    simp only [sides]
    rw [List.map_snd_zip (by simp)]
    exact List.perm_append_singleton a l

/-- Differences telescope around a polygon. -/
theorem sum_sides_diff {M : Type*} [AddCommGroup M] (c : List Nat) (f : Nat → M) :
    ((sides c).map fun s => f s.2 - f s.1).sum = 0 := by
  have h : ∀ l : List (Nat × Nat), (l.map fun s => f s.2 - f s.1).sum =
      ((l.map Prod.snd).map f).sum - ((l.map Prod.fst).map f).sum := by
    intro l
    induction l with
    | nil => simp
    | cons a l ih => simp only [List.map_cons, List.sum_cons, ih]; abel
  rw [h, sides_fst, ((sides_snd_perm c).map f).sum_eq, sub_self]

section
variable {K : Type*} [Field K] [LinearOrder K] [FloorRing K]

/-- Sum of the wrapped differences around a polygon. -/
def wrapSum (tau : K) (w : List K) (c : List Nat) : K :=
  ((sides c).map fun s => phaseDiff tau (w.getD s.1 0) (w.getD s.2 0)).sum

def wrapCount (tau : K) (w : List K) (c : List Nat) : ℤ :=
  - ((sides c).map fun s => rint ((w.getD s.2 0 - w.getD s.1 0) / tau)).sum

theorem wrapSum_eq [IsStrictOrderedRing K] (tau : K) (w : List K) (c : List Nat) :
    wrapSum tau w c = (wrapCount tau w c : K) * tau := by
  have h0 := sum_sides_diff c fun p => w.getD p 0
  have h : ∀ l : List (Nat × Nat),
      (l.map fun s => phaseDiff tau (w.getD s.1 0) (w.getD s.2 0)).sum =
      (l.map fun s => w.getD s.2 0 - w.getD s.1 0).sum
      - ((l.map fun s => rint ((w.getD s.2 0 - w.getD s.1 0) / tau)).sum : ℤ) * tau := by
    intro l
    induction l with
    | nil => simp
    | cons a l ih =>
      simp only [List.map_cons, List.sum_cons]
      rw [ih, phaseDiff_eq]
      rw [Int.cast_add]
      ring
  unfold wrapSum wrapCount
  rw [h, h0]
  push_cast
  ring

theorem computeResidues_eq [IsStrictOrderedRing K] (tau : K) (ht : tau ≠ 0) (m : Mcf)
    (w : List K)
    (hlen : w.length = m.graph.npoints) (hne : m.graph.cycles ≠ [])
    (hu : ∀ c ∈ m.graph.cycles, ∀ c' ∈ m.graph.cycles, c.length = c'.length)
    (hb : ∀ c ∈ m.graph.cycles, ∀ p ∈ c, p < m.graph.npoints) :
    computeResidues tau m w =
      .ok ((- (m.graph.cycles.map (wrapCount tau w)).sum) ::
        m.graph.cycles.map (wrapCount tau w)) := by
  unfold computeResidues
  rw [if_neg (by simpa using hlen)]
  match hcyc : m.graph.cycles with
  | [] => exact absurd hcyc hne
  | c0 :: cs =>
    simp only
    rw [if_pos (by
      rw [List.all_eq_true]
      intro c hc
      rw [List.all_eq_true]
      intro p hp
      simpa [hlen] using hb c (hcyc ▸ hc) p hp)]
    have : ∀ c ∈ (c0 :: cs), rint (((List.range c0.length).map fun col =>
        phaseDiff tau (w.getD (c.getD col 0) 0)
          (w.getD (c.getD ((col + 1) % c0.length) 0) 0)).sum / tau) = wrapCount tau w c := by
      intro c hc
      have hl : c0.length = c.length := hu c0 (by simp [hcyc]) c (hcyc ▸ hc)
      have e : ((List.range c0.length).map fun col =>
          phaseDiff tau (w.getD (c.getD col 0) 0)
          (w.getD (c.getD ((col + 1) % c0.length) 0) 0)).sum = wrapSum tau w c := by
        unfold wrapSum
        rw [← cycleSteps_eq_sides, cycleSteps, List.map_map, hl]
        rfl
      rw [e, wrapSum_eq, mul_div_assoc, div_self ht, mul_one, rint_intCast]
    rw [List.map_congr_left this]

theorem addAt_length (idx : List Nat) (vals acc : List K) :
    (addAt acc idx vals).length = acc.length := by
  unfold addAt
  generalize idx.zip vals = l
  induction l generalizing acc with
  | nil => rfl
  | cons p l ih => rw [List.foldl_cons, ih]; simp

theorem addAt_getD (acc : List K) (idx : List Nat) (vals : List K) (k : Nat)
    (hk : k < acc.length) :
    (addAt acc idx vals).getD k 0 = acc.getD k 0 +
      (List.zipWith (fun j v => if j = k then v else 0) idx vals).sum := by
  induction idx generalizing acc vals with
  | nil => simp [addAt]
  | cons j idx ih =>
    cases vals with
    | nil => simp [addAt]
    | cons v vals =>
      have : addAt acc (j :: idx) (v :: vals) = addAt (acc.modify j (· + v)) idx vals := rfl
      rw [this, ih _ _ (by simpa using hk), List.zipWith_cons_cons, List.sum_cons, ← add_assoc]
      congr 1
      have hk2 : k < (acc.modify j (· + v)).length := by simpa using hk
      simp only [List.getD_eq_getElem?_getD, List.getElem?_eq_getElem hk,
        List.getElem?_eq_getElem hk2, Option.getD_some, List.getElem_modify]
      split <;> simp

theorem residuesFromGradients_eq (tau : K) (m : Mcf) (g : List K)
    (hlen : g.length = m.graph.links.length) (hd : m.dual.length = m.graph.links.length) :
    computeResiduesFromGradients tau m g =
      let res := (List.range m.graph.cycles.length).map fun k =>
        rint ((∑ i ∈ range m.graph.links.length,
          (rowInc (m.dual.getD i ⟨0, 0, 0, 0⟩) (k + 1) : K) * g.getD i 0) / tau)
      .ok ((- res.sum) :: res) := by
  unfold computeResiduesFromGradients
  rw [if_neg (by simpa using hlen)]
  simp only
  set z := List.replicate (m.graph.cycles.length + 1) (0 : K) with hz
  set a1 := addAt z (m.dual.map (·.c0)) (List.zipWith (fun r g => (r.d0 : K) * g) m.dual g)
    with ha1
  set a2 := addAt a1 (m.dual.map (·.c1)) (List.zipWith (fun r g => (r.d1 : K) * g) m.dual g)
    with ha2
  have l1 : a1.length = m.graph.cycles.length + 1 := by rw [ha1, addAt_length]; simp [hz]
  have l2 : a2.length = m.graph.cycles.length + 1 := by rw [ha2, addAt_length, l1]
  have zsum : ∀ (k : Nat) (c : DualRow → Nat) (d : DualRow → ℤ),
      (List.zipWith (fun j v => if j = k then v else 0) (m.dual.map c)
        (List.zipWith (fun r g => (d r : K) * g) m.dual g)).sum =
      ∑ i ∈ range m.graph.links.length,
        ((if c (m.dual.getD i ⟨0, 0, 0, 0⟩) = k then d (m.dual.getD i ⟨0, 0, 0, 0⟩) else 0 : ℤ) : K)
          * g.getD i 0 := by
    intro k c d
    rw [zipWith_sum_eq_range _ _ _ (c ⟨0, 0, 0, 0⟩) 0 (by simp [hlen, hd])]
    rw [List.length_map, hd]
    refine Finset.sum_congr rfl fun i hi => ?_
    have hi' := Finset.mem_range.mp hi
    have hi2 : i < m.dual.length := by omega
    have hi3 : i < g.length := by omega
    simp only [List.getD_eq_getElem?_getD, List.getElem?_map, List.getElem?_zipWith,
      List.getElem?_eq_getElem hi2, List.getElem?_eq_getElem hi3, Option.map_some,
      Option.getD_some]
    split <;> simp
  have hval : ∀ k, k < m.graph.cycles.length + 1 → a2.getD k 0 =
      ∑ i ∈ range m.graph.links.length,
        (rowInc (m.dual.getD i ⟨0, 0, 0, 0⟩) k : K) * g.getD i 0 := by
    intro k hk
    rw [ha2, addAt_getD _ _ _ _ (by omega), ha1, addAt_getD _ _ _ _ (by simp [hz]; omega), zsum k
      (·.c0) (·.d0), zsum k (·.c1) (·.d1)]
    have : z.getD k 0 = 0 := by simp [hz, List.getD_eq_getElem?_getD, hk]
    rw [this, zero_add, ← Finset.sum_add_distrib]
    refine Finset.sum_congr rfl fun i _ => ?_
    unfold rowInc
    push_cast
    ring
  have htail : (List.map (fun s => rint (s / tau)) a2).tail =
      (List.range m.graph.cycles.length).map fun k =>
        rint ((∑ i ∈ range m.graph.links.length,
          (rowInc (m.dual.getD i ⟨0, 0, 0, 0⟩) (k + 1) : K) * g.getD i 0) / tau) := by
    apply List.ext_getElem
    · simp [l2]
    · intro i h1 h2
      simp only [List.getElem_tail, List.getElem_map, List.getElem_range]
      have hi : i + 1 < a2.length := by
        simp only [List.length_map, List.length_range] at h2; omega
      have := hval (i + 1) (by omega)
      rw [← this, List.getD_eq_getElem?_getD, List.getElem?_eq_getElem hi]
      rfl
  rw [htail]

end
end Spurt
