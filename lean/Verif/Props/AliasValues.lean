import Verif.Props.AliasRun
import Mathlib.Order.Interval.Finset.Nat
import Mathlib.Data.Int.Interval

/-!
# C94, continued: the error of every pixel is bounded by the aliasing of the true phase
-/

namespace Spurt
open Spec Finset

/-- Between two points that are joined by links every level is crossed by a link. -/
theorem level_crossed {links : List (Nat × Nat)} (E : Nat → ℤ) {s p : Nat} (hc : Relation.ReflTransGen (Adjacent links) s p)
    {k : ℤ} (hs : E s ≤ k) (hp : k < E p) :
    ∃ l < links.length, min (E (links.getD l (0, 0)).1) (E (links.getD l (0, 0)).2) ≤ k ∧
      k < max (E (links.getD l (0, 0)).1) (E (links.getD l (0, 0)).2) := by
  induction hc with
  | refl => omega
  | @tail q r _ hqr ih =>
    by_cases hq : k < E q
    · exact ih hq
    · rcases hqr with h | h
      · obtain ⟨l, hl, he⟩ := List.mem_iff_getElem.mp h
        refine ⟨l, hl, ?_⟩
        rw [List.getD_eq_getElem _ _ hl, he]
        constructor <;> simp only <;> omega
      · obtain ⟨l, hl, he⟩ := List.mem_iff_getElem.mp h
        refine ⟨l, hl, ?_⟩
        rw [List.getD_eq_getElem _ _ hl, he]
        constructor <;> simp only <;> omega

/-- The rise between two joined points is at most the total change along all links. -/
theorem rise_le {links : List (Nat × Nat)} (E : Nat → ℤ) {s p : Nat} (hc : Relation.ReflTransGen (Adjacent links) s p) :
    E p - E s ≤ ∑ l ∈ range links.length, |E (links.getD l (0, 0)).2 - E (links.getD l (0, 0)).1| := by
  rcases le_or_gt (E p) (E s) with h | h
  · have : 0 ≤ ∑ l ∈ range links.length, |E (links.getD l (0, 0)).2 - E (links.getD l (0, 0)).1| :=
      Finset.sum_nonneg fun _ _ => abs_nonneg _
    omega
  · have h1 : ((Finset.Ico (E s) (E p)).card : ℤ) = E p - E s := by
      rw [Int.card_Ico, Int.toNat_of_nonneg (by omega)]
    rw [← h1]
    set C : ℤ → Nat → Prop := fun k l => min (E (links.getD l (0, 0)).1) (E (links.getD l (0, 0)).2) ≤ k ∧
      k < max (E (links.getD l (0, 0)).1) (E (links.getD l (0, 0)).2) with hC
    calc ((Finset.Ico (E s) (E p)).card : ℤ) = ∑ k ∈ Finset.Ico (E s) (E p), 1 := by simp
      _ ≤ ∑ k ∈ Finset.Ico (E s) (E p), ∑ l ∈ range links.length, (if C k l then (1 : ℤ) else 0) := by
          refine Finset.sum_le_sum fun k hk => ?_
          rw [Finset.mem_Ico] at hk
          obtain ⟨l, hl, hcr⟩ := level_crossed E hc hk.1 hk.2
          have := Finset.single_le_sum (f := fun l => if C k l then (1 : ℤ) else 0) (s := range links.length)
            (fun l _ => by split <;> norm_num) (Finset.mem_range.mpr hl)
          rwa [if_pos hcr] at this
      _ = ∑ l ∈ range links.length, ∑ k ∈ Finset.Ico (E s) (E p), (if C k l then (1 : ℤ) else 0) := Finset.sum_comm
      _ ≤ _ := by
          refine Finset.sum_le_sum fun l _ => ?_
          rw [Finset.sum_boole]
          set a := E (links.getD l (0, 0)).1
          set b := E (links.getD l (0, 0)).2
          have hsub : (Finset.Ico (E s) (E p)).filter (fun k => C k l) ⊆ Finset.Ico (min a b) (max a b) := by
            intro k hk
            rw [Finset.mem_filter] at hk
            exact Finset.mem_Ico.mpr hk.2
          have hcard := Finset.card_le_card hsub
          rw [Int.card_Ico] at hcard
          have e : ((max a b - min a b).toNat : ℤ) = |b - a| := by
            rw [Int.toNat_of_nonneg (by omega), abs_sub_comm, max_sub_min_eq_abs']
          rw [← e]
          exact_mod_cast hcard

section
variable {K : Type} [Field K] [LinearOrder K] [IsStrictOrderedRing K] [FloorRing K]

/-- C94. Relative to the first pixel, every value is the true one plus whole cycles, at most four times the weighted aliased
cycles of the tile. -/
theorem C94_values (tau : K) (htau : tau ≠ 0) (j : TileJob K) (b : BBox) (ct cs : List ℤ) (φ : Nat → ℤ × ℤ → K) (u : Nat → Nat → K)
    (hconn : Connected (tileGraph j b).npoints (tileGraph j b).links)
    (hctl : ct.length = j.time.links.length) (hct : ∀ v ∈ ct, 0 < v)
    (hcsl : cs.length = (tileGraph j b).links.length) (hcs : ∀ v ∈ cs, 0 < v) (h : ErrorsWithin tau j b ct cs φ u)
    (i : Nat) (hi : i < j.time.links.length) (p : Nat) (hp : p < (tileGraph j b).npoints) :
    ∃ e : ℤ, u i p - u i 0 = trueIfg j b φ i p - trueIfg j b φ i 0 + (e : K) * tau ∧
      |e| ≤ 4 * weighted j.time.links.length (tileGraph j b).links.length ct cs fun i l =>
        aliasedCycles tau (changeOn (tileGraph j b).links (trueIfg j b φ i) l) := by
  obtain ⟨err, he, hw⟩ := h
  set links := (tileGraph j b).links with hlinks
  -- the error as a function of the pixel
  have hE : ∀ q, ∃ e : ℤ, Relation.ReflTransGen (Adjacent links) 0 q →
      u i q - u i 0 = trueIfg j b φ i q - trueIfg j b φ i 0 + (e : K) * tau := by
    intro q
    by_cases hq : Relation.ReflTransGen (Adjacent links) 0 q
    swap; · exact ⟨0, fun h => absurd h hq⟩
    suffices ∃ e : ℤ, u i q - u i 0 = trueIfg j b φ i q - trueIfg j b φ i 0 + (e : K) * tau by
      obtain ⟨e, h⟩ := this; exact ⟨e, fun _ => h⟩
    induction hq with
    | refl => exact ⟨0, by simp⟩
    | @tail q r _ hqr ih =>
      obtain ⟨e, ih⟩ := ih
      rcases hqr with h | h
      · obtain ⟨l, hl, hx⟩ := List.mem_iff_getElem.mp h
        have := he i hi l hl
        rw [changeOn_some (by rw [List.getElem?_eq_getElem hl, hx]), changeOn_some (by rw [List.getElem?_eq_getElem hl, hx])] at this
        refine ⟨e + err i l, ?_⟩
        push_cast
        linear_combination ih + this
      · obtain ⟨l, hl, hx⟩ := List.mem_iff_getElem.mp h
        have := he i hi l hl
        rw [changeOn_some (by rw [List.getElem?_eq_getElem hl, hx]), changeOn_some (by rw [List.getElem?_eq_getElem hl, hx])] at this
        refine ⟨e - err i l, ?_⟩
        push_cast
        linear_combination ih - this
  choose E hE using hE
  have hreach : ∀ l < links.length, Relation.ReflTransGen (Adjacent links) 0 (links.getD l (0, 0)).1 →
      Relation.ReflTransGen (Adjacent links) 0 (links.getD l (0, 0)).2 →
      E (links.getD l (0, 0)).2 - E (links.getD l (0, 0)).1 = err i l := by
    intro l hl h1 h2
    have e1 := hE _ h1
    have e2 := hE _ h2
    have e3 := he i hi l hl
    unfold changeOn at e3
    have : ((E (links.getD l (0, 0)).2 - E (links.getD l (0, 0)).1 : ℤ) : K) * tau = (err i l : K) * tau := by
      push_cast
      linear_combination e3 - e2 + e1
    exact_mod_cast mul_right_cancel₀ htau this
  refine ⟨E p, hE p (hconn p hp), ?_⟩
  -- links whose ends are not reached do not matter
  classical
  set E' : Nat → ℤ := fun q => if Relation.ReflTransGen (Adjacent links) 0 q then E q else 0 with hE'
  have hE0 : E 0 = 0 := by
    have := hE 0 Relation.ReflTransGen.refl
    have : (E 0 : K) * tau = 0 := by linear_combination -this
    have := (mul_eq_zero.mp this).resolve_right htau
    exact_mod_cast this
  have hlink : ∀ l < links.length, |E' (links.getD l (0, 0)).2 - E' (links.getD l (0, 0)).1| ≤ |err i l| := by
    intro l hl
    have hadj : Adjacent links (links.getD l (0, 0)).1 (links.getD l (0, 0)).2 := by
      left
      rw [List.getD_eq_getElem _ _ hl]
      exact List.getElem_mem hl
    have hadj' : Adjacent links (links.getD l (0, 0)).2 (links.getD l (0, 0)).1 := by
      right
      rw [List.getD_eq_getElem _ _ hl]
      exact List.getElem_mem hl
    by_cases h1 : Relation.ReflTransGen (Adjacent links) 0 (links.getD l (0, 0)).1
    · have h2 := h1.tail hadj
      simp only [hE', if_pos h1, if_pos h2]
      rw [hreach l hl h1 h2]
    · have h2 : ¬ Relation.ReflTransGen (Adjacent links) 0 (links.getD l (0, 0)).2 := fun h2 => h1 (h2.tail hadj')
      simp only [hE', if_neg h1, if_neg h2, sub_zero, abs_zero]
      exact abs_nonneg _
  have hp0 := hconn p hp
  have hEp : E' p = E p := by simp only [hE', if_pos hp0]
  have hE'0 : E' 0 = 0 := by simp only [hE', if_pos Relation.ReflTransGen.refl, hE0]
  have hsum : |E p| ≤ ∑ l ∈ range links.length, |err i l| := by
    have r1 := rise_le E' hp0
    have r2 := rise_le (fun q => - E' q) hp0
    have e2 : ∀ l, |(- E' (links.getD l (0, 0)).2) - (- E' (links.getD l (0, 0)).1)| =
        |E' (links.getD l (0, 0)).2 - E' (links.getD l (0, 0)).1| := by
      intro l; rw [← abs_neg]; congr 1; ring
    simp only [e2] at r2
    have r3 : ∑ l ∈ range links.length, |E' (links.getD l (0, 0)).2 - E' (links.getD l (0, 0)).1| ≤
        ∑ l ∈ range links.length, |err i l| := Finset.sum_le_sum fun l hl => hlink l (Finset.mem_range.mp hl)
    rw [hEp, hE'0] at r1 r2
    rw [abs_le]
    constructor <;> linarith
  refine hsum.trans (le_trans ?_ hw)
  unfold weighted
  have hone : ∀ x < j.time.links.length, ∀ l < links.length, |err x l| ≤ ct.getD x 0 * cs.getD l 0 * |err x l| := by
    intro x hx l hl
    have p1 : 1 ≤ ct.getD x 0 := by
      rw [List.getD_eq_getElem _ _ (by omega)]; exact hct _ (List.getElem_mem _)
    have p2 : 1 ≤ cs.getD l 0 := by
      rw [List.getD_eq_getElem _ _ (by omega)]; exact hcs _ (List.getElem_mem _)
    exact le_mul_of_one_le_left (abs_nonneg _) (one_le_mul_of_one_le_of_one_le p1 p2)
  refine le_trans (Finset.sum_le_sum fun l hl => hone i hi l (Finset.mem_range.mp hl)) ?_
  exact Finset.single_le_sum (f := fun x => ∑ l ∈ range links.length, ct.getD x 0 * cs.getD l 0 * |err x l|)
    (fun x hx => Finset.sum_nonneg fun l hl => (abs_nonneg _).trans
      (hone x (Finset.mem_range.mp hx) l (Finset.mem_range.mp hl))) (Finset.mem_range.mpr hi)

end

/-- Non-vacuity of `C94_values`: the rasters of the example of `C94_run`, whose triangulation is connected. -/
example : ∃ (P : Flow ℚ Unit) (d1 : Disk ℚ) (u : Nat → Nat → ℚ), P.job = closureJob ∧ RunByWrite P.stages Disk.empty .completed d1 ∧
    ErrorsWithin P.tau P.job ⟨0, 0, 2, 2⟩ [1, 1, 1] [1, 1, 1] aliasPhi u ∧
    Connected (tileGraph P.job ⟨0, 0, 2, 2⟩).npoints (tileGraph P.job ⟨0, 0, 2, 2⟩).links ∧
    ∀ i < 3, ∀ p < 3, ∃ e : ℤ, u i p - u i 0 = trueIfg P.job ⟨0, 0, 2, 2⟩ aliasPhi i p - trueIfg P.job ⟨0, 0, 2, 2⟩ aliasPhi i 0 + e * 1 ∧
      |e| ≤ 16 := by
  obtain ⟨P, d1, T, hj, ht, hP, hs, h, hT, hb, hφ, hr, hw⟩ := alias_run
  have hg : tileGraph P.job ⟨0, 0, 2, 2⟩ = ⟨3, [(0, 1), (0, 2), (1, 2)], [[0, 1, 2]]⟩ := by rw [hj]; exact alias_graph
  obtain ⟨u, hu, _⟩ := C94_rasters P hP (by rw [ht]; norm_num) hs d1 h T hT aliasPhi hφ _ hb _ _ hr
  have hconn : Connected (tileGraph P.job ⟨0, 0, 2, 2⟩).npoints (tileGraph P.job ⟨0, 0, 2, 2⟩).links := by
    rw [hg]
    intro p hp
    have hp : p < 3 := hp
    interval_cases p
    · exact .refl
    · exact .single (.inl (by decide))
    · exact .single (.inl (by decide))
  refine ⟨P, d1, u, hj, h, hu, hconn, fun i hi p hp => ?_⟩
  have := C94_values P.tau (by rw [ht]; norm_num) P.job _ _ _ aliasPhi u hconn hr.tlength hr.tpos hr.slength (by decide) hu i
    (by rw [hj]; exact hi) p (by rw [hg]; exact hp)
  rwa [hw, ht] at this

end Spurt
