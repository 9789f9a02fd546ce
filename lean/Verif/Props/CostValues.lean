import Verif.Lemmas.Adjust
import Verif.Spec.Cost
import Verif.Props.Cost
import Mathlib.Tactic.NormNum
import Mathlib.Tactic.Linarith
import Mathlib.Tactic.FieldSimp

/-!
# Property C18: the values of the costs
-/

namespace Spurt
open Spec

theorem nearest_rint (x : ℝ) : Nearest x (rint x) := by
  refine ⟨rint_abs x, fun h => ?_⟩
  rcases rint_cases x with ⟨n, h1, h2⟩ | ⟨n, rfl⟩
  · rw [rint_eq_of_lt h1 h2] at h
    have : |x - (n : ℝ)| < 1 / 2 := by rw [abs_lt]; constructor <;> linarith
    linarith
  · rw [rint_tie]
    split
    · assumption
    · omega

theorem distance_unique {p q : ℝ × ℝ} {d : ℝ} (h : Distance p q d) : d = planeDist p q := by
  unfold planeDist
  rw [← h.2, Real.sqrt_sq h.1]

theorem centroid_unique {points : List (ℝ × ℝ)} {cycle : List Nat} {g : ℝ × ℝ} (hne : cycle ≠ []) (h : Centroid points cycle g) :
    g = centroid points cycle := by
  have h0 : (cycle.length : ℝ) ≠ 0 := by
    have := List.length_pos_iff.mpr hne
    exact_mod_cast (by omega : cycle.length ≠ 0)
  unfold centroid
  ext
  · rw [← h.1]; field_simp
  · rw [← h.2]; field_simp

theorem linkCost_value {scale d : ℝ} {c : ℤ} (h : linkCost scale d = .ok c) : d ≠ 0 ∧ Nearest (1 + scale / d) c := by
  unfold linkCost at h
  split at h
  · simp at h
  · rename_i h0
    exact ⟨h0, by rw [← Except.ok.inj h]; exact nearest_rint _⟩

theorem pointAt_inv {points : List (ℝ × ℝ)} {i : Nat} {p : ℝ × ℝ} (h : pointAt points i = .ok p) :
    i < points.length ∧ points.getD i (0, 0) = p := by
  unfold pointAt at h
  split at h
  · rename_i q hq
    obtain ⟨h1, h2⟩ := List.getElem?_eq_some_iff.mp hq
    refine ⟨h1, ?_⟩
    rw [List.getD_eq_getElem?_getD, hq]; exact Except.ok.inj h
  · simp at h

theorem mapM_entries {α β : Type} {f : α → Except PyErr β} {l : List α} {r : List β} (h : l.mapM f = .ok r) :
    r.length = l.length ∧ ∀ (j : Nat) a, l[j]? = some a → ∃ b, r[j]? = some b ∧ f a = .ok b := by
  obtain ⟨l', h1, h2, h3⟩ := mapM_exists f l (mapM_ok_inv l f r h)
  rw [h] at h1
  rw [Except.ok.inj h1]
  exact ⟨h2, h3⟩

/-- C18. The values of `distance_costs`: each link costs the whole number nearest to `1 + scale / d`, where `d` is the
distance of its end points; there is one cost per link, and the end points are points. -/
theorem C18_distance_nearest (points : List (ℝ × ℝ)) (edges : List (Nat × Nat)) (scale : ℝ) (cost : List ℤ)
    (h : distanceCosts points edges scale = .ok cost) :
    cost.length = edges.length ∧ ∀ i a b : Nat, edges[i]? = some (a, b) → a < points.length ∧ b < points.length ∧
      ∀ d, Distance (points.getD a (0, 0)) (points.getD b (0, 0)) d → 0 < d ∧ Nearest (1 + scale / d) (cost.getD i 0) := by
  obtain ⟨h1, h2⟩ := mapM_entries h
  refine ⟨h1, fun i a b hi => ?_⟩
  obtain ⟨c, hc, hv⟩ := h2 i _ hi
  simp only [Bind.bind, Except.bind] at hv
  cases hp : pointAt points a with
  | error e => rw [hp] at hv; simp at hv
  | ok p =>
    cases hq : pointAt points b with
    | error e => rw [hp, hq] at hv; simp at hv
    | ok q =>
      rw [hp, hq] at hv
      simp only at hv
      obtain ⟨p1, p2⟩ := pointAt_inv hp
      obtain ⟨q1, q2⟩ := pointAt_inv hq
      obtain ⟨v1, v2⟩ := linkCost_value hv
      refine ⟨p1, q1, fun d hd => ?_⟩
      have e := distance_unique hd
      rw [p2, q2] at e
      rw [← e] at v1 v2
      refine ⟨lt_of_le_of_ne hd.1 (Ne.symm v1), ?_⟩
      rw [List.getD_eq_getElem?_getD, hc]; exact v2

/-- C18. The values of `centroid_costs`: a boundary link costs nothing, any other link the whole number nearest to
`1 + scale / d`, where `d` is the distance between the means of the points of its two cycles. -/
theorem C18_centroid_nearest (points : List (ℝ × ℝ)) (cycles : List (List Nat)) (hne : ∀ c ∈ cycles, c ≠ []) (dual : List DualRow)
    (scale : ℝ) (cost : List ℤ) (h : centroidCosts points cycles dual scale = .ok cost) :
    cost.length = dual.length ∧ ∀ (i : Nat) (r : DualRow), dual[i]? = some r → (r.c1 = 0 → cost.getD i 0 = 0) ∧
      (r.c1 ≠ 0 → ∃ u v, cycles[r.c0 - 1]? = some u ∧ cycles[r.c1 - 1]? = some v ∧
        ∀ g k d, Centroid points u g → Centroid points v k → Distance g k d →
          0 < d ∧ Nearest (1 + scale / d) (cost.getD i 0)) := by
  obtain ⟨h1, h2⟩ := mapM_entries h
  refine ⟨h1, fun i r hi => ?_⟩
  obtain ⟨c, hc, hv⟩ := h2 i _ hi
  have hcd : cost.getD i 0 = c := by rw [List.getD_eq_getElem?_getD, hc]; rfl
  rw [hcd]
  constructor
  · intro h0
    rw [if_pos h0] at hv
    exact (Except.ok.inj hv).symm
  · intro h0
    rw [if_neg h0] at hv
    simp only [Bind.bind, Except.bind] at hv
    cases hp : pointAt (cycles.map (centroid points)) (r.c0 - 1) with
    | error e => rw [hp] at hv; simp at hv
    | ok p =>
      cases hq : pointAt (cycles.map (centroid points)) (r.c1 - 1) with
      | error e => rw [hp, hq] at hv; simp at hv
      | ok q =>
        rw [hp, hq] at hv
        simp only at hv
        obtain ⟨p1, p2⟩ := pointAt_inv hp
        obtain ⟨q1, q2⟩ := pointAt_inv hq
        rw [List.length_map] at p1 q1
        obtain ⟨v1, v2⟩ := linkCost_value hv
        refine ⟨_, _, List.getElem?_eq_getElem p1, List.getElem?_eq_getElem q1, fun g k d hg hk hd => ?_⟩
        have e1 := centroid_unique (hne _ (List.getElem_mem p1)) hg
        have e2 := centroid_unique (hne _ (List.getElem_mem q1)) hk
        rw [List.getD_eq_getElem?_getD, List.getElem?_map, List.getElem?_eq_getElem p1] at p2
        rw [List.getD_eq_getElem?_getD, List.getElem?_map, List.getElem?_eq_getElem q1] at q2
        simp only [Option.map_some, Option.getD_some] at p2 q2
        have e := distance_unique hd
        rw [e1, e2, p2, q2] at e
        rw [← e] at v1 v2
        exact ⟨lt_of_le_of_ne hd.1 (Ne.symm v1), v2⟩

/-- The distances and means exist. -/
theorem exists_distance (p q : ℝ × ℝ) : Distance p q (planeDist p q) :=
  ⟨Real.sqrt_nonneg _, Real.sq_sqrt (by positivity)⟩

/-- The mean of a cycle exists. -/
theorem exists_centroid (points : List (ℝ × ℝ)) (cycle : List Nat) (hne : cycle ≠ []) :
    Centroid points cycle (centroid points cycle) := by
  have h0 : (cycle.length : ℝ) ≠ 0 := by
    have := List.length_pos_iff.mpr hne
    exact_mod_cast (by omega : cycle.length ≠ 0)
  unfold centroid
  constructor <;> simp only <;> field_simp

/-- The costs of C18_distance_nearest and C18_centroid_nearest exist for every `Hop3Graph`. -/
example (n : Nat) (hn : 4 ≤ n) : ∃ g m dcost ccost, hop3Graph n = .ok g ∧ ormcf g = .ok m ∧
    distanceCosts (hop3Points n) g.links 100 = .ok dcost ∧ centroidCosts (hop3Points n) g.cycles m.dual 100 = .ok ccost ∧
    ∀ c ∈ g.cycles, c ≠ [] := by
  obtain ⟨g, m, d, c, h1, h2, h3, _, _, h4, _⟩ := C18_hop3_costs n hn 100 (by norm_num)
  refine ⟨g, m, d, c, h1, h2, h3, h4, fun cyc hc h0 => ?_⟩
  obtain ⟨g', hg', _, _, h5, _⟩ := C04_hop3_planar n hn
  rw [h1] at hg'
  rw [← Except.ok.inj hg'] at h5
  have := h5 cyc hc
  rw [h0] at this; simp at this

end Spurt
