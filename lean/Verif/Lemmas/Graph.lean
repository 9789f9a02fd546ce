import Verif.Model.Graph
import Verif.Spec.Graph
import Mathlib.Data.List.Nodup
import Mathlib.Data.List.Range
import Mathlib.Tactic.IntervalCases

namespace Spurt
open Spec

/-! ## order_points -/

theorem orderPoints_le (p : Nat × Nat) : (orderPoints p).1 ≤ (orderPoints p).2 := by
  unfold orderPoints; split <;> simp <;> omega

theorem orderPoints_eq_or (p : Nat × Nat) : orderPoints p = p ∨ orderPoints p = p.swap := by
  unfold orderPoints; split <;> simp [Prod.swap]

theorem orderPoints_of_lt {a b : Nat} (h : a < b) : orderPoints (a, b) = (a, b) := by
  unfold orderPoints; simp; omega

theorem orderPoints_of_gt {a b : Nat} (h : b < a) : orderPoints (a, b) = (b, a) := by
  unfold orderPoints; simp; omega

/-! ## sorted sets of pairs -/

theorem mem_setAdd {s : List (Nat × Nat)} {x y : Nat × Nat} :
    y ∈ setAdd s x ↔ y ∈ s ∨ y = x := by
  unfold setAdd; split <;> simp_all

theorem nodup_setAdd {s : List (Nat × Nat)} {x : Nat × Nat} (h : s.Nodup) :
    (setAdd s x).Nodup := by
  unfold setAdd; split
  · exact h
  · rw [List.nodup_append]; refine ⟨h, by simp, ?_⟩
    intro a ha b hb; simp at hb; subst hb; rintro rfl; contradiction

theorem pairLe_iff {a b : Nat × Nat} :
    pairLe a b = true ↔ a.1 < b.1 ∨ (a.1 = b.1 ∧ a.2 ≤ b.2) := by
  simp [pairLe]

/-- Python's strict order on pairs. -/
def LexLt (a b : Nat × Nat) : Prop := a.1 < b.1 ∨ (a.1 = b.1 ∧ a.2 < b.2)

theorem sorted_mergeSort_pairs (l : List (Nat × Nat)) (h : l.Nodup) :
    (l.mergeSort pairLe).Pairwise LexLt := by
  have h1 := List.pairwise_mergeSort (le := pairLe)
    (by intro a b c; simp only [pairLe_iff]; omega)
    (by intro a b; simp only [Bool.or_eq_true, pairLe_iff]; omega) l
  have h2 : (l.mergeSort pairLe).Nodup := (List.mergeSort_perm l pairLe).nodup_iff.mpr h
  have h3 := List.Pairwise.and h1 h2
  refine h3.imp ?_
  rintro ⟨a1, a2⟩ ⟨b1, b2⟩ ⟨hle, hne⟩
  rw [pairLe_iff] at hle
  unfold LexLt
  by_contra hc
  apply hne
  have : a1 = b1 ∧ a2 = b2 := by simp only at *; omega
  rw [this.1, this.2]

theorem lexLt_irrefl (a : Nat × Nat) : ¬ LexLt a a := by unfold LexLt; omega

theorem lexLt_asymm {a b : Nat × Nat} (h : LexLt a b) : ¬ LexLt b a := by
  unfold LexLt at *; omega

/-- Strictly sorted lists with the same members are equal. -/
theorem lexSorted_ext {l₁ l₂ : List (Nat × Nat)} (h₁ : l₁.Pairwise LexLt)
    (h₂ : l₂.Pairwise LexLt) (h : ∀ x, x ∈ l₁ ↔ x ∈ l₂) : l₁ = l₂ := by
  have n1 : l₁.Nodup := h₁.imp (fun hab => by rintro rfl; exact lexLt_irrefl _ hab)
  have n2 : l₂.Nodup := h₂.imp (fun hab => by rintro rfl; exact lexLt_irrefl _ hab)
  have hp : l₁.Perm l₂ := (List.perm_ext_iff_of_nodup n1 n2).mpr h
  refine List.Perm.eq_of_pairwise ?_ h₁ h₂ hp
  intro a b _ _ hab hba
  exact absurd hba (lexLt_asymm hab)

/-! ## links of triangles -/

private def arcStep (arcs : List (Nat × Nat)) (s : Tri) : List (Nat × Nat) :=
  setAdd (setAdd (setAdd arcs (orderPoints (s.1, s.2.1)))
      (orderPoints (s.1, s.2.2))) (orderPoints (s.2.1, s.2.2))

private theorem arcStep_spec (tris : List Tri) (arcs : List (Nat × Nat)) (h : arcs.Nodup) :
    (tris.foldl arcStep arcs).Nodup ∧
    ∀ x, x ∈ tris.foldl arcStep arcs ↔ x ∈ arcs ∨ ∃ t ∈ tris,
      x = orderPoints (t.1, t.2.1) ∨ x = orderPoints (t.1, t.2.2) ∨
      x = orderPoints (t.2.1, t.2.2) := by
  induction tris generalizing arcs with
  | nil => simp [h]
  | cons t ts ih =>
    have hn : (arcStep arcs t).Nodup := nodup_setAdd (nodup_setAdd (nodup_setAdd h))
    obtain ⟨h1, h2⟩ := ih _ hn
    refine ⟨h1, fun x => ?_⟩
    rw [List.foldl_cons, h2]
    simp only [arcStep, mem_setAdd, List.exists_mem_cons_iff, or_assoc]

theorem linksOfTriangles_sorted (tris : List Tri) :
    (linksOfTriangles tris).Pairwise LexLt :=
  sorted_mergeSort_pairs _ (arcStep_spec tris [] List.nodup_nil).1

theorem mem_linksOfTriangles {tris : List Tri} {x : Nat × Nat} :
    x ∈ linksOfTriangles tris ↔ ∃ t ∈ tris,
      x = orderPoints (t.1, t.2.1) ∨ x = orderPoints (t.1, t.2.2) ∨
      x = orderPoints (t.2.1, t.2.2) := by
  show x ∈ (tris.foldl arcStep []).mergeSort pairLe ↔ _
  rw [List.mem_mergeSort, (arcStep_spec tris [] List.nodup_nil).2]
  simp

theorem nodup_of_lexSorted {l : List (Nat × Nat)} (h : l.Pairwise LexLt) : l.Nodup :=
  h.imp (fun hab => by rintro rfl; exact lexLt_irrefl _ hab)

/-! ## Hop-3 -/

/-- The cycle table in closed form. -/
def hop3Explicit (n : Nat) : List Tri :=
  [(0, 1, 2), (0, 2, 3)] ++
  (List.range' 1 (n - 4)).flatMap (fun ii => [(ii, ii + 2, ii + 3), (ii, ii + 3, ii + 1)]) ++
  [(n - 3, n - 1, n - 2)]

private theorem hop3_fold (m : Nat) (rest : List Tri) (hr : 2 * m ≤ rest.length) :
    ∀ (pre : List Tri) (s : Nat), pre.length = 2 * s →
    (List.range' s m).foldl (fun c ii =>
      (c.set (2 * ii) (ii, ii + 2, ii + 3)).set (2 * ii + 1) (ii, ii + 3, ii + 1))
      (pre ++ rest)
    = pre ++ (List.range' s m).flatMap
        (fun ii => [(ii, ii + 2, ii + 3), (ii, ii + 3, ii + 1)]) ++ rest.drop (2 * m) := by
  induction m generalizing rest with
  | zero => intro pre s _; simp
  | succ m ih =>
    intro pre s hs
    match rest, hr with
    | x :: y :: rest', hr =>
      have hset : ((pre ++ x :: y :: rest').set (2 * s) (s, s + 2, s + 3)).set (2 * s + 1)
          (s, s + 3, s + 1)
          = (pre ++ [(s, s + 2, s + 3), (s, s + 3, s + 1)]) ++ rest' := by
        rw [List.set_append_right _ _ (by omega), List.set_append_right _ _ (by omega)]
        simp [hs]
      rw [List.range'_succ, List.foldl_cons, hset,
        ih rest' (by simp at hr; omega) _ (s + 1) (by simp [hs]; omega)]
      simp [List.flatMap_cons, show 2 * (m + 1) = 2 * m + 2 by omega]
    | [], hr => simp at hr
    | [x], hr => simp at hr; omega

theorem hop3CycleTable_eq (n : Nat) (hn : 4 ≤ n) : hop3CycleTable n = hop3Explicit n := by
  unfold hop3CycleTable hop3Explicit
  have h0 : ((List.replicate (3 + (n - 4) * 2) ((0, 0, 0) : Tri)).set 0 (0, 1, 2)).set 1
      (0, 2, 3) = [(0, 1, 2), (0, 2, 3)] ++ List.replicate ((n - 4) * 2 + 1) (0, 0, 0) := by
    rw [show 3 + (n - 4) * 2 = ((n - 4) * 2 + 1) + 1 + 1 by omega]
    simp [List.replicate_succ]
  simp only [h0]
  rw [hop3_fold (n - 4) _ (by simp; omega) _ 1 (by simp)]
  have hd : List.drop (2 * (n - 4)) (List.replicate ((n - 4) * 2 + 1) ((0, 0, 0) : Tri))
      = [(0, 0, 0)] := by
    rw [List.drop_replicate, show (n - 4) * 2 + 1 - 2 * (n - 4) = 1 by omega]; rfl
  rw [hd]
  generalize ([(0, 1, 2), (0, 2, 3)] : List Tri) ++ _ = l
  rw [List.set_append_right _ _ (by simp)]
  simp

theorem mem_hop3Explicit {n : Nat} {t : Tri} :
    t ∈ hop3Explicit n ↔ t = (0, 1, 2) ∨ t = (0, 2, 3) ∨
      (∃ ii, 1 ≤ ii ∧ ii < 1 + (n - 4) ∧ (t = (ii, ii + 2, ii + 3) ∨ t = (ii, ii + 3, ii + 1))) ∨
      t = (n - 3, n - 1, n - 2) := by
  simp only [hop3Explicit, List.mem_append, List.mem_cons, List.not_mem_nil, or_false,
    List.mem_flatMap, List.mem_range'_1]
  constructor
  · rintro ((h | ⟨ii, ⟨h1, h2⟩, h3⟩) | h)
    · tauto
    · right; right; left; exact ⟨ii, h1, h2, h3⟩
    · tauto
  · rintro (h | h | ⟨ii, h1, h2, h3⟩ | h)
    · tauto
    · tauto
    · left; right; exact ⟨ii, ⟨h1, h2⟩, h3⟩
    · tauto

/-- The link table in closed form. -/
def hop3Links (n : Nat) : List (Nat × Nat) :=
  (List.range (n - 3)).flatMap (fun i => [(i, i + 1), (i, i + 2), (i, i + 3)]) ++
  [(n - 3, n - 2), (n - 3, n - 1), (n - 2, n - 1)]

theorem mem_hop3Links {n : Nat} (hn : 4 ≤ n) {a b : Nat} :
    (a, b) ∈ hop3Links n ↔ a < b ∧ b < n ∧ b ≤ a + 3 := by
  simp only [hop3Links, List.mem_append, List.mem_flatMap, List.mem_range, List.mem_cons,
    Prod.mk.injEq, List.not_mem_nil, or_false]
  constructor
  · rintro (⟨i, hi, h⟩ | h) <;> omega
  · intro h
    by_cases ha : a < n - 3
    · left; exact ⟨a, ha, by omega⟩
    · right; omega

theorem pairwise_hop3Links (n : Nat) (hn : 4 ≤ n) : (hop3Links n).Pairwise LexLt := by
  unfold hop3Links
  rw [List.pairwise_append]
  refine ⟨?_, ?_, ?_⟩
  · rw [List.pairwise_flatMap]
    refine ⟨fun i _ => by simp [LexLt], ?_⟩
    refine List.pairwise_lt_range.imp ?_
    intro a b hab x hx y hy
    simp at hx hy
    unfold LexLt
    rcases hx with rfl | rfl | rfl <;> rcases hy with rfl | rfl | rfl <;> simp <;> omega
  · simp [LexLt]; omega
  · intro x hx y hy
    simp at hx hy
    obtain ⟨i, hi, hx⟩ := hx
    unfold LexLt
    rcases hx with rfl | rfl | rfl <;> rcases hy with rfl | rfl | rfl <;> simp <;> omega

theorem length_hop3Links (n : Nat) (hn : 4 ≤ n) : (hop3Links n).length = 3 * n - 6 := by
  simp [hop3Links, List.length_flatMap]; omega

theorem linksOfTriangles_hop3 (n : Nat) (hn : 4 ≤ n) :
    linksOfTriangles (hop3CycleTable n) = hop3Links n := by
  apply lexSorted_ext (linksOfTriangles_sorted _) (pairwise_hop3Links n hn)
  rintro ⟨a, b⟩
  rw [mem_hop3Links hn, mem_linksOfTriangles, hop3CycleTable_eq n hn]
  constructor
  · rintro ⟨t, ht, hx⟩
    rw [mem_hop3Explicit] at ht
    rcases ht with rfl | rfl | ⟨ii, h1, h2, rfl | rfl⟩ | rfl <;>
      simp only [orderPoints] at hx <;>
      rcases hx with h | h | h <;> (split at h) <;> simp only [Prod.mk.injEq] at h <;> omega
  · rintro ⟨hab, hbn, hd⟩
    have hc : b = a + 1 ∨ b = a + 2 ∨ b = a + 3 := by omega
    have mk : ∀ t : Tri, t ∈ hop3Explicit n →
        ((a, b) = orderPoints (t.1, t.2.1) ∨ (a, b) = orderPoints (t.1, t.2.2) ∨
        (a, b) = orderPoints (t.2.1, t.2.2)) → ∃ t ∈ hop3Explicit n,
        (a, b) = orderPoints (t.1, t.2.1) ∨ (a, b) = orderPoints (t.1, t.2.2) ∨
        (a, b) = orderPoints (t.2.1, t.2.2) := fun t h1 h2 => ⟨t, h1, h2⟩
    rcases hc with rfl | rfl | rfl
    · -- hop 1
      by_cases h0 : a = 0
      · subst h0; exact mk (0, 1, 2) (by rw [mem_hop3Explicit]; tauto) (by simp [orderPoints])
      · by_cases h1 : a < 1 + (n - 4)
        · exact mk (a, a + 3, a + 1)
            (by rw [mem_hop3Explicit]; right; right; left; exact ⟨a, by omega, h1, by tauto⟩)
            (by simp [orderPoints])
        · by_cases h2 : a = n - 3
          · subst h2
            refine mk (n - 3, n - 1, n - 2) (by rw [mem_hop3Explicit]; tauto) ?_
            simp only [orderPoints]
            right; left; rw [if_pos (by omega)]; ext <;> simp; omega
          · have h3 : a = n - 2 := by omega
            subst h3
            refine mk (n - 3, n - 1, n - 2) (by rw [mem_hop3Explicit]; tauto) ?_
            simp only [orderPoints]
            right; right; rw [if_neg (by omega)]; ext <;> simp; omega
    · by_cases h0 : a = 0
      · subst h0; exact mk (0, 1, 2) (by rw [mem_hop3Explicit]; tauto) (by simp [orderPoints])
      · by_cases h1 : a < 1 + (n - 4)
        · exact mk (a, a + 2, a + 3)
            (by rw [mem_hop3Explicit]; right; right; left; exact ⟨a, by omega, h1, by tauto⟩)
            (by simp [orderPoints])
        · have h3 : a = n - 3 := by omega
          subst h3
          refine mk (n - 3, n - 1, n - 2) (by rw [mem_hop3Explicit]; tauto) ?_
          simp only [orderPoints]
          left; rw [if_pos (by omega)]; ext <;> simp; omega
    · by_cases h0 : a = 0
      · subst h0; exact mk (0, 2, 3) (by rw [mem_hop3Explicit]; tauto) (by simp [orderPoints])
      · exact mk (a, a + 2, a + 3)
            (by rw [mem_hop3Explicit]; right; right; left; exact ⟨a, by omega, by omega, by tauto⟩)
            (by simp [orderPoints])

theorem hop3Graph_eq (n : Nat) (hn : 4 ≤ n) :
    hop3Graph n = .ok { npoints := n, links := hop3Links n,
                        cycles := (hop3Explicit n).map triRow } := by
  unfold hop3Graph
  rw [if_neg (by omega)]
  have h1 := linksOfTriangles_hop3 n hn
  rw [hop3CycleTable_eq n hn] at h1
  simp only [hop3CycleTable_eq n hn, h1, length_hop3Links n hn, if_true]

/-- Directed sides of the Hop-3 cycles. -/
def hop3Walk (n : Nat) : List (Nat × Nat) :=
  [(0, 1), (1, 2), (2, 0), (0, 2), (2, 3), (3, 0)] ++
  (List.range' 1 (n - 4)).flatMap (fun i =>
    [(i, i + 2), (i + 2, i + 3), (i + 3, i), (i, i + 3), (i + 3, i + 1), (i + 1, i)]) ++
  [(n - 3, n - 1), (n - 1, n - 2), (n - 2, n - 3)]

theorem walked_hop3 (n : Nat) : walked ((hop3Explicit n).map triRow) = hop3Walk n := by
  simp [walked, hop3Explicit, hop3Walk, sides, triRow, List.flatMap_append, List.flatMap_map,
    List.flatMap_assoc]

theorem mem_hop3Walk {n : Nat} (hn : 4 ≤ n) {a b : Nat} :
    (a, b) ∈ hop3Walk n ↔
      (b = a + 1 ∧ (a = 0 ∨ a = 1 ∨ a = 2 ∨ (3 ≤ a ∧ a + 1 < n))) ∨
      (a = b + 1 ∧ 1 ≤ b ∧ a < n) ∨
      (b = a + 2 ∧ b < n) ∨
      (a = b + 2 ∧ a < n ∧ b ≠ 1) ∨
      (b = a + 3 ∧ 1 ≤ a ∧ b < n) ∨
      (a = b + 3 ∧ a < n) := by
  simp only [hop3Walk, List.mem_append, List.mem_flatMap, List.mem_range'_1, List.mem_cons,
    Prod.mk.injEq, List.not_mem_nil, or_false]
  constructor
  · rintro ((h | ⟨i, hi, h⟩) | h) <;> omega
  · intro h
    rcases h with h | h | h | h | h | h
    · by_cases h3 : a < 3
      · left; left; omega
      · left; right; exact ⟨a - 2, by omega, by omega⟩
    · by_cases h3 : b < 1 + (n - 4)
      · left; right; exact ⟨b, by omega, by omega⟩
      · right; omega
    · by_cases h0 : a = 0
      · left; left; omega
      · by_cases h3 : a < 1 + (n - 4)
        · left; right; exact ⟨a, by omega, by omega⟩
        · right; omega
    · by_cases h0 : b = 0
      · left; left; omega
      · left; right; exact ⟨b - 1, by omega, by omega⟩
    · left; right; exact ⟨a, by omega, by omega⟩
    · by_cases h0 : b = 0
      · left; left; omega
      · left; right; exact ⟨b, by omega, by omega⟩

theorem nodup_hop3Walk (n : Nat) (hn : 4 ≤ n) : (hop3Walk n).Nodup := by
  unfold hop3Walk
  rw [List.nodup_append, List.nodup_append]
  refine ⟨⟨by decide, ?_, ?_⟩, ?_, ?_⟩
  · rw [List.nodup_flatMap]
    refine ⟨fun i _ => by simp, ?_⟩
    refine (List.pairwise_lt_range' (s := 1) (n := n - 4)).imp ?_
    intro i j hij
    simp only [Function.onFun, List.disjoint_left]
    rintro ⟨a, b⟩ h1 h2
    simp only [List.mem_cons, Prod.mk.injEq, List.not_mem_nil, or_false] at h1 h2
    omega
  · rintro ⟨a, b⟩ h1 ⟨a', b'⟩ h2 h
    obtain ⟨rfl, rfl⟩ := Prod.mk.injEq .. ▸ h
    simp only [List.mem_flatMap, List.mem_range'_1, List.mem_cons, Prod.mk.injEq,
      List.not_mem_nil, or_false] at h1 h2
    obtain ⟨i, hi, h2⟩ := h2
    omega
  · simp; omega
  · rintro ⟨a, b⟩ h1 ⟨a', b'⟩ h2 h
    obtain ⟨rfl, rfl⟩ := Prod.mk.injEq .. ▸ h
    simp only [List.mem_append, List.mem_flatMap, List.mem_range'_1, List.mem_cons,
      Prod.mk.injEq, List.not_mem_nil, or_false] at h1 h2
    rcases h1 with h1 | ⟨i, hi, h1⟩ <;> omega

end Spurt
