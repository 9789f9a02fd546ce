import Verif.Lemmas.Graph

namespace Spurt
open Spec

/-- Ravel a pair of coordinates. -/
def rav (c : Nat) (p : (Nat × Nat) × (Nat × Nat)) : Nat × Nat :=
  (p.1.1 * c + p.1.2, p.2.1 * c + p.2.2)

theorem ravel_inj {c i j i' j' : Nat} (hj : j < c) (hj' : j' < c)
    (h : i * c + j = i' * c + j') : i = i' ∧ j = j' := by
  have h1 : (i * c + j) / c = i := by
    rw [Nat.mul_comm, Nat.mul_add_div (by omega), Nat.div_eq_of_lt hj, Nat.add_zero]
  have h2 : (i' * c + j') / c = i' := by
    rw [Nat.mul_comm, Nat.mul_add_div (by omega), Nat.div_eq_of_lt hj', Nat.add_zero]
  have : i = i' := by rw [← h1, ← h2, h]
  subst this
  exact ⟨rfl, by omega⟩

theorem rav_inj {c : Nat} {p q : (Nat × Nat) × (Nat × Nat)} (h1 : p.1.2 < c) (h2 : p.2.2 < c)
    (h3 : q.1.2 < c) (h4 : q.2.2 < c) (h : rav c p = rav c q) : p = q := by
  obtain ⟨⟨a, b⟩, d, e⟩ := p
  obtain ⟨⟨a', b'⟩, d', e'⟩ := q
  simp only [rav, Prod.mk.injEq] at h
  obtain ⟨r1, r2⟩ := ravel_inj h1 h3 h.1
  obtain ⟨r3, r4⟩ := ravel_inj h2 h4 h.2
  simp only at r1 r2 r3 r4
  rw [r1, r2, r3, r4]

def reg2dLinksC (r c : Nat) : List ((Nat × Nat) × (Nat × Nat)) :=
  ((List.range r).flatMap fun i => (List.range (c - 1)).map fun j => ((i, j), (i, j + 1))) ++
  ((List.range (r - 1)).flatMap fun i => (List.range c).map fun j => ((i, j), (i + 1, j)))

def reg2dWalkC (r c : Nat) : List ((Nat × Nat) × (Nat × Nat)) :=
  (List.range (r - 1)).flatMap fun i => (List.range (c - 1)).flatMap fun j =>
    [((i, j), (i + 1, j)), ((i + 1, j), (i + 1, j + 1)),
     ((i + 1, j + 1), (i, j + 1)), ((i, j + 1), (i, j))]

theorem reg2dLinks_eq (r c : Nat) : reg2dLinks r c = (reg2dLinksC r c).map (rav c) := by
  simp only [reg2dLinks, reg2dLinksC, List.map_append, List.map_flatMap, List.map_map]
  congr 1
  congr 1
  funext i
  apply List.map_congr_left
  intro j _
  simp only [rav, Function.comp, Prod.mk.injEq, true_and]; ring

theorem reg2dWalk_eq (r c : Nat) : walked (reg2dCycles r c) = (reg2dWalkC r c).map (rav c) := by
  simp only [walked, reg2dCycles, reg2dWalkC, List.map_flatMap, List.flatMap_assoc,
    List.flatMap_map]
  congr 1

theorem mem_reg2dLinksC {r c i j i' j' : Nat} :
    ((i, j), (i', j')) ∈ reg2dLinksC r c ↔
      i < r ∧ i' < r ∧ j < c ∧ j' < c ∧
      ((i' = i ∧ j' = j + 1) ∨ (i' = i + 1 ∧ j' = j)) := by
  simp only [reg2dLinksC, List.mem_append, List.mem_flatMap, List.mem_range, List.mem_map,
    Prod.mk.injEq]
  constructor
  · rintro (⟨a, ha, b, hb, h⟩ | ⟨a, ha, b, hb, h⟩) <;> omega
  · rintro ⟨h1, h2, h3, h4, h5 | h5⟩
    · left; exact ⟨i, h1, j, by omega, by omega⟩
    · right; exact ⟨i, by omega, j, h3, by omega⟩

theorem mem_reg2dWalkC {r c i j i' j' : Nat} :
    ((i, j), (i', j')) ∈ reg2dWalkC r c ↔
      (i' = i + 1 ∧ j' = j ∧ i + 1 < r ∧ j + 1 < c) ∨
      (i' = i ∧ j' = j + 1 ∧ 1 ≤ i ∧ i < r ∧ j + 1 < c) ∨
      (i = i' + 1 ∧ j' = j ∧ i < r ∧ 1 ≤ j ∧ j < c) ∨
      (i' = i ∧ j = j' + 1 ∧ i + 1 < r ∧ j < c) := by
  simp only [reg2dWalkC, List.mem_flatMap, List.mem_range, List.mem_cons, Prod.mk.injEq,
    List.not_mem_nil, or_false]
  constructor
  · rintro ⟨a, ha, b, hb, h⟩; omega
  · rintro (h | h | h | h)
    · exact ⟨i, by omega, j, by omega, by omega⟩
    · exact ⟨i - 1, by omega, j, by omega, by omega⟩
    · exact ⟨i', by omega, j - 1, by omega, by omega⟩
    · exact ⟨i, by omega, j', by omega, by omega⟩

theorem nodup_reg2dLinksC (r c : Nat) : (reg2dLinksC r c).Nodup := by
  unfold reg2dLinksC
  rw [List.nodup_append]
  refine ⟨?_, ?_, ?_⟩
  · rw [List.nodup_flatMap]
    refine ⟨fun i _ => (List.nodup_range).map (by intro a b; simp), ?_⟩
    refine (List.pairwise_lt_range (n := r)).imp ?_
    intro i j hij
    simp only [Function.onFun, List.disjoint_left, List.mem_map, not_exists, not_and]
    rintro x ⟨a, _, rfl⟩ b _ h
    simp at h; omega
  · rw [List.nodup_flatMap]
    refine ⟨fun i _ => (List.nodup_range).map (by intro a b; simp), ?_⟩
    refine (List.pairwise_lt_range (n := r - 1)).imp ?_
    intro i j hij
    simp only [Function.onFun, List.disjoint_left, List.mem_map, not_exists, not_and]
    rintro x ⟨a, _, rfl⟩ b _ h
    simp at h; omega
  · intro x hx y hy h
    subst h
    simp only [List.mem_flatMap, List.mem_map] at hx hy
    obtain ⟨i, _, j, _, rfl⟩ := hx
    obtain ⟨i', _, j', _, h⟩ := hy
    simp at h; omega

theorem nodup_reg2dWalkC (r c : Nat) : (reg2dWalkC r c).Nodup := by
  unfold reg2dWalkC
  rw [List.nodup_flatMap]
  refine ⟨fun i _ => ?_, ?_⟩
  · rw [List.nodup_flatMap]
    refine ⟨fun j _ => by simp, ?_⟩
    refine (List.pairwise_lt_range (n := c - 1)).imp ?_
    intro j j' hij
    simp only [Function.onFun, List.disjoint_left]
    rintro ⟨⟨a, b⟩, d, e⟩ h1 h2
    simp only [List.mem_cons, Prod.mk.injEq, List.not_mem_nil, or_false] at h1 h2
    omega
  · refine (List.pairwise_lt_range (n := r - 1)).imp ?_
    intro i i' hij
    simp only [Function.onFun, List.disjoint_left]
    rintro ⟨⟨a, b⟩, d, e⟩ h1 h2
    simp only [List.mem_flatMap, List.mem_cons, Prod.mk.injEq, List.not_mem_nil, or_false] at h1 h2
    obtain ⟨j, _, h1⟩ := h1
    obtain ⟨j', _, h2⟩ := h2
    omega

theorem linksC_bound {r c : Nat} {p : (Nat × Nat) × (Nat × Nat)} (h : p ∈ reg2dLinksC r c) :
    p.1.2 < c ∧ p.2.2 < c ∧ p.1.1 < r ∧ p.2.1 < r := by
  obtain ⟨⟨a, b⟩, d, e⟩ := p
  rw [mem_reg2dLinksC] at h; simp only; omega

theorem walkC_bound {r c : Nat} {p : (Nat × Nat) × (Nat × Nat)} (h : p ∈ reg2dWalkC r c) :
    p.1.2 < c ∧ p.2.2 < c ∧ p.1.1 < r ∧ p.2.1 < r := by
  obtain ⟨⟨a, b⟩, d, e⟩ := p
  rw [mem_reg2dWalkC] at h; simp only; omega

theorem mem_reg2dLinks {r c i j i' j' : Nat} (hj : j < c) (hj' : j' < c) :
    (i * c + j, i' * c + j') ∈ reg2dLinks r c ↔ ((i, j), (i', j')) ∈ reg2dLinksC r c := by
  rw [reg2dLinks_eq, List.mem_map]
  constructor
  · rintro ⟨p, hp, h⟩
    have hb := linksC_bound hp
    have := rav_inj (q := ((i, j), (i', j'))) hb.1 hb.2.1 hj hj' h
    rwa [← this]
  · intro h; exact ⟨_, h, rfl⟩

theorem mem_reg2dWalk {r c i j i' j' : Nat} (hj : j < c) (hj' : j' < c) :
    (i * c + j, i' * c + j') ∈ walked (reg2dCycles r c) ↔
      ((i, j), (i', j')) ∈ reg2dWalkC r c := by
  rw [reg2dWalk_eq, List.mem_map]
  constructor
  · rintro ⟨p, hp, h⟩
    have hb := walkC_bound hp
    have := rav_inj (q := ((i, j), (i', j'))) hb.1 hb.2.1 hj hj' h
    rwa [← this]
  · intro h; exact ⟨_, h, rfl⟩

theorem nodup_reg2dLinks (r c : Nat) : (reg2dLinks r c).Nodup := by
  rw [reg2dLinks_eq]
  refine List.Nodup.map_on ?_ (nodup_reg2dLinksC r c)
  intro p hp q hq h
  have h1 := linksC_bound hp
  have h2 := linksC_bound hq
  exact rav_inj h1.1 h1.2.1 h2.1 h2.2.1 h

theorem nodup_reg2dWalk (r c : Nat) : (walked (reg2dCycles r c)).Nodup := by
  rw [reg2dWalk_eq]
  refine List.Nodup.map_on ?_ (nodup_reg2dWalkC r c)
  intro p hp q hq h
  have h1 := walkC_bound hp
  have h2 := walkC_bound hq
  exact rav_inj h1.1 h1.2.1 h2.1 h2.2.1 h

/-- Every link is the image of a coordinate pair. -/
theorem reg2dLinks_coords {r c a b : Nat} (h : (a, b) ∈ reg2dLinks r c) :
    ∃ i j i' j', a = i * c + j ∧ b = i' * c + j' ∧ j < c ∧ j' < c ∧ i < r ∧ i' < r ∧
      ((i, j), (i', j')) ∈ reg2dLinksC r c := by
  rw [reg2dLinks_eq, List.mem_map] at h
  obtain ⟨⟨⟨i, j⟩, i', j'⟩, hp, h⟩ := h
  have hb := linksC_bound hp
  simp only [rav, Prod.mk.injEq] at h
  exact ⟨i, j, i', j', h.1.symm, h.2.symm, hb.1, hb.2.1, hb.2.2.1, hb.2.2.2, hp⟩

theorem reg2dWalk_coords {r c a b : Nat} (h : (a, b) ∈ walked (reg2dCycles r c)) :
    ∃ i j i' j', a = i * c + j ∧ b = i' * c + j' ∧ j < c ∧ j' < c ∧ i < r ∧ i' < r ∧
      ((i, j), (i', j')) ∈ reg2dWalkC r c := by
  rw [reg2dWalk_eq, List.mem_map] at h
  obtain ⟨⟨⟨i, j⟩, i', j'⟩, hp, h⟩ := h
  have hb := walkC_bound hp
  simp only [rav, Prod.mk.injEq] at h
  exact ⟨i, j, i', j', h.1.symm, h.2.symm, hb.1, hb.2.1, hb.2.2.1, hb.2.2.2, hp⟩

theorem ravel_lt {r c i j : Nat} (hi : i < r) (hj : j < c) : i * c + j < r * c := by
  calc i * c + j < i * c + c := by omega
    _ = (i + 1) * c := by ring
    _ ≤ r * c := Nat.mul_le_mul_right c hi

theorem length_reg2dLinks (r c : Nat) :
    (reg2dLinks r c).length = r * (c - 1) + (r - 1) * c := by
  simp [reg2dLinks, List.length_flatMap]

theorem length_reg2dCycles (r c : Nat) :
    (reg2dCycles r c).length = (r - 1) * (c - 1) := by
  simp [reg2dCycles, List.length_flatMap]

theorem reg2d_ordered {r c a b : Nat} (h : (a, b) ∈ reg2dLinks r c) :
    a < b ∧ b < r * c := by
  obtain ⟨i, j, i', j', rfl, rfl, hj, hj', hi, hi', hp⟩ := reg2dLinks_coords h
  refine ⟨?_, ravel_lt hi' hj'⟩
  rw [mem_reg2dLinksC] at hp
  obtain ⟨_, _, _, _, h5⟩ := hp
  rcases h5 with ⟨h, h'⟩ | ⟨h, h'⟩
  · rw [h, h']; omega
  · have : (i + 1) * c = i * c + c := by ring
    rw [h, h', this]; omega

theorem reg2d_side_is_link {r c a b : Nat} (h : (a, b) ∈ walked (reg2dCycles r c)) :
    (a, b) ∈ reg2dLinks r c ∨ (b, a) ∈ reg2dLinks r c := by
  obtain ⟨i, j, i', j', rfl, rfl, hj, hj', hi, hi', hp⟩ := reg2dWalk_coords h
  rw [mem_reg2dLinks hj hj', mem_reg2dLinks hj' hj, mem_reg2dLinksC, mem_reg2dLinksC]
  rw [mem_reg2dWalkC] at hp
  clear h
  omega

theorem reg2d_link_walked {r c a b : Nat} (hr : 2 ≤ r) (hc : 2 ≤ c)
    (h : (a, b) ∈ reg2dLinks r c) :
    (a, b) ∈ walked (reg2dCycles r c) ∨ (b, a) ∈ walked (reg2dCycles r c) := by
  obtain ⟨i, j, i', j', rfl, rfl, hj, hj', hi, hi', hp⟩ := reg2dLinks_coords h
  rw [mem_reg2dWalk hj hj', mem_reg2dWalk hj' hj, mem_reg2dWalkC, mem_reg2dWalkC]
  rw [mem_reg2dLinksC] at hp
  obtain ⟨_, _, _, _, h5⟩ := hp
  clear h
  rcases h5 with ⟨e, e'⟩ | ⟨e, e'⟩
  · rcases Nat.eq_zero_or_pos i with h0 | h0
    · right; right; right; right; omega
    · left; right; left; omega
  · rcases Nat.eq_zero_or_pos j with h0 | h0
    · left; left; omega
    · right; right; right; left; omega

theorem reg2d_cycle_length {r c : Nat} {x : List Nat} (hx : x ∈ reg2dCycles r c) :
    x.length = 4 := by
  simp only [reg2dCycles, List.mem_flatMap, List.mem_map] at hx
  obtain ⟨_, _, _, _, rfl⟩ := hx
  rfl

theorem reg2d_contract (r c : Nat) (hr : 2 ≤ r) (hc : 2 ≤ c) :
    PlanarContract (r * c) (reg2dLinks r c) (reg2dCycles r c) := by
  constructor
  · intro a b h; exact reg2d_ordered h
  · exact nodup_reg2dLinks r c
  · intro a b h; exact reg2d_side_is_link h
  · exact nodup_reg2dWalk r c
  · intro a b h; exact reg2d_link_walked hr hc h
  · intro x hx y hy
    rw [reg2d_cycle_length hx, reg2d_cycle_length hy]

def reg2dBoundaryC (r c : Nat) : List ((Nat × Nat) × (Nat × Nat)) :=
  ((List.range (c - 1)).map fun j => ((0, j), (0, j + 1))) ++
  ((List.range (r - 1)).map fun i => ((i, c - 1), (i + 1, c - 1))) ++
  ((List.range' 1 (c - 1)).reverse.map fun j => ((r - 1, j - 1), (r - 1, j))) ++
  ((List.range' 1 (r - 1)).reverse.map fun i => ((i - 1, 0), (i, 0)))

theorem reg2dBoundary_eq (r c : Nat) (hr : 1 ≤ r) (hc : 1 ≤ c) :
    reg2dBoundary r c = (reg2dBoundaryC r c).map (rav c) := by
  simp only [reg2dBoundary, reg2dBoundaryC, List.map_append, List.map_map]
  congr 1
  · congr 1
    · congr 1
      · apply List.map_congr_left
        intro j _
        simp [rav]
      · apply List.map_congr_left
        intro i _
        simp only [rav, Function.comp, Prod.mk.injEq]
        have : (i + 1) * c = i * c + c := by ring
        omega
    · apply List.map_congr_left
      intro j hj
      simp only [List.mem_reverse, List.mem_range'_1] at hj
      simp only [rav, Function.comp, Prod.mk.injEq]
      generalize (r - 1) * c = m
      refine ⟨?_, trivial⟩
      omega
  · apply List.map_congr_left
    intro i hi
    simp only [List.mem_reverse, List.mem_range'_1] at hi
    simp only [rav, Function.comp, Prod.mk.injEq]
    rw [Nat.sub_mul]
    omega

theorem mem_reg2dBoundaryC {r c i j i' j' : Nat} (hr : 2 ≤ r) (hc : 2 ≤ c) :
    ((i, j), (i', j')) ∈ reg2dBoundaryC r c ↔
      (i' = i ∧ j' = j + 1 ∧ j' < c ∧ (i = 0 ∨ i = r - 1)) ∨
      (i' = i + 1 ∧ j' = j ∧ i' < r ∧ (j = 0 ∨ j = c - 1)) := by
  simp only [reg2dBoundaryC, List.mem_append, List.mem_map, List.mem_reverse, List.mem_range,
    List.mem_range'_1, Prod.mk.injEq]
  constructor
  · rintro (((⟨a, h⟩ | ⟨a, h⟩) | ⟨a, h⟩) | ⟨a, h⟩) <;> omega
  · rintro (⟨h1, h2, h3, h4 | h4⟩ | ⟨h1, h2, h3, h4 | h4⟩)
    · left; left; left; exact ⟨j, by omega, by omega⟩
    · left; right; exact ⟨j', by omega, by omega⟩
    · right; exact ⟨i', by omega, by omega⟩
    · left; left; right; exact ⟨i, by omega, by omega⟩

theorem nodup_reg2dBoundaryC (r c : Nat) (hr : 2 ≤ r) (hc : 2 ≤ c) :
    (reg2dBoundaryC r c).Nodup := by
  unfold reg2dBoundaryC
  have n1 : ((List.range (c - 1)).map fun j => ((0, j), (0, j + 1))).Nodup :=
    List.nodup_range.map (by intro a b; simp)
  have n2 : ((List.range (r - 1)).map fun i => ((i, c - 1), (i + 1, c - 1))).Nodup :=
    List.nodup_range.map (by intro a b; simp)
  have n3 : ((List.range' 1 (c - 1)).reverse.map fun j => ((r - 1, j - 1), (r - 1, j))).Nodup :=
    (List.nodup_reverse.mpr List.nodup_range').map (by intro a b; simp)
  have n4 : ((List.range' 1 (r - 1)).reverse.map fun i => ((i - 1, 0), (i, 0))).Nodup :=
    (List.nodup_reverse.mpr List.nodup_range').map (by intro a b; simp)
  refine List.nodup_append.mpr ⟨List.nodup_append.mpr ⟨List.nodup_append.mpr ⟨n1, n2, ?_⟩, n3, ?_⟩,
    n4, ?_⟩
  · rintro ⟨⟨a, b⟩, d, e⟩ h1 y h2 rfl
    simp only [List.mem_append, List.mem_map, List.mem_reverse, List.mem_range,
      List.mem_range'_1, Prod.mk.injEq] at h1 h2
    obtain ⟨y, hy⟩ := h2
    obtain ⟨x, hx⟩ := h1
    omega
  · rintro ⟨⟨a, b⟩, d, e⟩ h1 y h2 rfl
    simp only [List.mem_append, List.mem_map, List.mem_reverse, List.mem_range,
      List.mem_range'_1, Prod.mk.injEq] at h1 h2
    obtain ⟨y, hy⟩ := h2
    rcases h1 with ⟨x, hx⟩ | ⟨x, hx⟩ <;> omega
  · rintro ⟨⟨a, b⟩, d, e⟩ h1 y h2 rfl
    simp only [List.mem_append, List.mem_map, List.mem_reverse, List.mem_range,
      List.mem_range'_1, Prod.mk.injEq] at h1 h2
    obtain ⟨y, hy⟩ := h2
    rcases h1 with (⟨x, hx⟩ | ⟨x, hx⟩) | ⟨x, hx⟩ <;> omega

theorem boundaryC_bound {r c : Nat} (hr : 2 ≤ r) (hc : 2 ≤ c) {p : (Nat × Nat) × (Nat × Nat)}
    (h : p ∈ reg2dBoundaryC r c) :
    p.1.2 < c ∧ p.2.2 < c ∧ p.1.1 < r ∧ p.2.1 < r := by
  obtain ⟨⟨a, b⟩, d, e⟩ := p
  rw [mem_reg2dBoundaryC hr hc] at h; simp only; omega

theorem nodup_reg2dBoundary (r c : Nat) (hr : 2 ≤ r) (hc : 2 ≤ c) :
    (reg2dBoundary r c).Nodup := by
  rw [reg2dBoundary_eq r c (by omega) (by omega)]
  refine List.Nodup.map_on ?_ (nodup_reg2dBoundaryC r c hr hc)
  intro p hp q hq h
  have h1 := boundaryC_bound hr hc hp
  have h2 := boundaryC_bound hr hc hq
  exact rav_inj h1.1 h1.2.1 h2.1 h2.2.1 h

theorem mem_reg2dBoundary {r c a b : Nat} (hr : 2 ≤ r) (hc : 2 ≤ c) :
    (a, b) ∈ reg2dBoundary r c ↔
      (a, b) ∈ reg2dLinks r c ∧
      ¬ ((a, b) ∈ walked (reg2dCycles r c) ∧ (b, a) ∈ walked (reg2dCycles r c)) := by
  constructor
  · intro h
    rw [reg2dBoundary_eq r c (by omega) (by omega), List.mem_map] at h
    obtain ⟨⟨⟨i, j⟩, i', j'⟩, hp, h⟩ := h
    have hb := boundaryC_bound hr hc hp
    simp only [rav, Prod.mk.injEq] at h hb
    obtain ⟨rfl, rfl⟩ := h
    rw [mem_reg2dLinks hb.1 hb.2.1, mem_reg2dWalk hb.1 hb.2.1, mem_reg2dWalk hb.2.1 hb.1,
      mem_reg2dLinksC, mem_reg2dWalkC, mem_reg2dWalkC]
    rw [mem_reg2dBoundaryC hr hc] at hp
    omega
  · rintro ⟨h, hw⟩
    obtain ⟨i, j, i', j', rfl, rfl, hj, hj', hi, hi', hp⟩ := reg2dLinks_coords h
    rw [mem_reg2dWalk hj hj', mem_reg2dWalk hj' hj, mem_reg2dWalkC, mem_reg2dWalkC] at hw
    rw [reg2dBoundary_eq r c (by omega) (by omega), List.mem_map]
    refine ⟨((i, j), (i', j')), ?_, rfl⟩
    rw [mem_reg2dLinksC] at hp
    rw [mem_reg2dBoundaryC hr hc]
    omega

end Spurt
