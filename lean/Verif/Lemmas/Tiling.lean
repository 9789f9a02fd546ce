import Verif.Spec.Tiling
import Verif.Lemmas.Rint

/-! # Lemmas about tiles -/

namespace Spurt
open Spec

theorem countP_one_unique {α : Type*} (p : α → Bool) (l : List α) (h : l.countP p = 1) :
    ∃! i : Nat, ∃ b, l[i]? = some b ∧ p b = true := by
  induction l with
  | nil => simp at h
  | cons a l ih =>
    by_cases ha : p a = true
    · rw [List.countP_cons_of_pos ha] at h
      have h0 : l.countP p = 0 := by omega
      rw [List.countP_eq_zero] at h0
      refine ⟨0, ⟨a, by simp, ha⟩, ?_⟩
      rintro j ⟨b, hb, hpb⟩
      rcases j with _ | j
      · rfl
      · simp only [List.getElem?_cons_succ] at hb
        exact absurd hpb (by simpa using h0 b (List.mem_of_getElem? hb))
    · rw [List.countP_cons_of_neg ha] at h
      obtain ⟨i, ⟨b, hb, hpb⟩, hu⟩ := ih h
      refine ⟨i + 1, ⟨b, by simpa using hb, hpb⟩, ?_⟩
      rintro j ⟨b', hb', hpb'⟩
      rcases j with _ | j
      · simp only [List.getElem?_cons_zero, Option.some.injEq] at hb'
        subst hb'
        exact absurd hpb' ha
      · rw [hu j ⟨b', by simpa using hb', hpb'⟩]

theorem countP_le_one_unique {α : Type*} (p : α → Bool) (l : List α) (h : l.countP p ≤ 1) :
    ∀ i j : Nat, ∀ b b', l[i]? = some b → l[j]? = some b' → p b = true → p b' = true → i = j := by
  intro i j b b' hb hb' hp hp'
  have h1 : l.countP p = 1 := by
    have : 0 < l.countP p := List.countP_pos_iff.mpr ⟨b, List.mem_of_getElem? hb, hp⟩
    omega
  exact (countP_one_unique p l h1).unique ⟨b, hb, hp⟩ ⟨b', hb', hp'⟩

/-- How many of the tiles contain a pixel. -/
def coverCount (tiles : List BBox) (r c : ℤ) : Nat := tiles.countP fun b => decide (InTile b r c)

theorem exactlyOne_of_count {tiles : List BBox} {r c : ℤ} (h : coverCount tiles r c = 1) :
    InExactlyOne tiles r c := by
  have := countP_one_unique (fun b => decide (InTile b r c)) tiles h
  simpa [InExactlyOne] using this

theorem atMostOne_of_count {tiles : List BBox} {r c : ℤ} (h : coverCount tiles r c ≤ 1) :
    InAtMostOne tiles r c := by
  have := countP_le_one_unique (fun b => decide (InTile b r c)) tiles h
  simpa [InAtMostOne] using this

/-! ### Regular grids -/

theorem edges_le {e : Nat → ℤ} {k : Nat} (hm : ∀ i < k, e i ≤ e (i + 1)) :
    ∀ i j, i ≤ j → j ≤ k → e i ≤ e j := by
  intro i j hij
  induction j, hij using Nat.le_induction with
  | base => intro _; exact le_rfl
  | succ j hj ih => intro hk; exact (ih (by omega)).trans (hm j (by omega))

theorem count_edges {e : Nat → ℤ} (k : Nat) (hm : ∀ i < k, e i ≤ e (i + 1)) (r : ℤ) :
    (List.range k).countP (fun i => decide (e i ≤ r ∧ r < e (i + 1))) =
      if e 0 ≤ r ∧ r < e k then 1 else 0 := by
  induction k with
  | zero => simp
  | succ k ih =>
    have h0 := edges_le hm 0 k (by omega) (by omega)
    have h1 := hm k (by omega)
    rw [List.range_succ, List.countP_append, ih (fun i hi => hm i (by omega)), List.countP_singleton]
    by_cases a : e 0 ≤ r <;> by_cases b : r < e k <;> by_cases c : e k ≤ r <;>
      by_cases d : r < e (k + 1) <;> simp [a, b, c, d] <;> omega

/-- Grid of tiles between row edges `e` and column edges `f`. -/
def gridTiles (e f : Nat → ℤ) (k : Nat) : List BBox :=
  (List.range k).flatMap fun ii => (List.range k).map fun jj => ⟨e ii, f jj, e (ii + 1), f (jj + 1)⟩

theorem coverCount_grid {e f : Nat → ℤ} {k : Nat} (he : ∀ i < k, e i ≤ e (i + 1))
    (hf : ∀ i < k, f i ≤ f (i + 1)) (r c : ℤ) :
    coverCount (gridTiles e f k) r c =
      if e 0 ≤ r ∧ r < e k ∧ f 0 ≤ c ∧ c < f k then 1 else 0 := by
  unfold coverCount gridTiles
  rw [List.countP_flatMap]
  have hrow : ∀ ii, List.countP (fun b => decide (InTile b r c))
      ((List.range k).map fun jj => (⟨e ii, f jj, e (ii + 1), f (jj + 1)⟩ : BBox)) =
      if e ii ≤ r ∧ r < e (ii + 1) then (if f 0 ≤ c ∧ c < f k then 1 else 0) else 0 := by
    intro ii
    rw [List.countP_map]
    by_cases h : e ii ≤ r ∧ r < e (ii + 1)
    · rw [if_pos h, ← count_edges k hf c]
      apply List.countP_congr
      intro jj _
      simp [InTile, h.1, h.2]
    · rw [if_neg h, List.countP_eq_zero]
      intro jj _
      intro h2
      have h2 := of_decide_eq_true h2
      exact h ⟨h2.1, h2.2.1⟩
  have hsum : ∀ l : List Nat, (l.map (List.countP (fun b => decide (InTile b r c)) ∘ fun ii =>
      (List.range k).map fun jj => (⟨e ii, f jj, e (ii + 1), f (jj + 1)⟩ : BBox))).sum =
      l.countP (fun i => decide (e i ≤ r ∧ r < e (i + 1))) * (if f 0 ≤ c ∧ c < f k then 1 else 0) := by
    intro l
    induction l with
    | nil => simp
    | cons i l ih =>
      rw [List.map_cons, List.sum_cons, ih, List.countP_cons]
      simp only [Function.comp, hrow, decide_eq_true_eq]
      split <;> ring
  rw [hsum, count_edges k he r]
  by_cases h1 : e 0 ≤ r ∧ r < e k <;> by_cases h2 : f 0 ≤ c ∧ c < f k
  · rw [if_pos h1, if_pos h2, if_pos ⟨h1.1, h1.2, h2.1, h2.2⟩]
  · rw [if_pos h1, if_neg h2, if_neg (fun h => h2 ⟨h.2.2.1, h.2.2.2⟩)]
  · rw [if_neg h1, if_pos h2, if_neg (fun h => h1 ⟨h.1, h.2.1⟩)]
  · rw [if_neg h1, if_neg h2, if_neg (fun h => h2 ⟨h.2.2.1, h.2.2.2⟩)]

theorem grid_length (e f : Nat → ℤ) (k : Nat) : (gridTiles e f k).length = k * k := by
  unfold gridTiles
  simp [List.length_flatMap]

theorem grid_inImage {e f : Nat → ℤ} {k : Nat} (he : ∀ i < k, e i ≤ e (i + 1))
    (hf : ∀ i < k, f i ≤ f (i + 1)) {shape : ℤ × ℤ} (h0 : 0 ≤ e 0) (h1 : e k ≤ shape.1)
    (h2 : 0 ≤ f 0) (h3 : f k ≤ shape.2) : ∀ b ∈ gridTiles e f k, TileInImage shape b := by
  intro b hb
  unfold gridTiles at hb
  obtain ⟨i, hi, hb⟩ := List.mem_flatMap.mp hb
  obtain ⟨j, hj, rfl⟩ := List.mem_map.mp hb
  rw [List.mem_range] at hi hj
  have a1 := edges_le he 0 i (by omega) (by omega)
  have a2 := edges_le he (i + 1) k (by omega) (by omega)
  have a3 := edges_le hf 0 j (by omega) (by omega)
  have a4 := edges_le hf (j + 1) k (by omega) (by omega)
  exact ⟨by simpa using h0.trans a1, he i hi, a2.trans h1, by simpa using h2.trans a3, hf j hj, a4.trans h3⟩

section
variable {K : Type} [Field K] [LinearOrder K] [IsStrictOrderedRing K] [FloorRing K]

theorem pyInt_of_nonneg {x : K} (h : 0 ≤ x) : pyInt x = ⌊x⌋ := by unfold pyInt; rw [if_pos h]

theorem pyInt_mono {x y : K} (h : x ≤ y) : pyInt x ≤ pyInt y := by
  unfold pyInt
  split <;> split
  · exact Int.floor_le_floor h
  · rename_i h1 h2; exact absurd (h1.trans h) h2
  · rename_i h1 h2
    have : ⌈x⌉ ≤ 0 := Int.ceil_le.mpr (by push_cast; linarith)
    exact this.trans (Int.floor_nonneg.mpr h2)
  · exact Int.ceil_le_ceil h

@[simp] theorem pyInt_intCast (n : ℤ) : pyInt ((n : ℤ) : K) = n := by
  unfold pyInt; split <;> simp

/-! ### Recursive splits -/

/-- The integer rectangle of a real rectangle. -/
def floorBox (s : (K × K) × (K × K)) : BBox := ⟨⌊s.1.1⌋, ⌊s.2.1⌋, ⌊s.1.2⌋, ⌊s.2.2⌋⟩

theorem getSplits_ok {z : List K} {m : Nat} {bd : K × K} {cuts lens : List K}
    (h : getSplits z m bd = .ok (cuts, lens)) (hm : 1 ≤ m) :
    m ≤ z.length ∧ cuts.length = m + 1 ∧ lens.length = m ∧
    ∀ i, 1 ≤ i → i ≤ m - 1 → ∃ a ∈ z, ∃ b ∈ z, cuts.getD i 0 = (a + b) / 2 := by
  unfold getSplits at h
  simp only at h
  split at h
  · simp at h
  rename_i hn
  simp only [Except.ok.injEq, Prod.mk.injEq] at h
  obtain ⟨rfl, rfl⟩ := h
  have hn1 : 1 ≤ z.length / m := Nat.one_le_iff_ne_zero.mpr hn
  have hlm : z.length / m * m ≤ z.length := Nat.div_mul_le_self _ _
  have hzm : m ≤ z.length := by nlinarith
  refine ⟨hzm, by simp; omega, by simp; omega, ?_⟩
  intro i hi1 hi2
  obtain ⟨k, rfl⟩ : ∃ k, i = k + 1 := ⟨i - 1, by omega⟩
  have hk : k < m - 1 := by omega
  have hkn : (k + 1) * (z.length / m) < z.length := by
    have : (k + 2) * (z.length / m) ≤ z.length / m * m := by
      rw [mul_comm]; exact Nat.mul_le_mul_left _ (by omega)
    nlinarith
  have e1 : k * (z.length / m) + z.length / m - 1 < z.length := by
    have : (k + 1) * (z.length / m) = k * (z.length / m) + z.length / m := by ring
    omega
  refine ⟨z[k * (z.length / m) + z.length / m - 1], List.getElem_mem _,
    z[(k + 1) * (z.length / m)], List.getElem_mem _, ?_⟩
  rw [List.cons_append, List.getD_cons_succ, List.getD_eq_getElem?_getD,
    List.getElem?_append_left (by simpa using hk), List.getElem?_map, List.getElem?_range hk]
  simp [List.getD_eq_getElem?_getD, e1, hkn]

theorem findBestSplit_ok {F : Type} {sc : Scoring K F} {a b : List K} {m i : Nat} {s : F}
    (h : findBestSplit sc a b m = .ok (i, s)) : 1 ≤ i ∧ i ≤ a.length - 1 := by
  unfold findBestSplit at h
  simp only at h
  split at h
  · simp at h
  split at h
  · rename_i s' hs
    simp only [Except.ok.injEq, Prod.mk.injEq] at h
    obtain ⟨rfl, _⟩ := h
    have := (List.getElem?_eq_some_iff.mp hs).1
    simp only [List.length_map, List.length_range'] at this
    omega
  · simp at h

/-- Points and bounds of a call of `split_rectangle`. -/
def InBounds (points : List (K × K)) (bd : (K × K) × (K × K)) : Prop :=
  ∀ p ∈ points, bd.1.1 ≤ p.1 ∧ p.1 ≤ bd.1.2 ∧ bd.2.1 ≤ p.2 ∧ p.2 ≤ bd.2.2

theorem split_step {F : Type} {sc : Scoring K F} {fuel : Nat} {points : List (K × K)}
    {bd : (K × K) × (K × K)} {m : Nat} {out : List ((K × K) × (K × K))} (hm : m ≠ 1) (hm0 : 1 ≤ m)
    (hin : InBounds points bd)
    (h : splitRectangle sc (fuel + 1) points bd m = .ok out) :
    ∃ (i : Nat) (cut : K) (l r : List ((K × K) × (K × K))), 1 ≤ i ∧ i ≤ m - 1 ∧ out = l ++ r ∧
    ((bd.1.1 ≤ cut ∧ cut ≤ bd.1.2 ∧
      splitRectangle sc fuel (points.filter fun p => p.1 ≤ cut) ((bd.1.1, cut), bd.2) i = .ok l ∧
      splitRectangle sc fuel (points.filter fun p => ¬ p.1 ≤ cut) ((cut, bd.1.2), bd.2) (m - i) = .ok r) ∨
     (bd.2.1 ≤ cut ∧ cut ≤ bd.2.2 ∧
      splitRectangle sc fuel (points.filter fun p => p.2 ≤ cut) (bd.1, (bd.2.1, cut)) i = .ok l ∧
      splitRectangle sc fuel (points.filter fun p => ¬ p.2 ≤ cut) (bd.1, (cut, bd.2.2)) (m - i) = .ok r)) := by
  rw [splitRectangle, if_neg hm] at h
  split at h
  · simp at h
  simp only [Bind.bind, Except.bind] at h
  cases hx : getSplits ((points.map Prod.fst).mergeSort (· ≤ ·)) m bd.1 with
  | error e => rw [hx] at h; simp at h
  | ok cx =>
    rw [hx] at h
    cases hy : getSplits ((points.map Prod.snd).mergeSort (· ≤ ·)) m bd.2 with
    | error e => rw [hy] at h; simp at h
    | ok cy =>
      rw [hy] at h
      obtain ⟨cutsX, lensX⟩ := cx
      obtain ⟨cutsY, lensY⟩ := cy
      simp only at h
      obtain ⟨_, hxl, hxl2, hxc⟩ := getSplits_ok hx hm0
      obtain ⟨_, hyl, hyl2, hyc⟩ := getSplits_ok hy hm0
      cases hbx : findBestSplit sc lensX lensY m with
      | error e => rw [hbx] at h; simp at h
      | ok bx =>
        rw [hbx] at h
        cases hby : findBestSplit sc lensY lensX m with
        | error e => rw [hby] at h; simp at h
        | ok b_y =>
          rw [hby] at h
          obtain ⟨xi, xs⟩ := bx
          obtain ⟨yi, ys⟩ := b_y
          have hxi := findBestSplit_ok hbx
          have hyi := findBestSplit_ok hby
          rw [hxl2] at hxi
          rw [hyl2] at hyi
          simp only at h
          split at h
          · obtain ⟨a, ha, b, hb, hc⟩ := hxc xi hxi.1 hxi.2
            rw [(List.mergeSort_perm _ _).mem_iff] at ha hb
            obtain ⟨p, hp, rfl⟩ := List.mem_map.mp ha
            obtain ⟨q, hq, rfl⟩ := List.mem_map.mp hb
            have h1 := hin p hp
            have h2 := hin q hq
            cases hl : splitRectangle sc fuel (points.filter fun p => p.1 ≤ cutsX.getD xi 0)
                ((bd.1.1, cutsX.getD xi 0), bd.2) xi with
            | error e => rw [hl] at h; simp at h
            | ok l =>
              rw [hl] at h
              simp only at h
              cases hr : splitRectangle sc fuel (points.filter fun p => ¬ p.1 ≤ cutsX.getD xi 0)
                  ((cutsX.getD xi 0, bd.1.2), bd.2) (m - xi) with
              | error e => rw [hr] at h; simp at h
              | ok r =>
                rw [hr] at h
                simp only [pure, Except.pure, Except.ok.injEq] at h
                exact ⟨xi, cutsX.getD xi 0, l, r, hxi.1, hxi.2, h.symm,
                  .inl ⟨by rw [hc]; linarith [h1.1, h2.1], by rw [hc]; linarith [h1.2.1, h2.2.1], hl, hr⟩⟩
          · obtain ⟨a, ha, b, hb, hc⟩ := hyc yi hyi.1 hyi.2
            rw [(List.mergeSort_perm _ _).mem_iff] at ha hb
            obtain ⟨p, hp, rfl⟩ := List.mem_map.mp ha
            obtain ⟨q, hq, rfl⟩ := List.mem_map.mp hb
            have h1 := hin p hp
            have h2 := hin q hq
            cases hl : splitRectangle sc fuel (points.filter fun p => p.2 ≤ cutsY.getD yi 0)
                (bd.1, (bd.2.1, cutsY.getD yi 0)) yi with
            | error e => rw [hl] at h; simp at h
            | ok l =>
              rw [hl] at h
              simp only at h
              cases hr : splitRectangle sc fuel (points.filter fun p => ¬ p.2 ≤ cutsY.getD yi 0)
                  (bd.1, (cutsY.getD yi 0, bd.2.2)) (m - yi) with
              | error e => rw [hr] at h; simp at h
              | ok r =>
                rw [hr] at h
                simp only [pure, Except.pure, Except.ok.injEq] at h
                exact ⟨yi, cutsY.getD yi 0, l, r, hyi.1, hyi.2, h.symm,
                  .inr ⟨by rw [hc]; linarith [h1.2.2.1, h2.2.2.1],
                    by rw [hc]; linarith [h1.2.2.2, h2.2.2.2], hl, hr⟩⟩

/-- Rectangle inside a rectangle. -/
def SubBox (b bd : (K × K) × (K × K)) : Prop :=
  bd.1.1 ≤ b.1.1 ∧ b.1.1 ≤ b.1.2 ∧ b.1.2 ≤ bd.1.2 ∧ bd.2.1 ≤ b.2.1 ∧ b.2.1 ≤ b.2.2 ∧ b.2.2 ≤ bd.2.2

theorem split_count {F : Type} (sc : Scoring K F) (r c : ℤ) : ∀ (fuel : Nat) (points : List (K × K))
    (bd : (K × K) × (K × K)) (m : Nat) (out : List ((K × K) × (K × K))), 1 ≤ m →
    bd.1.1 ≤ bd.1.2 → bd.2.1 ≤ bd.2.2 → InBounds points bd →
    splitRectangle sc fuel points bd m = .ok out →
    out.length = m ∧ (∀ b ∈ out, SubBox b bd) ∧
    coverCount (out.map floorBox) r c = if InTile (floorBox bd) r c then 1 else 0 := by
  intro fuel
  induction fuel with
  | zero => intro points bd m out _ _ _ _ h; simp [splitRectangle] at h
  | succ fuel ih =>
    intro points bd m out hm hb1 hb2 hin h
    by_cases h1 : m = 1
    · rw [splitRectangle, if_pos h1] at h
      simp only [Except.ok.injEq] at h
      subst h
      refine ⟨by simp [h1], ?_, ?_⟩
      · simp [SubBox, hb1, hb2]
      · simp [coverCount]
    obtain ⟨i, cut, l, rr, hi1, hi2, rfl, hcase⟩ := split_step h1 hm hin h
    rcases hcase with ⟨hc1, hc2, hl, hr⟩ | ⟨hc1, hc2, hl, hr⟩
    · obtain ⟨l1, l2, l3⟩ := ih _ ((bd.1.1, cut), bd.2) _ _ hi1 hc1 hb2 (by
        intro p hp
        rw [List.mem_filter] at hp
        have := hin p hp.1
        exact ⟨this.1, by simpa using hp.2, this.2.2⟩) hl
      obtain ⟨r1, r2, r3⟩ := ih _ ((cut, bd.1.2), bd.2) _ _ (by omega) hc2 hb2 (by
        intro p hp
        rw [List.mem_filter] at hp
        have := hin p hp.1
        have h2 : cut < p.1 := by simpa using hp.2
        exact ⟨h2.le, this.2.1, this.2.2⟩) hr
      refine ⟨by rw [List.length_append, l1, r1]; omega, ?_, ?_⟩
      · intro b hb
        rcases List.mem_append.mp hb with hb | hb
        · obtain ⟨a1, a2, a3, a4⟩ := l2 b hb
          exact ⟨a1, a2, a3.trans hc2, a4⟩
        · obtain ⟨a1, a2, a3, a4⟩ := r2 b hb
          exact ⟨hc1.trans a1, a2, a3, a4⟩
      · unfold coverCount at l3 r3 ⊢
        rw [List.map_append, List.countP_append, l3, r3]
        simp only [InTile, floorBox]
        have f1 := Int.floor_le_floor hc1
        have f2 := Int.floor_le_floor hc2
        by_cases a : ⌊bd.1.1⌋ ≤ r <;> by_cases b : r < ⌊cut⌋ <;> by_cases d : ⌊cut⌋ ≤ r <;>
          by_cases e : r < ⌊bd.1.2⌋ <;> simp [a, b, d, e] <;> omega
    · obtain ⟨l1, l2, l3⟩ := ih _ (bd.1, (bd.2.1, cut)) _ _ hi1 hb1 hc1 (by
        intro p hp
        rw [List.mem_filter] at hp
        have := hin p hp.1
        exact ⟨this.1, this.2.1, this.2.2.1, by simpa using hp.2⟩) hl
      obtain ⟨r1, r2, r3⟩ := ih _ (bd.1, (cut, bd.2.2)) _ _ (by omega) hb1 hc2 (by
        intro p hp
        rw [List.mem_filter] at hp
        have := hin p hp.1
        have h2 : cut < p.2 := by simpa using hp.2
        exact ⟨this.1, this.2.1, h2.le, this.2.2.2⟩) hr
      refine ⟨by rw [List.length_append, l1, r1]; omega, ?_, ?_⟩
      · intro b hb
        rcases List.mem_append.mp hb with hb | hb
        · obtain ⟨a1, a2, a3, a4, a5, a6⟩ := l2 b hb
          exact ⟨a1, a2, a3, a4, a5, a6.trans hc2⟩
        · obtain ⟨a1, a2, a3, a4, a5, a6⟩ := r2 b hb
          exact ⟨a1, a2, a3, hc1.trans a4, a5, a6⟩
      · unfold coverCount at l3 r3 ⊢
        rw [List.map_append, List.countP_append, l3, r3]
        simp only [InTile, floorBox]
        have f1 := Int.floor_le_floor hc1
        have f2 := Int.floor_le_floor hc2
        by_cases a : ⌊bd.2.1⌋ ≤ c <;> by_cases b : c < ⌊cut⌋ <;> by_cases d : ⌊cut⌋ ≤ c <;>
          by_cases e : c < ⌊bd.2.2⌋ <;> simp [a, b, d, e] <;> omega

/-- The recursion bound is never hit. -/
theorem split_terminates {F : Type} (sc : Scoring K F) : ∀ (fuel : Nat) (points : List (K × K))
    (bd : (K × K) × (K × K)) (m : Nat), 1 ≤ m → m ≤ fuel →
    splitRectangle sc fuel points bd m ≠ .error .nonTermination := by
  intro fuel
  induction fuel with
  | zero => intro points bd m h1 h2; omega
  | succ fuel ih =>
    intro points bd m hm0 hf h
    rw [splitRectangle] at h
    split at h
    · simp at h
    rename_i hm1
    split at h
    · simp at h
    simp only [Bind.bind, Except.bind] at h
    have hgs : ∀ (z : List K) (b : K × K), getSplits z m b ≠ .error .nonTermination := by
      intro z b; unfold getSplits; simp only; split <;> simp
    have hfb : ∀ a b : List K, findBestSplit sc a b m ≠ .error .nonTermination := by
      intro a b; unfold findBestSplit; simp only; split
      · simp
      · split <;> simp
    cases hx : getSplits ((points.map Prod.fst).mergeSort (· ≤ ·)) m bd.1 with
    | error e => rw [hx] at h; simp only [Except.error.injEq] at h; subst h; exact hgs _ _ hx
    | ok cx =>
      rw [hx] at h
      obtain ⟨cutsX, lensX⟩ := cx
      obtain ⟨_, _, hxl2, _⟩ := getSplits_ok hx hm0
      cases hy : getSplits ((points.map Prod.snd).mergeSort (· ≤ ·)) m bd.2 with
      | error e => rw [hy] at h; simp only [Except.error.injEq] at h; subst h; exact hgs _ _ hy
      | ok cy =>
        rw [hy] at h
        obtain ⟨cutsY, lensY⟩ := cy
        obtain ⟨_, _, hyl2, _⟩ := getSplits_ok hy hm0
        simp only at h
        cases hbx : findBestSplit sc lensX lensY m with
        | error e => rw [hbx] at h; simp only [Except.error.injEq] at h; subst h; exact hfb _ _ hbx
        | ok bx =>
          rw [hbx] at h
          cases hby : findBestSplit sc lensY lensX m with
          | error e => rw [hby] at h; simp only [Except.error.injEq] at h; subst h; exact hfb _ _ hby
          | ok b_y =>
            rw [hby] at h
            obtain ⟨xi, xs⟩ := bx
            obtain ⟨yi, ys⟩ := b_y
            have hxi := findBestSplit_ok hbx
            have hyi := findBestSplit_ok hby
            rw [hxl2] at hxi
            rw [hyl2] at hyi
            simp only at h
            split at h
            · cases hl : splitRectangle sc fuel (points.filter fun p => p.1 ≤ cutsX.getD xi 0)
                  ((bd.1.1, cutsX.getD xi 0), bd.2) xi with
              | error e =>
                rw [hl] at h; simp only [Except.error.injEq] at h; subst h
                exact ih _ _ _ hxi.1 (by omega) hl
              | ok l =>
                rw [hl] at h
                simp only at h
                cases hr : splitRectangle sc fuel (points.filter fun p => ¬ p.1 ≤ cutsX.getD xi 0)
                    ((cutsX.getD xi 0, bd.1.2), bd.2) (m - xi) with
                | error e =>
                  rw [hr] at h; simp only [Except.error.injEq] at h; subst h
                  exact ih _ _ _ (by omega) (by omega) hr
                | ok r => rw [hr] at h; simp [pure, Except.pure] at h
            · cases hl : splitRectangle sc fuel (points.filter fun p => p.2 ≤ cutsY.getD yi 0)
                  (bd.1, (bd.2.1, cutsY.getD yi 0)) yi with
              | error e =>
                rw [hl] at h; simp only [Except.error.injEq] at h; subst h
                exact ih _ _ _ hyi.1 (by omega) hl
              | ok l =>
                rw [hl] at h
                simp only at h
                cases hr : splitRectangle sc fuel (points.filter fun p => ¬ p.2 ≤ cutsY.getD yi 0)
                    (bd.1, (cutsY.getD yi 0, bd.2.2)) (m - yi) with
                | error e =>
                  rw [hr] at h; simp only [Except.error.injEq] at h; subst h
                  exact ih _ _ _ (by omega) (by omega) hr
                | ok r => rw [hr] at h; simp [pure, Except.pure] at h

end
end Spurt
