import Mathlib.Tactic.IntervalCases
import Verif.Props.CommonPoints
import Verif.Props.Deciles
import Verif.Props.Tiling

/-!
# Property C53: the recorded overlaps and the overlap map
-/

namespace Spurt

/-- C53. In the overlap map every tile has an entry, and tile `j` is listed for tile `i` as
often as the pair was recorded, in either order. A pair with an unknown tile is a `KeyError`. -/
theorem C53_map (n : Nat) (olaps : List (Nat × Nat)) :
    ((∀ e ∈ olaps, e.1 < n ∧ e.2 < n) → ∃ m, overlapMap n olaps = .ok m ∧ m.length = n ∧
      ∀ i j, i < n → (m.getD i []).count j = olaps.count (i, j) + olaps.count (j, i)) ∧
    (¬ (∀ e ∈ olaps, e.1 < n ∧ e.2 < n) → overlapMap n olaps = .error .keyError) := by
  have key : ∀ (l : List (Nat × Nat)) (m0 : List (List Nat)), m0.length = n →
      ((∀ e ∈ l, e.1 < n ∧ e.2 < n) → ∃ m, l.foldlM (fun m (edge : Nat × Nat) =>
        if edge.1 < n ∧ edge.2 < n then
          let m := m.set edge.1 (m.getD edge.1 [] ++ [edge.2])
          (.ok (m.set edge.2 (m.getD edge.2 [] ++ [edge.1])) : Except PyErr _)
        else .error .keyError) m0 = .ok m ∧ m.length = n ∧
        ∀ i j, i < n → (m.getD i []).count j = (m0.getD i []).count j + l.count (i, j) + l.count (j, i)) ∧
      (¬ (∀ e ∈ l, e.1 < n ∧ e.2 < n) → l.foldlM (fun m (edge : Nat × Nat) =>
        if edge.1 < n ∧ edge.2 < n then
          let m := m.set edge.1 (m.getD edge.1 [] ++ [edge.2])
          (.ok (m.set edge.2 (m.getD edge.2 [] ++ [edge.1])) : Except PyErr _)
        else .error .keyError) m0 = .error .keyError) := by
    intro l
    induction l with
    | nil =>
      intro m0 h0
      exact ⟨fun _ => ⟨m0, rfl, h0, by simp⟩, fun h => absurd (by simp) h⟩
    | cons e l ih =>
      intro m0 h0
      obtain ⟨a, b⟩ := e
      by_cases hab : a < n ∧ b < n
      · rw [List.foldlM_cons]
        simp only [hab, and_self, if_true, Bind.bind, Except.bind]
        set m1 := (m0.set a (m0.getD a [] ++ [b])).set b
          ((m0.set a (m0.getD a [] ++ [b])).getD b [] ++ [a]) with hm1
        have hl1 : m1.length = n := by rw [hm1]; simp [h0]
        obtain ⟨ih1, ih2⟩ := ih m1 hl1
        constructor
        · intro h
          obtain ⟨m, e1, e2, e3⟩ := ih1 fun e he => h e (by simp [he])
          refine ⟨m, e1, e2, fun i j hi => ?_⟩
          rw [e3 i j hi]
          have hc : (m1.getD i []).count j = (m0.getD i []).count j +
              (if (a, b) = (i, j) then 1 else 0) + (if (a, b) = (j, i) then 1 else 0) := by
            have hg : ∀ (m : List (List Nat)) (x : Nat) (v : List Nat), x < m.length →
                (m.set x v).getD i [] = if x = i then v else m.getD i [] := by
              intro m x v hx
              rw [List.getD_eq_getElem?_getD, List.getElem?_set]
              split_ifs <;> first | rfl | (rw [List.getD_eq_getElem?_getD]) | omega
            rw [hm1, hg _ _ _ (by simp [h0, hab.2]), hg _ _ _ (by rw [h0]; exact hab.1)]
            have hgb : (m0.set a (m0.getD a [] ++ [b])).getD b [] =
                if a = b then m0.getD a [] ++ [b] else m0.getD b [] := by
              by_cases hh : a = b
              · subst hh
                rw [if_pos rfl, List.getD_eq_getElem?_getD, List.getElem?_set_self (by omega)]; rfl
              · rw [if_neg hh, List.getD_eq_getElem?_getD, List.getElem?_set_ne hh,
                  List.getD_eq_getElem?_getD]
            rw [hgb]
            simp only [Prod.mk.injEq]
            by_cases h1 : b = i
            · subst h1
              by_cases h2 : a = b
              · subst h2
                simp only [if_true, List.count_append, List.count_singleton, beq_iff_eq, true_and, and_true]
              · simp only [if_true, if_neg h2, List.count_append, List.count_singleton, beq_iff_eq,
                  and_true]
                simp [h2]
            · by_cases h2 : a = i
              · subst h2
                simp only [if_neg h1, if_true, List.count_append, List.count_singleton, beq_iff_eq,
                  true_and]
                simp [h1]
              · simp [h1, h2]
          rw [hc, List.count_cons, List.count_cons]
          simp only [beq_iff_eq]
          omega
        · intro h
          apply ih2
          intro hall
          apply h
          intro e he
          rcases List.mem_cons.mp he with rfl | he
          · exact hab
          · exact hall e he
      · refine ⟨fun h => absurd (h (a, b) (by simp)) hab, fun _ => ?_⟩
        rw [List.foldlM_cons]
        simp only [hab, if_false]
        rfl
  obtain ⟨k1, k2⟩ := key olaps (List.replicate n []) (by simp)
  refine ⟨fun h => ?_, k2⟩
  obtain ⟨m, h1, h2, h3⟩ := k1 h
  refine ⟨m, h1, h2, fun i j hi => ?_⟩
  rw [h3 i j hi]
  have : (List.replicate n ([] : List Nat)).getD i [] = [] := by
    rw [List.getD_eq_getElem?_getD, List.getElem?_replicate]
    split <;> rfl
  rw [this]
  simp

example : overlapMap 4 [(0, 1), (1, 2), (0, 2)] = .ok [[1, 2], [0, 2], [1, 0], []] := by decide

section
variable {K : Type} [Field K] [LinearOrder K] [IsStrictOrderedRing K] [FloorRing K]

/-- What one pair contributes, without the tiles held in memory. -/
def pairGroup (wrap : ℤ → ℤ) (tau : K) (minPoints : ℤ)
    (load : Nat → Except PyErr (List (ℤ × ℤ) × List (List K))) (pair : Nat × Nat) :
    Except PyErr (Option OverlapGroup) := do
  let d1 ← load pair.1
  let d2 ← load pair.2
  let c ← findCommonPoints wrap d1.1 d2.1
  if (c.1.length : ℤ) < minPoints then pure none
  else do
    let stats ← pairwiseDeciles tau (selectColumns d1.2 c.1) (selectColumns d2.2 c.2)
    pure (some ⟨c.1, c.2, stats.map fun r => r.map pyInt⟩)

/-- The held tile is the loaded one. -/
def HeldOk (load : Nat → Except PyErr (List (ℤ × ℤ) × List (List K))) (h : Held K) : Prop :=
  ∀ u d, h = some (u, d) → load u = .ok d

theorem refresh_eq {load : Nat → Except PyErr (List (ℤ × ℤ) × List (List K))} {held : Held K}
    (h : HeldOk load held) (t : Nat) :
    refresh load held t = (do let d ← load t; pure (t, d)) := by
  unfold refresh
  cases held with
  | none => rfl
  | some ud =>
    obtain ⟨u, d⟩ := ud
    simp only
    by_cases htu : t = u
    · subst htu
      rw [if_neg (by simp), h t d rfl]; rfl
    · rw [if_pos htu]

theorem overlapStep_eq {wrap : ℤ → ℤ} {tau : K} {minPoints : ℤ}
    {load : Nat → Except PyErr (List (ℤ × ℤ) × List (List K))} {s s' : OverlapState K}
    {pair : Nat × Nat} (h1 : HeldOk load s.held1) (h2 : HeldOk load s.held2)
    (h : overlapStep wrap tau minPoints load s pair = .ok s') :
    HeldOk load s'.held1 ∧ HeldOk load s'.held2 ∧ ∃ o,
      pairGroup wrap tau minPoints load pair = .ok o ∧
      s'.groups = s.groups ++ (o.map fun g => (pair, g)).toList := by
  unfold overlapStep at h
  rw [refresh_eq h1, refresh_eq h2] at h
  unfold pairGroup
  cases e1 : load pair.1 with
  | error e => rw [e1] at h; simp [Bind.bind, Except.bind] at h
  | ok d1 =>
    cases e2 : load pair.2 with
    | error e => rw [e1, e2] at h; simp [Bind.bind, Except.bind, pure, Except.pure] at h
    | ok d2 =>
      rw [e1, e2] at h
      obtain ⟨pt1, uw1⟩ := d1
      obtain ⟨pt2, uw2⟩ := d2
      simp only [Bind.bind, Except.bind, pure, Except.pure] at h ⊢
      cases e3 : findCommonPoints wrap pt1 pt2 with
      | error e => rw [e3] at h; simp at h
      | ok c =>
        obtain ⟨c1, c2⟩ := c
        rw [e3] at h
        simp only at h ⊢
        by_cases hm : (c1.length : ℤ) < minPoints
        · simp only [hm, if_true, Except.ok.injEq] at h ⊢
          subst h
          refine ⟨?_, ?_, none, rfl, by simp⟩
          · intro u d hu
            simp only [Option.some.injEq, Prod.mk.injEq] at hu
            obtain ⟨rfl, rfl⟩ := hu; exact e1
          · intro u d hu
            simp only [Option.some.injEq, Prod.mk.injEq] at hu
            obtain ⟨rfl, rfl⟩ := hu; exact e2
        · simp only [hm, if_false] at h ⊢
          cases e4 : pairwiseDeciles tau (selectColumns uw1 c1) (selectColumns uw2 c2) with
          | error e => rw [e4] at h; simp at h
          | ok st =>
            rw [e4] at h
            simp only [Except.ok.injEq] at h ⊢
            subst h
            refine ⟨?_, ?_, _, rfl, by simp⟩
            · intro u d hu
              simp only [Option.some.injEq, Prod.mk.injEq] at hu
              obtain ⟨rfl, rfl⟩ := hu; exact e1
            · intro u d hu
              simp only [Option.some.injEq, Prod.mk.injEq] at hu
              obtain ⟨rfl, rfl⟩ := hu; exact e2

theorem overlapLoop_eq {wrap : ℤ → ℤ} {tau : K} {minPoints : ℤ}
    {load : Nat → Except PyErr (List (ℤ × ℤ) × List (List K))} (l : List (Nat × Nat)) :
    ∀ {s s' : OverlapState K}, HeldOk load s.held1 → HeldOk load s.held2 →
    l.foldlM (overlapStep wrap tau minPoints load) s = .ok s' →
    ∃ os : List (Option OverlapGroup), l.mapM (pairGroup wrap tau minPoints load) = .ok os ∧
      s'.groups = s.groups ++ (List.zipWith (fun p o => Option.map (fun g => (p, g)) o) l os).reduceOption := by
  induction l with
  | nil =>
    intro s s' _ _ h
    simp only [List.foldlM_nil, pure, Except.pure, Except.ok.injEq] at h
    subst h
    exact ⟨[], rfl, by simp [List.reduceOption]⟩
  | cons p l ih =>
    intro s s' h1 h2 h
    rw [List.foldlM_cons] at h
    cases e : overlapStep wrap tau minPoints load s p with
    | error er => rw [e] at h; simp [Bind.bind, Except.bind] at h
    | ok s1 =>
      rw [e] at h
      obtain ⟨g1, g2, o, ho, hg⟩ := overlapStep_eq h1 h2 e
      obtain ⟨os, hos, hg'⟩ := ih g1 g2 h
      refine ⟨o :: os, ?_, ?_⟩
      · rw [List.mapM_cons, ho, hos]; rfl
      · rw [hg', hg, List.append_assoc]
        congr 1
        cases o <;> simp [List.reduceOption]

theorem overlapStep_ok {wrap : ℤ → ℤ} {tau : K} {minPoints : ℤ}
    {load : Nat → Except PyErr (List (ℤ × ℤ) × List (List K))} {s : OverlapState K}
    {pair : Nat × Nat} {o : Option OverlapGroup} (h1 : HeldOk load s.held1) (h2 : HeldOk load s.held2)
    (h : pairGroup wrap tau minPoints load pair = .ok o) :
    ∃ s', overlapStep wrap tau minPoints load s pair = .ok s' := by
  unfold overlapStep
  rw [refresh_eq h1, refresh_eq h2]
  unfold pairGroup at h
  cases e1 : load pair.1 with
  | error e => rw [e1] at h; simp [Bind.bind, Except.bind] at h
  | ok d1 =>
  cases e2 : load pair.2 with
  | error e => rw [e1, e2] at h; simp [Bind.bind, Except.bind] at h
  | ok d2 =>
  obtain ⟨p1, u1⟩ := d1
  obtain ⟨p2, u2⟩ := d2
  rw [e1, e2] at h
  simp only [Bind.bind, Except.bind, pure, Except.pure] at h ⊢
  cases e3 : findCommonPoints wrap p1 p2 with
  | error e => rw [e3] at h; simp at h
  | ok c =>
  obtain ⟨c1, c2⟩ := c
  rw [e3] at h
  simp only at h ⊢
  by_cases hm : (c1.length : ℤ) < minPoints
  · rw [if_pos hm]; exact ⟨_, rfl⟩
  · rw [if_neg hm] at h ⊢
    cases e4 : pairwiseDeciles tau (selectColumns u1 c1) (selectColumns u2 c2) with
    | error e => rw [e4] at h; simp at h
    | ok st => exact ⟨_, rfl⟩

theorem overlapLoop_ok {wrap : ℤ → ℤ} {tau : K} {minPoints : ℤ}
    {load : Nat → Except PyErr (List (ℤ × ℤ) × List (List K))} (l : List (Nat × Nat)) :
    ∀ {s : OverlapState K}, HeldOk load s.held1 → HeldOk load s.held2 →
    (∀ p ∈ l, ∃ o, pairGroup wrap tau minPoints load p = .ok o) →
    ∃ s', l.foldlM (overlapStep wrap tau minPoints load) s = .ok s' := by
  induction l with
  | nil => intro s _ _ _; exact ⟨s, rfl⟩
  | cons p l ih =>
    intro s h1 h2 h
    obtain ⟨o, ho⟩ := h p List.mem_cons_self
    obtain ⟨s1, hs1⟩ := overlapStep_ok h1 h2 ho
    obtain ⟨g1, g2, _⟩ := overlapStep_eq h1 h2 hs1
    obtain ⟨s', hs'⟩ := ih g1 g2 fun p hp => h p (List.mem_cons_of_mem _ hp)
    exact ⟨s', by rw [List.foldlM_cons, hs1]; exact hs'⟩

/-- The pixels of a tile file in image coordinates. -/
def Spec.imagePoints (f : TileFile K) (b : BBox) : List (ℤ × ℤ) :=
  f.points.map fun p => (p.1 + b.xmin, p.2 + b.ymin)

/-- The phase of a tile file with its offset per interferogram added. -/
def Spec.imagePhase (f : TileFile K) : List (List K) :=
  List.zipWith (fun row off => row.map (· + off)) f.uw f.phaseOffset

open Spec

theorem commonPoints_count {c1 c2 : List (ℤ × ℤ)} {ii jj : List Nat}
    (h : findCommonPoints id c1 c2 = .ok (ii, jj)) :
    ii.length = (c1.toFinset ∩ c2.toFinset).card ∧ ∃ ps : List (ℤ × ℤ),
      ps.Pairwise RowMajorLt ∧ (∀ p, p ∈ ps ↔ p ∈ c1 ∧ p ∈ c2) ∧
      ii.map (c1[·]?) = ps.map some ∧ jj.map (c2[·]?) = ps.map some := by
  obtain ⟨h1, h2⟩ := C37_common_points c1 c2
  by_cases hc : c1 ≠ [] ∧ c2 ≠ [] ∧ ∀ p ∈ c1 ++ c2, 0 ≤ p.1 ∧ 0 ≤ p.2
  · obtain ⟨ii', jj', e, ps, a1, a2, a3, a4⟩ := h2 hc
    rw [e] at h
    simp only [Except.ok.injEq, Prod.mk.injEq] at h
    obtain ⟨rfl, rfl⟩ := h
    refine ⟨?_, ps, a1, a2, a3, a4⟩
    have hl : ii'.length = ps.length := by simpa using congrArg List.length a3
    have hnd : ps.Nodup := a1.imp (by
      rintro p q (h | h) rfl
      · exact lt_irrefl _ h
      · exact lt_irrefl _ h.2)
    rw [hl, ← List.toFinset_card_of_nodup hnd]
    congr 1
    ext p
    simp [a2]
  · rw [h1 hc] at h; simp at h

theorem reduceOption_none {α : Type} (l : List (Option α)) : (none :: l).reduceOption = l.reduceOption := rfl

theorem reduceOption_some {α : Type} (a : α) (l : List (Option α)) :
    (some a :: l).reduceOption = a :: l.reduceOption := rfl

theorem reduceOption_pairs {l : List (Nat × Nat)} {os : List (Option OverlapGroup)}
    (hl : os.length = l.length) :
    ((List.zipWith (fun p o => Option.map (fun g => (p, g)) o) l os).reduceOption.map Prod.fst).Sublist l ∧
    ∀ p g, (p, g) ∈ (List.zipWith (fun p o => Option.map (fun g => (p, g)) o) l os).reduceOption ↔
      ∃ k : Nat, l[k]? = some p ∧ os[k]? = some (some g) := by
  induction l generalizing os with
  | nil => simp [List.reduceOption]
  | cons a l ih =>
    cases os with
    | nil => simp at hl
    | cons o os =>
      obtain ⟨i1, i2⟩ := ih (os := os) (by simpa using hl)
      have hk : ∀ p g, (∃ k : Nat, (a :: l)[k]? = some p ∧ (o :: os)[k]? = some (some g)) ↔
          (a = p ∧ o = some g) ∨ ∃ k : Nat, l[k]? = some p ∧ os[k]? = some (some g) := by
        intro p g
        constructor
        · rintro ⟨k, h1, h2⟩
          cases k with
          | zero => left; exact ⟨by simpa using h1, by simpa using h2⟩
          | succ k => right; exact ⟨k, by simpa using h1, by simpa using h2⟩
        · rintro (⟨rfl, rfl⟩ | ⟨k, h1, h2⟩)
          · exact ⟨0, rfl, rfl⟩
          · exact ⟨k + 1, by simpa using h1, by simpa using h2⟩
      cases o with
      | none =>
        simp only [List.zipWith_cons_cons, Option.map_none, reduceOption_none]
        refine ⟨i1.cons a, fun p g => ?_⟩
        rw [i2, hk]; simp
      | some g0 =>
        simp only [List.zipWith_cons_cons, Option.map_some, reduceOption_some, List.map_cons]
        refine ⟨i1.cons_cons a, fun p g => ?_⟩
        rw [List.mem_cons, i2, hk]
        simp only [Prod.mk.injEq, Option.some.injEq]
        constructor
        · rintro (⟨rfl, rfl⟩ | h)
          · exact Or.inl ⟨rfl, rfl⟩
          · exact Or.inr h
        · rintro (⟨rfl, rfl⟩ | h)
          · exact Or.inl ⟨rfl, rfl⟩
          · exact Or.inr h

/-- C53. The overlap file lists, in the order of the candidate pairs and without repetition,
exactly the pairs of intersecting tiles with at least `min_overlap_points` common pixels; for
each of them the stored index arrays pick the common pixels (each once, row-major) from the
points of the two tiles, and the stored statistics are the truncated deciles of the phase
differences there. -/
theorem C53_recorded (tau : K) (minPoints : ℤ) (cc : Nat → List (Nat × Nat) → List Nat)
    (tiles : TileSet) (files : Nat → Except PyErr (TileFile K)) (f : OverlapFile)
    (h : phasediffDeciles id tau minPoints cc tiles files = .ok (some f)) :
    f.overlaps.Sublist tiles.getOverlaps ∧ f.overlaps.Nodup ∧
    f.labels = cc tiles.tiles.length f.overlaps ∧
    ∀ i j, (i, j) ∈ tiles.getOverlaps → ∃ bi bj fi fj, tiles.tiles[i]? = some bi ∧
      tiles.tiles[j]? = some bj ∧ files i = .ok fi ∧ files j = .ok fj ∧
      ((i, j) ∈ f.overlaps ↔
        minPoints ≤ ((imagePoints fi bi).toFinset ∩ (imagePoints fj bj).toFinset).card) ∧
      ((i, j) ∈ f.overlaps → ∃ c1 c2 st, commonOverlap f i j = .ok (c1, c2) ∧
        ((i, j), ⟨c1, c2, st.map fun r => r.map pyInt⟩) ∈ f.groups ∧
        pairwiseDeciles tau (selectColumns (imagePhase fi) c1) (selectColumns (imagePhase fj) c2) = .ok st ∧
        ∃ ps : List (ℤ × ℤ), ps.Pairwise RowMajorLt ∧
          (∀ p, p ∈ ps ↔ p ∈ imagePoints fi bi ∧ p ∈ imagePoints fj bj) ∧
          c1.map ((imagePoints fi bi)[·]?) = ps.map some ∧
          c2.map ((imagePoints fj bj)[·]?) = ps.map some) := by
  unfold phasediffDeciles at h
  split at h
  · simp at h
  · set load : Nat → Except PyErr (List (ℤ × ℤ) × List (List K)) := fun t => do
      let bb ← (tiles.tiles[t]?).elim (.error .indexError) .ok
      let f ← files t
      pure (loadUwTile f bb) with hload
    simp only at h
    have hloadok : ∀ t d, load t = .ok d → ∃ bb ft, tiles.tiles[t]? = some bb ∧ files t = .ok ft ∧
        d = (imagePoints ft bb, imagePhase ft) := by
      intro t d hd
      rw [hload] at hd
      simp only [Bind.bind, Except.bind, pure, Except.pure] at hd
      cases e1 : tiles.tiles[t]? with
      | none => rw [e1] at hd; simp at hd
      | some bb =>
        rw [e1] at hd
        cases e2 : files t with
        | error e => rw [e2] at hd; simp at hd
        | ok ft =>
          rw [e2] at hd
          simp only [Option.elim_some, Except.ok.injEq] at hd
          exact ⟨bb, ft, rfl, rfl, hd.symm⟩
    cases hs : tiles.getOverlaps.foldlM (overlapStep id tau minPoints load) ⟨none, none, []⟩ with
    | error e => rw [hs] at h; simp [Bind.bind, Except.bind] at h
    | ok s =>
      rw [hs] at h
      simp only [Bind.bind, Except.bind, pure, Except.pure, Except.ok.injEq, Option.some.injEq] at h
      obtain ⟨os, hos, hg⟩ := overlapLoop_eq (load := load) _ (by intro u d hu; simp at hu)
        (by intro u d hu; simp at hu) hs
      rw [List.nil_append] at hg
      have hlen : os.length = tiles.getOverlaps.length := by
        have : ∀ (l : List (Nat × Nat)) (r : List (Option OverlapGroup)),
            l.mapM (pairGroup id tau minPoints load) = .ok r → r.length = l.length := by
          intro l
          induction l with
          | nil => intro r hr; simp [pure, Except.pure] at hr; simp [← hr]
          | cons a l ih =>
            intro r hr
            rw [List.mapM_cons] at hr
            cases e1 : pairGroup id tau minPoints load a with
            | error e => rw [e1] at hr; simp [Bind.bind, Except.bind] at hr
            | ok o =>
              cases e2 : l.mapM (pairGroup id tau minPoints load) with
              | error e => rw [e1, e2] at hr; simp [Bind.bind, Except.bind] at hr
              | ok r' =>
                rw [e1, e2] at hr
                simp only [Bind.bind, Except.bind, pure, Except.pure, Except.ok.injEq] at hr
                rw [← hr, List.length_cons, ih r' e2, List.length_cons]
        exact this _ _ hos
      have hgetos : ∀ (l : List (Nat × Nat)) (r : List (Option OverlapGroup)),
          l.mapM (pairGroup id tau minPoints load) = .ok r →
          ∀ (k : Nat) p, l[k]? = some p → ∃ o, r[k]? = some o ∧ pairGroup id tau minPoints load p = .ok o := by
        intro l
        induction l with
        | nil => intro r _ k p hp; simp at hp
        | cons a l ih =>
          intro r hr k p hp
          rw [List.mapM_cons] at hr
          cases e1 : pairGroup id tau minPoints load a with
          | error e => rw [e1] at hr; simp [Bind.bind, Except.bind] at hr
          | ok o =>
            cases e2 : l.mapM (pairGroup id tau minPoints load) with
            | error e => rw [e1, e2] at hr; simp [Bind.bind, Except.bind] at hr
            | ok r' =>
              rw [e1, e2] at hr
              simp only [Bind.bind, Except.bind, pure, Except.pure, Except.ok.injEq] at hr
              rw [← hr]
              cases k with
              | zero => simp only [List.getElem?_cons_zero, Option.some.injEq] at hp ⊢; subst hp; exact ⟨o, rfl, e1⟩
              | succ k => simp only [List.getElem?_cons_succ] at hp ⊢; exact ih r' e2 k p hp
      obtain ⟨hsub, hmem⟩ := reduceOption_pairs hlen
      rw [← hg] at hsub hmem
      have hfo : f.overlaps = s.groups.map Prod.fst := by rw [← h]
      have hfg : f.groups = s.groups := by rw [← h]
      have hndo := (C25_overlaps tiles).2.2
      have hnd : f.overlaps.Nodup := by rw [hfo]; exact hsub.nodup hndo
      refine ⟨by rw [hfo]; exact hsub, hnd, by rw [← h], ?_⟩
      intro i j hij
      obtain ⟨k, hk, hke⟩ := List.mem_iff_getElem.mp hij
      have hk' : tiles.getOverlaps[k]? = some (i, j) := by rw [List.getElem?_eq_getElem hk, hke]
      obtain ⟨o, hok, hpo⟩ := hgetos _ _ hos k (i, j) hk'
      unfold pairGroup at hpo
      cases e1 : load i with
      | error e => simp only [e1, Bind.bind, Except.bind] at hpo; simp at hpo
      | ok d1 =>
        cases e2 : load j with
        | error e => simp only [e1, e2, Bind.bind, Except.bind] at hpo; simp at hpo
        | ok d2 =>
          obtain ⟨bi, fi, hbi, hfi, hd1⟩ := hloadok i d1 e1
          obtain ⟨bj, fj, hbj, hfj, hd2⟩ := hloadok j d2 e2
          subst hd1; subst hd2
          simp only [e1, e2, Bind.bind, Except.bind] at hpo
          cases e3 : findCommonPoints id (imagePoints fi bi) (imagePoints fj bj) with
          | error e => rw [e3] at hpo; simp at hpo
          | ok c =>
            obtain ⟨c1, c2⟩ := c
            rw [e3] at hpo
            simp only at hpo
            obtain ⟨hcnt, ps, q1, q2, q3, q4⟩ := commonPoints_count e3
            have hin : (i, j) ∈ f.overlaps ↔ ∃ g, o = some g := by
              rw [hfo]
              constructor
              · intro hm
                obtain ⟨⟨p, g⟩, hm, hp⟩ := List.mem_map.mp hm
                simp only at hp
                subst hp
                obtain ⟨k', hk1, hk2⟩ := (hmem (i, j) g).mp hm
                obtain ⟨hlt, he⟩ := List.getElem?_eq_some_iff.mp hk1
                have : k' = k := (hndo.getElem_inj_iff).mp (by rw [he, hke])
                subst this
                rw [hok] at hk2
                exact ⟨g, by simpa using hk2⟩
              · rintro ⟨g, rfl⟩
                exact List.mem_map.mpr ⟨((i, j), g), (hmem _ _).mpr ⟨k, hk', hok⟩, rfl⟩
            refine ⟨bi, bj, fi, fj, hbi, hbj, hfi, hfj, ?_, ?_⟩
            · rw [hin, ← hcnt]
              by_cases hm : (c1.length : ℤ) < minPoints
              · rw [if_pos hm] at hpo
                simp only [pure, Except.pure, Except.ok.injEq] at hpo
                subst hpo
                simp; omega
              · rw [if_neg hm] at hpo
                cases e4 : pairwiseDeciles tau (selectColumns (imagePhase fi) c1) (selectColumns (imagePhase fj) c2) with
                | error e => rw [e4] at hpo; simp at hpo
                | ok st =>
                  rw [e4] at hpo
                  simp only [pure, Except.pure, Except.ok.injEq] at hpo
                  subst hpo
                  simp; omega
            · intro hmm
              obtain ⟨g, hg0⟩ := hin.mp hmm
              subst hg0
              by_cases hm : (c1.length : ℤ) < minPoints
              · rw [if_pos hm] at hpo
                simp [pure, Except.pure] at hpo
              · rw [if_neg hm] at hpo
                cases e4 : pairwiseDeciles tau (selectColumns (imagePhase fi) c1) (selectColumns (imagePhase fj) c2) with
                | error e => rw [e4] at hpo; simp at hpo
                | ok st =>
                  rw [e4] at hpo
                  simp only [pure, Except.pure, Except.ok.injEq, Option.some.injEq] at hpo
                  subst hpo
                  have hgm : ((i, j), ⟨c1, c2, st.map fun r => r.map pyInt⟩) ∈ f.groups := by
                    rw [hfg]; exact (hmem _ _).mpr ⟨k, hk', hok⟩
                  refine ⟨c1, c2, st, ?_, hgm, e4, ps, q1, q2, q3, q4⟩
                  unfold commonOverlap
                  cases hfind : f.groups.find? fun g => decide (g.1 = (i, j)) with
                  | none =>
                    have := List.find?_eq_none.mp hfind _ hgm
                    simp at this
                  | some g =>
                    have h1 := List.mem_of_find?_eq_some hfind
                    have h2 := List.find?_some hfind
                    simp only [decide_eq_true_eq] at h2
                    have hinj : g = ((i, j), (⟨c1, c2, st.map fun r => r.map pyInt⟩ : OverlapGroup)) := by
                      refine List.inj_on_of_nodup_map (f := Prod.fst) ?_ h1 hgm h2
                      rw [hfg, ← hfo]; exact hnd
                    rw [hinj]

theorem getD_of_map_some {α : Type} {c : List Nat} {l ps : List α} (h : c.map (l[·]?) = ps.map some)
    {k : Nat} (hk : k < c.length) : ∃ p, ps[k]? = some p ∧ l[c.getD k 0]? = some p := by
  have hlen : c.length = ps.length := by simpa using congrArg List.length h
  have h1 := congrArg (fun x => x[k]?) h
  simp only [List.getElem?_map, List.getElem?_eq_getElem hk,
    List.getElem?_eq_getElem (show k < ps.length by omega), Option.map_some, Option.some.injEq] at h1
  refine ⟨ps[k], List.getElem?_eq_getElem _, ?_⟩
  rw [List.getD_eq_getElem _ _ hk, h1]

/-- The phase of point `n` of a tile file in interferogram `i`, offset included. -/
def Spec.phaseAt (f : TileFile K) (i n : Nat) : K := ((imagePhase f).getD i []).getD n 0

/-- C53. The overlap stage completes: for at least two tiles whose files exist and hold at
least one pixel each and the same number of interferograms, a minimum overlap of 11 points or
more, and tiles that agree up to whole cycles (fewer than 32768) at common pixels. -/
theorem C53_returns (tau : K) (minPoints : ℤ) (hmin : 11 ≤ minPoints)
    (cc : Nat → List (Nat × Nat) → List Nat) (tiles : TileSet)
    (files : Nat → Except PyErr (TileFile K)) (hn : tiles.tiles.length ≠ 1) (nb : Nat)
    (hfiles : ∀ (t : Nat) b, tiles.tiles[t]? = some b → ∃ f, files t = .ok f ∧
      imagePoints f b ≠ [] ∧ (∀ p ∈ imagePoints f b, 0 ≤ p.1 ∧ 0 ≤ p.2) ∧ (imagePhase f).length = nb)
    (hcyc : ∀ (t t' : Nat) b b' f f', t < t' → tiles.tiles[t]? = some b → tiles.tiles[t']? = some b' →
      files t = .ok f → files t' = .ok f' → ∀ i < nb, ∀ (n n' : Nat) p, (imagePoints f b)[n]? = some p →
      (imagePoints f' b')[n']? = some p → ∃ k, NearCycles ((phaseAt f' i n' - phaseAt f i n) / tau) k) :
    ∃ f, phasediffDeciles id tau minPoints cc tiles files = .ok (some f) := by
  unfold phasediffDeciles
  rw [if_neg hn]
  set load : Nat → Except PyErr (List (ℤ × ℤ) × List (List K)) := fun t => do
      let bb ← (tiles.tiles[t]?).elim (.error .indexError) .ok
      let f ← files t
      pure (loadUwTile f bb) with hload
  simp only
  obtain ⟨s', hs'⟩ := overlapLoop_ok (wrap := id) (tau := tau) (minPoints := minPoints) (load := load)
    tiles.getOverlaps (s := ⟨none, none, []⟩) (by intro u d hu; simp at hu) (by intro u d hu; simp at hu) (by
    rintro ⟨t1, t2⟩ hp
    obtain ⟨hlt, b1, b2, hb1, hb2, _⟩ := ((C25_overlaps tiles).1 t1 t2).mp hp
    obtain ⟨f1, hf1, hne1, hnn1, hl1⟩ := hfiles t1 b1 hb1
    obtain ⟨f2, hf2, hne2, hnn2, hl2⟩ := hfiles t2 b2 hb2
    have hL : ∀ (t : Nat) b f, tiles.tiles[t]? = some b → files t = .ok f →
        load t = .ok (imagePoints f b, imagePhase f) := by
      intro t b f h1 h2
      simp only [hload, h1, h2, Option.elim_some, Bind.bind, Except.bind, pure, Except.pure]
      rfl
    obtain ⟨c1, c2, hc, ps, _, hps, m1, m2⟩ := (C37_common_points (imagePoints f1 b1) (imagePoints f2 b2)).2
      ⟨hne1, hne2, by
        intro p hp
        rcases List.mem_append.mp hp with h | h
        · exact hnn1 p h
        · exact hnn2 p h⟩
    have hlen : c1.length = ps.length := by simpa using congrArg List.length m1
    have hlen2 : c2.length = ps.length := by simpa using congrArg List.length m2
    unfold pairGroup
    simp only [hL t1 b1 f1 hb1 hf1, hL t2 b2 f2 hb2 hf2, hc, Bind.bind, Except.bind]
    by_cases hm : (c1.length : ℤ) < minPoints
    · rw [if_pos hm]; exact ⟨_, rfl⟩
    · rw [if_neg hm]
      obtain ⟨st, hst⟩ := (C38_accepts tau (selectColumns (imagePhase f1) c1)
        (selectColumns (imagePhase f2) c2)).1.mpr ⟨nb, c1.length, by simp [selectColumns, hl1],
          by simp [selectColumns, hl2, hlen, hlen2], by omega, by
          intro r c hr hcc
          obtain ⟨p, hp1, hp2⟩ := getD_of_map_some m1 hcc
          obtain ⟨p', hp1', hp2'⟩ := getD_of_map_some m2 (k := c) (by omega)
          rw [hp1] at hp1'
          simp only [Option.some.injEq] at hp1'
          subst hp1'
          exact hcyc t1 t2 b1 b2 f1 f2 hlt hb1 hb2 hf1 hf2 r hr _ _ p hp2 hp2'⟩
      rw [hst]
      exact ⟨_, rfl⟩)
  rw [hs']
  exact ⟨_, rfl⟩

end

open Spec

/-- Non-vacuity of C53: two tiles of 12 pixels in one row sharing 11 of them, one interferogram,
the second tile one cycle higher. -/
example : ∃ f, phasediffDeciles id (1 : ℚ) 11 (fun _ _ => [0, 0])
    ⟨(1, 13), [⟨0, 0, 1, 12⟩, ⟨0, 1, 1, 13⟩]⟩
    (fun t => if t = 0 then .ok ⟨[List.replicate 12 0], (List.range 12).map fun n : Nat => ((0 : ℤ), (n : ℤ)), ⟨0, 0, 1, 12⟩, [0]⟩
      else .ok ⟨[List.replicate 12 (1/2)], (List.range 12).map fun n : Nat => ((0 : ℤ), (n : ℤ)), ⟨0, 1, 1, 13⟩, [1/2]⟩) =
      .ok (some f) := by
  refine C53_returns 1 11 le_rfl _ _ _ (by simp) 1 ?_ ?_
  · intro t b hb
    match t, hb with
    | 0, hb =>
      refine ⟨_, rfl, ?_⟩
      simp only [List.getElem?_cons_zero, Option.some.injEq] at hb
      subst hb
      decide
    | 1, hb =>
      refine ⟨_, rfl, ?_⟩
      simp only [List.getElem?_cons_succ, List.getElem?_cons_zero, Option.some.injEq] at hb
      subst hb
      decide
    | t + 2, hb => simp at hb
  · intro t t' b b' f f' htt hb hb' hf hf' i hi n n' p hp hp'
    match t, t', htt, hb, hb', hf, hf' with
    | 0, 1, _, hb, hb', hf, hf' =>
      simp only [List.getElem?_cons_zero, List.getElem?_cons_succ, Option.some.injEq] at hb hb'
      subst hb; subst hb'
      simp only [if_true, Except.ok.injEq, Nat.one_ne_zero, if_false] at hf hf'
      subst hf; subst hf'
      have h1 : n < 12 := by simpa [imagePoints] using (List.getElem?_eq_some_iff.mp hp).1
      have h2 : n' < 12 := by simpa [imagePoints] using (List.getElem?_eq_some_iff.mp hp').1
      have hi0 : i = 0 := by omega
      subst hi0
      refine ⟨1, by decide, by decide, ?_⟩
      have e1 : phaseAt (K := ℚ) ⟨[List.replicate 12 0], (List.range 12).map fun n : Nat => ((0 : ℤ), (n : ℤ)), ⟨0, 0, 1, 12⟩, [0]⟩ 0 n = 0 := by
        interval_cases n <;> decide +kernel
      have e2 : phaseAt (K := ℚ) ⟨[List.replicate 12 (1/2)], (List.range 12).map fun n : Nat => ((0 : ℤ), (n : ℤ)), ⟨0, 1, 1, 13⟩, [1/2]⟩ 0 n' = 1 := by
        interval_cases n' <;> decide +kernel
      rw [e1, e2]
      norm_num
    | t + 1, 1, htt, _, _, _, _ => omega
    | _, t' + 2, _, _, hb', _, _ => simp at hb'

end Spurt
