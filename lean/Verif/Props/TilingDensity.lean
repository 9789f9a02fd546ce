import Verif.Props.Tiling

/-!
# Properties C27–C30: density tiles, dilation, JSON, tile numbers
-/

namespace Spurt
open Spec

section
variable {K : Type} [Field K] [LinearOrder K] [IsStrictOrderedRing K] [FloorRing K]

theorem splitToTile_eq {shape : ℤ × ℤ} {b : (K × K) × (K × K)}
    (h : SubBox b ((0, (shape.1 : K)), (0, (shape.2 : K)))) : splitToTile shape b = floorBox b := by
  obtain ⟨h1, h2, h3, h4, h5, h6⟩ := h
  simp only at h1 h3 h4 h6
  unfold splitToTile floorBox
  rw [max_eq_right h1, max_eq_right h4, min_eq_right h3, min_eq_right h6, pyInt_of_nonneg h1,
    pyInt_of_nonneg h4, pyInt_of_nonneg (h1.trans h2), pyInt_of_nonneg (h4.trans h5)]

theorem density_ok {F : Type} {sc : Scoring K F} {points : List (ℤ × ℤ)} {shape : ℤ × ℤ}
    {maxTiles : ℤ} {t : TileSet} (hs1 : 0 ≤ shape.1) (hs2 : 0 ≤ shape.2)
    (hp : ∀ p ∈ points, PixelOf shape p.1 p.2)
    (h : createTilesDensity sc points shape maxTiles = .ok t) :
    1 ≤ maxTiles ∧ t.shape = shape ∧
      t.tiles.length = Nat.sqrt maxTiles.toNat * Nat.sqrt maxTiles.toNat ∧
      PartitionsImage shape t.tiles := by
  unfold createTilesDensity at h
  split at h
  · simp at h
  split at h
  · simp at h
  rename_i hmt
  have hmt : 1 ≤ maxTiles := by omega
  refine ⟨hmt, ?_⟩
  have hk := sqrt_pos hmt
  simp only at h
  split at h
  · rename_i h1
    simp only [Except.ok.injEq] at h
    subst h
    exact ⟨rfl, by rw [h1]; rfl, single_partitions hs1 hs2⟩
  · rename_i h1
    simp only [Bind.bind, Except.bind] at h
    set m := Nat.sqrt maxTiles.toNat * Nat.sqrt maxTiles.toNat with hm
    have hm1 : 1 ≤ m := Nat.mul_pos hk hk
    cases hsp : splitRectangle sc m (points.map fun p => ((p.1 : K), (p.2 : K)))
        (((0 : K), ((shape.1 : ℤ) : K)), ((0 : K), ((shape.2 : ℤ) : K))) m with
    | error e => rw [hsp] at h; simp at h
    | ok out =>
      rw [hsp] at h
      simp only [pure, Except.pure, Except.ok.injEq] at h
      subst h
      have hin : InBounds (points.map fun p => ((p.1 : K), (p.2 : K)))
          (((0 : K), ((shape.1 : ℤ) : K)), ((0 : K), ((shape.2 : ℤ) : K))) := by
        intro q hq
        obtain ⟨p, hpm, rfl⟩ := List.mem_map.mp hq
        have := hp p hpm
        refine ⟨?_, ?_, ?_, ?_⟩ <;> simp only
        · exact_mod_cast this.1
        · exact_mod_cast this.2.1.le
        · exact_mod_cast this.2.2.1
        · exact_mod_cast this.2.2.2.le
      have key := fun r c => split_count sc r c m _ _ m out hm1
        (show (0 : K) ≤ ((shape.1 : ℤ) : K) by exact_mod_cast hs1)
        (show (0 : K) ≤ ((shape.2 : ℤ) : K) by exact_mod_cast hs2) hin hsp
      have hmap : out.map (splitToTile shape) = out.map floorBox :=
        List.map_congr_left fun b hb => splitToTile_eq ((key 0 0).2.1 b hb)
      have hfb : floorBox (((0 : K), ((shape.1 : ℤ) : K)), ((0 : K), ((shape.2 : ℤ) : K))) =
          ⟨0, 0, shape.1, shape.2⟩ := by simp [floorBox]
      refine ⟨rfl, by simp [(key 0 0).1], ?_, ?_⟩
      · intro b hb
        simp only [hmap] at hb
        obtain ⟨q, hq, rfl⟩ := List.mem_map.mp hb
        obtain ⟨a1, a2, a3, a4, a5, a6⟩ := (key 0 0).2.1 q hq
        simp only at a1 a3 a4 a6
        exact ⟨Int.floor_nonneg.mpr a1, Int.floor_le_floor a2,
          by simpa [floorBox] using Int.floor_le_floor a3,
          Int.floor_nonneg.mpr a4, Int.floor_le_floor a5,
          by simpa [floorBox] using Int.floor_le_floor a6⟩
      · intro r c hpix
        apply exactlyOne_of_count
        simp only [hmap]
        rw [(key r c).2.2, hfb, if_pos]
        exact hpix

/-- C27. Whenever `create_tiles_density` returns, for points inside the image, the tiles
are as many as the largest square not above `max_tiles` and partition the image, whatever
the scores of the cuts. -/
theorem C27_density_partition {F : Type} (sc : Scoring K F) (points : List (ℤ × ℤ))
    (shape : ℤ × ℤ) (maxTiles : ℤ) (hs1 : 0 < shape.1) (hs2 : 0 < shape.2)
    (hp : ∀ p ∈ points, PixelOf shape p.1 p.2) (t : TileSet)
    (h : createTilesDensity sc points shape maxTiles = .ok t) :
    t.shape = shape ∧ PartitionsImage shape t.tiles ∧
      ∃ k : Nat, t.tiles.length = k * k ∧ (k * k : ℤ) ≤ maxTiles ∧ maxTiles < (k + 1) * (k + 1) := by
  obtain ⟨hm, h1, h2, h3⟩ := density_ok hs1.le hs2.le hp h
  refine ⟨h1, h3, Nat.sqrt maxTiles.toNat, h2, ?_, ?_⟩
  · have := Nat.sqrt_le maxTiles.toNat
    have h4 : ((Nat.sqrt maxTiles.toNat * Nat.sqrt maxTiles.toNat : ℕ) : ℤ) ≤ maxTiles.toNat := by
      exact_mod_cast this
    push_cast at h4; omega
  · have := Nat.lt_succ_sqrt maxTiles.toNat
    have h4 : ((maxTiles.toNat : ℕ) : ℤ) <
        (((Nat.sqrt maxTiles.toNat + 1) * (Nat.sqrt maxTiles.toNat + 1) : ℕ) : ℤ) := by
      exact_mod_cast this
    push_cast at h4; omega

/-- C27. The recursion of `split_rectangle` always ends. -/
theorem C27_density_terminates {F : Type} (sc : Scoring K F) (points : List (ℤ × ℤ))
    (shape : ℤ × ℤ) (maxTiles : ℤ) :
    createTilesDensity sc points shape maxTiles ≠ .error .nonTermination := by
  unfold createTilesDensity
  split
  · simp
  split
  · simp
  simp only
  split
  · simp
  rename_i hmt _
  have hk := sqrt_pos (show 1 ≤ maxTiles by omega)
  have := split_terminates sc _ (points.map fun p => ((p.1 : K), (p.2 : K)))
    (((0 : K), ((shape.1 : ℤ) : K)), ((0 : K), ((shape.2 : ℤ) : K))) _
    (Nat.mul_pos hk hk) le_rfl
  intro h
  simp only [Bind.bind, Except.bind] at h
  split at h
  · rename_i e he
    simp only [Except.error.injEq] at h
    subst h
    exact this he
  · simp [pure, Except.pure] at h

/-! When it does return. -/

theorem filter_le_length {z : List K} (hz : z.Pairwise (· < ·)) (j : Nat) (c : K) (hj : j ≤ z.length)
    (h1 : ∀ i (_ : i < z.length), i < j → z[i] ≤ c) (h2 : ∀ i (_ : i < z.length), j ≤ i → c < z[i]) :
    (z.filter fun x => decide (x ≤ c)).length = j := by
  have : z.filter (fun x => decide (x ≤ c)) = z.take j := by
    conv_lhs => rw [← List.take_append_drop j z]
    rw [List.filter_append, List.filter_eq_self.mpr, List.filter_eq_nil_iff.mpr, List.append_nil]
    · intro a ha
      obtain ⟨i, hi, rfl⟩ := List.mem_iff_getElem.mp ha
      rw [List.length_drop] at hi
      rw [List.getElem_drop]
      simpa using h2 (j + i) (by omega) (by omega)
    · intro a ha
      obtain ⟨i, hi, rfl⟩ := List.mem_iff_getElem.mp ha
      rw [List.length_take] at hi
      rw [List.getElem_take]
      simpa using h1 i (by omega) (by omega)
  rw [this, List.length_take]; omega

/-- Cutting distinct values at cut number `i`: how many lie below. -/
theorem cut_counts {xs : List K} (hnd : xs.Nodup) {m : Nat} {bd : K × K} {cuts lens : List K}
    (hm : 2 ≤ m) (h : getSplits (xs.mergeSort (· ≤ ·)) m bd = .ok (cuts, lens)) {i : Nat} (hi1 : 1 ≤ i)
    (hi2 : i ≤ m - 1) :
    i ≤ (xs.filter fun x => decide (x ≤ cuts.getD i 0)).length ∧
    m - i ≤ (xs.filter fun x => !decide (x ≤ cuts.getD i 0)).length := by
  set z := xs.mergeSort (· ≤ ·) with hz
  have hperm : z.Perm xs := List.mergeSort_perm _ _
  have hzs : z.Pairwise (· ≤ ·) := by
    have := List.pairwise_mergeSort (le := fun a b : K => decide (a ≤ b))
      (by intro a b c h1 h2; simp only [decide_eq_true_eq] at *; exact h1.trans h2)
      (by intro a b; simp only [Bool.or_eq_true, decide_eq_true_eq]; exact le_total a b) xs
    rw [hz]
    exact this.imp (by intro a b h; simpa using h)
  have hznd : z.Nodup := hperm.nodup_iff.mpr hnd
  have hzlt : z.Pairwise (· < ·) :=
    (List.pairwise_and_iff.mpr ⟨hzs, hznd⟩).imp fun h => lt_of_le_of_ne h.1 h.2
  unfold getSplits at h
  simp only at h
  split at h
  · simp at h
  rename_i hn
  simp only [Except.ok.injEq, Prod.mk.injEq] at h
  obtain ⟨hc, _⟩ := h
  set n := z.length / m with hnn
  have hn1 : 1 ≤ n := Nat.one_le_iff_ne_zero.mpr hn
  have hlm : n * m ≤ z.length := Nat.div_mul_le_self _ _
  obtain ⟨k, rfl⟩ : ∃ k, i = k + 1 := ⟨i - 1, by omega⟩
  have hk : k < m - 1 := by omega
  have hkn : (k + 1) * n + n ≤ z.length := by
    have : n * (k + 2) ≤ n * m := Nat.mul_le_mul_left _ (by omega)
    nlinarith
  have hk1 : k * n + n - 1 + 1 = (k + 1) * n := by
    have : (k + 1) * n = k * n + n := by ring
    omega
  have e1 : k * n + n - 1 < z.length := by omega
  have e2 : (k + 1) * n < z.length := by omega
  have hcut : cuts.getD (k + 1) 0 = (z[k * n + n - 1] + z[(k + 1) * n]) / 2 := by
    rw [← hc, List.cons_append, List.getD_cons_succ, List.getD_eq_getElem?_getD,
      List.getElem?_append_left (by simpa using hk), List.getElem?_map, List.getElem?_range hk]
    simp [List.getD_eq_getElem?_getD, e1, e2]
  have hlt : z[k * n + n - 1] < z[(k + 1) * n] :=
    List.pairwise_iff_getElem.mp hzlt _ _ e1 e2 (by omega)
  have hmono : ∀ a b (ha : a < z.length) (hb : b < z.length), a ≤ b → z[a] ≤ z[b] := by
    intro a b ha hb hab
    rcases eq_or_lt_of_le hab with h | h
    · subst h; exact le_rfl
    · exact (List.pairwise_iff_getElem.mp hzlt _ _ ha hb h).le
  have hlen : (z.filter fun x => decide (x ≤ cuts.getD (k + 1) 0)).length = (k + 1) * n := by
    apply filter_le_length hzlt _ _ e2.le
    · intro a ha hak
      have := hmono a (k * n + n - 1) ha e1 (by omega)
      rw [hcut]; linarith
    · intro a ha hak
      have := hmono ((k + 1) * n) a e2 ha hak
      rw [hcut]; linarith
  have hl1 : (xs.filter fun x => decide (x ≤ cuts.getD (k + 1) 0)).length = (k + 1) * n := by
    rw [← hlen]; exact ((hperm.filter _).length_eq).symm
  have htot : (xs.filter fun x => decide (x ≤ cuts.getD (k + 1) 0)).length +
      (xs.filter fun x => !decide (x ≤ cuts.getD (k + 1) 0)).length = xs.length := by
    rw [List.length_eq_length_filter_add (l := xs) (fun x => decide (x ≤ cuts.getD (k + 1) 0))]
  have hxl : xs.length = z.length := hperm.length_eq.symm
  rw [hl1] at htot ⊢
  constructor
  · nlinarith
  · have h5 : (m - (k + 1)) + (k + 1) * n ≤ n * m := by
      obtain ⟨d, hd⟩ : ∃ d, m = (k + 1) + d := ⟨m - (k + 1), by omega⟩
      have : m - (k + 1) = d := by omega
      rw [this, hd]
      nlinarith
    omega

/-- The choice of the best split is possible. -/
theorem findBestSplit_returns {F : Type} {sc : Scoring K F}
    (harg : ∀ l : List F, l ≠ [] → sc.argmin l < l.length) {a b : List K} {m : Nat}
    (ha : 2 ≤ a.length) : ∃ r, findBestSplit sc a b m = .ok r := by
  unfold findBestSplit
  simp only
  set l := (List.range' 1 (a.length - 1)).map fun i =>
    sc.add (sc.score (a.take i) b i) (sc.score (a.drop i) b (m - i)) with hl
  have hne : l ≠ [] := by
    intro h
    have : l.length = 0 := by rw [h]; rfl
    rw [hl] at this; simp at this; omega
  rw [if_neg hne, List.getElem?_eq_getElem (harg l hne)]
  exact ⟨_, rfl⟩

theorem split_returns {F : Type} (sc : Scoring K F)
    (harg : ∀ l : List F, l ≠ [] → sc.argmin l < l.length) : ∀ (fuel : Nat) (points : List (K × K))
    (bd : (K × K) × (K × K)) (m : Nat), 1 ≤ m → m ≤ fuel → m ≤ points.length →
    (points.map Prod.fst).Nodup → (points.map Prod.snd).Nodup →
    ∃ out, splitRectangle sc fuel points bd m = .ok out := by
  intro fuel
  induction fuel with
  | zero => intro points bd m h1 h2; omega
  | succ fuel ih =>
    intro points bd m hm0 hf hlen hnx hny
    by_cases h1 : m = 1
    · exact ⟨[bd], by rw [splitRectangle, if_pos h1]⟩
    rw [splitRectangle, if_neg h1, if_neg (by rintro rfl; simp at hlen; omega)]
    have hgs : ∀ (f : K × K → K) (b : K × K), ∃ c l,
        getSplits ((points.map f).mergeSort (· ≤ ·)) m b = .ok (c, l) := by
      intro f b
      unfold getSplits
      simp only
      rw [if_neg]
      · exact ⟨_, _, rfl⟩
      · rw [(List.mergeSort_perm _ _).length_eq, List.length_map]
        have := Nat.div_pos hlen hm0
        omega
    obtain ⟨cx, lx, hx⟩ := hgs Prod.fst bd.1
    obtain ⟨cy, ly, hy⟩ := hgs Prod.snd bd.2
    obtain ⟨_, _, hxl, _⟩ := getSplits_ok hx hm0
    obtain ⟨_, _, hyl, _⟩ := getSplits_ok hy hm0
    obtain ⟨⟨xi, xs⟩, hbx⟩ := findBestSplit_returns harg (a := lx) (b := ly) (m := m) (by omega)
    obtain ⟨⟨yi, ys⟩, hby⟩ := findBestSplit_returns harg (a := ly) (b := lx) (m := m) (by omega)
    have hxi := findBestSplit_ok hbx
    have hyi := findBestSplit_ok hby
    rw [hxl] at hxi
    rw [hyl] at hyi
    simp only [Bind.bind, Except.bind, hx, hy, hbx, hby]
    have sub : ∀ (p : K × K → Bool) (f : K × K → K), (points.map f).Nodup →
        ((points.filter p).map f).Nodup := by
      intro p f hn
      exact hn.sublist (List.Sublist.map f List.filter_sublist)
    have flen : ∀ (f : K × K → K) (q : K → Bool), (points.filter fun p => q (f p)).length =
        ((points.map f).filter q).length := by
      intro f q
      rw [List.filter_map, List.length_map]; rfl
    split
    · obtain ⟨c1, c2⟩ := cut_counts hnx (by omega) hx hxi.1 hxi.2
      obtain ⟨l, hl⟩ := ih (points.filter fun p => p.1 ≤ cx.getD xi 0)
        ((bd.1.1, cx.getD xi 0), bd.2) xi hxi.1 (by omega)
        (by rw [flen Prod.fst (fun x => decide (x ≤ cx.getD xi 0))]; exact c1)
        (sub _ _ hnx) (sub _ _ hny)
      obtain ⟨r, hr⟩ := ih (points.filter fun p => ¬ p.1 ≤ cx.getD xi 0)
        ((cx.getD xi 0, bd.1.2), bd.2) (m - xi) (by omega) (by omega)
        (by
          have := flen Prod.fst (fun x => !decide (x ≤ cx.getD xi 0))
          simp only [decide_not]
          rw [this]; exact c2)
        (sub _ _ hnx) (sub _ _ hny)
      rw [hl, hr]
      exact ⟨_, rfl⟩
    · obtain ⟨c1, c2⟩ := cut_counts hny (by omega) hy hyi.1 hyi.2
      obtain ⟨l, hl⟩ := ih (points.filter fun p => p.2 ≤ cy.getD yi 0)
        (bd.1, (bd.2.1, cy.getD yi 0)) yi hyi.1 (by omega)
        (by rw [flen Prod.snd (fun x => decide (x ≤ cy.getD yi 0))]; exact c1)
        (sub _ _ hnx) (sub _ _ hny)
      obtain ⟨r, hr⟩ := ih (points.filter fun p => ¬ p.2 ≤ cy.getD yi 0)
        (bd.1, (cy.getD yi 0, bd.2.2)) (m - yi) (by omega) (by omega)
        (by
          have := flen Prod.snd (fun x => !decide (x ≤ cy.getD yi 0))
          simp only [decide_not]
          rw [this]; exact c2)
        (sub _ _ hnx) (sub _ _ hny)
      rw [hl, hr]
      exact ⟨_, rfl⟩

/-- C27. `create_tiles_density` refuses shapes without a positive side and tile counts below one,
and for one to three tiles returns the whole image as one tile, whatever the points. -/
theorem C27_density_rejects {F : Type} (sc : Scoring K F) (points : List (ℤ × ℤ))
    (shape : ℤ × ℤ) (maxTiles : ℤ) :
    ((shape.1 ≤ 0 ∧ shape.2 ≤ 0) ∨ maxTiles ≤ 0 →
      createTilesDensity sc points shape maxTiles = .error .valueError) ∧
    ((0 < shape.1 ∨ 0 < shape.2) → 1 ≤ maxTiles → maxTiles ≤ 3 →
      createTilesDensity sc points shape maxTiles = .ok ⟨shape, [⟨0, 0, shape.1, shape.2⟩]⟩) := by
  refine ⟨?_, ?_⟩
  · intro h
    unfold createTilesDensity
    by_cases h1 : shape.1 ≤ 0 ∧ shape.2 ≤ 0
    · rw [if_pos h1]
    · rw [if_neg h1, if_pos (h.resolve_left h1)]
  · intro h h1 h3
    unfold createTilesDensity
    rw [if_neg (by omega), if_neg (by omega)]
    have hk : Nat.sqrt maxTiles.toNat = 1 := by
      have := sqrt_pos h1
      have h2 : Nat.sqrt maxTiles.toNat < 2 := Nat.sqrt_lt.mpr (by omega)
      omega
    simp only [hk, Nat.mul_one, if_pos]
    rfl

/-- Non-vacuity: an empty image is refused; a strip of five pixels is one tile of up to three. -/
example : createTilesDensity (K := ℚ) (F := Unit) ⟨fun _ _ _ => (), fun _ _ => (), fun _ => 0,
      fun _ _ => true⟩ [] (0, 0) 3 = .error .valueError ∧
    createTilesDensity (K := ℚ) (F := Unit) ⟨fun _ _ _ => (), fun _ _ => (), fun _ => 0,
      fun _ _ => true⟩ [] (1, 5) 3 = .ok ⟨(1, 5), [⟨0, 0, 1, 5⟩]⟩ :=
  ⟨(C27_density_rejects _ _ _ _).1 (.inl ⟨le_rfl, le_rfl⟩),
    (C27_density_rejects _ _ _ _).2 (.inl (by decide)) (by decide) (by decide)⟩

/-- C27. With at least as many points as tiles, no two in the same row or column,
`create_tiles_density` returns, however the cuts score. -/
theorem C27_density_returns {F : Type} (sc : Scoring K F)
    (harg : ∀ l : List F, l ≠ [] → sc.argmin l < l.length) (points : List (ℤ × ℤ))
    (shape : ℤ × ℤ) (maxTiles : ℤ) (hs1 : 0 < shape.1) (hm : 1 ≤ maxTiles)
    (hlen : maxTiles ≤ points.length) (hnx : (points.map Prod.fst).Nodup)
    (hny : (points.map Prod.snd).Nodup) :
    ∃ t, createTilesDensity sc points shape maxTiles = .ok t := by
  unfold createTilesDensity
  rw [if_neg (by omega), if_neg (by omega)]
  simp only
  split
  · exact ⟨_, rfl⟩
  have hk := sqrt_pos hm
  have hle := Nat.sqrt_le maxTiles.toNat
  obtain ⟨out, hout⟩ := split_returns sc harg (Nat.sqrt maxTiles.toNat * Nat.sqrt maxTiles.toNat)
    (points.map fun p => ((p.1 : K), (p.2 : K)))
    (((0 : K), ((shape.1 : ℤ) : K)), ((0 : K), ((shape.2 : ℤ) : K))) _
    (Nat.mul_pos hk hk) le_rfl (by rw [List.length_map]; omega)
    (by
      have : (points.map fun p => ((p.1 : K), (p.2 : K))).map Prod.fst =
        (points.map Prod.fst).map (Int.cast : ℤ → K) := by simp [Function.comp_def]
      rw [this]; exact hnx.map Int.cast_injective)
    (by
      have : (points.map fun p => ((p.1 : K), (p.2 : K))).map Prod.snd =
        (points.map Prod.snd).map (Int.cast : ℤ → K) := by simp [Function.comp_def]
      rw [this]; exact hny.map Int.cast_injective)
  simp only [Bind.bind, Except.bind, hout]
  exact ⟨_, rfl⟩

/-- Non-vacuity: five scattered points, four tiles, a scoring that always takes the first
cut. -/
example : ∃ t, createTilesDensity (K := ℚ) (F := Unit) ⟨fun _ _ _ => (), fun _ _ => (), fun _ => 0,
    fun _ _ => true⟩ [(0, 3), (4, 1), (2, 8), (7, 0), (9, 5)] (10, 9) 4 = .ok t ∧
    t.tiles.length = 4 ∧ PartitionsImage (10, 9) t.tiles := by
  obtain ⟨t, ht⟩ := C27_density_returns (K := ℚ) (F := Unit) ⟨fun _ _ _ => (), fun _ _ => (),
    fun _ => 0, fun _ _ => true⟩ (by intro l hl; exact List.length_pos_iff.mpr hl)
    [(0, 3), (4, 1), (2, 8), (7, 0), (9, 5)] (10, 9) 4 (by norm_num) (by norm_num) (by decide)
    (by decide) (by decide)
  obtain ⟨_, h1, k, h2, h3, h4⟩ := C27_density_partition _ _ _ _ (by norm_num) (by norm_num)
    (by unfold PixelOf; decide) t ht
  have hk : k = 2 := by
    have : (k : ℤ) < 3 := by nlinarith
    have : 1 < (k : ℤ) := by nlinarith
    omega
  exact ⟨t, ht, by rw [h2, hk], h1⟩

/-! ### C28 -/

theorem dilate_axis {fl : K → K} {B : ℤ} (hfl : Rounding fl B) {lo hi s : ℤ} (h0 : 0 ≤ lo)
    (h1 : lo ≤ hi) (h2 : hi ≤ s) (hB : s ≤ B) {f g : K} (hf : 0 ≤ f) (hfg : f ≤ g) :
    let a := fun f : K => pyInt (max 0 (fl ((lo : K) - fl (f * ((hi - lo : ℤ) : K)))))
    let b := fun f : K => pyInt (min (s : K) (fl ((hi : K) + fl (f * ((hi - lo : ℤ) : K)))))
    0 ≤ a f ∧ a f ≤ lo ∧ hi ≤ b f ∧ b f ≤ s ∧ a g ≤ a f ∧ b f ≤ b g := by
  intro a b
  have hz : fl 0 = 0 := by simpa using hfl.int 0 (by simp; omega)
  have hd : (0 : K) ≤ ((hi - lo : ℤ) : K) := by exact_mod_cast (by omega : (0 : ℤ) ≤ hi - lo)
  have hfd : 0 ≤ fl (f * ((hi - lo : ℤ) : K)) := by
    rw [← hz]; exact hfl.mono _ _ (mul_nonneg hf hd)
  have hfd2 : fl (f * ((hi - lo : ℤ) : K)) ≤ fl (g * ((hi - lo : ℤ) : K)) :=
    hfl.mono _ _ (mul_le_mul_of_nonneg_right hfg hd)
  have hlo : fl (lo : K) = lo := hfl.int lo (by rw [abs_of_nonneg h0]; omega)
  have hhi : fl (hi : K) = hi := hfl.int hi (by rw [abs_of_nonneg (by omega)]; omega)
  refine ⟨?_, ?_, ?_, ?_, ?_, ?_⟩
  · have := pyInt_mono (le_max_left (0 : K) (fl ((lo : K) - fl (f * ((hi - lo : ℤ) : K)))))
    rwa [show pyInt (0 : K) = 0 by simp [pyInt]] at this
  · have h3 : fl ((lo : K) - fl (f * ((hi - lo : ℤ) : K))) ≤ lo := by
      rw [← hlo]; exact hfl.mono _ _ (by rw [hlo]; linarith)
    have := pyInt_mono (max_le (show (0 : K) ≤ (lo : K) by exact_mod_cast h0) h3)
    rwa [pyInt_intCast] at this
  · have h3 : (hi : K) ≤ fl ((hi : K) + fl (f * ((hi - lo : ℤ) : K))) := by
      conv_lhs => rw [← hhi]
      exact hfl.mono _ _ (by linarith)
    have := pyInt_mono (le_min (show (hi : K) ≤ (s : K) by exact_mod_cast h2) h3)
    rwa [pyInt_intCast] at this
  · have := pyInt_mono (min_le_left (s : K) (fl ((hi : K) + fl (f * ((hi - lo : ℤ) : K)))))
    rwa [pyInt_intCast] at this
  · exact pyInt_mono (max_le_max le_rfl (hfl.mono _ _ (by linarith)))
  · exact pyInt_mono (min_le_min le_rfl (hfl.mono _ _ (by linarith)))

/-- C28. Dilating keeps the shape, the number and order of the tiles; every dilated tile
contains the original, stays inside the image, and grows with the factor. Holds for every
monotone rounding that is exact on the integers up to the image size, in particular for
exact arithmetic and for double precision. -/
theorem C28_dilate (fl : K → K) (B : ℤ) (hfl : Rounding fl B) (t : TileSet)
    (ht : ∀ b ∈ t.tiles, TileInImage t.shape b) (hB : t.shape.1 ≤ B ∧ t.shape.2 ≤ B)
    (f g : K) (hf : 0 ≤ f) (hfg : f ≤ g) :
    (t.dilate fl f).shape = t.shape ∧ (t.dilate fl f).tiles.length = t.tiles.length ∧
    (∀ b ∈ (t.dilate fl f).tiles, TileInImage t.shape b) ∧
    ∀ (i : Nat) (b : BBox), t.tiles[i]? = some b → ∃ b1 b2, (t.dilate fl f).tiles[i]? = some b1 ∧
      (t.dilate fl g).tiles[i]? = some b2 ∧
      ∀ r c, (InTile b r c → InTile b1 r c) ∧ (InTile b1 r c → InTile b2 r c) := by
  have hax : ∀ b ∈ t.tiles, _ := fun b hb =>
    And.intro (dilate_axis hfl (ht b hb).1 (ht b hb).2.1 (ht b hb).2.2.1 hB.1 hf hfg)
      (dilate_axis hfl (ht b hb).2.2.2.1 (ht b hb).2.2.2.2.1 (ht b hb).2.2.2.2.2 hB.2 hf hfg)
  refine ⟨rfl, by simp [TileSet.dilate], ?_, ?_⟩
  · intro b' hb'
    obtain ⟨b, hb, rfl⟩ := List.mem_map.mp hb'
    have h := hax b hb
    have h2 := ht b hb
    simp only at h
    unfold TileInImage at h2 ⊢
    simp only [BBox.dilate]
    omega
  · intro i b hi
    have hb := List.mem_of_getElem? hi
    have h := hax b hb
    simp only at h
    refine ⟨b.dilate fl t.shape f, b.dilate fl t.shape g, by simp [TileSet.dilate, hi],
      by simp [TileSet.dilate, hi], fun r c => ?_⟩
    unfold InTile
    simp only [BBox.dilate]
    constructor <;> intro hh <;> omega

/-- C28. Dilation keeps every covered pixel covered; so the dilated tiles of a partition
still cover the image. -/
theorem C28_coverage (fl : K → K) (B : ℤ) (hfl : Rounding fl B) (t : TileSet)
    (ht : PartitionsImage t.shape t.tiles) (hB : t.shape.1 ≤ B ∧ t.shape.2 ≤ B) (f : K) (hf : 0 ≤ f)
    (r c : ℤ) (h : PixelOf t.shape r c) : ∃ b ∈ (t.dilate fl f).tiles, InTile b r c := by
  obtain ⟨i, ⟨b, hb, hin⟩, _⟩ := ht.2 r c h
  obtain ⟨b1, _, h1, _, h2⟩ := (C28_dilate fl B hfl t ht.1 hB f f hf le_rfl).2.2.2 i b hb
  exact ⟨b1, List.mem_of_getElem? h1, (h2 r c).1 hin⟩

example : Rounding flDouble (2 ^ 53) ∧ Rounding (id : ℚ → ℚ) 1000 ∧
    (⟨(100, 100), [⟨0, 0, 50, 100⟩, ⟨50, 0, 100, 100⟩]⟩ : TileSet).dilate (id : ℚ → ℚ) (1 / 20) =
      ⟨(100, 100), [⟨0, 0, 52, 100⟩, ⟨47, 0, 100, 100⟩]⟩ := by
  refine ⟨flDouble_rounding, rounding_id _, ?_⟩
  simp only [TileSet.dilate, BBox.dilate, List.map_cons, List.map_nil, id, pyInt]
  norm_num

end

/-! ### C29 -/

theorem get_shape (a b : Json) : (Json.obj [("shape", a), ("tiles", b)]).get "shape" = .ok a := by
  simp [Json.get, List.lookup]

theorem get_tiles (a b : Json) : (Json.obj [("shape", a), ("tiles", b)]).get "tiles" = .ok b := by
  simp [Json.get, List.lookup]

theorem get_bounds (a : Json) : (Json.obj [("bounds", a)]).get "bounds" = .ok a := by
  simp [Json.get, List.lookup]

theorem mapM_num (l : List ℤ) : (l.map Json.num).mapM Json.int = (.ok l : Except PyErr _) := by
  induction l with
  | nil => rfl
  | cons x l ih => rw [List.map_cons, List.mapM_cons, ih]; rfl

theorem ofJson_bounds (l : List ℤ) :
    BBox.ofJson (.obj [("bounds", .arr (l.map .num))]) = BBox.fromBounds l := by
  unfold BBox.ofJson
  rw [get_bounds]
  simp only [Bind.bind, Except.bind, Json.elems, mapM_num]

theorem fromJson_obj (a b : ℤ) (tiles : List Json) :
    TileSet.fromJson (.obj [("shape", .arr [.num a, .num b]), ("tiles", .arr tiles)]) =
      (tiles.mapM BBox.ofJson).map fun l => ⟨(a, b), l⟩ := by
  unfold TileSet.fromJson
  rw [get_shape, get_tiles]
  have := mapM_num [a, b]
  simp only [List.map_cons, List.map_nil] at this
  simp only [Bind.bind, Except.bind, Json.elems, this]
  cases tiles.mapM BBox.ofJson <;> rfl

/-- C29. Writing a tile set to JSON and reading it back gives the same tile set. -/
theorem C29_json (t : TileSet) : TileSet.fromJson t.toJson = .ok t := by
  obtain ⟨⟨a, b⟩, tiles⟩ := t
  unfold TileSet.toJson
  rw [fromJson_obj]
  have hm : ∀ l : List BBox, (l.map fun tt => Json.obj [("bounds", .arr (tt.tolist.map .num))]).mapM
      BBox.ofJson = (.ok l : Except PyErr _) := by
    intro l
    induction l with
    | nil => rfl
    | cons x l ih => rw [List.map_cons, List.mapM_cons, ih, ofJson_bounds]; rfl
  rw [hm]
  rfl

/-- C29. A file whose bounds do not have four entries is refused. -/
theorem C29_bad_bounds (shape : ℤ × ℤ) (pre : List BBox) (l : List ℤ) (hl : l.length ≠ 4)
    (rest : List Json) :
    TileSet.fromJson (.obj [("shape", .arr [.num shape.1, .num shape.2]),
      ("tiles", .arr ((pre.map fun tt => .obj [("bounds", .arr (tt.tolist.map .num))]) ++
        (.obj [("bounds", .arr (l.map .num))]) :: rest))]) = .error .valueError := by
  rw [fromJson_obj]
  have hm : ∀ p : List BBox, ((p.map fun tt => Json.obj [("bounds", .arr (tt.tolist.map .num))]) ++
        (.obj [("bounds", .arr (l.map .num))]) :: rest).mapM BBox.ofJson =
      (.error .valueError : Except PyErr (List BBox)) := by
    intro p
    induction p with
    | nil =>
      rw [List.map_nil, List.nil_append, List.mapM_cons, ofJson_bounds,
        (C24_bounds ⟨0, 0, 0, 0⟩ l).2.2 hl]
      rfl
    | cons x p ih => rw [List.map_cons, List.cons_append, List.mapM_cons, ih, ofJson_bounds]; rfl
  rw [hm]
  rfl

example : TileSet.fromJson (⟨(10, 10), [⟨0, 0, 5, 5⟩, ⟨4, 4, 10, 10⟩]⟩ : TileSet).toJson =
    .ok ⟨(10, 10), [⟨0, 0, 5, 5⟩, ⟨4, 4, 10, 10⟩]⟩ := C29_json _

end Spurt
