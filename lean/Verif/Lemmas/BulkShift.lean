import Verif.Lemmas.MedianShift

/-!
# Least-squares bulk offsets of shifted tiles
-/

namespace Spurt

open Spec

section
variable {K : Type} [Field K] [LinearOrder K] [IsStrictOrderedRing K]

omit [LinearOrder K] [IsStrictOrderedRing K] in
theorem sqError_cycles {olaps : List (Nat × Nat)} {off off' : List K} (h1 : off.length = olaps.length)
    (h2 : off'.length = olaps.length) {κ : Nat → ℤ}
    (h : ∀ (k i j : Nat), olaps[k]? = some (i, j) → off'.getD k 0 = off.getD k 0 + ((κ j - κ i : ℤ) : K))
    (f : Nat → K) : sqError olaps off' (fun t => f t + (κ t : K)) = sqError olaps off f := by
  unfold sqError
  congr 1
  apply List.ext_getElem
  · simp [h1, h2]
  · intro k hk1 hk2
    simp only [List.length_map, List.length_zip] at hk1 hk2
    simp only [List.getElem_map, List.getElem_zip]
    have hk := h k olaps[k].1 olaps[k].2 (List.getElem?_eq_getElem (by omega))
    rw [List.getD_eq_getElem _ _ (by omega), List.getD_eq_getElem _ _ (by omega)] at hk
    rw [hk]
    push_cast
    ring

omit [LinearOrder K] [IsStrictOrderedRing K] in
theorem getD_cast (m : List (List ℤ)) (k b : Nat) :
    ((m.map fun x => x.map fun v => ((v : ℤ) : K)).getD k []).getD b 0 = (((m.getD k []).getD b 0 : ℤ) : K) := by
  simp only [List.getD_eq_getElem?_getD, List.getElem?_map]
  cases m[k]? with
  | none => simp
  | some x =>
    simp only [Option.map_some, Option.getD_some, List.getElem?_map]
    cases x[b]? <;> simp

/-- Least squares from offsets that were moved by the cycles of the tiles. -/
theorem l2_shift {ntiles nbands : Nat} {olaps : List (Nat × Nat)} {off off' : List (List K)}
    {counts : List Nat} (hi : L2Input ntiles nbands olaps off counts) (hi' : L2Input ntiles nbands olaps off' counts)
    (hconn : ∀ t, t < ntiles → Relation.ReflTransGen (Adjacent olaps) 0 t) {lstsq : Lstsq K}
    (hls : LeastSquares (overlapMatrix olaps ntiles) off (lstsq (overlapMatrix olaps ntiles) off) ntiles nbands)
    (hls' : LeastSquares (overlapMatrix olaps ntiles) off' (lstsq (overlapMatrix olaps ntiles) off') ntiles nbands)
    {κ : Nat → Nat → ℤ}
    (hoff : ∀ (k i j : Nat), olaps[k]? = some (i, j) → ∀ b < nbands,
      (off'.getD k []).getD b 0 = (off.getD k []).getD b 0 + ((κ b j - κ b i : ℤ) : K)) :
    ∃ r x res x' res', LargestTile counts r ∧ solveL2Min lstsq olaps off nbands ntiles counts = .ok (x, res) ∧
      solveL2Min lstsq olaps off' nbands ntiles counts = .ok (x', res') ∧
      ∀ b < nbands, ∀ t < ntiles, (x'.getD b []).getD t 0 = (x.getD b []).getD t 0 + ((κ b t - κ b r : ℤ) : K) := by
  obtain ⟨x, res, h, hx, hres, hb⟩ := C40_least_squares ntiles nbands olaps off counts hi lstsq hls
  obtain ⟨x', res', h', hx', hres', hb'⟩ := C40_least_squares ntiles nbands olaps off' counts hi' lstsq hls'
  obtain ⟨r, hr, _⟩ := solveL2_unfold hi lstsq
  refine ⟨r, x, res, x', res', hr, h, h', ?_⟩
  intro b hbn t ht
  obtain ⟨row, h1, h2, h3, h4, h5⟩ := hb b hbn
  obtain ⟨row', h1', h2', h3', h4', h5'⟩ := hb' b hbn
  have hclen : (col off b).length = olaps.length := by simp [col, hi.offLen]
  have hclen' : (col off' b).length = olaps.length := by simp [col, hi'.offLen]
  have hcol : ∀ (k i j : Nat), olaps[k]? = some (i, j) →
      (col off' b).getD k 0 = (col off b).getD k 0 + ((κ b j - κ b i : ℤ) : K) := by
    intro k i j hk
    have hkl := (List.getElem?_eq_some_iff.mp hk).1
    have := hoff k i j hk b hbn
    rw [List.getD_eq_getElem off' _ (by rw [hi'.offLen]; exact hkl),
      List.getD_eq_getElem off _ (by rw [hi.offLen]; exact hkl)] at this
    rw [List.getD_eq_getElem _ _ (by omega), List.getD_eq_getElem _ _ (by omega)]
    simp only [col, List.getElem_map]
    exact this
  have hsh := sqError_cycles hclen hclen' hcol
  have hmin : ∀ f : Nat → K, sqError olaps (col off b) (fun t => row'.getD t 0 - (κ b t : K)) ≤ sqError olaps (col off b) f := by
    intro f
    rw [← hsh, ← hsh f]
    have : (fun t => row'.getD t 0 - (κ b t : K) + (κ b t : K)) = fun t => row'.getD t 0 := by
      funext t; ring
    rw [this]
    exact h4' _
  have hag := minimisers_agree hclen h4 hmin
  have hz : ∀ t, t < ntiles → row.getD t 0 - row.getD 0 0 =
      (row'.getD t 0 - (κ b t : K)) - (row'.getD 0 0 - (κ b 0 : K)) := by
    intro t ht
    have := hconn t ht
    clear ht
    induction this with
    | refl => simp
    | tail _ hbc ih =>
      rcases hbc with hbc | hbc
      · have := hag _ _ hbc; linear_combination ih + this
      · have := hag _ _ hbc; linear_combination ih - this
  have hrn : r < ntiles := by rw [← hi.countLen]; exact hr.1
  have h0 : row.getD r 0 = 0 := by rw [List.getD_eq_getElem?_getD, h3 r hr]; rfl
  have h0' : row'.getD r 0 = 0 := by rw [List.getD_eq_getElem?_getD, h3' r hr]; rfl
  have z1 := hz t ht
  have z2 := hz r hrn
  rw [h0, h0'] at z2
  have q1 : x.getD b [] = row := by rw [List.getD_eq_getElem?_getD, h1]; rfl
  have q2 : x'.getD b [] = row' := by rw [List.getD_eq_getElem?_getD, h1']; rfl
  rw [q1, q2]
  push_cast
  linear_combination z2 - z1

end

section
variable {K : Type} [Field K] [LinearOrder K] [FloorRing K] [IsStrictOrderedRing K]

/-- Bulk offsets (least squares) of shifted tiles. -/
theorem bulk_shift {C : Type} [LinearOrder C] {tau : K} (htau : 0 < tau) {minPoints : ℤ}
    {cc : Nat → List (Nat × Nat) → List Nat} {nifgs : Nat}
    {tiles : TileSet} (htwo : 2 ≤ tiles.tiles.length)
    {files files' : Nat → Except PyErr (TileFile K)} {F F' : Nat → TileFile K}
    {olap olap' : OverlapFile} (hf : TileFilesOk nifgs tiles files F) (hf' : TileFilesOk nifgs tiles files' F')
    (h : phasediffDeciles id tau minPoints cc tiles files = .ok (some olap))
    (h' : phasediffDeciles id tau minPoints cc tiles files' = .ok (some olap')) {σ : Nat → K} {κ : Nat → Nat → ℤ}
    (hs : Shifted tau tiles.tiles.length nifgs F F' σ κ)
    (hwhole : ∀ i j, (i, j) ∈ olap.overlaps → ∀ b < nifgs, ∃ k : ℤ, IsMedian (cyclesBetween tau (F i) (F j) b) k)
    (hconn : ∀ t < tiles.tiles.length, Relation.ReflTransGen (Adjacent olap.overlaps) 0 t)
    {mip : MipSolver} {lstsq : Lstsq K}
    (hls : ∀ off, off.length = olap.overlaps.length → (∀ row ∈ off, row.length = nifgs) →
      LeastSquares (overlapMatrix olap.overlaps tiles.tiles.length) off
        (lstsq (overlapMatrix olap.overlaps tiles.tiles.length) off) tiles.tiles.length nifgs)
    {coh : Band (Option C)} {thr : C} {bulk bulk' : BulkFile K}
    (hbulk : bulkOffsets mip lstsq "L2" tiles coh thr olap = .ok (some bulk))
    (hbulk' : bulkOffsets mip lstsq "L2" tiles coh thr olap' = .ok (some bulk')) :
    ∃ r < tiles.tiles.length, ∀ b < nifgs, ∀ t < tiles.tiles.length,
      (bulk'.offsets.getD b []).getD t 0 = (bulk.offsets.getD b []).getD t 0 + ((κ b t - κ b r : ℤ) : K) := by
  obtain ⟨hsub, _, _, _⟩ := C53_recorded tau minPoints cc tiles files olap h
  have hlt : ∀ e ∈ olap.overlaps, e.1 < e.2 ∧ e.2 < tiles.tiles.length := by
    rintro ⟨i, j⟩ he
    obtain ⟨h1, a, b, h2, h3, _⟩ := ((C25_overlaps tiles).1 i j).mp (hsub.subset he)
    exact ⟨h1, (List.getElem?_eq_some_iff.mp h3).1⟩
  have hn1 : tiles.tiles.length ≠ 1 := by omega
  have hmedE : ∀ (o : OverlapFile) (bk : BulkFile K), bulkOffsets mip lstsq "L2" tiles coh thr o = .ok (some bk) →
      ∃ med, medianOffsets o = .ok med ∧ med ≠ [] := by
    intro o bk hb
    unfold bulkOffsets at hb
    rw [if_neg hn1] at hb
    cases hm : medianOffsets o with
    | error e => rw [hm] at hb; simp [Bind.bind, Except.bind] at hb
    | ok med =>
      refine ⟨med, rfl, ?_⟩
      rintro rfl
      rw [hm] at hb
      simp [Bind.bind, Except.bind] at hb
  obtain ⟨med, hm, hne⟩ := hmedE _ _ hbulk
  obtain ⟨med', hm', hne'⟩ := hmedE _ _ hbulk'
  obtain ⟨ho, _, l1, l2, hsh⟩ := median_shift htau hf hf' h h' hs hm hm' hwhole
  have hr1 := median_rows hf h hm
  have hr2 := median_rows hf' h' hm'
  rw [bulk_L2 hn1 hm hne hr1] at hbulk
  rw [bulk_L2 hn1 hm' hne' hr2, ho] at hbulk'
  have hrow : ∀ m : List (List ℤ), (∀ x ∈ m, x.length = nifgs) →
      ∀ row ∈ (m.map fun x => x.map fun v => ((v : ℤ) : K)), row.length = nifgs := by
    intro m hm row hr
    obtain ⟨x, hx, rfl⟩ := List.mem_map.mp hr
    simp [hm x hx]
  have hinp : ∀ m : List (List ℤ), m.length = olap.overlaps.length → (∀ x ∈ m, x.length = nifgs) →
      L2Input tiles.tiles.length nifgs olap.overlaps (m.map fun x => x.map fun v => ((v : ℤ) : K))
        (tileCounts coh thr tiles) := by
    intro m hl hm
    refine ⟨by omega, ?_, by simp [hl], hrow m hm, by simp [tileCounts]⟩
    intro t1 t2 ht
    have := hlt _ ht
    simp only at this
    omega
  obtain ⟨r, x, res, x', res', hr, e1, e2, e3⟩ := l2_shift (hinp med l1 hr1) (hinp med' l2 hr2) hconn
    (hls _ (by simp [l1]) (hrow med hr1)) (hls _ (by simp [l2]) (hrow med' hr2)) (κ := κ) (by
      intro k i j hk b hb
      rw [getD_cast, getD_cast, hsh k i j hk b hb]
      push_cast
      ring)
  rw [e1] at hbulk
  rw [e2] at hbulk'
  simp only [Bind.bind, Except.bind, pure, Except.pure, Except.ok.injEq, Option.some.injEq] at hbulk hbulk'
  subst hbulk hbulk'
  refine ⟨r, ?_, e3⟩
  have := hr.1
  simpa [tileCounts] using this

end

end Spurt
