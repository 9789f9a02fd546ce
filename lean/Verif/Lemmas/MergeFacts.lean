import Verif.Lemmas.MergeTiles

/-!
# Facts about the rounds and the rasters of one band
-/

namespace Spurt

open Spec

section
variable {K : Type} [Field K] [LinearOrder K] [FloorRing K]

/-! ### The rasters -/

omit [LinearOrder K] [FloorRing K] in
/-- Tiles with one selected band and given corrections. -/
theorem exists_settled {n : Nat} {F : Nat → TileFile K} {b : Nat} {c : Nat → Nat → K}
    (hw : ∀ j < n, ((F j).uw.headD []).length = (F j).points.length)
    (hb : ∀ j < n, b < (F j).uw.length ∧ b < (F j).phaseOffset.length) :
    ∃ ts, AllSettled n F [b] (fun _ => c) ts := by
  have hd : ∀ j < n, ∃ d, readBands (F j) [b] = .ok d := fun j hj =>
    (readBands_ok_iff (F j) [b]).mpr ⟨by simp, by simp, by simpa using hb j hj⟩
  refine ⟨(List.range n).map fun j => ⟨F j, [b], (match readBands (F j) [b] with | .ok d => some d | .error _ => none),
    [⟨1, (F j).points.length, fun _ p => c j p⟩], 1⟩, by simp, fun j hj => ?_⟩
  refine ⟨_, by rw [List.getElem?_map, List.getElem?_range hj]; rfl, rfl, rfl, hw j hj, ?_, rfl, _, rfl,
    ⟨Or.inl rfl, Or.inr rfl⟩, ?_⟩
  · obtain ⟨d, hd⟩ := hd j hj
    exact ⟨d, hd, by simp only [hd]⟩
  · intro k p hk hp
    change c j (if (F j).points.length = 1 then 0 else p) = c j p
    by_cases h1 : (F j).points.length = 1
    · rw [if_pos h1, show p = 0 by omega]
    · rw [if_neg h1]

omit [LinearOrder K] [FloorRing K] in
theorem correctedAt_settled {n : Nat} {F : Nat → TileFile K} {bands : List Nat} {C : Nat → Nat → Nat → K}
    {ts : List (TileState K)} (hs : AllSettled n F bands C ts) {k : Nat} (hk : k < bands.length) (pix : ℤ × ℤ) :
    (ts.filterMap fun t => correctedAt t k pix) =
      (List.range n).filterMap fun j => bandAt F (bands.getD k 0) (C k) j pix := by
  have hts : ∀ (j : Nat) t, ts[j]? = some t → correctedAt t k pix = bandAt F (bands.getD k 0) (C k) j pix := by
    intro j t ht
    have hj : j < n := by rw [← hs.1]; exact (List.getElem?_eq_some_iff.mp ht).1
    obtain ⟨t', h1, h2⟩ := hs.2 j hj
    rw [ht, Option.some.injEq] at h1
    subst h1
    obtain ⟨u, u1, u2, u3, u4⟩ := h2.uwPhase
    unfold correctedAt bandAt valueAt
    rw [u1, coords_eq h2.file]
    simp only
    by_cases hp : pix ∈ filePoints (F j)
    · rw [if_pos hp, if_pos hp]
      have := List.idxOf_lt_length_iff.mpr hp
      rw [filePoints_length] at this
      rw [u4 k _ hk this]
      rfl
    · rw [if_neg hp, if_neg hp]
  have key : ∀ (l : List (TileState K)) (g : Nat → Option K),
      (∀ (j : Nat) t, l[j]? = some t → correctedAt t k pix = g j) →
      (l.filterMap fun t => correctedAt t k pix) = (List.range l.length).filterMap g := by
    intro l g
    induction l using List.reverseRecOn with
    | nil => intro _; rfl
    | append_singleton l t ih =>
      intro h
      rw [List.filterMap_append, ih (fun j s hs' => h j s (by
        rw [List.getElem?_append_left (List.getElem?_eq_some_iff.mp hs').1]; exact hs')),
        List.length_append, List.length_singleton, List.range_succ, List.filterMap_append]
      congr 1
      simp only [List.filterMap_cons, List.filterMap_nil]
      rw [h l.length t (by simp)]
  rw [key ts _ hts, hs.1]

omit [LinearOrder K] [FloorRing K] in
theorem rawAt_settled {n : Nat} {F : Nat → TileFile K} {bands : List Nat} {C : Nat → Nat → Nat → K}
    {ts : List (TileState K)} (hs : AllSettled n F bands C ts) {k : Nat} (hk : k < bands.length) (pix : ℤ × ℤ)
    {t : TileState K} (ht : t ∈ ts) : ∃ j < n, t.coords = filePoints (F j) ∧ ∀ x, rawAt t k pix = some x →
      pix ∈ filePoints (F j) ∧ x = filePhase (F j) (bands.getD k 0) ((filePoints (F j)).idxOf pix) := by
  obtain ⟨j, hjl, hje⟩ := List.mem_iff_getElem.mp ht
  have hj : j < n := by rw [← hs.1]; exact hjl
  obtain ⟨t', h1, h2⟩ := hs.2 j hj
  rw [List.getElem?_eq_getElem hjl, Option.some.injEq, hje] at h1
  subst h1
  obtain ⟨u, u1, u2, u3, u4⟩ := rawUwPhase_data h2.width h2.data
  refine ⟨j, hj, coords_eq h2.file, fun x hx => ?_⟩
  unfold rawAt valueAt at hx
  rw [u1, coords_eq h2.file] at hx
  simp only at hx
  by_cases hp : pix ∈ filePoints (F j)
  · rw [if_pos hp, Option.some.injEq] at hx
    have := List.idxOf_lt_length_iff.mpr hp
    rw [filePoints_length] at this
    rw [u4 k _ hk this] at hx
    exact ⟨hp, hx.symm⟩
  · rw [if_neg hp] at hx; simp at hx

variable [IsStrictOrderedRing K]

/-- What the rasters hold at one pixel. -/
theorem bandRaster_at {tau : K} {shape : Nat × Nat} {n : Nat} (hn : 0 < n) {F : Nat → TileFile K}
    (hin : ∀ j < n, ∀ c ∈ filePoints (F j), Inside shape c) (hnd : ∀ j < n, (filePoints (F j)).Nodup)
    (hw : ∀ j < n, ((F j).uw.headD []).length = (F j).points.length) {b : Nat}
    (hb : ∀ j < n, b < (F j).uw.length ∧ b < (F j).phaseOffset.length) {c : Nat → Nat → K} {m : MergedBand K}
    (h : bandRaster tau shape n F b c = .ok m) (r q : Nat) (vals : List K)
    (hv : vals = (List.range n).filterMap fun j => bandAt F b c j ((r : ℤ), (q : ℤ))) :
    ((∀ j < n, ((r : ℤ), (q : ℤ)) ∉ filePoints (F j)) →
      m.out.val r q = none ∧ m.diff.val r q = none ∧ m.model.val r q = none) ∧
    ((∃ j < n, ((r : ℤ), (q : ℤ)) ∈ filePoints (F j)) →
      ∃ mean, m.model.val r q = some mean ∧ mean * vals.length = vals.sum ∧
      ∃ j < n, ((r : ℤ), (q : ℤ)) ∈ filePoints (F j) ∧ ∃ x, x = filePhase (F j) b ((filePoints (F j)).idxOf ((r : ℤ), (q : ℤ))) ∧
        m.out.val r q = some (x - tau * (rint ((x - mean) / tau) : ℤ))) ∧
    (vals.length < 2 → m.diff.val r q = none) ∧
    (2 ≤ vals.length → ∃ lo ∈ vals, ∃ hi ∈ vals, (∀ x ∈ vals, lo ≤ x ∧ x ≤ hi) ∧
      m.diff.val r q = some (hi - lo)) := by
  obtain ⟨ts, hs⟩ := exists_settled (c := c) hw hb
  have hwm := writeMergedBand_eq (tau := tau) (shape := shape) hn hs (b := b) (by simp)
  rw [h] at hwm
  have hk : (0 : Nat) < [b].length := by simp
  have hidx : [b].idxOf b = 0 := by simp
  have hts : ∀ t ∈ ts, ∃ j < n, Settled (F j) [b] t (fun k p => c j p) := by
    intro t ht
    obtain ⟨j, hjl, hje⟩ := List.mem_iff_getElem.mp ht
    have hj : j < n := by rw [← hs.1]; exact hjl
    obtain ⟨t', h1, h2⟩ := hs.2 j hj
    rw [List.getElem?_eq_getElem hjl, Option.some.injEq, hje] at h1
    exact ⟨j, hj, h1 ▸ h2⟩
  have hts' : ∀ j < n, ∃ t ∈ ts, t.coords = filePoints (F j) := by
    intro j hj
    obtain ⟨t', h1, h2⟩ := hs.2 j hj
    exact ⟨t', List.mem_of_getElem? h1, coords_eq h2.file⟩
  have hfit : TilesFit shape [b] ts := by
    refine ⟨fun t ht => ?_, fun t ht => ?_, fun t ht => ?_⟩
    · obtain ⟨j, hj, h⟩ := hts t ht; exact h.bands
    · obtain ⟨j, hj, h⟩ := hts t ht; rw [coords_eq h.file]; exact hin j hj
    · obtain ⟨j, hj, h⟩ := hts t ht; rw [coords_eq h.file]; exact hnd j hj
  have hvals : vals = ts.filterMap fun t => correctedAt t ([b].idxOf b) ((r : ℤ), (q : ℤ)) := by
    rw [hidx, correctedAt_settled hs hk, hv]
    rfl
  have hcov : (∃ j < n, ((r : ℤ), (q : ℤ)) ∈ filePoints (F j)) ↔ ∃ t ∈ ts, ((r : ℤ), (q : ℤ)) ∈ t.coords := by
    constructor
    · rintro ⟨j, hj, h⟩
      obtain ⟨t, ht, he⟩ := hts' j hj
      exact ⟨t, ht, he ▸ h⟩
    · rintro ⟨t, ht, h⟩
      obtain ⟨j, hj, hset⟩ := hts t ht
      exact ⟨j, hj, coords_eq hset.file ▸ h⟩
  refine ⟨fun hno => ?_, fun hex => ?_, ?_⟩
  · apply C44_uncovered tau shape ts [b] hfit b m hwm r q
    intro t ht hc
    obtain ⟨j, hj, hjm⟩ := hcov.mpr ⟨t, ht, hc⟩
    exact hno j hj hjm
  · obtain ⟨_, lo, _, hi, _, mean, hmean, hsum, _⟩ := C44_model tau shape ts [b] hfit b m hwm r q (hcov.mp hex) vals hvals
    refine ⟨mean, hmean, hsum, ?_⟩
    obtain ⟨_, _, _, _, acc, ha, hm, _, _, hout⟩ := writeMergedBand_at hfit hwm r q
    obtain ⟨t, ht, htc, x, hx, hxo⟩ := hout (hcov.mp hex)
    obtain ⟨j, hj, hjc, hjx⟩ := rawAt_settled hs (k := [b].idxOf b) (by rw [hidx]; exact hk) ((r : ℤ), (q : ℤ)) ht
    obtain ⟨hjm, hjv⟩ := hjx x hx
    refine ⟨j, hj, hjm, x, ?_, ?_⟩
    · rw [hjv, hidx]; rfl
    · rw [hxo]
      by_cases hz : acc.cnt (r, q) = 0
      · rw [hm, if_pos hz] at hmean; simp at hmean
      · rw [hm, if_neg hz, Option.some.injEq] at hmean
        rw [hmean]
  · exact C44_diff tau shape ts [b] hfit b m hwm r q vals hvals

/-! ### The rounds -/

omit [LinearOrder K] [FloorRing K] [IsStrictOrderedRing K] in
theorem bandAt_point {F : Nat → TileFile K} {b : Nat} {c : Nat → Nat → K} {i p : Nat}
    (hnd : (filePoints (F i)).Nodup) (hp : p < (F i).points.length) :
    bandAt F b c i (ptAt F i p) = some (bandValue F b c i p) := by
  have hpl : p < (filePoints (F i)).length := by rw [filePoints_length]; exact hp
  unfold bandAt ptAt
  rw [List.getD_eq_getElem _ _ hpl, if_pos (List.getElem_mem hpl), hnd.idxOf_getElem p hpl]

omit [FloorRing K] [IsStrictOrderedRing K] in
theorem dirRow_zero {lin : LinSolver K} {a : SqMat K} {mask : Nat → Bool} {x : Nat → K}
    (hx : ∀ q < a.n, mask q = true → x q = 0) {p : Nat} (hp : p < a.n) : dirRow lin a mask x p = 0 := by
  unfold dirRow
  by_cases hm : mask p = true
  · rw [if_pos hm, hx p hp hm]
  · rw [if_neg hm]
    have hz : ((freeRhs a mask x).all fun v => decide (v = 0)) = true := by
      rw [List.all_eq_true]
      intro v hv
      unfold freeRhs at hv
      obtain ⟨i, _, rfl⟩ := List.mem_map.mp hv
      rw [decide_eq_true_eq, neg_eq_zero]
      apply List.sum_eq_zero
      intro w hw
      obtain ⟨j, hj, rfl⟩ := List.mem_map.mp hw
      rw [List.mem_filter, List.mem_range] at hj
      rw [hx j hj.1 (by simpa using hj.2), mul_zero]
    rw [if_pos hz]
    rw [List.getD_eq_getElem?_getD, List.getElem?_map]
    cases (freeRhs a mask x)[(freeIdx a.n mask).idxOf p]? <;> rfl

omit [LinearOrder K] [FloorRing K] [IsStrictOrderedRing K] in
/-- The corrected tiles agree at every pixel they share. -/
def Agree (n : Nat) (F : Nat → TileFile K) (b : Nat) (c : Nat → Nat → K) : Prop :=
  ∀ i < n, ∀ j < n, ∀ pix x y, bandAt F b c i pix = some x → bandAt F b c j pix = some y → x = y

omit [LinearOrder K] [FloorRing K] [IsStrictOrderedRing K] in
/-- Corrections that are equal at all points. -/
def SameCorr (n : Nat) (F : Nat → TileFile K) (c c' : Nat → Nat → K) : Prop :=
  ∀ i < n, ∀ p < (F i).points.length, c i p = c' i p

omit [LinearOrder K] [FloorRing K] [IsStrictOrderedRing K] in
theorem SameCorr.bandAt_eq {n : Nat} {F : Nat → TileFile K} {c c' : Nat → Nat → K} (h : SameCorr n F c c') (b : Nat)
    {i : Nat} (hi : i < n) (pix : ℤ × ℤ) : bandAt F b c i pix = bandAt F b c' i pix := by
  unfold bandAt
  by_cases hp : pix ∈ filePoints (F i)
  · rw [if_pos hp, if_pos hp]
    have := List.idxOf_lt_length_iff.mpr hp
    rw [filePoints_length] at this
    unfold bandValue
    rw [h i hi _ this]
  · rw [if_neg hp, if_neg hp]

omit [LinearOrder K] [FloorRing K] [IsStrictOrderedRing K] in
theorem SameCorr.agree {n : Nat} {F : Nat → TileFile K} {c c' : Nat → Nat → K} (h : SameCorr n F c c') {b : Nat}
    (ha : Agree n F b c) : Agree n F b c' := by
  intro i hi j hj pix x y hx hy
  rw [← h.bandAt_eq b hi] at hx
  rw [← h.bandAt_eq b hj] at hy
  exact ha i hi j hj pix x y hx hy

omit [FloorRing K] in
/-- Tiles that agree need no correction. -/
theorem rawCorr_zero {n : Nat} {F : Nat → TileFile K} {omap : List (List Nat)} {b : Nat} {c : Nat → Nat → K}
    (hlt : ∀ i < n, ∀ j ∈ omap.getD i [], j < n) (hnd : ∀ i < n, (filePoints (F i)).Nodup)
    (ha : Agree n F b c) {i : Nat} (hi : i < n) {p : Nat} (hp : p < (F i).points.length) :
    rawCorr F omap b c i p = 0 := by
  have hpt := bandAt_point (b := b) (c := c) (hnd i hi) hp
  have hsum : sumAt F b c (omap.getD i []) i p = (cntAt F (omap.getD i []) i p : K) * bandValue F b c i p := by
    unfold sumAt cntAt
    have key : ∀ l : List Nat, (∀ j ∈ l, j < n) →
        (l.map fun j => (bandAt F b c j (ptAt F i p)).getD 0).sum =
        ((l.filter fun j => decide (ptAt F i p ∈ filePoints (F j))).length : K) * bandValue F b c i p := by
      intro l
      induction l with
      | nil => simp
      | cons j l ih =>
        intro hl
        rw [List.map_cons, List.sum_cons, List.filter_cons, ih fun x hx => hl x (List.mem_cons_of_mem _ hx)]
        by_cases hj : ptAt F i p ∈ filePoints (F j)
        · have : bandAt F b c j (ptAt F i p) = some (bandValue F b c i p) := by
            cases hc : bandAt F b c j (ptAt F i p) with
            | none => unfold bandAt at hc; rw [if_pos hj] at hc; simp at hc
            | some y => rw [ha j (hl j List.mem_cons_self) i hi _ _ _ hc hpt]
          rw [this]
          simp only [hj, decide_true, if_true, Option.getD_some, List.length_cons, Nat.cast_add, Nat.cast_one]
          ring
        · unfold bandAt
          rw [if_neg hj]
          simp [hj]
    rw [key _ (hlt i hi)]
    push_cast
    ring
  unfold rawCorr
  rw [hsum]
  have : (cntAt F (omap.getD i []) i p : K) ≠ 0 := by
    have : 0 < cntAt F (omap.getD i []) i p := by unfold cntAt; omega
    exact_mod_cast this.ne'
  field_simp
  ring

omit [FloorRing K] in
theorem bandRound_agree {env : MergeEnv K} {n : Nat} {F : Nat → TileFile K} {omap : List (List Nat)} {b : Nat}
    {c : Nat → Nat → K} (hlt : ∀ i < n, ∀ j ∈ omap.getD i [], j < n) (hnd : ∀ i < n, (filePoints (F i)).Nodup)
    (ha : Agree n F b c) (d : Nat) (hok : ∀ i < n, roundOk env F omap d i) :
    SameCorr n F c (bandRound env F omap b c d) := by
  intro i hi p hp
  unfold bandRound
  by_cases ht : touched F omap d i = true
  · rw [if_pos ht]
    obtain ⟨a, ha1, ha2, _⟩ := hok i hi ht
    unfold tileCorr
    rw [ha1]
    simp only
    rw [dirRow_zero (fun q hq _ => rawCorr_zero hlt hnd ha hi (by omega)) (by omega), add_zero]
  · rw [if_neg ht]

omit [FloorRing K] in
/-- The adjustment leaves tiles that agree as they are. -/
theorem bandAdjust_agree {env : MergeEnv K} {n : Nat} {F : Nat → TileFile K} {omap : List (List Nat)} {b : Nat}
    {c : Nat → Nat → K} (hlt : ∀ i < n, ∀ j ∈ omap.getD i [], j < n) (hnd : ∀ i < n, (filePoints (F i)).Nodup)
    (ha : Agree n F b c) (maxDegree : Nat) (hok : adjustOk env n F omap maxDegree) :
    SameCorr n F c (bandAdjust env F omap maxDegree b c) := by
  unfold bandAdjust adjustOk at *
  generalize degrees maxDegree = ds at *
  induction ds generalizing c with
  | nil => intro i _ p _; rfl
  | cons d ds ih =>
    have h1 := bandRound_agree hlt hnd ha d (hok d List.mem_cons_self)
    have h2 := ih (h1.agree ha) (fun d' hd' => hok d' (List.mem_cons_of_mem _ hd'))
    intro i hi p hp
    rw [h1 i hi p hp, List.foldl_cons]
    exact h2 i hi p hp

/-- The tiles that contain a pixel. -/
def covering (n : Nat) (F : Nat → TileFile K) (pix : ℤ × ℤ) : List Nat :=
  (List.range n).filter fun j => decide (pix ∈ filePoints (F j))

omit [FloorRing K] [IsStrictOrderedRing K] in
/-- After the round of degree 2, tile `i` has the average of all tiles at a pixel all of whose other
tiles are neighbours. -/
theorem bandRound_two {env : MergeEnv K} {n : Nat} {F : Nat → TileFile K} {omap : List (List Nat)} {b : Nat}
    {c : Nat → Nat → K} (hlt : ∀ i < n, ∀ j ∈ omap.getD i [], j < n) (hnd : ∀ i < n, (filePoints (F i)).Nodup)
    (hself : ∀ i < n, i ∉ omap.getD i []) (honce : ∀ i < n, (omap.getD i []).Nodup)
    (hok : ∀ i < n, roundOk env F omap 2 i) (pix : ℤ × ℤ) {i : Nat} (hi : i < n) (hpix : pix ∈ filePoints (F i))
    (hrec : ∀ j ∈ covering n F pix, j ≠ i → j ∈ omap.getD i []) (h2 : 2 ≤ (covering n F pix).length) :
    bandAt F b (bandRound env F omap b c 2) i pix =
      some (((covering n F pix).map fun j => (bandAt F b c j pix).getD 0).sum / ((covering n F pix).length : K)) := by
  have hpl := List.idxOf_lt_length_iff.mpr hpix
  have hp : (filePoints (F i)).idxOf pix < (F i).points.length := by rw [filePoints_length] at hpl; exact hpl
  set p := (filePoints (F i)).idxOf pix with hpdef
  have hpt : ptAt F i p = pix := by
    unfold ptAt
    rw [List.getD_eq_getElem _ _ hpl]
    exact List.getElem_idxOf hpl
  have hperm : (covering n F pix).Perm (i :: (omap.getD i []).filter fun j => decide (ptAt F i p ∈ filePoints (F j))) := by
    refine (List.perm_ext_iff_of_nodup (List.nodup_range.filter _)
      (List.nodup_cons.mpr ⟨fun h => hself i hi (List.mem_of_mem_filter h), (honce i hi).filter _⟩)).mpr ?_
    intro j
    change j ∈ covering n F pix ↔ _
    rw [hpt, List.mem_cons, List.mem_filter, decide_eq_true_eq]
    constructor
    · intro hj
      by_cases hji : j = i
      · exact Or.inl hji
      · refine Or.inr ⟨hrec j hj hji, ?_⟩
        unfold covering at hj
        simpa using (List.mem_filter.mp hj).2
    · rintro (rfl | ⟨h1, h2⟩)
      · unfold covering; simp [hi, hpix]
      · unfold covering; simp [hlt i hi j h1, h2]
  have hcnt : cntAt F (omap.getD i []) i p = (covering n F pix).length := by
    unfold cntAt
    rw [hperm.length_eq, List.length_cons]
    omega
  have hsum : sumAt F b c (omap.getD i []) i p = ((covering n F pix).map fun j => (bandAt F b c j pix).getD 0).sum := by
    rw [(hperm.map _).sum_eq, List.map_cons, List.sum_cons]
    unfold sumAt
    congr 1
    · unfold bandAt
      rw [if_pos hpix, Option.getD_some]
    · rw [hpt]
      induction omap.getD i [] with
      | nil => rfl
      | cons j l ih =>
        rw [List.map_cons, List.sum_cons, List.filter_cons, ih]
        by_cases hj : pix ∈ filePoints (F j)
        · simp [hj]
        · simp [hj, bandAt]
  have hmask : maskAt F omap 2 i p = true := by
    unfold maskAt; rw [hcnt, decide_eq_true_eq]; exact h2
  have htch : touched F omap 2 i = true := by
    unfold touched
    rw [List.any_eq_true]
    exact ⟨p, List.mem_range.mpr hp, hmask⟩
  obtain ⟨a, ha1, ha2, _⟩ := hok i hi htch
  have hcorr : bandRound env F omap b c 2 i p = c i p + rawCorr F omap b c i p := by
    unfold bandRound
    rw [if_pos htch]
    unfold tileCorr
    rw [ha1]
    simp only [dirRow, hmask, if_true]
  have hval : bandValue F b (bandRound env F omap b c 2) i p =
      sumAt F b c (omap.getD i []) i p / (cntAt F (omap.getD i []) i p : K) := by
    unfold bandValue at *
    rw [hcorr]
    unfold rawCorr bandValue
    ring
  have hb : bandAt F b (bandRound env F omap b c 2) i pix = some (bandValue F b (bandRound env F omap b c 2) i p) := by
    unfold bandAt
    rw [if_pos hpix]
  rw [hb, hval, hcnt, hsum]

/-- The last round has degree 2. -/
theorem degrees_last {maxDegree : Nat} (h : 2 ≤ maxDegree) : ∃ ds, degrees maxDegree = ds ++ [2] := by
  obtain ⟨k, rfl⟩ := Nat.exists_eq_add_of_le h
  unfold degrees
  refine ⟨((List.range k).reverse.map (· + 3)), ?_⟩
  have : List.range (2 + k + 1) = [0, 1, 2] ++ (List.range k).map (· + 3) := by
    rw [show 2 + k + 1 = 3 + k by omega, List.range_add]
    congr 1
    apply List.map_congr_left
    intro a _
    omega
  rw [this, List.reverse_append, List.filter_append, ← List.map_reverse]
  congr 1
  apply List.filter_eq_self.mpr
  intro a ha
  obtain ⟨x, _, rfl⟩ := List.mem_map.mp ha
  simp

omit [FloorRing K] [IsStrictOrderedRing K] in
/-- After the adjustment all tiles agree at a pixel all of whose tile pairs are neighbours. -/
theorem bandAdjust_equal {env : MergeEnv K} {n : Nat} {F : Nat → TileFile K} {omap : List (List Nat)} {b : Nat}
    {c : Nat → Nat → K} (hlt : ∀ i < n, ∀ j ∈ omap.getD i [], j < n) (hnd : ∀ i < n, (filePoints (F i)).Nodup)
    (hself : ∀ i < n, i ∉ omap.getD i []) (honce : ∀ i < n, (omap.getD i []).Nodup) {maxDegree : Nat}
    (hmax : 2 ≤ maxDegree) (hok : adjustOk env n F omap maxDegree) (pix : ℤ × ℤ)
    (hrec : ∀ i ∈ covering n F pix, ∀ j ∈ covering n F pix, j ≠ i → j ∈ omap.getD i []) :
    ∃ v, ∀ i ∈ covering n F pix, 2 ≤ (covering n F pix).length →
      bandAt F b (bandAdjust env F omap maxDegree b c) i pix = some v := by
  obtain ⟨ds, hds⟩ := degrees_last hmax
  unfold bandAdjust
  unfold adjustOk at hok
  rw [hds] at hok ⊢
  rw [List.foldl_append, List.foldl_cons, List.foldl_nil]
  refine ⟨_, fun i hi h2 => bandRound_two hlt hnd hself honce (hok 2 (by simp)) pix ?_ ?_ (hrec i hi) h2⟩
  · exact List.mem_range.mp (List.mem_of_mem_filter hi)
  · simpa using (List.mem_filter.mp hi).2

end

end Spurt
