import Verif.Lemmas.Merge
import Verif.Lemmas.Rint
import Verif.Props.TileState
import Mathlib.Tactic.FieldSimp
import Mathlib.Algebra.Order.BigOperators.Group.List

/-!
# Property C44: the rasters written for one merged interferogram
-/

namespace Spurt

/-! ### Specification -/

section
variable {K : Type} [Field K]

omit [Field K] in
/-- The value at a pixel of an array with one row for each selected band and one column for each
point of a tile; `none` for a pixel outside the tile. -/
def Spec.valueAt (coords : List (ℤ × ℤ)) (a : Arr K) (k : Nat) (pix : ℤ × ℤ) : Option K :=
  if pix ∈ coords then some (a.val k (coords.idxOf pix)) else none

/-- The corrected phase of a tile at a pixel, in the `k`-th selected band. -/
def Spec.correctedAt (t : TileState K) (k : Nat) (pix : ℤ × ℤ) : Option K :=
  match t.uwPhase with
  | .ok u => Spec.valueAt t.coords u k pix
  | .error _ => none

/-- The phase of a tile at a pixel as it was unwrapped, without corrections. -/
def Spec.rawAt (t : TileState K) (k : Nat) (pix : ℤ × ℤ) : Option K :=
  match t.rawUwPhase with
  | .ok u => Spec.valueAt t.coords u k pix
  | .error _ => none

/-- The tiles lie in the image, list every pixel once, and have the same bands selected. -/
structure Spec.TilesFit (shape : Nat × Nat) (bands : List Nat) (tiles : List (TileState K)) : Prop where
  same : ∀ t ∈ tiles, t.idx = bands
  inside : ∀ t ∈ tiles, ∀ c ∈ t.coords, 0 ≤ c.1 ∧ c.1 < shape.1 ∧ 0 ≤ c.2 ∧ c.2 < shape.2
  once : ∀ t ∈ tiles, t.coords.Nodup

end

open Spec

section
variable {K : Type} [Field K] [LinearOrder K] [FloorRing K]

/-! ### The loops, pixel by pixel -/

omit [Field K] [LinearOrder K] [FloorRing K] in
theorem bandRow_ok {a : Arr K} {ind n : Nat} {l : List K} (h : bandRow a ind n = .ok l) :
    ind < a.rows ∧ a.cols = n ∧ l = (List.range n).map fun p => a.val ind p := by
  unfold bandRow at h
  split at h
  · simp at h
  · split at h
    · simp at h
    · simp only [Except.ok.injEq] at h
      exact ⟨by omega, by omega, h.symm⟩

omit [Field K] [LinearOrder K] [FloorRing K] in
/-- Assignment of combined values, at one pixel. -/
theorem fancySet_zip {α : Type} (shape : Nat × Nat) (coords : List (ℤ × ℤ)) (hin : ∀ c ∈ coords, Inside shape c)
    (hnd : coords.Nodup) (a : Nat × Nat → α) (g : Nat × Nat → K → α) (u : Arr K) (ind : Nat) (p : Nat × Nat) :
    fancySet a (coords.map fun c => (c.1.toNat, c.2.toNat))
      (List.zipWith g (coords.map fun c => (c.1.toNat, c.2.toNat))
        ((List.range coords.length).map fun q => u.val ind q)) p =
    (valueAt coords u ind (pixZ p)).elim (a p) (g p) := by
  obtain ⟨h1, h2, _⟩ := pixelsOf_facts hin hnd
  unfold valueAt
  by_cases hp : pixZ p ∈ coords
  · have hl := List.idxOf_lt_length_iff.mpr hp
    have h := fancySet_of_mem a _ (List.zipWith g (coords.map fun c => (c.1.toNat, c.2.toNat))
        ((List.range coords.length).map fun q => u.val ind q)) h1 (coords.idxOf (pixZ p))
        (by simpa using hl) (by simpa using hl)
    simp only [List.getElem_zipWith, List.getElem_map, List.getElem_range, List.getElem_idxOf hl] at h
    have hz : ((pixZ p).1.toNat, (pixZ p).2.toNat) = p := by simp [pixZ]
    rw [hz] at h
    rw [h, if_pos hp]
    rfl
  · rw [fancySet_of_not_mem _ _ _ _ (fun hc => hp ((h2 p).mp hc)), if_neg hp]
    rfl

omit [LinearOrder K] [FloorRing K] in
theorem fancySet_cnt (shape : Nat × Nat) (coords : List (ℤ × ℤ)) (hin : ∀ c ∈ coords, Inside shape c)
    (hnd : coords.Nodup) (a : Nat × Nat → Nat) (u : Arr K) (ind : Nat) (p : Nat × Nat) :
    fancySet a (coords.map fun c => (c.1.toNat, c.2.toNat))
      ((coords.map fun c => (c.1.toNat, c.2.toNat)).map fun q => a q + 1) p =
    (valueAt coords u ind (pixZ p)).elim (a p) (fun _ => a p + 1) := by
  rw [← fancySet_zip shape coords hin hnd a (fun q _ => a q + 1) u ind p]
  congr 1
  apply List.ext_getElem <;> simp

/-- What the averaging loop has accumulated at one pixel after seeing the values `vals`. -/
structure AccAt (acc : MergeAcc K) (p : Nat × Nat) (vals : List K) : Prop where
  model : acc.model p = vals.sum
  cnt : acc.cnt p = vals.length
  minNone : vals = [] → acc.minval p = none
  minSome : vals ≠ [] → ∃ b ∈ vals, acc.minval p = some b ∧ ∀ x ∈ vals, b ≤ x
  maxNone : vals = [] → acc.maxval p = none
  maxSome : vals ≠ [] → ∃ b ∈ vals, acc.maxval p = some b ∧ ∀ x ∈ vals, x ≤ b

omit [FloorRing K] in
theorem averageStep_at {shape : Nat × Nat} {ind : Nat} {acc acc' : MergeAcc K} {t : TileState K}
    (hin : ∀ c ∈ t.coords, Inside shape c) (hnd : t.coords.Nodup)
    (h : averageStep shape ind acc t = .ok acc') (p : Nat × Nat) (vals : List K) (ha : AccAt acc p vals) :
    AccAt acc' p (vals ++ (correctedAt t ind (pixZ p)).toList) ∧ ∃ u, t.uwPhase = .ok u := by
  unfold averageStep at h
  rw [pixelsOf_inside hin] at h
  simp only [Bind.bind, Except.bind] at h
  split at h
  · simp at h
  · rename_i u hu
    split at h
    · simp at h
    · rename_i data hdata
      obtain ⟨_, _, hd⟩ := bandRow_ok hdata
      simp only [Pure.pure, Except.pure, Except.ok.injEq] at h
      refine ⟨?_, u, hu⟩
      unfold correctedAt
      rw [hu]
      simp only
      subst hd
      have f1 := fancySet_zip shape t.coords hin hnd acc.minval
        (fun p d => some ((acc.minval p).elim d (min d))) u ind p
      have f2 := fancySet_zip shape t.coords hin hnd acc.maxval
        (fun p d => some ((acc.maxval p).elim d (max d))) u ind p
      have f3 := fancySet_zip shape t.coords hin hnd acc.model (fun p d => acc.model p + d) u ind p
      have f4 := fancySet_cnt shape t.coords hin hnd acc.cnt u ind p
      have e1 := congrArg (fun a : MergeAcc K => a.minval p) h
      have e2 := congrArg (fun a : MergeAcc K => a.maxval p) h
      have e3 := congrArg (fun a : MergeAcc K => a.model p) h
      have e4 := congrArg (fun a : MergeAcc K => a.cnt p) h
      replace f1 := e1.symm.trans f1
      replace f2 := e2.symm.trans f2
      replace f3 := e3.symm.trans f3
      replace f4 := e4.symm.trans f4
      cases hv : valueAt t.coords u ind (pixZ p) with
      | none =>
        rw [hv] at f1 f2 f3 f4
        simp only [Option.elim_none] at f1 f2 f3 f4
        simp only [Option.toList_none, List.append_nil]
        exact ⟨f3.trans ha.model, f4.trans ha.cnt, fun e => f1.trans (ha.minNone e),
          fun e => by rw [f1]; exact ha.minSome e,
          fun e => f2.trans (ha.maxNone e), fun e => by rw [f2]; exact ha.maxSome e⟩
      | some d =>
        rw [hv] at f1 f2 f3 f4
        simp only [Option.elim_some] at f1 f2 f3 f4
        simp only [Option.toList_some]
        refine ⟨by rw [f3, ha.model]; simp, by rw [f4, ha.cnt]; simp, by simp, fun _ => ?_, by simp,
          fun _ => ?_⟩
        · rw [f1]
          by_cases he : vals = []
          · rw [ha.minNone he, he]
            exact ⟨d, by simp, rfl, by simp⟩
          · obtain ⟨b, hb, hb1, hb2⟩ := ha.minSome he
            rw [hb1]
            refine ⟨min d b, ?_, rfl, ?_⟩
            · rcases min_choice d b with h | h <;> rw [h] <;> simp [hb]
            · intro x hx
              rw [List.mem_append, List.mem_singleton] at hx
              rcases hx with hx | rfl
              · exact (min_le_right _ _).trans (hb2 x hx)
              · exact min_le_left _ _
        · rw [f2]
          by_cases he : vals = []
          · rw [ha.maxNone he, he]
            exact ⟨d, by simp, rfl, by simp⟩
          · obtain ⟨b, hb, hb1, hb2⟩ := ha.maxSome he
            rw [hb1]
            refine ⟨max d b, ?_, rfl, ?_⟩
            · rcases max_choice d b with h | h <;> rw [h] <;> simp [hb]
            · intro x hx
              rw [List.mem_append, List.mem_singleton] at hx
              rcases hx with hx | rfl
              · exact (hb2 x hx).trans (le_max_right _ _)
              · exact le_max_left _ _

omit [FloorRing K] in
theorem average_at {shape : Nat × Nat} {ind : Nat} (tiles : List (TileState K)) {acc acc' : MergeAcc K}
    (hin : ∀ t ∈ tiles, ∀ c ∈ t.coords, Inside shape c) (hnd : ∀ t ∈ tiles, t.coords.Nodup)
    (h : tiles.foldlM (averageStep shape ind) acc = .ok acc') (p : Nat × Nat) (vals : List K)
    (ha : AccAt acc p vals) :
    AccAt acc' p (vals ++ tiles.filterMap fun t => correctedAt t ind (pixZ p)) ∧
    ∀ t ∈ tiles, ∃ u, t.uwPhase = .ok u := by
  induction tiles generalizing acc vals with
  | nil =>
    simp only [List.foldlM_nil, Pure.pure, Except.pure, Except.ok.injEq] at h
    subst h
    simpa using ha
  | cons t tiles ih =>
    simp only [List.foldlM_cons, Bind.bind, Except.bind] at h
    split at h
    · simp at h
    · rename_i acc1 h1
      obtain ⟨ha1, hu⟩ := averageStep_at (hin t List.mem_cons_self) (hnd t List.mem_cons_self) h1 p vals ha
      obtain ⟨hb, hus⟩ := ih (fun s hs => hin s (List.mem_cons_of_mem _ hs))
        (fun s hs => hnd s (List.mem_cons_of_mem _ hs)) h _ ha1
      constructor
      · rw [List.append_assoc] at hb
        convert hb using 2
        rw [List.filterMap_cons]
        cases correctedAt t ind (pixZ p) <;> simp
      · intro s hs
        rcases List.mem_cons.mp hs with rfl | hs
        · exact hu
        · exact hus s hs

theorem output_at {tau : K} {shape : Nat × Nat} {ind : Nat} {model : Nat × Nat → K}
    (tiles : List (TileState K)) {arr arr' : Nat × Nat → Option K}
    (hin : ∀ t ∈ tiles, ∀ c ∈ t.coords, Inside shape c) (hnd : ∀ t ∈ tiles, t.coords.Nodup)
    (h : tiles.foldlM (outputStep tau shape ind model) arr = .ok arr') (p : Nat × Nat) :
    ((∀ t ∈ tiles, pixZ p ∉ t.coords) → arr' p = arr p) ∧
    ((∃ t ∈ tiles, pixZ p ∈ t.coords) → ∃ t ∈ tiles, pixZ p ∈ t.coords ∧ ∃ x, rawAt t ind (pixZ p) = some x ∧
      arr' p = some (model p + (x - model p) - tau * (rint ((x - model p) / tau) : ℤ))) ∧
    ∀ t ∈ tiles, ∃ u, t.rawUwPhase = .ok u := by
  induction tiles generalizing arr with
  | nil =>
    simp only [List.foldlM_nil, Pure.pure, Except.pure, Except.ok.injEq] at h
    subst h
    simp
  | cons t tiles ih =>
    simp only [List.foldlM_cons, Bind.bind, Except.bind] at h
    split at h
    · simp at h
    · rename_i arr1 h1
      unfold outputStep at h1
      rw [pixelsOf_inside (hin t List.mem_cons_self)] at h1
      simp only [Bind.bind, Except.bind] at h1
      split at h1
      · simp at h1
      · rename_i u hu
        split at h1
        · simp at h1
        · rename_i raw hraw
          obtain ⟨_, _, hd⟩ := bandRow_ok hraw
          simp only [Pure.pure, Except.pure, Except.ok.injEq] at h1
          subst hd
          have f := fancySet_zip shape t.coords (hin t List.mem_cons_self) (hnd t List.mem_cons_self) arr
            (fun p x => some (model p + (x - model p) - tau * (rint ((x - model p) / tau) : ℤ))) u ind p
          rw [h1] at f
          obtain ⟨i1, i2, i3⟩ := ih (fun s hs => hin s (List.mem_cons_of_mem _ hs))
            (fun s hs => hnd s (List.mem_cons_of_mem _ hs)) h
          refine ⟨fun hno => ?_, fun hex => ?_, fun s hs => ?_⟩
          · rw [i1 fun s hs => hno s (List.mem_cons_of_mem _ hs), f]
            unfold valueAt
            rw [if_neg (hno t List.mem_cons_self)]
            rfl
          · by_cases hex' : ∃ s ∈ tiles, pixZ p ∈ s.coords
            · obtain ⟨s, hs, h⟩ := i2 hex'
              exact ⟨s, List.mem_cons_of_mem _ hs, h⟩
            · have hno : ∀ s ∈ tiles, pixZ p ∉ s.coords := fun s hs hc => hex' ⟨s, hs, hc⟩
              have ht : pixZ p ∈ t.coords := by
                obtain ⟨s, hs, hc⟩ := hex
                rcases List.mem_cons.mp hs with rfl | hs
                · exact hc
                · exact absurd hc (hno s hs)
              refine ⟨t, List.mem_cons_self, ht, u.val ind (t.coords.idxOf (pixZ p)), ?_, ?_⟩
              · unfold rawAt; rw [hu]; simp only [valueAt, if_pos ht]
              · rw [i1 hno, f]
                simp only [valueAt, if_pos ht, Option.elim_some]
          · rcases List.mem_cons.mp hs with rfl | hs
            · exact ⟨u, hu⟩
            · exact i3 s hs

/-- Everything `write_merged_band` writes at one pixel. -/
theorem writeMergedBand_at {tau : K} {shape : Nat × Nat} {tiles : List (TileState K)} {bands : List Nat}
    (hfit : TilesFit shape bands tiles) {b : Nat} {m : MergedBand K}
    (h : writeMergedBand tau shape tiles b = .ok m) (r c : Nat) :
    tiles ≠ [] ∧ b ∈ bands ∧ (∀ t ∈ tiles, ∃ u, t.uwPhase = .ok u) ∧ (∀ t ∈ tiles, ∃ u, t.rawUwPhase = .ok u) ∧
    ∃ acc : MergeAcc K, AccAt acc (r, c)
        (tiles.filterMap fun t => correctedAt t (bands.idxOf b) ((r : ℤ), (c : ℤ))) ∧
      m.model.val r c = (if acc.cnt (r, c) = 0 then none else some (acc.model (r, c) / (acc.cnt (r, c) : K))) ∧
      m.diff.val r c = (if acc.cnt (r, c) < 2 then none
        else (acc.maxval (r, c)).bind fun a => (acc.minval (r, c)).map fun b => a - b) ∧
      ((∀ t ∈ tiles, ((r : ℤ), (c : ℤ)) ∉ t.coords) → m.out.val r c = none) ∧
      ((∃ t ∈ tiles, ((r : ℤ), (c : ℤ)) ∈ t.coords) →
        ∃ t ∈ tiles, ((r : ℤ), (c : ℤ)) ∈ t.coords ∧ ∃ x, rawAt t (bands.idxOf b) ((r : ℤ), (c : ℤ)) = some x ∧
        m.out.val r c = some (x - tau * (rint ((x - acc.model (r, c) / (acc.cnt (r, c) : K)) / tau) : ℤ))) := by
  unfold writeMergedBand at h
  split at h
  · simp at h
  · rename_i hany
    cases hl : tiles.getLast? with
    | none => rw [hl] at h; simp [Bind.bind, Except.bind] at h
    | some last =>
      rw [hl] at h
      have hne : tiles ≠ [] := by rintro rfl; simp at hl
      have hlast : last ∈ tiles := List.mem_of_getLast? hl
      have hin : ∀ t ∈ tiles, ∀ c ∈ t.coords, Inside shape c := hfit.inside
      simp only [Option.elim_some, Bind.bind, Except.bind, hfit.same last hlast] at h
      split at h
      · simp at h
      · rename_i acc hacc
        split at h
        · simp at h
        · rename_i arr harr
          simp only [Pure.pure, Except.pure, Except.ok.injEq] at h
          obtain ⟨a1, a2⟩ := average_at tiles hin hfit.once hacc (r, c) []
            ⟨by simp, by simp, by simp, by simp, by simp, by simp⟩
          obtain ⟨o1, o2, o3⟩ := output_at tiles hin hfit.once harr (r, c)
          refine ⟨hne, ?_, a2, o3, acc, by simpa [pixZ] using a1, ?_, ?_, ?_, ?_⟩
          · by_contra hb
            apply hany
            rw [List.any_eq_true]
            refine ⟨last, hlast, ?_⟩
            rw [hfit.same last hlast]
            simp [hb]
          · subst h; rfl
          · subst h; rfl
          · subst h; exact fun hno => o1 hno
          · subst h
            intro hex
            obtain ⟨t, ht, hc, x, hx, hv⟩ := o2 hex
            refine ⟨t, ht, hc, x, hx, ?_⟩
            simp only [hv]
            congr 1
            ring

omit [LinearOrder K] [FloorRing K] in
theorem correctedAt_some {tiles : List (TileState K)} {k : Nat} {pix : ℤ × ℤ}
    (hu : ∀ t ∈ tiles, ∃ u, t.uwPhase = .ok u) :
    (tiles.filterMap fun t => correctedAt t k pix) = [] ↔ ∀ t ∈ tiles, pix ∉ t.coords := by
  rw [List.filterMap_eq_nil_iff]
  constructor
  · intro h t ht hc
    obtain ⟨u, hu⟩ := hu t ht
    have := h t ht
    unfold correctedAt valueAt at this
    rw [hu] at this
    simp [hc] at this
  · intro h t ht
    obtain ⟨u, hu⟩ := hu t ht
    unfold correctedAt valueAt
    rw [hu]
    simp [h t ht]

variable [IsStrictOrderedRing K]

theorem wrap_near {tau : K} (htau : 0 < tau) (x y : K) :
    |x - tau * (rint ((x - y) / tau) : ℤ) - y| ≤ tau / 2 := by
  have hb := rint_abs ((x - y) / tau)
  have he : x - tau * (rint ((x - y) / tau) : ℤ) - y = tau * ((x - y) / tau - (rint ((x - y) / tau) : ℤ)) := by
    field_simp
    ring
  rw [he, abs_mul, abs_of_pos htau]
  calc tau * |(x - y) / tau - (rint ((x - y) / tau) : ℤ)| ≤ tau * (1 / 2) :=
        mul_le_mul_of_nonneg_left hb htau.le
    _ = tau / 2 := by ring

omit [IsStrictOrderedRing K] in
/-- C44. A pixel in no tile is NaN in all three rasters. -/
theorem C44_uncovered (tau : K) (shape : Nat × Nat) (tiles : List (TileState K)) (bands : List Nat)
    (hfit : TilesFit shape bands tiles) (b : Nat) (m : MergedBand K)
    (h : writeMergedBand tau shape tiles b = .ok m) (r c : Nat)
    (hno : ∀ t ∈ tiles, ((r : ℤ), (c : ℤ)) ∉ t.coords) :
    m.out.val r c = none ∧ m.diff.val r c = none ∧ m.model.val r c = none := by
  obtain ⟨_, _, hu, _, acc, ha, hm, hd, ho, _⟩ := writeMergedBand_at hfit h r c
  have hnil := (correctedAt_some (k := bands.idxOf b) hu).mpr hno
  rw [hnil] at ha
  have hc : acc.cnt (r, c) = 0 := ha.cnt
  exact ⟨ho hno, by rw [hd, hc]; rfl, by rw [hm, hc]; rfl⟩

/-- C44. At a covered pixel the model is the mean of the corrected phases of the covering tiles, and
lies between their smallest and largest value. -/
theorem C44_model (tau : K) (shape : Nat × Nat) (tiles : List (TileState K)) (bands : List Nat)
    (hfit : TilesFit shape bands tiles) (b : Nat) (m : MergedBand K)
    (h : writeMergedBand tau shape tiles b = .ok m) (r c : Nat)
    (hc : ∃ t ∈ tiles, ((r : ℤ), (c : ℤ)) ∈ t.coords) (vals : List K)
    (hv : vals = tiles.filterMap fun t => correctedAt t (bands.idxOf b) ((r : ℤ), (c : ℤ))) :
    vals.length = (tiles.filter fun t => decide (((r : ℤ), (c : ℤ)) ∈ t.coords)).length ∧
    ∃ lo ∈ vals, ∃ hi ∈ vals, ∃ mean, m.model.val r c = some mean ∧ mean * vals.length = vals.sum ∧
      lo ≤ mean ∧ mean ≤ hi ∧ ∀ x ∈ vals, lo ≤ x ∧ x ≤ hi := by
  obtain ⟨_, _, hu, _, acc, ha, hm, hd, ho, _⟩ := writeMergedBand_at hfit h r c
  rw [← hv] at ha
  have hne : vals ≠ [] := by
    rw [hv]
    intro he
    obtain ⟨t, ht, hc⟩ := hc
    exact (correctedAt_some hu).mp he t ht hc
  have hlen : vals.length ≠ 0 := fun hz => hne (List.length_eq_zero_iff.mp hz)
  have hpos : (0 : K) < vals.length := by exact_mod_cast Nat.pos_of_ne_zero hlen
  constructor
  · rw [hv]
    have key : ∀ (tiles : List (TileState K)), (∀ t ∈ tiles, ∃ u, t.uwPhase = .ok u) →
        (tiles.filterMap fun t => correctedAt t (bands.idxOf b) ((r : ℤ), (c : ℤ))).length =
        (tiles.filter fun t => decide (((r : ℤ), (c : ℤ)) ∈ t.coords)).length := by
      intro tiles
      induction tiles with
      | nil => simp
      | cons t tiles ih =>
        intro hu
        have ih := ih fun s hs => hu s (List.mem_cons_of_mem _ hs)
        obtain ⟨u, hu⟩ := hu t List.mem_cons_self
        rw [List.filterMap_cons, List.filter_cons]
        by_cases hp : ((r : ℤ), (c : ℤ)) ∈ t.coords
        · simp only [correctedAt, hu, valueAt, hp, if_true, decide_true, List.length_cons]
          rw [← ih]
          rfl
        · simp only [correctedAt, hu, valueAt, hp, if_false, decide_false]
          exact ih
    exact key tiles hu
  · obtain ⟨lo, hlo, _, hlo2⟩ := ha.minSome hne
    obtain ⟨hi, hhi, _, hhi2⟩ := ha.maxSome hne
    refine ⟨lo, hlo, hi, hhi, vals.sum / vals.length, ?_, ?_, ?_, ?_, fun x hx => ⟨hlo2 x hx, hhi2 x hx⟩⟩
    · rw [hm, ha.cnt, ha.model, if_neg hlen]
    · field_simp
    · rw [le_div_iff₀ hpos]
      have := List.card_nsmul_le_sum vals lo hlo2
      rw [nsmul_eq_mul] at this
      linarith
    · rw [div_le_iff₀ hpos]
      have := List.sum_le_card_nsmul vals hi hhi2
      rw [nsmul_eq_mul] at this
      linarith

omit [IsStrictOrderedRing K] in
/-- C44. The diff raster is the spread of the corrected phases where two or more tiles overlap, and
NaN elsewhere. -/
theorem C44_diff (tau : K) (shape : Nat × Nat) (tiles : List (TileState K)) (bands : List Nat)
    (hfit : TilesFit shape bands tiles) (b : Nat) (m : MergedBand K)
    (h : writeMergedBand tau shape tiles b = .ok m) (r c : Nat) (vals : List K)
    (hv : vals = tiles.filterMap fun t => correctedAt t (bands.idxOf b) ((r : ℤ), (c : ℤ))) :
    (vals.length < 2 → m.diff.val r c = none) ∧
    (2 ≤ vals.length → ∃ lo ∈ vals, ∃ hi ∈ vals, (∀ x ∈ vals, lo ≤ x ∧ x ≤ hi) ∧
      m.diff.val r c = some (hi - lo)) := by
  obtain ⟨_, _, hu, _, acc, ha, hm, hd, ho, _⟩ := writeMergedBand_at hfit h r c
  rw [← hv] at ha
  constructor
  · intro hl
    rw [hd, ha.cnt, if_pos hl]
  · intro hl
    have hne : vals ≠ [] := by rintro he; simp [he] at hl
    obtain ⟨lo, hlo, hlo1, hlo2⟩ := ha.minSome hne
    obtain ⟨hi, hhi, hhi1, hhi2⟩ := ha.maxSome hne
    refine ⟨lo, hlo, hi, hhi, fun x hx => ⟨hlo2 x hx, hhi2 x hx⟩, ?_⟩
    rw [hd, ha.cnt, if_neg (by omega), hlo1, hhi1]
    rfl

/-- C44. Every covered pixel of the output differs from the unwrapped phase of a tile containing it
by whole cycles and lies within half a cycle of the model. -/
theorem C44_output (tau : K) (htau : 0 < tau) (shape : Nat × Nat) (tiles : List (TileState K))
    (bands : List Nat) (hfit : TilesFit shape bands tiles) (b : Nat) (m : MergedBand K)
    (h : writeMergedBand tau shape tiles b = .ok m) (r c : Nat)
    (hc : ∃ t ∈ tiles, ((r : ℤ), (c : ℤ)) ∈ t.coords) :
    ∃ v mean, m.out.val r c = some v ∧ m.model.val r c = some mean ∧ |v - mean| ≤ tau / 2 ∧
      ∃ t ∈ tiles, ∃ x, rawAt t (bands.idxOf b) ((r : ℤ), (c : ℤ)) = some x ∧ ∃ n : ℤ, v = x + tau * n := by
  obtain ⟨_, _, hu, _, acc, ha, hm, hd, ho, hcov⟩ := writeMergedBand_at hfit h r c
  obtain ⟨t, ht, hct, x, hx, hout⟩ := hcov hc
  have hne : acc.cnt (r, c) ≠ 0 := by
    rw [ha.cnt]
    intro hz
    exact (correctedAt_some hu).mp (List.length_eq_zero_iff.mp hz) t ht hct
  rw [if_neg hne] at hm
  refine ⟨_, _, hout, hm, ?_, t, ht, x, hx, -rint ((x - acc.model (r, c) / (acc.cnt (r, c) : K)) / tau),
    by push_cast; ring⟩
  exact wrap_near htau x _

/-- C44. When the tiles containing the pixel agree up to whole cycles, the output agrees with each
of them up to whole cycles. -/
theorem C44_congruent (tau : K) (htau : 0 < tau) (shape : Nat × Nat) (tiles : List (TileState K))
    (bands : List Nat) (hfit : TilesFit shape bands tiles) (b : Nat) (m : MergedBand K)
    (h : writeMergedBand tau shape tiles b = .ok m) (r c : Nat)
    (hcong : ∀ s ∈ tiles, ∀ t ∈ tiles, ∀ x y, rawAt s (bands.idxOf b) ((r : ℤ), (c : ℤ)) = some x →
      rawAt t (bands.idxOf b) ((r : ℤ), (c : ℤ)) = some y → ∃ n : ℤ, y = x + tau * n)
    (t : TileState K) (ht : t ∈ tiles) (y : K) (hy : rawAt t (bands.idxOf b) ((r : ℤ), (c : ℤ)) = some y) :
    ∃ v, m.out.val r c = some v ∧ ∃ n : ℤ, v = y + tau * n := by
  have hc : ∃ t ∈ tiles, ((r : ℤ), (c : ℤ)) ∈ t.coords := by
    refine ⟨t, ht, ?_⟩
    by_contra hno
    unfold rawAt valueAt at hy
    cases hu : t.rawUwPhase with
    | error e => rw [hu] at hy; simp at hy
    | ok u => rw [hu] at hy; simp [hno] at hy
  obtain ⟨v, _, hv, _, _, s, hs, x, hx, n, hn⟩ := C44_output tau htau shape tiles bands hfit b m h r c hc
  obtain ⟨k, hk⟩ := hcong t ht s hs y x hy hx
  exact ⟨v, hv, k + n, by rw [hn, hk]; push_cast; ring⟩

omit [IsStrictOrderedRing K] [LinearOrder K] [FloorRing K] in
/-- C44. With a single tile the output holds the unwrapped phase of the tile, offset included, and
NaN outside it. -/
theorem C44_single (shape : Nat × Nat) (t t' : TileState K) (b : Nat) (band : Band (Option K))
    (hin : ∀ c ∈ t.coords, 0 ≤ c.1 ∧ c.1 < shape.1 ∧ 0 ≤ c.2 ∧ c.2 < shape.2) (hnd : t.coords.Nodup)
    (h : writeSingleBand shape t b = .ok (t', band)) (r c : Nat) :
    t'.file = t.file ∧ band.rows = shape.1 ∧ band.cols = shape.2 ∧
    (((r : ℤ), (c : ℤ)) ∉ t.coords → band.val r c = none) ∧
    ∀ p, t.coords[p]? = some ((r : ℤ), (c : ℤ)) → band.val r c = some (filePhase t.file b p) := by
  unfold writeSingleBand at h
  simp only [TileState.call, TileState.step] at h
  cases hrb : readBands t.file [b] with
  | error e => rw [hrb] at h; simp [Bind.bind, Except.bind] at h
  | ok d =>
    obtain ⟨e1, e2, e3⟩ := readBands_value hrb
    rw [hrb] at h
    simp only [Bind.bind, Except.bind] at h
    have hco : TileState.coords { t with idx := [b], uwdata := some d, level := 0, corrections := [] } = t.coords := rfl
    rw [hco, pixelsOf_inside hin] at h
    simp only at h
    split at h
    · simp at h
    · rename_i u hu
      split at h
      · simp at h
      · rename_i raw hraw
        obtain ⟨g1, g2, hd⟩ := bandRow_ok hraw
        simp only [Pure.pure, Except.pure, Except.ok.injEq, Prod.mk.injEq] at h
        obtain ⟨h1, h2⟩ := h
        subst h1 h2 hd
        have hval : ∀ p, p < t.coords.length → u.val 0 p = filePhase t.file b p := by
          intro p hp
          unfold TileState.rawUwPhase TileState.getUwPhase TileState.correctionsSum Arr.sum at hu
          simp only [List.take_zero, List.foldlM_nil, Pure.pure, Except.pure, Bind.bind, Except.bind,
            Option.elim_some] at hu
          have hb := Arr.bget_add hu 0 p
          rw [Arr.bget_scalar, add_zero, ← Arr.val_eq_bget g1 (by omega)] at hb
          rw [hb]
          have hc : d.cols = t.coords.length := by
            unfold Arr.add bdim Arr.scalar at hu
            simp only at hu
            split at hu
            · rename_i r' c' hr hc
              simp only [Except.ok.injEq] at hu
              subst hu
              simp only at g2
              split at hc
              · simp at hc; omega
              · split at hc
                · simp at hc; omega
                · simp at hc
            · simp at hu
          rw [← Arr.val_eq_bget (by rw [e1]; simp) (by omega), e3]
          rfl
        have f := fancySet_zip shape t.coords hin hnd (fun _ => (none : Option K)) (fun _ x => some x) u 0 (r, c)
        have hz : List.zipWith (fun (_ : Nat × Nat) (x : K) => some x) (t.coords.map fun c => (c.1.toNat, c.2.toNat))
            ((List.range t.coords.length).map fun q => u.val 0 q) =
            ((List.range t.coords.length).map fun q => u.val 0 q).map some := by
          apply List.ext_getElem <;> simp
        rw [hz] at f
        refine ⟨rfl, rfl, rfl, fun hno => ?_, fun p hp => ?_⟩
        · refine f.trans ?_
          unfold valueAt
          rw [if_neg (show pixZ (r, c) ∉ t.coords from hno)]
          rfl
        · obtain ⟨hpl, hpe⟩ := List.getElem?_eq_some_iff.mp hp
          refine f.trans ?_
          have hm : pixZ (r, c) ∈ t.coords := by
            rw [show pixZ (r, c) = ((r : ℤ), (c : ℤ)) from rfl, ← hpe]; exact List.getElem_mem hpl
          unfold valueAt
          rw [if_pos hm]
          have hi : t.coords.idxOf (pixZ (r, c)) = p := by
            rw [show pixZ (r, c) = ((r : ℤ), (c : ℤ)) from rfl, ← hpe]
            exact hnd.idxOf_getElem p hpl
          rw [hi]
          simp [hval p hpl]

end

/-! ### A concrete case -/

/-- Two tiles of two pixels that share the pixel in the middle of a row of three, and whose phases
there differ by one cycle. -/
def exampleTiles : List (TileState ℚ) :=
  [⟨⟨[[1/4, 1/2]], [(0, 0), (0, 1)], ⟨0, 0, 1, 2⟩, [0]⟩, [0], some ⟨1, 2, fun _ p => [1/4, 1/2].getD p 0⟩,
      [.scalar 0], 1⟩,
   ⟨⟨[[3/2, 5/4]], [(0, 0), (0, 1)], ⟨0, 1, 1, 3⟩, [0]⟩, [0], some ⟨1, 2, fun _ p => [3/2, 5/4].getD p 0⟩,
      [.scalar (-1)], 1⟩]

/-- The hypotheses of the theorems hold for the two tiles, one cycle being 1. The merged values are
1/4, 1/2 and 1/4. -/
example : TilesFit (1, 3) [0] exampleTiles ∧
    ∃ m, writeMergedBand 1 (1, 3) exampleTiles 0 = .ok m ∧
      m.out.val 0 0 = some (1/4) ∧ m.out.val 0 1 = some (1/2) ∧ m.out.val 0 2 = some (1/4) ∧
      m.diff.val 0 0 = none ∧ m.diff.val 0 1 = some 0 := by
  refine ⟨⟨by decide, by decide, by decide⟩, ?_⟩
  have h : ∃ m, writeMergedBand 1 (1, 3) exampleTiles 0 = .ok m := by
    have : (writeMergedBand 1 (1, 3) exampleTiles 0).toOption.isSome = true := by decide +kernel
    cases hm : writeMergedBand 1 (1, 3) exampleTiles 0 with
    | error e => rw [hm] at this; simp [Except.toOption] at this
    | ok m => exact ⟨m, rfl⟩
  obtain ⟨m, hm⟩ := h
  have hv : (writeMergedBand 1 (1, 3) exampleTiles 0).toOption.map (fun m =>
      (m.out.val 0 0, m.out.val 0 1, m.out.val 0 2, m.diff.val 0 0, m.diff.val 0 1)) =
      some (some (1/4), some (1/2), some (1/4), none, some 0) := by decide +kernel
  rw [hm] at hv
  simp only [Except.toOption, Option.map_some, Option.some.injEq, Prod.mk.injEq] at hv
  exact ⟨m, hm, hv.1, hv.2.1, hv.2.2.1, hv.2.2.2.1, hv.2.2.2.2⟩

end Spurt
