import Verif.Lemmas.Merge
import Verif.Props.CostValues
import Verif.Props.MergeBand

/-!
# Property C44: coordinates outside the image

The rasters are written with numpy's indexing: a coordinate counts from the end when negative and raises
`IndexError` when outside `-n, …, n - 1`.
-/

namespace Spurt

/-- Coordinates numpy accepts for an image of this shape. -/
def Addressable (shape : Nat × Nat) (c : ℤ × ℤ) : Prop :=
  -(shape.1 : ℤ) ≤ c.1 ∧ c.1 < shape.1 ∧ -(shape.2 : ℤ) ≤ c.2 ∧ c.2 < shape.2

/-- The pixel they address. -/
def wrapPixel (shape : Nat × Nat) (c : ℤ × ℤ) : Nat × Nat := ((c.1 % shape.1).toNat, (c.2 % shape.2).toNat)

theorem normIdx_some {n : Nat} {i : ℤ} (h1 : -(n : ℤ) ≤ i) (h2 : i < n) : normIdx n i = some (i % n).toNat := by
  unfold normIdx
  by_cases h0 : 0 ≤ i
  · rw [if_pos ⟨h0, h2⟩, Int.emod_eq_of_lt h0 h2]
  · rw [if_neg (by omega), if_pos ⟨h1, by omega⟩]
    have : i % n = i + n := by
      rw [← Int.add_emod_right, Int.emod_eq_of_lt (by omega) (by omega)]
    rw [this]

theorem normIdx_none {n : Nat} {i : ℤ} (h : ¬ (-(n : ℤ) ≤ i ∧ i < n)) : normIdx n i = none := by
  unfold normIdx
  rw [if_neg (by omega), if_neg (by omega)]

theorem pixel_step (shape : Nat × Nat) (c : ℤ × ℤ) :
    (match normIdx shape.1 c.1, normIdx shape.2 c.2 with
      | some r, some q => (.ok (r, q) : Except PyErr (Nat × Nat))
      | _, _ => .error .indexError) =
    if -(shape.1 : ℤ) ≤ c.1 ∧ c.1 < shape.1 ∧ -(shape.2 : ℤ) ≤ c.2 ∧ c.2 < shape.2 then .ok (wrapPixel shape c)
    else .error .indexError := by
  by_cases h1 : -(shape.1 : ℤ) ≤ c.1 ∧ c.1 < shape.1
  · by_cases h2 : -(shape.2 : ℤ) ≤ c.2 ∧ c.2 < shape.2
    · rw [normIdx_some h1.1 h1.2, normIdx_some h2.1 h2.2, if_pos ⟨h1.1, h1.2, h2⟩]; rfl
    · rw [normIdx_none h2, if_neg (by omega)]
      cases normIdx shape.1 c.1 <;> rfl
  · rw [normIdx_none h1, if_neg (by omega)]

/-- C44. The pixels a tile is written to: every coordinate must be one numpy accepts, and negative ones count from the
end; otherwise `IndexError`. -/
theorem C44_pixels (shape : Nat × Nat) (coords : List (ℤ × ℤ)) :
    ((∀ c ∈ coords, Addressable shape c) → pixelsOf shape coords = .ok (coords.map (wrapPixel shape))) ∧
    (¬ (∀ c ∈ coords, Addressable shape c) → pixelsOf shape coords = .error .indexError) := by
  have he : pixelsOf shape coords = coords.mapM fun c : ℤ × ℤ =>
      if -(shape.1 : ℤ) ≤ c.1 ∧ c.1 < shape.1 ∧ -(shape.2 : ℤ) ≤ c.2 ∧ c.2 < shape.2 then .ok (wrapPixel shape c)
      else .error .indexError := by
    unfold pixelsOf
    congr 1
    funext c
    exact pixel_step shape c
  rw [he]
  clear he
  induction coords with
  | nil => exact ⟨fun _ => rfl, fun h => absurd (by simp) h⟩
  | cons c cs ih =>
    constructor
    · intro h
      have hc := h c List.mem_cons_self
      unfold Addressable at hc
      rw [List.mapM_cons, if_pos hc, ih.1 fun x hx => h x (List.mem_cons_of_mem _ hx)]
      rfl
    · intro h
      rw [List.mapM_cons]
      by_cases hc : Addressable shape c
      · unfold Addressable at hc
        rw [if_pos hc, ih.2 (by
          intro h'
          apply h
          intro x hx
          rcases List.mem_cons.mp hx with rfl | hx
          · exact hc
          · exact h' x hx)]
        rfl
      · unfold Addressable at hc
        rw [if_neg hc]; rfl

section
variable {K : Type} [Field K] [LinearOrder K] [FloorRing K]

theorem foldlM_ok_mem {α β : Type} {f : β → α → Except PyErr β} {l : List α} {b r : β} (h : l.foldlM f b = .ok r) :
    ∀ a ∈ l, ∃ x y, f x a = .ok y := by
  induction l generalizing b with
  | nil => simp
  | cons a l ih =>
    rw [List.foldlM_cons] at h
    cases hf : f b a with
    | error e => rw [hf] at h; simp [Bind.bind, Except.bind] at h
    | ok y =>
      rw [hf] at h
      intro x hx
      rcases List.mem_cons.mp hx with rfl | hx
      · exact ⟨b, y, hf⟩
      · exact ih h x hx

/-- C44. When `write_merged_band` returns, every tile has at least the band asked for and all its coordinates address pixels of
the image. -/
theorem C44_merged_coords (tau : K) (shape : Nat × Nat) (tiles : List (TileState K)) (idx : Nat) (m : MergedBand K)
    (h : writeMergedBand tau shape tiles idx = .ok m) :
    tiles ≠ [] ∧ ∀ t ∈ tiles, idx ∈ t.idx ∧ t.level = 1 ∧ ∀ c ∈ t.coords, Addressable shape c := by
  unfold writeMergedBand at h
  split at h
  · simp at h
  · rename_i hany
    simp only [Bind.bind, Except.bind] at h
    have hne : tiles ≠ [] := by
      rintro rfl
      simp at h
    refine ⟨hne, fun t ht => ?_⟩
    have h1 : idx ∈ t.idx ∧ t.level = 1 := by
      by_contra hc
      apply hany
      rw [List.any_eq_true]
      refine ⟨t, ht, ?_⟩
      rw [decide_eq_true_eq]
      by_cases h2 : idx ∈ t.idx
      · exact .inr fun h3 => hc ⟨h2, h3⟩
      · exact .inl h2
    refine ⟨h1.1, h1.2, ?_⟩
    split at h
    · simp at h
    · split at h
      · simp at h
      · rename_i acc hacc
        obtain ⟨x, y, hxy⟩ := foldlM_ok_mem hacc t ht
        by_contra hc
        unfold averageStep at hxy
        rw [(C44_pixels shape t.coords).2 hc] at hxy
        simp [Bind.bind, Except.bind] at hxy

omit [LinearOrder K] [FloorRing K] in
/-- C44. When a single tile is written, all its coordinates address pixels of the image, and if no two address the same
pixel, that pixel has the phase of the file; no other pixel has a value. -/
theorem C44_single_coords (shape : Nat × Nat) (t t' : TileState K) (b : Nat) (band : Band (Option K))
    (h : writeSingleBand shape t b = .ok (t', band)) :
    (∀ c ∈ t.coords, Addressable shape c) ∧
    (∀ r c : Nat, (r, c) ∉ t.coords.map (wrapPixel shape) → band.val r c = none) ∧
    ((t.coords.map (wrapPixel shape)).Nodup → ∀ (p : Nat) x, t.coords[p]? = some x →
      ∃ u, t'.rawUwPhase = .ok u ∧ band.val (wrapPixel shape x).1 (wrapPixel shape x).2 = some (u.val 0 p)) := by
  unfold writeSingleBand at h
  simp only [Bind.bind, Except.bind] at h
  split at h
  · simp at h
  · rename_i t1 ht1
    have hco : t1.coords = t.coords := by
      simp only [TileState.call, TileState.step] at ht1
      cases hrb : readBands t.file [b] with
      | error e => rw [hrb] at ht1; simp [Bind.bind, Except.bind] at ht1
      | ok d =>
        rw [hrb] at ht1
        simp only [Except.ok.injEq] at ht1
        rw [← ht1]; rfl
    rw [hco] at h
    by_cases hA : ∀ c ∈ t.coords, Addressable shape c
    · refine ⟨hA, ?_⟩
      rw [(C44_pixels shape t.coords).1 hA] at h
      simp only at h
      split at h
      · simp at h
      · rename_i u hu
        split at h
        · simp at h
        · rename_i raw hraw
          obtain ⟨g1, g2, hd⟩ := bandRow_ok hraw
          simp only [Pure.pure, Except.pure, Except.ok.injEq, Prod.mk.injEq] at h
          obtain ⟨h1, h2⟩ := h
          subst h1 h2
          constructor
          · intro r c hrc
            exact fancySet_of_not_mem _ _ _ _ hrc
          · intro hnd p x hx
            refine ⟨u, hu, ?_⟩
            obtain ⟨hp, hpe⟩ := List.getElem?_eq_some_iff.mp hx
            subst hd
            have hm := fancySet_of_mem (fun _ => none) (t.coords.map (wrapPixel shape))
              (((List.range t.coords.length).map fun p => u.val 0 p).map some) hnd p (by simpa using hp) (by simpa using hp)
            simp only [List.getElem_map, List.getElem_range, hpe] at hm
            exact hm
    · rw [(C44_pixels shape t.coords).2 hA] at h
      simp at h

end

/-- A coordinate counted from the end, one outside, and a tile that is written. -/
example : pixelsOf (2, 3) [(0, 1), (-1, -3)] = .ok [(0, 1), (1, 0)] ∧ pixelsOf (2, 3) [(0, 1), (-3, 0)] = .error .indexError ∧
    pixelsOf (2, 3) [(0, 3)] = .error .indexError ∧
    ∀ t, exampleTiles[0]? = some t → (writeSingleBand (1, 3) t 0).toOption.isSome = true := by
  refine ⟨by decide, by decide, by decide, fun t ht => ?_⟩
  have : (exampleTiles[0]?.elim false fun t => (writeSingleBand (1, 3) t 0).toOption.isSome) = true := by decide +kernel
  rw [ht] at this
  exact this

end Spurt
