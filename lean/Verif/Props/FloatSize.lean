import Verif.Props.FloatExact
import Verif.Props.CostValues

/-!
# Property C70: the size of the rasters
-/

namespace Spurt
open Spec

/-- The phase rasters a merge writes, with the numbers of their interferograms. -/
def Spec.rastersOf {K : Type} : MergeResult K → List (Nat × Band (Option K))
  | .single l => l
  | .merged l => l.map fun x => (x.1, x.2.out)

section
variable {K : Type} [Field K] [LinearOrder K] [FloorRing K]

theorem foldlM_keeps {σ α ε : Type} {g : σ → α → Except ε σ} (p : σ → Prop) (hg : ∀ s a s', p s → g s a = .ok s' → p s') :
    ∀ (l : List α) (s s' : σ), p s → l.foldlM g s = .ok s' → p s' := by
  intro l
  induction l with
  | nil => intro s s' hs h; simp only [List.foldlM_nil, pure, Except.pure, Except.ok.injEq] at h; exact h ▸ hs
  | cons a l ih =>
    intro s s' hs h
    rw [List.foldlM_cons] at h
    cases h1 : g s a with
    | error e => rw [h1] at h; simp [Bind.bind, Except.bind] at h
    | ok s1 =>
      rw [h1] at h
      exact ih s1 s' (hg s a s1 hs h1) h

theorem except_bind_ok {α β ε : Type} {x : Except ε α} {f : α → Except ε β} {b : β} (h : (x >>= f) = .ok b) :
    ∃ a, x = .ok a ∧ f a = .ok b := by
  cases x with
  | error e => simp [Bind.bind, Except.bind] at h
  | ok a => exact ⟨a, rfl, h⟩

/-- A merged raster with its difference and model rasters has the given size. -/
def MergedBand.HasShape (m : MergedBand K) (shape : Nat × Nat) : Prop :=
  (m.out.rows, m.out.cols) = shape ∧ (m.diff.rows, m.diff.cols) = shape ∧ (m.model.rows, m.model.cols) = shape

theorem writeMergedBandFl_size {A : FloatArith K} {shape : Nat × Nat} {ts : List (TileState K)} {i : Nat} {m : MergedBand K}
    (h : writeMergedBandFl A shape ts i = .ok m) : m.HasShape shape := by
  unfold writeMergedBandFl at h
  split at h
  · simp at h
  · obtain ⟨last, h1, h⟩ := except_bind_ok h
    obtain ⟨acc, h2, h⟩ := except_bind_ok h
    obtain ⟨arr, h3, h⟩ := except_bind_ok h
    simp only [pure, Except.pure, Except.ok.injEq] at h
    subst h
    exact ⟨rfl, rfl, rfl⟩

theorem mergeBatchFl_size {A : FloatArith K} {env : MergeEnv K} {omap : List (List Nat)} {md : Nat} {bulk : List (List K)}
    {shape : Nat × Nat} {isFile : Nat → Bool} {ts : List (TileState K)} {batch : List Nat}
    {r : List (TileState K) × List (Nat × MergedBand K)}
    (h : mergeBatchFl A env omap md bulk shape isFile ts batch = .ok r) : ∀ x ∈ r.2, x.2.HasShape shape := by
  unfold mergeBatchFl at h
  simp only [] at h
  split at h
  · simp only [pure, Except.pure, Except.ok.injEq] at h
    subst h
    simp
  · obtain ⟨t1, h1, h⟩ := except_bind_ok h
    obtain ⟨t2, h2, h⟩ := except_bind_ok h
    obtain ⟨out, h3, h⟩ := except_bind_ok h
    simp only [pure, Except.pure, Except.ok.injEq] at h
    subst h
    intro x hx
    obtain ⟨hl, he⟩ := mapM_entries h3
    obtain ⟨j, hj, hxj⟩ := List.mem_iff_getElem.mp hx
    obtain ⟨b, hb, hw⟩ := he j _ (List.getElem?_eq_getElem (hl ▸ hj))
    rw [List.getElem?_eq_getElem hj, hxj, Option.some.injEq] at hb
    subst hb
    unfold writeNumberedFl at hw
    obtain ⟨m, hm, hw⟩ := except_bind_ok hw
    simp only [pure, Except.pure, Except.ok.injEq] at hw
    subst hw
    exact writeMergedBandFl_size hm

/-- C70. Whatever the arithmetic, the tiles, the settings and the solvers: when `merge_tiles` returns, every raster it
wrote (unwrapped phase, and with several tiles the difference and the model) has the size of the image. -/
theorem C70_size {A : FloatArith K} {env : MergeEnv K} {settings : MergerSettings} {tiles : TileSet}
    {files : Nat → Except PyErr (TileFile K)} {bulkFile : BulkFile K} {nifgs : Nat} {isFile : Nat → Bool}
    {r : MergeResult K} (h : mergeTilesFl A env settings tiles files bulkFile nifgs isFile = .ok r) :
    (∀ x ∈ Spec.rastersOf r, x.2.rows = tiles.shape.1.toNat ∧ x.2.cols = tiles.shape.2.toNat) ∧
    (∀ l, r = .merged l → ∀ x ∈ l, (x.2.diff.rows = tiles.shape.1.toNat ∧ x.2.diff.cols = tiles.shape.2.toNat) ∧
      x.2.model.rows = tiles.shape.1.toNat ∧ x.2.model.cols = tiles.shape.2.toNat) := by
  unfold mergeTilesFl at h
  split at h
  · simp at h
  · obtain ⟨ts, h1, h⟩ := except_bind_ok h
    split at h
    · obtain ⟨t, h2, h⟩ := except_bind_ok h
      obtain ⟨r', h3, h⟩ := except_bind_ok h
      simp only [pure, Except.pure, Except.ok.injEq] at h
      subst h
      refine ⟨?_, by intro l hl; simp at hl⟩
      refine foldlM_keeps (fun s : TileState K × List (Nat × Band (Option K)) => ∀ x ∈ s.2,
        x.2.rows = tiles.shape.1.toNat ∧ x.2.cols = tiles.shape.2.toNat) ?_ _ _ _ (by simp) h3
      intro s a s' hs hg x hx
      obtain ⟨⟨t', b⟩, hb, hg⟩ := except_bind_ok hg
      simp only [pure, Except.pure, Except.ok.injEq] at hg
      subst hg
      rcases List.mem_append.mp hx with hx | hx
      · exact hs x hx
      · simp only [List.mem_singleton] at hx
        subst hx
        unfold writeSingleBandFl at hb
        obtain ⟨a1, _, hb⟩ := except_bind_ok hb
        obtain ⟨a2, _, hb⟩ := except_bind_ok hb
        obtain ⟨a3, _, hb⟩ := except_bind_ok hb
        obtain ⟨a4, _, hb⟩ := except_bind_ok hb
        simp only [pure, Except.pure, Except.ok.injEq, Prod.mk.injEq] at hb
        rw [← hb.2]
        exact ⟨rfl, rfl⟩
    · obtain ⟨omap, h2, h⟩ := except_bind_ok h
      obtain ⟨md, h3, h⟩ := except_bind_ok h
      split at h
      · simp at h
      · obtain ⟨bs, h4, h⟩ := except_bind_ok h
        obtain ⟨r', h5, h⟩ := except_bind_ok h
        simp only [pure, Except.pure, Except.ok.injEq] at h
        subst h
        have key : ∀ x ∈ r'.2, x.2.HasShape (tiles.shape.1.toNat, tiles.shape.2.toNat) := by
          refine foldlM_keeps (fun s : List (TileState K) × List (Nat × MergedBand K) => ∀ x ∈ s.2,
            x.2.HasShape (tiles.shape.1.toNat, tiles.shape.2.toNat)) ?_ _ _ _ (by simp) h5
          intro s a s' hs hg x hx
          obtain ⟨⟨t', b⟩, hb, hg⟩ := except_bind_ok hg
          simp only [pure, Except.pure, Except.ok.injEq] at hg
          subst hg
          rcases List.mem_append.mp hx with hx | hx
          · exact hs x hx
          · exact mergeBatchFl_size hb x hx
        constructor
        · intro x hx
          obtain ⟨y, hy, rfl⟩ := List.mem_map.mp hx
          have := (key y hy).1
          simp only [Prod.mk.injEq] at this
          exact this
        · intro l hl x hx
          simp only [MergeResult.merged.injEq] at hl
          subst hl
          have := key x hx
          simp only [MergedBand.HasShape, Prod.mk.injEq] at this
          exact ⟨this.2.1, this.2.2⟩

end
end Spurt
