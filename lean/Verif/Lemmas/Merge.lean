import Verif.Model.Merge
import Mathlib.Data.List.Nodup
import Mathlib.Data.List.GetD
import Mathlib.Tactic.Linarith

/-!
# Lemmas about indexed assignment
-/

namespace Spurt

section
variable {ι α : Type} [DecidableEq ι]

theorem fancySet_cons (a : ι → α) (i : ι) (idx : List ι) (x : α) (v : List α) :
    fancySet a (i :: idx) (x :: v) = fancySet (Function.update a i x) idx v := rfl

/-- Elements that are not addressed keep their value. -/
theorem fancySet_of_not_mem (a : ι → α) (idx : List ι) (v : List α) (p : ι) (h : p ∉ idx) :
    fancySet a idx v p = a p := by
  induction idx generalizing a v with
  | nil => cases v <;> rfl
  | cons i idx ih =>
    cases v with
    | nil => rfl
    | cons x v =>
      rw [fancySet_cons, ih _ _ (fun hc => h (List.mem_cons_of_mem _ hc))]
      have : p ≠ i := fun hc => h (hc ▸ List.mem_cons_self)
      simp [Function.update, this]

/-- Without repeated indices the addressed elements get the given values. -/
theorem fancySet_of_mem (a : ι → α) (idx : List ι) (v : List α) (hnd : idx.Nodup) (n : Nat)
    (hn : n < idx.length) (hv : n < v.length) : fancySet a idx v idx[n] = v[n] := by
  induction idx generalizing a v n with
  | nil => simp at hn
  | cons i idx ih =>
    cases v with
    | nil => simp at hv
    | cons x v =>
      rw [fancySet_cons]
      rw [List.nodup_cons] at hnd
      cases n with
      | zero =>
        simp only [List.getElem_cons_zero]
        rw [fancySet_of_not_mem _ _ _ _ hnd.1]
        simp
      | succ n =>
        simp only [List.getElem_cons_succ]
        exact ih _ v hnd.2 n (by simpa using hn) (by simpa using hv)

/-- The value at `p`, by the position of `p` in the index list. -/
theorem fancySet_eq (a : ι → α) (idx : List ι) (v : List α) (hnd : idx.Nodup) (hlen : v.length = idx.length)
    (p : ι) : fancySet a idx v p = if h : p ∈ idx then
      v[idx.idxOf p]'(by rw [hlen]; exact List.idxOf_lt_length_iff.mpr h) else a p := by
  by_cases h : p ∈ idx
  · rw [dif_pos h]
    have hl := List.idxOf_lt_length_iff.mpr h
    have := fancySet_of_mem a idx v hnd (idx.idxOf p) hl (by omega)
    rwa [List.getElem_idxOf hl] at this
  · rw [dif_neg h, fancySet_of_not_mem _ _ _ _ h]

end

/-- The pixel of the image as a pair of signed coordinates. -/
def pixZ (p : Nat × Nat) : ℤ × ℤ := ((p.1 : ℤ), (p.2 : ℤ))

theorem pixZ_inj {p q : Nat × Nat} (h : pixZ p = pixZ q) : p = q := by
  unfold pixZ at h
  simp only [Prod.mk.injEq, Nat.cast_inj] at h
  exact Prod.ext h.1 h.2

/-- Coordinates inside an image. -/
def Inside (shape : Nat × Nat) (c : ℤ × ℤ) : Prop :=
  0 ≤ c.1 ∧ c.1 < shape.1 ∧ 0 ≤ c.2 ∧ c.2 < shape.2

theorem pixelsOf_inside {shape : Nat × Nat} {coords : List (ℤ × ℤ)} (h : ∀ c ∈ coords, Inside shape c) :
    pixelsOf shape coords = .ok (coords.map fun c => (c.1.toNat, c.2.toNat)) := by
  unfold pixelsOf
  induction coords with
  | nil => rfl
  | cons c cs ih =>
    have hc := h c List.mem_cons_self
    have ih := ih fun c' hc' => h c' (List.mem_cons_of_mem _ hc')
    unfold Inside at hc
    have h1 : normIdx shape.1 c.1 = some c.1.toNat := by
      unfold normIdx; rw [if_pos ⟨hc.1, hc.2.1⟩]
    have h2 : normIdx shape.2 c.2 = some c.2.toNat := by
      unfold normIdx; rw [if_pos ⟨hc.2.2.1, hc.2.2.2⟩]
    simp only [List.mapM_cons, Bind.bind, Except.bind, h1, h2, ih]
    rfl

theorem toNat_pixZ {shape : Nat × Nat} {c : ℤ × ℤ} (h : Inside shape c) : pixZ (c.1.toNat, c.2.toNat) = c := by
  unfold Inside at h
  unfold pixZ
  rw [Int.toNat_of_nonneg h.1, Int.toNat_of_nonneg h.2.2.1]

theorem idxOf_map_of_injOn {α β : Type} [BEq α] [LawfulBEq α] [BEq β] [LawfulBEq β] (f : α → β) (l : List α) (x : α)
    (h : ∀ y ∈ l, f y = f x → y = x) : (l.map f).idxOf (f x) = l.idxOf x := by
  induction l with
  | nil => rfl
  | cons a l ih =>
    rw [List.map_cons, List.idxOf_cons, List.idxOf_cons, ih fun y hy => h y (List.mem_cons_of_mem _ hy)]
    by_cases ha : a = x
    · subst ha; simp
    · have : f a ≠ f x := fun hc => ha (h a List.mem_cons_self hc)
      rw [beq_eq_false_iff_ne.mpr ha, beq_eq_false_iff_ne.mpr this]

/-- Facts about the pixel list of coordinates inside the image. -/
theorem pixelsOf_facts {shape : Nat × Nat} {coords : List (ℤ × ℤ)} (h : ∀ c ∈ coords, Inside shape c)
    (hnd : coords.Nodup) :
    (coords.map fun c => (c.1.toNat, c.2.toNat)).Nodup ∧
    (∀ p, p ∈ (coords.map fun c : ℤ × ℤ => (c.1.toNat, c.2.toNat)) ↔ pixZ p ∈ coords) ∧
    ∀ p, pixZ p ∈ coords →
      (coords.map fun c : ℤ × ℤ => (c.1.toNat, c.2.toNat)).idxOf p = coords.idxOf (pixZ p) := by
  have hinj : ∀ x ∈ coords, ∀ y ∈ coords, ((x.1.toNat, x.2.toNat) : Nat × Nat) = (y.1.toNat, y.2.toNat) → x = y := by
    intro x hx y hy he
    rw [← toNat_pixZ (h x hx), ← toNat_pixZ (h y hy), he]
  have hz : ∀ p : Nat × Nat, ((pixZ p).1.toNat, (pixZ p).2.toNat) = p := fun p => by simp [pixZ]
  refine ⟨?_, ?_, ?_⟩
  · rw [List.nodup_map_iff_inj_on hnd]
    exact hinj
  · intro p
    rw [List.mem_map]
    constructor
    · rintro ⟨c, hc, rfl⟩
      rw [toNat_pixZ (h c hc)]; exact hc
    · intro hp
      exact ⟨pixZ p, hp, hz p⟩
  · intro p hp
    have := idxOf_map_of_injOn (fun c : ℤ × ℤ => (c.1.toNat, c.2.toNat)) coords (pixZ p)
      (fun y hy he => hinj y hy _ hp he)
    simp only [hz] at this
    exact this

end Spurt
