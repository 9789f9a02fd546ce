import Verif.Lemmas.FloodFill
import Mathlib.Tactic.LinearCombination
import Mathlib.Tactic.IntervalCases

/-!
# Properties C12, C13: flood_fill
-/

namespace Spurt
open Spec

variable {K : Type} [Field K] [LinearOrder K] [IsStrictOrderedRing K] [FloorRing K]

/-- Gradient of link `i` before flows are added, as documented: the wrapped difference of
the end points, or the given gradient. -/
def Spec.inputGradient (tau : K) (indata : List K) (mode : String) (i a b : Nat) : K :=
  if mode = "points" then phaseDiff tau (indata.getD a 0) (indata.getD b 0) else indata.getD i 0

theorem totalGrad_eq (tau : K) (indata : List K) (links : List (Nat × Nat)) (flows : List ℤ)
    (mode : String) {i a b : Nat} (h : links[i]? = some (a, b)) :
    totalGrad tau indata links flows (mode = "points") i =
      inputGradient tau indata mode i a b + tau * (flows.getD i 0 : K) := by
  unfold totalGrad inputGradient
  simp only [decide_eq_true_eq, List.getD_eq_getElem?_getD, h, Option.getD_some]

/-- C12. What a successful return of `flood_fill` guarantees. -/
theorem C12_flood_fill_guarantee (tau : K) (indata : List K) (links : List (Nat × Nat))
    (flows : List ℤ) (mode : String) (out : List K)
    (h : floodFill tau indata links flows mode = .ok out) :
    (∀ a b, (a, b) ∈ links → a < out.length ∧ b < out.length) ∧
    (∀ p < out.length, Relation.ReflTransGen (Adjacent links) 0 p) ∧
    (∀ i a b : Nat, links[i]? = some (a, b) →
      |out.getD b 0 - out.getD a 0 -
        (inputGradient tau indata mode i a b + tau * (flows.getD i 0 : K))| ≤ 1 / 1000) ∧
    (mode = "gradients" → out.getD 0 0 = 0) ∧
    (mode = "points" → out.getD 0 0 = indata.getD 0 0 ∧ out.length = indata.length ∧
      ∀ p < out.length, ∃ k : ℤ, out.getD p 0 = indata.getD p 0 + k * tau) := by
  by_cases hargs : FfArgs indata links flows mode
  swap
  · rw [floodFill_bad tau hargs] at h; simp at h
  rw [floodFill_unfold tau hargs] at h
  obtain ⟨s, hs, hz, hd0, hq, hl⟩ := ffRun tau indata links flows (mode = "points")
    (fun p x => Relation.ReflTransGen (Adjacent links) 0 p ∧
      (mode = "points" → ∃ k : ℤ, x + indata.getD 0 0 = indata.getD p 0 + k * tau))
    ⟨Relation.ReflTransGen.refl, fun _ => ⟨0, by simp⟩⟩ (by
      intro i a b x hi
      have hmem : (a, b) ∈ links := List.mem_of_getElem? hi
      rw [totalGrad_eq tau indata links flows mode hi]
      constructor
      · rintro ⟨h1, h2⟩
        refine ⟨h1.tail (.inl hmem), fun hm => ?_⟩
        obtain ⟨k, hk⟩ := h2 hm
        refine ⟨k + flows.getD i 0 - rint ((indata.getD b 0 - indata.getD a 0) / tau), ?_⟩
        unfold inputGradient
        rw [if_pos hm, phaseDiff_eq]
        push_cast
        linear_combination hk
      · rintro ⟨h1, h2⟩
        refine ⟨h1.tail (.inr hmem), fun hm => ?_⟩
        obtain ⟨k, hk⟩ := h2 hm
        refine ⟨k - flows.getD i 0 + rint ((indata.getD b 0 - indata.getD a 0) / tau), ?_⟩
        unfold inputGradient
        rw [if_pos hm, phaseDiff_eq]
        push_cast
        linear_combination hk)
  rw [hs] at h
  simp only at h
  split at h
  · simp at h
  rename_i herr
  split at h
  swap
  · simp at h
  rename_i hall
  rw [List.all_eq_true] at hall
  have hall' : ∀ p < maxLink links + 1, s.done p = true := fun p hp => hall p (by simpa using hp)
  -- common shape of the output
  obtain ⟨off, hoff, hout⟩ : ∃ off : K,
      (off = if mode = "points" then indata.getD 0 0 else 0) ∧
      out = (List.range (maxLink links + 1)).map fun p => s.unw p + off := by
    by_cases hm : mode = "points"
    · rw [if_pos hm] at h
      simp only [Except.ok.injEq] at h
      exact ⟨_, rfl, by rw [if_pos hm]; exact h.symm⟩
    · rw [if_neg hm] at h
      simp only [Except.ok.injEq] at h
      exact ⟨_, rfl, by rw [if_neg hm]; simpa using h.symm⟩
  have hlen : out.length = maxLink links + 1 := by rw [hout]; simp
  have hget : ∀ p < maxLink links + 1, out.getD p 0 = s.unw p + off := by
    intro p hp
    rw [hout]; simp [List.getD_eq_getElem?_getD, hp]
  refine ⟨?_, ?_, ?_, ?_, ?_⟩
  · intro a b hab
    have := le_maxLink hab
    simp only at this
    omega
  · intro p hp
    exact (hq p (hall' p (by omega))).1.1
  · intro i a b hi
    have hab := le_maxLink (List.mem_of_getElem? hi)
    simp only at hab
    rw [hget a (by omega), hget b (by omega)]
    rcases (hl i a b hi).2 (hall' a (by omega)) with h | h
    · omega
    · rw [totalGrad_eq tau indata links flows mode hi] at h
      convert h using 2
      ring
  · intro hm
    have : ¬ mode = "points" := by rw [hm]; decide
    rw [hget 0 (by omega), hoff, if_neg this, hz]; ring
  · intro hm
    rw [if_pos hm] at hoff
    refine ⟨by rw [hget 0 (by omega), hz, hoff]; ring, by rw [hlen, hargs.size.2 hm], ?_⟩
    intro p hp
    rw [hget p (by omega), hoff]
    exact (hq p (hall' p (by omega))).1.2 hm

/-- C13. Consistent gradients on a connected graph: `flood_fill` returns exactly the
potential shifted to the reference. -/
theorem C13_flood_fill_recovers (tau : K) (indata : List K) (links : List (Nat × Nat))
    (flows : List ℤ) (mode : String) (npts : Nat) (φ : Nat → K)
    (hne : links ≠ []) (hn : ∀ a b, (a, b) ∈ links → a < npts ∧ b < npts)
    (hlen : flows.length = links.length)
    (hmode : (mode = "points" ∧ indata.length = npts) ∨
      (mode = "gradients" ∧ indata.length = links.length))
    (hconn : Connected npts links)
    (hpot : ∀ i a b : Nat, links[i]? = some (a, b) →
      inputGradient tau indata mode i a b + tau * (flows.getD i 0 : K) = φ b - φ a) :
    floodFill tau indata links flows mode =
      .ok ((List.range npts).map fun p =>
        φ p - φ 0 + (if mode = "points" then indata.getD 0 0 else 0)) := by
  -- the largest index that occurs is the last point
  have hmax : maxLink links + 1 = npts := by
    obtain ⟨l, hl, hml⟩ := maxLink_mem hne
    have h1 : maxLink links < npts := by
      have := hn l.1 l.2 hl; omega
    by_contra hc
    have hp : npts - 1 < npts := by omega
    have hr := hconn (npts - 1) hp
    have hpos : npts - 1 ≠ 0 := by omega
    rcases Relation.ReflTransGen.cases_tail hr with h | ⟨c, _, h⟩
    · exact hpos h
    · rcases h with h | h
      · have := (le_maxLink h).2; simp only at this; omega
      · have := (le_maxLink h).1; simp only at this; omega
  have hargs : FfArgs indata links flows mode := by
    refine ⟨hlen.symm, ?_, hne, ?_, ?_⟩
    · rcases hmode with h | h <;> tauto
    · intro hm
      rcases hmode with h | h
      · rw [h.1] at hm; simp at hm
      · exact h.2
    · intro hm
      rcases hmode with h | h
      · rw [hmax]; exact h.2
      · rw [h.1] at hm; simp at hm
  rw [floodFill_unfold tau hargs]
  obtain ⟨s, hs, hz, hd0, hq, hl⟩ := ffRun tau indata links flows (mode = "points")
    (fun p x => x = φ p - φ 0) (by simp) (by
      intro i a b x hi
      rw [totalGrad_eq tau indata links flows mode hi, hpot i a b hi]
      constructor
      · rintro rfl; ring
      · rintro rfl; ring)
  -- every point is done
  have hall : ∀ p < npts, s.done p = true := by
    intro p hp
    have hr := hconn p hp
    induction hr with
    | refl => exact hd0
    | @tail b c hr hbc ih =>
      have hb : b < npts := by
        rcases hbc with h | h
        · exact (hn _ _ h).1
        · exact (hn _ _ h).2
      have ihb := ih hb
      rcases hbc with h | h
      · obtain ⟨i, hi, he⟩ := List.mem_iff_getElem.mp h
        exact (hl i b c (by rw [List.getElem?_eq_getElem hi, he])).1.mp ihb
      · obtain ⟨i, hi, he⟩ := List.mem_iff_getElem.mp h
        exact (hl i c b (by rw [List.getElem?_eq_getElem hi, he])).1.mpr ihb
  -- no closure errors: rerun the loop with an invariant on the error count
  have herr : s.errs = 0 := by
    have := ffLoop_no_errs (nbrsOf links (gradList tau indata links flows (mode = "points")))
      (fun p x => x = φ p - φ 0) (by
        rintro i x rfl ⟨j, g⟩ h
        rw [mem_nbrsOf] at h
        rcases h with h | h
        · obtain ⟨k, hk, rfl⟩ := mem_zip_gradList.mp h
          rw [totalGrad_eq tau indata links flows mode hk, hpot k i j hk]; ring
        · obtain ⟨k, hk, he⟩ := mem_zip_gradList.mp h
          rw [totalGrad_eq tau indata links flows mode hk, hpot k j i hk] at he
          linear_combination -he) (by rintro p x y rfl rfl; rfl)
      (maxLink links + 1) ffInit s hs (by
        intro p hp
        simp only [ffInit, Function.update] at hp ⊢
        by_cases h : p = 0
        · subst h; simp
        · simp [h] at hp) (by simp [ffInit]) rfl
    exact this
  rw [hs]
  simp only [herr, gt_iff_lt, lt_self_iff_false, if_false]
  rw [if_pos (by
    rw [List.all_eq_true]
    intro p hp
    exact hall p (by rw [← hmax]; simpa using hp)), hmax]
  by_cases hm : mode = "points"
  · rw [if_pos hm]
    congr 1
    apply List.map_congr_left
    intro p hp
    rw [(hq p (hall p (by simpa using hp))).1, if_pos hm]
  · rw [if_neg hm]
    congr 1
    apply List.map_congr_left
    intro p hp
    rw [(hq p (hall p (by simpa using hp))).1, if_neg hm]
    ring

/-- C13. A disconnected graph, mismatched sizes or an unknown mode raise `ValueError`. -/
theorem C13_flood_fill_rejects (tau : K) (indata : List K) (links : List (Nat × Nat))
    (flows : List ℤ) (mode : String)
    (hbad : flows.length ≠ links.length ∨ (mode ≠ "points" ∧ mode ≠ "gradients") ∨
      (mode = "gradients" ∧ indata.length ≠ links.length) ∨
      (mode = "points" ∧ ∃ a b, (a, b) ∈ links ∧ (indata.length ≤ a ∨ indata.length ≤ b)) ∨
      (∃ a b, (a, b) ∈ links ∧ ¬ Relation.ReflTransGen (Adjacent links) 0 a)) :
    floodFill tau indata links flows mode = .error .valueError := by
  by_cases hargs : FfArgs indata links flows mode
  swap
  · exact floodFill_bad tau hargs
  have hok := C12_flood_fill_guarantee tau indata links flows mode
  have hterm : ∀ e, floodFill tau indata links flows mode = .error e → e = .valueError := by
    intro e he
    rw [floodFill_unfold tau hargs] at he
    obtain ⟨s, hs, _⟩ := ffRun tau indata links flows (mode = "points") (fun _ _ => True) trivial
      (by simp)
    rw [hs] at he
    simp only at he
    repeat' split at he
    all_goals simp_all
  cases hf : floodFill tau indata links flows mode with
  | error e => rw [hterm e hf]
  | ok out =>
    exfalso
    obtain ⟨h1, h2, _, _, h5⟩ := hok out hf
    rcases hbad with h | h | h | h | h
    · exact h hargs.len.symm
    · have := hargs.mode_ok; tauto
    · exact h.2 (hargs.size.1 h.1)
    · obtain ⟨hm, a, b, hab, hle⟩ := h
      have := h1 a b hab
      have := (h5 hm).2.1
      omega
    · obtain ⟨a, b, hab, hr⟩ := h
      exact hr (h2 a (h1 a b hab).1)

/-- C13. `flood_fill` always terminates: its only exception is `ValueError`, and the loop
bound used by the model is never reached. -/
theorem C13_flood_fill_terminates (tau : K) (indata : List K) (links : List (Nat × Nat))
    (flows : List ℤ) (mode : String) :
    (∃ out, floodFill tau indata links flows mode = .ok out) ∨
      floodFill tau indata links flows mode = .error .valueError := by
  by_cases hargs : FfArgs indata links flows mode
  · rw [floodFill_unfold tau hargs]
    obtain ⟨s, hs, _⟩ := ffRun tau indata links flows (mode = "points") (fun _ _ => True) trivial
      (by simp)
    rw [hs]
    simp only
    repeat' split
    all_goals simp
  · rw [floodFill_bad tau hargs]; simp

/-- C13. A closed walk along links whose gradients and flows do not close (beyond the
tolerance per link) makes `flood_fill` raise: it never returns inconsistent values. -/
theorem C13_closure_error_detected (tau : K) (indata : List K) (links : List (Nat × Nat))
    (flows : List ℤ) (mode : String) (walk : List Nat)
    (hnd : links.Nodup) (hord : ∀ a b, (a, b) ∈ links → a < b)
    (hw : ∀ a b, (a, b) ∈ sides walk → (a, b) ∈ links ∨ (b, a) ∈ links)
    (grads : List K) (_hgl : grads.length = links.length)
    (hg : ∀ i a b : Nat, links[i]? = some (a, b) →
      grads.getD i 0 = inputGradient tau indata mode i a b + tau * (flows.getD i 0 : K))
    (hbig : (walk.length : K) * (1 / 1000) < |circulation links grads walk|) :
    floodFill tau indata links flows mode = .error .valueError := by
  by_cases hargs : FfArgs indata links flows mode
  swap
  · exact floodFill_bad tau hargs
  cases hf : floodFill tau indata links flows mode with
  | error e =>
    have hterm : e = .valueError := by
      rw [floodFill_unfold tau hargs] at hf
      obtain ⟨s, hs, _⟩ := ffRun tau indata links flows (mode = "points") (fun _ _ => True)
        trivial (by simp)
      rw [hs] at hf
      simp only at hf
      repeat' split at hf
      all_goals simp_all
    rw [hterm]
  | ok out =>
    exfalso
    obtain ⟨_, _, h3, _, _⟩ := C12_flood_fill_guarantee tau indata links flows mode out hf
    have hstep : ∀ s ∈ sides walk,
        |along links grads s.1 s.2 - (out.getD s.2 0 - out.getD s.1 0)| ≤ 1 / 1000 := by
      rintro ⟨x, y⟩ hs
      have hon : ∀ a b, (a, b) ∈ links →
          |onLink links grads a b - (out.getD b 0 - out.getD a 0)| ≤ 1 / 1000 := by
        intro a b hab
        obtain ⟨i, hi, he⟩ := List.mem_iff_getElem.mp hab
        have e1 : onLink links grads a b = grads.getD i 0 := by
          unfold onLink; rw [← he, hnd.idxOf_getElem i hi]
        have hi' : links[i]? = some (a, b) := by rw [List.getElem?_eq_getElem hi, he]
        have := h3 i a b hi'
        rw [e1, hg i a b hi', ← abs_neg]
        convert this using 2
        ring
      unfold along
      rcases hw x y hs with h | h
      · rw [if_pos (hord _ _ h)]; exact hon x y h
      · rw [if_neg (by have := hord _ _ h; simp only; omega)]
        have := hon y x h
        rw [← abs_neg]
        convert this using 2
        simp only
        ring
    have hsum : ∀ l : List (Nat × Nat), (∀ s ∈ l,
        |along links grads s.1 s.2 - (out.getD s.2 0 - out.getD s.1 0)| ≤ 1 / 1000) →
        |(l.map fun s => along links grads s.1 s.2).sum -
          (l.map fun s => out.getD s.2 0 - out.getD s.1 0).sum| ≤ (l.length : K) * (1 / 1000) := by
      intro l
      induction l with
      | nil => intro _; simp
      | cons s l ih =>
        intro h
        have h1 := h s (by simp)
        have h2 := ih fun t ht => h t (by simp [ht])
        simp only [List.map_cons, List.sum_cons, List.length_cons]
        rw [abs_le] at h1 h2 ⊢
        push_cast
        constructor <;> linarith
    have := hsum _ hstep
    rw [sum_sides_diff walk fun p => out.getD p 0, sub_zero] at this
    have hl : (sides walk).length = walk.length := by
      have := congrArg List.length (sides_fst walk); simpa using this
    rw [hl] at this
    unfold circulation at hbig
    linarith

/-- Non-vacuity: gradient mode on a triangle, flows closing the loop. -/
example : floodFill (1 : ℚ) [1 / 4, 3 / 4, 1 / 2] [(0, 1), (0, 2), (1, 2)] [0, 0, 0] "gradients" =
    .ok [0, 1 / 4, 3 / 4] := by
  have h := C13_flood_fill_recovers (1 : ℚ) [1 / 4, 3 / 4, 1 / 2] [(0, 1), (0, 2), (1, 2)] [0, 0, 0]
    "gradients" 3 (fun p => if p = 0 then 0 else if p = 1 then 1 / 4 else 3 / 4) (by simp)
    (by simp only [List.mem_cons, List.not_mem_nil, or_false, Prod.mk.injEq]; omega)
    rfl (.inr ⟨rfl, rfl⟩)
    (by
      intro p hp
      interval_cases p
      · exact .refl
      · exact .single (.inl (by simp))
      · exact .single (.inl (by simp)))
    (by
      intro i a b h
      have hi : i < 3 := (List.getElem?_eq_some_iff.mp h).1
      interval_cases i <;> simp at h <;> obtain ⟨rfl, rfl⟩ := h <;>
        simp [inputGradient] <;> norm_num)
  rw [h]
  simp [List.range_succ]

/-- Non-vacuity of the error branch: a loop that does not close is refused. -/
example : floodFill (1 : ℚ) [1 / 4, 3 / 4, 1 / 2] [(0, 1), (0, 2), (1, 2)] [1, 0, 0] "gradients" =
    .error .valueError := by
  apply C13_closure_error_detected (walk := [0, 1, 2]) (grads := [5 / 4, 3 / 4, 1 / 2])
  case hnd => decide
  case hord =>
    simp only [List.mem_cons, List.not_mem_nil, or_false, Prod.mk.injEq]
    omega
  case hw =>
    simp only [sides, List.mem_cons, List.not_mem_nil, or_false, Prod.mk.injEq, List.zip,
      List.zipWith, List.cons_append, List.nil_append]
    omega
  case _hgl => rfl
  case hg =>
    intro i a b h
    have hi : i < 3 := (List.getElem?_eq_some_iff.mp h).1
    interval_cases i <;> simp [inputGradient] <;> norm_num
  case hbig =>
    have : circulation [(0, 1), (0, 2), (1, 2)] [(5 / 4 : ℚ), 3 / 4, 1 / 2] [0, 1, 2] = 1 := by
      have h1 : List.idxOf (0, 1) [(0, 1), (0, 2), (1, 2)] = 0 := rfl
      have h2 : List.idxOf (0, 2) [(0, 1), (0, 2), (1, 2)] = 1 := rfl
      have h3 : List.idxOf (1, 2) [(0, 1), (0, 2), (1, 2)] = 2 := rfl
      simp [circulation, sides, along, onLink, h1, h2, h3]
      norm_num
    rw [this]
    norm_num

end Spurt
