import Verif.Lemmas.FloatResidues
import Verif.Spec.FloatCube

/-! # Residues of gradients that are differences plus whole cycles -/

namespace Spurt
open Spec Finset

section
variable {K : Type} [Field K] [LinearOrder K] [IsStrictOrderedRing K] [FloorRing K]

/-- Whole numbers on the links that close around the cycles are differences of whole numbers. -/
theorem int_labels {g : PlanarGraph} (hc : PlanarContract g.npoints g.links g.cycles)
    (hwalk : ∀ p < g.npoints, ∃ L, WalkTo g.links L p) (hgen : CyclesGenerate K g.links g.cycles) (c : Nat → ℤ)
    (h0 : ∀ k (hk : k < g.cycles.length), circulation g.links ((List.range g.links.length).map c) g.cycles[k] = 0) :
    ∃ κ : Nat → ℤ, ∀ (j a b : Nat), g.links[j]? = some (a, b) → κ b - κ a = c j := by
  set E : List K := (List.range g.links.length).map fun i => (0 : K) + 1 * ((c i : ℤ) : K) with hE
  have hclose : ∀ cyc ∈ g.cycles, circulation g.links E cyc = 0 := by
    intro cyc hcy
    obtain ⟨q, hq, rfl⟩ := List.mem_iff_getElem.mp hcy
    rw [hE, circulation_add_int (1 : K) g.links (fun _ => 0) c, h0 q hq]
    have := circulation_gradient hc (fun _ => (0 : K)) hcy
    simp only [sub_zero] at this
    rw [this]; simp
  obtain ⟨ψ, hψ⟩ := hgen E (by simp [hE]) hclose
  have hon : ∀ a b, (a, b) ∈ g.links → onLink g.links E a b = ((c (g.links.idxOf (a, b)) : ℤ) : K) := by
    intro a b hab
    rw [hE, onLink_range, if_pos (List.idxOf_lt_length_of_mem hab)]
    simp
  have hψi : ∀ p, ∃ z : ℤ, p < g.npoints → ψ p - ψ 0 = (z : K) := by
    intro p
    by_cases hp : p < g.npoints
    · obtain ⟨L, hL⟩ := hwalk p hp
      have : ∃ z : ℤ, ψ p - ψ 0 = (z : K) := by
        clear hp
        induction hL with
        | start => exact ⟨0, by simp⟩
        | @step L' a b _ hadj ih =>
          obtain ⟨z, hz⟩ := ih
          rcases hadj with h' | h'
          · have h1 := hψ _ _ h'
            rw [hon _ _ h'] at h1
            refine ⟨z + c (g.links.idxOf (a, b)), ?_⟩
            rw [Int.cast_add, ← hz, h1]
            ring
          · have h1 := hψ _ _ h'
            rw [hon _ _ h'] at h1
            refine ⟨z - c (g.links.idxOf (b, a)), ?_⟩
            rw [Int.cast_sub, ← hz, h1]
            ring
      obtain ⟨z, hz⟩ := this
      exact ⟨z, fun _ => hz⟩
    · exact ⟨0, fun h => absurd h hp⟩
  choose κ hκ using hψi
  refine ⟨κ, ?_⟩
  intro i a b hi
  have hab := List.mem_of_getElem? hi
  have ho := hc.ordered a b hab
  have hidx : g.links.idxOf (a, b) = i := by
    obtain ⟨hlt, hge⟩ := List.getElem?_eq_some_iff.mp hi
    rw [← hge, hc.distinct.idxOf_getElem i hlt]
  have h1 := hψ a b hab
  rw [hon a b hab, hidx] at h1
  have h2 := hκ a (by omega)
  have h3 := hκ b ho.2
  have : ((κ b - κ a : ℤ) : K) = ((c i : ℤ) : K) := by
    rw [h1, Int.cast_sub, ← h2, ← h3]; ring
  exact_mod_cast this

/-- A sum close to the circulation of differences plus whole cycles rounds to the circulation of the
whole cycles. -/
theorem residue_eq {fl : K → K} {B η t : K} (hr : Rounds fl B η) (ht : 1 ≤ t) {g : PlanarGraph}
    (hc : PlanarContract g.npoints g.links g.cycles) {V r : K} (x y : Nat → K) (N : Nat → ℤ)
    (hx : ∀ i < g.links.length, |x i| ≤ V) (hxy : ∀ i < g.links.length, |x i - (y i + t * (N i : K))| ≤ r)
    {k : Nat} (hk : k < g.cycles.length) (hy : circulation g.links ((List.range g.links.length).map y) g.cycles[k] = 0)
    (hB : ((g.cycles[k]).length : K) * (V + η) ≤ B) (hlt : ((g.cycles[k]).length : K) * (r + η) + t * η < t / 2)
    (s : K) (hs : |s - circulation g.links ((List.range g.links.length).map x) g.cycles[k]| ≤ ((g.cycles[k]).length : K) * η) :
    rint (fl (s / t)) = circulation g.links ((List.range g.links.length).map N) g.cycles[k] := by
  have h1 := circulation_close hc x (fun i => y i + t * (N i : K)) hxy hk
  rw [circulation_add_int, hy, zero_add] at h1
  have h2 := circulation_close hc x (fun _ => 0) (by simpa using hx) hk
  have h3 := circulation_gradient hc (fun _ => (0 : K)) (List.getElem_mem hk)
  simp only [sub_zero] at h3
  rw [h3, sub_zero] at h2
  have b1 := abs_bounds h1
  have b2 := abs_bounds h2
  have b3 := abs_bounds hs
  refine rint_fl_eq hr ht s (((g.cycles[k]).length : K) * (r + η)) _ ?_ ?_ hlt
  · rw [abs_le]; constructor <;> linarith
  · rw [abs_le]; constructor <;> linarith

/-- The residues in time of differences plus whole cycles. -/
theorem linkResiduesFl_eq {A : FloatArith K} {B η : K} (hr : Rounds A.fs B η) (h0 : 0 ≤ η) (ht : 1 ≤ A.tauS)
    {g : PlanarGraph} {m : Mcf} (hc : PlanarContract g.npoints g.links g.cycles) (hm : ormcf g = .ok m) {V r : K} (hV : 0 ≤ V)
    (x y : Nat → K) (N : Nat → ℤ) (hx : ∀ i < g.links.length, |x i| ≤ V)
    (hxy : ∀ i < g.links.length, |x i - (y i + A.tauS * (N i : K))| ≤ r)
    (hy : ∀ c ∈ g.cycles, circulation g.links ((List.range g.links.length).map y) c = 0)
    (hB : ∀ c ∈ g.cycles, (c.length : K) * (V + η) ≤ B ∧ (c.length : K) * (r + η) + A.tauS * η < A.tauS / 2)
    {k : Nat} (hk : k < g.cycles.length) :
    (linkResiduesFl A m x).getD (k + 1) 0 = circulation g.links ((List.range g.links.length).map N) g.cycles[k] := by
  obtain ⟨_, _, h3⟩ := linkResiduesFl_contract A hr h0 hV hc hm x hx (fun c hcc => (hB c hcc).1)
  obtain ⟨s, hs1, hs2⟩ := h3 k hk
  rw [hs1]
  exact residue_eq hr ht hc x y N hx hxy hk (hy _ (List.getElem_mem hk)) (hB _ (List.getElem_mem hk)).1
    (hB _ (List.getElem_mem hk)).2 s hs2

/-- The residues in space of differences plus whole cycles. -/
theorem residuesFromGradientsFl_eq {A : FloatArith K} {B η : K} (hr : Rounds A.fs B η) (h0 : 0 ≤ η) (ht : 1 ≤ A.tauS)
    {g : PlanarGraph} {m : Mcf} (hc : PlanarContract g.npoints g.links g.cycles) (hm : ormcf g = .ok m) {V r : K} (hV : 0 ≤ V)
    (x y : Nat → K) (N : Nat → ℤ) (hx : ∀ i < g.links.length, |x i| ≤ V)
    (hxy : ∀ i < g.links.length, |x i - (y i + A.tauS * (N i : K))| ≤ r)
    (hy : ∀ c ∈ g.cycles, circulation g.links ((List.range g.links.length).map y) c = 0)
    (hB : ∀ c ∈ g.cycles, (c.length : K) * (V + η) ≤ B ∧ (c.length : K) * (r + η) + A.tauS * η < A.tauS / 2) :
    ∃ res, computeResiduesFromGradientsFl A m ((List.range g.links.length).map x) = .ok res ∧
      res.length = g.cycles.length + 1 ∧ res.sum = 0 ∧ ∀ k (hk : k < g.cycles.length),
        res.getD (k + 1) 0 = circulation g.links ((List.range g.links.length).map N) g.cycles[k] := by
  obtain ⟨res, r1, r2, r3, r4⟩ := residuesFromGradientsFl_contract A hr h0 hV hc hm ((List.range g.links.length).map x)
    (by simp) (by
      intro v hv
      obtain ⟨i, hi, rfl⟩ := List.mem_map.mp hv
      exact hx i (List.mem_range.mp hi)) (fun c hcc => (hB c hcc).1)
  refine ⟨res, r1, r2, r3, fun k hk => ?_⟩
  obtain ⟨s, hs1, hs2⟩ := r4 k hk
  rw [hs1]
  exact residue_eq hr ht hc x y N hx hxy hk (hy _ (List.getElem_mem hk)) (hB _ (List.getElem_mem hk)).1
    (hB _ (List.getElem_mem hk)).2 s hs2

/-- Minus the whole cycles cancels their circulation. -/
theorem cancels_neg {g : PlanarGraph} (res : List ℤ) (N : Nat → ℤ)
    (h : ∀ k (hk : k < g.cycles.length), res.getD (k + 1) 0 = circulation g.links ((List.range g.links.length).map N) g.cycles[k]) :
    Cancels g.links g.cycles res ((List.range g.links.length).map fun i => - N i) := by
  refine ⟨by simp, fun k hk => ?_⟩
  rw [h k hk]
  have h1 := circulation_add_int (-1 : ℚ) g.links (fun _ => 0) N g.cycles[k]
  have h2 := circulation_add_int (1 : ℚ) g.links (fun _ => 0) (fun i => - N i) g.cycles[k]
  have e : (fun i => (0 : ℚ) + 1 * (((- N i : ℤ)) : ℚ)) =
      fun i => (0 : ℚ) + (-1) * ((N i : ℤ) : ℚ) := by
    funext i; push_cast; ring
  rw [e, h1] at h2
  have h3 : ((circulation g.links ((List.range g.links.length).map fun i => - N i)
      g.cycles[k] : ℤ) : ℚ) =
      ((- circulation g.links ((List.range g.links.length).map N) g.cycles[k] : ℤ) : ℚ) := by
    rw [Int.cast_neg]; linarith
  exact Int.cast_injective h3

/-- Circulations of whole numbers add up. -/
theorem circulation_add' (links : List (Nat × Nat)) (N : Nat → ℤ) (x : List ℤ) (hx : x.length = links.length) (c : List Nat) :
    circulation links ((List.range links.length).map fun i => N i + x.getD i 0) c =
      circulation links ((List.range links.length).map N) c + circulation links x c := by
  have hxe : x = (List.range links.length).map fun i => x.getD i 0 := by
    apply List.ext_getElem
    · simpa using hx
    · intro i h1 h2
      simp [List.getD_eq_getElem?_getD, h1]
  conv_rhs => rw [hxe]
  have h1 := circulation_add_int (1 : ℚ) links (fun i => (0 : ℚ) + 1 * ((N i : ℤ) : ℚ)) (fun i => x.getD i 0) c
  have h2 := circulation_add_int (1 : ℚ) links (fun _ => (0 : ℚ)) N c
  have h3 := circulation_add_int (1 : ℚ) links (fun _ => (0 : ℚ)) (fun i => N i + x.getD i 0) c
  have e : (fun i => (0 : ℚ) + 1 * (((N i + x.getD i 0 : ℤ)) : ℚ)) =
      fun i => (0 : ℚ) + 1 * ((N i : ℤ) : ℚ) + 1 * ((x.getD i 0 : ℤ) : ℚ) := by
    funext i; push_cast; ring
  rw [e, h1, h2] at h3
  have : ((circulation links ((List.range links.length).map fun i => N i + x.getD i 0) c : ℤ) : ℚ) =
      ((circulation links ((List.range links.length).map N) c +
        circulation links ((List.range links.length).map fun i => x.getD i 0) c : ℤ) : ℚ) := by
    push_cast; linarith
  exact Int.cast_injective this

end

end Spurt
