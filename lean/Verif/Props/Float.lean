import Verif.Lemmas.FloatNear
import Verif.Props.Unwrap
import Mathlib.Tactic.Positivity

/-!
# Property C67: the spatial pipeline in rounded arithmetic

The functions with rounding after every operation (Model/Float.lean), for any rounding that moves
numbers of size at most `B` by at most `η`. `tau` is the floating-point number `2 * np.pi`.
-/

namespace Spurt
open Spec

section
variable {K : Type} [Field K] [LinearOrder K] [IsStrictOrderedRing K] [FloorRing K]

/-- C67. With exact arithmetic these are the functions of the other properties. -/
theorem C67_exact (tau : K) :
    (∀ z0 z1 : K, phaseDiffFl id tau z0 z1 = phaseDiff tau z0 z1) ∧
    (∀ indata links flows mode, floodFillFl id tau (1 / 1000) indata links flows mode = floodFill tau indata links flows mode) ∧
    (∀ m w, computeResiduesFl id tau m w = computeResidues tau m w) ∧
    (∀ solver m w cost revcost, unwrapOneFl id tau (1 / 1000) solver m w cost revcost = unwrapOne tau solver m w cost revcost) := by
  have h1 : ∀ z0 z1 : K, phaseDiffFl id tau z0 z1 = phaseDiff tau z0 z1 := by
    intro z0 z1
    rw [phaseDiff_eq]
    simp [phaseDiffFl, cyclesFl]
  have hstep : ∀ i s (jg : Nat × K), ffStepFl id (1 / 1000) i s jg = ffStep i s jg := by
    intro i s jg
    simp only [ffStepFl, ffStep, id]
  have hstep' : ∀ i, ffStepFl (K := K) id (1 / 1000) i = ffStep i := fun i => by
    funext s jg; exact hstep i s jg
  have hloop : ∀ (nbrs : Nat → List (Nat × K)) fuel s, ffLoopFl id (1 / 1000) nbrs fuel s = ffLoop nbrs fuel s := by
    intro nbrs fuel
    induction fuel with
    | zero => intro s; unfold ffLoopFl ffLoop; rfl
    | succ fuel ih =>
      intro s
      unfold ffLoopFl ffLoop
      cases s.todo with
      | nil => rfl
      | cons i rest => simp only [hstep', ih]
  have h2 : ∀ indata links flows mode, floodFillFl id tau (1 / 1000) indata links flows mode = floodFill tau indata links flows mode := by
    intro indata links flows mode
    unfold floodFillFl floodFill
    simp only [hloop, gradientFl, h1, id]
    rfl
  have h3 : ∀ m w, computeResiduesFl id tau m w = computeResidues tau m w := by
    intro m w
    have hcl : ∀ ndim cyc, closureFl id tau w ndim cyc = ((List.range ndim).map fun col =>
        phaseDiff tau (w.getD (cyc.getD col 0) 0) (w.getD (cyc.getD ((col + 1) % ndim) 0) 0)).sum := by
      intro ndim cyc
      unfold closureFl
      rw [List.sum_eq_foldl, List.foldl_map]
      simp only [h1, id]
    unfold computeResiduesFl computeResidues
    split
    · rfl
    · cases m.graph.cycles with
      | nil => rfl
      | cons c cs => simp only [hcl, id]
  refine ⟨h1, h2, h3, ?_⟩
  intro solver m w cost revcost
  simp only [unwrapOneFl, unwrapOne, h2, h3]

variable {fl : K → K} {B η tau : K}

/-- Swapping the ends changes the sign of the number of cycles. -/
theorem cyclesFl_swap (hr : Rounds fl B η) (tau z0 z1 : K) : cyclesFl fl tau z1 z0 = - cyclesFl fl tau z0 z1 := by
  unfold cyclesFl
  rw [← rint_neg, ← hr.odd, ← neg_div, ← hr.odd, neg_sub]

theorem phaseDiffFl_swap (hr : Rounds fl B η) (tau z0 z1 : K) : phaseDiffFl fl tau z1 z0 = - phaseDiffFl fl tau z0 z1 := by
  unfold phaseDiffFl
  rw [cyclesFl_swap hr tau z0 z1, ← hr.odd]
  have e1 : fl (z0 - z1) = - fl (z1 - z0) := by rw [← hr.odd, neg_sub]
  have e2 : fl (((- cyclesFl fl tau z0 z1 : ℤ) : K) * tau) = - fl ((cyclesFl fl tau z0 z1 : K) * tau) := by
    rw [← hr.odd]; push_cast; congr 1; ring
  rw [e1, e2]
  congr 1
  ring

/-- C67. `phase_diff` in rounded arithmetic is the difference less a whole number of cycles, up to
three roundings; that number leaves less than a cycle, and half a cycle up to rounding. -/
theorem C67_phase_diff (hr : Rounds fl B η) (ht : 1 ≤ tau) (h0 : 0 ≤ η) (hη : η ≤ 1 / 4) {A : K} (hB : 2 * A + 2 * tau ≤ B)
    (z0 z1 : K) (hz0 : |z0| ≤ A) (hz1 : |z1| ≤ A) :
    |phaseDiffFl fl tau z0 z1 - (z1 - z0 - (cyclesFl fl tau z0 z1 : K) * tau)| ≤ 3 * η ∧
    |z1 - z0 - (cyclesFl fl tau z0 z1 : K) * tau| ≤ tau / 2 + tau * η + η ∧
    |z1 - z0 - (cyclesFl fl tau z0 z1 : K) * tau| ≤ tau ∧
    |((cyclesFl fl tau z0 z1 : ℤ) : K)| ≤ 2 * A / tau + 1 := by
  have ht0 : 0 < tau := by linarith
  have b1 := abs_bounds hz0
  have b2 := abs_bounds hz1
  have hd : |z1 - z0| ≤ B := by rw [abs_le]; constructor <;> linarith
  have b3 := abs_bounds (hr.close _ hd)
  set d := fl (z1 - z0) with hdef
  have hda : |d| ≤ 2 * A + η := by rw [abs_le]; constructor <;> linarith
  have hdt : |d / tau| ≤ (2 * A + η) / tau := by
    rw [abs_div, abs_of_pos ht0]
    exact div_le_div_of_nonneg_right hda ht0.le
  have hdiv : ∀ x : K, 0 ≤ x → x / tau ≤ x := by
    intro x hx
    rw [div_le_iff₀ ht0]
    nlinarith
  have hA : 0 ≤ A := le_trans (abs_nonneg _) hz0
  have hdB : |d / tau| ≤ B := by
    refine hdt.trans ((hdiv _ (by linarith)).trans (by linarith))
  have b4 := abs_bounds (hr.close _ hdB)
  set q := fl (d / tau) with hq
  have hn : cyclesFl fl tau z0 z1 = rint q := rfl
  rw [hn]
  have b5 := abs_bounds (rint_abs q)
  set n : K := (rint q : K) with hndef
  have e : d / tau * tau = d := div_mul_cancel₀ _ ht0.ne'
  have hnt : |d - n * tau| ≤ tau / 2 + tau * η := by
    rw [abs_le]
    have e2 : d - n * tau = (d / tau - q) * tau + (q - n) * tau := by rw [sub_mul, e]; ring
    rw [e2]
    constructor
    · nlinarith
    · nlinarith
  have b6 := abs_bounds hnt
  have hte : tau * η ≤ tau / 4 := by nlinarith
  have b10 := abs_bounds hda
  have hnB : |n * tau| ≤ B := by rw [abs_le]; constructor <;> linarith
  have b7 := abs_bounds (hr.close _ hnB)
  have hgB : |d - fl (n * tau)| ≤ B := by rw [abs_le]; constructor <;> linarith
  have b8 := abs_bounds (hr.close _ hgB)
  have hpd : phaseDiffFl fl tau z0 z1 = fl (d - fl (n * tau)) := rfl
  rw [hpd]
  refine ⟨?_, ?_, ?_, ?_⟩
  · rw [abs_le]; constructor <;> linarith
  · rw [abs_le]; constructor <;> linarith
  · rw [abs_le]; constructor <;> linarith
  · have b9 := abs_bounds hdt
    have h1 : (2 * A + η) / tau ≤ 2 * A / tau + η := by
      rw [add_div]
      have := hdiv η h0
      linarith
    rw [abs_le]
    constructor <;> linarith

/-- The sum accumulated around a cycle. -/
theorem closure_near (hr : Rounds fl B η) (ht : 1 ≤ tau) (h0 : 0 ≤ η) (hη : η ≤ 1 / 4) {A : K} (hB : 2 * A + 2 * tau ≤ B)
    (w : Nat → K) (hw : ∀ p, |w p| ≤ A) (l : List (Nat × Nat)) (hl : 2 * (l.length : K) * tau ≤ B) :
    |(l.foldl (fun acc s => fl (acc + phaseDiffFl fl tau (w s.1) (w s.2))) 0) -
      ((l.map fun s => w s.2 - w s.1).sum - ((l.map fun s => cyclesFl fl tau (w s.1) (w s.2)).sum : ℤ) * tau)| ≤ 4 * (l.length : K) * η ∧
    |(l.foldl (fun acc s => fl (acc + phaseDiffFl fl tau (w s.1) (w s.2))) 0)| ≤ 2 * (l.length : K) * tau := by
  induction l using List.reverseRecOn with
  | nil => simp
  | append_singleton l s ih =>
    simp only [List.length_append, List.length_singleton, Nat.cast_add, Nat.cast_one] at hl
    obtain ⟨i1, i2⟩ := ih (by nlinarith)
    obtain ⟨p1, p2, p3, _⟩ := C67_phase_diff hr ht h0 hη hB (w s.1) (w s.2) (hw _) (hw _)
    rw [List.foldl_append, List.map_append, List.map_append, List.sum_append, List.sum_append]
    simp only [List.foldl_cons, List.foldl_nil, List.map_cons, List.map_nil, List.sum_cons, List.sum_nil, add_zero,
      List.length_append, List.length_singleton, Nat.cast_add, Nat.cast_one]
    set acc := l.foldl (fun acc s => fl (acc + phaseDiffFl fl tau (w s.1) (w s.2))) 0
    set g := phaseDiffFl fl tau (w s.1) (w s.2)
    have b1 := abs_bounds i1
    have b2 := abs_bounds i2
    have b3 := abs_bounds p1
    have b4 := abs_bounds p3
    have hb : |acc + g| ≤ B := by rw [abs_le]; constructor <;> linarith
    have b5 := abs_bounds (hr.close _ hb)
    rw [Int.cast_add]
    constructor
    · rw [abs_le]
      constructor <;> linarith
    · rw [abs_le]
      constructor <;> linarith

/-- C67. As long as `4 L + 1` roundings are less than half a unit (`L` the length of the cycles), the
residues are whole and exact: minus the number of cycles removed around each cycle, and their
negative sum in front. -/
theorem C67_residues (hr : Rounds fl B η) (ht : 1 ≤ tau) (h0 : 0 ≤ η) {A : K} (hB : 2 * A + 2 * tau ≤ B)
    (g : PlanarGraph) (m : Mcf) (hc : PlanarContract g.npoints g.links g.cycles) (hne : g.links ≠ []) (hm : ormcf g = .ok m)
    (w : List K) (hw : w.length = g.npoints) (hA : ∀ x ∈ w, |x| ≤ A)
    (hL : ∀ c ∈ g.cycles, 2 * (c.length : K) * tau ≤ B ∧ (4 * (c.length : K) + 1) * η < 1 / 2) :
    computeResiduesFl fl tau m w =
      .ok (-(g.cycles.map fun c => -((sides c).map fun s => cyclesFl fl tau (w.getD s.1 0) (w.getD s.2 0)).sum).sum ::
        g.cycles.map fun c => -((sides c).map fun s => cyclesFl fl tau (w.getD s.1 0) (w.getD s.2 0)).sum) := by
  obtain ⟨hmg, -⟩ := dual_of_contract hc hm
  have hcne := contract_cycles_ne hc hne
  have hbd := contract_bound hc
  have ht0 : 0 < tau := by linarith
  have hpos : 0 < g.npoints := by
    obtain ⟨⟨a, b⟩, l, hl⟩ := List.exists_cons_of_ne_nil hne
    have := hc.ordered a b (by rw [hl]; simp)
    omega
  have hA0 : 0 ≤ A := by
    have : 0 < w.length := by omega
    exact (abs_nonneg _).trans (hA _ (List.getElem_mem this))
  have hwA : ∀ p, |w.getD p 0| ≤ A := by
    intro p
    by_cases hp : p < w.length
    · rw [List.getD_eq_getElem?_getD, List.getElem?_eq_getElem hp]
      exact hA _ (List.getElem_mem hp)
    · rw [List.getD_eq_getElem?_getD, List.getElem?_eq_none (by omega)]
      simpa using hA0
  unfold computeResiduesFl
  rw [if_neg (by rw [hmg, hw]; simp), hmg]
  match hcyc : g.cycles with
  | [] => exact absurd hcyc hcne
  | c0 :: cs =>
    simp only
    rw [if_pos (by
      rw [List.all_eq_true]
      intro c hc'
      rw [List.all_eq_true]
      intro p hp
      simpa [hw] using hbd c (hcyc ▸ hc') p hp)]
    have : ∀ c ∈ (c0 :: cs), rint (fl (closureFl fl tau w c0.length c / tau)) =
        -((sides c).map fun s => cyclesFl fl tau (w.getD s.1 0) (w.getD s.2 0)).sum := by
      intro c hc'
      have hlen : c0.length = c.length := hc.uniform c0 (by simp [hcyc]) c (hcyc ▸ hc')
      obtain ⟨hL1, hL2⟩ := hL c (hcyc ▸ hc')
      have hη : η ≤ 1 / 4 := by
        by_cases hz : c.length = 0
        · rw [hz] at hL2
          -- an empty cycle: all are empty, no link is walked
          exfalso
          obtain ⟨⟨a, b⟩, l, hl⟩ := List.exists_cons_of_ne_nil hne
          have hall : ∀ c' ∈ g.cycles, c' = [] := fun c' hc'' =>
            List.eq_nil_of_length_eq_zero ((hc.uniform c' hc'' c (hcyc ▸ hc')).trans hz)
          have hwk : ∀ s, s ∉ walked g.cycles := by
            intro s hs
            obtain ⟨c', h1, h2⟩ := List.mem_flatMap.mp hs
            rw [hall c' h1] at h2
            simp [sides] at h2
          rcases hc.link_walked a b (by rw [hl]; simp) with h | h
          · exact hwk _ h
          · exact hwk _ h
        · have : (1 : K) ≤ (c.length : K) := by exact_mod_cast Nat.one_le_iff_ne_zero.mpr hz
          nlinarith
      have e : closureFl fl tau w c0.length c = (sides c).foldl (fun acc s =>
          fl (acc + phaseDiffFl fl tau (w.getD s.1 0) (w.getD s.2 0))) 0 := by
        unfold closureFl
        rw [← cycleSteps_eq_sides, cycleSteps, List.foldl_map, hlen]
      have hsl : (sides c).length = c.length := by
        rw [← List.length_map (f := Prod.fst), sides_fst]
      obtain ⟨k1, k2⟩ := closure_near hr ht h0 hη hB (fun p => w.getD p 0) hwA (sides c) (by rw [hsl]; exact hL1)
      rw [hsl] at k1 k2
      rw [sum_sides_diff c fun p => w.getD p 0] at k1
      rw [e]
      set acc := (sides c).foldl (fun acc s => fl (acc + phaseDiffFl fl tau (w.getD s.1 0) (w.getD s.2 0))) 0
      set n := ((sides c).map fun s => cyclesFl fl tau (w.getD s.1 0) (w.getD s.2 0)).sum
      have hL0 : (0 : K) ≤ (c.length : K) := Nat.cast_nonneg _
      have hdB : |acc / tau| ≤ B := by
        rw [abs_div, abs_of_pos ht0, div_le_iff₀ ht0]
        have : 0 ≤ B := (abs_nonneg _).trans (k2.trans hL1)
        nlinarith
      have b1 := abs_bounds (hr.close _ hdB)
      have b2 : |acc / tau + (n : K)| ≤ 4 * (c.length : K) * η := by
        have e3 : acc / tau + (n : K) = (acc - (0 - (n : K) * tau)) / tau := by
          field_simp; ring
        rw [e3, abs_div, abs_of_pos ht0, div_le_iff₀ ht0]
        have : 0 ≤ 4 * (c.length : K) * η := by positivity
        nlinarith
      have b3 := abs_bounds b2
      apply rint_eq_of_lt
      · push_cast; nlinarith
      · push_cast; nlinarith
    rw [List.map_congr_left this]

/-! ### Flood fill -/

omit [IsStrictOrderedRing K] in
theorem floodFillFl_unfold (fl : K → K) (tau tol : K) {indata : List K} {links : List (Nat × Nat)} {flows : List ℤ}
    {mode : String} (h : FfArgs indata links flows mode) :
    floodFillFl fl tau tol indata links flows mode =
      match ffLoopFl fl tol (nbrsOf links ((List.range links.length).map fun i =>
          gradientFl fl tau indata mode (links.getD i (0, 0)) i (flows.getD i 0))) (maxLink links + 1) ffInit with
      | .error e => .error e
      | .ok s =>
        if s.errs > 0 then .error .valueError
        else if (List.range (maxLink links + 1)).all s.done then
          if mode = "points" then
            .ok ((List.range (maxLink links + 1)).map fun p => fl (s.unw p + indata.getD 0 0))
          else .ok ((List.range (maxLink links + 1)).map s.unw)
        else .error .valueError := by
  have hg : (List.zipWith (fun (li : (Nat × Nat) × Nat) (f : ℤ) =>
        gradientFl fl tau indata mode li.1 li.2 f) links.zipIdx flows) =
      (List.range links.length).map fun i => gradientFl fl tau indata mode (links.getD i (0, 0)) i (flows.getD i 0) := by
    apply List.ext_getElem
    · simp [h.len]
    · intro i h1 h2
      have hi : i < links.length := by simpa using h2
      have hf : i < flows.length := by rw [← h.len]; exact hi
      simp [List.getD_eq_getElem?_getD, hi, hf]
  unfold floodFillFl
  rw [if_neg (by simp [h.len]), if_neg (by have := h.mode_ok; tauto), if_neg h.ne]
  simp only
  rw [if_neg (by rintro ⟨h1, h2⟩; exact h2 (h.size.1 h1)),
    if_neg (by rintro ⟨h1, h2⟩; exact h2 (h.size.2 h1)), hg]
  rfl

omit [IsStrictOrderedRing K] in
theorem floodFillFl_bad (fl : K → K) (tau tol : K) {indata : List K} {links : List (Nat × Nat)} {flows : List ℤ}
    {mode : String} (h : ¬ FfArgs indata links flows mode) :
    floodFillFl fl tau tol indata links flows mode = .error .valueError := by
  unfold floodFillFl
  split
  · rfl
  · split
    · rfl
    · split
      · rfl
      · simp only
        split
        · rfl
        · split
          · rfl
          · exfalso
            rename_i h1 h2 h3 h4 h5
            apply h
            refine ⟨by simpa using h1, by tauto, h3, ?_, ?_⟩
            · intro hm; by_contra hc; exact h4 ⟨hm, hc⟩
            · intro hm; by_contra hc; exact h5 ⟨hm, hc⟩

/-- Both directions for either mode. -/
theorem floodFillFl_near {tol δ σ : K} {H : Nat} {indata : List K} {links : List (Nat × Nat)} {flows : List ℤ} {mode : String}
    {θ : Nat → K} {h : Nat → ℤ} (hargs : FfArgs indata links flows mode)
    (D : NearData fl B η tau δ σ H links (fun i => gradientFl fl tau indata mode (links.getD i (0, 0)) i (flows.getD i 0)) θ h)
    (hσ : 0 ≤ σ) (htol : 0 ≤ tol) :
    (∀ out, floodFillFl fl tau tol indata links flows mode = .ok out → tol + 2 * ((H : K) + 1) * (δ + η) < tau →
      out.length = maxLink links + 1 ∧
      ∃ (u : Nat → K) (k : Nat → ℤ), k 0 = 0 ∧ (∀ (i a b : Nat), links[i]? = some (a, b) → k b - k a = h i) ∧
        ∀ L p, WalkTo links L p → L ≤ H → p < maxLink links + 1 → |u p - (θ p - θ 0 + (k p : K) * tau)| ≤ (L : K) * (δ + η) ∧
          |u p| ≤ (L : K) * (σ + η) ∧
          out.getD p 0 = if mode = "points" then fl (u p + indata.getD 0 0) else u p) ∧
    ((∃ κ : Nat → ℤ, ∀ (i a b : Nat), links[i]? = some (a, b) → κ b - κ a = h i) → 2 * ((H : K) + 1) * (δ + η) ≤ tol →
      ∃ out, floodFillFl fl tau tol indata links flows mode = .ok out) := by
  obtain ⟨s, r1, r2, r3, r4, r5⟩ := D.labels hσ htol
  rw [floodFillFl_unfold fl tau tol hargs, r1]
  simp only
  have hall : (List.range (maxLink links + 1)).all s.done = true := by
    rw [List.all_eq_true]
    intro p hp
    exact r2 p (by simpa using hp)
  constructor
  · intro out hout htau
    split at hout
    · simp at hout
    · rename_i hz
      obtain ⟨k, k1, k2, k3⟩ := r4 (by omega) htau
      split at hout
      · rename_i hmode
        simp only [Except.ok.injEq] at hout
        subst hout
        refine ⟨by simp, s.unw, k, k1, k2, fun L p hL hLH hp => ⟨k3 L p hL hLH, r3 L p hL hLH, ?_⟩⟩
        rw [if_pos hmode]
        simp [List.getD_eq_getElem?_getD, hp]
      · rename_i hmode
        simp only [Except.ok.injEq] at hout
        subst hout
        refine ⟨by simp, s.unw, k, k1, k2, fun L p hL hLH hp => ⟨k3 L p hL hLH, r3 L p hL hLH, ?_⟩⟩
        rw [if_neg hmode]
        simp [List.getD_eq_getElem?_getD, hp]
  · intro hκ htol2
    have he := r5 hκ htol2
    rw [if_neg (by omega), if_pos hall]
    split
    · exact ⟨_, rfl⟩
    · exact ⟨_, rfl⟩

/-- The estimate for `mode = "points"`. -/
theorem points_near (hr : Rounds fl B η) (ht : 1 ≤ tau) (h0 : 0 ≤ η) (hη : η ≤ 1 / 4) {A : K} {F : ℤ} {H : Nat}
    {indata : List K} {links : List (Nat × Nat)} {flows : List ℤ} (hA0 : 0 ≤ A) (hA : ∀ x ∈ indata, |x| ≤ A) (hF : ∀ f ∈ flows, |f| ≤ F) (hF0 : 0 ≤ F)
    (hB : 2 * ((H : K) + 1) * (tau * ((F : K) + 3)) + 2 * A ≤ B)
    (hwalk : ∀ p < maxLink links + 1, ∃ L ≤ H, WalkTo links L p) :
    NearData fl B η tau (5 * η) (tau * ((F : K) + 1) + 5 * η) H links
      (fun i => gradientFl fl tau indata "points" (links.getD i (0, 0)) i (flows.getD i 0)) (fun p => indata.getD p 0)
      (fun i => flows.getD i 0 - cyclesFl fl tau (indata.getD (links.getD i (0, 0)).1 0) (indata.getD (links.getD i (0, 0)).2 0)) := by
  have ht0 : 0 < tau := by linarith
  have hwA : ∀ p, |indata.getD p 0| ≤ A := by
    intro p
    by_cases hp : p < indata.length
    · rw [List.getD_eq_getElem?_getD, List.getElem?_eq_getElem hp]
      exact hA _ (List.getElem_mem hp)
    · rw [List.getD_eq_getElem?_getD, List.getElem?_eq_none (by omega)]
      simpa using hA0
  have hfF : ∀ i, |((flows.getD i 0 : ℤ) : K)| ≤ (F : K) := by
    intro i
    have : |flows.getD i 0| ≤ F := by
      by_cases hp : i < flows.length
      · rw [List.getD_eq_getElem?_getD, List.getElem?_eq_getElem hp]
        exact hF _ (List.getElem_mem hp)
      · rw [List.getD_eq_getElem?_getD, List.getElem?_eq_none (by omega)]
        simpa using hF0
    exact_mod_cast this
  have hFK : (0 : K) ≤ (F : K) := by exact_mod_cast hF0
  have hH0 : (0 : K) ≤ (H : K) := Nat.cast_nonneg _
  have hT : 0 ≤ tau * ((F : K) + 3) := by positivity
  have hHT : 0 ≤ (H : K) * (tau * ((F : K) + 3)) := mul_nonneg hH0 hT
  have htF : 0 ≤ tau * (F : K) := by positivity
  have hB1 : 2 * A + 2 * (tau * ((F : K) + 3)) ≤ B := by linarith
  have main : ∀ a b i, |gradientFl fl tau indata "points" (a, b) i (flows.getD i 0) -
        (indata.getD b 0 - indata.getD a 0 + ((flows.getD i 0 - cyclesFl fl tau (indata.getD a 0) (indata.getD b 0) : ℤ) : K) * tau)| ≤ 5 * η ∧
      |gradientFl fl tau indata "points" (a, b) i (flows.getD i 0)| ≤ tau * ((F : K) + 1) + 5 * η := by
    intro a b i
    obtain ⟨p1, _, p3, _⟩ := C67_phase_diff hr ht h0 hη (A := A) (by nlinarith) (indata.getD a 0) (indata.getD b 0) (hwA a) (hwA b)
    have b1 := abs_bounds p1
    have b2 := abs_bounds p3
    have b3 : |tau * ((flows.getD i 0 : ℤ) : K)| ≤ tau * (F : K) := by
      rw [abs_mul, abs_of_pos ht0]
      exact mul_le_mul_of_nonneg_left (hfF i) ht0.le
    have b4 := abs_bounds b3
    have b5 := abs_bounds (hr.close _ (b3.trans (by nlinarith)))
    unfold gradientFl
    simp only [if_true]
    set P := phaseDiffFl fl tau (indata.getD a 0) (indata.getD b 0)
    set T := fl (tau * ((flows.getD i 0 : ℤ) : K))
    set n := cyclesFl fl tau (indata.getD a 0) (indata.getD b 0)
    have hPT : |P + T| ≤ B := by rw [abs_le]; constructor <;> linarith
    have b6 := abs_bounds (hr.close _ hPT)
    push_cast
    constructor <;> rw [abs_le] <;> constructor <;> linarith
  have hl : ∀ (i a b : Nat), links[i]? = some (a, b) → links.getD i (0, 0) = (a, b) := by
    intro i a b hi
    rw [List.getD_eq_getElem?_getD, hi]; rfl
  refine ⟨hr, h0, by linarith, ht0, ?_, ?_, ?_, hwalk⟩
  · intro i a b hi
    simp only [hl i a b hi]
    exact (main a b i).1
  · intro i a b hi
    simp only [hl i a b hi]
    exact (main a b i).2
  · have : tau * ((F : K) + 1) + 5 * η + η ≤ tau * ((F : K) + 3) := by nlinarith
    have h2 : 2 * ((H : K) + 1) * (tau * ((F : K) + 1) + 5 * η + η) ≤ 2 * ((H : K) + 1) * (tau * ((F : K) + 3)) :=
      mul_le_mul_of_nonneg_left this (by linarith)
    linarith

/-- C67. A return of `flood_fill` on points is right whatever rounding happened: there are whole
numbers of cycles, 0 at the first point, that differ along every link by exactly the flow less the
cycles removed by wrapping, and the result at a point reached over `L` links is the input plus its
number of cycles up to `6 L + 1` roundings. -/
theorem C67_points_guarantee (hr : Rounds fl B η) (ht : 1 ≤ tau) (h0 : 0 ≤ η) {A tol : K} {F : ℤ} {H : Nat}
    (indata : List K) (links : List (Nat × Nat)) (flows : List ℤ) (hA : ∀ x ∈ indata, |x| ≤ A) (hF : ∀ f ∈ flows, |f| ≤ F)
    (hB : 2 * ((H : K) + 1) * (tau * ((F : K) + 3)) + 2 * A ≤ B) (htol : 0 ≤ tol) (hsmall : tol + 12 * ((H : K) + 1) * η < tau)
    (hη : η ≤ 1 / 4) (hwalk : ∀ p < indata.length, ∃ L ≤ H, WalkTo links L p)
    (out : List K) (hout : floodFillFl fl tau tol indata links flows "points" = .ok out) :
    out.length = indata.length ∧
    ∃ k : Nat → ℤ, k 0 = 0 ∧
      (∀ (i a b : Nat), links[i]? = some (a, b) →
        k b - k a = flows.getD i 0 - cyclesFl fl tau (indata.getD a 0) (indata.getD b 0)) ∧
      ∀ L p, WalkTo links L p → L ≤ H → p < indata.length → |out.getD p 0 - (indata.getD p 0 + (k p : K) * tau)| ≤ (6 * (L : K) + 1) * η := by
  have hargs : FfArgs indata links flows "points" := by
    by_contra hn
    rw [floodFillFl_bad fl tau tol hn] at hout
    simp at hout
  have hlen := hargs.size.2 rfl
  have hA0 : 0 ≤ A := (abs_nonneg _).trans (hA _ (List.getElem_mem (n := 0) (by omega)))
  have hF0 : 0 ≤ F := by
    have : 0 < flows.length := by rw [← hargs.len]; exact List.length_pos_of_ne_nil hargs.ne
    exact (abs_nonneg _).trans (hF _ (List.getElem_mem this))
  have hFK : (0 : K) ≤ (F : K) := by exact_mod_cast hF0
  have D := points_near hr ht h0 hη hA0 hA hF hF0 hB (links := links) (by rw [← hlen]; exact hwalk)
  have hT1 : 0 ≤ tau * ((F : K) + 1) := mul_nonneg (by linarith) (by linarith)
  obtain ⟨l1, u, k, k1, k2, k3⟩ := (floodFillFl_near hargs D (by linarith) htol).1 out hout (by linarith)
  refine ⟨by rw [l1, hlen], k, k1, ?_, ?_⟩
  · intro i a b hi
    have := k2 i a b hi
    rw [List.getD_eq_getElem?_getD (l := links), hi] at this
    exact this
  · intro L p hL hLH hp
    obtain ⟨c1, c2, c3⟩ := k3 L p hL hLH (by omega)
    rw [if_pos rfl] at c3
    have hw0 : |indata.getD 0 0| ≤ A := by
      rw [List.getD_eq_getElem?_getD, List.getElem?_eq_getElem (by omega)]
      exact hA _ (List.getElem_mem _)
    have b1 := abs_bounds hw0
    have b2 := abs_bounds c1
    have b3 := abs_bounds c2
    have hs : tau * ((F : K) + 1) + 5 * η + η ≤ tau * ((F : K) + 3) := by nlinarith
    have hHL : (L : K) ≤ (H : K) := by exact_mod_cast hLH
    have hT : 0 ≤ tau * ((F : K) + 3) := mul_nonneg (by linarith) (by linarith)
    have hLs : (L : K) * (tau * ((F : K) + 1) + 5 * η + η) ≤ (H : K) * (tau * ((F : K) + 3)) :=
      mul_le_mul hHL hs (by linarith) (Nat.cast_nonneg _)
    have hHT : 0 ≤ (H : K) * (tau * ((F : K) + 3)) := mul_nonneg (Nat.cast_nonneg _) hT
    have hb : |u p + indata.getD 0 0| ≤ B := by rw [abs_le]; constructor <;> linarith
    have b4 := abs_bounds (hr.close _ hb)
    rw [c3, abs_le]
    constructor <;> linarith

/-- C67. `flood_fill` on points raises no closure error from rounding: it returns as soon as the
flows less the cycles removed by wrapping are differences of whole numbers, and `12 (H + 1)`
roundings stay within the tolerance. -/
theorem C67_points_returns (hr : Rounds fl B η) (ht : 1 ≤ tau) (h0 : 0 ≤ η) {A tol : K} {F : ℤ} {H : Nat}
    (indata : List K) (links : List (Nat × Nat)) (flows : List ℤ) (hne : links ≠ []) (hlen : flows.length = links.length)
    (hlink : ∀ a b, (a, b) ∈ links → a < indata.length ∧ b < indata.length) (hA : ∀ x ∈ indata, |x| ≤ A) (hF : ∀ f ∈ flows, |f| ≤ F)
    (hB : 2 * ((H : K) + 1) * (tau * ((F : K) + 3)) + 2 * A ≤ B) (htol : 12 * ((H : K) + 1) * η ≤ tol) (hη : η ≤ 1 / 4)
    (hwalk : ∀ p < indata.length, ∃ L ≤ H, WalkTo links L p) (κ : Nat → ℤ)
    (hκ : ∀ (i a b : Nat), links[i]? = some (a, b) →
        κ b - κ a = flows.getD i 0 - cyclesFl fl tau (indata.getD a 0) (indata.getD b 0)) :
    ∃ out, floodFillFl fl tau tol indata links flows "points" = .ok out := by
  have hmax : maxLink links + 1 ≤ indata.length := by
    obtain ⟨l, hl, he⟩ := maxLink_mem hne
    have h1 := hlink l.1 l.2 hl
    rcases he with he | he <;> omega
  have hpos : 0 < indata.length := by omega
  have hsize : indata.length = maxLink links + 1 := by
    apply le_antisymm _ hmax
    by_contra hc
    rw [not_le] at hc
    obtain ⟨L, _, hL⟩ := hwalk (maxLink links + 1) hc
    cases hL with
    | step _ hadj =>
      rcases hadj with h | h
      · have := le_maxLink h; simp only at this; omega
      · have := le_maxLink h; simp only at this; omega
  have hargs : FfArgs indata links flows "points" := ⟨hlen.symm, .inl rfl, hne, by simp, fun _ => hsize⟩
  have hA0 : 0 ≤ A := (abs_nonneg _).trans (hA _ (List.getElem_mem hpos))
  have hF0 : 0 ≤ F := by
    have : 0 < flows.length := by rw [hlen]; exact List.length_pos_of_ne_nil hne
    exact (abs_nonneg _).trans (hF _ (List.getElem_mem this))
  have hFK : (0 : K) ≤ (F : K) := by exact_mod_cast hF0
  have hT1 : 0 ≤ tau * ((F : K) + 1) := mul_nonneg (by linarith) (by linarith)
  have D := points_near hr ht h0 hη hA0 hA hF hF0 hB (links := links) (by rw [← hsize]; exact hwalk)
  have hHη : 0 ≤ (H : K) * η := mul_nonneg (Nat.cast_nonneg _) h0
  refine (floodFillFl_near hargs D (by linarith) (by linarith)).2 ⟨κ, ?_⟩ (by linarith)
  intro i a b hi
  rw [hκ i a b hi, List.getD_eq_getElem?_getD (l := links), hi]
  rfl

/-- The estimate for `mode = "gradients"`. -/
theorem gradients_near (hr : Rounds fl B η) (ht : 0 < tau) (h0 : 0 ≤ η) {A δ : K} {F : ℤ} {H : Nat}
    {indata : List K} {links : List (Nat × Nat)} {flows : List ℤ} (hδ : 0 ≤ δ) (hA0 : 0 ≤ A) (hA : ∀ x ∈ indata, |x| ≤ A) (hF : ∀ f ∈ flows, |f| ≤ F) (hF0 : 0 ≤ F)
    (hB : 2 * ((H : K) + 1) * (A + tau * (F : K) + 3 * η) ≤ B)
    (θ : Nat → K) (c : Nat → ℤ) (hθ : ∀ (i a b : Nat), links[i]? = some (a, b) → |indata.getD i 0 - (θ b - θ a + (c i : K) * tau)| ≤ δ)
    (hwalk : ∀ p < maxLink links + 1, ∃ L ≤ H, WalkTo links L p) :
    NearData fl B η tau (δ + 2 * η) (A + tau * (F : K) + 2 * η) H links
      (fun i => gradientFl fl tau indata "gradients" (links.getD i (0, 0)) i (flows.getD i 0)) θ (fun i => c i + flows.getD i 0) := by
  have hwA : ∀ p, |indata.getD p 0| ≤ A := by
    intro p
    by_cases hp : p < indata.length
    · rw [List.getD_eq_getElem?_getD, List.getElem?_eq_getElem hp]
      exact hA _ (List.getElem_mem hp)
    · rw [List.getD_eq_getElem?_getD, List.getElem?_eq_none (by omega)]
      simpa using hA0
  have hfF : ∀ i, |((flows.getD i 0 : ℤ) : K)| ≤ (F : K) := by
    intro i
    have : |flows.getD i 0| ≤ F := by
      by_cases hp : i < flows.length
      · rw [List.getD_eq_getElem?_getD, List.getElem?_eq_getElem hp]
        exact hF _ (List.getElem_mem hp)
      · rw [List.getD_eq_getElem?_getD, List.getElem?_eq_none (by omega)]
        simpa using hF0
    exact_mod_cast this
  have hFK : (0 : K) ≤ (F : K) := by exact_mod_cast hF0
  have hH0 : (0 : K) ≤ (H : K) := Nat.cast_nonneg _
  have htF : 0 ≤ tau * (F : K) := by positivity
  have hT : 0 ≤ A + tau * (F : K) + 3 * η := by linarith
  have hHT : 0 ≤ (H : K) * (A + tau * (F : K) + 3 * η) := mul_nonneg hH0 hT
  have main : ∀ i, |gradientFl fl tau indata "gradients" (links.getD i (0, 0)) i (flows.getD i 0) - (indata.getD i 0 + tau * ((flows.getD i 0 : ℤ) : K))| ≤ 2 * η ∧
      |gradientFl fl tau indata "gradients" (links.getD i (0, 0)) i (flows.getD i 0)| ≤ A + tau * (F : K) + 2 * η := by
    intro i
    have b1 := abs_bounds (hwA i)
    have b3 : |tau * ((flows.getD i 0 : ℤ) : K)| ≤ tau * (F : K) := by
      rw [abs_mul, abs_of_pos ht]
      exact mul_le_mul_of_nonneg_left (hfF i) ht.le
    have b4 := abs_bounds b3
    have b5 := abs_bounds (hr.close _ (b3.trans (by linarith)))
    unfold gradientFl
    rw [if_neg (by decide)]
    set T := fl (tau * ((flows.getD i 0 : ℤ) : K))
    have hPT : |indata.getD i 0 + T| ≤ B := by rw [abs_le]; constructor <;> linarith
    have b6 := abs_bounds (hr.close _ hPT)
    constructor <;> rw [abs_le] <;> constructor <;> linarith
  refine ⟨hr, h0, by linarith, ht, ?_, fun i a b _ => (main i).2, ?_, hwalk⟩
  · intro i a b hi
    have b1 := abs_bounds (main i).1
    have b2 := abs_bounds (hθ i a b hi)
    push_cast
    rw [abs_le]
    constructor <;> linarith
  · have e : A + tau * (F : K) + 2 * η + η = A + tau * (F : K) + 3 * η := by ring
    rw [e]; exact hB

/-- C67. A return of `flood_fill` on gradients that are, up to `δ`, differences of phases `θ` plus
whole cycles: the result is `θ` relative to the first point plus whole cycles that differ along
every link by exactly those of the gradient plus the flow, up to `L (δ + 3 η)` after `L` links. -/
theorem C67_gradients_guarantee (hr : Rounds fl B η) (ht : 0 < tau) (h0 : 0 ≤ η) {A δ tol : K} {F : ℤ} {H : Nat}
    (indata : List K) (links : List (Nat × Nat)) (flows : List ℤ) (hA : ∀ x ∈ indata, |x| ≤ A) (hF : ∀ f ∈ flows, |f| ≤ F)
    (hB : 2 * ((H : K) + 1) * (A + tau * (F : K) + 3 * η) ≤ B) (htol : 0 ≤ tol) (hsmall : tol + 2 * ((H : K) + 1) * (δ + 3 * η) < tau)
    (θ : Nat → K) (c : Nat → ℤ) (hθ : ∀ (i a b : Nat), links[i]? = some (a, b) → |indata.getD i 0 - (θ b - θ a + (c i : K) * tau)| ≤ δ)
    (n : Nat) (hlink : ∀ a b, (a, b) ∈ links → a < n ∧ b < n) (hwalk : ∀ p < n, ∃ L ≤ H, WalkTo links L p)
    (out : List K) (hout : floodFillFl fl tau tol indata links flows "gradients" = .ok out) :
    out.length = n ∧
    ∃ k : Nat → ℤ, k 0 = 0 ∧
      (∀ (i a b : Nat), links[i]? = some (a, b) → k b - k a = c i + flows.getD i 0) ∧
      ∀ L p, WalkTo links L p → L ≤ H → p < n → |out.getD p 0 - (θ p - θ 0 + (k p : K) * tau)| ≤ (L : K) * (δ + 3 * η) := by
  have hargs : FfArgs indata links flows "gradients" := by
    by_contra hn
    rw [floodFillFl_bad fl tau tol hn] at hout
    simp at hout
  have hlp := List.length_pos_of_ne_nil hargs.ne
  have hsize : n = maxLink links + 1 := by
    apply le_antisymm
    · by_contra hc
      rw [not_le] at hc
      obtain ⟨L, _, hL⟩ := hwalk (maxLink links + 1) hc
      cases hL with
      | step _ hadj =>
        rcases hadj with h | h
        · have := le_maxLink h; simp only at this; omega
        · have := le_maxLink h; simp only at this; omega
    · obtain ⟨l, hl, he⟩ := maxLink_mem hargs.ne
      have h1 := hlink l.1 l.2 hl
      rcases he with he | he <;> omega
  have hA0 : 0 ≤ A := (abs_nonneg _).trans (hA _ (List.getElem_mem (n := 0) (by rw [hargs.size.1 rfl]; exact hlp)))
  have hF0 : 0 ≤ F := (abs_nonneg _).trans (hF _ (List.getElem_mem (n := 0) (by rw [← hargs.len]; exact hlp)))
  have hFK : (0 : K) ≤ (F : K) := by exact_mod_cast hF0
  have hδ : 0 ≤ δ := (abs_nonneg _).trans (hθ 0 links[0].1 links[0].2 (by rw [List.getElem?_eq_getElem hlp]))
  have D := gradients_near hr ht h0 hδ hA0 hA hF hF0 hB θ c hθ (by rw [← hsize]; exact hwalk)
  have htF : 0 ≤ tau * (F : K) := mul_nonneg ht.le hFK
  obtain ⟨l1, u, k, k1, k2, k3⟩ := (floodFillFl_near hargs D (by linarith) htol).1 out hout (by linarith)
  refine ⟨by rw [l1, hsize], k, k1, k2, ?_⟩
  intro L p hL hLH hp
  obtain ⟨c1, _, c3⟩ := k3 L p hL hLH (by omega)
  rw [if_neg (by decide)] at c3
  rw [c3]
  refine c1.trans (le_of_eq (by ring))

/-- C67. And it does return if the whole cycles close and `2 (H + 1) (δ + 3 η)` is within the
tolerance. -/
theorem C67_gradients_returns (hr : Rounds fl B η) (ht : 0 < tau) (h0 : 0 ≤ η) {A δ tol : K} {F : ℤ} {H : Nat}
    (indata : List K) (links : List (Nat × Nat)) (flows : List ℤ) (hne : links ≠ []) (hlen : flows.length = links.length)
    (hlen' : indata.length = links.length) (hA : ∀ x ∈ indata, |x| ≤ A) (hF : ∀ f ∈ flows, |f| ≤ F)
    (hB : 2 * ((H : K) + 1) * (A + tau * (F : K) + 3 * η) ≤ B) (htol : 2 * ((H : K) + 1) * (δ + 3 * η) ≤ tol)
    (θ : Nat → K) (c : Nat → ℤ) (hθ : ∀ (i a b : Nat), links[i]? = some (a, b) → |indata.getD i 0 - (θ b - θ a + (c i : K) * tau)| ≤ δ)
    (n : Nat) (hlink : ∀ a b, (a, b) ∈ links → a < n ∧ b < n) (hwalk : ∀ p < n, ∃ L ≤ H, WalkTo links L p)
    (κ : Nat → ℤ) (hκ : ∀ (i a b : Nat), links[i]? = some (a, b) → κ b - κ a = c i + flows.getD i 0) :
    ∃ out, floodFillFl fl tau tol indata links flows "gradients" = .ok out := by
  have hargs : FfArgs indata links flows "gradients" := ⟨hlen.symm, .inr rfl, hne, fun _ => hlen', by simp⟩
  have hlp := List.length_pos_of_ne_nil hargs.ne
  have hmax : maxLink links + 1 ≤ n := by
    obtain ⟨l, hl, he⟩ := maxLink_mem hne
    have h1 := hlink l.1 l.2 hl
    rcases he with he | he <;> omega
  have hA0 : 0 ≤ A := (abs_nonneg _).trans (hA _ (List.getElem_mem (n := 0) (by rw [hargs.size.1 rfl]; exact hlp)))
  have hF0 : 0 ≤ F := (abs_nonneg _).trans (hF _ (List.getElem_mem (n := 0) (by rw [← hargs.len]; exact hlp)))
  have hFK : (0 : K) ≤ (F : K) := by exact_mod_cast hF0
  have hδ : 0 ≤ δ := (abs_nonneg _).trans (hθ 0 links[0].1 links[0].2 (by rw [List.getElem?_eq_getElem hlp]))
  have D := gradients_near hr ht h0 hδ hA0 hA hF hF0 hB θ c hθ (fun p hp => hwalk p (by omega))
  have htF : 0 ≤ tau * (F : K) := mul_nonneg ht.le hFK
  have hH : 0 ≤ (H : K) * (δ + 3 * η) := mul_nonneg (Nat.cast_nonneg _) (by linarith)
  exact (floodFillFl_near hargs D (by linarith) (by linarith)).2 ⟨κ, hκ⟩ (by linarith)

/-! ### unwrap_one -/

/-- Two labellings with the same differences along links agree. -/
theorem labels_unique {links : List (Nat × Nat)} {k k' : Nat → ℤ} (h : ∀ a b, (a, b) ∈ links → k b - k a = k' b - k' a) :
    ∀ L p, WalkTo links L p → k p - k 0 = k' p - k' 0 := by
  intro L p hp
  induction hp with
  | start => simp
  | step _ hadj ih =>
    rcases hadj with h' | h'
    · have := h _ _ h'; omega
    · have := h _ _ h'; omega

/-- C67. `unwrap_one` in rounded arithmetic, on a graph whose points are within `H` links of the
first: with a sound and complete flow solver it returns, and the result is the input plus whole
cycles, up to `6 L + 1` roundings at `L` links from the first point. `F` bounds the flows the solver
answers with here. -/
theorem C67_unwrap_one (hr : Rounds fl B η) (ht : 1 ≤ tau) (h0 : 0 ≤ η) {A tol : K} {F : ℤ} {H : Nat}
    (g : PlanarGraph) (m : Mcf) (solver : FlowSolver) (hc : PlanarContract g.npoints g.links g.cycles) (hne : g.links ≠ [])
    (hwalk : ∀ p < g.npoints, ∃ L ≤ H, WalkTo g.links L p) (hgen : CyclesGenerate K g.links g.cycles)
    (hm : ormcf g = .ok m) (hsound : SolverSound solver) (hcomp : SolverComplete solver)
    (w : List K) (hw : w.length = g.npoints) (hA : ∀ x ∈ w, |x| ≤ A) (hA9 : A ≤ 1000000000 * tau)
    (cost : List ℤ) (revcost : Option (List ℤ)) (c r : List ℤ)
    (hcost : CostOn g.links.length cost c) (hrev : CostOn g.links.length (revcost.getD cost) r)
    (hc0 : ∀ v ∈ c, 0 ≤ v) (hr0 : ∀ v ∈ r, 0 ≤ v)
    (hF0 : 0 ≤ F) (hF : ∀ res flows, computeResiduesFl fl tau m w = .ok res →
      residuesToFlows solver m res cost (some (revcost.getD cost)) = .ok flows → ∀ f ∈ flows, |f| ≤ F)
    (hB : 2 * ((H : K) + 1) * (tau * ((F : K) + 3)) + 2 * A ≤ B)
    (hL : ∀ c ∈ g.cycles, 2 * (c.length : K) * tau ≤ B ∧ (4 * (c.length : K) + 1) * η < 1 / 2)
    (hη : η ≤ 1 / 4) (htol : 12 * ((H : K) + 1) * η ≤ tol) (htau : 2 * tol < tau) :
    ∃ unw flows, unwrapOneFl fl tau tol solver m w cost revcost = .ok (unw, flows) ∧
      unw.length = g.npoints ∧ flows.length = g.links.length ∧
      ∃ k : Nat → ℤ, k 0 = 0 ∧
        (∀ (i a b : Nat), g.links[i]? = some (a, b) →
          k b - k a = flows.getD i 0 - cyclesFl fl tau (w.getD a 0) (w.getD b 0)) ∧
        ∀ L p, WalkTo g.links L p → L ≤ H → p < g.npoints → |unw.getD p 0 - (w.getD p 0 + (k p : K) * tau)| ≤ (6 * (L : K) + 1) * η := by
  have ht0 : 0 < tau := by linarith
  obtain ⟨hmg, -⟩ := dual_of_contract hc hm
  have hlp := List.length_pos_of_ne_nil hne
  have hlink : ∀ a b, (a, b) ∈ g.links → a < w.length ∧ b < w.length := by
    intro a b hab
    have := hc.ordered a b hab
    omega
  have hA0 : 0 ≤ A := by
    have h1 := hlink g.links[0].1 g.links[0].2 (List.getElem_mem hlp)
    exact (abs_nonneg _).trans (hA _ (List.getElem_mem h1.1))
  have hwA : ∀ p, |w.getD p 0| ≤ A := by
    intro p
    by_cases hp : p < w.length
    · rw [List.getD_eq_getElem?_getD, List.getElem?_eq_getElem hp]
      exact hA _ (List.getElem_mem hp)
    · rw [List.getD_eq_getElem?_getD, List.getElem?_eq_none (by omega)]
      simpa using hA0
  set N : Nat → Nat → ℤ := fun a b => cyclesFl fl tau (w.getD a 0) (w.getD b 0) with hN
  have hswap : ∀ a b, N b a = - N a b := fun a b => cyclesFl_swap hr tau _ _
  set res : List ℤ := -(g.cycles.map fun c => -((sides c).map fun s => N s.1 s.2).sum).sum ::
    g.cycles.map fun c => -((sides c).map fun s => N s.1 s.2).sum with hresdef
  -- a correction exists
  have hx : Cancels g.links g.cycles res (g.links.map fun l => N l.1 l.2) := by
    refine ⟨by simp, fun k hk => ?_⟩
    rw [circulation_antisymm hc _ N (fun a b _ => hswap a b) (fun a b hab => onLink_map N hab) (List.getElem_mem hk)]
    simp [List.getD_eq_getElem?_getD, hk, hresdef]
  have hNb : ∀ a b, 2 * A + 2 * tau ≤ B → |N a b| ≤ int32Max := by
    intro a b hB'
    have h4 := (C67_phase_diff hr ht h0 hη hB' (w.getD a 0) (w.getD b 0) (hwA a) (hwA b)).2.2.2
    have h5 : 2 * A / tau ≤ 2000000000 := by
      rw [div_le_iff₀ ht0]; linarith
    have h6 : |((N a b : ℤ) : K)| ≤ ((2000000001 : ℤ) : K) := by
      push_cast; exact h4.trans (by linarith)
    have h7 : |N a b| ≤ 2000000001 := by exact_mod_cast h6
    simp only [int32Max]
    omega
  have hroom : 2 * A + 2 * tau ≤ B := by
    have hFK : (0 : K) ≤ (F : K) := by exact_mod_cast hF0
    have h1 : 0 ≤ tau * (F : K) := mul_nonneg ht0.le hFK
    have h2 : 0 ≤ (H : K) * (tau * ((F : K) + 3)) := mul_nonneg (Nat.cast_nonneg _) (mul_nonneg ht0.le (by linarith))
    linarith
  have hres := C67_residues hr ht h0 hroom g m hc hne hm w hw hA hL
  obtain ⟨flows, hfl⟩ := residuesToFlows_returns hc hm hcomp res cost (some (revcost.getD cost)) c r hcost hrev hc0 hr0
    (by simp [hresdef]) (by simp [hresdef]) ⟨_, hx, by
      intro v hv
      obtain ⟨⟨a, b⟩, hab, rfl⟩ := List.mem_map.mp hv
      exact hNb a b hroom⟩
  have hcan := C10_flows_cancel g m solver hc hm hsound _ _ _ _ hfl
  have hFfl := hF res flows hres hfl
  -- labels
  have hon : ∀ (i a b : Nat), g.links[i]? = some (a, b) → onLink g.links flows a b = flows.getD i 0 := by
    intro i a b hi
    obtain ⟨hlt, hge⟩ := List.getElem?_eq_some_iff.mp hi
    unfold onLink
    rw [← hge, hc.distinct.idxOf_getElem i hlt]
  set E : List K := g.links.map fun l => ((onLink g.links flows l.1 l.2 - N l.1 l.2 : ℤ) : K) with hE
  have hEon : ∀ a b, (a, b) ∈ g.links → onLink g.links E a b = ((onLink g.links flows a b - N a b : ℤ) : K) := by
    intro a b hab
    exact onLink_map (fun a b => ((onLink g.links flows a b - N a b : ℤ) : K)) hab
  have hclose : ∀ cyc ∈ g.cycles, circulation g.links E cyc = 0 := by
    intro cyc hcy
    obtain ⟨q, hq, rfl⟩ := List.mem_iff_getElem.mp hcy
    rw [circulation_antisymm hc E (fun a b => ((along g.links flows a b - N a b : ℤ) : K)) ?_ ?_ hcy]
    · have h1 := hcan.2 q hq
      have h3 : ∀ l : List (Nat × Nat), (l.map fun s => ((along g.links flows s.1 s.2 - N s.1 s.2 : ℤ) : K)).sum =
          (((l.map fun s => along g.links flows s.1 s.2).sum - (l.map fun s => N s.1 s.2).sum : ℤ) : K) := by
        intro l
        induction l with
        | nil => simp
        | cons s l ih =>
          simp only [List.map_cons, List.sum_cons, ih]; push_cast; ring
      rw [h3]
      unfold circulation at h1
      rw [h1]
      simp [List.getD_eq_getElem?_getD, hq, hresdef]
    · intro a b hab
      rw [hswap a b]
      unfold along
      rw [if_pos hab, if_neg (by omega)]
      push_cast; ring
    · intro a b hab
      rw [hEon a b hab]
      unfold along
      rw [if_pos (hc.ordered a b hab).1]
  obtain ⟨ψ, hψ⟩ := hgen E (by simp [hE]) hclose
  have hψi : ∀ p, ∃ z : ℤ, p < g.npoints → ψ p - ψ 0 = (z : K) := by
    intro p
    by_cases hp : p < g.npoints
    · obtain ⟨L, hLH, hL⟩ := hwalk p hp
      clear hLH
      have : ∃ z : ℤ, ψ p - ψ 0 = (z : K) := by
        clear hp
        induction hL with
        | start => exact ⟨0, by simp⟩
        | @step L' a b _ hadj ih =>
          obtain ⟨z, hz⟩ := ih
          rcases hadj with h' | h'
          · have h1 := hψ _ _ h'
            rw [hEon _ _ h'] at h1
            refine ⟨z + (onLink g.links flows a b - N a b), ?_⟩
            rw [Int.cast_add, ← hz, h1]
            ring
          · have h1 := hψ _ _ h'
            rw [hEon _ _ h'] at h1
            refine ⟨z - (onLink g.links flows b a - N b a), ?_⟩
            rw [Int.cast_sub, ← hz, h1]
            ring
      obtain ⟨z, hz⟩ := this
      exact ⟨z, fun _ => hz⟩
    · exact ⟨0, fun h => absurd h hp⟩
  choose κ hκ using hψi
  have hκl : ∀ (i a b : Nat), g.links[i]? = some (a, b) → κ b - κ a = flows.getD i 0 - N a b := by
    intro i a b hi
    have hab := List.mem_of_getElem? hi
    have ho := hc.ordered a b hab
    have h1 := hψ a b hab
    rw [hEon a b hab, hon i a b hi] at h1
    have h2 := hκ a (by omega)
    have h3 := hκ b ho.2
    have : ((κ b - κ a : ℤ) : K) = ((flows.getD i 0 - N a b : ℤ) : K) := by
      rw [h1, Int.cast_sub, ← h2, ← h3]; ring
    exact_mod_cast this
  have htol0 : 0 ≤ tol := le_trans (mul_nonneg (by positivity) h0) htol
  obtain ⟨unw, hunw⟩ := C67_points_returns hr ht h0 w g.links flows hne hcan.1 hlink hA hFfl hB htol hη
    (by rw [hw]; exact hwalk) κ hκl
  obtain ⟨l1, k, k1, k2, k3⟩ := C67_points_guarantee hr ht h0 w g.links flows hA hFfl hB htol0 (by linarith) hη
    (by rw [hw]; exact hwalk) unw hunw
  refine ⟨unw, flows, ?_, by rw [l1, hw], hcan.1, k, k1, k2, by rw [← hw]; exact k3⟩
  unfold unwrapOneFl
  rw [hres, hmg]
  simp only [Bind.bind, Except.bind, pure, Except.pure]
  rw [hfl]
  simp only [hunw]

/-- The number of cycles removed from a difference that is, up to `e`, less than half a cycle away
from whole cycles. -/
theorem cyclesFl_eq (hr : Rounds fl B η) (ht : 1 ≤ tau) (h0 : 0 ≤ η) {z0 z1 x : K} (n : ℤ) (hz : |z1 - z0| + η ≤ B)
    (hx : z1 - z0 = x + (n : K) * tau) (hlt : |x| + 2 * tau * η < tau / 2) : cyclesFl fl tau z0 z1 = n := by
  have ht0 : 0 < tau := by linarith
  have b1 := abs_bounds (hr.close _ (show |z1 - z0| ≤ B by linarith))
  have b0 := abs_bounds (le_refl |z1 - z0|)
  have hdB : |fl (z1 - z0) / tau| ≤ B := by
    rw [abs_div, abs_of_pos ht0, div_le_iff₀ ht0]
    have h1 : |fl (z1 - z0)| ≤ B := by rw [abs_le]; constructor <;> linarith
    have h2 : 0 ≤ B := (abs_nonneg _).trans h1
    nlinarith
  have b2 := abs_bounds (hr.close _ hdB)
  have b3 := abs_bounds (le_refl |x|)
  unfold cyclesFl
  have e : fl (z1 - z0) / tau * tau = fl (z1 - z0) := div_mul_cancel₀ _ ht0.ne'
  set q := fl (fl (z1 - z0) / tau) with hq
  set d := fl (z1 - z0) with hd
  have hlow : -(tau * η) ≤ (q - d / tau) * tau ∧ (q - d / tau) * tau ≤ tau * η := by
    constructor <;> nlinarith
  have hη1 : η ≤ tau * η := by nlinarith
  have e2 : (q - n) * tau = (q - d / tau) * tau + (d - n * tau) := by rw [sub_mul q (d / tau), e]; ring
  apply rint_eq_of_lt
  · have : -(tau / 2) < (q - n) * tau := by rw [e2]; linarith
    by_contra hc
    rw [not_lt] at hc
    nlinarith
  · have : (q - n) * tau < tau / 2 := by rw [e2]; linarith
    by_contra hc
    rw [not_lt] at hc
    nlinarith

/-- C67. Itoh in rounded arithmetic: if the true phase changes along every link by less than half a
cycle, with a margin for the error `e` of the wrapped data and two roundings, then whatever the
solver, `unwrap_one` returns zero flows and the true phase plus one constant number of cycles,
up to `e` and `6 L + 1` roundings. -/
theorem C67_itoh (hr : Rounds fl B η) (ht : 1 ≤ tau) (h0 : 0 ≤ η) {A tol e : K} {H : Nat}
    (g : PlanarGraph) (m : Mcf) (solver : FlowSolver) (hc : PlanarContract g.npoints g.links g.cycles) (hne : g.links ≠ [])
    (hwalk : ∀ p < g.npoints, ∃ L ≤ H, WalkTo g.links L p) (hm : ormcf g = .ok m)
    (φ : Nat → K) (hφ : ∀ a b, (a, b) ∈ g.links → |φ b - φ a| + 2 * e + 2 * tau * η < tau / 2)
    (w : List K) (hw : w.length = g.npoints) (k : Nat → ℤ) (hwk : ∀ p < g.npoints, |w.getD p 0 - (φ p - (k p : K) * tau)| ≤ e)
    (hA : ∀ x ∈ w, |x| ≤ A) (cost : List ℤ) (revcost : Option (List ℤ))
    (hB : 6 * ((H : K) + 1) * tau + 2 * A ≤ B)
    (hL : ∀ c ∈ g.cycles, 2 * (c.length : K) * tau ≤ B ∧ (4 * (c.length : K) + 1) * η < 1 / 2)
    (hη : η ≤ 1 / 4) (htol : 12 * ((H : K) + 1) * η ≤ tol) (htau : 2 * tol < tau) :
    ∃ unw, unwrapOneFl fl tau tol solver m w cost revcost = .ok (unw, List.replicate g.links.length 0) ∧
      unw.length = g.npoints ∧
      ∀ L p, WalkTo g.links L p → L ≤ H → p < g.npoints → |unw.getD p 0 - (φ p - (k 0 : K) * tau)| ≤ (6 * (L : K) + 1) * η + e := by
  have ht0 : 0 < tau := by linarith
  obtain ⟨hmg, -⟩ := dual_of_contract hc hm
  have hlp := List.length_pos_of_ne_nil hne
  have hlink : ∀ a b, (a, b) ∈ g.links → a < w.length ∧ b < w.length := by
    intro a b hab
    have := hc.ordered a b hab
    omega
  have hA0 : 0 ≤ A := by
    have h1 := hlink g.links[0].1 g.links[0].2 (List.getElem_mem hlp)
    exact (abs_nonneg _).trans (hA _ (List.getElem_mem h1.1))
  have hwA : ∀ p, |w.getD p 0| ≤ A := by
    intro p
    by_cases hp : p < w.length
    · rw [List.getD_eq_getElem?_getD, List.getElem?_eq_getElem hp]
      exact hA _ (List.getElem_mem hp)
    · rw [List.getD_eq_getElem?_getD, List.getElem?_eq_none (by omega)]
      simpa using hA0
  have hHt : 0 ≤ (H : K) * tau := mul_nonneg (Nat.cast_nonneg _) ht0.le
  have hroom : 2 * A + 2 * tau ≤ B := by linarith
  have hcyc : ∀ a b, (a, b) ∈ g.links → cyclesFl fl tau (w.getD a 0) (w.getD b 0) = k a - k b := by
    intro a b hab
    have ho := hc.ordered a b hab
    have b1 := abs_bounds (hwk a (by omega))
    have b2 := abs_bounds (hwk b ho.2)
    have b3 := abs_bounds (hwA a)
    have b4 := abs_bounds (hwA b)
    have b5 := abs_bounds (le_refl |φ b - φ a|)
    refine cyclesFl_eq hr ht h0 (x := (w.getD b 0 - (φ b - (k b : K) * tau)) - (w.getD a 0 - (φ a - (k a : K) * tau)) + (φ b - φ a))
      (k a - k b) ?_ (by push_cast; ring) ?_
    · have : |w.getD b 0 - w.getD a 0| ≤ 2 * A := by rw [abs_le]; constructor <;> linarith
      linarith
    · have : |(w.getD b 0 - (φ b - (k b : K) * tau)) - (w.getD a 0 - (φ a - (k a : K) * tau)) + (φ b - φ a)| ≤ |φ b - φ a| + 2 * e := by
        rw [abs_le]; constructor <;> linarith
      have := hφ a b hab
      linarith
  have hside : ∀ cyc ∈ g.cycles, ∀ s ∈ sides cyc, cyclesFl fl tau (w.getD s.1 0) (w.getD s.2 0) = - k s.2 - (- k s.1) := by
    rintro cyc hcy ⟨x, y⟩ hs
    rcases hc.side_is_link x y (List.mem_flatMap.mpr ⟨_, hcy, hs⟩) with h | h
    · rw [hcyc x y h]; ring
    · simp only; rw [cyclesFl_swap hr, hcyc y x h]; ring
  have hres := C67_residues hr ht h0 hroom g m hc hne hm w hw hA hL
  have hmap : (g.cycles.map fun c => -((sides c).map fun s => cyclesFl fl tau (w.getD s.1 0) (w.getD s.2 0)).sum) =
      List.replicate g.cycles.length 0 := by
    rw [List.eq_replicate_iff]
    refine ⟨by simp, ?_⟩
    intro v hv
    obtain ⟨c, hc', rfl⟩ := List.mem_map.mp hv
    rw [List.map_congr_left (hside c hc'), sum_sides_diff c fun p => - k p, neg_zero]
  rw [hmap] at hres
  have hflow : residuesToFlows solver m (-(List.replicate g.cycles.length (0 : ℤ)).sum ::
      List.replicate g.cycles.length 0) cost (some (revcost.getD cost)) =
      .ok (List.replicate g.links.length 0) := by
    unfold residuesToFlows
    rw [if_neg (by simp), hmg]
  have hz : ∀ i, (List.replicate g.links.length (0 : ℤ)).getD i 0 = 0 := by
    intro i
    rw [List.getD_eq_getElem?_getD, List.getElem?_replicate]; split <;> rfl
  have hB' : 2 * ((H : K) + 1) * (tau * (((0 : ℤ) : K) + 3)) + 2 * A ≤ B := by
    rw [Int.cast_zero, zero_add]; linarith
  have hF : ∀ f ∈ List.replicate g.links.length (0 : ℤ), |f| ≤ (0 : ℤ) := by
    intro f hf; rw [List.eq_of_mem_replicate hf]; simp
  have htol0 : 0 ≤ tol := le_trans (mul_nonneg (by positivity) h0) htol
  obtain ⟨unw, hunw⟩ := C67_points_returns hr ht h0 w g.links (List.replicate g.links.length 0) hne (by simp) hlink hA hF hB' htol hη
    (by rw [hw]; exact hwalk) k (by
      intro i a b hi
      rw [hz, hcyc a b (List.mem_of_getElem? hi)]; ring)
  obtain ⟨l1, k', k1, k2, k3⟩ := C67_points_guarantee hr ht h0 w g.links _ hA hF hB' htol0 (by linarith) hη
    (by rw [hw]; exact hwalk) unw hunw
  refine ⟨unw, ?_, by rw [l1, hw], ?_⟩
  · unfold unwrapOneFl
    rw [hres, hmg]
    simp only [Bind.bind, Except.bind, pure, Except.pure]
    rw [hflow]
    simp only [hunw]
  · intro L p hL hLH hp
    have hu := labels_unique (k := k') (k' := k) (fun a b hab => by
      obtain ⟨i, hi⟩ := List.mem_iff_getElem?.mp hab
      rw [k2 i a b hi, hz, hcyc a b hab]; ring) L p hL
    have hkp : ((k' p : ℤ) : K) = (k p : K) - (k 0 : K) := by
      have : k' p = k p - k 0 := by omega
      rw [this]; push_cast; ring
    have b1 := abs_bounds (k3 L p hL hLH (by omega))
    have b2 := abs_bounds (hwk p hp)
    rw [hkp] at b1
    rw [abs_le]
    constructor <;> linarith

end

end Spurt
