import Verif.Lemmas.FloatFill
import Verif.Spec.Float
import Mathlib.Tactic.Linarith
import Mathlib.Tactic.Ring

/-! # Flood fill with rounding: labels, and closure -/

namespace Spurt
open Spec

section
variable {K : Type} [Field K] [LinearOrder K]

/-- The loop on an array of gradients. -/
theorem fillRun {fl : K → K} {tol : K} (hodd : ∀ x, fl (-x) = - fl x) {links : List (Nat × Nat)} {G : Nat → K} {Q : Nat → Nat → K → Prop} (h0 : Q 0 0 0)
    (hQ : ∀ (i a b m : Nat) (x : K), links[i]? = some (a, b) → (Q m a x → Q (m + 1) b (fl (x + G i))) ∧ (Q m b x → Q (m + 1) a (fl (x - G i)))) :
    ∃ (s : FfState K) (dep : Nat → Nat), ffLoopFl fl tol (nbrsOf links ((List.range links.length).map G)) (maxLink links + 1) ffInit = .ok s ∧
      s.done 0 = true ∧ s.unw 0 = 0 ∧ (∀ j, s.done j = true → j < maxLink links + 1 ∧ Q (dep j) j (s.unw j)) ∧
      (∀ (i a b : Nat), links[i]? = some (a, b) → s.done a = true → s.errs = 0 → Checked fl tol (s.unw a) (G i) (s.unw b)) ∧
      (0 < s.errs → ∃ (i a b : Nat), links[i]? = some (a, b) ∧ s.done a = true ∧ s.done b = true ∧
        (tol < |fl (fl (s.unw a + G i) - s.unw b)| ∨ tol < |fl (fl (s.unw b - G i) - s.unw a)|)) ∧
      ∀ L p, WalkTo links L p → s.done p = true ∧ dep p ≤ L := by
  have hnb : ∀ i, ∀ jg ∈ nbrsOf links ((List.range links.length).map G) i, jg.1 < maxLink links + 1 := by
    rintro i ⟨j, g⟩ h
    rw [mem_nbrsOf] at h
    rcases h with h | h
    · have := le_maxLink (List.of_mem_zip h).1; simp only at *; omega
    · have := le_maxLink (List.of_mem_zip h).1; simp only at *; omega
  obtain ⟨s, dep, h1, h2⟩ := bfs_run (fl := fl) (tol := tol) (Q := Q) (Nat.succ_pos _) hnb (by
    rintro i ⟨j, g⟩ h m x hx
    rw [mem_nbrsOf] at h
    rcases h with h | h
    · obtain ⟨k, hk, rfl⟩ := mem_zip_gradList.mp h
      exact (hQ k i j m x hk).1 hx
    · obtain ⟨k, hk, he⟩ := mem_zip_gradList.mp h
      have := (hQ k j i m x hk).2 hx
      rw [← he, sub_neg_eq_add] at this
      exact this) h0
  have mem1 : ∀ (i a b : Nat), links[i]? = some (a, b) → (b, G i) ∈ nbrsOf links ((List.range links.length).map G) a := by
    intro i a b hi
    rw [mem_nbrsOf]; left; exact mem_zip_gradList.mpr ⟨i, hi, rfl⟩
  have mem2 : ∀ (i a b : Nat), links[i]? = some (a, b) → (a, - G i) ∈ nbrsOf links ((List.range links.length).map G) b := by
    intro i a b hi
    rw [mem_nbrsOf]; right; exact mem_zip_gradList.mpr ⟨i, hi, by simp⟩
  refine ⟨s, dep, h1, h2.zero.1, h2.zero.2.1, fun j hj => ⟨h2.bound j hj, h2.q j hj⟩, ?_, ?_, ?_⟩
  · intro i a b hi ha he
    exact (h2.closed a ha _ (mem1 i a b hi)).2.2 he
  · intro he
    obtain ⟨a, ⟨b, g⟩, hm, ha, hb, ht⟩ := h2.bad he
    rw [mem_nbrsOf] at hm
    rcases hm with hm | hm
    · obtain ⟨k, hk, rfl⟩ := mem_zip_gradList.mp hm
      exact ⟨k, a, b, hk, ha, hb, .inl ht⟩
    · obtain ⟨k, hk, he⟩ := mem_zip_gradList.mp hm
      refine ⟨k, b, a, hk, hb, ha, .inr ?_⟩
      rw [← he, sub_neg_eq_add]
      exact ht
  · intro L p hp
    induction hp with
    | start => exact ⟨h2.zero.1, by rw [h2.zero.2.2]⟩
    | step hw hadj ih =>
      rcases hadj with h | h
      · obtain ⟨i, hi⟩ := List.mem_iff_getElem?.mp h
        obtain ⟨c1, c2, _⟩ := h2.closed _ ih.1 _ (mem1 i _ _ hi)
        exact ⟨c1, c2.trans (by simpa using ih.2)⟩
      · obtain ⟨i, hi⟩ := List.mem_iff_getElem?.mp h
        obtain ⟨c1, c2, _⟩ := h2.closed _ ih.1 _ (mem2 i _ _ hi)
        exact ⟨c1, c2.trans (by simpa using ih.2)⟩

end

section
variable {K : Type} [Field K] [LinearOrder K] [IsStrictOrderedRing K]

/-- The data of the estimate: gradients near congruent differences of `θ`. -/
structure NearData (fl : K → K) (B η tau δ σ : K) (H : Nat) (links : List (Nat × Nat)) (G : Nat → K) (θ : Nat → K)
    (h : Nat → ℤ) : Prop where
  rounds : Rounds fl B η
  eta : 0 ≤ η
  delta : 0 ≤ δ
  tau_pos : 0 < tau
  near : ∀ (i a b : Nat), links[i]? = some (a, b) → |G i - (θ b - θ a + (h i : K) * tau)| ≤ δ
  size : ∀ (i a b : Nat), links[i]? = some (a, b) → |G i| ≤ σ
  room : 2 * ((H : K) + 1) * (σ + η) ≤ B
  walks : ∀ p < maxLink links + 1, ∃ L ≤ H, WalkTo links L p

theorem abs_bounds {x y : K} (h : |x| ≤ y) : -y ≤ x ∧ x ≤ y := abs_le.mp h

section
variable {fl : K → K} {B η tau δ σ : K} {H : Nat} {links : List (Nat × Nat)} {G : Nat → K} {θ : Nat → K} {h : Nat → ℤ}

/-- One step along a link, given a value at one end. -/
theorem NearData.step (D : NearData fl B η tau δ σ H links G θ h) (hσ : 0 ≤ σ) {m : Nat} (hm : m + 1 ≤ H) {x g φa φb : K}
    (hg : |g| ≤ σ) (hφ : |g - (φb - φa)| ≤ δ) (hx : |x - φa| ≤ (m : K) * (δ + η)) (hx' : |x| ≤ (m : K) * (σ + η)) :
    |fl (x + g) - φb| ≤ ((m + 1 : Nat) : K) * (δ + η) ∧ |fl (x + g)| ≤ ((m + 1 : Nat) : K) * (σ + η) := by
  have hmH : ((m : K) + 1) ≤ (H : K) := by exact_mod_cast hm
  have hη := D.eta
  have hroom := D.room
  have h0 : 0 ≤ σ + η := by linarith
  have hmm : ((m : K) + 1) * (σ + η) ≤ (H : K) * (σ + η) := mul_le_mul_of_nonneg_right hmH h0
  have hH0 : 0 ≤ (H : K) * (σ + η) := mul_nonneg (Nat.cast_nonneg _) h0
  have a1 := abs_bounds hg
  have a2 := abs_bounds hφ
  have a3 := abs_bounds hx
  have a4 := abs_bounds hx'
  have hb : |x + g| ≤ B := by rw [abs_le]; constructor <;> nlinarith
  have a5 := abs_bounds (D.rounds.close _ hb)
  push_cast
  constructor <;> rw [abs_le] <;> constructor <;> nlinarith

/-- The labels: what a run without closure errors has established. -/
theorem NearData.labels (D : NearData fl B η tau δ σ H links G θ h) (hσ : 0 ≤ σ) {tol : K} (htol : 0 ≤ tol) :
    ∃ s : FfState K, ffLoopFl fl tol (nbrsOf links ((List.range links.length).map G)) (maxLink links + 1) ffInit = .ok s ∧
      (∀ p < maxLink links + 1, s.done p = true) ∧
      (∀ L p, WalkTo links L p → L ≤ H → |s.unw p| ≤ (L : K) * (σ + η)) ∧
      (s.errs = 0 → tol + 2 * ((H : K) + 1) * (δ + η) < tau →
        ∃ k : Nat → ℤ, k 0 = 0 ∧ (∀ (i a b : Nat), links[i]? = some (a, b) → k b - k a = h i) ∧
          ∀ L p, WalkTo links L p → L ≤ H → |s.unw p - (θ p - θ 0 + (k p : K) * tau)| ≤ (L : K) * (δ + η)) ∧
      ((∃ κ : Nat → ℤ, ∀ (i a b : Nat), links[i]? = some (a, b) → κ b - κ a = h i) → 2 * ((H : K) + 1) * (δ + η) ≤ tol → s.errs = 0) := by
  have hη := D.eta
  have hδ := D.delta
  have h0 : 0 ≤ σ + η := by linarith
  have h1 : 0 ≤ δ + η := by linarith
  have hroom := D.room
  have hH1 : (0 : K) ≤ (H : K) := Nat.cast_nonneg _
  have hHδ : 0 ≤ (H : K) * (δ + η) := mul_nonneg hH1 h1
  have hHσ : 0 ≤ (H : K) * (σ + η) := mul_nonneg hH1 h0
  -- first run: some label at each point
  obtain ⟨s, dep, r1, r2, r3, r4, r5, r6, r7⟩ := fillRun (fl := fl) (tol := tol) D.rounds.odd (links := links) (G := G)
    (Q := fun m j x => m ≤ H → (∃ k : ℤ, |x - (θ j - θ 0 + (k : K) * tau)| ≤ (m : K) * (δ + η)) ∧ |x| ≤ (m : K) * (σ + η))
    (fun _ => ⟨⟨0, by simp⟩, by simp⟩) (by
      intro i a b m x hi
      constructor
      · intro hq hm
        obtain ⟨⟨k, hk⟩, hx⟩ := hq (by omega)
        have := D.step hσ hm (x := x) (g := G i) (φa := θ a - θ 0 + (k : K) * tau)
          (φb := θ b - θ 0 + ((k + h i : ℤ) : K) * tau) (D.size i a b hi) (by
            have := D.near i a b hi
            have e : G i - (θ b - θ 0 + ((k + h i : ℤ) : K) * tau - (θ a - θ 0 + (k : K) * tau)) =
              G i - (θ b - θ a + (h i : K) * tau) := by push_cast; ring
            rw [e]; exact this) hk hx
        exact ⟨⟨_, this.1⟩, this.2⟩
      · intro hq hm
        obtain ⟨⟨k, hk⟩, hx⟩ := hq (by omega)
        have := D.step hσ hm (x := x) (g := - G i) (φa := θ b - θ 0 + (k : K) * tau)
          (φb := θ a - θ 0 + ((k - h i : ℤ) : K) * tau) (by rw [abs_neg]; exact D.size i a b hi) (by
            have := D.near i a b hi
            have e : - G i - (θ a - θ 0 + ((k - h i : ℤ) : K) * tau - (θ b - θ 0 + (k : K) * tau)) =
              - (G i - (θ b - θ a + (h i : K) * tau)) := by push_cast; ring
            rw [e, abs_neg]; exact this) hk hx
        rw [← sub_eq_add_neg] at this
        exact ⟨⟨_, this.1⟩, this.2⟩)
  have hdone : ∀ p < maxLink links + 1, s.done p = true := by
    intro p hp
    obtain ⟨L, _, hL⟩ := D.walks p hp
    exact (r7 L p hL).1
  have hdepH : ∀ p, s.done p = true → dep p ≤ H := by
    intro p hp
    obtain ⟨L, hLH, hL⟩ := D.walks p (r4 p hp).1
    exact (r7 L p hL).2.trans hLH
  have hlt : ∀ (i a b : Nat), links[i]? = some (a, b) → a < maxLink links + 1 ∧ b < maxLink links + 1 := by
    intro i a b hi
    have := le_maxLink (List.mem_of_getElem? hi)
    simp only at this
    omega
  have hunw : ∀ p, s.done p = true → |s.unw p| ≤ (H : K) * (σ + η) := by
    intro p hp
    have := ((r4 p hp).2 (hdepH p hp)).2
    exact this.trans (mul_le_mul_of_nonneg_right (by exact_mod_cast hdepH p hp) h0)
  -- the difference of values compared at a link
  have hroom1 : ∀ (i a b : Nat), links[i]? = some (a, b) → |s.unw a + G i| ≤ B ∧ |s.unw b - G i| ≤ B := by
    intro i a b hi
    have b1 := abs_bounds (hunw a (hdone a (hlt i a b hi).1))
    have b2 := abs_bounds (hunw b (hdone b (hlt i a b hi).2))
    have b3 := abs_bounds (D.size i a b hi)
    constructor <;> rw [abs_le] <;> constructor <;> nlinarith
  have hroom2 : ∀ (i a b : Nat), links[i]? = some (a, b) → |fl (s.unw a + G i) - s.unw b| ≤ B ∧ |fl (s.unw b - G i) - s.unw a| ≤ B := by
    intro i a b hi
    have b1 := abs_bounds (hunw a (hdone a (hlt i a b hi).1))
    have b2 := abs_bounds (hunw b (hdone b (hlt i a b hi).2))
    have b3 := abs_bounds (D.size i a b hi)
    have b4 := abs_bounds (D.rounds.close _ (hroom1 i a b hi).1)
    have b5 := abs_bounds (D.rounds.close _ (hroom1 i a b hi).2)
    constructor <;> rw [abs_le] <;> constructor <;> nlinarith
  refine ⟨s, r1, hdone, ?_, ?_, ?_⟩
  · intro L p hL hLH
    obtain ⟨hd, hdep⟩ := r7 L p hL
    exact ((r4 p hd).2 (hdepH p hd)).2.trans (mul_le_mul_of_nonneg_right (by exact_mod_cast hdep) h0)
  · intro he htau
    have hex : ∀ p, ∃ k : ℤ, s.done p = true → |s.unw p - (θ p - θ 0 + (k : K) * tau)| ≤ (dep p : K) * (δ + η) := by
      intro p
      by_cases hd : s.done p = true
      · obtain ⟨k, hk⟩ := ((r4 p hd).2 (hdepH p hd)).1
        exact ⟨k, fun _ => hk⟩
      · exact ⟨0, fun h => absurd h hd⟩
    choose k hk using hex
    have small : ∀ n : ℤ, |(n : K) * tau| < tau → n = 0 := by
      intro n hn
      rw [abs_mul, abs_of_pos D.tau_pos] at hn
      have h2 : |(n : K)| < 1 := by
        by_contra hc
        rw [not_lt] at hc
        have := mul_le_mul_of_nonneg_right hc D.tau_pos.le
        linarith
      have h3 : |n| < 1 := by exact_mod_cast h2
      exact Int.abs_lt_one_iff.mp h3
    have hkH : ∀ p, s.done p = true → |s.unw p - (θ p - θ 0 + (k p : K) * tau)| ≤ (H : K) * (δ + η) := by
      intro p hd
      exact (hk p hd).trans (mul_le_mul_of_nonneg_right (by exact_mod_cast hdepH p hd) h1)
    have hk0 : k 0 = 0 := by
      have := hkH 0 r2
      rw [r3] at this
      apply small
      have e : (0 : K) - (θ 0 - θ 0 + (k 0 : K) * tau) = - ((k 0 : K) * tau) := by ring
      rw [e, abs_neg] at this
      nlinarith
    refine ⟨k, hk0, ?_, ?_⟩
    · intro i a b hi
      have ha := hdone a (hlt i a b hi).1
      have hb := hdone b (hlt i a b hi).2
      have b1 := abs_bounds (hkH a ha)
      have b2 := abs_bounds (hkH b hb)
      have b3 := abs_bounds (D.near i a b hi)
      have b4 := abs_bounds (D.rounds.close _ (hroom1 i a b hi).1)
      have b5 := abs_bounds (D.rounds.close _ (hroom2 i a b hi).1)
      have hcl : |fl (s.unw a + G i) - s.unw b| ≤ tol + η := by
        rcases r5 i a b hi ha he with hc | hc
        · rw [← hc]; simp; linarith
        · have b6 := abs_bounds hc
          rw [abs_le]
          constructor <;> linarith
      have b6 := abs_bounds hcl
      have := small (k a + h i - k b) (by
        push_cast
        rw [abs_lt]
        constructor <;> nlinarith)
      omega
    · intro L p hL hLH
      obtain ⟨hd, hdep⟩ := r7 L p hL
      exact (hk p hd).trans (mul_le_mul_of_nonneg_right (by exact_mod_cast hdep) h1)
  · rintro ⟨κ, hκ⟩ htol2
    obtain ⟨s', dep', q1, q2, q3, q4, q5, q6, q7⟩ := fillRun (fl := fl) (tol := tol) D.rounds.odd (links := links) (G := G)
      (Q := fun m j x => m ≤ H → |x - (θ j - θ 0 + ((κ j - κ 0 : ℤ) : K) * tau)| ≤ (m : K) * (δ + η) ∧ |x| ≤ (m : K) * (σ + η))
      (fun _ => by simp) (by
        intro i a b m x hi
        have hi' : (h i : K) = (κ b : K) - κ a := by rw [← hκ i a b hi]; push_cast; ring
        constructor
        · intro hq hm
          obtain ⟨hk, hx⟩ := hq (by omega)
          refine D.step hσ hm (x := x) (g := G i) (φa := _) (φb := _) (D.size i a b hi) ?_ hk hx
          have := D.near i a b hi
          rw [hi'] at this
          have e : G i - (θ b - θ 0 + ((κ b - κ 0 : ℤ) : K) * tau - (θ a - θ 0 + ((κ a - κ 0 : ℤ) : K) * tau)) =
            G i - (θ b - θ a + ((κ b : K) - κ a) * tau) := by push_cast; ring
          rw [e]; exact this
        · intro hq hm
          obtain ⟨hk, hx⟩ := hq (by omega)
          have := D.step hσ hm (x := x) (g := - G i) (φa := _) (φb := θ a - θ 0 + ((κ a - κ 0 : ℤ) : K) * tau)
            (by rw [abs_neg]; exact D.size i a b hi) (by
              have := D.near i a b hi
              rw [hi'] at this
              have e : - G i - (θ a - θ 0 + ((κ a - κ 0 : ℤ) : K) * tau - (θ b - θ 0 + ((κ b - κ 0 : ℤ) : K) * tau)) =
                - (G i - (θ b - θ a + ((κ b : K) - κ a) * tau)) := by push_cast; ring
              rw [e, abs_neg]; exact this) hk hx
          rw [← sub_eq_add_neg] at this
          exact this)
    rw [q1] at r1
    simp only [Except.ok.injEq] at r1
    subst r1
    have hq : ∀ p, s'.done p = true → |s'.unw p - (θ p - θ 0 + ((κ p - κ 0 : ℤ) : K) * tau)| ≤ (H : K) * (δ + η) := by
      intro p hp
      obtain ⟨L, hLH, hL⟩ := D.walks p (q4 p hp).1
      have hd := (q7 L p hL).2.trans hLH
      exact ((q4 p hp).2 hd).1.trans (mul_le_mul_of_nonneg_right (by exact_mod_cast hd) h1)
    by_contra hne
    obtain ⟨i, a, b, hi, ha, hb, hbad⟩ := q6 (by omega)
    have hi' : (h i : K) = (κ b : K) - κ a := by rw [← hκ i a b hi]; push_cast; ring
    have b1 := abs_bounds (hq a ha)
    have b2 := abs_bounds (hq b hb)
    have b3 := abs_bounds (D.near i a b hi)
    rw [hi'] at b3
    push_cast at b1 b2
    have b4 := abs_bounds (D.rounds.close _ (hroom1 i a b hi).1)
    have b5 := abs_bounds (D.rounds.close _ (hroom1 i a b hi).2)
    have b6 := abs_bounds (D.rounds.close _ (hroom2 i a b hi).1)
    have b7 := abs_bounds (D.rounds.close _ (hroom2 i a b hi).2)
    rcases hbad with hbad | hbad
    · refine absurd hbad (not_lt.mpr (le_trans ?_ htol2))
      rw [abs_le]
      constructor <;> linarith
    · refine absurd hbad (not_lt.mpr (le_trans ?_ htol2))
      rw [abs_le]
      constructor <;> linarith

end
end

end Spurt
