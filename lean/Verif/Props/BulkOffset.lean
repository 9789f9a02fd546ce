import Verif.Spec.Bulk
import Verif.Props.SlcStack
import Mathlib.Algebra.BigOperators.Intervals
import Mathlib.Algebra.Order.BigOperators.Group.Finset
import Mathlib.Tactic.IntervalCases

/-!
# Property C39: integer bulk offsets
-/

namespace Spurt
open Spec

/-! ### The largest tiles -/

theorem natMax_spec (l : List Nat) (a : Nat) : a ≤ l.foldl max a ∧ (∀ x ∈ l, x ≤ l.foldl max a) ∧
    (l.foldl max a = a ∨ l.foldl max a ∈ l) := by
  induction l generalizing a with
  | nil => simp
  | cons x l ih =>
    obtain ⟨h1, h2, h3⟩ := ih (max a x)
    rw [List.foldl_cons]
    refine ⟨le_trans (le_max_left _ _) h1, ?_, ?_⟩
    · intro y hy
      rcases List.mem_cons.mp hy with rfl | hy
      · exact le_trans (le_max_right _ _) h1
      · exact h2 y hy
    · rcases h3 with h3 | h3
      · rcases max_choice a x with h | h
        · left; rw [h3, h]
        · right; rw [h3, h]; simp
      · right; simp [h3]

theorem argmax_spec (l : List Nat) (h : l ≠ []) : ∃ k, argmax l = .ok k ∧ k < l.length ∧
    ∀ i, i < l.length → l.getD i 0 < l.getD k 0 ∨ l.getD i 0 = l.getD k 0 ∧ k ≤ i := by
  obtain ⟨_, h2, h3⟩ := natMax_spec l 0
  have hmem : l.foldl max 0 ∈ l := by
    rcases h3 with h3 | h3
    · obtain ⟨x, hx⟩ := List.exists_mem_of_ne_nil l h
      have := h2 x hx
      rw [h3] at this ⊢
      have hx0 : x = 0 := by omega
      rw [← hx0]; exact hx
    · exact h3
  have hk := List.idxOf_lt_length_iff.mpr hmem
  refine ⟨l.idxOf (l.foldl max 0), ?_, hk, ?_⟩
  · unfold argmax
    cases l with
    | nil => exact absurd rfl h
    | cons a l => rfl
  · intro i hi
    rw [List.getD_eq_getElem _ _ hi, List.getD_eq_getElem _ _ hk, List.getElem_idxOf]
    have hle := h2 _ (List.getElem_mem hi)
    rcases Nat.lt_or_eq_of_le hle with h4 | h4
    · exact Or.inl h4
    · refine Or.inr ⟨h4, ?_⟩
      by_contra hlt
      push Not at hlt
      have := List.not_of_lt_findIdx (p := (· == l.foldl max 0)) hlt
      simp only [beq_eq_false_iff_ne, ne_eq] at this
      exact this h4

theorem getElem?_of_lt_getD {α : Type} {l : List α} {n : Nat} {d : α} (h : n < l.length) :
    l[n]? = some (l.getD n d) := by
  rw [List.getD_eq_getElem _ _ h, List.getElem?_eq_getElem h]

theorem adjacent_symm {edges : List (Nat × Nat)} {a b : Nat}
    (h : Relation.ReflTransGen (Adjacent edges) a b) : Relation.ReflTransGen (Adjacent edges) b a := by
  induction h with
  | refl => exact .refl
  | tail _ h2 ih => exact Relation.ReflTransGen.head (Or.symm h2) ih

theorem getD_map_lt {α β : Type} (f : α → β) (l : List α) {i : Nat} (h : i < l.length) (d : β) :
    (l.map f).getD i d = f l[i] := by
  rw [List.getD_eq_getElem _ _ (by simpa using h), List.getElem_map]

/-- What the search for the reference tiles returns: one tile per component, its largest. -/
theorem largestTiles_spec {n : Nat} {edges : List (Nat × Nat)} {labels counts : List Nat}
    (hl : ComponentLabels n edges labels) (hc : counts.length = n) (hn : 0 < n) :
    ∃ fixed, largestTiles labels counts = .ok fixed ∧
      (∀ r, r ∈ fixed ↔ LargestInComponent edges counts r) ∧
      ∀ t, t < n → ∃ r, r ∈ fixed ∧ r < n ∧ fixed[labels.getD t 0]? = some r ∧
        Relation.ReflTransGen (Adjacent edges) t r := by
  have hne : labels ≠ [] := by
    intro h0; have := hl.length; rw [h0] at this; simp at this; omega
  -- the chosen tile of each label
  have hpick : ∀ ii, ii ∈ labels → ∃ r, (do
      let cs ← ((List.range labels.length).filter fun t => decide (labels[t]? = some ii)).mapM
        fun t => (counts[t]?).elim (.error .indexError) Except.ok
      let k ← argmax cs
      (((List.range labels.length).filter fun t => decide (labels[t]? = some ii))[k]?).elim
        (.error .indexError) .ok) = Except.ok (ε := PyErr) r ∧ r < n ∧ labels[r]? = some ii ∧
      ∀ u, labels[u]? = some ii →
        counts.getD u 0 < counts.getD r 0 ∨ counts.getD u 0 = counts.getD r 0 ∧ r ≤ u := by
    intro ii hii
    set conn := (List.range labels.length).filter fun t => decide (labels[t]? = some ii) with hconn
    have hmem : ∀ t, t ∈ conn ↔ labels[t]? = some ii := by
      intro t
      rw [hconn, List.mem_filter, List.mem_range, decide_eq_true_eq]
      constructor
      · exact fun h => h.2
      · exact fun h => ⟨(List.getElem?_eq_some_iff.mp h).1, h⟩
    have hlt : ∀ t ∈ conn, t < counts.length := by
      intro t ht
      have := (List.getElem?_eq_some_iff.mp ((hmem t).mp ht)).1
      rw [hc, ← hl.length]; exact this
    have hcs : conn.mapM (fun t => (counts[t]?).elim (.error .indexError) Except.ok) =
        Except.ok (ε := PyErr) (conn.map fun t => counts.getD t 0) := by
      apply mapM_eq_ok
      intro t ht
      rw [List.getElem?_eq_getElem (hlt t ht), List.getD_eq_getElem _ _ (hlt t ht)]; rfl
    rw [hcs]
    simp only [Bind.bind, Except.bind]
    have hcne : conn ≠ [] := by
      obtain ⟨t, ht, he⟩ := List.mem_iff_getElem.mp hii
      exact List.ne_nil_of_mem ((hmem t).mpr (by rw [List.getElem?_eq_getElem ht, he]))
    obtain ⟨k, hk, hk1, hk2⟩ := argmax_spec (conn.map fun t => counts.getD t 0) (by simpa using hcne)
    rw [hk]
    simp only
    have hk1' : k < conn.length := by simpa using hk1
    rw [List.getElem?_eq_getElem hk1']
    have hrm := List.getElem_mem hk1'
    refine ⟨conn[k], rfl, by rw [← hc]; exact hlt _ hrm, (hmem _).mp hrm, ?_⟩
    intro u hu
    obtain ⟨i, hi, rfl⟩ := List.mem_iff_getElem.mp ((hmem u).mpr hu)
    have := hk2 i (by simpa using hi)
    rw [getD_map_lt _ _ hi, getD_map_lt _ _ hk1'] at this
    rcases this with h | ⟨h, h'⟩
    · exact Or.inl h
    · refine Or.inr ⟨h, ?_⟩
      have hs : conn.Pairwise (· < ·) := List.pairwise_lt_range.filter _
      rcases Nat.lt_or_eq_of_le h' with h'' | h''
      · exact (List.pairwise_iff_getElem.mp hs k i hk1' hi h'').le
      · subst h''; rfl
  choose! pick hp1 hp2 hp3 hp4 using hpick
  have hall : ∀ k, k < labels.foldl max 0 + 1 → k ∈ labels := by
    intro k hk
    obtain ⟨_, h2, h3⟩ := natMax_spec labels 0
    rcases h3 with h3 | h3
    · obtain ⟨x, hx⟩ := List.exists_mem_of_ne_nil labels hne
      exact hl.gapless x hx k (by omega)
    · exact hl.gapless _ h3 k (by omega)
  refine ⟨(List.range (labels.foldl max 0 + 1)).map pick, ?_, ?_, ?_⟩
  · unfold largestTiles
    rw [if_neg hne]
    apply mapM_eq_ok
    intro ii hii
    exact hp1 ii (hall ii (List.mem_range.mp hii))
  · intro r
    rw [List.mem_map]
    constructor
    · rintro ⟨ii, hii, rfl⟩
      have hm := hall ii (List.mem_range.mp hii)
      refine ⟨by rw [hc]; exact hp2 ii hm, ?_⟩
      intro u hu hru
      refine hp4 ii hm u ?_
      rw [← hp3 ii hm]
      exact ((hl.same _ _ (hp2 ii hm) (by omega)).mpr hru).symm
    · rintro ⟨hr, hlarge⟩
      have hrn : r < labels.length := by rw [hl.length]; omega
      refine ⟨labels[r], ?_, ?_⟩
      · rw [List.mem_range]
        have := (natMax_spec labels 0).2.1 _ (List.getElem_mem hrn)
        omega
      · have hm := List.getElem_mem hrn
        have h1 := hp4 labels[r] hm r (List.getElem?_eq_getElem hrn)
        have h2 := hlarge (pick labels[r]) (by rw [hc]; exact hp2 _ hm) (by
          rw [← hl.same r _ (by omega) (hp2 _ hm), hp3 _ hm, List.getElem?_eq_getElem hrn])
        omega
  · intro t ht
    have htl : t < labels.length := by rw [hl.length]; exact ht
    have hm := List.getElem_mem htl
    have hlt : labels[t] < labels.foldl max 0 + 1 := by
      have := (natMax_spec labels 0).2.1 _ hm; omega
    refine ⟨pick labels[t], List.mem_map.mpr ⟨labels[t], List.mem_range.mpr hlt, rfl⟩, hp2 _ hm, ?_, ?_⟩
    · rw [List.getD_eq_getElem _ _ htl, List.getElem?_map, List.getElem?_range hlt]; rfl
    · rw [← hl.same t _ ht (hp2 _ hm), hp3 _ hm, List.getElem?_eq_getElem htl]

/-! ### Objective -/

theorem sum_getD {M : Type} [AddCommMonoid M] (l : List M) : l.sum = ∑ i ∈ Finset.range l.length, l.getD i 0 := by
  induction l with
  | nil => simp
  | cons a l ih => simp only [List.sum_cons, List.length_cons, Finset.sum_range_succ', List.getD_cons_succ, List.getD_cons_zero, ih, add_comm]

theorem offsetError_eq (olaps : List (Nat × Nat)) (off n : List ℤ) :
    offsetError olaps off n = ∑ i ∈ Finset.range (olaps.zip off).length,
      |((olaps.zip off).getD i ((0, 0), 0)).2 - (n.getD ((olaps.zip off).getD i ((0, 0), 0)).1.2 0 -
        n.getD ((olaps.zip off).getD i ((0, 0), 0)).1.1 0)| := by
  unfold offsetError
  rw [sum_getD, List.length_map]
  apply Finset.sum_congr rfl
  intro i hi
  have hi' := Finset.mem_range.mp hi
  rw [getD_map_lt _ _ hi', List.getD_eq_getElem _ _ hi']

/-- The values with given tile numbers and the smallest slacks. -/
def slackValues (cons : List ((Nat × Nat) × ℤ)) (n : List ℤ) : MipValues where
  n := n
  pf := cons.map fun c => max (c.2 - (n.getD c.1.2 0 - n.getD c.1.1 0)) 0
  nf := cons.map fun c => max (-(c.2 - (n.getD c.1.2 0 - n.getD c.1.1 0))) 0

theorem slackValues_objective (olaps : List (Nat × Nat)) (off n : List ℤ) :
    (slackValues (olaps.zip off) n).pf.sum + (slackValues (olaps.zip off) n).nf.sum =
      offsetError olaps off n := by
  unfold slackValues offsetError
  simp only
  induction olaps.zip off with
  | nil => simp
  | cons c l ih =>
    simp only [List.map_cons, List.sum_cons]
    rw [← ih]
    have : ∀ x : ℤ, max x 0 + max (-x) 0 = |x| := by
      intro x
      rcases le_total 0 x with h | h
      · rw [max_eq_left h, max_eq_right (by omega), abs_of_nonneg h]; omega
      · rw [max_eq_right h, max_eq_left (by omega), abs_of_nonpos h]; omega
    rw [← this]
    ring

theorem slackValues_feasible {p : OffsetMip} {n : List ℤ} (hlen : n.length = p.npts)
    (hb : ∀ x ∈ n, -int32Max ≤ x ∧ x ≤ int32Max)
    (hs : ∀ c ∈ p.cons, |c.2 - (n.getD c.1.2 0 - n.getD c.1.1 0)| ≤ int32Max)
    (hf : ∀ t ∈ p.fixed, n.getD t 0 = 0) : MipFeasible p (slackValues p.cons n) where
  lenN := hlen
  lenP := by simp [slackValues]
  lenM := by simp [slackValues]
  boundN := hb
  boundP := by
    intro x hx
    obtain ⟨c, hc, rfl⟩ := List.mem_map.mp hx
    have := hs c hc
    rw [abs_le] at this
    unfold int32Max at *
    omega
  boundM := by
    intro x hx
    obtain ⟨c, hc, rfl⟩ := List.mem_map.mp hx
    have := hs c hc
    rw [abs_le] at this
    unfold int32Max at *
    omega
  overlap := by
    intro i t1 t2 o hi
    obtain ⟨hil, he⟩ := List.getElem?_eq_some_iff.mp hi
    unfold slackValues
    simp only
    rw [getD_map_lt _ _ hil, getD_map_lt _ _ hil, he]
    simp only
    omega
  fixed := hf

/-- An optimal answer's objective is the total disagreement of its tile numbers. -/
theorem objective_eq {olaps : List (Nat × Nat)} {off : List ℤ} {npts : Nat} {fixed : List Nat}
    {v : MipValues} (hf : MipFeasible ⟨npts, olaps.zip off, fixed⟩ v)
    (ho : ∀ v', MipFeasible ⟨npts, olaps.zip off, fixed⟩ v' → v.pf.sum + v.nf.sum ≤ v'.pf.sum + v'.nf.sum) :
    v.pf.sum + v.nf.sum = offsetError olaps off v.n := by
  have hslack : ∀ i, i < (olaps.zip off).length →
      v.pf.getD i 0 - v.nf.getD i 0 = ((olaps.zip off).getD i ((0, 0), 0)).2 -
        (v.n.getD ((olaps.zip off).getD i ((0, 0), 0)).1.2 0 - v.n.getD ((olaps.zip off).getD i ((0, 0), 0)).1.1 0) ∧
      0 ≤ v.pf.getD i 0 ∧ v.pf.getD i 0 ≤ int32Max ∧ 0 ≤ v.nf.getD i 0 ∧ v.nf.getD i 0 ≤ int32Max := by
    intro i hi
    have hov := hf.overlap i _ _ _ (show (olaps.zip off)[i]? = some (((olaps.zip off)[i].1.1, (olaps.zip off)[i].1.2), (olaps.zip off)[i].2) by
      rw [List.getElem?_eq_getElem hi])
    have h1 : i < v.pf.length := by rw [hf.lenP]; exact hi
    have h2 : i < v.nf.length := by rw [hf.lenM]; exact hi
    have b1 := hf.boundP _ (List.getElem_mem h1)
    have b2 := hf.boundM _ (List.getElem_mem h2)
    rw [List.getD_eq_getElem _ _ hi]
    rw [List.getD_eq_getElem _ _ h1, List.getD_eq_getElem _ _ h2] at *
    refine ⟨by omega, b1.1, b1.2, b2.1, b2.2⟩
  apply le_antisymm
  · rw [← slackValues_objective]
    apply ho
    refine slackValues_feasible hf.lenN hf.boundN ?_ hf.fixed
    intro c hc
    obtain ⟨i, hi, rfl⟩ := List.mem_iff_getElem.mp hc
    obtain ⟨h1, h2⟩ := hslack i hi
    rw [List.getD_eq_getElem _ _ hi] at h1
    rw [← h1, abs_le]
    omega
  · rw [sum_getD v.pf, sum_getD v.nf, hf.lenP, hf.lenM, ← Finset.sum_add_distrib, offsetError_eq]
    apply Finset.sum_le_sum
    intro i hi
    obtain ⟨h1, h2⟩ := hslack i (Finset.mem_range.mp hi)
    rw [← h1, abs_le]
    omega

theorem offsetError_congr {olaps : List (Nat × Nat)} {off m m' : List ℤ}
    (h : ∀ t1 t2, (t1, t2) ∈ olaps → m.getD t2 0 - m.getD t1 0 = m'.getD t2 0 - m'.getD t1 0) :
    offsetError olaps off m = offsetError olaps off m' := by
  unfold offsetError
  congr 1
  apply List.map_congr_left
  rintro ⟨⟨t1, t2⟩, o⟩ hc
  simp only
  rw [h t1 t2 (List.of_mem_zip hc).1]

theorem reach_of_mem {olaps : List (Nat × Nat)} {a b : Nat} (h : (a, b) ∈ olaps) :
    Relation.ReflTransGen (Adjacent olaps) a b := .single (Or.inl h)

/-- The setting of the integer offsets: overlaps between existing tiles, one observed offset per
overlap (they are read from 16-bit statistics), labels of the connected components and a pixel
count per tile. -/
structure Spec.IntOffsetInput (ntiles : Nat) (olaps : List (Nat × Nat)) (labels : List Nat)
    (off : List ℤ) (counts : List Nat) : Prop where
  tiles : 0 < ntiles
  inside : ∀ t1 t2, (t1, t2) ∈ olaps → t1 < ntiles ∧ t2 < ntiles
  labels : ComponentLabels ntiles olaps labels
  offLen : off.length = olaps.length
  offRange : ∀ o ∈ off, -32768 ≤ o ∧ o ≤ 32767
  countLen : counts.length = ntiles

open Spec

theorem solveInt_unfold {ntiles : Nat} {olaps : List (Nat × Nat)} {labels : List Nat}
    {off : List ℤ} {counts : List Nat} (hi : IntOffsetInput ntiles olaps labels off counts)
    (solver : MipSolver) {fixed : List Nat} (hfx : largestTiles labels counts = .ok fixed) :
    solveIntOffsets solver olaps labels off counts =
      match solver ⟨ntiles, olaps.zip off, fixed⟩ with
      | none => .error .runtimeError
      | some v => .ok (v.n, v.pf.sum + v.nf.sum) := by
  unfold solveIntOffsets
  rw [if_neg (by
    rw [not_not, List.all_eq_true]
    rintro ⟨a, b⟩ hab
    have := hi.inside a b hab
    rw [hi.labels.length]
    simpa using this), hfx, hi.labels.length]
  rfl

/-- Every assignment of moderate size can be shifted to 0 at the reference tiles. -/
theorem shifted_feasible {ntiles : Nat} {olaps : List (Nat × Nat)} {labels : List Nat}
    {off : List ℤ} {counts : List Nat} (hi : IntOffsetInput ntiles olaps labels off counts)
    {fixed : List Nat} (hfx : largestTiles labels counts = .ok fixed)
    (m : List ℤ) (hb : ∀ t, |m.getD t 0| ≤ 1000000000) :
    ∃ m' : List ℤ, MipFeasible ⟨ntiles, olaps.zip off, fixed⟩ (slackValues (olaps.zip off) m') ∧
      (∀ t1 t2, (t1, t2) ∈ olaps → m.getD t2 0 - m.getD t1 0 = m'.getD t2 0 - m'.getD t1 0) := by
  obtain ⟨fx, h1, h2, h3⟩ := largestTiles_spec hi.labels hi.countLen hi.tiles
  rw [hfx] at h1
  simp only [Except.ok.injEq] at h1
  subst h1
  have hget : ∀ t, t < ntiles → (((List.range ntiles).map fun t => m.getD t 0 - m.getD (fixed.getD (labels.getD t 0) 0) 0).getD t 0)
      = m.getD t 0 - m.getD (fixed.getD (labels.getD t 0) 0) 0 := by
    intro t ht
    rw [getD_map_lt _ _ (by simpa using ht)]; simp
  have hlab : ∀ a b, a < ntiles → b < ntiles → Relation.ReflTransGen (Adjacent olaps) a b →
      labels.getD a 0 = labels.getD b 0 := by
    intro a b ha hb hab
    have := (hi.labels.same a b ha hb).mpr hab
    rw [List.getD_eq_getElem?_getD, List.getD_eq_getElem?_getD, this]
  have hdiff : ∀ t1 t2, (t1, t2) ∈ olaps → m.getD t2 0 - m.getD t1 0 =
      ((List.range ntiles).map fun t => m.getD t 0 - m.getD (fixed.getD (labels.getD t 0) 0) 0).getD t2 0 -
      ((List.range ntiles).map fun t => m.getD t 0 - m.getD (fixed.getD (labels.getD t 0) 0) 0).getD t1 0 := by
    intro t1 t2 ht
    obtain ⟨a1, a2⟩ := hi.inside t1 t2 ht
    rw [hget t1 a1, hget t2 a2, hlab t1 t2 a1 a2 (reach_of_mem ht)]
    ring
  refine ⟨(List.range ntiles).map fun t => m.getD t 0 - m.getD (fixed.getD (labels.getD t 0) 0) 0, ?_, hdiff⟩
  refine slackValues_feasible (p := ⟨ntiles, olaps.zip off, fixed⟩) (by simp) ?_ ?_ ?_
  · intro x hx
    obtain ⟨t, _, rfl⟩ := List.mem_map.mp hx
    have b1 := abs_le.mp (hb t)
    have b2 := abs_le.mp (hb (fixed.getD (labels.getD t 0) 0))
    unfold int32Max
    omega
  · rintro ⟨⟨t1, t2⟩, o⟩ hc
    simp only at hc ⊢
    obtain ⟨hc1, hc2⟩ := List.of_mem_zip hc
    rw [← hdiff t1 t2 hc1, abs_le]
    have b0 := hi.offRange o hc2
    have b1 := abs_le.mp (hb t1)
    have b2 := abs_le.mp (hb t2)
    unfold int32Max
    omega
  · intro r hr
    simp only at hr
    have hlarge := (h2 r).mp hr
    have hrn : r < ntiles := by have := hlarge.1; rw [hi.countLen] at this; exact this
    rw [hget r hrn]
    obtain ⟨r', h4, h5, h6, h7⟩ := h3 r hrn
    have hr' := (h2 r').mp h4
    have e1 := hlarge.2 r' (by rw [hi.countLen]; exact h5) h7
    have e2 := hr'.2 r hlarge.1 (adjacent_symm h7)
    have : r' = r := by omega
    rw [List.getD_eq_getElem?_getD (l := fixed), h6, this]
    simp

/-- C39. A returned solution is 0 at the largest tile of every connected component of the
overlap graph; the reported residual is the total disagreement between the observed offsets and
the differences of the solution; no other assignment of cycle numbers (up to 10^9 in size, at
the reference tiles zero or not) disagrees less. -/
theorem C39_least_disagreement (ntiles : Nat) (olaps : List (Nat × Nat)) (labels : List Nat)
    (off : List ℤ) (counts : List Nat) (hi : IntOffsetInput ntiles olaps labels off counts)
    (solver : MipSolver) (hs : MipOptimal solver) (n : List ℤ) (val : ℤ)
    (h : solveIntOffsets solver olaps labels off counts = .ok (n, val)) :
    n.length = ntiles ∧ (∀ r, LargestInComponent olaps counts r → n[r]? = some 0) ∧
    (∀ x ∈ n, -int32Max ≤ x ∧ x ≤ int32Max) ∧
    val = offsetError olaps off n ∧
    ∀ m : List ℤ, (∀ t, |m.getD t 0| ≤ 1000000000) → val ≤ offsetError olaps off m := by
  obtain ⟨fixed, hfx, h2, _⟩ := largestTiles_spec hi.labels hi.countLen hi.tiles
  rw [solveInt_unfold hi solver hfx] at h
  cases hv : solver ⟨ntiles, olaps.zip off, fixed⟩ with
  | none => rw [hv] at h; simp at h
  | some v =>
    rw [hv] at h
    simp only [Except.ok.injEq, Prod.mk.injEq] at h
    obtain ⟨rfl, rfl⟩ := h
    obtain ⟨hf, ho⟩ := hs _ _ hv
    have hlen : v.n.length = ntiles := hf.lenN
    refine ⟨hlen, ?_, hf.boundN, objective_eq hf ho, ?_⟩
    · intro r hr
      have h0 := hf.fixed r ((h2 r).mpr hr)
      have hrl : r < v.n.length := by rw [hlen, ← hi.countLen]; exact hr.1
      rw [List.getD_eq_getElem _ _ hrl] at h0
      rw [List.getElem?_eq_getElem hrl, h0]
    · intro m hm
      obtain ⟨m', hm1, hm2⟩ := shifted_feasible hi hfx m hm
      rw [offsetError_congr hm2, ← slackValues_objective]
      exact ho _ hm1

theorem offsetError_zero {olaps : List (Nat × Nat)} {off n : List ℤ} :
    offsetError olaps off n = 0 ↔ ∀ (k t1 t2 : Nat) (o : ℤ), olaps[k]? = some (t1, t2) → off[k]? = some o →
      n.getD t2 0 - n.getD t1 0 = o := by
  unfold offsetError
  constructor
  · intro h k t1 t2 o hk ho
    have hz : (olaps.zip off)[k]? = some ((t1, t2), o) := by
      rw [List.getElem?_zip_eq_some]; exact ⟨hk, ho⟩
    have hle := List.single_le_sum (l := (olaps.zip off).map fun c =>
      |c.2 - (n.getD c.1.2 0 - n.getD c.1.1 0)|) (by
        intro x hx
        obtain ⟨c, _, rfl⟩ := List.mem_map.mp hx
        exact abs_nonneg _) _ (List.mem_map.mpr ⟨_, List.mem_of_getElem? hz, rfl⟩)
    rw [h] at hle
    simp only at hle
    have := abs_nonneg (o - (n.getD t2 0 - n.getD t1 0))
    have h0 : |o - (n.getD t2 0 - n.getD t1 0)| = 0 := le_antisymm hle this
    rw [abs_eq_zero] at h0
    omega
  · intro h
    apply List.sum_eq_zero
    intro x hx
    obtain ⟨⟨⟨t1, t2⟩, o⟩, hc, rfl⟩ := List.mem_map.mp hx
    obtain ⟨k, hk⟩ := List.getElem?_of_mem hc
    rw [List.getElem?_zip_eq_some] at hk
    rw [abs_eq_zero, h k t1 t2 o hk.1 hk.2]
    simp

/-- C39. The reported residual is 0 exactly when the solution reproduces every observed
offset. -/
theorem C39_zero_residual (ntiles : Nat) (olaps : List (Nat × Nat)) (labels : List Nat)
    (off : List ℤ) (counts : List Nat) (hi : IntOffsetInput ntiles olaps labels off counts)
    (solver : MipSolver) (hs : MipOptimal solver) (n : List ℤ) (val : ℤ)
    (h : solveIntOffsets solver olaps labels off counts = .ok (n, val)) :
    val = 0 ↔ ∀ (k t1 t2 : Nat) (o : ℤ), olaps[k]? = some (t1, t2) → off[k]? = some o →
      n.getD t2 0 - n.getD t1 0 = o := by
  obtain ⟨_, _, _, h4, _⟩ := C39_least_disagreement ntiles olaps labels off counts hi solver hs n val h
  rw [h4, offsetError_zero]

/-- C39. Consistent offsets: if the observed offset of every overlap is the difference of
per-tile cycle numbers `c`, the residual is 0, every observed offset is reproduced, and every
tile gets its number relative to the largest tile of its component. -/
theorem C39_consistent (ntiles : Nat) (olaps : List (Nat × Nat)) (labels : List Nat)
    (off : List ℤ) (counts : List Nat) (hi : IntOffsetInput ntiles olaps labels off counts)
    (solver : MipSolver) (hs : MipOptimal solver) (n : List ℤ) (val : ℤ)
    (h : solveIntOffsets solver olaps labels off counts = .ok (n, val))
    (c : Nat → ℤ) (hc : ∀ t, |c t| ≤ 1000000000)
    (hcons : ∀ (k t1 t2 : Nat), olaps[k]? = some (t1, t2) → off[k]? = some (c t2 - c t1)) :
    val = 0 ∧ (∀ t1 t2, (t1, t2) ∈ olaps → n.getD t2 0 - n.getD t1 0 = c t2 - c t1) ∧
    ∀ t r, t < ntiles → LargestInComponent olaps counts r →
      Relation.ReflTransGen (Adjacent olaps) r t → n[t]? = some (c t - c r) := by
  obtain ⟨h1, h2, h3, h4, h5⟩ := C39_least_disagreement ntiles olaps labels off counts hi solver hs n val h
  have hm : offsetError olaps off ((List.range ntiles).map c) = 0 := by
    rw [offsetError_zero]
    intro k t1 t2 o hk ho
    obtain ⟨a1, a2⟩ := hi.inside t1 t2 (List.mem_of_getElem? hk)
    rw [hcons k t1 t2 hk, Option.some.injEq] at ho
    rw [getD_map_lt _ _ (i := t2) (by simpa using a2), getD_map_lt _ _ (i := t1) (by simpa using a1)]
    simpa using ho
  have h0 : val = 0 := by
    apply le_antisymm
    · rw [← hm]
      apply h5
      intro t
      by_cases ht : t < ntiles
      · rw [getD_map_lt _ _ (by simpa using ht)]; simpa using hc t
      · rw [List.getD_eq_getElem?_getD, List.getElem?_eq_none (by simpa using ht)]; simp
    · rw [h4]
      unfold offsetError
      apply List.sum_nonneg
      intro x hx
      obtain ⟨_, _, rfl⟩ := List.mem_map.mp hx
      exact abs_nonneg _
  have hrep : ∀ t1 t2, (t1, t2) ∈ olaps → n.getD t2 0 - n.getD t1 0 = c t2 - c t1 := by
    intro t1 t2 ht
    obtain ⟨k, hk⟩ := List.getElem?_of_mem ht
    exact (C39_zero_residual ntiles olaps labels off counts hi solver hs n val h).mp h0 k t1 t2 _ hk
      (hcons k t1 t2 hk)
  refine ⟨h0, hrep, ?_⟩
  intro t r ht hr hrt
  have hpath : n.getD t 0 - n.getD r 0 = c t - c r := by
    clear ht
    induction hrt with
    | refl => simp
    | tail _ hbc ih =>
      rcases hbc with hbc | hbc
      · have := hrep _ _ hbc; omega
      · have := hrep _ _ hbc; omega
  have hr0 := h2 r hr
  have : n.getD r 0 = 0 := by rw [List.getD_eq_getElem?_getD, hr0]; rfl
  rw [getElem?_of_lt_getD (d := 0) (by rw [h1]; exact ht)]
  congr 1
  omega

/-- C39. With a complete solver the problem is always solved: the offsets of the overlaps never
make it infeasible. -/
theorem C39_returns (ntiles : Nat) (olaps : List (Nat × Nat)) (labels : List Nat)
    (off : List ℤ) (counts : List Nat) (hi : IntOffsetInput ntiles olaps labels off counts)
    (solver : MipSolver) (hs : MipComplete solver) :
    ∃ n val, solveIntOffsets solver olaps labels off counts = .ok (n, val) := by
  obtain ⟨fixed, hfx, _⟩ := largestTiles_spec hi.labels hi.countLen hi.tiles
  rw [solveInt_unfold hi solver hfx]
  obtain ⟨m', hm, _⟩ := shifted_feasible hi hfx [] (by simp)
  have := hs ⟨ntiles, olaps.zip off, fixed⟩ ⟨_, hm⟩
  cases hv : solver ⟨ntiles, olaps.zip off, fixed⟩ with
  | none => rw [hv] at this; simp at this
  | some v => exact ⟨_, _, rfl⟩

/-- Solvers as in the hypotheses exist. -/
theorem exists_mip_solver : ∃ s : MipSolver, MipOptimal s ∧ MipComplete s := by
  classical
  refine ⟨fun p => if h : ∃ v, MipFeasible p v ∧ ∀ v', MipFeasible p v' →
    v.pf.sum + v.nf.sum ≤ v'.pf.sum + v'.nf.sum then some h.choose else none, ?_, ?_⟩
  · intro p v h
    simp only at h
    split at h
    · rename_i hex
      simp only [Option.some.injEq] at h
      subst h; exact hex.choose_spec
    · simp at h
  · intro p hfeas
    have hnn : ∀ v, MipFeasible p v → 0 ≤ v.pf.sum + v.nf.sum := by
      intro v hv
      have h1 := List.sum_nonneg (fun x hx => (hv.boundP x hx).1)
      have h2 := List.sum_nonneg (fun x hx => (hv.boundM x hx).1)
      omega
    have hmin : ∃ v, MipFeasible p v ∧ ∀ v', MipFeasible p v' →
        v.pf.sum + v.nf.sum ≤ v'.pf.sum + v'.nf.sum := by
      have hS : ∃ n : Nat, ∃ v, MipFeasible p v ∧ (v.pf.sum + v.nf.sum).toNat = n := by
        obtain ⟨f, hf⟩ := hfeas; exact ⟨_, f, hf, rfl⟩
      obtain ⟨f, hf, hfn⟩ := Nat.find_spec hS
      refine ⟨f, hf, fun f' hf' => ?_⟩
      have := Nat.find_min' hS ⟨f', hf', rfl⟩
      have a := hnn f hf
      have b := hnn f' hf'
      omega
    simp [hmin]

/-- A concrete input: three tiles, of which the first two overlap. -/
theorem intOffsetInput_example : IntOffsetInput 3 [(0, 1)] [0, 0, 1] [2] [5, 9, 3] where
  tiles := by decide
  inside := by simp
  labels := {
    length := rfl
    same := by
      have sep : ∀ i j, Relation.ReflTransGen (Adjacent [(0, 1)]) i j → (i = 2 ↔ j = 2) := by
        intro i j h
        induction h with
        | refl => rfl
        | tail _ h2 ih =>
          rw [ih]
          unfold Adjacent at h2
          simp at h2
          omega
      intro i j hi hj
      constructor
      · intro h
        interval_cases i <;> interval_cases j <;> first
          | exact .refl
          | exact absurd h (by decide)
          | exact .single (by unfold Adjacent; simp)
      · intro h
        have := sep i j h
        interval_cases i <;> interval_cases j <;> simp_all
    gapless := by decide }
  offLen := rfl
  offRange := by decide
  countLen := rfl

/-- The theorems about the integer method apply to the example: the second tile is the larger one
of its component, so its offset is 0 and the first tile gets -2. -/
example : ∃ (solver : MipSolver) (n : List ℤ) (val : ℤ), MipOptimal solver ∧
    solveIntOffsets solver [(0, 1)] [0, 0, 1] [2] [5, 9, 3] = .ok (n, val) ∧ val = 0 ∧
    n[0]? = some (-2) := by
  obtain ⟨s, ho, hc⟩ := exists_mip_solver
  obtain ⟨n, val, h⟩ := C39_returns 3 _ _ _ _ intOffsetInput_example s hc
  obtain ⟨h1, _, h3⟩ := C39_consistent 3 _ _ _ _ intOffsetInput_example s ho n val h
    (fun t => if t = 1 then 2 else 0) (by intro t; split <;> norm_num)
    (by
      intro k t1 t2 hk
      rcases k with _ | k
      · simp at hk; obtain ⟨rfl, rfl⟩ := hk; simp
      · simp at hk)
  refine ⟨s, n, val, ho, h, h1, ?_⟩
  have := h3 0 1 (by decide) ⟨by decide, by
    intro u hu hru
    simp at hu
    interval_cases u <;> simp⟩ (.single (by unfold Adjacent; simp))
  simpa using this

end Spurt
