import Verif.Model.Float
import Verif.Lemmas.FloodFill

/-! # The loop of the flood fill with rounding: breadth first, with a predicate on (depth, point, value) -/

namespace Spurt

section
variable {K : Type} [Field K] [LinearOrder K]

/-- The comparison made when a link leads to a point that already has a value. -/
def Checked (fl : K → K) (tol x g y : K) : Prop := y = fl (x + g) ∨ |fl (fl (x + g) - y)| ≤ tol

/-- Invariant of the loop: `pre ++ todo` are the visited points, `dep` their depths. -/
structure BfsInv (N : Nat) (Q : Nat → Nat → K → Prop) (pre : List Nat) (d : Nat) (s : FfState K) (dep : Nat → Nat) : Prop where
  nodup : (pre ++ s.todo).Nodup
  bound : ∀ j ∈ pre ++ s.todo, j < N
  done : ∀ j, s.done j = true ↔ j ∈ pre ++ s.todo
  q : ∀ j, s.done j = true → Q (dep j) j (s.unw j)
  depth : ∀ j, s.done j = true → dep j ≤ d + 1
  sorted : (s.todo.map dep).Pairwise (· ≤ ·)
  low : ∀ j ∈ s.todo, d ≤ dep j
  zero : s.done 0 = true ∧ s.unw 0 = 0 ∧ dep 0 = 0

/-- Later states keep what has been visited. -/
structure Ext (s s' : FfState K) (dep dep' : Nat → Nat) : Prop where
  keep : ∀ j, s.done j = true → s'.done j = true ∧ s'.unw j = s.unw j ∧ dep' j = dep j
  errs : s'.errs = 0 → s.errs = 0

theorem Ext.refl (s : FfState K) (dep : Nat → Nat) : Ext s s dep dep := ⟨fun _ h => ⟨h, rfl, rfl⟩, fun h => h⟩

theorem Ext.trans {s1 s2 s3 : FfState K} {d1 d2 d3 : Nat → Nat} (h : Ext s1 s2 d1 d2) (h' : Ext s2 s3 d2 d3) : Ext s1 s3 d1 d3 := by
  refine ⟨fun j hj => ?_, fun he => h.errs (h'.errs he)⟩
  obtain ⟨a, b, c⟩ := h.keep j hj
  obtain ⟨a', b', c'⟩ := h'.keep j a
  exact ⟨a', b'.trans b, c'.trans c⟩

/-- A failed comparison, in terms of the current values. -/
def Bad (fl : K → K) (tol : K) (nbrs : Nat → List (Nat × K)) (s : FfState K) : Prop :=
  ∃ i, ∃ jg ∈ nbrs i, s.done i = true ∧ s.done jg.1 = true ∧ tol < |fl (fl (s.unw i + jg.2) - s.unw jg.1)|

theorem Bad.ext {fl : K → K} {tol : K} {nbrs : Nat → List (Nat × K)} {s s' : FfState K} {dep dep' : Nat → Nat}
    (h : Ext s s' dep dep') (hb : Bad fl tol nbrs s) : Bad fl tol nbrs s' := by
  obtain ⟨i, jg, h1, h2, h3, h4⟩ := hb
  refine ⟨i, jg, h1, (h.keep i h2).1, (h.keep _ h3).1, ?_⟩
  rw [(h.keep i h2).2.1, (h.keep _ h3).2.1]
  exact h4

theorem BfsInv.length_le {N : Nat} {Q : Nat → Nat → K → Prop} {pre : List Nat} {d : Nat} {s : FfState K} {dep : Nat → Nat}
    (h : BfsInv N Q pre d s dep) : (pre ++ s.todo).length ≤ N := by
  have : (pre ++ s.todo) ⊆ List.range N := fun j hj => by simpa using h.bound j hj
  simpa using (List.Subperm.length_le (h.nodup.subperm this))

theorem bfs_inner {fl : K → K} {tol : K} {N : Nat} {Q : Nat → Nat → K → Prop} {nbrs : Nat → List (Nat × K)} {i : Nat}
    {pre : List Nat} :
    ∀ (ns : List (Nat × K)), (∀ jg ∈ ns, jg ∈ nbrs i) → (∀ jg ∈ ns, jg.1 < N) →
      (∀ jg ∈ ns, ∀ m x, Q m i x → Q (m + 1) jg.1 (fl (x + jg.2))) →
      ∀ (s : FfState K) (dep : Nat → Nat), s.done i = true → BfsInv N Q pre (dep i) s dep →
        (0 < s.errs → Bad fl tol nbrs s) →
        ∃ dep', BfsInv N Q pre (dep' i) (ns.foldl (ffStepFl fl tol i) s) dep' ∧
          Ext s (ns.foldl (ffStepFl fl tol i) s) dep dep' ∧
          (0 < (ns.foldl (ffStepFl fl tol i) s).errs → Bad fl tol nbrs (ns.foldl (ffStepFl fl tol i) s)) ∧
          ∀ jg ∈ ns, (ns.foldl (ffStepFl fl tol i) s).done jg.1 = true ∧ dep' jg.1 ≤ dep' i + 1 ∧
            ((ns.foldl (ffStepFl fl tol i) s).errs = 0 → Checked fl tol ((ns.foldl (ffStepFl fl tol i) s).unw i) jg.2
              ((ns.foldl (ffStepFl fl tol i) s).unw jg.1)) := by
  intro ns
  induction ns with
  | nil => intro _ _ _ s dep _ h he; exact ⟨dep, h, Ext.refl _ _, he, by simp⟩
  | cons jg ns ih =>
    intro hn hb hs s dep hi hI he
    obtain ⟨j, g⟩ := jg
    rw [List.foldl_cons]
    suffices h : ∃ dep1, BfsInv N Q pre (dep1 i) (ffStepFl fl tol i s (j, g)) dep1 ∧ Ext s (ffStepFl fl tol i s (j, g)) dep dep1 ∧
        (0 < (ffStepFl fl tol i s (j, g)).errs → Bad fl tol nbrs (ffStepFl fl tol i s (j, g))) ∧
        (ffStepFl fl tol i s (j, g)).done j = true ∧
        ((ffStepFl fl tol i s (j, g)).errs = 0 → Checked fl tol ((ffStepFl fl tol i s (j, g)).unw i) g ((ffStepFl fl tol i s (j, g)).unw j)) by
      obtain ⟨dep1, h1, h2, h3, h4, h5⟩ := h
      obtain ⟨dep2, k1, k2, k3, k4⟩ := ih (fun jg hjg => hn jg (by simp [hjg])) (fun jg hjg => hb jg (by simp [hjg]))
        (fun jg hjg => hs jg (by simp [hjg])) _ dep1 (h2.keep i hi).1 h1 h3
      refine ⟨dep2, k1, h2.trans k2, k3, ?_⟩
      simp only [List.mem_cons, forall_eq_or_imp]
      refine ⟨⟨(k2.keep j h4).1, k1.depth j (k2.keep j h4).1, fun hz => ?_⟩, k4⟩
      rw [(k2.keep j h4).2.1, (k2.keep i (h2.keep i hi).1).2.1]
      exact h5 (k2.errs hz)
    by_cases hd : s.done j = false
    · have e1 : ffStepFl fl tol i s (j, g) = ⟨Function.update s.done j true,
          Function.update s.unw j (fl (s.unw i + g)), s.todo ++ [j], s.errs⟩ := by
        simp [ffStepFl, hd]
      have hjn : j ∉ pre ++ s.todo := fun hj => by
        rw [(hI.done j).mpr hj] at hd
        simp at hd
      have hne : ∀ k, s.done k = true → k ≠ j := by
        rintro k hk rfl
        rw [hk] at hd
        simp at hd
      have hext : Ext s (ffStepFl fl tol i s (j, g)) dep (Function.update dep j (dep i + 1)) := by
        rw [e1]
        refine ⟨fun k hk => ?_, fun h => h⟩
        have := hne k hk
        simp only [Function.update_of_ne this, hk, and_self]
      have hdi : Function.update dep j (dep i + 1) i = dep i := (hext.keep i hi).2.2
      have htn : ∀ k ∈ s.todo, k ≠ j := fun k hk => hne k ((hI.done k).mpr (by simp [hk]))
      have hbad : 0 < (ffStepFl fl tol i s (j, g)).errs → Bad fl tol nbrs (ffStepFl fl tol i s (j, g)) := by
        intro h
        refine Bad.ext hext (he ?_)
        rw [e1] at h
        exact h
      refine ⟨Function.update dep j (dep i + 1), ?_, hext, hbad, ?_, ?_⟩
      · rw [e1, hdi]
        refine ⟨?_, ?_, ?_, ?_, ?_, ?_, ?_, ?_⟩
        · rw [← List.append_assoc, List.nodup_append]
          refine ⟨hI.nodup, by simp, ?_⟩
          intro a ha b hb hab
          simp only [List.mem_singleton] at hb
          subst hb hab
          exact hjn ha
        · intro k hk
          simp only at hk
          rw [← List.append_assoc, List.mem_append, List.mem_singleton] at hk
          rcases hk with hk | rfl
          · exact hI.bound k hk
          · exact hb (k, g) (by simp)
        · intro k
          simp only
          rw [← List.append_assoc, List.mem_append, List.mem_singleton]
          by_cases h : k = j
          · subst h; simp
          · rw [Function.update_of_ne h, hI.done k]
            simp [h]
        · intro k hk
          simp only at hk ⊢
          by_cases h : k = j
          · subst h
            rw [Function.update_self, Function.update_self]
            exact hs (k, g) (by simp) _ _ (hI.q i hi)
          · rw [Function.update_of_ne h] at hk
            rw [Function.update_of_ne h, Function.update_of_ne h]
            exact hI.q k hk
        · intro k hk
          simp only at hk
          by_cases h : k = j
          · subst h
            rw [Function.update_self]
          · rw [Function.update_of_ne h] at hk
            rw [Function.update_of_ne h]
            exact hI.depth k hk
        · simp only [List.map_append, List.map_cons, List.map_nil, Function.update_self]
          have hm : s.todo.map (Function.update dep j (dep i + 1)) = s.todo.map dep :=
            List.map_congr_left fun k hk => Function.update_of_ne (htn k hk) _ _
          rw [hm, List.pairwise_append]
          refine ⟨hI.sorted, by simp, ?_⟩
          intro a ha b hb
          simp only [List.mem_singleton] at hb
          obtain ⟨k, hk, rfl⟩ := List.mem_map.mp ha
          rw [hb]
          exact hI.depth k ((hI.done k).mpr (by simp [hk]))
        · intro k hk
          simp only [List.mem_append, List.mem_singleton] at hk
          rcases hk with hk | rfl
          · rw [Function.update_of_ne (htn k hk)]
            exact hI.low k hk
          · rw [Function.update_self]; omega
        · have h0 := hne 0 hI.zero.1
          simp only
          rw [Function.update_of_ne h0, Function.update_of_ne h0, Function.update_of_ne h0]
          exact hI.zero
      · rw [e1]; simp
      · intro _
        rw [e1]
        left
        simp only [Function.update_self]
        rw [Function.update_of_ne (hne i hi)]
    · have hd' : s.done j = true := by simpa using hd
      by_cases ht : tol < |fl (fl (s.unw i + g) - s.unw j)|
      · have e1 : ffStepFl fl tol i s (j, g) = { s with errs := s.errs + 1 } := by
          unfold ffStepFl
          simp only [hd', Bool.true_eq_false, if_false]
          rw [if_pos ht]
        rw [e1]
        refine ⟨dep, ⟨hI.nodup, hI.bound, hI.done, hI.q, hI.depth, hI.sorted, hI.low, hI.zero⟩,
          ⟨fun k hk => ⟨hk, rfl, rfl⟩, fun h => by simp at h⟩, ?_, hd', fun h => by simp at h⟩
        intro _
        exact ⟨i, (j, g), hn (j, g) (by simp), hi, hd', ht⟩
      · have e1 : ffStepFl fl tol i s (j, g) = s := by
          unfold ffStepFl
          simp only [hd', Bool.true_eq_false, if_false]
          rw [if_neg ht]
        rw [e1]
        exact ⟨dep, hI, Ext.refl _ _, he, hd', fun _ => .inr (not_lt.mp ht)⟩

/-- What the loop leaves behind. -/
structure BfsEnd (fl : K → K) (tol : K) (nbrs : Nat → List (Nat × K)) (N : Nat) (Q : Nat → Nat → K → Prop)
    (s : FfState K) (dep : Nat → Nat) : Prop where
  zero : s.done 0 = true ∧ s.unw 0 = 0 ∧ dep 0 = 0
  bound : ∀ j, s.done j = true → j < N
  q : ∀ j, s.done j = true → Q (dep j) j (s.unw j)
  closed : ∀ i, s.done i = true → ∀ jg ∈ nbrs i, s.done jg.1 = true ∧ dep jg.1 ≤ dep i + 1 ∧
    (s.errs = 0 → Checked fl tol (s.unw i) jg.2 (s.unw jg.1))
  bad : 0 < s.errs → Bad fl tol nbrs s

theorem bfs_loop {fl : K → K} {tol : K} {N : Nat} {Q : Nat → Nat → K → Prop} {nbrs : Nat → List (Nat × K)}
    (hb : ∀ i, ∀ jg ∈ nbrs i, jg.1 < N)
    (hs : ∀ i, ∀ jg ∈ nbrs i, ∀ m x, Q m i x → Q (m + 1) jg.1 (fl (x + jg.2))) :
    ∀ (fuel : Nat) (s : FfState K) (popped : List Nat) (d : Nat) (dep : Nat → Nat), BfsInv N Q popped d s dep →
      (0 < s.errs → Bad fl tol nbrs s) →
      (∀ i ∈ popped, ∀ jg ∈ nbrs i, s.done jg.1 = true ∧ dep jg.1 ≤ dep i + 1 ∧
        (s.errs = 0 → Checked fl tol (s.unw i) jg.2 (s.unw jg.1))) → N ≤ fuel + popped.length →
      ∃ s' dep', ffLoopFl fl tol nbrs fuel s = .ok s' ∧ BfsEnd fl tol nbrs N Q s' dep' := by
  intro fuel
  have stop : ∀ (fuel : Nat) (s : FfState K) (popped : List Nat) (d : Nat) (dep : Nat → Nat), BfsInv N Q popped d s dep →
      (0 < s.errs → Bad fl tol nbrs s) →
      (∀ i ∈ popped, ∀ jg ∈ nbrs i, s.done jg.1 = true ∧ dep jg.1 ≤ dep i + 1 ∧
        (s.errs = 0 → Checked fl tol (s.unw i) jg.2 (s.unw jg.1))) → s.todo = [] →
      ∃ s' dep', ffLoopFl fl tol nbrs fuel s = .ok s' ∧ BfsEnd fl tol nbrs N Q s' dep' := by
    intro fuel s popped d dep hI he hcl htd
    have hdone : ∀ j, s.done j = true ↔ j ∈ popped := by
      intro j; rw [hI.done j, htd]; simp
    refine ⟨s, dep, ?_, hI.zero, fun j hj => hI.bound j ((hI.done j).mp hj), hI.q, fun i hi => hcl i ((hdone i).mp hi), he⟩
    unfold ffLoopFl
    simp [htd]
  induction fuel with
  | zero =>
    intro s popped d dep hI he hcl hf
    have hlen := hI.length_le
    have htd : s.todo = [] := by
      simp only [List.length_append] at hlen
      exact List.eq_nil_of_length_eq_zero (by omega)
    exact stop 0 s popped d dep hI he hcl htd
  | succ fuel ih =>
    intro s popped d dep hI he hcl hf
    cases htd : s.todo with
    | nil => exact stop _ s popped d dep hI he hcl htd
    | cons i rest =>
      have hall : popped ++ [i] ++ rest = popped ++ s.todo := by simp [htd]
      have hdi : s.done i = true := (hI.done i).mpr (by simp [htd])
      have hlow := hI.low i (by simp [htd])
      have hsor := hI.sorted
      rw [htd, List.map_cons, List.pairwise_cons] at hsor
      have hI0 : BfsInv N Q (popped ++ [i]) (dep i) { s with todo := rest } dep := by
        refine ⟨?_, ?_, ?_, hI.q, fun j hj => (hI.depth j hj).trans (by omega), hsor.2, ?_, hI.zero⟩
        · show (popped ++ [i] ++ rest).Nodup
          rw [hall]; exact hI.nodup
        · show ∀ j ∈ popped ++ [i] ++ rest, j < N
          rw [hall]; exact hI.bound
        · show ∀ j, s.done j = true ↔ j ∈ popped ++ [i] ++ rest
          rw [hall]; exact hI.done
        · intro j hj
          exact hsor.1 _ (List.mem_map_of_mem hj)
      obtain ⟨dep', k1, k2, k3, k4⟩ := bfs_inner (nbrs := nbrs) (nbrs i) (fun _ h => h) (hb i) (hs i) { s with todo := rest } dep hdi hI0 he
      obtain ⟨s', dep'', h1, h2⟩ := ih _ _ _ dep' k1 k3 (by
        intro k hk jg hjg
        rcases List.mem_append.mp hk with hk | hk
        · have hkd : s.done k = true := (hI.done k).mpr (by simp [hk])
          obtain ⟨c1, c2, c3⟩ := hcl k hk jg hjg
          obtain ⟨a1, a2, a3⟩ := k2.keep k hkd
          obtain ⟨b1, b2, b3⟩ := k2.keep jg.1 c1
          refine ⟨b1, by rw [b3, a3]; exact c2, fun hz => ?_⟩
          rw [a2, b2]
          exact c3 (k2.errs hz)
        · simp only [List.mem_singleton] at hk
          subst hk
          exact k4 jg hjg) (by simp; omega)
      refine ⟨s', dep'', ?_, h2⟩
      unfold ffLoopFl
      simp only [htd]
      exact h1

/-- The whole loop from its initial state. -/
theorem bfs_run {fl : K → K} {tol : K} {N : Nat} {Q : Nat → Nat → K → Prop} {nbrs : Nat → List (Nat × K)} (hN : 0 < N)
    (hb : ∀ i, ∀ jg ∈ nbrs i, jg.1 < N)
    (hs : ∀ i, ∀ jg ∈ nbrs i, ∀ m x, Q m i x → Q (m + 1) jg.1 (fl (x + jg.2))) (h0 : Q 0 0 0) :
    ∃ s' dep', ffLoopFl fl tol nbrs N ffInit = .ok s' ∧ BfsEnd fl tol nbrs N Q s' dep' := by
  refine bfs_loop hb hs N ffInit [] 0 (fun _ => 0) ?_ (by simp [ffInit]) (by simp) (by simp)
  have hd : ∀ j, (ffInit (K := K)).done j = true ↔ j = 0 := by
    intro j
    by_cases h : j = 0
    · subst h; simp [ffInit]
    · simp [ffInit, Function.update_of_ne h, h]
  refine ⟨by simp [ffInit], ?_, ?_, ?_, by simp, by simp [ffInit], by simp, ?_⟩
  · intro j hj
    simp [ffInit] at hj
    omega
  · intro j
    rw [hd]
    simp [ffInit]
  · intro j hj
    rw [hd] at hj
    subst hj
    exact h0
  · simp [ffInit]

end

end Spurt
