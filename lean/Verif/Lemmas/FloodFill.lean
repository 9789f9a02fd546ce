import Verif.Model.FloodFill
import Verif.Lemmas.Residues

namespace Spurt
open Spec

variable {K : Type} [Field K] [LinearOrder K]

/-- The link relation seen by the fill. -/
def NbrStep (nbrs : Nat → List (Nat × K)) (i j : Nat) : Prop := ∃ g, (j, g) ∈ nbrs i

/-- What one expansion of point `i` does. -/
structure Expanded (i : Nat) (ns : List (Nat × K)) (s s' : FfState K) (new : List Nat) :
    Prop where
  todo : s'.todo = s.todo ++ new
  nodup : new.Nodup
  fresh : ∀ j ∈ new, s.done j = false
  done : ∀ j, s'.done j = true ↔ s.done j = true ∨ j ∈ new
  keep : ∀ j, s.done j = true → s'.unw j = s.unw j
  errs : s.errs ≤ s'.errs
  from_nbr : ∀ j ∈ new, ∃ g, (j, g) ∈ ns ∧ s'.unw j = s.unw i + g
  checked : ∀ jg ∈ ns, s'.done jg.1 = true ∧
    (0 < s'.errs ∨ |s.unw i + jg.2 - s'.unw jg.1| ≤ 1 / 1000)

theorem expand [IsStrictOrderedRing K] (i : Nat) (ns : List (Nat × K)) (s : FfState K)
    (hi : s.done i = true) :
    ∃ new, Expanded i ns s (ns.foldl (ffStep i) s) new := by
  induction ns generalizing s with
  | nil =>
    exact ⟨[], ⟨by simp, by simp, by simp, by simp, by simp, le_refl _, by simp, by simp⟩⟩
  | cons jg ns ih =>
    obtain ⟨j, g⟩ := jg
    rw [List.foldl_cons]
    by_cases hd : s.done j = false
    · -- fresh point
      set s1 : FfState K := ffStep i s (j, g) with hs1
      have e1 : s1 = { done := Function.update s.done j true
                       unw := Function.update s.unw j (s.unw i + g)
                       todo := s.todo ++ [j], errs := s.errs } := by
        simp [hs1, ffStep, hd]
      have hij : i ≠ j := by rintro rfl; rw [hi] at hd; simp at hd
      have hi1 : s1.done i = true := by rw [e1]; simp [Function.update, hij, hi]
      have hj1 : s1.done j = true := by rw [e1]; simp
      have hu : s1.unw i = s.unw i := by rw [e1]; simp [Function.update, hij]
      have huj : s1.unw j = s.unw i + g := by rw [e1]; simp
      have hdone1 : ∀ k, s1.done k = true ↔ s.done k = true ∨ k = j := by
        intro k; rw [e1]; simp only [Function.update]
        by_cases hk : k = j <;> simp [hk]
      obtain ⟨new, hE⟩ := ih s1 hi1
      have hjnew : j ∉ new := by
        intro h; have := hE.fresh j h; rw [hj1] at this; simp at this
      refine ⟨j :: new, ⟨?_, ?_, ?_, ?_, ?_, ?_, ?_, ?_⟩⟩
      · rw [hE.todo, e1]; simp
      · exact List.nodup_cons.mpr ⟨hjnew, hE.nodup⟩
      · intro k hk
        rcases List.mem_cons.mp hk with rfl | hk
        · exact hd
        · have h1 := hE.fresh k hk
          by_contra hne
          have : s.done k = true := by simpa using hne
          have := (hdone1 k).mpr (.inl this)
          rw [this] at h1; simp at h1
      · intro k
        rw [hE.done, hdone1, List.mem_cons, or_assoc]
      · intro k hk
        have hkj : k ≠ j := by rintro rfl; rw [hk] at hd; simp at hd
        rw [hE.keep k ((hdone1 k).mpr (.inl hk)), e1]
        simp [Function.update, hkj]
      · have e : s.errs = s1.errs := by rw [e1]
        rw [e]; exact hE.errs
      · intro k hk
        rcases List.mem_cons.mp hk with rfl | hk
        · refine ⟨g, by simp, ?_⟩
          rw [hE.keep k hj1, huj]
        · obtain ⟨g', hg', he⟩ := hE.from_nbr k hk
          exact ⟨g', by simp [hg'], by rw [he, hu]⟩
      · intro kg hkg
        rcases List.mem_cons.mp hkg with rfl | hkg
        · refine ⟨(hE.done _).mpr (.inl hj1), .inr ?_⟩
          simp only
          rw [hE.keep j hj1, huj]
          simp
        · have := hE.checked kg hkg
          rw [hu] at this
          exact this
    · -- already done
      have hd' : s.done j = true := by simpa using hd
      set s1 : FfState K := ffStep i s (j, g) with hs1
      have hsame : s1.done = s.done ∧ s1.unw = s.unw ∧ s1.todo = s.todo ∧ s.errs ≤ s1.errs ∧
          (0 < s1.errs ∨ |s.unw i + g - s.unw j| ≤ 1 / 1000) := by
        simp only [hs1, ffStep, hd']
        simp only [Bool.true_eq_false, if_false]
        split
        · exact ⟨rfl, rfl, rfl, by simp, .inl (by simp)⟩
        · rename_i h
          exact ⟨rfl, rfl, rfl, le_refl _, .inr (not_lt.mp h)⟩
      obtain ⟨h1, h2, h3, h4, h5⟩ := hsame
      obtain ⟨new, hE⟩ := ih s1 (by rw [h1]; exact hi)
      refine ⟨new, ⟨?_, hE.nodup, ?_, ?_, ?_, ?_, ?_, ?_⟩⟩
      · rw [hE.todo, h3]
      · intro k hk; rw [← h1]; exact hE.fresh k hk
      · intro k; rw [hE.done, h1]
      · intro k hk; rw [hE.keep k (by rw [h1]; exact hk), h2]
      · exact le_trans h4 hE.errs
      · intro k hk
        obtain ⟨g', hg', he⟩ := hE.from_nbr k hk
        exact ⟨g', by simp [hg'], by rw [he, h2]⟩
      · intro kg hkg
        rcases List.mem_cons.mp hkg with rfl | hkg
        · refine ⟨(hE.done _).mpr (.inl (by rw [h1]; exact hd')), ?_⟩
          simp only
          rcases h5 with h5 | h5
          · left; exact lt_of_lt_of_le h5 hE.errs
          · right; rw [hE.keep j (by rw [h1]; exact hd'), h2]; exact h5
        · have := hE.checked kg hkg
          rw [h2] at this
          exact this

/-- Loop invariant; `popped` are the expanded points. -/
structure FfInv (nbrs : Nat → List (Nat × K)) (npts : Nat) (Q : Nat → K → Prop)
    (s : FfState K) (popped : List Nat) : Prop where
  nodup : (popped ++ s.todo).Nodup
  bound : ∀ j ∈ popped ++ s.todo, j < npts
  done : ∀ j, s.done j = true ↔ j ∈ popped ++ s.todo
  zero : s.done 0 = true ∧ s.unw 0 = 0
  q : ∀ j, s.done j = true → Q j (s.unw j)
  checked : ∀ i ∈ popped, ∀ jg ∈ nbrs i, s.done jg.1 = true ∧
    (0 < s.errs ∨ |s.unw i + jg.2 - s.unw jg.1| ≤ 1 / 1000)

theorem ffInv_step [IsStrictOrderedRing K] {nbrs : Nat → List (Nat × K)} {npts : Nat}
    {Q : Nat → K → Prop} (hnb : ∀ i, ∀ jg ∈ nbrs i, jg.1 < npts)
    (hQ : ∀ i x, Q i x → ∀ jg ∈ nbrs i, Q jg.1 (x + jg.2))
    {s : FfState K} {popped rest : List Nat} {i : Nat} (hI : FfInv nbrs npts Q s popped)
    (ht : s.todo = i :: rest) :
    FfInv nbrs npts Q ((nbrs i).foldl (ffStep i) { s with todo := rest }) (popped ++ [i]) := by
  have hdi : s.done i = true := (hI.done i).mpr (by simp [ht])
  obtain ⟨new, hE⟩ := expand i (nbrs i) { s with todo := rest } hdi
  have hEt : _ = rest ++ new := hE.todo
  have hall : popped ++ [i] ++ (rest ++ new) = (popped ++ s.todo) ++ new := by simp [ht]
  have hfresh : ∀ j ∈ new, j ∉ popped ++ s.todo := by
    intro j hj hc
    have h1 := (hI.done j).mpr hc
    have h2 := hE.fresh j hj
    simp only at h2
    rw [h1] at h2; simp at h2
  refine ⟨?_, ?_, ?_, ?_, ?_, ?_⟩
  · rw [hEt, hall, List.nodup_append]
    refine ⟨hI.nodup, hE.nodup, ?_⟩
    rintro a ha b hb rfl
    exact hfresh a hb ha
  · rw [hEt, hall]
    intro j hj
    rcases List.mem_append.mp hj with hj | hj
    · exact hI.bound j hj
    · obtain ⟨g, hg, _⟩ := hE.from_nbr j hj
      exact hnb i _ hg
  · intro j
    rw [hEt, hall, hE.done, List.mem_append (t := new)]
    simp only [hI.done]
  · have h0 := hI.zero
    exact ⟨(hE.done 0).mpr (.inl h0.1), by rw [hE.keep 0 h0.1]; exact h0.2⟩
  · intro j hj
    rcases (hE.done j).mp hj with hj | hj
    · rw [hE.keep j hj]; exact hI.q j hj
    · obtain ⟨g, hg, he⟩ := hE.from_nbr j hj
      rw [he]
      exact hQ i _ (hI.q i hdi) _ hg
  · intro k hk jg hjg
    rcases List.mem_append.mp hk with hk | hk
    · have hkd : s.done k = true := (hI.done k).mpr (by simp [hk])
      obtain ⟨h1, h2⟩ := hI.checked k hk jg hjg
      refine ⟨(hE.done _).mpr (.inl h1), ?_⟩
      rcases h2 with h2 | h2
      · left; exact lt_of_lt_of_le h2 hE.errs
      · right; rw [hE.keep k hkd, hE.keep jg.1 h1]; exact h2
    · simp only [List.mem_singleton] at hk
      subst hk
      have := hE.checked jg hjg
      rw [hE.keep k hdi]
      exact this

theorem ffLoop_spec [IsStrictOrderedRing K] {nbrs : Nat → List (Nat × K)} {npts : Nat}
    {Q : Nat → K → Prop} (hnb : ∀ i, ∀ jg ∈ nbrs i, jg.1 < npts)
    (hQ : ∀ i x, Q i x → ∀ jg ∈ nbrs i, Q jg.1 (x + jg.2)) :
    ∀ (fuel : Nat) (s : FfState K) (popped : List Nat), FfInv nbrs npts Q s popped →
      npts ≤ fuel + popped.length →
      ∃ s' popped', ffLoop nbrs fuel s = .ok s' ∧ s'.todo = [] ∧
        FfInv nbrs npts Q s' popped' := by
  intro fuel
  induction fuel with
  | zero =>
    intro s popped hI hf
    have hlen : (popped ++ s.todo).length ≤ npts := by
      have : (popped ++ s.todo) ⊆ List.range npts := fun j hj => by
        simpa using hI.bound j hj
      simpa using (List.Subperm.length_le (hI.nodup.subperm this))
    have ht : s.todo = [] := by
      simp only [List.length_append] at hlen
      exact List.eq_nil_of_length_eq_zero (by omega)
    refine ⟨s, popped, ?_, ht, hI⟩
    unfold ffLoop
    simp [ht]
  | succ fuel ih =>
    intro s popped hI hf
    cases ht : s.todo with
    | nil =>
      refine ⟨s, popped, ?_, ht, hI⟩
      unfold ffLoop
      simp [ht]
    | cons i rest =>
      have hI' := ffInv_step hnb hQ hI ht
      obtain ⟨s', p', h1, h2, h3⟩ := ih _ _ hI' (by simp; omega)
      refine ⟨s', p', ?_, h2, h3⟩
      unfold ffLoop
      simp only [ht]
      exact h1

theorem ffInv_init {nbrs : Nat → List (Nat × K)} {npts : Nat} {Q : Nat → K → Prop}
    (hn : 0 < npts) (hq : Q 0 0) : FfInv nbrs npts Q ffInit [] := by
  refine ⟨by simp [ffInit], by simp [ffInit, hn], ?_, by simp [ffInit], ?_, by simp⟩
  · intro j
    simp only [ffInit, Function.update]
    by_cases h : j = 0 <;> simp [h]
  · intro j hj
    simp only [ffInit, Function.update] at hj ⊢
    by_cases h : j = 0
    · subst h; exact hq
    · simp [h] at hj

/-- If all values are forced by a functional predicate, no closure error is recorded. -/
theorem ffLoop_no_errs [IsStrictOrderedRing K] (nbrs : Nat → List (Nat × K)) (Q : Nat → K → Prop)
    (hQ : ∀ i x, Q i x → ∀ jg ∈ nbrs i, Q jg.1 (x + jg.2))
    (huniq : ∀ p x y, Q p x → Q p y → x = y) :
    ∀ (fuel : Nat) (s s' : FfState K), ffLoop nbrs fuel s = .ok s' →
      (∀ p, s.done p = true → Q p (s.unw p)) → (∀ p ∈ s.todo, s.done p = true) → s.errs = 0 →
      s'.errs = 0 := by
  have inner : ∀ (ns : List (Nat × K)) (i : Nat) (s : FfState K),
      (∀ x, Q i x → ∀ jg ∈ ns, Q jg.1 (x + jg.2)) →
      (∀ p, s.done p = true → Q p (s.unw p)) → (∀ p ∈ s.todo, s.done p = true) → s.errs = 0 →
      s.done i = true →
      let t := ns.foldl (ffStep i) s
      (∀ p, t.done p = true → Q p (t.unw p)) ∧ (∀ p ∈ t.todo, t.done p = true) ∧ t.errs = 0 := by
    intro ns
    induction ns with
    | nil => intro i s _ h1 h2 h3 _; exact ⟨h1, h2, h3⟩
    | cons jg ns ih =>
      intro i s hns h1 h2 h3 hi
      obtain ⟨j, g⟩ := jg
      rw [List.foldl_cons]
      have hj : Q j (s.unw i + g) := hns _ (h1 i hi) (j, g) (by simp)
      by_cases hd : s.done j = false
      · have e1 : ffStep i s (j, g) = ⟨Function.update s.done j true,
          Function.update s.unw j (s.unw i + g), s.todo ++ [j], s.errs⟩ := by
          simp [ffStep, hd]
        have hij : i ≠ j := by rintro rfl; rw [hi] at hd; simp at hd
        apply ih i _ (fun x hx kg hk => hns x hx kg (by simp [hk]))
        · intro p hp
          rw [e1] at hp ⊢
          simp only [Function.update] at hp ⊢
          by_cases hpj : p = j
          · subst hpj; simpa using hj
          · simp only [hpj, dite_false] at hp ⊢
            exact h1 p hp
        · intro p hp
          rw [e1] at hp ⊢
          simp only [List.mem_append, List.mem_singleton] at hp
          simp only [Function.update]
          rcases hp with hp | rfl
          · by_cases hpj : p = j <;> simp [hpj, h2 p hp]
          · simp
        · rw [e1]; exact h3
        · rw [e1]; simp [Function.update, hij, hi]
      · have hd' : s.done j = true := by simpa using hd
        have hz : s.unw i + g - s.unw j = 0 := by
          rw [huniq j _ _ hj (h1 j hd')]; ring
        have e1 : ffStep i s (j, g) = s := by
          unfold ffStep
          simp only [hd', Bool.true_eq_false, if_false, hz, abs_zero]
          rw [if_neg (by norm_num)]
        rw [e1]
        exact ih i s (fun x hx kg hk => hns x hx kg (by simp [hk])) h1 h2 h3 hi
  intro fuel
  induction fuel with
  | zero =>
    intro s s' h h1 h2 h3
    unfold ffLoop at h
    split at h
    · simp only [Except.ok.injEq] at h; subst h; exact h3
    · simp at h
  | succ fuel ih =>
    intro s s' h h1 h2 h3
    unfold ffLoop at h
    split at h
    · simp only [Except.ok.injEq] at h; subst h; exact h3
    · rename_i i rest ht
      have hin := inner (nbrs i) i { s with todo := rest } (fun x hx => hQ i x hx) h1
        (fun p hp => h2 p (by rw [ht]; simp [hp])) h3 (h2 i (by rw [ht]; simp))
      exact ih _ _ h hin.1 hin.2.1 hin.2.2

/-! ## neighbours -/

theorem le_maxLink {links : List (Nat × Nat)} {l : Nat × Nat} (h : l ∈ links) :
    l.1 ≤ maxLink links ∧ l.2 ≤ maxLink links := by
  unfold maxLink
  have gen : ∀ (ls : List (Nat × Nat)) (m : Nat),
      m ≤ ls.foldl (fun m l => max m (max l.1 l.2)) m ∧
      ∀ l ∈ ls, l.1 ≤ ls.foldl (fun m l => max m (max l.1 l.2)) m ∧
        l.2 ≤ ls.foldl (fun m l => max m (max l.1 l.2)) m := by
    intro ls
    induction ls with
    | nil => intro m; simp
    | cons x ls ih =>
      intro m
      obtain ⟨h1, h2⟩ := ih (max m (max x.1 x.2))
      refine ⟨by simp only [List.foldl_cons]; omega, ?_⟩
      intro l hl
      simp only [List.foldl_cons]
      rcases List.mem_cons.mp hl with rfl | hl
      · omega
      · exact h2 l hl
  exact (gen links 0).2 l h

theorem maxLink_mem {links : List (Nat × Nat)} (h : links ≠ []) :
    ∃ l ∈ links, maxLink links = l.1 ∨ maxLink links = l.2 := by
  unfold maxLink
  have gen : ∀ (ls : List (Nat × Nat)) (m : Nat),
      ls.foldl (fun m l => max m (max l.1 l.2)) m = m ∨
      ∃ l ∈ ls, ls.foldl (fun m l => max m (max l.1 l.2)) m = l.1 ∨
        ls.foldl (fun m l => max m (max l.1 l.2)) m = l.2 := by
    intro ls
    induction ls with
    | nil => intro m; simp
    | cons x ls ih =>
      intro m
      simp only [List.foldl_cons]
      rcases ih (max m (max x.1 x.2)) with h | ⟨l, hl, h⟩
      · rw [h]
        by_cases h1 : max m (max x.1 x.2) = m
        · left; exact h1
        · right; exact ⟨x, by simp, by omega⟩
      · right; exact ⟨l, by simp [hl], h⟩
  rcases gen links 0 with h0 | h0
  · obtain ⟨l, ls, rfl⟩ := List.exists_cons_of_ne_nil h
    have := le_maxLink (links := l :: ls) (l := l) (by simp)
    refine ⟨l, by simp, ?_⟩
    unfold maxLink at this
    rw [h0] at this ⊢
    omega
  · exact h0

omit [LinearOrder K] in
theorem mem_nbrsOf {links : List (Nat × Nat)} {grads : List K} {i j : Nat} {g : K} :
    (j, g) ∈ nbrsOf links grads i ↔
      ((i, j), g) ∈ links.zip grads ∨ ((j, i), -g) ∈ links.zip grads := by
  unfold nbrsOf
  rw [List.mem_flatMap]
  constructor
  · rintro ⟨⟨⟨a, b⟩, x⟩, hm, h⟩
    rcases List.mem_append.mp h with h | h
    · split at h
      · rename_i ha
        simp only at ha
        simp only [List.mem_singleton, Prod.mk.injEq] at h
        obtain ⟨rfl, rfl⟩ := h
        subst ha; left; exact hm
      · simp at h
    · split at h
      · rename_i ha
        simp only at ha
        simp only [List.mem_singleton, Prod.mk.injEq] at h
        obtain ⟨rfl, rfl⟩ := h
        subst ha; right; simpa using hm
      · simp at h
  · rintro (h | h)
    · exact ⟨((i, j), g), h, by simp⟩
    · exact ⟨((j, i), -g), h, by simp⟩

/-! ## flood_fill as a whole -/

section
variable [FloorRing K]

/-- Total gradient of link number `i`. -/
def totalGrad (tau : K) (indata : List K) (links : List (Nat × Nat)) (flows : List ℤ)
    (points : Bool) (i : Nat) : K :=
  (if points then
    phaseDiff tau (indata.getD (links.getD i (0, 0)).1 0) (indata.getD (links.getD i (0, 0)).2 0)
   else indata.getD i 0) + tau * (flows.getD i 0 : K)

def gradList (tau : K) (indata : List K) (links : List (Nat × Nat)) (flows : List ℤ)
    (points : Bool) : List K :=
  (List.range links.length).map (totalGrad tau indata links flows points)

/-- The checks at the start of `flood_fill`. -/
structure FfArgs (indata : List K) (links : List (Nat × Nat)) (flows : List ℤ) (mode : String) :
    Prop where
  len : links.length = flows.length
  mode_ok : mode = "points" ∨ mode = "gradients"
  ne : links ≠ []
  size : (mode = "gradients" → indata.length = links.length) ∧
    (mode = "points" → indata.length = maxLink links + 1)

theorem floodFill_bad (tau : K) {indata : List K} {links : List (Nat × Nat)} {flows : List ℤ}
    {mode : String} (h : ¬ FfArgs indata links flows mode) :
    floodFill tau indata links flows mode = .error .valueError := by
  unfold floodFill
  split
  · rfl
  · split
    · rfl
    · split
      · rfl
      · simp only
        split
        · rfl
        · split
          · rfl
          · exfalso
            rename_i h1 h2 h3 h4 h5
            apply h
            refine ⟨by simpa using h1, by tauto, h3, ?_, ?_⟩
            · intro hm; by_contra hc; exact h4 ⟨hm, hc⟩
            · intro hm; by_contra hc; exact h5 ⟨hm, hc⟩

theorem floodFill_unfold (tau : K) {indata : List K} {links : List (Nat × Nat)} {flows : List ℤ}
    {mode : String} (h : FfArgs indata links flows mode) :
    floodFill tau indata links flows mode =
      match ffLoop (nbrsOf links (gradList tau indata links flows (mode = "points")))
        (maxLink links + 1) ffInit with
      | .error e => .error e
      | .ok s =>
        if s.errs > 0 then .error .valueError
        else if (List.range (maxLink links + 1)).all s.done then
          if mode = "points" then
            .ok ((List.range (maxLink links + 1)).map fun p => s.unw p + indata.getD 0 0)
          else .ok ((List.range (maxLink links + 1)).map s.unw)
        else .error .valueError := by
  have hg : (List.zipWith (fun (li : (Nat × Nat) × Nat) (f : ℤ) =>
        if mode = "points" then
          phaseDiff tau (indata.getD li.1.1 0) (indata.getD li.1.2 0) + tau * (f : K)
        else indata.getD li.2 0 + tau * (f : K)) links.zipIdx flows) =
      gradList tau indata links flows (mode = "points") := by
    apply List.ext_getElem
    · simp [gradList, h.len]
    · intro i h1 h2
      have hi : i < links.length := by simp [gradList] at h2; exact h2
      have hf : i < flows.length := by rw [← h.len]; exact hi
      simp only [List.getElem_zipWith, gradList, List.getElem_map, List.getElem_range, totalGrad,
        List.getElem_zipIdx, List.getD_eq_getElem?_getD, List.getElem?_eq_getElem hi,
        List.getElem?_eq_getElem hf, Option.getD_some, decide_eq_true_eq, Nat.zero_add]
      split <;> simp
  unfold floodFill
  rw [if_neg (by simp [h.len]), if_neg (by have := h.mode_ok; tauto), if_neg h.ne]
  simp only
  rw [if_neg (by rintro ⟨h1, h2⟩; exact h2 (h.size.1 h1)),
    if_neg (by rintro ⟨h1, h2⟩; exact h2 (h.size.2 h1)), hg]
  rfl

omit [Field K] [LinearOrder K] [FloorRing K] in
theorem mem_zip_gradList {links : List (Nat × Nat)} {f : Nat → K} {l : Nat × Nat} {g : K} :
    (l, g) ∈ links.zip ((List.range links.length).map f) ↔
      ∃ i, links[i]? = some l ∧ g = f i := by
  constructor
  · intro h
    obtain ⟨i, hi, he⟩ := List.mem_iff_getElem.mp h
    simp only [List.length_zip, List.length_map, List.length_range, min_self] at hi
    simp only [List.getElem_zip, List.getElem_map, List.getElem_range, Prod.mk.injEq] at he
    exact ⟨i, by rw [List.getElem?_eq_getElem hi, he.1], he.2.symm⟩
  · rintro ⟨i, hi, rfl⟩
    obtain ⟨hi', rfl⟩ := List.getElem?_eq_some_iff.mp hi
    exact List.mem_iff_getElem.mpr ⟨i, by simp [hi'], by simp⟩

/-- The result of the loop with any inductive predicate on (point, value). -/
theorem ffRun [IsStrictOrderedRing K] (tau : K) (indata : List K) (links : List (Nat × Nat))
    (flows : List ℤ) (pts : Bool) (Q : Nat → K → Prop) (h0 : Q 0 0)
    (hQ : ∀ i a b x, links[i]? = some (a, b) →
      (Q a x → Q b (x + totalGrad tau indata links flows pts i)) ∧
      (Q b x → Q a (x - totalGrad tau indata links flows pts i))) :
    ∃ s : FfState K, ffLoop (nbrsOf links (gradList tau indata links flows pts))
        (maxLink links + 1) ffInit = .ok s ∧
      s.unw 0 = 0 ∧ s.done 0 = true ∧
      (∀ j, s.done j = true → Q j (s.unw j) ∧ j < maxLink links + 1) ∧
      (∀ i a b, links[i]? = some (a, b) → (s.done a = true ↔ s.done b = true) ∧
        (s.done a = true → 0 < s.errs ∨
          |s.unw b - s.unw a - totalGrad tau indata links flows pts i| ≤ 1 / 1000)) := by
  have hnb : ∀ i, ∀ jg ∈ nbrsOf links (gradList tau indata links flows pts) i,
      jg.1 < maxLink links + 1 := by
    rintro i ⟨j, g⟩ h
    rw [mem_nbrsOf] at h
    rcases h with h | h
    · have := le_maxLink (List.of_mem_zip h).1; simp only at *; omega
    · have := le_maxLink (List.of_mem_zip h).1; simp only at *; omega
  have hQ' : ∀ i x, Q i x → ∀ jg ∈ nbrsOf links (gradList tau indata links flows pts) i,
      Q jg.1 (x + jg.2) := by
    rintro i x hx ⟨j, g⟩ h
    rw [mem_nbrsOf] at h
    rcases h with h | h
    · obtain ⟨k, hk, rfl⟩ := mem_zip_gradList.mp h
      exact (hQ k i j x hk).1 hx
    · obtain ⟨k, hk, he⟩ := mem_zip_gradList.mp h
      have := (hQ k j i x hk).2 hx
      rw [← he] at this
      simpa using this
  obtain ⟨s, popped, hs, ht, hI⟩ := ffLoop_spec hnb hQ' (maxLink links + 1) ffInit []
    (ffInv_init (by omega) h0) (by simp)
  have hdone : ∀ j, s.done j = true ↔ j ∈ popped := by
    intro j; rw [hI.done, ht]; simp
  refine ⟨s, hs, hI.zero.2, hI.zero.1, ?_, ?_⟩
  · intro j hj
    exact ⟨hI.q j hj, hI.bound j ((hI.done j).mp hj)⟩
  · intro i a b hi
    have m1 : (b, totalGrad tau indata links flows pts i) ∈
        nbrsOf links (gradList tau indata links flows pts) a := by
      rw [mem_nbrsOf]; left; exact mem_zip_gradList.mpr ⟨i, hi, rfl⟩
    have m2 : (a, - totalGrad tau indata links flows pts i) ∈
        nbrsOf links (gradList tau indata links flows pts) b := by
      rw [mem_nbrsOf]; right; exact mem_zip_gradList.mpr ⟨i, hi, by simp⟩
    refine ⟨⟨fun h => ?_, fun h => ?_⟩, fun h => ?_⟩
    · exact (hI.checked a ((hdone a).mp h) _ m1).1
    · exact (hI.checked b ((hdone b).mp h) _ m2).1
    · rcases (hI.checked a ((hdone a).mp h) _ m1).2 with h | h
      · left; exact h
      · right
        rw [← abs_neg]
        convert h using 2
        ring

end

end Spurt
