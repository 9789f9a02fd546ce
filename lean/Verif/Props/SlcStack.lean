import Verif.Props.Io3D
import Verif.Props.Settings

/-!
# Properties C35 and C36: SLC stacks
-/

namespace Spurt

/-! ### Specification of the file names -/

namespace Spec

/-- The first eight characters of the text before the first underscore. -/
def dateOf (l : List Char) : String := String.ofList ((l.takeWhile (· ≠ '_')).take 8)

/-- What follows the first underscore, if there is one. -/
def afterUnderscore (l : List Char) : Option (List Char) :=
  match l.dropWhile (· ≠ '_') with
  | [] => none
  | _ :: t => some t

/-- The second date of a phase-linked file name `date1_date2....int.tif`. -/
def secondDate (n : String) : Option String := (afterUnderscore n.toList).map dateOf

/-- Files of the folder whose name ends in the given text. -/
def endingIn (folder : List String) (suffix : String) : List String :=
  folder.filter fun n => suffix.toList.isSuffixOf n.toList

end Spec

open Spec

theorem splitUnderscore_ne_nil (l : List Char) : splitUnderscore l ≠ [] := by
  cases l with
  | nil => simp [splitUnderscore]
  | cons c cs =>
    rw [splitUnderscore]
    split
    · simp
    · split <;> simp

theorem split_head (l : List Char) :
    pyItem (splitUnderscore l) 0 = .ok (l.takeWhile (· ≠ '_')) ∧
    pyItem (splitUnderscore l) 1 = match afterUnderscore l with
      | none => .error .indexError
      | some t => .ok (t.takeWhile (· ≠ '_')) := by
  have hp : ∀ (ll : List (List Char)) (k : Nat), pyItem ll (k : ℤ) =
      match ll[k]? with | some v => .ok v | none => .error .indexError := by
    intro ll k
    unfold pyItem
    simp only
    rw [if_neg (by omega), if_neg (by omega), Int.toNat_natCast]
    cases ll[k]? <;> rfl
  have hp0 := fun ll => hp ll 0
  have hp1 := fun ll => hp ll 1
  simp only [Nat.cast_zero, Nat.cast_one] at hp0 hp1
  have key : ∀ l : List Char, (splitUnderscore l)[0]? = some (l.takeWhile (· ≠ '_')) ∧
      (splitUnderscore l)[1]? = (afterUnderscore l).map fun t => t.takeWhile (· ≠ '_') := by
    intro l
    induction l with
    | nil => simp [splitUnderscore, afterUnderscore]
    | cons c cs ih =>
      by_cases hc : c = '_'
      · subst hc
        simp [splitUnderscore, afterUnderscore, ih.1]
      · rw [splitUnderscore, if_neg hc]
        cases h : splitUnderscore cs with
        | nil => exact absurd h (splitUnderscore_ne_nil cs)
        | cons w ws =>
          rw [h] at ih
          obtain ⟨i1, i2⟩ := ih
          simp only [List.getElem?_cons_zero, List.getElem?_cons_succ, Option.some.injEq] at i1 i2
          constructor
          · simp [i1, hc]
          · simp only [List.getElem?_cons_succ]
            rw [i2]
            simp [afterUnderscore, hc]
  rw [hp0, hp1, (key l).1, (key l).2]
  refine ⟨rfl, ?_⟩
  cases afterUnderscore l <;> rfl

/-- The scanning loop, for any way to check a name and to extract its date. -/
theorem scan_loop (ok : String → Bool) (date : String → Except PyErr String) :
    ∀ (l : List String) (init out : SlcFiles), (init.map Prod.fst).Nodup →
    (l.foldlM (fun (acc : SlcFiles) slc => do
        if ¬ ok slc then .error .valueError
        else do
          let acq ← date slc
          if acq ∈ acc.map Prod.fst then .error .valueError
          else pure (acc ++ [(acq, some slc)])) init = (.ok out : Except PyErr SlcFiles) ↔
      ∃ ds : List String, l.mapM date = .ok ds ∧ (∀ n ∈ l, ok n = true) ∧
        (init.map Prod.fst ++ ds).Nodup ∧ out = init ++ List.zipWith (fun d n => (d, some n)) ds l) := by
  intro l
  induction l with
  | nil =>
    intro init out hi
    simp only [List.foldlM_nil, pure, Except.pure, List.mapM_nil, Except.ok.injEq]
    constructor
    · rintro rfl; exact ⟨[], rfl, by simp, by simpa using hi, by simp⟩
    · rintro ⟨ds, rfl, _, _, h⟩; simpa using h.symm
  | cons a l ih =>
    intro init out hi
    rw [List.foldlM_cons, List.mapM_cons]
    by_cases hok : ok a = true
    · simp only [hok, not_true_eq_false, if_false]
      cases hd : date a with
      | error e =>
        simp [Bind.bind, Except.bind]
      | ok d =>
        by_cases hm : d ∈ init.map Prod.fst
        · simp only [Bind.bind, Except.bind, hm, if_true]
          constructor
          · intro h; simp at h
          · rintro ⟨ds, h, _, h2, _⟩
            cases hl : l.mapM date with
            | error e => rw [hl] at h; simp at h
            | ok ds' =>
              rw [hl] at h
              simp only [pure, Except.pure, Except.ok.injEq] at h
              subst h
              exact absurd rfl ((List.nodup_append.mp h2).2.2 d hm d (by simp))
        · simp only [Bind.bind, Except.bind, hm, if_false, pure, Except.pure]
          have hi' : ((init ++ [(d, some a)]).map Prod.fst).Nodup := by
            rw [List.map_append]
            refine List.nodup_append.mpr ⟨hi, by simp, ?_⟩
            intro x hx y hy
            simp at hy; subst hy
            rintro rfl; exact hm hx
          have := ih (init ++ [(d, some a)]) out hi'
          simp only [Bind.bind, Except.bind, pure, Except.pure] at this
          rw [this]
          constructor
          · rintro ⟨ds, h1, h2, h3, h4⟩
            refine ⟨d :: ds, by rw [h1], ?_, ?_, ?_⟩
            · intro n hn
              rcases List.mem_cons.mp hn with rfl | hn
              · exact hok
              · exact h2 n hn
            · simpa [List.append_assoc] using h3
            · rw [h4]; simp
          · rintro ⟨ds, h1, h2, h3, h4⟩
            cases hl : l.mapM date with
            | error e => rw [hl] at h1; simp at h1
            | ok ds' =>
              rw [hl] at h1
              simp only [Except.ok.injEq] at h1
              subst h1
              refine ⟨ds', rfl, fun n hn => h2 n (List.mem_cons_of_mem _ hn), ?_, ?_⟩
              · simpa [List.append_assoc] using h3
              · rw [h4]; simp
    · simp only [hok]
      constructor
      · intro h; simp [Bind.bind, Except.bind] at h
      · rintro ⟨ds, _, h, _⟩
        exact absurd (h a (by simp)) hok

theorem mapM_eq_ok {α β : Type} {f : α → Except PyErr β} {g : α → β} {l : List α}
    (h : ∀ a ∈ l, f a = .ok (g a)) : l.mapM f = .ok (l.map g) := by
  induction l with
  | nil => rfl
  | cons a l ih =>
    rw [List.mapM_cons, h a (by simp), ih fun b hb => h b (by simp [hb])]; rfl

theorem mapM_ok_imp {α β : Type} {f : α → Except PyErr β} {l : List α} {r : List β}
    (h : l.mapM f = .ok r) : ∀ a ∈ l, ∃ b, f a = .ok b := by
  induction l generalizing r with
  | nil => simp
  | cons a l ih =>
    rw [List.mapM_cons] at h
    cases hf : f a with
    | error e => rw [hf] at h; simp [Bind.bind, Except.bind] at h
    | ok b =>
      cases hl : l.mapM f with
      | error e => rw [hf, hl] at h; simp [Bind.bind, Except.bind] at h
      | ok bs =>
        intro x hx
        rcases List.mem_cons.mp hx with rfl | hx
        · exact ⟨b, hf⟩
        · exact ih hl x hx

theorem pairwise_sorted (l : List String) : (l.mergeSort (· ≤ ·)).Pairwise (· ≤ ·) := by
  have := List.pairwise_mergeSort (le := fun a b : String => decide (a ≤ b))
    (by intro a b c h1 h2; simp only [decide_eq_true_eq] at *; exact le_trans h1 h2)
    (by intro a b; simp only [Bool.or_eq_true, decide_eq_true_eq]; exact le_total a b) l
  exact this.imp (by intro a b h; simpa using h)

/-- The dates of a stack are sorted; without repetition if the keys are. -/
theorem stackDates_spec {files : SlcFiles} (h : (files.map Prod.fst).Nodup) :
    (stackDates files).Pairwise (· < ·) ∧ (stackDates files).length = files.length ∧
      ∀ d, d ∈ stackDates files ↔ d ∈ files.map Prod.fst := by
  have hp : (stackDates files).Perm (files.map Prod.fst) := List.mergeSort_perm _ _
  refine ⟨?_, by rw [hp.length_eq, List.length_map], fun d => hp.mem_iff⟩
  have h1 : (stackDates files).Pairwise (· ≤ ·) := pairwise_sorted _
  exact (List.pairwise_and_iff.mpr ⟨h1, hp.nodup_iff.mpr h⟩).imp fun h => lt_of_le_of_ne h.1 h.2

theorem underscore_dateOf (l : List Char) : '_' ∉ (dateOf l).toList := by
  intro h
  have h1 : '_' ∈ (l.takeWhile (· ≠ '_')).take 8 := by simpa [dateOf] using h
  have key : ∀ m : List Char, '_' ∉ m.takeWhile (· ≠ '_') := by
    intro m
    induction m with
    | nil => simp
    | cons c m ih =>
      by_cases hc : c = '_'
      · simp [hc]
      · simp only [List.takeWhile_cons, ne_eq, hc, not_false_eq_true, decide_true, if_true,
          List.mem_cons, not_or]
        exact ⟨fun h => hc h.symm, by simpa using ih⟩
  exact key l (List.mem_of_mem_take h1)

/-- The second date as an exception-raising function. -/
def secondDateE (n : String) : Except PyErr String := do
  let w ← pyItem (splitUnderscore n.toList) 1
  pure (String.ofList (w.take 8))

theorem secondDateE_eq (n : String) : secondDateE n = match secondDate n with
    | none => .error .indexError
    | some d => .ok d := by
  unfold secondDateE secondDate
  rw [(split_head n.toList).2]
  cases afterUnderscore n.toList <;> rfl

/-- The scan of the sorted interferogram names. -/
def scanPhaseLinked (sl : List String) : Except PyErr SlcFiles :=
  match sl with
  | [] => .error .indexError
  | first :: _ => sl.foldlM (fun (acc : SlcFiles) slc => do
      if ¬ (dateOf first.toList).toList.isPrefixOf slc.toList then .error .valueError
      else do
        let acq ← secondDateE slc
        if acq ∈ acc.map Prod.fst then .error .valueError
        else pure (acc ++ [(acq, some slc)])) [(dateOf first.toList, none)]

theorem fromPhaseLinked_eq (folder : List String) : fromPhaseLinkedDirectory folder =
    if "temporal_coherence.tif" ∉ folder then .error .valueError
    else scanPhaseLinked ((endingIn folder ".int.tif").mergeSort (· ≤ ·)) := by
  unfold fromPhaseLinkedDirectory scanPhaseLinked
  simp only
  split
  · rfl
  · rw [show (folder.filter fun n => ".int.tif".toList.isSuffixOf n.toList) =
      endingIn folder ".int.tif" from rfl]
    generalize (endingIn folder ".int.tif").mergeSort (· ≤ ·) = sl
    cases sl with
    | nil => rfl
    | cons first rest =>
      simp only [(split_head first.toList).1, Bind.bind, Except.bind, secondDateE, dateOf]
      congr 1
      funext acc slc
      refine if_congr Iff.rfl rfl ?_
      generalize pyItem (splitUnderscore slc.toList) 1 = r
      cases r <;> rfl

/-- C35. `from_phase_linked_directory` succeeds exactly when the coherence file and at least
one `*.int.tif` exist, every interferogram name begins with the date of the first name (in
sorted order) and has a second date, and these dates are all different from each other and
from the first. Then the dates are strictly increasing; the reference date is the only one
without a file, and every interferogram is filed under its second date. -/
theorem C35_phase_linked (folder : List String) :
    ((∃ files, fromPhaseLinkedDirectory folder = .ok files) ↔
      "temporal_coherence.tif" ∈ folder ∧ ∃ first ∈ endingIn folder ".int.tif",
        (∀ n ∈ endingIn folder ".int.tif", first ≤ n) ∧
        (∀ n ∈ endingIn folder ".int.tif", (dateOf first.toList).toList <+: n.toList ∧
          ∃ d, secondDate n = some d) ∧
        (some (dateOf first.toList) :: (endingIn folder ".int.tif").map secondDate).Nodup) ∧
    ∀ files, fromPhaseLinkedDirectory folder = .ok files →
      ∃ first ∈ endingIn folder ".int.tif", (∀ n ∈ endingIn folder ".int.tif", first ≤ n) ∧
        (stackDates files).Pairwise (· < ·) ∧
        (stackDates files).length = (endingIn folder ".int.tif").length + 1 ∧
        (∀ d, d ∈ stackDates files ↔ d = dateOf first.toList ∨
          ∃ n ∈ endingIn folder ".int.tif", secondDate n = some d) ∧
        (∀ d, (d, none) ∈ files ↔ d = dateOf first.toList) ∧
        (∀ d n, (d, some n) ∈ files ↔ n ∈ endingIn folder ".int.tif" ∧ secondDate n = some d) ∧
        ∀ d ∈ stackDates files, '_' ∉ d.toList := by
  set ints := endingIn folder ".int.tif" with hints
  set sl := ints.mergeSort (· ≤ ·) with hsl
  have hperm : sl.Perm ints := List.mergeSort_perm _ _
  have hsorted : sl.Pairwise (· ≤ ·) := pairwise_sorted _
  -- rewriting the program
  have hprog : fromPhaseLinkedDirectory folder =
      if "temporal_coherence.tif" ∉ folder then .error .valueError
      else scanPhaseLinked sl := fromPhaseLinked_eq folder
  -- what success means
  have hok : ∀ files, fromPhaseLinkedDirectory folder = .ok files ↔
      "temporal_coherence.tif" ∈ folder ∧ ∃ first rest, sl = first :: rest ∧
        ∃ ds, sl.mapM secondDateE = .ok ds ∧
        (∀ n ∈ sl, (dateOf first.toList).toList.isPrefixOf n.toList = true) ∧
        (dateOf first.toList :: ds).Nodup ∧
        files = (dateOf first.toList, none) :: List.zipWith (fun d n => (d, some n)) ds sl := by
    intro files
    rw [hprog]
    split
    · rename_i h
      simp [h]
    · rename_i h
      cases hs : sl with
      | nil => simp [scanPhaseLinked]
      | cons first rest =>
        rw [show scanPhaseLinked (first :: rest) = (first :: rest).foldlM (fun (acc : SlcFiles) slc => do
            if ¬ (dateOf first.toList).toList.isPrefixOf slc.toList then .error .valueError
            else do
              let acq ← secondDateE slc
              if acq ∈ acc.map Prod.fst then .error .valueError
              else pure (acc ++ [(acq, some slc)])) [(dateOf first.toList, none)] from rfl]
        rw [← hs, scan_loop (fun n => (dateOf first.toList).toList.isPrefixOf n.toList) secondDateE sl
          [(dateOf first.toList, none)] files (by simp)]
        constructor
        · rintro ⟨ds, h1, h2, h3, h4⟩
          exact ⟨not_not.mp h, first, rest, hs, ds, h1, h2, by simpa using h3, by simpa using h4⟩
        · rintro ⟨_, f', r', he, ds, h1, h2, h3, h4⟩
          rw [hs] at he
          simp only [List.cons.injEq] at he
          obtain ⟨rfl, rfl⟩ := he
          exact ⟨ds, h1, h2, by simpa using h3, by simpa using h4⟩
  -- second dates of a successful scan
  have hds : ∀ ds, sl.mapM secondDateE = .ok ds → (∀ n ∈ sl, ∃ d, secondDate n = some d) ∧
      ds.map some = sl.map secondDate := by
    intro ds h
    have h1 : ∀ n ∈ sl, ∃ d, secondDate n = some d := by
      intro n hn
      obtain ⟨d, hd⟩ := mapM_ok_imp h n hn
      rw [secondDateE_eq] at hd
      cases hsd : secondDate n with
      | none => rw [hsd] at hd; simp at hd
      | some e => exact ⟨e, rfl⟩
    refine ⟨h1, ?_⟩
    have h2 : sl.mapM secondDateE = .ok (sl.map fun n => (secondDate n).getD "") := by
      apply mapM_eq_ok
      intro n hn
      obtain ⟨d, hd⟩ := h1 n hn
      rw [secondDateE_eq, hd]; rfl
    rw [h] at h2
    simp only [Except.ok.injEq] at h2
    rw [h2, List.map_map]
    apply List.map_congr_left
    intro n hn
    obtain ⟨d, hd⟩ := h1 n hn
    simp [hd]
  have hnodup : ∀ (f : String) (ds : List String), ds.map some = sl.map secondDate →
      ((f :: ds).Nodup ↔ (some f :: ints.map secondDate).Nodup) := by
    intro f ds h
    have : (some f :: ints.map secondDate).Perm ((f :: ds).map some) := by
      rw [List.map_cons, h]
      exact (hperm.symm.map _).cons _
    rw [this.nodup_iff]
    exact (List.nodup_map_iff (Option.some_injective _)).symm
  have hfirst : ∀ first rest, sl = first :: rest → first ∈ ints ∧ ∀ n ∈ ints, first ≤ n := by
    intro first rest hs
    refine ⟨hperm.mem_iff.mp (by rw [hs]; simp), fun n hn => ?_⟩
    have hn' := hperm.mem_iff.mpr hn
    rw [hs] at hn' hsorted
    rcases List.mem_cons.mp hn' with rfl | h
    · exact le_rfl
    · exact (List.pairwise_cons.mp hsorted).1 n h
  refine ⟨⟨?_, ?_⟩, ?_⟩
  · rintro ⟨files, hf⟩
    obtain ⟨hcoh, first, rest, hs, ds, h1, h2, h3, _⟩ := (hok files).mp hf
    obtain ⟨hm, hmin⟩ := hfirst first rest hs
    obtain ⟨hsd, heq⟩ := hds ds h1
    refine ⟨hcoh, first, hm, hmin, fun n hn => ⟨?_, hsd n (hperm.mem_iff.mpr hn)⟩,
      (hnodup _ ds heq).mp h3⟩
    exact List.isPrefixOf_iff_prefix.mp (h2 n (hperm.mem_iff.mpr hn))
  · rintro ⟨hcoh, first, hm, hmin, hpre, hnd⟩
    cases hs : sl with
    | nil =>
      exfalso
      have := hperm.mem_iff.mpr hm
      rw [hs] at this; simp at this
    | cons f0 rest =>
      obtain ⟨hm0, hmin0⟩ := hfirst f0 rest hs
      have he : f0 = first := le_antisymm (hmin0 first hm) (hmin f0 hm0)
      subst he
      have h2 : sl.mapM secondDateE = .ok (sl.map fun n => (secondDate n).getD "") := by
        apply mapM_eq_ok
        intro n hn
        obtain ⟨d, hd⟩ := (hpre n (hperm.mem_iff.mp hn)).2
        rw [secondDateE_eq, hd]; rfl
      refine ⟨_, (hok _).mpr ⟨hcoh, f0, rest, hs, _, h2, fun n hn => ?_, ?_, rfl⟩⟩
      · exact List.isPrefixOf_iff_prefix.mpr (hpre n (hperm.mem_iff.mp hn)).1
      · exact (hnodup _ _ (hds _ h2).2).mpr hnd
  · intro files hf
    obtain ⟨hcoh, first, rest, hs, ds, h1, h2, h3, h4⟩ := (hok files).mp hf
    obtain ⟨hm, hmin⟩ := hfirst first rest hs
    obtain ⟨hsd, heq⟩ := hds ds h1
    have hlen : ds.length = sl.length := by simpa using congrArg List.length heq
    have hkeys : files.map Prod.fst = dateOf first.toList :: ds := by
      rw [h4, List.map_cons]
      congr 1
      clear h1 h2 h3 h4 heq hs hsorted hok hprog
      generalize sl = l at hlen
      induction ds generalizing l with
      | nil => simp
      | cons d ds ih =>
        cases l with
        | nil => simp at hlen
        | cons n l => simp only [List.zipWith_cons_cons, List.map_cons]; rw [ih]; simpa using hlen
    have hfiles : ∀ d n, (d, some n) ∈ List.zipWith (fun d n => (d, some n)) ds sl ↔
        n ∈ sl ∧ secondDate n = some d := by
      clear h1 h2 h3 h4 hkeys hs hsorted hok hprog hds hfirst hsd hnodup
      generalize sl = l at hlen heq
      induction ds generalizing l with
      | nil =>
        intro d n
        cases l with
        | nil => simp
        | cons n l => simp at hlen
      | cons d0 ds ih =>
        intro d n
        cases l with
        | nil => simp at hlen
        | cons n0 l =>
          simp only [List.map_cons, List.cons.injEq] at heq
          simp only [List.zipWith_cons_cons, List.mem_cons, Prod.mk.injEq, Option.some.injEq]
          rw [ih l (by simpa using hlen) heq.2]
          constructor
          · rintro (⟨rfl, rfl⟩ | ⟨ha, hb⟩)
            · exact ⟨Or.inl rfl, heq.1.symm⟩
            · exact ⟨Or.inr ha, hb⟩
          · rintro ⟨rfl | ha, hb⟩
            · left
              rw [← heq.1] at hb
              simp only [Option.some.injEq] at hb
              exact ⟨hb.symm, rfl⟩
            · exact Or.inr ⟨ha, hb⟩
    have hdmem : ∀ d, d ∈ ds ↔ ∃ n ∈ ints, secondDate n = some d := by
      intro d
      have : d ∈ ds ↔ some d ∈ ds.map some := by simp
      rw [this, heq, List.mem_map]
      constructor
      · rintro ⟨n, hn, h⟩; exact ⟨n, hperm.mem_iff.mp hn, h⟩
      · rintro ⟨n, hn, h⟩; exact ⟨n, hperm.mem_iff.mpr hn, h⟩
    have hmem : ∀ d, d ∈ stackDates files ↔ d = dateOf first.toList ∨
          ∃ n ∈ ints, secondDate n = some d := by
      intro d
      rw [(stackDates_spec (by rw [hkeys]; exact h3)).2.2 d, hkeys, List.mem_cons, hdmem]
    obtain ⟨p1, p2, _⟩ := stackDates_spec (files := files) (by rw [hkeys]; exact h3)
    refine ⟨first, hm, hmin, p1, ?_, hmem, ?_, ?_, ?_⟩
    · rw [p2, ← List.length_map (f := Prod.fst), hkeys, List.length_cons, hlen, hperm.length_eq]
    · intro d
      rw [h4]
      constructor
      · intro h
        rcases List.mem_cons.mp h with h | h
        · exact (Prod.mk.inj h).1
        · exfalso
          obtain ⟨i, hi, he⟩ := List.mem_iff_getElem.mp h
          simp at he
      · rintro rfl; simp
    · intro d n
      rw [h4, List.mem_cons, hfiles]
      constructor
      · rintro (h | ⟨ha, hb⟩)
        · simp at h
        · exact ⟨hperm.mem_iff.mp ha, hb⟩
      · rintro ⟨ha, hb⟩; exact Or.inr ⟨hperm.mem_iff.mpr ha, hb⟩
    · intro d hd
      rcases (hmem d).mp hd with rfl | ⟨n, _, h⟩
      · exact underscore_dateOf _
      · unfold secondDate at h
        cases ha : afterUnderscore n.toList with
        | none => rw [ha] at h; simp at h
        | some t =>
          rw [ha] at h
          simp only [Option.map_some, Option.some.injEq] at h
          rw [← h]; exact underscore_dateOf _

/-- C35. `from_slc_directory` accepts exactly folders with the quality file in which all
`*.slc.tif` have different dates, and files every SLC under its date. -/
theorem C35_slc_directory (folder : List String) :
    ((∃ files, fromSlcDirectory folder = .ok files) ↔
      "inv_amp_dispersion.tif" ∈ folder ∧
        ((endingIn folder ".slc.tif").map fun n => dateOf n.toList).Nodup) ∧
    ∀ files, fromSlcDirectory folder = .ok files →
      (stackDates files).Pairwise (· < ·) ∧
      (stackDates files).length = (endingIn folder ".slc.tif").length ∧
      (∀ d, (d, none) ∉ files) ∧
      (∀ d n, (d, some n) ∈ files ↔ n ∈ endingIn folder ".slc.tif" ∧ dateOf n.toList = d) ∧
      ∀ d ∈ stackDates files, '_' ∉ d.toList := by
  set slcs := endingIn folder ".slc.tif" with hslcs
  set sl := slcs.mergeSort (· ≤ ·) with hsl
  have hperm : sl.Perm slcs := List.mergeSort_perm _ _
  have hok : ∀ files, fromSlcDirectory folder = .ok files ↔
      "inv_amp_dispersion.tif" ∈ folder ∧ (sl.map fun n => dateOf n.toList).Nodup ∧
        files = sl.map fun n => (dateOf n.toList, some n) := by
    intro files
    have hprog : fromSlcDirectory folder =
        if "inv_amp_dispersion.tif" ∉ folder then .error .valueError
        else sl.foldlM (fun (acc : SlcFiles) slc => do
            if ¬ true then .error .valueError
            else do
              let acq ← (.ok (dateOf slc.toList) : Except PyErr String)
              if acq ∈ acc.map Prod.fst then .error .valueError
              else pure (acc ++ [(acq, some slc)])) [] := by
      unfold fromSlcDirectory
      simp only
      split
      · rfl
      · rw [show (folder.filter fun n => ".slc.tif".toList.isSuffixOf n.toList) = slcs from rfl, ← hsl]
        congr 1
        funext acc slc
        simp only [(split_head slc.toList).1, Bind.bind, Except.bind, dateOf, not_true_eq_false, if_false]
        split <;> simp_all
    rw [hprog]
    split
    · rename_i h; simp [h]
    · rename_i h
      rw [scan_loop (fun _ => true) (fun slc => .ok (dateOf slc.toList)) sl [] files (by simp),
        mapM_eq_ok (f := fun slc : String => .ok (dateOf slc.toList))
          (g := fun n : String => dateOf n.toList) (fun _ _ => rfl)]
      have hz : List.zipWith (fun d n => (d, some n)) (sl.map fun n => dateOf n.toList) sl =
          sl.map fun n => (dateOf n.toList, some n) := by
        rw [List.zipWith_map_left, List.zipWith_self]
      constructor
      · rintro ⟨ds, h1, _, h3, h4⟩
        simp only [Except.ok.injEq] at h1
        subst h1
        exact ⟨not_not.mp h, by simpa using h3, by rw [h4, hz]; rfl⟩
      · rintro ⟨_, h1, h2⟩
        exact ⟨_, rfl, by simp, by simpa using h1, by rw [h2, hz]; rfl⟩
  have hnd : (sl.map fun n => dateOf n.toList).Nodup ↔ (slcs.map fun n => dateOf n.toList).Nodup :=
    (hperm.map _).nodup_iff
  refine ⟨⟨?_, ?_⟩, ?_⟩
  · rintro ⟨files, hf⟩
    obtain ⟨h1, h2, _⟩ := (hok files).mp hf
    exact ⟨h1, hnd.mp h2⟩
  · rintro ⟨h1, h2⟩
    exact ⟨_, (hok _).mpr ⟨h1, hnd.mpr h2, rfl⟩⟩
  · intro files hf
    obtain ⟨h1, h2, rfl⟩ := (hok files).mp hf
    have hk : (sl.map fun n => (dateOf n.toList, some n)).map Prod.fst =
        sl.map fun n => dateOf n.toList := by simp [Function.comp_def]
    obtain ⟨p1, p2, p3⟩ := stackDates_spec (files := sl.map fun n => (dateOf n.toList, some n))
      (by rw [hk]; exact h2)
    refine ⟨p1, by rw [p2, List.length_map, hperm.length_eq], by simp, ?_, ?_⟩
    · intro d n
      rw [← hperm.mem_iff]
      simp only [List.mem_map, Prod.mk.injEq, Option.some.injEq]
      constructor
      · rintro ⟨a, ha, rfl, rfl⟩; exact ⟨ha, rfl⟩
      · rintro ⟨ha, rfl⟩; exact ⟨n, ha, rfl, rfl⟩
    · intro d hd
      rw [p3, hk] at hd
      obtain ⟨n, _, rfl⟩ := List.mem_map.mp hd
      exact underscore_dateOf _

/-- C35. For dates written with the same number of digits the order of the strings is the
order of the numbers, so sorting the keys is sorting by date. -/
theorem C35_date_order (a b : String) (hl : a.toList.length = b.toList.length)
    (ha : ∀ c ∈ a.toList, c.isDigit) (hb : ∀ c ∈ b.toList, c.isDigit) :
    a < b ↔ Nat.ofDigitChars 10 a.toList 0 < Nat.ofDigitChars 10 b.toList 0 := by
  rw [String.lt_iff_toList_lt]
  have hdig : ∀ c : Char, c.isDigit → 48 ≤ c.toNat ∧ c.toNat ≤ 57 := by
    intro c h
    simp only [Char.isDigit, Bool.and_eq_true, decide_eq_true_eq] at h
    exact ⟨h.1, h.2⟩
  have key : ∀ (l m : List Char) (x y : Nat), l.length = m.length → (∀ c ∈ l, c.isDigit) →
      (∀ c ∈ m, c.isDigit) → (Nat.ofDigitChars 10 l x < Nat.ofDigitChars 10 m y ↔
        x < y ∨ x = y ∧ l < m) := by
    intro l
    induction l with
    | nil =>
      intro m x y h _ _
      cases m with
      | nil => simp
      | cons c m => simp at h
    | cons c l ih =>
      intro m x y h h1 h2
      cases m with
      | nil => simp at h
      | cons d m =>
        rw [Nat.ofDigitChars_cons, Nat.ofDigitChars_cons,
          ih m _ _ (by simpa using h) (fun c hc => h1 c (by simp [hc]))
            (fun c hc => h2 c (by simp [hc]))]
        have hc := hdig c (h1 c (by simp))
        have hd := hdig d (h2 d (by simp))
        rw [List.cons_lt_cons_iff, show c < d ↔ c.toNat < d.toNat from Iff.rfl, ← Char.toNat_inj]
        simp only [show '0'.toNat = 48 from rfl]
        constructor
        · rintro (h | ⟨h, h'⟩)
          · by_cases hxy : x < y
            · exact Or.inl hxy
            · right; exact ⟨by omega, Or.inl (by omega)⟩
          · right; exact ⟨by omega, Or.inr ⟨by omega, h'⟩⟩
        · rintro (h | ⟨h, h' | ⟨h', h''⟩⟩)
          · left; omega
          · left; omega
          · right; exact ⟨by omega, h''⟩
  rw [key _ _ 0 0 hl ha hb]
  simp

example : "20200101_20200113.int.tif" ≤ "20200101_20200125.int.tif" := by decide

/-- Non-vacuity of `C35_phase_linked`: two interferograms, listed out of order. -/
example : ∃ files, fromPhaseLinkedDirectory ["20200101_20200125.int.tif", "temporal_coherence.tif",
      "20200101_20200113.int.tif", "readme.txt"] = .ok files :=
  (C35_phase_linked _).1.mpr ⟨by decide, "20200101_20200113.int.tif", by decide, by decide, by
      simp only [← Option.isSome_iff_exists]; decide, by decide⟩

/-- A folder whose interferograms have different first dates is rejected. -/
example : ¬ ∃ files, fromPhaseLinkedDirectory ["20200101_20200125.int.tif", "temporal_coherence.tif",
      "20200113_20200125.int.tif"] = .ok files := by
  rw [(C35_phase_linked _).1]
  rintro ⟨_, first, hm, hmin, hpre, hnd⟩
  simp only [← Option.isSome_iff_exists] at hpre
  revert first
  decide

end Spurt
