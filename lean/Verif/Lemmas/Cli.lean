import Mathlib.Data.List.TakeWhile
import Verif.Spec.Cli
import Mathlib.Tactic.FinCases
import Mathlib.Data.List.Basic
import Mathlib.Data.List.Nodup

/-! # How the words of a command line are read -/

namespace Spurt
open Spec

theorem splitEq_none {w : List Char} : splitEq w = none ↔ '=' ∉ w := by
  induction w with
  | nil => simp [splitEq]
  | cons c cs ih =>
    by_cases h : c = '='
    · subst h; simp [splitEq]
    · rw [splitEq]
      · simp [ih, Ne.symm h]
      · exact h

theorem splitEq_some {w p v : List Char} : splitEq w = some (p, v) ↔ w = p ++ '=' :: v ∧ '=' ∉ p := by
  induction w generalizing p with
  | nil => simp [splitEq]
  | cons c cs ih =>
    by_cases h : c = '='
    · subst h
      simp only [splitEq, Option.some.injEq, Prod.mk.injEq]
      constructor
      · rintro ⟨rfl, rfl⟩; simp
      · rintro ⟨h1, h2⟩
        cases p with
        | nil => simpa using h1
        | cons a p =>
          simp only [List.cons_append, List.cons.injEq] at h1
          exact absurd h1.1 (fun h => h2 (h ▸ List.mem_cons_self))
    · rw [splitEq]
      · simp only [Option.map_eq_some_iff, Prod.exists, Prod.mk.injEq]
        constructor
        · rintro ⟨p', v', h1, rfl, rfl⟩
          obtain ⟨rfl, h2⟩ := ih.mp h1
          exact ⟨by simp, by simp [h2, Ne.symm h]⟩
        · rintro ⟨h1, h2⟩
          cases p with
          | nil => simp only [List.nil_append, List.cons.injEq] at h1; exact absurd h1.1 h
          | cons a p =>
            simp only [List.cons_append, List.cons.injEq] at h1
            obtain ⟨rfl, rfl⟩ := h1
            exact ⟨p, v, ih.mpr ⟨rfl, fun hc => h2 (by simp [hc])⟩, rfl, rfl⟩
      · exact h

/-! ### The table of options -/

theorem mem_options (name : String) (k : CliKey) : (name, k) ∈ options ↔ (name, some k) ∈ cliOptions := by
  simp [options, cliOptions]

theorem mem_names (name : String) : name ∈ optionNames ↔ ∃ k, (name, k) ∈ cliOptions := by
  have : optionNames = cliOptions.map Prod.fst := by decide +kernel
  rw [this, List.mem_map]
  exact ⟨fun ⟨o, h, e⟩ => ⟨o.2, by rw [← e]; exact h⟩, fun ⟨k, h⟩ => ⟨_, h, rfl⟩⟩

theorem names_nodup : (cliOptions.map Prod.fst).Nodup := by decide +kernel

theorem names_shape : ∀ o ∈ cliOptions, '=' ∉ o.1.toList ∧ ' ' ∉ o.1.toList ∧ o.1.toList.head? = some '-' ∧
    (o.1.toList.length = 2 ∨ o.1.toList.take 2 = ['-', '-'] ∧ 2 < o.1.toList.length) ∧ o.1.toList ≠ ['-', '-'] := by
  decide +kernel

theorem names_prefix : ∀ o ∈ cliOptions, ∀ o' ∈ cliOptions, 2 < o.1.toList.length → o.1.toList <+: o'.1.toList → o'.1 = o.1 := by
  decide +kernel

theorem lookup_iff {β : Type} [DecidableEq β] {l : List (String × β)} (h : (l.map Prod.fst).Nodup) (a : String) (b : β) :
    l.lookup a = some b ↔ (a, b) ∈ l := by
  induction l with
  | nil => simp
  | cons x l ih =>
    obtain ⟨y, z⟩ := x
    simp only [List.map_cons, List.nodup_cons] at h
    rw [List.lookup_cons]
    by_cases e : a = y
    · subst e
      simp only [beq_self_eq_true, Option.some.injEq, List.mem_cons, Prod.mk.injEq, true_and]
      constructor
      · rintro rfl; simp
      · rintro (rfl | h')
        · rfl
        · exact absurd (List.mem_map.mpr ⟨_, h', rfl⟩) h.1
    · have : (a == y) = false := by simpa using e
      simp only [this, ih h.2, List.mem_cons, Prod.mk.injEq, e, false_and, false_or]

theorem option_lookup (a : String) (k : Option CliKey) : cliOptions.lookup a = some k ↔ (a, k) ∈ cliOptions :=
  lookup_iff names_nodup a k

theorem lookup_none (a : String) : cliOptions.lookup a = none ↔ a ∉ optionNames := by
  rw [mem_names]
  constructor
  · rintro h ⟨k, hk⟩
    rw [(option_lookup a k).mpr hk] at h
    cases h
  · intro h
    cases e : cliOptions.lookup a with
    | none => rfl
    | some k => exact absurd ⟨k, (option_lookup a k).mp e⟩ h

theorem filter_single {α : Type} {l : List α} (h : l.Nodup) (P : α → Bool) (o : α) :
    l.filter P = [o] ↔ o ∈ l ∧ P o = true ∧ ∀ o' ∈ l, P o' = true → o' = o := by
  constructor
  · intro e
    have : ∀ x, x ∈ l.filter P ↔ x = o := fun x => by rw [e]; simp
    simp only [List.mem_filter] at this
    have ho := (this o).mpr rfl
    exact ⟨ho.1, ho.2, fun o' h1 h2 => (this o').mp ⟨h1, h2⟩⟩
  · rintro ⟨h1, h2, h3⟩
    have hn := h.filter P
    have hm : ∀ x, x ∈ l.filter P ↔ x = o := fun x => by
      rw [List.mem_filter]; exact ⟨fun hx => h3 x hx.1 hx.2, fun hx => by rw [hx]; exact ⟨h1, h2⟩⟩
    match hl : l.filter P with
    | [] => rw [hl] at hm; simp at hm
    | [x] => rw [hl] at hm; have := (hm x).mp (by simp); rw [this]
    | x :: y :: t =>
      rw [hl] at hm hn
      have e1 := (hm x).mp (by simp)
      have e2 := (hm y).mp (by simp)
      rw [e1, e2] at hn
      simp at hn

theorem options_nodup : cliOptions.Nodup := List.Nodup.of_map _ names_nodup

theorem filterMap_options {α β : Type} (l : List α) (P : α → Bool) (f : α → β) :
    (l.filterMap fun o => if P o then some (f o) else none) = (l.filter P).map f := by
  induction l with
  | nil => rfl
  | cons x l ih => by_cases h : P x = true <;> simp [h, ih]

/-- The options a word after two dashes is a prefix of. -/
theorem prefix_tuples (p : List Char) (e : Option String) :
    (∀ k v, (cliOptions.filterMap fun o => if p.isPrefixOf o.1.toList then some (o.2, e) else none) = [(k, v)] ↔
      v = e ∧ ∃ name, (name, k) ∈ cliOptions ∧ p <+: name.toList ∧ ∀ name' ∈ optionNames, p <+: name'.toList → name' = name) ∧
    ((cliOptions.filterMap fun o => if p.isPrefixOf o.1.toList then some (o.2, e) else none) = [] ↔
      ∀ name ∈ optionNames, ¬ p <+: name.toList) := by
  rw [filterMap_options cliOptions (fun o => p.isPrefixOf o.1.toList) (fun o => (o.2, e))]
  constructor
  · intro k v
    rw [List.map_eq_singleton_iff]
    constructor
    · rintro ⟨o, h1, h2⟩
      obtain ⟨h3, h4, h5⟩ := (filter_single options_nodup _ o).mp h1
      simp only [Prod.mk.injEq] at h2
      obtain ⟨rfl, rfl⟩ := h2
      refine ⟨rfl, o.1, h3, List.isPrefixOf_iff_prefix.mp h4, fun name' hn hp => ?_⟩
      obtain ⟨k', hk'⟩ := (mem_names name').mp hn
      have := h5 (name', k') hk' (List.isPrefixOf_iff_prefix.mpr hp)
      rw [← this]
    · rintro ⟨rfl, name, h1, h2, h3⟩
      refine ⟨(name, k), (filter_single options_nodup _ _).mpr ⟨h1, List.isPrefixOf_iff_prefix.mpr h2, fun o' ho' hp => ?_⟩, rfl⟩
      have e1 := h3 o'.1 ((mem_names _).mpr ⟨o'.2, ho'⟩) (List.isPrefixOf_iff_prefix.mp hp)
      have e2 : cliOptions.lookup o'.1 = some o'.2 := (option_lookup _ _).mpr ho'
      rw [e1, (option_lookup name k).mpr h1, Option.some.injEq] at e2
      exact Prod.ext e1 e2.symm
  · rw [List.map_eq_nil_iff, List.filter_eq_nil_iff]
    constructor
    · intro h name hn hp
      obtain ⟨k, hk⟩ := (mem_names name).mp hn
      exact h _ hk (List.isPrefixOf_iff_prefix.mpr hp)
    · intro h o ho hp
      exact h o.1 ((mem_names _).mpr ⟨o.2, ho⟩) (List.isPrefixOf_iff_prefix.mp hp)

/-- The option of the first two letters of a word after one dash. -/
theorem short_tuples (w : List Char) (h1 : w.head? = some '-') (h2 : w.length ≠ 1) (h3 : ¬ ['-', '-'] <+: w) (hx : String.ofList w ∉ optionNames) :
    optionTuples w = ((cliOptions.lookup (String.ofList (w.take 2))).map fun k => (k, some (String.ofList (w.drop 2)))).toList := by
  rcases w with _ | ⟨a, _ | ⟨c, rest⟩⟩
  · simp at h1
  · simp at h2
  · have ha : a = '-' := by simpa using h1
    subst ha
    have hc : c ≠ '-' := by rintro rfl; exact h3 (by simp)
    have e : optionTuples ('-' :: c :: rest) = cliOptions.filterMap fun o =>
        if decide (o.1 = String.ofList ['-', c]) then some (o.2, some (String.ofList rest)) else none := by
      rw [optionTuples]
      · refine List.filterMap_congr fun o ho => ?_
        by_cases ho2 : o.1 = String.ofList ['-', c]
        · simp [ho2]
        · have hne : o.1.toList ≠ ('-' :: c :: rest).take 2 := by
            intro h
            apply ho2
            rw [← String.ofList_toList (s := o.1), h]
            rfl
          rw [if_neg hne, if_neg (c := decide (o.1 = String.ofList ['-', c]) = true) (by rw [decide_eq_true_eq]; exact ho2), if_neg]
          intro hp
          rw [List.isPrefixOf_iff_prefix] at hp
          obtain ⟨t, ht⟩ := hp
          obtain ⟨_, _, _, hs, _⟩ := names_shape o ho
          rcases hs with hs | hs
          · rw [← ht] at hs
            have : rest = [] ∧ t = [] := by
              simp only [List.length_append, List.length_cons] at hs
              exact ⟨List.eq_nil_of_length_eq_zero (by omega), List.eq_nil_of_length_eq_zero (by omega)⟩
            obtain ⟨rfl, rfl⟩ := this
            exact hne (by rw [← ht]; rfl)
          · rw [← ht] at hs
            simp only [List.cons_append, List.take_succ_cons, List.take_zero, List.cons.injEq, and_true, true_and] at hs
            exact hc hs.1
      · intro t ht
        simp only [List.cons.injEq, true_and] at ht
        exact hc ht.1
    rw [e, filterMap_options]
    show _ = ((cliOptions.lookup (String.ofList ['-', c])).map fun k => (k, some (String.ofList rest))).toList
    cases hl : cliOptions.lookup (String.ofList ['-', c]) with
    | none =>
      simp only [Option.map_none, Option.toList_none, List.map_eq_nil_iff, List.filter_eq_nil_iff, decide_eq_true_eq]
      intro o ho he
      exact (lookup_none _).mp hl ((mem_names _).mpr ⟨o.2, by rw [← he]; exact ho⟩)
    | some k =>
      have hm := (option_lookup _ _).mp hl
      have : cliOptions.filter (fun o => decide (o.1 = String.ofList ['-', c])) = [(String.ofList ['-', c], k)] := by
        refine (filter_single options_nodup _ _).mpr ⟨hm, by simp, fun o' ho' h' => ?_⟩
        have he : o'.1 = String.ofList ['-', c] := by simpa using h'
        have e2 := (option_lookup _ _).mpr ho'
        rw [he, hl, Option.some.injEq] at e2
        exact Prod.ext he e2.symm
      rw [this]
      rfl

theorem begins_dash (w : String) : Begins "-" w ↔ w.toList.head? = some '-' := by
  show ['-'] <+: w.toList ↔ _
  cases w.toList <;> simp [eq_comm]

theorem ofList_append (a b : List Char) : String.ofList (a ++ b) = String.ofList a ++ String.ofList b := by
  rw [← String.toList_inj]; simp

theorem string_eq {a b : String} : a = b ↔ a.toList = b.toList := String.toList_inj.symm

theorem names_noeq {name : String} (h : name ∈ optionNames) : '=' ∉ name.toList := by
  obtain ⟨k, hk⟩ := (mem_names name).mp h
  exact (names_shape _ hk).1

theorem option_name {name : String} {k : CliKey} (h : (name, k) ∈ options) : name ∈ optionNames :=
  (mem_names name).mpr ⟨_, (mem_options _ _).mp h⟩

theorem name_noeq {o : String} {k : CliKey} (h : Names o k) : '=' ∉ o.toList := by
  rcases h with h | ⟨_, name, h1, h2, _⟩
  · exact names_noeq (option_name h)
  · exact fun hc => names_noeq (option_name h1) (h2.subset hc)

theorem name_dash {o : String} {k : CliKey} (h : Names o k) : o.toList.head? = some '-' := by
  rcases h with h | ⟨h, _⟩
  · exact (names_shape _ ((mem_options _ _).mp h)).2.2.1
  · obtain ⟨t, ht⟩ := h
    rw [← ht]; rfl

/-- A word read as an option of the table. -/
theorem classify_exact (w : String) (k : Option CliKey) (h : (w, k) ∈ cliOptions) :
    classify w = k.map fun k => .opt k none := by
  have h1 := (names_shape _ h).2.2.1
  unfold classify
  rw [if_neg (by simp only [ne_eq, not_not]; exact h1), (option_lookup w k).mpr h]

theorem two_dash_eq {w : List Char} (h : ['-', '-'] <+: w) : ∃ t, w = '-' :: '-' :: t := by
  obtain ⟨t, ht⟩ := h
  exact ⟨t, ht.symm⟩

/-- The words that are not an option of the table and have a dash in front. -/
theorem classify_other (w : String) (h0 : w.toList.head? = some '-') (hx : w ∉ optionNames) (h1 : w ≠ "-") :
    (∀ p v, splitEq w.toList = some (p, v) → ∀ k, (String.ofList p, k) ∈ cliOptions →
      classify w = k.map fun k => .opt k (some (String.ofList v))) ∧
    ((∀ p v, splitEq w.toList = some (p, v) → String.ofList p ∉ optionNames) →
      classify w = match optionTuples w.toList with
          | [] => if negativeNumber w.toList || decide (' ' ∈ w.toList) then some (.value w) else none
          | [(k, v)] => k.map fun k => .opt k v
          | _ => none) := by
  have hc : classify w = match (splitEq w.toList).bind fun r => (cliOptions.lookup (String.ofList r.1)).map fun k => (k, r.2) with
        | some (k, v) => k.map fun k => .opt k (some (String.ofList v))
        | none =>
          match optionTuples w.toList with
          | [] => if negativeNumber w.toList || decide (' ' ∈ w.toList) then some (.value w) else none
          | [(k, v)] => k.map fun k => .opt k v
          | _ => none := by
    unfold classify
    rw [if_neg (by simp [h0]), (lookup_none w).mpr hx, if_neg h1]
    rfl
  rw [hc]
  constructor
  · intro p v hs k hk
    rw [hs]
    simp only [Option.bind_some, (option_lookup _ _).mpr hk, Option.map_some]
  · intro h
    have : ((splitEq w.toList).bind fun r => (cliOptions.lookup (String.ofList r.1)).map fun k => (k, r.2)) = none := by
      cases hs : splitEq w.toList with
      | none => rfl
      | some r => simp only [Option.bind_some, (lookup_none _).mpr (h r.1 r.2 hs), Option.map_none]
    rw [this]

theorem ofList_inj {p : List Char} {name : String} (h : String.ofList p = name) : p = name.toList := by
  rw [← h, String.toList_ofList]

theorem begins_two {w : String} (h : Begins "--" w) : ['-', '-'] <+: w.toList := h

theorem ne_dash {w : String} (h : Begins "--" w) : w ≠ "-" := by
  rintro rfl
  exact absurd (begins_two h) (by decide)

theorem classify_names {o : String} {k : CliKey} (h : Names o k) : classify o = some (.opt k none) := by
  have hd := name_dash h
  have hne := name_noeq h
  rcases h with h | ⟨h2, name, h3, h4, h5⟩
  · exact classify_exact o _ ((mem_options _ _).mp h)
  · by_cases hx : o ∈ optionNames
    · have := h5 o hx (List.prefix_refl _)
      subst this
      exact classify_exact o _ ((mem_options _ _).mp h3)
    · have hs : splitEq o.toList = none := splitEq_none.mpr hne
      rw [(classify_other o hd hx (ne_dash h2)).2 (by rw [hs]; rintro p v ⟨⟩)]
      obtain ⟨t, ht⟩ := two_dash_eq (begins_two h2)
      have : optionTuples o.toList = [(some k, none)] := by
        have e := ((prefix_tuples o.toList none).1 (some k) none).mpr ⟨rfl, name, (mem_options _ _).mp h3, h4, h5⟩
        rw [ht] at e hs ⊢
        simp only [optionTuples, hs]
        exact e
      rw [this]
      rfl

theorem classify_equals {o : String} {k : CliKey} (h : Names o k) (v : String) :
    classify (o ++ "=" ++ v) = some (.opt k (some v)) := by
  have hd := name_dash h
  have hne := name_noeq h
  have hl : (o ++ "=" ++ v).toList = o.toList ++ '=' :: v.toList := by simp
  have hs : splitEq (o ++ "=" ++ v).toList = some (o.toList, v.toList) := splitEq_some.mpr ⟨hl, hne⟩
  have hx : o ++ "=" ++ v ∉ optionNames := fun hc => names_noeq hc (by rw [hl]; simp)
  have h0 : (o ++ "=" ++ v).toList.head? = some '-' := by
    rw [hl]
    cases ho : o.toList with
    | nil => rw [ho] at hd; simp at hd
    | cons a t => rw [ho] at hd; simpa using hd
  have h1 : o ++ "=" ++ v ≠ "-" := by
    intro hc
    have : '=' ∈ (o ++ "=" ++ v).toList := by rw [hl]; simp
    rw [hc] at this
    exact absurd this (by decide)
  obtain ⟨c1, c2⟩ := classify_other (o ++ "=" ++ v) h0 hx h1
  have exact : ∀ name, (name, k) ∈ options → name = o → classify (o ++ "=" ++ v) = some (.opt k (some v)) := by
    rintro name hn rfl
    have := c1 _ _ hs (some k) (by rw [String.ofList_toList]; exact (mem_options _ _).mp hn)
    rw [this, String.ofList_toList]
    rfl
  rcases h with h | ⟨h2, name, h3, h4, h5⟩
  · exact exact o h rfl
  · by_cases hx' : o ∈ optionNames
    · exact exact name h3 (h5 o hx' (List.prefix_refl _)).symm
    · rw [c2 (by
        rw [hs]
        rintro p v' ⟨⟩
        rw [String.ofList_toList]
        exact hx')]
      obtain ⟨t, ht⟩ := two_dash_eq (begins_two h2)
      have : optionTuples (o ++ "=" ++ v).toList = [(some k, some v)] := by
        have e := ((prefix_tuples o.toList (some v)).1 (some k) (some v)).mpr ⟨rfl, name, (mem_options _ _).mp h3, h4, h5⟩
        have e1 : (o ++ "=" ++ v).toList = '-' :: '-' :: (t ++ '=' :: v.toList) := by rw [hl, ht]; rfl
        rw [e1] at hs ⊢
        simp only [optionTuples, hs, String.ofList_toList]
        exact e
      rw [this]
      rfl

theorem short_letter {o : String} {k : Option CliKey} (h : (o, k) ∈ cliOptions) (hl : o.toList.length = 2) :
    ∃ c, c ≠ '-' ∧ o.toList = ['-', c] := by
  obtain ⟨_, _, h3, _, h5⟩ := names_shape _ h
  match ho : o.toList, hl with
  | [a, c], _ =>
    simp only [ho] at h3 h5
    have : a = '-' := by simpa using h3
    subst this
    exact ⟨c, fun hc => h5 (by rw [hc]), rfl⟩

theorem long_name {o : String} {k : Option CliKey} (h : (o, k) ∈ cliOptions) (hl : o.toList.length ≠ 2) : Begins "--" o := by
  obtain ⟨_, _, _, h4, _⟩ := names_shape _ h
  rcases h4 with h4 | h4
  · exact absurd h4 hl
  · have := List.take_prefix 2 o.toList
    rw [h4.1] at this
    exact this

/-- A name with one dash cannot continue in a name. -/
theorem short_not_name {c : Char} (hc : c ≠ '-') (t : List Char) (ht : t ≠ []) : String.ofList ('-' :: c :: t) ∉ optionNames := by
  intro hx
  obtain ⟨k, hk⟩ := (mem_names _).mp hx
  have := (names_shape _ hk).2.2.2.1
  simp only [String.toList_ofList, List.length_cons, List.take_succ_cons, List.take_zero, List.cons.injEq, and_true, true_and] at this
  rcases this with h | h
  · exact ht (List.eq_nil_of_length_eq_zero (by omega))
  · exact hc h.1

theorem classify_attached {o v : String} {k : CliKey} (h : (o, k) ∈ options) (hl : o.length = 2) (hv : v ≠ "") (he : ¬ Begins "=" v) :
    classify (o ++ v) = some (.opt k (some v)) := by
  have hm := (mem_options _ _).mp h
  obtain ⟨c, hc, ho⟩ := short_letter hm hl
  have hw : (o ++ v).toList = '-' :: c :: v.toList := by simp [ho]
  have hv' : v.toList ≠ [] := by
    intro e; apply hv; rw [string_eq, e]; rfl
  have hx : o ++ v ∉ optionNames := by
    rw [← String.ofList_toList (s := o ++ v), hw]
    exact short_not_name hc _ hv'
  have h0 : (o ++ v).toList.head? = some '-' := by rw [hw]; rfl
  have h1 : o ++ v ≠ "-" := by
    rw [ne_eq, string_eq, hw]
    intro e
    exact absurd (congrArg List.length e) (by simp)
  rw [(classify_other (o ++ v) h0 hx h1).2 ?_]
  · have h3 : ¬ ['-', '-'] <+: (o ++ v).toList := by
      rw [hw]
      rintro ⟨t, ht⟩
      simp only [List.cons_append, List.cons.injEq, true_and] at ht
      exact hc ht.1.symm
    rw [short_tuples _ h0 (by rw [hw]; simp) h3 (by rw [String.ofList_toList]; exact hx), hw]
    have e : String.ofList (('-' :: c :: v.toList).take 2) = o := by rw [string_eq, String.toList_ofList, ho]; rfl
    rw [e, (option_lookup _ _).mpr hm]
    simp
  · intro p v' hs hp
    obtain ⟨hs1, hs2⟩ := splitEq_some.mp hs
    rw [hw] at hs1
    match p, hs1 with
    | [], hs1 => simp at hs1
    | [a], hs1 =>
      obtain ⟨k', hk'⟩ := (mem_names _).mp hp
      have := (names_shape _ hk').2.2.2.1
      simp at this
    | [a, b], hs1 =>
      simp only [List.cons_append, List.nil_append, List.cons.injEq] at hs1
      exact he ⟨v', by rw [hs1.2.2]; rfl⟩
    | a :: b :: d :: t, hs1 =>
      simp only [List.cons_append, List.cons.injEq] at hs1
      obtain ⟨rfl, rfl, _⟩ := hs1
      exact short_not_name hc (d :: t) (by simp) hp

theorem negativeNumber_iff (w : String) : negativeNumber w.toList = true ↔ IsNegativeNumber w := by
  unfold IsNegativeNumber
  constructor
  · intro h
    cases e : w.toList with
    | nil => rw [e] at h; simp [negativeNumber] at h
    | cons c cs =>
      rw [e] at h
      by_cases hc : c = '-'
      · subst hc
        simp only [negativeNumber, Bool.or_eq_true, Bool.and_eq_true, decide_eq_true_eq, List.all_eq_true] at h
        rcases h with ⟨h1, h2⟩ | h
        · exact ⟨cs, h2, Or.inl ⟨h1, rfl⟩⟩
        · have hsplit := List.takeWhile_append_dropWhile (p := Char.isDigit) (l := cs)
          cases ed : cs.dropWhile Char.isDigit with
          | nil => rw [ed] at h; simp at h
          | cons d ds =>
            rw [ed] at h hsplit
            by_cases hd : d = '.'
            · subst hd
              simp only [Bool.and_eq_true, decide_eq_true_eq, List.all_eq_true] at h
              refine ⟨cs.takeWhile Char.isDigit, fun c hc => List.mem_takeWhile_imp hc, Or.inr ⟨ds, h.1, h.2, ?_⟩⟩
              rw [hsplit]
            · split at h
              · next h1 => simp only [List.cons.injEq] at h1; exact absurd h1.1 hd
              · cases h
      · unfold negativeNumber at h
        split at h
        · next h1 => simp only [List.cons.injEq] at h1; exact absurd h1.1 hc
        · cases h
  · rintro ⟨a, ha, ⟨h1, h2⟩ | ⟨b, h1, h2, h3⟩⟩
    · rw [h2]
      simp only [negativeNumber, Bool.or_eq_true, Bool.and_eq_true, decide_eq_true_eq, List.all_eq_true]
      exact Or.inl ⟨h1, ha⟩
    · rw [h3]
      simp only [negativeNumber, Bool.or_eq_true]
      right
      have : (a ++ '.' :: b).dropWhile Char.isDigit = '.' :: b := by
        rw [List.dropWhile_append_of_pos ha, List.dropWhile_cons_of_neg (by decide)]
      rw [this]
      simp only [Bool.and_eq_true, decide_eq_true_eq, List.all_eq_true]
      exact ⟨h1, h2⟩

theorem classify_value {v : String} (h : IsValue v) : classify v = some (.value v) := by
  by_cases h0 : v.toList.head? = some '-'
  swap
  · unfold classify
    rw [if_pos h0]
  rcases h with h | rfl | ⟨h1, h2⟩
  · exact absurd ((begins_dash v).mpr h0) h
  · decide +kernel
  · by_cases hdash : v = "-"
    · subst hdash; decide +kernel
    have hx : v ∉ optionNames := fun hc => (h2 v hc).1 rfl
    have hlen : v.toList.length ≠ 1 := by
      intro hl
      apply hdash
      rw [string_eq]
      match hv : v.toList, hl with
      | [a], _ => rw [hv] at h0; simpa using h0
    rw [(classify_other v h0 hx hdash).2 ?_]
    · have : optionTuples v.toList = [] := by
        by_cases h3 : ['-', '-'] <+: v.toList
        · obtain ⟨t, ht⟩ := two_dash_eq h3
          cases hs : splitEq v.toList with
          | none =>
            have e := (prefix_tuples v.toList none).2.mpr fun name hn => (h2 name hn).2.2 v "" (splitEq_none.mp hs) (Or.inl rfl) h3
            rw [ht] at e hs ⊢
            simp only [optionTuples, hs]
            exact e
          | some r =>
            obtain ⟨p, r⟩ := r
            obtain ⟨hs1, hs2⟩ := splitEq_some.mp hs
            have hp : Begins "--" (String.ofList p) := by
              show ['-', '-'] <+: (String.ofList p).toList
              rw [String.toList_ofList]
              rw [ht] at hs1
              match p, hs1, hs2 with
              | [], hs1, _ => simp at hs1
              | [a], hs1, _ => simp at hs1
              | a :: b :: q, hs1, _ =>
                simp only [List.cons_append, List.cons.injEq] at hs1
                obtain ⟨rfl, rfl, _⟩ := hs1
                exact ⟨q, rfl⟩
            have e := (prefix_tuples p (some (String.ofList r))).2.mpr fun name hn hpn =>
              (h2 name hn).2.2 (String.ofList p) (String.ofList r) (by simpa using hs2)
                (Or.inr (by rw [string_eq, hs1]; simp)) hp (by
                  show (String.ofList p).toList <+: _
                  rw [String.toList_ofList]; exact hpn)
            rw [ht] at hs ⊢
            simp only [optionTuples, hs]
            exact e
        · rw [short_tuples _ h0 hlen h3 (by rw [String.ofList_toList]; exact hx)]
          cases hl : cliOptions.lookup (String.ofList (v.toList.take 2)) with
          | none => rfl
          | some k =>
            exfalso
            have hm := (option_lookup _ _).mp hl
            have hn := (mem_names _).mpr ⟨k, hm⟩
            refine (h2 _ hn).2.1 ⟨?_, ?_⟩
            · rw [← String.length_toList, String.toList_ofList, List.length_take]
              have : v.toList ≠ [] := by intro e; rw [e] at h0; simp at h0
              have := List.length_pos_iff.mpr this
              omega
            · show (String.ofList _).toList <+: _
              rw [String.toList_ofList]
              exact List.take_prefix _ _
      rw [this]
      simp only [Bool.or_eq_true, decide_eq_true_eq, negativeNumber_iff, h1, if_true]
    · intro p r hs hp
      obtain ⟨hs1, hs2⟩ := splitEq_some.mp hs
      obtain ⟨k, hk⟩ := (mem_names _).mp hp
      by_cases hl : (String.ofList p).toList.length = 2
      · refine (h2 _ hp).2.1 ⟨hl, ?_⟩
        show (String.ofList p).toList <+: _
        rw [String.toList_ofList, hs1]
        exact List.prefix_append _ _
      · exact (h2 _ hp).2.2 (String.ofList p) (String.ofList r) (by simpa using hs2)
          (Or.inr (by rw [string_eq, hs1]; simp)) (long_name hk hl) (List.prefix_refl _)

/-- Every word that is read is read as a value or as a spelled option. -/
theorem classify_inv {w : String} {t : CliTok} (h : classify w = some t) :
    (t = .value w ∧ IsValue w) ∨ (∃ k, t = .opt k none ∧ Names w k) ∨
    ∃ k v, t = .opt k (some v) ∧ Spelled [w] k (some v) := by
  by_cases h0 : w.toList.head? = some '-'
  swap
  · unfold classify at h
    rw [if_pos h0, Option.some.injEq] at h
    exact Or.inl ⟨h.symm, Or.inl fun hc => h0 ((begins_dash w).mp hc)⟩
  by_cases hx : w ∈ optionNames
  · obtain ⟨k, hk⟩ := (mem_names w).mp hx
    rw [classify_exact w k hk, Option.map_eq_some_iff] at h
    obtain ⟨k', rfl, rfl⟩ := h
    exact Or.inr (Or.inl ⟨k', rfl, Or.inl ((mem_options _ _).mpr hk)⟩)
  by_cases hdash : w = "-"
  · subst hdash
    have : classify "-" = some (.value "-") := by decide +kernel
    rw [this, Option.some.injEq] at h
    exact Or.inl ⟨h.symm, Or.inr (Or.inl rfl)⟩
  obtain ⟨c1, c2⟩ := classify_other w h0 hx hdash
  by_cases hex : ∃ p v, splitEq w.toList = some (p, v) ∧ String.ofList p ∈ optionNames
  · obtain ⟨p, v, hs, hp⟩ := hex
    obtain ⟨k, hk⟩ := (mem_names _).mp hp
    rw [c1 p v hs k hk, Option.map_eq_some_iff] at h
    obtain ⟨k', rfl, rfl⟩ := h
    obtain ⟨hs1, hs2⟩ := splitEq_some.mp hs
    refine Or.inr (Or.inr ⟨k', String.ofList v, rfl, ?_⟩)
    have e : w = String.ofList p ++ "=" ++ String.ofList v := by rw [string_eq, hs1]; simp
    rw [e]
    exact .equals _ _ _ (Or.inl ((mem_options _ _).mpr hk))
  have hno : ∀ p v, splitEq w.toList = some (p, v) → String.ofList p ∉ optionNames := fun p v hs hp => hex ⟨p, v, hs, hp⟩
  rw [c2 hno] at h
  by_cases h3 : ['-', '-'] <+: w.toList
  · obtain ⟨t', ht⟩ := two_dash_eq h3
    cases hs : splitEq w.toList with
    | none =>
      have e : optionTuples w.toList = cliOptions.filterMap fun o => if w.toList.isPrefixOf o.1.toList then some (o.2, none) else none := by
        rw [ht] at hs ⊢
        simp only [optionTuples, hs]
      have hf := prefix_tuples w.toList none
      rw [← e] at hf
      split at h
      · rename_i ho
        split at h
        · rename_i hv
          rw [Option.some.injEq] at h
          refine Or.inl ⟨h.symm, Or.inr (Or.inr ⟨by simpa [negativeNumber_iff] using hv, fun name hn => ⟨fun hc => hx (hc ▸ hn), ?_, ?_⟩⟩)⟩
          · rintro ⟨hl, hb⟩
            obtain ⟨k, hk⟩ := (mem_names _).mp hn
            obtain ⟨c, hc, hoc⟩ := short_letter hk hl
            have hb : name.toList <+: w.toList := hb
            rw [hoc, ht] at hb
            obtain ⟨r, hr⟩ := hb
            simp only [List.cons_append, List.cons.injEq, true_and] at hr
            exact hc hr.1
          · rintro p rest hp (rfl | rfl) _ hb
            · exact hf.2.mp ho name hn hb
            · exact absurd (splitEq_none.mp hs) (by simp)
        · cases h
      · rename_i k v ho
        rw [Option.map_eq_some_iff] at h
        obtain ⟨k', rfl, rfl⟩ := h
        obtain ⟨rfl, name, n1, n2, n3⟩ := (hf.1 _ _).mp ho
        exact Or.inr (Or.inl ⟨k', rfl, Or.inr ⟨h3, name, (mem_options _ _).mpr n1, n2, n3⟩⟩)
      · cases h
    | some r =>
      obtain ⟨p, r⟩ := r
      obtain ⟨hs1, hs2⟩ := splitEq_some.mp hs
      have e : optionTuples w.toList =
          cliOptions.filterMap fun o => if p.isPrefixOf o.1.toList then some (o.2, some (String.ofList r)) else none := by
        rw [ht] at hs ⊢
        simp only [optionTuples, hs]
      have hf := prefix_tuples p (some (String.ofList r))
      rw [← e] at hf
      have hp2 : ['-', '-'] <+: p := by
        rw [ht] at hs1
        match p, hs1, hs2 with
        | [], hs1, _ => simp at hs1
        | [a], hs1, _ => simp at hs1
        | a :: b :: q, hs1, _ =>
          simp only [List.cons_append, List.cons.injEq] at hs1
          obtain ⟨rfl, rfl, _⟩ := hs1
          exact ⟨q, rfl⟩
      have ew : w = String.ofList p ++ "=" ++ String.ofList r := by rw [string_eq, hs1]; simp
      split at h
      · rename_i ho
        split at h
        · rename_i hv
          rw [Option.some.injEq] at h
          refine Or.inl ⟨h.symm, Or.inr (Or.inr ⟨by simpa [negativeNumber_iff] using hv, fun name hn => ⟨fun hc => hx (hc ▸ hn), ?_, ?_⟩⟩)⟩
          · rintro ⟨hl, hb⟩
            obtain ⟨k, hk⟩ := (mem_names _).mp hn
            obtain ⟨c, hc, hoc⟩ := short_letter hk hl
            have hb : name.toList <+: w.toList := hb
            rw [hoc, ht] at hb
            obtain ⟨r, hr⟩ := hb
            simp only [List.cons_append, List.cons.injEq, true_and] at hr
            exact hc hr.1
          · rintro p' rest hp (h' | h') _ hb
            · subst h'
              rw [splitEq_none.mpr hp] at hs
              cases hs
            · have e2 : splitEq w.toList = some (p'.toList, rest.toList) := splitEq_some.mpr ⟨by rw [h']; simp, hp⟩
              rw [hs, Option.some.injEq, Prod.mk.injEq] at e2
              refine hf.2.mp ho name hn ?_
              rw [e2.1]; exact hb
        · cases h
      · rename_i k v ho
        rw [Option.map_eq_some_iff] at h
        obtain ⟨k', rfl, rfl⟩ := h
        obtain ⟨rfl, name, n1, n2, n3⟩ := (hf.1 _ _).mp ho
        refine Or.inr (Or.inr ⟨k', _, rfl, ?_⟩)
        rw [ew]
        refine .equals _ _ _ (Or.inr ⟨?_, name, (mem_options _ _).mpr n1, ?_, fun name' hn' hb => n3 name' hn' ?_⟩)
        · show ['-', '-'] <+: (String.ofList p).toList
          rw [String.toList_ofList]; exact hp2
        · show (String.ofList p).toList <+: _
          rw [String.toList_ofList]; exact n2
        · have hb : (String.ofList p).toList <+: _ := hb
          rw [String.toList_ofList] at hb; exact hb
      · cases h
  · have hlen : w.toList.length ≠ 1 := by
      intro hl
      apply hdash
      rw [string_eq]
      match hv : w.toList, hl with
      | [a], _ => rw [hv] at h0; simpa using h0
    obtain ⟨c, v, hwv⟩ : ∃ c v, w.toList = '-' :: c :: v := by
      match hv : w.toList, h0, hlen with
      | [a], _, hl => simp at hl
      | a :: c :: v, h0, _ =>
        have : a = '-' := by simpa using h0
        exact ⟨c, v, by rw [this]⟩
    have hc : c ≠ '-' := by
      rintro rfl
      exact h3 ⟨v, by rw [hwv]; rfl⟩
    rw [short_tuples _ h0 hlen h3 (by rw [String.ofList_toList]; exact hx)] at h
    cases hl : cliOptions.lookup (String.ofList (w.toList.take 2)) with
    | none =>
      rw [hl] at h
      simp only [Option.map_none, Option.toList_none] at h
      split at h
      · rename_i hv
        rw [Option.some.injEq] at h
        refine Or.inl ⟨h.symm, Or.inr (Or.inr ⟨by simpa [negativeNumber_iff] using hv, fun name hn => ⟨fun hc => hx (hc ▸ hn), ?_, ?_⟩⟩)⟩
        · rintro ⟨hl2, hb⟩
          have hb : name.toList <+: w.toList := hb
          apply (lookup_none _).mp hl
          have : String.ofList (w.toList.take 2) = name := by
            rw [string_eq, String.toList_ofList, ← show name.toList.length = 2 from hl2]
            exact (List.prefix_iff_eq_take.mp hb).symm
          rw [this]; exact hn
        · rintro p rest hp (h' | h') hb2 _
          · subst h'; exact h3 hb2
          · apply h3
            obtain ⟨t2, ht2⟩ := begins_two hb2
            exact ⟨t2 ++ '=' :: rest.toList, by rw [h']; simp [← ht2]⟩
      · cases h
    | some k =>
      rw [hl] at h
      simp only [Option.map_some, Option.toList_some, Option.map_eq_some_iff] at h
      obtain ⟨k', rfl, rfl⟩ := h
      have hm := (option_lookup _ _).mp hl
      refine Or.inr (Or.inr ⟨k', _, rfl, ?_⟩)
      have ew : w = String.ofList (w.toList.take 2) ++ String.ofList (w.toList.drop 2) := by
        rw [← ofList_append, List.take_append_drop, String.ofList_toList]
      have hr : w.toList.drop 2 = v := by rw [hwv]; rfl
      have hv0 : v ≠ [] := by
        rintro rfl
        apply hx
        rw [ew, hr, show String.ofList [] = "" from rfl, String.append_empty]
        exact (mem_names _).mpr ⟨_, hm⟩
      have goal : Spelled [String.ofList (w.toList.take 2) ++ String.ofList (w.toList.drop 2)] k' (some (String.ofList (w.toList.drop 2))) := by
        refine .attached _ _ _ ((mem_options _ _).mpr hm) ?_ ?_ ?_
        · rw [← String.length_toList, String.toList_ofList, hwv]; rfl
        · rw [hr, ne_eq, string_eq, String.toList_ofList]; exact hv0
        · intro hb
          have hb : ['='] <+: (String.ofList (w.toList.drop 2)).toList := hb
          rw [String.toList_ofList, hr] at hb
          obtain ⟨r, hr2⟩ := hb
          have hs : splitEq w.toList = some (w.toList.take 2, r) := by
            refine splitEq_some.mpr ⟨by rw [hwv, ← hr2]; rfl, ?_⟩
            have := names_noeq ((mem_names _).mpr ⟨_, hm⟩)
            rwa [String.toList_ofList] at this
          exact hno _ _ hs ((mem_names _).mpr ⟨_, hm⟩)
      rw [← ew] at goal
      exact goal

end Spurt
