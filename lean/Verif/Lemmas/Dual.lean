import Verif.Spec.Mcf
import Verif.Lemmas.Graph

namespace Spurt
open Spec

theorem cycleSteps_eq_sides (c : List Nat) : cycleSteps c = sides c := by
  cases c with
  | nil => rfl
  | cons a l =>
    apply List.ext_getElem
    · simp [cycleSteps, sides]
    · intro i h1 h2
      simp only [cycleSteps, List.length_map, List.length_range, List.length_cons] at h1
      simp only [cycleSteps, sides, List.getElem_map, List.getElem_range, List.getElem_zip,
        List.length_cons, Prod.mk.injEq]
      constructor
      · simp [List.getD_eq_getElem?_getD, h1]
      · by_cases h : i + 1 < l.length + 1
        · rw [Nat.mod_eq_of_lt h, List.getElem_append_left (by omega)]
          simp [List.getD_eq_getElem?_getD, show i < l.length by omega]
        · have : i = l.length := by omega
          subst this
          simp

/-! ## the dictionary -/

theorem foldl_setAdd_nodup (l acc : List (Nat × Nat)) (h : (acc ++ l).Nodup) :
    l.foldl setAdd acc = acc ++ l := by
  induction l generalizing acc with
  | nil => simp
  | cons x l ih =>
    have hx : x ∉ acc := by
      intro hx
      rw [List.nodup_append] at h
      exact h.2.2 x hx x (by simp) rfl
    have : setAdd acc x = acc ++ [x] := by simp [setAdd, hx]
    rw [List.foldl_cons, this, ih _ (by simpa using h)]
    simp

theorem dictInit_eq (links : List (Nat × Nat)) (h : links.Nodup) :
    dictInit links = links.map fun l => (l, []) := by
  unfold dictInit
  rw [foldl_setAdd_nodup links [] (by simpa using h)]; simp

/-- The value appended by one step. -/
def stepVal (st : Nat × (Nat × Nat)) : Nat × ℤ :=
  (st.1 + 1, signNonzero ((st.2.2 : ℤ) - (st.2.1 : ℤ)))

def stepsFor (steps : List (Nat × (Nat × Nat))) (k : Nat × Nat) : List (Nat × ℤ) :=
  steps.filterMap fun st => if orderPoints st.2 = k then some (stepVal st) else none

def dictOf (links : List (Nat × Nat)) (o : Nat × Nat → List (Nat × ℤ)) : EdgeDict :=
  links.map fun k => (k, o k)

theorem dictAppend_dictOf (links : List (Nat × Nat)) (o : Nat × Nat → List (Nat × ℤ))
    (k : Nat × Nat) (v : Nat × ℤ) :
    dictAppend (dictOf links o) k v =
      if k ∈ links then .ok (dictOf links fun e => if e = k then o e ++ [v] else o e)
      else .error .keyError := by
  unfold dictAppend dictOf
  have : (List.map (fun k => (k, o k)) links).any (fun e => e.1 == k) = decide (k ∈ links) := by
    rw [Bool.eq_iff_iff]
    simp only [List.any_eq_true, List.mem_map, decide_eq_true_eq]
    constructor
    · rintro ⟨x, ⟨a, ha, rfl⟩, h⟩
      simp only [beq_iff_eq] at h
      exact h ▸ ha
    · intro h; exact ⟨(k, o k), ⟨k, h, rfl⟩, by simp⟩
  rw [this]
  by_cases h : k ∈ links
  · simp only [h, decide_true, if_true, List.map_map, Except.ok.injEq]
    apply List.map_congr_left
    intro e _
    simp only [Function.comp]
    split <;> rfl
  · simp [h]

def stepFn (d : EdgeDict) (st : Nat × (Nat × Nat)) : Except PyErr EdgeDict :=
  dictAppend d (orderPoints st.2) (stepVal st)

theorem foldlM_dict (links : List (Nat × Nat)) (steps : List (Nat × (Nat × Nat)))
    (o : Nat × Nat → List (Nat × ℤ)) :
    steps.foldlM stepFn (dictOf links o) =
      if ∀ st ∈ steps, orderPoints st.2 ∈ links then
        .ok (dictOf links fun e => o e ++ stepsFor steps e)
      else .error .keyError := by
  induction steps generalizing o with
  | nil => simp [stepsFor, pure, Except.pure]
  | cons st steps ih =>
    rw [List.foldlM_cons]
    unfold stepFn
    rw [dictAppend_dictOf]
    by_cases h : orderPoints st.2 ∈ links
    · simp only [h, if_true, List.forall_mem_cons, true_and]
      show (List.foldlM stepFn _ steps) = _
      rw [ih]
      by_cases h2 : ∀ st ∈ steps, orderPoints st.2 ∈ links
      · rw [if_pos h2, if_pos h2]
        congr 2
        funext e
        unfold stepsFor
        rw [List.filterMap_cons]
        by_cases he : e = orderPoints st.2
        · subst he; simp
        · have : ¬ orderPoints st.2 = e := fun h => he h.symm
          simp [he, this]
      · rw [if_neg h2, if_neg h2]
    · simp [h, Bind.bind, Except.bind]

def allSteps (cycles : List (List Nat)) : List (Nat × (Nat × Nat)) :=
  cycles.zipIdx.flatMap fun ck => (sides ck.1).map fun s => (ck.2, s)

theorem stepsFor_allSteps (cycles : List (List Nat)) (a b : Nat) (hab : a ≤ b) :
    stepsFor (allSteps cycles) (a, b) = traversals cycles a b := by
  unfold stepsFor allSteps traversals
  rw [List.filterMap_flatMap]
  congr 1
  funext ck
  rw [List.filterMap_map]
  congr 1
  funext ⟨x, y⟩
  simp only [Function.comp, orderPoints, stepVal, signNonzero, Prod.mk.injEq]
  by_cases hxy : x ≤ y
  · simp only [hxy, if_true, Prod.mk.injEq]
    by_cases h : x = a ∧ y = b
    · obtain ⟨rfl, rfl⟩ := h
      by_cases hlt : x < y
      · have h0 : ((y : ℤ) - (x : ℤ) > 0) := by omega
        simp only [hlt, h0, and_self, if_true]
      · have : x = y := by omega
        subst this
        simp
    · rw [if_neg h, if_neg (by tauto), if_neg (by omega)]
  · simp only [hxy, if_false, Prod.mk.injEq]
    by_cases h : y = a ∧ x = b
    · obtain ⟨rfl, rfl⟩ := h
      rw [if_pos (by simp), if_neg (by omega), if_neg (by omega), if_pos (by simp)]
    · rw [if_neg h, if_neg (by omega), if_neg (by omega)]

theorem allSteps_forall (cycles : List (List Nat)) (P : Nat × Nat → Prop) :
    (∀ st ∈ allSteps cycles, P st.2) ↔ ∀ s ∈ walked cycles, P s := by
  simp only [allSteps, walked, List.mem_flatMap, List.mem_map]
  constructor
  · rintro h s ⟨c, hc, hs⟩
    obtain ⟨k, hk, rfl⟩ := List.mem_iff_getElem.mp hc
    exact h (k, s) ⟨(cycles[k], k), by simp [List.mem_zipIdx_iff_getElem?, hk], s, hs, rfl⟩
  · rintro h st ⟨⟨c, k⟩, hck, s, hs, rfl⟩
    exact h s ⟨c, by
      rw [List.mem_zipIdx_iff_getElem?] at hck
      exact List.mem_of_getElem? hck, hs⟩

theorem prepareDual_unfold (g : PlanarGraph) (hnd : g.links.Nodup) :
    prepareDual g =
      if ∀ s ∈ walked g.cycles, orderPoints s ∈ g.links then
        ((dictOf g.links (stepsFor (allSteps g.cycles))).mapM fun e => dualRow e.2) >>=
          fun rows => pure (rows ++ List.replicate (g.links.length - rows.length) ⟨0, 0, 0, 0⟩)
      else .error .keyError := by
  unfold prepareDual
  have h1 : (g.cycles.zipIdx.flatMap fun x => match x with
      | (cyc, icyc) => (cycleSteps cyc).map fun s => (icyc, s)) = allSteps g.cycles := by
    unfold allSteps
    congr 1
    funext ck
    obtain ⟨c, k⟩ := ck
    simp only [cycleSteps_eq_sides]
  have h2 : dictInit g.links = dictOf g.links fun _ => [] := by
    rw [dictInit_eq _ hnd]; rfl
  simp only [h1, h2]
  have h3 := foldlM_dict g.links (allSteps g.cycles) fun _ => []
  have h4 : (fun (d : EdgeDict) (x : Nat × (Nat × Nat)) => match x with
      | (icyc, s) => dictAppend d (orderPoints s)
        (icyc + 1, signNonzero ((s.2 : ℤ) - (s.1 : ℤ)))) = stepFn := by
    funext d ⟨i, s⟩; rfl
  rw [h4, h3]
  simp only [allSteps_forall g.cycles fun s => orderPoints s ∈ g.links, List.nil_append]
  split <;> rfl

theorem mapM_ok_of {α β : Type} (l : List α) (f : α → Except PyErr β) (r : α → β)
    (h : ∀ x ∈ l, f x = .ok (r x)) : l.mapM f = .ok (l.map r) := by
  induction l with
  | nil => rfl
  | cons x l ih =>
    rw [List.mapM_cons, h x (by simp), ih (fun y hy => h y (by simp [hy]))]; rfl

theorem mapM_ok_inv {α β : Type} (l : List α) (f : α → Except PyErr β) (rs : List β)
    (h : l.mapM f = .ok rs) : ∀ x ∈ l, ∃ y, f x = .ok y := by
  induction l generalizing rs with
  | nil => simp
  | cons x l ih =>
    rw [List.mapM_cons] at h
    cases hx : f x with
    | error e => rw [hx] at h; simp [Bind.bind, Except.bind] at h
    | ok y =>
      rw [hx] at h
      cases hl : l.mapM f with
      | error e => rw [hl] at h; simp [Bind.bind, Except.bind] at h
      | ok ys =>
        intro z hz
        rcases List.mem_cons.mp hz with rfl | hz
        · exact ⟨y, hx⟩
        · exact ih ys hl z hz

/-- What the dual row of a link should be, from its traversals. -/
def rowOf (ts : List (Nat × ℤ)) : DualRow :=
  match ts with
  | [t, u] => ⟨t.1, u.1, t.2, u.2⟩
  | [t] => ⟨t.1, 0, t.2, 0⟩
  | _ => ⟨0, 0, 0, 0⟩

theorem dualRow_ok {vv : List (Nat × ℤ)} {r : DualRow} :
    dualRow vv = .ok r ↔ (vv.length = 1 ∨ vv.length = 2) ∧ r = rowOf vv := by
  rcases vv with _ | ⟨a, _ | ⟨b, _ | ⟨c, l⟩⟩⟩
  · simp [dualRow]
  · simp [dualRow, rowOf, eq_comm]
  · simp [dualRow, rowOf, eq_comm]
  · simp [dualRow]

def linkTraversals (cycles : List (List Nat)) (l : Nat × Nat) : List (Nat × ℤ) :=
  traversals cycles l.1 l.2

/-- Full characterisation of `_prepare_dual` for distinct, ordered links. -/
theorem prepareDual_ok_iff (g : PlanarGraph) (hnd : g.links.Nodup)
    (hord : ∀ l ∈ g.links, l.1 ≤ l.2) (rows : List DualRow) :
    prepareDual g = .ok rows ↔
      (∀ s ∈ walked g.cycles, s ∈ g.links ∨ s.swap ∈ g.links) ∧
      (∀ l ∈ g.links, (linkTraversals g.cycles l).length = 1 ∨
        (linkTraversals g.cycles l).length = 2) ∧
      rows = g.links.map fun l => rowOf (linkTraversals g.cycles l) := by
  rw [prepareDual_unfold g hnd]
  have hside : (∀ s ∈ walked g.cycles, orderPoints s ∈ g.links) ↔
      (∀ s ∈ walked g.cycles, s ∈ g.links ∨ s.swap ∈ g.links) := by
    refine forall_congr' fun s => imp_congr_right fun _ => ?_
    constructor
    · intro h
      rcases orderPoints_eq_or s with h' | h' <;> rw [h'] at h <;> tauto
    · obtain ⟨x, y⟩ := s
      rintro (h | h)
      · have := hord _ h
        have e : orderPoints (x, y) = (x, y) := by
          simp only at this
          simp [orderPoints, this]
        rw [e]; exact h
      · have := hord _ h
        simp only [Prod.swap] at this h
        rcases Nat.lt_or_ge y x with hlt | hge
        · rw [orderPoints_of_gt hlt]; exact h
        · have : x = y := by omega
          subst this
          simpa [orderPoints] using h
  have htr : ∀ l ∈ g.links, stepsFor (allSteps g.cycles) l = linkTraversals g.cycles l := by
    intro l hl
    exact stepsFor_allSteps g.cycles l.1 l.2 (hord l hl)
  have hdict : dictOf g.links (stepsFor (allSteps g.cycles)) =
      g.links.map fun l => (l, linkTraversals g.cycles l) := by
    unfold dictOf
    apply List.map_congr_left
    intro l hl; rw [htr l hl]
  rw [hdict]
  constructor
  · intro h
    split at h
    · rename_i hs
      cases hm : (g.links.map fun l => (l, linkTraversals g.cycles l)).mapM
          (fun e => dualRow e.2) with
      | error e => rw [hm] at h; simp [Bind.bind, Except.bind] at h
      | ok rs =>
        have hlen : ∀ l ∈ g.links, (linkTraversals g.cycles l).length = 1 ∨
            (linkTraversals g.cycles l).length = 2 := by
          intro l hl
          obtain ⟨y, hy⟩ := mapM_ok_inv _ _ _ hm (l, linkTraversals g.cycles l)
            (List.mem_map.mpr ⟨l, hl, rfl⟩)
          exact (dualRow_ok.mp hy).1
        refine ⟨hside.mp hs, hlen, ?_⟩
        have := mapM_ok_of (g.links.map fun l => (l, linkTraversals g.cycles l))
          (fun e => dualRow e.2) (fun e => rowOf e.2) (by
            intro e he
            obtain ⟨l, hl, rfl⟩ := List.mem_map.mp he
            exact dualRow_ok.mpr ⟨hlen l hl, rfl⟩)
        rw [this] at h
        simp only [List.map_map, Bind.bind, Except.bind, pure, Except.pure,
          Except.ok.injEq] at h
        rw [← h]
        simp
    · simp at h
  · rintro ⟨hs, hlen, rfl⟩
    rw [if_pos (hside.mpr hs)]
    rw [mapM_ok_of (g.links.map fun l => (l, linkTraversals g.cycles l))
          (fun e => dualRow e.2) (fun e => rowOf e.2) (by
            intro e he
            obtain ⟨l, hl, rfl⟩ := List.mem_map.mp he
            exact dualRow_ok.mpr ⟨hlen l hl, rfl⟩)]
    simp only [List.map_map, Bind.bind, Except.bind, pure, Except.pure, Except.ok.injEq]
    simp

end Spurt
