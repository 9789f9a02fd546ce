import Verif.Lemmas.FloatCube

/-! # Rounded accumulation of the gradients around cycles -/

namespace Spurt
open Spec Finset

/-! ### How often a cycle receives a contribution -/

/-- Number of contributions of a dual row to dual node `k`. -/
def touch (r : DualRow) (k : Nat) : Nat := (if r.c0 = k then 1 else 0) + (if r.c1 = k then 1 else 0)

def travCnt (ts : List (Nat × ℤ)) (k : Nat) : Nat := (ts.map fun t => if t.1 = k then 1 else 0).sum

/-- Number of times the sides run along link `l`, in either direction. -/
def runs (s : List (Nat × Nat)) (l : Nat × Nat) : Nat := (s.map fun x => if x = l ∨ x = l.swap then 1 else 0).sum

theorem travCnt_sides (a b k j : Nat) (hab : a < b) (s : List (Nat × Nat)) :
    travCnt (s.filterMap (travStep a b k)) (j + 1) = if k = j then runs s (a, b) else 0 := by
  induction s with
  | nil => simp [travCnt, runs]
  | cons x s ih =>
    rw [List.filterMap_cons]
    have hcons : ∀ (t : Nat × ℤ) (ts : List (Nat × ℤ)), travCnt (t :: ts) (j + 1) =
        (if t.1 = j + 1 then 1 else 0) + travCnt ts (j + 1) := by
      intro t ts; simp [travCnt]
    have hruns : runs (x :: s) (a, b) = (if x = (a, b) ∨ x = (b, a) then 1 else 0) + runs s (a, b) := by
      simp [runs]
    by_cases h1 : x = (a, b)
    · have : travStep a b k x = some (k + 1, 1) := by simp [travStep, h1, hab]
      rw [this]
      rw [hruns, if_pos (Or.inl h1)]
      simp only [hcons, ih]
      by_cases hk : k = j <;> simp [hk]
    · by_cases h2 : x = (b, a)
      · have : travStep a b k x = some (k + 1, -1) := by
          subst h2; simp [travStep]; omega
        rw [this]
        rw [hruns, if_pos (Or.inr h2)]
        simp only [hcons, ih]
        by_cases hk : k = j <;> simp [hk]
      · have : travStep a b k x = none := by simp [travStep, h1, h2]
        rw [this]
        simp only [ih, hruns, h1, h2, or_self, if_false, zero_add]

theorem travCnt_append (a b : List (Nat × ℤ)) (k : Nat) : travCnt (a ++ b) k = travCnt a k + travCnt b k := by
  simp [travCnt]

theorem travCnt_traversals (cycles : List (List Nat)) (a b j : Nat) (hab : a < b) (hj : j < cycles.length) :
    travCnt (traversals cycles a b) (j + 1) = runs (sides cycles[j]) (a, b) := by
  have gen : ∀ (cs : List (List Nat)) (n : Nat),
      travCnt ((cs.zipIdx n).flatMap fun ck => (sides ck.1).filterMap (travStep a b ck.2)) (j + 1)
      = if h : n ≤ j ∧ j - n < cs.length then runs (sides (cs[j - n]'h.2)) (a, b) else 0 := by
    intro cs
    induction cs with
    | nil => intro n; simp [travCnt]
    | cons c cs ih =>
      intro n
      rw [List.zipIdx_cons, List.flatMap_cons, travCnt_append, ih (n + 1), travCnt_sides _ _ _ _ hab]
      by_cases hn : n = j
      · subst hn
        simp
      · rw [if_neg hn, zero_add]
        by_cases h : n ≤ j ∧ j - n < (c :: cs).length
        · have h' : n + 1 ≤ j ∧ j - (n + 1) < cs.length := by
            simp only [List.length_cons] at h; omega
          rw [dif_pos h, dif_pos h']
          congr 2
          have : j - n = (j - (n + 1)) + 1 := by omega
          simp [this]
        · have h' : ¬ (n + 1 ≤ j ∧ j - (n + 1) < cs.length) := by
            simp only [List.length_cons] at h; omega
          rw [dif_neg h, dif_neg h']
  have := gen cycles 0
  rw [dif_pos ⟨Nat.zero_le _, by omega⟩] at this
  exact this

/-- A cycle receives at most one contribution per side. -/
theorem touch_le {g : PlanarGraph} (hc : PlanarContract g.npoints g.links g.cycles) {k : Nat} (hk : k < g.cycles.length) :
    ((g.links.map fun l => touch (rowOf (linkTraversals g.cycles l)) (k + 1)).sum) ≤ (g.cycles[k]).length := by
  have h1 : (g.links.map fun l => touch (rowOf (linkTraversals g.cycles l)) (k + 1)) =
      g.links.map fun l => runs (sides g.cycles[k]) l := by
    apply List.map_congr_left
    rintro ⟨a, b⟩ hl
    have h := (goodRow_rowOf hc hl).1
    rw [← travCnt_traversals g.cycles a b k (hc.ordered a b hl).1 hk]
    unfold linkTraversals at h ⊢
    simp only at h ⊢
    generalize traversals g.cycles a b = ts at *
    rcases ts with _ | ⟨t, _ | ⟨u, _ | ⟨v, l⟩⟩⟩
    · simp at h
    · simp [rowOf, touch, travCnt]; rfl
    · simp [rowOf, touch, travCnt]; rfl
    · simp at h
  rw [h1]
  have h2 : ∀ s : List (Nat × Nat), (g.links.map fun l => runs s l).sum ≤ s.length := by
    intro s
    induction s with
    | nil => simp [runs]
    | cons x s ih =>
      have e : (g.links.map fun l => runs (x :: s) l) =
          g.links.map fun l => (if x = l ∨ x = l.swap then 1 else 0) + runs s l := by
        apply List.map_congr_left
        intro l _
        simp [runs]
      rw [e, List.sum_map_add, List.length_cons]
      have one : ∀ ls : List (Nat × Nat), ls.Nodup → (∀ l ∈ ls, l.1 < l.2) →
          (ls.map fun l => if x = l ∨ x = l.swap then 1 else 0).sum ≤ 1 := by
        intro ls hnd hlt
        induction ls with
        | nil => simp
        | cons l ls ih' =>
          rw [List.nodup_cons] at hnd
          rw [List.map_cons, List.sum_cons]
          by_cases h : x = l ∨ x = l.swap
          · rw [if_pos h]
            have : (ls.map fun l => if x = l ∨ x = l.swap then 1 else 0).sum = 0 := by
              apply List.sum_eq_zero
              intro y hy
              obtain ⟨l', hl', rfl⟩ := List.mem_map.mp hy
              rw [if_neg]
              have a1 := hlt l (by simp)
              have a2 := hlt l' (by simp [hl'])
              have a3 : l ≠ l' := fun he => hnd.1 (he ▸ hl')
              rcases l with ⟨p, q⟩
              rcases l' with ⟨p', q'⟩
              rcases x with ⟨y1, y2⟩
              simp only [Prod.swap, Prod.mk.injEq, ne_eq] at *
              omega
            omega
          · rw [if_neg h, zero_add]
            exact ih' hnd.2 fun l hl => hlt l (by simp [hl])
      have := one g.links hc.distinct (fun l hl => (hc.ordered l.1 l.2 hl).1)
      have e2 : (List.map (runs s) g.links).sum = (List.map (fun l => runs s l) g.links).sum := rfl
      omega
  refine (h2 _).trans ?_
  have : (sides g.cycles[k]).length = (g.cycles[k]).length := by
    rw [← List.length_map (f := Prod.fst), sides_fst]
  omega

/-! ### Rounded accumulation -/

section
variable {K : Type} [Field K] [LinearOrder K] [IsStrictOrderedRing K] [FloorRing K]

/-- Adding the values `p.2` to the entries `p.1` one after the other, rounding each time. -/
def accFl (fl : K → K) (acc : List K) (ops : List (Nat × K)) : List K :=
  ops.foldl (fun acc p => acc.modify p.1 (fun x => fl (x + p.2))) acc

omit [LinearOrder K] [IsStrictOrderedRing K] [FloorRing K] in
theorem getD_modify_fl (fl : K → K) (acc : List K) (j k : Nat) (v : K) (hk : k < acc.length) :
    (acc.modify j (fun x => fl (x + v))).getD k 0 = if j = k then fl (acc.getD k 0 + v) else acc.getD k 0 := by
  have hk2 : k < (acc.modify j (fun x => fl (x + v))).length := by simpa using hk
  simp only [List.getD_eq_getElem?_getD, List.getElem?_eq_getElem hk,
    List.getElem?_eq_getElem hk2, Option.getD_some, List.getElem_modify]

/-- The contributions to entry `k`. -/
def toEntry (k : Nat) (ops : List (Nat × K)) : K := (ops.map fun p => if p.1 = k then p.2 else 0).sum

/-- Their number. -/
def numEntry (k : Nat) (ops : List (Nat × K)) : Nat := (ops.map fun p => if p.1 = k then 1 else 0).sum

theorem accFl_near {fl : K → K} {B η V : K} (hr : Rounds fl B η) (h0 : 0 ≤ η) (hV : 0 ≤ V) (k : Nat) (ops : List (Nat × K))
    (hops : ∀ p ∈ ops, p.1 = k → |p.2| ≤ V) : ∀ acc : List K, k < acc.length → |acc.getD k 0| + (numEntry k ops : K) * (V + η) ≤ B →
    (accFl fl acc ops).length = acc.length ∧
    |(accFl fl acc ops).getD k 0 - (acc.getD k 0 + toEntry k ops)| ≤ (numEntry k ops : K) * η := by
  induction ops with
  | nil => intro acc _ _; simp [accFl, toEntry, numEntry]
  | cons p ops ih =>
    intro acc hk hB
    have ih' := ih (fun q hq => hops q (by simp [hq])) (acc.modify p.1 (fun x => fl (x + p.2))) (by simpa using hk)
    rw [getD_modify_fl fl acc p.1 k p.2 hk] at ih'
    have e1 : accFl fl acc (p :: ops) = accFl fl (acc.modify p.1 (fun x => fl (x + p.2))) ops := rfl
    have e2 : toEntry k (p :: ops) = (if p.1 = k then p.2 else 0) + toEntry k ops := by simp [toEntry]
    have e3 : numEntry k (p :: ops) = (if p.1 = k then 1 else 0) + numEntry k ops := by simp [numEntry]
    rw [e1, e2]
    rw [e3] at hB ⊢
    have hn : 0 ≤ (numEntry k ops : K) * (V + η) := mul_nonneg (Nat.cast_nonneg _) (by linarith)
    by_cases hp : p.1 = k
    · simp only [hp, if_true] at hB ih' ⊢
      push_cast at hB ⊢
      have hv := abs_bounds (hops p (by simp) hp)
      have ha := abs_bounds (le_refl |acc.getD k 0|)
      have hs : |acc.getD k 0 + p.2| ≤ |acc.getD k 0| + V := by rw [abs_le]; constructor <;> linarith
      have hc := abs_bounds (hr.close _ (show |acc.getD k 0 + p.2| ≤ B by linarith))
      have hs' := abs_bounds hs
      have hf : |fl (acc.getD k 0 + p.2)| ≤ |acc.getD k 0| + V + η := by rw [abs_le]; constructor <;> linarith
      obtain ⟨l1, l2⟩ := ih' (by linarith)
      refine ⟨by rw [l1]; simp, ?_⟩
      have b := abs_bounds l2
      rw [abs_le]; constructor <;> linarith
    · simp only [hp, if_false] at hB ih' ⊢
      push_cast at hB ⊢
      obtain ⟨l1, l2⟩ := ih' (by linarith)
      refine ⟨by rw [l1]; simp, ?_⟩
      rw [zero_add, zero_add]
      exact l2

omit [LinearOrder K] [IsStrictOrderedRing K] [FloorRing K] in
theorem accFl_append (fl : K → K) (acc : List K) (a b : List (Nat × K)) : accFl fl acc (a ++ b) = accFl fl (accFl fl acc a) b := by
  simp [accFl]

omit [LinearOrder K] [IsStrictOrderedRing K] [FloorRing K] in
theorem accFl_length (fl : K → K) (ops : List (Nat × K)) : ∀ acc : List K, (accFl fl acc ops).length = acc.length := by
  induction ops with
  | nil => intro acc; rfl
  | cons p ops ih =>
    intro acc
    change (accFl fl (acc.modify p.1 (fun x => fl (x + p.2))) ops).length = _
    rw [ih]; simp

end

end Spurt
