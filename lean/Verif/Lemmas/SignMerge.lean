import Verif.Lemmas.Sign
import Verif.Lemmas.BulkShift

/-! # The merge of tiles of the opposite sign -/

namespace Spurt

/-- The tile files `F'` are the files `F` with every phase of the opposite sign. -/
structure Spec.Opposite {K : Type} [Field K] (n nifgs : Nat) (F F' : Nat → TileFile K) : Prop where
  points : ∀ i < n, Spec.filePoints (F' i) = Spec.filePoints (F i)
  phase : ∀ b < nifgs, ∀ i < n, ∀ p < (F i).points.length, filePhase (F' i) b p = - filePhase (F i) b p

open Spec

/-- All values of the tiles change their sign. -/
def NegBy {K : Type} [Field K] (n : Nat) (F F' : Nat → TileFile K) (b : Nat) (c c' : Nat → Nat → K) : Prop :=
  ∀ i < n, ∀ p < (F i).points.length, bandValue F' b c' i p = - bandValue F b c i p

section
variable {K : Type} [Field K]

theorem NegBy.at {n : Nat} {F F' : Nat → TileFile K} {b : Nat} {c c' : Nat → Nat → K}
    (h : NegBy n F F' b c c') (hp : ∀ i < n, filePoints (F' i) = filePoints (F i)) {i : Nat} (hi : i < n)
    (pix : ℤ × ℤ) : bandAt F' b c' i pix = (bandAt F b c i pix).map (- ·) := by
  unfold bandAt
  rw [hp i hi]
  by_cases hm : pix ∈ filePoints (F i)
  · rw [if_pos hm, if_pos hm, Option.map_some, h i hi]
    rw [← filePoints_length]
    exact List.idxOf_lt_length_iff.mpr hm
  · rw [if_neg hm, if_neg hm]; rfl

theorem fancySet_map {α β : Type} (g : α → β) (arr : Nat × Nat → α) (px : List (Nat × Nat)) (v : List α) :
    fancySet (fun p => g (arr p)) px (v.map g) = fun p => g (fancySet arr px v p) := by
  unfold fancySet
  induction px generalizing arr v with
  | nil => rfl
  | cons p px ih =>
    cases v with
    | nil => rfl
    | cons x v =>
      simp only [List.map_cons, List.zip_cons_cons, List.foldl_cons]
      rw [← ih]
      congr 1
      funext q
      by_cases hq : q = p
      · subst hq; simp
      · simp [Function.update_of_ne hq]

variable [LinearOrder K] [IsStrictOrderedRing K]

theorem rawCorr_neg {n : Nat} {F F' : Nat → TileFile K} {omap : List (List Nat)} {b : Nat}
    {c c' : Nat → Nat → K} (h : NegBy n F F' b c c')
    (hp : ∀ i < n, filePoints (F' i) = filePoints (F i)) (hlt : ∀ i < n, ∀ j ∈ omap.getD i [], j < n) {i : Nat}
    (hi : i < n) {p : Nat} (hpl : p < (F i).points.length) : rawCorr F' omap b c' i p = - rawCorr F omap b c i p := by
  have hpt : ptAt F' i p = ptAt F i p := by unfold ptAt; rw [hp i hi]
  have hsum : sumAt F' b c' (omap.getD i []) i p = - sumAt F b c (omap.getD i []) i p := by
    unfold sumAt
    rw [h i hi p hpl, hpt]
    have key : ∀ l : List Nat, (∀ j ∈ l, j < n) →
        (l.map fun j => (bandAt F' b c' j (ptAt F i p)).getD 0).sum =
        - (l.map fun j => (bandAt F b c j (ptAt F i p)).getD 0).sum := by
      intro l
      induction l with
      | nil => simp
      | cons j l ih =>
        intro hl
        rw [List.map_cons, List.sum_cons, List.map_cons, List.sum_cons,
          ih fun x hx => hl x (List.mem_cons_of_mem _ hx), h.at hp (hl j List.mem_cons_self)]
        cases bandAt F b c j (ptAt F i p) <;> simp <;> ring
    rw [key _ (hlt i hi)]
    ring
  unfold rawCorr
  rw [hsum, cntAt_points hp (hlt i hi) hi, h i hi p hpl]
  ring

/-- The inner solver `lin'` answers a right-hand side of the opposite sign with the answer of the opposite sign. -/
def OppositeCg (lin lin' : LinSolver K) : Prop :=
  ∀ M r, lin'.cg M (r.map (- ·)) = (lin.cg M r).map (- ·)

theorem dirRow_neg {lin lin' : LinSolver K} (hcg : OppositeCg lin lin') (a : SqMat K) (mask : Nat → Bool) (x : Nat → K)
    (p : Nat) : dirRow lin' a mask (fun q => - x q) p = - dirRow lin a mask x p := by
  have hr : freeRhs a mask (fun q => - x q) = (freeRhs a mask x).map (- ·) := by
    unfold freeRhs
    rw [List.map_map]
    apply List.map_congr_left
    intro i _
    simp only [Function.comp, mul_neg]
    rw [← sum_neg ((List.filter (fun j => mask j) (List.range a.n)).map fun j => a.val i j * x j), List.map_map]
    rfl
  unfold dirRow
  rw [hr]
  have hall : (((freeRhs a mask x).map (- ·)).all fun v => decide (v = 0)) = (freeRhs a mask x).all fun v => decide (v = 0) := by
    rw [List.all_map]
    congr 1
    funext v
    simp
  rw [hall, hcg]
  split
  · rfl
  · split
    · rw [List.map_map]
      have : ∀ (l : List K) (k : Nat), (l.map fun _ => (0 : K)).getD k 0 = 0 := by
        intro l k
        rw [List.getD_eq_getElem?_getD, List.getElem?_map]
        cases l[k]? <;> rfl
      have e : (List.map ((fun _ => (0 : K)) ∘ fun v => -v) (freeRhs a mask x)) = (freeRhs a mask x).map fun _ => 0 := rfl
      rw [e, this, neg_zero]
    · rw [getD_neg]

theorem bandRound_neg {env env' : MergeEnv K} (hlin : OppositeCg env.lin env'.lin) (hsim : env'.simplices = env.simplices)
    {n : Nat} {F F' : Nat → TileFile K} {omap : List (List Nat)} {b : Nat}
    {c c' : Nat → Nat → K} (h : NegBy n F F' b c c')
    (hp : ∀ i < n, filePoints (F' i) = filePoints (F i)) (hlt : ∀ i < n, ∀ j ∈ omap.getD i [], j < n) (d : Nat)
    (hok : ∀ i < n, roundOk env F omap d i) :
    NegBy n F F' b (bandRound env F omap b c d) (bandRound env' F' omap b c' d) := by
  intro i hi p hpl
  have hlen := points_length_of (hp i hi)
  have hmask : ∀ q, maskAt F' omap d i q = maskAt F omap d i q := by
    intro q
    unfold maskAt
    rw [cntAt_points hp (hlt i hi) hi]
  have ht : touched F' omap d i = touched F omap d i := by
    unfold touched
    rw [hlen]
    congr 1
    funext q
    exact hmask q
  have hv := h i hi p hpl
  unfold bandValue at hv ⊢
  unfold bandRound
  rw [ht]
  by_cases htt : touched F omap d i = true
  · rw [if_pos htt, if_pos htt]
    obtain ⟨a, ha1, ha2, _⟩ := hok i hi htt
    have ha1' : lapOf env' (filePoints (F' i)) = .ok a := by
      rw [hp i hi, ← ha1]
      unfold lapOf
      rw [hsim]
    have : tileCorr env' F' omap d b c' i p = - tileCorr env F omap d b c i p := by
      unfold tileCorr
      rw [ha1, ha1']
      simp only
      rw [← dirRow_neg hlin]
      exact dirRow_congr (fun q _ => hmask q) (fun q hq => rawCorr_neg h hp hlt hi (by omega)) (by omega)
    rw [this]
    linear_combination hv
  · rw [if_neg htt, if_neg htt]
    exact hv

theorem bandAdjust_neg {env env' : MergeEnv K} (hlin : OppositeCg env.lin env'.lin) (hsim : env'.simplices = env.simplices)
    {n : Nat} {F F' : Nat → TileFile K} {omap : List (List Nat)} {b : Nat}
    {c c' : Nat → Nat → K} (h : NegBy n F F' b c c')
    (hp : ∀ i < n, filePoints (F' i) = filePoints (F i)) (hlt : ∀ i < n, ∀ j ∈ omap.getD i [], j < n) (d : Nat)
    (hok : adjustOk env n F omap d) :
    NegBy n F F' b (bandAdjust env F omap d b c) (bandAdjust env' F' omap d b c') := by
  unfold bandAdjust adjustOk at *
  generalize degrees d = ds at *
  induction ds generalizing c c' with
  | nil => exact h
  | cons d ds ih =>
    rw [List.foldl_cons, List.foldl_cons]
    exact ih (bandRound_neg hlin hsim h hp hlt d (hok d List.mem_cons_self))
      fun d' hd' => hok d' (List.mem_cons_of_mem _ hd')

end

section
variable {K : Type} [Field K] [LinearOrder K] [FloorRing K] [IsStrictOrderedRing K]

/-- The accumulators for values of the opposite sign. -/
def negAcc (a : MergeAcc K) : MergeAcc K :=
  ⟨fun p => - a.model p, a.cnt, fun p => (a.maxval p).map (- ·), fun p => (a.minval p).map (- ·)⟩

omit [FloorRing K] in
theorem avgBand_neg {shape : Nat × Nat} {n : Nat} {F F' : Nat → TileFile K} {b : Nat} {c c' : Nat → Nat → K}
    (h : NegBy n F F' b c c') (hp : ∀ i < n, filePoints (F' i) = filePoints (F i)) (acc : MergeAcc K) {j : Nat} (hj : j < n) :
    avgBand shape F' b c' (negAcc acc) j = (avgBand shape F b c acc j).map negAcc := by
  unfold avgBand
  rw [hp j hj]
  cases pixelsOf shape (filePoints (F j)) with
  | error e => rfl
  | ok px =>
    have hd : (List.range (F' j).points.length).map (bandValue F' b c' j) =
        ((List.range (F j).points.length).map (bandValue F b c j)).map (- ·) := by
      rw [points_length_of (hp j hj), List.map_map]
      apply List.map_congr_left
      intro p hpl
      exact h j hj p (List.mem_range.mp hpl)
    simp only [Bind.bind, Except.bind, pure, Except.pure, Except.map, Except.ok.injEq]
    rw [hd]
    generalize (List.range (F j).points.length).map (bandValue F b c j) = data
    unfold negAcc
    simp only [MergeAcc.mk.injEq]
    refine ⟨?_, trivial, ?_, ?_⟩
    · rw [← fancySet_map (fun v : K => -v)]
      congr 1
      rw [List.zipWith_map_right, List.map_zipWith]
      congr 1
      funext p d
      ring
    · rw [← fancySet_map (fun v : Option K => v.map (- ·))]
      congr 1
      rw [List.zipWith_map_right, List.map_zipWith]
      congr 1
      funext p d
      cases acc.maxval p with
      | none => rfl
      | some v => simp [min_neg_neg]
    · rw [← fancySet_map (fun v : Option K => v.map (- ·))]
      congr 1
      rw [List.zipWith_map_right, List.map_zipWith]
      congr 1
      funext p d
      cases acc.minval p with
      | none => rfl
      | some v => simp [max_neg_neg]

theorem outBand_neg {tau : K} {shape : Nat × Nat} {n nifgs : Nat} {F F' : Nat → TileFile K} (h : Opposite n nifgs F F')
    {b : Nat} (hb : b < nifgs) (model : Nat × Nat → K) (arr : Nat × Nat → Option K) {j : Nat} (hj : j < n) :
    outBand tau shape F' b (fun p => - model p) (fun p => (arr p).map (- ·)) j =
      (outBand tau shape F b model arr j).map fun a p => (a p).map (- ·) := by
  unfold outBand
  rw [h.points j hj]
  cases pixelsOf shape (filePoints (F j)) with
  | error e => rfl
  | ok px =>
    have hd : (List.range (F' j).points.length).map (filePhase (F' j) b) =
        ((List.range (F j).points.length).map (filePhase (F j) b)).map (- ·) := by
      rw [points_length_of (h.points j hj), List.map_map]
      apply List.map_congr_left
      intro p hpl
      exact h.phase b hb j hj p (List.mem_range.mp hpl)
    simp only [Bind.bind, Except.bind, pure, Except.pure, Except.map, Except.ok.injEq]
    rw [hd]
    generalize (List.range (F j).points.length).map (filePhase (F j) b) = data
    rw [← fancySet_map (fun v : Option K => v.map (- ·))]
    congr 1
    rw [List.zipWith_map_right, List.map_zipWith]
    congr 1
    funext p x
    have : (-x - -model p) / tau = -((x - model p) / tau) := by ring
    simp only [this, rint_neg, Option.map_some, Option.some.injEq]
    push_cast
    ring

/-- The rasters of tiles of the opposite sign. -/
theorem raster_neg {tau : K} {shape : Nat × Nat} {n nifgs : Nat} {F F' : Nat → TileFile K} (h : Opposite n nifgs F F')
    {b : Nat} (hb : b < nifgs) {c c' : Nat → Nat → K} (hn : NegBy n F F' b c c') {m m' : MergedBand K}
    (hm : bandRaster tau shape n F b c = .ok m) (hm' : bandRaster tau shape n F' b c' = .ok m') (r q : Nat) :
    m'.out.val r q = (m.out.val r q).map (- ·) ∧ m'.model.val r q = (m.model.val r q).map (- ·) ∧
      m'.diff.val r q = m.diff.val r q := by
  have key : ∀ {S : Type} (g : S → S) (f f' : S → Nat → Except PyErr S) (l : List Nat), (∀ j ∈ l, ∀ s, f' (g s) j = (f s j).map g) →
      ∀ s, l.foldlM f' (g s) = (l.foldlM f s).map g := by
    intro S g f f' l
    induction l with
    | nil => intro _ s; rfl
    | cons j l ih =>
      intro hf s
      rw [List.foldlM_cons, List.foldlM_cons, hf j List.mem_cons_self]
      cases f s j with
      | error e => rfl
      | ok s' => exact ih (fun j hj => hf j (List.mem_cons_of_mem _ hj)) s'
  unfold bandRaster at hm hm'
  have h0 : (⟨fun _ => 0, fun _ => 0, fun _ => none, fun _ => none⟩ : MergeAcc K) =
      negAcc ⟨fun _ => 0, fun _ => 0, fun _ => none, fun _ => none⟩ := by simp [negAcc]
  rw [h0, key negAcc (avgBand shape F b c) (avgBand shape F' b c') _ (fun j hj s => avgBand_neg hn h.points s (List.mem_range.mp hj))] at hm'
  cases ha : (List.range n).foldlM (avgBand shape F b c) ⟨fun _ => 0, fun _ => 0, fun _ => none, fun _ => none⟩ with
  | error e => rw [ha] at hm; simp [Bind.bind, Except.bind] at hm
  | ok acc =>
    rw [ha] at hm hm'
    simp only [Bind.bind, Except.bind, Except.map] at hm hm'
    have hmean : (fun p => (negAcc acc).model p / ((negAcc acc).cnt p : K)) = fun p => -(acc.model p / (acc.cnt p : K)) := by
      funext p
      simp only [negAcc]
      ring
    rw [hmean] at hm'
    set mean := fun p => acc.model p / (acc.cnt p : K) with hmd
    have h1 : (fun _ => none : Nat × Nat → Option K) = fun p => ((fun _ => none : Nat × Nat → Option K) p).map (- ·) := rfl
    rw [h1, key (fun (a : Nat × Nat → Option K) p => (a p).map (- ·)) (outBand tau shape F b mean)
      (outBand tau shape F' b fun p => - mean p) _ (fun j hj s => outBand_neg h hb mean s (List.mem_range.mp hj))] at hm'
    cases ho : (List.range n).foldlM (outBand tau shape F b mean) (fun _ => none) with
    | error e => rw [ho] at hm; simp at hm
    | ok arr =>
      rw [ho] at hm hm'
      simp only [Except.map, pure, Except.pure, Except.ok.injEq] at hm hm'
      subst hm hm'
      refine ⟨rfl, ?_, ?_⟩
      · show (if acc.cnt (r, q) = 0 then none else some (- acc.model (r, q) / (acc.cnt (r, q) : K))) =
          (if acc.cnt (r, q) = 0 then none else some (acc.model (r, q) / (acc.cnt (r, q) : K))).map (- ·)
        split
        · rfl
        · rw [Option.map_some, neg_div]
      · show (if acc.cnt (r, q) < 2 then none else ((acc.minval (r, q)).map (- ·)).bind fun a =>
            ((acc.maxval (r, q)).map (- ·)).map fun b => a - b) =
          if acc.cnt (r, q) < 2 then none else (acc.maxval (r, q)).bind fun a => (acc.minval (r, q)).map fun b => a - b
        split
        · rfl
        · cases acc.minval (r, q) <;> cases acc.maxval (r, q) <;> simp
          ring

end

end Spurt
