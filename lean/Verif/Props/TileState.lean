import Verif.Model.Tile
import Mathlib.Tactic.Linarith
import Mathlib.Algebra.Field.Rat
import Mathlib.Data.Rat.Defs

/-!
# Property C41: the correction bookkeeping of class `Tile`
-/

namespace Spurt

section
variable {K : Type} [Field K]

/-! ### Specification -/

/-- What a correction means: the value it adds at point `p` of the `k`-th selected band, for a tile
with `nb` selected bands and `npts` points; `none` when it is refused. -/
def Spec.meaning (nb npts : Nat) : CorrArg K → Option (Nat → Nat → K)
  | .num x => some fun _ _ => x
  | .arr1 l =>
    if l.length = 1 then some fun _ _ => l.getD 0 0
    else if l.length = nb then some fun k _ => l.getD k 0
    else if l.length = npts then some fun _ p => l.getD p 0
    else none
  | .arr2 a =>
    if a.rows * a.cols = 1 then some fun _ _ => a.val 0 0
    else if a.cols = npts then
      some fun k p => a.val (if a.rows = 1 then 0 else k) (if npts = 1 then 0 else p)
    else none
  | .other => none

/-- The bands that can be read from a tile file together. -/
def Spec.Readable (f : TileFile K) (idx : List Nat) : Prop :=
  idx ≠ [] ∧ idx.Pairwise (· < ·) ∧ ∀ i ∈ idx, i < f.uw.length ∧ i < f.phaseOffset.length

/-- What a user of the class keeps in mind: the selected bands, the bands whose data were read, the
corrections accepted since the last reset, and the number of increments since then. -/
structure Spec.Ledger (K : Type) where
  bands : List Nat
  data : Option (List Nat)
  added : List (Nat → Nat → K)
  level : Nat

open Classical in
/-- The effect of one call on the ledger. -/
noncomputable def Spec.Ledger.step (f : TileFile K) (l : Spec.Ledger K) : TileOp K → Spec.Ledger K
  | .resetBandIndex idx =>
    if Spec.Readable f idx then ⟨idx, some idx, [], 0⟩ else { l with bands := idx }
  | .addCorrection a =>
    match Spec.meaning l.bands.length f.points.length a with
    | some m => { l with added := l.added ++ [m] }
    | none => l
  | .incrementCorrection => { l with level := l.level + 1 }
  | .compressCorrections => l
  | .resetCorrections => { l with added := [], level := 0 }

/-- The ledger after a history of calls on a new tile. -/
noncomputable def Spec.ledger (f : TileFile K) (ops : List (TileOp K)) : Spec.Ledger K :=
  ops.foldl (Spec.Ledger.step f) ⟨[], none, [], 0⟩

/-- The phase stored in the file for band `b` and point `p`, offset included. -/
def Spec.filePhase (f : TileFile K) (b p : Nat) : K := (f.uw.getD b []).getD p 0 + f.phaseOffset.getD b 0

/-- The sum of some corrections at one element. -/
def Spec.totalAt (l : List (Nat → Nat → K)) (k p : Nat) : K := (l.map fun m => m k p).sum

open Spec

/-! ### Arrays -/

theorem Arr.bget_add {a b s : Arr K} (h : a.add b = .ok s) (i j : Nat) :
    s.bget i j = a.bget i j + b.bget i j := by
  unfold Arr.add bdim at h
  split at h
  · rename_i r c hr hc
    simp only [Except.ok.injEq] at h
    subst h
    simp only [Arr.bget]
    have key : ∀ {x y z : Nat} (m : Nat), (if x = y then some x else if x = 1 then some y
        else if y = 1 then some x else none) = some z →
        (if x = 1 then 0 else if z = 1 then 0 else m) = (if x = 1 then 0 else m) ∧
        (if y = 1 then 0 else if z = 1 then 0 else m) = (if y = 1 then 0 else m) := by
      intro x y z m hz
      split at hz
      · simp only [Option.some.injEq] at hz; subst hz; rename_i h; subst h; constructor <;> split <;> simp_all
      · split at hz
        · simp only [Option.some.injEq] at hz; subst hz; constructor
          · simp_all
          · split <;> simp_all
        · split at hz
          · simp only [Option.some.injEq] at hz; subst hz; constructor
            · split <;> simp_all
            · simp_all
          · simp at hz
    rw [(key i hr).1, (key i hr).2, (key j hc).1, (key j hc).2]
  · simp at h

theorem Arr.bget_scalar (x : K) (i j : Nat) : (Arr.scalar x).bget i j = x := rfl

theorem Arr.bget_sum_aux (l : List (Arr K)) (a s : Arr K) (h : l.foldlM Arr.add a = .ok s) (i j : Nat) :
    s.bget i j = a.bget i j + (l.map fun c => c.bget i j).sum := by
  induction l generalizing a with
  | nil =>
    simp only [List.foldlM_nil, Pure.pure, Except.pure, Except.ok.injEq] at h
    subst h; simp
  | cons c l ih =>
    simp only [List.foldlM_cons, Bind.bind, Except.bind] at h
    split at h
    · simp at h
    · rename_i v hv
      rw [ih v h, Arr.bget_add hv]
      simp [add_assoc]

theorem Arr.bget_sum {l : List (Arr K)} {s : Arr K} (h : Arr.sum l = .ok s) (i j : Nat) :
    s.bget i j = (l.map fun c => c.bget i j).sum := by
  rw [Arr.bget_sum_aux l _ s h, Arr.bget_scalar, zero_add]

/-! ### The state follows the ledger -/

theorem correctionArr_meaning (nb npts : Nat) (a : CorrArg K) :
    (correctionArr nb npts a).map Arr.bget = meaning nb npts a := by
  cases a with
  | num x => simp [correctionArr, meaning, Arr.bget_scalar, funext_iff]
  | arr1 l =>
    simp only [correctionArr, meaning]
    by_cases h1 : l.length = 1
    · simp [h1, Arr.bget_scalar, funext_iff]
    · rw [if_neg h1, if_neg h1]
      by_cases h2 : l.length = nb
      · rw [if_pos h2, if_pos h2]
        simp [Arr.bget, h1, funext_iff]
      · rw [if_neg h2, if_neg h2]
        by_cases h3 : l.length = npts
        · rw [if_pos h3, if_pos h3]
          simp [Arr.bget, h1, funext_iff]
        · simp [h3]
  | arr2 a =>
    simp only [correctionArr, meaning]
    by_cases h1 : a.rows * a.cols = 1
    · rw [if_pos h1, if_pos h1]
      simp [Arr.bget_scalar, funext_iff]
    · rw [if_neg h1, if_neg h1]
      by_cases h2 : a.cols = npts
      · rw [if_pos h2, if_pos h2]
        simp [Arr.bget, h2, funext_iff]
      · simp [h2]
  | other => rfl

theorem readBands_ok_iff (f : TileFile K) (idx : List Nat) :
    (∃ d, readBands f idx = .ok d) ↔ Readable f idx := by
  unfold readBands Readable
  by_cases h1 : idx = []
  · simp [h1]
  · by_cases h2 : idx.Pairwise (· < ·)
    · by_cases h3 : (idx.any fun i => decide (f.uw.length ≤ i ∨ f.phaseOffset.length ≤ i)) = true
      · simp only [h1, h2, h3, if_true, if_false, not_true_eq_false]
        constructor
        · rintro ⟨d, hd⟩; simp at hd
        · rintro ⟨_, _, h⟩
          rw [List.any_eq_true] at h3
          obtain ⟨i, hi, hd⟩ := h3
          have := h i hi
          simp only [decide_eq_true_eq] at hd
          omega
      · simp only [h1, h2, h3, if_false, not_true_eq_false]
        constructor
        · intro _
          refine ⟨h1, trivial, fun i hi => ?_⟩
          by_contra hc
          apply h3
          rw [List.any_eq_true]
          refine ⟨i, hi, ?_⟩
          simp only [decide_eq_true_eq]
          omega
        · intro _; exact ⟨_, rfl⟩
    · simp [h1, h2]

theorem readBands_value {f : TileFile K} {idx : List Nat} {d : Arr K} (h : readBands f idx = .ok d) :
    d.rows = idx.length ∧ d.cols = (f.uw.headD []).length ∧
    ∀ k p, d.val k p = filePhase f (idx.getD k 0) p := by
  unfold readBands at h
  split at h
  · simp at h
  · split at h
    · simp at h
    · split at h
      · simp at h
      · simp only [Except.ok.injEq] at h
        subst h
        exact ⟨rfl, rfl, fun k p => rfl⟩

/-- The relation between the state of a tile and the ledger. -/
structure Follows (f : TileFile K) (t : TileState K) (l : Ledger K) : Prop where
  file : t.file = f
  idx : t.idx = l.bands
  data : t.uwdata = none ∧ l.data = none ∨
    ∃ b d, l.data = some b ∧ t.uwdata = some d ∧ readBands f b = .ok d
  level : t.level = l.level
  total : ∀ k p, (t.corrections.map fun c => c.bget k p).sum = totalAt l.added k p

theorem follows_step {f : TileFile K} {t : TileState K} {l : Ledger K} (h : Follows f t l) (o : TileOp K)
    (hno : o = .compressCorrections → (t.step o).2 ≠ some .valueError) :
    Follows f (t.step o).1 (l.step f o) := by
  cases o with
  | resetBandIndex idx =>
    unfold TileState.step Ledger.step
    simp only
    rw [h.file]
    cases hr : readBands f idx with
    | error e =>
      rw [if_neg (by rw [← readBands_ok_iff, hr]; simp)]
      exact ⟨rfl, rfl, h.data, h.level, h.total⟩
    | ok d =>
      rw [if_pos (by rw [← readBands_ok_iff, hr]; simp)]
      exact ⟨rfl, rfl, Or.inr ⟨idx, d, rfl, rfl, hr⟩, rfl, by simp [totalAt]⟩
  | addCorrection a =>
    have hm := correctionArr_meaning l.bands.length f.points.length a
    unfold TileState.step Ledger.step
    simp only
    have hc : t.coords.length = f.points.length := by simp [TileState.coords, h.file]
    rw [hc, h.idx]
    cases hr : correctionArr l.bands.length f.points.length a with
    | none =>
      rw [hr] at hm
      simp only [Option.map_none] at hm
      rw [← hm]
      exact h
    | some c =>
      rw [hr] at hm
      simp only [Option.map_some] at hm
      rw [← hm]
      refine ⟨h.file, rfl, h.data, h.level, ?_⟩
      intro k p
      have := h.total k p
      simp only [totalAt, List.map_append, List.sum_append, List.map_cons, List.map_nil, List.sum_cons,
        List.sum_nil, add_zero] at this ⊢
      rw [this]
  | incrementCorrection =>
    exact ⟨h.file, h.idx, h.data, by simp [TileState.step, Ledger.step, h.level], h.total⟩
  | compressCorrections =>
    have hno := hno rfl
    have htot := h.total
    cases hcs : t.corrections with
    | nil =>
      have : t.step .compressCorrections = (t, none) := by simp only [TileState.step, hcs]
      rw [this]; exact h
    | cons c0 r =>
      cases r with
      | nil =>
        have : t.step .compressCorrections = (t, none) := by simp only [TileState.step, hcs]
        rw [this]; exact h
      | cons c1 cs =>
        rw [hcs] at htot
        cases hs : c0.add ((c1 :: cs).getLast (by simp)) with
        | error e =>
          exfalso
          apply hno
          have : e = .valueError := by
            unfold Arr.add at hs
            split at hs
            · simp at hs
            · simpa using hs.symm
          simp only [TileState.step, hcs, hs, this]
        | ok s =>
          have : (t.step .compressCorrections).1 = { t with corrections := s :: (c1 :: cs).dropLast } := by
            simp only [TileState.step, hcs, hs]
          rw [this]
          refine ⟨h.file, h.idx, h.data, h.level, ?_⟩
          intro k p
          have e0 : totalAt (Ledger.step f l .compressCorrections).added k p = totalAt l.added k p := rfl
          rw [e0, ← htot k p]
          have hl := List.dropLast_append_getLast (l := c1 :: cs) (by simp)
          have e1 : ((c1 :: cs).map fun c => c.bget k p).sum =
              (((c1 :: cs).dropLast).map fun c => c.bget k p).sum +
                ((c1 :: cs).getLast (by simp)).bget k p := by
            conv_lhs => rw [← hl]
            simp
          rw [List.map_cons, List.sum_cons, List.map_cons, List.sum_cons, e1, Arr.bget_add hs]
          ring
  | resetCorrections =>
    exact ⟨h.file, h.idx, h.data, rfl, by simp [TileState.step, Ledger.step, totalAt]⟩

/-- No call of `compress_corrections` in the history fails because two corrections have shapes
that do not fit. -/
def Spec.ShapesFit (f : TileFile K) (ops : List (TileOp K)) : Prop :=
  ∀ pre post, ops = pre ++ TileOp.compressCorrections :: post →
    (((TileState.start f).run pre).step .compressCorrections).2 ≠ some .valueError

open Spec

theorem follows_run (f : TileFile K) (ops : List (TileOp K)) (hs : ShapesFit f ops) :
    Follows f ((TileState.start f).run ops) (ledger f ops) := by
  induction ops using List.reverseRecOn with
  | nil => exact ⟨rfl, rfl, Or.inl ⟨rfl, rfl⟩, rfl, by simp [TileState.run, TileState.start, totalAt, ledger]⟩
  | append_singleton ops o ih =>
    have ih := ih (by
      intro pre post he
      exact hs pre (post ++ [o]) (by rw [he]; simp))
    unfold TileState.run ledger at ih ⊢
    rw [List.foldl_append, List.foldl_append]
    refine follows_step ih o ?_
    rintro rfl
    exact hs ops [] rfl

/-- C41. For every history of calls, caught exceptions included: the corrections held by the tile
add up to all the corrections accepted since the last reset, none lost and none counted twice. -/
theorem C41_total (f : TileFile K) (ops : List (TileOp K)) (hs : ShapesFit f ops) (s : Arr K)
    (h : ((TileState.start f).run ops).correctionsSum ((TileState.start f).run ops).corrections.length = .ok s)
    (k p : Nat) : s.bget k p = totalAt (ledger f ops).added k p := by
  unfold TileState.correctionsSum at h
  rw [List.take_length] at h
  rw [Arr.bget_sum h, (follows_run f ops hs).total]

/-- C41. For every history of calls: the raw phase is the phase in the file for the bands of the
last successful selection, whatever corrections were made. -/
theorem C41_raw_phase (f : TileFile K) (ops : List (TileOp K)) (hs : ShapesFit f ops) :
    ((ledger f ops).data = none → ((TileState.start f).run ops).rawUwPhase = .error .typeError) ∧
    ∀ bands, (ledger f ops).data = some bands →
      ∃ u, ((TileState.start f).run ops).rawUwPhase = .ok u ∧ u.rows = bands.length ∧
        u.cols = (f.uw.headD []).length ∧
        ∀ k p, k < u.rows → p < u.cols → u.val k p = filePhase f (bands.getD k 0) p := by
  have hf := follows_run f ops hs
  constructor
  · intro hd
    rcases hf.data with ⟨h1, _⟩ | ⟨b, d, h1, _⟩
    · simp [TileState.rawUwPhase, TileState.getUwPhase, TileState.correctionsSum, Arr.sum, h1,
        Bind.bind, Except.bind, Pure.pure, Except.pure]
    · rw [hd] at h1; simp at h1
  · intro bands hb
    rcases hf.data with ⟨_, h1⟩ | ⟨b, d, h1, h2, h3⟩
    · rw [hb] at h1; simp at h1
    · rw [hb, Option.some.injEq] at h1
      subst h1
      obtain ⟨e1, e2, e3⟩ := readBands_value h3
      have hadd : ∃ u, d.add (Arr.scalar 0) = .ok u ∧ u.rows = d.rows ∧ u.cols = d.cols ∧
          ∀ k p, k < d.rows → p < d.cols → u.val k p = d.val k p := by
        unfold Arr.add
        have hb1 : ∀ n, bdim n 1 = some n := by
          intro n; unfold bdim
          by_cases h : n = 1
          · simp [h]
          · simp [h]
        simp only [Arr.scalar, hb1]
        refine ⟨_, rfl, rfl, rfl, ?_⟩
        intro k p hk hp
        simp only [Arr.bget, add_zero]
        split
        · split
          · rw [show k = 0 by omega, show p = 0 by omega]
          · rw [show k = 0 by omega]
        · split
          · rw [show p = 0 by omega]
          · rfl
      obtain ⟨u, hu, u1, u2, u3⟩ := hadd
      refine ⟨u, ?_, by rw [u1, e1], by rw [u2, e2], ?_⟩
      · simp [TileState.rawUwPhase, TileState.getUwPhase, TileState.correctionsSum, Arr.sum, h2,
          Bind.bind, Except.bind, Pure.pure, Except.pure, hu]
      · intro k p hk hp
        rw [u3 k p (by omega) (by omega), e3]

/-! ### Histories without compression -/

theorem exact_run (f : TileFile K) (ops : List (TileOp K)) (hno : TileOp.compressCorrections ∉ ops) :
    ((TileState.start f).run ops).corrections.map Arr.bget = (ledger f ops).added := by
  induction ops using List.reverseRecOn with
  | nil => rfl
  | append_singleton ops o ih =>
    have hops : TileOp.compressCorrections ∉ ops := fun h => hno (by simp [h])
    have ih := ih hops
    have hf := follows_run f ops (by intro pre post he; exact absurd (by rw [he]; simp) hops)
    unfold TileState.run ledger at ih hf ⊢
    rw [List.foldl_append, List.foldl_append]
    simp only [List.foldl_cons, List.foldl_nil]
    set t := ops.foldl (fun t o => (t.step o).1) (TileState.start f)
    set l := ops.foldl (Ledger.step f) ⟨[], none, [], 0⟩
    cases o with
    | resetBandIndex idx =>
      unfold TileState.step Ledger.step
      simp only
      rw [hf.file]
      cases hr : readBands f idx with
      | error e =>
        rw [if_neg (by rw [← readBands_ok_iff, hr]; simp)]
        exact ih
      | ok d =>
        rw [if_pos (by rw [← readBands_ok_iff, hr]; simp)]
        rfl
    | addCorrection a =>
      have hm := correctionArr_meaning l.bands.length f.points.length a
      unfold TileState.step Ledger.step
      simp only
      have hc : t.coords.length = f.points.length := by simp [TileState.coords, hf.file]
      rw [hc, hf.idx]
      cases hr : correctionArr l.bands.length f.points.length a with
      | none =>
        rw [hr] at hm
        simp only [Option.map_none] at hm
        rw [← hm]
        exact ih
      | some c =>
        rw [hr] at hm
        simp only [Option.map_some] at hm
        rw [← hm]
        simp only [List.map_append, ih, List.map_cons, List.map_nil]
    | incrementCorrection => exact ih
    | compressCorrections => exact absurd (by simp) hno
    | resetCorrections => rfl

/-- C41. For every history without compression: the phase of the tile is the phase in the file
plus the first corrections since the last reset, as many as there were increments. -/
theorem C41_levels (f : TileFile K) (ops : List (TileOp K)) (hno : TileOp.compressCorrections ∉ ops)
    (u : Arr K) (h : ((TileState.start f).run ops).uwPhase = .ok u) :
    ∃ bands, (ledger f ops).data = some bands ∧ ∃ d, ((TileState.start f).run ops).rawUwPhase = .ok d ∧
      ∀ k p, u.bget k p = d.bget k p + totalAt ((ledger f ops).added.take (ledger f ops).level) k p := by
  have hs : ShapesFit f ops := by intro pre post he; exact absurd (by rw [he]; simp) hno
  have hf := follows_run f ops hs
  have hx := exact_run f ops hno
  set t := (TileState.start f).run ops
  unfold TileState.uwPhase TileState.getUwPhase TileState.correctionsSum at h
  rw [hf.level] at h
  simp only [Bind.bind, Except.bind] at h
  split at h
  · simp at h
  · rename_i c hc
    rcases hf.data with ⟨h1, _⟩ | ⟨b, d, h1, h2, _⟩
    · rw [h1] at h; simp at h
    · rw [h2] at h
      simp only [Option.elim_some] at h
      obtain ⟨d', hd', _, _, _⟩ := (C41_raw_phase f ops hs).2 b h1
      refine ⟨b, h1, d', hd', ?_⟩
      intro k p
      have hd'' : d.add (Arr.scalar 0) = .ok d' := by
        have := hd'
        change t.rawUwPhase = _ at this
        simpa [TileState.rawUwPhase, TileState.getUwPhase, TileState.correctionsSum, Arr.sum, h2,
          Bind.bind, Except.bind, Pure.pure, Except.pure] using this
      rw [Arr.bget_add h, Arr.bget_add hd'', Arr.bget_scalar, add_zero, Arr.bget_sum hc]
      congr 1
      unfold totalAt
      rw [← hx, ← List.map_take, List.map_map]
      rfl

/-! ### The way the merge step uses the class -/

/-- The array can be broadcast to `n` rows and `m` columns. -/
def Arr.Fits (a : Arr K) (n m : Nat) : Prop := (a.rows = 1 ∨ a.rows = n) ∧ (a.cols = 1 ∨ a.cols = m)

theorem bdim_full {a n : Nat} (h : a = 1 ∨ a = n) : bdim a n = some n ∧ bdim n a = some n := by
  unfold bdim
  rcases h with rfl | rfl
  · by_cases h : n = 1
    · simp [h]
    · simp [h, Ne.symm h]
  · simp

omit [Field K] in
theorem Arr.val_eq_bget {a : Arr K} {k p : Nat} (hk : k < a.rows) (hp : p < a.cols) : a.val k p = a.bget k p := by
  unfold Arr.bget
  split
  · split
    · rw [show k = 0 by omega, show p = 0 by omega]
    · rw [show k = 0 by omega]
  · split
    · rw [show p = 0 by omega]
    · rfl

theorem Arr.add_full {a b : Arr K} {n m : Nat} (ha : a.Fits n m) (hr : b.rows = n) (hc : b.cols = m) :
    (∃ s, a.add b = .ok s ∧ s.rows = n ∧ s.cols = m ∧ ∀ k p, k < n → p < m → s.val k p = a.bget k p + b.val k p) ∧
    ∃ s, b.add a = .ok s ∧ s.rows = n ∧ s.cols = m ∧ ∀ k p, k < n → p < m → s.val k p = b.val k p + a.bget k p := by
  unfold Arr.add
  rw [hr, hc, (bdim_full ha.1).1, (bdim_full ha.2).1, (bdim_full ha.1).2, (bdim_full ha.2).2]
  refine ⟨⟨_, rfl, rfl, rfl, ?_⟩, ⟨_, rfl, rfl, rfl, ?_⟩⟩
  · intro k p hk hp
    simp only
    rw [Arr.val_eq_bget (by omega) (by omega)]
  · intro k p hk hp
    simp only
    rw [Arr.val_eq_bget (a := b) (by omega) (by omega)]

theorem Arr.scalar_add_bget {a s : Arr K} (h : (Arr.scalar 0).add a = .ok s) (k p : Nat) :
    s.bget k p = a.bget k p := by rw [Arr.bget_add h, Arr.bget_scalar, zero_add]

theorem Arr.scalar_add (a : Arr K) : ∃ s, (Arr.scalar 0).add a = .ok s ∧ s.rows = a.rows ∧ s.cols = a.cols ∧
    ∀ k p, s.bget k p = a.bget k p := by
  have h : ∀ n, bdim 1 n = some n := by
    intro n; unfold bdim; by_cases h : 1 = n <;> simp [h]
  have : ∃ s, (Arr.scalar (0 : K)).add a = .ok s ∧ s.rows = a.rows ∧ s.cols = a.cols := by
    unfold Arr.add
    simp only [Arr.scalar, h]
    exact ⟨_, rfl, rfl, rfl⟩
  obtain ⟨s, h1, h2, h3⟩ := this
  exact ⟨s, h1, h2, h3, Arr.scalar_add_bget h1⟩

/-- A tile between two rounds of the merge step: the bands `idx` are selected, and one correction
with the values `c` is in force. -/
structure Settled (f : TileFile K) (idx : List Nat) (t : TileState K) (c : Nat → Nat → K) : Prop where
  file : t.file = f
  bands : t.idx = idx
  width : (f.uw.headD []).length = f.points.length
  data : ∃ d, readBands f idx = .ok d ∧ t.uwdata = some d
  level : t.level = 1
  corr : ∃ a, t.corrections = [a] ∧ a.Fits idx.length f.points.length ∧
    ∀ k p, k < idx.length → p < f.points.length → a.bget k p = c k p

/-- The tile inside a round: a further correction `a` waits to be merged. -/
structure Pending (f : TileFile K) (idx : List Nat) (t : TileState K) (c : Nat → Nat → K)
    (extra : Arr K) : Prop where
  file : t.file = f
  bands : t.idx = idx
  width : (f.uw.headD []).length = f.points.length
  data : ∃ d, readBands f idx = .ok d ∧ t.uwdata = some d
  level : t.level = 1
  corr : ∃ a b, t.corrections = [a, b] ∧ a.Fits idx.length f.points.length ∧
    (∀ k p, k < idx.length → p < f.points.length → a.bget k p = c k p) ∧
    b.Fits idx.length f.points.length ∧
    ∀ k p, k < idx.length → p < f.points.length → b.bget k p = extra.val k p

theorem uwPhase_first {f : TileFile K} {idx : List Nat} {t : TileState K} {c : Nat → Nat → K}
    (hw : (f.uw.headD []).length = f.points.length)
    (hd : ∃ d, readBands f idx = .ok d ∧ t.uwdata = some d) (hl : t.level = 1) {a : Arr K}
    {rest : List (Arr K)} (ha : t.corrections = a :: rest) (hfit : a.Fits idx.length f.points.length)
    (hv : ∀ k p, k < idx.length → p < f.points.length → a.bget k p = c k p) :
    ∃ u, t.uwPhase = .ok u ∧ u.rows = idx.length ∧ u.cols = f.points.length ∧
      ∀ k p, k < idx.length → p < f.points.length → u.val k p = filePhase f (idx.getD k 0) p + c k p := by
  obtain ⟨d, hd1, hd2⟩ := hd
  obtain ⟨e1, e2, e3⟩ := readBands_value hd1
  obtain ⟨s, hs1, hs2, hs3, hs4⟩ := Arr.scalar_add a
  have hsf : s.Fits idx.length f.points.length := by
    unfold Arr.Fits at hfit ⊢; rw [hs2, hs3]; exact hfit
  obtain ⟨_, u, hu, hu1, hu2, hu3⟩ := Arr.add_full hsf e1 (e2.trans hw)
  refine ⟨u, ?_, hu1, hu2, ?_⟩
  · unfold TileState.uwPhase TileState.getUwPhase TileState.correctionsSum Arr.sum
    simp only [hl, ha, hd2, List.take_succ_cons, List.take_zero, List.foldlM_cons, List.foldlM_nil,
      Bind.bind, Except.bind, hs1, Pure.pure, Except.pure, Option.elim_some, hu]
  · intro k p hk hp
    rw [hu3 k p hk hp, hs4, hv k p hk hp, e3]

theorem Settled.uwPhase {f : TileFile K} {idx : List Nat} {t : TileState K} {c : Nat → Nat → K}
    (h : Settled f idx t c) :
    ∃ u, t.uwPhase = .ok u ∧ u.rows = idx.length ∧ u.cols = f.points.length ∧
      ∀ k p, k < idx.length → p < f.points.length → u.val k p = filePhase f (idx.getD k 0) p + c k p := by
  obtain ⟨a, h1, h2, h3⟩ := h.corr
  exact uwPhase_first h.width h.data h.level h1 h2 h3

theorem Pending.uwPhase {f : TileFile K} {idx : List Nat} {t : TileState K} {c : Nat → Nat → K} {e : Arr K}
    (h : Pending f idx t c e) :
    ∃ u, t.uwPhase = .ok u ∧ u.rows = idx.length ∧ u.cols = f.points.length ∧
      ∀ k p, k < idx.length → p < f.points.length → u.val k p = filePhase f (idx.getD k 0) p + c k p := by
  obtain ⟨a, _, h1, h2, h3, _⟩ := h.corr
  exact uwPhase_first h.width h.data h.level h1 h2 h3

theorem rawUwPhase_data {f : TileFile K} {idx : List Nat} {t : TileState K}
    (hw : (f.uw.headD []).length = f.points.length)
    (hd : ∃ d, readBands f idx = .ok d ∧ t.uwdata = some d) :
    ∃ u, t.rawUwPhase = .ok u ∧ u.rows = idx.length ∧ u.cols = f.points.length ∧
      ∀ k p, k < idx.length → p < f.points.length → u.val k p = filePhase f (idx.getD k 0) p := by
  obtain ⟨d, hd1, hd2⟩ := hd
  obtain ⟨e1, e2, e3⟩ := readBands_value hd1
  obtain ⟨_, u, hu, hu1, hu2, hu3⟩ := Arr.add_full (a := Arr.scalar 0) (n := idx.length)
    (m := f.points.length) ⟨Or.inl rfl, Or.inl rfl⟩ e1 (e2.trans hw)
  refine ⟨u, ?_, hu1, hu2, ?_⟩
  · unfold TileState.rawUwPhase TileState.getUwPhase TileState.correctionsSum Arr.sum
    simp only [hd2, List.take_zero, List.foldlM_nil,
      Bind.bind, Except.bind, Pure.pure, Except.pure, Option.elim_some, hu]
  · intro k p hk hp
    rw [hu3 k p hk hp, e3, Arr.bget_scalar, add_zero]

theorem Settled.add {f : TileFile K} {idx : List Nat} {t : TileState K} {c : Nat → Nat → K}
    (h : Settled f idx t c) (e : Arr K) (he : e.rows = idx.length) (he' : e.cols = f.points.length) :
    ∃ t', t.call (.addCorrection (.arr2 e)) = .ok t' ∧ Pending f idx t' c e := by
  obtain ⟨a, h1, h2, h3⟩ := h.corr
  have hlen : t.coords.length = f.points.length := by simp [TileState.coords, h.file]
  unfold TileState.call TileState.step
  simp only [correctionArr, hlen]
  by_cases hone : e.rows * e.cols = 1
  · rw [if_pos hone]
    refine ⟨_, rfl, h.file, h.bands, h.width, h.data, h.level, a, Arr.scalar (e.val 0 0), by simp [h1], h2, h3,
      ⟨Or.inl rfl, Or.inl rfl⟩, ?_⟩
    intro k p hk hp
    have hr : e.rows = 1 := Nat.eq_one_of_mul_eq_one_right hone
    have hc : e.cols = 1 := Nat.eq_one_of_mul_eq_one_left hone
    rw [show k = 0 by omega, show p = 0 by omega, Arr.bget_scalar]
  · rw [if_neg hone, if_pos he']
    refine ⟨_, rfl, h.file, h.bands, h.width, h.data, h.level, a, e, by simp [h1], h2, h3,
      ⟨Or.inr he, Or.inr he'⟩, ?_⟩
    intro k p hk hp
    rw [Arr.val_eq_bget (by omega) (by omega)]

theorem Settled.compress {f : TileFile K} {idx : List Nat} {t : TileState K} {c : Nat → Nat → K}
    (h : Settled f idx t c) : t.call .compressCorrections = .ok t := by
  obtain ⟨a, h1, _⟩ := h.corr
  unfold TileState.call TileState.step
  simp only [h1]

theorem bdim_fits {a b n : Nat} (ha : a = 1 ∨ a = n) (hb : b = 1 ∨ b = n) :
    ∃ c, bdim a b = some c ∧ (c = 1 ∨ c = n) := by
  unfold bdim
  rcases ha with rfl | rfl
  · rcases hb with rfl | rfl
    · exact ⟨1, by simp, Or.inl rfl⟩
    · exact ⟨b, by by_cases h : 1 = b <;> simp [h], Or.inr rfl⟩
  · rcases hb with rfl | rfl
    · exact ⟨a, by by_cases h : a = 1 <;> simp [h], Or.inr rfl⟩
    · exact ⟨b, by simp, Or.inr rfl⟩

theorem Pending.compress {f : TileFile K} {idx : List Nat} {t : TileState K} {c : Nat → Nat → K} {e : Arr K}
    (h : Pending f idx t c e) : ∃ t', t.call .compressCorrections = .ok t' ∧
      Settled f idx t' (fun k p => c k p + e.val k p) := by
  obtain ⟨a, b, h1, h2, h3, h4, h5⟩ := h.corr
  obtain ⟨r, hr, hr'⟩ := bdim_fits h2.1 h4.1
  obtain ⟨q, hq, hq'⟩ := bdim_fits h2.2 h4.2
  have hadd : ∃ s, a.add b = .ok s ∧ s.rows = r ∧ s.cols = q := by
    unfold Arr.add; rw [hr, hq]; exact ⟨_, rfl, rfl, rfl⟩
  obtain ⟨s, hs, hs1, hs2⟩ := hadd
  refine ⟨{ t with corrections := [s] }, ?_, h.file, h.bands, h.width, h.data, h.level, s, rfl,
    ⟨by rw [hs1]; exact hr', by rw [hs2]; exact hq'⟩, ?_⟩
  · unfold TileState.call TileState.step
    simp [h1, hs]
  · intro k p hk hp
    rw [Arr.bget_add hs, h3 k p hk hp, h5 k p hk hp]

/-- The calls of one round of the merge step: perhaps a correction, then compression. -/
def Spec.roundOps (r : Option (Arr K)) : List (TileOp K) :=
  (r.elim [] fun a => [TileOp.addCorrection (.arr2 a)]) ++ [TileOp.compressCorrections]

/-- All calls succeed. -/
def Spec.callAll (t : TileState K) (ops : List (TileOp K)) : Except PyErr (TileState K) :=
  ops.foldlM (fun t o => t.call o) t

open Spec

theorem callAll_append (t : TileState K) (a b : List (TileOp K)) :
    callAll t (a ++ b) = (callAll t a).bind fun t => callAll t b := by
  unfold callAll
  rw [List.foldlM_append]; rfl

theorem settled_rounds {f : TileFile K} {idx : List Nat} (rounds : List (Option (Arr K)))
    (hr : ∀ a, some a ∈ rounds → a.rows = idx.length ∧ a.cols = f.points.length) {t : TileState K}
    {c : Nat → Nat → K} (h : Settled f idx t c) :
    ∃ t', callAll t (rounds.flatMap roundOps) = .ok t' ∧
      Settled f idx t' (fun k p => c k p + (rounds.map fun r => r.elim 0 fun a => a.val k p).sum) := by
  induction rounds generalizing t c with
  | nil => exact ⟨t, rfl, by simpa using h⟩
  | cons r rounds ih =>
    have hr' : ∀ a, some a ∈ rounds → a.rows = idx.length ∧ a.cols = f.points.length :=
      fun a ha => hr a (by simp [ha])
    rw [List.flatMap_cons, callAll_append]
    cases r with
    | none =>
      obtain ⟨t', h1, h2⟩ := ih hr' h
      refine ⟨t', ?_, by simpa using h2⟩
      have : callAll t (roundOps none) = .ok t := by
        simp [callAll, roundOps, Settled.compress h]
      rw [this]; exact h1
    | some a =>
      obtain ⟨e1, e2⟩ := hr a (by simp)
      obtain ⟨t1, k1, k2⟩ := h.add a e1 e2
      obtain ⟨t2, k3, k4⟩ := k2.compress
      obtain ⟨t', h1, h2⟩ := ih hr' k4
      refine ⟨t', ?_, ?_⟩
      · have : callAll t (roundOps (some a)) = .ok t2 := by
          simp only [callAll, roundOps, Option.elim_some, List.cons_append, List.nil_append,
            List.foldlM_cons, List.foldlM_nil, k1, Bind.bind, Except.bind, k3, Pure.pure, Except.pure]
        rw [this]; exact h1
      · simpa [add_assoc] using h2

theorem settled_start {f : TileFile K} {idx : List Nat} (hread : Readable f idx)
    (hw : (f.uw.headD []).length = f.points.length) (bulk : List K) (hb : bulk.length = idx.length)
    {t : TileState K} (ht : t.file = f) :
    ∃ t', callAll t [.resetBandIndex idx, .addCorrection (.arr1 bulk), .incrementCorrection] = .ok t' ∧
      Settled f idx t' (fun k _ => bulk.getD k 0) := by
  obtain ⟨d, hd⟩ := (readBands_ok_iff f idx).mpr hread
  have hlen : f.points.length = f.points.length := rfl
  simp only [callAll, List.foldlM_cons, List.foldlM_nil, Bind.bind, Except.bind, TileState.call,
    TileState.step, ht, hd, correctionArr]
  by_cases h1 : bulk.length = 1
  · rw [if_pos h1]
    refine ⟨_, rfl, rfl, rfl, hw, ⟨d, hd, rfl⟩, rfl, _, rfl, ⟨Or.inl rfl, Or.inl rfl⟩, ?_⟩
    intro k p hk hp
    rw [Arr.bget_scalar, show k = 0 by omega]
  · rw [if_neg h1, if_pos hb]
    refine ⟨_, rfl, rfl, rfl, hw, ⟨d, hd, rfl⟩, rfl, _, rfl, ⟨Or.inr hb, Or.inl rfl⟩, ?_⟩
    intro k p hk hp
    simp [Arr.bget, h1]

/-- C41. The merge step: select the bands, add the bulk correction, increment; then any number of
rounds, each with at most one correction followed by compression. No call raises, in particular
compression never meets more than one extra correction, and the phase of the tile is the phase in
the file plus the bulk correction plus the corrections of all rounds; the raw phase stays that of
the file. A correction takes effect with the compression that follows it, not before. -/
theorem C41_merge_protocol (f : TileFile K) (idx : List Nat) (hread : Readable f idx)
    (hw : (f.uw.headD []).length = f.points.length) (bulk : List K) (hb : bulk.length = idx.length)
    (rounds : List (Option (Arr K)))
    (hr : ∀ a, some a ∈ rounds → a.rows = idx.length ∧ a.cols = f.points.length)
    (t : TileState K) (ht : t.file = f) :
    ∃ t', callAll t ([.resetBandIndex idx, .addCorrection (.arr1 bulk), .incrementCorrection] ++
        rounds.flatMap roundOps) = .ok t' ∧
      (∃ u, t'.uwPhase = .ok u ∧ u.rows = idx.length ∧ u.cols = f.points.length ∧
        ∀ k p, k < idx.length → p < f.points.length → u.val k p =
          filePhase f (idx.getD k 0) p + bulk.getD k 0 +
            (rounds.map fun r => r.elim 0 fun a => a.val k p).sum) ∧
      (∃ u, t'.rawUwPhase = .ok u ∧ u.rows = idx.length ∧ u.cols = f.points.length ∧
        ∀ k p, k < idx.length → p < f.points.length → u.val k p = filePhase f (idx.getD k 0) p) ∧
      ∀ a : Arr K, a.rows = idx.length → a.cols = f.points.length →
        ∃ t'' u, t'.call (.addCorrection (.arr2 a)) = .ok t'' ∧ t''.uwPhase = .ok u ∧
          ∀ k p, k < idx.length → p < f.points.length → u.val k p =
            filePhase f (idx.getD k 0) p + bulk.getD k 0 +
              (rounds.map fun r => r.elim 0 fun a => a.val k p).sum := by
  obtain ⟨t1, h1, h2⟩ := settled_start hread hw bulk hb ht
  obtain ⟨t2, h3, h4⟩ := settled_rounds rounds hr h2
  refine ⟨t2, ?_, ?_, rawUwPhase_data h4.width h4.data, ?_⟩
  · rw [callAll_append, h1]; exact h3
  · obtain ⟨u, a1, a2, a3, a4⟩ := h4.uwPhase
    exact ⟨u, a1, a2, a3, fun k p hk hp => by rw [a4 k p hk hp, ← add_assoc]⟩
  · intro a ha1 ha2
    obtain ⟨t3, k1, k2⟩ := h4.add a ha1 ha2
    obtain ⟨u, a1, a2, a3, a4⟩ := k2.uwPhase
    exact ⟨t3, u, k1, a1, fun k p hk hp => by rw [a4 k p hk hp, ← add_assoc]⟩

/-- A tile file with two bands and three points. -/
def exampleTileFile : TileFile ℚ :=
  { uw := [[1, 2, 3], [4, 5, 6]], points := [(0, 0), (0, 1), (1, 0)], tile := ⟨0, 0, 2, 2⟩, phaseOffset := [10, 20] }

/-- The hypotheses of the theorems hold for it: a history with a failing call, and the merge
protocol with one round. -/
example : Readable exampleTileFile [0, 1] ∧ (exampleTileFile.uw.headD []).length = exampleTileFile.points.length ∧
    ShapesFit exampleTileFile [.resetBandIndex [0, 1], .addCorrection (.num 1), .resetBandIndex [],
      .addCorrection (.arr1 [1, 2, 3]), .compressCorrections] := by
  refine ⟨⟨by simp, by simp, by simp [exampleTileFile]⟩, rfl, ?_⟩
  intro pre post h
  rcases pre with _ | ⟨_, _ | ⟨_, _ | ⟨_, _ | ⟨_, _ | ⟨_, pre⟩⟩⟩⟩⟩
  · simp at h
  · simp at h
  · simp at h
  · simp at h
  · simp only [List.cons_append, List.nil_append, List.cons.injEq] at h
    obtain ⟨rfl, rfl, rfl, rfl, _⟩ := h
    decide +kernel
  · have := congrArg List.length h
    simp at this

end

end Spurt
