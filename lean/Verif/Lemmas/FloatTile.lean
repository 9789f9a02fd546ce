import Verif.Lemmas.MergeTiles
import Verif.Model.FloatMerge

/-!
# Class `Tile` in mixed precision
-/

namespace Spurt
open Spec

section
variable {K : Type} [Field K]

theorem Arr.addFl_ok {fs : K → K} {a b c : Arr K} (h : a.add b = .ok c) :
    a.addFl fs b = .ok ⟨c.rows, c.cols, fun i j => fs (c.val i j)⟩ := by
  unfold Arr.addFl; rw [h]; rfl

theorem readBandsFl_ok {A : FloatArith K} {f : TileFile K} {idx : List Nat} {d : Arr K}
    (h : readBands f idx = .ok d) : readBandsFl A f idx = .ok ⟨d.rows, d.cols, fun i j => A.fs (d.val i j)⟩ := by
  unfold readBandsFl; rw [h]; rfl

/-- See `Settled`. -/
structure SettledFl (A : FloatArith K) (f : TileFile K) (idx : List Nat) (t : TileState K) (c : Nat → Nat → K) :
    Prop where
  file : t.file = f
  bands : t.idx = idx
  width : (f.uw.headD []).length = f.points.length
  data : ∃ d, readBandsFl A f idx = .ok d ∧ t.uwdata = some d
  level : t.level = 1
  corr : ∃ a, t.corrections = [a] ∧ a.Fits idx.length f.points.length ∧
    ∀ k p, k < idx.length → p < f.points.length → a.bget k p = c k p

/-- See `Pending`. -/
structure PendingFl (A : FloatArith K) (f : TileFile K) (idx : List Nat) (t : TileState K) (c : Nat → Nat → K)
    (extra : Arr K) : Prop where
  file : t.file = f
  bands : t.idx = idx
  width : (f.uw.headD []).length = f.points.length
  data : ∃ d, readBandsFl A f idx = .ok d ∧ t.uwdata = some d
  level : t.level = 1
  corr : ∃ a b, t.corrections = [a, b] ∧ a.Fits idx.length f.points.length ∧
    (∀ k p, k < idx.length → p < f.points.length → a.bget k p = c k p) ∧
    b.Fits idx.length f.points.length ∧
    ∀ k p, k < idx.length → p < f.points.length → b.bget k p = extra.val k p

theorem readBandsFl_value {A : FloatArith K} {f : TileFile K} {idx : List Nat} {d : Arr K}
    (h : readBandsFl A f idx = .ok d) : d.rows = idx.length ∧ d.cols = (f.uw.headD []).length ∧
      ∀ k p, d.val k p = A.fs (filePhase f (idx.getD k 0) p) := by
  unfold readBandsFl at h
  cases hr : readBands f idx with
  | error e => rw [hr] at h; simp [Bind.bind, Except.bind] at h
  | ok d' =>
    rw [hr] at h
    simp only [Bind.bind, Except.bind, Pure.pure, Except.pure, Except.ok.injEq] at h
    subst h
    obtain ⟨e1, e2, e3⟩ := readBands_value hr
    exact ⟨e1, e2, fun k p => by simp only; rw [e3]⟩

theorem uwPhaseFl_first {A : FloatArith K} {f : TileFile K} {idx : List Nat} {t : TileState K} {c : Nat → Nat → K}
    (hw : (f.uw.headD []).length = f.points.length)
    (hd : ∃ d, readBandsFl A f idx = .ok d ∧ t.uwdata = some d) (hl : t.level = 1) {a : Arr K}
    {rest : List (Arr K)} (ha : t.corrections = a :: rest) (hfit : a.Fits idx.length f.points.length)
    (hv : ∀ k p, k < idx.length → p < f.points.length → a.bget k p = c k p) :
    ∃ u, t.uwPhaseFl A = .ok u ∧ u.rows = idx.length ∧ u.cols = f.points.length ∧
      ∀ k p, k < idx.length → p < f.points.length →
        u.val k p = A.fs (A.fs (filePhase f (idx.getD k 0) p) + c k p) := by
  obtain ⟨d, hd1, hd2⟩ := hd
  obtain ⟨e1, e2, e3⟩ := readBandsFl_value hd1
  obtain ⟨_, u, hu, hu1, hu2, hu3⟩ := Arr.add_full hfit e1 (e2.trans hw)
  refine ⟨⟨u.rows, u.cols, fun i j => A.fs (u.val i j)⟩, ?_, hu1, hu2, ?_⟩
  · unfold TileState.uwPhaseFl TileState.getUwPhaseFl
    simp only [hl, ha, hd2, List.take_succ_cons, List.take_zero, List.foldlM_nil,
      Bind.bind, Except.bind, Pure.pure, Except.pure, Option.elim_some, Arr.addFl_ok hu]
  · intro k p hk hp
    simp only
    rw [hu3 k p hk hp, hv k p hk hp, e3]

theorem SettledFl.uwPhase {A : FloatArith K} {f : TileFile K} {idx : List Nat} {t : TileState K} {c : Nat → Nat → K}
    (h : SettledFl A f idx t c) :
    ∃ u, t.uwPhaseFl A = .ok u ∧ u.rows = idx.length ∧ u.cols = f.points.length ∧
      ∀ k p, k < idx.length → p < f.points.length →
        u.val k p = A.fs (A.fs (filePhase f (idx.getD k 0) p) + c k p) := by
  obtain ⟨a, h1, h2, h3⟩ := h.corr
  exact uwPhaseFl_first h.width h.data h.level h1 h2 h3

theorem PendingFl.uwPhase {A : FloatArith K} {f : TileFile K} {idx : List Nat} {t : TileState K} {c : Nat → Nat → K}
    {e : Arr K} (h : PendingFl A f idx t c e) :
    ∃ u, t.uwPhaseFl A = .ok u ∧ u.rows = idx.length ∧ u.cols = f.points.length ∧
      ∀ k p, k < idx.length → p < f.points.length →
        u.val k p = A.fs (A.fs (filePhase f (idx.getD k 0) p) + c k p) := by
  obtain ⟨a, _, h1, h2, h3, _⟩ := h.corr
  exact uwPhaseFl_first h.width h.data h.level h1 h2 h3

theorem rawUwPhaseFl_data {A : FloatArith K} {f : TileFile K} {idx : List Nat} {t : TileState K}
    (hw : (f.uw.headD []).length = f.points.length)
    (hd : ∃ d, readBandsFl A f idx = .ok d ∧ t.uwdata = some d) :
    ∃ u, t.rawUwPhaseFl A = .ok u ∧ u.rows = idx.length ∧ u.cols = f.points.length ∧
      ∀ k p, k < idx.length → p < f.points.length → u.val k p = A.fs (filePhase f (idx.getD k 0) p) := by
  obtain ⟨d, hd1, hd2⟩ := hd
  obtain ⟨e1, e2, e3⟩ := readBandsFl_value hd1
  refine ⟨d, ?_, e1, e2.trans hw, fun k p _ _ => e3 k p⟩
  unfold TileState.rawUwPhaseFl TileState.getUwPhaseFl
  simp [hd2, Bind.bind, Except.bind, Pure.pure, Except.pure]

theorem SettledFl.add {A : FloatArith K} {f : TileFile K} {idx : List Nat} {t : TileState K} {c : Nat → Nat → K}
    (h : SettledFl A f idx t c) (e : Arr K) (he : e.rows = idx.length) (he' : e.cols = f.points.length) :
    ∃ t', t.callFl A (.addCorrection (.arr2 e)) = .ok t' ∧ PendingFl A f idx t' c e := by
  obtain ⟨a, h1, h2, h3⟩ := h.corr
  have hlen : t.coords.length = f.points.length := by simp [TileState.coords, h.file]
  unfold TileState.callFl TileState.stepFl TileState.step
  simp only [correctionArr, hlen]
  by_cases hone : e.rows * e.cols = 1
  · rw [if_pos hone]
    refine ⟨_, rfl, h.file, h.bands, h.width, h.data, h.level, a, Arr.scalar (e.val 0 0), by simp [h1], h2, h3,
      ⟨Or.inl rfl, Or.inl rfl⟩, ?_⟩
    intro k p hk hp
    have hr : e.rows = 1 := Nat.eq_one_of_mul_eq_one_right hone
    have hc : e.cols = 1 := Nat.eq_one_of_mul_eq_one_left hone
    rw [show k = 0 by omega, show p = 0 by omega, Arr.bget_scalar]
  · rw [if_neg hone, if_pos he']
    refine ⟨_, rfl, h.file, h.bands, h.width, h.data, h.level, a, e, by simp [h1], h2, h3,
      ⟨Or.inr he, Or.inr he'⟩, ?_⟩
    intro k p hk hp
    rw [Arr.val_eq_bget (by omega) (by omega)]

theorem SettledFl.compress {A : FloatArith K} {f : TileFile K} {idx : List Nat} {t : TileState K} {c : Nat → Nat → K}
    (h : SettledFl A f idx t c) : t.callFl A .compressCorrections = .ok t := by
  obtain ⟨a, h1, _⟩ := h.corr
  unfold TileState.callFl TileState.stepFl
  simp only [h1]

theorem PendingFl.compress {A : FloatArith K} {f : TileFile K} {idx : List Nat} {t : TileState K} {c : Nat → Nat → K}
    {e : Arr K} (h : PendingFl A f idx t c e) : ∃ t', t.callFl A .compressCorrections = .ok t' ∧
      SettledFl A f idx t' (fun k p => A.fs (c k p + e.val k p)) := by
  obtain ⟨a, b, h1, h2, h3, h4, h5⟩ := h.corr
  obtain ⟨r, hr, hr'⟩ := bdim_fits h2.1 h4.1
  obtain ⟨q, hq, hq'⟩ := bdim_fits h2.2 h4.2
  have hadd : ∃ s, a.add b = .ok s ∧ s.rows = r ∧ s.cols = q := by
    unfold Arr.add; rw [hr, hq]; exact ⟨_, rfl, rfl, rfl⟩
  obtain ⟨s, hs, hs1, hs2⟩ := hadd
  refine ⟨{ t with corrections := [⟨s.rows, s.cols, fun i j => A.fs (s.val i j)⟩] }, ?_, h.file, h.bands, h.width,
    h.data, h.level, _, rfl, ⟨by simp only; rw [hs1]; exact hr', by simp only; rw [hs2]; exact hq'⟩, ?_⟩
  · unfold TileState.callFl TileState.stepFl
    simp [h1, Arr.addFl_ok hs]
  · intro k p hk hp
    have := Arr.bget_add hs k p
    unfold Arr.bget at this ⊢
    simp only
    rw [this]
    have h3' := h3 k p hk hp
    have h5' := h5 k p hk hp
    unfold Arr.bget at h3' h5'
    rw [h3', h5']

theorem SettledFl.congr {A : FloatArith K} {f : TileFile K} {idx : List Nat} {t : TileState K} {c c' : Nat → Nat → K}
    (h : SettledFl A f idx t c) (he : ∀ k p, k < idx.length → p < f.points.length → c k p = c' k p) :
    SettledFl A f idx t c' := by
  obtain ⟨a, h1, h2, h3⟩ := h.corr
  exact ⟨h.file, h.bands, h.width, h.data, h.level, a, h1, h2, fun k p hk hp => by rw [h3 k p hk hp, he k p hk hp]⟩

theorem settledFl_start {A : FloatArith K} {f : TileFile K} {idx : List Nat} (hread : Readable f idx)
    (hw : (f.uw.headD []).length = f.points.length) (bulk : List K) (hb : bulk.length = idx.length)
    {t : TileState K} (ht : t.file = f) :
    ∃ t1 t2 t', t.callFl A (.resetBandIndex idx) = .ok t1 ∧ t1.callFl A (.addCorrection (.arr1 bulk)) = .ok t2 ∧
      t2.callFl A .incrementCorrection = .ok t' ∧ SettledFl A f idx t' (fun k _ => bulk.getD k 0) := by
  obtain ⟨d, hd⟩ := (readBands_ok_iff f idx).mpr hread
  have hd := readBandsFl_ok (A := A) hd
  have hc : ∃ a, correctionArr idx.length (t.coords.length) (.arr1 bulk) = some a ∧
      a.Fits idx.length f.points.length ∧
      ∀ k p, k < idx.length → p < f.points.length → a.bget k p = bulk.getD k 0 := by
    simp only [correctionArr]
    by_cases h1 : bulk.length = 1
    · rw [if_pos h1]
      refine ⟨_, rfl, ⟨Or.inl rfl, Or.inl rfl⟩, ?_⟩
      intro k p hk hp
      rw [Arr.bget_scalar, show k = 0 by omega]
    · rw [if_neg h1, if_pos hb]
      refine ⟨_, rfl, ⟨Or.inr hb, Or.inl rfl⟩, ?_⟩
      intro k p hk hp
      simp [Arr.bget, h1]
  obtain ⟨a, hc, hfit, hval⟩ := hc
  set d' : Arr K := ⟨d.rows, d.cols, fun i j => A.fs (d.val i j)⟩
  refine ⟨{ t with idx := idx, uwdata := some d', level := 0, corrections := [] },
    { t with idx := idx, uwdata := some d', level := 0, corrections := [a] },
    { t with idx := idx, uwdata := some d', level := 1, corrections := [a] }, ?_, ?_, ?_,
    ht, rfl, hw, ⟨_, hd, rfl⟩, rfl, a, rfl, hfit, hval⟩
  · simp [TileState.callFl, TileState.stepFl, ht, hd]
  · unfold TileState.callFl TileState.stepFl TileState.step
    have : correctionArr idx.length ({ t with idx := idx, uwdata := some d', level := 0, corrections := [] } :
      TileState K).coords.length (.arr1 bulk) = some a := hc
    simp only [this, List.nil_append]
  · rfl

end

end Spurt
