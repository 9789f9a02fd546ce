import Verif.Props.Workflow

/-!
# Resuming from a subset of the files of a completed run: the general argument
-/

namespace Spurt

section
variable {K : Type}

/-- Every file of `d` is a file of `d1` with the same content, and when an interferogram's `.unw.tif`
is there, so are its companions. -/
structure Spec.SubDisk (d d1 : Disk K) : Prop where
  tiles : d.tiles ≠ none → d.tiles = d1.tiles
  tile : ∀ t, d.tile t ≠ none → d.tile t = d1.tile t
  overlap : d.overlap ≠ none → d.overlap = d1.overlap
  offsets : d.offsets ≠ none → d.offsets = d1.offsets
  unw : ∀ i, d.unw i ≠ none → d.unw i = d1.unw i ∧ d.diff i = d1.diff i ∧ d.model i = d1.model i
  diff : ∀ i, d.diff i ≠ none → d.diff i = d1.diff i
  model : ∀ i, d.model i ≠ none → d.model i = d1.model i

end

open Spec

section
variable {K : Type}

theorem get_inj {d d' : Disk K} (s : Slot) :
    (d.get s = d'.get s ↔ match s with
      | .tiles => d.tiles = d'.tiles
      | .tile t => d.tile t = d'.tile t
      | .overlap => d.overlap = d'.overlap
      | .offsets => d.offsets = d'.offsets
      | .unw i => d.unw i = d'.unw i
      | .diff i => d.diff i = d'.diff i
      | .model i => d.model i = d'.model i) := by
  have inj : ∀ {α : Type} {f : α → Write K} (_ : Function.Injective f) {a b : Option α}, a.map f = b.map f ↔ a = b :=
    fun hf _ _ => (Option.map_injective hf).eq_iff
  cases s <;> exact inj (fun a b e => by simpa using e)

theorem get_none {d : Disk K} (s : Slot) :
    (d.get s = none ↔ match s with
      | .tiles => d.tiles = none
      | .tile t => d.tile t = none
      | .overlap => d.overlap = none
      | .offsets => d.offsets = none
      | .unw i => d.unw i = none
      | .diff i => d.diff i = none
      | .model i => d.model i = none) := by
  cases s <;> simp [Disk.get]

theorem subDisk_iff {d d1 : Disk K} : SubDisk d d1 ↔
    (∀ s, d.get s ≠ none → d.get s = d1.get s) ∧
    ∀ s, d.get s.guard ≠ none → d.get s = d1.get s := by
  constructor
  · intro h
    constructor
    · intro s hs
      rw [Ne, get_none] at hs
      rw [get_inj]
      cases s
      · exact h.tiles hs
      · exact h.tile _ hs
      · exact h.overlap hs
      · exact h.offsets hs
      · exact (h.unw _ hs).1
      · exact h.diff _ hs
      · exact h.model _ hs
    · intro s hs
      rw [Ne, get_none] at hs
      rw [get_inj]
      cases s
      · exact h.tiles hs
      · exact h.tile _ hs
      · exact h.overlap hs
      · exact h.offsets hs
      · exact (h.unw _ hs).1
      · exact (h.unw _ hs).2.1
      · exact (h.unw _ hs).2.2
  · rintro ⟨h, h'⟩
    have e := fun s (hs : d.get s ≠ none) => (get_inj s).mp (h s hs)
    have e' := fun s (hs : d.get (Slot.guard s) ≠ none) => (get_inj s).mp (h' s hs)
    exact ⟨fun hs => e .tiles fun hc => hs ((get_none _).mp hc), fun t hs => e (.tile t) fun hc => hs ((get_none _).mp hc),
      fun hs => e .overlap fun hc => hs ((get_none _).mp hc), fun hs => e .offsets fun hc => hs ((get_none _).mp hc),
      fun i hs => ⟨e (.unw i) fun hc => hs ((get_none _).mp hc), e' (.diff i) fun hc => hs ((get_none (.unw i)).mp hc),
        e' (.model i) fun hc => hs ((get_none (.unw i)).mp hc)⟩,
      fun i hs => e (.diff i) fun hc => hs ((get_none _).mp hc), fun i hs => e (.model i) fun hc => hs ((get_none _).mp hc)⟩

theorem subDisk_refl (d : Disk K) : SubDisk d d := subDisk_iff.mpr ⟨fun _ _ => rfl, fun _ _ => rfl⟩

theorem subDisk_empty (d : Disk K) : SubDisk Disk.empty d := by
  constructor <;> simp [Disk.empty]

/-- The stage that writes a file. -/
def Slot.stage : Slot → Nat
  | .tiles => 0
  | .tile _ => 1
  | .overlap => 2
  | .offsets => 3
  | .unw _ => 4
  | .diff _ => 4
  | .model _ => 4

/-- The files of the first stages are those of `d1`. -/
def AgreeUpTo (k : Nat) (d d1 : Disk K) : Prop := ∀ s : Slot, s.stage < k → d.get s = d1.get s

/-- One unit of writing brings its files to the content in `d1`, and all rasters of an interferogram. -/
def UnitOk (d1 : Disk K) (u : List (Write K)) : Prop :=
  Consistent d1.get u ∧ ∀ s : Slot, Writes u s.guard → Writes u s ∨ d1.get s = none

/-- The plan of a stage completes the files of the stage. -/
structure PlanOk (d d1 : Disk K) (k : Nat) (p : Plan K) : Prop where
  fine : p.fails = false
  units : ∀ t ∈ p.tasks, ∀ u ∈ t, UnitOk d1 u
  files : ∀ s : Slot, s.stage = k → d.get s = d1.get s ∨ ∃ t ∈ p.tasks, ∃ u ∈ t, Writes u s

/-- A stage that can be resumed. -/
def StageOk (d1 : Disk K) (k : Nat) (st : Stage K) : Prop :=
  ∀ d, SubDisk d d1 → AgreeUpTo k d d1 → (∃ p, st d p) ∧ ∀ p, st d p → PlanOk d d1 k p

theorem subDisk_unit {d d1 : Disk K} {u : List (Write K)} (hu : UnitOk d1 u) (h : SubDisk d d1) :
    SubDisk (u.foldl Disk.set d) d1 := by
  rw [subDisk_iff] at h ⊢
  have key : ∀ s, (u.foldl Disk.set d).get s = d1.get s ∨ ((u.foldl Disk.set d).get s = d.get s ∧ ¬ Writes u s) := by
    intro s
    rw [get_foldl_set]
    by_cases hw : Writes u s
    · left
      have := hu.1 s hw
      rw [this]
      cases e : d1.get s with
      | some w => rfl
      | none => exact absurd hw (lastW_none.mp (this.trans e))
    · right
      rw [lastW_none.mpr hw]
      exact ⟨rfl, hw⟩
  constructor
  · intro s hs
    rcases key s with e | ⟨e, _⟩
    · exact e
    · rw [e] at hs ⊢
      exact h.1 s hs
  · intro s hs
    rcases key s with e | ⟨e, hn⟩
    · exact e
    · rw [e]
      by_cases hw : Writes u s.guard
      · rcases hu.2 s hw with h' | h'
        · exact absurd h' hn
        · by_contra hc
          exact hc (h.1 s (by rw [h'] at hc; exact hc))
      · have e2 : (u.foldl Disk.set d).get s.guard = d.get s.guard := by
          rw [get_foldl_set, lastW_none.mpr hw]; rfl
        rw [e2] at hs
        exact h.2 s hs

theorem planOk_prefix {d d1 : Disk K} {p : Plan K} (hu : ∀ t ∈ p.tasks, ∀ u ∈ t, UnitOk d1 u) (hd : SubDisk d d1)
    {b : Bool} {d' : Disk K} (h : Exec (fun d u => u.foldl Disk.set d) p.tasks d b d') : SubDisk d' d1 :=
  h.invariant (fun d => SubDisk d d1) (fun _ he t ht u hx => subDisk_unit (hu t ht u hx) he) hd

theorem planOk_done {d d1 : Disk K} {k : Nat} {p : Plan K} (hp : PlanOk d d1 k p) (hd : SubDisk d d1) (ha : AgreeUpTo k d d1)
    {d' : Disk K} (h : Exec Disk.set (p.tasks.map List.flatten) d true d') : SubDisk d' d1 ∧ AgreeUpTo (k + 1) d' d1 := by
  have hc : ∀ t ∈ p.tasks.map List.flatten, Consistent d1.get t := by
    intro t ht
    obtain ⟨us, hus, rfl⟩ := List.mem_map.mp ht
    exact consistent_flatten fun u hu => (hp.units us hus u hu).1
  have hfin := fun s => h.final rfl d1.get hc s
  have key : ∀ s, d'.get s = d1.get s ∨ (d'.get s = d.get s ∧ ∀ t ∈ p.tasks, ∀ u ∈ t, ¬ Writes u s) := by
    intro s
    by_cases hw : ∃ t ∈ p.tasks.map List.flatten, Writes t s
    · exact Or.inl ((hfin s).1 hw)
    · push Not at hw
      refine Or.inr ⟨(hfin s).2 hw, fun t ht u hu hws => hw t.flatten (List.mem_map_of_mem ht) ?_⟩
      exact writes_flatten.mpr ⟨u, hu, hws⟩
  rw [subDisk_iff] at hd ⊢
  refine ⟨⟨?_, ?_⟩, ?_⟩
  · intro s hs
    rcases key s with e | ⟨e, _⟩
    · exact e
    · rw [e] at hs ⊢
      exact hd.1 s hs
  · intro s hs
    rcases key s with e | ⟨e, hn⟩
    · exact e
    · rw [e]
      by_cases hw : ∃ t ∈ p.tasks, ∃ u ∈ t, Writes u s.guard
      · obtain ⟨t, ht, u, hu, hw⟩ := hw
        rcases (hp.units t ht u hu).2 s hw with h' | h'
        · exact absurd h' (hn t ht u hu)
        · by_contra hc
          exact hc (hd.1 s (by rw [h'] at hc; exact hc))
      · push Not at hw
        have e2 : d'.get s.guard = d.get s.guard := by
          refine (hfin s.guard).2 fun t ht hws => ?_
          obtain ⟨us, hus, rfl⟩ := List.mem_map.mp ht
          obtain ⟨u, hu, hws⟩ := writes_flatten.mp hws
          exact hw us hus u hu hws
        rw [e2] at hs
        exact hd.2 s hs
  · intro s hs
    rcases key s with e | ⟨e, hn⟩
    · exact e
    · rw [e]
      rcases Nat.lt_succ_iff_lt_or_eq.mp hs with hlt | heq
      · exact ha s hlt
      · rcases hp.files s heq with h' | ⟨t, ht, u, hu, hw⟩
        · exact h'
        · exact absurd hw (hn t ht u hu)

/-- Runs that stop only between files. -/
theorem resume_byFile {d1 : Disk K} {ss : List (Stage K)} {k : Nat}
    (hok : ∀ (i : Nat) st, ss[i]? = some st → StageOk d1 (k + i) st) {d d' : Disk K} {o : Outcome}
    (hd : SubDisk d d1) (ha : AgreeUpTo k d d1) (h : RunByFile ss d o d') :
    o ≠ .raised ∧ SubDisk d' d1 ∧ (o = .completed → AgreeUpTo (k + ss.length) d' d1) := by
  unfold RunByFile at h
  induction h generalizing k with
  | finish d => exact ⟨by simp, hd, fun _ => ha⟩
  | stopped hp he =>
    have := (hok 0 _ rfl _ hd ha).2 _ hp
    rw [List.map_id] at he
    exact ⟨by simp, planOk_prefix this.units hd he, by simp⟩
  | raised hp hf he =>
    have := ((hok 0 _ rfl _ hd ha).2 _ hp).fine
    rw [hf] at this
    simp at this
  | @next s ss d d' d'' p o hp hf he _ ih =>
    have hp' := (hok 0 _ rfl _ hd ha).2 _ hp
    rw [List.map_id] at he
    obtain ⟨e1, e2⟩ := planOk_done hp' hd ha he.byWrite
    obtain ⟨f1, f2, f3⟩ := ih (k := k + 1) (fun i st hi => by
      have := hok (i + 1) st (by simpa using hi)
      rwa [show k + (i + 1) = k + 1 + i by omega] at this) e1 e2
    refine ⟨f1, f2, fun ho => ?_⟩
    have := f3 ho
    rwa [show k + 1 + ss.length = k + (s :: ss).length by simp; omega] at this

/-- Runs that may stop between any two writes, if they do not. -/
theorem resume_byWrite {d1 : Disk K} {ss : List (Stage K)} {k : Nat}
    (hok : ∀ (i : Nat) st, ss[i]? = some st → StageOk d1 (k + i) st) {d d' : Disk K} {o : Outcome}
    (hd : SubDisk d d1) (ha : AgreeUpTo k d d1) (h : RunByWrite ss d o d') :
    o ≠ .raised ∧ (o = .completed → SubDisk d' d1 ∧ AgreeUpTo (k + ss.length) d' d1) := by
  unfold RunByWrite at h
  induction h generalizing k with
  | finish d => exact ⟨by simp, fun _ => ⟨hd, ha⟩⟩
  | stopped hp he => exact ⟨by simp, by simp⟩
  | raised hp hf he =>
    have := ((hok 0 _ rfl _ hd ha).2 _ hp).fine
    rw [hf] at this
    simp at this
  | @next s ss d d' d'' p o hp hf he _ ih =>
    have hp' := (hok 0 _ rfl _ hd ha).2 _ hp
    obtain ⟨e1, e2⟩ := planOk_done hp' hd ha he
    obtain ⟨f1, f2⟩ := ih (k := k + 1) (fun i st hi => by
      have := hok (i + 1) st (by simpa using hi)
      rwa [show k + (i + 1) = k + 1 + i by omega] at this) e1 e2
    refine ⟨f1, fun ho => ?_⟩
    have := f2 ho
    rwa [show k + 1 + ss.length = k + (s :: ss).length by simp; omega] at this

theorem resume_exists {d1 : Disk K} {ss : List (Stage K)} {k : Nat}
    (hok : ∀ (i : Nat) st, ss[i]? = some st → StageOk d1 (k + i) st) {d : Disk K}
    (hd : SubDisk d d1) (ha : AgreeUpTo k d d1) : ∃ d', RunByFile ss d .completed d' := by
  induction ss generalizing k d with
  | nil => exact ⟨d, .finish d⟩
  | cons s ss ih =>
    obtain ⟨⟨p, hp⟩, hall⟩ := hok 0 s rfl d hd ha
    have hp' := hall p hp
    obtain ⟨d', he⟩ := Exec.exists_complete (fun (d : Disk K) u => u.foldl Disk.set d) p.tasks d
    obtain ⟨e1, e2⟩ := planOk_done hp' hd ha he.byWrite
    obtain ⟨d'', hr⟩ := ih (k := k + 1) (fun i st hi => by
      have := hok (i + 1) st (by simpa using hi)
      rwa [show k + (i + 1) = k + 1 + i by omega] at this) e1 e2
    exact ⟨d'', .next hp hp'.fine (by rw [List.map_id]; exact he) hr⟩

theorem agree_eq {d d1 : Disk K} (h : AgreeUpTo 5 d d1) : d = d1 :=
  Disk.ext_get fun s => h s (by cases s <;> simp [Slot.stage])

end

end Spurt
