import Verif.Lemmas.Runs

/-!
# Property C49, first part: running the workflow never overwrites results
-/

namespace Spurt

section
variable {K : Type}

/-- Every file of `d` is still there in `d'` with its content. A difference or model raster counts as
present when the interferogram it belongs to is. -/
structure Spec.Keeps (d d' : Disk K) : Prop where
  tiles : d.tiles ≠ none → d'.tiles = d.tiles
  tile : ∀ t, d.tile t ≠ none → d'.tile t = d.tile t
  overlap : d.overlap ≠ none → d'.overlap = d.overlap
  offsets : d.offsets ≠ none → d'.offsets = d.offsets
  unw : ∀ i, d.unw i ≠ none → d'.unw i = d.unw i ∧ d'.diff i = d.diff i ∧ d'.model i = d.model i

end

open Spec

section
variable {K : Type}

/-- The file whose presence protects a file. -/
def Slot.guard : Slot → Slot
  | .diff i => .unw i
  | .model i => .unw i
  | s => s

theorem keeps_iff {d d' : Disk K} : Keeps d d' ↔ ∀ s, d.get s.guard ≠ none → d'.get s = d.get s := by
  have inj : ∀ {α : Type} {f : α → Write K} (_ : Function.Injective f) {a b : Option α}, a.map f = b.map f ↔ a = b :=
    fun hf _ _ => (Option.map_injective hf).eq_iff
  constructor
  · intro h s hs
    cases s <;> simp only [Slot.guard, Disk.get, ne_eq, Option.map_eq_none_iff] at hs ⊢
    · rw [h.tiles hs]
    · rw [h.tile _ hs]
    · rw [h.overlap hs]
    · rw [h.offsets hs]
    · rw [(h.unw _ hs).1]
    · rw [(h.unw _ hs).2.1]
    · rw [(h.unw _ hs).2.2]
  · intro h
    refine ⟨fun hs => ?_, fun t hs => ?_, fun hs => ?_, fun hs => ?_, fun i hs => ⟨?_, ?_, ?_⟩⟩
    · exact (inj (fun a b e => by simpa using e)).mp (h .tiles (by simpa [Slot.guard, Disk.get] using hs))
    · exact (inj (fun a b e => by simpa using e)).mp (h (.tile t) (by simpa [Slot.guard, Disk.get] using hs))
    · exact (inj (fun a b e => by simpa using e)).mp (h .overlap (by simpa [Slot.guard, Disk.get] using hs))
    · exact (inj (fun a b e => by simpa using e)).mp (h .offsets (by simpa [Slot.guard, Disk.get] using hs))
    · exact (inj (fun a b e => by simpa using e)).mp (h (.unw i) (by simpa [Slot.guard, Disk.get] using hs))
    · exact (inj (fun a b e => by simpa using e)).mp (h (.diff i) (by simpa [Slot.guard, Disk.get] using hs))
    · exact (inj (fun a b e => by simpa using e)).mp (h (.model i) (by simpa [Slot.guard, Disk.get] using hs))

theorem guard_guard (s : Slot) : s.guard.guard = s.guard := by cases s <;> rfl

theorem Spec.Keeps.refl (d : Disk K) : Keeps d d := keeps_iff.mpr fun _ _ => rfl

theorem Spec.Keeps.trans {d d' d'' : Disk K} (h : Keeps d d') (h' : Keeps d' d'') : Keeps d d'' := by
  rw [keeps_iff] at *
  intro s hs
  have h1 : d'.get s.guard = d.get s.guard := h _ (by rw [guard_guard]; exact hs)
  rw [h' s (by rw [h1]; exact hs), h s hs]

/-- The writes of a plan only go to files that are not there. -/
def Fresh (d : Disk K) (p : Plan K) : Prop := ∀ t ∈ p.tasks, ∀ u ∈ t, ∀ w ∈ u, d.get w.slot.guard = none

theorem keeps_exec {d d' : Disk K} {b : Bool} {p : Plan K} (hp : Fresh d p)
    (h : Exec Disk.set (p.tasks.map List.flatten) d b d') : Keeps d d' := by
  refine h.invariant (Keeps d) ?_ (Keeps.refl d)
  intro e he t ht w hw
  obtain ⟨u, hu, rfl⟩ := List.mem_map.mp ht
  obtain ⟨v, hv, hw⟩ := List.mem_flatten.mp hw
  have hno := hp u hu v hv w hw
  rw [keeps_iff] at he ⊢
  intro s hs
  rw [Disk.get_set]
  split
  · next heq =>
    subst heq
    exact absurd hno hs
  · exact he s hs

theorem keeps_run {ss : List (Stage K)} (hs : ∀ s ∈ ss, ∀ d p, s d p → Fresh d p) {d d' : Disk K} {o : Outcome}
    (h : RunByWrite ss d o d') : Keeps d d' := by
  unfold RunByWrite at h
  induction h with
  | finish d => exact Keeps.refl d
  | stopped hp he => exact keeps_exec (hs _ (by simp) _ _ hp) he
  | raised hp _ he => exact keeps_exec (hs _ (by simp) _ _ hp) he
  | next hp _ he _ ih =>
    exact (keeps_exec (hs _ (by simp) _ _ hp) he).trans (ih fun s h => hs s (by simp [h]))

theorem Run.byWrite {ss : List (Stage K)} {d d' : Disk K} {o : Outcome} (h : RunByFile ss d o d') :
    RunByWrite ss d o d' := by
  unfold RunByFile at h
  unfold RunByWrite
  induction h with
  | finish d => exact .finish d
  | stopped hp he => exact .stopped hp (by rw [List.map_id] at he; exact he.byWrite)
  | raised hp hf he => exact .raised hp hf (by rw [List.map_id] at he; exact he.byWrite)
  | next hp hf he _ ih => exact .next hp hf (by rw [List.map_id] at he; exact he.byWrite) ih

theorem fresh_skip (d : Disk K) : Fresh d .skip := by
  intro t ht
  simp [Plan.skip] at ht

theorem fresh_raise (d : Disk K) : Fresh d .raise := by
  intro t ht
  simp [Plan.raise] at ht

/-- Every write of a list goes to the file. -/
theorem fresh_one {d : Disk K} {u : List (Write K)} {b : Bool} (h : ∀ w ∈ u, d.get w.slot.guard = none) :
    Fresh d ⟨[[u]], b⟩ := by
  intro t ht v hv w hw
  simp only [List.mem_cons, List.not_mem_nil, or_false] at ht
  subst ht
  simp only [List.mem_cons, List.not_mem_nil, or_false] at hv
  subst hv
  exact h w hw

theorem groupsWrites_slot {gs : List ((Nat × Nat) × OverlapGroup)} {w : Write K} (h : w ∈ groupsWrites gs) :
    w.slot = .overlap := by
  unfold groupsWrites at h
  obtain ⟨k, _, hw⟩ := List.mem_flatMap.mp h
  cases hg : gs[k]? with
  | none => rw [hg] at hw; simp at hw
  | some g =>
    rw [hg] at hw
    simp only [Option.elim_some, groupWrites, List.mem_map] at hw
    obtain ⟨x, _, rfl⟩ := hw
    rfl

theorem overlapUnit_slot {f : OverlapFile} {w : Write K} (h : w ∈ overlapUnit f) : w.slot = .overlap := by
  unfold overlapUnit at h
  simp only [List.mem_append, List.mem_cons, List.not_mem_nil, or_false] at h
  rcases h with (h | h) | h | h
  · subst h; rfl
  · exact groupsWrites_slot h
  · subst h; rfl
  · subst h; rfl

end

section
variable {K S : Type} [Field K] [LinearOrder K] [FloorRing K]

theorem writeRun_mem {tau : K} {shape : Nat × Nat} {ts : List (TileState K)} {l : List Nat} {x : Nat × MergedBand K}
    (h : x ∈ (writeRun tau shape ts l).1) : x.1 ∈ l := by
  induction l with
  | nil => simp [writeRun] at h
  | cons i l ih =>
    unfold writeRun at h
    cases hw : writeNumbered tau shape ts i with
    | error e => rw [hw] at h; simp at h
    | ok y =>
      rw [hw] at h
      simp only [List.mem_cons] at h ⊢
      rcases h with rfl | h
      · left
        unfold writeNumbered at hw
        cases hm : writeMergedBand tau shape ts i with
        | error e => rw [hm] at hw; simp [Bind.bind, Except.bind] at hw
        | ok m =>
          rw [hm] at hw
          simp only [Bind.bind, Except.bind, pure, Except.pure, Except.ok.injEq] at hw
          rw [← hw]
      · exact Or.inr (ih h)

theorem batchesRun_mem {tau : K} {env : MergeEnv K} {omap : List (List Nat)} {maxDegree : Nat} {bulk : List (List K)}
    {shape : Nat × Nat} {isFile : Nat → Bool} {bs : List (List Nat)} {ts : List (TileState K)} {x : Nat × MergedBand K}
    (h : x ∈ (batchesRun tau env omap maxDegree bulk shape isFile bs ts).1) : isFile x.1 = false := by
  induction bs generalizing ts with
  | nil => simp [batchesRun] at h
  | cons b bs ih =>
    have hb : ∀ x ∈ (batchRun tau env omap maxDegree bulk shape isFile ts b).1, isFile x.1 = false := by
      intro x hx
      unfold batchRun at hx
      simp only at hx
      split at hx
      · simp at hx
      · split at hx
        · simp at hx
        · have := writeRun_mem hx
          simpa using (List.mem_filter.mp this).2
    unfold batchesRun at h
    simp only at h
    split at h
    · exact hb x h
    · rw [List.mem_append] at h
      rcases h with h | h
      · exact hb x h
      · exact ih h

theorem singleRun_mem {shape : Nat × Nat} {l : List Nat} {t : TileState K} {x : Nat × Band (Option K)}
    (h : x ∈ (singleRun shape l t).1) : x.1 ∈ l := by
  induction l generalizing t with
  | nil => simp [singleRun] at h
  | cons i l ih =>
    unfold singleRun at h
    split at h
    · simp at h
    · simp only [List.mem_cons] at h ⊢
      rcases h with rfl | h
      · exact Or.inl rfl
      · exact Or.inr (ih h)

theorem mergeWork_fresh {P : Flow K S} {d : Disk K} {us : List (List (Write K))} {b : Bool}
    (h : P.mergeWork d = .ok (us, b)) : ∀ u ∈ us, ∀ w ∈ u, d.get w.slot.guard = none := by
  unfold Flow.mergeWork at h
  split at h
  · simp at h
  cases ht : d.readTiles with
  | error e => rw [ht] at h; simp [Bind.bind, Except.bind] at h
  | ok tiles =>
  rw [ht] at h
  simp only [Bind.bind, Except.bind] at h
  split at h
  · simp at h
  rename_i ts _
  split at h
  · cases h0 : ts[0]? with
    | none => rw [h0] at h; simp at h
    | some t =>
      rw [h0] at h
      simp only [Option.elim_some, pure, Except.pure, Except.ok.injEq, Prod.mk.injEq] at h
      obtain ⟨rfl, _⟩ := h
      intro u hu w hw
      obtain ⟨x, hx, rfl⟩ := List.mem_map.mp hu
      have := (List.mem_filter.mp (singleRun_mem hx)).2
      simp only [Bool.not_eq_true', Option.isSome_eq_false_iff, Option.isNone_iff_eq_none] at this
      simp only [singleUnit, List.mem_cons, List.not_mem_nil, or_false] at hw
      rcases hw with rfl | rfl <;> simp [Write.slot, Slot.guard, Disk.get, this]
  · split at h
    · simp at h
    split at h
    · simp at h
    split at h
    · simp at h
    split at h
    · simp at h
    split at h
    · simp at h
    split at h
    · simp at h
    simp only [pure, Except.pure, Except.ok.injEq, Prod.mk.injEq] at h
    obtain ⟨rfl, _⟩ := h
    intro u hu w hw
    obtain ⟨x, hx, rfl⟩ := List.mem_map.mp hu
    have := batchesRun_mem hx
    simp only [Option.isSome_eq_false_iff, Option.isNone_iff_eq_none] at this
    simp only [bandUnit, List.mem_cons, List.not_mem_nil, or_false] at hw
    rcases hw with rfl | rfl | rfl | rfl | rfl | rfl <;> simp [Write.slot, Slot.guard, Disk.get, this]

theorem stages_fresh (P : Flow K S) : ∀ s ∈ P.stages, ∀ d p, s d p → Fresh d p := by
  intro s hs d p h
  simp only [Flow.stages, List.mem_cons, List.not_mem_nil, or_false] at hs
  rcases hs with rfl | rfl | rfl | rfl | rfl
  · unfold Flow.tilesStage at h
    split at h
    · subst h; exact fresh_skip d
    · rename_i hn
      split at h
      · subst h; exact fresh_raise d
      · subst h
        refine fresh_one fun w hw => ?_
        have : d.tiles = none := by simpa using hn
        simp only [tilesUnit, List.mem_cons, List.not_mem_nil, or_false] at hw
        rcases hw with rfl | rfl <;> simp [Write.slot, Slot.guard, Disk.get, this]
  · unfold Flow.unwrapStage at h
    split at h
    · obtain ⟨oT, oS, _, _, rfl⟩ := h
      intro t ht u hu w hw
      obtain ⟨k, hk, rfl⟩ := List.mem_map.mp ht
      have hno : d.tile k = none := by simpa using (List.mem_filter.mp hk).2
      split at hu
      · simp only [List.mem_cons, List.not_mem_nil, or_false] at hu
        subst hu
        simp only [tileUnit, List.mem_cons, List.not_mem_nil, or_false] at hw
        rcases hw with rfl | rfl | rfl | rfl | rfl <;> simp [Write.slot, Slot.guard, Disk.get, hno]
      · simp at hu
    · subst h; exact fresh_raise d
  · unfold Flow.overlapStage at h
    split at h
    · subst h; exact fresh_skip d
    · rename_i hn
      have hno : d.overlap = none := by simpa using hn
      split at h
      · subst h; exact fresh_raise d
      · split at h
        · subst h; exact fresh_skip d
        · simp only at h
          split at h
          · subst h
            refine fresh_one fun w hw => ?_
            have : w.slot = .overlap := by
              split at hw
              · simp at hw
              · rw [List.mem_append] at hw
                rcases hw with hw | hw
                · simp only [List.mem_cons, List.not_mem_nil, or_false] at hw; subst hw; rfl
                · exact groupsWrites_slot hw
            simp [this, Slot.guard, Disk.get, hno]
          · subst h
            refine fresh_one fun w hw => ?_
            simp [overlapUnit_slot hw, Slot.guard, Disk.get, hno]
  · unfold Flow.bulkStage at h
    split at h
    · subst h; exact fresh_skip d
    · rename_i hn
      have hno : d.offsets = none := by simpa using hn
      split at h
      · subst h; exact fresh_raise d
      · split at h
        · subst h; exact fresh_skip d
        · split at h
          · subst h
            refine fresh_one fun w hw => ?_
            simp only [offsetsUnit, List.mem_cons, List.not_mem_nil, or_false] at hw
            rcases hw with rfl | rfl | rfl | rfl <;> simp [Write.slot, Slot.guard, Disk.get, hno]
          · subst h; exact fresh_skip d
          · subst h; exact fresh_raise d
  · unfold Flow.mergeStage at h
    split at h
    · rename_i r hr
      subst h
      intro t ht u hu w hw
      simp only [List.mem_cons, List.not_mem_nil, or_false] at ht
      subst ht
      exact mergeWork_fresh hr u hu w hw
    · subst h; exact fresh_raise d

/-- C49. A run of the workflow, stopped after any write, ended by an exception or completed, and
whatever the files it started with, leaves every existing file as it was: tiles, tile results,
overlaps, offsets, and every interferogram together with its difference and model rasters. -/
theorem C49_never_overwrites (P : Flow K S) (d d' : Disk K) (o : Outcome) (h : RunByWrite P.stages d o d') :
    Keeps d d' := keeps_run (stages_fresh P) h

end

end Spurt
