import Verif.Props.Resume

/-!
# What a crash between two writes can leave behind
-/

namespace Spurt
open Spec

section
variable {K : Type}

/-- The content of a file that was created and not filled. -/
def Slot.created : Slot → Write K
  | .tiles => .tiles none
  | .tile t => .tile t {}
  | .overlap => .overlap {}
  | .offsets => .offsets {}
  | .unw i => .unw i none
  | .diff i => .diff i none
  | .model i => .model i none

/-- A content that is not complete. -/
def Write.incomplete : Write K → Prop
  | .tiles c => c = none
  | .tile _ h => ∀ f, h ≠ TileH5.full f
  | .overlap h => h.overlaps = none
  | .offsets h => h.residuals = none
  | .unw _ c => c = none
  | .diff _ c => c = none
  | .model _ c => c = none

/-- What is common to all units of the stages: a file is created empty, after the file that guards it,
and all its contents before the last are incomplete. -/
structure Gradual (u : List (Write K)) : Prop where
  created : ∀ s, Writes u s → ∃ l r, u = l ++ s.created :: r ∧ (s.guard ≠ s → Writes l s.guard)
  steps : ∀ w ∈ u, w.incomplete ∨ lastW u w.slot = some w

theorem gradual_one {u : List (Write K)} {w : Write K} (hs : (∀ x ∈ u, x.slot = w.slot) ∧ u.getLast? = some w)
    (hg : w.slot.guard = w.slot) (hc : w.slot.created ∈ u) (hi : ∀ x ∈ u, x.incomplete ∨ x = w) : Gradual u := by
  refine ⟨?_, ?_⟩
  · intro s h
    rw [writes_one hs.1 hs.2] at h
    subst h
    obtain ⟨l, r, h⟩ := List.append_of_mem hc
    exact ⟨l, r, h, fun hn => absurd hg hn⟩
  · intro x hx
    rcases hi x hx with h | rfl
    · exact Or.inl h
    · right
      unfold lastW
      rw [List.filter_eq_self.mpr fun y hy => by simp [hs.1 y hy], hs.2]

theorem gradual_tiles (j : Json) : Gradual (tilesUnit j : List (Write K)) := by
  refine gradual_one (tilesUnit_one j) rfl (by simp [tilesUnit, Slot.created, Write.slot]) ?_
  intro x hx
  simp only [tilesUnit, List.mem_cons, List.not_mem_nil, or_false] at hx
  rcases hx with rfl | rfl <;> simp [Write.incomplete]

theorem gradual_tile (t : Nat) (f : TileFile K) : Gradual (tileUnit t f) := by
  refine gradual_one (tileUnit_one t f) rfl (by simp [tileUnit, Slot.created, Write.slot]) ?_
  intro x hx
  simp only [tileUnit, List.mem_cons, List.not_mem_nil, or_false] at hx
  rcases hx with rfl | rfl | rfl | rfl | rfl <;> simp [Write.incomplete, TileH5.full]

theorem groupsWrites_incomplete {gs : List ((Nat × Nat) × OverlapGroup)} {w : Write K} (h : w ∈ groupsWrites gs) :
    w.incomplete := by
  unfold groupsWrites at h
  obtain ⟨k, _, hw⟩ := List.mem_flatMap.mp h
  cases hg : gs[k]? with
  | none => rw [hg] at hw; simp at hw
  | some g =>
    rw [hg] at hw
    simp only [Option.elim_some, groupWrites, List.mem_map] at hw
    obtain ⟨x, _, rfl⟩ := hw
    rfl

theorem gradual_overlap (f : OverlapFile) : Gradual (overlapUnit f : List (Write K)) := by
  refine gradual_one (overlapUnit_one f) rfl (by simp [overlapUnit, Slot.created, Write.slot]) ?_
  intro x hx
  unfold overlapUnit at hx
  simp only [List.mem_append, List.mem_cons, List.not_mem_nil, or_false] at hx
  rcases hx with (rfl | h) | rfl | rfl
  · left; rfl
  · exact Or.inl (groupsWrites_incomplete h)
  · left; rfl
  · right; rfl

theorem gradual_offsets (f : BulkFile K) : Gradual (offsetsUnit f) := by
  refine gradual_one (offsetsUnit_one f) rfl (by simp [offsetsUnit, Slot.created, Write.slot]) ?_
  intro x hx
  simp only [offsetsUnit, List.mem_cons, List.not_mem_nil, or_false] at hx
  rcases hx with rfl | rfl | rfl | rfl <;> simp [Write.incomplete, OffsetsH5.full]

theorem gradual_single (i : Nat) (b : Band (Option K)) : Gradual (singleUnit i b) := by
  refine gradual_one (singleUnit_one i b) rfl (by simp [singleUnit, Slot.created, Write.slot]) ?_
  intro x hx
  simp only [singleUnit, List.mem_cons, List.not_mem_nil, or_false] at hx
  rcases hx with rfl | rfl <;> simp [Write.incomplete]

theorem gradual_band (i : Nat) (m : MergedBand K) : Gradual (bandUnit i m) := by
  refine ⟨?_, ?_⟩
  · intro s h
    rw [bandUnit_writes] at h
    rcases h with rfl | rfl | rfl
    · exact ⟨[], _, rfl, fun hn => absurd rfl hn⟩
    · exact ⟨[.unw i none, .unw i (some m.out)], _, rfl, fun _ => ⟨.unw i none, by simp, rfl⟩⟩
    · exact ⟨[.unw i none, .unw i (some m.out), .diff i none, .diff i (some m.diff)], _, rfl,
        fun _ => ⟨.unw i none, by simp, rfl⟩⟩
  · intro x hx
    rw [bandUnit_last]
    simp only [bandUnit, List.mem_cons, List.not_mem_nil, or_false] at hx
    rcases hx with rfl | rfl | rfl | rfl | rfl | rfl <;> simp [Write.incomplete, Write.slot]

theorem gradual_nil : Gradual ([] : List (Write K)) := ⟨by rintro s ⟨w, h, _⟩; simp at h, by simp⟩

theorem gradual_partial_overlap (gs : List ((Nat × Nat) × OverlapGroup)) :
    Gradual ([.overlap {}] ++ groupsWrites gs : List (Write K)) := by
  refine ⟨?_, ?_⟩
  · rintro s ⟨w, hw, rfl⟩
    have : w.slot = .overlap := by
      rw [List.mem_append] at hw
      rcases hw with hw | hw
      · simp only [List.mem_cons, List.not_mem_nil, or_false] at hw; subst hw; rfl
      · exact groupsWrites_slot hw
    rw [this]
    exact ⟨[], _, rfl, fun hn => absurd rfl hn⟩
  · intro w hw
    left
    rw [List.mem_append] at hw
    rcases hw with hw | hw
    · simp only [List.mem_cons, List.not_mem_nil, or_false] at hw; subst hw; rfl
    · exact groupsWrites_incomplete hw

/-- Every unit is gradual and writes to the files of the stage. -/
def PlanForm (k : Nat) (p : Plan K) : Prop := ∀ t ∈ p.tasks, ∀ u ∈ t, Gradual u ∧ ∀ w ∈ u, w.slot.stage = k

theorem planForm_skip (k : Nat) : PlanForm k (.skip : Plan K) := by
  intro t ht
  simp [Plan.skip] at ht

theorem planForm_raise (k : Nat) : PlanForm k (.raise : Plan K) := by
  intro t ht
  simp [Plan.raise] at ht

theorem planForm_one {k : Nat} {u : List (Write K)} {b : Bool} (h : Gradual u) (h' : ∀ w ∈ u, w.slot.stage = k) :
    PlanForm k ⟨[[u]], b⟩ := by
  intro t ht v hv
  simp only [List.mem_cons, List.not_mem_nil, or_false] at ht
  subst ht
  simp only [List.mem_cons, List.not_mem_nil, or_false] at hv
  subst hv
  exact ⟨h, h'⟩

end

section
variable {K S : Type} [Field K] [LinearOrder K] [FloorRing K]

theorem mergeWork_form {P : Flow K S} {d : Disk K} {us : List (List (Write K))} {b : Bool}
    (h : P.mergeWork d = .ok (us, b)) : ∀ u ∈ us, Gradual u ∧ ∀ w ∈ u, w.slot.stage = 4 := by
  unfold Flow.mergeWork at h
  split at h
  · simp at h
  cases ht : d.readTiles with
  | error e => rw [ht] at h; simp [Bind.bind, Except.bind] at h
  | ok tiles =>
  rw [ht] at h
  simp only [Bind.bind, Except.bind] at h
  split at h
  · simp at h
  rename_i ts _
  split at h
  · cases h0 : ts[0]? with
    | none => rw [h0] at h; simp at h
    | some t =>
      rw [h0] at h
      simp only [Option.elim_some, pure, Except.pure, Except.ok.injEq, Prod.mk.injEq] at h
      obtain ⟨rfl, _⟩ := h
      intro u hu
      obtain ⟨x, hx, rfl⟩ := List.mem_map.mp hu
      refine ⟨gradual_single _ _, fun w hw => ?_⟩
      simp only [singleUnit, List.mem_cons, List.not_mem_nil, or_false] at hw
      rcases hw with rfl | rfl <;> rfl
  · split at h
    · simp at h
    split at h
    · simp at h
    split at h
    · simp at h
    split at h
    · simp at h
    split at h
    · simp at h
    split at h
    · simp at h
    simp only [pure, Except.pure, Except.ok.injEq, Prod.mk.injEq] at h
    obtain ⟨rfl, _⟩ := h
    intro u hu
    obtain ⟨x, hx, rfl⟩ := List.mem_map.mp hu
    refine ⟨gradual_band _ _, fun w hw => ?_⟩
    simp only [bandUnit, List.mem_cons, List.not_mem_nil, or_false] at hw
    rcases hw with rfl | rfl | rfl | rfl | rfl | rfl <;> rfl

theorem stages_form (P : Flow K S) (k : Nat) (s : Stage K) (hs : P.stages[k]? = some s) (d : Disk K) (p : Plan K)
    (h : s d p) : PlanForm k p := by
  match k, hs with
  | 0, hs =>
    simp [Flow.stages] at hs
    subst hs
    unfold Flow.tilesStage at h
    split at h
    · subst h; exact planForm_skip _
    · split at h
      · subst h; exact planForm_raise _
      · subst h
        refine planForm_one (gradual_tiles _) fun w hw => ?_
        rw [(tilesUnit_one _).1 w hw]; rfl
  | 1, hs =>
    simp [Flow.stages] at hs
    subst hs
    unfold Flow.unwrapStage at h
    split at h
    · obtain ⟨oT, oS, _, _, rfl⟩ := h
      intro t ht u hu
      obtain ⟨k, hk, rfl⟩ := List.mem_map.mp ht
      split at hu
      · simp only [List.mem_cons, List.not_mem_nil, or_false] at hu
        subst hu
        refine ⟨gradual_tile _ _, fun w hw => ?_⟩
        rw [(tileUnit_one _ _).1 w hw]; rfl
      · simp at hu
    · subst h; exact planForm_raise _
  | 2, hs =>
    simp [Flow.stages] at hs
    subst hs
    unfold Flow.overlapStage at h
    split at h
    · subst h; exact planForm_skip _
    · split at h
      · subst h; exact planForm_raise _
      · split at h
        · subst h; exact planForm_skip _
        · simp only at h
          split at h
          · subst h
            split
            · exact planForm_one gradual_nil (by simp)
            · refine planForm_one (gradual_partial_overlap _) fun w hw => ?_
              rw [List.mem_append] at hw
              rcases hw with hw | hw
              · simp only [List.mem_cons, List.not_mem_nil, or_false] at hw; subst hw; rfl
              · rw [groupsWrites_slot hw]; rfl
          · subst h
            refine planForm_one (gradual_overlap _) fun w hw => ?_
            rw [overlapUnit_slot hw]; rfl
  | 3, hs =>
    simp [Flow.stages] at hs
    subst hs
    unfold Flow.bulkStage at h
    split at h
    · subst h; exact planForm_skip _
    · split at h
      · subst h; exact planForm_raise _
      · split at h
        · subst h; exact planForm_skip _
        · split at h
          · subst h
            refine planForm_one (gradual_offsets _) fun w hw => ?_
            rw [(offsetsUnit_one _).1 w hw]; rfl
          · subst h; exact planForm_skip _
          · subst h; exact planForm_raise _
  | 4, hs =>
    simp [Flow.stages] at hs
    subst hs
    unfold Flow.mergeStage at h
    split at h
    · rename_i r hr
      subst h
      intro t ht u hu
      simp only [List.mem_cons, List.not_mem_nil, or_false] at ht
      subst ht
      exact mergeWork_form hr u hu
    · subst h; exact planForm_raise _
  | n + 5, hs => simp [Flow.stages] at hs

end

section
variable {K : Type}

theorem run_append {ss ss' : List (Stage K)} {d e d' : Disk K} {o : Outcome} (h : RunByWrite ss d .completed e)
    (h' : RunByWrite ss' e o d') : RunByWrite (ss ++ ss') d o d' := by
  unfold RunByWrite at *
  generalize ho : Outcome.completed = oc at h
  induction h with
  | finish d => exact h'
  | stopped => simp at ho
  | raised => simp at ho
  | next h1 h2 h3 _ ih =>
    exact .next h1 h2 h3 (ih h' ho)

/-- After the first stages of a completed run there is no file of a later stage. -/
theorem run_upto {d1 : Disk K} {ss : List (Stage K)} {j : Nat}
    (hok : ∀ (i : Nat) st, ss[i]? = some st → StageOk d1 (j + i) st)
    (hform : ∀ (i : Nat) st, ss[i]? = some st → ∀ d p, st d p → PlanForm (j + i) p)
    {d : Disk K} (hd : SubDisk d d1) (ha : AgreeUpTo j d d1) (hno : ∀ s : Slot, j ≤ s.stage → d.get s = none)
    (k : Nat) (hk : k ≤ ss.length) :
    ∃ e, RunByWrite (ss.take k) d .completed e ∧ SubDisk e d1 ∧ AgreeUpTo (j + k) e d1 ∧
      ∀ s : Slot, j + k ≤ s.stage → e.get s = none := by
  induction k generalizing ss j d with
  | zero => exact ⟨d, .finish d, hd, ha, hno⟩
  | succ k ih =>
    cases ss with
    | nil => simp at hk
    | cons st ss =>
      obtain ⟨⟨p, hp⟩, hall⟩ := hok 0 st rfl d hd ha
      have hp' := hall p hp
      obtain ⟨d', he⟩ := Exec.exists_complete (fun (d : Disk K) u => u.foldl Disk.set d) p.tasks d
      have he := he.byWrite
      obtain ⟨e1, e2⟩ := planOk_done hp' hd ha he
      have hf := hform 0 st rfl d p hp
      obtain ⟨e, r1, r2, r3, r4⟩ := ih (ss := ss) (j := j + 1) (fun i st hi => by
          have := hok (i + 1) st (by simpa using hi)
          rwa [show j + (i + 1) = j + 1 + i by omega] at this) (fun i st hi => by
          have := hform (i + 1) st (by simpa using hi)
          rwa [show j + (i + 1) = j + 1 + i by omega] at this) e1 e2 (by
          intro s hs
          have hnw : ∀ t ∈ p.tasks.map List.flatten, ¬ Writes t s := by
            rintro t ht ⟨w, hw, rfl⟩
            obtain ⟨us, hus, rfl⟩ := List.mem_map.mp ht
            obtain ⟨u, hu, hw⟩ := List.mem_flatten.mp hw
            have := (hf us hus u hu).2 w hw
            omega
          have hinv := he.invariant (fun e => e.get s = none) (by
            intro e he t ht w hw
            rw [Disk.get_set, if_neg (fun hc => hnw t ht ⟨w, hw, hc⟩)]
            exact he) (hno s (by omega))
          exact hinv) (by simpa using hk)
      refine ⟨e, ?_, r2, ?_, ?_⟩
      · rw [List.take_succ_cons]
        exact .next hp hp'.fine he r1
      · rwa [show j + (k + 1) = j + 1 + k by omega]
      · rwa [show j + (k + 1) = j + 1 + k by omega]

theorem Exec.prefix_stop {D X : Type} {act : D → X → D} {ts : List (List X)} {t l rest : List X} (ht : t ∈ ts)
    (h : t = l ++ rest) (d : D) : Exec act ts d false (l.foldl act d) := by
  obtain ⟨k, hk, rfl⟩ := List.mem_iff_getElem.mp ht
  exact Exec.append_prefix (k := k) l rest (by rw [List.getElem?_eq_getElem hk, h]) (.stop _ _)

end

end Spurt
