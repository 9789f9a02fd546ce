import Verif.Lemmas.ResumeStages
import Verif.Props.TilesFile
import Verif.Props.TilingDensity

/-!
# The files of a completed run, and why every stage can be resumed
-/

namespace Spurt
open Spec

section
variable {K : Type}

theorem Exec.single {D X : Type} {act : D → X → D} {ts : List (List X)} {d d' : D} {b : Bool}
    (h : Exec act ts d b d') (hb : b = true) (l : List X) (hl : ts = [l]) : d' = l.foldl act d := by
  induction h generalizing l with
  | stop => simp at hb
  | done ts d hall =>
    subst hl
    have := hall l (by simp)
    subst this
    rfl
  | @step ts d d' b k x rest hk _ ih =>
    subst hl
    cases k with
    | succ k => simp at hk
    | zero =>
      simp only [List.getElem?_cons_zero, Option.some.injEq] at hk
      subst hk
      exact ih hb rest rfl

theorem Exec.none {D X : Type} {act : D → X → D} {d d' : D} {b : Bool} (h : Exec act [] d b d') : d' = d := by
  cases h with
  | stop => rfl
  | done => rfl
  | step k x rest hk _ => simp at hk

/-- A complete tile file. -/
def TileH5.full (f : TileFile K) : TileH5 K := ⟨some f.uw, some f.points, some f.tile, some f.phaseOffset⟩

theorem TileH5.read_full (f : TileFile K) : (TileH5.full f).read = .ok f := rfl

/-- A complete overlap file. -/
def OverlapH5.full (f : OverlapFile) : OverlapH5 :=
  ⟨f.groups.map fun x => (x.1, GroupH5.full x.2), some f.labels, some f.overlaps⟩

/-- A complete offset file. -/
def OffsetsH5.full (f : BulkFile K) : OffsetsH5 K := ⟨some f.method, some f.offsets, some f.residuals⟩

theorem readOverlap_full {d : Disk K} {f : OverlapFile} (h : d.overlap = some (OverlapH5.full f)) :
    d.readOverlap = .ok f := by
  unfold Disk.readOverlap OverlapH5.full at *
  rw [h]
  simp only [List.filterMap_map]
  rw [show (GroupH5.complete ∘ fun x : (Nat × Nat) × OverlapGroup => (x.1, GroupH5.full x.2)) = some from rfl,
    List.filterMap_some]

theorem readOffsets_full {d : Disk K} {f : BulkFile K} (h : d.offsets = some (OffsetsH5.full f)) :
    d.readOffsets = .ok ⟨f.method, f.offsets, []⟩ := by
  unfold Disk.readOffsets OffsetsH5.full at *
  rw [h]

/-- Writes to one file, the last of which is the content wanted. -/
theorem consistent_one {g : Slot → Option (Write K)} {u : List (Write K)} {w : Write K}
    (hs : ∀ x ∈ u, x.slot = w.slot) (hl : u.getLast? = some w) (hg : g w.slot = some w) : Consistent g u := by
  rintro s ⟨x, hx, rfl⟩
  rw [hs x hx, hg]
  unfold lastW
  rw [List.filter_eq_self.mpr fun y hy => by simp [hs y hy], hl]

theorem writes_one {u : List (Write K)} {w : Write K} (hs : ∀ x ∈ u, x.slot = w.slot) (hl : u.getLast? = some w) (s : Slot) :
    Writes u s ↔ s = w.slot := by
  constructor
  · rintro ⟨x, hx, rfl⟩
    exact hs x hx
  · rintro rfl
    exact ⟨w, List.mem_of_getLast? hl, rfl⟩

theorem unitOk_one {d1 : Disk K} {u : List (Write K)} {w : Write K}
    (hs : ∀ x ∈ u, x.slot = w.slot) (hl : u.getLast? = some w) (hg : d1.get w.slot = some w)
    (hc : ∀ s : Slot, s.guard = w.slot → s = w.slot ∨ d1.get s = none) : UnitOk d1 u := by
  refine ⟨consistent_one hs hl hg, fun s hw => ?_⟩
  rw [writes_one hs hl] at hw ⊢
  exact hc s hw

theorem foldl_one {u : List (Write K)} {w : Write K} (hs : ∀ x ∈ u, x.slot = w.slot) (hl : u.getLast? = some w) (d : Disk K) :
    u.foldl Disk.set d = d.set w := by
  apply Disk.ext_get
  intro s
  rw [get_foldl_set, Disk.get_set]
  by_cases h : w.slot = s
  · subst h
    rw [if_pos rfl]
    unfold lastW
    rw [List.filter_eq_self.mpr fun y hy => by simp [hs y hy], hl]
    rfl
  · rw [if_neg h, lastW_none.mpr ((writes_one hs hl s).not.mpr (Ne.symm h))]
    rfl

theorem tilesUnit_one (j : Json) : (∀ x ∈ (tilesUnit j : List (Write K)), x.slot = (Write.tiles (some j) : Write K).slot) ∧
    (tilesUnit j : List (Write K)).getLast? = some (.tiles (some j)) := by
  refine ⟨?_, rfl⟩
  intro x hx
  simp only [tilesUnit, List.mem_cons, List.not_mem_nil, or_false] at hx
  rcases hx with rfl | rfl <;> rfl

theorem tileUnit_one (t : Nat) (f : TileFile K) :
    (∀ x ∈ tileUnit t f, x.slot = (Write.tile t (TileH5.full f) : Write K).slot) ∧
    (tileUnit t f).getLast? = some (.tile t (TileH5.full f)) := by
  refine ⟨?_, rfl⟩
  intro x hx
  simp only [tileUnit, List.mem_cons, List.not_mem_nil, or_false] at hx
  rcases hx with rfl | rfl | rfl | rfl | rfl <;> rfl

theorem overlapUnit_one (f : OverlapFile) :
    (∀ x ∈ (overlapUnit f : List (Write K)), x.slot = (Write.overlap (OverlapH5.full f) : Write K).slot) ∧
    (overlapUnit f : List (Write K)).getLast? = some (.overlap (OverlapH5.full f)) := by
  refine ⟨fun x hx => overlapUnit_slot hx, ?_⟩
  unfold overlapUnit
  simp only [List.getLast?_append, List.getLast?_cons_cons, List.getLast?_singleton, Option.some_or]
  rfl

theorem offsetsUnit_one (f : BulkFile K) :
    (∀ x ∈ offsetsUnit f, x.slot = (Write.offsets (OffsetsH5.full f) : Write K).slot) ∧
    (offsetsUnit f).getLast? = some (.offsets (OffsetsH5.full f)) := by
  refine ⟨?_, rfl⟩
  intro x hx
  simp only [offsetsUnit, List.mem_cons, List.not_mem_nil, or_false] at hx
  rcases hx with rfl | rfl | rfl | rfl <;> rfl

theorem singleUnit_one (i : Nat) (b : Band (Option K)) :
    (∀ x ∈ singleUnit i b, x.slot = (Write.unw i (some b) : Write K).slot) ∧
    (singleUnit i b).getLast? = some (.unw i (some b)) := by
  refine ⟨?_, rfl⟩
  intro x hx
  simp only [singleUnit, List.mem_cons, List.not_mem_nil, or_false] at hx
  rcases hx with rfl | rfl <;> rfl

theorem bandUnit_last (i : Nat) (m : MergedBand K) (s : Slot) :
    lastW (bandUnit i m) s = if s = .unw i then some (.unw i (some m.out)) else
      if s = .diff i then some (.diff i (some m.diff)) else if s = .model i then some (.model i (some m.model)) else none := by
  unfold bandUnit
  simp only [lastW_cons, lastW_nil, Write.slot]
  by_cases h1 : s = .unw i
  · subst h1; simp
  · by_cases h2 : s = .diff i
    · subst h2; simp
    · by_cases h3 : s = .model i
      · subst h3; simp
      · simp [h1, h2, h3, Ne.symm h1, Ne.symm h2, Ne.symm h3]

theorem bandUnit_writes (i : Nat) (m : MergedBand K) (s : Slot) :
    Writes (bandUnit i m) s ↔ s = .unw i ∨ s = .diff i ∨ s = .model i := by
  rw [← not_iff_not, ← lastW_none, bandUnit_last]
  by_cases h1 : s = .unw i
  · subst h1; simp
  · by_cases h2 : s = .diff i
    · subst h2; simp
    · by_cases h3 : s = .model i
      · subst h3; simp
      · simp [h1, h2, h3]

theorem run_next {ss : List (Stage K)} {s : Stage K} {d d' : Disk K} (h : RunByWrite (s :: ss) d .completed d') :
    ∃ p e, s d p ∧ p.fails = false ∧ Exec Disk.set (p.tasks.map List.flatten) d true e ∧ RunByWrite ss e .completed d' := by
  unfold RunByWrite at h
  cases h with
  | next h1 h2 h3 h4 => exact ⟨_, _, h1, h2, h3, h4⟩

theorem run_nil {d d' : Disk K} {o : Outcome} (h : RunByWrite [] d o d') : d' = d := by
  unfold RunByWrite at h
  cases h
  rfl

theorem exec_unit {u : List (Write K)} {w : Write K} (hs : (∀ x ∈ u, x.slot = w.slot) ∧ u.getLast? = some w) {d d' : Disk K}
    {p : Plan K} (hp : p.tasks = [[u]]) (h : Exec Disk.set (p.tasks.map List.flatten) d true d') : d' = d.set w := by
  rw [hp] at h
  rw [h.single rfl u (by simp), foldl_one hs.1 hs.2]

theorem exec_skip {d d' : Disk K} {p : Plan K} (hp : p.tasks = [])
    (h : Exec Disk.set (p.tasks.map List.flatten) d true d') : d' = d := by
  rw [hp] at h
  exact h.none

end

section
variable {K S : Type} [Field K] [LinearOrder K] [FloorRing K]

/-- The pairs, overlap groups and labels computed from the tile files. -/
def Flow.olap (P : Flow K S) (T : TileSet) (s : OverlapState K) : OverlapFile :=
  ⟨s.groups, P.cc T.tiles.length (s.groups.map Prod.fst), s.groups.map Prod.fst⟩

/-- How the overlap stage loads a tile. -/
def loadFrom (T : TileSet) (files : Nat → Except PyErr (TileFile K)) (t : Nat) : Except PyErr (List (ℤ × ℤ) × List (List K)) := do
  let bb ← (T.tiles[t]?).elim (.error .indexError) .ok
  let f ← files t
  pure (loadUwTile f bb)

/-- The files of a completed run. -/
structure Ref (P : Flow K S) (d1 : Disk K) (T : TileSet) (F : Nat → TileFile K) : Prop where
  tiles : makeTiles P.sc P.fl P.useTiles P.tiler P.job.coh.cols P.mask = .ok T
  tiles1 : d1.tiles = some (some T.toJson)
  pool : processPool P.job.settings.numParallelTiles = .ok ()
  work : ∃ (oT : Nat → Nat → List Nat → List Nat) (oS : Nat → List Nat → List Nat),
      (∀ t k l, (oT t k l).Perm l) ∧ (∀ t l, (oS t l).Perm l) ∧
      ∀ t < T.tiles.length, unwrapOneTile P.tau P.solver P.job T t (oT t) (oS t) = .ok (F t)
  tile1 : ∀ t, d1.tile t = if t < T.tiles.length then some (TileH5.full (F t)) else none
  method : P.merger.method = "dirichlet"
  one : T.tiles.length = 1 → d1.overlap = none ∧ d1.offsets = none ∧ ∃ B : Nat → Band (Option K),
      (∀ i < P.job.time.links.length, ∃ t1, writeSingleBand (imageShape T) (TileState.start (F 0)) i = .ok (t1, B i)) ∧
      ∀ i, d1.unw i = (if i < P.job.time.links.length then some (some (B i)) else none) ∧ d1.diff i = none ∧
        d1.model i = none
  many : T.tiles.length ≠ 1 → ∃ s b, ∃ M : Nat → MergedBand K,
      overlapRun P.tau P.merger.minOverlapPoints (loadFrom T d1.readTile) T.getOverlaps ⟨none, none, []⟩ = (s, false) ∧
      d1.overlap = some (OverlapH5.full (P.olap T s)) ∧
      bulkOffsets P.mip P.lstsq P.merger.bulkMethod T P.job.coh P.job.thr (P.olap T s) = .ok (some b) ∧
      d1.offsets = some (OffsetsH5.full b) ∧
      (∀ isFile, mergeTiles P.tau ⟨P.lin, P.simplices, P.olap T s⟩ P.merger T d1.readTile ⟨b.method, b.offsets, []⟩
        P.job.time.links.length isFile =
          .ok (.merged (((List.range P.job.time.links.length).filter fun i => !isFile i).map fun i => (i, M i)))) ∧
      ∀ i, d1.unw i = (if i < P.job.time.links.length then some (some (M i).out) else none) ∧
        d1.diff i = (if i < P.job.time.links.length then some (some (M i).diff) else none) ∧
        d1.model i = (if i < P.job.time.links.length then some (some (M i).model) else none)

end

end Spurt
