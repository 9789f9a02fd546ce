import Verif.Props.UnwrapTile
import Verif.Lemmas.Stages

/-!
# The shape of a tile file written by the unwrapping stage
-/

namespace Spurt
open Spec

section
variable {K : Type} [Field K] [LinearOrder K] [IsStrictOrderedRing K] [FloorRing K]

theorem tile_shape (tau : K) (solver : FlowSolver) (hs : SolverSound solver) (j : TileJob K)
    (hj : GoodJob j) (tiles : TileSet) (t : Nat) (b : BBox) (hb : tiles.tiles[t]? = some b)
    (hin : TileInImage (j.coh.rows, j.coh.cols) b)
    (oT : Nat → List Nat → List Nat) (oS : List Nat → List Nat)
    (hoT : ∀ k l, (oT k l).Perm l) (hoS : ∀ l, (oS l).Perm l) (f : TileFile K)
    (h : unwrapOneTile tau solver j tiles t oT oS = .ok f) :
    f.uw.length = j.time.links.length ∧ f.phaseOffset.length = j.time.links.length ∧
      ∀ row ∈ f.uw, row.length = f.points.length := by
  unfold unwrapOneTile at h
  rw [hb] at h
  simp only [Option.elim_some, Bind.bind, Except.bind] at h
  cases e1 : ormcf j.time with
  | error er => rw [e1] at h; simp at h
  | ok sTime =>
  rw [e1] at h
  simp only at h
  set pts := tilePoints j.coh j.thr b with hpts
  cases e2 : ormcf (delaunayGraph pts.length (j.simplices pts)) with
  | error er => rw [e2] at h; simp at h
  | ok sSpace =>
  rw [e2] at h
  simp only at h
  set wd := (readTile j.coh j.thr j.dates j.phase (0 : K) b).2 with hwd
  split at h
  · simp at h
  set e : Emcf := ⟨sSpace, sTime, j.settings, j.cpuCount, j.tDist, j.tCent, j.sDist pts, j.sCent pts⟩ with he
  cases e3 : unwrapCube tau solver e ⟨2, 0, wd⟩ oT oS with
  | error er => rw [e3] at h; simp at h
  | ok uw =>
  rw [e3] at h
  simp only [pure, Except.pure, Except.ok.injEq] at h
  obtain ⟨hx0, hx1, hx2, hy0, hy1, hy2⟩ := hin
  simp only at hx2 hy2
  obtain ⟨_, hpw, hmem, hlen, hrow⟩ := C36_read_tile j.coh j.thr j.dates j.phase (0 : K) b hx0 hx1 hx2
    hy0 hy1 hy2 (fun d im hd => by obtain ⟨a1, a2⟩ := hj.images d im hd; rw [a1, a2]; exact ⟨hx2, hy2⟩)
  rw [← hwd] at hlen
  have hsg : sSpace.graph = delaunayGraph pts.length (j.simplices pts) := ormcf_graph e2
  have hnp : e.space.graph.npoints = pts.length := by rw [he]; simp only; rw [hsg]; rfl
  obtain ⟨hul, hcong⟩ := C21_slc_congruent tau solver e j.time hj.contract e1 hs hj.batch
    (by rw [he]; simp only; rw [hsg]; exact delaunay_links_lt (hj.triangles pts))
    ⟨2, 0, wd⟩ (by simp only; rw [hlen, hj.dates]) oT oS hoT hoS uw e3
  subst h
  refine ⟨hul, by simp [phaseOffset], fun row hr => ?_⟩
  obtain ⟨i, hi, rfl⟩ := List.mem_iff_getElem.mp hr
  simp only at hi
  obtain ⟨hrl, _⟩ := hcong i j.time.links[i].1 j.time.links[i].2 (by simp)
  rw [List.getD_eq_getElem _ _ hi, hnp] at hrl
  simp [hrl]

/-- The tile files of one stack are what the later stages expect. -/
theorem tileFilesOk_of_unwrap (tau : K) (solver : FlowSolver) (hs : SolverSound solver) (j : TileJob K)
    (hj : GoodJob j) (tiles : TileSet) (hshape : tiles.shape = ((j.coh.rows : ℤ), (j.coh.cols : ℤ)))
    (hin : ∀ b ∈ tiles.tiles, TileInImage (j.coh.rows, j.coh.cols) b)
    (oT : Nat → Nat → List Nat → List Nat) (oS : Nat → List Nat → List Nat)
    (hoT : ∀ t k l, (oT t k l).Perm l) (hoS : ∀ t l, (oS t l).Perm l)
    (files : Nat → Except PyErr (TileFile K)) (F : Nat → TileFile K)
    (hread : ∀ t < tiles.tiles.length, files t = .ok (F t))
    (hfiles : ∀ t < tiles.tiles.length, unwrapOneTile tau solver j tiles t (oT t) (oS t) = .ok (F t)) :
    TileFilesOk j.time.links.length tiles files F ∧
    (∀ t < tiles.tiles.length, ∀ r c : ℤ, (r, c) ∈ filePoints (F t) ↔
      ∃ b, tiles.tiles[t]? = some b ∧ InTile b r c ∧ ValidPixel j r c) ∧
    ∀ t < tiles.tiles.length, ∀ (i s u : Nat), j.time.links[i]? = some (s, u) → ∀ (n : Nat) (pix : ℤ × ℤ),
      (filePoints (F t))[n]? = some pix → ∃ k : ℤ,
        filePhase (F t) i n = stackIfg tau j s u pix.1.toNat pix.2.toNat + k * tau := by
  have hbox : ∀ t (h : t < tiles.tiles.length), tiles.tiles[t]? = some tiles.tiles[t] := fun t h => by simp
  have hshp := fun t (h : t < tiles.tiles.length) => tile_shape tau solver hs j hj tiles t tiles.tiles[t] (hbox t h)
    (hin _ (List.getElem_mem h)) (oT t) (oS t) (hoT t) (hoS t) (F t) (hfiles t h)
  have hcon := fun t (h : t < tiles.tiles.length) => C55_tile_file tau solver hs j hj tiles t tiles.tiles[t] (hbox t h)
    (hin _ (List.getElem_mem h)) (oT t) (oS t) (hoT t) (hoS t) (F t) (hfiles t h)
  refine ⟨⟨hread, ?_, ?_, ?_, ?_, ?_⟩, ?_, ?_⟩
  · intro t b hb
    have ht := (List.getElem?_eq_some_iff.mp hb).1
    rw [(hcon t ht).1]
    rw [hbox t ht, Option.some.injEq] at hb
    exact hb
  · intro t ht
    have := (hcon t ht).2.1
    have hnd : (imagePoints (F t) tiles.tiles[t]).Nodup := this.imp (by
      rintro p q (h | h) rfl
      · exact lt_irrefl _ h
      · exact lt_irrefl _ h.2)
    exact List.Nodup.of_map _ hnd
  · rintro t ht ⟨r, c⟩ hp
    rw [← filePoints_box (hcon t ht).1] at hp
    obtain ⟨h1, _⟩ := ((hcon t ht).2.2.1 r c).mp hp
    have h2 := hin _ (List.getElem_mem ht)
    unfold InTile at h1
    unfold TileInImage at h2
    rw [hshape]
    simp only at *
    omega
  · intro t ht
    exact ⟨(hshp t ht).1, (hshp t ht).2.1⟩
  · intro t ht
    exact (hshp t ht).2.2
  · intro t ht r c
    rw [← filePoints_box (hcon t ht).1, (hcon t ht).2.2.1 r c]
    constructor
    · intro h
      exact ⟨_, hbox t ht, h⟩
    · rintro ⟨b, hb, h⟩
      rw [hbox t ht, Option.some.injEq] at hb
      rw [hb]
      exact h
  · intro t ht i s u hi n pix hn
    obtain ⟨row, r1, r2, r3⟩ := (hcon t ht).2.2.2.2 i s u hi
    rw [← filePoints_box (hcon t ht).1] at hn
    obtain ⟨k, hk⟩ := r3 n pix.1 pix.2 hn
    refine ⟨k, ?_⟩
    have hil := (List.getElem?_eq_some_iff.mp hi).1
    have hu : i < (F t).uw.length := by rw [(hshp t ht).1]; exact hil
    have hpo : i < (F t).phaseOffset.length := by rw [(hshp t ht).2.1]; exact hil
    unfold imagePhase at r1
    rw [List.getElem?_zipWith, List.getElem?_eq_getElem hu, List.getElem?_eq_getElem hpo] at r1
    simp only [Option.some.injEq] at r1
    subst r1
    rw [List.getElem?_map, Option.map_eq_some_iff] at hk
    obtain ⟨x, hx1, hx2⟩ := hk
    unfold filePhase
    rw [List.getD_eq_getElem _ _ hu, List.getD_eq_getElem _ _ hpo, List.getD_eq_getElem?_getD, hx1]
    exact hx2

end

end Spurt
