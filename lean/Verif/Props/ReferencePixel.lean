import Verif.Props.Recovery
import Verif.Props.EndResult

/-!
# Property C91: the pixel the result refers to
-/

namespace Spurt

section
variable {K : Type} [Field K] [LinearOrder K] [IsStrictOrderedRing K] [FloorRing K]

/-- The pixels of a tile with sufficient coherence. -/
def Spec.tileSamples (j : TileJob K) (b : BBox) : Set (ℤ × ℤ) := {p | Spec.InTile b p.1 p.2 ∧ Spec.ValidPixel j p.1 p.2}

/-- The pixel with sufficient coherence that comes first in the tile, row by row. -/
def Spec.FirstSample (j : TileJob K) (b : BBox) (p : ℤ × ℤ) : Prop :=
  p ∈ Spec.tileSamples j b ∧ ∀ p' ∈ Spec.tileSamples j b, p' = p ∨ Spec.RowMajorLt p p'

/-- The tile with the most pixels of sufficient coherence, the first of them in a tie. -/
def Spec.LargestOfTiles (j : TileJob K) (T : TileSet) (b : BBox) : Prop :=
  ∃ k : Nat, T.tiles[k]? = some b ∧ ∀ (t : Nat) b', T.tiles[t]? = some b' →
    (Spec.tileSamples j b').ncard < (Spec.tileSamples j b).ncard ∨
    (Spec.tileSamples j b').ncard = (Spec.tileSamples j b).ncard ∧ k ≤ t

open Spec

/-- The number of points of a tile is the number of its pixels of sufficient coherence. -/
theorem tilePoints_ncard (j : TileJob K) (b : BBox) (hin : TileInImage (j.coh.rows, j.coh.cols) b) :
    (tilePoints j.coh j.thr b).length = (tileSamples j b).ncard := by
  obtain ⟨hx0, hx1, hx2, hy0, hy1, hy2⟩ := hin
  simp only at hx2 hy2
  obtain ⟨_, hpw, hmem, _, _⟩ := C36_read_tile (C := K) j.coh j.thr [] (fun _ => none) (0 : K) b hx0 hx1 hx2 hy0 hy1 hy2 (fun d im h => by simp at h)
  have hnd : ((tilePoints j.coh j.thr b).map fun p : Nat × Nat => ((p.1 : ℤ) + b.xmin, (p.2 : ℤ) + b.ymin)).Nodup := by
    refine List.Nodup.map ?_ (hpw.imp ?_)
    · rintro ⟨p1, p2⟩ ⟨q1, q2⟩ h
      simp only [Prod.mk.injEq] at h ⊢
      omega
    · rintro p q (h | h) rfl
      · exact lt_irrefl _ h
      · exact lt_irrefl _ h.2
  have hset : tileSamples j b = ↑((tilePoints j.coh j.thr b).map fun p : Nat × Nat => ((p.1 : ℤ) + b.xmin, (p.2 : ℤ) + b.ymin)).toFinset := by
    ext ⟨r, c⟩
    simp only [List.coe_toFinset, Set.mem_setOf_eq, List.mem_map]
    constructor
    · rintro ⟨hit, v, a3, a4⟩
      unfold InTile at hit
      simp only at hit a3
      obtain ⟨i1, i2, i3, i4⟩ := hit
      refine ⟨((r - b.xmin).toNat, (c - b.ymin).toNat), ?_, ?_⟩
      · rw [hmem]
        refine ⟨by omega, by omega, v, ?_, a4⟩
        rw [show b.xmin.toNat + (r - b.xmin).toNat = r.toNat by omega,
          show b.ymin.toNat + (c - b.ymin).toNat = c.toNat by omega, a3]
      · simp only [Prod.mk.injEq]; omega
    · rintro ⟨⟨p1, p2⟩, hp, hpe⟩
      obtain ⟨a1, a2, v, a3, a4⟩ := (hmem p1 p2).mp hp
      simp only [Prod.mk.injEq] at hpe
      obtain ⟨rfl, rfl⟩ := hpe
      refine ⟨by unfold InTile; simp only; omega, v, ?_, a4⟩
      simp only
      rw [show ((p1 : ℤ) + b.xmin).toNat = b.xmin.toNat + p1 by omega,
        show ((p2 : ℤ) + b.ymin).toNat = b.ymin.toNat + p2 by omega, a3]
  rw [hset, Set.ncard_coe_finset, List.toFinset_card_of_nodup hnd, List.length_map]

/-- In a row-major list the first pixel is the first entry. -/
theorem first_entry {l : List (ℤ × ℤ)} (hl : l.Pairwise RowMajorLt) {p : ℤ × ℤ} (hp : p ∈ l) (h : ∀ p' ∈ l, p' = p ∨ RowMajorLt p p') :
    l[0]? = some p := by
  cases l with
  | nil => simp at hp
  | cons x rest =>
    rcases List.mem_cons.mp hp with rfl | hr
    · rfl
    · have h1 := List.rel_of_pairwise_cons hl hr
      rcases h x List.mem_cons_self with rfl | h2
      · rfl
      · unfold RowMajorLt at h1 h2
        omega

/-- C91. In the file of a tile the first pixel carries the wrapped interferogram itself, in every interferogram. -/
theorem C91_tile (tau : K) (solver : FlowSolver) (hs : SolverSound solver) (j : TileJob K)
    (hj : GoodJob j) (tiles : TileSet) (t : Nat) (b : BBox) (hb : tiles.tiles[t]? = some b)
    (hin : TileInImage (j.coh.rows, j.coh.cols) b)
    (oT : Nat → List Nat → List Nat) (oS : List Nat → List Nat)
    (hoT : ∀ k l, (oT k l).Perm l) (hoS : ∀ l, (oS l).Perm l) (f : TileFile K)
    (h : unwrapOneTile tau solver j tiles t oT oS = .ok f) (p : ℤ × ℤ) (hp : FirstSample j b p)
    (i s u : Nat) (hi : j.time.links[i]? = some (s, u)) :
    (filePoints f)[0]? = some p ∧ filePhase f i 0 = stackIfg tau j s u p.1.toNat p.2.toNat := by
  obtain ⟨h1, h2, h3, _, h5⟩ := tile_file_first tau solver hs j hj tiles t b hb hin oT oS hoT hoS f h
  obtain ⟨s1, s2, s3⟩ := tile_shape tau solver hs j hj tiles t b hb hin oT oS hoT hoS f h
  rw [filePoints_box h1] at h2 h3 h5
  have hp0 := first_entry h2 ((h3 p.1 p.2).mpr hp.1) (fun p' hp' => hp.2 p' ((h3 p'.1 p'.2).mp hp'))
  refine ⟨hp0, ?_⟩
  obtain ⟨row, r1, r2, r3⟩ := h5 i s u hi
  obtain ⟨k, k0, hk⟩ := r3 0 p.1 p.2 hp0
  rw [k0 rfl] at hk
  have hil := (List.getElem?_eq_some_iff.mp hi).1
  have hu : i < f.uw.length := by rw [s1]; exact hil
  have hpo : i < f.phaseOffset.length := by rw [s2]; exact hil
  unfold imagePhase at r1
  rw [List.getElem?_zipWith, List.getElem?_eq_getElem hu, List.getElem?_eq_getElem hpo] at r1
  simp only [Option.some.injEq] at r1
  subst r1
  rw [List.getElem?_map, Option.map_eq_some_iff] at hk
  obtain ⟨x, hx1, hx2⟩ := hk
  unfold filePhase
  rw [List.getD_eq_getElem _ _ hu, List.getD_eq_getElem _ _ hpo, List.getD_eq_getElem?_getD, hx1]
  simpa using hx2

variable {S : Type}

/-- C91. A completed run with one tile: whatever the data, the first pixel of sufficient coherence of every raster carries the wrapped
interferogram itself. -/
theorem C91_single (P : Flow K S) (hP : GoodFlow P) (T : TileSet)
    (hT : makeTiles P.sc P.fl P.useTiles P.tiler P.job.coh.cols P.mask = .ok T) (b : BBox) (hone : T.tiles = [b])
    (d1 : Disk K) (h : RunByWrite P.stages Disk.empty .completed d1) (r q : Nat) (hp : FirstSample P.job b ((r : ℤ), (q : ℤ)))
    (i s u : Nat) (hl : P.job.time.links[i]? = some (s, u)) :
    ∃ band, d1.unw i = some (some band) ∧ band.val r q = some (stackIfg P.tau P.job s u r q) := by
  obtain ⟨T', F, hR⟩ := ref_of_run hP h
  have : T' = T := by
    have := hR.tiles
    rw [hT, Except.ok.injEq] at this
    exact this.symm
  subst this
  have hn : T'.tiles.length = 1 := by rw [hone]; rfl
  obtain ⟨hshape, hpos, hin⟩ := flow_tiles hP hR.tiles
  obtain ⟨oT, oS, hoT, hoS, hF⟩ := hR.work
  have hi : i < P.job.time.links.length := (List.getElem?_eq_some_iff.mp hl).1
  obtain ⟨hf, hpts, hph⟩ := tileFilesOk_of_unwrap P.tau P.solver hP.solver P.job hP.job T' hshape hin oT oS hoT hoS
    d1.readTile F (fun t ht => hR.readTile ht) hF
  obtain ⟨_, _, B, hB, hU⟩ := hR.one hn
  obtain ⟨t1, ht1⟩ := hB i hi
  have hins := files_inside hf 0 (by omega)
  have hb := C44_single (imageShape T') (TileState.start (F 0)) t1 i (B i) (by
    intro c hc
    obtain ⟨a1, a2, a3, a4⟩ := hins c hc
    exact ⟨a1, a2, a3, a4⟩) (filePoints_nodup (hf.once 0 (by omega))) ht1
  obtain ⟨g1, g2⟩ := C91_tile P.tau P.solver hP.solver P.job hP.job T' 0 b (by rw [hone]; rfl) (hin b (by rw [hone]; exact List.mem_singleton.mpr rfl))
    (oT 0) (oS 0) (hoT 0) (hoS 0) (F 0) (hF 0 (by omega)) _ hp i s u hl
  refine ⟨B i, by rw [(hU i).1, if_pos hi], ?_⟩
  rw [(hb r q).2.2.2.2 0 g1, show (TileState.start (F 0)).file = F 0 from rfl, g2]
  simp

/-- C91. A completed run on an unaliased stack, with any number of tiles: the first pixel of sufficient coherence of the largest tile carries the
wrapped interferogram itself, in every raster. -/
theorem C91_tiles (P : Flow K S) (hP : GoodFlow P) (htau : 0 < P.tau) (himg : 0 < P.job.coh.rows ∧ 0 < P.job.coh.cols)
    (T : TileSet) (hT : makeTiles P.sc P.fl P.useTiles P.tiler P.job.coh.cols P.mask = .ok T)
    (φ : Nat → ℤ × ℤ → K) (hU : Unaliased P T φ) (hjoin : TilesJoined P T)
    (hcc : ∀ edges : List (Nat × Nat), (∀ e ∈ edges, e.1 < T.tiles.length ∧ e.2 < T.tiles.length) →
      ComponentLabels T.tiles.length edges (P.cc T.tiles.length edges))
    (hls : P.merger.bulkMethod = "L2" → ∀ olaps off, off.length = olaps.length →
      (∀ row ∈ off, row.length = P.job.time.links.length) →
      LeastSquares (overlapMatrix olaps T.tiles.length) off (P.lstsq (overlapMatrix olaps T.tiles.length) off)
        T.tiles.length P.job.time.links.length)
    (d1 : Disk K) (h : RunByWrite P.stages Disk.empty .completed d1) (b : BBox) (hb : LargestOfTiles P.job T b)
    (r q : Nat) (hp : FirstSample P.job b ((r : ℤ), (q : ℤ))) (i s u : Nat) (hl : P.job.time.links[i]? = some (s, u)) :
    ∃ band, d1.unw i = some (some band) ∧ band.val r q = some (stackIfg P.tau P.job s u r q) := by
  obtain ⟨band, h1, h2, h3, c, h4, ref, f, oT, oS, hrl, hlarge, hoT, hoS, hf, hph⟩ :=
    recovers_reference P hP htau himg T hT φ hU hjoin hcc hls d1 h i s u hl
  obtain ⟨hshape, hpos, hin⟩ := flow_tiles hP hT
  refine ⟨band, h1, ?_⟩
  -- the two descriptions of the largest tile agree
  obtain ⟨k, hk, hmax⟩ := hb
  have hcnt : ∀ (t : Nat) b', T.tiles[t]? = some b' → (tileCounts P.job.coh P.job.thr T).getD t 0 = (tileSamples P.job b').ncard := by
    intro t b' hb'
    unfold tileCounts
    rw [List.getD_eq_getElem?_getD, List.getElem?_map, hb']
    exact tilePoints_ncard P.job b' (hin b' (List.mem_of_getElem? hb'))
  have hkl := (List.getElem?_eq_some_iff.mp hk).1
  have hcl : (tileCounts P.job.coh P.job.thr T).length = T.tiles.length := by simp [tileCounts]
  have hkr : k = ref := by
    have e1 := hlarge.2 k (by rw [hcl]; exact hkl)
    have e2 := hmax ref _ (List.getElem?_eq_getElem hrl)
    rw [hcnt k b hk, hcnt ref _ (List.getElem?_eq_getElem hrl)] at e1
    omega
  subst hkr
  have hinb := hin b (List.mem_of_getElem? hk)
  obtain ⟨g1, g2⟩ := C91_tile P.tau P.solver hP.solver P.job hP.job T k b hk hinb oT oS hoT hoS f hf _ hp i s u hl
  have hpix : r < P.job.coh.rows ∧ q < P.job.coh.cols := by
    have := hp.1.1
    unfold InTile at this
    unfold TileInImage at hinb
    simp only at this hinb
    omega
  rw [(h4 r q hpix.1 hpix.2).1 hp.1.2, mul_comm, ← hph 0 _ g1, g2]
  simp

end
end Spurt
