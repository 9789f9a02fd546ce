import Verif.Props.TileItoh
import Verif.Props.Completes

/-!
# Property C63: the workflow recovers an unaliased stack
-/

namespace Spurt
open Spec

section
variable {K S : Type} [Field K] [LinearOrder K] [FloorRing K] [IsStrictOrderedRing K]

/-- The true phases `φ` of the acquisitions belong to the stack and are unaliased on every tile of `T`:
in every interferogram they change by less than half a cycle along the links of the triangulation of
the tile, and never exceed 16383 cycles. -/
structure Spec.Unaliased (P : Flow K S) (T : TileSet) (φ : Nat → ℤ × ℤ → K) : Prop where
  ready : ∀ b ∈ T.tiles, TileReady P.job b
  phase : TruePhase P.tau P.job φ
  smooth : ∀ b ∈ T.tiles, SmoothOnTile P.tau P.job b φ
  range : ∀ s u, (s, u) ∈ P.job.time.links → ∀ p : ℤ × ℤ,
    PixelOf (P.job.coh.rows, P.job.coh.cols) p.1 p.2 → ValidPixel P.job p.1 p.2 → |φ u p - φ s p| ≤ 16383 * P.tau

/-- The overlaps with enough pixels join tile 0 to every tile. -/
def Spec.TilesJoined (P : Flow K S) (T : TileSet) : Prop :=
  ∀ t < T.tiles.length, Relation.ReflTransGen (fun a b => (sharedPixels P.job T a b).Nonempty ∧
    P.merger.minOverlapPoints ≤ (sharedPixels P.job T a b).ncard) 0 t

omit [FloorRing K] [Field K] [IsStrictOrderedRing K] in
theorem sharedPixels_comm (j : TileJob K) (T : TileSet) (a b : Nat) : sharedPixels j T a b = sharedPixels j T b a := by
  ext p
  unfold sharedPixels
  constructor <;> rintro ⟨h, x, y, h1, h2, h3, h4⟩ <;> exact ⟨h, y, x, h2, h1, h4, h3⟩

/-- The tile files of an unaliased stack: true interferograms plus a number of cycles per tile. -/
theorem unaliased_files {P : Flow K S} (hP : GoodFlow P) (htau : 0 < P.tau) {T : TileSet}
    (hin : ∀ b ∈ T.tiles, TileInImage (P.job.coh.rows, P.job.coh.cols) b)
    {φ : Nat → ℤ × ℤ → K} (hU : Unaliased P T φ)
    (oT : Nat → Nat → List Nat → List Nat) (oS : Nat → List Nat → List Nat)
    (hoT : ∀ t k l, (oT t k l).Perm l) (hoS : ∀ t l, (oS t l).Perm l) (t : Nat) (ht : t < T.tiles.length) :
    ∃ f, unwrapOneTile P.tau P.solver P.job T t (oT t) (oS t) = .ok f ∧ filePoints f ≠ [] ∧
      ∀ i s u, P.job.time.links[i]? = some (s, u) → ∃ c : ℤ, |c| ≤ 16383 ∧
        ∀ n p, (filePoints f)[n]? = some p → filePhase f i n = (φ u p - φ s p) + P.tau * c := by
  have hb : T.tiles[t]? = some T.tiles[t] := List.getElem?_eq_getElem ht
  have hmem := List.getElem_mem ht
  obtain ⟨f, h1, h2, h3, h4⟩ := C62_tile_itoh P.tau htau P.solver P.job hP.job T t T.tiles[t] hb (hin _ hmem)
    (hU.ready _ hmem) φ hU.phase (hU.smooth _ hmem) (oT t) (oS t) (hoT t) (hoS t)
  have hfile := (C55_tile_file P.tau P.solver hP.solver P.job hP.job T t T.tiles[t] hb (hin _ hmem) (oT t) (oS t)
    (hoT t) (hoS t) f h1).2.2.1
  rw [filePoints_box h2] at hfile
  have hne : filePoints f ≠ [] := by
    obtain ⟨⟨la, lb⟩, hl0⟩ := List.exists_mem_of_ne_nil _ (hU.ready _ hmem).links
    have := (hU.ready _ hmem).contract.ordered la lb hl0
    rw [h3]
    refine List.ne_nil_of_length_pos ?_
    have e : (tilePixels P.job T.tiles[t]).length = (tileGraph P.job T.tiles[t]).npoints := by
      simp [tilePixels, tileGraph, delaunayGraph]
    omega
  refine ⟨f, h1, hne, fun i s u hi => ?_⟩
  obtain ⟨c, hc1, hc2⟩ := h4 i s u hi
  refine ⟨c, ?_, fun n p hn => by rw [hc1 n p (by rw [← h3]; exact hn), mul_comm]⟩
  obtain ⟨p0, hp0⟩ : ∃ p, (filePoints f)[0]? = some p := ⟨_, List.getElem?_eq_getElem (List.length_pos_of_ne_nil hne)⟩
  obtain ⟨ht0, hv⟩ := (hfile p0.1 p0.2).mp (List.mem_of_getElem? hp0)
  have hr := hU.range s u (List.mem_of_getElem? hi) p0 (by
    have := hin _ hmem
    unfold TileInImage at this
    unfold InTile at ht0
    unfold PixelOf
    simp only at this ⊢
    omega) hv
  rw [hc1 0 p0 (by rw [← h3]; exact hp0)] at hc2
  rw [abs_le] at hc2 hr
  have b1 : (c : K) * P.tau < (16384 : ℤ) * P.tau := by push_cast; linarith [hc2.1, hc2.2, hr.1, hr.2]
  have b2 : ((-16384 : ℤ) : K) * P.tau < (c : K) * P.tau := by push_cast; linarith [hc2.1, hc2.2, hr.1, hr.2]
  have b1' : c < 16384 := by exact_mod_cast lt_of_mul_lt_mul_right b1 htau.le
  have b2' : -16384 < c := by exact_mod_cast lt_of_mul_lt_mul_right b2 htau.le
  rw [abs_le]
  omega

/-- `C63_recovers` with the tile the common number of cycles comes from. -/
theorem recovers_reference (P : Flow K S) (hP : GoodFlow P) (htau : 0 < P.tau) (himg : 0 < P.job.coh.rows ∧ 0 < P.job.coh.cols)
    (T : TileSet) (hT : makeTiles P.sc P.fl P.useTiles P.tiler P.job.coh.cols P.mask = .ok T)
    (φ : Nat → ℤ × ℤ → K) (hU : Unaliased P T φ) (hjoin : TilesJoined P T)
    (hcc : ∀ edges : List (Nat × Nat), (∀ e ∈ edges, e.1 < T.tiles.length ∧ e.2 < T.tiles.length) →
      ComponentLabels T.tiles.length edges (P.cc T.tiles.length edges))
    (hls : P.merger.bulkMethod = "L2" → ∀ olaps off, off.length = olaps.length →
      (∀ row ∈ off, row.length = P.job.time.links.length) →
      LeastSquares (overlapMatrix olaps T.tiles.length) off (P.lstsq (overlapMatrix olaps T.tiles.length) off)
        T.tiles.length P.job.time.links.length)
    (d1 : Disk K) (h : RunByWrite P.stages Disk.empty .completed d1) (i s u : Nat)
    (hl : P.job.time.links[i]? = some (s, u)) :
    ∃ b, d1.unw i = some (some b) ∧ b.rows = P.job.coh.rows ∧ b.cols = P.job.coh.cols ∧
      ∃ c : ℤ, (∀ r q : Nat, r < P.job.coh.rows → q < P.job.coh.cols →
        (ValidPixel P.job r q → b.val r q = some ((φ u (r, q) - φ s (r, q)) + c * P.tau)) ∧
        (¬ ValidPixel P.job r q → b.val r q = none)) ∧
      ∃ (ref : Nat) (f : TileFile K) (oT : Nat → List Nat → List Nat) (oS : List Nat → List Nat), ref < T.tiles.length ∧
        LargestTile (tileCounts P.job.coh P.job.thr T) ref ∧ (∀ k l, (oT k l).Perm l) ∧ (∀ l, (oS l).Perm l) ∧
        unwrapOneTile P.tau P.solver P.job T ref oT oS = .ok f ∧
        ∀ (n : Nat) p, (filePoints f)[n]? = some p → filePhase f i n = (φ u p - φ s p) + P.tau * c := by
  obtain ⟨B, hB, hB1, hB2, hBv⟩ := C61_result P hP htau himg d1 h i s u hl
  refine ⟨B, hB, hB1, hB2, ?_⟩
  obtain ⟨T', F, hR⟩ := ref_of_run hP h
  have : T' = T := by
    have := hR.tiles
    rw [hT, Except.ok.injEq] at this
    exact this.symm
  subst this
  obtain ⟨hshape, hpos, hin⟩ := flow_tiles hP hR.tiles
  obtain ⟨oT, oS, hoT, hoS, hF⟩ := hR.work
  have hi : i < P.job.time.links.length := (List.getElem?_eq_some_iff.mp hl).1
  obtain ⟨hf, hpts, hph⟩ := tileFilesOk_of_unwrap P.tau P.solver hP.solver P.job hP.job T' hshape hin oT oS hoT hoS
    d1.readTile F (fun t ht => hR.readTile ht) hF
  have hcover : ∀ r q : Nat, r < P.job.coh.rows → q < P.job.coh.cols → ValidPixel P.job r q →
      ∃ t < T'.tiles.length, ((r : ℤ), (q : ℤ)) ∈ filePoints (F t) := by
    obtain ⟨B, hB, h1, h2⟩ := hP.size
    obtain ⟨e1, e2⟩ := mask_shape P
    obtain ⟨_, _, _, _, hc⟩ := C30_make_tiles P.sc P.fl B hB P.useTiles P.tiler hP.tiler P.job.coh.cols P.mask e2
      ⟨by rw [e1]; exact h1, h2⟩ T' hR.tiles
    intro r q hr hq hv
    obtain ⟨b, hb, hit⟩ := hc r q (by rw [hshape]; unfold PixelOf; simp only; omega)
    obtain ⟨t, ht, rfl⟩ := List.mem_iff_getElem.mp hb
    exact ⟨t, ht, (hpts t ht r q).mpr ⟨_, List.getElem?_eq_getElem ht, hit, hv⟩⟩
  -- the tiles hold the true interferograms plus cycles
  have hcut : ∀ b t, ∃ c : ℤ, |c| ≤ 16383 ∧ (t < T'.tiles.length → ∀ s u, P.job.time.links[b]? = some (s, u) →
      ∀ (n : Nat) p, (filePoints (F t))[n]? = some p → filePhase (F t) b n = (φ u p - φ s p) + P.tau * c) := by
    intro b t
    by_cases ht : t < T'.tiles.length
    swap; · exact ⟨0, by norm_num, fun h => absurd h ht⟩
    rcases hb : P.job.time.links[b]? with _ | ⟨s', u'⟩
    · exact ⟨0, by norm_num, fun _ s u h => by simp at h⟩
    obtain ⟨f, h1, _, h2⟩ := unaliased_files hP htau hin hU oT oS hoT hoS t ht
    rw [hF t ht, Except.ok.injEq] at h1
    subst h1
    obtain ⟨c, hc1, hc2⟩ := h2 b s' u' hb
    refine ⟨c, hc1, fun _ s u hsu n p hn => ?_⟩
    simp only [Option.some.injEq, Prod.mk.injEq] at hsu
    obtain ⟨rfl, rfl⟩ := hsu
    exact hc2 n p hn
  choose c hcs hcut using hcut
  by_cases hn : T'.tiles.length = 1
  · obtain ⟨_, _, B', hB', hU'⟩ := hR.one hn
    obtain ⟨t1, ht1⟩ := hB' i hi
    have hins := files_inside hf 0 (by omega)
    have hb := C44_single (imageShape T') (TileState.start (F 0)) t1 i (B' i) (by
      intro c hc
      obtain ⟨a1, a2, a3, a4⟩ := hins c hc
      exact ⟨a1, a2, a3, a4⟩) (filePoints_nodup (hf.once 0 (by omega))) ht1
    have hBe : B' i = B := by
      have := (hU' i).1
      rw [if_pos hi, hB] at this
      simpa using this.symm
    have hcl : (tileCounts P.job.coh P.job.thr T').length = 1 := by simp [tileCounts, hn]
    refine ⟨c i 0, fun r q hr hq => ⟨fun hv => ?_, (hBv r q hr hq).2⟩, 0, F 0, oT 0, oS 0, by omega,
      ⟨by omega, fun u hu => .inr ⟨by rw [show u = 0 by omega], by omega⟩⟩, hoT 0, hoS 0, hF 0 (by omega),
      fun n p hn' => hcut i 0 (by omega) s u hl n p hn'⟩
    obtain ⟨t, ht, hm⟩ := hcover r q hr hq hv
    have ht0 : t = 0 := by omega
    subst ht0
    obtain ⟨p, hp, hpe⟩ := List.mem_iff_getElem.mp hm
    have hp' : (filePoints (F 0))[p]? = some ((r : ℤ), (q : ℤ)) := by rw [List.getElem?_eq_getElem hp, hpe]
    rw [← hBe, (hb r q).2.2.2.2 p hp', show (TileState.start (F 0)).file = F 0 from rfl, hcut i 0 ht s u hl p _ hp', mul_comm P.tau]
  · obtain ⟨st, b, M, h1, _, h3, _, h5, hU'⟩ := hR.many hn
    have hover := Ref.overlaps (P := P) (F := F) hn h1
    obtain ⟨olap, b', k1, k2, k3⟩ := run_overlaps hP h hR.tiles hn
    rw [hover, Except.ok.injEq, Option.some.injEq] at k1
    subst k1
    obtain ⟨hsub, hnd, hlabels, hrec⟩ := C53_recorded _ _ _ _ _ _ hover
    have hlab : ComponentLabels T'.tiles.length (P.olap T' st).overlaps (P.olap T' st).labels := by
      rw [hlabels]
      refine hcc _ ?_
      rintro ⟨i, j⟩ he
      obtain ⟨h1, a, b, h2, h3, _⟩ := ((C25_overlaps T').1 i j).mp (hsub.subset he)
      have := (List.getElem?_eq_some_iff.mp h3).1
      simp only
      omega
    have hconn : ∀ t < T'.tiles.length, Relation.ReflTransGen (Adjacent (P.olap T' st).overlaps) 0 t := by
      intro t ht
      refine Relation.ReflTransGen.trans_induction_on (hjoin t ht) (fun _ => .refl) ?_ (fun _ _ a b => a.trans b)
      rintro a b' ⟨hne, hle⟩
      rcases lt_trichotomy a b' with hab | hab | hab
      · obtain ⟨⟨r, q⟩, _, ba, bb, e1, e2, e3, e4⟩ := hne
        exact .single (.inl (((k3 a b' (C25_shared_pixel T' a b' ba bb r q hab e1 e2 e3 e4)).1).mpr hle))
      · subst hab; exact .refl
      · rw [sharedPixels_comm] at hne hle
        obtain ⟨⟨r, q⟩, _, ba, bb, e1, e2, e3, e4⟩ := hne
        exact .single (.inr (((k3 b' a (C25_shared_pixel T' b' a ba bb r q hab e1 e2 e3 e4)).1).mpr hle))
    set phi : Nat → ℤ × ℤ → K := fun b p => φ (P.job.time.links.getD b (0, 0)).2 p - φ (P.job.time.links.getD b (0, 0)).1 p with hphi
    have hlink : ∀ b < P.job.time.links.length, P.job.time.links[b]? =
        some ((P.job.time.links.getD b (0, 0)).1, (P.job.time.links.getD b (0, 0)).2) := fun b hb => getElem?_of_getD hb
    have hcut' : CutFields P.tau P.job.time.links.length T'.tiles.length F phi c :=
      fun b hb t ht n p hn => hcut b t ht _ _ (hlink b hb) n p hn
    obtain ⟨_, _, ref, href, hlarge, hend⟩ := end_to_end_largest P.tau htau P.merger.minOverlapPoints P.cc P.job.time.links.length (by omega) T'
      (by omega) (by rw [hshape]; simp only; omega) d1.readTile F hf phi c
      hcut' hcs ⟨P.lin, P.simplices, P.olap T' st⟩ hover hlab hconn
      P.mip hP.mip P.lstsq P.merger
      (fun h2 med hmed => by
        have e1 := cut_medians htau.ne' hf hover hcut' hcs
        rw [hmed, Except.ok.injEq] at e1
        subst e1
        exact hls h2 _ _ (by simp) (by
          intro row hrow
          obtain ⟨x, hx, rfl⟩ := List.mem_map.mp hrow
          obtain ⟨y, _, rfl⟩ := List.mem_map.mp hx
          simp)) P.job.coh P.job.thr b h3 hR.method (fun _ => false) _ (h5 fun _ => false)
    have hmem : (i, M i) ∈ ((List.range P.job.time.links.length).filter fun _ => !false).map fun i => (i, M i) :=
      List.mem_map.mpr ⟨i, List.mem_filter.mpr ⟨List.mem_range.mpr hi, rfl⟩, rfl⟩
    have hBe : (M i).out = B := by
      have := (hU' i).1
      rw [if_pos hi, hB] at this
      simpa using this.symm
    refine ⟨c i ref, fun r q hr hq => ⟨fun hv => ?_, (hBv r q hr hq).2⟩, ref, F ref, oT ref, oS ref, href, hlarge, hoT ref, hoS ref, hF ref href,
      fun n p hn' => hcut i ref href s u hl n p hn'⟩
    have := (hend i (M i) hmem r q).1 (hcover r q hr hq hv)
    have hgl : P.job.time.links.getD i (0, 0) = (s, u) := by rw [List.getD_eq_getElem?_getD, hl]; rfl
    rw [← hBe, this]
    simp only [hphi, hgl, mul_comm P.tau]

/-- C63. If the true phase of the stack is unaliased on every tile and the overlaps join the tiles,
then after a completed run, however it was scheduled, the raster of every interferogram is the true
interferogram plus one number of cycles at every pixel of sufficient coherence, and has no value
elsewhere. -/
theorem C63_recovers (P : Flow K S) (hP : GoodFlow P) (htau : 0 < P.tau) (himg : 0 < P.job.coh.rows ∧ 0 < P.job.coh.cols)
    (T : TileSet) (hT : makeTiles P.sc P.fl P.useTiles P.tiler P.job.coh.cols P.mask = .ok T)
    (φ : Nat → ℤ × ℤ → K) (hU : Unaliased P T φ) (hjoin : TilesJoined P T)
    (hcc : ∀ edges : List (Nat × Nat), (∀ e ∈ edges, e.1 < T.tiles.length ∧ e.2 < T.tiles.length) →
      ComponentLabels T.tiles.length edges (P.cc T.tiles.length edges))
    (hls : P.merger.bulkMethod = "L2" → ∀ olaps off, off.length = olaps.length →
      (∀ row ∈ off, row.length = P.job.time.links.length) →
      LeastSquares (overlapMatrix olaps T.tiles.length) off (P.lstsq (overlapMatrix olaps T.tiles.length) off)
        T.tiles.length P.job.time.links.length)
    (d1 : Disk K) (h : RunByWrite P.stages Disk.empty .completed d1) (i s u : Nat)
    (hl : P.job.time.links[i]? = some (s, u)) :
    ∃ b, d1.unw i = some (some b) ∧ b.rows = P.job.coh.rows ∧ b.cols = P.job.coh.cols ∧
      ∃ c : ℤ, ∀ r q : Nat, r < P.job.coh.rows → q < P.job.coh.cols →
        (ValidPixel P.job r q → b.val r q = some ((φ u (r, q) - φ s (r, q)) + c * P.tau)) ∧
        (¬ ValidPixel P.job r q → b.val r q = none) := by
  obtain ⟨b, h1, h2, h3, c, h4, _⟩ := recovers_reference P hP htau himg T hT φ hU hjoin hcc hls d1 h i s u hl
  exact ⟨b, h1, h2, h3, c, h4⟩

/-- The triangulation used by the merge: its links join pixels of the tile and one of them ends at the last. -/
def Spec.MergeGraphOk (P : Flow K S) (b : BBox) : Prop :=
  (∀ u v, (u, v) ∈ (delaunayGraph (tilePixels P.job b).length (P.simplices (tilePixels P.job b))).links →
    u < (tilePixels P.job b).length ∧ v < (tilePixels P.job b).length) ∧
  ∃ p, Adjacent (delaunayGraph (tilePixels P.job b).length (P.simplices (tilePixels P.job b))).links
    ((tilePixels P.job b).length - 1) p

/-- C63. On an unaliased stack the workflow completes: with accepted settings, `min_overlap_points` at
least 11, overlaps that join the tiles and libraries that answer. No assumption on the flow solver. -/
theorem C63_completes (P : Flow K S) (hP : GoodFlow P) (htau : 0 < P.tau) (himg : 0 < P.job.coh.rows ∧ 0 < P.job.coh.cols)
    (hifgs : P.job.time.links ≠ []) (hpool : 1 ≤ P.job.settings.numParallelTiles)
    (hset : P.merger.check = .ok ()) (hmin : 11 ≤ P.merger.minOverlapPoints)
    (T : TileSet) (hT : makeTiles P.sc P.fl P.useTiles P.tiler P.job.coh.cols P.mask = .ok T)
    (φ : Nat → ℤ × ℤ → K) (hU : Unaliased P T φ) (hjoin : TilesJoined P T)
    (hcc : ∀ edges : List (Nat × Nat), (∀ e ∈ edges, e.1 < T.tiles.length ∧ e.2 < T.tiles.length) →
      ComponentLabels T.tiles.length edges (P.cc T.tiles.length edges))
    (hmipc : MipComplete P.mip)
    (hls : P.merger.bulkMethod = "L2" → ∀ olaps off, off.length = olaps.length →
      (∀ row ∈ off, row.length = P.job.time.links.length) →
      LeastSquares (overlapMatrix olaps T.tiles.length) off (P.lstsq (overlapMatrix olaps T.tiles.length) off)
        T.tiles.length P.job.time.links.length)
    (hilu : ∀ a, P.lin.ilu a = true) (hgraph : ∀ b ∈ T.tiles, MergeGraphOk P b) :
    ∃ d1, RunByWrite P.stages Disk.empty .completed d1 := by
  obtain ⟨hshape, hpos, hin⟩ := flow_tiles hP hT
  have hm : P.merger.method = "dirichlet" := by
    unfold MergerSettings.check at hset
    split at hset
    · simp at hset
    split at hset
    · simp at hset
    rename_i h2
    exact not_not.mp h2
  have hfiles := unaliased_files hP htau hin hU (fun _ _ l => l) (fun _ l => l) (fun _ _ l => List.Perm.refl l)
    (fun _ l => List.Perm.refl l)
  haveI : Inhabited (TileFile K) := ⟨⟨[], [], ⟨0, 0, 0, 0⟩, []⟩⟩
  choose! F hF hne hph using hfiles
  by_cases hn : T.tiles.length = 1
  · exact one_tile_runs P hP hpool hm T hT hn _ _ (fun _ l => List.Perm.refl l) (fun l => List.Perm.refl l) (F 0) (hF 0 (by omega))
  have hpix : ∀ t (ht : t < T.tiles.length), (F t).tile = T.tiles[t] ∧ filePoints (F t) = tilePixels P.job T.tiles[t] := by
    intro t ht
    have hmem := List.getElem_mem ht
    obtain ⟨f, h1, h2, h3, _⟩ := C62_tile_itoh P.tau htau P.solver P.job hP.job T t T.tiles[t] (List.getElem?_eq_getElem ht) (hin _ hmem)
      (hU.ready _ hmem) φ hU.phase (hU.smooth _ hmem) (fun _ l => l) (fun l => l) (fun _ l => List.Perm.refl l) (fun l => List.Perm.refl l)
    rw [hF t ht, Except.ok.injEq] at h1
    subst h1
    exact ⟨h2, h3⟩
  have hlen : ∀ t (ht : t < T.tiles.length), (F t).points.length = (tilePixels P.job T.tiles[t]).length := by
    intro t ht
    rw [← (hpix t ht).2]
    simp [filePoints]
  have hmemv : ∀ t (ht : t < T.tiles.length), ∀ r c : ℤ, (r, c) ∈ filePoints (F t) → InTile T.tiles[t] r c ∧ ValidPixel P.job r c := by
    intro t ht r c
    have hmem := List.getElem_mem ht
    have := (C55_tile_file P.tau P.solver hP.solver P.job hP.job T t T.tiles[t] (List.getElem?_eq_getElem ht) (hin _ hmem) _ _
      (fun _ l => List.Perm.refl l) (fun l => List.Perm.refl l) (F t) (hF t ht)).2.2.1 r c
    rw [filePoints_box (hpix t ht).1] at this
    exact this.mp
  refine C60_completes_partial P hP htau himg hifgs hpool hset hmin T hT hn ?_ (fun _ _ l => l) (fun _ l => l)
    (fun _ _ l => List.Perm.refl l) (fun _ l => List.Perm.refl l) F hF ?_ ?_ hcc hmipc hls hilu ?_ ?_
  · intro b hb
    obtain ⟨t, ht, rfl⟩ := List.mem_iff_getElem.mp hb
    obtain ⟨⟨r, c⟩, hp⟩ := List.exists_mem_of_ne_nil _ (hne t ht)
    exact ⟨r, c, hmemv t ht r c hp⟩
  · intro t ht t' ht' i hi n n' p hn1 hn2
    rcases hl : P.job.time.links[i]? with _ | ⟨s, u⟩
    · have hle := List.getElem?_eq_none_iff.mp hl
      omega
    · obtain ⟨c, hc, h1⟩ := hph t ht i s u hl
      obtain ⟨c', hc', h2⟩ := hph t' ht' i s u hl
      rw [h1 n p hn1, h2 n' p hn2]
      have e : (φ u p - φ s p) + P.tau * (c' : K) - ((φ u p - φ s p) + P.tau * c) = ((c' - c : ℤ) : K) * P.tau := by
        push_cast; ring
      rw [e, abs_mul, abs_of_pos htau]
      refine mul_le_mul_of_nonneg_right ?_ htau.le
      rw [abs_le] at hc hc'
      have : |c' - c| ≤ 32767 := by rw [abs_le]; omega
      exact_mod_cast this
  · have h01 := hjoin 1 (by omega)
    by_contra hno
    push Not at hno
    have : ∀ t, Relation.ReflTransGen (fun a b => (sharedPixels P.job T a b).Nonempty ∧
        P.merger.minOverlapPoints ≤ (sharedPixels P.job T a b).ncard) 0 t → t = 0 := by
      intro t ht
      induction ht with
      | refl => rfl
      | tail _ hs ih =>
        subst ih
        rename_i c _
        by_contra hc
        exact absurd hs.2 (not_le.mpr (hno 0 c (by omega)))
    exact absurd (this 1 h01) one_ne_zero
  · intro t ht u v huv
    rw [hlen t ht, (hpix t ht).2] at *
    exact (hgraph _ (List.getElem_mem ht)).1 u v huv
  · intro t ht
    rw [hlen t ht, (hpix t ht).2]
    exact (hgraph _ (List.getElem_mem ht)).2

end
end Spurt
