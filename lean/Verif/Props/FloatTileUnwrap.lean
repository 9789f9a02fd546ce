import Verif.Lemmas.TileRead
import Verif.Props.FloatCubeReturns

/-!
# Property C71: what a tile file contains, in mixed precision
-/

namespace Spurt
open Spec

section
variable {K : Type} [Field K] [LinearOrder K] [IsStrictOrderedRing K] [FloorRing K]

/-- C71. Without rounding, the tile worker is the one of C55 and C62. -/
theorem C71_tile_exact (tau : K) (solver : FlowSolver) (j : TileJob K) (tiles : TileSet) (t : Nat)
    (oT : Nat → List Nat → List Nat) (oS : List Nat → List Nat) :
    unwrapOneTileFl ⟨id, id, tau, tau, 1 / 1000⟩ solver j tiles t oT oS = unwrapOneTile tau solver j tiles t oT oS := by
  unfold unwrapOneTileFl unwrapOneTile
  simp only [(C69_exact tau).2.2.2]
  have : ∀ g data, phaseOffsetFl (⟨id, id, tau, tau, 1 / 1000⟩ : FloatArith K) g data = phaseOffset tau g data := by
    intro g data
    unfold phaseOffsetFl phaseOffset
    refine List.map_congr_left fun t _ => ?_
    rw [phaseDiff_eq]
    rfl
  simp only [this]

/-- The parts of a worker that returns. -/
theorem tileFl_inv {A : FloatArith K} {solver : FlowSolver} {j : TileJob K} {tiles : TileSet} {t : Nat} {b : BBox}
    (hb : tiles.tiles[t]? = some b) {oT : Nat → List Nat → List Nat} {oS : List Nat → List Nat} {f : TileFile K}
    (h : unwrapOneTileFl A solver j tiles t oT oS = .ok f) :
    ∃ time space, ormcf j.time = .ok time ∧ ormcf (tileGraph j b) = .ok space ∧
      unwrapCubeFl A solver (tileEmcf j b time space) ⟨2, 0, tileData j b⟩ oT oS = .ok f.uw ∧
      f.points = ((tilePoints j.coh j.thr b).map fun p => ((p.1 : ℤ), (p.2 : ℤ))) ∧ f.tile = b ∧
      f.phaseOffset = phaseOffsetFl A j.time (tileData j b) := by
  unfold unwrapOneTileFl at h
  rw [hb] at h
  simp only [Option.elim_some, Bind.bind, Except.bind] at h
  cases e1 : ormcf j.time with
  | error er => rw [e1] at h; simp at h
  | ok time =>
  rw [e1] at h
  simp only at h
  rw [show delaunayGraph (tilePoints j.coh j.thr b).length (j.simplices (tilePoints j.coh j.thr b)) = tileGraph j b from rfl] at h
  cases e2 : ormcf (tileGraph j b) with
  | error er => rw [e2] at h; simp at h
  | ok space =>
  rw [e2] at h
  simp only at h
  split at h
  · simp at h
  rw [show unwrapCubeFl A solver ⟨space, time, j.settings, j.cpuCount, j.tDist, j.tCent, j.sDist (tilePoints j.coh j.thr b),
    j.sCent (tilePoints j.coh j.thr b)⟩ ⟨2, 0, (readTile j.coh j.thr j.dates j.phase (0 : K) b).2⟩ oT oS =
    unwrapCubeFl A solver (tileEmcf j b time space) ⟨2, 0, tileData j b⟩ oT oS from rfl] at h
  cases e3 : unwrapCubeFl A solver (tileEmcf j b time space) ⟨2, 0, tileData j b⟩ oT oS with
  | error er => rw [e3] at h; simp at h
  | ok uw =>
  rw [e3] at h
  simp only [pure, Except.pure, Except.ok.injEq] at h
  subst h
  exact ⟨time, space, rfl, rfl, e3, rfl, rfl, rfl⟩

/-- A worker returns when its solver does. -/
theorem tileFl_returns {A : FloatArith K} {solver : FlowSolver} {j : TileJob K} (hj : GoodJob j) {tiles : TileSet} {t : Nat}
    {b : BBox} (hb : tiles.tiles[t]? = some b) (hin : TileInImage (j.coh.rows, j.coh.cols) b) (hd : j.dates ≠ [])
    {oT : Nat → List Nat → List Nat} {oS : List Nat → List Nat} {time space : Mcf} (h1 : ormcf j.time = .ok time)
    (h2 : ormcf (tileGraph j b) = .ok space) {uw : List (List K)}
    (h3 : unwrapCubeFl A solver (tileEmcf j b time space) ⟨2, 0, tileData j b⟩ oT oS = .ok uw) :
    ∃ f, unwrapOneTileFl A solver j tiles t oT oS = .ok f := by
  obtain ⟨r1, r2, _⟩ := tile_read hj hin
  have hhead : ((tileData j b).headD []).length = (tileGraph j b).npoints := by
    cases hw : tileData j b with
    | nil => rw [hw] at r1; exact absurd (List.length_eq_zero_iff.mp r1.symm) hd
    | cons a l => exact r2 a (by rw [hw]; simp)
  refine ⟨⟨uw, (tilePoints j.coh j.thr b).map fun p => ((p.1 : ℤ), (p.2 : ℤ)), b, phaseOffsetFl A j.time (tileData j b)⟩, ?_⟩
  unfold unwrapOneTileFl
  have h2' : ormcf (delaunayGraph (tilePoints j.coh j.thr b).length (j.simplices (tilePoints j.coh j.thr b))) = .ok space := h2
  have hhead' : ((readTile j.coh j.thr j.dates j.phase (0 : K) b).2.headD []).length =
    (delaunayGraph (tilePoints j.coh j.thr b).length (j.simplices (tilePoints j.coh j.thr b))).npoints := hhead
  have h3' : unwrapCubeFl A solver ⟨space, time, j.settings, j.cpuCount, j.tDist, j.tCent, j.sDist (tilePoints j.coh j.thr b),
    j.sCent (tilePoints j.coh j.thr b)⟩ ⟨2, 0, (readTile j.coh j.thr j.dates j.phase (0 : K) b).2⟩ oT oS = .ok uw := h3
  simp only [hb, Option.elim_some, h1, Bind.bind, Except.bind, h2']
  rw [if_neg (by rw [hhead']; simp), h3']
  rfl

/-- The data of a tile are bounded when the phases are. -/
theorem tileData_le {j : TileJob K} (hj : GoodJob j) {b : BBox} (hin : TileInImage (j.coh.rows, j.coh.cols) b) {a : K}
    (ha : ∀ s r c, PixelOf (j.coh.rows, j.coh.cols) r c → ValidPixel j r c → |epochPhase j s r.toNat c.toNat| ≤ a) :
    ∀ row ∈ tileData j b, ∀ x ∈ row, |x| ≤ a := by
  obtain ⟨r1, r2, r3, _, r5, r6⟩ := tile_read hj hin
  intro row hrow x hx
  obtain ⟨s, hs, rfl⟩ := List.mem_iff_getElem.mp hrow
  obtain ⟨n, hn, rfl⟩ := List.mem_iff_getElem.mp hx
  have hn' : n < (tilePixels j b).length := by rw [r3, ← r2 _ hrow]; exact hn
  have h1 := r6 s (by rw [← r1]; exact hs) n _ (List.getElem?_eq_getElem hn')
  have h2 : elem (tileData j b) s n = (tileData j b)[s][n] := by
    unfold elem
    rw [List.getD_eq_getElem?_getD (l := tileData j b), List.getElem?_eq_getElem hs]
    simp only [Option.getD_some]
    rw [List.getD_eq_getElem?_getD, List.getElem?_eq_getElem hn]
    rfl
  rw [← h2, h1]
  have h3 := (r5 (tilePixels j b)[n].1 (tilePixels j b)[n].2).mp (List.getElem_mem hn')
  refine ha _ _ _ ?_ h3.2
  have h4 := h3.1
  unfold TileInImage at hin
  unfold InTile at h4
  unfold PixelOf
  simp only at hin ⊢
  omega

variable {A : FloatArith K} {B1 η1 B2 η2 Bd ηd ε : K}

/-- The offset of a tile: the wrapped phase of its first pixel. -/
theorem phaseOffsetFl_near (P : Precision A B1 η1 B2 η2 Bd ηd ε) {a δ0 V W : K} (hwr : WrapsWithin A a δ0 V W)
    {links : List (Nat × Nat)} {g : PlanarGraph} (hg : g.links = links) {data : List (List K)} (ha0 : 0 ≤ a)
    (ha : ∀ row ∈ data, ∀ x ∈ row, |x| ≤ a) {i s u : Nat} (hi : links[i]? = some (s, u)) : ∃ n : ℤ,
      |(phaseOffsetFl A g data).getD i 0 - (elem data u 0 - elem data s 0 + (n : K) * A.tau)| ≤ δ0 + W * ε ∧
      |(phaseOffsetFl A g data).getD i 0| ≤ V := by
  have hoff : (phaseOffsetFl A g data).getD i 0 = phaseDiffFl A.fs A.tauS (elem data s 0) (elem data u 0) := by
    unfold phaseOffsetFl
    rw [List.getD_eq_getElem?_getD, List.getElem?_map, hg, hi]
    rfl
  obtain ⟨n, n1, n2, n3⟩ := hwr.ifg _ _ (elem_le ha0 ha s 0) (elem_le ha0 ha u 0)
  refine ⟨-n, ?_, by rw [hoff]; exact n3⟩
  rw [hoff]
  have hε := (abs_nonneg _).trans P.close
  have h1 : |(n : K) * (A.tau - A.tauS)| ≤ W * ε := by
    rw [abs_mul]
    exact mul_le_mul n2 P.close (abs_nonneg _) ((abs_nonneg _).trans n2)
  have b1 := abs_bounds n1
  have b2 := abs_bounds h1
  push_cast
  rw [mul_sub] at b2
  rw [abs_le]; constructor <;> linarith

/-- C71. Whenever a tile worker returns in mixed precision, its file has the pixels of the tile of sufficient coherence, one
row per interferogram, and at every pixel the phase is, up to whole cycles and up to an error that grows by a few roundings per
link from the first pixel, the difference of the phases of the two acquisitions. -/
theorem C71_tile_file (P : Precision A B1 η1 B2 η2 Bd ηd ε) (solver : FlowSolver) (j : TileJob K) (hj : GoodJob j)
    (tiles : TileSet) (t : Nat) (b : BBox) (hb : tiles.tiles[t]? = some b) (hin : TileInImage (j.coh.rows, j.coh.cols) b)
    (hcs : PlanarContract (tileGraph j b).npoints (tileGraph j b).links (tileGraph j b).cycles)
    (hpool : 1 ≤ j.settings.sWorkerCount ∨ 2 ≤ j.cpuCount)
    (a δ0 V W G δ : K) (hwr : WrapsWithin A a δ0 V W) (ha0 : 0 ≤ a)
    (ha : ∀ s r c, PixelOf (j.coh.rows, j.coh.cols) r c → ValidPixel j r c → |epochPhase j s r.toNat c.toNat| ≤ a)
    (oT : Nat → List Nat → List Nat) (oS : List Nat → List Nat)
    (hoT : ∀ k l, (oT k l).Perm l) (hoS : ∀ l, (oS l).Perm l) (Ft Fs : ℤ) (H : Nat)
    (R : CubeRoom A B1 η1 B2 Bd ηd ε δ0 V W G δ Ft Fs H)
    (hF : ∀ time space, ormcf j.time = .ok time → ormcf (tileGraph j b) = .ok space →
      FlowsWithin A solver (tileEmcf j b time space) (tileData j b) false oT Ft Fs)
    (hwalk : ∀ p < (tileGraph j b).npoints, ∃ L ≤ H, WalkTo (tileGraph j b).links L p)
    (f : TileFile K) (h : unwrapOneTileFl A solver j tiles t oT oS = .ok f) :
    f.tile = b ∧ filePoints f = tilePixels j b ∧
    (∀ r c : ℤ, (r, c) ∈ filePoints f ↔ InTile b r c ∧ ValidPixel j r c) ∧ f.points.Nodup ∧
    f.uw.length = j.time.links.length ∧ f.phaseOffset.length = j.time.links.length ∧
    (∀ row ∈ f.uw, row.length = f.points.length) ∧
    ∀ i s u : Nat, j.time.links[i]? = some (s, u) → ∀ (n : Nat) p, (filePoints f)[n]? = some p → ∃ k : ℤ,
      |filePhase f i n - (epochPhase j u p.1.toNat p.2.toNat - epochPhase j s p.1.toNat p.2.toNat + (k : K) * A.tau)| ≤
        (H : K) * (δ + 3 * ηd) + η2 + δ0 + W * ε := by
  obtain ⟨time, space, h1, h2, h3, h4, h5, h6⟩ := tileFl_inv hb h
  obtain ⟨r1, r2, r3, r4, r5, r6⟩ := tile_read hj hin
  have hpix : filePoints f = tilePixels j b := by
    unfold filePoints tilePixels
    rw [h4, h5]
    simp
  have hkind : decide ((tileData j b).length ≠ j.time.npoints) = false := by
    rw [r1, hj.dates]
    simp
  have hdat := tileData_le hj hin ha
  obtain ⟨o1, o2⟩ := C69_guarantee P solver (tileEmcf j b time space) j.time (tileGraph j b) hj.contract hcs h1 h2 hj.batch hpool
    ⟨2, 0, tileData j b⟩ a δ0 V W G δ hwr ha0 hdat oT oS hoT hoS Ft Fs H R (by
      intro isIfg hk
      have : isIfg = false := by
        unfold cubeKind at hk
        simp only at hk
        rw [if_neg (by simp), if_neg (by simp)] at hk
        have e : (tileEmcf j b time space).time.graph.npoints = j.time.npoints := by
          show time.graph.npoints = _
          rw [ormcf_graph h1]
        rw [if_pos (by unfold Emcf.nepochs; rw [e, r1, hj.dates])] at hk
        simpa using hk.symm
      subst this
      exact hF time space h1 h2) hwalk f.uw h3
  refine ⟨h5, hpix, fun r c => by rw [hpix]; exact r5 r c, ?_, o1, ?_, ?_, ?_⟩
  · rw [h4]
    exact r4.map fun p q hpq => by
      simp only [Prod.mk.injEq, Nat.cast_inj] at hpq
      exact Prod.ext hpq.1 hpq.2
  · rw [h6]; simp [phaseOffsetFl]
  · intro row hrow
    obtain ⟨i, hi, rfl⟩ := List.mem_iff_getElem.mp hrow
    have := (o2 i (by rw [← o1]; exact hi)).1
    rw [List.getD_eq_getElem?_getD, List.getElem?_eq_getElem hi] at this
    simp only [Option.getD_some] at this
    rw [this, h4]
    simp [tileGraph, delaunayGraph]
  · intro i s u hi n p hn
    have hil := (List.getElem?_eq_some_iff.mp hi).1
    have hlk := hj.contract.ordered s u (List.mem_of_getElem? hi)
    obtain ⟨_, k, k0, hk⟩ := o2 i hil
    rw [hpix] at hn
    have hn' : n < (tileGraph j b).npoints := by rw [← r3]; exact (List.getElem?_eq_some_iff.mp hn).1
    obtain ⟨L, hL, hw⟩ := hwalk n hn'
    have hgl : j.time.links.getD i (0, 0) = (s, u) := by rw [List.getD_eq_getElem?_getD, hi]; rfl
    have hifg : ∀ q, phaseOfIfg j.time.links (tileData j b) (decide ((tileData j b).length ≠ j.time.npoints)) i q =
        elem (tileData j b) u q - elem (tileData j b) s q := by
      intro q
      unfold phaseOfIfg
      rw [hkind, hgl]
      simp
    have c1 := hk L n hw hL hn'
    simp only [hifg] at c1
    obtain ⟨m, m1, _⟩ := phaseOffsetFl_near P hwr (links := j.time.links) (g := j.time) rfl ha0 hdat hi
    rw [← h6] at m1
    have e1 := r6 s (by rw [hj.dates]; omega) n p hn
    have e2 := r6 u (by rw [hj.dates]; omega) n p hn
    have hη : 0 ≤ δ + 3 * ηd := by
      have g0 := R.error
      have g1 := P.nonneg
      have hδ0 : 0 ≤ δ0 := by
        obtain ⟨z, z1, _⟩ := hwr.ifg 0 0 (by simpa using ha0) (by simpa using ha0)
        exact (abs_nonneg _).trans z1
      have hW : 0 ≤ W * ε := by
        obtain ⟨z, _, z2, _⟩ := hwr.ifg 0 0 (by simpa using ha0) (by simpa using ha0)
        exact mul_nonneg ((abs_nonneg _).trans z2) ((abs_nonneg _).trans P.close)
      linarith [g1.1, g1.2.2]
    have hLH : (L : K) * (δ + 3 * ηd) ≤ (H : K) * (δ + 3 * ηd) :=
      mul_le_mul_of_nonneg_right (by exact_mod_cast hL) hη
    refine ⟨k n + m, ?_⟩
    rw [← e1, ← e2]
    unfold filePhase
    change |elem f.uw i n + f.phaseOffset.getD i 0 - _| ≤ _
    have b1 := abs_bounds c1
    have b2 := abs_bounds m1
    push_cast
    rw [abs_le]; constructor <;> linarith

/-- The phases `φ` of the acquisitions are, up to whole cycles of length `tau` and up to `e1`, those of the stack. -/
def Spec.NearPhase (tau e1 : K) (j : TileJob K) (φ : Nat → ℤ × ℤ → K) : Prop :=
  ∀ s < j.dates.length, ∀ r c, PixelOf (j.coh.rows, j.coh.cols) r c → ValidPixel j r c → ∃ k : ℤ,
    |epochPhase j s r.toNat c.toNat - (φ s (r, c) - k * tau)| ≤ e1

/-- In every interferogram of the temporal graph, `φ` changes by at most `D` along every link of the triangulation of
tile `b`. -/
def Spec.SteepAtMost (D : K) (j : TileJob K) (b : BBox) (φ : Nat → ℤ × ℤ → K) : Prop :=
  ∀ s u, (s, u) ∈ j.time.links → ∀ m n, (m, n) ∈ (tileGraph j b).links →
    ∀ p q, (tilePixels j b)[m]? = some p → (tilePixels j b)[n]? = some q →
      |(φ u q - φ s q) - (φ u p - φ s p)| ≤ D

/-- From the run of `unwrap_cube` on an unaliased tile to the file of the tile. -/
theorem tile_near_of_cube (P : Precision A B1 η1 B2 η2 Bd ηd ε) (solver : FlowSolver) (j : TileJob K) (hj : GoodJob j)
    (tiles : TileSet) (t : Nat) (b : BBox) (hb : tiles.tiles[t]? = some b) (hin : TileInImage (j.coh.rows, j.coh.cols) b)
    (hr : TileReady j b) (a δ0 V W e1 : K) (hwr : WrapsWithin A a δ0 V W) (ha0 : 0 ≤ a)
    (ha : ∀ s r c, PixelOf (j.coh.rows, j.coh.cols) r c → ValidPixel j r c → |epochPhase j s r.toNat c.toNat| ≤ a)
    (φ : Nat → ℤ × ℤ → K) (hφ : NearPhase A.tau e1 j φ)
    (oT : Nat → List Nat → List Nat) (oS : List Nat → List Nat) (H : Nat)
    (hwalk : ∀ p < (tileGraph j b).npoints, ∃ L ≤ H, WalkTo (tileGraph j b).links L p)
    (err : Nat → K) (E : K) (hE : ∀ L ≤ H, err L ≤ E)
    (hcube : ∀ (time space : Mcf) (κ : Nat → Nat → ℤ), ormcf j.time = .ok time → ormcf (tileGraph j b) = .ok space → 0 ≤ e1 →
      (tileData j b).length = j.time.npoints → tileData j b ≠ [] → (∀ row ∈ tileData j b, row.length = (tileGraph j b).npoints) →
      (∀ row ∈ tileData j b, ∀ x ∈ row, |x| ≤ a) →
      (∀ i s u : Nat, j.time.links[i]? = some (s, u) → ∀ n < (tileGraph j b).npoints,
        |phaseOfIfg j.time.links (tileData j b) false i n - (φ u ((tilePixels j b).getD n (0, 0)) - φ s ((tilePixels j b).getD n (0, 0)) -
          (κ i n : K) * A.tau)| ≤ 2 * e1) →
      (∀ m n, (m, n) ∈ (tileGraph j b).links → (tilePixels j b)[m]? = some ((tilePixels j b).getD m (0, 0)) ∧
        (tilePixels j b)[n]? = some ((tilePixels j b).getD n (0, 0))) →
      FlowsWithin A solver (tileEmcf j b time space) (tileData j b) false oT 0 0 ∧
      ∃ out, unwrapCubeFl A solver (tileEmcf j b time space) ⟨2, 0, tileData j b⟩ oT oS = .ok out ∧
        out.length = j.time.links.length ∧
        ∀ i s u : Nat, j.time.links[i]? = some (s, u) → (out.getD i []).length = (tileGraph j b).npoints ∧
          ∀ L n, WalkTo (tileGraph j b).links L n → L ≤ H → n < (tileGraph j b).npoints →
            |elem out i n - ((φ u ((tilePixels j b).getD n (0, 0)) - φ s ((tilePixels j b).getD n (0, 0))) -
              (φ u ((tilePixels j b).getD 0 (0, 0)) - φ s ((tilePixels j b).getD 0 (0, 0))))| ≤ err L) :
    (∀ time space, ormcf j.time = .ok time → ormcf (tileGraph j b) = .ok space →
      FlowsWithin A solver (tileEmcf j b time space) (tileData j b) false oT 0 0) ∧
    ∃ f, unwrapOneTileFl A solver j tiles t oT oS = .ok f ∧ f.tile = b ∧ filePoints f = tilePixels j b ∧
      f.uw.length = j.time.links.length ∧ f.phaseOffset.length = j.time.links.length ∧
      (∀ row ∈ f.uw, row.length = f.points.length) ∧ f.points.Nodup ∧
      ∀ i s u : Nat, j.time.links[i]? = some (s, u) → ∃ c : ℤ,
        (∀ (n : Nat) p, (tilePixels j b)[n]? = some p →
          |filePhase f i n - (φ u p - φ s p + c * A.tau)| ≤ E + δ0 + W * ε + 2 * e1) ∧
        |filePhase f i 0| ≤ V + err 0 := by
  obtain ⟨hcs, hne, _, _, _, _, hd0⟩ := hr
  obtain ⟨time, htime⟩ := C06_contract_accepted j.time hj.contract
  obtain ⟨space, hspace⟩ := C06_contract_accepted (tileGraph j b) hcs
  obtain ⟨r1, r2, r3, r4, r5, r6⟩ := tile_read hj hin
  have hdat := tileData_le hj hin ha
  obtain ⟨⟨la, lb⟩, hl0⟩ := List.exists_mem_of_ne_nil _ hne
  have hpos : 0 < (tileGraph j b).npoints := by have := hcs.ordered la lb hl0; omega
  -- the data and the true phases
  have hk : ∀ s n, ∃ k : ℤ, s < j.dates.length → n < (tileGraph j b).npoints →
      |elem (tileData j b) s n - (φ s ((tilePixels j b).getD n (0, 0)) - k * A.tau)| ≤ e1 := by
    intro s n
    by_cases h1 : s < j.dates.length
    swap; · exact ⟨0, fun h => absurd h h1⟩
    by_cases h2 : n < (tileGraph j b).npoints
    swap; · exact ⟨0, fun _ h => absurd h h2⟩
    have hn : (tilePixels j b)[n]? = some ((tilePixels j b).getD n (0, 0)) := getElem?_of_getD (by rw [r3]; exact h2)
    have hm := (r5 _ _).mp (List.mem_of_getElem? hn)
    obtain ⟨k, hk⟩ := hφ s h1 _ _ (by
      have h3 := hm.1
      unfold TileInImage at hin
      unfold InTile at h3
      unfold PixelOf
      simp only at hin ⊢
      omega) hm.2
    exact ⟨k, fun _ _ => by rw [r6 s h1 n _ hn]; exact hk⟩
  choose k hk using hk
  have he1 : 0 ≤ e1 := by
    have h0 : 0 < j.dates.length := List.length_pos_of_ne_nil hd0
    exact (abs_nonneg _).trans (hk 0 0 h0 hpos)
  have hmgt : time.graph = j.time := ormcf_graph htime
  have hmgs : space.graph = tileGraph j b := ormcf_graph hspace
  have hgl : ∀ i s u : Nat, j.time.links[i]? = some (s, u) → j.time.links.getD i (0, 0) = (s, u) := by
    intro i s u hi
    rw [List.getD_eq_getElem?_getD, hi]; rfl
  obtain ⟨hfl, out, o1, o2, o3⟩ := hcube time space
    (fun i n => k (j.time.links.getD i (0, 0)).2 n - k (j.time.links.getD i (0, 0)).1 n) htime hspace he1 (by rw [r1, hj.dates])
    (fun h => hd0 (List.length_eq_zero_iff.mp (by rw [← r1, h]; rfl))) r2 hdat (by
      intro i s u hi n hn
      have hlk := hj.contract.ordered s u (List.mem_of_getElem? hi)
      have b1 := abs_bounds (hk s n (by rw [hj.dates]; omega) hn)
      have b2 := abs_bounds (hk u n (by rw [hj.dates]; omega) hn)
      unfold phaseOfIfg
      rw [hgl i s u hi]
      simp only [Bool.false_eq_true, if_false]
      push_cast
      rw [abs_le]; constructor <;> linarith) (by
      intro m n h2
      have h3 := hcs.ordered m n h2
      exact ⟨getElem?_of_getD (by omega), getElem?_of_getD (by omega)⟩)
  obtain ⟨f, hf⟩ := tileFl_returns (A := A) (solver := solver) hj hb hin hd0 htime hspace o1
  obtain ⟨time', space', h1, h2, h3, h4, h5, h6⟩ := tileFl_inv hb hf
  rw [htime, Except.ok.injEq] at h1
  rw [hspace, Except.ok.injEq] at h2
  subst h1 h2
  rw [o1, Except.ok.injEq] at h3
  have hpix : filePoints f = tilePixels j b := by
    unfold filePoints tilePixels
    rw [h4, h5]
    simp
  refine ⟨fun time' space' ht' hs' => by
    rw [htime, Except.ok.injEq] at ht'
    rw [hspace, Except.ok.injEq] at hs'
    rw [← ht', ← hs']
    exact hfl, f, hf, h5, hpix, by rw [← h3]; exact o2, by rw [h6]; simp [phaseOffsetFl], ?_, ?_, ?_⟩
  · intro row hrow
    rw [← h3] at hrow
    obtain ⟨i, hi, rfl⟩ := List.mem_iff_getElem.mp hrow
    have hi' : i < j.time.links.length := by rw [← o2]; exact hi
    have := (o3 i j.time.links[i].1 j.time.links[i].2 (List.getElem?_eq_getElem hi')).1
    rw [List.getD_eq_getElem?_getD, List.getElem?_eq_getElem hi] at this
    simp only [Option.getD_some] at this
    rw [this, h4]
    simp [tileGraph, delaunayGraph]
  · rw [h4]
    exact r4.map fun p q hpq => by
      simp only [Prod.mk.injEq, Nat.cast_inj] at hpq
      exact Prod.ext hpq.1 hpq.2
  · intro i s u hi
    have hlk := hj.contract.ordered s u (List.mem_of_getElem? hi)
    obtain ⟨_, hval⟩ := o3 i s u hi
    obtain ⟨m, m1, m2⟩ := phaseOffsetFl_near P hwr (links := j.time.links) (g := j.time) rfl ha0 hdat hi
    rw [← h6] at m1 m2
    have b1 := abs_bounds (hk s 0 (by rw [hj.dates]; omega) hpos)
    have b2 := abs_bounds (hk u 0 (by rw [hj.dates]; omega) hpos)
    have b3 := abs_bounds m1
    have hfp : ∀ n, filePhase f i n = elem out i n + f.phaseOffset.getD i 0 := by
      intro n
      rw [h3]
      rfl
    refine ⟨k s 0 - k u 0 + m, ?_, ?_⟩
    · intro n p hn
      have hn' : n < (tileGraph j b).npoints := by rw [← r3]; exact (List.getElem?_eq_some_iff.mp hn).1
      obtain ⟨L, hL, hw⟩ := hwalk n hn'
      have c1 := hval L n hw hL hn'
      have hp : (tilePixels j b).getD n (0, 0) = p := by rw [List.getD_eq_getElem?_getD, hn]; rfl
      simp only [hp] at c1
      have hLE := hE L hL
      rw [hfp]
      have b4 := abs_bounds c1
      push_cast
      rw [abs_le]; constructor <;> linarith
    · rw [hfp]
      have c1 := abs_bounds (hval 0 0 (WalkTo.start) (Nat.zero_le _) hpos)
      have b5 := abs_bounds m2
      simp only [sub_self, sub_zero] at c1
      rw [abs_le]; constructor <;> linarith

theorem tile_itoh_core (P : Precision A B1 η1 B2 η2 Bd ηd ε) (solver : FlowSolver) (j : TileJob K) (hj : GoodJob j)
    (tiles : TileSet) (t : Nat) (b : BBox) (hb : tiles.tiles[t]? = some b) (hin : TileInImage (j.coh.rows, j.coh.cols) b)
    (hr : TileReady j b) (a δ0 V W G δ e1 D : K) (hwr : WrapsWithin A a δ0 V W) (ha0 : 0 ≤ a)
    (ha : ∀ s r c, PixelOf (j.coh.rows, j.coh.cols) r c → ValidPixel j r c → |epochPhase j s r.toNat c.toNat| ≤ a)
    (φ : Nat → ℤ × ℤ → K) (hφ : NearPhase A.tau e1 j φ) (hsm : SteepAtMost D j b φ) (hD : D + V + δ + 4 * e1 < A.tau)
    (oT : Nat → List Nat → List Nat) (oS : List Nat → List Nat)
    (hoT : ∀ k l, (oT k l).Perm l) (hoS : ∀ l, (oS l).Perm l) (H : Nat)
    (R : CubeRoom A B1 η1 B2 Bd ηd ε δ0 V W G δ 0 0 H)
    (hwalk : ∀ p < (tileGraph j b).npoints, ∃ L ≤ H, WalkTo (tileGraph j b).links L p)
    (htol : 2 * ((H : K) + 1) * (δ + 3 * ηd) ≤ A.tol)
    (hrt : ResidueRoom A B2 η2 G (δ + 4 * e1) j.time.cycles)
    (hrs : ResidueRoom A B2 η2 G (δ + 4 * e1) (tileGraph j b).cycles) :
    (∀ time space, ormcf j.time = .ok time → ormcf (tileGraph j b) = .ok space →
      FlowsWithin A solver (tileEmcf j b time space) (tileData j b) false oT 0 0) ∧
    ∃ f, unwrapOneTileFl A solver j tiles t oT oS = .ok f ∧ f.tile = b ∧ filePoints f = tilePixels j b ∧
      f.uw.length = j.time.links.length ∧ f.phaseOffset.length = j.time.links.length ∧
      (∀ row ∈ f.uw, row.length = f.points.length) ∧ f.points.Nodup ∧
      ∀ i s u : Nat, j.time.links[i]? = some (s, u) → ∃ c : ℤ,
        (∀ (n : Nat) p, (tilePixels j b)[n]? = some p →
          |filePhase f i n - (φ u p - φ s p + c * A.tau)| ≤ (H : K) * (δ + 3 * ηd) + η2 + δ0 + W * ε + 6 * e1) ∧
        |filePhase f i 0| ≤ V + η2 + 4 * e1 := by
  obtain ⟨hcs, hne, _, ⟨tc, htc⟩, ⟨sc, hsc⟩, hpool, hd0⟩ := id hr
  have hη : 0 ≤ δ + 3 * ηd := by
    have g0 := R.error
    have g1 := P.nonneg
    obtain ⟨z, z1, z2, _⟩ := hwr.ifg 0 0 (by simpa using ha0) (by simpa using ha0)
    have hδ0 := (abs_nonneg _).trans z1
    have hW : 0 ≤ W * ε := mul_nonneg ((abs_nonneg _).trans z2) ((abs_nonneg _).trans P.close)
    linarith [g1.1, g1.2.2]
  have hmain := tile_near_of_cube P solver j hj tiles t b hb hin hr a δ0 V W e1 hwr ha0 ha φ hφ oT oS H hwalk
    (fun L => (L : K) * (δ + 3 * ηd) + η2 + 2 * (2 * e1)) ((H : K) * (δ + 3 * ηd) + η2 + 2 * (2 * e1)) (fun L hL => by
      have hLH : (L : K) * (δ + 3 * ηd) ≤ (H : K) * (δ + 3 * ηd) := mul_le_mul_of_nonneg_right (by exact_mod_cast hL) hη
      show (L : K) * (δ + 3 * ηd) + η2 + 2 * (2 * e1) ≤ _
      linarith) (by
      intro time space κ htime hspace he1 d1 d2 d3 d4 d5 d6
      have hmgt : time.graph = j.time := ormcf_graph htime
      have hmgs : space.graph = tileGraph j b := ormcf_graph hspace
      exact itoh_core P solver (tileEmcf j b time space) j.time (tileGraph j b) hj.contract hcs hne htime hspace
        hj.batch hpool tc sc (by unfold Emcf.nifgs; show costOf _ time.graph.links.length _ _ = _; rw [hmgt]; exact htc)
        (by unfold Emcf.nlinks; show costOf _ space.graph.links.length _ _ = _; rw [hmgs]; exact hsc) ⟨2, 0, tileData j b⟩ rfl rfl false
        d1 d2 d3 a δ0 V W G δ (2 * e1) hwr ha0 d4 (fun s n => φ s ((tilePixels j b).getD n (0, 0))) κ d5 (by
          intro s u m n h1 h2
          have := hsm s u h1 m n h2 _ _ (d6 m n h2).1 (d6 m n h2).2
          linarith) oT oS hoT hoS H R hwalk htol (by rw [show δ + 2 * (2 * e1) = δ + 4 * e1 by ring]; exact hrt)
        (by rw [show δ + 2 * (2 * e1) = δ + 4 * e1 by ring]; exact hrs))
  refine ⟨hmain.1, ?_⟩
  obtain ⟨f, f1, f2, f3, f4, f5, f6, f7, f8⟩ := hmain.2
  refine ⟨f, f1, f2, f3, f4, f5, f6, f7, fun i s u hi => ?_⟩
  obtain ⟨c, c1, c2⟩ := f8 i s u hi
  refine ⟨c, fun n p hn => (c1 n p hn).trans (by linarith), ?_⟩
  rw [Nat.cast_zero, zero_mul, zero_add] at c2
  linarith

/-- C71. An unaliased tile in mixed precision: if the true phase is within `e1` of the stack and changes by sufficiently less than half
a cycle along the links of the triangulation, the worker returns, whatever the flow solver answers, and in every interferogram
the file has the true phase plus one number of cycles, with an error of `H(δ + 3ηd) + η2 + δ0 + Wε + 6 e1`. -/
theorem C71_tile_itoh (P : Precision A B1 η1 B2 η2 Bd ηd ε) (solver : FlowSolver) (j : TileJob K) (hj : GoodJob j)
    (tiles : TileSet) (t : Nat) (b : BBox) (hb : tiles.tiles[t]? = some b) (hin : TileInImage (j.coh.rows, j.coh.cols) b)
    (hr : TileReady j b) (a δ0 V W G δ e1 D : K) (hwr : WrapsWithin A a δ0 V W) (ha0 : 0 ≤ a)
    (ha : ∀ s r c, PixelOf (j.coh.rows, j.coh.cols) r c → ValidPixel j r c → |epochPhase j s r.toNat c.toNat| ≤ a)
    (φ : Nat → ℤ × ℤ → K) (hφ : NearPhase A.tau e1 j φ) (hsm : SteepAtMost D j b φ) (hD : D + V + δ + 4 * e1 < A.tau)
    (oT : Nat → List Nat → List Nat) (oS : List Nat → List Nat)
    (hoT : ∀ k l, (oT k l).Perm l) (hoS : ∀ l, (oS l).Perm l) (H : Nat)
    (R : CubeRoom A B1 η1 B2 Bd ηd ε δ0 V W G δ 0 0 H)
    (hwalk : ∀ p < (tileGraph j b).npoints, ∃ L ≤ H, WalkTo (tileGraph j b).links L p)
    (htol : 2 * ((H : K) + 1) * (δ + 3 * ηd) ≤ A.tol)
    (hrt : ResidueRoom A B2 η2 G (δ + 4 * e1) j.time.cycles)
    (hrs : ResidueRoom A B2 η2 G (δ + 4 * e1) (tileGraph j b).cycles) :
    ∃ f, unwrapOneTileFl A solver j tiles t oT oS = .ok f ∧ f.tile = b ∧ filePoints f = tilePixels j b ∧
      f.uw.length = j.time.links.length ∧ f.phaseOffset.length = j.time.links.length ∧
      (∀ row ∈ f.uw, row.length = f.points.length) ∧ f.points.Nodup ∧
      ∀ i s u : Nat, j.time.links[i]? = some (s, u) → ∃ c : ℤ,
        (∀ (n : Nat) p, (tilePixels j b)[n]? = some p →
          |filePhase f i n - (φ u p - φ s p + c * A.tau)| ≤ (H : K) * (δ + 3 * ηd) + η2 + δ0 + W * ε + 6 * e1) ∧
        |filePhase f i 0| ≤ V + η2 + 4 * e1 :=
  (tile_itoh_core P solver j hj tiles t b hb hin hr a δ0 V W G δ e1 D hwr ha0 ha φ hφ hsm hD oT oS hoT hoS H R hwalk htol hrt hrs).2

/-- C71. For an unaliased tile (hypotheses of `C71_tile_itoh`) no whole cycles are taken from the flow solver. -/
theorem C71_no_flows (P : Precision A B1 η1 B2 η2 Bd ηd ε) (solver : FlowSolver) (j : TileJob K) (hj : GoodJob j)
    (tiles : TileSet) (t : Nat) (b : BBox) (hb : tiles.tiles[t]? = some b) (hin : TileInImage (j.coh.rows, j.coh.cols) b)
    (hr : TileReady j b) (a δ0 V W G δ e1 D : K) (hwr : WrapsWithin A a δ0 V W) (ha0 : 0 ≤ a)
    (ha : ∀ s r c, PixelOf (j.coh.rows, j.coh.cols) r c → ValidPixel j r c → |epochPhase j s r.toNat c.toNat| ≤ a)
    (φ : Nat → ℤ × ℤ → K) (hφ : NearPhase A.tau e1 j φ) (hsm : SteepAtMost D j b φ) (hD : D + V + δ + 4 * e1 < A.tau)
    (oT : Nat → List Nat → List Nat) (oS : List Nat → List Nat)
    (hoT : ∀ k l, (oT k l).Perm l) (hoS : ∀ l, (oS l).Perm l) (H : Nat)
    (R : CubeRoom A B1 η1 B2 Bd ηd ε δ0 V W G δ 0 0 H)
    (hwalk : ∀ p < (tileGraph j b).npoints, ∃ L ≤ H, WalkTo (tileGraph j b).links L p)
    (htol : 2 * ((H : K) + 1) * (δ + 3 * ηd) ≤ A.tol)
    (hrt : ResidueRoom A B2 η2 G (δ + 4 * e1) j.time.cycles)
    (hrs : ResidueRoom A B2 η2 G (δ + 4 * e1) (tileGraph j b).cycles) :
    (∀ time space, ormcf j.time = .ok time → ormcf (tileGraph j b) = .ok space →
      FlowsWithin A solver (tileEmcf j b time space) (tileData j b) false oT 0 0) :=
  (tile_itoh_core P solver j hj tiles t b hb hin hr a δ0 V W G δ e1 D hwr ha0 ha φ hφ hsm hD oT oS hoT hoS H R hwalk htol hrt hrs).1

end
end Spurt
