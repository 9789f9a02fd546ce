import Verif.Lemmas.BulkFile
import Verif.Lemmas.TileShape
import Verif.Props.MergeSeamless
import Verif.Props.Laplacian

/-!
# Properties C56 (stack) and C57: overlap statistics, bulk offsets and merge together
-/

namespace Spurt
open Spec

section
variable {K : Type} [Field K] [LinearOrder K] [FloorRing K] [IsStrictOrderedRing K]

/-- C56. Every raster value merged from the tiles of one stack differs from the wrapped interferogram
of the stack by whole cycles; the pixels with a value are the pixels of sufficient coherence in some
tile. -/
theorem C56_stack (tau : K) (htau : 0 < tau) (solver : FlowSolver) (hs : SolverSound solver) (j : TileJob K)
    (hj : GoodJob j) (tiles : TileSet) (htwo : 2 ≤ tiles.tiles.length)
    (hshape : tiles.shape = ((j.coh.rows : ℤ), (j.coh.cols : ℤ))) (himg : 0 < j.coh.rows ∧ 0 < j.coh.cols)
    (hifgs : 1 ≤ j.time.links.length)
    (hin : ∀ b ∈ tiles.tiles, TileInImage (j.coh.rows, j.coh.cols) b)
    (oT : Nat → Nat → List Nat → List Nat) (oS : Nat → List Nat → List Nat)
    (hoT : ∀ t k l, (oT t k l).Perm l) (hoS : ∀ t l, (oS t l).Perm l)
    (files : Nat → Except PyErr (TileFile K)) (F : Nat → TileFile K)
    (hread : ∀ t < tiles.tiles.length, files t = .ok (F t))
    (hfiles : ∀ t < tiles.tiles.length, unwrapOneTile tau solver j tiles t (oT t) (oS t) = .ok (F t))
    (minPoints : ℤ) (cc : Nat → List (Nat × Nat) → List Nat) (env : MergeEnv K)
    (hover : phasediffDeciles id tau minPoints cc tiles files = .ok (some env.overlap))
    (hlab : env.overlap.labels.length = tiles.tiles.length) (bulk : BulkFile K)
    (hbulk : BulkOk j.time.links.length tiles.tiles.length bulk) (settings : MergerSettings)
    (hmethod : settings.method = "dirichlet") (hbm : bulk.method = settings.bulkMethod) (isFile : Nat → Bool)
    (out : List (Nat × MergedBand K))
    (hm : mergeTiles tau env settings tiles files bulk j.time.links.length isFile = .ok (.merged out))
    (i : Nat) (m : MergedBand K) (hi : (i, m) ∈ out) (s u : Nat) (hlink : j.time.links[i]? = some (s, u)) (r q : Nat) :
    ((∃ b ∈ tiles.tiles, InTile b r q ∧ ValidPixel j r q) →
      ∃ v, m.out.val r q = some v ∧ ∃ k : ℤ, v = stackIfg tau j s u r q + k * tau) ∧
    ((∀ b ∈ tiles.tiles, ¬ (InTile b r q ∧ ValidPixel j r q)) → m.out.val r q = none) := by
  obtain ⟨hf, hpts, hph⟩ := tileFilesOk_of_unwrap tau solver hs j hj tiles hshape hin oT oS hoT hoS files F hread hfiles
  have hinput : MergeInput tau minPoints cc j.time.links.length tiles files F env.overlap bulk settings :=
    ⟨htwo, by rw [hshape]; simp only; omega, hifgs, hf, hover, hlab, hbulk, hmethod, hbm⟩
  obtain ⟨k1, k2⟩ := C56_congruent tau htau minPoints cc _ tiles files F env bulk settings hinput isFile out hm i m hi
    (fun pix => stackIfg tau j s u pix.1.toNat pix.2.toNat)
    (fun t ht p pix hp => hph t ht i s u hlink p pix hp) r q
  constructor
  · rintro ⟨b, hb, hv⟩
    obtain ⟨t, ht, rfl⟩ := List.mem_iff_getElem.mp hb
    obtain ⟨v, _, e1, _, _, e2⟩ := k1 ⟨t, ht, (hpts t ht r q).mpr ⟨_, by simp, hv⟩⟩
    refine ⟨v, e1, ?_⟩
    simpa using e2
  · intro hno
    refine (k2 fun t ht hc => ?_).1
    obtain ⟨b, hb, hv⟩ := (hpts t ht r q).mp hc
    exact hno b (List.mem_of_getElem? hb) hv

/-! ### C57 -/

/-- `C57_end_to_end` with the common tile: the first of those with the most pixels. -/
theorem end_to_end_largest {C : Type} [LinearOrder C] (tau : K) (htau : 0 < tau) (minPoints : ℤ)
    (cc : Nat → List (Nat × Nat) → List Nat)
    (nifgs : Nat) (hifgs : 1 ≤ nifgs) (tiles : TileSet) (htwo : 2 ≤ tiles.tiles.length)
    (himg : 0 < tiles.shape.1 ∧ 0 < tiles.shape.2)
    (files : Nat → Except PyErr (TileFile K)) (F : Nat → TileFile K) (hf : TileFilesOk nifgs tiles files F)
    (phi : Nat → ℤ × ℤ → K) (c : Nat → Nat → ℤ) (hcut : CutFields tau nifgs tiles.tiles.length F phi c)
    (hsmall : ∀ b i, |c b i| ≤ 16383) (env : MergeEnv K)
    (hover : phasediffDeciles id tau minPoints cc tiles files = .ok (some env.overlap))
    (hlab : ComponentLabels tiles.tiles.length env.overlap.overlaps env.overlap.labels)
    (hconn : ∀ t < tiles.tiles.length, Relation.ReflTransGen (Adjacent env.overlap.overlaps) 0 t)
    (mip : MipSolver) (hmip : MipOptimal mip) (lstsq : Lstsq K) (settings : MergerSettings)
    (hls : settings.bulkMethod = "L2" → ∀ med, medianOffsets env.overlap = .ok med →
      LeastSquares (overlapMatrix env.overlap.overlaps tiles.tiles.length)
      (med.map fun x => x.map fun v => ((v : ℤ) : K)) (lstsq (overlapMatrix env.overlap.overlaps tiles.tiles.length)
      (med.map fun x => x.map fun v => ((v : ℤ) : K))) tiles.tiles.length nifgs)
    (coh : Band (Option C)) (thr : C) (bulk : BulkFile K)
    (hbulk : bulkOffsets mip lstsq settings.bulkMethod tiles coh thr env.overlap = .ok (some bulk))
    (hmethod : settings.method = "dirichlet") (isFile : Nat → Bool) (out : List (Nat × MergedBand K))
    (hm : mergeTiles tau env settings tiles files bulk nifgs isFile = .ok (.merged out)) :
    bulk.residuals = List.replicate nifgs 0 ∧ out.map Prod.fst = (List.range nifgs).filter (fun i => !isFile i) ∧
    ∃ ref < tiles.tiles.length, LargestTile (tileCounts coh thr tiles) ref ∧ ∀ b m, (b, m) ∈ out → ∀ r q : Nat,
      ((∃ i < tiles.tiles.length, ((r : ℤ), (q : ℤ)) ∈ filePoints (F i)) →
        m.out.val r q = some (phi b (r, q) + tau * c b ref)) ∧
      ((∀ i < tiles.tiles.length, ((r : ℤ), (q : ℤ)) ∉ filePoints (F i)) → m.out.val r q = none) ∧
      ((∃ i j, i < j ∧ j < tiles.tiles.length ∧ ((r : ℤ), (q : ℤ)) ∈ filePoints (F i) ∧
        ((r : ℤ), (q : ℤ)) ∈ filePoints (F j)) → m.diff.val r q = some 0) := by
  obtain ⟨hsub, _, _, _⟩ := C53_recorded tau minPoints cc tiles files env.overlap hover
  have hlt : ∀ e ∈ env.overlap.overlaps, e.1 < e.2 ∧ e.2 < tiles.tiles.length := by
    rintro ⟨i, j⟩ he
    obtain ⟨h1, a, b, h2, h3, _⟩ := ((C25_overlaps tiles).1 i j).mp (hsub.subset he)
    exact ⟨h1, (List.getElem?_eq_some_iff.mp h3).1⟩
  have hmed := cut_medians htau.ne' hf hover hcut hsmall
  obtain ⟨b1, b2, b3, ref, href, hlarge, hoff⟩ := cut_offsets_largest hmip htwo hlt hlab hconn hsmall hmed hls hbulk
  have hinput : MergeInput tau minPoints cc nifgs tiles files F env.overlap bulk settings :=
    ⟨htwo, himg, hifgs, hf, hover, hlab.length, b2, hmethod, b1⟩
  refine ⟨b3, ?_, ref, href, hlarge, ?_⟩
  · rcases C45_batching tau minPoints cc nifgs tiles files F env bulk settings hinput with ⟨M, hM⟩ | hM
    · have := hM settings.numParallelIfgs isFile
      rw [show ({ settings with numParallelIfgs := settings.numParallelIfgs } : MergerSettings) = settings from rfl, hm] at this
      simp only [Except.ok.injEq, MergeResult.merged.injEq] at this
      rw [this]
      simp [Function.comp_def]
    · obtain ⟨h1, h2⟩ := hM settings.numParallelIfgs isFile
      rw [show ({ settings with numParallelIfgs := settings.numParallelIfgs } : MergerSettings) = settings from rfl, hm] at h1 h2
      by_cases hex : ∃ i < nifgs, isFile i = false
      · obtain ⟨e, he⟩ := h1 hex
        simp at he
      · push Not at hex
        have hall : ∀ i < nifgs, isFile i = true := fun i hi => by simpa using hex i hi
        have := h2 hall
        simp only [Except.ok.injEq, MergeResult.merged.injEq] at this
        rw [this, List.map_nil, eq_comm, List.filter_eq_nil_iff]
        intro i hi
        simp [hall i (List.mem_range.mp hi)]
  · intro b m hb r q
    obtain ⟨hbn, _⟩ := merged_band hinput hm hb
    obtain ⟨k1, k2, k3, _⟩ := C46_seamless tau htau minPoints cc nifgs tiles files F env bulk settings hinput isFile out hm
      b m hb (phi b) (c b) (c b ref) (hcut b hbn) (hoff b hbn) r q
    exact ⟨fun h => (k1 h).1, fun h => (k2 h).1, k3⟩

/-- C57. The fields `phi` are cut into tiles, tile `i` adds `c b i` cycles in interferogram `b`, and
the recorded overlaps connect the tiles. Then overlap statistics, bulk offsets (integer programme or
least squares) and merge give back each field, plus the number of cycles of one common tile `ref`, at
every covered pixel; the overlaps have spread 0 and the bulk residuals are 0. -/
theorem C57_end_to_end {C : Type} [LinearOrder C] (tau : K) (htau : 0 < tau) (minPoints : ℤ)
    (cc : Nat → List (Nat × Nat) → List Nat)
    (nifgs : Nat) (hifgs : 1 ≤ nifgs) (tiles : TileSet) (htwo : 2 ≤ tiles.tiles.length)
    (himg : 0 < tiles.shape.1 ∧ 0 < tiles.shape.2)
    (files : Nat → Except PyErr (TileFile K)) (F : Nat → TileFile K) (hf : TileFilesOk nifgs tiles files F)
    (phi : Nat → ℤ × ℤ → K) (c : Nat → Nat → ℤ) (hcut : CutFields tau nifgs tiles.tiles.length F phi c)
    (hsmall : ∀ b i, |c b i| ≤ 16383) (env : MergeEnv K)
    (hover : phasediffDeciles id tau minPoints cc tiles files = .ok (some env.overlap))
    (hlab : ComponentLabels tiles.tiles.length env.overlap.overlaps env.overlap.labels)
    (hconn : ∀ t < tiles.tiles.length, Relation.ReflTransGen (Adjacent env.overlap.overlaps) 0 t)
    (mip : MipSolver) (hmip : MipOptimal mip) (lstsq : Lstsq K) (settings : MergerSettings)
    (hls : settings.bulkMethod = "L2" → ∀ med, medianOffsets env.overlap = .ok med →
      LeastSquares (overlapMatrix env.overlap.overlaps tiles.tiles.length)
      (med.map fun x => x.map fun v => ((v : ℤ) : K)) (lstsq (overlapMatrix env.overlap.overlaps tiles.tiles.length)
      (med.map fun x => x.map fun v => ((v : ℤ) : K))) tiles.tiles.length nifgs)
    (coh : Band (Option C)) (thr : C) (bulk : BulkFile K)
    (hbulk : bulkOffsets mip lstsq settings.bulkMethod tiles coh thr env.overlap = .ok (some bulk))
    (hmethod : settings.method = "dirichlet") (isFile : Nat → Bool) (out : List (Nat × MergedBand K))
    (hm : mergeTiles tau env settings tiles files bulk nifgs isFile = .ok (.merged out)) :
    bulk.residuals = List.replicate nifgs 0 ∧ out.map Prod.fst = (List.range nifgs).filter (fun i => !isFile i) ∧
    ∃ ref < tiles.tiles.length, ∀ b m, (b, m) ∈ out → ∀ r q : Nat,
      ((∃ i < tiles.tiles.length, ((r : ℤ), (q : ℤ)) ∈ filePoints (F i)) →
        m.out.val r q = some (phi b (r, q) + tau * c b ref)) ∧
      ((∀ i < tiles.tiles.length, ((r : ℤ), (q : ℤ)) ∉ filePoints (F i)) → m.out.val r q = none) ∧
      ((∃ i j, i < j ∧ j < tiles.tiles.length ∧ ((r : ℤ), (q : ℤ)) ∈ filePoints (F i) ∧
        ((r : ℤ), (q : ℤ)) ∈ filePoints (F j)) → m.diff.val r q = some 0) := by
  obtain ⟨h1, h2, ref, h3, _, h4⟩ := end_to_end_largest tau htau minPoints cc nifgs hifgs tiles htwo himg files F hf phi c hcut hsmall env hover hlab hconn
    mip hmip lstsq settings hls coh thr bulk hbulk hmethod isFile out hm
  exact ⟨h1, h2, ref, h3, h4⟩

/-- Two tiles share at least `minPoints` pixels. -/
def Spec.BigOverlap (tiles : TileSet) (F : Nat → TileFile K) (minPoints : ℤ) (i j : Nat) : Prop :=
  (i, j) ∈ tiles.getOverlaps ∧ minPoints ≤ ((filePoints (F i)).toFinset ∩ (filePoints (F j)).toFinset).card

/-- C57. All three stages complete on fields cut into tiles: if every tile has a pixel, the tiles are
connected by overlaps of at least `minPoints ≥ 11` pixels, the external libraries answer (connected
components, integer or least squares solver, incomplete LU factorisation), and the triangulation of
every tile has a link to its last point. -/
theorem C57_returns {C : Type} [LinearOrder C] (tau : K) (htau : 0 < tau) (minPoints : ℤ) (hmin : 11 ≤ minPoints)
    (cc : Nat → List (Nat × Nat) → List Nat)
    (nifgs : Nat) (hifgs : 1 ≤ nifgs) (tiles : TileSet) (htwo : 2 ≤ tiles.tiles.length)
    (himg : 0 < tiles.shape.1 ∧ 0 < tiles.shape.2)
    (files : Nat → Except PyErr (TileFile K)) (F : Nat → TileFile K) (hf : TileFilesOk nifgs tiles files F)
    (hne : ∀ i < tiles.tiles.length, (F i).points ≠ [])
    (phi : Nat → ℤ × ℤ → K) (c : Nat → Nat → ℤ) (hcut : CutFields tau nifgs tiles.tiles.length F phi c)
    (hsmall : ∀ b i, |c b i| ≤ 16383)
    (hcc : ∀ edges : List (Nat × Nat), (∀ e ∈ edges, e.1 < tiles.tiles.length ∧ e.2 < tiles.tiles.length) →
      ComponentLabels tiles.tiles.length edges (cc tiles.tiles.length edges))
    (hconn : ∀ t < tiles.tiles.length, Relation.ReflTransGen
      (fun i j => BigOverlap tiles F minPoints i j ∨ BigOverlap tiles F minPoints j i) 0 t)
    (mip : MipSolver) (hmip : MipOptimal mip) (hmipc : MipComplete mip) (lstsq : Lstsq K) (settings : MergerSettings)
    (hls : settings.bulkMethod = "L2" → ∀ olaps off, off.length = olaps.length → (∀ row ∈ off, row.length = nifgs) →
      LeastSquares (overlapMatrix olaps tiles.tiles.length) off (lstsq (overlapMatrix olaps tiles.tiles.length) off)
        tiles.tiles.length nifgs)
    (hbm : settings.bulkMethod = "integer" ∨ settings.bulkMethod = "L2")
    (hmethod : settings.method = "dirichlet")
    (lin : LinSolver K) (hilu : ∀ a, lin.ilu a = true) (simplices : List (ℤ × ℤ) → List Tri)
    (hlinks : ∀ i < tiles.tiles.length, ∀ u v,
      (u, v) ∈ (delaunayGraph (F i).points.length (simplices (filePoints (F i)))).links →
      u < (F i).points.length ∧ v < (F i).points.length)
    (hlast : ∀ i < tiles.tiles.length, ∃ p, Adjacent
      (delaunayGraph (F i).points.length (simplices (filePoints (F i)))).links ((F i).points.length - 1) p)
    (coh : Band (Option C)) (thr : C) (isFile : Nat → Bool) :
    ∃ olap, phasediffDeciles id tau minPoints cc tiles files = .ok (some olap) ∧
      ComponentLabels tiles.tiles.length olap.overlaps olap.labels ∧
      (∀ t < tiles.tiles.length, Relation.ReflTransGen (Adjacent olap.overlaps) 0 t) ∧
      ∃ bulk, bulkOffsets mip lstsq settings.bulkMethod tiles coh thr olap = .ok (some bulk) ∧
      ∃ out, mergeTiles tau ⟨lin, simplices, olap⟩ settings tiles files bulk nifgs isFile = .ok (.merged out) := by
  have hlen1 : ∀ i < tiles.tiles.length, (imagePhase (F i)).length = nifgs := by
    intro i hi
    obtain ⟨e1, e2⟩ := hf.bands i hi
    simp [imagePhase, e1, e2]
  have hph : ∀ t < tiles.tiles.length, ∀ i < nifgs, ∀ (b : BBox), tiles.tiles[t]? = some b → ∀ n p,
      (imagePoints (F t) b)[n]? = some p → phaseAt (F t) i n = phi i p + tau * c i t := by
    intro t ht i hi b hb n p hn
    rw [filePoints_box (hf.box t b hb)] at hn
    have hpl := (List.getElem?_eq_some_iff.mp hn).1
    rw [filePoints_length] at hpl
    obtain ⟨e1, e2⟩ := hf.bands t ht
    unfold phaseAt
    rw [imagePhase_getD (by omega) (by omega) (by
      rw [List.getD_eq_getElem _ _ (by omega), hf.rows t ht _ (List.getElem_mem _)]
      exact hpl)]
    exact hcut i hi t ht n p hn
  obtain ⟨olap, hover⟩ := C53_returns tau minPoints hmin cc tiles files (by omega) nifgs (by
    intro t b hb
    have ht := (List.getElem?_eq_some_iff.mp hb).1
    refine ⟨F t, hf.read t ht, ?_, ?_, hlen1 t ht⟩
    · rw [filePoints_box (hf.box t b hb)]
      simpa [filePoints] using hne t ht
    · rw [filePoints_box (hf.box t b hb)]
      intro p hp
      have := hf.inside t ht p hp
      exact ⟨this.1, this.2.2.1⟩) (by
    intro t t' b b' f f' _ hb hb' hft hft' i hi n n' p hn hn'
    have ht := (List.getElem?_eq_some_iff.mp hb).1
    have ht' := (List.getElem?_eq_some_iff.mp hb').1
    rw [hf.read t ht, Except.ok.injEq] at hft
    rw [hf.read t' ht', Except.ok.injEq] at hft'
    subst hft hft'
    rw [hph t ht i hi b hb n p hn, hph t' ht' i hi b' hb' n' p hn']
    have hb1 := abs_le.mp (hsmall i t)
    have hb2 := abs_le.mp (hsmall i t')
    refine ⟨c i t' - c i t, by omega, by omega, ?_⟩
    have : (phi i p + tau * (c i t' : K) - (phi i p + tau * (c i t : K))) / tau = ((c i t' - c i t : ℤ) : K) := by
      field_simp
      push_cast
      ring
    rw [this, sub_self, abs_zero]
    positivity)
  obtain ⟨hsub, hnd, hlabels, hrec⟩ := C53_recorded tau minPoints cc tiles files olap hover
  have hlt : ∀ e ∈ olap.overlaps, e.1 < e.2 ∧ e.2 < tiles.tiles.length := by
    rintro ⟨i, j⟩ he
    obtain ⟨h1, a, b, h2, h3, _⟩ := ((C25_overlaps tiles).1 i j).mp (hsub.subset he)
    exact ⟨h1, (List.getElem?_eq_some_iff.mp h3).1⟩
  have hlab : ComponentLabels tiles.tiles.length olap.overlaps olap.labels := by
    rw [hlabels]
    refine hcc _ fun e he => ?_
    have := hlt e he
    omega
  have hbig : ∀ i j, BigOverlap tiles F minPoints i j → (i, j) ∈ olap.overlaps := by
    rintro i j ⟨h1, h2⟩
    obtain ⟨bi, bj, fi, fj, e1, e2, e3, e4, e5, _⟩ := hrec i j h1
    have hi := (List.getElem?_eq_some_iff.mp e1).1
    have hj := (List.getElem?_eq_some_iff.mp e2).1
    rw [hf.read i hi, Except.ok.injEq] at e3
    rw [hf.read j hj, Except.ok.injEq] at e4
    subst e3 e4
    rw [e5, filePoints_box (hf.box i bi e1), filePoints_box (hf.box j bj e2)]
    exact h2
  have hconn' : ∀ t < tiles.tiles.length, Relation.ReflTransGen (Adjacent olap.overlaps) 0 t := by
    intro t ht
    refine Relation.ReflTransGen.mono (fun i j hij => ?_) _ _ (hconn t ht)
    rcases hij with h | h
    · exact Or.inl (hbig i j h)
    · exact Or.inr (hbig j i h)
  refine ⟨olap, hover, hlab, hconn', ?_⟩
  have hmed := cut_medians htau.ne' hf hover hcut hsmall
  set med := olap.overlaps.map fun e => (List.range nifgs).map fun b => c b e.2 - c b e.1 with hmeddef
  have hone : olap.overlaps ≠ [] := by
    intro hc
    have := hconn' 1 (by omega)
    rw [hc] at this
    rcases Relation.ReflTransGen.cases_head this with h | ⟨x, h, _⟩
    · omega
    · simp [Adjacent] at h
  have hmedne : med ≠ [] := by simpa [hmeddef] using hone
  have hmedrow : ∀ x ∈ med, x.length = nifgs := by
    intro x hx
    obtain ⟨e, _, rfl⟩ := List.mem_map.mp hx
    simp
  have hcl : (tileCounts coh thr tiles).length = tiles.tiles.length := by simp [tileCounts]
  have hls' : settings.bulkMethod = "L2" → ∀ med, medianOffsets olap = .ok med →
      LeastSquares (overlapMatrix olap.overlaps tiles.tiles.length)
      (med.map fun x => x.map fun v => ((v : ℤ) : K)) (lstsq (overlapMatrix olap.overlaps tiles.tiles.length)
      (med.map fun x => x.map fun v => ((v : ℤ) : K))) tiles.tiles.length nifgs := by
    intro hL med' hmed'
    rw [hmed, Except.ok.injEq] at hmed'
    subst hmed'
    refine hls hL _ _ (by simp [hmeddef]) ?_
    intro row hr
    obtain ⟨x, hx, rfl⟩ := List.mem_map.mp hr
    simp [hmedrow x hx]
  obtain ⟨bulk, hbulk⟩ : ∃ bulk, bulkOffsets mip lstsq settings.bulkMethod tiles coh thr olap = .ok (some bulk) := by
    rcases hbm with hi | hi
    · rw [hi, bulk_integer (by omega) hmed hmedne hmedrow]
      obtain ⟨rows, hr, _⟩ := mapM_exists (fun ii => solveIntOffsets mip olap.overlaps olap.labels
        (med.map fun x => x.getD ii 0) (tileCounts coh thr tiles)) (List.range nifgs) (by
        intro b hb
        obtain ⟨nr, v, e⟩ := C39_returns tiles.tiles.length olap.overlaps olap.labels (med.map fun x => x.getD b 0)
          (tileCounts coh thr tiles) ⟨by omega, (by
            intro t1 t2 ht
            have := hlt _ ht
            simp only at this
            omega), hlab, by simp [hmeddef], (by
            intro o ho
            obtain ⟨x, hx, rfl⟩ := List.mem_map.mp ho
            obtain ⟨e, _, rfl⟩ := List.mem_map.mp hx
            rw [getD_map_lt _ _ (by simpa using hb)]
            simp only [List.getElem_range]
            have h1 := abs_le.mp (hsmall b e.1)
            have h2 := abs_le.mp (hsmall b e.2)
            omega), hcl⟩ mip hmipc
        exact ⟨_, e⟩)
      rw [hr]
      exact ⟨_, rfl⟩
    · rw [hi, bulk_L2 (by omega) hmed hmedne hmedrow]
      obtain ⟨x, res, hx1, _⟩ := C40_least_squares tiles.tiles.length nifgs olap.overlaps _ (tileCounts coh thr tiles)
        ⟨by omega, (by
          intro t1 t2 ht
          have := hlt _ ht
          simp only at this
          omega), by simp [hmeddef], (by
          intro row hr
          obtain ⟨x, hx, rfl⟩ := List.mem_map.mp hr
          simp [hmedrow x hx]), hcl⟩ lstsq (hls' hi med hmed)
      rw [hx1]
      exact ⟨_, rfl⟩
  refine ⟨bulk, hbulk, ?_⟩
  obtain ⟨b1, b2, _⟩ := cut_offsets hmip htwo hlt hlab hconn' hsmall hmed hls' hbulk
  set env : MergeEnv K := ⟨lin, simplices, olap⟩ with henv
  have hinput : MergeInput tau minPoints cc nifgs tiles files F env.overlap bulk settings :=
    ⟨htwo, himg, hifgs, hf, hover, hlab.length, b2, hmethod, b1⟩
  obtain ⟨omap, o1, o2, _⟩ := ready_of_input hinput
  obtain ⟨d, hd⟩ := getMaxDegree_ok (shape := imageShape tiles) (n := tiles.tiles.length) (F := F) (by
    simp only [imageShape]
    omega) o2.inside
  refine ⟨_, (mergeTiles_eq hinput o1 o2 hd isFile).1 (Or.inl ?_)⟩
  intro dd _ i hi _
  obtain ⟨p, hp⟩ := hlast i hi
  have hlne : (delaunayGraph (F i).points.length (simplices (filePoints (F i)))).links ≠ [] := by
    intro hc
    rw [hc] at hp
    simp [Adjacent] at hp
  obtain ⟨a, ha⟩ := (C43_returns _).mpr hlne
  refine ⟨⟨a.n, fun i j => ((a.val i j : ℤ) : K)⟩, ?_, ?_, hilu _⟩
  · unfold lapOf
    rw [filePoints_length, ha]
    rfl
  · exact (C43_size (F i).points.length _ a (hlinks i hi) ha).2.2.mpr ⟨p, hp⟩

end

end Spurt
