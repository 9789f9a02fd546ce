import Verif.Props.ReferencePixelNumpy
import Verif.Props.SettingsFreeExample
import Verif.Props.FloatRecoveryExample

/-!
# Property C95 in numpy's numbers
-/

namespace Spurt
open Spec

section
variable {S S' : Type}

/-- Inputs of a run in numpy's numbers on a stack whose true phases `φ` are unaliased on the tiles of the run, with
accepted settings, overlaps that join the tiles, and libraries that answer and meet their contracts. -/
structure Spec.UnaliasedNumpy (P : Flow ℚ S) (T : TileSet) (φ : Nat → ℤ × ℤ → ℚ) : Prop where
  good : GoodFlow P
  image : 0 < P.job.coh.rows ∧ 0 < P.job.coh.cols
  ifgs : P.job.time.links ≠ []
  pool : 1 ≤ P.job.settings.numParallelTiles
  settings : P.merger.check = .ok ()
  overlap : 11 ≤ P.merger.minOverlapPoints
  tiles : makeTiles P.sc P.fl P.useTiles P.tiler P.job.coh.cols P.mask = .ok T
  lstsq : P.merger.bulkMethod = "L2" → ConsistentLstsq P.lstsq T.tiles.length P.job.time.links.length (1 / 200000) (2 ^ 29)
  unaliased : UnaliasedWithin 2000 1000 P T φ
  joined : TilesJoined P T
  four : ∀ r q : ℤ, {t : Nat | ∃ b, T.tiles[t]? = some b ∧ InTile b r q}.ncard ≤ 4
  components : ∀ edges : List (Nat × Nat), (∀ e ∈ edges, e.1 < T.tiles.length ∧ e.2 < T.tiles.length) →
    ComponentLabels T.tiles.length edges (P.cc T.tiles.length edges)
  mip : MipComplete P.mip
  ilu : ∀ a, P.lin.ilu a = true
  graph : ∀ b ∈ T.tiles, MergeGraphFl P b

/-- C95 in numpy's numbers. Two runs on a stack with the same unaliased true phases, each with its own settings,
solvers and schedule, both complete. The rasters of the interferogram of the same two acquisitions differ, at all
pixels that both runs regard as coherent, by one whole number of cycles to within six thousandths of a radian. -/
theorem C95_numpy (P : Flow ℚ S) (P' : Flow ℚ S') (T T' : TileSet) (φ : Nat → ℤ × ℤ → ℚ)
    (h : UnaliasedNumpy P T φ) (h' : UnaliasedNumpy P' T' φ)
    (oT oT' : Nat → Nat → List Nat → List Nat) (oS oS' : Nat → List Nat → List Nat)
    (hoT : ∀ t k l, (oT t k l).Perm l) (hoS : ∀ t l, (oS t l).Perm l)
    (hoT' : ∀ t k l, (oT' t k l).Perm l) (hoS' : ∀ t l, (oS' t l).Perm l) :
    ∃ m m', workflowFl numpyArith (flDouble (1 / 100)) (flDouble (1 / 100000)) P oT oS = .ok (T, m) ∧
      workflowFl numpyArith (flDouble (1 / 100)) (flDouble (1 / 100000)) P' oT' oS' = .ok (T', m') ∧
      ∀ i i' s u b b', P.job.time.links[i]? = some (s, u) → P'.job.time.links[i']? = some (s, u) →
        (i, b) ∈ rastersOf m → (i', b') ∈ rastersOf m' → ∃ c : ℤ, ∀ r q : Nat,
          r < P.job.coh.rows → q < P.job.coh.cols → r < P'.job.coh.rows → q < P'.job.coh.cols →
          ValidPixel P.job r q → ValidPixel P'.job r q →
          ∃ v v', b.val r q = some v ∧ b'.val r q = some v' ∧ |v' - (v + c * twoPi)| ≤ 3 / 500 := by
  obtain ⟨m, h1, _, h3⟩ := C73_recovers P h.good h.image h.ifgs h.pool h.settings h.overlap T h.tiles h.lstsq φ h.unaliased
    h.joined h.four h.components h.mip h.ilu h.graph oT oS hoT hoS
  obtain ⟨m', h1', _, h3'⟩ := C73_recovers P' h'.good h'.image h'.ifgs h'.pool h'.settings h'.overlap T' h'.tiles h'.lstsq φ
    h'.unaliased h'.joined h'.four h'.components h'.mip h'.ilu h'.graph oT' oS' hoT' hoS'
  refine ⟨m, m', h1, h1', fun i i' s u b b' hl hl' hb hb' => ?_⟩
  obtain ⟨c, hc⟩ := (h3 i b hb).2.2 s u hl
  obtain ⟨c', hc'⟩ := (h3' i' b' hb').2.2 s u hl'
  refine ⟨c' - c, fun r q hr hq hr' hq' hv hv' => ?_⟩
  obtain ⟨v, v1, v2⟩ := (hc r q hr hq).1 hv
  obtain ⟨v', v1', v2'⟩ := (hc' r q hr' hq').1 hv'
  refine ⟨v, v', v1, v1', ?_⟩
  push_cast
  rw [abs_le] at v2 v2' ⊢
  constructor <;> linarith [v2.1, v2.2, v2'.1, v2'.2]

/-- C95 in numpy's numbers. If the two runs read the same images and the largest tiles of both begin at the same
pixel, the rasters agree to within six thousandths of a radian at all pixels that both runs regard as coherent. -/
theorem C95_numpy_reference (P : Flow ℚ S) (P' : Flow ℚ S') (T T' : TileSet) (φ : Nat → ℤ × ℤ → ℚ)
    (h : UnaliasedNumpy P T φ) (h' : UnaliasedNumpy P' T' φ)
    (hdates : P'.job.dates = P.job.dates) (himages : P'.job.phase = P.job.phase)
    (b₀ b₀' : BBox) (hb₀ : LargestOfTiles P.job T b₀) (hb₀' : LargestOfTiles P'.job T' b₀') (r₀ q₀ : Nat)
    (hp : FirstSample P.job b₀ ((r₀ : ℤ), (q₀ : ℤ))) (hp' : FirstSample P'.job b₀' ((r₀ : ℤ), (q₀ : ℤ)))
    (oT oT' : Nat → Nat → List Nat → List Nat) (oS oS' : Nat → List Nat → List Nat)
    (hoT : ∀ t k l, (oT t k l).Perm l) (hoS : ∀ t l, (oS t l).Perm l)
    (hoT' : ∀ t k l, (oT' t k l).Perm l) (hoS' : ∀ t l, (oS' t l).Perm l) :
    ∃ m m', workflowFl numpyArith (flDouble (1 / 100)) (flDouble (1 / 100000)) P oT oS = .ok (T, m) ∧
      workflowFl numpyArith (flDouble (1 / 100)) (flDouble (1 / 100000)) P' oT' oS' = .ok (T', m') ∧
      ∀ i i' s u b b', P.job.time.links[i]? = some (s, u) → P'.job.time.links[i']? = some (s, u) →
        (i, b) ∈ rastersOf m → (i', b') ∈ rastersOf m' → ∀ r q : Nat,
          r < P.job.coh.rows → q < P.job.coh.cols → r < P'.job.coh.rows → q < P'.job.coh.cols →
          ValidPixel P.job r q → ValidPixel P'.job r q →
          ∃ v v', b.val r q = some v ∧ b'.val r q = some v' ∧ |v' - v| ≤ 3 / 500 := by
  obtain ⟨m, m', h1, h1', h2⟩ := C95_numpy P P' T T' φ h h' oT oT' oS oS' hoT hoS hoT' hoS'
  obtain ⟨x, x1, x2⟩ := C91_numpy_tiles P h.good h.image h.ifgs h.pool h.settings h.overlap T h.tiles h.lstsq φ h.unaliased
    h.joined h.four h.components h.mip h.ilu h.graph oT oS hoT hoS b₀ hb₀ r₀ q₀ hp
  obtain ⟨x', x1', x2'⟩ := C91_numpy_tiles P' h'.good h'.image h'.ifgs h'.pool h'.settings h'.overlap T' h'.tiles h'.lstsq φ
    h'.unaliased h'.joined h'.four h'.components h'.mip h'.ilu h'.graph oT' oS' hoT' hoS' b₀' hb₀' r₀ q₀ hp'
  rw [h1, Except.ok.injEq, Prod.mk.injEq] at x1
  rw [h1', Except.ok.injEq, Prod.mk.injEq] at x1'
  obtain ⟨-, rfl⟩ := x1
  obtain ⟨-, rfl⟩ := x1'
  refine ⟨m, m', h1, h1', fun i i' s u b b' hl hl' hb hb' => ?_⟩
  obtain ⟨c, hc⟩ := h2 i i' s u b b' hl hl' hb hb'
  obtain ⟨y, y1, y2⟩ := x2 i b hb s u hl
  obtain ⟨y', y1', y2'⟩ := x2' i' b' hb' s u hl'
  have hstack : stackIfgFl numpyArith P'.job s u r₀ q₀ = stackIfgFl numpyArith P.job s u r₀ q₀ := by
    unfold stackIfgFl epochPhase
    rw [hdates, himages]
  rw [hstack] at y2'
  obtain ⟨_, _, hin⟩ := flow_tiles h.good h.tiles
  obtain ⟨_, _, hin'⟩ := flow_tiles h'.good h'.tiles
  obtain ⟨k, hk, _⟩ := hb₀
  obtain ⟨k', hk', _⟩ := hb₀'
  have i1 := hin b₀ (List.mem_of_getElem? hk)
  have i2 := hin' b₀' (List.mem_of_getElem? hk')
  obtain ⟨⟨⟨p1, p2, p3, p4⟩, hv⟩, _⟩ := hp
  obtain ⟨⟨⟨p1', p2', p3', p4'⟩, hv'⟩, _⟩ := hp'
  unfold TileInImage at i1 i2
  obtain ⟨v, v', e1, e2, e3⟩ := hc r₀ q₀ (by simp only at *; omega) (by simp only at *; omega) (by simp only at *; omega)
    (by simp only at *; omega) hv hv'
  rw [y1, Option.some.injEq] at e1
  rw [y1', Option.some.injEq] at e2
  subst e1 e2
  have hc0 : c = 0 := by
    rw [abs_le] at y2 y2' e3
    have ht : (6 : ℚ) < twoPi := by norm_num [twoPi]
    by_contra hne
    rcases lt_or_gt_of_ne hne with hlt | hgt
    · have : (c : ℚ) ≤ -1 := by exact_mod_cast (by omega : c ≤ -1)
      nlinarith [y2.1, y2.2, y2'.1, y2'.2, e3.1, e3.2]
    · have : (1 : ℚ) ≤ c := by exact_mod_cast hgt
      nlinarith [y2.1, y2.2, y2'.1, y2'.2, e3.1, e3.2]
  subst hc0
  intro r q hr hq hr' hq' w w'
  obtain ⟨a, a', f1, f2, f3⟩ := hc r q hr hq hr' hq' w w'
  exact ⟨a, a', f1, f2, by simpa using f3⟩

end

namespace Whole

/-- The example stack in single precision, with tiles or without. -/
theorem numpy_inputs (tiled : Bool) (T' : TileSet) (hT0 : makeTiles scoring id tiled tiler 7 arr = .ok T')
    (hsub : ∀ b ∈ T'.tiles, b ∈ T.tiles) (hlen : T'.tiles.length ≤ 4)
    (hJ0 : ∀ P : Flow ℚ Nat, P.job = jobFl → P.merger.minOverlapPoints = 12 → TilesJoined P T') :
    ∃ P : Flow ℚ Nat, UnaliasedNumpy P T' phiFl ∧ P.job = jobFl ∧ P.useTiles = tiled := by
  obtain ⟨solver, ⟨hs, _⟩, _⟩ := exists_solver
  obtain ⟨mip, hopt, hcomp⟩ := exists_mip_solver
  obtain ⟨lin, hilu, hcg⟩ := exists_cg ℚ
  have hpos : 0 < T'.tiles.length := by
    cases tiled
    · have : T' = TWhole := by
        have e : makeTiles scoring id false tiler 7 arr = .ok TWhole := rfl
        rw [e] at hT0
        exact (Except.ok.inj hT0).symm
      rw [this]; decide
    · rw [tiles] at hT0
      rw [← Except.ok.inj hT0]; decide
  obtain ⟨lstsq, hls⟩ := exists_consistentLstsq T'.tiles.length 3 (1 / 200000 : ℚ) (2 ^ 29) (by norm_num) (by norm_num)
  have hgood := flow_good solver hs mip hopt tiler (by simp [TilerSettings.check, tiler]) 12
  have hP : GoodFlow { flowFl solver mip lstsq lin with useTiles := tiled } :=
    ⟨jobFl_good, hgood.solver, hgood.tiler, hgood.size, hgood.labels, hgood.mip⟩
  set P : Flow ℚ Nat := { flowFl solver mip lstsq lin with useTiles := tiled } with hPd
  have hT : makeTiles P.sc P.fl P.useTiles P.tiler P.job.coh.cols P.mask = .ok T' := by
    have : P.mask = arr := flow_mask solver mip tiler 12
    rw [this]; exact hT0
  have hU : UnaliasedFl P T' phiFl := by
    refine ⟨fun b hb => ?_, fun s r c hp _ => bounded_fl s r c hp, near_phase, fun b hb => steep_fl b (hsub b hb), range_fl,
      fun b hb p hp => ?_, ?_⟩
    · obtain ⟨h1, h2, h3, h4, h5, h6, h7⟩ := job_ready b (hsub b hb)
      exact ⟨h1, h2, h3, h4, h5, h6, h7⟩
    · have h3 := (job_pixels b (hsub b hb)).1
      rcases Nat.eq_zero_or_pos p with rfl | h0
      · exact ⟨0, by omega, .start⟩
      · exact ⟨1, by omega, .step .start (.inl (fan_adjacent h3 hp h0))⟩
    · intro cyc hc
      change cyc ∈ [[0, 1, 2]] at hc
      rw [List.mem_singleton.mp hc]
      simp
  have hfour : ∀ r q : ℤ, {t : Nat | ∃ b, T'.tiles[t]? = some b ∧ InTile b r q}.ncard ≤ 4 := by
    intro r q
    have hsub : {t : Nat | ∃ b, T'.tiles[t]? = some b ∧ InTile b r q} ⊆ ↑(Finset.range 4) := by
      rintro t ⟨b, hb, _⟩
      have h4 : t < T'.tiles.length := (List.getElem?_eq_some_iff.mp hb).1
      simp only [Finset.coe_range, Set.mem_Iio]
      omega
    have := Set.ncard_le_ncard hsub (Finset.finite_toSet _)
    rw [Set.ncard_coe_finset] at this
    simpa using this
  refine ⟨P, ⟨hP, by simp [hPd, flowFl, jobFl, job], by simp [hPd, flowFl, jobFl, job], by simp [hPd, flowFl, jobFl, job],
    by simp [hPd, flowFl, flow, MergerSettings.check], by simp [hPd, flowFl, flow], hT, fun _ => hls, hU.mono (by norm_num) (by norm_num),
    hJ0 P rfl rfl, hfour, fun edges _ => labelsOf_labels _ edges, hcomp, hilu, ?_⟩, rfl, rfl⟩
  intro b hb
  have hb := hsub b hb
  have h3 := (job_pixels b hb).1
  have e : (tilePixels P.job b).length = (tilePoints job.coh job.thr b).length := by simp [tilePixels, hPd, flowFl, jobFl]
  have e2 : P.simplices (tilePixels P.job b) = fan (tilePoints job.coh job.thr b).length := by rw [← e]; rfl
  have hord : ∀ u v, (u, v) ∈ (delaunayGraph (tilePoints job.coh job.thr b).length (fan (tilePoints job.coh job.thr b).length)).links →
      u < (tilePoints job.coh job.thr b).length ∧ v < (tilePoints job.coh job.thr b).length := by
    intro u v huv
    have := (fan_contract _).ordered u v huv
    omega
  refine ⟨?_, ?_, ?_, ?_⟩
  · rw [e2, e]
    exact hord
  · rw [e2, e, ← List.toFinset_card_of_nodup (fan_contract _).distinct]
    have h42 : (tilePoints job.coh job.thr b).length ≤ 42 := by
      have : ∀ b ∈ T.tiles, (tilePoints job.coh job.thr b).length ≤ 42 := by decide +kernel
      exact this b hb
    have : (delaunayGraph (tilePoints job.coh job.thr b).length (fan (tilePoints job.coh job.thr b).length)).links.toFinset ⊆
        Finset.range 42 ×ˢ Finset.range 42 := by
      rintro ⟨u, v⟩ h
      have := hord u v (List.mem_toFinset.mp h)
      simp only [Finset.mem_product, Finset.mem_range]
      omega
    exact (Finset.card_le_card this).trans (by simp)
  · rw [e2, e]
    intro p hp q hq
    have hc := fan_connected h3
    exact (adjacent_symm (hc p hp)).trans (hc q hq)
  · intro a _ mask b y h1 h2 h3 h4 k hk
    exact (hcg _ (1 / 4) mask b y h1 h2 h3 h4 k hk).trans (by norm_num)

/-- Non-vacuity of C95 in numpy's numbers: four tiles and one tile on the example stack, the workers of one run in reverse. -/
theorem example_settings_numpy : ∃ (P P' : Flow ℚ Nat) (m m' : MergeResult ℚ), UnaliasedNumpy P T phiFl ∧ UnaliasedNumpy P' TWhole phiFl ∧
    P.job = jobFl ∧ P'.job = jobFl ∧
    workflowFl numpyArith (flDouble (1 / 100)) (flDouble (1 / 100000)) P (fun _ _ l => l) (fun _ l => l) = .ok (T, m) ∧
    workflowFl numpyArith (flDouble (1 / 100)) (flDouble (1 / 100000)) P' (fun _ _ l => l) (fun _ l => l.reverse) = .ok (TWhole, m') ∧
    ∀ b b', (0, b) ∈ rastersOf m → (0, b') ∈ rastersOf m' →
      ∃ v v', b.val 5 5 = some v ∧ b'.val 5 5 = some v' ∧ |v' - v| ≤ 3 / 500 := by
  obtain ⟨P, h, hj, _⟩ := numpy_inputs true T tiles (fun _ h => h) (by decide) (fun P hj hm t ht => .single
    ⟨by rw [hj]; exact (flow_shared 0 t (by omega) ht).1, by
      rw [hm, hj]
      show (12 : ℤ) ≤ ((sharedPixels job T 0 t).ncard : ℤ)
      exact_mod_cast (flow_shared 0 t (by omega) ht).2⟩)
  obtain ⟨P', h', hj', _⟩ := numpy_inputs false TWhole rfl (fun b hb => by simp [TWhole] at hb; simp [T, hb]) (by decide) (fun P hj hm t ht => by
      have : t = 0 := by simpa [TWhole] using ht
      subst this; exact .refl)
  obtain ⟨_, _, hin⟩ := flow_tiles h.good h.tiles
  have hv : ValidPixel jobFl 0 0 := (valid_iff 0 0).mpr (by decide)
  have hlarge1 : LargestOfTiles P'.job TWhole ⟨0, 0, 6, 7⟩ := ⟨0, rfl, fun t b' hb' => .inr ⟨by
    have := List.mem_of_getElem? hb'
    simp only [TWhole, List.mem_singleton] at this
    rw [this], by omega⟩⟩
  obtain ⟨m, m', h1, h2, h3⟩ := C95_numpy_reference P P' T TWhole phiFl h h' (by rw [hj, hj']) (by rw [hj, hj']) ⟨0, 0, 6, 7⟩ ⟨0, 0, 6, 7⟩
    (largest P.job (by rw [hj]; rfl) (by rw [hj]; rfl) hin) hlarge1 0 0 (first P.job (by rw [hj]; exact hv)) (first P'.job (by rw [hj']; exact hv))
    (fun _ _ l => l) (fun _ _ l => l) (fun _ l => l) (fun _ l => l.reverse)
    (fun _ _ l => .refl l) (fun _ l => .refl l) (fun _ _ l => .refl l) (fun _ l => l.reverse_perm)
  refine ⟨P, P', m, m', h, h', hj, hj', h1, h2, fun b b' hb hb' => ?_⟩
  have hv5 : ValidPixel jobFl (5 : ℕ) (5 : ℕ) := (valid_iff 5 5).mpr (by decide)
  refine h3 0 0 0 1 b b' (by rw [hj]; rfl) (by rw [hj']; rfl) hb hb' 5 5 ?_ ?_ ?_ ?_ (by rw [hj]; exact hv5) (by rw [hj']; exact hv5)
  all_goals first | rw [hj] | rw [hj']
  all_goals decide

end Whole
end Spurt
