import Verif.Props.ReferencePixel

/-!
# Property C95: on an unaliased stack no setting influences the result
-/

namespace Spurt
open Spec

section
variable {K S S' : Type} [Field K] [LinearOrder K] [FloorRing K] [IsStrictOrderedRing K]

/-- A completed run on a stack whose true phases `φ` are unaliased on the tiles of the run, with accepted settings,
overlaps that join the tiles, and libraries that meet their contracts. -/
structure Spec.UnaliasedRun (P : Flow K S) (T : TileSet) (φ : Nat → ℤ × ℤ → K) (d : Disk K) : Prop where
  good : GoodFlow P
  image : 0 < P.job.coh.rows ∧ 0 < P.job.coh.cols
  tiles : makeTiles P.sc P.fl P.useTiles P.tiler P.job.coh.cols P.mask = .ok T
  unaliased : Unaliased P T φ
  joined : TilesJoined P T
  components : ∀ edges : List (Nat × Nat), (∀ e ∈ edges, e.1 < T.tiles.length ∧ e.2 < T.tiles.length) →
    ComponentLabels T.tiles.length edges (P.cc T.tiles.length edges)
  lstsq : P.merger.bulkMethod = "L2" → ∀ olaps off, off.length = olaps.length →
    (∀ row ∈ off, row.length = P.job.time.links.length) →
    LeastSquares (overlapMatrix olaps T.tiles.length) off (P.lstsq (overlapMatrix olaps T.tiles.length) off)
      T.tiles.length P.job.time.links.length
  run : RunByWrite P.stages Disk.empty .completed d

/-- C95. Acquisitions may be added, left out or reordered: `C95_settings` for two stacks of different acquisitions, where
the true interferogram of `s'` and `u'` in the second stack is that of `s` and `u` in the first, up to one number of cycles. -/
theorem C95_stacks (P : Flow K S) (P' : Flow K S') (T T' : TileSet) (htau : 0 < P.tau) (hsame : P'.tau = P.tau)
    (φ φ' : Nat → ℤ × ℤ → K) (d d' : Disk K) (h : UnaliasedRun P T φ d) (h' : UnaliasedRun P' T' φ' d')
    (i i' s u s' u' : Nat) (hl : P.job.time.links[i]? = some (s, u)) (hl' : P'.job.time.links[i']? = some (s', u'))
    (k : ℤ) (hφ : ∀ r q : Nat, r < P.job.coh.rows → q < P.job.coh.cols →
      φ' u' (r, q) - φ' s' (r, q) = φ u (r, q) - φ s (r, q) + k * P.tau) :
    ∃ b b', d.unw i = some (some b) ∧ d'.unw i' = some (some b') ∧ ∃ c : ℤ, ∀ r q : Nat,
      r < P.job.coh.rows → q < P.job.coh.cols → r < P'.job.coh.rows → q < P'.job.coh.cols →
      ValidPixel P.job r q → ValidPixel P'.job r q →
      ∃ v v', b.val r q = some v ∧ b'.val r q = some v' ∧ v' = v + c * P.tau := by
  obtain ⟨b, h1, _, _, c, hc⟩ := C63_recovers P h.good htau h.image T h.tiles φ h.unaliased h.joined h.components
    h.lstsq d h.run i s u hl
  obtain ⟨b', h1', _, _, c', hc'⟩ := C63_recovers P' h'.good (hsame ▸ htau) h'.image T' h'.tiles φ' h'.unaliased
    h'.joined h'.components h'.lstsq d' h'.run i' s' u' hl'
  refine ⟨b, b', h1, h1', c' + k - c, fun r q hr hq hr' hq' hv hv' => ⟨_, _, (hc r q hr hq).1 hv, (hc' r q hr' hq').1 hv', ?_⟩⟩
  rw [hsame, hφ r q hr hq]
  push_cast
  ring

/-- C95. Two completed runs on a stack with the same unaliased true phases - each with its own tiling, threshold,
overlap, time graph, costs, batches, flow solver, bulk method, merge settings, pool size and schedule - write, for
the interferogram of the same two acquisitions, rasters that differ by one whole number of cycles, at all pixels
that both runs regard as coherent. -/
theorem C95_settings (P : Flow K S) (P' : Flow K S') (T T' : TileSet) (htau : 0 < P.tau) (hsame : P'.tau = P.tau)
    (φ : Nat → ℤ × ℤ → K) (d d' : Disk K) (h : UnaliasedRun P T φ d) (h' : UnaliasedRun P' T' φ d')
    (i i' s u : Nat) (hl : P.job.time.links[i]? = some (s, u)) (hl' : P'.job.time.links[i']? = some (s, u)) :
    ∃ b b', d.unw i = some (some b) ∧ d'.unw i' = some (some b') ∧ ∃ c : ℤ, ∀ r q : Nat,
      r < P.job.coh.rows → q < P.job.coh.cols → r < P'.job.coh.rows → q < P'.job.coh.cols →
      ValidPixel P.job r q → ValidPixel P'.job r q →
      ∃ v v', b.val r q = some v ∧ b'.val r q = some v' ∧ v' = v + c * P.tau :=
  C95_stacks P P' T T' htau hsame φ φ d d' h h' i i' s u s u hl hl' 0 fun _ _ _ _ => by simp

/-- C95. If the two runs read the same images and the largest tiles of both begin at the same pixel, the rasters are
equal at all pixels that both runs regard as coherent. -/
theorem C95_reference (P : Flow K S) (P' : Flow K S') (T T' : TileSet) (htau : 0 < P.tau) (hsame : P'.tau = P.tau)
    (φ : Nat → ℤ × ℤ → K) (d d' : Disk K) (h : UnaliasedRun P T φ d) (h' : UnaliasedRun P' T' φ d')
    (hdates : P'.job.dates = P.job.dates) (himages : P'.job.phase = P.job.phase)
    (b₀ b₀' : BBox) (hb : LargestOfTiles P.job T b₀) (hb' : LargestOfTiles P'.job T' b₀') (r₀ q₀ : Nat)
    (hp : FirstSample P.job b₀ ((r₀ : ℤ), (q₀ : ℤ))) (hp' : FirstSample P'.job b₀' ((r₀ : ℤ), (q₀ : ℤ)))
    (i i' s u : Nat) (hl : P.job.time.links[i]? = some (s, u)) (hl' : P'.job.time.links[i']? = some (s, u)) :
    ∃ b b', d.unw i = some (some b) ∧ d'.unw i' = some (some b') ∧ ∀ r q : Nat,
      r < P.job.coh.rows → q < P.job.coh.cols → r < P'.job.coh.rows → q < P'.job.coh.cols →
      ValidPixel P.job r q → ValidPixel P'.job r q → ∃ v, b.val r q = some v ∧ b'.val r q = some v := by
  obtain ⟨b, b', h1, h1', c, hc⟩ := C95_settings P P' T T' htau hsame φ d d' h h' i i' s u hl hl'
  obtain ⟨a, ha, hav⟩ := C91_tiles P h.good htau h.image T h.tiles φ h.unaliased h.joined h.components
    h.lstsq d h.run b₀ hb r₀ q₀ hp i s u hl
  obtain ⟨a', ha', hav'⟩ := C91_tiles P' h'.good (hsame ▸ htau) h'.image T' h'.tiles φ h'.unaliased h'.joined h'.components
    h'.lstsq d' h'.run b₀' hb' r₀ q₀ hp' i' s u hl'
  rw [h1, Option.some.injEq, Option.some.injEq] at ha
  rw [h1', Option.some.injEq, Option.some.injEq] at ha'
  subst ha ha'
  have hstack : stackIfg P'.tau P'.job s u r₀ q₀ = stackIfg P.tau P.job s u r₀ q₀ := by
    unfold stackIfg epochPhase
    rw [hsame, hdates, himages]
  -- the reference pixel lies in both images
  obtain ⟨_, _, hin⟩ := flow_tiles h.good h.tiles
  obtain ⟨_, _, hin'⟩ := flow_tiles h'.good h'.tiles
  obtain ⟨k, hk, _⟩ := hb
  obtain ⟨k', hk', _⟩ := hb'
  have i1 := hin b₀ (List.mem_of_getElem? hk)
  have i2 := hin' b₀' (List.mem_of_getElem? hk')
  obtain ⟨⟨⟨p1, p2, p3, p4⟩, hv⟩, _⟩ := hp
  obtain ⟨⟨⟨p1', p2', p3', p4'⟩, hv'⟩, _⟩ := hp'
  unfold TileInImage at i1 i2
  obtain ⟨v, v', e1, e2, e3⟩ := hc r₀ q₀ (by simp only at *; omega) (by simp only at *; omega) (by simp only at *; omega)
    (by simp only at *; omega) hv hv'
  rw [hav, Option.some.injEq] at e1
  rw [hav', hstack, Option.some.injEq] at e2
  have hc0 : (c : K) * P.tau = 0 := by
    rw [← e1, ← e2] at e3
    linarith
  refine ⟨b, b', h1, h1', fun r q hr hq hr' hq' w w' => ?_⟩
  obtain ⟨x, x', f1, f2, f3⟩ := hc r q hr hq hr' hq' w w'
  refine ⟨x, f1, ?_⟩
  rw [f2, f3, hc0, add_zero]

end

end Spurt
