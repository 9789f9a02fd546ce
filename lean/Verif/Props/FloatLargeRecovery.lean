import Verif.Props.FloatLargeNumpy
import Verif.Props.FloatRecovery

/-!
# Property C73: the whole workflow in `float32` and `float64` on large tiles
-/

namespace Spurt
open Spec

section
variable {K : Type} [Field K] [LinearOrder K] [IsStrictOrderedRing K] [FloorRing K]
variable {A : FloatArith K} {B1 η1 B2 η2 Bd ηd ε : K}

/-- C73. An unaliased tile in mixed precision: as `C71_tile_itoh`, but a link adds only the rounding of one wrapped difference to
the error. -/
theorem C73_tile_itoh (P : Precision A B1 η1 B2 η2 Bd ηd ε) (hz : AddsNothing A) (solver : FlowSolver) (j : TileJob K) (hj : GoodJob j)
    (tiles : TileSet) (t : Nat) (b : BBox) (hb : tiles.tiles[t]? = some b) (hin : TileInImage (j.coh.rows, j.coh.cols) b)
    (hr : TileReady j b) (a δ1 V G δ e1 D : K) (hwr : WrapsOnce A a δ1 V) (hVa : V ≤ a) (hδ1 : 0 ≤ δ1) (ha0 : 0 ≤ a)
    (ha : ∀ s r c, PixelOf (j.coh.rows, j.coh.cols) r c → ValidPixel j r c → |epochPhase j s r.toNat c.toNat| ≤ a)
    (φ : Nat → ℤ × ℤ → K) (hφ : NearPhase A.tau e1 j φ) (hsm : SteepAtMost D j b φ) (hD : D + V + δ + 4 * e1 < A.tau)
    (oT : Nat → List Nat → List Nat) (oS : List Nat → List Nat)
    (hoT : ∀ k l, (oT k l).Perm l) (hoS : ∀ l, (oS l).Perm l) (H : Nat)
    (R : CubeRoom A B1 η1 B2 Bd ηd ε (3 * δ1) V 3 G δ 0 0 H)
    (hwalk : ∀ p < (tileGraph j b).npoints, ∃ L ≤ H, WalkTo (tileGraph j b).links L p)
    (htol : 2 * ((H : K) + 1) * (δ1 + 3 * ηd) ≤ A.tol)
    (hrt : ResidueRoom A B2 η2 G (δ + 4 * e1) j.time.cycles)
    (hrs : ResidueRoom A B2 η2 G (δ + 4 * e1) (tileGraph j b).cycles) :
    (∀ time space, ormcf j.time = .ok time → ormcf (tileGraph j b) = .ok space →
      FlowsWithin A solver (tileEmcf j b time space) (tileData j b) false oT 0 0) ∧
    ∃ f, unwrapOneTileFl A solver j tiles t oT oS = .ok f ∧ f.tile = b ∧ filePoints f = tilePixels j b ∧
      f.uw.length = j.time.links.length ∧ f.phaseOffset.length = j.time.links.length ∧
      (∀ row ∈ f.uw, row.length = f.points.length) ∧ f.points.Nodup ∧
      ∀ i s u : Nat, j.time.links[i]? = some (s, u) → ∃ c : ℤ,
        (∀ (n : Nat) p, (tilePixels j b)[n]? = some p →
          |filePhase f i n - (φ u p - φ s p + c * A.tau)| ≤ (H : K) * (δ1 + ε + 3 * ηd) + η2 + 5 * (δ1 + ε) + 6 * e1) ∧
        |filePhase f i 0| ≤ V + η2 + 2 * (δ1 + ε) + 4 * e1 := by
  obtain ⟨hcs, hne, _, ⟨tc, htc⟩, ⟨sc, hsc⟩, hpool, hd0⟩ := id hr
  have hε0 : 0 ≤ ε := (abs_nonneg _).trans P.close
  have hη : 0 ≤ δ1 + ε + 3 * ηd := by linarith [P.nonneg.2.2]
  have hmain := tile_near_of_cube P solver j hj tiles t b hb hin hr a (3 * δ1) V 3 e1 (wraps_of_once hwr hVa hδ1) ha0 ha φ hφ oT oS H hwalk
    (fun L => (L : K) * (δ1 + ε + 3 * ηd) + η2 + 2 * (2 * e1 + δ1 + ε)) ((H : K) * (δ1 + ε + 3 * ηd) + η2 + 2 * (2 * e1 + δ1 + ε))
    (fun L hL => by
      have hLH : (L : K) * (δ1 + ε + 3 * ηd) ≤ (H : K) * (δ1 + ε + 3 * ηd) := mul_le_mul_of_nonneg_right (by exact_mod_cast hL) hη
      show (L : K) * (δ1 + ε + 3 * ηd) + η2 + 2 * (2 * e1 + δ1 + ε) ≤ _
      linarith) (by
      intro time space κ htime hspace he1 d1 d2 d3 d4 d5 d6
      have hmgt : time.graph = j.time := ormcf_graph htime
      have hmgs : space.graph = tileGraph j b := ormcf_graph hspace
      have hc1 : costOf (tileEmcf j b time space).settings.tCostType (tileEmcf j b time space).nifgs (tileEmcf j b time space).tDist
          (tileEmcf j b time space).tCent = .ok tc := by
        unfold Emcf.nifgs; show costOf _ time.graph.links.length _ _ = _; rw [hmgt]; exact htc
      have hc2 : costOf (tileEmcf j b time space).settings.sCostType (tileEmcf j b time space).nlinks (tileEmcf j b time space).sDist
          (tileEmcf j b time space).sCent = .ok sc := by
        unfold Emcf.nlinks; show costOf _ space.graph.links.length _ _ = _; rw [hmgs]; exact hsc
      have hsm' : ∀ s u m n, (s, u) ∈ j.time.links → (m, n) ∈ (tileGraph j b).links →
          |(φ u ((tilePixels j b).getD n (0, 0)) - φ s ((tilePixels j b).getD n (0, 0))) -
            (φ u ((tilePixels j b).getD m (0, 0)) - φ s ((tilePixels j b).getD m (0, 0)))| + V + δ + 2 * (2 * e1) < A.tau := by
        intro s u m n h1 h2
        have := hsm s u h1 m n h2 _ _ (d6 m n h2).1 (d6 m n h2).2
        linarith
      have ht4 : ResidueRoom A B2 η2 G (δ + 2 * (2 * e1)) j.time.cycles := by
        rw [show δ + 2 * (2 * e1) = δ + 4 * e1 by ring]; exact hrt
      have hs4 : ResidueRoom A B2 η2 G (δ + 2 * (2 * e1)) (tileGraph j b).cycles := by
        rw [show δ + 2 * (2 * e1) = δ + 4 * e1 by ring]; exact hrs
      exact ⟨C73_no_flows P solver (tileEmcf j b time space) j.time (tileGraph j b) hj.contract hcs htime hspace hj.batch tc sc hc1 hc2
          ⟨2, 0, tileData j b⟩ false d1 d2 d3 a (3 * δ1) V 3 G δ (2 * e1) (wraps_of_once hwr hVa hδ1) ha0 d4
          (fun s n => φ s ((tilePixels j b).getD n (0, 0))) κ d5 hsm' oT hoT H R ht4 hs4,
        C73_itoh P hz solver (tileEmcf j b time space) j.time (tileGraph j b) hj.contract hcs hne htime hspace hj.batch hpool tc sc hc1 hc2
          ⟨2, 0, tileData j b⟩ rfl rfl false d1 d2 d3 a δ1 V G δ (2 * e1) hwr hVa hδ1 ha0 d4
          (fun s n => φ s ((tilePixels j b).getD n (0, 0))) κ d5 hsm' oT oS hoT hoS H R hwalk htol ht4 hs4⟩)
  refine ⟨hmain.1, ?_⟩
  obtain ⟨f, f1, f2, f3, f4, f5, f6, f7, f8⟩ := hmain.2
  refine ⟨f, f1, f2, f3, f4, f5, f6, f7, fun i s u hi => ?_⟩
  obtain ⟨c, c1, c2⟩ := f8 i s u hi
  refine ⟨c, fun n p hn => (c1 n p hn).trans (by linarith), ?_⟩
  rw [Nat.cast_zero, zero_mul, zero_add] at c2
  linarith

end

section
variable {S : Type}

theorem large_tile {P : Flow ℚ S} (hP : GoodFlow P) {T : TileSet}
    (hin : ∀ b ∈ T.tiles, TileInImage (P.job.coh.rows, P.job.coh.cols) b)
    {φ : Nat → ℤ × ℤ → ℚ} (hU : UnaliasedWithin 2000 1000 P T φ)
    (oT : Nat → Nat → List Nat → List Nat) (oS : Nat → List Nat → List Nat)
    (hoT : ∀ t k l, (oT t k l).Perm l) (hoS : ∀ t l, (oS t l).Perm l) (t : Nat) (b : BBox) (hb : T.tiles[t]? = some b) :
    (∀ time space, ormcf P.job.time = .ok time → ormcf (tileGraph P.job b) = .ok space →
      FlowsWithin numpyArith P.solver (tileEmcf P.job b time space) (tileData P.job b) false (oT t) 0 0) ∧
    ∃ f, unwrapOneTileFl numpyArith P.solver P.job T t (oT t) (oS t) = .ok f ∧ f.tile = b ∧ filePoints f = tilePixels P.job b ∧
      f.uw.length = P.job.time.links.length ∧ f.phaseOffset.length = P.job.time.links.length ∧
      (∀ row ∈ f.uw, row.length = f.points.length) ∧ f.points.Nodup ∧
      ∀ i s u : Nat, P.job.time.links[i]? = some (s, u) → ∃ c : ℤ,
        (∀ (n : Nat) p, (tilePixels P.job b)[n]? = some p →
          |filePhase f i n - (φ u p - φ s p + c * twoPi)| ≤ ((2000 : ℕ) : ℚ) * (1 / 2 ^ 22 + 175 / 1000000000 + 3 * (2 ^ 14 / 2 ^ 53)) +
            2 ^ 13 / 2 ^ 25 + 5 * (1 / 2 ^ 22 + 175 / 1000000000) + 6 * (1 / 20000)) ∧
        |filePhase f i 0| ≤ 31416 / 10000 + 2 ^ 13 / 2 ^ 25 + 2 * (1 / 2 ^ 22 + 175 / 1000000000) + 4 * (1 / 20000) :=
  have hmem := List.mem_of_getElem? hb
  have hres : ∀ cycles : List (List Nat), (∀ cyc ∈ cycles, cyc.length ≤ 4) →
      ResidueRoom numpyArith (2 ^ 13) (2 ^ 13 / 2 ^ 25) (314165 / 100000) (144 / 100000000 + 4 * (1 / 20000)) cycles := by
    intro cycles h
    have := single_itoh_residues (e0 := 2 * (1 / 20000)) (by norm_num) cycles h
    rw [show (144 / 100000000 + 2 * (2 * (1 / 20000)) : ℚ) = 144 / 100000000 + 4 * (1 / 20000) by norm_num] at this
    exact this
  C73_tile_itoh (numpyArith_precision_pow 2 13 14) C73_adds_nothing P.solver P.job hP.job T t
    b hb (hin _ hmem) (hU.ready _ hmem) (11 / 20 * twoPiSingle) (1 / 2 ^ 22) (31416 / 10000) (314165 / 100000) (144 / 100000000)
    (1 / 20000) (twoPi / 2 - 1 / 100) C73_wraps_once (by norm_num [twoPiSingle]) (by norm_num) (by norm_num [twoPiSingle]) hU.bounded φ
    hU.phase (hU.steep _ hmem) (by
      show _ < twoPi
      norm_num [twoPi]) (oT t) (oS t) (hoT t) (hoS t) 2000 single_itoh_room (hU.near _ hmem) (by
      rw [show ((2000 : ℕ) : ℚ) = 2000 by norm_num]
      exact le_trans (by norm_num) tolDouble_bounds.1) (hres _ hU.cycles) (hres _ (by
      intro cyc hc
      obtain ⟨x, _, rfl⟩ := List.mem_map.mp hc
      simp [triRow]))

theorem large_no_flows {P : Flow ℚ S} (hP : GoodFlow P) {T : TileSet}
    (hin : ∀ b ∈ T.tiles, TileInImage (P.job.coh.rows, P.job.coh.cols) b)
    {φ : Nat → ℤ × ℤ → ℚ} (hU : UnaliasedWithin 2000 1000 P T φ)
    (oT : Nat → Nat → List Nat → List Nat) (oS : Nat → List Nat → List Nat)
    (hoT : ∀ t k l, (oT t k l).Perm l) (hoS : ∀ t l, (oS t l).Perm l) (t : Nat) (b : BBox) (hb : T.tiles[t]? = some b) :
    ∀ time space, ormcf P.job.time = .ok time → ormcf (tileGraph P.job b) = .ok space →
      FlowsWithin numpyArith P.solver (tileEmcf P.job b time space) (tileData P.job b) false (oT t) 0 0 :=
  (large_tile hP hin hU oT oS hoT hoS t b hb).1

/-- The tile files of an unaliased stack on large tiles. -/
theorem large_files {P : Flow ℚ S} (hP : GoodFlow P) {T : TileSet}
    (hin : ∀ b ∈ T.tiles, TileInImage (P.job.coh.rows, P.job.coh.cols) b)
    {φ : Nat → ℤ × ℤ → ℚ} (hU : UnaliasedWithin 2000 1000 P T φ)
    (oT : Nat → Nat → List Nat → List Nat) (oS : Nat → List Nat → List Nat)
    (hoT : ∀ t k l, (oT t k l).Perm l) (hoS : ∀ t l, (oS t l).Perm l) (t : Nat) (ht : t < T.tiles.length) :
    ∃ f, unwrapOneTileFl numpyArith P.solver P.job T t (oT t) (oS t) = .ok f ∧ f.tile = T.tiles[t] ∧
      filePoints f = tilePixels P.job T.tiles[t] ∧
      f.uw.length = P.job.time.links.length ∧ f.phaseOffset.length = P.job.time.links.length ∧
      (∀ row ∈ f.uw, row.length = f.points.length) ∧ f.points.Nodup ∧ 2 ≤ f.points.length ∧
      ∀ i s u, P.job.time.links[i]? = some (s, u) → ∃ c : ℤ, |c| ≤ 159 ∧
        ∀ n p, (filePoints f)[n]? = some p → |numpyArith.fs (filePhase f i n) - (φ u p - φ s p + twoPi * c)| ≤ 15 / 10000 := by
  have hb : T.tiles[t]? = some T.tiles[t] := List.getElem?_eq_getElem ht
  have hmem := List.getElem_mem ht
  have hHq : ((2000 : ℕ) : ℚ) = 2000 := by norm_num
  obtain ⟨_, f, h1, h2, h3, h4, h5, h6, h7, h8⟩ := large_tile hP hin hU oT oS hoT hoS t T.tiles[t] hb
  have hlen : (tilePixels P.job T.tiles[t]).length = (tileGraph P.job T.tiles[t]).npoints := by
    simp [tilePixels, tileGraph, delaunayGraph]
  have htwo : 2 ≤ f.points.length := by
    obtain ⟨⟨la, lb⟩, hl0⟩ := List.exists_mem_of_ne_nil _ (hU.ready _ hmem).links
    have := (hU.ready _ hmem).contract.ordered la lb hl0
    rw [← filePoints_length, h3]
    omega
  refine ⟨f, h1, h2, h3, h4, h5, h6, h7, htwo, fun i s u hi => ?_⟩
  obtain ⟨c, hc1, hc2⟩ := h8 i s u hi
  obtain ⟨_, _, _, _, r5, _⟩ := tile_read hP.job (hin _ hmem)
  have hrange : ∀ p ∈ tilePixels P.job T.tiles[t], |φ u p - φ s p| ≤ 1000 := by
    intro p hp
    obtain ⟨ht0, hv⟩ := (r5 p.1 p.2).mp hp
    refine hU.range s u (List.mem_of_getElem? hi) p ?_ hv
    have := hin _ hmem
    unfold TileInImage at this
    unfold InTile at ht0
    unfold PixelOf
    simp only at this ⊢
    omega
  have herr : (2000 : ℚ) * (1 / 2 ^ 22 + 175 / 1000000000 + 3 * (2 ^ 14 / 2 ^ 53)) + 2 ^ 13 / 2 ^ 25 +
      5 * (1 / 2 ^ 22 + 175 / 1000000000) + 6 * (1 / 20000) ≤ 1376 / 1000000 := by norm_num
  have hc1' : ∀ (n : Nat) p, (filePoints f)[n]? = some p → |filePhase f i n - (φ u p - φ s p + c * twoPi)| ≤ 1376 / 1000000 := by
    intro n p hn
    have := hc1 n p (by rw [← h3]; exact hn)
    rw [hHq] at this
    exact this.trans herr
  obtain ⟨p0, hp0⟩ : ∃ p, (filePoints f)[0]? = some p := ⟨_, List.getElem?_eq_getElem (by rw [filePoints_length]; omega)⟩
  have hcb : |c| ≤ 159 := by
    have a1 := abs_le.mp (hc1' 0 p0 hp0)
    have a2 := abs_le.mp hc2
    have a3 := abs_le.mp (hrange p0 (by rw [← h3]; exact List.mem_of_getElem? hp0))
    have hv : (31416 / 10000 + 2 ^ 13 / 2 ^ 25 + 2 * (1 / 2 ^ 22 + 175 / 1000000000) + 4 * (1 / 20000) : ℚ) ≤ 32 / 10 := by norm_num
    have hpos : (0 : ℚ) < twoPi := by norm_num [twoPi]
    have h160 : (1004 : ℚ) < 160 * twoPi := by norm_num [twoPi]
    have b1 : (c : ℚ) * twoPi < (160 : ℤ) * twoPi := by push_cast; linarith [a1.1, a1.2, a2.1, a2.2, a3.1, a3.2]
    have b2 : ((-160 : ℤ) : ℚ) * twoPi < (c : ℚ) * twoPi := by push_cast; linarith [a1.1, a1.2, a2.1, a2.2, a3.1, a3.2]
    have b1' : c < 160 := by exact_mod_cast lt_of_mul_lt_mul_right b1 hpos.le
    have b2' : -160 < c := by exact_mod_cast lt_of_mul_lt_mul_right b2 hpos.le
    rw [abs_le]
    omega
  refine ⟨c, hcb, fun n p hn => ?_⟩
  have a1 := abs_le.mp (hc1' n p hn)
  have a3 := abs_le.mp (hrange p (by rw [← h3]; exact List.mem_of_getElem? hn))
  have hct : |(c : ℚ) * twoPi| ≤ 1000 := by
    rw [abs_mul]
    have : |(c : ℚ)| ≤ 159 := by rw [← Int.cast_abs]; exact_mod_cast hcb
    calc |(c : ℚ)| * |twoPi| ≤ 159 * |twoPi| := mul_le_mul_of_nonneg_right this (abs_nonneg _)
      _ ≤ 1000 := by norm_num [twoPi]
  have a4 := abs_le.mp hct
  have hr := (rounds_single_pow 11).1 (filePhase f i n) (by norm_num; rw [abs_le]; constructor <;> linarith)
  have a5 := abs_le.mp hr
  have h620 : (2 ^ 11 / 2 ^ 25 : ℚ) ≤ 62 / 1000000 := by norm_num
  show |flSingle _ - _| ≤ _
  rw [mul_comm twoPi, abs_le]
  constructor <;> linarith

theorem large_mixed : MixedPrecision numpyArith (2 ^ 13) (2 ^ 13 / 2 ^ 25) (2 ^ 30) (2 ^ 30 / 2 ^ 53) (175 / 1000000000) :=
  have P := numpyArith_precision_pow 13 13 30
  ⟨P.single, P.double, ⟨P.nonneg.1, P.nonneg.2.2⟩, P.one_le, P.close⟩

theorem large_check : CheckRoom (flDouble (1 / 100)) (flDouble (1 / 100000)) (2 ^ 13) (2 ^ 13 / 2 ^ 25) (2 ^ 30) (2 ^ 30 / 2 ^ 53)
    (175 / 1000000000) 2000 320 (15 / 10000) := by
  have h1 := flDouble_rel (show (0 : ℚ) ≤ 1 / 100 by norm_num)
  have h2 := flDouble_rel (show (0 : ℚ) ≤ 1 / 100000 by norm_num)
  refine ⟨⟨?_, by norm_num⟩, ?_, ?_, by norm_num, ?_⟩
  · exact le_trans (by norm_num) h2.1
  · exact le_trans (by norm_num) h1.1
  · exact lt_of_le_of_lt h1.2 (by norm_num)
  · have : flDouble (1 / 100) + flDouble (1 / 100000) * 320 + 2 ^ 30 / 2 ^ 53 ≤
        1 / 100 * (1 + 1 / 2 ^ 53) + 1 / 100000 * (1 + 1 / 2 ^ 53) * 320 + 2 ^ 30 / 2 ^ 53 := by linarith [h1.2, h2.2]
    exact this.trans (by norm_num)

theorem large_room : MergeRoom numpyArith (2 ^ 13) (2 ^ 13 / 2 ^ 25) (2 ^ 30) (2 ^ 30 / 2 ^ 53) (175 / 1000000000) 2000 320 (15 / 10000)
    (1 / 50000) (1 / 1000) (1 / 4) (1 / 8) 4 (2 ^ 30) where
  nonneg := by norm_num
  error := by norm_num [numpyArith, twoPi]
  sums := by norm_num
  values := by norm_num [numpyArith, twoPiSingle]
  bulk := by norm_num [numpyArith, twoPi]
  dirichlet := by norm_num
  half := by norm_num

theorem Spec.UnaliasedWithin.mono {P : Flow ℚ S} {T : TileSet} {φ : Nat → ℤ × ℤ → ℚ} {H H' : Nat} {R R' : ℚ}
    (h : UnaliasedWithin H R P T φ) (hH : H ≤ H') (hR : R ≤ R') : UnaliasedWithin H' R' P T φ where
  ready := h.ready
  bounded := h.bounded
  phase := h.phase
  steep := h.steep
  range := fun s u hl p h1 h2 => (h.range s u hl p h1 h2).trans hR
  near := fun b hb p hp => by
    obtain ⟨L, h1, h2⟩ := h.near b hb p hp
    exact ⟨L, h1.trans hH, h2⟩
  cycles := h.cycles

/-- The recovery on large tiles; the common number of cycles is that of the file of the largest tile. -/
theorem large_reference (P : Flow ℚ S) (hP : GoodFlow P) (himg : 0 < P.job.coh.rows ∧ 0 < P.job.coh.cols)
    (hifgs : P.job.time.links ≠ []) (hpool : 1 ≤ P.job.settings.numParallelTiles)
    (hset : P.merger.check = .ok ()) (hmin : 11 ≤ P.merger.minOverlapPoints)
    (T : TileSet) (hT : makeTiles P.sc P.fl P.useTiles P.tiler P.job.coh.cols P.mask = .ok T)
    (hls : P.merger.bulkMethod = "L2" → ConsistentLstsq P.lstsq T.tiles.length P.job.time.links.length (1 / 200000) (2 ^ 29))
    (φ : Nat → ℤ × ℤ → ℚ) (hU : UnaliasedWithin 2000 1000 P T φ) (hjoin : TilesJoined P T)
    (hfour : ∀ r q : ℤ, {t : Nat | ∃ b, T.tiles[t]? = some b ∧ InTile b r q}.ncard ≤ 4)
    (hcc : ∀ edges : List (Nat × Nat), (∀ e ∈ edges, e.1 < T.tiles.length ∧ e.2 < T.tiles.length) →
      ComponentLabels T.tiles.length edges (P.cc T.tiles.length edges))
    (hmipc : MipComplete P.mip) (hilu : ∀ a, P.lin.ilu a = true) (hgraph : ∀ b ∈ T.tiles, MergeGraphFl P b)
    (oT : Nat → Nat → List Nat → List Nat) (oS : Nat → List Nat → List Nat)
    (hoT : ∀ t k l, (oT t k l).Perm l) (hoS : ∀ t l, (oS t l).Perm l) :
    ∃ r, workflowFl numpyArith (flDouble (1 / 100)) (flDouble (1 / 100000)) P oT oS = .ok (T, r) ∧
      (rastersOf r).map Prod.fst = List.range P.job.time.links.length ∧
      ∀ i b, (i, b) ∈ rastersOf r → b.rows = P.job.coh.rows ∧ b.cols = P.job.coh.cols ∧
        ∀ s u, P.job.time.links[i]? = some (s, u) → ∃ c : ℤ, |c| ≤ 159 ∧ (∃ t f, t < T.tiles.length ∧
            LargestTile (tileCounts P.job.coh P.job.thr T) t ∧ unwrapOneTileFl numpyArith P.solver P.job T t (oT t) (oS t) = .ok f ∧
            ∀ n p, (filePoints f)[n]? = some p → |numpyArith.fs (filePhase f i n) - (φ u p - φ s p + twoPi * c)| ≤ 15 / 10000) ∧
          ∀ r q : Nat, r < P.job.coh.rows → q < P.job.coh.cols →
          (ValidPixel P.job r q → ∃ v, b.val r q = some v ∧
            |v - ((φ u (r, q) - φ s (r, q)) + c * twoPi)| ≤ 3 / 1000) ∧
          (¬ ValidPixel P.job r q → b.val r q = none) := by
  obtain ⟨_, _, hin⟩ := flow_tiles hP hT
  have hq : ((320 : ℤ) : ℚ) = 320 := by norm_num
  obtain ⟨r, h1, _, h3⟩ := recovers_within (k := 320) (Kc := 159) (M := 2000) (δ := 15 / 10000) (acc := 3 / 1000) (acc2 := 1) (γ := 1 / 200000)
    (X := 2 ^ 29) large_mixed
    (by rw [hq]; exact large_check) (by rw [hq]; exact large_room) (by norm_num) (by norm_num) (by norm_num) (by norm_num) (by norm_num [twoPi])
    P hP himg hifgs hpool hset hmin T hT hls φ hU hjoin hfour hcc hmipc hilu hgraph oT oS
    (fun t ht => large_files hP hin hU oT oS hoT hoS t ht)
  exact ⟨r, h1, h3⟩

theorem large_core (P : Flow ℚ S) (hP : GoodFlow P) (himg : 0 < P.job.coh.rows ∧ 0 < P.job.coh.cols)
    (hifgs : P.job.time.links ≠ []) (hpool : 1 ≤ P.job.settings.numParallelTiles)
    (hset : P.merger.check = .ok ()) (hmin : 11 ≤ P.merger.minOverlapPoints)
    (T : TileSet) (hT : makeTiles P.sc P.fl P.useTiles P.tiler P.job.coh.cols P.mask = .ok T)
    (hls : P.merger.bulkMethod = "L2" → ConsistentLstsq P.lstsq T.tiles.length P.job.time.links.length (1 / 200000) (2 ^ 29))
    (φ : Nat → ℤ × ℤ → ℚ) (hU : UnaliasedWithin 2000 1000 P T φ) (hjoin : TilesJoined P T)
    (hfour : ∀ r q : ℤ, {t : Nat | ∃ b, T.tiles[t]? = some b ∧ InTile b r q}.ncard ≤ 4)
    (hcc : ∀ edges : List (Nat × Nat), (∀ e ∈ edges, e.1 < T.tiles.length ∧ e.2 < T.tiles.length) →
      ComponentLabels T.tiles.length edges (P.cc T.tiles.length edges))
    (hmipc : MipComplete P.mip) (hilu : ∀ a, P.lin.ilu a = true) (hgraph : ∀ b ∈ T.tiles, MergeGraphFl P b)
    (oT : Nat → Nat → List Nat → List Nat) (oS : Nat → List Nat → List Nat)
    (hoT : ∀ t k l, (oT t k l).Perm l) (hoS : ∀ t l, (oS t l).Perm l) :
    ∃ r, workflowFl numpyArith (flDouble (1 / 100)) (flDouble (1 / 100000)) P oT oS = .ok (T, r) ∧
      (rastersOf r).map Prod.fst = List.range P.job.time.links.length ∧
      ∀ i b, (i, b) ∈ rastersOf r → b.rows = P.job.coh.rows ∧ b.cols = P.job.coh.cols ∧
        ∀ s u, P.job.time.links[i]? = some (s, u) → ∃ c : ℤ, |c| ≤ 159 ∧ ∀ r q : Nat, r < P.job.coh.rows → q < P.job.coh.cols →
          (ValidPixel P.job r q → ∃ v, b.val r q = some v ∧
            |v - ((φ u (r, q) - φ s (r, q)) + c * twoPi)| ≤ 3 / 1000) ∧
          (¬ ValidPixel P.job r q → b.val r q = none) := by
  obtain ⟨r, h1, h2, h3⟩ := large_reference P hP himg hifgs hpool hset hmin T hT hls φ hU hjoin hfour hcc hmipc hilu hgraph oT oS hoT hoS
  refine ⟨r, h1, h2, fun i b hib => ?_⟩
  obtain ⟨g1, g2, g3⟩ := h3 i b hib
  exact ⟨g1, g2, fun s u hl => (g3 s u hl).imp fun c hc => ⟨hc.1, hc.2.2⟩⟩

/-- C73. The whole workflow in numpy's numbers on tiles of realistic size: `C71_recovers` for interferograms of up to 1000 radians and
tiles no point of which is more than 2000 links from the first. The run completes, whatever the flow solver answers and however the
workers are scheduled; every pixel of sufficient coherence of every raster has the true interferogram plus one common number of cycles
to within three thousandths of a radian, every other pixel no value. -/
theorem C73_recovers (P : Flow ℚ S) (hP : GoodFlow P) (himg : 0 < P.job.coh.rows ∧ 0 < P.job.coh.cols)
    (hifgs : P.job.time.links ≠ []) (hpool : 1 ≤ P.job.settings.numParallelTiles)
    (hset : P.merger.check = .ok ()) (hmin : 11 ≤ P.merger.minOverlapPoints)
    (T : TileSet) (hT : makeTiles P.sc P.fl P.useTiles P.tiler P.job.coh.cols P.mask = .ok T)
    (hls : P.merger.bulkMethod = "L2" → ConsistentLstsq P.lstsq T.tiles.length P.job.time.links.length (1 / 200000) (2 ^ 29))
    (φ : Nat → ℤ × ℤ → ℚ) (hU : UnaliasedWithin 2000 1000 P T φ) (hjoin : TilesJoined P T)
    (hfour : ∀ r q : ℤ, {t : Nat | ∃ b, T.tiles[t]? = some b ∧ InTile b r q}.ncard ≤ 4)
    (hcc : ∀ edges : List (Nat × Nat), (∀ e ∈ edges, e.1 < T.tiles.length ∧ e.2 < T.tiles.length) →
      ComponentLabels T.tiles.length edges (P.cc T.tiles.length edges))
    (hmipc : MipComplete P.mip) (hilu : ∀ a, P.lin.ilu a = true) (hgraph : ∀ b ∈ T.tiles, MergeGraphFl P b)
    (oT : Nat → Nat → List Nat → List Nat) (oS : Nat → List Nat → List Nat)
    (hoT : ∀ t k l, (oT t k l).Perm l) (hoS : ∀ t l, (oS t l).Perm l) :
    ∃ r, workflowFl numpyArith (flDouble (1 / 100)) (flDouble (1 / 100000)) P oT oS = .ok (T, r) ∧
      (rastersOf r).map Prod.fst = List.range P.job.time.links.length ∧
      ∀ i b, (i, b) ∈ rastersOf r → b.rows = P.job.coh.rows ∧ b.cols = P.job.coh.cols ∧
        ∀ s u, P.job.time.links[i]? = some (s, u) → ∃ c : ℤ, ∀ r q : Nat, r < P.job.coh.rows → q < P.job.coh.cols →
          (ValidPixel P.job r q → ∃ v, b.val r q = some v ∧
            |v - ((φ u (r, q) - φ s (r, q)) + c * twoPi)| ≤ 3 / 1000) ∧
          (¬ ValidPixel P.job r q → b.val r q = none) := by
  obtain ⟨r, h1, h2, h3⟩ := large_core P hP himg hifgs hpool hset hmin T hT hls φ hU hjoin hfour hcc hmipc hilu hgraph oT oS hoT hoS
  refine ⟨r, h1, h2, fun i b hib => ?_⟩
  obtain ⟨g1, g2, g3⟩ := h3 i b hib
  exact ⟨g1, g2, fun s u hl => (g3 s u hl).imp fun c hc => hc.2⟩

end
end Spurt
