import Verif.Props.FloatMerge
import Verif.Props.FloatExact
import Verif.Props.FloatCongruent
import Verif.Props.FloatSingle
import Verif.Props.EndToEndExample
import Verif.Props.RecoveryExample
import Mathlib.Tactic.NormNum

/-! # C70 for `float32` and `float64` -/

namespace Spurt
open Spec Cut

/-- numpy's arithmetic, for numbers up to 4096 in single precision and up to `2 ^ 30` in double precision. -/
theorem numpy_mixed : MixedPrecision numpyArith 4096 (4096 / 2 ^ 24) (2 ^ 30) (2 ^ 30 / 2 ^ 53) (175 / 1000000000) :=
  have P := numpyArith_precision 4096 4096 (by norm_num) (by norm_num) 30
  ⟨P.single, P.double, ⟨P.nonneg.1, P.nonneg.2.2⟩, P.one_le, P.close⟩

theorem numpy_check : CheckRoom (flDouble (1 / 100)) (flDouble (1 / 100000)) 4096 (4096 / 2 ^ 24) (2 ^ 30) (2 ^ 30 / 2 ^ 53)
    (175 / 1000000000) 1000 100 (1 / 1000) := by
  have h1 := flDouble_rel (show (0 : ℚ) ≤ 1 / 100 by norm_num)
  have h2 := flDouble_rel (show (0 : ℚ) ≤ 1 / 100000 by norm_num)
  refine ⟨⟨?_, by norm_num⟩, ?_, ?_, by norm_num, ?_⟩
  · exact le_trans (by norm_num) h2.1
  · exact le_trans (by norm_num) h1.1
  · exact lt_of_le_of_lt h1.2 (by norm_num)
  · have : flDouble (1 / 100) + flDouble (1 / 100000) * 100 + 2 ^ 30 / 2 ^ 53 ≤
        1 / 100 * (1 + 1 / 2 ^ 53) + 1 / 100000 * (1 + 1 / 2 ^ 53) * 100 + 2 ^ 30 / 2 ^ 53 := by linarith [h1.2, h2.2]
    exact this.trans (by norm_num)

theorem numpy_room : MergeRoom numpyArith 4096 (4096 / 2 ^ 24) (2 ^ 30) (2 ^ 30 / 2 ^ 53) (175 / 1000000000) 1000 100 (1 / 1000)
    (1 / 50000) (1 / 1000) (1 / 4) (1 / 9) 4 (2 ^ 30) where
  nonneg := by norm_num
  error := by norm_num [numpyArith, twoPi]
  sums := by norm_num
  values := by norm_num [numpyArith, twoPiSingle]
  bulk := by norm_num [numpyArith, twoPi]
  dirichlet := by norm_num
  half := by norm_num

/-- The merge with given room. -/
theorem merge_numpy {C : Type} [LinearOrder C] {B η Bd ηd M δ β ρ Y E γ X acc acc2 : ℚ} {k : ℤ} {L : Nat}
    (hA : MixedPrecision numpyArith B η Bd ηd (175 / 1000000000))
    (hcheck : CheckRoom (flDouble (1 / 100)) (flDouble (1 / 100000)) B η Bd ηd (175 / 1000000000) M (k : ℚ) δ)
    (hroom : MergeRoom numpyArith B η Bd ηd (175 / 1000000000) M (k : ℚ) δ β ρ Y E 4 L)
    (hacc : δ + 4 * η + (k : ℚ) * (175 / 1000000000) ≤ acc) (hacc2 : E + 3 * η ≤ acc2) (minPoints : ℤ) (hmin : 11 ≤ minPoints)
    (cc : Nat → List (Nat × Nat) → List Nat) (nifgs : Nat) (hifgs : 1 ≤ nifgs) (tiles : TileSet)
    (htwo : 2 ≤ tiles.tiles.length) (himg : 0 < tiles.shape.1 ∧ 0 < tiles.shape.2)
    (files : Nat → Except PyErr (TileFile ℚ)) (F : Nat → TileFile ℚ) (hf : TileFilesOk nifgs tiles files F)
    (hne : ∀ i < tiles.tiles.length, 2 ≤ (F i).points.length)
    (hN : ∀ pix, (covering tiles.tiles.length F pix).length ≤ 4)
    (phi : Nat → ℤ × ℤ → ℚ) (c : Nat → Nat → ℤ) (hnear : NearFields numpyArith δ nifgs tiles.tiles.length F phi c)
    (hM : ∀ b < nifgs, ∀ i < tiles.tiles.length, ∀ pix ∈ filePoints (F i), ∀ j < tiles.tiles.length,
      |phi b pix + twoPi * c b j| ≤ M)
    (hk : ∀ b i j, |c b j - c b i| ≤ k) (hsmall : ∀ b i, |c b i| ≤ 16383)
    (hcc : ∀ edges : List (Nat × Nat), (∀ e ∈ edges, e.1 < tiles.tiles.length ∧ e.2 < tiles.tiles.length) →
      ComponentLabels tiles.tiles.length edges (cc tiles.tiles.length edges))
    (hconn : ∀ t < tiles.tiles.length, Relation.ReflTransGen
      (fun i j => BigOverlap tiles F minPoints i j ∨ BigOverlap tiles F minPoints j i) 0 t)
    (mip : MipSolver) (hmip : MipOptimal mip) (hmipc : MipComplete mip) (lstsq : Lstsq ℚ) (settings : MergerSettings)
    (hbm : settings.bulkMethod = "integer" ∨ settings.bulkMethod = "L2")
    (hls : settings.bulkMethod = "L2" → ConsistentLstsq lstsq tiles.tiles.length nifgs γ X ∧ 2 * γ + ηd ≤ β ∧ 2 * X ≤ Bd)
    (hmethod : settings.method = "dirichlet")
    (lin : LinSolver ℚ) (hilu : ∀ a, lin.ilu a = true) (simplices : List (ℤ × ℤ) → List Tri)
    (hgraphs : ∀ olap, TileGraphs ⟨lin, simplices, olap⟩ tiles.tiles.length F Y ρ L)
    (coh : Band (Option C)) (thr : C) (isFile : Nat → Bool) :
    ∃ olap, phasediffDecilesFl numpyArith (flDouble (1 / 100)) (flDouble (1 / 100000)) id minPoints cc tiles files =
        .ok (some olap) ∧
      ∃ bulk, bulkOffsetsFl numpyArith.fd mip lstsq settings.bulkMethod tiles coh thr olap = .ok (some bulk) ∧
        (settings.bulkMethod = "integer" → bulk.residuals = List.replicate nifgs 0) ∧
      ∃ out, mergeTilesFl numpyArith ⟨lin, simplices, olap⟩ settings tiles files bulk nifgs isFile = .ok (.merged out) ∧
        out.map Prod.fst = (List.range nifgs).filter (fun i => !isFile i) ∧
      ∃ ref < tiles.tiles.length, LargestTile (tileCounts coh thr tiles) ref ∧ ∀ b m, (b, m) ∈ out → ∀ r q : Nat,
        ((∃ i < tiles.tiles.length, ((r : ℤ), (q : ℤ)) ∈ filePoints (F i)) →
          (∃ v, m.out.val r q = some v ∧ |v - (phi b (r, q) + twoPi * c b ref)| ≤ acc) ∧
          ∃ v, m.model.val r q = some v ∧ |v - (phi b (r, q) + twoPi * c b ref)| ≤ acc2) ∧
        ((∀ i < tiles.tiles.length, ((r : ℤ), (q : ℤ)) ∉ filePoints (F i)) → m.out.val r q = none ∧ m.model.val r q = none) := by
  have hk' : ∀ b < nifgs, ∀ i < tiles.tiles.length, ∀ j < tiles.tiles.length, |((c b j - c b i : ℤ) : ℚ)| ≤ (k : ℚ) := by
    intro b _ i _ j _
    have := hk b i j
    rw [← Int.cast_abs]
    exact_mod_cast this
  obtain ⟨olap, h1, h2, h3, bulk, h4, out, h5⟩ := C70_returns numpyArith _ _ _ _ _ hA _ _ _ _ _ hcheck minPoints hmin
    cc nifgs hifgs tiles htwo himg files F hf hne phi c hnear (fun b hb i hi pix hp => hM b hb i hi pix hp i hi) hk' hsmall hcc hconn
    mip hmip hmipc lstsq settings hbm hmethod lin hilu simplices _ _ _ hgraphs coh thr isFile
  obtain ⟨g1, g2, ref, g3, g5, g4⟩ := C70_end_to_end numpyArith _ _ _ _ _ hA _ _ _ _ _ _ _ _ _ γ X _ _ hroom hcheck minPoints
    cc nifgs hifgs tiles htwo himg files F hf hN phi c hnear hM hk' hsmall ⟨lin, simplices, olap⟩ (hgraphs olap) h1 h2 h3 mip hmip
    lstsq settings hbm hls coh thr bulk h4 hmethod isFile out h5
  refine ⟨olap, h1, bulk, h4, g1, out, h5, g2, ref, g3, g5, fun b m hb r q => ⟨fun hc => ?_, fun hc => ?_⟩⟩
  · obtain ⟨⟨v, v1, v2⟩, w, w1, w2⟩ := (g4 b m hb r q).1 hc
    exact ⟨⟨v, v1, v2.trans hacc⟩, w, w1, w2.trans hacc2⟩
  · exact ⟨((g4 b m hb r q).2.1 hc).1, ((g4 b m hb r q).2.1 hc).2.2⟩

/-- C70. `float32` tiles, `float64` in the solvers, numpy's constants and tolerances: fields of up to 1000 rad including the
cycles, tiles that are up to 100 cycles apart and no more than four at any pixel, tile files accurate to a thousandth of a
radian, and an inner solver that is. The overlap statistics, the bulk offsets by either method and the merge complete, the residuals
of the integer method are 0, and every covered pixel of every missing raster is within a five-hundredth of a radian of the field plus the cycles of the
largest tile, the averaged model within an eighth. -/
theorem C70_numpy {C : Type} [LinearOrder C] (minPoints : ℤ) (hmin : 11 ≤ minPoints)
    (cc : Nat → List (Nat × Nat) → List Nat) (nifgs : Nat) (hifgs : 1 ≤ nifgs) (tiles : TileSet)
    (htwo : 2 ≤ tiles.tiles.length) (himg : 0 < tiles.shape.1 ∧ 0 < tiles.shape.2)
    (files : Nat → Except PyErr (TileFile ℚ)) (F : Nat → TileFile ℚ) (hf : TileFilesOk nifgs tiles files F)
    (hne : ∀ i < tiles.tiles.length, 2 ≤ (F i).points.length)
    (hN : ∀ pix, (covering tiles.tiles.length F pix).length ≤ 4)
    (phi : Nat → ℤ × ℤ → ℚ) (c : Nat → Nat → ℤ) (hnear : NearFields numpyArith (1 / 1000) nifgs tiles.tiles.length F phi c)
    (hM : ∀ b < nifgs, ∀ i < tiles.tiles.length, ∀ pix ∈ filePoints (F i), ∀ j < tiles.tiles.length,
      |phi b pix + twoPi * c b j| ≤ 1000)
    (hk : ∀ b i j, |c b j - c b i| ≤ 100) (hsmall : ∀ b i, |c b i| ≤ 16383)
    (hcc : ∀ edges : List (Nat × Nat), (∀ e ∈ edges, e.1 < tiles.tiles.length ∧ e.2 < tiles.tiles.length) →
      ComponentLabels tiles.tiles.length edges (cc tiles.tiles.length edges))
    (hconn : ∀ t < tiles.tiles.length, Relation.ReflTransGen
      (fun i j => BigOverlap tiles F minPoints i j ∨ BigOverlap tiles F minPoints j i) 0 t)
    (mip : MipSolver) (hmip : MipOptimal mip) (hmipc : MipComplete mip) (lstsq : Lstsq ℚ) (settings : MergerSettings)
    (hbm : settings.bulkMethod = "integer" ∨ settings.bulkMethod = "L2")
    (hls : settings.bulkMethod = "L2" → ConsistentLstsq lstsq tiles.tiles.length nifgs (1 / 200000) (2 ^ 29))
    (hmethod : settings.method = "dirichlet")
    (lin : LinSolver ℚ) (hilu : ∀ a, lin.ilu a = true) (simplices : List (ℤ × ℤ) → List Tri)
    (hgraphs : ∀ olap, TileGraphs ⟨lin, simplices, olap⟩ tiles.tiles.length F (1 / 4) (1 / 1000) (2 ^ 30))
    (coh : Band (Option C)) (thr : C) (isFile : Nat → Bool) :
    ∃ olap, phasediffDecilesFl numpyArith (flDouble (1 / 100)) (flDouble (1 / 100000)) id minPoints cc tiles files =
        .ok (some olap) ∧
      ∃ bulk, bulkOffsetsFl numpyArith.fd mip lstsq settings.bulkMethod tiles coh thr olap = .ok (some bulk) ∧
        (settings.bulkMethod = "integer" → bulk.residuals = List.replicate nifgs 0) ∧
      ∃ out, mergeTilesFl numpyArith ⟨lin, simplices, olap⟩ settings tiles files bulk nifgs isFile = .ok (.merged out) ∧
        out.map Prod.fst = (List.range nifgs).filter (fun i => !isFile i) ∧
      ∃ ref < tiles.tiles.length, LargestTile (tileCounts coh thr tiles) ref ∧ ∀ b m, (b, m) ∈ out → ∀ r q : Nat,
        ((∃ i < tiles.tiles.length, ((r : ℤ), (q : ℤ)) ∈ filePoints (F i)) →
          (∃ v, m.out.val r q = some v ∧ |v - (phi b (r, q) + twoPi * c b ref)| ≤ 1 / 500) ∧
          ∃ v, m.model.val r q = some v ∧ |v - (phi b (r, q) + twoPi * c b ref)| ≤ 1 / 8) ∧
        ((∀ i < tiles.tiles.length, ((r : ℤ), (q : ℤ)) ∉ filePoints (F i)) → m.out.val r q = none ∧ m.model.val r q = none) := by
  have hq : ((100 : ℤ) : ℚ) = 100 := by norm_num
  exact merge_numpy (k := 100) (M := 1000) (δ := 1 / 1000) (ρ := 1 / 1000) (Y := 1 / 4) (γ := 1 / 200000) (X := 2 ^ 29)
    (L := 2 ^ 30) numpy_mixed
    (by rw [hq]; exact numpy_check) (by rw [hq]; exact numpy_room) (by norm_num) (by norm_num) minPoints hmin cc nifgs hifgs tiles htwo himg
    files F hf hne hN phi c hnear hM hk hsmall hcc hconn mip hmip hmipc lstsq settings hbm
    (fun h => ⟨hls h, by norm_num, by norm_num⟩) hmethod lin hilu simplices hgraphs coh thr isFile

/-- A solver that answers every uniquely solvable system exactly. -/
theorem exists_cg (K : Type) [Field K] [LinearOrder K] [IsStrictOrderedRing K] : ∃ lin : LinSolver K, (∀ a, lin.ilu a = true) ∧
    ∀ (a : SqMat K) (Y : K), CgWithin lin a Y 0 := by
  classical
  refine ⟨⟨fun _ => true, fun a b => if h : ∃ y : List K, y.length = a.n ∧ a.dot y = b then h.choose else []⟩, fun _ => rfl, ?_⟩
  intro a Y mask b y hl hd hu _ k _
  have hex : ∃ y : List K, y.length = (freeMat a mask).n ∧ (freeMat a mask).dot y = b := ⟨y, hl, hd⟩
  simp only
  rw [dif_pos hex, hu _ hex.choose_spec.1 hex.choose_spec.2]
  simp

/-! ### Example: the two tiles of `Cut` in single precision -/

namespace Cut

/-- The file of a tile: the phases and the offsets are rounded to single precision. -/
def fileFl (i : Nat) : TileFile ℚ :=
  { uw := [0, 1].map fun b => pix.map fun p => flSingle (phi b (p.1, p.2 + i))
    points := pix
    tile := ⟨0, i, 3, 5 + i⟩
    phaseOffset := [0, 1].map fun b => flSingle (twoPiSingle * cyc b i) }

theorem filesOk_fl : TileFilesOk 2 tiles (fun i => .ok (fileFl i)) fileFl where
  read := fun _ _ => rfl
  box := by
    intro i b h
    have : i < 2 := (List.getElem?_eq_some_iff.mp h).1
    interval_cases i <;> (simp [tiles] at h; subst h; rfl)
  once := by intro i _; show pix.Nodup; decide +kernel
  inside := by
    intro i hi
    have : i < 2 := hi
    interval_cases i <;> decide +kernel
  bands := by intro i _; simp [fileFl]
  rows := by
    intro i _ row h
    simp only [fileFl, List.mem_map] at h
    obtain ⟨b, _, rfl⟩ := h
    simp [fileFl]

theorem phi_bound (b : Nat) (hb : b < 2) (i : Nat) (hi : i < 2) (p : ℤ × ℤ) (hp : p ∈ filePoints (fileFl i)) :
    |phi b p| ≤ 2 := by
  have h := filesOk_fl.inside i hi p hp
  have h1 : (p.1 : ℚ) ≤ 2 := by exact_mod_cast (show p.1 ≤ 2 from by have := h.2.1; simp [tiles] at this; omega)
  have h2 : (p.2 : ℚ) ≤ 5 := by exact_mod_cast (show p.2 ≤ 5 from by have := h.2.2.2; simp [tiles] at this; omega)
  have h3 : (0 : ℚ) ≤ p.1 := by exact_mod_cast h.1
  have h4 : (0 : ℚ) ≤ p.2 := by exact_mod_cast h.2.2.1
  unfold phi
  have hb' : b = 0 ∨ b = 1 := by omega
  rcases hb' with rfl | rfl <;> (rw [abs_le]; constructor <;> push_cast <;> linarith)

theorem cyc_bound (b i : Nat) : |(cyc b i : ℚ)| ≤ 3 := by
  unfold cyc
  split_ifs <;> norm_num

theorem near_fl : NearFields numpyArith (1 / 1000) 2 2 fileFl phi cyc := by
  intro b hb i hi p q h
  have hq : q ∈ filePoints (fileFl i) := List.mem_of_getElem? h
  have hphi := phi_bound b hb i hi q hq
  have hcyc := cyc_bound b i
  have hfp : filePhase (fileFl i) b p = flSingle (phi b q) + flSingle (twoPiSingle * cyc b i) := by
    simp only [filePoints, fileFl, List.getElem?_map, Option.map_eq_some_iff] at h
    obtain ⟨x, hx, rfl⟩ := h
    have hb' : b = 0 ∨ b = 1 := by omega
    rcases hb' with rfl | rfl <;> simp [filePhase, fileFl, hx]
  rw [hfp]
  show |flSingle _ - (phi b q + twoPi * cyc b i)| ≤ 1 / 1000
  have ht : |twoPiSingle * (cyc b i : ℚ)| ≤ 20 := by
    rw [abs_mul]
    calc |twoPiSingle| * |(cyc b i : ℚ)| ≤ |twoPiSingle| * 3 := mul_le_mul_of_nonneg_left hcyc (abs_nonneg _)
      _ ≤ 20 := by norm_num [twoPiSingle]
  have hd : |(twoPiSingle - twoPi) * (cyc b i : ℚ)| ≤ 1 / 1000000 := by
    rw [abs_mul]
    calc |twoPiSingle - twoPi| * |(cyc b i : ℚ)| ≤ |twoPiSingle - twoPi| * 3 := mul_le_mul_of_nonneg_left hcyc (abs_nonneg _)
      _ ≤ 1 / 1000000 := by norm_num [twoPiSingle, twoPi]
  have r1 := (rounds_single 30).1 (phi b q) (hphi.trans (by norm_num))
  have r2 := (rounds_single 30).1 (twoPiSingle * cyc b i) (ht.trans (by norm_num))
  have a1 := abs_le.mp r1
  have a2 := abs_le.mp r2
  have a3 := abs_le.mp hphi
  have a4 := abs_le.mp ht
  have a5 := abs_le.mp hd
  have r3 := (rounds_single 30).1 (flSingle (phi b q) + flSingle (twoPiSingle * cyc b i)) (by
    rw [abs_le]; constructor <;> linarith)
  have a6 := abs_le.mp r3
  rw [abs_le]
  constructor <;> linarith

theorem fan15 : ∀ u v, (u, v) ∈ (delaunayGraph 15 (fan 15)).links → u < 15 ∧ v < 15 := fun u v h => by
  have := (fan_contract 15).ordered u v h
  omega

theorem fan15_length : (delaunayGraph 15 (fan 15)).links.length ≤ 225 := by
  rw [← List.toFinset_card_of_nodup (fan_contract 15).distinct]
  have : (delaunayGraph 15 (fan 15)).links.toFinset ⊆ Finset.range 15 ×ˢ Finset.range 15 := by
    rintro ⟨u, v⟩ h
    simpa using fan15 u v (List.mem_toFinset.mp h)
  exact (Finset.card_le_card this).trans (by simp)

end Cut

/-- The hypotheses of C70 hold together: two float32 tiles with two interferograms, one tile 1 cycle below and 6 cycles below the
other, aligned by the default method. -/
example : ∃ (mip : MipSolver) (lstsq : Lstsq ℚ) (lin : LinSolver ℚ) (olap : OverlapFile) (bulk : BulkFile ℚ) (out : List (Nat × MergedBand ℚ)),
    phasediffDecilesFl numpyArith (flDouble (1 / 100)) (flDouble (1 / 100000)) id 11 cutLabels tiles
      (fun i => .ok (fileFl i)) = .ok (some olap) ∧
    bulkOffsetsFl flDouble mip lstsq "L2" tiles (⟨3, 6, fun _ _ => some 1⟩ : Band (Option ℚ)) (1 / 2) olap = .ok (some bulk) ∧
    mergeTilesFl numpyArith ⟨lin, fun pts => fan pts.length, olap⟩ {} tiles (fun i => .ok (fileFl i)) bulk 2
      (fun _ => false) = .ok (.merged out) ∧
    out.map Prod.fst = [0, 1] ∧ (∃ ref < 2, ∀ b m, (b, m) ∈ out → ∀ r q : Nat, r < 3 → q < 6 →
      (∃ v, m.out.val r q = some v ∧ |v - (phi b (r, q) + twoPi * cyc b ref)| ≤ 1 / 500) ∧
      ∃ v, m.model.val r q = some v ∧ |v - (phi b (r, q) + twoPi * cyc b ref)| ≤ 1 / 8) ∧
    ∀ b m, (b, m) ∈ out → ∀ r q : Nat, r < 3 → q < 6 →
      ∃ v mean, m.out.val r q = some v ∧ m.model.val r q = some mean ∧ |v - mean| ≤ 315 / 100 ∧
        ∃ k : ℤ, |v - (phi b (r, q) + k * twoPi)| ≤ 1 / 400 := by
  obtain ⟨mip, hopt, hcomp⟩ := exists_mip_solver
  obtain ⟨lin, hilu, hcg⟩ := exists_cg ℚ
  obtain ⟨lstsq, hls⟩ := exists_consistentLstsq 2 2 (1 / 200000 : ℚ) (2 ^ 29) (by norm_num) (by norm_num)
  have hpl : ∀ i, (filePoints (fileFl i)).length = 15 := by intro i; rw [filePoints_length]; rfl
  have hbig : BigOverlap tiles fileFl 11 0 1 := by
    have h : BigOverlap tiles file 11 0 1 := ⟨by decide +kernel, by decide +kernel⟩
    exact h
  have hgraphs : ∀ olap, TileGraphs ⟨lin, fun pts => fan pts.length, olap⟩ 2 fileFl (1 / 4) (1 / 1000) (2 ^ 30) := by
    intro olap
    refine ⟨fun i _ u v h => ?_, fun i _ => ?_, fun i _ p hp q hq => ?_, fun i _ a _ => ?_⟩
    · simp only [hpl] at h
      exact fan15 u v h
    · simp only [hpl]
      exact fan15_length.trans (by norm_num)
    · simp only [hpl]
      have hc := fan_connected (show 3 ≤ 15 by omega)
      exact (adjacent_symm (hc p hp)).trans (hc q hq)
    · intro mask b y h1 h2 h3 h4 k hk
      exact (hcg _ (1 / 4) mask b y h1 h2 h3 h4 k hk).trans (by norm_num)
  have hM1 : ∀ b < 2, ∀ i < tiles.tiles.length, ∀ pix ∈ filePoints (fileFl i), |phi b pix + numpyArith.tau * cyc b i| ≤ 1000 := by
    intro b hb i hi p hp
    have a1 := abs_le.mp (phi_bound b hb i hi p hp)
    have h3 : |twoPi * (cyc b i : ℚ)| ≤ 20 := by
      rw [abs_mul]
      calc |twoPi| * |(cyc b i : ℚ)| ≤ |twoPi| * 3 := mul_le_mul_of_nonneg_left (cyc_bound b i) (abs_nonneg _)
        _ ≤ 20 := by norm_num [twoPi]
    have a2 := abs_le.mp h3
    simp only [numpyArith]
    rw [abs_le]; constructor <;> linarith
  have hsm : ∀ b i, |cyc b i| ≤ 16383 := by
    intro b i
    unfold cyc
    split_ifs <;> simp
  have hk' : ∀ b < 2, ∀ i < tiles.tiles.length, ∀ j < tiles.tiles.length, |((cyc b j - cyc b i : ℤ) : ℚ)| ≤ 100 := by
    intro b _ i _ j _
    have h1 := abs_le.mp (cyc_bound b i)
    have h2 := abs_le.mp (cyc_bound b j)
    push_cast
    rw [abs_le]; constructor <;> linarith
  obtain ⟨olap, h1, bulk, h2, _, out, h3, h4, ref, h5, _, h6⟩ := C70_numpy (C := ℚ) 11 le_rfl cutLabels 2 (by omega) tiles (by decide)
    (by decide) (fun i => .ok (fileFl i)) fileFl filesOk_fl (by intro i _; show 2 ≤ 15; omega) (by
      intro p
      refine (List.length_filter_le _ _).trans ?_
      simp [tiles]) phi cyc near_fl (by
      intro b hb i hi p hp j hj
      have a1 := abs_le.mp (phi_bound b hb i hi p hp)
      have h3 : |twoPi * (cyc b j : ℚ)| ≤ 20 := by
        rw [abs_mul]
        calc |twoPi| * |(cyc b j : ℚ)| ≤ |twoPi| * 3 := mul_le_mul_of_nonneg_left (cyc_bound b j) (abs_nonneg _)
          _ ≤ 20 := by norm_num [twoPi]
      have a2 := abs_le.mp h3
      rw [abs_le]; constructor <;> linarith) (by
      intro b i j
      unfold cyc
      split_ifs <;> simp) (by
      intro b i
      unfold cyc
      split_ifs <;> simp) cut_labels (by
      intro t ht
      have : t < 2 := ht
      interval_cases t
      · exact .refl
      · exact .single (Or.inl hbig)) mip hopt hcomp lstsq {} (Or.inr rfl)
    (fun _ => hls) rfl lin hilu
    (fun pts => fan pts.length) hgraphs ⟨3, 6, fun _ _ => some 1⟩ (1 / 2) (fun _ => false)
  have hcov : ∀ r < 3, ∀ q < 6, ∃ i < tiles.tiles.length, (((r : ℕ) : ℤ), ((q : ℕ) : ℤ)) ∈ filePoints (fileFl i) := by
    have hcov : ∀ r < 3, ∀ q < 6, (((r : ℕ) : ℤ), ((q : ℕ) : ℤ)) ∈ filePoints (file 0) ∨
        (((r : ℕ) : ℤ), ((q : ℕ) : ℤ)) ∈ filePoints (file 1) := by
      decide +kernel
    intro r hr q hq
    rcases hcov r hr q hq with h | h
    · exact ⟨0, by decide, h⟩
    · exact ⟨1, by decide, h⟩
  refine ⟨mip, lstsq, lin, olap, bulk, out, h1, h2, h3, by rw [h4]; rfl,
    ⟨ref, h5, fun b m hb r q hr hq => (h6 b m hb r q).1 (hcov r hr q hq)⟩, fun b m hb r q hr hq => ?_⟩
  obtain ⟨hmed, hlab, _⟩ := C70_overlap numpyArith _ _ _ _ _ numpy_mixed _ _ _ _ _ numpy_check 11 cutLabels 2 tiles _ fileFl filesOk_fl
    phi cyc near_fl hM1 hk' hsm olap h1
  have hlab2 : olap.labels.length = tiles.tiles.length := by
    rw [hlab]
    unfold cutLabels
    split_ifs <;> rfl
  obtain ⟨hbm, hbo⟩ := bulkFl_shape (nifgs := 2) hopt (by decide) hlab2 (fun med hm => by
    rw [hmed, Except.ok.injEq] at hm
    subst hm
    intro row hr
    obtain ⟨e, _, rfl⟩ := List.mem_map.mp hr
    simp) h2
  have hb2 : b < 2 := by
    have : b ∈ out.map Prod.fst := List.mem_map.mpr ⟨_, hb, rfl⟩
    rw [h4] at this
    exact List.mem_range.mp (List.mem_of_mem_filter this)
  obtain ⟨i, hi, hp⟩ := hcov r hr q hq
  have a1 := abs_le.mp (phi_bound b hb2 i hi _ hp)
  have hcy : ∀ j, |twoPi * (cyc b j : ℚ)| ≤ 20 := by
    intro j
    rw [abs_mul]
    calc |twoPi| * |(cyc b j : ℚ)| ≤ |twoPi| * 3 := mul_le_mul_of_nonneg_left (cyc_bound b j) (abs_nonneg _)
      _ ≤ 20 := by norm_num [twoPi]
  obtain ⟨v, mean, c1, c2, c3, k, c4⟩ := C70_congruent numpyArith _ _ _ _ _ numpy_mixed (by norm_num) _ _ 30 (1 / 1000) (by
      norm_num [numpyArith, twoPiSingle]) 11 cutLabels 2 (by omega) tiles (by decide) (by decide) _ fileFl filesOk_fl
    ⟨lin, fun pts => fan pts.length, olap⟩ h1 hlab2 bulk hbo {} rfl hbm (fun _ => false) out h3 b m hb (phi b)
    r q (by
      intro i hi p hp
      have hn := near_fl b hb2 i hi p _ hp
      have h1 := abs_le.mp hn
      have h2 := abs_le.mp (hcy i)
      simp only [numpyArith] at h1 ⊢
      refine ⟨?_, cyc b i, ?_⟩
      · rw [abs_le]; constructor <;> linarith
      · rw [abs_le]; constructor <;> linarith) (by
      intro v hv
      obtain ⟨_, w, w1, w2⟩ := (h6 b m hb r q).1 (hcov r hr q hq)
      rw [w1, Option.some.injEq] at hv
      subst hv
      have h1 := abs_le.mp w2
      have h2 := abs_le.mp (hcy ref)
      rw [abs_le]; constructor <;> linarith) ⟨i, hi, hp⟩
  refine ⟨v, mean, c1, c2, c3.trans (by norm_num [numpyArith, twoPiSingle]), k, c4.trans (by norm_num)⟩

/-- `C70_exact_merge` on the tiles of `cut_example`. -/
example : ∃ (env : MergeEnv ℚ) (bulk : BulkFile ℚ) (out : List (Nat × MergedBand ℚ)),
    mergeTilesFl (exactArith 1) env { bulkMethod := "integer" } tiles (fun i => .ok (file i)) bulk 2 (fun _ => false) =
      .ok (.merged out) ∧ out.map Prod.fst = [0, 1] := by
  obtain ⟨env, bulk, out, h1, h2, _, h3, _⟩ := cut_example
  exact ⟨env, bulk, out, (C70_exact_merge 1 11 cutLabels 2 tiles _ file env bulk _ h1 _ _).mpr h2, h3⟩

/-- One tile: both rasters are written. -/
example (env : MergeEnv ℚ) (bulk : BulkFile ℚ) : ∃ B : Nat → Band (Option ℚ),
    mergeTilesFl numpyArith env {} ⟨(3, 5), [⟨0, 0, 3, 5⟩]⟩ (fun i => .ok (fileFl i)) bulk 2 (fun _ => false) =
      .ok (.single [(0, B 0), (1, B 1)]) ∧ ∃ v, (B 1).val 2 3 = some v := by
  obtain ⟨B, h1, h2⟩ := C70_single numpyArith env {} rfl 2 ⟨(3, 5), [⟨0, 0, 3, 5⟩]⟩ rfl (fun i => .ok (fileFl i)) fileFl
    ⟨fun _ _ => rfl, (by
      intro i b h
      have : i < 1 := (List.getElem?_eq_some_iff.mp h).1
      interval_cases i
      simp at h
      subst h
      rfl), (by intro i _; show pix.Nodup; decide +kernel), (by
      intro i hi
      have : i < 1 := hi
      interval_cases i
      decide +kernel), fun i hi => filesOk_fl.bands i (by simp [tiles] at hi ⊢; omega),
      fun i hi => filesOk_fl.rows i (by simp [tiles] at hi ⊢; omega)⟩ bulk (fun _ => false)
  exact ⟨B, h1, _, ((h2 1).2.2 2 3).1 13 rfl⟩

end Spurt
