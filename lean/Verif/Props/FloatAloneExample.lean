import Verif.Props.FloatAlone
import Verif.Props.FloatMergeNumpy
import Verif.Props.InteriorExample

/-!
# Sets of `float32` tile files that meet the hypotheses of C85 and C86 in mixed precision
-/

namespace Spurt
open Spec

namespace Cut

/-- The files of the two tiles for phases `g` and a choice of interferograms, rounded to single precision. -/
def pickFl (g : Nat → ℤ × ℤ → ℚ) (bs : List Nat) (i : Nat) : TileFile ℚ :=
  { uw := bs.map fun b => pix.map fun p => flSingle (g b (p.1, p.2 + i))
    points := pix
    tile := ⟨0, i, 3, 5 + i⟩
    phaseOffset := bs.map fun b => flSingle (twoPiSingle * cyc b i) }

theorem pickFl_filesOk (g : Nat → ℤ × ℤ → ℚ) (bs : List Nat) :
    TileFilesOk bs.length tiles (fun i => .ok (pickFl g bs i)) (pickFl g bs) where
  read := fun _ _ => rfl
  box := by
    intro i b h
    have : i < 2 := (List.getElem?_eq_some_iff.mp h).1
    interval_cases i <;> (simp [tiles] at h; subst h; rfl)
  once := by intro i _; show pix.Nodup; decide +kernel
  inside := by
    intro i hi p hp
    have hp' : p ∈ filePoints (file i) := hp
    exact cut_filesOk.inside i hi p hp'
  bands := by intro i _; simp [pickFl]
  rows := by
    intro i _ row h
    simp only [pickFl, List.mem_map] at h
    obtain ⟨b, _, rfl⟩ := h
    simp [pickFl]

theorem pickFl_phase (g : Nat → ℤ × ℤ → ℚ) {bs : List Nat} {b : Nat} (hb : b < bs.length) (i p : Nat) (hp : p < 15) :
    filePhase (pickFl g bs i) b p = flSingle (g (bs.getD b 0) ((pix.getD p (0, 0)).1, (pix.getD p (0, 0)).2 + i)) +
      flSingle (twoPiSingle * cyc (bs.getD b 0) i) := by
  have hp' : p < pix.length := hp
  simp [filePhase, pickFl, List.getD_eq_getElem?_getD, List.getElem?_map, List.getElem?_eq_getElem hb,
    List.getElem?_eq_getElem hp', hb]

/-- Phases of at most five radians on the image. -/
def Moderate (g : Nat → ℤ × ℤ → ℚ) : Prop :=
  ∀ b < 3, ∀ p : ℤ × ℤ, 0 ≤ p.1 → p.1 ≤ 2 → 0 ≤ p.2 → p.2 ≤ 5 → |g b p| ≤ 5

theorem pickFl_bound {g : Nat → ℤ × ℤ → ℚ} (hg : Moderate g) {bs : List Nat} (hbs : ∀ b ∈ bs, b < 3) (b : Nat) (i : Nat) (hi : i < 2)
    (p : ℤ × ℤ) (hp : p ∈ filePoints (pickFl g bs i)) : |g (bs.getD b 0) p| ≤ 5 := by
  have h := (pickFl_filesOk g bs).inside i hi p hp
  have h1 := h.2.1
  have h2 := h.2.2.2
  simp [tiles] at h1 h2
  refine hg _ ?_ p h.1 (by omega) h.2.2.1 (by omega)
  by_cases hb : b < bs.length
  · rw [List.getD_eq_getElem _ _ hb]
    exact hbs _ (List.getElem_mem hb)
  · rw [List.getD_eq_default _ _ (by omega)]
    omega

theorem pickFl_near {g : Nat → ℤ × ℤ → ℚ} (hg : Moderate g) {bs : List Nat} (hbs : ∀ b ∈ bs, b < 3) :
    NearFields numpyArith (1 / 1000) bs.length 2 (pickFl g bs) (fun b => g (bs.getD b 0)) (fun b => cyc (bs.getD b 0)) := by
  intro b hb i hi p q h
  have hq : q ∈ filePoints (pickFl g bs i) := List.mem_of_getElem? h
  have hphi := pickFl_bound hg hbs b i hi q hq
  have hcyc := cyc_bound (bs.getD b 0) i
  have hfp : filePhase (pickFl g bs i) b p = flSingle (g (bs.getD b 0) q) + flSingle (twoPiSingle * cyc (bs.getD b 0) i) := by
    have hp : p < 15 := by
      have := (List.getElem?_eq_some_iff.mp h).1
      simpa [filePoints, pickFl, pix] using this
    rw [pickFl_phase g hb i p hp]
    simp only [filePoints, pickFl, List.getElem?_map, Option.map_eq_some_iff] at h
    obtain ⟨x, hx, rfl⟩ := h
    simp only [List.getD_eq_getElem?_getD, hx]
    simp
  rw [hfp]
  simp only
  generalize bs.getD b 0 = b at hphi hcyc
  show |flSingle _ - (g b q + twoPi * cyc b i)| ≤ 1 / 1000
  have ht : |twoPiSingle * (cyc b i : ℚ)| ≤ 20 := by
    rw [abs_mul]
    calc |twoPiSingle| * |(cyc b i : ℚ)| ≤ |twoPiSingle| * 3 := mul_le_mul_of_nonneg_left hcyc (abs_nonneg _)
      _ ≤ 20 := by norm_num [twoPiSingle]
  have hd : |(twoPiSingle - twoPi) * (cyc b i : ℚ)| ≤ 1 / 1000000 := by
    rw [abs_mul]
    calc |twoPiSingle - twoPi| * |(cyc b i : ℚ)| ≤ |twoPiSingle - twoPi| * 3 := mul_le_mul_of_nonneg_left hcyc (abs_nonneg _)
      _ ≤ 1 / 1000000 := by norm_num [twoPiSingle, twoPi]
  have r1 := (rounds_single 30).1 (g b q) (hphi.trans (by norm_num))
  have r2 := (rounds_single 30).1 (twoPiSingle * cyc b i) (ht.trans (by norm_num))
  have a1 := abs_le.mp r1
  have a2 := abs_le.mp r2
  have a3 := abs_le.mp hphi
  have a4 := abs_le.mp ht
  have a5 := abs_le.mp hd
  have r3 := (rounds_single 30).1 (flSingle (g b q) + flSingle (twoPiSingle * cyc b i)) (by
    rw [abs_le]; constructor <;> linarith)
  have a6 := abs_le.mp r3
  rw [abs_le]
  constructor <;> linarith

/-- The three stages run in single precision. -/
theorem pickFl_run {mip : MipSolver} (hopt : MipOptimal mip) (hcomp : MipComplete mip) {lin : LinSolver ℚ} (hilu : ∀ a, lin.ilu a = true)
    (hcg : ∀ (a : SqMat ℚ) (Y : ℚ), CgWithin lin a Y 0) {g : Nat → ℤ × ℤ → ℚ} (hg : Moderate g) {bs : List Nat}
    (hbs : ∀ b ∈ bs, b < 3) (hne : 1 ≤ bs.length) :
    ∃ (olap : OverlapFile) (bulk : BulkFile ℚ) (out : List (Nat × MergedBand ℚ)),
      phasediffDecilesFl numpyArith (flDouble (1 / 100)) (flDouble (1 / 100000)) id 11 cutLabels tiles
        (fun i => .ok (pickFl g bs i)) = .ok (some olap) ∧
      bulkOffsetsFl numpyArith.fd mip (fun _ _ => []) "integer" tiles (⟨3, 6, fun _ _ => some 1⟩ : Band (Option ℚ)) (1 / 2) olap =
        .ok (some bulk) ∧
      mergeTilesFl numpyArith ⟨lin, fun pts => fan pts.length, olap⟩ { bulkMethod := "integer" } tiles (fun i => .ok (pickFl g bs i)) bulk
        bs.length (fun _ => false) = .ok (.merged out) ∧
      out.map Prod.fst = List.range bs.length ∧ olap.labels.length = 2 ∧ BulkOk bs.length 2 bulk ∧ bulk.method = "integer" ∧
      (∃ ref < 2, ∀ b m, (b, m) ∈ out → ∀ r q : Nat, r < 3 → q < 6 → ∃ v, m.out.val r q = some v ∧
        |v - (g (bs.getD b 0) (r, q) + twoPi * cyc (bs.getD b 0) ref)| ≤ 1 / 500) := by
  have hpl : ∀ i, (filePoints (pickFl g bs i)).length = 15 := by intro i; rw [filePoints_length]; rfl
  have hbig : BigOverlap tiles (pickFl g bs) 11 0 1 := by
    have h : BigOverlap tiles file 11 0 1 := ⟨by decide +kernel, by decide +kernel⟩
    exact h
  have hgraphs : ∀ olap, TileGraphs ⟨lin, fun pts => fan pts.length, olap⟩ 2 (pickFl g bs) (1 / 4) (1 / 1000) (2 ^ 30) := by
    intro olap
    refine ⟨fun i _ u v h => ?_, fun i _ => ?_, fun i _ p hp q hq => ?_, fun i _ a _ => ?_⟩
    · simp only [hpl] at h
      exact fan15 u v h
    · simp only [hpl]
      exact fan15_length.trans (by norm_num)
    · simp only [hpl]
      have hc := fan_connected (show 3 ≤ 15 by omega)
      exact (adjacent_symm (hc p hp)).trans (hc q hq)
    · intro mask b y h1 h2 h3 h4 k hk
      exact (hcg _ (1 / 4) mask b y h1 h2 h3 h4 k hk).trans (by norm_num)
  have hsm : ∀ b i, |cyc b i| ≤ 16383 := by
    intro b i
    unfold cyc
    split_ifs <;> simp
  have hk1 : ∀ b i j, |cyc b j - cyc b i| ≤ 100 := by
    intro b i j
    unfold cyc
    split_ifs <;> simp
  have hMj : ∀ b < bs.length, ∀ i < tiles.tiles.length, ∀ pix ∈ filePoints (pickFl g bs i), ∀ j < tiles.tiles.length,
      |g (bs.getD b 0) pix + twoPi * cyc (bs.getD b 0) j| ≤ 1000 := by
    intro b hb i hi p hp j hj
    have a1 := abs_le.mp (pickFl_bound hg hbs b i hi p hp)
    have h3 : |twoPi * (cyc (bs.getD b 0) j : ℚ)| ≤ 20 := by
      rw [abs_mul]
      calc |twoPi| * |(cyc (bs.getD b 0) j : ℚ)| ≤ |twoPi| * 3 := mul_le_mul_of_nonneg_left (cyc_bound _ j) (abs_nonneg _)
        _ ≤ 20 := by norm_num [twoPi]
    have a2 := abs_le.mp h3
    rw [abs_le]; constructor <;> linarith
  obtain ⟨olap, h1, bulk, h2, _, out, h3, h4, ref, h5, _, h6⟩ := C70_numpy (C := ℚ) 11 le_rfl cutLabels bs.length hne tiles (by decide)
    (by decide) (fun i => .ok (pickFl g bs i)) (pickFl g bs) (pickFl_filesOk g bs) (by intro i _; show 2 ≤ 15; omega) (by
      intro p
      refine (List.length_filter_le _ _).trans ?_
      simp [tiles]) _ _ (pickFl_near hg hbs) hMj (fun b i j => hk1 _ i j) (fun b i => hsm _ i) cut_labels (by
      intro t ht
      have : t < 2 := ht
      interval_cases t
      · exact .refl
      · exact .single (Or.inl hbig)) mip hopt hcomp (fun _ _ => []) { bulkMethod := "integer" } (Or.inl rfl)
    (fun h => by simp at h) rfl lin hilu
    (fun pts => fan pts.length) hgraphs ⟨3, 6, fun _ _ => some 1⟩ (1 / 2) (fun _ => false)
  obtain ⟨hmed, hlab, _⟩ := C70_overlap numpyArith _ _ _ _ _ numpy_mixed _ _ _ _ _ numpy_check 11 cutLabels bs.length tiles _
    (pickFl g bs) (pickFl_filesOk g bs) _ _ (pickFl_near hg hbs) (fun b hb i hi p hp => hMj b hb i hi p hp i hi) (by
      intro b _ i _ j _
      have := hk1 (bs.getD b 0) i j
      exact_mod_cast this) (fun b i => hsm _ i) olap h1
  have hlab2 : olap.labels.length = tiles.tiles.length := by
    rw [hlab]
    unfold cutLabels
    split_ifs <;> rfl
  obtain ⟨hbm, hbo⟩ := bulkFl_shape (nifgs := bs.length) hopt (by decide) hlab2 (fun med hm => by
    rw [hmed, Except.ok.injEq] at hm
    subst hm
    intro row hr
    obtain ⟨e, _, rfl⟩ := List.mem_map.mp hr
    simp) h2
  refine ⟨olap, bulk, out, h1, h2, h3, by rw [h4]; simp, hlab2, hbo, hbm, ref, h5, ?_⟩
  intro b m hb r q hr hq
  have hcov : ∀ r < 3, ∀ q < 6, (((r : ℕ) : ℤ), ((q : ℕ) : ℤ)) ∈ filePoints (file 0) ∨
      (((r : ℕ) : ℤ), ((q : ℕ) : ℤ)) ∈ filePoints (file 1) := by
    decide +kernel
  refine ((h6 b m hb r q).1 ?_).1
  rcases hcov r hr q hq with h | h
  · exact ⟨0, by decide, h⟩
  · exact ⟨1, by decide, h⟩

theorem phi_moderate : Moderate phi := by
  intro b hb p h1 h2 h3 h4
  have k1 : (0 : ℚ) ≤ p.1 := by exact_mod_cast h1
  have k2 : (p.1 : ℚ) ≤ 2 := by exact_mod_cast h2
  have k3 : (0 : ℚ) ≤ p.2 := by exact_mod_cast h3
  have k4 : (p.2 : ℚ) ≤ 5 := by exact_mod_cast h4
  unfold phi
  interval_cases b <;> (rw [abs_le]; constructor <;> push_cast <;> linarith)

theorem wrong_moderate : Moderate wrong := by
  intro b hb p h1 h2 h3 h4
  have k1 : (0 : ℚ) ≤ p.1 := by exact_mod_cast h1
  have k2 : (p.1 : ℚ) ≤ 2 := by exact_mod_cast h2
  have k3 : (0 : ℚ) ≤ p.2 := by exact_mod_cast h3
  have k4 : (p.2 : ℚ) ≤ 5 := by exact_mod_cast h4
  unfold wrong phi
  interval_cases b <;> (rw [abs_le]; constructor <;> (push_cast; split_ifs <;> linarith))

theorem pickFl_same (g : Nat → ℤ × ℤ → ℚ) {bs bs' : List Nat} {b b' : Nat} (hb : b < bs.length) (hb' : b' < bs'.length)
    (h : bs'.getD b' 0 = bs.getD b 0) (i : Nat) : SameBand (pickFl g bs i) (pickFl g bs' i) b b' := by
  refine ⟨rfl, ?_⟩
  intro p hp
  have hp' : p < 15 := hp
  rw [pickFl_phase g hb i p hp', pickFl_phase g hb' i p hp', h]

theorem pickFl_get {o : List (Nat × MergedBand ℚ)} {n k : Nat} (ho : o.map Prod.fst = List.range n) (hk : k < n) : ∃ x, (k, x) ∈ o := by
  have : k ∈ o.map Prod.fst := by rw [ho]; exact List.mem_range.mpr hk
  obtain ⟨⟨k', x⟩, hx, rfl⟩ := List.mem_map.mp this
  exact ⟨x, hx⟩

/-- Non-vacuity of C85 in mixed precision: the first interferogram of two `float32` files is the last one of another set of three. -/
example : ∃ (mip : MipSolver) (lin : LinSolver ℚ) (olap olap' : OverlapFile) (bulk bulk' : BulkFile ℚ)
    (out out' : List (Nat × MergedBand ℚ)) (m : MergedBand ℚ),
    phasediffDecilesFl numpyArith (flDouble (1 / 100)) (flDouble (1 / 100000)) id 11 cutLabels tiles
      (fun i => .ok (pickFl phi [0, 1] i)) = .ok (some olap) ∧
    phasediffDecilesFl numpyArith (flDouble (1 / 100)) (flDouble (1 / 100000)) id 11 cutLabels tiles
      (fun i => .ok (pickFl phi [2, 1, 0] i)) = .ok (some olap') ∧
    bulkOffsetsFl numpyArith.fd mip (fun _ _ => []) "integer" tiles (⟨3, 6, fun _ _ => some 1⟩ : Band (Option ℚ)) (1 / 2) olap =
      .ok (some bulk) ∧
    bulkOffsetsFl numpyArith.fd mip (fun _ _ => []) "integer" tiles (⟨3, 6, fun _ _ => some 1⟩ : Band (Option ℚ)) (1 / 2) olap' =
      .ok (some bulk') ∧
    mergeTilesFl numpyArith ⟨lin, fun pts => fan pts.length, olap⟩ { bulkMethod := "integer" } tiles (fun i => .ok (pickFl phi [0, 1] i)) bulk
      2 (fun _ => false) = .ok (.merged out) ∧
    mergeTilesFl numpyArith ⟨lin, fun pts => fan pts.length, olap'⟩ { bulkMethod := "integer" } tiles (fun i => .ok (pickFl phi [2, 1, 0] i)) bulk'
      3 (fun _ => false) = .ok (.merged out') ∧
    (∀ i < 2, SameBand (pickFl phi [0, 1] i) (pickFl phi [2, 1, 0] i) 0 2) ∧ (0, m) ∈ out ∧ (2, m) ∈ out' ∧
    ∃ v, m.out.val 2 4 = some v := by
  obtain ⟨mip, hopt, hcomp⟩ := exists_mip_solver
  obtain ⟨lin, hilu, hcg⟩ := exists_cg ℚ
  obtain ⟨olap, bulk, out, a1, a2, a3, a4, a5, a6, a7, ref, a8, a9⟩ := pickFl_run hopt hcomp hilu hcg phi_moderate (bs := [0, 1])
    (by decide) (by simp)
  obtain ⟨olap', bulk', out', b1, b2, b3, b4, b5, b6, b7, _⟩ := pickFl_run hopt hcomp hilu hcg phi_moderate (bs := [2, 1, 0])
    (by decide) (by simp)
  obtain ⟨m, hm⟩ := pickFl_get a4 (show 0 < 2 by omega)
  obtain ⟨m', hm'⟩ := pickFl_get b4 (show 2 < 3 by omega)
  have hs : ∀ i < 2, SameBand (pickFl phi [0, 1] i) (pickFl phi [2, 1, 0] i) 0 2 := fun i _ => pickFl_same phi (bs := [0, 1]) (bs' := [2, 1, 0]) (by decide) (by decide) rfl i
  obtain ⟨row, res, r1, r2, _⟩ := C85_bulk_float numpyArith _ _ 11 cutLabels 2 3 tiles (by decide) _ _ _ _ olap olap'
    (pickFl_filesOk phi [0, 1]) (pickFl_filesOk phi [2, 1, 0]) a1 b1 0 2 (by omega) (by omega) hs mip _ _ _ bulk bulk' a2 b2
  have heq := C85_merge_float numpyArith _ _ 11 cutLabels 2 3 (by omega) (by omega) tiles (by decide) (by decide) _ _ _ _
    (pickFl_filesOk phi [0, 1]) (pickFl_filesOk phi [2, 1, 0]) ⟨lin, fun pts => fan pts.length, olap⟩ ⟨lin, fun pts => fan pts.length, olap'⟩
    rfl rfl a1 b1 a5 bulk bulk' a6 b6 _ _ rfl rfl a7 b7 0 2 hs (by
      rw [List.getD_eq_getElem?_getD, List.getD_eq_getElem?_getD, r1, r2]) _ _ out out' a3 b3 m m' hm hm'
  subst heq
  obtain ⟨v, hv, _⟩ := a9 0 m' hm 2 4 (by omega) (by omega)
  exact ⟨mip, lin, olap, olap', bulk, bulk', out, out', m', a1, b1, a2, b2, a3, b3, hs, hm, hm', v, hv⟩

theorem wrongFl_shared (b : Nat) (hb : b < 2) : SameShared 2 (pickFl phi [0, 1]) (pickFl wrong [0, 1]) b := by
  refine ⟨fun i _ => rfl, ?_⟩
  intro i hi j hj hij p hpi hpj
  have hcol : 1 ≤ p.2 := by
    have h1 : ∀ k < 2, k = 1 → p ∈ filePoints (pickFl phi [0, 1] k) → 1 ≤ p.2 := by
      rintro k _ rfl hp
      simp only [filePoints, pickFl, List.mem_map] at hp
      obtain ⟨x, hx, rfl⟩ := hp
      have : ∀ x ∈ pix, (0 : ℤ) ≤ x.2 := by decide
      have := this x hx
      simp only
      omega
    rcases (show i = 1 ∨ j = 1 by omega) with h | h
    · exact h1 i hi h hpi
    · exact h1 j hj h hpj
  have hl := List.idxOf_lt_length_iff.mpr hpi
  have h15 : (filePoints (pickFl phi [0, 1] i)).idxOf p < 15 := hl
  have hw : filePoints (pickFl wrong [0, 1] i) = filePoints (pickFl phi [0, 1] i) := rfl
  unfold phaseAtPixel
  rw [hw, pickFl_phase wrong (bs := [0, 1]) hb i _ h15, pickFl_phase phi (bs := [0, 1]) hb i _ h15]
  have hpt : ∀ k, ∀ hk : k < (filePoints (pickFl phi [0, 1] i)).length,
      ((filePoints (pickFl phi [0, 1] i))[k]'hk).2 = (pix.getD k (0, 0)).2 + i := by
    intro k hk
    have hl' : k < pix.length := hk
    rw [List.getD_eq_getElem _ _ hl']
    simp only [filePoints, pickFl, List.getElem_map]
  have hpt := hpt _ hl
  rw [List.getElem_idxOf hl] at hpt
  rw [← hpt]
  unfold wrong
  rw [if_neg (by show ¬ p.2 = 0; omega), add_zero]

/-- Non-vacuity of C86 in mixed precision: two `float32` sets whose merges agree outside the first column and differ in it. -/
example : ∃ (mip : MipSolver) (lin : LinSolver ℚ) (olap : OverlapFile) (bulk : BulkFile ℚ)
    (out out' : List (Nat × MergedBand ℚ)) (m m' : MergedBand ℚ),
    (∀ b < 2, SameShared 2 (pickFl phi [0, 1]) (pickFl wrong [0, 1]) b) ∧
    phasediffDecilesFl numpyArith (flDouble (1 / 100)) (flDouble (1 / 100000)) id 11 cutLabels tiles
      (fun i => .ok (pickFl phi [0, 1] i)) = .ok (some olap) ∧
    phasediffDecilesFl numpyArith (flDouble (1 / 100)) (flDouble (1 / 100000)) id 11 cutLabels tiles
      (fun i => .ok (pickFl wrong [0, 1] i)) = .ok (some olap) ∧
    bulkOffsetsFl numpyArith.fd mip (fun _ _ => []) "integer" tiles (⟨3, 6, fun _ _ => some 1⟩ : Band (Option ℚ)) (1 / 2) olap =
      .ok (some bulk) ∧
    mergeTilesFl numpyArith ⟨lin, fun pts => fan pts.length, olap⟩ { bulkMethod := "integer" } tiles (fun i => .ok (pickFl phi [0, 1] i)) bulk
      2 (fun _ => false) = .ok (.merged out) ∧
    mergeTilesFl numpyArith ⟨lin, fun pts => fan pts.length, olap⟩ { bulkMethod := "integer" } tiles (fun i => .ok (pickFl wrong [0, 1] i)) bulk
      2 (fun _ => false) = .ok (.merged out') ∧ (1, m) ∈ out ∧ (1, m') ∈ out' ∧ m'.out.val 1 3 = m.out.val 1 3 := by
  obtain ⟨mip, hopt, hcomp⟩ := exists_mip_solver
  obtain ⟨lin, hilu, hcg⟩ := exists_cg ℚ
  obtain ⟨olap, bulk, out, a1, a2, a3, a4, a5, a6, a7, _⟩ := pickFl_run hopt hcomp hilu hcg phi_moderate (bs := [0, 1])
    (by decide) (by simp)
  obtain ⟨olap', bulk', out', b1, b2, b3, b4, b5, b6, b7, _⟩ := pickFl_run hopt hcomp hilu hcg wrong_moderate (bs := [0, 1])
    (by decide) (by simp)
  obtain ⟨m, hm⟩ := pickFl_get a4 (show 1 < 2 by omega)
  obtain ⟨m', hm'⟩ := pickFl_get b4 (show 1 < 2 by omega)
  obtain ⟨e1, e2, e3⟩ := C86_merge_float numpyArith _ _ 11 cutLabels 2 (by omega) tiles (by decide) (by decide) _ _ _ _
    (pickFl_filesOk phi [0, 1]) (pickFl_filesOk wrong [0, 1]) wrongFl_shared ⟨lin, fun pts => fan pts.length, olap⟩
    ⟨lin, fun pts => fan pts.length, olap'⟩ rfl rfl a1 b1 a5 mip _ _ _ "integer" bulk bulk' a2 b2 a6 _ _ rfl rfl a7 a7 _ _ out out' a3 b3
    1 (by omega) m m' hm hm'
  simp only at e1
  subst e1 e2
  refine ⟨mip, lin, olap', bulk', out, out', m, m', wrongFl_shared, a1, b1, a2, a3, b3, hm, hm', (e3 1 3 ?_).1⟩
  intro i hi hp
  have hi : i < 2 := hi
  exact (wrongFl_shared 1 (by omega)).phase i hi (1 - i) (by omega) (by omega) _ hp (by
    interval_cases i
    · show _ ∈ filePoints (file 1)
      decide +kernel
    · show _ ∈ filePoints (file 0)
      decide +kernel)

end Cut

end Spurt
