import Verif.Props.BandAlone
import Verif.Props.EndToEndExample

/-!
# Two sets of tile files that meet the hypotheses of C85
-/

namespace Spurt
open Spec

namespace Cut

/-- The files of the two tiles for phases `g` and a choice of interferograms. -/
def pick (g : Nat → ℤ × ℤ → ℚ) (bs : List Nat) (i : Nat) : TileFile ℚ :=
  { uw := bs.map fun b => pix.map fun p => g b (p.1, p.2 + i) + cyc b i - 1 / 3
    points := pix
    tile := ⟨0, i, 3, 5 + i⟩
    phaseOffset := bs.map fun _ => 1 / 3 }

theorem pick_filesOk (g : Nat → ℤ × ℤ → ℚ) (bs : List Nat) : TileFilesOk bs.length tiles (fun i => .ok (pick g bs i)) (pick g bs) where
  read := fun _ _ => rfl
  box := by
    intro i b h
    have : i < 2 := (List.getElem?_eq_some_iff.mp h).1
    interval_cases i <;> (simp [tiles] at h; subst h; rfl)
  once := by intro i _; show pix.Nodup; decide +kernel
  inside := by
    intro i hi p hp
    have : i < 2 := hi
    have hp' : p ∈ filePoints (file i) := hp
    exact cut_filesOk.inside i hi p hp'
  bands := by intro i _; simp [pick]
  rows := by
    intro i _ row h
    simp only [pick, List.mem_map] at h
    obtain ⟨b, _, rfl⟩ := h
    simp [pick]

theorem pick_phase (g : Nat → ℤ × ℤ → ℚ) {bs : List Nat} {b : Nat} (hb : b < bs.length) (i p : Nat) (hp : p < 15) :
    filePhase (pick g bs i) b p = g (bs.getD b 0) ((pix.getD p (0, 0)).1, (pix.getD p (0, 0)).2 + i) + cyc (bs.getD b 0) i := by
  have hp' : p < pix.length := hp
  simp [filePhase, pick, List.getD_eq_getElem?_getD, List.getElem?_map, List.getElem?_eq_getElem hb,
    List.getElem?_eq_getElem hp', hb]

theorem pick_fields (g : Nat → ℤ × ℤ → ℚ) (bs : List Nat) : CutFields 1 bs.length 2 (pick g bs) (fun b => g (bs.getD b 0)) (fun b => cyc (bs.getD b 0)) := by
  intro b hb i hi p q h
  have hp : p < 15 := by
    have := (List.getElem?_eq_some_iff.mp h).1
    simpa [filePoints, pick, pix] using this
  rw [pick_phase g hb i p hp]
  have hp' : p < pix.length := hp
  simp only [filePoints, pick, List.getElem?_map, Option.map_eq_some_iff] at h
  obtain ⟨x, hx, rfl⟩ := h
  simp only [List.getD_eq_getElem?_getD, hx]
  simp

/-- The interferogram `bs[b]` of one choice is interferogram `bs'[b']` of another. -/
theorem pick_same (g : Nat → ℤ × ℤ → ℚ) {bs bs' : List Nat} {b b' : Nat} (hb : b < bs.length) (hb' : b' < bs'.length)
    (h : bs'.getD b' 0 = bs.getD b 0) (i : Nat) : SameBand (pick g bs i) (pick g bs' i) b b' := by
  refine ⟨rfl, ?_⟩
  intro p hp
  have hp' : p < 15 := hp
  rw [pick_phase g hb i p hp', pick_phase g hb' i p hp', h]

theorem pick_small (bs : List Nat) (b i : Nat) : |cyc (bs.getD b 0) i| ≤ 16383 := by
  unfold cyc
  split_ifs <;> simp

/-- The three stages run for all phases and every choice of interferograms. -/
theorem pick_run {mip : MipSolver} (hopt : MipOptimal mip) (hcomp : MipComplete mip) (g : Nat → ℤ × ℤ → ℚ) (bs : List Nat) (hne : 1 ≤ bs.length) :
    ∃ (olap : OverlapFile) (bulk : BulkFile ℚ) (out : List (Nat × MergedBand ℚ)),
      MergeInput 1 11 cutLabels bs.length tiles (fun i => .ok (pick g bs i)) (pick g bs) olap bulk { bulkMethod := "integer" } ∧
      bulkOffsets mip (fun _ _ => []) "integer" tiles (⟨3, 6, fun _ _ => some 1⟩ : Band (Option ℚ)) (1 / 2) olap = .ok (some bulk) ∧
      mergeTiles 1 ⟨⟨fun _ => true, fun _ b => b⟩, (fun _ => [(0, 1, 14)]), olap⟩ { bulkMethod := "integer" } tiles
        (fun i => .ok (pick g bs i)) bulk bs.length (fun _ => false) = .ok (.merged out) ∧
      out.map Prod.fst = List.range bs.length := by
  have hlinks : linksOfTriangles [(0, 1, 14)] = [(0, 1), (0, 14), (1, 14)] := by
    refine lexSorted_ext (linksOfTriangles_sorted _) (by simp [LexLt]) ?_
    intro x
    rw [mem_linksOfTriangles]
    simp [orderPoints]
  have hbig : BigOverlap tiles (pick g bs) 11 0 1 := by
    have : BigOverlap tiles file 11 0 1 := ⟨by decide +kernel, by decide +kernel⟩
    exact this
  obtain ⟨olap, h1, h2, h3, bulk, h4, out, h5⟩ := C57_returns (C := ℚ) 1 one_pos 11 le_rfl cutLabels bs.length hne tiles
    (by decide) (by decide) (fun i => .ok (pick g bs i)) (pick g bs) (pick_filesOk g bs) (by intro i _; simp [pick, pix]) _ _ (pick_fields g bs)
    (pick_small bs)
    cut_labels (by
      intro t ht
      have : t < 2 := ht
      interval_cases t
      · exact .refl
      · exact .single (Or.inl hbig))
    mip hopt hcomp (fun _ _ => []) { bulkMethod := "integer" } (by simp) (Or.inl rfl) rfl
    ⟨fun _ => true, fun _ b => b⟩ (fun _ => rfl) (fun _ => [(0, 1, 14)]) (by
      intro i _ u v h
      simp only [delaunayGraph, hlinks] at h
      simp only [pick, pix, List.length_cons, List.length_nil]
      simp at h
      omega) (by
      intro i _
      refine ⟨1, ?_⟩
      simp [delaunayGraph, hlinks, Adjacent, pick, pix]) ⟨3, 6, fun _ _ => some 1⟩ (1 / 2) (fun _ => false)
  obtain ⟨_, k2, _⟩ := C57_end_to_end (C := ℚ) 1 one_pos 11 cutLabels bs.length hne tiles (by decide) (by decide)
    (fun i => .ok (pick g bs i)) (pick g bs) (pick_filesOk g bs) _ _ (pick_fields g bs) (pick_small bs)
    ⟨⟨fun _ => true, fun _ b => b⟩, (fun _ => [(0, 1, 14)]), olap⟩ h1 h2 h3 mip hopt (fun _ _ => []) { bulkMethod := "integer" }
    (by simp) _ _ bulk h4 rfl (fun _ => false) out h5
  have hlt : ∀ e ∈ olap.overlaps, e.1 < e.2 ∧ e.2 < tiles.tiles.length := by
    rintro ⟨i, j⟩ he
    obtain ⟨hsub, _, _, _⟩ := C53_recorded (1 : ℚ) 11 cutLabels tiles _ olap h1
    obtain ⟨g1, a, b, g2, g3, _⟩ := ((C25_overlaps tiles).1 i j).mp (hsub.subset he)
    exact ⟨g1, (List.getElem?_eq_some_iff.mp g3).1⟩
  obtain ⟨b1, b2, b3, _⟩ := cut_offsets hopt (by decide) hlt h2 h3 (pick_small bs)
    (cut_medians one_ne_zero (pick_filesOk g bs) h1 (pick_fields g bs) (pick_small bs)) (by simp) h4
  exact ⟨olap, bulk, out, ⟨by decide, by decide, hne, pick_filesOk g bs, h1, h2.length, b2, rfl, b1⟩, h4, h5, by rw [k2]; simp⟩

/-- Non-vacuity of C85: the first interferogram of two is the last one of another set of three. -/
example : ∃ (mip : MipSolver) (env env' : MergeEnv ℚ) (bulk bulk' : BulkFile ℚ) (out out' : List (Nat × MergedBand ℚ))
    (m m' : MergedBand ℚ), env'.lin = env.lin ∧ env'.simplices = env.simplices ∧
    MergeInput 1 11 cutLabels 2 tiles (fun i => .ok (pick phi [0, 1] i)) (pick phi [0, 1]) env.overlap bulk { bulkMethod := "integer" } ∧
    MergeInput 1 11 cutLabels 3 tiles (fun i => .ok (pick phi [5, 1, 0] i)) (pick phi [5, 1, 0]) env'.overlap bulk' { bulkMethod := "integer" } ∧
    bulkOffsets mip (fun _ _ => []) "integer" tiles (⟨3, 6, fun _ _ => some 1⟩ : Band (Option ℚ)) (1 / 2) env.overlap = .ok (some bulk) ∧
    bulkOffsets mip (fun _ _ => []) "integer" tiles (⟨3, 6, fun _ _ => some 1⟩ : Band (Option ℚ)) (1 / 2) env'.overlap = .ok (some bulk') ∧
    mergeTiles 1 env { bulkMethod := "integer" } tiles (fun i => .ok (pick phi [0, 1] i)) bulk 2 (fun _ => false) = .ok (.merged out) ∧
    mergeTiles 1 env' { bulkMethod := "integer" } tiles (fun i => .ok (pick phi [5, 1, 0] i)) bulk' 3 (fun _ => false) = .ok (.merged out') ∧
    (0, m) ∈ out ∧ (2, m') ∈ out' ∧ (∀ i < 2, SameBand (pick phi [0, 1] i) (pick phi [5, 1, 0] i) 0 2) ∧ m' = m := by
  obtain ⟨mip, hopt, hcomp⟩ := exists_mip_solver
  obtain ⟨olap, bulk, out, a1, a2, a3, a4⟩ := pick_run hopt hcomp phi [0, 1] (by simp)
  obtain ⟨olap', bulk', out', b1, b2, b3, b4⟩ := pick_run hopt hcomp phi [5, 1, 0] (by simp)
  have hget : ∀ (o : List (Nat × MergedBand ℚ)) (n k : Nat), o.map Prod.fst = List.range n → k < n → ∃ x, (k, x) ∈ o := by
    intro o n k ho hk
    have : k ∈ o.map Prod.fst := by rw [ho]; exact List.mem_range.mpr hk
    obtain ⟨⟨k', x⟩, hx, rfl⟩ := List.mem_map.mp this
    exact ⟨x, hx⟩
  obtain ⟨m, hm⟩ := hget out 2 0 a4 (by omega)
  obtain ⟨m', hm'⟩ := hget out' 3 2 b4 (by omega)
  have hs : ∀ i < 2, SameBand (pick phi [0, 1] i) (pick phi [5, 1, 0] i) 0 2 := fun i _ => pick_same phi (bs := [0, 1]) (bs' := [5, 1, 0]) (by decide) (by decide) rfl i
  exact ⟨mip, ⟨⟨fun _ => true, fun _ b => b⟩, fun _ => [(0, 1, 14)], olap⟩, ⟨⟨fun _ => true, fun _ b => b⟩, fun _ => [(0, 1, 14)], olap'⟩, bulk, bulk', out, out', m, m', rfl, rfl, a1, b1, a2, b2, a3, b3, hm, hm', hs,
    C85_merging 1 11 cutLabels 2 3 tiles _ _ _ _
      ⟨⟨fun _ => true, fun _ b => b⟩, fun _ => [(0, 1, 14)], olap⟩ ⟨⟨fun _ => true, fun _ b => b⟩, fun _ => [(0, 1, 14)], olap'⟩ rfl rfl bulk bulk' _ _ a1 b1 mip _ _ _ "integer" (Or.inl rfl) a2 b2 _ _ out out'
      a3 b3 0 2 hs m m' hm hm'⟩

end Cut

end Spurt
