import Verif.Props.Robust
import Verif.Props.EndToEndExample
import Verif.Lemmas.Completes

/-!
# Tiles with local errors: C64 is not vacuous
-/

namespace Spurt
open Spec Cut

namespace Cut

/-- The files of the two tiles; the second tile is wrong by seven cycles in its first row. -/
def bumpy (i : Nat) : TileFile ℚ :=
  { uw := [0, 1].map fun b => pix.map fun p => phi b (p.1, p.2 + i) + cyc b i - 1 / 3 + if i = 1 ∧ p.1 = 0 then 7 else 0
    points := pix
    tile := ⟨0, i, 3, 5 + i⟩
    phaseOffset := [1 / 3, 1 / 3] }

theorem bumpy_filesOk : TileFilesOk 2 tiles (fun i => .ok (bumpy i)) bumpy where
  read := fun _ _ => rfl
  box := by
    intro i b h
    have : i < 2 := (List.getElem?_eq_some_iff.mp h).1
    interval_cases i <;> (simp [tiles] at h; subst h; rfl)
  once := by intro i _; show pix.Nodup; decide +kernel
  inside := by
    intro i hi
    have : i < 2 := hi
    interval_cases i <;> decide +kernel
  bands := by intro i _; simp [bumpy]
  rows := by
    intro i _ row h
    simp only [bumpy, List.mem_map] at h
    obtain ⟨b, _, rfl⟩ := h
    simp [bumpy]

theorem bumpy_phase {b i p : Nat} (hb : b < 2) {q : ℤ × ℤ} (h : (filePoints (bumpy i))[p]? = some q) :
    filePhase (bumpy i) b p = phi b q + cyc b i + if i = 1 ∧ q.1 = 0 then 7 else 0 := by
  simp only [filePoints, bumpy, List.getElem?_map, Option.map_eq_some_iff] at h
  obtain ⟨x, hx, rfl⟩ := h
  have hb' : b = 0 ∨ b = 1 := by omega
  rcases hb' with rfl | rfl <;> simp [filePhase, bumpy, hx] <;> ring

end Cut

/-- Non-vacuity of C64: two tiles, 12 common pixels, 4 of them wrong by seven cycles in the second tile.
The bulk offsets are not affected. -/
example : ∃ (olap : OverlapFile) (bulk : BulkFile ℚ) (mip : MipSolver), MipOptimal mip ∧
    phasediffDeciles id 1 11 cutLabels tiles (fun i => .ok (bumpy i)) = .ok (some olap) ∧
    bulkOffsets mip (fun _ _ => []) "integer" tiles ⟨3, 6, fun _ _ => some (1 : ℚ)⟩ (1 / 2) olap = .ok (some bulk) ∧
    (∀ b < 2, MostlyDiffer 1 (bumpy 0) (bumpy 1) b (cyc b 1 - cyc b 0)) ∧
    (∀ b < 2, DiffersBy 1 (bumpy 0) (bumpy 1) b (cyc b 1 - cyc b 0 + 7) (0, 1)) ∧
    ∀ b < 2, (bulk.offsets.getD b []).getD 1 0 - (bulk.offsets.getD b []).getD 0 0 = ((cyc b 1 - cyc b 0 : ℤ) : ℚ) := by
  obtain ⟨mip, hopt, hcomp⟩ := exists_mip_solver
  have hbig : BigOverlap tiles bumpy 11 0 1 := ⟨by decide +kernel, by decide +kernel⟩
  have hget : ∀ (t : Nat) b, tiles.tiles[t]? = some b → t < 2 ∧ (bumpy t).tile = b := by
    intro t b hb
    have : t < 2 := (List.getElem?_eq_some_iff.mp hb).1
    exact ⟨this, bumpy_filesOk.box t b hb⟩
  have hdiff : ∀ b < 2, ∀ q ∈ filePoints (bumpy 0), q ∈ filePoints (bumpy 1) →
      DiffersBy 1 (bumpy 0) (bumpy 1) b (cyc b 1 - cyc b 0 + if q.1 = 0 then 7 else 0) q := by
    intro b hb q h0 h1
    obtain ⟨n, hn, e0⟩ := List.mem_iff_getElem.mp h0
    obtain ⟨m, hm, e1⟩ := List.mem_iff_getElem.mp h1
    have g0 : (filePoints (bumpy 0))[n]? = some q := by rw [List.getElem?_eq_getElem hn, e0]
    have g1 : (filePoints (bumpy 1))[m]? = some q := by rw [List.getElem?_eq_getElem hm, e1]
    refine ⟨n, m, g0, g1, ?_⟩
    rw [bumpy_phase hb g0, bumpy_phase hb g1]
    push_cast
    split_ifs <;> simp_all <;> ring
  have hmaj : ∀ b < 2, MostlyDiffer 1 (bumpy 0) (bumpy 1) b (cyc b 1 - cyc b 0) := by
    intro b hb
    have e1 : {p | p ∈ filePoints (bumpy 0) ∧ p ∈ filePoints (bumpy 1)} =
        ↑((filePoints (bumpy 0)).toFinset ∩ (filePoints (bumpy 1)).toFinset) := by ext p; simp
    have c1 : ((filePoints (bumpy 0)).toFinset ∩ (filePoints (bumpy 1)).toFinset).card = 12 := by decide +kernel
    have c2 : (((filePoints (bumpy 0)).toFinset ∩ (filePoints (bumpy 1)).toFinset).filter fun q => q.1 ≠ 0).card = 8 := by decide +kernel
    unfold MostlyDiffer
    rw [e1, Set.ncard_coe_finset, c1]
    have hle := Set.ncard_le_ncard (s := ↑(((filePoints (bumpy 0)).toFinset ∩ (filePoints (bumpy 1)).toFinset).filter fun q => q.1 ≠ 0))
      (t := {p | DiffersBy 1 (bumpy 0) (bumpy 1) b (cyc b 1 - cyc b 0) p}) (by
        intro q hq
        simp only [Finset.coe_filter, Finset.mem_inter, List.mem_toFinset, Set.mem_setOf_eq] at hq
        have := hdiff b hb q hq.1.1 hq.1.2
        rw [if_neg hq.2, add_zero] at this
        exact this) (by
        refine (filePoints (bumpy 0)).toFinset.finite_toSet.subset ?_
        rintro q ⟨n, _, h, _⟩
        simpa using List.mem_of_getElem? h)
    rw [Set.ncard_coe_finset, c2] at hle
    omega
  have hfile : ∀ (t : Nat) b, tiles.tiles[t]? = some b → imagePoints (bumpy t) b = filePoints (bumpy t) := by
    intro t b hb
    rw [filePoints_box (hget t b hb).2]
  obtain ⟨olap, hover⟩ := C53_returns (1 : ℚ) 11 le_rfl cutLabels tiles (fun i => .ok (bumpy i)) (by decide) 2 (by
      intro t b hb
      refine ⟨_, rfl, ?_, ?_, by simp [imagePhase, bumpy]⟩ <;> rw [hfile t b hb]
      · simp [filePoints, bumpy, pix]
      · intro q hq
        have := bumpy_filesOk.inside t (hget t b hb).1 q hq
        exact ⟨this.1, this.2.2.1⟩) (by
      intro t t' b b' f f' htt hb hb' e e' i hi n n' p hn hn'
      simp only [Except.ok.injEq] at e e'
      subst e e'
      have h2 := (hget t' b' hb').1
      have : t = 0 := by omega
      have : t' = 1 := by omega
      subst t t'
      rw [hfile _ _ hb] at hn
      rw [hfile _ _ hb'] at hn'
      have hpl : ∀ (t n : Nat) q, (filePoints (bumpy t))[n]? = some q → phaseAt (bumpy t) i n = filePhase (bumpy t) i n := by
        intro t n q hq
        have hpl := (List.getElem?_eq_some_iff.mp hq).1
        rw [filePoints_length] at hpl
        unfold phaseAt
        refine imagePhase_getD (by simpa [bumpy] using hi) (by simpa [bumpy] using hi) ?_
        have hi' : i = 0 ∨ i = 1 := by omega
        rcases hi' with rfl | rfl <;> simpa [bumpy] using hpl
      rw [hpl 0 n p hn, hpl 1 n' p hn', bumpy_phase hi hn, bumpy_phase hi hn']
      refine ⟨cyc i 1 - cyc i 0 + if p.1 = 0 then 7 else 0, ?_⟩
      have hi' : i = 0 ∨ i = 1 := by omega
      rcases hi' with rfl | rfl <;> by_cases hp : p.1 = 0 <;> simp [NearCycles, cyc, hp] <;> ring_nf <;> norm_num)
  have hin : (0, 1) ∈ olap.overlaps := by
    obtain ⟨_, _, _, hrec⟩ := C53_recorded (1 : ℚ) 11 cutLabels tiles _ olap hover
    obtain ⟨bi, bj, fi, fj, a1, a2, a3, a4, a5, _⟩ := hrec 0 1 hbig.1
    simp only [Except.ok.injEq] at a3 a4
    subst a3 a4
    rw [a5, hfile 0 bi a1, hfile 1 bj a2]
    exact hbig.2
  have hsub : ∀ i j, (i, j) ∈ olap.overlaps → i = 0 ∧ j = 1 := by
    intro i j h
    obtain ⟨hs, _⟩ := C53_recorded (1 : ℚ) 11 cutLabels tiles _ olap hover
    obtain ⟨g1, a, b, g2, g3, _⟩ := ((C25_overlaps tiles).1 i j).mp (hs.subset h)
    have : j < 2 := (List.getElem?_eq_some_iff.mp g3).1
    omega
  have hlab : ComponentLabels tiles.tiles.length olap.overlaps olap.labels := by
    obtain ⟨_, _, hl, _⟩ := C53_recorded (1 : ℚ) 11 cutLabels tiles _ olap hover
    rw [hl]
    exact cut_labels _ (by
      rintro ⟨i, j⟩ he
      obtain ⟨rfl, rfl⟩ := hsub i j he
      decide)
  obtain ⟨bulk, hbulk⟩ : ∃ bulk, bulkOffsets mip (fun _ _ => []) "integer" tiles ⟨3, 6, fun _ _ => some (1 : ℚ)⟩ (1 / 2) olap = .ok (some bulk) := by
    have hlinks : linksOfTriangles [(0, 1, 14)] = [(0, 1), (0, 14), (1, 14)] := by
      refine lexSorted_ext (linksOfTriangles_sorted _) (by simp [LexLt]) ?_
      intro x
      rw [mem_linksOfTriangles]
      simp [orderPoints]
    obtain ⟨bulk, h, _⟩ := stages_return (C := ℚ) (by omega) (by decide) (by decide) bumpy_filesOk hover (List.ne_nil_of_mem hin)
      hlab hopt hcomp (lstsq := fun _ _ => []) (settings := { bulkMethod := "integer" }) (by simp) (Or.inl rfl) rfl
      (lin := ⟨fun _ => true, fun _ b => b⟩) (fun _ => rfl) (simplices := fun _ => [(0, 1, 14)]) (by
        intro i _ u v h
        simp only [delaunayGraph, hlinks] at h
        simp only [bumpy, pix, List.length_cons, List.length_nil]
        simp at h
        omega) (by
        intro i _
        refine ⟨1, ?_⟩
        simp [delaunayGraph, hlinks, Adjacent, bumpy, pix]) ⟨3, 6, fun _ _ => some (1 : ℚ)⟩ (1 / 2)
    exact ⟨bulk, h⟩
  obtain ⟨_, ref, href, hoff⟩ := C64_bulk_majority (C := ℚ) (1 : ℚ) one_pos 11 cutLabels 2 tiles (by decide) _ bumpy bumpy_filesOk olap hover
    cyc (by intro b i; unfold cyc; split_ifs <;> simp) (by
      intro b hb i j hij
      obtain ⟨rfl, rfl⟩ := hsub i j hij
      exact hmaj b hb) hlab (by
      intro t ht
      have : t < 2 := ht
      interval_cases t
      · exact .refl
      · exact .single (Or.inl hin)) mip hopt _ "integer" (by simp) _ _ bulk hbulk
  refine ⟨olap, bulk, mip, hopt, hover, hbulk, hmaj, fun b hb => ?_, fun b hb => ?_⟩
  · have := hdiff b hb (0, 1) (by decide +kernel) (by decide +kernel)
    simpa using this
  · rw [hoff b hb 1 (by decide), hoff b hb 0 (by decide)]
    push_cast
    ring

end Spurt
