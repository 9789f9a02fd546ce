import Verif.Props.EndToEnd

/-!
# Runs that meet the hypotheses of C45, C46, C56 and C57
-/

namespace Spurt
open Spec

/-! ### Example: a 3 × 6 image in two tiles -/

namespace Cut

/-- Two tiles with four common columns. -/
def tiles : TileSet := ⟨(3, 6), [⟨0, 0, 3, 5⟩, ⟨0, 1, 3, 6⟩]⟩

/-- Two interferograms. -/
def phi (b : Nat) (p : ℤ × ℤ) : ℚ := (b + 1) * p.1 / 4 + p.2 / 7

/-- Cycles added by tile `i` in interferogram `b`. -/
def cyc (b i : Nat) : ℤ := if i = 1 then (if b = 0 then 2 else -3) else 3

/-- The pixels of a tile, relative to the tile. -/
def pix : List (ℤ × ℤ) :=
  [(0,0),(0,1),(0,2),(0,3),(0,4),(1,0),(1,1),(1,2),(1,3),(1,4),(2,0),(2,1),(2,2),(2,3),(2,4)]

/-- The files of the two tiles. -/
def file (i : Nat) : TileFile ℚ :=
  { uw := [0, 1].map fun b => pix.map fun p => phi b (p.1, p.2 + i) + cyc b i - 1 / 3
    points := pix
    tile := ⟨0, i, 3, 5 + i⟩
    phaseOffset := [1 / 3, 1 / 3] }

end Cut
open Cut
theorem cut_filesOk : TileFilesOk 2 tiles (fun i => .ok (file i)) file where
  read := fun _ _ => rfl
  box := by
    intro i b h
    have : i < 2 := (List.getElem?_eq_some_iff.mp h).1
    interval_cases i <;> (simp [tiles] at h; subst h; rfl)
  once := by intro i _; show pix.Nodup; decide +kernel
  inside := by
    intro i hi
    have : i < 2 := hi
    interval_cases i <;> decide +kernel
  bands := by intro i _; simp [file]
  rows := by
    intro i _ row h
    simp only [file, List.mem_map] at h
    obtain ⟨b, _, rfl⟩ := h
    simp [file]

theorem cut_fields : CutFields 1 2 2 file phi cyc := by
  intro b hb i hi p q h
  have hp : p < 15 := by
    have := (List.getElem?_eq_some_iff.mp h).1
    simpa [filePoints, file, pix] using this
  simp only [filePoints, file, List.getElem?_map, Option.map_eq_some_iff] at h
  obtain ⟨x, hx, rfl⟩ := h
  have hb' : b = 0 ∨ b = 1 := by omega
  rcases hb' with rfl | rfl <;>
    simp [filePhase, file, hx]

/-- Component labels of two tiles. -/
def cutLabels (_ : Nat) (edges : List (Nat × Nat)) : List Nat :=
  if (0, 1) ∈ edges ∨ (1, 0) ∈ edges then [0, 0] else [0, 1]

theorem cut_labels (edges : List (Nat × Nat)) (h : ∀ e ∈ edges, e.1 < 2 ∧ e.2 < 2) :
    ComponentLabels 2 edges (cutLabels 2 edges) := by
  by_cases hc : (0, 1) ∈ edges ∨ (1, 0) ∈ edges
  · have h01 : Relation.ReflTransGen (Adjacent edges) 0 1 := .single hc
    have h10 : Relation.ReflTransGen (Adjacent edges) 1 0 := .single hc.symm
    refine ⟨by simp [cutLabels, hc], ?_, ?_⟩
    · intro i j hi hj
      interval_cases i <;> interval_cases j <;> simp [cutLabels, hc, h01, h10, Relation.ReflTransGen.refl]
    · simp [cutLabels, hc]
  · have hno : ∀ i j, i < 2 → i ≠ j → ¬ Relation.ReflTransGen (Adjacent edges) i j := by
      intro i j hi hij hr
      have key : ∀ k, Relation.ReflTransGen (Adjacent edges) i k → k = i := by
        intro k hk
        induction hk with
        | refl => rfl
        | @tail b c _ hbc ih =>
          subst ih
          by_contra hne
          rcases hbc with hb | hb
          · have := h _ hb
            have h2 : (b = 0 ∧ c = 1) ∨ (b = 1 ∧ c = 0) := by simp only at this; omega
            rcases h2 with ⟨rfl, rfl⟩ | ⟨rfl, rfl⟩ <;> tauto
          · have := h _ hb
            have h2 : (b = 0 ∧ c = 1) ∨ (b = 1 ∧ c = 0) := by simp only at this; omega
            rcases h2 with ⟨rfl, rfl⟩ | ⟨rfl, rfl⟩ <;> tauto
      exact hij (key j hr).symm
    refine ⟨by simp [cutLabels, hc], ?_, ?_⟩
    · intro i j hi hj
      interval_cases i <;> interval_cases j <;>
        simp [cutLabels, hc, Relation.ReflTransGen.refl, hno 0 1, hno 1 0]
    · simp [cutLabels, hc]
      omega

/-- The three stages run on the two tiles with the integer programme and the merged rasters hold the
fields, up to the cycles of one tile. The merge input meets the hypotheses of C45, C46 and C56. -/
theorem cut_example : ∃ (env : MergeEnv ℚ) (bulk : BulkFile ℚ) (out : List (Nat × MergedBand ℚ)),
    MergeInput 1 11 cutLabels 2 tiles (fun i => .ok (file i)) file env.overlap bulk { bulkMethod := "integer" } ∧
    mergeTiles 1 env { bulkMethod := "integer" } tiles (fun i => .ok (file i)) bulk 2 (fun _ => false) = .ok (.merged out) ∧
    bulk.residuals = [0, 0] ∧ out.map Prod.fst = [0, 1] ∧
    ∃ ref < 2, ∀ b m, (b, m) ∈ out → ∀ r q : Nat, r < 3 → q < 6 →
      m.out.val r q = some (phi b (r, q) + cyc b ref) := by
  obtain ⟨mip, hopt, hcomp⟩ := exists_mip_solver
  have hsmall : ∀ b i, |cyc b i| ≤ 16383 := by
    intro b i
    unfold cyc
    split_ifs <;> simp
  have hlinks : linksOfTriangles [(0, 1, 14)] = [(0, 1), (0, 14), (1, 14)] := by
    refine lexSorted_ext (linksOfTriangles_sorted _) (by simp [LexLt]) ?_
    intro x
    rw [mem_linksOfTriangles]
    simp [orderPoints]
  have hbig : BigOverlap tiles file 11 0 1 := ⟨by decide +kernel, by decide +kernel⟩
  obtain ⟨olap, h1, h2, h3, bulk, h4, out, h5⟩ := C57_returns (C := ℚ) 1 one_pos 11 le_rfl cutLabels 2 (by omega) tiles
    (by decide) (by decide) (fun i => .ok (file i)) file cut_filesOk (by intro i _; simp [file, pix]) phi cyc cut_fields hsmall
    cut_labels (by
      intro t ht
      have : t < 2 := ht
      interval_cases t
      · exact .refl
      · exact .single (Or.inl hbig))
    mip hopt hcomp (fun _ _ => []) { bulkMethod := "integer" } (by simp) (Or.inl rfl) rfl
    ⟨fun _ => true, fun _ b => b⟩ (fun _ => rfl) (fun _ => [(0, 1, 14)]) (by
      intro i _ u v h
      simp only [delaunayGraph, hlinks] at h
      simp only [file, pix, List.length_cons, List.length_nil]
      simp at h
      omega) (by
      intro i _
      refine ⟨1, ?_⟩
      simp [delaunayGraph, hlinks, Adjacent, file, pix]) ⟨3, 6, fun _ _ => some 1⟩ (1 / 2) (fun _ => false)
  obtain ⟨k1, k2, ref, k3, k4⟩ := C57_end_to_end (C := ℚ) 1 one_pos 11 cutLabels 2 (by omega) tiles (by decide) (by decide)
    (fun i => .ok (file i)) file cut_filesOk phi cyc cut_fields hsmall
    ⟨⟨fun _ => true, fun _ b => b⟩, (fun _ => [(0, 1, 14)]), olap⟩ h1 h2 h3 mip hopt (fun _ _ => []) { bulkMethod := "integer" }
    (by simp) _ _ bulk h4 rfl (fun _ => false) out h5
  have hlt : ∀ e ∈ olap.overlaps, e.1 < e.2 ∧ e.2 < tiles.tiles.length := by
    rintro ⟨i, j⟩ he
    obtain ⟨hsub, _, _, _⟩ := C53_recorded (1 : ℚ) 11 cutLabels tiles _ olap h1
    obtain ⟨g1, a, b, g2, g3, _⟩ := ((C25_overlaps tiles).1 i j).mp (hsub.subset he)
    exact ⟨g1, (List.getElem?_eq_some_iff.mp g3).1⟩
  obtain ⟨b1, b2, b3, _⟩ := cut_offsets hopt (by decide) hlt h2 h3 hsmall (cut_medians one_ne_zero cut_filesOk h1 cut_fields hsmall)
    (by simp) h4
  refine ⟨_, bulk, out, ⟨by decide, by decide, by omega, cut_filesOk, h1, h2.length, b2, rfl, b1⟩, h5, k1, ?_, ref, k3, ?_⟩
  · rw [k2]; rfl
  · intro b m hb r q hr hq
    have := (k4 b m hb r q).1 ?_
    · rw [this]; simp
    · have hcov : ∀ r < 3, ∀ q < 6, (((r : ℕ) : ℤ), ((q : ℕ) : ℤ)) ∈ filePoints (file 0) ∨
          (((r : ℕ) : ℤ), ((q : ℕ) : ℤ)) ∈ filePoints (file 1) := by
        decide +kernel
      rcases hcov r hr q hq with h | h
      · exact ⟨0, by decide, h⟩
      · exact ⟨1, by decide, h⟩

/-- The tiles of one stack are merged: the hypotheses of `C56_stack` hold together. -/
example : ∃ (solver : FlowSolver) (tiles : TileSet) (F : Nat → TileFile ℚ) (minPoints : ℤ) (env : MergeEnv ℚ) (bulk : BulkFile ℚ)
    (out : List (Nat × MergedBand ℚ)), SolverSound solver ∧ GoodJob exampleJob ∧ tiles.tiles.length = 2 ∧
    (∀ b ∈ tiles.tiles, TileInImage (exampleJob.coh.rows, exampleJob.coh.cols) b) ∧
    (∀ t < 2, unwrapOneTile 1 solver exampleJob tiles t (fun _ => List.reverse) List.reverse = .ok (F t)) ∧
    MergeInput 1 minPoints (fun n _ => List.range n) 3 tiles (fun i => .ok (F i)) F env.overlap bulk {} ∧
    mergeTiles 1 env {} tiles (fun i => .ok (F i)) bulk 3 (fun _ => false) = .ok (.merged out) ∧
    out.map Prod.fst = [0, 1, 2] := by
  obtain ⟨solver, f, hs, hj, hin, hun⟩ := exampleJob_unwraps
  have hboth : ∀ t < 2, unwrapOneTile 1 solver exampleJob ⟨(2, 2), [⟨0, 0, 2, 2⟩, ⟨0, 0, 2, 2⟩]⟩ t
      (fun _ => List.reverse) List.reverse = .ok f := by
    intro t ht
    rw [← hun]
    interval_cases t <;> rfl
  obtain ⟨hf, hpts, _⟩ := tileFilesOk_of_unwrap (1 : ℚ) solver hs exampleJob hj ⟨(2, 2), [⟨0, 0, 2, 2⟩, ⟨0, 0, 2, 2⟩]⟩ rfl
    (by simpa using hin) (fun _ _ => List.reverse) (fun _ => List.reverse) (fun _ _ l => List.reverse_perm l)
    (fun _ l => List.reverse_perm l) (fun _ => .ok f) (fun _ => f) (fun _ _ => rfl) hboth
  have hbox : f.tile = ⟨0, 0, 2, 2⟩ := hf.box 0 _ rfl
  have hlen : (imagePhase f).length = 3 := by
    obtain ⟨e1, e2⟩ := hf.bands 0 (by simp)
    simp only [imagePhase, List.length_zipWith, e1, e2]
    rfl
  have hget : ∀ (t : Nat) b, [(⟨0, 0, 2, 2⟩ : BBox), ⟨0, 0, 2, 2⟩][t]? = some b → b = ⟨0, 0, 2, 2⟩ := by
    intro t b hb
    have := List.mem_of_getElem? hb
    simpa using this
  obtain ⟨olap, hover⟩ := C53_returns (1 : ℚ) (f.points.length + 11) (by omega) (fun n _ => List.range n) ⟨(2, 2), [⟨0, 0, 2, 2⟩, ⟨0, 0, 2, 2⟩]⟩
    (fun _ => .ok f) (by simp) 3 (by
      intro t b hb
      have := hget t b hb
      subst this
      refine ⟨f, rfl, ?_, ?_, hlen⟩ <;> rw [filePoints_box hbox]
      · have := (hpts 0 (by simp) 0 0).mpr ⟨⟨0, 0, 2, 2⟩, rfl, by simp [InTile], by simp [ValidPixel, exampleJob]; norm_num⟩
        exact List.ne_nil_of_mem this
      · intro p hp
        have := hf.inside 0 (by simp) p hp
        exact ⟨this.1, this.2.2.1⟩) (by
      intro t t' b b' g g' _ hb hb' h1 h2 i _ n n' p hn hn'
      have e1 := hget t b hb
      have e2 := hget t' b' hb'
      simp only [Except.ok.injEq] at h1 h2
      subst e1 e2 h1 h2
      rw [filePoints_box hbox] at hn hn'
      have hnd := filePoints_nodup (hf.once 0 (by simp))
      have : n = n' := (List.getElem?_inj (List.getElem?_eq_some_iff.mp hn).1 hnd).mp (hn.trans hn'.symm)
      subst this
      exact ⟨0, by omega, by omega, by simp⟩)
  obtain ⟨hsub, _, hlabels, hrec⟩ := C53_recorded (1 : ℚ) (f.points.length + 11) _ _ _ olap hover
  have hinput : MergeInput (1 : ℚ) (f.points.length + 11) (fun n _ => List.range n) 3 ⟨(2, 2), [⟨0, 0, 2, 2⟩, ⟨0, 0, 2, 2⟩]⟩ (fun _ => .ok f)
      (fun _ => f) olap ⟨"L2", [[0, 0], [1, 0], [0, 0]], []⟩ {} :=
    ⟨by simp, by simp, by omega, hf, hover, by rw [hlabels]; simp, ⟨by simp, by simp⟩, rfl, rfl⟩
  have hno : olap.overlaps = [] := by
    rw [List.eq_nil_iff_forall_not_mem]
    rintro ⟨i, j⟩ he
    obtain ⟨bi, bj, fi, fj, _, _, e3, e4, e5, _⟩ := hrec i j (hsub.subset he)
    simp only [Except.ok.injEq] at e3 e4
    subst e3 e4
    have h1 := e5.mp he
    have h2 := (Finset.card_le_card (Finset.inter_subset_left (s₁ := (imagePoints f bi).toFinset)
      (s₂ := (imagePoints f bj).toFinset))).trans (List.toFinset_card_le _)
    have h3 : (imagePoints f bi).length = f.points.length := by simp [imagePoints]
    omega
  obtain ⟨omap, o1, o2, _, _, o3⟩ := ready_of_input hinput
  obtain ⟨d, hd⟩ := getMaxDegree_ok (shape := imageShape ⟨(2, 2), [⟨0, 0, 2, 2⟩, ⟨0, 0, 2, 2⟩]⟩) (n := 2) (F := fun _ => f)
    (by decide) o2.inside
  refine ⟨solver, ⟨(2, 2), [⟨0, 0, 2, 2⟩, ⟨0, 0, 2, 2⟩]⟩, fun _ => f, f.points.length + 11, ⟨⟨fun _ => true, fun _ b => b⟩, fun _ => [], olap⟩,
    _, _, hs, hj, rfl, by simpa using hin, hboth, hinput,
    (mergeTiles_eq (env := ⟨⟨fun _ => true, fun _ b => b⟩, fun _ => [], olap⟩) hinput o1 o2 hd (fun _ => false)).1 (Or.inl ?_), ?_⟩
  · intro d hd i hi htouch
    have hempty : omap.getD i [] = [] := by
      rw [List.eq_nil_iff_forall_not_mem]
      intro j hj
      have := (o3 i hi j).mp hj
      simp [Recorded, hno] at this
    simp only [touched, maskAt, cntAt, hempty] at htouch
    simp at htouch
    simp [degrees] at hd
    omega
  · simp [missing, Function.comp_def]
    decide

end Spurt
