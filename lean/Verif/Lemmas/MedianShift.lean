import Verif.Lemmas.MergeShift
import Verif.Lemmas.ResumeStages

/-!
# The median offset of two tiles, and how it moves with the tiles
-/

namespace Spurt

section
variable {K : Type} [Field K]

/-- The phase of interferogram `b` of a tile file at a pixel of the image. -/
def Spec.phaseAtPixel (f : TileFile K) (b : Nat) (pix : ℤ × ℤ) : K :=
  filePhase f b ((Spec.filePoints f).idxOf pix)

variable [LinearOrder K] [FloorRing K]

/-- The numbers of cycles between two tiles at the pixels they share, in interferogram `b`. -/
def Spec.cyclesBetween (tau : K) (f g : TileFile K) (b : Nat) : List ℤ :=
  ((Spec.filePoints f).filter fun pix => decide (pix ∈ Spec.filePoints g)).map fun pix =>
    rint ((Spec.phaseAtPixel g b pix - Spec.phaseAtPixel f b pix) / tau)

/-- `x` is the median of some whole numbers: the mean of the two middle ones (or twice the middle one). -/
def Spec.IsMedian (l : List ℤ) (x : ℚ) : Prop :=
  ∃ s : List ℤ, s.Perm l ∧ s.Pairwise (· ≤ ·) ∧
    x = ((s.getD ((s.length - 1) / 2) 0 : ℤ) + (s.getD (s.length / 2) 0 : ℤ) : ℚ) / 2

open Spec

/-- A list of whole numbers has one median. -/
theorem isMedian_unique {l : List ℤ} {x y : ℚ} (hx : IsMedian l x) (hy : IsMedian l y) : x = y := by
  obtain ⟨s, p1, s1, rfl⟩ := hx
  obtain ⟨t, p2, s2, rfl⟩ := hy
  have : s = t := (p1.trans p2.symm).eq_of_pairwise (fun a b _ _ h1 h2 => le_antisymm h1 h2) s1 s2
  rw [this]

theorem isMedian_add {l : List ℤ} (hne : l ≠ []) {x : ℚ} (h : IsMedian l x) (k : ℤ) : IsMedian (l.map (· + k)) (x + k) := by
  obtain ⟨s, p, hs, rfl⟩ := h
  have hl : 0 < s.length := by rw [p.length_eq]; exact List.length_pos_of_ne_nil hne
  refine ⟨s.map (· + k), p.map _, ?_, ?_⟩
  · rw [List.pairwise_map]
    exact hs.imp fun h => by omega
  · rw [List.length_map, List.getD_eq_getElem s _ (by omega : (s.length - 1) / 2 < s.length),
      List.getD_eq_getElem s _ (by omega : s.length / 2 < s.length),
      List.getD_eq_getElem _ _ (by rw [List.length_map]; omega : (s.length - 1) / 2 < (s.map (· + k)).length),
      List.getD_eq_getElem _ _ (by rw [List.length_map]; omega : s.length / 2 < (s.map (· + k)).length),
      List.getElem_map, List.getElem_map]
    push_cast
    ring

variable [IsStrictOrderedRing K]

theorem near_rint {d : K} {k : ℤ} (h : NearCycles d k) : rint d = k := by
  obtain ⟨h1, h2, h3⟩ := h
  have hk : |(k : K)| ≤ 32768 := by
    rw [abs_le]
    constructor
    · have : ((-32768 : ℤ) : K) ≤ k := by exact_mod_cast h1
      push_cast at this; linarith
    · have : (k : K) ≤ ((32767 : ℤ) : K) := by exact_mod_cast h2
      push_cast at this; linarith
  have h4 := abs_le.mp h3
  exact rint_eq_of_lt (n := k) (by linarith [h4.1]) (by linarith [h4.2])

theorem near_not_tie {d : K} {k : ℤ} (h : NearCycles d k) : ∀ t : ℤ, d ≠ t + 1 / 2 := by
  obtain ⟨h1, h2, h3⟩ := h
  have hk : |(k : K)| ≤ 32768 := by
    rw [abs_le]
    constructor
    · have : ((-32768 : ℤ) : K) ≤ k := by exact_mod_cast h1
      push_cast at this; linarith
    · have : (k : K) ≤ ((32767 : ℤ) : K) := by exact_mod_cast h2
      push_cast at this; linarith
  have h4 := abs_le.mp h3
  rintro t rfl
  have a1 : ((t - k : ℤ) : K) < ((0 : ℤ) : K) := by push_cast; linarith [h4.2]
  have a2 : ((-1 : ℤ) : K) < ((t - k : ℤ) : K) := by push_cast; linarith [h4.1]
  have b1 : t - k < 0 := by exact_mod_cast a1
  have b2 : -1 < t - k := by exact_mod_cast a2
  omega

/-- The median offsets: for every recorded overlap and every interferogram the median of the numbers
of cycles between the two tiles, cut to a whole number. -/
theorem median_entry {tau : K} {minPoints : ℤ}
    {cc : Nat → List (Nat × Nat) → List Nat} {nifgs : Nat}
    {tiles : TileSet} {files : Nat → Except PyErr (TileFile K)} {F : Nat → TileFile K} {olap : OverlapFile}
    (hf : TileFilesOk nifgs tiles files F)
    (h : phasediffDeciles id tau minPoints cc tiles files = .ok (some olap)) {med : List (List ℤ)}
    (hm : medianOffsets olap = .ok med) :
    med.length = olap.overlaps.length ∧ ∀ (k i j : Nat), olap.overlaps[k]? = some (i, j) →
      ∃ x, med[k]? = some x ∧ x.length = nifgs ∧ ∀ b < nifgs,
        (∀ pix, pix ∈ filePoints (F i) → pix ∈ filePoints (F j) →
          ∃ c : ℤ, NearCycles ((phaseAtPixel (F j) b pix - phaseAtPixel (F i) b pix) / tau) c) ∧
        cyclesBetween tau (F i) (F j) b ≠ [] ∧
        ∀ y, IsMedian (cyclesBetween tau (F i) (F j) b) y → x[b]? = some (pyInt y) := by
  obtain ⟨hsub, hnd, _, hrec⟩ := C53_recorded tau minPoints cc tiles files olap h
  have hgr := overlaps_groups h
  have hrows := median_rows hf h hm
  unfold medianOffsets at hm
  obtain ⟨med', e1, hl, hall⟩ := mapM_exists _ _ (mapM_ok_imp hm)
  rw [hm, Except.ok.injEq] at e1
  subst e1
  refine ⟨hl, ?_⟩
  intro k i j hk
  obtain ⟨x, hx, hfx⟩ := hall k _ hk
  have hij : (i, j) ∈ olap.overlaps := List.mem_of_getElem? hk
  obtain ⟨bi, bj, fi, fj, h1, h2, h3, h4, _, h5⟩ := hrec _ _ (hsub.subset hij)
  have hi := (List.getElem?_eq_some_iff.mp h1).1
  have hj := (List.getElem?_eq_some_iff.mp h2).1
  rw [hf.read _ hi, Except.ok.injEq] at h3
  rw [hf.read _ hj, Except.ok.injEq] at h4
  subst h3 h4
  obtain ⟨c1, c2, st, h6, h7, h8, ps, h9, h10, h11, h12⟩ := h5 hij
  have hfind := find_group (by rw [← hgr]; exact hnd) h7
  simp only at hfind
  rw [hfind] at hfx
  simp only at hfx
  refine ⟨x, hx, hrows x (List.mem_of_getElem? hx), ?_⟩
  have hlen1 : ∀ i < tiles.tiles.length, (imagePhase (F i)).length = nifgs := by
    intro i hi
    obtain ⟨e1, e2⟩ := hf.bands i hi
    simp [imagePhase, e1, e2]
  have hcl1 : c1.length = ps.length := by simpa using congrArg List.length h11
  have hcl2 : c2.length = ps.length := by simpa using congrArg List.length h12
  obtain ⟨hacc, hres⟩ := C38_accepts tau (selectColumns (imagePhase (F i)) c1) (selectColumns (imagePhase (F j)) c2)
  obtain ⟨nb, n, hs1, hs2, hn11, hnear⟩ := hacc.mp ⟨st, h8⟩
  obtain ⟨hstl, hst⟩ := hres nb n st hs1 h8
  have hshape1 : (selectColumns (imagePhase (F i)) c1).shape = [nifgs, c1.length] := by
    simp [selectColumns, hlen1 i hi]
  rw [hshape1] at hs1
  simp only [List.cons.injEq, and_true] at hs1
  obtain ⟨rfl, hn⟩ := hs1
  -- values of the columns
  have hcol : ∀ (i : Nat) (hi : i < tiles.tiles.length) (box : BBox), tiles.tiles[i]? = some box → ∀ cs : List Nat,
      cs.map ((imagePoints (F i) box)[·]?) = ps.map some → ∀ r k, r < nifgs → (hk : k < ps.length) →
        (selectColumns (imagePhase (F i)) cs).get [r, k] = phaseAtPixel (F i) r ps[k] := by
    intro i hi box hbox cs hcs r k hr hk
    have hkl : k < cs.length := by
      have : cs.length = ps.length := by simpa using congrArg List.length hcs
      omega
    have hget := congrArg (·[k]?) hcs
    simp only [List.getElem?_map, List.getElem?_eq_getElem hkl, List.getElem?_eq_getElem hk, Option.map_some,
      Option.some.injEq] at hget
    rw [filePoints_box (hf.box i box hbox)] at hget
    obtain ⟨hpl0, hpe⟩ := List.getElem?_eq_some_iff.mp hget
    have hpl := hpl0
    rw [filePoints_length] at hpl
    simp only [selectColumns]
    rw [List.getD_eq_getElem cs _ hkl]
    obtain ⟨e1, e2⟩ := hf.bands i hi
    have hrow : ((F i).uw.getD r []).length = (F i).points.length := by
      rw [List.getD_eq_getElem _ _ (by omega)]
      exact hf.rows i hi _ (List.getElem_mem _)
    rw [imagePhase_getD (by omega) (by omega) (by omega)]
    unfold phaseAtPixel
    rw [← hpe, (filePoints_nodup (hf.once i hi)).idxOf_getElem _ hpl0]
  have hbox1 := filePoints_box (hf.box i bi h1)
  have hbox2 := filePoints_box (hf.box j bj h2)
  have hps : ps.Perm ((filePoints (F i)).filter fun pix => decide (pix ∈ filePoints (F j))) := by
    rw [List.perm_ext_iff_of_nodup]
    · intro p
      rw [h10, hbox1, hbox2, List.mem_filter, decide_eq_true_eq]
    · refine h9.imp ?_
      rintro ⟨a, b⟩ ⟨c, d⟩ hlt he
      simp only [Prod.mk.injEq] at he
      unfold RowMajorLt at hlt
      simp only at hlt
      omega
    · exact (filePoints_nodup (hf.once i hi)).filter _
  intro b hb
  refine ⟨?_, ?_, ?_⟩
  · intro pix hp1 hp2
    have : pix ∈ ps := by rw [h10, hbox1, hbox2]; exact ⟨hp1, hp2⟩
    obtain ⟨k', hk', rfl⟩ := List.mem_iff_getElem.mp this
    obtain ⟨c, hc⟩ := hnear b k' hb (by omega)
    rw [hcol j hj bj h2 c2 h12 b k' hb hk', hcol i hi bi h1 c1 h11 b k' hb hk'] at hc
    exact ⟨c, hc⟩
  · unfold cyclesBetween
    intro hc
    rw [List.map_eq_nil_iff] at hc
    rw [hc] at hps
    have := hps.length_eq
    rw [List.length_nil] at this
    omega
  · intro y hy
    obtain ⟨row, e1, e2, e3⟩ := hst b hb
    have hrow : row.Perm (cyclesBetween tau (F i) (F j) b) := by
      have hr : row = ps.map fun pix => rint ((phaseAtPixel (F j) b pix - phaseAtPixel (F i) b pix) / tau) := by
        apply List.ext_getElem
        · rw [List.length_map]; omega
        · intro k' hk1 hk2
          rw [List.length_map] at hk2
          obtain ⟨m, e4, e5⟩ := e3 k' (by omega)
          rw [hcol j hj bj h2 c2 h12 b k' hb hk2, hcol i hi bi h1 c1 h11 b k' hb hk2] at e5
          rw [List.getElem?_eq_getElem hk1, Option.some.injEq] at e4
          rw [e4, List.getElem_map, near_rint e5]
      rw [hr]
      exact hps.map _
    obtain ⟨s, p1, p2, rfl⟩ := hy
    obtain ⟨_, _, _, _, hmed⟩ := C38_order row (by rintro rfl; simp at e2; omega)
    have h5' := hmed s (p1.trans hrow.symm) p2
    have hdl : (deciles row).length = 11 := (C38_order row (by rintro rfl; simp at e2; omega)).1
    obtain ⟨row2, e6, hl2, hall2⟩ := mapM_exists _ _ (mapM_ok_imp hfx)
    rw [hfx, Except.ok.injEq] at e6
    subst e6
    obtain ⟨v, hv, hvx⟩ := hall2 b ((deciles row).map pyInt) (by
      rw [List.getElem?_map, e1]; rfl)
    rw [hv]
    rw [List.getElem?_map, h5'] at hvx
    simp only [Option.map_some, Option.elim_some, Except.ok.injEq] at hvx
    rw [← hvx]

theorem phaseAtPixel_shift {tau : K} {n nifgs : Nat} {F F' : Nat → TileFile K} {σ : Nat → K} {κ : Nat → Nat → ℤ}
    (hs : Shifted tau n nifgs F F' σ κ) {b i : Nat} (hb : b < nifgs) (hi : i < n) {pix : ℤ × ℤ}
    (hp : pix ∈ filePoints (F i)) :
    phaseAtPixel (F' i) b pix = phaseAtPixel (F i) b pix + σ b + (κ b i : K) * tau := by
  unfold phaseAtPixel
  rw [hs.points i hi]
  refine hs.phase b hb i hi _ ?_
  rw [← filePoints_length]
  exact List.idxOf_lt_length_iff.mpr hp

/-- The median offsets of shifted tiles, when the medians are whole numbers. -/
theorem median_shift {tau : K} (htau : 0 < tau) {minPoints : ℤ}
    {cc : Nat → List (Nat × Nat) → List Nat} {nifgs : Nat}
    {tiles : TileSet} {files files' : Nat → Except PyErr (TileFile K)} {F F' : Nat → TileFile K}
    {olap olap' : OverlapFile} (hf : TileFilesOk nifgs tiles files F) (hf' : TileFilesOk nifgs tiles files' F')
    (h : phasediffDeciles id tau minPoints cc tiles files = .ok (some olap))
    (h' : phasediffDeciles id tau minPoints cc tiles files' = .ok (some olap')) {σ : Nat → K} {κ : Nat → Nat → ℤ}
    (hs : Shifted tau tiles.tiles.length nifgs F F' σ κ) {med med' : List (List ℤ)}
    (hm : medianOffsets olap = .ok med) (hm' : medianOffsets olap' = .ok med')
    (hwhole : ∀ i j, (i, j) ∈ olap.overlaps → ∀ b < nifgs, ∃ k : ℤ, IsMedian (cyclesBetween tau (F i) (F j) b) k) :
    olap'.overlaps = olap.overlaps ∧ olap'.labels = olap.labels ∧ med.length = olap.overlaps.length ∧
    med'.length = olap.overlaps.length ∧
    ∀ (k i j : Nat), olap.overlaps[k]? = some (i, j) → ∀ b < nifgs,
      (med'.getD k []).getD b 0 = (med.getD k []).getD b 0 + κ b j - κ b i := by
  obtain ⟨ho, hlab⟩ := overlaps_points hf hf' h h' hs.points
  obtain ⟨l1, a1⟩ := median_entry hf h hm
  obtain ⟨l2, a2⟩ := median_entry hf' h' hm'
  refine ⟨ho, hlab, l1, by rw [l2, ho], ?_⟩
  intro k i j hk b hb
  have hmem := List.mem_of_getElem? hk
  have hlt : i < tiles.tiles.length ∧ j < tiles.tiles.length := by
    obtain ⟨hsub, _⟩ := C53_recorded tau minPoints cc tiles files olap h
    obtain ⟨_, a, b, h2, h3, _⟩ := ((C25_overlaps tiles).1 i j).mp (hsub.subset hmem)
    exact ⟨(List.getElem?_eq_some_iff.mp h2).1, (List.getElem?_eq_some_iff.mp h3).1⟩
  obtain ⟨x, hx, hxl, hxb⟩ := a1 k i j hk
  obtain ⟨x', hx', hxl', hxb'⟩ := a2 k i j (by rw [ho]; exact hk)
  obtain ⟨n1, n2, n3⟩ := hxb b hb
  obtain ⟨_, _, n3'⟩ := hxb' b hb
  obtain ⟨c, hc⟩ := hwhole i j hmem b hb
  have hcb : cyclesBetween tau (F' i) (F' j) b = (cyclesBetween tau (F i) (F j) b).map (· + (κ b j - κ b i)) := by
    unfold cyclesBetween
    rw [hs.points i hlt.1, hs.points j hlt.2, List.map_map]
    apply List.map_congr_left
    intro pix hpix
    rw [List.mem_filter, decide_eq_true_eq] at hpix
    obtain ⟨cc', hcc⟩ := n1 pix hpix.1 hpix.2
    rw [phaseAtPixel_shift hs hb hlt.1 hpix.1, phaseAtPixel_shift hs hb hlt.2 hpix.2]
    have : (phaseAtPixel (F j) b pix + σ b + (κ b j : K) * tau - (phaseAtPixel (F i) b pix + σ b + (κ b i : K) * tau)) / tau
        = (phaseAtPixel (F j) b pix - phaseAtPixel (F i) b pix) / tau + ((κ b j - κ b i : ℤ) : K) := by
      field_simp
      push_cast
      ring
    rw [this, rint_add_int _ _ (near_not_tie hcc)]
    rfl
  have hc' : IsMedian (cyclesBetween tau (F' i) (F' j) b) (((c + (κ b j - κ b i) : ℤ)) : ℚ) := by
    rw [hcb]
    have := isMedian_add n2 hc (κ b j - κ b i)
    push_cast at this ⊢
    exact this
  have e1 := n3 _ hc
  have e2 := n3' _ hc'
  rw [pyInt_intCast] at e1 e2
  simp only [List.getD_eq_getElem?_getD, hx, hx', e1, e2, Option.getD_some]
  omega

end

end Spurt
