import Verif.Lemmas.Stages
import Verif.Props.BulkL2

/-!
# From tile files that differ by whole cycles to the medians and the bulk offsets
-/

namespace Spurt

section
variable {K : Type} [Field K]

/-- The tile files hold the fields `phi` (one per interferogram) plus `c b i` cycles in
interferogram `b` of tile `i`. -/
def Spec.CutFields (tau : K) (nifgs n : Nat) (F : Nat → TileFile K) (phi : Nat → ℤ × ℤ → K) (c : Nat → Nat → ℤ) : Prop :=
  ∀ b < nifgs, ∀ i < n, ∀ (p : Nat) pix, (Spec.filePoints (F i))[p]? = some pix →
    Spec.filePhase (F i) b p = phi b pix + tau * c b i

end

open Spec

section
variable {K : Type} [Field K] [LinearOrder K] [FloorRing K]

theorem overlaps_groups {wrap : ℤ → ℤ} {tau : K} {minPoints : ℤ} {cc : Nat → List (Nat × Nat) → List Nat}
    {tiles : TileSet} {files : Nat → Except PyErr (TileFile K)} {f : OverlapFile}
    (h : phasediffDeciles wrap tau minPoints cc tiles files = .ok (some f)) :
    f.overlaps = f.groups.map Prod.fst := by
  unfold phasediffDeciles at h
  split at h
  · simp at h
  · simp only [Bind.bind, Except.bind] at h
    split at h
    · simp at h
    · simp only [pure, Except.pure, Except.ok.injEq, Option.some.injEq] at h
      subst h
      rfl

theorem find_group {l : List ((Nat × Nat) × OverlapGroup)} (hnd : (l.map Prod.fst).Nodup)
    {g : (Nat × Nat) × OverlapGroup} (hg : g ∈ l) : l.find? (fun x => decide (x.1 = g.1)) = some g := by
  induction l with
  | nil => simp at hg
  | cons a l ih =>
    rw [List.map_cons, List.nodup_cons] at hnd
    rcases List.mem_cons.mp hg with rfl | hg
    · simp
    · have hne : a.1 ≠ g.1 := fun hc => hnd.1 (hc ▸ List.mem_map_of_mem hg)
      rw [List.find?_cons_of_neg (by simpa using hne)]
      exact ih hnd.2 hg

omit [LinearOrder K] [FloorRing K] in
theorem imagePhase_getD {f : TileFile K} {b p : Nat} (h1 : b < f.uw.length) (h2 : b < f.phaseOffset.length)
    (h3 : p < (f.uw.getD b []).length) : ((imagePhase f).getD b []).getD p 0 = filePhase f b p := by
  unfold imagePhase filePhase
  have hl : b < (List.zipWith (fun row off => row.map (· + off)) f.uw f.phaseOffset).length := by
    rw [List.length_zipWith]; omega
  rw [List.getD_eq_getElem _ _ hl, List.getElem_zipWith]
  rw [List.getD_eq_getElem _ _ h1] at h3 ⊢
  rw [List.getD_eq_getElem _ _ h2, List.getD_eq_getElem _ _ (by simpa using h3), List.getElem_map,
    List.getD_eq_getElem _ _ h3]

theorem cut_medians [IsStrictOrderedRing K] {tau : K} (htau : tau ≠ 0) {minPoints : ℤ}
    {cc : Nat → List (Nat × Nat) → List Nat} {nifgs : Nat}
    {tiles : TileSet} {files : Nat → Except PyErr (TileFile K)} {F : Nat → TileFile K} {olap : OverlapFile}
    (hf : TileFilesOk nifgs tiles files F)
    (h : phasediffDeciles id tau minPoints cc tiles files = .ok (some olap))
    {phi : Nat → ℤ × ℤ → K} {c : Nat → Nat → ℤ} (hcut : CutFields tau nifgs tiles.tiles.length F phi c)
    (hsmall : ∀ b i, |c b i| ≤ 16383) :
    medianOffsets olap = .ok (olap.overlaps.map fun e => (List.range nifgs).map fun b => c b e.2 - c b e.1) := by
  obtain ⟨hsub, hnd, _, hrec⟩ := C53_recorded tau minPoints cc tiles files olap h
  have hgr := overlaps_groups h
  unfold medianOffsets
  apply mapM_ok_of
  rintro ⟨i, j⟩ hij
  obtain ⟨bi, bj, fi, fj, h1, h2, h3, h4, _, h5⟩ := hrec i j (hsub.subset hij)
  have hi := (List.getElem?_eq_some_iff.mp h1).1
  have hj := (List.getElem?_eq_some_iff.mp h2).1
  rw [hf.read i hi, Except.ok.injEq] at h3
  rw [hf.read j hj, Except.ok.injEq] at h4
  subst h3 h4
  obtain ⟨c1, c2, st, h6, h7, h8, ps, h9, h10, h11, h12⟩ := h5 hij
  have hfind := find_group (by rw [← hgr]; exact hnd) h7
  simp only at hfind
  rw [hfind]
  simp only
  have hlen1 : ∀ i < tiles.tiles.length, (imagePhase (F i)).length = nifgs := by
    intro i hi
    obtain ⟨e1, e2⟩ := hf.bands i hi
    simp [imagePhase, e1, e2]
  have hcl1 : c1.length = ps.length := by simpa using congrArg List.length h11
  have hcl2 : c2.length = ps.length := by simpa using congrArg List.length h12
  obtain ⟨hacc, hres⟩ := C38_accepts tau (selectColumns (imagePhase (F i)) c1) (selectColumns (imagePhase (F j)) c2)
  obtain ⟨nb, n, hs1, hs2, hn11, hnear⟩ := hacc.mp ⟨st, h8⟩
  obtain ⟨hstl, hst⟩ := hres nb n st hs1 h8
  have hshape1 : (selectColumns (imagePhase (F i)) c1).shape = [nifgs, c1.length] := by
    simp [selectColumns, hlen1 i hi]
  rw [hshape1] at hs1
  simp only [List.cons.injEq, and_true] at hs1
  obtain ⟨rfl, hn⟩ := hs1
  -- values of the columns
  have hcol : ∀ (i : Nat) (hi : i < tiles.tiles.length) (box : BBox), tiles.tiles[i]? = some box → ∀ cs : List Nat,
      cs.map ((imagePoints (F i) box)[·]?) = ps.map some → ∀ r k, r < nifgs → (hk : k < ps.length) →
        (selectColumns (imagePhase (F i)) cs).get [r, k] = phi r ps[k] + tau * c r i := by
    intro i hi box hbox cs hcs r k hr hk
    have hkl : k < cs.length := by
      have : cs.length = ps.length := by simpa using congrArg List.length hcs
      omega
    have hget := congrArg (·[k]?) hcs
    simp only [List.getElem?_map, List.getElem?_eq_getElem hkl, List.getElem?_eq_getElem hk, Option.map_some,
      Option.some.injEq] at hget
    rw [filePoints_box (hf.box i box hbox)] at hget
    have hpl := (List.getElem?_eq_some_iff.mp hget).1
    rw [filePoints_length] at hpl
    simp only [selectColumns]
    rw [List.getD_eq_getElem cs _ hkl]
    obtain ⟨e1, e2⟩ := hf.bands i hi
    have hrow : ((F i).uw.getD r []).length = (F i).points.length := by
      rw [List.getD_eq_getElem _ _ (by omega)]
      exact hf.rows i hi _ (List.getElem_mem _)
    rw [imagePhase_getD (by omega) (by omega) (by omega)]
    exact hcut r hr i hi _ _ hget
  have hstats : ∀ r < nifgs, st[r]? = some (List.replicate 11 ((c r j - c r i : ℤ) : ℚ)) := by
    intro r hr
    obtain ⟨row, e1, e2, e3⟩ := hst r hr
    rw [e1, C38_constant row (by rintro rfl; simp at e2; omega) (c r j - c r i)]
    intro x hx
    obtain ⟨k, hk, rfl⟩ := List.mem_iff_getElem.mp hx
    obtain ⟨m, e4, e5⟩ := e3 k (by omega)
    rw [List.getElem?_eq_getElem hk, Option.some.injEq] at e4
    rw [e4]
    have hd : ((selectColumns (imagePhase (F j)) c2).get [r, k] - (selectColumns (imagePhase (F i)) c1).get [r, k]) / tau
        = ((c r j - c r i : ℤ) : K) := by
      rw [hcol i hi bi h1 c1 h11 r k hr (by omega), hcol j hj bj h2 c2 h12 r k hr (by omega)]
      field_simp
      push_cast
      ring
    have hm := cycleDiff_of_near e5
    have hb1 := abs_le.mp (hsmall r i)
    have hb2 := abs_le.mp (hsmall r j)
    have hnear2 : NearCycles (((selectColumns (imagePhase (F j)) c2).get [r, k] -
        (selectColumns (imagePhase (F i)) c1).get [r, k]) / tau) (c r j - c r i) := by
      refine ⟨by omega, by omega, ?_⟩
      rw [hd, sub_self, abs_zero]
      positivity
    rw [← hm, cycleDiff_of_near hnear2]
  have hsteq : st = (List.range nifgs).map fun r => List.replicate 11 ((c r j - c r i : ℤ) : ℚ) := by
    apply List.ext_getElem?
    intro r
    by_cases hr : r < nifgs
    · rw [hstats r hr, List.getElem?_map, List.getElem?_range hr]
      rfl
    · rw [List.getElem?_eq_none (by omega), List.getElem?_eq_none (by simp; omega)]
  rw [hsteq, List.map_map, List.mapM_map]
  apply mapM_ok_of
  intro r _
  simp only [Function.comp, List.map_replicate, pyInt_intCast]
  rw [List.getElem?_replicate]
  rfl

end

end Spurt
