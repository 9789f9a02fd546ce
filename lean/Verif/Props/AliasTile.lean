import Verif.Props.AliasBound
import Verif.Props.TileItoh

/-!
# C94: unwrapping errors on a tile are bounded by the aliasing of the true phase
-/

namespace Spurt
open Spec Finset

section
variable {K : Type} [Field K] [LinearOrder K] [IsStrictOrderedRing K] [FloorRing K]

/-- The true interferogram of link `i` of the temporal graph at pixel number `n` of tile `b`. -/
def Spec.trueIfg (j : TileJob K) (b : BBox) (φ : Nat → ℤ × ℤ → K) (i n : Nat) : K :=
  changeOn j.time.links (fun s => φ s ((tilePixels j b).getD n (0, 0))) i

/-- C94 for a tile file. -/
theorem C94_tile (tau : K) (ht : 1 / 1000 < tau) (solver : FlowSolver) (hs : SolverOptimal solver) (j : TileJob K) (hj : GoodJob j)
    (tiles : TileSet) (t : Nat) (b : BBox) (hb : tiles.tiles[t]? = some b) (hin : TileInImage (j.coh.rows, j.coh.cols) b)
    (hcs : PlanarContract (tileGraph j b).npoints (tileGraph j b).links (tileGraph j b).cycles) (ct cs : List ℤ)
    (hselt : SelectedCost j.settings.tCostType j.time.links.length j.tDist j.tCent ct)
    (hsels : SelectedCost j.settings.sCostType (tileGraph j b).links.length (j.sDist (tilePoints j.coh j.thr b))
      (j.sCent (tilePoints j.coh j.thr b)) cs)
    (hctl : ct.length = j.time.links.length) (hct0 : ∀ v ∈ ct, 0 < v)
    (hcsl : cs.length = (tileGraph j b).links.length) (hcs0 : ∀ v ∈ cs, 0 ≤ v)
    (φ : Nat → ℤ × ℤ → K) (hφ : TruePhase tau j φ)
    (hbig : ∀ l < (tileGraph j b).links.length, ∑ i ∈ range j.time.links.length,
      ct.getD i 0 * aliasedCycles tau (changeOn (tileGraph j b).links (trueIfg j b φ i) l) ≤ 1000000000)
    (oT : Nat → List Nat → List Nat) (oS : List Nat → List Nat)
    (hoT : ∀ k l, (oT k l).Perm l) (hoS : ∀ l, (oS l).Perm l) (f : TileFile K)
    (h : unwrapOneTile tau solver j tiles t oT oS = .ok f) :
    filePoints f = tilePixels j b ∧
    ∃ err : Nat → Nat → ℤ,
      (∀ i < j.time.links.length, ∀ l < (tileGraph j b).links.length, changeOn (tileGraph j b).links (filePhase f i) l =
        changeOn (tileGraph j b).links (trueIfg j b φ i) l + (err i l : K) * tau) ∧
      weighted j.time.links.length (tileGraph j b).links.length ct cs err ≤
        4 * weighted j.time.links.length (tileGraph j b).links.length ct cs fun i l =>
          aliasedCycles tau (changeOn (tileGraph j b).links (trueIfg j b φ i) l) := by
  unfold unwrapOneTile at h
  rw [hb] at h
  simp only [Option.elim_some, Bind.bind, Except.bind] at h
  cases e1 : ormcf j.time with
  | error er => rw [e1] at h; simp at h
  | ok sTime =>
  rw [e1] at h
  simp only at h
  set pts := tilePoints j.coh j.thr b with hpts
  cases e2 : ormcf (delaunayGraph pts.length (j.simplices pts)) with
  | error er => rw [e2] at h; simp at h
  | ok sSpace =>
  rw [e2] at h
  simp only at h
  set wd := (readTile j.coh j.thr j.dates j.phase (0 : K) b).2 with hwd
  split at h
  · simp at h
  rename_i hass
  set e : Emcf := ⟨sSpace, sTime, j.settings, j.cpuCount, j.tDist, j.tCent, j.sDist pts, j.sCent pts⟩ with he
  cases e3 : unwrapCube tau solver e ⟨2, 0, wd⟩ oT oS with
  | error er => rw [e3] at h; simp at h
  | ok uw =>
  rw [e3] at h
  simp only [pure, Except.pure, Except.ok.injEq] at h
  have hnp : (tileGraph j b).npoints = pts.length := rfl
  obtain ⟨hx0, hx1, hx2, hy0, hy1, hy2⟩ := hin
  simp only at hx2 hy2
  obtain ⟨_, _, hmem, hlen, hrow⟩ := C36_read_tile j.coh j.thr j.dates j.phase (0 : K) b hx0 hx1 hx2
    hy0 hy1 hy2 (fun d im hd => by obtain ⟨a1, a2⟩ := hj.images d im hd; rw [a1, a2]; exact ⟨hx2, hy2⟩)
  rw [← hpts] at hmem hrow
  rw [← hwd] at hlen hrow
  have hval : ∀ s : Nat, s < j.dates.length → ∀ n (hn : n < pts.length), (wd.getD s []).getD n 0 =
      epochPhase j s ((pts[n].1 : ℤ) + b.xmin).toNat ((pts[n].2 : ℤ) + b.ymin).toNat := by
    intro s hs' n hn
    obtain ⟨row, hr, _, hr2⟩ := hrow s j.dates[s] (List.getElem?_eq_getElem hs')
    obtain ⟨h0, h1⟩ := hr2 n pts[n].1 pts[n].2 (List.getElem?_eq_getElem hn)
    rw [List.getD_eq_getElem?_getD (l := wd), hr]
    simp only [Option.getD_some]
    unfold epochPhase
    rw [List.getElem?_eq_getElem hs']
    simp only [Option.bind_some]
    rw [List.getD_eq_getElem?_getD]
    cases hf : j.phase j.dates[s] with
    | none => rw [h0 hf]; rfl
    | some im =>
      rw [h1 im hf]
      simp only [Option.getD_some, Option.elim_some]
      rw [show ((pts[n].1 : ℤ) + b.xmin).toNat = b.xmin.toNat + pts[n].1 by omega,
        show ((pts[n].2 : ℤ) + b.ymin).toNat = b.ymin.toNat + pts[n].2 by omega]
  have hpix : ∀ n (hn : n < pts.length), (tilePixels j b)[n]? = some ((pts[n].1 : ℤ) + b.xmin, (pts[n].2 : ℤ) + b.ymin) := by
    intro n hn
    simp [tilePixels, ← hpts, hn]
  obtain ⟨err, hE, hW⟩ := C94_cube_slc tau ht solver hs e j.time (tileGraph j b) hj.contract e1 hcs e2 hj.batch ct cs hselt hsels
    hctl hct0 hcsl hcs0 ⟨2, 0, wd⟩ (by simp only; rw [hlen, hj.dates]) (fun s n => φ s ((tilePixels j b).getD n (0, 0)))
    (by
      intro s hs1 n hn
      rw [hnp] at hn
      obtain ⟨a1, a2, v, a3, a4⟩ := (hmem pts[n].1 pts[n].2).mp (List.getElem_mem hn)
      obtain ⟨k, hk⟩ := hφ s (by rw [hj.dates]; exact hs1) ((pts[n].1 : ℤ) + b.xmin) ((pts[n].2 : ℤ) + b.ymin) (by
        unfold PixelOf; simp only; omega) ⟨v, by
        rw [show ((pts[n].1 : ℤ) + b.xmin).toNat = b.xmin.toNat + pts[n].1 by omega,
          show ((pts[n].2 : ℤ) + b.ymin).toNat = b.ymin.toNat + pts[n].2 by omega, a3], a4⟩
      refine ⟨k, ?_⟩
      simp only
      rw [hval s (by rw [hj.dates]; exact hs1) n hn, hk, List.getD_eq_getElem?_getD, hpix n hn]
      simp)
    hbig oT oS hoT hoS uw e3
  have hfp : ∀ i, filePhase f i = fun n => (uw.getD i []).getD n 0 + (phaseOffset tau j.time wd).getD i 0 := by
    intro i; rw [← h]; rfl
  refine ⟨?_, err, fun i hi l hl => ?_, hW⟩
  · rw [← h]; simp [filePoints, tilePixels, hpts]
  · have := hE i hi l hl
    rw [hfp i]
    unfold trueIfg
    rw [← this]
    unfold changeOn
    ring

end
end Spurt
