import Verif.Props.CubeItoh
import Verif.Props.EndToEnd

/-!
# Property C62: an unaliased stack is unwrapped exactly, on one tile
-/

namespace Spurt
open Spec

section
variable {K : Type} [Field K] [LinearOrder K] [IsStrictOrderedRing K] [FloorRing K]

/-- The image coordinates of the graph points of tile `b`: its pixels of sufficient coherence in
row-major order. -/
def Spec.tilePixels (j : TileJob K) (b : BBox) : List (ℤ × ℤ) :=
  (tilePoints j.coh j.thr b).map fun p => ((p.1 : ℤ) + b.xmin, (p.2 : ℤ) + b.ymin)

/-- The triangulation of the pixels of tile `b`. -/
def Spec.tileGraph (j : TileJob K) (b : BBox) : PlanarGraph :=
  delaunayGraph (tilePoints j.coh j.thr b).length (j.simplices (tilePoints j.coh j.thr b))

/-- The phases `φ` of the acquisitions are, up to whole cycles, those of the stack. -/
def Spec.TruePhase (tau : K) (j : TileJob K) (φ : Nat → ℤ × ℤ → K) : Prop :=
  ∀ s < j.dates.length, ∀ r c, PixelOf (j.coh.rows, j.coh.cols) r c → ValidPixel j r c → ∃ k : ℤ, epochPhase j s r.toNat c.toNat = φ s (r, c) - k * tau

/-- In every interferogram of the temporal graph, `φ` changes by less than half a cycle along every
link of the triangulation of tile `b`. -/
def Spec.SmoothOnTile (tau : K) (j : TileJob K) (b : BBox) (φ : Nat → ℤ × ℤ → K) : Prop :=
  ∀ s u, (s, u) ∈ j.time.links → ∀ m n, (m, n) ∈ (tileGraph j b).links →
    ∀ p q, (tilePixels j b)[m]? = some p → (tilePixels j b)[n]? = some q →
      |(φ u q - φ s q) - (φ u p - φ s p)| < tau / 2

/-- What unwrapping a tile needs besides the data: the triangulation of the pixels of the tile meets
the planar contract, has a link and is connected, the costs can be computed, a process pool can be made and there is an acquisition. -/
structure Spec.TileReady (j : TileJob K) (b : BBox) : Prop where
  contract : PlanarContract (tileGraph j b).npoints (tileGraph j b).links (tileGraph j b).cycles
  links : (tileGraph j b).links ≠ []
  connected : Connected (tileGraph j b).npoints (tileGraph j b).links
  tcost : ∃ c, costOf j.settings.tCostType j.time.links.length j.tDist j.tCent = .ok c
  scost : ∃ c, costOf j.settings.sCostType (tileGraph j b).links.length (j.sDist (tilePoints j.coh j.thr b))
    (j.sCent (tilePoints j.coh j.thr b)) = .ok c
  pool : 1 ≤ j.settings.sWorkerCount ∨ 2 ≤ j.cpuCount
  dates : j.dates ≠ []

/-- C62 for a tile. If the true phase is unaliased on the tile, the tile is unwrapped whatever the
flow solver answers, and in every interferogram the stored phase is the true interferogram plus one
number of cycles, the one that brings the first pixel of the tile to within half a cycle of zero. -/
theorem C62_tile_itoh (tau : K) (ht : 0 < tau) (solver : FlowSolver) (j : TileJob K) (hj : GoodJob j)
    (tiles : TileSet) (t : Nat) (b : BBox) (hb : tiles.tiles[t]? = some b) (hin : TileInImage (j.coh.rows, j.coh.cols) b)
    (hr : TileReady j b) (φ : Nat → ℤ × ℤ → K) (hφ : TruePhase tau j φ) (hsm : SmoothOnTile tau j b φ)
    (oT : Nat → List Nat → List Nat) (oS : List Nat → List Nat)
    (hoT : ∀ k l, (oT k l).Perm l) (hoS : ∀ l, (oS l).Perm l) :
    ∃ f, unwrapOneTile tau solver j tiles t oT oS = .ok f ∧ f.tile = b ∧ filePoints f = tilePixels j b ∧
      ∀ i s u : Nat, j.time.links[i]? = some (s, u) → ∃ c : ℤ,
        (∀ n p, (tilePixels j b)[n]? = some p → filePhase f i n = (φ u p - φ s p) + c * tau) ∧
        |filePhase f i 0| ≤ tau / 2 := by
  obtain ⟨hcs, hne, hconn, ⟨tc, htc⟩, ⟨sc, hsc⟩, hpool, hd0⟩ := hr
  obtain ⟨time, htime⟩ := C06_contract_accepted j.time hj.contract
  obtain ⟨space, hspace⟩ := C06_contract_accepted (tileGraph j b) hcs
  have hmgt : time.graph = j.time := ormcf_graph htime
  have hmgs : space.graph = tileGraph j b := ormcf_graph hspace
  set pts := tilePoints j.coh j.thr b with hpts
  have hnp : (tileGraph j b).npoints = pts.length := rfl
  obtain ⟨hx0, hx1, hx2, hy0, hy1, hy2⟩ := hin
  simp only at hx2 hy2
  obtain ⟨_, hpw, hmem, hlen, hrow⟩ := C36_read_tile j.coh j.thr j.dates j.phase (0 : K) b hx0 hx1 hx2
    hy0 hy1 hy2 (fun d im hd => by obtain ⟨a1, a2⟩ := hj.images d im hd; rw [a1, a2]; exact ⟨hx2, hy2⟩)
  rw [← hpts] at hpw hmem hrow
  set wd := (readTile j.coh j.thr j.dates j.phase (0 : K) b).2 with hwd
  have hpl : (tilePixels j b).length = pts.length := by simp [tilePixels, hpts]
  -- the values read
  have hval : ∀ s : Nat, s < j.dates.length → ∀ n (hn : n < pts.length), (wd.getD s []).getD n 0 =
      epochPhase j s ((pts[n].1 : ℤ) + b.xmin).toNat ((pts[n].2 : ℤ) + b.ymin).toNat := by
    intro s hs' n hn
    obtain ⟨row, hr, _, hr2⟩ := hrow s j.dates[s] (List.getElem?_eq_getElem hs')
    obtain ⟨h0, h1⟩ := hr2 n pts[n].1 pts[n].2 (List.getElem?_eq_getElem hn)
    rw [List.getD_eq_getElem?_getD (l := wd), hr]
    simp only [Option.getD_some]
    unfold epochPhase
    rw [List.getElem?_eq_getElem hs']
    simp only [Option.bind_some]
    rw [List.getD_eq_getElem?_getD]
    cases hf : j.phase j.dates[s] with
    | none => rw [h0 hf]; rfl
    | some im =>
      rw [h1 im hf]
      simp only [Option.getD_some, Option.elim_some]
      rw [show ((pts[n].1 : ℤ) + b.xmin).toNat = b.xmin.toNat + pts[n].1 by omega,
        show ((pts[n].2 : ℤ) + b.ymin).toNat = b.ymin.toNat + pts[n].2 by omega]
  have hpix : ∀ n (hn : n < pts.length), (tilePixels j b)[n]? = some ((pts[n].1 : ℤ) + b.xmin, (pts[n].2 : ℤ) + b.ymin) := by
    intro n hn
    simp [tilePixels, ← hpts, hn]
  have hk : ∀ s n, ∃ k : ℤ, s < j.dates.length → n < pts.length →
      (wd.getD s []).getD n 0 = φ s ((tilePixels j b).getD n (0, 0)) - k * tau := by
    intro s n
    by_cases h1 : s < j.dates.length
    swap; · exact ⟨0, fun h => absurd h h1⟩
    by_cases h2 : n < pts.length
    swap; · exact ⟨0, fun _ h => absurd h h2⟩
    obtain ⟨a1, a2, v, a3, a4⟩ := (hmem pts[n].1 pts[n].2).mp (List.getElem_mem h2)
    obtain ⟨k, hk⟩ := hφ s h1 ((pts[n].1 : ℤ) + b.xmin) ((pts[n].2 : ℤ) + b.ymin) (by
      unfold PixelOf; simp only; omega) ⟨v, by
      rw [show ((pts[n].1 : ℤ) + b.xmin).toNat = b.xmin.toNat + pts[n].1 by omega,
        show ((pts[n].2 : ℤ) + b.ymin).toNat = b.ymin.toNat + pts[n].2 by omega, a3], a4⟩
    refine ⟨k, fun _ _ => ?_⟩
    rw [hval s h1 n h2, hk, List.getD_eq_getElem?_getD, hpix n h2]
    rfl
  choose k hk using hk
  obtain ⟨⟨la, lb⟩, hl0⟩ := List.exists_mem_of_ne_nil _ hne
  have hpos : 0 < pts.length := by have := hcs.ordered la lb hl0; omega
  have hrows : ∀ row ∈ wd, row.length = pts.length := by
    intro row hr
    obtain ⟨k, hk, rfl⟩ := List.mem_iff_getElem.mp hr
    obtain ⟨row, h1, h2, _⟩ := hrow k j.dates[k] (List.getElem?_eq_getElem (by omega))
    rw [List.getElem?_eq_getElem hk, Option.some.injEq] at h1
    rw [h1, h2]
  have hwne : wd ≠ [] := List.ne_nil_of_length_pos (by rw [hlen]; exact List.length_pos_of_ne_nil hd0)
  have hhead : (wd.headD []).length = pts.length := by
    cases hw : wd with
    | nil => exact absurd hw hwne
    | cons a l => exact hrows a (by rw [hw]; simp)
  set e : Emcf := ⟨space, time, j.settings, j.cpuCount, j.tDist, j.tCent, j.sDist pts, j.sCent pts⟩ with he
  obtain ⟨out, hout, hol, hval2⟩ := C62_slc_itoh tau ht solver e j.time (tileGraph j b) hj.contract hcs hne hconn htime hspace
    hj.batch tc sc (by unfold Emcf.nifgs; rw [he]; simp only; rw [hmgt]; exact htc)
    (by unfold Emcf.nlinks; rw [he]; simp only; rw [hmgs]; exact hsc) hpool ⟨2, 0, wd⟩ rfl rfl (by simp only; rw [hlen, hj.dates])
    hwne (fun row hr => by rw [hnp]; exact hrows row hr) (fun s n => φ s ((tilePixels j b).getD n (0, 0))) k
    (fun s hs n hn => hk s n (by rw [hj.dates]; exact hs) hn)
    (by
      intro s u m n h1 h2
      have h3 := hcs.ordered m n h2
      refine hsm s u h1 m n h2 _ _ ?_ ?_
      · exact getElem?_of_getD (by omega)
      · exact getElem?_of_getD (by omega)) oT oS hoT hoS
  refine ⟨⟨out, pts.map fun p => ((p.1 : ℤ), (p.2 : ℤ)), b, phaseOffset tau j.time wd⟩, ?_, rfl, ?_, ?_⟩
  · unfold unwrapOneTile
    have hspace' : ormcf (delaunayGraph pts.length (j.simplices pts)) = .ok space := hspace
    simp only [hb, Option.elim_some, htime, Bind.bind, Except.bind, ← hpts, ← hwd, hspace']
    rw [if_neg (by rw [hhead]; simp [delaunayGraph])]
    rw [hout]
    rfl
  · simp [filePoints, tilePixels, hpts]
  · intro i s u hi
    have hlk := hj.contract.ordered s u (List.mem_of_getElem? hi)
    have hoff : (phaseOffset tau j.time wd).getD i 0 = phaseDiff tau ((wd.getD s []).getD 0 0) ((wd.getD u []).getD 0 0) := by
      unfold phaseOffset elem
      rw [List.getD_eq_getElem?_getD, List.getElem?_map, hi]
      rfl
    obtain ⟨c, hc⟩ : ∃ c : ℤ, (phaseOffset tau j.time wd).getD i 0 =
        (φ u ((tilePixels j b).getD 0 (0, 0)) - φ s ((tilePixels j b).getD 0 (0, 0))) + c * tau := by
      rw [hoff, phaseDiff_eq, hk s 0 (by rw [hj.dates]; omega) hpos, hk u 0 (by rw [hj.dates]; omega) hpos]
      generalize rint (K := K) _ = r
      exact ⟨k s 0 - k u 0 - r, by push_cast; ring⟩
    refine ⟨c, ?_, ?_⟩
    · intro n p hn
      have hn' : n < pts.length := by rw [← hpl]; exact (List.getElem?_eq_some_iff.mp hn).1
      unfold filePhase
      simp only
      rw [hval2 i s u hi n hn', hc, List.getD_eq_getElem?_getD, hn]
      simp only [Option.getD_some]
      ring
    · unfold filePhase
      simp only
      rw [hval2 i s u hi 0 hpos, hoff]
      have := phaseDiff_abs ht ((wd.getD s []).getD 0 0) ((wd.getD u []).getD 0 0) 0
      rw [sub_zero] at this
      simpa using this

end
end Spurt
