import Verif.Props.TileItoh
import Verif.Model.FloatWorkflow

/-! # The data a tile worker reads -/

namespace Spurt
open Spec

section
variable {K : Type} [Field K] [LinearOrder K] [IsStrictOrderedRing K] [FloorRing K]

/-- The stack restricted to the pixels of tile `b`, as a worker reads it. -/
def tileData (j : TileJob K) (b : BBox) : List (List K) := (readTile j.coh j.thr j.dates j.phase (0 : K) b).2

/-- The solver object of a worker. -/
def Spec.tileEmcf (j : TileJob K) (b : BBox) (time space : Mcf) : Emcf :=
  ⟨space, time, j.settings, j.cpuCount, j.tDist, j.tCent, j.sDist (tilePoints j.coh j.thr b), j.sCent (tilePoints j.coh j.thr b)⟩

omit [IsStrictOrderedRing K] [FloorRing K] in
theorem tile_read {j : TileJob K} (hj : GoodJob j) {b : BBox} (hin : TileInImage (j.coh.rows, j.coh.cols) b) :
    (tileData j b).length = j.dates.length ∧ (∀ row ∈ tileData j b, row.length = (tileGraph j b).npoints) ∧
    (tilePixels j b).length = (tileGraph j b).npoints ∧ (tilePoints j.coh j.thr b).Nodup ∧
    (∀ r c : ℤ, (r, c) ∈ tilePixels j b ↔ InTile b r c ∧ ValidPixel j r c) ∧
    ∀ s < j.dates.length, ∀ (n : Nat) p, (tilePixels j b)[n]? = some p →
      elem (tileData j b) s n = epochPhase j s p.1.toNat p.2.toNat := by
  obtain ⟨hx0, hx1, hx2, hy0, hy1, hy2⟩ := hin
  simp only at hx2 hy2
  obtain ⟨_, hpw, hmem, hlen, hrow⟩ := C36_read_tile j.coh j.thr j.dates j.phase (0 : K) b hx0 hx1 hx2
    hy0 hy1 hy2 (fun d im hd => by obtain ⟨a1, a2⟩ := hj.images d im hd; rw [a1, a2]; exact ⟨hx2, hy2⟩)
  refine ⟨hlen, ?_, by simp [tilePixels, tileGraph, delaunayGraph], ?_, ?_, ?_⟩
  · intro row hr
    obtain ⟨k, hk, rfl⟩ := List.mem_iff_getElem.mp hr
    have hk' : k < j.dates.length := by rw [← hlen]; exact hk
    obtain ⟨row, h1, h2, _⟩ := hrow k j.dates[k] (List.getElem?_eq_getElem hk')
    change (tileData j b)[k]? = _ at h1
    rw [List.getElem?_eq_getElem hk, Option.some.injEq] at h1
    rw [h1, h2]
    rfl
  · exact hpw.imp (fun {a b} h he => by subst he; omega)
  · intro r c
    unfold tilePixels
    rw [List.mem_map]
    constructor
    · rintro ⟨⟨p1, p2⟩, hp, hpe⟩
      obtain ⟨a1, a2, v, a3, a4⟩ := (hmem p1 p2).mp hp
      simp only [Prod.mk.injEq] at hpe
      obtain ⟨rfl, rfl⟩ := hpe
      refine ⟨by unfold InTile; omega, v, ?_, a4⟩
      rw [show ((p1 : ℤ) + b.xmin).toNat = b.xmin.toNat + p1 by omega,
        show ((p2 : ℤ) + b.ymin).toNat = b.ymin.toNat + p2 by omega, a3]
    · rintro ⟨⟨h1, h2, h3, h4⟩, v, hv, hthr⟩
      refine ⟨((r - b.xmin).toNat, (c - b.ymin).toNat), (hmem _ _).mpr ⟨by omega, by omega, v, ?_, hthr⟩, ?_⟩
      · rw [← hv]; congr 1 <;> omega
      · ext <;> simp only <;> omega
  · intro s hs n p hn
    have hn' : n < (tilePoints j.coh j.thr b).length := by
      have := (List.getElem?_eq_some_iff.mp hn).1
      simpa [tilePixels] using this
    have hp : p = (((tilePoints j.coh j.thr b)[n].1 : ℤ) + b.xmin, ((tilePoints j.coh j.thr b)[n].2 : ℤ) + b.ymin) := by
      unfold tilePixels at hn
      rw [List.getElem?_map, List.getElem?_eq_getElem hn'] at hn
      simpa using hn.symm
    subst hp
    obtain ⟨row, hr, _, hr2⟩ := hrow s j.dates[s] (List.getElem?_eq_getElem hs)
    obtain ⟨h0, h1⟩ := hr2 n (tilePoints j.coh j.thr b)[n].1 (tilePoints j.coh j.thr b)[n].2 (List.getElem?_eq_getElem hn')
    change (tileData j b)[s]? = _ at hr
    unfold elem
    rw [List.getD_eq_getElem?_getD (l := tileData j b), hr]
    simp only [Option.getD_some]
    unfold epochPhase
    rw [List.getElem?_eq_getElem hs]
    simp only [Option.bind_some]
    rw [List.getD_eq_getElem?_getD]
    cases hf : j.phase j.dates[s] with
    | none => rw [h0 hf]; rfl
    | some im =>
      rw [h1 im hf]
      simp only [Option.getD_some, Option.elim_some]
      rw [show (((tilePoints j.coh j.thr b)[n].1 : ℤ) + b.xmin).toNat = b.xmin.toNat + (tilePoints j.coh j.thr b)[n].1 by omega,
        show (((tilePoints j.coh j.thr b)[n].2 : ℤ) + b.ymin).toNat = b.ymin.toNat + (tilePoints j.coh j.thr b)[n].2 by omega]

end
end Spurt
