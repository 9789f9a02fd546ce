import Verif.Model.UnwrapTile
import Verif.Props.EmcfReturns
import Verif.Props.ReadTile
import Verif.Props.OverlapMap
import Mathlib.Tactic.IntervalCases
import Mathlib.Tactic.NormNum

/-!
# Property C55: what a tile file contains, and that the overlap stage accepts tile files
-/

namespace Spurt
open Spec

section
variable {K : Type} [Field K] [LinearOrder K] [IsStrictOrderedRing K] [FloorRing K]

/-- Phase of acquisition number `s` of the stack at an image pixel; 0 for the reference date. -/
def Spec.epochPhase (j : TileJob K) (s r c : Nat) : K :=
  ((j.dates[s]?).bind j.phase).elim 0 fun im => im.val r c

/-- The wrapped interferogram of acquisitions `s` and `t` at an image pixel. -/
def Spec.stackIfg (tau : K) (j : TileJob K) (s t r c : Nat) : K :=
  phaseDiff tau (epochPhase j s r c) (epochPhase j t r c)

/-- The coherence of an image pixel exceeds the threshold. -/
def Spec.ValidPixel (j : TileJob K) (r c : ℤ) : Prop :=
  ∃ v, j.coh.val r.toNat c.toNat = some v ∧ j.thr < v

/-- A job whose images have the size of the coherence image, with one date per point of the
temporal graph, and where scipy reports triangles with three different corners. -/
structure Spec.GoodJob (j : TileJob K) : Prop where
  contract : PlanarContract j.time.npoints j.time.links j.time.cycles
  dates : j.dates.length = j.time.npoints
  batch : 0 < j.settings.linksPerBatch
  images : ∀ d im, j.phase d = some im → im.rows = j.coh.rows ∧ im.cols = j.coh.cols
  triangles : ∀ pts, ∀ t ∈ j.simplices pts, t.1 ≠ t.2.1 ∧ t.1 ≠ t.2.2 ∧ t.2.1 ≠ t.2.2

theorem delaunay_links_lt {n : Nat} {tris : List Tri}
    (h : ∀ t ∈ tris, t.1 ≠ t.2.1 ∧ t.1 ≠ t.2.2 ∧ t.2.1 ≠ t.2.2) :
    ∀ a b, (a, b) ∈ (delaunayGraph n tris).links → a < b := by
  intro a b hab
  obtain ⟨t, ht, h'⟩ := mem_linksOfTriangles.mp hab
  obtain ⟨h1, h2, h3⟩ := h t ht
  unfold orderPoints at h'
  rcases h' with h' | h' | h' <;> (simp only at h'; split at h') <;>
    (simp only [Prod.mk.injEq] at h'; omega)

theorem ormcf_graph {g : PlanarGraph} {m : Mcf} (h : ormcf g = .ok m) : m.graph = g := by
  unfold ormcf at h
  cases e : prepareDual g with
  | error er => rw [e] at h; simp [Bind.bind, Except.bind] at h
  | ok d =>
    rw [e] at h
    simp only [Bind.bind, Except.bind, pure, Except.pure, Except.ok.injEq] at h
    rw [← h]

theorem getElem?_of_getD {α : Type} {l : List α} {n : Nat} {d : α} (h : n < l.length) :
    l[n]? = some (l.getD n d) := by
  rw [List.getD_eq_getElem?_getD, List.getElem?_eq_getElem h]; rfl

/-- `C55_tile_file` with the value at the first pixel, which is the wrapped interferogram itself. -/
theorem tile_file_first (tau : K) (solver : FlowSolver) (hs : SolverSound solver) (j : TileJob K)
    (hj : GoodJob j) (tiles : TileSet) (t : Nat) (b : BBox) (hb : tiles.tiles[t]? = some b)
    (hin : TileInImage (j.coh.rows, j.coh.cols) b)
    (oT : Nat → List Nat → List Nat) (oS : List Nat → List Nat)
    (hoT : ∀ k l, (oT k l).Perm l) (hoS : ∀ l, (oS l).Perm l) (f : TileFile K)
    (h : unwrapOneTile tau solver j tiles t oT oS = .ok f) :
    f.tile = b ∧ (imagePoints f b).Pairwise RowMajorLt ∧
    (∀ r c : ℤ, (r, c) ∈ imagePoints f b ↔ InTile b r c ∧ ValidPixel j r c) ∧
    (imagePhase f).length = j.time.links.length ∧
    ∀ i s u : Nat, j.time.links[i]? = some (s, u) → ∃ row, (imagePhase f)[i]? = some row ∧
      row.length = (imagePoints f b).length ∧
      ∀ (n : Nat) (r c : ℤ), (imagePoints f b)[n]? = some (r, c) → ∃ k : ℤ, (n = 0 → k = 0) ∧
        row[n]? = some (stackIfg tau j s u r.toNat c.toNat + k * tau) := by
  unfold unwrapOneTile at h
  rw [hb] at h
  simp only [Option.elim_some, Bind.bind, Except.bind] at h
  cases e1 : ormcf j.time with
  | error er => rw [e1] at h; simp at h
  | ok sTime =>
  rw [e1] at h
  simp only at h
  set pts := tilePoints j.coh j.thr b with hpts
  cases e2 : ormcf (delaunayGraph pts.length (j.simplices pts)) with
  | error er => rw [e2] at h; simp at h
  | ok sSpace =>
  rw [e2] at h
  simp only at h
  set wd := (readTile j.coh j.thr j.dates j.phase (0 : K) b).2 with hwd
  split at h
  · simp at h
  rename_i hass
  set e : Emcf := ⟨sSpace, sTime, j.settings, j.cpuCount, j.tDist, j.tCent, j.sDist pts, j.sCent pts⟩ with he
  cases e3 : unwrapCube tau solver e ⟨2, 0, wd⟩ oT oS with
  | error er => rw [e3] at h; simp at h
  | ok uw =>
  rw [e3] at h
  simp only [pure, Except.pure, Except.ok.injEq] at h
  obtain ⟨hx0, hx1, hx2, hy0, hy1, hy2⟩ := hin
  simp only at hx2 hy2
  obtain ⟨_, hpw, hmem, hlen, hrow⟩ := C36_read_tile j.coh j.thr j.dates j.phase (0 : K) b hx0 hx1 hx2
    hy0 hy1 hy2 (fun d im hd => by obtain ⟨a1, a2⟩ := hj.images d im hd; rw [a1, a2]; exact ⟨hx2, hy2⟩)
  rw [← hpts] at hpw hmem hrow
  rw [← hwd] at hlen hrow
  have hsg : sSpace.graph = delaunayGraph pts.length (j.simplices pts) := ormcf_graph e2
  have hnp : e.space.graph.npoints = pts.length := by rw [he]; simp only; rw [hsg]; rfl
  have hcong := C21_slc_congruent tau solver e j.time hj.contract e1 hs hj.batch
    (by rw [he]; simp only; rw [hsg]; exact delaunay_links_lt (hj.triangles pts))
    ⟨2, 0, wd⟩ (by simp only; rw [hlen, hj.dates]) oT oS hoT hoS uw e3
  obtain ⟨hul, hcong⟩ := hcong
  have hip : imagePoints f b = pts.map fun p => ((p.1 : ℤ) + b.xmin, (p.2 : ℤ) + b.ymin) := by
    rw [← h]; unfold imagePoints; simp [List.map_map, Function.comp_def]
  have hph : imagePhase f = List.zipWith (fun row off => row.map (· + off)) uw
      (phaseOffset tau j.time wd) := by rw [← h]; rfl
  have hol : (phaseOffset tau j.time wd).length = j.time.links.length := by simp [phaseOffset]
  refine ⟨by rw [← h], ?_, ?_, ?_, ?_⟩
  · rw [hip, List.pairwise_map]
    refine hpw.imp ?_
    intro p q hpq
    unfold RowMajorLt
    simp only
    omega
  · intro r c
    rw [hip, List.mem_map]
    constructor
    · rintro ⟨⟨p1, p2⟩, hp, hpe⟩
      obtain ⟨a1, a2, v, a3, a4⟩ := (hmem p1 p2).mp hp
      simp only [Prod.mk.injEq] at hpe
      obtain ⟨rfl, rfl⟩ := hpe
      refine ⟨by unfold InTile; omega, v, ?_, a4⟩
      rw [show ((p1 : ℤ) + b.xmin).toNat = b.xmin.toNat + p1 by omega,
        show ((p2 : ℤ) + b.ymin).toNat = b.ymin.toNat + p2 by omega, a3]
    · rintro ⟨hit, v, a3, a4⟩
      unfold InTile at hit
      obtain ⟨i1, i2, i3, i4⟩ := hit
      refine ⟨((r - b.xmin).toNat, (c - b.ymin).toNat), ?_, ?_⟩
      · rw [hmem]
        refine ⟨by omega, by omega, v, ?_, a4⟩
        rw [show b.xmin.toNat + (r - b.xmin).toNat = r.toNat by omega,
          show b.ymin.toNat + (c - b.ymin).toNat = c.toNat by omega, a3]
      · simp only [Prod.mk.injEq]; omega
  · rw [hph, List.length_zipWith, hul, hol, min_self]
  · intro i s u hi
    obtain ⟨hrl, hfirst, hpx⟩ := hcong i s u hi
    have hil : i < j.time.links.length := (List.getElem?_eq_some_iff.mp hi).1
    have g1 : uw[i]? = some (uw.getD i []) := getElem?_of_getD (by omega)
    have g2 : (phaseOffset tau j.time wd)[i]? = some ((phaseOffset tau j.time wd).getD i 0) :=
      getElem?_of_getD (by omega)
    refine ⟨(uw.getD i []).map (· + (phaseOffset tau j.time wd).getD i 0), ?_, ?_, ?_⟩
    · rw [hph, List.getElem?_zipWith, g1, g2]
    · rw [List.length_map, hrl, hnp, hip, List.length_map]
    · intro n r c hn
      rw [hip, List.getElem?_map] at hn
      cases hpn : pts[n]? with
      | none => rw [hpn] at hn; simp at hn
      | some p =>
      obtain ⟨p1, p2⟩ := p
      rw [hpn] at hn
      simp only [Option.map_some, Option.some.injEq, Prod.mk.injEq] at hn
      obtain ⟨rfl, rfl⟩ := hn
      have hnl : n < pts.length := (List.getElem?_eq_some_iff.mp hpn).1
      obtain ⟨k, hk0, hk⟩ : ∃ k : ℤ, (n = 0 → k = 0) ∧ (uw.getD i []).getD n 0 + (phaseOffset tau j.time wd).getD i 0 =
          ifgPhase tau wd s u n + k * tau := by
        by_cases h0 : n = 0
        · refine ⟨0, fun _ => rfl, ?_⟩
          subst h0
          rw [hfirst, zero_add]
          have : (phaseOffset tau j.time wd)[i]? = some (ifgPhase tau wd s u 0) := by
            unfold phaseOffset
            rw [List.getElem?_map, hi]
            rfl
          rw [List.getD_eq_getElem?_getD, this]
          simp
        · obtain ⟨k, hk⟩ := (hpx n (by rw [hnp]; exact hnl)).2
          exact ⟨k, fun h => absurd h h0, hk⟩
      refine ⟨k, hk0, ?_⟩
      rw [List.getElem?_map, getElem?_of_getD (d := (0 : K)) (by rw [hrl, hnp]; exact hnl)]
      simp only [Option.map_some, Option.some.injEq]
      rw [hk]
      congr 1
      have hval : ∀ s : Nat, s < j.dates.length → (wd.getD s []).getD n 0 =
          epochPhase j s ((p1 : ℤ) + b.xmin).toNat ((p2 : ℤ) + b.ymin).toNat := by
        intro s hs'
        obtain ⟨row, hr, _, hr2⟩ := hrow s j.dates[s] (List.getElem?_eq_getElem hs')
        obtain ⟨h0, h1⟩ := hr2 n p1 p2 hpn
        rw [List.getD_eq_getElem?_getD (l := wd), hr]
        simp only [Option.getD_some]
        unfold epochPhase
        rw [List.getElem?_eq_getElem hs']
        simp only [Option.bind_some]
        rw [List.getD_eq_getElem?_getD]
        cases hf : j.phase j.dates[s] with
        | none => rw [h0 hf]; rfl
        | some im =>
          rw [h1 im hf]
          simp only [Option.getD_some, Option.elim_some]
          rw [show ((p1 : ℤ) + b.xmin).toNat = b.xmin.toNat + p1 by omega,
            show ((p2 : ℤ) + b.ymin).toNat = b.ymin.toNat + p2 by omega]
      have hlk := hj.contract.ordered s u (List.mem_of_getElem? hi)
      unfold ifgPhase stackIfg
      rw [hval s (by rw [hj.dates]; omega), hval u (by rw [hj.dates]; omega)]

/-- C55. The tile file: the stored points, moved by the corner of the tile, are the pixels of
the tile with sufficient coherence, each once, in row-major order; and the stored phase plus
the stored offset differs at every one of them from the wrapped interferogram of the stack by
whole cycles, in every interferogram of the temporal graph. -/
theorem C55_tile_file (tau : K) (solver : FlowSolver) (hs : SolverSound solver) (j : TileJob K)
    (hj : GoodJob j) (tiles : TileSet) (t : Nat) (b : BBox) (hb : tiles.tiles[t]? = some b)
    (hin : TileInImage (j.coh.rows, j.coh.cols) b)
    (oT : Nat → List Nat → List Nat) (oS : List Nat → List Nat)
    (hoT : ∀ k l, (oT k l).Perm l) (hoS : ∀ l, (oS l).Perm l) (f : TileFile K)
    (h : unwrapOneTile tau solver j tiles t oT oS = .ok f) :
    f.tile = b ∧ (imagePoints f b).Pairwise RowMajorLt ∧
    (∀ r c : ℤ, (r, c) ∈ imagePoints f b ↔ InTile b r c ∧ ValidPixel j r c) ∧
    (imagePhase f).length = j.time.links.length ∧
    ∀ i s u : Nat, j.time.links[i]? = some (s, u) → ∃ row, (imagePhase f)[i]? = some row ∧
      row.length = (imagePoints f b).length ∧
      ∀ (n : Nat) (r c : ℤ), (imagePoints f b)[n]? = some (r, c) → ∃ k : ℤ,
        row[n]? = some (stackIfg tau j s u r.toNat c.toNat + k * tau) := by
  obtain ⟨h1, h2, h3, h4, h5⟩ := tile_file_first tau solver hs j hj tiles t b hb hin oT oS hoT hoS f h
  refine ⟨h1, h2, h3, h4, fun i s u hi => ?_⟩
  obtain ⟨row, r1, r2, r3⟩ := h5 i s u hi
  exact ⟨row, r1, r2, fun n r c hn => (r3 n r c hn).imp fun _ hk => hk.2⟩

/-- C55. Two tiles of one stack agree up to whole cycles at every common pixel, in every
interferogram. -/
theorem C55_common_pixels (tau : K) (solver : FlowSolver) (hs : SolverSound solver) (j : TileJob K)
    (hj : GoodJob j) (tiles : TileSet) (t t' : Nat) (b b' : BBox)
    (hb : tiles.tiles[t]? = some b) (hb' : tiles.tiles[t']? = some b')
    (hin : TileInImage (j.coh.rows, j.coh.cols) b) (hin' : TileInImage (j.coh.rows, j.coh.cols) b')
    (oT oT' : Nat → List Nat → List Nat) (oS oS' : List Nat → List Nat)
    (hoT : ∀ k l, (oT k l).Perm l) (hoS : ∀ l, (oS l).Perm l)
    (hoT' : ∀ k l, (oT' k l).Perm l) (hoS' : ∀ l, (oS' l).Perm l) (f f' : TileFile K)
    (h : unwrapOneTile tau solver j tiles t oT oS = .ok f)
    (h' : unwrapOneTile tau solver j tiles t' oT' oS' = .ok f')
    (i n n' : Nat) (hi : i < j.time.links.length) (p : ℤ × ℤ)
    (hn : (imagePoints f b)[n]? = some p) (hn' : (imagePoints f' b')[n']? = some p) :
    ∃ row row' x x', (imagePhase f)[i]? = some row ∧ (imagePhase f')[i]? = some row' ∧
      row[n]? = some x ∧ row'[n']? = some x' ∧ ∃ k : ℤ, x' - x = k * tau := by
  have hg : j.time.links[i]? = some (j.time.links[i].1, j.time.links[i].2) := by simp [hi]
  obtain ⟨row, r1, _, r2⟩ := (C55_tile_file tau solver hs j hj tiles t b hb hin oT oS hoT hoS f h).2.2.2.2 i _ _ hg
  obtain ⟨row', r1', _, r2'⟩ := (C55_tile_file tau solver hs j hj tiles t' b' hb' hin' oT' oS' hoT' hoS' f' h').2.2.2.2 i _ _ hg
  obtain ⟨k, hk⟩ := r2 n p.1 p.2 hn
  obtain ⟨k', hk'⟩ := r2' n' p.1 p.2 hn'
  refine ⟨row, row', _, _, r1, r1', hk, hk', k' - k, ?_⟩
  push_cast; ring

/-- C55. The overlap stage accepts the tile files of one stack: when every tile of the set lies
in the image, has a valid pixel and was unwrapped, a minimum overlap of 11 points or more is
asked for, and no two phases of two tiles differ by more than 32767 cycles, it writes the overlap
file. -/
theorem C55_overlap_returns (tau : K) (ht : 0 < tau) (solver : FlowSolver) (hs : SolverSound solver)
    (j : TileJob K) (hj : GoodJob j) (tiles : TileSet) (hn : tiles.tiles.length ≠ 1)
    (hin : ∀ b ∈ tiles.tiles, TileInImage (j.coh.rows, j.coh.cols) b ∧
      ∃ r c, InTile b r c ∧ ValidPixel j r c)
    (oT : Nat → Nat → List Nat → List Nat) (oS : Nat → List Nat → List Nat)
    (hoT : ∀ t k l, (oT t k l).Perm l) (hoS : ∀ t l, (oS t l).Perm l)
    (files : Nat → Except PyErr (TileFile K))
    (hfiles : ∀ t, t < tiles.tiles.length → ∃ f, files t = .ok f ∧
      unwrapOneTile tau solver j tiles t (oT t) (oS t) = .ok f)
    (hsmall : ∀ (t t' : Nat) f f' (i n n' : Nat), files t = .ok f → files t' = .ok f' →
      |phaseAt f' i n' - phaseAt f i n| ≤ 32767 * tau)
    (minPoints : ℤ) (hmin : 11 ≤ minPoints) (cc : Nat → List (Nat × Nat) → List Nat) :
    ∃ f, phasediffDeciles id tau minPoints cc tiles files = .ok (some f) := by
  have hget : ∀ (t : Nat) b f, tiles.tiles[t]? = some b → files t = .ok f →
      TileInImage (j.coh.rows, j.coh.cols) b ∧ unwrapOneTile tau solver j tiles t (oT t) (oS t) = .ok f := by
    intro t b f hb hf
    refine ⟨(hin b (List.mem_of_getElem? hb)).1, ?_⟩
    obtain ⟨f', h1, h2⟩ := hfiles t (List.getElem?_eq_some_iff.mp hb).1
    rw [hf] at h1
    simp only [Except.ok.injEq] at h1
    rw [h1]; exact h2
  refine C53_returns tau minPoints hmin cc tiles files hn j.time.links.length ?_ ?_
  · intro t b hb
    obtain ⟨f, hf, hu⟩ := hfiles t (List.getElem?_eq_some_iff.mp hb).1
    obtain ⟨hti, r, c, hit, hv⟩ := hin b (List.mem_of_getElem? hb)
    obtain ⟨_, _, hm, hl, _⟩ := C55_tile_file tau solver hs j hj tiles t b hb hti _ _ (hoT t) (hoS t) f hu
    refine ⟨f, hf, List.ne_nil_of_mem ((hm r c).mpr ⟨hit, hv⟩), ?_, hl⟩
    rintro ⟨r', c'⟩ hp
    obtain ⟨hit', _⟩ := (hm r' c').mp hp
    obtain ⟨h1, _, _, h2, _, _⟩ := hti
    unfold InTile at hit'
    simp only
    omega
  · intro t t' b b' f f' _ hb hb' hf hf' i hi n n' p hp hp'
    obtain ⟨g1, g2⟩ := hget t b f hb hf
    obtain ⟨g1', g2'⟩ := hget t' b' f' hb' hf'
    obtain ⟨row, row', x, x', r1, r1', r2, r2', k, hk⟩ := C55_common_pixels tau solver hs j hj tiles t t' b b'
      hb hb' g1 g1' _ _ _ _ (hoT t) (hoS t) (hoT t') (hoS t') f f' g2 g2' i n n' hi p hp hp'
    have hx : phaseAt f i n = x := by
      unfold phaseAt; simp [List.getD_eq_getElem?_getD, r1, r2]
    have hx' : phaseAt f' i n' = x' := by
      unfold phaseAt; simp [List.getD_eq_getElem?_getD, r1', r2']
    have hle := hsmall t t' f f' i n n' hf hf'
    rw [hx, hx', hk] at *
    have habs : |(k : K)| ≤ 32767 := by
      rw [abs_mul, abs_of_pos ht] at hle
      exact le_of_mul_le_mul_right hle ht
    have hkI : |k| ≤ 32767 := by exact_mod_cast habs
    obtain ⟨k1, k2⟩ := abs_le.mp hkI
    refine ⟨k, by omega, by omega, ?_⟩
    rw [mul_div_assoc, div_self ht.ne', mul_one, sub_self, abs_zero]
    positivity

/-- C55. A tile worker completes: for wrapped phase images, constant costs, a complete optimal
flow solver and a triangulation of the valid pixels of the tile that is connected, oriented and
without holes. -/
theorem C55_tile_returns (tau : K) (ht : 0 < tau) (solver : FlowSolver)
    (hopt : SolverOptimal solver) (hcomp : SolverComplete solver)
    (j : TileJob K) (hj : GoodJob j) (tiles : TileSet) (t : Nat) (b : BBox)
    (hb : tiles.tiles[t]? = some b) (hin : TileInImage (j.coh.rows, j.coh.cols) b)
    (gs : PlanarGraph) (hgs : gs = delaunayGraph (tilePoints j.coh j.thr b).length
      (j.simplices (tilePoints j.coh j.thr b)))
    (hcs : PlanarContract gs.npoints gs.links gs.cycles) (hne : gs.links ≠ [])
    (hconn : Connected gs.npoints gs.links) (hgen : CyclesGenerate K gs.links gs.cycles)
    (hc1 : j.settings.tCostType = "constant") (hc2 : j.settings.sCostType = "constant")
    (hpool : 1 ≤ j.settings.sWorkerCount ∨ 2 ≤ j.cpuCount)
    (hsize : j.time.links.length ≤ 1000000000) (hd0 : j.dates ≠ [])
    (hwrap : ∀ s r c, |epochPhase j s r c| ≤ tau / 2)
    (oT : Nat → List Nat → List Nat) (oS : List Nat → List Nat)
    (hoT : ∀ k l, (oT k l).Perm l) (hoS : ∀ l, (oS l).Perm l) :
    ∃ f, unwrapOneTile tau solver j tiles t oT oS = .ok f := by
  obtain ⟨time, htime⟩ := C06_contract_accepted j.time hj.contract
  obtain ⟨space, hspace⟩ := C06_contract_accepted gs hcs
  unfold unwrapOneTile
  simp only [hb, Option.elim_some, htime, Bind.bind, Except.bind, ← hgs, hspace]
  obtain ⟨hx0, hx1, hx2, hy0, hy1, hy2⟩ := hin
  simp only at hx2 hy2
  obtain ⟨_, _, _, hlen, hrow⟩ := C36_read_tile j.coh j.thr j.dates j.phase (0 : K) b hx0 hx1 hx2
    hy0 hy1 hy2 (fun d im hd => by obtain ⟨a1, a2⟩ := hj.images d im hd; rw [a1, a2]; exact ⟨hx2, hy2⟩)
  set wd := (readTile j.coh j.thr j.dates j.phase (0 : K) b).2 with hwd
  have hnp : gs.npoints = (tilePoints j.coh j.thr b).length := by rw [hgs]; rfl
  have hrows : ∀ (k : Nat) (h : k < wd.length), wd[k].length = gs.npoints ∧ ∀ x ∈ wd[k], |x| ≤ tau / 2 := by
    intro k hk
    have hkd : k < j.dates.length := by omega
    obtain ⟨row, h1, h2, h3⟩ := hrow k j.dates[k] (List.getElem?_eq_getElem hkd)
    rw [List.getElem?_eq_getElem hk, Option.some.injEq] at h1
    rw [h1]
    refine ⟨by rw [h2, hnp], ?_⟩
    intro x hx
    obtain ⟨n, hn, rfl⟩ := List.mem_iff_getElem.mp hx
    obtain ⟨h4, h5⟩ := h3 n _ _ (List.getElem?_eq_getElem (show n < (tilePoints j.coh j.thr b).length by omega))
    cases hp : j.phase j.dates[k] with
    | none =>
      have := h4 hp
      rw [List.getElem?_eq_getElem hn, Option.some.injEq] at this
      rw [this, abs_zero]; positivity
    | some im =>
      have := h5 im hp
      rw [List.getElem?_eq_getElem hn, Option.some.injEq] at this
      rw [this]
      have h6 := hwrap k
      unfold epochPhase at h6
      simp only [List.getElem?_eq_getElem hkd, Option.bind_some, hp, Option.elim_some] at h6
      exact h6 _ _
  have hwpos : 0 < wd.length := by rw [hlen]; exact List.length_pos_of_ne_nil hd0
  have hhead : (wd.headD []).length = gs.npoints := by
    have h0 := (hrows 0 hwpos).1
    cases hw : wd with
    | nil => rw [hw] at hwpos; simp at hwpos
    | cons a l => simp only [hw, List.getElem_cons_zero] at h0; simpa using h0
  rw [if_neg (by rw [hhead]; simp)]
  have hmgs : space.graph = gs := ormcf_graph hspace
  obtain ⟨out, hout⟩ := C21_cube_returns tau ht solver
    ⟨space, time, j.settings, j.cpuCount, j.tDist, j.tCent, j.sDist (tilePoints j.coh j.thr b),
      j.sCent (tilePoints j.coh j.thr b)⟩ j.time gs hj.contract hcs hne hconn hgen htime hspace
    hopt hcomp hj.batch hc1 (List.replicate gs.links.length 1) (List.replicate gs.links.length 1)
    (by unfold costOf Emcf.nlinks; rw [if_pos hc2, hmgs]) ⟨by simp, .inl rfl⟩ (by simp) hpool hsize
    ⟨2, 0, wd⟩ rfl rfl (by simp only; rw [hlen, hj.dates])
    (List.ne_nil_of_length_pos hwpos)
    (by
      intro row hr
      obtain ⟨k, hk, rfl⟩ := List.mem_iff_getElem.mp hr
      exact (hrows k hk).1)
    (by
      intro row hr
      obtain ⟨k, hk, rfl⟩ := List.mem_iff_getElem.mp hr
      exact (hrows k hk).2) oT oS hoT hoS
  rw [hout]
  exact ⟨_, rfl⟩

end

/-- Non-vacuity: three acquisitions, a 2 × 2 image with one pixel below the threshold, one
triangle. -/
def exampleJob : TileJob ℚ where
  coh := ⟨2, 2, fun r c => if r = 1 ∧ c = 0 then none else some 1⟩
  thr := 1 / 2
  dates := ["20200101", "20200113", "20200125"]
  phase := fun d => if d = "20200101" then none else if d = "20200113" then
    some ⟨2, 2, fun r c => if r = c then 1 / 4 else -1 / 2⟩ else some ⟨2, 2, fun _ c => if c = 0 then 1 / 3 else -1 / 3⟩
  time := ⟨3, [(0, 1), (0, 2), (1, 2)], [[0, 1, 2]]⟩
  settings := {}
  cpuCount := 4
  simplices := fun _ => [(0, 1, 2)]
  tDist := .ok []
  tCent := .ok []
  sDist := fun _ => .ok []
  sCent := fun _ => .ok []

theorem triangle_contract : PlanarContract 3 [(0, 1), (0, 2), (1, 2)] [[0, 1, 2]] := by
  constructor <;> simp [walked, sides] <;> omega

theorem triangle_links : linksOfTriangles [(0, 1, 2)] = [(0, 1), (0, 2), (1, 2)] := by
  refine lexSorted_ext (linksOfTriangles_sorted _) (by simp [LexLt]) ?_
  intro x
  rw [mem_linksOfTriangles]
  simp [orderPoints]

theorem exampleJob_good : GoodJob exampleJob where
  contract := triangle_contract
  dates := rfl
  batch := by decide
  images := by
    intro d im h
    unfold exampleJob at h ⊢
    simp only at h
    split at h
    · simp at h
    · split at h <;> (simp only [Option.some.injEq] at h; subst h; simp)
  triangles := by intro pts t ht; simp [exampleJob] at ht; subst ht; simp

/-- The tile of the example job is unwrapped. -/
theorem exampleJob_unwraps : ∃ (solver : FlowSolver) (f : TileFile ℚ), SolverSound solver ∧ GoodJob exampleJob ∧
    TileInImage (exampleJob.coh.rows, exampleJob.coh.cols) ⟨0, 0, 2, 2⟩ ∧
    unwrapOneTile 1 solver exampleJob ⟨(2, 2), [⟨0, 0, 2, 2⟩]⟩ 0 (fun _ => List.reverse) List.reverse = .ok f := by
  obtain ⟨s, hs, hcomp⟩ := exists_solver
  have hpts : tilePoints exampleJob.coh exampleJob.thr ⟨0, 0, 2, 2⟩ = [(0, 0), (0, 1), (1, 1)] := by
    decide +kernel
  have hg : (⟨3, [(0, 1), (0, 2), (1, 2)], [[0, 1, 2]]⟩ : PlanarGraph) =
      delaunayGraph (tilePoints exampleJob.coh exampleJob.thr ⟨0, 0, 2, 2⟩).length
        (exampleJob.simplices (tilePoints exampleJob.coh exampleJob.thr ⟨0, 0, 2, 2⟩)) := by
    rw [hpts]
    unfold delaunayGraph exampleJob
    simp only
    rw [triangle_links]
    rfl
  obtain ⟨f, hf⟩ := C55_tile_returns (1 : ℚ) one_pos s hs hcomp exampleJob exampleJob_good
    ⟨(2, 2), [⟨0, 0, 2, 2⟩]⟩ 0 ⟨0, 0, 2, 2⟩ rfl (by unfold TileInImage exampleJob; simp) _ hg
    triangle_contract (by simp)
    (by
      intro p hp
      simp only at hp
      have h01 : Adjacent [(0, 1), (0, 2), (1, 2)] 0 1 := by simp [Adjacent]
      have h02 : Adjacent [(0, 1), (0, 2), (1, 2)] 0 2 := by simp [Adjacent]
      interval_cases p
      · exact .refl
      · exact .single h01
      · exact .single h02)
    (by
      intro vals hv hc
      have := hc [0, 1, 2] (by simp)
      have i0 : List.idxOf (0, 1) [(0, 1), (0, 2), (1, 2)] = 0 := by decide
      have i1 : List.idxOf (0, 2) [(0, 1), (0, 2), (1, 2)] = 1 := by decide
      have i2 : List.idxOf (1, 2) [(0, 1), (0, 2), (1, 2)] = 2 := by decide
      simp [circulation, sides, along, onLink, i0, i1, i2] at this
      refine ⟨fun n => if n = 0 then 0 else if n = 1 then vals.getD 0 0 else vals.getD 1 0, ?_⟩
      intro a b hab
      simp at hab
      rcases hab with ⟨rfl, rfl⟩ | ⟨rfl, rfl⟩ | ⟨rfl, rfl⟩ <;>
        simp [onLink, i0, i1, i2]
      linarith)
    rfl rfl (.inl (by decide)) (by decide) (by decide)
    (by
      intro s r c
      unfold epochPhase exampleJob
      rcases s with _ | _ | _ | s
      · norm_num
      · simp only [List.getElem?_cons_succ, List.getElem?_cons_zero, Option.bind_some]
        rw [if_neg (by decide), if_pos trivial]
        simp only [Option.elim_some]
        split <;> (rw [abs_le]; norm_num)
      · simp only [List.getElem?_cons_succ, List.getElem?_cons_zero, Option.bind_some]
        rw [if_neg (by decide), if_neg (by decide)]
        simp only [Option.elim_some]
        split <;> (rw [abs_le]; norm_num)
      · simp)
    (fun _ => List.reverse) List.reverse (fun _ l => List.reverse_perm l) (fun l => List.reverse_perm l)
  exact ⟨s, f, hs.1, exampleJob_good, by unfold TileInImage exampleJob; simp, hf⟩

end Spurt
