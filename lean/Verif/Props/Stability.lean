import Verif.Lemmas.Perturb
import Verif.Props.Shift

/-!
# Property C92: a change of the data that flips no wrapping decision passes through unchanged
-/

namespace Spurt
open Spec

section
variable {K S : Type} [Field K] [LinearOrder K] [IsStrictOrderedRing K] [FloorRing K]

/-- `x`, brought into the cycle around zero, stays strictly within half a cycle when `δ` is added. -/
def Spec.StaysWithin (tau x δ : K) : Prop := ∀ k : ℤ, |x + k * tau| ≤ tau / 2 → |x + k * tau + δ| < tau / 2

theorem phaseDiff_moved {tau : K} (ht : 0 < tau) {z0 z1 z0' z1' δ : K} (k : ℤ) (h : z1' - z0' = z1 - z0 + δ + k * tau)
    (hs : StaysWithin tau (z1 - z0) δ) : phaseDiff tau z0' z1' = phaseDiff tau z0 z1 + δ := by
  obtain ⟨⟨k0, h0⟩, hr⟩ := C07_phase_diff_wraps tau ht z0 z1 0
  obtain ⟨⟨k1, h1⟩, hr1⟩ := C07_phase_diff_wraps tau ht z0' z1' 0
  have hw := hs k0 (by rw [← h0]; simpa using hr)
  rw [← h0] at hw
  rw [phaseDiff_eq tau z0' z1']
  have hz : (z1' - z0') / tau = (phaseDiff tau z0 z1 + δ) / tau + ((k - k0 : ℤ) : K) := by
    rw [h, h0]; push_cast; field_simp; ring
  have hlt : |(phaseDiff tau z0 z1 + δ) / tau| < 1 / 2 := by
    rw [abs_div, abs_of_pos ht, div_lt_iff₀ ht]; linarith
  have hr : rint ((z1' - z0') / tau) = k - k0 := by
    rw [hz, rint_add_int _ _ (by
      intro t ht'
      rw [ht', abs_lt] at hlt
      obtain ⟨l1, l2⟩ := hlt
      have a1 : (-1 : K) < t := by linarith
      have a2 : (t : K) < 0 := by linarith
      have a1' : (-1 : ℤ) < t := by exact_mod_cast a1
      have a2' : t < 0 := by exact_mod_cast a2
      omega), rint_abs_le_half hlt.le]
    ring
  rw [hr, h, h0]
  push_cast
  ring

omit [FloorRing K] in
theorem staysWithin_cycles {tau x δ : K} (h : StaysWithin tau x δ) (m : ℤ) : StaysWithin tau (x + m * tau) δ := by
  intro k hk
  have := h (m + k) (by push_cast; rw [show x + (m + k) * tau = x + m * tau + k * tau by ring]; exact hk)
  push_cast at this
  rwa [show x + (m + k) * tau = x + m * tau + k * tau by ring] at this

theorem spaceGrad_moved {tau : K} (ht : 0 < tau) (e : Emcf) (data data' : List (List K)) (i j : Nat) {s u p q : Nat}
    (hi : e.time.graph.links.getD i (0, 0) = (s, u)) (hj : e.space.graph.links.getD j (0, 0) = (p, q)) (δ : K) (k : ℤ)
    (h : (elem data' u q - elem data' s q) - (elem data' u p - elem data' s p) =
      (elem data u q - elem data s q) - (elem data u p - elem data s p) + δ + k * tau)
    (hs : StaysWithin tau ((elem data u q - elem data s q) - (elem data u p - elem data s p)) δ) :
    spaceGrad tau e data' false i j = spaceGrad tau e data false i j + δ := by
  unfold spaceGrad
  simp only [hi, hj, Bool.false_eq_true, if_false]
  obtain ⟨⟨k0, h0⟩, -⟩ := C07_phase_diff_wraps tau ht (elem data s p) (elem data u p) 0
  obtain ⟨⟨k1, h1⟩, -⟩ := C07_phase_diff_wraps tau ht (elem data s q) (elem data u q) 0
  obtain ⟨⟨k0', h0'⟩, -⟩ := C07_phase_diff_wraps tau ht (elem data' s p) (elem data' u p) 0
  obtain ⟨⟨k1', h1'⟩, -⟩ := C07_phase_diff_wraps tau ht (elem data' s q) (elem data' u q) 0
  refine phaseDiff_moved ht (k + k1' - k0' - k1 + k0) ?_ ?_
  · rw [h0, h1, h0', h1']
    push_cast
    linear_combination h
  · rw [h0, h1]
    have := staysWithin_cycles hs (k1 - k0)
    push_cast at this
    convert this using 1
    ring

/-- C92, `unwrap_cube`. The phases of the acquisitions are changed by `ε`, up to whole cycles. If along every link, in every
interferogram, the wrapped difference of the two pixels stays strictly within half a cycle under the change, then the second
call succeeds too, and every unwrapped interferogram changes by the change of that interferogram relative to the first
pixel - whatever flows the solver has chosen. -/
theorem C92_cube (tau : K) (ht : 0 < tau) (solver : FlowSolver) (e : Emcf) (gt gs : PlanarGraph)
    (hct : PlanarContract gt.npoints gt.links gt.cycles) (hcs : PlanarContract gs.npoints gs.links gs.cycles)
    (hmt : ormcf gt = .ok e.time) (hms : ormcf gs = .ok e.space) (hb : 0 < e.settings.linksPerBatch)
    (data data' : List (List K)) (hep : data.length = gt.npoints)
    (hlen : data'.length = data.length) (hhead : (data'.headD []).length = (data.headD []).length) (ε : Nat → Nat → K)
    (hdata : ∀ s < data.length, ∀ n < (data.headD []).length, ∃ k : ℤ, elem data' s n = elem data s n + ε s n + k * tau)
    (hstay : ∀ s u, (s, u) ∈ gt.links → ∀ p q, (p, q) ∈ gs.links → p < (data.headD []).length → q < (data.headD []).length →
      StaysWithin tau ((elem data u q - elem data s q) - (elem data u p - elem data s p)) ((ε u q - ε s q) - (ε u p - ε s p)))
    (o o' : Nat → List Nat → List Nat) (ho : ∀ k l, (o k l).Perm l) (ho' : ∀ k l, (o' k l).Perm l)
    (p p' : List Nat → List Nat) (hp : ∀ l, (p l).Perm l) (hp' : ∀ l, (p' l).Perm l) (out : List (List K))
    (h : unwrapCube tau solver e ⟨2, 0, data⟩ o p = .ok out) :
    ∃ out', unwrapCube tau solver e ⟨2, 0, data'⟩ o' p' = .ok out' ∧ out'.length = gt.links.length ∧ out.length = gt.links.length ∧
      ∀ i s u, gt.links[i]? = some (s, u) → (out.getD i []).length = gs.npoints ∧ (out'.getD i []).length = gs.npoints ∧
        ∀ n < gs.npoints, elem out' i n = elem out i n + ((ε u n - ε s n) - (ε u 0 - ε s 0)) := by
  obtain ⟨hgt, -⟩ := dual_of_contract hct hmt
  obtain ⟨hgs, -⟩ := dual_of_contract hcs hms
  refine cube_grad tau solver e hct hcs hmt hms hb data data' hep hlen hhead ε ?_ o o' ho ho' p p' hp hp' out h
  intro i s u hi j x y hj hlin
  have hsu : e.time.graph.links.getD i (0, 0) = (s, u) := by rw [hgt, List.getD_eq_getElem?_getD, hi]; rfl
  have hxy : e.space.graph.links.getD j (0, 0) = (x, y) := by rw [hgs, List.getD_eq_getElem?_getD, hj]; rfl
  unfold LinkInput at hlin
  rw [hxy] at hlin
  obtain ⟨hx, hy, -, hl⟩ := hlin
  have hsum : (s, u) ∈ gt.links := List.mem_of_getElem? hi
  obtain ⟨hs, hu⟩ := hl rfl (s, u) (by rw [hgt]; exact hsum)
  simp only at hs hu hx hy
  obtain ⟨k1, g1⟩ := hdata s hs x hx
  obtain ⟨k2, g2⟩ := hdata u hu x hx
  obtain ⟨k3, g3⟩ := hdata s hs y hy
  obtain ⟨k4, g4⟩ := hdata u hu y hy
  refine spaceGrad_moved ht e data data' i j hsu hxy _ (k4 - k3 - k2 + k1) ?_ (hstay s u hsum x y (List.mem_of_getElem? hj) hx hy)
  rw [g1, g2, g3, g4]
  push_cast
  ring

/-- Two stacks whose phases differ by `ε s` in acquisition `s`, up to whole cycles, where the coherence exceeds the threshold.
All else is the same. -/
structure Spec.ChangedBy (tau : K) (j j' : TileJob K) (ε : Nat → ℤ × ℤ → K) : Prop where
  rest : j' = { j with dates := j'.dates, phase := j'.phase }
  dates : j'.dates.length = j.dates.length
  images : ∀ d im, j'.phase d = some im → im.rows = j.coh.rows ∧ im.cols = j.coh.cols
  phase : ∀ s < j.dates.length, ∀ r c, PixelOf (j.coh.rows, j.coh.cols) r c → ValidPixel j r c → ∃ k : ℤ,
    epochPhase j' s r.toNat c.toNat = epochPhase j s r.toNat c.toNat + ε s (r, c) + k * tau

/-- In every interferogram, the wrapped difference of the pixels at the ends of every link of the triangulation of tile `b`
stays strictly within half a cycle when the stack changes by `ε`. -/
def Spec.NoFlipOnTile (tau : K) (j : TileJob K) (ε : Nat → ℤ × ℤ → K) (b : BBox) : Prop :=
  ∀ s u, (s, u) ∈ j.time.links → ∀ m n, (m, n) ∈ (tileGraph j b).links →
    ∀ p q, (tilePixels j b)[m]? = some p → (tilePixels j b)[n]? = some q →
      StaysWithin tau (rawIfg j s u q - rawIfg j s u p) ((ε u q - ε s q) - (ε u p - ε s p))

/-- In every interferogram, the wrapped phase of the first pixel of tile `b` stays strictly within half a cycle. -/
def Spec.NoFlipAtFirst (tau : K) (j : TileJob K) (ε : Nat → ℤ × ℤ → K) (b : BBox) : Prop :=
  ∀ s u, (s, u) ∈ j.time.links → ∀ p, (tilePixels j b)[0]? = some p → StaysWithin tau (rawIfg j s u p) (ε u p - ε s p)

/-- C92, the file of a tile: no flip on the links and at the first pixel - then the second stack is unwrapped too, and the phase
of every point of the file changes by the change of the interferogram at its pixel. -/
theorem C92_tile (tau : K) (ht : 0 < tau) (solver : FlowSolver) (j j' : TileJob K) (hj : GoodJob j) (ε : Nat → ℤ × ℤ → K)
    (hch : ChangedBy tau j j' ε) (tiles : TileSet) (t : Nat) (b : BBox) (hb : tiles.tiles[t]? = some b)
    (hin : TileInImage (j.coh.rows, j.coh.cols) b)
    (hcs : PlanarContract (tileGraph j b).npoints (tileGraph j b).links (tileGraph j b).cycles)
    (hlinks : NoFlipOnTile tau j ε b) (hfirst : NoFlipAtFirst tau j ε b)
    (oT oT' : Nat → List Nat → List Nat) (oS oS' : List Nat → List Nat)
    (hT : ∀ k l, (oT k l).Perm l) (hT' : ∀ k l, (oT' k l).Perm l) (hS : ∀ l, (oS l).Perm l) (hS' : ∀ l, (oS' l).Perm l)
    (f : TileFile K) (h : unwrapOneTile tau solver j tiles t oT oS = .ok f) :
    ∃ f', unwrapOneTile tau solver j' tiles t oT' oS' = .ok f' ∧ f'.points = f.points ∧ f'.tile = f.tile ∧
      ∀ i s u, j.time.links[i]? = some (s, u) → ∀ n p, (filePoints f)[n]? = some p →
        filePhase f' i n = filePhase f i n + (ε u p - ε s p) := by
  have e1 : j'.coh = j.coh := by rw [hch.rest]
  have e2 : j'.time = j.time := by rw [hch.rest]
  have e3 : j'.settings = j.settings := by rw [hch.rest]
  have e4 : j'.cpuCount = j.cpuCount := by rw [hch.rest]
  have e5 : j'.simplices = j.simplices := by rw [hch.rest]
  have e6 : j'.tDist = j.tDist := by rw [hch.rest]
  have e7 : j'.tCent = j.tCent := by rw [hch.rest]
  have e8 : j'.sDist = j.sDist := by rw [hch.rest]
  have e9 : j'.sCent = j.sCent := by rw [hch.rest]
  have e10 : j'.thr = j.thr := by rw [hch.rest]
  have hpix : tilePixels j' b = tilePixels j b := by unfold tilePixels; rw [e1, e10]
  have hel : ∀ s < j.dates.length, ∀ n p, (tilePixels j b)[n]? = some p →
      elem (readTile j.coh j.thr j.dates j.phase (0 : K) b).2 s n = epochPhase j s p.1.toNat p.2.toNat :=
    fun s hs n p hn => readTile_epoch rfl hin hj.images hs hn
  have hel' : ∀ s < j.dates.length, ∀ n p, (tilePixels j b)[n]? = some p →
      elem (readTile j.coh j.thr j'.dates j'.phase (0 : K) b).2 s n = epochPhase j' s p.1.toNat p.2.toNat := by
    intro s hs n p hn
    have := readTile_epoch (j := j') e1 hin hch.images (by rw [hch.dates]; exact hs) (by rw [hpix]; exact hn)
    rwa [e1, e10] at this
  have hhead : ((readTile j.coh j.thr j'.dates j'.phase (0 : K) b).2.headD []).length =
      ((readTile j.coh j.thr j.dates j.phase (0 : K) b).2.headD []).length := by
    obtain ⟨hx0, hx1, hx2, hy0, hy1, hy2⟩ := hin
    simp only at hx2 hy2
    have key : ∀ (dates : List String) (files : String → Option (Band K)),
        (∀ d im, files d = some im → im.rows = j.coh.rows ∧ im.cols = j.coh.cols) →
        ((readTile j.coh j.thr dates files (0 : K) b).2.headD []).length = if dates.length = 0 then 0 else (tilePoints j.coh j.thr b).length := by
      intro dates files hf
      obtain ⟨_, _, _, hl, hrow⟩ := C36_read_tile j.coh j.thr dates files (0 : K) b hx0 hx1 hx2
        hy0 hy1 hy2 (fun d im hd => by obtain ⟨a1, a2⟩ := hf d im hd; rw [a1, a2]; exact ⟨hx2, hy2⟩)
      cases dates with
      | nil => rfl
      | cons d ds =>
        obtain ⟨row, h1, h2, _⟩ := hrow 0 d rfl
        rw [if_neg (by simp), ← h2, List.headD_eq_head?_getD, List.head?_eq_getElem?, h1]
        rfl
    rw [key _ _ hj.images, key _ _ hch.images, hch.dates]
  unfold unwrapOneTile at h ⊢
  rw [e1, e2, e3, e4, e5, e6, e7, e8, e9, e10]
  rw [hb] at h ⊢
  simp only [Option.elim_some, Bind.bind, Except.bind] at h ⊢
  cases e1 : ormcf j.time with
  | error er => rw [e1] at h; simp at h
  | ok sTime =>
  rw [e1] at h
  simp only at h ⊢
  set pts := tilePoints j.coh j.thr b with hpts
  cases e2 : ormcf (delaunayGraph pts.length (j.simplices pts)) with
  | error er => rw [e2] at h; simp at h
  | ok sSpace =>
  rw [e2] at h
  simp only at h ⊢
  split at h
  · simp at h
  next hcc =>
  rw [if_neg (by rw [hhead]; exact hcc)]
  cases e3 : unwrapCube tau solver ⟨sSpace, sTime, j.settings, j.cpuCount, j.tDist, j.tCent, j.sDist pts, j.sCent pts⟩
      ⟨2, 0, (readTile j.coh j.thr j.dates j.phase (0 : K) b).2⟩ oT oS with
  | error er => rw [e3] at h; simp at h
  | ok uw =>
  rw [e3] at h
  simp only [pure, Except.pure, Except.ok.injEq] at h
  have hwl : (readTile j.coh j.thr j.dates j.phase (0 : K) b).2.length = j.dates.length := by simp [readTile]
  have hpl : (tilePixels j b).length = pts.length := by simp [tilePixels, hpts]
  have hhp : ((readTile j.coh j.thr j.dates j.phase (0 : K) b).2.headD []).length = pts.length := by
    by_contra hc
    exact hcc hc
  have hget : ∀ n < pts.length, ∃ p, (tilePixels j b)[n]? = some p := fun n hn =>
    ⟨_, List.getElem?_eq_getElem (by rw [hpl]; exact hn)⟩
  have hdat : ∀ s u, (s, u) ∈ j.time.links → s < j.dates.length ∧ u < j.dates.length := by
    intro s u hsu
    have := hj.contract.ordered s u hsu
    rw [hj.dates]
    omega
  have hval : ∀ s < j.dates.length, ∀ p ∈ tilePixels j b, ∃ k : ℤ,
      epochPhase j' s p.1.toNat p.2.toNat = epochPhase j s p.1.toNat p.2.toNat + ε s p + k * tau := by
    intro s hs p hp
    obtain ⟨v1, v2⟩ := tilePixels_valid hin hj.images hp
    exact hch.phase s hs p.1 p.2 v1 v2
  set δ : Nat → Nat → K := fun s n => ((tilePixels j b)[n]?.map (ε s)).getD 0 with hδ
  have hδe : ∀ s n p, (tilePixels j b)[n]? = some p → δ s n = ε s p := by
    intro s n p hn
    simp [hδ, hn]
  obtain ⟨uw', hcube, _, _, hrows⟩ := C92_cube tau ht solver
    ⟨sSpace, sTime, j.settings, j.cpuCount, j.tDist, j.tCent, j.sDist pts, j.sCent pts⟩ j.time (tileGraph j b) hj.contract hcs e1 e2
    hj.batch (readTile j.coh j.thr j.dates j.phase (0 : K) b).2 (readTile j.coh j.thr j'.dates j'.phase (0 : K) b).2
    (by rw [hwl, hj.dates]) (by simp [readTile, hch.dates]) hhead δ (by
      intro s hs n hn
      rw [hwl] at hs
      rw [hhp] at hn
      obtain ⟨p, hp⟩ := hget n hn
      rw [hel s hs n p hp, hel' s hs n p hp, hδe s n p hp]
      exact hval s hs p (List.mem_of_getElem? hp)) (by
      intro s u hsu m n hmn hm hn
      rw [hhp] at hm hn
      obtain ⟨p, hp⟩ := hget m hm
      obtain ⟨q, hq⟩ := hget n hn
      obtain ⟨hs, hu⟩ := hdat s u hsu
      rw [hel s hs m p hp, hel u hu m p hp, hel s hs n q hq, hel u hu n q hq, hδe s m p hp, hδe u m p hp, hδe s n q hq, hδe u n q hq]
      exact hlinks s u hsu m n hmn p q hp hq) oT oT' hT hT' oS oS' hS hS' uw e3
  rw [hcube]
  subst h
  refine ⟨_, rfl, rfl, rfl, ?_⟩
  intro i s u hi n p hn
  have hfp : filePoints (⟨uw, pts.map fun p => ((p.1 : ℤ), (p.2 : ℤ)), b,
      phaseOffset tau j.time (readTile j.coh j.thr j.dates j.phase (0 : K) b).2⟩ : TileFile K) = tilePixels j b := by
    unfold filePoints tilePixels
    simp only [List.map_map]
    rfl
  rw [hfp] at hn
  have hsu := List.mem_of_getElem? hi
  obtain ⟨hs, hu⟩ := hdat s u hsu
  obtain ⟨hl1, hl2, hr⟩ := hrows i s u hi
  have hnp : n < (tileGraph j b).npoints := by
    have := (List.getElem?_eq_some_iff.mp hn).1
    rw [hpl] at this
    exact this
  obtain ⟨p0, hp0⟩ := hget 0 (by
    have := (List.getElem?_eq_some_iff.mp hn).1
    rw [hpl] at this
    omega)
  have hoff : (phaseOffset tau j.time (readTile j.coh j.thr j'.dates j'.phase (0 : K) b).2).getD i 0 =
      (phaseOffset tau j.time (readTile j.coh j.thr j.dates j.phase (0 : K) b).2).getD i 0 + (ε u p0 - ε s p0) := by
    unfold phaseOffset
    simp only [List.getD_eq_getElem?_getD, List.getElem?_map, hi, Option.map_some, Option.getD_some]
    rw [hel s hs 0 p0 hp0, hel u hu 0 p0 hp0, hel' s hs 0 p0 hp0, hel' u hu 0 p0 hp0]
    obtain ⟨k1, g1⟩ := hval s hs p0 (List.mem_of_getElem? hp0)
    obtain ⟨k2, g2⟩ := hval u hu p0 (List.mem_of_getElem? hp0)
    refine phaseDiff_moved ht (k2 - k1) ?_ (hfirst s u hsu p0 hp0)
    rw [g1, g2]
    push_cast
    ring
  have := hr n hnp
  rw [hδe u n p hn, hδe s n p hn, hδe u 0 p0 hp0, hδe s 0 p0 hp0] at this
  unfold filePhase
  simp only
  unfold elem at this
  rw [this, hoff]
  ring

/-- The tile files `F'` hold the points of the files `F`, with `ε b` of the pixel added to interferogram `b`. -/
structure Spec.TilesChanged (n nifgs : Nat) (F F' : Nat → TileFile K) (ε : Nat → ℤ × ℤ → K) : Prop where
  points : ∀ i < n, filePoints (F' i) = filePoints (F i)
  phase : ∀ b < nifgs, ∀ i < n, ∀ (p : Nat) pix, (filePoints (F i))[p]? = some pix →
    filePhase (F' i) b p = filePhase (F i) b p + ε b pix

omit [Field K] [LinearOrder K] [IsStrictOrderedRing K] [FloorRing K] in
theorem exists_median (l : List ℤ) : ∃ y, IsMedian l y :=
  ⟨_, l.mergeSort (· ≤ ·), List.mergeSort_perm l _, List.pairwise_mergeSort' (· ≤ ·) l, rfl⟩

omit [IsStrictOrderedRing K] in
theorem cyclesBetween_changed (tau : K) {n nifgs : Nat} {F F' : Nat → TileFile K} {ε : Nat → ℤ × ℤ → K}
    (hc : TilesChanged n nifgs F F' ε) {i j : Nat} (hi : i < n) (hj : j < n) {b : Nat} (hb : b < nifgs) :
    cyclesBetween tau (F' i) (F' j) b = cyclesBetween tau (F i) (F j) b := by
  unfold cyclesBetween
  rw [hc.points i hi, hc.points j hj]
  apply List.map_congr_left
  intro pix hpix
  rw [List.mem_filter] at hpix
  obtain ⟨h1, h2⟩ := hpix
  have h2 : pix ∈ filePoints (F j) := by simpa using h2
  have key : ∀ t < n, pix ∈ filePoints (F t) → phaseAtPixel (F' t) b pix = phaseAtPixel (F t) b pix + ε b pix := by
    intro t ht hm
    unfold phaseAtPixel
    have hl := List.idxOf_lt_length_iff.mpr hm
    rw [hc.points t ht]
    exact hc.phase b hb t ht _ pix (by rw [List.getElem?_eq_getElem hl, List.getElem_idxOf hl])
  rw [key i hi h1, key j hj h2]
  congr 2
  ring

/-- C92, overlap statistics and bulk offsets. If the tile files change by `ε` of the pixel - the same change in every tile - both
runs record the same overlaps with the same medians, and find the same bulk offsets, with either method. -/
theorem C92_bulk {C : Type} [LinearOrder C] (tau : K) (minPoints : ℤ)
    (cc : Nat → List (Nat × Nat) → List Nat) (nifgs : Nat) (tiles : TileSet)
    (files files' : Nat → Except PyErr (TileFile K)) (F F' : Nat → TileFile K)
    (olap olap' : OverlapFile) (hf : TileFilesOk nifgs tiles files F) (hf' : TileFilesOk nifgs tiles files' F')
    (h : phasediffDeciles id tau minPoints cc tiles files = .ok (some olap))
    (h' : phasediffDeciles id tau minPoints cc tiles files' = .ok (some olap')) (ε : Nat → ℤ × ℤ → K)
    (hc : TilesChanged tiles.tiles.length nifgs F F' ε) (hmany : tiles.tiles.length ≠ 1)
    (mip : MipSolver) (lstsq : Lstsq K) (method : String)
    (coh : Band (Option C)) (thr : C) (bulk bulk' : BulkFile K)
    (hbulk : bulkOffsets mip lstsq method tiles coh thr olap = .ok (some bulk))
    (hbulk' : bulkOffsets mip lstsq method tiles coh thr olap' = .ok (some bulk')) :
    olap'.overlaps = olap.overlaps ∧ olap'.labels = olap.labels ∧ medianOffsets olap' = medianOffsets olap ∧ bulk' = bulk := by
  obtain ⟨e1, e2⟩ := overlaps_points hf hf' h h' hc.points
  have hmed : medianOffsets olap' = medianOffsets olap := by
    have ok : ∀ o : OverlapFile, ∀ bk, bulkOffsets mip lstsq method tiles coh thr o = .ok (some bk) → ∃ m, medianOffsets o = .ok m := by
      intro o bk hb
      unfold bulkOffsets at hb
      rw [if_neg hmany] at hb
      cases em : medianOffsets o with
      | error er => rw [em] at hb; simp [Bind.bind, Except.bind] at hb
      | ok m => exact ⟨m, rfl⟩
    obtain ⟨m, hm⟩ := ok _ _ hbulk
    obtain ⟨m', hm'⟩ := ok _ _ hbulk'
    obtain ⟨l1, v1⟩ := median_entry hf h hm
    obtain ⟨l2, v2⟩ := median_entry hf' h' hm'
    rw [hm, hm']
    congr 1
    apply List.ext_getElem?
    intro k
    by_cases hk : k < olap.overlaps.length
    · obtain ⟨⟨i, j⟩, hij⟩ : ∃ ij, olap.overlaps[k]? = some ij := ⟨_, List.getElem?_eq_getElem hk⟩
      obtain ⟨x, hx, hxl, hxv⟩ := v1 k i j hij
      obtain ⟨x', hx', hxl', hxv'⟩ := v2 k i j (by rw [e1]; exact hij)
      rw [hx, hx']
      congr 1
      obtain ⟨hsub, _⟩ := C53_recorded tau minPoints cc tiles files _ h
      obtain ⟨_, ba, bb, t2, t3, _⟩ := ((C25_overlaps tiles).1 i j).mp (hsub.subset (List.mem_of_getElem? hij))
      have hi := (List.getElem?_eq_some_iff.mp t2).1
      have hj := (List.getElem?_eq_some_iff.mp t3).1
      apply List.ext_getElem?
      intro b
      by_cases hb : b < nifgs
      · obtain ⟨y, hy⟩ := exists_median (cyclesBetween tau (F i) (F j) b)
        rw [(hxv b hb).2.2 y hy, (hxv' b hb).2.2 y (by rw [cyclesBetween_changed tau hc hi hj hb]; exact hy)]
      · rw [List.getElem?_eq_none (by omega), List.getElem?_eq_none (by omega)]
    · rw [List.getElem?_eq_none (by rw [l2, e1]; omega), List.getElem?_eq_none (by omega)]
  refine ⟨e1, e2, hmed, ?_⟩
  have : bulkOffsets mip lstsq method tiles coh thr olap' = bulkOffsets mip lstsq method tiles coh thr olap := by
    unfold bulkOffsets
    rw [e1, e2, hmed]
  rw [this, hbulk] at hbulk'
  simpa using hbulk'.symm

/-- C92, merge. The tile files change by `ε` of the pixel, the bulk offsets are the same. Then the spread raster stays the same,
the model raster changes by `ε` of the pixel, and so does the merged interferogram wherever it is not exactly half a cycle off
the model. -/
theorem C92_merge (tau : K) (htau : 0 < tau) (minPoints : ℤ) (cc : Nat → List (Nat × Nat) → List Nat)
    (nifgs : Nat) (tiles : TileSet) (files files' : Nat → Except PyErr (TileFile K)) (F F' : Nat → TileFile K)
    (env env' : MergeEnv K) (hlin : env'.lin = env.lin) (hsim : env'.simplices = env.simplices)
    (bulk : BulkFile K) (settings settings' : MergerSettings)
    (h : MergeInput tau minPoints cc nifgs tiles files F env.overlap bulk settings)
    (h' : MergeInput tau minPoints cc nifgs tiles files' F' env'.overlap bulk settings')
    (ε : Nat → ℤ × ℤ → K) (hc : TilesChanged tiles.tiles.length nifgs F F' ε)
    (isFile isFile' : Nat → Bool) (out out' : List (Nat × MergedBand K))
    (hm : mergeTiles tau env settings tiles files bulk nifgs isFile = .ok (.merged out))
    (hm' : mergeTiles tau env' settings' tiles files' bulk nifgs isFile' = .ok (.merged out'))
    (b : Nat) (m m' : MergedBand K) (hb : (b, m) ∈ out) (hb' : (b, m') ∈ out') (psi : ℤ × ℤ → K)
    (hpsi : ∀ i < tiles.tiles.length, ∀ (p : Nat) pix, (filePoints (F i))[p]? = some pix →
      ∃ k : ℤ, filePhase (F i) b p = psi pix + k * tau) (r q : Nat) :
    m'.diff.val r q = m.diff.val r q ∧
    m'.model.val r q = (m.model.val r q).map (· + ε b ((r : ℤ), (q : ℤ))) ∧
    ((∀ v mean, m.out.val r q = some v → m.model.val r q = some mean → |v - mean| ≠ tau / 2) →
      m'.out.val r q = (m.out.val r q).map (· + ε b ((r : ℤ), (q : ℤ)))) := by
  obtain ⟨ho, hl⟩ := overlaps_points h.filesOk h'.filesOk h.overlaps h'.overlaps hc.points
  obtain ⟨omap, h1, h2, _⟩ := ready_of_input h
  obtain ⟨d, hd⟩ := getMaxDegree_ok (shape := imageShape tiles) (n := tiles.tiles.length) (F := F) (by
    have := h.image
    simp only [imageShape]
    omega) h2.inside
  obtain ⟨hbn, hr, hok, hras⟩ := merged_band_at h hm hb h1 hd
  obtain ⟨_, hr', hok', hras'⟩ := merged_band_at h' hm' hb' (by rw [ho, hl]; exact h1)
    (by rw [getMaxDegree_points hc.points]; exact hd)
  have hph : ∀ i < tiles.tiles.length, ∀ p < (F i).points.length, filePhase (F' i) b p = filePhase (F i) b p + ε b (ptAt F i p) := by
    intro i hi p hp
    have hp' : p < (filePoints (F i)).length := by rw [filePoints_length]; exact hp
    refine hc.phase b hbn i hi p _ ?_
    unfold ptAt
    rw [List.getD_eq_getElem _ _ hp', List.getElem?_eq_getElem hp']
  have key := raster_shift htau hr.two hr.inside hr.map.once hr.width hr'.width (fun j hj => hr.bands j hj b hbn)
    (fun j hj => hr'.bands j hj b hbn) hc.points (κ := fun _ => 0) (σ := ε b) (k0 := 0)
    (fun i hi p hp => by rw [hph i hi p hp]; push_cast; ring) (by
      unfold finalCorr
      refine bandAdjust_moved hlin hsim ?_ hc.points hr.map.lt d hok
      intro i hi p hp
      unfold bandValue
      rw [hph i hi p hp]
      push_cast
      ring) hras hras' hpsi r q
  simpa using key

omit [IsStrictOrderedRing K] [FloorRing K] in
theorem changedBy_good {tau : K} {j j' : TileJob K} (hj : GoodJob j) {ε : Nat → ℤ × ℤ → K} (h : ChangedBy tau j j' ε) :
    GoodJob j' := by
  have hr := h.rest
  refine ⟨?_, ?_, ?_, ?_, ?_⟩
  · rw [hr]; exact hj.contract
  · rw [h.dates, hj.dates, hr]
  · rw [hr]; exact hj.batch
  · intro d im hd
    rw [show j'.coh = j.coh by rw [hr]]
    exact h.images d im hd
  · rw [hr]; exact hj.triangles

/-- The change of interferogram `b` when the acquisitions change by `ε`. -/
def Spec.ifgChange (time : PlanarGraph) (ε : Nat → ℤ × ℤ → K) (b : Nat) (pix : ℤ × ℤ) : K :=
  ε (time.links.getD b (0, 0)).2 pix - ε (time.links.getD b (0, 0)).1 pix

theorem tiles_changed {tau : K} (htau : 0 < tau) {solver : FlowSolver} {j j' : TileJob K} (hj : GoodJob j) {ε : Nat → ℤ × ℤ → K}
    (hch : ChangedBy tau j j' ε) {T : TileSet} (hin : ∀ b ∈ T.tiles, TileInImage (j.coh.rows, j.coh.cols) b)
    (hcs : ∀ b ∈ T.tiles, PlanarContract (tileGraph j b).npoints (tileGraph j b).links (tileGraph j b).cycles)
    (hflip : ∀ b ∈ T.tiles, NoFlipOnTile tau j ε b ∧ NoFlipAtFirst tau j ε b)
    {oT oT' : Nat → Nat → List Nat → List Nat} {oS oS' : Nat → List Nat → List Nat}
    (hoT : ∀ t k l, (oT t k l).Perm l) (hoT' : ∀ t k l, (oT' t k l).Perm l)
    (hoS : ∀ t l, (oS t l).Perm l) (hoS' : ∀ t l, (oS' t l).Perm l) {F F' : Nat → TileFile K}
    (hF : ∀ t < T.tiles.length, unwrapOneTile tau solver j T t (oT t) (oS t) = .ok (F t))
    (hF' : ∀ t < T.tiles.length, unwrapOneTile tau solver j' T t (oT' t) (oS' t) = .ok (F' t)) :
    TilesChanged T.tiles.length j.time.links.length F F' (ifgChange j.time ε) := by
  have key : ∀ t < T.tiles.length, (F' t).points = (F t).points ∧ (F' t).tile = (F t).tile ∧
      ∀ i s u, j.time.links[i]? = some (s, u) → ∀ n p, (filePoints (F t))[n]? = some p →
        filePhase (F' t) i n = filePhase (F t) i n + (ε u p - ε s p) := by
    intro t ht
    have hm := List.getElem_mem ht
    obtain ⟨f', g1, g2⟩ := C92_tile tau htau solver j j' hj ε hch T t _ (List.getElem?_eq_getElem ht) (hin _ hm) (hcs _ hm)
      (hflip _ hm).1 (hflip _ hm).2 (oT t) (oT' t) (oS t) (oS' t) (hoT t) (hoT' t) (hoS t) (hoS' t) (F t) (hF t ht)
    rw [hF' t ht, Except.ok.injEq] at g1
    rw [g1]
    exact g2
  refine ⟨fun t ht => ?_, fun b hb t ht p pix hp => ?_⟩
  · unfold filePoints
    rw [(key t ht).1, (key t ht).2.1]
  · exact (key t ht).2.2 b _ _ (by rw [List.getD_eq_getElem _ _ hb, List.getElem?_eq_getElem hb]) p pix hp

/-- C92, one tile. The stack changes by `ε` and no wrapping decision flips. Then the workflow completes again, and in every completed
run the raster of interferogram (s, u) changes by exactly `ε u - ε s` at every pixel with a value. -/
theorem C92_single_tile (P : Flow K S) (hP : GoodFlow P) (htau : 0 < P.tau) (hu : P.useTiles = false)
    (himg : 0 < P.job.coh.rows ∧ 0 < P.job.coh.cols) (d1 : Disk K)
    (h1 : RunByWrite P.stages Disk.empty .completed d1) (j' : TileJob K) (ε : Nat → ℤ × ℤ → K)
    (hch : ChangedBy P.tau P.job j' ε)
    (hcs : PlanarContract (tileGraph P.job ⟨0, 0, P.job.coh.rows, P.job.coh.cols⟩).npoints
      (tileGraph P.job ⟨0, 0, P.job.coh.rows, P.job.coh.cols⟩).links (tileGraph P.job ⟨0, 0, P.job.coh.rows, P.job.coh.cols⟩).cycles)
    (hlinks : NoFlipOnTile P.tau P.job ε ⟨0, 0, P.job.coh.rows, P.job.coh.cols⟩)
    (hfirst : NoFlipAtFirst P.tau P.job ε ⟨0, 0, P.job.coh.rows, P.job.coh.cols⟩) :
    (∃ d1', RunByWrite (withJob P j').stages Disk.empty .completed d1') ∧
    ∀ d1', RunByWrite (withJob P j').stages Disk.empty .completed d1' → ∀ i s u : Nat, P.job.time.links[i]? = some (s, u) →
      ∃ b b', d1.unw i = some (some b) ∧ d1'.unw i = some (some b') ∧ ∀ r q : Nat, r < P.job.coh.rows → q < P.job.coh.cols →
        (ValidPixel P.job r q → ∃ v, b.val r q = some v ∧
          b'.val r q = some (v + (ε u ((r : ℤ), (q : ℤ)) - ε s ((r : ℤ), (q : ℤ))))) ∧
        (¬ ValidPixel P.job r q → b.val r q = none ∧ b'.val r q = none) := by
  have e1 : j'.coh = P.job.coh := by rw [hch.rest]
  have e2 : j'.time = P.job.time := by rw [hch.rest]
  have e3 : j'.settings = P.job.settings := by rw [hch.rest]
  have e10 : j'.thr = P.job.thr := by rw [hch.rest]
  have hP' : GoodFlow (withJob P j') := by
    refine ⟨changedBy_good hP.job hch, hP.solver, hP.tiler, ?_, hP.labels, hP.mip⟩
    show ∃ B : ℤ, Rounding P.fl B ∧ (j'.coh.rows : ℤ) ≤ B ∧ (j'.coh.cols : ℤ) ≤ B
    rw [e1]
    exact hP.size
  have hTof : ∀ (Q : Flow K S), Q.useTiles = false → ∀ T, makeTiles Q.sc Q.fl Q.useTiles Q.tiler Q.job.coh.cols Q.mask = .ok T →
      T = singleTile (Q.job.coh.rows, Q.job.coh.cols) := by
    intro Q hQ T hT
    unfold makeTiles at hT
    rw [(mask_shape Q).1, hQ] at hT
    simpa [singleTile, pure, Except.pure, Bind.bind, Except.bind] using hT.symm
  obtain ⟨T, F, hR⟩ := ref_of_run hP h1
  obtain rfl := hTof P hu T hR.tiles
  set T := singleTile ((P.job.coh.rows : ℤ), (P.job.coh.cols : ℤ)) with hTd
  have hn : T.tiles.length = 1 := rfl
  obtain ⟨hshape, hpos, hin⟩ := flow_tiles hP hR.tiles
  obtain ⟨oT, oS, hoT, hoS, hF⟩ := hR.work
  have hb0 : T.tiles[0]? = some ⟨0, 0, P.job.coh.rows, P.job.coh.cols⟩ := rfl
  have hin0 : TileInImage (P.job.coh.rows, P.job.coh.cols) (⟨0, 0, P.job.coh.rows, P.job.coh.cols⟩ : BBox) :=
    hin _ (List.mem_of_getElem? hb0)
  obtain ⟨f', g1, g3, g4, g5⟩ := C92_tile P.tau htau P.solver P.job j' hP.job ε hch T 0 _ hb0
    hin0 hcs hlinks hfirst (oT 0) (oT 0) (oS 0) (oS 0) (hoT 0) (hoT 0) (hoS 0) (hoS 0) (F 0) (hF 0 (by omega))
  have hpool : 1 ≤ P.job.settings.numParallelTiles := by
    have := hR.pool
    unfold processPool at this
    split at this
    · cases this
    · omega
  refine ⟨?_, fun d1' h1' i s u hl => ?_⟩
  · refine C49_single_tile (withJob P j') hP' hu (by show 1 ≤ j'.settings.numParallelTiles; rw [e3]; exact hpool) hR.method (oT 0) (oS 0)
      (hoT 0) (hoS 0) f' ?_
    show unwrapOneTile P.tau P.solver j' (singleTile (j'.coh.rows, j'.coh.cols)) 0 (oT 0) (oS 0) = .ok f'
    rw [e1]
    exact g1
  · obtain ⟨T', F', hR'⟩ := ref_of_run hP' h1'
    have hT' : T' = T := by
      rw [hTof (withJob P j') hu T' hR'.tiles, hTd]
      show singleTile ((j'.coh.rows : ℤ), (j'.coh.cols : ℤ)) = _
      rw [e1]
    subst hT'
    obtain ⟨oT', oS', hoT', hoS', hF'⟩ := hR'.work
    have hff : F' 0 = f' := by
      have x1 := hF' 0 (by omega)
      have x2 := unwrapOneTile_schedule (tau := P.tau) (solver := P.solver) (changedBy_good hP.job hch) (hoT 0) (hoT' 0) (hoS 0) (hoS' 0) g1
      have x3 : unwrapOneTile P.tau P.solver j' T 0 (oT' 0) (oS' 0) = .ok (F' 0) := x1
      rw [x2] at x3
      cases x3
      rfl
    have hi : i < P.job.time.links.length := (List.getElem?_eq_some_iff.mp hl).1
    obtain ⟨b, hb, hv⟩ := single_raster hP hR hn i hi
    obtain ⟨b', hb', hv'⟩ := single_raster hP' hR' hn i (by show i < j'.time.links.length; rw [e2]; exact hi)
    obtain ⟨c, hc, _, _, hcp⟩ := C61_result P hP htau himg d1 h1 i s u hl
    obtain ⟨c', hc', _, _, hcp'⟩ := C61_result (withJob P j') hP' htau (by show 0 < j'.coh.rows ∧ 0 < j'.coh.cols; rw [e1]; exact himg) d1' h1' i s u
      (by show j'.time.links[i]? = _; rw [e2]; exact hl)
    rw [hb, Option.some.injEq, Option.some.injEq] at hc
    rw [hb', Option.some.injEq, Option.some.injEq] at hc'
    subst hc hc'
    have hval : ∀ r q : ℤ, ValidPixel (withJob P j').job r q ↔ ValidPixel P.job r q := by
      intro r q
      show ValidPixel j' r q ↔ _
      unfold ValidPixel
      rw [e1, e10]
    obtain ⟨hf, hpts, hph⟩ := tileFilesOk_of_unwrap P.tau P.solver hP.solver P.job hP.job T hshape hin oT oS hoT hoS
      d1.readTile F (fun t ht => hR.readTile ht) hF
    have hfp : filePoints (F' 0) = filePoints (F 0) := by
      unfold filePoints
      rw [hff, g3, g4]
    refine ⟨b, b', hb, hb', fun r q hr hq => ⟨fun hvp => ?_, fun hvp => ⟨(hcp r q hr hq).2 hvp, ?_⟩⟩⟩
    · have hm := (hpts 0 (by omega) r q).mpr ⟨_, hb0, by unfold InTile; simp only; omega, hvp⟩
      obtain ⟨p, hp', hpe⟩ := List.mem_iff_getElem.mp hm
      have hp : (filePoints (F 0))[p]? = some ((r : ℤ), (q : ℤ)) := by rw [List.getElem?_eq_getElem hp', hpe]
      refine ⟨_, hv r q p hp, ?_⟩
      rw [hv' r q p (by rw [hfp]; exact hp), hff, g5 i s u hl p _ hp]
    · exact (hcp' r q (by show r < j'.coh.rows; rw [e1]; exact hr) (by show q < j'.coh.cols; rw [e1]; exact hq)).2
        (fun h => hvp ((hval r q).mp h))

/-- C92. Between two completed runs over several tiles the stack changes by `ε`, up to whole cycles, and no wrapping decision flips:
in every tile, in every interferogram, the wrapped difference along every link and the wrapped phase of the first pixel stay
strictly within half a cycle. Then both runs record the same overlaps and the same bulk offsets, with either bulk method; the
spread raster of interferogram (s, u) stays the same, its model raster changes by exactly `ε u - ε s`, and so does the unwrapped
raster wherever it is not exactly half a cycle off the model. -/
theorem C92_workflow (P : Flow K S) (hP : GoodFlow P) (htau : 0 < P.tau)
    (himg : 0 < P.job.coh.rows ∧ 0 < P.job.coh.cols)
    (d1 d1' : Disk K) (h1 : RunByWrite P.stages Disk.empty .completed d1) (j' : TileJob K) (ε : Nat → ℤ × ℤ → K)
    (hch : ChangedBy P.tau P.job j' ε) (h1' : RunByWrite (withJob P j').stages Disk.empty .completed d1')
    (T : TileSet) (hT : d1.readTiles = .ok T) (htwo : 2 ≤ T.tiles.length)
    (hcs : ∀ b ∈ T.tiles, PlanarContract (tileGraph P.job b).npoints (tileGraph P.job b).links (tileGraph P.job b).cycles)
    (hflip : ∀ b ∈ T.tiles, NoFlipOnTile P.tau P.job ε b ∧ NoFlipAtFirst P.tau P.job ε b)
    (i s u : Nat) (hl : P.job.time.links[i]? = some (s, u)) :
    d1'.readTiles = .ok T ∧ d1'.offsets = d1.offsets ∧
    ∃ x x' m m' y y', d1.unw i = some (some x) ∧ d1'.unw i = some (some x') ∧ d1.model i = some (some m) ∧
      d1'.model i = some (some m') ∧ d1.diff i = some (some y) ∧ d1'.diff i = some (some y') ∧
      ∀ r q : Nat,
        y'.val r q = y.val r q ∧
        m'.val r q = (m.val r q).map (· + (ε u ((r : ℤ), (q : ℤ)) - ε s ((r : ℤ), (q : ℤ)))) ∧
        ((∀ v mean, x.val r q = some v → m.val r q = some mean → |v - mean| ≠ P.tau / 2) →
          x'.val r q = (x.val r q).map (· + (ε u ((r : ℤ), (q : ℤ)) - ε s ((r : ℤ), (q : ℤ))))) := by
  have e1 : j'.coh = P.job.coh := by rw [hch.rest]
  have e2 : j'.time = P.job.time := by rw [hch.rest]
  have e3 : j'.settings = P.job.settings := by rw [hch.rest]
  have e10 : j'.thr = P.job.thr := by rw [hch.rest]
  have hP' : GoodFlow (withJob P j') := by
    refine ⟨changedBy_good hP.job hch, hP.solver, hP.tiler, ?_, hP.labels, hP.mip⟩
    show ∃ B : ℤ, Rounding P.fl B ∧ (j'.coh.rows : ℤ) ≤ B ∧ (j'.coh.cols : ℤ) ≤ B
    rw [e1]
    exact hP.size
  have hmask : (withJob P j').mask = P.mask := by
    unfold Flow.mask withJob
    simp only [e1, e10]
  obtain ⟨T0, F, hR⟩ := ref_of_run hP h1
  obtain rfl : T0 = T := by
    have := hR.readTiles
    rw [hT] at this
    simpa using this.symm
  obtain ⟨T1, F', hR'⟩ := ref_of_run hP' h1'
  obtain rfl : T1 = T0 := by
    have x1 := hR'.tiles
    have x2 := hR.tiles
    have : makeTiles P.sc P.fl P.useTiles P.tiler P.job.coh.cols P.mask = .ok T1 := by
      rw [← hmask, ← e1]; exact x1
    rw [x2] at this
    simpa using this.symm
  set T := T1 with hTdef
  have hn : T.tiles.length ≠ 1 := by omega
  obtain ⟨hshape, hpos, hin⟩ := flow_tiles hP hR.tiles
  obtain ⟨hshape', _, hin'⟩ := flow_tiles hP' hR'.tiles
  obtain ⟨oT, oS, hoT, hoS, hF⟩ := hR.work
  obtain ⟨oT', oS', hoT', hoS', hF'⟩ := hR'.work
  obtain ⟨hf, hpts, hph⟩ := tileFilesOk_of_unwrap P.tau P.solver hP.solver P.job hP.job T hshape hin oT oS hoT hoS
    d1.readTile F (fun t ht => hR.readTile ht) hF
  obtain ⟨hf', hpts', hph'⟩ := tileFilesOk_of_unwrap P.tau P.solver hP.solver j' hP'.job T hshape' hin' oT' oS' hoT' hoS'
    d1'.readTile F' (fun t ht => hR'.readTile ht) hF'
  rw [e2] at hf'
  set nifgs := P.job.time.links.length with hnifgs
  have hi : i < nifgs := (List.getElem?_eq_some_iff.mp hl).1
  have hsh : TilesChanged T.tiles.length nifgs F F' (ifgChange P.job.time ε) :=
    tiles_changed htau hP.job hch hin hcs hflip hoT hoT' hoS hoS' hF hF'
  -- the later stages
  obtain ⟨st, bk, M, r1, r2, r3, r4, r5, rU⟩ := hR.many hn
  obtain ⟨st', bk', M', r1', r2', r3', r4', r5', rU'⟩ := hR'.many hn
  have hover := Ref.overlaps (P := P) (F := F) hn r1
  have hover' := Ref.overlaps (P := withJob P j') (F := F') hn r1'
  have hlab : (P.olap T st).labels.length = T.tiles.length := hP.labels _ _
  have hlab' : ((withJob P j').olap T st').labels.length = T.tiles.length := hP.labels _ _
  obtain ⟨hbm, hbo⟩ := bulk_shape hP.mip hn hlab (fun med hmed => median_rows hf hover hmed) r3
  have r3b : bulkOffsets P.mip P.lstsq P.merger.bulkMethod T P.job.coh P.job.thr ((withJob P j').olap T st') = .ok (some bk') := by
    rw [← e1, ← e10]; exact r3'
  obtain ⟨_, _, _, hbk⟩ := C92_bulk P.tau P.merger.minOverlapPoints P.cc nifgs T d1.readTile d1'.readTile F F'
    (P.olap T st) ((withJob P j').olap T st') hf hf' hover hover' (ifgChange P.job.time ε) hsh hn P.mip P.lstsq P.merger.bulkMethod
    P.job.coh P.job.thr bk bk' r3 r3b
  subst hbk
  have hbo1 : BulkOk nifgs T.tiles.length (⟨bk'.method, bk'.offsets, []⟩ : BulkFile K) := ⟨hbo.rows, hbo.cols⟩
  have hin1 : MergeInput P.tau P.merger.minOverlapPoints P.cc nifgs T d1.readTile F (P.olap T st)
      ⟨bk'.method, bk'.offsets, []⟩ P.merger :=
    ⟨htwo, by rw [hshape]; simp only; omega, by omega, hf, hover, hlab, hbo1, hR.method, hbm⟩
  have hin2 : MergeInput P.tau P.merger.minOverlapPoints P.cc nifgs T d1'.readTile F' ((withJob P j').olap T st')
      ⟨bk'.method, bk'.offsets, []⟩ P.merger :=
    ⟨htwo, by rw [hshape]; simp only; omega, by omega, hf', hover', hlab', hbo1, hR.method, hbm⟩
  have hmem : ∀ M : Nat → MergedBand K, (i, M i) ∈ ((List.range nifgs).filter fun _ => !false).map fun i => (i, M i) :=
    fun M => List.mem_map.mpr ⟨i, List.mem_filter.mpr ⟨List.mem_range.mpr hi, rfl⟩, rfl⟩
  have r5c : mergeTiles P.tau ⟨P.lin, P.simplices, (withJob P j').olap T st'⟩ P.merger T d1'.readTile ⟨bk'.method, bk'.offsets, []⟩
      nifgs (fun _ => false) = .ok (.merged (((List.range nifgs).filter fun _ => !false).map fun i => (i, M' i))) := by
    have := r5' fun _ => false
    simp only [withJob, e2] at this
    exact this
  refine ⟨hR'.readTiles, by rw [r4, r4'], (M i).out, (M' i).out, (M i).model, (M' i).model, (M i).diff, (M' i).diff, by rw [(rU i).1, if_pos hi],
    by rw [(rU' i).1, if_pos (by simp only [withJob, e2]; exact hi)], by rw [(rU i).2.2, if_pos hi],
    by rw [(rU' i).2.2, if_pos (by simp only [withJob, e2]; exact hi)], by rw [(rU i).2.1, if_pos hi],
    by rw [(rU' i).2.1, if_pos (by simp only [withJob, e2]; exact hi)], fun r q => ?_⟩
  have key := C92_merge P.tau htau P.merger.minOverlapPoints P.cc nifgs T d1.readTile d1'.readTile F F'
    ⟨P.lin, P.simplices, P.olap T st⟩ ⟨P.lin, P.simplices, (withJob P j').olap T st'⟩ rfl rfl _ P.merger P.merger hin1 hin2
    (ifgChange P.job.time ε) hsh (fun _ => false) (fun _ => false) _ _ (r5 fun _ => false) r5c i (M i) (M' i) (hmem M) (hmem M')
    (fun pix => stackIfg P.tau P.job s u pix.1.toNat pix.2.toNat) (fun t ht p pix hp => hph t ht i s u hl p pix hp) r q
  have hσ : ∀ pix, ifgChange P.job.time ε i pix = ε u pix - ε s pix := by
    intro pix
    simp only [ifgChange, List.getD_eq_getElem?_getD, hl, Option.getD_some]
  simp only [hσ] at key
  exact key

end

end Spurt
