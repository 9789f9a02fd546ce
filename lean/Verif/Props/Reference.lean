import Verif.Lemmas.Transport
import Verif.Props.EndResult
import Verif.Props.TileItoh
import Verif.Props.Unwrap

/-!
# Property C79: the reference of the phases and the wrapping of the input have no influence
-/

namespace Spurt
open Spec

section
variable {K S : Type} [Field K] [LinearOrder K] [IsStrictOrderedRing K] [FloorRing K]

/-- The phase is not an odd multiple of half a cycle. -/
def Spec.NoTie (tau x : K) : Prop := ∀ n : ℤ, x ≠ (n + 1 / 2) * tau

omit [FloorRing K] in
theorem noTie_neg {tau x : K} (h : NoTie tau x) : NoTie tau (-x) := by
  intro n hn
  refine h (-n - 1) ?_
  push_cast
  linarith

theorem phaseDiff_congr {tau : K} (ht : 0 < tau) {z0 z1 z0' z1' : K} (k : ℤ) (h : z1' - z0' = z1 - z0 + k * tau)
    (hno : NoTie tau (z1 - z0)) : phaseDiff tau z0' z1' = phaseDiff tau z0 z1 := by
  have := C07_phase_diff_cycle_invariant tau ht z0 z1 0 0 k (by intro n; rw [sub_zero]; exact hno n)
  rw [← this]
  unfold phaseDiff
  simp only [Int.cast_zero, zero_mul, add_zero, sub_zero, zero_add]
  rw [show z1 + (k : K) * tau - z0 = z1' - z0' by rw [h]; ring]

omit [IsStrictOrderedRing K] in
theorem cube_pool {tau : K} {solver : FlowSolver} {e : Emcf} {w : CubeInput K} {o : Nat → List Nat → List Nat}
    {p : List Nat → List Nat} {out : List (List K)} (h : unwrapCube tau solver e w o p = .ok out) :
    1 ≤ e.settings.sWorkerCount ∨ 2 ≤ e.cpuCount := by
  by_contra hc
  have : processPool (spatialWorkers e.cpuCount e.settings.sWorkerCount) = .error .valueError := by
    unfold processPool spatialWorkers
    rw [if_pos]
    split <;> omega
  unfold unwrapCube at h
  cases e1 : cubeKind e w with
  | error er => rw [e1] at h; simp [Bind.bind, Except.bind] at h
  | ok isIfg =>
  rw [e1] at h
  simp only [Bind.bind, Except.bind] at h
  cases e2 : unwrapInTime tau solver e w.data isIfg o with
  | error er => rw [e2] at h; simp at h
  | ok grad =>
  rw [e2] at h
  simp only at h
  unfold unwrapInSpace at h
  simp only [Bind.bind, Except.bind] at h
  split at h
  · cases h
  · simp [this] at h

/-- The double difference that is wrapped for interferogram (s, u) and link (p, q). -/
theorem spaceGrad_congr {tau : K} (ht : 0 < tau) (e : Emcf) (data data' : List (List K)) (i j : Nat) {s u p q : Nat}
    (hi : e.time.graph.links.getD i (0, 0) = (s, u)) (hj : e.space.graph.links.getD j (0, 0) = (p, q)) (k : ℤ)
    (h : (elem data' u q - elem data' s q) - (elem data' u p - elem data' s p) =
      (elem data u q - elem data s q) - (elem data u p - elem data s p) + k * tau)
    (hno : NoTie tau ((elem data u q - elem data s q) - (elem data u p - elem data s p))) :
    spaceGrad tau e data' false i j = spaceGrad tau e data false i j := by
  unfold spaceGrad
  simp only [hi, hj, Bool.false_eq_true, if_false]
  obtain ⟨⟨k0, h0⟩, -⟩ := C07_phase_diff_wraps tau ht (elem data s p) (elem data u p) 0
  obtain ⟨⟨k1, h1⟩, -⟩ := C07_phase_diff_wraps tau ht (elem data s q) (elem data u q) 0
  obtain ⟨⟨k0', h0'⟩, -⟩ := C07_phase_diff_wraps tau ht (elem data' s p) (elem data' u p) 0
  obtain ⟨⟨k1', h1'⟩, -⟩ := C07_phase_diff_wraps tau ht (elem data' s q) (elem data' u q) 0
  refine phaseDiff_congr ht (k + k1' - k0' - k1 + k0) ?_ ?_
  · rw [h0, h1, h0', h1']
    push_cast
    linear_combination h
  · intro n hn
    rw [h0, h1] at hn
    refine hno (n - k1 + k0) ?_
    push_cast
    linear_combination hn

/-- C79. `unwrap_cube` on acquisitions: add a phase per acquisition, a phase per point and any whole cycles; if no double
difference that is wrapped is exactly half a cycle, the result is the same. -/
theorem C79_cube_slc (tau : K) (ht : 0 < tau) (solver : FlowSolver) (e : Emcf) (gt : PlanarGraph)
    (hc : PlanarContract gt.npoints gt.links gt.cycles) (hm : ormcf gt = .ok e.time) (hb : 0 < e.settings.linksPerBatch)
    (hlt : ∀ p q, (p, q) ∈ e.space.graph.links → p < q) (w : CubeInput K) (hw : w.data.length = gt.npoints)
    (data' : List (List K)) (hlen : data'.length = w.data.length) (hhead : (data'.headD []).length = (w.data.headD []).length)
    (a b : Nat → K)
    (hshift : ∀ s < w.data.length, ∀ p < (w.data.headD []).length, ∃ k : ℤ,
      (data'.getD s []).getD p 0 = (w.data.getD s []).getD p 0 + a s + b p + k * tau)
    (htie : ∀ s u, (s, u) ∈ gt.links → ∀ p q, (p, q) ∈ e.space.graph.links →
      NoTie tau (((w.data.getD u []).getD q 0 - (w.data.getD s []).getD q 0) -
        ((w.data.getD u []).getD p 0 - (w.data.getD s []).getD p 0)))
    (o o' : Nat → List Nat → List Nat) (ho : ∀ k l, (o k l).Perm l) (ho' : ∀ k l, (o' k l).Perm l)
    (p p' : List Nat → List Nat) (hp : ∀ l, (p l).Perm l) (hp' : ∀ l, (p' l).Perm l) (out : List (List K))
    (h : unwrapCube tau solver e w o p = .ok out) : unwrapCube tau solver e { w with data := data' } o' p' = .ok out := by
  have hg := ormcf_graph hm
  refine cube_transport tau solver (SameSolver.rfl' e) hc.distinct (fun a b hab => (hc.ordered a b hab).1.le) hm hlt hb hb
    (cube_pool h) w data' hlen hhead ?_ o o' ho ho' p p' hp hp' out h
  intro isIfg hk i hi j hj hin
  have hF : isIfg = false := by
    unfold cubeKind at hk
    split at hk
    · cases hk
    split at hk
    · cases hk
    rw [if_pos (by rw [hw]; unfold Emcf.nepochs; rw [hg])] at hk
    cases hk
    rfl
  subst hF
  unfold Emcf.nifgs at hi
  unfold Emcf.nlinks at hj
  obtain ⟨s, u, hsu⟩ : ∃ s u, e.time.graph.links.getD i (0, 0) = (s, u) := ⟨_, _, rfl⟩
  obtain ⟨x, y, hxy⟩ : ∃ x y, e.space.graph.links.getD j (0, 0) = (x, y) := ⟨_, _, rfl⟩
  have m1 : (s, u) ∈ gt.links := by
    rw [← hsu, ← hg, List.getD_eq_getElem _ _ hi]; exact List.getElem_mem hi
  have m2 : (x, y) ∈ e.space.graph.links := by
    rw [← hxy, List.getD_eq_getElem _ _ hj]; exact List.getElem_mem hj
  unfold LinkInput at hin
  rw [hxy] at hin
  obtain ⟨l1, l2⟩ := hc.ordered s u m1
  obtain ⟨k1, e1⟩ := hshift s (by omega) x hin.1
  obtain ⟨k2, e2⟩ := hshift u (by omega) x hin.1
  obtain ⟨k3, e3⟩ := hshift s (by omega) y hin.2.1
  obtain ⟨k4, e4⟩ := hshift u (by omega) y hin.2.1
  refine spaceGrad_congr ht e w.data data' i j hsu hxy (k4 - k3 - k2 + k1) ?_ (htie s u m1 x y m2)
  unfold elem
  rw [e1, e2, e3, e4]
  push_cast
  ring

/-- C79. `unwrap_cube` on interferograms: add a phase per interferogram and any whole cycles; if no wrapped difference is
exactly half a cycle, the result is the same. -/
theorem C79_cube_ifg (tau : K) (ht : 0 < tau) (solver : FlowSolver) (e : Emcf) (gt : PlanarGraph)
    (hc : PlanarContract gt.npoints gt.links gt.cycles) (hm : ormcf gt = .ok e.time) (hb : 0 < e.settings.linksPerBatch)
    (hlt : ∀ p q, (p, q) ∈ e.space.graph.links → p < q) (w : CubeInput K) (hw : w.data.length = gt.links.length)
    (hne : w.data.length ≠ gt.npoints)
    (data' : List (List K)) (hlen : data'.length = w.data.length) (hhead : (data'.headD []).length = (w.data.headD []).length)
    (a : Nat → K)
    (hshift : ∀ i < w.data.length, ∀ p < (w.data.headD []).length, ∃ k : ℤ,
      (data'.getD i []).getD p 0 = (w.data.getD i []).getD p 0 + a i + k * tau)
    (htie : ∀ i < w.data.length, ∀ p q, (p, q) ∈ e.space.graph.links →
      NoTie tau ((w.data.getD i []).getD q 0 - (w.data.getD i []).getD p 0))
    (o o' : Nat → List Nat → List Nat) (ho : ∀ k l, (o k l).Perm l) (ho' : ∀ k l, (o' k l).Perm l)
    (p p' : List Nat → List Nat) (hp : ∀ l, (p l).Perm l) (hp' : ∀ l, (p' l).Perm l) (out : List (List K))
    (h : unwrapCube tau solver e w o p = .ok out) : unwrapCube tau solver e { w with data := data' } o' p' = .ok out := by
  have hg := ormcf_graph hm
  refine cube_transport tau solver (SameSolver.rfl' e) hc.distinct (fun a b hab => (hc.ordered a b hab).1.le) hm hlt hb hb
    (cube_pool h) w data' hlen hhead ?_ o o' ho ho' p p' hp hp' out h
  intro isIfg hk i hi j hj hin
  have hF : isIfg = true := by
    unfold cubeKind at hk
    split at hk
    · cases hk
    split at hk
    · cases hk
    rw [if_neg (by unfold Emcf.nepochs; rw [hg]; exact hne)] at hk
    split at hk
    · cases hk; rfl
    · cases hk
  subst hF
  unfold Emcf.nifgs at hi
  unfold Emcf.nlinks at hj
  rw [hg] at hi
  obtain ⟨x, y, hxy⟩ : ∃ x y, e.space.graph.links.getD j (0, 0) = (x, y) := ⟨_, _, rfl⟩
  have m2 : (x, y) ∈ e.space.graph.links := by
    rw [← hxy, List.getD_eq_getElem _ _ hj]; exact List.getElem_mem hj
  unfold LinkInput at hin
  rw [hxy] at hin
  obtain ⟨k1, e1⟩ := hshift i (by omega) x hin.1
  obtain ⟨k2, e2⟩ := hshift i (by omega) y hin.2.1
  unfold spaceGrad
  simp only [hxy, if_true]
  refine phaseDiff_congr ht (k2 - k1) ?_ (htie i (by omega) x y m2)
  unfold elem
  rw [e1, e2]
  push_cast
  ring

omit [IsStrictOrderedRing K] [FloorRing K] in
/-- The wrapped difference of the residues does not depend on the reference. -/
theorem sides_mem {cyc : List Nat} {cycles : List (List Nat)} (h : cyc ∈ cycles) {s : Nat × Nat} (hs : s ∈ sides cyc) :
    s ∈ walked cycles := List.mem_flatMap.mpr ⟨cyc, h, hs⟩

/-- A run of `unwrap_one` is an answer of the solver for the residues of the data. -/
theorem unwrap_flows (tau : K) (ht : 0 < tau) (g : PlanarGraph) (m : Mcf) (solver : FlowSolver)
    (hc : PlanarContract g.npoints g.links g.cycles) (hne : g.links ≠ []) (hm : ormcf g = .ok m)
    (w : List K) (hw : w.length = g.npoints) (cost : List ℤ) (revcost : Option (List ℤ)) (unw : List K) (flows : List ℤ)
    (h : unwrapOne tau solver m w cost revcost = .ok (unw, flows)) :
    residuesToFlows solver m (-(g.cycles.map (wrapCount tau w)).sum :: g.cycles.map (wrapCount tau w)) cost
      (some (revcost.getD cost)) = .ok flows := by
  obtain ⟨hmg, hmd⟩ := dual_of_contract hc hm
  have hres := computeResidues_eq tau ht.ne' m w (by rw [hmg, hw]) (by rw [hmg]; exact contract_cycles_ne hc hne)
    (by rw [hmg]; exact hc.uniform) (by rw [hmg]; exact contract_bound hc)
  rw [hmg] at hres
  unfold unwrapOne at h
  rw [hres] at h
  simp only [Bind.bind, Except.bind] at h
  split at h
  · cases h
  · rename_i fl hfl
    split at h
    · cases h
    simp only [pure, Except.pure, Except.ok.injEq, Prod.mk.injEq] at h
    rw [hfl, h.2]

/-- C79. `unwrap_one`: add one phase to all points and any whole cycles; if no wrapped difference is exactly half a cycle, it
returns for the new data whenever it did for the old, the flows are the same and the result changes by what was added to the
first point. -/
theorem C79_unwrap_one (tau : K) (ht : 0 < tau) (g : PlanarGraph) (m : Mcf) (solver : FlowSolver)
    (hc : PlanarContract g.npoints g.links g.cycles) (hne : g.links ≠ [])
    (hconn : Connected g.npoints g.links) (hgen : CyclesGenerate K g.links g.cycles)
    (hm : ormcf g = .ok m) (hsound : SolverSound solver)
    (w w' : List K) (hw : w.length = g.npoints) (hw' : w'.length = g.npoints)
    (shift : K) (hshift : ∀ p < g.npoints, ∃ k : ℤ, w'.getD p 0 = w.getD p 0 + shift + k * tau)
    (htie : ∀ a b, (a, b) ∈ g.links → NoTie tau (w.getD b 0 - w.getD a 0))
    (cost : List ℤ) (revcost : Option (List ℤ)) (unw : List K) (flows : List ℤ)
    (h : unwrapOne tau solver m w cost revcost = .ok (unw, flows)) :
    ∃ unw', unwrapOne tau solver m w' cost revcost = .ok (unw', flows) ∧ unw'.length = unw.length ∧
      ∀ p < g.npoints, unw'.getD p 0 = unw.getD p 0 + (w'.getD 0 0 - w.getD 0 0) := by
  have hpd : ∀ a b, (a, b) ∈ g.links ∨ (b, a) ∈ g.links →
      phaseDiff tau (w'.getD a 0) (w'.getD b 0) = phaseDiff tau (w.getD a 0) (w.getD b 0) := by
    have key : ∀ a b, a < g.npoints → b < g.npoints → NoTie tau (w.getD b 0 - w.getD a 0) →
        phaseDiff tau (w'.getD a 0) (w'.getD b 0) = phaseDiff tau (w.getD a 0) (w.getD b 0) := by
      intro a b ha hb' hno
      obtain ⟨k1, e1⟩ := hshift a ha
      obtain ⟨k2, e2⟩ := hshift b hb'
      refine phaseDiff_congr ht (k2 - k1) ?_ hno
      rw [e1, e2]
      push_cast
      ring
    intro a b hab
    rcases hab with hab | hab
    · have := hc.ordered a b hab
      exact key a b (by omega) this.2 (htie a b hab)
    · have := hc.ordered b a hab
      refine key a b this.2 (by omega) ?_
      have := noTie_neg (htie b a hab)
      rwa [neg_sub] at this
  have hcount : g.cycles.map (wrapCount tau w') = g.cycles.map (wrapCount tau w) := by
    apply List.map_congr_left
    intro cyc hcy
    have hs : wrapSum tau w' cyc = wrapSum tau w cyc := by
      unfold wrapSum
      congr 1
      apply List.map_congr_left
      intro s hs
      exact hpd s.1 s.2 (hc.side_is_link s.1 s.2 (sides_mem hcy hs))
    rw [wrapSum_eq, wrapSum_eq] at hs
    exact_mod_cast mul_right_cancel₀ ht.ne' hs
  have hfl := unwrap_flows tau ht g m solver hc hne hm w hw cost revcost unw flows h
  obtain ⟨u, h1, hl, _, _, h2, h3⟩ := unwrap_of_flows tau ht g m solver hc hne hconn hgen hm hsound w hw cost revcost flows hfl
  rw [h, Except.ok.injEq, Prod.mk.injEq] at h1
  obtain ⟨rfl, -⟩ := h1
  rw [← hcount] at hfl
  obtain ⟨unw', h1', hl', _, _, h2', h3'⟩ := unwrap_of_flows tau ht g m solver hc hne hconn hgen hm hsound w' hw' cost revcost
    flows hfl
  refine ⟨unw', h1', by rw [hl, hl'], fun p hp => ?_⟩
  have hw0 := hconn p hp
  clear hp
  induction hw0 with
  | refl => rw [h3, h3']; ring
  | tail _ hadj ih =>
    rename_i x y _
    rcases hadj with hxy | hxy
    · obtain ⟨i, hi, hie⟩ := List.mem_iff_getElem.mp hxy
      have hi' : g.links[i]? = some (x, y) := by rw [List.getElem?_eq_getElem hi, hie]
      have a1 := h2 i x y hi'
      have a2 := h2' i x y hi'
      rw [hpd x y (Or.inl hxy)] at a2
      linear_combination a2 - a1 + ih
    · obtain ⟨i, hi, hie⟩ := List.mem_iff_getElem.mp hxy
      have hi' : g.links[i]? = some (y, x) := by rw [List.getElem?_eq_getElem hi, hie]
      have a1 := h2 i y x hi'
      have a2 := h2' i y x hi'
      rw [hpd y x (Or.inl hxy)] at a2
      linear_combination a1 - a2 + ih

/-- C79. Unwrapping an unwrapped result gives it back: what `unwrap_one` returns, given to it again, comes back unchanged, with
the same flows, if no difference across a link is exactly half a cycle. -/
theorem C79_again (tau : K) (ht : 0 < tau) (g : PlanarGraph) (m : Mcf) (solver : FlowSolver)
    (hc : PlanarContract g.npoints g.links g.cycles) (hne : g.links ≠ [])
    (hconn : Connected g.npoints g.links) (hgen : CyclesGenerate K g.links g.cycles)
    (hm : ormcf g = .ok m) (hsound : SolverSound solver)
    (w : List K) (hw : w.length = g.npoints)
    (htie : ∀ a b, (a, b) ∈ g.links → NoTie tau (w.getD b 0 - w.getD a 0))
    (cost : List ℤ) (revcost : Option (List ℤ)) (unw : List K) (flows : List ℤ)
    (h : unwrapOne tau solver m w cost revcost = .ok (unw, flows)) :
    unwrapOne tau solver m unw cost revcost = .ok (unw, flows) := by
  obtain ⟨u, h1, hl, _, hk, _, h0⟩ := unwrap_of_flows tau ht g m solver hc hne hconn hgen hm hsound w hw cost revcost flows
    (unwrap_flows tau ht g m solver hc hne hm w hw cost revcost unw flows h)
  rw [h, Except.ok.injEq, Prod.mk.injEq] at h1
  obtain ⟨rfl, -⟩ := h1
  obtain ⟨v, a1, a2, a3⟩ := C79_unwrap_one tau ht g m solver hc hne hconn hgen hm hsound w unw hw hl
    0 (fun p hp => by obtain ⟨k, hk⟩ := hk p hp; exact ⟨k, by rw [hk]; ring⟩) htie cost revcost unw flows h
  rw [a1, Except.ok.injEq, Prod.mk.injEq]
  refine ⟨?_, rfl⟩
  apply List.ext_getElem a2
  intro i i1 i2
  have := a3 i (by omega)
  rw [h0, sub_self, add_zero, List.getD_eq_getElem _ _ i1, List.getD_eq_getElem _ _ i2] at this
  exact this

/-- Two stacks hold the same interferograms up to a phase per acquisition, a phase per pixel and whole cycles, where the
coherence exceeds the threshold: the phases of acquisition `s` differ by `a s` plus `b` of the pixel plus whole cycles. All
else is the same. A stack given with respect to another reference acquisition is an instance (`b` minus its phase). -/
structure Spec.SameStack (tau : K) (j j' : TileJob K) (a : Nat → K) (b : ℤ × ℤ → K) : Prop where
  rest : j' = { j with dates := j'.dates, phase := j'.phase }
  dates : j'.dates.length = j.dates.length
  images : ∀ d im, j'.phase d = some im → im.rows = j.coh.rows ∧ im.cols = j.coh.cols
  phase : ∀ s < j.dates.length, ∀ r c, PixelOf (j.coh.rows, j.coh.cols) r c → ValidPixel j r c → ∃ k : ℤ,
    epochPhase j' s r.toNat c.toNat = epochPhase j s r.toNat c.toNat + a s + b (r, c) + k * tau

/-- The phase of interferogram (s, u) at a pixel, before wrapping. -/
def Spec.rawIfg (j : TileJob K) (s u : Nat) (p : ℤ × ℤ) : K :=
  epochPhase j u p.1.toNat p.2.toNat - epochPhase j s p.1.toNat p.2.toNat

/-- In no interferogram do the pixels at the ends of a link of the triangulation of tile `b` differ by exactly half a cycle. -/
def Spec.NoTieOnTile (tau : K) (j : TileJob K) (b : BBox) : Prop :=
  ∀ s u, (s, u) ∈ j.time.links → ∀ m n, (m, n) ∈ (tileGraph j b).links →
    ∀ p q, (tilePixels j b)[m]? = some p → (tilePixels j b)[n]? = some q → NoTie tau (rawIfg j s u q - rawIfg j s u p)

/-- In no interferogram is the phase of the first pixel of tile `b` exactly half a cycle. -/
def Spec.NoTieAtFirst (tau : K) (j : TileJob K) (b : BBox) : Prop :=
  ∀ s u, (s, u) ∈ j.time.links → ∀ p, (tilePixels j b)[0]? = some p → NoTie tau (rawIfg j s u p)

/-- What `read_tile` returns, by pixel. -/
theorem readTile_epoch {j : TileJob K} {coh : Band (Option K)} (hcoh : j.coh = coh) {b : BBox}
    (hin : TileInImage (coh.rows, coh.cols) b) (himg : ∀ d im, j.phase d = some im → im.rows = coh.rows ∧ im.cols = coh.cols)
    {s n : Nat} (hs : s < j.dates.length) {p : ℤ × ℤ} (hn : (tilePixels j b)[n]? = some p) :
    elem (readTile j.coh j.thr j.dates j.phase (0 : K) b).2 s n = epochPhase j s p.1.toNat p.2.toNat := by
  subst hcoh
  obtain ⟨hx0, hx1, hx2, hy0, hy1, hy2⟩ := hin
  simp only at hx2 hy2
  obtain ⟨_, _, _, _, hrow⟩ := C36_read_tile j.coh j.thr j.dates j.phase (0 : K) b hx0 hx1 hx2
    hy0 hy1 hy2 (fun d im hd => by obtain ⟨a1, a2⟩ := himg d im hd; rw [a1, a2]; exact ⟨hx2, hy2⟩)
  unfold tilePixels at hn
  rw [List.getElem?_map] at hn
  cases hpn : (tilePoints j.coh j.thr b)[n]? with
  | none => rw [hpn] at hn; simp at hn
  | some x =>
    obtain ⟨p1, p2⟩ := x
    rw [hpn] at hn
    simp only [Option.map_some, Option.some.injEq] at hn
    subst hn
    obtain ⟨row, hr, _, hr2⟩ := hrow s j.dates[s] (List.getElem?_eq_getElem hs)
    obtain ⟨h0, h1⟩ := hr2 n p1 p2 hpn
    unfold elem
    rw [List.getD_eq_getElem?_getD (l := (readTile j.coh j.thr j.dates j.phase (0 : K) b).2), hr]
    simp only [Option.getD_some]
    unfold epochPhase
    rw [List.getElem?_eq_getElem hs]
    simp only [Option.bind_some]
    rw [List.getD_eq_getElem?_getD]
    cases hf : j.phase j.dates[s] with
    | none => rw [h0 hf]; rfl
    | some im =>
      rw [h1 im hf]
      simp only [Option.getD_some, Option.elim_some]
      rw [show ((p1 : ℤ) + b.xmin).toNat = b.xmin.toNat + p1 by omega,
        show ((p2 : ℤ) + b.ymin).toNat = b.ymin.toNat + p2 by omega]

omit [IsStrictOrderedRing K] [FloorRing K] in
theorem tilePixels_valid {j : TileJob K} {b : BBox} (hin : TileInImage (j.coh.rows, j.coh.cols) b)
    (himg : ∀ d im, j.phase d = some im → im.rows = j.coh.rows ∧ im.cols = j.coh.cols) {p : ℤ × ℤ} (hp : p ∈ tilePixels j b) :
    PixelOf (j.coh.rows, j.coh.cols) p.1 p.2 ∧ ValidPixel j p.1 p.2 := by
  obtain ⟨hx0, hx1, hx2, hy0, hy1, hy2⟩ := hin
  simp only at hx2 hy2
  obtain ⟨_, _, hmem, _⟩ := C36_read_tile j.coh j.thr j.dates j.phase (0 : K) b hx0 hx1 hx2
    hy0 hy1 hy2 (fun d im hd => by obtain ⟨a1, a2⟩ := himg d im hd; rw [a1, a2]; exact ⟨hx2, hy2⟩)
  unfold tilePixels at hp
  obtain ⟨⟨x, y⟩, hxy, rfl⟩ := List.mem_map.mp hp
  obtain ⟨h1, h2, v, h3, h4⟩ := (hmem x y).mp hxy
  refine ⟨?_, v, ?_, h4⟩
  · unfold PixelOf
    simp only
    omega
  · rw [← h3]
    simp only
    congr 1 <;> omega

theorem tile_reference {tau : K} (ht : 0 < tau) {solver : FlowSolver} {j j' : TileJob K} (hj : GoodJob j) {a : Nat → K} {β : ℤ × ℤ → K}
    (hsame : SameStack tau j j' a β) {tiles : TileSet} {t : Nat} {b : BBox} (hb : tiles.tiles[t]? = some b)
    (hin : TileInImage (j.coh.rows, j.coh.cols) b) (htie : NoTieOnTile tau j b)
    {oT oT' : Nat → List Nat → List Nat} {oS oS' : List Nat → List Nat}
    (hT : ∀ k l, (oT k l).Perm l) (hT' : ∀ k l, (oT' k l).Perm l) (hS : ∀ l, (oS l).Perm l) (hS' : ∀ l, (oS' l).Perm l)
    {f : TileFile K} (h : unwrapOneTile tau solver j tiles t oT oS = .ok f) :
    f.phaseOffset = phaseOffset tau j.time (readTile j.coh j.thr j.dates j.phase (0 : K) b).2 ∧
    unwrapOneTile tau solver j' tiles t oT' oS' = .ok { f with
      phaseOffset := phaseOffset tau j.time (readTile j.coh j.thr j'.dates j'.phase (0 : K) b).2 } := by
  have e1 : j'.coh = j.coh := by rw [hsame.rest]
  have e2 : j'.time = j.time := by rw [hsame.rest]
  have e3 : j'.settings = j.settings := by rw [hsame.rest]
  have e4 : j'.cpuCount = j.cpuCount := by rw [hsame.rest]
  have e5 : j'.simplices = j.simplices := by rw [hsame.rest]
  have e6 : j'.tDist = j.tDist := by rw [hsame.rest]
  have e7 : j'.tCent = j.tCent := by rw [hsame.rest]
  have e8 : j'.sDist = j.sDist := by rw [hsame.rest]
  have e9 : j'.sCent = j.sCent := by rw [hsame.rest]
  have e10 : j'.thr = j.thr := by rw [hsame.rest]
  have hpix : tilePixels j' b = tilePixels j b := by unfold tilePixels; rw [e1, e10]
  have hel : ∀ s < j.dates.length, ∀ n p, (tilePixels j b)[n]? = some p →
      elem (readTile j.coh j.thr j.dates j.phase (0 : K) b).2 s n = epochPhase j s p.1.toNat p.2.toNat :=
    fun s hs n p hn => readTile_epoch rfl hin hj.images hs hn
  have hel' : ∀ s < j.dates.length, ∀ n p, (tilePixels j b)[n]? = some p →
      elem (readTile j.coh j.thr j'.dates j'.phase (0 : K) b).2 s n = epochPhase j' s p.1.toNat p.2.toNat := by
    intro s hs n p hn
    have := readTile_epoch (j := j') e1 hin hsame.images (by rw [hsame.dates]; exact hs) (by rw [hpix]; exact hn)
    rwa [e1, e10] at this
  have hhead : ((readTile j.coh j.thr j'.dates j'.phase (0 : K) b).2.headD []).length =
      ((readTile j.coh j.thr j.dates j.phase (0 : K) b).2.headD []).length := by
    obtain ⟨hx0, hx1, hx2, hy0, hy1, hy2⟩ := hin
    simp only at hx2 hy2
    have key : ∀ (dates : List String) (files : String → Option (Band K)),
        (∀ d im, files d = some im → im.rows = j.coh.rows ∧ im.cols = j.coh.cols) →
        ((readTile j.coh j.thr dates files (0 : K) b).2.headD []).length = if dates.length = 0 then 0 else (tilePoints j.coh j.thr b).length := by
      intro dates files hf
      obtain ⟨_, _, _, hl, hrow⟩ := C36_read_tile j.coh j.thr dates files (0 : K) b hx0 hx1 hx2
        hy0 hy1 hy2 (fun d im hd => by obtain ⟨a1, a2⟩ := hf d im hd; rw [a1, a2]; exact ⟨hx2, hy2⟩)
      cases dates with
      | nil => rfl
      | cons d ds =>
        obtain ⟨row, h1, h2, _⟩ := hrow 0 d rfl
        rw [if_neg (by simp), ← h2, List.headD_eq_head?_getD, List.head?_eq_getElem?, h1]
        rfl
    rw [key _ _ hj.images, key _ _ hsame.images, hsame.dates]
  unfold unwrapOneTile at h ⊢
  rw [e1, e2, e3, e4, e5, e6, e7, e8, e9, e10]
  rw [hb] at h ⊢
  simp only [Option.elim_some, Bind.bind, Except.bind] at h ⊢
  cases e1 : ormcf j.time with
  | error er => rw [e1] at h; simp at h
  | ok sTime =>
  rw [e1] at h
  simp only at h ⊢
  set pts := tilePoints j.coh j.thr b with hpts
  cases e2 : ormcf (delaunayGraph pts.length (j.simplices pts)) with
  | error er => rw [e2] at h; simp at h
  | ok sSpace =>
  rw [e2] at h
  simp only at h ⊢
  split at h
  · simp at h
  next hcc =>
  rw [if_neg (by rw [hhead]; exact hcc)]
  cases e3 : unwrapCube tau solver ⟨sSpace, sTime, j.settings, j.cpuCount, j.tDist, j.tCent, j.sDist pts, j.sCent pts⟩
      ⟨2, 0, (readTile j.coh j.thr j.dates j.phase (0 : K) b).2⟩ oT oS with
  | error er => rw [e3] at h; simp at h
  | ok uw =>
  rw [e3] at h
  simp only [pure, Except.pure, Except.ok.injEq] at h
  have hsg : sSpace.graph = delaunayGraph pts.length (j.simplices pts) := ormcf_graph e2
  have hwl : (readTile j.coh j.thr j.dates j.phase (0 : K) b).2.length = j.dates.length := by simp [readTile]
  have hpl : (tilePixels j b).length = pts.length := by simp [tilePixels, hpts]
  have hhp : ((readTile j.coh j.thr j.dates j.phase (0 : K) b).2.headD []).length = pts.length := by
    by_contra hc
    exact hcc hc
  have hget : ∀ n < pts.length, ∃ p, (tilePixels j b)[n]? = some p := fun n hn =>
    ⟨_, List.getElem?_eq_getElem (by rw [hpl]; exact hn)⟩
  have hcube : unwrapCube tau solver ⟨sSpace, sTime, j.settings, j.cpuCount, j.tDist, j.tCent, j.sDist pts, j.sCent pts⟩
      ⟨2, 0, (readTile j.coh j.thr j'.dates j'.phase (0 : K) b).2⟩ oT' oS' = .ok uw := by
    refine cube_transport tau solver (SameSolver.rfl' _) hj.contract.distinct (fun a b hab => (hj.contract.ordered a b hab).1.le) e1
      (by simp only; rw [hsg]; exact delaunay_links_lt (hj.triangles pts)) hj.batch hj.batch (cube_pool e3)
      ⟨2, 0, (readTile j.coh j.thr j.dates j.phase (0 : K) b).2⟩ _ (by simp [readTile, hsame.dates]) hhead ?_ oT oT' hT hT' oS oS' hS hS' uw e3
    intro isIfg hk i hi l hl hlin
    have hF : isIfg = false := by
      unfold cubeKind at hk
      simp only [ne_eq, not_true_eq_false, if_false] at hk
      rw [if_pos (by rw [hwl, hj.dates]; unfold Emcf.nepochs; simp only; rw [ormcf_graph e1])] at hk
      cases hk
      rfl
    subst hF
    unfold Emcf.nifgs at hi
    unfold Emcf.nlinks at hl
    simp only at hi hl
    obtain ⟨s, u, hsu⟩ : ∃ s u, sTime.graph.links.getD i (0, 0) = (s, u) := ⟨_, _, rfl⟩
    obtain ⟨x, y, hxy⟩ : ∃ x y, sSpace.graph.links.getD l (0, 0) = (x, y) := ⟨_, _, rfl⟩
    have m1 : (s, u) ∈ j.time.links := by
      rw [← hsu, ← ormcf_graph e1, List.getD_eq_getElem _ _ hi]; exact List.getElem_mem hi
    have m2 : (x, y) ∈ (tileGraph j b).links := by
      unfold tileGraph
      rw [← hpts, ← hsg, ← hxy, List.getD_eq_getElem _ _ hl]; exact List.getElem_mem hl
    unfold LinkInput at hlin
    simp only at hlin
    rw [hxy, hhp] at hlin
    obtain ⟨l1, l2⟩ := hj.contract.ordered s u m1
    have hsd : s < j.dates.length := by rw [hj.dates]; omega
    have hud : u < j.dates.length := by rw [hj.dates]; omega
    obtain ⟨p, hp⟩ := hget x hlin.1
    obtain ⟨q, hq⟩ := hget y hlin.2.1
    obtain ⟨vp1, vp2⟩ := tilePixels_valid hin hj.images (List.mem_of_getElem? hp)
    obtain ⟨vq1, vq2⟩ := tilePixels_valid hin hj.images (List.mem_of_getElem? hq)
    obtain ⟨k1, g1⟩ := hsame.phase s hsd _ _ vp1 vp2
    obtain ⟨k2, g2⟩ := hsame.phase u hud _ _ vp1 vp2
    obtain ⟨k3, g3⟩ := hsame.phase s hsd _ _ vq1 vq2
    obtain ⟨k4, g4⟩ := hsame.phase u hud _ _ vq1 vq2
    refine spaceGrad_congr ht _ _ _ i l hsu hxy (k4 - k3 - k2 + k1) ?_ ?_
    · rw [hel s hsd x p hp, hel u hud x p hp, hel s hsd y q hq, hel u hud y q hq,
        hel' s hsd x p hp, hel' u hud x p hp, hel' s hsd y q hq, hel' u hud y q hq, g1, g2, g3, g4]
      push_cast
      ring
    · simp only
      rw [hel s hsd x p hp, hel u hud x p hp, hel s hsd y q hq, hel u hud y q hq]
      exact htie s u m1 x y m2 p q hp hq
  rw [hcube]
  subst h
  exact ⟨rfl, rfl⟩

/-- C79. The file of a tile: with the same interferograms up to a phase per acquisition, a phase per pixel and whole cycles, the
points and the phases are the same; the offset stored per interferogram changes by the difference of the phases added to its
acquisitions, up to whole cycles. If these phases are equal and the interferograms are not half a cycle at the first pixel,
the file is the same. -/
theorem C79_tile (tau : K) (ht : 0 < tau) (solver : FlowSolver) (j j' : TileJob K) (hj : GoodJob j) (a : Nat → K) (β : ℤ × ℤ → K)
    (hsame : SameStack tau j j' a β) (tiles : TileSet) (t : Nat) (b : BBox) (hb : tiles.tiles[t]? = some b)
    (hin : TileInImage (j.coh.rows, j.coh.cols) b) (htie : NoTieOnTile tau j b)
    (oT oT' : Nat → List Nat → List Nat) (oS oS' : List Nat → List Nat)
    (hT : ∀ k l, (oT k l).Perm l) (hT' : ∀ k l, (oT' k l).Perm l) (hS : ∀ l, (oS l).Perm l) (hS' : ∀ l, (oS' l).Perm l)
    (f : TileFile K) (h : unwrapOneTile tau solver j tiles t oT oS = .ok f) :
    ∃ f', unwrapOneTile tau solver j' tiles t oT' oS' = .ok f' ∧ f'.uw = f.uw ∧ f'.points = f.points ∧ f'.tile = f.tile ∧
      (tilePixels j b ≠ [] → ∀ i s u : Nat, j.time.links[i]? = some (s, u) → ∃ k : ℤ,
        f'.phaseOffset.getD i 0 = f.phaseOffset.getD i 0 + (a u - a s) + k * tau) ∧
      (NoTieAtFirst tau j b → (∀ s u, (s, u) ∈ j.time.links → a u = a s) → f' = f) := by
  obtain ⟨h0, h1⟩ := tile_reference ht hj hsame hb hin htie hT hT' hS hS' h
  refine ⟨_, h1, rfl, rfl, rfl, ?_, ?_⟩
  all_goals
    have e1 : j'.coh = j.coh := by rw [hsame.rest]
    have e10 : j'.thr = j.thr := by rw [hsame.rest]
    have hpix : tilePixels j' b = tilePixels j b := by unfold tilePixels; rw [e1, e10]
    have hel : ∀ s < j.dates.length, ∀ p, (tilePixels j b)[0]? = some p →
        elem (readTile j.coh j.thr j.dates j.phase (0 : K) b).2 s 0 = epochPhase j s p.1.toNat p.2.toNat :=
      fun s hs p hn => readTile_epoch rfl hin hj.images hs hn
    have hel' : ∀ s < j.dates.length, ∀ p, (tilePixels j b)[0]? = some p →
        elem (readTile j.coh j.thr j'.dates j'.phase (0 : K) b).2 s 0 = epochPhase j' s p.1.toNat p.2.toNat := by
      intro s hs p hn
      have := readTile_epoch (j := j') e1 hin hsame.images (by rw [hsame.dates]; exact hs) (by rw [hpix]; exact hn)
      rwa [e1, e10] at this
    have hdat : ∀ s u, (s, u) ∈ j.time.links → s < j.dates.length ∧ u < j.dates.length := by
      intro s u hsu
      have := hj.contract.ordered s u hsu
      rw [hj.dates]
      omega
  · intro hne i s u hi
    obtain ⟨p, hp⟩ : ∃ p, (tilePixels j b)[0]? = some p :=
      ⟨_, List.getElem?_eq_getElem (List.length_pos_of_ne_nil hne)⟩
    obtain ⟨hsd, hud⟩ := hdat s u (List.mem_of_getElem? hi)
    obtain ⟨vp1, vp2⟩ := tilePixels_valid hin hj.images (List.mem_of_getElem? hp)
    obtain ⟨k1, g1⟩ := hsame.phase s hsd _ _ vp1 vp2
    obtain ⟨k2, g2⟩ := hsame.phase u hud _ _ vp1 vp2
    rw [h0]
    unfold phaseOffset
    simp only [List.getD_eq_getElem?_getD, List.getElem?_map, hi, Option.map_some, Option.getD_some]
    rw [hel s hsd p hp, hel u hud p hp, hel' s hsd p hp, hel' u hud p hp]
    obtain ⟨⟨k3, g3⟩, -⟩ := C07_phase_diff_wraps tau ht (epochPhase j s p.1.toNat p.2.toNat) (epochPhase j u p.1.toNat p.2.toNat) 0
    obtain ⟨⟨k4, g4⟩, -⟩ := C07_phase_diff_wraps tau ht (epochPhase j' s p.1.toNat p.2.toNat) (epochPhase j' u p.1.toNat p.2.toNat) 0
    refine ⟨k4 + k2 - k1 - k3, ?_⟩
    rw [g3, g4, g1, g2]
    push_cast
    ring
  · intro hfirst ha
    have : phaseOffset tau j.time (readTile j.coh j.thr j'.dates j'.phase (0 : K) b).2 = f.phaseOffset := by
      rw [h0]
      unfold phaseOffset
      apply List.map_congr_left
      rintro ⟨s, u⟩ hsu
      simp only
      obtain ⟨hsd, hud⟩ := hdat s u hsu
      cases hp : (tilePixels j b)[0]? with
      | none =>
        have h00 : tilePoints j.coh j.thr b = [] := by
          have := List.getElem?_eq_none_iff.mp hp
          simpa [tilePixels] using this
        obtain ⟨hx0, hx1, hx2, hy0, hy1, hy2⟩ := hin
        simp only at hx2 hy2
        have key : ∀ (dates : List String) (files : String → Option (Band K)),
            (∀ d im, files d = some im → im.rows = j.coh.rows ∧ im.cols = j.coh.cols) →
            ∀ s, elem (readTile j.coh j.thr dates files (0 : K) b).2 s 0 = 0 := by
          intro dates files hf s
          obtain ⟨_, _, _, hl, hrow⟩ := C36_read_tile j.coh j.thr dates files (0 : K) b hx0 hx1 hx2
            hy0 hy1 hy2 (fun d im hd => by obtain ⟨a1, a2⟩ := hf d im hd; rw [a1, a2]; exact ⟨hx2, hy2⟩)
          unfold elem
          rw [List.getD_eq_getElem?_getD (l := (readTile j.coh j.thr dates files (0 : K) b).2)]
          cases hd : dates[s]? with
          | none =>
            rw [List.getElem?_eq_none_iff.mpr (by rw [hl]; exact List.getElem?_eq_none_iff.mp hd)]
            rfl
          | some d =>
            obtain ⟨row, h1, h2, _⟩ := hrow s d hd
            rw [h00] at h2
            rw [h1, List.length_eq_zero_iff.mp h2]
            rfl
        rw [key _ _ hj.images, key _ _ hj.images, key _ _ hsame.images, key _ _ hsame.images]
      | some p =>
        obtain ⟨vp1, vp2⟩ := tilePixels_valid hin hj.images (List.mem_of_getElem? hp)
        obtain ⟨k1, g1⟩ := hsame.phase s hsd _ _ vp1 vp2
        obtain ⟨k2, g2⟩ := hsame.phase u hud _ _ vp1 vp2
        rw [hel s hsd p hp, hel u hud p hp, hel' s hsd p hp, hel' u hud p hp]
        refine phaseDiff_congr ht (k2 - k1) ?_ (hfirst s u hsu p hp)
        rw [g1, g2, ha s u hsu]
        push_cast
        ring
    rw [this]

theorem sameStack_good {tau : K} {j j' : TileJob K} (hj : GoodJob j) {a : Nat → K} {β : ℤ × ℤ → K} (h : SameStack tau j j' a β) :
    GoodJob j' := by
  have hr := h.rest
  refine ⟨?_, ?_, ?_, ?_, ?_⟩
  · rw [hr]; exact hj.contract
  · rw [h.dates, hj.dates, hr]
  · rw [hr]; exact hj.batch
  · intro d im hd
    rw [show j'.coh = j.coh by rw [hr]]
    exact h.images d im hd
  · rw [hr]; exact hj.triangles

/-- The same call with another stack. -/
def Spec.withJob {K S : Type} (P : Flow K S) (j : TileJob K) : Flow K S := { P with job := j }

theorem ref_reference {P : Flow K S} (hP : GoodFlow P) (htau : 0 < P.tau) {j' : TileJob K} {β : ℤ × ℤ → K} {a : Nat → K}
    (hsame : SameStack P.tau P.job j' a β) (ha : ∀ s u, (s, u) ∈ P.job.time.links → a u = a s)
    {d1 : Disk K} {T : TileSet} {F : Nat → TileFile K} (h : Ref P d1 T F)
    (htie : ∀ b ∈ T.tiles, NoTieOnTile P.tau P.job b ∧ NoTieAtFirst P.tau P.job b) : Ref (withJob P j') d1 T F := by
  have e1 : j'.coh = P.job.coh := by rw [hsame.rest]
  have e2 : j'.time = P.job.time := by rw [hsame.rest]
  have e3 : j'.settings = P.job.settings := by rw [hsame.rest]
  have e10 : j'.thr = P.job.thr := by rw [hsame.rest]
  have hmask : (withJob P j').mask = P.mask := by
    unfold Flow.mask withJob
    simp only [e1, e10]
  obtain ⟨oT, oS, hoT, hoS, hw⟩ := h.work
  obtain ⟨hshape, hpos, hin⟩ := flow_tiles hP h.tiles
  refine ⟨?_, h.tiles1, ?_, ⟨oT, oS, hoT, hoS, fun t ht => ?_⟩, h.tile1, h.method, ?_, ?_⟩
  · rw [hmask]
    show makeTiles P.sc P.fl P.useTiles P.tiler j'.coh.cols P.mask = _
    rw [e1]
    exact h.tiles
  · show processPool j'.settings.numParallelTiles = _
    rw [e3]
    exact h.pool
  · obtain ⟨f', h1, _, _, _, _, h2⟩ := C79_tile P.tau htau P.solver P.job j' hP.job a β hsame T t T.tiles[t] (List.getElem?_eq_getElem ht)
      (hin _ (List.getElem_mem ht)) (htie _ (List.getElem_mem ht)).1 (oT t) (oT t) (oS t) (oS t) (hoT t) (hoT t) (hoS t) (hoS t) (F t) (hw t ht)
    rw [h2 (htie _ (List.getElem_mem ht)).2 ha] at h1
    exact h1
  · show T.tiles.length = 1 → _ ∧ _ ∧ ∃ B : Nat → Band (Option K), (∀ i < j'.time.links.length, _) ∧
      ∀ i, _ = (if i < j'.time.links.length then _ else _) ∧ _
    rw [e2]
    exact h.one
  · intro hn
    obtain ⟨s, b, M, h1, h2, h3, h4, h5, h6⟩ := h.many hn
    refine ⟨s, b, M, h1, h2, ?_, h4, ?_, ?_⟩
    · show bulkOffsets P.mip P.lstsq P.merger.bulkMethod T j'.coh j'.thr (P.olap T s) = _
      rw [e1, e10]
      exact h3
    · show ∀ isFile, mergeTiles P.tau ⟨P.lin, P.simplices, P.olap T s⟩ P.merger T d1.readTile ⟨b.method, b.offsets, []⟩
        j'.time.links.length isFile = .ok (.merged (((List.range j'.time.links.length).filter fun i => !isFile i).map fun i => (i, M i)))
      rw [e2]
      exact h5
    · show ∀ i, d1.unw i = (if i < j'.time.links.length then _ else _) ∧ d1.diff i = (if i < j'.time.links.length then _ else _) ∧
        d1.model i = (if i < j'.time.links.length then _ else _)
      rw [e2]
      exact h6

/-- C79. The whole workflow. `d1` is what a completed run leaves in an empty folder. Give the acquisitions with respect to another
reference (add a phase per pixel, the same to all acquisitions) and add any whole cycles: from any subset of these files no run
raises, every run that completes leaves exactly `d1`, and a completing run exists. In the interferograms of `P.job` no link of
the triangulation of a tile spans exactly half a cycle and the first pixel of no tile is exactly half a cycle. -/
theorem C79_reference (P : Flow K S) (hP : GoodFlow P) (htau : 0 < P.tau) (d1 : Disk K)
    (h1 : RunByWrite P.stages Disk.empty .completed d1) (j' : TileJob K) (β : ℤ × ℤ → K)
    (hsame : SameStack P.tau P.job j' (fun _ => 0) β)
    (htie : ∀ T, makeTiles P.sc P.fl P.useTiles P.tiler P.job.coh.cols P.mask = .ok T →
      ∀ b ∈ T.tiles, NoTieOnTile P.tau P.job b ∧ NoTieAtFirst P.tau P.job b) (d : Disk K) (hd : SubDisk d d1) :
    (∀ o d', RunByFile (withJob P j').stages d o d' → o ≠ .raised ∧ SubDisk d' d1 ∧ (o = .completed → d' = d1)) ∧
    (∀ o d', RunByWrite (withJob P j').stages d o d' → o ≠ .raised ∧ (o = .completed → d' = d1)) ∧
    RunByFile (withJob P j').stages d .completed d1 := by
  obtain ⟨T, F, hR⟩ := ref_of_run hP h1
  have hok := stagesOk (sameStack_good hP.job hsame) (ref_reference hP htau hsame (fun _ _ _ => rfl) hR (htie T hR.tiles))
  have h0 : AgreeUpTo 0 d d1 := fun s hs => absurd hs (Nat.not_lt_zero _)
  have key : ∀ o d', RunByFile (withJob P j').stages d o d' → o ≠ .raised ∧ SubDisk d' d1 ∧ (o = .completed → d' = d1) := by
    intro o d' h
    obtain ⟨a, b, c⟩ := resume_byFile hok hd h0 h
    exact ⟨a, b, fun ho => agree_eq (c ho)⟩
  refine ⟨key, ?_, ?_⟩
  · intro o d' h
    obtain ⟨a, b⟩ := resume_byWrite hok hd h0 h
    exact ⟨a, fun ho => agree_eq (b ho).2⟩
  · obtain ⟨d', h⟩ := resume_exists hok hd h0
    rwa [(key _ _ h).2.2 rfl] at h

/-- The raster of a run with one tile. -/
theorem single_raster {P : Flow K S} (hP : GoodFlow P) {d1 : Disk K} {T : TileSet} {F : Nat → TileFile K} (hR : Ref P d1 T F)
    (hn : T.tiles.length = 1) (i : Nat) (hi : i < P.job.time.links.length) :
    ∃ b, d1.unw i = some (some b) ∧ ∀ (r q p : Nat), (filePoints (F 0))[p]? = some ((r : ℤ), (q : ℤ)) →
      b.val r q = some (filePhase (F 0) i p) := by
  obtain ⟨hshape, hpos, hin⟩ := flow_tiles hP hR.tiles
  obtain ⟨oT, oS, hoT, hoS, hF⟩ := hR.work
  obtain ⟨hf, hpts, hph⟩ := tileFilesOk_of_unwrap P.tau P.solver hP.solver P.job hP.job T hshape hin oT oS hoT hoS
    d1.readTile F (fun t ht => hR.readTile ht) hF
  obtain ⟨_, _, B, hB, hU⟩ := hR.one hn
  obtain ⟨t1, ht1⟩ := hB i hi
  have hins := files_inside hf 0 (by omega)
  have hb := C44_single (imageShape T) (TileState.start (F 0)) t1 i (B i) (by
    intro c hc
    obtain ⟨a1, a2, a3, a4⟩ := hins c hc
    exact ⟨a1, a2, a3, a4⟩) (filePoints_nodup (hf.once 0 (by omega))) ht1
  exact ⟨B i, by rw [(hU i).1, if_pos hi], fun r q p hp => (hb r q).2.2.2.2 p hp⟩

/-- C79. One tile. Add a phase per acquisition, a phase per pixel and any whole cycles: the workflow completes again, and in every
completed run the raster of interferogram (s, u) changes by the same amount at every pixel with a value, the difference of the phases added
to its acquisitions plus whole cycles. -/
theorem C79_single_tile (P : Flow K S) (hP : GoodFlow P) (htau : 0 < P.tau) (hu : P.useTiles = false)
    (himg : 0 < P.job.coh.rows ∧ 0 < P.job.coh.cols) (d1 : Disk K)
    (h1 : RunByWrite P.stages Disk.empty .completed d1) (j' : TileJob K) (a : Nat → K) (β : ℤ × ℤ → K)
    (hsame : SameStack P.tau P.job j' a β) (htie : NoTieOnTile P.tau P.job ⟨0, 0, P.job.coh.rows, P.job.coh.cols⟩) :
    (∃ d1', RunByWrite (withJob P j').stages Disk.empty .completed d1') ∧
    ∀ d1', RunByWrite (withJob P j').stages Disk.empty .completed d1' → ∀ i s u : Nat, P.job.time.links[i]? = some (s, u) →
      ∃ b b', d1.unw i = some (some b) ∧ d1'.unw i = some (some b') ∧ ∃ k : ℤ, ∀ r q : Nat, r < P.job.coh.rows → q < P.job.coh.cols →
        (ValidPixel P.job r q → ∃ v, b.val r q = some v ∧ b'.val r q = some (v + (a u - a s) + k * P.tau)) ∧
        (¬ ValidPixel P.job r q → b.val r q = none ∧ b'.val r q = none) := by
  have e1 : j'.coh = P.job.coh := by rw [hsame.rest]
  have e2 : j'.time = P.job.time := by rw [hsame.rest]
  have e3 : j'.settings = P.job.settings := by rw [hsame.rest]
  have e10 : j'.thr = P.job.thr := by rw [hsame.rest]
  have hP' : GoodFlow (withJob P j') := by
    refine ⟨sameStack_good hP.job hsame, hP.solver, hP.tiler, ?_, hP.labels, hP.mip⟩
    show ∃ B : ℤ, Rounding P.fl B ∧ (j'.coh.rows : ℤ) ≤ B ∧ (j'.coh.cols : ℤ) ≤ B
    rw [e1]
    exact hP.size
  have hTof : ∀ (Q : Flow K S), Q.useTiles = false → ∀ T, makeTiles Q.sc Q.fl Q.useTiles Q.tiler Q.job.coh.cols Q.mask = .ok T →
      T = singleTile (Q.job.coh.rows, Q.job.coh.cols) := by
    intro Q hQ T hT
    unfold makeTiles at hT
    rw [(mask_shape Q).1, hQ] at hT
    simpa [singleTile, pure, Except.pure, Bind.bind, Except.bind] using hT.symm
  obtain ⟨T, F, hR⟩ := ref_of_run hP h1
  obtain rfl := hTof P hu T hR.tiles
  set T := singleTile ((P.job.coh.rows : ℤ), (P.job.coh.cols : ℤ)) with hTd
  have hn : T.tiles.length = 1 := rfl
  obtain ⟨hshape, hpos, hin⟩ := flow_tiles hP hR.tiles
  obtain ⟨oT, oS, hoT, hoS, hF⟩ := hR.work
  have hb0 : T.tiles[0]? = some ⟨0, 0, P.job.coh.rows, P.job.coh.cols⟩ := rfl
  have hin0 : TileInImage (P.job.coh.rows, P.job.coh.cols) (⟨0, 0, P.job.coh.rows, P.job.coh.cols⟩ : BBox) :=
    hin _ (List.mem_of_getElem? hb0)
  obtain ⟨f', g1, g2, g3, g4, g5, _⟩ := C79_tile P.tau htau P.solver P.job j' hP.job a β hsame T 0 _ hb0
    hin0 htie (oT 0) (oT 0) (oS 0) (oS 0) (hoT 0) (hoT 0) (hoS 0) (hoS 0) (F 0) (hF 0 (by omega))
  have hpool : 1 ≤ P.job.settings.numParallelTiles := by
    have := hR.pool
    unfold processPool at this
    split at this
    · cases this
    · omega
  refine ⟨?_, fun d1' h1' i s u hl => ?_⟩
  · refine C49_single_tile (withJob P j') hP' hu (by show 1 ≤ j'.settings.numParallelTiles; rw [e3]; exact hpool) hR.method (oT 0) (oS 0)
      (hoT 0) (hoS 0) f' ?_
    show unwrapOneTile P.tau P.solver j' (singleTile (j'.coh.rows, j'.coh.cols)) 0 (oT 0) (oS 0) = .ok f'
    rw [e1]
    exact g1
  · obtain ⟨T', F', hR'⟩ := ref_of_run hP' h1'
    have hT' : T' = T := by
      rw [hTof (withJob P j') hu T' hR'.tiles, hTd]
      show singleTile ((j'.coh.rows : ℤ), (j'.coh.cols : ℤ)) = _
      rw [e1]
    subst hT'
    obtain ⟨oT', oS', hoT', hoS', hF'⟩ := hR'.work
    have hff : F' 0 = f' := by
      have x1 := hF' 0 (by omega)
      have x2 := unwrapOneTile_schedule (tau := P.tau) (solver := P.solver) (sameStack_good hP.job hsame) (hoT 0) (hoT' 0) (hoS 0) (hoS' 0) g1
      have x3 : unwrapOneTile P.tau P.solver j' T 0 (oT' 0) (oS' 0) = .ok (F' 0) := x1
      rw [x2] at x3
      cases x3
      rfl
    have hi : i < P.job.time.links.length := (List.getElem?_eq_some_iff.mp hl).1
    obtain ⟨b, hb, hv⟩ := single_raster hP hR hn i hi
    obtain ⟨b', hb', hv'⟩ := single_raster hP' hR' hn i (by show i < j'.time.links.length; rw [e2]; exact hi)
    obtain ⟨c, hc, _, _, hcp⟩ := C61_result P hP htau himg d1 h1 i s u hl
    obtain ⟨c', hc', _, _, hcp'⟩ := C61_result (withJob P j') hP' htau (by show 0 < j'.coh.rows ∧ 0 < j'.coh.cols; rw [e1]; exact himg) d1' h1' i s u
      (by show j'.time.links[i]? = _; rw [e2]; exact hl)
    rw [hb, Option.some.injEq, Option.some.injEq] at hc
    rw [hb', Option.some.injEq, Option.some.injEq] at hc'
    subst hc hc'
    have hval : ∀ r q : ℤ, ValidPixel (withJob P j').job r q ↔ ValidPixel P.job r q := by
      intro r q
      show ValidPixel j' r q ↔ _
      unfold ValidPixel
      rw [e1, e10]
    obtain ⟨hf, hpts, hph⟩ := tileFilesOk_of_unwrap P.tau P.solver hP.solver P.job hP.job T hshape hin oT oS hoT hoS
      d1.readTile F (fun t ht => hR.readTile ht) hF
    have hfp : filePoints (F' 0) = filePoints (F 0) := by
      unfold filePoints
      rw [hff, g3, g4]
    have hmemv : ∀ r q : Nat, r < P.job.coh.rows → q < P.job.coh.cols → ValidPixel P.job r q →
        ∃ p : Nat, (filePoints (F 0))[p]? = some ((r : ℤ), (q : ℤ)) := by
      intro r q hr hq hvp
      have hm := (hpts 0 (by omega) r q).mpr ⟨_, hb0, by unfold InTile; simp only; omega, hvp⟩
      obtain ⟨p, hp, hpe⟩ := List.mem_iff_getElem.mp hm
      exact ⟨p, by rw [List.getElem?_eq_getElem hp, hpe]⟩
    by_cases hex : tilePixels P.job (⟨0, 0, P.job.coh.rows, P.job.coh.cols⟩ : BBox) = []
    · refine ⟨b, b', hb, hb', 0, fun r q hr hq => ⟨fun hvp => ?_, fun hvp => ⟨(hcp r q hr hq).2 hvp, ?_⟩⟩⟩
      · exfalso
        obtain ⟨p, hp⟩ := hmemv r q hr hq hvp
        obtain ⟨hx0, hx1, hx2, hy0, hy1, hy2⟩ := hin0
        simp only at hx2 hy2
        obtain ⟨_, _, hmem, _⟩ := C36_read_tile P.job.coh P.job.thr P.job.dates P.job.phase (0 : K) ⟨0, 0, P.job.coh.rows, P.job.coh.cols⟩ hx0 hx1 hx2
          hy0 hy1 hy2 (fun d im hd => by obtain ⟨a1, a2⟩ := hP.job.images d im hd; rw [a1, a2]; exact ⟨hx2, hy2⟩)
        have h00 : tilePoints P.job.coh P.job.thr ⟨0, 0, P.job.coh.rows, P.job.coh.cols⟩ = [] := by
          simpa [tilePixels] using hex
        have : (r, q) ∈ tilePoints P.job.coh P.job.thr ⟨0, 0, P.job.coh.rows, P.job.coh.cols⟩ := by
          rw [hmem]
          obtain ⟨v, hv1, hv2⟩ := hvp
          refine ⟨by simp only; omega, by simp only; omega, v, ?_, hv2⟩
          simpa using hv1
        rw [h00] at this
        cases this
      · exact (hcp' r q (by show r < j'.coh.rows; rw [e1]; exact hr) (by show q < j'.coh.cols; rw [e1]; exact hq)).2
          (fun h => hvp ((hval r q).mp h))
    · obtain ⟨k, hk⟩ := g5 hex i s u hl
      refine ⟨b, b', hb, hb', k, fun r q hr hq => ⟨fun hvp => ?_, fun hvp => ⟨(hcp r q hr hq).2 hvp, ?_⟩⟩⟩
      · obtain ⟨p, hp⟩ := hmemv r q hr hq hvp
        refine ⟨_, hv r q p hp, ?_⟩
        rw [hv' r q p (by rw [hfp]; exact hp)]
        unfold filePhase
        rw [hff, g2, hk]
        congr 1
        ring
      · exact (hcp' r q (by show r < j'.coh.rows; rw [e1]; exact hr) (by show q < j'.coh.cols; rw [e1]; exact hq)).2
          (fun h => hvp ((hval r q).mp h))

end

end Spurt
