import Verif.Lemmas.Generate
import Verif.Props.FloodFill
import Verif.Props.Mcf

/-!
# Properties C14–C16: unwrap_one and batch flow solving
-/

namespace Spurt
open Spec

section
variable {K : Type} [Field K] [LinearOrder K] [IsStrictOrderedRing K] [FloorRing K]

/-- Circulation of an edge function given by an antisymmetric function of the end points. -/
theorem circulation_antisymm {M : Type*} [AddCommGroup M] {n : Nat} {links : List (Nat × Nat)}
    {cycles : List (List Nat)} (hc : PlanarContract n links cycles) (vals : List M)
    (F : Nat → Nat → M) (hF : ∀ a b, a < b → F b a = - F a b)
    (hv : ∀ a b, (a, b) ∈ links → onLink links vals a b = F a b) {cyc : List Nat}
    (hcy : cyc ∈ cycles) :
    circulation links vals cyc = ((sides cyc).map fun s => F s.1 s.2).sum := by
  unfold circulation
  congr 1
  apply List.map_congr_left
  rintro ⟨x, y⟩ hxy
  unfold along
  rcases hc.side_is_link x y (List.mem_flatMap.mpr ⟨_, hcy, hxy⟩) with h | h
  · have hlt := (hc.ordered x y h).1
    rw [if_pos hlt, hv x y h]
  · have hlt := (hc.ordered y x h).1
    rw [if_neg (by simp only; omega), hv y x h, hF y x hlt]

theorem onLink_map {M : Type*} [Zero M] {links : List (Nat × Nat)} {a b : Nat}
    (F : Nat → Nat → M) (hab : (a, b) ∈ links) :
    onLink links (links.map fun l => F l.1 l.2) a b = F a b := by
  unfold onLink
  have hi := List.idxOf_lt_length_iff.mpr hab
  rw [List.getD_eq_getElem?_getD, List.getElem?_map, List.getElem?_eq_getElem hi]
  simp [List.getElem_idxOf]

theorem contract_bound {n : Nat} {links : List (Nat × Nat)} {cycles : List (List Nat)}
    (hc : PlanarContract n links cycles) : ∀ c ∈ cycles, ∀ p ∈ c, p < n := by
  intro c hcy p hp
  rw [← sides_fst c, List.mem_map] at hp
  obtain ⟨⟨x, y⟩, hxy, rfl⟩ := hp
  rcases hc.side_is_link x y (List.mem_flatMap.mpr ⟨c, hcy, hxy⟩) with h | h
  · have := hc.ordered x y h; simp only; omega
  · have := hc.ordered y x h; simp only; omega

theorem contract_cycles_ne {n : Nat} {links : List (Nat × Nat)} {cycles : List (List Nat)}
    (hc : PlanarContract n links cycles) (hne : links ≠ []) : cycles ≠ [] := by
  rintro rfl
  obtain ⟨⟨a, b⟩, l, rfl⟩ := List.exists_cons_of_ne_nil hne
  have := hc.link_walked a b (by simp)
  simp [walked] at this

/-- The correction that always cancels the residues of a phase vector: the number of
cycles between the raw and the wrapped difference. -/
theorem wrap_cancels (tau : K) {n : Nat} {links : List (Nat × Nat)} {cycles : List (List Nat)}
    (hc : PlanarContract n links cycles) (w : List K) (r0 : ℤ) :
    Cancels links cycles (r0 :: cycles.map (wrapCount tau w))
      (links.map fun l => rint ((w.getD l.2 0 - w.getD l.1 0) / tau)) := by
  refine ⟨by simp, fun k hk => ?_⟩
  have := circulation_antisymm hc (links.map fun l => rint ((w.getD l.2 0 - w.getD l.1 0) / tau))
    (fun a b => rint ((w.getD b 0 - w.getD a 0) / tau))
    (fun a b _ => by rw [← rint_neg]; congr 1; ring)
    (fun a b hab => onLink_map (fun a b => rint ((w.getD b 0 - w.getD a 0) / tau)) hab)
    (List.getElem_mem hk)
  rw [this]
  simp [List.getD_eq_getElem?_getD, hk, wrapCount]

/-- What `unwrap_one` returns once the solver has answered. -/
theorem unwrap_of_flows (tau : K) (ht : 0 < tau) (g : PlanarGraph) (m : Mcf) (solver : FlowSolver)
    (hc : PlanarContract g.npoints g.links g.cycles) (hne : g.links ≠ [])
    (hconn : Connected g.npoints g.links) (hgen : CyclesGenerate K g.links g.cycles)
    (hm : ormcf g = .ok m) (hsound : SolverSound solver)
    (w : List K) (hw : w.length = g.npoints) (cost : List ℤ) (revcost : Option (List ℤ)) (fl : List ℤ)
    (hfl : residuesToFlows solver m (-(g.cycles.map (wrapCount tau w)).sum :: g.cycles.map (wrapCount tau w)) cost
      (some (revcost.getD cost)) = .ok fl) :
    ∃ unw, unwrapOne tau solver m w cost revcost = .ok (unw, fl) ∧
      unw.length = g.npoints ∧ fl.length = g.links.length ∧
      (∀ p < g.npoints, ∃ k : ℤ, unw.getD p 0 = w.getD p 0 + k * tau) ∧
      (∀ i a b : Nat, g.links[i]? = some (a, b) →
        unw.getD b 0 - unw.getD a 0 =
          phaseDiff tau (w.getD a 0) (w.getD b 0) + tau * (fl.getD i 0 : K)) ∧
      unw.getD 0 0 = w.getD 0 0 := by
  obtain ⟨hmg, hmd⟩ := dual_of_contract hc hm
  have hcne := contract_cycles_ne hc hne
  have hb := contract_bound hc
  have hres := computeResidues_eq tau ht.ne' m w (by rw [hmg, hw]) (by rw [hmg]; exact hcne)
    (by rw [hmg]; exact hc.uniform) (by rw [hmg]; exact hb)
  rw [hmg] at hres
  have hcan := C10_flows_cancel g m solver hc hm hsound _ _ _ _ hfl
  -- total gradients close
  set G : List K := g.links.zipIdx.map fun li =>
    phaseDiff tau (w.getD li.1.1 0) (w.getD li.1.2 0) + tau * (fl.getD li.2 0 : K) with hG
  have hGi : ∀ i a b : Nat, g.links[i]? = some (a, b) →
      onLink g.links G a b = phaseDiff tau (w.getD a 0) (w.getD b 0) + tau * (fl.getD i 0 : K) := by
    intro i a b hi
    obtain ⟨hlt, hge⟩ := List.getElem?_eq_some_iff.mp hi
    unfold onLink
    rw [← hge, hc.distinct.idxOf_getElem i hlt, hG, List.getD_eq_getElem?_getD, List.getElem?_map]
    simp [hlt, hge]
  have hon : ∀ i a b : Nat, g.links[i]? = some (a, b) → onLink g.links fl a b = fl.getD i 0 := by
    intro i a b hi
    obtain ⟨hlt, hge⟩ := List.getElem?_eq_some_iff.mp hi
    unfold onLink
    rw [← hge, hc.distinct.idxOf_getElem i hlt]
  have hclose : ∀ cyc ∈ g.cycles, circulation g.links G cyc = 0 := by
    intro cyc hcy
    obtain ⟨k, hk, rfl⟩ := List.mem_iff_getElem.mp hcy
    rw [circulation_antisymm hc G (fun a b => phaseDiff tau (w.getD a 0) (w.getD b 0) +
      tau * ((along g.links fl a b : ℤ) : K)) ?_ ?_ hcy]
    · have h1 := hcan.2 k hk
      have h2 := wrapSum_eq tau w g.cycles[k]
      have h3 : ∀ l : List (Nat × Nat), (l.map fun s => phaseDiff tau (w.getD s.1 0) (w.getD s.2 0) +
          tau * ((along g.links fl s.1 s.2 : ℤ) : K)).sum =
          (l.map fun s => phaseDiff tau (w.getD s.1 0) (w.getD s.2 0)).sum +
          tau * ((l.map fun s => along g.links fl s.1 s.2).sum : ℤ) := by
        intro l
        induction l with
        | nil => simp
        | cons s l ih =>
          simp only [List.map_cons, List.sum_cons, ih]; push_cast; ring
      rw [h3]
      unfold wrapSum at h2
      unfold circulation at h1
      rw [h2, h1]
      simp only [List.getD_eq_getElem?_getD, List.getElem?_cons_succ, List.getElem?_map,
        List.getElem?_eq_getElem hk, Option.map_some, Option.getD_some]
      push_cast; ring
    · intro a b hab
      rw [phaseDiff_swap]
      unfold along
      rw [if_pos hab, if_neg (by omega)]
      push_cast; ring
    · intro a b hab
      obtain ⟨i, hi, he⟩ := List.mem_iff_getElem.mp hab
      have hi' : g.links[i]? = some (a, b) := by rw [List.getElem?_eq_getElem hi, he]
      rw [hGi i a b hi']
      unfold along
      rw [if_pos (hc.ordered a b hab).1, hon i a b hi']
  obtain ⟨φ, hφ⟩ := hgen G (by simp [hG]) hclose
  have hpot : ∀ i a b : Nat, g.links[i]? = some (a, b) →
      inputGradient tau w "points" i a b + tau * (fl.getD i 0 : K) = φ b - φ a := by
    intro i a b hi
    rw [← hφ a b (List.mem_of_getElem? hi), hGi i a b hi]
    simp [inputGradient]
  have hff := C13_flood_fill_recovers tau w g.links fl "points" g.npoints φ hne
    (fun a b hab => by have := hc.ordered a b hab; omega) hcan.1 (.inl ⟨rfl, hw⟩) hconn hpot
  have h12 := C12_flood_fill_guarantee tau w g.links fl "points" _ hff
  simp only [List.length_map, List.length_range] at h12
  refine ⟨(List.range g.npoints).map fun p =>
    φ p - φ 0 + (if "points" = "points" then w.getD 0 0 else 0), ?_, by simp, hcan.1, ?_, ?_, ?_⟩
  rotate_left 1
  · exact fun p hp => (h12.2.2.2.2 trivial).2.2 p hp
  · intro i a b hi
    have hab := hc.ordered a b (List.mem_of_getElem? hi)
    have := hpot i a b hi
    simp only [inputGradient, if_true] at this
    rw [this]
    simp [List.getD_eq_getElem?_getD, hab.2, lt_trans hab.1 hab.2]
  · exact (h12.2.2.2.2 trivial).1
  · unfold unwrapOne
    rw [hres, hmg]
    simp only [Bind.bind, Except.bind, pure, Except.pure]
    rw [hfl]
    simp only [hff]

/-- C14. On any graph that meets the planar contract, is connected and whose cycles
generate all closed walks, `unwrap_one` with a sound and complete flow solver returns for
every phase vector (differences up to the capacity `2^31 - 1` cycles, in particular
wrapped data); every output equals the input plus whole cycles, link differences are the
wrapped difference plus `2π` times the returned flow, and the first point is unchanged. -/
theorem C14_unwrap_one (tau : K) (ht : 0 < tau) (g : PlanarGraph) (m : Mcf) (solver : FlowSolver)
    (hc : PlanarContract g.npoints g.links g.cycles) (hne : g.links ≠ [])
    (hconn : Connected g.npoints g.links) (hgen : CyclesGenerate K g.links g.cycles)
    (hm : ormcf g = .ok m) (hsound : SolverSound solver) (hcomp : SolverComplete solver)
    (w : List K) (hw : w.length = g.npoints)
    (hsmall : ∀ a b, (a, b) ∈ g.links → |w.getD b 0 - w.getD a 0| ≤ 2147483647 * tau)
    (cost : List ℤ) (revcost : Option (List ℤ)) (c r : List ℤ)
    (hcost : CostOn g.links.length cost c) (hrev : CostOn g.links.length (revcost.getD cost) r)
    (hc0 : ∀ v ∈ c, 0 ≤ v) (hr0 : ∀ v ∈ r, 0 ≤ v) :
    ∃ unw flows, unwrapOne tau solver m w cost revcost = .ok (unw, flows) ∧
      unw.length = g.npoints ∧ flows.length = g.links.length ∧
      (∀ p < g.npoints, ∃ k : ℤ, unw.getD p 0 = w.getD p 0 + k * tau) ∧
      (∀ i a b : Nat, g.links[i]? = some (a, b) →
        unw.getD b 0 - unw.getD a 0 =
          phaseDiff tau (w.getD a 0) (w.getD b 0) + tau * (flows.getD i 0 : K)) ∧
      unw.getD 0 0 = w.getD 0 0 := by
  have hx := wrap_cancels tau hc w (-(g.cycles.map (wrapCount tau w)).sum)
  obtain ⟨fl, hfl⟩ := residuesToFlows_returns hc hm hcomp
    (-(g.cycles.map (wrapCount tau w)).sum :: g.cycles.map (wrapCount tau w)) cost
    (some (revcost.getD cost)) c r hcost hrev hc0 hr0 (by simp) (by simp) ⟨_, hx, by
      intro v hv
      obtain ⟨⟨a, b⟩, hab, rfl⟩ := List.mem_map.mp hv
      have h1 := hsmall a b hab
      rw [abs_le] at h1 ⊢
      simp only [int32Max]
      constructor
      · apply le_rint_of_le
        rw [le_div_iff₀ ht]; push_cast; linarith [h1.1]
      · apply rint_le_of_le
        rw [div_le_iff₀ ht]; push_cast; linarith [h1.2]⟩
  obtain ⟨unw, h⟩ := unwrap_of_flows tau ht g m solver hc hne hconn hgen hm hsound w hw cost revcost fl hfl
  exact ⟨unw, fl, h⟩

/-- C14 for temporal stacks: `Hop3Graph(n)`, every `n ≥ 4`, wrapped data, positive
scalar cost. -/
theorem C14_unwrap_one_hop3 (tau : K) (ht : 0 < tau) (n : Nat) (hn : 4 ≤ n) (solver : FlowSolver)
    (hsound : SolverSound solver) (hcomp : SolverComplete solver)
    (w : List K) (hw : w.length = n) (hwrap : ∀ x ∈ w, |x| ≤ tau / 2) (cost : ℤ) (hcost : 0 ≤ cost) :
    ∃ g m unw flows, hop3Graph n = .ok g ∧ ormcf g = .ok m ∧
      unwrapOne tau solver m w [cost] none = .ok (unw, flows) ∧ unw.length = n ∧
      (∀ p < n, ∃ k : ℤ, unw.getD p 0 = w.getD p 0 + k * tau) ∧
      (∀ i a b : Nat, g.links[i]? = some (a, b) →
        unw.getD b 0 - unw.getD a 0 =
          phaseDiff tau (w.getD a 0) (w.getD b 0) + tau * (flows.getD i 0 : K)) ∧
      unw.getD 0 0 = w.getD 0 0 := by
  obtain ⟨g, hg, hc, _⟩ := C04_hop3_planar n hn
  have hge := hg
  rw [hop3Graph_eq n hn] at hge
  simp only [Except.ok.injEq] at hge
  have hgn : g.npoints = n := by rw [← hge]
  have hgl : g.links = hop3Links n := by rw [← hge]
  have hgc : g.cycles = (hop3Explicit n).map triRow := by rw [← hge]
  rw [← hgn] at hc
  obtain ⟨m, hm⟩ := C06_contract_accepted g hc
  have hlw : ∀ p, |w.getD p 0| ≤ tau / 2 := by
    intro p
    by_cases hp : p < w.length
    · rw [List.getD_eq_getElem?_getD, List.getElem?_eq_getElem hp]
      exact hwrap _ (List.getElem_mem hp)
    · rw [List.getD_eq_getElem?_getD, List.getElem?_eq_none (by omega)]
      simp; linarith
  obtain ⟨unw, flows, h1, h2, h3, h4, h5, h6⟩ := C14_unwrap_one tau ht g m solver hc
    (by rw [hgl]; intro h; have := length_hop3Links n hn; rw [h] at this; simp at this; omega)
    (by rw [hgn, hgl]; exact hop3_connected n hn)
    (by rw [hgl, hgc]; exact hop3_generate n hn) hm hsound hcomp w (by rw [hw, hgn])
    (by
      intro a b _
      have h1 := hlw a; have h2 := hlw b
      rw [abs_le] at h1 h2 ⊢
      constructor <;> linarith)
    [cost] none (List.replicate g.links.length cost) (List.replicate g.links.length cost)
    ⟨by simp, .inr ⟨cost, rfl, rfl⟩⟩ ⟨by simp, .inr ⟨cost, rfl, rfl⟩⟩
    (by intro v hv; rw [List.eq_of_mem_replicate hv]; exact hcost)
    (by intro v hv; rw [List.eq_of_mem_replicate hv]; exact hcost)
  rw [hgn] at h2 h4
  exact ⟨g, m, unw, flows, hg, hm, h1, h2, h4, h5, h6⟩

/-- C14 for regular grids with at least two rows and columns. -/
theorem C14_unwrap_one_reg2d (tau : K) (ht : 0 < tau) (r c : Nat) (hr : 2 ≤ r) (hcc : 2 ≤ c)
    (solver : FlowSolver) (hsound : SolverSound solver) (hcomp : SolverComplete solver)
    (w : List K) (hw : w.length = r * c) (hwrap : ∀ x ∈ w, |x| ≤ tau / 2)
    (cost : ℤ) (hcost : 0 ≤ cost) :
    ∃ m unw flows, ormcf (reg2dGraph r c) = .ok m ∧
      unwrapOne tau solver m w [cost] none = .ok (unw, flows) ∧ unw.length = r * c ∧
      (∀ p < r * c, ∃ k : ℤ, unw.getD p 0 = w.getD p 0 + k * tau) ∧
      (∀ i a b : Nat, (reg2dGraph r c).links[i]? = some (a, b) →
        unw.getD b 0 - unw.getD a 0 =
          phaseDiff tau (w.getD a 0) (w.getD b 0) + tau * (flows.getD i 0 : K)) ∧
      unw.getD 0 0 = w.getD 0 0 := by
  have hc := reg2d_contract r c hr hcc
  obtain ⟨m, hm⟩ := C06_contract_accepted (reg2dGraph r c) hc
  have hlw : ∀ p, |w.getD p 0| ≤ tau / 2 := by
    intro p
    by_cases hp : p < w.length
    · rw [List.getD_eq_getElem?_getD, List.getElem?_eq_getElem hp]
      exact hwrap _ (List.getElem_mem hp)
    · rw [List.getD_eq_getElem?_getD, List.getElem?_eq_none (by omega)]
      simp; linarith
  have hne : (reg2dGraph r c).links ≠ [] := by
    have h : ((0 : Nat) * c + 0, 0 * c + 1) ∈ reg2dLinks r c := by
      rw [mem_reg2dLinks (by omega) (by omega), mem_reg2dLinksC]; omega
    exact List.ne_nil_of_mem h
  obtain ⟨unw, flows, h1, h2, h3, h4, h5, h6⟩ := C14_unwrap_one tau ht (reg2dGraph r c) m solver hc
    hne (reg2d_connected r c) (reg2d_generate r c) hm hsound hcomp w hw
    (by
      intro a b _
      have h1 := hlw a; have h2 := hlw b
      rw [abs_le] at h1 h2 ⊢
      constructor <;> linarith)
    [cost] none (List.replicate (reg2dGraph r c).links.length cost)
    (List.replicate (reg2dGraph r c).links.length cost)
    ⟨by simp, .inr ⟨cost, rfl, rfl⟩⟩ ⟨by simp, .inr ⟨cost, rfl, rfl⟩⟩
    (by intro v hv; rw [List.eq_of_mem_replicate hv]; exact hcost)
    (by intro v hv; rw [List.eq_of_mem_replicate hv]; exact hcost)
  exact ⟨m, unw, flows, hm, h1, h2, h4, h5, h6⟩

/-- Non-vacuity of C14: a sound and complete solver exists, and there is wrapped data with
a non-zero residue. -/
example : ∃ solver : FlowSolver, SolverSound solver ∧ SolverComplete solver ∧
    ∃ g m unw flows, hop3Graph 4 = .ok g ∧ ormcf g = .ok m ∧
      unwrapOne (1 : ℚ) solver m [0, 1 / 3, -1 / 3, 1 / 4] [1] none = .ok (unw, flows) := by
  obtain ⟨s, hs, hcomp⟩ := exists_solver
  obtain ⟨g, m, unw, flows, h1, h2, h3, _⟩ := C14_unwrap_one_hop3 (1 : ℚ) (by norm_num) 4
    (by omega) s hs.1 hcomp [0, 1 / 3, -1 / 3, 1 / 4] rfl (by
      intro x hx
      simp only [List.mem_cons, List.not_mem_nil, or_false] at hx
      rcases hx with rfl | rfl | rfl | rfl <;> rw [abs_le] <;> norm_num) 1 (by omega)
  exact ⟨s, hs.1, hcomp, g, m, unw, flows, h1, h2, h3⟩

/-- C15. Itoh: if the true phase changes by less than half a cycle along every link, then
unwrapping any version of it with whole cycles removed gives zero flows and the true phase
up to one global number of cycles. No assumption on the flow solver is needed. -/
theorem C15_itoh (tau : K) (ht : 0 < tau) (g : PlanarGraph) (m : Mcf) (solver : FlowSolver)
    (hc : PlanarContract g.npoints g.links g.cycles) (hne : g.links ≠ [])
    (hconn : Connected g.npoints g.links) (hm : ormcf g = .ok m)
    (φ : Nat → K) (hφ : ∀ a b, (a, b) ∈ g.links → |φ b - φ a| < tau / 2)
    (w : List K) (hw : w.length = g.npoints) (k : Nat → ℤ)
    (hwk : ∀ p < g.npoints, w.getD p 0 = φ p - k p * tau)
    (cost : List ℤ) (revcost : Option (List ℤ)) :
    ∃ unw, unwrapOne tau solver m w cost revcost =
        .ok (unw, List.replicate g.links.length 0) ∧
      unw.length = g.npoints ∧
      ∃ k0 : ℤ, ∀ p < g.npoints, unw.getD p 0 = φ p + k0 * tau := by
  obtain ⟨hmg, hmd⟩ := dual_of_contract hc hm
  have hcne := contract_cycles_ne hc hne
  have hb := contract_bound hc
  have hres := computeResidues_eq tau ht.ne' m w (by rw [hmg, hw]) (by rw [hmg]; exact hcne)
    (by rw [hmg]; exact hc.uniform) (by rw [hmg]; exact hb)
  rw [hmg] at hres
  have hpd : ∀ a b, (a, b) ∈ g.links →
      phaseDiff tau (w.getD a 0) (w.getD b 0) = φ b - φ a := by
    intro a b hab
    have h1 := hc.ordered a b hab
    have h2 := hφ a b hab
    rw [abs_lt] at h2
    rw [phaseDiff_eq, hwk a (by omega), hwk b h1.2]
    have : rint ((φ b - k b * tau - (φ a - k a * tau)) / tau) = k a - k b := by
      apply rint_eq_of_lt
      · rw [lt_div_iff₀ ht]; push_cast; nlinarith [h2.1]
      · rw [div_lt_iff₀ ht]; push_cast; nlinarith [h2.2]
    rw [this]; push_cast; ring
  have hside : ∀ cyc ∈ g.cycles, ∀ s ∈ sides cyc,
      phaseDiff tau (w.getD s.1 0) (w.getD s.2 0) = φ s.2 - φ s.1 := by
    rintro cyc hcy ⟨x, y⟩ hs
    rcases hc.side_is_link x y (List.mem_flatMap.mpr ⟨_, hcy, hs⟩) with h | h
    · exact hpd x y h
    · simp only; rw [phaseDiff_swap, hpd y x h]; ring
  have hzero : ∀ cyc ∈ g.cycles, wrapCount tau w cyc = 0 := by
    intro cyc hcy
    have h1 := wrapSum_eq tau w cyc
    have h2 : wrapSum tau w cyc = 0 := by
      unfold wrapSum
      rw [List.map_congr_left (hside cyc hcy), sum_sides_diff]
    rw [h2] at h1
    have : (wrapCount tau w cyc : K) = 0 := by
      rcases mul_eq_zero.mp h1.symm with h | h
      · exact h
      · exact absurd h ht.ne'
    exact_mod_cast this
  have hmap : g.cycles.map (wrapCount tau w) = List.replicate g.cycles.length 0 := by
    rw [List.map_congr_left hzero]; simp
  rw [hmap] at hres
  have hflow : residuesToFlows solver m (-(List.replicate g.cycles.length (0 : ℤ)).sum ::
      List.replicate g.cycles.length 0) cost (some (revcost.getD cost)) =
      .ok (List.replicate g.links.length 0) := by
    unfold residuesToFlows
    rw [if_neg (by simp), hmg]
  have hff := C13_flood_fill_recovers tau w g.links (List.replicate g.links.length 0) "points"
    g.npoints φ hne (fun a b hab => by have := hc.ordered a b hab; omega) (by simp)
    (.inl ⟨rfl, hw⟩) hconn (by
      intro i a b hi
      have : (List.replicate g.links.length (0 : ℤ)).getD i 0 = 0 := by
        rw [List.getD_eq_getElem?_getD, List.getElem?_replicate]; split <;> rfl
      rw [this]
      simp only [inputGradient, if_true]
      rw [hpd a b (List.mem_of_getElem? hi)]; simp)
  have hpos : 0 < g.npoints := by
    obtain ⟨⟨a, b⟩, l, hl⟩ := List.exists_cons_of_ne_nil hne
    have := hc.ordered a b (by rw [hl]; simp)
    omega
  refine ⟨(List.range g.npoints).map fun p =>
    φ p - φ 0 + (if "points" = "points" then w.getD 0 0 else 0), ?_, ?_, -k 0, ?_⟩
  rotate_left 2
  · intro p hp
    have e : ((List.range g.npoints).map fun p =>
        φ p - φ 0 + (if "points" = "points" then w.getD 0 0 else 0)).getD p 0 =
        φ p - φ 0 + w.getD 0 0 := by
      simp [List.getD_eq_getElem?_getD, hp]
    rw [e, hwk 0 hpos]; push_cast; ring
  · unfold unwrapOne
    rw [hres]
    simp only [Bind.bind, Except.bind, pure, Except.pure]
    rw [hflow]
    simp only [hmg]
    rw [hff]
    rfl
  · simp

/-- Non-vacuity of C15: a steep but unaliased ramp on `Hop3Graph(5)` (0.15 cycles per
acquisition, so 0.45 over three), stored wrapped. -/
example : ∃ g m, hop3Graph 5 = .ok g ∧ ormcf g = .ok m ∧
    ∃ unw, unwrapOne (1 : ℚ) (fun _ => none) m [0, 3 / 20, 6 / 20, 9 / 20, -8 / 20] [1] none =
      .ok (unw, List.replicate g.links.length 0) ∧ unw.length = g.npoints ∧
      ∃ k0 : ℤ, ∀ p < g.npoints, unw.getD p 0 = 3 / 20 * (p : ℚ) + k0 * 1 := by
  obtain ⟨g, hg, hc, _⟩ := C04_hop3_planar 5 (by omega)
  have hge := hg
  rw [hop3Graph_eq 5 (by omega)] at hge
  simp only [Except.ok.injEq] at hge
  have hgn : g.npoints = 5 := by rw [← hge]
  have hgl : g.links = hop3Links 5 := by rw [← hge]
  rw [← hgn] at hc
  obtain ⟨m, hm⟩ := C06_contract_accepted g hc
  refine ⟨g, m, hg, hm, ?_⟩
  refine C15_itoh (1 : ℚ) (by norm_num) g m (fun _ => none) hc (by rw [hgl]; simp [hop3Links])
    (by rw [hgn, hgl]; exact hop3_connected 5 (by omega)) hm (fun p => 3 / 20 * (p : ℚ)) ?_ _
    (by rw [hgn]; rfl) (fun p => if p = 4 then 1 else 0) ?_ _ _
  · intro a b hab
    rw [hgl, mem_hop3Links (by omega)] at hab
    have h1 : (a : ℚ) < b := by exact_mod_cast hab.1
    have h2 : (b : ℚ) ≤ a + 3 := by exact_mod_cast hab.2.2
    rw [abs_lt]; constructor <;> linarith
  · intro p hp
    rw [hgn] at hp
    interval_cases p <;> simp <;> norm_num

end

/-! ### C16 -/

theorem foldlM_setRow {α : Type} {n nedges : Nat} (f : Nat → Except PyErr (List α))
    (hf : ∀ i v, f i = .ok v → v.length = nedges) :
    ∀ (ts : List Nat) (init out : List (List α)), ts.Nodup → (∀ i ∈ ts, i < n) →
      init.length = n →
      (ts.foldlM (fun fl ii => do let v ← f ii; setRow fl nedges ii v) init = .ok out ↔
        out.length = n ∧ ∀ i < n, (i ∈ ts → f i = .ok (out.getD i [])) ∧
          (i ∉ ts → out.getD i [] = init.getD i [])) := by
  intro ts
  induction ts with
  | nil =>
    intro init out _ _ hl
    simp only [List.foldlM_nil, pure, Except.pure, Except.ok.injEq, List.not_mem_nil,
      false_imp_iff, true_and, not_false_eq_true, true_imp_iff]
    constructor
    · rintro rfl; exact ⟨hl, fun _ _ => rfl⟩
    · rintro ⟨h1, h2⟩
      apply List.ext_getElem
      · omega
      · intro i hi _
        have := h2 i (by omega)
        simp only [List.getD_eq_getElem?_getD, List.getElem?_eq_getElem hi,
          List.getElem?_eq_getElem (show i < out.length by omega), Option.getD_some] at this
        exact this.symm
  | cons t ts ih =>
    intro init out hnd hb hl
    rw [List.nodup_cons] at hnd
    have ht : t < n := hb t (by simp)
    rw [List.foldlM_cons]
    cases hv : f t with
    | error e =>
      simp only [Bind.bind, Except.bind]
      constructor
      · intro h; simp at h
      · rintro ⟨_, h⟩
        have := (h t ht).1 (by simp)
        rw [hv] at this; simp at this
    | ok v =>
      have hvl := hf t v hv
      have : (do let v ← (Except.ok v : Except PyErr (List α)); setRow init nedges t v) =
          Except.ok (init.set t v) := by
        simp [Bind.bind, Except.bind, setRow, hvl]
      rw [this]
      show (List.foldlM _ (init.set t v) ts : Except PyErr _) = Except.ok out ↔ _
      rw [ih (init.set t v) out hnd.2 (fun i hi => hb i (by simp [hi])) (by simp [hl])]
      refine and_congr_right fun hlo => forall_congr' fun i => forall_congr' fun hi => ?_
      by_cases hit : i = t
      · subst hit
        have e : (init.set i v).getD i [] = v := by
          simp [List.getD_eq_getElem?_getD, hl, hi]
        rw [e]
        simp only [hnd.1, false_imp_iff, true_and, not_false_eq_true, true_imp_iff, List.mem_cons,
          true_or, not_true_eq_false, and_true, hv, Except.ok.injEq]
        exact eq_comm
      · have e : (init.set t v).getD i [] = init.getD i [] := by
          simp [List.getD_eq_getElem?_getD, List.getElem?_set, Ne.symm hit]
        rw [e]; simp [hit]

theorem foldlM_ite_filter {β : Type} (P : Nat → Bool) (f : β → Nat → Except PyErr β) :
    ∀ (l : List Nat) (b : β),
      l.foldlM (fun b i => if P i then f b i else pure b) b = (l.filter P).foldlM f b := by
  intro l
  induction l with
  | nil => intro b; rfl
  | cons i l ih =>
    intro b
    rw [List.foldlM_cons]
    by_cases h : P i
    · simp only [h, if_true, List.filter_cons_of_pos]
      rw [List.foldlM_cons]
      congr 1; funext b'; exact ih b'
    · simp only [h, Bool.false_eq_true, if_false]
      rw [List.filter_cons_of_neg (by simpa using h)]
      exact ih b

/-- C16. `residues_to_flows_many` returns, row by row, what `residues_to_flows` returns for
that row, for every worker count and completion order; it raises exactly when some row
would raise or the rows have the wrong width. -/
theorem C16_many (g : PlanarGraph) (m : Mcf) (solver : FlowSolver) (hnd : g.links.Nodup)
    (hord : ∀ a b, (a, b) ∈ g.links → a ≤ b) (hm : ormcf g = .ok m) (nresidues : Nat)
    (residues : List (List ℤ)) (cost : List ℤ) (revcost : Option (List ℤ)) (workers : ℤ)
    (order : List Nat → List Nat) (horder : ∀ l, (order l).Perm l) :
    (nresidues ≠ g.cycles.length + 1 →
      residuesToFlowsMany solver m nresidues residues cost revcost workers order =
        .error .valueError) ∧
    (nresidues = g.cycles.length + 1 → ∀ out,
      (residuesToFlowsMany solver m nresidues residues cost revcost workers order = .ok out ↔
        out.length = residues.length ∧ ∀ i < residues.length,
          residuesToFlows solver m (residues.getD i []) cost revcost = .ok (out.getD i []))) := by
  obtain ⟨hmg, hdl, _⟩ := (C06_dual_graph g hnd hord).2 m hm
  constructor
  · intro h
    simp [residuesToFlowsMany, hmg, h]
  · intro h out
    set P : Nat → Bool := fun ii => (residues.getD ii []).any (· ≠ 0) with hP
    set f : Nat → Except PyErr (List ℤ) := fun ii =>
      solveMcf solver m.dual (residues.getD ii []) cost (revcost.getD cost) with hf
    have hflen : ∀ i v, f i = .ok v → v.length = g.links.length := by
      intro i v hv
      obtain ⟨_, c, r, fl, _, _, _, rfl⟩ := solveMcf_ok hv
      simpa [linkFlows] using hdl
    have hz : ∀ i, residuesToFlows solver m (residues.getD i []) cost revcost =
        if P i then f i else .ok (List.replicate g.links.length 0) := by
      intro i; rw [hP, hf]; simp only [residuesToFlows, hmg]
    have main : ∀ ts : List Nat, ts.Perm ((List.range residues.length).filter P) →
        (ts.foldlM (fun fl ii => do let v ← f ii; setRow fl g.links.length ii v)
          (List.replicate residues.length (List.replicate g.links.length (0 : ℤ))) = .ok out ↔
        out.length = residues.length ∧ ∀ i < residues.length,
          residuesToFlows solver m (residues.getD i []) cost revcost = .ok (out.getD i [])) := by
      intro ts hts
      have hmem : ∀ i, i ∈ ts ↔ i < residues.length ∧ P i := by
        intro i; rw [hts.mem_iff]; simp
      rw [foldlM_setRow (n := residues.length) f hflen ts _ out
        (hts.nodup_iff.mpr (List.nodup_range.filter _)) (fun i hi => ((hmem i).mp hi).1) (by simp)]
      refine and_congr_right fun _ => forall_congr' fun i => forall_congr' fun hi => ?_
      rw [hz, hmem]
      have e : (List.replicate residues.length (List.replicate g.links.length (0 : ℤ))).getD i [] =
          List.replicate g.links.length 0 := by simp [List.getD_eq_getElem?_getD, hi]
      rw [e]
      by_cases hp : P i
      · simp [hp, hi]
      · simp [hp, eq_comm]
    unfold residuesToFlowsMany
    simp only [hmg, h, ne_eq, not_true_eq_false, if_false]
    by_cases hw : workers = 1
    · rw [if_pos hw, ← main _ (List.Perm.refl _), ← foldlM_ite_filter]
      have hzip : residues.zipIdx = (List.range residues.length).map fun i =>
          (residues.getD i [], i) := by
        apply List.ext_getElem
        · simp
        · intro i h1 h2
          have : i < residues.length := by simpa using h1
          simp [List.getD_eq_getElem?_getD, this]
      rw [hzip, List.foldlM_map]
      have : ∀ (fl : List (List ℤ)) (i : Nat),
          (if P i then (do let v ← f i; setRow fl g.links.length i v) else pure fl) =
          (match ((residues.getD i [], i) : List ℤ × Nat) with
            | (res, ii) => if (res.any fun x => decide ¬ x = 0) = true then do
                let f ← residuesToFlows solver m res cost (some (revcost.getD cost))
                setRow fl g.links.length ii f
              else pure fl) := by
        intro fl i
        simp only
        by_cases hp : P i
        · rw [if_pos hp, if_pos hp]
          simp only [residuesToFlows, Option.getD_some]
          rw [if_pos hp]
        · rw [if_neg hp, if_neg hp]
      simp only [this]
    · rw [if_neg hw, ← main _ (horder _)]

/-- C16. In particular the result does not depend on the worker count or on the order in
which results arrive. -/
theorem C16_schedule_independent (g : PlanarGraph) (m : Mcf) (solver : FlowSolver)
    (hnd : g.links.Nodup) (hord : ∀ a b, (a, b) ∈ g.links → a ≤ b) (hm : ormcf g = .ok m)
    (nresidues : Nat) (residues : List (List ℤ)) (cost : List ℤ) (revcost : Option (List ℤ))
    (w1 w2 : ℤ) (o1 o2 : List Nat → List Nat) (h1 : ∀ l, (o1 l).Perm l) (h2 : ∀ l, (o2 l).Perm l)
    (out : List (List ℤ)) :
    residuesToFlowsMany solver m nresidues residues cost revcost w1 o1 = .ok out ↔
    residuesToFlowsMany solver m nresidues residues cost revcost w2 o2 = .ok out := by
  have a := C16_many g m solver hnd hord hm nresidues residues cost revcost w1 o1 h1
  have b := C16_many g m solver hnd hord hm nresidues residues cost revcost w2 o2 h2
  by_cases h : nresidues = g.cycles.length + 1
  · rw [a.2 h, b.2 h]
  · rw [a.1 h, b.1 h]

/-- Non-vacuity of C16: several rows, one of them zero, results arriving in reverse. -/
example : ∃ (solver : FlowSolver) (g : PlanarGraph) (m : Mcf) (out : List (List ℤ)),
    ormcf g = .ok m ∧ g.links.Nodup ∧ (∀ a b, (a, b) ∈ g.links → a ≤ b) ∧
    residuesToFlowsMany solver m 3 [[0, 1, -1], [0, 0, 0], [0, -1, 1]] [1] none 2 List.reverse
      = .ok out ∧ out.length = 3 := by
  obtain ⟨s, hs, hcomp⟩ := exists_solver
  set g : PlanarGraph := ⟨4, [(0, 1), (0, 2), (0, 3), (1, 2), (2, 3)], [[0, 1, 2], [0, 2, 3]]⟩ with hg
  have hord : ∀ a b, (a, b) ∈ g.links → a < b ∧ b < 4 := by
    simp only [hg, List.mem_cons, List.not_mem_nil, or_false, Prod.mk.injEq]; omega
  have hwk : ∀ s ∈ walked g.cycles, s ∈ g.links ∨ s.swap ∈ g.links := by decide
  have hlw : ∀ s ∈ g.links, s ∈ walked g.cycles ∨ s.swap ∈ walked g.cycles := by decide
  have hc : PlanarContract g.npoints g.links g.cycles :=
    ⟨hord, by decide, fun a b h => hwk (a, b) h, by decide, fun a b h => hlw (a, b) h, by decide⟩
  obtain ⟨m, hm⟩ := C06_contract_accepted g hc
  have hret : ∀ v : ℤ, |v| ≤ 1 → ∃ fl, residuesToFlows s m [0, v, -v] [1] none = .ok fl := by
    intro v hv
    have hv1 : |v| ≤ int32Max := by simp only [int32Max]; omega
    refine residuesToFlows_returns hc hm hcomp [0, v, -v] [1] none (List.replicate 5 1)
      (List.replicate 5 1) ⟨rfl, .inr ⟨1, rfl, rfl⟩⟩ ⟨rfl, .inr ⟨1, rfl, rfl⟩⟩ (by simp) (by simp)
      rfl (by simp) ⟨[0, v, 0, 0, 0], ⟨rfl, ?_⟩, ?_⟩
    · intro k hk
      have hk2 : k < 2 := hk
      have h1 : List.idxOf (0, 1) g.links = 0 := rfl
      have h2 : List.idxOf (0, 2) g.links = 1 := rfl
      have h3 : List.idxOf (1, 2) g.links = 3 := rfl
      have h4 : List.idxOf (2, 3) g.links = 4 := rfl
      have h5 : List.idxOf (0, 3) g.links = 2 := rfl
      interval_cases k
      · show circulation g.links [0, v, 0, 0, 0] [0, 1, 2] = -v
        simp [circulation, sides, along, onLink, h1, h2, h3]
      · show circulation g.links [0, v, 0, 0, 0] [0, 2, 3] = - -v
        simp [circulation, sides, along, onLink, h2, h4, h5]
    · intro x hx
      simp only [List.mem_cons, List.not_mem_nil, or_false] at hx
      have h0 : |(0 : ℤ)| ≤ int32Max := by rw [abs_zero]; simp only [int32Max]; omega
      rcases hx with rfl | rfl | rfl | rfl | rfl
      · exact h0
      · exact hv1
      · exact h0
      · exact h0
      · exact h0
  obtain ⟨f1, hf1⟩ := hret 1 (by simp)
  obtain ⟨f2, hf2⟩ := hret 0 (by simp)
  obtain ⟨f3, hf3⟩ := hret (-1) (by simp)
  refine ⟨s, g, m, [f1, f2, f3], hm, hc.distinct, fun a b h => (hord a b h).1.le, ?_, rfl⟩
  rw [(C16_many g m s hc.distinct (fun a b h => (hord a b h).1.le) hm 3 _ [1] none 2 List.reverse
    (fun l => List.reverse_perm l)).2 rfl]
  refine ⟨rfl, ?_⟩
  intro i hi
  have hi3 : i < 3 := hi
  interval_cases i
  · exact hf1
  · exact hf2
  · exact hf3

end Spurt
