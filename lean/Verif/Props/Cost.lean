import Verif.Lemmas.Incidence
import Verif.Lemmas.Rint
import Verif.Lemmas.Solver
import Verif.Model.Cost
import Verif.Props.Mcf

/-!
# Properties C17 (worker counts) and C18 (link costs)
-/

namespace Spurt
open Spec

/-! ### C17 -/

/-- C17. `get_cpu_count` is at least one; it is the quota divided by the period, rounded
up, when both are readable and positive, and `cpu_count()` otherwise. -/
theorem C17_cpu_count (quota period : Option ℤ) (cpus : Nat) (h : 1 ≤ cpus) :
    1 ≤ getCpuCount quota period cpus ∧
    (∀ q p : ℤ, quota = some q → period = some p → 0 < q → 0 < p →
      q ≤ getCpuCount quota period cpus * p ∧ (getCpuCount quota period cpus - 1) * p < q) ∧
    ((∀ q p : ℤ, quota = some q → period = some p → ¬ (0 < q ∧ 0 < p)) →
      getCpuCount quota period cpus = cpus) := by
  have key : ∀ q p : ℤ, quota = some q → period = some p → 0 < q → 0 < p →
      q ≤ getCpuCount quota period cpus * p ∧ (getCpuCount quota period cpus - 1) * p < q := by
    rintro q p rfl rfl hq hp
    have e : getCpuCount (some q) (some p) cpus = ⌈(q : ℚ) / (p : ℚ)⌉ := by
      simp [getCpuCount, hq, hp]
    rw [e]
    have hpq : (0 : ℚ) < p := by exact_mod_cast hp
    have h1 := Int.le_ceil ((q : ℚ) / (p : ℚ))
    have h2 := Int.ceil_lt_add_one ((q : ℚ) / (p : ℚ))
    rw [div_le_iff₀ hpq] at h1
    have h2' : ((⌈(q : ℚ) / (p : ℚ)⌉ : ℚ) - 1) * p < q := by
      rw [← lt_div_iff₀ hpq]; linarith
    exact ⟨by exact_mod_cast h1, by exact_mod_cast h2'⟩
  refine ⟨?_, key, ?_⟩
  · rcases quota with _ | q
    · simp [getCpuCount]; exact_mod_cast h
    · rcases period with _ | p
      · simp [getCpuCount]; exact_mod_cast h
      · by_cases hqp : q > 0 ∧ p > 0
        · have := (key q p rfl rfl hqp.1 hqp.2).1
          by_contra hlt
          have h0 : getCpuCount (some q) (some p) cpus ≤ 0 := by omega
          nlinarith [hqp.1, hqp.2]
        · simp only [getCpuCount, hqp, if_false]; exact_mod_cast h
  · intro hn
    rcases quota with _ | q
    · rfl
    · rcases period with _ | p
      · rfl
      · have := hn q p rfl rfl
        simp only [getCpuCount, gt_iff_lt, this, if_false]

/-- C17. In `residues_to_flows_many` and `estimate_model_many` the worker count is always at
least one; an explicit positive count is used as given, and without one all CPUs but one are used. -/
theorem C17_pool_workers (cpuCount : ℤ) (w : Option ℤ) :
    1 ≤ poolWorkers cpuCount w ∧ (∀ k : ℤ, w = some k → 0 < k → poolWorkers cpuCount w = k) ∧
      ((∀ k : ℤ, w = some k → k ≤ 0) → 2 ≤ cpuCount → poolWorkers cpuCount w = cpuCount - 1) := by
  refine ⟨?_, ?_, ?_⟩
  · unfold poolWorkers
    split
    · omega
    · split <;> omega
  · rintro k rfl hk
    simp only [poolWorkers]
    rw [if_neg (by omega)]
  · intro h h2
    rcases w with _ | k
    · simp only [poolWorkers]; omega
    · simp only [poolWorkers]
      rw [if_pos (h k rfl)]; omega

/-- C17 (partial). The spatial stage gets a usable worker count when the count is explicit
or the host has at least two CPUs. Missing: one CPU with a default count, refuted below. -/
theorem C17_spatial_workers_partial (cpuCount s : ℤ) (h : 1 ≤ s ∨ 2 ≤ cpuCount) :
    processPool (spatialWorkers cpuCount s) = .ok () ∧ (1 ≤ s → spatialWorkers cpuCount s = s) ∧
      (s < 1 → spatialWorkers cpuCount s = cpuCount - 1) := by
  refine ⟨?_, ?_, ?_⟩
  · unfold processPool spatialWorkers
    rw [if_neg]
    split <;> omega
  · intro h1; unfold spatialWorkers; rw [if_neg (by omega)]
  · intro h1; unfold spatialWorkers; rw [if_pos h1]

/-- C17 fails for the spatial stage: with one CPU and the documented "let the workflow
choose" value, `ProcessPoolExecutor(max_workers=0)` raises. -/
theorem C17_spatial_workers_refuted :
    ∃ s : ℤ, s ≤ 0 ∧
      processPool (spatialWorkers (getCpuCount none none 1) s) = .error .valueError :=
  ⟨0, by omega, by simp [processPool, spatialWorkers, getCpuCount]⟩

example : getCpuCount (some 150000) (some 100000) 8 = 2 ∧ getCpuCount (some (-1)) (some 100000) 8 = 8 := by
  constructor
  · simp only [getCpuCount]
    norm_num
  · simp [getCpuCount]

/-! ### C18 -/

theorem linkCost_ok {scale d : ℝ} (hs : 0 < scale) (hd : 0 < d) :
    ∃ c, linkCost scale d = .ok c ∧ 1 ≤ c ∧ c = rint (1 + scale / d) := by
  refine ⟨_, by simp [linkCost, hd.ne'], ?_, rfl⟩
  apply le_rint_of_le
  have := div_pos hs hd
  push_cast; linarith

theorem planeDist_pos {p q : ℝ × ℝ} (h : p ≠ q) : 0 < planeDist p q := by
  unfold planeDist
  apply Real.sqrt_pos_of_pos
  by_contra hc
  have h1 : (p.1 - q.1) ^ 2 = 0 := by nlinarith [sq_nonneg (p.1 - q.1), sq_nonneg (p.2 - q.2)]
  have h2 : (p.2 - q.2) ^ 2 = 0 := by nlinarith [sq_nonneg (p.1 - q.1), sq_nonneg (p.2 - q.2)]
  apply h
  ext
  · have := pow_eq_zero_iff (two_ne_zero) |>.mp h1; linarith
  · have := pow_eq_zero_iff (two_ne_zero) |>.mp h2; linarith

theorem pointAt_ok {points : List (ℝ × ℝ)} {i : Nat} (h : i < points.length) :
    pointAt points i = .ok (points.getD i (0, 0)) := by
  simp [pointAt, h, List.getD_eq_getElem?_getD]

/-- C18. `distance_costs` gives every link between distinct locations an integer cost of at
least one, and longer links never cost more. -/
theorem C18_distance_costs (points : List (ℝ × ℝ)) (edges : List (Nat × Nat)) (scale : ℝ)
    (hs : 0 < scale) (hb : ∀ a b, (a, b) ∈ edges → a < points.length ∧ b < points.length)
    (hd : ∀ a b, (a, b) ∈ edges → points.getD a (0, 0) ≠ points.getD b (0, 0)) :
    ∃ cost, distanceCosts points edges scale = .ok cost ∧ cost.length = edges.length ∧
      (∀ v ∈ cost, 1 ≤ v) ∧
      ∀ i j (hi : i < edges.length) (hj : j < edges.length),
        planeDist (points.getD edges[i].1 (0, 0)) (points.getD edges[i].2 (0, 0)) ≤
          planeDist (points.getD edges[j].1 (0, 0)) (points.getD edges[j].2 (0, 0)) →
        cost.getD j 0 ≤ cost.getD i 0 := by
  have hm : distanceCosts points edges scale = .ok (edges.map fun e =>
      rint (1 + scale / planeDist (points.getD e.1 (0, 0)) (points.getD e.2 (0, 0)))) := by
    apply mapM_ok_of
    rintro ⟨a, b⟩ he
    have h1 := hb a b he
    obtain ⟨c, hc, _, rfl⟩ := linkCost_ok hs (planeDist_pos (hd a b he))
    simp only [pointAt_ok h1.1, pointAt_ok h1.2, Bind.bind, Except.bind, hc]
  refine ⟨_, hm, by simp, ?_, ?_⟩
  · intro v hv
    obtain ⟨⟨a, b⟩, he, rfl⟩ := List.mem_map.mp hv
    obtain ⟨c, _, h1, rfl⟩ := linkCost_ok hs (planeDist_pos (hd a b he))
    exact h1
  · intro i j hi hj hle
    simp only [List.getD_eq_getElem?_getD, List.getElem?_map, List.getElem?_eq_getElem hi,
      List.getElem?_eq_getElem hj, Option.map_some, Option.getD_some]
    apply rint_mono
    have hp : 0 < planeDist (points.getD edges[i].1 (0, 0)) (points.getD edges[i].2 (0, 0)) :=
      planeDist_pos (hd _ _ (List.getElem_mem hi))
    have := div_le_div_of_nonneg_left hs.le hp hle
    simp only [List.getD_eq_getElem?_getD] at this ⊢
    linarith

/-- C18. `centroid_costs` gives boundary links cost zero and every interior link whose two
cycles have different centroids an integer cost of at least one. -/
theorem C18_centroid_costs (points : List (ℝ × ℝ)) (cycles : List (List Nat))
    (dual : List DualRow) (scale : ℝ) (hs : 0 < scale)
    (hb : ∀ r ∈ dual, r.c1 ≠ 0 → 1 ≤ r.c0 ∧ r.c0 ≤ cycles.length ∧ r.c1 ≤ cycles.length)
    (hd : ∀ r ∈ dual, r.c1 ≠ 0 → centroid points (cycles.getD (r.c0 - 1) []) ≠
      centroid points (cycles.getD (r.c1 - 1) [])) :
    ∃ cost, centroidCosts points cycles dual scale = .ok cost ∧ cost.length = dual.length ∧
      ∀ i (hi : i < dual.length), (dual[i].c1 = 0 → cost.getD i 0 = 0) ∧
        (dual[i].c1 ≠ 0 → 1 ≤ cost.getD i 0) := by
  have hm : centroidCosts points cycles dual scale = .ok (dual.map fun r =>
      if r.c1 = 0 then 0 else rint (1 + scale / planeDist
        (centroid points (cycles.getD (r.c0 - 1) []))
        (centroid points (cycles.getD (r.c1 - 1) [])))) := by
    unfold centroidCosts
    apply mapM_ok_of
    intro r hr
    by_cases h0 : r.c1 = 0
    · simp [h0]
    · have h1 := hb r hr h0
      obtain ⟨c, hc, _, rfl⟩ := linkCost_ok hs (planeDist_pos (hd r hr h0))
      have e : ∀ k, k < cycles.length → pointAt (cycles.map (centroid points)) k =
          .ok (centroid points (cycles.getD k [])) := by
        intro k hk
        simp [pointAt, hk, List.getD_eq_getElem?_getD]
      rw [if_neg h0, if_neg h0, e _ (by omega), e _ (by omega)]
      simp only [Bind.bind, Except.bind, hc]
  refine ⟨_, hm, by simp, ?_⟩
  intro i hi
  simp only [List.getD_eq_getElem?_getD, List.getElem?_map, List.getElem?_eq_getElem hi,
      Option.map_some, Option.getD_some]
  constructor
  · intro h; rw [if_pos h]
  · intro h
    rw [if_neg h]
    obtain ⟨c, _, h1, rfl⟩ := linkCost_ok hs (planeDist_pos (hd dual[i] (List.getElem_mem hi) h))
    simpa [List.getD_eq_getElem?_getD] using h1

/-- Where a traversal comes from. -/
theorem mem_traversals {cycles : List (List Nat)} {a b : Nat} {t : Nat × ℤ}
    (h : t ∈ traversals cycles a b) :
    ∃ k, ∃ hk : k < cycles.length, t.1 = k + 1 ∧
      ((t.2 = 1 ∧ (a, b) ∈ sides cycles[k]) ∨ (t.2 = -1 ∧ (b, a) ∈ sides cycles[k])) := by
  unfold traversals at h
  simp only [List.mem_flatMap, List.mem_filterMap] at h
  obtain ⟨⟨c, k⟩, hck, s, hs, h⟩ := h
  rw [List.mem_zipIdx_iff_getElem?] at hck
  obtain ⟨hk, he⟩ := List.getElem?_eq_some_iff.mp hck
  simp only at hk he hs h
  refine ⟨k, hk, ?_⟩
  rw [he]
  split at h
  · rename_i hh
    simp only [Option.some.injEq] at h; subst h
    exact ⟨rfl, .inl ⟨rfl, by rw [← hh.1]; exact hs⟩⟩
  · split at h
    · rename_i hh
      simp only [Option.some.injEq] at h; subst h
      exact ⟨rfl, .inr ⟨rfl, by rw [← hh]; exact hs⟩⟩
    · simp at h

/-- Sums of the vertex numbers of the Hop-3 triangles are all different. -/
theorem hop3_sums_nodup (n : Nat) (hn : 4 ≤ n) :
    ((hop3Explicit n).map fun t => t.1 + t.2.1 + t.2.2).Nodup := by
  unfold hop3Explicit
  simp only [List.map_append, List.map_flatMap, List.map_cons, List.map_nil]
  rw [List.nodup_append, List.nodup_append]
  refine ⟨⟨by decide, ?_, ?_⟩, by simp, ?_⟩
  · rw [List.nodup_flatMap]
    refine ⟨fun i _ => by simp; omega, ?_⟩
    refine (List.nodup_range' (s := 1) (n := n - 4)).imp ?_
    intro i j hij x hx hy
    simp only [List.mem_cons, List.not_mem_nil, or_false] at hx hy
    omega
  · intro x hx y hy
    simp only [List.mem_flatMap, List.mem_range'_1, List.mem_cons, List.not_mem_nil, or_false] at hx hy
    obtain ⟨i, hi, hy⟩ := hy
    omega
  · intro x hx y hy
    simp only [List.mem_append, List.mem_flatMap, List.mem_range'_1, List.mem_cons,
      List.not_mem_nil, or_false] at hx hy
    rcases hx with hx | ⟨i, hi, hx⟩ <;> omega

theorem centroid_hop3 (n : Nat) (t : Tri) (h1 : t.1 < n) (h2 : t.2.1 < n) (h3 : t.2.2 < n) :
    (centroid (hop3Points n) (triRow t)).1 = ((t.1 + t.2.1 + t.2.2 : ℕ) : ℝ) / 3 := by
  have e : ∀ i, i < n → (hop3Points n).getD i (0, 0) = ((i : ℝ), 0) := by
    intro i hi
    simp [hop3Points, List.getD_eq_getElem?_getD, hi]
  simp only [centroid, triRow, List.map_cons, List.map_nil, List.sum_cons, List.sum_nil, e _ h1,
    e _ h2, e _ h3, List.length_cons, List.length_nil]
  push_cast; ring

theorem hop3Explicit_bound {n : Nat} (hn : 4 ≤ n) {t : Tri} (h : t ∈ hop3Explicit n) :
    t.1 < n ∧ t.2.1 < n ∧ t.2.2 < n ∧ t.1 ≠ t.2.1 ∧ t.1 ≠ t.2.2 ∧ t.2.1 ≠ t.2.2 := by
  rw [mem_hop3Explicit] at h
  rcases h with rfl | rfl | ⟨ii, h1, h2, rfl | rfl⟩ | rfl <;>
    (simp only; refine ⟨?_, ?_, ?_, ?_, ?_, ?_⟩ <;> omega)

/-- C18. For `Hop3Graph` both cost types are well defined for every stack length: distance
costs are at least one; centroid costs are zero on the boundary and at least one inside. -/
theorem C18_hop3_costs (n : Nat) (hn : 4 ≤ n) (scale : ℝ) (hs : 0 < scale) :
    ∃ g m dcost ccost, hop3Graph n = .ok g ∧ ormcf g = .ok m ∧
      distanceCosts (hop3Points n) g.links scale = .ok dcost ∧
      dcost.length = g.links.length ∧ (∀ v ∈ dcost, 1 ≤ v) ∧
      centroidCosts (hop3Points n) g.cycles m.dual scale = .ok ccost ∧
      ccost.length = g.links.length ∧ (∀ v ∈ ccost, 0 ≤ v) ∧
      ∀ i a b : Nat, g.links[i]? = some (a, b) →
        (((a, b) ∈ hop3Boundary ∨ (b, a) ∈ hop3Boundary) → ccost.getD i 0 = 0) ∧
        (¬ ((a, b) ∈ hop3Boundary ∨ (b, a) ∈ hop3Boundary) → 1 ≤ ccost.getD i 0) := by
  obtain ⟨g, hg, hc, _, _, hbd, _⟩ := C04_hop3_planar n hn
  have hge := hg
  rw [hop3Graph_eq n hn] at hge
  simp only [Except.ok.injEq] at hge
  have hgn : g.npoints = n := by rw [← hge]
  have hgl : g.links = hop3Links n := by rw [← hge]
  have hgc : g.cycles = (hop3Explicit n).map triRow := by rw [← hge]
  rw [← hgn] at hc
  obtain ⟨m, hm⟩ := C06_contract_accepted g hc
  obtain ⟨hmg, hmd⟩ := dual_of_contract hc hm
  have ept : ∀ i, i < n → (hop3Points n).getD i (0, 0) = ((i : ℝ), 0) := by
    intro i hi
    simp [hop3Points, List.getD_eq_getElem?_getD, hi]
  obtain ⟨dcost, h1, h2, h3, _⟩ := C18_distance_costs (hop3Points n) g.links scale hs
    (by
      intro a b hab
      have := hc.ordered a b hab
      simp only [hop3Points, List.length_map, List.length_range]; omega)
    (by
      intro a b hab
      have h := hc.ordered a b hab
      rw [ept a (by omega), ept b (by omega)]
      intro he
      have : (a : ℝ) = b := congrArg Prod.fst he
      have : a = b := by exact_mod_cast this
      omega)
  -- the two cycles of an interior link are different
  have hrow : ∀ r ∈ m.dual, r.c1 ≠ 0 → ∃ k l, ∃ (hk : k < (hop3Explicit n).length)
      (hl : l < (hop3Explicit n).length), r.c0 = k + 1 ∧ r.c1 = l + 1 ∧ k ≠ l := by
    intro r hr h0
    rw [hmd, List.mem_map] at hr
    obtain ⟨⟨a, b⟩, hab, rfl⟩ := hr
    have hct := contract_traversals hc hab
    have hmt := fun t => mem_traversals (cycles := g.cycles) (a := a) (b := b) (t := t)
    have hlt := (hc.ordered a b hab).1
    simp only [linkTraversals] at h0 ⊢
    generalize traversals g.cycles a b = ts at *
    rcases ts with _ | ⟨t, _ | ⟨u, _ | ⟨v, ts⟩⟩⟩
    · simp at hct
    · simp [rowOf] at h0
    · obtain ⟨k, hk, hk1, hks⟩ := hmt t (by simp)
      obtain ⟨l, hl, hl1, hls⟩ := hmt u (by simp)
      have hk' : k < (hop3Explicit n).length := by simpa [hgc] using hk
      have hl' : l < (hop3Explicit n).length := by simpa [hgc] using hl
      refine ⟨k, l, hk', hl', by simp [rowOf, hk1], by simp [rowOf, hl1], ?_⟩
      rintro rfl
      simp only [List.map_cons, List.map_nil, List.cons.injEq, and_true, List.nil_eq,
        List.cons_ne_nil, and_false, or_self, false_or] at hct
      have hboth : (a, b) ∈ sides g.cycles[k] ∧ (b, a) ∈ sides g.cycles[k] := by
        rcases hct with ⟨e1, e2⟩ | ⟨e1, e2⟩ <;> rw [e1] at hks <;> rw [e2] at hls <;>
          norm_num at hks hls
        · exact ⟨hks, hls⟩
        · exact ⟨hls, hks⟩
      have hnd := hop3Explicit_bound hn (List.getElem_mem hk')
      have hcy : g.cycles[k] = triRow (hop3Explicit n)[k] := by simp [hgc]
      rw [hcy] at hboth
      simp only [triRow, sides, List.cons_append, List.nil_append, List.zip_cons_cons,
        List.zip_nil_right, List.mem_cons, List.not_mem_nil, or_false, Prod.mk.injEq] at hboth
      omega
    · simp at hct
  obtain ⟨ccost, h4, h5, h6⟩ := C18_centroid_costs (hop3Points n) g.cycles m.dual scale hs
    (by
      intro r hr h0
      obtain ⟨k, l, hk, hl, e1, e2, _⟩ := hrow r hr h0
      rw [e1, e2, hgc]
      simp; omega)
    (by
      intro r hr h0
      obtain ⟨k, l, hk, hl, e1, e2, hne⟩ := hrow r hr h0
      rw [e1, e2, hgc]
      simp only [Nat.add_sub_cancel, List.getD_eq_getElem?_getD, List.getElem?_map,
        List.getElem?_eq_getElem hk, List.getElem?_eq_getElem hl, Option.map_some, Option.getD_some]
      intro he
      have hx := congrArg Prod.fst he
      obtain ⟨a1, a2, a3, _⟩ := hop3Explicit_bound hn (List.getElem_mem hk)
      obtain ⟨b1, b2, b3, _⟩ := hop3Explicit_bound hn (List.getElem_mem hl)
      rw [centroid_hop3 n _ a1 a2 a3, centroid_hop3 n _ b1 b2 b3] at hx
      have hx2 : (((hop3Explicit n)[k].1 + (hop3Explicit n)[k].2.1 + (hop3Explicit n)[k].2.2 : ℕ) : ℝ)
          = (((hop3Explicit n)[l].1 + (hop3Explicit n)[l].2.1 + (hop3Explicit n)[l].2.2 : ℕ) : ℝ) := by
        linarith
      have hx3 := Nat.cast_injective hx2
      apply hne
      have hnd := hop3_sums_nodup n hn
      have := (List.Nodup.getElem_inj_iff hnd (i := k) (hi := by simpa using hk) (j := l)
        (hj := by simpa using hl)).mp (by simpa using hx3)
      exact this)
  have hdl : m.dual.length = g.links.length := by rw [hmd]; simp
  have hcc : ∀ i a b : Nat, g.links[i]? = some (a, b) →
        (((a, b) ∈ hop3Boundary ∨ (b, a) ∈ hop3Boundary) → ccost.getD i 0 = 0) ∧
        (¬ ((a, b) ∈ hop3Boundary ∨ (b, a) ∈ hop3Boundary) → 1 ≤ ccost.getD i 0) := by
    intro i a b hi
    obtain ⟨hlt, he⟩ := List.getElem?_eq_some_iff.mp hi
    have hi' : i < m.dual.length := by omega
    have hab : (a, b) ∈ g.links := List.mem_of_getElem? hi
    have h7 := h6 i hi'
    have hd : m.dual[i] = rowOf (linkTraversals g.cycles (a, b)) := by
      simp [hmd, he]
    -- boundary links are those with a single traversal
    have hiff : m.dual[i].c1 = 0 ↔ ((a, b) ∈ hop3Boundary ∨ (b, a) ∈ hop3Boundary) := by
      rw [← hbd a b hab, hd]
      have hct := contract_traversals hc hab
      have hsnd := traversals_snd g.cycles a b
      have hlt' := (hc.ordered a b hab).1
      have hin1 : (1 : ℤ) ∈ (traversals g.cycles a b).map (·.2) ↔ (a, b) ∈ walked g.cycles := by
        rw [hsnd]
        simp only [List.mem_filterMap]
        constructor
        · rintro ⟨s, hs, h⟩
          split at h
          · rename_i hh; rw [← hh.1]; exact hs
          · split at h <;> simp at h
        · intro h; exact ⟨_, h, by simp [hlt']⟩
      have hin2 : (-1 : ℤ) ∈ (traversals g.cycles a b).map (·.2) ↔ (b, a) ∈ walked g.cycles := by
        rw [hsnd]
        simp only [List.mem_filterMap]
        constructor
        · rintro ⟨s, hs, h⟩
          split at h
          · simp at h
          · split at h
            · rename_i hh; rw [← hh]; exact hs
            · simp at h
        · intro h; exact ⟨_, h, by rw [if_neg (by simp; omega)]; simp⟩
      rw [← hin1, ← hin2]
      have hfl := traversals_fst_le g.cycles a b
      simp only [linkTraversals]
      generalize traversals g.cycles a b = ts at *
      rcases ts with _ | ⟨t, _ | ⟨u, _ | ⟨v, ts⟩⟩⟩
      · simp at hct
      · simp only [rowOf]
        simp only [List.map_cons, List.map_nil, List.mem_singleton, true_iff]
        omega
      · have := hfl u (by simp)
        simp only [rowOf]
        simp only [List.map_cons, List.map_nil, List.cons.injEq, and_true, List.nil_eq,
          List.cons_ne_nil, and_false, or_self, false_or, List.mem_cons, List.not_mem_nil,
          or_false] at hct ⊢
        constructor
        · intro h; omega
        · intro h; exfalso; apply h; omega
      · simp at hct
    rw [← hiff]
    exact h7
  refine ⟨g, m, dcost, ccost, hg, hm, h1, h2, h3, h4, by omega, ?_, hcc⟩
  intro v hv
  obtain ⟨i, hi, rfl⟩ := List.mem_iff_getElem.mp hv
  have hil : i < g.links.length := by omega
  have h8 := hcc i g.links[i].1 g.links[i].2 (by simp [hil])
  have e : ccost.getD i 0 = ccost[i] := by simp [List.getD_eq_getElem?_getD, hi]
  rw [e] at h8
  by_cases hbb : ((g.links[i].1, g.links[i].2) ∈ hop3Boundary ∨
      (g.links[i].2, g.links[i].1) ∈ hop3Boundary)
  · rw [h8.1 hbb]
  · have := h8.2 hbb; omega

/-- Non-vacuity: a two-point example of `distance_costs` (distance 2, scale 100). -/
example : distanceCosts [(0, 0), (2, 0)] [(0, 1)] 100 = .ok [51] := by
  have hd : planeDist (0, 0) (2, 0) = 2 := by
    unfold planeDist
    norm_num
    rw [show (4 : ℝ) = 2 ^ 2 by norm_num]
    exact Real.sqrt_sq (by norm_num)
  simp only [distanceCosts, List.mapM_cons, List.mapM_nil, pointAt, List.getElem?_cons_zero,
    List.getElem?_cons_succ, Bind.bind, Except.bind, pure, Except.pure, hd, linkCost]
  have : rint (1 + 100 / 2 : ℝ) = 51 := rint_eq_of_lt (by norm_num) (by norm_num)
  rw [if_neg (by norm_num), this]

end Spurt
