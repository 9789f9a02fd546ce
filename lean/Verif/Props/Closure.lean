import Verif.Spec.Closure
import Verif.Props.EndResult
import Verif.Props.Recovery
import Verif.Props.RecoveryExample
import Verif.Props.FloatLargeRecovery
import Verif.Props.ComplexNumpyExample

/-!
# Property C90: closure of the result around loops of interferograms
-/

namespace Spurt
open Spec

/-- Values that are differences of one potential `p` and `e`: along a walk the first part telescopes. -/
theorem alongWalk_potential {K : Type} [CommRing K] {links : List (Nat × Nat)} (v e : Nat → K) (p : Nat → K)
    (hv : ∀ i s u, links[i]? = some (s, u) → v i = p u - p s + e i) :
    ∀ (steps : List (Nat × Bool)) (s u : Nat), Walk links s u steps → alongWalk v steps = p u - p s + alongWalk e steps := by
  intro steps
  induction steps with
  | nil =>
    intro s u h
    have : s = u := h
    subst this
    simp [alongWalk]
  | cons st rest ih =>
    intro s u h
    obtain ⟨i, d⟩ := st
    cases d with
    | true =>
      obtain ⟨b, h1, h2⟩ := h
      have := ih b u h2
      simp only [alongWalk, List.map_cons, List.sum_cons] at this ⊢
      simp only [if_true]
      rw [this, hv i s b h1]
      ring
    | false =>
      obtain ⟨a, h1, h2⟩ := h
      have := ih a u h2
      simp only [alongWalk, List.map_cons, List.sum_cons] at this ⊢
      simp only [Bool.false_eq_true, if_false]
      rw [this, hv i a s h1]
      ring

theorem link_at {links : List (Nat × Nat)} {i : Nat} (hi : i < links.length) : links[i]? = some ((links[i]).1, (links[i]).2) :=
  List.getElem?_eq_getElem hi

/-- Every step of a walk is an interferogram. -/
theorem walk_links {links : List (Nat × Nat)} : ∀ (steps : List (Nat × Bool)) (s u : Nat), Walk links s u steps →
    ∀ st ∈ steps, st.1 < links.length := by
  intro steps
  induction steps with
  | nil => intro s u _ st hst; simp at hst
  | cons st rest ih =>
    intro s u h
    obtain ⟨i, d⟩ := st
    cases d with
    | true =>
      obtain ⟨b, h1, h2⟩ := h
      intro st hst
      rcases List.mem_cons.mp hst with rfl | hst
      · exact (List.getElem?_eq_some_iff.mp h1).1
      · exact ih b u h2 st hst
    | false =>
      obtain ⟨a, h1, h2⟩ := h
      intro st hst
      rcases List.mem_cons.mp hst with rfl | hst
      · exact (List.getElem?_eq_some_iff.mp h1).1
      · exact ih a u h2 st hst

/-- Whole cycles add up to whole cycles. -/
theorem alongWalk_int {K : Type} [CommRing K] (tau : K) (k : Nat → ℤ) (steps : List (Nat × Bool)) :
    alongWalk (fun i => (k i : K) * tau) steps = ((alongWalk k steps : ℤ) : K) * tau := by
  unfold alongWalk
  induction steps with
  | nil => simp
  | cons st rest ih =>
    simp only [List.map_cons, List.sum_cons, ih]
    obtain ⟨i, d⟩ := st
    cases d <;> simp <;> ring

/-- Errors add up. -/
theorem alongWalk_bound {K : Type} [Field K] [LinearOrder K] [IsStrictOrderedRing K] (e : Nat → K) (ε : K) (steps : List (Nat × Bool))
    (h : ∀ st ∈ steps, |e st.1| ≤ ε) : |alongWalk e steps| ≤ steps.length * ε := by
  unfold alongWalk
  induction steps with
  | nil => simp
  | cons st rest ih =>
    have h1 := ih (fun x hx => h x (List.mem_cons_of_mem _ hx))
    have h2 := h st List.mem_cons_self
    simp only [List.map_cons, List.sum_cons, List.length_cons]
    refine (abs_add_le _ _).trans ?_
    have : |if st.2 then e st.1 else - e st.1| ≤ ε := by split <;> simpa using h2
    push_cast
    linarith

theorem alongWalk_congr {K : Type} [Ring K] (v w : Nat → K) (steps : List (Nat × Bool)) (h : ∀ st ∈ steps, v st.1 = w st.1) :
    alongWalk v steps = alongWalk w steps := by
  unfold alongWalk
  congr 1
  exact List.map_congr_left fun st hst => by rw [h st hst]

theorem alongWalk_add {K : Type} [CommRing K] (v w : Nat → K) (steps : List (Nat × Bool)) :
    alongWalk (fun i => v i + w i) steps = alongWalk v steps + alongWalk w steps := by
  unfold alongWalk
  induction steps with
  | nil => simp
  | cons st rest ih =>
    simp only [List.map_cons, List.sum_cons, ih]
    obtain ⟨i, d⟩ := st
    cases d <;> simp <;> ring

section
variable {K S : Type} [Field K] [LinearOrder K] [IsStrictOrderedRing K] [FloorRing K]

/-- C90. After a completed run, all rasters have a value at the same pixels, those of sufficient coherence, and around every closed loop of
interferograms the values of a pixel add up to a whole number of cycles. -/
theorem C90_closure (P : Flow K S) (hP : GoodFlow P) (htau : 0 < P.tau) (himg : 0 < P.job.coh.rows ∧ 0 < P.job.coh.cols) (d1 : Disk K)
    (h : RunByWrite P.stages Disk.empty .completed d1) :
    ∃ B : Nat → Band (Option K), (∀ i < P.job.time.links.length, d1.unw i = some (some (B i))) ∧
      ∀ r q : Nat, r < P.job.coh.rows → q < P.job.coh.cols →
        (ValidPixel P.job r q → ∃ v : Nat → K, (∀ i < P.job.time.links.length, (B i).val r q = some (v i)) ∧
          ∀ s steps, Walk P.job.time.links s s steps → ∃ k : ℤ, alongWalk v steps = k * P.tau) ∧
        (¬ ValidPixel P.job r q → ∀ i < P.job.time.links.length, (B i).val r q = none) := by
  have hc := C61_result P hP htau himg d1 h
  have hex : ∀ i, ∃ b, i < P.job.time.links.length → d1.unw i = some (some b) ∧
      ∀ s u, P.job.time.links[i]? = some (s, u) → ∀ r q : Nat, r < P.job.coh.rows → q < P.job.coh.cols →
        (ValidPixel P.job r q → ∃ v, b.val r q = some v ∧ ∃ k : ℤ, v = stackIfg P.tau P.job s u r q + k * P.tau) ∧
        (¬ ValidPixel P.job r q → b.val r q = none) := by
    intro i
    by_cases hi : i < P.job.time.links.length
    · obtain ⟨b, h1, _, _, h4⟩ := hc i _ _ (link_at hi)
      refine ⟨b, fun _ => ⟨h1, fun s u hsu => ?_⟩⟩
      rw [List.getElem?_eq_getElem hi, Option.some.injEq] at hsu
      rw [hsu] at h4
      exact h4
    · exact ⟨⟨0, 0, fun _ _ => none⟩, fun h => absurd h hi⟩
  choose B hB using hex
  refine ⟨B, fun i hi => (hB i hi).1, fun r q hr hq => ⟨fun hv => ?_, fun hv i hi => ?_⟩⟩
  · have hpt : ∀ i, ∃ v : K, ∃ k : ℤ, i < P.job.time.links.length → (B i).val r q = some v ∧
        ∀ s u, P.job.time.links[i]? = some (s, u) → v = epochPhase P.job u r q - epochPhase P.job s r q + k * P.tau := by
      intro i
      by_cases hi : i < P.job.time.links.length
      · obtain ⟨v, v1, k, hk⟩ := ((hB i hi).2 _ _ (link_at hi) r q hr hq).1 hv
        obtain ⟨m, hm⟩ : ∃ m : ℤ, stackIfg P.tau P.job (P.job.time.links[i]).1 (P.job.time.links[i]).2 r q =
            epochPhase P.job (P.job.time.links[i]).2 r q - epochPhase P.job (P.job.time.links[i]).1 r q + m * P.tau :=
          ⟨- rint ((epochPhase P.job (P.job.time.links[i]).2 r q - epochPhase P.job (P.job.time.links[i]).1 r q) / P.tau), by
            unfold stackIfg; rw [phaseDiff_eq]; push_cast; ring⟩
        refine ⟨v, k + m, fun _ => ⟨v1, fun s u hsu => ?_⟩⟩
        rw [List.getElem?_eq_getElem hi, Option.some.injEq] at hsu
        rw [hk, hm, hsu]
        push_cast
        ring
      · exact ⟨0, 0, fun h => absurd h hi⟩
    choose v k hvk using hpt
    refine ⟨v, fun i hi => (hvk i hi).1, fun s steps hw => ⟨alongWalk k steps, ?_⟩⟩
    rw [alongWalk_potential v (fun i => (k i : K) * P.tau) (fun e => epochPhase P.job e r q)
      (fun i a b hab => (hvk i (List.getElem?_eq_some_iff.mp hab).1).2 a b hab) steps s s hw, alongWalk_int]
    ring
  · exact ((hB i hi).2 _ _ (link_at hi) r q hr hq).2 hv

/-- C90 with C63. On an unaliased stack the closure around a loop is the same number of cycles at every pixel of sufficient coherence. -/
theorem C90_constant (P : Flow K S) (hP : GoodFlow P) (htau : 0 < P.tau) (himg : 0 < P.job.coh.rows ∧ 0 < P.job.coh.cols)
    (T : TileSet) (hT : makeTiles P.sc P.fl P.useTiles P.tiler P.job.coh.cols P.mask = .ok T)
    (φ : Nat → ℤ × ℤ → K) (hU : Unaliased P T φ) (hjoin : TilesJoined P T)
    (hcc : ∀ edges : List (Nat × Nat), (∀ e ∈ edges, e.1 < T.tiles.length ∧ e.2 < T.tiles.length) →
      ComponentLabels T.tiles.length edges (P.cc T.tiles.length edges))
    (hls : P.merger.bulkMethod = "L2" → ∀ olaps off, off.length = olaps.length →
      (∀ row ∈ off, row.length = P.job.time.links.length) →
      LeastSquares (overlapMatrix olaps T.tiles.length) off (P.lstsq (overlapMatrix olaps T.tiles.length) off)
        T.tiles.length P.job.time.links.length)
    (d1 : Disk K) (h : RunByWrite P.stages Disk.empty .completed d1) (s : Nat) (steps : List (Nat × Bool))
    (hw : Walk P.job.time.links s s steps) :
    ∃ k : ℤ, ∀ (B : Nat → Band (Option K)) (r q : Nat) (v : Nat → K), r < P.job.coh.rows → q < P.job.coh.cols → ValidPixel P.job r q →
      (∀ st ∈ steps, d1.unw st.1 = some (some (B st.1)) ∧ (B st.1).val r q = some (v st.1)) → alongWalk v steps = k * P.tau := by
  have hc : ∀ i, ∃ c : ℤ, ∀ s u, P.job.time.links[i]? = some (s, u) → ∀ b, d1.unw i = some (some b) →
      ∀ r q : Nat, r < P.job.coh.rows → q < P.job.coh.cols → ValidPixel P.job r q → b.val r q = some ((φ u (r, q) - φ s (r, q)) + c * P.tau) := by
    intro i
    by_cases hi : i < P.job.time.links.length
    · obtain ⟨b, h1, _, _, c, h4⟩ := C63_recovers P hP htau himg T hT φ hU hjoin hcc hls d1 h i _ _ (link_at hi)
      refine ⟨c, fun s u hsu b' hb' r q hr hq hv => ?_⟩
      rw [h1, Option.some.injEq, Option.some.injEq] at hb'
      rw [List.getElem?_eq_getElem hi, Option.some.injEq] at hsu
      rw [hsu] at h4
      rw [← hb']
      exact (h4 r q hr hq).1 hv
    · refine ⟨0, fun s u hsu => absurd (List.getElem?_eq_some_iff.mp hsu).1 hi⟩
  choose c hc using hc
  refine ⟨alongWalk c steps, fun B r q v hr hq hv hB => ?_⟩
  have hlinks := walk_links steps s s hw
  rw [alongWalk_congr v (fun i => (if hi : i < P.job.time.links.length then
    φ (P.job.time.links[i]).2 (r, q) - φ (P.job.time.links[i]).1 (r, q) else 0) + c i * P.tau) steps]
  · rw [alongWalk_potential _ (fun i => (c i : K) * P.tau) (fun e => φ e (r, q)) _ steps s s hw, alongWalk_int]
    · ring
    · intro i a b hab
      have hi := (List.getElem?_eq_some_iff.mp hab).1
      rw [List.getElem?_eq_getElem hi, Option.some.injEq] at hab
      rw [dif_pos hi, hab]
  · intro st hst
    have hi := hlinks st hst
    obtain ⟨b1, b2⟩ := hB st hst
    have := hc st.1 _ _ (link_at hi) (B st.1) b1 r q hr hq hv
    rw [b2, Option.some.injEq] at this
    rw [dif_pos hi, this]
end

section
variable {S : Type}

/-- C90 with C71. The rasters of a completed run in numpy's numbers: around a loop of interferograms the values of a pixel add up to a whole
number of cycles, to within 3/100 of a radian per interferogram. -/
theorem C90_numpy (P : Flow ℚ S) (hP : GoodFlow P) (himg : 0 < P.job.coh.rows ∧ 0 < P.job.coh.cols)
    (hifgs : P.job.time.links ≠ []) (hset : P.merger.check = .ok ())
    (oT : Nat → Nat → List Nat → List Nat) (oS : Nat → List Nat → List Nat)
    (hoT : ∀ t k l, (oT t k l).Perm l) (hoS : ∀ t l, (oS t l).Perm l) (T : TileSet) (res : MergeResult ℚ) (atol rtol : ℚ)
    (h : workflowFl numpyArith atol rtol P oT oS = .ok (T, res)) (hU : TameFl P T oT oS)
    (hmodel : ∀ l, res = .merged l → ∀ x ∈ l, ∀ a b v, x.2.model.val a b = some v → |v| ≤ 20000)
    (s : Nat) (steps : List (Nat × Bool)) (hw : Walk P.job.time.links s s steps) (B : Nat → Band (Option ℚ))
    (hB : ∀ st ∈ steps, (st.1, B st.1) ∈ rastersOf res) (r q : Nat) (hr : r < P.job.coh.rows) (hq : q < P.job.coh.cols)
    (hv : ValidPixel P.job r q) :
    ∃ v : Nat → ℚ, (∀ st ∈ steps, (B st.1).val r q = some (v st.1)) ∧
      ∃ k : ℤ, |alongWalk v steps - k * twoPi| ≤ steps.length * (3 / 100) := by
  obtain ⟨_, hc⟩ := C71_congruent P hP himg hifgs hset oT oS hoT hoS T res atol rtol h hU hmodel
  have hpt : ∀ i, ∃ v : ℚ, ∃ k : ℤ, ∃ e : ℚ, |e| ≤ 3 / 100 ∧ ∀ s u, P.job.time.links[i]? = some (s, u) → (i, B i) ∈ rastersOf res →
      (B i).val r q = some v ∧ v = epochPhase P.job u r q - epochPhase P.job s r q + ((k : ℚ) * twoPi + e) := by
    intro i
    by_cases hi : i < P.job.time.links.length ∧ (i, B i) ∈ rastersOf res
    · obtain ⟨v, v1, k, hk⟩ := ((hc i (B i) hi.2).2.2 _ _ (link_at hi.1) r q hr hq).1 hv
      refine ⟨v, k, _, hk, fun s u hsu _ => ⟨v1, ?_⟩⟩
      rw [List.getElem?_eq_getElem hi.1, Option.some.injEq] at hsu
      rw [hsu]
      ring
    · exact ⟨0, 0, 0, by norm_num, fun s u hsu hb => absurd ⟨(List.getElem?_eq_some_iff.mp hsu).1, hb⟩ hi⟩
  choose v k e he hvk using hpt
  have hlinks := walk_links steps s s hw
  refine ⟨v, fun st hst => (hvk st.1 _ _ (link_at (hlinks st hst)) (hB st hst)).1, alongWalk k steps, ?_⟩
  rw [alongWalk_congr v (fun i => (if hi : i < P.job.time.links.length then
    epochPhase P.job (P.job.time.links[i]).2 r q - epochPhase P.job (P.job.time.links[i]).1 r q else 0) + ((k i : ℚ) * twoPi + e i)) steps]
  · rw [alongWalk_potential _ (fun i => (k i : ℚ) * twoPi + e i) (fun x => epochPhase P.job x r q) _ steps s s hw, alongWalk_add, alongWalk_int]
    · have := alongWalk_bound e (3 / 100) steps (fun st _ => he st.1)
      rw [sub_self, zero_add, add_sub_cancel_left]
      exact this
    · intro i a b hab
      have hi := (List.getElem?_eq_some_iff.mp hab).1
      rw [List.getElem?_eq_getElem hi, Option.some.injEq] at hab
      rw [dif_pos hi, hab]
  · intro st hst
    have hi := hlinks st hst
    have := (hvk st.1 _ _ (link_at hi) (hB st hst)).2
    rw [dif_pos hi, this]

/-- C90 with C73. The whole workflow in numpy's numbers on an unaliased stack of complex images: around a loop the closure is the same number of
cycles at every pixel of sufficient coherence, to within 1/300 of a radian per interferogram. -/
theorem C90_numpy_constant (P : Flow ℚ S) (hP : GoodFlow P) (himg : 0 < P.job.coh.rows ∧ 0 < P.job.coh.cols)
    (hifgs : P.job.time.links ≠ []) (hpool : 1 ≤ P.job.settings.numParallelTiles)
    (hset : P.merger.check = .ok ()) (hmin : 11 ≤ P.merger.minOverlapPoints)
    (T : TileSet) (hT : makeTiles P.sc P.fl P.useTiles P.tiler P.job.coh.cols P.mask = .ok T)
    (hls : P.merger.bulkMethod = "L2" → ConsistentLstsq P.lstsq T.tiles.length P.job.time.links.length (1 / 200000) (2 ^ 29))
    (slc : String → Option (Band ℂ)) (φ : Nat → ℤ × ℤ → ℝ) (hU : UnaliasedSamples P T slc φ) (hjoin : TilesJoined P T)
    (hfour : ∀ r q : ℤ, {t : Nat | ∃ b, T.tiles[t]? = some b ∧ InTile b r q}.ncard ≤ 4)
    (hcc : ∀ edges : List (Nat × Nat), (∀ e ∈ edges, e.1 < T.tiles.length ∧ e.2 < T.tiles.length) →
      ComponentLabels T.tiles.length edges (P.cc T.tiles.length edges))
    (hmipc : MipComplete P.mip) (hilu : ∀ a, P.lin.ilu a = true) (hgraph : ∀ b ∈ T.tiles, MergeGraphFl P b)
    (oT : Nat → Nat → List Nat → List Nat) (oS : Nat → List Nat → List Nat)
    (hoT : ∀ t k l, (oT t k l).Perm l) (hoS : ∀ t l, (oS t l).Perm l) :
    ∃ res, workflowFl numpyArith (flDouble (1 / 100)) (flDouble (1 / 100000)) P oT oS = .ok (T, res) ∧
      ∀ s steps, Walk P.job.time.links s s steps → ∃ k : ℤ, ∀ (B : Nat → Band (Option ℚ)) (r q : Nat), r < P.job.coh.rows →
        q < P.job.coh.cols → ValidPixel P.job r q → (∀ st ∈ steps, (st.1, B st.1) ∈ rastersOf res) →
        ∃ v : Nat → ℚ, (∀ st ∈ steps, (B st.1).val r q = some (v st.1)) ∧
          |alongWalk (fun i => (v i : ℝ)) steps - k * (2 * Real.pi)| ≤ steps.length * (1 / 300) := by
  obtain ⟨res, h1, h2, h3⟩ := C89_numpy_recovers P hP himg hifgs hpool hset hmin T hT hls slc φ hU hjoin hfour hcc hmipc hilu hgraph oT oS hoT hoS
  refine ⟨res, h1, fun s steps hw => ?_⟩
  have hlinks := walk_links steps s s hw
  have hone : ∀ i b b', (i, b) ∈ rastersOf res → (i, b') ∈ rastersOf res → b = b' := by
    intro i b b' hb hb'
    have hn : ((rastersOf res).map Prod.fst).Nodup := by rw [h2]; exact List.nodup_range
    exact (Prod.mk.inj (List.inj_on_of_nodup_map hn hb hb' rfl)).2
  have hc : ∀ i, ∃ c : ℤ, ∀ s u, P.job.time.links[i]? = some (s, u) → ∀ b, (i, b) ∈ rastersOf res →
      ∀ r q : Nat, r < P.job.coh.rows → q < P.job.coh.cols → ValidPixel P.job r q → ∃ v : ℚ, b.val r q = some v ∧
        |(v : ℝ) - ((φ u (r, q) - φ s (r, q)) + c * (2 * Real.pi))| ≤ 1 / 300 := by
    intro i
    by_cases hi : i < P.job.time.links.length ∧ ∃ b, (i, b) ∈ rastersOf res
    · obtain ⟨hi, b, hb⟩ := hi
      obtain ⟨c, g⟩ := (h3 i b hb).2.2 _ _ (link_at hi)
      refine ⟨c, fun s u hsu b' hb' r q hr hq hv => ?_⟩
      rw [List.getElem?_eq_getElem hi, Option.some.injEq] at hsu
      rw [hsu] at g
      rw [hone i b' b hb' hb]
      exact (g r q hr hq).1 hv
    · exact ⟨0, fun s u hsu b hb => absurd ⟨(List.getElem?_eq_some_iff.mp hsu).1, b, hb⟩ hi⟩
  choose c hc using hc
  refine ⟨alongWalk c steps, fun B r q hr hq hv hB => ?_⟩
  have hpt : ∀ i, ∃ v : ℚ, ∃ e : ℝ, |e| ≤ 1 / 300 ∧ ∀ s u, P.job.time.links[i]? = some (s, u) → (i, B i) ∈ rastersOf res →
      (B i).val r q = some v ∧ (v : ℝ) = φ u (r, q) - φ s (r, q) + ((c i : ℝ) * (2 * Real.pi) + e) := by
    intro i
    by_cases hi : i < P.job.time.links.length ∧ (i, B i) ∈ rastersOf res
    · obtain ⟨v, v1, hk⟩ := hc i _ _ (link_at hi.1) (B i) hi.2 r q hr hq hv
      refine ⟨v, _, hk, fun s u hsu _ => ⟨v1, ?_⟩⟩
      rw [List.getElem?_eq_getElem hi.1, Option.some.injEq] at hsu
      rw [hsu]
      ring
    · exact ⟨0, 0, by norm_num, fun s u hsu hb => absurd ⟨(List.getElem?_eq_some_iff.mp hsu).1, hb⟩ hi⟩
  choose v e he hvk using hpt
  refine ⟨v, fun st hst => (hvk st.1 _ _ (link_at (hlinks st hst)) (hB st hst)).1, ?_⟩
  rw [alongWalk_congr (fun i => (v i : ℝ)) (fun i => (if hi : i < P.job.time.links.length then
    φ (P.job.time.links[i]).2 (r, q) - φ (P.job.time.links[i]).1 (r, q) else 0) + ((c i : ℝ) * (2 * Real.pi) + e i)) steps]
  · rw [alongWalk_potential _ (fun i => (c i : ℝ) * (2 * Real.pi) + e i) (fun x => φ x (r, q)) _ steps s s hw, alongWalk_add, alongWalk_int]
    · have := alongWalk_bound e (1 / 300) steps (fun st _ => he st.1)
      rw [sub_self, zero_add, add_sub_cancel_left]
      exact this
    · intro i a b hab
      have hi := (List.getElem?_eq_some_iff.mp hab).1
      rw [List.getElem?_eq_getElem hi, Option.some.injEq] at hab
      rw [dif_pos hi, hab]
  · intro st hst
    have hi := hlinks st hst
    have := (hvk st.1 _ _ (link_at hi) (hB st hst)).2
    rw [dif_pos hi, this]

end
end Spurt
