import Verif.Props.FloatRecovery
import Verif.Props.RecoveryExample
import Verif.Props.FloatWorkflowExact
import Verif.Props.FloatWorkflowCongruent

/-!
# A run that meets the hypotheses of C71

The image, the tiles and the stack of `Props/RecoveryExample.lean`, in radians and rounded to `float32`.
-/

namespace Spurt
open Spec

namespace Whole

/-- True phases in radians. -/
def phiFl (s : Nat) (p : ℤ × ℤ) : ℚ := twoPi * phi s p

/-- The stack in `float32` radians. -/
def jobFl : TileJob ℚ :=
  { job with phase := fun d => (job.phase d).map fun im => ⟨im.rows, im.cols, fun r c => flSingle (twoPi * im.val r c)⟩ }

theorem jobFl_good : GoodJob jobFl where
  contract := job_good.contract
  dates := job_good.dates
  batch := job_good.batch
  images := by
    intro d im h
    simp only [jobFl, Option.map_eq_some_iff] at h
    obtain ⟨im', h1, rfl⟩ := h
    exact job_good.images d im' h1
  triangles := job_good.triangles

theorem epoch_fl (s r c : Nat) : epochPhase jobFl s r c = flSingle (twoPi * epochPhase job s r c) := by
  unfold epochPhase
  show ((job.dates[s]?).bind fun d => (job.phase d).map _).elim 0 _ = _
  cases h : job.dates[s]? with
  | none => simp [flSingle_zero]
  | some d =>
    simp only [Option.bind_some]
    cases job.phase d with
    | none => simp [flSingle_zero]
    | some im => rfl

theorem epoch_le (s r c : Nat) (hr : r < 6) (hc : c < 7) : |epochPhase job s r c| ≤ 1 / 2 := by
  have c1 : (0 : ℚ) ≤ r := Nat.cast_nonneg _
  have c2 : (r : ℚ) ≤ 5 := by exact_mod_cast (by omega : r ≤ 5)
  have c3 : (0 : ℚ) ≤ c := Nat.cast_nonneg _
  have c4 : (c : ℚ) ≤ 6 := by exact_mod_cast (by omega : c ≤ 6)
  unfold epochPhase job
  simp only
  rcases s with _ | _ | _ | s
  · simp
  · simp
    split
    · rename_i h
      have : (5 : ℚ) ≤ r + c := by exact_mod_cast (by omega : 5 ≤ r + c)
      rw [abs_le]; constructor <;> linarith
    · rename_i h
      have : (r + c : ℚ) ≤ 4 := by exact_mod_cast (by omega : r + c ≤ 4)
      rw [abs_le]; constructor <;> linarith
  · simp
    rw [abs_le]; constructor <;> linarith
  · simp

theorem pix_fl (b : BBox) : tilePixels jobFl b = tilePixels job b := rfl
theorem graph_fl (b : BBox) : tileGraph jobFl b = tileGraph job b := rfl

theorem valid_fl (r c : ℤ) : ValidPixel jobFl r c ↔ ValidPixel job r c := Iff.rfl

theorem near_phase : NearPhase twoPi (1 / 20000) jobFl phiFl := by
  intro s hs r c hp hv
  obtain ⟨k, hk⟩ := job_phase s hs r c hp hv
  refine ⟨k, ?_⟩
  obtain ⟨h1, h2, h3, h4⟩ := hp
  change r < 6 at h2
  change c < 7 at h4
  have hle := epoch_le s r.toNat c.toNat (by omega) (by omega)
  rw [epoch_fl]
  have h5 : |twoPi * epochPhase job s r.toNat c.toNat| ≤ 4 := by
    rw [abs_mul]
    calc |twoPi| * |epochPhase job s r.toNat c.toNat| ≤ |twoPi| * (1 / 2) := mul_le_mul_of_nonneg_left hle (abs_nonneg _)
      _ ≤ 4 := by norm_num [twoPi]
  have h6 := (rounds_single 4).1 _ h5
  have e : phiFl s (r, c) - (k : ℚ) * twoPi = twoPi * epochPhase job s r.toNat c.toNat := by
    unfold phiFl
    rw [hk]
    ring
  rw [e]
  exact h6.trans (by norm_num)

theorem bounded_fl (s : Nat) (r c : ℤ) (hp : PixelOf (jobFl.coh.rows, jobFl.coh.cols) r c) :
    |epochPhase jobFl s r.toNat c.toNat| ≤ 11 / 20 * twoPiSingle := by
  obtain ⟨h1, h2, h3, h4⟩ := hp
  change r < 6 at h2
  change c < 7 at h4
  have hle := epoch_le s r.toNat c.toNat (by omega) (by omega)
  rw [epoch_fl]
  have h5 : |twoPi * epochPhase job s r.toNat c.toNat| ≤ 32 / 10 := by
    rw [abs_mul]
    calc |twoPi| * |epochPhase job s r.toNat c.toNat| ≤ |twoPi| * (1 / 2) := mul_le_mul_of_nonneg_left hle (abs_nonneg _)
      _ ≤ 32 / 10 := by norm_num [twoPi]
  have a1 := abs_le.mp ((rounds_single 4).1 _ (h5.trans (by norm_num)))
  have a2 := abs_le.mp h5
  have h6 : (32 / 10 + 4 / 2 ^ 24 : ℚ) ≤ 11 / 20 * twoPiSingle := by norm_num [twoPiSingle]
  rw [abs_le]
  constructor <;> linarith

theorem steep_key : ∀ b ∈ T.tiles, ∀ s u, (s, u) ∈ job.time.links → ∀ p ∈ tilePixels job b, ∀ q ∈ tilePixels job b,
    |(phi u q - phi s q) - (phi u p - phi s p)| ≤ 45 / 100 := by
  intro b hb s u hsu p hp q hq
  obtain ⟨a1, a2, a3, a4⟩ := (job_pixels b hb).2 p hp
  obtain ⟨b1, b2, b3, b4⟩ := (job_pixels b hb).2 q hq
  have c1 : (0 : ℚ) ≤ p.1 := by exact_mod_cast a1
  have c2 : (p.1 : ℚ) ≤ 5 := by exact_mod_cast a2
  have c3 : (0 : ℚ) ≤ p.2 := by exact_mod_cast a3
  have c4 : (p.2 : ℚ) ≤ 5 := by exact_mod_cast a4
  have d1 : (0 : ℚ) ≤ q.1 := by exact_mod_cast b1
  have d2 : (q.1 : ℚ) ≤ 5 := by exact_mod_cast b2
  have d3 : (0 : ℚ) ≤ q.2 := by exact_mod_cast b3
  have d4 : (q.2 : ℚ) ≤ 5 := by exact_mod_cast b4
  simp only [job, List.mem_cons, Prod.mk.injEq, List.not_mem_nil, or_false] at hsu
  rw [abs_le]
  rcases hsu with ⟨rfl, rfl⟩ | ⟨rfl, rfl⟩ | ⟨rfl, rfl⟩ <;> simp [phi] <;> constructor <;> linarith

theorem steep_fl : ∀ b ∈ T.tiles, SteepAtMost (twoPi / 2 - 1 / 100) jobFl b phiFl := by
  intro b hb s u hsu m n _ p q hp hq
  rw [pix_fl] at hp hq
  have key := steep_key b hb s u hsu p (List.mem_of_getElem? hp) q (List.mem_of_getElem? hq)
  have e : (phiFl u q - phiFl s q) - (phiFl u p - phiFl s p) = twoPi * ((phi u q - phi s q) - (phi u p - phi s p)) := by
    unfold phiFl; ring
  rw [e, abs_mul]
  calc |twoPi| * _ ≤ |twoPi| * (45 / 100) := mul_le_mul_of_nonneg_left key (abs_nonneg _)
    _ ≤ _ := by norm_num [twoPi]

theorem range_key : ∀ s u, (s, u) ∈ job.time.links → ∀ p : ℤ × ℤ, PixelOf (job.coh.rows, job.coh.cols) p.1 p.2 →
    |phi u p - phi s p| ≤ 4 := by
  intro s u hsu p hp
  obtain ⟨a1, a2, a3, a4⟩ := hp
  simp only [job] at a2 a4
  have c1 : (0 : ℚ) ≤ p.1 := by exact_mod_cast a1
  have c2 : (p.1 : ℚ) ≤ 6 := by exact_mod_cast (by omega : p.1 ≤ 6)
  have c3 : (0 : ℚ) ≤ p.2 := by exact_mod_cast a3
  have c4 : (p.2 : ℚ) ≤ 6 := by exact_mod_cast (by omega : p.2 ≤ 6)
  simp only [job, List.mem_cons, Prod.mk.injEq, List.not_mem_nil, or_false] at hsu
  rw [abs_le]
  rcases hsu with ⟨rfl, rfl⟩ | ⟨rfl, rfl⟩ | ⟨rfl, rfl⟩ <;> simp [phi] <;> constructor <;> linarith

theorem range_fl : ∀ s u, (s, u) ∈ jobFl.time.links → ∀ p : ℤ × ℤ, PixelOf (jobFl.coh.rows, jobFl.coh.cols) p.1 p.2 →
    ValidPixel jobFl p.1 p.2 → |phiFl u p - phiFl s p| ≤ 300 := by
  intro s u hsu p hp _
  have key := range_key s u hsu p hp
  have e : phiFl u p - phiFl s p = twoPi * (phi u p - phi s p) := by unfold phiFl; ring
  rw [e, abs_mul]
  calc |twoPi| * _ ≤ |twoPi| * 4 := mul_le_mul_of_nonneg_left key (abs_nonneg _)
    _ ≤ _ := by norm_num [twoPi]

/-- The workflow on the `float32` stack with given solvers and the default settings for the bulk offsets. -/
noncomputable def flowFl (solver : FlowSolver) (mip : MipSolver) (lstsq : Lstsq ℚ) (lin : LinSolver ℚ) : Flow ℚ Nat :=
  { flow solver mip tiler 12 with job := jobFl, lin := lin, lstsq := lstsq, merger := { minOverlapPoints := 12 } }

/-- Inputs that meet every hypothesis of C71: four overlapping tiles, three acquisitions; one column has no coherence. -/
theorem float_inputs : ∃ P : Flow ℚ Nat, GoodFlow P ∧ P.job = jobFl ∧ P.merger.bulkMethod = "L2" ∧ P.merger.check = .ok () ∧ 11 ≤ P.merger.minOverlapPoints ∧
    makeTiles P.sc P.fl P.useTiles P.tiler P.job.coh.cols P.mask = .ok T ∧
    ConsistentLstsq P.lstsq T.tiles.length P.job.time.links.length (1 / 200000) (2 ^ 29) ∧ UnaliasedFl P T phiFl ∧ TilesJoined P T ∧
    (∀ r q : ℤ, {t : Nat | ∃ b, T.tiles[t]? = some b ∧ InTile b r q}.ncard ≤ 4) ∧
    (∀ edges : List (Nat × Nat), (∀ e ∈ edges, e.1 < T.tiles.length ∧ e.2 < T.tiles.length) →
      ComponentLabels T.tiles.length edges (P.cc T.tiles.length edges)) ∧
    MipComplete P.mip ∧ (∀ a, P.lin.ilu a = true) ∧ ∀ b ∈ T.tiles, MergeGraphFl P b := by
  obtain ⟨solver, ⟨hs, _⟩, _⟩ := exists_solver
  obtain ⟨mip, hopt, hcomp⟩ := exists_mip_solver
  obtain ⟨lin, hilu, hcg⟩ := exists_cg ℚ
  obtain ⟨lstsq, hls⟩ := exists_consistentLstsq 4 3 (1 / 200000 : ℚ) (2 ^ 29) (by norm_num) (by norm_num)
  have hgood := flow_good solver hs mip hopt tiler (by simp [TilerSettings.check, tiler]) 12
  have hP : GoodFlow (flowFl solver mip lstsq lin) := ⟨jobFl_good, hgood.solver, hgood.tiler, hgood.size, hgood.labels, hgood.mip⟩
  set P := flowFl solver mip lstsq lin with hPd
  have hT : makeTiles P.sc P.fl P.useTiles P.tiler P.job.coh.cols P.mask = .ok T := by
    have : P.mask = arr := flow_mask solver mip tiler 12
    rw [this]; exact tiles
  have hU : UnaliasedFl P T phiFl := by
    refine ⟨fun b hb => ?_, fun s r c hp _ => bounded_fl s r c hp, near_phase, steep_fl, range_fl, fun b hb p hp => ?_, ?_⟩
    · obtain ⟨h1, h2, h3, h4, h5, h6, h7⟩ := job_ready b hb
      exact ⟨h1, h2, h3, h4, h5, h6, h7⟩
    · have h3 := (job_pixels b hb).1
      rcases Nat.eq_zero_or_pos p with rfl | h0
      · exact ⟨0, by omega, .start⟩
      · exact ⟨1, by omega, .step .start (.inl (fan_adjacent h3 hp h0))⟩
    · intro cyc hc
      change cyc ∈ [[0, 1, 2]] at hc
      rw [List.mem_singleton.mp hc]
      simp
  have hJ : TilesJoined P T := fun t ht => .single
    ⟨(flow_shared 0 t (by omega) ht).1, by
      show (12 : ℤ) ≤ ((sharedPixels job T 0 t).ncard : ℤ)
      exact_mod_cast (flow_shared 0 t (by omega) ht).2⟩
  have hfour : ∀ r q : ℤ, {t : Nat | ∃ b, T.tiles[t]? = some b ∧ InTile b r q}.ncard ≤ 4 := by
    intro r q
    have hsub : {t : Nat | ∃ b, T.tiles[t]? = some b ∧ InTile b r q} ⊆ ↑(Finset.range 4) := by
      rintro t ⟨b, hb, _⟩
      have h4 : t < 4 := (List.getElem?_eq_some_iff.mp hb).1
      simpa using h4
    have := Set.ncard_le_ncard hsub (Finset.finite_toSet _)
    rw [Set.ncard_coe_finset] at this
    simpa using this
  refine ⟨P, hP, rfl, rfl, by simp [hPd, flowFl, flow, MergerSettings.check], by simp [hPd, flowFl, flow], hT, hls, hU, hJ,
    hfour, fun edges _ => labelsOf_labels _ edges, hcomp, hilu, ?_⟩
  intro b hb
  have h3 := (job_pixels b hb).1
  have e : (tilePixels P.job b).length = (tilePoints job.coh job.thr b).length := by simp [tilePixels, hPd, flowFl, jobFl]
  have e2 : P.simplices (tilePixels P.job b) = fan (tilePoints job.coh job.thr b).length := by rw [← e]; rfl
  have hord : ∀ u v, (u, v) ∈ (delaunayGraph (tilePoints job.coh job.thr b).length (fan (tilePoints job.coh job.thr b).length)).links →
      u < (tilePoints job.coh job.thr b).length ∧ v < (tilePoints job.coh job.thr b).length := by
    intro u v huv
    have := (fan_contract _).ordered u v huv
    omega
  refine ⟨?_, ?_, ?_, ?_⟩
  · rw [e2, e]
    exact hord
  · rw [e2, e, ← List.toFinset_card_of_nodup (fan_contract _).distinct]
    have h42 : (tilePoints job.coh job.thr b).length ≤ 42 := by
      have : ∀ b ∈ T.tiles, (tilePoints job.coh job.thr b).length ≤ 42 := by decide +kernel
      exact this b hb
    have : (delaunayGraph (tilePoints job.coh job.thr b).length (fan (tilePoints job.coh job.thr b).length)).links.toFinset ⊆
        Finset.range 42 ×ˢ Finset.range 42 := by
      rintro ⟨u, v⟩ h
      have := hord u v (List.mem_toFinset.mp h)
      simp only [Finset.mem_product, Finset.mem_range]
      omega
    exact (Finset.card_le_card this).trans (by simp)
  · rw [e2, e]
    intro p hp q hq
    have hc := fan_connected h3
    exact (adjacent_symm (hc p hp)).trans (hc q hq)
  · intro a _ mask b y h1 h2 h3 h4 k hk
    exact (hcg _ (1 / 4) mask b y h1 h2 h3 h4 k hk).trans (by norm_num)

/-- Non-vacuity of C71: four overlapping tiles, three acquisitions; one column has no coherence. -/
theorem example_float : ∃ (P : Flow ℚ Nat) (r : MergeResult ℚ), GoodFlow P ∧ P.job = jobFl ∧ UnaliasedFl P T phiFl ∧ P.merger.check = .ok () ∧
    makeTiles P.sc P.fl P.useTiles P.tiler P.job.coh.cols P.mask = .ok T ∧
    workflowFl numpyArith (flDouble (1 / 100)) (flDouble (1 / 100000)) P (fun _ _ l => l) (fun _ l => l.reverse) = .ok (T, r) ∧
    (∀ l, r = .merged l → ∀ x ∈ l, ∀ a b v, x.2.model.val a b = some v → |v| ≤ 1001) ∧
    (rastersOf r).map Prod.fst = [0, 1, 2] ∧
    ∀ i b, (i, b) ∈ rastersOf r → b.rows = 6 ∧ b.cols = 7 ∧
      (i = 0 → ∃ c : ℤ, ∀ r q : Nat, r < 6 → q < 7 →
        (q ≠ 6 → ∃ v, b.val r q = some v ∧ |v - (twoPi * (3 / 7 + ((r : ℚ) + q) / 60) + c * twoPi)| ≤ 1 / 500) ∧
        (q = 6 → b.val r q = none)) := by
  obtain ⟨P, hP, hj, _, hset, hmin, hT, hls, hU, hJ, hfour, hcc, hmipc, hilu, hgraph⟩ := float_inputs
  obtain ⟨r, h1, hmod, h2, h3⟩ := recovers_core P hP (by simp [hj, jobFl, job]) (by simp [hj, jobFl, job])
    (by simp [hj, jobFl, job]) hset hmin T hT (fun _ => hls) phiFl hU hJ hfour hcc hmipc hilu hgraph (fun _ _ l => l) (fun _ l => l.reverse)
    (fun _ _ l => List.Perm.refl l) (fun _ l => l.reverse_perm)
  rw [hj] at h2 h3
  refine ⟨P, r, hP, hj, hU, hset, hT, h1, hmod, h2, fun i b hib => ?_⟩
  obtain ⟨g1, g2, g3⟩ := h3 i b hib
  refine ⟨g1, g2, ?_⟩
  rintro rfl
  obtain ⟨c, hc⟩ := g3 0 1 rfl
  refine ⟨c, fun r q hr hq => ?_⟩
  obtain ⟨k1, k2⟩ := hc r q hr hq
  constructor
  · intro hq6
    obtain ⟨v, v1, v2⟩ := k1 ((valid_iff _ _).mpr (by simpa using hq6))
    refine ⟨v, v1, ?_⟩
    simpa [phiFl, phi] using v2
  · intro hq6
    exact k2 (fun hv => (valid_iff _ _).mp hv (by simpa using hq6))

/-- Non-vacuity of `C71_exact_workflow`: the run of `example_recovers`. -/
example : ∃ (P : Flow ℚ Nat) (r : MergeResult ℚ) (oT : Nat → Nat → List Nat → List Nat) (oS : Nat → List Nat → List Nat),
    workflowFl (noRounding 1) (1 / 100) (1 / 100000) P oT oS = .ok (T, r) ∧ (rastersOf r).map Prod.fst = [0, 1, 2] := by
  obtain ⟨P, d1, hP, hj, htau, hT, _, _, hrun, _⟩ := example_recovers
  obtain ⟨T', r, oT, oS, _, _, h1, h2, h3, _⟩ := C71_exact_workflow P hP (by rw [hj]; simp [job]) (by rw [hj]; simp [job]) d1 hrun
  have hTT : T' = T := by
    unfold workflowFl at h1
    rw [hT] at h1
    obtain ⟨T0, hT0, h1⟩ := except_bind_ok h1
    simp only [Except.ok.injEq] at hT0
    obtain ⟨_, _, h1⟩ := except_bind_ok h1
    obtain ⟨_, _, h1⟩ := except_bind_ok h1
    obtain ⟨_, _, h1⟩ := except_bind_ok h1
    obtain ⟨_, _, h1⟩ := except_bind_ok h1
    obtain ⟨_, _, h1⟩ := except_bind_ok h1
    simp only [pure, Except.pure, Except.ok.injEq, Prod.mk.injEq] at h1
    exact (hT0.trans h1.1).symm
  rw [htau, hTT] at h1
  rw [hj] at h3
  exact ⟨P, r, oT, oS, h1, h3⟩

/-- Non-vacuity of `C73_recovers` (the other hypotheses are those of `C71_recovers`). -/
example : ∃ P : Flow ℚ Nat, GoodFlow P ∧ P.job = jobFl ∧ UnaliasedWithin 2000 1000 P T phiFl ∧
    makeTiles P.sc P.fl P.useTiles P.tiler P.job.coh.cols P.mask = .ok T := by
  obtain ⟨P, _, hP, hj, hU, _, hT, _⟩ := example_float
  exact ⟨P, hP, hj, hU.mono (by norm_num) (by norm_num), hT⟩

/-- Non-vacuity of `C71_congruent`: the run of `example_float`. -/
example : ∃ (P : Flow ℚ Nat) (r : MergeResult ℚ), P.job = jobFl ∧
    workflowFl numpyArith (flDouble (1 / 100)) (flDouble (1 / 100000)) P (fun _ _ l => l) (fun _ l => l.reverse) = .ok (T, r) ∧
    TameFl P T (fun _ _ l => l) (fun _ l => l.reverse) ∧
    ∀ i b, (i, b) ∈ rastersOf r → b.rows = 6 ∧ b.cols = 7 ∧ (i = 2 → ∀ r q : Nat, r < 6 → q < 6 →
      ∃ v, b.val r q = some v ∧ ∃ k : ℤ, |v - (epochPhase jobFl 2 r q - epochPhase jobFl 1 r q + (k : ℚ) * twoPi)| ≤ 3 / 100) := by
  obtain ⟨P, r, hP, hj, hU, hset, hT, hrun, hmod, _⟩ := example_float
  obtain ⟨_, hpos, hin⟩ := flow_tiles hP hT
  have hoS : ∀ (t : Nat) (l : List Nat), ((fun _ l => l.reverse) t l : List Nat).Perm l := fun _ l => l.reverse_perm
  have hoT : ∀ (t k : Nat) (l : List Nat), ((fun _ _ l => l) t k l : List Nat).Perm l := fun _ _ l => List.Perm.refl l
  have htame := tameFl_of_unaliased hP hin (by simp [T]) (hU.mono (by norm_num) (by norm_num)) (fun _ _ l => l) (fun _ l => l.reverse) hoT hoS
  obtain ⟨_, h2⟩ := C71_congruent P hP (by rw [hj]; simp [jobFl, job]) (by rw [hj]; simp [jobFl, job]) hset _ _ hoT hoS T r _ _ hrun htame
    (fun l hl x hx a b v hv => (hmod l hl x hx a b v hv).trans (by norm_num))
  refine ⟨P, r, hj, hrun, htame, fun i b hib => ?_⟩
  obtain ⟨g1, g2, g3⟩ := h2 i b hib
  rw [hj] at g1 g2 g3
  refine ⟨g1, g2, ?_⟩
  rintro rfl r q hr hq
  have hl : jobFl.time.links[2]? = some (1, 2) := rfl
  exact (g3 1 2 hl r q hr (by change q < 7; omega)).1 ((valid_iff _ _).mpr (by simp; omega))

end Whole
end Spurt
