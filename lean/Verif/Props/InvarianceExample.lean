import Verif.Props.Masked
import Verif.Props.Parallel
import Verif.Props.Reference
import Verif.Props.RecoveryExample
import Verif.Props.CubeItoh
import Verif.Props.EmcfExamples

/-!
# Calls that meet the hypotheses of C79, C80 and C81
-/

namespace Spurt
open Spec

section
variable {K S : Type} [Field K] [LinearOrder K] [IsStrictOrderedRing K] [FloorRing K]

/-- Unaliased stacks meet the hypothesis of C79 on the tiles. -/
theorem unaliased_noTie {P : Flow K S} (hP : GoodFlow P) (ht : 0 < P.tau) {T : TileSet} {φ : Nat → ℤ × ℤ → K} (hU : Unaliased P T φ)
    (hin : ∀ b ∈ T.tiles, TileInImage (P.job.coh.rows, P.job.coh.cols) b) :
    ∀ b ∈ T.tiles, NoTieOnTile P.tau P.job b := by
  intro b hb s u hsu m n hmn p q hp hq
  obtain ⟨l1, l2⟩ := hP.job.contract.ordered s u hsu
  have hsd : s < P.job.dates.length := by rw [hP.job.dates]; omega
  have hud : u < P.job.dates.length := by rw [hP.job.dates]; omega
  obtain ⟨vp1, vp2⟩ := tilePixels_valid (hin b hb) hP.job.images (List.mem_of_getElem? hp)
  obtain ⟨vq1, vq2⟩ := tilePixels_valid (hin b hb) hP.job.images (List.mem_of_getElem? hq)
  obtain ⟨k1, g1⟩ := hU.phase s hsd _ _ vp1 vp2
  obtain ⟨k2, g2⟩ := hU.phase u hud _ _ vp1 vp2
  obtain ⟨k3, g3⟩ := hU.phase s hsd _ _ vq1 vq2
  obtain ⟨k4, g4⟩ := hU.phase u hud _ _ vq1 vq2
  have hs := hU.smooth b hb s u hsu m n hmn p q hp hq
  intro k hk
  unfold rawIfg at hk
  rw [g1, g2, g3, g4] at hk
  have e : (φ u q - φ s q) - (φ u p - φ s p) = ((k + k4 - k3 - k2 + k1 : ℤ) + 1 / 2 : K) * P.tau := by
    push_cast
    linear_combination hk
  rw [e, abs_lt] at hs
  set z : ℤ := k + k4 - k3 - k2 + k1
  rcases le_or_gt 0 z with hz | hz
  · have : (0 : K) ≤ z := by exact_mod_cast hz
    nlinarith [hs.2]
  · have : (z : K) ≤ -1 := by exact_mod_cast (by omega : z ≤ -1)
    nlinarith [hs.1]

end

theorem noTie_of_fract {x : ℚ} (h : Int.fract x ≠ 1 / 2) : NoTie 1 x := by
  intro n hn
  apply h
  rw [hn, mul_one, add_comm, Int.fract_add_intCast]
  norm_num [Int.fract_eq_iff]

namespace Whole

/-- Non-vacuity of C80: four tiles; the last column is incoherent, there the phases change; coherence and threshold change. -/
example : ∃ (P P' : Flow ℚ Nat) (d1 : Disk ℚ), SameCoherent P.job P'.job ∧
    P' = { P with job := { P.job with coh := P'.job.coh, thr := P'.job.thr, phase := P'.job.phase } } ∧
    P'.job.coh ≠ P.job.coh ∧ P'.job.thr ≠ P.job.thr ∧
    RunByWrite P.stages Disk.empty .completed d1 ∧ RunByWrite P'.stages Disk.empty .completed d1 := by
  obtain ⟨P, d1, hP, hj, ht, hT, hU, hJ, hrun, hrest⟩ := example_recovers
  let j' : TileJob ℚ := { job with
    coh := ⟨6, 7, fun _ c => if c = 6 then some (1 / 10) else some (3 / 4)⟩
    thr := 1 / 4
    phase := fun d => (job.phase d).map fun im => ⟨im.rows, im.cols, fun r c => if c = 6 then (r : ℚ) / 3 else im.val r c⟩ }
  have hs : SameCoherent P.job j' := by
    rw [hj]
    refine ⟨⟨rfl, rfl⟩, fun r c hr hc => ?_, fun d => by simp [j'], fun d im h => job_good.images d im h, fun d im h => ?_,
      fun d im im' h h' r c hr hc hv => ?_⟩
    · rw [valid_iff]
      unfold ValidPixel
      simp only [j', Int.toNat_natCast]
      split
      · next h => simp [h]; norm_num
      · next h => simp [h]; norm_num
    · simp only [j', Option.map_eq_some_iff] at h
      obtain ⟨im0, h0, rfl⟩ := h
      exact job_good.images d im0 h0
    · simp only [j', h, Option.map_some, Option.some.injEq] at h'
      subst h'
      have := (valid_iff _ _).mp hv
      simp only [Int.toNat_natCast] at this
      simp [this]
  have he : ({ P with job := j' } : Flow ℚ Nat) = { P with job := { P.job with coh := j'.coh, thr := j'.thr, phase := j'.phase } } := by
    rw [hj]
  refine ⟨P, { P with job := j' }, d1, hs, he, ?_, ?_, hrun, (C80_masked P { P with job := j' } hs he _ _ _).mpr hrun⟩
  · rw [hj]
    intro hc
    have := congrArg (fun b : Band (Option ℚ) => b.val 0 6) hc
    simp [j', job] at this
  · rw [hj]; norm_num [j', job]

/-- Non-vacuity of C81: the call of C60 with four tiles. -/
example : ∃ (P : Flow ℚ Nat) (d1 : Disk ℚ) (q : Parallelism), GoodFlow P ∧ 0 < P.job.coh.rows ∧ 0 < P.job.coh.cols ∧ q.Usable ∧
    (withParallelism P q).job.settings ≠ P.job.settings ∧ (withParallelism P q).merger ≠ P.merger ∧
    RunByWrite P.stages Disk.empty .completed d1 ∧ RunByFile (withParallelism P q).stages Disk.empty .completed d1 := by
  obtain ⟨P, d1, hP, hj, ht, hT, hU, hJ, hrun, hrest⟩ := example_recovers
  have himg : 0 < P.job.coh.rows ∧ 0 < P.job.coh.cols := by rw [hj]; exact ⟨by decide, by decide⟩
  have hq : (⟨4, 2, 7, 3, P.merger.numParallelIfgs + 1, 8⟩ : Parallelism).Usable := ⟨by norm_num, by norm_num, .inl (by norm_num)⟩
  refine ⟨P, d1, _, hP, himg.1, himg.2, hq, ?_, ?_, hrun, (C81_parallel P hP himg d1 hrun _ hq _ (subDisk_empty d1)).2.2⟩
  · intro hc
    have := congrArg SolverSettings.linksPerBatch hc
    rw [show P.job.settings = {} by rw [hj]; rfl] at this
    simp [withParallelism] at this
  · intro hc
    have := congrArg MergerSettings.numParallelIfgs hc
    simp [withParallelism] at this

/-- The stack of the example with the second acquisition as reference, and one cycle added in two columns. -/
def rereferenced : TileJob ℚ := { job with
  phase := fun d => if d = "20200113" then none else if d = "20200101" then
    some ⟨6, 7, fun r c => - epochPhase job 1 r c + if c = 3 then 1 else 0⟩ else
    some ⟨6, 7, fun r c => epochPhase job 2 r c - epochPhase job 1 r c - if c = 4 then 1 else 0⟩ }

theorem rereferenced_same : SameStack 1 job rereferenced (fun _ => 0) fun p => - epochPhase job 1 p.1.toNat p.2.toNat := by
  refine ⟨rfl, rfl, ?_, ?_⟩
  · intro d im h
    simp only [rereferenced] at h
    split at h
    · cases h
    split at h <;> · cases h; exact ⟨rfl, rfl⟩
  · intro s hs r c _ _
    have hs3 : s < 3 := hs
    interval_cases s
    · refine ⟨if c.toNat = 3 then 1 else 0, ?_⟩
      show - epochPhase job 1 _ _ + _ = (0 : ℚ) + _ + _ + _
      split <;> simp
    · refine ⟨0, ?_⟩
      simp [epochPhase, rereferenced, job]
    · refine ⟨if c.toNat = 4 then -1 else 0, ?_⟩
      show epochPhase job 2 _ _ - epochPhase job 1 _ _ - _ = epochPhase job 2 _ _ + _ + _ + _
      split <;> simp <;> ring

/-- Nothing in the example is half a cycle. -/
theorem example_noTie {P : Flow ℚ Nat} (hP : GoodFlow P) (hj : P.job = job) (ht : P.tau = 1)
    (hT : makeTiles P.sc P.fl P.useTiles P.tiler P.job.coh.cols P.mask = .ok T) (hU : Unaliased P T phi) :
    ∀ T, makeTiles P.sc P.fl P.useTiles P.tiler P.job.coh.cols P.mask = .ok T →
      ∀ b ∈ T.tiles, NoTieOnTile P.tau P.job b ∧ NoTieAtFirst P.tau P.job b := by
  have htau : 0 < P.tau := by rw [ht]; norm_num
  intro T' hT' b hb
  rw [hT] at hT'
  cases hT'
  refine ⟨unaliased_noTie hP htau hU (flow_tiles hP hT).2.2 b hb, ?_⟩
  have hdec : ∀ b ∈ T.tiles, ∀ l ∈ job.time.links, ∀ p ∈ (tilePixels job b).take 1, Int.fract (rawIfg job l.1 l.2 p) ≠ 1 / 2 := by
    decide +kernel
  intro s u hsu p hp
  rw [hj] at hsu hp ⊢
  rw [ht]
  refine noTie_of_fract (hdec b hb (s, u) hsu p ?_)
  rw [List.mem_take_iff_getElem]
  obtain ⟨h0, h1⟩ := List.getElem?_eq_some_iff.mp hp
  exact ⟨0, by omega, h1⟩

/-- Non-vacuity of C79 for the whole workflow: four tiles, another reference acquisition. -/
example : ∃ (P : Flow ℚ Nat) (d1 : Disk ℚ) (j' : TileJob ℚ) (β : ℤ × ℤ → ℚ), GoodFlow P ∧ 0 < P.tau ∧
    RunByWrite P.stages Disk.empty .completed d1 ∧ SameStack P.tau P.job j' (fun _ => 0) β ∧
    (∀ T, makeTiles P.sc P.fl P.useTiles P.tiler P.job.coh.cols P.mask = .ok T →
      ∀ b ∈ T.tiles, NoTieOnTile P.tau P.job b ∧ NoTieAtFirst P.tau P.job b) ∧
    RunByFile (withJob P j').stages Disk.empty .completed d1 := by
  obtain ⟨P, d1, hP, hj, ht, hT, hU, hJ, hrun, hrest⟩ := example_recovers
  have hsame : SameStack P.tau P.job rereferenced (fun _ => 0) fun p => - epochPhase job 1 p.1.toNat p.2.toNat := by
    rw [hj, ht]; exact rereferenced_same
  have htau : 0 < P.tau := by rw [ht]; norm_num
  have htie := example_noTie hP hj ht hT hU
  exact ⟨P, d1, rereferenced, _, hP, htau, hrun, hsame, htie, (C79_reference P hP htau d1 hrun _ _ hsame htie _ (subDisk_empty d1)).2.2⟩

end Whole

/-- The stack of `exampleJob` with a phase added per acquisition, a phase per pixel and a cycle at one pixel. -/
def shiftedJob : TileJob ℚ := { exampleJob with
  phase := fun d =>
    let s := if d = "20200101" then 0 else if d = "20200113" then 1 else 2
    some ⟨2, 2, fun r c => epochPhase exampleJob s r c + (s : ℚ) / 5 + ((r : ℚ) + c / 3) + if s = 1 ∧ r = 0 ∧ c = 1 then 1 else 0⟩ }

theorem shiftedJob_same : SameStack 1 exampleJob shiftedJob (fun s => (s : ℚ) / 5) fun p => (p.1.toNat : ℚ) + (p.2.toNat : ℚ) / 3 := by
  refine ⟨rfl, rfl, ?_, ?_⟩
  · intro d im h
    simp only [shiftedJob, Option.some.injEq] at h
    subst h
    exact ⟨rfl, rfl⟩
  · intro s hs r c _ _
    have hs3 : s < 3 := hs
    refine ⟨if s = 1 ∧ r.toNat = 0 ∧ c.toNat = 1 then 1 else 0, ?_⟩
    interval_cases s
    · show epochPhase exampleJob 0 _ _ + _ + _ + _ = _
      simp
    · show epochPhase exampleJob 1 _ _ + _ + _ + _ = _
      simp
    · show epochPhase exampleJob 2 _ _ + _ + _ + _ = _
      simp

theorem exampleJob_noTie : NoTieOnTile 1 exampleJob ⟨0, 0, 2, 2⟩ := by
  have hdec : ∀ l ∈ exampleJob.time.links, ∀ p ∈ tilePixels exampleJob ⟨0, 0, 2, 2⟩, ∀ q ∈ tilePixels exampleJob ⟨0, 0, 2, 2⟩,
      Int.fract (rawIfg exampleJob l.1 l.2 q - rawIfg exampleJob l.1 l.2 p) ≠ 1 / 2 := by
    decide +kernel
  intro s u hsu m n _ p q hp hq
  exact noTie_of_fract (hdec (s, u) hsu p (List.mem_of_getElem? hp) q (List.mem_of_getElem? hq))

/-- Non-vacuity of C79 for one tile. -/
example : ∃ (P : Flow ℚ Unit) (d1 d1' : Disk ℚ), GoodFlow P ∧ 0 < P.tau ∧ P.useTiles = false ∧ RunByWrite P.stages Disk.empty .completed d1 ∧
    SameStack P.tau P.job shiftedJob (fun s => (s : ℚ) / 5) (fun p => (p.1.toNat : ℚ) + (p.2.toNat : ℚ) / 3) ∧
    NoTieOnTile P.tau P.job ⟨0, 0, P.job.coh.rows, P.job.coh.cols⟩ ∧
    RunByWrite (withJob P shiftedJob).stages Disk.empty .completed d1' ∧
    ∃ b b', d1.unw 0 = some (some b) ∧ d1'.unw 0 = some (some b') ∧ ∃ (v v' : ℚ) (k : ℤ), b.val 1 1 = some v ∧ b'.val 1 1 = some v' ∧
      v' = v + 1 / 5 + k := by
  obtain ⟨P, d1, hP, hj, ht, hu, h⟩ := exampleFlow_untiled
  have htau : 0 < P.tau := by rw [ht]; norm_num
  have hsame : SameStack P.tau P.job shiftedJob (fun s => (s : ℚ) / 5) fun p => (p.1.toNat : ℚ) + (p.2.toNat : ℚ) / 3 := by
    rw [hj, ht]; exact shiftedJob_same
  have htie : NoTieOnTile P.tau P.job ⟨0, 0, P.job.coh.rows, P.job.coh.cols⟩ := by rw [hj, ht]; exact exampleJob_noTie
  have himg : 1 < P.job.coh.rows ∧ 1 < P.job.coh.cols := by rw [hj]; decide +kernel
  obtain ⟨⟨d1', h1⟩, h2⟩ := C79_single_tile P hP htau hu ⟨by omega, by omega⟩ d1 h shiftedJob _ _ hsame htie
  obtain ⟨b, b', hb, hb', k, hk⟩ := h2 d1' h1 0 0 1 (by rw [hj]; decide +kernel)
  obtain ⟨v, hv, hv'⟩ := (hk 1 1 himg.1 himg.2).1 (by rw [hj]; exact ⟨1, rfl, by norm_num [exampleJob]⟩)
  refine ⟨P, d1, d1', hP, htau, hu, h, hsame, htie, h1, b, b', hb, hb', v, _, k, hv, hv', ?_⟩
  rw [ht]
  norm_num

/-- Non-vacuity of `C79_unwrap_one` and `C79_again`: a grid of four points; a seventh of a cycle is added everywhere and a cycle
at one point; and the result is given to `unwrap_one` again. -/
example : ∃ (solver : FlowSolver) (m : Mcf) (unw unw' : List ℚ) (flows : List ℤ),
    unwrapOne 1 solver m [0, 1 / 3, -1 / 3, 1 / 4] [1] = .ok (unw, flows) ∧
    unwrapOne 1 solver m [1 / 7, 1 / 3 + 1 / 7 - 1, -1 / 3 + 1 / 7, 1 / 4 + 1 / 7] [1] = .ok (unw', flows) ∧
    (∀ p < 4, unw'.getD p 0 = unw.getD p 0 + 1 / 7) ∧ unwrapOne 1 solver m unw [1] = .ok (unw, flows) := by
  obtain ⟨s, hs, hcomp⟩ := exists_solver
  have hc := reg2d_contract 2 2 le_rfl le_rfl
  obtain ⟨m, hm⟩ := C06_contract_accepted (reg2dGraph 2 2) hc
  have htie : ∀ a b, (a, b) ∈ (reg2dGraph 2 2).links →
      NoTie (1 : ℚ) (([0, 1 / 3, -1 / 3, 1 / 4] : List ℚ).getD b 0 - ([0, 1 / 3, -1 / 3, 1 / 4] : List ℚ).getD a 0) :=
    fun a b h => noTie_of_fract ((by decide +kernel : ∀ l ∈ (reg2dGraph 2 2).links,
      Int.fract (([0, 1 / 3, -1 / 3, 1 / 4] : List ℚ).getD l.2 0 - ([0, 1 / 3, -1 / 3, 1 / 4] : List ℚ).getD l.1 0) ≠ 1 / 2) (a, b) h)
  obtain ⟨unw, fl, h1, -⟩ := C14_unwrap_one (1 : ℚ) one_pos (reg2dGraph 2 2) m s hc (by decide +kernel) (reg2d_connected 2 2)
    (reg2d_generate 2 2) hm hs.1 hcomp [0, 1 / 3, -1 / 3, 1 / 4] rfl
    (fun a b h => (by decide +kernel : ∀ l ∈ (reg2dGraph 2 2).links,
      |([0, 1 / 3, -1 / 3, 1 / 4] : List ℚ).getD l.2 0 - ([0, 1 / 3, -1 / 3, 1 / 4] : List ℚ).getD l.1 0| ≤ 2147483647 * 1) (a, b) h)
    [1] none (List.replicate (reg2dGraph 2 2).links.length 1) (List.replicate (reg2dGraph 2 2).links.length 1)
    ⟨by simp, .inr ⟨1, rfl, rfl⟩⟩ ⟨by simp, .inr ⟨1, rfl, rfl⟩⟩ (by simp) (by simp)
  obtain ⟨unw', h2, -, h3⟩ := C79_unwrap_one (1 : ℚ) one_pos (reg2dGraph 2 2) m s hc (by decide +kernel) (reg2d_connected 2 2)
    (reg2d_generate 2 2) hm hs.1 [0, 1 / 3, -1 / 3, 1 / 4] [1 / 7, 1 / 3 + 1 / 7 - 1, -1 / 3 + 1 / 7, 1 / 4 + 1 / 7] rfl rfl
    (1 / 7) (by
      intro p hp
      have hp : p < 4 := hp
      refine ⟨if p = 1 then -1 else 0, ?_⟩
      interval_cases p <;> norm_num) htie [1] none unw fl h1
  refine ⟨s, m, unw, unw', fl, h1, h2, fun p hp => ?_,
    C79_again (1 : ℚ) one_pos (reg2dGraph 2 2) m s hc (by decide +kernel) (reg2d_connected 2 2)
    (reg2d_generate 2 2) hm hs.1 [0, 1 / 3, -1 / 3, 1 / 4] rfl htie [1] none unw fl h1⟩
  rw [h3 p hp]
  norm_num

/-- Five acquisitions of a 2 × 2 image, and the same with phases and cycles added. -/
def slcData : List (List ℚ) := [[0, 1/4, 1/3, -1/7], [0, 0, 0, 0], [1/3, -1/3, 0, 1/5], [-1/3, 1/5, 1/4, 1/4], [0, 1/3, -1/3, 0]]

@[inherit_doc slcData]
def slcData' : List (List ℚ) := [[0, 1/4, 1/3, -1/7 + 1/9], [1/7, 1/7, 1/7, 1/7 + 1/9 - 3], [1/3, -1/3 + 2, 0, 1/5 + 1/9],
  [-1/3, 1/5, 1/4, 1/4 + 1/9], [0, 1/3, -1/3, 0 + 1/9]]

/-- Non-vacuity of `C79_cube_slc`: five acquisitions of a 2 × 2 image. -/
example : ∃ (solver : FlowSolver) (e : Emcf) (out : List (List ℚ)),
    unwrapCube 1 solver e ⟨2, 0, slcData⟩ (fun _ => id) id = .ok out ∧
    unwrapCube 1 solver e ⟨2, 0, slcData'⟩ (fun _ => List.reverse) List.reverse = .ok out := by
  obtain ⟨s, hs, hcomp⟩ := exists_solver
  obtain ⟨gt, time, space, out, h1, h2, h3, h4⟩ := C21_hop3_reg2d_returns (1 : ℚ) (by norm_num) s hs
    hcomp 5 2 2 (by omega) (by omega) (by omega) (by omega) { linksPerBatch := 3 } (by decide) rfl rfl
    4 (.inl (by decide)) slcData rfl (by decide +kernel) (by decide +kernel)
    (fun _ => id) id (fun _ l => List.Perm.refl l) (fun l => List.Perm.refl l)
  obtain ⟨g, hg, hct, _⟩ := C04_hop3_planar 5 (by omega)
  rw [h1] at hg
  simp only [Except.ok.injEq] at hg
  subst hg
  rw [hop3Graph_eq 5 (by omega), Except.ok.injEq] at h1
  subst h1
  have hcs := reg2d_contract 2 2 le_rfl le_rfl
  have hmgs : space.graph = reg2dGraph 2 2 := (dual_of_contract (g := reg2dGraph 2 2) hcs h3).1
  refine ⟨s, ⟨space, time, { linksPerBatch := 3 }, 4, .ok [], .ok [], .ok [], .ok []⟩, out, h4 _ _ _ _, ?_⟩
  refine C79_cube_slc 1 one_pos s ⟨space, time, { linksPerBatch := 3 }, 4, .ok [], .ok [], .ok [], .ok []⟩
    ⟨5, hop3Links 5, (hop3Explicit 5).map triRow⟩ hct h2 (by show (0 : ℤ) < 3; decide) ?_ ⟨2, 0, slcData⟩
    rfl slcData' rfl rfl (fun s => if s = 1 then 1/7 else 0) (fun p => if p = 3 then 1/9 else 0) ?_ ?_ _ _ (fun _ l => List.Perm.refl l)
    (fun _ l => List.reverse_perm l) _ _ (fun l => List.Perm.refl l) (fun l => List.reverse_perm l) out (h4 _ _ _ _)
  · intro a b hab
    simp only at hab
    rw [hmgs] at hab
    exact (hcs.ordered a b hab).1
  · intro i hi p hp
    have hi : i < 5 := hi
    have hp : p < 4 := hp
    refine ⟨if i = 1 ∧ p = 3 then -3 else if i = 2 ∧ p = 1 then 2 else 0, ?_⟩
    interval_cases i <;> interval_cases p <;> norm_num [slcData, slcData']
  · intro a b hab p q hpq
    simp only at hpq
    rw [hmgs] at hpq
    exact noTie_of_fract ((by decide +kernel : ∀ l ∈ hop3Links 5, ∀ m ∈ (reg2dGraph 2 2).links,
      Int.fract ((slcData.getD l.2 []).getD m.2 0 -
        (slcData.getD l.1 []).getD m.2 0 -
        ((slcData.getD l.2 []).getD m.1 0 -
        (slcData.getD l.1 []).getD m.1 0)) ≠ 1 / 2)
      (a, b) hab (p, q) hpq)

/-- Six interferograms of a 2 × 2 image, and the same with phases and cycles added. -/
def ifgData : List (List ℚ) := (List.range 6).map fun _ => (List.range 4).map fun p : Nat => (p : ℚ) / 10

@[inherit_doc ifgData]
def ifgData' : List (List ℚ) :=
  (List.range 6).map fun i : Nat => (List.range 4).map fun p : Nat => (p : ℚ) / 10 + (i : ℚ) / 7 + if i = p then 1 else 0

/-- Non-vacuity of `C79_cube_ifg`: the six interferograms of four acquisitions of a 2 × 2 image. -/
example : ∃ (solver : FlowSolver) (e : Emcf) (out : List (List ℚ)),
    unwrapCube 1 solver e ⟨2, 0, ifgData⟩ (fun _ => id) id = .ok out ∧
    unwrapCube 1 solver e ⟨2, 0, ifgData'⟩
      (fun _ => List.reverse) List.reverse = .ok out := by
  obtain ⟨g, hg, hct, _⟩ := C04_hop3_planar 4 (by omega)
  rw [hop3Graph_eq 4 (by omega), Except.ok.injEq] at hg
  subst hg
  obtain ⟨time, htime⟩ := C06_contract_accepted ⟨4, hop3Links 4, (hop3Explicit 4).map triRow⟩ hct
  have hcs := reg2d_contract 2 2 le_rfl le_rfl
  obtain ⟨space, hspace⟩ := C06_contract_accepted (reg2dGraph 2 2) hcs
  have hmgs : space.graph = reg2dGraph 2 2 := (dual_of_contract (g := reg2dGraph 2 2) hcs hspace).1
  set e : Emcf := ⟨space, time, { linksPerBatch := 3 }, 4, .ok [], .ok [], .ok [], .ok []⟩ with he
  have hlen : (hop3Links 4).length = 6 := by decide
  have hdat : ∀ i < 6, ∀ p < 4, (ifgData.getD i []).getD p 0 = (p : ℚ) / 10 := by
    decide +kernel
  obtain ⟨out, hout, _⟩ := C62_ifg_itoh (1 : ℚ) one_pos (fun _ => none) e ⟨4, hop3Links 4, (hop3Explicit 4).map triRow⟩ (reg2dGraph 2 2) hct hcs (by decide +kernel)
    (reg2d_connected 2 2) htime hspace (by show (0 : ℤ) < 3; decide) (List.replicate e.nifgs 1) (List.replicate e.nlinks 1) rfl rfl
    (.inr (by show (2 : ℤ) ≤ 4; decide)) ⟨2, 0, ifgData⟩ rfl rfl hlen.symm (by rw [hlen]; decide)
    (by decide +kernel) (by decide +kernel) (fun _ p => (p : ℚ) / 10) (fun _ _ => 0)
    (by
      intro i hi p hp
      rw [hdat i (by simpa [hlen] using hi) p hp]
      simp)
    (fun i _ a b h => (by decide +kernel : ∀ l ∈ (reg2dGraph 2 2).links, |((l.2 : ℚ) / 10 - (l.1 : ℚ) / 10)| < 1 / 2) (a, b) h)
    (fun a b h c hc => (by decide +kernel : ∀ l ∈ (reg2dGraph 2 2).links, ∀ c ∈ (hop3Explicit 4).map triRow,
      |circulation (hop3Links 4) ((List.range (hop3Links 4).length).map fun _ => (l.2 : ℚ) / 10 - (l.1 : ℚ) / 10) c| < 1 / 2) (a, b) h c hc)
    (fun _ => id) id (fun _ l => List.Perm.refl l) (fun l => List.Perm.refl l)
  refine ⟨fun _ => none, e, out, hout, ?_⟩
  refine C79_cube_ifg 1 one_pos (fun _ => none) e ⟨4, hop3Links 4, (hop3Explicit 4).map triRow⟩ hct htime (by show (0 : ℤ) < 3; decide) ?_ ⟨2, 0, ifgData⟩
    hlen.symm (by decide) ifgData' rfl rfl
    (fun i => (i : ℚ) / 7) ?_ ?_ _ _ (fun _ l => List.Perm.refl l)
    (fun _ l => List.reverse_perm l) _ _ (fun l => List.Perm.refl l) (fun l => List.reverse_perm l) out hout
  · intro a b hab
    rw [he] at hab
    simp only at hab
    rw [hmgs] at hab
    exact (hcs.ordered a b hab).1
  · intro i hi p hp
    have hi : i < 6 := hi
    have hp : p < 4 := hp
    refine ⟨if i = p then 1 else 0, ?_⟩
    interval_cases i <;> interval_cases p <;> norm_num [ifgData, ifgData', List.range, List.range.loop]
  · intro i hi p q hpq
    have hi : i < 6 := hi
    rw [he] at hpq
    simp only at hpq
    rw [hmgs] at hpq
    have hb := (by decide +kernel : ∀ l ∈ (reg2dGraph 2 2).links, l.1 < 4 ∧ l.2 < 4) (p, q) hpq
    simp only
    rw [hdat i hi q hb.2, hdat i hi p hb.1]
    exact noTie_of_fract ((by decide +kernel : ∀ l ∈ (reg2dGraph 2 2).links, Int.fract ((l.2 : ℚ) / 10 - (l.1 : ℚ) / 10) ≠ 1 / 2) (p, q) hpq)

end Spurt
