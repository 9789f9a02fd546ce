import Verif.Props.Shift
import Verif.Props.InvarianceExample
import Verif.Props.CliExample

/-! # A run that meets the hypotheses of C84 -/

namespace Spurt
open Spec

section
variable {K S : Type} [Field K] [LinearOrder K] [FloorRing K] [IsStrictOrderedRing K]

theorem isMedian_const {l : List ℤ} {z : ℤ} (h : ∀ x ∈ l, x = z) : ∃ k : ℤ, IsMedian l k := by
  have hs : l.Pairwise (· ≤ ·) := by
    rw [List.pairwise_iff_getElem]
    intro i j hi hj _
    rw [h _ (List.getElem_mem hi), h _ (List.getElem_mem hj)]
  rcases eq_or_ne l [] with rfl | hne
  · exact ⟨0, [], .refl _, .nil, by simp⟩
  have hl := List.length_pos_of_ne_nil hne
  refine ⟨z, l, .refl _, hs, ?_⟩
  rw [List.getD_eq_getElem _ _ (by omega), List.getD_eq_getElem _ _ (by omega), h _ (List.getElem_mem _), h _ (List.getElem_mem _)]
  ring

/-- Unaliased stacks meet the hypotheses of C84: the overlaps connect the tiles and the medians are whole. -/
theorem unaliased_whole {P : Flow K S} (hP : GoodFlow P) (htau : 0 < P.tau) {T : TileSet}
    (hT : makeTiles P.sc P.fl P.useTiles P.tiler P.job.coh.cols P.mask = .ok T)
    {φ : Nat → ℤ × ℤ → K} (hU : Unaliased P T φ) (hjoin : TilesJoined P T) (hn : T.tiles.length ≠ 1)
    {d1 : Disk K} (h : RunByWrite P.stages Disk.empty .completed d1) :
    d1.readTiles = .ok T ∧ ∃ o, d1.overlap = some (.full o) ∧
      (∀ t < T.tiles.length, Relation.ReflTransGen (Adjacent o.overlaps) 0 t) ∧
      ∀ i j, (i, j) ∈ o.overlaps → ∀ f g, d1.readTile i = .ok f → d1.readTile j = .ok g →
        ∀ b < P.job.time.links.length, ∃ k : ℤ, IsMedian (cyclesBetween P.tau f g b) k := by
  obtain ⟨T', F, hR⟩ := ref_of_run hP h
  have : T' = T := by
    have := hR.tiles
    rw [hT, Except.ok.injEq] at this
    exact this.symm
  subst this
  obtain ⟨hshape, hpos, hin⟩ := flow_tiles hP hR.tiles
  obtain ⟨oT, oS, hoT, hoS, hF⟩ := hR.work
  obtain ⟨st, b, M, h1, h2, h3, _, h5, hU'⟩ := hR.many hn
  have hover := Ref.overlaps (P := P) (F := F) hn h1
  obtain ⟨olap, b', k1, k2, k3⟩ := run_overlaps hP h hR.tiles hn
  rw [hover, Except.ok.injEq, Option.some.injEq] at k1
  subst k1
  obtain ⟨hsub, hnd, hlabels, hrec⟩ := C53_recorded _ _ _ _ _ _ hover
  refine ⟨hR.readTiles, P.olap T' st, h2, ?_, ?_⟩
  · intro t ht
    refine Relation.ReflTransGen.trans_induction_on (hjoin t ht) (fun _ => .refl) ?_ (fun _ _ a b => a.trans b)
    rintro a b' ⟨hne, hle⟩
    rcases lt_trichotomy a b' with hab | hab | hab
    · obtain ⟨⟨r, q⟩, _, ba, bb, e1, e2, e3, e4⟩ := hne
      exact .single (.inl (((k3 a b' (C25_shared_pixel T' a b' ba bb r q hab e1 e2 e3 e4)).1).mpr hle))
    · subst hab; exact .refl
    · rw [sharedPixels_comm] at hne hle
      obtain ⟨⟨r, q⟩, _, ba, bb, e1, e2, e3, e4⟩ := hne
      exact .single (.inr (((k3 b' a (C25_shared_pixel T' b' a ba bb r q hab e1 e2 e3 e4)).1).mpr hle))
  · intro i j hij f g hf hg b hb
    have hlt : i < T'.tiles.length ∧ j < T'.tiles.length := by
      obtain ⟨_, a, b, h2, h3, _⟩ := ((C25_overlaps T').1 i j).mp (hsub.subset hij)
      exact ⟨(List.getElem?_eq_some_iff.mp h2).1, (List.getElem?_eq_some_iff.mp h3).1⟩
    rw [hR.readTile hlt.1, Except.ok.injEq] at hf
    rw [hR.readTile hlt.2, Except.ok.injEq] at hg
    subst hf hg
    obtain ⟨f, f1, _, f2⟩ := unaliased_files hP htau hin hU oT oS hoT hoS i hlt.1
    rw [hF i hlt.1, Except.ok.injEq] at f1
    subst f1
    obtain ⟨g, g1, _, g2⟩ := unaliased_files hP htau hin hU oT oS hoT hoS j hlt.2
    rw [hF j hlt.2, Except.ok.injEq] at g1
    subst g1
    have hl := getElem?_of_getD (d := (0, 0)) hb
    obtain ⟨c, _, hc⟩ := f2 b _ _ hl
    obtain ⟨c', _, hc'⟩ := g2 b _ _ hl
    refine isMedian_const (z := c' - c) fun x hx => ?_
    simp only [cyclesBetween, List.mem_map, List.mem_filter, decide_eq_true_eq] at hx
    obtain ⟨pix, ⟨m1, m2⟩, rfl⟩ := hx
    unfold phaseAtPixel
    rw [hc _ pix (List.getElem?_idxOf m1), hc' _ pix (List.getElem?_idxOf m2)]
    have : ∀ x : K, (x + P.tau * c' - (x + P.tau * c)) / P.tau = ((c' - c : ℤ) : K) := by
      intro x
      push_cast
      field_simp
      ring
    rw [this, rint_intCast]

end

namespace Whole

/-- The stack with a third of a cycle added to the second acquisition. -/
def movedJob : TileJob ℚ := { job with
  phase := fun d => if d = "20200113" then (job.phase d).map fun im => ⟨im.rows, im.cols, fun r c => im.val r c + 1 / 3⟩ else job.phase d }

/-- The phases added to the acquisitions. -/
def added (s : Nat) : ℚ := if s = 1 then 1 / 3 else 0

theorem movedJob_images (d : String) (im : Band ℚ) (h : movedJob.phase d = some im) : im.rows = 6 ∧ im.cols = 7 := by
  simp only [movedJob] at h
  split at h
  · simp only [Option.map_eq_some_iff] at h
    obtain ⟨im0, h0, rfl⟩ := h
    exact job_good.images d im0 h0
  · exact job_good.images d im h

theorem movedJob_same : SameStack 1 job movedJob added fun _ => 0 := by
  refine ⟨rfl, rfl, movedJob_images, ?_⟩
  intro s hs r c _ _
  have hs3 : s < 3 := hs
  interval_cases s <;> exact ⟨0, by simp [epochPhase, movedJob, job, added]⟩

/-- The workflow on a stack with the default bulk method. -/
noncomputable def lflow (solver : FlowSolver) (mip : MipSolver) (l : Lstsq ℚ) (j : TileJob ℚ) : Flow ℚ Nat :=
  { flow solver mip tiler 12 with lstsq := l, merger := { minOverlapPoints := 12, bulkMethod := "L2" }, job := j }

theorem lflow_completes (solver : FlowSolver) (mip : MipSolver) (hcomp : MipComplete mip) (l : Lstsq ℚ) (hl : ∀ olaps off, off.length = olaps.length →
      (∀ row ∈ off, row.length = 3) → LeastSquares (overlapMatrix olaps 4) off (l (overlapMatrix olaps 4) off) 4 3)
    (j : TileJob ℚ) (hj : j = { job with phase := j.phase }) (hP : GoodFlow (lflow solver mip l j)) (φ : Nat → ℤ × ℤ → ℚ)
    (hU : Unaliased (lflow solver mip l j) T φ) : ∃ d1, RunByWrite (lflow solver mip l j).stages Disk.empty .completed d1 ∧
      TilesJoined (lflow solver mip l j) T ∧ makeTiles scoring id true tiler j.coh.cols (lflow solver mip l j).mask = .ok T := by
  set P := lflow solver mip l j with hPd
  have hT : makeTiles P.sc P.fl P.useTiles P.tiler P.job.coh.cols P.mask = .ok T := by
    have : P.mask = arr := by
      rw [← flow_mask solver mip tiler 12]
      unfold Flow.mask
      rw [hPd]
      simp only [lflow, flow]
      rw [hj]
    rw [this, show P.job.coh.cols = 7 by simp only [hPd, lflow]; rw [hj]; rfl]
    exact tiles
  have hsp : ∀ a b, sharedPixels P.job T a b = sharedPixels job T a b := by
    intro a b
    simp only [hPd, lflow]
    rw [hj]
    rfl
  have hJ : TilesJoined P T := fun t ht => .single
    ⟨by rw [hsp]; exact (flow_shared 0 t (by omega) ht).1, by
      rw [hsp]
      show (12 : ℤ) ≤ ((sharedPixels job T 0 t).ncard : ℤ)
      exact_mod_cast (flow_shared 0 t (by omega) ht).2⟩
  have hcc : ∀ edges : List (Nat × Nat), (∀ e ∈ edges, e.1 < T.tiles.length ∧ e.2 < T.tiles.length) →
      ComponentLabels T.tiles.length edges (P.cc T.tiles.length edges) := fun edges _ => labelsOf_labels _ edges
  have ecoh : P.job.coh = job.coh := by simp only [hPd, lflow]; rw [hj]
  have etime : P.job.time = job.time := by simp only [hPd, lflow]; rw [hj]
  have ethr : P.job.thr = job.thr := by simp only [hPd, lflow]; rw [hj]
  have hpix : ∀ b, tilePixels P.job b = tilePixels job b := by
    intro b
    unfold tilePixels
    rw [ecoh, ethr]
  obtain ⟨d1, h⟩ := C63_completes P hP one_pos (by rw [ecoh]; simp [job]) (by rw [etime]; simp [job]) (by simp only [hPd, lflow]; rw [hj]; simp [job])
    (by simp [hPd, lflow, flow, MergerSettings.check]) (by simp [hPd, lflow, flow]) T hT φ hU hJ hcc hcomp (fun _ => by rw [etime]; exact hl) (fun _ => rfl) (by
      intro b hb
      have h3 := (job_pixels b hb).1
      unfold MergeGraphOk
      rw [hpix]
      have e : (tilePixels job b).length = (tilePoints job.coh job.thr b).length := by simp [tilePixels]
      have e2 : P.simplices (tilePixels job b) = fan (tilePoints job.coh job.thr b).length := by rw [← e]; rfl
      refine ⟨?_, 0, ?_⟩
      · rw [e2, e]
        intro u v huv
        have := (fan_contract _).ordered u v huv
        omega
      · rw [e2, e]
        exact .inr (fan_adjacent h3 (by omega) (by omega)))
  exact ⟨d1, h, hJ, hT⟩

/-- The true phases of the second stack. -/
def phi' (s : Nat) (p : ℤ × ℤ) : ℚ := phi s p + added s

theorem movedJob_ready : ∀ b ∈ T.tiles, TileReady movedJob b := by
  intro b hb
  obtain ⟨h1, h2, h3, h4, h5, h6, h7⟩ := job_ready b hb
  exact ⟨h1, h2, h3, h4, h5, h6, h7⟩

theorem movedJob_phase : TruePhase 1 movedJob phi' := by
  intro s hs r c hp hv
  obtain ⟨k1, g1⟩ := job_phase s hs r c hp hv
  obtain ⟨k2, g2⟩ := movedJob_same.phase s hs r c hp hv
  refine ⟨k1 - k2, ?_⟩
  unfold phi'
  push_cast
  linarith

theorem movedJob_smooth : ∀ b ∈ T.tiles, SmoothOnTile 1 movedJob b phi' := by
  intro b hb s u hsu m n hmn p q hp hq
  have := job_smooth b hb s u hsu m n hmn p q hp hq
  have e : phi' u q - phi' s q - (phi' u p - phi' s p) = phi u q - phi s q - (phi u p - phi s p) := by
    unfold phi'
    ring
  rw [e]
  exact this

theorem movedJob_range : ∀ s u, (s, u) ∈ job.time.links → ∀ p : ℤ × ℤ, PixelOf (job.coh.rows, job.coh.cols) p.1 p.2 →
    ValidPixel job p.1 p.2 → |phi' u p - phi' s p| ≤ 16383 * (1 : ℚ) := by
  intro s u hsu p hp _
  obtain ⟨a1, a2, a3, a4⟩ := hp
  simp only [job] at a2 a4
  have c1 : (0 : ℚ) ≤ p.1 := by exact_mod_cast a1
  have c2 : (p.1 : ℚ) ≤ 6 := by exact_mod_cast (by omega : p.1 ≤ 6)
  have c3 : (0 : ℚ) ≤ p.2 := by exact_mod_cast a3
  have c4 : (p.2 : ℚ) ≤ 6 := by exact_mod_cast (by omega : p.2 ≤ 6)
  simp only [job, List.mem_cons, Prod.mk.injEq, List.not_mem_nil, or_false] at hsu
  rw [abs_le]
  rcases hsu with ⟨rfl, rfl⟩ | ⟨rfl, rfl⟩ | ⟨rfl, rfl⟩ <;> simp [phi', phi, added] <;> constructor <;> linarith

/-- Non-vacuity of C84: four overlapping tiles, the default bulk method, a third of a cycle added to the
second acquisition. Both runs complete, and the unwrapped rasters of its interferogram with the first
acquisition differ by a third of a cycle and one number of cycles at every pixel of sufficient coherence. -/
example : ∃ (P : Flow ℚ Nat) (d1 d1' : Disk ℚ), GoodFlow P ∧ P.merger.bulkMethod = "L2" ∧
    RunByWrite P.stages Disk.empty .completed d1 ∧ RunByWrite (withJob P movedJob).stages Disk.empty .completed d1' ∧
    SameStack P.tau P.job movedJob added (fun _ => 0) ∧ d1.readTiles = .ok T ∧
    ∃ x x', d1.unw 0 = some (some x) ∧ d1'.unw 0 = some (some x') ∧ ∃ k : ℤ, ∀ r q : Nat, r < 6 → q < 6 →
      ∃ v, x.val r q = some v ∧ ((∀ mean b, d1.model 0 = some (some b) → b.val r q = some mean → |v - mean| ≠ 1 / 2) →
        x'.val r q = some (v + (1 / 3 + k))) := by
  obtain ⟨solver, ⟨hs, _⟩, _⟩ := exists_solver
  obtain ⟨mip, hopt, hcomp⟩ := exists_mip_solver
  obtain ⟨l, hl⟩ := exists_bulk_lstsq (K := ℚ) 4 3
  have hg := flow_good solver hs mip hopt tiler (by simp [TilerSettings.check, tiler]) 12
  have hP : GoodFlow (lflow solver mip l job) := ⟨hg.job, hg.solver, hg.tiler, hg.size, hg.labels, hg.mip⟩
  have hP' : GoodFlow (lflow solver mip l movedJob) :=
    ⟨sameStack_good job_good movedJob_same, hg.solver, hg.tiler, hg.size, hg.labels, hg.mip⟩
  have hU : Unaliased (lflow solver mip l job) T phi := ⟨job_ready, job_phase, job_smooth, job_range⟩
  have hU' : Unaliased (lflow solver mip l movedJob) T phi' := ⟨fun b hb => movedJob_ready b hb, movedJob_phase, movedJob_smooth, movedJob_range⟩
  obtain ⟨d1, h1, hJ, hT⟩ := lflow_completes solver mip hcomp l hl job rfl hP phi hU
  obtain ⟨d1', h1', _, _⟩ := lflow_completes solver mip hcomp l hl movedJob rfl hP' phi' hU'
  set P := lflow solver mip l job with hPd
  have himg : 0 < P.job.coh.rows ∧ 0 < P.job.coh.cols := by simp [hPd, lflow, job]
  obtain ⟨hr, o, ho, hconn, hwhole⟩ := unaliased_whole hP one_pos hT hU hJ (by simp [T]) h1
  have hnt := unaliased_noTie hP one_pos hU (flow_tiles hP hT).2.2
  obtain ⟨x, x', m, m', y, y', e1, e2, e3, e4, _, _, k, hk⟩ := C84_workflow P hP one_pos himg rfl d1 d1' h1 movedJob added
    (fun _ => 0) movedJob_same h1' T hr (by simp [T]) hl hnt o ho hconn hwhole 0 0 1 rfl
  obtain ⟨b, hb, _, _, c, hc⟩ := C63_recovers P hP one_pos himg T hT phi hU hJ (fun edges _ => labelsOf_labels _ edges) (fun _ => hl)
    d1 h1 0 0 1 rfl
  rw [e1, Option.some.injEq, Option.some.injEq] at hb
  subst hb
  refine ⟨P, d1, d1', hP, rfl, h1, h1', movedJob_same, hr, x, x', e1, e2, k, fun r q hr hq => ?_⟩
  have hv := (hc r q hr (by show q < 7; omega)).1 ((valid_iff _ _).mpr (by simp; omega))
  refine ⟨_, hv, fun hm => ?_⟩
  obtain ⟨_, _, h3⟩ := hk r q
  rw [h3 fun v mean hv' hmean => by
    rw [hv, Option.some.injEq] at hv'
    subst hv'
    exact hm mean m e3 hmean, hv]
  simp [added, hPd, lflow, flow]

end Whole
end Spurt
