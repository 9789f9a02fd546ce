import Verif.Props.FloatSign
import Verif.Props.FloatRecoveryExample
import Verif.Lemmas.RealDouble

/-!
# Property C88 in numpy's numbers
-/

namespace Spurt
open Spec

theorem numpy_odd : OddRounding numpyArith := ⟨flSingle_neg, flDouble_neg⟩

theorem numpy_sees : CheckSees numpyArith (flDouble (1 / 100)) (flDouble (1 / 100000)) := by
  constructor
  · intro x
    refine (flDouble_abs x).trans ?_
    have := abs_nonneg x
    rw [div_le_div_iff₀ (by norm_num) (by norm_num)]
    nlinarith
  · show flDouble (flDouble (1 / 100) + flDouble (flDouble (1 / 100000) * 32768)) < 16384
    have a1 := abs_le.mp (flDouble_abs (1 / 100))
    have a2 := abs_le.mp (flDouble_abs (1 / 100000))
    have e1 : |(1 / 100 : ℚ)| = 1 / 100 := by norm_num
    have e2 : |(1 / 100000 : ℚ)| = 1 / 100000 := by norm_num
    rw [e1] at a1
    rw [e2] at a2
    have b1 : flDouble (1 / 100) ≤ 1 := by linarith [a1.2]
    have b2 : flDouble (1 / 100000) * 32768 ≤ (1 : ℕ) := by norm_num; linarith [a2.2]
    have b3 : flDouble (flDouble (1 / 100000) * 32768) ≤ 1 := by
      have := flDouble_mono b2
      rw [flDouble_natCast 1 (by norm_num)] at this
      exact_mod_cast this
    have b4 : flDouble (flDouble (1 / 100) + flDouble (flDouble (1 / 100000) * 32768)) ≤ 2 := by
      have := flDouble_mono (show flDouble (1 / 100) + flDouble (flDouble (1 / 100000) * 32768) ≤ ((2 : ℕ) : ℚ) by push_cast; linarith)
      rw [flDouble_natCast 2 (by norm_num)] at this
      exact_mod_cast this
    linarith

section
variable {K : Type} [Field K] [LinearOrder K] [IsStrictOrderedRing K] [FloorRing K]

theorem mirrorLin_within {lin : LinSolver K} {a : SqMat K} {Y ρ : K} (h : CgWithin lin a Y ρ) : CgWithin (mirrorLin lin) a Y ρ := by
  intro mask b y hl hd hu hy k hk
  have := h mask (b.map (- ·)) (y.map (- ·)) (by rw [List.length_map]; exact hl) (by rw [dot_neg, hd]) (by
    intro y' h1 h2
    have := hu (y'.map (- ·)) (by rw [List.length_map]; exact h1) (by rw [dot_neg, h2, neg_neg_list])
    rw [← this, neg_neg_list]) (by
    intro v hv
    obtain ⟨w, hw, rfl⟩ := List.mem_map.mp hv
    rw [abs_neg]
    exact hy w hw) k hk
  simp only [mirrorLin]
  rw [getD_neg] at this ⊢
  rwa [← abs_neg, show -(-(lin.cg (freeMat a mask) (b.map (- ·))).getD k 0 - y.getD k 0) =
    (lin.cg (freeMat a mask) (b.map (- ·))).getD k 0 - - y.getD k 0 by ring]

theorem leastSquares_neg {a b y : List (List K)} {w nb : Nat} (h : LeastSquares a (b.map fun r => r.map (- ·)) y w nb) :
    LeastSquares a b (y.map fun r => r.map (- ·)) w nb :=
  mirrorLstsq_exact (l := fun _ _ => y) h

theorem mirrorLstsq_consistent {l : Lstsq K} {n nb : Nat} {γ X : K} (h : ConsistentLstsq l n nb γ X) :
    ConsistentLstsq (mirrorLstsq l) n nb γ X := by
  intro olaps c h1 h2
  have hb : (olaps.map fun e => (List.range nb).map fun b => ((c b e.2 - c b e.1 : ℤ) : K)).map (fun r => r.map (- ·)) =
      olaps.map fun e => (List.range nb).map fun b => (((fun b t => - c b t) b e.2 - (fun b t => - c b t) b e.1 : ℤ) : K) := by
    rw [List.map_map]
    apply List.map_congr_left
    intro e _
    simp only [Function.comp, List.map_map]
    apply List.map_congr_left
    intro b _
    simp only [Function.comp]
    push_cast
    ring
  obtain ⟨g1, ⟨y, g2, g3⟩, g4⟩ := h olaps (fun b t => - c b t) h1 (fun b t => by rw [abs_neg]; exact h2 b t)
  rw [← hb] at g1 g2 g3 g4
  unfold mirrorLstsq
  refine ⟨by simpa using g1, ⟨y.map fun r => r.map (- ·), leastSquares_neg g2, fun t ht k hk => ?_⟩, fun t ht k hk => ?_⟩
  · rw [getD_neg_rows, getD_neg_rows, getD_neg, getD_neg]
    have := g3 t ht k hk
    rwa [← abs_neg, neg_sub, sub_neg_eq_add, neg_add_eq_sub]
  · rw [getD_neg_rows, getD_neg, abs_neg]
    exact g4 t ht k hk

end

variable {S : Type}

/-- C88 in numpy's numbers: `float32` phases, corrections and rasters, `float64` in between. Negate the phase of every image. Between two
completed runs of the workflow, whatever the schedules, every unwrapped raster and every model raster changes its sign, with the same
pixels without value, and the spread raster stays the same. Bit by bit. -/
theorem C88_numpy_workflow (P : Flow ℚ S) (hP : GoodFlow P) (himg : 0 < P.job.coh.rows ∧ 0 < P.job.coh.cols)
    (hifgs : P.job.time.links ≠ []) (hset : P.merger.check = .ok ())
    (oT oT' : Nat → Nat → List Nat → List Nat) (oS oS' : Nat → List Nat → List Nat)
    (hoT : ∀ t k l, (oT t k l).Perm l) (hoT' : ∀ t k l, (oT' t k l).Perm l)
    (hoS : ∀ t l, (oS t l).Perm l) (hoS' : ∀ t l, (oS' t l).Perm l) (T T' : TileSet) (r r' : MergeResult ℚ)
    (h : workflowFl numpyArith (flDouble (1 / 100)) (flDouble (1 / 100000)) P oT oS = .ok (T, r))
    (h' : workflowFl numpyArith (flDouble (1 / 100)) (flDouble (1 / 100000)) (negFlow P) oT' oS' = .ok (T', r')) :
    T' = T ∧ OppositeResult r r' :=
  C88_float_workflow numpyArith numpy_odd _ _ numpy_sees P hP himg hifgs hset oT oT' oS oS' hoT hoT' hoS hoS' T T' r r' h h'

theorem negJob_epochs (j : TileJob ℚ) (s r c : Nat) : epochPhase (negJob j) s r c = - epochPhase j s r c := by
  unfold epochPhase negJob negImages
  simp only
  cases j.dates[s]? with
  | none => simp
  | some d => cases h : j.phase d <;> simp [h]

/-- If the true phases `φ` are unaliased for the workflow, `- φ` are for the workflow over the conjugate stack. -/
theorem unaliased_neg {H : Nat} {R : ℚ} {P : Flow ℚ S} {T : TileSet} {φ : Nat → ℤ × ℤ → ℚ} (h : UnaliasedWithin H R P T φ) :
    UnaliasedWithin H R (negFlow P) T (fun s p => - φ s p) := by
  obtain ⟨h1, h2, h3, h4, h5, h6, h7⟩ := h
  refine ⟨fun b hb => ?_, ?_, ?_, ?_, ?_, h6, h7⟩
  · obtain ⟨a1, a2, a3, a4, a5, a6, a7⟩ := h1 b hb
    exact ⟨a1, a2, a3, a4, a5, a6, a7⟩
  · intro s r c hp hv
    have : epochPhase (negFlow P).job s r.toNat c.toNat = - epochPhase P.job s r.toNat c.toNat := negJob_epochs P.job s _ _
    rw [this, abs_neg]
    exact h2 s r c hp hv
  · intro s hs r c hp hv
    obtain ⟨k, hk⟩ := h3 s hs r c hp hv
    refine ⟨-k, ?_⟩
    have : epochPhase (negFlow P).job s r.toNat c.toNat = - epochPhase P.job s r.toNat c.toNat := negJob_epochs P.job s _ _
    rw [this, ← abs_neg]
    push_cast
    rwa [show -(-epochPhase P.job s r.toNat c.toNat - (-φ s (r, c) - -(k : ℚ) * twoPi)) =
      epochPhase P.job s r.toNat c.toNat - (φ s (r, c) - (k : ℚ) * twoPi) by ring]
  · intro b hb s u hsu m n hmn p q hp hq
    have := h4 b hb s u hsu m n hmn p q hp hq
    rw [← abs_neg]
    rwa [show -((- φ u q - - φ s q) - (- φ u p - - φ s p)) = (φ u q - φ s q) - (φ u p - φ s p) by ring]
  · intro s u hsu p hp hv
    have := h5 s u hsu p hp hv
    rw [← abs_neg]
    rwa [show -(- φ u p - - φ s p) = φ u p - φ s p by ring]

/-- C88 in numpy's numbers, with completion. On an unaliased stack, under the hypotheses of C71 on the first workflow only, the runs over
the stack and over the conjugate stack both complete, and the results are of the opposite sign, bit by bit. -/
theorem C88_numpy_unaliased (P : Flow ℚ S) (hP : GoodFlow P) (himg : 0 < P.job.coh.rows ∧ 0 < P.job.coh.cols)
    (hifgs : P.job.time.links ≠ []) (hpool : 1 ≤ P.job.settings.numParallelTiles)
    (hset : P.merger.check = .ok ()) (hmin : 11 ≤ P.merger.minOverlapPoints)
    (T : TileSet) (hT : makeTiles P.sc P.fl P.useTiles P.tiler P.job.coh.cols P.mask = .ok T)
    (hls : P.merger.bulkMethod = "L2" → ConsistentLstsq P.lstsq T.tiles.length P.job.time.links.length (1 / 200000) (2 ^ 29))
    (φ : Nat → ℤ × ℤ → ℚ) (hU : UnaliasedFl P T φ) (hjoin : TilesJoined P T)
    (hfour : ∀ r q : ℤ, {t : Nat | ∃ b, T.tiles[t]? = some b ∧ InTile b r q}.ncard ≤ 4)
    (hcc : ∀ edges : List (Nat × Nat), (∀ e ∈ edges, e.1 < T.tiles.length ∧ e.2 < T.tiles.length) →
      ComponentLabels T.tiles.length edges (P.cc T.tiles.length edges))
    (hmipc : MipComplete P.mip) (hilu : ∀ a, P.lin.ilu a = true) (hgraph : ∀ b ∈ T.tiles, MergeGraphFl P b)
    (oT oT' : Nat → Nat → List Nat → List Nat) (oS oS' : Nat → List Nat → List Nat)
    (hoT : ∀ t k l, (oT t k l).Perm l) (hoT' : ∀ t k l, (oT' t k l).Perm l)
    (hoS : ∀ t l, (oS t l).Perm l) (hoS' : ∀ t l, (oS' t l).Perm l) :
    ∃ r r', workflowFl numpyArith (flDouble (1 / 100)) (flDouble (1 / 100000)) P oT oS = .ok (T, r) ∧
      workflowFl numpyArith (flDouble (1 / 100)) (flDouble (1 / 100000)) (negFlow P) oT' oS' = .ok (T, r') ∧
      (rastersOf r).map Prod.fst = List.range P.job.time.links.length ∧ OppositeResult r r' := by
  obtain ⟨r, h1, _, h2, _⟩ := recovers_core P hP himg hifgs hpool hset hmin T hT hls φ hU hjoin hfour hcc hmipc hilu hgraph oT oS hoT hoS
  obtain ⟨r', h1', _⟩ := recovers_core (negFlow P) (negFlow_good hP) himg hifgs hpool hset hmin T hT
    (fun hm => mirrorLstsq_consistent (hls hm)) (fun s p => - φ s p) (unaliased_neg hU) hjoin hfour hcc (mirrorMip_complete hmipc) hilu
    (fun b hb => ⟨(hgraph b hb).links, (hgraph b hb).size, (hgraph b hb).conn, fun a ha => mirrorLin_within ((hgraph b hb).cg a ha)⟩)
    oT' oS' hoT' hoS'
  exact ⟨r, r', h1, h1', h2, (C88_numpy_workflow P hP himg hifgs hset oT oT' oS oS' hoT hoT' hoS hoS' T T r r' h1 h1').2⟩

/-- Non-vacuity of `C88_float_one`: a vortex in doubles and its negative. -/
example : ∃ (solver solver' : FlowSolver) (m : Mcf) (unw unw' : List ℚ) (flows flows' : List ℤ), SolverSound solver ∧ SolverSound solver' ∧
    unwrapOneFl flDouble twoPi tolDouble solver m [0, 2, -2, 3 / 2] [1] (some [1]) = .ok (unw, flows) ∧
    unwrapOneFl flDouble twoPi tolDouble solver' m [0, -2, 2, -3 / 2] [1] (some [1]) = .ok (unw', flows') ∧
    unw' = unw.map (- ·) ∧ flows' = flows.map (- ·) := by
  obtain ⟨solver, ho, hcomp⟩ := exists_solver
  have hs := ho.1
  obtain ⟨_, m, unw, flows, _, _, h, _⟩ := C67_double_hop3 4 (by omega) (by omega) solver ho hcomp [0, 2, -2, 3 / 2] rfl (by
      intro x hx
      simp only [List.mem_cons, List.not_mem_nil, or_false] at hx
      rcases hx with rfl | rfl | rfl | rfl <;> rw [abs_le] <;> norm_num [twoPi]) 1 (by omega)
  replace h : unwrapOneFl flDouble twoPi tolDouble solver m [0, 2, -2, 3 / 2] [1] (some [1]) = .ok (unw, flows) := h
  have h2 := (C88_float_one flDouble flDouble_neg twoPi tolDouble solver hs m [0, 2, -2, 3 / 2] [1] [1] unw flows).mpr h
  have e : ([0, 2, -2, 3 / 2] : List ℚ).map (- ·) = [0, -2, 2, -3 / 2] := by norm_num
  rw [e] at h2
  exact ⟨solver, mirrorSolver solver, m, unw, _, flows, _, hs, mirror_sound hs, h, h2, rfl, rfl⟩

namespace Whole

/-- Non-vacuity of `C88_numpy_unaliased`, `C88_numpy_workflow`, `C88_float_workflow` and the theorems about its stages: four overlapping
tiles, three interferograms, the default bulk method. -/
example : ∃ (P : Flow ℚ Nat) (r r' : MergeResult ℚ), GoodFlow P ∧ P.merger.bulkMethod = "L2" ∧
    workflowFl numpyArith (flDouble (1 / 100)) (flDouble (1 / 100000)) P (fun _ _ l => l) (fun _ l => l.reverse) = .ok (T, r) ∧
    workflowFl numpyArith (flDouble (1 / 100)) (flDouble (1 / 100000)) (negFlow P) (fun _ _ l => l.reverse) (fun _ l => l) = .ok (T, r') ∧
    (rastersOf r).map Prod.fst = [0, 1, 2] ∧ OppositeResult r r' := by
  obtain ⟨P, hP, hj, hm, hset, hmin, hT, hls, hU, hJ, hfour, hcc, hmipc, hilu, hgraph⟩ := float_inputs
  obtain ⟨r, r', h1, h2, h3, h4⟩ := C88_numpy_unaliased P hP (by simp [hj, jobFl, job]) (by simp [hj, jobFl, job])
    (by simp [hj, jobFl, job]) hset hmin T hT (fun _ => hls) phiFl hU hJ hfour hcc hmipc hilu hgraph (fun _ _ l => l) (fun _ _ l => l.reverse)
    (fun _ l => l.reverse) (fun _ l => l) (fun _ _ l => List.Perm.refl l) (fun _ _ l => l.reverse_perm) (fun _ l => l.reverse_perm)
    (fun _ l => List.Perm.refl l)
  refine ⟨P, r, r', hP, hm, h1, h2, ?_, h4⟩
  rw [h3, hj]
  rfl

end Whole
end Spurt
