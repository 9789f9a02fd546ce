import Verif.Lemmas.FloatTile

/-!
# The adjustment of the tiles in mixed precision, one band at a time

See Lemmas/Adjust.lean.
-/

namespace Spurt
open Spec

section
variable {K : Type} [Field K] [LinearOrder K] [FloorRing K]

/-- The corrected value of point `p` of tile `i` in band `b`; `c i p` is the correction. -/
def bandValueFl (A : FloatArith K) (F : Nat → TileFile K) (b : Nat) (c : Nat → Nat → K) (i p : Nat) : K :=
  A.fs (A.fs (filePhase (F i) b p) + c i p)

/-- The corrected value of tile `i` at a pixel. -/
def bandAtFl (A : FloatArith K) (F : Nat → TileFile K) (b : Nat) (c : Nat → Nat → K) (j : Nat) (pix : ℤ × ℤ) : Option K :=
  if pix ∈ filePoints (F j) then some (bandValueFl A F b c j ((filePoints (F j)).idxOf pix)) else none

/-- The sum of the values of the tiles at point `p` of tile `i`. -/
def sumAtFl (A : FloatArith K) (F : Nat → TileFile K) (b : Nat) (c : Nat → Nat → K) (nbrs : List Nat) (i p : Nat) : K :=
  nbrs.foldl (fun x j => (bandAtFl A F b c j (ptAt F i p)).elim x fun v => A.fs (x + v)) (bandValueFl A F b c i p)

/-- The tiles answer `uw_phase` with the values of the bands. -/
def AnswersFl (A : FloatArith K) (n : Nat) (F : Nat → TileFile K) (bands : List Nat) (C : Nat → Nat → Nat → K)
    (ts : List (TileState K)) : Prop :=
  ∀ j < n, ∃ t u, ts[j]? = some t ∧ t.uwPhaseFl A = .ok u ∧ u.rows = bands.length ∧
    u.cols = (F j).points.length ∧ ∀ k p, k < bands.length → p < (F j).points.length →
      u.val k p = bandValueFl A F (bands.getD k 0) (C k) j p

/-- The sums over the overlaps. -/
theorem overlapSumsFl_eq {A : FloatArith K} {n : Nat} {F : Nat → TileFile K} {env : MergeEnv K} {omap : List (List Nat)}
    (hm : MapOk n F env.overlap omap) {bands : List Nat} {C : Nat → Nat → Nat → K} {ts : List (TileState K)}
    (ha : AnswersFl A n F bands C ts) {i : Nat} (hi : i < n) (data : Arr K) (hr : data.rows = bands.length)
    (hc : data.cols = (F i).points.length)
    (hv : ∀ k p, k < bands.length → p < (F i).points.length →
      data.val k p = bandValueFl A F (bands.getD k 0) (C k) i p) :
    ∃ c s, overlapSumsFl A env ts (omap.getD i []) i (F i).points.length data = .ok (c, s) ∧
      s.rows = bands.length ∧ s.cols = (F i).points.length ∧
      (∀ p < (F i).points.length, c p = cntAt F (omap.getD i []) i p) ∧
      ∀ k p, k < bands.length → p < (F i).points.length →
        s.val k p = sumAtFl A F (bands.getD k 0) (C k) (omap.getD i []) i p := by
  have key : ∀ (nbrs : List Nat), (∀ j ∈ nbrs, j < n ∧ PairOk F env.overlap i j) →
      ∀ (c0 : Nat → Nat) (s0 : Arr K), s0.rows = bands.length → s0.cols = (F i).points.length →
      ∃ c s, nbrs.foldlM (overlapSumStepFl A env ts i (F i).points.length data) (c0, s0) = .ok (c, s) ∧
        s.rows = bands.length ∧ s.cols = (F i).points.length ∧
        (∀ p < (F i).points.length, c p = c0 p + (nbrs.filter fun j => decide (ptAt F i p ∈ filePoints (F j))).length) ∧
        ∀ k p, k < bands.length → p < (F i).points.length →
          s.val k p = nbrs.foldl (fun x j => (bandAtFl A F (bands.getD k 0) (C k) j (ptAt F i p)).elim x
            fun v => A.fs (x + v)) (s0.val k p) := by
    intro nbrs
    induction nbrs with
    | nil => intro _ c0 s0 h1 h2; exact ⟨c0, s0, rfl, h1, h2, by simp, by simp⟩
    | cons j nbrs ih =>
      intro hn c0 s0 h1 h2
      obtain ⟨hj, a, b, ps, hp, hps, hmem, hpa, hpb⟩ := hn j List.mem_cons_self
      obtain ⟨t, u, ht, hu, hur, huc, huv⟩ := ha j hj
      obtain ⟨la, lb, hand, hpos⟩ := pair_positions (hm.once i hi) (hm.once j hj) hpa hpb hps
      rw [List.foldlM_cons]
      simp only [overlapSumStepFl, Bind.bind, Except.bind, ht, Option.elim_some, hp, hu]
      have e1 : (a.any fun p => decide ((F i).points.length ≤ p ∨ data.cols ≤ p)) = false := by
        rw [List.any_eq_false]
        intro p hpa
        obtain ⟨m, hm', rfl⟩ := List.mem_iff_getElem.mp hpa
        have := (hpos m (by omega) hm' (by omega)).1
        rw [filePoints_length] at this
        simp only [decide_eq_true_eq]; omega
      have e2 : (b.any fun p => decide (u.cols ≤ p)) = false := by
        rw [List.any_eq_false]
        intro p hpb
        obtain ⟨m, hm', rfl⟩ := List.mem_iff_getElem.mp hpb
        have := (hpos m (by omega) (by omega) hm').2.1
        rw [filePoints_length] at this
        simp only [decide_eq_true_eq]; omega
      rw [if_neg (by rw [e1]; simp), if_neg (by rw [e2]; simp), if_neg (by rw [hur, hr, la, lb]; simp)]
      obtain ⟨c, s, hcs, r1, r2, r3, r4⟩ := ih (fun j' hj' => hn j' (List.mem_cons_of_mem _ hj'))
        (fancySet c0 a (a.map fun p => c0 p + 1))
        ⟨s0.rows, s0.cols, fun k => fancySet (s0.val k) a
          (List.zipWith (fun p q => A.fs (s0.val k p + u.val k q)) a b)⟩ h1 h2
      refine ⟨c, s, hcs, r1, r2, fun p hp => ?_, fun k p hk hp => ?_⟩
      · rw [r3 p hp, List.filter_cons]
        have hpl : p < (filePoints (F i)).length := by rw [filePoints_length]; exact hp
        have hpt : ptAt F i p = (filePoints (F i))[p] := by unfold ptAt; rw [List.getD_eq_getElem _ _ hpl]
        by_cases hin : ptAt F i p ∈ filePoints (F j)
        · have hmps : ptAt F i p ∈ ps := (hmem _).mpr ⟨by rw [hpt]; exact List.getElem_mem hpl, hin⟩
          obtain ⟨m, hm', hme⟩ := List.mem_iff_getElem.mp hmps
          have hq := (hpos m hm' (by omega) (by omega)).2.2.1
          have hpm : a[m]'(by omega) = p := by
            rw [hq, hme, hpt]; exact (hm.once i hi).idxOf_getElem p hpl
          have hf := fancySet_of_mem c0 a (a.map fun p => c0 p + 1) hand m (by omega) (by simp; omega)
          simp only [List.getElem_map, hpm] at hf
          rw [hf]
          simp only [hin, decide_true, if_true, List.length_cons]
          omega
        · have hna : p ∉ a := by
            intro hpa'
            obtain ⟨m, hm', hme⟩ := List.mem_iff_getElem.mp hpa'
            have hq := (hpos m (by omega) hm' (by omega)).2.2.1
            have hps' : ps[m]'(by omega) ∈ filePoints (F i) := ((hmem _).mp (List.getElem_mem _)).1
            have : ptAt F i p = ps[m]'(by omega) := by
              rw [hpt]
              have hpx : p = (filePoints (F i)).idxOf (ps[m]'(by omega)) := by rw [← hq, hme]
              have := List.getElem_idxOf (List.idxOf_lt_length_iff.mpr hps')
              rw [← this]
              congr 1
            exact hin (this ▸ ((hmem _).mp (List.getElem_mem _)).2)
          rw [fancySet_of_not_mem _ _ _ _ hna]
          simp [hin]
      · rw [r4 k p hk hp, List.foldl_cons]
        congr 1
        dsimp only
        have hpl : p < (filePoints (F i)).length := by rw [filePoints_length]; exact hp
        have hpt : ptAt F i p = (filePoints (F i))[p] := by unfold ptAt; rw [List.getD_eq_getElem _ _ hpl]
        by_cases hin : ptAt F i p ∈ filePoints (F j)
        · have hmps : ptAt F i p ∈ ps := (hmem _).mpr ⟨by rw [hpt]; exact List.getElem_mem hpl, hin⟩
          obtain ⟨m, hm', hme⟩ := List.mem_iff_getElem.mp hmps
          obtain ⟨_, q2, q3, q4⟩ := hpos m hm' (by omega) (by omega)
          have hpm : a[m]'(by omega) = p := by
            rw [q3, hme, hpt]; exact (hm.once i hi).idxOf_getElem p hpl
          have hf := fancySet_of_mem (s0.val k) a (List.zipWith (fun p q => A.fs (s0.val k p + u.val k q)) a b) hand m
            (by omega) (by simp; omega)
          simp only [List.getElem_zipWith, hpm] at hf
          rw [hf, huv k _ hk (by rw [filePoints_length] at q2; exact q2)]
          unfold bandAtFl
          rw [if_pos hin, Option.elim_some, q4, hme]
        · have hna : p ∉ a := by
            intro hpa'
            obtain ⟨m, hm', hme⟩ := List.mem_iff_getElem.mp hpa'
            have hq := (hpos m (by omega) hm' (by omega)).2.2.1
            have hps' : ps[m]'(by omega) ∈ filePoints (F i) := ((hmem _).mp (List.getElem_mem _)).1
            have : ptAt F i p = ps[m]'(by omega) := by
              rw [hpt]
              have hpx : p = (filePoints (F i)).idxOf (ps[m]'(by omega)) := by rw [← hq, hme]
              have := List.getElem_idxOf (List.idxOf_lt_length_iff.mpr hps')
              rw [← this]
              congr 1
            exact hin (this ▸ ((hmem _).mp (List.getElem_mem _)).2)
          rw [fancySet_of_not_mem _ _ _ _ hna]
          unfold bandAtFl
          rw [if_neg hin]
          rfl
  obtain ⟨c, s, h1, h2, h3, h4, h5⟩ := key (omap.getD i []) (fun j hj => ⟨hm.lt i hi j hj, hm.pair i hi j hj⟩)
    (fun _ => 1) data hr hc
  exact ⟨c, s, h1, h2, h3, h4, fun k p hk hp => by rw [h5 k p hk hp, hv k p hk hp]; rfl⟩

/-! ### The correction of one tile -/


/-- One band of the result of `dirichlet_graph`. -/
def dirRowFl (A : FloatArith K) (lin : LinSolver K) (a : SqMat K) (mask : Nat → Bool) (x : Nat → K) (p : Nat) : K :=
  if mask p then x p
  else if (freeRhsFl A.fd a mask x).all fun v => decide (v = 0) then 0
  else A.fs ((lin.cg (freeMat a mask) (freeRhsFl A.fd a mask x)).getD ((freeIdx a.n mask).idxOf p) 0)

theorem foldl_congr_mem {α β : Type} {f g : β → α → β} {l : List α} (h : ∀ a ∈ l, ∀ b, f b a = g b a) (b : β) :
    l.foldl f b = l.foldl g b := by
  induction l generalizing b with
  | nil => rfl
  | cons x l ih =>
    rw [List.foldl_cons, List.foldl_cons, h x List.mem_cons_self, ih fun a ha => h a (List.mem_cons_of_mem _ ha)]

omit [FloorRing K] in
theorem freeRhsFl_congr {fd : K → K} {a : SqMat K} {mask mask' : Nat → Bool} {x x' : Nat → K}
    (h : ∀ p < a.n, mask p = mask' p) (hx : ∀ p < a.n, x p = x' p) :
    freeRhsFl fd a mask x = freeRhsFl fd a mask' x' := by
  unfold freeRhsFl
  rw [freeIdx_congr h]
  apply List.map_congr_left
  intro i _
  have h1 : (List.range a.n).filter (fun j => mask j && decide (a.val i j ≠ 0)) =
      (List.range a.n).filter (fun j => mask' j && decide (a.val i j ≠ 0)) := by
    apply List.filter_congr
    intro p hp
    rw [h p (List.mem_range.mp hp)]
  rw [h1]
  congr 1
  apply foldl_congr_mem
  intro j hj b
  rw [hx j (List.mem_range.mp (List.mem_filter.mp hj).1)]

theorem dirRowFl_congr {A : FloatArith K} {lin : LinSolver K} {a : SqMat K} {mask mask' : Nat → Bool} {x x' : Nat → K}
    (h : ∀ p < a.n, mask p = mask' p) (hx : ∀ p < a.n, x p = x' p) {p : Nat} (hp : p < a.n) :
    dirRowFl A lin a mask x p = dirRowFl A lin a mask' x' p := by
  unfold dirRowFl
  rw [freeRhsFl_congr h hx, freeMat_congr h, freeIdx_congr h, h p hp, hx p hp]

/-- The difference between the average over the overlapping tiles and the tile. -/
def rawCorrFl (A : FloatArith K) (F : Nat → TileFile K) (omap : List (List Nat)) (b : Nat) (c : Nat → Nat → K) (i p : Nat) : K :=
  A.fs (A.fs (sumAtFl A F b c (omap.getD i []) i p / (cntAt F (omap.getD i []) i p : K)) - bandValueFl A F b c i p)

/-- The correction of tile `i` at degree `d` in band `b`. -/
def tileCorrFl (A : FloatArith K) (env : MergeEnv K) (F : Nat → TileFile K) (omap : List (List Nat)) (d b : Nat)
    (c : Nat → Nat → K) (i p : Nat) : K :=
  match lapOf env (filePoints (F i)) with
  | .ok a => dirRowFl A env.lin a (maskAt F omap d i) (rawCorrFl A F omap b c i) p
  | .error _ => 0

/-- The corrections after one degree of overlap, in band `b`. -/
def bandRoundFl (A : FloatArith K) (env : MergeEnv K) (F : Nat → TileFile K) (omap : List (List Nat)) (b : Nat)
    (c : Nat → Nat → K) (d : Nat) (i p : Nat) : K :=
  if touched F omap d i then A.fs (c i p + tileCorrFl A env F omap d b c i p) else c i p


theorem tileCorrectionFl_eq {A : FloatArith K} {n : Nat} {F : Nat → TileFile K} {env : MergeEnv K} {omap : List (List Nat)}
    (hm : MapOk n F env.overlap omap) {bands : List Nat} {C : Nat → Nat → Nat → K} {ts : List (TileState K)}
    (ha : AnswersFl A n F bands C ts) {i : Nat} (hi : i < n) {t : TileState K}
    (ht : SettledFl A (F i) bands t (fun k p => C k i p)) (d : Nat) :
    (touched F omap d i = false → tileCorrectionFl A env ts (omap.getD i []) i d t = .ok none) ∧
    (touched F omap d i = true → roundOk env F omap d i →
      ∃ e, tileCorrectionFl A env ts (omap.getD i []) i d t = .ok (some e) ∧ e.rows = bands.length ∧
        e.cols = (F i).points.length ∧ ∀ k p, k < bands.length → p < (F i).points.length →
          e.val k p = tileCorrFl A env F omap d (bands.getD k 0) (C k) i p) ∧
    (touched F omap d i = true → ¬ roundOk env F omap d i →
      ∃ e, tileCorrectionFl A env ts (omap.getD i []) i d t = .error e) := by
  obtain ⟨data, hu, hr, hc, hv⟩ := ht.uwPhase
  have hcoords : t.coords = filePoints (F i) := coords_eq ht.file
  have hlen : t.coords.length = (F i).points.length := by rw [hcoords, filePoints_length]
  obtain ⟨c, s, hs, s1, s2, s3, s4⟩ := overlapSumsFl_eq hm ha hi data hr hc hv
  have hmask : ∀ p < (F i).points.length, decide (d ≤ c p) = maskAt F omap d i p := by
    intro p hp; unfold maskAt; rw [s3 p hp]
  have hany : ((List.range (F i).points.length).any fun p => decide (d ≤ c p)) = touched F omap d i := by
    unfold touched
    rw [Bool.eq_iff_iff, List.any_eq_true, List.any_eq_true]
    constructor
    · rintro ⟨p, hp, h⟩
      exact ⟨p, hp, by rw [← hmask p (List.mem_range.mp hp)]; exact h⟩
    · rintro ⟨p, hp, h⟩
      exact ⟨p, hp, by rw [hmask p (List.mem_range.mp hp)]; exact h⟩
  have hlap : t.laplacian env = lapOf env (filePoints (F i)) := by
    unfold TileState.laplacian lapOf; rw [hcoords]
  have hunf : tileCorrectionFl A env ts (omap.getD i []) i d t =
      (if ¬ touched F omap d i = true then .ok none else do
        let lap ← lapOf env (filePoints (F i))
        let corr ← dirichletGraphFl A env.lin lap ⟨s.rows, s.cols, fun k p =>
          A.fs (A.fs (s.val k p / (c p : K)) - data.val k p)⟩ (fun p => decide (d ≤ c p))
        pure (some corr)) := by
    unfold tileCorrectionFl
    rw [if_neg (by simp [ht.level]), hu]
    simp only [Bind.bind, Except.bind, hlen, hs, hlap, hany]
    by_cases htch : touched F omap d i = true
    · rw [if_neg (by simp [htch]), if_neg (by simp [hc]), if_neg (by simp [htch])]
    · rw [if_pos htch, if_pos htch]
      rfl
  rw [hunf]
  refine ⟨fun h => by rw [if_pos (by simp [h])], fun h hok => ?_, fun h hno => ?_⟩
  · rw [if_neg (by simp [h])]
    obtain ⟨a, ha1, ha2, ha3⟩ := hok h
    have hmaskeq : ∀ p < a.n, (fun p => decide (d ≤ c p)) p = maskAt F omap d i p := by
      intro p hp; exact hmask p (by omega)
    rw [ha1]
    simp only [Bind.bind, Except.bind, dirichletGraphFl, s2, freeMat_congr hmaskeq]
    rw [if_neg (by simp [ha2]), if_neg (by simp [ha3])]
    refine ⟨_, rfl, s1, rfl, fun k p hk hp => ?_⟩
    have hrow : ∀ q < a.n, A.fs (A.fs (s.val k q / (c q : K)) - data.val k q) = rawCorrFl A F omap (bands.getD k 0) (C k) i q := by
      intro q hq
      unfold rawCorrFl
      rw [s4 k q hk (by omega), s3 q (by omega), hv k q hk (by omega)]
      rfl
    unfold tileCorrFl
    rw [ha1]
    simp only
    rw [← dirRowFl_congr (lin := env.lin) hmaskeq hrow (show p < a.n by omega)]
    unfold dirRowFl
    simp only [freeMat_congr hmaskeq]
  · rw [if_neg (by simp [h])]
    cases hl : lapOf env (filePoints (F i)) with
    | error e => exact ⟨e, rfl⟩
    | ok a =>
      simp only [Bind.bind, Except.bind, dirichletGraphFl, s2]
      by_cases hn : a.n = (F i).points.length
      · have hmaskeq : ∀ p < a.n, (fun p => decide (d ≤ c p)) p = maskAt F omap d i p := by
          intro p hp; exact hmask p (by omega)
        rw [if_neg (by simp [hn]), freeMat_congr hmaskeq]
        have hilu : ¬ env.lin.ilu (freeMat a (maskAt F omap d i)) = true := by
          intro hilu
          exact hno fun _ => ⟨a, hl, hn, hilu⟩
        rw [if_pos hilu]
        exact ⟨_, rfl⟩
      · rw [if_pos hn]
        exact ⟨_, rfl⟩

/-! ### All tiles -/

/-- Inside the loop at degree `d`, after the tiles in `D`. -/
structure RoundInvFl (A : FloatArith K) (env : MergeEnv K) (n : Nat) (F : Nat → TileFile K) (omap : List (List Nat))
    (bands : List Nat) (C : Nat → Nat → Nat → K) (d : Nat) (D : List Nat) (ts : List (TileState K)) : Prop where
  len : ts.length = n
  done : ∀ j < n, j ∈ D → touched F omap d j = true → ∃ t e, ts[j]? = some t ∧
    PendingFl A (F j) bands t (fun k p => C k j p) e ∧ ∀ k p, k < bands.length → p < (F j).points.length →
      e.val k p = tileCorrFl A env F omap d (bands.getD k 0) (C k) j p
  rest : ∀ j < n, ¬ (j ∈ D ∧ touched F omap d j = true) → ∃ t, ts[j]? = some t ∧
    SettledFl A (F j) bands t (fun k p => C k j p)

omit [FloorRing K] in
theorem RoundInvFl.answers {A : FloatArith K} {env : MergeEnv K} {n : Nat} {F : Nat → TileFile K} {omap : List (List Nat)}
    {bands : List Nat} {C : Nat → Nat → Nat → K} {d : Nat} {D : List Nat} {ts : List (TileState K)}
    (h : RoundInvFl A env n F omap bands C d D ts) : AnswersFl A n F bands C ts := by
  intro j hj
  by_cases hc : j ∈ D ∧ touched F omap d j = true
  · obtain ⟨t, e, h1, h2, _⟩ := h.done j hj hc.1 hc.2
    obtain ⟨u, u1, u2, u3, u4⟩ := h2.uwPhase
    exact ⟨t, u, h1, u1, u2, u3, u4⟩
  · obtain ⟨t, h1, h2⟩ := h.rest j hj hc
    obtain ⟨u, u1, u2, u3, u4⟩ := h2.uwPhase
    exact ⟨t, u, h1, u1, u2, u3, u4⟩

/-- All tiles are between two rounds, with corrections `C`. -/
def AllSettledFl (A : FloatArith K) (n : Nat) (F : Nat → TileFile K) (bands : List Nat) (C : Nat → Nat → Nat → K)
    (ts : List (TileState K)) : Prop :=
  ts.length = n ∧ ∀ j < n, ∃ t, ts[j]? = some t ∧ SettledFl A (F j) bands t (fun k p => C k j p)

/-- The loop over the tiles, in any order. -/
theorem correctOrderFl_eq {A : FloatArith K} {n : Nat} {F : Nat → TileFile K} {env : MergeEnv K} {omap : List (List Nat)}
    (hm : MapOk n F env.overlap omap) {bands : List Nat} {C : Nat → Nat → Nat → K} {ts : List (TileState K)}
    (hs : AllSettledFl A n F bands C ts) (d : Nat) (ord : List Nat) (hord : ∀ i ∈ ord, i < n) (hnd : ord.Nodup) :
    ((∀ i ∈ ord, roundOk env F omap d i) → ∃ ts', ord.foldlM (correctStepFl A env omap d) ts = .ok ts' ∧
      RoundInvFl A env n F omap bands C d ord ts') ∧
    (¬ (∀ i ∈ ord, roundOk env F omap d i) → ∃ e, ord.foldlM (correctStepFl A env omap d) ts = .error e) := by
  induction ord using List.reverseRecOn with
  | nil =>
    refine ⟨fun _ => ⟨ts, rfl, hs.1, fun j _ hj => absurd hj (by simp), fun j hj _ => hs.2 j hj⟩,
      fun h => absurd (by simp) h⟩
  | append_singleton ord m ih =>
    have hm1 : m ∉ ord := fun hc => (List.nodup_append.mp hnd).2.2 m hc m (by simp) rfl
    obtain ⟨ih1, ih2⟩ := ih (fun i hi => hord i (by simp [hi])) (List.nodup_append.mp hnd).1
    have hmn : m < n := hord m (by simp)
    rw [List.foldlM_append]
    by_cases hall : ∀ i ∈ ord, roundOk env F omap d i
    · obtain ⟨ts1, h1, hinv⟩ := ih1 hall
      rw [h1]
      obtain ⟨t, ht, hst⟩ := hinv.rest m hmn (fun hc => hm1 hc.1)
      have homap : omap[m]? = some (omap.getD m []) := by
        rw [List.getD_eq_getElem _ _ (show m < omap.length by rw [hm.len]; omega)]
        exact List.getElem?_eq_getElem _
      obtain ⟨c1, c2, c3⟩ := tileCorrectionFl_eq hm hinv.answers hmn hst d
      simp only [Bind.bind, Except.bind, List.foldlM_cons, List.foldlM_nil, correctStepFl, ht, homap, Option.elim_some]
      by_cases htch : touched F omap d m = true
      · by_cases hok : roundOk env F omap d m
        · refine ⟨fun _ => ?_, fun h => absurd (fun i hi => ?_) h⟩
          · obtain ⟨e, he, e1, e2, e3⟩ := c2 htch hok
            obtain ⟨t', ht', hp⟩ := hst.add e e1 e2
            rw [he]
            simp only [ht']
            refine ⟨_, rfl, by simp [hinv.len], fun j hj hjm hjt => ?_, fun j hj hjm => ?_⟩
            · by_cases hjm' : j = m
              · subst hjm'
                refine ⟨t', e, ?_, hp, e3⟩
                rw [List.getElem?_set_self (by rw [hinv.len]; exact hj)]
              · obtain ⟨s, e', g1, g2⟩ := hinv.done j hj (by simpa [hjm'] using hjm) hjt
                exact ⟨s, e', by rw [List.getElem?_set_ne (by omega)]; exact g1, g2⟩
            · have hjm' : j ≠ m := by rintro rfl; exact hjm ⟨by simp, htch⟩
              obtain ⟨s, g1, g2⟩ := hinv.rest j hj (fun hc => hjm ⟨by simp [hc.1], hc.2⟩)
              exact ⟨s, by rw [List.getElem?_set_ne (by omega)]; exact g1, g2⟩
          · rcases List.mem_append.mp hi with hi | hi
            · exact hall i hi
            · rw [List.mem_singleton] at hi; subst hi; exact hok
        · refine ⟨fun h => absurd (h m (by simp)) hok, fun _ => ?_⟩
          obtain ⟨e, he⟩ := c3 htch hok
          rw [he]
          exact ⟨e, rfl⟩
      · have hok : roundOk env F omap d m := fun h => absurd h htch
        refine ⟨fun _ => ?_, fun h => absurd (fun i hi => ?_) h⟩
        · rw [c1 (by simpa using htch)]
          refine ⟨ts1, rfl, hinv.len, fun j hj hjm hjt => ?_, fun j hj hjm => ?_⟩
          · have hjm' : j ≠ m := by rintro rfl; exact htch hjt
            exact hinv.done j hj (by simpa [hjm'] using hjm) hjt
          · exact hinv.rest j hj (fun hc => hjm ⟨by simp [hc.1], hc.2⟩)
        · rcases List.mem_append.mp hi with hi | hi
          · exact hall i hi
          · rw [List.mem_singleton] at hi; subst hi; exact hok
    · refine ⟨fun h => absurd (fun i hi => h i (by simp [hi])) hall, fun _ => ?_⟩
      obtain ⟨e, he⟩ := ih2 hall
      rw [he]
      exact ⟨e, rfl⟩

/-- One degree of overlap, with the tiles in any order. -/
theorem roundOrderFl_eq {A : FloatArith K} {n : Nat} {F : Nat → TileFile K} {env : MergeEnv K} {omap : List (List Nat)}
    (hm : MapOk n F env.overlap omap) {bands : List Nat} {C : Nat → Nat → Nat → K} {ts : List (TileState K)}
    (hs : AllSettledFl A n F bands C ts) (d : Nat) (ord : List Nat) (hord : ord.Perm (List.range n)) :
    ((∀ i < n, roundOk env F omap d i) →
      ∃ ts1 ts', ord.foldlM (correctStepFl A env omap d) ts = .ok ts1 ∧
        ts1.mapM (fun t => t.callFl A .compressCorrections) = .ok ts' ∧
        AllSettledFl A n F bands (fun k => bandRoundFl A env F omap (bands.getD k 0) (C k) d) ts') ∧
    (¬ (∀ i < n, roundOk env F omap d i) →
      ∃ e, ord.foldlM (correctStepFl A env omap d) ts = .error e) := by
  have hmem : ∀ i, i ∈ ord ↔ i < n := fun i => by rw [hord.mem_iff, List.mem_range]
  obtain ⟨h1, h2⟩ := correctOrderFl_eq hm hs d ord (fun i hi => (hmem i).mp hi)
    (hord.nodup_iff.mpr List.nodup_range)
  have hiff : (∀ i ∈ ord, roundOk env F omap d i) ↔ ∀ i < n, roundOk env F omap d i :=
    ⟨fun h i hi => h i ((hmem i).mpr hi), fun h i hi => h i ((hmem i).mp hi)⟩
  rw [hiff] at h1 h2
  refine ⟨fun hok => ?_, h2⟩
  obtain ⟨ts1, e1, hinv⟩ := h1 hok
  have hstep : ∀ j < n, ∃ t t', ts1[j]? = some t ∧ t.callFl A .compressCorrections = .ok t' ∧
      SettledFl A (F j) bands t' (fun k p => bandRoundFl A env F omap (bands.getD k 0) (C k) d j p) := by
    intro j hj
    by_cases htch : touched F omap d j = true
    · obtain ⟨t, e, g1, g2, g3⟩ := hinv.done j hj ((hmem j).mpr hj) htch
      obtain ⟨t', g4, g5⟩ := g2.compress
      refine ⟨t, t', g1, g4, g5.congr fun k p hk hp => ?_⟩
      unfold bandRoundFl
      rw [if_pos htch, g3 k p hk hp]
    · obtain ⟨t, g1, g2⟩ := hinv.rest j hj (fun hc => htch hc.2)
      refine ⟨t, t, g1, g2.compress, g2.congr fun k p hk hp => ?_⟩
      unfold bandRoundFl
      rw [if_neg htch]
  obtain ⟨ts', m1, m2, m3⟩ := mapM_exists (fun t : TileState K => t.callFl A .compressCorrections) ts1 (by
    intro t ht
    obtain ⟨j, hj, rfl⟩ := List.mem_iff_getElem.mp ht
    obtain ⟨t, t', g1, g2, _⟩ := hstep j (by rw [← hinv.len]; exact hj)
    rw [List.getElem?_eq_getElem hj, Option.some.injEq] at g1
    exact ⟨t', by rw [g1]; exact g2⟩)
  refine ⟨ts1, ts', e1, m1, by rw [m2, hinv.len], fun j hj => ?_⟩
  obtain ⟨t, t', g1, g2, g3⟩ := hstep j hj
  obtain ⟨t'', q1, q2⟩ := m3 j t g1
  rw [g2, Except.ok.injEq] at q2
  exact ⟨t'', q1, q2 ▸ g3⟩

/-- One degree of overlap. -/
theorem roundFl_eq {A : FloatArith K} {n : Nat} {F : Nat → TileFile K} {env : MergeEnv K} {omap : List (List Nat)}
    (hm : MapOk n F env.overlap omap) {bands : List Nat} {C : Nat → Nat → Nat → K} {ts : List (TileState K)}
    (hs : AllSettledFl A n F bands C ts) (d : Nat) :
    ((∀ i < n, roundOk env F omap d i) →
      ∃ ts', adjustRoundFl A env omap ts d = .ok ts' ∧
        AllSettledFl A n F bands (fun k => bandRoundFl A env F omap (bands.getD k 0) (C k) d) ts') ∧
    (¬ (∀ i < n, roundOk env F omap d i) → ∃ e, adjustRoundFl A env omap ts d = .error e) := by
  obtain ⟨h1, h2⟩ := roundOrderFl_eq hm hs d (List.range n) (List.Perm.refl _)
  unfold adjustRoundFl
  rw [hs.1]
  constructor
  · intro hok
    obtain ⟨ts1, ts', e1, e2, e3⟩ := h1 hok
    rw [e1]
    exact ⟨ts', e2, e3⟩
  · intro hno
    obtain ⟨e, he⟩ := h2 hno
    rw [he]
    exact ⟨e, rfl⟩

/-- The corrections after all rounds, in band `b`. -/
def bandAdjustFl (A : FloatArith K) (env : MergeEnv K) (F : Nat → TileFile K) (omap : List (List Nat)) (maxDegree b : Nat)
    (c : Nat → Nat → K) : Nat → Nat → K :=
  (degrees maxDegree).foldl (fun c d => bandRoundFl A env F omap b c d) c

/-- `_adjust_tiles`, band by band. -/
theorem adjustTilesFl_eq {A : FloatArith K} {n : Nat} {F : Nat → TileFile K} {env : MergeEnv K} {omap : List (List Nat)}
    (hm : MapOk n F env.overlap omap) {bands : List Nat} {C : Nat → Nat → Nat → K} {ts : List (TileState K)}
    (hs : AllSettledFl A n F bands C ts) (maxDegree : Nat) :
    (adjustOk env n F omap maxDegree → ∃ ts', adjustTilesFl A env omap maxDegree ts = .ok ts' ∧
      AllSettledFl A n F bands (fun k => bandAdjustFl A env F omap maxDegree (bands.getD k 0) (C k)) ts') ∧
    (¬ adjustOk env n F omap maxDegree → ∃ e, adjustTilesFl A env omap maxDegree ts = .error e) := by
  unfold adjustOk bandAdjustFl adjustTilesFl
  generalize degrees maxDegree = ds
  induction ds generalizing C ts with
  | nil => exact ⟨fun _ => ⟨ts, rfl, hs⟩, fun h => absurd (by simp) h⟩
  | cons d ds ih =>
    obtain ⟨r1, r2⟩ := roundFl_eq hm hs d
    rw [List.foldlM_cons]
    by_cases hd : ∀ i < n, roundOk env F omap d i
    · obtain ⟨ts1, e1, hs1⟩ := r1 hd
      obtain ⟨i1, i2⟩ := ih hs1
      rw [e1]
      constructor
      · intro h
        obtain ⟨ts', g1, g2⟩ := i1 fun d' hd' => h d' (List.mem_cons_of_mem _ hd')
        exact ⟨ts', g1, g2⟩
      · intro h
        exact i2 fun hc => h fun d' hd' => by
          rcases List.mem_cons.mp hd' with rfl | hd'
          · exact hd
          · exact hc d' hd'
    · obtain ⟨e, he⟩ := r2 hd
      rw [he]
      exact ⟨fun h => absurd (h d List.mem_cons_self) hd, fun _ => ⟨e, rfl⟩⟩

end

end Spurt
