import Verif.Lemmas.Merge
import Verif.Props.TileState
import Verif.Props.Dirichlet
import Verif.Props.OverlapMap

/-!
# The adjustment of the tiles, one band at a time

The loops of `_adjust_tiles` work on all selected bands at once. Here they are described for one
band by total functions: `bandRound` is the change of the corrections at one degree of overlap.
-/

namespace Spurt

section
variable {K : Type} [Field K]

/-- The pixels of a tile file in the image. -/
def Spec.filePoints (f : TileFile K) : List (ℤ × ℤ) :=
  f.points.map fun p => (p.1 + f.tile.xmin, p.2 + f.tile.ymin)

open Spec

omit [Field K] in
theorem coords_eq {t : TileState K} {f : TileFile K} (h : t.file = f) : t.coords = filePoints f := by
  subst h; rfl

omit [Field K] in
theorem filePoints_length (f : TileFile K) : (filePoints f).length = f.points.length := by simp [filePoints]

/-- The corrected value of point `p` of tile `i` in band `b`; `c i p` is the correction. -/
def bandValue (F : Nat → TileFile K) (b : Nat) (c : Nat → Nat → K) (i p : Nat) : K :=
  filePhase (F i) b p + c i p

/-- The corrected value of tile `i` at a pixel. -/
def bandAt (F : Nat → TileFile K) (b : Nat) (c : Nat → Nat → K) (j : Nat) (pix : ℤ × ℤ) : Option K :=
  if pix ∈ filePoints (F j) then some (bandValue F b c j ((filePoints (F j)).idxOf pix)) else none

omit [Field K] in
/-- Point `p` of tile `i`. -/
def ptAt (F : Nat → TileFile K) (i p : Nat) : ℤ × ℤ := (filePoints (F i)).getD p (0, 0)

omit [Field K] in
/-- The number of tiles at point `p` of tile `i`, among the tile and `nbrs`. -/
def cntAt (F : Nat → TileFile K) (nbrs : List Nat) (i p : Nat) : Nat :=
  1 + (nbrs.filter fun j => decide (ptAt F i p ∈ filePoints (F j))).length

/-- The sum of the values of these tiles. -/
def sumAt (F : Nat → TileFile K) (b : Nat) (c : Nat → Nat → K) (nbrs : List Nat) (i p : Nat) : K :=
  bandValue F b c i p + (nbrs.map fun j => (bandAt F b c j (ptAt F i p)).getD 0).sum

/-- The overlap file holds the right indices for the pair. -/
def PairOk (F : Nat → TileFile K) (olap : OverlapFile) (i j : Nat) : Prop :=
  ∃ (a b : List Nat) (ps : List (ℤ × ℤ)), pairIdx olap i j = .ok (a, b) ∧ ps.Nodup ∧
    (∀ p, p ∈ ps ↔ p ∈ filePoints (F i) ∧ p ∈ filePoints (F j)) ∧
    a.map ((filePoints (F i))[·]?) = ps.map some ∧ b.map ((filePoints (F j))[·]?) = ps.map some

/-- The overlap map and the overlap file fit the tiles. -/
structure MapOk (n : Nat) (F : Nat → TileFile K) (olap : OverlapFile) (omap : List (List Nat)) : Prop where
  len : omap.length = n
  lt : ∀ i < n, ∀ j ∈ omap.getD i [], j < n
  pair : ∀ i < n, ∀ j ∈ omap.getD i [], PairOk F olap i j
  once : ∀ i < n, (filePoints (F i)).Nodup

/-- The tiles answer `uw_phase` with the values of the bands. -/
def Answers (n : Nat) (F : Nat → TileFile K) (bands : List Nat) (C : Nat → Nat → Nat → K)
    (ts : List (TileState K)) : Prop :=
  ∀ j < n, ∃ t u, ts[j]? = some t ∧ t.uwPhase = .ok u ∧ u.rows = bands.length ∧
    u.cols = (F j).points.length ∧ ∀ k p, k < bands.length → p < (F j).points.length →
      u.val k p = bandValue F (bands.getD k 0) (C k) j p

omit [Field K] in
/-- The positions in the index lists of a pair. -/
theorem pair_positions {A B ps : List (ℤ × ℤ)} {a b : List Nat} (hA : A.Nodup) (hB : B.Nodup)
    (ha : a.map (A[·]?) = ps.map some) (hb : b.map (B[·]?) = ps.map some) (hps : ps.Nodup) :
    a.length = ps.length ∧ b.length = ps.length ∧ a.Nodup ∧
    (∀ n (hn : n < ps.length) (h1 : n < a.length) (h2 : n < b.length),
      a[n] < A.length ∧ b[n] < B.length ∧ a[n] = A.idxOf ps[n] ∧ b[n] = B.idxOf ps[n]) := by
  have la : a.length = ps.length := by simpa using congrArg List.length ha
  have lb : b.length = ps.length := by simpa using congrArg List.length hb
  have key : ∀ (L : List (ℤ × ℤ)) (l : List Nat), L.Nodup → l.map (L[·]?) = ps.map some →
      ∀ n (hn : n < ps.length) (h1 : n < l.length), l[n] < L.length ∧ l[n] = L.idxOf ps[n] := by
    intro L l hL hl n hn h1
    have he := congrArg (fun x => x[n]?) hl
    simp only [List.getElem?_map, List.getElem?_eq_getElem h1, List.getElem?_eq_getElem hn,
      Option.map_some, Option.some.injEq] at he
    obtain ⟨h2, h3⟩ := List.getElem?_eq_some_iff.mp he
    refine ⟨h2, ?_⟩
    rw [← h3]
    exact (hL.idxOf_getElem _ h2).symm
  refine ⟨la, lb, ?_, fun n hn h1 h2 => ⟨(key A a hA ha n hn h1).1, (key B b hB hb n hn h2).1,
    (key A a hA ha n hn h1).2, (key B b hB hb n hn h2).2⟩⟩
  rw [List.nodup_iff_injective_getElem]
  rintro ⟨m, hm⟩ ⟨n, hn⟩ he
  simp only at he
  have h1 := congrArg (fun x => x[m]?) ha
  have h2 := congrArg (fun x => x[n]?) ha
  simp only [List.getElem?_map, List.getElem?_eq_getElem hm, List.getElem?_eq_getElem hn,
    List.getElem?_eq_getElem (show m < ps.length by omega), List.getElem?_eq_getElem (show n < ps.length by omega),
    Option.map_some, Option.some.injEq] at h1 h2
  rw [he, h2] at h1
  simp only [Option.some.injEq] at h1
  have := (List.Nodup.getElem_inj_iff hps).mp h1
  simp only [Fin.mk.injEq]
  omega

/-- The sums over the overlaps. -/
theorem overlapSums_eq {n : Nat} {F : Nat → TileFile K} {env : MergeEnv K} {omap : List (List Nat)}
    (hm : MapOk n F env.overlap omap) {bands : List Nat} {C : Nat → Nat → Nat → K} {ts : List (TileState K)}
    (ha : Answers n F bands C ts) {i : Nat} (hi : i < n) (data : Arr K) (hr : data.rows = bands.length)
    (hc : data.cols = (F i).points.length)
    (hv : ∀ k p, k < bands.length → p < (F i).points.length →
      data.val k p = bandValue F (bands.getD k 0) (C k) i p) :
    ∃ c s, overlapSums env ts (omap.getD i []) i (F i).points.length data = .ok (c, s) ∧
      s.rows = bands.length ∧ s.cols = (F i).points.length ∧
      (∀ p < (F i).points.length, c p = cntAt F (omap.getD i []) i p) ∧
      ∀ k p, k < bands.length → p < (F i).points.length →
        s.val k p = sumAt F (bands.getD k 0) (C k) (omap.getD i []) i p := by
  have key : ∀ (nbrs : List Nat), (∀ j ∈ nbrs, j < n ∧ PairOk F env.overlap i j) →
      ∀ (c0 : Nat → Nat) (s0 : Arr K), s0.rows = bands.length → s0.cols = (F i).points.length →
      ∃ c s, nbrs.foldlM (overlapSumStep env ts i (F i).points.length data) (c0, s0) = .ok (c, s) ∧
        s.rows = bands.length ∧ s.cols = (F i).points.length ∧
        (∀ p < (F i).points.length, c p = c0 p + (nbrs.filter fun j => decide (ptAt F i p ∈ filePoints (F j))).length) ∧
        ∀ k p, k < bands.length → p < (F i).points.length →
          s.val k p = s0.val k p + (nbrs.map fun j => (bandAt F (bands.getD k 0) (C k) j (ptAt F i p)).getD 0).sum := by
    intro nbrs
    induction nbrs with
    | nil => intro _ c0 s0 h1 h2; exact ⟨c0, s0, rfl, h1, h2, by simp, by simp⟩
    | cons j nbrs ih =>
      intro hn c0 s0 h1 h2
      obtain ⟨hj, a, b, ps, hp, hps, hmem, hpa, hpb⟩ := hn j List.mem_cons_self
      obtain ⟨t, u, ht, hu, hur, huc, huv⟩ := ha j hj
      obtain ⟨la, lb, hand, hpos⟩ := pair_positions (hm.once i hi) (hm.once j hj) hpa hpb hps
      rw [List.foldlM_cons]
      simp only [overlapSumStep, Bind.bind, Except.bind, ht, Option.elim_some, hp, hu]
      have e1 : (a.any fun p => decide ((F i).points.length ≤ p ∨ data.cols ≤ p)) = false := by
        rw [List.any_eq_false]
        intro p hpa
        obtain ⟨m, hm', rfl⟩ := List.mem_iff_getElem.mp hpa
        have := (hpos m (by omega) hm' (by omega)).1
        rw [filePoints_length] at this
        simp only [decide_eq_true_eq]; omega
      have e2 : (b.any fun p => decide (u.cols ≤ p)) = false := by
        rw [List.any_eq_false]
        intro p hpb
        obtain ⟨m, hm', rfl⟩ := List.mem_iff_getElem.mp hpb
        have := (hpos m (by omega) (by omega) hm').2.1
        rw [filePoints_length] at this
        simp only [decide_eq_true_eq]; omega
      rw [if_neg (by rw [e1]; simp), if_neg (by rw [e2]; simp), if_neg (by rw [hur, hr, la, lb]; simp)]
      obtain ⟨c, s, hcs, r1, r2, r3, r4⟩ := ih (fun j' hj' => hn j' (List.mem_cons_of_mem _ hj'))
        (fancySet c0 a (a.map fun p => c0 p + 1))
        ⟨s0.rows, s0.cols, fun k => fancySet (s0.val k) a
          (List.zipWith (fun p q => s0.val k p + u.val k q) a b)⟩ h1 h2
      refine ⟨c, s, hcs, r1, r2, fun p hp => ?_, fun k p hk hp => ?_⟩
      · rw [r3 p hp, List.filter_cons]
        have hpl : p < (filePoints (F i)).length := by rw [filePoints_length]; exact hp
        have hpt : ptAt F i p = (filePoints (F i))[p] := by unfold ptAt; rw [List.getD_eq_getElem _ _ hpl]
        by_cases hin : ptAt F i p ∈ filePoints (F j)
        · have hmps : ptAt F i p ∈ ps := (hmem _).mpr ⟨by rw [hpt]; exact List.getElem_mem hpl, hin⟩
          obtain ⟨m, hm', hme⟩ := List.mem_iff_getElem.mp hmps
          have hq := (hpos m hm' (by omega) (by omega)).2.2.1
          have hpm : a[m]'(by omega) = p := by
            rw [hq, hme, hpt]; exact (hm.once i hi).idxOf_getElem p hpl
          have hf := fancySet_of_mem c0 a (a.map fun p => c0 p + 1) hand m (by omega) (by simp; omega)
          simp only [List.getElem_map, hpm] at hf
          rw [hf]
          simp only [hin, decide_true, if_true, List.length_cons]
          omega
        · have hna : p ∉ a := by
            intro hpa'
            obtain ⟨m, hm', hme⟩ := List.mem_iff_getElem.mp hpa'
            have hq := (hpos m (by omega) hm' (by omega)).2.2.1
            have hps' : ps[m]'(by omega) ∈ filePoints (F i) := ((hmem _).mp (List.getElem_mem _)).1
            have : ptAt F i p = ps[m]'(by omega) := by
              rw [hpt]
              have hpx : p = (filePoints (F i)).idxOf (ps[m]'(by omega)) := by rw [← hq, hme]
              have := List.getElem_idxOf (List.idxOf_lt_length_iff.mpr hps')
              rw [← this]
              congr 1
            exact hin (this ▸ ((hmem _).mp (List.getElem_mem _)).2)
          rw [fancySet_of_not_mem _ _ _ _ hna]
          simp [hin]
      · rw [r4 k p hk hp, List.map_cons, List.sum_cons]
        dsimp only
        have hpl : p < (filePoints (F i)).length := by rw [filePoints_length]; exact hp
        have hpt : ptAt F i p = (filePoints (F i))[p] := by unfold ptAt; rw [List.getD_eq_getElem _ _ hpl]
        by_cases hin : ptAt F i p ∈ filePoints (F j)
        · have hmps : ptAt F i p ∈ ps := (hmem _).mpr ⟨by rw [hpt]; exact List.getElem_mem hpl, hin⟩
          obtain ⟨m, hm', hme⟩ := List.mem_iff_getElem.mp hmps
          obtain ⟨_, q2, q3, q4⟩ := hpos m hm' (by omega) (by omega)
          have hpm : a[m]'(by omega) = p := by
            rw [q3, hme, hpt]; exact (hm.once i hi).idxOf_getElem p hpl
          have hf := fancySet_of_mem (s0.val k) a (List.zipWith (fun p q => s0.val k p + u.val k q) a b) hand m
            (by omega) (by simp; omega)
          simp only [List.getElem_zipWith, hpm] at hf
          rw [hf, huv k _ hk (by rw [filePoints_length] at q2; exact q2)]
          unfold bandAt
          rw [if_pos hin, Option.getD_some, q4, hme]
          ring
        · have hna : p ∉ a := by
            intro hpa'
            obtain ⟨m, hm', hme⟩ := List.mem_iff_getElem.mp hpa'
            have hq := (hpos m (by omega) hm' (by omega)).2.2.1
            have hps' : ps[m]'(by omega) ∈ filePoints (F i) := ((hmem _).mp (List.getElem_mem _)).1
            have : ptAt F i p = ps[m]'(by omega) := by
              rw [hpt]
              have hpx : p = (filePoints (F i)).idxOf (ps[m]'(by omega)) := by rw [← hq, hme]
              have := List.getElem_idxOf (List.idxOf_lt_length_iff.mpr hps')
              rw [← this]
              congr 1
            exact hin (this ▸ ((hmem _).mp (List.getElem_mem _)).2)
          rw [fancySet_of_not_mem _ _ _ _ hna]
          unfold bandAt
          rw [if_neg hin]
          simp
  obtain ⟨c, s, h1, h2, h3, h4, h5⟩ := key (omap.getD i []) (fun j hj => ⟨hm.lt i hi j hj, hm.pair i hi j hj⟩)
    (fun _ => 1) data hr hc
  exact ⟨c, s, h1, h2, h3, h4, fun k p hk hp => by rw [h5 k p hk hp, hv k p hk hp]; rfl⟩

/-! ### The correction of one tile -/

variable [LinearOrder K]

/-- One band of the result of `dirichlet_graph` with logging. -/
def dirRow (lin : LinSolver K) (a : SqMat K) (mask : Nat → Bool) (x : Nat → K) (p : Nat) : K :=
  if mask p then x p
  else (if ((freeRhs a mask x).all fun v => decide (v = 0)) then (freeRhs a mask x).map fun _ => 0
    else lin.cg (freeMat a mask) (freeRhs a mask x)).getD ((freeIdx a.n mask).idxOf p) 0

omit [LinearOrder K] in
theorem freeIdx_congr {n : Nat} {mask mask' : Nat → Bool} (h : ∀ p < n, mask p = mask' p) :
    freeIdx n mask = freeIdx n mask' := by
  unfold freeIdx
  apply List.filter_congr
  intro p hp
  rw [h p (List.mem_range.mp hp)]

omit [LinearOrder K] in
theorem freeMat_congr {a : SqMat K} {mask mask' : Nat → Bool} (h : ∀ p < a.n, mask p = mask' p) :
    freeMat a mask = freeMat a mask' := by
  unfold freeMat
  rw [freeIdx_congr h]

omit [LinearOrder K] in
theorem freeRhs_congr {a : SqMat K} {mask mask' : Nat → Bool} {x x' : Nat → K}
    (h : ∀ p < a.n, mask p = mask' p) (hx : ∀ p < a.n, x p = x' p) : freeRhs a mask x = freeRhs a mask' x' := by
  unfold freeRhs
  rw [freeIdx_congr h]
  have h1 : (List.range a.n).filter (fun j => mask j) = (List.range a.n).filter (fun j => mask' j) := by
    apply List.filter_congr
    intro p hp
    rw [h p (List.mem_range.mp hp)]
  rw [h1]
  apply List.map_congr_left
  intro i _
  congr 2
  apply List.map_congr_left
  intro j hj
  rw [hx j (List.mem_range.mp (List.mem_filter.mp hj).1)]

theorem dirRow_congr {lin : LinSolver K} {a : SqMat K} {mask mask' : Nat → Bool} {x x' : Nat → K}
    (h : ∀ p < a.n, mask p = mask' p) (hx : ∀ p < a.n, x p = x' p) {p : Nat} (hp : p < a.n) :
    dirRow lin a mask x p = dirRow lin a mask' x' p := by
  unfold dirRow
  rw [freeRhs_congr h hx, freeMat_congr h, freeIdx_congr h, h p hp, hx p hp]

/-- The Laplacian of the triangulation of some points. -/
def lapOf (env : MergeEnv K) (pts : List (ℤ × ℤ)) : Except PyErr (SqMat K) := do
  let a ← graphLaplacian (delaunayGraph pts.length (env.simplices pts)).links
  pure ⟨a.n, fun i j => ((a.val i j : ℤ) : K)⟩

/-- The fixed points of tile `i` at degree `d`. -/
def maskAt (F : Nat → TileFile K) (omap : List (List Nat)) (d i p : Nat) : Bool :=
  decide (d ≤ cntAt F (omap.getD i []) i p)

/-- Tile `i` has a point of degree `d`. -/
def touched (F : Nat → TileFile K) (omap : List (List Nat)) (d i : Nat) : Bool :=
  (List.range (F i).points.length).any fun p => maskAt F omap d i p

/-- The correction of tile `i` at degree `d` can be computed. -/
def roundOk (env : MergeEnv K) (F : Nat → TileFile K) (omap : List (List Nat)) (d i : Nat) : Prop :=
  touched F omap d i = true → ∃ a, lapOf env (filePoints (F i)) = .ok a ∧ a.n = (F i).points.length ∧
    env.lin.ilu (freeMat a (maskAt F omap d i)) = true

/-- The difference between the average over the overlapping tiles and the tile. -/
def rawCorr (F : Nat → TileFile K) (omap : List (List Nat)) (b : Nat) (c : Nat → Nat → K) (i p : Nat) : K :=
  sumAt F b c (omap.getD i []) i p / (cntAt F (omap.getD i []) i p : K) - bandValue F b c i p

/-- The correction of tile `i` at degree `d` in band `b`. -/
def tileCorr (env : MergeEnv K) (F : Nat → TileFile K) (omap : List (List Nat)) (d b : Nat)
    (c : Nat → Nat → K) (i p : Nat) : K :=
  match lapOf env (filePoints (F i)) with
  | .ok a => dirRow env.lin a (maskAt F omap d i) (rawCorr F omap b c i) p
  | .error _ => 0

/-- The corrections after one degree of overlap, in band `b`. -/
def bandRound (env : MergeEnv K) (F : Nat → TileFile K) (omap : List (List Nat)) (b : Nat)
    (c : Nat → Nat → K) (d : Nat) (i p : Nat) : K :=
  if touched F omap d i then c i p + tileCorr env F omap d b c i p else c i p

variable [FloorRing K]

theorem tileCorrection_eq {n : Nat} {F : Nat → TileFile K} {env : MergeEnv K} {omap : List (List Nat)}
    (hm : MapOk n F env.overlap omap) {bands : List Nat} {C : Nat → Nat → Nat → K} {ts : List (TileState K)}
    (ha : Answers n F bands C ts) {i : Nat} (hi : i < n) {t : TileState K}
    (ht : Settled (F i) bands t (fun k p => C k i p)) (d : Nat) :
    (touched F omap d i = false → tileCorrection env ts (omap.getD i []) i d t = .ok none) ∧
    (touched F omap d i = true → roundOk env F omap d i →
      ∃ e, tileCorrection env ts (omap.getD i []) i d t = .ok (some e) ∧ e.rows = bands.length ∧
        e.cols = (F i).points.length ∧ ∀ k p, k < bands.length → p < (F i).points.length →
          e.val k p = tileCorr env F omap d (bands.getD k 0) (C k) i p) ∧
    (touched F omap d i = true → ¬ roundOk env F omap d i →
      ∃ e, tileCorrection env ts (omap.getD i []) i d t = .error e) := by
  obtain ⟨data, hu, hr, hc, hv⟩ := ht.uwPhase
  have hcoords : t.coords = filePoints (F i) := coords_eq ht.file
  have hlen : t.coords.length = (F i).points.length := by rw [hcoords, filePoints_length]
  obtain ⟨c, s, hs, s1, s2, s3, s4⟩ := overlapSums_eq hm ha hi data hr hc hv
  have hmask : ∀ p < (F i).points.length, decide (d ≤ c p) = maskAt F omap d i p := by
    intro p hp; unfold maskAt; rw [s3 p hp]
  have hany : ((List.range (F i).points.length).any fun p => decide (d ≤ c p)) = touched F omap d i := by
    unfold touched
    rw [Bool.eq_iff_iff, List.any_eq_true, List.any_eq_true]
    constructor
    · rintro ⟨p, hp, h⟩
      exact ⟨p, hp, by rw [← hmask p (List.mem_range.mp hp)]; exact h⟩
    · rintro ⟨p, hp, h⟩
      exact ⟨p, hp, by rw [hmask p (List.mem_range.mp hp)]; exact h⟩
  have hlap : t.laplacian env = lapOf env (filePoints (F i)) := by
    unfold TileState.laplacian lapOf; rw [hcoords]
  have hunf : tileCorrection env ts (omap.getD i []) i d t =
      (if ¬ touched F omap d i = true then .ok none else do
        let lap ← lapOf env (filePoints (F i))
        let corr ← dirichletGraph env.lin lap ⟨s.rows, s.cols, fun k p => s.val k p / (c p : K) - data.val k p⟩
          (fun p => decide (d ≤ c p)) true
        pure (some corr)) := by
    unfold tileCorrection
    rw [if_neg (by simp [ht.level]), hu]
    simp only [Bind.bind, Except.bind, hlen, hs, hlap, hany]
    by_cases htch : touched F omap d i = true
    · rw [if_neg (by simp [htch]), if_neg (by simp [hc]), if_neg (by simp [htch])]
    · rw [if_pos htch, if_pos htch]
      rfl
  rw [hunf]
  refine ⟨fun h => by rw [if_pos (by simp [h])], fun h hok => ?_, fun h hno => ?_⟩
  · rw [if_neg (by simp [h])]
    obtain ⟨a, ha1, ha2, ha3⟩ := hok h
    have hmaskeq : ∀ p < a.n, (fun p => decide (d ≤ c p)) p = maskAt F omap d i p := by
      intro p hp; exact hmask p (by omega)
    rw [ha1]
    simp only [Bind.bind, Except.bind, dirichletGraph, s2, freeMat_congr hmaskeq]
    rw [if_neg (by simp [ha2]), if_neg (by simp [ha3])]
    refine ⟨_, rfl, s1, rfl, fun k p hk hp => ?_⟩
    have hrow : ∀ q < a.n, s.val k q / (c q : K) - data.val k q = rawCorr F omap (bands.getD k 0) (C k) i q := by
      intro q hq
      unfold rawCorr
      rw [s4 k q hk (by omega), s3 q (by omega), hv k q hk (by omega)]
      rfl
    unfold tileCorr
    rw [ha1]
    simp only
    rw [← dirRow_congr (lin := env.lin) hmaskeq hrow (show p < a.n by omega)]
    unfold dirRow
    simp only [Bool.and_true, freeMat_congr hmaskeq]
  · rw [if_neg (by simp [h])]
    cases hl : lapOf env (filePoints (F i)) with
    | error e => exact ⟨e, rfl⟩
    | ok a =>
      simp only [Bind.bind, Except.bind, dirichletGraph, s2]
      by_cases hn : a.n = (F i).points.length
      · have hmaskeq : ∀ p < a.n, (fun p => decide (d ≤ c p)) p = maskAt F omap d i p := by
          intro p hp; exact hmask p (by omega)
        rw [if_neg (by simp [hn]), freeMat_congr hmaskeq]
        have hilu : ¬ env.lin.ilu (freeMat a (maskAt F omap d i)) = true := by
          intro hilu
          exact hno fun _ => ⟨a, hl, hn, hilu⟩
        rw [if_pos hilu]
        exact ⟨_, rfl⟩
      · rw [if_pos hn]
        exact ⟨_, rfl⟩

/-! ### All tiles -/

/-- Inside the loop at degree `d`, after the tiles in `D`. -/
structure RoundInv (env : MergeEnv K) (n : Nat) (F : Nat → TileFile K) (omap : List (List Nat))
    (bands : List Nat) (C : Nat → Nat → Nat → K) (d : Nat) (D : List Nat) (ts : List (TileState K)) : Prop where
  len : ts.length = n
  done : ∀ j < n, j ∈ D → touched F omap d j = true → ∃ t e, ts[j]? = some t ∧
    Pending (F j) bands t (fun k p => C k j p) e ∧ ∀ k p, k < bands.length → p < (F j).points.length →
      e.val k p = tileCorr env F omap d (bands.getD k 0) (C k) j p
  rest : ∀ j < n, ¬ (j ∈ D ∧ touched F omap d j = true) → ∃ t, ts[j]? = some t ∧
    Settled (F j) bands t (fun k p => C k j p)

omit [FloorRing K] in
theorem RoundInv.answers {env : MergeEnv K} {n : Nat} {F : Nat → TileFile K} {omap : List (List Nat)}
    {bands : List Nat} {C : Nat → Nat → Nat → K} {d : Nat} {D : List Nat} {ts : List (TileState K)}
    (h : RoundInv env n F omap bands C d D ts) : Answers n F bands C ts := by
  intro j hj
  by_cases hc : j ∈ D ∧ touched F omap d j = true
  · obtain ⟨t, e, h1, h2, _⟩ := h.done j hj hc.1 hc.2
    obtain ⟨u, u1, u2, u3, u4⟩ := h2.uwPhase
    exact ⟨t, u, h1, u1, u2, u3, u4⟩
  · obtain ⟨t, h1, h2⟩ := h.rest j hj hc
    obtain ⟨u, u1, u2, u3, u4⟩ := h2.uwPhase
    exact ⟨t, u, h1, u1, u2, u3, u4⟩

/-- All tiles are between two rounds, with corrections `C`. -/
def AllSettled (n : Nat) (F : Nat → TileFile K) (bands : List Nat) (C : Nat → Nat → Nat → K)
    (ts : List (TileState K)) : Prop :=
  ts.length = n ∧ ∀ j < n, ∃ t, ts[j]? = some t ∧ Settled (F j) bands t (fun k p => C k j p)

/-- The loop over the tiles, in any order. -/
theorem correctOrder_eq {n : Nat} {F : Nat → TileFile K} {env : MergeEnv K} {omap : List (List Nat)}
    (hm : MapOk n F env.overlap omap) {bands : List Nat} {C : Nat → Nat → Nat → K} {ts : List (TileState K)}
    (hs : AllSettled n F bands C ts) (d : Nat) (ord : List Nat) (hord : ∀ i ∈ ord, i < n) (hnd : ord.Nodup) :
    ((∀ i ∈ ord, roundOk env F omap d i) → ∃ ts', ord.foldlM (correctStep env omap d) ts = .ok ts' ∧
      RoundInv env n F omap bands C d ord ts') ∧
    (¬ (∀ i ∈ ord, roundOk env F omap d i) → ∃ e, ord.foldlM (correctStep env omap d) ts = .error e) := by
  induction ord using List.reverseRecOn with
  | nil =>
    refine ⟨fun _ => ⟨ts, rfl, hs.1, fun j _ hj => absurd hj (by simp), fun j hj _ => hs.2 j hj⟩,
      fun h => absurd (by simp) h⟩
  | append_singleton ord m ih =>
    have hm1 : m ∉ ord := fun hc => (List.nodup_append.mp hnd).2.2 m hc m (by simp) rfl
    obtain ⟨ih1, ih2⟩ := ih (fun i hi => hord i (by simp [hi])) (List.nodup_append.mp hnd).1
    have hmn : m < n := hord m (by simp)
    rw [List.foldlM_append]
    by_cases hall : ∀ i ∈ ord, roundOk env F omap d i
    · obtain ⟨ts1, h1, hinv⟩ := ih1 hall
      rw [h1]
      obtain ⟨t, ht, hst⟩ := hinv.rest m hmn (fun hc => hm1 hc.1)
      have homap : omap[m]? = some (omap.getD m []) := by
        rw [List.getD_eq_getElem _ _ (show m < omap.length by rw [hm.len]; omega)]
        exact List.getElem?_eq_getElem _
      obtain ⟨c1, c2, c3⟩ := tileCorrection_eq hm hinv.answers hmn hst d
      simp only [Bind.bind, Except.bind, List.foldlM_cons, List.foldlM_nil, correctStep, ht, homap, Option.elim_some]
      by_cases htch : touched F omap d m = true
      · by_cases hok : roundOk env F omap d m
        · refine ⟨fun _ => ?_, fun h => absurd (fun i hi => ?_) h⟩
          · obtain ⟨e, he, e1, e2, e3⟩ := c2 htch hok
            obtain ⟨t', ht', hp⟩ := hst.add e e1 e2
            rw [he]
            simp only [ht']
            refine ⟨_, rfl, by simp [hinv.len], fun j hj hjm hjt => ?_, fun j hj hjm => ?_⟩
            · by_cases hjm' : j = m
              · subst hjm'
                refine ⟨t', e, ?_, hp, e3⟩
                rw [List.getElem?_set_self (by rw [hinv.len]; exact hj)]
              · obtain ⟨s, e', g1, g2⟩ := hinv.done j hj (by simpa [hjm'] using hjm) hjt
                exact ⟨s, e', by rw [List.getElem?_set_ne (by omega)]; exact g1, g2⟩
            · have hjm' : j ≠ m := by rintro rfl; exact hjm ⟨by simp, htch⟩
              obtain ⟨s, g1, g2⟩ := hinv.rest j hj (fun hc => hjm ⟨by simp [hc.1], hc.2⟩)
              exact ⟨s, by rw [List.getElem?_set_ne (by omega)]; exact g1, g2⟩
          · rcases List.mem_append.mp hi with hi | hi
            · exact hall i hi
            · rw [List.mem_singleton] at hi; subst hi; exact hok
        · refine ⟨fun h => absurd (h m (by simp)) hok, fun _ => ?_⟩
          obtain ⟨e, he⟩ := c3 htch hok
          rw [he]
          exact ⟨e, rfl⟩
      · have hok : roundOk env F omap d m := fun h => absurd h htch
        refine ⟨fun _ => ?_, fun h => absurd (fun i hi => ?_) h⟩
        · rw [c1 (by simpa using htch)]
          refine ⟨ts1, rfl, hinv.len, fun j hj hjm hjt => ?_, fun j hj hjm => ?_⟩
          · have hjm' : j ≠ m := by rintro rfl; exact htch hjt
            exact hinv.done j hj (by simpa [hjm'] using hjm) hjt
          · exact hinv.rest j hj (fun hc => hjm ⟨by simp [hc.1], hc.2⟩)
        · rcases List.mem_append.mp hi with hi | hi
          · exact hall i hi
          · rw [List.mem_singleton] at hi; subst hi; exact hok
    · refine ⟨fun h => absurd (fun i hi => h i (by simp [hi])) hall, fun _ => ?_⟩
      obtain ⟨e, he⟩ := ih2 hall
      rw [he]
      exact ⟨e, rfl⟩

omit [LinearOrder K] [FloorRing K] in
theorem Settled.congr {f : TileFile K} {idx : List Nat} {t : TileState K} {c c' : Nat → Nat → K}
    (h : Settled f idx t c) (he : ∀ k p, k < idx.length → p < f.points.length → c k p = c' k p) :
    Settled f idx t c' := by
  obtain ⟨a, h1, h2, h3⟩ := h.corr
  exact ⟨h.file, h.bands, h.width, h.data, h.level, a, h1, h2, fun k p hk hp => by rw [h3 k p hk hp, he k p hk hp]⟩

theorem mapM_exists {α β ε : Type} (f : α → Except ε β) (l : List α) (h : ∀ a ∈ l, ∃ b, f a = .ok b) :
    ∃ l', l.mapM f = .ok l' ∧ l'.length = l.length ∧
      ∀ (j : Nat) a, l[j]? = some a → ∃ b, l'[j]? = some b ∧ f a = .ok b := by
  induction l with
  | nil => exact ⟨[], rfl, rfl, by simp⟩
  | cons a l ih =>
    obtain ⟨b, hb⟩ := h a List.mem_cons_self
    obtain ⟨l', h1, h2, h3⟩ := ih fun x hx => h x (List.mem_cons_of_mem _ hx)
    refine ⟨b :: l', ?_, by simp [h2], ?_⟩
    · rw [List.mapM_cons, hb]
      simp only [Bind.bind, Except.bind, h1]
      rfl
    · intro j x hx
      cases j with
      | zero => simp at hx; subst hx; exact ⟨b, rfl, hb⟩
      | succ j => exact h3 j x (by simpa using hx)

/-- One degree of overlap, with the tiles in any order. -/
theorem roundOrder_eq {n : Nat} {F : Nat → TileFile K} {env : MergeEnv K} {omap : List (List Nat)}
    (hm : MapOk n F env.overlap omap) {bands : List Nat} {C : Nat → Nat → Nat → K} {ts : List (TileState K)}
    (hs : AllSettled n F bands C ts) (d : Nat) (ord : List Nat) (hord : ord.Perm (List.range n)) :
    ((∀ i < n, roundOk env F omap d i) →
      ∃ ts1 ts', ord.foldlM (correctStep env omap d) ts = .ok ts1 ∧
        ts1.mapM (fun t => t.call .compressCorrections) = .ok ts' ∧
        AllSettled n F bands (fun k => bandRound env F omap (bands.getD k 0) (C k) d) ts') ∧
    (¬ (∀ i < n, roundOk env F omap d i) →
      ∃ e, ord.foldlM (correctStep env omap d) ts = .error e) := by
  have hmem : ∀ i, i ∈ ord ↔ i < n := fun i => by rw [hord.mem_iff, List.mem_range]
  obtain ⟨h1, h2⟩ := correctOrder_eq hm hs d ord (fun i hi => (hmem i).mp hi)
    (hord.nodup_iff.mpr List.nodup_range)
  have hiff : (∀ i ∈ ord, roundOk env F omap d i) ↔ ∀ i < n, roundOk env F omap d i :=
    ⟨fun h i hi => h i ((hmem i).mpr hi), fun h i hi => h i ((hmem i).mp hi)⟩
  rw [hiff] at h1 h2
  refine ⟨fun hok => ?_, h2⟩
  obtain ⟨ts1, e1, hinv⟩ := h1 hok
  have hstep : ∀ j < n, ∃ t t', ts1[j]? = some t ∧ t.call .compressCorrections = .ok t' ∧
      Settled (F j) bands t' (fun k p => bandRound env F omap (bands.getD k 0) (C k) d j p) := by
    intro j hj
    by_cases htch : touched F omap d j = true
    · obtain ⟨t, e, g1, g2, g3⟩ := hinv.done j hj ((hmem j).mpr hj) htch
      obtain ⟨t', g4, g5⟩ := g2.compress
      refine ⟨t, t', g1, g4, g5.congr fun k p hk hp => ?_⟩
      unfold bandRound
      rw [if_pos htch, g3 k p hk hp]
    · obtain ⟨t, g1, g2⟩ := hinv.rest j hj (fun hc => htch hc.2)
      refine ⟨t, t, g1, g2.compress, g2.congr fun k p hk hp => ?_⟩
      unfold bandRound
      rw [if_neg htch]
  obtain ⟨ts', m1, m2, m3⟩ := mapM_exists (fun t : TileState K => t.call .compressCorrections) ts1 (by
    intro t ht
    obtain ⟨j, hj, rfl⟩ := List.mem_iff_getElem.mp ht
    obtain ⟨t, t', g1, g2, _⟩ := hstep j (by rw [← hinv.len]; exact hj)
    rw [List.getElem?_eq_getElem hj, Option.some.injEq] at g1
    exact ⟨t', by rw [g1]; exact g2⟩)
  refine ⟨ts1, ts', e1, m1, by rw [m2, hinv.len], fun j hj => ?_⟩
  obtain ⟨t, t', g1, g2, g3⟩ := hstep j hj
  obtain ⟨t'', q1, q2⟩ := m3 j t g1
  rw [g2, Except.ok.injEq] at q2
  exact ⟨t'', q1, q2 ▸ g3⟩

/-- One degree of overlap. -/
theorem round_eq {n : Nat} {F : Nat → TileFile K} {env : MergeEnv K} {omap : List (List Nat)}
    (hm : MapOk n F env.overlap omap) {bands : List Nat} {C : Nat → Nat → Nat → K} {ts : List (TileState K)}
    (hs : AllSettled n F bands C ts) (d : Nat) :
    ((∀ i < n, roundOk env F omap d i) →
      ∃ ts', adjustRound env omap ts d = .ok ts' ∧
        AllSettled n F bands (fun k => bandRound env F omap (bands.getD k 0) (C k) d) ts') ∧
    (¬ (∀ i < n, roundOk env F omap d i) → ∃ e, adjustRound env omap ts d = .error e) := by
  obtain ⟨h1, h2⟩ := roundOrder_eq hm hs d (List.range n) (List.Perm.refl _)
  unfold adjustRound correctTiles
  rw [hs.1]
  constructor
  · intro hok
    obtain ⟨ts1, ts', e1, e2, e3⟩ := h1 hok
    rw [e1]
    exact ⟨ts', e2, e3⟩
  · intro hno
    obtain ⟨e, he⟩ := h2 hno
    rw [he]
    exact ⟨e, rfl⟩

/-- The corrections after all rounds, in band `b`. -/
def bandAdjust (env : MergeEnv K) (F : Nat → TileFile K) (omap : List (List Nat)) (maxDegree b : Nat)
    (c : Nat → Nat → K) : Nat → Nat → K :=
  (degrees maxDegree).foldl (fun c d => bandRound env F omap b c d) c

/-- All corrections can be computed. -/
def adjustOk (env : MergeEnv K) (n : Nat) (F : Nat → TileFile K) (omap : List (List Nat)) (maxDegree : Nat) : Prop :=
  ∀ d ∈ degrees maxDegree, ∀ i < n, roundOk env F omap d i

/-- `_adjust_tiles`, band by band. -/
theorem adjustTiles_eq {n : Nat} {F : Nat → TileFile K} {env : MergeEnv K} {omap : List (List Nat)}
    (hm : MapOk n F env.overlap omap) {bands : List Nat} {C : Nat → Nat → Nat → K} {ts : List (TileState K)}
    (hs : AllSettled n F bands C ts) (maxDegree : Nat) :
    (adjustOk env n F omap maxDegree → ∃ ts', adjustTiles env omap maxDegree ts = .ok ts' ∧
      AllSettled n F bands (fun k => bandAdjust env F omap maxDegree (bands.getD k 0) (C k)) ts') ∧
    (¬ adjustOk env n F omap maxDegree → ∃ e, adjustTiles env omap maxDegree ts = .error e) := by
  unfold adjustOk bandAdjust adjustTiles
  generalize degrees maxDegree = ds
  induction ds generalizing C ts with
  | nil => exact ⟨fun _ => ⟨ts, rfl, hs⟩, fun h => absurd (by simp) h⟩
  | cons d ds ih =>
    obtain ⟨r1, r2⟩ := round_eq hm hs d
    rw [List.foldlM_cons]
    by_cases hd : ∀ i < n, roundOk env F omap d i
    · obtain ⟨ts1, e1, hs1⟩ := r1 hd
      obtain ⟨i1, i2⟩ := ih hs1
      rw [e1]
      constructor
      · intro h
        obtain ⟨ts', g1, g2⟩ := i1 fun d' hd' => h d' (List.mem_cons_of_mem _ hd')
        exact ⟨ts', g1, g2⟩
      · intro h
        exact i2 fun hc => h fun d' hd' => by
          rcases List.mem_cons.mp hd' with rfl | hd'
          · exact hd
          · exact hc d' hd'
    · obtain ⟨e, he⟩ := r2 hd
      rw [he]
      exact ⟨fun h => absurd (h d List.mem_cons_self) hd, fun _ => ⟨e, rfl⟩⟩

end

end Spurt
