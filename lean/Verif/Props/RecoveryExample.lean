import Verif.Props.Recovery
import Verif.Lemmas.Labels
import Verif.Props.EndToEndExample
import Mathlib.Tactic.IntervalCases
import Mathlib.Tactic.FinCases

/-!
# A run that meets the hypotheses of C60, C62 and C63

A 6 × 7 image whose last column is not coherent, three acquisitions, four tiles.
-/

namespace Spurt
open Spec

/-! ### A triangulation for any number of points -/

/-- All triangles `(0, i, i+1)`. -/
def fan (n : Nat) : List Tri := (List.range (n - 2)).map fun i => (0, i + 1, i + 2)

theorem mem_fan_links {n : Nat} {x : Nat × Nat} : x ∈ linksOfTriangles (fan n) ↔
    ∃ i < n - 2, x = (0, i + 1) ∨ x = (0, i + 2) ∨ x = (i + 1, i + 2) := by
  rw [mem_linksOfTriangles]
  simp [fan, orderPoints]

theorem mem_fan_walked {n : Nat} {x : Nat × Nat} : x ∈ walked ((fan n).map triRow) ↔
    ∃ i < n - 2, x = (0, i + 1) ∨ x = (i + 1, i + 2) ∨ x = (i + 2, 0) := by
  simp [walked, fan, triRow, sides]

theorem fan_contract (n : Nat) : PlanarContract n (delaunayGraph n (fan n)).links (delaunayGraph n (fan n)).cycles where
  ordered := by
    intro a b h
    obtain ⟨i, hi, h⟩ := mem_fan_links.mp h
    simp only [Prod.mk.injEq] at h
    omega
  distinct := nodup_of_lexSorted (linksOfTriangles_sorted _)
  side_is_link := by
    intro a b h
    obtain ⟨i, hi, h⟩ := mem_fan_walked.mp h
    simp only [Prod.mk.injEq] at h
    rcases h with ⟨rfl, rfl⟩ | ⟨rfl, rfl⟩ | ⟨rfl, rfl⟩
    · exact .inl (mem_fan_links.mpr ⟨i, hi, .inl rfl⟩)
    · exact .inl (mem_fan_links.mpr ⟨i, hi, .inr (.inr rfl)⟩)
    · exact .inr (mem_fan_links.mpr ⟨i, hi, .inr (.inl rfl)⟩)
  once_per_direction := by
    show (walked ((fan n).map triRow)).Nodup
    unfold walked
    rw [List.nodup_flatMap]
    constructor
    · intro c hc
      simp only [fan, List.map_map, List.mem_map] at hc
      obtain ⟨i, _, rfl⟩ := hc
      simp [triRow, sides]
    · rw [List.pairwise_map, fan, List.pairwise_map]
      refine (List.nodup_range (n := n - 2)).imp ?_
      intro i j hij x hx hy
      simp [triRow, sides] at hx hy
      obtain ⟨x1, x2⟩ := x
      simp only [Prod.mk.injEq] at hx hy
      omega
  link_walked := by
    intro a b h
    obtain ⟨i, hi, h⟩ := mem_fan_links.mp h
    simp only [Prod.mk.injEq] at h
    rcases h with ⟨rfl, rfl⟩ | ⟨rfl, rfl⟩ | ⟨rfl, rfl⟩
    · exact .inl (mem_fan_walked.mpr ⟨i, hi, .inl rfl⟩)
    · exact .inr (mem_fan_walked.mpr ⟨i, hi, .inr (.inr rfl)⟩)
    · exact .inl (mem_fan_walked.mpr ⟨i, hi, .inr (.inl rfl)⟩)
  uniform := by
    intro c hc c' hc'
    simp only [delaunayGraph, List.mem_map] at hc hc'
    obtain ⟨t, _, rfl⟩ := hc
    obtain ⟨t', _, rfl⟩ := hc'
    rfl

theorem fan_adjacent {n p : Nat} (h : 3 ≤ n) (hp : p < n) (h0 : 0 < p) : (0, p) ∈ (delaunayGraph n (fan n)).links := by
  refine mem_fan_links.mpr ?_
  by_cases h1 : p = n - 1
  · exact ⟨n - 3, by omega, .inr (.inl (by congr 1; omega))⟩
  · exact ⟨p - 1, by omega, .inl (by congr 1; omega)⟩

theorem fan_connected {n : Nat} (h : 3 ≤ n) : Connected n (delaunayGraph n (fan n)).links := by
  intro p hp
  rcases Nat.eq_zero_or_pos p with rfl | h0
  · exact .refl
  · exact .single (.inl (fan_adjacent h hp h0))

/-! ### The tiles -/

namespace Whole

/-- A choice of cuts that splits the image into 2 × 2 parts. -/
def scoring : Scoring ℚ Nat := ⟨fun _ _ m => m, max, fun l => l.length / 2, fun a _ => decide (a = 2)⟩

/-- `splitRectangle` with a sort that the kernel can run. -/
def split {F : Type} (sc : Scoring ℚ F) :
    Nat → List (ℚ × ℚ) → (ℚ × ℚ) × (ℚ × ℚ) → Nat → Except PyErr (List ((ℚ × ℚ) × (ℚ × ℚ)))
  | 0, _, _, _ => .error .nonTermination
  | fuel + 1, points, bounds, m =>
    if m = 1 then .ok [bounds]
    else if points = [] then .error .valueError
    else do
      let xs := points.map Prod.fst
      let ys := points.map Prod.snd
      let (cutsX, lensX) ← getSplits (xs.insertionSort (· ≤ ·)) m bounds.1
      let (cutsY, lensY) ← getSplits (ys.insertionSort (· ≤ ·)) m bounds.2
      let (xi, xsc) ← findBestSplit sc lensX lensY m
      let (yi, ysc) ← findBestSplit sc lensY lensX m
      if sc.le xsc ysc then
        let cut := cutsX.getD xi 0
        let l ← split sc fuel (points.filter fun p => p.1 ≤ cut)
          ((bounds.1.1, cut), bounds.2) xi
        let r ← split sc fuel (points.filter fun p => ¬ p.1 ≤ cut)
          ((cut, bounds.1.2), bounds.2) (m - xi)
        pure (l ++ r)
      else
        let cut := cutsY.getD yi 0
        let l ← split sc fuel (points.filter fun p => p.2 ≤ cut)
          (bounds.1, (bounds.2.1, cut)) yi
        let r ← split sc fuel (points.filter fun p => ¬ p.2 ≤ cut)
          (bounds.1, (cut, bounds.2.2)) (m - yi)
        pure (l ++ r)

theorem split_eq {F : Type} (sc : Scoring ℚ F) (fuel : Nat) : ∀ points bounds m,
    splitRectangle sc fuel points bounds m = split sc fuel points bounds m := by
  induction fuel with
  | zero => intros; rfl
  | succ n ih =>
    intro points bounds m
    unfold splitRectangle split
    simp only [List.mergeSort_eq_insertionSort, ih]

/-- The coherent pixels of the image. -/
def arr : List (List Bool) := List.replicate 6 (List.replicate 6 true ++ [false])

/-- The four tiles. -/
def T : TileSet := ⟨(6, 7), [⟨0, 0, 4, 4⟩, ⟨0, 0, 4, 7⟩, ⟨0, 0, 6, 4⟩, ⟨0, 0, 6, 7⟩]⟩

theorem splits : split scoring 4 ((nonzero arr).map fun p => ((p.1 : ℚ), (p.2 : ℚ))) ((0, 6), (0, 7)) 4 =
    .ok [((0, 5/2), (0, 5/2)), ((0, 5/2), (5/2, 7)), ((5/2, 6), (0, 5/2)), ((5/2, 6), (5/2, 7))] := by
  decide +kernel

/-- Settings that ask for four tiles dilated by their own size. -/
def tiler : TilerSettings := ⟨9, 4, 120000, 1⟩

theorem density : createTilesDensity scoring (nonzero arr) (6, 7) 4 =
    .ok ⟨(6, 7), [⟨0, 0, 2, 2⟩, ⟨0, 2, 2, 7⟩, ⟨2, 0, 6, 2⟩, ⟨2, 2, 6, 7⟩]⟩ := by
  unfold createTilesDensity
  have h4 : Nat.sqrt (Int.toNat 4) = 2 := Nat.eq_sqrt.mpr ⟨by decide, by decide⟩ |>.symm
  simp only [h4, split_eq]
  rw [if_neg (by norm_num), if_neg (by norm_num), if_neg (by norm_num)]
  have := splits
  norm_num at this ⊢
  rw [this]
  decide +kernel

theorem tiles_dilated (f : ℚ) (hf : 0 < f) : makeTiles scoring id true ⟨9, 4, 120000, f⟩ 7 arr =
    .ok (TileSet.dilate id ⟨(6, 7), [⟨0, 0, 2, 2⟩, ⟨0, 2, 2, 7⟩, ⟨2, 0, 6, 2⟩, ⟨2, 2, 6, 7⟩]⟩ f) ∧
    makeTiles scoring id true ⟨9, 4, 120000, 0⟩ 7 arr =
    .ok ⟨(6, 7), [⟨0, 0, 2, 2⟩, ⟨0, 2, 2, 7⟩, ⟨2, 0, 6, 2⟩, ⟨2, 2, 6, 7⟩]⟩ := by
  have htt : ∀ f, targetTiles 36 ⟨9, 4, 120000, f⟩ = 4 := by
    intro f
    unfold targetTiles
    have h9 : Real.sqrt (((36 : ℕ) : ℝ) / (((9 : ℤ)) : ℝ)) = ((2 : ℤ) : ℝ) := by
      rw [show ((36 : ℕ) : ℝ) / (((9 : ℤ)) : ℝ) = 2 ^ 2 by norm_num, Real.sqrt_sq (by norm_num)]
      norm_num
    simp only [h9, rint_intCast]
    rfl
  have hlen : (nonzero arr).length = 36 := by decide +kernel
  have hev : everyNth (max 1 (36 / (120000 : ℤ).toNat)) (nonzero arr) = nonzero arr := by decide +kernel
  simp only [makeTiles, not_true_eq_false, if_false, Bind.bind, Except.bind, hlen, hev, htt]
  rw [show (((arr.length : ℕ) : ℤ), ((7 : ℕ) : ℤ)) = ((6, 7) : ℤ × ℤ) by rfl, density]
  simp only
  rw [if_pos (by simpa using hf), if_neg (by simp)]
  exact ⟨rfl, rfl⟩

theorem tiles : makeTiles scoring id true tiler 7 arr = .ok T := by
  rw [show tiler = ⟨9, 4, 120000, 1⟩ from rfl, (tiles_dilated 1 one_pos).1]
  decide +kernel

/-! ### The stack -/

/-- True phases of the three acquisitions, in cycles. -/
def phi (s : Nat) (p : ℤ × ℤ) : ℚ :=
  if s = 1 then 3 / 7 + (p.1 + p.2) / 60 else if s = 2 then 2 - p.1 / 20 else 0

/-- The stack: the phases of acquisition 1 and 2 are wrapped. -/
def job : TileJob ℚ where
  coh := ⟨6, 7, fun _ c => if c = 6 then none else some 1⟩
  thr := 1 / 2
  dates := ["20200101", "20200113", "20200125"]
  phase := fun d => if d = "20200101" then none else if d = "20200113" then
    some ⟨6, 7, fun r c => if 4 < r + c then 3 / 7 + ((r : ℚ) + c) / 60 - 1 else 3 / 7 + ((r : ℚ) + c) / 60⟩ else
    some ⟨6, 7, fun r _ => - (r : ℚ) / 20⟩
  time := ⟨3, [(0, 1), (0, 2), (1, 2)], [[0, 1, 2]]⟩
  settings := {}
  cpuCount := 4
  simplices := fun pts => fan pts.length
  tDist := .ok []
  tCent := .ok []
  sDist := fun _ => .ok []
  sCent := fun _ => .ok []

theorem job_good : GoodJob job where
  contract := triangle_contract
  dates := rfl
  batch := by decide
  images := by
    intro d im h
    unfold job at h ⊢
    simp only at h
    split at h
    · simp at h
    · split at h <;> (simp only [Option.some.injEq] at h; subst h; simp)
  triangles := by
    intro pts t ht
    simp only [job, fan, List.mem_map] at ht
    obtain ⟨i, _, rfl⟩ := ht
    simp

theorem valid_iff (r c : ℤ) : ValidPixel job r c ↔ c.toNat ≠ 6 := by
  unfold ValidPixel job
  simp only
  split <;> rename_i h
  · simp [h]
  · simp [h]; norm_num

theorem job_pixels : ∀ b ∈ T.tiles, 3 ≤ (tilePoints job.coh job.thr b).length ∧
    ∀ p ∈ tilePixels job b, 0 ≤ p.1 ∧ p.1 ≤ 5 ∧ 0 ≤ p.2 ∧ p.2 ≤ 5 := by decide +kernel

theorem job_ready : ∀ b ∈ T.tiles, TileReady job b := by
  intro b hb
  have h3 := (job_pixels b hb).1
  refine ⟨fan_contract _, ?_, fan_connected h3, ⟨_, rfl⟩, ⟨_, rfl⟩, .inr (by decide), by decide⟩
  exact List.ne_nil_of_mem (fan_adjacent h3 (p := 1) (by omega) (by omega))

theorem job_phase : TruePhase 1 job phi := by
  intro s hs r c hp hv
  obtain ⟨h1, h2, h3, h4⟩ := hp
  simp only [job] at hs h2 h4
  lift r to ℕ using h1
  lift c to ℕ using h3
  have hs : s < 3 := hs
  interval_cases s
  · exact ⟨0, by simp [epochPhase, job, phi]⟩
  · refine ⟨if 4 < r + c then 1 else 0, ?_⟩
    simp only [epochPhase, job, phi]
    simp
    split <;> simp
  · refine ⟨2, ?_⟩
    simp [epochPhase, job, phi]
    ring

theorem job_smooth : ∀ b ∈ T.tiles, SmoothOnTile 1 job b phi := by
  intro b hb s u hsu m n _ p q hp hq
  obtain ⟨a1, a2, a3, a4⟩ := (job_pixels b hb).2 p (List.mem_of_getElem? hp)
  obtain ⟨b1, b2, b3, b4⟩ := (job_pixels b hb).2 q (List.mem_of_getElem? hq)
  have c1 : (0 : ℚ) ≤ p.1 := by exact_mod_cast a1
  have c2 : (p.1 : ℚ) ≤ 5 := by exact_mod_cast a2
  have c3 : (0 : ℚ) ≤ p.2 := by exact_mod_cast a3
  have c4 : (p.2 : ℚ) ≤ 5 := by exact_mod_cast a4
  have d1 : (0 : ℚ) ≤ q.1 := by exact_mod_cast b1
  have d2 : (q.1 : ℚ) ≤ 5 := by exact_mod_cast b2
  have d3 : (0 : ℚ) ≤ q.2 := by exact_mod_cast b3
  have d4 : (q.2 : ℚ) ≤ 5 := by exact_mod_cast b4
  simp only [job, List.mem_cons, Prod.mk.injEq, List.not_mem_nil, or_false] at hsu
  rw [abs_lt]
  rcases hsu with ⟨rfl, rfl⟩ | ⟨rfl, rfl⟩ | ⟨rfl, rfl⟩ <;> simp [phi] <;> constructor <;> linarith

theorem job_range : ∀ s u, (s, u) ∈ job.time.links → ∀ p : ℤ × ℤ, PixelOf (job.coh.rows, job.coh.cols) p.1 p.2 →
    ValidPixel job p.1 p.2 → |phi u p - phi s p| ≤ 16383 * (1 : ℚ) := by
  intro s u hsu p hp _
  obtain ⟨a1, a2, a3, a4⟩ := hp
  simp only [job] at a2 a4
  have c1 : (0 : ℚ) ≤ p.1 := by exact_mod_cast a1
  have c2 : (p.1 : ℚ) ≤ 6 := by exact_mod_cast (by omega : p.1 ≤ 6)
  have c3 : (0 : ℚ) ≤ p.2 := by exact_mod_cast a3
  have c4 : (p.2 : ℚ) ≤ 6 := by exact_mod_cast (by omega : p.2 ≤ 6)
  simp only [job, List.mem_cons, Prod.mk.injEq, List.not_mem_nil, or_false] at hsu
  rw [abs_le]
  rcases hsu with ⟨rfl, rfl⟩ | ⟨rfl, rfl⟩ | ⟨rfl, rfl⟩ <;> simp [phi] <;> constructor <;> linarith

/-- The workflow on the example with given solvers; the tiling and `min_overlap_points` are parameters. -/
noncomputable def flow (solver : FlowSolver) (mip : MipSolver) (tl : TilerSettings) (mp : ℤ) : Flow ℚ Nat where
  tau := 1
  sc := scoring
  fl := id
  useTiles := true
  tiler := tl
  job := job
  solver := solver
  cc := labelsOf
  mip := mip
  lstsq := fun _ _ => []
  merger := { minOverlapPoints := mp, bulkMethod := "integer" }
  lin := ⟨fun _ => true, fun _ b => b⟩
  simplices := fun pts => fan pts.length

theorem flow_good (solver : FlowSolver) (hs : SolverSound solver) (mip : MipSolver) (hm : MipOptimal mip)
    (tl : TilerSettings) (htl : tl.check = .ok ()) (mp : ℤ) : GoodFlow (flow solver mip tl mp) :=
  ⟨job_good, hs, htl, ⟨7, rounding_id 7, by simp [flow, job], by simp [flow, job]⟩, fun n es => labelsOf_length n es, hm⟩

theorem flow_mask (solver : FlowSolver) (mip : MipSolver) (tl : TilerSettings) (mp : ℤ) : (flow solver mip tl mp).mask = arr := by
  show (job.coh.window ⟨0, 0, 6, 7⟩).map (fun r => r.map (aboveThreshold job.thr)) = arr
  decide +kernel

theorem flow_shared (a b : Nat) (ha : a < 4) (hb : b < 4) : (sharedPixels job T a b).Nonempty ∧
    12 ≤ (sharedPixels job T a b).ncard := by
  have hsub : (↑(((Finset.range 4) ×ˢ (Finset.range 4)).image fun p : ℕ × ℕ => ((p.1 : ℤ), (p.2 : ℤ))) : Set (ℤ × ℤ)) ⊆
      sharedPixels job T a b := by
    intro p hp
    simp only [Finset.coe_image, Set.mem_image, Finset.mem_coe, Finset.mem_product, Finset.mem_range] at hp
    obtain ⟨⟨r, c⟩, ⟨hr, hc⟩, rfl⟩ := hp
    simp only at hr hc
    refine ⟨(valid_iff _ _).mpr (by simp; omega), ?_⟩
    interval_cases a <;> interval_cases b <;> refine ⟨_, _, rfl, rfl, ?_, ?_⟩ <;> simp only [InTile] <;> omega
  have hfin : (sharedPixels job T a b).Finite := by
    refine (((Finset.range 6) ×ˢ (Finset.range 7)).image fun p : ℕ × ℕ => ((p.1 : ℤ), (p.2 : ℤ))).finite_toSet.subset ?_
    rintro ⟨r, c⟩ ⟨_, ba, bb, h1, _, h3, _⟩
    have : 0 ≤ r ∧ r < 6 ∧ 0 ≤ c ∧ c < 7 := by
      have := List.mem_of_getElem? h1
      simp only [T, List.mem_cons, List.not_mem_nil, or_false] at this
      unfold InTile at h3
      rcases this with rfl | rfl | rfl | rfl <;> simp only at h3 <;> omega
    simp only [Finset.coe_image, Set.mem_image, Finset.mem_coe, Finset.mem_product, Finset.mem_range]
    exact ⟨(r.toNat, c.toNat), by simp only; omega, by ext <;> simp <;> omega⟩
  have hcard : (↑(((Finset.range 4) ×ˢ (Finset.range 4)).image fun p : ℕ × ℕ => ((p.1 : ℤ), (p.2 : ℤ))) : Set (ℤ × ℤ)).ncard = 16 := by
    rw [Set.ncard_coe_finset]
    decide +kernel
  have := Set.ncard_le_ncard hsub hfin
  refine ⟨⟨(0, 0), hsub ?_⟩, by omega⟩
  simp only [Finset.coe_image, Set.mem_image, Finset.mem_coe, Finset.mem_product, Finset.mem_range]
  exact ⟨(0, 0), by norm_num, rfl⟩

/-- Non-vacuity of C60, C62 and C63, and of C49, C50 and C61 for several tiles: four overlapping
tiles, a stack that is unaliased on each of them; the workflow completes and the result is the true one. -/
theorem example_recovers : ∃ (P : Flow ℚ Nat) (d1 : Disk ℚ), GoodFlow P ∧ P.job = job ∧ P.tau = 1 ∧
    makeTiles P.sc P.fl P.useTiles P.tiler P.job.coh.cols P.mask = .ok T ∧ Unaliased P T phi ∧ TilesJoined P T ∧
    RunByWrite P.stages Disk.empty .completed d1 ∧
    ∃ b, d1.unw 0 = some (some b) ∧ b.rows = 6 ∧ b.cols = 7 ∧
      ∃ c : ℤ, ∀ r q : Nat, r < 6 → q < 7 →
        (q ≠ 6 → b.val r q = some (3 / 7 + ((r : ℚ) + q) / 60 + c)) ∧ (q = 6 → b.val r q = none) := by
  obtain ⟨solver, ⟨hs, _⟩, _⟩ := exists_solver
  obtain ⟨mip, hopt, hcomp⟩ := exists_mip_solver
  have hP := flow_good solver hs mip hopt tiler (by simp [TilerSettings.check, tiler]) 12
  set P := flow solver mip tiler 12 with hPd
  have hT : makeTiles P.sc P.fl P.useTiles P.tiler P.job.coh.cols P.mask = .ok T := by
    rw [hPd, flow_mask]; exact tiles
  have hU : Unaliased P T phi := ⟨job_ready, job_phase, job_smooth, job_range⟩
  have hJ : TilesJoined P T := fun t ht => .single
    ⟨(flow_shared 0 t (by omega) ht).1, by
      show (12 : ℤ) ≤ ((sharedPixels job T 0 t).ncard : ℤ)
      exact_mod_cast (flow_shared 0 t (by omega) ht).2⟩
  have hcc : ∀ edges : List (Nat × Nat), (∀ e ∈ edges, e.1 < T.tiles.length ∧ e.2 < T.tiles.length) →
      ComponentLabels T.tiles.length edges (P.cc T.tiles.length edges) := fun edges _ => labelsOf_labels _ edges
  have hls : P.merger.bulkMethod = "L2" → ∀ olaps off, off.length = olaps.length →
      (∀ row ∈ off, row.length = P.job.time.links.length) →
      LeastSquares (overlapMatrix olaps T.tiles.length) off (P.lstsq (overlapMatrix olaps T.tiles.length) off)
        T.tiles.length P.job.time.links.length := fun h => absurd h (by simp [hPd, flow])
  obtain ⟨d1, h⟩ := C63_completes P hP one_pos (by simp [hPd, flow, job]) (by simp [hPd, flow, job]) (by simp [hPd, flow, job])
    (by simp [hPd, flow, MergerSettings.check]) (by simp [hPd, flow]) T hT phi hU hJ hcc hcomp hls (fun _ => rfl) (by
      intro b hb
      have h3 := (job_pixels b hb).1
      have e : (tilePixels P.job b).length = (tilePoints job.coh job.thr b).length := by simp [tilePixels, hPd, flow]
      have e2 : P.simplices (tilePixels P.job b) = fan (tilePoints job.coh job.thr b).length := by rw [← e]; rfl
      refine ⟨?_, 0, ?_⟩
      · rw [e2, e]
        intro u v huv
        have := (fan_contract _).ordered u v huv
        omega
      · rw [e2, e]
        exact .inr (fan_adjacent h3 (by omega) (by omega)))
  obtain ⟨b, hb1, hb2, hb3, c, hc⟩ := C63_recovers P hP one_pos (by simp [hPd, flow, job]) T hT phi hU hJ hcc hls d1 h 0 0 1 rfl
  refine ⟨P, d1, hP, rfl, rfl, hT, hU, hJ, h, b, hb1, hb2, hb3, c, fun r q hr hq => ?_⟩
  obtain ⟨k1, k2⟩ := hc r q hr hq
  constructor
  · intro hq6
    rw [k1 ((valid_iff _ _).mpr (by simpa using hq6))]
    simp [phi, hPd, flow]
  · intro hq6
    exact k2 (fun hv => (valid_iff _ _).mp hv (by simpa using hq6))

/-- Non-vacuity of `C60_no_overlap_refuted` and `C60_no_dilation_refuted`: the same stack without dilation, with
the default `min_overlap_points`. -/
example : ∃ (P : Flow ℚ Nat) (T : TileSet), GoodFlow P ∧ P.tiler.dilationFactor = 0 ∧ P.merger.minOverlapPoints = 25 ∧
    makeTiles P.sc P.fl P.useTiles P.tiler P.job.coh.cols P.mask = .ok T ∧ T.tiles.length = 4 := by
  obtain ⟨solver, ⟨hs, _⟩, _⟩ := exists_solver
  obtain ⟨mip, hopt, hcomp⟩ := exists_mip_solver
  exact ⟨flow solver mip ⟨9, 4, 120000, 0⟩ 25, ⟨(6, 7), [⟨0, 0, 2, 2⟩, ⟨0, 2, 2, 7⟩, ⟨2, 0, 6, 2⟩, ⟨2, 2, 6, 7⟩]⟩,
    flow_good solver hs mip hopt ⟨9, 4, 120000, 0⟩ (by simp [TilerSettings.check]) 25, rfl, rfl,
    by rw [flow_mask]; exact (tiles_dilated 1 one_pos).2, rfl⟩

/-- Non-vacuity of `C60_few_points_refuted`: tiles dilated by half their size, `min_overlap_points = 5`. -/
example : ∃ (P : Flow ℚ Nat) (T : TileSet), GoodFlow P ∧
    makeTiles P.sc P.fl P.useTiles P.tiler P.job.coh.cols P.mask = .ok T ∧ T.tiles.length = 4 ∧
    (sharedPixels P.job T 0 1).Nonempty ∧ P.merger.minOverlapPoints ≤ (sharedPixels P.job T 0 1).ncard ∧
    (sharedPixels P.job T 0 1).ncard < 11 := by
  obtain ⟨solver, ⟨hs, _⟩, _⟩ := exists_solver
  obtain ⟨mip, hopt, hcomp⟩ := exists_mip_solver
  have hT := (tiles_dilated (1 / 2) (by norm_num)).1
  set T' : TileSet := TileSet.dilate id ⟨(6, 7), [⟨0, 0, 2, 2⟩, ⟨0, 2, 2, 7⟩, ⟨2, 0, 6, 2⟩, ⟨2, 2, 6, 7⟩]⟩ (1 / 2 : ℚ) with hTd
  have e0 : T'.tiles[0]? = some ⟨0, 0, 3, 3⟩ := by rw [hTd]; decide +kernel
  have e1 : T'.tiles[1]? = some ⟨0, 0, 3, 7⟩ := by rw [hTd]; decide +kernel
  have hset : sharedPixels job T' 0 1 =
      ↑(((Finset.range 3) ×ˢ (Finset.range 3)).image fun p : ℕ × ℕ => ((p.1 : ℤ), (p.2 : ℤ))) := by
    ext ⟨r, c⟩
    simp only [Finset.coe_image, Set.mem_image, Finset.mem_coe, Finset.mem_product, Finset.mem_range, Prod.exists, Prod.mk.injEq]
    constructor
    · rintro ⟨_, ba, bb, k1, _, k3, _⟩
      rw [e0, Option.some.injEq] at k1
      subst k1
      obtain ⟨h1, h2, h3, h4⟩ := k3
      simp only at h1 h2 h3 h4
      exact ⟨r.toNat, c.toNat, by omega, by omega, by omega⟩
    · rintro ⟨a, b, h, rfl, rfl⟩
      refine ⟨(valid_iff _ _).mpr (by simp; omega), _, _, e0, e1, ?_, ?_⟩ <;> simp only [InTile] <;> omega
  have hcard : (sharedPixels job T' 0 1).ncard = 9 := by
    rw [hset, Set.ncard_coe_finset]
    decide +kernel
  refine ⟨flow solver mip ⟨9, 4, 120000, 1 / 2⟩ 5, T', flow_good solver hs mip hopt ⟨9, 4, 120000, 1 / 2⟩
    (by simp [TilerSettings.check]) 5, by rw [flow_mask]; exact hT, rfl, ?_, ?_, ?_⟩
  · exact Set.nonempty_of_ncard_ne_zero (by show (sharedPixels job T' 0 1).ncard ≠ 0; rw [hcard]; norm_num)
  · show (5 : ℤ) ≤ ((sharedPixels job T' 0 1).ncard : ℤ)
    rw [hcard]; norm_num
  · show (sharedPixels job T' 0 1).ncard < 11
    rw [hcard]; norm_num

end Whole
end Spurt
