import Verif.Props.Cli
import Verif.Props.LeastSquares
import Verif.Props.RecoveryExample

/-!
# A command line that meets the hypotheses of C66
-/

namespace Spurt
open Spec

section
variable {K : Type} [Field K] [LinearOrder K] [IsStrictOrderedRing K]

theorem zipWith_mul_sum (row y : List K) : ∀ n, row.length = n → y.length = n →
    (List.zipWith (· * ·) row y).sum = ∑ j ∈ Finset.range n, row.getD j 0 * y.getD j 0 := by
  induction row generalizing y with
  | nil =>
    intro n h _
    have : n = 0 := h.symm
    subst this
    simp
  | cons a row ih =>
    intro n h1 h2
    cases y with
    | nil => simp at h1 h2; omega
    | cons b y =>
      obtain ⟨m, rfl⟩ : ∃ m, n = m + 1 := ⟨row.length, h1.symm⟩
      simp only [List.length_cons, Nat.add_right_cancel_iff] at h1 h2
      rw [Finset.sum_range_succ']
      simp [ih y m h1 h2, add_comm]

theorem lsError_sum (a : List (List K)) (b y : List K) (n : Nat) (ha : ∀ row ∈ a, row.length = n) (hb : b.length = a.length)
    (hy : y.length = n) : lsError a b y =
      ∑ i ∈ Finset.range a.length, rowMisfit ⟨a.length, n, fun i j => (a.getD i []).getD j 0⟩ (vec b) (vec y) i ^ 2 := by
  have h : ∀ (a : List (List K)) (b : List K), (∀ row ∈ a, row.length = n) → b.length = a.length → lsError a b y =
      ∑ i ∈ Finset.range a.length, (∑ j ∈ Finset.range n, (a.getD i []).getD j 0 * y.getD j 0 - b.getD i 0) ^ 2 := by
    intro a
    induction a with
    | nil => intro b _ _; simp [lsError]
    | cons row a ih =>
      intro b ha hb
      cases b with
      | nil => simp at hb
      | cons v b =>
        have := ih b (fun r hr => ha r (by simp [hr])) (by simpa using hb)
        unfold lsError at this ⊢
        rw [List.zipWith_cons_cons, List.sum_cons, this, List.length_cons, Finset.sum_range_succ', add_comm,
          zipWith_mul_sum row y n (ha row (by simp)) hy]
        simp only [List.getD_cons_succ, List.getD_cons_zero]
        ring
  exact h a b ha hb

theorem col_range (n m : Nat) (F : Nat → List K) (k : Nat) (hk : k < m) (h : (F k).length = n) :
    col ((List.range n).map fun t => (List.range m).map fun k => (F k).getD t 0) k = F k := by
  apply List.ext_getElem
  · simp [col, h]
  · intro t h1 h2
    simp [col, List.getD_eq_getElem?_getD, hk, h2]

/-- The contract of numpy's `lstsq` in C63 and C66 can be met. -/
theorem exists_bulk_lstsq (n m : Nat) : ∃ lstsq : Lstsq K, ∀ olaps off, off.length = olaps.length → (∀ row ∈ off, row.length = m) →
    LeastSquares (overlapMatrix olaps n) off (lstsq (overlapMatrix olaps n) off) n m := by
  obtain ⟨f, hf⟩ := exists_lstsq (K := K)
  refine ⟨fun a b => (List.range n).map fun t => (List.range m).map fun k =>
    (f ⟨a.length, n, fun i j => (a.getD i []).getD j 0⟩ (col b k)).getD t 0, fun olaps off h1 h2 => ⟨by simp, fun k hk y hy => ?_⟩⟩
  set a : List (List K) := overlapMatrix olaps n with ha
  have hrow : ∀ row ∈ a, row.length = n := by
    intro row hrow
    simp only [ha, overlapMatrix, List.mem_map] at hrow
    obtain ⟨p, _, rfl⟩ := hrow
    simp
  have hal : a.length = olaps.length := by simp [ha, overlapMatrix]
  obtain ⟨g1, g2⟩ := hf ⟨a.length, n, fun i j => (a.getD i []).getD j 0⟩ (col off k)
  have hcol := col_range n m (fun k => f ⟨a.length, n, fun i j => (a.getD i []).getD j 0⟩ (col off k)) k hk g1
  rw [hcol, lsError_sum a _ _ n hrow (by simp [col, h1, hal]) g1, lsError_sum a _ y n hrow (by simp [col, h1, hal]) hy]
  exact g2 (vec y)

end

namespace CliCall

/-- Conversions good enough for the example. -/
def conv : PyConv ℚ := ⟨fun _ => none, fun s => if s = "0.5" then some (1 / 2) else none⟩

/-- The words of the call. -/
def args : List String := ["-c", "0.5", "--singletile", "-i", "in"]

/-- The acquisitions. -/
def dates : List String := ["20200101", "20200113", "20200125", "20200206"]

/-- True phases, in cycles. -/
def phi (d : String) (r q : Nat) : ℚ :=
  if d = "20200113" then ((r : ℚ) + q) / 60 else if d = "20200125" then 2 - (r : ℚ) / 20 else if d = "20200206" then (q : ℚ) / 10 else 0

/-- The input: a 3 × 3 image with one incoherent pixel; the second image is wrapped. -/
def folder : CliFolder ℚ where
  names := ["20200101_20200125.int.tif", "temporal_coherence.tif", "20200101_20200206.int.tif", "20200101_20200113.int.tif"]
  coh := ⟨3, 3, fun r c => if r = 2 ∧ c = 2 then some (1 / 4) else some 1⟩
  image := fun n => if n = "20200101_20200113.int.tif" then ⟨3, 3, fun r q => ((r : ℚ) + q) / 60⟩ else
    if n = "20200101_20200125.int.tif" then ⟨3, 3, fun r _ => - (r : ℚ) / 20⟩ else ⟨3, 3, fun _ q => (q : ℚ) / 10⟩

/-- What the words mean. -/
def ns : Namespace ℚ :=
  Function.update (Function.update (Function.update cliDefault .coh (.num (1 / 2))) .singletile (.flag true)) .inputdir (.str "in")

theorem parsed : cliParse conv args = some ns := rfl

theorem ends : endingIn folder.names ".int.tif" =
    ["20200101_20200125.int.tif", "20200101_20200206.int.tif", "20200101_20200113.int.tif"] := by decide

theorem isDate (d : String) : d ∈ dates ↔ IsDate folder d := by
  unfold IsDate
  rw [ends]
  have e1 : secondDate "20200101_20200125.int.tif" = some "20200125" := by decide
  have e2 : secondDate "20200101_20200206.int.tif" = some "20200206" := by decide
  have e3 : secondDate "20200101_20200113.int.tif" = some "20200113" := by decide
  have e4 : dateOf "20200101_20200125.int.tif".toList = "20200101" := by decide
  have e5 : dateOf "20200101_20200206.int.tif".toList = "20200101" := by decide
  have e6 : dateOf "20200101_20200113.int.tif".toList = "20200101" := by decide
  constructor
  · intro h
    simp only [dates, List.mem_cons, List.not_mem_nil, or_false] at h
    rcases h with rfl | rfl | rfl | rfl
    · exact .inl ⟨"20200101_20200113.int.tif", by simp, by decide, e6.symm⟩
    · exact .inr ⟨_, by simp, e3⟩
    · exact .inr ⟨_, by simp, e1⟩
    · exact .inr ⟨_, by simp, e2⟩
  · rintro (⟨n, hn, _, rfl⟩ | ⟨n, hn, h⟩)
    · simp only [List.mem_cons, List.not_mem_nil, or_false] at hn
      rcases hn with rfl | rfl | rfl
      · rw [e4]; simp [dates]
      · rw [e5]; simp [dates]
      · rw [e6]; simp [dates]
    · simp only [List.mem_cons, List.not_mem_nil, or_false] at hn
      rcases hn with rfl | rfl | rfl
      · rw [e1, Option.some.injEq] at h; subst h; simp [dates]
      · rw [e2, Option.some.injEq] at h; subst h; simp [dates]
      · rw [e3, Option.some.injEq] at h; subst h; simp [dates]

theorem accepted (libs : CliLibs ℚ Nat) : ∃ P, cliFlow libs (fun _ => true) (fun _ => folder) ns = .ok P := by
  rw [C66_accepted]
  refine ⟨⟨by decide, by decide, "20200101_20200113.int.tif", by decide, by decide, by
      simp only [← Option.isSome_iff_exists]; decide, by decide⟩, rfl, rfl, ?_⟩
  decide

/-- The one tile. -/
def T : TileSet := singleTile (3, 3)

theorem points : tilePoints folder.coh (1 / 2) ⟨0, 0, 3, 3⟩ = [(0, 0), (0, 1), (0, 2), (1, 0), (1, 1), (1, 2), (2, 0), (2, 1)] := by
  decide +kernel

theorem phi_close (d : String) (r q r' q' : Nat) (h : r < 3) (h' : r' < 3) (k : q < 3) (k' : q' < 3) :
    |phi d r q - phi d r' q'| < 1 / 4 := by
  have a1 : (r : ℚ) ≤ 2 := by exact_mod_cast Nat.le_of_lt_succ h
  have a2 : (r' : ℚ) ≤ 2 := by exact_mod_cast Nat.le_of_lt_succ h'
  have a3 : (q : ℚ) ≤ 2 := by exact_mod_cast Nat.le_of_lt_succ k
  have a4 : (q' : ℚ) ≤ 2 := by exact_mod_cast Nat.le_of_lt_succ k'
  have b1 : (0 : ℚ) ≤ r := Nat.cast_nonneg r
  have b2 : (0 : ℚ) ≤ r' := Nat.cast_nonneg r'
  have b3 : (0 : ℚ) ≤ q := Nat.cast_nonneg q
  have b4 : (0 : ℚ) ≤ q' := Nat.cast_nonneg q'
  unfold phi
  rw [abs_lt]
  split_ifs <;> constructor <;> linarith

theorem phi_small (d : String) (r q : Nat) (h : r < 3) (k : q < 3) : |phi d r q| ≤ 3 := by
  have a1 : (r : ℚ) ≤ 2 := by exact_mod_cast Nat.le_of_lt_succ h
  have a3 : (q : ℚ) ≤ 2 := by exact_mod_cast Nat.le_of_lt_succ k
  have b1 : (0 : ℚ) ≤ r := Nat.cast_nonneg r
  have b3 : (0 : ℚ) ≤ q := Nat.cast_nonneg q
  unfold phi
  rw [abs_le]
  split_ifs <;> constructor <;> linarith

theorem recoverable (solver : FlowSolver) (mip : MipSolver) (lstsq : Lstsq ℚ) : Recoverable
    (⟨1, Whole.scoring, id, solver, labelsOf, mip, lstsq, ⟨fun _ => true, fun _ b => b⟩, fun pts => fan pts.length, 1⟩ : CliLibs ℚ Nat)
    folder (1 / 2) dates T phi where
  phase := by
    intro d hd ψ hψ r q _ _ _
    rcases hψ with ⟨n, hn, hnd, rfl⟩ | ⟨hno, rfl⟩
    · rw [ends] at hn
      simp only [List.mem_cons, List.not_mem_nil, or_false] at hn
      rcases hn with rfl | rfl | rfl
      · have e1 : secondDate "20200101_20200125.int.tif" = some "20200125" := by decide
        rw [e1, Option.some.injEq] at hnd
        subst hnd
        exact ⟨2, by simp [folder, phi]; ring⟩
      · have e1 : secondDate "20200101_20200206.int.tif" = some "20200206" := by decide
        rw [e1, Option.some.injEq] at hnd
        subst hnd
        exact ⟨0, by simp [folder, phi]⟩
      · have e1 : secondDate "20200101_20200113.int.tif" = some "20200113" := by decide
        rw [e1, Option.some.injEq] at hnd
        subst hnd
        exact ⟨0, by simp [folder, phi]⟩
    · rw [ends] at hno
      simp only [dates, List.mem_cons, List.not_mem_nil, or_false] at hd
      rcases hd with rfl | rfl | rfl | rfl
      · exact ⟨0, by simp [phi]⟩
      · exact absurd (by decide) (hno "20200101_20200113.int.tif" (by simp))
      · exact absurd (by decide) (hno "20200101_20200125.int.tif" (by simp))
      · exact absurd (by decide) (hno "20200101_20200206.int.tif" (by simp))
  smooth := by
    intro s u d1 d2 _ _ _ _ b hb m n _ p q hp hq
    have : b = ⟨0, 0, 3, 3⟩ := by simpa [T, singleTile] using hb
    subst this
    have hsmall : ∀ p ∈ tilePoints folder.coh (1 / 2) ⟨0, 0, 3, 3⟩, p.1 < 3 ∧ p.2 < 3 := by rw [points]; decide
    obtain ⟨p1, p2⟩ := hsmall p (List.mem_of_getElem? hp)
    obtain ⟨q1, q2⟩ := hsmall q (List.mem_of_getElem? hq)
    have c1 := phi_close d1 q.1 q.2 p.1 p.2 q1 p1 q2 p2
    have c2 := phi_close d2 q.1 q.2 p.1 p.2 q1 p1 q2 p2
    rw [abs_lt] at c1 c2 ⊢
    simp only [Int.toNat_zero, add_zero]
    constructor <;> linarith
  range := by
    intro s u d1 d2 _ _ _ _ r q hr hq _
    have c1 := phi_small d1 r q hr hq
    have c2 := phi_small d2 r q hr hq
    rw [abs_le] at c1 c2 ⊢
    constructor <;> linarith
  planar := by
    intro b hb
    have : b = ⟨0, 0, 3, 3⟩ := by simpa [T, singleTile] using hb
    subst this
    simp only [points, tileCoords, List.length_map]
    exact ⟨fan_contract _, List.ne_nil_of_mem (fan_adjacent (by decide) (p := 1) (by decide) (by decide)), fan_connected (by decide)⟩
  merge := by
    intro b hb
    have : b = ⟨0, 0, 3, 3⟩ := by simpa [T, singleTile] using hb
    subst this
    simp only [points, List.length_map]
    refine ⟨fun u v huv => ?_, 0, .inr (fan_adjacent (by decide) (by decide) (by decide))⟩
    have := (fan_contract _).ordered u v huv
    exact ⟨by omega, by omega⟩
  joined := by
    intro t ht
    have : t = 0 := by simpa [T, singleTile] using ht
    subst this
    exact .refl

/-- Non-vacuity of C66: the call completes, and the raster of two dates is their true phase difference. -/
theorem example_call : ∃ (libs : CliLibs ℚ Nat) (P : Flow ℚ Nat) (d' : Disk ℚ),
    GoodLibs libs folder ∧ cliFlow libs (fun _ => true) (fun _ => folder) ns = .ok P ∧
    CliRun conv libs (fun _ => true) (fun _ => folder) args Disk.empty (.ended .completed) d' ∧
    ∃ b, Written (cliGeneral ns) P d' "./emcf/20200113_20200125.unw.tif" b ∧ b.rows = 3 ∧ b.cols = 3 ∧
      ∃ c : ℤ, b.val 1 2 = some ((2 - 1 / 20 - 3 / 60 + c : ℚ)) := by
  obtain ⟨solver, ⟨hs, _⟩, _⟩ := exists_solver
  obtain ⟨mip, hopt, hcomp⟩ := exists_mip_solver
  obtain ⟨lstsq, hls⟩ := exists_bulk_lstsq (K := ℚ) 1 6
  obtain ⟨P, hP⟩ := accepted ⟨1, Whole.scoring, id, solver, labelsOf, mip, lstsq, ⟨fun _ => true, fun _ b => b⟩, fun pts => fan pts.length, 1⟩
  have hL : GoodLibs (⟨1, Whole.scoring, id, solver, labelsOf, mip, lstsq, ⟨fun _ => true, fun _ b => b⟩, fun pts => fan pts.length, 1⟩ : CliLibs ℚ Nat)
      folder := by
    refine ⟨one_pos, hs, ⟨3, rounding_id 3, by simp [folder], by simp [folder]⟩, fun n es => labelsOf_length n es, hopt, ?_, ?_,
      by simp [folder], by simp [folder]⟩
    · intro pts t ht
      simp only [fan, List.mem_map] at ht
      obtain ⟨i, _, rfl⟩ := ht
      simp
    · intro n _
      simp only [folder]
      split
      · simp
      · split <;> simp
  have hlinks : P.job.time.links.length = 6 := by
    obtain ⟨files, time, h1, _, _, _, _, _, h7, rfl⟩ := cliFlow_ok.mp hP
    have hl : files.length = 4 := by
      have e := cli_dates (F := folder) h1 (dates := dates) (by decide) isDate
      have := congrArg List.length e
      simpa [stackDates, dates] using this
    rw [hl, hop3Graph_eq 4 (by omega), Except.ok.injEq] at h7
    subst h7
    show (hop3Links 4).length = 6
    decide +kernel
  have hmask : P.mask.length = 3 := by
    rw [(mask_shape P).1]
    obtain ⟨_, _, _, _, _, e, _⟩ := C66_settings _ _ _ _ _ hP
    rw [e]
    rfl
  have hT : makeTiles Whole.scoring id (!ns.flagOf .singletile) (cliTiler ns) folder.coh.cols P.mask = .ok T := by
    have : ns.flagOf .singletile = true := rfl
    unfold makeTiles
    simp only [this, hmask]
    rfl
  obtain ⟨⟨d', hd'⟩, hres⟩ := C66_recovers conv _ _ (fun _ => folder) args ns parsed P hP hL (.inl (by decide)) dates (by decide) isDate T hT
    phi (recoverable solver mip lstsq) ⟨fun edges _ => labelsOf_labels _ edges, hcomp, by rw [hlinks]; exact hls, fun _ => rfl⟩
  obtain ⟨b, hb1, hb2, hb3, c, hc⟩ := hres d' hd' 1 2 "20200113" "20200125" (by omega) (by omega) rfl rfl
  refine ⟨_, P, d', hL, hP, hd', b, hb1, hb2, hb3, c, ?_⟩
  have hb2' : b.rows = 3 := hb2
  have hb3' : b.cols = 3 := hb3
  have hthr : ns.numOf .coh = 1 / 2 := rfl
  rw [hc 1 2 (by omega) (by omega) ⟨1, by simp [folder], by rw [hthr]; norm_num⟩]
  have e1 : phi "20200113" 1 2 = 3 / 60 := by simp [phi]; norm_num
  have e2 : phi "20200125" 1 2 = 2 - 1 / 20 := by simp [phi]
  rw [e1, e2]
  show some (2 - 1 / 20 - 3 / 60 + (c : ℚ) * 1) = _
  rw [mul_one]

/-- The options of the call. -/
def spelled : List (List String × CliKey × Option String) :=
  [(["-c", "0.5"], .coh, some "0.5"), (["--singletile"], .singletile, none), (["-i", "in"], .inputdir, some "in")]

theorem plain (w : String) (h : w.toList.head? ≠ some '-') : IsValue w := Or.inl fun hc => h ((begins_dash w).mp hc)

/-- Non-vacuity of `C66_options`: the words of the example are options with values of their type. -/
example : args = spelled.flatMap Prod.fst ∧ (∀ it ∈ spelled, Spelled it.1 it.2.1 it.2.2) ∧
    ∀ it ∈ spelled, ∃ x, given conv it.2.1 it.2.2 = some x := by
  refine ⟨rfl, ?_, ?_⟩
  · simp only [spelled, List.mem_cons, List.not_mem_nil, or_false, forall_eq_or_imp, forall_eq]
    exact ⟨.apart _ _ _ (.inl (by decide)) (plain _ (by decide)), .alone _ _ (.inl (by decide)),
      .apart _ _ _ (.inl (by decide)) (plain _ (by decide))⟩
  · simp only [spelled, List.mem_cons, List.not_mem_nil, or_false, forall_eq_or_imp, forall_eq]
    exact ⟨⟨.num (1 / 2), by simp [given, conv]⟩, ⟨.flag true, rfl⟩, ⟨.str "in", by simp [given]⟩⟩

/-- Non-vacuity of `Spelled`: a beginning of a name with an equals sign, a value that has one, an attached value and a value with a dash. -/
example : Spelled ["--temp=a=b"] .tempdir (some "a=b") ∧ Spelled ["-c0.5"] .coh (some "0.5") ∧ Spelled ["--si"] .singletile none ∧
    Spelled ["--log-file", "-1.5"] .logFile (some "-1.5") := by
  have b : ∀ p w : String, p.toList <+: w.toList → Begins p w := fun _ _ h => h
  refine ⟨.equals "--temp" "a=b" _ (.inr ⟨b _ _ (by decide), "--tempdir", by decide, b _ _ (by decide), ?_⟩),
    .attached "-c" "0.5" _ (by decide) (by decide) (by decide) (fun h => ?_),
    .alone "--si" _ (.inr ⟨b _ _ (by decide), "--singletile", by decide, b _ _ (by decide), ?_⟩),
    .apart _ _ _ (.inl (by decide)) (.inr (.inr ⟨.inl ⟨['1'], by decide, .inr ⟨['5'], by decide, by decide, by decide⟩⟩, ?_⟩))⟩
  · show ∀ name ∈ optionNames, "--temp".toList <+: name.toList → _
    decide +kernel
  · exact absurd (show "=".toList <+: "0.5".toList from h) (by decide)
  · show ∀ name ∈ optionNames, "--si".toList <+: name.toList → _
    decide +kernel
  · have h1 : ∀ name ∈ optionNames, "-1.5" ≠ name ∧ ¬ (name.length = 2 ∧ name.toList <+: "-1.5".toList) := by decide +kernel
    refine fun name hn => ⟨(h1 name hn).1, (h1 name hn).2, fun p rest _ hp hb => ?_⟩
    exfalso
    have hb' : ['-', '-'] <+: p.toList := hb
    have hw : p.toList <+: "-1.5".toList := by
      rcases hp with hp | hp
      · rw [hp]
      · rw [hp, String.append_assoc, String.toList_append]; exact List.prefix_append _ _
    exact absurd (hb'.trans hw) (by decide)

/-- Other ways to write the same call, and ways that fail: a beginning of two names, of no name, a flag with a value. -/
example : cliParse conv ["--co=0.5", "--sing", "-iin"] = some ns ∧ cliParse conv ["-c=0.5", "--inp", "in", "--singletile"] ≠ none ∧
    cliParse conv ["-i", "in", "--t-cost=3"] = none ∧ cliParse conv ["-i", "in", "--tile", "3"] = none ∧
    cliParse conv ["-i", "in", "--singletile=yes"] = none ∧ cliParse conv ["-i", "in", "-h"] = none :=
  ⟨rfl, fun h => absurd (congrArg Option.isSome h) (by decide), rfl, rfl, rfl, rfl⟩

/-- Non-vacuity of `C66_rejected`: an option without its value, a missing input folder, an unknown option. -/
example : cliParse conv ["-i", "in", "-c"] = none ∧ cliParse conv ["-c", "0.5"] = none ∧ cliParse conv ["-i", "in", "--tiles", "3"] = none :=
  ⟨rfl, rfl, rfl⟩

/-- Non-vacuity of `C66_rejected`: an empty folder. -/
example (libs : CliLibs ℚ Nat) (P : Flow ℚ Nat) :
    cliFlow libs (fun _ => true) (fun _ => ⟨[], folder.coh, folder.image⟩) ns ≠ .ok P := by
  intro h
  obtain ⟨⟨h1, _⟩, _⟩ := (C66_accepted _ _ _ _).mp ⟨P, h⟩
  simp at h1

end CliCall

end Spurt
