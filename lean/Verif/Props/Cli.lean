import Verif.Lemmas.Cli
import Verif.Props.SlcStack
import Verif.Props.Settings
import Verif.Props.Cost
import Verif.Props.Recovery

/-!
# Property C66: the command line
-/

namespace Spurt

section
variable {K S : Type} [Field K]

theorem given_some (cv : PyConv K) (k : CliKey) (v : String) : Spec.given cv k (some v) = cliConvert cv k v := by
  unfold Spec.given
  cases k <;> simp [cliConvert]

open Spec

/-- An option as it is written takes its words and stores its value. -/
theorem parse_item (cv : PyConv K) {ws : List String} {k : CliKey} {ov : Option String} {x : CliValue K} (hw : Spelled ws k ov)
    (hx : given cv k ov = some x) : ∃ toks, ws.mapM classify = some toks ∧
      ∀ rest ns, parseToks cv (toks ++ rest) ns = parseToks cv rest (Function.update ns k x) := by
  have hval : ∀ v, ov = some v → k ≠ .singletile ∧ cliConvert cv k v = some x := by
    rintro v rfl
    rw [given_some] at hx
    exact ⟨by rintro rfl; simp [cliConvert] at hx, hx⟩
  cases hw with
  | apart o v _ h1 h2 =>
    obtain ⟨hk, hc⟩ := hval v rfl
    refine ⟨[.opt k none, .value v], by simp [classify_names h1, classify_value h2], fun rest ns => ?_⟩
    cases k <;> first | exact absurd rfl hk | simp [parseToks, hc]
  | equals o v _ h1 =>
    obtain ⟨hk, hc⟩ := hval v rfl
    refine ⟨[.opt k (some v)], by simp [classify_equals h1], fun rest ns => ?_⟩
    simp [parseToks, hc]
  | attached o v _ h1 h2 h3 h4 =>
    obtain ⟨hk, hc⟩ := hval v rfl
    refine ⟨[.opt k (some v)], by simp [classify_attached h1 h2 h3 h4], fun rest ns => ?_⟩
    simp [parseToks, hc]
  | alone o _ h1 =>
    have hk : k = .singletile := by
      by_contra h
      simp [given, h] at hx
    subst hk
    simp only [given, if_pos, Option.some.injEq] at hx
    subst hx
    exact ⟨[.opt .singletile none], by simp [classify_names h1], fun rest ns => by simp [parseToks]⟩

/-- C66. A command line of options, each written in one of the ways `argparse` knows and with a value of its type, is
accepted, in whatever order the options come; an option has the value given last, and an option not given has its default. -/
theorem C66_options (cv : PyConv K) (items : List (List String × CliKey × Option String))
    (hs : ∀ it ∈ items, Spelled it.1 it.2.1 it.2.2) (hv : ∀ it ∈ items, ∃ x, given cv it.2.1 it.2.2 = some x) :
    ∃ ns : Namespace K, parseArgs cv (items.flatMap Prod.fst) cliDefault = some ns ∧
      (∀ k, (∀ it ∈ items, it.2.1 ≠ k) → ns k = cliDefault k) ∧
      ∀ pre it post, items = pre ++ it :: post → (∀ it' ∈ post, it'.2.1 ≠ it.2.1) → given cv it.2.1 it.2.2 = some (ns it.2.1) := by
  suffices h : ∃ toks, (items.flatMap Prod.fst).mapM classify = some toks ∧ ∀ ns0 : Namespace K,
      ∃ ns : Namespace K, parseToks cv toks ns0 = some ns ∧ (∀ k, (∀ it ∈ items, it.2.1 ≠ k) → ns k = ns0 k) ∧
      ∀ pre it post, items = pre ++ it :: post → (∀ it' ∈ post, it'.2.1 ≠ it.2.1) →
        given cv it.2.1 it.2.2 = some (ns it.2.1) by
    obtain ⟨toks, h1, h2⟩ := h
    obtain ⟨ns, h3, h4⟩ := h2 cliDefault
    exact ⟨ns, by rw [parseArgs, h1]; exact h3, h4⟩
  induction items with
  | nil => exact ⟨[], rfl, fun ns0 => ⟨ns0, rfl, fun _ _ => rfl, by simp⟩⟩
  | cons it0 items ih =>
    obtain ⟨toks, h1, h2⟩ := ih (fun it hit => hs it (by simp [hit])) fun it hit => hv it (by simp [hit])
    obtain ⟨x0, hx0⟩ := hv it0 (by simp)
    obtain ⟨toks0, g1, g2⟩ := parse_item cv (hs it0 (by simp)) hx0
    refine ⟨toks0 ++ toks, by simp [List.mapM_append, g1, h1], fun ns0 => ?_⟩
    obtain ⟨ns, h3, h4, h5⟩ := h2 (Function.update ns0 it0.2.1 x0)
    refine ⟨ns, by rw [g2, h3], fun k hk => ?_, fun pre it post he hpost => ?_⟩
    · rw [h4 k fun it hit => hk it (by simp [hit]), Function.update_of_ne (Ne.symm (hk it0 (by simp)))]
    · cases pre with
      | nil =>
        simp only [List.nil_append, List.cons.injEq] at he
        obtain ⟨rfl, rfl⟩ := he
        rw [h4 _ hpost, Function.update_self, hx0]
      | cons p pre =>
        simp only [List.cons_append, List.cons.injEq] at he
        exact h5 pre it post he.2 hpost

theorem mapM_classify_cons {w : String} {ws : List String} {t : CliTok} {toks : List CliTok}
    (h : (w :: ws).mapM classify = some (t :: toks)) : classify w = some t ∧ ws.mapM classify = some toks := by
  rw [List.mapM_cons] at h
  cases h1 : classify w with
  | none => simp [h1] at h
  | some t' =>
    cases h2 : ws.mapM classify with
    | none => simp [h1, h2] at h
    | some toks' => simpa [h1, h2] using h

/-- C66. Only such a command line is accepted: an unknown or ambiguous option, a word that belongs to no option, an option
without its value or with a value of another type ends the program with a usage message. -/
theorem C66_only_options (cv : PyConv K) (args : List String) (ns0 ns : Namespace K) (h : parseArgs cv args ns0 = some ns) :
    ∃ items : List (List String × CliKey × Option String), args = items.flatMap Prod.fst ∧
      ∀ it ∈ items, Spelled it.1 it.2.1 it.2.2 ∧ ∃ x, given cv it.2.1 it.2.2 = some x := by
  unfold parseArgs at h
  cases hm : args.mapM classify with
  | none => simp [hm] at h
  | some toks =>
    rw [hm] at h
    simp only [Option.bind_some] at h
    fun_induction parseToks cv toks ns0 generalizing args with
    | case1 =>
      have : args = [] := by
        cases args with
        | nil => rfl
        | cons w ws =>
          rw [List.mapM_cons] at hm
          cases h1 : classify w <;> cases h2 : ws.mapM classify <;> simp [h1, h2] at hm
      subst this
      exact ⟨[], rfl, by simp⟩
    | case2 rest ns0 ih =>
      cases args with
      | nil => simp at hm
      | cons w ws =>
        obtain ⟨h1, h2⟩ := mapM_classify_cons hm
        obtain ⟨items, e, hi⟩ := ih ws h h2
        have hn : Names w .singletile := by
          rcases classify_inv h1 with ⟨h, _⟩ | ⟨k, h, hn⟩ | ⟨k, v, h, _⟩
          · cases h
          · cases h; exact hn
          · cases h
        refine ⟨([w], .singletile, none) :: items, by simp [e], ?_⟩
        simp only [List.mem_cons, forall_eq_or_imp]
        exact ⟨⟨.alone w _ hn, _, rfl⟩, hi⟩
    | case3 => exact absurd h (by simp)
    | case4 k v rest ns0 x hx ih =>
      cases args with
      | nil => simp at hm
      | cons w ws =>
        obtain ⟨h1, h2⟩ := mapM_classify_cons hm
        obtain ⟨items, e, hi⟩ := ih ws h h2
        have hn : Spelled [w] k (some v) := by
          rcases classify_inv h1 with ⟨h, _⟩ | ⟨k, h, hn⟩ | ⟨k, v, h, hn⟩
          · cases h
          · cases h
          · cases h; exact hn
        refine ⟨([w], k, some v) :: items, by simp [e], ?_⟩
        simp only [List.mem_cons, forall_eq_or_imp]
        exact ⟨⟨hn, x, by rw [given_some, hx]⟩, hi⟩
    | case5 => exact absurd h (by simp)
    | case6 k v rest ns0 hks x hx ih =>
      rcases args with _ | ⟨w, _ | ⟨w', ws⟩⟩
      · simp at hm
      · have := (mapM_classify_cons hm).2
        simp at this
      · obtain ⟨h1, h2⟩ := mapM_classify_cons hm
        obtain ⟨h2, h3⟩ := mapM_classify_cons h2
        obtain ⟨items, e, hi⟩ := ih ws h h3
        have hn : Names w k := by
          rcases classify_inv h1 with ⟨h, _⟩ | ⟨k, h, hn⟩ | ⟨k, v, h, hn⟩
          · cases h
          · cases h; exact hn
          · cases h
        have hv : v = w' ∧ IsValue w' := by
          rcases classify_inv h2 with ⟨h, hn⟩ | ⟨k, h, hn⟩ | ⟨k, v, h, hn⟩
          · cases h; exact ⟨rfl, hn⟩
          · cases h
          · cases h
        obtain ⟨rfl, hv⟩ := hv
        refine ⟨([w, v], k, some v) :: items, by simp [e], ?_⟩
        simp only [List.mem_cons, forall_eq_or_imp]
        exact ⟨⟨.apart w v k hn hv, x, by rw [given_some, hx]⟩, hi⟩
    | case7 => exact absurd h (by simp)

/-- C66. Without an input folder the program ends with a usage message. -/
theorem C66_input_required (cv : PyConv K) (args : List String) (ns : Namespace K) (h : cliParse cv args = some ns) :
    parseArgs cv args cliDefault = some ns ∧ ns .inputdir ≠ .none := by
  unfold cliParse at h
  split at h
  · exact absurd h (by simp)
  · rename_i ns' h'
    split at h
    · exact absurd h (by simp)
    · rename_i hne
      simp only [Option.some.injEq] at h
      subst h
      exact ⟨h', fun hc => hne hc⟩

theorem cliFlow_ok {libs : CliLibs K S} {mkdir : String → Bool} {input : String → CliFolder K} {ns : Namespace K} {P : Flow K S} :
    cliFlow libs mkdir input ns = .ok P ↔ ∃ files time, fromPhaseLinkedDirectory (input (ns.strOf .inputdir)).names = .ok files ∧
      mkdir (ns.strOf .outputdir) = true ∧ mkdir (ns.strOf .tempdir) = true ∧ (cliTiler ns).check = .ok () ∧
      (cliSolver ns).check = .ok () ∧ (cliMerger ns).check = .ok () ∧ hop3Graph files.length = .ok time ∧
      P = cliFlowOf libs (input (ns.strOf .inputdir)) ns files time := by
  unfold cliFlow
  simp only [cliGeneral]
  cases h1 : fromPhaseLinkedDirectory (input (ns.strOf .inputdir)).names with
  | error e => simp [Bind.bind, Except.bind]
  | ok files =>
    simp only [Bind.bind, Except.bind, Except.ok.injEq, exists_and_left, exists_eq_left']
    by_cases h2 : mkdir (ns.strOf .outputdir) = true
    · by_cases h3 : mkdir (ns.strOf .tempdir) = true
      · simp only [h2, h3, not_true_eq_false, if_false, true_and]
        cases h4 : (cliTiler ns).check <;> simp
        cases h5 : (cliSolver ns).check <;> simp
        cases h6 : (cliMerger ns).check <;> simp
        cases h7 : hop3Graph files.length <;> simp [pure, Except.pure, eq_comm]
      · simp [h2, h3]
    · simp [h2]

/-- C66. The setup succeeds, and the stages run, exactly when the folder has the coherence raster and at least three
interferograms `FIRST_SECOND….int.tif` with one first date and different second dates, the output folders can be made, and
the options are in range. -/
theorem C66_accepted (libs : CliLibs K S) (mkdir : String → Bool) (input : String → CliFolder K) (ns : Namespace K) :
    (∃ P, cliFlow libs mkdir input ns = .ok P) ↔
      ("temporal_coherence.tif" ∈ (input (ns.strOf .inputdir)).names ∧
        3 ≤ (endingIn (input (ns.strOf .inputdir)).names ".int.tif").length ∧
        ∃ first ∈ endingIn (input (ns.strOf .inputdir)).names ".int.tif",
          (∀ n ∈ endingIn (input (ns.strOf .inputdir)).names ".int.tif", first ≤ n) ∧
          (∀ n ∈ endingIn (input (ns.strOf .inputdir)).names ".int.tif", (dateOf first.toList).toList <+: n.toList ∧
            ∃ d, secondDate n = some d) ∧
          (some (dateOf first.toList) :: (endingIn (input (ns.strOf .inputdir)).names ".int.tif").map secondDate).Nodup) ∧
      mkdir (ns.strOf .outputdir) = true ∧ mkdir (ns.strOf .tempdir) = true ∧
      1 ≤ ns.intOf .maxTiles ∧ 1 ≤ ns.intOf .ptsPerTile ∧ 1 ≤ ns.intOf .batchsize ∧
      ns.strOf .tCostType ∈ ["constant", "distance", "centroid"] ∧ 1 ≤ ns.intOf .tCostScale ∧
      1 ≤ ns.intOf .unwrapParallelTiles ∧
      (2 ≤ ns.intOf .unwrapParallelTiles → 1 ≤ ns.intOf .tWorkers ∧ 1 ≤ ns.intOf .sWorkers) := by
  obtain ⟨hC, hC'⟩ := C35_phase_linked (input (ns.strOf .inputdir)).names
  have ht : (cliTiler ns).check = .ok () ↔ 1 ≤ ns.intOf .maxTiles ∧ 1 ≤ ns.intOf .ptsPerTile := by
    rw [(C47_tiler _).1]
    simp only [cliTiler]
    norm_num
  have hs : (cliSolver ns).check = .ok () ↔ ns.strOf .tCostType ∈ ["constant", "distance", "centroid"] ∧ 1 ≤ ns.intOf .batchsize ∧
      1 ≤ ns.intOf .tCostScale ∧ 1 ≤ ns.intOf .unwrapParallelTiles ∧
      (2 ≤ ns.intOf .unwrapParallelTiles → 1 ≤ ns.intOf .tWorkers ∧ 1 ≤ ns.intOf .sWorkers) := by
    rw [(C47_solver _).1]
    simp only [cliSolver]
    have : (0 : ℚ) < ((ns.intOf .tCostScale : ℤ) : ℚ) ↔ 1 ≤ ns.intOf .tCostScale := by
      rw [Int.cast_pos]
      omega
    rw [this]
    norm_num
  have hm : (cliMerger ns).check = .ok () := by
    rw [(C47_merger _).1]
    simp [cliMerger]
  have hlen : ∀ files, fromPhaseLinkedDirectory (input (ns.strOf .inputdir)).names = .ok files →
      files.length = (endingIn (input (ns.strOf .inputdir)).names ".int.tif").length + 1 := by
    intro files hf
    obtain ⟨_, _, _, _, h, _⟩ := hC' files hf
    rw [← h]
    simp [stackDates]
  constructor
  · rintro ⟨P, hP⟩
    obtain ⟨files, time, h1, h2, h3, h4, h5, _, h7, _⟩ := cliFlow_ok.mp hP
    obtain ⟨k1, k2⟩ := hC.mp ⟨files, h1⟩
    have hl := hlen files h1
    have h4n : 4 ≤ files.length := by
      by_contra hc
      rw [(C03_hop3_links _).1 (by omega)] at h7
      exact absurd h7 (by simp)
    obtain ⟨a1, a2⟩ := ht.mp h4
    obtain ⟨b1, b2, b3, b4, b5⟩ := hs.mp h5
    exact ⟨⟨k1, by omega, k2⟩, h2, h3, a1, a2, b2, b1, b3, b4, b5⟩
  · rintro ⟨⟨k1, k2, k3⟩, h2, h3, a1, a2, b2, b1, b3, b4, b5⟩
    obtain ⟨files, hf⟩ := hC.mpr ⟨k1, k3⟩
    obtain ⟨g, hg, _⟩ := (C03_hop3_links files.length).2 (by rw [hlen files hf]; omega)
    exact ⟨_, cliFlow_ok.mpr ⟨files, g, hf, h2, h3, ht.mpr ⟨a1, a2⟩, hs.mpr ⟨b1, b2, b3, b4, b5⟩, hm, hg, rfl⟩⟩

/-- C66. The options reach the settings they are documented for, and the other settings have their defaults. -/
theorem C66_settings (libs : CliLibs K S) (mkdir : String → Bool) (input : String → CliFolder K) (ns : Namespace K) (P : Flow K S)
    (h : cliFlow libs mkdir input ns = .ok P) :
    P.useTiles = !ns.flagOf .singletile ∧
    P.tiler = ⟨ns.intOf .ptsPerTile, ns.intOf .maxTiles, 120000, 5 / 100⟩ ∧
    P.merger = ⟨25, "dirichlet", "L2", ns.intOf .mergeParallelIfgs⟩ ∧
    P.job.settings = ⟨ns.intOf .tWorkers, ns.intOf .sWorkers, ns.intOf .batchsize, ns.strOf .tCostType, ns.intOf .tCostScale,
      "constant", 100, ns.intOf .unwrapParallelTiles⟩ ∧
    P.job.thr = ns.numOf .coh ∧ P.job.coh = (input (ns.strOf .inputdir)).coh ∧
    cliGeneral ns = ⟨!ns.flagOf .singletile, ns.strOf .tempdir, ns.strOf .outputdir⟩ := by
  obtain ⟨files, time, _, _, _, _, _, _, _, rfl⟩ := cliFlow_ok.mp h
  exact ⟨rfl, rfl, rfl, rfl, rfl, rfl, rfl⟩

/-- C66. A call with nothing but the input folder uses the documented defaults. -/
theorem C66_defaults (cv : PyConv K) (dir : String) (hd : IsValue dir) (name : String) (hn : name = "-i" ∨ name = "--inputdir") :
    ∃ ns, cliParse cv [name, dir] = some ns ∧ ns.strOf .inputdir = dir ∧ ns.strOf .outputdir = "./emcf" ∧
      ns.strOf .tempdir = "./emcf_tmp" ∧ ns.intOf .tWorkers = 0 ∧ ns.intOf .sWorkers = 1 ∧ ns.intOf .batchsize = 150000 ∧
      ns.numOf .coh = 6 / 10 ∧ ns.strOf .tCostType = "constant" ∧ ns.intOf .tCostScale = 100 ∧ ns.intOf .ptsPerTile = 800000 ∧
      ns.intOf .maxTiles = 49 ∧ ns.intOf .mergeParallelIfgs = 1 ∧ ns.intOf .unwrapParallelTiles = 1 ∧
      ns.flagOf .singletile = false := by
  have hk : Names name .inputdir := Or.inl (by rcases hn with rfl | rfl <;> simp [options])
  have hp : parseArgs cv [name, dir] cliDefault = some (Function.update cliDefault .inputdir (.str dir)) := by
    obtain ⟨toks, h1, h2⟩ := parse_item cv (.apart name dir _ hk hd) (x := .str dir) (by simp [given])
    rw [parseArgs, h1]
    have := h2 [] cliDefault
    rwa [List.append_nil] at this
  refine ⟨Function.update cliDefault .inputdir (.str dir), ?_, rfl, rfl, rfl, rfl, rfl, rfl, rfl, rfl, rfl, rfl, rfl, rfl, rfl, rfl⟩
  unfold cliParse
  rw [hp]
  rfl

end

section
variable {K S : Type} [Field K] [LinearOrder K] [FloorRing K] [IsStrictOrderedRing K]
open Spec

/-- The date `d` is an acquisition of the folder: the first date of its interferograms, or a second one. -/
def Spec.IsDate (F : CliFolder K) (d : String) : Prop :=
  (∃ n ∈ endingIn F.names ".int.tif", (∀ m ∈ endingIn F.names ".int.tif", n ≤ m) ∧ d = dateOf n.toList) ∨
  ∃ n ∈ endingIn F.names ".int.tif", secondDate n = some d

/-- The phase image of date `d`: that of the file with this second date, and zero for the first date. -/
def Spec.DatePhase (F : CliFolder K) (d : String) (φ : Nat → Nat → K) : Prop :=
  (∃ n ∈ endingIn F.names ".int.tif", secondDate n = some d ∧ φ = (F.image n).val) ∨
  ((∀ n ∈ endingIn F.names ".int.tif", secondDate n ≠ some d) ∧ φ = fun _ _ => 0)

/-- The file `name` of the output holds the raster `b`. -/
def Spec.Written (gen : GeneralSettings) (P : Flow K S) (d : Disk K) (name : String) (b : Band (Option K)) : Prop :=
  ∃ i : Nat, (outputNames gen P.job.dates P.job.time.links)[i]? = some name ∧ d.unw i = some (some b)

/-- The libraries keep their contracts, and the rasters of the folder have one size. -/
structure Spec.GoodLibs (libs : CliLibs K S) (F : CliFolder K) : Prop where
  tau : 0 < libs.tau
  solver : SolverSound libs.solver
  size : ∃ B : ℤ, Rounding libs.fl B ∧ (F.coh.rows : ℤ) ≤ B ∧ (F.coh.cols : ℤ) ≤ B
  labels : ∀ n es, (libs.cc n es).length = n
  mip : MipOptimal libs.mip
  triangles : ∀ pts, ∀ t ∈ libs.simplices pts, t.1 ≠ t.2.1 ∧ t.1 ≠ t.2.2 ∧ t.2.1 ≠ t.2.2
  images : ∀ n ∈ endingIn F.names ".int.tif", (F.image n).rows = F.coh.rows ∧ (F.image n).cols = F.coh.cols
  rows : 0 < F.coh.rows
  cols : 0 < F.coh.cols

theorem find_file {files : SlcFiles} {d : String} {v : Option String} (hnd : (files.map Prod.fst).Nodup) (h : (d, v) ∈ files) :
    (files.find? fun f => decide (f.1 = d)) = some (d, v) := by
  induction files with
  | nil => simp at h
  | cons f files ih =>
    simp only [List.map_cons, List.nodup_cons] at hnd
    rcases List.mem_cons.mp h with rfl | h
    · simp
    · have : f.1 ≠ d := by
        rintro rfl
        exact hnd.1 (List.mem_map.mpr ⟨_, h, rfl⟩)
      simp [this, ih hnd.2 h]

theorem cli_goodFlow {libs : CliLibs K S} {mkdir : String → Bool} {input : String → CliFolder K} {ns : Namespace K} {P : Flow K S}
    (h : cliFlow libs mkdir input ns = .ok P) (hL : GoodLibs libs (input (ns.strOf .inputdir))) : GoodFlow P := by
  obtain ⟨files, time, h1, h2, h3, h4, h5, h6, h7, rfl⟩ := cliFlow_ok.mp h
  have h4n : 4 ≤ files.length := by
    by_contra hc
    rw [(C03_hop3_links _).1 (by omega)] at h7
    exact absurd h7 (by simp)
  obtain ⟨g, hg, hgc, _⟩ := C04_hop3_planar files.length h4n
  obtain ⟨g', hg', hgn, _⟩ := (C03_hop3_links files.length).2 h4n
  rw [hg, Except.ok.injEq] at h7 hg'
  subst h7 hg'
  obtain ⟨_, hC⟩ := C35_phase_linked (input (ns.strOf .inputdir)).names
  obtain ⟨first, _, _, _, _, _, c4, c5, _⟩ := hC files h1
  refine ⟨⟨?_, ?_, ?_, ?_, ?_⟩, hL.solver, h4, hL.size, hL.labels, hL.mip⟩
  · show PlanarContract g.npoints g.links g.cycles
    rw [hgn]
    exact hgc
  · show (stackDates files).length = g.npoints
    rw [hgn]
    simp [stackDates]
  · show 0 < (cliSolver ns).linksPerBatch
    have := ((C47_solver _).1.mp h5).2.2.1
    omega
  · intro d im him
    have him' : ((files.find? fun f => decide (f.1 = d)).bind Prod.snd).map (input (ns.strOf .inputdir)).image = some im := him
    rw [Option.map_eq_some_iff] at him'
    obtain ⟨n, hn, rfl⟩ := him'
    rw [Option.bind_eq_some_iff] at hn
    obtain ⟨f, hf, hfn⟩ := hn
    have hmem := List.mem_of_find?_eq_some hf
    obtain ⟨fd, fv⟩ := f
    simp only at hfn
    subst hfn
    exact hL.images n ((c5 fd n).mp hmem).1
  · intro pts
    exact hL.triangles _

theorem cli_dates {F : CliFolder K} {files : SlcFiles} (h1 : fromPhaseLinkedDirectory F.names = .ok files) {dates : List String}
    (hsort : dates.Pairwise (· < ·)) (hdates : ∀ d, d ∈ dates ↔ IsDate F d) : stackDates files = dates := by
  obtain ⟨_, hC⟩ := C35_phase_linked F.names
  obtain ⟨first, c0, c1, c2, c3, c4, c5, c6, _⟩ := hC files h1
  refine List.Perm.eq_of_pairwise (le := (· < ·)) (fun a b _ _ h h' => absurd h' (lt_asymm h)) c2 hsort ?_
  rw [List.perm_ext_iff_of_nodup (c2.imp fun h => ne_of_lt h) (hsort.imp fun h => ne_of_lt h)]
  intro d
  rw [c4 d, hdates d]
  constructor
  · rintro (rfl | h)
    · exact Or.inl ⟨first, c0, c1, rfl⟩
    · exact Or.inr h
  · rintro (⟨n, hn, hm, rfl⟩ | h)
    · rw [le_antisymm (hm first c0) (c1 n hn)]
      exact Or.inl rfl
    · exact Or.inr h

theorem cli_phase {libs : CliLibs K S} {F : CliFolder K} {ns : Namespace K} {files : SlcFiles} {g : PlanarGraph}
    (h1 : fromPhaseLinkedDirectory F.names = .ok files) {s : Nat} {d : String} {φ : Nat → Nat → K}
    (hs : (stackDates files)[s]? = some d) (hφ : DatePhase F d φ) (r q : Nat) :
    epochPhase (cliFlowOf libs F ns files g).job s r q = φ r q := by
  obtain ⟨_, hC⟩ := C35_phase_linked F.names
  obtain ⟨first, c0, c1, c2, c3, c4, c5, c6, _⟩ := hC files h1
  have hkeys : (files.map Prod.fst).Nodup :=
    (List.mergeSort_perm _ (fun a b : String => decide (a ≤ b))).nodup_iff.mp (c2.imp fun h => ne_of_lt h)
  have hd : (cliFlowOf libs F ns files g).job.dates[s]? = some d := hs
  have hp : ∀ v, (d, v) ∈ files → (cliFlowOf libs F ns files g).job.phase d = v.map F.image := by
    intro v hv
    show ((files.find? fun f => decide (f.1 = d)).bind Prod.snd).map F.image = _
    rw [find_file hkeys hv]
    rfl
  unfold epochPhase
  rw [hd]
  simp only [Option.bind_some]
  rcases hφ with ⟨n, hn, hnd, rfl⟩ | ⟨hno, rfl⟩
  · rw [hp _ ((c6 d n).mpr ⟨hn, hnd⟩)]
    rfl
  · rcases (c4 d).mp (List.mem_of_getElem? hs) with h | ⟨n, hn, hnd⟩
    · rw [hp _ ((c5 d).mpr h)]
      rfl
    · exact absurd hnd (hno n hn)

theorem cli_datePhase {F : CliFolder K} {files : SlcFiles} (h1 : fromPhaseLinkedDirectory F.names = .ok files) {d : String}
    (hd : d ∈ stackDates files) : ∃ φ, DatePhase F d φ := by
  by_cases h : ∃ n ∈ endingIn F.names ".int.tif", secondDate n = some d
  · obtain ⟨n, hn, hnd⟩ := h
    exact ⟨_, Or.inl ⟨n, hn, hnd, rfl⟩⟩
  · push Not at h
    exact ⟨_, Or.inr ⟨h, rfl⟩⟩

/-- C66. A call with a wrong command line, or whose setup raises, ends and leaves the files alone. -/
theorem C66_rejected (cv : PyConv K) (libs : CliLibs K S) (mkdir : String → Bool) (input : String → CliFolder K) (args : List String)
    (d : Disk K) (e : CliEnd) (d' : Disk K) (h : CliRun cv libs mkdir input args d e d')
    (hrej : ∀ ns P, cliParse cv args = some ns → cliFlow libs mkdir input ns ≠ .ok P) :
    d' = d ∧ e ≠ .ended .completed ∧ (e = .usage ↔ cliParse cv args = none) := by
  unfold CliRun at h
  split at h
  · rename_i hp
    exact ⟨h.2, by rw [h.1]; simp, by simp [h.1, hp]⟩
  · rename_i ns hns
    split at h
    · exact ⟨h.2, by rw [h.1]; simp, by simp [h.1, hns]⟩
    · rename_i P hP
      exact absurd hP (hrej ns P hns)

/-- C66. When a call with an empty temporary and output folder has completed, then for any two dates of the input at most three
acquisitions apart the output folder has the raster `FIRST_SECOND.unw.tif`, of the size of the image; it has a value exactly at
the pixels whose coherence exceeds the threshold given, and this value is the phase difference of the two dates plus a whole
number of cycles. -/
theorem C66_result (cv : PyConv K) (libs : CliLibs K S) (mkdir : String → Bool) (input : String → CliFolder K) (args : List String)
    (d' : Disk K) (h : CliRun cv libs mkdir input args Disk.empty (.ended .completed) d') :
    ∃ ns P, cliParse cv args = some ns ∧ cliFlow libs mkdir input ns = .ok P ∧
      (GoodLibs libs (input (ns.strOf .inputdir)) →
        ∀ dates : List String, dates.Pairwise (· < ·) → (∀ d, d ∈ dates ↔ IsDate (input (ns.strOf .inputdir)) d) →
        ∀ (s u : Nat) d1 d2 φ1 φ2, s < u → u ≤ s + 3 → dates[s]? = some d1 → dates[u]? = some d2 →
          DatePhase (input (ns.strOf .inputdir)) d1 φ1 → DatePhase (input (ns.strOf .inputdir)) d2 φ2 →
          ∃ b, Written (cliGeneral ns) P d' (joinPath (ns.strOf .outputdir) (d1 ++ "_" ++ d2 ++ ".unw.tif")) b ∧
            b.rows = (input (ns.strOf .inputdir)).coh.rows ∧ b.cols = (input (ns.strOf .inputdir)).coh.cols ∧
            ∀ r q, r < b.rows → q < b.cols →
              ((∃ v, (input (ns.strOf .inputdir)).coh.val r q = some v ∧ ns.numOf .coh < v) →
                ∃ k : ℤ, b.val r q = some (φ2 r q - φ1 r q + k * libs.tau)) ∧
              ((¬ ∃ v, (input (ns.strOf .inputdir)).coh.val r q = some v ∧ ns.numOf .coh < v) → b.val r q = none)) := by
  unfold CliRun at h
  split at h
  · exact absurd h.1 (by simp)
  rename_i ns hns
  split at h
  · exact absurd h.1 (by simp)
  rename_i P hP
  obtain ⟨o, ho, hrun⟩ := h
  simp only [CliEnd.ended.injEq] at ho
  subst ho
  refine ⟨ns, P, hns, hP, fun hL dates hsort hdates s u d1 d2 φ1 φ2 hsu hu3 hs hu hφ1 hφ2 => ?_⟩
  have hgood := cli_goodFlow hP hL
  obtain ⟨files, time, h1, h2, h3, h4, h5, h6, h7, rfl⟩ := cliFlow_ok.mp hP
  set F := input (ns.strOf .inputdir) with hF
  obtain ⟨_, hC⟩ := C35_phase_linked F.names
  obtain ⟨first, c0, c1, c2, c3, c4, c5, c6, _⟩ := hC files h1
  have hsd : stackDates files = dates := cli_dates h1 hsort hdates
  have h4n : 4 ≤ files.length := by
    by_contra hc
    rw [(C03_hop3_links _).1 (by omega)] at h7
    exact absurd h7 (by simp)
  obtain ⟨g, hg, hgn, _, hglinks, _⟩ := (C03_hop3_links files.length).2 h4n
  rw [hg, Except.ok.injEq] at h7
  subst h7
  have hul : u < files.length := by
    have := (List.getElem?_eq_some_iff.mp hu).1
    rw [← hsd] at this
    simpa [stackDates] using this
  obtain ⟨i, hi⟩ := List.mem_iff_getElem?.mp ((hglinks s u).mpr ⟨hsu, hul, by omega⟩)
  obtain ⟨b, hb, hb1, hb2, hbv⟩ := C61_result _ hgood hL.tau ⟨hL.rows, hL.cols⟩ d' hrun i s u hi
  have hphase : ∀ (s : Nat) d φ, dates[s]? = some d → DatePhase F d φ → ∀ r q,
      epochPhase (cliFlowOf libs F ns files g).job s r q = φ r q := by
    intro s d φ hs hφ r q
    exact cli_phase h1 (by rw [hsd, hs]) hφ r q
  refine ⟨b, ⟨i, ?_, hb⟩, hb1, hb2, fun r q hr hq => ?_⟩
  · show (outputNames (cliGeneral ns) (stackDates files) g.links)[i]? = _
    unfold outputNames
    rw [List.getElem?_map, hi, hsd]
    simp [GeneralSettings.unwFilename, cliGeneral, List.getD_eq_getElem?_getD, hs, hu]
  · obtain ⟨k1, k2⟩ := hbv r q (by rw [← hb1]; exact hr) (by rw [← hb2]; exact hq)
    refine ⟨fun hv => ?_, fun hv => k2 hv⟩
    obtain ⟨v, hv1, k, hv2⟩ := k1 hv
    refine ⟨k - rint ((φ2 r q - φ1 r q) / libs.tau), ?_⟩
    rw [hv1, hv2]
    unfold stackIfg
    rw [hphase s d1 φ1 hs hφ1, hphase u d2 φ2 hu hφ2, phaseDiff_eq]
    show some (φ2 r q - φ1 r q - (rint ((φ2 r q - φ1 r q) / libs.tau) : K) * libs.tau + (k : K) * libs.tau) = _
    rw [Option.some.injEq, Int.cast_sub]
    ring

/-- What the true phases `φ` of the dates `dates` must satisfy for the call to recover them, on the tiles `T`: they are, up to
whole cycles, the phases of the input; in the interferograms of dates at most three acquisitions apart they change by less than
half a cycle along the links of the triangulations of the tiles and never exceed 16383 cycles; the triangulations are planar and
connected; and overlaps of at least 25 pixels join the tiles. -/
structure Spec.Recoverable (libs : CliLibs K S) (F : CliFolder K) (thr : K) (dates : List String) (T : TileSet)
    (φ : String → Nat → Nat → K) : Prop where
  phase : ∀ d ∈ dates, ∀ ψ, DatePhase F d ψ → ∀ r q, r < F.coh.rows → q < F.coh.cols →
    (∃ v, F.coh.val r q = some v ∧ thr < v) → ∃ k : ℤ, ψ r q = φ d r q - k * libs.tau
  smooth : ∀ s u d1 d2, s < u → u ≤ s + 3 → dates[s]? = some d1 → dates[u]? = some d2 → ∀ b ∈ T.tiles,
    ∀ m n, (m, n) ∈ (delaunayGraph (tilePoints F.coh thr b).length (libs.simplices (tileCoords (tilePoints F.coh thr b)))).links →
    ∀ p q, (tilePoints F.coh thr b)[m]? = some p → (tilePoints F.coh thr b)[n]? = some q →
      |(φ d2 (q.1 + b.xmin.toNat) (q.2 + b.ymin.toNat) - φ d1 (q.1 + b.xmin.toNat) (q.2 + b.ymin.toNat)) -
        (φ d2 (p.1 + b.xmin.toNat) (p.2 + b.ymin.toNat) - φ d1 (p.1 + b.xmin.toNat) (p.2 + b.ymin.toNat))| < libs.tau / 2
  range : ∀ s u d1 d2, s < u → u ≤ s + 3 → dates[s]? = some d1 → dates[u]? = some d2 → ∀ r q, r < F.coh.rows → q < F.coh.cols →
    (∃ v, F.coh.val r q = some v ∧ thr < v) → |φ d2 r q - φ d1 r q| ≤ 16383 * libs.tau
  planar : ∀ b ∈ T.tiles, let g := delaunayGraph (tilePoints F.coh thr b).length (libs.simplices (tileCoords (tilePoints F.coh thr b)))
    PlanarContract g.npoints g.links g.cycles ∧ g.links ≠ [] ∧ Connected g.npoints g.links
  merge : ∀ b ∈ T.tiles, let pts := (tilePoints F.coh thr b).map fun p => ((p.1 : ℤ) + b.xmin, (p.2 : ℤ) + b.ymin)
    (∀ u v, (u, v) ∈ (delaunayGraph pts.length (libs.simplices pts)).links → u < pts.length ∧ v < pts.length) ∧
    ∃ p, Adjacent (delaunayGraph pts.length (libs.simplices pts)).links (pts.length - 1) p
  joined : ∀ t < T.tiles.length, Relation.ReflTransGen (fun a b : Nat =>
    25 ≤ {p : ℤ × ℤ | (∃ v, F.coh.val p.1.toNat p.2.toNat = some v ∧ thr < v) ∧ ∃ x y, T.tiles[a]? = some x ∧ T.tiles[b]? = some y ∧
      InTile x p.1 p.2 ∧ InTile y p.1 p.2}.ncard) 0 t

/-- The libraries answer, for `n` tiles and `m` interferograms. -/
structure Spec.LibsAnswer (libs : CliLibs K S) (n m : Nat) : Prop where
  labels : ∀ edges : List (Nat × Nat), (∀ e ∈ edges, e.1 < n ∧ e.2 < n) → ComponentLabels n edges (libs.cc n edges)
  mip : MipComplete libs.mip
  lstsq : ∀ olaps off, off.length = olaps.length → (∀ row ∈ off, row.length = m) →
    LeastSquares (overlapMatrix olaps n) off (libs.lstsq (overlapMatrix olaps n) off) n m
  ilu : ∀ a, libs.lin.ilu a = true

/-- C66. A call on an unaliased stack: it can complete, and when it has, however its workers were scheduled, the output raster
of any two dates at most three acquisitions apart is the true phase difference plus one number of cycles, at every pixel whose
coherence exceeds the threshold given. -/
theorem C66_recovers (cv : PyConv K) (libs : CliLibs K S) (mkdir : String → Bool) (input : String → CliFolder K) (args : List String)
    (ns : Namespace K) (hns : cliParse cv args = some ns) (P : Flow K S) (hP : cliFlow libs mkdir input ns = .ok P)
    (hL : GoodLibs libs (input (ns.strOf .inputdir)))
    (hcpu : 1 ≤ ns.intOf .sWorkers ∨ 2 ≤ libs.cpuCount)
    (dates : List String) (hsort : dates.Pairwise (· < ·)) (hdates : ∀ d, d ∈ dates ↔ IsDate (input (ns.strOf .inputdir)) d)
    (T : TileSet) (hT : makeTiles libs.sc libs.fl (!ns.flagOf .singletile) (cliTiler ns) (input (ns.strOf .inputdir)).coh.cols P.mask = .ok T)
    (φ : String → Nat → Nat → K) (hR : Recoverable libs (input (ns.strOf .inputdir)) (ns.numOf .coh) dates T φ)
    (hA : LibsAnswer libs T.tiles.length P.job.time.links.length) :
    (∃ d', CliRun cv libs mkdir input args Disk.empty (.ended .completed) d') ∧
    ∀ d', CliRun cv libs mkdir input args Disk.empty (.ended .completed) d' →
      ∀ (s u : Nat) d1 d2, s < u → u ≤ s + 3 → dates[s]? = some d1 → dates[u]? = some d2 →
        ∃ b, Written (cliGeneral ns) P d' (joinPath (ns.strOf .outputdir) (d1 ++ "_" ++ d2 ++ ".unw.tif")) b ∧
          b.rows = (input (ns.strOf .inputdir)).coh.rows ∧ b.cols = (input (ns.strOf .inputdir)).coh.cols ∧
          ∃ c : ℤ, ∀ r q, r < b.rows → q < b.cols →
            (∃ v, (input (ns.strOf .inputdir)).coh.val r q = some v ∧ ns.numOf .coh < v) →
            b.val r q = some (φ d2 r q - φ d1 r q + c * libs.tau) := by
  have hgood := cli_goodFlow hP hL
  obtain ⟨files, time, h1, h2, h3, h4, h5, h6, h7, hPe⟩ := cliFlow_ok.mp hP
  set F := input (ns.strOf .inputdir) with hF
  have hsd : stackDates files = dates := cli_dates h1 hsort hdates
  have h4n : 4 ≤ files.length := by
    by_contra hc
    rw [(C03_hop3_links _).1 (by omega)] at h7
    exact absurd h7 (by simp)
  have hlen : dates.length = files.length := by rw [← hsd]; simp [stackDates]
  obtain ⟨g, hg, hgn, _, hglinks, _⟩ := (C03_hop3_links files.length).2 h4n
  have hscale : (0 : ℚ) < ((ns.intOf .tCostScale : ℤ) : ℚ) := by
    have := (C47_solver _).1.mp h5
    simp only [cliSolver] at this
    tauto
  obtain ⟨g', m, dc, cc, hg', hm, hdc, _, _, hccs, _⟩ := C18_hop3_costs files.length h4n ((ns.intOf .tCostScale : ℤ) : ℝ)
    (by exact_mod_cast hscale)
  rw [hg, Except.ok.injEq] at h7 hg'
  subst h7 hg'
  have hty := ((C47_solver _).1.mp h5).1
  have htcost : ∃ c, costOf P.job.settings.tCostType P.job.time.links.length P.job.tDist P.job.tCent = .ok c := by
    rw [hPe]
    show ∃ c, costOf (ns.strOf .tCostType) _ (distanceCosts (hop3Points files.length) g.links ((ns.intOf .tCostScale : ℚ) : ℝ))
      (do let m ← ormcf g
          centroidCosts (hop3Points files.length) g.cycles m.dual ((ns.intOf .tCostScale : ℚ) : ℝ)) = .ok c
    have e : (((ns.intOf .tCostScale : ℤ) : ℚ) : ℝ) = ((ns.intOf .tCostScale : ℤ) : ℝ) := by push_cast; rfl
    rw [e, hdc, hm]
    have hty' : ns.strOf .tCostType ∈ ["constant", "distance", "centroid"] := hty
    simp only [List.mem_cons, List.not_mem_nil, or_false] at hty'
    rcases hty' with h | h | h <;> rw [h] <;> unfold costOf
    · simp
    · simp
    · simp only [Bind.bind, Except.bind, hccs]
      simp
  set Φ : Nat → ℤ × ℤ → K := fun s p => φ (dates.getD s "") p.1.toNat p.2.toNat with hΦ
  have hgetD : ∀ {s : Nat}, s < files.length → dates[s]? = some (dates.getD s "") := by
    intro s hs
    rw [List.getD_eq_getElem?_getD, List.getElem?_eq_getElem (by omega)]
    rfl
  obtain ⟨hshape, hpos, hin⟩ := flow_tiles hgood (by rw [hPe] at hT ⊢; exact hT : makeTiles P.sc P.fl P.useTiles P.tiler P.job.coh.cols P.mask = .ok T)
  have hU : Unaliased P T Φ := by
    refine ⟨fun b hb => ⟨?_, ?_, ?_, htcost, ?_, ?_, ?_⟩, ?_, ?_, ?_⟩
    · rw [hPe]; exact (hR.planar b hb).1
    · rw [hPe]; exact (hR.planar b hb).2.1
    · rw [hPe]; exact (hR.planar b hb).2.2
    · rw [hPe]
      exact ⟨_, by unfold costOf; exact if_pos rfl⟩
    · rw [hPe]; exact hcpu
    · rw [hPe]
      show stackDates files ≠ []
      rw [hsd]
      exact List.ne_nil_of_length_pos (by omega)
    · rw [hPe]
      intro s hs r c hpix hv
      have hs' : s < files.length := by
        have : s < (stackDates files).length := hs
        rw [hsd] at this
        omega
      have hpix' : 0 ≤ r ∧ r < F.coh.rows ∧ 0 ≤ c ∧ c < F.coh.cols := hpix
      have hd := hgetD hs'
      obtain ⟨ψ, hψ⟩ := cli_datePhase h1 (by rw [hsd]; exact List.mem_of_getElem? hd)
      rw [cli_phase h1 (by rw [hsd]; exact hd) hψ]
      exact hR.phase _ (List.mem_of_getElem? hd) ψ hψ r.toNat c.toNat (by omega) (by omega) hv
    · intro b hb
      have hb' : 0 ≤ b.xmin ∧ 0 ≤ b.ymin := by
        have := hin b hb
        unfold TileInImage at this
        omega
      rw [hPe]
      intro s u hsu m n hmn p q hp hq
      obtain ⟨k1, k2, k3⟩ := (hglinks s u).mp hsu
      have hp' : ((tilePoints F.coh (ns.numOf .coh) b).map fun p => ((p.1 : ℤ) + b.xmin, (p.2 : ℤ) + b.ymin))[m]? = some p := hp
      have hq' : ((tilePoints F.coh (ns.numOf .coh) b).map fun p => ((p.1 : ℤ) + b.xmin, (p.2 : ℤ) + b.ymin))[n]? = some q := hq
      rw [List.getElem?_map, Option.map_eq_some_iff] at hp' hq'
      obtain ⟨p0, hp0, rfl⟩ := hp'
      obtain ⟨q0, hq0, rfl⟩ := hq'
      have := hR.smooth s u _ _ k1 (by omega) (hgetD (by omega)) (hgetD k2) b hb m n hmn p0 q0 hp0 hq0
      simp only [hΦ]
      have e : ∀ (a : Nat) (z : ℤ), 0 ≤ z → ((a : ℤ) + z).toNat = a + z.toNat := by intro a z hz; omega
      rw [e _ _ hb'.1, e _ _ hb'.1, e _ _ hb'.2, e _ _ hb'.2]
      exact this
    · rw [hPe]
      intro s u hsu p hpix hv
      obtain ⟨k1, k2, k3⟩ := (hglinks s u).mp hsu
      have hpix' : 0 ≤ p.1 ∧ p.1 < F.coh.rows ∧ 0 ≤ p.2 ∧ p.2 < F.coh.cols := hpix
      exact hR.range s u _ _ k1 (by omega) (hgetD (by omega)) (hgetD k2) _ _ (by omega) (by omega) hv
  have hjoin : TilesJoined P T := by
    intro t ht
    refine Relation.ReflTransGen.mono (fun a b hab => ?_) _ _ (hR.joined t ht)
    have h25 : 25 ≤ (sharedPixels P.job T a b).ncard := by rw [hPe]; exact hab
    refine ⟨Set.nonempty_of_ncard_ne_zero (by omega), ?_⟩
    rw [hPe] at h25 ⊢
    show (25 : ℤ) ≤ _
    exact_mod_cast h25
  have hT' : makeTiles P.sc P.fl P.useTiles P.tiler P.job.coh.cols P.mask = .ok T := by rw [hPe] at hT ⊢; exact hT
  have hrun : ∀ d', CliRun cv libs mkdir input args Disk.empty (.ended .completed) d' ↔ RunByWrite P.stages Disk.empty .completed d' := by
    intro d'
    unfold CliRun
    rw [hns]
    simp only [hP]
    constructor
    · rintro ⟨o, ho, h⟩
      simp only [CliEnd.ended.injEq] at ho
      subst ho
      exact h
    · exact fun h => ⟨_, rfl, h⟩
  have htau : 0 < P.tau := by rw [hPe]; exact hL.tau
  have himg : 0 < P.job.coh.rows ∧ 0 < P.job.coh.cols := by rw [hPe]; exact ⟨hL.rows, hL.cols⟩
  have hcc : ∀ edges : List (Nat × Nat), (∀ e ∈ edges, e.1 < T.tiles.length ∧ e.2 < T.tiles.length) →
      ComponentLabels T.tiles.length edges (P.cc T.tiles.length edges) := by
    rw [hPe]; exact fun edges h => hA.labels edges h
  have hls : P.merger.bulkMethod = "L2" → ∀ olaps off, off.length = olaps.length →
      (∀ row ∈ off, row.length = P.job.time.links.length) →
      LeastSquares (overlapMatrix olaps T.tiles.length) off (P.lstsq (overlapMatrix olaps T.tiles.length) off)
        T.tiles.length P.job.time.links.length := by
    intro _ olaps off e1 e2
    have := hA.lstsq olaps off e1 e2
    rw [hPe] at this ⊢
    exact this
  constructor
  · obtain ⟨d', hd'⟩ := C63_completes P hgood htau himg (by
        rw [hPe]
        exact List.ne_nil_of_mem ((hglinks 0 1).mpr ⟨by omega, by omega, by omega⟩)) (by
        have := ((C47_solver _).1.mp h5).2.2.2.2.2.1
        rw [hPe]; exact this) (by rw [hPe]; exact h6) (by rw [hPe]; show (11 : ℤ) ≤ 25; omega) T hT' Φ hU hjoin hcc
        (by rw [hPe]; exact hA.mip) hls (by rw [hPe]; exact hA.ilu) (by rw [hPe]; exact fun b hb => hR.merge b hb)
    exact ⟨d', (hrun d').mpr hd'⟩
  · intro d' hd' s u d1 d2 hsu hu3 hs hu
    rw [hrun] at hd'
    have hul : u < files.length := by
      have := (List.getElem?_eq_some_iff.mp hu).1
      omega
    obtain ⟨i, hi⟩ := List.mem_iff_getElem?.mp ((hglinks s u).mpr ⟨hsu, hul, by omega⟩)
    have hi' : P.job.time.links[i]? = some (s, u) := by rw [hPe]; exact hi
    obtain ⟨b, hb, hb1, hb2, c, hbv⟩ := C63_recovers P hgood htau himg T hT' Φ hU hjoin hcc hls d' hd' i s u hi'
    have e1 : P.job.coh = F.coh := by rw [hPe]; rfl
    rw [e1] at hb1 hb2 hbv
    refine ⟨b, ⟨i, ?_, hb⟩, hb1, hb2, c, fun r q hr hq hv => ?_⟩
    · rw [hPe]
      show (outputNames (cliGeneral ns) (stackDates files) g.links)[i]? = _
      unfold outputNames
      rw [List.getElem?_map, hi, hsd]
      simp [GeneralSettings.unwFilename, cliGeneral, List.getD_eq_getElem?_getD, hs, hu]
    · rw [(hbv r q (by rw [← hb1]; exact hr) (by rw [← hb2]; exact hq)).1 (by rw [hPe]; exact hv)]
      have e2 : P.tau = libs.tau := by rw [hPe]; rfl
      simp only [hΦ, List.getD_eq_getElem?_getD, hs, hu, Option.getD_some, e2]
      rfl

end

end Spurt
