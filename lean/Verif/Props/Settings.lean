import Verif.Model.Names
import Mathlib.Data.List.Nodup
import Mathlib.Data.List.GetD
import Mathlib.Tactic.NormNum

/-!
# Properties C47 and C48: settings and names
-/

namespace Spurt

/-! ### C47 -/

/-- C47. `SolverSettings` accepts exactly: cost types among the three known ones, a positive
batch size, positive scales, at least one parallel tile, and explicit worker counts when
there is more than one. Anything else is a `ValueError`. -/
theorem C47_solver (s : SolverSettings) :
    (s.check = .ok () ↔
      s.tCostType ∈ ["constant", "distance", "centroid"] ∧
      s.sCostType ∈ ["constant", "distance", "centroid"] ∧
      1 ≤ s.linksPerBatch ∧ 0 < s.tCostScale ∧ 0 < s.sCostScale ∧ 1 ≤ s.numParallelTiles ∧
      (2 ≤ s.numParallelTiles → 1 ≤ s.tWorkerCount ∧ 1 ≤ s.sWorkerCount)) ∧
    (s.check ≠ .ok () → s.check = .error .valueError) := by
  unfold SolverSettings.check costTypes
  split_ifs with h1 h2 h3 h4 h5 h6 h7 h8 h9 <;> refine ⟨⟨?_, ?_⟩, ?_⟩ <;> intro h <;>
    first
    | rfl
    | (exfalso; exact h rfl)
    | (exfalso; simp at h; done)
    | (exfalso; obtain ⟨a1, a2, a3, a4, a5, a6, a7⟩ := h; first
        | exact h1 a1
        | exact h2 a2
        | omega
        | exact absurd a4 (not_lt.mpr h4)
        | exact absurd a5 (not_lt.mpr h5)
        | exact absurd (a7 (by omega)) (by omega))
    | exact ⟨h1, h2, by omega, not_le.mp h4, not_le.mp h5, by omega,
        fun _ => ⟨by omega, by omega⟩⟩

/-- C47. `TilerSettings`. -/
theorem C47_tiler (s : TilerSettings) :
    (s.check = .ok () ↔ 1 ≤ s.maxTiles ∧ 0 ≤ s.dilationFactor ∧ 1 ≤ s.targetPointsForGeneration ∧
      1 ≤ s.targetPointsPerTile) ∧
    (s.check ≠ .ok () → s.check = .error .valueError) := by
  unfold TilerSettings.check
  split_ifs with h1 h2 h3 h4 <;> refine ⟨⟨?_, ?_⟩, ?_⟩ <;> intro h <;>
    first
    | rfl
    | (exfalso; exact h rfl)
    | (exfalso; simp at h; done)
    | (exfalso; obtain ⟨a1, a2, a3, a4⟩ := h; first
        | omega
        | exact absurd h2 (not_lt.mpr a2))
    | exact ⟨by omega, not_lt.mp h2, by omega, by omega⟩

/-- C47. `MergerSettings` checks only the two method names. -/
theorem C47_merger (s : MergerSettings) :
    (s.check = .ok () ↔ (s.bulkMethod = "integer" ∨ s.bulkMethod = "L2") ∧ s.method = "dirichlet") ∧
    (s.check ≠ .ok () → s.check = .error .valueError) := by
  unfold MergerSettings.check
  split_ifs with h1 h2 <;> refine ⟨⟨?_, ?_⟩, ?_⟩ <;> intro h <;> simp_all

example : ({} : SolverSettings).check = .ok () ∧ ({} : TilerSettings).check = .ok () ∧
    ({} : MergerSettings).check = .ok () ∧
    ({ numParallelTiles := 2 } : SolverSettings).check = .error .valueError ∧
    ({ numParallelTiles := 2, tWorkerCount := 3 } : SolverSettings).check = .ok () ∧
    ({ numParallelTiles := 0 } : SolverSettings).check = .error .valueError := by
  refine ⟨?_, ?_, ?_, ?_, ?_, ?_⟩ <;>
    simp [SolverSettings.check, TilerSettings.check, MergerSettings.check, costTypes] <;> norm_num

/-! ### C48 -/

theorem fmt02_toList (n : Nat) : (fmt02 n).toList =
    (if n < 10 then ['0'] else []) ++ Nat.toDigits 10 n := by
  unfold fmt02
  split
  · rw [String.toList_append, Nat.toList_repr]; rfl
  · rw [Nat.toList_repr]; rfl

theorem fmt02_value (n : Nat) : Nat.ofDigitChars 10 (fmt02 n).toList 0 = n := by
  rw [fmt02_toList]
  split
  · have := Nat.ofDigitChars_ten_toDigits (n := n)
    rw [List.singleton_append, Nat.ofDigitChars_cons]
    simpa using this
  · exact Nat.ofDigitChars_ten_toDigits

theorem fmt02_inj {m n : Nat} (h : fmt02 m = fmt02 n) : m = n := by
  rw [← fmt02_value m, h, fmt02_value]

theorem fmt02_digit {n : Nat} {c : Char} (h : c ∈ (fmt02 n).toList) : c.isDigit := by
  rw [fmt02_toList] at h
  rcases List.mem_append.mp h with h | h
  · split at h
    · simp at h; subst h; decide
    · simp at h
  · exact Nat.isDigit_of_mem_toDigits (by norm_num) (by norm_num) h

theorem fmt02_ne_nil (n : Nat) : (fmt02 n).toList ≠ [] := by
  rw [fmt02_toList]
  intro h
  exact Nat.toDigits_ne_nil (List.append_eq_nil_iff.mp h).2

/-- Every tile number is written with at least two digits. -/
theorem fmt02_length (n : Nat) : 2 ≤ (fmt02 n).toList.length := by
  rw [fmt02_toList]
  split
  · have := Nat.length_toDigits_pos (b := 10) (n := n)
    simp only [List.length_append, List.length_singleton]; omega
  · have h : ¬ (Nat.toDigits 10 n).length ≤ 1 := by
      rw [Nat.length_toDigits_le_iff (by norm_num) (by norm_num)]
      omega
    simp only [List.nil_append]; omega

theorem toList_inj' {a b : String} (h : a.toList = b.toList) : a = b := String.toList_injective h

/-- Splitting at the first underscore. -/
theorem split_underscore {a a' b b' : List Char} (ha : '_' ∉ a) (ha' : '_' ∉ a')
    (h : a ++ '_' :: b = a' ++ '_' :: b') : a = a' ∧ b = b' := by
  induction a generalizing a' with
  | nil =>
    cases a' with
    | nil => simpa using h
    | cons x t =>
      simp only [List.nil_append, List.cons_append, List.cons.injEq] at h
      exact absurd (List.mem_cons.mpr (Or.inl h.1)) ha'
  | cons x s ih =>
    cases a' with
    | nil =>
      simp only [List.nil_append, List.cons_append, List.cons.injEq] at h
      exact absurd (List.mem_cons.mpr (Or.inl h.1.symm)) ha
    | cons y t =>
      simp only [List.cons_append, List.cons.injEq] at h
      obtain ⟨e1, e2⟩ := ih (fun hm => ha (List.mem_cons_of_mem _ hm))
        (fun hm => ha' (List.mem_cons_of_mem _ hm)) h.2
      exact ⟨by rw [h.1, e1], e2⟩

theorem joinPath_inj {f a b : String} (h : joinPath f a = joinPath f b) : a = b := by
  have := congrArg String.toList h
  simp only [joinPath, String.toList_append, List.append_assoc, List.append_cancel_left_eq] at this
  exact toList_inj' this

/-- C48. Different tile numbers have different tile files. -/
theorem C48_tile_names (g : GeneralSettings) (i j : Nat) (h : i ≠ j) :
    g.tileFilename i ≠ g.tileFilename j := by
  intro e
  have := congrArg String.toList (joinPath_inj e)
  simp only [String.toList_append, List.append_assoc, List.append_cancel_left_eq,
    List.append_cancel_right_eq] at this
  exact h (fmt02_inj (toList_inj' this))

theorem underscore_fmt02 (n : Nat) : '_' ∉ (fmt02 n).toList := by
  intro h
  exact absurd (fmt02_digit h) (by decide)

/-- C48. Different tile pairs have different groups in the overlap file, and no group has
the name of one of the two datasets stored beside them. -/
theorem C48_group_names (i j k l : Nat) :
    (overlapGroupname i j = overlapGroupname k l → i = k ∧ j = l) ∧
    overlapGroupname i j ≠ "conn_comp" ∧ overlapGroupname i j ≠ "overlaps" := by
  have hx : (overlapGroupname i j).toList = (fmt02 i).toList ++ '_' :: (fmt02 j).toList := by
    simp [overlapGroupname, String.toList_append]
  have hd : ∀ s : String, (s.toList.headD ' ').isDigit = false → overlapGroupname i j ≠ s := by
    intro s hs e
    rw [← e, hx] at hs
    have hne := fmt02_ne_nil i
    cases h : (fmt02 i).toList with
    | nil => exact hne h
    | cons c cs =>
      rw [h] at hs
      have := fmt02_digit (n := i) (c := c) (by rw [h]; simp)
      simp [this] at hs
  refine ⟨fun e => ?_, hd _ (by decide), hd _ (by decide)⟩
  have := congrArg String.toList e
  rw [hx, show (overlapGroupname k l).toList = (fmt02 k).toList ++ '_' :: (fmt02 l).toList by
    simp [overlapGroupname, String.toList_append]] at this
  obtain ⟨h1, h2⟩ := split_underscore (underscore_fmt02 i) (underscore_fmt02 k) this
  exact ⟨fmt02_inj (toList_inj' h1), fmt02_inj (toList_inj' h2)⟩

/-- C48. Dates without an underscore (as all dates of a stack, see C35): different date
pairs have different output files. -/
theorem C48_unw_names (g : GeneralSettings) (d1 d2 e1 e2 : String) (h1 : '_' ∉ d1.toList)
    (h2 : '_' ∉ e1.toList) (h : g.unwFilename d1 d2 = g.unwFilename e1 e2) : d1 = e1 ∧ d2 = e2 := by
  have := congrArg String.toList (joinPath_inj h)
  simp only [String.toList_append, List.append_assoc] at this
  rw [show "_".toList = ['_'] from rfl, List.singleton_append, List.singleton_append] at this
  obtain ⟨h3, h4⟩ := split_underscore h1 h2 this
  rw [List.append_cancel_right_eq] at h4
  exact ⟨toList_inj' h3, toList_inj' h4⟩

/-- Names with different last characters differ, whatever their folders. -/
theorem ne_of_last {f f' a b : String} {x y : Char} (ha : a.toList.getLast? = some x)
    (hb : b.toList.getLast? = some y) (hxy : x ≠ y) : joinPath f a ≠ joinPath f' b := by
  intro e
  have := congrArg (fun s => s.toList.getLast?) e
  simp only [joinPath, String.toList_append, List.getLast?_append, ha, hb] at this
  simp at this
  exact hxy this

/-- C48. The four kinds of intermediate files and the output files never coincide, even if
both folders are the same. -/
theorem C48_kinds_distinct (g : GeneralSettings) (i : Nat) (d1 d2 : String) :
    [g.tilesJsonname, g.tileFilename i, g.overlapFilename, g.offsetsFilename,
      g.unwFilename d1 d2].Nodup := by
  have htile : ∀ s : String, s.toList.take 3 ≠ ['u', 'w', '_'] →
      g.tileFilename i ≠ joinPath g.intermediateFolder s := by
    intro s hs e
    apply hs
    rw [← joinPath_inj e]
    simp [String.toList_append]
  have hlast : ∀ p : String, (p ++ ".h5").toList.getLast? = some '5' := by
    intro p; simp [String.toList_append]
  have hunw : (d1 ++ "_" ++ d2 ++ ".unw.tif").toList.getLast? = some 'f' := by
    rw [String.toList_append, List.getLast?_append]; rfl
  have hconst : ∀ (f a b : String), a ≠ b → joinPath f a ≠ joinPath f b :=
    fun f a b h e => h (joinPath_inj e)
  simp only [List.nodup_cons, List.mem_cons, List.not_mem_nil, or_false, not_or, not_false_eq_true,
    and_true, List.nodup_nil]
  refine ⟨⟨?_, ?_, ?_, ?_⟩, ⟨?_, ?_, ?_⟩, ⟨?_, ?_⟩, ?_⟩
  · exact (htile _ (by decide)).symm
  · exact hconst _ _ _ (by decide)
  · exact hconst _ _ _ (by decide)
  · exact ne_of_last (x := 'n') (y := 'f') (by decide) hunw (by decide)
  · exact htile _ (by decide)
  · exact htile _ (by decide)
  · exact ne_of_last (x := '5') (y := 'f') (hlast _) hunw (by decide)
  · exact hconst _ _ _ (by decide)
  · exact ne_of_last (x := '5') (y := 'f') (by decide) hunw (by decide)
  · exact ne_of_last (x := '5') (y := 'f') (by decide) hunw (by decide)

/-- C48. For a stack of distinct dates without underscores and an interferogram list without
repetitions, all output names differ. -/
theorem C48_outputs_distinct (g : GeneralSettings) (dates : List String) (links : List (Nat × Nat))
    (hd : dates.Nodup) (hu : ∀ d ∈ dates, '_' ∉ d.toList) (hl : links.Nodup)
    (hr : ∀ l ∈ links, l.1 < dates.length ∧ l.2 < dates.length) :
    (outputNames g dates links).Nodup := by
  unfold outputNames
  refine List.Nodup.map_on ?_ hl
  intro a ha b hb h
  obtain ⟨a1, a2⟩ := hr a ha
  obtain ⟨b1, b2⟩ := hr b hb
  rw [List.getD_eq_getElem _ _ a1, List.getD_eq_getElem _ _ a2, List.getD_eq_getElem _ _ b1,
    List.getD_eq_getElem _ _ b2] at h
  obtain ⟨e1, e2⟩ := C48_unw_names g _ _ _ _ (hu _ (List.getElem_mem _)) (hu _ (List.getElem_mem _)) h
  exact Prod.ext ((List.Nodup.getElem_inj_iff hd).mp e1) ((List.Nodup.getElem_inj_iff hd).mp e2)

/-! The names of the diff and model rasters. -/

/-- The text occurs somewhere in the list. -/
def Occurs (old l : List Char) : Prop := ∃ a b, l = a ++ old ++ b

theorem pyReplace_skip {old new : List Char} : ∀ (p s : List Char),
    (∀ k, k < p.length → ¬ old <+: (p ++ s).drop k) →
    pyReplace old new (p ++ s) = p ++ pyReplace old new s := by
  intro p
  induction p with
  | nil => intro s _; rfl
  | cons c p ih =>
    intro s h
    have hc : ¬ (old ≠ [] ∧ old.isPrefixOf (c :: (p ++ s)) = true) := by
      rintro ⟨_, h2⟩
      exact h 0 (by simp) (by simpa using h2)
    have := ih s (by
      intro k hk
      have := h (k + 1) (by simp; omega)
      simpa using this)
    unfold pyReplace at this ⊢
    rw [List.cons_append, pyReplaceGo, if_neg hc, this]
    rfl

theorem pyReplaceGo_drop {old new : List Char} : ∀ (k : Nat) (l : List Char),
    pyReplaceGo old new k l = pyReplaceGo old new 0 (l.drop k) := by
  intro k
  induction k with
  | zero => intro l; rfl
  | succ k ih =>
    intro l
    cases l with
    | nil => simp [pyReplaceGo]
    | cons c l => rw [pyReplaceGo, ih]; rfl

theorem pyReplace_match {old new s : List Char} (h : old ≠ []) :
    pyReplace old new (old ++ s) = new ++ pyReplace old new s := by
  cases old with
  | nil => exact absurd rfl h
  | cons c cs =>
    unfold pyReplace
    rw [List.cons_append, pyReplaceGo, if_pos, pyReplaceGo_drop]
    · simp
    · exact ⟨by simp, by simp [List.isPrefixOf_iff_prefix]⟩

/-- C48. If neither the folder nor the dates contain `.tif`, the diff and model rasters are
named `<d1>_<d2>.unw_diff.tif` and `<d1>_<d2>.unw_model.tif` in the same folder. -/
theorem C48_derived_names (g : GeneralSettings) (d1 d2 : String)
    (hclean : ¬ Occurs ".tif".toList
      (g.outputFolder ++ "/" ++ d1 ++ "_" ++ d2 ++ ".unw").toList) :
    diffName (g.unwFilename d1 d2) = g.outputFolder ++ "/" ++ d1 ++ "_" ++ d2 ++ ".unw_diff.tif" ∧
    modelName (g.unwFilename d1 d2) = g.outputFolder ++ "/" ++ d1 ++ "_" ++ d2 ++ ".unw_model.tif" := by
  set base := (g.outputFolder ++ "/" ++ d1 ++ "_" ++ d2 ++ ".unw").toList with hb
  have hfull : (g.unwFilename d1 d2).toList = base ++ ".tif".toList := by
    rw [hb]
    simp [GeneralSettings.unwFilename, joinPath, String.toList_append]
  have key : ∀ suffix : String, derivedName (g.unwFilename d1 d2) suffix =
      String.ofList (base ++ (suffix ++ ".tif").toList) := by
    intro suffix
    unfold derivedName
    rw [hfull, pyReplace_skip]
    · have := pyReplace_match (old := ".tif".toList) (new := (suffix ++ ".tif").toList) (s := [])
        (by decide)
      rw [List.append_nil] at this
      rw [this]
      simp [pyReplace, pyReplaceGo]
    · intro k hk hp
      obtain ⟨t, ht⟩ := hp
      -- an occurrence starting inside `base`
      have hlen : k + 4 ≤ base.length ∨ base.length < k + 4 := by omega
      rcases hlen with hl | hl
      · apply hclean
        refine ⟨base.take k, base.drop (k + 4), ?_⟩
        have h1 : (base ++ ".tif".toList).drop k = base.drop k ++ ".tif".toList :=
          List.drop_append_of_le_length hk.le
        have h2 : (".tif".toList ++ t).take 4 = (base.drop k).take 4 := by
          rw [ht, h1, List.take_append_of_le_length (by simp; omega)]
        have h3 : ".tif".toList = (base.drop k).take 4 := by
          rw [← h2]; rfl
        conv_lhs => rw [← List.take_append_drop k base, ← List.take_append_drop 4 (base.drop k), ← h3]
        rw [List.drop_drop, List.append_assoc]
      · -- it would overlap the end of ".unw" followed by ".tif"
        have hbu : ∃ q, base = q ++ ['.', 'u', 'n', 'w'] := by
          refine ⟨(g.outputFolder ++ "/" ++ d1 ++ "_" ++ d2).toList, ?_⟩
          rw [hb, String.toList_append]; rfl
        obtain ⟨q, hq⟩ := hbu
        have hql : base.length = q.length + 4 := by rw [hq]; simp
        obtain ⟨j, rfl⟩ : ∃ j, k = q.length + j := ⟨k - q.length, by omega⟩
        have hj : j < 4 := by omega
        have h1 : (base ++ ".tif".toList).drop (q.length + j) =
            ['.', 'u', 'n', 'w', '.', 't', 'i', 'f'].drop j := by
          rw [hq, List.append_assoc, ← List.drop_drop, List.drop_left]; rfl
        rw [h1] at ht
        have : j = 0 ∨ j = 1 ∨ j = 2 ∨ j = 3 := by omega
        rcases this with rfl | rfl | rfl | rfl <;> simp at ht
  constructor
  · unfold diffName
    rw [key]
    apply toList_inj'
    rw [hb]
    simp [String.toList_append]
  · unfold modelName
    rw [key]
    apply toList_inj'
    rw [hb]
    simp [String.toList_append]

/-- C48. The three rasters of one band are three different files, and none of the two extra
ones is the unwrapped raster of another band. -/
theorem C48_derived_distinct (g : GeneralSettings) (d1 d2 e1 e2 : String)
    (hclean : ¬ Occurs ".tif".toList
      (g.outputFolder ++ "/" ++ d1 ++ "_" ++ d2 ++ ".unw").toList) :
    diffName (g.unwFilename d1 d2) ≠ modelName (g.unwFilename d1 d2) ∧
    diffName (g.unwFilename d1 d2) ≠ g.unwFilename e1 e2 ∧
    modelName (g.unwFilename d1 d2) ≠ g.unwFilename e1 e2 := by
  obtain ⟨h1, h2⟩ := C48_derived_names g d1 d2 hclean
  have hr : ∀ (a b : String) (x y : List Char), x.length = y.length → x ≠ y →
      (∃ p, a.toList = p ++ x) → (∃ p, b.toList = p ++ y) → a ≠ b := by
    intro a b x y hl hxy ⟨p, hp⟩ ⟨q, hq⟩ e
    rw [e, hq] at hp
    exact hxy (List.append_inj' hp hl.symm).2.symm
  have hu : ∃ p, (g.unwFilename e1 e2).toList = p ++ "w.tif".toList :=
    ⟨(joinPath g.outputFolder (e1 ++ "_" ++ e2 ++ ".un")).toList, by
      simp [GeneralSettings.unwFilename, joinPath, String.toList_append]⟩
  rw [h1, h2]
  refine ⟨?_, ?_, ?_⟩
  · exact hr _ _ "f.tif".toList "l.tif".toList rfl (by decide)
      ⟨(g.outputFolder ++ "/" ++ d1 ++ "_" ++ d2 ++ ".unw_dif").toList, by simp [String.toList_append]⟩
      ⟨(g.outputFolder ++ "/" ++ d1 ++ "_" ++ d2 ++ ".unw_mode").toList, by simp [String.toList_append]⟩
  · exact hr _ _ "f.tif".toList "w.tif".toList rfl (by decide)
      ⟨(g.outputFolder ++ "/" ++ d1 ++ "_" ++ d2 ++ ".unw_dif").toList, by simp [String.toList_append]⟩ hu
  · exact hr _ _ "l.tif".toList "w.tif".toList rfl (by decide)
      ⟨(g.outputFolder ++ "/" ++ d1 ++ "_" ++ d2 ++ ".unw_mode").toList, by simp [String.toList_append]⟩ hu

/-- C48, a limit of the code: in a folder whose name contains `.tif` the diff raster goes to
another folder. -/
theorem C48_derived_folder_refuted :
    diffName (({ outputFolder := "out.tifs" } : GeneralSettings).unwFilename "20200101" "20200113") =
      "out_diff.tifs/20200101_20200113.unw_diff.tif" := by
  decide

example : ({} : GeneralSettings).tileFilename 3 = "emcf_tmp/uw_tile_03.h5" ∧
    ({} : GeneralSettings).tileFilename 123 = "emcf_tmp/uw_tile_123.h5" ∧
    overlapGroupname 3 11 = "03_11" ∧
    diffName (({} : GeneralSettings).unwFilename "20200101" "20200113") =
      "emcf/20200101_20200113.unw_diff.tif" := by decide

example : (outputNames {} ["20200101", "20200113", "20200125"] [(0, 1), (0, 2), (1, 2)]).Nodup :=
  C48_outputs_distinct _ _ _ (by decide) (by decide) (by decide) (by decide)

end Spurt
