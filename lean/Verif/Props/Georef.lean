import Verif.Model.Georef
import Verif.Props.SlcStack
import Verif.Props.Io3D

/-!
# Property C77: the georeferencing of the output rasters
-/

namespace Spurt
open Spec

/-- The dates of a stack and the last of them. -/
theorem likeFile_iff {files : SlcFiles} (hnd : (files.map Prod.fst).Nodup) (f : Option String) :
    likeFile files = .ok f ↔ ∃ d, (d, f) ∈ files ∧ ∀ x ∈ files, x.1 ≤ d := by
  obtain ⟨p1, p2, p3⟩ := stackDates_spec hnd
  have hlast : ∀ d, (stackDates files).getLast? = some d ↔ d ∈ stackDates files ∧ ∀ x ∈ stackDates files, x ≤ d := by
    intro d
    rcases List.eq_nil_or_concat (stackDates files) with h | ⟨l, e, h⟩
    · simp [h]
    · rw [h] at p1 ⊢
      rw [List.concat_eq_append, List.pairwise_append] at p1
      simp only [List.concat_eq_append, List.getLast?_append, List.getLast?_singleton, Option.some_or, Option.some.injEq,
        List.mem_append, List.mem_singleton]
      constructor
      · rintro rfl
        exact ⟨Or.inr rfl, fun x hx => hx.elim (fun h => (p1.2.2 x h _ (by simp)).le) fun h => h.le⟩
      · rintro ⟨h1 | h1, h2⟩
        · exact absurd (h2 e (Or.inr rfl)) (not_le.mpr (p1.2.2 d h1 e (by simp)))
        · exact h1.symm
  have hlook : ∀ d f, (d, f) ∈ files → files.lookup d = some f := by
    intro d f h
    clear hlast p1 p2 p3
    induction files with
    | nil => simp at h
    | cons x l ih =>
      obtain ⟨d0, f0⟩ := x
      simp only [List.map_cons, List.nodup_cons, List.mem_map, not_exists, not_and] at hnd
      rw [List.lookup_cons]
      rcases List.mem_cons.mp h with h1 | h1
      · simp only [Prod.mk.injEq] at h1
        obtain ⟨rfl, rfl⟩ := h1
        simp
      · have : ¬ d = d0 := fun hc => hnd.1 _ h1 hc
        rw [show (d == d0) = false by simpa using this]
        exact ih hnd.2 h1
  have hkeys : ∀ d, d ∈ stackDates files ↔ ∃ f, (d, f) ∈ files := by
    intro d
    rw [p3]
    simp
  unfold likeFile
  constructor
  · intro h
    cases hl : (stackDates files).getLast? with
    | none => rw [hl] at h; simp at h
    | some d =>
      rw [hl] at h
      obtain ⟨h1, h2⟩ := (hlast d).mp hl
      obtain ⟨g, hg⟩ := (hkeys d).mp h1
      simp only [hlook d g hg, Option.elim_some, Except.ok.injEq] at h
      subst h
      exact ⟨d, hg, fun x hx => h2 x.1 ((hkeys _).mpr ⟨x.2, hx⟩)⟩
  · rintro ⟨d, h1, h2⟩
    rw [(hlast d).mpr ⟨(hkeys d).mpr ⟨f, h1⟩, fun x hx => by
      obtain ⟨g, hg⟩ := (hkeys x).mp hx
      exact h2 _ hg⟩]
    simp [hlook d f h1]

theorem keys_nodup {files : SlcFiles} (h : (stackDates files).Pairwise (· < ·)) : (files.map Prod.fst).Nodup := by
  have hp : (stackDates files).Perm (files.map Prod.fst) := List.mergeSort_perm _ _
  exact hp.nodup_iff.mp (h.imp fun h => ne_of_lt h)

theorem mem_keys {files : SlcFiles} {d : String} : d ∈ stackDates files ↔ ∃ f, (d, f) ∈ files := by
  have hp : (stackDates files).Perm (files.map Prod.fst) := List.mergeSort_perm _ _
  rw [hp.mem_iff]
  simp

theorem exists_latest (l : List String) (g : String → String) (h : l ≠ []) : ∃ n ∈ l, ∀ m ∈ l, g m ≤ g n := by
  induction l with
  | nil => exact absurd rfl h
  | cons a l ih =>
    rcases l.eq_nil_or_concat with rfl | h'
    · exact ⟨a, by simp, by simp⟩
    · obtain ⟨n, hn, hm⟩ := ih (by rintro rfl; obtain ⟨_, _, h⟩ := h'; simp at h)
      rcases le_total (g a) (g n) with h1 | h1
      · exact ⟨n, by simp [hn], fun m hm' => (List.mem_cons.mp hm').elim (fun e => e ▸ h1) (hm m)⟩
      · exact ⟨a, by simp, fun m hm' => (List.mem_cons.mp hm').elim (fun e => e ▸ le_rfl) fun e => (hm m e).trans h1⟩

/-- C77. The rasters made from a folder of SLCs take over the options of the SLC with the latest date; without SLCs the merge
stage raises. -/
theorem C77_slc_directory (folder : List String) (files : SlcFiles) (h : fromSlcDirectory folder = .ok files) :
    (endingIn folder ".slc.tif" = [] → likeFile files = .error .indexError) ∧
    (endingIn folder ".slc.tif" ≠ [] → ∃ n ∈ endingIn folder ".slc.tif", likeFile files = .ok (some n) ∧
      ∀ m ∈ endingIn folder ".slc.tif", dateOf m.toList ≤ dateOf n.toList) := by
  obtain ⟨h1, h2, h3, h4, _⟩ := (C35_slc_directory folder).2 files h
  constructor
  · intro h0
    rw [h0] at h2
    unfold likeFile
    rw [List.length_eq_zero_iff.mp h2]
    rfl
  · intro h0
    obtain ⟨n, hn, hm⟩ := exists_latest _ (fun n => dateOf n.toList) h0
    refine ⟨n, hn, (likeFile_iff (keys_nodup h1) _).mpr ⟨dateOf n.toList, (h4 _ _).mpr ⟨hn, rfl⟩, ?_⟩, hm⟩
    rintro ⟨d, f⟩ hx
    cases f with
    | none => exact absurd hx (h3 d)
    | some m =>
      obtain ⟨g1, g2⟩ := (h4 _ _).mp hx
      simp only
      rw [← g2]
      exact hm m g1

/-- C77. The rasters made from a folder of phase-linked interferograms take over the options of the interferogram whose second
date is the latest, unless the reference date is later than all of these: then they take over nothing. -/
theorem C77_phase_linked (folder : List String) (files : SlcFiles) (h : fromPhaseLinkedDirectory folder = .ok files) :
    ∃ first ∈ endingIn folder ".int.tif", (∀ n ∈ endingIn folder ".int.tif", first ≤ n) ∧
      ((∀ n ∈ endingIn folder ".int.tif", ∀ d, secondDate n = some d → d < dateOf first.toList) → likeFile files = .ok none) ∧
      ((∃ n ∈ endingIn folder ".int.tif", ∃ d, secondDate n = some d ∧ dateOf first.toList < d) →
        ∃ n ∈ endingIn folder ".int.tif", likeFile files = .ok (some n) ∧ ∃ d, secondDate n = some d ∧
          ∀ m ∈ endingIn folder ".int.tif", ∀ d', secondDate m = some d' → d' ≤ d) := by
  obtain ⟨first, hf, hmin, h1, h2, h3, h4, h5, _⟩ := (C35_phase_linked folder).2 files h
  obtain ⟨first', hf', hmin', hall, _⟩ := ((C35_phase_linked folder).1.mp ⟨files, h⟩).2
  refine ⟨first, hf, hmin, fun hlast => ?_, ?_⟩
  · refine (likeFile_iff (keys_nodup h1) _).mpr ⟨dateOf first.toList, (h4 _).mpr rfl, ?_⟩
    rintro ⟨d, f⟩ hx
    rcases (h3 d).mp (mem_keys.mpr ⟨f, hx⟩) with h | ⟨n, hn, hd⟩
    · exact le_of_eq h
    · exact (hlast n hn d hd).le
  · rintro ⟨n0, hn0, d0, hd0, hlt⟩
    obtain ⟨n, hn, hm⟩ := exists_latest _ (fun n => (secondDate n).getD "") (List.ne_nil_of_mem hn0)
    obtain ⟨d, hd⟩ := (hall n hn).2
    have hle : ∀ m ∈ endingIn folder ".int.tif", ∀ d', secondDate m = some d' → d' ≤ d := by
      intro m hm' d' hd'
      have := hm m hm'
      simpa [hd, hd'] using this
    refine ⟨n, hn, (likeFile_iff (keys_nodup h1) _).mpr ⟨d, (h5 _ _).mpr ⟨hn, hd⟩, ?_⟩, d, hd, hle⟩
    rintro ⟨d', f⟩ hx
    rcases (h3 d').mp (mem_keys.mpr ⟨f, hx⟩) with h | ⟨m, hm', hd'⟩
    · simp only [h]
      exact (hlt.le).trans (hle n0 hn0 d0 hd0)
    · exact hle m hm' d' hd'

/-- C77. An output raster has the size of the tile set, one band of `float32`, NaN for no data, and is a tiled, compressed GeoTIFF;
every other option, the CRS and the transform among them, is that of the reference raster, and unset without one. Creating it raises
only if the reference raster cannot be opened. -/
theorem C77_options {G : Type} (openLike : String → Except PyErr (Options (OptVal G))) (like : Option String) (shape : Nat × Nat) :
    (∀ f e, like = some f → openLike f = .error e → outputOptions openLike like shape = .error e) ∧
    ∀ profile : Options (OptVal G), (like = none ∧ profile = fun _ => none) ∨ (∃ f, like = some f ∧ openLike f = .ok profile) →
      ∃ o, outputOptions openLike like shape = .ok o ∧
        o "height" = some (.num shape.1) ∧ o "width" = some (.num shape.2) ∧ o "count" = some (.num 1) ∧
        o "dtype" = some (.text "float32") ∧ o "nodata" = some .nan ∧ o "driver" = some (.text "GTiff") ∧
        o "tiled" = some (.flag true) ∧ o "blockxsize" = some (.num 512) ∧ o "blockysize" = some (.num 512) ∧
        o "compress" = some (.text "DEFLATE") ∧
        ∀ key, key ∉ ["height", "width", "count", "dtype", "nodata", "driver", "tiled", "blockxsize", "blockysize", "compress"] →
          o key = profile key := by
  constructor
  · rintro f e rfl h
    simp [outputOptions, h, Except.map, Bind.bind, Except.bind]
  · intro profile hp
    have : ∃ lp : Option (Options (OptVal G)), (like.elim (.ok none) fun f => (openLike f).map some) = Except.ok lp ∧
        ∀ k, (lp.bind fun p => p k) = profile k := by
      rcases hp with ⟨rfl, rfl⟩ | ⟨f, rfl, hf⟩
      · exact ⟨none, rfl, fun _ => rfl⟩
      · exact ⟨some profile, by simp [hf, Except.map], fun _ => rfl⟩
    obtain ⟨lp, e, hlp⟩ := this
    refine ⟨_, by unfold outputOptions; rw [e]; rfl, ?_⟩
    simp only [C34_create, hlp]
    refine ⟨?_, ?_, ?_, ?_, ?_, ?_, ?_, ?_, ?_, ?_, ?_⟩
    any_goals simp [CreateArgs.get]
    intro key k1 k2 k3 k4 k5 k6 k7 k8 k9 k10
    simp [k1, k2, k3, k4, k5, k6, k7, k8, k9, k10]

/-- C77. What a user of a folder of SLCs sees: every output raster has the CRS and the transform of the latest SLC. -/
theorem C77_georeferenced {G : Type} (openLike : String → Except PyErr (Options (OptVal G))) (shape : Nat × Nat)
    (hopen : ∀ n, ∃ p, openLike n = .ok p) (folder : List String) (files : SlcFiles) (h : fromSlcDirectory folder = .ok files)
    (hne : endingIn folder ".slc.tif" ≠ []) :
    ∃ n ∈ endingIn folder ".slc.tif", (∀ m ∈ endingIn folder ".slc.tif", dateOf m.toList ≤ dateOf n.toList) ∧
      ∃ like p o, likeFile files = .ok like ∧ openLike n = .ok p ∧ outputOptions openLike like shape = .ok o ∧
        o "crs" = p "crs" ∧ o "transform" = p "transform" := by
  obtain ⟨n, hn, h1, h2⟩ := (C77_slc_directory folder files h).2 hne
  obtain ⟨p, hp⟩ := hopen n
  obtain ⟨o, ho, _, _, _, _, _, _, _, _, _, _, hk⟩ := (C77_options openLike (some n) shape).2 p (Or.inr ⟨n, rfl, hp⟩)
  exact ⟨n, hn, h2, some n, p, o, h1, hp, ho, hk _ (by decide), hk _ (by decide)⟩

/-- C77. A phase-linked stack whose reference date is the latest loses the georeferencing: whatever the CRS of the
interferograms, the output rasters have none. -/
theorem C77_reference_last_refuted {G : Type} (openLike : String → Except PyErr (Options (OptVal G))) (shape : Nat × Nat) :
    ∃ files, fromPhaseLinkedDirectory ["temporal_coherence.tif", "20200301_20200101.int.tif", "20200301_20200201.int.tif"] = .ok files ∧
      likeFile files = .ok none ∧ ∃ o, outputOptions openLike none shape = .ok o ∧ o "crs" = none ∧ o "transform" = none := by
  have hend : endingIn ["temporal_coherence.tif", "20200301_20200101.int.tif", "20200301_20200201.int.tif"] ".int.tif" =
      ["20200301_20200101.int.tif", "20200301_20200201.int.tif"] := by decide +kernel
  obtain ⟨files, hf⟩ := (C35_phase_linked
    ["temporal_coherence.tif", "20200301_20200101.int.tif", "20200301_20200201.int.tif"]).1.mpr (by
      rw [hend]
      refine ⟨by decide, "20200301_20200101.int.tif", by decide, by decide +kernel, ?_, by decide +kernel⟩
      intro n hn
      simp only [List.mem_cons, List.not_mem_nil, or_false] at hn
      rcases hn with rfl | rfl
      · exact ⟨by decide +kernel, "20200101", by decide +kernel⟩
      · exact ⟨by decide +kernel, "20200201", by decide +kernel⟩)
  refine ⟨files, hf, ?_, ?_⟩
  · obtain ⟨first, h1, h2, h3, _⟩ := C77_phase_linked _ files hf
    rw [hend] at h1 h3
    apply h3
    intro n hn d hd
    have hfd : dateOf first.toList = "20200301" := by
      simp only [List.mem_cons, List.not_mem_nil, or_false] at h1
      rcases h1 with rfl | rfl <;> decide +kernel
    rw [hfd]
    simp only [List.mem_cons, List.not_mem_nil, or_false] at hn
    have e1 : secondDate "20200301_20200101.int.tif" = some "20200101" := by decide +kernel
    have e2 : secondDate "20200301_20200201.int.tif" = some "20200201" := by decide +kernel
    rcases hn with rfl | rfl
    · rw [e1, Option.some.injEq] at hd
      subst hd
      decide +kernel
    · rw [e2, Option.some.injEq] at hd
      subst hd
      decide +kernel
  · obtain ⟨o, ho, _, _, _, _, _, _, _, _, _, _, hk⟩ := (C77_options openLike none shape).2 _ (Or.inl ⟨rfl, rfl⟩)
    exact ⟨o, ho, by rw [hk _ (by decide)], by rw [hk _ (by decide)]⟩

/-- Non-vacuity: two SLCs; the outputs take over the CRS of the second. -/
example : ∃ files o, fromSlcDirectory ["inv_amp_dispersion.tif", "20200201_b.slc.tif", "20200101_a.slc.tif"] = .ok files ∧
    likeFile files = .ok (some "20200201_b.slc.tif") ∧
    outputOptions (G := Nat) (fun n => .ok fun k => if k = "crs" then some (.geo n.length) else some (.num 7))
      (some "20200201_b.slc.tif") (3, 5) = .ok o ∧ o "crs" = some (.geo 18) ∧ o "width" = some (.num 5) ∧ o "count" = some (.num 1) := by
  have hend : endingIn ["inv_amp_dispersion.tif", "20200201_b.slc.tif", "20200101_a.slc.tif"] ".slc.tif" =
      ["20200201_b.slc.tif", "20200101_a.slc.tif"] := by decide +kernel
  obtain ⟨files, hf⟩ := (C35_slc_directory ["inv_amp_dispersion.tif", "20200201_b.slc.tif", "20200101_a.slc.tif"]).1.mpr (by
    rw [hend]
    exact ⟨by decide, by decide +kernel⟩)
  obtain ⟨n, hn, h1, h2⟩ := (C77_slc_directory _ files hf).2 (by rw [hend]; simp)
  rw [hend] at hn h2
  have hnn : n = "20200201_b.slc.tif" := by
    simp only [List.mem_cons, List.not_mem_nil, or_false] at hn
    rcases hn with rfl | rfl
    · rfl
    · exact absurd (h2 "20200201_b.slc.tif" (by simp)) (by decide +kernel)
  subst hnn
  obtain ⟨o, ho, _, g1, g2, _, _, _, _, _, _, _, hk⟩ := (C77_options (G := Nat) (fun n => .ok fun k => if k = "crs" then some (.geo n.length) else some (.num 7))
    (some "20200201_b.slc.tif") (3, 5)).2 _ (Or.inr ⟨_, rfl, rfl⟩)
  exact ⟨files, o, hf, h1, ho, by rw [hk _ (by decide)]; rfl, g1, g2⟩

end Spurt
