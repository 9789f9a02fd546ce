import Verif.Props.Interior
import Verif.Props.BandAloneExample

/-!
# Two sets of tile files that meet the hypotheses of C86
-/

namespace Spurt
open Spec

namespace Cut

/-- An unwrapping error of two cycles in the first column of the image, which only the first tile covers. -/
def wrong (b : Nat) (p : ℤ × ℤ) : ℚ := phi b p + if p.2 = 0 then 2 else 0

theorem wrong_shared (b : Nat) (hb : b < 2) : SameShared 2 (pick phi [0, 1]) (pick wrong [0, 1]) b := by
  refine ⟨fun i _ => rfl, ?_⟩
  intro i hi j hj hij p hpi hpj
  have hcol : 1 ≤ p.2 := by
    have h1 : ∀ k < 2, k = 1 → p ∈ filePoints (pick phi [0, 1] k) → 1 ≤ p.2 := by
      rintro k _ rfl hp
      simp only [filePoints, pick, List.mem_map] at hp
      obtain ⟨x, hx, rfl⟩ := hp
      have : ∀ x ∈ pix, (0 : ℤ) ≤ x.2 := by decide
      have := this x hx
      simp only
      omega
    rcases (show i = 1 ∨ j = 1 by omega) with h | h
    · exact h1 i hi h hpi
    · exact h1 j hj h hpj
  have hl := List.idxOf_lt_length_iff.mpr hpi
  have h15 : (filePoints (pick phi [0, 1] i)).idxOf p < 15 := hl
  have hw : filePoints (pick wrong [0, 1] i) = filePoints (pick phi [0, 1] i) := rfl
  unfold phaseAtPixel
  rw [hw, pick_phase wrong (bs := [0, 1]) hb i _ h15, pick_phase phi (bs := [0, 1]) hb i _ h15]
  have hpt : ∀ k, ∀ hk : k < (filePoints (pick phi [0, 1] i)).length,
      ((filePoints (pick phi [0, 1] i))[k]'hk).2 = (pix.getD k (0, 0)).2 + i := by
    intro k hk
    have hl' : k < pix.length := hk
    rw [List.getD_eq_getElem _ _ hl']
    simp only [filePoints, pick, List.getElem_map]
  have hpt := hpt _ hl
  rw [List.getElem_idxOf hl] at hpt
  rw [← hpt]
  unfold wrong
  rw [if_neg (by show ¬ p.2 = 0; omega), add_zero]

/-- Non-vacuity of C86: the merged phase has the error in the first column, and is right everywhere else. -/
example : ∃ (mip : MipSolver) (env env' : MergeEnv ℚ) (bulk bulk' : BulkFile ℚ) (out out' : List (Nat × MergedBand ℚ))
    (m m' : MergedBand ℚ), env'.lin = env.lin ∧ env'.simplices = env.simplices ∧
    MergeInput 1 11 cutLabels 2 tiles (fun i => .ok (pick phi [0, 1] i)) (pick phi [0, 1]) env.overlap bulk { bulkMethod := "integer" } ∧
    MergeInput 1 11 cutLabels 2 tiles (fun i => .ok (pick wrong [0, 1] i)) (pick wrong [0, 1]) env'.overlap bulk' { bulkMethod := "integer" } ∧
    bulkOffsets mip (fun _ _ => []) "integer" tiles (⟨3, 6, fun _ _ => some 1⟩ : Band (Option ℚ)) (1 / 2) env.overlap = .ok (some bulk) ∧
    bulkOffsets mip (fun _ _ => []) "integer" tiles (⟨3, 6, fun _ _ => some 1⟩ : Band (Option ℚ)) (1 / 2) env'.overlap = .ok (some bulk') ∧
    mergeTiles 1 env { bulkMethod := "integer" } tiles (fun i => .ok (pick phi [0, 1] i)) bulk 2 (fun _ => false) = .ok (.merged out) ∧
    mergeTiles 1 env' { bulkMethod := "integer" } tiles (fun i => .ok (pick wrong [0, 1] i)) bulk' 2 (fun _ => false) = .ok (.merged out') ∧
    (1, m) ∈ out ∧ (1, m') ∈ out' ∧ (∀ b < 2, SameShared 2 (pick phi [0, 1]) (pick wrong [0, 1]) b) ∧
    (∃ v, m.out.val 2 0 = some v ∧ m'.out.val 2 0 = some (v + 2)) := by
  obtain ⟨mip, hopt, hcomp⟩ := exists_mip_solver
  obtain ⟨olap, bulk, out, a1, a2, a3, a4⟩ := pick_run hopt hcomp phi [0, 1] (by simp)
  obtain ⟨olap', bulk', out', b1, b2, b3, b4⟩ := pick_run hopt hcomp wrong [0, 1] (by simp)
  have hget : ∀ (o : List (Nat × MergedBand ℚ)) (n k : Nat), o.map Prod.fst = List.range n → k < n → ∃ x, (k, x) ∈ o := by
    intro o n k ho hk
    have : k ∈ o.map Prod.fst := by rw [ho]; exact List.mem_range.mpr hk
    obtain ⟨⟨k', x⟩, hx, rfl⟩ := List.mem_map.mp this
    exact ⟨x, hx⟩
  obtain ⟨m, hm⟩ := hget out 2 1 a4 (by omega)
  obtain ⟨m', hm'⟩ := hget out' 2 1 b4 (by omega)
  obtain ⟨_, _, k3⟩ := C86_local 1 11 cutLabels 2 tiles _ _ _ _
      ⟨⟨fun _ => true, fun _ b => b⟩, fun _ => [(0, 1, 14)], olap⟩ ⟨⟨fun _ => true, fun _ b => b⟩, fun _ => [(0, 1, 14)], olap'⟩ rfl rfl
      bulk bulk' _ _ a1 b1 wrong_shared mip _ _ _ "integer" a2 b2 _ _ out out' a3 b3 1 m m' hm hm' 2 0
  refine ⟨mip, ⟨⟨fun _ => true, fun _ b => b⟩, fun _ => [(0, 1, 14)], olap⟩, ⟨⟨fun _ => true, fun _ b => b⟩, fun _ => [(0, 1, 14)], olap'⟩,
    bulk, bulk', out, out', m, m', rfl, rfl, a1, b1, a2, b2, a3, b3, hm, hm', wrong_shared, ?_⟩
  have e1 : phaseAtPixel (pick wrong [0, 1] 0) 1 (((2 : Nat) : ℤ), ((0 : Nat) : ℤ)) -
      phaseAtPixel (pick phi [0, 1] 0) 1 (((2 : Nat) : ℤ), ((0 : Nat) : ℤ)) = 2 := by decide +kernel
  obtain ⟨v, h1, h2⟩ := k3 0 (by decide) (by decide +kernel) (by intro hc; rw [hc] at e1; simp at e1)
  exact ⟨v, h1, by rw [h2, e1]⟩

end Cut

end Spurt
