import Verif.Model.Workflow

/-! # Runs by whole files are runs by single writes -/

namespace Spurt

theorem exec_many {D X : Type} (act : D → X → D) (xs : List X) : ∀ {ts : List (List X)} {d d' : D} {b : Bool} {k : Nat} {rest : List X},
    ts[k]? = some (xs ++ rest) → Exec act (ts.set k rest) (xs.foldl act d) b d' → Exec act ts d b d' := by
  induction xs with
  | nil =>
    intro ts d d' b k rest h hx
    have : ts.set k rest = ts := by
      obtain ⟨h0, h1⟩ := List.getElem?_eq_some_iff.mp h
      rw [List.nil_append] at h1
      rw [← h1, List.set_getElem_self]
    rw [this] at hx
    exact hx
  | cons x xs ih =>
    intro ts d d' b k rest h hx
    refine .step k x (xs ++ rest) h (ih (k := k) (rest := rest) ?_ ?_)
    · obtain ⟨h0, _⟩ := List.getElem?_eq_some_iff.mp h
      simp [h0]
    · rw [List.set_set]; exact hx

theorem exec_flatten {D X : Type} (act : D → X → D) {ts : List (List (List X))} {d d' : D} {b : Bool}
    (h : Exec (fun d u => u.foldl act d) ts d b d') : Exec act (ts.map List.flatten) d b d' := by
  induction h with
  | stop ts d => exact .stop _ d
  | done ts d h =>
    refine .done _ d fun t ht => ?_
    obtain ⟨u, hu, rfl⟩ := List.mem_map.mp ht
    rw [h u hu]; rfl
  | step k x rest h _ ih =>
    refine exec_many act x (k := k) (rest := rest.flatten) ?_ ?_
    · rw [List.getElem?_map, h]; rfl
    · rw [List.map_set] at ih; exact ih

/-- A run that stops only between files is a run. -/
theorem run_of_files {K : Type} {ss : List (Stage K)} {d d' : Disk K} {o : Outcome} (h : RunByFile ss d o d') : RunByWrite ss d o d' := by
  unfold RunByFile at h
  unfold RunByWrite
  induction h with
  | finish d => exact .finish d
  | stopped h hx => exact .stopped h (exec_flatten _ (by simpa using hx))
  | raised h hf hx => exact .raised h hf (exec_flatten _ (by simpa using hx))
  | next h hf hx _ ih => exact .next h hf (exec_flatten _ (by simpa using hx)) ih

end Spurt
