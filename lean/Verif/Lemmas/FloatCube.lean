import Verif.Lemmas.Emcf
import Verif.Model.FloatCube
import Verif.Props.Emcf
import Verif.Props.Float

/-! # The stages of `unwrap_cube` in mixed precision, link by link and row by row -/

namespace Spurt
open Spec Finset

section
variable {K : Type} [Field K] [LinearOrder K] [IsStrictOrderedRing K] [FloorRing K]

/-- Flows in time of one spatial link, computed on its own. -/
def linkTimeFl (A : FloatArith K) (solver : FlowSolver) (e : Emcf) (wrap : List (List K)) (isIfg : Bool)
    (cost : List ℤ) (j : Nat) : Except PyErr (List ℤ) :=
  residuesToFlows solver e.time
    (linkResiduesFl A e.time fun i => spaceGradFl A e wrap isIfg i j) cost none

theorem timeBatchFl_iff (A : FloatArith K) (solver : FlowSolver) (e : Emcf)
    {gt : PlanarGraph} (hnd : gt.links.Nodup) (hord : ∀ a b, (a, b) ∈ gt.links → a ≤ b)
    (hm : ormcf gt = .ok e.time) (hmg : e.time.graph = gt)
    (wrap : List (List K)) (isIfg : Bool) (cost : List ℤ)
    (order : List Nat → List Nat) (horder : ∀ l, (order l).Perm l)
    (b : Nat) (hb : e.settings.linksPerBatch.toNat = b) (bb : Nat)
    (grad out : Nat → Nat → K) :
    timeBatchFl A solver e wrap isIfg cost order grad bb = .ok out ↔
      (∀ j, bb * b ≤ j → j < min (bb * b + b) e.nlinks → LinkInput e wrap isIfg j ∧
        linkTimeFl A solver e wrap isIfg cost j =
          .ok (okVal (linkTimeFl A solver e wrap isIfg cost j))) ∧
      out = fun i j => if bb * b ≤ j ∧ j < min (bb * b + b) e.nlinks then
        addCyclesFl A (spaceGradFl A e wrap isIfg i j) ((okVal (linkTimeFl A solver e wrap isIfg cost j)).getD i 0)
        else grad i j := by
  unfold timeBatchFl
  simp only [hb]
  set st := bb * b with hst
  set en := min (st + b) e.nlinks with hen
  by_cases h0 : en - st = 0
  · rw [if_pos h0]
    have hno : ∀ j, ¬ (st ≤ j ∧ j < en) := by intro j; omega
    constructor
    · intro h
      simp only [Except.ok.injEq] at h
      subst h
      refine ⟨fun j h1 h2 => absurd ⟨h1, h2⟩ (hno j), ?_⟩
      funext i j; rw [if_neg (hno j)]
    · rintro ⟨_, rfl⟩
      congr 1; funext i j; rw [if_neg (hno j)]
  rw [if_neg h0]
  have hlen : en ≤ e.space.graph.links.length := by
    rw [hen]; exact min_le_right _ _
  have hinds : (((e.space.graph.links.drop st).take (en - st)).all fun l =>
      decide (l.1 < (wrap.headD []).length ∧ l.2 < (wrap.headD []).length)) = true ↔
      ∀ j, st ≤ j → j < en → (e.space.graph.links.getD j (0, 0)).1 < (wrap.headD []).length ∧
        (e.space.graph.links.getD j (0, 0)).2 < (wrap.headD []).length := by
    rw [List.all_eq_true]
    constructor
    · intro h j h1 h2
      have hj : j - st < ((e.space.graph.links.drop st).take (en - st)).length := by
        rw [List.length_take, List.length_drop]; omega
      have := h _ (List.getElem_mem hj)
      have e1 : ((e.space.graph.links.drop st).take (en - st))[j - st] =
          e.space.graph.links.getD j (0, 0) := by
        rw [List.getElem_take, List.getElem_drop, List.getD_eq_getElem?_getD,
          List.getElem?_eq_getElem (by omega), Option.getD_some]
        congr 1; omega
      rw [e1] at this
      simpa using this
    · intro h l hl
      obtain ⟨k, hk, rfl⟩ := List.mem_iff_getElem.mp hl
      rw [List.length_take, List.length_drop] at hk
      have := h (st + k) (by omega) (by omega)
      rw [List.getD_eq_getElem?_getD, List.getElem?_eq_getElem (by omega), Option.getD_some] at this
      rw [List.getElem_take, List.getElem_drop]
      simpa using this
  have hrows : (e.time.graph.links.all fun l =>
      decide (l.1 < wrap.length ∧ l.2 < wrap.length)) = true ↔
      ∀ l ∈ e.time.graph.links, l.1 < wrap.length ∧ l.2 < wrap.length := by
    rw [List.all_eq_true]; simp
  have hst1 : st < en := by omega
  -- bad input: both sides fail
  by_cases hin : ∀ j, st ≤ j → j < en → LinkInput e wrap isIfg j
  swap
  · constructor
    swap
    · intro h; exact absurd (fun j h1 h2 => (h.1 j h1 h2).1) hin
    · intro h
      exfalso
      split at h
      · simp at h
      · rename_i hi
        rw [not_not, hinds] at hi
        split at h
        · simp at h
        · rename_i h2
          split at h
          · simp at h
          · rename_i h3
            apply hin
            intro j hj1 hj2
            refine ⟨(hi j hj1 hj2).1, (hi j hj1 hj2).2, fun hT => ?_, fun hF => ?_⟩
            · by_contra hne; exact h2 ⟨hT, hne⟩
            · by_contra hne
              apply h3
              refine ⟨by simp [hF], ?_⟩
              rw [hrows]; exact hne
  have hI := hin st le_rfl hst1
  rw [if_neg (by rw [not_not, hinds]; exact fun j h1 h2 => ⟨(hin j h1 h2).1, (hin j h1 h2).2.1⟩),
    if_neg (by rintro ⟨h1, h2⟩; exact h2 (hI.2.2.1 h1)),
    if_neg (by
      rintro ⟨h1, h2⟩
      apply h2; rw [hrows]
      exact hI.2.2.2 (by simpa using h1))]
  -- the residue rows of the batch
  have hrow : (List.range (en - st)).map (fun k => linkResiduesFl A e.time fun ii =>
      (if st ≤ st + k ∧ st + k < en then spaceGradFl A e wrap isIfg ii (st + k)
        else grad ii (st + k))) =
      (List.range (en - st)).map fun k => linkResiduesFl A e.time fun ii =>
        spaceGradFl A e wrap isIfg ii (st + k) := by
    apply List.map_congr_left
    intro k hk
    rw [List.mem_range] at hk
    congr 1; funext ii; rw [if_pos ⟨by omega, by omega⟩]
  rw [hrow]
  set R := (List.range (en - st)).map fun k => linkResiduesFl A e.time fun ii =>
        spaceGradFl A e wrap isIfg ii (st + k) with hR
  have hRl : R.length = en - st := by simp [hR]
  have hRg : ∀ k, k < en - st → residuesToFlows solver e.time (R.getD k []) cost none =
      linkTimeFl A solver e wrap isIfg cost (st + k) := by
    intro k hk
    rw [hR, List.getD_eq_getElem?_getD, List.getElem?_map, List.getElem?_range hk]
    rfl
  have hmany := (C16_many gt e.time solver hnd hord hm (e.time.graph.cycles.length + 1) R cost none
    (poolWorkers e.cpuCount (some e.settings.tWorkerCount)) order horder).2 (by rw [hmg])
  cases hres : residuesToFlowsMany solver e.time (e.time.graph.cycles.length + 1) R cost none
    (poolWorkers e.cpuCount (some e.settings.tWorkerCount)) order with
  | error err =>
    simp only [Bind.bind, Except.bind]
    constructor
    · intro h; simp at h
    · rintro ⟨h, _⟩
      exfalso
      have := (hmany ((List.range (en - st)).map fun k =>
        okVal (linkTimeFl A solver e wrap isIfg cost (st + k)))).mpr
        ⟨by simp [hRl], fun k hk => by
          rw [hRl] at hk
          rw [hRg k hk, (h (st + k) (by omega) (by omega)).2]
          congr 1
          rw [List.getD_eq_getElem?_getD, List.getElem?_map, List.getElem?_range hk]
          rfl⟩
      rw [hres] at this
      simp at this
  | ok F =>
    obtain ⟨hFl, hF⟩ := (hmany F).mp hres
    have hlt : ∀ j, st ≤ j → j < en → linkTimeFl A solver e wrap isIfg cost j =
        .ok (F.getD (j - st) []) := by
      intro j h1 h2
      have := hF (j - st) (by omega)
      rw [hRg _ (by omega)] at this
      rw [show st + (j - st) = j by omega] at this
      exact this
    simp only [Bind.bind, Except.bind, pure, Except.pure, Except.ok.injEq]
    have hfun : (fun i j => if st ≤ j ∧ j < en then
          addCyclesFl A (if st ≤ j ∧ j < en then spaceGradFl A e wrap isIfg i j else grad i j) ((F.getD (j - st) []).getD i 0)
        else if st ≤ j ∧ j < en then spaceGradFl A e wrap isIfg i j else grad i j) =
        fun i j => if st ≤ j ∧ j < en then addCyclesFl A (spaceGradFl A e wrap isIfg i j) ((okVal (linkTimeFl A solver e wrap isIfg cost j)).getD i 0)
          else grad i j := by
      funext i j
      by_cases hj : st ≤ j ∧ j < en
      · simp only [hj, and_self, if_true]
        rw [okVal_eq (hlt j hj.1 hj.2)]
      · simp only [hj, if_false]
    rw [hfun]
    constructor
    · rintro rfl
      exact ⟨fun j h1 h2 => ⟨hin j h1 h2, by rw [okVal_eq (hlt j h1 h2)]; exact hlt j h1 h2⟩, rfl⟩
    · rintro ⟨_, rfl⟩; rfl

/-- Temporal unwrapping of a link does not involve any other link or the batching. -/
theorem inTimeFl_iff (A : FloatArith K) (solver : FlowSolver) (e : Emcf)
    {gt : PlanarGraph} (hnd : gt.links.Nodup) (hord : ∀ a b, (a, b) ∈ gt.links → a ≤ b)
    (hm : ormcf gt = .ok e.time) (hmg : e.time.graph = gt)
    (wrap : List (List K)) (isIfg : Bool) (cost : List ℤ)
    (hcost : costOf e.settings.tCostType e.nifgs e.tDist e.tCent = .ok cost)
    (order : Nat → List Nat → List Nat) (horder : ∀ k l, (order k l).Perm l)
    (hb : 0 < e.settings.linksPerBatch) (out : List (List K)) :
    unwrapInTimeFl A solver e wrap isIfg order = .ok out ↔
      (∀ j < e.nlinks, LinkInput e wrap isIfg j ∧
        linkTimeFl A solver e wrap isIfg cost j =
          .ok (okVal (linkTimeFl A solver e wrap isIfg cost j))) ∧
      out = (List.range e.nifgs).map fun i => (List.range e.nlinks).map fun j =>
        addCyclesFl A (spaceGradFl A e wrap isIfg i j) ((okVal (linkTimeFl A solver e wrap isIfg cost j)).getD i 0) := by
  set b := e.settings.linksPerBatch.toNat with hbb
  have fold : ∀ (nb : Nat) (G : Nat → Nat → K),
      (List.range nb).foldlM (fun grad bb =>
        timeBatchFl A solver e wrap isIfg cost (order bb) grad bb) (fun _ _ => (0 : K)) = .ok G ↔
      (∀ j < min (nb * b) e.nlinks, LinkInput e wrap isIfg j ∧
        linkTimeFl A solver e wrap isIfg cost j =
          .ok (okVal (linkTimeFl A solver e wrap isIfg cost j))) ∧
      G = fun i j => if j < min (nb * b) e.nlinks then
        addCyclesFl A (spaceGradFl A e wrap isIfg i j) ((okVal (linkTimeFl A solver e wrap isIfg cost j)).getD i 0)
        else 0 := by
    intro nb
    induction nb with
    | zero =>
      intro G
      simp only [List.range_zero, List.foldlM_nil, pure, Except.pure, Except.ok.injEq]
      constructor
      · rintro rfl
        refine ⟨fun j hj => by simp at hj, by funext i j; simp⟩
      · rintro ⟨_, rfl⟩; funext i j; simp
    | succ nb ih =>
      intro G
      rw [List.range_succ, List.foldlM_append]
      have hmul : (nb + 1) * b = nb * b + b := by ring
      cases hr : (List.range nb).foldlM (fun grad bb =>
        timeBatchFl A solver e wrap isIfg cost (order bb) grad bb) (fun _ _ => (0 : K)) with
      | error err =>
        simp only [Bind.bind, Except.bind]
        constructor
        · intro h; simp at h
        · rintro ⟨h, _⟩
          exfalso
          have := (ih _).mpr ⟨fun j hj => h j (by
            rw [hmul]; omega), rfl⟩
          rw [hr] at this; simp at this
      | ok G0 =>
        obtain ⟨h1, rfl⟩ := (ih G0).mp hr
        change ((List.foldlM _ _ [nb] : Except PyErr _)) = _ ↔ _
        rw [List.foldlM_cons]
        simp only [List.foldlM_nil, bind_pure]
        rw [timeBatchFl_iff A solver e hnd hord hm hmg wrap isIfg cost (order nb) (horder nb) b
          hbb.symm]
        constructor
        · rintro ⟨h2, rfl⟩
          refine ⟨fun j hj => ?_, ?_⟩
          · rw [hmul] at hj
            by_cases hj2 : j < nb * b
            · exact h1 j (by omega)
            · exact h2 j (by omega) (by omega)
          · funext i j
            rw [hmul]
            by_cases hj : nb * b ≤ j ∧ j < min (nb * b + b) e.nlinks
            · rw [if_pos hj, if_pos hj.2]
            · rw [if_neg hj]
              by_cases hj2 : j < min (nb * b) e.nlinks
              · rw [if_pos hj2, if_pos (by omega)]
              · rw [if_neg hj2, if_neg (by omega)]
        · rintro ⟨h2, rfl⟩
          refine ⟨fun j hj1 hj2 => h2 j (by rw [hmul]; omega), ?_⟩
          funext i j
          rw [hmul]
          by_cases hj : nb * b ≤ j ∧ j < min (nb * b + b) e.nlinks
          · rw [if_pos hj, if_pos hj.2]
          · rw [if_neg hj]
            by_cases hj2 : j < min (nb * b) e.nlinks
            · rw [if_pos hj2, if_pos (by omega)]
            · rw [if_neg hj2, if_neg (by omega)]
  have hnb : min ((((e.nlinks : ℤ) - 1) / e.settings.linksPerBatch + 1).toNat * b) e.nlinks =
      e.nlinks := min_eq_right (nbatches_mul _ _ hb)
  unfold unwrapInTimeFl
  rw [hcost]
  simp only [Bind.bind, Except.bind]
  have hf := fold (((e.nlinks : ℤ) - 1) / e.settings.linksPerBatch + 1).toNat
  rw [hnb] at hf
  cases hr : (List.range (((e.nlinks : ℤ) - 1) / e.settings.linksPerBatch + 1).toNat).foldlM
      (fun grad bb => timeBatchFl A solver e wrap isIfg cost (order bb) grad bb)
      (fun _ _ => (0 : K)) with
  | error err =>
    constructor
    · intro h; simp at h
    · rintro ⟨h, _⟩
      have := (hf _).mpr ⟨h, rfl⟩
      rw [hr] at this; simp at this
  | ok G =>
    obtain ⟨h1, rfl⟩ := (hf G).mp hr
    simp only [pure, Except.pure, Except.ok.injEq]
    have hout : ((List.range e.nifgs).map fun i => (List.range e.nlinks).map fun j =>
        if j < e.nlinks then addCyclesFl A (spaceGradFl A e wrap isIfg i j) ((okVal (linkTimeFl A solver e wrap isIfg cost j)).getD i 0) else 0) =
        (List.range e.nifgs).map fun i => (List.range e.nlinks).map fun j =>
          addCyclesFl A (spaceGradFl A e wrap isIfg i j) ((okVal (linkTimeFl A solver e wrap isIfg cost j)).getD i 0) := by
      apply List.map_congr_left; intro i _
      apply List.map_congr_left; intro j hj
      rw [if_pos (List.mem_range.mp hj)]
    rw [hout]
    constructor
    · rintro rfl; exact ⟨h1, rfl⟩
    · rintro ⟨_, rfl⟩; rfl

theorem floodFillFl_length (A : FloatArith K) {indata : List K} {links : List (Nat × Nat)} {flows : List ℤ}
    {mode : String} {out : List K} (h : floodFillFl A.fd A.tau A.tol indata links flows mode = .ok out) :
    links ≠ [] ∧ out.length = maxLink links + 1 := by
  by_cases hargs : FfArgs indata links flows mode
  swap
  · rw [floodFillFl_bad A.fd A.tau A.tol hargs] at h; simp at h
  rw [floodFillFl_unfold A.fd A.tau A.tol hargs] at h
  refine ⟨hargs.ne, ?_⟩
  split at h
  · simp at h
  · split at h
    · simp at h
    · split at h
      · split at h
        · simp only [Except.ok.injEq] at h; rw [← h]; simp
        · simp only [Except.ok.injEq] at h; rw [← h]; simp
      · simp at h

theorem unwrapIfgFl_length (A : FloatArith K) {solver : FlowSolver} {m : Mcf} {cost : List ℤ} {g out : List K}
    (hlt : ∀ a b, (a, b) ∈ m.graph.links → a < b) (h : unwrapIfgFl A solver m cost g = .ok out) :
    2 ≤ out.length := by
  unfold unwrapIfgFl at h
  cases h1 : computeResiduesFromGradientsFl A m g with
  | error e => rw [h1] at h; simp [Bind.bind, Except.bind] at h
  | ok res =>
    rw [h1] at h
    simp only [Bind.bind, Except.bind] at h
    cases h2 : residuesToFlows solver m res cost with
    | error e => rw [h2] at h; simp at h
    | ok fl =>
      rw [h2] at h
      simp only at h
      obtain ⟨hne, hl⟩ := floodFillFl_length A h
      obtain ⟨⟨a, b⟩, ls, he⟩ := List.exists_cons_of_ne_nil hne
      have hab : (a, b) ∈ m.graph.links := by rw [he]; simp
      have h3 := hlt a b hab
      have h4 := le_maxLink hab
      simp only at h4
      omega

/-- One row of the result. -/
def rowFl (A : FloatArith K) (solver : FlowSolver) (space : Mcf) (cost : List ℤ) (g : List K) : Except PyErr (List K) := do
  let data ← unwrapIfgFl A solver space cost g
  pure (data.map A.fs)

omit [IsStrictOrderedRing K] in
theorem rowFl_ok {A : FloatArith K} {solver : FlowSolver} {space : Mcf} {cost : List ℤ} {g out : List K} :
    rowFl A solver space cost g = .ok out ↔ ∃ v, unwrapIfgFl A solver space cost g = .ok v ∧ out = v.map A.fs := by
  unfold rowFl
  cases h : unwrapIfgFl A solver space cost g with
  | error e => simp [Bind.bind, Except.bind]
  | ok v => simp [Bind.bind, Except.bind, pure, Except.pure, eq_comm]

theorem rowFl_length (A : FloatArith K) {solver : FlowSolver} {m : Mcf} {cost : List ℤ} {g out : List K}
    (hlt : ∀ a b, (a, b) ∈ m.graph.links → a < b) (h : rowFl A solver m cost g = .ok out) :
    2 ≤ out.length := by
  obtain ⟨v, hv, rfl⟩ := rowFl_ok.mp h
  rw [List.length_map]
  exact unwrapIfgFl_length A hlt hv

/-- `unwrap_gradients_in_space` row by row. -/
theorem rowsFl (A : FloatArith K) (solver : FlowSolver) (e : Emcf)
    (hlt : ∀ a b, (a, b) ∈ e.space.graph.links → a < b) (cost : List ℤ)
    (hcost : costOf e.settings.sCostType e.nlinks e.sDist e.sCent = .ok cost)
    (hpool : 1 ≤ e.settings.sWorkerCount ∨ 2 ≤ e.cpuCount)
    (grad : List (List K)) (order : List Nat → List Nat) (horder : ∀ l, (order l).Perm l)
    (out : List (List K)) :
    unwrapInSpaceFl A solver e grad order = .ok out ↔
      out.length = e.time.graph.links.length ∧ ∀ i < e.time.graph.links.length,
        rowFl A solver e.space cost (grad.getD i []) = .ok (out.getD i []) ∧
        (out.getD i []).length = e.space.graph.npoints := by
  set f : Nat → Except PyErr (List K) := fun i => do
    let v ← rowFl A solver e.space cost (grad.getD i [])
    if v.length = e.npoints then pure v else throw .valueError with hf
  have hfun : (fun (uw : List (List K)) (ii : Nat) =>
      (rowFl A solver e.space cost (grad.getD ii []) >>= fun data =>
        setRow uw e.npoints ii data)) =
      fun uw ii => (f ii >>= fun v => setRow uw e.npoints ii v) := by
    funext uw ii
    simp only [hf]
    cases hu : rowFl A solver e.space cost (grad.getD ii []) with
    | error err => rfl
    | ok v =>
      have h2 := rowFl_length A hlt hu
      simp only [Bind.bind, Except.bind]
      by_cases hv : v.length = e.npoints
      · rw [if_pos hv]; rfl
      · rw [if_neg hv]
        unfold setRow
        rw [if_neg hv]
        rcases v with _ | ⟨x, _ | ⟨y, v⟩⟩
        · rfl
        · simp at h2
        · rfl
  have hflen : ∀ i v, f i = .ok v → v.length = e.npoints := by
    intro i v h
    simp only [hf] at h
    cases hu : rowFl A solver e.space cost (grad.getD i []) with
    | error err => rw [hu] at h; simp [Bind.bind, Except.bind] at h
    | ok v' =>
      rw [hu] at h
      simp only [Bind.bind, Except.bind] at h
      split at h
      · rename_i hv
        simp only [pure, Except.pure, Except.ok.injEq] at h
        rw [← h]; exact hv
      · simp [throw, throwThe, MonadExceptOf.throw] at h
  have hfiff : ∀ i v, f i = .ok v ↔
      rowFl A solver e.space cost (grad.getD i []) = .ok v ∧ v.length = e.npoints := by
    intro i v
    constructor
    · intro h
      refine ⟨?_, hflen i v h⟩
      simp only [hf] at h
      cases hu : rowFl A solver e.space cost (grad.getD i []) with
      | error err => rw [hu] at h; simp [Bind.bind, Except.bind] at h
      | ok v' =>
        rw [hu] at h
        simp only [Bind.bind, Except.bind] at h
        split at h
        · simpa [pure, Except.pure] using h
        · simp [throw, throwThe, MonadExceptOf.throw] at h
    · rintro ⟨h1, h2⟩
      simp only [hf, h1, Bind.bind, Except.bind, h2, if_true]
      rfl
  have hp := (C17_spatial_workers_partial e.cpuCount e.settings.sWorkerCount hpool).1
  unfold unwrapInSpaceFl
  rw [hcost]
  have hrow : (fun (uw : List (List K)) (ii : Nat) => (unwrapIfgFl A solver e.space cost (grad.getD ii []) >>= fun data =>
      setRow uw e.npoints ii (data.map A.fs))) =
      fun uw ii => (rowFl A solver e.space cost (grad.getD ii []) >>= fun data => setRow uw e.npoints ii data) := by
    funext uw ii
    unfold rowFl
    rw [bind_assoc]
    simp only [pure_bind]
  simp only [Bind.bind, Except.bind, hp]
  change (List.foldlM (fun (uw : List (List K)) (ii : Nat) => (unwrapIfgFl A solver e.space cost (grad.getD ii []) >>= fun data =>
      setRow uw e.npoints ii (data.map A.fs))) _ _ : Except PyErr _) = _ ↔ _
  rw [hrow]
  rw [hfun, foldlM_setRow (n := e.nifgs) f hflen _ _ out
    ((horder _).nodup_iff.mpr List.nodup_range)
    (fun i hi => by rw [(horder _).mem_iff] at hi; exact List.mem_range.mp hi) (by simp)]
  refine and_congr_right fun _ => forall_congr' fun i => forall_congr' fun hi => ?_
  have hmem : i ∈ order (List.range e.nifgs) := by
    rw [(horder _).mem_iff]; exact List.mem_range.mpr hi
  simp only [hmem, true_imp_iff, not_true_eq_false, false_imp_iff, and_true]
  exact hfiff i _

end

end Spurt
