import Verif.Model.Workflow
import Mathlib.Tactic.Tauto

/-!
# Executions of plans
-/

namespace Spurt

/-- The name of a file of the workflow. -/
inductive Slot
  | tiles | tile (t : Nat) | overlap | offsets | unw (i : Nat) | diff (i : Nat) | model (i : Nat)
  deriving DecidableEq

section
variable {K : Type}

/-- The file a write goes to. -/
def Write.slot : Write K → Slot
  | .tiles _ => .tiles
  | .tile t _ => .tile t
  | .overlap _ => .overlap
  | .offsets _ => .offsets
  | .unw i _ => .unw i
  | .diff i _ => .diff i
  | .model i _ => .model i

/-- The content of a file, as the write that produces it. -/
def Disk.get (d : Disk K) : Slot → Option (Write K)
  | .tiles => d.tiles.map .tiles
  | .tile t => (d.tile t).map (.tile t)
  | .overlap => d.overlap.map .overlap
  | .offsets => d.offsets.map .offsets
  | .unw i => (d.unw i).map (.unw i)
  | .diff i => (d.diff i).map (.diff i)
  | .model i => (d.model i).map (.model i)

theorem Disk.get_set (d : Disk K) (w : Write K) (s : Slot) :
    (d.set w).get s = if w.slot = s then some w else d.get s := by
  cases w <;> cases s <;> simp [Disk.set, Disk.get, Write.slot]
  all_goals
    rename_i a c b
    by_cases h : a = b
    · subst h; simp
    · rw [if_neg h, Function.update_of_ne (Ne.symm h)]

theorem Disk.ext_get {d d' : Disk K} (h : ∀ s, d.get s = d'.get s) : d = d' := by
  have inj : ∀ {α β : Type} {f : α → β} (_ : Function.Injective f) {a b : Option α}, a.map f = b.map f → a = b :=
    fun hf _ _ e => Option.map_injective hf e
  cases d; cases d'
  simp only [Disk.mk.injEq]
  refine ⟨?_, ?_, ?_, ?_, ?_, ?_, ?_⟩
  · exact inj (fun a b e => by simpa using e) (h .tiles)
  · exact funext fun t => inj (fun a b e => by simpa using e) (h (.tile t))
  · exact inj (fun a b e => by simpa using e) (h .overlap)
  · exact inj (fun a b e => by simpa using e) (h .offsets)
  · exact funext fun t => inj (fun a b e => by simpa using e) (h (.unw t))
  · exact funext fun t => inj (fun a b e => by simpa using e) (h (.diff t))
  · exact funext fun t => inj (fun a b e => by simpa using e) (h (.model t))

/-- The last write of a list to a file. -/
def lastW (l : List (Write K)) (s : Slot) : Option (Write K) := (l.filter fun w => decide (w.slot = s)).getLast?

/-- A list of writes has a write to the file. -/
def Writes (l : List (Write K)) (s : Slot) : Prop := ∃ w ∈ l, w.slot = s

theorem lastW_none {l : List (Write K)} {s : Slot} : lastW l s = none ↔ ¬ Writes l s := by
  unfold lastW Writes
  rw [List.getLast?_eq_none_iff, List.filter_eq_nil_iff]
  simp

theorem lastW_nil (s : Slot) : lastW ([] : List (Write K)) s = none := rfl

theorem lastW_append (a b : List (Write K)) (s : Slot) : lastW (a ++ b) s = (lastW b s).or (lastW a s) := by
  unfold lastW
  rw [List.filter_append, List.getLast?_append]

theorem lastW_cons (w : Write K) (l : List (Write K)) (s : Slot) :
    lastW (w :: l) s = (lastW l s).or (if w.slot = s then some w else none) := by
  rw [show w :: l = [w] ++ l from rfl, lastW_append]
  congr 1
  by_cases h : w.slot = s <;> simp [lastW, h]

/-- The last write to every file is the one of `g`. -/
def Consistent (g : Slot → Option (Write K)) (l : List (Write K)) : Prop := ∀ s, Writes l s → lastW l s = g s

theorem consistent_nil (g : Slot → Option (Write K)) : Consistent g [] := by
  rintro s ⟨w, h, _⟩
  simp at h

theorem writes_append {a b : List (Write K)} {s : Slot} : Writes (a ++ b) s ↔ Writes a s ∨ Writes b s := by
  simp [Writes, or_and_right, exists_or]

theorem consistent_append {g : Slot → Option (Write K)} {a b : List (Write K)} (ha : Consistent g a)
    (hb : Consistent g b) : Consistent g (a ++ b) := by
  intro s hs
  rw [lastW_append]
  by_cases h : Writes b s
  · rw [hb s h]
    cases hg : g s with
    | none =>
      have := hb s h
      rw [hg, lastW_none] at this
      exact absurd h this
    | some v => rfl
  · rw [lastW_none.mpr h]
    rcases writes_append.mp hs with h' | h'
    · simpa using ha s h'
    · exact absurd h' h

theorem consistent_flatten {g : Slot → Option (Write K)} {us : List (List (Write K))}
    (h : ∀ u ∈ us, Consistent g u) : Consistent g us.flatten := by
  induction us with
  | nil => exact consistent_nil g
  | cons u us ih =>
    rw [List.flatten_cons]
    exact consistent_append (h u (by simp)) (ih fun v hv => h v (by simp [hv]))

theorem writes_flatten {us : List (List (Write K))} {s : Slot} :
    Writes us.flatten s ↔ ∃ u ∈ us, Writes u s := by
  unfold Writes
  simp only [List.mem_flatten]
  constructor
  · rintro ⟨w, ⟨u, hu, hw⟩, hs⟩
    exact ⟨u, hu, w, hw, hs⟩
  · rintro ⟨u, hu, w, hw, hs⟩
    exact ⟨w, ⟨u, hu, hw⟩, hs⟩

theorem get_foldl_set (l : List (Write K)) (d : Disk K) (s : Slot) :
    (l.foldl Disk.set d).get s = (lastW l s).or (d.get s) := by
  induction l generalizing d with
  | nil => simp [lastW_nil]
  | cons w l ih =>
    rw [List.foldl_cons, ih, Disk.get_set, lastW_cons, Option.or_assoc]
    congr 1
    split <;> simp

/-! ### Executions -/

theorem Exec.invariant {D X : Type} {act : D → X → D} {ts : List (List X)} {d d' : D} {b : Bool}
    (h : Exec act ts d b d') (I : D → Prop)
    (hstep : ∀ d, I d → ∀ t ∈ ts, ∀ x ∈ t, I (act d x)) (hI : I d) : I d' := by
  induction h with
  | stop => exact hI
  | done => exact hI
  | @step ts d d' b k x rest hk _ ih =>
    have hmem := List.mem_of_getElem? hk
    refine ih ?_ (hstep d hI _ hmem x (by simp))
    intro e he t ht y hy
    rcases List.mem_or_eq_of_mem_set ht with h | h
    · exact hstep e he t h y hy
    · subst h
      exact hstep e he _ hmem y (by simp [hy])

/-- After a completed execution every file has the content of its last write. -/
theorem Exec.final {ts : List (List (Write K))} {d d' : Disk K} {b : Bool} (h : Exec Disk.set ts d b d') (hb : b = true)
    (g : Slot → Option (Write K)) (hg : ∀ t ∈ ts, Consistent g t) (s : Slot) :
    ((∃ t ∈ ts, Writes t s) → d'.get s = g s) ∧ ((∀ t ∈ ts, ¬ Writes t s) → d'.get s = d.get s) := by
  have key : ∀ s, (∀ v, (d.get s = v ∨ ∃ t ∈ ts, Writes t s) → ((∃ t ∈ ts, Writes t s) → v = g s) → d'.get s = v) := by
    clear s
    induction h with
    | stop => simp at hb
    | @done ts d hall =>
      intro s v hv _
      rcases hv with hv | ⟨t, ht, hw⟩
      · exact hv
      · rw [hall t ht] at hw
        obtain ⟨w, hw, _⟩ := hw
        simp at hw
    | @step ts d d' b k x rest hk _ ih =>
      have hmem := List.mem_of_getElem? hk
      have hrest : Consistent g rest := by
        intro s hs
        have := hg _ hmem s (by obtain ⟨w, hw, e⟩ := hs; exact ⟨w, by simp [hw], e⟩)
        rw [lastW_cons] at this
        cases hl : lastW rest s with
        | none => exact absurd hs (lastW_none.mp hl)
        | some v => rw [hl] at this; simpa using this
      have hkl := (List.getElem?_eq_some_iff.mp hk).1
      have hset : ∀ t ∈ ts.set k rest, t ∈ ts ∨ t = rest := fun t ht => List.mem_or_eq_of_mem_set ht
      have ih' := ih hb (by
        intro t ht
        rcases hset t ht with h | rfl
        · exact hg t h
        · exact hrest)
      intro s v hv hvg
      have hback : (∃ t ∈ ts.set k rest, Writes t s) → ∃ t ∈ ts, Writes t s := by
        rintro ⟨t, ht, hw⟩
        rcases hset t ht with h | rfl
        · exact ⟨t, h, hw⟩
        · obtain ⟨w, hw, e⟩ := hw
          exact ⟨_, hmem, w, by simp [hw], e⟩
      refine ih' s v ?_ (fun h => hvg (hback h))
      by_cases hr : Writes rest s
      · exact Or.inr ⟨rest, List.mem_set hkl rest, hr⟩
      · rw [Disk.get_set]
        by_cases hx : x.slot = s
        · left
          rw [if_pos hx]
          have hw : Writes (x :: rest) s := ⟨x, by simp, hx⟩
          have e1 := hg _ hmem s hw
          rw [lastW_cons, lastW_none.mpr hr, if_pos hx, Option.none_or] at e1
          rw [hvg ⟨_, hmem, hw⟩, ← e1]
        · rw [if_neg hx]
          rcases hv with hv | ⟨t, ht, hw⟩
          · exact Or.inl hv
          · right
            obtain ⟨j, hj, rfl⟩ := List.mem_iff_getElem.mp ht
            by_cases hjk : j = k
            · subst hjk
              rw [List.getElem?_eq_getElem hj, Option.some.injEq] at hk
              rw [hk] at hw
              obtain ⟨w, hw, e⟩ := hw
              rcases List.mem_cons.mp hw with rfl | hw
              · exact absurd e hx
              · exact absurd ⟨w, hw, e⟩ hr
            · refine ⟨ts[j], ?_, hw⟩
              rw [List.mem_iff_getElem]
              exact ⟨j, by simpa using hj, by rw [List.getElem_set, if_neg (fun h => hjk h.symm)]⟩
  constructor
  · intro hw
    exact key s _ (Or.inr hw) fun _ => rfl
  · intro hno
    exact key s _ (Or.inl rfl) fun ⟨t, ht, hw⟩ => absurd hw (hno t ht)

theorem Exec.append_prefix {D X : Type} {act : D → X → D} {ts : List (List X)} {d d' : D} {b : Bool} {k : Nat}
    (l rest : List X) (hk : ts[k]? = some (l ++ rest)) (h : Exec act (ts.set k rest) (l.foldl act d) b d') :
    Exec act ts d b d' := by
  induction l generalizing ts d with
  | nil =>
    have hkl := (List.getElem?_eq_some_iff.mp hk).1
    rw [List.getElem?_eq_getElem hkl, Option.some.injEq, List.nil_append] at hk
    rwa [← hk, List.set_getElem_self] at h
  | cons x l ih =>
    refine Exec.step k x (l ++ rest) (by simpa using hk) (ih ?_ ?_)
    · have hkl := (List.getElem?_eq_some_iff.mp hk).1
      simp [hkl]
    · simpa using h

/-- A run by files is a run by writes. -/
theorem Exec.byWrite {ts : List (List (List (Write K)))} {d d' : Disk K} {b : Bool}
    (h : Exec (fun d u => u.foldl Disk.set d) ts d b d') : Exec Disk.set (ts.map List.flatten) d b d' := by
  induction h with
  | stop => exact .stop _ _
  | done ts d hall =>
    refine .done _ _ fun t ht => ?_
    obtain ⟨u, hu, rfl⟩ := List.mem_map.mp ht
    rw [hall u hu]
    rfl
  | @step ts d d' b k x rest hk _ ih =>
    refine Exec.append_prefix (k := k) x rest.flatten ?_ ?_
    · rw [List.getElem?_map, hk]; rfl
    · rwa [List.map_set] at ih

theorem Exec.exists_complete {D X : Type} (act : D → X → D) (ts : List (List X)) (d : D) :
    ∃ d', Exec act ts d true d' := by
  generalize hn : (ts.map List.length).sum = n
  induction n generalizing ts d with
  | zero =>
    refine ⟨d, .done _ _ fun t ht => ?_⟩
    have := List.sum_eq_zero_iff.mp hn t.length (List.mem_map_of_mem ht)
    exact List.length_eq_zero_iff.mp this
  | succ n ih =>
    have hex : ∃ t ∈ ts, t ≠ [] := by
      by_contra hc
      push Not at hc
      have : (ts.map List.length).sum = 0 := List.sum_eq_zero (by
        intro x hx
        obtain ⟨t, ht, rfl⟩ := List.mem_map.mp hx
        rw [hc t ht]; rfl)
      omega
    obtain ⟨t, ht, hne⟩ := hex
    obtain ⟨k, hk, rfl⟩ := List.mem_iff_getElem.mp ht
    obtain ⟨x, rest, hx⟩ := List.exists_cons_of_ne_nil hne
    have hlen : ((ts.set k rest).map List.length).sum = n := by
      have e : ts = ts.take k ++ (x :: rest) :: ts.drop (k + 1) := by
        rw [← hx, List.getElem_cons_drop, List.take_append_drop]
      rw [e] at hn
      have e2 : ts.set k rest = ts.take k ++ rest :: ts.drop (k + 1) := by
        rw [List.set_eq_take_append_cons_drop, if_pos hk]
      rw [e2]
      simp only [List.map_append, List.map_cons, List.sum_append, List.sum_cons, List.length_cons] at hn ⊢
      omega
    obtain ⟨d', hd'⟩ := ih (ts.set k rest) (act d x) hlen
    exact ⟨d', .step k x rest (by rw [List.getElem?_eq_getElem hk, hx]) hd'⟩

end

end Spurt
