import Verif.Lemmas.FloatDirichlet
import Verif.Lemmas.FloatMergeTiles
import Verif.Lemmas.Stages
import Mathlib.Tactic.FieldSimp

/-!
# The error of the adjusted tiles
-/

namespace Spurt
open Spec

section
variable {K : Type} [Field K] [LinearOrder K] [IsStrictOrderedRing K] [FloorRing K]

omit [IsStrictOrderedRing K] [FloorRing K] in
/-- The corrected tiles are within `E` of the field `T`. -/
def NearCorr (A : FloatArith K) (n : Nat) (F : Nat → TileFile K) (b : Nat) (T : ℤ × ℤ → K) (E : K) (c : Nat → Nat → K) : Prop :=
  ∀ i < n, ∀ p < (F i).points.length, |A.fs (filePhase (F i) b p) + c i p - T (ptAt F i p)| ≤ E

omit [FloorRing K] in
/-- A rounded sum of numbers that are all near `T`. -/
theorem foldl_near {fs : K → K} {B η : K} (hfs : Rounds fs B η) (hη : 0 ≤ η) {T e M : K} (hT : |T| ≤ M) (he : 0 ≤ e)
    (g : Nat → Option K) (l : List Nat) (hg : ∀ j ∈ l, ∀ v, g j = some v → |v - T| ≤ e) (k : Nat) (x : K)
    (hx : |x - (k : K) * T| ≤ (k : K) * (e + η))
    (hB : ((k + (l.filter fun j => (g j).isSome).length : Nat) : K) * (M + e + η) ≤ B) :
    |l.foldl (fun x j => (g j).elim x fun v => fs (x + v)) x - ((k + (l.filter fun j => (g j).isSome).length : Nat) : K) * T| ≤
      ((k + (l.filter fun j => (g j).isSome).length : Nat) : K) * (e + η) := by
  induction l generalizing k x with
  | nil => simpa using hx
  | cons j l ih =>
    rw [List.foldl_cons]
    have hgl : ∀ j ∈ l, ∀ v, g j = some v → |v - T| ≤ e := fun j hj => hg j (List.mem_cons_of_mem _ hj)
    cases hj : g j with
    | none =>
      have : ((j :: l).filter fun j => (g j).isSome) = l.filter fun j => (g j).isSome := by
        rw [List.filter_cons, hj]; simp
      rw [this] at hB ⊢
      exact ih hgl k x hx hB
    | some v =>
      have : ((j :: l).filter fun j => (g j).isSome).length = (l.filter fun j => (g j).isSome).length + 1 := by
        rw [List.filter_cons, hj]; simp
      rw [this] at hB ⊢
      have hk : k + ((l.filter fun j => (g j).isSome).length + 1) = (k + 1) + (l.filter fun j => (g j).isSome).length := by omega
      rw [hk] at hB ⊢
      rw [Option.elim_some]
      have hv := hg j List.mem_cons_self v hj
      have hM : 0 ≤ M := (abs_nonneg _).trans hT
      have hk1 : ((k + 1 : Nat) : K) * (M + e + η) ≤ B := by
        refine le_trans (mul_le_mul_of_nonneg_right ?_ (by linarith)) hB
        exact_mod_cast Nat.le_add_right _ _
      have hkn : (0 : K) ≤ (k : K) := Nat.cast_nonneg k
      have hsum : |x + v - ((k + 1 : Nat) : K) * T| ≤ (k : K) * (e + η) + e := by
        have : x + v - ((k + 1 : Nat) : K) * T = (x - (k : K) * T) + (v - T) := by push_cast; ring
        rw [this]
        exact (abs_add_le _ _).trans (by linarith)
      have hkT : |((k + 1 : Nat) : K) * T| ≤ ((k + 1 : Nat) : K) * M := by
        rw [abs_mul, abs_of_nonneg (Nat.cast_nonneg _)]
        exact mul_le_mul_of_nonneg_left hT (Nat.cast_nonneg _)
      have hrange : |x + v| ≤ B := by
        have := abs_add_le (x + v - ((k + 1 : Nat) : K) * T) (((k + 1 : Nat) : K) * T)
        rw [sub_add_cancel] at this
        push_cast at this hkT hk1 hsum ⊢
        nlinarith
      have hr := hfs.close _ hrange
      refine ih hgl (k + 1) _ ?_ hB
      have : fs (x + v) - ((k + 1 : Nat) : K) * T = (fs (x + v) - (x + v)) + (x + v - ((k + 1 : Nat) : K) * T) := by ring
      rw [this]
      refine (abs_add_le _ _).trans ?_
      push_cast at hsum ⊢
      nlinarith

omit [FloorRing K] in
/-- A corrected value is near the field. -/
theorem value_near {A : FloatArith K} {B η : K} (hfs : Rounds A.fs B η) {n : Nat} {F : Nat → TileFile K}
    {b : Nat} {T : ℤ × ℤ → K} {E M : K} {c : Nat → Nat → K} (h : NearCorr A n F b T E c)
    {i p : Nat} (hi : i < n) (hp : p < (F i).points.length) (hT : |T (ptAt F i p)| ≤ M) (hB : M + E ≤ B) :
    |bandValueFl A F b c i p - T (ptAt F i p)| ≤ E + η := by
  unfold bandValueFl
  have h1 := h i hi p hp
  set s := A.fs (filePhase (F i) b p) + c i p
  have h2 : |s| ≤ B := by
    have := abs_add_le (s - T (ptAt F i p)) (T (ptAt F i p))
    rw [sub_add_cancel] at this
    linarith
  have h3 := hfs.close s h2
  have : A.fs s - T (ptAt F i p) = (A.fs s - s) + (s - T (ptAt F i p)) := by ring
  rw [this]
  exact (abs_add_le _ _).trans (by linarith)

omit [IsStrictOrderedRing K] [FloorRing K] [LinearOrder K] [Field K] in
theorem ptAt_idxOf {F : Nat → TileFile K} {j : Nat} {pix : ℤ × ℤ} (h : pix ∈ filePoints (F j)) :
    (filePoints (F j)).idxOf pix < (F j).points.length ∧ ptAt F j ((filePoints (F j)).idxOf pix) = pix := by
  have hpl := List.idxOf_lt_length_iff.mpr h
  refine ⟨by rw [← filePoints_length]; exact hpl, ?_⟩
  unfold ptAt
  rw [List.getD_eq_getElem _ _ hpl]
  exact List.getElem_idxOf hpl

omit [FloorRing K] in
theorem at_near {A : FloatArith K} {B η : K} (hfs : Rounds A.fs B η) {n : Nat} {F : Nat → TileFile K}
    {b : Nat} {T : ℤ × ℤ → K} {E M : K} {c : Nat → Nat → K} (h : NearCorr A n F b T E c)
    {j : Nat} (hj : j < n) {pix : ℤ × ℤ} (hT : |T pix| ≤ M) (hB : M + E ≤ B) {v : K}
    (hv : bandAtFl A F b c j pix = some v) : |v - T pix| ≤ E + η := by
  unfold bandAtFl at hv
  by_cases hp : pix ∈ filePoints (F j)
  · rw [if_pos hp, Option.some.injEq] at hv
    obtain ⟨h1, h2⟩ := ptAt_idxOf hp
    have := value_near hfs h hj h1 (by rw [h2]; exact hT) hB
    rw [h2, hv] at this
    exact this
  · rw [if_neg hp] at hv; simp at hv

omit [Field K] [LinearOrder K] [IsStrictOrderedRing K] [FloorRing K] in
/-- The tiles counted at a point are tiles that contain the pixel. -/
theorem cntAt_le {n : Nat} {F : Nat → TileFile K} {omap : List (List Nat)} (hlt : ∀ i < n, ∀ j ∈ omap.getD i [], j < n)
    (hself : ∀ i < n, i ∉ omap.getD i []) (honce : ∀ i < n, (omap.getD i []).Nodup) {i p : Nat} (hi : i < n)
    (hp : p < (F i).points.length) : cntAt F (omap.getD i []) i p ≤ (covering n F (ptAt F i p)).length := by
  have hpl : p < (filePoints (F i)).length := by rw [filePoints_length]; exact hp
  have hmem : ptAt F i p ∈ filePoints (F i) := by
    unfold ptAt
    rw [List.getD_eq_getElem _ _ hpl]
    exact List.getElem_mem hpl
  have hnd : (i :: (omap.getD i []).filter fun j => decide (ptAt F i p ∈ filePoints (F j))).Nodup :=
    List.nodup_cons.mpr ⟨fun h => hself i hi (List.mem_of_mem_filter h), (honce i hi).filter _⟩
  have hsub : (i :: (omap.getD i []).filter fun j => decide (ptAt F i p ∈ filePoints (F j))) ⊆ covering n F (ptAt F i p) := by
    intro j hj
    unfold covering
    rw [List.mem_cons, List.mem_filter] at hj
    rw [List.mem_filter, List.mem_range]
    rcases hj with rfl | ⟨h1, h2⟩
    · exact ⟨hi, by simpa using hmem⟩
    · exact ⟨hlt i hi j h1, h2⟩
  have := (hnd.subperm hsub).length_le
  unfold cntAt
  rw [List.length_cons] at this
  omega

/-- What one round assumes. -/
structure RoundHyp (A : FloatArith K) (env : MergeEnv K) (n : Nat) (F : Nat → TileFile K) (omap : List (List Nat))
    (b : Nat) (T : ℤ × ℤ → K) (B η Bd ηd M R ρ Y : K) (N L : Nat) : Prop where
  fs : Rounds A.fs B η
  fd : Rounds A.fd Bd ηd
  nonneg : 0 ≤ η ∧ 0 ≤ ηd ∧ 0 ≤ ρ
  lt : ∀ i < n, ∀ j ∈ omap.getD i [], j < n
  self : ∀ i < n, i ∉ omap.getD i []
  once : ∀ i < n, (omap.getD i []).Nodup
  cover : ∀ pix, (covering n F pix).length ≤ N
  field : ∀ i < n, ∀ p < (F i).points.length, |T (ptAt F i p)| ≤ M
  raw : ∀ i < n, ∀ p < (F i).points.length, |A.fs (filePhase (F i) b p)| ≤ R
  links : ∀ i < n, ∀ u v, (u, v) ∈ (delaunayGraph (filePoints (F i)).length (env.simplices (filePoints (F i)))).links →
    u < (F i).points.length ∧ v < (F i).points.length
  size : ∀ i < n, (delaunayGraph (filePoints (F i)).length (env.simplices (filePoints (F i)))).links.length ≤ L
  conn : ∀ i < n, ∀ p < (F i).points.length, ∀ q < (F i).points.length, Relation.ReflTransGen
    (Adjacent (delaunayGraph (filePoints (F i)).length (env.simplices (filePoints (F i)))).links) p q
  cg : ∀ i < n, ∀ a, lapOf env (filePoints (F i)) = .ok a → CgWithin env.lin a Y ρ

omit [IsStrictOrderedRing K] [FloorRing K] in
theorem lapOf_ok {env : MergeEnv K} {pts : List (ℤ × ℤ)} {a : SqMat K} (h : lapOf env pts = .ok a) :
    ∃ a', graphLaplacian (delaunayGraph pts.length (env.simplices pts)).links = .ok a' ∧ a = castMat K a' := by
  unfold lapOf at h
  cases hl : graphLaplacian (delaunayGraph pts.length (env.simplices pts)).links with
  | error e => rw [hl] at h; simp [Bind.bind, Except.bind] at h
  | ok a' =>
    rw [hl] at h
    simp only [Bind.bind, Except.bind, Pure.pure, Except.pure, Except.ok.injEq] at h
    exact ⟨a', rfl, h.symm⟩

omit [FloorRing K] in
/-- The average of the tiles at a point, as computed. -/
theorem average_near {A : FloatArith K} {env : MergeEnv K} {n : Nat} {F : Nat → TileFile K} {omap : List (List Nat)}
    {b : Nat} {T : ℤ × ℤ → K} {B η Bd ηd M R ρ Y : K} {N L : Nat} (hh : RoundHyp A env n F omap b T B η Bd ηd M R ρ Y N L)
    {E : K} (hE : 0 ≤ E) {c : Nat → Nat → K} (h : NearCorr A n F b T E c) (hB : (N : K) * (M + E + 2 * η) ≤ B)
    (hB1 : M + E + 2 * η ≤ B) {i p : Nat} (hi : i < n) (hp : p < (F i).points.length) :
    |A.fs (sumAtFl A F b c (omap.getD i []) i p / (cntAt F (omap.getD i []) i p : K)) - T (ptAt F i p)| ≤ E + 3 * η := by
  obtain ⟨hη, _, _⟩ := hh.nonneg
  have hT := hh.field i hi p hp
  have hM : 0 ≤ M := (abs_nonneg _).trans hT
  have hv := value_near hh.fs h hi hp hT (by linarith)
  have hcnt : 1 + ((omap.getD i []).filter fun j => (bandAtFl A F b c j (ptAt F i p)).isSome).length =
      cntAt F (omap.getD i []) i p := by
    unfold cntAt
    congr 2
    apply List.filter_congr
    intro j _
    unfold bandAtFl
    by_cases hj : ptAt F i p ∈ filePoints (F j) <;> simp [hj]
  have hle : (cntAt F (omap.getD i []) i p : K) ≤ (N : K) := by
    exact_mod_cast (cntAt_le hh.lt hh.self hh.once hi hp).trans (hh.cover _)
  have hpos : (0 : K) < (cntAt F (omap.getD i []) i p : K) := by
    have : 0 < cntAt F (omap.getD i []) i p := by unfold cntAt; omega
    exact_mod_cast this
  have hs := foldl_near hh.fs hη hT (e := E + η) (by linarith) (fun j => bandAtFl A F b c j (ptAt F i p)) (omap.getD i [])
    (fun j hj v hjv => at_near hh.fs h (hh.lt i hi j hj) hT (by linarith) hjv) 1 (bandValueFl A F b c i p)
    (by push_cast; rw [one_mul, one_mul]; linarith) (by
      rw [hcnt]
      refine le_trans (mul_le_mul_of_nonneg_right hle (by linarith)) ?_
      rw [show M + (E + η) + η = M + E + 2 * η by ring]
      exact hB)
  rw [hcnt] at hs
  change |sumAtFl A F b c (omap.getD i []) i p - _| ≤ _ at hs
  set S := sumAtFl A F b c (omap.getD i []) i p
  set k := (cntAt F (omap.getD i []) i p : K)
  have hd : |S / k - T (ptAt F i p)| ≤ E + 2 * η := by
    have : S / k - T (ptAt F i p) = (S - k * T (ptAt F i p)) / k := by field_simp
    rw [this, abs_div, abs_of_pos hpos, div_le_iff₀ hpos]
    linarith
  have hr : |S / k| ≤ B := by
    have := abs_add_le (S / k - T (ptAt F i p)) (T (ptAt F i p))
    rw [sub_add_cancel] at this
    linarith
  have h3 := hh.fs.close _ hr
  have : A.fs (S / k) - T (ptAt F i p) = (A.fs (S / k) - S / k) + (S / k - T (ptAt F i p)) := by ring
  rw [this]
  exact (abs_add_le _ _).trans (by linarith)

omit [FloorRing K] in
/-- One round multiplies the error by at most three, up to rounding. -/
theorem bandRoundFl_near {A : FloatArith K} {env : MergeEnv K} {n : Nat} {F : Nat → TileFile K} {omap : List (List Nat)}
    {b : Nat} {T : ℤ × ℤ → K} {B η Bd ηd M R ρ Y : K} {N L : Nat} (hh : RoundHyp A env n F omap b T B η Bd ηd M R ρ Y N L)
    {E E' : K} (hE : 0 ≤ E) (hE' : E' = 3 * E + 7 * η + 2 * ηd + ρ) {c : Nat → Nat → K} (h : NearCorr A n F b T E c)
    (hB : (N : K) * (M + E + 2 * η) ≤ B)
    (hB1 : M + R + E' ≤ B) (hBd : (L : K) * E' ≤ Bd) (hY : E' ≤ Y) {d : Nat} (hok : ∀ i < n, roundOk env F omap d i) :
    NearCorr A n F b T E' (bandRoundFl A env F omap b c d) := by
  obtain ⟨hη, hηd, hρ⟩ := hh.nonneg
  intro i hi p hp
  have hT := hh.field i hi p hp
  have hM : 0 ≤ M := (abs_nonneg _).trans hT
  have hR := hh.raw i hi p hp
  have hR0 : 0 ≤ R := (abs_nonneg _).trans hR
  have hc := h i hi p hp
  have hraw : ∀ q < (F i).points.length, |rawCorrFl A F omap b c i q| ≤ 2 * E + 5 * η := by
    intro q hq
    unfold rawCorrFl
    have hTq := hh.field i hi q hq
    have h1 := average_near hh hE h hB (by linarith) hi hq
    have h2 := value_near hh.fs h hi hq hTq (by linarith)
    set av := A.fs (sumAtFl A F b c (omap.getD i []) i q / (cntAt F (omap.getD i []) i q : K))
    set v := bandValueFl A F b c i q
    have h3 : |av - v| ≤ 2 * E + 4 * η := by
      have : av - v = (av - T (ptAt F i q)) - (v - T (ptAt F i q)) := by ring
      rw [this]
      exact (abs_sub _ _).trans (by linarith)
    have h4 := hh.fs.close (av - v) (by linarith)
    have := abs_add_le (A.fs (av - v) - (av - v)) (av - v)
    rw [sub_add_cancel] at this
    linarith
  unfold bandRoundFl
  by_cases ht : touched F omap d i = true
  · rw [if_pos ht]
    obtain ⟨a, ha1, ha2, _⟩ := hok i hi ht
    obtain ⟨a', ha', rfl⟩ := lapOf_ok ha1
    have han : a'.n = (F i).points.length := ha2
    -- the correction
    have hcorr : |tileCorrFl A env F omap d b c i p| ≤ 2 * E + 6 * η + 2 * ηd + ρ := by
      unfold tileCorrFl
      rw [ha1]
      simp only
      by_cases hm : maskAt F omap d i p = true
      · unfold dirRowFl
        rw [if_pos hm]
        linarith [hraw p hp]
      · have hL : ((delaunayGraph (filePoints (F i)).length (env.simplices (filePoints (F i)))).links.length : K) *
            (2 * E + 5 * η + 2 * ηd) ≤ Bd := by
          refine le_trans ?_ hBd
          refine mul_le_mul (by exact_mod_cast hh.size i hi) (by linarith) (by linarith) (Nat.cast_nonneg _)
        have := dirRowFl_bound hh.fs hh.fd hη hηd ha' hρ (hh.cg i hi _ ha1) (mask := maskAt F omap d i) (by
            intro q hq hqm
            unfold touched at ht
            rw [List.any_eq_true] at ht
            obtain ⟨r, hr, hrm⟩ := ht
            rw [List.mem_range] at hr
            exact ⟨r, by rw [han]; exact hr, hrm, hh.conn i hi q (by rw [← han]; exact hq) r hr⟩)
          (x := rawCorrFl A F omap b c i) (X := 2 * E + 5 * η) (by linarith)
          (fun q hq _ => hraw q (by rw [← han]; exact hq)) hL (by linarith) (by linarith) p (by rw [han]; exact hp)
          (by simpa using hm)
        linarith
    set e := tileCorrFl A env F omap d b c i p
    set r := A.fs (filePhase (F i) b p)
    have h1 : |r + (c i p + e) - T (ptAt F i p)| ≤ 3 * E + 6 * η + 2 * ηd + ρ := by
      have : r + (c i p + e) - T (ptAt F i p) = (r + c i p - T (ptAt F i p)) + e := by ring
      rw [this]
      exact (abs_add_le _ _).trans (by linarith)
    have h2 : |c i p + e| ≤ B := by
      have : c i p + e = (r + (c i p + e) - T (ptAt F i p)) - r + T (ptAt F i p) := by ring
      rw [this]
      refine (abs_add_le _ _).trans ?_
      have := abs_sub (r + (c i p + e) - T (ptAt F i p)) r
      linarith
    have h3 := hh.fs.close _ h2
    have : r + A.fs (c i p + e) - T (ptAt F i p) = (A.fs (c i p + e) - (c i p + e)) + (r + (c i p + e) - T (ptAt F i p)) := by ring
    rw [this]
    exact (abs_add_le _ _).trans (by linarith)
  · rw [if_neg ht]
    linarith

omit [FloorRing K] in
/-- All rounds. -/
theorem bandAdjustFl_near {A : FloatArith K} {env : MergeEnv K} {n : Nat} {F : Nat → TileFile K} {omap : List (List Nat)}
    {b : Nat} {T : ℤ × ℤ → K} {B η Bd ηd M R ρ Y : K} {N L : Nat} (hh : RoundHyp A env n F omap b T B η Bd ηd M R ρ Y N L)
    {E0 E : K} (hE0 : 0 ≤ E0) {c : Nat → Nat → K} (h : NearCorr A n F b T E0 c) {maxDegree : Nat}
    (hE : 3 ^ (maxDegree - 1) * (E0 + (7 * η + 2 * ηd + ρ)) ≤ E + (7 * η + 2 * ηd + ρ)) (hM : 0 ≤ M) (hR : 0 ≤ R)
    (hB : (N : K) * (M + E + 2 * η) ≤ B) (hB1 : M + R + E ≤ B) (hBd : (L : K) * E ≤ Bd) (hY : E ≤ Y)
    (hok : adjustOk env n F omap maxDegree) : NearCorr A n F b T E (bandAdjustFl A env F omap maxDegree b c) := by
  obtain ⟨hη, hηd, hρ⟩ := hh.nonneg
  have hlen : (degrees maxDegree).length = maxDegree - 1 := by
    unfold degrees
    rw [List.filter_reverse, List.length_reverse]
    clear * -
    induction maxDegree with
    | zero => rfl
    | succ m ih =>
      rw [List.range_succ, List.filter_append, List.length_append, ih]
      by_cases hm : 1 < m + 1
      · simp [hm]; omega
      · have : m = 0 := by omega
        subst this
        simp
  unfold bandAdjustFl
  unfold adjustOk at hok
  rw [← hlen] at hE
  clear hlen
  generalize degrees maxDegree = ds at *
  induction ds generalizing c E0 with
  | nil =>
    intro i hi p hp
    have := h i hi p hp
    simp only [List.length_nil, pow_zero, one_mul] at hE
    simp only [List.foldl_nil]
    linarith
  | cons d ds ih =>
    rw [List.foldl_cons]
    set κ := 7 * η + 2 * ηd + ρ with hκ
    have hκ0 : 0 ≤ κ := by linarith
    rw [List.length_cons, pow_succ] at hE
    have h3 : (1 : K) ≤ 3 ^ ds.length := one_le_pow₀ (by norm_num)
    have hstep : 3 ^ ds.length * ((3 * E0 + 7 * η + 2 * ηd + ρ) + κ) ≤ E + κ := by
      refine le_trans ?_ hE
      rw [mul_assoc]
      refine mul_le_mul_of_nonneg_left ?_ (by positivity)
      linarith
    have hE1 : 3 * E0 + 7 * η + 2 * ηd + ρ ≤ E := by
      have h0 : 0 ≤ (3 * E0 + 7 * η + 2 * ηd + ρ) + κ := by linarith
      have := le_mul_of_one_le_left h0 h3
      linarith
    refine ih (by linarith) (bandRoundFl_near hh hE0 rfl h ?_ (by linarith) ?_ (by linarith)
      (hok d List.mem_cons_self)) hstep fun d' hd' => hok d' (List.mem_cons_of_mem _ hd')
    · refine le_trans (mul_le_mul_of_nonneg_left ?_ (Nat.cast_nonneg _)) hB
      linarith
    · exact le_trans (mul_le_mul_of_nonneg_left hE1 (Nat.cast_nonneg _)) hBd

end

end Spurt
