import Verif.Model.Io
import Mathlib.Tactic.FinCases
import Mathlib.Tactic.Tauto

/-!
# Properties C31–C34: 3D inputs and rasters
-/

namespace Spurt

/-! ### Index arithmetic -/

theorem getElem?_flatMap_const {α β : Type} (f : α → List β) (n : Nat) :
    ∀ (l : List α), (∀ a ∈ l, (f a).length = n) → ∀ (i j : Nat), j < n →
      (l.flatMap f)[i * n + j]? = l[i]?.bind fun a => (f a)[j]? := by
  intro l
  induction l with
  | nil => intro _ i j _; simp
  | cons a l ih =>
    intro h i j hj
    rw [List.flatMap_cons]
    have ha := h a (by simp)
    cases i with
    | zero =>
      rw [List.getElem?_append_left (by rw [ha]; omega)]
      simp
    | succ i =>
      rw [List.getElem?_append_right (by rw [ha]; nlinarith), ha,
        show (i + 1) * n + j - n = i * n + j by
          rw [Nat.succ_mul]; omega,
        ih (fun b hb => h b (by simp [hb])) i j hj]
      simp

theorem cart_length : ∀ axes : List (List Nat), (cart axes).length = (axes.map List.length).prod
  | [] => rfl
  | ax :: rest => by
    simp [cart, List.length_flatMap, cart_length rest, Function.comp_def, List.map_const']

theorem cart_one (c : List Nat) : cart [c] = c.map fun z => [z] := by
  simp only [cart]
  induction c with
  | nil => rfl
  | cons x t ih => rw [List.flatMap_cons, ih]; rfl

/-- The element of `cart` at a mixed-radix position, for three axes. -/
theorem cart3_get {a b c : List Nat} {i j k : Nat} {x y z : Nat} (hi : a[i]? = some x)
    (hj : b[j]? = some y) (hk : c[k]? = some z) :
    (cart [a, b, c])[i * (b.length * c.length) + (j * c.length + k)]? = some [x, y, z] := by
  have hjl : j < b.length := (List.getElem?_eq_some_iff.mp hj).1
  have hkl : k < c.length := (List.getElem?_eq_some_iff.mp hk).1
  have hlt : j * c.length + k < b.length * c.length := by
    have : (j + 1) * c.length ≤ b.length * c.length := Nat.mul_le_mul_right _ hjl
    nlinarith
  have h1 : (cart [c])[k]? = some [z] := by
    rw [cart_one, List.getElem?_map, hk]; rfl
  have h2 : (cart [b, c])[j * c.length + k]? = some [y, z] := by
    rw [show cart [b, c] = b.flatMap fun i => (cart [c]).map fun t => i :: t from rfl,
      getElem?_flatMap_const _ c.length _ (by intro a _; simp [cart_length]) _ _ hkl, hj]
    simp [h1]
  rw [show cart [a, b, c] = a.flatMap fun i => (cart [b, c]).map fun t => i :: t from rfl,
    getElem?_flatMap_const _ (b.length * c.length) _ (by intro a _; simp [cart_length]) _ _ hlt, hi]
  simp [h2]

theorem cart2_get {a b : List Nat} {i j : Nat} {x y : Nat} (hi : a[i]? = some x)
    (hj : b[j]? = some y) : (cart [a, b])[i * b.length + j]? = some [x, y] := by
  have hjl : j < b.length := (List.getElem?_eq_some_iff.mp hj).1
  have h1 : (cart [b])[j]? = some [y] := by
    rw [cart_one, List.getElem?_map, hj]; rfl
  rw [show cart [a, b] = a.flatMap fun i => (cart [b]).map fun t => i :: t from rfl,
    getElem?_flatMap_const _ b.length _ (by intro a _; simp [cart_length]) _ _ hjl, hi]
  simp [h1]

theorem pySlice_one {n k : Nat} (h : k < n) : pySlice n (k : ℤ) ((k : ℤ) + 1) = [k] := by
  unfold pySlice
  simp only
  rw [if_neg (by omega), if_neg (by omega)]
  have h1 : (min (max (k : ℤ) 0) n).toNat = k := by omega
  have h2 : (min (max ((k : ℤ) + 1) 0) n).toNat = k + 1 := by omega
  rw [h1, h2]
  simp

theorem range_get {n k : Nat} (h : k < n) : (List.range n)[k]? = some k := List.getElem?_range h

theorem divmod {r c W : Nat} (hc : c < W) : (r * W + c) / W = r ∧ (r * W + c) % W = c := by
  constructor
  · rw [Nat.mul_comm, Nat.mul_add_div (by omega), Nat.div_eq_of_lt hc]; rfl
  · rw [Nat.mul_comm, Nat.mul_add_mod, Nat.mod_eq_of_lt hc]

theorem unravel2 {R W r c : Nat} (hr : r < R) (hc : c < W) :
    unravelIndex (r * W + c) [R, W] = .ok [r, c] := by
  have hlt : r * W + c < R * W := by
    have : (r + 1) * W ≤ R * W := Nat.mul_le_mul_right _ hr
    nlinarith
  obtain ⟨h1, h2⟩ := divmod (r := r) hc
  simp [unravelIndex, unravelIndex.go, hlt, h1, h2]

/-! ### C31 -/

/-- C31. For every cube and time axis 0, 1 or 2: the object is accepted; `shape` has the
number of times on the axis `time_dim` and the number of pixels on `space_dim`; a time
slice and a spatial slice read the same cube element at time `t` and pixel `(r, c)`, whose
flattened position is `r * W + c`. -/
theorem C31_slices {α : Type} (data : NdArray α) (n : Fin 3 → Nat)
    (hshape : data.shape = [n 0, n 1, n 2]) (td : Fin 3) :
    ∃ x, Reg3DInput.new data (td : ℤ) = .ok x ∧
    ∀ T R W : Nat, T = n td → [R, W] = [n 0, n 1, n 2].eraseIdx td →
    (∃ sh, x.shape = .ok sh ∧ sh[x.time_dim]? = some T ∧ sh[x.space_dim]? = some (R * W) ∧
      sh.length = 2 ∧ x.time_dim ≠ x.space_dim) ∧
    (∀ t, t < T → (x.getTimeSlice t).length = R * W) ∧
    (∀ s, s < R * W → ∃ l, x.getSpatialSlice s = .ok l ∧ l.length = T) ∧
    ∀ t r c, t < T → r < R → c < W →
      (x.getTimeSlice t)[r * W + c]? = some (data.get ([r, c].insertIdx td t)) ∧
      ∃ l, x.getSpatialSlice (r * W + c) = .ok l ∧
        l[t]? = some (data.get ([r, c].insertIdx td t)) := by
  refine ⟨⟨data, td⟩, ?_, ?_⟩
  · unfold Reg3DInput.new
    rw [if_neg (by simp [hshape]), if_neg (by simp [hshape])]
  intro T R W hT hRW
  have hpix : ∀ s, s < R * W → ∃ r c, r < R ∧ c < W ∧ s = r * W + c := by
    intro s hs
    have hW : 0 < W := by
      rcases Nat.eq_zero_or_pos W with h | h
      · subst h; simp at hs
      · exact h
    refine ⟨s / W, s % W, ?_, Nat.mod_lt _ hW, ?_⟩
    · rwa [Nat.div_lt_iff_lt_mul hW]
    · rw [Nat.mul_comm]; exact (Nat.div_add_mod s W).symm
  fin_cases td
  · simp at hRW hT
    obtain ⟨rfl, rfl⟩ := hRW
    subst hT
    have hss : (⟨data, 0⟩ : Reg3DInput α).spaceShape = [n 1, n 2] := by
      simp [Reg3DInput.spaceShape, hshape]
    have hts : ∀ t : Nat, t < n 0 → (⟨data, 0⟩ : Reg3DInput α).getTimeSlice t =
        data.ravelAt [[t], List.range (n 1), List.range (n 2)] := by
      intro t ht
      simp [Reg3DInput.getTimeSlice, hshape, pySlice_one ht]
    have hsp : ∀ r c, r < n 1 → c < n 2 →
        (⟨data, 0⟩ : Reg3DInput α).getSpatialSlice (r * n 2 + c) =
        .ok (data.ravelAt [List.range (n 0), [r], [c]]) := by
      intro r c hr hc
      simp [Reg3DInput.getSpatialSlice, hss, unravel2 hr hc, pyInsert, hshape, pySlice_one hr,
        pySlice_one hc, Bind.bind, Except.bind, pure, Except.pure]
    refine ⟨?_, ?_, ?_, ?_⟩
    · refine ⟨[n 0, n 1 * n 2], ?_, rfl, rfl, rfl, fun h => absurd (show (_ : Nat) = _ from h) (by simp [Reg3DInput.time_dim, Reg3DInput.space_dim])⟩
      simp [Reg3DInput.shape, Reg3DInput.timeSize, pyItem, hshape, Reg3DInput.spaceSize, hss,
        Reg3DInput.time_dim, Bind.bind, Except.bind, pure, Except.pure]
    · intro t ht
      show ((⟨data, 0⟩ : Reg3DInput α).getTimeSlice t).length = _
      rw [hts t ht, NdArray.ravelAt, List.length_map, cart_length]; simp
    · intro s hs
      obtain ⟨r, c, hr, hc, rfl⟩ := hpix s hs
      exact ⟨_, hsp r c hr hc, by rw [NdArray.ravelAt, List.length_map, cart_length]; simp⟩
    · intro t r c ht hr hc
      refine ⟨?_, _, hsp r c hr hc, ?_⟩
      · show ((⟨data, 0⟩ : Reg3DInput α).getTimeSlice t)[_]? = _
        rw [hts t ht, NdArray.ravelAt, List.getElem?_map]
        have := cart3_get (a := [t]) (i := 0) rfl (range_get hr) (range_get hc)
        simp only [List.length_range, zero_mul, zero_add] at this
        rw [this]; rfl
      · rw [NdArray.ravelAt, List.getElem?_map]
        have := cart3_get (b := [r]) (c := [c]) (j := 0) (k := 0) (range_get ht) rfl rfl
        simp only [List.length_singleton, zero_mul, Nat.mul_one, Nat.add_zero] at this
        rw [this]; rfl
  · simp at hRW hT
    obtain ⟨rfl, rfl⟩ := hRW
    subst hT
    have hss : (⟨data, 1⟩ : Reg3DInput α).spaceShape = [n 0, n 2] := by
      simp [Reg3DInput.spaceShape, hshape]
    have hts : ∀ t : Nat, t < n 1 → (⟨data, 1⟩ : Reg3DInput α).getTimeSlice t =
        data.ravelAt [List.range (n 0), [t], List.range (n 2)] := by
      intro t ht
      simp [Reg3DInput.getTimeSlice, hshape, pySlice_one ht]
    have hsp : ∀ r c, r < n 0 → c < n 2 →
        (⟨data, 1⟩ : Reg3DInput α).getSpatialSlice (r * n 2 + c) =
        .ok (data.ravelAt [[r], List.range (n 1), [c]]) := by
      intro r c hr hc
      simp [Reg3DInput.getSpatialSlice, hss, unravel2 hr hc, pyInsert, hshape, pySlice_one hr,
        pySlice_one hc, Bind.bind, Except.bind, pure, Except.pure]
    refine ⟨?_, ?_, ?_, ?_⟩
    · refine ⟨[n 0 * n 2, n 1], ?_, rfl, rfl, rfl, fun h => absurd (show (_ : Nat) = _ from h) (by simp [Reg3DInput.time_dim, Reg3DInput.space_dim])⟩
      simp [Reg3DInput.shape, Reg3DInput.timeSize, pyItem, hshape, Reg3DInput.spaceSize, hss,
        Reg3DInput.time_dim, Bind.bind, Except.bind, pure, Except.pure]
    · intro t ht
      show ((⟨data, 1⟩ : Reg3DInput α).getTimeSlice t).length = _
      rw [hts t ht, NdArray.ravelAt, List.length_map, cart_length]; simp
    · intro s hs
      obtain ⟨r, c, hr, hc, rfl⟩ := hpix s hs
      exact ⟨_, hsp r c hr hc, by rw [NdArray.ravelAt, List.length_map, cart_length]; simp⟩
    · intro t r c ht hr hc
      refine ⟨?_, _, hsp r c hr hc, ?_⟩
      · show ((⟨data, 1⟩ : Reg3DInput α).getTimeSlice t)[_]? = _
        rw [hts t ht, NdArray.ravelAt, List.getElem?_map]
        have := cart3_get (b := [t]) (j := 0) (range_get hr) rfl (range_get hc)
        simp only [List.length_range, List.length_singleton, zero_mul, zero_add, one_mul] at this
        rw [this]; rfl
      · rw [NdArray.ravelAt, List.getElem?_map]
        have := cart3_get (a := [r]) (c := [c]) (i := 0) (k := 0) rfl (range_get ht) rfl
        simp only [List.length_singleton, zero_mul, Nat.mul_one, Nat.add_zero, zero_add] at this
        rw [this]; rfl
  · simp at hRW hT
    obtain ⟨rfl, rfl⟩ := hRW
    subst hT
    have hss : (⟨data, 2⟩ : Reg3DInput α).spaceShape = [n 0, n 1] := by
      simp [Reg3DInput.spaceShape, hshape]
    have hts : ∀ t : Nat, t < n 2 → (⟨data, 2⟩ : Reg3DInput α).getTimeSlice t =
        data.ravelAt [List.range (n 0), List.range (n 1), [t]] := by
      intro t ht
      simp [Reg3DInput.getTimeSlice, hshape, pySlice_one ht]
    have hsp : ∀ r c, r < n 0 → c < n 1 →
        (⟨data, 2⟩ : Reg3DInput α).getSpatialSlice (r * n 1 + c) =
        .ok (data.ravelAt [[r], [c], List.range (n 2)]) := by
      intro r c hr hc
      simp [Reg3DInput.getSpatialSlice, hss, unravel2 hr hc, pyInsert, hshape, pySlice_one hr,
        pySlice_one hc, Bind.bind, Except.bind, pure, Except.pure]
    refine ⟨?_, ?_, ?_, ?_⟩
    · refine ⟨[n 0 * n 1, n 2], ?_, rfl, rfl, rfl, fun h => absurd (show (_ : Nat) = _ from h) (by simp [Reg3DInput.time_dim, Reg3DInput.space_dim])⟩
      simp [Reg3DInput.shape, Reg3DInput.timeSize, pyItem, hshape, Reg3DInput.spaceSize, hss,
        Reg3DInput.time_dim, Bind.bind, Except.bind, pure, Except.pure]
    · intro t ht
      show ((⟨data, 2⟩ : Reg3DInput α).getTimeSlice t).length = _
      rw [hts t ht, NdArray.ravelAt, List.length_map, cart_length]; simp
    · intro s hs
      obtain ⟨r, c, hr, hc, rfl⟩ := hpix s hs
      exact ⟨_, hsp r c hr hc, by rw [NdArray.ravelAt, List.length_map, cart_length]; simp⟩
    · intro t r c ht hr hc
      refine ⟨?_, _, hsp r c hr hc, ?_⟩
      · show ((⟨data, 2⟩ : Reg3DInput α).getTimeSlice t)[_]? = _
        rw [hts t ht, NdArray.ravelAt, List.getElem?_map]
        have := cart3_get (c := [t]) (k := 0) (range_get hr) (range_get hc) rfl
        simp only [List.length_range, List.length_singleton, Nat.mul_one, Nat.add_zero] at this
        rw [this]; rfl
      · rw [NdArray.ravelAt, List.getElem?_map]
        have := cart3_get (a := [r]) (b := [c]) (i := 0) (j := 0) rfl rfl (range_get ht)
        simp only [List.length_range, zero_mul, zero_add] at this
        rw [this]; rfl

/-- C31. Data that are not three-dimensional and time axes above 2 are refused. -/
theorem C31_raises {α : Type} (data : NdArray α) (td : ℤ) (h : data.shape.length ≠ 3 ∨ 3 ≤ td) :
    Reg3DInput.new data td = .error .valueError := by
  unfold Reg3DInput.new
  by_cases h3 : data.shape.length ≠ 3
  · rw [if_pos h3]
  · rw [if_neg h3, if_pos]
    rcases h with h | h
    · exact absurd h h3
    · omega

/-- A limit of the code: the time axes -1, -2 and -3 are accepted, but time and space then claim the
same axis, and the shape counts the time axis among the spatial points too. From -4 on even the shape raises. -/
theorem C31_negative_axis_refuted {α : Type} (data : NdArray α) (n : Fin 3 → Nat) (hshape : data.shape = [n 0, n 1, n 2])
    (td : Fin 3) :
    (∃ x, Reg3DInput.new data ((td : ℤ) - 3) = .ok x ∧ x.time_dim = x.space_dim ∧
      x.shape = .ok [n td, n 0 * n 1 * n 2]) ∧
    ∀ z : ℤ, z < -3 → ∃ x, Reg3DInput.new data z = .ok x ∧ x.shape = .error .indexError := by
  have hnew : ∀ z : ℤ, z < 0 → Reg3DInput.new data z = .ok ⟨data, z⟩ := by
    intro z hz
    unfold Reg3DInput.new
    rw [hshape, if_neg (by simp), if_neg (by simp; omega)]
  refine ⟨⟨_, hnew _ (by omega), ?_, ?_⟩, fun z hz => ⟨_, hnew z (by omega), ?_⟩⟩
  · fin_cases td <;> rfl
  · fin_cases td <;> simp [Reg3DInput.shape, Reg3DInput.timeSize, Reg3DInput.time_dim, Reg3DInput.spaceSize,
      Reg3DInput.spaceShape, hshape, pyItem, Bind.bind, Except.bind, pure, Except.pure, mul_assoc]
  · unfold Reg3DInput.shape Reg3DInput.timeSize pyItem
    simp only [hshape]
    rw [if_pos (by omega : z < 0), if_pos (by simp; omega)]
    rfl

example : (Reg3DInput.getTimeSlice (⟨⟨[2, 3, 2], fun i => i⟩, 1⟩ : Reg3DInput (List Nat)) 2 =
    [[0, 2, 0], [0, 2, 1], [1, 2, 0], [1, 2, 1]]) := by decide

/-! ### C32 -/

/-- C32, as far as it holds: the entry of a spatial point at row `r` and column `c` is right.
Missing: the number of entries, see `C32_coords_refuted`. -/
theorem C32_coords_partial {α : Type} (data : NdArray α) (n : Fin 3 → Nat)
    (hshape : data.shape = [n 0, n 1, n 2]) (td : Fin 3) (x : Reg3DInput α)
    (hx : Reg3DInput.new data (td : ℤ) = .ok x) (hT : 0 < n td) (R W : Nat)
    (hRW : [R, W] = [n 0, n 1, n 2].eraseIdx td) (r c : Nat) (hr : r < R) (hc : c < W) :
    x.xcoords[r * W + c]? = some c ∧ x.ycoords[r * W + c]? = some r := by
  have hx' : x = ⟨data, td⟩ := by
    unfold Reg3DInput.new at hx
    split at hx
    · simp at hx
    split at hx
    · simp at hx
    · simpa using hx.symm
  subst hx'
  have hss : (⟨data, (td : ℤ)⟩ : Reg3DInput α).spaceShape = [R, W] := by
    rw [hRW]
    fin_cases td <;> simp [Reg3DInput.spaceShape, hshape]
  have hprod : r * W + c < data.shape.prod := by
    have h1 : r * W + c < R * W := by
      have : (r + 1) * W ≤ R * W := Nat.mul_le_mul_right _ hr
      nlinarith
    have h2 : data.shape.prod = n td * (R * W) := by
      rw [hshape]
      have h3 : R * W = ([n 0, n 1, n 2].eraseIdx td).prod := by rw [← hRW]; simp
      rw [h3]
      fin_cases td
      · show _ = n 0 * (n 1 * (n 2 * 1)); simp
      · show _ = n 1 * (n 0 * (n 2 * 1)); simp; ring
      · show _ = n 2 * (n 0 * (n 1 * 1)); simp; ring
    rw [h2]
    exact lt_of_lt_of_le h1 (Nat.le_mul_of_pos_left _ hT)
  obtain ⟨h1, h2⟩ := divmod (r := r) hc
  constructor
  · rw [Reg3DInput.xcoords, List.getElem?_map, range_get hprod, hss]; simp [h2]
  · rw [Reg3DInput.ycoords, List.getElem?_map, range_get hprod, hss]; simp [h1]

/-- C32 is false: `xcoords` and `ycoords` have one entry per element of the cube, not per
spatial point. -/
theorem C32_coords_refuted {α : Type} (data : NdArray α) (n : Fin 3 → Nat)
    (hshape : data.shape = [n 0, n 1, n 2]) (x : Reg3DInput α)
    (hx : Reg3DInput.new data 0 = .ok x) (hT : 2 ≤ n 0) (hS : 0 < n 1 * n 2) :
    x.xcoords.length = n 0 * (n 1 * n 2) ∧ x.ycoords.length = n 0 * (n 1 * n 2) ∧
    x.xcoords.length ≠ x.spaceSize := by
  have hx' : x = ⟨data, 0⟩ := by
    unfold Reg3DInput.new at hx
    split at hx
    · simp at hx
    split at hx
    · simp at hx
    · simpa using hx.symm
  subst hx'
  have h1 : (⟨data, 0⟩ : Reg3DInput α).spaceSize = n 1 * n 2 := by
    simp [Reg3DInput.spaceSize, Reg3DInput.spaceShape, hshape]
  rw [h1]
  simp [Reg3DInput.xcoords, Reg3DInput.ycoords, hshape]
  nlinarith

/-- C32 holds fully for a single image. -/
theorem C32_single_image {α : Type} (data : NdArray α) (n : Fin 3 → Nat)
    (hshape : data.shape = [n 0, n 1, n 2]) (td : Fin 3) (x : Reg3DInput α)
    (hx : Reg3DInput.new data (td : ℤ) = .ok x) (hT : n td = 1) (R W : Nat)
    (hRW : [R, W] = [n 0, n 1, n 2].eraseIdx td) :
    x.xcoords.length = R * W ∧ x.ycoords.length = R * W := by
  have hx' : x = ⟨data, td⟩ := by
    unfold Reg3DInput.new at hx
    split at hx
    · simp at hx
    split at hx
    · simp at hx
    · simpa using hx.symm
  subst hx'
  have h2 : data.shape.prod = R * W := by
    rw [hshape]
    fin_cases td <;> simp at hRW hT ⊢ <;> obtain ⟨rfl, rfl⟩ := hRW <;> rw [hT] <;> ring
  simp [Reg3DInput.xcoords, Reg3DInput.ycoords, h2]

/-! ### C33 -/

/-- C33. `Irreg3DInput` accepts exactly 2D data with 2D coordinates, time axis 0 or 1, and
one coordinate row per spatial column. -/
theorem C33_accepts {α β : Type} (data : NdArray α) (xy : NdArray β) (td : ℤ) :
    (∃ x, Irreg3DInput.new data xy td = .ok x) ↔
      ∃ a b n k, data.shape = [a, b] ∧ xy.shape = [n, k] ∧
        (td = 0 ∧ n = b ∨ td = 1 ∧ n = a) := by
  unfold Irreg3DInput.new
  constructor
  · rintro ⟨x, hx⟩
    split at hx
    · simp at hx
    rename_i h1
    split at hx
    · simp at hx
    rename_i h2
    split at hx
    · simp at hx
    rename_i h3
    have h1 : data.shape.length = 2 := by omega
    have h2 : xy.shape.length = 2 := by omega
    obtain ⟨a, b, hab⟩ := List.length_eq_two.mp h1
    obtain ⟨n, k, hnk⟩ := List.length_eq_two.mp h2
    refine ⟨a, b, n, k, hab, hnk, ?_⟩
    rw [hab] at h3
    rw [hab, hnk] at hx
    by_cases h0 : td = 0
    · subst h0
      by_cases hnb : n = b
      · left; exact ⟨rfl, hnb⟩
      · simp [pyItem, Bind.bind, Except.bind, hnb] at hx
    by_cases h1' : td = 1
    · subst h1'
      by_cases hnb : n = a
      · right; exact ⟨rfl, hnb⟩
      · simp [pyItem, Bind.bind, Except.bind, hnb] at hx
    · have hneg : td < 0 := by simp at h3; omega
      exfalso
      have : pyItem [a, b] (1 - td) = .error .indexError := by
        unfold pyItem
        simp only
        rw [if_neg (by omega), if_neg (by omega), List.getElem?_eq_none (by simp; omega)]
      rw [this] at hx
      simp [pyItem, Bind.bind, Except.bind] at hx
  · rintro ⟨a, b, n, k, hab, hnk, h⟩
    refine ⟨⟨data, xy, td⟩, ?_⟩
    rcases h with ⟨rfl, rfl⟩ | ⟨rfl, rfl⟩ <;>
      simp [hab, hnk, pyItem, Bind.bind, Except.bind, pure, Except.pure]

/-- C33. An accepted object has the shape of the data, and time and spatial slices read the
stored value: element `(t, s)` of the data for time axis 0, `(s, t)` for time axis 1; the
coordinates of point `s` are the stored ones. -/
theorem C33_slices {α β : Type} (data : NdArray α) (xy : NdArray β) (td : ℤ)
    (x : Irreg3DInput α β) (hx : Irreg3DInput.new data xy td = .ok x) :
    ∃ T S : Nat, x.shape = (if td = 0 then [T, S] else [S, T]) ∧
    x.shape[x.timeDim.toNat]? = some T ∧ x.shape[x.space_dim.toNat]? = some S ∧
    xy.shape[0]? = some S ∧
    (∀ t : Nat, t < T → (x.getTimeSlice t).length = S) ∧
    (∀ s : Nat, s < S → (x.getSpatialSlice s).length = T) ∧
    (∀ t s : Nat, t < T → s < S →
      (x.getTimeSlice t)[s]? = some (data.get (if td = 0 then [t, s] else [s, t])) ∧
      (x.getSpatialSlice s)[t]? = some (data.get (if td = 0 then [t, s] else [s, t]))) ∧
    (xy.shape[1]? = some 2 → ∀ s : Nat, s < S → x.xcoords[s]? = some (xy.get [s, 0]) ∧
      x.ycoords[s]? = some (xy.get [s, 1])) := by
  obtain ⟨a, b, n, k, hab, hnk, h⟩ := (C33_accepts data xy td).mp ⟨x, hx⟩
  have hx' : x = ⟨data, xy, td⟩ := by
    unfold Irreg3DInput.new at hx
    split at hx
    · simp at hx
    split at hx
    · simp at hx
    split at hx
    · simp at hx
    rw [hab, hnk] at hx
    rcases h with ⟨rfl, rfl⟩ | ⟨rfl, rfl⟩ <;>
      simp [pyItem, Bind.bind, Except.bind, pure, Except.pure] at hx <;> exact hx.symm
  subst hx'
  have hco : ∀ m : Nat, k = 2 → m < 2 → ∀ s : Nat, s < n →
      (xy.ravelAt [List.range n, pySlice k m (m + 1)])[s]? = some (xy.get [s, m]) := by
    intro m hk hm s hs
    rw [pySlice_one (by omega), NdArray.ravelAt, List.getElem?_map]
    have := cart2_get (b := [m]) (j := 0) (range_get hs) rfl
    simp only [List.length_singleton, Nat.mul_one, Nat.add_zero] at this
    rw [this]; rfl
  have hts : ∀ (t : Nat), t < a → td = 0 → (⟨data, xy, td⟩ : Irreg3DInput α β).getTimeSlice t =
      data.ravelAt [[t], List.range b] := by
    rintro t ht rfl
    simp [Irreg3DInput.getTimeSlice, hab, pySlice_one ht]
  have hss : ∀ (s : Nat), s < b → td = 0 → (⟨data, xy, td⟩ : Irreg3DInput α β).getSpatialSlice s =
      data.ravelAt [List.range a, [s]] := by
    rintro s hs rfl
    simp [Irreg3DInput.getSpatialSlice, Irreg3DInput.space_dim, hab, pySlice_one hs]
  have hts1 : ∀ (t : Nat), t < b → td = 1 → (⟨data, xy, td⟩ : Irreg3DInput α β).getTimeSlice t =
      data.ravelAt [List.range a, [t]] := by
    rintro t ht rfl
    simp [Irreg3DInput.getTimeSlice, hab, pySlice_one ht]
  have hss1 : ∀ (s : Nat), s < a → td = 1 → (⟨data, xy, td⟩ : Irreg3DInput α β).getSpatialSlice s =
      data.ravelAt [[s], List.range b] := by
    rintro s hs rfl
    simp [Irreg3DInput.getSpatialSlice, Irreg3DInput.space_dim, hab, pySlice_one hs]
  have hl : ∀ l m : List Nat, (data.ravelAt [l, m]).length = l.length * m.length := by
    intro l m
    simp [NdArray.ravelAt, cart_length]
  have hfst : ∀ i m j : Nat, j < m → (data.ravelAt [[i], List.range m])[j]? = some (data.get [i, j]) := by
    intro i m j hj
    rw [NdArray.ravelAt, List.getElem?_map]
    have := cart2_get (a := [i]) (i := 0) rfl (range_get hj)
    simp only [zero_mul, zero_add] at this
    rw [this]; rfl
  have hsnd : ∀ i m j : Nat, j < m → (data.ravelAt [List.range m, [i]])[j]? = some (data.get [j, i]) := by
    intro i m j hj
    rw [NdArray.ravelAt, List.getElem?_map]
    have := cart2_get (b := [i]) (j := 0) (range_get hj) rfl
    simp only [List.length_singleton, Nat.mul_one, Nat.add_zero] at this
    rw [this]; rfl
  have hx0 : ∀ s : Nat, s < n → xy.shape[1]? = some 2 →
      (⟨data, xy, td⟩ : Irreg3DInput α β).xcoords[s]? = some (xy.get [s, 0]) ∧
      (⟨data, xy, td⟩ : Irreg3DInput α β).ycoords[s]? = some (xy.get [s, 1]) := by
    intro s hs h2
    have hk : k = 2 := by simpa [hnk] using h2
    have e0 := hco 0 hk (by omega) s hs
    have e1 := hco 1 hk (by omega) s hs
    simp only [Irreg3DInput.xcoords, Irreg3DInput.ycoords, hnk]
    exact ⟨by simpa using e0, by simpa using e1⟩
  rcases h with ⟨h0, hn⟩ | ⟨h0, hn⟩
  · refine ⟨a, b, by simp [Irreg3DInput.shape, hab, h0], by simp [Irreg3DInput.shape, hab, h0],
      by simp [Irreg3DInput.shape, Irreg3DInput.space_dim, hab, h0], by simp [hnk, hn], ?_, ?_, ?_, ?_⟩
    · intro t ht; rw [hts t ht h0, hl]; simp
    · intro s hs; rw [hss s hs h0, hl]; simp
    · intro t s ht hs
      rw [hts t ht h0, hss s hs h0, if_pos h0]
      exact ⟨hfst _ _ _ hs, hsnd _ _ _ ht⟩
    · intro h2 s hs
      exact hx0 s (by omega) h2
  · have hne : td ≠ 0 := by omega
    refine ⟨b, a, by simp [Irreg3DInput.shape, hab, hne], by simp [Irreg3DInput.shape, hab, h0],
      by simp [Irreg3DInput.shape, Irreg3DInput.space_dim, hab, h0], by simp [hnk, hn], ?_, ?_, ?_, ?_⟩
    · intro t ht; rw [hts1 t ht h0, hl]; simp
    · intro s hs; rw [hss1 s hs h0, hl]; simp
    · intro t s ht hs
      rw [hts1 t ht h0, hss1 s hs h0, if_neg hne]
      exact ⟨hsnd _ _ _ hs, hfst _ _ _ ht⟩
    · intro h2 s hs
      exact hx0 s (by omega) h2

example : ∃ x, Irreg3DInput.new (⟨[3, 5], fun i => i⟩ : NdArray (List Nat))
    (⟨[5, 2], fun i => i⟩ : NdArray (List Nat)) 0 = .ok x :=
  (C33_accepts _ _ _).mpr ⟨3, 5, 5, 2, rfl, rfl, Or.inl ⟨rfl, rfl⟩⟩

/-! ### C34 -/

/-- C34. `Raster(...)` succeeds exactly for the modes `r` and `r+`, if the dataset opens and
the band index is between 1 and its number of bands; a bad mode is refused without opening
the dataset. -/
theorem C34_open (ds : Except PyErr Nat) (mode : String) (band : ℤ) :
    ((∃ r, rasterOpen ds mode band = .ok r) ↔
      (mode = "r" ∨ mode = "r+") ∧ ∃ n, ds = .ok n ∧ 1 ≤ band ∧ band ≤ n) ∧
    (∀ r, rasterOpen ds mode band = .ok r → r = (mode, band)) ∧
    (mode ≠ "r" → mode ≠ "r+" → rasterOpen ds mode band = .error .valueError) ∧
    ((mode = "r" ∨ mode = "r+") → ∀ n, ds = .ok n → ¬ (1 ≤ band ∧ band ≤ (n : ℤ)) →
      rasterOpen ds mode band = .error .indexError) := by
  have hw : (mode = "r" ∨ mode = "r+") → mode ∉ ["w", "w+"] := by
    rintro (rfl | rfl) <;> decide
  have hval : ∀ n, (mode = "r" ∨ mode = "r+") → ds = .ok n → rasterOpen ds mode band =
      if ¬ (1 ≤ band ∧ band ≤ (n : ℤ)) then .error .indexError else .ok (mode, band) := by
    rintro n hm rfl
    unfold rasterOpen
    rw [if_neg (hw hm), if_neg (by simp; tauto)]
    rfl
  have hbad : ¬ (mode = "r" ∨ mode = "r+") → rasterOpen ds mode band = .error .valueError := by
    intro h
    unfold rasterOpen
    split
    · rfl
    · rw [if_pos (by simp; tauto)]
  refine ⟨⟨?_, ?_⟩, ?_, ?_, ?_⟩
  · rintro ⟨r, hr⟩
    by_cases hm : mode = "r" ∨ mode = "r+"
    · refine ⟨hm, ?_⟩
      cases ds with
      | error e =>
        unfold rasterOpen at hr
        rw [if_neg (hw hm), if_neg (by simp; tauto)] at hr
        simp [Bind.bind, Except.bind] at hr
      | ok n =>
        rw [hval n hm rfl] at hr
        split at hr
        · simp at hr
        · rename_i hh
          exact ⟨n, rfl, not_not.mp hh⟩
    · rw [hbad hm] at hr; simp at hr
  · rintro ⟨hm, n, hd, hb⟩
    exact ⟨(mode, band), by rw [hval n hm hd, if_neg (by simpa using hb)]⟩
  · intro r hr
    by_cases hm : mode = "r" ∨ mode = "r+"
    · cases ds with
      | error e =>
        unfold rasterOpen at hr
        rw [if_neg (hw hm), if_neg (by simp; tauto)] at hr
        simp [Bind.bind, Except.bind] at hr
      | ok n =>
        rw [hval n hm rfl] at hr
        split at hr
        · simp at hr
        · simpa using hr.symm
    · rw [hbad hm] at hr; simp at hr
  · intro h1 h2
    exact hbad (by tauto)
  · intro hm n hd hb
    rw [hval n hm hd, if_pos hb]

/-- The name of an explicit argument of `Raster.create` and its value. -/
def CreateArgs.get {V : Type} (a : CreateArgs V) (key : String) : Option V :=
  if key = "width" then a.width else if key = "height" then a.height
  else if key = "dtype" then a.dtype else if key = "driver" then a.driver
  else if key = "crs" then a.crs else if key = "transform" then a.transform
  else if key = "nodata" then a.nodata else none

/-- C34. `Raster.create` always creates one band; for every other option an explicit
argument wins over the keyword options, which win over the profile of `like`. -/
theorem C34_create {V : Type} (one : V) (args : CreateArgs V) (like : Option (Options V))
    (kwargs : Options V) (key : String) :
    rasterCreate one args like kwargs key =
      if key = "count" then some one
      else (args.get key).or ((kwargs key).or (like.bind fun p => p key)) := by
  have hset : ∀ (d : Options V) (k : String) (v : Option V) (key : String),
      d.setSome k v key = if key = k then v.orElse (fun _ => d key) else d key := by
    intro d k v key
    unfold Options.setSome
    cases v <;> simp
  unfold rasterCreate
  simp only [hset]
  by_cases hc : key = "count"
  · simp [hc]
  rw [if_neg hc, if_neg hc]
  unfold CreateArgs.get
  generalize hm : (like.elim kwargs fun p => Options.merge p kwargs) = m
  have hb : ∀ k, m k = (kwargs k).or (like.bind fun p => p k) := by
    intro k
    rw [← hm]
    cases like <;> cases h : kwargs k <;> simp [Options.merge, h]
  by_cases h1 : key = "width"
  · subst h1; simp [hb]
  by_cases h2 : key = "height"
  · subst h2; simp [hb]
  by_cases h3 : key = "dtype"
  · subst h3; simp [hb]
  by_cases h4 : key = "driver"
  · subst h4; simp [hb]
  by_cases h5 : key = "crs"
  · subst h5; simp [hb]
  by_cases h6 : key = "transform"
  · subst h6; simp [hb]
  by_cases h7 : key = "nodata"
  · subst h7; simp [hb]
  simp only [h1, h2, h3, h4, h5, h6, h7, if_false]
  simp [hb]

example : rasterCreate (1 : Nat) { width := some 10 } (some fun k => if k = "width" then some 7 else
      if k = "count" then some 3 else if k = "height" then some 9 else none)
      (fun k => if k = "height" then some 8 else none) "width" = some 10 := by
  rw [C34_create]; rfl

example : rasterOpen (.ok 3) "r+" 3 = .ok ("r+", 3) ∧ rasterOpen (.ok 3) "r" 4 = .error .indexError ∧
    rasterOpen (.ok 3) "w" 1 = .error .valueError := by decide

end Spurt
