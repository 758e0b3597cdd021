import Verif.StorageBaseModel
import Verif.StorageProps

/-!
# C121: the two implementations of storage curves
-/

namespace Pipedream.Interp

/-! ### Functional curves -/

/-- **C121 (functional area).** The two areas agree exactly where the depth is not negative, or where the curve is
zero for an empty storage. -/
theorem C121_functional_area_iff (a b c h : ℝ) :
    baseFunctionalArea a b c h = functionalArea a b c h ↔ 0 ≤ h ∨ a * 0 ^ b + c = 0 := by
  unfold baseFunctionalArea functionalArea cutBelow
  by_cases hh : h < 0
  · simp only [if_pos hh]
    constructor
    · exact .inr
    · rintro (h' | h')
      · exact absurd hh (not_lt.mpr h')
      · exact h'
  · simp only [if_neg hh]
    exact ⟨fun _ => .inl (not_lt.mp hh), fun _ => trivial⟩

/-- **C121 (functional volume).** The two volumes agree at every depth. -/
theorem C121_functional_volume (a b c h : ℝ) (hb : b + 1 ≠ 0) :
    baseFunctionalVolume a b c h = functionalVolume a b c h := by
  unfold baseFunctionalVolume functionalVolume cutBelow
  by_cases hh : h < 0
  · simp only [if_pos hh, Real.zero_rpow hb, mul_zero, zero_div, add_zero]
  · simp only [if_neg hh]; ring

/-- **C121 (functional, in use).** The solvers take the depth `max (H - z) min_depth`: both areas are the same. -/
theorem C121_functional_in_use (a b c H z : ℝ) {md : ℝ} (hm : 0 ≤ md) :
    baseFunctionalArea a b c (storageDepth H z md) = functionalArea a b c (storageDepth H z md) :=
  (C121_functional_area_iff a b c _).mpr (.inl (le_max_of_le_right hm))

/-! ### Tables -/

section
variable {K : Type*} [Field K] [LinearOrder K] [IsStrictOrderedRing K]

theorem tabMin_sorted {n : ℕ} {hs : ℕ → K} (hh : Sorted n hs) (hn : 0 < n) : tabMin hs (n - 1) = hs 0 :=
  tabMin_of_mono fun i j hij hj => by
    rcases hij.eq_or_lt with rfl | h
    · exact le_rfl
    · exact (hh i j h (by omega)).le

theorem tabMax_sorted {n : ℕ} {hs : ℕ → K} (hh : Sorted n hs) (hn : 0 < n) : tabMax hs (n - 1) = hs (n - 1) :=
  tabMax_of_mono fun i j hij hj => by
    rcases hij.eq_or_lt with rfl | h
    · exact le_rfl
    · exact (hh i j h (by omega)).le

theorem clip_inside {n : ℕ} {hs : ℕ → K} (hh : Sorted n hs) (hn : 0 < n) {h : K} (h0 : hs 0 ≤ h)
    (h1 : h ≤ hs (n - 1)) : clipToTable n hs h = h := by
  simp only [clipToTable, tabMin_sorted hh hn, tabMax_sorted hh hn, if_neg (not_lt.mpr h0), if_neg (not_lt.mpr h1)]

theorem clip_below {n : ℕ} {hs : ℕ → K} (hh : Sorted n hs) (hn : 0 < n) {h : K} (h0 : h ≤ hs 0) :
    clipToTable n hs h = hs 0 := by
  have hle : hs 0 ≤ hs (n - 1) := by
    rcases Nat.eq_zero_or_pos (n - 1) with e | e
    · rw [e]
    · exact (hh 0 (n - 1) e (by omega)).le
  have e : (if h < hs 0 then hs 0 else h) = hs 0 := by
    split_ifs with hlt
    · rfl
    · exact le_antisymm h0 (not_lt.mp hlt)
  simp only [clipToTable, tabMin_sorted hh hn, tabMax_sorted hh hn, e, if_neg (not_lt.mpr hle)]

theorem clip_above {n : ℕ} {hs : ℕ → K} (hh : Sorted n hs) (hn : 0 < n) {h : K} (h1 : hs (n - 1) < h) :
    clipToTable n hs h = hs (n - 1) := by
  have hle : hs 0 ≤ hs (n - 1) := by
    rcases Nat.eq_zero_or_pos (n - 1) with e | e
    · rw [e]
    · exact (hh 0 (n - 1) e (by omega)).le
  simp only [clipToTable, tabMin_sorted hh hn, tabMax_sorted hh hn, if_neg (not_lt.mpr (hle.trans h1.le)), if_pos h1]

/-- Inside the table `interp1d` is the chord which the numba function computes. -/
theorem interp1d_inside {n : ℕ} {hs : ℕ → K} (hh : Sorted n hs) (fp : ℕ → K) {h : K} (h0 : hs 0 < h)
    (h1 : h ≤ hs (n - 1)) (hn : 0 < n) :
    0 < searchsorted n hs h ∧ searchsorted n hs h < n ∧
    interp1d n hs fp h =
      (1 - (h - hs (searchsorted n hs h - 1)) / (h - hs (searchsorted n hs h - 1) + (hs (searchsorted n hs h) - h))) *
        fp (searchsorted n hs h - 1) +
      (h - hs (searchsorted n hs h - 1)) / (h - hs (searchsorted n hs h - 1) + (hs (searchsorted n hs h) - h)) *
        fp (searchsorted n hs h) := by
  set ix := searchsorted n hs h with hix
  have p0 : 0 < ix := by
    rcases Nat.eq_zero_or_pos ix with e | e
    · have := searchsorted_ge (n := n) (xp := hs) (x := h) (by rw [← hix, e]; exact hn)
      rw [← hix, e] at this
      exact absurd h0 (not_lt.mpr this)
    · exact e
  have p1 : ix < n := by
    rcases Nat.lt_or_ge ix n with e | e
    · exact e
    · have := searchsorted_lt (n := n) (xp := hs) (x := h) (i := n - 1) (by rw [← hix]; omega)
      exact absurd h1 (not_le.mpr this)
  refine ⟨p0, p1, ?_⟩
  have hm : max 1 (min ix (n - 1)) = ix := by omega
  have hne : hs ix - hs (ix - 1) ≠ 0 := (sub_pos.mpr (hh (ix - 1) ix (by omega) p1)).ne'
  have e : h - hs (ix - 1) + (hs ix - h) = hs ix - hs (ix - 1) := by ring
  unfold interp1d
  rw [← hix]
  simp only [hm, e]
  field_simp
  ring

theorem interp1d_first {n : ℕ} {hs : ℕ → K} (fp : ℕ → K) : interp1d n hs fp (hs 0) = fp 0 := by
  have h0 : searchsorted n hs (hs 0) = 0 := Nat.le_zero.mp (Nat.find_min' _ (Or.inr le_rfl))
  unfold interp1d
  simp only [h0]
  simp

theorem interp1d_last {n : ℕ} {hs : ℕ → K} (hh : Sorted n hs) (hn : 2 ≤ n) (fp : ℕ → K) :
    interp1d n hs fp (hs (n - 1)) = fp (n - 1) := by
  have h0 := searchsorted_node hh (show n - 1 < n by omega)
  have hm : max 1 (min (n - 1) (n - 1)) = n - 1 := by omega
  have hne : hs (n - 1) - hs (n - 1 - 1) ≠ 0 := (sub_pos.mpr (hh _ _ (by omega) (by omega))).ne'
  unfold interp1d
  simp only [h0, hm]
  rw [div_mul_cancel₀ _ hne]; ring

/-- **C121 (tables, inside).** Strictly inside a sorted table, and at its top, areas and volumes agree. -/
theorem C121_inside {n : ℕ} {hs : ℕ → K} (hh : Sorted n hs) (hn : 2 ≤ n) (As Vs : ℕ → K) {h : K} (h0 : hs 0 < h)
    (h1 : h ≤ hs (n - 1)) :
    baseTabularArea n hs As h = tabularArea n hs As h ∧ baseTabularVolume n hs As Vs h = tabularVolume n hs As Vs h := by
  have hc := clip_inside hh (by omega : 0 < n) h0.le h1
  obtain ⟨p0, p1, hA⟩ := interp1d_inside hh As h0 h1 (by omega)
  obtain ⟨-, -, hV⟩ := interp1d_inside hh Vs h0 h1 (by omega)
  constructor
  · rw [baseTabularArea, hc, hA]
    simp only [tabularArea, if_neg p0.ne', if_neg (not_le.mpr p1), ge_iff_le]
  · rw [baseTabularVolume, hc, hV, sub_self, max_self, zero_mul, add_zero]
    simp only [tabularVolume, if_neg p0.ne', if_neg (not_le.mpr p1), ge_iff_le]

theorem search_below {n : ℕ} {hs : ℕ → K} {h : K} (h0 : h ≤ hs 0) : searchsorted n hs h = 0 :=
  Nat.le_zero.mp (Nat.find_min' _ (Or.inr h0))

theorem search_above {n : ℕ} {hs : ℕ → K} (hh : Sorted n hs) (hn : 0 < n) {h : K} (h1 : hs (n - 1) < h) :
    searchsorted n hs h = n :=
  searchsorted_eq le_rfl (fun i hi => by
    rcases Nat.lt_or_ge i (n - 1) with h' | h'
    · exact (hh i (n - 1) h' (by omega)).trans h1
    · rwa [show i = n - 1 by omega]) (fun h => absurd h (lt_irrefl n))

/-- **C121 (tables, at or below the bottom).** The areas agree exactly if the first area is the smallest, the
volumes exactly if no volume is negative. -/
theorem C121_below_iff {n : ℕ} {hs : ℕ → K} (hh : Sorted n hs) (hn : 2 ≤ n) (As Vs : ℕ → K) {h : K} (h0 : h ≤ hs 0) :
    (baseTabularArea n hs As h = tabularArea n hs As h ↔ ∀ i, i < n → As 0 ≤ As i) ∧
    (baseTabularVolume n hs As Vs h = tabularVolume n hs As Vs h ↔ ∀ i, i < n → Vs 0 ≤ Vs i) := by
  have hmin : ∀ f : ℕ → K, f 0 = tabMin f (n - 1) ↔ ∀ i, i < n → f 0 ≤ f i := fun f => by
    constructor
    · intro h i hi
      rw [h]; exact tabMin_le f _ i (by omega)
    · intro h
      obtain ⟨i, hi, e⟩ := tabMin_mem f (n - 1)
      exact le_antisymm (by rw [e]; exact h i (by omega)) (tabMin_le f _ 0 (by omega))
  have hc := clip_below hh (by omega : 0 < n) h0
  have hs0 := search_below (n := n) h0
  constructor
  · rw [baseTabularArea, hc, interp1d_first]
    simp only [tabularArea, hs0, if_true]
    exact hmin As
  · rw [baseTabularVolume, hc, interp1d_first, max_eq_right (sub_nonpos.mpr h0), zero_mul, add_zero]
    simp only [tabularVolume, hs0, if_true]
    exact hmin Vs

/-- **C121 (tables, above the top).** The areas agree exactly if the last area is the largest, the volumes exactly
if the last volume is. -/
theorem C121_above_iff {n : ℕ} {hs : ℕ → K} (hh : Sorted n hs) (hn : 2 ≤ n) (As Vs : ℕ → K) {h : K}
    (h1 : hs (n - 1) < h) :
    (baseTabularArea n hs As h = tabularArea n hs As h ↔ ∀ i, i < n → As i ≤ As (n - 1)) ∧
    (baseTabularVolume n hs As Vs h = tabularVolume n hs As Vs h ↔ ∀ i, i < n → Vs i ≤ Vs (n - 1)) := by
  have hmax : ∀ f : ℕ → K, f (n - 1) = tabMax f (n - 1) ↔ ∀ i, i < n → f i ≤ f (n - 1) := fun f => by
    constructor
    · intro h i hi
      rw [h]; exact le_tabMax f _ i (by omega)
    · intro h
      obtain ⟨i, hi, e⟩ := tabMax_mem f (n - 1)
      exact le_antisymm (le_tabMax f _ _ le_rfl) (by rw [e]; exact h i (by omega))
  have hc := clip_above hh (by omega : 0 < n) h1
  have hs1 := search_above hh (by omega : 0 < n) h1
  have hn0 : n ≠ 0 := by omega
  constructor
  · rw [baseTabularArea, hc, interp1d_last hh hn]
    simp only [tabularArea, hs1, if_neg hn0, ge_iff_le, le_refl, if_true]
    exact hmax As
  · rw [baseTabularVolume, hc, interp1d_last hh hn, max_eq_left (sub_nonneg.mpr h1.le)]
    simp only [tabularVolume, hs1, if_neg hn0, ge_iff_le, le_refl, if_true, tabMax_sorted hh (by omega : 0 < n)]
    rw [mul_comm (h - hs (n - 1)), add_left_inj]
    exact hmax Vs

/-- **C121 (growing storages).** For a table of depths from 0 with areas that never shrink — and the volumes
computed by either constructor — both implementations agree at every depth. -/
theorem C121_growing {n : ℕ} {hs As : ℕ → K} (hh : Sorted n hs) (hn : 2 ≤ n) (h0 : 0 ≤ hs 0)
    (hA : ∀ i j, i ≤ j → j < n → As i ≤ As j) (h : K) :
    baseTabularArea n hs As h = tabularArea n hs As h ∧
    baseTabularVolume n hs As (storageVs hs As) h = tabularVolume n hs As (storageVs hs As) h := by
  have hpos : ∀ i, i < n → 0 ≤ hs i := fun i hi => by
    rcases Nat.eq_zero_or_pos i with rfl | e
    · exact h0
    · exact h0.trans (hh 0 i e hi).le
  have hV1 : ∀ i, i + 1 < n → storageVs hs As i ≤ storageVs hs As (i + 1) := fun i hi => by
    show cumtrapz hs As i ≤ cumtrapz hs As i + _
    have a1 := sub_nonneg.mpr (hA i (i + 1) (by omega) hi)
    have a2 := add_nonneg (hpos (i + 1) hi) (hpos i (by omega))
    have := div_nonneg (mul_nonneg a1 a2) zero_le_two
    linarith
  have hV : ∀ i j, i ≤ j → j < n → storageVs hs As i ≤ storageVs hs As j := fun i j hij => by
    induction j, hij using Nat.le_induction with
    | base => exact fun _ => le_rfl
    | succ j hij ih => exact fun hj => (ih (by omega)).trans (hV1 j hj)
  rcases le_or_gt h (hs 0) with e | e
  · obtain ⟨a, b⟩ := C121_below_iff hh hn As (storageVs hs As) e
    exact ⟨a.mpr fun i hi => hA 0 i (by omega) hi, b.mpr fun i hi => hV 0 i (by omega) hi⟩
  · rcases le_or_gt h (hs (n - 1)) with e' | e'
    · exact C121_inside hh hn As _ e e'
    · obtain ⟨a, b⟩ := C121_above_iff hh hn As (storageVs hs As) e'
      exact ⟨a.mpr fun i hi => hA i (n - 1) (by omega) (by omega), b.mpr fun i hi => hV i (n - 1) (by omega) (by omega)⟩

end

/-- **C121 (witness).** A storage that narrows towards the top: above its table the base class keeps the area of the
last entry, the numba class jumps to the largest one. -/
theorem C121_witness : baseTabularArea 2 (fun i => (i : ℚ)) (fun i => 10 - 5 * (i : ℚ)) 2 = 5 ∧
    tabularArea 2 (fun i => (i : ℚ)) (fun i => 10 - 5 * (i : ℚ)) 2 = 10 := by
  have hh : Sorted 2 (fun i => (i : ℚ)) := fun i j hij _ => Nat.cast_lt.mpr hij
  constructor
  · rw [baseTabularArea, clip_above hh (by norm_num) (by norm_num), interp1d_last hh le_rfl]; norm_num
  · simp only [tabularArea]
    rw [search_above hh (by norm_num) (by norm_num)]
    norm_num [tabMax]

/-- A case of `C121_growing`: a conical pond. -/
example : Sorted 3 (fun i => (i : ℚ)) ∧ (0 : ℚ) ≤ (fun i : ℕ => (i : ℚ)) 0 ∧
    ∀ i j : ℕ, i ≤ j → j < 3 → (1 + i : ℚ) ≤ 1 + j := by
  refine ⟨fun i j hij _ => by dsimp only; exact_mod_cast hij, by simp, fun i j hij _ => ?_⟩
  have : (i : ℚ) ≤ j := by exact_mod_cast hij
  linarith

/-! ### The volume of the base class as an integral (C33) -/

/-- **C33 (base class, empty).** An empty functional storage of the base class has no volume, nor has one
with a negative depth. -/
theorem C33_base_empty (a b c : ℝ) (hb : 0 ≤ b) {h : ℝ} (hh : h ≤ 0) : baseFunctionalVolume a b c h = 0 := by
  have e : cutBelow h = 0 := by
    unfold cutBelow
    split_ifs with h1
    · rfl
    · exact le_antisymm hh (not_lt.mp h1)
  have : (0 : ℝ) ^ (b + 1) = 0 := Real.zero_rpow (by linarith)
  simp [baseFunctionalVolume, e, this]

/-- **C33 (base class, derivative).** At every positive depth the derivative of the volume of the base class
is its surface area `a h ^ b + c`. -/
theorem C33_base_deriv (a b c : ℝ) (hb : 0 ≤ b) {h : ℝ} (hh : 0 < h) :
    baseFunctionalArea a b c h = a * h ^ b + c ∧
      HasDerivAt (baseFunctionalVolume a b c) (baseFunctionalArea a b c h) h := by
  refine ⟨by simp [baseFunctionalArea, cutBelow, not_lt.mpr hh.le], ?_⟩
  rw [(C121_functional_area_iff a b c h).2 (.inl hh.le)]
  refine (C33_functional_deriv a b c hb hh).congr_of_eventuallyEq ?_
  exact Filter.Eventually.of_forall fun x => C121_functional_volume a b c x (by linarith)

/-- **C33 (base class, below the bottom).** At a negative depth the area of the base class is that of the
bottom, which is the derivative of the (constant) volume exactly if it is zero. -/
theorem C33_base_below_iff (a b c : ℝ) (hb : 0 ≤ b) {h : ℝ} (hh : h < 0) :
    HasDerivAt (baseFunctionalVolume a b c) (baseFunctionalArea a b c h) h ↔ a * 0 ^ b + c = 0 := by
  have h0 : HasDerivAt (baseFunctionalVolume a b c) 0 h := by
    refine (hasDerivAt_const h (0 : ℝ)).congr_of_eventuallyEq ?_
    filter_upwards [Iio_mem_nhds hh] with x hx
    exact C33_base_empty a b c hb (le_of_lt hx)
  have e : baseFunctionalArea a b c h = a * 0 ^ b + c := by simp [baseFunctionalArea, cutBelow, hh]
  rw [e]
  constructor
  · intro h1; exact h1.unique h0
  · intro h1; rw [h1]; exact h0

/-- **C33 (base class, growth).** With coefficients that are not negative the volume never falls with
depth, and rises strictly if one of them is positive. -/
theorem C33_base_mono {a b c : ℝ} (ha : 0 ≤ a) (hb : 0 ≤ b) (hc : 0 ≤ c) :
    Monotone (baseFunctionalVolume a b c) ∧
      (0 < a ∨ 0 < c → StrictMonoOn (baseFunctionalVolume a b c) (Set.Ici 0)) := by
  have e : baseFunctionalVolume a b c = functionalVolume a b c :=
    funext fun x => C121_functional_volume a b c x (by linarith)
  rw [e]
  exact ⟨C33_functional_mono ha hb hc, C33_functional_strictMono ha hb hc⟩

/-- A basin of area `2 h + 3`. -/
example : HasDerivAt (baseFunctionalVolume 2 1 3) (baseFunctionalArea 2 1 3 1) 1 ∧
    ¬ HasDerivAt (baseFunctionalVolume 2 1 3) (baseFunctionalArea 2 1 3 (-1)) (-1) := by
  refine ⟨(C33_base_deriv 2 1 3 (by norm_num) (by norm_num)).2, ?_⟩
  rw [C33_base_below_iff 2 1 3 (by norm_num) (by norm_num)]
  norm_num

end Pipedream.Interp
