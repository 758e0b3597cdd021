import Verif.InterpModel

/-!
# C38 and C34: table lookups
-/

namespace Pipedream.Interp

variable {K : Type*} [Field K] [LinearOrder K]

/-- The first `n` entries are strictly increasing. -/
def Sorted (n : ℕ) (xp : ℕ → K) : Prop := ∀ i j, i < j → j < n → xp i < xp j

/-- `v` lies between `a` and `b`. -/
def Between (a b v : K) : Prop := min a b ≤ v ∧ v ≤ max a b

omit [Field K] in
theorem searchsorted_le (n : ℕ) (xp : ℕ → K) (x : K) : searchsorted n xp x ≤ n :=
  Nat.find_min' _ (Or.inl le_rfl)

omit [Field K] in
theorem searchsorted_lt {n : ℕ} {xp : ℕ → K} {x : K} {i : ℕ} (h : i < searchsorted n xp x) :
    xp i < x := by
  have := Nat.find_min _ h
  grind

omit [Field K] in
theorem searchsorted_ge {n : ℕ} {xp : ℕ → K} {x : K} (h : searchsorted n xp x < n) :
    x ≤ xp (searchsorted n xp x) := by
  have := Nat.find_spec (⟨n, Or.inl le_rfl⟩ : ∃ i, n ≤ i ∨ x ≤ xp i)
  rcases this with h' | h'
  · exact absurd h (not_lt.mpr h')
  · exact h'

omit [Field K] in
/-- Characterisation: `m ≤ n` splits the table around `x`. -/
theorem searchsorted_eq {n m : ℕ} {xp : ℕ → K} {x : K} (hm : m ≤ n) (hlo : ∀ i, i < m → xp i < x)
    (hhi : m < n → x ≤ xp m) : searchsorted n xp x = m := by
  apply le_antisymm
  · apply Nat.find_min'
    rcases Nat.lt_or_ge m n with h | h
    · exact Or.inr (hhi h)
    · exact Or.inl h
  · by_contra hlt
    push Not at hlt
    have h1 := searchsorted_ge (n := n) (xp := xp) (x := x) (lt_of_lt_of_le hlt hm)
    exact absurd (hlo _ hlt) (not_lt.mpr h1)

omit [Field K] in
/-- At the `i`-th tabulated abscissa of a sorted table the search returns `i`. -/
theorem searchsorted_node {n i : ℕ} {xp : ℕ → K} (hs : Sorted n xp) (hi : i < n) :
    searchsorted n xp (xp i) = i :=
  searchsorted_eq hi.le (fun j hj => hs j i hj hi) (fun _ => le_rfl)

omit [Field K] in
theorem searchsorted_mono {n : ℕ} {xp : ℕ → K} {x y : K} (h : x ≤ y) :
    searchsorted n xp x ≤ searchsorted n xp y := by
  apply Nat.find_min'
  have := Nat.find_spec (⟨n, Or.inl le_rfl⟩ : ∃ i, n ≤ i ∨ y ≤ xp i)
  rcases this with h' | h'
  · exact Or.inl h'
  · exact Or.inr (h.trans h')

variable [IsStrictOrderedRing K]

/-- A convex combination with the fraction used by the lookups. -/
theorem lin_between {a b x p q : K} (hx0 : p < x) (hx1 : x ≤ q) :
    Between a b ((1 - (x - p) / (x - p + (q - x))) * a + (x - p) / (x - p + (q - x)) * b) := by
  have hpos : 0 < x - p + (q - x) := by linarith
  set t := (x - p) / (x - p + (q - x)) with ht
  have h0 : 0 ≤ t := div_nonneg (by linarith) hpos.le
  have h1 : t ≤ 1 := by rw [ht, div_le_one hpos]; linarith
  constructor
  · calc min a b = (1 - t) * min a b + t * min a b := by ring
      _ ≤ _ := add_le_add (mul_le_mul_of_nonneg_left (min_le_left _ _) (by linarith))
          (mul_le_mul_of_nonneg_left (min_le_right _ _) h0)
  · calc _ ≤ (1 - t) * max a b + t * max a b :=
          add_le_add (mul_le_mul_of_nonneg_left (le_max_left _ _) (by linarith))
          (mul_le_mul_of_nonneg_left (le_max_right _ _) h0)
      _ = max a b := by ring

/-- **C38 (recorded samples are reproduced).** At a recorded time both methods return the recorded
sample. -/
theorem C38_sample_reproduced (m : Method) {n i : ℕ} {xp fp : ℕ → K} (hs : Sorted n xp) (hi : i < n) :
    interpolate m n xp fp (xp i) = fp i := by
  simp only [interpolate, searchsorted_node hs hi]
  by_cases h0 : i = 0
  · rw [if_pos h0, h0]
  · rw [if_neg h0, if_neg (by omega)]
    have hlt : xp (i - 1) < xp i := hs _ _ (by omega) hi
    cases m with
    | linear =>
      have hne : xp i - xp (i - 1) ≠ 0 := by
        have : 0 < xp i - xp (i - 1) := by linarith
        exact this.ne'
      simp [sub_self, div_self hne]
    | nearest =>
      have : ¬ |xp i - xp (i - 1)| ≤ |xp i - xp i| := by
        rw [sub_self, abs_zero, not_le, abs_pos]
        have : 0 < xp i - xp (i - 1) := by linarith
        exact this.ne'
      simp only [if_neg this]

/-- **C38 (between the bracketing samples).** Strictly inside the `i`-th interval the value lies between
the two bracketing samples. -/
theorem C38_between_samples (m : Method) {n i : ℕ} {xp fp : ℕ → K} {x : K} (hs : Sorted n xp)
    (hi : i + 1 < n) (h0 : xp i < x) (h1 : x < xp (i + 1)) :
    Between (fp i) (fp (i + 1)) (interpolate m n xp fp x) := by
  have hix : searchsorted n xp x = i + 1 :=
    searchsorted_eq hi.le (fun j hj => by
      rcases Nat.lt_or_ge j i with h | h
      · exact (hs j i h (by omega)).trans h0
      · have : j = i := by omega
        rw [this]; exact h0) (fun _ => h1.le)
  simp only [interpolate, hix, Nat.add_sub_cancel]
  rw [if_neg (by omega), if_neg (by omega)]
  cases m with
  | linear => exact lin_between h0 h1.le
  | nearest =>
    dsimp only
    split_ifs
    · exact ⟨min_le_left _ _, le_max_left _ _⟩
    · exact ⟨min_le_right _ _, le_max_right _ _⟩

omit [IsStrictOrderedRing K] in
/-- **C38 (before the record).** -/
theorem C38_before (m : Method) {n : ℕ} {xp fp : ℕ → K} {x : K} (h : x ≤ xp 0) :
    interpolate m n xp fp x = fp 0 := by
  have hix : searchsorted n xp x = 0 :=
    searchsorted_eq (Nat.zero_le _) (fun j hj => absurd hj (Nat.not_lt_zero _)) (fun _ => h)
  simp only [interpolate, hix, if_true]

omit [IsStrictOrderedRing K] in
/-- **C38 (after the record).** -/
theorem C38_after (m : Method) {n : ℕ} {xp fp : ℕ → K} {x : K} (hn : 0 < n)
    (h : ∀ i, i < n → xp i < x) :
    interpolate m n xp fp x = fp (n - 1) := by
  have hix : searchsorted n xp x = n :=
    searchsorted_eq le_rfl h (fun hh => absurd hh (lt_irrefl _))
  simp only [interpolate, hix]
  rw [if_neg (by omega), if_pos le_rfl]

/-- **C38 (linear interpolation is the chord).** Inside an interval the linear method returns the value
at `x` of the straight line through the two bracketing samples. -/
theorem C38_linear_chord {n i : ℕ} {xp fp : ℕ → K} {x : K} (hs : Sorted n xp)
    (hi : i + 1 < n) (h0 : xp i ≤ x) (h1 : x ≤ xp (i + 1)) :
    interpolate .linear n xp fp x
      = fp i + (fp (i + 1) - fp i) * ((x - xp i) / (xp (i + 1) - xp i)) := by
  have hlt : xp i < xp (i + 1) := hs _ _ (by omega) hi
  have hne : xp (i + 1) - xp i ≠ 0 := (sub_pos.mpr hlt).ne'
  rcases h0.lt_or_eq with h0 | h0
  · have hix : searchsorted n xp x = i + 1 :=
      searchsorted_eq hi.le (fun j hj => by
        rcases Nat.lt_or_ge j i with h | h
        · exact (hs j i h (by omega)).trans h0
        · have : j = i := by omega
          rw [this]; exact h0) (fun _ => h1)
    simp only [interpolate, hix, Nat.add_sub_cancel]
    rw [if_neg (by omega), if_neg (by omega)]
    have : x - xp i + (xp (i + 1) - x) = xp (i + 1) - xp i := by ring
    rw [this]; ring
  · rw [← h0, C38_sample_reproduced _ hs (by omega)]
    simp

/-- **C38 (nearest).** Inside an interval the nearest method returns the sample whose time is closer,
the earlier one on a tie. -/
theorem C38_nearest {n i : ℕ} {xp fp : ℕ → K} {x : K} (hs : Sorted n xp)
    (hi : i + 1 < n) (h0 : xp i < x) (h1 : x < xp (i + 1)) :
    interpolate .nearest n xp fp x = if x - xp i ≤ xp (i + 1) - x then fp i else fp (i + 1) := by
  have hix : searchsorted n xp x = i + 1 :=
    searchsorted_eq hi.le (fun j hj => by
      rcases Nat.lt_or_ge j i with h | h
      · exact (hs j i h (by omega)).trans h0
      · have : j = i := by omega
        rw [this]; exact h0) (fun _ => h1.le)
  simp only [interpolate, hix, Nat.add_sub_cancel]
  rw [if_neg (by omega), if_neg (by omega), abs_of_pos (by linarith), abs_of_pos (by linarith)]

/-- **C38 (never outside the samples).** For every time whatever, the input lies within any bounds all
recorded samples satisfy: interpolation neither overshoots nor extrapolates. -/
theorem C38_range (m : Method) {n : ℕ} {xp fp : ℕ → K} {x lo hi : K} (hn : 0 < n)
    (hb : ∀ i, i < n → lo ≤ fp i ∧ fp i ≤ hi) :
    lo ≤ interpolate m n xp fp x ∧ interpolate m n xp fp x ≤ hi := by
  simp only [interpolate]
  by_cases a : searchsorted n xp x = 0
  · rw [if_pos a]; exact hb 0 hn
  rw [if_neg a]
  by_cases b : searchsorted n xp x ≥ n
  · rw [if_pos b]; exact hb (n - 1) (by omega)
  · rw [if_neg b]
    have hlt : searchsorted n xp x < n := by omega
    have h1 := searchsorted_ge hlt
    have h0 : xp (searchsorted n xp x - 1) < x := searchsorted_lt (n := n) (by omega)
    have b1 := hb _ hlt
    have b0 := hb (searchsorted n xp x - 1) (by omega)
    cases m with
    | linear =>
      have := lin_between (a := fp (searchsorted n xp x - 1)) (b := fp (searchsorted n xp x)) h0 h1
      exact ⟨(le_min b0.1 b1.1).trans this.1, this.2.trans (max_le b0.2 b1.2)⟩
    | nearest =>
      dsimp only
      split_ifs
      · exact b0
      · exact b1

/-- Linear interpolation of a non-decreasing table is non-decreasing. -/
theorem interpolate_mono {n : ℕ} {xp fp : ℕ → K}
    (hf : ∀ i j, i ≤ j → j < n → fp i ≤ fp j) {x y : K} (hxy : x ≤ y) :
    interpolate .linear n xp fp x ≤ interpolate .linear n xp fp y := by
  have hle := searchsorted_mono (n := n) (xp := xp) hxy
  have hyn := searchsorted_le n xp y
  rcases hle.lt_or_eq with hlt | heq
  · -- different cells: the cell of `x` ends before that of `y` begins
    set a := searchsorted n xp x with ha
    set b := searchsorted n xp y with hb
    have hax : a < n := by omega
    have hx : interpolate .linear n xp fp x ≤ fp a := by
      simp only [interpolate, ← ha]
      split_ifs with h h'
      · rw [h]
      · omega
      · have h1 : x ≤ xp a := by rw [ha]; exact searchsorted_ge (by rw [← ha]; exact hax)
        have h0 : xp (a - 1) < x := searchsorted_lt (n := n) (by rw [← ha]; omega)
        have := (lin_between (a := fp (a - 1)) (b := fp a) h0 h1).2
        rwa [max_eq_right (hf _ _ (by omega) hax)] at this
    have hy : fp (b - 1) ≤ interpolate .linear n xp fp y := by
      simp only [interpolate, ← hb]
      rw [if_neg (by omega)]
      split_ifs with h'
      · have : b = n := by omega
        rw [this]
      · have h1 : y ≤ xp b := by rw [hb]; exact searchsorted_ge (by rw [← hb]; omega)
        have h0 : xp (b - 1) < y := searchsorted_lt (n := n) (by rw [← hb]; omega)
        have := (lin_between (a := fp (b - 1)) (b := fp b) h0 h1).1
        rwa [min_eq_left (hf _ _ (by omega) (by omega))] at this
    exact hx.trans ((hf _ _ (by omega) (by omega)).trans hy)
  · simp only [interpolate, heq]
    set b := searchsorted n xp y with hb
    split_ifs with h h'
    · exact le_rfl
    · exact le_rfl
    · have h1 : y ≤ xp b := by rw [hb]; exact searchsorted_ge (by rw [← hb]; omega)
      have h0 : xp (b - 1) < x := searchsorted_lt (n := n) (by rw [heq]; omega)
      have e1 : x - xp (b - 1) + (xp b - x) = xp b - xp (b - 1) := by ring
      have e2 : y - xp (b - 1) + (xp b - y) = xp b - xp (b - 1) := by ring
      rw [e1, e2]
      have hpos : 0 < xp b - xp (b - 1) := by linarith
      have hd : (x - xp (b - 1)) / (xp b - xp (b - 1)) ≤ (y - xp (b - 1)) / (xp b - xp (b - 1)) :=
        div_le_div_of_nonneg_right (by linarith) hpos.le
      have hfb : fp (b - 1) ≤ fp b := hf _ _ (by omega) (by omega)
      nlinarith [mul_le_mul_of_nonneg_right hd (sub_nonneg.mpr hfb)]

omit [Field K] [IsStrictOrderedRing K] in
theorem tabMin_le (f : ℕ → K) (m i : ℕ) (h : i ≤ m) : tabMin f m ≤ f i := by
  induction m with
  | zero => rw [Nat.le_zero.mp h]; exact le_rfl
  | succ m ih =>
    rcases Nat.lt_or_ge i (m + 1) with h' | h'
    · exact (min_le_left _ _).trans (ih (by omega))
    · have : i = m + 1 := by omega
      rw [this]; exact min_le_right _ _

omit [Field K] [IsStrictOrderedRing K] in
theorem le_tabMax (f : ℕ → K) (m i : ℕ) (h : i ≤ m) : f i ≤ tabMax f m := by
  induction m with
  | zero => rw [Nat.le_zero.mp h]; exact le_rfl
  | succ m ih =>
    rcases Nat.lt_or_ge i (m + 1) with h' | h'
    · exact (ih (by omega)).trans (le_max_left _ _)
    · have : i = m + 1 := by omega
      rw [this]; exact le_max_right _ _

omit [Field K] [IsStrictOrderedRing K] in
theorem tabMin_mem (f : ℕ → K) (m : ℕ) : ∃ i, i ≤ m ∧ tabMin f m = f i := by
  induction m with
  | zero => exact ⟨0, le_rfl, rfl⟩
  | succ m ih =>
    obtain ⟨i, hi, he⟩ := ih
    rcases min_cases (tabMin f m) (f (m + 1)) with h | h
    · exact ⟨i, by omega, by rw [tabMin, h.1, he]⟩
    · exact ⟨m + 1, le_rfl, by rw [tabMin, h.1]⟩

omit [Field K] [IsStrictOrderedRing K] in
theorem tabMax_mem (f : ℕ → K) (m : ℕ) : ∃ i, i ≤ m ∧ tabMax f m = f i := by
  induction m with
  | zero => exact ⟨0, le_rfl, rfl⟩
  | succ m ih =>
    obtain ⟨i, hi, he⟩ := ih
    rcases max_cases (tabMax f m) (f (m + 1)) with h | h
    · exact ⟨i, by omega, by rw [tabMax, h.1, he]⟩
    · exact ⟨m + 1, le_rfl, by rw [tabMax, h.1]⟩

omit [Field K] [IsStrictOrderedRing K] in
theorem tabMin_of_mono {f : ℕ → K} {m : ℕ} (h : ∀ i j, i ≤ j → j ≤ m → f i ≤ f j) :
    tabMin f m = f 0 := by
  obtain ⟨i, hi, he⟩ := tabMin_mem f m
  exact le_antisymm (tabMin_le f m 0 (Nat.zero_le _)) (by rw [he]; exact h 0 i (Nat.zero_le _) hi)

omit [Field K] [IsStrictOrderedRing K] in
theorem tabMax_of_mono {f : ℕ → K} {m : ℕ} (h : ∀ i j, i ≤ j → j ≤ m → f i ≤ f j) :
    tabMax f m = f m := by
  obtain ⟨i, hi, he⟩ := tabMax_mem f m
  exact le_antisymm (by rw [he]; exact h i m hi le_rfl) (le_tabMax f m m le_rfl)

/-- **C34 (range).** For every depth and every table, the tabulated area is between the smallest and the
largest tabulated area (given through arbitrary bounds of the table). -/
theorem C34_range {n : ℕ} {hs As : ℕ → K} {h lo hi : K} (hn : 0 < n)
    (hb : ∀ i, i < n → lo ≤ As i ∧ As i ≤ hi) :
    lo ≤ tabularArea n hs As h ∧ tabularArea n hs As h ≤ hi := by
  have hmin : lo ≤ tabMin As (n - 1) ∧ tabMin As (n - 1) ≤ hi := by
    obtain ⟨i, h1, h2⟩ := tabMin_mem As (n - 1)
    rw [h2]; exact hb i (by omega)
  have hmax : lo ≤ tabMax As (n - 1) ∧ tabMax As (n - 1) ≤ hi := by
    obtain ⟨i, h1, h2⟩ := tabMax_mem As (n - 1)
    rw [h2]; exact hb i (by omega)
  simp only [tabularArea]
  split_ifs with a b
  · exact hmin
  · exact hmax
  · have hlt : searchsorted n hs h < n := by omega
    have h1 := searchsorted_ge hlt
    have h0 : hs (searchsorted n hs h - 1) < h := searchsorted_lt (n := n) (by omega)
    have b1 := hb _ hlt
    have b0 := hb (searchsorted n hs h - 1) (by omega)
    have := lin_between (a := As (searchsorted n hs h - 1)) (b := As (searchsorted n hs h)) h0 h1
    exact ⟨(le_min b0.1 b1.1).trans this.1, this.2.trans (max_le b0.2 b1.2)⟩

omit [IsStrictOrderedRing K] in
/-- For non-decreasing tables the area lookup is exactly linear interpolation with constant ends. -/
theorem tabularArea_eq {n : ℕ} {hs As : ℕ → K} (hn : 0 < n)
    (hA : ∀ i j, i ≤ j → j < n → As i ≤ As j) (h : K) :
    tabularArea n hs As h = interpolate .linear n hs As h := by
  have h1 : tabMin As (n - 1) = As 0 := tabMin_of_mono (fun i j hij hj => hA i j hij (by omega))
  have h2 : tabMax As (n - 1) = As (n - 1) :=
    tabMax_of_mono (fun i j hij hj => hA i j hij (by omega))
  simp only [tabularArea, interpolate, h1, h2]

/-- **C34 (monotone).** For a non-decreasing table the area does not decrease with depth. -/
theorem C34_monotone {n : ℕ} {hs As : ℕ → K} (hn : 0 < n)
    (hA : ∀ i j, i ≤ j → j < n → As i ≤ As j) {h h' : K} (hle : h ≤ h') :
    tabularArea n hs As h ≤ tabularArea n hs As h' := by
  rw [tabularArea_eq hn hA, tabularArea_eq hn hA]
  exact interpolate_mono hA hle

/-- **C34 (nodes, monotone tables).** A non-decreasing table is reproduced at every tabulated depth. -/
theorem C34_nodes_partial {n i : ℕ} {hs As : ℕ → K} (hh : Sorted n hs)
    (hA : ∀ i j, i ≤ j → j < n → As i ≤ As j) (hi : i < n) :
    tabularArea n hs As (hs i) = As i := by
  rw [tabularArea_eq (by omega) hA]
  exact C38_sample_reproduced _ hh hi

/-- **C34 (nodes, any table).** Every tabulated depth but the lowest is reproduced whatever the table … -/
theorem C34_upper_nodes {n i : ℕ} {hs As : ℕ → K} (hh : Sorted n hs) (h0 : 0 < i) (hi : i < n) :
    tabularArea n hs As (hs i) = As i := by
  simp only [tabularArea, searchsorted_node hh hi]
  rw [if_neg (by omega), if_neg (by omega)]
  have hlt : hs (i - 1) < hs i := hh _ _ (by omega) hi
  have hne : hs i - hs (i - 1) ≠ 0 := (sub_pos.mpr hlt).ne'
  simp [sub_self, div_self hne]

omit [IsStrictOrderedRing K] in
/-- … but the lowest tabulated depth gives the *smallest* area of the table, so it is reproduced exactly
when the first entry is the smallest: a basin that narrows upwards is misread at its bottom. -/
theorem C34_bottom_iff {n : ℕ} {hs As : ℕ → K} (hh : Sorted n hs) (hn : 0 < n) :
    tabularArea n hs As (hs 0) = As 0 ↔ ∀ i, i < n → As 0 ≤ As i := by
  simp only [tabularArea, searchsorted_node hh hn, if_true]
  constructor
  · intro h i hi
    rw [← h]; exact tabMin_le As (n - 1) i (by omega)
  · intro h
    obtain ⟨i, hi, he⟩ := tabMin_mem As (n - 1)
    exact le_antisymm (tabMin_le As _ 0 (Nat.zero_le _)) (by rw [he]; exact h i (by omega))

omit [IsStrictOrderedRing K] in
/-- Likewise above the table: the largest area is used, not the last one. -/
theorem C34_top {n : ℕ} {hs As : ℕ → K} {h : K} (hn : 0 < n) (hh : ∀ i, i < n → hs i < h) :
    tabularArea n hs As h = tabMax As (n - 1) := by
  have hix : searchsorted n hs h = n :=
    searchsorted_eq le_rfl hh (fun hh => absurd hh (lt_irrefl _))
  simp only [tabularArea, hix]
  rw [if_neg (by omega), if_pos le_rfl]

/-- A sorted record with a bend, read by both methods. -/
example : Sorted 3 (fun i => (i : ℚ) * 2) ∧
    Between (5 : ℚ) 1 (interpolate .linear 3 (fun i => (i : ℚ) * 2) (fun i => if i = 1 then 5 else 1) 3)
    ∧ interpolate .nearest 3 (fun i => (i : ℚ) * 2) (fun i => if i = 1 then 5 else 1) 2 = 5 := by
  have hs : Sorted 3 (fun i => (i : ℚ) * 2) := by
    intro i j hij _
    have : (i : ℚ) < j := by exact_mod_cast hij
    dsimp only; linarith
  refine ⟨hs, ?_, ?_⟩
  · exact C38_between_samples (m := .linear) (i := 1) (fp := fun i => if i = 1 then 5 else 1)
      hs (by norm_num) (by norm_num) (by norm_num)
  · have := C38_sample_reproduced .nearest (i := 1) (fp := fun i => if i = 1 then (5 : ℚ) else 1)
      hs (by norm_num)
    simpa using this

/-- The defect of `C34_bottom_iff` on a basin which narrows upwards: area 3 at depth 0, 1 at depth 1;
the model reports 1 at depth 0. -/
theorem C34_bottom_witness :
    tabularArea 2 (fun i => (i : ℚ)) (fun i => if i = 0 then 3 else 1) 0 = 1 := by
  have hs : Sorted 2 (fun i => (i : ℚ)) := fun i j hij _ => by
    dsimp only; exact_mod_cast hij
  have h := searchsorted_node hs (i := 0) (by norm_num)
  simp only [Nat.cast_zero] at h
  simp only [tabularArea, h, if_true, tabMin]
  norm_num

end Pipedream.Interp
