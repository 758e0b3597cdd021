import Verif.StorageModel
import Verif.InterpProps
import Mathlib.Analysis.SpecialFunctions.Pow.Deriv
import Mathlib.Analysis.SpecialFunctions.Pow.Continuity

/-!
# C33 and C65: storage curves
-/

namespace Pipedream.Interp

open Set

/-- **C33 (functional storage, empty).** -/
theorem C33_functional_empty (a b c : ℝ) (hb : 0 ≤ b) : functionalVolume a b c 0 = 0 := by
  have : (0 : ℝ) ^ (b + 1) = 0 := Real.zero_rpow (by linarith)
  simp [functionalVolume, this]

/-- **C33 (functional storage, derivative).** At every positive depth the derivative of the reported
volume is the reported surface area. -/
theorem C33_functional_deriv (a b c : ℝ) (hb : 0 ≤ b) {h : ℝ} (hh : 0 < h) :
    HasDerivAt (functionalVolume a b c) (functionalArea a b c h) h := by
  have h1 : HasDerivAt (fun x : ℝ => (a / (b + 1)) * x ^ (b + 1) + c * x)
      ((a / (b + 1)) * ((b + 1) * h ^ (b + 1 - 1)) + c * 1) h :=
    ((Real.hasDerivAt_rpow_const (Or.inl hh.ne')).const_mul _).add ((hasDerivAt_id h).const_mul c)
  have hne : b + 1 ≠ 0 := by linarith
  have e : (a / (b + 1)) * ((b + 1) * h ^ (b + 1 - 1)) + c * 1 = functionalArea a b c h := by
    rw [functionalArea, if_neg (not_lt.mpr hh.le), add_sub_cancel_right]
    field_simp
  rw [e] at h1
  refine h1.congr_of_eventuallyEq ?_
  filter_upwards [lt_mem_nhds hh] with x hx
  rw [functionalVolume, if_neg (not_lt.mpr (le_of_lt hx))]

/-- **C33 (functional storage, increasing).** With non-negative coefficients the volume does not
decrease with depth, whatever the sign of the depths; with a positive one it increases strictly on
non-negative depths. -/
theorem C33_functional_mono {a b c : ℝ} (ha : 0 ≤ a) (hb : 0 ≤ b) (hc : 0 ≤ c) :
    Monotone (functionalVolume a b c) := by
  intro x y hxy
  unfold functionalVolume
  split_ifs with h1 h2 h2
  · exact le_rfl
  · have : 0 ≤ y := not_lt.mp h2
    positivity
  · exact absurd (lt_of_le_of_lt hxy h2) h1
  · have hx : 0 ≤ x := not_lt.mp h1
    have := Real.rpow_le_rpow hx hxy (by linarith : 0 ≤ b + 1)
    have h3 : (a / (b + 1)) * x ^ (b + 1) ≤ (a / (b + 1)) * y ^ (b + 1) :=
      mul_le_mul_of_nonneg_left this (by positivity)
    have h4 : c * x ≤ c * y := mul_le_mul_of_nonneg_left hxy hc
    linarith

theorem C33_functional_strictMono {a b c : ℝ} (ha : 0 ≤ a) (hb : 0 ≤ b) (hc : 0 ≤ c)
    (hpos : 0 < a ∨ 0 < c) : StrictMonoOn (functionalVolume a b c) (Ici 0) := by
  intro x hx y _ hxy
  have hx : (0 : ℝ) ≤ x := hx
  unfold functionalVolume
  rw [if_neg (not_lt.mpr hx), if_neg (not_lt.mpr (hx.trans hxy.le))]
  have hlt := Real.rpow_lt_rpow hx hxy (by linarith : 0 < b + 1)
  have h3 : (a / (b + 1)) * x ^ (b + 1) ≤ (a / (b + 1)) * y ^ (b + 1) :=
      mul_le_mul_of_nonneg_left hlt.le (by positivity)
  have h4 : c * x ≤ c * y := mul_le_mul_of_nonneg_left hxy.le hc
  rcases hpos with h | h
  · have : (a / (b + 1)) * x ^ (b + 1) < (a / (b + 1)) * y ^ (b + 1) :=
      mul_lt_mul_of_pos_left hlt (by positivity)
    linarith
  · have : c * x < c * y := mul_lt_mul_of_pos_left hxy h
    linarith

/-- **C33 (functional storage, integral).** Together: the volume difference of two depths is bounded by
the areas there times the difference of depths, i.e. the volume is the integral of the (monotone)
surface area. -/
theorem C33_functional_growth {a b c : ℝ} (ha : 0 ≤ a) (hb : 0 ≤ b) {x y : ℝ}
    (hx : 0 ≤ x) (hxy : x ≤ y) :
    functionalArea a b c x * (y - x) ≤ functionalVolume a b c y - functionalVolume a b c x ∧
    functionalVolume a b c y - functionalVolume a b c x ≤ functionalArea a b c y * (y - x) := by
  rcases hxy.lt_or_eq with hlt | rfl
  swap
  · simp
  have hcont : ContinuousOn (functionalVolume a b c) (Icc x y) := by
    have : ContinuousOn (fun z : ℝ => (a / (b + 1)) * z ^ (b + 1) + c * z) (Icc x y) := by
      apply ContinuousOn.add
      · exact continuousOn_const.mul (continuousOn_id.rpow_const (fun z _ => Or.inr (by linarith)))
      · exact continuousOn_const.mul continuousOn_id
    refine this.congr ?_
    intro z hz
    rw [functionalVolume, if_neg (not_lt.mpr (hx.trans hz.1))]
  obtain ⟨z, hz, hze⟩ := exists_hasDerivAt_eq_slope (functionalVolume a b c)
    (functionalArea a b c) hlt hcont
    (fun z hz => C33_functional_deriv a b c hb (lt_of_le_of_lt hx hz.1))
  have hmono : ∀ u v, 0 ≤ u → u ≤ v → functionalArea a b c u ≤ functionalArea a b c v := by
    intro u v hu huv
    rw [functionalArea, functionalArea, if_neg (not_lt.mpr hu), if_neg (not_lt.mpr (hu.trans huv))]
    have := Real.rpow_le_rpow hu huv hb
    have := mul_le_mul_of_nonneg_left this ha
    linarith
  have hd : 0 < y - x := by linarith
  have he : functionalVolume a b c y - functionalVolume a b c x = functionalArea a b c z * (y - x) := by
    rw [hze]; field_simp
  have h1 := hmono x z hx hz.1.le
  have h2 := hmono z y (hx.trans hz.1.le) hz.2.le
  rw [he]
  exact ⟨mul_le_mul_of_nonneg_right h1 hd.le, mul_le_mul_of_nonneg_right h2 hd.le⟩

section Tabular

variable {K : Type*} [Field K] [LinearOrder K] [IsStrictOrderedRing K]

/-- The volume below the `i`-th tabulated depth: the integral of the piecewise linear area over the
depth. -/
def trueVolume (hs As : ℕ → K) : ℕ → K
  | 0 => 0
  | i + 1 => trueVolume hs As i + (hs (i + 1) - hs i) * (As (i + 1) + As i) / 2

omit [LinearOrder K] [IsStrictOrderedRing K] in
/-- **C33 (tabular storage, what is computed).** For every table, the tabulated volume of the code is
the *complement* of the volume: depth times area minus the integral of the area. -/
theorem C33_tabular_complement (h2 : (2 : K) ≠ 0) (hs As : ℕ → K) (i : ℕ) :
    storageVs hs As i = hs i * As i - hs 0 * As 0 - trueVolume hs As i := by
  induction i with
  | zero => simp [storageVs, cumtrapz, trueVolume]
  | succ i ih =>
    have ih' : cumtrapz hs As i = hs i * As i - hs 0 * As 0 - trueVolume hs As i := ih
    simp only [storageVs, cumtrapz, trueVolume, ih']
    field_simp
    ring

/-- **C33 (tabular storage, when it is right).** From depth 0 up, the tabulated volume equals the true
one exactly when the true one is half of depth times area. -/
theorem C33_tabular_iff (hs As : ℕ → K) (h0 : hs 0 = 0) (i : ℕ) :
    storageVs hs As i = trueVolume hs As i ↔ 2 * trueVolume hs As i = hs i * As i := by
  rw [C33_tabular_complement two_ne_zero, h0, zero_mul, sub_zero]
  constructor <;> intro h <;> linarith

omit [LinearOrder K] [IsStrictOrderedRing K] in
/-- **C33 (tabular storage, partial: cones).** The claim holds for tables whose area is proportional to
the depth. Missing: every other table. -/
theorem C33_tabular_partial (hs As : ℕ → K) (s : K) (hA : ∀ i, As i = s * hs i) (i : ℕ) :
    storageVs hs As i = trueVolume hs As i := by
  induction i with
  | zero => rfl
  | succ i ih =>
    have ih' : cumtrapz hs As i = trueVolume hs As i := ih
    simp only [storageVs, cumtrapz, trueVolume, ih', hA]
    ring

omit [Field K] [IsStrictOrderedRing K] in
theorem tabMin_const {f : ℕ → K} {c : K} (h : ∀ i, f i = c) (m : ℕ) : tabMin f m = c := by
  induction m with
  | zero => exact h 0
  | succ m ih => rw [tabMin, ih, h, min_self]

omit [Field K] [IsStrictOrderedRing K] in
theorem tabMax_const {f : ℕ → K} {c : K} (h : ∀ i, f i = c) (m : ℕ) : tabMax f m = c := by
  induction m with
  | zero => exact h 0
  | succ m ih => rw [tabMax, ih, h, max_self]

omit [IsStrictOrderedRing K] in
/-- **C33 (tabular storage, failure).** Every tank with vertical walls has reported volume zero at every
depth of its table, while its true volume is area times depth. -/
theorem C33_tank_volume_zero {n : ℕ} (hs As : ℕ → K) (A : K) (hA : ∀ i, As i = A) {h : K}
    (hin : searchsorted n hs h < n) :
    tabularVolume n hs As (storageVs hs As) h = 0 := by
  have hV : ∀ i, storageVs hs As i = 0 := by
    intro i
    induction i with
    | zero => rfl
    | succ i ih =>
      have ih' : cumtrapz hs As i = 0 := ih
      simp [storageVs, cumtrapz, ih', hA]
  simp only [tabularVolume, tabMin_const hV, hV]
  split_ifs with a b
  · rfl
  · omega
  · ring

theorem trueVolume_tank (hs As : ℕ → K) (A : K) (hA : ∀ i, As i = A) (i : ℕ) :
    trueVolume hs As i = A * (hs i - hs 0) := by
  induction i with
  | zero => simp [trueVolume]
  | succ i ih => rw [trueVolume, ih, hA, hA]; ring

/-- A 10 m² tank, table to depth 4: 30 m³ of water at depth 3 are reported as 0. -/
theorem C33_tank_witness : tabularVolume 2 (fun i => (i : ℚ) * 4) (fun _ => 10)
      (storageVs (fun i => (i : ℚ) * 4) (fun _ => 10)) 3 = 0 := by
  apply C33_tank_volume_zero _ _ 10 (fun _ => rfl)
  have : searchsorted 2 (fun i => (i : ℚ) * 4) 3 = 1 := by
    refine searchsorted_eq (by norm_num) (fun i hi => ?_) (fun _ => by norm_num)
    obtain rfl : i = 0 := by omega
    norm_num
  rw [this]; norm_num

/-- **C33 (tabular storage, shape).** What does hold for every non-decreasing table on non-negative
depths: the reported volume is 0 at and below the lowest depth, and does not decrease with the depth. -/
theorem C33_tabular_mono_partial {n : ℕ} {hs As : ℕ → K} (hn : 0 < n) (hh : Sorted n hs)
    (h0 : 0 ≤ hs 0) (hA0 : 0 ≤ As 0) (hA : ∀ i j, i ≤ j → j < n → As i ≤ As j) :
    (∀ h, h ≤ hs 0 → tabularVolume n hs As (storageVs hs As) h = 0) ∧
    (∀ h h', h ≤ h' → tabularVolume n hs As (storageVs hs As) h
      ≤ tabularVolume n hs As (storageVs hs As) h') := by
  set Vs := storageVs hs As with hVs
  have hpos : ∀ i, i < n → 0 ≤ hs i := by
    intro i hi
    rcases Nat.eq_zero_or_pos i with h | h
    · rw [h]; exact h0
    · exact h0.trans (hh 0 i h hi).le
  have hstep : ∀ i, i + 1 < n → Vs i ≤ Vs (i + 1) := by
    intro i hi
    have h1 := hA i (i + 1) (by omega) hi
    have h2 := hpos i (by omega)
    have h3 := hpos (i + 1) hi
    have : Vs (i + 1) = Vs i + (As (i + 1) - As i) * (hs (i + 1) + hs i) / 2 := rfl
    rw [this]
    have : 0 ≤ (As (i + 1) - As i) * (hs (i + 1) + hs i) / 2 :=
      div_nonneg (mul_nonneg (by linarith) (by linarith)) (by norm_num)
    linarith
  have hV : ∀ i j, i ≤ j → j < n → Vs i ≤ Vs j := by
    intro i j hij
    induction j, hij using Nat.le_induction with
    | base => intro _; exact le_rfl
    | succ j hj ih => intro hjn; exact (ih (by omega)).trans (hstep j hjn)
  have e1 : tabMin Vs (n - 1) = 0 := tabMin_of_mono (fun i j hij hj => hV i j hij (by omega))
  have e2 : tabMax Vs (n - 1) = Vs (n - 1) := tabMax_of_mono (fun i j hij hj => hV i j hij (by omega))
  have e3 : tabMax As (n - 1) = As (n - 1) := tabMax_of_mono (fun i j hij hj => hA i j hij (by omega))
  have e4 : tabMax hs (n - 1) = hs (n - 1) := by
    apply tabMax_of_mono
    intro i j hij hj
    rcases hij.lt_or_eq with h | h
    · exact (hh i j h (by omega)).le
    · rw [h]
  have hAl : 0 ≤ As (n - 1) := hA0.trans (hA 0 (n - 1) (Nat.zero_le _) (by omega))
  have hbelow : ∀ h, searchsorted n hs h < n →
      tabularVolume n hs As Vs h = interpolate .linear n hs Vs h := by
    intro h hlt
    simp only [tabularVolume, interpolate, e1]
    split_ifs with a b
    · rfl
    · omega
    · rfl
  have habove : ∀ h, n ≤ searchsorted n hs h → tabularVolume n hs As Vs h
      = interpolate .linear n hs Vs h + As (n - 1) * (h - hs (n - 1)) := by
    intro h hge
    simp only [tabularVolume, interpolate, e2, e3, e4]
    rw [if_neg (by omega), if_pos hge, if_neg (by omega), if_pos hge]
  constructor
  · intro h hle
    have : searchsorted n hs h = 0 :=
      searchsorted_eq (Nat.zero_le _) (fun j hj => absurd hj (Nat.not_lt_zero _)) (fun _ => hle)
    simp only [tabularVolume, this, if_true, e1]
  · intro h h' hle
    have hi := interpolate_mono (n := n) (xp := hs) (fp := Vs) hV hle
    have hs' := searchsorted_mono (n := n) (xp := hs) hle
    rcases Nat.lt_or_ge (searchsorted n hs h') n with c | c
    · rw [hbelow h (by omega), hbelow h' c]; exact hi
    · rw [habove h' c]
      have hlast : hs (n - 1) < h' := searchsorted_lt (n := n) (by omega)
      rcases Nat.lt_or_ge (searchsorted n hs h) n with d | d
      · rw [hbelow h d]
        have : 0 ≤ As (n - 1) * (h' - hs (n - 1)) := mul_nonneg hAl (by linarith)
        linarith
      · rw [habove h d]
        have : As (n - 1) * (h - hs (n - 1)) ≤ As (n - 1) * (h' - hs (n - 1)) :=
          mul_le_mul_of_nonneg_left (by linarith) hAl
        linarith

omit [IsStrictOrderedRing K] in
/-- **C33 (tabular storage, above the table).** Above the highest tabulated depth the volume grows at
exactly the reported area. -/
theorem C33_tabular_above {n : ℕ} {hs As : ℕ → K} (Vs : ℕ → K) (hn : 0 < n) {h h' : K}
    (hh : ∀ i, i < n → hs i < h) (hh' : ∀ i, i < n → hs i < h') :
    tabularVolume n hs As Vs h' - tabularVolume n hs As Vs h = tabularArea n hs As h * (h' - h) := by
  have i1 : searchsorted n hs h = n :=
    searchsorted_eq le_rfl hh (fun hh => absurd hh (lt_irrefl _))
  have i2 : searchsorted n hs h' = n :=
    searchsorted_eq le_rfl hh' (fun hh => absurd hh (lt_irrefl _))
  rw [C34_top hn hh]
  simp only [tabularVolume, i1, i2]
  simp only [if_neg (by omega : ¬ n = 0), ge_iff_le, le_refl, if_true]
  ring

end Tabular

section Layout

variable {α : Type*}

/-- Table that storage code `st` should read: dictionary entry `order[st]`. -/
def ownTable (tables : List (List α)) (order : List ℕ) (st : ℕ) : List α :=
  tables.getD (order.getD st 0) []

theorem startsFrom_getD (ix : ℕ) (ts : List (List α)) (i : ℕ) (hi : i < ts.length) :
    (startsFrom ix ts).getD i 0 = ix + (ts.take i).flatten.length := by
  induction ts generalizing ix i with
  | nil => simp at hi
  | cons t ts ih =>
    cases i with
    | zero => simp [startsFrom]
    | succ i =>
      simp only [List.length_cons, Nat.add_lt_add_iff_right] at hi
      simp only [startsFrom, List.getD_cons_succ, ih _ i hi, List.take_succ_cons, List.flatten_cons,
        List.length_append]
      omega

theorem flatten_slice (ts : List (List α)) (i : ℕ) (hi : i < ts.length) :
    (ts.flatten.drop (ts.take i).flatten.length).take (ts.getD i []).length = ts.getD i [] := by
  induction ts generalizing i with
  | nil => simp at hi
  | cons t ts ih =>
    cases i with
    | zero => simp
    | succ i =>
      simp only [List.length_cons, Nat.add_lt_add_iff_right] at hi
      simp only [List.take_succ_cons, List.flatten_cons, List.length_append, List.getD_cons_succ]
      rw [List.drop_append]
      have : List.drop (t.length + (List.take i ts).flatten.length) t = [] :=
        List.drop_eq_nil_of_le (by omega)
      rw [this, List.nil_append]
      have e : t.length + (List.take i ts).flatten.length - t.length
          = (List.take i ts).flatten.length := by omega
      rw [e]; exact ih i hi

/-- **C65 (partial: dictionary in alphabetical order).** If the `storages` dictionary lists the tables
in the order of their sorted names, every storage reads its own table, whatever their lengths.
Missing: any other order. -/
theorem C65_own_table_partial (tables : List (List α)) (st : ℕ) (hst : st < tables.length) :
    storageSlice tables (List.range tables.length) st
      = ownTable tables (List.range tables.length) st := by
  have ho : (List.range tables.length).getD st 0 = st := by
    simp [List.getD_eq_getElem?_getD, hst]
  have hc : concatTables tables (List.range tables.length) = tables.flatten := by
    unfold concatTables
    congr 1
    apply List.ext_getElem
    · simp
    · intro i h1 h2
      simp [List.getD_eq_getElem?_getD, h2]
  simp only [storageSlice, ownTable, ho, hc, startsFrom_getD 0 tables st hst, Nat.zero_add]
  have hl : (tables.map List.length).getD st 0 = (tables.getD st []).length := by
    simp [List.getD_eq_getElem?_getD, hst]
  rw [hl]
  exact flatten_slice tables st hst

theorem flatten_length_const (ts : List (List α)) (L : ℕ) (h : ∀ t ∈ ts, t.length = L) :
    ts.flatten.length = ts.length * L := by
  induction ts with
  | nil => simp
  | cons t ts ih =>
    rw [List.flatten_cons, List.length_append, h t (by simp),
      ih (fun u hu => h u (List.mem_cons_of_mem _ hu)), List.length_cons]
    ring

/-- **C65 (failure in general).** For tables of equal length, storage code `st` reads the table of
dictionary entry `order[order[st]]` instead of its own `order[st]`: whenever the dictionary is not in
alphabetical order some storage uses another storage's curve. -/
theorem C65_reads_other (tables : List (List α)) (order : List ℕ) (L st : ℕ)
    (hL : ∀ t ∈ tables, t.length = L) (hlen : order.length = tables.length)
    (hord : ∀ o ∈ order, o < tables.length) (hst : st < order.length) :
    storageSlice tables order st = tables.getD (order.getD (order.getD st 0) 0) [] := by
  have hget : ∀ i, i < order.length → order.getD i 0 < tables.length := by
    intro i hi
    rw [List.getD_eq_getElem?_getD, List.getElem?_eq_getElem hi]
    exact hord _ (List.getElem_mem hi)
  have hlenD : ∀ o, o < tables.length → (tables.getD o []).length = L := by
    intro o ho
    rw [List.getD_eq_getElem?_getD, List.getElem?_eq_getElem ho]
    exact hL _ (List.getElem_mem ho)
  set o := order.getD st 0 with ho
  have ho' : o < tables.length := hget st hst
  set ts := order.map (fun i => tables.getD i []) with hts
  have htl : ts.length = order.length := by simp [hts]
  have htsL : ∀ t ∈ ts, t.length = L := by
    intro t ht
    rw [hts, List.mem_map] at ht
    obtain ⟨i, hi, rfl⟩ := ht
    exact hlenD i (hord i hi)
  have hsize : (tables.map List.length).getD o 0 = L := by
    rw [← hlenD o ho']
    simp [List.getD_eq_getElem?_getD, ho']
  have hind : (startsFrom 0 tables).getD o 0 = (ts.take o).flatten.length := by
    rw [startsFrom_getD 0 tables o ho',
      flatten_length_const _ L (fun t ht => hL t (List.mem_of_mem_take ht)),
      flatten_length_const _ L (fun t ht => htsL t (List.mem_of_mem_take ht)),
      List.length_take, List.length_take, htl, hlen]
    omega
  have hgetts : ts.getD o [] = tables.getD (order.getD o 0) [] := by
    have : o < order.length := by omega
    simp [hts, List.getD_eq_getElem?_getD, this]
  simp only [storageSlice, concatTables, ← hts, ← ho, hind, hsize]
  rw [← hgetts]
  have := flatten_slice ts o (by omega)
  rw [show (ts.getD o []).length = L from by rw [hgetts]; exact hlenD _ (hget o (by omega))] at this
  exact this

/-- **C65 (witness).** Two storages declared in the order `b`, `a` exchange their curves. -/
theorem C65_witness : storageSlice [[1, 2], [30, 40]] [1, 0] 0 = [1, 2] ∧
    ownTable [[1, 2], [30, 40]] [1, 0] 0 = [30, 40] := by decide

/-- With tables of different lengths one storage is cut short. -/
theorem C65_witness_lengths : storageSlice [[1, 2, 3], [30, 40]] [1, 0] 0 = [2, 3] ∧
    ownTable [[1, 2, 3], [30, 40]] [1, 0] 0 = [30, 40] := by decide

end Layout

/-- Non-vacuity: a functional storage `3·h² + 1`, and a table as in the shape theorem. -/
example : HasDerivAt (functionalVolume 3 2 1) (functionalArea 3 2 1 2) 2 :=
  C33_functional_deriv 3 2 1 (by norm_num) (by norm_num)

example : Sorted 3 (fun i => (i : ℚ)) ∧ (0 : ℚ) ≤ (fun i : ℕ => (i : ℚ)) 0 ∧
    ∀ i j : ℕ, i ≤ j → j < 3 → (1 + i : ℚ) ≤ 1 + j := by
  refine ⟨fun i j hij _ => by dsimp only; exact_mod_cast hij, by simp, fun i j hij _ => ?_⟩
  have : (i : ℚ) ≤ j := by exact_mod_cast hij
  linarith

end Pipedream.Interp
