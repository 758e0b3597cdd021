import Verif.InterpProps
import Mathlib.Topology.Order.Lattice
import Mathlib.Topology.Algebra.Order.Field
import Mathlib.Topology.Algebra.Monoid
import Mathlib.Topology.Instances.Real.Lemmas

/-!
# C38 and C34: where table lookups are continuous
-/

namespace Pipedream.Interp

open Filter Topology

/-- The polygon through the first `n + 1` samples, constant outside: each interval contributes its rise times the fraction of
it lying to the left of `x`. -/
noncomputable def polygon (n : ℕ) (xp fp : ℕ → ℝ) (x : ℝ) : ℝ :=
  fp 0 + ∑ i ∈ Finset.range n, (fp (i + 1) - fp i) * max 0 (min 1 ((x - xp i) / (xp (i + 1) - xp i)))

theorem polygon_continuous (n : ℕ) (xp fp : ℕ → ℝ) : Continuous (polygon n xp fp) := by
  unfold polygon
  refine continuous_const.add (continuous_finsetSum _ fun i _ => continuous_const.mul ?_)
  exact continuous_const.max (continuous_const.min ((continuous_id.sub continuous_const).div_const _))

theorem frac_left {a b x : ℝ} (h : a < b) (hx : x ≤ a) : max 0 (min 1 ((x - a) / (b - a))) = 0 := by
  apply max_eq_left
  exact (min_le_right _ _).trans (div_nonpos_of_nonpos_of_nonneg (by linarith) (by linarith))

theorem frac_right {a b x : ℝ} (h : a < b) (hx : b ≤ x) : max 0 (min 1 ((x - a) / (b - a))) = 1 := by
  have : 1 ≤ (x - a) / (b - a) := by rw [le_div_iff₀ (by linarith)]; linarith
  rw [min_eq_left this, max_eq_right zero_le_one]

theorem frac_mid {a b x : ℝ} (h : a < b) (h0 : a ≤ x) (h1 : x ≤ b) :
    max 0 (min 1 ((x - a) / (b - a))) = (x - a) / (b - a) := by
  have : (x - a) / (b - a) ≤ 1 := by rw [div_le_one (by linarith)]; linarith
  rw [min_eq_right this, max_eq_right (div_nonneg (by linarith) (by linarith))]

/-- The lookup is the polygon. -/
theorem interpolate_polygon {n : ℕ} {xp : ℕ → ℝ} (fp : ℕ → ℝ) (hs : Sorted (n + 1) xp) (x : ℝ) :
    interpolate .linear (n + 1) xp fp x = polygon n xp fp x := by
  have le : ∀ i j, i ≤ j → j ≤ n → xp i ≤ xp j := fun i j h hj => by
    rcases h.lt_or_eq with h | rfl
    · exact (hs i j h (by omega)).le
    · exact le_rfl
  have st : ∀ i, i < n → xp i < xp (i + 1) := fun i hi => hs i (i + 1) (by omega) (by omega)
  rcases le_or_gt x (xp 0) with h | h
  · rw [C38_before _ h]
    unfold polygon
    rw [Finset.sum_eq_zero, add_zero]
    intro i hi
    have hi := Finset.mem_range.mp hi
    rw [frac_left (st i hi) (h.trans (le 0 i (by omega) (by omega))), mul_zero]
  rcases le_or_gt (xp n) x with h' | h'
  · have tel : ∀ k, ∑ i ∈ Finset.range k, (fp (i + 1) - fp i) = fp k - fp 0 := fun k => Finset.sum_range_sub fp k
    have e : polygon n xp fp x = fp n := by
      unfold polygon
      rw [Finset.sum_congr rfl (g := fun i => fp (i + 1) - fp i), tel]
      · ring
      · intro i hi
        have hi := Finset.mem_range.mp hi
        rw [frac_right (st i hi) ((le (i + 1) n (by omega) le_rfl).trans h'), mul_one]
    rw [e]
    rcases h'.lt_or_eq with h' | h'
    · exact C38_after _ (by omega) fun i hi => lt_of_le_of_lt (le i n (by omega) le_rfl) h'
    · rw [← h']; exact C38_sample_reproduced _ hs (by omega)
  · obtain ⟨j, hj, h0, h1⟩ : ∃ j, j < n ∧ xp j ≤ x ∧ x ≤ xp (j + 1) := by
      have ex : ∃ j, x ≤ xp j := ⟨n, h'.le⟩
      have sp := Nat.find_spec ex
      have nz : Nat.find ex ≠ 0 := fun e => by rw [e] at sp; linarith
      have le_n : Nat.find ex ≤ n := Nat.find_min' ex h'.le
      obtain ⟨j, e⟩ := Nat.exists_eq_succ_of_ne_zero nz
      refine ⟨j, by omega, (not_le.mp (Nat.find_min ex (m := j) (by omega))).le, ?_⟩
      rw [e] at sp; exact sp
    rw [C38_linear_chord hs (by omega) h0 h1]
    unfold polygon
    obtain ⟨d, rfl⟩ : ∃ d, n = j + 1 + d := ⟨n - (j + 1), by omega⟩
    rw [Finset.sum_range_add, Finset.sum_range_succ, frac_mid (st j (by omega)) h0 h1,
      Finset.sum_congr (s₁ := Finset.range j) rfl (g := fun i => fp (i + 1) - fp i), Finset.sum_range_sub,
      Finset.sum_eq_zero (s := Finset.range d)]
    · ring
    · intro i hi
      have hi := Finset.mem_range.mp hi
      rw [frac_left (st _ (by omega)) (h1.trans (le _ _ (by omega) (by omega))), mul_zero]
    · intro i hi
      have hi := Finset.mem_range.mp hi
      rw [frac_right (st i (by omega)) ((le (i + 1) j (by omega) (by omega)).trans h0), mul_one]

/-- **C38 (linear interpolation is continuous).** In a table with increasing arguments, the linear lookup has no jump, not
even at the ends of the table. -/
theorem C38_continuous {n : ℕ} {xp : ℕ → ℝ} (fp : ℕ → ℝ) (hn : 0 < n) (hs : Sorted n xp) :
    Continuous (interpolate .linear n xp fp) := by
  obtain ⟨k, rfl⟩ : ∃ k, n = k + 1 := ⟨n - 1, by omega⟩
  rw [funext (interpolate_polygon fp hs)]
  exact polygon_continuous _ _ _

/-- Inside the table the storage lookup is the interpolation. -/
theorem tabularArea_inside {n : ℕ} {hs As : ℕ → ℝ} (hn : 0 < n) {h : ℝ} (h0 : hs 0 < h) (h1 : h ≤ hs (n - 1)) :
    tabularArea n hs As h = interpolate .linear n hs As h := by
  have a : searchsorted n hs h ≠ 0 := fun e => by
    have := searchsorted_ge (n := n) (xp := hs) (x := h) (by omega)
    rw [e] at this; linarith
  have b : ¬ searchsorted n hs h ≥ n := fun e => by
    have := searchsorted_lt (n := n) (xp := hs) (x := h) (i := n - 1) (by omega)
    linarith
  simp only [tabularArea, interpolate, if_neg a, if_neg b]

theorem tabularArea_below {n : ℕ} {hs As : ℕ → ℝ} {h : ℝ} (h0 : h ≤ hs 0) :
    tabularArea n hs As h = tabMin As (n - 1) := by
  have hix : searchsorted n hs h = 0 :=
    searchsorted_eq (Nat.zero_le _) (fun j hj => absurd hj (Nat.not_lt_zero _)) (fun _ => h0)
  simp only [tabularArea, hix, if_true]

/-- **C34 (jumps of the surface area).** The surface area of a tabulated basin is a continuous function of the depth exactly
when the lowest entry of the table is its smallest area and the highest entry its largest: otherwise the area jumps where the
water reaches the bottom or the top of the table. -/
theorem C34_continuous_iff {n : ℕ} {hs As : ℕ → ℝ} (so : Sorted n hs) (hn : 1 < n) :
    Continuous (tabularArea n hs As) ↔ (∀ i, i < n → As 0 ≤ As i) ∧ ∀ i, i < n → As i ≤ As (n - 1) := by
  have ci := C38_continuous As (by omega) so
  have lt : hs 0 < hs (n - 1) := so 0 (n - 1) (by omega) (by omega)
  have le : ∀ i, i < n → hs i ≤ hs (n - 1) := fun i hi => by
    rcases (show i < n - 1 ∨ i = n - 1 by omega) with h | rfl
    · exact (so i _ h (by omega)).le
    · exact le_rfl
  constructor
  · intro c
    constructor
    · have t1 : Tendsto (tabularArea n hs As) (𝓝[>] hs 0) (𝓝 (tabularArea n hs As (hs 0))) :=
        (c.tendsto _).mono_left nhdsWithin_le_nhds
      have t2 : Tendsto (tabularArea n hs As) (𝓝[>] hs 0) (𝓝 (interpolate .linear n hs As (hs 0))) := by
        refine ((ci.tendsto _).mono_left nhdsWithin_le_nhds).congr' ?_
        filter_upwards [Ioo_mem_nhdsGT lt] with z hz
        exact (tabularArea_inside (by omega) hz.1 hz.2.le).symm
      rw [C38_sample_reproduced _ so (by omega)] at t2
      have e := tendsto_nhds_unique t1 t2
      exact (C34_bottom_iff so (by omega)).mp e
    · have t1 : Tendsto (tabularArea n hs As) (𝓝[>] hs (n - 1)) (𝓝 (tabularArea n hs As (hs (n - 1)))) :=
        (c.tendsto _).mono_left nhdsWithin_le_nhds
      have t2 : Tendsto (tabularArea n hs As) (𝓝[>] hs (n - 1)) (𝓝 (tabMax As (n - 1))) := by
        refine (tendsto_const_nhds (x := tabMax As (n - 1))).congr' ?_
        filter_upwards [self_mem_nhdsWithin] with z hz
        exact (C34_top (by omega) fun i hi => lt_of_le_of_lt (le i hi) hz).symm
      have e := tendsto_nhds_unique t1 t2
      rw [C34_upper_nodes so (by omega) (by omega)] at e
      intro i hi
      rw [e]; exact le_tabMax _ _ _ (by omega)
  · rintro ⟨lo, hi⟩
    have e : tabularArea n hs As = interpolate .linear n hs As := by
      have e0 : tabMin As (n - 1) = As 0 := by
        obtain ⟨i, hi', he⟩ := tabMin_mem As (n - 1)
        exact le_antisymm (tabMin_le As _ 0 (Nat.zero_le _)) (by rw [he]; exact lo i (by omega))
      have e1 : tabMax As (n - 1) = As (n - 1) := by
        obtain ⟨i, hi', he⟩ := tabMax_mem As (n - 1)
        exact le_antisymm (by rw [he]; exact hi i (by omega)) (le_tabMax As _ _ le_rfl)
      funext h
      simp only [tabularArea, interpolate, e0, e1]
    rw [e]; exact ci

/-- Away from bottom and top of its table every basin's surface area is continuous. -/
theorem C34_continuousAt {n : ℕ} {hs As : ℕ → ℝ} (so : Sorted n hs) (hn : 1 < n) {h : ℝ} (h0 : h ≠ hs 0) (h1 : h ≠ hs (n - 1)) :
    ContinuousAt (tabularArea n hs As) h := by
  have le : ∀ i, i < n → hs i ≤ hs (n - 1) := fun i hi => by
    rcases (show i < n - 1 ∨ i = n - 1 by omega) with h | rfl
    · exact (so i _ h (by omega)).le
    · exact le_rfl
  rcases lt_or_gt_of_ne h0 with a | a
  · refine (continuousAt_const (y := tabMin As (n - 1))).congr ?_
    filter_upwards [Iio_mem_nhds a] with z hz
    exact (tabularArea_below (le_of_lt hz)).symm
  rcases lt_or_gt_of_ne h1 with b | b
  · refine ((C38_continuous As (by omega) so).continuousAt).congr ?_
    filter_upwards [Ioo_mem_nhds a b] with z hz
    exact (tabularArea_inside (by omega) hz.1 hz.2.le).symm
  · refine (continuousAt_const (y := tabMax As (n - 1))).congr ?_
    filter_upwards [Ioi_mem_nhds b] with z hz
    exact (C34_top (by omega) fun i hi => lt_of_le_of_lt (le i hi) hz).symm

/-- Away from bottom and top of its table every basin's volume is continuous. -/
theorem tabularVolume_continuousAt {n : ℕ} {hs As Vs : ℕ → ℝ} (so : Sorted n hs) (hn : 1 < n) {h : ℝ} (h0 : h ≠ hs 0)
    (h1 : h ≠ hs (n - 1)) : ContinuousAt (tabularVolume n hs As Vs) h := by
  have le : ∀ i, i < n → hs i ≤ hs (n - 1) := fun i hi => by
    rcases (show i < n - 1 ∨ i = n - 1 by omega) with h | rfl
    · exact (so i _ h (by omega)).le
    · exact le_rfl
  rcases lt_or_gt_of_ne h1 with b | b
  · refine (C34_continuousAt (As := Vs) so hn h0 h1).congr ?_
    filter_upwards [Iio_mem_nhds b] with z hz
    have q : ¬ searchsorted n hs z ≥ n := fun e => by
      have := searchsorted_lt (n := n) (xp := hs) (x := z) (i := n - 1) (by omega)
      exact absurd this (not_lt.mpr (le_of_lt hz))
    simp only [tabularArea, tabularVolume, if_neg q]
  · refine ContinuousAt.congr (f := fun z => tabMax Vs (n - 1) + tabMax As (n - 1) * (z - tabMax hs (n - 1))) ?_ ?_
    · exact continuousAt_const.add (continuousAt_const.mul (continuousAt_id.sub continuousAt_const))
    filter_upwards [Ioi_mem_nhds b] with z hz
    have q : searchsorted n hs z = n :=
      searchsorted_eq le_rfl (fun i hi => lt_of_le_of_lt (le i hi) hz) (fun hh => absurd hh (lt_irrefl _))
    simp only [tabularVolume, q]
    rw [if_neg (by omega), if_pos le_rfl]

/-- A basin of area 3 at the bottom, 1 at one metre: its area jumps at the bottom. -/
example : ¬ Continuous (tabularArea 2 (fun i => (i : ℝ)) (fun i => if i = 0 then 3 else 1)) := by
  rw [C34_continuous_iff (fun i j h _ => by exact_mod_cast h) (by norm_num)]
  rintro ⟨h, -⟩
  have := h 1 (by norm_num)
  norm_num at this

/-- A basin widening from 1 to 3: no jump. -/
example : Continuous (tabularArea 2 (fun i => (i : ℝ)) (fun i => if i = 0 then 1 else 3)) := by
  rw [C34_continuous_iff (fun i j h _ => by exact_mod_cast h) (by norm_num)]
  refine ⟨fun i _ => ?_, fun i _ => ?_⟩ <;> (by_cases h : i = 0 <;> norm_num [h])

end Pipedream.Interp
