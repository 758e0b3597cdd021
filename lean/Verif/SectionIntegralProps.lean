import Verif.TransectEntryProps
import Verif.TransectDatumProps
import Mathlib.MeasureTheory.Integral.DivergenceTheorem

/-!
# C211: area, width and wetted perimeter of a surveyed section

Specification by integrals over the bed of the section, the broken line through the surveyed stations: the flow area is the
integral of the water depth, the width the length of the wetted stations, the perimeter the arc length of the wetted bed.
-/

namespace Pipedream.Geometry

open Set MeasureTheory

/-! ### Specification -/

/-- `bed` is the broken line through the `n` stations `(x i, y i)`, which lie in order. -/
structure Bed (n : ℕ) (x y : ℕ → ℝ) (bed : ℝ → ℝ) : Prop where
  order : ∀ i, i + 1 < n → x i < x (i + 1)
  line : ∀ i, i + 1 < n → ∀ ξ ∈ Icc (x i) (x (i + 1)), bed ξ = y i + (y (i + 1) - y i) / (x (i + 1) - x i) * (ξ - x i)

/-- Water depth over the point `ξ` when the water stands at `w`. -/
noncomputable def depthOver (bed : ℝ → ℝ) (w ξ : ℝ) : ℝ := max (w - bed ξ) 0

/-- Is the point `ξ` under water? -/
noncomputable def wetAt (bed : ℝ → ℝ) (w ξ : ℝ) : ℝ := if bed ξ ≤ w then 1 else 0

/-- Length of the bed per unit of width where it is under water. -/
noncomputable def wetLength (bed : ℝ → ℝ) (w ξ : ℝ) : ℝ := wetAt bed w ξ * Real.sqrt (1 + deriv bed ξ ^ 2)

/-! ### One segment -/

theorem antitone_depth (w : ℝ) : Antitone fun y : ℝ => max (w - y) 0 := fun _ _ h =>
  max_le_max (sub_le_sub_left h w) le_rfl

theorem antitone_wet (w : ℝ) : Antitone fun y : ℝ => if y ≤ w then (1 : ℝ) else 0 := by
  intro a b h
  by_cases hb : b ≤ w
  · simp [hb, h.trans hb]
  · simp only [hb, if_false]; split_ifs <;> norm_num

theorem int_wet (w a b : ℝ) : ∫ y in a..b, (if y ≤ w then (1 : ℝ) else 0) = min b w - min a w := by
  refine integral_eq_of_hasDerivAt_off_countable (fun y => min y w) _ (countable_singleton w)
    (by fun_prop) (fun y hy => ?_) (antitone_wet w).intervalIntegrable
  have hne : y ≠ w := fun h => hy.2 (by simp [h])
  rcases lt_or_gt_of_ne hne with h | h
  · rw [if_pos h.le]
    refine (hasDerivAt_id y).congr_of_eventuallyEq ?_
    filter_upwards [Iio_mem_nhds h] with z hz
    exact min_eq_left (le_of_lt hz)
  · rw [if_neg (not_le.mpr h)]
    refine (hasDerivAt_const y w).congr_of_eventuallyEq ?_
    filter_upwards [Ioi_mem_nhds h] with z hz
    exact min_eq_right (le_of_lt hz)

theorem int_depth (w a b : ℝ) : ∫ y in a..b, max (w - y) 0 = max (w - a) 0 ^ 2 / 2 - max (w - b) 0 ^ 2 / 2 := by
  have := integral_eq_of_hasDerivAt_off_countable (fun y => -(max (w - y) 0 ^ 2 / 2)) (fun y => max (w - y) 0)
    (a := a) (b := b) (countable_singleton w) (by fun_prop) (fun y hy => ?_) (antitone_depth w).intervalIntegrable
  · rw [this]; ring
  · have hne : y ≠ w := fun h => hy.2 (by simp [h])
    rcases lt_or_gt_of_ne hne with h | h
    · rw [max_eq_left (by linarith)]
      have h1 : HasDerivAt (fun z : ℝ => -((w - z) ^ 2 / 2)) (w - y) y := by
        have h2 := ((hasDerivAt_id y).const_sub w)
        have h3 := ((h2.mul h2).div_const 2).neg
        refine (h3.congr_deriv (by simp only [id]; ring)).congr_of_eventuallyEq (.of_forall fun z => ?_)
        show -((w - z) ^ 2 / 2) = -((w - z) * (w - z) / 2)
        ring
      refine h1.congr_of_eventuallyEq ?_
      filter_upwards [Iio_mem_nhds h] with z hz
      rw [max_eq_left (by linarith [mem_Iio.mp hz])]
    · rw [max_eq_right (by linarith)]
      refine (hasDerivAt_const y (0 : ℝ)).congr_of_eventuallyEq ?_
      filter_upwards [Ioi_mem_nhds h] with z hz
      rw [max_eq_right (by linarith [mem_Ioi.mp hz])]; norm_num

/-- Integral over a segment as integral over the elevations. -/
theorem int_line {x0 x1 : ℝ} (hx : x0 < x1) {y0 y1 : ℝ} (hy : y0 ≠ y1) (φ : ℝ → ℝ) :
    ∫ ξ in x0..x1, φ (y0 + (y1 - y0) / (x1 - x0) * (ξ - x0)) = (x1 - x0) / (y1 - y0) * ∫ v in y0..y1, φ v := by
  have hd : x1 - x0 ≠ 0 := by linarith [sub_pos.mpr hx] |> fun (h : 0 < x1 - x0) => h.ne'
  have hy' : y1 - y0 ≠ 0 := sub_ne_zero.mpr hy.symm
  have hs : (y1 - y0) / (x1 - x0) ≠ 0 := div_ne_zero hy' hd
  have := intervalIntegral.integral_comp_add_mul (a := x0) (b := x1) φ hs (y0 - (y1 - y0) / (x1 - x0) * x0)
  rw [show y0 - (y1 - y0) / (x1 - x0) * x0 + (y1 - y0) / (x1 - x0) * x0 = y0 by ring,
    show y0 - (y1 - y0) / (x1 - x0) * x0 + (y1 - y0) / (x1 - x0) * x1 = y1 by field_simp; ring, smul_eq_mul,
    inv_div] at this
  rw [← this]
  congr 1; ext ξ; congr 1; ring

theorem segB_int {x0 x1 : ℝ} (hx : x0 < x1) (w y0 y1 : ℝ) :
    segB w x0 x1 y0 y1 = ∫ ξ in x0..x1, if y0 + (y1 - y0) / (x1 - x0) * (ξ - x0) ≤ w then (1 : ℝ) else 0 := by
  by_cases hy : y0 = y1
  · subst hy
    simp only [sub_self, zero_div, zero_mul, add_zero, intervalIntegral.integral_const, smul_eq_mul, segB]
    by_cases h : y0 ≤ w
    · simp [h]
    · simp [h, not_le.mp h]
  · rw [int_line hx hy fun v => if v ≤ w then (1 : ℝ) else 0, int_wet]
    have hy' : y1 - y0 ≠ 0 := sub_ne_zero.mpr (Ne.symm hy)
    simp only [segB]
    by_cases h0 : y0 ≤ w <;> by_cases h1 : y1 ≤ w
    · simp only [h0, h1, min_eq_left, not_lt.mpr h0, gt_iff_lt, false_and, if_false, and_self, if_true]
      field_simp
    · have := not_le.mp h1
      simp only [h0, h1, min_eq_left, min_eq_right this.le, not_lt.mpr h0, gt_iff_lt, false_and, and_false, if_false]
    · have := not_le.mp h0
      simp only [h0, h1, min_eq_left, min_eq_right this.le, not_lt.mpr h1, gt_iff_lt, this, and_false, if_false,
        and_true, if_true]
    · have a := not_le.mp h0
      have b := not_le.mp h1
      simp [a, b, min_eq_right a.le, min_eq_right b.le]

theorem segA_int {x0 x1 : ℝ} (hx : x0 < x1) (w y0 y1 : ℝ) :
    segA w x0 x1 y0 y1 = ∫ ξ in x0..x1, max (w - (y0 + (y1 - y0) / (x1 - x0) * (ξ - x0))) 0 := by
  rw [segA_eq _ _ _ _ _ hx.le]
  by_cases hy : y0 = y1
  · subst hy
    simp only [sub_self, zero_div, zero_mul, add_zero, intervalIntegral.integral_const, smul_eq_mul, segArea, min_self,
      max_self]
    by_cases h : y0 ≤ w
    · rw [if_neg (not_lt.mpr h), if_pos h, max_eq_left (by linarith)]; ring
    · rw [if_pos (not_le.mp h), max_eq_right (by linarith), mul_zero]
  · rw [int_line hx hy fun v => max (w - v) 0, int_depth]
    have hy' : y1 - y0 ≠ 0 := sub_ne_zero.mpr (Ne.symm hy)
    have hy2 : y0 - y1 ≠ 0 := sub_ne_zero.mpr hy
    unfold segArea
    by_cases h0 : y0 ≤ w <;> by_cases h1 : y1 ≤ w
    · rw [if_neg (not_lt.mpr (min_le_of_left_le h0)), if_pos (max_le h0 h1), min_add_max,
        max_eq_left (sub_nonneg.mpr h0), max_eq_left (sub_nonneg.mpr h1)]
      field_simp; ring
    · have hl : y0 ≤ y1 := by linarith
      rw [min_eq_left hl, max_eq_right hl, if_neg (not_lt.mpr h0), if_neg h1, max_eq_left (by linarith),
        max_eq_right (by linarith)]
      field_simp; ring
    · have hl : y1 ≤ y0 := by linarith
      rw [min_eq_right hl, max_eq_left hl, if_neg (not_lt.mpr h1), if_neg h0, max_eq_right (by linarith),
        max_eq_left (by linarith)]
      field_simp; ring
    · rw [if_pos (lt_min (not_le.mp h0) (not_le.mp h1)), max_eq_right (by linarith), max_eq_right (by linarith)]
      ring

/-- The wetted part of a segment is as much longer than it is wide as the whole segment. -/
theorem segPe_slope {x0 x1 : ℝ} (hx : x0 < x1) (w y0 y1 : ℝ) :
    segPe w x0 x1 y0 y1 = segB w x0 x1 y0 y1 * Real.sqrt (1 + ((y1 - y0) / (x1 - x0)) ^ 2) := by
  have hd : 0 < x1 - x0 := sub_pos.mpr hx
  have e : Real.sqrt ((x1 - x0) ^ 2 + (y1 - y0) ^ 2) = (x1 - x0) * Real.sqrt (1 + ((y1 - y0) / (x1 - x0)) ^ 2) := by
    rw [show (x1 - x0) ^ 2 + (y1 - y0) ^ 2 = (x1 - x0) ^ 2 * (1 + ((y1 - y0) / (x1 - x0)) ^ 2) by field_simp,
      Real.sqrt_mul (by positivity), Real.sqrt_sq hd.le]
  rw [Config.segPe_eq, segB_eq, e]
  unfold segWidth
  split_ifs <;> ring

/-! ### The section -/

variable {n : ℕ} {x y : ℕ → ℝ} {bed : ℝ → ℝ}

theorem int_section (φ : ℝ → ℝ) (seg : ℕ → ℝ) (f : ℕ → ℝ → ℝ)
    (hseg : ∀ i, i + 1 < n → seg i = ∫ ξ in x i..x (i + 1), f i ξ)
    (hf : ∀ i, i + 1 < n → IntervalIntegrable (f i) volume (x i) (x (i + 1)))
    (he : ∀ i, i + 1 < n → EqOn (f i) φ (uIoo (x i) (x (i + 1)))) :
    ∑ i ∈ Finset.range (n - 1), seg i = ∫ ξ in x 0..x (n - 1), φ ξ := by
  rw [← intervalIntegral.sum_integral_adjacent_intervals fun k hk => (hf k (by omega)).congr_uIoo (he k (by omega))]
  refine Finset.sum_congr rfl fun i hi => ?_
  have hi' : i + 1 < n := by have := Finset.mem_range.mp hi; omega
  rw [hseg i hi', intervalIntegral.integral_congr_uIoo (he i hi')]

theorem Bed.mem (b : Bed n x y bed) {i : ℕ} (hi : i + 1 < n) {ξ : ℝ} (h : ξ ∈ uIoo (x i) (x (i + 1))) :
    x i < ξ ∧ ξ < x (i + 1) := by
  rw [uIoo_of_le (b.order i hi).le] at h
  exact h

theorem line_integrable {φ : ℝ → ℝ} (hφ : Antitone φ) (c s a p q : ℝ) :
    IntervalIntegrable (fun ξ => φ (c + s * (ξ - a))) volume p q := by
  rcases le_total 0 s with hs | hs
  · exact Antitone.intervalIntegrable fun u v h => hφ (by nlinarith)
  · exact Monotone.intervalIntegrable fun u v h => hφ (by nlinarith)

/-- **C211 (area).** `Transect_A_ik` is the integral of the water depth over the section. -/
theorem C211_area (b : Bed n x y bed) (w : ℝ) :
    transectSum segA n x y w = ∫ ξ in x 0..x (n - 1), depthOver bed w ξ := by
  rw [transectSum_eq]
  refine int_section _ _ (fun i ξ => max (w - (y i + (y (i + 1) - y i) / (x (i + 1) - x i) * (ξ - x i))) 0)
    (fun i hi => segA_int (b.order i hi) w (y i) (y (i + 1))) (fun i _ => line_integrable (antitone_depth w) _ _ _ _ _)
    fun i hi ξ hξ => ?_
  have hm := b.mem hi hξ
  rw [depthOver, b.line i hi ξ ⟨hm.1.le, hm.2.le⟩]

/-- **C211 (width).** `Transect_B_ik` is the length of the stations under water. -/
theorem C211_width (b : Bed n x y bed) (w : ℝ) :
    transectSum segB n x y w = ∫ ξ in x 0..x (n - 1), wetAt bed w ξ := by
  rw [transectSum_eq]
  refine int_section _ _ (fun i ξ => if y i + (y (i + 1) - y i) / (x (i + 1) - x i) * (ξ - x i) ≤ w then (1 : ℝ) else 0)
    (fun i hi => segB_int (b.order i hi) w (y i) (y (i + 1))) (fun i _ => line_integrable (antitone_wet w) _ _ _ _ _)
    fun i hi ξ hξ => ?_
  have hm := b.mem hi hξ
  rw [wetAt, b.line i hi ξ ⟨hm.1.le, hm.2.le⟩]

theorem Bed.deriv (b : Bed n x y bed) {i : ℕ} (hi : i + 1 < n) {ξ : ℝ} (h1 : x i < ξ) (h2 : ξ < x (i + 1)) :
    deriv bed ξ = (y (i + 1) - y i) / (x (i + 1) - x i) := by
  have h : HasDerivAt (fun ξ => y i + (y (i + 1) - y i) / (x (i + 1) - x i) * (ξ - x i))
      ((y (i + 1) - y i) / (x (i + 1) - x i)) ξ := by
    have := (((hasDerivAt_id ξ).sub_const (x i)).const_mul ((y (i + 1) - y i) / (x (i + 1) - x i))).const_add (y i)
    simpa using this
  refine (h.congr_of_eventuallyEq ?_).deriv
  filter_upwards [Ioo_mem_nhds h1 h2] with z hz
  exact b.line i hi z ⟨hz.1.le, hz.2.le⟩

/-- **C211 (wetted perimeter).** `Transect_Pe_ik` is the arc length of the bed under water. -/
theorem C211_perimeter (b : Bed n x y bed) (w : ℝ) :
    transectSum segPe n x y w = ∫ ξ in x 0..x (n - 1), wetLength bed w ξ := by
  rw [transectSum_eq]
  refine int_section _ _ (fun i ξ => (if y i + (y (i + 1) - y i) / (x (i + 1) - x i) * (ξ - x i) ≤ w then (1 : ℝ) else 0) *
      Real.sqrt (1 + ((y (i + 1) - y i) / (x (i + 1) - x i)) ^ 2))
    (fun i hi => ?_) (fun i _ => (line_integrable (antitone_wet w) _ _ _ _ _).mul_const _) fun i hi ξ hξ => ?_
  · rw [intervalIntegral.integral_mul_const, ← segB_int (b.order i hi), segPe_slope (b.order i hi)]
  · have hm := b.mem hi hξ
    rw [wetLength, wetAt, b.deriv hi hm.1 hm.2, b.line i hi ξ ⟨hm.1.le, hm.2.le⟩]

/-- **C211 (the tables).** What the constructor samples from a readable entry: at each level the three integrals over the
surveyed bed, and the radius as their quotient. -/
theorem C211_tables (name : String) {e : Config.Entry} {m : ℕ} {xs ys : List ℝ} (r : Config.Readable e m xs ys)
    (b : Bed xs.length (fun i => xs.getD i 0) (fun i => ys.getD i 0) bed) {t : Config.Transect}
    (ht : (Config.readEntry name e).2 = .ok t) {k : ℕ} (hk : k < m) :
    ∃ w, t.zs[k]? = some w ∧
      t.As[k]? = some (∫ ξ in xs.getD 0 0..xs.getD (xs.length - 1) 0, depthOver bed w ξ) ∧
      t.Bs[k]? = some (∫ ξ in xs.getD 0 0..xs.getD (xs.length - 1) 0, wetAt bed w ξ) ∧
      t.Pes[k]? = some (∫ ξ in xs.getD 0 0..xs.getD (xs.length - 1) 0, wetLength bed w ξ) ∧
      ∃ ρ, t.Rs[k]? = some ρ ∧ ρ * (∫ ξ in xs.getD 0 0..xs.getD (xs.length - 1) 0, wetLength bed w ξ) =
        if (∫ ξ in xs.getD 0 0..xs.getD (xs.length - 1) 0, wetLength bed w ξ) = 0 then 0
        else ∫ ξ in xs.getD 0 0..xs.getD (xs.length - 1) 0, depthOver bed w ξ := by
  obtain ⟨t', hi, h, -, -, -, -, -, -, -, -, H⟩ := Config.C206_values name r fun i hi => (b.order i hi).le
  rw [ht] at h
  cases h
  obtain ⟨w, a, c, p, ρ, z1, z2, z3, z4, z5, -, ea, eb, ep, q1, q2⟩ := H k hk
  have fa : a = ∫ ξ in xs.getD 0 0..xs.getD (xs.length - 1) 0, depthOver bed w ξ := by
    rw [← C211_area b w, transectSum_eq, ea]
    exact Finset.sum_congr rfl fun i hi => (segA_eq _ _ _ _ _
      (b.order i (by have := Finset.mem_range.mp hi; omega)).le).symm
  have fb : c = ∫ ξ in xs.getD 0 0..xs.getD (xs.length - 1) 0, wetAt bed w ξ := by
    rw [← C211_width b w, transectSum_eq, eb]
    exact Finset.sum_congr rfl fun i _ => (segB_eq _ _ _ _ _).symm
  have fp : p = ∫ ξ in xs.getD 0 0..xs.getD (xs.length - 1) 0, wetLength bed w ξ := by
    rw [← C211_perimeter b w, transectSum_eq, ep]
    exact Finset.sum_congr rfl fun i _ => (Config.segPe_eq _ _ _ _ _).symm
  refine ⟨w, z1, fa ▸ z2, fb ▸ z3, fp ▸ z4, ρ, z5, ?_⟩
  rw [← fp, ← fa]
  by_cases hp : p = 0
  · rw [if_pos hp, hp, mul_zero]
  · rw [if_neg hp, q1 hp, div_mul_cancel₀ _ hp]

/-! ### What a link reads from the tables -/

/-- Every depth up to the crown lies between two sampled levels. -/
theorem between_levels {hi : ℝ} (hhi : 0 < hi) {m : ℕ} (hm : 2 ≤ m) {h : ℝ} (h0 : 0 ≤ h) (h1 : h ≤ hi) :
    ∃ i, i + 1 < m ∧ levels hi m i ≤ h ∧ h ≤ levels hi m (i + 1) := by
  have hM : (0 : ℝ) < (m - 1 : ℕ) := by exact_mod_cast (by omega : 0 < m - 1)
  have ht0 : 0 ≤ h * (m - 1 : ℕ) / hi := by positivity
  have key : ∀ i : ℕ, (levels hi m i ≤ h ↔ (i : ℝ) ≤ h * (m - 1 : ℕ) / hi) ∧
      (h ≤ levels hi m i ↔ h * (m - 1 : ℕ) / hi ≤ (i : ℝ)) := by
    intro i
    unfold levels
    rw [div_le_iff₀ hM, le_div_iff₀ hM, le_div_iff₀ hhi, div_le_iff₀ hhi]
    exact ⟨by rw [mul_comm], by rw [mul_comm hi]⟩
  rcases lt_or_eq_of_le h1 with hlt | rfl
  · refine ⟨⌊h * (m - 1 : ℕ) / hi⌋₊, ?_, (key _).1.mpr (Nat.floor_le ht0), (key _).2.mpr ?_⟩
    · have : ⌊h * (m - 1 : ℕ) / hi⌋₊ < m - 1 := by
        rw [Nat.floor_lt ht0, div_lt_iff₀ hhi, mul_comm]
        exact mul_lt_mul_of_pos_left hlt hM
      omega
    · push_cast; exact (Nat.lt_floor_add_one _).le
  · refine ⟨m - 2, by omega, (key _).1.mpr ?_, (key _).2.mpr ?_⟩
    · rw [mul_div_assoc, mul_div_cancel_of_imp' (fun e => absurd e hhi.ne')]
      exact_mod_cast (by omega : m - 2 ≤ m - 1)
    · rw [mul_div_assoc, mul_div_cancel_of_imp' (fun e => absurd e hhi.ne')]
      exact_mod_cast (by omega : m - 1 ≤ m - 2 + 1)

/-- The width under water is at most the width of the section. -/
theorem width_bounds (b : Bed n x y bed) (w : ℝ) :
    0 ≤ transectSum segB n x y w ∧ transectSum segB n x y w ≤ x (n - 1) - x 0 := by
  have e : ∑ i ∈ Finset.range (n - 1), (x (i + 1) - x i) = x (n - 1) - x 0 := Finset.sum_range_sub x (n - 1)
  rw [transectSum_eq, ← e]
  have seg : ∀ i ∈ Finset.range (n - 1), 0 ≤ segB w (x i) (x (i + 1)) (y i) (y (i + 1)) ∧
      segB w (x i) (x (i + 1)) (y i) (y (i + 1)) ≤ x (i + 1) - x i := by
    intro i hi
    have ho := b.order i (by have := Finset.mem_range.mp hi; omega)
    rw [segB_int ho]
    have hint := line_integrable (antitone_wet w) (y i) ((y (i + 1) - y i) / (x (i + 1) - x i)) (x i) (x i) (x (i + 1))
    constructor
    · refine intervalIntegral.integral_nonneg ho.le fun ξ _ => ?_
      split_ifs <;> norm_num
    · have := intervalIntegral.integral_mono_on ho.le hint (intervalIntegrable_const (c := (1 : ℝ))) fun ξ _ => by
        split_ifs <;> norm_num
      simpa using this
  exact ⟨Finset.sum_nonneg fun i hi => (seg i hi).1, Finset.sum_le_sum fun i hi => (seg i hi).2⟩

/-- **C211 (links).** The area a link with a surveyed section reads from the tables (with the lowest station at elevation
zero, `hi` the highest) is the area of water over the bed at the sampled levels; in between it is never too small, and too
large by at most the width of the section times the distance of two levels. -/
theorem C211_link (b : Bed n x y bed) {hi : ℝ} (hhi : 0 < hi) {m : ℕ} (hm : 2 ≤ m) :
    (∀ s, s < m → lookupArea n x y hi m (levels hi m s) = ∫ ξ in x 0..x (n - 1), depthOver bed (levels hi m s) ξ) ∧
    ∀ h, 0 ≤ h → h ≤ hi →
      (∫ ξ in x 0..x (n - 1), depthOver bed h ξ) ≤ lookupArea n x y hi m h ∧
      lookupArea n x y hi m h ≤ (∫ ξ in x 0..x (n - 1), depthOver bed h ξ)
        + hi / (m - 1 : ℕ) * (x (n - 1) - x 0) := by
  refine ⟨fun s hs => by rw [lookup_at x y hhi hm hs, C211_area b], fun h h0 h1 => ?_⟩
  obtain ⟨i, hi', a, c⟩ := between_levels hhi hm h0 h1
  have acc := C63_lookup_accuracy n x y (fun i hi => (b.order i hi).le) hhi hi' a c
  rw [C211_area b] at acc
  refine ⟨acc.1, acc.2.trans ?_⟩
  have hd : levels hi m (i + 1) - levels hi m i = hi / (m - 1 : ℕ) := by
    unfold levels; push_cast; ring
  have u := (width_bounds b (levels hi m (i + 1))).2
  have l := (width_bounds b (levels hi m i)).1
  rw [hd]
  have : 0 ≤ hi / (m - 1 : ℕ) := by positivity
  have := mul_le_mul_of_nonneg_left (by linarith : transectSum segB n x y (levels hi m (i + 1))
    - transectSum segB n x y (levels hi m i) ≤ x (n - 1) - x 0) this
  linarith

/-- **C211 (refinement).** With more and more levels the area read by a link tends to the area of water over the bed. -/
theorem C211_refined (b : Bed n x y bed) {hi : ℝ} (hhi : 0 < hi) {h : ℝ} (h0 : 0 ≤ h) (h1 : h ≤ hi) :
    Filter.Tendsto (fun m => lookupArea n x y hi m h) Filter.atTop
      (nhds (∫ ξ in x 0..x (n - 1), depthOver bed h ξ)) := by
  have lim : Filter.Tendsto (fun m : ℕ => (∫ ξ in x 0..x (n - 1), depthOver bed h ξ)
      + hi / ((m - 1 : ℕ) : ℝ) * (x (n - 1) - x 0)) Filter.atTop
      (nhds ((∫ ξ in x 0..x (n - 1), depthOver bed h ξ) + 0 * (x (n - 1) - x 0))) :=
    (((tendsto_const_div_atTop_nhds_zero_nat hi).comp (Filter.tendsto_sub_atTop_nat 1)).mul_const _).const_add _
  rw [zero_mul, add_zero] at lim
  refine tendsto_of_tendsto_of_tendsto_of_le_of_le' tendsto_const_nhds lim ?_ ?_
  · filter_upwards [Filter.eventually_ge_atTop 2] with m hm using ((C211_link b hhi hm).2 h h0 h1).1
  · filter_upwards [Filter.eventually_ge_atTop 2] with m hm using ((C211_link b hhi hm).2 h h0 h1).2

/-! ### A concrete case -/

/-- A ditch with sides at 45 degrees: bed `|ξ - 1|` between the stations 0, 1, 2. -/
theorem ditch_bed : Bed 3 (fun i => [(0 : ℝ), 1, 2].getD i 0) (fun i => [(1 : ℝ), 0, 1].getD i 0) fun ξ => |ξ - 1| := by
  constructor
  · intro i hi
    rcases (by omega : i = 0 ∨ i = 1) with rfl | rfl <;> norm_num
  · intro i hi ξ hξ
    rcases (by omega : i = 0 ∨ i = 1) with rfl | rfl
    · norm_num at hξ ⊢
      rw [abs_of_nonpos (by linarith [hξ.2])]; ring
    · norm_num at hξ ⊢
      exact hξ.1

/-- Half filled: a quarter of a square metre, one metre wide. -/
example : (∫ ξ in (0 : ℝ)..2, depthOver (fun ξ => |ξ - 1|) (1 / 2) ξ) = 1 / 4 ∧
    (∫ ξ in (0 : ℝ)..2, wetAt (fun ξ => |ξ - 1|) (1 / 2) ξ) = 1 := by
  have a := C211_area ditch_bed (1 / 2)
  have b := C211_width ditch_bed (1 / 2)
  simp only [transectSum_eq, Finset.sum_range_succ, Finset.sum_range_zero, segA, segB] at a b
  norm_num at a b
  norm_num
  exact ⟨a.symm, b.symm⟩

/-- The ditch sampled at three levels: the area read at a quarter of the depth is not too small. -/
example : (∫ ξ in (0 : ℝ)..2, depthOver (fun ξ => |ξ - 1|) (1 / 4) ξ)
    ≤ lookupArea 3 (fun i => [(0 : ℝ), 1, 2].getD i 0) (fun i => [(1 : ℝ), 0, 1].getD i 0) 1 3 (1 / 4) := by
  simpa using ((C211_link ditch_bed one_pos (by norm_num : 2 ≤ 3)).2 (1 / 4) (by norm_num) (by norm_num)).1

end Pipedream.Geometry
