import Verif.GeometryModel
import Mathlib.Analysis.SpecialFunctions.Trigonometric.InverseDeriv
import Mathlib.Analysis.Calculus.Deriv.MeanValue
import Mathlib.Analysis.Calculus.Deriv.Mul
import Mathlib.Analysis.Calculus.Deriv.Pow

/-!
# Lemmas on depths and section functions
-/

namespace Pipedream.Geometry

theorem wet_eq (h1 h2 : ℝ) : wet h1 h2 = max ((h1 + h2) / 2) 0 := by
  simp only [wet]
  split_ifs with h
  · rw [max_eq_right (le_of_lt h)]
  · rw [max_eq_left (not_lt.mp h)]

theorem depth_eq (h1 h2 ymax : ℝ) : depth h1 h2 ymax = min (max ((h1 + h2) / 2) 0) ymax := by
  simp only [depth, wet_eq]
  split_ifs with h
  · rw [min_eq_right (le_of_lt h)]
  · rw [min_eq_left (not_lt.mp h)]

theorem wet_same {y : ℝ} (h : 0 ≤ y) : wet y y = y := by
  rw [wet_eq]; have : (y + y) / 2 = y := by ring
  rw [this, max_eq_left h]

theorem depth_nonneg (h1 h2 : ℝ) {ymax : ℝ} (h : 0 ≤ ymax) : 0 ≤ depth h1 h2 ymax := by
  rw [depth_eq]; exact le_min (le_max_right _ _) h

theorem depth_le (h1 h2 ymax : ℝ) : depth h1 h2 ymax ≤ ymax := by
  rw [depth_eq]; exact min_le_right _ _

theorem depth_mono {h1 h2 h1' h2' : ℝ} (ymax : ℝ) (h : h1 + h2 ≤ h1' + h2') :
    depth h1 h2 ymax ≤ depth h1' h2' ymax := by
  rw [depth_eq, depth_eq]
  exact min_le_min (max_le_max (by linarith) le_rfl) le_rfl

theorem depth_full {h1 h2 ymax : ℝ} (h : 2 * ymax ≤ h1 + h2) : depth h1 h2 ymax = ymax := by
  rw [depth_eq, min_eq_right]
  exact le_max_of_le_left (by linarith)

theorem depth_empty {h1 h2 ymax : ℝ} (h0 : 0 ≤ ymax) (h : h1 + h2 ≤ 0) : depth h1 h2 ymax = 0 := by
  rw [depth_eq, max_eq_right (by linarith), min_eq_left h0]

theorem depth_same {y ymax : ℝ} (h0 : 0 ≤ y) (h : y ≤ ymax) : depth y y ymax = y := by
  rw [depth_eq]; have : (y + y) / 2 = y := by ring
  rw [this, max_eq_left h0, min_eq_left h]

/-! ### Circle -/

theorem circTheta_eq {y d : ℝ} (hd : 0 < d) (h0 : 0 ≤ y) (h1 : y ≤ d) :
    circTheta y d = Real.arccos (1 - y / (d / 2)) := by
  have hr : (0:ℝ) < d / 2 := by linarith
  have a : ¬ y / (d / 2) < 0 := not_lt.mpr (div_nonneg h0 hr.le)
  have b : ¬ y / (d / 2) > 2 := by
    rw [gt_iff_lt, not_lt, div_le_iff₀ hr]; linarith
  simp only [circTheta, if_neg a, if_neg b]

/-- `θ - cos θ sin θ` is non-decreasing. -/
theorem segment_mono : Monotone fun t : ℝ => t - Real.cos t * Real.sin t := by
  apply monotone_of_deriv_nonneg
  · fun_prop
  · intro t
    have h : HasDerivAt (fun t : ℝ => t - Real.cos t * Real.sin t)
        (1 - (-Real.sin t * Real.sin t + Real.cos t * Real.cos t)) t :=
      (hasDerivAt_id t).sub ((Real.hasDerivAt_cos t).mul (Real.hasDerivAt_sin t))
    rw [h.deriv]
    nlinarith [Real.sin_sq_add_cos_sq t, sq_nonneg (Real.sin t)]

/-- `θ + cos θ sin θ` is non-decreasing. -/
theorem segment_mono' : Monotone fun t : ℝ => t + Real.cos t * Real.sin t := by
  apply monotone_of_deriv_nonneg
  · fun_prop
  · intro t
    have h : HasDerivAt (fun t : ℝ => t + Real.cos t * Real.sin t)
        (1 + (-Real.sin t * Real.sin t + Real.cos t * Real.cos t)) t :=
      (hasDerivAt_id t).add ((Real.hasDerivAt_cos t).mul (Real.hasDerivAt_sin t))
    rw [h.deriv]
    nlinarith [Real.sin_sq_add_cos_sq t, sq_nonneg (Real.cos t)]

/-- Area of a circular segment of height `y` as the code computes it. -/
noncomputable def circF (d y : ℝ) : ℝ :=
  (d / 2) ^ 2 * (Real.arccos (1 - y / (d / 2)) - Real.cos (Real.arccos (1 - y / (d / 2)))
    * Real.sin (Real.arccos (1 - y / (d / 2))))

theorem circularA_eq (h1 h2 : ℝ) {d : ℝ} (hd : 0 < d) : circularA h1 h2 d = circF d (depth h1 h2 d) := by
  simp only [circularA, circF, circTheta_eq hd (depth_nonneg h1 h2 hd.le) (depth_le h1 h2 d)]

theorem circF_mono {d : ℝ} (hd : 0 < d) : Monotone (circF d) := by
  intro y y' h
  have hr : (0:ℝ) < d / 2 := by linarith
  have h1 : 1 - y' / (d / 2) ≤ 1 - y / (d / 2) := by
    have := div_le_div_of_nonneg_right h hr.le
    linarith
  have := segment_mono (Real.antitone_arccos h1)
  exact mul_le_mul_of_nonneg_left this (sq_nonneg _)

theorem circF_zero (d : ℝ) : circF d 0 = 0 := by simp [circF]

theorem circF_full {d : ℝ} (hd : 0 < d) : circF d d = Real.pi * (d / 2) ^ 2 := by
  have : 1 - d / (d / 2) = -1 := by field_simp; norm_num
  simp [circF, this]; ring

theorem circF_alt {d y : ℝ} : circF d y = (d / 2) ^ 2 * (Real.arccos (1 - y / (d / 2))
    - Real.cos (Real.arccos (1 - y / (d / 2))) * Real.sqrt (1 - (1 - y / (d / 2)) ^ 2)) := by
  rw [circF, Real.sin_arccos]

/-- The derivative of the segment area is the chord. -/
theorem circF_hasDerivAt {d y : ℝ} (h0 : 0 < y) (h1 : y < d) :
    HasDerivAt (circF d) (2 * (d / 2) * Real.sin (Real.arccos (1 - y / (d / 2)))) y := by
  have hd : 0 < d := h0.trans h1
  have hr : (0:ℝ) < d / 2 := by linarith
  set c : ℝ := 1 - y / (d / 2) with hc
  have hc1 : c < 1 := by have := div_pos h0 hr; linarith
  have hc2 : -1 < c := by
    have : y / (d / 2) < 2 := by rw [div_lt_iff₀ hr]; linarith
    linarith
  have hin : HasDerivAt (fun y : ℝ => 1 - y / (d / 2)) (-(1 / (d / 2))) y := by
    simpa using ((hasDerivAt_id y).div_const (d / 2)).const_sub 1
  have hac : HasDerivAt (fun y : ℝ => Real.arccos (1 - y / (d / 2)))
      (-(1 / Real.sqrt (1 - c ^ 2)) * (-(1 / (d / 2)))) y :=
    HasDerivAt.comp (h₂ := Real.arccos) (h := fun y : ℝ => 1 - y / (d / 2)) y
      (Real.hasDerivAt_arccos (ne_of_gt hc2) (ne_of_lt hc1)) hin
  have hcos := hac.cos
  have hsin := hac.sin
  have hA := ((hac.sub (hcos.mul hsin)).const_mul ((d / 2) ^ 2))
  refine hA.congr_deriv ?_
  rw [Real.cos_arccos hc2.le hc1.le, Real.sin_arccos]
  have hpos : 0 < 1 - c ^ 2 := by nlinarith
  have hs : 0 < Real.sqrt (1 - c ^ 2) := Real.sqrt_pos.mpr hpos
  have hsq : Real.sqrt (1 - c ^ 2) ^ 2 = 1 - c ^ 2 := Real.sq_sqrt hpos.le
  generalize hS : Real.sqrt (1 - c ^ 2) = S at *
  field_simp
  linear_combination (-1:ℝ) * hsq

/-! ### Ellipse -/

/-- Area of an elliptical section filled to `y`, as the code computes it. -/
noncomputable def ellF (g1 g2 y : ℝ) : ℝ :=
  let th := Real.arcsin ((y - g1 / 2) / (g1 / 2))
  g2 / 2 * (g1 / 2) * (Real.pi / 2 + (th + Real.cos th * Real.sin th))

theorem ellipticalA_eq (h1 h2 g1 g2 : ℝ) : ellipticalA h1 h2 g1 g2 = ellF g1 g2 (depth h1 h2 g1) := by
  simp only [ellipticalA, ellF]; ring

theorem ellF_mono {g1 g2 : ℝ} (h1 : 0 < g1) (h2 : 0 ≤ g2) : Monotone (ellF g1 g2) := by
  intro y y' h
  have hb : (0:ℝ) < g1 / 2 := by linarith
  have hs : (y - g1 / 2) / (g1 / 2) ≤ (y' - g1 / 2) / (g1 / 2) :=
    div_le_div_of_nonneg_right (by linarith) hb.le
  have := segment_mono' (Real.monotone_arcsin hs)
  unfold ellF
  apply mul_le_mul_of_nonneg_left _ (by positivity)
  simpa using this

theorem ellF_zero {g1 g2 : ℝ} (h1 : 0 < g1) : ellF g1 g2 0 = 0 := by
  have : (0 - g1 / 2) / (g1 / 2) = -1 := by field_simp; norm_num
  simp only [ellF, this]; simp

theorem ellF_full {g1 g2 : ℝ} (h1 : 0 < g1) : ellF g1 g2 g1 = Real.pi * (g2 / 2) * (g1 / 2) := by
  have : (g1 - g1 / 2) / (g1 / 2) = 1 := by field_simp; norm_num
  simp only [ellF, this]; simp; ring

theorem ellF_hasDerivAt {g1 g2 y : ℝ} (h0 : 0 < y) (h1 : y < g1) :
    HasDerivAt (ellF g1 g2) (g2 * Real.cos (Real.arcsin ((y - g1 / 2) / (g1 / 2)))) y := by
  have hd : 0 < g1 := h0.trans h1
  have hr : (0:ℝ) < g1 / 2 := by linarith
  set s : ℝ := (y - g1 / 2) / (g1 / 2) with hs
  have hs1 : s < 1 := by rw [hs, div_lt_one hr]; linarith
  have hs2 : -1 < s := by rw [hs, lt_div_iff₀ hr]; linarith
  have hin : HasDerivAt (fun y : ℝ => (y - g1 / 2) / (g1 / 2)) (1 / (g1 / 2)) y := by
    simpa using ((hasDerivAt_id y).sub_const (g1 / 2)).div_const (g1 / 2)
  have hac : HasDerivAt (fun y : ℝ => Real.arcsin ((y - g1 / 2) / (g1 / 2)))
      (1 / Real.sqrt (1 - s ^ 2) * (1 / (g1 / 2))) y :=
    HasDerivAt.comp (h₂ := Real.arcsin) (h := fun y : ℝ => (y - g1 / 2) / (g1 / 2)) y
      (Real.hasDerivAt_arcsin (ne_of_gt hs2) (ne_of_lt hs1)) hin
  have hA := ((hac.add (hac.cos.mul hac.sin)).const_add (Real.pi / 2)).const_mul (g2 / 2 * (g1 / 2))
  refine hA.congr_deriv ?_
  rw [Real.sin_arcsin hs2.le hs1.le, Real.cos_arcsin]
  have hpos : 0 < 1 - s ^ 2 := by nlinarith
  have hS0 : 0 < Real.sqrt (1 - s ^ 2) := Real.sqrt_pos.mpr hpos
  have hsq : Real.sqrt (1 - s ^ 2) ^ 2 = 1 - s ^ 2 := Real.sq_sqrt hpos.le
  generalize hS : Real.sqrt (1 - s ^ 2) = S at *
  field_simp
  linear_combination (-g2) * hsq

/-! ### Compound section -/

/-- Area of the compound section filled to `y ≥ 0`, without case distinctions. -/
noncomputable def floodF (g2 g3 g4 g5 g6 g7 y : ℝ) : ℝ :=
  min y g2 * (g5 * min y g2)
  + min (max (y - g2) 0) g3 * (2 * g5 * g2 + g6 * min (max (y - g2) 0) g3)
  + max (y - (g2 + g3)) 0 * (2 * g5 * g2 + 2 * g6 * g3 + g4 * max (y - (g2 + g3)) 0)
  + g7 * y

theorem floodplainA_eq (h1 h2 g1 g2 g3 g4 g5 g6 g7 : ℝ) (H1 : 0 ≤ g1) (H3 : 0 ≤ g3) :
    floodplainA h1 h2 g1 g2 g3 g4 g5 g6 g7 = floodF g2 g3 g4 g5 g6 g7 (depth h1 h2 g1) := by
  have hy := depth_nonneg h1 h2 H1
  simp only [floodplainA, floodF]
  generalize depth h1 h2 g1 = y at *
  have hind : g7 * y * ind y = g7 * y := by
    unfold ind; split_ifs with h
    · ring
    · have : y = 0 := le_antisymm (not_lt.mp h) hy
      simp [this]
  rw [hind]
  unfold tiers
  split_ifs with a b
  · have e1 : min y g2 = y := min_eq_left a.le
    have e2 : max (y - g2) 0 = 0 := max_eq_right (by linarith)
    have e3 : max (y - (g2 + g3)) 0 = 0 := max_eq_right (by linarith)
    rw [e1, e2, e3, min_eq_left H3]; ring
  · have e1 : min y g2 = g2 := min_eq_right (not_lt.mp a)
    have e2 : max (y - g2) 0 = y - g2 := max_eq_left (by linarith [not_lt.mp a])
    have e3 : max (y - (g2 + g3)) 0 = 0 := max_eq_right (by linarith)
    rw [e1, e2, e3, min_eq_left (by linarith)]; ring
  · have e1 : min y g2 = g2 := min_eq_right (not_lt.mp a)
    have e2 : max (y - g2) 0 = y - g2 := max_eq_left (by linarith [not_lt.mp a])
    have e3 : max (y - (g2 + g3)) 0 = y - (g2 + g3) := max_eq_left (by linarith [not_lt.mp b])
    rw [e1, e2, e3, min_eq_right (by linarith [not_lt.mp b])]; ring

theorem floodF_mono {g2 g3 g4 g5 g6 g7 : ℝ} (H2 : 0 ≤ g2) (H3 : 0 ≤ g3) (H4 : 0 ≤ g4) (H5 : 0 ≤ g5)
    (H6 : 0 ≤ g6) (H7 : 0 ≤ g7) {y y' : ℝ} (h0 : 0 ≤ y) (h : y ≤ y') :
    floodF g2 g3 g4 g5 g6 g7 y ≤ floodF g2 g3 g4 g5 g6 g7 y' := by
  have a1 : min y g2 ≤ min y' g2 := min_le_min h le_rfl
  have a0 : 0 ≤ min y g2 := le_min h0 H2
  have b1 : min (max (y - g2) 0) g3 ≤ min (max (y' - g2) 0) g3 :=
    min_le_min (max_le_max (by linarith) le_rfl) le_rfl
  have b0 : 0 ≤ min (max (y - g2) 0) g3 := le_min (le_max_right _ _) H3
  have c1 : max (y - (g2 + g3)) 0 ≤ max (y' - (g2 + g3)) 0 := max_le_max (by linarith) le_rfl
  have c0 : 0 ≤ max (y - (g2 + g3)) 0 := le_max_right _ _
  have a2 : 0 ≤ min y' g2 := a0.trans a1
  have b2 := b0.trans b1
  have c2 := c0.trans c1
  unfold floodF
  gcongr

theorem floodF_zero {g2 g3 g4 g5 g6 g7 : ℝ} (H2 : 0 ≤ g2) (H3 : 0 ≤ g3) :
    floodF g2 g3 g4 g5 g6 g7 0 = 0 := by
  have e1 : min (0:ℝ) g2 = 0 := min_eq_left H2
  have e2 : max (0 - g2) 0 = 0 := max_eq_right (by linarith)
  have e3 : max (0 - (g2 + g3)) 0 = 0 := max_eq_right (by linarith)
  simp only [floodF, e1, e2, e3, min_eq_left H3]; ring

theorem floodF_continuous (g2 g3 g4 g5 g6 g7 : ℝ) : Continuous (floodF g2 g3 g4 g5 g6 g7) := by
  unfold floodF
  fun_prop

end Pipedream.Geometry
