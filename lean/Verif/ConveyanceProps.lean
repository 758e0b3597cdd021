import Verif.SectionContinuityProps
import Verif.NormalDepthProps
import Mathlib.Analysis.SpecialFunctions.Arsinh
import Mathlib.Analysis.Convex.Deriv

/-!
# C183: deeper water in a channel flows no slower
-/

namespace Pipedream.Geometry

open Pipedream.Exit (manning more_than_full area_angle exitArea exitPerimeter)

/-- The hydraulic radius of a section at depth `h` (both ends alike), as `numba_hydraulic_geometry` computes it. -/
noncomputable def radiusAt (eps : ℝ) (s : Shape) (p : GP) (h : ℝ) : ℝ := hydRadius (area s p h h) (wetted eps s p (h, h))

/-- What a section carries at depth `h`, per `√S/n`: Manning's `A R^(2/3)`. -/
noncomputable def conveyance (eps : ℝ) (s : Shape) (p : GP) (h : ℝ) : ℝ := area s p h h * radiusAt eps s p h ^ (2 / 3 : ℝ)

/-- The prismatic channels. -/
def Channel (s : Shape) : Prop :=
  s = .rectClosed ∨ s = .rectOpen ∨ s = .triangular ∨ s = .trapezoidal ∨ s = .parabolic ∨ s = .wide

theorem arsinh_concave {x y : ℝ} (h0 : 0 < x) (h : x ≤ y) : Real.arsinh y * x ≤ Real.arsinh x * y := by
  have c : ConcaveOn ℝ (Set.Ici 0) Real.arsinh := by
    refine AntitoneOn.concaveOn_of_deriv (convex_Ici 0) Real.continuous_arsinh.continuousOn
      Real.differentiable_arsinh.differentiableOn fun a ha b hb hab => ?_
    rw [interior_Ici] at ha hb
    have ha := Set.mem_Ioi.mp ha
    rw [(Real.hasDerivAt_arsinh a).deriv, (Real.hasDerivAt_arsinh b).deriv]
    gcongr
  have hy := h0.trans_le h
  have t0 : 0 ≤ x / y := by positivity
  have t1 : 0 ≤ 1 - x / y := by rw [sub_nonneg, div_le_one hy]; exact h
  have := c.2 (Set.mem_Ici.mpr hy.le) (Set.mem_Ici.mpr le_rfl) t0 t1 (by ring)
  simp only [smul_eq_mul, mul_zero, add_zero, Real.arsinh_zero] at this
  rw [div_mul_cancel₀ _ hy.ne', div_mul_eq_mul_div, div_le_iff₀ hy] at this
  linarith

/-- A parabola's perimeter grows no faster than its depth. -/
theorem parabola_slower {x y : ℝ} (h0 : 0 < x) (h : x ≤ y) :
    (Real.sqrt (1 + y ^ 2) + 1 / y * Real.log (y + Real.sqrt (1 + y ^ 2))) * x
      ≤ (Real.sqrt (1 + x ^ 2) + 1 / x * Real.log (x + Real.sqrt (1 + x ^ 2))) * y := by
  have hy := h0.trans_le h
  have a : Real.sqrt (1 + y ^ 2) * x ≤ Real.sqrt (1 + x ^ 2) * y := by
    have e1 : Real.sqrt (1 + y ^ 2) * x = Real.sqrt ((1 + y ^ 2) * x ^ 2) := by
      rw [Real.sqrt_mul (by positivity), Real.sqrt_sq h0.le]
    have e2 : Real.sqrt (1 + x ^ 2) * y = Real.sqrt ((1 + x ^ 2) * y ^ 2) := by
      rw [Real.sqrt_mul (by positivity), Real.sqrt_sq hy.le]
    rw [e1, e2]
    exact Real.sqrt_le_sqrt (by nlinarith)
  have c := arsinh_concave h0 h
  have p : 0 ≤ Real.arsinh x := Real.arsinh_nonneg_iff.mpr h0.le
  have q : 0 ≤ Real.arsinh y := Real.arsinh_nonneg_iff.mpr hy.le
  change Real.arsinh y * x ≤ Real.arsinh x * y at c
  have b : 1 / y * Real.log (y + Real.sqrt (1 + y ^ 2)) * x ≤ 1 / x * Real.log (x + Real.sqrt (1 + x ^ 2)) * y := by
    change 1 / y * Real.arsinh y * x ≤ 1 / x * Real.arsinh x * y
    have l : 1 / y * Real.arsinh y * x ≤ Real.arsinh x := by
      rw [mul_assoc, one_div_mul_eq_div, div_le_iff₀ hy]; exact c
    have r : Real.arsinh x ≤ 1 / x * Real.arsinh x * y := by
      rw [mul_assoc, one_div_mul_eq_div, le_div_iff₀ h0]
      exact mul_le_mul_of_nonneg_left h p
    exact l.trans r
  linarith

/-- In a channel, for depths below the height of the section, area grows and area over perimeter does not fall. -/
theorem channel_profile (eps : ℝ) {s : Shape} (cs : Channel s) (p : GP) (hv : Valid s p) {h h' : ℝ} (h0 : 0 < h)
    (hh : h < h') (h1 : h' ≤ p.g1) :
    0 < area s p h h ∧ area s p h h < area s p h' h' ∧
    wetted eps s p (h', h') * area s p h h ≤ wetted eps s p (h, h) * area s p h' h' := by
  have d : depth h h p.g1 = h := depth_same h0.le (by linarith)
  have d' : depth h' h' p.g1 = h' := depth_same (by linarith) h1
  have hp := h0.trans hh
  have rect : ∀ b : ℝ, 0 < b → 0 < h * b ∧ h * b < h' * b ∧ (b + 2 * h') * (h * b) ≤ (b + 2 * h) * (h' * b) := by
    intro b hb
    refine ⟨by positivity, by gcongr, ?_⟩
    have : b * (h * b) ≤ b * (h' * b) := by gcongr
    nlinarith
  rcases cs with rfl | rfl | rfl | rfl | rfl | rfl
  · simp only [area, wetted, perimeter, rectA, rectPe, d, d']; exact rect _ hv.2
  · simp only [area, wetted, perimeter, rectA, rectPe, d, d']; exact rect _ hv.2
  · have hm : 0 < p.g2 := hv.2
    simp only [area, wetted, perimeter, triangularA, triangularPe, d, d']
    refine ⟨by positivity, by gcongr, ?_⟩
    have r := Real.sqrt_nonneg (1 + p.g2 ^ 2)
    have : 2 * h' * Real.sqrt (1 + p.g2 ^ 2) * (p.g2 * h ^ 2) = 2 * Real.sqrt (1 + p.g2 ^ 2) * p.g2 * (h * h') * h := by ring
    have : 2 * h * Real.sqrt (1 + p.g2 ^ 2) * (p.g2 * h' ^ 2) = 2 * Real.sqrt (1 + p.g2 ^ 2) * p.g2 * (h * h') * h' := by ring
    have : 2 * Real.sqrt (1 + p.g2 ^ 2) * p.g2 * (h * h') * h ≤ 2 * Real.sqrt (1 + p.g2 ^ 2) * p.g2 * (h * h') * h' := by gcongr
    linarith
  · obtain ⟨hb, hm⟩ : 0 < p.g2 ∧ 0 ≤ p.g3 := hv.2
    simp only [area, wetted, perimeter, trapezoidalA, trapezoidalPe, d, d']
    have r0 := Real.sqrt_nonneg (1 + p.g3 ^ 2)
    generalize Real.sqrt (1 + p.g3 ^ 2) = r at r0 ⊢
    have m1 : p.g2 + p.g3 * h ≤ p.g2 + p.g3 * h' := by gcongr
    have m0 : 0 < p.g2 + p.g3 * h := by positivity
    refine ⟨by positivity, mul_lt_mul hh m1 m0 hp.le, ?_⟩
    have k : (p.g2 + 2 * h' * r) * h = p.g2 * h + 2 * r * (h * h') := by ring
    have k' : (p.g2 + 2 * h * r) * h' = p.g2 * h' + 2 * r * (h * h') := by ring
    rw [← mul_assoc, ← mul_assoc, k, k']
    have l : p.g2 * h + 2 * r * (h * h') ≤ p.g2 * h' + 2 * r * (h * h') := by gcongr
    exact mul_le_mul l m1 m0.le (by positivity)
  · have hb : 0 < p.g2 := hv.2
    have y0 : ¬ (h + h) / 2 ≤ 0 := by linarith
    have y0' : ¬ (h' + h') / 2 ≤ 0 := by linarith
    have y1 : (h + h) / 2 = h := by ring
    have y1' : (h' + h') / 2 = h' := by ring
    simp only [area, wetted, perimeter, parabolicA, parabolicPe, d, d', y1, y1', if_neg (not_le.mpr h0), if_neg (not_le.mpr hp),
      if_neg (not_lt.mpr h1), if_neg (not_lt.mpr (hh.le.trans h1)), gt_iff_lt]
    have x0 : 0 < 4 * h / p.g2 := by positivity
    have k := parabola_slower x0 (show 4 * h / p.g2 ≤ 4 * h' / p.g2 by gcongr)
    generalize Real.sqrt (1 + (4 * h' / p.g2) ^ 2) + 1 / (4 * h' / p.g2)
      * Real.log (4 * h' / p.g2 + Real.sqrt (1 + (4 * h' / p.g2) ^ 2)) = F' at *
    generalize Real.sqrt (1 + (4 * h / p.g2) ^ 2) + 1 / (4 * h / p.g2)
      * Real.log (4 * h / p.g2 + Real.sqrt (1 + (4 * h / p.g2) ^ 2)) = F at *
    refine ⟨by positivity, by gcongr, ?_⟩
    have e : p.g2 / 2 * F' * (2 * p.g2 * h / 3) = p.g2 ^ 3 / 12 * (F' * (4 * h / p.g2)) := by field_simp; ring
    have e' : p.g2 / 2 * F * (2 * p.g2 * h' / 3) = p.g2 ^ 3 / 12 * (F * (4 * h' / p.g2)) := by field_simp; ring
    rw [e, e']
    gcongr
  · have hb : 0 < p.g2 := hv.2
    simp only [area, wetted, perimeter, rectA, widePe, d, d']
    exact ⟨by positivity, by gcongr, by gcongr⟩

/-! ### C183 -/

/-- **C183 (channels, partial).** In rectangular, triangular, trapezoidal, parabolic and wide channels a greater depth (up to
the height of the section) has no smaller hydraulic radius, and carries strictly more at the same slope. Missing: pipes
(`C183_pipe`) and compound sections (`C183_banks`). -/
theorem C183_channels_partial {eps : ℝ} (he : 0 < eps) {s : Shape} (cs : Channel s) (p : GP) (hv : Valid s p) {h h' : ℝ}
    (h0 : 0 < h) (hh : h < h') (h1 : h' ≤ p.g1) :
    radiusAt eps s p h ≤ radiusAt eps s p h' ∧ conveyance eps s p h < conveyance eps s p h' := by
  obtain ⟨a, b, c⟩ := channel_profile eps cs p hv h0 hh h1
  have P := wetted_pos he s p hv (h := (h, h)) (by simpa using h0)
  have P' := wetted_pos he s p hv (h := (h', h')) (by simp; linarith)
  have R : radiusAt eps s p h ≤ radiusAt eps s p h' := by
    simp only [radiusAt, hydRadius, if_pos P, if_pos P']
    rw [div_le_div_iff₀ P P']
    linarith
  have R0 : 0 < radiusAt eps s p h := by
    simp only [radiusAt, hydRadius, if_pos P]; positivity
  refine ⟨R, ?_⟩
  unfold conveyance
  have r := Real.rpow_le_rpow R0.le R (show (0:ℝ) ≤ 2 / 3 by norm_num)
  exact mul_lt_mul b r (Real.rpow_pos_of_pos R0 _) (a.trans b).le

/-- **C183 (one normal depth).** In such a channel at most one depth carries a given flow. -/
theorem C183_normal_unique {eps : ℝ} (he : 0 < eps) {s : Shape} (cs : Channel s) (p : GP) (hv : Valid s p) {h h' n S Q : ℝ}
    (hn : 0 < n) (hS : 0 < S) (h0 : 0 < h) (h1 : h ≤ p.g1) (h0' : 0 < h') (h1' : h' ≤ p.g1)
    (q : Q = 1 / n * conveyance eps s p h * Real.sqrt S) (q' : Q = 1 / n * conveyance eps s p h' * Real.sqrt S) : h = h' := by
  have c : conveyance eps s p h = conveyance eps s p h' := by
    have hs := Real.sqrt_pos.mpr hS
    have hn : 0 < 1 / n := by positivity
    have := q.symm.trans q'
    exact mul_left_cancel₀ hn.ne' (mul_right_cancel₀ hs.ne' this)
  rcases lt_trichotomy h h' with l | e | l
  · exact absurd c (C183_channels_partial he cs p hv h0 l h1').2.ne
  · exact e
  · exact absurd c (C183_channels_partial he cs p hv h0' l h1).2.ne'

/-- **C183, not for pipes.** A round pipe filled to 0.933 of its diameter carries at least 5 % more than the full one (as real
pipes do). -/
theorem C183_pipe (eps : ℝ) (p : GP) (hg : 0 < p.g1) :
    1.05 * conveyance eps .circular p p.g1
      ≤ conveyance eps .circular p (p.g1 / 2 * (1 - Real.cos (5 * Real.pi / 6))) := by
  have hp := Real.pi_pos
  have key : ∀ t, 0 < t → t ≤ Real.pi →
      conveyance eps .circular p (p.g1 / 2 * (1 - Real.cos t)) = manning p.g1 1 1 t := by
    intro t t0 t1
    obtain ⟨a, b⟩ := area_angle hg t0 t1
    have P : wetted eps .circular p (p.g1 / 2 * (1 - Real.cos t), p.g1 / 2 * (1 - Real.cos t)) = p.g1 * t := b
    have A : area .circular p (p.g1 / 2 * (1 - Real.cos t)) (p.g1 / 2 * (1 - Real.cos t))
        = p.g1 ^ 2 / 4 * (t - Real.sin t * Real.cos t) := a
    have pos : 0 < p.g1 * t := by positivity
    simp only [conveyance, radiusAt, P, A, hydRadius, if_pos pos, manning, Real.sqrt_one]
    ring
  have f := key Real.pi hp le_rfl
  rw [Real.cos_pi] at f
  have e : p.g1 / 2 * (1 - -1) = p.g1 := by ring
  rw [e] at f
  rw [f, key _ (by positivity) (by linarith)]
  have := more_than_full (n := 1) (S := 1) hg one_pos one_pos
  linarith

/-- A river 1 m deep with banks 1:1 and flood plains rising 1 m in 100 m. -/
def river : GP := ⟨3, 1, 1, 1, 1, 100, 0⟩

/-- **C183, refuted (leaving the banks).** When the river rises 1 cm above its banks, what it is computed to carry drops to less
than three quarters: the whole section counts as one, and the thin sheet of water on the plains slows down the river. -/
theorem C183_banks (eps : ℝ) : conveyance eps .floodplain river (101 / 100) < 3 / 4 * conveyance eps .floodplain river 1 := by
  have v3 : (0 : ℝ) ≤ river.g3 := by norm_num [river]
  have d : depth (1:ℝ) 1 river.g1 = 1 := depth_same (by norm_num) (by norm_num [river])
  have d' : depth (101 / 100 : ℝ) (101 / 100) river.g1 = 101 / 100 := depth_same (by norm_num) (by norm_num [river])
  have A : area .floodplain river 1 1 = 1 := by
    simp only [area]
    rw [floodplainA_eq _ _ _ _ _ _ _ _ _ (by norm_num [river]) v3, d]
    norm_num [floodF, river]
  have A' : area .floodplain river (101 / 100) (101 / 100) = 103 / 100 := by
    simp only [area]
    rw [floodplainA_eq _ _ _ _ _ _ _ _ _ (by norm_num [river]) v3, d']
    norm_num [floodF, river]
  have s2 : Real.sqrt 2 ≤ 1.4143 := Real.sqrt_le_iff.2 ⟨by norm_num, by norm_num⟩
  have s2' : 1.4142 ≤ Real.sqrt 2 := Real.le_sqrt_of_sq_le (by norm_num)
  have s100 : 100 ≤ Real.sqrt (1 + 100 ^ 2) := Real.le_sqrt_of_sq_le (by norm_num)
  have P : wetted eps .floodplain river (1, 1) = 2 * Real.sqrt 2 := by
    simp only [wetted, perimeter]
    rw [floodplainPe_eq _ _ v3, d]
    norm_num [river]
  have P' : wetted eps .floodplain river (101 / 100, 101 / 100) = 2 * Real.sqrt 2 + 1 / 50 * Real.sqrt (1 + 100 ^ 2) := by
    simp only [wetted, perimeter]
    rw [floodplainPe_eq _ _ v3, d']
    norm_num [river]
  generalize Real.sqrt (1 + 100 ^ 2) = w at s100 P'
  generalize Real.sqrt 2 = q at s2 s2' P P'
  have p0 : 0 < 2 * q := by linarith
  have p0' : 0 < 2 * q + 1 / 50 * w := by linarith
  have r : radiusAt eps .floodplain river 1 = 1 / (2 * q) := by
    simp only [radiusAt, hydRadius, A, P]
    rw [if_pos p0]
  have r' : radiusAt eps .floodplain river (101 / 100) = 103 / 100 / (2 * q + 1 / 50 * w) := by
    simp only [radiusAt, hydRadius, A', P']
    rw [if_pos p0']
  have rr : 103 / 100 / (2 * q + 1 / 50 * w) ≤ 0.61 * (1 / (2 * q)) := by
    rw [mul_one_div, div_le_div_iff₀ p0' p0]
    linarith
  have g : (0.61 : ℝ) ^ (2 / 3 : ℝ) ≤ 0.72 := by
    have : (0.72 : ℝ) = ((0.72 : ℝ) ^ (3 : ℝ)) ^ (1 / 3 : ℝ) := by
      rw [← Real.rpow_mul (by norm_num)]; norm_num
    have e : (0.61 : ℝ) ^ (2 / 3 : ℝ) = ((0.61 : ℝ) ^ (2 : ℝ)) ^ (1 / 3 : ℝ) := by
      rw [← Real.rpow_mul (by norm_num)]; norm_num
    rw [this, e]
    refine Real.rpow_le_rpow (by positivity) ?_ (by norm_num)
    norm_num
  have c := Real.rpow_le_rpow (by positivity) rr (show (0:ℝ) ≤ 2 / 3 by norm_num)
  rw [Real.mul_rpow (by norm_num) (by positivity)] at c
  have pos : 0 < (1 / (2 * q)) ^ (2 / 3 : ℝ) := by positivity
  unfold conveyance
  rw [A, A', r, r']
  nlinarith

/-- The river below its banks, as a channel of its own, would carry more the deeper it is. -/
example : conveyance 1 .triangular ⟨3, 1, 0, 0, 0, 0, 0⟩ 1 < conveyance 1 .triangular ⟨3, 1, 0, 0, 0, 0, 0⟩ (101 / 100) :=
  (C183_channels_partial one_pos (Or.inr (Or.inr (Or.inl rfl))) ⟨3, 1, 0, 0, 0, 0, 0⟩
    ⟨by norm_num, by norm_num⟩ (by norm_num) (by norm_num) (by norm_num)).2

end Pipedream.Geometry
