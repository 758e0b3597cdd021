import Verif.ExitModel
import Verif.GeometryLemmas
import Mathlib.Analysis.Calculus.Deriv.MeanValue
import Mathlib.Analysis.SpecialFunctions.Trigonometric.Bounds
import Mathlib.Analysis.Real.Pi.Bounds

/-!
# Exit hydraulics: which depth a superlink leaves with, and when critical depth can be found

Properties C91 and C92.
-/

set_option linter.unusedSectionVars false

namespace Pipedream.Exit

open Pipedream.Geometry
open Pipedream.Link (PyErr)

/-! ### The circular section in terms of its angle -/

/-- Twice the (scaled) segment area at angle `t`. -/
noncomputable def seg (t : ℝ) : ℝ := t - Real.cos t * Real.sin t

theorem seg_hasDerivAt (t : ℝ) : HasDerivAt seg (2 * Real.sin t ^ 2) t := by
  have h : HasDerivAt (fun t : ℝ => t - Real.cos t * Real.sin t)
      (1 - (-Real.sin t * Real.sin t + Real.cos t * Real.cos t)) t :=
    (hasDerivAt_id t).sub ((Real.hasDerivAt_cos t).mul (Real.hasDerivAt_sin t))
  refine h.congr_deriv ?_
  nlinarith [Real.sin_sq_add_cos_sq t]

theorem seg_cont : Continuous seg := by unfold seg; fun_prop

theorem seg_pos {t : ℝ} (h0 : 0 < t) : 0 < seg t := by
  unfold seg
  have h1 : 2 * (Real.cos t * Real.sin t) < 2 * t := by
    have := Real.sin_lt (show 0 < 2 * t by linarith)
    rw [Real.sin_two_mul] at this; linarith
  linarith

/-- `cos t · seg t ≤ sin³ t` up to the quarter circle. -/
theorem cos_seg_le {t : ℝ} (h0 : 0 < t) (h1 : t < Real.pi / 2) : Real.cos t * seg t ≤ Real.sin t ^ 3 := by
  have hc : 0 < Real.cos t := Real.cos_pos_of_mem_Ioo ⟨by linarith, h1⟩
  have ht : t * Real.cos t ≤ Real.sin t := by
    have := (Real.lt_tan h0 h1).le
    rw [Real.tan_eq_sin_div_cos, le_div_iff₀ hc] at this
    exact this
  unfold seg
  have e : Real.sin t ^ 3 = Real.sin t - Real.sin t * Real.cos t ^ 2 := by
    have := Real.sin_sq_add_cos_sq t
    linear_combination Real.sin t * this
  nlinarith

/-- Width over the cube of the area (scaled). -/
noncomputable def ratio (t : ℝ) : ℝ := Real.sin t / seg t ^ 3

theorem ratio_strictAnti : StrictAntiOn ratio (Set.Ioo 0 Real.pi) := by
  refine strictAntiOn_of_deriv_neg (convex_Ioo _ _) ?_ ?_
  · refine ContinuousOn.div Real.continuous_sin.continuousOn (seg_cont.pow 3).continuousOn ?_
    intro t ht
    exact pow_ne_zero _ (seg_pos ht.1).ne'
  · intro t ht
    rw [interior_Ioo] at ht
    have hs : 0 < Real.sin t := Real.sin_pos_of_mem_Ioo ht
    have hS := seg_pos ht.1
    have hd : HasDerivAt ratio ((Real.cos t * seg t ^ 3 - Real.sin t * (3 * seg t ^ 2 * (2 * Real.sin t ^ 2)))
        / (seg t ^ 3) ^ 2) t := by
      have h3 : HasDerivAt (fun t => seg t ^ 3) (3 * seg t ^ 2 * (2 * Real.sin t ^ 2)) t := by
        exact ((seg_hasDerivAt t).pow 3).congr_deriv (by norm_num)
      exact (Real.hasDerivAt_sin t).div h3 (pow_ne_zero _ hS.ne')
    rw [hd.deriv]
    refine div_neg_of_neg_of_pos ?_ (by positivity)
    have key : Real.cos t * seg t < 6 * Real.sin t ^ 3 := by
      by_cases h : t < Real.pi / 2
      · have := cos_seg_le ht.1 h
        have : 0 < Real.sin t ^ 3 := by positivity
        linarith
      · have hc : Real.cos t ≤ 0 := Real.cos_nonpos_of_pi_div_two_le_of_le (not_lt.1 h) (by linarith [ht.2, Real.pi_pos])
        have : 0 < Real.sin t ^ 3 := by positivity
        nlinarith
    have hS2 : 0 < seg t ^ 2 := by positivity
    nlinarith

/-- Angle of the water surface. -/
noncomputable def angle (h d : ℝ) : ℝ := Real.arccos (1 - h / (d / 2))

theorem angle_mem {h d : ℝ} (h0 : 0 < h) (h1 : h < d) : angle h d ∈ Set.Ioo 0 Real.pi := by
  have hd : 0 < d := h0.trans h1
  have hr : 0 < d / 2 := by linarith
  have a : h / (d / 2) < 2 := by rw [div_lt_iff₀ hr]; linarith
  have b := div_pos h0 hr
  unfold angle
  refine ⟨Real.arccos_pos.2 (by linarith), ?_⟩
  refine lt_of_le_of_ne (Real.arccos_le_pi _) ?_
  intro e
  rw [Real.arccos_eq_pi] at e
  linarith

theorem angle_lt {h h' d : ℝ} (h0 : 0 < h) (hh : h < h') (h1 : h' < d) : angle h d < angle h' d := by
  have hd : 0 < d := by linarith
  have hr : 0 < d / 2 := by linarith
  have a : h' / (d / 2) < 2 := by rw [div_lt_iff₀ hr]; linarith
  have b := div_pos h0 hr
  have c : h / (d / 2) < h' / (d / 2) := div_lt_div_of_pos_right hh hr
  unfold angle
  refine Real.strictAntiOn_arccos ⟨by linarith, by linarith⟩ ⟨by linarith, by linarith⟩ (by linarith)

/-- Depth with a given angle. -/
theorem angle_surj {t d : ℝ} (hd : 0 < d) (ht : t ∈ Set.Ioo 0 Real.pi) :
    ∃ h, 0 < h ∧ h < d ∧ angle h d = t := by
  have hr : 0 < d / 2 := by linarith
  have c1 : Real.cos t < 1 := by
    have := Real.strictAntiOn_cos ⟨le_refl 0, Real.pi_pos.le⟩ ⟨ht.1.le, ht.2.le⟩ ht.1
    simpa using this
  have c2 : -1 < Real.cos t := by
    have := Real.strictAntiOn_cos ⟨ht.1.le, ht.2.le⟩ ⟨Real.pi_pos.le, le_refl _⟩ ht.2
    simpa using this
  refine ⟨d / 2 * (1 - Real.cos t), mul_pos hr (by linarith), by nlinarith, ?_⟩
  unfold angle
  rw [mul_div_cancel_left₀ _ hr.ne', sub_sub_cancel, Real.arccos_cos ht.1.le ht.2.le]

theorem exitArea_eq {h d : ℝ} (h0 : 0 < h) (h1 : h < d) :
    exitArea h d = (d / 2) ^ 2 * seg (angle h d) := by
  unfold exitArea
  rw [circularA_eq _ _ (h0.trans h1), depth_same h0.le h1.le]
  rfl

theorem exitWidth_eq {h d : ℝ} (h0 : 0 < h) (h1 : h < d) :
    exitWidth h d = d * Real.sin (angle h d) := by
  have hw : wet h h = h := by
    have : (h + h) / 2 = h := by ring
    simp only [wet, this, if_neg (not_lt.2 h0.le)]
  simp only [exitWidth, circularB, hw, if_pos h1, circTheta_eq (h0.trans h1) h0.le h1.le, angle]
  ring

/-- The argument of the logarithm below the crown. -/
theorem critArg_eq (Q : ℝ) {h d : ℝ} (h0 : 0 < h) (h1 : h < d) :
    critArg Q h d = Q ^ 2 * d / (9.81 * (d / 2) ^ 6) * ratio (angle h d) := by
  have hd : 0 < d := h0.trans h1
  have hs := seg_pos (angle_mem h0 h1).1
  unfold critArg ratio
  rw [exitArea_eq h0 h1, exitWidth_eq h0 h1]
  field_simp

/-! ### C92: critical depth -/

/-- Critical flow at depth `h`: the Froude number of the flow `Q` in a circular section is one,
`Q² B = 9.81 A³`, with the segment's width and area. -/
def Critical (Q d h : ℝ) : Prop :=
  Q ^ 2 * (d * Real.sin (Real.arccos (1 - 2 * h / d)))
    = 9.81 * ((d ^ 2 / 4) * (Real.arccos (1 - 2 * h / d)
        - Real.cos (Real.arccos (1 - 2 * h / d)) * Real.sin (Real.arccos (1 - 2 * h / d)))) ^ 3

theorem angle_alt (h d : ℝ) : Real.arccos (1 - 2 * h / d) = angle h d := by
  unfold angle; congr 2; rw [div_div_eq_mul_div, mul_comm]

theorem critical_iff {Q h d : ℝ} (h0 : 0 < h) (h1 : h < d) : Critical Q d h ↔ critArg Q h d = 1 := by
  have hd : 0 < d := h0.trans h1
  have hs := seg_pos (angle_mem h0 h1).1
  have hA : 0 < 9.81 * exitArea h d ^ 3 := by rw [exitArea_eq h0 h1]; positivity
  unfold Critical critArg
  rw [div_eq_one_iff_eq hA.ne', exitArea_eq h0 h1, exitWidth_eq h0 h1, angle_alt]
  unfold seg
  rw [show (d / 2) ^ 2 = d ^ 2 / 4 by ring]

theorem npLog_eq_zero {x : ℝ} (hx : 0 ≤ x) : npLog x = 0 ↔ x = 1 := by
  unfold npLog
  by_cases h : x = 0
  · rw [if_pos h]; subst h; simp
  · rw [if_neg h, show (0 : WithBot ℝ) = ((0 : ℝ) : WithBot ℝ) from rfl, WithBot.coe_inj,
      Real.log_eq_zero]
    constructor
    · rintro (h1 | h1 | h1)
      · exact absurd h1 h
      · exact h1
      · linarith
    · exact fun h1 => Or.inr (Or.inl h1)

theorem npLog_neg {x : ℝ} (hx : 0 ≤ x) : npLog x < 0 ↔ x < 1 := by
  unfold npLog
  by_cases h : x = 0
  · rw [if_pos h]; subst h
    exact ⟨fun _ => one_pos, fun _ => WithBot.bot_lt_coe (0 : ℝ)⟩
  · rw [if_neg h, show (0 : WithBot ℝ) = ((0 : ℝ) : WithBot ℝ) from rfl, WithBot.coe_lt_coe]
    exact Real.log_neg_iff (lt_of_le_of_ne hx (Ne.symm h))

theorem npLog_pos {x : ℝ} (hx : 0 ≤ x) : 0 < npLog x ↔ 1 < x := by
  unfold npLog
  by_cases h : x = 0
  · rw [if_pos h]; subst h
    exact ⟨fun h => absurd h not_lt_bot, fun h => absurd h (by norm_num)⟩
  · rw [if_neg h, show (0 : WithBot ℝ) = ((0 : ℝ) : WithBot ℝ) from rfl, WithBot.coe_lt_coe]
    exact Real.log_pos_iff hx

theorem critArg_full (Q : ℝ) {d : ℝ} (hd : 0 < d) :
    critArg Q d d = Q ^ 2 * (d / 1000) / (9.81 * (Real.pi * d ^ 2 / 4) ^ 3) := by
  have hw : wet d d = d := by
    have : (d + d) / 2 = d := by ring
    simp only [wet, this, if_neg (not_lt.2 hd.le)]
  unfold critArg exitArea exitWidth
  rw [circularA_eq _ _ hd, depth_same hd.le (le_refl d), circF_full hd]
  simp only [circularB, hw, lt_irrefl, if_false]
  rw [show Real.pi * (d / 2) ^ 2 = Real.pi * d ^ 2 / 4 by ring, show 1 / 1000 * d = d / 1000 by ring]

theorem critArg_nonneg (Q : ℝ) {h d : ℝ} (h0 : 0 < h) (h1 : h ≤ d) : 0 ≤ critArg Q h d := by
  rcases h1.lt_or_eq with h1 | h1
  · rw [critArg_eq Q h0 h1]
    have hd : 0 < d := h0.trans h1
    have hs := seg_pos (angle_mem h0 h1).1
    have := Real.sin_pos_of_mem_Ioo (angle_mem h0 h1)
    unfold ratio
    positivity
  · subst h1
    rw [critArg_full Q h0]
    positivity

theorem critArg_lt {Q h h' d : ℝ} (hQ : Q ≠ 0) (h0 : 0 < h) (hh : h < h') (h1 : h' < d) :
    critArg Q h' d < critArg Q h d := by
  have hd : 0 < d := by linarith
  rw [critArg_eq Q h0 (hh.trans h1), critArg_eq Q (h0.trans hh) h1]
  have := ratio_strictAnti (angle_mem h0 (hh.trans h1)) (angle_mem (h0.trans hh) h1) (angle_lt h0 hh h1)
  have hk : 0 < Q ^ 2 * d / (9.81 * (d / 2) ^ 6) := by positivity
  exact mul_lt_mul_of_pos_left this hk

/-- **C92, existence.** Every non-zero flow has a critical depth strictly between the invert and the crown. -/
theorem C92_exists {Q d : ℝ} (hQ : Q ≠ 0) (hd : 0 < d) : ∃ h, 0 < h ∧ h < d ∧ Critical Q d h := by
  set k := Q ^ 2 * d / (9.81 * (d / 2) ^ 6) with hkdef
  have hk : 0 < k := by positivity
  -- a small angle with a supercritical flow
  set t := min (1 : ℝ) (k / 16) with ht
  have t0 : 0 < t := lt_min one_pos (by linarith)
  have t1 : t ≤ 1 := min_le_left _ _
  have tk : t ≤ k / 16 := min_le_right _ _
  have tpi : t < Real.pi / 2 := by have := Real.pi_gt_three; linarith
  have hc : 1 / 2 ≤ Real.cos t := by
    have := Real.one_sub_sq_div_two_le_cos (x := t)
    nlinarith
  have hs : 0 < Real.sin t := Real.sin_pos_of_pos_of_lt_pi t0 (by linarith)
  have hst : Real.sin t ≤ t := (Real.sin_lt t0).le
  have hS := seg_pos t0
  have hS2 : seg t ≤ 2 * Real.sin t ^ 3 := by
    have := cos_seg_le t0 tpi
    nlinarith
  have big : 1 < k * ratio t := by
    unfold ratio
    rw [mul_div_assoc', lt_div_iff₀ (by positivity), one_mul]
    have a1 : seg t ^ 3 ≤ (2 * Real.sin t ^ 3) ^ 3 := pow_le_pow_left₀ hS.le hS2 3
    have s1 : Real.sin t ≤ 1 := Real.sin_le_one t
    have a2 : Real.sin t ^ 7 ≤ 1 := pow_le_one₀ hs.le s1
    have a3 : (2 * Real.sin t ^ 3) ^ 3 = 8 * (Real.sin t ^ 7 * Real.sin t) * Real.sin t := by ring
    have a4 : Real.sin t ^ 7 * Real.sin t ≤ 1 * t := mul_le_mul a2 hst hs.le (by norm_num)
    have a5 : 8 * (Real.sin t ^ 7 * Real.sin t) < k := by linarith
    calc seg t ^ 3 ≤ 8 * (Real.sin t ^ 7 * Real.sin t) * Real.sin t := by rw [← a3]; exact a1
      _ < k * Real.sin t := mul_lt_mul_of_pos_right a5 hs
  have hcont : ContinuousOn (fun s => k * ratio s) (Set.Icc t Real.pi) := by
    refine continuousOn_const.mul ?_
    refine ContinuousOn.div Real.continuous_sin.continuousOn (seg_cont.pow 3).continuousOn ?_
    intro s hs
    exact pow_ne_zero _ (seg_pos (t0.trans_le hs.1)).ne'
  have hend : k * ratio Real.pi = 0 := by simp [ratio]
  have hmem : (1 : ℝ) ∈ Set.Icc (k * ratio Real.pi) (k * ratio t) := ⟨by rw [hend]; norm_num, big.le⟩
  obtain ⟨s, hs1, hs2⟩ := intermediate_value_Icc' (by linarith [Real.pi_gt_three] : t ≤ Real.pi) hcont hmem
  have hs2' : k * ratio s = 1 := hs2
  have spi : s ≠ Real.pi := by rintro rfl; rw [hend] at hs2'; norm_num at hs2'
  obtain ⟨h, h0, h1, ha⟩ := angle_surj hd (⟨t0.trans_le hs1.1, lt_of_le_of_ne hs1.2 spi⟩ : s ∈ Set.Ioo 0 Real.pi)
  refine ⟨h, h0, h1, (critical_iff h0 h1).2 ?_⟩
  rw [critArg_eq Q h0 h1, ha]
  exact hs2'

/-- **C92, uniqueness.** … and only one. -/
theorem C92_unique {Q d h h' : ℝ} (hQ : Q ≠ 0) (h0 : 0 < h) (h1 : h < d) (h0' : 0 < h') (h1' : h' < d)
    (e : Critical Q d h) (e' : Critical Q d h') : h = h' := by
  rw [critical_iff h0 h1] at e
  rw [critical_iff h0' h1'] at e'
  rcases lt_trichotomy h h' with l | l | l
  · have := critArg_lt hQ h0 l h1'; linarith
  · exact l
  · have := critArg_lt hQ h0' l h1; linarith

/-- **C92, monotonicity.** A larger flow has a larger critical depth. -/
theorem C92_mono {Q Q' d h h' : ℝ} (hQ : Q ≠ 0) (hQQ : |Q| < |Q'|) (h0 : 0 < h) (h1 : h < d)
    (h0' : 0 < h') (h1' : h' < d) (e : Critical Q d h) (e' : Critical Q' d h') : h < h' := by
  rw [critical_iff h0 h1] at e
  rw [critical_iff h0' h1'] at e'
  by_contra hn
  have hd : 0 < d := by linarith
  have hle : critArg Q h d ≤ critArg Q h' d := by
    rcases (not_lt.1 hn).lt_or_eq with l | l
    · exact (critArg_lt hQ h0' l h1).le
    · rw [l]
  have hpos : 0 < ratio (angle h' d) := by
    unfold ratio
    exact div_pos (Real.sin_pos_of_mem_Ioo (angle_mem h0' h1')) (pow_pos (seg_pos (angle_mem h0' h1').1) 3)
  have : critArg Q h' d < critArg Q' h' d := by
    rw [critArg_eq Q h0' h1', critArg_eq Q' h0' h1']
    refine mul_lt_mul_of_pos_right ?_ hpos
    have : Q ^ 2 < Q' ^ 2 := sq_lt_sq.2 hQQ
    gcongr
  linarith

/-- **C92.** When the root search returns below the crown, it returns the critical depth. -/
theorem C92_returns_critical_partial {Q d eps : ℝ} (he : 0 < eps) {r : Except PyErr ℝ}
    (hb : BrentSpec (critFn Q d) eps d r) {x : ℝ} (hr : r = .ok x) :
    eps ≤ x ∧ (x < d → Critical Q d x) ∧
    (x = d → Q ^ 2 * (d / 1000) = 9.81 * (Real.pi * d ^ 2 / 4) ^ 3) := by
  by_cases hsgn : (critFn Q d eps < 0 ∧ critFn Q d d < 0) ∨ (0 < critFn Q d eps ∧ 0 < critFn Q d d)
  · rw [hb.same_sign hsgn] at hr; exact absurd hr (by simp)
  · obtain ⟨y, hy, h1, h2, h3⟩ := hb.root hsgn
    rw [hy] at hr
    obtain rfl := Except.ok.inj hr
    have hy0 : 0 < y := he.trans_le h1
    have e1 : critArg Q y d = 1 := (npLog_eq_zero (critArg_nonneg Q hy0 h2)).1 h3
    refine ⟨h1, fun h => (critical_iff hy0 h).2 e1, ?_⟩
    rintro rfl
    rw [critArg_full Q hy0, div_eq_one_iff_eq (by positivity)] at e1
    exact e1

/-- **C92 (what is missing).** The search raises exactly when the two ends of the bracket are both
subcritical or both supercritical for the formulas used, the crown being treated as a slot of one
thousandth of the diameter. -/
theorem C92_raises_iff {Q d eps : ℝ} (he : 0 < eps) (hed : eps < d) {r : Except PyErr ℝ}
    (hb : BrentSpec (critFn Q d) eps d r) :
    r = .error .valueError ↔
      (critArg Q eps d < 1 ∧ Q ^ 2 * (d / 1000) < 9.81 * (Real.pi * d ^ 2 / 4) ^ 3) ∨
      (1 < critArg Q eps d ∧ 9.81 * (Real.pi * d ^ 2 / 4) ^ 3 < Q ^ 2 * (d / 1000)) := by
  have hd : 0 < d := he.trans hed
  have hA : (0:ℝ) < 9.81 * (Real.pi * d ^ 2 / 4) ^ 3 := by positivity
  have hE := critArg_nonneg Q he hed.le
  have hF := critArg_nonneg Q hd (le_refl d)
  have i1 : critArg Q d d < 1 ↔ Q ^ 2 * (d / 1000) < 9.81 * (Real.pi * d ^ 2 / 4) ^ 3 := by
    rw [critArg_full Q hd, div_lt_one hA]
  have i2 : 1 < critArg Q d d ↔ 9.81 * (Real.pi * d ^ 2 / 4) ^ 3 < Q ^ 2 * (d / 1000) := by
    rw [critArg_full Q hd, one_lt_div hA]
  rw [← i1, ← i2, ← npLog_neg hE, ← npLog_neg hF, ← npLog_pos hE, ← npLog_pos hF]
  constructor
  · intro h
    by_contra hs
    obtain ⟨x, hx, -⟩ := hb.root hs
    rw [h] at hx
    exact absurd hx (by simp)
  · exact hb.same_sign

/-- **C92 (negation).** A pipe with no flow has no critical depth to find: the search raises. -/
theorem C92_rest_raises {d eps : ℝ} (he : 0 < eps) (hed : eps < d) {r : Except PyErr ℝ}
    (hb : BrentSpec (critFn 0 d) eps d r) : r = .error .valueError := by
  have hd : 0 < d := he.trans hed
  refine (C92_raises_iff he hed hb).2 (Or.inl ⟨by simp [critArg], ?_⟩)
  have : (0:ℝ) < 9.81 * (Real.pi * d ^ 2 / 4) ^ 3 := by positivity
  simpa using this

/-- **C92 (negation).** A large flow raises although its critical depth exists below the crown. -/
theorem C92_large_raises {Q d eps : ℝ} (he : 0 < eps) (hed : eps < d) {r : Except PyErr ℝ}
    (hb : BrentSpec (critFn Q d) eps d r) (h1 : 1 < critArg Q eps d)
    (h2 : 9.81 * (Real.pi * d ^ 2 / 4) ^ 3 < Q ^ 2 * (d / 1000)) :
    r = .error .valueError ∧ ∃ h, 0 < h ∧ h < d ∧ Critical Q d h := by
  refine ⟨(C92_raises_iff he hed hb).2 (Or.inr ⟨h1, h2⟩), C92_exists ?_ (he.trans hed)⟩
  rintro rfl
  have : (0:ℝ) < 9.81 * (Real.pi * d ^ 2 / 4) ^ 3 := by
    have := he.trans hed; positivity
  simp at h2
  linarith

/-! ### C91: the exit depth -/

/-- Exit depth expected of a superlink that discharges below its crown: the tailwater depth if that is
above critical depth; otherwise critical depth on a mild slope (normal depth at least critical) and the
computed depth on a steep one; never below the minimum depth. -/
structure ExitSpec (hj hc normal h mn result : ℝ) : Prop where
  backwater : hc < hj → result = max hj mn
  mild : hj ≤ hc → hc ≤ normal → result = max hc mn
  steep : hj ≤ hc → normal < hc → result = max h mn

theorem floor_eq (h mn : ℝ) : (if h < mn then mn else h) = max h mn := by
  split
  · rename_i h1; rw [max_eq_right h1.le]
  · rename_i h1; rw [max_eq_left (not_lt.1 h1)]

/-- The decision logic is right for whatever normal depth it is given. -/
theorem C91_logic (s : St) {k : ℕ} (hx : s.isExit k = true) :
    ExitSpec (s.hj k) (s.hc k) (s.hn k) (s.hd k) s.mn (exitDepth s k) := by
  constructor
  · intro h
    simp only [exitDepth, hx, and_true, gt_iff_lt, h, if_true, not_true_eq_false, false_and, if_false, floor_eq]
  · intro h h2
    have hb : ¬ s.hc k < s.hj k := not_lt.2 h
    rcases h2.lt_or_eq with h3 | h3
    · simp only [exitDepth, hx, and_true, gt_iff_lt, hb, if_false, not_false_eq_true, true_and, h3, if_true,
        ite_self, floor_eq]
    · simp only [exitDepth, hx, and_true, gt_iff_lt, hb, if_false, not_false_eq_true, true_and, h3.symm, if_true,
        floor_eq]
  · intro h h2
    have hb : ¬ s.hc k < s.hj k := not_lt.2 h
    simp only [exitDepth, hx, and_true, gt_iff_lt, hb, if_false, not_false_eq_true, true_and,
      not_lt.2 h2.le, h2.ne, floor_eq]

/-- Superlinks that end below the water surface of the next superjunction keep their depth (not less than
the minimum). -/
theorem C91_submerged (s : St) {k : ℕ} (hx : s.isExit k = false) : exitDepth s k = max (s.hd k) s.mn := by
  simp only [exitDepth, hx, Bool.false_eq_true, and_false, if_false, floor_eq]

/-- Which superlinks are which: an exit is one whose water at the superjunction stands strictly below the crown of the
pipe; a crown exactly at the surface counts as submerged. -/
theorem C91_regime (s : St) (k : ℕ) :
    (s.crown k ≤ s.H (s.Jd k) - s.zInv k → exitDepth s k = max (s.hd k) s.mn) ∧
    (s.H (s.Jd k) - s.zInv k < s.crown k →
      ExitSpec (s.H (s.Jd k) - s.zInv k) (s.hc k) (s.hn k) (s.hd k) s.mn (exitDepth s k)) := by
  refine ⟨fun h => C91_submerged s ?_, fun h => C91_logic s ?_⟩
  · exact decide_eq_false (not_lt.mpr h)
  · exact decide_eq_true h

/-- Every returned array of critical depths: zero where not computed, the root where computed. -/
theorem solveCritical_ok {brent : ℝ → ℝ → Except PyErr ℝ} {s : St} {hc : ℕ → ℝ}
    (h : solveCritical brent s = .ok hc) : ∀ k, k < s.NK →
      (s.isExit k = true → brent (s.Qd k) (s.crown k) = .ok (hc k)) ∧ (s.isExit k = false → hc k = 0) := by
  have key : ∀ N (hc : ℕ → ℝ), (List.range N).foldlM (fun hc k =>
      if s.isExit k then (brent (s.Qd k) (s.crown k)).map (fun x => upd hc k x) else .ok hc) (fun _ => 0)
        = (Except.ok hc : Except PyErr (ℕ → ℝ)) →
      (∀ k, N ≤ k → hc k = 0) ∧ ∀ k, k < N →
        (s.isExit k = true → brent (s.Qd k) (s.crown k) = .ok (hc k)) ∧ (s.isExit k = false → hc k = 0) := by
    intro N
    induction N with
    | zero =>
      intro hc h
      simp only [List.range_zero, List.foldlM_nil] at h
      obtain rfl := Except.ok.inj h
      exact ⟨fun _ _ => rfl, fun k hk => absurd hk (by omega)⟩
    | succ N ih =>
      intro hc h
      rw [List.range_succ, List.foldlM_append] at h
      cases h1 : (List.range N).foldlM (fun hc k =>
        if s.isExit k then (brent (s.Qd k) (s.crown k)).map (fun x => upd hc k x) else .ok hc)
          (fun _ => (0:ℝ)) with
      | error e => rw [h1] at h; exact absurd h (by simp [bind, Except.bind])
      | ok hc1 =>
        rw [h1] at h
        simp only [bind, Except.bind, List.foldlM_cons, List.foldlM_nil] at h
        obtain ⟨z, p⟩ := ih hc1 h1
        by_cases hx : s.isExit N = true
        · rw [if_pos hx] at h
          cases hb : brent (s.Qd N) (s.crown N) with
          | error e => rw [hb] at h; exact absurd h (by simp [Except.map])
          | ok x =>
            rw [hb] at h
            have h' : upd hc1 N x = hc := Except.ok.inj h
            subst h'
            refine ⟨fun k hk => ?_, fun k hk => ?_⟩
            · rw [upd_other _ _ (by omega : k ≠ N)]; exact z k (by omega)
            · by_cases hkN : k = N
              · subst hkN
                rw [upd_same]
                exact ⟨fun _ => hb, fun h => absurd hx (by simp [h])⟩
              · rw [upd_other _ _ hkN]
                exact p k (by omega)
        · rw [if_neg hx] at h
          obtain rfl := Except.ok.inj h
          refine ⟨fun k hk => z k (by omega), fun k hk => ?_⟩
          by_cases hkN : k = N
          · subst hkN
            exact ⟨fun h => absurd h hx, fun _ => z k (le_refl _)⟩
          · exact p k (by omega)
  exact fun k hk => (key s.NK hc h).2 k hk

/-- If one of the searches raises, the step raises. -/
theorem solveCritical_raises {brent : ℝ → ℝ → Except PyErr ℝ} {s : St} {k : ℕ} (hk : k < s.NK)
    (hx : s.isExit k = true) {e : PyErr} (hb : brent (s.Qd k) (s.crown k) = .error e) :
    ∃ e', exitStep brent s = .error e' := by
  unfold exitStep
  cases h : solveCritical brent s with
  | error e' => exact ⟨e', rfl⟩
  | ok hc =>
    have := (solveCritical_ok h k hk).1 hx
    rw [hb] at this
    exact absurd this (by simp)

/-- The step leaves `_h_n` alone, so it is what the constructor made it: zero. -/
theorem exitStep_hn {brent : ℝ → ℝ → Except PyErr ℝ} {s s' : St} (h : exitStep brent s = .ok s') :
    s'.hn = s.hn ∧ s'.NK = s.NK ∧ s'.crown = s.crown ∧ s'.mn = s.mn := by
  unfold exitStep at h
  cases hc : solveCritical brent s with
  | error e => rw [hc] at h; exact absurd h (by simp [Except.map])
  | ok c =>
    rw [hc] at h
    obtain rfl := Except.ok.inj h
    exact ⟨rfl, rfl, rfl, rfl⟩

/-- What a step with exit hydraulics does to the exit depth of a freely discharging superlink when `_h_n`
is zero: tailwater depth if above critical, else the depth computed before. -/
theorem C91_exit_depth {brent : ℝ → ℝ → Except PyErr ℝ} {eps : ℝ} (he : 0 < eps)
    (hb : ∀ Q d, 2 * eps ≤ d → BrentSpec (critFn Q d) eps d (brent Q d)) {s s' : St} (h : exitStep brent s = .ok s')
    (hn : ∀ k, s.hn k = 0) {k : ℕ} (hk : k < s.NK) (hx : s.isExit k = true) (hcr : 2 * eps ≤ s.crown k) :
    0 < s'.hc k ∧ (s.hj k > s'.hc k → s'.hd k = max (s.hj k) s.mn) ∧
      (s.hj k ≤ s'.hc k → s'.hd k = max (s.hd k) s.mn) := by
  unfold exitStep at h
  cases hc : solveCritical brent s with
  | error e => rw [hc] at h; exact absurd h (by simp [Except.map])
  | ok c =>
    rw [hc] at h
    have h' := Except.ok.inj h
    have hroot := (solveCritical_ok hc k hk).1 hx
    have hpos : 0 < c k := by
      have := C92_returns_critical_partial he (hb (s.Qd k) (s.crown k) hcr) hroot
      exact he.trans_le this.1
    subst h'
    have L := C91_logic { s with hc := c } (k := k) hx
    refine ⟨hpos, fun h1 => L.backwater h1, fun h1 => L.steep h1 ?_⟩
    show s.hn k < c k
    rw [hn]; exact hpos

/-- **C91, partial.** The exit depth is as expected in backwater and on steep slopes. Missing: the mild
slope, see `C91_mild_iff`. -/
theorem C91_exit_partial {brent : ℝ → ℝ → Except PyErr ℝ} {eps : ℝ} (he : 0 < eps)
    (hb : ∀ Q d, 2 * eps ≤ d → BrentSpec (critFn Q d) eps d (brent Q d)) {s s' : St} (h : exitStep brent s = .ok s')
    (hn : ∀ k, s.hn k = 0) {k : ℕ} (hk : k < s.NK) (hx : s.isExit k = true)
    (hcr : 2 * eps ≤ s.crown k) (normal : ℝ)
    (hsteep : s'.hc k < s.hj k ∨ normal < s'.hc k) :
    ExitSpec (s.hj k) (s'.hc k) normal (s.hd k) s.mn (s'.hd k) := by
  obtain ⟨-, b, f⟩ := C91_exit_depth he hb h hn hk hx hcr
  refine ⟨b, fun h1 h2 => ?_, fun h1 _ => f h1⟩
  rcases hsteep with h3 | h3 <;> linarith

/-- **C91 (negation).** At a free outfall on a mild slope critical depth is never imposed: the result is
as expected only if the depth computed before already happened to be it. -/
theorem C91_mild_iff {brent : ℝ → ℝ → Except PyErr ℝ} {eps : ℝ} (he : 0 < eps)
    (hb : ∀ Q d, 2 * eps ≤ d → BrentSpec (critFn Q d) eps d (brent Q d)) {s s' : St} (h : exitStep brent s = .ok s')
    (hn : ∀ k, s.hn k = 0) {k : ℕ} (hk : k < s.NK) (hx : s.isExit k = true)
    (hcr : 2 * eps ≤ s.crown k) (normal : ℝ)
    (hfree : s.hj k ≤ s'.hc k) (hmild : s'.hc k ≤ normal) :
    ExitSpec (s.hj k) (s'.hc k) normal (s.hd k) s.mn (s'.hd k) ↔ max (s.hd k) s.mn = max (s'.hc k) s.mn := by
  obtain ⟨-, b, f⟩ := C91_exit_depth he hb h hn hk hx hcr
  constructor
  · intro E
    rw [← f hfree, E.mild hfree hmild]
  · intro e
    exact ⟨fun h1 => absurd hfree (not_le.2 h1), fun _ _ => by rw [f hfree, e], fun _ h2 => absurd hmild (not_le.2 h2)⟩

/-- **C91 (negation).** A step in which some freely discharging superlink carries no flow raises. -/
theorem C91_rest_raises {brent : ℝ → ℝ → Except PyErr ℝ} {eps : ℝ} (he : 0 < eps)
    (hb : ∀ Q d, 2 * eps ≤ d → BrentSpec (critFn Q d) eps d (brent Q d)) {s : St} {k : ℕ} (hk : k < s.NK)
    (hx : s.isExit k = true) (hcr : 2 * eps ≤ s.crown k) (hQ : s.Qd k = 0) :
    ∃ e, exitStep brent s = .error e := by
  have h1 := C92_rest_raises he (by linarith : eps < s.crown k) (r := brent 0 (s.crown k)) (hb 0 (s.crown k) hcr)
  exact solveCritical_raises hk hx (by rw [hQ]; exact h1)

/-- Over a run: the normal depth never becomes anything but zero. The other operations of a step change
the heads, flows and depths arbitrarily (`f`), not `_h_n`. -/
theorem C91_normal_depth_stays_zero (brent : ℝ → ℝ → Except PyErr ℝ) (fs : List (St → St))
    (hf : ∀ f ∈ fs, ∀ s, (f s).hn = s.hn) (s s' : St) (h0 : ∀ k, s.hn k = 0)
    (h : fs.foldlM (fun s f => exitStep brent (f s)) s = .ok s') : ∀ k, s'.hn k = 0 := by
  induction fs generalizing s with
  | nil =>
    simp only [List.foldlM_nil] at h
    obtain rfl := Except.ok.inj h
    exact h0
  | cons f fs ih =>
    rw [List.foldlM_cons] at h
    cases h1 : exitStep brent (f s) with
    | error e => rw [h1] at h; exact absurd h (by simp [bind, Except.bind])
    | ok s1 =>
      rw [h1] at h
      refine ih (fun g hg => hf g (List.mem_cons_of_mem _ hg)) s1 (fun k => ?_) h
      rw [(exitStep_hn h1).1, hf f List.mem_cons_self, h0]

/-! ### Non-vacuity -/

/-- In a bracket that starts in the lower half of the pipe the flow looks faster at its start than in
the slot at the crown. -/
theorem crown_lt {Q d eps : ℝ} (hQ : Q ≠ 0) (he : 0 < eps) (hed : 2 * eps ≤ d) :
    critArg Q d d < critArg Q eps d := by
  have hd : 0 < d := by linarith
  have hhalf : critArg Q (d / 2) d ≤ critArg Q eps d := by
    rcases (by linarith : eps ≤ d / 2).lt_or_eq with h | h
    · exact (critArg_lt hQ he h (by linarith)).le
    · rw [h]
  refine lt_of_lt_of_le ?_ hhalf
  have ha : angle (d / 2) d = Real.pi / 2 := by
    unfold angle
    rw [div_self (by positivity), sub_self, Real.arccos_zero]
  rw [critArg_full Q hd, critArg_eq Q (by linarith) (by linarith), ha]
  unfold ratio seg
  rw [Real.sin_pi_div_two, Real.cos_pi_div_two, zero_mul, sub_zero]
  have hQ2 : 0 < Q ^ 2 := by positivity
  have hpi := Real.pi_pos
  rw [show Q ^ 2 * d / (9.81 * (d / 2) ^ 6) * (1 / (Real.pi / 2) ^ 3)
      = 8 * (Q ^ 2 * d / (9.81 * (Real.pi * d ^ 2 / 4) ^ 3)) by field_simp; ring,
    show Q ^ 2 * (d / 1000) / (9.81 * (Real.pi * d ^ 2 / 4) ^ 3)
      = 1 / 1000 * (Q ^ 2 * d / (9.81 * (Real.pi * d ^ 2 / 4) ^ 3)) by ring]
  have : 0 < Q ^ 2 * d / (9.81 * (Real.pi * d ^ 2 / 4) ^ 3) := by positivity
  linarith

/-- A root search meeting the specification exists. -/
theorem brent_exists {eps : ℝ} (he : 0 < eps) (Q d : ℝ) (hed : 2 * eps ≤ d) :
    ∃ r, BrentSpec (critFn Q d) eps d r := by
  by_cases hsgn : (critFn Q d eps < 0 ∧ critFn Q d d < 0) ∨ (0 < critFn Q d eps ∧ 0 < critFn Q d d)
  · exact ⟨.error .valueError, fun _ => rfl, fun h => absurd hsgn h⟩
  · have hd : 0 < d := by linarith
    have hE := critArg_nonneg Q he (by linarith : eps ≤ d)
    have hF := critArg_nonneg Q hd (le_refl d)
    by_cases e0 : critFn Q d eps = 0
    · exact ⟨.ok eps, fun h => absurd h hsgn, fun _ => ⟨eps, rfl, le_refl _, by linarith, e0⟩⟩
    have hQ : Q ≠ 0 := by
      rintro rfl
      apply hsgn
      left
      constructor <;>
        (unfold critFn; rw [show critArg 0 _ d = 0 by simp [critArg]]; exact (npLog_neg le_rfl).2 one_pos)
    have hlt := crown_lt hQ he hed
    have h1 : 1 < critArg Q eps d := by
      by_contra hn
      rcases (not_lt.1 hn).lt_or_eq with h | h
      · exact hsgn (Or.inl ⟨(npLog_neg hE).2 h, (npLog_neg hF).2 (hlt.trans h)⟩)
      · exact e0 ((npLog_eq_zero hE).2 h)
    obtain ⟨x, x0, xd, hx⟩ := C92_exists hQ hd
    have hx1 := (critical_iff x0 xd).1 hx
    have hex : eps ≤ x := by
      by_contra hex
      have := critArg_lt hQ x0 (not_le.1 hex) (by linarith : eps < d)
      linarith
    refine ⟨.ok x, fun h => absurd h hsgn, fun _ => ⟨x, rfl, hex, xd.le, ?_⟩⟩
    exact (npLog_eq_zero (critArg_nonneg Q x0 xd.le)).2 hx1

/-- One such search for all pipes. -/
noncomputable def someBrent (Q d : ℝ) : Except PyErr ℝ :=
  open Classical in
  if h : 2 * (1 / 1000000 : ℝ) ≤ d then (brent_exists (by norm_num) Q d h).choose else .error .valueError

theorem someBrent_spec (Q d : ℝ) (h : 2 * (1 / 1000000 : ℝ) ≤ d) :
    BrentSpec (critFn Q d) (1 / 1000000) d (someBrent Q d) := by
  unfold someBrent
  rw [dif_pos h]
  exact (brent_exists (by norm_num) Q d h).choose_spec

/-- A pipe of one metre carrying 1 m³/s into a superjunction whose water stands below its invert. -/
noncomputable def outfall : St where
  NK := 1
  crown := fun _ => 1
  zInv := fun _ => 2
  Jd := fun _ => 0
  H := fun _ => 1
  Qd := fun _ => 1
  hd := fun _ => 1 / 10
  hc := fun _ => 0
  hn := fun _ => 0
  mn := 1 / 100000

theorem outfall_exit : outfall.isExit 0 = true := by
  simp [St.isExit, St.hj, outfall]

/-- Half full, this flow is supercritical, so its critical depth is above half the diameter. -/
theorem outfall_half : 1 < critArg 1 (1 / 2) 1 := by
  have ha : angle (1 / 2) 1 = Real.pi / 2 := by
    unfold angle
    rw [div_self (by norm_num), sub_self, Real.arccos_zero]
  rw [critArg_eq 1 (by norm_num : (0:ℝ) < 1 / 2) (by norm_num), ha]
  unfold ratio seg
  rw [Real.sin_pi_div_two, Real.cos_pi_div_two, zero_mul, sub_zero]
  have hp2 := Real.pi_lt_d2
  have hpos : 0 < (Real.pi / 2) ^ 3 := by have := Real.pi_pos; positivity
  have h3 : (Real.pi / 2) ^ 3 ≤ (3.15 / 2) ^ 3 := pow_le_pow_left₀ (by linarith [Real.pi_pos]) (by linarith) 3
  rw [mul_one_div, lt_div_iff₀ hpos]
  norm_num at h3 ⊢
  linarith

/-- The search succeeds for it: supercritical at the start of the bracket, subcritical at the crown. -/
theorem outfall_brent : ∃ x, someBrent 1 1 = .ok x ∧ 1 / 2 < x := by
  have hs := someBrent_spec 1 1 (by norm_num)
  have hpi := Real.pi_gt_three
  have hq : (1:ℝ) ^ 2 * (1 / 1000) < 9.81 * (Real.pi * 1 ^ 2 / 4) ^ 3 := by
    have : (3 / 4 : ℝ) ^ 3 ≤ (Real.pi * 1 ^ 2 / 4) ^ 3 := pow_le_pow_left₀ (by norm_num) (by linarith) 3
    norm_num at this ⊢
    linarith
  have h1 : 1 < critArg 1 (1 / 1000000) 1 :=
    outfall_half.trans (critArg_lt one_ne_zero (by norm_num) (by norm_num) (by norm_num))
  cases hr : someBrent 1 1 with
  | error e =>
    exfalso
    by_cases hsgn : (critFn 1 1 (1 / 1000000) < 0 ∧ critFn 1 1 1 < 0) ∨
        (0 < critFn 1 1 (1 / 1000000) ∧ 0 < critFn 1 1 1)
    · have := (C92_raises_iff (by norm_num) (by norm_num) hs).1 (hs.same_sign hsgn)
      rcases this with h | h <;> linarith [h.1, h.2]
    · obtain ⟨x, hx, -⟩ := hs.root hsgn
      rw [hr] at hx
      exact absurd hx (by simp)
  | ok x =>
    refine ⟨x, rfl, ?_⟩
    obtain ⟨a, b, c⟩ := C92_returns_critical_partial (by norm_num) hs hr
    by_contra hx
    have x0 : 0 < x := lt_of_lt_of_le (by norm_num) a
    have hx1 := (critical_iff x0 (by linarith : x < 1)).1 (b (by linarith))
    have : critArg 1 (1 / 2) 1 ≤ critArg 1 x 1 := by
      rcases (not_lt.1 hx).lt_or_eq with h | h
      · exact (critArg_lt one_ne_zero x0 h (by norm_num)).le
      · rw [h]
    linarith [outfall_half]

/-- **C91 (witness).** The outfall runs at a tenth of its diameter although its critical depth is more
than half and, with a normal depth above that, the exit depth should be critical. -/
theorem C91_outfall : ∃ s', exitStep someBrent outfall = .ok s' ∧ s'.hd 0 = 1 / 10 ∧ 1 / 2 < s'.hc 0 ∧
    ¬ ExitSpec (outfall.hj 0) (s'.hc 0) 1 (outfall.hd 0) outfall.mn (s'.hd 0) := by
  obtain ⟨x, hx, hx2⟩ := outfall_brent
  have hcrit : solveCritical someBrent outfall = .ok (upd (fun _ => 0) 0 x) := by
    unfold solveCritical
    simp only [show outfall.NK = 1 from rfl, List.range_one, List.foldlM_cons, List.foldlM_nil, outfall_exit,
      if_true, show outfall.Qd 0 = 1 from rfl, show outfall.crown 0 = 1 from rfl, hx]
    rfl
  have hstep : ∃ s', exitStep someBrent outfall = .ok s' ∧ s'.hc 0 = x := by
    unfold exitStep
    rw [hcrit]
    exact ⟨_, rfl, by simp⟩
  obtain ⟨s', h1, h2⟩ := hstep
  have hj : outfall.hj 0 = -1 := by simp [St.hj, outfall]; norm_num
  have hfree : outfall.hj 0 ≤ s'.hc 0 := by rw [hj, h2]; linarith
  have hd := (C91_exit_depth (by norm_num) someBrent_spec h1 (fun _ => rfl) (by decide : 0 < 1) outfall_exit
    (by simp [outfall]; norm_num)).2.2 hfree
  have hmax : max (outfall.hd 0) outfall.mn = 1 / 10 := by
    simp only [outfall]; rw [max_eq_left (by norm_num)]
  rw [hmax] at hd
  have hle : x ≤ 1 := by
    by_contra hgt
    have hs := someBrent_spec 1 1 (by norm_num)
    by_cases hsgn : (critFn 1 1 (1 / 1000000) < 0 ∧ critFn 1 1 1 < 0) ∨
        (0 < critFn 1 1 (1 / 1000000) ∧ 0 < critFn 1 1 1)
    · rw [hs.same_sign hsgn] at hx; exact absurd hx (by simp)
    · obtain ⟨y, hy, -, hy2, -⟩ := hs.root hsgn
      rw [hy] at hx
      have := Except.ok.inj hx
      linarith
  refine ⟨s', h1, hd, by rw [h2]; exact hx2, fun E => ?_⟩
  have := E.mild hfree (by rw [h2]; exact hle)
  rw [hd, h2] at this
  have := le_max_left x outfall.mn
  linarith

/-- Backwater case of `C91_exit_partial`. -/
example : ∃ s : St, s.isExit 0 = true ∧ s.hc 0 < s.hj 0 ∧ exitDepth s 0 = 3 / 4 :=
  ⟨⟨1, fun _ => 1, fun _ => 2, fun _ => 0, fun _ => 11 / 4, fun _ => 1, fun _ => 1 / 10, fun _ => 1 / 2,
    fun _ => 0, 1 / 100000⟩, by norm_num [St.isExit, St.hj], by norm_num [St.hj],
    by norm_num [exitDepth, St.hj, St.isExit]⟩

/-- Hypotheses of `C92_large_raises` are met: 100 m³/s in a pipe of one metre. -/
example : (9.81 : ℝ) * (Real.pi * 1 ^ 2 / 4) ^ 3 < 100 ^ 2 * (1 / 1000) ∧ 1 < critArg 100 (1 / 1000000) 1 := by
  have hp := Real.pi_lt_four
  have h3 : (Real.pi * 1 ^ 2 / 4) ^ 3 ≤ 1 ^ 3 :=
    pow_le_pow_left₀ (by have := Real.pi_pos; positivity) (by linarith) 3
  have h : (9.81 : ℝ) * (Real.pi * 1 ^ 2 / 4) ^ 3 < 100 ^ 2 * (1 / 1000) := by
    norm_num at h3 ⊢; linarith
  refine ⟨h, ?_⟩
  have h1 : (1:ℝ) < critArg 100 1 1 := by
    rw [critArg_full 100 one_pos, one_lt_div (by have := Real.pi_pos; positivity)]
    exact h
  exact h1.trans (crown_lt (by norm_num) (by norm_num) (by norm_num))

end Pipedream.Exit
