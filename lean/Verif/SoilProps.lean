import Verif.SoilModel
import Verif.InfiltrationProps
import Mathlib.Analysis.SpecialFunctions.Pow.Deriv
import Mathlib.Analysis.SpecialFunctions.Pow.Continuity
import Mathlib.MeasureTheory.Integral.IntervalIntegral.FundThmCalculus

/-!
# C131, C132: constants of the soil

C131: the constants of the upper zone are those of the method of the SWMM manual, which gives them for conductivities
in inches per hour. They are not: a metre is taken to have 39.97 inches.

C132: the suction head is the Brooks–Corey conductivity integrated over the suction at the wetting front.
-/

namespace Pipedream.Infiltration

open Pipedream.Link

noncomputable section

/-! ### C131 -/

/-- The conductivity in inches per hour; an inch has 0.0254 m, an hour 3600 s. -/
def inchesPerHour (Ks : ℝ) : ℝ := Ks / 0.0254 * 3600

/-- Depth of the upper zone: `4 √Ks` inches, here in metres. -/
def upperDepth (Ks : ℝ) : ℝ := 4 * Real.sqrt (inchesPerHour Ks) * 0.0254

/-- Recovery constant: `√Ks / 75` per hour, here per second. -/
def recoveryRate (Ks : ℝ) : ℝ := Real.sqrt (inchesPerHour Ks) / 75 / 3600

/-- Recovery time: `4.5 / √Ks` hours, here in seconds. -/
def recoveryTime (Ks : ℝ) : ℝ := 4.5 / Real.sqrt (inchesPerHour Ks) * 3600

theorem root_eq (p : Soil) : p.root = Real.sqrt 1.015238 * Real.sqrt (inchesPerHour p.Ks) := by
  unfold Soil.root inchesPerHour
  rw [← Real.sqrt_mul (by norm_num)]
  congr 1
  ring

/-- **C131 (by how much).** Depth and rate of the upper zone are too large by the factor `√1.015238`, about 0.76 %,
and the recovery time is too short by the same factor. -/
theorem C131_factor_partial (p : Soil) :
    p.Lu = Real.sqrt 1.015238 * upperDepth p.Ks ∧ p.kr = Real.sqrt 1.015238 * recoveryRate p.Ks ∧
      p.Tr * Real.sqrt 1.015238 = recoveryTime p.Ks := by
  have hc : Real.sqrt (1.015238 : ℝ) ≠ 0 := (Real.sqrt_pos.mpr (by norm_num)).ne'
  refine ⟨?_, ?_, ?_⟩
  · unfold Soil.Lu upperDepth; rw [root_eq]; ring
  · unfold Soil.kr recoveryRate; rw [root_eq]; ring
  · unfold Soil.Tr recoveryTime; rw [root_eq]
    by_cases h : Real.sqrt (inchesPerHour p.Ks) = 0
    · rw [h]; simp
    · field_simp

theorem factor_bounds : 1.0075 < Real.sqrt 1.015238 ∧ Real.sqrt 1.015238 < 1.0077 := by
  constructor
  · exact (Real.lt_sqrt (by norm_num)).mpr (by norm_num)
  · exact (Real.sqrt_lt' (by norm_num)).mpr (by norm_num)

/-- **C131 fails** for every soil that conducts water at all: none of the three constants is the one meant. -/
theorem C131_never_exact (p : Soil) (h : 0 < p.Ks) :
    upperDepth p.Ks < p.Lu ∧ recoveryRate p.Ks < p.kr ∧ p.Tr < recoveryTime p.Ks := by
  obtain ⟨h1, h2, h3⟩ := C131_factor_partial p
  have hq : 0 < Real.sqrt (inchesPerHour p.Ks) := by
    refine Real.sqrt_pos.mpr ?_
    unfold inchesPerHour; positivity
  have hf : 1 < Real.sqrt (1.015238 : ℝ) := lt_trans (by norm_num) factor_bounds.1
  have hd : 0 < upperDepth p.Ks := by unfold upperDepth; positivity
  have hr : 0 < recoveryRate p.Ks := by unfold recoveryRate; positivity
  have ht : 0 < p.Tr := by
    have : 0 < p.root := by rw [root_eq]; positivity
    unfold Soil.Tr; positivity
  refine ⟨?_, ?_, ?_⟩
  · rw [h1]; nlinarith
  · rw [h2]; nlinarith
  · rw [← h3]; nlinarith

/-- **C131 (what does not depend on the inch).** Whatever the conductivity, a dry period of one recovery time restores
six hundredths of the largest deficit, and the products of the depth of the zone with the recovery time and of the rate
with the depth are those meant (the latter up to the square of the factor). -/
theorem C131_products (p : Soil) (h : 0 < p.Ks) :
    p.kr * p.Tr = 0.06 ∧ p.Lu * p.Tr = upperDepth p.Ks * recoveryTime p.Ks ∧
      p.kr * p.Lu = 1.015238 * (recoveryRate p.Ks * upperDepth p.Ks) := by
  have hr : p.root ≠ 0 := by
    have : 0 < p.root := Real.sqrt_pos.mpr (by positivity)
    exact this.ne'
  obtain ⟨h1, h2, h3⟩ := C131_factor_partial p
  refine ⟨?_, ?_, ?_⟩
  · unfold Soil.kr Soil.Tr; field_simp; norm_num
  · rw [h1, ← h3]; ring
  · rw [h1, h2]
    have : Real.sqrt (1.015238 : ℝ) * Real.sqrt 1.015238 = 1.015238 := Real.mul_self_sqrt (by norm_num)
    linear_combination (recoveryRate p.Ks * upperDepth p.Ks) * this

/-- Non-vacuous: a conductivity of one inch per hour asks for an upper zone of four inches, and gets more. -/
example : upperDepth (0.0254 / 3600) = 4 * 0.0254 ∧ 4 * 0.0254 < (⟨0.1, 0.0254 / 3600, 0.3, 1⟩ : Soil).Lu := by
  have h : upperDepth (0.0254 / 3600) = 4 * 0.0254 := by
    unfold upperDepth inchesPerHour
    rw [show (0.0254 / 3600 / 0.0254 * 3600 : ℝ) = 1 by norm_num, Real.sqrt_one]; norm_num
  exact ⟨h, h ▸ (C131_never_exact ⟨0.1, 0.0254 / 3600, 0.3, 1⟩ (by norm_num)).1⟩

/-! ### C132 -/

/-- Effective saturation. -/
def saturation (θs θr θ : ℝ) : ℝ := (θ - θr) / (θs - θr)

/-- Conductivity relative to `Ks` (Brooks and Corey). -/
def relConductivity (θs θr lam θ : ℝ) : ℝ := saturation θs θr θ ^ (3 + 2 / lam)

/-- Suction (Brooks and Corey), `psi_b` at saturation. -/
def suction (θs θr psi_b lam θ : ℝ) : ℝ := psi_b * saturation θs θr θ ^ (-(1 / lam))

/-- The integrand `-K_r(θ) ψ'(θ)` in closed form. -/
def density (θs θr psi_b lam θ : ℝ) : ℝ := psi_b / (lam * (θs - θr)) * saturation θs θr θ ^ (2 + 1 / lam)

/-- The closed form is that integrand wherever the soil is moist. -/
theorem density_eq {θs θr psi_b lam θ : ℝ} (hs : θr < θs) (hl : 0 < lam) (h : θr < θ) :
    HasDerivAt (suction θs θr psi_b lam) (-(density θs θr psi_b lam θ / relConductivity θs θr lam θ)) θ := by
  have hd : 0 < θs - θr := sub_pos.mpr hs
  have hS : 0 < saturation θs θr θ := div_pos (sub_pos.mpr h) hd
  have h1 : HasDerivAt (saturation θs θr) (1 / (θs - θr)) θ := ((hasDerivAt_id θ).sub_const θr).div_const _
  have h2 := (h1.rpow_const (p := -(1 / lam)) (Or.inl hS.ne')).const_mul psi_b
  refine h2.congr_deriv ?_
  unfold density relConductivity
  have e : saturation θs θr θ ^ (-(1 / lam) - 1)
      = saturation θs θr θ ^ (2 + 1 / lam) / saturation θs θr θ ^ (3 + 2 / lam) := by
    rw [← Real.rpow_sub hS]; congr 1; ring
  rw [e]
  field_simp

theorem value_eq {θi θs θr Ks psi_b lam : ℝ} (hs : θr < θs) (hi : θi < θs) (hK : Ks ≠ 0) (hl : 0 < lam)
    (hr : θr ≤ θi) :
    suctionHead θi θs θr Ks psi_b lam
      = .ok (psi_b / (1 + 3 * lam) * (1 - saturation θs θr θi ^ (1 / lam + 3))) := by
  have hd : 0 < θs - θr := sub_pos.mpr hs
  have hP : 0 < (θs - θr) ^ (1 / lam + 3) := Real.rpow_pos_of_pos hd _
  have hq : 0 < 1 / lam + 3 := by positivity
  have hm : θs - θi ≠ 0 := (sub_pos.mpr hi).ne'
  unfold suctionHead s2
  have e1 : pyDiv 1 lam = .ok (1 / lam) := by unfold pyDiv; rw [if_neg hl.ne']
  simp only [e1, bind, Except.bind]
  have hden : (lam * (θs - θr) ^ (1 / lam + 3)) * (1 / lam + 3) ≠ 0 := by positivity
  have hden2 : 2 * Ks * (θs - θi) ≠ 0 := mul_ne_zero (mul_ne_zero two_ne_zero hK) hm
  unfold pyDiv
  rw [if_neg hden]
  simp only
  rw [if_neg hden2]
  congr 1
  unfold saturation
  rw [Real.div_rpow (sub_nonneg.mpr hr) hd.le]
  have h13 : 1 + 3 * lam ≠ 0 := by positivity
  generalize (θs - θr) ^ (1 / lam + 3) = P at *
  generalize (θi - θr) ^ (1 / lam + 3) = R at *
  field_simp

/-- **C132.** For a moist soil that is not saturated, the suction head is the relative conductivity integrated over
the suction between the initial and the saturated moisture content. -/
theorem C132_integral {θi θs θr Ks psi_b lam : ℝ} (hr : θr ≤ θi) (hi : θi < θs) (hK : Ks ≠ 0) (hl : 0 < lam) :
    suctionHead θi θs θr Ks psi_b lam = .ok (∫ θ in θi..θs, density θs θr psi_b lam θ) := by
  have hs : θr < θs := lt_of_le_of_lt hr hi
  have hd : 0 < θs - θr := sub_pos.mpr hs
  rw [value_eq hs hi hK hl hr]
  congr 1
  have hq : 1 ≤ 1 / lam + 3 := by
    have : 0 < 1 / lam := by positivity
    linarith
  have hF : ∀ θ, HasDerivAt (fun θ => psi_b / (1 + 3 * lam) * saturation θs θr θ ^ (1 / lam + 3))
      (density θs θr psi_b lam θ) θ := by
    intro θ
    have h1 : HasDerivAt (saturation θs θr) (1 / (θs - θr)) θ := ((hasDerivAt_id θ).sub_const θr).div_const _
    have h2 := (h1.rpow_const (p := 1 / lam + 3) (Or.inr hq)).const_mul (psi_b / (1 + 3 * lam))
    refine h2.congr_deriv ?_
    unfold density
    rw [show (1 / lam + 3 - 1 : ℝ) = 2 + 1 / lam by ring]
    have : 1 + 3 * lam ≠ 0 := by positivity
    field_simp
  have hc : Continuous (density θs θr psi_b lam) := by
    unfold density saturation
    refine continuous_const.mul (Continuous.rpow_const (by fun_prop) fun _ => Or.inr ?_)
    positivity
  rw [intervalIntegral.integral_eq_sub_of_hasDerivAt (fun θ _ => hF θ) (hc.intervalIntegrable _ _)]
  have : saturation θs θr θs = 1 := div_self hd.ne'
  rw [this, Real.one_rpow]
  ring

/-- **C132 (range).** It is positive and at most `psi_b / (1 + 3 λ)`, which it reaches only for a soil at its
residual moisture. -/
theorem C132_range {θi θs θr Ks psi_b lam : ℝ} (hr : θr ≤ θi) (hi : θi < θs) (hK : Ks ≠ 0) (hl : 0 < lam)
    (hp : 0 < psi_b) :
    ∃ v, suctionHead θi θs θr Ks psi_b lam = .ok v ∧ 0 < v ∧ v ≤ psi_b / (1 + 3 * lam) ∧
      (v = psi_b / (1 + 3 * lam) ↔ θi = θr) := by
  have hs : θr < θs := lt_of_le_of_lt hr hi
  have hd : 0 < θs - θr := sub_pos.mpr hs
  have hq : 0 < 1 / lam + 3 := by positivity
  have hS0 : 0 ≤ saturation θs θr θi := div_nonneg (sub_nonneg.mpr hr) hd.le
  have hS1 : saturation θs θr θi < 1 := (div_lt_one hd).mpr (by linarith)
  have hp0 : 0 ≤ saturation θs θr θi ^ (1 / lam + 3) := Real.rpow_nonneg hS0 _
  have hp1 : saturation θs θr θi ^ (1 / lam + 3) < 1 := Real.rpow_lt_one hS0 hS1 hq
  have hc : 0 < psi_b / (1 + 3 * lam) := by positivity
  refine ⟨_, value_eq hs hi hK hl hr, mul_pos hc (by linarith), by nlinarith, ?_⟩
  constructor
  · intro h
    have h0 : saturation θs θr θi ^ (1 / lam + 3) = 0 := by
      have : psi_b / (1 + 3 * lam) * saturation θs θr θi ^ (1 / lam + 3) = 0 := by linear_combination -h
      exact (mul_eq_zero.mp this).resolve_left hc.ne'
    have := (Real.rpow_eq_zero hS0 hq.ne').mp h0
    have := (div_eq_zero_iff.mp this).resolve_right hd.ne'
    linarith
  · rintro rfl
    have : saturation θs θi θi = 0 := by unfold saturation; simp
    rw [this, Real.zero_rpow hq.ne']; ring

/-- **C132 (wetter soil sucks less).** -/
theorem C132_decreasing {θi θi' θs θr Ks psi_b lam v v' : ℝ} (hr : θr ≤ θi) (hlt : θi < θi') (hi : θi' < θs)
    (hK : Ks ≠ 0) (hl : 0 < lam) (hp : 0 < psi_b) (hv : suctionHead θi θs θr Ks psi_b lam = .ok v)
    (hv' : suctionHead θi' θs θr Ks psi_b lam = .ok v') : v' < v := by
  have hs : θr < θs := by linarith
  have hd : 0 < θs - θr := sub_pos.mpr hs
  have hq : 0 < 1 / lam + 3 := by positivity
  rw [value_eq hs (hlt.trans hi) hK hl hr] at hv
  rw [value_eq hs hi hK hl (hr.trans hlt.le)] at hv'
  obtain rfl := Except.ok.inj hv
  obtain rfl := Except.ok.inj hv'
  have hc : 0 < psi_b / (1 + 3 * lam) := by positivity
  have hS : saturation θs θr θi < saturation θs θr θi' := by
    unfold saturation
    exact div_lt_div_of_pos_right (by linarith) hd
  have h0 : 0 ≤ saturation θs θr θi := div_nonneg (sub_nonneg.mpr hr) hd.le
  have := Real.rpow_lt_rpow h0 hS hq
  exact mul_lt_mul_of_pos_left (by linarith) hc

/-- **C132 (which conductivity is given does not matter)**, as long as it is not zero. -/
theorem C132_any_conductivity {θi θs θr Ks Ks' psi_b lam : ℝ} (hr : θr ≤ θi) (hi : θi < θs) (hK : Ks ≠ 0)
    (hK' : Ks' ≠ 0) (hl : 0 < lam) :
    suctionHead θi θs θr Ks psi_b lam = suctionHead θi θs θr Ks' psi_b lam := by
  rw [value_eq (lt_of_le_of_lt hr hi) hi hK hl hr, value_eq (lt_of_le_of_lt hr hi) hi hK' hl hr]

/-- **C132 (a saturated soil)** has no suction head: the call raises, as it does for an impervious soil, although the
limit is zero (or the same as for every other conductivity). -/
theorem C132_raises {θi θs θr Ks psi_b lam : ℝ} (hs : θr < θs) (hl : 0 < lam) (h : θi = θs ∨ Ks = 0) :
    suctionHead θi θs θr Ks psi_b lam = .error .zeroDivision := by
  have hd : 0 < θs - θr := sub_pos.mpr hs
  have hP : 0 < (θs - θr) ^ (1 / lam + 3) := Real.rpow_pos_of_pos hd _
  unfold suctionHead s2
  have e1 : pyDiv 1 lam = .ok (1 / lam) := by unfold pyDiv; rw [if_neg hl.ne']
  simp only [e1, bind, Except.bind]
  have hden : (lam * (θs - θr) ^ (1 / lam + 3)) * (1 / lam + 3) ≠ 0 := by positivity
  have hden2 : 2 * Ks * (θs - θi) = 0 := by rcases h with rfl | rfl <;> simp
  unfold pyDiv
  rw [if_neg hden]
  simp only
  rw [if_pos hden2]

/-- Non-vacuous: a loam with residual moisture 0.03, saturation 0.46, initially at 0.2. -/
example : ∃ v, suctionHead 0.2 0.46 0.03 1e-6 0.11 0.25 = .ok v ∧ 0 < v ∧ v < 0.11 := by
  obtain ⟨v, h1, h2, h3, h4⟩ := C132_range (θi := 0.2) (θs := 0.46) (θr := 0.03) (Ks := 1e-6) (psi_b := 0.11)
    (lam := 0.25) (by norm_num) (by norm_num) (by norm_num) (by norm_num) (by norm_num)
  exact ⟨v, h1, h2, lt_of_le_of_lt h3 (by norm_num)⟩

end

end Pipedream.Infiltration
