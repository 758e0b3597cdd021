import Verif.FilterStepModel
import Verif.StepReportProps

/-!
# C142: assimilating data leaves the controls as they are
-/

namespace Pipedream.Step

open Pipedream Sweep Link Superlink Network Control

variable {m : Model} {geo : Geo} {inp : Inputs} {wk : Work} {cur : Hyd} {co : Coef ℝ}

/-- **C142, where it holds.** If the caller repeats the control signals and the step size of the step, the
assimilated state has the heads, end flows and control flows the step would have reported had its head
equations been solved by `x`. -/
theorem C142_repeated_partial (s : Hyd) (x : ℕ → ℝ) (a : FilterArgs) (hdt : a.dt = inp.dt)
    (ho : a.u_o = some inp.u_o) (hw : a.u_w = some inp.u_w) (hp : a.u_p = some inp.u_p) :
    let y := m.refilter geo inp wk cur co s a x
    let z := m.advance geo inp wk cur co x
    y.H = z.H ∧ y.Qu = z.Qu ∧ y.Qd = z.Qd ∧ y.Qo = z.Qo ∧ y.Qw = z.Qw ∧ y.Qp = z.Qp := by
  simp only [Model.refilter, Model.advance, hdt, ho, hw, hp, Option.getD_some, and_self]

/-- **C142 (negation, pumps).** Without `u_p` every pump reports no flow after the assimilation, whatever it
was set to and whatever the heads are. -/
theorem C142_pumps_stop (s : Hyd) (x : ℕ → ℝ) (a : FilterArgs) (ha : a.u_p = none) (p : ℕ)
    (hc : (m.pump p).c ≠ 0) : (m.refilter geo inp wk cur co s a x).Qp p = 0 := by
  simp only [Model.refilter, ha, Option.getD_none, pumpFlow, zero_div, zero_mul]
  split_ifs
  · exact Real.zero_rpow (one_div_ne_zero hc)
  · rfl

/-- **C142 (negation, pumps in the next step).** A pump that reports no flow is left out of the head
equations of the next step, whatever its setting, unless its curve is linear. So a pump driven by a
simulation that assimilates without `u_p` after every step never moves water. -/
theorem C142_pump_left_out (s : Hyd) (inp' : Inputs) (wk' : Work) (p : ℕ) (hQ : s.Qp p = 0)
    (hc : (m.pump p).c ≠ 1) : m.pLin inp' wk' s p = ⟨0, 0, 0⟩ := by
  have hγ : gammaP 0 (inp'.u_p p) (m.pump p) = 0 := by
    unfold gammaP
    rw [abs_zero, Real.zero_rpow (sub_ne_zero.mpr hc), mul_zero, safeDivide_eq, div_zero]
  unfold Model.pLin
  rw [C11_pump_no_stale (wk'.lp p) ⟨0, 0, 0⟩, hQ]
  simp only [pumpLin, hγ]
  split_ifs <;> simp

/-- **C142 (negation, weirs).** Without `u_w` a weir reports no flow after the assimilation as long as both
heads are at or below its crest raised by its whole height, however far it was lowered. -/
theorem C142_weirs_close (s : Hyd) (x : ℕ → ℝ) (a : FilterArgs) (ha : a.u_w = none) (w : ℕ)
    (hu : (m.refilter geo inp wk cur co s a x).H (m.Juw w) ≤
      (m.weir w).z_w + (m.weir w).z_inv + (m.weir w).y_max)
    (hd : (m.refilter geo inp wk cur co s a x).H (m.Jdw w) ≤
      (m.weir w).z_w + (m.weir w).z_inv + (m.weir w).y_max) :
    (m.refilter geo inp wk cur co s a x).Qw w = 0 := by
  have hcr : (m.weir w).crest 0 = (m.weir w).z_w + (m.weir w).z_inv + (m.weir w).y_max := by
    simp [Weir.crest]
  simp only [Model.refilter] at hu hd
  simp only [Model.refilter, ha, Option.getD_none]
  exact (C22_weir_dry ⟨0, 0, 0⟩ 0 _ _ 0 (m.weir w) (by rw [hcr]; exact hu) (by rw [hcr]; exact hd)).1

/-- **C142 (negation, weirs in the next step).** A weir that reports no flow is left out of the head
equations of the next step. -/
theorem C142_weir_left_out (s : Hyd) (inp' : Inputs) (wk' : Work) (w : ℕ) (hQ : s.Qw w = 0) :
    m.wLin inp' wk' s w = ⟨0, 0, 0⟩ := by
  unfold Model.wLin
  rw [C11_weir_no_stale (wk'.lw w) ⟨0, 0, 0⟩, hQ]
  simp only [weirLin, gammaW, abs_zero, safeDivide_eq, div_zero]
  split_ifs <;> simp

/-- Flow of an orifice into open air: both regimes of a free orifice whose downstream head is at or below its
bottom. -/
theorem orifice_free (g Ao Co Hu Hd u : ℝ) (o : Orifice) (ho : 0 ≤ o.tau * o.y_max * u)
    (hu : o.z_o + o.z_inv + o.tau * o.y_max * u < Hu) (hd : Hd ≤ o.z_o + o.z_inv) :
    orificeRaw g Ao Co Hu Hd u o =
      Real.sqrt |2 * g * Co ^ 2 * Ao ^ 2 * (Hu - (o.z_o + o.z_inv) - o.tau * o.y_max * u / 2)| := by
  have hHd : Hd < Hu := by linarith
  have hω : omega Hu Hd = 1 := if_pos hHd.le
  have hs : sgn Hu Hd = 1 := if_pos hHd.le
  unfold orificeRaw
  simp only [orificeCoef, hω, hs]
  have c0 : (1 * Hu + (1 - 1) * Hd > o.z_o + o.z_inv + o.tau * o.y_max * u) := by linarith
  have c1 : ¬ ((1 - 1) * Hu + 1 * Hd > o.z_o + o.z_inv + o.tau * o.y_max * u / 2) := by
    rw [not_lt]; linarith
  have c3 : ¬ (Hd ≥ Hu ∧ o.unidir = true) := fun h => absurd h.1 (not_le.mpr hHd)
  simp only [c0, c1, c3, not_true_eq_false, not_false_eq_true, and_true, and_false, false_and, or_false,
    if_true, if_false]
  rw [one_mul]
  congr 2
  ring

/-- **C142 (negation, orifices).** Without `u_o` a side orifice discharging freely is computed as if the middle
of its opening were at its bottom, while its area remains that of its setting: unless the volume limit holds it
back, the reported flow is larger than the orifice passes at its setting under the same heads. -/
theorem C142_orifice_exceeds (s : Hyd) (x : ℕ → ℝ) (a : FilterArgs) (ha : a.u_o = none) (hdt : a.dt = inp.dt)
    (o : ℕ) (hg : 0 < m.g) (hC : m.Co o ≠ 0) (hA : geo.Ao o ≠ 0)
    (hop : 0 < (m.orifice o).tau * (m.orifice o).y_max * inp.u_o o)
    (hu : (m.orifice o).z_o + (m.orifice o).z_inv + (m.orifice o).tau * (m.orifice o).y_max * inp.u_o o <
      (m.refilter geo inp wk cur co s a x).H (m.Juo o))
    (hd : (m.refilter geo inp wk cur co s a x).H (m.Jdo o) ≤ (m.orifice o).z_o + (m.orifice o).z_inv)
    (hV : (m.advance geo inp wk cur co x).Qo o < geo.V (m.Juo o) / inp.dt) :
    (m.advance geo inp wk cur co x).Qo o < (m.refilter geo inp wk cur co s a x).Qo o := by
  simp only [Model.refilter] at hu hd
  simp only [Model.advance] at hV
  simp only [Model.advance, Model.refilter, ha, hdt, Option.getD_none]
  generalize clipHead m.z_inv m.max_depth x (m.Juo o) = Hu at *
  generalize clipHead m.z_inv m.max_depth x (m.Jdo o) = Hd at *
  generalize m.orifice o = r at *
  have hHd : Hd < Hu := by linarith
  have e1 := orifice_free m.g (geo.Ao o) (m.Co o) Hu Hd (inp.u_o o) r hop.le hu hd
  have e0 := orifice_free m.g (geo.Ao o) (m.Co o) Hu Hd 0 r (by simp) (by simp; linarith) hd
  have hk : 0 < 2 * m.g * m.Co o ^ 2 * geo.Ao o ^ 2 := by positivity
  generalize 2 * m.g * m.Co o ^ 2 * geo.Ao o ^ 2 = k at *
  have hlt : orificeRaw m.g (geo.Ao o) (m.Co o) Hu Hd (inp.u_o o) r <
      orificeRaw m.g (geo.Ao o) (m.Co o) Hu Hd 0 r := by
    rw [e1, e0]
    have h1 : 0 < Hu - (r.z_o + r.z_inv) - r.tau * r.y_max * inp.u_o o / 2 := by linarith
    rw [abs_of_pos (mul_pos hk h1), abs_of_pos (mul_pos hk (by simp; linarith))]
    apply Real.sqrt_lt_sqrt (mul_pos hk h1).le
    apply mul_lt_mul_of_pos_left _ hk
    simp; linarith
  have hp : 0 < orificeRaw m.g (geo.Ao o) (m.Co o) Hu Hd (inp.u_o o) r := by
    rw [e1]
    exact Real.sqrt_pos.mpr (abs_pos.mpr (mul_pos hk (by linarith)).ne')
  simp only [orificeFlow] at hV ⊢
  generalize orificeRaw m.g (geo.Ao o) (m.Co o) Hu Hd (inp.u_o o) r = q1 at *
  generalize orificeRaw m.g (geo.Ao o) (m.Co o) Hu Hd 0 r = q0 at *
  have hq0 : 0 < q0 := hp.trans hlt
  simp only [orificeLimit, npSign, if_pos hHd, if_pos hp, if_pos hq0, gt_iff_lt, one_mul, abs_of_pos hp,
    abs_of_pos hq0] at hV ⊢
  have h1 : q1 < geo.V (m.Juo o) / inp.dt := by
    rcases min_lt_iff.mp hV with h | h
    · exact h
    · exact absurd h (lt_irrefl _)
  rw [min_eq_left h1.le]
  exact lt_min hlt h1

/-- **C142 (orifices, step size).** The volume limit on the flow of an orifice is taken with the `dt` given to
`kalman_filter`, not with the step size of the step it corrects. -/
theorem C142_orifice_limit (s : Hyd) (x : ℕ → ℝ) (a : FilterArgs) (o : ℕ) (hdt : 0 < a.dt)
    (hVu : 0 ≤ geo.V (m.Juo o)) (hVd : 0 ≤ geo.V (m.Jdo o)) :
    let y := m.refilter geo inp wk cur co s a x
    (y.H (m.Jdo o) < y.H (m.Juo o) → |y.Qo o| ≤ geo.V (m.Juo o) / a.dt) ∧
      (y.H (m.Juo o) ≤ y.H (m.Jdo o) → |y.Qo o| ≤ geo.V (m.Jdo o) / a.dt) := by
  have one : ∀ q : ℝ, |npSign q| ≤ 1 := fun q => by unfold npSign; split_ifs <;> norm_num
  have key : ∀ q v : ℝ, 0 ≤ v → |npSign q * min |q| v| ≤ v := fun q v hv => by
    rw [abs_mul, abs_of_nonneg (le_min (abs_nonneg q) hv)]
    calc |npSign q| * min |q| v ≤ 1 * v :=
          mul_le_mul (one q) (min_le_right _ _) (le_min (abs_nonneg _) hv) zero_le_one
      _ = v := one_mul v
  refine ⟨fun h => ?_, fun h => ?_⟩
  · simp only [Model.refilter] at h ⊢
    simp only [orificeFlow, orificeLimit, gt_iff_lt, if_pos h]
    exact key _ _ (div_nonneg hVu hdt.le)
  · simp only [Model.refilter] at h ⊢
    simp only [orificeFlow, orificeLimit, gt_iff_lt, if_neg (not_lt.mpr h)]
    exact key _ _ (div_nonneg hVd hdt.le)

/-- A pump set to half speed, assimilated without its setting. -/
example : (⟨0, 0, 10, -10, 10, 1, 2⟩ : Pump).c ≠ 0 ∧ (⟨0, 0, 10, -10, 10, 1, 2⟩ : Pump).c ≠ 1 ∧
    0 < pumpFlow 1 0 (1 / 2) ⟨0, 0, 10, -10, 10, 1, 2⟩ := by
  refine ⟨by norm_num, by norm_num, ?_⟩
  unfold pumpFlow
  rw [if_pos (by norm_num)]
  apply Real.rpow_pos_of_pos
  norm_num [pumpHead]

/-- A side orifice one metre high, half open, two metres under water and discharging freely. -/
example : (0 : ℝ) < (⟨0, 0, 1, 1, false⟩ : Orifice).tau * (⟨0, 0, 1, 1, false⟩ : Orifice).y_max * (1 / 2) ∧
    (0 : ℝ) + 0 + 1 * 1 * (1 / 2) < 2 ∧ (0 : ℝ) ≤ 0 + 0 := by norm_num

end Pipedream.Step
