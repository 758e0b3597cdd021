import Verif.NormalDepthModel
import Verif.ExitProps
import Mathlib.Analysis.SpecialFunctions.Pow.Continuity

/-!
# C158: normal depth carries the flow

The zeros of `_normal_depth` are the depths at which the pipe carries the flow uniformly (Manning's formula). Up to the flow of the
full pipe there is such a depth. Above it there are two, and further above none.
-/

namespace Pipedream.Exit

open Pipedream.Geometry

/-- Manning's formula for a circular pipe of diameter `d`, filled to the angle `t` (half the central angle of the wetted arc):
area `d²/4 (t - sin t cos t)`, wetted arc `d t`, hydraulic radius their quotient. -/
noncomputable def manning (d n S t : ℝ) : ℝ :=
  1 / n * (d ^ 2 / 4 * (t - Real.sin t * Real.cos t)) *
    (d ^ 2 / 4 * (t - Real.sin t * Real.cos t) / (d * t)) ^ (2 / 3 : ℝ) * Real.sqrt S

/-- The pipe carries `Q` uniformly at depth `h`: below the crown, `h = d/2 (1 - cos t)`, and the flow is Manning's. -/
def Uniform (Q d n S h : ℝ) : Prop :=
  ∃ t, 0 < t ∧ t ≤ Real.pi ∧ h = d / 2 * (1 - Real.cos t) ∧ Q = manning d n S t

/-! ### Depths and angles -/

theorem area_angle {d t : ℝ} (hd : 0 < d) (h0 : 0 < t) (h1 : t ≤ Real.pi) :
    exitArea (d / 2 * (1 - Real.cos t)) d = d ^ 2 / 4 * (t - Real.sin t * Real.cos t) ∧
    exitPerimeter (d / 2 * (1 - Real.cos t)) d = d * t := by
  have c1 := Real.cos_le_one t
  have c2 := Real.neg_one_le_cos t
  have a0 : 0 ≤ d / 2 * (1 - Real.cos t) := mul_nonneg (by linarith) (by linarith)
  have a1 : d / 2 * (1 - Real.cos t) ≤ d := by nlinarith
  have e : 1 - d / 2 * (1 - Real.cos t) / (d / 2) = Real.cos t := by field_simp; ring
  constructor
  · unfold exitArea
    rw [circularA_eq _ _ hd, depth_same a0 a1]
    unfold circF
    rw [e, Real.arccos_cos h0.le h1]; ring
  · unfold exitPerimeter circularPe
    rw [depth_same a0 a1]
    simp only
    rw [circTheta_eq hd a0 a1, e, Real.arccos_cos h0.le h1]; ring

theorem seg_eq (t : ℝ) : t - Real.sin t * Real.cos t = seg t := by unfold seg; ring

theorem depth_angle {d h : ℝ} (h0 : 0 < h) (h1 : h ≤ d) :
    ∃ t, 0 < t ∧ t ≤ Real.pi ∧ h = d / 2 * (1 - Real.cos t) := by
  have hd : 0 < d := h0.trans_le h1
  have hr : 0 < d / 2 := by linarith
  have a : h / (d / 2) ≤ 2 := by rw [div_le_iff₀ hr]; linarith
  have b := div_pos h0 hr
  refine ⟨Real.arccos (1 - h / (d / 2)), Real.arccos_pos.2 (by linarith), Real.arccos_le_pi _, ?_⟩
  rw [Real.cos_arccos (by linarith) (by linarith)]
  field_simp; ring

/-! ### C158 -/

/-- **C158 (meaning).** At a depth in the pipe the residual is zero exactly when the pipe carries the flow uniformly. -/
theorem C158_meaning {Q d n S h : ℝ} (hn : 0 < n) (hS : 0 ≤ S) (h0 : 0 < h) (h1 : h ≤ d) :
    normalFn Q d n S h = some 0 ↔ Uniform Q d n S h := by
  have hd : 0 < d := h0.trans_le h1
  have key : ∀ t, 0 < t → t ≤ Real.pi → h = d / 2 * (1 - Real.cos t) →
      (normalFn Q d n S h = some 0 ↔ Q = manning d n S t) := by
    intro t t0 t1 e
    obtain ⟨eA, eP⟩ := area_angle hd t0 t1
    rw [← e] at eA eP
    have hA : 0 < exitArea h d := by
      rw [eA, seg_eq]; have := seg_pos t0; positivity
    have hP : 0 < exitPerimeter h d := by rw [eP]; positivity
    unfold normalFn manning
    rw [if_neg (by rintro (h | h | h) <;> linarith), ← eA, ← eP, Option.some_inj, sub_eq_zero, Real.sqrt_eq_rpow,
      Real.div_rpow hA.le hP.le, show (5 / 3 : ℝ) = 1 + 2 / 3 by norm_num, Real.rpow_add hA, Real.rpow_one]
    have : S ^ (1 / 2 : ℝ) * (exitArea h d * exitArea h d ^ (2 / 3 : ℝ)) / exitPerimeter h d ^ (2 / 3 : ℝ) / n =
        1 / n * exitArea h d * (exitArea h d ^ (2 / 3 : ℝ) / exitPerimeter h d ^ (2 / 3 : ℝ)) * S ^ (1 / 2 : ℝ) := by ring
    rw [this]
  constructor
  · intro h
    obtain ⟨t, t0, t1, e⟩ := depth_angle h0 h1
    exact ⟨t, t0, t1, e, (key t t0 t1 e).1 h⟩
  · rintro ⟨t, t0, t1, e, q⟩
    exact (key t t0 t1 e).2 q

/-- **C158 (solver).** Where the solver returns a zero inside the pipe, the normal depth of the exit carries the flow; elsewhere it
is zero. -/
theorem C158_solver (newton : ℝ → ℝ → ℝ → ℝ → ℝ → ℝ) (n S : ℕ → ℝ) (s : St) {k : ℕ} (hn : 0 < n k) (hS : 0 ≤ S k) :
    (s.isExit k = true → 0 < (solveNormal newton n S s).hn k → (solveNormal newton n S s).hn k ≤ s.crown k →
      normalFn (s.Qd k) (s.crown k) (n k) (S k) (newton (s.Qd k) (s.crown k) (n k) (S k) (s.hd k)) = some 0 →
      Uniform (s.Qd k) (s.crown k) (n k) (S k) ((solveNormal newton n S s).hn k)) ∧
    (s.isExit k = false → (solveNormal newton n S s).hn k = 0) := by
  refine ⟨fun h => ?_, fun h => by simp [solveNormal, h]⟩
  simp only [solveNormal, h, if_true]
  exact fun h0 h1 hz => (C158_meaning hn hS h0 h1).1 hz

theorem seg_le {t : ℝ} (h0 : 0 ≤ t) : seg t ≤ 2 * t := by
  have := Real.sin_le (show 0 ≤ 2 * t by linarith)
  have h2 : -(2 * t) ≤ Real.sin (2 * t) := by
    have := Real.sin_le (show 0 ≤ 2 * t by linarith)
    have := Real.abs_sin_le_abs (x := 2 * t)
    rw [abs_of_nonneg (show 0 ≤ 2 * t by linarith)] at this
    exact (abs_le.1 this).1
  rw [Real.sin_two_mul] at h2
  unfold seg; linarith

theorem manning_cont {d n S : ℝ} (hd : 0 < d) : ContinuousOn (manning d n S) (Set.Ioi 0) := by
  unfold manning
  refine ContinuousOn.mul (ContinuousOn.mul (by fun_prop) ?_) continuousOn_const
  refine ContinuousOn.rpow_const (ContinuousOn.div (by fun_prop) (by fun_prop) ?_) ?_
  · intro t ht
    exact (mul_pos hd ht).ne'
  · intro t _; right; norm_num

/-- The hydraulic radius is at most half the diameter. -/
theorem manning_le {d n S t : ℝ} (hd : 0 < d) (hn : 0 < n) (t0 : 0 < t) :
    manning d n S t ≤ 1 / n * (d ^ 2 / 4 * seg t) * (d / 2) ^ (2 / 3 : ℝ) * Real.sqrt S := by
  have hs := seg_pos t0
  unfold manning
  rw [seg_eq]
  refine mul_le_mul_of_nonneg_right (mul_le_mul_of_nonneg_left ?_ (by positivity)) (Real.sqrt_nonneg _)
  refine Real.rpow_le_rpow (by positivity) ?_ (by norm_num)
  rw [div_le_iff₀ (by positivity)]
  have := seg_le t0.le
  nlinarith [mul_pos hd hd]

theorem manning_small {d n S Q T : ℝ} (hd : 0 < d) (hn : 0 < n) (hQ : 0 < Q) (hT : 0 < T) :
    ∃ t, 0 < t ∧ t < T ∧ manning d n S t < Q := by
  set c := 1 / n * (d ^ 2 / 4) * 2 * (d / 2) ^ (2 / 3 : ℝ) * Real.sqrt S with hc
  have c0 : 0 ≤ c := by positivity
  refine ⟨min (T / 2) (Q / (2 * (c + 1))), by positivity, (min_le_left _ _).trans_lt (by linarith), ?_⟩
  set t := min (T / 2) (Q / (2 * (c + 1))) with ht
  have t0 : 0 < t := by positivity
  refine (manning_le hd hn t0).trans_lt ?_
  have h1 : 1 / n * (d ^ 2 / 4 * seg t) * (d / 2) ^ (2 / 3 : ℝ) * Real.sqrt S ≤ c * t := by
    rw [hc]
    have := seg_le t0.le
    calc 1 / n * (d ^ 2 / 4 * seg t) * (d / 2) ^ (2 / 3 : ℝ) * Real.sqrt S
        ≤ 1 / n * (d ^ 2 / 4 * (2 * t)) * (d / 2) ^ (2 / 3 : ℝ) * Real.sqrt S := by gcongr
      _ = _ := by ring
  have h2 : t * (2 * (c + 1)) ≤ Q := by
    have := min_le_right (T / 2) (Q / (2 * (c + 1)))
    rw [← ht, le_div_iff₀ (by positivity)] at this
    exact this
  nlinarith

/-- A flow between none and that at the angle `T` is carried at some smaller angle. -/
theorem manning_ivt {d n S Q T : ℝ} (hd : 0 < d) (hn : 0 < n) (hQ : 0 < Q) (hT : 0 < T) (hq : Q ≤ manning d n S T) :
    ∃ t, 0 < t ∧ t ≤ T ∧ Q = manning d n S t := by
  obtain ⟨a, a0, a1, a2⟩ := manning_small (S := S) hd hn hQ hT
  have := intermediate_value_Icc a1.le ((manning_cont (n := n) (S := S) hd).mono fun t ht => a0.trans_le ht.1)
  obtain ⟨t, ht, e⟩ := this ⟨a2.le, hq⟩
  exact ⟨t, a0.trans_le ht.1, ht.2, e.symm⟩

theorem full_flow (d n S : ℝ) : manning d n S Real.pi =
    1 / n * (Real.pi * d ^ 2 / 4) * (Real.pi * d ^ 2 / 4 / (Real.pi * d)) ^ (2 / 3 : ℝ) * Real.sqrt S := by
  unfold manning
  rw [Real.sin_pi, show d ^ 2 / 4 * (Real.pi - 0 * Real.cos Real.pi) = Real.pi * d ^ 2 / 4 by ring, mul_comm d Real.pi]

theorem depth_pos {d t : ℝ} (hd : 0 < d) (t0 : 0 < t) (t1 : t ≤ Real.pi) :
    0 < d / 2 * (1 - Real.cos t) ∧ d / 2 * (1 - Real.cos t) ≤ d := by
  have c1 : Real.cos t < 1 := by
    have := Real.strictAntiOn_cos ⟨le_refl 0, Real.pi_pos.le⟩ ⟨t0.le, t1⟩ t0
    simpa using this
  have := Real.neg_one_le_cos t
  exact ⟨mul_pos (by linarith) (by linarith), by nlinarith⟩

/-- **C158 (existence, partial).** A pipe that falls has a normal depth for every positive flow up to that of the full pipe
(`Q = A/n R^(2/3) √S` with `A = π d²/4`, `R = A/(π d)`). What is missing: larger flows, flat and rising pipes, reversed flow
(`C158_none`). -/
theorem C158_exists_partial {Q d n S : ℝ} (hd : 0 < d) (hn : 0 < n) (hQ : 0 < Q)
    (hq : Q ≤ 1 / n * (Real.pi * d ^ 2 / 4) * (Real.pi * d ^ 2 / 4 / (Real.pi * d)) ^ (2 / 3 : ℝ) * Real.sqrt S) :
    ∃ h, 0 < h ∧ h ≤ d ∧ Uniform Q d n S h := by
  rw [← full_flow] at hq
  obtain ⟨t, t0, t1, e⟩ := manning_ivt hd hn hQ Real.pi_pos hq
  obtain ⟨p0, p1⟩ := depth_pos hd t0 t1
  exact ⟨_, p0, p1, t, t0, t1, rfl, e⟩

/-- Nearly full, the pipe carries more than full: at an angle of `5π/6` (depth 0.933 `d`) at least 1.05 times as much. -/
theorem more_than_full {d n S : ℝ} (hd : 0 < d) (hn : 0 < n) (hS : 0 < S) :
    manning d n S Real.pi * 1.05 ≤ manning d n S (5 * Real.pi / 6) := by
  have hp := Real.pi_pos
  have s1 : Real.sin (5 * Real.pi / 6) = 1 / 2 := by
    rw [show 5 * Real.pi / 6 = Real.pi - Real.pi / 6 by ring, Real.sin_pi_sub, Real.sin_pi_div_six]
  have s2 : Real.cos (5 * Real.pi / 6) = -(Real.sqrt 3 / 2) := by
    rw [show 5 * Real.pi / 6 = Real.pi - Real.pi / 6 by ring, Real.cos_pi_sub, Real.cos_pi_div_six]
  set q := Real.sqrt 3 with hq
  have q1 : 1.73 ≤ q := Real.le_sqrt_of_sq_le (by norm_num)
  have pi1 := Real.pi_lt_d2
  -- area at least 0.97 of the full area
  set A := d ^ 2 / 4 * (5 * Real.pi / 6 - Real.sin (5 * Real.pi / 6) * Real.cos (5 * Real.pi / 6)) with hA
  have a1 : 0.97 * (Real.pi * d ^ 2 / 4) ≤ A := by
    rw [hA, s1, s2]
    nlinarith [sq_nonneg d]
  -- hydraulic radius at least 1.164 of the full one
  have r1 : 1.164 * (Real.pi * d ^ 2 / 4 / (Real.pi * d)) ≤ A / (d * (5 * Real.pi / 6)) := by
    rw [le_div_iff₀ (by positivity)]
    have : 1.164 * (Real.pi * d ^ 2 / 4 / (Real.pi * d)) * (d * (5 * Real.pi / 6)) = 0.97 * (Real.pi * d ^ 2 / 4) := by
      field_simp; norm_num
    linarith
  -- 1.164 ^ (2/3) is at least 1.1
  have g1 : (1.1 : ℝ) ≤ (1.164 : ℝ) ^ (2 / 3 : ℝ) := by
    have : (1.1 : ℝ) = ((1.1 : ℝ) ^ (3 / 2 : ℝ)) ^ (2 / 3 : ℝ) := by
      rw [← Real.rpow_mul (by norm_num)]; norm_num
    rw [this]
    refine Real.rpow_le_rpow (by positivity) ?_ (by norm_num)
    rw [show (3 / 2 : ℝ) = 1 + 1 / 2 by norm_num, Real.rpow_add (by norm_num), Real.rpow_one, ← Real.sqrt_eq_rpow]
    have : Real.sqrt 1.1 ≤ 1.05 := Real.sqrt_le_iff.2 ⟨by norm_num, by norm_num⟩
    nlinarith
  rw [full_flow]
  unfold manning
  rw [← hA]
  have r2 : 1.1 * (Real.pi * d ^ 2 / 4 / (Real.pi * d)) ^ (2 / 3 : ℝ) ≤ (A / (d * (5 * Real.pi / 6))) ^ (2 / 3 : ℝ) := by
    refine le_trans ?_ (Real.rpow_le_rpow (by positivity) r1 (by norm_num))
    rw [Real.mul_rpow (by norm_num) (by positivity)]
    exact mul_le_mul_of_nonneg_right g1 (by positivity)
  have A0 : 0 < A := lt_of_lt_of_le (by positivity) a1
  have := mul_le_mul a1 r2 (by positivity) A0.le
  have h0 : 0 ≤ 1 / n * Real.sqrt S := by positivity
  have := mul_le_mul_of_nonneg_left this h0
  have f0 : 0 ≤ 1 / n * Real.sqrt S * ((Real.pi * d ^ 2 / 4) * (Real.pi * d ^ 2 / 4 / (Real.pi * d)) ^ (2 / 3 : ℝ)) := by positivity
  nlinarith

/-- **C158, not unique.** For every flow from that of the full pipe to 1.05 times as much there are two depths, one on
either side of the depth `d/2 (1 + √3/2)` (0.933 of the diameter): what is found depends on where the search starts. -/
theorem C158_two {Q d n S : ℝ} (hd : 0 < d) (hn : 0 < n) (hS : 0 < S)
    (h1 : 1 / n * (Real.pi * d ^ 2 / 4) * (Real.pi * d ^ 2 / 4 / (Real.pi * d)) ^ (2 / 3 : ℝ) * Real.sqrt S ≤ Q)
    (h2 : Q < 1 / n * (Real.pi * d ^ 2 / 4) * (Real.pi * d ^ 2 / 4 / (Real.pi * d)) ^ (2 / 3 : ℝ) * Real.sqrt S * 1.05) :
    ∃ h h', 0 < h ∧ h < d / 2 * (1 + Real.sqrt 3 / 2) ∧ d / 2 * (1 + Real.sqrt 3 / 2) ≤ h' ∧ h' ≤ d ∧
      Uniform Q d n S h ∧ Uniform Q d n S h' := by
  rw [← full_flow] at h1 h2
  have hp := Real.pi_pos
  have h3 := lt_of_lt_of_le h2 (more_than_full hd hn hS)
  have hQ : 0 < Q := by
    refine lt_of_lt_of_le ?_ h1
    rw [full_flow]; positivity
  obtain ⟨t, t0, t1, e⟩ := manning_ivt hd hn hQ (show 0 < 5 * Real.pi / 6 by positivity) h3.le
  have lt : t < 5 * Real.pi / 6 := lt_of_le_of_ne t1 (by rintro rfl; linarith)
  have := intermediate_value_Icc' (show 5 * Real.pi / 6 ≤ Real.pi by linarith)
    ((manning_cont (n := n) (S := S) hd).mono fun t ht => (show 0 < 5 * Real.pi / 6 by positivity).trans_le ht.1)
  obtain ⟨t', ht', e'⟩ := this ⟨h1, h3.le⟩
  have p := depth_pos hd t0 (by linarith)
  have p' := depth_pos hd (lt_of_lt_of_le (by positivity) ht'.1) ht'.2
  have s2 : Real.cos (5 * Real.pi / 6) = -(Real.sqrt 3 / 2) := by
    rw [show 5 * Real.pi / 6 = Real.pi - Real.pi / 6 by ring, Real.cos_pi_sub, Real.cos_pi_div_six]
  refine ⟨_, _, p.1, ?_, ?_, p'.2, ⟨t, t0, by linarith, rfl, e⟩, ⟨t', lt_of_lt_of_le (by positivity) ht'.1, ht'.2, rfl, e'.symm⟩⟩
  · have := Real.strictAntiOn_cos ⟨t0.le, by linarith⟩ ⟨by positivity, by linarith⟩ lt
    rw [s2] at this
    nlinarith
  · have := Real.strictAntiOn_cos.antitoneOn ⟨by positivity, by linarith⟩ ⟨(by positivity : (0 : ℝ) ≤ 5 * Real.pi / 6).trans ht'.1, ht'.2⟩ ht'.1
    rw [s2] at this
    nlinarith

/-- **C158, not always there.** No depth at all makes the residual zero: if the pipe rises; if it is flat and there is flow; if
the flow runs backwards; if the flow is larger than `A/n (d/2)^(2/3) √S`. -/
theorem C158_none {Q d n S : ℝ} (hd : 0 < d) (hn : 0 < n)
    (h : S < 0 ∨ (S = 0 ∧ Q ≠ 0) ∨ Q < 0 ∨ 1 / n * (Real.pi * d ^ 2 / 4) * (d / 2) ^ (2 / 3 : ℝ) * Real.sqrt S < Q) (y : ℝ) :
    normalFn Q d n S y ≠ some 0 := by
  intro hz
  by_cases hS : S < 0
  · simp [normalFn, hS] at hz
  have hS' : 0 ≤ S := not_lt.1 hS
  -- depths outside the pipe count as its ends
  have hP : exitPerimeter y d ≠ 0 := by
    intro hP; simp [normalFn, hP] at hz
  have y0 : 0 < y := by
    by_contra hy
    apply hP
    have : depth y y d = 0 := by
      rcases (not_lt.1 hy).lt_or_eq with hy | rfl
      · simp [depth, wet, hy, hd.le]
      · simp [depth, wet, hd.le]
    simp only [exitPerimeter, circularPe, this, circTheta]
    norm_num
  have : ∃ t, 0 < t ∧ t ≤ Real.pi ∧ Q = manning d n S t := by
    by_cases h1 : y ≤ d
    · obtain ⟨t, t0, t1, -, e⟩ := (C158_meaning hn hS' y0 h1).1 hz
      exact ⟨t, t0, t1, e⟩
    · have e : depth y y d = depth d d d := by
        have a : (y + y) / 2 = y := by ring
        have b : (d + d) / 2 = d := by ring
        simp only [depth, wet, a, b, if_neg (not_lt.2 y0.le), if_neg (not_lt.2 hd.le), if_pos (not_le.1 h1), gt_iff_lt, lt_irrefl,
          if_false]
      have hz' : normalFn Q d n S d = some 0 := by
        simp only [normalFn, exitPerimeter, exitArea, circularPe, circularA, e] at hz ⊢
        exact hz
      obtain ⟨t, t0, t1, -, e⟩ := (C158_meaning hn hS' hd le_rfl).1 hz'
      exact ⟨t, t0, t1, e⟩
  obtain ⟨t, t0, t1, e⟩ := this
  have hs := seg_pos t0
  have nonneg : 0 ≤ manning d n S t := by
    unfold manning; rw [seg_eq]; positivity
  rcases h with h | ⟨h, h'⟩ | h | h
  · exact hS h
  · apply h'
    rw [e, h]; simp [manning]
  · linarith
  · have b := manning_le (S := S) hd hn t0
    have m := segment_mono t1
    simp only [Real.sin_pi, mul_zero, sub_zero] at m
    have : seg t ≤ Real.pi := m
    have : 1 / n * (d ^ 2 / 4 * seg t) * (d / 2) ^ (2 / 3 : ℝ) * Real.sqrt S ≤
        1 / n * (Real.pi * d ^ 2 / 4) * (d / 2) ^ (2 / 3 : ℝ) * Real.sqrt S := by
      refine mul_le_mul_of_nonneg_right (mul_le_mul_of_nonneg_right (mul_le_mul_of_nonneg_left ?_ (by positivity)) (by positivity))
        (Real.sqrt_nonneg _)
      nlinarith [sq_nonneg d]
    linarith

/-- A pipe of 1 m with roughness 0.01 on a slope of one per cent carries one hundredth of a cubic metre per second. -/
example : ∃ h, 0 < h ∧ h ≤ 1 ∧ normalFn 0.01 1 0.01 0.01 h = some 0 := by
  obtain ⟨h, h0, h1, u⟩ := C158_exists_partial (Q := 0.01) (d := 1) (n := 0.01) (S := 0.01) one_pos (by norm_num) (by norm_num) (by
    have p := Real.pi_gt_three
    have e : Real.sqrt 0.01 = 0.1 := by rw [show (0.01 : ℝ) = 0.1 ^ 2 by norm_num, Real.sqrt_sq (by norm_num)]
    have e2 : Real.pi * 1 ^ 2 / 4 / (Real.pi * 1) = 1 / 4 := by field_simp
    have g : (1 / 4 : ℝ) ≤ (1 / 4) ^ (2 / 3 : ℝ) := by
      conv_lhs => rw [← Real.rpow_one (1 / 4 : ℝ)]
      exact Real.rpow_le_rpow_of_exponent_ge (by norm_num) (by norm_num) (by norm_num)
    rw [e, e2]
    nlinarith)
  exact ⟨h, h0, h1, (C158_meaning (by norm_num) (by norm_num) h0 h1).2 u⟩

/-- The same pipe, full to the brim, and the flow that fills it: two depths. -/
example : ∃ Q h h' : ℝ, h < h' ∧ normalFn Q 1 0.01 0.01 h = some 0 ∧ normalFn Q 1 0.01 0.01 h' = some 0 := by
  obtain ⟨h, h', h0, l1, l2, h1, u, u'⟩ := C158_two (d := 1) (n := 0.01) (S := 0.01) one_pos (by norm_num) (by norm_num) le_rfl (by
    have : 0 < 1 / 0.01 * (Real.pi * 1 ^ 2 / 4) * (Real.pi * 1 ^ 2 / 4 / (Real.pi * 1)) ^ (2 / 3 : ℝ) * Real.sqrt 0.01 := by
      have := Real.pi_pos
      positivity
    linarith)
  have l := l1.trans_le l2
  exact ⟨_, h, h', l, (C158_meaning (by norm_num) (by norm_num) h0 (l.le.trans h1)).2 u,
    (C158_meaning (by norm_num) (by norm_num) (h0.trans l) h1).2 u'⟩

end Pipedream.Exit
