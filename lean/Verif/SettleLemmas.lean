import Mathlib.Analysis.SpecialFunctions.Sqrt
import Mathlib.Analysis.SpecificLimits.Basic
import Mathlib.Analysis.Calculus.Deriv.Slope
import Mathlib.Analysis.Calculus.Deriv.Inv
import Mathlib.Tactic.FieldSimp

/-!
# The level over a weir from step to step, relative to its steady value
-/

namespace Pipedream.Settle

open Filter Topology

noncomputable section

/-- How far `r` is from one, upwards or downwards. -/
def off (r : ℝ) : ℝ := max r (1 / r) - 1

theorem off_nonneg {r : ℝ} (h : 0 < r) : 0 ≤ off r := by
  unfold off
  rcases le_total 1 r with h1 | h1
  · linarith [le_max_left r (1 / r)]
  · have : 1 ≤ 1 / r := by rw [le_div_iff₀ h]; linarith
    linarith [le_max_right r (1 / r)]

theorem off_above {r : ℝ} (h : 1 ≤ r) : off r = r - 1 := by
  have : 1 / r ≤ 1 := by rw [div_le_one (by linarith)]; exact h
  rw [off, max_eq_left (this.trans h)]

theorem off_below {r : ℝ} (h0 : 0 < r) (h : r ≤ 1) : off r = 1 / r - 1 := by
  have : 1 ≤ 1 / r := by rw [le_div_iff₀ h0]; linarith
  rw [off, max_eq_right (h.trans this)]

theorem abs_le_off {r : ℝ} (h : 0 < r) : |r - 1| ≤ off r := by
  rcases le_total 1 r with h1 | h1
  · rw [off_above h1, abs_of_nonneg (by linarith)]
  · rw [off_below h h1, abs_of_nonpos (by linarith)]
    have : r + 1 / r ≥ 2 := by
      have := sq_nonneg (r - 1)
      rw [ge_iff_le, ← sub_nonneg]
      have e : r + 1 / r - 2 = (r - 1) ^ 2 / r := by field_simp; ring
      rw [e]; positivity
    linarith

theorem low_of_off {r : ℝ} (h : 0 < r) : 1 / (1 + off r) ≤ r := by
  have : 1 / r ≤ 1 + off r := by unfold off; linarith [le_max_right r (1 / r)]
  rw [div_le_iff₀ (by linarith [off_nonneg h]), ← div_le_iff₀' h]
  exact this

/-- Next relative level over a rectangular weir. -/
def wide (a r : ℝ) : ℝ := (r + a) / (1 + a * Real.sqrt r)

theorem wide_pos {a r : ℝ} (ha : 0 < a) (hr : 0 < r) : 0 < wide a r := by
  unfold wide; positivity

/-- The next level is a mean of the present one and its inverse root, hence nearer. -/
theorem wide_closer {a r : ℝ} (ha : 0 < a) (hr : 0 < r) :
    off (wide a r) ≤ max (1 / 2) (1 / (1 + a * Real.sqrt r)) * off r := by
  set t := Real.sqrt r with ht
  have t0 : 0 < t := Real.sqrt_pos.mpr hr
  have tt : t * t = r := Real.mul_self_sqrt hr.le
  have D : 0 < 1 + a * t := by positivity
  have o := off_nonneg hr
  have m1 := le_max_left (1 / 2) (1 / (1 + a * t))
  have m2 := le_max_right (1 / 2) (1 / (1 + a * t))
  have g : wide a r = (t * t + a) / (1 + a * t) := by unfold wide; rw [← ht, tt]
  have gp := wide_pos ha hr
  have key : wide a r - 1 ≤ max (1 / 2) (1 / (1 + a * t)) * off r ∧
      1 / wide a r - 1 ≤ max (1 / 2) (1 / (1 + a * t)) * off r := by
    rcases le_total 1 r with h | h
    · have t1 : 1 ≤ t := by rw [ht, Real.one_le_sqrt]; exact h
      rw [off_above h] at o ⊢
      constructor
      · refine le_trans ?_ (mul_le_mul_of_nonneg_right m2 o)
        have f : 1 / (1 + a * t) * (r - 1) - (wide a r - 1) = a * (t - 1) / (1 + a * t) := by
          rw [g, ← tt]; field_simp; ring
        have : 0 ≤ a * (t - 1) / (1 + a * t) := div_nonneg (mul_nonneg ha.le (by linarith)) D.le
        linarith
      · refine le_trans ?_ (mul_le_mul_of_nonneg_right m1 o)
        have : 1 / wide a r ≤ t := by
          rw [g, one_div_div, div_le_iff₀ (by positivity)]; nlinarith [mul_pos t0 ha]
        nlinarith
    · have t1 : t ≤ 1 := by rw [ht]; exact Real.sqrt_le_one.mpr h
      rw [off_below hr h] at o ⊢
      constructor
      · refine le_trans ?_ (mul_le_mul_of_nonneg_right m1 o)
        have : wide a r ≤ 1 / t := by
          rw [g, div_le_div_iff₀ D t0]; nlinarith [mul_pos t0 ha, mul_pos t0 t0]
        have e : 1 / r = (1 / t) * (1 / t) := by rw [← tt]; field_simp
        have : 1 ≤ 1 / t := by rw [le_div_iff₀ t0]; linarith
        rw [e]; nlinarith
      · refine le_trans ?_ (mul_le_mul_of_nonneg_right m2 o)
        rw [g, one_div_div, ← tt]
        have P : 0 < t * t + a := by positivity
        rw [← sub_nonneg]
        have f : 1 / (1 + a * t) * (1 / (t * t) - 1) - ((1 + a * t) / (t * t + a) - 1)
            = a * (1 - t) * (1 + t + t * t - t * t * t - t * t * t * t + a * (t * t * t)) / ((1 + a * t) * (t * t) * (t * t + a)) := by
          field_simp
          ring
        rw [f]
        have c3 : t * t * t ≤ t * t := by nlinarith [mul_pos t0 t0]
        have c4 : t * t * t * t ≤ t := by nlinarith [mul_pos t0 t0, mul_pos (mul_pos t0 t0) t0]
        have c5 : 0 < a * (t * t * t) := by positivity
        exact div_nonneg (mul_nonneg (mul_nonneg ha.le (by linarith)) (by linarith)) (by positivity)
  unfold off at key ⊢
  rcases max_cases (wide a r) (1 / wide a r) with ⟨e, _⟩ | ⟨e, _⟩ <;> rw [e]
  · exact key.1
  · exact key.2

/-- Rate at which the level settles when it starts `d` away. -/
def rate (a d : ℝ) : ℝ := max (1 / 2) (1 / (1 + a * Real.sqrt (1 / (1 + d))))

theorem rate_lt {a d : ℝ} (ha : 0 < a) (hd : 0 ≤ d) : 0 < rate a d ∧ rate a d < 1 := by
  have s0 : 0 < a * Real.sqrt (1 / (1 + d)) := mul_pos ha (Real.sqrt_pos.mpr (by positivity))
  refine ⟨lt_max_of_lt_left (by norm_num), max_lt (by norm_num) ?_⟩
  rw [div_lt_one (by linarith)]; linarith

theorem wide_rate {a d r : ℝ} (ha : 0 < a) (hr : 0 < r) (h : off r ≤ d) : off (wide a r) ≤ rate a d * off r := by
  have o := off_nonneg hr
  refine (wide_closer ha hr).trans (mul_le_mul_of_nonneg_right (max_le_max_left _ ?_) o)
  have s0 : 0 < a * Real.sqrt (1 / (1 + d)) := mul_pos ha (Real.sqrt_pos.mpr (by have := o.trans h; positivity))
  refine one_div_le_one_div_of_le (by linarith) ?_
  have : Real.sqrt (1 / (1 + d)) ≤ Real.sqrt r :=
    Real.sqrt_le_sqrt ((one_div_le_one_div_of_le (by linarith) (by linarith)).trans (low_of_off hr))
  linarith [mul_le_mul_of_nonneg_left this ha.le]

/-- Levels over a rectangular weir settle at a geometric rate. -/
theorem wide_run {a : ℝ} (ha : 0 < a) {r : ℕ → ℝ} (h0 : 0 < r 0) (step : ∀ n, 0 < r n → r (n + 1) = wide a (r n)) :
    ∀ n, 0 < r n ∧ off (r n) ≤ rate a (off (r 0)) ^ n * off (r 0) := by
  have d0 := off_nonneg h0
  obtain ⟨k0, k1⟩ := rate_lt ha d0
  intro n
  induction n with
  | zero => exact ⟨h0, by rw [pow_zero, one_mul]⟩
  | succ n ih =>
    have e := step n ih.1
    refine ⟨by rw [e]; exact wide_pos ha ih.1, ?_⟩
    have le : off (r n) ≤ off (r 0) :=
      ih.2.trans (mul_le_of_le_one_left d0 (pow_le_one₀ k0.le k1.le))
    rw [e]
    calc off (wide a (r n)) ≤ rate a (off (r 0)) * off (r n) := wide_rate ha ih.1 le
      _ ≤ rate a (off (r 0)) * (rate a (off (r 0)) ^ n * off (r 0)) := mul_le_mul_of_nonneg_left ih.2 k0.le
      _ = rate a (off (r 0)) ^ (n + 1) * off (r 0) := by ring

theorem wide_tendsto {a : ℝ} (ha : 0 < a) {r : ℕ → ℝ} (h0 : 0 < r 0) (step : ∀ n, 0 < r n → r (n + 1) = wide a (r n)) :
    Tendsto r atTop (𝓝 1) := by
  obtain ⟨k0, k1⟩ := rate_lt ha (off_nonneg h0)
  have z : Tendsto (fun n => rate a (off (r 0)) ^ n * off (r 0)) atTop (𝓝 0) := by
    have := (tendsto_pow_atTop_nhds_zero_of_lt_one k0.le k1).mul_const (off (r 0))
    rwa [zero_mul] at this
  rw [tendsto_iff_dist_tendsto_zero]
  refine squeeze_zero (fun _ => dist_nonneg) (fun n => ?_) z
  rw [Real.dist_eq]
  exact (abs_le_off (wide_run ha h0 step n).1).trans (wide_run ha h0 step n).2

end

end Pipedream.Settle
