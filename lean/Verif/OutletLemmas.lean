import Verif.SettleLemmas

/-!
# The level over a submerged outlet from step to step, relative to its steady value
-/

namespace Pipedream.Settle

open Filter Topology

noncomputable section

/-- Next relative level over a submerged outlet. -/
def drain (a r : ℝ) : ℝ := (r + a) / (1 + a / Real.sqrt r)

theorem drain_pos {a r : ℝ} (ha : 0 < a) (hr : 0 < r) : 0 < drain a r := by
  unfold drain; positivity

/-- The next level is a mean of the present one and its root. -/
theorem drain_mean {a t : ℝ} (ha : 0 < a) (ht : 0 < t) : drain a (t * t) = (t / (t + a)) * (t * t) + (a / (t + a)) * t := by
  unfold drain
  rw [Real.sqrt_mul_self ht.le]
  field_simp

/-- From above it falls, but not below the steady level. -/
theorem drain_above {a r : ℝ} (ha : 0 < a) (h : 1 ≤ r) : 1 ≤ drain a r ∧ drain a r ≤ r := by
  have hr : 0 < r := by linarith
  obtain ⟨t, t0, rfl⟩ : ∃ t, 0 < t ∧ r = t * t := ⟨Real.sqrt r, Real.sqrt_pos.mpr hr, (Real.mul_self_sqrt hr.le).symm⟩
  have t1 : 1 ≤ t := by nlinarith
  rw [drain_mean ha t0]
  have D : 0 < t + a := by positivity
  constructor
  · rw [div_mul_eq_mul_div, div_mul_eq_mul_div, ← add_div, le_div_iff₀ D]
    nlinarith [mul_nonneg ha.le (show 0 ≤ t - 1 by linarith), mul_nonneg t0.le (show 0 ≤ t * t - 1 by linarith)]
  · rw [div_mul_eq_mul_div, div_mul_eq_mul_div, ← add_div, div_le_iff₀ D]
    nlinarith [mul_nonneg (mul_pos ha t0).le (show 0 ≤ t - 1 by linarith)]

/-- From below it rises, but not above the steady level. -/
theorem drain_below {a r : ℝ} (ha : 0 < a) (hr : 0 < r) (h : r ≤ 1) : r ≤ drain a r ∧ drain a r ≤ 1 := by
  obtain ⟨t, t0, rfl⟩ : ∃ t, 0 < t ∧ r = t * t := ⟨Real.sqrt r, Real.sqrt_pos.mpr hr, (Real.mul_self_sqrt hr.le).symm⟩
  have t1 : t ≤ 1 := by nlinarith
  rw [drain_mean ha t0]
  have D : 0 < t + a := by positivity
  constructor
  · rw [div_mul_eq_mul_div, div_mul_eq_mul_div, ← add_div, le_div_iff₀ D]
    nlinarith [mul_nonneg (mul_pos ha t0).le (show 0 ≤ 1 - t by linarith)]
  · rw [div_mul_eq_mul_div, div_mul_eq_mul_div, ← add_div, div_le_iff₀ D]
    nlinarith [mul_nonneg ha.le (show 0 ≤ 1 - t by linarith), mul_nonneg t0.le (show 0 ≤ 1 - t * t by linarith)]

/-- Rate at which the level settles when it starts at `r`. -/
def drainRate (a r : ℝ) : ℝ := 1 - a / 2 / (max 1 (Real.sqrt r) + a)

theorem drainRate_lt {a r : ℝ} (ha : 0 < a) : 0 < drainRate a r ∧ drainRate a r < 1 := by
  have m : 1 ≤ max 1 (Real.sqrt r) := le_max_left _ _
  have D : 0 < max 1 (Real.sqrt r) + a := by linarith
  unfold drainRate
  refine ⟨?_, by have : 0 < a / 2 / (max 1 (Real.sqrt r) + a) := by positivity
                 linarith⟩
  rw [sub_pos, div_lt_one D]; linarith

theorem drain_closer {a r s : ℝ} (ha : 0 < a) (hr : 0 < r) (hs : r ≤ max 1 s) : off (drain a r) ≤ drainRate a s * off r := by
  have up := drain_above (a := a) (r := r) ha
  have dn := drain_below (a := a) (r := r) ha hr
  have dp := drain_pos ha hr
  have o := off_nonneg hr
  obtain ⟨t, t0, rfl⟩ : ∃ t, 0 < t ∧ r = t * t := ⟨Real.sqrt r, Real.sqrt_pos.mpr hr, (Real.mul_self_sqrt hr.le).symm⟩
  have D : 0 < t + a := by positivity
  have tm : t ≤ max 1 (Real.sqrt s) := by
    have := Real.sqrt_le_sqrt hs
    rw [Real.sqrt_mul_self t0.le] at this
    refine this.trans ?_
    rcases max_cases 1 s with ⟨e, _⟩ | ⟨e, _⟩ <;> rw [e]
    · rw [Real.sqrt_one]; exact le_max_left _ _
    · exact le_max_right _ _
  have M0 : 0 < max 1 (Real.sqrt s) + a := by have := le_max_left 1 (Real.sqrt s); linarith
  have le : 1 - a / 2 / (t + a) ≤ drainRate a s := by
    unfold drainRate
    have : a / 2 / (max 1 (Real.sqrt s) + a) ≤ a / 2 / (t + a) := div_le_div_of_nonneg_left (by positivity) D (by linarith)
    linarith
  refine le_trans ?_ (mul_le_mul_of_nonneg_right le o)
  rcases le_total 1 (t * t) with h | h
  · have t1 : 1 ≤ t := by nlinarith
    rw [off_above h, off_above (up h).1, drain_mean ha t0, ← sub_nonneg]
    have g : (1 - a / 2 / (t + a)) * (t * t - 1) - (t / (t + a) * (t * t) + a / (t + a) * t - 1)
        = a * ((t - 1) * (t - 1)) / 2 / (t + a) := by
      field_simp; ring
    rw [g]; have := mul_self_nonneg (t - 1); positivity
  · have t1 : t ≤ 1 := by nlinarith
    rw [off_below hr h, off_below dp (dn h).2, drain_mean ha t0, ← sub_nonneg]
    have g : (1 - a / 2 / (t + a)) * (1 / (t * t) - 1) - (1 / (t / (t + a) * (t * t) + a / (t + a) * t) - 1)
        = a * (1 - t) * ((1 - t) * (t * t + a) + 2 * t * (1 - t)) / (2 * (t + a) * (t * t) * (t * t + a)) := by
      have : t * t + a ≠ 0 := by positivity
      have e : t / (t + a) * (t * t) + a / (t + a) * t = t * (t * t + a) / (t + a) := by field_simp
      rw [e]
      field_simp
      ring
    rw [g]
    have : 0 ≤ 1 - t := by linarith
    positivity

/-- Levels over a submerged outlet settle at a geometric rate. -/
theorem drain_run {a : ℝ} (ha : 0 < a) {r : ℕ → ℝ} (h0 : 0 < r 0) (step : ∀ n, 0 < r n → r (n + 1) = drain a (r n)) :
    ∀ n, 0 < r n ∧ r n ≤ max 1 (r 0) ∧ off (r n) ≤ drainRate a (r 0) ^ n * off (r 0) := by
  obtain ⟨k0, k1⟩ := drainRate_lt (a := a) (r := r 0) ha
  intro n
  induction n with
  | zero => exact ⟨h0, le_max_right _ _, by rw [pow_zero, one_mul]⟩
  | succ n ih =>
    obtain ⟨i0, i1, i2⟩ := ih
    rw [step n i0]
    refine ⟨drain_pos ha i0, ?_, ?_⟩
    · rcases le_total 1 (r n) with h | h
      · exact (drain_above ha h).2.trans i1
      · exact (drain_below ha i0 h).2.trans (le_max_left _ _)
    · calc off (drain a (r n)) ≤ drainRate a (r 0) * off (r n) := drain_closer ha i0 i1
        _ ≤ drainRate a (r 0) * (drainRate a (r 0) ^ n * off (r 0)) := mul_le_mul_of_nonneg_left i2 k0.le
        _ = _ := by ring

theorem drain_tendsto {a : ℝ} (ha : 0 < a) {r : ℕ → ℝ} (h0 : 0 < r 0) (step : ∀ n, 0 < r n → r (n + 1) = drain a (r n)) :
    Tendsto r atTop (𝓝 1) := by
  obtain ⟨k0, k1⟩ := drainRate_lt (a := a) (r := r 0) ha
  have z : Tendsto (fun n => drainRate a (r 0) ^ n * off (r 0)) atTop (𝓝 0) := by
    have := (tendsto_pow_atTop_nhds_zero_of_lt_one k0.le k1).mul_const (off (r 0))
    rwa [zero_mul] at this
  rw [tendsto_iff_dist_tendsto_zero]
  refine squeeze_zero (fun _ => dist_nonneg) (fun n => ?_) z
  rw [Real.dist_eq]
  exact (abs_le_off (drain_run ha h0 step n).1).trans (drain_run ha h0 step n).2.2

end

end Pipedream.Settle
