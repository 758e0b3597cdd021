import Verif.LoopModel
import Verif.DriverProps
import Mathlib.Analysis.SpecificLimits.Basic
import Mathlib.Analysis.SpecialFunctions.Pow.Continuity
import Mathlib.Analysis.Complex.ExponentialBounds

/-!
# C200: the step-size filters bring the error to the tolerance

`filter_step_size` is documented with seven sets of coefficients, which the simulation also keeps as attributes. The error
of a step of size `dt` is taken as `φ dt^k` (the law for which the parameter `k`, "order of the truncation error", is
meant). Away from the limits on the step size:

* the filters `h0100`, `h0211`, `h0312`, `h0321` give a step with error `tol` at once;
* with `h211`, `h312`, `h321` the steps tend to the one with error `tol`.

With a safety factor `s` the error is (tends to) `tol · s^(k/β)` where `β` is the sum of the first three coefficients; for
`s ≤ 1` that is at most `tol`. Whatever the coefficients, no other step size can persist.
-/

namespace Pipedream.Driver

open _root_.Filter Topology

noncomputable section

/-- `self.h0100` — simulation.py 132 (elementary). -/
def h0100 : Coeffs := ⟨1, 0, 0, 0, 0⟩
/-- `self.h0211` — simulation.py 133; also the default of `filter_step_size`, 382. -/
def h0211 : Coeffs := ⟨1 / 2, 1 / 2, 0, 1 / 2, 0⟩
/-- `self.h211` — simulation.py 134. -/
def h211 : Coeffs := ⟨1 / 6, 1 / 6, 0, 0, 0⟩
/-- `self.h0312` — simulation.py 135. -/
def h0312 : Coeffs := ⟨1 / 4, 1 / 2, 1 / 4, 3 / 4, 1 / 4⟩
/-- `self.h312` — simulation.py 136. -/
def h312 : Coeffs := ⟨1 / 18, 1 / 9, 1 / 18, 0, 0⟩
/-- `self.h0321` — simulation.py 137. -/
def h0321 : Coeffs := ⟨5 / 4, 1 / 2, -3 / 4, -1 / 4, -3 / 4⟩
/-- `self.h321` — simulation.py 138. -/
def h321 : Coeffs := ⟨1 / 3, 1 / 18, -5 / 18, -5 / 6, -1 / 6⟩

/-- Sum of the coefficients of the errors. -/
def Coeffs.beta (q : Coeffs) : ℝ := q.b1 + q.b2 + q.b3

/-- A sequence of steps chosen by the filter, each with the error `φ dt^k`, none of them at a limit. -/
structure Chosen (f : Filter) (φ : ℝ) (dt : ℕ → ℝ) : Prop where
  pos : ∀ n, 0 < dt n
  next : ∀ n, filterStepSize f.tol [dt (n + 2), dt (n + 1), dt n]
    [.val (φ * dt (n + 2) ^ f.k), .val (φ * dt (n + 1) ^ f.k), .val (φ * dt n ^ f.k)] f.q f.minDt f.maxDt f.minRel
    f.maxRel f.safety f.k = .ok (dt (n + 3))
  above : ∀ n, f.minDt < dt (n + 3)
  below : ∀ n, dt (n + 3) < f.maxDt
  less : ∀ n, f.safety * f.minRel * dt (n + 2) < dt (n + 3)
  more : ∀ n, dt (n + 3) < f.safety * f.maxRel * dt (n + 2)

/-- The step size with error `tol · s^(k/β)`. -/
def target (f : Filter) (φ : ℝ) : ℝ := (f.tol / φ) ^ (1 / f.k) * f.safety ^ (1 / f.q.beta)

theorem target_pos {f : Filter} {φ : ℝ} (ht : 0 < f.tol) (hφ : 0 < φ) (hs : 0 < f.safety) : 0 < target f φ :=
  mul_pos (Real.rpow_pos_of_pos (div_pos ht hφ) _) (Real.rpow_pos_of_pos hs _)

/-- Error of the target. -/
theorem target_error {f : Filter} {φ : ℝ} (ht : 0 < f.tol) (hφ : 0 < φ) (hs : 0 < f.safety) (hk : f.k ≠ 0) :
    φ * target f φ ^ f.k = f.tol * f.safety ^ (f.k / f.q.beta) := by
  unfold target
  rw [Real.mul_rpow (Real.rpow_pos_of_pos (div_pos ht hφ) _).le (Real.rpow_pos_of_pos hs _).le,
    ← Real.rpow_mul (div_pos ht hφ).le, ← Real.rpow_mul hs.le, one_div_mul_cancel hk, Real.rpow_one,
    one_div_mul_eq_div]
  field_simp

theorem log_target {f : Filter} {φ : ℝ} (ht : 0 < f.tol) (hφ : 0 < φ) (hs : 0 < f.safety) :
    Real.log (target f φ) = (Real.log f.tol - Real.log φ) / f.k + Real.log f.safety / f.q.beta := by
  unfold target
  rw [Real.log_mul (Real.rpow_pos_of_pos (div_pos ht hφ) _).ne' (Real.rpow_pos_of_pos hs _).ne',
    Real.log_rpow (div_pos ht hφ), Real.log_rpow hs, Real.log_div ht.ne' hφ.ne']
  ring

/-- Distance (of logarithms) of a step from the target. -/
def off (f : Filter) (φ : ℝ) (dt : ℕ → ℝ) (n : ℕ) : ℝ := Real.log (dt n) - Real.log (target f φ)

/-- A limit that is not reached does not act. -/
theorem unlimited {x a b r : ℝ} (h : min (max x a) b = r) (ha : a < r) (hb : r < b) : x = r := by
  rcases le_total (max x a) b with h1 | h1
  · rw [min_eq_left h1] at h
    rcases le_total a x with h2 | h2
    · rwa [max_eq_left h2] at h
    · rw [max_eq_right h2] at h; linarith
  · rw [min_eq_right h1] at h; linarith

variable {f : Filter} {φ : ℝ} {dt : ℕ → ℝ}

/-- **C200, the loop.** The distances from the target follow a linear recurrence in the coefficients. -/
theorem C200_loop (ht : 0 < f.tol) (hφ : 0 < φ) (hs : 0 < f.safety) (hk : f.k ≠ 0) (hb : f.q.beta ≠ 0)
    (c : Chosen f φ dt) (n : ℕ) :
    off f φ dt (n + 3) = (1 - f.q.b1 - f.q.a2) * off f φ dt (n + 2) +
      (f.q.a2 - f.q.b2 - f.q.a3) * off f φ dt (n + 1) + (f.q.a3 - f.q.b3) * off f φ dt n := by
  have p0 := c.pos (n + 2)
  have p1 := c.pos (n + 1)
  have p2 := c.pos n
  have e : ∀ m, 0 < φ * dt m ^ f.k := fun m => mul_pos hφ (Real.rpow_pos_of_pos (c.pos m) _)
  have h := c.next n
  simp only [filterStepSize, Except.ok.injEq] at h
  set F := (f.tol / (φ * dt (n + 2) ^ f.k)) ^ (f.q.b1 / f.k) * (f.tol / (φ * dt (n + 1) ^ f.k)) ^ (f.q.b2 / f.k)
    * (f.tol / (φ * dt n ^ f.k)) ^ (f.q.b3 / f.k) * (dt (n + 2) / dt (n + 1)) ^ (-f.q.a2)
    * (dt (n + 1) / dt n) ^ (-f.q.a3) with hF
  have h1 := unlimited h (c.above n) (c.below n)
  have sp : 0 < f.safety * dt (n + 2) := mul_pos hs p0
  have h2 : min (max F f.minRel) f.maxRel = dt (n + 3) / (f.safety * dt (n + 2)) := by
    rw [eq_div_iff sp.ne', ← h1]; ring
  have h3 : F = dt (n + 3) / (f.safety * dt (n + 2)) := by
    refine unlimited h2 ?_ ?_
    · rw [lt_div_iff₀ sp]; have := c.less n; linarith [mul_comm f.minRel (f.safety * dt (n + 2)), mul_assoc f.safety f.minRel (dt (n+2)), mul_left_comm f.minRel f.safety (dt (n+2))]
    · rw [div_lt_iff₀ sp]; have := c.more n; linarith [mul_comm f.maxRel (f.safety * dt (n + 2)), mul_assoc f.safety f.maxRel (dt (n+2)), mul_left_comm f.maxRel f.safety (dt (n+2))]
  have q0 : 0 < (f.tol / (φ * dt (n + 2) ^ f.k)) ^ (f.q.b1 / f.k) := Real.rpow_pos_of_pos (div_pos ht (e _)) _
  have q1 : 0 < (f.tol / (φ * dt (n + 1) ^ f.k)) ^ (f.q.b2 / f.k) := Real.rpow_pos_of_pos (div_pos ht (e _)) _
  have q2 : 0 < (f.tol / (φ * dt n ^ f.k)) ^ (f.q.b3 / f.k) := Real.rpow_pos_of_pos (div_pos ht (e _)) _
  have q3 : 0 < (dt (n + 2) / dt (n + 1)) ^ (-f.q.a2) := Real.rpow_pos_of_pos (div_pos p0 p1) _
  have q4 : 0 < (dt (n + 1) / dt n) ^ (-f.q.a3) := Real.rpow_pos_of_pos (div_pos p1 p2) _
  have le : ∀ m, Real.log (f.tol / (φ * dt m ^ f.k)) = Real.log f.tol - Real.log φ - f.k * Real.log (dt m) := fun m => by
    rw [Real.log_div ht.ne' (e m).ne', Real.log_mul hφ.ne' (Real.rpow_pos_of_pos (c.pos m) _).ne',
      Real.log_rpow (c.pos m)]
    ring
  have lF := congrArg Real.log h3
  rw [hF, Real.log_mul (by positivity) q4.ne', Real.log_mul (by positivity) q3.ne', Real.log_mul (by positivity) q2.ne',
    Real.log_mul q0.ne' q1.ne', Real.log_rpow (div_pos ht (e _)), Real.log_rpow (div_pos ht (e _)),
    Real.log_rpow (div_pos ht (e _)), Real.log_rpow (div_pos p0 p1), Real.log_rpow (div_pos p1 p2),
    le, le, le, Real.log_div p0.ne' p1.ne', Real.log_div p1.ne' p2.ne', Real.log_div (c.pos _).ne' sp.ne',
    Real.log_mul hs.ne' p0.ne'] at lF
  unfold off
  rw [log_target ht hφ hs]
  generalize Real.log (dt (n + 3)) = l3 at *
  generalize Real.log (dt (n + 2)) = l2 at *
  generalize Real.log (dt (n + 1)) = l1 at *
  generalize Real.log (dt n) = l0 at *
  generalize Real.log f.safety = ls at *
  generalize Real.log f.tol = lt at *
  generalize Real.log φ = lp at *
  have hB : f.q.beta = f.q.b1 + f.q.b2 + f.q.b3 := rfl
  have e3 : l3 = (f.q.b1 / f.k * (lt - lp - f.k * l2) + f.q.b2 / f.k * (lt - lp - f.k * l1)
      + f.q.b3 / f.k * (lt - lp - f.k * l0) + -f.q.a2 * (l2 - l1) + -f.q.a3 * (l1 - l0)) + (ls + l2) := by linarith
  rw [e3]
  have u : (f.q.b1 + f.q.b2 + f.q.b3) * (ls / f.q.beta) = ls := by rw [← hB]; field_simp
  have v : ∀ b x : ℝ, b / f.k * (lt - lp - f.k * x) = b * ((lt - lp) / f.k) - b * x := fun b x => by field_simp
  rw [v, v, v]
  linear_combination (-1 : ℝ) * u

theorem off_zero (ht : 0 < f.tol) (hφ : 0 < φ) (hs : 0 < f.safety) (c : Chosen f φ dt) {n : ℕ}
    (h : off f φ dt n = 0) : dt n = target f φ := by
  have := sub_eq_zero.1 h
  exact Real.log_injOn_pos (c.pos n) (target_pos ht hφ hs) this

/-- **C200, at once.** With the filters `h0100`, `h0211`, `h0312`, `h0321` every step the filter chooses is the target,
with error `tol · s^k`. -/
theorem C200_at_once (hq : f.q = h0100 ∨ f.q = h0211 ∨ f.q = h0312 ∨ f.q = h0321) (ht : 0 < f.tol) (hφ : 0 < φ)
    (hs : 0 < f.safety) (hk : f.k ≠ 0) (c : Chosen f φ dt) (n : ℕ) :
    dt (n + 3) = target f φ ∧ φ * dt (n + 3) ^ f.k = f.tol * f.safety ^ f.k := by
  have hb : f.q.beta = 1 := by
    rcases hq with h | h | h | h <;> rw [h] <;> norm_num [Coeffs.beta, h0100, h0211, h0312, h0321]
  have l := C200_loop ht hφ hs hk (by rw [hb]; norm_num) c n
  have z : off f φ dt (n + 3) = 0 := by
    rw [l]
    rcases hq with h | h | h | h <;> rw [h] <;> norm_num [h0100, h0211, h0312, h0321]
  have d := off_zero ht hφ hs c z
  refine ⟨d, ?_⟩
  rw [d, target_error ht hφ hs hk, hb, div_one]

/-- `z' = r z + w` with `w → 0`, `|r| < 1`. -/
theorem driven {z w : ℕ → ℝ} {r : ℝ} (hr : |r| < 1) (h : ∀ n, z (n + 1) = r * z n + w n)
    (hw : Tendsto w atTop (𝓝 0)) : Tendsto z atTop (𝓝 0) := by
  have h1 : 0 < 1 - |r| := by linarith
  rw [Metric.tendsto_atTop] at hw ⊢
  intro ε hε
  obtain ⟨N, hN⟩ := hw (ε * (1 - |r|) / 2) (by positivity)
  have bd : ∀ m, |z (N + m)| ≤ |r| ^ m * |z N| + ε / 2 := by
    intro m
    induction m with
    | zero => simp; linarith
    | succ m ih =>
      have hw' := hN (N + m) (by omega)
      rw [Real.dist_eq, sub_zero] at hw'
      rw [← Nat.add_assoc, h]
      calc |r * z (N + m) + w (N + m)| ≤ |r| * |z (N + m)| + |w (N + m)| := by
            rw [← abs_mul]; exact abs_add_le _ _
        _ ≤ |r| * (|r| ^ m * |z N| + ε / 2) + ε * (1 - |r|) / 2 := by
            have := mul_le_mul_of_nonneg_left ih (abs_nonneg r)
            linarith
        _ = |r| ^ (m + 1) * |z N| + ε / 2 := by ring
  have t : Tendsto (fun m => |r| ^ m * |z N|) atTop (𝓝 0) := by
    simpa using (tendsto_pow_atTop_nhds_zero_of_lt_one (abs_nonneg r) hr).mul_const (|z N|)
  rw [Metric.tendsto_atTop] at t
  obtain ⟨M, hM⟩ := t (ε / 2) (by positivity)
  refine ⟨N + M, fun n hn => ?_⟩
  obtain ⟨m, rfl⟩ : ∃ m, n = N + m := ⟨n - N, by omega⟩
  have a := bd m
  have b := hM m (by omega)
  rw [Real.dist_eq, sub_zero, abs_of_nonneg (by positivity)] at b
  rw [Real.dist_eq, sub_zero]
  linarith

theorem shift_down {z : ℕ → ℝ} {a : ℝ} (h : Tendsto (fun n => z (n + 1)) atTop (𝓝 a)) : Tendsto z atTop (𝓝 a) :=
  (tendsto_add_atTop_iff_nat 1).1 h

/-- `w'' = a w' + b w` with `|a| + |b| < 1`. -/
theorem two_back {w : ℕ → ℝ} {a b : ℝ} (hab : |a| + |b| < 1) (h : ∀ n, w (n + 2) = a * w (n + 1) + b * w n) :
    Tendsto w atTop (𝓝 0) := by
  set ρ := |a| + |b| with hρ
  have ρ0 : 0 ≤ ρ := by positivity
  set B := max |w 0| |w 1| with hB
  have B0 : 0 ≤ B := (abs_nonneg _).trans (le_max_left _ _)
  have bd : ∀ n, |w (2 * n)| ≤ ρ ^ n * B ∧ |w (2 * n + 1)| ≤ ρ ^ n * B := by
    intro n
    induction n with
    | zero => simp [hB]
    | succ n ih =>
      obtain ⟨i0, i1⟩ := ih
      have s : ∀ m, |w m| ≤ ρ ^ n * B → |w (m + 1)| ≤ ρ ^ n * B → |w (m + 2)| ≤ ρ ^ (n + 1) * B := by
        intro m j0 j1
        rw [h m]
        calc |a * w (m + 1) + b * w m| ≤ |a| * |w (m + 1)| + |b| * |w m| := by
              rw [← abs_mul, ← abs_mul]; exact abs_add_le _ _
          _ ≤ |a| * (ρ ^ n * B) + |b| * (ρ ^ n * B) :=
              add_le_add (mul_le_mul_of_nonneg_left j1 (abs_nonneg _)) (mul_le_mul_of_nonneg_left j0 (abs_nonneg _))
          _ = ρ ^ (n + 1) * B := by rw [hρ]; ring
      have k0 := s (2 * n) i0 i1
      have up : ρ ^ (n + 1) * B ≤ ρ ^ n * B := by
        rw [pow_succ]
        have : ρ ^ n * ρ ≤ ρ ^ n := mul_le_of_le_one_right (by positivity) hab.le
        exact mul_le_mul_of_nonneg_right this B0
      have k1 := s (2 * n + 1) i1 (k0.trans up)
      exact ⟨by rwa [show 2 * (n + 1) = 2 * n + 2 by ring], by rwa [show 2 * (n + 1) + 1 = 2 * n + 1 + 2 by ring]⟩
  have all : ∀ n, |w n| ≤ ρ ^ (n / 2) * B := by
    intro n
    rcases Nat.even_or_odd' n with ⟨m, rfl | rfl⟩
    · rw [show 2 * m / 2 = m by omega]; exact (bd m).1
    · rw [show (2 * m + 1) / 2 = m by omega]; exact (bd m).2
  have half : Tendsto (fun n : ℕ => n / 2) atTop atTop :=
    tendsto_atTop_atTop.2 fun b => ⟨2 * b, fun n hn => by omega⟩
  have t : Tendsto (fun n : ℕ => ρ ^ (n / 2) * B) atTop (𝓝 0) := by
    simpa using ((tendsto_pow_atTop_nhds_zero_of_lt_one ρ0 hab).comp half).mul_const B
  exact squeeze_zero_norm all t

/-- **C200, in the limit.** With the filters `h211`, `h312`, `h321` the chosen steps tend to the target. -/
theorem C200_limit (hq : f.q = h211 ∨ f.q = h312 ∨ f.q = h321) (ht : 0 < f.tol) (hφ : 0 < φ) (hs : 0 < f.safety)
    (hk : f.k ≠ 0) (c : Chosen f φ dt) : Tendsto dt atTop (𝓝 (target f φ)) := by
  have hb : f.q.beta ≠ 0 := by
    rcases hq with h | h | h <;> rw [h] <;> norm_num [Coeffs.beta, h211, h312, h321]
  have l := C200_loop ht hφ hs hk hb c
  have z : Tendsto (off f φ dt) atTop (𝓝 0) := by
    generalize off f φ dt = z at l
    rcases hq with h | h | h
    · have l' : ∀ n, z (n + 3) = 5 / 6 * z (n + 2) - 1 / 6 * z (n + 1) := fun n => by
        rw [l n, h]; norm_num [h211]; ring
      refine shift_down ?_
      have w : Tendsto (fun n => z (n + 2) - 1 / 2 * z (n + 1)) atTop (𝓝 0) :=
        driven (r := 1 / 3) (w := fun _ => 0) (by norm_num [abs_of_pos])
          (fun n => by rw [l' n]; ring) tendsto_const_nhds
      exact driven (r := 1 / 2) (by norm_num [abs_of_pos]) (fun n => by ring) w
    · have l' : ∀ n, z (n + 3) = 17 / 18 * z (n + 2) - 1 / 9 * z (n + 1) - 1 / 18 * z n := fun n => by
        rw [l n, h]; norm_num [h312]; ring
      have w : Tendsto (fun n => z (n + 1) - 1 / 2 * z n) atTop (𝓝 0) :=
        two_back (a := 4 / 9) (b := 1 / 9) (by norm_num [abs_of_pos])
          (fun n => by rw [l' n]; ring)
      exact driven (r := 1 / 2) (by norm_num [abs_of_pos]) (fun n => by ring) w
    · have l' : ∀ n, z (n + 3) = 3 / 2 * z (n + 2) - 13 / 18 * z (n + 1) + 1 / 9 * z n := fun n => by
        rw [l n, h]; norm_num [h321]; ring
      have v : Tendsto (fun n => (z (n + 2) - 1 / 3 * z (n + 1)) - 1 / 2 * (z (n + 1) - 1 / 3 * z n)) atTop (𝓝 0) :=
        driven (r := 2 / 3) (w := fun _ => 0) (by norm_num [abs_of_pos])
          (fun n => by rw [l' n]; ring) tendsto_const_nhds
      have w : Tendsto (fun n => z (n + 1) - 1 / 3 * z n) atTop (𝓝 0) :=
        driven (r := 1 / 2) (by norm_num [abs_of_pos]) (fun n => by ring) v
      exact driven (r := 1 / 3) (by norm_num [abs_of_pos]) (fun n => by ring) w
  have z' : Tendsto (fun n => Real.log (dt n)) atTop (𝓝 (Real.log (target f φ))) := by
    have := z.add_const (Real.log (target f φ))
    simpa [off] using this
  have e := (Real.continuous_exp.tendsto _).comp z'
  rw [Real.exp_log (target_pos ht hφ hs)] at e
  exact e.congr fun n => Real.exp_log (c.pos n)

/-- **C200, error.** So the error tends to `tol · s^(k/β)`: with `h211` that is `tol · s^(3k)`, with `h312`
`tol · s^(9k/2)`, with `h321` `tol · s^(9k)`. -/
theorem C200_error (hq : f.q = h211 ∨ f.q = h312 ∨ f.q = h321) (ht : 0 < f.tol) (hφ : 0 < φ) (hs : 0 < f.safety)
    (hk : f.k ≠ 0) (c : Chosen f φ dt) :
    Tendsto (fun n => φ * dt n ^ f.k) atTop (𝓝 (f.tol * f.safety ^ (f.k / f.q.beta))) := by
  rw [← target_error ht hφ hs hk]
  exact ((Real.continuousAt_rpow_const _ f.k (.inl (target_pos ht hφ hs).ne')).tendsto.comp
    (C200_limit hq ht hφ hs hk c)).const_mul φ

/-- With a safety factor of at most one the error aimed at is at most the tolerance. -/
theorem C200_safe (ht : 0 < f.tol) (hs : 0 < f.safety) (hs1 : f.safety ≤ 1) (hk : 0 < f.k) (hb : 0 < f.q.beta) :
    f.tol * f.safety ^ (f.k / f.q.beta) ≤ f.tol :=
  mul_le_of_le_one_right ht.le (Real.rpow_le_one hs.le hs1 (by positivity))

/-- **C200, nothing else persists.** Whatever the coefficients (with `β ≠ 0`), a constant step chosen by the filter away
from the limits is the target. -/
theorem C200_constant {d : ℝ} (ht : 0 < f.tol) (hφ : 0 < φ) (hs : 0 < f.safety) (hk : f.k ≠ 0) (hb : f.q.beta ≠ 0)
    (c : Chosen f φ fun _ => d) : d = target f φ := by
  have l := C200_loop ht hφ hs hk hb c 0
  have o : ∀ n, off f φ (fun _ => d) n = off f φ (fun _ => d) 0 := fun _ => rfl
  rw [o 3, o 2, o 1] at l
  have hB : f.q.beta = f.q.b1 + f.q.b2 + f.q.b3 := rfl
  have : f.q.beta * off f φ (fun _ => d) 0 = 0 := by rw [hB]; linear_combination l
  exact off_zero (n := 0) ht hφ hs c ((mul_eq_zero.1 this).resolve_left hb)

/-- **C200, at the upper limit.** While the errors of the last three steps, all `max_dt` long, are equal and not above
the tolerance, the filter keeps `max_dt`. -/
theorem C200_longest {e : ℝ} (he : 0 < e) (het : e ≤ f.tol) (hk : 0 < f.k) (hb : 0 ≤ f.q.beta) (hd : 0 < f.maxDt)
    (hm : 1 ≤ f.maxRel) (hs : 1 ≤ f.safety) :
    filterStepSize f.tol [f.maxDt, f.maxDt, f.maxDt] [.val e, .val e, .val e] f.q f.minDt f.maxDt f.minRel f.maxRel
      f.safety f.k = .ok f.maxDt := by
  have h1 : 1 ≤ f.tol / e := (one_le_div he).2 het
  have p : 0 < f.tol / e := by linarith
  simp only [filterStepSize, Except.ok.injEq, div_self hd.ne', Real.one_rpow, mul_one]
  rw [← Real.rpow_add p, ← Real.rpow_add p]
  have hF : 1 ≤ (f.tol / e) ^ (f.q.b1 / f.k + f.q.b2 / f.k + f.q.b3 / f.k) := by
    refine Real.one_le_rpow h1 ?_
    have : f.q.b1 / f.k + f.q.b2 / f.k + f.q.b3 / f.k = f.q.beta / f.k := by unfold Coeffs.beta; ring
    rw [this]; positivity
  have h2 : 1 ≤ min (max ((f.tol / e) ^ (f.q.b1 / f.k + f.q.b2 / f.k + f.q.b3 / f.k)) f.minRel) f.maxRel :=
    le_min (le_max_of_le_left hF) hm
  have h3 : f.maxDt ≤ f.safety * min (max ((f.tol / e) ^ (f.q.b1 / f.k + f.q.b2 / f.k + f.q.b3 / f.k)) f.minRel) f.maxRel
      * f.maxDt := le_mul_of_one_le_left hd.le (by nlinarith)
  exact min_eq_right (h3.trans (le_max_left _ _))

/-- The settings of an adaptive run with the filter `q` and limits 1/2 s and 200 s (as by default a
relative change between `10⁻¹⁰` and `10¹⁰`). -/
def exControl (q : Coeffs) : Filter := ⟨1, q, 1 / 2, 200, 1 / 10 ^ 10, 10 ^ 10, 1, 2⟩

/-- A run with `h211`: error `dt²`, steps `e^(1/2^n)` s, which tend to 1 s. -/
theorem exChosen : Chosen (exControl h211) 1 fun n => Real.exp ((1 / 2) ^ n) := by
  have le1 : ∀ n, ((1 : ℝ) / 2) ^ n ≤ 1 := fun n => pow_le_one₀ (by norm_num) (by norm_num)
  have ge0 : ∀ n, (0 : ℝ) < (1 / 2) ^ n := fun n => by positivity
  have hi : ∀ n, Real.exp ((1 / 2) ^ n) < 3 := fun n =>
    (Real.exp_le_exp.2 (le1 n)).trans_lt (Real.exp_one_lt_d9.trans (by norm_num))
  have lo : ∀ n, 1 < Real.exp ((1 / 2) ^ n) := fun n => Real.one_lt_exp_iff.2 (ge0 n)
  refine ⟨fun n => Real.exp_pos _, fun n => ?_, fun n => ?_, fun n => ?_, fun n => ?_, fun n => ?_⟩
  · have fac : ∀ x : ℝ, (1 / (Real.exp x ^ (2 : ℝ))) ^ ((1 : ℝ) / 6 / 2) = Real.exp (-x / 6) := fun x => by
      rw [one_div, ← Real.exp_mul, ← Real.exp_neg, ← Real.exp_mul]; congr 1; ring
    have F : Real.exp (-(1 / 2) ^ (n + 2) / 6) * Real.exp (-(1 / 2) ^ (n + 1) / 6) * Real.exp ((1 / 2) ^ (n + 2))
        = Real.exp ((1 / 2) ^ (n + 3)) := by
      rw [← Real.exp_add, ← Real.exp_add]; congr 1; ring
    have G : Real.exp (-(1 / 2) ^ (n + 2) / 6) * Real.exp (-(1 / 2) ^ (n + 1) / 6)
        = Real.exp ((1 / 2) ^ (n + 3)) / Real.exp ((1 / 2) ^ (n + 2)) := by
      rw [eq_div_iff (Real.exp_pos _).ne']; exact F
    have z : ∀ x : ℝ, x ^ ((0 : ℝ) / 2) = 1 := fun x => by simp
    simp only [filterStepSize, exControl, h211, fac, Except.ok.injEq, z, mul_one, neg_zero, Real.rpow_zero, one_mul]
    have g1 : (1 : ℝ) / 10 ^ 10 ≤ Real.exp (-(1 / 2) ^ (n + 2) / 6) * Real.exp (-(1 / 2) ^ (n + 1) / 6) := by
      rw [G, le_div_iff₀ (Real.exp_pos _)]
      have := hi (n + 2); have := lo (n + 3); linarith
    have g2 : Real.exp (-(1 / 2) ^ (n + 2) / 6) * Real.exp (-(1 / 2) ^ (n + 1) / 6) ≤ 10 ^ 10 := by
      rw [G, div_le_iff₀ (Real.exp_pos _)]
      have := hi (n + 3); have := lo (n + 2); linarith
    rw [max_eq_left g1, min_eq_left g2, F, max_eq_left (by have := lo (n + 3); linarith),
      min_eq_left (by have := hi (n + 3); linarith)]
  · have := lo (n + 3); simp only [exControl]; linarith
  · have := hi (n + 3); simp only [exControl]; linarith
  · have := lo (n + 3); have := hi (n + 2); simp only [exControl]; linarith
  · have := hi (n + 3); have := lo (n + 2); simp only [exControl]; linarith

example : Tendsto (fun n : ℕ => 1 * Real.exp ((1 / 2) ^ n) ^ (exControl h211).k) atTop
    (𝓝 ((exControl h211).tol * (exControl h211).safety ^ ((exControl h211).k / (exControl h211).q.beta))) :=
  C200_error (.inl rfl) (by norm_num [exControl]) one_pos (by norm_num [exControl]) (by norm_num [exControl]) exChosen

end

end Pipedream.Driver
