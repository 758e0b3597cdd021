import Verif.EnergyLineProps
import Mathlib.Analysis.Complex.ExponentialBounds

/-!
# C176, C177: friction formulas

`friction_method` selects Manning, Hazen–Williams or Darcy–Weisbach friction (superlink.py 451–460, nsuperlink.py
2034–2057).
-/

namespace Pipedream.Step

open Pipedream.Sweep Pipedream.Link Pipedream.Superlink Pipedream.Control Pipedream.Network

variable {m : Model} {geo : Geo} {inp : Inputs} {s : Hyd} {k j : ℕ}

noncomputable section

/-! ### Specification -/

/-- Slope of the water surface along link `j` of superlink `k`. -/
def surfaceSlope (m : Model) (s : Hyd) (k j : ℕ) : ℝ := surfaceFall m s k j / m.dx (m.ix.i_1k k + j)

/-- Velocity in link `j` of superlink `k`. -/
def velocity (m : Model) (geo : Geo) (s : Hyd) (k j : ℕ) : ℝ := s.Q (m.ix.i_1k k + j) / geo.A (m.ix.i_1k k + j)

/-- The formulas, for a velocity `V ≥ 0` in a section of hydraulic radius `R` at slope `S`. -/
def Manning (n R S V : ℝ) : Prop := V = R ^ (2 / 3 : ℝ) * Real.sqrt S / n

/-- Hazen and Williams: `V = 0.849 C R^0.63 S^0.54`, with the exponent 1/1.85 for 0.54 and the factor as the code has
it, `1.354^(-1/1.85)`. -/
def HazenWilliams (C R S V : ℝ) : Prop := S = 1.354 * (V / (C * R ^ (0.63 : ℝ))) ^ (1.85 : ℝ)

/-- Darcy and Weisbach, in a pipe of diameter `4 R` with friction factor `f`. -/
def DarcyWeisbach (g f R S V : ℝ) : Prop := S = f * V ^ 2 / (2 * g * (4 * R))

/-- Friction factor of Swamee and Jain: roughness height `e`, kinematic viscosity 1.0034e-6. -/
def swameeJain (e R V : ℝ) : ℝ :=
  0.25 / Real.logb 10 (e / (3.7 * (4 * R)) + 5.74 / (V * (4 * R) / 0.0000010034) ^ (0.9 : ℝ)) ^ 2

/-! ### C176 -/

theorem slope_eq (ps : PhysicalStep m geo inp) (c : m.Consistent) (sd : Steady m geo inp s) (hk : k < m.ix.NK)
    (h0 : ∀ j, j ≤ m.ix.nk k → inp.Q_0Ik (m.ix.I_1k k + j) = 0) (hj : j < m.ix.nk k)
    (hc : m.ctrl (m.ix.i_1k k + j) = false) :
    surfaceSlope m s k j = frictionLaw m.g (m.method (m.ix.i_1k k + j)) (s.Q (m.ix.i_1k k + j))
      (m.dx (m.ix.i_1k k + j)) (geo.A (m.ix.i_1k k + j)) (geo.R (m.ix.i_1k k + j)) (m.n (m.ix.i_1k k + j))
      * velocity m geo s k j / (m.g * m.dx (m.ix.i_1k k + j)) := by
  rw [surfaceSlope, C172_surface ps c sd hk h0 hj, headLoss, velocity]
  simp only [hc, Bool.false_eq_true, if_false, add_zero]
  have lt := c.inN k hk
  have hA := ps.A_pos (m.ix.i_1k k + j) (by omega)
  have hx := ps.dx_pos (m.ix.i_1k k + j) (by omega)
  have hg := ps.g_pos
  field_simp

/-- **C176 (Manning).** In steady flow without lateral inflow the velocity of every link without structure is that of
Manning's formula for the slope of its water surface. -/
theorem C176_manning (ps : PhysicalStep m geo inp) (c : m.Consistent) (sd : Steady m geo inp s) (hk : k < m.ix.NK)
    (h0 : ∀ j, j ≤ m.ix.nk k → inp.Q_0Ik (m.ix.I_1k k + j) = 0) (hj : j < m.ix.nk k)
    (hc : m.ctrl (m.ix.i_1k k + j) = false) (hm : m.method (m.ix.i_1k k + j) = 0)
    (hQ : 0 ≤ s.Q (m.ix.i_1k k + j)) :
    Manning (m.n (m.ix.i_1k k + j)) (geo.R (m.ix.i_1k k + j)) (surfaceSlope m s k j) (velocity m geo s k j) := by
  have lt := c.inN k hk
  have hA := ps.A_pos (m.ix.i_1k k + j) (by omega)
  have hx := ps.dx_pos (m.ix.i_1k k + j) (by omega)
  have hR := ps.R_pos (m.ix.i_1k k + j) (by omega)
  have hn := ps.n_pos (m.ix.i_1k k + j) (by omega)
  have hg := ps.g_pos
  rw [Manning, slope_eq ps c sd hk h0 hj hc, hm, frictionLaw, if_pos rfl, velocity, abs_of_nonneg hQ]
  generalize m.ix.i_1k k + j = i at *
  have hr := Real.rpow_pos_of_pos hR (2 / 3)
  have e : geo.R i ^ (4 / 3 : ℝ) = (geo.R i ^ (2 / 3 : ℝ)) ^ 2 := by
    rw [← Real.rpow_natCast, ← Real.rpow_mul hR.le]; norm_num
  rw [e]
  have e2 : m.g * m.n i ^ 2 * s.Q i * m.dx i / (geo.A i * (geo.R i ^ (2 / 3 : ℝ)) ^ 2) * (s.Q i / geo.A i)
      / (m.g * m.dx i) = (m.n i * (s.Q i / geo.A i) / geo.R i ^ (2 / 3 : ℝ)) ^ 2 := by
    field_simp
  rw [e2, Real.sqrt_sq (by positivity)]
  field_simp

/-- **C176 (Hazen–Williams).** -/
theorem C176_hazen_williams (ps : PhysicalStep m geo inp) (c : m.Consistent) (sd : Steady m geo inp s)
    (hk : k < m.ix.NK) (h0 : ∀ j, j ≤ m.ix.nk k → inp.Q_0Ik (m.ix.I_1k k + j) = 0) (hj : j < m.ix.nk k)
    (hc : m.ctrl (m.ix.i_1k k + j) = false) (hm : m.method (m.ix.i_1k k + j) = 1)
    (hQ : 0 ≤ s.Q (m.ix.i_1k k + j)) :
    HazenWilliams (m.n (m.ix.i_1k k + j)) (geo.R (m.ix.i_1k k + j)) (surfaceSlope m s k j)
      (velocity m geo s k j) := by
  have lt := c.inN k hk
  have hA := ps.A_pos (m.ix.i_1k k + j) (by omega)
  have hx := ps.dx_pos (m.ix.i_1k k + j) (by omega)
  have hR := ps.R_pos (m.ix.i_1k k + j) (by omega)
  have hn := ps.n_pos (m.ix.i_1k k + j) (by omega)
  have hg := ps.g_pos
  rw [HazenWilliams, slope_eq ps c sd hk h0 hj hc, hm, frictionLaw, if_neg (by decide), if_pos rfl, velocity,
    abs_of_nonneg hQ]
  generalize m.ix.i_1k k + j = i at *
  have hr : geo.R i ^ (1.1655 : ℝ) = (geo.R i ^ (0.63 : ℝ)) ^ (1.85 : ℝ) := by
    rw [← Real.rpow_mul hR.le]; norm_num
  have hv : (s.Q i / geo.A i) ^ (1.85 : ℝ) = s.Q i ^ (0.85 : ℝ) / geo.A i ^ (0.85 : ℝ) * (s.Q i / geo.A i) := by
    rw [← Real.div_rpow hQ hA.le]
    rcases hQ.eq_or_lt with h | h
    · rw [← h, zero_div, Real.zero_rpow (by norm_num), mul_zero]
    · have : (1.85 : ℝ) = 0.85 + 1 := by norm_num
      rw [this, Real.rpow_add (by positivity), Real.rpow_one]
  have p1 := Real.rpow_pos_of_pos hR 0.63
  have p2 := Real.rpow_pos_of_pos p1 1.85
  have p3 := Real.rpow_pos_of_pos hn 1.85
  have p4 := Real.rpow_pos_of_pos hA 0.85
  rw [Real.div_rpow (by positivity) (by positivity), Real.mul_rpow hn.le p1.le, hr, hv]
  field_simp

/-- **C176 (Darcy–Weisbach).** The loss is that of the formula, with the friction factor of Swamee and Jain, if and only
if nothing flows or `8 · 0.01274 · g = 1`: the constant stands for `1/(8 g)` at the standard gravity only. -/
theorem C176_darcy_weisbach_iff (ps : PhysicalStep m geo inp) (c : m.Consistent) (sd : Steady m geo inp s)
    (hk : k < m.ix.NK) (h0 : ∀ j, j ≤ m.ix.nk k → inp.Q_0Ik (m.ix.I_1k k + j) = 0) (hj : j < m.ix.nk k)
    (hc : m.ctrl (m.ix.i_1k k + j) = false) (hm : m.method (m.ix.i_1k k + j) = 2)
    (hQ : 0 ≤ s.Q (m.ix.i_1k k + j))
    (hf : swameeJain (m.n (m.ix.i_1k k + j)) (geo.R (m.ix.i_1k k + j)) (velocity m geo s k j) ≠ 0) :
    DarcyWeisbach m.g (swameeJain (m.n (m.ix.i_1k k + j)) (geo.R (m.ix.i_1k k + j)) (velocity m geo s k j))
        (geo.R (m.ix.i_1k k + j)) (surfaceSlope m s k j) (velocity m geo s k j)
      ↔ s.Q (m.ix.i_1k k + j) = 0 ∨ 8 * 0.01274 * m.g = 1 := by
  have lt := c.inN k hk
  have hA := ps.A_pos (m.ix.i_1k k + j) (by omega)
  have hx := ps.dx_pos (m.ix.i_1k k + j) (by omega)
  have hR := ps.R_pos (m.ix.i_1k k + j) (by omega)
  have hg := ps.g_pos
  rw [DarcyWeisbach, slope_eq ps c sd hk h0 hj hc, hm, frictionLaw, if_neg (by decide), if_neg (by decide),
    abs_of_nonneg hQ]
  unfold velocity at *
  generalize m.ix.i_1k k + j = i at *
  have e : 0.25 / (Real.logb 10 (m.n i / (14.8 * geo.R i)
      + 5.74 / (s.Q i * 4 * geo.R i / (geo.A i * 0.0000010034)) ^ (0.9 : ℝ))) ^ 2
      = swameeJain (m.n i) (geo.R i) (s.Q i / geo.A i) := by
    rw [swameeJain, show s.Q i / geo.A i * (4 * geo.R i) / 0.0000010034
      = s.Q i * 4 * geo.R i / (geo.A i * 0.0000010034) by field_simp,
      show (3.7 : ℝ) * (4 * geo.R i) = 14.8 * geo.R i by ring]
  rw [e]
  generalize swameeJain (m.n i) (geo.R i) (s.Q i / geo.A i) = f at hf
  have l : 0.01274 * m.g * f * s.Q i * m.dx i / (geo.A i * geo.R i) * (s.Q i / geo.A i) / (m.g * m.dx i)
      = 0.01274 * (f * (s.Q i / geo.A i) ^ 2 / geo.R i) := by field_simp
  have r : f * (s.Q i / geo.A i) ^ 2 / (2 * m.g * (4 * geo.R i))
      = 1 / (8 * m.g) * (f * (s.Q i / geo.A i) ^ 2 / geo.R i) := by field_simp; ring
  rw [l, r, mul_eq_mul_right_iff, or_comm, div_eq_zero_iff, mul_eq_zero, pow_eq_zero_iff two_ne_zero,
    div_eq_zero_iff, or_iff_left hR.ne', or_iff_right hf, or_iff_left hA.ne', eq_div_iff (by positivity)]
  constructor <;> rintro (h | h) <;> first | exact .inl h | (right; linarith)

/-- **C176 (uniform flow).** In uniform flow the slope in the formulas is that of the bed. -/
theorem C176_uniform (ps : PhysicalStep m geo inp) (c : m.Consistent) (hk : k < m.ix.NK) (hj : j < m.ix.nk k)
    (hu : s.h (m.ix.I_1k k + j + 1) = s.h (m.ix.I_1k k + j)) :
    surfaceSlope m s k j = m.S_o (m.ix.i_1k k + j) := by
  have lt := c.inN k hk
  have hx := ps.dx_pos (m.ix.i_1k k + j) (by omega)
  rw [surfaceSlope, surfaceFall, hu, add_sub_assoc, sub_self, add_zero, mul_div_assoc, div_self hx.ne', mul_one]

/-- The links of the pipe of `narrow`: not uniform, areas 2 and 1. -/
example (j : ℕ) (hj : j < 2) : Manning (1 / 100) 1 (surfaceSlope narrowModel narrow 0 j)
    (1 / (if j = 0 then 2 else 1)) := by
  have := C176_manning (k := 0) (j := j) narrowPhysical narrowConsistent narrowSteady
    (by norm_num [narrowModel, exSteadyModel, exModel]) (fun _ _ => rfl) hj rfl rfl zero_le_one
  have e : velocity narrowModel narrowGeo narrow 0 j = 1 / (if j = 0 then 2 else 1) := by
    simp [velocity, narrowModel, narrowGeo, narrow, exSteadyModel, exModel, exSteady]
  rw [← e]
  exact this

end

end Pipedream.Step

namespace Pipedream.Link

/-! ### C177 -/

/-- **C177 (Manning, Hazen–Williams).** The friction loss (resistance times flow) strictly grows with the flow. -/
theorem C177_grows {g dx A R n Q Q' t t' : ℝ} {method : ℤ} (hg : 0 < g) (hdx : 0 < dx) (hA : 0 < A) (hR : 0 < R)
    (hn : 0 < n) (hm : method = 0 ∨ method = 1) (hQ : 0 ≤ Q) (hlt : Q < Q')
    (h : frictionSlope Q dx A R n method g = .ok t) (h' : frictionSlope Q' dx A R n method g = .ok t') :
    t * Q < t' * Q' := by
  have hQ' : 0 < Q' := hQ.trans_lt hlt
  rw [Step.frictionLaw_eq hA hR hn h, Step.frictionLaw_eq hA hR hn h', Step.frictionLaw, Step.frictionLaw,
    abs_of_nonneg hQ, abs_of_pos hQ']
  have hr := Real.rpow_pos_of_pos hR (4 / 3)
  rcases hm with rfl | rfl
  · simp only [if_true]
    have e : ∀ x : ℝ, g * n ^ 2 * x * dx / (A * R ^ (4 / 3 : ℝ)) * x
        = g * n ^ 2 * dx / (A * R ^ (4 / 3 : ℝ)) * (x * x) := fun x => by ring
    rw [e, e]
    exact mul_lt_mul_of_pos_left (by nlinarith) (by positivity)
  · simp only [one_ne_zero, if_false, if_true]
    have p3 := Real.rpow_pos_of_pos hn 1.85
    have p4 := Real.rpow_pos_of_pos hA 0.85
    have p5 := Real.rpow_pos_of_pos hR 1.1655
    have e : ∀ x : ℝ, 1.354 * g * x ^ (0.85 : ℝ) * dx / (A ^ (0.85 : ℝ) * n ^ (1.85 : ℝ) * R ^ (1.1655 : ℝ)) * x
        = 1.354 * g * dx / (A ^ (0.85 : ℝ) * n ^ (1.85 : ℝ) * R ^ (1.1655 : ℝ)) * (x ^ (0.85 : ℝ) * x) :=
      fun x => by ring
    rw [e, e]
    refine mul_lt_mul_of_pos_left ?_ (by positivity)
    have h1 : Q ^ (0.85 : ℝ) < Q' ^ (0.85 : ℝ) := Real.rpow_lt_rpow hQ hlt (by norm_num)
    exact mul_lt_mul'' h1 hlt (Real.rpow_nonneg hQ _) hQ

/-- The argument of the logarithm of the Darcy–Weisbach law. -/
noncomputable def swArg (A R n Q : ℝ) : ℝ := n / (3.7 * 4 * R) + 5.74 / (|Q| / A * 4 * R / nuVisc) ^ (0.9 : ℝ)

theorem nuVisc_pos : 0 < nuVisc := by norm_num [nuVisc]

theorem darcy_eq {g dx A R n Q : ℝ} (hA : 0 < A) (hR : 0 < R) (hQ : 0 < Q) :
    frictionSlope Q dx A R n 2 g = if Real.logb 10 (swArg A R n Q) = 0 then .error .zeroDivision
      else .ok (0.01274 * g * (0.25 / Real.logb 10 (swArg A R n Q) ^ 2) * |Q| * dx / (A * R)) := by
  have hν := nuVisc_pos
  have h3 : (3.7 * 4 * R : ℝ) ≠ 0 := by positivity
  have h4 : (|Q| / A * 4 * R / nuVisc) ^ (0.9 : ℝ) ≠ 0 := (Real.rpow_pos_of_pos (by positivity) _).ne'
  unfold frictionSlope
  rw [if_pos hA, if_neg (by decide), if_neg (by decide), if_pos rfl]
  simp only [pyDiv_ok _ hA.ne', pyDiv_ok _ h3, pyDiv_ok _ h4, bind, Except.bind]
  by_cases h0 : Real.logb 10 (swArg A R n Q) = 0
  · rw [if_pos h0]
    simp only [swArg] at h0
    rw [h0]
    simp [pyDiv]
  · rw [if_neg h0]
    simp only [swArg] at h0
    rw [pyDiv_ok _ (pow_ne_zero 2 h0)]
    simp only [pyDiv_ok _ (mul_pos hA hR).ne', swArg]

/-- **C177 (Darcy–Weisbach, turbulent flow).** The loss strictly grows with the flow wherever the argument of the
logarithm is at most `exp(-0.9)`. -/
theorem C177_turbulent {g dx A R n Q Q' t t' : ℝ} (hg : 0 < g) (hdx : 0 < dx) (hA : 0 < A) (hR : 0 < R)
    (hn : 0 ≤ n) (hQ : 0 < Q) (hlt : Q < Q') (hx : swArg A R n Q ≤ Real.exp (-0.9))
    (h : frictionSlope Q dx A R n 2 g = .ok t) (h' : frictionSlope Q' dx A R n 2 g = .ok t') :
    t * Q < t' * Q' := by
  have hν := nuVisc_pos
  have hQ' : 0 < Q' := hQ.trans hlt
  -- the argument falls by at most the 0.9-th power of the ratio of the flows
  have key : ∀ q : ℝ, 0 < q → swArg A R n q
      = n / (3.7 * 4 * R) + 5.74 / (4 * R / (A * nuVisc)) ^ (0.9 : ℝ) / q ^ (0.9 : ℝ) := by
    intro q hq
    rw [swArg, abs_of_pos hq, show q / A * 4 * R / nuVisc = 4 * R / (A * nuVisc) * q by field_simp,
      Real.mul_rpow (by positivity) hq.le, div_div]
  have hb : 0 < 5.74 / (4 * R / (A * nuVisc)) ^ (0.9 : ℝ) := by
    have := Real.rpow_pos_of_pos (by positivity : 0 < 4 * R / (A * nuVisc)) 0.9
    positivity
  have ha : 0 ≤ n / (3.7 * 4 * R) := by positivity
  set a := n / (3.7 * 4 * R)
  set b := 5.74 / (4 * R / (A * nuVisc)) ^ (0.9 : ℝ)
  have q1 := Real.rpow_pos_of_pos hQ 0.9
  have q2 := Real.rpow_pos_of_pos hQ' 0.9
  have x1 : 0 < swArg A R n Q := by rw [key Q hQ]; positivity
  have x2 : 0 < swArg A R n Q' := by rw [key Q' hQ']; positivity
  have r0 : 1 < Q' / Q := (one_lt_div hQ).mpr hlt
  have r1 : 1 < (Q' / Q) ^ (0.9 : ℝ) := Real.one_lt_rpow r0 (by norm_num)
  have fall : swArg A R n Q ≤ (Q' / Q) ^ (0.9 : ℝ) * swArg A R n Q' := by
    rw [key Q hQ, key Q' hQ', mul_add, Real.div_rpow hQ'.le hQ.le]
    rw [Real.div_rpow hQ'.le hQ.le] at r1
    have e : Q' ^ (0.9 : ℝ) / Q ^ (0.9 : ℝ) * (b / Q' ^ (0.9 : ℝ)) = b / Q ^ (0.9 : ℝ) := by field_simp
    rw [e]
    nlinarith
  have less : swArg A R n Q' ≤ swArg A R n Q := by
    rw [key Q hQ, key Q' hQ']
    have : Q ^ (0.9 : ℝ) ≤ Q' ^ (0.9 : ℝ) := Real.rpow_le_rpow hQ.le hlt.le (by norm_num)
    have := div_le_div_of_nonneg_left hb.le q1 this
    linarith
  -- logarithms
  have L1 : 0.9 ≤ -Real.log (swArg A R n Q) := by
    have := Real.log_le_log x1 hx
    rw [Real.log_exp] at this
    linarith
  have L2 : -Real.log (swArg A R n Q') ≤ -Real.log (swArg A R n Q) + 0.9 * Real.log (Q' / Q) := by
    have := Real.log_le_log x1 fall
    rw [Real.log_mul (by positivity) x2.ne', Real.log_rpow (by positivity)] at this
    linarith
  have L3 : Real.log (Q' / Q) < Q' / Q - 1 := Real.log_lt_sub_one_of_pos (by positivity) r0.ne'
  have L4 : -Real.log (swArg A R n Q) ≤ -Real.log (swArg A R n Q') := by
    have := Real.log_le_log x2 less
    linarith
  have main : -Real.log (swArg A R n Q') < Q' / Q * -Real.log (swArg A R n Q) := by nlinarith
  -- back to the loss
  have l10 : 0 < Real.log 10 := Real.log_pos (by norm_num)
  rw [darcy_eq hA hR hQ] at h
  rw [darcy_eq hA hR hQ'] at h'
  have n1 : Real.logb 10 (swArg A R n Q) ≠ 0 := by
    rw [Real.logb]; exact div_ne_zero (by linarith) l10.ne'
  have n2 : Real.logb 10 (swArg A R n Q') ≠ 0 := by
    rw [Real.logb]; exact div_ne_zero (by linarith) l10.ne'
  rw [if_neg n1, abs_of_pos hQ] at h
  rw [if_neg n2, abs_of_pos hQ'] at h'
  injection h with h
  injection h' with h'
  rw [← h, ← h', Real.logb, Real.logb]
  set u := -Real.log (swArg A R n Q)
  set v := -Real.log (swArg A R n Q')
  have e : ∀ q w : ℝ, 0.01274 * g * (0.25 / (w / Real.log 10) ^ 2) * q * dx / (A * R) * q
      = 0.01274 * g * 0.25 * Real.log 10 ^ 2 * dx / (A * R) * (q / -w) ^ 2 := by
    intro q w
    rw [div_pow, div_pow, neg_sq]
    rcases eq_or_ne w 0 with rfl | hw
    · simp
    · field_simp
  rw [e, e]
  refine mul_lt_mul_of_pos_left ?_ (by positivity)
  refine pow_lt_pow_left₀ ?_ (div_nonneg hQ.le (by linarith)) two_ne_zero
  have u0 : 0 < u := by linarith
  have v0 : 0 < v := by linarith
  change Q / u < Q' / v
  rw [div_lt_div_iff₀ u0 v0]
  have := mul_lt_mul_of_pos_left main hQ
  rw [← mul_assoc, mul_div_cancel₀ _ hQ.ne'] at this
  linarith

/-- **C177 violated (Darcy–Weisbach, slow flow).** In every section wider than its roughness there is a flow at which the
law divides by zero, and below it there are flows with arbitrarily large losses: the loss does not grow with the
flow. -/
theorem C177_slow_flow {g dx A R n : ℝ} (hg : 0 < g) (hdx : 0 < dx) (hA : 0 < A) (hR : 0 < R) (hn : 0 ≤ n)
    (hs : n < 3.7 * 4 * R) :
    ∃ Qs, 0 < Qs ∧ frictionSlope Qs dx A R n 2 g = .error .zeroDivision ∧
      ∀ K, ∃ Q t, 0 < Q ∧ Q < Qs ∧ frictionSlope Q dx A R n 2 g = .ok t ∧ K < t * Q := by
  have hν := nuVisc_pos
  have hrel : n / (3.7 * 4 * R) < 1 := (div_lt_one (by positivity)).mpr hs
  have h0 : 0 ≤ n / (3.7 * 4 * R) := by positivity
  -- the flow at which the argument is `1 + y`
  let q : ℝ → ℝ := fun y => A * nuVisc / (4 * R) * (5.74 / (1 + y - n / (3.7 * 4 * R))) ^ (1 / 0.9 : ℝ)
  have qpos : ∀ y, 0 ≤ y → 0 < q y := fun y hy => by
    have : 0 < 5.74 / (1 + y - n / (3.7 * 4 * R)) := div_pos (by norm_num) (by linarith)
    have := Real.rpow_pos_of_pos this (1 / 0.9)
    positivity
  have arg : ∀ y, 0 ≤ y → swArg A R n (q y) = 1 + y := by
    intro y hy
    have d : 0 < 1 + y - n / (3.7 * 4 * R) := by linarith
    have p : 0 < 5.74 / (1 + y - n / (3.7 * 4 * R)) := div_pos (by norm_num) d
    rw [swArg, abs_of_pos (qpos y hy)]
    have e : q y / A * 4 * R / nuVisc = (5.74 / (1 + y - n / (3.7 * 4 * R))) ^ (1 / 0.9 : ℝ) := by
      simp only [q]; field_simp
    rw [e, ← Real.rpow_mul p.le, show (1 / 0.9 * 0.9 : ℝ) = 1 by norm_num, Real.rpow_one, div_div_cancel₀ (by norm_num)]
    ring
  have anti : ∀ y z, 0 ≤ y → y < z → q z < q y := by
    intro y z hy hyz
    refine mul_lt_mul_of_pos_left ?_ (by positivity)
    refine Real.rpow_lt_rpow (div_nonneg (by norm_num) (by linarith)) ?_ (by norm_num)
    exact div_lt_div_of_pos_left (by norm_num) (by linarith) (by linarith)
  refine ⟨q 0, qpos 0 le_rfl, ?_, fun K => ?_⟩
  · rw [darcy_eq hA hR (qpos 0 le_rfl), if_pos]
    rw [arg 0 le_rfl]; simp
  · have c0 : 0 < 0.01274 * g * 0.25 * dx / (A * R) * q 1 ^ 2 := by
      have := qpos 1 zero_le_one
      positivity
    set c := 0.01274 * g * 0.25 * dx / (A * R) * q 1 ^ 2 with hc
    obtain ⟨y, y0, y1, hy⟩ : ∃ y : ℝ, 0 < y ∧ y < 1 ∧ K < c / y ^ 2 := by
      refine ⟨min (1 / 2) (c / (|K| + 1)), lt_min (by norm_num) (by positivity),
        (min_le_left _ _).trans_lt (by norm_num), ?_⟩
      set y := min (1 / 2) (c / (|K| + 1)) with hy
      have p : 0 < y := lt_min (by norm_num) (by positivity)
      have h1 : y ≤ 1 / 2 := min_le_left _ _
      have h2 : y * (|K| + 1) ≤ c := by
        have : y ≤ c / (|K| + 1) := min_le_right _ _
        rwa [le_div_iff₀ (by positivity)] at this
      rw [lt_div_iff₀ (by positivity)]
      have h3 := le_abs_self K
      have h4 := abs_nonneg K
      nlinarith [mul_pos p p, mul_nonneg h4 p.le]
    have ny : Real.logb 10 (swArg A R n (q y)) ≠ 0 := by
      rw [arg y y0.le]
      exact (Real.logb_pos (by norm_num) (by linarith)).ne'
    have ok := darcy_eq (g := g) (dx := dx) (n := n) hA hR (qpos y y0.le)
    rw [if_neg ny] at ok
    refine ⟨q y, _, qpos y y0.le, anti 0 y le_rfl y0, ok, hy.trans_le ?_⟩
    rw [arg y y0.le, abs_of_pos (qpos y y0.le)]
    have lp : 0 < Real.logb 10 (1 + y) := Real.logb_pos (by norm_num) (by linarith)
    have l10 : 1 ≤ Real.log 10 := by
      rw [Real.le_log_iff_exp_le (by norm_num)]
      exact (Real.exp_one_lt_three.trans (by norm_num)).le
    have ll : Real.logb 10 (1 + y) ≤ y := by
      rw [Real.logb, div_le_iff₀ (by linarith)]
      have := Real.log_le_sub_one_of_pos (by linarith : 0 < 1 + y)
      nlinarith
    have q1 : q 1 ≤ q y := (anti y 1 y0.le y1).le
    have e : 0.01274 * g * (0.25 / Real.logb 10 (1 + y) ^ 2) * q y * dx / (A * R) * q y
        = 0.01274 * g * 0.25 * dx / (A * R) * q y ^ 2 / Real.logb 10 (1 + y) ^ 2 := by
      field_simp
    rw [e, hc]
    have p1 := qpos 1 zero_le_one
    gcongr

/-- **C177 violated.** More flow, less loss: at every flow above the singular one there is a smaller flow with a greater
loss. -/
theorem C177_not_monotone {g dx A R n : ℝ} (hg : 0 < g) (hdx : 0 < dx) (hA : 0 < A) (hR : 0 < R) (hn : 0 ≤ n)
    (hs : n < 3.7 * 4 * R) :
    ∃ Qs, 0 < Qs ∧ ∀ Q' t', Qs ≤ Q' → frictionSlope Q' dx A R n 2 g = .ok t' →
      ∃ Q t, 0 < Q ∧ Q < Q' ∧ frictionSlope Q dx A R n 2 g = .ok t ∧ t' * Q' < t * Q := by
  obtain ⟨Qs, h0, -, h⟩ := C177_slow_flow (g := g) (dx := dx) hg hdx hA hR hn hs
  refine ⟨Qs, h0, fun Q' t' hQ' _ => ?_⟩
  obtain ⟨Q, t, a, b, c, d⟩ := h (t' * Q')
  exact ⟨Q, t, a, b.trans_le hQ', c, d⟩

/-! ### Concrete cases -/

/-- A pipe of diameter 1 m with a roughness height of 1 mm. -/
example : ∃ Qs, 0 < Qs ∧ frictionSlope Qs 10 1 0.25 0.001 2 9.81 = .error .zeroDivision := by
  obtain ⟨Qs, h0, h, -⟩ := C177_slow_flow (g := 9.81) (dx := 10) (A := 1) (R := 0.25) (n := 0.001) (by norm_num)
    (by norm_num) (by norm_num) (by norm_num) (by norm_num) (by norm_num)
  exact ⟨Qs, h0, h⟩

/-- … in which 1 m³/s is turbulent. -/
example : swArg 1 0.25 0.001 1 ≤ Real.exp (-0.9) := by
  have h1 : (100 : ℝ) ≤ (|1| / 1 * 4 * 0.25 / nuVisc) ^ (0.9 : ℝ) := by
    have h : (10000 : ℝ) ≤ |1| / 1 * 4 * 0.25 / nuVisc := by norm_num [nuVisc]
    calc (100 : ℝ) = (10000 : ℝ) ^ (1 / 2 : ℝ) := by
          rw [← Real.sqrt_eq_rpow, show (10000 : ℝ) = 100 ^ 2 by norm_num, Real.sqrt_sq (by norm_num)]
      _ ≤ (10000 : ℝ) ^ (0.9 : ℝ) := Real.rpow_le_rpow_of_exponent_le (by norm_num) (by norm_num)
      _ ≤ _ := Real.rpow_le_rpow (by norm_num) h (by norm_num)
  have h2 : (1 / 3 : ℝ) ≤ Real.exp (-0.9) := by
    refine le_trans ?_ (Real.exp_le_exp.mpr (by norm_num : (-1 : ℝ) ≤ -0.9))
    rw [Real.exp_neg, one_div]
    exact inv_anti₀ (Real.exp_pos 1) Real.exp_one_lt_three.le
  refine le_trans ?_ h2
  rw [swArg]
  have := div_le_div_of_nonneg_left (by norm_num : (0 : ℝ) ≤ 5.74) (by norm_num) h1
  norm_num at this ⊢
  linarith

end Pipedream.Link
