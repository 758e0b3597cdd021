import Verif.EnergyLineProps
import Verif.BaseEndProps

/-!
# C173: discharge coefficients

`docs/model-inputs.md` calls `C_uk`, `C_dk` and `C` discharge coefficients, and `docs/governing-equations.md` gives the
flow through a pipe end as `Q = C A √(2 g ΔH)`. The numba class multiplies by them instead of dividing by their squares
(nsuperlink.py 2680–2698, 2092).
-/

namespace Pipedream.Step

open Pipedream.Sweep Pipedream.Link Pipedream.Superlink Pipedream.Control Pipedream.Network

variable {m : Model} {geo : Geo} {inp : Inputs} {s : Hyd} {k j : ℕ}

noncomputable section

/-! ### Specification -/

/-- The flow `Q` through an opening of area `A` with discharge coefficient `C` under the head difference `dH`: it goes
down the head and has the size `C A √(2 g |dH|)`. -/
def Discharges (g C A dH Q : ℝ) : Prop := |Q| = C * A * Real.sqrt (2 * g * |dH|) ∧ 0 ≤ Q * dH

/-- Head difference between the upstream superjunction and the first junction of superlink `k`. -/
def headIn (m : Model) (s : Hyd) (k : ℕ) : ℝ := s.H (m.Ju k) - (m.z_uk k + s.h (m.ix.I_1k k))

/-- Head difference between the last junction of superlink `k` and the downstream superjunction. -/
def headOut (m : Model) (s : Hyd) (k : ℕ) : ℝ := m.z_dk k + s.h (m.ix.I_1k k + m.ix.nk k) - s.H (m.Jd k)

/-- Head lost at the control structure in a link: fall of the surface without friction. -/
def headAtStructure (m : Model) (geo : Geo) (s : Hyd) (k j : ℕ) : ℝ :=
  surfaceFall m s k j - frictionLaw m.g (m.method (m.ix.i_1k k + j)) (s.Q (m.ix.i_1k k + j)) (m.dx (m.ix.i_1k k + j))
    (geo.A (m.ix.i_1k k + j)) (geo.R (m.ix.i_1k k + j)) (m.n (m.ix.i_1k k + j)) * s.Q (m.ix.i_1k k + j)
    / (m.g * geo.A (m.ix.i_1k k + j))

/-! ### Helpers -/

/-- A head loss of `K` velocity heads is a discharge with coefficient `c` exactly if `c² K = 1` or nothing flows. -/
theorem discharges_iff {g c A K Q : ℝ} (hg : 0 < g) (hc : 0 ≤ c) (hA : 0 < A) (hK : 0 ≤ K) :
    Discharges g c A (K * (|Q| * Q) / (2 * g * A ^ 2)) Q ↔ Q = 0 ∨ c ^ 2 * K = 1 := by
  have e : 2 * g * |K * (|Q| * Q) / (2 * g * A ^ 2)| = K * (Q / A) ^ 2 := by
    rw [abs_div, abs_mul, abs_mul, abs_abs, abs_of_nonneg hK, abs_of_pos (by positivity : 0 < 2 * g * A ^ 2),
      ← pow_two, sq_abs, div_pow]
    field_simp
  have sgn : 0 ≤ Q * (K * (|Q| * Q) / (2 * g * A ^ 2)) := by
    rw [show Q * (K * (|Q| * Q) / (2 * g * A ^ 2)) = K * |Q| * Q ^ 2 / (2 * g * A ^ 2) by ring]
    positivity
  have r : c * A * Real.sqrt (K * (Q / A) ^ 2) = |Q| * (c * Real.sqrt K) := by
    rw [Real.sqrt_mul hK, Real.sqrt_sq_eq_abs, abs_div, abs_of_pos hA]
    field_simp
  rw [Discharges, e, r, and_iff_left sgn]
  have q : c * Real.sqrt K = 1 ↔ c ^ 2 * K = 1 := by
    rw [show c ^ 2 * K = (c * Real.sqrt K) ^ 2 by rw [mul_pow, Real.sq_sqrt hK]]
    exact (pow_eq_one_iff_of_nonneg (mul_nonneg hc (Real.sqrt_nonneg K)) (by norm_num)).symm
  rw [← q, eq_comm, mul_right_eq_self₀, abs_eq_zero, or_comm]

theorem cube_iff {C : ℝ} (hC : 0 ≤ C) : C ^ 2 * C = 1 ↔ C = 1 := by
  rw [← pow_succ, pow_eq_one_iff_of_nonneg hC (by norm_num)]

/-! ### C173 -/

/-- **C173 (pipe inlets).** In a steady state whose superjunction stands above the inlet, the inlet obeys the
documented law if and only if nothing flows or the coefficient is 1. -/
theorem C173_inlet_iff (hg : 0 < m.g) (sd : Steady m geo inp s) (hk : k < m.ix.NK) (hz : m.z_uk k ≤ s.H (m.Ju k))
    (hC : 0 ≤ m.C_uk k) (hA : 0 < geo.A_u k) :
    Discharges m.g (m.C_uk k) (geo.A_u k) (headIn m s k) (s.Qu k) ↔ s.Qu k = 0 ∨ m.C_uk k = 1 := by
  have e : headIn m s k = m.C_uk k * (|s.Qu k| * s.Qu k) / (2 * m.g * geo.A_u k ^ 2) := by
    rw [headIn, sd.up k hk, if_pos hz]; ring
  rw [e, discharges_iff hg hC hA hC, cube_iff hC]

/-- **C173 (pipe outlets).** -/
theorem C173_outlet_iff (hg : 0 < m.g) (sd : Steady m geo inp s) (hk : k < m.ix.NK) (hz : m.z_dk k ≤ s.H (m.Jd k))
    (hC : 0 ≤ m.C_dk k) (hA : 0 < geo.A_d k) :
    Discharges m.g (m.C_dk k) (geo.A_d k) (headOut m s k) (s.Qd k) ↔ s.Qd k = 0 ∨ m.C_dk k = 1 := by
  have e : headOut m s k = m.C_dk k * (|s.Qd k| * s.Qd k) / (2 * m.g * geo.A_d k ^ 2) := by
    rw [headOut, sd.down k hk, if_pos hz]; ring
  rw [e, discharges_iff hg hC hA hC, cube_iff hC]

/-- **C173 (what to enter).** A pipe end whose coefficient is `1/c²` has the discharge coefficient `c`. The default,
`1/0.67²` (superlink.py 489, 493), is the discharge coefficient 0.67. -/
theorem C173_inverse_square {c : ℝ} (hc : 0 < c) (hg : 0 < m.g) (sd : Steady m geo inp s) (hk : k < m.ix.NK) :
    (m.z_uk k ≤ s.H (m.Ju k) → m.C_uk k = 1 / c ^ 2 → 0 < geo.A_u k →
      Discharges m.g c (geo.A_u k) (headIn m s k) (s.Qu k)) ∧
    (m.z_dk k ≤ s.H (m.Jd k) → m.C_dk k = 1 / c ^ 2 → 0 < geo.A_d k →
      Discharges m.g c (geo.A_d k) (headOut m s k) (s.Qd k)) := by
  have h0 : (0 : ℝ) ≤ 1 / c ^ 2 := by positivity
  have h1 : c ^ 2 * (1 / c ^ 2) = 1 := by field_simp
  constructor
  · intro hz hC hA
    have e : headIn m s k = 1 / c ^ 2 * (|s.Qu k| * s.Qu k) / (2 * m.g * geo.A_u k ^ 2) := by
      rw [headIn, sd.up k hk, if_pos hz, hC]; ring
    rw [e]
    exact (discharges_iff hg hc.le hA h0).2 (.inr h1)
  · intro hz hC hA
    have e : headOut m s k = 1 / c ^ 2 * (|s.Qd k| * s.Qd k) / (2 * m.g * geo.A_d k ^ 2) := by
      rw [headOut, sd.down k hk, if_pos hz, hC]; ring
    rw [e]
    exact (discharges_iff hg hc.le hA h0).2 (.inr h1)

/-- **C173 (structures in links).** In steady flow without lateral inflow, the control structure of a link obeys the
law if and only if nothing flows or `2 C³ = 1`: the head lost there is `2 C` velocity heads. -/
theorem C173_structure_iff (ps : PhysicalStep m geo inp) (c : m.Consistent) (sd : Steady m geo inp s)
    (hk : k < m.ix.NK) (h0 : ∀ j, j ≤ m.ix.nk k → inp.Q_0Ik (m.ix.I_1k k + j) = 0) (hj : j < m.ix.nk k)
    (ht : m.ctrl (m.ix.i_1k k + j) = true) (hC : 0 ≤ m.C (m.ix.i_1k k + j)) (hA : 0 < m.A_c (m.ix.i_1k k + j)) :
    Discharges m.g (m.C (m.ix.i_1k k + j)) (m.A_c (m.ix.i_1k k + j)) (headAtStructure m geo s k j)
        (s.Q (m.ix.i_1k k + j))
      ↔ s.Q (m.ix.i_1k k + j) = 0 ∨ 2 * m.C (m.ix.i_1k k + j) ^ 3 = 1 := by
  have lt := c.inN k hk
  have hA' := ps.A_pos (m.ix.i_1k k + j) (by omega)
  have hg := ps.g_pos
  have e : headAtStructure m geo s k j = 2 * m.C (m.ix.i_1k k + j)
      * (|s.Q (m.ix.i_1k k + j)| * s.Q (m.ix.i_1k k + j)) / (2 * m.g * m.A_c (m.ix.i_1k k + j) ^ 2) := by
    rw [headAtStructure, C172_surface ps c sd hk h0 hj, headLoss]
    simp only [ht, if_true]
    field_simp
    ring
  rw [e, discharges_iff hg hC hA (by positivity),
    show m.C (m.ix.i_1k k + j) ^ 2 * (2 * m.C (m.ix.i_1k k + j)) = 2 * m.C (m.ix.i_1k k + j) ^ 3 by ring]

/-- **C173 (the pure-Python class).** The head loss of its end coefficient, at unchanged flow, is the documented one. -/
theorem C173_base {g C A Q : ℝ} (hg : 0 < g) (hC : 0 < C) (hA : 0 < A) :
    Discharges g C A (-(Base.gammaU Q C A g * Q)) Q := by
  have e : -(Base.gammaU Q C A g * Q) = 1 / C ^ 2 * (|Q| * Q) / (2 * g * A ^ 2) := by
    rw [Base.gammaU, safeDivide_eq]
    field_simp
  rw [e]
  exact (discharges_iff hg hC.le hA (by positivity)).2 (.inr (by field_simp))

/-! ### A concrete case: the pipe of `exSteadyModel`, whose ends have the coefficient 1.962 -/

example : exSteady.Qu 0 = 1 ∧ ¬ Discharges 9.81 1.962 1 (headIn exSteadyModel exSteady 0) 1 := by
  refine ⟨rfl, fun h => ?_⟩
  have := (C173_inlet_iff (k := 0) (by norm_num [exSteadyModel, exModel]) exSteadyOk
    (by norm_num [exSteadyModel, exModel]) (by norm_num [exSteadyModel, exModel, exSteady])
    (by norm_num [exSteadyModel]) (by norm_num [exSteadyGeo, exGeo])).1 h
  norm_num [exSteadyModel, exSteady] at this

end

end Pipedream.Step
