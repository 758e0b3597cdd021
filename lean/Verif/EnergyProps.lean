import Verif.LevelProps

/-!
# C154: a step creates no energy

The energy account of one step: kinetic energy of the flows and potential energy of the water about a level `T`, both
per unit of weight and with the areas of the step. What a step from rest gains in kinetic energy, and loses in
friction, comes out of the levels. A pipe end above the water breaks the rule.
-/

namespace Pipedream.Step

open Pipedream.Sweep Pipedream.Link Pipedream.Superlink Pipedream.Control Pipedream.Network

noncomputable section

variable {m : Model} {geo : Geo} {inp : Inputs} {wk : Work} {prev cur s : Hyd} {co : Coef ℝ} {x : ℕ → ℝ} {zI : ℕ → ℝ}

/-! ### Specification -/

/-- Kinetic energy of flows `Q` in links of volume `A dx`: `Σ σ dx Q² / (2 g A)`. -/
def kinetic (m : Model) (geo : Geo) (Q : ℕ → ℝ) : ℝ :=
  ∑ k ∈ Finset.range m.ix.NK, ∑ j ∈ Finset.range (m.ix.nk k),
    geo.sigma (m.ix.i_1k k + j) * m.dx (m.ix.i_1k k + j) / (2 * m.g * geo.A (m.ix.i_1k k + j)) * Q (m.ix.i_1k k + j) ^ 2

/-- Water surface of superjunction `i`: its own and that of the end stretches of pipes which reach it below water. -/
def openWater (m : Model) (geo : Geo) (cur : Hyd) (i : ℕ) : ℝ :=
  geo.As i + ∑ k ∈ Finset.range m.ix.NK,
    ((if m.Ju k = i then endArea (cur.H i) (m.z_uk k) (m.dx_uk k) (geo.B_u k) else 0)
    + (if m.Jd k = i then endArea (cur.H i) (m.z_dk k) (m.dx_dk k) (geo.B_d k) else 0))

/-- Potential energy of surfaces standing `H` (free superjunctions) and `y` (pipes) above the level of reference. -/
def potential (m : Model) (geo : Geo) (cur : Hyd) (H y : ℕ → ℝ) : ℝ :=
  (∑ i ∈ Finset.range m.M, if m.bc i = true then 0 else openWater m geo cur i / 2 * H i ^ 2)
  + ∑ k ∈ Finset.range m.ix.NK, ∑ j ∈ Finset.range (m.ix.nk k + 1),
      surfaceArea m geo k j / 2 * y (m.ix.I_1k k + j) ^ 2

/-- Energy of a state about the level `T`. -/
def energyOf (m : Model) (geo : Geo) (cur : Hyd) (zI : ℕ → ℝ) (T : ℝ) (s : Hyd) : ℝ :=
  kinetic m geo s.Q + potential m geo cur (fun i => s.H i - T) (fun I => s.h I + zI I - T)

/-- Power lost to friction, in link controls and at the pipe ends. -/
def lossPower (m : Model) (geo : Geo) (cur next : Hyd) : ℝ :=
  ∑ k ∈ Finset.range m.ix.NK,
    ((∑ j ∈ Finset.range (m.ix.nk k),
      (frictionLaw m.g (m.method (m.ix.i_1k k + j)) (cur.Q (m.ix.i_1k k + j)) (m.dx (m.ix.i_1k k + j))
          (geo.A (m.ix.i_1k k + j)) (geo.R (m.ix.i_1k k + j)) (m.n (m.ix.i_1k k + j))
        + (if m.ctrl (m.ix.i_1k k + j) then m.C (m.ix.i_1k k + j) * geo.A (m.ix.i_1k k + j) * |cur.Q (m.ix.i_1k k + j)|
            / m.A_c (m.ix.i_1k k + j) ^ 2 else 0))
      / (m.g * geo.A (m.ix.i_1k k + j)) * next.Q (m.ix.i_1k k + j) ^ 2)
    + |cur.Qu k| * m.C_uk k / (2 * m.g * geo.A_u k ^ 2) * next.Qu k ^ 2
    + |cur.Qd k| * m.C_dk k / (2 * m.g * geo.A_d k ^ 2) * next.Qd k ^ 2)

/-- Power handed from link to link by the advection terms. -/
def advectionPower (m : Model) (geo : Geo) (cur next : Hyd) : ℝ :=
  ∑ k ∈ Finset.range m.ix.NK, ∑ j ∈ Finset.range (m.ix.nk k),
    geo.sigma (m.ix.i_1k k + j) / (m.g * geo.A (m.ix.i_1k k + j)) * next.Q (m.ix.i_1k k + j)
      * (max (velocityUp m geo cur k j) 0 * (next.Q (m.ix.i_1k k + j) - arriving m next k j)
        + max (-velocityDown m geo cur k j) 0 * (next.Q (m.ix.i_1k k + j) - leaving m next k (j + 1)))

/-- Power of the water supplied: every inflow lifts its volume from `T` to the level where it enters. -/
def supplyPower (m : Model) (inp : Inputs) (zI : ℕ → ℝ) (T : ℝ) (next : Hyd) : ℝ :=
  (∑ i ∈ Finset.range m.M, (next.H i - T) * inp.Q_in i)
  + ∑ k ∈ Finset.range m.ix.NK, ∑ j ∈ Finset.range (m.ix.nk k + 1),
      (next.h (m.ix.I_1k k + j) + zI (m.ix.I_1k k + j) - T) * inp.Q_0Ik (m.ix.I_1k k + j)

/-- Power of orifices, weirs and pumps: what they take at one level they deliver at another. -/
def controlPower (m : Model) (geo : Geo) (inp : Inputs) (wk : Work) (cur : Hyd) (co : Coef ℝ) (T : ℝ) (H : ℕ → ℝ) : ℝ :=
  ∑ i ∈ Finset.range m.M, (H i - T) * ((m.net geo inp wk cur co).orifices.inflow H i
    + (m.net geo inp wk cur co).weirs.inflow H i + (m.net geo inp wk cur co).pumps.inflow H i)

/-! ### Lemmas -/

/-- Summation by parts along a superlink. -/
theorem by_parts (y : ℕ → ℝ) (s : Hyd) {k : ℕ} :
    ∑ j ∈ Finset.range (m.ix.nk k + 1), y j * (arriving m s k j - leaving m s k j)
      = y 0 * s.Qu k - y (m.ix.nk k) * s.Qd k
        - ∑ j ∈ Finset.range (m.ix.nk k), s.Q (m.ix.i_1k k + j) * (y j - y (j + 1)) := by
  have h1 : ∑ j ∈ Finset.range (m.ix.nk k + 1), y j * arriving m s k j
      = ∑ j ∈ Finset.range (m.ix.nk k), y (j + 1) * s.Q (m.ix.i_1k k + j) + y 0 * s.Qu k := by
    rw [Finset.sum_range_succ']
    congr 1
  have h2 : ∑ j ∈ Finset.range (m.ix.nk k + 1), y j * leaving m s k j
      = ∑ j ∈ Finset.range (m.ix.nk k), y j * s.Q (m.ix.i_1k k + j) + y (m.ix.nk k) * s.Qd k := by
    rw [Finset.sum_range_succ]
    congr 1
    · refine Finset.sum_congr rfl fun j hj => ?_
      rw [leaving, if_neg (Finset.mem_range.mp hj).ne]
    · rw [leaving, if_pos rfl]
  simp only [mul_sub, Finset.sum_sub_distrib]
  rw [h1, h2]
  have h3 : ∑ j ∈ Finset.range (m.ix.nk k), s.Q (m.ix.i_1k k + j) * y j
      = ∑ j ∈ Finset.range (m.ix.nk k), y j * s.Q (m.ix.i_1k k + j) := Finset.sum_congr rfl fun j _ => mul_comm _ _
  have h4 : ∑ j ∈ Finset.range (m.ix.nk k), s.Q (m.ix.i_1k k + j) * y (j + 1)
      = ∑ j ∈ Finset.range (m.ix.nk k), y (j + 1) * s.Q (m.ix.i_1k k + j) := Finset.sum_congr rfl fun j _ => mul_comm _ _
  rw [h3, h4]
  ring

/-- Energy account of one superlink. -/
theorem link_energy (ps : PhysicalStep m geo inp) (c : m.Consistent) (bed : Bed m zI) (T : ℝ) {next : Hyd} {k : ℕ}
    (hk : k < m.ix.NK)
    (mo : ∀ j, j < m.ix.nk k → MomentumEq m geo inp prev cur next k j)
    (cn : ∀ j, j ≤ m.ix.nk k → ContinuityEq m geo inp prev next k j) :
    (∑ j ∈ Finset.range (m.ix.nk k), geo.sigma (m.ix.i_1k k + j) * m.dx (m.ix.i_1k k + j)
        / (2 * m.g * geo.A (m.ix.i_1k k + j)) * (next.Q (m.ix.i_1k k + j) ^ 2
          + (next.Q (m.ix.i_1k k + j) - prev.Q (m.ix.i_1k k + j)) ^ 2 - prev.Q (m.ix.i_1k k + j) ^ 2))
    + (∑ j ∈ Finset.range (m.ix.nk k + 1), surfaceArea m geo k j / 2
        * ((next.h (m.ix.I_1k k + j) + zI (m.ix.I_1k k + j) - T) ^ 2
          + (next.h (m.ix.I_1k k + j) - prev.h (m.ix.I_1k k + j)) ^ 2
          - (prev.h (m.ix.I_1k k + j) + zI (m.ix.I_1k k + j) - T) ^ 2))
    = inp.dt * ((next.h (m.ix.I_1k k) + zI (m.ix.I_1k k) - T) * next.Qu k
        - (next.h (m.ix.I_1k k + m.ix.nk k) + zI (m.ix.I_1k k + m.ix.nk k) - T) * next.Qd k
        + (∑ j ∈ Finset.range (m.ix.nk k + 1),
            (next.h (m.ix.I_1k k + j) + zI (m.ix.I_1k k + j) - T) * inp.Q_0Ik (m.ix.I_1k k + j))
        - (∑ j ∈ Finset.range (m.ix.nk k),
          (frictionLaw m.g (m.method (m.ix.i_1k k + j)) (cur.Q (m.ix.i_1k k + j)) (m.dx (m.ix.i_1k k + j))
              (geo.A (m.ix.i_1k k + j)) (geo.R (m.ix.i_1k k + j)) (m.n (m.ix.i_1k k + j))
            + (if m.ctrl (m.ix.i_1k k + j) then m.C (m.ix.i_1k k + j) * geo.A (m.ix.i_1k k + j)
                * |cur.Q (m.ix.i_1k k + j)| / m.A_c (m.ix.i_1k k + j) ^ 2 else 0))
          / (m.g * geo.A (m.ix.i_1k k + j)) * next.Q (m.ix.i_1k k + j) ^ 2)
        - ∑ j ∈ Finset.range (m.ix.nk k),
          geo.sigma (m.ix.i_1k k + j) / (m.g * geo.A (m.ix.i_1k k + j)) * next.Q (m.ix.i_1k k + j)
            * (max (velocityUp m geo cur k j) 0 * (next.Q (m.ix.i_1k k + j) - arriving m next k j)
              + max (-velocityDown m geo cur k j) 0 * (next.Q (m.ix.i_1k k + j) - leaving m next k (j + 1)))) := by
  have g0 := ps.g_pos.ne'
  have dt0 := ps.dt_pos.ne'
  have hN := c.inN k hk
  have bp := by_parts (m := m) (k := k) (fun j => next.h (m.ix.I_1k k + j) + zI (m.ix.I_1k k + j) - T) next
  have e1 : ∀ j ∈ Finset.range (m.ix.nk k + 1), surfaceArea m geo k j / 2
        * ((next.h (m.ix.I_1k k + j) + zI (m.ix.I_1k k + j) - T) ^ 2
          + (next.h (m.ix.I_1k k + j) - prev.h (m.ix.I_1k k + j)) ^ 2
          - (prev.h (m.ix.I_1k k + j) + zI (m.ix.I_1k k + j) - T) ^ 2)
      = inp.dt * ((next.h (m.ix.I_1k k + j) + zI (m.ix.I_1k k + j) - T) * (arriving m next k j - leaving m next k j))
        + inp.dt * ((next.h (m.ix.I_1k k + j) + zI (m.ix.I_1k k + j) - T) * inp.Q_0Ik (m.ix.I_1k k + j)) := by
    intro j hj
    have := cn j (Nat.lt_succ_iff.mp (Finset.mem_range.mp hj))
    unfold ContinuityEq at this
    rw [mul_div_assoc', div_eq_iff dt0] at this
    linear_combination (next.h (m.ix.I_1k k + j) + zI (m.ix.I_1k k + j) - T) * this
  have e2 : ∀ j ∈ Finset.range (m.ix.nk k), geo.sigma (m.ix.i_1k k + j) * m.dx (m.ix.i_1k k + j)
        / (2 * m.g * geo.A (m.ix.i_1k k + j)) * (next.Q (m.ix.i_1k k + j) ^ 2
          + (next.Q (m.ix.i_1k k + j) - prev.Q (m.ix.i_1k k + j)) ^ 2 - prev.Q (m.ix.i_1k k + j) ^ 2)
      = inp.dt * (next.Q (m.ix.i_1k k + j) * (next.h (m.ix.I_1k k + j) + zI (m.ix.I_1k k + j) - T
          - (next.h (m.ix.I_1k k + (j + 1)) + zI (m.ix.I_1k k + (j + 1)) - T)))
        - inp.dt * ((frictionLaw m.g (m.method (m.ix.i_1k k + j)) (cur.Q (m.ix.i_1k k + j)) (m.dx (m.ix.i_1k k + j))
              (geo.A (m.ix.i_1k k + j)) (geo.R (m.ix.i_1k k + j)) (m.n (m.ix.i_1k k + j))
            + (if m.ctrl (m.ix.i_1k k + j) then m.C (m.ix.i_1k k + j) * geo.A (m.ix.i_1k k + j)
                * |cur.Q (m.ix.i_1k k + j)| / m.A_c (m.ix.i_1k k + j) ^ 2 else 0))
          / (m.g * geo.A (m.ix.i_1k k + j)) * next.Q (m.ix.i_1k k + j) ^ 2)
        - inp.dt * (geo.sigma (m.ix.i_1k k + j) / (m.g * geo.A (m.ix.i_1k k + j)) * next.Q (m.ix.i_1k k + j)
            * (max (velocityUp m geo cur k j) 0 * (next.Q (m.ix.i_1k k + j) - arriving m next k j)
              + max (-velocityDown m geo cur k j) 0 * (next.Q (m.ix.i_1k k + j) - leaving m next k (j + 1)))) := by
    intro j hj
    have hj := Finset.mem_range.mp hj
    have A0 := (ps.A_pos (m.ix.i_1k k + j) (by omega)).ne'
    have M := mo j hj
    simp only [MomentumEq] at M
    rw [bed.slope k hk j hj, show m.ix.I_1k k + j + 1 = m.ix.I_1k k + (j + 1) by omega] at M
    have ec : (if m.ctrl (m.ix.i_1k k + j) = true then m.C (m.ix.i_1k k + j) * geo.A (m.ix.i_1k k + j)
          * |cur.Q (m.ix.i_1k k + j)| / m.A_c (m.ix.i_1k k + j) ^ 2 * next.Q (m.ix.i_1k k + j) else 0)
        = (if m.ctrl (m.ix.i_1k k + j) = true then m.C (m.ix.i_1k k + j) * geo.A (m.ix.i_1k k + j)
          * |cur.Q (m.ix.i_1k k + j)| / m.A_c (m.ix.i_1k k + j) ^ 2 else 0) * next.Q (m.ix.i_1k k + j) := by
      split_ifs <;> simp
    rw [ec] at M
    generalize (if m.ctrl (m.ix.i_1k k + j) = true then m.C (m.ix.i_1k k + j) * geo.A (m.ix.i_1k k + j)
          * |cur.Q (m.ix.i_1k k + j)| / m.A_c (m.ix.i_1k k + j) ^ 2 else 0) = cc at M ⊢
    generalize frictionLaw m.g (m.method (m.ix.i_1k k + j)) (cur.Q (m.ix.i_1k k + j)) (m.dx (m.ix.i_1k k + j))
              (geo.A (m.ix.i_1k k + j)) (geo.R (m.ix.i_1k k + j)) (m.n (m.ix.i_1k k + j)) = ff at M ⊢
    generalize max (velocityUp m geo cur k j) 0 = v1 at M ⊢
    generalize max (-velocityDown m geo cur k j) 0 = v2 at M ⊢
    generalize arriving m next k j = q1 at M ⊢
    generalize leaving m next k (j + 1) = q2 at M ⊢
    generalize geo.A (m.ix.i_1k k + j) = A at M A0 ⊢
    rw [mul_div_assoc'] at M
    field_simp at M ⊢
    linear_combination (2 * next.Q (m.ix.i_1k k + j)) * M
  rw [Finset.sum_congr rfl e1, Finset.sum_congr rfl e2, Finset.sum_add_distrib, Finset.sum_sub_distrib,
    Finset.sum_sub_distrib, ← Finset.mul_sum, ← Finset.mul_sum, ← Finset.mul_sum, ← Finset.mul_sum, ← Finset.mul_sum, bp]
  simp only [add_zero]
  ring

/-- Energy account of the superjunctions. -/
theorem junction_energy (c : m.Consistent) (ps : PhysicalStep m geo inp) (cw : CleanWork m wk.mats)
    (p : Pass m geo inp wk prev cur co x) (T : ℝ)
    (hclip : ∀ j, j < m.M → m.z_inv j ≤ x j ∧ x j ≤ m.z_inv j + m.max_depth j)
    (fixed : ∀ i, i < m.M → m.bc i = true → (m.advance geo inp wk cur co x).H i = T) :
    (∑ i ∈ Finset.range m.M, if m.bc i = true then 0 else openWater m geo cur i / 2
        * (((m.advance geo inp wk cur co x).H i - T) ^ 2 + ((m.advance geo inp wk cur co x).H i - prev.H i) ^ 2
          - (prev.H i - T) ^ 2))
    = inp.dt * ((∑ i ∈ Finset.range m.M, ((m.advance geo inp wk cur co x).H i - T) * inp.Q_in i)
        + (∑ k ∈ Finset.range m.ix.NK,
            (((m.advance geo inp wk cur co x).H (m.Jd k) - T) * (m.advance geo inp wk cur co x).Qd k
              - ((m.advance geo inp wk cur co x).H (m.Ju k) - T) * (m.advance geo inp wk cur co x).Qu k))
        + controlPower m geo inp wk cur co T (m.advance geo inp wk cur co x).H) := by
  have dt0 := ps.dt_pos.ne'
  have each : ∀ i ∈ Finset.range m.M, (if m.bc i = true then 0 else openWater m geo cur i / 2
        * (((m.advance geo inp wk cur co x).H i - T) ^ 2 + ((m.advance geo inp wk cur co x).H i - prev.H i) ^ 2
          - (prev.H i - T) ^ 2))
      = inp.dt * (((m.advance geo inp wk cur co x).H i - T) * inp.Q_in i)
        + inp.dt * (((m.advance geo inp wk cur co x).H i - T)
            * (m.net geo inp wk cur co).links.inflow (m.advance geo inp wk cur co x).H i)
        + inp.dt * (((m.advance geo inp wk cur co x).H i - T)
            * ((m.net geo inp wk cur co).orifices.inflow (m.advance geo inp wk cur co x).H i
              + (m.net geo inp wk cur co).weirs.inflow (m.advance geo inp wk cur co x).H i
              + (m.net geo inp wk cur co).pumps.inflow (m.advance geo inp wk cur co x).H i)) := by
    intro i hi
    have hi := Finset.mem_range.mp hi
    cases hb : m.bc i with
    | true => rw [if_pos rfl, fixed i hi hb]; ring
    | false =>
      rw [if_neg (by simp)]
      have h := C07_step c cw p hclip i hi hb
      unfold Network.Balanced at h
      have e1 : inp.dt * (m.net geo inp wk cur co).links.xiSum i = ∑ k ∈ Finset.range m.ix.NK,
            ((if m.Ju k = i then endArea (cur.H i) (m.z_uk k) (m.dx_uk k) (geo.B_u k) else 0)
            + (if m.Jd k = i then endArea (cur.H i) (m.z_dk k) (m.dx_dk k) (geo.B_d k) else 0)) := by
        simp only [Links.xiSum, Finset.mul_sum]
        apply Finset.sum_congr rfl
        intro k _
        rw [← xi_endArea dt0, ← xi_endArea dt0]
        by_cases a : m.Ju k = i <;> by_cases b : m.Jd k = i <;> simp [Model.net, a, b]
        ring
      have e2 : openWater m geo cur i
          = inp.dt * ((m.net geo inp wk cur co).As i / inp.dt + (m.net geo inp wk cur co).links.xiSum i) := by
        rw [mul_add, e1, mul_div_cancel₀ _ dt0]; rfl
      rw [e2]
      linear_combination inp.dt * ((m.advance geo inp wk cur co x).H i - T) * h
  have swap : ∑ i ∈ Finset.range m.M, ((m.advance geo inp wk cur co x).H i - T)
        * (m.net geo inp wk cur co).links.inflow (m.advance geo inp wk cur co x).H i
      = ∑ k ∈ Finset.range m.ix.NK,
        (((m.advance geo inp wk cur co x).H (m.Jd k) - T) * (m.advance geo inp wk cur co x).Qd k
          - ((m.advance geo inp wk cur co x).H (m.Ju k) - T) * (m.advance geo inp wk cur co x).Qu k) := by
    have e : ∀ i, (m.net geo inp wk cur co).links.inflow (m.advance geo inp wk cur co x).H i
        = ∑ k ∈ Finset.range m.ix.NK, ((if m.Jd k = i then (m.advance geo inp wk cur co x).Qd k else 0)
          - (if m.Ju k = i then (m.advance geo inp wk cur co x).Qu k else 0)) := fun _ => rfl
    simp only [e, Finset.mul_sum]
    rw [Finset.sum_comm]
    refine Finset.sum_congr rfl fun k hk => ?_
    have hk := Finset.mem_range.mp hk
    simp only [mul_sub, mul_ite, mul_zero, Finset.sum_sub_distrib, Finset.sum_ite_eq, Finset.mem_range, c.Jd k hk, c.Ju k hk,
      if_true]
  rw [Finset.sum_congr rfl each, Finset.sum_add_distrib, Finset.sum_add_distrib, ← Finset.mul_sum, ← Finset.mul_sum,
    ← Finset.mul_sum, swap, controlPower]
  ring

/-- Resistance is never negative. -/
theorem frictionLaw_nonneg {g Q dx A R n : ℝ} {method : ℤ} (hg : 0 < g) (hd : 0 < dx) (hA : 0 < A) (hR : 0 < R)
    (hn : 0 < n) : 0 ≤ frictionLaw g method Q dx A R n := by
  unfold frictionLaw
  split_ifs <;> positivity

/-- Losses are losses. -/
theorem lossPower_nonneg (c : m.Consistent) (ps : PhysicalStep m geo inp) (next : Hyd) : 0 ≤ lossPower m geo cur next := by
  have g0 := ps.g_pos
  refine Finset.sum_nonneg fun k hk => ?_
  have hk := Finset.mem_range.mp hk
  have hN := c.inN k hk
  have cu := ps.Cu k hk
  have cd := ps.Cd k hk
  refine add_nonneg (add_nonneg (Finset.sum_nonneg fun j hj => ?_) (by positivity)) (by positivity)
  have hj := Finset.mem_range.mp hj
  have hl : m.ix.i_1k k + j < m.N := by omega
  have A0 := ps.A_pos _ hl
  have C0 := ps.C_nonneg _ hl
  have f0 := frictionLaw_nonneg (Q := cur.Q (m.ix.i_1k k + j)) (method := m.method (m.ix.i_1k k + j)) g0 (ps.dx_pos _ hl) A0
    (ps.R_pos _ hl) (ps.n_pos _ hl)
  have c0 : 0 ≤ (if m.ctrl (m.ix.i_1k k + j) = true then m.C (m.ix.i_1k k + j) * geo.A (m.ix.i_1k k + j)
      * |cur.Q (m.ix.i_1k k + j)| / m.A_c (m.ix.i_1k k + j) ^ 2 else 0) := by split_ifs <;> positivity
  have := add_nonneg f0 c0
  positivity

/-- Kinetic energy is never negative. -/
theorem kinetic_nonneg (c : m.Consistent) (ps : PhysicalStep m geo inp) (Q : ℕ → ℝ) : 0 ≤ kinetic m geo Q := by
  have g0 := ps.g_pos
  refine Finset.sum_nonneg fun k hk => Finset.sum_nonneg fun j hj => ?_
  have hN := c.inN k (Finset.mem_range.mp hk)
  have hj := Finset.mem_range.mp hj
  have hl : m.ix.i_1k k + j < m.N := by omega
  have := ps.A_pos _ hl
  have := ps.sigma_pos _ hl
  have := ps.dx_pos _ hl
  positivity

theorem endArea_nonneg {H z dx B : ℝ} (hd : 0 ≤ dx) (hB : 0 ≤ B) : 0 ≤ endArea H z dx B := by
  unfold endArea; split_ifs <;> positivity

/-- Potential energy is never negative. -/
theorem potential_nonneg (c : m.Consistent) (ps : PhysicalStep m geo inp) (H y : ℕ → ℝ) : 0 ≤ potential m geo cur H y := by
  refine add_nonneg (Finset.sum_nonneg fun i hi => ?_) (Finset.sum_nonneg fun k hk => Finset.sum_nonneg fun j hj => ?_)
  · have hi := Finset.mem_range.mp hi
    split_ifs with hb
    · exact le_rfl
    · have a0 := ps.As i hi (by simpa using hb)
      have s0 : 0 ≤ openWater m geo cur i := by
        refine add_nonneg a0.le (Finset.sum_nonneg fun k hk => ?_)
        have hk := Finset.mem_range.mp hk
        have := endArea_nonneg (H := cur.H i) (z := m.z_uk k) (ps.dxu k hk) (ps.Bu k hk)
        have := endArea_nonneg (H := cur.H i) (z := m.z_dk k) (ps.dxd k hk) (ps.Bd k hk)
        refine add_nonneg ?_ ?_ <;> split_ifs <;> first | assumption | exact le_rfl
      positivity
  · have hk := Finset.mem_range.mp hk
    have hj := Nat.lt_succ_iff.mp (Finset.mem_range.mp hj)
    have := surfaceArea_nonneg c ps hk hj
    positivity

theorem kinetic_change (Q Q' : ℕ → ℝ) :
    kinetic m geo Q' + kinetic m geo (fun i => Q' i - Q i) - kinetic m geo Q
      = ∑ k ∈ Finset.range m.ix.NK, ∑ j ∈ Finset.range (m.ix.nk k), geo.sigma (m.ix.i_1k k + j) * m.dx (m.ix.i_1k k + j)
        / (2 * m.g * geo.A (m.ix.i_1k k + j)) * (Q' (m.ix.i_1k k + j) ^ 2
          + (Q' (m.ix.i_1k k + j) - Q (m.ix.i_1k k + j)) ^ 2 - Q (m.ix.i_1k k + j) ^ 2) := by
  simp only [kinetic, ← Finset.sum_add_distrib, ← Finset.sum_sub_distrib]
  exact Finset.sum_congr rfl fun k _ => Finset.sum_congr rfl fun j _ => by ring

theorem potential_change (T : ℝ) (s s' : Hyd) :
    potential m geo cur (fun i => s'.H i - T) (fun I => s'.h I + zI I - T)
      + potential m geo cur (fun i => s'.H i - s.H i) (fun I => s'.h I - s.h I)
      - potential m geo cur (fun i => s.H i - T) (fun I => s.h I + zI I - T)
      = (∑ i ∈ Finset.range m.M, if m.bc i = true then 0 else openWater m geo cur i / 2
          * ((s'.H i - T) ^ 2 + (s'.H i - s.H i) ^ 2 - (s.H i - T) ^ 2))
        + ∑ k ∈ Finset.range m.ix.NK, ∑ j ∈ Finset.range (m.ix.nk k + 1), surfaceArea m geo k j / 2
          * ((s'.h (m.ix.I_1k k + j) + zI (m.ix.I_1k k + j) - T) ^ 2
            + (s'.h (m.ix.I_1k k + j) - s.h (m.ix.I_1k k + j)) ^ 2
            - (s.h (m.ix.I_1k k + j) + zI (m.ix.I_1k k + j) - T) ^ 2) := by
  have e1 : ∀ a b a' b' a'' b'' : ℝ, a + b + (a' + b') - (a'' + b'') = (a + a' - a'') + (b + b' - b'') := by intros; ring
  simp only [potential]
  rw [e1]
  simp only [← Finset.sum_add_distrib, ← Finset.sum_sub_distrib]
  congr 1
  · exact Finset.sum_congr rfl fun i _ => by split_ifs <;> ring
  · exact Finset.sum_congr rfl fun k _ => Finset.sum_congr rfl fun j _ => by ring

/-- Reported surfaces at pipe ends which were below water. -/
theorem end_levels (c : m.Consistent) (bed : Bed m zI)
    (up : ∀ k, k < m.ix.NK → m.z_uk k ≤ cur.H (m.Ju k)) (down : ∀ k, k < m.ix.NK → m.z_dk k ≤ cur.H (m.Jd k))
    (uc : Unclipped m x (m.advance geo inp wk cur co x)
      (endDepthU m geo wk cur co (m.advance geo inp wk cur co x).H)
      (endDepthD m geo wk cur co (m.advance geo inp wk cur co x).H)) {k : ℕ} (hk : k < m.ix.NK) :
    (m.advance geo inp wk cur co x).h (m.ix.I_1k k) + zI (m.ix.I_1k k)
      = (m.advance geo inp wk cur co x).H (m.Ju k)
        - |cur.Qu k| * m.C_uk k / (2 * m.g * geo.A_u k ^ 2) * (m.advance geo inp wk cur co x).Qu k ∧
    (m.advance geo inp wk cur co x).h (m.ix.I_1k k + m.ix.nk k) + zI (m.ix.I_1k k + m.ix.nk k)
      = (m.advance geo inp wk cur co x).H (m.Jd k)
        + |cur.Qd k| * m.C_dk k / (2 * m.g * geo.A_d k ^ 2) * (m.advance geo inp wk cur co x).Qd k := by
  obtain ⟨h0, hn⟩ := C04_reported_end_depths c uc hk
  rw [h0, hn, bed.up k hk, bed.down k hk]
  have qu : (m.advance geo inp wk cur co x).Qu k
      = Quk (m.endRec wk co k) (m.headCoef geo cur k) ((m.advance geo inp wk cur co x).H (m.Ju k))
        ((m.advance geo inp wk cur co x).H (m.Jd k)) := rfl
  have qd : (m.advance geo inp wk cur co x).Qd k
      = Qdk (m.endRec wk co k) (m.headCoef geo cur k) ((m.advance geo inp wk cur co x).H (m.Ju k))
        ((m.advance geo inp wk cur co x).H (m.Jd k)) := rfl
  constructor
  · simp only [endDepthU, huk]
    rw [← qu]
    simp only [Model.headCoef, headCoefZ, gammaUk, safeDivide_eq, theta, ge_iff_le, if_pos (up k hk)]
    ring
  · simp only [endDepthD, hdk]
    rw [← qd]
    simp only [Model.headCoef, headCoefZ, gammaDk, safeDivide_eq, theta, ge_iff_le, if_pos (down k hk)]
    ring

/-! ### C154 -/

/-- **C154 (account).** In a step in which no bound was active and all pipe ends are below water, the energy after the
step, the (never negative) energy of the change, and `dt` times losses and advection equal the energy before the step
plus `dt` times the power of supplies and controls. Prescribed heads stand at the level of reference. -/
theorem C154_account (c : m.Consistent) (st : StartTables m) (ps : PhysicalStep m geo inp) (cw : CleanWork m wk.mats)
    (he : m.end_method = .b) (bed : Bed m zI) (p : Pass m geo inp wk prev cur co x) (T : ℝ)
    (up : ∀ k, k < m.ix.NK → m.z_uk k ≤ cur.H (m.Ju k)) (down : ∀ k, k < m.ix.NK → m.z_dk k ≤ cur.H (m.Jd k))
    (uc : Unclipped m x (m.advance geo inp wk cur co x)
      (endDepthU m geo wk cur co (m.advance geo inp wk cur co x).H)
      (endDepthD m geo wk cur co (m.advance geo inp wk cur co x).H))
    (fixed : ∀ i, i < m.M → m.bc i = true → (m.advance geo inp wk cur co x).H i = T) :
    energyOf m geo cur zI T (m.advance geo inp wk cur co x)
      + (kinetic m geo (fun i => (m.advance geo inp wk cur co x).Q i - prev.Q i)
        + potential m geo cur (fun i => (m.advance geo inp wk cur co x).H i - prev.H i)
          (fun I => (m.advance geo inp wk cur co x).h I - prev.h I))
      + inp.dt * (lossPower m geo cur (m.advance geo inp wk cur co x)
        + advectionPower m geo cur (m.advance geo inp wk cur co x))
    = energyOf m geo cur zI T prev
      + inp.dt * (supplyPower m inp zI T (m.advance geo inp wk cur co x)
        + controlPower m geo inp wk cur co T (m.advance geo inp wk cur co x).H) := by
  have J := junction_energy c ps cw p T uc.heads fixed
  have L : ∀ k ∈ Finset.range m.ix.NK, _ := fun k hk =>
    let hk := Finset.mem_range.mp hk
    let h := C01_momentum_and_continuity c st ps p he uc hk
    link_energy (zI := zI) ps c bed T hk h.1 h.2
  have L := Finset.sum_congr rfl L
  have eK := kinetic_change (m := m) (geo := geo) prev.Q (m.advance geo inp wk cur co x).Q
  have eP := potential_change (m := m) (geo := geo) (cur := cur) (zI := zI) T prev (m.advance geo inp wk cur co x)
  rw [Finset.sum_add_distrib, ← eK, ← Finset.mul_sum, Finset.sum_sub_distrib, Finset.sum_sub_distrib,
    Finset.sum_add_distrib] at L
  rw [J] at eP
  have ends : ∑ k ∈ Finset.range m.ix.NK,
        (((m.advance geo inp wk cur co x).h (m.ix.I_1k k) + zI (m.ix.I_1k k) - T) * (m.advance geo inp wk cur co x).Qu k
        - ((m.advance geo inp wk cur co x).h (m.ix.I_1k k + m.ix.nk k) + zI (m.ix.I_1k k + m.ix.nk k) - T)
          * (m.advance geo inp wk cur co x).Qd k)
      = -(∑ k ∈ Finset.range m.ix.NK,
            (((m.advance geo inp wk cur co x).H (m.Jd k) - T) * (m.advance geo inp wk cur co x).Qd k
              - ((m.advance geo inp wk cur co x).H (m.Ju k) - T) * (m.advance geo inp wk cur co x).Qu k))
        - ∑ k ∈ Finset.range m.ix.NK,
            (|cur.Qu k| * m.C_uk k / (2 * m.g * geo.A_u k ^ 2) * (m.advance geo inp wk cur co x).Qu k ^ 2
            + |cur.Qd k| * m.C_dk k / (2 * m.g * geo.A_d k ^ 2) * (m.advance geo inp wk cur co x).Qd k ^ 2) := by
    rw [← Finset.sum_neg_distrib, ← Finset.sum_sub_distrib]
    refine Finset.sum_congr rfl fun k hk => ?_
    obtain ⟨e1, e2⟩ := end_levels (zI := zI) c bed up down uc (Finset.mem_range.mp hk)
    rw [e1, e2]
    ring
  rw [ends] at L
  have eL : lossPower m geo cur (m.advance geo inp wk cur co x) = _ := Finset.sum_congr rfl fun k _ => add_assoc _ _ _
  rw [Finset.sum_add_distrib] at eL
  unfold energyOf
  rw [eL]
  unfold advectionPower supplyPower
  linear_combination L + eP

/-- **C154 (from rest, partial).** Nothing flows and no pipe end is above water: energy after the step and losses come
out of the levels before the step and the water supplied. Missing: pipe ends above water, see `C154_perched`. -/
theorem C154_from_rest_partial (c : m.Consistent) (st : StartTables m) (ps : PhysicalStep m geo inp)
    (cw : CleanWork m wk.mats) (he : m.end_method = .b) (bed : Bed m zI) (p : Pass m geo inp wk s s co x)
    (rs : AtRest m s) (cl : Calm m geo inp s) (T : ℝ)
    (uc : Unclipped m x (m.advance geo inp wk s co x)
      (endDepthU m geo wk s co (m.advance geo inp wk s co x).H)
      (endDepthD m geo wk s co (m.advance geo inp wk s co x).H))
    (fixed : ∀ i, i < m.M → m.bc i = true → (m.advance geo inp wk s co x).H i = T) :
    energyOf m geo s zI T (m.advance geo inp wk s co x) + inp.dt * lossPower m geo s (m.advance geo inp wk s co x)
      ≤ energyOf m geo s zI T s + inp.dt * supplyPower m inp zI T (m.advance geo inp wk s co x) := by
  have h := C154_account c st ps cw he bed p T cl.up cl.down uc fixed
  have a0 : advectionPower m geo s (m.advance geo inp wk s co x) = 0 := by
    refine Finset.sum_eq_zero fun k hk => Finset.sum_eq_zero fun j hj => ?_
    have hk := Finset.mem_range.mp hk
    have hj := Finset.mem_range.mp hj
    have vu : velocityUp m geo s k j = 0 := by
      unfold velocityUp
      have q1 := rs.Q k hk j hj
      by_cases h0 : j = 0
      · rw [if_pos h0, q1, zero_div]
      · have q2 := rs.Q k hk (j - 1) (by omega)
        rw [← Nat.add_sub_assoc (by omega)] at q2
        simp [h0, q1, q2]
    have vd : velocityDown m geo s k j = 0 := by
      unfold velocityDown
      have q1 := rs.Q k hk j hj
      by_cases h0 : j + 1 = m.ix.nk k
      · simp [h0, q1]
      · have q2 := rs.Q k hk (j + 1) (by omega)
        rw [← add_assoc] at q2
        simp [h0, q1, q2]
    rw [vu, vd]
    simp
  have c0 : controlPower m geo inp wk s co T (m.advance geo inp wk s co x).H = 0 := by
    refine Finset.sum_eq_zero fun i _ => ?_
    obtain ⟨o1, o2, o3⟩ := rest_controls (wk := wk) (co := co) (geo := geo) rs cl.pumps (m.advance geo inp wk s co x).H i
    rw [o1, o2, o3]
    ring
  rw [a0, c0, add_zero, add_zero] at h
  have k0 := kinetic_nonneg c ps (fun i => (m.advance geo inp wk s co x).Q i - s.Q i)
  have p0 := potential_nonneg (cur := s) c ps (fun i => (m.advance geo inp wk s co x).H i - s.H i)
          (fun I => (m.advance geo inp wk s co x).h I - s.h I)
  linarith

/-- **C154 (no faster than it can fall, partial).** Without supplies no link carries more kinetic energy after a step
from rest than the levels held about the reference before it. -/
theorem C154_speed_partial (c : m.Consistent) (st : StartTables m) (ps : PhysicalStep m geo inp)
    (cw : CleanWork m wk.mats) (he : m.end_method = .b) (bed : Bed m zI) (p : Pass m geo inp wk s s co x)
    (rs : AtRest m s) (cl : Calm m geo inp s) (T : ℝ)
    (uc : Unclipped m x (m.advance geo inp wk s co x)
      (endDepthU m geo wk s co (m.advance geo inp wk s co x).H)
      (endDepthD m geo wk s co (m.advance geo inp wk s co x).H))
    (fixed : ∀ i, i < m.M → m.bc i = true → (m.advance geo inp wk s co x).H i = T)
    (q0 : ∀ i, i < m.M → inp.Q_in i = 0) (l0 : ∀ I, inp.Q_0Ik I = 0) {k j : ℕ} (hk : k < m.ix.NK) (hj : j < m.ix.nk k) :
    geo.sigma (m.ix.i_1k k + j) * m.dx (m.ix.i_1k k + j) / (2 * m.g * geo.A (m.ix.i_1k k + j))
        * (m.advance geo inp wk s co x).Q (m.ix.i_1k k + j) ^ 2
      ≤ potential m geo s (fun i => s.H i - T) (fun I => s.h I + zI I - T) := by
  have h := C154_from_rest_partial c st ps cw he bed p rs cl T uc fixed
  have s0 : supplyPower m inp zI T (m.advance geo inp wk s co x) = 0 := by
    unfold supplyPower
    rw [Finset.sum_eq_zero fun i hi => by rw [q0 i (Finset.mem_range.mp hi), mul_zero],
      Finset.sum_eq_zero fun k _ => Finset.sum_eq_zero fun j _ => by rw [l0, mul_zero], add_zero]
  have l1 := mul_nonneg ps.dt_pos.le (lossPower_nonneg (cur := s) c ps (m.advance geo inp wk s co x))
  have p0 := potential_nonneg (cur := s) c ps (fun i => (m.advance geo inp wk s co x).H i - T)
    (fun I => (m.advance geo inp wk s co x).h I + zI I - T)
  have k1 : kinetic m geo s.Q = 0 := by
    refine Finset.sum_eq_zero fun k hk => Finset.sum_eq_zero fun j hj => ?_
    rw [rs.Q k (Finset.mem_range.mp hk) j (Finset.mem_range.mp hj)]
    ring
  have g0 := ps.g_pos
  have t0 : ∀ k, k < m.ix.NK → ∀ j, j < m.ix.nk k →
      0 ≤ geo.sigma (m.ix.i_1k k + j) * m.dx (m.ix.i_1k k + j) / (2 * m.g * geo.A (m.ix.i_1k k + j))
        * (m.advance geo inp wk s co x).Q (m.ix.i_1k k + j) ^ 2 := by
    intro k hk j hj
    have hN := c.inN k hk
    have hl : m.ix.i_1k k + j < m.N := by omega
    have := ps.A_pos _ hl
    have := ps.sigma_pos _ hl
    have := ps.dx_pos _ hl
    positivity
  have k2 : geo.sigma (m.ix.i_1k k + j) * m.dx (m.ix.i_1k k + j) / (2 * m.g * geo.A (m.ix.i_1k k + j))
        * (m.advance geo inp wk s co x).Q (m.ix.i_1k k + j) ^ 2 ≤ kinetic m geo (m.advance geo inp wk s co x).Q := by
    refine (Finset.single_le_sum (f := fun j => geo.sigma (m.ix.i_1k k + j) * m.dx (m.ix.i_1k k + j)
        / (2 * m.g * geo.A (m.ix.i_1k k + j)) * (m.advance geo inp wk s co x).Q (m.ix.i_1k k + j) ^ 2)
      (fun j hj => t0 k hk j (Finset.mem_range.mp hj)) (Finset.mem_range.mpr hj)).trans ?_
    exact Finset.single_le_sum (f := fun k => ∑ j ∈ Finset.range (m.ix.nk k), geo.sigma (m.ix.i_1k k + j)
        * m.dx (m.ix.i_1k k + j) / (2 * m.g * geo.A (m.ix.i_1k k + j))
        * (m.advance geo inp wk s co x).Q (m.ix.i_1k k + j) ^ 2)
      (fun k hk => Finset.sum_nonneg fun j hj => t0 k (Finset.mem_range.mp hk) j (Finset.mem_range.mp hj))
      (Finset.mem_range.mpr hk)
  unfold energyOf at h
  rw [s0, k1] at h
  linarith

/-- **C154, refuted (already by constructing the model).** Nothing flows, nothing is supplied, and the fixed head stands
at the level of reference; in the model which the constructor returns the energy has grown more than fivefold: the end
of the channel is above the water of the lower superjunction. -/
theorem C154_perched : AtRest perModel (perModel.start perGiven) ∧ ∃ o, Built perModel inPlan perGiven o ∧
    ∀ Ao, energyOf perModel (perModel.geoOf inPlan (Hidden.fresh perGiven.Ao) Ao (perModel.start perGiven))
        (perModel.start perGiven) (fun _ => 1) 2 (perModel.start perGiven) = 9 / 8 ∧
      49 / 8 ≤ energyOf perModel (perModel.geoOf inPlan (Hidden.fresh perGiven.Ao) Ao (perModel.start perGiven))
        (perModel.start perGiven) (fun _ => 1) 2 o.cur := by
  obtain ⟨rs, -, o, hb, hh⟩ := C152_constructed
  refine ⟨rs, o, hb, fun Ao => ?_⟩
  have wet : ∀ I, perModel.min_depth ≤ perGiven.hJ I := fun _ => by norm_num [perModel, inModel, reModel, perGiven]
  have nr : NoRound perModel inPlan := fun a ha => by simp [perModel, inModel, reModel] at ha
  have ps := physical_geoOf perSound (hiddenGood nr) (Hidden.fresh perGiven.Ao) Ao (s := perModel.start perGiven) wet
  set geo := perModel.geoOf inPlan (Hidden.fresh perGiven.Ao) Ao (perModel.start perGiven) with hgeo
  have as : geo.As 1 = 1 := by
    rw [hgeo]
    simp only [Model.geoOf]
    rw [upTo_of_lt _ (by norm_num [perModel, inModel, reModel])]
    norm_num [inPlan, rePlan, Storage.A, Interp.functionalArea, Interp.storageDepth, perModel, inModel, reModel]
  have ow : openWater perModel geo (perModel.start perGiven) 1 = 1 := by
    norm_num [openWater, as, perModel, inModel, reModel, endArea, Model.start, perGiven]
  have pot : ∀ H y, potential perModel geo (perModel.start perGiven) H y = 1 / 2 * H 1 ^ 2
      + (surfaceArea perModel geo 0 0 / 2 * y 0 ^ 2 + surfaceArea perModel geo 0 1 / 2 * y 1 ^ 2) := by
    intro H y
    unfold potential
    rw [show perModel.M = 2 from rfl, show perModel.ix.NK = 1 from rfl, Finset.sum_range_succ, Finset.sum_range_one,
      Finset.sum_range_one, show perModel.ix.nk 0 = 1 from rfl, Finset.sum_range_succ, Finset.sum_range_one, ow]
    norm_num [perModel, inModel, reModel]
  have kin : kinetic perModel geo (perModel.start perGiven).Q = 0 := by
    simp [kinetic, Model.start, perGiven]
  constructor
  · unfold energyOf
    rw [pot, kin]
    norm_num [perModel, inModel, reModel, perGiven, Model.start]
  · unfold energyOf
    rw [pot]
    have k0 := kinetic_nonneg perConsistent ps o.cur.Q
    have s0 := surfaceArea_nonneg (k := 0) perConsistent ps (by norm_num [perModel, inModel, reModel]) (Nat.zero_le _)
    have s1 := surfaceArea_nonneg (k := 0) (j := 1) perConsistent ps (by norm_num [perModel, inModel, reModel])
      (by norm_num [perModel, inModel, reModel])
    have t0 := mul_nonneg s0 (sq_nonneg (o.cur.h 0 + 1 - 2))
    have t1 := mul_nonneg s1 (sq_nonneg (o.cur.h 1 + 1 - 2))
    nlinarith [hh]

/-- Two superjunctions at 2 m and 1 m, joined by a channel with 1 m of water at rest: in a step of one second the
energy about 1.5 m does not grow. -/
example : ∃ o' Ao, Calls1 (inModel false) inPlan true (reInp 1)
      ((inModel false).blank ⟨fun j => if j = 0 then 2 else 1, fun _ => 1, fun _ => 0, fun _ => 0⟩) o' ∧
    let s := (inModel false).start ⟨fun j => if j = 0 then 2 else 1, fun _ => 1, fun _ => 0, fun _ => 0⟩
    let geo := (inModel false).geoOf inPlan (Hidden.fresh fun _ => 0) Ao s
    energyOf (inModel false) geo s (fun _ => 0) (3 / 2) o'.cur ≤ energyOf (inModel false) geo s (fun _ => 0) (3 / 2) s := by
  set gv : Given := ⟨fun j => if j = 0 then 2 else 1, fun _ => 1, fun _ => 0, fun _ => 0⟩ with hgv
  have gi : GoodInputs (inModel false) inPlan (reInp 1) :=
    ⟨(reGood 1).dt_pos, fun p hp => by simp [inModel, reModel] at hp, fun a ha => by simp [inModel, reModel] at ha⟩
  have wet : ∀ I, (inModel false).min_depth ≤ gv.hJ I := fun _ => by norm_num [inModel, reModel, hgv]
  obtain ⟨o', Ao, co, x, ho, p, e⟩ := C105_step_succeeds (inSound false) gi true (blankGood wet)
  have ps := physical_geoOf (inSound false) gi ((inModel false).blank gv).hid Ao (s := ((inModel false).blank gv).cur) wet
  have hs : ((inModel false).blank gv).cur = (inModel false).start gv := rfl
  have hH : ∀ i, ((inModel false).start gv).H i = if i = 0 then 2 else 1 := by
    intro i; by_cases h : i = 0 <;> norm_num [Model.start, inModel, reModel, hgv, h]
  have bed : Bed (inModel false) fun _ => 0 := by
    refine ⟨?_, ?_, ?_⟩ <;> norm_num [inModel, reModel]
  have rs : AtRest (inModel false) ((inModel false).blank gv).cur := by
    refine ⟨?_, ?_, ?_, ?_, ?_⟩ <;> intros <;> rfl
  have cl : Calm (inModel false)
      ((inModel false).geoOf inPlan ((inModel false).blank gv).hid Ao ((inModel false).blank gv).cur) (reInp 1)
      ((inModel false).blank gv).cur := by
    refine ⟨fun k _ => ?_, fun k _ => ?_, fun q hq => ?_, fun k hk j h1 h2 => ?_⟩
    · rw [hs, hH]; norm_num [inModel, reModel]
    · rw [hs, hH]; norm_num [inModel, reModel]
    · simp [inModel, reModel] at hq
    · simp [inModel, reModel] at h2; omega
  have hi : ∀ i, ((inModel false).blank gv).cur.H i ≤ 2 ∧ 1 ≤ ((inModel false).blank gv).cur.H i := by
    intro i; rw [hs, hH]; by_cases h : i = 0 <;> norm_num [h]
  have lo : ∀ i, i < 2 → _ := fun i hi' =>
    C152_no_lower_partial (inConsistent false) (inTables false) ps (freshClean _) rfl bed p rs cl (T := 1)
      ⟨fun i _ => (hi i).2, fun k _ j _ => by rw [hs]; norm_num [Model.start, hgv]⟩
      ⟨fun _ _ => le_rfl, fun _ => le_rfl, fun f hf i _ hb => by simp [inModel, reModel] at hb⟩
      (fun i _ => (hi i).1.trans (by norm_num [inModel, reModel])) i hi'
  have up : ∀ i, i < 2 → _ := fun i hi' =>
    C152_no_higher_partial (inConsistent false) (inTables false) ps (freshClean _) rfl bed p rs cl (T := 2)
      ⟨fun i _ => (hi i).1, fun k _ j _ => by rw [hs]; norm_num [Model.start, hgv]⟩
      ⟨fun _ _ => le_rfl, fun _ => le_rfl, fun f hf i _ hb => by simp [inModel, reModel] at hb⟩
      (fun i _ => le_trans (by norm_num [inModel, reModel]) (hi i).2) i hi'
  refine ⟨o', Ao, ⟨Ao, co, x, ho, p, e⟩, ?_⟩
  intro s geo
  rw [e]
  have uc : Unclipped (inModel false) x ((inModel false).advance geo (reInp 1) freshWork s co x)
      (endDepthU (inModel false) geo freshWork s co ((inModel false).advance geo (reInp 1) freshWork s co x).H)
      (endDepthD (inModel false) geo freshWork s co ((inModel false).advance geo (reInp 1) freshWork s co x).H) := by
    refine ⟨fun j hj => ?_, fun k hk => ?_, fun k hk j h1 h2 => ?_⟩
    · have h1 := (lo j hj).1
      have h2 := (up j hj).1
      constructor
      · refine le_trans ?_ h1; norm_num [inModel, reModel]
      · refine h2.trans ?_; norm_num [inModel, reModel]
    · have re := rest_ends (Q1 := ((inModel false).advance geo (reInp 1) freshWork s co x).Qu k)
        (Q2 := ((inModel false).advance geo (reInp 1) freshWork s co x).Qd k)
        (H1 := ((inModel false).advance geo (reInp 1) freshWork s co x).H ((inModel false).Ju k))
        (H2 := ((inModel false).advance geo (reInp 1) freshWork s co x).H ((inModel false).Jd k)) rs cl bed hk
      have a1 := (lo ((inModel false).Ju k) ((inConsistent false).Ju k hk)).2
      have a2 := (lo ((inModel false).Jd k) ((inConsistent false).Jd k hk)).2
      refine ⟨?_, ?_, by norm_num [inModel, reModel]⟩
      · have : endDepthU (inModel false) geo freshWork s co ((inModel false).advance geo (reInp 1) freshWork s co x).H k
            = ((inModel false).advance geo (reInp 1) freshWork s co x).H ((inModel false).Ju k) :=
          (add_zero _).symm.trans re.1
        rw [this]
        refine le_trans ?_ a1
        norm_num [inModel, reModel]
      · have : endDepthD (inModel false) geo freshWork s co ((inModel false).advance geo (reInp 1) freshWork s co x).H k
            = ((inModel false).advance geo (reInp 1) freshWork s co x).H ((inModel false).Jd k) :=
          (add_zero _).symm.trans re.2
        rw [this]
        refine le_trans ?_ a2
        norm_num [inModel, reModel]
    · simp [inModel, reModel] at h2; omega
  have key := C154_from_rest_partial (inConsistent false) (inTables false) ps (freshClean _) rfl bed p rs cl (3 / 2) uc
    (fun i _ hb => by simp [inModel, reModel] at hb)
  have l0 := mul_nonneg ps.dt_pos.le (lossPower_nonneg (cur := s) (inConsistent false) ps
    ((inModel false).advance geo (reInp 1) freshWork s co x))
  have s0 : supplyPower (inModel false) (reInp 1) (fun _ => 0) (3 / 2)
      ((inModel false).advance geo (reInp 1) freshWork s co x) = 0 := by
    simp [supplyPower, reInp]
  have key : _ + (reInp 1).dt * lossPower (inModel false) geo s ((inModel false).advance geo (reInp 1) freshWork s co x)
    ≤ _ + (reInp 1).dt * supplyPower (inModel false) (reInp 1) (fun _ => 0) (3 / 2)
      ((inModel false).advance geo (reInp 1) freshWork s co x) := key
  rw [s0, mul_zero, add_zero] at key
  exact (le_add_of_nonneg_right l0).trans key

end

end Pipedream.Step
