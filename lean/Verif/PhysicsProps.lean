import Verif.StepProps
import Verif.DriverProps

/-!
# The step in plain variables: C01, C04, C07, C16, C46

The theorems of `StepProps` refer to the coefficients computed by the model. Here the same claims are
restated with the quantities a user knows — lengths, widths, areas, inverts, old and new depths, heads
and flows — so that no definition of the model takes part in the statement.
-/

namespace Pipedream.Step

open Pipedream.Sweep Pipedream.Link Pipedream.Superlink Pipedream.Control Pipedream.Network

variable {m : Model} {geo : Geo} {inp : Inputs} {wk : Work} {prev cur : Hyd} {co : Coef ℝ} {x : ℕ → ℝ}

noncomputable section

/-! ### Specification -/

/-- The tables of first and last links agree with the layout. -/
structure StartTables (m : Model) : Prop where
  first : ∀ k, k < m.ix.NK → ∀ j, j < m.ix.nk k → (m.linkStart (m.ix.i_1k k + j) = true ↔ j = 0)
  last : ∀ k, k < m.ix.NK → ∀ j, j < m.ix.nk k → (m.linkEnd (m.ix.i_1k k + j) = true ↔ j + 1 = m.ix.nk k)

/-- Resistance of a wet link per unit of flow: Manning (0), Hazen–Williams (1), Darcy–Weisbach (2, with
the Swamee–Jain factor). -/
def frictionLaw (g : ℝ) (method : ℤ) (Q dx A R n : ℝ) : ℝ :=
  if method = 0 then g * n ^ 2 * |Q| * dx / (A * R ^ (4 / 3 : ℝ))
  else if method = 1 then
    1.354 * g * |Q| ^ (0.85 : ℝ) * dx / (A ^ (0.85 : ℝ) * n ^ (1.85 : ℝ) * R ^ (1.1655 : ℝ))
  else
    0.01274 * g * (0.25 / (Real.logb 10 (n / (14.8 * R)
      + 5.74 / (|Q| * 4 * R / (A * 0.0000010034)) ^ (0.9 : ℝ))) ^ 2) * |Q| * dx / (A * R)

/-- Velocity at the upstream end of link `j` of superlink `k`. -/
def velocityUp (m : Model) (geo : Geo) (cur : Hyd) (k j : ℕ) : ℝ :=
  let i := m.ix.i_1k k + j
  if j = 0 then cur.Q i / geo.A i
  else (m.dx i * (cur.Q (i - 1) / geo.A (i - 1)) + m.dx (i - 1) * (cur.Q i / geo.A i)) / (m.dx i + m.dx (i - 1))

/-- Velocity at the downstream end of link `j` of superlink `k`. -/
def velocityDown (m : Model) (geo : Geo) (cur : Hyd) (k j : ℕ) : ℝ :=
  let i := m.ix.i_1k k + j
  if j + 1 = m.ix.nk k then cur.Q i / geo.A i
  else (m.dx i * (cur.Q (i + 1) / geo.A (i + 1)) + m.dx (i + 1) * (cur.Q i / geo.A i)) / (m.dx i + m.dx (i + 1))

/-- Water surface area of junction `j` of superlink `k`: half of each adjoining stretch, plus its own. -/
def surfaceArea (m : Model) (geo : Geo) (k j : ℕ) : ℝ :=
  (if j = 0 then m.dx_uk k * geo.B_u k / 2
    else m.dx (m.ix.i_1k k + j - 1) * geo.B (m.ix.i_1k k + j - 1) / 2)
  + (if j = m.ix.nk k then m.dx_dk k * geo.B_d k / 2
    else m.dx (m.ix.i_1k k + j) * geo.B (m.ix.i_1k k + j) / 2)
  + m.A_S (m.ix.I_1k k + j)

/-- Flow arriving at junction `j` of superlink `k` from upstream. -/
def arriving (m : Model) (s : Hyd) (k j : ℕ) : ℝ := if j = 0 then s.Qu k else s.Q (m.ix.i_1k k + j - 1)

/-- Flow leaving junction `j` of superlink `k` downstream. -/
def leaving (m : Model) (s : Hyd) (k j : ℕ) : ℝ := if j = m.ix.nk k then s.Qd k else s.Q (m.ix.i_1k k + j)

/-- Momentum of link `j`: inertia, resistance, local loss and upwinded advection balance gravity and the
pressure gradient. `prev` is the state before the step, `cur` the state at which coefficients were
evaluated, `next` the new one. -/
def MomentumEq (m : Model) (geo : Geo) (inp : Inputs) (prev cur next : Hyd) (k j : ℕ) : Prop :=
  let i := m.ix.i_1k k + j
  let I := m.ix.I_1k k + j
  geo.sigma i * m.dx i * ((next.Q i - prev.Q i) / inp.dt)
    + frictionLaw m.g (m.method i) (cur.Q i) (m.dx i) (geo.A i) (geo.R i) (m.n i) * next.Q i
    + (if m.ctrl i then m.C i * geo.A i * |cur.Q i| / m.A_c i ^ 2 * next.Q i else 0)
    + geo.sigma i * max (velocityUp m geo cur k j) 0 * (next.Q i - arriving m next k j)
    + geo.sigma i * max (-velocityDown m geo cur k j) 0 * (next.Q i - leaving m next k (j + 1))
    = m.g * geo.A i * (m.S_o i * m.dx i + next.h I - next.h (I + 1))

/-- Continuity of junction `j`: storage change equals arriving flow minus leaving flow plus lateral inflow. -/
def ContinuityEq (m : Model) (geo : Geo) (inp : Inputs) (prev next : Hyd) (k j : ℕ) : Prop :=
  surfaceArea m geo k j * ((next.h (m.ix.I_1k k + j) - prev.h (m.ix.I_1k k + j)) / inp.dt)
    = arriving m next k j - leaving m next k j + inp.Q_0Ik (m.ix.I_1k k + j)

/-! ### C01 -/

theorem frictionLaw_eq {g Q dx A R n t : ℝ} {method : ℤ} (hA : 0 < A) (hR : 0 < R) (hn : 0 < n)
    (h : frictionSlope Q dx A R n method g = .ok t) : t = frictionLaw g method Q dx A R n := by
  unfold frictionSlope at h
  rw [if_pos hA] at h
  unfold frictionLaw
  by_cases h0 : method = 0
  · rw [if_pos h0] at h
    have hr : R ^ (4 / 3 : ℝ) ≠ 0 := (Real.rpow_pos_of_pos hR _).ne'
    simp only [pyDiv_ok _ hA.ne', pyDiv_ok _ hr, bind, Except.bind] at h
    injection h with h
    rw [if_pos h0, ← h, div_div]
  rw [if_neg h0] at h ⊢
  by_cases h1 : method = 1
  · rw [if_pos h1] at h
    have hr : R ^ (1.1655 : ℝ) ≠ 0 := (Real.rpow_pos_of_pos hR _).ne'
    have ha : A ^ (0.85 : ℝ) ≠ 0 := (Real.rpow_pos_of_pos hA _).ne'
    have hn' : n ^ (1.85 : ℝ) ≠ 0 := (Real.rpow_pos_of_pos hn _).ne'
    simp only [pyDiv_ok _ ha, pyDiv_ok _ hn', pyDiv_ok _ hr, bind, Except.bind] at h
    injection h with h
    rw [if_pos h1, ← h, div_div, div_div, ← mul_assoc]
  rw [if_neg h1] at h ⊢
  by_cases h2 : method = 2
  · rw [if_pos h2] at h
    have h3 : (3.7 * 4 * R : ℝ) ≠ 0 := by positivity
    have h4 : A * R ≠ 0 := by positivity
    have er : |Q| / A * 4 * R / nuVisc = |Q| * 4 * R / (A * 0.0000010034) := by
      unfold nuVisc; field_simp
    have el : (3.7 * 4 * R : ℝ) = 14.8 * R := by norm_num
    simp only [pyDiv_ok _ hA.ne', pyDiv_ok _ h3, pyDiv_ok _ h4, bind, Except.bind] at h
    rw [er, el] at h
    by_cases c1 : (|Q| * 4 * R / (A * 0.0000010034)) ^ (0.9 : ℝ) = 0
    · simp [pyDiv, c1] at h
    · simp only [pyDiv_ok _ c1] at h
      by_cases c2 : Real.logb 10 (n / (14.8 * R) + 5.74 / (|Q| * 4 * R / (A * 0.0000010034)) ^ (0.9 : ℝ)) ^ 2 = 0
      · simp [pyDiv, c2] at h
      · simp only [pyDiv_ok _ c2] at h
        injection h with h
        rw [← h]
  · rw [if_neg h2] at h; cases h

theorem velocityUp_eq (c : m.Consistent) (ps : PhysicalStep m geo inp) (st : StartTables m) {k j : ℕ}
    (hk : k < m.ix.NK) (hj : j < m.ix.nk k) :
    uIk m.dx (fun i => uik (cur.Q i) (geo.A i)) m.linkStart (m.ix.i_1k k + j) = velocityUp m geo cur k j := by
  have hN := c.inN k hk
  have a0 := (ps.A_pos (m.ix.i_1k k + j) (by omega)).ne'
  simp only [uIk, velocityUp, uik]
  by_cases h0 : j = 0
  · rw [if_pos h0, if_pos ((st.first k hk j hj).2 h0), if_pos a0]
  · have a1 := (ps.A_pos (m.ix.i_1k k + j - 1) (by omega)).ne'
    have d : m.dx (m.ix.i_1k k + j) + m.dx (m.ix.i_1k k + j - 1) ≠ 0 :=
      (add_pos (ps.dx_pos _ (by omega)) (ps.dx_pos _ (by omega))).ne'
    have hs : ¬ m.linkStart (m.ix.i_1k k + j) = true := fun h => h0 ((st.first k hk j hj).1 h)
    rw [if_neg h0, if_neg hs, if_pos d, if_pos a0, if_pos a1]

theorem velocityDown_eq (c : m.Consistent) (ps : PhysicalStep m geo inp) (st : StartTables m) {k j : ℕ}
    (hk : k < m.ix.NK) (hj : j < m.ix.nk k) :
    uIp1k m.dx (fun i => uik (cur.Q i) (geo.A i)) m.linkEnd (m.ix.i_1k k + j) = velocityDown m geo cur k j := by
  have hN := c.inN k hk
  have a0 := (ps.A_pos (m.ix.i_1k k + j) (by omega)).ne'
  simp only [uIp1k, velocityDown, uik]
  by_cases h0 : j + 1 = m.ix.nk k
  · rw [if_pos h0, if_pos ((st.last k hk j hj).2 h0), if_pos a0]
  · have a1 := (ps.A_pos (m.ix.i_1k k + j + 1) (by omega)).ne'
    have d : m.dx (m.ix.i_1k k + j) + m.dx (m.ix.i_1k k + j + 1) ≠ 0 :=
      (add_pos (ps.dx_pos _ (by omega)) (ps.dx_pos _ (by omega))).ne'
    have hs : ¬ m.linkEnd (m.ix.i_1k k + j) = true := fun h => h0 ((st.last k hk j hj).1 h)
    rw [if_neg h0, if_neg hs, if_pos d, if_pos a0, if_pos a1]

theorem surfaceArea_eq (k j : ℕ) :
    junctionArea (m.nodeIn geo inp prev) (m.ix.nk k) (m.ix.I_1k k) (m.ix.i_1k k) k j = surfaceArea m geo k j := by
  simp only [junctionArea, surfaceArea, Model.nodeIn]
  split_ifs <;> ring

/-- **C01 (in plain variables).** In an unclipped step of a wet network the new flows and depths satisfy
the discretised momentum equation of every link and the continuity equation of every pipe junction, where
resistance, advection velocities and surface areas are spelled out and the old flows and depths are those
saved before the step. -/
theorem C01_momentum_and_continuity (c : m.Consistent) (st : StartTables m) (ps : PhysicalStep m geo inp)
    (p : Pass m geo inp wk prev cur co x) (he : m.end_method = .b)
    (uc : Unclipped m x (m.advance geo inp wk cur co x)
      (endDepthU m geo wk cur co (m.advance geo inp wk cur co x).H)
      (endDepthD m geo wk cur co (m.advance geo inp wk cur co x).H))
    {k : ℕ} (hk : k < m.ix.NK) :
    (∀ j, j < m.ix.nk k → MomentumEq m geo inp prev cur (m.advance geo inp wk cur co x) k j) ∧
    (∀ j, j ≤ m.ix.nk k → ContinuityEq m geo inp prev (m.advance geo inp wk cur co x) k j) := by
  have S := C01_step c ps p he uc hk
  have hN := c.inN k hk
  set next := m.advance geo inp wk cur co x with hnext
  have qi : ∀ j, qIn (fun j => next.Q (m.ix.i_1k k + j)) (next.Qu k) j = arriving m next k j := by
    intro j
    unfold qIn arriving
    split_ifs with h
    · rfl
    · rw [Nat.add_sub_assoc (by omega)]
  have qo : ∀ j, qOut (m.ix.nk k) (fun j => next.Q (m.ix.i_1k k + j)) (next.Qd k) j = leaving m next k j :=
    fun j => rfl
  have dt0 := ps.dt_pos.ne'
  constructor
  · intro j hj
    obtain ⟨ha, hb, hcc, hP, hA⟩ := p.coefs.1 (m.ix.i_1k k + j) (by omega)
    have M := S.momentum j hj
    rw [qi, qo] at M
    simp only [Coef.slice] at M
    simp only [LinkIn.b, bIk] at hb
    cases hf : frictionSlope ((m.linkIn geo inp prev cur).Qnext (m.ix.i_1k k + j))
        ((m.linkIn geo inp prev cur).dx (m.ix.i_1k k + j)) ((m.linkIn geo inp prev cur).A (m.ix.i_1k k + j))
        ((m.linkIn geo inp prev cur).R (m.ix.i_1k k + j)) ((m.linkIn geo inp prev cur).n (m.ix.i_1k k + j))
        ((m.linkIn geo inp prev cur).method (m.ix.i_1k k + j)) m.g with
    | error e => rw [hf] at hb; simp [bind, Except.bind] at hb
    | ok t =>
      have ht := frictionLaw_eq (ps.A_pos _ (by omega)) (ps.R_pos _ (by omega)) (ps.n_pos _ (by omega)) hf
      rw [hf] at hb
      simp only [bind, Except.bind, pure, Except.pure] at hb
      injection hb with hb
      rw [← hb, ha, hcc, hP, hA, ht] at M
      simp only [LinkIn.a, LinkIn.c, LinkIn.P, Model.linkIn, aIk, cIk, PIk] at M
      rw [velocityUp_eq c ps st hk hj, velocityDown_eq c ps st hk hj] at M
      simp only [MomentumEq]
      rw [show m.ix.I_1k k + j + 1 = m.ix.I_1k k + (j + 1) by omega]
      cases hct : m.ctrl (m.ix.i_1k k + j)
      · simp only [hct, Bool.false_eq_true, if_false] at M ⊢
        linear_combination M
      · simp only [hct, if_true] at M ⊢
        linear_combination M
  · intro j hj
    have Cn := S.continuity j hj
    rw [qi, qo] at Cn
    simp only [Coef.slice] at Cn
    obtain ⟨eE, eD⟩ := node_coeffs_eq (y := m.nodeIn geo inp prev) (c.layout.pos k hk) (c.nodes k hk) hj
    rw [p.coefs.2.1, p.coefs.2.2, eE, eD, surfaceArea_eq] at Cn
    simp only [ContinuityEq]
    simp only [Model.nodeIn] at Cn
    linear_combination Cn

/-! ### C04 -/

/-- **C04 (in plain variables).** The end depths of a superlink whose end sections are wet: where the
adjoining head was at or above the end invert, the new depth is the new head above the invert, lowered by
the entrance loss (upstream) or raised by the exit loss (downstream), each `|Q|·C/(2 g A²)` per unit of
flow with the flow of the current iterate; where it was below the invert only the loss term remains. -/
theorem C04_end_depths (ps : PhysicalStep m geo inp) {k : ℕ} (hu : 0 < geo.A_u k) (hd : 0 < geo.A_d k) :
    endDepthU m geo wk cur co (m.advance geo inp wk cur co x).H k
      = (if m.z_uk k ≤ cur.H (m.Ju k) then (m.advance geo inp wk cur co x).H (m.Ju k) - m.z_uk k else 0)
        - |cur.Qu k| * m.C_uk k / (2 * m.g * geo.A_u k ^ 2) * (m.advance geo inp wk cur co x).Qu k ∧
    endDepthD m geo wk cur co (m.advance geo inp wk cur co x).H k
      = (if m.z_dk k ≤ cur.H (m.Jd k) then (m.advance geo inp wk cur co x).H (m.Jd k) - m.z_dk k else 0)
        + |cur.Qd k| * m.C_dk k / (2 * m.g * geo.A_d k ^ 2) * (m.advance geo inp wk cur co x).Qd k := by
  have g0 := ps.g_pos
  have e1 : (2 * geo.A_u k ^ 2 * m.g) ≠ 0 := by positivity
  have e2 : (2 * geo.A_d k ^ 2 * m.g) ≠ 0 := by positivity
  constructor
  · simp only [endDepthU, huk, Model.headCoef, headCoefZ, gammaUk, safeDivide_of_ne _ e1]
    have : (m.advance geo inp wk cur co x).Qu k
      = Quk (m.endRec wk co k) (m.headCoef geo cur k) ((m.advance geo inp wk cur co x).H (m.Ju k))
        ((m.advance geo inp wk cur co x).H (m.Jd k)) := rfl
    rw [this]
    simp only [Model.headCoef, headCoefZ, gammaUk, safeDivide_of_ne _ e1, theta, ge_iff_le]
    split_ifs <;> ring
  · simp only [endDepthD, hdk, Model.headCoef, headCoefZ, gammaDk, safeDivide_of_ne _ e2]
    have : (m.advance geo inp wk cur co x).Qd k
      = Qdk (m.endRec wk co k) (m.headCoef geo cur k) ((m.advance geo inp wk cur co x).H (m.Ju k))
        ((m.advance geo inp wk cur co x).H (m.Jd k)) := rfl
    rw [this]
    simp only [Model.headCoef, headCoefZ, gammaDk, safeDivide_of_ne _ e2, theta, ge_iff_le]
    split_ifs <;> ring

/-- The reported depths of the first and last junction of an unclipped superlink are these end depths. -/
theorem C04_reported_end_depths (c : m.Consistent)
    (uc : Unclipped m x (m.advance geo inp wk cur co x)
      (endDepthU m geo wk cur co (m.advance geo inp wk cur co x).H)
      (endDepthD m geo wk cur co (m.advance geo inp wk cur co x).H))
    {k : ℕ} (hk : k < m.ix.NK) :
    (m.advance geo inp wk cur co x).h (m.ix.I_1k k)
      = endDepthU m geo wk cur co (m.advance geo inp wk cur co x).H k ∧
    (m.advance geo inp wk cur co x).h (m.ix.I_1k k + m.ix.nk k)
      = endDepthD m geo wk cur co (m.advance geo inp wk cur co x).H k := by
  obtain ⟨eu, ed, mm⟩ := uc.ends k hk
  have R := sweptInternals_rel m.g co m.ix m.min_depth m.max_depth_k
      (endDepthU m geo wk cur co (m.advance geo inp wk cur co x).H)
      (endDepthD m geo wk cur co (m.advance geo inp wk cur co x).H) m.back wk.f wk.b ⟨cur.h, cur.Q⟩ c.layout hk
      eu ed mm
  exact ⟨R.h0, R.hn⟩

/-! ### C16 -/

/-- Free surface of the stretch between an end of a superlink and its superjunction, counted with the
superjunction only while its head reaches the end invert. -/
def endArea (head invert dx B : ℝ) : ℝ := if invert ≤ head then dx * B / 2 else 0

/-- Volume gained between `prev` and `next`: superjunction storage, end stretches, pipe junctions. -/
def volumeChange (m : Model) (geo : Geo) (prev cur next : Hyd) : ℝ :=
  (∑ i ∈ Finset.range m.M, geo.As i * (next.H i - prev.H i))
  + (∑ k ∈ Finset.range m.ix.NK,
      (endArea (cur.H (m.Ju k)) (m.z_uk k) (m.dx_uk k) (geo.B_u k) * (next.H (m.Ju k) - prev.H (m.Ju k))
        + endArea (cur.H (m.Jd k)) (m.z_dk k) (m.dx_dk k) (geo.B_d k) * (next.H (m.Jd k) - prev.H (m.Jd k))))
  + ∑ k ∈ Finset.range m.ix.NK, ∑ j ∈ Finset.range (m.ix.nk k + 1),
      surfaceArea m geo k j * (next.h (m.ix.I_1k k + j) - prev.h (m.ix.I_1k k + j))

theorem xi_endArea {dt : ℝ} (dt0 : dt ≠ 0) (dx B H z : ℝ) : dt * xi dx B (theta H z) dt = endArea H z dx B := by
  unfold xi theta endArea
  simp only [ge_iff_le]
  split_ifs
  · field_simp
  · simp

theorem volumeGain_eq (c : m.Consistent) (ps : PhysicalStep m geo inp) (next : Hyd) :
    volumeGain m geo inp wk prev cur next co = volumeChange m geo prev cur next := by
  have dt0 := ps.dt_pos.ne'
  unfold volumeGain volumeChange
  congr 1
  · congr 1
    simp only [Links.xiSum, Finset.mul_sum, Finset.sum_mul]
    rw [Finset.sum_comm]
    apply Finset.sum_congr rfl
    intro k hk
    have hk : k < m.ix.NK := Finset.mem_range.mp hk
    have h1 := c.Ju k hk
    have h2 := c.Jd k hk
    have e : ∀ i, inp.dt * ((if m.Ju k = i then (m.net geo inp wk cur co).links.xi_u k else 0)
          + (if m.Jd k = i then (m.net geo inp wk cur co).links.xi_d k else 0)) * (next.H i - prev.H i)
        = (if m.Ju k = i then endArea (cur.H (m.Ju k)) (m.z_uk k) (m.dx_uk k) (geo.B_u k)
            * (next.H i - prev.H i) else 0)
          + (if m.Jd k = i then endArea (cur.H (m.Jd k)) (m.z_dk k) (m.dx_dk k) (geo.B_d k)
            * (next.H i - prev.H i) else 0) := by
      intro i
      rw [← xi_endArea dt0, ← xi_endArea dt0]
      simp only [Model.net]
      split_ifs <;> ring
    refine Eq.trans (Finset.sum_congr rfl (fun i _ => e i)) ?_
    rw [Finset.sum_add_distrib, Finset.sum_ite_eq, Finset.sum_ite_eq,
      if_pos (Finset.mem_range.mpr h1), if_pos (Finset.mem_range.mpr h2)]
  · apply Finset.sum_congr rfl
    intro k _
    apply Finset.sum_congr rfl
    intro j _
    rw [surfaceArea_eq]

/-- **C16 (in plain variables).** In an unclipped step of a network without fixed heads the volume gained
by superjunctions, end stretches and pipes is the external inflow times the step size. -/
theorem C16_volume_change (c : m.Consistent) (ps : PhysicalStep m geo inp) (cw : CleanWork m wk.mats)
    (p : Pass m geo inp wk prev cur co x) (he : m.end_method = .b) (hb : ∀ i, i < m.M → m.bc i = false)
    (uc : Unclipped m x (m.advance geo inp wk cur co x)
      (endDepthU m geo wk cur co (m.advance geo inp wk cur co x).H)
      (endDepthD m geo wk cur co (m.advance geo inp wk cur co x).H)) :
    volumeChange m geo prev cur (m.advance geo inp wk cur co x)
      = inp.dt * ((∑ i ∈ Finset.range m.M, inp.Q_in i)
          + ∑ k ∈ Finset.range m.ix.NK, ∑ j ∈ Finset.range (m.ix.nk k + 1), inp.Q_0Ik (m.ix.I_1k k + j)) := by
  rw [← volumeGain_eq c ps, C16_volume_conservation c ps cw p he hb uc]

/-! ### C07 -/

/-- **C07 (in plain variables, networks of superlinks only).** At a superjunction without fixed head the
storage gained by it and by the end stretches attached to it equals the step size times the external
inflow plus the reported flows of the superlinks ending there minus those of the superlinks starting
there. -/
theorem C07_superlink_balance (c : m.Consistent) (ps : PhysicalStep m geo inp) (cw : CleanWork m wk.mats)
    (p : Pass m geo inp wk prev cur co x) (no : m.n_o = 0) (nw : m.n_w = 0) (np : m.n_p = 0)
    (hclip : ∀ j, j < m.M → m.z_inv j ≤ x j ∧ x j ≤ m.z_inv j + m.max_depth j)
    (i : ℕ) (hi : i < m.M) (hb : m.bc i = false) :
    (geo.As i + ∑ k ∈ Finset.range m.ix.NK,
        ((if m.Ju k = i then endArea (cur.H i) (m.z_uk k) (m.dx_uk k) (geo.B_u k) else 0)
        + (if m.Jd k = i then endArea (cur.H i) (m.z_dk k) (m.dx_dk k) (geo.B_d k) else 0)))
      * ((m.advance geo inp wk cur co x).H i - prev.H i)
    = inp.dt * (inp.Q_in i + ∑ k ∈ Finset.range m.ix.NK,
        ((if m.Jd k = i then (m.advance geo inp wk cur co x).Qd k else 0)
        - (if m.Ju k = i then (m.advance geo inp wk cur co x).Qu k else 0))) := by
  have dt0 := ps.dt_pos.ne'
  have h := C07_step c cw p hclip i hi hb
  unfold Network.Balanced at h
  have o0 : (m.net geo inp wk cur co).orifices.inflow (m.advance geo inp wk cur co x).H i = 0 := by
    simp [Ctrls.inflow, Model.net, no]
  have w0 : (m.net geo inp wk cur co).weirs.inflow (m.advance geo inp wk cur co x).H i = 0 := by
    simp [Ctrls.inflow, Model.net, nw]
  have p0 : (m.net geo inp wk cur co).pumps.inflow (m.advance geo inp wk cur co x).H i = 0 := by
    simp [Ctrls.inflow, Model.net, np]
  rw [o0, w0, p0, add_zero, add_zero, add_zero] at h
  have e1 : inp.dt * (m.net geo inp wk cur co).links.xiSum i = ∑ k ∈ Finset.range m.ix.NK,
        ((if m.Ju k = i then endArea (cur.H i) (m.z_uk k) (m.dx_uk k) (geo.B_u k) else 0)
        + (if m.Jd k = i then endArea (cur.H i) (m.z_dk k) (m.dx_dk k) (geo.B_d k) else 0)) := by
    simp only [Links.xiSum, Finset.mul_sum]
    apply Finset.sum_congr rfl
    intro k _
    rw [← xi_endArea dt0, ← xi_endArea dt0]
    by_cases a : m.Ju k = i <;> by_cases b : m.Jd k = i <;> simp [Model.net, a, b]
    ring
  have e2 : (m.net geo inp wk cur co).links.inflow (m.advance geo inp wk cur co x).H i
      = ∑ k ∈ Finset.range m.ix.NK, ((if m.Jd k = i then (m.advance geo inp wk cur co x).Qd k else 0)
        - (if m.Ju k = i then (m.advance geo inp wk cur co x).Qu k else 0)) := rfl
  have e3 : (m.net geo inp wk cur co).As i = geo.As i := rfl
  rw [← e1, ← e2, ← h, e3]
  field_simp

/-! ### Non-vacuity -/

theorem exStartTables (fx : Bool) : StartTables (exModel fx) := by
  refine ⟨fun k hk j hj => ?_, fun k hk j hj => ?_⟩ <;> simp [exModel] at *

/-- The still pond of `StepProps`: it satisfies every hypothesis above. -/
example : ∃ co x, Pass (exModel false) exGeo exInp exWork exStill exStill co x ∧
    Unclipped (exModel false) x ((exModel false).advance exGeo exInp exWork exStill co x)
      (endDepthU (exModel false) exGeo exWork exStill co
        ((exModel false).advance exGeo exInp exWork exStill co x).H)
      (endDepthD (exModel false) exGeo exWork exStill co
        ((exModel false).advance exGeo exInp exWork exStill co x).H) := by
  obtain ⟨co, x, p⟩ := C06_step_exists (prev := exStill) (cur := exStill) (exConsistent false) (exPhysical false)
    (exClean false) (fun _ _ => Or.inl rfl)
  have st := C14_still_water_partial (exConsistent false) (exPhysical false) (exClean false) (exBedOk false)
    (exInputsOk false) (exStillOk false) (exStillOk false) p
  refine ⟨co, x, p, ⟨fun j hj => ?_, fun k hk => ?_, fun k hk j h1 h2 => ?_⟩⟩
  · have h := st.H j hj
    simp only [Model.advance, clipHead, exModel] at h ⊢
    rcases le_total (x j) 0 with h1 | h1
    · rw [max_eq_right h1, min_eq_left (by norm_num)] at h; norm_num at h
    · rw [max_eq_left h1] at h
      refine ⟨h1, ?_⟩
      by_contra h2
      rw [min_eq_right (not_le.mp h2).le] at h
      norm_num at h
  · obtain ⟨-, -, e3, e4⟩ := still_ends (wk := exWork) (exConsistent false) (exPhysical false) (exBedOk false)
      (exInputsOk false) (exStillOk false) (exStillOk false) p.coefs hk
    rw [endDepthU, endDepthD, st.H _ ((exConsistent false).Ju k hk), st.H _ ((exConsistent false).Jd k hk), e3, e4]
    norm_num [exModel, exBed]
  · rw [st.h k hk j (by omega)]
    simp only [exModel] at h2
    have : j = 1 := by omega
    subst this
    norm_num [exModel, exBed]

/-- Its upstream end depth is 3: head 5 over an invert at 2. -/
example : endArea 5 2 10 1 = 5 ∧ endArea 1 2 10 1 = 0 := by
  constructor <;> norm_num [endArea]

end

end Pipedream.Step

namespace Pipedream.Driver

variable {X W I : Type} {hy : Hydraulics X W I}

/-- **C46 (what agreement means).** A fixed-point iteration that stopped before `num_iter` solves left
every superjunction head within `head_tol`, in absolute value, of its value in the previous iterate. -/
theorem C46_converged {dflt dt tol : ℝ} {numIter : ℤ} {inp : I} {s s' : Mdl X W} {e : ℕ}
    (h : superStep hy dflt (some dt) numIter tol inp s = .ok (s', e)) (he : (e : ℤ) < numIter) :
    ∃ y, (∃ w w', hy.pass s.x y w dt inp = .ok (s'.x, w')) ∧
      ∀ j, j < hy.M → ∃ a b : ℝ, hy.heads s'.x j = some a ∧ hy.heads y j = some b ∧ a - b < tol ∧ b - a < tol := by
  obtain ⟨-, -, -, e1, -, xs, ws, ch, hc, -, -⟩ := C46_step h
  refine ⟨xs (e - 1), ⟨ws (e - 1), ws e, ?_⟩, fun j hj => ?_⟩
  · have := ch.solve (e - 1) (by omega)
    rw [show e - 1 + 1 = e by omega, ch.stop] at this
    exact this
  · rw [← ch.stop]
    rcases hc he with hc | hc
    · obtain ⟨a, b, h1, h2, h3⟩ := hc j hj
      rw [abs_lt] at h3
      exact ⟨a, b, h1, h2, h3.2, by linarith [h3.1]⟩
    · obtain ⟨a, b, h1, h2, h3⟩ := hc j hj
      rw [abs_lt] at h3
      exact ⟨b, a, h2, h1, by linarith [h3.1], h3.2⟩

/-- The toy hydraulics of `DriverProps` with `num_iter = 5`: the head moves by `1/100` in the first solve,
which is below `head_tol = 1/10`, so one solve suffices. -/
example : superStep toy 60 (some (1 / 10)) 5 (1 / 10) () ⟨0, 0, 3, (0, 3), ()⟩
    = .ok (⟨1 / 10, 1, 3 + (1 / 10) ^ 2, (0, 3), ()⟩, 1) := by
  have hc : Close toy (1 / 10) (3 + (1 / 10) ^ 2 : ℝ) (3 : ℝ) := by
    intro j _
    refine ⟨3 + (1 / 10) ^ 2, 3, rfl, rfl, ?_⟩
    norm_num [abs_lt]
  simp [superStep, onePass, saveState, toy] at hc ⊢
  simp [hc]

end Pipedream.Driver
