import Verif.SteadyProps

/-!
# C172: the momentum equation of the documentation, and energy along a steady flow

`docs/governing-equations.md` gives the momentum equation with the advection term
`u_{I+1} Q_{I+1} - u_I Q_I`, the difference of the momentum carried through both ends of a link. The coefficients of
nsuperlink.py 2061–2097 (`a_ik`, `b_ik`, `c_ik`) amount to `max(u_I, 0) (Q_i - Q_{i-1}) + max(-u_{I+1}, 0) (Q_i - Q_{i+1})`
instead. The two differ by `(u_{I+1} - u_I) Q_i`.
-/

namespace Pipedream.Step

open Pipedream.Sweep Pipedream.Link Pipedream.Superlink Pipedream.Control Pipedream.Network

variable {m : Model} {geo : Geo} {inp : Inputs} {wk : Work} {prev cur : Hyd} {co : Coef ℝ} {x : ℕ → ℝ}

noncomputable section

/-! ### Specification -/

/-- Flow through a junction with velocity `u` between links carrying `Ql` and `Qr`: that of the link the water comes
from. -/
def carried (u Ql Qr : ℝ) : ℝ := if 0 < u then Ql else Qr

/-- The momentum equation of the documentation for link `j` of superlink `k`; the slopes of friction and local losses
are written as in `MomentumEq`. -/
def DocumentedMomentum (m : Model) (geo : Geo) (inp : Inputs) (prev cur next : Hyd) (k j : ℕ) : Prop :=
  let i := m.ix.i_1k k + j
  let I := m.ix.I_1k k + j
  m.dx i * ((next.Q i - prev.Q i) / inp.dt)
    + (velocityDown m geo cur k j * carried (velocityDown m geo cur k j) (next.Q i) (leaving m next k (j + 1))
      - velocityUp m geo cur k j * carried (velocityUp m geo cur k j) (arriving m next k j) (next.Q i))
    + m.g * geo.A i * (next.h (I + 1) - next.h I) - m.g * geo.A i * m.S_o i * m.dx i
    + frictionLaw m.g (m.method i) (cur.Q i) (m.dx i) (geo.A i) (geo.R i) (m.n i) * next.Q i
    + (if m.ctrl i then m.C i * geo.A i * |cur.Q i| / m.A_c i ^ 2 * next.Q i else 0) = 0

/-- Fall of the water surface along link `j` of superlink `k`. -/
def surfaceFall (m : Model) (s : Hyd) (k j : ℕ) : ℝ :=
  m.S_o (m.ix.i_1k k + j) * m.dx (m.ix.i_1k k + j) + s.h (m.ix.I_1k k + j) - s.h (m.ix.I_1k k + j + 1)

/-- Fall of the energy head along link `j` of superlink `k`: fall of the surface plus fall of the velocity head. -/
def energyFall (m : Model) (geo : Geo) (s : Hyd) (k j : ℕ) : ℝ :=
  surfaceFall m s k j + (velocityUp m geo s k j ^ 2 - velocityDown m geo s k j ^ 2) / (2 * m.g)

/-- Head lost to friction and at local losses along link `j` of superlink `k`. -/
def headLoss (m : Model) (geo : Geo) (s : Hyd) (k j : ℕ) : ℝ :=
  let i := m.ix.i_1k k + j
  (frictionLaw m.g (m.method i) (s.Q i) (m.dx i) (geo.A i) (geo.R i) (m.n i)
    + (if m.ctrl i then m.C i * geo.A i * |s.Q i| / m.A_c i ^ 2 else 0)) * s.Q i / (m.g * geo.A i)

/-! ### C172 -/

/-- The advection terms of the documentation and of the code. -/
theorem advection_eq (u v Ql Q Qr : ℝ) :
    v * carried v Q Qr - u * carried u Ql Q
      = max u 0 * (Q - Ql) + max (-v) 0 * (Q - Qr) + (v - u) * Q := by
  unfold carried
  rcases lt_or_ge 0 u with hu | hu <;> rcases lt_or_ge 0 v with hv | hv
  · rw [if_pos hu, if_pos hv, max_eq_left hu.le, max_eq_right (by linarith : -v ≤ 0)]; ring
  · rw [if_pos hu, if_neg hv.not_gt, max_eq_left hu.le, max_eq_left (by linarith : 0 ≤ -v)]; ring
  · rw [if_neg hu.not_gt, if_pos hv, max_eq_right hu, max_eq_right (by linarith : -v ≤ 0)]; ring
  · rw [if_neg hu.not_gt, if_neg hv.not_gt, max_eq_right hu, max_eq_left (by linarith : 0 ≤ -v)]; ring

theorem documented_iff_of_momentum {next : Hyd} {k j : ℕ} (hs : geo.sigma (m.ix.i_1k k + j) = 1)
    (h : MomentumEq m geo inp prev cur next k j) :
    DocumentedMomentum m geo inp prev cur next k j
      ↔ (velocityDown m geo cur k j - velocityUp m geo cur k j) * next.Q (m.ix.i_1k k + j) = 0 := by
  unfold MomentumEq at h
  simp only [hs, one_mul] at h
  unfold DocumentedMomentum
  simp only [advection_eq]
  generalize frictionLaw m.g _ _ _ _ _ _ = fr at h ⊢
  constructor <;> intro h' <;> split_ifs at h h' ⊢ <;> linarith

/-- **C172 (the step).** Where no limit is active and inertia is not damped, the new flow of a link obeys the
documented momentum equation if and only if the water enters and leaves the link equally fast, or the link carries
no flow. -/
theorem C172_documented_iff (c : m.Consistent) (st : StartTables m) (ps : PhysicalStep m geo inp)
    (p : Pass m geo inp wk prev cur co x) (he : m.end_method = .b)
    (uc : Unclipped m x (m.advance geo inp wk cur co x)
      (endDepthU m geo wk cur co (m.advance geo inp wk cur co x).H)
      (endDepthD m geo wk cur co (m.advance geo inp wk cur co x).H))
    {k j : ℕ} (hk : k < m.ix.NK) (hj : j < m.ix.nk k) (hs : geo.sigma (m.ix.i_1k k + j) = 1) :
    DocumentedMomentum m geo inp prev cur (m.advance geo inp wk cur co x) k j ↔
      velocityDown m geo cur k j = velocityUp m geo cur k j ∨
        (m.advance geo inp wk cur co x).Q (m.ix.i_1k k + j) = 0 := by
  rw [documented_iff_of_momentum hs ((C01_momentum_and_continuity c st ps p he uc hk).1 j hj), mul_eq_zero, sub_eq_zero]

/-- Without lateral inflow a steady superlink carries the same flow throughout. -/
theorem steady_through {s : Hyd} (sd : Steady m geo inp s) {k : ℕ} (hk : k < m.ix.NK)
    (h0 : ∀ j, j ≤ m.ix.nk k → inp.Q_0Ik (m.ix.I_1k k + j) = 0) :
    (∀ j, j ≤ m.ix.nk k → arriving m s k j = s.Qu k) ∧ (∀ j, j ≤ m.ix.nk k → leaving m s k j = s.Qu k) := by
  have e : ∀ j, j ≤ m.ix.nk k → leaving m s k j = arriving m s k j := fun j hj => by
    have := sd.continuity k hk j hj
    rw [h0 j hj] at this
    linarith
  have a : ∀ j, j ≤ m.ix.nk k → arriving m s k j = s.Qu k := by
    intro j
    induction j with
    | zero => intro _; simp [arriving]
    | succ j ih =>
      intro hj
      have h1 : arriving m s k (j + 1) = leaving m s k j := by
        unfold arriving leaving
        rw [if_neg (by omega), if_neg (by omega)]
        congr 1
      rw [h1, e j (by omega), ih (by omega)]
  exact ⟨a, fun j hj => (e j hj).trans (a j hj)⟩

/-- **C172 (steady surface).** In steady flow without lateral inflow the water surface falls along every link by the
head lost to friction and local losses; how fast the water enters and leaves plays no part. -/
theorem C172_surface (ps : PhysicalStep m geo inp) (c : m.Consistent) {s : Hyd} (sd : Steady m geo inp s) {k : ℕ}
    (hk : k < m.ix.NK) (h0 : ∀ j, j ≤ m.ix.nk k → inp.Q_0Ik (m.ix.I_1k k + j) = 0) {j : ℕ} (hj : j < m.ix.nk k) :
    surfaceFall m s k j = headLoss m geo s k j := by
  obtain ⟨a, l⟩ := steady_through sd hk h0
  have q : s.Q (m.ix.i_1k k + j) = s.Qu k := by
    have := l j hj.le
    unfold leaving at this
    rwa [if_neg (by omega)] at this
  have h := sd.momentum k hk j hj
  rw [a j hj.le, l (j + 1) hj, q, sub_self, mul_zero, mul_zero, add_zero, add_zero] at h
  have lt := c.inN k hk
  have hA := ps.A_pos (m.ix.i_1k k + j) (by omega)
  have hg := ps.g_pos
  unfold surfaceFall headLoss
  simp only [q]
  rw [eq_div_iff (by positivity), add_mul]
  split_ifs at h ⊢ <;> linarith

/-- **C172 (energy line).** In such a flow the energy head falls by the head lost if and only if the water enters and
leaves the link equally fast: the step has no velocity head. -/
theorem C172_energy_iff (ps : PhysicalStep m geo inp) (c : m.Consistent) {s : Hyd} (sd : Steady m geo inp s) {k : ℕ}
    (hk : k < m.ix.NK) (h0 : ∀ j, j ≤ m.ix.nk k → inp.Q_0Ik (m.ix.I_1k k + j) = 0) {j : ℕ} (hj : j < m.ix.nk k) :
    energyFall m geo s k j = headLoss m geo s k j ↔
      |velocityUp m geo s k j| = |velocityDown m geo s k j| := by
  have hg := ps.g_pos
  rw [energyFall, C172_surface ps c sd hk h0 hj, add_eq_left, div_eq_zero_iff, sub_eq_zero, sq_eq_sq_iff_abs_eq_abs]
  constructor
  · rintro (h | h)
    · exact h
    · linarith
  · exact .inl

/-- **C172 (no rise).** In such a flow the surface nowhere rises in the direction of the flow, so that no water is
raised by slowing down: there are no hydraulic jumps, and a widening recovers no level. -/
theorem C172_no_rise (ps : PhysicalStep m geo inp) (c : m.Consistent) {s : Hyd} (sd : Steady m geo inp s) {k : ℕ}
    (hk : k < m.ix.NK) (h0 : ∀ j, j ≤ m.ix.nk k → inp.Q_0Ik (m.ix.I_1k k + j) = 0) {j : ℕ} (hj : j < m.ix.nk k)
    (hC : m.ctrl (m.ix.i_1k k + j) = true → 0 ≤ m.C (m.ix.i_1k k + j)) (hm : m.method (m.ix.i_1k k + j) = 0) :
    0 ≤ s.Q (m.ix.i_1k k + j) * surfaceFall m s k j := by
  rw [C172_surface ps c sd hk h0 hj, headLoss]
  have lt := c.inN k hk
  have hA := ps.A_pos (m.ix.i_1k k + j) (by omega)
  have hR := ps.R_pos (m.ix.i_1k k + j) (by omega)
  have hdx := ps.dx_pos (m.ix.i_1k k + j) (by omega)
  have hg := ps.g_pos
  have hr := Real.rpow_pos_of_pos hR (4 / 3 : ℝ)
  have f0 : 0 ≤ frictionLaw m.g (m.method (m.ix.i_1k k + j)) (s.Q (m.ix.i_1k k + j)) (m.dx (m.ix.i_1k k + j))
      (geo.A (m.ix.i_1k k + j)) (geo.R (m.ix.i_1k k + j)) (m.n (m.ix.i_1k k + j)) := by
    rw [frictionLaw, if_pos hm]
    have := abs_nonneg (s.Q (m.ix.i_1k k + j))
    positivity
  have l0 : 0 ≤ (if m.ctrl (m.ix.i_1k k + j) then m.C (m.ix.i_1k k + j) * geo.A (m.ix.i_1k k + j)
      * |s.Q (m.ix.i_1k k + j)| / m.A_c (m.ix.i_1k k + j) ^ 2 else 0) := by
    split_ifs with h
    · have := hC h
      positivity
    · exact le_rfl
  rw [← mul_div_assoc, mul_left_comm]
  exact div_nonneg (mul_nonneg (add_nonneg f0 l0) (mul_self_nonneg _)) (by positivity)

/-! ### A pipe that narrows -/

/-- Two smooth links of areas 2 and 1 on slope 1/10000. -/
def narrowModel : Model :=
  { exSteadyModel with S_o := fun _ => 1 / 10000, n := fun _ => 1 / 100, z_dk := fun _ => 1.998 }

def narrowGeo : Geo := { exSteadyGeo with A := fun i => if i = 0 then 2 else 1 }

def narrow : Hyd := { exSteady with
  H := fun i => if i = 0 then 3.1 else 2.89875
  h := fun I => if I = 0 then 1 else 1.00075 }

theorem narrowConsistent : narrowModel.Consistent :=
  ⟨exSteadyConsistent.layout, exSteadyConsistent.inN, exSteadyConsistent.nodes, exSteadyConsistent.Ju,
    exSteadyConsistent.Jd, exSteadyConsistent.Juo, exSteadyConsistent.Jdo, exSteadyConsistent.Juw,
    exSteadyConsistent.Jdw, exSteadyConsistent.Jup, exSteadyConsistent.Jdp⟩

theorem narrowPhysical : PhysicalStep narrowModel narrowGeo exSteadyInp := by
  constructor <;> intros <;>
    norm_num [narrowModel, narrowGeo, exSteadyModel, exSteadyGeo, exSteadyInp, exModel, exGeo, exInp]
  split_ifs <;> norm_num

theorem narrowSteady : Steady narrowModel narrowGeo exSteadyInp narrow := by
  have ar : ∀ k j, arriving narrowModel narrow k j = 1 := by
    intro k j; unfold arriving; split_ifs <;> rfl
  have le : ∀ k j, leaving narrowModel narrow k j = 1 := by
    intro k j; unfold leaving; split_ifs <;> rfl
  refine ⟨fun i _ _ f hf => ?_, fun i hi _ => ?_, fun k hk j hj => ?_, fun k hk j hj => ?_, fun k hk => ?_,
    fun k hk => ?_, ?_, ?_, ?_⟩
  · simp [exSteadyInp, exInp] at hf
  · obtain rfl | rfl : i = 0 ∨ i = 1 := by simp [narrowModel, exSteadyModel, exModel] at hi; omega
    · norm_num [netInto, narrowModel, exSteadyModel, exModel, narrow, exSteady, exSteadyInp]
    · norm_num [netInto, narrowModel, exSteadyModel, exModel, narrow, exSteady, exSteadyInp]
  · rw [ar, le]
    have hj : j < 2 := hj
    obtain rfl | rfl : j = 0 ∨ j = 1 := by omega
    · norm_num [frictionLaw, narrowModel, narrowGeo, exSteadyModel, exSteadyGeo, exModel, narrow, exSteady]
    · norm_num [frictionLaw, narrowModel, narrowGeo, exSteadyModel, exSteadyGeo, exModel, narrow, exSteady]
  · rw [ar, le]; simp [exSteadyInp, exInp]
  · norm_num [narrowModel, narrowGeo, exSteadyModel, exModel, narrow, exSteady, exSteadyGeo, exGeo]
  · norm_num [narrowModel, narrowGeo, exSteadyModel, exModel, narrow, exSteady, exSteadyGeo, exGeo]
  · intro o ho; simp [narrowModel, exSteadyModel] at ho
  · intro o ho; simp [narrowModel, exSteadyModel] at ho
  · intro o ho; simp [narrowModel, exSteadyModel] at ho

theorem narrowInside : Inside narrowModel narrow := by
  refine ⟨fun i hi => ?_, fun k hk j hj => ?_, fun k hk j h1 h2 => ?_, fun k hk => ?_⟩
  · obtain rfl | rfl : i = 0 ∨ i = 1 := by simp [narrowModel, exSteadyModel, exModel] at hi; omega
    · norm_num [narrowModel, exSteadyModel, exModel, narrow]
    · norm_num [narrowModel, exSteadyModel, exModel, narrow]
  · simp only [narrowModel, exSteadyModel, exModel, narrow]; split_ifs <;> norm_num
  · simp only [narrowModel, exSteadyModel, exModel, narrow]; split_ifs <;> norm_num
  · norm_num [narrowModel, exSteadyModel, exModel]

/-- **C172, violated.** Water flows steadily through a pipe which narrows to half its area. Every pass reproduces the
state, although along both links the energy head of the water rises. -/
theorem C172_energy_rises : ∃ (m : Model) (geo : Geo) (inp : Inputs) (wk : Work) (s : Hyd), m.Consistent ∧
    PhysicalStep m geo inp ∧ Inside m s ∧
    (∃ co x, Pass m geo inp wk s s co x ∧ SameState m s (m.advance geo inp wk s co x)) ∧
    (∀ i, geo.sigma i = 1) ∧ 0 < m.ix.NK ∧ m.ix.nk 0 = 2 ∧
    ∀ j, j < 2 → 0 < s.Q (m.ix.i_1k 0 + j) ∧ energyFall m geo s 0 j < 0 ∧ 0 < headLoss m geo s 0 j := by
  have cw : CleanWork narrowModel exWork.mats :=
    ⟨⟨fun _ _ _ _ => rfl⟩, ⟨fun _ _ _ _ => rfl, fun _ _ => rfl⟩, ⟨fun _ _ _ _ => rfl, fun _ _ => rfl⟩,
      ⟨fun _ _ _ _ => rfl, fun _ _ => rfl⟩⟩
  obtain ⟨co, x, p⟩ := C06_step_exists (prev := narrow) (cur := narrow) narrowConsistent narrowPhysical cw
    (fun _ _ => Or.inl rfl)
  have st := exStartTables false
  have pr : ProperControls narrowModel narrowGeo exSteadyInp narrow := by
    refine ⟨?_, ?_, ?_, ?_, ?_⟩ <;> intro k hk
    · norm_num [narrowGeo, exSteadyGeo, exGeo]
    · norm_num [narrowGeo, exSteadyGeo, exGeo]
    all_goals simp [narrowModel, exSteadyModel] at hk
  refine ⟨narrowModel, narrowGeo, exSteadyInp, exWork, narrow, narrowConsistent, narrowPhysical, narrowInside,
    ⟨co, x, p, C100_steady_reproduced narrowConsistent ⟨st.first, st.last⟩ narrowPhysical cw rfl pr narrowInside
      (SameState.refl _ _) narrowSteady p⟩, fun _ => rfl, by norm_num [narrowModel, exSteadyModel, exModel], rfl,
    fun j hj => ?_⟩
  obtain rfl | rfl : j = 0 ∨ j = 1 := by omega
  · refine ⟨by norm_num [narrow, exSteady], ?_, ?_⟩
    · norm_num [energyFall, surfaceFall, velocityUp, velocityDown, narrowModel, narrowGeo, exSteadyModel,
        exSteadyGeo, exModel, narrow, exSteady]
    · norm_num [headLoss, frictionLaw, narrowModel, narrowGeo, exSteadyModel, exSteadyGeo, exModel, narrow, exSteady]
  · refine ⟨by norm_num [narrow, exSteady], ?_, ?_⟩
    · norm_num [energyFall, surfaceFall, velocityUp, velocityDown, narrowModel, narrowGeo, exSteadyModel,
        exSteadyGeo, exModel, narrow, exSteady]
    · norm_num [headLoss, frictionLaw, narrowModel, narrowGeo, exSteadyModel, exSteadyGeo, exModel, narrow, exSteady]

end

end Pipedream.Step
